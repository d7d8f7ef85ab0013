import Verif.Props.BaggingWeights
import Verif.Props.Uniqueness

/-!
Property theorems C89: fitting on some of the events draws according to the overlaps among these events
(`/repo/mizarlabs/model/sequentially_bootstrapped_bagging_classifier.py` lines 333-341).
-/

namespace Mizar.Props
open Mizar.Spec Mizar.Bag Mizar.Boot

theorem seqProb_congr {M M' : IndMat} {drawn : List ℕ} (hc : M.nCols = M'.nCols)
    (h : ∀ j < M.nCols, seqUniq M drawn j = seqUniq M' drawn j) : seqProb M drawn = seqProb M' drawn := by
  unfold seqProb
  rw [← hc]
  have hs : ∑ i ∈ Finset.range M.nCols, seqUniq M drawn i = ∑ i ∈ Finset.range M.nCols, seqUniq M' drawn i :=
    Finset.sum_congr rfl fun i hi => h i (Finset.mem_range.1 hi)
  rw [hs]
  apply List.map_congr_left
  intro j hj
  rw [h j (List.mem_range.1 hj)]

/-- Two matrices with the same uniqueness given any draws lead to the same draws. -/
theorem trace_congr (M M' : IndMat) (hc : M.nCols = M'.nCols) (rng : ℕ → List (XF ℚ) → ℕ → List ℕ)
    (hrng : ValidRng M.nCols rng)
    (hu : ∀ drawn : List ℕ, (∀ x ∈ drawn, x < M.nCols) → ∀ j < M.nCols, seqUniq M drawn j = seqUniq M' drawn j)
    (len : Option ℤ) (k : ℤ) : seqBootstrapTrace M rng len k = seqBootstrapTrace M' rng len k := by
  unfold seqBootstrapTrace
  simp only
  rw [← hc]
  split
  · rfl
  split
  · rfl
  generalize (len.getD (M.nCols : ℤ)) = L
  generalize (⌈(L : ℚ) / (k : ℚ)⌉).toNat = fuel
  have s1 := bootLoop_spec M rng L k fuel 0 [] [] (initState M) (inv_init M)
  have s2 := bootLoop_spec M' rng L k fuel 0 [] [] (initState M') (inv_init M')
  by_cases h0 : 0 < M.nCols ∨ fuel = 0
  · obtain ⟨tr, e1, l1, p1⟩ := s1.2 h0
    obtain ⟨tr', e2, l2, p2⟩ := s2.2 (by rwa [← hc])
    rw [e1, e2]
    have key : ∀ n ≤ fuel, tr.take n = tr'.take n := by
      intro n
      induction n with
      | zero => intro _; simp
      | succ n ih =>
        intro hn
        have ih := ih (by omega)
        have h1 : n < tr.length := by omega
        have h2 : n < tr'.length := by omega
        rw [List.take_succ_eq_append_getElem h1, List.take_succ_eq_append_getElem h2, ih]
        congr 2
        obtain ⟨a1, b1⟩ := p1 n h1
        obtain ⟨a2, b2⟩ := p2 n h2
        have hval : ∀ x ∈ ((tr.take n).map (·.2)).flatten, x < M.nCols := by
          intro x hx
          obtain ⟨l, hl, hxl⟩ := List.mem_flatten.1 hx
          obtain ⟨p, hp, rfl⟩ := List.mem_map.1 hl
          obtain ⟨i, hi, rfl⟩ := List.getElem_of_mem (List.mem_of_mem_take hp)
          rw [(p1 i hi).2] at hxl
          exact (hrng _ _ _).2 x hxl
        have hp : (tr[n]).1 = (tr'[n]).1 := by
          rw [a1, a2, ← ih]
          exact seqProb_congr hc fun j hj => hu _ (by simpa [initState] using hval) j hj
        refine Prod.ext hp ?_
        rw [b1, b2, hp]
    have := key fuel (le_refl _)
    rw [List.take_of_length_le (by omega), List.take_of_length_le (by omega)] at this
    rw [this]
  · push Not at h0
    rw [s1.1 (by omega) (by omega), s2.1 (by omega) (by omega)]

/-- A matrix whose column `j` marks the row times in the life span of event `es[j]`. -/
structure Marks (N : IndMat) (bi : List ℤ) (es : List (ℤ × ℤ)) : Prop where
  nodup : bi.Nodup
  nRows : N.nRows = bi.length
  nCols : N.nCols = es.length
  ent : ∀ t j (_ : t < bi.length) (_ : j < es.length), N.ent t j = true ↔ Covers es[j] bi[t]

/-- Uniqueness given some draws, in terms of the events and the times only. -/
theorem seqUniq_marks {N : IndMat} {bi : List ℤ} {es : List (ℤ × ℤ)} (h : Marks N bi es) (drawn : List ℕ)
    (hd : ∀ x ∈ drawn, x < es.length) (j : ℕ) (hj : j < es.length) :
    seqUniq N drawn j =
      let T := bi.toFinset.filter (Covers es[j] ·)
      if T.card = 0 then 1
      else (∑ x ∈ T, (1 : ℚ) / (1 + (((drawn.filter fun i => decide (Covers (es.getD i (0, 0)) x)).length : ℕ) : ℚ))) / (T.card : ℚ) := by
  have hmem : ∀ t, t ∈ barsOf N j → ∃ h : t < bi.length, Covers es[j] bi[t] := by
    intro t ht
    obtain ⟨h1, h2⟩ := Finset.mem_filter.1 ht
    rw [Finset.mem_range, h.nRows] at h1
    exact ⟨h1, (h.ent t j h1 hj).1 h2⟩
  have himg : ((barsOf N j).image fun t => bi.getD t 0) = bi.toFinset.filter (Covers es[j] ·) := by
    ext x
    simp only [Finset.mem_image, Finset.mem_filter, List.mem_toFinset]
    constructor
    · rintro ⟨t, ht, rfl⟩
      obtain ⟨h1, h2⟩ := hmem t ht
      simp only [List.getD_eq_getElem?_getD, List.getElem?_eq_getElem h1, Option.getD_some]
      exact ⟨List.getElem_mem h1, h2⟩
    · rintro ⟨hx, hcv⟩
      obtain ⟨t, ht, rfl⟩ := List.getElem_of_mem hx
      refine ⟨t, ?_, by simp [List.getElem?_eq_getElem ht]⟩
      rw [barsOf, Finset.mem_filter, Finset.mem_range, h.nRows]
      exact ⟨ht, (h.ent t j ht hj).2 hcv⟩
  have hinj : Set.InjOn (fun t => bi.getD t 0) (barsOf N j) := by
    intro a ha b hb hab
    obtain ⟨h1, _⟩ := hmem a ha
    obtain ⟨h2, _⟩ := hmem b hb
    simp only [List.getD_eq_getElem?_getD, List.getElem?_eq_getElem h1, List.getElem?_eq_getElem h2,
      Option.getD_some] at hab
    exact (h.nodup.getElem_inj_iff).1 hab
  unfold seqUniq
  dsimp only
  rw [← himg, Finset.card_image_of_injOn hinj, Finset.sum_image (fun a ha b hb => hinj ha hb)]
  congr 2
  apply Finset.sum_congr rfl
  intro t ht
  obtain ⟨h1, _⟩ := hmem t ht
  unfold drawnAt
  have hf : (drawn.filter fun i => N.ent t i) = drawn.filter fun i => decide (Covers (es.getD i (0, 0)) (bi.getD t 0)) := by
    apply List.filter_congr
    intro i hi
    have hi' := hd i hi
    rw [Bool.eq_iff_iff, h.ent t i h1 hi', decide_eq_true_eq]
    simp [List.getElem?_eq_getElem hi', List.getElem?_eq_getElem h1]
  rw [hf]

/-- The columns chosen for the rows of `X` are those of the events starting at these times. -/
theorem subsampleCols_spec (info : List (ℤ × ℤ)) (hnd : (info.map (·.1)).Nodup) (xs : List (ℤ × ℤ)) (hsub : ∀ x ∈ xs, x ∈ info) :
    (subsampleCols (info.map (·.1)) (xs.map (·.1))).map (fun i => info.getD i (0, 0)) = xs ∧
    ∀ i ∈ subsampleCols (info.map (·.1)) (xs.map (·.1)), i < info.length := by
  constructor
  · unfold subsampleCols
    induction xs with
    | nil => rfl
    | cons x xs ih =>
      rw [List.map_cons, List.flatMap_cons, List.map_append, ih fun y hy => hsub y (List.mem_cons_of_mem _ hy)]
      obtain ⟨k, hk, hkx⟩ := List.getElem_of_mem (hsub x List.mem_cons_self)
      have h1 : (List.range (info.map (·.1)).length).filter (fun i => decide ((info.map (·.1))[i]? = some x.1)) = [k] := by
        have hperm : (List.range (info.map (·.1)).length).filter (fun i => decide ((info.map (·.1))[i]? = some x.1)) =
            (List.range (info.map (·.1)).length).filter (fun i => decide (i = k)) := by
          apply List.filter_congr
          intro i hi
          have hi' := List.mem_range.1 hi
          simp only [List.getElem?_eq_getElem hi', Option.some.injEq, decide_eq_decide]
          constructor
          · intro h
            have hk' : k < (info.map (·.1)).length := by simpa using hk
            refine (hnd.getElem_inj_iff (hi := hi') (hj := hk')).1 (h.trans ?_)
            rw [List.getElem_map, hkx]
          · rintro rfl
            rw [List.getElem_map, hkx]
        rw [hperm, List.filter_eq, List.count_range, if_pos (by simpa using hk)]
        rfl
      rw [h1]
      simp [List.getElem?_eq_getElem hk, hkx]
  · intro i hi
    obtain ⟨x, _, hx⟩ := List.mem_flatMap.1 hi
    simpa using (List.mem_filter.1 hx).1

theorem marks_ind {ev : List (ℤ × ℤ)} {bars : List ℤ} {M : IndMat} {bi : List ℤ}
    (h : getIndMatrix (ev.map fun e => (some e.1, some e.2)) bars = .ok (M, bi)) : Marks M bi ev := by
  obtain ⟨h1, _, h3, h4, h5⟩ := C11_indicator_matrix ev bars M bi h
  exact ⟨h1.imp ne_of_lt, h3, h4, fun t j ht hj => h5 t j ht hj⟩

theorem marks_select {N : IndMat} {bi : List ℤ} {es : List (ℤ × ℤ)} (h : Marks N bi es) (cols : List ℕ)
    (hc : ∀ i ∈ cols, i < es.length) : Marks (selectCols N cols) bi (cols.map fun i => es.getD i (0, 0)) := by
  refine ⟨h.nodup, h.nRows, by simp [selectCols], ?_⟩
  intro t j ht hj
  rw [List.length_map] at hj
  have hi := hc _ (List.getElem_mem hj)
  have := h.ent t cols[j] ht hi
  simp only [selectCols, List.getD_eq_getElem?_getD, List.getElem?_eq_getElem hj, Option.getD_some, List.getElem_map,
    List.getElem?_eq_getElem hi]
  exact this

theorem filter_covers {ev : List (ℤ × ℤ)} {bars : List ℤ} {M : IndMat} {bi : List ℤ}
    (h : getIndMatrix (ev.map fun e => (some e.1, some e.2)) bars = .ok (M, bi))
    (hb : ∀ e ∈ ev, e.1 ∈ bars ∧ e.2 ∈ bars) (e : ℤ × ℤ) (he : e ∈ ev) :
    bi.toFinset.filter (Covers e ·) = bars.toFinset.filter (Covers e ·) := by
  obtain ⟨_, h2, _⟩ := C11_indicator_matrix ev bars M bi h
  ext x
  simp only [Finset.mem_filter, List.mem_toFinset]
  constructor
  · rintro ⟨hx, hcv⟩
    refine ⟨?_, hcv⟩
    rcases (h2 x).1 hx with ⟨e', he', rfl⟩ | ⟨e', he', rfl⟩ | ⟨hx, _⟩
    · exact (hb e' he').1
    · exact (hb e' he').2
    · exact hx
  · rintro ⟨hx, hcv⟩
    exact ⟨(h2 x).2 (Or.inr (Or.inr ⟨hx, ⟨e, he, hcv.1⟩, ⟨e, he, hcv.2⟩⟩)), hcv⟩

/-- C89: a classifier made for all events and fitted on some of them (in any order) has the same outcome and the same fitted
attributes as a classifier made for these events only, whatever the generator, the base estimator, the configuration and
the earlier fits: overlaps with the events left out play no role. -/
theorem C89_subset {Est : Type} (b : Base Est) (stream : ℕ → ℕ) (c : Cfg) (s : Fitted Est) (hj : 1 ≤ c.nJobs)
    (ev xs : List (ℤ × ℤ)) (bars : List ℤ) (hnd : (ev.map (·.1)).Nodup) (hxs : (xs.map (·.1)).Nodup) (hsub : ∀ x ∈ xs, x ∈ ev)
    (hb : ∀ e ∈ ev, e.1 ∈ bars ∧ e.2 ∈ bars) (M M' : IndMat) (bi bi' : List ℤ)
    (hM : getIndMatrix (ev.map fun e => (some e.1, some e.2)) bars = .ok (M, bi))
    (hM' : getIndMatrix (xs.map fun e => (some e.1, some e.2)) bars = .ok (M', bi'))
    (hrng : ∀ seed, ValidRng xs.length (b.rng seed)) (nf : ℕ) (w : Option (List ℚ)) :
    fit b stream c ⟨M, ev.map (·.1), xs.map (·.1), nf, w⟩ s = fit b stream c ⟨M', xs.map (·.1), xs.map (·.1), nf, w⟩ s := by
  rw [fit_eq _ _ _ _ _ hj, fit_eq _ _ _ _ _ hj]
  have hpre : pre c ⟨M, ev.map (·.1), xs.map (·.1), nf, w⟩ = pre c ⟨M', xs.map (·.1), xs.map (·.1), nf, w⟩ := by
    unfold pre
    dsimp only
    rw [if_neg (not_not.2 ?_), if_neg (not_not.2 fun x hx => hx)]
    intro x hx
    obtain ⟨e, he, rfl⟩ := List.mem_map.1 hx
    exact List.mem_map.2 ⟨e, hsub e he, rfl⟩
  rw [hpre]
  obtain ⟨c1, c2⟩ := subsampleCols_spec ev hnd xs hsub
  obtain ⟨d1, d2⟩ := subsampleCols_spec xs hxs xs fun x hx => hx
  have m1 := marks_select (marks_ind hM) _ c2
  have m2 := marks_select (marks_ind hM') _ d2
  rw [c1] at m1
  rw [d1] at m2
  have hboot : ∀ seed len k, seqBootstrap (selectCols M (subsampleCols (ev.map (·.1)) (xs.map (·.1)))) (b.rng seed) len k =
      seqBootstrap (selectCols M' (subsampleCols (xs.map (·.1)) (xs.map (·.1)))) (b.rng seed) len k := by
    intro seed len k
    unfold seqBootstrap
    rw [trace_congr _ _ (m1.nCols.trans m2.nCols.symm) (b.rng seed) (by rw [m1.nCols]; exact hrng seed) ?_ len k]
    intro drawn hd j hj'
    rw [m1.nCols] at hd hj'
    rw [seqUniq_marks m1 drawn hd j hj', seqUniq_marks m2 drawn hd j hj']
    have hm := List.getElem_mem hj'
    dsimp only
    rw [filter_covers hM hb _ (hsub _ hm), filter_covers hM' (fun e he => hb e (hsub e he)) _ hm]
  cases pre c ⟨M', xs.map (·.1), xs.map (·.1), nf, w⟩ with
  | error e => rfl
  | ok m =>
    dsimp only
    unfold core
    dsimp only
    have hball : ∀ seeds, buildAll b ⟨M, ev.map (·.1), xs.map (·.1), nf, w⟩ c.updateEvery m seeds =
        buildAll b ⟨M', xs.map (·.1), xs.map (·.1), nf, w⟩ c.updateEvery m seeds := by
      intro seeds
      unfold buildAll
      dsimp only
      congr 1
      have : (buildOne b ⟨M, ev.map (·.1), xs.map (·.1), nf, w⟩
          (selectCols M (subsampleCols (ev.map (·.1)) (xs.map (·.1)))) m.2.toNat m.1.toNat c.updateEvery) =
        buildOne b ⟨M', xs.map (·.1), xs.map (·.1), nf, w⟩
          (selectCols M' (subsampleCols (xs.map (·.1)) (xs.map (·.1)))) m.2.toNat m.1.toNat c.updateEvery := by
        funext seed
        unfold buildOne
        dsimp only
        rw [hboot]
      rw [this]
    rw [hball]

/-- Three events in a row, each overlapping the next; the middle one is left out by the second matrix. -/
example : ∃ M bi M' bi', getIndMatrix ([((10 : ℤ), (20 : ℤ)), (20, 30), (30, 40)].map fun e => (some e.1, some e.2)) [10, 20, 30, 40] = .ok (M, bi) ∧
    getIndMatrix ([((10 : ℤ), (20 : ℤ)), (30, 40)].map fun e => (some e.1, some e.2)) [10, 20, 30, 40] = .ok (M', bi') ∧
    M.toLists = [[true, false, false], [true, true, false], [false, true, true], [false, false, true]] ∧
    (selectCols M (subsampleCols [10, 20, 30] [10, 30])).toLists = M'.toLists ∧
    ValidRng 2 (fun i _ m => List.replicate m (i % 2)) := by
  refine ⟨_, _, _, _, rfl, rfl, by decide +kernel, by decide +kernel, ?_⟩
  intro i p m
  refine ⟨by simp, ?_⟩
  intro x hx
  have := (List.mem_replicate.1 hx).2
  omega

/-- The order of the rows of `X` is followed. -/
example : subsampleCols [10, 20, 30] [30, 10] = [2, 0] := by decide

/-- C89: a cold fit of a classifier whose events start at different times returns normally exactly when the times of `X` are
event starts, the weights fit the rows and are understood by the base estimator, and the parameters are valid; it then holds
`n_estimators` estimators. -/
theorem C89_fit_returns_iff {Est : Type} (b : Base Est) (stream : ℕ → ℕ) (c : Cfg) (d : Data) (s : Fitted Est) (hj : 1 ≤ c.nJobs)
    (hc : c.warmStart = false) (hu : 1 ≤ c.updateEvery) (hnd : d.infoIndex.Nodup) (hrng : ∀ seed, ValidRng d.xIndex.length (b.rng seed)) :
    ((fit b stream c d s).1 = .ok () ↔
      (∀ x ∈ d.xIndex, x ∈ d.infoIndex) ∧ (∀ w, d.weights = some w → w.length = d.xIndex.length ∧ b.supportsWeight = true) ∧
      1 ≤ c.nEstimators ∧ (∃ m, resolveMaxSamples c.maxSamples d.xIndex.length = .ok m) ∧
      ∃ m, resolveMaxFeatures c.maxFeatures d.nFeatures = .ok m) ∧
    ((fit b stream c d s).1 = .ok () → (nFitted (fit b stream c d s).2 : ℤ) = c.nEstimators) := by
  rw [fit_eq b stream c d s hj]
  have hst : startState c s = ⟨some [], [], []⟩ := by simp [startState, hc]
  rw [hst]
  by_cases hx : ∀ x ∈ d.xIndex, x ∈ d.infoIndex
  swap
  · have : pre c d = .error .assertionError := by unfold pre; rw [if_pos hx]
    rw [this]
    simp [hx]
  by_cases hw : d.weights.any (fun w => decide (w.length ≠ d.xIndex.length)) = true
  · have : pre c d = .error .valueError := by unfold pre; rw [if_neg (not_not.2 hx), if_pos hw]
    rw [this]
    cases hww : d.weights with
    | none => rw [hww] at hw; simp at hw
    | some w =>
      rw [hww] at hw
      have hw : w.length ≠ d.xIndex.length := by simpa using hw
      refine ⟨⟨by simp, ?_⟩, by simp⟩
      rintro ⟨_, h2, _⟩
      exact absurd (h2 w rfl).1 hw
  by_cases hn : c.nEstimators ≤ 0
  · have : pre c d = .error .valueError := by unfold pre; rw [if_neg (not_not.2 hx), if_neg hw, if_pos hn]
    rw [this]
    refine ⟨⟨by simp, ?_⟩, by simp⟩
    rintro ⟨_, _, h3, _⟩
    omega
  have hpre : pre c d = match resolveMaxSamples c.maxSamples d.xIndex.length with
    | .error e => .error e
    | .ok maxS =>
      match resolveMaxFeatures c.maxFeatures d.nFeatures with
      | .error e => .error e
      | .ok maxF => .ok (maxS, maxF) := by
    unfold pre
    rw [if_neg (not_not.2 hx), if_neg hw, if_neg hn, hc]
    simp only [Bool.false_and, Bool.false_eq_true, if_false]
    rfl
  rw [hpre]
  cases hms : resolveMaxSamples c.maxSamples d.xIndex.length with
  | error e => simp
  | ok maxS =>
    cases hmf : resolveMaxFeatures c.maxFeatures d.nFeatures with
    | error e => simp
    | ok maxF =>
      dsimp only
      have hm0 : 0 < maxS ∧ maxS ≤ d.xIndex.length := by
        have hx1 : 1 ≤ d.xIndex.length := by
          by_contra h0
          have h0 : d.xIndex.length = 0 := by omega
          rw [h0] at hms
          unfold resolveMaxSamples at hms
          dsimp only at hms
          split at hms
          · split at hms
            · rename_i h; simp at h; omega
            · cases hms
          · split at hms
            · cases hms
            · cases hms
            · cases hms
            · split at hms
              · rename_i h; simp at h; omega
              · cases hms
        have := (C24_max_samples_partial d.xIndex.length hx1).1 _ _ hms
        omega
      unfold core
      simp only [Option.getD_some, List.length_nil, Nat.cast_zero, Nat.sub_zero, Nat.zero_add, List.nil_append]
      rw [if_neg (by omega), if_neg (by omega)]
      have hcols : (selectCols d.mat (subsampleCols d.infoIndex d.xIndex)).nCols = d.xIndex.length :=
        length_subsampleCols _ _ hnd hx
      unfold buildAll
      by_cases hsw : (!b.supportsWeight && d.weights.isSome) = true
      · rw [if_pos hsw]
        refine ⟨⟨by simp, ?_⟩, by simp⟩
        rintro ⟨_, h2, _⟩
        obtain ⟨w, hww⟩ := Option.isSome_iff_exists.1 (by simpa using (Bool.and_eq_true _ _ ▸ hsw : _ ∧ _).2)
        have := (h2 w hww).2
        rw [this] at hsw
        simp at hsw
      · rw [if_neg hsw]
        have hone : ∀ seed, ∃ r, buildOne b d (selectCols d.mat (subsampleCols d.infoIndex d.xIndex)) maxF.toNat maxS.toNat
            c.updateEvery seed = .ok r := by
          intro seed
          obtain ⟨idx, hidx, _, hir⟩ := C16_length_and_range (selectCols d.mat (subsampleCols d.infoIndex d.xIndex))
            (by rw [hcols]; omega) (b.rng seed) (by rw [hcols]; exact hrng _) (some (maxS.toNat : ℤ)) c.updateEvery hu
          rw [hcols] at hir
          unfold buildOne
          dsimp only
          rw [hidx]
          dsimp only
          by_cases hs : b.supportsWeight = true
          · rw [if_pos hs, bincount_eq idx d.xIndex.length hir, if_pos]
            · exact ⟨_, rfl⟩
            · cases hww : d.weights with
              | none => simp
              | some w =>
                rw [hww] at hw
                simpa using hw
          · rw [if_neg hs]
            exact ⟨_, rfl⟩
        choose g hg using hone
        rw [mapE_ok_of_forall _ g _ fun a _ => hg a]
        refine ⟨⟨fun _ => ⟨hx, ?_, by omega, ⟨_, rfl⟩, ⟨_, rfl⟩⟩, fun _ => rfl⟩, fun _ => ?_⟩
        · intro w hww
          rw [hww] at hw hsw
          refine ⟨by simpa using hw, by simpa using hsw⟩
        · simp [nFitted]
          omega

example : (fit demoBase (fun i => i) demoCfg demoData (unfitted _)).1 = .ok () ∧
    nFitted (fit demoBase (fun i => i) demoCfg demoData (unfitted _)).2 = 5 := by decide +kernel

/-- Without different starts the fit can fail: two events starting at the same bar count for each of the two rows of `X`,
a draw beyond the rows is possible and does not fit the weights. -/
theorem C89_duplicate_start_fails : ∃ M bi, getIndMatrix [(some 10, some 20), (some 10, some 30), (some 20, some 30)] [10, 20, 30] = .ok (M, bi) ∧
    (selectCols M (subsampleCols [10, 10, 20] [10, 10, 20])).nCols = 5 ∧
    (fit { demoBase with rng := fun _ _ _ m => List.replicate m 4 } (fun i => i) demoCfg ⟨M, [10, 10, 20], [10, 10, 20], 2, none⟩ (unfitted _)).1 =
      .error .valueError := by
  refine ⟨_, _, rfl, by decide +kernel, by decide +kernel⟩

end Mizar.Props
