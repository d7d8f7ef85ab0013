import Verif.Lemmas.Bagging
import Verif.Props.SeqBootstrap
import Verif.Spec.Bagging

/-!
Property theorems C19-C22 and C24: fitting of the sequentially bootstrapped bagging classifier
(`/repo/mizarlabs/model/sequentially_bootstrapped_bagging_classifier.py`).
-/

namespace Mizar.Props
open Mizar.Spec Mizar.Bag Mizar.Boot

/-- C19: outcome and fitted attributes are the same for every number of jobs. -/
theorem C19_independent_of_jobs {Est : Type} (b : Base Est) (stream : ℕ → ℕ) (c : Cfg) (d : Data)
    (s : Fitted Est) (j₁ j₂ : ℕ) (h₁ : 1 ≤ j₁) (h₂ : 1 ≤ j₂) :
    fit b stream { c with nJobs := j₁ } d s = fit b stream { c with nJobs := j₂ } d s := by
  rw [fit_eq b stream _ d s h₁, fit_eq b stream _ d s h₂]
  rfl

/-- An environment for the examples: 3 events, estimators that record what they were trained with. -/
def demoBase : Base (ℕ × Train) where
  supportsWeight := true
  featDraw := fun seed n m => (List.range m).map fun i => (seed + i) % n
  rng := fun seed i _ m => List.replicate m ((seed + i) % 3)
  fitEst := fun seed t => (seed, t)

def demoData : Data where
  mat := .ofLists 3 [[true, false, false], [true, true, false], [false, true, true]]
  infoIndex := [10, 20, 30]
  xIndex := [10, 20, 30]
  nFeatures := 2
  weights := none

def demoCfg : Cfg := ⟨5, .float (.fin 1), .float (.fin (1/2)), false, false, 1, 1⟩

example : (fit demoBase (fun i => i * i) { demoCfg with nJobs := 3 } demoData (unfitted _)).1 = .ok () ∧
    nFitted (fit demoBase (fun i => i * i) { demoCfg with nJobs := 3 } demoData (unfitted _)).2 = 5 ∧
    (fit demoBase (fun i => i * i) { demoCfg with nJobs := 3 } demoData (unfitted _)).2.samples =
      [[0, 1, 2], [1, 2, 0], [1, 2, 0], [0, 1, 2], [1, 2, 0]] := by
  decide +kernel

theorem seeds_split (stream : ℕ → ℕ) (m n : ℕ) (h : m ≤ n) :
    (List.range n).map stream =
      (List.range m).map stream ++ (List.range (n - m)).map fun i => stream (m + i) := by
  have : n = m + (n - m) := by omega
  conv_lhs => rw [this, List.range_add, List.map_append, List.map_map]
  rfl

/-- The state after `m` estimators have been built from the results `R`. -/
def prefixState {Est : Type} (R : List (Est × List ℕ × List ℕ)) (m : ℕ) : Fitted Est :=
  ⟨some ((R.take m).map (·.1)), (R.take m).map (·.2.1), (R.take m).map (·.2.2)⟩

theorem buildAll_range {Est : Type} {b : Base Est} {d : Data} {upd : ℤ} {v : ℤ × ℤ} {stream : ℕ → ℕ}
    {N : ℕ} {R : List (Est × List ℕ × List ℕ)}
    (h : buildAll b d upd v ((List.range N).map stream) = .ok R) (m n : ℕ) (hmn : m ≤ n) (hn : n ≤ N) :
    buildAll b d upd v ((List.range (n - m)).map fun i => stream (m + i)) = .ok ((R.take n).drop m) := by
  unfold buildAll at *
  split at h
  · cases h
  · rename_i hw
    have key : ∀ k ≤ N, mapE (buildOne b d (selectCols d.mat (subsampleCols d.infoIndex d.xIndex))
        v.2.toNat v.1.toNat upd) ((List.range k).map stream) = .ok (R.take k) ∧
        mapE (buildOne b d (selectCols d.mat (subsampleCols d.infoIndex d.xIndex))
        v.2.toNat v.1.toNat upd) ((List.range (N - k)).map fun i => stream (k + i)) = .ok (R.drop k) := by
      intro k hk
      rw [seeds_split stream k N hk, mapE_append] at h
      cases h1 : mapE (buildOne b d (selectCols d.mat (subsampleCols d.infoIndex d.xIndex))
        v.2.toNat v.1.toNat upd) ((List.range k).map stream) with
      | error e => rw [h1] at h; cases h
      | ok r1 =>
        rw [h1] at h
        cases h2 : mapE (buildOne b d (selectCols d.mat (subsampleCols d.infoIndex d.xIndex))
          v.2.toNat v.1.toNat upd) ((List.range (N - k)).map fun i => stream (k + i)) with
        | error e => rw [h2] at h; cases h
        | ok r2 =>
          rw [h2] at h
          cases h
          have hl : r1.length = k := by simpa using mapE_length h1
          constructor
          · rw [List.take_append_of_le_length (by omega), List.take_of_length_le (by omega)]
          · rw [List.drop_append_of_le_length (by omega), List.drop_of_length_le (by omega), List.nil_append]
    have h1 := (key n hn).1
    rw [seeds_split stream m n hmn, mapE_append] at h1
    rw [(key m (by omega)).1] at h1
    simp only at h1
    cases h2 : mapE (buildOne b d (selectCols d.mat (subsampleCols d.infoIndex d.xIndex))
          v.2.toNat v.1.toNat upd) ((List.range (n - m)).map fun i => stream (m + i)) with
    | error e => rw [h2] at h1; cases h1
    | ok r2 =>
      rw [h2] at h1
      simp only [Except.ok.injEq] at h1
      have hR : R.length = N := by simpa using mapE_length h
      rw [if_neg hw, ← h1]
      rw [List.drop_append_of_le_length (by simp; omega), List.drop_of_length_le (by simp), List.nil_append]

theorem pre_nEstimators {c : Cfg} {d : Data} {v : ℤ × ℤ} {w : Bool} {n : ℤ} {j : ℕ}
    (hoob : c.oobScore = false) (h : pre { c with warmStart := w, nEstimators := n } d = .ok v)
    (w' : Bool) (n' : ℤ) (hn' : 0 < n') :
    pre { c with warmStart := w', nEstimators := n', nJobs := j } d = .ok v := by
  unfold pre at *
  simp only at *
  split at h
  · cases h
  rename_i h1
  split at h
  · cases h
  rename_i h2
  split at h
  · cases h
  rw [if_neg h1, if_neg h2, if_neg (by omega)]
  rw [hoob] at *
  simpa using h

theorem warm_step {Est : Type} (b : Base Est) (stream : ℕ → ℕ) (c : Cfg) (d : Data) (v : ℤ × ℤ)
    (R : List (Est × List ℕ × List ℕ)) (N : ℕ)
    (hR : buildAll b d c.updateEvery v ((List.range N).map stream) = .ok R) (s : Fitted Est) (m n j : ℕ)
    (hs : startState { c with warmStart := true, nEstimators := (n : ℤ), nJobs := j } s = prefixState R m)
    (hmn : m ≤ n) (hn : n ≤ N) (hj : 1 ≤ j)
    (hpre : pre { c with warmStart := true, nEstimators := (n : ℤ), nJobs := j } d = .ok v) :
    fit b stream { c with warmStart := true, nEstimators := (n : ℤ), nJobs := j } d s =
      (.ok (), prefixState R n) := by
  rw [fit_eq b stream _ d s hj, hpre]
  simp only
  rw [hs]
  have hRl : R.length = N := by
    unfold buildAll at hR
    split at hR
    · cases hR
    · simpa using mapE_length hR
  have hlen : ((prefixState R m).estimators.getD []).length = m := by
    simp [prefixState]; omega
  unfold core
  simp only
  rw [hlen]
  rw [if_neg (by omega)]
  by_cases he : (n : ℤ) = (m : ℤ)
  · rw [if_pos he]
    have : n = m := by exact_mod_cast he
    rw [this]
  · rw [if_neg he, Int.toNat_natCast, buildAll_range hR m n hmn hn]
    simp only [prefixState, Option.getD_some]
    have hsplit : R.take n = R.take m ++ (R.take n).drop m := by
      have := List.take_append_drop m (R.take n)
      rw [List.take_take, min_eq_left hmn] at this
      exact this.symm
    have e1 : (R.take m).map (·.1) ++ ((R.take n).drop m).map (·.1) = (R.take n).map (·.1) := by
      rw [← List.map_append, ← hsplit]
    have e2 : (R.take m).map (·.2.1) ++ ((R.take n).drop m).map (·.2.1) = (R.take n).map (·.2.1) := by
      rw [← List.map_append, ← hsplit]
    have e3 : (R.take m).map (·.2.2) ++ ((R.take n).drop m).map (·.2.2) = (R.take n).map (·.2.2) := by
      rw [← List.map_append, ← hsplit]
    rw [e1, e2, e3]

/-- C20: with an integer `random_state` (the seeds are a fixed stream) a cold fit with `N` estimators and
any non-decreasing sequence of warm fits on the same data that ends with `N` give the same estimators,
features and samples; all intermediate fits return normally. The numbers of jobs may differ from call to
call. -/
theorem C20_warm_start_equals_cold {Est : Type} (b : Base Est) (stream : ℕ → ℕ) (c : Cfg) (d : Data)
    (hoob : c.oobScore = false) (hj : 1 ≤ c.nJobs) (N : ℕ) (S : Fitted Est)
    (hcold : fit b stream { c with warmStart := false, nEstimators := (N : ℤ) } d (unfitted Est) = (.ok (), S))
    (ns : List (ℕ × ℕ)) (hpos : ∀ p ∈ ns, 1 ≤ p.1 ∧ 1 ≤ p.2)
    (hmono : (ns.map (·.1)).Pairwise (· ≤ ·)) (hlast : (ns.map (·.1)).getLast? = some N) :
    (∀ o ∈ (runWarm b stream c d (unfitted Est) ns).1, o = .ok ()) ∧
    (runWarm b stream c d (unfitted Est) ns).2 = S := by
  rw [fit_eq b stream { c with warmStart := false, nEstimators := (N : ℤ) } d (unfitted Est) hj] at hcold
  cases hpre : pre { c with warmStart := false, nEstimators := (N : ℤ) } d with
  | error e => rw [hpre] at hcold; simp at hcold
  | ok v =>
    rw [hpre] at hcold
    simp only at hcold
    have hN : (0 : ℤ) < (N : ℤ) := by
      unfold pre at hpre
      simp only at hpre
      split at hpre
      · cases hpre
      split at hpre
      · cases hpre
      split at hpre
      · cases hpre
      · omega
    have hstart : startState { c with warmStart := false, nEstimators := (N : ℤ) } (unfitted Est) =
        ⟨some [], [], []⟩ := rfl
    rw [hstart] at hcold
    unfold core at hcold
    simp only [Option.getD_some, List.length_nil, Nat.cast_zero] at hcold
    rw [if_neg (by omega), if_neg (by omega)] at hcold
    simp only [Int.toNat_natCast, Nat.sub_zero, Nat.zero_add, List.nil_append] at hcold
    cases hR : buildAll b d c.updateEvery v ((List.range N).map stream) with
    | error e => 
      have hR' : buildAll b d c.updateEvery v ((List.range N).map fun i => stream i) = .error e := hR
      rw [hR'] at hcold; simp at hcold
    | ok R =>
      have hR' : buildAll b d c.updateEvery v ((List.range N).map fun i => stream i) = .ok R := hR
      rw [hR'] at hcold
      simp only [Prod.mk.injEq, true_and] at hcold
      have hRl : R.length = N := by
        unfold buildAll at hR
        split at hR
        · cases hR
        · simpa using mapE_length hR
      have hS : S = prefixState R N := by
        rw [← hcold, prefixState, List.take_of_length_le (by omega)]
      -- induction over the sequence
      have main : ∀ (ns : List (ℕ × ℕ)) (s : Fitted Est) (m : ℕ),
          (∀ p ∈ ns, 1 ≤ p.1 ∧ 1 ≤ p.2 ∧ p.1 ≤ N ∧ m ≤ p.1) → (ns.map (·.1)).Pairwise (· ≤ ·) →
          (∀ c' : Cfg, c'.warmStart = true → startState c' s = prefixState R m) →
          (ns = [] → s = prefixState R m) →
          (∀ o ∈ (runWarm b stream c d s ns).1, o = .ok ()) ∧
          (runWarm b stream c d s ns).2 = prefixState R (((ns.map (·.1)).getLast?).getD m) := by
        intro ns
        induction ns with
        | nil => intro s m _ _ _ hs; exact ⟨by simp [runWarm], by simp [runWarm, hs rfl]⟩
        | cons p ns ih =>
          intro s m hp hmono hst _
          obtain ⟨p1, p2, p3, p4⟩ := hp p List.mem_cons_self
          have hstep := warm_step b stream c d v R N hR s m p.1 p.2 (hst _ rfl) p4 p3 p2
            (pre_nEstimators hoob hpre true p.1 (by omega))
          rw [runWarm]
          simp only [hstep]
          rw [List.map_cons, List.pairwise_cons] at hmono
          obtain ⟨i1, i2⟩ := ih (prefixState R p.1) p.1
            (fun q hq => ⟨(hp q (List.mem_cons_of_mem _ hq)).1, (hp q (List.mem_cons_of_mem _ hq)).2.1,
              (hp q (List.mem_cons_of_mem _ hq)).2.2.1, hmono.1 q.1 (List.mem_map_of_mem hq)⟩)
            hmono.2 (fun c' hc' => by simp [startState, hc', prefixState]) (fun _ => rfl)
          refine ⟨?_, ?_⟩
          · intro o ho
            rcases List.mem_cons.1 ho with rfl | ho
            · rfl
            · exact i1 o ho
          · rw [i2, List.map_cons, List.getLast?_cons]
            simp
      have hle : ∀ x ∈ ns.map (·.1), x ≤ N := by
        intro x hx
        have hne : ns.map (·.1) ≠ [] := List.ne_nil_of_mem hx
        have hl : (ns.map (·.1)).getLast hne = N := by
          rw [List.getLast?_eq_some_getLast hne] at hlast; simpa using hlast
        rw [← hl]
        obtain ⟨i, hi, rfl⟩ := List.getElem_of_mem hx
        rw [List.getLast_eq_getElem]
        rcases Nat.eq_or_lt_of_le (Nat.le_sub_one_of_lt hi) with h | h
        · simp [h]
        · exact List.pairwise_iff_getElem.1 hmono _ _ _ _ h
      obtain ⟨a, e⟩ := main ns (unfitted Est) 0
        (fun p hp => ⟨(hpos p hp).1, (hpos p hp).2, hle p.1 (List.mem_map_of_mem hp), Nat.zero_le _⟩) hmono
        (fun c' _ => by simp [startState, unfitted, prefixState])
        (fun h => by subst h; simp at hlast)
      rw [hlast] at e
      exact ⟨a, by rw [e, hS]; rfl⟩

/-- The hypotheses hold for the demo: warm fits with 2, 2, then 5 estimators. -/
example : (runWarm demoBase (fun i => i * i) demoCfg demoData (unfitted _) [(2, 1), (2, 4), (5, 2)]).2.samples =
    (fit demoBase (fun i => i * i) demoCfg demoData (unfitted _)).2.samples := by decide +kernel

/-- A cold fit does not depend on earlier fits. -/
theorem C20_cold_fit_forgets {Est : Type} (b : Base Est) (stream : ℕ → ℕ) (c : Cfg) (d : Data)
    (hj : 1 ≤ c.nJobs) (hc : c.warmStart = false) (s s' : Fitted Est)
    (hok : (fit b stream c d s).1 = .ok ()) : fit b stream c d s = fit b stream c d s' := by
  rw [fit_eq b stream c d s hj] at hok ⊢
  rw [fit_eq b stream c d s' hj]
  cases hp : pre c d with
  | error e => rw [hp] at hok; cases hok
  | ok v =>
    simp only
    have : startState c s = startState c s' := by simp [startState, hc]
    rw [this]

/-- C21: after every history of calls (any mixture of warm and cold fits, data, parameters, some of which
may have raised) the three fitted attributes have equal length; a call that returns leaves exactly
`n_estimators` estimators. -/
theorem C21_attributes_aligned {Est : Type} (hist : List (Call Est)) (hj : ∀ k ∈ hist, 1 ≤ k.cfg.nJobs) :
    (runHistory (unfitted Est) hist).features.length = nFitted (runHistory (unfitted Est) hist) ∧
    (runHistory (unfitted Est) hist).samples.length = nFitted (runHistory (unfitted Est) hist) ∧
    ∀ k : Call Est, 1 ≤ k.cfg.nJobs →
      (fit k.base k.stream k.cfg k.data (runHistory (unfitted Est) hist)).1 = .ok () →
      (nFitted (fit k.base k.stream k.cfg k.data (runHistory (unfitted Est) hist)).2 : ℤ) =
        k.cfg.nEstimators := by
  have hstep : ∀ (k : Call Est) (s : Fitted Est), 1 ≤ k.cfg.nJobs →
      (s.features.length = nFitted s ∧ s.samples.length = nFitted s) →
      let r := fit k.base k.stream k.cfg k.data s
      (r.2.features.length = nFitted r.2 ∧ r.2.samples.length = nFitted r.2) ∧
      (r.1 = .ok () → (nFitted r.2 : ℤ) = k.cfg.nEstimators) := by
    intro k s hk hs
    simp only
    rw [fit_eq _ _ _ _ _ hk]
    cases hp : pre k.cfg k.data with
    | error e => exact ⟨hs, by simp⟩
    | ok v =>
      simp only
      have hs' : (startState k.cfg s).features.length = nFitted (startState k.cfg s) ∧
          (startState k.cfg s).samples.length = nFitted (startState k.cfg s) := by
        unfold startState
        split
        · exact ⟨rfl, rfl⟩
        · exact hs
      generalize startState k.cfg s = s' at *
      unfold core
      simp only
      split
      · exact ⟨hs', by simp⟩
      · rename_i h1
        split
        · rename_i h2
          exact ⟨hs', fun _ => h2.symm⟩
        · rename_i h2
          split
          · exact ⟨hs', by simp⟩
          · rename_i r hr
            have hl : r.length = k.cfg.nEstimators.toNat - (s'.estimators.getD []).length := by
              unfold buildAll at hr
              split at hr
              · cases hr
              · simpa using mapE_length hr
            refine ⟨⟨?_, ?_⟩, fun _ => ?_⟩
            · simp only [nFitted, List.length_append, List.length_map, Option.getD_some] at hs' ⊢
              omega
            · simp only [nFitted, List.length_append, List.length_map, Option.getD_some] at hs' ⊢
              omega
            · simp only [nFitted, List.length_append, List.length_map, Option.getD_some] at hs' ⊢
              omega
  have main : ∀ (hist : List (Call Est)) (s : Fitted Est), (∀ k ∈ hist, 1 ≤ k.cfg.nJobs) →
      (s.features.length = nFitted s ∧ s.samples.length = nFitted s) →
      (runHistory s hist).features.length = nFitted (runHistory s hist) ∧
      (runHistory s hist).samples.length = nFitted (runHistory s hist) := by
    intro hist
    induction hist with
    | nil => intro s _ hs; exact hs
    | cons k ks ih =>
      intro s hj hs
      rw [runHistory]
      exact ih _ (fun k' hk' => hj k' (List.mem_cons_of_mem _ hk'))
        (hstep k s (hj k List.mem_cons_self) hs).1
  have h := main hist (unfitted Est) hj ⟨rfl, rfl⟩
  exact ⟨h.1, h.2, fun k hk hok => (hstep k _ hk h).2 hok⟩

/-- C21: a warm fit that raises leaves the fitted object unchanged; a warm fit with fewer estimators than
are already fitted always raises. -/
theorem C21_failed_warm_fit_changes_nothing {Est : Type} (b : Base Est) (stream : ℕ → ℕ) (c : Cfg) (d : Data)
    (hj : 1 ≤ c.nJobs) (hw : c.warmStart = true) (s : Fitted Est) (hs : s.estimators.isSome) :
    (∀ e, (fit b stream c d s).1 = .error e → (fit b stream c d s).2 = s) ∧
    (c.nEstimators < nFitted s → ∃ e, fit b stream c d s = (.error e, s)) ∧
    (c.nEstimators < nFitted s → (∀ x ∈ d.xIndex, x ∈ d.infoIndex) → (∃ m, resolveMaxSamples c.maxSamples d.xIndex.length = .ok m) →
      (∃ m, resolveMaxFeatures c.maxFeatures d.nFeatures = .ok m) →
      fit b stream c d s = (.error .valueError, s)) := by
  have hst : startState c s = s := by
    obtain ⟨es, h⟩ := Option.isSome_iff_exists.1 hs
    simp [startState, hw, h]
  rw [fit_eq b stream c d s hj]
  cases hp : pre c d with
  | error e =>
    refine ⟨fun _ _ => rfl, fun _ => ⟨e, rfl⟩, fun _ h1 ⟨m, hm⟩ ⟨m', hm'⟩ => ?_⟩
    unfold pre at hp
    rw [if_neg (not_not.2 h1), hm, hm'] at hp
    simp only at hp
    split at hp
    · cases hp; rfl
    · split at hp
      · cases hp; rfl
      · split at hp
        · cases hp; rfl
        · cases hp
  | ok v =>
    simp only [hst]
    unfold core
    simp only
    refine ⟨?_, ?_, ?_⟩
    · intro e he
      split at he
      · rename_i h; rw [if_pos h]
      · rename_i h
        split at he
        · rename_i h'; rw [if_neg h, if_pos h']
        · rename_i h'
          rw [if_neg h, if_neg h']
          split at he
          · rfl
          · cases he
    · intro h
      unfold nFitted at h
      rw [if_pos h]
      exact ⟨_, rfl⟩
    · intro h _ _ _
      unfold nFitted at h
      rw [if_pos h]

example : (fit demoBase (fun i => i) { demoCfg with warmStart := true, nEstimators := 1 } demoData
    (fit demoBase (fun i => i) demoCfg demoData (unfitted _)).2).1 = .error .valueError := by decide +kernel

end Mizar.Props
