import Verif.Props.Bagging

/-!
Property theorems C22, C24: sample weights and parameter validation of the bagging classifier
(`/repo/mizarlabs/model/sequentially_bootstrapped_bagging_classifier.py` lines 183-196 and 364-391).
-/

namespace Mizar.Props
open Mizar.Spec Mizar.Bag Mizar.Boot

theorem length_subsampleCols (info xs : List ℤ) (hnd : info.Nodup) (hsub : ∀ x ∈ xs, x ∈ info) :
    (subsampleCols info xs).length = xs.length := by
  unfold subsampleCols
  induction xs with
  | nil => rfl
  | cons x xs ih =>
    rw [List.flatMap_cons, List.length_append, ih fun y hy => hsub y (List.mem_cons_of_mem _ hy)]
    obtain ⟨k, hk, hkx⟩ := List.getElem_of_mem (hsub x List.mem_cons_self)
    have h1 : (List.range info.length).filter (fun i => decide (info[i]? = some x)) = [k] := by
      have hperm : (List.range info.length).filter (fun i => decide (info[i]? = some x)) =
          (List.range info.length).filter (fun i => decide (i = k)) := by
        apply List.filter_congr
        intro i hi
        have hi' := List.mem_range.1 hi
        simp only [List.getElem?_eq_getElem hi', Option.some.injEq, decide_eq_decide]
        constructor
        · intro h; exact (hnd.getElem_inj_iff).1 (h.trans hkx.symm)
        · rintro rfl; exact hkx
      rw [hperm, List.filter_eq, List.count_range, if_pos hk]
      rfl
    rw [h1]
    simp [Nat.add_comm]

theorem foldr_max_le (n : ℕ) (idx : List ℕ) (h : ∀ x ∈ idx, x < n) :
    idx.foldr (fun i m => max (i + 1) m) 0 ≤ n := by
  induction idx with
  | nil => simp
  | cons a l ih =>
    simp only [List.foldr_cons]
    have h1 := h a List.mem_cons_self
    have h2 := ih fun x hx => h x (List.mem_cons_of_mem _ hx)
    omega

theorem bincount_eq (idx : List ℕ) (n : ℕ) (h : ∀ x ∈ idx, x < n) :
    bincount idx n = (List.range n).map fun i => idx.count i := by
  unfold bincount
  rw [max_eq_left (foldr_max_le n idx h)]

theorem sum_count_range (n : ℕ) (idx : List ℕ) (h : ∀ x ∈ idx, x < n) :
    ((List.range n).map fun i => idx.count i).sum = idx.length := by
  induction idx with
  | nil => simp
  | cons a l ih =>
    have h1 := ih fun x hx => h x (List.mem_cons_of_mem _ hx)
    simp only [List.count_cons, List.length_cons]
    rw [List.sum_map_add, h1]
    congr 1
    have ha := h a List.mem_cons_self
    have : ((List.range n).map fun i => if (a == i) = true then 1 else 0).sum =
        (List.range n).countP (fun i => a == i) := by
      induction (List.range n) with
      | nil => rfl
      | cons b l ih => simp only [List.map_cons, List.sum_cons, ih, List.countP_cons]; omega
    rw [this]
    have : (List.range n).countP (fun i => a == i) = (List.range n).count a := by
      rw [List.count]; apply List.countP_congr; intro x _; rw [beq_iff_eq, beq_iff_eq]; exact eq_comm
    rw [this, List.count_range, if_pos ha]

theorem sum_cast (l : List ℕ) : (l.map (fun c : ℕ => (c : ℚ))).sum = ((l.sum : ℕ) : ℚ) := by
  induction l with
  | nil => simp
  | cons a l ih => rw [List.map_cons, List.sum_cons, ih, List.sum_cons]; push_cast; rfl

/-- C22: in a cold fit every base estimator that supports weights is trained on all rows with weight
(user weight, one by default) times the number of times the row occurs in its recorded bootstrap sample;
the sample has `max_samples` elements, and without user weights the weights add up to `max_samples`.
Estimators without weights are trained on exactly the drawn rows. -/
theorem C22_weights_are_counts {Est : Type} (b : Base Est) (stream : ℕ → ℕ) (c : Cfg) (d : Data)
    (s S : Fitted Est) (hj : 1 ≤ c.nJobs) (hc : c.warmStart = false) (hu : 1 ≤ c.updateEvery)
    (hnd : d.infoIndex.Nodup) (hrng : ∀ seed, ValidRng d.xIndex.length (b.rng seed))
    (hok : fit b stream c d s = (.ok (), S)) :
    ∃ maxS : ℤ, resolveMaxSamples c.maxSamples d.xIndex.length = .ok maxS ∧
    ∃ ests, S.estimators = some ests ∧
    ∀ i (hi : i < ests.length), ∃ feats idx, S.features[i]? = some feats ∧ S.samples[i]? = some idx ∧
      (idx.length : ℤ) = maxS ∧ (∀ x ∈ idx, x < d.xIndex.length) ∧
      (b.supportsWeight = false → ests[i] = b.fitEst (stream i) (.rows feats idx)) ∧
      (b.supportsWeight = true → ∃ w : List ℚ, ests[i] = b.fitEst (stream i) (.weighted feats w) ∧
        w.length = d.xIndex.length ∧
        (∀ uw, d.weights = some uw → ∀ r < d.xIndex.length,
          w[r]? = some (uw.getD r 0 * (idx.count r : ℚ))) ∧
        (d.weights = none → (∀ r < d.xIndex.length, w[r]? = some (idx.count r : ℚ)) ∧
          w.sum = (maxS : ℚ))) := by
  rw [fit_eq b stream c d s hj] at hok
  cases hpre : pre c d with
  | error e => rw [hpre] at hok; simp at hok
  | ok v =>
    rw [hpre] at hok
    simp only at hok
    -- facts from the checks
    unfold pre at hpre
    split at hpre
    · cases hpre
    rename_i hsub
    split at hpre
    · cases hpre
    rename_i hwl
    split at hpre
    · cases hpre
    rename_i hpos
    cases hms : resolveMaxSamples c.maxSamples d.xIndex.length with
    | error e => rw [hms] at hpre; cases hpre
    | ok maxS =>
      rw [hms] at hpre
      simp only at hpre
      have hm0 : 0 < maxS ∧ maxS ≤ d.xIndex.length := by
        unfold resolveMaxSamples at hms
        simp only at hms
        split at hms
        · split at hms
          · cases hms; assumption
          · cases hms
        · split at hms
          · cases hms
          · cases hms
          · cases hms
          · split at hms
            · cases hms; assumption
            · cases hms
      cases hmf : resolveMaxFeatures c.maxFeatures d.nFeatures with
      | error e => rw [hmf] at hpre; cases hpre
      | ok maxF =>
        rw [hmf] at hpre
        simp only at hpre
        split at hpre
        · cases hpre
        cases hpre
        have hsub' : ∀ x ∈ d.xIndex, x ∈ d.infoIndex := not_not.1 hsub
        refine ⟨maxS, rfl, ?_⟩
        have hst : startState c s = ⟨some [], [], []⟩ := by simp [startState, hc]
        rw [hst] at hok
        unfold core at hok
        simp only [Option.getD_some, List.length_nil, Nat.cast_zero] at hok
        rw [if_neg (by omega), if_neg (by omega)] at hok
        simp only [Nat.sub_zero, Nat.zero_add, List.nil_append] at hok
        cases hR : buildAll b d c.updateEvery (maxS, maxF)
            ((List.range c.nEstimators.toNat).map fun i => stream i) with
        | error e => rw [hR] at hok; simp at hok
        | ok R =>
          rw [hR] at hok
          simp only [Prod.mk.injEq, true_and] at hok
          subst hok
          refine ⟨_, rfl, ?_⟩
          intro i hi
          simp only [List.length_map] at hi
          unfold buildAll at hR
          split at hR
          · cases hR
          have hlen := mapE_length hR
          have hi2 : i < ((List.range c.nEstimators.toNat).map fun i => stream i).length := by omega
          obtain ⟨hr, hbo⟩ := mapE_getElem hR i hi2
          simp only [List.getElem_map, List.getElem_range] at hbo
          have hcols : (selectCols d.mat (subsampleCols d.infoIndex d.xIndex)).nCols = d.xIndex.length :=
            length_subsampleCols _ _ hnd hsub'
          unfold buildOne at hbo
          simp only at hbo
          have hc16 := C16_length_and_range (selectCols d.mat (subsampleCols d.infoIndex d.xIndex))
            (by rw [hcols]; omega) (b.rng (stream i)) (by rw [hcols]; exact hrng _)
            (some (maxS.toNat : ℤ)) c.updateEvery hu
          obtain ⟨idx, hidx, hil, hir⟩ := hc16
          rw [hcols] at hir
          rw [hidx] at hbo
          simp only at hbo
          have hilen : (idx.length : ℤ) = maxS := by
            rw [hil]; simp; omega
          have hbc := bincount_eq idx d.xIndex.length hir
          rw [hbc] at hbo
          by_cases hsw : b.supportsWeight = true
          · rw [if_pos hsw] at hbo
            split at hbo
            · rename_i hcl
              simp only [Except.ok.injEq] at hbo
              refine ⟨_, _, by rw [List.getElem?_map, List.getElem?_eq_getElem hr, ← hbo]; rfl,
                by rw [List.getElem?_map, List.getElem?_eq_getElem hr, ← hbo]; rfl, hilen, hir,
                by simp [hsw], fun _ => ?_⟩
              refine ⟨_, by rw [List.getElem_map, ← hbo], ?_, ?_, ?_⟩
              · simp only [List.length_zipWith, hcl]; simp
              · intro uw huw r hrr
                have hul : uw.length = d.xIndex.length := by
                  rw [huw] at hwl
                  simpa using hwl
                have hru : r < uw.length := by omega
                rw [huw, Option.getD_some, List.getElem?_zipWith]
                simp [List.getElem?_eq_getElem hru, hrr]
              · intro hnone
                rw [hnone, Option.getD_none]
                constructor
                · intro r hrr
                  rw [List.getElem?_zipWith]
                  simp [hrr]
                · have hz : List.zipWith (fun (w : ℚ) (c : ℕ) => w * (c : ℚ))
                      (List.replicate d.xIndex.length 1) ((List.range d.xIndex.length).map fun i => idx.count i) =
                      ((List.range d.xIndex.length).map fun i => idx.count i).map (fun c : ℕ => (c : ℚ)) := by
                    apply List.ext_getElem
                    · simp
                    · intro k h1 h2; simp
                  rw [hz]
                  have hsum := sum_count_range d.xIndex.length idx hir
                  have : (((List.range d.xIndex.length).map fun i => idx.count i).map (fun c : ℕ => (c : ℚ))).sum
                      = ((((List.range d.xIndex.length).map fun i => idx.count i).sum : ℕ) : ℚ) :=
                    sum_cast _
                  rw [this, hsum]
                  exact_mod_cast hilen
            · cases hbo
          · rw [if_neg hsw] at hbo
            simp only [Except.ok.injEq] at hbo
            refine ⟨_, _, by rw [List.getElem?_map, List.getElem?_eq_getElem hr, ← hbo]; rfl,
              by rw [List.getElem?_map, List.getElem?_eq_getElem hr, ← hbo]; rfl, hilen, hir,
              fun _ => by rw [List.getElem_map, ← hbo], fun h => absurd h hsw⟩

/-- A cold fit with user weights: row 1 is drawn twice by the first estimator. -/
example : (fit { demoBase with rng := fun _ i _ m => List.replicate m (min i 1) } (fun i => i)
    { demoCfg with nEstimators := 1 } { demoData with weights := some [1, 1/2, 3] } (unfitted _)).2.estimators =
    some [(0, .weighted [0] [1, 1, 0])] := by decide +kernel

/-- C24: a resolved `max_samples` is in `[1, n_samples]`; integers in the range are taken unchanged, floats
are multiplied with the number of rows and truncated; everything else raises `ValueError`, except the
infinite floats. -/
theorem C24_max_samples_partial (n : ℕ) (hn : 1 ≤ n) :
    (∀ p m, resolveMaxSamples p n = .ok m → 1 ≤ m ∧ m ≤ n) ∧
    (∀ m : ℤ, resolveMaxSamples (.int m) n = if 1 ≤ m ∧ m ≤ n then .ok m else .error .valueError) ∧
    (∀ q : ℚ, 0 ≤ q → resolveMaxSamples (.float (.fin q)) n =
      if 1 ≤ ⌊q * n⌋ ∧ ⌊q * n⌋ ≤ n then .ok ⌊q * n⌋ else .error .valueError) ∧
    (∀ q : ℚ, q < 0 → resolveMaxSamples (.float (.fin q)) n = .error .valueError) ∧
    resolveMaxSamples (.float .nan) n = .error .valueError := by
  refine ⟨?_, ?_, ?_, ?_, ?_⟩
  · intro p m h
    unfold resolveMaxSamples at h
    simp only at h
    split at h
    · split at h
      · cases h; omega
      · cases h
    · split at h
      · cases h
      · cases h
      · cases h
      · split at h
        · cases h; omega
        · cases h
  · intro m
    simp only [resolveMaxSamples]
    rfl
  · intro q hq
    have hqn : 0 ≤ q * (n : ℚ) := mul_nonneg hq (Nat.cast_nonneg n)
    unfold resolveMaxSamples pyIntTrunc
    simp only [XF.mul_fin]
    rw [if_pos hqn]
    rfl
  · intro q hq
    have hn' : (1 : ℚ) ≤ n := by exact_mod_cast hn
    have hqn : q * (n : ℚ) < 0 := mul_neg_of_neg_of_pos hq (by linarith)
    simp only [resolveMaxSamples, XF.mul_fin, pyIntTrunc, if_neg (not_le.2 hqn)]
    rw [if_neg]
    rintro ⟨h, _⟩
    have : ⌈q * (n : ℚ)⌉ ≤ 0 := Int.ceil_le.2 (by simpa using hqn.le)
    omega
  · simp [resolveMaxSamples]

example : resolveMaxSamples (.float (.fin (7/10))) 5 = .ok 3 := by decide +kernel
example : resolveMaxSamples (.float (.fin (1/10))) 5 = .error .valueError := by decide +kernel

/-- C24 is not quite true: an infinite float raises `OverflowError` instead of `ValueError`. -/
theorem C24_infinite_max_samples_refuted (n : ℕ) (hn : 1 ≤ n) :
    resolveMaxSamples (.float .pinf) n = .error .overflowError := by
  have : (0 : ℚ) < n := by exact_mod_cast hn
  simp [resolveMaxSamples, XF.mul, XF.infSign, this]

/-- C24: `max_features` resolves to an integer in `[1, n_features]` or raises `ValueError`; integers in the
range are taken unchanged, floats `q` with `0 < q * n <= n` give `max(1, floor(q * n))`. -/
theorem C24_max_features (n : ℕ) :
    (∀ p, resolveMaxFeatures p n = .error .valueError ∨
      ∃ m, resolveMaxFeatures p n = .ok m ∧ 1 ≤ m ∧ m ≤ n) ∧
    (∀ m : ℤ, resolveMaxFeatures (.int m) n = if 1 ≤ m ∧ m ≤ n then .ok m else .error .valueError) ∧
    (∀ q : ℚ, resolveMaxFeatures (.float (.fin q)) n =
      if 0 < q * n ∧ q * n ≤ n then .ok (max 1 ⌊q * n⌋) else .error .valueError) ∧
    (∀ x : XF ℚ, (∀ q, x ≠ .fin q) → resolveMaxFeatures (.float x) n = .error .valueError) := by
  have hint : ∀ m : ℤ, resolveMaxFeatures (.int m) n = if 1 ≤ m ∧ m ≤ n then .ok m else .error .valueError := by
    intro m
    unfold resolveMaxFeatures
    simp only [XF.lt_fin, XF.le_fin, XF.toK, Bool.and_eq_true, decide_eq_true_eq]
    by_cases h : 1 ≤ m ∧ m ≤ n
    · have h1 : (0 : ℚ) < (m : ℚ) := by exact_mod_cast h.1
      have h2 : (m : ℚ) ≤ (n : ℚ) := by exact_mod_cast h.2
      rw [if_pos ⟨h1, h2⟩, if_pos h, pyIntTrunc, if_pos h1.le, Int.floor_intCast, max_eq_right h.1]
    · rw [if_neg h, if_neg]
      rintro ⟨h1, h2⟩
      apply h
      have h1' : 0 < m := by exact_mod_cast h1
      exact ⟨h1', by exact_mod_cast h2⟩
  have hflo : ∀ q : ℚ, resolveMaxFeatures (.float (.fin q)) n =
      if 0 < q * n ∧ q * n ≤ n then .ok (max 1 ⌊q * n⌋) else .error .valueError := by
    intro q
    unfold resolveMaxFeatures
    simp only [XF.mul_fin, XF.lt_fin, XF.le_fin, XF.toK, Bool.and_eq_true, decide_eq_true_eq]
    by_cases h : 0 < q * (n : ℚ) ∧ q * (n : ℚ) ≤ n
    · rw [if_pos h, if_pos h, pyIntTrunc, if_pos h.1.le]
    · rw [if_neg h, if_neg h]
  have hinf : ∀ x : XF ℚ, (∀ q, x ≠ .fin q) → resolveMaxFeatures (.float x) n = .error .valueError := by
    intro x hx
    unfold resolveMaxFeatures
    rcases Nat.eq_zero_or_pos n with rfl | hn
    · cases x with
      | nan => simp
      | pinf => simp [XF.mul, XF.infSign]
      | ninf => simp [XF.mul, XF.infSign]
      | fin q => exact absurd rfl (hx q)
    · have hq : (0 : ℚ) < (n : ℚ) := by exact_mod_cast hn
      cases x with
      | nan => simp
      | pinf => simp [XF.mul, XF.infSign, hq, XF.le, XF.lt, XF.beq]
      | ninf => simp [XF.mul, XF.infSign, hq, XF.lt, XF.neg]
      | fin q => exact absurd rfl (hx q)
  refine ⟨?_, hint, hflo, hinf⟩
  intro p
  match p with
  | .int m =>
    rw [hint m]
    by_cases h : 1 ≤ m ∧ m ≤ n
    · rw [if_pos h]; exact Or.inr ⟨m, rfl, h⟩
    · rw [if_neg h]; exact Or.inl rfl
  | .float x =>
    cases x with
    | nan => exact Or.inl (hinf .nan (by simp))
    | pinf => exact Or.inl (hinf .pinf (by simp))
    | ninf => exact Or.inl (hinf .ninf (by simp))
    | fin q =>
      rw [hflo q]
      by_cases h : 0 < q * (n : ℚ) ∧ q * (n : ℚ) ≤ n
      · rw [if_pos h]
        refine Or.inr ⟨_, rfl, le_max_left _ _, ?_⟩
        have hn : 1 ≤ n := by
          by_contra hc
          have : n = 0 := by omega
          subst this; simp at h
        have : ⌊q * (n : ℚ)⌋ ≤ (n : ℤ) := by
          have := (Int.floor_le (q * (n : ℚ))).trans h.2
          exact_mod_cast this
        exact max_le (by exact_mod_cast hn) this
      · rw [if_neg h]; exact Or.inl rfl

example : resolveMaxFeatures (.float (.fin (1/10))) 5 = .ok 1 := by decide +kernel
example : resolveMaxFeatures (.int 6) 5 = .error .valueError := by decide +kernel

end Mizar.Props
