import Verif.Model.BagShared
import Verif.Props.Bagging

/-!
Property theorems C129: `random_state` as an integer or as a generator that is shared by several calls
(`/repo/mizarlabs/model/sequentially_bootstrapped_bagging_classifier.py` lines 294-462).
-/

namespace Mizar.Props
open Mizar.Spec Mizar.Bag

/-- How many estimators a call keeps. -/
def kept {Est : Type} (c : Cfg) (s : Fitted Est) : ℕ := if c.warmStart then nFitted s else 0

theorem kept_eq {Est : Type} (c : Cfg) (s : Fitted Est) : ((startState c s).estimators.getD []).length = kept c s := by
  unfold startState kept nFitted
  cases hw : c.warmStart <;> cases he : s.estimators <;> simp [he]

/-- What `fitFrom` does, in terms of `fit`. -/
theorem fitFrom_eq {Est : Type} (b : Base Est) (stream : ℕ → ℕ) (c : Cfg) (d : Data) (s : Fitted Est) (pos : ℕ) :
    fitFrom b stream c d s pos = ((fit b (fun i => stream (pos + i)) c d s).1, (fit b (fun i => stream (pos + i)) c d s).2,
      match pre c d with
      | .error _ => pos
      | .ok _ => if c.nEstimators ≤ kept c s then pos else pos + c.nEstimators.toNat) := by
  unfold fitFrom fit pre
  by_cases h1 : ¬ (∀ x ∈ d.xIndex, x ∈ d.infoIndex)
  · rw [if_pos h1, if_pos h1, if_pos h1]
  rw [if_neg h1, if_neg h1, if_neg h1]
  by_cases h2 : d.weights.any (fun w => decide (w.length ≠ d.xIndex.length)) = true
  · rw [if_pos h2, if_pos h2, if_pos h2]
  rw [if_neg h2, if_neg h2, if_neg h2]
  by_cases h3 : c.nEstimators ≤ 0
  · rw [if_pos h3, if_pos h3, if_pos h3]
  rw [if_neg h3, if_neg h3, if_neg h3]
  cases resolveMaxSamples c.maxSamples d.xIndex.length with
  | error e => rfl
  | ok maxS =>
  cases resolveMaxFeatures c.maxFeatures d.nFeatures with
  | error e => rfl
  | ok maxF =>
  simp only
  by_cases h4 : (c.warmStart && c.oobScore) = true
  · rw [if_pos h4, if_pos h4, if_pos h4]
  rw [if_neg h4, if_neg h4, if_neg h4]
  have hst : (if (!c.warmStart || s.estimators.isNone) = true then (⟨some [], [], []⟩ : Fitted Est) else s) =
      startState c s := rfl
  rw [hst]
  have hk := kept_eq c s
  rw [hk]
  by_cases h5 : c.nEstimators - (kept c s : ℤ) < 0
  · rw [if_pos h5, if_pos h5]
    simp only
    rw [if_pos (by omega)]
  rw [if_neg h5, if_neg h5]
  by_cases h6 : c.nEstimators - (kept c s : ℤ) = 0
  · rw [if_pos h6, if_pos h6]
    simp only
    rw [if_pos (by omega)]
  rw [if_neg h6, if_neg h6]
  simp only
  rw [if_neg (show ¬ c.nEstimators ≤ (kept c s : ℤ) by omega)]
  have hw : kept c s = 0 ∨ c.warmStart = true := by
    unfold kept
    cases c.warmStart <;> simp
  have hpos : (if (c.warmStart && decide (0 < kept c s)) = true then (randints stream (kept c s) pos).2 else pos) =
      pos + kept c s := by
    rcases Nat.eq_zero_or_pos (kept c s) with h | h
    · simp [h]
    · rcases hw with hw | hw
      · omega
      · simp [hw, h, randints]
  have hskip : (if (c.warmStart && decide (0 < kept c s)) = true then kept c s else 0) = kept c s := by
    rcases Nat.eq_zero_or_pos (kept c s) with h | h
    · simp [h]
    · rcases hw with hw | hw
      · omega
      · simp [hw, h]
  rw [hpos, hskip]
  simp only [randints, Nat.add_assoc]
  have hn : kept c s + (c.nEstimators - (kept c s : ℤ)).toNat = c.nEstimators.toNat := by omega
  rw [hn]
  cases runJobs b d (selectCols d.mat (subsampleCols d.infoIndex d.xIndex)) maxF.toNat maxS.toNat c.updateEvery
    (partitionEstimators (c.nEstimators - (kept c s : ℤ)).toNat c.nJobs).2.1
    (partitionEstimators (c.nEstimators - (kept c s : ℤ)).toNat c.nJobs).2.2
    ((List.range (c.nEstimators - (kept c s : ℤ)).toNat).map fun i => stream (pos + (kept c s + i)))
    (partitionEstimators (c.nEstimators - (kept c s : ℤ)).toNat c.nJobs).1 <;> rfl

/-- C129: a call on a generator at position `pos` does what the call with an integer does whose numbers are the ones from
`pos` on.  It takes exactly `n_estimators` numbers from the generator, warm or cold, whether or not training raises, or none
if a parameter is refused or nothing is to be trained.  With an integer the shared generator is not touched. -/
theorem C129_draws {Est : Type} (b : Base Est) (fresh : ℕ → ℕ → ℕ) (own : ℕ → ℕ) (c : Cfg) (d : Data) (s : Fitted Est) (pos : ℕ) :
    (∃ pos', fitArg b fresh own .shared c d s pos =
        ((fit b (fun i => own (pos + i)) c d s).1, (fit b (fun i => own (pos + i)) c d s).2, pos') ∧
      (pos' = pos ∨ pos' = pos + c.nEstimators.toNat) ∧
      ((fit b (fun i => own (pos + i)) c d s).1 = .ok () → kept c s ≤ c.nEstimators ∧
        pos' = if c.nEstimators = kept c s then pos else pos + c.nEstimators.toNat)) ∧
    ∀ k, fitArg b fresh own (.int k) c d s pos = ((fit b (fresh k) c d s).1, (fit b (fresh k) c d s).2, pos) := by
  constructor
  · refine ⟨_, fitFrom_eq b own c d s pos, ?_, ?_⟩
    · cases pre c d with
      | error e => exact Or.inl rfl
      | ok v =>
        simp only
        split
        · exact Or.inl rfl
        · exact Or.inr rfl
    · intro hok
      unfold fit at hok
      unfold pre
      by_cases h1 : ¬ (∀ x ∈ d.xIndex, x ∈ d.infoIndex)
      · rw [if_pos h1] at hok; cases hok
      rw [if_neg h1] at hok ⊢
      by_cases h2 : d.weights.any (fun w => decide (w.length ≠ d.xIndex.length)) = true
      · rw [if_pos h2] at hok; cases hok
      rw [if_neg h2] at hok ⊢
      by_cases h3 : c.nEstimators ≤ 0
      · rw [if_pos h3] at hok; cases hok
      rw [if_neg h3] at hok ⊢
      cases hS : resolveMaxSamples c.maxSamples d.xIndex.length with
      | error e => rw [hS] at hok; cases hok
      | ok maxS =>
      rw [hS] at hok
      cases hF : resolveMaxFeatures c.maxFeatures d.nFeatures with
      | error e => rw [hF] at hok; cases hok
      | ok maxF =>
      rw [hF] at hok
      simp only at hok ⊢
      by_cases h4 : (c.warmStart && c.oobScore) = true
      · rw [if_pos h4] at hok; cases hok
      rw [if_neg h4] at hok ⊢
      have hst : (if (!c.warmStart || s.estimators.isNone) = true then (⟨some [], [], []⟩ : Fitted Est) else s) =
          startState c s := rfl
      rw [hst, kept_eq c s] at hok
      by_cases h5 : c.nEstimators - (kept c s : ℤ) < 0
      · rw [if_pos h5] at hok; cases hok
      refine ⟨by omega, ?_⟩
      by_cases h6 : c.nEstimators = (kept c s : ℤ)
      · rw [if_pos h6]; simp only; rw [if_pos (by omega)]
      · rw [if_neg h6]; simp only; rw [if_neg (show ¬ c.nEstimators ≤ (kept c s : ℤ) by omega)]
  · intro k
    simp only [fitArg, fitFrom_eq, Nat.zero_add]

/-- One call after the other on one object and one generator; the outcome and the attributes after every call. -/
def runShared {Est : Type} (b : Base Est) (fresh : ℕ → ℕ → ℕ) (own : ℕ → ℕ) :
    List (Cfg × Data) → Fitted Est → ℕ → List (Outcome × Fitted Est)
  | [], _, _ => []
  | (c, d) :: l, s, pos =>
    let o := fitArg b fresh own .shared c d s pos
    (o.1, o.2.1) :: runShared b fresh own l o.2.1 o.2.2

/-- C129: cold fits one after the other use disjoint stretches of the generator: each call gives what an integer gives whose
numbers start after the ones that all earlier calls have taken. -/
theorem C129_history {Est : Type} (b : Base Est) (fresh : ℕ → ℕ → ℕ) (own : ℕ → ℕ) (calls : List (Cfg × Data))
    (hcold : ∀ p ∈ calls, p.1.warmStart = false ∧ 1 ≤ p.1.nJobs) (s : Fitted Est) (pos : ℕ)
    (hok : ∀ o ∈ runShared b fresh own calls s pos, o.1 = .ok ()) (k : ℕ) (hk : k < calls.length) :
    (runShared b fresh own calls s pos)[k]? = some (fit b
      (fun i => own (pos + ((calls.take k).map fun p => p.1.nEstimators.toNat).sum + i)) calls[k].1 calls[k].2 (unfitted Est)) := by
  induction calls generalizing s pos k with
  | nil => simp at hk
  | cons p l ih =>
    obtain ⟨c, d⟩ := p
    obtain ⟨hw, hj⟩ := hcold (c, d) List.mem_cons_self
    obtain ⟨⟨pos', h1, -, h3⟩, -⟩ := C129_draws b fresh own c d s pos
    have ho : (fit b (fun i => own (pos + i)) c d s).1 = .ok () := by
      have := hok _ List.mem_cons_self
      rwa [h1] at this
    obtain ⟨-, hpos⟩ := h3 ho
    have hkept : kept c s = 0 := by simp [kept, show c.warmStart = false from hw]
    have hpos' : pos' = pos + c.nEstimators.toNat := by
      rw [hpos, hkept]
      split
      · rename_i h; simp [h]
      · rfl
    cases k with
    | zero =>
      simp only [runShared, List.getElem?_cons_zero, List.take_zero, List.map_nil, List.sum_nil, Nat.add_zero,
        List.getElem_cons_zero]
      rw [h1, Prod.mk.eta, C20_cold_fit_forgets b _ c d hj hw s (unfitted Est) ho]
    | succ k =>
      have hok' : ∀ o ∈ runShared b fresh own l (fitArg b fresh own .shared c d s pos).2.1
          (fitArg b fresh own .shared c d s pos).2.2, o.1 = .ok () := fun o h => hok o (List.mem_cons_of_mem _ h)
      have := ih (fun p h => hcold p (List.mem_cons_of_mem _ h)) _ _ hok' k (by simpa using hk)
      simp only [runShared, List.getElem?_cons_succ, List.getElem_cons_succ, List.take_succ_cons, List.map_cons, List.sum_cons]
      rw [this, h1]
      simp only
      rw [hpos']
      simp only [Nat.add_assoc]

/-- The estimators of a call that returns come from their seeds. -/
theorem fit_seeds {Est : Type} (b : Base Est) (stream : ℕ → ℕ) (c : Cfg) (d : Data) (s : Fitted Est) (hj : 1 ≤ c.nJobs)
    (hok : (fit b stream c d s).1 = .ok ()) :
    ∃ new, ((fit b stream c d s).2.estimators.getD []) = (startState c s).estimators.getD [] ++ new ∧
      new.length = c.nEstimators.toNat - kept c s ∧
      ∀ i (hi : i < new.length), ∃ t, new[i] = b.fitEst (stream (kept c s + i)) t := by
  rw [fit_eq b stream c d s hj] at hok ⊢
  cases hp : pre c d with
  | error e => rw [hp] at hok; cases hok
  | ok v =>
    rw [hp] at hok
    simp only at hok ⊢
    unfold core at hok ⊢
    simp only at hok ⊢
    rw [kept_eq] at hok ⊢
    by_cases h1 : c.nEstimators < (kept c s : ℤ)
    · rw [if_pos h1] at hok; cases hok
    rw [if_neg h1] at hok ⊢
    by_cases h2 : c.nEstimators = (kept c s : ℤ)
    · rw [if_pos h2]
      exact ⟨[], by simp, by simp; omega, by simp⟩
    rw [if_neg h2] at hok ⊢
    cases hb : buildAll b d c.updateEvery v ((List.range (c.nEstimators.toNat - kept c s)).map fun i => stream (kept c s + i)) with
    | error e => rw [hb] at hok; cases hok
    | ok r =>
      refine ⟨r.map (·.1), by simp, ?_, ?_⟩
      all_goals
        unfold buildAll at hb
        split at hb
        · cases hb
      · simpa using mapE_length hb
      · intro i hi
        rw [List.length_map] at hi
        have hl := mapE_length hb
        obtain ⟨_, h3⟩ := mapE_getElem hb i (by simpa [hl] using hi)
        rw [List.getElem_map]
        simp only [List.getElem_map, List.getElem_range] at h3
        generalize r[i] = x at h3 ⊢
        unfold buildOne at h3
        simp only at h3
        split at h3
        · cases h3
        · split at h3
          · split at h3
            · cases h3; exact ⟨_, rfl⟩
            · cases h3
          · cases h3; exact ⟨_, rfl⟩

/-- C129 (same call twice, refuted): on a shared generator whose numbers do not repeat, and with base estimators that depend
on their seed, two cold fits in a row on the same data have no estimator in common. -/
theorem C129_repeat_refuted {Est : Type} (b : Base Est) (hb : ∀ x y t u, b.fitEst x t = b.fitEst y u → x = y)
    (fresh : ℕ → ℕ → ℕ) (own : ℕ → ℕ) (hown : own.Injective) (c : Cfg) (hw : c.warmStart = false) (hj : 1 ≤ c.nJobs) (d : Data)
    (s : Fitted Est) (pos : ℕ) (hpos : 0 < c.nEstimators) (o₁ o₂ : Fitted Est)
    (h : runShared b fresh own [(c, d), (c, d)] s pos = [(.ok (), o₁), (.ok (), o₂)]) :
    (o₁.estimators.getD []).length = c.nEstimators.toNat ∧ (o₂.estimators.getD []).length = c.nEstimators.toNat ∧
    ∀ e ∈ o₁.estimators.getD [], e ∉ o₂.estimators.getD [] := by
  have hcold : ∀ p ∈ [(c, d), (c, d)], p.1.warmStart = false ∧ 1 ≤ p.1.nJobs := by
    intro p hp
    have : p = (c, d) := by simpa using hp
    rw [this]; exact ⟨hw, hj⟩
  have hok : ∀ o ∈ runShared b fresh own [(c, d), (c, d)] s pos, o.1 = .ok () := by
    rw [h]; simp
  have e1 := C129_history b fresh own _ hcold s pos hok 0 (by simp)
  have e2 := C129_history b fresh own _ hcold s pos hok 1 (by simp)
  rw [h] at e1 e2
  simp only [List.getElem?_cons_zero, List.getElem?_cons_succ, Option.some.injEq, List.take_zero, List.map_nil, List.sum_nil,
    List.take_succ_cons, List.map_cons, List.sum_cons, List.getElem_cons_zero, List.getElem_cons_succ, Nat.add_zero] at e1 e2
  have k0 : kept c (unfitted Est) = 0 := by simp [kept, hw]
  have s0 : (startState c (unfitted Est)).estimators.getD [] = [] := by simp [startState, hw]
  obtain ⟨n1, a1, a2, a3⟩ := fit_seeds b _ c d (unfitted Est) hj (by rw [← e1])
  obtain ⟨n2, b1, b2, b3⟩ := fit_seeds b _ c d (unfitted Est) hj (by rw [← e2])
  rw [← e1, s0, List.nil_append] at a1
  rw [← e2, s0, List.nil_append] at b1
  simp only at a1 b1
  rw [k0] at a2 b2
  rw [a1, b1]
  refine ⟨a2, b2, ?_⟩
  intro e he1 he2
  obtain ⟨i, hi, rfl⟩ := List.mem_iff_getElem.1 he1
  obtain ⟨j, hj', he⟩ := List.mem_iff_getElem.1 he2
  obtain ⟨t, ht⟩ := a3 i hi
  obtain ⟨u, hu⟩ := b3 j hj'
  rw [ht, hu] at he
  have := hown (hb _ _ _ _ he)
  omega

/-- C129 (warm start, refuted): on a shared generator a first fit with `n₁` estimators and a warm start to `n₂` keep the first
`n₁`, but none of the others is the one a cold fit with `n₂` from the same position of the generator has in its place. -/
theorem C129_warm_start_refuted {Est : Type} (b : Base Est) (hb : ∀ x y t u, b.fitEst x t = b.fitEst y u → x = y)
    (fresh : ℕ → ℕ → ℕ) (own : ℕ → ℕ) (hown : own.Injective) (c : Cfg) (hw : c.warmStart = true) (hj : 1 ≤ c.nJobs) (d : Data)
    (pos n₁ n₂ : ℕ) (h1 : 1 ≤ n₁) (h2 : n₁ < n₂) (o₁ o₂ o : Fitted Est)
    (h : runShared b fresh own [({ c with nEstimators := (n₁ : ℤ) }, d), ({ c with nEstimators := (n₂ : ℤ) }, d)]
      (unfitted Est) pos = [(.ok (), o₁), (.ok (), o₂)])
    (hc : runShared b fresh own [({ c with nEstimators := (n₂ : ℤ), warmStart := false }, d)] (unfitted Est) pos = [(.ok (), o)]) :
    ∃ first rest scratch, o₁.estimators.getD [] = first ∧ o₂.estimators.getD [] = first ++ rest ∧
      o.estimators.getD [] = scratch ∧ first.length = n₁ ∧ rest.length = n₂ - n₁ ∧ scratch.length = n₂ ∧
      ∀ i < n₂ - n₁, ∀ e, rest[i]? = some e → scratch[n₁ + i]? ≠ some e := by
  obtain ⟨⟨p1, r1, -, q1⟩, -⟩ := C129_draws b fresh own { c with nEstimators := (n₁ : ℤ) } d (unfitted Est) pos
  simp only [runShared, List.cons.injEq, Prod.mk.injEq, and_true] at h hc
  obtain ⟨⟨g1, g2⟩, g3, g4⟩ := h
  rw [r1] at g1 g2 g3 g4
  simp only at g1 g2 g3 g4
  rw [g2] at g3 g4
  obtain ⟨-, q1⟩ := q1 g1
  have k1 : kept { c with nEstimators := (n₁ : ℤ) } (unfitted Est) = 0 := by simp [kept, nFitted, unfitted]
  rw [k1, if_neg (by simp; omega)] at q1
  simp only [Int.toNat_natCast] at q1
  subst q1
  obtain ⟨f1, a1, a2, a3⟩ := fit_seeds b _ { c with nEstimators := (n₁ : ℤ) } d (unfitted Est) hj g1
  rw [g2, k1] at *
  have s1 : (startState { c with nEstimators := (n₁ : ℤ) } (unfitted Est)).estimators.getD [] = [] := by
    simp [startState, unfitted]
  rw [s1, List.nil_append] at a1
  simp only [Int.toNat_natCast, Nat.sub_zero] at a2
  obtain ⟨⟨p2, r2, -, -⟩, -⟩ := C129_draws b fresh own { c with nEstimators := (n₂ : ℤ) } d o₁ (pos + n₁)
  rw [r2] at g3 g4
  simp only at g3 g4
  obtain ⟨f2, b1, b2, b3⟩ := fit_seeds b _ { c with nEstimators := (n₂ : ℤ) } d o₁ hj g3
  have k2 : kept { c with nEstimators := (n₂ : ℤ) } o₁ = n₁ := by
    simp only [kept, hw, if_true]
    rw [← a2, ← a1]; rfl
  have s2 : (startState { c with nEstimators := (n₂ : ℤ) } o₁).estimators.getD [] = f1 := by
    rw [← a1]
    unfold startState
    simp only [hw, Bool.not_true, Bool.false_or]
    cases he : o₁.estimators <;> simp [he]
  rw [g4, s2] at b1
  rw [k2] at b2 b3
  simp only [Int.toNat_natCast] at b2
  obtain ⟨⟨p3, r3, -, -⟩, -⟩ := C129_draws b fresh own { c with nEstimators := (n₂ : ℤ), warmStart := false } d (unfitted Est) pos
  rw [r3] at hc
  simp only at hc
  obtain ⟨f3, c1, c2, c3⟩ := fit_seeds b _ { c with nEstimators := (n₂ : ℤ), warmStart := false } d (unfitted Est) hj hc.1
  have k3 : kept { c with nEstimators := (n₂ : ℤ), warmStart := false } (unfitted Est) = 0 := by simp [kept]
  have s3 : (startState { c with nEstimators := (n₂ : ℤ), warmStart := false } (unfitted Est)).estimators.getD [] = [] := by
    simp [startState]
  rw [hc.2, s3, List.nil_append] at c1
  rw [k3] at c2 c3
  simp only [Int.toNat_natCast, Nat.sub_zero] at c2
  refine ⟨f1, f2, f3, a1, b1, c1, a2, b2, c2, ?_⟩
  intro i hi e he hs
  rw [List.getElem?_eq_some_iff] at he hs
  obtain ⟨i1, he⟩ := he
  obtain ⟨i2, hs⟩ := hs
  obtain ⟨t, ht⟩ := b3 i i1
  obtain ⟨u, hu⟩ := c3 (n₁ + i) i2
  rw [he] at ht
  rw [hs] at hu
  rw [ht] at hu
  have := hown (hb _ _ _ _ hu)
  omega

/-- C129: with an integer the same call gives the same result whatever was called before, on whatever generator. -/
theorem C129_int_repeatable {Est : Type} (b : Base Est) (fresh : ℕ → ℕ → ℕ) (own own' : ℕ → ℕ) (k : ℕ) (c : Cfg) (hj : 1 ≤ c.nJobs)
    (hw : c.warmStart = false) (d : Data) (s s' : Fitted Est) (pos pos' : ℕ)
    (hok : (fitArg b fresh own (.int k) c d s pos).1 = .ok ()) :
    (fitArg b fresh own (.int k) c d s pos).2.1 = (fitArg b fresh own' (.int k) c d s' pos').2.1 ∧
    (fitArg b fresh own' (.int k) c d s' pos').1 = .ok () := by
  rw [(C129_draws b fresh own c d s pos).2 k] at hok ⊢
  rw [(C129_draws b fresh own' c d s' pos').2 k]
  simp only at hok ⊢
  have := C20_cold_fit_forgets b (fresh k) c d hj hw s s' hok
  rw [← this]
  exact ⟨rfl, hok⟩

/-- Two cold fits on a shared generator: seeds 0 to 4, then 5 to 9. -/
example : (runShared demoBase (fun k i => k + i) id [(demoCfg, demoData), (demoCfg, demoData)] (unfitted _) 0).map
      (fun o => (o.1, (o.2.estimators.getD []).map (·.1))) = [(.ok (), [0, 1, 2, 3, 4]), (.ok (), [5, 6, 7, 8, 9])] := by
  decide +kernel

/-- A warm start on a shared generator: after the seeds 0 and 1 the next two are passed over. -/
example : (runShared demoBase (fun k i => k + i) id
      [({ demoCfg with warmStart := true, nEstimators := 2 }, demoData), ({ demoCfg with warmStart := true }, demoData)] (unfitted _) 0).map
      (fun o => (o.1, (o.2.estimators.getD []).map (·.1))) = [(.ok (), [0, 1]), (.ok (), [0, 1, 4, 5, 6])] ∧
    (runShared demoBase (fun k i => k + i) id [(demoCfg, demoData)] (unfitted _) 0).map
      (fun o => (o.1, (o.2.estimators.getD []).map (·.1))) = [(.ok (), [0, 1, 2, 3, 4])] := by
  decide +kernel

example : ∀ x y t u, demoBase.fitEst x t = demoBase.fitEst y u → x = y := by
  intro x y t u h
  exact congrArg Prod.fst h

/-- With an integer the position of the shared generator does not matter. -/
example : (fitArg demoBase (fun k i => k + i) id (.int 7) demoCfg demoData (unfitted _) 3).1 = .ok () ∧
    ((fitArg demoBase (fun k i => k + i) id (.int 7) demoCfg demoData (unfitted _) 3).2.1.estimators.getD []).map (·.1) =
      [7, 8, 9, 10, 11] := by decide +kernel

end Mizar.Props
