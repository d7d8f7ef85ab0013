import Mathlib.Algebra.BigOperators.Group.List.Lemmas
import Verif.Model.Bagging

/-! Lemmas about job partition and fitting of the bagging classifier. -/

namespace Mizar.Bag
open Mizar.Boot

theorem scanl_getD (l : List ℕ) : ∀ (a i : ℕ), i ≤ l.length →
    (l.scanl (· + ·) a).getD i 0 = a + (l.take i).sum := by
  induction l with
  | nil => intro a i h; simp at h; subst h; simp
  | cons b l ih =>
    intro a i h
    cases i with
    | zero => simp
    | succ i =>
      have := ih (a + b) i (by simpa using h)
      simpa [List.scanl_cons, add_assoc] using this

theorem sum_sizes (c r : ℕ) : ∀ m, ((List.range m).map fun i => c + if i < r then 1 else 0).sum =
    m * c + min m r := by
  intro m
  induction m with
  | zero => simp
  | succ m ih =>
    rw [List.range_succ, List.map_append, List.sum_append, ih]
    simp only [List.map_cons, List.map_nil, List.sum_cons, List.sum_nil]
    rw [Nat.succ_mul]
    split <;> omega

theorem chunks_flatten {α : Type*} (seeds : List α) (starts : List ℕ)
    (sizes : List ℕ) (hst : ∀ i ≤ sizes.length, starts.getD i 0 = (sizes.take i).sum) :
    ∀ m ≤ sizes.length,
      ((List.range m).map fun i => (seeds.take (starts.getD (i + 1) 0)).drop (starts.getD i 0)).flatten =
        seeds.take ((sizes.take m).sum) := by
  intro m
  induction m with
  | zero => intro _; simp
  | succ m ih =>
    intro hm
    rw [List.range_succ, List.map_append, List.flatten_append, ih (by omega)]
    simp only [List.map_cons, List.map_nil, List.flatten_cons, List.flatten_nil, List.append_nil]
    rw [hst m (by omega), hst (m + 1) hm]
    have hle : (sizes.take m).sum ≤ (sizes.take (m + 1)).sum := by
      rw [List.sum_take_succ _ _ (by omega)]
      omega
    have : seeds.take ((sizes.take m).sum) = (seeds.take ((sizes.take (m + 1)).sum)).take ((sizes.take m).sum) := by
      rw [List.take_take, min_eq_left hle]
    rw [this, List.take_append_drop]

theorem partition_facts (n jobs : ℕ) (hn : 1 ≤ n) (hj : 1 ≤ jobs) :
    (partitionEstimators n jobs).2.1.length = (partitionEstimators n jobs).1 ∧
    (partitionEstimators n jobs).2.1.sum = n ∧ 1 ≤ (partitionEstimators n jobs).1 ∧
    ∀ i ≤ (partitionEstimators n jobs).2.1.length,
      (partitionEstimators n jobs).2.2.getD i 0 = ((partitionEstimators n jobs).2.1.take i).sum := by
  unfold partitionEstimators
  simp only
  refine ⟨by simp, ?_, by omega, ?_⟩
  · rw [sum_sizes]
    have hk : 0 < min jobs n := by omega
    have h1 := Nat.div_add_mod n (min jobs n)
    have h2 := Nat.mod_lt n hk
    rw [min_eq_right h2.le]
    exact h1
  · intro i hi
    rw [scanl_getD _ 0 i hi, Nat.zero_add]

/-- The jobs together build exactly one estimator per seed, in order. -/
theorem runJobs_eq {Est : Type} (b : Base Est) (d : Data) (sub : IndMat) (maxF maxS : ℕ) (upd : ℤ)
    (n jobs : ℕ) (hn : 1 ≤ n) (hj : 1 ≤ jobs) (seeds : List ℕ) (hs : seeds.length = n) :
    runJobs b d sub maxF maxS upd (partitionEstimators n jobs).2.1 (partitionEstimators n jobs).2.2 seeds
        (partitionEstimators n jobs).1 =
      if !b.supportsWeight && d.weights.isSome then .error .valueError
      else mapE (buildOne b d sub maxF maxS upd) seeds := by
  obtain ⟨h1, h2, h3, h4⟩ := partition_facts n jobs hn hj
  generalize partitionEstimators n jobs = p at *
  obtain ⟨k, sizes, starts⟩ := p
  simp only at h1 h2 h3 h4 ⊢
  unfold runJobs
  by_cases hw : (!b.supportsWeight && d.weights.isSome) = true
  · rw [if_pos hw]
    have : ∃ k', k = k' + 1 := ⟨k - 1, by omega⟩
    obtain ⟨k', rfl⟩ := this
    rw [List.range_succ_eq_map]
    simp only [mapE, parallelBuild, hw, if_true, Except.map]
  · rw [if_neg hw]
    have hchunk : mapE (fun i => parallelBuild b d sub maxF maxS upd (sizes.getD i 0)
        ((seeds.take (starts.getD (i + 1) 0)).drop (starts.getD i 0))) (List.range k) =
        mapE (mapE (buildOne b d sub maxF maxS upd)) ((List.range k).map fun i =>
          (seeds.take (starts.getD (i + 1) 0)).drop (starts.getD i 0)) := by
      rw [mapE_map]
      apply mapE_congr
      intro i hi
      have hi' : i < sizes.length := by rw [h1]; exact List.mem_range.1 hi
      simp only [parallelBuild, hw, if_false, Bool.false_eq_true]
      have hlen : ((seeds.take (starts.getD (i + 1) 0)).drop (starts.getD i 0)).length = sizes.getD i 0 := by
        rw [h4 i hi'.le, h4 (i + 1) hi', List.length_drop, List.length_take]
        have e1 : (sizes.take (i + 1)).sum = (sizes.take i).sum + sizes.getD i 0 := by
          rw [List.sum_take_succ _ _ hi']
          simp [List.getElem?_eq_getElem hi']
        have e2 : (sizes.take (i + 1)).sum ≤ seeds.length := by
          rw [hs, ← h2]
          exact (List.take_sublist _ _).sum_le_sum (by simp)
        omega
      rw [← hlen]
      exact mapE_range_getE _ _
    rw [hchunk]
    rw [mapE_flatten, chunks_flatten seeds starts sizes h4 k (by omega)]
    rw [← h1, List.take_length, h2, ← hs, List.take_length]

/-- The checks made before any attribute changes. -/
def pre (c : Cfg) (d : Data) : Py (ℤ × ℤ) :=
  if ¬ (∀ x ∈ d.xIndex, x ∈ d.infoIndex) then .error .assertionError
  else if d.weights.any (fun w => decide (w.length ≠ d.xIndex.length)) then .error .valueError
  else if c.nEstimators ≤ 0 then .error .valueError
  else
    match resolveMaxSamples c.maxSamples d.xIndex.length with
    | .error e => .error e
    | .ok maxS =>
      match resolveMaxFeatures c.maxFeatures d.nFeatures with
      | .error e => .error e
      | .ok maxF => if c.warmStart && c.oobScore then .error .valueError else .ok (maxS, maxF)

/-- One estimator per seed, without jobs. -/
def buildAll {Est : Type} (b : Base Est) (d : Data) (upd : ℤ) (m : ℤ × ℤ) (seeds : List ℕ) :
    Py (List (Est × List ℕ × List ℕ)) :=
  if !b.supportsWeight && d.weights.isSome then .error .valueError
  else mapE (buildOne b d (selectCols d.mat (subsampleCols d.infoIndex d.xIndex)) m.2.toNat m.1.toNat upd) seeds

/-- The state the building starts from. -/
def startState {Est : Type} (c : Cfg) (s : Fitted Est) : Fitted Est :=
  if !c.warmStart || s.estimators.isNone then ⟨some [], [], []⟩ else s

/-- The part of `fit` after the checks. -/
def core {Est : Type} (b : Base Est) (stream : ℕ → ℕ) (c : Cfg) (d : Data) (m : ℤ × ℤ) (s : Fitted Est) :
    Outcome × Fitted Est :=
  let len := (s.estimators.getD []).length
  if c.nEstimators < len then (.error .valueError, s)
  else if c.nEstimators = len then (.ok (), s)
  else
    match buildAll b d c.updateEvery m ((List.range (c.nEstimators.toNat - len)).map fun i => stream (len + i)) with
    | .error e => (.error e, s)
    | .ok r => (.ok (), ⟨some (s.estimators.getD [] ++ r.map (·.1)), s.features ++ r.map (·.2.1),
        s.samples ++ r.map (·.2.2)⟩)

theorem startState_cold_len {Est : Type} (c : Cfg) (s : Fitted Est) (h : c.warmStart = false) :
    ((startState c s).estimators.getD []).length = 0 := by simp [startState, h]

theorem fit_eq {Est : Type} (b : Base Est) (stream : ℕ → ℕ) (c : Cfg) (d : Data) (s : Fitted Est)
    (hj : 1 ≤ c.nJobs) :
    fit b stream c d s =
      match pre c d with
      | .error e => (.error e, s)
      | .ok m => core b stream c d m (startState c s) := by
  unfold fit pre
  by_cases h1 : ¬ (∀ x ∈ d.xIndex, x ∈ d.infoIndex)
  · rw [if_pos h1, if_pos h1]
  rw [if_neg h1, if_neg h1]
  by_cases h2 : d.weights.any (fun w => decide (w.length ≠ d.xIndex.length)) = true
  · rw [if_pos h2, if_pos h2]
  rw [if_neg h2, if_neg h2]
  by_cases h3 : c.nEstimators ≤ 0
  · rw [if_pos h3, if_pos h3]
  rw [if_neg h3, if_neg h3]
  cases resolveMaxSamples c.maxSamples d.xIndex.length with
  | error e => rfl
  | ok maxS =>
  cases resolveMaxFeatures c.maxFeatures d.nFeatures with
  | error e => rfl
  | ok maxF =>
  simp only
  by_cases h4 : (c.warmStart && c.oobScore) = true
  · rw [if_pos h4, if_pos h4]
  rw [if_neg h4, if_neg h4]
  change _ = core b stream c d (maxS, maxF) (startState c s)
  have hst : (if (!c.warmStart || s.estimators.isNone) = true then (⟨some [], [], []⟩ : Fitted Est) else s) =
      startState c s := rfl
  rw [hst]
  have hskip : (if (c.warmStart && decide (0 < ((startState c s).estimators.getD []).length)) = true
      then ((startState c s).estimators.getD []).length else 0) =
      ((startState c s).estimators.getD []).length := by
    by_cases hw : c.warmStart = true
    · simp only [hw, Bool.true_and, decide_eq_true_eq]
      split <;> omega
    · have hw' : c.warmStart = false := by simpa using hw
      rw [startState_cold_len c s hw']; simp
  generalize startState c s = s' at *
  unfold core
  simp only
  by_cases h5 : c.nEstimators < ((s'.estimators.getD []).length : ℤ)
  · rw [if_pos (by omega), if_pos h5]
  rw [if_neg (by omega), if_neg h5]
  by_cases h6 : c.nEstimators = ((s'.estimators.getD []).length : ℤ)
  · rw [if_pos (by omega), if_pos h6]
  rw [if_neg (by omega), if_neg h6]
  rw [hskip]
  have hn : (c.nEstimators - ((s'.estimators.getD []).length : ℤ)).toNat =
      c.nEstimators.toNat - (s'.estimators.getD []).length := by omega
  rw [hn]
  set n := c.nEstimators.toNat - (s'.estimators.getD []).length with hnd
  have hn1 : 1 ≤ n := by omega
  have hrun := runJobs_eq b d (selectCols d.mat (subsampleCols d.infoIndex d.xIndex)) maxF.toNat
    maxS.toNat c.updateEvery n c.nJobs hn1 hj
    ((List.range n).map fun i => stream ((s'.estimators.getD []).length + i)) (by simp)
  rw [hrun]
  rfl

/-- `fit` does not read `nJobs` except for the partition. -/
theorem pre_nJobs (c : Cfg) (d : Data) (j : ℕ) : pre { c with nJobs := j } d = pre c d := rfl

end Mizar.Bag
