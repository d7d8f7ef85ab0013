import Verif.Props.CV
import Verif.Props.CVPaths
import Verif.Props.CVChange
import Verif.Props.MissingEval
import Verif.Props.Align
import Verif.Props.AlignAny
import Verif.Props.Cusum
import Verif.Props.DailyVol
import Verif.Props.Uniqueness
import Verif.Props.RoundedBag
import Verif.Props.DoubleCusum

/-!
Property theorems applied to concrete data: each example meets every hypothesis of the theorem it names, so none of
these theorems holds vacuously.  The data are small; the theorems themselves are for all inputs.
-/

namespace Mizar.Check
open Mizar.Props

section Splits
open Mizar.Spec Mizar.CV

/-- Eight samples a bar apart, each evaluated one bar later. -/
private theorem eightBars : Timeline 8 (fun i => (i : ℤ)) (fun i => (i : ℤ) + 1) :=
  ⟨fun i j h _ => by simpa using h, fun i _ => by simp⟩

private theorem eightSplit : ∃ rounds, split 8 4 2 (fun i => (i : ℤ)) (fun i => (i : ℤ) + 1) 0 = .ok rounds ∧
    ([5, 6, 7], [0, 1, 2, 3]) ∈ rounds ∧ ([3, 4], [0, 1, 6, 7]) ∈ rounds := ⟨_, rfl, by decide +kernel, by decide +kernel⟩

/-- C03, C02, C04: eight samples, four folds, two of them tested. -/
example := C03_folds_balanced_partition 8 4 (by norm_num) (by norm_num)
example := C02_every_combination_once 8 4 2 (fun i => (i : ℤ)) (fun i => (i : ℤ) + 1) 0 (by norm_num) (by norm_num)
example : ∀ i ∈ [3, 4], i ∉ [0, 1, 6, 7] := by
  obtain ⟨rounds, h, -, hr⟩ := eightSplit
  exact (C04_train_test_disjoint 8 4 2 _ _ 0 (by norm_num) rounds h _ hr).2.2.2

/-- C06: the training sample 5 and the test sample 3 of the round that tests the first two folds. -/
example : Separated (fun i => (i : ℤ)) (fun i => (i : ℤ) + 1) 0 5 3 := by
  obtain ⟨rounds, h, hr, -⟩ := eightSplit
  refine C06_no_leakage_partial 8 4 2 _ _ 0 (by norm_num) eightBars rounds h _ hr 5 3 (by decide) (by decide) ?_
  intro _ e _ u hu
  have hu' : u ∈ [0, 1, 2, 3] := List.mem_of_mem_take hu
  revert u
  intro u _ hu'
  fin_cases hu' <;> simp

/-- C07: the sample 4 is dropped from that round, and the training set is exactly the samples 5, 6 and 7. -/
example : ∃ t ∈ [0, 1, 2, 3], ¬ Separated (fun i => (i : ℤ)) (fun i => (i : ℤ) + 1) 0 4 t := by
  obtain ⟨rounds, h, hr, -⟩ := eightSplit
  exact C07_no_overdrop_partial 8 4 2 _ _ 0 (by norm_num) eightBars le_rfl rounds h _ hr
    (fun x y z _ hz _ hyz => by simp only [List.mem_cons, List.not_mem_nil, or_false] at hz ⊢; omega) 4 (by norm_num) (by decide) (by decide)

example (i : ℕ) : i ∈ [5, 6, 7] ↔
    i < 8 ∧ i ∉ [0, 1, 2, 3] ∧ ∀ t ∈ [0, 1, 2, 3], Separated (fun i => (i : ℤ)) (fun i => (i : ℤ) + 1) 0 i t := by
  obtain ⟨rounds, h, hr, -⟩ := eightSplit
  refine C07_exact_train_set_partial 8 4 2 _ _ 0 (by norm_num) eightBars le_rfl rounds h _ hr
    (fun x y z _ hz _ hyz => by simp only [List.mem_cons, List.not_mem_nil, or_false] at hz ⊢; omega) ?_ i
  intro t ht
  fin_cases ht <;> simp

/-- C85: an embargo of one bar beside none. -/
example : ∃ rounds rounds', split 8 4 1 (fun i => (i : ℤ)) (fun i => (i : ℤ)) 0 = .ok rounds ∧
    split 8 4 1 (fun i => (i : ℤ)) (fun i => (i : ℤ)) 1 = .ok rounds' ∧ rounds'.map (·.2) = rounds.map (·.2) ∧ rounds' ≠ rounds :=
  ⟨_, _, rfl, rfl, (C85_embargo_partial 8 4 1 _ _ 0 1 (by norm_num) _ _ rfl rfl).1, by decide +kernel⟩

/-- C87: the third of six samples has no evaluation time; it is not a training sample before the last two. -/
example : ∃ rounds, splitM 6 3 1 (fun i => (i : ℤ)) (fun i => if i = 2 then none else some (i : ℤ)) 0 = .ok rounds ∧
    ∀ r ∈ rounds, ∀ i t : ℕ, i ∈ r.1 → t ∈ r.2 → i ≠ t ∧ (i < t → ∃ e, (if i = 2 then none else some (i : ℤ)) = some e ∧ e < (t : ℤ)) :=
  ⟨_, rfl, fun r hr i t hi ht => C87_missing_not_before_test 6 3 1 (fun i => (i : ℤ)) (fun i => if i = 2 then none else some (i : ℤ)) 0
    (by norm_num) (fun i j h _ => by simpa using h) _ rfl r hr i t hi ht⟩

/-- C10: one test fold out of four, two out of three, whatever the shuffling. -/
example (shuf : ℕ → ℕ → List Block → List Block) (hsh : ∀ i j l, (shuf i j l).Perm l) :
    ∃ paths, combinatorialPaths 9 ⟨3, 2, 3, 0⟩ shuf = .ok paths ∧ paths.length = 2 :=
  C10_path_count_partial 9 3 2 0 (by norm_num) (by norm_num) (by norm_num) (by norm_num) (by norm_num) shuf hsh

example (shuf : ℕ → ℕ → List Block → List Block) (hsh : ∀ i j l, (shuf i j l).Perm l) :
    ∃ paths fb, combinatorialPaths 9 ⟨3, 2, 3, 0⟩ shuf = .ok paths ∧ foldBounds 9 3 = .ok fb ∧ ∀ p ∈ paths, (p.map (·.bound)).Perm fb := by
  obtain ⟨paths, h, -⟩ := C10_path_count_partial 9 3 2 0 (by norm_num) (by norm_num) (by norm_num) (by norm_num) (by norm_num) shuf hsh
  obtain ⟨fb, sel, hfb, -, hp, -⟩ := C10_paths_sound 9 3 2 0 3 (by norm_num) (by norm_num) (by norm_num) (by norm_num) shuf hsh paths h
  exact ⟨paths, fb, h, hfb, hp⟩

end Splits

section Alignment
open Mizar.Spec Mizar.Pipe

private def leadOf : Frame ℚ := ⟨["x"], [(10, [.fin 1]), (20, [.fin 2])]⟩
private def sideOf : Frame ℚ := ⟨["y"], [(5, [.fin 1]), (9, [.fin 3]), (15, [.fin 8])]⟩
private def sideOf' : Frame ℚ := ⟨["y"], [(5, [.fin 1]), (9, [.fin 3]), (15, [.fin 2]), (17, [.fin 4])]⟩

/-- C46: two rows of the second frame fall before the first bar and no aggregation is configured. -/
example : alignOn [] "a" ⟨[("a", leadOf), ("b", sideOf)], []⟩ = .error .keyError :=
  C46_missing_aggregation [] "a" ⟨[("a", leadOf), ("b", sideOf)], []⟩ leadOf (by decide) (by decide +kernel) (by decide +kernel) (by decide +kernel)
    (by decide +kernel) (by decide +kernel) ("b", sideOf) (by decide +kernel) (by decide) (fun m h => by simp at h) 0 (by decide +kernel)
    (by decide +kernel)

/-- C46: the leading key is not among the primary features. -/
example : alignOn [] "z" ⟨[("a", leadOf), ("b", sideOf)], []⟩ = .error .keyError :=
  C46_no_lead [] "z" ⟨[("a", leadOf), ("b", sideOf)], []⟩ (by decide) (by decide +kernel)

/-- C44: rows out of order, one cell missing. -/
example := C44_any_rows (K := ℚ) [("b", "max")] "b" "max" (by decide) (by decide) ["y"] [(9, [some 3]), (5, [none]), (15, [some 8])] [10, 20]
  (by decide) (by decide) (by decide)

end Alignment

section Filters
open Mizar.Spec

/-- C34, C36: three prices. -/
example := C34_events (K := ℚ) 1 (by norm_num) [(1, 10), (2, 12), (3, 9)] (by decide)
example : Cusum.transform (K := ℚ) (.fin (-1)) [(1, .fin 10), (2, .fin 12), (3, .fin 12)] = .ok [2, 3] :=
  C36_negative_threshold_selects_all (-1) (by norm_num) _ (by decide)

/-- C33: four bars, twelve hours apart; the first two have no bar a day before. -/
example := C33_reference_bar (K := ℚ) [0, 43200000000000, 86400000000000, 129600000000000] [.fin 10, .fin 11, .fin 12, .nan] (by decide) rfl

/-- C13: three events, two of them overlapping. -/
example := C13_transform [(1, 4), (2, 6), (9, 9)] (by decide) (by decide) (by decide)

/-- C112: three estimators, two classes. -/
example (jobs : ℕ) (hj : 1 ≤ jobs) (h3 : jobs ≤ 3) : Rd.predictClass (roundBits 53) 3 jobs [[1 / 10, 2 / 10, 3 / 10], [9 / 10, 8 / 10, 7 / 10]] = 1 := by
  refine C112_predict (by norm_num) jobs hj 3 (by norm_num) (by norm_num) _ ?_ 1 (by norm_num) ?_
  · intro c hc
    fin_cases hc <;> refine ⟨rfl, fun x hx => ?_⟩ <;> fin_cases hx <;> norm_num
  · intro j hj' hne
    have : j = 0 := by simp at hj'; omega
    subst this
    interval_cases jobs <;> norm_num

end Filters

end Mizar.Check
