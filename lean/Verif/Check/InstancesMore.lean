import Verif.Props.Align
import Verif.Props.AlignSteps
import Verif.Props.DailyVol
import Verif.Props.DailyVolAny
import Verif.Props.BetSizing
import Verif.Props.ActiveBets
import Verif.Props.AnyTimes
import Verif.Props.BetOrder
import Verif.Props.Bagging
import Verif.Props.BagRandom
import Verif.Props.BagShared
import Verif.Props.OobScore
import Verif.Props.Csw
import Verif.Props.Cusum
import Verif.Props.CusumRestart
import Verif.Props.DoubleBet
import Verif.Props.DoubleCusum
import Verif.Props.DoubleEvent
import Verif.Props.DoubleWeights
import Verif.Props.Estimator
import Verif.Props.Features
import Verif.Props.Microstructure
import Verif.Props.Signals
import Verif.Props.JointDraw
import Verif.Props.RoundedBag
import Verif.Props.RoundedBet
import Verif.Props.RoundedCross
import Verif.Props.RoundedEwm
import Verif.Props.RoundedHighLow
import Verif.Props.RoundedImpact
import Verif.Props.RoundedRoll
import Verif.Props.Rounded
import Verif.Props.MoreEvents
import Verif.Props.SampleWeights
import Verif.Props.MissingEval
import Verif.Props.Labeling
import Verif.Props.Volatility

/-!
Further property theorems applied to concrete data, as in `Verif.Check.Instances`.
-/

namespace Mizar.Check
open Mizar.Props

section Alignment
open Mizar.Spec Mizar.Pipe

private def lead : Frame ℚ := ⟨["x"], [(10, [.fin 1]), (20, [.fin 2])]⟩
private def early : Features ℚ := ⟨[("a", lead), ("b", ⟨["y"], [(5, [.fin 1]), (9, [.fin 3]), (15, [.fin 8])]⟩)], []⟩
private def earlyOut : Features ℚ := ⟨[("a", lead), ("b", ⟨["y"], [(10, [.fin 3]), (20, [.fin 8])]⟩)], []⟩

private theorem early_ok : alignOn [("b", "max")] "a" early = .ok earlyOut := by decide +kernel

example := C46_index_and_keys [("b", "max")] "a" early earlyOut (by decide) early_ok
example : alignOn [("b", "max")] "a" earlyOut = .ok earlyOut :=
  C127_twice [("b", "max")] "a" early earlyOut (fun f h => by cases h; decide +kernel) early_ok

end Alignment

section Volatility
open Mizar.Spec Mizar.Lab

example : (dailyVolColumn (K := ℚ) id [0, 43200000000000, 86400000000001] [.fin 10, .fin 11, .fin 12])[1]? = some .nan :=
  C33_no_reference_no_value id [0, 43200000000000, 86400000000001] [.fin 10, .fin 11, .fin 12] (by decide) 1 (by decide) (by
    intro j hj
    simp at hj
    interval_cases j <;> norm_num)

end Volatility

section Bets
open Mizar.Spec

/-- Two rows, two classes, metalabels, nothing averaged or rounded. -/
private noncomputable def sizeCfg : Bet.Cfg := ⟨2, false, true, false, none, "bet_size", "event_end"⟩
private noncomputable def sizeFrame : Bet.Frame := ⟨[0, 1000000], some [.fin (7 / 10), .fin (1 / 2)], some [.fin 1, .fin 0], some [.fin 1, .fin (-1)], none⟩

private theorem sizeInput : BetInput sizeCfg sizeFrame [7 / 10, 1 / 2] [1, 0] [1, -1] where
  prob_eq := rfl
  pred_eq := rfl
  side_eq _ := rfl
  end_eq h := by cases h
  prob_len := rfl
  pred_len := rfl
  side_len := rfl
  prob_range p hp := by simp at hp; rcases hp with rfl | rfl <;> norm_num
  pred_range p hp := by simp at hp; rcases hp with rfl | rfl <;> norm_num
  side_range p hp := by simp at hp; rcases hp with rfl | rfl <;> norm_num
  side_one h := by cases h
  classes := le_rfl
  constructed := rfl
  names h := by cases h

example := C37_size_in_unit_interval_partial sizeInput
example := C38_size_formula sizeInput rfl rfl 0 (by decide)
example := C41_name_irrelevant_partial sizeCfg sizeFrame "size" rfl

private theorem stepInput : BetInput { sizeCfg with discretise := true, stepSize := some (1 / 10) } sizeFrame [7 / 10, 1 / 2] [1, 0] [1, -1] :=
  { sizeInput with constructed := by norm_num [Bet.construct] }

example := C39_transform stepInput rfl rfl

/-- C40, C120, C123: two overlapping bets and one that stays open. -/
private def threeBets : List (ABet ℚ) := [⟨0, some 3000000, 1 / 2⟩, ⟨1000000, none, 1⟩, ⟨2000000, some 4000000, 1 / 4⟩]

example := C40_average_active_partial threeBets (by decide) (fun b hb e he => by
  simp only [threeBets, List.mem_cons, List.not_mem_nil, or_false] at hb
  rcases hb with rfl | rfl | rfl <;> simp at he <;> subst he <;> decide)

private def threeActive : List (Bet.Bet ℚ) := [⟨0, some 3000000, .fin (1 / 2)⟩, ⟨1000000, none, .fin 1⟩, ⟨2000000, some 4000000, .nan⟩]

example := C120_any_times 1999999 (by decide) threeActive (fun b hb e he => by
  simp only [threeActive, List.mem_cons, List.not_mem_nil, or_false] at hb
  rcases hb with rfl | rfl | rfl <;> simp at he <;> subst he <;> decide)
example := C123_order (List.reverse_perm threeActive)

end Bets

section Ensembles
open Mizar.Bag Mizar.Boot Mizar.Spec

example (s s' : Fitted (ℕ × Train)) (h : (fit demoBase id demoCfg demoData s).1 = .ok ()) : fit demoBase id demoCfg demoData s = fit demoBase id demoCfg demoData s' :=
  C20_cold_fit_forgets demoBase id demoCfg demoData (by decide) rfl s s' h
example : (fit demoBase id demoCfg demoData (unfitted _)).1 = .ok () := by decide +kernel
example := C21_attributes_aligned [⟨demoBase, id, demoCfg, demoData⟩, ⟨demoBase, id, { demoCfg with warmStart := true, nEstimators := 7 }, demoData⟩] (by simp; decide)
example := C129_history demoBase (fun k i => k + i) id [(demoCfg, demoData), (demoCfg, demoData)] (by simp; decide) (unfitted _) 3
  (fun o ho => by
    have : ∀ o ∈ (runShared demoBase (fun k i => k + i) id [(demoCfg, demoData), (demoCfg, demoData)] (unfitted _) 3).map (·.1), o = .ok () := by decide +kernel
    exact this _ (List.mem_map_of_mem ho)) 1 (by decide)
example := C98_probability [1 / 4, 3 / 4, 0] (fun x hx => by simp at hx; rcases hx with rfl | rfl | rfl <;> norm_num) (by norm_num) 1 (by norm_num)

/-- A generator that is not random at all. -/
private def countGen : Gen ℕ where
  seed := id
  afterMake := id
  randint n m s := (List.replicate m 0, s + 1)
  sampleWithout n m s := (List.range m, s + 1)
  double s := (1 / 2, s + 1)

private theorem count_valid : ValidGen countGen where
  double s := by norm_num [countGen]
  randint n m s h := by simp only [countGen, List.length_replicate, List.mem_replicate, true_and]; rintro x ⟨-, rfl⟩; exact h
  sample n m s h := by simp only [countGen, List.length_range, List.mem_range, true_and]; exact ⟨List.nodup_range, fun x hx => by omega⟩

private def overlap : IndMat := ⟨3, 2, fun t j => decide (j = 0 ∨ 1 ≤ t)⟩

example := C98_run overlap (by decide) countGen count_valid (some 5) 2 (by norm_num) 0
example := C98_generator overlap countGen (some 5) 2 (by norm_num) 0

private def voter (k : ℕ) : OobEst := ⟨[0, 1], none, fun _ => k, true⟩

private theorem voter_full (k : ℕ) (h : k < 2) : FullOob 2 (voter k) := ⟨rfl, by simp [voter], fun _ _ => h⟩

/-- C99: each of three rows is left out by one of two estimators. -/
example := C99_score_partial 2 (by norm_num) [0, 1, 1] [(voter 0, [0]), (voter 1, [1, 2])]
  (by simp only [List.forall_mem_cons]; exact ⟨voter_full 0 (by norm_num), voter_full 1 (by norm_num), by simp⟩)
  (by simp only [List.forall_mem_cons]; exact ⟨Or.inr ⟨1, by decide, by decide⟩, Or.inr ⟨0, by decide, by decide⟩, by simp⟩)
  (fun i hi => by simp at hi; interval_cases i <;> simp [oobOf])
example := C99_unseen_row 2 (by norm_num) [0, 1, 1] [(voter 0, [0, 2]), (voter 1, [1, 2])]
  (by simp only [List.forall_mem_cons]; exact ⟨voter_full 0 (by norm_num), voter_full 1 (by norm_num), by simp⟩)
  (by simp only [List.forall_mem_cons]; exact ⟨Or.inr ⟨1, by decide, by decide⟩, Or.inr ⟨0, by decide, by decide⟩, by simp⟩)

end Ensembles

section Filters
open Mizar.Spec

example := C36_subsequence (K := ℚ) (.fin 1) [(1, .fin 10), (2, .fin 12), (3, .nan), (4, .fin 9)] [2] (by decide +kernel)
example := C36_causal (K := ℚ) (.fin 1) [(1, .fin 10), (2, .fin 12)] [(3, .fin 12), (4, .fin 9)] [2, 4] (by decide +kernel)
example := C121_restart (K := ℚ) 1 [(1, .fin 10), (2, .fin 12)] [(4, .fin 31), (5, .fin 20)] (3, .fin 30) [2, 3, 5] (by decide +kernel) (by decide)

private theorem whole (z : ℤ) (h : |z| < 2 ^ 53) : IsFloat 53 z := ⟨z, 0, h, by simp⟩

private theorem prices_grid : ∀ x ∈ ([(1, 10), (2, 12)] : List (ℤ × ℚ)) ++ (3, 30) :: [(4, 31), (5, 20)], ∃ m : ℤ, |m| < 2 ^ (53 - 1) ∧ x.2 = (m : ℚ) * 2 ^ (0 : ℤ) := by
  intro x hx
  simp only [List.cons_append, List.nil_append, List.mem_cons, List.not_mem_nil, or_false] at hx
  rcases hx with rfl | rfl | rfl | rfl | rfl
  · exact ⟨10, by norm_num, by norm_num⟩
  · exact ⟨12, by norm_num, by norm_num⟩
  · exact ⟨30, by norm_num, by norm_num⟩
  · exact ⟨31, by norm_num, by norm_num⟩
  · exact ⟨20, by norm_num, by norm_num⟩

example := C121_rounded_grid_partial 53 (by norm_num) 1 (by norm_num) (whole 1 (by norm_num)) [(1, 10), (2, 12)] [(4, 31), (5, 20)] (3, 30) 0
  prices_grid [2, 3, 5] (by decide +kernel) (by decide)

private theorem doubles : ∀ x ∈ ([(1, 10), (2, 12), (3, 9)] : List (ℤ × ℚ)), binary64.Has x.2 := by
  intro x hx
  simp only [List.mem_cons, List.not_mem_nil, or_false] at hx
  rcases hx with rfl | rfl | rfl
  · exact_mod_cast has_int 10 (by norm_num)
  · exact_mod_cast has_int 12 (by norm_num)
  · exact_mod_cast has_int 9 (by norm_num)

private theorem one_double : binary64.Has 1 := by exact_mod_cast has_int 1 (by norm_num)
private theorem two_double : binary64.Has 2 := by exact_mod_cast has_int 2 (by norm_num)

example := C146_events binary64 (by decide) 1 (by norm_num) one_double [(1, 10), (2, 12), (3, 9)] doubles (by decide)
example := C146_mirror binary64 (by decide) 1 (by norm_num) one_double [(1, 10), (2, 12), (3, 9)] doubles
example := C146_threshold binary64 (by decide) 1 2 (by norm_num) (by norm_num) one_double two_double [(1, 10), (2, 12), (3, 9)] doubles [2, 3] [3]
  (by decide +kernel) (by decide +kernel)
example := C154_votes binary64_roomy 2 (by norm_num) [1, 0, 1] (by simp) (by decide) (fun x hx => by simp at hx; rcases hx with rfl | rfl | rfl <;> simp)

end Filters

section Classes
open Mizar.Est

example := C81_protocol (V := ℤ) (plain ["a", "b"]) (by decide) (fun _ => .ok ()) [1, 2] rfl _ rfl

end Classes

section Draws
open Mizar.Boot Mizar.Spec

/-- C101: a price path of four bars. -/
example := C101_event 53 (by norm_num) [(1, 10), (2, 11), (3, 13), (4, 9)] (by decide)
  (by
    have h (z : ℤ) (hz : |z| < 2 ^ 53) : IsFloat 53 (z : ℚ) := ⟨z, 0, hz, by simp⟩
    intro b hb
    simp only [List.mem_cons, List.not_mem_nil, or_false] at hb
    rcases hb with rfl | rfl | rfl | rfl
    · exact ⟨by norm_num, by exact_mod_cast h 10 (by norm_num)⟩
    · exact ⟨by norm_num, by exact_mod_cast h 11 (by norm_num)⟩
    · exact ⟨by norm_num, by exact_mod_cast h 13 (by norm_num)⟩
    · exact ⟨by norm_num, by exact_mod_cast h 9 (by norm_num)⟩)
  1 4 10 9 (by simp) (by simp) (by norm_num) 1 1 1 (1 / 10) (Or.inl rfl) (by norm_num) false true
example := C101_return_error 53 (by norm_num) 3 7 (by norm_num) (by norm_num)

example := C112_mean (b := 53) (by norm_num) 2 (by norm_num) [1 / 3, 1, 0] (by simp) (by norm_num)
  (fun x hx => by simp at hx; rcases hx with rfl | rfl | rfl <;> norm_num)
example := C112_votes (b := 53) (by norm_num) 2 (by norm_num) [1, 1, 0] (by simp) (by norm_num)
  (fun x hx => by simp at hx; rcases hx with rfl | rfl | rfl <;> simp)

/-- C42: the price of a later bar outside the first event changes. -/
example := C42_local [(0, 1000000000), (1000000000, 1000000000), (2000000000, 2000000000)] [some 1, some 2, some 3] [some 1, some 2, some 5] rfl rfl
  (fun c hc => by simp at hc; rcases hc with rfl | rfl | rfl <;> norm_num) (fun c hc => by simp at hc; rcases hc with rfl | rfl | rfl <;> norm_num)
  (by decide) ⟨(0, 1000000000), by decide, (2000000000, 2000000000), by decide, by decide⟩ (by decide) 0 (by decide)
  (fun k hk h1 h2 => by
    simp at hk
    interval_cases k <;> simp at h2 ⊢)

end Draws

end Mizar.Check
