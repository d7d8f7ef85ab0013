import Verif.Props.BagStable
import Verif.Props.SplitGen
import Verif.Props.Signals
import Verif.Props.Technical
import Verif.Props.LogUniform
import Verif.Props.Csw
import Verif.Props.Features
import Verif.Props.Rounded
import Verif.Props.RoundedCusum
import Verif.Props.RoundedCount
import Verif.Props.RoundedCross
import Verif.Props.RoundedEwm
import Verif.Props.RoundedHighLow
import Verif.Props.CusumMoves
import Verif.Props.CusumRestart
import Verif.Props.JointDraw

/-!
Further property theorems applied to concrete data, as in `Verif.Check.Instances`: ensembles, signals, distributions and the
theorems about rounded numbers.
-/

namespace Mizar.Check
open Mizar.Props

section Ensembles
open Mizar.Bag

private def votesFor (k : ℕ) : OobEst := ⟨[0, 1], none, fun _ => k, false⟩

private theorem votes_proper (l : List ℕ) (h : ∀ k ∈ l, k < 2) : ∀ e ∈ l.map votesFor, ProperEst 2 e := by
  intro e he
  obtain ⟨k, hk, rfl⟩ := List.mem_map.1 he
  exact ⟨by simp [votesFor], by simp [votesFor], by simp [votesFor], fun _ _ => h k hk⟩

/-- C95, C128: four estimators that vote 1, 1, 1, 0; their order; one of them replaced; one added. -/
example := C95_mean 2 2 (by norm_num) ([1, 1, 1, 0].map votesFor) (by simp) (votes_proper _ (by decide)) 0
example := C95_distribution 3 2 (by norm_num) ([1, 1, 1, 0].map votesFor) (by simp) (votes_proper _ (by decide)) 0
example : predictProba 4 1 2 ([1, 1, 1, 0].map votesFor) 0 = predictProba 4 3 2 ([0, 1, 1, 1].map votesFor) 0 :=
  C128_order 1 3 2 (by norm_num) (by norm_num) ([1, 1, 1, 0].map votesFor) ([0, 1, 1, 1].map votesFor)
    (List.Perm.map _ (by decide)) (by simp) (votes_proper _ (by decide)) 0
example := C128_exchange 1 2 2 (by norm_num) (by norm_num) ([1, 1, 1].map votesFor) ([0].map votesFor) ([1].map votesFor) rfl (by simp)
  (votes_proper [1, 1, 1, 0] (by decide)) (votes_proper [1] (by decide)) 0
example := C128_more 1 2 2 (by norm_num) (by norm_num) ([1, 1, 1, 0].map votesFor) ([0].map votesFor) (by simp)
  (votes_proper [1, 1, 1, 0, 0] (by decide)) 0
example : ∀ jobs' ≥ 1, predictClass 5 jobs' 2 ([1, 1, 1, 0].map votesFor ++ [votesFor 0]) 0 = .ok 1 :=
  (C128_prediction_stays 1 2 (by norm_num) (by norm_num) ([1, 1, 1, 0].map votesFor) [votesFor 0] (by simp)
    (votes_proper [1, 1, 1, 0, 0] (by decide)) 0 [1 / 4, 3 / 4] (by decide +kernel) 1 (by norm_num)
    (fun j hj hne => by obtain rfl : j = 0 := by omega
                        norm_num)).2

end Ensembles

section Signals
open Mizar.Spec Mizar.Tech

private def sigBars : Frame ℚ := ⟨["close"], [(0, [.fin 10]), (60, [.fin 12]), (120, [.nan]), (180, [.fin 9])]⟩
private def rsiOf : Frame ℚ → Py (List (XF ℚ)) := fun _ => .ok [.nan, .fin 20, .fin 25, .fin 40]

example := C77_confirmation rsiOf 30 2 2 (by norm_num) (by norm_num) sigBars _ rfl rfl
example := C77_bar_arrival rsiOf 70 30 1 (-1) 60 (by norm_num) 1 2 (by norm_num) (by norm_num) sigBars _ rfl rfl
example := C78_difference 2 3 (by norm_num) (by norm_num) "close" sigBars (by decide)
example := C56_mean_reversion rsiOf (1 / 10) (by norm_num) sigBars _ rfl rfl (by decide)
example : reversion (-1 / 2 : ℚ) (.fin 11) (.fin 10) = .fin 1 := C56_negative_threshold (-1 / 2) (by norm_num) 11 10 (by norm_num) (by norm_num)
example := C57_macd (K := ℚ) (fun _ => .ok [.fin (-1), .fin 0, .nan, .fin 2]) sigBars _ rfl
example := C63_weights (K := ℚ) 3 (by norm_num) [.nan, .fin 2, .fin 5] 2 (by norm_num) ⟨1, by norm_num, by decide +kernel⟩

end Signals

section Distribution
example := C74_distribution (em := .numpy) 1 10 (by norm_num) (by norm_num)
example : ∃ F : ℝ → ℝ, HasDerivAt F (1 / (2 * Real.log (10 / 1))) 2 := by
  obtain ⟨F, hF, -⟩ := C74_distribution (em := .numpy) 1 10 (by norm_num) (by norm_num)
  exact ⟨F, C74_density 1 10 (by norm_num) (by norm_num) F hF 2 (by norm_num) (by norm_num)⟩
end Distribution

section Rounding

private theorem small_float (z : ℤ) (h : |z| < 2 ^ 53) : IsFloat 53 z := ⟨z, 0, h, by simp⟩

example := C101_return_sign 53 (by norm_num) 3 7 (by norm_num) (by norm_num) (small_float 3 (by norm_num)) (small_float 7 (by norm_num))
example := C107_events 53 (by norm_num) 1 (by norm_num) (small_float 1 (by norm_num)) [(1, 10), (2, 1 / 3), (3, 12)] (by decide)
example := C107_grid 53 (by norm_num) 1 (by norm_num) (small_float 1 (by norm_num)) [(1, 10), (2, 12)] 0
  (fun x hx => by fin_cases hx
                  · exact ⟨10, by norm_num, by norm_num⟩
                  · exact ⟨12, by norm_num, by norm_num⟩)
example := C109_max_samples (b := 53) (by norm_num) 1000 (by norm_num) (by norm_num)
example := C109_max_features (b := 53) (by norm_num) 20 (by norm_num) (by norm_num) 1 (small_float 1 (by norm_num))
example := C113_no_missed_move (K := ℚ) 1 (by norm_num) [(1, 10), (2, 12), (3, 9)] (by decide)
example := C113_quiet (K := ℚ) 1 (by norm_num) [(1, 10), (2, 12), (3, 9)] (by decide)
example := C121_missing_price (K := ℚ) 1 (by norm_num) [(1, .fin 10), (2, .fin 12)] [(4, .fin 12), (5, .fin 20)] 3 [2, 5] (by decide +kernel)
example : (5 : ℤ) ∈ [2, 3, 5] ↔ (5 : ℤ) ∈ [3, 5] :=
  C121_history (K := ℚ) 1 [(1, .fin 10), (2, .fin 12)] [(0, .fin 50)] [(4, .fin 31), (5, .fin 20)] (3, .fin 30) [2, 3, 5] [3, 5]
    (by decide +kernel) (by decide +kernel) (by decide) (by decide) 5 (by decide)
example := C134_sign 53 (by norm_num) 3 (by norm_num) [.fin 1, .nan, .fin 2] (fun q hq => by simp at hq; rcases hq with rfl | rfl <;> norm_num) 2
  (by norm_num)
example : Rd.crossOver (roundBits 53) 1 2 true [1, 2, 3] [.fin 10, .fin 12, .fin 9] = Rd.crossOver id 1 2 true [1, 2, 3] [.fin 10, .fin 12, .fin 9] :=
  C132_ticks_partial 53 (by norm_num) 0 12 1 2 (by norm_num) (by norm_num) true _ _ (fun x hx => by
    fin_cases hx
    · exact ⟨10, by norm_num [XF.toK], by norm_num⟩
    · exact ⟨12, by norm_num [XF.toK], by norm_num⟩
    · exact ⟨9, by norm_num [XF.toK], by norm_num⟩) (by norm_num)

end Rounding

section Draws
open Mizar.Boot
/-- C111: three events in two rows; the joint probability of drawing 0 and then 2. -/
example := C111_joint ⟨2, 3, fun i j => decide (i = 0 ∨ j = 2)⟩ (by norm_num) 2 1 (by norm_num) [0, 2] rfl (by decide)
end Draws

section Generators
open Mizar.CV
/-- C130: a generator for four rows beside data for eight. -/
example := C130_other_rows 8 4 2 (fun i => (i : ℤ)) (fun i => (i : ℤ)) 0 (by norm_num) (by norm_num) (by norm_num) (fun i => if i = 1 then 4 else 8) [0, 1, 0, 1] 1
  (by decide)
end Generators

end Mizar.Check
