import Verif.Props.RoundedBet
import Verif.Props.RoundedBoot
import Verif.Props.RoundedRoll
import Verif.Props.RoundedImpact
import Verif.Props.RoundedHighLow
import Verif.Props.RoundedVolume
import Verif.Props.RoundedCross
import Verif.Props.RoundedLog
import Verif.Props.Within
import Verif.Props.TrainingSets

/-!
Property theorems about rounded arithmetic applied to concrete data, as in `Verif.Check.Instances`.
-/

namespace Mizar.Check
open Mizar.Props

section Bets
open Mizar.Spec Mizar.Rd

private def calm : BetCfg := { demoBetCfg with averageActive := false }
private def firmer : BetFrame := { demoBetFrame with prob := [.fin (3 / 4), .fin 1, .fin (1 / 2)] }

private theorem demo_input (c : BetCfg) (hc : c = demoBetCfg ∨ c = calm) :
    RBetInput 53 c demoBetFrame [roundBits 53 (7 / 10), 1, 1 / 2] [1, 1, 0] [1, -1, 1] := by
  rcases hc with rfl | rfl
  all_goals exact {
    prob_eq := rfl
    pred_eq := rfl
    side_eq := rfl
    prob_len := rfl
    pred_len := rfl
    side_len := rfl
    end_len := rfl
    prob_range := by decide +kernel
    pred_range := by decide +kernel
    side_range := by decide +kernel
    classes := le_rfl
    constructed := by norm_num [betConstruct, demoBetCfg, calm]
    rows := by decide +kernel }

private theorem firmer_input : RBetInput 53 calm firmer [3 / 4, 1, 1 / 2] [1, 1, 0] [1, -1, 1] where
  prob_eq := rfl
  pred_eq := rfl
  side_eq := rfl
  prob_len := rfl
  pred_len := rfl
  side_len := rfl
  end_len := rfl
  prob_range := by decide +kernel
  pred_range := by decide +kernel
  side_range := by decide +kernel
  classes := le_rfl
  constructed := by norm_num [betConstruct, demoBetCfg, calm]
  rows := by decide +kernel

example := C108_range (by norm_num) demoFn_ok (demo_input demoBetCfg (.inl rfl))
example := C108_chance (by norm_num) demoFn_ok (by decide +kernel) (demo_input calm (.inr rfl)) rfl 2 (by decide) (by decide +kernel)

example := C108_monotone (by norm_num) demoFn_ok
  (fun x y u v hx hxy hu hv => by
    simp only [demoFn, XF.fin.injEq] at hu hv
    rw [← hu, ← hv]
    split_ifs with h1 h2
    · exact le_rfl
    · exact le_min (by norm_num) (not_le.1 h2).le
    · exact absurd (hxy.trans ‹_›) h1
    · exact min_le_min le_rfl hxy)
  (fun x y hxy u v hu hv => by
    cases x <;> cases y <;> simp only [demoFn, XF.fin.injEq, reduceCtorEq] at hu hv <;> subst hu <;> subst hv
    all_goals first
      | exact le_rfl
      | exact le_max_left _ _
      | exact max_le (by norm_num) (min_le_left _ _)
      | (rw [XF.le_fin, decide_eq_true_eq] at hxy
         exact max_le_max le_rfl (min_le_min le_rfl (by linarith)))
      | norm_num; done
      | exact absurd hxy (by simp [XF.le, XF.lt, XF.beq]))
  (by decide +kernel) (demo_input calm (.inr rfl)) firmer_input rfl 0 (by decide) (by decide) rfl rfl (isFloat_roundBits 53 (by norm_num) _)
  ⟨3, -2, by norm_num, by norm_num⟩ (by decide +kernel) (by decide +kernel)

end Bets

section Boot
open Mizar.Spec Mizar.Boot

example := C104_run 24 53 (by norm_num) (by norm_num) (by norm_num) (Rd.sum (roundBits 53)) (Rd.isSummation_sum (by norm_num)) threeSamples (by decide) (by decide +kernel)
  (by decide +kernel) (fun _ _ m => List.replicate m 1) (some 2) 1 (by norm_num) (Or.inl (by norm_num)) (by norm_num)

example := C104_probabilities 53 (by norm_num) (Rd.sum (roundBits 53)) (Rd.isSummation_sum (by norm_num)) 3 (fun j => (j : ℚ) + 1)
  (fun j hj => ⟨(j : ℤ) + 1, 0, by interval_cases j <;> norm_num, by push_cast; simp⟩) (fun j _ => by positivity)

end Boot

section Windows
open Mizar.Spec Mizar.Rd

private theorem traded : Volumes [4, 6, 10, 2] [1, 5, 5, 2] [3, 1, 5, 0] where
  buy := rfl
  sell := rfl
  covers i := by
    by_cases h : i < 4
    · interval_cases i <;> decide +kernel
    · simp [List.getD_eq_default, not_lt.1 h]

private theorem whole (l : List ℤ) (x : ℚ) (h : x ∈ l.map fun z : ℤ => (z : ℚ)) : ∃ m : ℤ, x = m * 2 ^ (0 : ℤ) := by
  obtain ⟨z, -, rfl⟩ := List.mem_map.1 h
  exact ⟨z, by simp⟩

example := C131_vpin_drift 53 (by norm_num) 2 (by norm_num) _ _ _ traded 10 (24 * ((2 : ℕ) + 1) * (2 : ℕ) * 10 / 2 ^ 53) ⟨10, 0, by norm_num, by norm_num⟩
  (by decide +kernel) 2 (by decide) (by norm_num) (by norm_num) rfl (by decide +kernel) (by decide +kernel)

example := C131_vpin_grid_partial 53 (by norm_num) 0 2 (by norm_num) _ _ _ traded (whole [4, 6, 10, 2]) (whole [1, 5, 5, 2]) (whole [3, 1, 5, 0])
  (by decide +kernel) 2 (by decide)

example := C131_grid 53 (by norm_num) 0 2 (by norm_num) [.fin 4, .nan, .fin 10] ⟨fun x hx => by
  simp only [List.mem_cons, List.not_mem_nil, or_false] at hx
  rcases hx with rfl | rfl | rfl
  exacts [⟨4, by simp [XF.toK]⟩, ⟨0, by simp [XF.toK]⟩, ⟨10, by simp [XF.toK]⟩], by decide +kernel⟩

example := C136_flat 53 (by norm_num) 0 7 2 (by norm_num) [.fin 1, .fin 3, .fin 3] [.nan, .fin 7, .fin 7] rfl
  (fun x hx => by
    simp only [List.mem_cons, List.not_mem_nil, or_false] at hx
    rcases hx with rfl | rfl | rfl
    exacts [⟨1, by simp [XF.toK], by norm_num⟩, ⟨3, by simp [XF.toK], by norm_num⟩, ⟨3, by simp [XF.toK], by norm_num⟩])
  (fun x hx => by
    simp only [List.mem_cons, List.not_mem_nil, or_false] at hx
    rcases hx with rfl | rfl | rfl
    exacts [⟨0, by simp [XF.toK], by norm_num⟩, ⟨7, by simp [XF.toK], by norm_num⟩, ⟨7, by simp [XF.toK], by norm_num⟩])
  (by norm_num) 2 (by decide) (by norm_num) 3 7 (by decide +kernel) (by decide +kernel)

example := C137_flat 53 (by norm_num) 2 (by norm_num) (fun x => x - 1) (fun x => x / 2) (fun x => x + 1) (by norm_num) (by norm_num)
  (fun x hx => by positivity) (by norm_num) (by decide +kernel) [5, 6, 7] [5, 6, 7] ⟨rfl, by decide +kernel, by decide +kernel⟩ 2 (by decide) (fun _ _ => rfl)

example := C137_sign 53 (by norm_num) 2 (by norm_num) (fun x => x - 1) (fun x => x / 2) (by norm_num) (fun x hx => by positivity)
  [.fin 5, .fin 6, .fin 8] [.fin 4, .fin 6, .fin 7] rfl 2 (by decide)
example := C137_range 53 (by norm_num) 2 (fun x => x - 1) (fun x => x / 2) (fun x => x + 1) (fun x hx => by linarith) 1 1
  [.fin 5, .fin 6, .fin 8] [.fin 4, .fin 6, .fin 7]

example := C132_sign (roundBits 53) 2 (by norm_num) [.fin 3, .nan, .fin 5, .fin 6] 3 (by decide) (11 / 2) (by decide +kernel)

end Windows

section Logs
open Mizar.Spec

/-- Logarithms as accurate as `C137_bar` and `C137_beta` ask for exist. -/
private theorem goodLog (p : ℕ) : ∃ lg : ℚ → ℚ, GoodLog p lg := by
  have h (x : ℚ) : ∃ q : ℚ, 0 < x → |(q : ℝ) - Real.log x| ≤ 2 * |Real.log x| / 2 ^ p := by
    by_cases h0 : Real.log x = 0
    · exact ⟨0, fun _ => by simp [h0]⟩
    · have hd : 0 < 2 * |Real.log x| / 2 ^ p := by positivity
      obtain ⟨q, h1, h2⟩ := exists_rat_btwn (show Real.log x < Real.log x + 2 * |Real.log x| / 2 ^ p by linarith)
      exact ⟨q, fun _ => by rw [abs_of_pos (by linarith)]; linarith⟩
  choose lg hlg using h
  exact ⟨lg, hlg⟩

example : ∃ lg q, GoodLog 53 lg ∧ Rd.rangeR (roundBits 53) lg (.fin 3) (.fin 2) = .fin q := by
  obtain ⟨lg, h⟩ := goodLog 53
  obtain ⟨q, hq, -⟩ := C137_bar 53 (by norm_num) lg h 3 2 (by norm_num) _ le_rfl
  exact ⟨lg, q, h, hq⟩

example : ∃ lg out, GoodLog 53 lg ∧ Feat.getBeta (([.fin 3, .nan, .fin 3, .fin 3] : List (XF ℚ)).map toReal)
    (([.fin 2, .fin 2, .fin 2, .fin 2] : List (XF ℚ)).map toReal) (1 : ℕ) = .ok out ∧
    NearR (182 * ((3 : ℕ) + 1) * (1 + (1 : ℚ)) ^ 2 / 2 ^ 53)
      ((Rd.betaR (roundBits 53) lg 1 [.fin 3, .nan, .fin 3, .fin 3] [.fin 2, .fin 2, .fin 2, .fin 2]).getD 3 .nan) (out.getD 3 .nan) := by
  obtain ⟨lg, h⟩ := goodLog 53
  have h32 : |Real.log ((3 : ℝ) / 2)| ≤ 1 := by
    rw [abs_of_nonneg (Real.log_nonneg (by norm_num))]
    linarith [Real.log_le_sub_one_of_pos (show (0 : ℝ) < 3 / 2 by norm_num)]
  refine ⟨lg, _, h, rfl, C137_beta 53 (by norm_num) 1 le_rfl lg h [.fin 3, .nan, .fin 3, .fin 3] [.fin 2, .fin 2, .fin 2, .fin 2] rfl 3 (by simp) (by norm_num) 1 (by norm_num) ?_ _ rfl⟩
  intro j hj a b ha hb _
  obtain rfl | rfl | rfl | rfl : j = 0 ∨ j = 1 ∨ j = 2 ∨ j = 3 := by omega
  all_goals cases ha
  all_goals cases hb; simpa using h32

end Logs

section Strategy
open Mizar.Spec Mizar.Rd

private def sold : Frame ℚ := ⟨["dollar_asset_buy_volume", "dollar_asset_sell_volume", "dollar_asset_volume", "close"],
  [(0, [.fin 1, .fin 3, .fin 4, .fin 10]), (60, [.fin 5, .fin 1, .fin 6, .fin 11]), (120, [.fin 5, .fin 5, .fin 10, .fin 9])]⟩

example :=
  C140_exact 2 3 (by norm_num) (by norm_num) "dollar" sold _ _ _ _ rfl rfl rfl rfl (fun f => f.col "close") (fun _ => .ok [.fin 1, .fin 2]) _ _ rfl rfl rfl (3 / 100) 2
    ⟨["high", "close"], [(0, [.fin 12, .fin 10]), (60, [.fin 11, .fin 11])]⟩ (by simp) (by simp)

example : ∃ r, Tech.crossOver 1 2 "close" false sold = .ok r ∧ r = Rd.crossOver id 1 2 false sold.index [.fin 10, .fin 11, .fin 9] :=
  ⟨_, rfl, C132_exact 1 2 (by norm_num) (by norm_num) "close" false sold _ _ rfl rfl⟩
example : ∃ r, Feat.vpin (2 : ℕ) "dollar_asset_volume" "dollar_asset_buy_volume" "dollar_asset_sell_volume" sold = .ok r ∧
    r = Rd.vpin id 2 [.fin 4, .fin 6, .fin 10] [.fin 1, .fin 5, .fin 5] [.fin 3, .fin 1, .fin 5] := by
  have h : ((Feat.vpin (2 : ℕ) "dollar_asset_volume" "dollar_asset_buy_volume" "dollar_asset_sell_volume" sold).toOption).isSome = true := by decide +kernel
  cases hr : Feat.vpin (2 : ℕ) "dollar_asset_volume" "dollar_asset_buy_volume" "dollar_asset_sell_volume" sold with
  | error e => rw [hr] at h; cases h
  | ok r => exact ⟨r, rfl, C131_exact_vpin 2 (by norm_num) _ _ _ sold _ _ _ rfl rfl rfl r hr⟩

end Strategy

end Mizar.Check
