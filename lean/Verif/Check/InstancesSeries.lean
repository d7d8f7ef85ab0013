import Verif.Props.DailyVolAny
import Verif.Props.RoundedCusum
import Verif.Props.Csw
import Verif.Props.Signals
import Verif.Props.TaFactory
import Verif.Props.Union
import Verif.Props.Volatility
import Verif.Props.MissingEval
import Verif.Props.Memory
import Verif.Props.DoubleBet
import Verif.Props.DoubleCusum
import Verif.Props.DoubleEvent
import Verif.Props.DoubleWeights
import Verif.Props.Microstructure
import Verif.Props.Features
import Verif.Props.Invalid
import Verif.Props.JointDraw
import Verif.Props.Rounded
import Verif.Props.SampleWeights
import Verif.Props.TrendScan
import Verif.Props.UniquenessChange
import Verif.Props.Units
import Verif.Props.RoundedEwm
import Verif.Props.LogUniform

/-!
Further property theorems applied to concrete data, as in `Verif.Check.Instances`: series, indicators, doubles.
-/

namespace Mizar.Check
open Mizar.Props Mizar.Spec

private theorem whole_float (z : ℤ) (h : |z| < 2 ^ 53) : IsFloat 53 (z : ℚ) := ⟨z, 0, h, by simp⟩

section Cusum
open Mizar.Rd

private def path : List (ℤ × ℚ) := [(0, 10), (60, 13), (120, 11), (180, 18)]

example := C107_repeated (roundBits 53) 2 [(0, 10), (60, 13), (60, 11)] (by decide)
example : ∃ s₁ s₂, cusum (roundBits 53) 2 path = .ok s₁ ∧ cusum (roundBits 53) 4 path = .ok s₂ ∧ s₂.length ≤ s₁.length :=
  ⟨[60, 180], [180], by decide +kernel, by decide +kernel, C107_threshold 53 (by norm_num) 2 4 (by norm_num) (by norm_num)
    (by exact_mod_cast whole_float 2 (by norm_num)) (by exact_mod_cast whole_float 4 (by norm_num)) path _ _ (by decide +kernel) (by decide +kernel)⟩
example := C107_mirror 53 (by norm_num) 2 (by norm_num) (by exact_mod_cast whole_float 2 (by norm_num)) path
example := C107_scale 53 (by norm_num) 2 (by norm_num) (by exact_mod_cast whole_float 2 (by norm_num)) (-3) path
example := C101_return_monotone 53 (by norm_num) 3 4 5 (by norm_num) (by norm_num)

private theorem path_has : ∀ x ∈ path, binary64.Has x.2 := by
  intro x hx
  simp only [path, List.mem_cons, List.not_mem_nil, or_false] at hx
  rcases hx with rfl | rfl | rfl | rfl
  · exact_mod_cast has_int 10 (by norm_num)
  · exact_mod_cast has_int 13 (by norm_num)
  · exact_mod_cast has_int 11 (by norm_num)
  · exact_mod_cast has_int 18 (by norm_num)

example := C146_unbounded binary64 (by decide) 2 (by norm_num) (by exact_mod_cast has_int 2 (by norm_num)) _ (has_map path_has)
example := C146_scale binary64 (by decide) 2 (by norm_num) (by exact_mod_cast has_int 2 (by norm_num)) 3 (by have := has_int 16 (by norm_num); norm_num at this ⊢; exact this) path path_has (by
  intro x hx
  simp only [path, List.mem_cons, List.not_mem_nil, or_false] at hx
  rcases hx with rfl | rfl | rfl | rfl
  · have := has_int 80 (by norm_num); norm_num at this ⊢; exact this
  · have := has_int 104 (by norm_num); norm_num at this ⊢; exact this
  · have := has_int 88 (by norm_num); norm_num at this ⊢; exact this
  · have := has_int 144 (by norm_num); norm_num at this ⊢; exact this)
example := C147_unbounded binary64 C147_formats.1 [(60, 13), (120, 11)] (by decide +kernel) false false 0 180 10 1 2 1 (1 / 100) (by norm_num) (.inl rfl) (by norm_num)
  (lt_of_le_of_lt (b := 1) (by decide +kernel) (one_lt_zpow₀ (by norm_num) (by decide)))
  (lt_of_le_of_lt (b := 1) (by decide +kernel) (one_lt_zpow₀ (by norm_num) (by decide)))
example := C155_decay_same binary64 C155_formats.1.1 (1 / 2) ⟨⟨1, -1, by decide, by decide, by norm_num⟩, by decide +kernel⟩ (by norm_num) (by norm_num) threeSamples (by decide)
  [0, 1, 2] (by decide) (by decide +kernel)

end Cusum

section Bets

private theorem calm_input : DBetInput binary64 { demoBetCfg with averageActive := false } ⟨[0], [.fin 1], [.fin 1], [.fin (-1)], [none]⟩ [1] [1] [-1] where
  prob_eq := rfl
  pred_eq := rfl
  side_eq := rfl
  prob_len := rfl
  pred_len := rfl
  side_len := rfl
  end_len := rfl
  prob_range := by decide +kernel
  pred_range := by decide +kernel
  side_range := by decide +kernel
  classes := le_rfl
  constructed := by norm_num [Rd.betConstruct, demoBetCfg]
  rows := by decide +kernel
  prob_has p hp := by
    obtain rfl := List.mem_singleton.1 hp
    exact_mod_cast has_int 1 (by norm_num)
  pred_label := by decide +kernel
  few := by decide +kernel
  step s hs := by
    obtain rfl : s = 1 / 10 := (Option.some.inj hs).symm
    decide +kernel

example := C154_same binary64_roomy demoFnD_ok demoFnD_fits calm_input rfl
example := C154_range binary64_roomy demoFnD_ok demoFnD_fits calm_input

end Bets

section Series
open Mizar.Lab

example := C159_exact (K := ℚ) [0, 86400000000001, 86400000000001] [.fin 1, .fin 2, .fin 3] (by decide) rfl (fun _ => 0) (by unfold IsRef; decide +kernel)
private theorem flat_call : PlainCall 3 ⟨3, 1, 1, false, "close", SIDE, true, false⟩
    ⟨spikeTimes, [("close", [100, 110, 100, 105, 105, 105, 105, 90].map XF.fin)]⟩ spikeTimes
    [100, 110, 100, 105, 105, 105, 105, 90] 3 where
  span_eq := by decide
  times_eq := rfl
  close_eq := rfl
  name_eq := rfl
  no_side := rfl
  plain := rfl
  adjusted := rfl
  n_eq := rfl
  length_eq := rfl
  nonempty := by decide
  sorted := by decide
  whole_ms := by decide
  not_epoch := by decide
  positive := by simp
  profit := by norm_num
  loss := by norm_num

example := C100_flat_window flat_call 3 (by norm_num) (by decide) (by decide) (by
  intro j h1 h2
  obtain rfl | rfl | rfl | rfl : j = 3 ∨ j = 4 ∨ j = 5 ∨ j = 6 := by omega
  all_goals rfl)

example := C66_constant_start "two_sided" _ (.inr (.inr ⟨rfl, rfl⟩)) [(0, .fin 5), (60, .fin 5), (120, .fin 7)] (fun i => if i < 2 then 5 else 7) (by
  intro i hi
  obtain rfl | rfl | rfl : i = 0 ∨ i = 1 ∨ i = 2 := by simp at hi; omega
  all_goals simp) (by simp) (by norm_num)

example := C100_span_one (K := ℝ) [.fin 1, .fin 2] 1 (by decide)
example := C100_not_negative 3 (by norm_num) [0, 60] [.fin 1, .nan]
example := C100_daily_volatility 3 (by norm_num) [0, 43200000000000, 86400000000001, 86400000000002] [10, 11, 12, 13] (by decide) rfl (by norm_num) 3 (by decide)
example (em : Brk.ErrModel) := C74_default (em := em) 2 (by norm_num) (by linarith [Real.add_one_le_exp (1 : ℝ)])
example := C43_above_one (3 / 2) (by norm_num) [(1, some 4), (3, some 6)]
example := C42_missing_end [⟨1, none, .fin 2⟩] ⟨⟨1, none, .fin 2⟩, by simp, rfl⟩

end Series

section Columns

private def candle : Frame ℝ := ⟨["close", "volume", "high", "low"], [(0, [.fin 10, .fin 5, .fin 12, .fin 9]), (60, [.fin 11, .fin 4, .fin 11, .fin 10])]⟩
private def dear : Frame ℝ := ⟨["close", "volume", "high", "low"], [(0, [.fin 20, .fin 5, .fin 24, .fin 18]), (60, [.fin 22, .fin 4, .fin 22, .fin 20])]⟩

private theorem dear_close : ScaledBy 2 "close" candle dear := by
  simp [ScaledBy, Frame.values, candle, dear, XF.mul]; norm_num

private theorem dear_high : ScaledBy 2 "high" candle dear := by
  simp [ScaledBy, Frame.values, candle, dear, XF.mul, List.idxOf, List.findIdx, List.findIdx.go]; norm_num

private theorem dear_low : ScaledBy 2 "low" candle dear := by
  simp [ScaledBy, Frame.values, candle, dear, XF.mul, List.idxOf, List.findIdx, List.findIdx.go]; norm_num

private def heavy : Frame ℝ := ⟨["close", "volume", "high", "low"], [(0, [.fin 10, .fin 15, .fin 12, .fin 9]), (60, [.fin 11, .fin 12, .fin 11, .fin 10])]⟩

private theorem heavy_volume : ScaledBy 3 "volume" candle heavy := by
  simp [ScaledBy, Frame.values, candle, heavy, XF.mul, List.idxOf, List.findIdx, List.findIdx.go]; norm_num

private theorem candle_holds : Holds candle "high" (fun i => if i = 0 then 12 else 11) ∧ Holds candle "low" (fun i => if i = 0 then 9 else 10) := by
  refine ⟨⟨by simp [candle], ?_⟩, ⟨by simp [candle], ?_⟩⟩ <;>
  · intro i hi
    have : i = 0 ∨ i = 1 := by simp [candle] at hi; omega
    rcases this with rfl | rfl <;> simp [candle, Frame.values, List.idxOf, List.findIdx, List.findIdx.go]

example := C60_scale_free 1 "high" "low" candle dear rfl 2 (by norm_num) dear_high dear_low
example := C60_beckers_value 1 le_rfl "high" "low" candle _ _ candle_holds.1 candle_holds.2
  (fun i => ⟨by split_ifs <;> norm_num, by split_ifs <;> norm_num⟩)
example := C61_volume_scale 2 "close" "volume" candle heavy rfl 3 (by norm_num)
  (by simp [Frame.values, candle, heavy, List.idxOf, List.findIdx, List.findIdx.go]) heavy_volume
example := C61_price_scale 2 "close" "volume" candle dear rfl 2 (by norm_num) dear_close rfl
example := C59_missing_column (K := ℝ) 2 "volume" "buy" "sell" candle (.inr (.inl (by simp [candle])))

private def flow : Frame ℚ := ⟨["volume", "buy", "sell"], [(0, [.fin 4, .fin 1, .fin 3]), (60, [.fin 0, .fin 0, .fin 0]), (120, [.fin 6, .fin 5, .fin 1])]⟩

private def buys (i : ℕ) : ℚ := [1, 0, 5].getD i 0
private def sells (i : ℕ) : ℚ := [3, 0, 1].getD i 0

private theorem flow_nonneg (i : ℕ) : 0 ≤ buys i ∧ 0 ≤ sells i := by
  rcases i with _ | _ | _ | i <;> simp [buys, sells]

example := C59_vpin_partial 2 (by norm_num) "volume" "buy" "sell" flow buys sells ⟨by decide, by decide +kernel⟩ ⟨by decide, by decide +kernel⟩
  ⟨by decide, by decide +kernel⟩ flow_nonneg

end Columns

section Text
open Mizar.TA

example := C64_no_signature "no signature here" (by decide)
example := C65_two_arrays_partial ["real0", "real1"] (by decide) (by decide) (by decide) (by decide)
example := C106_docstring "FN" "a" "b" "c" ["d"] (by decide) (by decide)

end Text

section Rest

example := C87_train_set 6 3 1 (fun i => (i : ℤ)) (fun i => if i = 2 then none else some ((i : ℤ) + 1)) 0 (by norm_num) (fun i j h _ => by exact_mod_cast h) _ rfl

end Rest

end Mizar.Check
