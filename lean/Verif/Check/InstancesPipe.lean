import Verif.Props.Labeling
import Verif.Props.Chain
import Verif.Props.MoreEvents
import Verif.Props.Trader
import Verif.Props.TaFactory
import Verif.Props.Technical
import Verif.Props.CrossAny
import Verif.Props.BetSizing
import Verif.Props.ActiveBets
import Verif.Props.AnyTimes
import Verif.Props.ArrivalJoin
import Verif.Props.AlignSteps
import Verif.Props.CVExact
import Verif.Props.SeqBootstrap
import Verif.Props.RoundedRoll
import Verif.Props.RoundedWeights
import Verif.Props.RoundedBoot
import Verif.Props.Volatility
import Verif.Props.CVChange

/-!
Further property theorems applied to concrete data, as in `Verif.Check.Instances`: labels, events, bets, indicators and positions.
-/

namespace Mizar.Check
open Mizar.Props

section Labels
open Mizar.Spec Mizar.Lab

private def noVol : List ℤ → List (XF ℚ) → List (XF ℚ) := fun _ _ => []

private theorem ones_nonneg : ∀ v : ℚ, some v ∈ List.replicate 4 (some (1 : ℚ)) → 0 ≤ v := by
  intro v hv
  obtain rfl : v = 1 := by simpa using hv
  norm_num

example := C26_event_end_partial (clock_input noVol) (by norm_num) ones_nonneg
example := C27_label_of_first_barrier_partial (clock_input noVol) rfl ones_nonneg
example := C28_return (clock_input noVol)
example := C30_no_volatility_no_label_partial (clock_input noVol)
example := C30_other_rows_partial (clock_input noVol) (clock_input fun _ l => l) 1 (by decide) rfl
example := C88_events_partial (clock_input noVol) (by norm_num) ones_nonneg
example := C88_bootstrap (clock_input noVol) (by norm_num) ones_nonneg
example := C88_cross_validation (clock_input noVol) (by norm_num) ones_nonneg

/-- Metalabels: a long bet that gains and a short bet that loses. -/
private def metaCfg : Cfg ℚ := { clockCfg with metalabeling := true }
private def metaFrame : Lab.Frame ℚ :=
  ⟨[1000000000, 2000000000, 3000000000, 4000000000], [("close", [.fin 10, .fin 18, .fin 11, .fin 50]), ("side", [.fin 1, .fin (-1), .fin (-1), .fin 1])]⟩

private theorem metaInput : LabelInput noVol metaCfg metaFrame
    [1000000000, 2000000000, 3000000000, 4000000000] [some 10, some 18, some 11, some 50] [some 1, some (-1), some (-1), some 1]
    (List.replicate 4 (some 1)) 2 where
  times_eq := by decide
  close_eq := rfl
  name_eq := rfl
  side_eq := Or.inl rfl
  vol_eq := rfl
  n_eq := rfl
  length_eq := rfl
  nonempty := by simp
  sorted := by decide
  whole_ms := by decide
  not_epoch := by decide
  positive := by simp +decide
  factors := by norm_num [metaCfg, clockCfg]
  ends := fun _ => Or.inl (by decide)

example := C28_metalabel metaInput rfl
example := C31_side_used_partial metaInput rfl
example := C30_no_event_ends metaInput.toLabelFrame rfl

end Labels

section Events
open Mizar.Spec Mizar.Boot

/-- C114: a third event far from the first two leaves their uniqueness as it is. -/
example := C114_separate_rows [(1, 4), (3, 6)] [(1, 4), (3, 6), (9, 12)] (by decide) (by decide) (by decide) (by decide) (1, 4) (by decide)
  (fun x hx hn => by
    fin_cases hx
    · exact absurd (by decide) hn
    · exact absurd (by decide) hn
    · exact Or.inr (by norm_num))

example (M : IndMat) (rng : ℕ → List (XF ℚ) → ℕ → List ℕ) : seqBootstrap M rng (some 5) (-1) = .ok [] :=
  C16_negative_batch_returns_nothing M rng 5 (-1) (by norm_num) (by norm_num)

/-- Two events over three bars, the second alive in the last two. -/
private def twoEvents : IndMat := ⟨3, 2, fun t j => decide (j = 0 ∨ 1 ≤ t)⟩

private theorem firstBars : (barsOf twoEvents 0).Nonempty := ⟨0, by decide⟩

example := C102_range 53 (by norm_num) twoEvents 0 (by decide) firstBars (by decide)
example := C102_error 53 (by norm_num) twoEvents 0 (by decide) firstBars
example := C104_uniqueness 24 53 (by norm_num) (by norm_num) twoEvents [1, 1] 0 firstBars (by decide)
example := C103_decay 53 (by norm_num) (-1 / 2) (by norm_num) (by norm_num) [1 / 2, 1, 1 / 3] (fun x hx => by fin_cases hx <;> norm_num) (by simp)

end Events

section Positions
open Mizar.Trade Mizar.Pipe

private def bars0 : State ℚ := ⟨none, [("bars", ⟨["close"], [(10, [.fin 1]), (20, [.fin 4])]⟩)]⟩
private def seller : Trader ℚ := ⟨"bars", fun _ => .ok [(20, .fin (-1), .fin (1 / 2))], fun l => l, 5, some 2, some 3, false⟩

private theorem bars0_wf : ∀ q ∈ bars0.data, q.2.WF := by
  simp [bars0, Frame.WF]; rintro _ _ (⟨-, rfl⟩ | ⟨-, rfl⟩) <;> rfl

example : ∃ p st', createPosition seller bars0 = (.ok p, st') ∧ st'.data.map (·.1) = bars0.data.map (·.1) :=
  ⟨_, _, rfl, (C52_rest_unchanged_partial seller bars0 _ _ bars0_wf rfl).1⟩
example : ∃ p st', createPosition seller bars0 = (.ok p, st') ∧ createPosition seller st' = (.ok p, st') :=
  ⟨_, _, rfl, C52_repeatable_partial seller bars0 _ _ bars0_wf rfl rfl⟩
example := C53_position_rows_partial seller bars0 _ _ bars0_wf (fun s h => by cases h; decide) rfl
example := C51_duplicates seller ⟨none, [("bars", ⟨["close"], [(10, [.fin 1]), (10, [.fin 4])]⟩)]⟩ _ List.mem_cons_self (by decide)

end Positions

section Indicators
open Mizar.Spec Mizar.Tech

private def crossBars : Mizar.Frame ℚ := ⟨["close"], [(0, [.fin 10]), (60, [.fin 12]), (120, [.nan]), (180, [.fin 9])]⟩

example := C54_crossings_partial 1 2 (by norm_num) (by norm_num) "close" crossBars (by decide) (by decide)
example := C54_any_index 1 2 (by norm_num) (by norm_num) "close" (⟨["close"], [(60, [.fin 10]), (60, [.fin 12]), (0, [.fin 9])]⟩ : Mizar.Frame ℚ) (by decide)
example := C156_rows (K := ℚ) (fun _ => .ok [.nan, .fin 40, .fin 45, .fin 60]) 70 30 1 (-1) 60 (by norm_num) 1 2 (by norm_num) (by norm_num) crossBars _ rfl rfl
example := C100_weighted_variance (K := ℚ) 3 (by norm_num) [.fin 1, .nan, .fin 2, .fin 4] 3 (by norm_num)

end Indicators

section Bets
open Mizar.Spec Mizar.Bet

example := C39_discretise (K := ℚ) (1 / 4) (by norm_num) (by norm_num) [(1, 3 / 10), (2, -4 / 10)]
example := C39_special_values (K := ℚ) (1 / 4) (by norm_num) (by norm_num) 7
example : discretiseSignal [(1, .fin (1 / 2 : ℚ))] 1 = .error .assertionError := C39_bad_step 1 (by norm_num) _

/-- C42: three bars a second apart, the first event over the first two of them. -/
example := C42_any_times [(0, 1000000000), (1000000000, 1000000000), (2000000000, 2000000000)] [some 1, none, some 3] rfl
  (fun c hc => by simp at hc; rcases hc with rfl | rfl <;> norm_num) (by decide) ⟨(0, 1000000000), by decide, (2000000000, 2000000000), by decide, by decide⟩

end Bets

section Numbers

example := C09_any_size 6 2 (by norm_num) (by norm_num)
example := C131_drift 53 (by norm_num) 2 (by norm_num) [.fin (1 / 3), .nan, .fin 5] 5 (by norm_num)
  (fun x hx => by fin_cases hx <;> norm_num [XF.toK]) 2 (by norm_num) (by norm_num)

/-- C85: times and embargo in another unit. -/
example := C85_clock 8 4 2 (fun i => (i : ℤ)) (fun i => (i : ℤ) + 1) 1 1000 (fun t => 1000 * t) (fun a b h => by simpa using h) (fun a b => by
  constructor <;> intro h <;> omega)

end Numbers

section Talib
open Mizar.Spec Mizar.TA

example : getArgsKwargs (signature "SUB" ["high", "low"] ["p"] ++ "\n\nSubtract") = .ok (["high", "low"], some ["p"]) :=
  C64_signature "SUB" "\n\nSubtract" ["high", "low"] ["p"] (by decide) (by simp) (fun a ha => by fin_cases ha <;> exact ⟨by decide, by decide⟩)
    (fun a ha => by fin_cases ha; exact ⟨by decide, by decide⟩) (Or.inr ⟨_, rfl⟩)
example := C65_named_columns ["high", "low"] (by decide) (by decide) .none
example := C65_one_array ["real"] (by decide) (by decide) (by decide) (by decide)
example (lib : String → Option (TaFunc ℚ ℤ)) (g : TaFunc ℚ ℤ) (hg : lib "SUB" = some g) (hd : g.doc = signature "SUB" ["high", "low"] ["p"] ++ "\n") :=
  C65_transformer lib "SUB" g hg "SUB" "\n" ["high", "low"] ["p"] hd (by decide) (by simp) (fun a ha => by fin_cases ha <;> exact ⟨by decide, by decide⟩)
    (fun a ha => by fin_cases ha; exact ⟨by decide, by decide⟩) (Or.inr ⟨[], rfl⟩) (by decide) (by decide) .none [("high", "low"), ("low", "high")]
    (by decide) [("p", 3)] ⟨by simp, by decide⟩

end Talib

end Mizar.Check
