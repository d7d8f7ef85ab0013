import Mathlib.Data.Rat.Floor
import Verif.Lemmas.DailyVol

/-!
Property theorems C33: the daily volatility (`get_daily_vol`,
`/repo/mizarlabs/transformers/targets/labeling.py` lines 438-463).
-/

set_option linter.unusedSectionVars false

namespace Mizar.Props
open Mizar.Spec Mizar.Lab
variable {K : Type*} [Field K] [LinearOrder K] [IsStrictOrderedRing K]

/-- C33: the returns the volatility is estimated from.  Bar `i` has a return exactly if some bar is strictly
before `t_i` minus one day, and then it is the return with respect to the latest such bar; the returns are
in the order of the bars. -/
theorem C33_reference_bar (times : List ℤ) (close : List (XF K)) (hsorted : times.Pairwise (· < ·))
    (hlen : close.length = times.length) :
    ((dailyReturns times close).map (·.1)).Sublist times ∧
    ∀ i (hi : i < times.length), ∃ o, IsLatestBefore times (times[i] - 86400000000000) o ∧
      ((dailyReturns times close).find? fun p => decide (p.1 = times[i])) = o.map fun j =>
        (times[i], XF.sub (XF.div (close.getD i .nan) (close.getD j .nan)) (.fin 1)) := by
  rw [dailyReturns_eq hsorted]
  constructor
  · rw [List.map_map]
    have : (times.filter (hasRef times)).map ((fun p : ℤ × XF K => p.1) ∘ fun t => (t, refReturn times close t)) =
        times.filter (hasRef times) := by
      conv_rhs => rw [← List.map_id (times.filter (hasRef times))]
      rfl
    rw [this]
    exact List.filter_sublist
  · intro i hi
    refine ⟨_, latest_spec hsorted _, ?_⟩
    rw [find_map_pair]
    have hle := ss_le times (times[i] - DAY)
    by_cases hp : 0 < searchsortedLeft times (times[i] - DAY)
    · rw [if_pos (List.mem_filter.2 ⟨List.getElem_mem hi, by simpa [hasRef] using hp⟩)]
      rw [if_pos (show 0 < searchsortedLeft times (times[i] - 86400000000000) from hp), Option.map_some]
      unfold refReturn refTime
      rw [lookup_getElem hsorted hlen i hi, List.getD_eq_getElem times _ (by omega),
        lookup_getElem hsorted hlen _ (by omega), List.getD_eq_getElem close _ (by omega),
        List.getD_eq_getElem close _ (by show searchsortedLeft times (times[i] - DAY) - 1 < _; omega)]
      rfl
    · rw [if_neg (by rw [List.mem_filter]; simp [hasRef]; omega)]
      rw [if_neg (show ¬ 0 < searchsortedLeft times (times[i] - 86400000000000) from hp), Option.map_none]

/-- C33: a bar without a bar more than one day before has no volatility. -/
theorem C33_no_reference_no_value (estd : List (XF K) → List (XF K)) (times : List ℤ) (close : List (XF K))
    (hsorted : times.Pairwise (· < ·)) (i : ℕ) (hi : i < times.length)
    (hno : IsLatestBefore times (times[i] - 86400000000000) none) :
    (dailyVolColumn estd times close)[i]? = some .nan := by
  unfold dailyVolColumn alignTo
  rw [List.getElem?_map, List.getElem?_eq_getElem hi, Option.map_some]
  have hz : ¬ 0 < searchsortedLeft times (times[i] - DAY) := by
    intro hp
    exact hno 0 (by omega) ((ss_spec hsorted _ 0 (by omega)).2 hp)
  have : (getDailyVol estd times close).find? (fun p => decide (p.1 = times[i])) = none := by
    rw [List.find?_eq_none]
    intro p hp
    have h1 := (List.of_mem_zip hp).1
    rw [dailyReturns_eq hsorted, List.map_map] at h1
    obtain ⟨t, ht, e⟩ := List.mem_map.1 h1
    simp only [Function.comp_apply] at e
    rw [decide_eq_true_eq]
    intro e2
    rw [List.mem_filter] at ht
    rw [← e, ] at e2
    rw [e2] at ht
    exact hz (by simpa [hasRef] using ht.2)
  rw [this]
  rfl

/-- C33: the volatility column holds, at the bars that have a return, the values of the estimator on these
returns, in order. -/
theorem C33_estimator_of_returns (estd : List (XF K) → List (XF K)) (hlenE : ∀ xs, (estd xs).length = xs.length)
    (times : List ℤ) (close : List (XF K)) (hsorted : times.Pairwise (· < ·)) (k i : ℕ) (hi : i < times.length)
    (r : ℤ × XF K) (hk : (dailyReturns times close)[k]? = some r) (hir : r.1 = times[i]) :
    (dailyVolColumn estd times close)[i]? = (estd ((dailyReturns times close).map (·.2)))[k]? := by
  unfold dailyVolColumn alignTo
  rw [List.getElem?_map, List.getElem?_eq_getElem hi, Option.map_some]
  have hkl : k < (dailyReturns times close).length := (List.getElem?_eq_some_iff.1 hk).1
  have hkr : (dailyReturns times close)[k] = r := (List.getElem?_eq_some_iff.1 hk).2
  have hkE : k < (estd ((dailyReturns times close).map (·.2))).length := by rw [hlenE]; simpa using hkl
  rw [List.getElem?_eq_getElem hkE]
  have hs : ((dailyReturns times close).map (·.1)).Pairwise (· < ·) := by
    rw [dailyReturns_eq hsorted, List.map_map]
    have : (times.filter (hasRef times)).map ((fun p : ℤ × XF K => p.1) ∘ fun t => (t, refReturn times close t)) =
        times.filter (hasRef times) := by
      conv_rhs => rw [← List.map_id (times.filter (hasRef times))]
      rfl
    rw [this]
    exact hsorted.filter _
  have : (getDailyVol estd times close).find? (fun p => decide (p.1 = times[i])) =
      some (times[i], (estd ((dailyReturns times close).map (·.2)))[k]) := by
    unfold getDailyVol
    simp only []
    rw [List.find?_eq_some_iff_getElem]
    refine ⟨by simp, k, by simpa [hlenE] using hkl, ?_, ?_⟩
    · simp [hkr, hir]
    · intro j hj
      have h1 := List.pairwise_iff_getElem.1 hs j k (by simp; omega) (by simpa using hkl) hj
      simp only [List.getElem_map, hkr, hir] at h1
      simp; omega
  rw [this]
  rfl

/-- C33: the volatility (exponentially weighted standard deviation with any span) of the bars up to `k` does
not change when later bars are added. -/
theorem C33_causal (span : ℕ) (times : List ℤ) (close : List (XF ℝ)) (hsorted : times.Pairwise (· < ·))
    (hlen : close.length = times.length) (k : ℕ) :
    dailyVolColumn (ewmStd (ewmAlpha span)) (times.take k) (close.take k) =
      (dailyVolColumn (ewmStd (ewmAlpha span)) times close).take k :=
  dailyVolColumn_take (causal_ewmStd _) hsorted hlen k

/-- Bars at 0 h, 20 h, 30 h, 44 h, 60 h: the references of the last three are bars 0, 0 (bar 1 at 20 h
is not strictly before 44 h - 24 h) and 2. -/
example : dailyReturns [0, 72000000000000, 108000000000000, 158400000000000, 216000000000000]
    [XF.fin (10 : ℚ), .fin 11, .fin 12, .fin 5, .fin 15] =
    [(108000000000000, .fin (1/5)), (158400000000000, .fin (-1/2)), (216000000000000, .fin (1/4))] := by
  decide +kernel

example : ([0, 72000000000000, 108000000000000, 158400000000000, 216000000000000] : List ℤ).Pairwise (· < ·) := by
  decide

end Mizar.Props
