import Verif.Props.ActiveBets
import Verif.Props.WeightsKnown
import Verif.Model.RoundedBet

/-!
Property theorems C123: the order of the bets, and their division into consecutive pieces, do not matter for the average
(`/repo/mizarlabs/transformers/trading/bet_sizing.py`).
-/

set_option linter.unusedSectionVars false

namespace Mizar.Props
open Mizar.Spec Mizar.Bet

section
variable {K : Type*} [Field K] [LinearOrder K]

theorem xf_add_right_comm (a b c : XF K) : XF.add (XF.add a b) c = XF.add (XF.add a c) b := by
  cases a <;> cases b <;> cases c <;> simp [XF.add, add_right_comm]

theorem xf_sum_perm {l l' : List (XF K)} (h : l.Perm l') : XF.sum l = XF.sum l' := by
  unfold XF.sum
  exact h.foldl_eq' (fun x _ y _ z => xf_add_right_comm z x y) _

theorem mean_perm {l l' : List (XF K)} (h : l.Perm l') : mean l = mean l' := by
  unfold mean
  rw [xf_sum_perm h, h.length_eq]

theorem avgActiveAt_perm {l l' : List (ℤ × ℤ × XF K)} (h : l.Perm l') (t : ℤ) : avgActiveAt l t = avgActiveAt l' t := by
  unfold avgActiveAt
  have h1 := h.filter fun b => decide (b.1 ≤ t) && (decide (t < b.2.1) || decide (b.2.1 < 0))
  dsimp only
  rw [h1.length_eq, mean_perm (h1.map _)]

/-- **C123** The order of the bets does not matter: the same bets in another order give the same series. -/
theorem C123_order {bets bets' : List (Bet.Bet K)} (h : bets.Perm bets') : avgActiveSignals bets = avgActiveSignals bets' := by
  unfold avgActiveSignals
  have h1 : changeTimes bets = changeTimes bets' := by
    unfold changeTimes
    apply eq_of_mem_iff_of_pairwise_lt (pairwise_npUnique _) (pairwise_npUnique _)
    intro x
    rw [mem_npUnique, mem_npUnique]
    exact ((h.filterMap _).append (h.map _)).mem_iff
  rw [h1]
  apply List.map_congr_left
  intro t _
  rw [avgActiveAt_perm (h.map _)]

/-- The sizes of the bets active at `t` (in milliseconds) when a bet is divided at `b`. -/
theorem avgActiveAt_split (l : List (ℤ × ℤ × XF K)) (a b c : ℤ) (x : XF K) (hab : a ≤ b) (hb : 0 ≤ b) (hc : b ≤ c ∨ c < 0) (t : ℤ) :
    avgActiveAt ((a, b, x) :: (b, c, x) :: l) t = avgActiveAt ((a, c, x) :: l) t := by
  have key : (((a, b, x) :: (b, c, x) :: l).filter fun r => decide (r.1 ≤ t) && (decide (t < r.2.1) || decide (r.2.1 < 0))).map (·.2.2) =
      (((a, c, x) :: l).filter fun r => decide (r.1 ≤ t) && (decide (t < r.2.1) || decide (r.2.1 < 0))).map (·.2.2) := by
    have hb' : decide (b < 0) = false := decide_eq_false (by omega)
    rcases lt_or_ge t b with h | h
    · have e1 : decide (t < b) = true := decide_eq_true h
      have e2 : decide (b ≤ t) = false := decide_eq_false (by omega)
      have e3 : (decide (t < c) || decide (c < 0)) = true := by
        rcases hc with hc | hc
        · rw [decide_eq_true (show t < c by omega), Bool.true_or]
        · rw [decide_eq_true hc, Bool.or_true]
      simp only [List.filter_cons, e1, e2, e3, Bool.true_or, Bool.false_and, Bool.and_true, Bool.false_eq_true, if_false]
      split <;> rfl
    · have e1 : decide (t < b) = false := decide_eq_false (by omega)
      have e2 : decide (b ≤ t) = true := decide_eq_true h
      have e3 : decide (a ≤ t) = true := decide_eq_true (by omega)
      simp only [List.filter_cons, e1, e2, e3, hb', Bool.or_false, Bool.and_false, Bool.true_and, Bool.false_eq_true, if_false]
      split <;> rfl
  unfold avgActiveAt
  dsimp only
  rw [← List.length_map (f := fun r : ℤ × ℤ × XF K => r.2.2), key, List.length_map]

/-- **C123** Dividing a bet into two consecutive bets of the same size does not matter: at all times of change but the one of the division the
series is the same.  (The time of the division is not before 1970.) -/
theorem C123_divided (l l' : List (Bet.Bet K)) (a b : ℤ) (c : Option ℤ) (x : XF K) (hab : a ≤ b) (hb : 0 ≤ b) (hc : ∀ e, c = some e → b ≤ e)
    (hl : l.Perm (⟨a, some b, x⟩ :: ⟨b, c, x⟩ :: l')) (t : ℤ) (ht : t ≠ b) (v : XF K) :
    (t, v) ∈ avgActiveSignals l ↔ (t, v) ∈ avgActiveSignals ((⟨a, c, x⟩ : Bet.Bet K) :: l') := by
  rw [C123_order hl]
  unfold avgActiveSignals
  have h1 : t ∈ changeTimes (⟨a, some b, x⟩ :: ⟨b, c, x⟩ :: l') ↔ t ∈ changeTimes ((⟨a, c, x⟩ : Bet.Bet K) :: l') := by
    unfold changeTimes
    rw [mem_npUnique, mem_npUnique]
    cases c <;> simp [ht]
  have h2 : avgActiveAt (((⟨a, some b, x⟩ : Bet.Bet K) :: ⟨b, c, x⟩ :: l').map fun b =>
      (Lab.convertToTimestamp (some b.start), Lab.convertToTimestamp b.stop, b.size)) (Lab.convertToTimestamp (some t)) =
      avgActiveAt (((⟨a, c, x⟩ : Bet.Bet K) :: l').map fun b =>
      (Lab.convertToTimestamp (some b.start), Lab.convertToTimestamp b.stop, b.size)) (Lab.convertToTimestamp (some t)) := by
    simp only [List.map_cons]
    apply avgActiveAt_split
    · exact Int.ediv_le_ediv (by norm_num) hab
    · exact Int.ediv_nonneg hb (by norm_num)
    · cases c with
      | none => exact Or.inr (by decide)
      | some e => exact Or.inl (Int.ediv_le_ediv (by norm_num) (hc e rfl))
  simp only [List.mem_map, Prod.mk.injEq]
  constructor
  · rintro ⟨u, hu, rfl, rfl⟩
    exact ⟨u, h1.1 hu, rfl, h2.symm⟩
  · rintro ⟨u, hu, rfl, rfl⟩
    exact ⟨u, h1.2 hu, rfl, h2⟩

end

/-- Three bets in another order, and the first one divided at 2 ms. -/
example : avgActiveSignals [(⟨1000000, some 4000000, .fin 1⟩ : Bet.Bet ℚ), ⟨3000000, none, .fin (1/2)⟩] =
      [(1000000, .fin 1), (3000000, .fin (3/4)), (4000000, .fin (1/2))] ∧
    avgActiveSignals [(⟨2000000, some 4000000, .fin 1⟩ : Bet.Bet ℚ), ⟨3000000, none, .fin (1/2)⟩, ⟨1000000, some 2000000, .fin 1⟩] =
      [(1000000, .fin 1), (2000000, .fin 1), (3000000, .fin (3/4)), (4000000, .fin (1/2))] := by decide +kernel

theorem applySide_obs (c : Bet.Cfg) (rows : List BetObs) :
    applySide c (obsFrame rows) (List.zipWith (signal1 c.numClasses) (rows.map (·.pred)) (rows.map (·.prob))) =
      if c.metaLabeling = true ∧ (rows.all fun r => validSide r.side) = false then .error .assertionError else .ok (rows.map (obsSignal c)) := by
  unfold applySide obsFrame obsSignal
  by_cases hm : c.metaLabeling = true
  · simp only [hm, if_true, true_and, List.all_map, Function.comp_def]
    cases (rows.all fun r => validSide r.side)
    · simp
    · simp only [if_true, Bool.true_eq_false, if_false, List.zipWith_map, List.zipWith_self]
  · simp only [hm, Bool.false_eq_true, if_false, false_and, List.zipWith_map, List.zipWith_self]

theorem applyAverage_obs (c : Bet.Cfg) (ha : c.averageActive = true) (rows : List BetObs) :
    applyAverage c (obsFrame rows) (rows.map (obsSignal c)) =
      if c.eventEndName = BET_SIZE then .error .valueError
      else if c.betSizeName = BET_SIZE then
        .ok (avgActiveSignals (rows.map fun r => (⟨r.time, r.stop, obsSignal c r⟩ : Bet.Bet ℝ)))
      else if c.betSizeName = c.eventEndName then .error .typeError
      else .error .keyError := by
  unfold applyAverage obsFrame
  simp only [ha, if_true]
  rw [List.zip_map', List.zipWith_map, List.zipWith_self]

/-- **C123** The bet sizer with averaging gives the same result, or the same exception, for the same rows in another order. -/
theorem C123_bet_sizer (c : Bet.Cfg) (ha : c.averageActive = true) {rows rows' : List BetObs} (h : rows.Perm rows') :
    Bet.transform c (obsFrame rows) = Bet.transform c (obsFrame rows') := by
  have h0 : transform0 c (obsFrame rows) = transform0 c (obsFrame rows') := by
    unfold transform0
    simp only [obsFrame]
    have e1 := applySide_obs c rows
    have e2 := applySide_obs c rows'
    have e3 := applyAverage_obs c ha rows
    have e4 := applyAverage_obs c ha rows'
    unfold obsFrame at e1 e2 e3 e4
    rw [e1, e2]
    have e5 : (rows.all fun r => validSide r.side) = rows'.all fun r => validSide r.side := by
      rw [Bool.eq_iff_iff, List.all_eq_true, List.all_eq_true]
      exact ⟨fun H r hr => H r (h.mem_iff.2 hr), fun H r hr => H r (h.mem_iff.1 hr)⟩
    rw [e5]
    by_cases hn : c.numClasses = 0
    · simp only [hn, if_true]
    · simp only [hn, if_false]
      by_cases hm : c.metaLabeling = true ∧ (rows'.all fun r => validSide r.side) = false
      · simp only [if_pos hm]
      · simp only [if_neg hm]
        rw [e3, e4, C123_order (h.map fun r => (⟨r.time, r.stop, obsSignal c r⟩ : Bet.Bet ℝ))]
  unfold Bet.transform
  rw [h0]

/-- C123 is false in floating point: the mean of three bets is not the same when the small ones come first. -/
theorem C123_rounded_refuted :
    let a : Bet.Bet ℚ := ⟨0, none, .fin 1⟩
    let b : Bet.Bet ℚ := ⟨0, none, .fin (1 / 2 ^ 53)⟩
    [a, b, b].Perm [b, b, a] ∧ Rd.betAvg (roundBits 53) [a, b, b] ≠ Rd.betAvg (roundBits 53) [b, b, a] := by
  refine ⟨?_, by decide +kernel⟩
  exact (List.perm_append_comm (l₁ := [_]) (l₂ := [_, _]))

open Mizar.SW in
/-- The weights by return do depend on the order of the rows: the returns are taken from one row to the next, so with the rows in reverse order
the first event has the return of the second one. -/
theorem C123_return_weights_refuted : ∃ s s',
    weightsByReturns (frame [(0, 0), (1000000, 1000000)] [some 1, some (Real.exp 1)]) = .ok s ∧
    weightsByReturns (frame [(1000000, 1000000), (0, 0)] [some (Real.exp 1), some 1]) = .ok s' ∧
    s = [(0, .fin 0), (1000000, .fin 1)] ∧ s' = [(1000000, .fin 0), (0, .fin 1)] := by
  have h := weights_formula [(0, 0), (1000000, 1000000)] [some 1, some (Real.exp 1)] rfl
    (by intro c hc; simp at hc; rcases hc with rfl | rfl <;> positivity) (by decide) ⟨(0, 0), by simp, (1000000, 1000000), by simp, by simp⟩
  have h' := weights_formula [(1000000, 1000000), (0, 0)] [some (Real.exp 1), some 1] rfl
    (by intro c hc; simp at hc; rcases hc with rfl | rfl <;> positivity) (by decide) ⟨(0, 0), by simp, (1000000, 1000000), by simp, by simp⟩
  refine ⟨_, _, h, h', ?_, ?_⟩
  · have f1 : ((Finset.range 2).filter fun k => (0 : ℤ) / 1000000 ≤ (([(0, 0), (1000000, 1000000)] : List (ℤ × ℤ)).getD k (0, 0)).1 / 1000000 ∧
        (([(0, 0), (1000000, 1000000)] : List (ℤ × ℤ)).getD k (0, 0)).1 / 1000000 ≤ (0 : ℤ) / 1000000) = {0} := by decide
    have f2 : ((Finset.range 2).filter fun k => (1000000 : ℤ) / 1000000 ≤ (([(0, 0), (1000000, 1000000)] : List (ℤ × ℤ)).getD k (0, 0)).1 / 1000000 ∧
        (([(0, 0), (1000000, 1000000)] : List (ℤ × ℤ)).getD k (0, 0)).1 / 1000000 ≤ (1000000 : ℤ) / 1000000) = {1} := by decide
    have ha : aliveAt [(0, 0), (1000000, 1000000)] 1000000 = 1 := by decide
    simp only [List.map_cons, List.map_nil, List.length_cons, List.length_nil]
    rw [f1, f2]
    simp [logRet, ha]
  · have f1 : ((Finset.range 2).filter fun k => (0 : ℤ) / 1000000 ≤ (([(1000000, 1000000), (0, 0)] : List (ℤ × ℤ)).getD k (0, 0)).1 / 1000000 ∧
        (([(1000000, 1000000), (0, 0)] : List (ℤ × ℤ)).getD k (0, 0)).1 / 1000000 ≤ (0 : ℤ) / 1000000) = {1} := by decide
    have f2 : ((Finset.range 2).filter fun k => (1000000 : ℤ) / 1000000 ≤ (([(1000000, 1000000), (0, 0)] : List (ℤ × ℤ)).getD k (0, 0)).1 / 1000000 ∧
        (([(1000000, 1000000), (0, 0)] : List (ℤ × ℤ)).getD k (0, 0)).1 / 1000000 ≤ (1000000 : ℤ) / 1000000) = {0} := by decide
    have ha : aliveAt [(1000000, 1000000), (0, 0)] 0 = 1 := by decide
    simp only [List.map_cons, List.map_nil, List.length_cons, List.length_nil]
    rw [f1, f2]
    simp [logRet, ha]

end Mizar.Props
