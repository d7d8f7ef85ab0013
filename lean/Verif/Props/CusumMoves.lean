import Verif.Props.Cusum

/-!
C113: what the selection of the CUSUM filter guarantees to its user
(`/repo/mizarlabs/transformers/sampling/down_sampling.py`).
-/

set_option linter.unusedSectionVars false

namespace Mizar.Spec
variable {K : Type*} [Field K] [LinearOrder K]

/-- The sum of the absolute price changes. -/
def totalMove : List K → K
  | [] => 0
  | [_] => 0
  | a :: b :: r => |b - a| + totalMove (b :: r)

end Mizar.Spec

namespace Mizar.Props
open Mizar.Spec Mizar.Cusum
variable {K : Type*} [Field K] [LinearOrder K] [IsStrictOrderedRing K]

/-- C113: no large move is missed. If the prices of two bars differ by more than the threshold, a bar after the first and not
after the second is selected. -/
theorem C113_no_missed_move (h : K) (hh : 0 ≤ h) (X : List (ℤ × K)) (hX : (X.map (·.1)).Nodup) :
    ∃ s, transform (.fin h) (X.map fun x => (x.1, XF.fin x.2)) = .ok s ∧
      ∀ j k (hjk : j < k) (hk : k < X.length), h < |X[k].2 - X[j].2| →
        ∃ i, ∃ hi : i < X.length, j < i ∧ i ≤ k ∧ X[i].1 ∈ s := by
  obtain ⟨U, D, hU, hD, _, e⟩ := C34_events h hh X hX
  refine ⟨_, e, ?_⟩
  intro j k hjk hk hmove
  have get : ∀ i (hi : i < X.length), X.getD i (0, 0) = X[i] := by
    intro i hi
    rw [List.getD_eq_getElem?_getD, List.getElem?_eq_getElem hi, Option.getD_some]
  have one : ∀ (V : ℕ → Bool) (p : ℕ → K), IsUpEvents h p X.length V → h < p k - p j →
      ∃ i, j < i ∧ i ≤ k ∧ V i = true := by
    intro V p hV hp
    by_contra hc
    push Not at hc
    have : V k = true := (hV k hk).2 ⟨j, hjk, hp, fun i h1 h2 => by
      have := hc i h1 h2.le
      simpa using this⟩
    exact hc k hjk le_rfl this
  have sel : ∀ i, i < X.length → (U i || D i) = true →
      (X.getD i (0, 0)).1 ∈ ((List.range X.length).filter fun k => U k || D k).map fun k => (X.getD k (0, 0)).1 := by
    intro i hi h1
    exact List.mem_map.2 ⟨i, List.mem_filter.2 ⟨List.mem_range.2 hi, h1⟩, rfl⟩
  rcases lt_abs.1 hmove with hm | hm
  · obtain ⟨i, h1, h2, h3⟩ := one U _ hU (by rw [get k hk, get j (by omega)]; exact hm)
    have hi : i < X.length := by omega
    have := sel i hi (by rw [h3]; rfl)
    rw [get i hi] at this
    exact ⟨i, hi, h1, h2, this⟩
  · obtain ⟨i, h1, h2, h3⟩ := one D _ hD (by rw [get k hk, get j (by omega)]; linarith)
    have hi : i < X.length := by omega
    have := sel i hi (by rw [h3, Bool.or_true])
    rw [get i hi] at this
    exact ⟨i, hi, h1, h2, this⟩

/-- C113: nothing is selected exactly if no two prices differ by more than the threshold. -/
theorem C113_quiet (h : K) (hh : 0 ≤ h) (X : List (ℤ × K)) (hX : (X.map (·.1)).Nodup) :
    transform (.fin h) (X.map fun x => (x.1, XF.fin x.2)) = .ok [] ↔
      ∀ j k (hjk : j < k) (hk : k < X.length), |X[k].2 - X[j].2| ≤ h := by
  constructor
  · intro e j k hjk hk
    by_contra hc
    obtain ⟨s, e', h1⟩ := C113_no_missed_move h hh X hX
    rw [e] at e'
    cases e'
    obtain ⟨i, hi, _, _, hm⟩ := h1 j k hjk hk (not_le.1 hc)
    cases hm
  · intro hq
    obtain ⟨U, D, hU, hD, _, e⟩ := C34_events h hh X hX
    rw [e]
    have get : ∀ i (hi : i < X.length), X.getD i (0, 0) = X[i] := by
      intro i hi
      rw [List.getD_eq_getElem?_getD, List.getElem?_eq_getElem hi, Option.getD_some]
    have hnil : ((List.range X.length).filter fun k => U k || D k) = [] := by
      rw [List.filter_eq_nil_iff]
      intro k hk hud
      rw [List.mem_range] at hk
      rw [Bool.or_eq_true] at hud
      rcases hud with h1 | h1
      · obtain ⟨j, j1, j2, _⟩ := (hU k hk).1 h1
        dsimp only at j2
        rw [get k hk, get j (by omega)] at j2
        have := abs_le.1 (hq j k j1 hk)
        linarith
      · obtain ⟨j, j1, j2, _⟩ := (hD k hk).1 h1
        dsimp only at j2
        rw [get k hk, get j (by omega)] at j2
        have := abs_le.1 (hq j k j1 hk)
        linarith
    rw [hnil]
    rfl

theorem loop_length (h : K) (hh : 0 ≤ h) : ∀ (X : List (ℤ × K)) (p n : K), 0 ≤ p → n ≤ 0 →
    (loop (.fin h) ⟨.fin p, .fin n⟩ (diffs (X.map fun x => (x.1, XF.fin x.2)))).length * h ≤ p - n + totalMove (X.map (·.2)) ∧
    (loop (.fin h) ⟨.fin p, .fin n⟩ (diffs (X.map fun x => (x.1, XF.fin x.2))) ≠ [] →
      (loop (.fin h) ⟨.fin p, .fin n⟩ (diffs (X.map fun x => (x.1, XF.fin x.2)))).length * h < p - n + totalMove (X.map (·.2)))
  | [], p, n, hp, hn => by simp [diffs, loop, totalMove]; linarith
  | [a], p, n, hp, hn => by simp [diffs, loop, totalMove]; linarith
  | a :: b :: r, p, n, hp, hn => by
    have ih := loop_length h hh (b :: r)
    simp only [List.map_cons, diffs, totalMove, XF.sub_fin] at ih ⊢
    have hM : pyMax0 (XF.add (.fin p) (.fin (b.2 - a.2))) = .fin (max 0 (p + (b.2 - a.2))) := by
      unfold pyMax0
      rw [XF.add_fin]
      by_cases h0 : 0 < p + (b.2 - a.2)
      · rw [max_eq_right h0.le]; simp [XF.lt, h0]
      · rw [max_eq_left (not_lt.1 h0)]; simp [XF.lt, h0]
    have hm : pyMin0 (XF.add (.fin n) (.fin (b.2 - a.2))) = .fin (min 0 (n + (b.2 - a.2))) := by
      unfold pyMin0
      rw [XF.add_fin]
      by_cases h0 : n + (b.2 - a.2) < 0
      · rw [min_eq_right h0.le]; simp [XF.lt, h0]
      · rw [min_eq_left (not_lt.1 h0)]; simp [XF.lt, h0]
    obtain ⟨P, hP⟩ : ∃ P, P = max 0 (p + (b.2 - a.2)) := ⟨_, rfl⟩
    obtain ⟨N, hN⟩ : ∃ N, N = min 0 (n + (b.2 - a.2)) := ⟨_, rfl⟩
    have hP0 : 0 ≤ P := by rw [hP]; exact le_max_left _ _
    have hN0 : N ≤ 0 := by rw [hN]; exact min_le_left _ _
    have hpot : P - N ≤ p - n + |b.2 - a.2| := by
      rw [hP, hN]
      rcases abs_cases (b.2 - a.2) with ⟨q1, q2⟩ | ⟨q1, q2⟩ <;>
        rcases max_cases 0 (p + (b.2 - a.2)) with ⟨q3, q4⟩ | ⟨q3, q4⟩ <;>
        rcases min_cases 0 (n + (b.2 - a.2)) with ⟨q5, q6⟩ | ⟨q5, q6⟩ <;> rw [q1, q3, q5] <;> linarith
    rw [← hP] at hM
    rw [← hN] at hm
    unfold loop
    simp only [step, hM, hm, XF.neg_fin]
    by_cases c1 : N < -h
    · obtain ⟨i1, i2⟩ := ih P 0 hP0 le_rfl
      simp only [XF.lt, c1, decide_true, if_true, List.length_cons]
      push_cast
      have e : ((loop (XF.fin h) ⟨XF.fin P, XF.fin 0⟩ (diffs ((b.1, XF.fin b.2) :: r.map fun x => (x.1, XF.fin x.2)))).length + 1 : K) * h <
          p - n + (|b.2 - a.2| + totalMove (b.2 :: r.map (·.2))) := by
        rw [add_mul, one_mul]
        linarith
      exact ⟨e.le, fun _ => e⟩
    · by_cases c2 : h < P
      · obtain ⟨i1, i2⟩ := ih 0 N le_rfl hN0
        simp only [XF.lt, c1, c2, decide_true, decide_false, if_true, List.length_cons, Bool.false_eq_true, if_false]
        push_cast
        have e : ((loop (XF.fin h) ⟨XF.fin 0, XF.fin N⟩ (diffs ((b.1, XF.fin b.2) :: r.map fun x => (x.1, XF.fin x.2)))).length + 1 : K) * h <
            p - n + (|b.2 - a.2| + totalMove (b.2 :: r.map (·.2))) := by
          rw [add_mul, one_mul]
          linarith
        exact ⟨e.le, fun _ => e⟩
      · obtain ⟨i1, i2⟩ := ih P N hP0 hN0
        simp only [XF.lt, c1, c2, decide_false, Bool.false_eq_true, if_false]
        exact ⟨by linarith, fun hne => by linarith [i2 hne]⟩

/-- C113: few bars are selected. The number of selected bars times the threshold is less than the sum of the absolute price
changes (unless nothing is selected): every selected bar accounts for a move of its own. -/
theorem C113_few (h : K) (hh : 0 ≤ h) (X : List (ℤ × K)) (s : List ℤ)
    (e : transform (.fin h) (X.map fun x => (x.1, XF.fin x.2)) = .ok s) (hs : s ≠ []) :
    s.length * h < totalMove (X.map (·.2)) := by
  unfold transform at e
  split at e
  · cases e
    have := (loop_length h hh X 0 0 le_rfl le_rfl).2 hs
    simpa using this
  · cases e

/-- Seven bars: the moves of more than 1 are down to 4 - up to 11/2, then down to 7/2, and two bars are selected. -/
example : transform (.fin (1 : ℚ)) ([(10, 5), (11, 4), (12, 11/2), (13, 6), (14, 4), (15, 7/2), (16, 4)].map
    fun x => (x.1, XF.fin x.2)) = .ok [12, 14] ∧ totalMove [(5 : ℚ), 4, 11/2, 6, 4, 7/2, 4] = 6 ∧
    transform (.fin (1 : ℚ)) ([(10, 5), (11, 4), (12, 5)].map fun x => (x.1, XF.fin x.2)) = .ok [] := by decide +kernel

end Mizar.Props
