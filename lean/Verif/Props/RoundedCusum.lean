import Verif.Lemmas.RoundedCusum
import Mathlib.Data.List.GetD

/-!
C107: the CUSUM filter in floating point arithmetic (`/repo/mizarlabs/transformers/sampling/down_sampling.py`).
-/

namespace Mizar.Props
open Rd

/-- C107: in arithmetic with `p` bits (`p = 53` in the code), for a non-negative threshold which is a floating point number
and prices with distinct times, the selection is the list of times with an upward or a downward event, never both; the
upward events are the ones of the exact filter except where the move since an earlier price is within the rounding
error of the threshold (the path length plus the threshold once per step, divided by `2^p`), and the downward events are
those of the negated prices. -/
theorem C107_events (p : ℕ) (hp : 1 ≤ p) (h : ℚ) (hh : 0 ≤ h) (hf : IsFloat p h) (X : List (ℤ × ℚ))
    (hX : (X.map (·.1)).Nodup) :
    ∃ U D : ℕ → Bool,
      Spec.IsUpEventsUpTo (Spec.pathError p h fun i => (X.getD i (0, 0)).2) h (fun i => (X.getD i (0, 0)).2) X.length U ∧
      Spec.IsUpEventsUpTo (Spec.pathError p h fun i => (X.getD i (0, 0)).2) h (fun i => -(X.getD i (0, 0)).2) X.length D ∧
      (∀ k < X.length, ¬ (U k = true ∧ D k = true)) ∧
      cusum (roundBits p) h X =
        .ok (((List.range X.length).filter fun k => U k || D k).map fun k => (X.getD k (0, 0)).1) := by
  have R := rounding_bits hp hf
  refine ⟨_, _, upAcc_isUp hp hh hf _ _, ?_, fun k _ => disjoint_up R hh _ k, cusum_eq R hh X hX⟩
  have := upAcc_isUp hp hh hf (fun i => -(X.getD i (0, 0)).2) X.length
  have e : Spec.pathError p h (fun i => -(X.getD i (0, 0)).2) = Spec.pathError p h fun i => (X.getD i (0, 0)).2 := by
    funext j k
    unfold Spec.pathError
    congr 2
    refine Finset.sum_congr rfl fun i _ => ?_
    rw [← abs_neg]; congr 1; ring
  rwa [e] at this

/-- C107: with repeated times a `ValueError` is raised. -/
theorem C107_repeated (r : ℚ → ℚ) (h : ℚ) (X : List (ℤ × ℚ)) (hX : ¬ (X.map (·.1)).Nodup) :
    cusum r h X = .error .valueError := by rw [cusum, if_neg hX]

/-- C107: if the prices are multiples of a common power of two, with integer factors of at most `p - 1` bits (prices in
whole ticks of that size), rounding changes nothing: the selection is the one of the exact model. -/
theorem C107_grid (p : ℕ) (hp : 1 ≤ p) (h : ℚ) (hh : 0 ≤ h) (hf : IsFloat p h) (X : List (ℤ × ℚ)) (e : ℤ)
    (hg : ∀ x ∈ X, ∃ m : ℤ, |m| < 2 ^ (p - 1) ∧ x.2 = m * 2 ^ e) :
    cusum (roundBits p) h X = Cusum.transform (.fin h) (X.map fun x => (x.1, XF.fin x.2)) := by
  rw [← cusum_id]
  by_cases hX : (X.map (·.1)).Nodup
  swap
  · rw [C107_repeated _ _ _ hX, C107_repeated _ _ _ hX]
  rw [cusum_eq (rounding_bits hp hf) hh X hX, cusum_eq (rounding_id h) hh X hX]
  have hm : ∀ i, ∃ m : ℤ, i < X.length → |m| < 2 ^ (p - 1) ∧ (X.getD i (0, 0)).2 = m * 2 ^ e := by
    intro i
    by_cases hi : i < X.length
    · obtain ⟨m, h1, h2⟩ := hg X[i] (List.getElem_mem hi)
      exact ⟨m, fun _ => ⟨h1, by rw [List.getD_eq_getElem _ _ hi]; exact h2⟩⟩
    · exact ⟨0, fun c => absurd c hi⟩
  choose m hm using hm
  have a1 := upAcc_grid (h := h) hp (fun i => (X.getD i (0, 0)).2) X.length e m (fun i hi => (hm i hi).1)
    (fun i hi => (hm i hi).2)
  have a2 := upAcc_grid (h := h) hp (fun i => -(X.getD i (0, 0)).2) X.length e (fun i => -m i)
    (fun i hi => by rw [abs_neg]; exact (hm i hi).1) (fun i hi => by rw [(hm i hi).2]; push_cast; ring)
  congr 2
  refine List.filter_congr fun k hk => ?_
  rw [List.mem_range] at hk
  rw [(a1 k hk).1, (a2 k hk).1]

/-- C107: without rounding this is the model of C34-C36. -/
theorem C107_exact (h : ℚ) (X : List (ℤ × ℚ)) :
    cusum id h X = Cusum.transform (.fin h) (X.map fun x => (x.1, XF.fin x.2)) := cusum_id h X

/-- C107: also with rounding a higher threshold never selects more. -/
theorem C107_threshold (p : ℕ) (hp : 1 ≤ p) (h₁ h₂ : ℚ) (h0 : 0 ≤ h₁) (h12 : h₁ ≤ h₂) (f₁ : IsFloat p h₁)
    (f₂ : IsFloat p h₂) (X : List (ℤ × ℚ)) (s₁ s₂ : List ℤ) (e₁ : cusum (roundBits p) h₁ X = .ok s₁)
    (e₂ : cusum (roundBits p) h₂ X = .ok s₂) : s₂.length ≤ s₁.length := by
  by_cases hX : (X.map (·.1)).Nodup
  swap
  · rw [C107_repeated _ _ _ hX] at e₁; cases e₁
  have R₁ := rounding_bits hp f₁
  have R₂ := rounding_bits hp f₂
  rw [cusum_eq R₁ h0 X hX] at e₁
  rw [cusum_eq R₂ (h0.trans h12) X hX] at e₂
  cases e₁
  cases e₂
  rw [List.length_map, List.length_map, countP_or_disjoint _ _ _ (disjoint_up R₁ h0 _),
    countP_or_disjoint _ _ _ (disjoint_up R₂ (h0.trans h12) _)]
  cases hn : X.length with
  | zero => simp
  | succ n =>
    exact Nat.add_le_add (upCount_antitone R₁.mono h12 _ n).1 (upCount_antitone R₁.mono h12 _ n).1

/-- C107: also with rounding, negated prices give the same selection. -/
theorem C107_mirror (p : ℕ) (hp : 1 ≤ p) (h : ℚ) (hh : 0 ≤ h) (hf : IsFloat p h) (X : List (ℤ × ℚ)) :
    cusum (roundBits p) h (X.map fun x => (x.1, -x.2)) = cusum (roundBits p) h X := by
  have hm : (X.map fun x => (x.1, -x.2)).map (·.1) = X.map (·.1) := by simp
  by_cases hX : (X.map (·.1)).Nodup
  swap
  · rw [C107_repeated _ _ _ hX, C107_repeated _ _ _ (by rw [hm]; exact hX)]
  rw [cusum_eq (rounding_bits hp hf) hh X hX, cusum_eq (rounding_bits hp hf) hh _ (by rw [hm]; exact hX)]
  have hg : ∀ i, ((X.map fun x => (x.1, -x.2)).getD i (0, 0)) = ((X.getD i (0, 0)).1, -(X.getD i (0, 0)).2) := by
    intro i
    rw [show ((0 : ℤ), (0 : ℚ)) = (fun x : ℤ × ℚ => (x.1, -x.2)) (0, 0) by simp, List.getD_map]
    simp
  simp only [hg, List.length_map, neg_neg]
  congr 2
  refine List.filter_congr fun k _ => Bool.or_comm _ _

/-- C107: also with rounding, prices and threshold in units changed by a power of two give the same selection. -/
theorem C107_scale (p : ℕ) (hp : 1 ≤ p) (h : ℚ) (hh : 0 ≤ h) (hf : IsFloat p h) (j : ℤ) (X : List (ℤ × ℚ)) :
    cusum (roundBits p) (h * 2 ^ j) (X.map fun x => (x.1, x.2 * 2 ^ j)) = cusum (roundBits p) h X := by
  have hm : (X.map fun x => (x.1, x.2 * 2 ^ j)).map (·.1) = X.map (·.1) := by simp
  by_cases hX : (X.map (·.1)).Nodup
  swap
  · rw [C107_repeated _ _ _ hX, C107_repeated _ _ _ (by rw [hm]; exact hX)]
  have hc := two_zpow_pos j
  have hf' : IsFloat p (h * 2 ^ j) := by
    obtain ⟨m, e, h1, h2⟩ := hf
    exact ⟨m, e + j, h1, by rw [h2, zpow_add₀ (by norm_num), mul_assoc]⟩
  rw [cusum_eq (rounding_bits hp hf) hh X hX,
    cusum_eq (rounding_bits hp hf') (mul_nonneg hh hc.le) _ (by rw [hm]; exact hX)]
  have hg : ∀ i, ((X.map fun x => (x.1, x.2 * 2 ^ j)).getD i (0, 0)) =
      ((X.getD i (0, 0)).1, (X.getD i (0, 0)).2 * 2 ^ j) := by
    intro i
    rw [show ((0 : ℤ), (0 : ℚ)) = (fun x : ℤ × ℚ => (x.1, x.2 * 2 ^ j)) (0, 0) by simp, List.getD_map]
    simp
  simp only [hg, List.length_map, ← neg_mul]
  congr 2
  refine List.filter_congr fun k _ => ?_
  rw [upAcc_scale hc (roundBits_zpow p j), upAcc_scale hc (roundBits_zpow p j)]

/-- C107: the error cannot be dropped.  With the decimal prices 0.7 and 0.8 and the decimal threshold 0.1 the move is not
above the threshold, and the exact filter selects nothing; with the doubles nearest to these numbers the filter selects
the second time. -/
theorem C107_decimal : cusum (roundBits 53) (roundBits 53 (1 / 10))
      [(0, roundBits 53 (7 / 10)), (1, roundBits 53 (8 / 10))] = .ok [1] ∧
    Cusum.transform (.fin (1 / 10 : ℚ)) [(0, .fin (7 / 10)), (1, .fin (8 / 10))] = .ok [] := by
  constructor <;> decide +kernel

/-- A threshold of 1 and six prices, in double precision. -/
example : IsFloat 53 1 ∧ cusum (roundBits 53) 1 ([(10, 5), (11, 4), (12, 11/2), (13, 6), (14, 4), (15, 7/2)]) = .ok [12, 14] :=
  ⟨isFloat_int 53 1 (by norm_num), by decide +kernel⟩

/-- Prices in quarters meet the hypothesis of `C107_grid`. -/
example : ∀ x ∈ [((10 : ℤ), (5 : ℚ)), (11, 17 / 4), (12, 11 / 2)], ∃ m : ℤ, |m| < 2 ^ (53 - 1) ∧ x.2 = m * 2 ^ (-2 : ℤ) := by
  intro x hx
  simp only [List.mem_cons, List.not_mem_nil, or_false] at hx
  rcases hx with rfl | rfl | rfl
  · exact ⟨20, by norm_num, by norm_num⟩
  · exact ⟨17, by norm_num, by norm_num⟩
  · exact ⟨22, by norm_num, by norm_num⟩

/-- Decimal prices in double precision: a small threshold selects three times, a larger one selects one. -/
example : let X := [(0, roundBits 53 (1 / 10)), (1, roundBits 53 (3 / 10)), (2, roundBits 53 (6 / 10)), (3, roundBits 53 (2 / 10))]
    cusum (roundBits 53) (roundBits 53 (15 / 100)) X = .ok [1, 2, 3] ∧
    cusum (roundBits 53) (roundBits 53 (35 / 100)) X = .ok [2, 3] ∧
    cusum (roundBits 53) (roundBits 53 (45 / 100)) X = .ok [2] := by decide +kernel

end Mizar.Props
