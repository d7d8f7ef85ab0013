import Verif.Lemmas.TrendScan
import Verif.Spec.TrendDirection
import Mathlib.Algebra.Order.BigOperators.Group.Finset
import Mathlib.Tactic.LinearCombination

/-! The slope of the least squares line over a window has the sign of the pairwise moves. -/

namespace Mizar.Trend
open Mizar.Brk Mizar.Spec Finset

private theorem sum_map_range (f : ℕ → ℝ) (n : ℕ) : ((List.range n).map f).sum = ∑ i ∈ range n, f i := by
  induction n with
  | zero => simp
  | succ n ih => rw [List.range_succ, List.map_append, List.sum_append, ih, sum_range_succ]; simp

theorem pairMoves_eq (u : ℕ → ℝ) (n : ℕ) : ∑ j ∈ range n, ∑ i ∈ range j, ((j : ℝ) - i) * (u j - u i) =
    n * ∑ k ∈ range n, k * u k - (∑ k ∈ range n, (k : ℝ)) * ∑ k ∈ range n, u k := by
  induction n with
  | zero => simp
  | succ n ih =>
    rw [sum_range_succ, ih, sum_range_succ, sum_range_succ, sum_range_succ]
    have : ∑ i ∈ range n, ((n : ℝ) - i) * (u n - u i) =
        n * n * u n - n * ∑ i ∈ range n, u i - (∑ i ∈ range n, (i : ℝ)) * u n + ∑ i ∈ range n, i * u i := by
      have h1 : ∀ i ∈ range n, ((n : ℝ) - i) * (u n - u i) = n * u n - n * u i - i * u n + i * u i := fun i _ => by ring
      rw [sum_congr rfl h1, sum_add_distrib, sum_sub_distrib, sum_sub_distrib, mul_sum, sum_mul, sum_const, card_range, nsmul_eq_mul]
      ring
    rw [this]
    push_cast
    ring

theorem pairMoves_time_pos (n : ℕ) (hn : 2 ≤ n) : 0 < ∑ j ∈ range n, ∑ i ∈ range j, ((j : ℝ) - i) * ((j : ℝ) - i) := by
  apply sum_pos'
  · intro j _
    exact sum_nonneg fun i _ => mul_self_nonneg _
  · refine ⟨1, mem_range.2 (by omega), ?_⟩
    simp

/-- The slope times the spread of the times is the sum of the pairwise moves. -/
theorem slope_pairMoves (y : ℕ → ℝ) (start n : ℕ) (hn : 2 ≤ n) :
    betaR (trendRows y start n) 1 * ∑ j ∈ range n, ∑ i ∈ range j, ((j : ℝ) - i) * ((j : ℝ) - i) = pairMoves y start n := by
  have hd := (fullRank_iff _).1 ((trendRows_fullRank y start n).2 hn)
  have h0 := normal_eq _ hd 0
  have h1 := normal_eq _ hd 1
  generalize betaR (trendRows y start n) = c at h0 h1
  simp only [trendRows, List.map_map, Function.comp_def, predict, Fin.sum_univ_two, Matrix.cons_val_zero, Matrix.cons_val_one, one_mul] at h0 h1
  rw [sum_map_range, sum_map_range] at h0 h1
  have e0 : ∑ k ∈ range n, (c 0 + k * c 1) = n * c 0 + (∑ k ∈ range n, (k : ℝ)) * c 1 := by
    rw [sum_add_distrib, sum_const, card_range, nsmul_eq_mul, sum_mul]
  have e1 : ∑ k ∈ range n, (k : ℝ) * (c 0 + k * c 1) = (∑ k ∈ range n, (k : ℝ)) * c 0 + (∑ k ∈ range n, (k : ℝ) * k) * c 1 := by
    rw [sum_mul, sum_mul, ← sum_add_distrib]
    exact sum_congr rfl fun k _ => by ring
  rw [e0] at h0
  rw [e1] at h1
  unfold pairMoves
  rw [pairMoves_eq (fun k => y (start + k)), pairMoves_eq (fun k => (k : ℝ))]
  linear_combination n * h1 - (∑ k ∈ range n, (k : ℝ)) * h0

/-- The sign of the t-value. -/
theorem trendT_sign {y : ℕ → ℝ} {start n : ℕ} (hc : Curved y start n) {t : ℝ} (h : IsTrendT y start n t) :
    (0 < t ↔ 0 < pairMoves y start n) ∧ (t < 0 ↔ pairMoves y start n < 0) := by
  have h3 := curved_three hc
  have hr := (trendRows_fullRank y start n).2 (by omega)
  have hp := (Props.tValue_spec .numpy _ hr (by simp [trendRows]; omega) (noExactFit_of_curved hc) 1).2
  rw [(Props.isTValue_iff _ hr 1 t).1 h, ← slope_pairMoves y start n (by omega)]
  have hs := Real.sqrt_pos.2 hp
  have hq := pairMoves_time_pos n (by omega)
  constructor
  · rw [div_pos_iff_of_pos_right hs, mul_pos_iff_of_pos_right hq]
  · rw [← neg_pos, ← neg_div, div_pos_iff_of_pos_right hs, neg_pos, ← neg_pos (a := _ * _), ← neg_mul, mul_pos_iff_of_pos_right hq, neg_pos]

theorem curved_not_flat {y : ℕ → ℝ} {start n : ℕ} (hc : Curved y start n) : ∃ i < n, y (start + i) ≠ y start := by
  obtain ⟨i, hi, h⟩ := hc (y start) 0
  exact ⟨i, hi, by simpa using h⟩

theorem pairMoves_pos {y : ℕ → ℝ} {start n : ℕ} (hc : Curved y start n) (h : NeverFalls y start n) : 0 < pairMoves y start n := by
  obtain ⟨k, hk, hne⟩ := curved_not_flat hc
  have hk0 : 0 < k := by
    rcases Nat.eq_zero_or_pos k with rfl | h0
    · simp at hne
    · exact h0
  have hnn : ∀ j ∈ range n, ∀ i ∈ range j, 0 ≤ ((j : ℝ) - i) * (y (start + j) - y (start + i)) := by
    intro j hj i hi
    have hij : i < j := mem_range.1 hi
    have h1 : (i : ℝ) ≤ j := by exact_mod_cast hij.le
    have h2 := h i j hij.le (mem_range.1 hj)
    exact mul_nonneg (by linarith) (by linarith)
  apply sum_pos'
  · exact fun j hj => sum_nonneg (hnn j hj)
  · refine ⟨k, mem_range.2 hk, sum_pos' (hnn k (mem_range.2 hk)) ⟨0, mem_range.2 hk0, ?_⟩⟩
    have h2 := h 0 k (Nat.zero_le _) hk
    have h3 : (0 : ℝ) < k := by exact_mod_cast hk0
    rw [Nat.add_zero] at h2
    have h4 := lt_of_le_of_ne h2 (Ne.symm hne)
    simp only [Nat.cast_zero, sub_zero, Nat.add_zero]
    exact mul_pos h3 (by linarith)

theorem pairMoves_neg (y : ℕ → ℝ) (start n : ℕ) : pairMoves (fun i => -y i) start n = -pairMoves y start n := by
  unfold pairMoves
  rw [← sum_neg_distrib]
  refine sum_congr rfl fun j _ => ?_
  rw [← sum_neg_distrib]
  exact sum_congr rfl fun i _ => by ring

theorem curved_neg {y : ℕ → ℝ} {start n : ℕ} (hc : Curved y start n) : Curved (fun i => -y i) start n := by
  intro a b
  obtain ⟨i, hi, h⟩ := hc (-a) (-b)
  refine ⟨i, hi, fun h' => h ?_⟩
  linarith

end Mizar.Trend
