import Verif.Model.TrendScan
import Verif.Spec.TrendScan
import Verif.Props.Ols
import Verif.Props.ZScore
import Verif.Props.Csw

/-! Lemmas for trend scanning (C70-C73). -/

namespace Mizar.Trend
open Mizar.Spec Mizar.Brk Mizar.Props

/-! ### The regression -/

/-- The values of a window. -/
def slice (y : ℕ → ℝ) (start n : ℕ) : List (XF ℝ) := (List.range n).map fun i => .fin (y (start + i))

theorem trendT_slice (em : ErrModel) (y : ℕ → ℝ) (start n : ℕ) : trendT em (slice y start n) = tValue em 1 ((trendRows y start n).map liftRow) := by
  unfold trendT
  congr 1
  apply List.ext_getElem
  · simp [slice, trendRows]
  · intro i h1 h2
    simp only [slice, trendRows, List.getElem_map, List.getElem_zipIdx, List.getElem_range, liftRow, Nat.zero_add]
    congr 1
    funext j
    fin_cases j <;> simp

theorem slice_take (y : ℕ → ℝ) (start n m : ℕ) (h : m ≤ n) : (slice y start n).take m = slice y start m := by
  unfold slice
  rw [← List.map_take, List.take_range, Nat.min_eq_left h]

theorem trendRows_fullRank (y : ℕ → ℝ) (start n : ℕ) : FullRank (trendRows y start n) ↔ 2 ≤ n := by
  constructor
  · intro h
    have := le_length_of_fullRank _ h
    simpa [trendRows] using this
  · intro hn c hc
    have h0 := hc (![1, ((0 : ℕ) : ℝ)], y (start + 0)) (List.mem_map.2 ⟨0, List.mem_range.2 (by omega), rfl⟩)
    have h1 := hc (![1, ((1 : ℕ) : ℝ)], y (start + 1)) (List.mem_map.2 ⟨1, List.mem_range.2 (by omega), rfl⟩)
    simp [predict, Fin.sum_univ_two] at h0 h1
    funext i
    fin_cases i
    · simpa using h0
    · simp only [Fin.mk_one, Pi.zero_apply]
      linarith

theorem curved_mono {y : ℕ → ℝ} {start m n : ℕ} (h : Curved y start m) (hmn : m ≤ n) : Curved y start n := by
  intro a b
  obtain ⟨i, hi, hne⟩ := h a b
  exact ⟨i, by omega, hne⟩

theorem noExactFit_of_curved {y : ℕ → ℝ} {start n : ℕ} (h : Curved y start n) : NoExactFit (trendRows y start n) := by
  intro c
  obtain ⟨i, hi, hne⟩ := h (c 0) (c 1)
  refine ⟨_, List.mem_map.2 ⟨i, List.mem_range.2 hi, rfl⟩, ?_⟩
  simp only [predict, Fin.sum_univ_two, Matrix.cons_val_zero, Matrix.cons_val_one, one_mul]
  rwa [mul_comm] at hne

theorem curved_three {y : ℕ → ℝ} {start n : ℕ} (h : Curved y start n) : 3 ≤ n := by
  by_contra hn
  obtain ⟨i, hi, hne⟩ := h (y start) (y (start + 1) - y start)
  apply hne
  have : i = 0 ∨ i = 1 := by omega
  rcases this with rfl | rfl <;> simp

theorem trendT_curved (em : ErrModel) {y : ℕ → ℝ} {start n : ℕ} (h : Curved y start n) :
    ∃ t, trendT em (slice y start n) = .ok (.fin t) ∧ IsTrendT y start n t ∧ ∀ t', IsTrendT y start n t' → t' = t := by
  have h3 := curved_three h
  rw [trendT_slice]
  exact C67_t_value em _ ((trendRows_fullRank y start n).2 (by omega)) (by simp [trendRows]; omega) (noExactFit_of_curved h) 1

/-! ### The loop -/

theorem windows_one (m L : ℕ) : windows m L 1 = .ok ((List.range (L - m)).map fun q => m + q) := by
  unfold windows
  rw [if_neg (by decide), if_neg (by decide)]
  congr 1
  induction L with
  | zero => simp
  | succ L ih =>
    rw [List.range_succ, List.filter_append, ih]
    by_cases h : m ≤ L
    · rw [show L + 1 - m = (L - m) + 1 by omega, List.range_succ, List.map_append]
      congr 1
      have : m + (L - m) = L := by omega
      simp [h, this, Nat.mod_one]
    · rw [show L + 1 - m = L - m by omega]
      simp [h]

theorem fill_range (em : ErrModel) (w : List (XF ℝ)) (m : ℕ) (n p : ℕ) (a : List (XF ℝ)) (ha : a.length = p + n) :
    fill em w m ((List.range n).map fun q => m + (p + q)) a =
      (mapE (fun q => trendT em (w.take (m + (p + q)))) (List.range n)).bind fun l => .ok (a.take p ++ l) := by
  induction n generalizing p a with
  | zero =>
    simp only [List.range_zero, List.map_nil, fill, mapE]
    rw [List.take_of_length_le (by omega)]
    simp [Except.bind]
  | succ n ih =>
    rw [List.range_succ_eq_map, List.map_cons, List.map_map]
    have e1 : (List.range n).map ((fun q => m + (p + q)) ∘ Nat.succ) = (List.range n).map fun q => m + (p + 1 + q) := by
      apply List.map_congr_left
      intro q _
      simp only [Function.comp_apply]; omega
    rw [e1]
    simp only [fill, mapE, Nat.add_zero]
    cases ht : trendT em (w.take (m + p)) with
    | error e => rfl
    | ok t =>
      rw [Py.bind_ok, show m + p - m = p by omega, ih (p + 1) _ (by rw [List.length_set]; omega), mapE_map]
      have e2 : (fun q => trendT em (w.take (m + (p + 1 + q)))) = fun q => trendT em (w.take (m + (p + Nat.succ q))) := by
        funext q
        rw [show m + (p + 1 + q) = m + (p + Nat.succ q) by simp only [Nat.succ_eq_add_one]; omega]
      rw [e2]
      cases mapE (fun q => trendT em (w.take (m + (p + Nat.succ q)))) (List.range n) with
      | error e => rfl
      | ok l =>
        simp only [Except.bind]
        congr 1
        rw [List.take_succ, List.getElem?_set_self (by omega), List.take_set_of_le (le_refl _)]
        simp

theorem bestAt_one (em : ErrModel) (mem : ℕ → XF ℝ) (L m : ℕ) (w : List (XF ℝ)) : bestAt em mem ⟨L, m, 1⟩ w =
    (mapE (fun q => trendT em (w.take (m + q))) (List.range (w.length - m))).bind fun a =>
      .ok (a.getD (argmax (a.map XF.abs)) .nan, argmax (a.map XF.abs)) := by
  unfold bestAt
  dsimp only
  rw [windows_one, Py.bind_ok]
  have := fill_range em w m (w.length - m) 0 ((List.range (w.length - m)).map mem) (by simp)
  simp only [Nat.zero_add] at this
  rw [this]
  cases mapE (fun q => trendT em (w.take (m + q))) (List.range (w.length - m)) with
  | error e => rfl
  | ok l => rfl

/-! ### The maximum -/

theorem argmaxGo_fin (l : List ℝ) (f : ℕ → ℝ) (i b : ℕ) (hb : b < i) (hmax : ∀ j < i, f j ≤ f b) (hfirst : ∀ j < b, f j < f b)
    (hl : ∀ j (hj : j < l.length), l[j] = f (i + j)) :
    argmaxGo i b (.fin (f b)) (l.map XF.fin) < i + l.length ∧
      (∀ j < i + l.length, f j ≤ f (argmaxGo i b (.fin (f b)) (l.map XF.fin))) ∧
      ∀ j < argmaxGo i b (.fin (f b)) (l.map XF.fin), f j < f (argmaxGo i b (.fin (f b)) (l.map XF.fin)) := by
  induction l generalizing i b with
  | nil => simpa [argmaxGo] using ⟨hb, hmax, hfirst⟩
  | cons x l ih =>
    have hx : x = f i := hl 0 (by simp)
    subst hx
    have hl' : ∀ j (hj : j < l.length), l[j] = f (i + 1 + j) := by
      intro j hj
      have := hl (j + 1) (by simpa using hj)
      simp only [List.getElem_cons_succ] at this
      rw [this]; congr 1; omega
    simp only [List.map_cons, argmaxGo, XF.isNan_fin, Bool.not_false, Bool.true_and, Bool.false_or, XF.lt_fin, decide_eq_true_eq,
      List.length_cons]
    by_cases h : f b < f i
    · rw [if_pos h, show i + (l.length + 1) = i + 1 + l.length by omega]
      apply ih (i + 1) i (by omega) _ _ hl'
      · intro j hj
        rcases Nat.lt_succ_iff_lt_or_eq.1 hj with h1 | h1
        · exact ((hmax j h1).trans_lt h).le
        · rw [h1]
      · intro j hj
        exact (hmax j hj).trans_lt h
    · rw [if_neg h, show i + (l.length + 1) = i + 1 + l.length by omega]
      apply ih (i + 1) b (by omega) _ hfirst hl'
      intro j hj
      rcases Nat.lt_succ_iff_lt_or_eq.1 hj with h1 | h1
      · exact hmax j h1
      · rw [h1]; exact not_lt.1 h

theorem argmax_fin (n : ℕ) (hn : 0 < n) (f : ℕ → ℝ) : argmax ((List.range n).map fun q => .fin (f q)) < n ∧
    (∀ j < n, f j ≤ f (argmax ((List.range n).map fun q => .fin (f q)))) ∧
    ∀ j < argmax ((List.range n).map fun q => .fin (f q)), f j < f (argmax ((List.range n).map fun q => .fin (f q))) := by
  obtain ⟨n, rfl⟩ : ∃ k, n = k + 1 := ⟨n - 1, by omega⟩
  have e : (List.range (n + 1)).map (fun q => XF.fin (f q)) = .fin (f 0) :: ((List.range n).map fun q => f (q + 1)).map XF.fin := by
    rw [List.range_succ_eq_map, List.map_cons, List.map_map, List.map_map]; rfl
  rw [e]
  simp only [argmax]
  have := argmaxGo_fin ((List.range n).map fun q => f (q + 1)) f 1 0 (by omega) (by intro j hj; rw [show j = 0 by omega]) (by simp) (by
    intro j hj
    simp [Nat.add_comm])
  simpa [Nat.add_comm] using this

theorem argmaxGo_nan (l : List (XF ℝ)) (i b : ℕ) : argmaxGo i b .nan l = b := by
  induction l generalizing i with
  | nil => rfl
  | cons x l ih => simp [argmaxGo, ih]

theorem argmaxGo_mem_nan (l : List (XF ℝ)) (pre : List (XF ℝ)) (b : ℕ) (v : XF ℝ) (hb : pre[b]? = some v) (h : XF.nan ∈ v :: l) :
    (pre ++ l)[argmaxGo pre.length b v l]? = some .nan := by
  induction l generalizing pre b v with
  | nil =>
    rw [List.mem_singleton] at h
    simp only [argmaxGo, List.append_nil]
    rw [hb, h]
  | cons x l ih =>
    have hlt : b < pre.length := by
      by_contra hge
      rw [List.getElem?_eq_none (by omega)] at hb
      cases hb
    have happ : pre ++ x :: l = (pre ++ [x]) ++ l := by simp
    simp only [argmaxGo]
    split
    · rename_i hc
      have := ih (pre ++ [x]) pre.length x (by simp) (by
        rcases List.mem_cons.1 h with rfl | h
        · simp at hc
        · exact h)
      rw [happ]
      simpa using this
    · rename_i hc
      have := ih (pre ++ [x]) b v (by rw [List.getElem?_append_left hlt]; exact hb) (by
        rcases List.mem_cons.1 h with rfl | h
        · simp
        · rcases List.mem_cons.1 h with rfl | h
          · cases v <;> simp at hc ⊢
          · exact List.mem_cons_of_mem _ h)
      rw [happ]
      simpa using this

theorem argmax_mem_nan (l : List (XF ℝ)) (h : XF.nan ∈ l) : l[argmax l]? = some .nan := by
  cases l with
  | nil => simp at h
  | cons x l => simpa [argmax] using argmaxGo_mem_nan l [x] 0 x (by simp) h

theorem argmaxGo_lt (l : List (XF ℝ)) (i b : ℕ) (v : XF ℝ) (hb : b < i) : argmaxGo i b v l < i + l.length := by
  induction l generalizing i b v with
  | nil => simpa [argmaxGo] using hb
  | cons x l ih =>
    simp only [argmaxGo, List.length_cons]
    split
    · have := ih (i + 1) i x (by omega); omega
    · have := ih (i + 1) b v (by omega); omega

theorem argmax_lt (l : List (XF ℝ)) (h : l ≠ []) : argmax l < l.length := by
  cases l with
  | nil => exact absurd rfl h
  | cons x l =>
    have := argmaxGo_lt l 1 0 x (by omega)
    simp only [argmax, List.length_cons]; omega

end Mizar.Trend
