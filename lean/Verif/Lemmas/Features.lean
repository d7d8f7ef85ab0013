import Mathlib.Algebra.Order.Chebyshev
import Verif.Model.Features
import Verif.Lemmas.Technical

/-! Lemmas for the feature transformers: scaling of ideal floats, windows of transformed series. -/

set_option linter.unusedSectionVars false

namespace Mizar
open Finset

section
variable {K : Type} [Field K] [LinearOrder K]

/-- Multiplication of a series with a number. -/
abbrev scale (c : K) (l : List (XF K)) : List (XF K) := l.map (XF.mul (.fin c))

theorem winAt_map {α β : Type} (φ : α → β) (w i : ℕ) (l : List α) : winAt w i (l.map φ) = (winAt w i l).map φ := by
  unfold winAt; rw [List.map_drop, List.map_take]

/-- Windows of a series whose values are transformed one by one. -/
theorem rolling_map (w : ℕ) (F : List K → XF K) (φ G : XF K → XF K) (ψ : K → K) (h1 : ∀ x, (φ x).undef = x.undef)
    (h2 : ∀ x, φ (.fin x) = .fin (ψ x)) (h3 : G .nan = .nan) (h4 : ∀ l, F (l.map ψ) = G (F l)) (l : List (XF K)) :
    rolling w F (l.map φ) = (rolling w F l).map G := by
  unfold rolling
  rw [List.length_map, List.map_map]
  apply List.map_congr_left
  intro i _
  simp only [Function.comp_apply]
  unfold rollAt
  rw [winAt_map]
  by_cases hw : i + 1 < w
  · rw [if_pos hw, if_pos hw, h3]
  · rw [if_neg hw, if_neg hw]
    have hu : ((winAt w i l).map φ).any XF.undef = (winAt w i l).any XF.undef := by
      rw [List.any_map]; congr 1; funext x; exact h1 x
    rw [hu]
    by_cases h : (winAt w i l).any XF.undef
    · rw [if_pos h, if_pos h, h3]
    · rw [if_neg h, if_neg h, ← h4, List.map_map, List.map_map]
      congr 1
      apply List.map_congr_left
      intro x hx
      rw [Bool.not_eq_true, List.any_eq_false] at h
      obtain ⟨y, rfl⟩ := undef_false (by simpa using h x hx)
      simp [h2, XF.toK]

theorem rollE_map (w : ℤ) (F : List K → XF K) (φ G : XF K → XF K) (ψ : K → K) (h1 : ∀ x, (φ x).undef = x.undef)
    (h2 : ∀ x, φ (.fin x) = .fin (ψ x)) (h3 : G .nan = .nan) (h4 : ∀ l, F (l.map ψ) = G (F l)) (l : List (XF K)) :
    rollE w F (l.map φ) = (rollE w F l).map (List.map G) := by
  unfold rollE
  split
  · rfl
  · rw [rolling_map w.toNat F φ G ψ h1 h2 h3 h4]; rfl

end

section
variable {K : Type} [Field K] [LinearOrder K] [IsStrictOrderedRing K]

theorem infSign_mul {c : K} (hc : 0 < c) (x : K) : XF.infSign (c * x) = XF.infSign x := by
  unfold XF.infSign
  simp only [mul_pos_iff_of_pos_left hc, mul_neg_iff, hc, not_lt.2 hc.le, true_and, false_and, or_false]

theorem infSign_pos {c : K} (hc : 0 < c) : XF.infSign c = .pinf := by unfold XF.infSign; rw [if_pos hc]

theorem mul_infSign {c : K} (hc : 0 < c) (x : K) : XF.mul (.fin c) (XF.infSign x) = XF.infSign x := by
  unfold XF.infSign
  split
  · simp [XF.mul, infSign_pos hc]
  · split
    · simp [XF.mul, infSign_pos hc, XF.neg]
    · rfl

theorem undef_scale {c : K} (hc : 0 < c) (x : XF K) : (XF.mul (.fin c) x).undef = x.undef := by
  cases x <;> simp [XF.mul, XF.undef, infSign_pos hc, XF.isNan, XF.isInf, XF.neg]

theorem div_scale {c : K} (hc : 0 < c) (x y : XF K) : XF.div (XF.mul (.fin c) x) (XF.mul (.fin c) y) = XF.div x y := by
  cases x <;> cases y <;> simp [XF.mul, XF.div, infSign_pos hc, XF.neg, hc.ne', mul_neg_iff, hc, not_lt.2 hc.le, infSign_mul hc,
    mul_div_mul_left]

theorem div_scale_left {c : K} (hc : 0 < c) (x y : XF K) : XF.div (XF.mul (.fin c) x) y = XF.mul (.fin c) (XF.div x y) := by
  cases x with
  | nan => simp
  | ninf => cases y with
    | fin y =>
      by_cases h : y < 0 <;> simp [XF.mul, XF.div, infSign_pos hc, XF.neg, h]
    | _ => simp [XF.mul, XF.div, infSign_pos hc, XF.neg]
  | pinf => cases y with
    | fin y =>
      by_cases h : y < 0 <;> simp [XF.mul, XF.div, infSign_pos hc, XF.neg, h]
    | _ => simp [XF.mul, XF.div, infSign_pos hc, XF.neg]
  | fin x => cases y with
    | fin y =>
      by_cases h : y = 0
      · simp only [XF.mul_fin, XF.div, h, if_true, infSign_mul hc, mul_infSign hc]
      · rw [XF.mul_fin, XF.div_fin _ _ h, XF.div_fin _ _ h, XF.mul_fin, mul_div_assoc]
    | _ => simp [XF.mul, XF.div]

theorem div_scale_right {c : K} (hc : 0 < c) (x y : XF K) :
    XF.div x (XF.mul (.fin c) y) = XF.mul (.fin (1 / c)) (XF.div x y) := by
  have h1 : 0 < 1 / c := by positivity
  rw [← div_scale_left h1, ← div_scale hc (XF.mul (.fin (1 / c)) x)]
  congr 1
  cases x <;> simp [XF.mul, infSign_pos hc, infSign_pos (inv_pos.2 hc), XF.neg, hc.ne']

theorem sub_scale {c : K} (hc : 0 < c) (x y : XF K) : XF.sub (XF.mul (.fin c) x) (XF.mul (.fin c) y) = XF.mul (.fin c) (XF.sub x y) := by
  cases x <;> cases y <;> simp [XF.mul, XF.sub, XF.add, infSign_pos hc, XF.neg, mul_add]

theorem abs_scale {c : K} (hc : 0 < c) (x : XF K) : XF.abs (XF.mul (.fin c) x) = XF.mul (.fin c) (XF.abs x) := by
  cases x <;> simp [XF.mul, XF.abs, infSign_pos hc, XF.neg, abs_mul, abs_of_pos hc]

theorem zipWith_div_scale {c : K} (hc : 0 < c) (l m : List (XF K)) :
    List.zipWith XF.div (scale c l) (scale c m) = List.zipWith XF.div l m := by
  rw [List.zipWith_map]
  congr 1
  funext x y
  exact div_scale hc x y

theorem pdShift_map (φ : XF K → XF K) (h : φ .nan = .nan) (l : List (XF K)) : pdShift (l.map φ) = (pdShift l).map φ := by
  unfold pdShift
  rw [List.length_map, List.map_take, List.map_cons, h]

theorem pdDiff_scale {c : K} (hc : 0 < c) (l : List (XF K)) : pdDiff (scale c l) = scale c (pdDiff l) := by
  unfold pdDiff
  rw [pdShift_map _ (by simp), List.zipWith_map, scale, List.map_zipWith]
  congr 1
  funext x y
  exact sub_scale hc x y

theorem winMean_scale (c : K) (l : List K) : winMean (l.map fun x => c * x) = XF.mul (.fin c) (winMean l) := by
  unfold winMean
  rw [List.length_map, List.sum_map_mul_left]
  split
  · simp
  · simp [mul_div_assoc]

theorem rollE_mean_scale {c : K} (hc : 0 < c) (w : ℤ) (l : List (XF K)) :
    rollE w winMean (scale c l) = (rollE w winMean l).map (scale c) :=
  rollE_map w winMean _ (XF.mul (.fin c)) (fun x => c * x) (undef_scale hc) (fun x => rfl) (by simp) (winMean_scale c) l

theorem foldl_max_scale {c : K} (hc : 0 < c) (l : List K) (a : K) :
    (l.map fun x => c * x).foldl max (c * a) = c * l.foldl max a := by
  induction l generalizing a with
  | nil => rfl
  | cons x l ih =>
    rw [List.map_cons, List.foldl_cons, List.foldl_cons, ← ih, mul_max_of_nonneg _ _ hc.le]

theorem foldl_min_scale {c : K} (hc : 0 < c) (l : List K) (a : K) :
    (l.map fun x => c * x).foldl min (c * a) = c * l.foldl min a := by
  induction l generalizing a with
  | nil => rfl
  | cons x l ih =>
    rw [List.map_cons, List.foldl_cons, List.foldl_cons, ← ih, mul_min_of_nonneg _ _ hc.le]

theorem rollE_max_scale {c : K} (hc : 0 < c) (w : ℤ) (l : List (XF K)) :
    rollE w winMax (scale c l) = (rollE w winMax l).map (scale c) := by
  refine rollE_map w winMax _ (XF.mul (.fin c)) (fun x => c * x) (undef_scale hc) (fun x => rfl) (by simp) (fun l => ?_) l
  cases l with
  | nil => simp [winMax]
  | cons a l => simp [winMax, foldl_max_scale hc]

theorem rollE_min_scale {c : K} (hc : 0 < c) (w : ℤ) (l : List (XF K)) :
    rollE w winMin (scale c l) = (rollE w winMin l).map (scale c) := by
  refine rollE_map w winMin _ (XF.mul (.fin c)) (fun x => c * x) (undef_scale hc) (fun x => rfl) (by simp) (fun l => ?_) l
  cases l with
  | nil => simp [winMin]
  | cons a l => simp [winMin, foldl_min_scale hc]

/-- Maximum of a window. -/
theorem winMax_of (w : ℕ) (hw : 1 ≤ w) (v : ℕ → K) :
    ∃ M, winMax ((List.range w).map fun t => v (w - 1 - t)) = .fin M ∧ (∃ j < w, v j = M) ∧ ∀ j < w, v j ≤ M := by
  have key : ∀ (l : List K) (a : K), (l.foldl max a ∈ a :: l) ∧ ∀ x ∈ a :: l, x ≤ l.foldl max a := by
    intro l
    induction l with
    | nil => intro a; simp
    | cons x l ih =>
      intro a
      rw [List.foldl_cons]
      obtain ⟨h1, h2⟩ := ih (max a x)
      constructor
      · rcases List.mem_cons.1 h1 with h | h
        · rw [h]
          rcases max_choice a x with h | h <;> rw [h] <;> simp
        · simp [h]
      · intro y hy
        have hm := h2 (max a x) (by simp)
        simp only [List.mem_cons] at hy
        rcases hy with rfl | rfl | hy
        · exact (le_max_left _ _).trans hm
        · exact (le_max_right _ _).trans hm
        · exact h2 y (by simp [hy])
  cases hl : (List.range w).map fun t => v (w - 1 - t) with
  | nil =>
    have := congrArg List.length hl
    simp at this
    omega
  | cons a l =>
    obtain ⟨h1, h2⟩ := key l a
    rw [← hl] at h1 h2
    refine ⟨l.foldl max a, rfl, ?_, ?_⟩
    · obtain ⟨t, ht, he⟩ := List.mem_map.1 h1
      rw [List.mem_range] at ht
      exact ⟨w - 1 - t, by omega, he⟩
    · intro j hj
      apply h2
      rw [List.mem_map]
      exact ⟨w - 1 - j, by rw [List.mem_range]; omega, by congr 1; omega⟩

theorem winSum_of (w : ℕ) (v : ℕ → K) : winSum ((List.range w).map fun t => v (w - 1 - t)) = .fin (∑ j ∈ range w, v j) := by
  unfold winSum
  rw [sum_map_range, Finset.sum_range_reflect]

end

end Mizar

namespace Mizar
open Finset
variable {K : Type} [Field K] [LinearOrder K]

theorem rollAt_nan_of (w : ℕ) (f : List K → XF K) (l : List (XF K)) (i : ℕ) (hi : i < l.length) (j : ℕ) (hj : j < w)
    (h : l[i - j]? = some .nan) : rollAt w f l i = .nan := by
  rcases rollAt_cases w f l i hi with h' | ⟨-, h2, -⟩
  · exact h'
  · obtain ⟨x, hx⟩ := h2 j hj
    rw [h] at hx; simp at hx

theorem rollAt_short (w : ℕ) (f : List K → XF K) (l : List (XF K)) (i : ℕ) (h : i + 1 < w) : rollAt w f l i = .nan := by
  unfold rollAt; rw [if_pos h]

theorem rollE_ok (w : ℕ) (f : List K → XF K) (l : List (XF K)) : rollE w f l = .ok (rolling w f l) := by
  unfold rollE; rw [if_neg (by omega), Int.toNat_natCast]

theorem Frame.col_ok {f : Frame K} {name : String} (h : name ∈ f.cols) : f.col name = .ok (f.values name) := by
  unfold Frame.col; rw [if_pos h]

theorem Frame.attr_ok {f : Frame K} {name : String} (h : name ∈ f.cols) : f.attr name = .ok (f.values name) := by
  unfold Frame.attr; rw [if_pos h]

theorem zipWith_getElem?_of {α β γ : Type} (g : α → β → γ) {l : List α} {m : List β} {i : ℕ} {a : α} {b : β}
    (h1 : l[i]? = some a) (h2 : m[i]? = some b) : (List.zipWith g l m)[i]? = some (g a b) := by
  rw [List.getElem?_zipWith, h1, h2]

theorem map_getElem?_of {α β : Type} (g : α → β) {l : List α} {i : ℕ} {a : α} (h1 : l[i]? = some a) :
    (l.map g)[i]? = some (g a) := by
  rw [List.getElem?_map, h1]; rfl

end Mizar
