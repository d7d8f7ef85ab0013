import Verif.Lemmas.DoubleCusum
import Verif.Props.RoundedCusum

/-! Property theorems C146: the CUSUM filter in `float64` with underflow and overflow. -/

namespace Mizar.Props
open Mizar.Rd

/-- C146: without rounding the model is the one of C34-C36. -/
theorem C146_exact {K : Type*} [Field K] [LinearOrder K] (h : XF K) (X : List (ℤ × XF K)) : cusumD XF.fin h X = Cusum.transform h X :=
  cusumD_exact h X

/-- C146: for every binary format, every non-negative threshold of the format and every series of numbers of the format, missing and
infinite values: the bounds of the exponent do not matter.  Differences that overflow and differences below the smallest normal number
give the same selection as arithmetic with the same number of bits and an unbounded exponent. -/
theorem C146_unbounded (f : Fmt) (hp : 1 ≤ f.p) (h : ℚ) (hh : 0 ≤ h) (hF : f.Has h) (X : List (ℤ × XF ℚ))
    (hX : ∀ x ∈ X, ∀ q, x.2 = .fin q → f.Has q) :
    cusumD f.float (.fin h) X = cusumD (fun q => .fin (roundBits f.p q)) (.fin h) X := cusumD_twin f hp hh hF X hX

theorem has_map {f : Fmt} {X : List (ℤ × ℚ)} (hX : ∀ x ∈ X, f.Has x.2) :
    ∀ x ∈ X.map (fun x => (x.1, XF.fin x.2)), ∀ q, x.2 = .fin q → f.Has q := by
  intro x hx q hq
  obtain ⟨y, hy, rfl⟩ := List.mem_map.1 hx
  injection hq with hq
  exact hq ▸ hX y hy

/-- C146: on numbers the selection is the one of C107. -/
theorem C146_numbers (f : Fmt) (hp : 1 ≤ f.p) (h : ℚ) (hh : 0 ≤ h) (hF : f.Has h) (X : List (ℤ × ℚ)) (hX : ∀ x ∈ X, f.Has x.2) :
    cusumD f.float (.fin h) (X.map fun x => (x.1, .fin x.2)) = cusum (roundBits f.p) h X := by
  rw [C146_unbounded f hp h hh hF _ (has_map hX), cusumD_fin]

/-- C146: which bars are selected, up to the error of the additions since the last event. -/
theorem C146_events (f : Fmt) (hp : 1 ≤ f.p) (h : ℚ) (hh : 0 ≤ h) (hF : f.Has h) (X : List (ℤ × ℚ)) (hX : ∀ x ∈ X, f.Has x.2)
    (hn : (X.map (·.1)).Nodup) :
    ∃ U D : ℕ → Bool,
      Spec.IsUpEventsUpTo (Spec.pathError f.p h fun i => (X.getD i (0, 0)).2) h (fun i => (X.getD i (0, 0)).2) X.length U ∧
      Spec.IsUpEventsUpTo (Spec.pathError f.p h fun i => (X.getD i (0, 0)).2) h (fun i => -(X.getD i (0, 0)).2) X.length D ∧
      (∀ k < X.length, ¬ (U k = true ∧ D k = true)) ∧
      cusumD f.float (.fin h) (X.map fun x => (x.1, .fin x.2)) =
        .ok (((List.range X.length).filter fun k => U k || D k).map fun k => (X.getD k (0, 0)).1) := by
  rw [C146_numbers f hp h hh hF X hX]
  exact C107_events f.p hp h hh hF.isFloat X hn

/-- C146: a higher threshold never selects more. -/
theorem C146_threshold (f : Fmt) (hp : 1 ≤ f.p) (h₁ h₂ : ℚ) (h0 : 0 ≤ h₁) (h12 : h₁ ≤ h₂) (f₁ : f.Has h₁) (f₂ : f.Has h₂) (X : List (ℤ × ℚ))
    (hX : ∀ x ∈ X, f.Has x.2) (s₁ s₂ : List ℤ) (e₁ : cusumD f.float (.fin h₁) (X.map fun x => (x.1, .fin x.2)) = .ok s₁)
    (e₂ : cusumD f.float (.fin h₂) (X.map fun x => (x.1, .fin x.2)) = .ok s₂) : s₂.length ≤ s₁.length := by
  rw [C146_numbers f hp h₁ h0 f₁ X hX] at e₁
  rw [C146_numbers f hp h₂ (h0.trans h12) f₂ X hX] at e₂
  exact C107_threshold f.p hp h₁ h₂ h0 h12 f₁.isFloat f₂.isFloat X s₁ s₂ e₁ e₂

/-- C146: prices with the opposite sign give the same selection. -/
theorem C146_mirror (f : Fmt) (hp : 1 ≤ f.p) (h : ℚ) (hh : 0 ≤ h) (hF : f.Has h) (X : List (ℤ × ℚ)) (hX : ∀ x ∈ X, f.Has x.2) :
    cusumD f.float (.fin h) (X.map fun x => (x.1, .fin (-x.2))) = cusumD f.float (.fin h) (X.map fun x => (x.1, .fin x.2)) := by
  have hn : ∀ q, f.Has q → f.Has (-q) := by
    rintro q ⟨⟨m, e, h1, h2, h3⟩, h4⟩
    exact ⟨⟨-m, e, by rwa [abs_neg], h2, by rw [h3]; push_cast; ring⟩, by rwa [abs_neg]⟩
  have h1 := C146_numbers f hp h hh hF (X.map fun x => (x.1, -x.2)) (by
    intro x hx
    obtain ⟨y, hy, rfl⟩ := List.mem_map.1 hx
    exact hn _ (hX y hy))
  rw [List.map_map] at h1
  rw [C146_numbers f hp h hh hF X hX, ← C107_mirror f.p hp h hh hF.isFloat X, ← h1]
  rfl

/-- C146: another unit of the prices, by a power of two, changes nothing as long as prices and threshold are numbers of the format in
both units. -/
theorem C146_scale (f : Fmt) (hp : 1 ≤ f.p) (h : ℚ) (hh : 0 ≤ h) (hF : f.Has h) (j : ℤ) (hF' : f.Has (h * 2 ^ j)) (X : List (ℤ × ℚ))
    (hX : ∀ x ∈ X, f.Has x.2) (hX' : ∀ x ∈ X, f.Has (x.2 * 2 ^ j)) :
    cusumD f.float (.fin (h * 2 ^ j)) (X.map fun x => (x.1, .fin (x.2 * 2 ^ j))) = cusumD f.float (.fin h) (X.map fun x => (x.1, .fin x.2)) := by
  have h1 := C146_numbers f hp (h * 2 ^ j) (mul_nonneg hh (two_zpow_pos j).le) hF' (X.map fun x => (x.1, x.2 * 2 ^ j)) (by
    intro x hx
    obtain ⟨y, hy, rfl⟩ := List.mem_map.1 hx
    exact hX' y hy)
  rw [List.map_map] at h1
  rw [C146_numbers f hp h hh hF X hX, ← C107_scale f.p hp h hh hF.isFloat j X, ← h1]
  rfl

/-- C146: an infinite threshold, or a missing one, selects nothing, in every arithmetic. -/
theorem C146_no_threshold {K : Type*} [Field K] [LinearOrder K] (g : K → XF K) (h : XF K) (hh : h = .pinf ∨ h = .nan) (X : List (ℤ × XF K)) :
    cusumD g h X = if (X.map (·.1)).Nodup then .ok [] else .error .valueError := by
  have hl : ∀ (l : List (ℤ × XF K)) s, cusumLoopD g h s l = [] := by
    intro l
    induction l with
    | nil => intro s; rfl
    | cons a l ih =>
      intro s
      obtain ⟨i, d⟩ := a
      have h1 : ∀ x : XF K, XF.lt x (XF.neg h) = false := by
        intro x
        rcases hh with rfl | rfl <;> cases x <;> rfl
      have h2 : ∀ x : XF K, XF.lt h x = false := by
        intro x
        rcases hh with rfl | rfl <;> cases x <;> rfl
      unfold cusumLoopD cusumStepD
      simp only [h1, h2, Bool.false_eq_true, if_false, ih]
  unfold cusumD
  rw [hl]

/-- `float64` has the integers below 2^53. -/
theorem has_int (m : ℤ) (h : |m| < 2 ^ 53) : binary64.Has (m : ℚ) := by
  refine ⟨⟨m, 0, h, by decide, by simp⟩, ?_⟩
  have h1 : |(m : ℚ)| < 2 ^ 53 := by exact_mod_cast h
  refine h1.trans_le ?_
  show (2 : ℚ) ^ 53 ≤ 2 ^ (1024 : ℤ)
  rw [← zpow_natCast]
  exact zpow_le_zpow_right₀ (by norm_num) (by norm_num)

/-- The hypotheses are met by prices whose difference overflows: the largest number and its negative, threshold 1. -/
example : cusumD binary64.float (.fin 1) [(0, .fin 0), (1, .fin ((2 ^ 53 - 1) * 2 ^ 971)), (2, .fin (-((2 ^ 53 - 1) * 2 ^ 971))), (3, .nan), (4, .fin 1)] = .ok [1, 2] := by
  decide +kernel

example : binary64.float ((2 ^ 53 - 1) * 2 ^ 971 - -((2 ^ 53 - 1) * 2 ^ 971)) = .pinf := by decide +kernel

/-- And by the smallest numbers: prices of one and three units of the smallest number, threshold one unit. -/
example : cusumD binary64.float (.fin (1 / 2 ^ 1074)) [(0, .fin (1 / 2 ^ 1074)), (1, .fin (3 / 2 ^ 1074))] = .ok [1] := by decide +kernel

example : cusumD binary64.float (.fin 1) ([(10, 5), (11, 4), (12, 6), (13, 6), (14, 4)].map fun x : ℤ × ℚ => (x.1, .fin x.2)) =
    cusum (roundBits 53) 1 [(10, 5), (11, 4), (12, 6), (13, 6), (14, 4)] :=
  C146_numbers binary64 (by decide) 1 (by norm_num) (by simpa using has_int 1 (by norm_num)) _ (by
    intro x hx
    simp only [List.mem_cons, List.not_mem_nil, or_false] at hx
    rcases hx with rfl | rfl | rfl | rfl | rfl
    · simpa using has_int 5 (by norm_num)
    · simpa using has_int 4 (by norm_num)
    · simpa using has_int 6 (by norm_num)
    · simpa using has_int 6 (by norm_num)
    · simpa using has_int 4 (by norm_num))

end Mizar.Props
