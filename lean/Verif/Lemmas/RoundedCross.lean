import Verif.Lemmas.RoundedRoll
import Verif.Lemmas.Technical

/-!
Lemmas about moving averages and their crossings in floating point.
-/

namespace Mizar.Rd
open Mizar.Spec

theorem zipWith_pdShift {β : Type*} (p : XF ℚ → XF ℚ → β) {F S : List (XF ℚ)} (h : F.length = S.length) :
    List.zipWith p (pdShift F) (pdShift S) = (p .nan .nan :: List.zipWith p F S).take F.length := by
  unfold pdShift
  rw [← List.zipWith_cons_cons, List.take_zipWith, h]

theorem crossLabels_congr {p q : XF ℚ → XF ℚ → Bool} {idx : List ℤ} {F S F' S' : List (XF ℚ)} (h : F.length = S.length)
    (h' : F'.length = S'.length) (hF : F'.length = F.length) (hp : List.zipWith p F' S' = List.zipWith p F S)
    (hq : List.zipWith q F' S' = List.zipWith q F S) : Tech.crossLabels p q idx F' S' = Tech.crossLabels p q idx F S := by
  unfold Tech.crossLabels
  rw [zipWith_pdShift p h, zipWith_pdShift p h', hp, hq, hF]

/-- The comparisons between two pairs have the same results. -/
def SameOrder (x' y' x y : XF ℚ) : Prop :=
  XF.lt x' y' = XF.lt x y ∧ XF.lt y' x' = XF.lt y x ∧ XF.le x' y' = XF.le x y ∧ XF.le y' x' = XF.le y x

theorem sameOrder_fin {a' b' a b : ℚ} (h1 : a' < b' ↔ a < b) (h2 : b' < a' ↔ b < a) :
    SameOrder (.fin a') (.fin b') (.fin a) (.fin b) := by
  have h3 : a' = b' ↔ a = b := by
    constructor <;> intro h
    · apply le_antisymm <;> by_contra hc <;> push Not at hc
      · exact absurd (h2.2 hc) (by rw [h]; exact lt_irrefl _)
      · exact absurd (h1.2 hc) (by rw [h]; exact lt_irrefl _)
    · apply le_antisymm <;> by_contra hc <;> push Not at hc
      · exact absurd (h2.1 hc) (by rw [h]; exact lt_irrefl _)
      · exact absurd (h1.1 hc) (by rw [h]; exact lt_irrefl _)
  have h4 : b' = a' ↔ b = a := by rw [eq_comm, h3, eq_comm]
  simp only [SameOrder, XF.lt_fin, XF.le, XF.beq_fin, h1, h2, h3, h4, and_self]

theorem sameOrder_nan_left (y' y : XF ℚ) : SameOrder .nan y' .nan y := by
  refine ⟨?_, ?_, ?_, ?_⟩ <;> cases y' <;> cases y <;> rfl

theorem sameOrder_nan_right (x' x : XF ℚ) : SameOrder x' .nan x .nan := by
  refine ⟨?_, ?_, ?_, ?_⟩ <;> cases x' <;> cases x <;> rfl

/-- Averages in the same order give the same signals. -/
theorem crossOver_congr {F S F' S' : List (XF ℚ)} (h : F.length = S.length) (h' : F'.length = S'.length)
    (hF : F'.length = F.length)
    (ho : ∀ i < F.length, SameOrder (F'.getD i .nan) (S'.getD i .nan) (F.getD i .nan) (S.getD i .nan)) (idx : List ℤ) :
    Tech.upCross idx F' S' = Tech.upCross idx F S ∧ Tech.downCross idx F' S' = Tech.downCross idx F S := by
  have key : ∀ q : XF ℚ → XF ℚ → Bool,
      (∀ i < F.length, q (F'.getD i .nan) (S'.getD i .nan) = q (F.getD i .nan) (S.getD i .nan)) →
      List.zipWith q F' S' = List.zipWith q F S := by
    intro q hq
    apply List.ext_getElem (by simp only [List.length_zipWith]; omega)
    intro i h1 h2
    simp only [List.length_zipWith] at h1 h2
    have := hq i (by omega)
    rw [List.getD_eq_getElem _ _ (by omega), List.getD_eq_getElem _ _ (by omega), List.getD_eq_getElem _ _ (by omega),
      List.getD_eq_getElem _ _ (by omega)] at this
    rw [List.getElem_zipWith, List.getElem_zipWith, this]
  exact ⟨crossLabels_congr h h' hF (key _ fun i hi => (ho i hi).2.2.1) (key _ fun i hi => (ho i hi).2.1),
    crossLabels_congr h h' hF (key _ fun i hi => (ho i hi).2.2.2) (key _ fun i hi => (ho i hi).1)⟩

theorem rollMean_length (r : ℚ → ℚ) (w : ℕ) (l : List (XF ℚ)) : (rollMean r w l).length = l.length := by simp [rollMean]

theorem rolling_length (w : ℕ) (f : List ℚ → XF ℚ) (l : List (XF ℚ)) : (rolling w f l).length = l.length := by
  simp [rolling]

/-- The signals from the two averages. -/
def signals (fill : Bool) (idx : List ℤ) (F S : List (XF ℚ)) : List (XF ℚ) :=
  (pdFfill (idx.map fun t => if t ∈ Tech.upCross idx F S then .fin 1 else if t ∈ Tech.downCross idx F S then .fin (-1)
    else if fill then .nan else .fin 0)).map (fillna1 (.fin 0))

theorem crossOver_eq (r : ℚ → ℚ) (fast slow : ℕ) (fill : Bool) (idx : List ℤ) (c : List (XF ℚ)) :
    Rd.crossOver r fast slow fill idx c = signals fill idx (rollMean r fast c) (rollMean r slow c) := rfl

theorem signals_congr {fill : Bool} {idx : List ℤ} {F S F' S' : List (XF ℚ)} (h : F.length = S.length)
    (h' : F'.length = S'.length) (hF : F'.length = F.length)
    (ho : ∀ i < F.length, SameOrder (F'.getD i .nan) (S'.getD i .nan) (F.getD i .nan) (S.getD i .nan)) :
    signals fill idx F' S' = signals fill idx F S := by
  obtain ⟨h1, h2⟩ := crossOver_congr h h' hF ho idx
  unfold signals
  rw [h1, h2]

/-- Different fractions with small denominators stay apart after rounding. -/
theorem round_fractions {p : ℕ} (hp : 1 ≤ p) {e a b : ℤ} {f s T : ℕ} (hf : 1 ≤ f) (hs : 1 ≤ s) (ha : |a| ≤ f * T)
    (hb : |b| ≤ s * T) (hT : 2 * f * s * T < 2 ^ p) :
    roundBits p (a * 2 ^ e / f) < roundBits p (b * 2 ^ e / s) ↔ (a * 2 ^ e / f : ℚ) < b * 2 ^ e / s := by
  have hf0 : (0 : ℚ) < f := by exact_mod_cast hf
  have hs0 : (0 : ℚ) < s := by exact_mod_cast hs
  have he : (0 : ℚ) < 2 ^ e := two_zpow_pos e
  have hp2 : (0 : ℚ) < 2 ^ p := by positivity
  constructor
  · intro h
    by_contra hc
    push Not at hc
    exact absurd (roundBits_mono p hp hc) (not_le.2 h)
  · intro h
    refine lt_of_le_of_ne (roundBits_mono p hp h.le) fun heq => ?_
    have e1 := roundBits_error p hp (a * 2 ^ e / f)
    have e2 := roundBits_error p hp (b * 2 ^ e / s)
    have hx : |(a * 2 ^ e / f : ℚ)| ≤ T * 2 ^ e := by
      rw [abs_div, abs_mul, abs_of_pos he, abs_of_pos hf0, div_le_iff₀ hf0]
      have : (|a| : ℚ) ≤ f * T := by exact_mod_cast ha
      nlinarith
    have hy : |(b * 2 ^ e / s : ℚ)| ≤ T * 2 ^ e := by
      rw [abs_div, abs_mul, abs_of_pos he, abs_of_pos hs0, div_le_iff₀ hs0]
      have : (|b| : ℚ) ≤ s * T := by exact_mod_cast hb
      nlinarith
    have e1' := e1.trans (div_le_div_of_nonneg_right hx hp2.le)
    have e2' := e2.trans (div_le_div_of_nonneg_right hy hp2.le)
    rw [heq] at e1'
    have hgap : (b * 2 ^ e / s - a * 2 ^ e / f : ℚ) ≤ 2 * (T * 2 ^ e / 2 ^ p) := by
      have h1 := (abs_le.1 e1').2
      have h2 := (abs_le.1 e2').1
      linarith
    have hz : (1 : ℤ) ≤ b * f - a * s := by
      rw [div_lt_div_iff₀ hf0 hs0] at h
      have : (a * s : ℚ) < b * f := by
        have h' : (a * s * 2 ^ e : ℚ) < b * f * 2 ^ e := by linarith
        exact lt_of_mul_lt_mul_right h' he.le
      have : a * s < b * f := by exact_mod_cast this
      omega
    have hz' : (1 : ℚ) ≤ b * f - a * s := by exact_mod_cast hz
    have e3 : (b * 2 ^ e / s - a * 2 ^ e / f : ℚ) = (b * f - a * s) * 2 ^ e / (f * s) := by field_simp
    rw [e3, div_le_iff₀ (mul_pos hf0 hs0)] at hgap
    have h4 : 2 ^ e * (2 ^ p : ℚ) ≤ 2 * (T * 2 ^ e) * (f * s) := by
      have : 2 * (T * 2 ^ e / 2 ^ p) * (f * s) * (2 ^ p : ℚ) = 2 * (T * 2 ^ e) * (f * s) := by field_simp
      rw [← this]
      apply mul_le_mul_of_nonneg_right _ hp2.le
      nlinarith
    have h5 : (2 ^ p : ℚ) ≤ 2 * f * s * T := by
      have : 2 ^ e * (2 ^ p : ℚ) ≤ 2 ^ e * (2 * f * s * T) := by linarith
      exact le_of_mul_le_mul_left this he
    have : (2 ^ p : ℕ) ≤ 2 * f * s * T := by exact_mod_cast h5
    omega

theorem ticks_sum {e : ℤ} {T : ℕ} {m : List (XF ℚ)} (h : Ticks e T m) :
    ∃ a : ℤ, (m.map XF.toK).sum = a * 2 ^ e ∧ |a| ≤ m.length * T := by
  induction m with
  | nil => exact ⟨0, by simp, by simp⟩
  | cons x m ih =>
    obtain ⟨a, h1, h2⟩ := ih fun y hy => h y (by simp [hy])
    obtain ⟨b, h3, h4⟩ := h x (by simp)
    refine ⟨b + a, by rw [List.map_cons, List.sum_cons, h1, h3]; push_cast; ring, ?_⟩
    rw [List.length_cons]
    push_cast
    linarith [abs_add_le b a]

theorem ticks_onGrid {p : ℕ} {e : ℤ} {T w : ℕ} {l : List (XF ℚ)} (h : Ticks e T l) (hw : w * T < 2 ^ p) : OnGrid p e w l := by
  refine ⟨fun x hx => (h x hx).imp fun m hm => hm.1, fun i _ => ?_⟩
  have key : ∀ m : List (XF ℚ), Ticks e T m → (m.map fun x => |x.toK|).sum ≤ m.length * T * 2 ^ e := by
    intro m hm
    induction m with
    | nil => simp
    | cons x m ih =>
      have h1 := ih fun y hy => hm y (by simp [hy])
      obtain ⟨b, h3, h4⟩ := hm x (by simp)
      rw [List.map_cons, List.sum_cons, List.length_cons, h3, abs_mul, abs_of_pos (two_zpow_pos e)]
      have h5 : (|b| : ℚ) ≤ T := by exact_mod_cast h4
      have := mul_le_mul_of_nonneg_right h5 (two_zpow_pos e).le
      push_cast
      linarith
  have h1 := key (winAt w i l) fun x hx => h x (List.mem_of_mem_take (List.mem_of_mem_drop hx))
  refine lt_of_le_of_lt h1 ?_
  apply mul_lt_mul_of_pos_right _ (two_zpow_pos e)
  have : (winAt w i l).length * T ≤ w * T := Nat.mul_le_mul_right _ (winAt_len_le w i l)
  exact_mod_cast lt_of_le_of_lt this hw

/-- Exact means, position by position. -/
theorem rolling_mean_at {w : ℕ} (hw : 1 ≤ w) (l : List (XF ℚ)) (i : ℕ) (hi : i < l.length) :
    (rolling w winMean l).getD i .nan =
      if w ≤ i + 1 ∧ (winAt w i l).any XF.undef = false then .fin (((winAt w i l).map XF.toK).sum / w) else .nan := by
  rw [rolling, List.getD_eq_getElem _ _ (by simpa using hi), List.getElem_map, List.getElem_range, rollAt_at]
  by_cases hc : w ≤ i + 1 ∧ (winAt w i l).any XF.undef = false
  · rw [if_pos hc, if_pos hc, winMean, List.length_map, winAt_length w i l hc.1 hi, if_neg (by omega)]
  · rw [if_neg hc, if_neg hc]

theorem rollMean_getD (r : ℚ → ℚ) {w : ℕ} (hw : 1 ≤ w) (l : List (XF ℚ)) (i : ℕ) (hi : i < l.length) :
    (rollMean r w l).getD i .nan =
      if w ≤ i + 1 ∧ (winAt w i l).any XF.undef = false then
        .fin (fixSign (winAt w i l) (r ((rollState r w l (i + 1)).s / w)))
      else .nan := by
  rw [rollMean, List.getD_eq_getElem _ _ (by simpa using hi), List.getElem_map, List.getElem_range, rollMean_at r hw l i hi]

theorem fixSign_sign (m : List (XF ℚ)) (q : ℚ) :
    ((∀ x ∈ m, 0 ≤ x.toK) → 0 ≤ fixSign m q) ∧ ((∀ x ∈ m, x.toK < 0) → fixSign m q ≤ 0) := by
  constructor <;> intro h <;> unfold fixSign <;> split_ifs with h1 h2
  · rfl
  · rfl
  · by_contra hc
    exact h1 ⟨h, not_le.1 hc⟩
  · rfl
  · rfl
  · by_contra hc
    exact h2 ⟨h, not_le.1 hc⟩

end Mizar.Rd
