import Verif.Lemmas.RoundedHighLow
import Verif.Props.RoundedCross
import Mathlib.Analysis.SpecialFunctions.Log.Basic

/-! Helper lemmas for C137: rounded series near a real one. -/

namespace Mizar.Rd
open Mizar.Spec

theorem window_forall₂ {α β : Type*} {R : α → β → Prop} (w i : ℕ) (A : List α) (B : List β) (hl : A.length = B.length)
    (h : ∀ j (h1 : j < A.length) (h2 : j < B.length), i + 1 - w ≤ j → j ≤ i → R A[j] B[j]) :
    List.Forall₂ R (winAt w i A) (winAt w i B) := by
  rw [List.forall₂_iff_get]
  refine ⟨by simp only [winAt, List.length_drop, List.length_take, hl], fun n h1 h2 => ?_⟩
  simp only [winAt, List.length_drop, List.length_take] at h1
  simp only [winAt, List.get_eq_getElem, List.getElem_drop, List.getElem_take]
  exact h _ _ _ (by omega) (by omega)

/-- An entry of a rounded series and one of a real series. -/
def Like (η : ℝ) (a : XF ℚ) (b : XF ℝ) : Prop := a.undef = b.undef ∧ |(a.toK : ℝ) - b.toK| ≤ η

theorem like_sum {η : ℝ} {A : List (XF ℚ)} {B : List (XF ℝ)} (h : List.Forall₂ (Like η) A B) :
    A.any XF.undef = B.any XF.undef ∧ |(((A.map XF.toK).sum : ℚ) : ℝ) - (B.map XF.toK).sum| ≤ A.length * η := by
  induction h with
  | nil => simp
  | @cons a b A B hab _ ih =>
    refine ⟨by rw [List.any_cons, List.any_cons, hab.1, ih.1], ?_⟩
    simp only [List.map_cons, List.sum_cons, List.length_cons]
    rw [Rat.cast_add, Nat.cast_add, Nat.cast_one]
    have := abs_add_le ((a.toK : ℝ) - b.toK) (((A.map XF.toK).sum : ℚ) - (B.map XF.toK).sum)
    have e : (a.toK : ℝ) + ((A.map XF.toK).sum : ℚ) - (b.toK + (B.map XF.toK).sum) =
        ((a.toK : ℝ) - b.toK) + (((A.map XF.toK).sum : ℚ) - (B.map XF.toK).sum) := by ring
    rw [e]
    linarith [ih.2, hab.2]

/-- Only the first entries matter. -/
theorem rollState_take (r : ℚ → ℚ) {w : ℕ} (l : List (XF ℚ)) (m n : ℕ) (h : n ≤ m) :
    rollState r w (l.take m) n = rollState r w l n := by
  have e : ∀ j < m, (l.take m).getD j .nan = l.getD j .nan := by
    intro j hj
    rw [List.getD_eq_getElem?_getD, List.getD_eq_getElem?_getD, List.getElem?_take_of_lt hj]
  induction n with
  | zero => rfl
  | succ n ih =>
    rw [rollState, rollState, ih (by omega), rollStep, rollStep, e n (by omega)]
    by_cases hw : w ≤ n
    · rw [if_pos hw, if_pos hw, e (n - w) (by omega)]
    · rw [if_neg hw, if_neg hw]

theorem winAt_take {α : Type*} (w i : ℕ) (l : List α) : winAt w i (l.take (i + 1)) = winAt w i l := by
  simp [winAt, List.take_take]

theorem rollMean_take (r : ℚ → ℚ) (w : ℕ) (l : List (XF ℚ)) (i : ℕ) (hi : i < l.length) :
    (rollMean r w (l.take (i + 1))).getD i .nan = (rollMean r w l).getD i .nan := by
  rw [rollMean, rollMean, List.getD_eq_getElem _ _ (by simp; omega), List.getD_eq_getElem _ _ (by simpa using hi), List.getElem_map,
    List.getElem_map, List.getElem_range, List.getElem_range, rollState_take _ _ _ _ le_rfl]

theorem rollSum_take (r : ℚ → ℚ) (w : ℕ) (l : List (XF ℚ)) (i : ℕ) (hi : i < l.length) :
    (rollSum r w (l.take (i + 1))).getD i .nan = (rollSum r w l).getD i .nan := by
  rw [rollSum, rollSum, List.getD_eq_getElem _ _ (by simp; omega), List.getD_eq_getElem _ _ (by simpa using hi), List.getElem_map,
    List.getElem_map, List.getElem_range, List.getElem_range, rollState_take _ _ _ _ le_rfl]

theorem rolling_getD {K : Type} [Field K] [LinearOrder K] (w : ℕ) (f : List K → XF K) (l : List (XF K)) (i : ℕ) (hi : i < l.length) :
    (rolling w f l).getD i .nan =
      if w ≤ i + 1 ∧ (winAt w i l).any XF.undef = false then f ((winAt w i l).map XF.toK) else .nan := by
  rw [rolling, List.getD_eq_getElem _ _ (by simpa using hi), List.getElem_map, List.getElem_range, rollAt_at]

theorem rolling_take {K : Type} [Field K] [LinearOrder K] (w : ℕ) (f : List K → XF K) (l : List (XF K)) (i : ℕ) (hi : i < l.length) :
    (rolling w f (l.take (i + 1))).getD i .nan = (rolling w f l).getD i .nan := by
  rw [rolling_getD w f _ i (by simp; omega), rolling_getD w f _ i hi, winAt_take]

theorem mem_take_le {l : List (XF ℚ)} {i : ℕ} {x : XF ℚ} (h : x ∈ l.take (i + 1)) : ∃ j ≤ i, j < l.length ∧ l.getD j .nan = x := by
  obtain ⟨j, hj, rfl⟩ := List.mem_iff_getElem.1 h
  rw [List.length_take] at hj
  exact ⟨j, by omega, by omega, by rw [List.getD_eq_getElem _ _ (by omega), List.getElem_take]⟩

/-- Rounded rolling sums of a series near a real one. -/
theorem sum_near {p : ℕ} (hp : 8 ≤ p) {w : ℕ} (hw : 1 ≤ w) {A : List (XF ℚ)} {B : List (XF ℝ)} (hl : A.length = B.length) {i : ℕ}
    (hi : i < A.length) {η : ℝ} {M : ℚ} (h : ∀ j ≤ i, Like η (A.getD j .nan) (B.getD j .nan)) (hM : ∀ j ≤ i, |(A.getD j .nan).toK| ≤ M)
    (hn : 24 * (i + 1) ≤ 2 ^ p) :
    NearR (24 * (i + 1) * w * M / 2 ^ p + w * η) ((rollSum (roundBits p) w A).getD i .nan) ((rolling w winSum B).getD i .nan) := by
  have hM0 : 0 ≤ M := (abs_nonneg _).trans (hM 0 (Nat.zero_le _))
  have hd := Props.C131_drift p hp w hw (A.take (i + 1)) M hM0
    (fun x hx => by obtain ⟨j, h1, -, rfl⟩ := mem_take_le hx; exact hM j h1) i (by simp; omega) hn
  rw [rollSum_take _ _ _ _ hi, rolling_take _ _ _ _ hi, rolling_getD _ _ A i hi] at hd
  rw [rolling_getD _ _ B i (by omega)]
  have hf : List.Forall₂ (Like η) (winAt w i A) (winAt w i B) := by
    apply window_forall₂ w i A B hl
    intro j h1 h2 _ h4
    have := h j h4
    rwa [List.getD_eq_getElem _ _ h1, List.getD_eq_getElem _ _ h2] at this
  obtain ⟨e1, e2⟩ := like_sum hf
  rw [← e1]
  by_cases hc : w ≤ i + 1 ∧ (winAt w i A).any XF.undef = false
  · rw [if_pos hc] at hd ⊢
    rw [winAt_length w i A hc.1 hi] at e2
    obtain ⟨-, h2⟩ | ⟨a, b, ha, hb, hab⟩ := hd
    · simp [winSum] at h2
    · cases hb
      refine .inr ⟨a, _, ha, rfl, ?_⟩
      have h3 : |(a : ℝ) - ((((winAt w i A).map XF.toK).sum : ℚ) : ℝ)| ≤ 24 * (i + 1) * w * M / 2 ^ p := by exact_mod_cast hab
      exact (abs_sub_le _ _ _).trans (add_le_add h3 e2)
  · rw [if_neg hc] at hd ⊢
    obtain ⟨h1, -⟩ | ⟨a, b, ha, hb, hab⟩ := hd
    · exact .inl ⟨h1, rfl⟩
    · cases hb

/-- Rounded rolling means of a series near a real one. -/
theorem mean_near {p : ℕ} (hp : 8 ≤ p) {w : ℕ} (hw : 1 ≤ w) {A : List (XF ℚ)} {B : List (XF ℝ)} (hl : A.length = B.length) {i : ℕ}
    (hi : i < A.length) {η : ℝ} {M : ℚ} (h : ∀ j ≤ i, Like η (A.getD j .nan) (B.getD j .nan)) (hM : ∀ j ≤ i, |(A.getD j .nan).toK| ≤ M)
    (hn : 24 * (i + 1) ≤ 2 ^ p) :
    NearR (26 * (i + 1) * M / 2 ^ p + η) ((rollMean (roundBits p) w A).getD i .nan) ((rolling w winMean B).getD i .nan) := by
  have hM0 : 0 ≤ M := (abs_nonneg _).trans (hM 0 (Nat.zero_le _))
  have hd := Props.C132_drift p hp w hw (A.take (i + 1)) M hM0
    (fun x hx => by obtain ⟨j, h1, -, rfl⟩ := mem_take_le hx; exact hM j h1) i (by simp; omega) hn
  rw [rollMean_take _ _ _ _ hi, rolling_take _ _ _ _ hi, rolling_getD _ _ A i hi] at hd
  rw [rolling_getD _ _ B i (by omega)]
  have hf : List.Forall₂ (Like η) (winAt w i A) (winAt w i B) := by
    apply window_forall₂ w i A B hl
    intro j h1 h2 _ h4
    have := h j h4
    rwa [List.getD_eq_getElem _ _ h1, List.getD_eq_getElem _ _ h2] at this
  obtain ⟨e1, e2⟩ := like_sum hf
  rw [← e1]
  by_cases hc : w ≤ i + 1 ∧ (winAt w i A).any XF.undef = false
  · rw [if_pos hc] at hd ⊢
    have hlA := winAt_length w i A hc.1 hi
    have hlB := winAt_length w i B hc.1 (by omega)
    rw [hlA] at e2
    have hw0 : (0 : ℝ) < w := by exact_mod_cast hw
    simp only [winMean, List.length_map, hlA, hlB, if_neg (show ¬ w = 0 by omega)] at hd ⊢
    obtain ⟨-, h2⟩ | ⟨a, b, ha, hb, hab⟩ := hd
    · simp at h2
    · cases hb
      refine .inr ⟨a, _, ha, rfl, ?_⟩
      have h3 : |(a : ℝ) - ((((winAt w i A).map XF.toK).sum : ℚ) : ℝ) / w| ≤ 26 * (i + 1) * M / 2 ^ p := by exact_mod_cast hab
      refine (abs_sub_le _ _ _).trans (add_le_add h3 ?_)
      rw [← sub_div, abs_div, abs_of_pos hw0, div_le_iff₀ hw0, mul_comm]
      exact e2
  · rw [if_neg hc] at hd ⊢
    obtain ⟨h1, -⟩ | ⟨a, b, ha, hb, hab⟩ := hd
    · exact .inl ⟨h1, rfl⟩
    · cases hb

theorem eps_real {p : ℕ} (hp : 8 ≤ p) : (0 : ℝ) < 1 / 2 ^ p ∧ (1 : ℝ) / 2 ^ p ≤ 1 / 256 := by
  refine ⟨by positivity, ?_⟩
  have : (2 : ℝ) ^ 8 ≤ 2 ^ p := pow_le_pow_right₀ (by norm_num) hp
  apply one_div_le_one_div_of_le (by norm_num)
  linarith [show (2 : ℝ) ^ 8 = 256 by norm_num]

theorem round_real {p : ℕ} (hp : 1 ≤ p) (x : ℚ) : |((roundBits p x : ℚ) : ℝ) - x| ≤ 1 / 2 ^ p * |(x : ℝ)| := by
  have h := roundBits_error p hp x
  have h' : |((roundBits p x : ℚ) : ℝ) - x| ≤ |(x : ℝ)| / 2 ^ p := by exact_mod_cast h
  rw [one_div, mul_comm, ← div_eq_mul_inv]
  exact h'

/-- The logarithm of a rounded quotient. -/
theorem log_round {p : ℕ} (hp : 8 ≤ p) {x : ℚ} (hx : 0 < x) :
    |Real.log ((roundBits p x : ℚ) : ℝ) - Real.log x| ≤ 1 / 2 ^ p * (256 / 255) := by
  obtain ⟨he0, he⟩ := eps_real hp
  have hr := round_real (show 1 ≤ p by omega) x
  have hx' : (0 : ℝ) < x := by exact_mod_cast hx
  have hpos : (0 : ℝ) < (roundBits p x : ℚ) := by exact_mod_cast roundBits_pos p (by omega) hx
  generalize (1 : ℝ) / 2 ^ p = e at *
  rw [abs_of_pos hx'] at hr
  obtain ⟨h1, h2⟩ := abs_le.1 hr
  rw [← Real.log_div hpos.ne' hx'.ne']
  have hq : 0 < ((roundBits p x : ℚ) : ℝ) / x := div_pos hpos hx'
  have hu := Real.log_le_sub_one_of_pos hq
  have hl := Real.one_sub_inv_le_log_of_pos hq
  have hub : ((roundBits p x : ℚ) : ℝ) / x ≤ 1 + e := by
    rw [div_le_iff₀ hx']; linarith
  have hlb : (1 - 1 / 256 : ℝ) ≤ ((roundBits p x : ℚ) : ℝ) / x := by
    rw [le_div_iff₀ hx']
    have := mul_le_mul_of_nonneg_right he hx'.le
    linarith
  have hlb' : 1 - e ≤ ((roundBits p x : ℚ) : ℝ) / x := by
    rw [le_div_iff₀ hx']; linarith
  have hinv : (((roundBits p x : ℚ) : ℝ) / x)⁻¹ ≤ 1 + e * (256 / 255) := by
    rw [inv_eq_one_div, div_le_iff₀ hq]
    have h3 : (1 + e * (256 / 255)) * (1 - e) ≤ (1 + e * (256 / 255)) * (((roundBits p x : ℚ) : ℝ) / x) :=
      mul_le_mul_of_nonneg_left hlb' (by positivity)
    have h4 : 0 ≤ e * (1 / 255 - 256 / 255 * e) := mul_nonneg he0.le (by linarith)
    linarith
  exact abs_le.2 ⟨by linarith, by linarith⟩

/-- The error of a squared logarithm. -/
theorem square_near {e t u q T : ℝ} (he0 : 0 < e) (he : e ≤ 1 / 256) (hT : |t| ≤ T) (hu : |u - t| ≤ e * (51 / 50 + 2 * |t|))
    (hq : |q - u * u| ≤ e * (u * u)) : |q - t * t| ≤ 6 * (1 + T) ^ 2 * e ∧ |q| ≤ 103 / 100 * (1 + T) ^ 2 := by
  have hT0 : 0 ≤ T := (abs_nonneg t).trans hT
  obtain ⟨z, hz⟩ : ∃ z, z = 1 + T := ⟨_, rfl⟩
  have hz1 : 1 ≤ z := by linarith
  have hTz : T = z - 1 := by linarith
  have hz2 : z ≤ z * z := by
    have := mul_le_mul_of_nonneg_right hz1 (show 0 ≤ z by linarith)
    linarith
  have hD : |u - t| ≤ e * (2 * z) := hu.trans (mul_le_mul_of_nonneg_left (by linarith) he0.le)
  have hD' : |u - t| ≤ z / 128 := by
    have := mul_le_mul_of_nonneg_right he (show 0 ≤ 2 * z by linarith)
    linarith
  have hU : |u| ≤ 129 / 128 * z := by
    have := abs_sub_abs_le_abs_sub u t
    linarith
  have hS : |u + t| ≤ 257 / 128 * z := by
    have := abs_add_le u t
    linarith
  have h1 : |u * u - t * t| ≤ e * (2 * z) * (257 / 128 * z) := by
    rw [show u * u - t * t = (u - t) * (u + t) by ring, abs_mul]
    exact mul_le_mul hD hS (abs_nonneg _) (by positivity)
  have h2 : u * u ≤ 129 / 128 * z * (129 / 128 * z) := by
    rw [← abs_mul_abs_self u]
    exact mul_le_mul hU hU (abs_nonneg _) (by positivity)
  have h3 := mul_le_mul_of_nonneg_left h2 he0.le
  have h4 := abs_sub_le q (u * u) (t * t)
  have hez : 0 ≤ e * (z * z) := by positivity
  rw [← hz, show z ^ 2 = z * z by ring]
  have h5 : |q - t * t| ≤ 6 * (z * z) * e := by linarith
  refine ⟨h5, ?_⟩
  have h6 : t * t ≤ T * T := by
    rw [← abs_mul_abs_self t]
    exact mul_le_mul hT hT (abs_nonneg _) hT0
  have h7 : T * T ≤ z * z := by rw [hTz]; nlinarith
  have h8 : |q| ≤ |t * t| + |q - t * t| := by
    have := abs_sub_abs_le_abs_sub q (t * t)
    linarith
  rw [abs_of_nonneg (mul_self_nonneg t)] at h8
  have h9 := mul_le_mul_of_nonneg_right he (show 0 ≤ 6 * (z * z) by positivity)
  linarith

/-- Bound of the logarithm of a bar. -/
def Within (T : ℝ) (x y : XF ℚ) : Prop := ∀ a b, x = .fin a → y = .fin b → 0 < a / b → |Real.log ((a : ℝ) / b)| ≤ T

theorem toReal_undef (x : XF ℚ) : (toReal x).undef = x.undef := by cases x <;> rfl

theorem usable_real (x y : XF ℚ) :
    (rangeR id Real.log (toReal x) (toReal y)).undef = false ↔ Usable x y := by
  constructor
  · intro h
    cases x with
    | fin a =>
      cases y with
      | fin b =>
        refine ⟨a, b, rfl, rfl, ?_⟩
        by_contra hc
        by_cases hb : b = 0
        · subst hb
          have : rangeR id Real.log (toReal (.fin a)) (toReal (.fin 0)) ∈ [XF.nan, XF.pinf] := by
            rw [toReal, toReal, rangeR, XF.div, if_pos (by simp), XF.infSign]
            split_ifs <;> simp [rnd, logR, squareR, XF.mul]
          simp only [List.mem_cons, List.not_mem_nil, or_false] at this
          rcases this with e | e <;> rw [e] at h <;> simp [XF.undef, XF.isNan, XF.isInf] at h
        · have hb' : (b : ℝ) ≠ 0 := by exact_mod_cast hb
          rcases lt_or_eq_of_le (not_lt.1 hc) with h1 | h1
          · have h1' : (a : ℝ) / b < 0 := by exact_mod_cast h1
            rw [toReal, toReal, rangeR, XF.div, if_neg hb', rnd, logR, id, if_pos h1'] at h
            simp [squareR, XF.mul, rnd, XF.undef, XF.isNan] at h
          · have h1' : (a : ℝ) / b = 0 := by exact_mod_cast h1
            rw [toReal, toReal, rangeR, XF.div, if_neg hb', rnd, id, h1', logR, if_neg (lt_irrefl _), if_pos rfl] at h
            simp [squareR, XF.mul, rnd, XF.undef, XF.isNan, XF.isInf] at h
      | nan => simp [toReal, rangeR, XF.div, rnd, logR, squareR, XF.mul, XF.undef, XF.isNan] at h
      | pinf => simp [toReal, rangeR, XF.div, rnd, logR, squareR, XF.mul, XF.undef, XF.isNan, XF.isInf] at h
      | ninf => simp [toReal, rangeR, XF.div, rnd, logR, squareR, XF.mul, XF.undef, XF.isNan, XF.isInf] at h
    | nan => simp [toReal, rangeR, XF.div, rnd, logR, squareR, XF.mul, XF.undef, XF.isNan] at h
    | pinf =>
      cases y with
      | fin b =>
        rw [toReal, toReal, rangeR, XF.div] at h
        split_ifs at h <;> simp [rnd, logR, squareR, XF.mul, XF.undef, XF.isNan, XF.isInf] at h
      | _ => simp [toReal, rangeR, XF.div, rnd, logR, squareR, XF.mul, XF.undef, XF.isNan] at h
    | ninf =>
      cases y with
      | fin b =>
        rw [toReal, toReal, rangeR, XF.div] at h
        split_ifs at h <;> simp [rnd, logR, squareR, XF.mul, XF.undef, XF.isNan, XF.isInf] at h
      | _ => simp [toReal, rangeR, XF.div, rnd, logR, squareR, XF.mul, XF.undef, XF.isNan] at h
  · rintro ⟨a, b, rfl, rfl, h⟩
    have hb : (b : ℝ) ≠ 0 := by
      rintro h0
      have : b = 0 := by exact_mod_cast h0
      subst this
      simp at h
    have h' : (0 : ℝ) < a / b := by exact_mod_cast h
    rw [toReal, toReal, rangeR, XF.div, if_neg hb, rnd, id, logR, if_neg (not_lt.2 h'.le), if_neg h'.ne', squareR, XF.mul, rnd]
    exact fin_defined _

theorem range_real {a b : ℚ} (h : 0 < a / b) :
    rangeR id Real.log (toReal (.fin a)) (toReal (.fin b)) = .fin (Real.log ((a : ℝ) / b) * Real.log ((a : ℝ) / b)) := by
  have hb : (b : ℝ) ≠ 0 := by
    rintro h0
    have : b = 0 := by exact_mod_cast h0
    subst this
    simp at h
  have h' : (0 : ℝ) < a / b := by exact_mod_cast h
  rw [toReal, toReal, rangeR, XF.div, if_neg hb, rnd, id, logR, if_neg (not_lt.2 h'.le), if_neg h'.ne', squareR, XF.mul, rnd]
  rfl

theorem undef_toK {K : Type} [Field K] {x : XF K} (h : x.undef = true) : x.toK = 0 := by
  cases x with
  | fin a => rw [fin_defined] at h; simp at h
  | _ => rfl

/-- The squared logarithm of a bar: missing where the exact one is, and close to it. -/
theorem range_near {p : ℕ} (hp : 8 ≤ p) {lg : ℚ → ℚ} (hlg : GoodLog p lg) {x y : XF ℚ} {T : ℝ} (hT0 : 0 ≤ T) (hT : Within T x y) :
    Like (6 * (1 + T) ^ 2 * (1 / 2 ^ p)) (rangeR (roundBits p) lg x y) (rangeR id Real.log (toReal x) (toReal y)) ∧
    |((rangeR (roundBits p) lg x y).toK : ℝ)| ≤ 103 / 100 * (1 + T) ^ 2 := by
  obtain ⟨he0, he⟩ := eps_real hp
  have hp1 : 1 ≤ p := by omega
  have hpos : ∀ x : ℚ, 0 < x → 0 < roundBits p x := fun x hx => roundBits_pos p hp1 hx
  have hu := rangeR_undef (lg := lg) hpos (roundBits_zero p) (fun x hx => roundBits_lt_zero hp1 hx) x y
  by_cases hU : Usable x y
  · have h1 := hu.2 hU
    have h2 := (usable_real x y).2 hU
    obtain ⟨a, b, rfl, rfl, hab⟩ := hU
    have hab' : (0 : ℝ) < (a : ℝ) / b := by exact_mod_cast hab
    have ht := hT a b rfl rfl hab
    have hl1 := log_round hp hab
    have hl2 := hlg _ (hpos _ hab)
    have hq := round_real hp1 (lg (roundBits p (a / b)) * lg (roundBits p (a / b)))
    rw [Like, h1, h2, rangeR_usable hpos hab, range_real hab]
    have key := square_near (q := ((roundBits p (lg (roundBits p (a / b)) * lg (roundBits p (a / b))) : ℚ) : ℝ))
      (u := (lg (roundBits p (a / b)) : ℝ)) he0 he ht ?_ ?_
    · exact ⟨⟨rfl, key.1⟩, key.2⟩
    · push_cast at hl1
      rw [mul_div_right_comm, div_eq_mul_one_div 2, mul_assoc] at hl2
      generalize (1 : ℝ) / 2 ^ p = e at *
      generalize Real.log ((roundBits p (a / b) : ℚ) : ℝ) = s at *
      generalize Real.log ((a : ℝ) / b) = t at *
      have h3 : |s| ≤ |t| + e * (256 / 255) := by
        have := abs_sub_abs_le_abs_sub s t
        linarith
      have h4 := mul_le_mul_of_nonneg_left h3 he0.le
      have h5 := mul_le_mul_of_nonneg_left he he0.le
      have h6 := abs_sub_le (lg (roundBits p (a / b)) : ℝ) s t
      linarith
    · push_cast at hq
      rwa [abs_of_nonneg (mul_self_nonneg (lg (roundBits p (a / b)) : ℝ))] at hq
  · have h1 : (rangeR (roundBits p) lg x y).undef = true := by
      by_contra h
      exact hU (hu.1 (by simpa using h))
    have h2 : (rangeR id Real.log (toReal x) (toReal y)).undef = true := by
      by_contra h
      exact hU ((usable_real x y).1 (by simpa using h))
    refine ⟨⟨h1.trans h2.symm, ?_⟩, ?_⟩
    · rw [undef_toK h1, undef_toK h2]
      simp only [Rat.cast_zero, sub_zero, abs_zero]
      positivity
    · rw [undef_toK h1]
      simp only [Rat.cast_zero, abs_zero]
      positivity

theorem zip_real_getD (x y : List (XF ℚ)) (hl : x.length = y.length) (j : ℕ) (hj : j < x.length) :
    (List.zipWith (rangeR id Real.log) (x.map toReal) (y.map toReal)).getD j .nan =
      rangeR id Real.log (toReal (x.getD j .nan)) (toReal (y.getD j .nan)) := by
  rw [zipWith_getD _ _ _ .nan .nan (by simpa using hl) j (by simpa using hj), List.getD_eq_getElem _ _ (by simpa using hj),
    List.getD_eq_getElem _ _ (by simp; omega), List.getElem_map, List.getElem_map, List.getD_eq_getElem _ _ hj,
    List.getD_eq_getElem _ _ (by omega)]

theorem sq_le_z {t T : ℝ} (h : |t| ≤ T) : |t * t| ≤ (1 + T) ^ 2 := by
  have hT0 : 0 ≤ T := (abs_nonneg _).trans h
  rw [abs_mul]
  have := mul_le_mul h h (abs_nonneg _) hT0
  nlinarith

theorem range_bound {T : ℝ} {x y : XF ℚ} (hT : Within T x y) (hT0 : 0 ≤ T) :
    |(rangeR id Real.log (toReal x) (toReal y)).toK| ≤ (1 + T) ^ 2 := by
  by_cases hU : Usable x y
  · obtain ⟨a, b, rfl, rfl, hab⟩ := hU
    rw [range_real hab]
    exact sq_le_z (hT a b rfl rfl hab)
  · have : (rangeR id Real.log (toReal x) (toReal y)).undef = true := by
      by_contra h
      exact hU ((usable_real _ _).1 (by simpa using h))
    rw [undef_toK this, abs_zero]
    positivity

theorem den_pos {p : ℕ} (hp : 8 ≤ p) {sq : ℚ → ℚ} (hsq : GoodSqrt p sq) :
    |((denR (roundBits p) sq : ℚ) : ℝ) - (3 - 2 * √2)| ≤ 31 / 10 * (1 / 2 ^ p) ∧ 0 < denR (roundBits p) sq := by
  obtain ⟨he0, he⟩ := eps_real hp
  have h1 := hsq 2 (by norm_num)
  have h2 := round_real (show 1 ≤ p by omega) (3 - 2 * sq 2)
  rw [div_eq_mul_one_div] at h1
  have hs1 : (1.414 : ℝ) ≤ √2 := Real.le_sqrt_of_sq_le (by norm_num)
  have hs2 : √2 ≤ (1.4143 : ℝ) := Real.sqrt_le_iff.2 ⟨by norm_num, by norm_num⟩
  have hpos : 0 < denR (roundBits p) sq := by
    apply roundBits_pos p (by omega)
    have : (sq 2 : ℝ) < 3 / 2 := by
      push_cast at h1
      generalize (1 : ℝ) / 2 ^ p = e at *
      generalize √(2 : ℝ) = s at *
      have h3 := (abs_le.1 h1).2
      have h4 := mul_le_mul_of_nonneg_left he (show 0 ≤ s by linarith)
      linarith
    have h5 : sq 2 < 3 / 2 := by
      have : ((sq 2 : ℚ) : ℝ) < ((3 / 2 : ℚ) : ℝ) := by push_cast; exact this
      exact_mod_cast this
    linarith
  refine ⟨?_, hpos⟩
  rw [denR]
  push_cast at h1 h2
  generalize ((roundBits p (3 - 2 * sq 2) : ℚ) : ℝ) = d at *
  generalize (1 : ℝ) / 2 ^ p = e at *
  generalize √(2 : ℝ) = s at *
  generalize (sq 2 : ℝ) = t at *
  have h3 := mul_le_mul_of_nonneg_right hs2 he0.le
  have h4 : |t - s| ≤ 1.4143 * e := h1.trans h3
  have h5 := mul_le_mul_of_nonneg_left he he0.le
  have h6 : |3 - 2 * t| ≤ 1 / 5 := by
    obtain ⟨h7, h8⟩ := abs_le.1 h4
    exact abs_le.2 ⟨by linarith, by linarith⟩
  have h7 := mul_le_mul_of_nonneg_left h6 he0.le
  have h8 := abs_sub_le d (3 - 2 * t) (3 - 2 * s)
  have h9 : |3 - 2 * t - (3 - 2 * s)| = 2 * |t - s| := by
    rw [show 3 - 2 * t - (3 - 2 * s) = 2 * (s - t) by ring, abs_mul, abs_of_pos (by norm_num : (0 : ℝ) < 2), abs_sub_comm]
  linarith

end Mizar.Rd
