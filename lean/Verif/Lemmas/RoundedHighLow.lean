import Verif.Model.RoundedHighLow
import Verif.Spec.RoundedHighLow
import Verif.Lemmas.RoundedMicro
import Verif.Lemmas.RoundedCross

/-! Helper lemmas for C137. -/

namespace Mizar.Rd
open Mizar.Spec

theorem rnd_undef' {K : Type} (r : K → K) (x : XF K) : (rnd r x).undef = x.undef := by cases x <;> rfl

theorem fin_of_defined {K : Type} {x : XF K} (h : x.undef = false) : ∃ a, x = .fin a := by
  cases x with
  | fin a => exact ⟨a, rfl⟩
  | _ => simp [XF.undef, XF.isNan, XF.isInf] at h

theorem fin_defined {K : Type} (a : K) : (XF.fin a).undef = false := by simp [XF.undef, XF.isNan, XF.isInf]

/-- The squared logarithm of a usable bar. -/
theorem rangeR_usable {r lg : ℚ → ℚ} (hr : ∀ x, 0 < x → 0 < r x) {a b : ℚ} (h : 0 < a / b) :
    rangeR r lg (.fin a) (.fin b) = .fin (r (lg (r (a / b)) * lg (r (a / b)))) := by
  have hb : b ≠ 0 := by rintro rfl; simp at h
  have h' := hr _ h
  rw [rangeR, XF.div, if_neg hb, rnd, logR, if_neg (not_lt.2 h'.le), if_neg h'.ne', squareR, XF.mul, rnd]

theorem rangeR_undef {r lg : ℚ → ℚ} (hr : ∀ x, 0 < x → 0 < r x) (h0 : r 0 = 0) (hn : ∀ x, x < 0 → r x < 0) (x y : XF ℚ) :
    (rangeR r lg x y).undef = false ↔ Usable x y := by
  constructor
  · intro h
    cases x with
    | fin a =>
      cases y with
      | fin b =>
        refine ⟨a, b, rfl, rfl, ?_⟩
        by_contra hc
        by_cases hb : b = 0
        · subst hb
          have : rangeR r lg (.fin a) (.fin 0) ∈ [XF.nan, XF.pinf] := by
            rw [rangeR, XF.div, if_pos rfl, XF.infSign]
            split_ifs <;> simp [rnd, logR, squareR, XF.mul]
          simp only [List.mem_cons, List.not_mem_nil, or_false] at this
          rcases this with e | e <;> rw [e] at h <;> simp [XF.undef, XF.isNan, XF.isInf] at h
        · rcases lt_or_eq_of_le (not_lt.1 hc) with h1 | h1
          · rw [rangeR, XF.div, if_neg hb, rnd, logR, if_pos (hn _ h1)] at h
            simp [squareR, XF.mul, rnd, XF.undef, XF.isNan] at h
          · rw [rangeR, XF.div, if_neg hb, rnd, h1, h0, logR, if_neg (lt_irrefl _), if_pos rfl] at h
            simp [squareR, XF.mul, rnd, XF.undef, XF.isNan, XF.isInf] at h
      | nan => simp [rangeR, XF.div, rnd, logR, squareR, XF.mul, XF.undef, XF.isNan] at h
      | pinf => simp [rangeR, XF.div, rnd, logR, squareR, XF.mul, XF.undef, XF.isNan, XF.isInf, h0] at h
      | ninf => simp [rangeR, XF.div, rnd, logR, squareR, XF.mul, XF.undef, XF.isNan, XF.isInf, h0] at h
    | nan => simp [rangeR, XF.div, rnd, logR, squareR, XF.mul, XF.undef, XF.isNan] at h
    | pinf =>
      cases y with
      | fin b =>
        rw [rangeR, XF.div] at h
        split_ifs at h <;> simp [rnd, logR, squareR, XF.mul, XF.undef, XF.isNan, XF.isInf] at h
      | _ => simp [rangeR, XF.div, rnd, logR, squareR, XF.mul, XF.undef, XF.isNan] at h
    | ninf =>
      cases y with
      | fin b =>
        rw [rangeR, XF.div] at h
        split_ifs at h <;> simp [rnd, logR, squareR, XF.mul, XF.undef, XF.isNan, XF.isInf] at h
      | _ => simp [rangeR, XF.div, rnd, logR, squareR, XF.mul, XF.undef, XF.isNan] at h
  · rintro ⟨a, b, rfl, rfl, h⟩
    rw [rangeR_usable hr h]
    exact fin_defined _

/-- No range is negative. -/
theorem rangeR_nonneg {r lg : ℚ → ℚ} (hr : ∀ x, 0 ≤ x → 0 ≤ r x) (x y : XF ℚ) : 0 ≤ (rangeR r lg x y).toK := by
  rw [rangeR, squareR]
  cases logR lg (rnd r (XF.div x y)) with
  | fin t => exact hr _ (mul_self_nonneg t)
  | _ => simp [XF.mul, rnd, XF.toK]

/-- The members of a window. -/
theorem mem_window' {α : Type*} (w i : ℕ) (l : List α) {a : α} (h : a ∈ winAt w i l) :
    ∃ j, ∃ hj : j < l.length, i + 1 - w ≤ j ∧ j ≤ i ∧ l[j] = a := by
  obtain ⟨n, hn, he⟩ := List.mem_iff_getElem.1 h
  simp only [winAt, List.length_drop, List.length_take] at hn
  simp only [winAt, List.getElem_drop, List.getElem_take] at he
  exact ⟨i + 1 - w + n, by omega, by omega, by omega, he⟩

theorem window_mem' {α : Type*} (w i : ℕ) (l : List α) {j : ℕ} (hj : j < l.length) (h1 : i + 1 - w ≤ j) (h2 : j ≤ i) :
    l[j] ∈ winAt w i l := by
  rw [List.mem_iff_getElem]
  refine ⟨j - (i + 1 - w), by simp only [winAt, List.length_drop, List.length_take]; omega, ?_⟩
  simp only [winAt, List.getElem_drop, List.getElem_take]
  congr 1
  omega

/-- A window is complete if all of its members are numbers. -/
theorem window_defined (w i : ℕ) (l : List (XF ℚ)) (hi : i < l.length) :
    (winAt w i l).any XF.undef = false ↔ ∀ j, i + 1 - w ≤ j → j ≤ i → (l.getD j .nan).undef = false := by
  rw [List.any_eq_false]
  constructor
  · intro h j h1 h2
    rw [List.getD_eq_getElem _ _ (by omega)]
    simpa using h _ (window_mem' w i l (by omega) h1 h2)
  · intro h a ha
    obtain ⟨j, hj, h1, h2, rfl⟩ := mem_window' w i l ha
    have := h j h1 h2
    rw [List.getD_eq_getElem _ _ hj] at this
    simp [this]

theorem zipWith_getD {α β : Type*} {K : Type} (f : α → β → XF K) (x : List α) (y : List β) (a : α) (b : β) (hl : x.length = y.length) (j : ℕ)
    (hj : j < x.length) : (List.zipWith f x y).getD j .nan = f (x.getD j a) (y.getD j b) := by
  rw [List.getD_eq_getElem _ _ (by simp; omega), List.getElem_zipWith, List.getD_eq_getElem _ _ hj,
    List.getD_eq_getElem _ _ (by omega)]

theorem rollMean_missing (r : ℚ → ℚ) {w : ℕ} (hw : 1 ≤ w) (l : List (XF ℚ)) (i : ℕ) (hi : i < l.length) :
    (rollMean r w l).getD i .nan = .nan ↔
      ¬ (w ≤ i + 1 ∧ ∀ j, i + 1 - w ≤ j → j ≤ i → (l.getD j .nan).undef = false) := by
  rw [rollMean_getD r hw l i hi, ← window_defined w i l hi]
  split_ifs with h
  · exact ⟨fun h' => by simp at h', fun h' => absurd h h'⟩
  · exact ⟨fun _ => h, fun _ => rfl⟩

theorem rollSum_getD (r : ℚ → ℚ) {w : ℕ} (hw : 1 ≤ w) (l : List (XF ℚ)) (i : ℕ) (hi : i < l.length) :
    (rollSum r w l).getD i .nan =
      if w ≤ i + 1 ∧ (winAt w i l).any XF.undef = false then .fin (rollState r w l (i + 1)).s else .nan := by
  rw [rollSum, List.getD_eq_getElem _ _ (by simpa using hi), List.getElem_map, List.getElem_range, rollSum_at r hw l i hi]

theorem rollSum_defined (r : ℚ → ℚ) {w : ℕ} (hw : 1 ≤ w) (l : List (XF ℚ)) (i : ℕ) (hi : i < l.length) :
    ((rollSum r w l).getD i .nan).undef = false ↔
      (w ≤ i + 1 ∧ ∀ j, i + 1 - w ≤ j → j ≤ i → (l.getD j .nan).undef = false) := by
  rw [rollSum_getD r hw l i hi, ← window_defined w i l hi]
  split_ifs with h
  · exact ⟨fun _ => h, fun _ => fin_defined _⟩
  · exact ⟨fun h' => by simp [XF.undef, XF.isNan] at h', fun h' => absurd h' h⟩

theorem roundBits_two_eq {p : ℕ} (hp : 2 ≤ p) : roundBits p 2 = 2 := by
  have h : (2 : ℕ) < 2 ^ p := lt_of_lt_of_le (by norm_num) (Nat.pow_le_pow_right (by norm_num) hp)
  exact_mod_cast roundBits_natCast p (by omega) 2 h

theorem spread_fin {p : ℕ} (hp : 2 ≤ p) {ex : ℚ → ℚ} {a : ℚ} (he : 1 ≤ ex a) :
    spreadR (roundBits p) ex (.fin a) =
      .fin (roundBits p (2 * roundBits p (ex a - 1) / roundBits p (1 + ex a))) ∧
    2 ≤ roundBits p (1 + ex a) ∧ 0 ≤ roundBits p (ex a - 1) ∧ roundBits p (ex a - 1) ≤ roundBits p (1 + ex a) := by
  have hp1 : 1 ≤ p := by omega
  have h1 : 2 ≤ roundBits p (1 + ex a) := by
    have := roundBits_mono p hp1 (show 2 ≤ 1 + ex a by linarith)
    rwa [roundBits_two_eq hp] at this
  refine ⟨?_, h1, roundBits_nonneg p hp1 (by linarith), roundBits_mono p hp1 (by linarith)⟩
  simp only [spreadR, expR, XF.sub, XF.neg, XF.add, rnd, XF.mul, XF.div, if_neg (show roundBits p (1 + ex a) ≠ 0 by linarith),
    ← sub_eq_add_neg]

theorem two_window {α : Type*} (l : List α) (i : ℕ) (hi : i + 1 < l.length) :
    winAt 2 (i + 1) l = [l[i], l[i + 1]] := by
  apply List.ext_getElem
  · simp only [winAt, List.length_drop, List.length_take, List.length_cons, List.length_nil]
    omega
  · intro n h1 h2
    simp only [winAt, List.getElem_drop, List.getElem_take]
    have : n < 2 := by simpa using h2
    rcases n with _ | _ | n
    · simp
    · simp only [List.getElem_cons_succ, List.getElem_cons_zero]
      congr 1
    · omega

theorem roll_max (H : List ℚ) (i : ℕ) (hi : i + 1 < H.length) :
    (rolling 2 winMax (H.map .fin)).getD (i + 1) .nan = .fin (max H[i] H[i + 1]) := by
  rw [rolling, List.getD_eq_getElem _ _ (by simpa using hi), List.getElem_map, List.getElem_range, rollAt, if_neg (by omega),
    winAt_fin_undef, if_neg (by simp), winAt_fin_toK, two_window H i hi]
  rfl

theorem roll_min (H : List ℚ) (i : ℕ) (hi : i + 1 < H.length) :
    (rolling 2 winMin (H.map .fin)).getD (i + 1) .nan = .fin (min H[i] H[i + 1]) := by
  rw [rolling, List.getD_eq_getElem _ _ (by simpa using hi), List.getElem_map, List.getElem_range, rollAt, if_neg (by omega),
    winAt_fin_undef, if_neg (by simp), winAt_fin_toK, two_window H i hi]
  rfl

theorem rnd_div_fin (r : ℚ → ℚ) {a b : ℚ} (hb : 0 < b) : rnd r (XF.div (.fin a) (.fin b)) = .fin (r (a / b)) := by
  rw [XF.div, if_neg hb.ne', rnd]

theorem clip_fin (a : ℚ) : clipR (XF.fin a) = .fin (max a 0) := by
  rw [clipR]
  by_cases h : a < 0
  · rw [if_pos (by simp [XF.lt, h]), max_eq_right h.le]
  · rw [if_neg (by simp [XF.lt, h]), max_eq_left (not_lt.1 h)]

theorem alpha_val {p : ℕ} (hp : 1 ≤ p) {sq : ℚ → ℚ} (hd : 0 < denR (roundBits p) sq) {b g : ℚ} (hg : 0 ≤ g) :
    alphaR (roundBits p) sq (.fin b) (.fin g) = if b < 0 then .nan else
      .fin (max (roundBits p (roundBits p (roundBits p (roundBits p (sq 2 - 1) * sq b) / denR (roundBits p) sq) -
        sq (roundBits p (g / denR (roundBits p) sq)))) 0) := by
  have h1 : ¬ roundBits p (g / denR (roundBits p) sq) < 0 := not_lt.2 (roundBits_nonneg p hp (div_nonneg hg hd.le))
  by_cases hb : b < 0
  · rw [if_pos hb, alphaR, sqrtR, if_pos hb]
    rfl
  · rw [if_neg hb, alphaR, sqrtR, if_neg hb, rnd_div_fin _ hd, sqrtR, if_neg h1, XF.mul, rnd, rnd_div_fin _ hd, XF.sub_fin, rnd,
      clip_fin]

end Mizar.Rd
