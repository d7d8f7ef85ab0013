import Verif.Lemmas.RoundedLabel

/-!
C101: returns and triple-barrier labels computed in floating point.
-/

namespace Mizar.Props
open Mizar Mizar.Spec

/-- The computed return has the sign of the price move: rounding neither invents nor hides a move. -/
theorem C101_return_sign (p : ℕ) (hp : 1 ≤ p) (x y : ℚ) (hx : 0 < x) (hy : 0 < y) (fx : IsFloat p x) (fy : IsFloat p y) :
    Rd.ret (roundBits p) x y = floatReturn p x y ∧
      (0 < floatReturn p x y ↔ x < y) ∧ (floatReturn p x y < 0 ↔ y < x) ∧ (floatReturn p x y = 0 ↔ x = y) :=
  ⟨rfl, Rd.ret_sign hp hx hy fx fy⟩

/-- A higher price never gives a lower computed return. -/
theorem C101_return_monotone (p : ℕ) (hp : 1 ≤ p) (x y z : ℚ) (hx : 0 < x) (h : y ≤ z) :
    Rd.ret (roundBits p) x y ≤ Rd.ret (roundBits p) x z := by
  unfold Rd.ret
  apply roundBits_mono p hp
  have := roundBits_mono p hp (div_le_div_of_nonneg_right h hx.le)
  linarith

/-- The computed return differs from the exact one by at most two roundings. -/
theorem C101_return_error (p : ℕ) (hp : 1 ≤ p) (x y : ℚ) (hx : 0 < x) (hy : 0 < y) :
    |Rd.ret (roundBits p) x y - (y / x - 1)| ≤ (2 * (y / x) + |y / x - 1|) / 2 ^ p := by
  unfold Rd.ret
  have hq : 0 < y / x := div_pos hy hx
  set q := y / x
  have hP : (1 : ℚ) ≤ 2 ^ p := one_le_pow₀ (by norm_num)
  have hP0 : (0 : ℚ) < 2 ^ p := by positivity
  have h1 := roundBits_error p hp q
  rw [abs_of_pos hq] at h1
  have h2 := roundBits_error p hp (roundBits p q - 1)
  have h3 : |roundBits p q - 1| ≤ q / 2 ^ p + |q - 1| := by
    have : roundBits p q - 1 = (roundBits p q - q) + (q - 1) := by ring
    rw [this]
    exact (abs_add_le _ _).trans (by linarith)
  have h4 : |roundBits p q - 1| / 2 ^ p ≤ (q + |q - 1|) / 2 ^ p := by
    apply div_le_div_of_nonneg_right _ hP0.le
    refine h3.trans ?_
    have : q / 2 ^ p ≤ q := div_le_self hq.le hP
    linarith
  have h5 : roundBits p (roundBits p q - 1) - (q - 1) =
      (roundBits p (roundBits p q - 1) - (roundBits p q - 1)) + (roundBits p q - q) := by ring
  rw [h5]
  refine (abs_add_le _ _).trans ?_
  have h6 : (2 * q + |q - 1|) / 2 ^ p = (q + |q - 1|) / 2 ^ p + q / 2 ^ p := by ring
  rw [h6]
  linarith

/-- One event in floating point: it ends at the first bar beyond a barrier or at its expiration, with the label the exact
price move deserves; a profit or loss barrier is only hit by a price move in that direction. -/
theorem C101_event (p : ℕ) (hp : 1 ≤ p) (bars : List (ℤ × ℚ)) (hs : (bars.map (·.1)).Pairwise (· < ·))
    (hf : ∀ b ∈ bars, 0 < b.2 ∧ IsFloat p b.2) (start exp : ℤ) (x z : ℚ) (hx : (start, x) ∈ bars) (hz : (exp, z) ∈ bars)
    (hse : start < exp) (side ptf slf vol : ℚ) (hside : side = 1 ∨ side = -1) (hv : 0 ≤ vol) (m el : Bool) :
    ∃ t y, (t, y) ∈ bars ∧ start < t ∧ t ≤ exp ∧
      Rd.event (roundBits p) bars m el start exp x side ptf slf vol =
        some (t, if m then side * floatReturn p x y else floatReturn p x y,
          if el = true ∧ t = exp then some 0 else deservedLabel m x y side) ∧
      (t < exp → beyondProfit p x side ptf vol y ∧ 0 < side * (y - x) ∨ beyondLoss p x side slf vol y ∧ side * (y - x) < 0) ∧
      ∀ b ∈ bars, start ≤ b.1 → b.1 < t → ¬ beyondProfit p x side ptf vol b.2 ∧ ¬ beyondLoss p x side slf vol b.2 := by
  have hx0 := hf _ hx
  have eP : ∀ y, ((Rd.profitBarrier (roundBits p) ptf vol).any fun b =>
      decide (b < roundBits p (Rd.ret (roundBits p) x y * side))) = true ↔ beyondProfit p x side ptf vol y := by
    intro y
    rw [Rd.side_ret hp hside]
    unfold Rd.profitBarrier beyondProfit
    by_cases h : 0 < ptf
    · rw [if_pos h]
      simp [h, floatReturn, Rd.ret, mul_comm]
    · rw [if_neg h]
      simp [h]
  have eL : ∀ y, ((Rd.lossBarrier (roundBits p) slf vol).any fun b =>
      decide (roundBits p (Rd.ret (roundBits p) x y * side) < b)) = true ↔ beyondLoss p x side slf vol y := by
    intro y
    rw [Rd.side_ret hp hside]
    unfold Rd.lossBarrier beyondLoss
    by_cases h : 0 < slf
    · rw [if_pos h]
      simp [h, floatReturn, Rd.ret, mul_comm, roundBits_neg]
    · rw [if_neg h]
      simp [h]
  have signP : ∀ b ∈ bars, beyondProfit p x side ptf vol b.2 → 0 < side * (b.2 - x) := by
    intro b hb ⟨h1, h2⟩
    have h3 := roundBits_nonneg p hp (mul_nonneg h1.le hv)
    obtain ⟨g1, g2, g3⟩ := Rd.ret_sign hp hx0.1 (hf b hb).1 hx0.2 (hf b hb).2
    have e : Rd.ret (roundBits p) x b.2 = floatReturn p x b.2 := rfl
    rw [e] at g1 g2
    rcases hside with rfl | rfl
    · have := g1.1 (by linarith)
      linarith
    · have := g2.1 (by linarith)
      linarith
  have signL : ∀ b ∈ bars, beyondLoss p x side slf vol b.2 → side * (b.2 - x) < 0 := by
    intro b hb ⟨h1, h2⟩
    have h3 := roundBits_nonneg p hp (mul_nonneg h1.le hv)
    obtain ⟨g1, g2, g3⟩ := Rd.ret_sign hp hx0.1 (hf b hb).1 hx0.2 (hf b hb).2
    have e : Rd.ret (roundBits p) x b.2 = floatReturn p x b.2 := rfl
    rw [e] at g1 g2
    rcases hside with rfl | rfl
    · have := g2.1 (by linarith)
      linarith
    · have := g1.1 (by linarith)
      linarith
  have notStart : ∀ y, (start, y) ∈ bars → ¬ beyondProfit p x side ptf vol y ∧ ¬ beyondLoss p x side slf vol y := by
    intro y hy
    have := Rd.bar_unique hs hx hy
    subst this
    constructor
    · intro h
      have := signP _ hx h
      simp at this
    · intro h
      have := signL _ hx h
      simp at this
  unfold Rd.event
  generalize hH : Rd.hits (roundBits p) bars start exp x side ptf slf vol = H
  obtain ⟨H1, H2⟩ := H
  unfold Rd.hits at hH
  rw [Prod.mk.injEq] at hH
  obtain ⟨hP, hL⟩ := hH
  have finish : ∀ t y, (t, y) ∈ bars → Rd.eventEnd exp (H1, H2) = t → ((H1.isSome || H2.isSome) = true ↔ t ≠ exp) →
      (Option.map (fun b : ℤ × ℚ => (Rd.eventEnd exp (H1, H2),
        Rd.labelOf (roundBits p) m el (H1.isSome || H2.isSome) x b.2 side))
        (bars.find? fun b => b.1 == Rd.eventEnd exp (H1, H2))) =
      some (t, if m then side * floatReturn p x y else floatReturn p x y,
          if el = true ∧ t = exp then some 0 else deservedLabel m x y side) := by
    intro t y hty ht hh
    rw [ht, Rd.find_bar hs hty, Option.map_some, Rd.labelOf_deserved p hp m el _ x y side hx0.1 (hf _ hty).1 hx0.2 (hf _ hty).2 hside]
    congr 3
    by_cases hte : t = exp
    · have hf0 : (H1.isSome || H2.isSome) = false := by
        cases hq : (H1.isSome || H2.isSome)
        · rfl
        · exact absurd hte (hh.1 hq)
      rw [hf0]
      cases el <;> simp [hte]
    · rw [hh.2 hte]
      simp [hte]
  have beforeP : ∀ T, (∀ s, H1 = some s → T ≤ s) → T ≤ exp → ∀ b ∈ bars, start ≤ b.1 → b.1 < T →
      ¬ beyondProfit p x side ptf vol b.2 := by
    intro T hT hTe b hb h1 h2 hbp
    cases h : H1 with
    | none =>
      have := Rd.firstHit_none (hP.trans h) b hb h1 (by omega)
      rw [(eP b.2).2 hbp] at this
      cases this
    | some s =>
      have h3 := (Rd.firstHit_some (hP.trans h)).2 b hb h1 (by omega) ((eP b.2).2 hbp)
      have := hT s h
      omega
  have beforeL : ∀ T, (∀ s, H2 = some s → T ≤ s) → T ≤ exp → ∀ b ∈ bars, start ≤ b.1 → b.1 < T →
      ¬ beyondLoss p x side slf vol b.2 := by
    intro T hT hTe b hb h1 h2 hbp
    cases h : H2 with
    | none =>
      have := Rd.firstHit_none (hL.trans h) b hb h1 (by omega)
      rw [(eL b.2).2 hbp] at this
      cases this
    | some s =>
      have h3 := (Rd.firstHit_some (hL.trans h)).2 b hb h1 (by omega) ((eL b.2).2 hbp)
      have := hT s h
      omega
  have hitP : ∀ s, H1 = some s → ∃ y, (s, y) ∈ bars ∧ start < s ∧ s < exp ∧ beyondProfit p x side ptf vol y ∧ 0 < side * (y - x) := by
    intro s h
    obtain ⟨y, h1, h2, h3, h4⟩ := (Rd.firstHit_some (hP.trans h)).1
    have h5 := (eP y).1 h4
    refine ⟨y, h1, lt_of_le_of_ne h2 ?_, h3, h5, signP _ h1 h5⟩
    rintro rfl
    exact (notStart y h1).1 h5
  have hitL : ∀ s, H2 = some s → ∃ y, (s, y) ∈ bars ∧ start < s ∧ s < exp ∧ beyondLoss p x side slf vol y ∧ side * (y - x) < 0 := by
    intro s h
    obtain ⟨y, h1, h2, h3, h4⟩ := (Rd.firstHit_some (hL.trans h)).1
    have h5 := (eL y).1 h4
    refine ⟨y, h1, lt_of_le_of_ne h2 ?_, h3, h5, signL _ h1 h5⟩
    rintro rfl
    exact (notStart y h1).2 h5
  suffices h : ∃ t y, (t, y) ∈ bars ∧ start < t ∧ t ≤ exp ∧ Rd.eventEnd exp (H1, H2) = t ∧
      ((H1.isSome || H2.isSome) = true ↔ t ≠ exp) ∧
      (t < exp → beyondProfit p x side ptf vol y ∧ 0 < side * (y - x) ∨ beyondLoss p x side slf vol y ∧ side * (y - x) < 0) ∧
      (∀ s, H1 = some s → t ≤ s) ∧ (∀ s, H2 = some s → t ≤ s) by
    obtain ⟨t, y, h1, h2, h3, h4, h5, h6, h7, h8⟩ := h
    exact ⟨t, y, h1, h2, h3, finish t y h1 h4 h5, h6, fun b hb h9 h10 =>
        ⟨beforeP t h7 h3 b hb h9 h10, beforeL t h8 h3 b hb h9 h10⟩⟩
  unfold Rd.eventEnd
  rcases h1 : H1 with _ | a <;> rcases h2 : H2 with _ | b
  · exact ⟨exp, z, hz, hse, le_rfl, by simp, by simp, fun h => absurd h (lt_irrefl _), by simp, by simp⟩
  · obtain ⟨y, g1, g2, g3, g4, g5⟩ := hitL b h2
    refine ⟨b, y, g1, g2, g3.le, ?_, ?_, fun _ => .inr ⟨g4, g5⟩, by simp, by simp⟩
    · simp only [Option.getD_none, Option.getD_some]
      omega
    · simp
      omega
  · obtain ⟨y, g1, g2, g3, g4, g5⟩ := hitP a h1
    refine ⟨a, y, g1, g2, g3.le, ?_, ?_, fun _ => .inl ⟨g4, g5⟩, by simp, by simp⟩
    · simp only [Option.getD_none, Option.getD_some]
      omega
    · simp
      omega
  · obtain ⟨y, g1, g2, g3, g4, g5⟩ := hitP a h1
    obtain ⟨y', k1, k2, k3, k4, k5⟩ := hitL b h2
    rcases le_total a b with hab | hab
    · refine ⟨a, y, g1, g2, g3.le, ?_, ?_, fun _ => .inl ⟨g4, g5⟩, by simp, by simpa using hab⟩
      · simp only [Option.getD_some]
        omega
      · simp
        omega
    · refine ⟨b, y', k1, k2, k3.le, ?_, ?_, fun _ => .inr ⟨k4, k5⟩, by simpa using hab, by simp⟩
      · simp only [Option.getD_some]
        omega
      · simp
        omega

/-- Without rounding, the hits and the label are those of the exact model (`Lab`). -/
theorem C101_exact (bars : List (ℤ × ℚ)) (start exp : ℤ) (x side ptf slf vol y : ℚ) (hx : x ≠ 0) (m : Bool) :
    Lab.getHorizontalBarriersHit (bars.map fun b => (b.1, XF.fin b.2))
        [⟨exp, start, .fin x, .fin side, if 0 < slf then XF.mul (.fin (-slf)) (.fin vol) else .nan,
          if 0 < ptf then XF.mul (.fin ptf) (.fin vol) else .nan⟩] =
      [((Rd.hits id bars start exp x side ptf slf vol).1.getD 0, (Rd.hits id bars start exp x side ptf slf vol).2.getD 0)] ∧
    XF.sub (XF.div (.fin y) (.fin x)) (.fin 1) = .fin (Rd.ret id x y) ∧
    Lab.labelOf m (.fin (Rd.labelOf id m false true x y side).1) =
      ((Rd.labelOf id m false true x y side).2.elim .nan .fin) := by
  refine ⟨?_, ?_, ?_⟩
  · unfold Lab.getHorizontalBarriersHit Rd.hits
    simp only [List.map_cons, List.map_nil]
    congr 2
    · apply Rd.firstHit_exact _ _ _ _ _ hx
      intro q
      by_cases h : 0 < ptf <;> simp [h, Rd.profitBarrier, XF.mul, XF.lt]
    · apply Rd.firstHit_exact _ _ _ _ _ hx
      intro q
      by_cases h : 0 < slf <;> simp [h, Rd.lossBarrier, XF.mul, XF.lt]
  · simp [XF.div, XF.sub, XF.add, XF.neg, hx, Rd.ret, sub_eq_add_neg]
  · unfold Lab.labelOf Rd.labelOf
    cases m
    · simp [XF.lt, XF.sign]
    · by_cases h1 : 0 < Rd.ret id x y * side
      · simp [XF.lt, h1]
      · by_cases h2 : Rd.ret id x y * side < 0 <;> simp [XF.lt, h1, h2]

/-- Prices one unit in the last place apart around 7000 (exactly representable in doubles). -/
def ulpBars : List (ℤ × ℚ) :=
  [(1, 7000), (2, 7000 - 1 / 2 ^ 40), (3, 7000), (4, 7000 + 1 / 2 ^ 40), (5, 6999)]

example : ∀ b ∈ ulpBars, 0 < b.2 ∧ IsFloat 53 b.2 := by
  intro b hb
  simp only [ulpBars, List.mem_cons, List.not_mem_nil, or_false] at hb
  rcases hb with rfl | rfl | rfl | rfl | rfl
  · exact ⟨by norm_num, 7000, 0, by norm_num, by norm_num⟩
  · exact ⟨by norm_num, 7000 * 2 ^ 40 - 1, -40, by norm_num, by norm_num⟩
  · exact ⟨by norm_num, 7000, 0, by norm_num, by norm_num⟩
  · exact ⟨by norm_num, 7000 * 2 ^ 40 + 1, -40, by norm_num, by norm_num⟩
  · exact ⟨by norm_num, 6999, 0, by norm_num, by norm_num⟩

/-- With zero volatility the move by one unit in the last place is beyond the barrier, and the labels follow it. -/
example :
    Rd.event (roundBits 53) ulpBars false false 1 5 7000 1 1 1 0 = some (2, -(1 / 2 ^ 53), some (-1)) ∧
    Rd.event (roundBits 53) ulpBars false false 3 5 7000 1 1 1 0 = some (4, 1 / 2 ^ 52, some 1) ∧
    (Rd.event (roundBits 53) ulpBars true true 1 5 7000 (-1) 1 1 (1 / 2 ^ 10)).map (fun e => (e.1, e.2.2)) =
      some (5, some 0) := by
  decide +kernel

end Mizar.Props
