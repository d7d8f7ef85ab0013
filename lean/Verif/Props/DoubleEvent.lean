import Verif.Lemmas.DoubleEvent
import Verif.Props.Rounded

/-!
C147: triple-barrier events in floating point with a bounded exponent (`float64`): underflow and overflow of returns.
-/

namespace Mizar.Props
open Mizar Mizar.Spec

/-- `float64` and `float32` are wide. -/
theorem C147_formats : Rd.Wide binary64 ∧ Rd.Wide binary32 :=
  ⟨⟨by decide, by decide, by decide⟩, ⟨by decide, by decide, by decide⟩⟩

/-- The return is the one of unbounded exponents, shown as infinite if it is too large; it has the sign of the move. -/
theorem C147_return (f : Fmt) (W : Rd.Wide f) (x y : ℚ) (hx : 0 < x) (hy : 0 < y) (fx : f.Has x) (fy : f.Has y) :
    Rd.retD f.float x y = bounded f (floatReturn f.p x y) ∧
      (XF.lt (.fin 0) (Rd.retD f.float x y) = true ↔ x < y) ∧ (XF.lt (Rd.retD f.float x y) (.fin 0) = true ↔ y < x) ∧
      (Rd.retD f.float x y = .fin 0 ↔ x = y) := by
  have h := (Rd.same_ret f W hx hy).eq
  obtain ⟨e, h1, h2, h3⟩ := C101_return_sign f.p W.p x y hx hy fx.isFloat fy.isFloat
  rw [e] at h
  refine ⟨h, ?_, ?_, ?_⟩
  · rw [h, Rd.bounded_pos, decide_eq_true_eq, h1]
  · rw [h, Rd.bounded_neg, decide_eq_true_eq, h2]
  · rw [h, ← h3]
    have hM := two_zpow_pos f.emax
    unfold bounded
    split_ifs with g1 g2
    · simp only [reduceCtorEq, false_iff]; intro h0; linarith
    · simp only [reduceCtorEq, false_iff]; intro h0; linarith
    · rw [XF.fin.injEq]

/-- The event ends when it would end without bounds on the exponent and has the same label, as long as the barriers do not overflow. -/
theorem C147_unbounded (f : Fmt) (W : Rd.Wide f) (bars : List (ℤ × ℚ)) (hb : ∀ b ∈ bars, 0 < b.2) (m el : Bool) (start exp : ℤ)
    (x side ptf slf vol : ℚ) (hx : 0 < x) (hs : side = 1 ∨ side = -1) (hv : 0 ≤ vol)
    (hp : roundBits f.p (ptf * vol) < 2 ^ f.emax) (hl : roundBits f.p (slf * vol) < 2 ^ f.emax) :
    Rd.eventD f.float bars m el start exp x side ptf slf vol =
      (Rd.event (roundBits f.p) bars m el start exp x side ptf slf vol).map fun e => (e.1, bounded f e.2.1, e.2.2) :=
  Rd.eventD_wide f W bars hb m el start exp x side ptf slf vol hx hs hv hp hl

/-- The event in floats: it ends at the first bar beyond a barrier, otherwise at its expiration, with the return and the label that the
prices deserve. -/
theorem C147_event (f : Fmt) (W : Rd.Wide f) (bars : List (ℤ × ℚ)) (hs : (bars.map (·.1)).Pairwise (· < ·))
    (hf : ∀ b ∈ bars, 0 < b.2 ∧ f.Has b.2) (start exp : ℤ) (x z : ℚ) (hx : (start, x) ∈ bars) (hz : (exp, z) ∈ bars)
    (hse : start < exp) (side ptf slf vol : ℚ) (hside : side = 1 ∨ side = -1) (hv : 0 ≤ vol)
    (hp : roundBits f.p (ptf * vol) < 2 ^ f.emax) (hl : roundBits f.p (slf * vol) < 2 ^ f.emax) (m el : Bool) :
    ∃ t y, (t, y) ∈ bars ∧ start < t ∧ t ≤ exp ∧
      Rd.eventD f.float bars m el start exp x side ptf slf vol =
        some (t, bounded f (if m then side * floatReturn f.p x y else floatReturn f.p x y),
          if el = true ∧ t = exp then some 0 else deservedLabel m x y side) ∧
      (t < exp → beyondProfit f.p x side ptf vol y ∧ 0 < side * (y - x) ∨ beyondLoss f.p x side slf vol y ∧ side * (y - x) < 0) ∧
      ∀ b ∈ bars, start ≤ b.1 → b.1 < t → ¬ beyondProfit f.p x side ptf vol b.2 ∧ ¬ beyondLoss f.p x side slf vol b.2 := by
  obtain ⟨t, y, h1, h2, h3, h4, h5⟩ := C101_event f.p W.p bars hs (fun b hb => ⟨(hf b hb).1, (hf b hb).2.isFloat⟩) start exp x z hx hz hse
    side ptf slf vol hside hv m el
  refine ⟨t, y, h1, h2, h3, ?_, h5⟩
  rw [C147_unbounded f W bars (fun b hb => (hf b hb).1) m el start exp x side ptf slf vol (hf _ hx).1 hside hv hp hl, h4]
  rfl

/-- Without rounding this is the exact event. -/
theorem C147_exact (bars : List (ℤ × ℚ)) (m el : Bool) (start exp : ℤ) (x side ptf slf vol : ℚ) (hx : x ≠ 0) :
    Rd.eventD XF.fin bars m el start exp x side ptf slf vol =
      (Rd.event id bars m el start exp x side ptf slf vol).map fun e => (e.1, XF.fin e.2.1, e.2.2) := by
  have e1 : ∀ y, Rd.retD XF.fin x y = .fin (Rd.ret id x y) := by
    intro y
    simp [Rd.retD, Rd.ret, XF.div, hx, XF.rounded, XF.sub, XF.add, XF.neg, sub_eq_add_neg]
  have e2 : ∀ y, Rd.sidedD XF.fin x y side = .fin (id (Rd.ret id x y * side)) := by
    intro y
    simp [Rd.sidedD, e1, XF.mul, XF.rounded]
  apply Rd.eventD_map
  · exact fun b _ => ⟨e1 _, e2 _⟩
  · intro b _
    rw [e2]
    unfold Rd.profitBarrierD Rd.profitBarrier
    split <;> rfl
  · intro b _
    rw [e2]
    unfold Rd.lossBarrierD Rd.lossBarrier
    split <;> rfl
  · exact fun q => rfl
  · exact fun q => rfl

/-- The powers of two of `float64`. -/
theorem has_zpow (k : ℤ) (h1 : -1074 ≤ k) (h2 : k < 1024) : (0 : ℚ) < 2 ^ k ∧ binary64.Has (2 ^ k) :=
  ⟨two_zpow_pos k, ⟨1, k, by decide, h1, by simp⟩, by
    rw [abs_of_pos (two_zpow_pos k)]
    exact zpow_lt_zpow_right₀ (by norm_num) h2⟩

/-- A number whose rounding reaches the bound becomes infinite. -/
private theorem float_beyond (f : Fmt) (W : Rd.Wide f) {q : ℚ} (h : 2 ^ f.emax ≤ roundBits f.p q) : f.float q = .pinf := by
  have hM := two_zpow_pos f.emax
  have hr : f.round q = roundBits f.p q := by
    apply f.round_of_le
    by_contra hn
    push Not at hn
    have h1 := roundBits_small f.p W.p (q := q) ((le_abs_self q).trans hn.le)
    have h2 : (2 : ℚ) ^ (f.emin + ((f.p : ℤ) - 1)) < 2 ^ f.emax :=
      zpow_lt_zpow_right₀ (by norm_num) (by have := W.low; have := W.high; omega)
    linarith
  unfold Fmt.float
  rw [hr, if_pos h]

/-- A barrier that overflows is not passed by any return, an infinite one included: the event is the one without that barrier. -/
theorem C147_overflow (f : Fmt) (W : Rd.Wide f) (bars : List (ℤ × ℚ)) (m el : Bool) (start exp : ℤ) (x side ptf slf vol : ℚ) :
    (2 ^ f.emax ≤ roundBits f.p (ptf * vol) →
      Rd.eventD f.float bars m el start exp x side ptf slf vol = Rd.eventD f.float bars m el start exp x side 0 slf vol) ∧
    (2 ^ f.emax ≤ roundBits f.p (slf * vol) →
      Rd.eventD f.float bars m el start exp x side ptf slf vol = Rd.eventD f.float bars m el start exp x side ptf 0 vol) := by
  have key : ∀ q : XF ℚ, XF.lt .pinf q = false ∧ XF.lt q .ninf = false := by
    intro q
    cases q <;> simp [XF.lt]
  constructor
  · intro h
    have e : (fun q => (Rd.profitBarrierD f.float ptf vol).any fun b => XF.lt b q) =
        fun q => (Rd.profitBarrierD f.float 0 vol).any fun b => XF.lt b q := by
      funext q
      unfold Rd.profitBarrierD
      rw [float_beyond f W h]
      split <;> simp [(key q).1]
    unfold Rd.eventD Rd.hitsD
    rw [e]
  · intro h
    have e : (fun q => (Rd.lossBarrierD f.float slf vol).any fun b => XF.lt q b) =
        fun q => (Rd.lossBarrierD f.float 0 vol).any fun b => XF.lt q b := by
      funext q
      unfold Rd.lossBarrierD
      rw [neg_mul, Rd.floatE_neg, float_beyond f W h]
      split <;> simp [XF.neg, (key q).2]
    unfold Rd.eventD Rd.hitsD
    rw [e]

example : (2 : ℚ) ^ binary64.emax ≤ roundBits binary64.p (4 * 2 ^ (1023 : ℤ)) := by decide +kernel

/-- A barrier that overflows is never passed, even by a return that is also infinite: the event runs to its expiration. -/
theorem C147_barrier_refuted : ∃ (bars : List (ℤ × ℚ)) (x vol : ℚ), (∀ b ∈ bars, 0 < b.2 ∧ binary64.Has b.2) ∧ 0 < x ∧ 0 ≤ vol ∧
    Rd.eventD binary64.float bars false false 0 2 x 1 4 0 vol = some (2, .fin 0, some 0) ∧
    (Rd.event (roundBits 53) bars false false 0 2 x 1 4 0 vol).map (fun e => (e.1, e.2.2)) = some (1, some 1) := by
  refine ⟨[(0, 2 ^ (-1000 : ℤ)), (1, 2 ^ (900 : ℤ)), (2, 2 ^ (-1000 : ℤ))], 2 ^ (-1000 : ℤ), 2 ^ (1023 : ℤ), ?_, by positivity, by positivity,
    by decide +kernel, by decide +kernel⟩
  intro b hb
  simp only [List.mem_cons, List.not_mem_nil, or_false] at hb
  rcases hb with rfl | rfl | rfl
  · exact has_zpow _ (by norm_num) (by norm_num)
  · exact has_zpow _ (by norm_num) (by norm_num)
  · exact has_zpow _ (by norm_num) (by norm_num)

/-- A return that overflows passes a barrier: the price rises from `2^-1000` to `2^900`, and is labelled 1 with an infinite return. -/
example : Rd.eventD binary64.float [(0, 2 ^ (-1000 : ℤ)), (1, 2 ^ (900 : ℤ)), (2, 1)] false true 0 2 (2 ^ (-1000 : ℤ)) 1 2 2 (1 / 50) =
    some (1, .pinf, some 1) := by decide +kernel

/-- The same for a short position with a metalabel: the stop loss is hit with minus infinity. -/
example : Rd.eventD binary64.float [(0, 2 ^ (-1000 : ℤ)), (1, 2 ^ (900 : ℤ)), (2, 1)] true true 0 2 (2 ^ (-1000 : ℤ)) (-1) 2 2 (1 / 50) =
    some (1, .ninf, some 0) := by decide +kernel

/-- A quotient that underflows gives -1; a barrier that underflows is passed by the smallest possible rise. -/
example : Rd.eventD binary64.float [(0, 2 ^ (600 : ℤ)), (1, 2 ^ (-600 : ℤ)), (2, 1)] false true 0 2 (2 ^ (600 : ℤ)) 1 2 2 (1 / 50) =
      some (1, .fin (-1), some (-1)) ∧
    Rd.eventD binary64.float [(0, 1), (1, 1 + 2 ^ (-52 : ℤ)), (2, 1)] false true 0 2 1 1 (2 ^ (-600 : ℤ)) 2 (2 ^ (-600 : ℤ)) =
      some (1, .fin (2 ^ (-52 : ℤ)), some 1) := by decide +kernel

/-- The hypotheses of `C147_event` and `C147_unbounded` hold in the first example. -/
example := C147_event binary64 C147_formats.1 [(0, 2 ^ (-1000 : ℤ)), (1, 2 ^ (900 : ℤ)), (2, 2 ^ (0 : ℤ))] (by decide) (by
    intro b hb
    simp only [List.mem_cons, List.not_mem_nil, or_false] at hb
    rcases hb with rfl | rfl | rfl
    · exact has_zpow _ (by norm_num) (by norm_num)
    · exact has_zpow _ (by norm_num) (by norm_num)
    · exact has_zpow _ (by norm_num) (by norm_num)) 0 2 _ _ (.head _) (.tail _ (.tail _ (.head _))) (by norm_num) 1 2 2 (1 / 50) (.inl rfl)
  (by norm_num) (by decide +kernel) (by decide +kernel) false true

example := C147_return binary64 C147_formats.1 _ _ (has_zpow (-1000) (by norm_num) (by norm_num)).1 (has_zpow 900 (by norm_num) (by norm_num)).1
  (has_zpow (-1000) (by norm_num) (by norm_num)).2 (has_zpow 900 (by norm_num) (by norm_num)).2

end Mizar.Props
