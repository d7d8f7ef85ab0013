import Verif.Model.BetSizing
import Verif.Spec.BetSizing
import Mathlib.Data.List.GetD

/-! Lemmas about the bet size. -/

set_option linter.unusedSectionVars false

namespace Mizar.Bet
open Mizar.Spec

section
variable {K : Type*} [Field K] [LinearOrder K] [IsStrictOrderedRing K] [FloorRing K]

/-- Rounding to three decimals. -/
def round3 (x : K) : K := (roundHalfEven (x * 1000) : K) / 1000

/-- Restriction to `[-1, 1]`. -/
def clip (x : K) : K := max (-1) (min 1 x)

/-- Discretised value. -/
def disc (step s : K) : K := clip (round3 ((roundHalfEven (s / step) : K) * step))

theorem discretise1_fin {step : K} (hs : 0 < step) (s : K) : discretise1 step (.fin s) = .fin (disc step s) := by
  unfold discretise1 disc
  have h : xround3 (XF.mul (xround (XF.div (.fin s) (.fin step))) (.fin step)) =
      .fin (round3 ((roundHalfEven (s / step) : K) * step)) := by
    rw [XF.div_fin _ _ hs.ne']
    simp only [xround, XF.mul_fin, xround3]
    rw [XF.div_fin _ _ (by norm_num)]
    rfl
  rw [h]
  generalize round3 ((roundHalfEven (s / step) : K) * step) = x
  simp only [XF.lt_fin, decide_eq_true_eq, clip]
  by_cases h1 : 1 < x
  · simp only [h1, if_true, XF.lt_fin, decide_eq_true_eq]
    rw [min_eq_left h1.le, if_neg (by linarith), max_eq_right (by linarith)]
  · simp only [h1, if_false, XF.lt_fin, decide_eq_true_eq]
    rw [min_eq_right (by linarith)]
    split
    · rw [max_eq_left (by linarith)]
    · rw [max_eq_right (by linarith)]

theorem clip_mono {x y : K} (h : x ≤ y) : clip x ≤ clip y := max_le_max le_rfl (min_le_min le_rfl h)

theorem clip_neg (x : K) : clip (-x) = -clip x := by
  unfold clip
  rcases le_total x (-1) with h | h
  · rw [min_eq_left (by linarith : 1 ≤ -x), max_eq_right (by linarith), min_eq_right (by linarith : x ≤ 1),
      max_eq_left h]; ring
  · rcases le_total x 1 with h2 | h2
    · rw [min_eq_right (by linarith : -x ≤ 1), max_eq_right (by linarith), min_eq_right h2, max_eq_right h]
    · rw [min_eq_right (by linarith : -x ≤ 1), max_eq_left (by linarith), min_eq_left h2, max_eq_right (by linarith)]

theorem clip_range (x : K) : -1 ≤ clip x ∧ clip x ≤ 1 :=
  ⟨le_max_left _ _, max_le (by linarith [zero_le_one (α := K)]) (min_le_left _ _)⟩

theorem clip_eq {x : K} (h1 : -1 ≤ x) (h2 : x ≤ 1) : clip x = x := by
  unfold clip; rw [min_eq_right h2, max_eq_right h1]

theorem round3_mono {x y : K} (h : x ≤ y) : round3 x ≤ round3 y := by
  unfold round3
  have : roundHalfEven (x * 1000) ≤ roundHalfEven (y * 1000) := roundHalfEven_mono (by linarith)
  have : (roundHalfEven (x * 1000) : K) ≤ (roundHalfEven (y * 1000) : K) := by exact_mod_cast this
  linarith

theorem round3_neg (x : K) : round3 (-x) = -round3 x := by
  unfold round3
  rw [neg_mul, roundHalfEven_neg]
  push_cast
  ring

theorem round3_close (x : K) : |round3 x - x| ≤ 1 / 2000 := by
  unfold round3
  have := abs_roundHalfEven_sub_le (x * 1000)
  rw [abs_le] at this ⊢
  constructor <;> linarith [this.1, this.2]

theorem disc_mono {step : K} (hs : 0 < step) {x y : K} (h : x ≤ y) : disc step x ≤ disc step y := by
  unfold disc
  have h1 : roundHalfEven (x / step) ≤ roundHalfEven (y / step) :=
    roundHalfEven_mono (div_le_div_of_nonneg_right h hs.le)
  have h2 : (roundHalfEven (x / step) : K) ≤ (roundHalfEven (y / step) : K) := by exact_mod_cast h1
  exact clip_mono (round3_mono (mul_le_mul_of_nonneg_right h2 hs.le))

theorem disc_neg (step x : K) : disc step (-x) = -disc step x := by
  unfold disc
  rw [neg_div, roundHalfEven_neg]
  push_cast
  rw [neg_mul, round3_neg, clip_neg]

theorem disc_zero (step : K) : disc step 0 = 0 := by
  have := disc_neg step 0
  rw [neg_zero] at this
  linarith

theorem disc_range (step x : K) : -1 ≤ disc step x ∧ disc step x ≤ 1 := clip_range _

theorem abs_disc {step : K} (hs : 0 < step) (x : K) : |disc step x| = disc step |x| := by
  rcases le_total 0 x with h | h
  · rw [abs_of_nonneg h, abs_of_nonneg]
    rw [← disc_zero step]; exact disc_mono hs h
  · rw [abs_of_nonpos h, disc_neg, abs_of_nonpos]
    rw [← disc_zero step]; exact disc_mono hs h

theorem clip_close {x s : K} (h1 : -1 ≤ s) (h2 : s ≤ 1) : |clip x - s| ≤ |x - s| := by
  unfold clip
  rcases le_total x (-1) with h | h
  · rw [min_eq_right (by linarith : x ≤ 1), max_eq_left h, abs_of_nonpos (by linarith), abs_of_nonpos (by linarith)]
    linarith
  · rcases le_total x 1 with h3 | h3
    · rw [min_eq_right h3, max_eq_right h]
    · rw [min_eq_left h3, max_eq_right (by linarith), abs_of_nonneg (by linarith), abs_of_nonneg (by linarith)]
      linarith

theorem disc_close {step : K} (hs : 0 < step) {s : K} (h1 : -1 ≤ s) (h2 : s ≤ 1) :
    |disc step s - s| ≤ step / 2 + 1 / 2000 := by
  unfold disc
  refine le_trans (clip_close h1 h2) ?_
  have a := abs_roundHalfEven_sub_le (s / step)
  have b := round3_close ((roundHalfEven (s / step) : K) * step)
  have c : |(roundHalfEven (s / step) : K) * step - s| ≤ step / 2 := by
    have e : (roundHalfEven (s / step) : K) * step - s = ((roundHalfEven (s / step) : K) - s / step) * step := by
      field_simp
    rw [e, abs_mul, abs_of_pos hs]
    nlinarith
  rw [abs_le] at b c ⊢
  constructor <;> linarith [b.1, b.2, c.1, c.2]

theorem roundHalfEven_eq_of_close {x : K} {k : ℤ} (h : |x - k| < 1 / 2) : roundHalfEven x = k := by
  have a := abs_roundHalfEven_sub_le x
  have h1 : |(roundHalfEven x : K) - k| < 1 := by
    have := abs_add_le ((roundHalfEven x : K) - x) (x - k)
    have e : (roundHalfEven x : K) - x + (x - k) = (roundHalfEven x : K) - k := by ring
    rw [e] at this
    linarith
  have h2 : |((roundHalfEven x - k : ℤ) : K)| < 1 := by push_cast; exact h1
  have h3 : |roundHalfEven x - k| < 1 := by
    rw [← Int.cast_abs] at h2; exact_mod_cast h2
  have := Int.abs_lt_one_iff.1 h3
  omega

theorem rhe_le_of_le {x : K} {k : ℤ} (h : x ≤ k) : roundHalfEven x ≤ k := by
  have := roundHalfEven_mono h
  rwa [roundHalfEven_intCast] at this

theorem disc_idem {step : K} (hs : 1 / 1000 < step) {s : K} (h1 : -1 ≤ s) (h2 : s ≤ 1) :
    disc step (disc step s) = disc step s := by
  have hs0 : 0 < step := lt_trans (by norm_num) hs
  -- it suffices to treat non-negative values
  have main : ∀ s : K, 0 ≤ s → s ≤ 1 → disc step (disc step s) = disc step s := by
    intro s h1 h2
    set k := roundHalfEven (s / step) with hk
    have hk0 : 0 ≤ k := by
      have := roundHalfEven_mono (show (((0 : ℤ) : K)) ≤ s / step by simpa using div_nonneg h1 hs0.le)
      rwa [roundHalfEven_intCast] at this
    have hr0 : 0 ≤ round3 ((k : K) * step) := by
      have h0 : round3 (0 : K) = 0 := by
        have := round3_neg (0 : K)
        rw [neg_zero] at this; linarith
      rw [← h0]
      exact round3_mono (mul_nonneg (by exact_mod_cast hk0) hs0.le)
    have hd : disc step s = clip (round3 ((k : K) * step)) := rfl
    rcases le_or_gt (round3 ((k : K) * step)) 1 with hc | hc
    · have hd' : disc step s = round3 ((k : K) * step) := by rw [hd, clip_eq (by linarith) hc]
      rw [hd']
      have hr : roundHalfEven (round3 ((k : K) * step) / step) = k := by
        apply roundHalfEven_eq_of_close
        have b := round3_close ((k : K) * step)
        have e : round3 ((k : K) * step) / step - k = (round3 ((k : K) * step) - (k : K) * step) / step := by
          field_simp
        rw [e, abs_div, abs_of_pos hs0, div_lt_iff₀ hs0]
        linarith
      show clip (round3 ((roundHalfEven (round3 ((k : K) * step) / step) : K) * step)) = _
      rw [hr, clip_eq (by linarith) hc]
    · have hd' : disc step s = 1 := by
        rw [hd]; unfold clip
        rw [min_eq_left hc.le, max_eq_right (by linarith)]
      rw [hd']
      have hks : 1 ≤ (k : K) * step := by
        by_contra hlt
        have := round3_mono (le_of_lt (not_le.1 hlt))
        have e1 : round3 (1 : K) = 1 := by
          unfold round3
          have : ((1 : K) * 1000) = ((1000 : ℤ) : K) := by push_cast; ring
          rw [this, roundHalfEven_intCast]; push_cast; norm_num
        rw [e1] at this
        linarith
      have hr : roundHalfEven (1 / step) = k := by
        apply le_antisymm
        · apply rhe_le_of_le
          rw [div_le_iff₀ hs0]; exact hks
        · exact roundHalfEven_mono (div_le_div_of_nonneg_right h2 hs0.le)
      show clip (round3 ((roundHalfEven (1 / step) : K) * step)) = 1
      rw [hr, ← hd, hd']
  rcases le_total 0 s with h | h
  · exact main s h h2
  · have := main (-s) (by linarith) (by linarith)
    rw [disc_neg, disc_neg] at this
    linarith

end

/-! ### the signal of one row -/

theorem signal1_fin {k : ℕ} (hk : 1 ≤ k) {y p : ℝ} (h0 : 0 ≤ p) (h1 : p ≤ 1) (hne : ¬ (k = 1 ∧ p = 1)) :
    signal1 k (.fin y) (.fin p) = .fin (y * confidence k p) := by
  have hk0 : (0 : ℝ) < k := by exact_mod_cast hk
  unfold signal1 zStat confidence
  simp only [XF.sub_fin, XF.mul_fin]
  rw [XF.sqrt_fin (mul_nonneg h0 (by linarith))]
  by_cases hp0 : p = 0
  · subst hp0
    have : ¬ (0 : ℝ) < 0 - 1 / k := by have := one_div_pos.2 hk0; linarith
    have h3 : (0 : ℝ) - 1 / k < 0 := by have := one_div_pos.2 hk0; linarith
    simp only [zero_mul, Real.sqrt_zero, XF.div, if_true, XF.infSign, this, if_false, h3, normCdf,
      XF.mul_fin, XF.sub_fin]
    norm_num
  · by_cases hp1 : p = 1
    · subst hp1
      have hk2 : 2 ≤ k := by
        by_contra h
        exact hne ⟨by omega, rfl⟩
      have : (0 : ℝ) < 1 - 1 / k := by
        rw [sub_pos, div_lt_one hk0]; exact_mod_cast hk2
      simp only [sub_self, mul_zero, Real.sqrt_zero, XF.div, if_true, XF.infSign, this, normCdf,
        XF.mul_fin, XF.sub_fin, one_ne_zero, if_false]
      norm_num
    · have hpos : 0 < p * (1 - p) := mul_pos (lt_of_le_of_ne h0 (Ne.symm hp0)) (by
        rcases lt_or_eq_of_le h1 with h | h
        · linarith
        · exact absurd h hp1)
      rw [XF.div_fin _ _ (Real.sqrt_pos.2 hpos).ne']
      simp only [normCdf, XF.mul_fin, XF.sub_fin, hp0, hp1, if_false]

theorem confidence_range (k : ℕ) (p : ℝ) : -1 ≤ confidence k p ∧ confidence k p ≤ 1 := by
  unfold confidence
  split
  · norm_num
  · split
    · norm_num
    · have h1 := phi_nonneg ((p - 1 / (k : ℝ)) / Real.sqrt (p * (1 - p)))
      have h2 := phi_le_one ((p - 1 / (k : ℝ)) / Real.sqrt (p * (1 - p)))
      constructor <;> linarith

theorem z_eq {a p : ℝ} (h0 : 0 < p) (h1 : p < 1) :
    (p - a) / Real.sqrt (p * (1 - p)) = (1 - a) * Real.sqrt (p / (1 - p)) - a * Real.sqrt ((1 - p) / p) := by
  have h2 : 0 < 1 - p := by linarith
  rw [Real.sqrt_mul h0.le, Real.sqrt_div h0.le, Real.sqrt_div h2.le]
  have e1 := Real.sqrt_pos.2 h0
  have e2 := Real.sqrt_pos.2 h2
  have s1 := Real.mul_self_sqrt h0.le
  have s2 := Real.mul_self_sqrt h2.le
  field_simp
  rw [Real.sq_sqrt h0.le, Real.sq_sqrt h2.le]
  ring

theorem confidence_mono {k : ℕ} (hk : 1 ≤ k) {p q : ℝ} (h0 : 0 ≤ p) (hpq : p ≤ q) (h1 : q ≤ 1) :
    confidence k p ≤ confidence k q := by
  rcases eq_or_lt_of_le h0 with hp | hp
  · have : confidence k p = -1 := by unfold confidence; rw [if_pos hp.symm]
    rw [this]; exact (confidence_range k q).1
  · rcases eq_or_lt_of_le h1 with hq | hq
    · have : confidence k q = 1 := by unfold confidence; rw [hq]; norm_num
      rw [this]; exact (confidence_range k p).2
    · have hk0 : (0 : ℝ) < k := by exact_mod_cast hk
      have ha1 : (1 : ℝ) / k ≤ 1 := by rw [div_le_one hk0]; exact_mod_cast hk
      have ha0 : (0 : ℝ) ≤ 1 / k := by positivity
      unfold confidence
      rw [if_neg hp.ne', if_neg (by linarith), if_neg (by linarith), if_neg hq.ne]
      have : (p - 1 / (k : ℝ)) / Real.sqrt (p * (1 - p)) ≤ (q - 1 / (k : ℝ)) / Real.sqrt (q * (1 - q)) := by
        rw [z_eq hp (by linarith), z_eq (by linarith) hq]
        have m1 : Real.sqrt (p / (1 - p)) ≤ Real.sqrt (q / (1 - q)) :=
          Real.sqrt_le_sqrt (div_le_div₀ (by linarith) hpq (by linarith) (by linarith))
        have m2 : Real.sqrt ((1 - q) / q) ≤ Real.sqrt ((1 - p) / p) :=
          Real.sqrt_le_sqrt (div_le_div₀ (by linarith) (by linarith) hp hpq)
        have := mul_le_mul_of_nonneg_left m1 (by linarith : 0 ≤ 1 - (1 : ℝ) / k)
        have := mul_le_mul_of_nonneg_left m2 ha0
        linarith
      have := phi_mono this
      linarith

theorem confidence_chance {k : ℕ} (hk : 2 ≤ k) : confidence k (1 / (k : ℝ)) = 0 := by
  have hk0 : (0 : ℝ) < k := by exact_mod_cast (by omega : 0 < k)
  unfold confidence
  rw [if_neg (by positivity), if_neg, sub_self, zero_div, phi_zero]
  · norm_num
  · intro h
    rw [div_eq_one_iff_eq hk0.ne'] at h
    have : (k : ℝ) = ((1 : ℕ) : ℝ) := by simpa using h.symm
    have := Nat.cast_injective this
    omega

theorem confidence_nonneg {k : ℕ} (hk : 2 ≤ k) {p : ℝ} (h : 1 / (k : ℝ) ≤ p) (h1 : p ≤ 1) : 0 ≤ confidence k p := by
  rw [← confidence_chance hk]
  exact confidence_mono (by omega) (by positivity) h h1

/-! ### averaging -/
section
variable {K : Type*} [Field K] [LinearOrder K] [IsStrictOrderedRing K]

theorem sum_le_of_forall (l : List K) (h : ∀ x ∈ l, -1 ≤ x ∧ x ≤ 1) : -(l.length : K) ≤ l.sum ∧ l.sum ≤ l.length := by
  induction l with
  | nil => simp
  | cons a l ih =>
    have h1 := h a (by simp)
    have h2 := ih (fun x hx => h x (by simp [hx]))
    simp only [List.length_cons, List.sum_cons]
    push_cast
    constructor <;> linarith

theorem mean_fin (l : List K) (h : l ≠ []) : mean (l.map XF.fin) = .fin (l.sum / l.length) := by
  unfold mean
  rw [XF.sum_fin, List.length_map, XF.div_fin]
  have := List.length_pos_iff.2 h
  exact_mod_cast this.ne'

theorem mean_range (l : List (XF K)) (h0 : l ≠ []) (h : ∀ v ∈ l, ∃ x : K, v = .fin x ∧ -1 ≤ x ∧ x ≤ 1) :
    ∃ x, mean l = .fin x ∧ -1 ≤ x ∧ x ≤ 1 := by
  choose! f hf using h
  have e : l = (l.map f).map XF.fin := by
    rw [List.map_map]
    conv_lhs => rw [← List.map_id l]
    apply List.map_congr_left
    intro v hv
    exact (hf v hv).1
  rw [e, mean_fin _ (by simpa using h0)]
  refine ⟨_, rfl, ?_⟩
  have hs := sum_le_of_forall (l.map f) (by
    intro x hx
    obtain ⟨v, hv, rfl⟩ := List.mem_map.1 hx
    exact (hf v hv).2)
  have hp : (0 : K) < ((l.map f).length : K) := by
    have := List.length_pos_iff.2 h0
    rw [List.length_map]
    exact_mod_cast this
  rw [le_div_iff₀ hp, div_le_iff₀ hp]
  constructor <;> linarith [hs.1, hs.2]

theorem avgActiveAt_range (bets : List (ℤ × ℤ × XF K)) (t : ℤ)
    (h : ∀ b ∈ bets, ∃ x : K, b.2.2 = .fin x ∧ -1 ≤ x ∧ x ≤ 1) :
    ∃ x, avgActiveAt bets t = .fin x ∧ -1 ≤ x ∧ x ≤ 1 := by
  unfold avgActiveAt
  simp only
  split
  · rename_i hp
    apply mean_range
    · intro h0
      rw [List.map_eq_nil_iff] at h0
      rw [h0] at hp
      simp at hp
    · intro v hv
      obtain ⟨b, hb, rfl⟩ := List.mem_map.1 hv
      exact h b (List.mem_of_mem_filter hb)
  · exact ⟨0, rfl, by norm_num, by norm_num⟩

end

/-- All values are numbers in `[-1, 1]`. -/
def Good (l : List (XF ℝ)) : Prop := ∀ v ∈ l, ∃ x : ℝ, v = .fin x ∧ -1 ≤ x ∧ x ≤ 1

theorem good_zipWith_mul {a b : List (XF ℝ)} (ha : Good a) (hb : Good b) : Good (List.zipWith XF.mul a b) := by
  intro v hv
  rw [← List.map_uncurry_zip_eq_zipWith] at hv
  obtain ⟨⟨x, y⟩, hxy, rfl⟩ := List.mem_map.1 hv
  have hm := List.of_mem_zip hxy
  obtain ⟨x', rfl, hx1, hx2⟩ := ha x hm.1
  obtain ⟨y', rfl, hy1, hy2⟩ := hb y hm.2
  refine ⟨x' * y', rfl, ?_⟩
  have : |x' * y'| ≤ 1 := by
    rw [abs_mul]
    exact mul_le_one₀ (abs_le.2 ⟨hx1, hx2⟩) (abs_nonneg _) (abs_le.2 ⟨hy1, hy2⟩)
  exact abs_le.1 this

end Mizar.Bet
