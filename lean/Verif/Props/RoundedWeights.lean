import Verif.Lemmas.RoundedSum
import Verif.Model.SampleWeights

/-!
C102, C103: average uniqueness and time-decay weights computed in floating point.
-/

namespace Mizar.Props
open Mizar Mizar.Spec Mizar.Boot

theorem uniq_terms (p : ℕ) (hp : 1 ≤ p) (M : IndMat) (j : ℕ) (hj : j < M.nCols) (t : ℕ) (ht : t ∈ colRows M j) :
    0 < roundBits p (1 * roundBits p (1 / (rowSum M t : ℚ))) ∧ roundBits p (1 * roundBits p (1 / (rowSum M t : ℚ))) ≤ 1 ∧
      (samplesAt M t = {j} → roundBits p (1 * roundBits p (1 / (rowSum M t : ℚ))) = 1) ∧
      (samplesAt M t ≠ {j} → roundBits p (1 * roundBits p (1 / (rowSum M t : ℚ))) ≤ 1 / 2) := by
  have htb : t ∈ barsOf M j := by rw [← colRows_toFinset]; simpa using ht
  have hc := card_samplesAt_pos hj htb
  rw [one_mul, Rd.roundBits_idem hp, rowSum_eq]
  have hcq : (1 : ℚ) ≤ ((samplesAt M t).card : ℚ) := by exact_mod_cast hc
  refine ⟨roundBits_pos p hp (by positivity), ?_, ?_, ?_⟩
  · have := roundBits_mono p hp (show (1 : ℚ) / ((samplesAt M t).card : ℚ) ≤ 1 by rw [div_le_one (by linarith)]; exact hcq)
    rwa [roundBits_one p hp] at this
  · intro h
    rw [h, Finset.card_singleton]
    simp [roundBits_one p hp]
  · intro h
    have h2 : 2 ≤ (samplesAt M t).card := by
      by_contra hlt
      have h1 : (samplesAt M t).card = 1 := by omega
      obtain ⟨i, hi⟩ := Finset.card_eq_one.1 h1
      have := mem_samplesAt_of_bar hj htb
      rw [hi, Finset.mem_singleton] at this
      subst this
      exact h hi
    have h2q : (2 : ℚ) ≤ ((samplesAt M t).card : ℚ) := by exact_mod_cast h2
    have := roundBits_mono p hp (one_div_le_one_div_of_le (by norm_num) h2q)
    rwa [Rd.roundBits_half hp] at this

/-- C102: the computed average uniqueness of a sample is in `(0, 1]`, and it is 1 exactly if no other sample covers
any of its bars: rounding neither hides an overlap nor invents one. -/
theorem C102_range (p : ℕ) (hp : 1 ≤ p) (M : IndMat) (j : ℕ) (hj : j < M.nCols) (hb : (barsOf M j).Nonempty)
    (hk : 2 * (barsOf M j).card ≤ 2 ^ p) :
    0 < Rd.averageUniqueness (roundBits p) M j ∧ Rd.averageUniqueness (roundBits p) M j ≤ 1 ∧
      (Rd.averageUniqueness (roundBits p) M j = 1 ↔ ∀ t ∈ barsOf M j, samplesAt M t = {j}) := by
  have hterm := uniq_terms p hp M j hj
  unfold Rd.averageUniqueness
  set l := (colRows M j).map fun t => roundBits p (1 * roundBits p (1 / (rowSum M t : ℚ))) with hl
  have hlen : l.length = (barsOf M j).card := by rw [hl, List.length_map, colRows_length]
  have hk0 : 0 < (barsOf M j).card := Finset.card_pos.2 hb
  rw [colRows_length]
  have hkq : (0 : ℚ) < ((barsOf M j).card : ℚ) := by exact_mod_cast hk0
  have hpos : ∀ x ∈ l, 0 < x := by
    intro x hx
    obtain ⟨t, ht, rfl⟩ := List.mem_map.1 hx
    exact (hterm t ht).1
  have hone : ∀ x ∈ l, x ≤ 1 := by
    intro x hx
    obtain ⟨t, ht, rfl⟩ := List.mem_map.1 hx
    exact (hterm t ht).2.1
  have hsp := Rd.sum_pos hp l hpos (by rintro h; rw [h] at hlen; simp at hlen; omega)
  have hsle : Rd.sum (roundBits p) l ≤ ((barsOf M j).card : ℚ) := by
    have := Rd.foldl_le_count hp l hone 0 0 (by simp) (by rw [hlen]; omega)
    rw [hlen] at this
    simpa [Rd.sum] using this
  have hle1 : roundBits p (Rd.sum (roundBits p) l / ((barsOf M j).card : ℚ)) ≤ 1 := by
    have := roundBits_mono p hp (show Rd.sum (roundBits p) l / ((barsOf M j).card : ℚ) ≤ 1 by rwa [div_le_one hkq])
    rwa [roundBits_one p hp] at this
  refine ⟨roundBits_pos p hp (by positivity), hle1, ?_, ?_⟩
  · intro h t ht
    by_contra hne
    have hmem : t ∈ colRows M j := by
      rw [← colRows_toFinset] at ht
      simpa using ht
    have h1 := Rd.sum_le_half hp l hone ⟨_, List.mem_map.2 ⟨t, hmem, rfl⟩, (hterm t hmem).2.2.2 hne⟩ 0 0 (by simp)
      (by rw [hlen]; omega)
    rw [hlen] at h1
    have h2 : Rd.sum (roundBits p) l / ((barsOf M j).card : ℚ) ≤ 1 - 1 / 2 ^ p := by
      rw [div_le_iff₀ hkq, sub_mul, one_mul]
      have h3 : 1 / 2 ^ p * ((barsOf M j).card : ℚ) ≤ 1 / 2 := by
        rw [div_mul_eq_mul_div, one_mul, div_le_iff₀ (by positivity)]
        have : ((2 * (barsOf M j).card : ℕ) : ℚ) ≤ 2 ^ p := by exact_mod_cast hk
        push_cast at this
        linarith
      have h4 : Rd.sum (roundBits p) l ≤ ((barsOf M j).card : ℚ) - 1 / 2 := by simpa [Rd.sum] using h1
      linarith
    have h3 := roundBits_mono p hp h2
    rw [Rd.roundBits_pred hp, h] at h3
    have := Rd.eps_pos (p := p)
    linarith
  · intro h
    have hrep : l = List.replicate (barsOf M j).card 1 := by
      rw [List.eq_replicate_iff]
      refine ⟨hlen, ?_⟩
      intro x hx
      obtain ⟨t, ht, rfl⟩ := List.mem_map.1 hx
      have htb : t ∈ barsOf M j := by rw [← colRows_toFinset]; simpa using ht
      exact (hterm t ht).2.2.1 (h t htb)
    have : Rd.sum (roundBits p) l = ((barsOf M j).card : ℚ) := by
      rw [hrep]
      have := Rd.foldl_ones hp (barsOf M j).card 0 (by omega)
      simpa [Rd.sum] using this
    rw [this, div_self hkq.ne', roundBits_one p hp]

/-- C102: relative error of the computed average uniqueness: one rounding per bar and three more. -/
theorem C102_error (p : ℕ) (hp : 1 ≤ p) (M : IndMat) (j : ℕ) (hj : j < M.nCols) (hb : (barsOf M j).Nonempty) :
    (1 - 1 / 2 ^ p) ^ ((barsOf M j).card + 2) * avgUniq M j ≤ Rd.averageUniqueness (roundBits p) M j ∧
      Rd.averageUniqueness (roundBits p) M j ≤ (1 + 1 / 2 ^ p) ^ ((barsOf M j).card + 2) * avgUniq M j := by
  have he := Rd.eps_le hp
  have he0 := Rd.eps_pos (p := p)
  have hkq : (0 : ℚ) < ((barsOf M j).card : ℚ) := by exact_mod_cast Finset.card_pos.2 hb
  unfold Rd.averageUniqueness avgUniq
  set l := (colRows M j).map fun t => roundBits p (1 * roundBits p (1 / (rowSum M t : ℚ))) with hl
  have hlen : l.length = (barsOf M j).card := by rw [hl, List.length_map, colRows_length]
  have hpos : ∀ x ∈ l, 0 ≤ x := by
    intro x hx
    obtain ⟨t, ht, rfl⟩ := List.mem_map.1 hx
    exact (uniq_terms p hp M j hj t ht).1.le
  obtain ⟨s1, s2⟩ := Rd.sum_bounds hp l hpos
  rw [hlen] at s1 s2
  have hsum : l.sum = ∑ t ∈ barsOf M j, roundBits p (1 / ((samplesAt M t).card : ℚ)) := by
    rw [hl, sum_colRows]
    apply Finset.sum_congr rfl
    intro t _
    rw [one_mul, Rd.roundBits_idem hp, rowSum_eq]
  have t1 : (1 - 1 / 2 ^ p) * ∑ t ∈ barsOf M j, (1 : ℚ) / ((samplesAt M t).card : ℚ) ≤ l.sum := by
    rw [hsum, Finset.mul_sum]
    exact Finset.sum_le_sum fun t _ => Rd.roundBits_ge_one_sub hp (by positivity)
  have t2 : l.sum ≤ (1 + 1 / 2 ^ p) * ∑ t ∈ barsOf M j, (1 : ℚ) / ((samplesAt M t).card : ℚ) := by
    rw [hsum, Finset.mul_sum]
    exact Finset.sum_le_sum fun t _ => Rd.roundBits_le_one_add hp (by positivity)
  rw [colRows_length]
  set S := ∑ t ∈ barsOf M j, (1 : ℚ) / ((samplesAt M t).card : ℚ)
  have hS : 0 ≤ S := Finset.sum_nonneg fun t _ => by positivity
  set k := (barsOf M j).card
  have hlow : (1 - 1 / 2 ^ p : ℚ) ^ (k + 1) * S ≤ Rd.sum (roundBits p) l := by
    refine le_trans ?_ s1
    rw [pow_succ, mul_assoc]
    exact mul_le_mul_of_nonneg_left t1 (pow_nonneg (by linarith) _)
  have hup : Rd.sum (roundBits p) l ≤ (1 + 1 / 2 ^ p : ℚ) ^ (k + 1) * S := by
    refine s2.trans ?_
    rw [pow_succ, mul_assoc]
    exact mul_le_mul_of_nonneg_left t2 (pow_nonneg (by linarith) _)
  have hlow0 : 0 ≤ (1 - 1 / 2 ^ p : ℚ) ^ (k + 1) * S := mul_nonneg (pow_nonneg (by linarith) _) hS
  have hq : 0 ≤ Rd.sum (roundBits p) l / (k : ℚ) := div_nonneg (hlow0.trans hlow) hkq.le
  constructor
  · refine le_trans ?_ (Rd.roundBits_ge_one_sub hp hq)
    have : (1 - 1 / 2 ^ p : ℚ) ^ (k + 2) * (S / k) = (1 - 1 / 2 ^ p) * (((1 - 1 / 2 ^ p) ^ (k + 1) * S) / k) := by ring
    rw [this]
    exact mul_le_mul_of_nonneg_left (div_le_div_of_nonneg_right hlow hkq.le) (by linarith)
  · refine (Rd.roundBits_le_one_add hp hq).trans ?_
    have : (1 + 1 / 2 ^ p : ℚ) ^ (k + 2) * (S / k) = (1 + 1 / 2 ^ p) * (((1 + 1 / 2 ^ p) ^ (k + 1) * S) / k) := by ring
    rw [this]
    exact mul_le_mul_of_nonneg_left (div_le_div_of_nonneg_right hup hkq.le) (by linarith)

theorem sum_fin_id (l : List ℚ) : XF.sum (l.map XF.fin) = .fin (Rd.sum id l) := by
  unfold XF.sum Rd.sum
  generalize (0 : ℚ) = a
  induction l generalizing a with
  | nil => rfl
  | cons x l ih =>
    rw [List.map_cons, List.foldl_cons, List.foldl_cons]
    exact ih (a + x)

/-- C102: without rounding this is the exact model of `calc_average_uniqueness`. -/
theorem C102_exact (M : IndMat) (j : ℕ) (hj : j < M.nCols) (hb : (barsOf M j).Nonempty) :
    (calcAverageUniqueness M)[j]? = some (.fin (Rd.averageUniqueness id M j)) := by
  have hk0 : (colRows M j).length ≠ 0 := by
    rw [colRows_length]; exact (Finset.card_pos.2 hb).ne'
  have hkq : ((colRows M j).length : ℚ) ≠ 0 := by exact_mod_cast hk0
  unfold calcAverageUniqueness Rd.averageUniqueness
  rw [List.getElem?_map, List.getElem?_range hj, Option.map_some]
  have : ((colRows M j).map fun t => XF.mul (.fin 1) (XF.div (.fin 1) (.fin (rowSum M t : ℚ)))) =
      ((colRows M j).map fun t => id (1 * id (1 / (rowSum M t : ℚ)))).map XF.fin := by
    rw [List.map_map]
    apply List.map_congr_left
    intro t ht
    have htb : t ∈ barsOf M j := by rw [← colRows_toFinset]; simpa using ht
    have hc := card_samplesAt_pos hj htb
    rw [← rowSum_eq] at hc
    have hcq : (rowSum M t : ℚ) ≠ 0 := by exact_mod_cast hc.ne'
    simp [XF.div, XF.mul, hcq]
  rw [this, sum_fin_id]
  simp [XF.div, hkq]

/-- Three samples: the first overlaps the second, the third is alone. -/
def threeSamples : IndMat := IndMat.ofLists 3 [[true, false, false], [true, true, false], [true, true, false],
  [false, true, false], [false, false, true]]

example : 2 * (barsOf threeSamples 0).card ≤ 2 ^ 53 ∧ (barsOf threeSamples 0).Nonempty ∧
    Rd.averageUniqueness (roundBits 53) threeSamples 0 = roundBits 53 (2 / 3) ∧
    Rd.averageUniqueness (roundBits 53) threeSamples 2 = 1 := by
  refine ⟨by decide +kernel, by decide +kernel, by decide +kernel, by decide +kernel⟩

/-- The slope of the decay: not negative, positive below `c = 1`, and `slope * last` computes to at most `2^p`. -/
theorem slope_props (p : ℕ) (hp : 3 ≤ p) (c last : ℚ) (hc : -1 + 8 / 2 ^ p ≤ c) (hc1 : c ≤ 1) (hl : 0 < last) (slope : ℚ)
    (hs : slope = if 0 ≤ c then roundBits p (roundBits p (1 - c) / last)
      else roundBits p (1 / roundBits p (roundBits p (c + 1) * last))) :
    0 ≤ slope ∧ (c < 1 → 0 < slope) ∧ roundBits p (slope * last) ≤ 2 ^ p ∧ (0 ≤ c → roundBits p (slope * last) ≤ 1) := by
  have hp1 : 1 ≤ p := by omega
  have he := Rd.eps_le hp1
  have he0 := Rd.eps_pos (p := p)
  have hP1 : (1 : ℚ) ≤ 2 ^ p := one_le_pow₀ (by norm_num)
  by_cases h0 : 0 ≤ c
  · rw [if_pos h0] at hs
    have ha0 : 0 ≤ roundBits p (1 - c) := roundBits_nonneg p hp1 (by linarith)
    have ha1 : roundBits p (1 - c) ≤ 1 := by
      have := roundBits_mono p hp1 (show 1 - c ≤ 1 by linarith)
      rwa [roundBits_one p hp1] at this
    have hs0 : 0 ≤ slope := by rw [hs]; exact roundBits_nonneg p hp1 (div_nonneg ha0 hl.le)
    have hsl : slope * last ≤ 1 + 1 / 2 ^ p := by
      have h1 : slope ≤ (1 + 1 / 2 ^ p) * (roundBits p (1 - c) / last) := by
        rw [hs]; exact Rd.roundBits_le_one_add hp1 (div_nonneg ha0 hl.le)
      have h2 := mul_le_mul_of_nonneg_right h1 hl.le
      have h3 : (1 + 1 / 2 ^ p) * (roundBits p (1 - c) / last) * last = (1 + 1 / 2 ^ p) * roundBits p (1 - c) := by
        field_simp
      rw [h3] at h2
      nlinarith
    have hone : roundBits p (slope * last) ≤ 1 := by
      have := roundBits_mono p hp1 hsl
      rwa [Rd.roundBits_eq_one (q := 1 + 1 / 2 ^ p) (by omega) (by linarith [Rd.eps_pos (p := p + 1)]) le_rfl] at this
    refine ⟨hs0, ?_, hone.trans hP1, fun _ => hone⟩
    intro h
    rw [hs]
    exact roundBits_pos p hp1 (div_pos (roundBits_pos p hp1 (by linarith)) hl)
  · rw [if_neg h0] at hs
    have h8 : (0 : ℚ) < 8 / 2 ^ p := by positivity
    have ha : 8 / 2 ^ p ≤ roundBits p (c + 1) := by
      have hf : IsFloat p (8 / 2 ^ p) := by
        refine ⟨1, 3 - (p : ℤ), by rw [abs_one]; exact one_lt_pow₀ (by norm_num) (by omega), ?_⟩
        rw [zpow_sub₀ (by norm_num), zpow_natCast]
        norm_num
      have := roundBits_mono p hp1 (show 8 / 2 ^ p ≤ c + 1 by linarith)
      rwa [roundBits_eq_self p hp1 hf] at this
    set a := roundBits p (c + 1) with had
    have ha0 : 0 < a := lt_of_lt_of_le h8 ha
    have hal : 0 < a * last := mul_pos ha0 hl
    have hq : a * last / 2 ≤ roundBits p (a * last) := by
      have := Rd.roundBits_ge_one_sub hp1 hal.le
      nlinarith
    have hq0 : 0 < roundBits p (a * last) := roundBits_pos p hp1 hal
    have hs0 : 0 < slope := by rw [hs]; exact roundBits_pos p hp1 (by positivity)
    refine ⟨hs0.le, fun _ => hs0, ?_, fun h => absurd h h0⟩
    have h1 : slope ≤ 2 * (1 / roundBits p (a * last)) := by
      have := Rd.roundBits_le_one_add hp1 (show 0 ≤ 1 / roundBits p (a * last) by positivity)
      rw [← hs] at this
      have h2 : 0 ≤ 1 / roundBits p (a * last) := by positivity
      nlinarith
    have h2 : 1 / roundBits p (a * last) ≤ 2 / (a * last) := by
      rw [div_le_div_iff₀ hq0 hal]
      linarith
    have h3 : slope * last ≤ 4 / a := by
      have h4 : slope ≤ 4 / (a * last) := by
        refine h1.trans ?_
        have : 4 / (a * last) = 2 * (2 / (a * last)) := by ring
        rw [this]
        linarith
      have h5 := mul_le_mul_of_nonneg_right h4 hl.le
      have h6 : 4 / (a * last) * last = 4 / a := by field_simp
      rwa [h6] at h5
    have h7 : 4 / a ≤ 2 ^ p / 2 := by
      rw [div_le_div_iff₀ ha0 (by norm_num)]
      rw [div_le_iff₀ (by positivity)] at ha
      linarith
    have h9 : 0 ≤ slope * last := mul_nonneg hs0.le hl.le
    have := Rd.roundBits_le_one_add hp1 h9
    nlinarith

/-- C103: the decay of one cumulative uniqueness `x` up to the last one, in floating point. -/
theorem decay_props (p : ℕ) (hp : 3 ≤ p) (c last : ℚ) (hc : -1 + 8 / 2 ^ p ≤ c) (hc1 : c ≤ 1) (hl : 0 < last) :
    Rd.decay (roundBits p) c last last = 1 ∧
    (∀ x y, x ≤ y → Rd.decay (roundBits p) c last x ≤ Rd.decay (roundBits p) c last y) ∧
    (∀ x, 0 ≤ Rd.decay (roundBits p) c last x) ∧
    (0 ≤ c → ∀ x, 0 < x → 0 < Rd.decay (roundBits p) c last x) ∧
    (c = 1 → ∀ x, Rd.decay (roundBits p) c last x = 1) := by
  have hp1 : 1 ≤ p := by omega
  obtain ⟨h1, h2, h3, h4⟩ := slope_props p hp c last hc hc1 hl _ rfl
  have hone := Rd.one_sub_add (by omega) (isFloat_roundBits p hp1 _) (roundBits_nonneg p hp1 (mul_nonneg h1 hl.le)) h3
  unfold Rd.decay
  dsimp only
  generalize hslope : (if 0 ≤ c then roundBits p (roundBits p (1 - c) / last)
    else roundBits p (1 / roundBits p (roundBits p (c + 1) * last))) = slope at h1 h2 h3 h4 hone ⊢
  refine ⟨?_, ?_, ?_, ?_, ?_⟩
  · rw [hone]
    norm_num
  · intro x y hxy
    have hm : roundBits p (roundBits p (1 - roundBits p (slope * last)) + roundBits p (slope * x)) ≤
        roundBits p (roundBits p (1 - roundBits p (slope * last)) + roundBits p (slope * y)) := by
      apply roundBits_mono p hp1
      have := roundBits_mono p hp1 (mul_le_mul_of_nonneg_left hxy h1)
      linarith
    by_cases hx : roundBits p (roundBits p (1 - roundBits p (slope * last)) + roundBits p (slope * x)) < 0
    · rw [if_pos hx]
      split <;> linarith
    · rw [if_neg hx, if_neg (by linarith)]
      exact hm
  · intro x
    split <;> linarith
  · intro hc0 x hx
    have hconst : 0 ≤ roundBits p (1 - roundBits p (slope * last)) := roundBits_nonneg p hp1 (by linarith [h4 hc0])
    have hpos : 0 < roundBits p (roundBits p (1 - roundBits p (slope * last)) + roundBits p (slope * x)) := by
      apply roundBits_pos p hp1
      rcases hc1.lt_or_eq with h | h
      · have := roundBits_pos p hp1 (mul_pos (h2 h) hx)
        linarith
      · subst h
        rw [if_pos (by norm_num), sub_self, roundBits_zero, zero_div, roundBits_zero] at hslope
        rw [← hslope]
        simp [roundBits_zero, roundBits_one p hp1]
    rw [if_neg (by linarith)]
    exact hpos
  · intro h x
    subst h
    rw [if_pos (by norm_num), sub_self, roundBits_zero, zero_div, roundBits_zero] at hslope
    rw [← hslope]
    simp [roundBits_zero, roundBits_one p hp1]

/-- C103: the time-decay weights in floating point, for minimum weights from just above -1 up to 1: as many as there are
events, not decreasing, in `[0, 1]`, the newest exactly 1; positive for `c ≥ 0` and all 1 for `c = 1`. -/
theorem C103_decay (p : ℕ) (hp : 3 ≤ p) (c : ℚ) (hc : -1 + 8 / 2 ^ p ≤ c) (hc1 : c ≤ 1) (u : List ℚ)
    (hu : ∀ x ∈ u, 0 < x) (hne : u ≠ []) :
    ∃ w, Rd.timeDecay (roundBits p) c u = some w ∧ w.length = u.length ∧ w.Pairwise (· ≤ ·) ∧
      (∀ x ∈ w, 0 ≤ x ∧ x ≤ 1) ∧ w.getLast? = some 1 ∧ (0 ≤ c → ∀ x ∈ w, 0 < x) ∧ (c = 1 → ∀ x ∈ w, x = 1) := by
  have hp1 : 1 ≤ p := by omega
  obtain ⟨hm, hpos⟩ := Rd.cumsum_mono hp1 u hu 0 le_rfl ⟨0, 0, by simp, by simp⟩
  have hlen := Rd.cumsum_length (roundBits p) u 0
  unfold Rd.timeDecay
  generalize Rd.cumsum (roundBits p) 0 u = cs at hm hpos hlen ⊢
  have hcs : cs ≠ [] := by
    rintro rfl
    rw [List.length_nil] at hlen
    exact hne (List.length_eq_zero_iff.1 hlen.symm)
  rw [List.getLast?_eq_some_getLast hcs, Option.map_some]
  set last := cs.getLast hcs with hlast
  have hl := (hpos last (List.getLast_mem hcs)).2.1
  have hle : ∀ x ∈ cs, x ≤ last := by
    intro x hx
    obtain ⟨i, hi, rfl⟩ := List.getElem_of_mem hx
    rw [hlast, List.getLast_eq_getElem]
    rcases Nat.lt_or_ge i (cs.length - 1) with h | h
    · exact List.pairwise_iff_getElem.1 hm i (cs.length - 1) hi (by omega) h
    · have : i = cs.length - 1 := by omega
      subst this
      exact le_rfl
  obtain ⟨d1, d2, d3, d4, d5⟩ := decay_props p hp c last hc hc1 hl
  refine ⟨_, rfl, by rw [List.length_map, hlen], ?_, ?_, ?_, ?_, ?_⟩
  · rw [List.pairwise_map]
    exact hm.imp fun h => d2 _ _ h
  · intro x hx
    obtain ⟨y, hy, rfl⟩ := List.mem_map.1 hx
    exact ⟨d3 y, (d2 y last (hle y hy)).trans d1.le⟩
  · rw [List.getLast?_map, List.getLast?_eq_some_getLast hcs, Option.map_some, ← hlast, d1]
  · intro h x hx
    obtain ⟨y, hy, rfl⟩ := List.mem_map.1 hx
    exact d4 h y (hpos y hy).2.1
  · intro h x hx
    obtain ⟨y, hy, rfl⟩ := List.mem_map.1 hx
    exact d5 h y

/-- C103: without rounding this is the exact model of the decay. -/
theorem C103_exact (c last x : ℚ) (hl : last ≠ 0) (hc : c ≠ -1) (u : List ℚ) :
    SW.decay c (.fin last) (.fin x) = .fin (Rd.decay id c last x) ∧
    pdCumsum (u.map XF.fin) = (Rd.cumsum id 0 u).map XF.fin := by
  constructor
  · unfold SW.decay Rd.decay
    have hc' : c + 1 ≠ 0 := fun h => hc (by linarith)
    by_cases h : 0 ≤ c
    · simp only [if_pos h, id]
      simp [XF.div, XF.mul, XF.sub, XF.add, XF.neg, XF.lt, hl, sub_eq_add_neg]
      split <;> rfl
    · simp only [if_neg h, id]
      simp [XF.div, XF.mul, XF.sub, XF.add, XF.neg, XF.lt, hl, hc', sub_eq_add_neg]
      split <;> rfl
  · unfold pdCumsum
    generalize (0 : ℚ) = a
    induction u generalizing a with
    | nil => rfl
    | cons y u ih =>
      have hc : pdCumsumFrom (XF.fin a) (XF.fin y :: u.map XF.fin) =
          XF.fin (a + y) :: pdCumsumFrom (XF.fin (a + y)) (u.map XF.fin) := rfl
      rw [List.map_cons, hc, ih (a + y)]
      rfl

/-- Thirds are not representable; the newest weight is still exactly one, also for the negative minimum weight. -/
example : Rd.timeDecay (roundBits 53) 0 [roundBits 53 (2/3), roundBits 53 (1/3), 1] =
      some [roundBits 53 (1/3), 1/2, 1] ∧
    (Rd.timeDecay (roundBits 53) (-1/2) [roundBits 53 (2/3), roundBits 53 (1/3), 1]) = some [0, 0, 1] := by
  decide +kernel

end Mizar.Props
