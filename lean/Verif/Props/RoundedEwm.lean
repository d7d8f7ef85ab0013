import Verif.Lemmas.RoundedBet
import Verif.Lemmas.RoundedCusum
import Verif.Lemmas.RoundedEwm
import Verif.Model.Technical

/-!
Property theorems C134: exponentially weighted means and `ExponentialWeightedMovingAverageDifference` in floating point
(`/repo/mizarlabs/transformers/technical/moving_average.py` lines 134-145).
-/

namespace Mizar.Props
open Mizar.Spec Mizar.Rd

section exact
variable {K : Type} [Field K] [LinearOrder K] [IsStrictOrderedRing K]

omit [IsStrictOrderedRing K] in
private theorem rnd_id (x : XF K) : rnd id x = x := by cases x <;> rfl

private theorem factor_id (span : ℕ) : ewmFactor (id : K → K) span = 1 - ewmAlpha span := by
  have h : (span : K) + 1 ≠ 0 := by positivity
  simp only [ewmFactor, id, ewmAlpha]
  congr 1
  rw [show 1 + ((span : K) - 1) / 2 = (span + 1) / 2 by ring, one_div_div]

private theorem ewmStepR_id (a : K) : ewmStepR id (1 - a) = ewmStep a := by
  funext s x
  simp only [ewmStepR, ewmStep, rnd_id, id]

theorem ewmMeanR_id (span : ℕ) (l : List (XF K)) : ewmMeanR id span l = ewmMean (ewmAlpha span) l := by
  rw [ewmMeanR, ewmMean, factor_id, ewmStepR_id]

/-- C134: without rounding these are the means and differences of the model of
`ExponentialWeightedMovingAverageDifference`. -/
theorem C134_exact (fast slow : ℕ) (hf : 1 ≤ fast) (hs : 1 ≤ slow) (name : String) (normalised : Bool) (f : Frame K)
    (c : List (XF K)) (hc : f.col name = .ok c) :
    ewmE fast c = .ok (ewmMeanR id fast c) ∧
    Tech.ewmaDifference fast slow name normalised f = .ok (ewmaDifferenceR id fast slow normalised c) := by
  have h : ∀ span : ℕ, 1 ≤ span → ewmE span c = .ok (ewmMeanR id span c) := by
    intro span h1
    rw [ewmE, if_neg (by omega), Int.toNat_natCast, ewmMeanR_id]
  refine ⟨h fast hf, ?_⟩
  unfold Tech.ewmaDifference
  rw [hc, Py.bind_ok, h fast hf, Py.bind_ok, Py.bind_ok, h slow hs, Py.bind_ok]
  simp only [ewmaDifferenceR, rnd_id]

end exact

/-- The state behind position `i`. -/
private def stateR {K : Type} [Field K] [LinearOrder K] (r : K → K) (span : ℕ) (l : List (XF K)) (i : ℕ) : EwmSt K :=
  ((l.map XF.prep).take (i + 1)).foldl (ewmStepR r (ewmFactor r span)) ⟨.nan, 1⟩

private theorem mean_at {K : Type} [Field K] [LinearOrder K] (r : K → K) (span : ℕ) (l : List (XF K)) (i : ℕ)
    (hi : i < l.length) : (ewmMeanR r span l).getD i .nan = (stateR r span l i).mean := by
  rw [List.getD_eq_getElem?_getD, ewmMeanR, scanMap_getElem? _ _ _ _ _ (by simpa using hi)]
  rfl

theorem ewmMeanR_length {K : Type} [Field K] [LinearOrder K] (r : K → K) (span : ℕ) (l : List (XF K)) :
    (ewmMeanR r span l).length = l.length := by rw [ewmMeanR, scanMap_length, List.length_map]

private theorem difference_at {K : Type} [Field K] [LinearOrder K] (r : K → K) (fast slow : ℕ) (l : List (XF K)) (i : ℕ)
    (hi : i < l.length) : (ewmaDifferenceR r fast slow false l).getD i .nan =
      rnd r (XF.sub ((ewmMeanR r fast l).getD i .nan) ((ewmMeanR r slow l).getD i .nan)) := by
  have h1 : i < (ewmMeanR r fast l).length := by rw [ewmMeanR_length]; exact hi
  have h2 : i < (ewmMeanR r slow l).length := by rw [ewmMeanR_length]; exact hi
  have h3 : i < (ewmaDifferenceR r fast slow false l).length := by simp [ewmaDifferenceR, ewmMeanR_length, hi]
  rw [List.getD_eq_getElem _ _ h1, List.getD_eq_getElem _ _ h2, List.getD_eq_getElem _ _ h3]
  simp [ewmaDifferenceR]

/-- C134: the mean of a column with only one number is that number from its first row on, whatever the rounding; the
difference of two such means is 0 (with or without normalisation). -/
theorem C134_constant {K : Type} [Field K] [LinearOrder K] (r : K → K) (fast slow : ℕ) (l : List (XF K)) (v : K)
    (h0 : r 0 = 0) (hl : ∀ q, .fin q ∈ l → q = v) (i : ℕ) (hi : i < l.length) (h : ∃ j ≤ i, l[j]? = some (.fin v)) :
    (ewmMeanR r fast l).getD i .nan = .fin v ∧ (ewmaDifferenceR r fast slow false l).getD i .nan = .fin 0 := by
  have key : ∀ span, (stateR r span l i).mean = .fin v := by
    intro span
    have step : ∀ (m : List (XF K)) (s : EwmSt K), (∀ q, .fin q ∈ m → q = v) → (∀ x ∈ m, x.isInf = false) →
        (s.mean = .fin v ∨ s.mean = .nan ∧ .fin v ∈ m) →
        (m.foldl (ewmStepR r (ewmFactor r span)) s).mean = .fin v := by
      intro m
      induction m with
      | nil => intro s _ _ h; simpa using h
      | cons x m ih =>
        intro s hm hinf hs
        rw [List.foldl_cons]
        apply ih _ (fun q hq => hm q (by simp [hq])) (fun y hy => hinf y (by simp [hy]))
        cases x with
        | nan =>
          rcases hs with hs | ⟨hs, hv⟩
          · left; simp [ewmStepR, hs, XF.isNan]
          · right; exact ⟨by simp [ewmStepR, hs, XF.isNan], by simpa using hv⟩
        | fin q =>
          obtain rfl := hm q (by simp)
          left
          rcases hs with hs | ⟨hs, hv⟩
          · simp [ewmStepR, hs, XF.isNan, XF.beq]
          · simp [ewmStepR, hs, XF.isNan]
        | ninf => simpa [XF.isInf] using hinf .ninf (by simp)
        | pinf => simpa [XF.isInf] using hinf .pinf (by simp)
    apply step
    · intro q hq
      obtain ⟨y, hy, e⟩ := List.mem_map.1 (List.mem_of_mem_take hq)
      cases y <;> simp [XF.prep, XF.isInf] at e
      exact hl q (e ▸ hy)
    · intro x hx
      obtain ⟨y, -, rfl⟩ := List.mem_map.1 (List.mem_of_mem_take hx)
      cases y <;> simp [XF.prep, XF.isInf]
    · right
      refine ⟨rfl, ?_⟩
      obtain ⟨j, hj, e⟩ := h
      rw [List.mem_iff_getElem?]
      refine ⟨j, ?_⟩
      rw [List.getElem?_take_of_lt (by omega), List.getElem?_map, e]
      simp [XF.prep, XF.isInf]
  refine ⟨by rw [mean_at r fast l i hi, key], ?_⟩
  rw [difference_at r fast slow l i hi, mean_at r fast l i hi, mean_at r slow l i hi, key, key]
  simp [XF.sub, XF.neg, XF.add, rnd, h0]

example : ewmMeanR (roundBits 53) 7 [.nan, .fin (toDouble (1 / 10)), .nan, .fin (toDouble (1 / 10))] =
    [.nan, .fin (toDouble (1 / 10)), .fin (toDouble (1 / 10)), .fin (toDouble (1 / 10))] := by decide +kernel

private theorem factor_nonneg {p : ℕ} (hp : 1 ≤ p) {span : ℕ} (hs : 1 ≤ span) : 0 ≤ ewmFactor (roundBits p) span := by
  have hs' : (1 : ℚ) ≤ span := by exact_mod_cast hs
  have h1 : 0 ≤ roundBits p (((span : ℚ) - 1) / 2) := roundBits_nonneg p hp (by linarith)
  have h2 : 1 ≤ roundBits p (1 + roundBits p (((span : ℚ) - 1) / 2)) := le_round hp (isFloat_one hp) (by linarith)
  have h3 : roundBits p (1 / roundBits p (1 + roundBits p (((span : ℚ) - 1) / 2))) ≤ 1 :=
    round_le hp (isFloat_one hp) (by rw [div_le_one (by linarith)]; exact h2)
  exact roundBits_nonneg p hp (by linarith)

private theorem prep_inf {K : Type} [Field K] [LinearOrder K] (x : XF K) : (XF.prep x).isInf = false := by cases x <;> rfl

/-- C134: means of numbers that are not negative are not negative, so that the normalised difference is never divided
by zero. -/
theorem C134_sign (p : ℕ) (hp : 1 ≤ p) (span : ℕ) (hs : 1 ≤ span) (l : List (XF ℚ)) (hl : ∀ q, .fin q ∈ l → 0 ≤ q) (i : ℕ)
    (hi : i < l.length) : (ewmMeanR (roundBits p) span l).getD i .nan = .nan ∨
      ∃ a, (ewmMeanR (roundBits p) span l).getD i .nan = .fin a ∧ 0 ≤ a ∧ 1 ≤ roundBits p (a + 1) := by
  have hq := factor_nonneg hp hs
  have step : ∀ (m : List (XF ℚ)) (s : EwmSt ℚ), (∀ q, .fin q ∈ m → 0 ≤ q) → (∀ x ∈ m, x.isInf = false) →
      (s.mean = .nan ∨ ∃ a, s.mean = .fin a ∧ 0 ≤ a) → 0 ≤ s.oldWt →
      (m.foldl (ewmStepR (roundBits p) (ewmFactor (roundBits p) span)) s).mean = .nan ∨
        ∃ a, (m.foldl (ewmStepR (roundBits p) (ewmFactor (roundBits p) span)) s).mean = .fin a ∧ 0 ≤ a := by
    intro m
    induction m with
    | nil => intro s _ _ h _; simpa using h
    | cons x m ih =>
      intro s hm hinf hs hw
      rw [List.foldl_cons]
      have ho := roundBits_nonneg p hp (mul_nonneg hw hq)
      have ho1 : 0 ≤ roundBits p (roundBits p (s.oldWt * ewmFactor (roundBits p) span) + 1) :=
        roundBits_nonneg p hp (by linarith)
      have ho1' : 0 < roundBits p (roundBits p (s.oldWt * ewmFactor (roundBits p) span) + 1) :=
        roundBits_pos p hp (by linarith)
      apply ih _ (fun q hq => hm q (by simp [hq])) (fun y hy => hinf y (by simp [hy]))
      · cases x with
        | nan =>
          rcases hs with hs | ⟨a, hs, ha⟩
          · left; simp [ewmStepR, hs, XF.isNan]
          · right; exact ⟨a, by simp [ewmStepR, hs, XF.isNan], ha⟩
        | fin v =>
          have hv := hm v (by simp)
          right
          rcases hs with hs | ⟨a, hs, ha⟩
          · exact ⟨v, by simp [ewmStepR, hs, XF.isNan], hv⟩
          · by_cases hav : a = v
            · exact ⟨a, by simp [ewmStepR, hs, XF.isNan, XF.beq, hav], ha⟩
            · set o := roundBits p (s.oldWt * ewmFactor (roundBits p) span) with ho'
              refine ⟨roundBits p (roundBits p (roundBits p (o * a) + v) / roundBits p (o + 1)), ?_, ?_⟩
              · simp only [ewmStepR, hs, XF.isNan, Bool.false_eq_true, if_false]
                rw [if_neg (by simpa [XF.beq] using hav)]
                simp only [XF.mul, rnd, XF.add, XF.div]
                rw [← ho', if_neg ho1'.ne']
              · apply roundBits_nonneg p hp (div_nonneg (roundBits_nonneg p hp ?_) ho1)
                exact add_nonneg (roundBits_nonneg p hp (mul_nonneg ho ha)) hv
        | ninf => simpa [XF.isInf] using hinf .ninf (by simp)
        | pinf => simpa [XF.isInf] using hinf .pinf (by simp)
      · simp only [ewmStepR]
        split_ifs
        · exact hw
        · exact hw
        · exact ho
        · exact ho1
        · exact ho1
  rw [mean_at _ span l i hi]
  have := step ((l.map XF.prep).take (i + 1)) ⟨.nan, 1⟩ (fun q hq => by
      obtain ⟨y, hy, e⟩ := List.mem_map.1 (List.mem_of_mem_take hq)
      cases y <;> simp [XF.prep, XF.isInf] at e
      exact hl q (e ▸ hy)) (fun x hx => by
      obtain ⟨y, -, rfl⟩ := List.mem_map.1 (List.mem_of_mem_take hx)
      exact prep_inf y) (.inl rfl) zero_le_one
  rcases this with h | ⟨a, h, ha⟩
  · exact .inl h
  · exact .inr ⟨a, h, ha, le_round hp (isFloat_one hp) (by linarith)⟩

theorem drift_state (p span : ℕ) (hs : 1 ≤ span) (hp : 16 * (span + 1) ^ 2 ≤ 2 ^ p) (l : List (XF ℚ)) (M : ℚ) (hM0 : 0 ≤ M)
    (hM : ∀ q, .fin q ∈ l → |q| ≤ M) (i : ℕ) (hi : i < l.length) :
    ((ewmMeanR (roundBits p) span l).getD i .nan = .nan ∧ (ewmMean (ewmAlpha span) l).getD i .nan = .nan) ∨
    ∃ a b, (ewmMeanR (roundBits p) span l).getD i .nan = .fin a ∧ (ewmMean (ewmAlpha span) l).getD i .nan = .fin b ∧
      |a - b| ≤ 14 * (span + 1) ^ 2 * M / 2 ^ p ∧ |b| ≤ M := by
  have hp1 : 1 ≤ p := by
    by_contra h
    obtain rfl : p = 0 := by omega
    have : 0 < (span + 1) ^ 2 := by positivity
    omega
  have hP : (0 : ℚ) < 2 ^ p := by positivity
  have hr : ∀ x, |roundBits p x - x| ≤ 1 / 2 ^ p * |x| := by
    intro x
    have := roundBits_error p hp1 x
    rw [div_eq_mul_inv, mul_comm, ← one_div] at this
    exact this
  have hs' : (1 : ℚ) ≤ span := by exact_mod_cast hs
  have hS : (1 : ℚ) ≤ ((span : ℚ) + 1) / 2 := by linarith
  have hSε : 64 * ((((span : ℚ) + 1) / 2) * (((span : ℚ) + 1) / 2)) * (1 / 2 ^ p) ≤ 1 := by
    rw [mul_one_div, div_le_one hP]
    have : (16 * ((span : ℚ) + 1) ^ 2) ≤ 2 ^ p := by exact_mod_cast hp
    linarith
  have he0 : (0 : ℚ) ≤ 1 / 2 ^ p := by positivity
  have hq := factor_near he0 (eps_small he0 hS hSε) hr hS span rfl
  have hα : ewmAlpha span = 1 / (((span : ℚ) + 1) / 2) := by rw [ewmAlpha, one_div_div]
  have key : ∀ (m : List (XF ℚ)) (s E : EwmSt ℚ), (∀ q, .fin q ∈ m → |q| ≤ M) → (∀ x ∈ m, x.isInf = false) →
      EwmClose (1 / 2 ^ p) M (((span : ℚ) + 1) / 2) s E →
      EwmClose (1 / 2 ^ p) M (((span : ℚ) + 1) / 2) (m.foldl (ewmStepR (roundBits p) (ewmFactor (roundBits p) span)) s)
        (m.foldl (ewmStep (1 / (((span : ℚ) + 1) / 2))) E) := by
    intro m
    induction m with
    | nil => intro s E _ _ h; exact h
    | cons x m ih =>
      intro s E hm hinf h
      rw [List.foldl_cons, List.foldl_cons]
      apply ih _ _ (fun q hq => hm q (by simp [hq])) (fun y hy => hinf y (by simp [hy]))
      exact ewmClose_step he0 hM0 hS hSε hr (factor_nonneg hp1 hs) hq h x (fun v e => hm v (by simp [e])) (hinf x (by simp))
  have h := key ((l.map XF.prep).take (i + 1)) ⟨.nan, 1⟩ ⟨.nan, 1⟩ (fun q hq => by
      obtain ⟨y, hy, e⟩ := List.mem_map.1 (List.mem_of_mem_take hq)
      cases y <;> simp [XF.prep, XF.isInf] at e
      exact hM q (e ▸ hy)) (fun x hx => by
      obtain ⟨y, -, rfl⟩ := List.mem_map.1 (List.mem_of_mem_take hx)
      exact prep_inf y) (.inl ⟨rfl, rfl, rfl, rfl⟩)
  rw [mean_at _ span l i hi, List.getD_eq_getElem?_getD, ewmMean, scanMap_getElem? _ _ _ _ _ (by simpa using hi), hα]
  rw [Option.getD_some]
  rcases h with ⟨h1, h2, -⟩ | ⟨a, b, h1, h2, h4, h3, -⟩
  · exact .inl ⟨h1, h2⟩
  · refine .inr ⟨a, b, h1, h2, h3.trans (le_of_eq ?_), h4⟩
    ring

/-- C134: every mean is off by at most `14 (span+1)² M / 2^p`, where `M` is the largest number of the series.  The bound does
not grow with the position. -/
theorem C134_drift (p span : ℕ) (hs : 1 ≤ span) (hp : 16 * (span + 1) ^ 2 ≤ 2 ^ p) (l : List (XF ℚ)) (M : ℚ) (hM0 : 0 ≤ M)
    (hM : ∀ q, .fin q ∈ l → |q| ≤ M) (i : ℕ) (hi : i < l.length) :
    Near (14 * (span + 1) ^ 2 * M / 2 ^ p) ((ewmMeanR (roundBits p) span l).getD i .nan)
      ((ewmMean (ewmAlpha span) l).getD i .nan) := by
  rcases drift_state p span hs hp l M hM0 hM i hi with h | ⟨a, b, h1, h2, h3, -⟩
  · exact .inl h
  · exact .inr ⟨a, b, h1, h2, h3⟩

/-- The bound for a span of 99 and prices up to 2^17. -/
example : (14 * (99 + 1) ^ 2 * 2 ^ 17 / 2 ^ 53 : ℚ) < 3 / 10 ^ 6 ∧ 16 * (99 + 1) ^ 2 ≤ 2 ^ 53 := by norm_num

/-- C134: the difference of the two means is off by at most `15 ((fast+1)² + (slow+1)²) M / 2^p`; in particular its sign is
right if the exact difference is larger. -/
theorem C134_difference (p fast slow : ℕ) (hf : 1 ≤ fast) (hs : 1 ≤ slow) (hpf : 16 * (fast + 1) ^ 2 ≤ 2 ^ p)
    (hps : 16 * (slow + 1) ^ 2 ≤ 2 ^ p) (l : List (XF ℚ)) (M : ℚ) (hM0 : 0 ≤ M) (hM : ∀ q, .fin q ∈ l → |q| ≤ M) (i : ℕ)
    (hi : i < l.length) :
    Near (15 * ((fast + 1) ^ 2 + (slow + 1) ^ 2) * M / 2 ^ p) ((ewmaDifferenceR (roundBits p) fast slow false l).getD i .nan)
      ((ewmaDifferenceR id fast slow false l).getD i .nan) ∧
    ∀ d d', (ewmaDifferenceR (roundBits p) fast slow false l).getD i .nan = .fin d →
      (ewmaDifferenceR id fast slow false l).getD i .nan = .fin d' →
      15 * ((fast + 1) ^ 2 + (slow + 1) ^ 2) * M / 2 ^ p < |d'| → (0 < d ↔ 0 < d') ∧ (d < 0 ↔ d' < 0) := by
  have near : Near (15 * ((fast + 1) ^ 2 + (slow + 1) ^ 2) * M / 2 ^ p)
      ((ewmaDifferenceR (roundBits p) fast slow false l).getD i .nan) ((ewmaDifferenceR id fast slow false l).getD i .nan) := by
    rw [difference_at _ fast slow l i hi, difference_at _ fast slow l i hi, ewmMeanR_id, ewmMeanR_id, rnd_id]
    rcases drift_state p fast hf hpf l M hM0 hM i hi with ⟨h1, h2⟩ | ⟨a, b, h1, h2, h3, h4⟩
    · rw [h1, h2]; exact .inl ⟨rfl, rfl⟩
    rcases drift_state p slow hs hps l M hM0 hM i hi with ⟨k1, k2⟩ | ⟨a', b', k1, k2, k3, k4⟩
    · rw [h1, h2, k1, k2]; exact .inl ⟨rfl, rfl⟩
    rw [h1, h2, k1, k2]
    refine .inr ⟨roundBits p (a - a'), b - b', by simp [XF.sub, XF.neg, XF.add, rnd, sub_eq_add_neg],
      by simp [XF.sub, XF.neg, XF.add, sub_eq_add_neg], ?_⟩
    have hp1 : 1 ≤ p := by
      by_contra h
      obtain rfl : p = 0 := by omega
      have : 0 < (fast + 1) ^ 2 := by positivity
      omega
    have hP : (0 : ℚ) < 2 ^ p := by positivity
    have hr : ∀ x, |roundBits p x - x| ≤ 1 / 2 ^ p * |x| := by
      intro x
      have := roundBits_error p hp1 x
      rw [div_eq_mul_inv, mul_comm, ← one_div] at this
      exact this
    have d1 : |a - a' - (b - b')| ≤ 14 * ((fast + 1) ^ 2 + (slow + 1) ^ 2) * M / 2 ^ p := by
      rw [show a - a' - (b - b') = (a - b) - (a' - b') by ring]
      refine (abs_sub _ _).trans ((add_le_add h3 k3).trans (le_of_eq (by ring)))
    have d2 : |b - b'| ≤ 2 * M := by
      have := abs_sub b b'
      linarith
    have d3 := near_round (by positivity) hr d1 d2
    refine d3.trans ?_
    have e1 : 14 * (((fast : ℚ) + 1) ^ 2 + (slow + 1) ^ 2) * M / 2 ^ p ≤ 2 * M := by
      have f1 : (16 * ((fast : ℚ) + 1) ^ 2) ≤ 2 ^ p := by exact_mod_cast hpf
      have f2 : (16 * ((slow : ℚ) + 1) ^ 2) ≤ 2 ^ p := by exact_mod_cast hps
      rw [div_le_iff₀ hP]
      nlinarith
    have e2 : (8 : ℚ) ≤ ((fast : ℚ) + 1) ^ 2 + (slow + 1) ^ 2 := by
      have f1 : (1 : ℚ) ≤ fast := by exact_mod_cast hf
      have f2 : (1 : ℚ) ≤ slow := by exact_mod_cast hs
      nlinarith
    have e3 : 1 / 2 ^ p * (2 * M + 14 * (((fast : ℚ) + 1) ^ 2 + (slow + 1) ^ 2) * M / 2 ^ p) ≤
        (((fast : ℚ) + 1) ^ 2 + (slow + 1) ^ 2) * M / 2 ^ p := by
      rw [one_div, mul_comm, ← div_eq_mul_inv]
      apply div_le_div_of_nonneg_right _ hP.le
      nlinarith
    refine (add_le_add_right e3 _).trans (le_of_eq (by ring))
  refine ⟨near, fun d d' h1 h2 hd => ?_⟩
  rcases near with ⟨h3, -⟩ | ⟨a, b, h3, h4, h5⟩
  · rw [h1] at h3; cases h3
  · rw [h1] at h3
    rw [h2] at h4
    cases h3
    cases h4
    have h6 := abs_lt.1 (lt_of_le_of_lt h5 hd)
    rcases le_or_gt 0 d' with h | h
    · rw [abs_of_nonneg h] at h6 hd
      constructor <;> constructor <;> intro _ <;> linarith
    · rw [abs_of_neg h] at h6 hd
      constructor <;> constructor <;> intro _ <;> linarith

/-- C134: the unit of the prices does not matter if it changes by a power of two. -/
theorem C134_scale (p : ℕ) (k : ℤ) (fast slow : ℕ) (l : List (XF ℚ)) :
    ewmMeanR (roundBits p) fast (l.map fun x => XF.mul x (.fin (2 ^ k))) =
      (ewmMeanR (roundBits p) fast l).map (fun x => XF.mul x (.fin (2 ^ k))) ∧
    ewmaDifferenceR (roundBits p) fast slow false (l.map fun x => XF.mul x (.fin (2 ^ k))) =
      (ewmaDifferenceR (roundBits p) fast slow false l).map (fun x => XF.mul x (.fin (2 ^ k))) := by
  have hc : (0 : ℚ) < 2 ^ k := two_zpow_pos k
  have hr := roundBits_zpow p k
  have hnan : ∀ x : XF ℚ, (scale (2 ^ k) x).isNan = x.isNan := by
    intro x; cases x <;> simp [scale, XF.mul, XF.isNan, XF.infSign, XF.neg, hc]
  have step : ∀ (q : ℚ) (s : EwmSt ℚ) (x : XF ℚ), ewmStepR (roundBits p) q ⟨scale (2 ^ k) s.mean, s.oldWt⟩ (scale (2 ^ k) x) =
      ⟨scale (2 ^ k) (ewmStepR (roundBits p) q s x).mean, (ewmStepR (roundBits p) q s x).oldWt⟩ := by
    intro q s x
    have hb : XF.beq (scale (2 ^ k) s.mean) (scale (2 ^ k) x) = XF.beq s.mean x := by
      cases s.mean <;> cases x <;> simp [scale, XF.mul, XF.beq, XF.infSign, XF.neg, hc, hc.ne']
    have hm : ∀ o : ℚ, ∀ y : XF ℚ, XF.mul (.fin o) (scale (2 ^ k) y) = scale (2 ^ k) (XF.mul (.fin o) y) := by
      intro o y
      cases y with
      | fin z => simp [scale, XF.mul, mul_assoc]
      | nan => rfl
      | _ =>
        rcases lt_trichotomy o 0 with h | h | h
        · simp [scale, XF.mul, XF.infSign, XF.neg, hc, h, not_lt.2 h.le]
        · simp [scale, XF.mul, XF.infSign, XF.neg, hc, h]
        · simp [scale, XF.mul, XF.infSign, XF.neg, hc, h]
    have ha : ∀ y z : XF ℚ, XF.add (scale (2 ^ k) y) (scale (2 ^ k) z) = scale (2 ^ k) (XF.add y z) := by
      intro y z
      cases y <;> cases z <;> simp [scale, XF.mul, XF.add, XF.infSign, XF.neg, hc, add_mul]
    have hd : ∀ (y : XF ℚ) (d : ℚ), XF.div (scale (2 ^ k) y) (.fin d) = scale (2 ^ k) (XF.div y (.fin d)) := by
      intro y d
      cases y with
      | fin z =>
        by_cases hd : d = 0
        · rcases lt_trichotomy z 0 with h | h | h
          · have h' := mul_neg_of_neg_of_pos h hc
            simp [scale, XF.mul, XF.div, XF.infSign, XF.neg, hc, hd, h, h', not_lt.2 h.le, not_lt.2 h'.le]
          · simp [scale, XF.mul, XF.div, XF.infSign, hd, h]
          · have h' := mul_pos h hc
            simp [scale, XF.mul, XF.div, XF.infSign, XF.neg, hc, hd, h, h']
        · simp [scale, XF.mul, XF.div, hd, div_mul_eq_mul_div]
      | nan => rfl
      | _ => by_cases hd : d < 0 <;> simp [scale, XF.mul, XF.div, XF.infSign, XF.neg, hc, hd]
    simp only [ewmStepR, hnan, hb, hm, rnd_scale hr hc, ha, hd]
    split_ifs <;> rfl
  have hscan : ∀ (q : ℚ) (m : List (XF ℚ)) (s : EwmSt ℚ),
      scanMap (ewmStepR (roundBits p) q) EwmSt.mean ⟨scale (2 ^ k) s.mean, s.oldWt⟩ (m.map (scale (2 ^ k))) =
        (scanMap (ewmStepR (roundBits p) q) EwmSt.mean s m).map (scale (2 ^ k)) := by
    intro q m
    induction m with
    | nil => intro s; rfl
    | cons x m ih =>
      intro s
      simp only [List.map_cons, scanMap, step, ih]
  have hmean : ∀ span, ewmMeanR (roundBits p) span (l.map (scale (2 ^ k))) = (ewmMeanR (roundBits p) span l).map (scale (2 ^ k)) := by
    intro span
    rw [ewmMeanR, ewmMeanR, ← hscan, List.map_map, List.map_map]
    have e : (XF.prep ∘ scale (2 ^ k) : XF ℚ → XF ℚ) = scale (2 ^ k) ∘ XF.prep := by
      funext x
      cases x <;> simp [scale, XF.mul, XF.prep, XF.isInf, XF.infSign, XF.neg, hc]
    rw [e]
    rfl
  refine ⟨hmean fast, ?_⟩
  show ewmaDifferenceR (roundBits p) fast slow false (l.map (scale (2 ^ k))) = _
  simp only [ewmaDifferenceR, Bool.false_eq_true, if_false]
  rw [hmean, hmean, List.zipWith_map, List.map_zipWith]
  congr 1
  funext x y
  rw [sub_scale hc, rnd_scale hr hc]
  rfl

/-- The double nearest to 0.3. -/
private def threeTenths : ℚ := toDouble (3 / 10)

private def fallen (n : ℕ) : List (XF ℚ) := .fin 1 :: List.replicate n (.fin threeTenths)

private theorem fallen_state (r : ℚ → ℚ) (span n : ℕ) :
    stateR r span (fallen n) n = (List.replicate n (.fin threeTenths)).foldl (ewmStepR r (ewmFactor r span)) ⟨.fin 1, 1⟩ := by
  rw [stateR, List.take_of_length_le (by simp [fallen])]
  simp [fallen, XF.prep, XF.isInf, ewmStepR, XF.isNan]

private theorem exact_fallen (a : ℚ) (ha0 : 0 < a) (ha1 : a < 1) (n : ℕ) : ∃ b w,
    (List.replicate n (.fin threeTenths)).foldl (ewmStep a) ⟨.fin 1, 1⟩ = ⟨.fin b, w⟩ ∧ 0 < w ∧
      w = ∑ j ∈ Finset.range (n + 1), (1 - a) ^ j ∧ (b - threeTenths) * w = (1 - threeTenths) * (1 - a) ^ n := by
  induction n with
  | zero => exact ⟨1, 1, rfl, one_pos, by simp, by simp⟩
  | succ n ih =>
    obtain ⟨b, w, h1, h2, h3, h4⟩ := ih
    rw [List.replicate_succ', List.foldl_append, h1, List.foldl_cons, List.foldl_nil]
    have hq : 0 < 1 - a := by linarith
    have hw : 0 < w * (1 - a) + 1 := by positivity
    refine ⟨(w * (1 - a) * b + threeTenths) / (w * (1 - a) + 1), w * (1 - a) + 1, ?_, hw, ?_, ?_⟩
    · simp only [ewmStep, XF.isNan, Bool.false_eq_true, if_false]
      by_cases hb : b = threeTenths
      · rw [if_pos (by simp [XF.beq, hb])]
        congr 2
        rw [eq_div_iff hw.ne', hb]
        ring
      · rw [if_neg (by simpa [XF.beq] using hb)]
        simp only [XF.mul, XF.add, XF.div]
        rw [if_neg hw.ne']
    · rw [Finset.sum_range_succ', h3, Finset.sum_mul]
      simp [pow_succ]
    · have e : (w * (1 - a) * b + threeTenths) / (w * (1 - a) + 1) - threeTenths =
          (b - threeTenths) * w * (1 - a) / (w * (1 - a) + 1) := by field_simp; ring
      rw [e, h4, div_mul_cancel₀ _ hw.ne', pow_succ]
      ring

/-- C134: means with rounding can stop before they reach a price that no longer moves.  After a fall from 1 to 0.3 the mean
with span 4 stays above the one with span 5 for ever (from bar 90 on), although the exact one is below it at every bar. -/
theorem C134_stuck_refuted (n : ℕ) (hn : 90 ≤ n) :
    (ewmaDifferenceR (roundBits 53) 4 5 false (.fin 1 :: List.replicate n (.fin (toDouble (3 / 10))))).getD n .nan =
      .fin (1 / 2 ^ 54) ∧
    ∃ d, (ewmaDifferenceR id 4 5 false (.fin 1 :: List.replicate n (.fin (toDouble (3 / 10))))).getD n .nan = .fin d ∧ d < 0 := by
  change (ewmaDifferenceR (roundBits 53) 4 5 false (fallen n)).getD n .nan = .fin (1 / 2 ^ 54) ∧
    ∃ d, (ewmaDifferenceR id 4 5 false (fallen n)).getD n .nan = .fin d ∧ d < 0
  have hl : n < (fallen n).length := by simp [fallen]
  constructor
  · have hfix : ∀ (span : ℕ) (F : EwmSt ℚ),
        (List.replicate 90 (.fin threeTenths)).foldl (ewmStepR (roundBits 53) (ewmFactor (roundBits 53) span)) ⟨.fin 1, 1⟩ = F →
        ewmStepR (roundBits 53) (ewmFactor (roundBits 53) span) F (.fin threeTenths) = F →
        stateR (roundBits 53) span (fallen n) n = F := by
      intro span F h1 h2
      rw [fallen_state, show n = 90 + (n - 90) by omega, List.replicate_add, List.foldl_append, h1]
      generalize n - 90 = k
      induction k with
      | zero => rfl
      | succ k ih => rw [List.replicate_succ, List.foldl_cons, h2]; exact ih
    have h4 := hfix 4 ⟨.fin (threeTenths + 2 / 2 ^ 54), 5 / 2 - 4 / 2 ^ 52⟩ (by decide +kernel) (by decide +kernel)
    have h5 := hfix 5 ⟨.fin (threeTenths + 1 / 2 ^ 54), 3⟩ (by decide +kernel) (by decide +kernel)
    rw [difference_at _ 4 5 _ n hl, mean_at _ 4 _ n hl, mean_at _ 5 _ n hl, h4, h5]
    decide +kernel
  · obtain ⟨b, w, h1, h2, h3, h4⟩ := exact_fallen (ewmAlpha 4) (by norm_num [ewmAlpha]) (by norm_num [ewmAlpha]) n
    obtain ⟨b', w', k1, k2, k3, k4⟩ := exact_fallen (ewmAlpha 5) (by norm_num [ewmAlpha]) (by norm_num [ewmAlpha]) n
    have e : (ewmaDifferenceR id 4 5 false (fallen n)).getD n .nan = .fin (b - b') := by
      rw [difference_at _ 4 5 _ n hl, mean_at _ 4 _ n hl, mean_at _ 5 _ n hl, fallen_state, fallen_state, factor_id, factor_id,
        ewmStepR_id, ewmStepR_id, h1, k1]
      simp [XF.sub, XF.neg, XF.add, rnd, sub_eq_add_neg]
    refine ⟨_, e, ?_⟩
    have q4 : (1 : ℚ) - ewmAlpha 4 = 3 / 5 := by norm_num [ewmAlpha]
    have q5 : (1 : ℚ) - ewmAlpha 5 = 2 / 3 := by norm_num [ewmAlpha]
    rw [q4] at h3 h4
    rw [q5] at k3 k4
    have hx : (0 : ℚ) < 1 - threeTenths := by decide +kernel
    have hlt : (3 / 5 : ℚ) ^ n * w' < (2 / 3) ^ n * w := by
      rw [h3, k3, Finset.mul_sum, Finset.mul_sum]
      apply Finset.sum_lt_sum
      · intro j hj
        have hj : j ≤ n := by have := Finset.mem_range.1 hj; omega
        obtain ⟨m, rfl⟩ := Nat.exists_eq_add_of_le hj
        rw [pow_add, pow_add]
        have : (3 / 5 : ℚ) ^ m ≤ (2 / 3) ^ m := pow_le_pow_left₀ (by norm_num) (by norm_num) m
        have hpos : (0 : ℚ) < (3 / 5) ^ j * (2 / 3) ^ j := by positivity
        nlinarith
      · refine ⟨0, by simp, ?_⟩
        rw [pow_zero, pow_zero, mul_one, mul_one]
        exact pow_lt_pow_left₀ (by norm_num) (by norm_num) (by omega)
    have hb : b - threeTenths = (1 - threeTenths) * (3 / 5) ^ n / w := by rw [eq_div_iff h2.ne']; exact h4
    have hb' : b' - threeTenths = (1 - threeTenths) * (2 / 3) ^ n / w' := by rw [eq_div_iff k2.ne']; exact k4
    have : (1 - threeTenths) * (3 / 5) ^ n / w < (1 - threeTenths) * (2 / 3) ^ n / w' := by
      rw [div_lt_div_iff₀ h2 k2]
      nlinarith
    linarith

/-- C134: a mean with rounding can be below all numbers it is a mean of. -/
theorem C134_outside_refuted :
    ewmMeanR (roundBits 53) 2 [.fin (3 / 4 + 1 / 2 ^ 52), .fin (3 / 4)] = [.fin (3 / 4 + 1 / 2 ^ 52), .fin (3 / 4 - 1 / 2 ^ 53)] ∧
    IsFloat 53 (3 / 4 + 1 / 2 ^ 52) := by
  refine ⟨by decide +kernel, 3 * 2 ^ 50 + 1, -52, by norm_num, by norm_num⟩

private def ewmPrices : List (XF ℚ) := ([1 / 10, 4 / 10, 3 / 10, 8 / 10] : List ℚ).map fun x => .fin (toDouble x)

private theorem ewmPrices_le : ∀ a ∈ ewmPrices, |a.toK| ≤ 1 := by decide +kernel

/-- Spans 3 and 9 on decimal prices: where the exact averages are further apart than the bound, the signs are the same. -/
example : Near (15 * (((3 : ℕ) + 1) ^ 2 + ((9 : ℕ) + 1) ^ 2) * 1 / 2 ^ 53) ((ewmaDifferenceR (roundBits 53) 3 9 false ewmPrices).getD 3 .nan)
      ((ewmaDifferenceR id 3 9 false ewmPrices).getD 3 .nan) :=
  (C134_difference 53 3 9 (by norm_num) (by norm_num) (by norm_num) (by norm_num) ewmPrices 1 (by norm_num)
    (fun q hq => ewmPrices_le (.fin q) hq) 3 (by decide)).1

end Mizar.Props
