import Mathlib.Analysis.SpecialFunctions.Log.Base
import Verif.Model.RoundedLogUniform
import Verif.Spec.RoundedLogUniform
import Verif.Lemmas.RoundedCusum
import Verif.Props.LogUniform

/-!
Property theorems C144: the log-uniform distribution in floating point (`/repo/mizarlabs/model/model_selection.py` lines 337-345).
-/

namespace Mizar.Props
open Mizar.Spec Mizar.Brk Mizar.Rd

/-- C144 (exact arithmetic): without rounding the distribution function is the one of C74, for any bounds and any argument. -/
theorem C144_exact (em : ErrModel) (a b : Option ℝ) (x : XF ℝ) : logCdfR em id Real.log (Real.exp 1) a b x = LogU.cdf em a b x := by
  have hr : ∀ x : XF ℝ, rnd id x = x := fun x => by cases x <;> rfl
  have hl : ∀ x : XF ℝ, logR Real.log x = XF.log x := fun x => by cases x <;> rfl
  have hd : ∀ em (a b : XF ℝ), divR em id a b = divE em a b := fun em a b => by unfold divR divE; rw [hr]
  have hc : ∀ em (a b : ℝ) (x : XF ℝ), rawCdfR em id Real.log a b x = LogU.rawCdf em a b x := by
    intro em a b x
    unfold rawCdfR LogU.rawCdf
    simp only [hd, hr, hl]
  unfold logCdfR LogU.cdf LogU.bounds
  simp only [hc]

/-! ### The quotient of two floats -/

private theorem ratio_gt {p : ℕ} (hp : 2 ≤ p) {a x : ℚ} (ha : 0 < a) (hax : a < x) (fa : IsFloat p a) (fx : IsFloat p x) :
    1 < roundBits p (x / a) := by
  have hp1 : 1 ≤ p := by omega
  have hx := ha.trans hax
  obtain ⟨m, e, m1, m2, rfl⟩ := normalise p hp1 ha fa
  obtain ⟨n, f, n1, n2, rfl⟩ := normalise p hp1 hx fx
  have hm0 : (0 : ℚ) < m := by
    have : (0 : ℤ) < 2 ^ (p - 1) := by positivity
    exact_mod_cast lt_of_lt_of_le this m1
  have m1' : (2 : ℚ) ^ (p - 1) ≤ m := by exact_mod_cast m1
  have m2' : (m : ℚ) < 2 ^ p := by exact_mod_cast m2
  have n2' : (n : ℚ) < 2 ^ p := by exact_mod_cast n2
  have hef : e ≤ f := by
    by_contra hlt
    push Not at hlt
    have h1 : (2 : ℚ) ^ f ≤ 2 ^ (e - 1) := zpow_le_zpow_right₀ (by norm_num) (by omega)
    have h2 : (2 : ℚ) ^ p * 2 ^ (e - 1) = 2 ^ (p - 1) * 2 ^ e := by
      rw [← zpow_natCast, ← zpow_natCast, ← zpow_add₀ (by norm_num), ← zpow_add₀ (by norm_num)]
      congr 1
      omega
    have h3 : (n : ℚ) * 2 ^ f ≤ m * 2 ^ e := by
      calc (n : ℚ) * 2 ^ f ≤ 2 ^ p * 2 ^ f := mul_le_mul_of_nonneg_right n2'.le (two_zpow_pos _).le
        _ ≤ 2 ^ p * 2 ^ (e - 1) := mul_le_mul_of_nonneg_left h1 (by positivity)
        _ = 2 ^ (p - 1) * 2 ^ e := h2
        _ ≤ m * 2 ^ e := mul_le_mul_of_nonneg_right m1' (two_zpow_pos _).le
    linarith
  obtain ⟨k, rfl⟩ := Int.le.dest hef
  have he := two_zpow_pos e
  have hn : (n : ℚ) * 2 ^ (e + (k : ℤ)) = ((n * 2 ^ k : ℤ) : ℚ) * 2 ^ e := by
    rw [zpow_add₀ (by norm_num), zpow_natCast]
    push_cast
    ring
  rw [hn] at hax ⊢
  have hnm : m < n * 2 ^ k := by
    have := lt_of_mul_lt_mul_right hax he.le
    exact_mod_cast this
  have hnm' : (m : ℚ) + 1 ≤ ((n * 2 ^ k : ℤ) : ℚ) := by exact_mod_cast hnm
  rw [mul_div_mul_right _ _ he.ne']
  generalize ((n * 2 ^ k : ℤ) : ℚ) = z at hnm'
  have hq : 1 + 1 / 2 ^ p < z / m := by
    have h1 : (1 : ℚ) / 2 ^ p < 1 / m := one_div_lt_one_div_of_lt hm0 m2'
    have h2 : (1 : ℚ) + 1 / m ≤ z / m := by
      rw [le_div_iff₀ hm0, add_mul, one_div, inv_mul_cancel₀ hm0.ne']
      linarith
    linarith
  have hp0 : (0 : ℚ) < 1 / 2 ^ p := by positivity
  have h1 := roundBits_mono p hp1 (show (1 : ℚ) ≤ z / m by linarith)
  rw [roundBits_one p hp1] at h1
  refine lt_of_le_of_ne h1 fun h2 => ?_
  have h3 := roundBits_error_result p hp1 (z / m) (by linarith)
  rw [← h2] at h3
  have := (abs_le.1 h3).1
  linarith

private theorem good_pos {p : ℕ} (hp : 2 ≤ p) {lg : ℚ → ℚ} (h : GoodLog p lg) {x : ℚ} (hx : 1 < x) : 0 < lg x := by
  have h1 := h x (by linarith)
  have h2 : 0 < Real.log x := Real.log_pos (by exact_mod_cast hx)
  rw [abs_of_pos h2] at h1
  have h4 : (4 : ℝ) ≤ 2 ^ p := by
    calc (4 : ℝ) = 2 ^ 2 := by norm_num
      _ ≤ 2 ^ p := pow_le_pow_right₀ (by norm_num) hp
  have h3 : 2 * Real.log x / 2 ^ p ≤ Real.log x / 2 := by
    rw [div_le_div_iff₀ (by positivity) (by norm_num)]
    nlinarith
  have := (abs_le.1 h1).1
  have : (0 : ℝ) < lg x := by linarith
  exact_mod_cast this

private theorem raw_value {p : ℕ} (hp : 2 ≤ p) {lg : ℚ → ℚ} (h : GoodLog p lg) (em : ErrModel) {a b x : ℚ} (ha : 0 < a) (hax : a < x)
    (hab : a < b) (fa : IsFloat p a) (fb : IsFloat p b) :
    rawCdfR em (roundBits p) lg a b (.fin x) = .ok (.fin (roundBits p (lg (roundBits p (x / a)) / lg (roundBits p (b / a))))) := by
  have hb := ratio_gt hp ha hab fa fb
  have hlb := good_pos hp h hb
  have hx : 0 < roundBits p (x / a) := roundBits_pos p (by omega) (div_pos (ha.trans hax) ha)
  have hd : divR em (roundBits p) (.fin b) (.fin a) = .ok (.fin (roundBits p (b / a))) := by
    unfold divR
    rw [if_neg (by simp [XF.beq, ha.ne']), XF.div_fin _ _ ha.ne']
    rfl
  unfold rawCdfR
  rw [hd, Py.bind_ok, XF.div_fin _ _ ha.ne']
  simp only [rnd, logR]
  rw [if_neg (not_lt.2 hx.le), if_neg hx.ne', if_neg (by linarith), if_neg (by linarith), XF.div_fin _ _ hlb.ne']

/-- The computed value. -/
private def val (p : ℕ) (lg : ℚ → ℚ) (a b x : ℚ) : ℚ :=
  if x ≤ a then 0 else if b ≤ x then 1 else roundBits p (lg (roundBits p (x / a)) / lg (roundBits p (b / a)))

private theorem cdf_value {p : ℕ} (hp : 2 ≤ p) {lg : ℚ → ℚ} (h : GoodLog p lg) (em : ErrModel) (one : ℚ) {a b : ℚ} (ha : 0 < a) (hab : a < b)
    (fa : IsFloat p a) (fb : IsFloat p b) (x : ℚ) :
    logCdfR em (roundBits p) lg one (some a) (some b) (.fin x) = .ok (.fin (val p lg a b x)) := by
  unfold logCdfR val
  simp only [Option.getD_some, XF.isNan_fin, Bool.false_eq_true, if_false, XF.le_fin, XF.lt_fin, decide_eq_true_eq]
  by_cases h1 : x ≤ a
  · rw [if_pos h1, if_neg (by linarith), if_neg (by linarith)]
  · rw [if_neg h1]
    by_cases h2 : b ≤ x
    · rw [if_pos h2, if_pos h2]
    · rw [if_neg h2, if_neg h2, if_pos (by linarith), raw_value hp h _ ha (by linarith) hab fa fb]

/-- C144 (range): for floats `0 < a < b` every number has a probability between 0 and 1 that does not decrease from one number to a
greater one; it is 0 up to `a`, positive for every float above `a` and 1 from `b` on. -/
theorem C144_range (p : ℕ) (hp : 2 ≤ p) (lg : ℚ → ℚ) (h : MonoLog p lg) (em : ErrModel) (one a b : ℚ) (ha : 0 < a) (hab : a < b)
    (fa : IsFloat p a) (fb : IsFloat p b) :
    ∃ F : ℚ → ℚ, (∀ x, logCdfR em (roundBits p) lg one (some a) (some b) (.fin x) = .ok (.fin (F x))) ∧ Monotone F ∧
      (∀ x, 0 ≤ F x ∧ F x ≤ 1) ∧ (∀ x, x ≤ a → F x = 0) ∧ (∀ x, IsFloat p x → a < x → 0 < F x) ∧ ∀ x, b ≤ x → F x = 1 := by
  have hp1 : 1 ≤ p := by omega
  have hb := ratio_gt hp ha hab fa fb
  have hlb := good_pos hp h.good hb
  have h1 : lg 1 = 0 := by
    have := h.good 1 one_pos
    simp at this
    exact this
  have h0 : ∀ x, a < x → 0 ≤ lg (roundBits p (x / a)) := by
    intro x hx
    have h2 : 1 ≤ roundBits p (x / a) := by
      have := roundBits_mono p hp1 ((one_le_div ha).2 hx.le)
      rwa [roundBits_one p hp1] at this
    have := h.mono 1 _ one_pos h2
    rwa [h1] at this
  have hm : ∀ x y, a < x → x ≤ y → lg (roundBits p (x / a)) ≤ lg (roundBits p (y / a)) := by
    intro x y hx hxy
    refine h.mono _ _ (roundBits_pos p hp1 (div_pos (ha.trans hx) ha)) (roundBits_mono p hp1 ?_)
    exact div_le_div_of_nonneg_right hxy ha.le
  have hv : ∀ x, 0 ≤ val p lg a b x ∧ val p lg a b x ≤ 1 := by
    intro x
    unfold val
    split_ifs with h2 h3
    · exact ⟨le_rfl, zero_le_one⟩
    · exact ⟨zero_le_one, le_rfl⟩
    · push Not at h2 h3
      refine ⟨roundBits_nonneg p hp1 (div_nonneg (h0 x h2) hlb.le), ?_⟩
      have := roundBits_mono p hp1 ((div_le_one hlb).2 (hm x b h2 h3.le))
      rwa [roundBits_one p hp1] at this
  refine ⟨val p lg a b, cdf_value hp h.good em one ha hab fa fb, ?_, hv, ?_, ?_, ?_⟩
  · intro x y hxy
    by_cases h2 : x ≤ a
    · have : val p lg a b x = 0 := if_pos h2
      rw [this]
      exact (hv y).1
    · by_cases h3 : b ≤ y
      · have : val p lg a b y = 1 := by
          unfold val
          rw [if_neg (by linarith), if_pos h3]
        rw [this]
        exact (hv x).2
      · push Not at h2 h3
        unfold val
        rw [if_neg (by linarith), if_neg (by linarith), if_neg (by linarith), if_neg (by linarith)]
        exact roundBits_mono p hp1 (div_le_div_of_nonneg_right (hm x y h2 hxy) hlb.le)
  · intro x hx
    exact if_pos hx
  · intro x fx hx
    unfold val
    rw [if_neg (by linarith)]
    split_ifs
    · exact one_pos
    · exact roundBits_pos p hp1 (div_pos (good_pos hp h.good (ratio_gt hp ha hx fa fx)) hlb)
  · intro x hx
    unfold val
    rw [if_neg (by linarith), if_pos hx]

private theorem near_log {p : ℕ} (hp : 8 ≤ p) {lg : ℚ → ℚ} (h : GoodLog p lg) {q : ℚ} (hq : 1 ≤ q) :
    |(lg (roundBits p q) : ℝ) - Real.log q| ≤ 1 / 2 ^ p * (2 * Real.log q + 3) := by
  have he0 : (0 : ℝ) < 1 / 2 ^ p := by positivity
  have he1 : (1 : ℝ) / 2 ^ p ≤ 1 / 256 := by
    apply one_div_le_one_div_of_le (by norm_num)
    calc (256 : ℝ) = 2 ^ 8 := by norm_num
      _ ≤ 2 ^ p := pow_le_pow_right₀ (by norm_num) hp
  have hu0 : 0 < roundBits p q := roundBits_pos p (by omega) (by linarith)
  have h1 : |(lg (roundBits p q) : ℝ) - Real.log (roundBits p q)| ≤ 2 * |Real.log (roundBits p q)| * (1 / 2 ^ p) := by
    rw [mul_one_div]
    exact h _ hu0
  have h2 : |(roundBits p q : ℝ) - q| ≤ q * (1 / 2 ^ p) := by
    have := roundBits_error p (by omega) q
    rw [abs_of_nonneg (by linarith : (0 : ℚ) ≤ q)] at this
    have h3 : |((roundBits p q - q : ℚ) : ℝ)| ≤ ((q / 2 ^ p : ℚ) : ℝ) := by exact_mod_cast this
    push_cast at h3
    rw [mul_one_div]
    exact h3
  have hq0 : (1 : ℝ) ≤ q := by exact_mod_cast hq
  have hu : (0 : ℝ) < roundBits p q := by exact_mod_cast hu0
  generalize (1 : ℝ) / 2 ^ p = ε at he0 he1 h1 h2 ⊢
  generalize (lg (roundBits p q) : ℝ) = g at h1 ⊢
  generalize ((roundBits p q : ℚ) : ℝ) = u at h1 h2 hu
  generalize ((q : ℚ) : ℝ) = q at h2 hq0 ⊢
  have hqp : 0 < q := by linarith
  have hL : 0 ≤ Real.log q := Real.log_nonneg hq0
  obtain ⟨h3, h4⟩ := abs_le.1 h2
  have e1 : Real.log u - Real.log q ≤ ε := by
    rw [← Real.log_div hu.ne' hqp.ne']
    have := Real.log_le_sub_one_of_pos (div_pos hu hqp)
    have h5 : u / q ≤ 1 + ε := by
      rw [div_le_iff₀ hqp]
      linarith
    linarith
  have e2 : Real.log q - Real.log u ≤ 257 / 256 * ε + ε ^ 2 := by
    rw [← Real.log_div hqp.ne' hu.ne']
    have := Real.log_le_sub_one_of_pos (div_pos hqp hu)
    have h5 : q / u ≤ 1 + 257 / 256 * ε + ε ^ 2 := by
      rw [div_le_iff₀ hu]
      have h6 : q * (1 - ε) ≤ u := by linarith
      have h7 : q * 1 ≤ q * ((1 - ε) * (1 + 257 / 256 * ε + ε ^ 2)) := by
        apply mul_le_mul_of_nonneg_left _ hqp.le
        nlinarith [sq_nonneg ε]
      have h8 : q * (1 - ε) * (1 + 257 / 256 * ε + ε ^ 2) ≤ u * (1 + 257 / 256 * ε + ε ^ 2) :=
        mul_le_mul_of_nonneg_right h6 (by positivity)
      linarith
    linarith
  have e3 : ε ^ 2 ≤ 1 / 256 * ε := by nlinarith
  have e4 : |Real.log u - Real.log q| ≤ 258 / 256 * ε := abs_le.2 ⟨by linarith, by linarith⟩
  have e5 : |Real.log u| ≤ Real.log q + 258 / 256 * ε := by
    have := abs_add_le (Real.log u - Real.log q) (Real.log q)
    rw [sub_add_cancel, abs_of_nonneg hL] at this
    linarith
  have e6 : |g - Real.log q| ≤ |g - Real.log u| + |Real.log u - Real.log q| := by
    have := abs_add_le (g - Real.log u) (Real.log u - Real.log q)
    rwa [sub_add_sub_cancel] at this
  have e7 : 2 * |Real.log u| * ε ≤ 2 * (Real.log q + 258 / 256 * ε) * ε :=
    mul_le_mul_of_nonneg_right (by linarith) he0.le
  nlinarith

/-- C144 (error): for floats `0 < a < b` the computed probability is the exact one up to `(8 + 16 / log (b / a)) / 2 ^ p`. -/
theorem C144_error (p : ℕ) (hp : 8 ≤ p) (lg : ℚ → ℚ) (h : MonoLog p lg) (em : ErrModel) (one a b : ℚ) (ha : 0 < a) (hab : a < b)
    (fa : IsFloat p a) (fb : IsFloat p b) (x y : ℚ) (hy : logCdfR em (roundBits p) lg one (some a) (some b) (.fin x) = .ok (.fin y)) :
    |(y : ℝ) - logShare a b x| ≤ (8 + 16 / Real.log (b / a)) / 2 ^ p := by
  have hp1 : 1 ≤ p := by omega
  rw [cdf_value (by omega) h.good em one ha hab fa fb, Except.ok.injEq, XF.fin.injEq] at hy
  subst hy
  have ha' : (0 : ℝ) < a := by exact_mod_cast ha
  have hab' : (a : ℝ) < b := by exact_mod_cast hab
  have hD : 0 < Real.log (b / a) := Real.log_pos ((one_lt_div ha').2 hab')
  have hR : 0 ≤ (8 + 16 / Real.log (b / a)) / 2 ^ p := by positivity
  by_cases h1 : x ≤ a
  · have e1 : val p lg a b x = 0 := if_pos h1
    have e2 : logShare a b x = 0 := if_pos (by exact_mod_cast h1)
    rw [e1, e2]
    simpa using hR
  by_cases h2 : b ≤ x
  · have e1 : val p lg a b x = 1 := by unfold val; rw [if_neg h1, if_pos h2]
    have e2 : logShare a b x = 1 := by
      unfold logShare
      rw [if_neg (by exact_mod_cast h1), if_pos (by exact_mod_cast h2)]
    rw [e1, e2]
    simpa using hR
  have e1 : val p lg a b x = roundBits p (lg (roundBits p (x / a)) / lg (roundBits p (b / a))) := by
    unfold val; rw [if_neg h1, if_neg h2]
  have e2 : logShare a b x = Real.log (x / a) / Real.log (b / a) := by
    unfold logShare
    rw [if_neg (by exact_mod_cast h1), if_neg (by exact_mod_cast h2)]
  obtain ⟨F, f1, -, f2, -, -, -⟩ := C144_range p (by omega) lg h em one a b ha hab fa fb
  have f3 := f1 x
  rw [cdf_value (by omega) h.good em one ha hab fa fb, Except.ok.injEq, XF.fin.injEq] at f3
  have f4 : (0 : ℝ) ≤ val p lg a b x ∧ (val p lg a b x : ℝ) ≤ 1 := by
    rw [f3]
    exact ⟨by exact_mod_cast (f2 x).1, by exact_mod_cast (f2 x).2⟩
  push Not at h1 h2
  have h1' : (a : ℝ) < x := by exact_mod_cast h1
  have h2' : (x : ℝ) < b := by exact_mod_cast h2
  have hL : 0 < Real.log (x / a) := Real.log_pos ((one_lt_div ha').2 h1')
  have hLD : Real.log (x / a) ≤ Real.log (b / a) :=
    Real.log_le_log (div_pos (ha'.trans h1') ha') (div_le_div_of_nonneg_right h2'.le ha'.le)
  have n1 := near_log hp h.good ((one_le_div ha).2 h1.le)
  have n2 := near_log hp h.good ((one_le_div ha).2 hab.le)
  have hd : (0 : ℝ) < lg (roundBits p (b / a)) := by
    exact_mod_cast good_pos (by omega) h.good (ratio_gt (by omega) ha hab fa fb)
  have n0 : (lg (roundBits p (x / a)) : ℝ) ≤ lg (roundBits p (b / a)) := by
    exact_mod_cast h.mono _ _ (roundBits_pos p hp1 (div_pos (ha.trans h1) ha))
      (roundBits_mono p hp1 (div_le_div_of_nonneg_right h2.le ha.le))
  have n00 : (0 : ℝ) ≤ lg (roundBits p (x / a)) := by
    have t1 : 1 ≤ roundBits p (x / a) := by
      have := roundBits_mono p hp1 ((one_le_div ha).2 h1.le)
      rwa [roundBits_one p hp1] at this
    have t2 := h.mono 1 _ one_pos t1
    have t3 : lg 1 = 0 := by
      have := h.good 1 one_pos
      simp at this
      exact this
    rw [t3] at t2
    exact_mod_cast t2
  have hr := roundBits_error p hp1 (lg (roundBits p (x / a)) / lg (roundBits p (b / a)))
  rw [← e1] at hr
  have hr' : |(val p lg a b x : ℝ) - lg (roundBits p (x / a)) / lg (roundBits p (b / a))| ≤
      |(lg (roundBits p (x / a)) : ℝ) / lg (roundBits p (b / a))| * (1 / 2 ^ p) := by
    rw [mul_one_div]
    exact_mod_cast hr
  rw [e2, div_eq_mul_one_div _ ((2 : ℝ) ^ p)]
  have he0 : (0 : ℝ) < 1 / 2 ^ p := by positivity
  have he1 : (1 : ℝ) / 2 ^ p ≤ 1 / 256 := by
    apply one_div_le_one_div_of_le (by norm_num)
    calc (256 : ℝ) = 2 ^ 8 := by norm_num
      _ ≤ 2 ^ p := pow_le_pow_right₀ (by norm_num) hp
  push_cast at n1 n2
  generalize (1 : ℝ) / 2 ^ p = ε at *
  generalize (lg (roundBits p (x / a)) : ℝ) = n at *
  generalize (lg (roundBits p (b / a)) : ℝ) = d at *
  generalize (val p lg a b x : ℝ) = y at *
  generalize Real.log ((x : ℝ) / a) = L at *
  generalize Real.log ((b : ℝ) / a) = D at *
  clear f1 f2 f3 e1 e2 hr h h1 h2 h1' h2' hR ha hab fa fb ha' hab'
  have hLd : L / D ≤ 1 := (div_le_one hD).2 hLD
  have hL0 : 0 ≤ L / D := (div_pos hL hD).le
  by_cases hs : D < 16 * ε
  · have t1 : 1 ≤ 16 / D * ε := by
      rw [div_mul_eq_mul_div, le_div_iff₀ hD]
      linarith
    have t2 : |y - L / D| ≤ 1 := abs_le.2 ⟨by linarith, by linarith⟩
    have : (8 + 16 / D) * ε = 8 * ε + 16 / D * ε := by ring
    linarith
  push Not at hs
  have hq1 : n / d ≤ 1 := (div_le_one hd).2 n0
  have hq0 : 0 ≤ n / d := div_nonneg n00 hd.le
  rw [abs_of_nonneg hq0] at hr'
  have hr2 : |y - n / d| ≤ ε := hr'.trans (by nlinarith)
  have hdD : 3 / 4 * D ≤ d := by
    have := (abs_le.1 n2).1
    nlinarith
  have key : n / d - L / D = ((n - L) - (d - D) * (L / D)) / d := by
    field_simp
    ring
  have n3 : |n - L| ≤ ε * (2 * D + 3) := n1.trans (mul_le_mul_of_nonneg_left (by linarith) he0.le)
  have n4 : |(d - D) * (L / D)| ≤ ε * (2 * D + 3) := by
    rw [abs_mul, abs_of_nonneg hL0]
    calc |d - D| * (L / D) ≤ |d - D| * 1 := mul_le_mul_of_nonneg_left hLd (abs_nonneg _)
      _ ≤ _ := by rw [mul_one]; exact n2
  have n5 : |n / d - L / D| ≤ 2 * (ε * (2 * D + 3)) / (3 / 4 * D) := by
    rw [key, abs_div, abs_of_pos hd]
    apply div_le_div₀ (by positivity) _ (by positivity) hdD
    have := abs_sub (n - L) ((d - D) * (L / D))
    linarith
  have n6 : 2 * (ε * (2 * D + 3)) / (3 / 4 * D) = 16 / 3 * ε + 8 / D * ε := by
    field_simp
    ring
  have n7 : |y - L / D| ≤ |y - n / d| + |n / d - L / D| := by
    have := abs_add_le (y - n / d) (n / d - L / D)
    rwa [sub_add_sub_cancel] at this
  have n8 : 0 ≤ 8 / D * ε := by positivity
  have : (8 + 16 / D) * ε = 8 * ε + 2 * (8 / D * ε) := by ring
  linarith

/-- C144 (unit): multiplying both bounds and the argument by the same number changes no bit. -/
theorem C144_scale {K : Type} [Field K] [LinearOrder K] [IsStrictOrderedRing K] (r lg : K → K) (em : ErrModel) (one a b c : K) (hc : 0 < c) (x : XF K) :
    logCdfR em r lg one (some (c * a)) (some (c * b)) (XF.mul (.fin c) x) = logCdfR em r lg one (some a) (some b) x := by
  have hz : ∀ y : K, c * y = 0 ↔ y = 0 := fun y => by rw [mul_eq_zero, or_iff_right hc.ne']
  have hlt : ∀ u v : K, c * u < c * v ↔ u < v := fun u v => mul_lt_mul_iff_right₀ hc
  have hdiv : ∀ z : XF K, XF.div (XF.mul (.fin c) z) (.fin (c * a)) = XF.div z (.fin a) := by
    intro z
    have hpos : 0 < c * a ↔ 0 < a := by rw [← hlt 0 a, mul_zero]
    have hneg : c * a < 0 ↔ a < 0 := by rw [← hlt a 0, mul_zero]
    cases z with
    | nan => rfl
    | ninf => simp [XF.mul, XF.infSign, XF.neg, hc, XF.div, hz, hpos, hneg]
    | pinf => simp [XF.mul, XF.infSign, XF.neg, hc, XF.div, hz, hpos, hneg]
    | fin z =>
      by_cases ha : a = 0
      · subst ha
        have hzp : 0 < c * z ↔ 0 < z := by rw [← hlt 0 z, mul_zero]
        have hzn : c * z < 0 ↔ z < 0 := by rw [← hlt z 0, mul_zero]
        simp [XF.mul, XF.div, XF.infSign, hzp, hzn, hz]
      · rw [XF.mul_fin, XF.div_fin _ _ ((hz a).not.2 ha), XF.div_fin _ _ ha, mul_div_mul_left _ _ hc.ne']
  have hraw : ∀ em, rawCdfR em r lg (c * a) (c * b) (XF.mul (.fin c) x) = rawCdfR em r lg a b x := by
    intro em
    have h1 : divR em r (.fin (c * b)) (.fin (c * a)) = divR em r (.fin b) (.fin a) := by
      unfold divR
      rw [show (XF.fin (c * b)) = XF.mul (.fin c) (.fin b) from rfl, hdiv]
      have : XF.beq (.fin (c * a)) (.fin 0) = XF.beq (.fin a) (.fin (0 : K)) := by simp [XF.beq, hz]
      rw [this]
    unfold rawCdfR
    rw [h1, hdiv]
  have hn : (XF.mul (.fin c) x).isNan = x.isNan := by cases x <;> simp [XF.mul, XF.infSign, XF.neg, hc, XF.isNan]
  have hle : XF.le (.fin (c * b)) (XF.mul (.fin c) x) = XF.le (.fin b) x := by
    cases x <;> simp [XF.mul, XF.infSign, XF.neg, hc, XF.le, XF.lt, XF.beq, hlt, hc.ne']
  have hlt' : XF.lt (.fin (c * a)) (XF.mul (.fin c) x) = XF.lt (.fin a) x := by
    cases x <;> simp [XF.mul, XF.infSign, XF.neg, hc, XF.lt, hlt]
  unfold logCdfR
  simp only [Option.getD_some, hn, hle, hlt', hraw, Option.isNone_some, Bool.false_eq_true, if_false]

/-- C144 refuted: unlike in exact arithmetic (C74) a number below the upper bound can have probability one, with every good logarithm. -/
theorem C144_one_refuted (lg : ℚ → ℚ) (h : GoodLog 53 lg) (em : ErrModel) (one : ℚ) : ∃ a b x : ℚ, IsFloat 53 a ∧ IsFloat 53 b ∧ IsFloat 53 x ∧
    0 < a ∧ a < x ∧ x < b ∧ logCdfR em (roundBits 53) lg one (some a) (some b) (.fin x) = .ok (.fin 1) := by
  have fa : IsFloat 53 (3 / 2) := ⟨3, -1, by norm_num, by norm_num⟩
  have fb : IsFloat 53 (7881299347898369 / 4503599627370496) := ⟨7881299347898369, -52, by norm_num, by norm_num⟩
  have fx : IsFloat 53 (7 / 4) := ⟨7, -2, by norm_num, by norm_num⟩
  refine ⟨3 / 2, 7881299347898369 / 4503599627370496, 7 / 4, fa, fb, fx, by norm_num, by norm_num, by norm_num, ?_⟩
  rw [cdf_value (by norm_num) h em one (by norm_num) (by norm_num) fa fb]
  have e : roundBits 53 (7 / 4 / (3 / 2)) = roundBits 53 (7881299347898369 / 4503599627370496 / (3 / 2)) := by decide +kernel
  have hl := good_pos (by norm_num) h (ratio_gt (p := 53) (by norm_num) (a := 3 / 2) (x := 7 / 4) (by norm_num) (by norm_num) fa fx)
  unfold val
  rw [if_neg (by norm_num), if_neg (by norm_num), ← e, div_self hl.ne', roundBits_one 53 (by norm_num)]

section Examples

/-- Positive numbers brought down to a grid of constant ratio. -/
private noncomputable def grid (y : ℝ) : ℚ := (1 + 1 / 2 ^ 53) ^ ⌊Real.logb (1 + 1 / 2 ^ 53) y⌋

private theorem grid_mono {x y : ℝ} (hx : 0 < x) (h : x ≤ y) : grid x ≤ grid y :=
  zpow_le_zpow_right₀ (by norm_num) (Int.floor_le_floor (Real.logb_le_logb_of_le (by norm_num) hx h))

private theorem grid_pos (y : ℝ) : 0 < grid y := zpow_pos (by norm_num) _

private theorem grid_error {y : ℝ} (hy : 0 < y) : |(grid y : ℝ) - y| ≤ 2 * y / 2 ^ 53 := by
  have hb : (1 : ℝ) < 1 + 1 / 2 ^ 53 := by norm_num
  have e : (grid y : ℝ) = (1 + 1 / 2 ^ 53) ^ (⌊Real.logb (1 + 1 / 2 ^ 53) y⌋ : ℝ) := by
    unfold grid
    push_cast
    rw [Real.rpow_intCast]
  have h1 : (grid y : ℝ) ≤ y := by
    rw [e]
    exact (Real.rpow_le_rpow_of_exponent_le hb.le (Int.floor_le _)).trans (Real.rpow_logb (by linarith) hb.ne' hy).le
  have h2 : y ≤ grid y * (1 + 1 / 2 ^ 53) := by
    have h3 : y = (1 + 1 / 2 ^ 53 : ℝ) ^ Real.logb (1 + 1 / 2 ^ 53) y := (Real.rpow_logb (by linarith) hb.ne' hy).symm
    have h4 := Real.rpow_le_rpow_of_exponent_le hb.le (Int.lt_floor_add_one (Real.logb (1 + 1 / 2 ^ 53) y)).le
    rw [← h3, Real.rpow_add (by linarith), Real.rpow_one, ← e] at h4
    exact h4
  rw [abs_le]
  constructor <;> linarith

/-- Double precision: a logarithm as assumed exists. -/
private theorem exists_mono_log : ∃ lg, MonoLog 53 lg := by
  refine ⟨fun x => if (1 : ℚ) < x then grid (Real.log x) else if x < 1 then -grid (-Real.log x) else 0, ?_, ?_⟩
  · intro x hx
    have hx' : (0 : ℝ) < x := by exact_mod_cast hx
    dsimp only
    split_ifs with h1 h2
    · have hl : 0 < Real.log x := Real.log_pos (by exact_mod_cast h1)
      rw [abs_of_pos hl]
      exact grid_error hl
    · have hl : Real.log x < 0 := Real.log_neg hx' (by exact_mod_cast h2)
      rw [abs_of_neg hl]
      have := grid_error (neg_pos.2 hl)
      push_cast
      rw [show -(grid (-Real.log x) : ℝ) - Real.log x = -((grid (-Real.log x) : ℝ) - -Real.log x) by ring, abs_neg]
      exact this
    · have : x = 1 := le_antisymm (not_lt.1 h1) (not_lt.1 h2)
      simp [this]
  · intro x y hx hxy
    have hx' : (0 : ℝ) < x := by exact_mod_cast hx
    have hxy' : (x : ℝ) ≤ y := by exact_mod_cast hxy
    have hl := Real.log_le_log hx' hxy'
    by_cases h1 : 1 < x
    · rw [if_pos h1, if_pos (by linarith)]
      exact grid_mono (Real.log_pos (by exact_mod_cast h1)) hl
    · rw [if_neg h1]
      have hneg : (if x < 1 then -grid (-Real.log x) else 0) ≤ 0 := by
        split_ifs
        · exact (neg_neg_of_pos (grid_pos _)).le
        · exact le_rfl
      by_cases h2 : 1 < y
      · rw [if_pos h2]
        exact hneg.trans (grid_pos _).le
      · rw [if_neg h2]
        by_cases h3 : y < 1
        · rw [if_pos h3, if_pos (by linarith)]
          have : Real.log y < 0 := Real.log_neg (by linarith) (by exact_mod_cast h3)
          exact neg_le_neg (grid_mono (by linarith) (by linarith))
        · rw [if_neg h3]
          exact hneg

/-- Between 0.0001 (its double) and 1, as for a regularisation parameter: the value at one hundredth (its double) is within
`12 / 2 ^ 53` of the exact one. -/
example : ∃ lg, MonoLog 53 lg ∧ ∃ y : ℚ,
    logCdfR .python (roundBits 53) lg 3 (some (roundBits 53 (1 / 10000))) (some 1) (.fin (roundBits 53 (1 / 100))) = .ok (.fin y) ∧
      0 < y ∧ y ≤ 1 ∧
      |(y : ℝ) - logShare ((roundBits 53 (1 / 10000) : ℚ) : ℝ) ((1 : ℚ) : ℝ) ((roundBits 53 (1 / 100) : ℚ) : ℝ)| ≤
        (8 + 16 / Real.log (((1 : ℚ) : ℝ) / (roundBits 53 (1 / 10000) : ℚ))) / 2 ^ 53 := by
  obtain ⟨lg, h⟩ := exists_mono_log
  have ha : 0 < roundBits 53 (1 / 10000) := roundBits_pos 53 (by norm_num) (by norm_num)
  have hab : roundBits 53 (1 / 10000) < 1 := by
    rw [show roundBits 53 (1 / 10000) = 7378697629483821 / 73786976294838206464 by decide +kernel]
    norm_num
  have fa := isFloat_roundBits 53 (by norm_num) (1 / 10000)
  have fb : IsFloat 53 1 := ⟨1, 0, by norm_num, by norm_num⟩
  obtain ⟨F, f1, -, f2, -, f3, -⟩ := C144_range 53 (by norm_num) lg h .python 3 _ 1 ha hab fa fb
  refine ⟨lg, h, F (roundBits 53 (1 / 100)), f1 _, f3 _ (isFloat_roundBits 53 (by norm_num) _) ?_, (f2 _).2, ?_⟩
  · rw [show roundBits 53 (1 / 10000) = 7378697629483821 / 73786976294838206464 by decide +kernel,
      show roundBits 53 (1 / 100) = 5764607523034235 / 576460752303423488 by decide +kernel]
    norm_num
  · exact C144_error 53 (by norm_num) lg h .python 3 _ 1 ha hab fa fb _ _ (f1 _)

example : ∃ lg, ∃ a b x : ℚ, IsFloat 53 a ∧ IsFloat 53 b ∧ IsFloat 53 x ∧ 0 < a ∧ a < x ∧ x < b ∧
    logCdfR .numpy (roundBits 53) lg 3 (some a) (some b) (.fin x) = .ok (.fin 1) := by
  obtain ⟨lg, h⟩ := exists_mono_log
  exact ⟨lg, C144_one_refuted lg h.good .numpy 3⟩

example (lg : ℚ → ℚ) : logCdfR .python (roundBits 53) lg 3 (some (8 * 3)) (some (8 * 7)) (XF.mul (.fin 8) (.fin 5)) =
    logCdfR .python (roundBits 53) lg 3 (some 3) (some 7) (.fin 5) := C144_scale _ lg .python 3 3 7 8 (by norm_num) (.fin 5)

end Examples

end Mizar.Props
