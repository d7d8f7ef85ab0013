import Verif.Lemmas.RoundedLog

/-! Lemmas about absolute log returns divided by volumes in floating point. -/

namespace Mizar.Rd
open Mizar.Spec

section
variable {K : Type} [Field K] [LinearOrder K]

theorem logMoves_getD (r lg : K → K) (C : List K) (hC : ∀ x ∈ C, 0 < x) (j : ℕ) (hj : j < C.length) :
    (logMovesR r lg (C.map .fin)).getD j .nan =
      if j = 0 then .nan else .fin |r (lg (C.getD j 0) - lg (C.getD (j - 1) 0))| := by
  have hlog : (C.map XF.fin).map (logR lg) = (C.map lg).map XF.fin := by
    rw [List.map_map, List.map_map]
    refine List.map_congr_left fun x hx => ?_
    have := hC x hx
    simp only [Function.comp, logR, if_neg (not_lt.2 this.le), if_neg this.ne']
  rw [logMovesR, hlog, diffR, pdDiff, pdShift, List.getD_eq_getElem _ _ (by simp; omega)]
  simp only [List.getElem_map, List.getElem_zipWith, List.getElem_take]
  cases j with
  | zero => rfl
  | succ j =>
    rw [if_neg (by omega), List.getElem_cons_succ, List.getElem_map, List.getElem_map, XF.sub_fin, rnd, XF.abs,
      List.getD_eq_getElem _ _ hj, Nat.add_sub_cancel, List.getD_eq_getElem _ _ (by omega)]

end

/-- One entry: a change of the logarithm divided by a volume. -/
theorem entry_near {a' b' d' V' q' a b V T e μ : ℝ} (he0 : 0 < e) (he : e ≤ 1 / 256) (hT0 : 0 ≤ T) (hμ : 0 < μ) (ha : |a| ≤ T)
    (hb : |b| ≤ T) (ha' : |a' - a| ≤ 2 * T * e) (hb' : |b' - b| ≤ 2 * T * e) (hd : |d' - (a' - b')| ≤ e * |a' - b'|)
    (hV : μ ≤ V) (hV' : |V' - V| ≤ V * e) (hq : |q' - |d'| / V'| ≤ e * |(|d'| / V')|) :
    |q' - |a - b| / V| ≤ 11 * T / μ * e ∧ |q'| ≤ 21 / 10 * (T / μ) := by
  have hV0 : 0 < V := by linarith
  have hVe : V * e ≤ V * (1 / 256) := mul_le_mul_of_nonneg_left he hV0.le
  have hV'1 : 255 / 256 * V ≤ V' := by linarith [(abs_le.1 hV').1]
  have hV'0 : 0 < V' := by linarith
  have hTe : 0 ≤ T * e := by positivity
  have hTe' : T * e ≤ T * (1 / 256) := mul_le_mul_of_nonneg_left he hT0
  -- the change
  have h1 : |a' - b' - (a - b)| ≤ 4 * (T * e) := by
    rw [show a' - b' - (a - b) = (a' - a) - (b' - b) by ring]
    have := abs_sub (a' - a) (b' - b)
    linarith
  have h2 : |a - b| ≤ 2 * T := by
    have := abs_sub a b
    linarith
  have h3 : |a' - b'| ≤ 2 * T + 4 * (T * e) := by
    have := abs_sub_abs_le_abs_sub (a' - b') (a - b)
    linarith
  have h4 : e * |a' - b'| ≤ e * (2 * T + 4 * (T * (1 / 256))) := mul_le_mul_of_nonneg_left (by linarith) he0.le
  have h5 : |d' - (a - b)| ≤ 602 / 100 * (T * e) := by
    have := abs_sub_le d' (a' - b') (a - b)
    linarith
  have h6 : |(|d'| - |a - b|)| ≤ 602 / 100 * (T * e) := (abs_abs_sub_abs_le_abs_sub _ _).trans h5
  have h7 : |d'| ≤ 203 / 100 * T := by
    have := (abs_le.1 h6).2
    linarith
  -- the quotient
  have i1 : 1 / V' ≤ 256 / 255 * (1 / μ) := by
    rw [mul_one_div, div_le_div_iff₀ hV'0 hμ]
    linarith
  have i0 : 0 < 1 / V' := by positivity
  have i2 : |(|d'| / V')| ≤ 204 / 100 * (T / μ) := by
    rw [abs_of_nonneg (by positivity), div_eq_mul_one_div]
    have k1 := mul_le_mul h7 i1 i0.le (by positivity)
    have k2 : 203 / 100 * T * (256 / 255 * (1 / μ)) = 203 / 100 * (256 / 255) * (T / μ) := by ring
    have k3 : 0 ≤ T / μ := by positivity
    linarith
  have i3 : |(|d'| / V' - |a - b| / V)| ≤ 81 / 10 * (T / μ * e) := by
    have e1 : |d'| / V' - |a - b| / V = (|d'| - |a - b|) * (1 / V') + |a - b| / V * ((V - V') * (1 / V')) := by
      field_simp
      ring
    have e2 : |V - V'| * (1 / V') ≤ 256 / 255 * e := by
      rw [abs_sub_comm, mul_one_div, div_le_iff₀ hV'0]
      have := mul_le_mul_of_nonneg_right hV'1 he0.le
      linarith
    have e3 : |a - b| / V ≤ 2 * (T / μ) := by
      rw [div_le_iff₀ hV0]
      have : T / μ * μ ≤ T / μ * V := mul_le_mul_of_nonneg_left hV (by positivity)
      rw [div_mul_cancel₀ _ hμ.ne'] at this
      linarith
    have e4 : |(|d'| - |a - b|) * (1 / V')| ≤ 602 / 100 * (T * e) * (256 / 255 * (1 / μ)) := by
      rw [abs_mul, abs_of_pos i0]
      exact mul_le_mul h6 i1 i0.le (by positivity)
    have e5 : |(|a - b| / V * ((V - V') * (1 / V')))| ≤ 2 * (T / μ) * (256 / 255 * e) := by
      rw [abs_mul, abs_of_nonneg (show 0 ≤ |a - b| / V by positivity), abs_mul, abs_of_pos i0]
      exact mul_le_mul e3 e2 (by positivity) (by positivity)
    rw [e1]
    refine (abs_add_le _ _).trans ((add_le_add e4 e5).trans ?_)
    have k2 : 602 / 100 * (T * e) * (256 / 255 * (1 / μ)) + 2 * (T / μ) * (256 / 255 * e) =
      802 / 100 * (256 / 255) * (T / μ * e) := by ring
    have k3 : 0 ≤ T / μ * e := by positivity
    rw [k2]
    linarith
  have k3 : 0 ≤ T / μ := by positivity
  have k4 : e * (T / μ) ≤ 1 / 256 * (T / μ) := mul_le_mul_of_nonneg_right he k3
  have i4 := mul_le_mul_of_nonneg_left i2 he0.le
  have hgoal : 11 * T / μ * e = 11 * (T / μ * e) := by ring
  constructor
  · have := abs_sub_le q' (|d'| / V') (|a - b| / V)
    rw [hgoal]
    have k5 : 0 ≤ T / μ * e := by positivity
    linarith
  · have := abs_sub_abs_le_abs_sub q' (|d'| / V')
    linarith

end Mizar.Rd
