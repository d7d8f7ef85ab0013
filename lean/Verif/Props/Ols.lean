import Verif.Lemmas.Ols

/-! Property theorem C67: ordinary least squares (`/repo/mizarlabs/structural_breaks/sdfc.py` lines 41-60). -/

namespace Mizar.Props
open Mizar.Spec Mizar.Brk Finset

/-- C67 (least squares): with independent columns the coefficients are the only ones that minimise the sum of squared
residuals.  With more rows than columns the second result is the textbook covariance; with as many rows as columns the
residual variance is 0/0 and the covariance is missing. -/
theorem C67_least_squares {k : ℕ} (w : List (RRow k)) (h : FullRank w) :
    ∃ c V, ols (w.map liftRow) = .ok (fun i => .fin (c i), V) ∧ IsLeastSquares w c ∧ (∀ d, IsLeastSquares w d → d = c) ∧
      (k < w.length → ∃ C : Matrix (Fin k) (Fin k) ℝ, V = (fun i j => .fin (C i j)) ∧ IsCovariance w c C) ∧
      (w.length = k → V = fun _ _ => .nan) := by
  have hd := (fullRank_iff w).1 h
  refine ⟨betaR w, _, by rw [ols_fin, if_neg hd], betaR_least w hd, fun d => betaR_unique w hd d, ?_, ?_⟩
  · intro hk
    have hne : (w.length : ℝ) - k ≠ 0 := by
      have : (k : ℝ) < w.length := by exact_mod_cast hk
      linarith
    refine ⟨(rss w (betaR w) / ((w.length : ℝ) - k)) • (gram w)⁻¹, ?_, ?_⟩
    · funext i j
      rw [XF.div_fin _ _ hne, XF.mul_fin]; rfl
    · unfold IsCovariance
      rw [Matrix.smul_mul, Matrix.nonsing_inv_mul _ (Ne.isUnit hd)]
  · intro hk
    -- with as many independent columns as rows the fit is exact
    have h0 : rss w (betaR w) = 0 := by
      have hex : ∃ c : Fin k → ℝ, ∀ r ∈ w, predict c r.1 = r.2 := by
        let g : Fin k → RRow k := fun i => w.get (Fin.cast hk.symm i)
        have hg : ∀ r ∈ w, ∃ i, g i = r := by
          intro r hr
          obtain ⟨i, hi⟩ := List.get_of_mem hr
          exact ⟨Fin.cast hk i, hi⟩
        let M : Matrix (Fin k) (Fin k) ℝ := Matrix.of fun i j => (g i).1 j
        have hM : M.det ≠ 0 := by
          intro h0
          obtain ⟨v, hv, hz⟩ := Matrix.exists_mulVec_eq_zero_iff.2 h0
          apply hv
          apply h
          intro r hr
          obtain ⟨i, rfl⟩ := hg r hr
          exact congrFun hz i
        refine ⟨M⁻¹.mulVec fun i => (g i).2, ?_⟩
        intro r hr
        obtain ⟨i, rfl⟩ := hg r hr
        have : M.mulVec (M⁻¹.mulVec fun i => (g i).2) i = (g i).2 := by
          rw [Matrix.mulVec_mulVec, Matrix.mul_nonsing_inv _ (Ne.isUnit hM), Matrix.one_mulVec]
        exact this
      obtain ⟨c, hc⟩ := hex
      have h1 := betaR_least w hd c
      have h2 : rss w c = 0 := by
        unfold rss
        apply List.sum_eq_zero
        intro x hx
        obtain ⟨r, hr, rfl⟩ := List.mem_map.1 hx
        rw [hc r hr, sub_self]; norm_num
      have h3 : 0 ≤ rss w (betaR w) := List.sum_nonneg (by
        intro x hx
        obtain ⟨r, -, rfl⟩ := List.mem_map.1 hx
        positivity)
      linarith
    funext i j
    rw [h0, hk, sub_self]
    simp [XF.div, XF.infSign]

/-- C67 (error): dependent columns, in particular fewer rows than columns, raise `LinAlgError`. -/
theorem C67_rank_deficient {k : ℕ} (w : List (RRow k)) :
    (¬ FullRank w → ols (w.map liftRow) = .error .linAlgError) ∧ (w.length < k → ols (w.map liftRow) = .error .linAlgError) := by
  have h1 : ¬ FullRank w → ols (w.map liftRow) = .error .linAlgError := by
    intro h
    rw [ols_fin, if_pos (by by_contra hd; exact h ((fullRank_iff w).2 hd))]
  exact ⟨h1, fun h => h1 fun hf => by have := le_length_of_fullRank w hf; omega⟩

theorem sum_not_finite (l : List (XF ℝ)) (a : XF ℝ) (h : isFinite a = false ∨ ∃ x ∈ l, isFinite x = false) :
    isFinite (l.foldl XF.add a) = false := by
  induction l generalizing a with
  | nil =>
    rcases h with h | ⟨x, hx, -⟩
    · exact h
    · simp at hx
  | cons b l ih =>
    rw [List.foldl_cons]
    apply ih
    rcases h with h | ⟨x, hx, h⟩
    · left
      cases a <;> cases b <;> simp_all [isFinite, XF.add]
    · rcases List.mem_cons.1 hx with rfl | hx
      · left
        cases a <;> cases x <;> simp_all [isFinite, XF.add]
      · exact Or.inr ⟨x, hx, h⟩

/-- C67 (error): a regressor that is missing or infinite raises `LinAlgError`. -/
theorem C67_not_finite {k : ℕ} (w : List (Row k)) (r : Row k) (hr : r ∈ w) (i : Fin k) (hi : ∀ x : ℝ, r.1 i ≠ .fin x) :
    ols w = .error .linAlgError := by
  have hf : isFinite (gramX w i i) = false := by
    unfold gramX
    rw [Matrix.of_apply]
    apply sum_not_finite
    right
    refine ⟨XF.mul (r.1 i) (r.1 i), List.mem_map.2 ⟨r, hr, rfl⟩, ?_⟩
    cases h : r.1 i with
    | fin x => exact absurd h (hi x)
    | nan => rfl
    | pinf => rfl
    | ninf => rfl
  unfold ols
  dsimp only
  have : invX (gramX w) = .error .linAlgError := by
    unfold invX
    dsimp only
    rw [if_pos]
    intro h
    rw [h i i] at hf
    cases hf
  rw [this]; rfl

theorem rss_nonneg {k : ℕ} (w : List (RRow k)) (c : Fin k → ℝ) : 0 ≤ rss w c := List.sum_nonneg (by
  intro x hx
  obtain ⟨r, -, rfl⟩ := List.mem_map.1 hx
  positivity)

theorem rss_eq_zero_iff {k : ℕ} (w : List (RRow k)) (c : Fin k → ℝ) : rss w c = 0 ↔ ∀ r ∈ w, r.2 = predict c r.1 := by
  constructor
  · intro h r hr
    have := sum_sq_eq_zero w (fun r => r.2 - predict c r.1) h r hr
    linarith
  · intro h
    unfold rss
    apply List.sum_eq_zero
    intro x hx
    obtain ⟨r, hr, rfl⟩ := List.mem_map.1 hx
    rw [h r hr, sub_self]; norm_num

/-- C67 (exact fit): targets that are a linear function of the regressors give its coefficients and a covariance of
zero. -/
theorem C67_exact_fit {k : ℕ} (w : List (RRow k)) (h : FullRank w) (hk : k < w.length) (c : Fin k → ℝ) (hc : ∀ r ∈ w, r.2 = predict c r.1) :
    ols (w.map liftRow) = .ok (fun i => .fin (c i), fun _ _ => .fin 0) := by
  have hd := (fullRank_iff w).1 h
  have h0 := (rss_eq_zero_iff w c).2 hc
  have hb : c = betaR w := betaR_unique w hd c fun d => by rw [h0]; exact rss_nonneg w d
  have hne : (w.length : ℝ) - k ≠ 0 := by
    have : (k : ℝ) < w.length := by exact_mod_cast hk
    linarith
  rw [ols_fin, if_neg hd, ← hb, h0, XF.div_fin _ _ hne]
  simp

/-- No linear function of the regressors gives the targets. -/
def NoExactFit {k : ℕ} (w : List (RRow k)) : Prop := ∀ c : Fin k → ℝ, ∃ r ∈ w, r.2 ≠ predict c r.1

theorem tValue_spec (em : ErrModel) {k : ℕ} (w : List (RRow k)) (h : FullRank w) (hk : k < w.length) (hn : NoExactFit w) (j : Fin k) :
    tValue em j (w.map liftRow) = .ok (.fin (betaR w j / Real.sqrt (rss w (betaR w) / ((w.length : ℝ) - k) * (gram w)⁻¹ j j))) ∧
      0 < rss w (betaR w) / ((w.length : ℝ) - k) * (gram w)⁻¹ j j := by
  have hd := (fullRank_iff w).1 h
  have hpos : 0 < (w.length : ℝ) - k := by
    have : (k : ℝ) < w.length := by exact_mod_cast hk
    linarith
  have hr : 0 < rss w (betaR w) := by
    rcases (rss_nonneg w (betaR w)).lt_or_eq with hlt | heq
    · exact hlt
    · obtain ⟨r, hr, hne⟩ := hn (betaR w)
      exact absurd ((rss_eq_zero_iff w (betaR w)).1 heq.symm r hr) hne
  have hv : 0 < rss w (betaR w) / ((w.length : ℝ) - k) * (gram w)⁻¹ j j := mul_pos (div_pos hr hpos) (inv_diag_nonneg w hd j)
  refine ⟨?_, hv⟩
  unfold tValue
  rw [ols_fin, if_neg hd, Py.bind_ok]
  dsimp only
  rw [XF.div_fin _ _ hpos.ne', XF.mul_fin, XF.sqrt_fin hv.le]
  unfold divE
  have hs := Real.sqrt_pos.2 hv
  rw [if_neg (by rw [XF.beq_fin, decide_eq_true_eq]; exact fun h => hs.ne' h.2), XF.div_fin _ _ hs.ne']

theorem isTValue_iff {k : ℕ} (w : List (RRow k)) (h : FullRank w) (j : Fin k) (r : ℝ) :
    IsTValue w j r ↔ r = betaR w j / Real.sqrt (rss w (betaR w) / ((w.length : ℝ) - k) * (gram w)⁻¹ j j) := by
  have hd := (fullRank_iff w).1 h
  constructor
  · rintro ⟨c, V, h1, h2, rfl⟩
    have := betaR_unique w hd c h1
    subst this
    have hV : V = (rss w (betaR w) / ((w.length : ℝ) - k)) • (gram w)⁻¹ := by
      have := congrArg (· * (gram w)⁻¹) h2
      simpa [Matrix.mul_assoc, Matrix.mul_nonsing_inv _ (Ne.isUnit hd)] using this
    rw [hV]; rfl
  · rintro rfl
    refine ⟨betaR w, (rss w (betaR w) / ((w.length : ℝ) - k)) • (gram w)⁻¹, betaR_least w hd, ?_, rfl⟩
    unfold IsCovariance
    rw [Matrix.smul_mul, Matrix.nonsing_inv_mul _ (Ne.isUnit hd)]

/-- C67 (t-value): with independent columns, more rows than columns and no exact fit, the ratio formed from the result
is the t-value, which is a single number. -/
theorem C67_t_value (em : ErrModel) {k : ℕ} (w : List (RRow k)) (h : FullRank w) (hk : k < w.length) (hn : NoExactFit w) (j : Fin k) :
    ∃ r, tValue em j (w.map liftRow) = .ok (.fin r) ∧ IsTValue w j r ∧ ∀ r', IsTValue w j r' → r' = r :=
  ⟨_, (tValue_spec em w h hk hn j).1, (isTValue_iff w h j _).2 rfl, fun _ hr => (isTValue_iff w h j _).1 hr⟩

/-- C67 (t-value of an exact fit): the ratio raises `ZeroDivisionError` with numba's default error model and is infinite
with the sign of the coefficient, or missing, with NumPy's. -/
theorem C67_t_value_exact_fit {k : ℕ} (w : List (RRow k)) (h : FullRank w) (hk : k < w.length) (c : Fin k → ℝ)
    (hc : ∀ r ∈ w, r.2 = predict c r.1) (j : Fin k) :
    tValue .python j (w.map liftRow) = .error .zeroDivisionError ∧
    tValue .numpy j (w.map liftRow) = .ok (if 0 < c j then .pinf else if c j < 0 then .ninf else .nan) := by
  unfold tValue
  rw [C67_exact_fit w h hk c hc, Py.bind_ok, Py.bind_ok]
  dsimp only
  rw [XF.sqrt_fin (le_refl _), Real.sqrt_zero]
  unfold divE
  constructor
  · rw [if_pos (by simp)]
  · rw [if_neg (by simp)]
    simp [XF.div, XF.infSign]

section Examples

/-- A line through (0, 0), (1, 0), (2, 1), (3, 1): intercept and slope. -/
private def line : List (RRow 2) := [(![1, 0], 0), (![1, 1], 0), (![1, 2], 1), (![1, 3], 1)]

private theorem line_rank : FullRank line := by
  intro c hc
  have h0 := hc (![1, 0], 0) (by simp [line])
  have h1 := hc (![1, 1], 0) (by simp [line])
  simp only [predict, Fin.sum_univ_two, Matrix.cons_val_zero, Matrix.cons_val_one] at h0 h1
  funext i
  fin_cases i
  · simpa using h0
  · simp at h0 h1 ⊢
    linarith

private theorem line_noFit : NoExactFit line := by
  intro c
  by_contra hne
  push Not at hne
  have h0 := hne (![1, 0], 0) (by simp [line])
  have h1 := hne (![1, 1], 0) (by simp [line])
  have h2 := hne (![1, 2], 1) (by simp [line])
  simp [predict, Fin.sum_univ_two] at h0 h1 h2
  linarith

example (em : ErrModel) : ∃ r, tValue em 1 (line.map liftRow) = .ok (.fin r) ∧ IsTValue line 1 r := by
  obtain ⟨r, h1, h2, -⟩ := C67_t_value em line line_rank (by simp [line]) line_noFit 1
  exact ⟨r, h1, h2⟩

/-- A column of zeros. -/
example : ols ([((![0] : Fin 1 → ℝ), (3 : ℝ)), (![0], 4)].map liftRow) = .error .linAlgError := by
  apply (C67_rank_deficient _).1
  intro h
  have := h ![1] (by simp [predict])
  have := congrFun this 0
  simp at this

/-- Twice the regressor. -/
example : ols ([((![1] : Fin 1 → ℝ), (2 : ℝ)), (![3], 6)].map liftRow) = .ok (fun i => .fin ((![2] : Fin 1 → ℝ) i), fun _ _ => .fin 0) := by
  apply C67_exact_fit
  · intro c hc
    have := hc (![1], 2) (by simp)
    funext i
    fin_cases i
    simpa [predict] using this
  · simp
  · simp [predict]; norm_num

end Examples

end Mizar.Props
