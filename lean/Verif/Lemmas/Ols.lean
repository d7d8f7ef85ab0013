import Verif.Model.Ols
import Verif.Spec.Ols
import Mathlib.LinearAlgebra.Matrix.ToLinearEquiv

/-! Lemmas about least squares (C67). -/

namespace Mizar.Brk
open Mizar.Spec Finset

/-- Rows of finite numbers. -/
def liftRow {k : ℕ} (r : RRow k) : Row k := (fun j => .fin (r.1 j), .fin r.2)

theorem list_sum_comm {α : Type} {k : ℕ} (w : List α) (f : α → Fin k → ℝ) :
    (w.map fun r => ∑ j, f r j).sum = ∑ j, (w.map fun r => f r j).sum := by
  induction w with
  | nil => simp
  | cons a w ih => simp [ih, Finset.sum_add_distrib]

theorem list_sum_sub {α : Type} (w : List α) (f g : α → ℝ) : (w.map fun r => f r - g r).sum = (w.map f).sum - (w.map g).sum := by
  induction w with
  | nil => simp
  | cons a w ih => simp only [List.map_cons, List.sum_cons, ih]; ring

theorem dotX_fin {k : ℕ} (a b : Fin k → ℝ) : dotX (fun j => .fin (a j)) (fun j => .fin (b j)) = .fin (∑ j, a j * b j) := by
  unfold dotX
  have : (List.ofFn fun j => XF.mul (.fin (a j)) (.fin (b j))) = (List.ofFn fun j => a j * b j).map XF.fin := by
    rw [List.map_ofFn]; rfl
  rw [this, XF.sum_fin, List.sum_ofFn]

theorem gramX_fin {k : ℕ} (w : List (RRow k)) (i j : Fin k) : gramX (w.map liftRow) i j = .fin (gram w i j) := by
  unfold gramX gram
  simp only [Matrix.of_apply, List.map_map]
  exact XF.sum_map_fin w fun r => r.1 i * r.1 j

theorem gram_mulVec {k : ℕ} (w : List (RRow k)) (c : Fin k → ℝ) (i : Fin k) :
    (gram w).mulVec c i = (w.map fun r => r.1 i * predict c r.1).sum := by
  simp only [Matrix.mulVec, dotProduct, gram, Matrix.of_apply, predict, Finset.mul_sum]
  rw [list_sum_comm]
  apply Finset.sum_congr rfl
  intro j _
  rw [← List.sum_map_mul_right]
  congr 1
  apply List.map_congr_left
  intro r _
  ring

theorem dot_gram {k : ℕ} (w : List (RRow k)) (c : Fin k → ℝ) : ∑ i, c i * (gram w).mulVec c i = (w.map fun r => predict c r.1 ^ 2).sum := by
  simp only [gram_mulVec]
  have : ∀ i, c i * (w.map fun r => r.1 i * predict c r.1).sum = (w.map fun r => r.1 i * c i * predict c r.1).sum := by
    intro i
    rw [← List.sum_map_mul_left]
    congr 1
    apply List.map_congr_left
    intro r _
    ring
  simp only [this]
  rw [← list_sum_comm]
  congr 1
  apply List.map_congr_left
  intro r _
  rw [← Finset.sum_mul, sq]; rfl

theorem sum_sq_eq_zero {α : Type} (w : List α) (f : α → ℝ) (h : (w.map fun r => f r ^ 2).sum = 0) : ∀ r ∈ w, f r = 0 := by
  induction w with
  | nil => simp
  | cons a w ih =>
    simp only [List.map_cons, List.sum_cons] at h
    have hn : 0 ≤ (w.map fun r => f r ^ 2).sum := List.sum_nonneg (by
      intro x hx
      obtain ⟨r, -, rfl⟩ := List.mem_map.1 hx
      positivity)
    have h1 : f a ^ 2 = 0 := by nlinarith [sq_nonneg (f a)]
    have h2 : (w.map fun r => f r ^ 2).sum = 0 := by linarith
    intro r hr
    rcases List.mem_cons.1 hr with rfl | hr
    · simpa using h1
    · exact ih h2 r hr

theorem fullRank_iff {k : ℕ} (w : List (RRow k)) : FullRank w ↔ (gram w).det ≠ 0 := by
  constructor
  · intro h h0
    obtain ⟨v, hv, hz⟩ := Matrix.exists_mulVec_eq_zero_iff.2 h0
    apply hv
    apply h
    have := dot_gram w v
    rw [hz] at this
    simp only [Pi.zero_apply, mul_zero, Finset.sum_const_zero] at this
    exact sum_sq_eq_zero w (fun r => predict v r.1) this.symm
  · intro h c hc
    by_contra hne
    apply h
    apply Matrix.exists_mulVec_eq_zero_iff.1
    refine ⟨c, hne, ?_⟩
    funext i
    rw [gram_mulVec]
    simp only [Pi.zero_apply]
    apply List.sum_eq_zero
    intro x hx
    obtain ⟨r, hr, rfl⟩ := List.mem_map.1 hx
    rw [hc r hr, mul_zero]

/-- The coefficients of the code. -/
noncomputable def betaR {k : ℕ} (w : List (RRow k)) : Fin k → ℝ := (gram w)⁻¹.mulVec fun i => (w.map fun r => r.1 i * r.2).sum

theorem normal_eq {k : ℕ} (w : List (RRow k)) (h : (gram w).det ≠ 0) (i : Fin k) :
    (w.map fun r => r.1 i * predict (betaR w) r.1).sum = (w.map fun r => r.1 i * r.2).sum := by
  rw [← gram_mulVec]
  unfold betaR
  rw [Matrix.mulVec_mulVec, Matrix.mul_nonsing_inv _ (Ne.isUnit h), Matrix.one_mulVec]

theorem rss_split {k : ℕ} (w : List (RRow k)) (h : (gram w).det ≠ 0) (c : Fin k → ℝ) :
    rss w c = rss w (betaR w) + (w.map fun r => predict (c - betaR w) r.1 ^ 2).sum := by
  have hz : (w.map fun r => (r.2 - predict (betaR w) r.1) * predict (c - betaR w) r.1).sum = 0 := by
    have : ∀ r : RRow k, (r.2 - predict (betaR w) r.1) * predict (c - betaR w) r.1 =
        ∑ j, (c - betaR w) j * (r.1 j * r.2 - r.1 j * predict (betaR w) r.1) := by
      intro r
      conv_lhs => rw [predict.eq_1 (c - betaR w)]
      rw [Finset.mul_sum]
      apply Finset.sum_congr rfl
      intro j _
      ring
    simp only [this]
    rw [list_sum_comm]
    apply Finset.sum_eq_zero
    intro j _
    rw [List.sum_map_mul_left, list_sum_sub, normal_eq w h, sub_self, mul_zero]
  have hs : ∀ r : RRow k, (r.2 - predict c r.1) ^ 2 = ((r.2 - predict (betaR w) r.1) ^ 2 + predict (c - betaR w) r.1 ^ 2) -
      2 * ((r.2 - predict (betaR w) r.1) * predict (c - betaR w) r.1) := by
    intro r
    have : predict (c - betaR w) r.1 = predict c r.1 - predict (betaR w) r.1 := by
      unfold predict
      rw [← Finset.sum_sub_distrib]
      apply Finset.sum_congr rfl
      intro j _
      simp only [Pi.sub_apply]; ring
    rw [this]; ring
  unfold rss
  simp only [hs]
  rw [list_sum_sub, List.sum_map_add, List.sum_map_mul_left, hz]
  ring

theorem betaR_least {k : ℕ} (w : List (RRow k)) (h : (gram w).det ≠ 0) : IsLeastSquares w (betaR w) := by
  intro d
  rw [rss_split w h d]
  have : 0 ≤ (w.map fun r => predict (d - betaR w) r.1 ^ 2).sum := List.sum_nonneg (by
    intro x hx
    obtain ⟨r, -, rfl⟩ := List.mem_map.1 hx
    positivity)
  linarith

theorem betaR_unique {k : ℕ} (w : List (RRow k)) (h : (gram w).det ≠ 0) (c : Fin k → ℝ) (hc : IsLeastSquares w c) : c = betaR w := by
  have h1 := rss_split w h c
  have h2 := hc (betaR w)
  have h3 : 0 ≤ (w.map fun r => predict (c - betaR w) r.1 ^ 2).sum := List.sum_nonneg (by
    intro x hx
    obtain ⟨r, -, rfl⟩ := List.mem_map.1 hx
    positivity)
  have := (fullRank_iff w).2 h (c - betaR w) (sum_sq_eq_zero w (fun r => predict (c - betaR w) r.1) (by linarith))
  exact sub_eq_zero.1 this

/-- On finite rows the model is ordinary least squares. -/
theorem ols_fin {k : ℕ} (w : List (RRow k)) : ols (w.map liftRow) =
    if (gram w).det = 0 then .error .linAlgError
    else .ok (fun i => .fin (betaR w i), fun i j => XF.mul (XF.div (.fin (rss w (betaR w))) (.fin ((w.length : ℝ) - k))) (.fin ((gram w)⁻¹ i j))) := by
  have hi : invX (gramX (w.map liftRow)) = if (gram w).det = 0 then .error .linAlgError else .ok (gram w)⁻¹ := by
    unfold invX
    have hR : (Matrix.of fun i j => (gramX (w.map liftRow) i j).toK) = gram w := by
      ext i j
      rw [Matrix.of_apply, gramX_fin]; rfl
    dsimp only
    rw [hR, if_neg]
    rw [not_not]
    intro i j
    rw [gramX_fin]; rfl
  unfold ols
  dsimp only
  rw [hi]
  split
  · rfl
  · rename_i hd
    rw [Py.bind_ok]
    have hxy : (fun i => XF.sum ((w.map liftRow).map fun r => XF.mul (r.1 i) r.2)) = fun i => XF.fin ((w.map fun r => r.1 i * r.2).sum) := by
      funext i
      rw [List.map_map]
      exact XF.sum_map_fin w fun r => r.1 i * r.2
    have hb : (fun i => dotX (fun j => .fin ((gram w)⁻¹ i j)) fun i => XF.sum ((w.map liftRow).map fun r => XF.mul (r.1 i) r.2)) =
        fun i => XF.fin (betaR w i) := by
      funext i
      rw [hxy, dotX_fin]; rfl
    rw [hb]
    have he : (((w.map liftRow).map fun r => XF.sub r.2 (dotX r.1 fun i => XF.fin (betaR w i))).map fun e => XF.mul e e) =
        w.map fun r => XF.fin ((r.2 - predict (betaR w) r.1) ^ 2) := by
      rw [List.map_map, List.map_map]
      apply List.map_congr_left
      intro r _
      simp only [Function.comp_apply, liftRow]
      rw [dotX_fin, XF.sub_fin, XF.mul_fin, sq]; rfl
    rw [he, XF.sum_map_fin w fun r => (r.2 - predict (betaR w) r.1) ^ 2, List.length_map]
    rfl

theorem le_length_of_fullRank {k : ℕ} (w : List (RRow k)) (h : FullRank w) : k ≤ w.length := by
  let f : (Fin k → ℝ) →ₗ[ℝ] (Fin w.length → ℝ) :=
    { toFun := fun c i => predict c (w.get i).1
      map_add' := by
        intro a b; funext i; simp only [predict, Pi.add_apply, mul_add, Finset.sum_add_distrib]
      map_smul' := by
        intro a b; funext i; simp only [predict, Pi.smul_apply, smul_eq_mul, RingHom.id_apply, Finset.mul_sum]
        apply Finset.sum_congr rfl
        intro j _
        ring }
  have hf : Function.Injective f := by
    rw [← LinearMap.ker_eq_bot, LinearMap.ker_eq_bot']
    intro c hc
    apply h
    intro r hr
    obtain ⟨i, rfl⟩ := List.get_of_mem hr
    exact congrFun hc i
  have := LinearMap.finrank_le_finrank_of_injective hf
  simpa using this

theorem inv_diag_nonneg {k : ℕ} (w : List (RRow k)) (h : (gram w).det ≠ 0) (j : Fin k) : 0 < (gram w)⁻¹ j j := by
  set v : Fin k → ℝ := (gram w)⁻¹.mulVec (Pi.single j 1) with hv
  have hg : (gram w).mulVec v = Pi.single j 1 := by
    rw [hv, Matrix.mulVec_mulVec, Matrix.mul_nonsing_inv _ (Ne.isUnit h), Matrix.one_mulVec]
  have hd := dot_gram w v
  rw [hg] at hd
  have hs : ∑ i, v i * (Pi.single j (1 : ℝ) : Fin k → ℝ) i = v j := by
    rw [Finset.sum_eq_single j]
    · simp
    · intro b _ hb; simp [hb]
    · simp
  rw [hs] at hd
  have hvj : v j = (gram w)⁻¹ j j := by
    rw [hv, Matrix.mulVec_single_one]; rfl
  rw [← hvj, hd]
  have h0 : 0 ≤ (w.map fun r => predict v r.1 ^ 2).sum := List.sum_nonneg (by
    intro x hx
    obtain ⟨r, -, rfl⟩ := List.mem_map.1 hx
    positivity)
  rcases h0.lt_or_eq with hlt | heq
  · exact hlt
  · exfalso
    have hv0 := (fullRank_iff w).2 h v (sum_sq_eq_zero w (fun r => predict v r.1) heq.symm)
    rw [hv0, Matrix.mulVec_zero] at hg
    have := congrFun hg j
    simp at this

end Mizar.Brk
