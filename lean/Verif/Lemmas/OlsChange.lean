import Verif.Lemmas.TrendAffine

/-! Lemmas for C93: a linear change of the regressors and a change of scale of the targets in a regression, for all rows. -/

namespace Mizar.Brk
open Mizar.Spec Mizar.Props Mizar.Trend

/-- The regressors times a matrix. -/
def mixRows {k : ℕ} (A : Matrix (Fin k) (Fin k) ℝ) (w : List (RRow k)) : List (RRow k) := w.map fun r => (Matrix.vecMul r.1 A, r.2)

theorem gram_mix {k : ℕ} (A : Matrix (Fin k) (Fin k) ℝ) (w : List (RRow k)) : gram (mixRows A w) = A.transpose * gram w * A := by
  induction w with
  | nil =>
    have : gram ([] : List (RRow k)) = 0 := by ext i j; simp [gram]
    simp [mixRows, this]
  | cons r w ih =>
    have hc : ∀ (r : RRow k) (w : List (RRow k)), gram (r :: w) = Matrix.vecMulVec r.1 r.1 + gram w := by
      intro r w; ext i j; simp [gram, Matrix.vecMulVec_apply]
    have : mixRows A (r :: w) = (Matrix.vecMul r.1 A, r.2) :: mixRows A w := rfl
    rw [this, hc, hc, ih, Matrix.mul_add, Matrix.add_mul]
    congr 1
    ext i j
    simp only [Matrix.vecMulVec_apply, Matrix.mul_apply, Matrix.vecMul, dotProduct, Matrix.transpose_apply]
    rw [Finset.sum_mul_sum, Finset.sum_comm]
    apply Finset.sum_congr rfl
    intro a _
    rw [Finset.sum_mul]
    apply Finset.sum_congr rfl
    intro b _
    ring

theorem predict_mix {k : ℕ} (A : Matrix (Fin k) (Fin k) ℝ) (c x : Fin k → ℝ) : predict c (Matrix.vecMul x A) = predict (A.mulVec c) x := by
  have h := (Matrix.dotProduct_mulVec x A c).symm
  simpa [predict, dotProduct] using h

theorem rss_mix {k : ℕ} (A : Matrix (Fin k) (Fin k) ℝ) (w : List (RRow k)) (c : Fin k → ℝ) : rss (mixRows A w) c = rss w (A.mulVec c) := by
  unfold rss mixRows
  rw [List.map_map]
  congr 1
  apply List.map_congr_left
  intro r _
  simp only [Function.comp_apply, predict_mix]

theorem xy_mix {k : ℕ} (A : Matrix (Fin k) (Fin k) ℝ) (w : List (RRow k)) :
    (fun i => ((mixRows A w).map fun r => r.1 i * r.2).sum) = A.transpose.mulVec fun i => (w.map fun r => r.1 i * r.2).sum := by
  funext i
  unfold mixRows
  rw [List.map_map]
  simp only [Matrix.mulVec, dotProduct, Matrix.transpose_apply, Function.comp_def, Matrix.vecMul]
  simp only [Finset.sum_mul]
  rw [list_sum_comm]
  apply Finset.sum_congr rfl
  intro j _
  rw [← List.sum_map_mul_left]
  congr 1
  apply List.map_congr_left
  intro r _
  ring

theorem betaR_mix {k : ℕ} (A : Matrix (Fin k) (Fin k) ℝ) (hA : A.det ≠ 0) (w : List (RRow k)) :
    A.mulVec (betaR (mixRows A w)) = betaR w := by
  unfold betaR
  rw [xy_mix, gram_mix, Matrix.mul_inv_rev, Matrix.mul_inv_rev, Matrix.mulVec_mulVec, Matrix.mulVec_mulVec]
  congr 1
  have h1 : A * A⁻¹ = 1 := Matrix.mul_nonsing_inv _ (Ne.isUnit hA)
  have h2 : A.transpose⁻¹ * A.transpose = 1 := Matrix.nonsing_inv_mul _ (by rw [Matrix.det_transpose]; exact Ne.isUnit hA)
  calc A * (A⁻¹ * ((gram w)⁻¹ * A.transpose⁻¹)) * A.transpose
      = (A * A⁻¹) * (gram w)⁻¹ * (A.transpose⁻¹ * A.transpose) := by simp only [Matrix.mul_assoc]
    _ = (gram w)⁻¹ := by rw [h1, h2, Matrix.one_mul, Matrix.mul_one]

/-- The coefficient of a regressor that enters no other new regressor. -/
theorem mulVec_row {k : ℕ} (A : Matrix (Fin k) (Fin k) ℝ) (j : Fin k) (hrow : ∀ i, i ≠ j → A j i = 0) (c : Fin k → ℝ) :
    A.mulVec c j = A j j * c j := by
  simp only [Matrix.mulVec, dotProduct]
  rw [Finset.sum_eq_single j]
  · intro b _ hb; rw [hrow b hb, zero_mul]
  · simp

theorem inv_mix_diag {k : ℕ} (A : Matrix (Fin k) (Fin k) ℝ) (hA : A.det ≠ 0) (j : Fin k) (hrow : ∀ i, i ≠ j → A j i = 0)
    (w : List (RRow k)) : (gram w)⁻¹ j j = A j j ^ 2 * (gram (mixRows A w))⁻¹ j j := by
  have h1 : A * A⁻¹ = 1 := Matrix.mul_nonsing_inv _ (Ne.isUnit hA)
  have h2 : A.transpose⁻¹ * A.transpose = 1 := Matrix.nonsing_inv_mul _ (by rw [Matrix.det_transpose]; exact Ne.isUnit hA)
  have e : (gram w)⁻¹ = A * (gram (mixRows A w))⁻¹ * A.transpose := by
    rw [gram_mix, Matrix.mul_inv_rev, Matrix.mul_inv_rev]
    calc (gram w)⁻¹ = (A * A⁻¹) * (gram w)⁻¹ * (A.transpose⁻¹ * A.transpose) := by rw [h1, h2, Matrix.one_mul, Matrix.mul_one]
      _ = _ := by simp only [Matrix.mul_assoc]
  conv_lhs => rw [e]
  rw [Matrix.mul_apply, Finset.sum_eq_single j]
  · rw [Matrix.mul_apply, Finset.sum_eq_single j]
    · rw [Matrix.transpose_apply]; ring
    · intro b _ hb; rw [hrow b hb, zero_mul]
    · simp
  · intro b _ hb; rw [Matrix.transpose_apply, hrow b hb, mul_zero]
  · simp

theorem tValue_mix (em : ErrModel) {k : ℕ} (A : Matrix (Fin k) (Fin k) ℝ) (hA : A.det ≠ 0) (j : Fin k) (hrow : ∀ i, i ≠ j → A j i = 0)
    (w : List (RRow k)) : tValue em j ((mixRows A w).map liftRow) = (tValue em j (w.map liftRow)).map (sg (A j j)) := by
  have hj : A j j ≠ 0 := by
    intro h0
    apply hA
    apply Matrix.det_eq_zero_of_row_eq_zero j
    intro i
    by_cases h : i = j
    · rw [h, h0]
    · exact hrow i h
  have hdet : (gram (mixRows A w)).det = A.det ^ 2 * (gram w).det := by
    rw [gram_mix, Matrix.det_mul, Matrix.det_mul, Matrix.det_transpose]; ring
  unfold tValue
  rw [ols_fin, ols_fin]
  by_cases hd : (gram w).det = 0
  · rw [if_pos hd, if_pos (by rw [hdet, hd, mul_zero])]; rfl
  · have hd' : (gram (mixRows A w)).det ≠ 0 := by rw [hdet]; exact mul_ne_zero (pow_ne_zero _ hA) hd
    rw [if_neg hd, if_neg hd', Py.bind_ok, Py.bind_ok]
    dsimp only
    have hb : betaR w j = A j j * betaR (mixRows A w) j := by rw [← betaR_mix A hA w, mulVec_row A j hrow]
    have hr : rss (mixRows A w) (betaR (mixRows A w)) = rss w (betaR w) := by rw [rss_mix, betaR_mix A hA]
    have hl : (mixRows A w).length = w.length := by simp [mixRows]
    have hj2 : 0 < A j j ^ 2 := by positivity
    have hv : XF.mul (XF.div (.fin (rss w (betaR w))) (.fin ((w.length : ℝ) - k))) (.fin ((gram w)⁻¹ j j)) =
        XF.mul (.fin (A j j ^ 2)) (XF.mul (XF.div (.fin (rss w (betaR w))) (.fin ((w.length : ℝ) - k))) (.fin ((gram (mixRows A w))⁻¹ j j))) := by
      rw [inv_mix_diag A hA j hrow w]
      have hp := inv_diag_nonneg _ hd' j
      generalize XF.div (.fin (rss w (betaR w))) (.fin ((w.length : ℝ) - k)) = z
      cases z with
      | fin z => simp only [XF.mul_fin]; congr 1; ring
      | nan => simp [XF.mul]
      | pinf => simp [XF.mul, infSign_pos hp, infSign_pos hj2, infSign_pos (mul_pos hj2 hp)]
      | ninf => simp [XF.mul, infSign_pos hp, infSign_pos hj2, infSign_pos (mul_pos hj2 hp), XF.neg]
    rw [hr, hl, hv, sqrt_scale hj2, Real.sqrt_sq_eq_abs, hb]
    have habs : 0 < |A j j| := abs_pos.2 hj
    unfold sg
    rcases lt_or_gt_of_ne hj with hneg | hpos
    · have : XF.fin (A j j * betaR (mixRows A w) j) = XF.mul (.fin |A j j|) (XF.neg (.fin (betaR (mixRows A w) j))) := by
        rw [abs_of_neg hneg]; simp [XF.neg]
      rw [this, divE_scale em habs, divE_neg]
      simp only [if_neg (not_lt.2 hneg.le)]
      cases divE em _ _ with
      | error e => rfl
      | ok x => cases x <;> simp [Except.map, XF.neg]
    · rw [abs_of_pos hpos, ← XF.mul_fin, divE_scale em hpos]
      simp only [if_pos hpos]
      cases divE em _ _ <;> rfl

/-! ### Targets that are missing or infinite -/

theorem isFinite_mul_left {a x : XF ℝ} (h : isFinite x = false) : isFinite (XF.mul a x) = false := by
  have hs : ∀ b : ℝ, isFinite (XF.infSign b) = false ∧ isFinite (XF.neg (XF.infSign b)) = false := by
    intro b
    unfold XF.infSign
    split_ifs <;> exact ⟨rfl, rfl⟩
  cases a with
  | fin a =>
    cases x with
    | fin x => cases h
    | nan => rfl
    | pinf => exact (hs a).1
    | ninf => exact (hs a).2
  | nan => rfl
  | pinf =>
    cases x with
    | fin x => cases h
    | nan => rfl
    | pinf => rfl
    | ninf => rfl
  | ninf =>
    cases x with
    | fin x => cases h
    | nan => rfl
    | pinf => rfl
    | ninf => rfl

theorem isFinite_mul_right {a x : XF ℝ} (h : isFinite x = false) : isFinite (XF.mul x a) = false := by
  have hs : ∀ b : ℝ, isFinite (XF.infSign b) = false ∧ isFinite (XF.neg (XF.infSign b)) = false := by
    intro b
    unfold XF.infSign
    split_ifs <;> exact ⟨rfl, rfl⟩
  cases a with
  | fin a =>
    cases x with
    | fin x => cases h
    | nan => rfl
    | pinf => exact (hs a).1
    | ninf => exact (hs a).2
  | nan => cases x <;> rfl
  | pinf =>
    cases x with
    | fin x => cases h
    | nan => rfl
    | pinf => rfl
    | ninf => rfl
  | ninf =>
    cases x with
    | fin x => cases h
    | nan => rfl
    | pinf => rfl
    | ninf => rfl

theorem exists_fin {x : XF ℝ} (h : isFinite x = true) : ∃ r, x = .fin r := by cases x <;> simp [isFinite] at h ⊢

theorem tValue_target_not_finite (em : ErrModel) {k : ℕ} (j : Fin k) (x : List (RRow k)) (w : List (Row k)) (hw : w.map (·.1) = (x.map liftRow).map (·.1))
    (hd : (gram x).det ≠ 0) (r : Row k) (hr : r ∈ w) (hf : isFinite r.2 = false) : tValue em j w = .ok .nan := by
  have hgram : gramX w = gramX (x.map liftRow) := by
    unfold gramX
    ext i l
    rw [Matrix.of_apply, Matrix.of_apply]
    congr 1
    have := congrArg (List.map fun f : Fin k → XF ℝ => XF.mul (f i) (f l)) hw
    simpa [List.map_map, Function.comp_def] using this
  have hi : invX (gramX w) = .ok (gram x)⁻¹ := by
    rw [hgram]
    unfold invX
    have hR : (Matrix.of fun i j => (gramX (x.map liftRow) i j).toK) = gram x := by
      ext i j
      rw [Matrix.of_apply, gramX_fin]; rfl
    dsimp only
    rw [hR, if_neg, if_neg hd]
    rw [not_not]
    intro i j
    rw [gramX_fin]; rfl
  have hxy : ∀ i, isFinite (XF.sum (w.map fun r => XF.mul (r.1 i) r.2)) = false := by
    intro i
    exact sum_not_finite _ _ (Or.inr ⟨_, List.mem_map.2 ⟨r, hr, rfl⟩, isFinite_mul_left hf⟩)
  have hdot : ∀ (a b : Fin k → XF ℝ), (∀ i, isFinite (b i) = false) → isFinite (dotX a b) = false := by
    intro a b hb
    unfold dotX
    exact sum_not_finite _ _ (Or.inr ⟨_, List.mem_ofFn.2 ⟨j, rfl⟩, isFinite_mul_left (hb j)⟩)
  have hbeta : ∀ i, isFinite (dotX (fun j => .fin ((gram x)⁻¹ i j)) fun i => XF.sum (w.map fun r => XF.mul (r.1 i) r.2)) = false :=
    fun i => hdot _ _ hxy
  unfold tValue ols
  dsimp only
  rw [hi, Py.bind_ok, Py.bind_ok]
  dsimp only
  generalize hb : (fun i => dotX (fun j => .fin ((gram x)⁻¹ i j)) fun i => XF.sum (w.map fun r => XF.mul (r.1 i) r.2)) = beta
  have hbj : isFinite (beta j) = false := by rw [← hb]; exact hbeta j
  have hbe : (dotX (fun l => .fin ((gram x)⁻¹ j l)) fun i => XF.sum (w.map fun r => XF.mul (r.1 i) r.2)) = beta j := by rw [← hb]
  rw [hbe]
  have hball : ∀ i, isFinite (beta i) = false := by rw [← hb]; exact hbeta
  have herr : isFinite (XF.sum ((w.map fun r => XF.sub r.2 (dotX r.1 beta)).map fun e => XF.mul e e)) = false := by
    refine sum_not_finite _ _ (Or.inr ⟨_, List.mem_map.2 ⟨_, List.mem_map.2 ⟨r, hr, rfl⟩, rfl⟩, ?_⟩)
    have h1 := hdot r.1 beta hball
    apply isFinite_mul_left
    cases h2 : dotX r.1 beta with
    | fin z => rw [h2] at h1; cases h1
    | nan => cases r.2 <;> rfl
    | pinf => cases r.2 <;> rfl
    | ninf => cases r.2 <;> rfl
  have hs2 : isFinite (XF.div (XF.sum ((w.map fun r => XF.sub r.2 (dotX r.1 beta)).map fun e => XF.mul e e)) (.fin ((w.length : ℝ) - k))) = false := by
    generalize XF.sum ((w.map fun r => XF.sub r.2 (dotX r.1 beta)).map fun e => XF.mul e e) = z at herr
    cases z with
    | fin z => cases herr
    | nan => rfl
    | pinf => simp only [XF.div]; split <;> rfl
    | ninf => simp only [XF.div]; split <;> rfl
  generalize XF.div (XF.sum ((w.map fun r => XF.sub r.2 (dotX r.1 beta)).map fun e => XF.mul e e)) (.fin ((w.length : ℝ) - k)) = s2 at hs2
  have hvar : isFinite (XF.mul s2 (.fin ((gram x)⁻¹ j j))) = false := by
    cases s2 with
    | fin z => cases hs2
    | nan => rfl
    | pinf => simp only [XF.mul, XF.infSign]; split <;> [rfl; split <;> rfl]
    | ninf => simp only [XF.mul, XF.infSign]; split <;> [rfl; split <;> rfl]
  generalize XF.mul s2 (.fin ((gram x)⁻¹ j j)) = v at hvar
  generalize beta j = b at hbj
  cases v <;> cases b <;> simp [isFinite] at hvar hbj <;> simp [divE, XF.sqrt, XF.beq, XF.div]

/-! ### Rows related by a change -/

/-- The rows before and after: regressors mixed by `A`, targets times `u` plus a linear function of the regressors; what is
not finite stays not finite. -/
structure Changed {k : ℕ} (A : Matrix (Fin k) (Fin k) ℝ) (u : ℝ) (d : Fin k → ℝ) (r r' : Row k) : Prop where
  bad : (∃ i, isFinite (r.1 i) = false) → ∃ i, isFinite (r'.1 i) = false
  good : ∀ x : Fin k → ℝ, (∀ i, r.1 i = .fin (x i)) → ∀ i, r'.1 i = .fin (Matrix.vecMul x A i)
  target : ∀ (x : Fin k → ℝ) (t : ℝ), (∀ i, r.1 i = .fin (x i)) → r.2 = .fin t → r'.2 = .fin (u * t + predict d x)
  targetBad : (∀ i, isFinite (r.1 i) = true) → isFinite r.2 = false → isFinite r'.2 = false

theorem tValue_changed (em : ErrModel) {k : ℕ} (A : Matrix (Fin k) (Fin k) ℝ) (hA : A.det ≠ 0) (u : ℝ) (hu : u ≠ 0) (d : Fin k → ℝ) (j : Fin k)
    (hrow : ∀ i, i ≠ j → A j i = 0) (hdj : d j = 0) (w w' : List (Row k)) (h : List.Forall₂ (Changed A u d) w w') :
    tValue em j w' = (tValue em j w).map fun t => sg (A j j) (sg u t) := by
  have hlen := h.length_eq
  by_cases hreg : ∀ r ∈ w, ∀ i, isFinite (r.1 i) = true
  swap
  · push Not at hreg
    obtain ⟨r, hr, i, hi⟩ := hreg
    have hi : isFinite (r.1 i) = false := by simpa using hi
    obtain ⟨q, hq, rfl⟩ := List.mem_iff_getElem.1 hr
    obtain ⟨i', hi'⟩ := (List.forall₂_iff_get.1 h).2 q hq (by omega) |>.bad ⟨i, hi⟩
    have e1 : ols w = .error .linAlgError := C67_not_finite w _ hr i (by intro x hx; rw [hx] at hi; cases hi)
    have e2 : ols w' = .error .linAlgError := C67_not_finite w' _ (List.getElem_mem (by omega : q < w'.length)) i' (by
      intro x hx
      have hi'' : isFinite ((w'[q]'(by omega)).1 i') = false := hi'
      rw [hx] at hi''; cases hi'')
    unfold tValue
    rw [e1, e2]; rfl
  -- finite regressors
  obtain ⟨x, hx⟩ : ∃ x : List (RRow k), w.map (·.1) = (x.map liftRow).map (·.1) ∧ x.map (·.2) = w.map fun r => r.2.toK := by
    refine ⟨w.map fun r => (fun i => (r.1 i).toK, r.2.toK), ?_, by rw [List.map_map]; rfl⟩
    rw [List.map_map, List.map_map]
    apply List.map_congr_left
    intro r hr
    funext i
    obtain ⟨z, hz⟩ := exists_fin (hreg r hr i)
    simp [liftRow, hz, XF.toK]
  obtain ⟨hx, hxt⟩ := hx
  have hxl : x.length = w.length := by simpa using congrArg List.length hxt
  have hreg' : w'.map (·.1) = ((mixRows A (shiftRows u d x)).map liftRow).map (·.1) := by
    apply List.ext_getElem
    · simp [mixRows, shiftRows, hxl, hlen]
    · intro q h1 h2
      have hq' : q < w'.length := by simpa using h1
      have hq : q < w.length := by omega
      have hc := (List.forall₂_iff_get.1 h).2 q hq hq'
      have hxq : w[q].1 = (fun i => XF.fin ((x[q]'(by omega)).1 i)) := by
        have := congrArg (fun l => l[q]?) hx
        simp only [List.getElem?_map, List.getElem?_eq_getElem hq, List.getElem?_eq_getElem (show q < x.length by omega), Option.map_some,
          Option.some.injEq] at this
        exact this
      simp only [List.getElem_map, mixRows, shiftRows, liftRow]
      funext i
      exact hc.good _ (fun i => congrFun hxq i) i
  by_cases htar : ∀ r ∈ w, isFinite r.2 = true
  · have hw : w = x.map liftRow := by
      apply List.ext_getElem (by simp [hxl])
      intro q h1 h2
      have e1 := congrArg (fun l => l[q]?) hx
      have e2 := congrArg (fun l => l[q]?) hxt
      simp only [List.getElem?_map, List.getElem?_eq_getElem h1, List.getElem?_eq_getElem (show q < x.length by omega), Option.map_some,
          Option.some.injEq] at e1 e2
      obtain ⟨z, hz⟩ := exists_fin (htar _ (List.getElem_mem h1))
      rw [List.getElem_map]
      ext1
      · exact e1
      · simp only [liftRow, e2, hz, XF.toK]
    have hw' : w' = (mixRows A (shiftRows u d x)).map liftRow := by
      apply List.ext_getElem (by simp [mixRows, shiftRows, hxl, hlen])
      intro q h1 h2
      have hq : q < w.length := by omega
      have hc := (List.forall₂_iff_get.1 h).2 q hq h1
      have e1 := congrArg (fun l => l[q]?) hreg'
      simp only [List.getElem?_map, List.getElem?_eq_getElem h1, Option.map_some] at e1
      have hwq : w[q] = liftRow (x[q]'(by omega)) := by
        have := congrArg (fun l => l[q]?) hw
        simpa [List.getElem?_eq_getElem hq, List.getElem?_eq_getElem (show q < x.length by omega)] using this
      ext1
      · have hm : q < (mixRows A (shiftRows u d x)).length := by simp [mixRows, shiftRows]; omega
        rw [List.getElem?_eq_getElem hm] at e1
        simpa using e1
      · simp only [List.getElem_map, mixRows, shiftRows, liftRow]
        refine hc.target _ _ (fun i => ?_) ?_
        · show w[q].1 i = _
          rw [hwq]; rfl
        · show w[q].2 = _
          rw [hwq]; rfl
    rw [hw', hw, tValue_mix em A hA j hrow, tValue_shift em u hu d j hdj]
    cases tValue em j (x.map liftRow) <;> rfl
  · push Not at htar
    obtain ⟨r, hr, hf⟩ := htar
    have hf : isFinite r.2 = false := by simpa using hf
    obtain ⟨q, hq, rfl⟩ := List.mem_iff_getElem.1 hr
    have hc := (List.forall₂_iff_get.1 h).2 q hq (by omega)
    have hf' : isFinite (w'[q]'(by omega)).2 = false := hc.targetBad (hreg _ hr) hf
    have hdet : (gram (mixRows A (shiftRows u d x))).det = A.det ^ 2 * (gram x).det := by
      rw [gram_mix, gram_shift, Matrix.det_mul, Matrix.det_mul, Matrix.det_transpose]; ring
    by_cases hdx : (gram x).det = 0
    · have key : ∀ (v : List (Row k)) (z : List (RRow k)), v.map (·.1) = (z.map liftRow).map (·.1) → (gram z).det = 0 → tValue em j v = .error .linAlgError := by
        intro v z hv hz
        have hgram : gramX v = gramX (z.map liftRow) := by
          unfold gramX
          ext i l
          rw [Matrix.of_apply, Matrix.of_apply]
          congr 1
          have := congrArg (List.map fun f : Fin k → XF ℝ => XF.mul (f i) (f l)) hv
          simpa [List.map_map, Function.comp_def] using this
        have hi : invX (gramX v) = .error .linAlgError := by
          rw [hgram]
          unfold invX
          have hR : (Matrix.of fun i j => (gramX (z.map liftRow) i j).toK) = gram z := by
            ext i j
            rw [Matrix.of_apply, gramX_fin]; rfl
          dsimp only
          rw [hR, if_pos hz]
          split <;> rfl
        unfold tValue ols
        dsimp only
        rw [hi]; rfl
      rw [key w x hx hdx, key w' _ hreg' (by rw [hdet, hdx, mul_zero])]
      rfl
    · rw [tValue_target_not_finite em j x w hx hdx _ hr hf,
        tValue_target_not_finite em j _ w' hreg' (by rw [hdet]; exact mul_ne_zero (pow_ne_zero _ hA) hdx) _ (List.getElem_mem (by omega : q < w'.length)) hf']
      simp [Except.map, sg, XF.neg]

end Mizar.Brk
