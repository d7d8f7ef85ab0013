import Verif.Lemmas.TrendScan

/-! Lemmas for C71 and C73: windows with missing or infinite values, and changes of scale. -/

namespace Mizar.Trend
open Mizar.Spec Mizar.Brk Mizar.Props

/-! ### A change of scale in a regression -/

/-- The targets times `a` plus a linear function of the regressors. -/
def shiftRows {k : ℕ} (a : ℝ) (d : Fin k → ℝ) (w : List (RRow k)) : List (RRow k) := w.map fun r => (r.1, a * r.2 + predict d r.1)

theorem gram_shift {k : ℕ} (a : ℝ) (d : Fin k → ℝ) (w : List (RRow k)) : gram (shiftRows a d w) = gram w := by
  unfold gram shiftRows
  simp [List.map_map, Function.comp_def]

theorem list_sum_add' {α : Type} (w : List α) (f g : α → ℝ) : (w.map fun r => f r + g r).sum = (w.map f).sum + (w.map g).sum := by
  induction w with
  | nil => simp
  | cons r w ih => simp only [List.map_cons, List.sum_cons, ih]; ring

theorem betaR_shift {k : ℕ} (a : ℝ) (d : Fin k → ℝ) (w : List (RRow k)) (h : (gram w).det ≠ 0) :
    betaR (shiftRows a d w) = fun i => a * betaR w i + d i := by
  unfold betaR
  rw [gram_shift]
  have e : (fun i => ((shiftRows a d w).map fun r => r.1 i * r.2).sum) =
      a • (fun i => (w.map fun r => r.1 i * r.2).sum) + (gram w).mulVec d := by
    funext i
    rw [Pi.add_apply, Pi.smul_apply, gram_mulVec, smul_eq_mul, ← List.sum_map_mul_left]
    unfold shiftRows
    rw [List.map_map]
    rw [← list_sum_add']
    congr 1
    apply List.map_congr_left
    intro r _
    simp only [Function.comp_apply]
    ring
  rw [e, Matrix.mulVec_add, Matrix.mulVec_smul, Matrix.mulVec_mulVec, Matrix.nonsing_inv_mul _ (Ne.isUnit h), Matrix.one_mulVec]
  rfl

theorem predict_add {k : ℕ} (a : ℝ) (b d x : Fin k → ℝ) : predict (fun i => a * b i + d i) x = a * predict b x + predict d x := by
  unfold predict
  rw [Finset.mul_sum, ← Finset.sum_add_distrib]
  exact Finset.sum_congr rfl fun j _ => by ring

theorem rss_shift {k : ℕ} (a : ℝ) (b d : Fin k → ℝ) (w : List (RRow k)) :
    rss (shiftRows a d w) (fun i => a * b i + d i) = a ^ 2 * rss w b := by
  unfold rss shiftRows
  rw [List.map_map, ← List.sum_map_mul_left]
  congr 1
  apply List.map_congr_left
  intro r _
  simp only [Function.comp_apply]
  rw [predict_add]; ring

/-- The sign a change of scale gives to a t-value. -/
noncomputable def sg (a : ℝ) (x : XF ℝ) : XF ℝ := if 0 < a then x else XF.neg x

theorem divE_scale (em : ErrModel) {a : ℝ} (ha : 0 < a) (u w : XF ℝ) : divE em (XF.mul (.fin a) u) (XF.mul (.fin a) w) = divE em u w := by
  unfold divE
  rw [div_scale ha]
  have : XF.beq (XF.mul (.fin a) w) (.fin 0) = XF.beq w (.fin 0) := by
    cases w <;> simp [XF.mul, infSign_pos ha, XF.neg, XF.beq, ha.ne']
  rw [this]

theorem divE_neg (em : ErrModel) (u w : XF ℝ) : divE em (XF.neg u) w = (divE em u w).map XF.neg := by
  unfold divE
  split
  · rfl
  · rw [div_neg_left]; rfl

theorem tValue_shift (em : ErrModel) {k : ℕ} (a : ℝ) (ha : a ≠ 0) (d : Fin k → ℝ) (j : Fin k) (hj : d j = 0) (w : List (RRow k)) :
    tValue em j ((shiftRows a d w).map liftRow) = (tValue em j (w.map liftRow)).map (sg a) := by
  have hab : 0 < |a| := abs_pos.2 ha
  have ha2 : 0 < a ^ 2 := by positivity
  unfold tValue
  rw [ols_fin, ols_fin, gram_shift]
  split
  · rfl
  · rename_i hd
    rw [Py.bind_ok, Py.bind_ok, betaR_shift a d w hd, rss_shift]
    dsimp only
    have hl : (shiftRows a d w).length = w.length := by simp [shiftRows]
    have h1 : XF.mul (XF.div (.fin (a ^ 2 * rss w (betaR w))) (.fin (((shiftRows a d w).length : ℝ) - k))) (.fin ((gram w)⁻¹ j j)) =
        XF.mul (.fin (a ^ 2)) (XF.mul (XF.div (.fin (rss w (betaR w))) (.fin ((w.length : ℝ) - k))) (.fin ((gram w)⁻¹ j j))) := by
      rw [hl, ← XF.mul_fin, div_scale_left ha2]
      have hp := inv_diag_nonneg w hd j
      generalize XF.div (.fin (rss w (betaR w))) (.fin ((w.length : ℝ) - k)) = z
      cases z <;> simp [XF.mul, infSign_pos ha2, infSign_pos hp, XF.neg, mul_assoc]
    rw [h1, sqrt_scale ha2, Real.sqrt_sq_eq_abs, hj, add_zero]
    unfold sg
    rcases lt_or_gt_of_ne ha with hneg | hpos
    · have : XF.fin (a * betaR w j) = XF.mul (.fin |a|) (XF.neg (.fin (betaR w j))) := by
        rw [abs_of_neg hneg]; simp [XF.neg]
      rw [this, divE_scale em hab, divE_neg]
      simp only [if_neg (not_lt.2 hneg.le)]
    · rw [abs_of_pos hpos, ← XF.mul_fin, divE_scale em hpos]
      simp only [if_pos hpos]
      cases divE em _ _ <;> rfl

/-! ### Windows with missing or infinite values -/

/-- Finite or the given infinite value. -/
def FinOr (v x : XF ℝ) : Prop := x = v ∨ ∃ r, x = .fin r

theorem add_finOr {v a x : XF ℝ} (hv : v = .pinf ∨ v = .ninf) (h : FinOr v (XF.add a x)) : FinOr v a ∧ FinOr v x := by
  unfold FinOr at *
  rcases hv with rfl | rfl <;> cases a <;> cases x <;> simp [XF.add] at h ⊢

theorem foldl_add_finOr {v : XF ℝ} (hv : v = .pinf ∨ v = .ninf) (l : List (XF ℝ)) (a : XF ℝ) (h : FinOr v (l.foldl XF.add a)) :
    FinOr v a ∧ ∀ x ∈ l, FinOr v x := by
  induction l generalizing a with
  | nil => exact ⟨h, by simp⟩
  | cons x l ih =>
    obtain ⟨h1, h2⟩ := ih _ h
    obtain ⟨h3, h4⟩ := add_finOr hv h1
    exact ⟨h3, by simpa using ⟨h4, h2⟩⟩

theorem add_finOrNan {v a x : XF ℝ} (hv : v = .pinf ∨ v = .ninf) (ha : a = .nan ∨ FinOr v a) (hx : x = .nan ∨ FinOr v x) :
    XF.add a x = .nan ∨ FinOr v (XF.add a x) := by
  unfold FinOr at *
  rcases hv with rfl | rfl <;> cases a <;> cases x <;> simp [XF.add] at ha hx ⊢

theorem foldl_add_finOrNan {v : XF ℝ} (hv : v = .pinf ∨ v = .ninf) (l : List (XF ℝ)) (a : XF ℝ) (ha : a = .nan ∨ FinOr v a)
    (h : ∀ x ∈ l, x = .nan ∨ FinOr v x) : l.foldl XF.add a = .nan ∨ FinOr v (l.foldl XF.add a) := by
  induction l generalizing a with
  | nil => exact ha
  | cons x l ih => exact ih _ (add_finOrNan hv ha (h x (by simp))) fun z hz => h z (by simp [hz])

theorem sum_nan (l : List (XF ℝ)) (h : XF.nan ∈ l) : XF.sum l = .nan := by
  unfold XF.sum
  have h0 : ∀ l : List (XF ℝ), l.foldl XF.add .nan = .nan := by
    intro l
    induction l with
    | nil => rfl
    | cons x l ih => simpa using ih
  have : ∀ (l : List (XF ℝ)) (a : XF ℝ), XF.nan ∈ l → l.foldl XF.add a = .nan := by
    intro l
    induction l with
    | nil => simp
    | cons x l ih =>
      intro a h
      rcases List.mem_cons.1 h with rfl | h
      · rw [List.foldl_cons]
        have : XF.add a .nan = .nan := by cases a <;> rfl
        rw [this, h0]
      · exact ih _ h
  exact this l _ h

/-- The inverse of the gram matrix of a trend. -/
theorem trend_inv (n : ℕ) (hn : 2 ≤ n) : (gram (trendRows (fun _ => 0) 0 n)).det ≠ 0 ∧
    0 < (gram (trendRows (fun _ => 0) 0 n))⁻¹ 1 1 ∧ (gram (trendRows (fun _ => 0) 0 n))⁻¹ 1 0 < 0 := by
  have hd := (fullRank_iff _).1 ((trendRows_fullRank (fun _ => 0) 0 n).2 hn)
  have hp := inv_diag_nonneg _ hd 1
  refine ⟨hd, hp, ?_⟩
  generalize hG : gram (trendRows (fun _ => 0) 0 n) = G at *
  have h1 : (G⁻¹ * G) 1 0 = 0 := by rw [Matrix.nonsing_inv_mul _ (Ne.isUnit hd)]; simp
  rw [Matrix.mul_apply, Fin.sum_univ_two] at h1
  have h00 : 0 < G 0 0 := by
    rw [← hG]
    simp [gram, trendRows, Function.comp_def]
    omega
  have h10 : 0 < G 1 0 := by
    rw [← hG]
    simp only [gram, trendRows, List.map_map, Function.comp_def, Matrix.of_apply, Matrix.cons_val_zero, Matrix.cons_val_one, mul_one]
    obtain ⟨m, rfl⟩ : ∃ m, n = m + 1 := ⟨n - 1, by omega⟩
    rw [List.range_succ, List.map_append, List.sum_append]
    have : (0 : ℝ) ≤ ((List.range m).map fun i : ℕ => (i : ℝ)).sum := List.sum_nonneg (by simp)
    have hm : (1 : ℝ) ≤ m := by exact_mod_cast (by omega : 1 ≤ m)
    simp only [List.map_cons, List.map_nil, List.sum_cons, List.sum_nil]
    linarith
  by_contra hc
  push Not at hc
  have := mul_nonneg hc h00.le
  have := mul_pos hp h10
  linarith

theorem trend_invX (w : List (XF ℝ)) :
    invX (gramX (w.zipIdx.map fun r => ((![.fin 1, .fin (r.2 : ℝ)] : Fin 2 → XF ℝ), r.1))) =
      if (gram (trendRows (fun _ => 0) 0 w.length)).det = 0 then .error .linAlgError else .ok (gram (trendRows (fun _ => 0) 0 w.length))⁻¹ := by
  generalize hG : (gram (trendRows (fun _ => 0) 0 w.length)) = G
  have hgram : gramX (w.zipIdx.map fun r => ((![.fin 1, .fin (r.2 : ℝ)] : Fin 2 → XF ℝ), r.1)) = Matrix.of fun i j => .fin (G i j) := by
    ext i j
    rw [Matrix.of_apply, ← hG, ← gramX_fin]
    unfold gramX
    rw [Matrix.of_apply, Matrix.of_apply]
    congr 1
    apply List.ext_getElem
    · simp [trendRows]
    · intro q h1 h2
      simp only [trendRows, List.getElem_map, List.getElem_zipIdx, List.getElem_range, liftRow, Nat.zero_add]
      fin_cases i <;> fin_cases j <;> simp
  rw [hgram]
  unfold invX
  have hR : (Matrix.of fun i j => ((Matrix.of fun i j => XF.fin (G i j)) i j).toK) = G := by
    ext i j; rfl
  dsimp only
  rw [hR, if_neg]
  rw [not_not]
  intro i j
  rfl

/-- A regression on fewer than two rows. -/
theorem trendT_short (em : ErrModel) (w : List (XF ℝ)) (hn : w.length < 2) : trendT em w = .error .linAlgError := by
  unfold trendT tValue ols
  dsimp only
  rw [trend_invX, if_pos]
  · rfl
  · by_contra hd
    have := (trendRows_fullRank (fun _ => 0) 0 w.length).1 ((fullRank_iff _).2 hd)
    omega

theorem trendT_not_finite (em : ErrModel) (w : List (XF ℝ)) (hn : 2 ≤ w.length) (x : XF ℝ) (hx : x ∈ w) (hf : isFinite x = false) :
    trendT em w = .ok .nan := by
  unfold trendT
  generalize hrs : (w.zipIdx.map fun r => ((![.fin 1, .fin (r.2 : ℝ)] : Fin 2 → XF ℝ), r.1)) = rs
  have hlen : rs.length = w.length := by rw [← hrs]; simp
  obtain ⟨hd, hp, hq⟩ := trend_inv w.length hn
  generalize hG : (gram (trendRows (fun _ => 0) 0 w.length)) = G at *
  have hinv : invX (gramX rs) = .ok G⁻¹ := by rw [← hrs, trend_invX, hG, if_neg hd]
  have hxy0 : XF.sum (rs.map fun r => XF.mul (r.1 0) r.2) = XF.sum w := by
    congr 1
    apply List.ext_getElem
    · simp [hlen]
    · intro q h1 h2
      simp only [← hrs, List.getElem_map, List.getElem_zipIdx, Matrix.cons_val_zero]
      cases w[q] <;> simp [XF.mul, XF.infSign, XF.neg]
  have hnf0 : isFinite (XF.sum w) = false := sum_not_finite w (.fin 0) (Or.inr ⟨x, hx, hf⟩)
  have hmem : ∀ r ∈ rs, ∃ q : ℕ, q < w.length ∧ r = (![.fin 1, .fin (q : ℝ)], w.getD q .nan) := by
    intro r hr
    rw [← hrs] at hr
    obtain ⟨⟨a, q⟩, h1, rfl⟩ := List.mem_map.1 hr
    obtain ⟨h2, h3⟩ := List.mem_zipIdx' h1
    exact ⟨q, h2, by simp [List.getD_eq_getElem?_getD, h2, h3]⟩
  have hS : XF.sum w = .nan ∨ ∃ v : XF ℝ, (v = .pinf ∨ v = .ninf) ∧ XF.sum w = v ∧
      (XF.sum (rs.map fun r => XF.mul (r.1 1) r.2) = .nan ∨ XF.sum (rs.map fun r => XF.mul (r.1 1) r.2) = v) := by
    have key : ∀ v : XF ℝ, (v = .pinf ∨ v = .ninf) → XF.sum w = v →
        (XF.sum (rs.map fun r => XF.mul (r.1 1) r.2) = .nan ∨ XF.sum (rs.map fun r => XF.mul (r.1 1) r.2) = v) := by
      intro v hv hw
      have hall : ∀ z ∈ w, FinOr v z := (foldl_add_finOr hv w (.fin 0) (Or.inl hw)).2
      have h1 := foldl_add_finOrNan hv (rs.map fun r => XF.mul (r.1 1) r.2) (.fin 0) (Or.inr (Or.inr ⟨0, rfl⟩)) (by
        intro z hz
        obtain ⟨r, hr, rfl⟩ := List.mem_map.1 hz
        obtain ⟨q, hq, rfl⟩ := hmem r hr
        simp only [Matrix.cons_val_one, Matrix.cons_val_fin_one]
        rw [List.getD_eq_getElem?_getD, List.getElem?_eq_getElem hq, Option.getD_some]
        rcases hall _ (List.getElem_mem hq) with h | ⟨u, h⟩
        · rw [h]
          rcases Nat.eq_zero_or_pos q with h0 | h0
          · left
            subst h0
            rcases hv with rfl | rfl <;> simp [XF.mul, XF.infSign, XF.neg]
          · right; left
            have : (0 : ℝ) < q := by exact_mod_cast h0
            rcases hv with rfl | rfl <;> simp [XF.mul, infSign_pos this, XF.neg]
        · right; right
          exact ⟨_, by rw [h, XF.mul_fin]⟩)
      rcases h1 with h1 | h1 | ⟨u, h1⟩
      · exact Or.inl h1
      · exact Or.inr h1
      · exfalso
        obtain ⟨q, hq, rfl⟩ := List.mem_iff_getElem.1 hx
        have := sum_not_finite (rs.map fun r => XF.mul (r.1 1) r.2) (.fin 0) (Or.inr ⟨XF.mul (.fin (q : ℝ)) w[q], by
          refine List.mem_map.2 ⟨(![.fin 1, .fin (q : ℝ)], w[q]), ?_, rfl⟩
          rw [← hrs]
          exact List.mem_map.2 ⟨(w[q], q), by rw [List.mem_zipIdx_iff_getElem?]; simp [hq], rfl⟩, by
          cases h : w[q] with
          | fin u => rw [h] at hf; cases hf
          | nan => rfl
          | pinf => simp only [XF.mul]; unfold XF.infSign; split <;> [rfl; split <;> rfl]
          | ninf => simp only [XF.mul]; unfold XF.infSign; split <;> [rfl; split <;> rfl]⟩)
        rw [h1] at this
        cases this
    cases h : XF.sum w with
    | nan => exact Or.inl rfl
    | fin u => rw [h] at hnf0; cases hnf0
    | pinf => exact Or.inr ⟨_, Or.inl rfl, rfl, key _ (Or.inl rfl) h⟩
    | ninf => exact Or.inr ⟨_, Or.inr rfl, rfl, key _ (Or.inr rfl) h⟩
  have hbeta : dotX (fun j => .fin (G⁻¹ 1 j)) (fun i => XF.sum (rs.map fun r => XF.mul (r.1 i) r.2)) = .nan := by
    have e : dotX (fun j => .fin (G⁻¹ 1 j)) (fun i => XF.sum (rs.map fun r => XF.mul (r.1 i) r.2)) =
        XF.add (XF.add (.fin 0) (XF.mul (.fin (G⁻¹ 1 0)) (XF.sum w))) (XF.mul (.fin (G⁻¹ 1 1)) (XF.sum (rs.map fun r => XF.mul (r.1 1) r.2))) := by
      rw [← hxy0]; rfl
    rw [e]
    rcases hS with h | ⟨v, hv, h, h1 | h1⟩
    · rw [h]; simp
    · rw [h1]; simp
    · rw [h, h1]
      rcases hv with rfl | rfl <;> simp [XF.mul, infSign_pos hp, infSign_neg' hq, XF.neg, XF.add]
  unfold tValue ols
  dsimp only
  rw [hinv, Py.bind_ok, Py.bind_ok]
  dsimp only
  rw [hbeta]
  have herr : XF.sum ((rs.map fun r => XF.sub r.2 (dotX r.1 fun i => dotX (fun j => .fin (G⁻¹ i j)) fun i => XF.sum (rs.map fun r => XF.mul (r.1 i) r.2))).map
      fun e => XF.mul e e) = .nan := by
    apply sum_nan
    rw [List.map_map]
    obtain ⟨r, rs', hr⟩ : ∃ r rs', rs = r :: rs' := by
      cases rs with
      | nil => simp at hlen; omega
      | cons r rs' => exact ⟨r, rs', rfl⟩
    refine List.mem_map.2 ⟨r, by rw [hr]; simp, ?_⟩
    have : dotX r.1 (fun i => dotX (fun j => .fin (G⁻¹ i j)) fun i => XF.sum (rs.map fun r => XF.mul (r.1 i) r.2)) = .nan := by
      unfold dotX
      apply sum_nan
      rw [List.mem_ofFn]
      refine ⟨1, ?_⟩
      show XF.mul (r.1 1) (dotX (fun j => .fin (G⁻¹ 1 j)) fun i => XF.sum (rs.map fun r => XF.mul (r.1 i) r.2)) = .nan
      rw [hbeta]
      cases r.1 1 <;> rfl
    simp only [Function.comp_apply, this]
    cases r.2 <;> rfl
  rw [herr]
  simp [divE, XF.sqrt, XF.beq]

theorem affine_fin (a b x : ℝ) : affine a b (.fin x) = .fin (a * x + b) := by simp [affine]

theorem isFinite_affine {a : ℝ} (ha : a ≠ 0) (b : ℝ) (x : XF ℝ) : isFinite (affine a b x) = isFinite x := by
  rcases lt_or_gt_of_ne ha with h | h <;> cases x <;> simp [affine, isFinite, XF.mul, XF.add, infSign_neg', infSign_pos, h, XF.neg]

theorem slice_of_finite (w : List (XF ℝ)) (h : ∀ x ∈ w, isFinite x = true) : w = slice (fun i => (w.getD i .nan).toK) 0 w.length := by
  apply List.ext_getElem
  · simp [slice]
  · intro i h1 h2
    have := h _ (List.getElem_mem h1)
    simp only [slice, List.getElem_map, List.getElem_range, Nat.zero_add, List.getD_eq_getElem?_getD, List.getElem?_eq_getElem h1, Option.getD_some]
    cases hw : w[i] with
    | fin x => rfl
    | nan => rw [hw] at this; cases this
    | pinf => rw [hw] at this; cases this
    | ninf => rw [hw] at this; cases this

/-- A change of scale keeps the t-value up to its sign. -/
theorem trendT_affine (em : ErrModel) {a : ℝ} (ha : a ≠ 0) (b : ℝ) (w : List (XF ℝ)) :
    trendT em (w.map (affine a b)) = (trendT em w).map (sg a) := by
  by_cases hn : w.length < 2
  · rw [trendT_short em w hn, trendT_short em _ (by simpa using hn)]; rfl
  · by_cases hf : ∀ x ∈ w, isFinite x = true
    · rw [slice_of_finite w hf]
      generalize (fun i => (w.getD i .nan).toK) = y
      generalize w.length = n
      have e1 : (slice y 0 n).map (affine a b) = slice (fun i => a * y i + b) 0 n := by
        unfold slice
        rw [List.map_map]
        apply List.map_congr_left
        intro i _
        simp only [Function.comp_apply, affine_fin]
      have e2 : trendRows (fun i => a * y i + b) 0 n = shiftRows a ![b, 0] (trendRows y 0 n) := by
        unfold trendRows shiftRows
        rw [List.map_map]
        apply List.map_congr_left
        intro i _
        simp [predict, Fin.sum_univ_two]
      rw [e1, trendT_slice, trendT_slice, e2]
      exact tValue_shift em a ha _ 1 (by simp) _
    · push Not at hf
      obtain ⟨x, hx, hxf⟩ := hf
      have hxf : isFinite x = false := by simpa using hxf
      rw [trendT_not_finite em w (by omega) x hx hxf,
        trendT_not_finite em _ (by rw [List.length_map]; omega) (affine a b x) (List.mem_map_of_mem hx) (by rw [isFinite_affine ha]; exact hxf)]
      simp [sg, Except.map, XF.neg]

end Mizar.Trend
