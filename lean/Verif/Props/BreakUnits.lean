import Mathlib.LinearAlgebra.Matrix.Block
import Verif.Lemmas.OlsChange
import Verif.Props.Sadf
import Verif.Props.Sdfc

/-! Property theorems C93: the structural break tests do not depend on the unit and the level of the series. -/

namespace Mizar.Props
open Mizar.Spec Mizar.Brk Mizar.Trend

theorem isNan_affine {a : ℝ} (ha : a ≠ 0) (b : ℝ) (x : XF ℝ) : (affine a b x).isNan = x.isNan := by
  rcases lt_or_gt_of_ne ha with h | h <;> cases x <;> simp [affine, XF.isNan, XF.mul, XF.add, infSign_neg', infSign_pos, h, XF.neg]

theorem mul_eq_affine (a : ℝ) (x : XF ℝ) : XF.mul (.fin a) x = affine a 0 x := by
  have hs : XF.add (XF.infSign a) (.fin 0) = XF.infSign a ∧ XF.add (XF.neg (XF.infSign a)) (.fin 0) = XF.neg (XF.infSign a) := by
    unfold XF.infSign
    split_ifs <;> exact ⟨rfl, rfl⟩
  cases x with
  | fin x => simp [affine]
  | nan => rfl
  | pinf => exact hs.1.symm
  | ninf => exact hs.2.symm

theorem sg_sg {a : ℝ} (x : XF ℝ) : sg a (sg a x) = x := by
  unfold sg
  split_ifs
  · rfl
  · cases x <;> simp [XF.neg]

theorem map_sg_sg (a : ℝ) (r : Py (XF ℝ)) : (r.map fun t => sg a (sg a t)) = r := by
  simp only [sg_sg]
  cases r <;> rfl

/-! ### The Chow-type test -/

/-- C93: multiplying the series by any number but zero changes no value of the Chow-type test, whatever is missing or
infinite. -/
theorem C93_sdfc (em : ErrModel) (m : ℕ) (a : ℝ) (ha : a ≠ 0) (s : List (ℤ × XF ℝ)) :
    sdfcRun em m (s.map fun r => (r.1, XF.mul (.fin a) r.2)) = sdfcRun em m s := by
  have hmap : (s.map fun r => (r.1, XF.mul (.fin a) r.2)) = s.map fun r => (r.1, affine a 0 r.2) := by
    simp only [mul_eq_affine]
  rw [hmap]
  have hd : dfColumns (s.map fun r => (r.1, affine a 0 r.2)) = ((dfColumns s).1.map (affine a 0), (dfColumns s).2.map (affine a 0)) := by
    unfold dfColumns
    dsimp only
    congr 1
    · rw [← List.map_tail, List.zipWith_map]
      have e1 : List.zipWith (fun x y => XF.sub ((fun r : ℤ × XF ℝ => (r.1, affine a 0 r.2)) x).2 ((fun r : ℤ × XF ℝ => (r.1, affine a 0 r.2)) y).2) s.tail s =
          (List.zipWith (fun a b => XF.sub a.2 b.2) s.tail s).map (affine a 0) := by
        rw [List.map_zipWith]
        congr 1
        funext x y
        dsimp only
        rw [sub_affine ha, mul_eq_affine]
      rw [e1, List.filter_map]
      congr 1
      apply List.filter_congr
      intro x _
      simp only [Function.comp_apply, isNan_affine ha]
    · rw [← List.map_dropLast, List.map_map]
      have : (s.dropLast.map ((fun r : ℤ × XF ℝ => r.2) ∘ fun r => (r.1, affine a 0 r.2))) = (s.dropLast.map (·.2)).map (affine a 0) := by
        rw [List.map_map]; rfl
      rw [this, List.filter_map]
      congr 1
      apply List.filter_congr
      intro x _
      simp only [Function.comp_apply, isNan_affine ha]
  have hat : ∀ i, dfcAt em ((dfColumns s).1.map (affine a 0)) ((dfColumns s).2.map (affine a 0)) i = dfcAt em (dfColumns s).1 (dfColumns s).2 i := by
    intro i
    unfold dfcAt
    dsimp only
    simp only [List.length_map, List.length_zipIdx]
    split
    · rfl
    · rw [tValue_changed em (Matrix.of fun _ _ => a) (by simpa using ha) a ha (fun _ => 0) (0 : Fin 1) (by
        intro j hj; exact absurd (Subsingleton.elim j 0) hj) rfl _ _ ?_]
      · exact map_sg_sg a _
      · rw [List.forall₂_iff_get]
        refine ⟨by simp, ?_⟩
        intro q h1 h2
        simp only [List.get_eq_getElem, List.getElem_map, List.getElem_zip, List.getElem_zipIdx, Nat.zero_add]
        generalize (dfColumns s).2[q]'(by simp at h1; omega) = v
        generalize (dfColumns s).1[q]'(by simp at h1; omega) = t
        generalize (if q < i then (0 : ℝ) else 1) = z
        constructor
        · rintro ⟨j, hj⟩
          refine ⟨j, ?_⟩
          dsimp only at hj ⊢
          have hv : isFinite v = false := by
            cases v with
            | fin v => simp [isFinite] at hj
            | _ => rfl
          have : isFinite (affine a 0 v) = false := by rw [isFinite_affine ha]; exact hv
          exact isFinite_mul_right this
        · intro x hx j
          have hx0 := hx 0
          dsimp only at hx0 ⊢
          cases v with
          | fin v =>
            simp only [XF.mul_fin, XF.fin.injEq, affine_fin] at hx0 ⊢
            simp [Matrix.vecMul, dotProduct, ← hx0]; ring
          | nan => have := isFinite_mul_right (a := .fin z) (x := .nan) rfl; rw [hx0] at this; cases this
          | pinf => have := isFinite_mul_right (a := .fin z) (x := .pinf) rfl; rw [hx0] at this; cases this
          | ninf => have := isFinite_mul_right (a := .fin z) (x := .ninf) rfl; rw [hx0] at this; cases this
        · intro x t' _ ht
          dsimp only at ht ⊢
          rw [ht, affine_fin]
          simp [predict]
        · intro _ ht
          dsimp only at ht ⊢
          rw [isFinite_affine ha]; exact ht
  unfold sdfcRun
  dsimp only
  rw [hd, List.length_map, List.map_map (l := s)]
  dsimp only
  have hf : dfcAt em ((dfColumns s).1.map (affine a 0)) ((dfColumns s).2.map (affine a 0)) = dfcAt em (dfColumns s).1 (dfColumns s).2 := funext hat
  rw [hf]
  rfl

/-! ### The explosiveness tests -/

theorem sadfLoop_congr (em : ErrModel) (k m : ℕ) (model : String) (phi : ℝ) (w w' : List (Row (k + 1))) (hl : w'.length = w.length)
    (h : ∀ n p, adfAt em k model phi (w'.take n) p = adfAt em k model phi (w.take n) p) :
    sadfLoop em k m model phi w' = sadfLoop em k m model phi w := by
  unfold sadfLoop
  rw [hl]
  split
  · rfl
  · congr 1
    funext i
    unfold sadfAt
    rw [show adfAt em k model phi (w'.take (m + i + 1)) = adfAt em k model phi (w.take (m + i + 1)) from funext fun p => h _ p]
    simp only [List.length_take, hl]

/-- What a row and its changed row have in common. -/
structure RowChanged (k : ℕ) (A : Matrix (Fin (k + 1)) (Fin (k + 1)) ℝ) (u : ℝ) (d : Fin (k + 1) → ℝ) (r r' : LRow) : Prop where
  time : r'.1 = r.1
  nan : (r'.2.1.all (fun v => !v.isNan) && !r'.2.2.isNan) = (r.2.1.all (fun v => !v.isNan) && !r.2.2.isNan)
  row : Changed A u d (toRow k r) (toRow k r')

theorem abs_sg (a : ℝ) (x : XF ℝ) : XF.abs (sg a x) = XF.abs x := by
  unfold sg
  split_ifs
  · rfl
  · cases x <;> simp [XF.neg, XF.abs]

theorem sadfRun_changed (em : ErrModel) (model : String) (lags : ℤ) (m : ℕ) (c : Bool) (phi : ℝ) (s s' : List (ℤ × XF ℝ)) (k : ℕ)
    (rows rows' : List LRow) (hD : designRows model lags c s = .ok (k, rows)) (hD' : designRows model lags c s' = .ok (k, rows'))
    (A : Matrix (Fin (k + 1)) (Fin (k + 1)) ℝ) (hA : A.det ≠ 0) (u : ℝ) (hu : u ≠ 0) (d : Fin (k + 1) → ℝ) (hrow : ∀ i, i ≠ 0 → A 0 i = 0)
    (hd : d 0 = 0) (hs : isSm model = false → A 0 0 = u) (h : List.Forall₂ (RowChanged k A u d) rows rows') :
    sadfRun em model lags m c phi s' = sadfRun em model lags m c phi s := by
  have hl := h.length_eq
  have hg := (List.forall₂_iff_get.1 h).2
  have htime : rows'.map (·.1) = rows.map (·.1) := by
    apply List.ext_getElem (by simp [hl])
    intro q h1 h2
    simp only [List.getElem_map]
    exact (hg q (by simpa using h2) (by simpa using h1)).time
  have hnan : rows'.all (fun x => x.2.1.all (fun v => !v.isNan) && !x.2.2.isNan) = rows.all (fun x => x.2.1.all (fun v => !v.isNan) && !x.2.2.isNan) := by
    clear htime hg hl hD hD'
    induction h with
    | nil => rfl
    | cons h1 _ ih => rw [List.all_cons, List.all_cons, ih, h1.nan]
  have hall : List.Forall₂ (Changed A u d) (rows.map (toRow k)) (rows'.map (toRow k)) := by
    rw [List.forall₂_map_left_iff, List.forall₂_map_right_iff]
    exact h.imp fun _ _ h => h.row
  have hloop : sadfLoop em k m model phi (rows'.map (toRow k)) = sadfLoop em k m model phi (rows.map (toRow k)) := by
    apply sadfLoop_congr _ _ _ _ _ _ _ (by simp [hl])
    intro n p
    have hn := List.forall₂_drop p (List.forall₂_take n hall)
    unfold adfAt
    dsimp only
    rw [tValue_changed em A hA u hu d 0 hrow hd _ _ hn]
    have hlen : ((rows'.map (toRow k)).take n).length = ((rows.map (toRow k)).take n).length := by simp [hl]
    rw [hlen]
    cases hsm : isSm model with
    | true =>
      cases tValue em 0 (List.drop p ((rows.map (toRow k)).take n)) with
      | error e => rfl
      | ok t =>
        simp only [Except.map, Py.bind_ok, if_true]
        rw [abs_sg, abs_sg]
    | false =>
      rw [hs hsm, map_sg_sg]
  unfold sadfRun getXy
  rw [hD, hD', Py.bind_ok, Py.bind_ok]
  dsimp only
  rw [hnan]
  split
  · rw [Py.bind_ok, Py.bind_ok]
    dsimp only
    rw [hloop, htime]
  · rfl

theorem diffs_affine {a : ℝ} (ha : a ≠ 0) (b : ℝ) (s : List (ℤ × XF ℝ)) :
    Brk.diffs (s.map fun r => (r.1, affine a b r.2)) = (Brk.diffs s).map fun r => (r.1, affine a 0 r.2.1, affine a b r.2.2) := by
  unfold Brk.diffs
  rw [← List.map_tail, List.zipWith_map]
  have e : List.zipWith (fun x y => ((fun r : ℤ × XF ℝ => (r.1, affine a b r.2)) x |>.1, XF.sub ((fun r : ℤ × XF ℝ => (r.1, affine a b r.2)) x).2
        ((fun r : ℤ × XF ℝ => (r.1, affine a b r.2)) y).2, ((fun r : ℤ × XF ℝ => (r.1, affine a b r.2)) y).2)) s.tail s =
      (List.zipWith (fun a b => (a.1, XF.sub a.2 b.2, b.2)) s.tail s).map fun r => (r.1, affine a 0 r.2.1, affine a b r.2.2) := by
    rw [List.map_zipWith]
    congr 1
    funext x y
    dsimp only
    rw [sub_affine ha, mul_eq_affine]
  rw [e, List.filter_map]
  congr 1
  apply List.filter_congr
  intro x _
  simp only [Function.comp_apply, isNan_affine ha]

/-- A row of the Dickey-Fuller models after a change of the series. -/
noncomputable def dfChange (a b : ℝ) (r : LRow) : LRow :=
  (r.1, (r.2.1.take 1).map (affine a b) ++ (r.2.1.drop 1).map (affine a 0), affine a 0 r.2.2)

theorem standardRows_affine {a : ℝ} (ha : a ≠ 0) (b : ℝ) (lags : ℤ) (s : List (ℤ × XF ℝ)) :
    standardRows lags (s.map fun r => (r.1, affine a b r.2)) = (standardRows lags s).map (dfChange a b) := by
  unfold standardRows
  split
  · rfl
  · dsimp only
    rw [diffs_affine ha, List.length_map, List.map_map]
    apply List.map_congr_left
    intro j _
    have hg : ∀ i, ((Brk.diffs s).map fun r => (r.1, affine a 0 r.2.1, affine a b r.2.2)).getD i (0, .nan, .nan) =
        ((fun r : ℤ × XF ℝ × XF ℝ => (r.1, affine a 0 r.2.1, affine a b r.2.2)) ((Brk.diffs s).getD i (0, .nan, .nan))) := by
      intro i
      rw [List.getD_eq_getElem?_getD, List.getD_eq_getElem?_getD, List.getElem?_map]
      cases (Brk.diffs s)[i]? <;> simp [affine]
    simp only [hg, Function.comp_apply, dfChange, List.take_succ_cons, List.take_zero, List.drop_succ_cons, List.drop_zero, List.map_cons, List.map_nil,
      List.map_map, List.singleton_append]
    rfl

theorem standardRows_shape (lags : ℤ) (s : List (ℤ × XF ℝ)) (r : LRow) (hr : r ∈ standardRows lags s) :
    1 ≤ lags.toNat ∧ ∃ c0 ls, r.2.1 = c0 :: ls ∧ ls.length = lags.toNat := by
  unfold standardRows at hr
  split at hr
  · simp at hr
  · refine ⟨by omega, ?_⟩
    obtain ⟨j, -, rfl⟩ := List.mem_map.1 hr
    exact ⟨_, _, rfl, by simp⟩

/-- The change of the regressors: level and changes times `a`, the constant (the last column) times `b` added to the level. -/
def dfMatrix (k L : ℕ) (a b : ℝ) : Matrix (Fin (k + 1)) (Fin (k + 1)) ℝ :=
  Matrix.of fun i j => if i = j then (if j.1 ≤ L then a else 1) else if j = 0 ∧ i = Fin.last k then b else 0

theorem dfMatrix_det (k L : ℕ) {a : ℝ} (ha : a ≠ 0) (b : ℝ) : (dfMatrix k L a b).det ≠ 0 := by
  rw [Matrix.det_of_lowerTriangular]
  · rw [Finset.prod_ne_zero_iff]
    intro i _
    simp only [dfMatrix, Matrix.of_apply, if_true]
    split
    · exact ha
    · exact one_ne_zero
  · intro i j hij
    have hij : i < j := hij
    simp only [dfMatrix, Matrix.of_apply]
    rw [if_neg hij.ne, if_neg]
    rintro ⟨rfl, -⟩
    exact absurd hij (by simp)

theorem dfMatrix_vecMul (k L : ℕ) (hk : 1 ≤ k) (a b : ℝ) (x : Fin (k + 1) → ℝ) (j : Fin (k + 1)) :
    Matrix.vecMul x (dfMatrix k L a b) j = x j * (if j.1 ≤ L then a else 1) + if j = 0 then x (Fin.last k) * b else 0 := by
  simp only [Matrix.vecMul, dotProduct, dfMatrix, Matrix.of_apply]
  have : ∀ i, x i * (if i = j then (if j.1 ≤ L then a else 1) else if j = 0 ∧ i = Fin.last k then b else 0) =
      (if i = j then x i * (if j.1 ≤ L then a else 1) else 0) + if i = Fin.last k then (if j = 0 then x i * b else 0) else 0 := by
    intro i
    by_cases h1 : i = j
    · subst h1
      have : ¬ (i = Fin.last k ∧ i = 0) := by
        rintro ⟨h, h0⟩
        rw [h0] at h
        have := congrArg Fin.val h
        simp at this
        omega
      by_cases h2 : i = Fin.last k
      · have h3 : ¬ i = 0 := fun h => this ⟨h2, h⟩
        rw [if_pos rfl, if_pos rfl, if_neg h3, ite_self, add_zero]
      · rw [if_pos rfl, if_pos rfl, if_neg h2, add_zero]
    · rw [if_neg h1, if_neg h1, zero_add]
      by_cases h2 : i = Fin.last k <;> by_cases h3 : j = 0
      · rw [if_pos ⟨h3, h2⟩, if_pos h2, if_pos h3]
      · rw [if_neg (fun h => h3 h.1), if_pos h2, if_neg h3, mul_zero]
      · rw [if_neg (fun h => h2 h.2), if_neg h2, mul_zero]
      · rw [if_neg (fun h => h2 h.2), if_neg h2, mul_zero]
  simp only [this]
  rw [Finset.sum_add_distrib, Finset.sum_ite_eq' Finset.univ j, Finset.sum_ite_eq' Finset.univ (Fin.last k)]
  simp

theorem dfRow_changed {a : ℝ} (ha : a ≠ 0) (b : ℝ) (k L : ℕ) (hL : 1 ≤ L) (t : ℤ) (c0 y : XF ℝ) (ls e : List (XF ℝ)) (hls : ls.length = L)
    (hk : k = L + e.length) (hb : b = 0 ∨ e.getLast? = some (.fin 1)) :
    RowChanged k (dfMatrix k L a b) a (fun _ => 0) (t, (c0 :: ls) ++ e, y) (t, (affine a b c0 :: ls.map (affine a 0)) ++ e, affine a 0 y) := by
  have h0 : (toRow k (t, (affine a b c0 :: ls.map (affine a 0)) ++ e, affine a 0 y)).1 0 = affine a b c0 := rfl
  have hlow : ∀ j : Fin (k + 1), j.1 ≠ 0 → j.1 ≤ L → ∃ v, (toRow k (t, (c0 :: ls) ++ e, y)).1 j = v ∧
      (toRow k (t, (affine a b c0 :: ls.map (affine a 0)) ++ e, affine a 0 y)).1 j = affine a 0 v := by
    rintro ⟨j, hj⟩ hj0 hjL
    obtain ⟨q, rfl⟩ : ∃ q, j = q + 1 := ⟨j - 1, by simp at hj0; omega⟩
    have hq : q < ls.length := by simp at hjL; omega
    refine ⟨ls[q], ?_, ?_⟩
    · simp [toRow, List.getD_eq_getElem?_getD, List.getElem?_append_left, hq]
    · simp [toRow, List.getD_eq_getElem?_getD, List.getElem?_append_left, hq]
  have hhigh : ∀ j : Fin (k + 1), L < j.1 → (toRow k (t, (affine a b c0 :: ls.map (affine a 0)) ++ e, affine a 0 y)).1 j =
      (toRow k (t, (c0 :: ls) ++ e, y)).1 j := by
    rintro ⟨j, hj⟩ hjL
    obtain ⟨q, rfl⟩ : ∃ q, j = q + 1 := ⟨j - 1, by simp at hjL; omega⟩
    have hq : ls.length ≤ q := by simp at hjL; omega
    simp [toRow, List.getD_eq_getElem?_getD, List.getElem?_append_right, hq]
  have hlast : b = 0 ∨ (toRow k (t, (c0 :: ls) ++ e, y)).1 (Fin.last k) = .fin 1 := by
    rcases hb with hb | hb
    · exact Or.inl hb
    · right
      have he : e ≠ [] := by rintro rfl; simp at hb
      have hlen : 0 < e.length := List.length_pos_of_ne_nil he
      have : ((c0 :: ls) ++ e)[k]? = some (.fin 1) := by
        rw [List.getElem?_append_right (by simp; omega), ← hb, List.getLast?_eq_getElem?]
        congr 1
        simp
        omega
      simp only [toRow, Fin.val_last, List.getD_eq_getElem?_getD, this, Option.getD_some]
  refine ⟨rfl, ?_, ?_, ?_, ?_, ?_⟩
  · simp only [List.all_append, List.all_cons, List.all_map, Function.comp_def, isNan_affine ha]
  · rintro ⟨j, hj⟩
    refine ⟨j, ?_⟩
    by_cases hj0 : j = 0
    · subst hj0
      rw [h0, isFinite_affine ha]; exact hj
    · by_cases hjL : j.1 ≤ L
      · obtain ⟨v, h1, h2⟩ := hlow j (by intro h; exact hj0 (Fin.ext h)) hjL
        rw [h2, isFinite_affine ha, ← h1]; exact hj
      · rw [hhigh j (by omega)]; exact hj
  · intro x hx j
    rw [dfMatrix_vecMul k L (by omega)]
    by_cases hj0 : j = 0
    · subst hj0
      have hc : c0 = .fin (x 0) := hx 0
      rw [h0, hc, affine_fin]
      simp only [Fin.val_zero, zero_le, if_true]
      congr 1
      rcases hlast with h | h
      · rw [h]; ring
      · rw [hx (Fin.last k)] at h
        simp only [XF.fin.injEq] at h
        rw [h]; ring
    · rw [if_neg hj0]
      by_cases hjL : j.1 ≤ L
      · obtain ⟨v, h1, h2⟩ := hlow j (by intro h; exact hj0 (Fin.ext h)) hjL
        rw [hx j] at h1
        rw [h2, ← h1, affine_fin, if_pos hjL]
        congr 1; ring
      · rw [hhigh j (by omega), hx j, if_neg hjL]
        congr 1; ring
  · intro x t' _ ht
    have ht : y = .fin t' := ht
    show affine a 0 y = _
    rw [ht, affine_fin]
    simp [predict]
  · intro _ ht
    show isFinite (affine a 0 y) = false
    rw [isFinite_affine ha]; exact ht

theorem addCols_getElem (f : ℕ → List (XF ℝ)) (rows : List LRow) (q : ℕ) (h : q < (addCols f rows).length) :
    (addCols f rows)[q] = ((rows[q]'(by simpa [addCols] using h)).1, (rows[q]'(by simpa [addCols] using h)).2.1 ++ f q,
      (rows[q]'(by simpa [addCols] using h)).2.2) := by
  simp [addCols]

/-- C93: multiplying the series by a number other than zero changes no value of the Dickey-Fuller models of the
explosiveness test; with a constant in the regression, neither does adding a number.  This holds whatever is missing or
infinite, and errors are the same. -/
theorem C93_sadf_level (em : ErrModel) (model : String) (hmod : model ∈ ["no_trend", "linear", "quadratic"]) (lags : ℤ) (m : ℕ) (c : Bool)
    (phi a b : ℝ) (ha : a ≠ 0) (hb : c = true ∨ b = 0) (s : List (ℤ × XF ℝ)) :
    sadfRun em model lags m c phi (s.map fun r => (r.1, affine a b r.2)) = sadfRun em model lags m c phi s := by
  have key : ∀ (f : ℕ → List (XF ℝ)) (n : ℕ), isSm model = false → (∀ j, (f j).length = n) → (∀ j, b = 0 ∨ (f j).getLast? = some (.fin 1)) →
      (∀ s, designRows model lags c s = .ok (lags.toNat + n, addCols f (standardRows lags s))) →
      sadfRun em model lags m c phi (s.map fun r => (r.1, affine a b r.2)) = sadfRun em model lags m c phi s := by
    intro f n hsm hf hlast hD
    refine sadfRun_changed em model lags m c phi s _ (lags.toNat + n) _ _ (hD s) (hD _) (dfMatrix _ lags.toNat a b) (dfMatrix_det _ _ ha b) a ha
      (fun _ => 0) ?_ rfl ?_ ?_
    · intro i hi
      simp only [dfMatrix, Matrix.of_apply]
      rw [if_neg (Ne.symm hi), if_neg]
      rintro ⟨h, -⟩
      exact hi h
    · intro _
      simp [dfMatrix]
    · rw [standardRows_affine ha, List.forall₂_iff_get]
      refine ⟨by simp [addCols], ?_⟩
      intro q h1 h2
      simp only [List.get_eq_getElem, addCols_getElem, List.getElem_map]
      have hq : q < (standardRows lags s).length := by simpa [addCols] using h1
      obtain ⟨hL, c0, ls, hc, hls⟩ := standardRows_shape lags s _ (List.getElem_mem hq)
      generalize (standardRows lags s)[q] = r at hc
      obtain ⟨t, cols, y⟩ := r
      dsimp only at hc
      subst hc
      have := dfRow_changed ha b (lags.toNat + n) lags.toNat hL t c0 y ls (f q) hls (by rw [hf]) (hlast q)
      simpa [dfChange] using this
  simp only [List.mem_cons, List.not_mem_nil, or_false] at hmod
  have hbc : b = 0 ∨ c = true := hb.symm
  rcases hmod with rfl | rfl | rfl
  · refine key (fun _ => constCol c) (constCol c).length (by decide) (fun _ => rfl) ?_ (fun s => by simp [designRows])
    intro j
    rcases hbc with h | rfl
    · exact Or.inl h
    · exact Or.inr rfl
  · refine key (fun j => trend j :: constCol c) (1 + (constCol c).length) (by decide) (fun _ => by simp; omega) ?_ (fun s => by
      simp [designRows, Nat.add_assoc])
    intro j
    rcases hbc with h | rfl
    · exact Or.inl h
    · exact Or.inr rfl
  · refine key (fun j => trend j :: quadTrend j :: constCol c) (2 + (constCol c).length) (by decide) (fun _ => by simp; omega) ?_ (fun s => by
      simp [designRows, Nat.add_assoc])
    intro j
    rcases hbc with h | rfl
    · exact Or.inl h
    · exact Or.inr rfl

theorem log_scale_affine {u : ℝ} (hu : 0 < u) (x : XF ℝ) : XF.log (XF.mul (.fin u) x) = affine 1 (Real.log u) (XF.log x) := by
  rw [log_scale hu]
  cases XF.log x with
  | fin v => rw [affine_fin, XF.add_fin]; congr 1; ring
  | _ => simp [affine, XF.mul, XF.infSign, XF.add, XF.neg]

/-- C93: the sub- and super-martingale models do not change when the series is multiplied by a positive number; the model
in levels does not change under any other change of scale and level either. -/
theorem C93_sadf_martingale (em : ErrModel) (model : String) (lags : ℤ) (m : ℕ) (c : Bool) (phi : ℝ) (s : List (ℤ × XF ℝ)) :
    (model ∈ ["sm_poly_1", "sm_poly_2", "sm_exp", "sm_power"] → ∀ u : ℝ, 0 < u →
      sadfRun em model lags m c phi (s.map fun r => (r.1, XF.mul (.fin u) r.2)) = sadfRun em model lags m c phi s) ∧
    (model = "sm_poly_1" → ∀ a b : ℝ, a ≠ 0 →
      sadfRun em model lags m c phi (s.map fun r => (r.1, affine a b r.2)) = sadfRun em model lags m c phi s) := by
  have key : ∀ (k : ℕ) (g : XF ℝ → XF ℝ) (f : ℕ → List (XF ℝ)) (T : XF ℝ → XF ℝ) (a b : ℝ), a ≠ 0 → (∀ j, (f j)[1]? = some (.fin 1)) →
      1 ≤ k → (∀ x, g (T x) = affine a b (g x)) → isSm model = true → (∀ s, designRows model lags c s = .ok (k, smRows g f s)) →
      sadfRun em model lags m c phi (s.map fun r => (r.1, T r.2)) = sadfRun em model lags m c phi s := by
    intro k g f T a b ha hf hk hg hsm hD
    refine sadfRun_changed em model lags m c phi s _ k _ _ (hD s) (hD _) 1 (by simp) a ha (fun i => if i.1 = 1 then b else 0) ?_ (by simp) ?_ ?_
    · intro i hi; exact Matrix.one_apply_ne (Ne.symm hi)
    · intro h; rw [hsm] at h; cases h
    · rw [List.forall₂_iff_get]
      refine ⟨by simp [smRows], ?_⟩
      intro q h1 h2
      simp only [List.get_eq_getElem, smRows, List.getElem_map, List.getElem_zipIdx, hg, Nat.zero_add]
      generalize (s[q]'(by simpa [smRows] using h1)) = r
      refine ⟨rfl, by simp [isNan_affine ha], fun h => h, ?_, ?_, ?_⟩
      · intro x hx i
        rw [Matrix.vecMul_one]; exact hx i
      · intro x t hx ht
        have ht : g r.2 = .fin t := ht
        show affine a b (g r.2) = _
        rw [ht, affine_fin]
        congr 2
        have h1 : x ⟨1, by omega⟩ = 1 := by
          have := hx ⟨1, by omega⟩
          simp only [toRow, List.getD_eq_getElem?_getD, hf, Option.getD_some, XF.fin.injEq] at this
          exact this.symm
        unfold predict
        rw [Finset.sum_eq_single (⟨1, by omega⟩ : Fin (k + 1))]
        · simp [h1]
        · intro i _ hi
          dsimp only
          rw [if_neg (fun h => hi (Fin.ext h)), mul_zero]
        · simp
      · intro _ ht
        show isFinite (affine a b (g r.2)) = false
        rw [isFinite_affine ha]; exact ht
  constructor
  · intro hmod u hu
    simp only [List.mem_cons, List.not_mem_nil, or_false] at hmod
    rcases hmod with rfl | rfl | rfl | rfl
    · exact key 2 id (fun j => [quadTrend j, .fin 1, trend j]) _ u 0 hu.ne' (fun _ => rfl) (by omega) (fun x => mul_eq_affine u x) (by decide) (fun s => by simp [designRows])
    · exact key 2 XF.log (fun j => [quadTrend j, .fin 1, trend j]) _ 1 (Real.log u) one_ne_zero (fun _ => rfl) (by omega) (log_scale_affine hu) (by decide) (fun s => by simp [designRows])
    · exact key 1 XF.log (fun j => [trend j, .fin 1]) _ 1 (Real.log u) one_ne_zero (fun _ => rfl) (by omega) (log_scale_affine hu) (by decide) (fun s => by simp [designRows])
    · exact key 1 XF.log (fun j => [XF.log (trend j), .fin 1]) _ 1 (Real.log u) one_ne_zero (fun _ => rfl) (by omega) (log_scale_affine hu) (by decide) (fun s => by simp [designRows])
  · rintro rfl a b ha
    exact key 2 id (fun j => [quadTrend j, .fin 1, trend j]) _ a b ha (fun _ => rfl) (by omega) (fun _ => rfl) (by decide) (fun s => by simp [designRows])

section Examples

/-- Prices in cents and quoted the other way round give the results of prices in dollars, and there are results. -/
example (em : ErrModel) : ∃ v, sadfRun em "no_trend" 1 3 false 0 (sadfLevel.map fun r => (r.1, affine (-100) 0 r.2)) = .ok [(5, .fin v)] := by
  obtain ⟨v, h, -⟩ := sadf_level_run em
  exact ⟨v, by rw [C93_sadf_level em "no_trend" (by simp) 1 3 false 0 (-100) 0 (by norm_num) (Or.inr rfl), h]⟩

example (em : ErrModel) : ∃ a b, sdfcRun em 1 (chow.map fun r => (r.1, XF.mul (.fin 100) r.2)) = .ok [(1, .fin a), (2, .fin b)] := by
  obtain ⟨a, b, h, -⟩ := sdfc_chow_run em
  exact ⟨a, b, by rw [C93_sdfc em 1 100 (by norm_num), h]⟩

end Examples

end Mizar.Props
