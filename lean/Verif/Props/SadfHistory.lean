import Mathlib.LinearAlgebra.Matrix.Transvection
import Verif.Lemmas.Pipeline
import Verif.Props.BreakUnits

/-! Property theorems C126: a longer history and shorter windows never lower the explosiveness statistic. -/

namespace Mizar.Props
open Mizar.Spec Mizar.Brk

/-- The first value is at most the second one, which may also be missing. -/
def NotAbove (x y : XF ℝ) : Prop := y = .nan ∨ XF.le x y = true

theorem foldl_xmax_nan (l : List (XF ℝ)) (a : XF ℝ) (h : .nan ∈ a :: l) : l.foldl xmax a = .nan := by
  induction l generalizing a with
  | nil => rw [List.mem_singleton] at h; exact h.symm
  | cons b l ih =>
    rw [List.foldl_cons]
    apply ih
    rcases List.mem_cons.1 h with h | h
    · subst h; simp [xmax, XF.isNan]
    · rcases List.mem_cons.1 h with h | h
      · subst h
        cases a <;> simp [xmax, XF.isNan]
      · exact List.mem_cons_of_mem _ h

theorem npMax_subset (a a' : List (XF ℝ)) (hne : a' ≠ []) (h : ∀ x ∈ a', x ∈ a) : NotAbove (npMax a') (npMax a) := by
  cases a' with
  | nil => exact absurd rfl hne
  | cons x' a' =>
    cases a with
    | nil => exact absurd (h x' (by simp)) (by simp)
    | cons x a =>
      by_cases hn : XF.nan ∈ x :: a
      · exact Or.inl (foldl_xmax_nan a x hn)
      · have clean : ∀ y ∈ x :: a, y.isNan = false := by
          intro y hy
          cases y with
          | nan => exact absurd hy hn
          | _ => rfl
        have h1 := Pipe.foldl_xmax a x (clean x (by simp)) fun y hy => clean y (by simp [hy])
        have h2 := Pipe.foldl_xmax a' x' (clean x' (h x' (by simp))) fun y hy => clean y (h y (by simp [hy]))
        exact Or.inr (h1.2.2 _ (h _ h2.1))

theorem mapE_sub {α β : Type} (f : α → Py β) (l l' : List α) (out : List β) (h : mapE f l = .ok out) (hs : ∀ x ∈ l', x ∈ l) :
    ∃ out', mapE f l' = .ok out' ∧ (l' ≠ [] → out' ≠ []) ∧ ∀ y ∈ out', y ∈ out := by
  rw [mapE_eq_ok_iff] at h
  have each : ∀ x ∈ l, ∃ y ∈ out, f x = .ok y := by
    intro x hx
    clear hs
    induction h with
    | nil => simp at hx
    | cons h1 _ ih =>
      rcases List.mem_cons.1 hx with rfl | hx
      · exact ⟨_, by simp, h1⟩
      · obtain ⟨y, hy, e⟩ := ih hx
        exact ⟨y, by simp [hy], e⟩
  clear h
  induction l' with
  | nil => exact ⟨[], rfl, by simp, by simp⟩
  | cons x l' ih =>
    obtain ⟨o, h1, -, h3⟩ := ih fun y hy => hs y (by simp [hy])
    obtain ⟨y, hy, e⟩ := each x (hs x (by simp))
    refine ⟨y :: o, ?_, by simp, ?_⟩
    · rw [mapE, e, h1]
    · intro z hz
      rcases List.mem_cons.1 hz with rfl | hz
      · exact hy
      · exact h3 z hz

/-! ### Shorter windows -/

/-- C126 (minimum length): with a greater `min_length` the test starts later, and at every bar the statistic is at most the
one with the smaller `min_length`, unless that one is missing.  For all models and series. -/
theorem C126_min_length (em : ErrModel) (model : String) (lags : ℤ) (m m' : ℕ) (hm : m ≤ m') (c : Bool) (phi : ℝ) (s out : List (ℤ × XF ℝ))
    (h : sadfRun em model lags m c phi s = .ok out) :
    (out.length < m' - m → sadfRun em model lags m' c phi s = .error .valueError) ∧
    (m' - m ≤ out.length → ∃ out', sadfRun em model lags m' c phi s = .ok out' ∧ out'.length + (m' - m) = out.length ∧
      ∀ i t v', out'[i]? = some (t, v') → ∃ v, out[i + (m' - m)]? = some (t, v) ∧ NotAbove v' v) := by
  unfold sadfRun at h ⊢
  rw [Py.bind_eq_ok] at h
  obtain ⟨⟨k, rows⟩, h1, h⟩ := h
  rw [h1, Py.bind_ok]
  dsimp only at h ⊢
  rw [Py.bind_eq_ok] at h
  obtain ⟨v, h2, h⟩ := h
  simp only [Except.ok.injEq] at h
  unfold sadfLoop at h2 ⊢
  rw [List.length_map] at h2 ⊢
  by_cases hl : rows.length < m
  · rw [if_pos hl] at h2; cases h2
  rw [if_neg hl] at h2
  have hv : v.length = rows.length - m := by rw [mapE_length h2]; simp
  have hol : out.length = rows.length - m := by rw [← h]; simp [hv]
  constructor
  · intro hlt
    rw [if_pos (by omega)]; rfl
  · intro hle
    rw [if_neg (by omega)]
    have h2' := (mapE_eq_ok_iff _ _ _).1 h2
    have hg := (List.forall₂_iff_get.1 h2').2
    have each : ∀ i, i < rows.length - m' → ∃ y x, sadfAt em k m' model phi ((rows.map (toRow k)).take (m' + i + 1)) = .ok y ∧
        v[i + (m' - m)]? = some x ∧ NotAbove y x := by
      intro i hi
      have := hg (i + (m' - m)) (by simp; omega) (by omega)
      simp only [List.get_eq_getElem, List.getElem_range] at this
      rw [show m + (i + (m' - m)) + 1 = m' + i + 1 by omega] at this
      unfold sadfAt at this ⊢
      rw [Py.bind_eq_ok] at this
      obtain ⟨a, ha, ha'⟩ := this
      simp only [Except.ok.injEq] at ha'
      obtain ⟨a', e1, e2, e3⟩ := mapE_sub _ _ (List.range (((rows.map (toRow k)).take (m' + i + 1)).length - m' + 1)) a ha (by
        intro x hx
        rw [List.mem_range] at hx ⊢
        omega)
      refine ⟨npMax a', npMax a, by rw [e1]; rfl, ?_, npMax_subset a a' (e2 (by simp)) e3⟩
      rw [List.getElem?_eq_getElem (by omega), ← ha']
    obtain ⟨v', hv'⟩ := mapE_ok_of_exists (fun i => sadfAt em k m' model phi ((rows.map (toRow k)).take (m' + i + 1)))
      (List.range (rows.length - m')) (by
        intro i hi
        obtain ⟨y, -, e, -⟩ := each i (List.mem_range.1 hi)
        exact ⟨y, e⟩)
    rw [hv', Py.bind_ok]
    have hvl : v'.length = rows.length - m' := by rw [mapE_length hv']; simp
    refine ⟨_, rfl, by simp [hvl]; omega, ?_⟩
    intro i t y hy
    rw [List.getElem?_zip_eq_some] at hy
    obtain ⟨y1, y2⟩ := hy
    have hi : i < v'.length := (List.getElem?_eq_some_iff.1 y2).1
    obtain ⟨y', x, e1, e2, e3⟩ := each i (by omega)
    have e4 := (List.forall₂_iff_get.1 ((mapE_eq_ok_iff _ _ _).1 hv')).2 i (by simp; omega) hi
    simp only [List.get_eq_getElem, List.getElem_range] at e4
    rw [e1] at e4
    rw [List.getElem?_eq_getElem hi] at y2
    simp only [Except.ok.injEq, Option.some.injEq] at e4 y2
    refine ⟨x, ?_, by rw [← y2, ← e4]; exact e3⟩
    rw [← h, List.getElem?_zip_eq_some]
    refine ⟨?_, e2⟩
    rw [List.getElem?_drop] at y1 ⊢
    rw [show m + (i + (m' - m)) = m' + i by omega]
    exact y1

/-! ### Shearing the regressors -/

/-- Adding a multiple of one regressor to another one. -/
def shear {n : ℕ} (t : Fin n × Fin n × ℝ) (x : Fin n → ℝ) : Fin n → ℝ := Function.update x t.2.1 (x t.2.1 + x t.1 * t.2.2)

/-- The matrix of a sequence of such steps. -/
def shears {n : ℕ} (ts : List (Fin n × Fin n × ℝ)) : Matrix (Fin n) (Fin n) ℝ := (ts.map fun t => Matrix.transvection t.1 t.2.1 t.2.2).prod

theorem vecMul_transvection {n : ℕ} (i j : Fin n) (c : ℝ) (x : Fin n → ℝ) : Matrix.vecMul x (Matrix.transvection i j c) = shear (i, j, c) x := by
  funext q
  unfold Matrix.transvection shear
  rw [Matrix.vecMul_add, Matrix.vecMul_one, Pi.add_apply]
  dsimp only
  have e : Matrix.vecMul x (Matrix.single i j c) q = if j = q then x i * c else 0 := by
    simp [Matrix.vecMul, dotProduct, Matrix.single_apply, ite_and]
  rw [e]
  by_cases h : q = j
  · subst h; simp
  · rw [Function.update_of_ne h, if_neg fun h' => h h'.symm, add_zero]

theorem vecMul_shears {n : ℕ} (ts : List (Fin n × Fin n × ℝ)) (x : Fin n → ℝ) :
    Matrix.vecMul x (shears ts) = ts.foldl (fun x t => shear t x) x := by
  induction ts generalizing x with
  | nil => simp [shears]
  | cons t ts ih =>
    have e : shears (t :: ts) = Matrix.transvection t.1 t.2.1 t.2.2 * shears ts := by simp [shears]
    rw [e, ← Matrix.vecMul_vecMul, vecMul_transvection, ih]
    rfl

theorem det_shears {n : ℕ} (ts : List (Fin n × Fin n × ℝ)) (h : ∀ t ∈ ts, t.1 ≠ t.2.1) : (shears ts).det ≠ 0 := by
  induction ts with
  | nil => simp [shears]
  | cons t ts ih =>
    have e : shears (t :: ts) = Matrix.transvection t.1 t.2.1 t.2.2 * shears ts := by simp [shears]
    rw [e, Matrix.det_mul, Matrix.det_transvection_of_ne _ _ (h t (by simp)), one_mul]
    exact ih fun t ht => h t (by simp [ht])

theorem shears_row {n : ℕ} (ts : List (Fin (n + 1) × Fin (n + 1) × ℝ)) (h : ∀ t ∈ ts, t.1 ≠ 0) (i : Fin (n + 1)) :
    shears ts 0 i = if i = 0 then 1 else 0 := by
  have e : shears ts 0 i = Matrix.vecMul (Pi.single 0 1) (shears ts) i := by rw [Matrix.single_one_vecMul]; rfl
  rw [e, vecMul_shears]
  have : ts.foldl (fun x t => shear t x) (Pi.single 0 1 : Fin (n + 1) → ℝ) = Pi.single 0 1 := by
    clear e
    induction ts with
    | nil => rfl
    | cons t ts ih =>
      rw [List.foldl_cons]
      have : shear t (Pi.single 0 1 : Fin (n + 1) → ℝ) = Pi.single 0 1 := by
        unfold shear
        rw [Pi.single_eq_of_ne (h t (by simp)), zero_mul, add_zero, Function.update_eq_self]
      rw [this]
      exact ih fun t ht => h t (by simp [ht])
  rw [this]
  by_cases hi : i = 0
  · subst hi; simp
  · rw [if_neg hi, Pi.single_eq_of_ne hi]

/-- Rows with the same regressors but for some numbers at the end, which are sheared. -/
theorem row_sheared (k : ℕ) (base : List (XF ℝ)) (e e' : List ℝ) (hk : k + 1 = base.length + e.length) (he : e'.length = e.length)
    (ts : List (Fin (k + 1) × Fin (k + 1) × ℝ)) (t : ℤ) (y : XF ℝ)
    (hts : ∀ x : Fin (k + 1) → ℝ, (∀ a (ha : base.length + a < k + 1), x ⟨base.length + a, ha⟩ = e.getD a 0) →
      (∀ q : Fin (k + 1), q.1 < base.length → ts.foldl (fun x t => shear t x) x q = x q) ∧
      ∀ a (ha : base.length + a < k + 1), ts.foldl (fun x t => shear t x) x ⟨base.length + a, ha⟩ = e'.getD a 0) :
    RowChanged k (shears ts) 1 (fun _ => 0) (t, base ++ e.map XF.fin, y) (t, base ++ e'.map XF.fin, y) := by
  have low : ∀ (u : List ℝ) (q : Fin (k + 1)), q.1 < base.length → (toRow k (t, base ++ u.map XF.fin, y)).1 q = base.getD q.1 .nan := by
    intro u q hq
    simp only [toRow, List.getD_eq_getElem?_getD]
    rw [List.getElem?_append_left hq]
  have high : ∀ (u : List ℝ), u.length = e.length → ∀ a (ha : base.length + a < k + 1),
      (toRow k (t, base ++ u.map XF.fin, y)).1 ⟨base.length + a, ha⟩ = .fin (u.getD a 0) := by
    intro u hu a ha
    simp only [toRow, List.getD_eq_getElem?_getD]
    rw [List.getElem?_append_right (by omega), Nat.add_sub_cancel_left, List.getElem?_map, List.getElem?_eq_getElem (by omega)]
    rfl
  have split : ∀ q : Fin (k + 1), q.1 < base.length ∨ ∃ a, ∃ ha : base.length + a < k + 1, q = ⟨base.length + a, ha⟩ := by
    intro q
    by_cases hq : q.1 < base.length
    · exact Or.inl hq
    · exact Or.inr ⟨q.1 - base.length, by omega, Fin.ext (by simp; omega)⟩
  refine ⟨rfl, ?_, ?_, ?_, ?_, fun _ h => h⟩
  · have : ∀ u : List ℝ, (u.map XF.fin).all (fun v : XF ℝ => !v.isNan) = true := by intro u; simp [XF.isNan]
    simp only [List.all_append, this]
  · rintro ⟨q, hq⟩
    rcases split q with h | ⟨a, ha, rfl⟩
    · exact ⟨q, by rw [low e' q h, ← low e q h]; exact hq⟩
    · rw [high e rfl] at hq; cases hq
  · intro x hx q
    rw [vecMul_shears]
    have hxa : ∀ a (ha : base.length + a < k + 1), x ⟨base.length + a, ha⟩ = e.getD a 0 := by
      intro a ha
      have := hx ⟨base.length + a, ha⟩
      rw [high e rfl] at this
      exact (XF.fin.inj this).symm
    obtain ⟨h1, h2⟩ := hts x hxa
    rcases split q with h | ⟨a, ha, rfl⟩
    · rw [h1 q h, low e' q h, ← low e q h, hx q]
    · rw [h2, high e' he]
  · intro x v _ hv
    have hv : y = .fin v := hv
    show y = _
    rw [hv]
    simp [predict]

/-! ### Longer histories -/

theorem sadfRun_suffix (em : ErrModel) (model : String) (lags : ℤ) (m : ℕ) (c : Bool) (phi : ℝ) (s s' out : List (ℤ × XF ℝ)) (k e : ℕ)
    (rows rows' : List LRow) (hD : designRows model lags c s = .ok (k, rows)) (hD' : designRows model lags c s' = .ok (k, rows'))
    (A : Matrix (Fin (k + 1)) (Fin (k + 1)) ℝ) (hA : A.det ≠ 0) (hrow : ∀ i, A 0 i = if i = 0 then 1 else 0)
    (hval : isSm model = false ∨ phi = 0) (h : List.Forall₂ (RowChanged k A 1 fun _ => 0) (rows.drop e) rows')
    (hout : sadfRun em model lags m c phi s = .ok out) :
    getXy model lags c s' = .ok (k, rows') ∧
    (rows'.length < m → sadfRun em model lags m c phi s' = .error .valueError) ∧
    (m ≤ rows'.length → ∃ out', sadfRun em model lags m c phi s' = .ok out' ∧ out'.length = rows'.length - m ∧
      ∀ i t v', out'[i]? = some (t, v') → ∃ v, out[i + (out.length - out'.length)]? = some (t, v) ∧ NotAbove v' v) := by
  have hl : rows'.length = rows.length - e := by rw [← h.length_eq, List.length_drop]
  have hg := (List.forall₂_iff_get.1 h).2
  unfold sadfRun getXy at hout
  rw [hD, Py.bind_ok] at hout
  dsimp only at hout
  by_cases hall : rows.all (fun x => x.2.1.all (fun v => !v.isNan) && !x.2.2.isNan) = true
  swap
  · rw [if_neg hall] at hout; cases hout
  rw [if_pos hall, Py.bind_ok] at hout
  dsimp only at hout
  rw [Py.bind_eq_ok] at hout
  obtain ⟨v, h2, ho⟩ := hout
  simp only [Except.ok.injEq] at ho
  have hall' : rows'.all (fun x => x.2.1.all (fun v => !v.isNan) && !x.2.2.isNan) = true := by
    rw [List.all_eq_true] at hall ⊢
    intro x hx
    obtain ⟨i, hi, rfl⟩ := List.mem_iff_getElem.1 hx
    have := hg i (by rw [List.length_drop]; omega) hi
    rw [List.get_eq_getElem, List.get_eq_getElem, List.getElem_drop] at this
    rw [this.nan]
    exact hall _ (List.getElem_mem _)
  have hxy : getXy model lags c s' = .ok (k, rows') := by
    unfold getXy
    rw [hD', Py.bind_ok, if_pos hall']
  refine ⟨hxy, ?_, ?_⟩
  · intro hlt
    unfold sadfRun
    rw [hxy, Py.bind_ok]
    unfold sadfLoop
    rw [if_pos (by rw [List.length_map]; exact hlt)]
    rfl
  intro hle
  have hlm : ¬ (rows.map (toRow k)).length < m := by rw [List.length_map]; omega
  unfold sadfLoop at h2
  rw [if_neg hlm] at h2
  have hv : v.length = rows.length - m := by rw [mapE_length h2]; simp
  have hrows : List.Forall₂ (Changed A 1 fun _ => 0) ((rows.map (toRow k)).drop e) (rows'.map (toRow k)) := by
    rw [← List.map_drop, List.forall₂_map_left_iff, List.forall₂_map_right_iff]
    exact h.imp fun _ _ h => h.row
  have hadf : ∀ n p, n + e ≤ rows.length → adfAt em k model phi ((rows'.map (toRow k)).take n) p =
      adfAt em k model phi ((rows.map (toRow k)).take (n + e)) (p + e) := by
    intro n p hn
    have hw := List.forall₂_drop p (List.forall₂_take n hrows)
    have e1 : (((rows.map (toRow k)).drop e).take n).drop p = ((rows.map (toRow k)).take (n + e)).drop (p + e) := by
      rw [List.drop_take, List.drop_take, List.drop_drop, Nat.add_comm p e, show n + e - (e + p) = n - p by omega]
    rw [e1] at hw
    have ht := tValue_changed em A hA 1 one_ne_zero (fun _ => 0) 0 (fun i hi => by rw [hrow, if_neg hi]) rfl _ _ hw
    rw [hrow, if_pos rfl, map_sg_sg] at ht
    unfold adfAt
    dsimp only
    rw [ht]
    rcases hval with hs | rfl
    · rw [hs]; rfl
    · simp only [Real.rpow_zero]
  have h2g := (List.forall₂_iff_get.1 ((mapE_eq_ok_iff _ _ _).1 h2)).2
  have each : ∀ i, i < rows'.length - m → ∃ y x, sadfAt em k m model phi ((rows'.map (toRow k)).take (m + i + 1)) = .ok y ∧
      v[i + e]? = some x ∧ NotAbove y x := by
    intro i hi
    have := h2g (i + e) (by simp; omega) (by omega)
    simp only [List.get_eq_getElem, List.getElem_range] at this
    unfold sadfAt at this ⊢
    rw [Py.bind_eq_ok] at this
    obtain ⟨a, ha, ha'⟩ := this
    simp only [Except.ok.injEq] at ha'
    obtain ⟨a', e1, e2, e3⟩ := mapE_sub _ _ ((List.range (((rows'.map (toRow k)).take (m + i + 1)).length - m + 1)).map (· + e)) a ha (by
      intro x hx
      obtain ⟨q, hq, rfl⟩ := List.mem_map.1 hx
      rw [List.mem_range] at hq ⊢
      simp only [List.length_take, List.length_map] at hq ⊢
      omega)
    rw [mapE_map] at e1
    refine ⟨npMax a', npMax a, ?_, ?_, npMax_subset a a' (e2 (by simp)) e3⟩
    · rw [show m + (i + e) + 1 = m + i + 1 + e by omega] at e1
      rw [mapE_congr fun q _ => hadf (m + i + 1) q (by omega), e1]; rfl
    · rw [List.getElem?_eq_getElem (by omega), ← ha']
  obtain ⟨v', hv'⟩ := mapE_ok_of_exists (fun i => sadfAt em k m model phi ((rows'.map (toRow k)).take (m + i + 1)))
    (List.range (rows'.length - m)) (by
      intro i hi
      obtain ⟨y, -, e, -⟩ := each i (List.mem_range.1 hi)
      exact ⟨y, e⟩)
  have hvl : v'.length = rows'.length - m := by rw [mapE_length hv']; simp
  refine ⟨_, by
    unfold sadfRun
    rw [hxy, Py.bind_ok]
    unfold sadfLoop
    dsimp only
    rw [List.length_map, if_neg (by omega), hv', Py.bind_ok], by simp [hvl], ?_⟩
  intro i t y hy
  rw [List.getElem?_zip_eq_some] at hy
  obtain ⟨y1, y2⟩ := hy
  have hi : i < v'.length := (List.getElem?_eq_some_iff.1 y2).1
  obtain ⟨y', x, e1, e2, e3⟩ := each i (by omega)
  have e4 := (List.forall₂_iff_get.1 ((mapE_eq_ok_iff _ _ _).1 hv')).2 i (by simp; omega) hi
  simp only [List.get_eq_getElem, List.getElem_range] at e4
  rw [e1] at e4
  rw [List.getElem?_eq_getElem hi] at y2
  simp only [Except.ok.injEq, Option.some.injEq] at e4 y2
  refine ⟨x, ?_, by rw [← y2, ← e4]; exact e3⟩
  have hoff : ∀ z : List (ℤ × XF ℝ), z.length = rows'.length - m → out.length - z.length = e := by
    intro z hz
    rw [← ho, hz]; simp [hv]; omega
  rw [hoff _ (by simp [hvl]), ← ho, List.getElem?_zip_eq_some]
  refine ⟨?_, e2⟩
  rw [List.getElem?_drop, List.getElem?_map] at y1 ⊢
  have hr := hg (m + i) (by rw [List.length_drop]; omega) (by omega)
  rw [List.get_eq_getElem, List.get_eq_getElem, List.getElem_drop] at hr
  rw [List.getElem?_eq_getElem (by omega)] at y1 ⊢
  rw [← y1, Option.map_some, Option.map_some, hr.time]
  simp only [show m + (i + e) = e + (m + i) by omega]

theorem diffs_drop (d : ℕ) (s : List (ℤ × XF ℝ)) : ∃ e, Brk.diffs (s.drop d) = (Brk.diffs s).drop e := by
  unfold Brk.diffs
  rw [List.tail_drop, ← List.drop_tail, ← List.drop_zipWith]
  generalize List.zipWith (fun a b : ℤ × XF ℝ => (a.1, XF.sub a.2 b.2, b.2)) s.tail s = z
  refine ⟨((z.take d).filter fun r => !r.2.1.isNan).length, ?_⟩
  have e : z.filter (fun r => !r.2.1.isNan) = (z.take d).filter (fun r => !r.2.1.isNan) ++ (z.drop d).filter (fun r => !r.2.1.isNan) := by
    rw [← List.filter_append, List.take_append_drop]
  rw [e, List.drop_left]

theorem standardRows_drop (lags : ℤ) (d : ℕ) (s : List (ℤ × XF ℝ)) : ∃ e, standardRows lags (s.drop d) = (standardRows lags s).drop e := by
  obtain ⟨e, he⟩ := diffs_drop d s
  refine ⟨e, ?_⟩
  unfold standardRows
  by_cases hl : lags ≤ 0
  · rw [if_pos hl, if_pos hl, List.drop_nil]
  rw [if_neg hl, if_neg hl]
  dsimp only
  rw [he]
  have hg : ∀ q, ((Brk.diffs s).drop e).getD q (0, .nan, .nan) = (Brk.diffs s).getD (e + q) (0, .nan, .nan) := by
    intro q
    rw [List.getD_eq_getElem?_getD, List.getD_eq_getElem?_getD, List.getElem?_drop]
  apply List.ext_getElem
  · simp; omega
  · intro j h1 h2
    simp only [List.length_map, List.length_range] at h1
    simp only [List.getElem_map, List.getElem_range, List.getElem_drop, hg, Nat.add_assoc]
    congr 2
    congr 1
    apply List.map_congr_left
    intro q hq
    rw [List.mem_range] at hq
    rw [show e + (j + lags.toNat - 1 - q) = e + (j + lags.toNat) - 1 - q by omega]

theorem base_length {lags : ℤ} {s : List (ℤ × XF ℝ)} {r : LRow} (h : r ∈ standardRows lags s) : r.2.1.length = lags.toNat + 1 := by
  unfold standardRows at h
  by_cases hl : lags ≤ 0
  · rw [if_pos hl] at h; cases h
  rw [if_neg hl] at h
  obtain ⟨j, -, rfl⟩ := List.mem_map.1 h
  simp

theorem addCols_drop (k e : ℕ) (A : Matrix (Fin (k + 1)) (Fin (k + 1)) ℝ) (f : ℕ → List (XF ℝ)) (rows : List LRow)
    (h : ∀ r ∈ rows, ∀ j, RowChanged k A 1 (fun _ => 0) (r.1, r.2.1 ++ f (e + j), r.2.2) (r.1, r.2.1 ++ f j, r.2.2)) :
    List.Forall₂ (RowChanged k A 1 fun _ => 0) ((addCols f rows).drop e) (addCols f (rows.drop e)) := by
  rw [List.forall₂_iff_get]
  refine ⟨by simp [addCols], ?_⟩
  intro j h1 h2
  simp only [addCols, List.get_eq_getElem, List.getElem_drop, List.getElem_map, List.getElem_zipIdx, Nat.zero_add]
  exact h _ (List.getElem_mem _) j

theorem smRows_drop (k e : ℕ) (A : Matrix (Fin (k + 1)) (Fin (k + 1)) ℝ) (g : XF ℝ → XF ℝ) (f : ℕ → List (XF ℝ)) (s : List (ℤ × XF ℝ))
    (h : ∀ (r : ℤ × XF ℝ) j, RowChanged k A 1 (fun _ => 0) (r.1, f (e + j), g r.2) (r.1, f j, g r.2)) :
    List.Forall₂ (RowChanged k A 1 fun _ => 0) ((smRows g f s).drop e) (smRows g f (s.drop e)) := by
  rw [List.forall₂_iff_get]
  refine ⟨by simp [smRows], ?_⟩
  intro j h1 h2
  simp only [smRows, List.get_eq_getElem, List.getElem_drop, List.getElem_map, List.getElem_zipIdx, Nat.zero_add]
  exact h _ j

/-- The steps that turn a trend counted from the start of the long series into one counted from the start of the short one. -/
theorem sm_quad_row (e j : ℕ) (t : ℤ) (y : XF ℝ) :
    RowChanged 2 (shears [(2, 0, -2 * (e : ℝ)), (1, 0, (e : ℝ) ^ 2), (1, 2, -(e : ℝ))]) 1 (fun _ => 0)
      (t, [quadTrend (e + j), .fin 1, trend (e + j)], y) (t, [quadTrend j, .fin 1, trend j], y) := by
  have := row_sheared 2 [] [(((e + j : ℕ) : ℝ) + 1) ^ 2, 1, ((e + j : ℕ) : ℝ) + 1] [((j : ℝ) + 1) ^ 2, 1, (j : ℝ) + 1] rfl rfl
    [(2, 0, -2 * (e : ℝ)), (1, 0, (e : ℝ) ^ 2), (1, 2, -(e : ℝ))] t y ?_
  · exact this
  · intro x hx
    have h0 : x 0 = _ := hx 0 (by simp)
    have h1 : x 1 = _ := hx 1 (by simp)
    have h2 : x 2 = _ := hx 2 (by simp)
    refine ⟨fun q hq => by simp at hq, ?_⟩
    intro a ha
    have ha : a = 0 ∨ a = 1 ∨ a = 2 := by simp at ha; omega
    rcases ha with rfl | rfl | rfl
    · simp [shear, h0, h1, h2]; ring
    · simp [shear, h0, h1, h2]
    · simp [shear, h0, h1, h2]; ring

theorem sm_exp_row (e j : ℕ) (t : ℤ) (y : XF ℝ) :
    RowChanged 1 (shears [(1, 0, -(e : ℝ))]) 1 (fun _ => 0) (t, [trend (e + j), .fin 1], y) (t, [trend j, .fin 1], y) := by
  have := row_sheared 1 [] [((e + j : ℕ) : ℝ) + 1, 1] [(j : ℝ) + 1, 1] rfl rfl [(1, 0, -(e : ℝ))] t y ?_
  · exact this
  · intro x hx
    have h0 : x 0 = _ := hx 0 (by simp)
    have h1 : x 1 = _ := hx 1 (by simp)
    refine ⟨fun q hq => by simp at hq, ?_⟩
    intro a ha
    have ha : a = 0 ∨ a = 1 := by simp at ha; omega
    rcases ha with rfl | rfl
    · simp [shear, h0, h1]; ring
    · simp [shear, h0, h1]

theorem linear_row (L e j : ℕ) (base : List (XF ℝ)) (hb : base.length = L + 1) (t : ℤ) (y : XF ℝ) :
    RowChanged (L + 2) (shears [(⟨L + 2, by omega⟩, ⟨L + 1, by omega⟩, -(e : ℝ))]) 1 (fun _ => 0)
      (t, base ++ [trend (e + j), .fin 1], y) (t, base ++ [trend j, .fin 1], y) := by
  have := row_sheared (L + 2) base [((e + j : ℕ) : ℝ) + 1, 1] [(j : ℝ) + 1, 1] (by simp [hb]) rfl
    [(⟨L + 2, by omega⟩, ⟨L + 1, by omega⟩, -(e : ℝ))] t y ?_
  · exact this
  · intro x hx
    have h0 := hx 0 (by omega)
    have h1 := hx 1 (by omega)
    simp only [hb] at h0 h1 ⊢
    refine ⟨fun q hq => ?_, ?_⟩
    · simp only [List.foldl_cons, List.foldl_nil, shear]
      rw [Function.update_of_ne]
      intro h; rw [h] at hq; simp at hq
    intro a ha
    have ha' : a = 0 ∨ a = 1 := by omega
    rcases ha' with rfl | rfl
    · simp [shear, Function.update_apply] at h0 h1 ⊢
      rw [h0, h1]; ring
    · simp [shear, Function.update_apply] at h0 h1 ⊢
      rw [h1]

theorem quadratic_row (L e j : ℕ) (base : List (XF ℝ)) (hb : base.length = L + 1) (t : ℤ) (y : XF ℝ) :
    RowChanged (L + 3) (shears [(⟨L + 1, by omega⟩, ⟨L + 2, by omega⟩, -2 * (e : ℝ)), (⟨L + 3, by omega⟩, ⟨L + 2, by omega⟩, (e : ℝ) ^ 2),
        (⟨L + 3, by omega⟩, ⟨L + 1, by omega⟩, -(e : ℝ))]) 1 (fun _ => 0)
      (t, base ++ [trend (e + j), quadTrend (e + j), .fin 1], y) (t, base ++ [trend j, quadTrend j, .fin 1], y) := by
  have := row_sheared (L + 3) base [((e + j : ℕ) : ℝ) + 1, (((e + j : ℕ) : ℝ) + 1) ^ 2, 1] [(j : ℝ) + 1, ((j : ℝ) + 1) ^ 2, 1] (by simp [hb]) rfl
    [(⟨L + 1, by omega⟩, ⟨L + 2, by omega⟩, -2 * (e : ℝ)), (⟨L + 3, by omega⟩, ⟨L + 2, by omega⟩, (e : ℝ) ^ 2),
        (⟨L + 3, by omega⟩, ⟨L + 1, by omega⟩, -(e : ℝ))] t y ?_
  · exact this
  · intro x hx
    have h0 := hx 0 (by omega)
    have h1 := hx 1 (by omega)
    have h2 := hx 2 (by omega)
    simp only [hb] at h0 h1 h2 ⊢
    refine ⟨fun q hq => ?_, ?_⟩
    · simp only [List.foldl_cons, List.foldl_nil, shear]
      rw [Function.update_of_ne, Function.update_of_ne, Function.update_of_ne]
      all_goals intro h; rw [h] at hq; simp at hq
    intro a ha
    have ha' : a = 0 ∨ a = 1 ∨ a = 2 := by omega
    rcases ha' with rfl | rfl | rfl
    · simp [shear, Function.update_apply] at h0 h1 h2 ⊢
      rw [h0, h2]; ring
    · simp [shear, Function.update_apply] at h0 h1 h2 ⊢
      rw [h0, h1, h2]; ring
    · simp [shear, Function.update_apply] at h0 h1 h2 ⊢
      rw [h2]

/-- The forms of the test whose regressions do not depend on where the counting of the trend begins: without a trend, or with
a trend and a constant; and, for the other family, without a penalty for long windows. -/
def ShiftFree (model : String) (c : Bool) (phi : ℝ) : Prop :=
  model = "no_trend" ∨ (model = "linear" ∨ model = "quadratic") ∧ c = true ∨
    (model = "sm_poly_1" ∨ model = "sm_poly_2" ∨ model = "sm_exp") ∧ phi = 0

/-- C126: with more history at its start, a series has at least the same times in its result, and no statistic is lower.
Only too short a series, for which no window fits, makes the shorter run fail. -/
theorem C126_history (em : ErrModel) (model : String) (lags : ℤ) (m : ℕ) (c : Bool) (phi : ℝ) (hm : ShiftFree model c phi)
    (d : ℕ) (s out : List (ℤ × XF ℝ)) (hout : sadfRun em model lags m c phi s = .ok out) :
    ∃ k rows', getXy model lags c (s.drop d) = .ok (k, rows') ∧
      (rows'.length < m → sadfRun em model lags m c phi (s.drop d) = .error .valueError) ∧
      (m ≤ rows'.length → ∃ out', sadfRun em model lags m c phi (s.drop d) = .ok out' ∧ out'.length = rows'.length - m ∧
        ∀ i t v', out'[i]? = some (t, v') → ∃ v, out[i + (out.length - out'.length)]? = some (t, v) ∧ NotAbove v' v) := by
  obtain ⟨e, he⟩ := standardRows_drop lags d s
  have hone : ∀ (n : ℕ) (i : Fin (n + 1)), (1 : Matrix (Fin (n + 1)) (Fin (n + 1)) ℝ) 0 i = if i = 0 then 1 else 0 := by
    intro n i
    rw [Matrix.one_apply]
    simp only [eq_comm]
  rcases hm with rfl | ⟨rfl | rfl, rfl⟩ | ⟨rfl | rfl | rfl, rfl⟩
  · refine ⟨_, _, sadfRun_suffix em "no_trend" lags m c phi s (s.drop d) out _ e _ _ (by unfold designRows; rw [if_pos rfl])
      (by unfold designRows; rw [if_pos rfl]) 1 (by simp) (hone _) (Or.inl (by decide)) ?_ hout⟩
    rw [he]
    apply addCols_drop
    intro r _ j
    refine ⟨rfl, rfl, fun h => h, ?_, ?_, fun _ h => h⟩
    · intro x hx q
      rw [Matrix.vecMul_one]; exact hx q
    · intro x v _ hv
      rw [show (toRow _ (r.1, r.2.1 ++ constCol c, r.2.2)).2 = r.2.2 from rfl] at hv ⊢
      rw [hv]; simp [predict]
  · refine ⟨_, _, sadfRun_suffix em "linear" lags m true phi s (s.drop d) out (lags.toNat + 2) e _ _ rfl rfl
      (shears [(⟨lags.toNat + 2, by omega⟩, ⟨lags.toNat + 1, by omega⟩, -(e : ℝ))]) (det_shears _ ?_) (shears_row _ ?_) (Or.inl (by decide)) ?_ hout⟩
    · simp only [List.forall_mem_cons, List.not_mem_nil, false_implies, implies_true, and_true, ne_eq, Fin.mk.injEq]; omega
    · simp only [List.forall_mem_cons, List.not_mem_nil, false_implies, implies_true, and_true, ne_eq, Fin.ext_iff, Fin.val_zero]; omega
    · rw [he]
      apply addCols_drop
      intro r hr j
      exact linear_row _ e j _ (base_length hr) _ _
  · refine ⟨_, _, sadfRun_suffix em "quadratic" lags m true phi s (s.drop d) out (lags.toNat + 3) e _ _ rfl rfl
      (shears [(⟨lags.toNat + 1, by omega⟩, ⟨lags.toNat + 2, by omega⟩, -2 * (e : ℝ)), (⟨lags.toNat + 3, by omega⟩, ⟨lags.toNat + 2, by omega⟩, (e : ℝ) ^ 2),
        (⟨lags.toNat + 3, by omega⟩, ⟨lags.toNat + 1, by omega⟩, -(e : ℝ))]) (det_shears _ ?_) (shears_row _ ?_) (Or.inl (by decide)) ?_ hout⟩
    · simp only [List.forall_mem_cons, List.not_mem_nil, false_implies, implies_true, and_true, ne_eq, Fin.mk.injEq]; omega
    · simp only [List.forall_mem_cons, List.not_mem_nil, false_implies, implies_true, and_true, ne_eq, Fin.ext_iff, Fin.val_zero]; omega
    · rw [he]
      apply addCols_drop
      intro r hr j
      exact quadratic_row _ e j _ (base_length hr) _ _
  · refine ⟨_, _, sadfRun_suffix em "sm_poly_1" lags m c 0 s (s.drop d) out 2 d _ _ rfl rfl
      (shears [(2, 0, -2 * (d : ℝ)), (1, 0, (d : ℝ) ^ 2), (1, 2, -(d : ℝ))]) (det_shears _ (by simp)) (shears_row _ (by simp)) (Or.inr rfl) ?_ hout⟩
    exact smRows_drop _ _ _ _ _ _ fun r j => sm_quad_row d j _ _
  · refine ⟨_, _, sadfRun_suffix em "sm_poly_2" lags m c 0 s (s.drop d) out 2 d _ _ rfl rfl
      (shears [(2, 0, -2 * (d : ℝ)), (1, 0, (d : ℝ) ^ 2), (1, 2, -(d : ℝ))]) (det_shears _ (by simp)) (shears_row _ (by simp)) (Or.inr rfl) ?_ hout⟩
    exact smRows_drop _ _ _ _ _ _ fun r j => sm_quad_row d j _ _
  · refine ⟨_, _, sadfRun_suffix em "sm_exp" lags m c 0 s (s.drop d) out 1 d _ _ rfl rfl
      (shears [(1, 0, -(d : ℝ))]) (det_shears _ (by simp)) (shears_row _ (by simp)) (Or.inr rfl) ?_ hout⟩
    exact smRows_drop _ _ _ _ _ _ fun r j => sm_exp_row d j _ _

/-! ### With a penalty -/

/-- Logarithms 5/2, 2, 0, 1, 3 at times 0 to 4. -/
noncomputable def slowStart : List (ℤ × XF ℝ) :=
  [(0, .fin (Real.exp (5 / 2))), (1, .fin (Real.exp 2)), (2, .fin (Real.exp 0)), (3, .fin (Real.exp 1)), (4, .fin (Real.exp 3))]

private noncomputable def longRows : List (ℤ × RRow 2) := [(0, ![1, 1], 5 / 2), (1, ![2, 1], 2), (2, ![3, 1], 0), (3, ![4, 1], 1), (4, ![5, 1], 3)]

private noncomputable def shortRows : List (ℤ × RRow 2) := [(1, ![1, 1], 2), (2, ![2, 1], 0), (3, ![3, 1], 1), (4, ![4, 1], 3)]

private theorem sm_design (s : List (ℤ × XF ℝ)) (l : List ℝ) (h : s.map (·.2) = l.map fun x => .fin (Real.exp x)) :
    getXy "sm_exp" 1 true s = .ok (1, (List.range s.length).map fun j : ℕ => ((s.map (·.1)).getD j 0, [.fin ((j : ℝ) + 1), .fin 1], .fin (l.getD j 0))) := by
  have hlen : s.length = l.length := by rw [← List.length_map (f := (·.2)), h, List.length_map]
  have hc : Complete s fun i => Real.exp (l.getD i 0) := by
    intro i hi
    rw [h, List.getElem?_map, List.getElem?_eq_getElem (by omega)]
    simp [List.getD_eq_getElem?_getD, hlen ▸ hi]
  rw [C68_design_martingale "sm_exp" true 1 s _ _ _ (Or.inr ⟨fun i => Real.exp_pos _, rfl, Or.inr (Or.inl ⟨rfl, rfl⟩)⟩) hc]
  simp only [Real.log_exp]
  rfl

private theorem long_design : getXy "sm_exp" 1 true slowStart = .ok (1, longRows.map liftL) := by
  rw [sm_design slowStart [5 / 2, 2, 0, 1, 3] (by simp [slowStart])]
  simp [slowStart, longRows, liftL, List.range_succ]
  norm_num

private theorem short_design : getXy "sm_exp" 1 true (slowStart.drop 1) = .ok (1, shortRows.map liftL) := by
  rw [sm_design (slowStart.drop 1) [2, 0, 1, 3] (by simp [slowStart])]
  simp [slowStart, shortRows, liftL, List.range_succ]
  norm_num

private theorem proper_of (w : List (RRow 2)) (m n : ℕ) (hm : 3 ≤ m) (hn : n + m = w.length) (a u v x : ℝ) (h1 : (![a, 1], u) ∈ w.drop n)
    (h2 : (![a + 1, 1], v) ∈ w.drop n) (h3 : (![a + 2, 1], x) ∈ w.drop n) (hne : u + x ≠ 2 * v) : Proper w m := by
  intro p hp
  have sub : ∀ r ∈ w.drop n, r ∈ w.drop p := by
    intro r hr
    rw [show n = p + (n - p) by omega, ← List.drop_drop] at hr
    exact List.mem_of_mem_drop hr
  refine ⟨?_, by rw [List.length_drop]; omega, ?_⟩
  · intro c hc
    have e1 := hc _ (sub _ h1)
    have e2 := hc _ (sub _ h2)
    simp [predict, Fin.sum_univ_two] at e1 e2
    have c0 : c 0 = 0 := by linarith
    rw [c0] at e1
    funext i
    fin_cases i
    · exact c0
    · simpa using e1
  · intro c
    by_contra hall
    push Not at hall
    have e1 := hall _ (sub _ h1)
    have e2 := hall _ (sub _ h2)
    have e3 := hall _ (sub _ h3)
    simp [predict, Fin.sum_univ_two] at e1 e2 e3
    exact hne (by linarith)

private theorem long_proper : ∀ n, 3 < n → n ≤ longRows.length → Proper ((longRows.map (·.2)).take n) 3 := by
  intro n h1 h2
  have : n = 4 ∨ n = 5 := by
    simp [longRows] at h2
    omega
  rcases this with rfl | rfl
  · exact proper_of _ 3 1 (le_refl _) rfl 2 2 0 1 (by simp [longRows]) (by simp [longRows]; norm_num) (by simp [longRows]; norm_num) (by norm_num)
  · exact proper_of _ 3 2 (le_refl _) rfl 3 0 1 3 (by simp [longRows]) (by simp [longRows]; norm_num) (by simp [longRows]; norm_num) (by norm_num)

private theorem short_proper : ∀ n, 3 < n → n ≤ shortRows.length → Proper ((shortRows.map (·.2)).take n) 3 := by
  intro n h1 h2
  have : n = 4 := by
    simp [shortRows] at h2
    omega
  subst this
  exact proper_of _ 3 1 (le_refl _) rfl 2 0 1 3 (by simp [shortRows]) (by simp [shortRows]; norm_num) (by simp [shortRows]; norm_num) (by norm_num)

private theorem long_t0 (r : ℝ) (h : IsTValue (longRows.map (·.2)) 0 r) : r = 0 := by
  have hg : gram (longRows.map (·.2)) = !![55, 15; 15, 5] := by
    ext i j
    fin_cases i <;> fin_cases j <;> simp [gram, longRows] <;> norm_num
  have := (tValue_of_inverse (longRows.map (·.2)) !![1 / 10, -3 / 10; -3 / 10, 11 / 10] (by
    rw [hg]
    ext i j
    fin_cases i <;> fin_cases j <;> simp [Matrix.mul_apply, Fin.sum_univ_two] <;> norm_num) ![0, 17 / 10] (by
    funext i
    fin_cases i <;> simp [longRows, Matrix.mulVec, dotProduct, Fin.sum_univ_two] <;> norm_num) 0).2 r
  rw [this.1 h]
  simp

private theorem long_t1 (r : ℝ) (h : IsTValue ((longRows.map (·.2)).drop 1) 0 r) : r = (2 / 5) / Real.sqrt (21 / 50) := by
  have hg : gram ((longRows.map (·.2)).drop 1) = !![54, 14; 14, 4] := by
    ext i j
    fin_cases i <;> fin_cases j <;> simp [gram, longRows] <;> norm_num
  have := (tValue_of_inverse ((longRows.map (·.2)).drop 1) !![1 / 5, -7 / 10; -7 / 10, 27 / 10] (by
    rw [hg]
    ext i j
    fin_cases i <;> fin_cases j <;> simp [Matrix.mul_apply, Fin.sum_univ_two] <;> norm_num) ![2 / 5, 1 / 10] (by
    funext i
    fin_cases i <;> simp [longRows, Matrix.mulVec, dotProduct, Fin.sum_univ_two] <;> norm_num) 0).2 r
  have e : rss ((longRows.map (·.2)).drop 1) ![2 / 5, 1 / 10] = 21 / 5 := by
    simp [rss, predict, longRows, Fin.sum_univ_two]; norm_num
  rw [this.1 h, e]
  simp only [longRows, List.map_cons, List.map_nil, List.drop_succ_cons, List.drop_zero, List.length_cons, List.length_nil,
    Matrix.cons_val_zero, Matrix.of_apply]
  norm_num

private theorem long_t2 (r : ℝ) (h : IsTValue ((longRows.map (·.2)).drop 2) 0 r) : r = (3 / 2) / Real.sqrt (1 / 12) := by
  have hg : gram ((longRows.map (·.2)).drop 2) = !![50, 12; 12, 3] := by
    ext i j
    fin_cases i <;> fin_cases j <;> simp [gram, longRows] <;> norm_num
  have := (tValue_of_inverse ((longRows.map (·.2)).drop 2) !![1 / 2, -2; -2, 25 / 3] (by
    rw [hg]
    ext i j
    fin_cases i <;> fin_cases j <;> simp [Matrix.mul_apply, Fin.sum_univ_two] <;> norm_num) ![3 / 2, -14 / 3] (by
    funext i
    fin_cases i <;> simp [longRows, Matrix.mulVec, dotProduct, Fin.sum_univ_two] <;> norm_num) 0).2 r
  have e : rss ((longRows.map (·.2)).drop 2) ![3 / 2, -14 / 3] = 1 / 6 := by
    simp [rss, predict, longRows, Fin.sum_univ_two]; norm_num
  rw [this.1 h, e]
  simp only [longRows, List.map_cons, List.map_nil, List.drop_succ_cons, List.drop_zero, List.length_cons, List.length_nil,
    Matrix.cons_val_zero, Matrix.of_apply]
  norm_num

private theorem short_t1 : IsTValue ((shortRows.map (·.2)).drop 1) 0 ((3 / 2) / Real.sqrt (1 / 12)) := by
  have hg : gram ((shortRows.map (·.2)).drop 1) = !![29, 9; 9, 3] := by
    ext i j
    fin_cases i <;> fin_cases j <;> simp [gram, shortRows] <;> norm_num
  have := (tValue_of_inverse ((shortRows.map (·.2)).drop 1) !![1 / 2, -3 / 2; -3 / 2, 29 / 6] (by
    rw [hg]
    ext i j
    fin_cases i <;> fin_cases j <;> simp [Matrix.mul_apply, Fin.sum_univ_two] <;> norm_num) ![3 / 2, -19 / 6] (by
    funext i
    fin_cases i <;> simp [shortRows, Matrix.mulVec, dotProduct, Fin.sum_univ_two] <;> norm_num) 0).2 ((3 / 2) / Real.sqrt (1 / 12))
  have e : rss ((shortRows.map (·.2)).drop 1) ![3 / 2, -19 / 6] = 1 / 6 := by
    simp [rss, predict, shortRows, Fin.sum_univ_two]; norm_num
  apply this.2
  rw [e]
  simp only [shortRows, List.map_cons, List.map_nil, List.drop_succ_cons, List.drop_zero, List.length_cons, List.length_nil,
    Matrix.cons_val_zero, Matrix.of_apply]
  norm_num

/-- C126 (penalty, refuted): with a penalty (`phi = 1`) more history does lower a statistic.  The code divides by the position
of the window in the series, so the same windows count for less when values are added at the start; here the
statistic of the last bar is half the t-value of the last three bars without the first value, and a third of it with it. -/
theorem C126_penalty_refuted (em : ErrModel) :
    ∃ (s : List (ℤ × XF ℝ)) (w v v' : ℝ), sadfRun em "sm_exp" 1 3 true 1 s = .ok [(3, .fin w), (4, .fin v)] ∧
      sadfRun em "sm_exp" 1 3 true 1 (s.drop 1) = .ok [(4, .fin v')] ∧ v < v' := by
  obtain ⟨out, h1, h2, h3⟩ := C68_penalty_partial em "sm_exp" (by simp) 1 3 true 1 slowStart 1 longRows long_design
    (by simp [longRows]) long_proper
  obtain ⟨out', h1', h2', h3'⟩ := C68_penalty_partial em "sm_exp" (by simp) 1 3 true 1 (slowStart.drop 1) 1 shortRows short_design
    (by simp [shortRows]) short_proper
  obtain ⟨w, e0, -⟩ := h3 0 (by simp [longRows])
  obtain ⟨v, e1, e2⟩ := h3 1 (by simp [longRows])
  obtain ⟨v', e1', e2'⟩ := h3' 0 (by simp [shortRows])
  have hlen : out.length = 2 := by rw [h2]; simp [longRows]
  have hlen' : out'.length = 1 := by rw [h2']; simp [shortRows]
  have hout : out = [(3, .fin w), (4, .fin v)] := by
    match out, hlen with
    | [a, b], _ => simp [longRows] at e0 e1; rw [e0, e1]
  have hout' : out' = [(4, .fin v')] := by
    match out', hlen' with
    | [a], _ => simpa [shortRows] using e1'
  refine ⟨slowStart, w, v, v', by rw [h1, hout], by rw [h1', hout'], ?_⟩
  rw [List.take_of_length_le (by simp [longRows])] at e2
  rw [List.take_of_length_le (by simp [shortRows])] at e2'
  have s1 : 0 < Real.sqrt (1 / 12) := by positivity
  have s2 : Real.sqrt (1 / 12) < Real.sqrt (21 / 50) := Real.sqrt_lt_sqrt (by norm_num) (by norm_num)
  have hge : (3 / 2) / Real.sqrt (1 / 12) / 2 ≤ v' := by
    have := e2'.2 ⟨1, (3 / 2) / Real.sqrt (1 / 12), by simp [shortRows], short_t1, rfl⟩
    dsimp only at this
    rw [Real.rpow_one, abs_of_nonneg (by positivity)] at this
    norm_num at this ⊢
    exact this
  have hpos : 0 < (3 / 2) / Real.sqrt (1 / 12) := by positivity
  obtain ⟨p, r, hp, hr, hv⟩ := e2.1
  dsimp only at hv
  rw [Real.rpow_one] at hv
  have : p = 0 ∨ p = 1 ∨ p = 2 := by
    simp [longRows] at hp
    omega
  rcases this with rfl | rfl | rfl
  · rw [List.drop_zero] at hr
    rw [long_t0 r hr] at hv
    simp at hv
    linarith
  · rw [long_t1 r hr, abs_of_nonneg (by positivity)] at hv
    have : (2 / 5) / Real.sqrt (21 / 50) < (3 / 2) / Real.sqrt (1 / 12) := by
      rw [div_lt_div_iff₀ (by positivity) s1]
      nlinarith
    have : v = 2 / 5 / Real.sqrt (21 / 50) / 2 := by rw [hv]; norm_num
    linarith
  · rw [long_t2 r hr, abs_of_nonneg (by positivity)] at hv
    have : v = 3 / 2 / Real.sqrt (1 / 12) / 3 := by rw [hv]; norm_num
    linarith

section Examples

/-- A series with one result, and with none for a greater `min_length`. -/
example (em : ErrModel) : ∃ v, sadfRun em "no_trend" 1 3 false 0 sadfLevel = .ok [(5, .fin v)] ∧ ShiftFree "no_trend" false 0 ∧
    sadfRun em "no_trend" 1 4 false 0 sadfLevel = .ok [] := by
  obtain ⟨v, h, -⟩ := sadf_level_run em
  obtain ⟨out', h1, h2, -⟩ := (C126_min_length em "no_trend" 1 3 4 (by omega) false 0 sadfLevel _ h).2 (by simp)
  have : out' = [] := List.eq_nil_of_length_eq_zero (by simpa using h2)
  exact ⟨v, h, Or.inl rfl, by rw [h1, this]⟩

/-- Without a penalty the series of the refutation gives a result with and without its first value. -/
example (em : ErrModel) : ∃ w v v' : ℝ, sadfRun em "sm_exp" 1 3 true 0 slowStart = .ok [(3, .fin w), (4, .fin v)] ∧
    sadfRun em "sm_exp" 1 3 true 0 (slowStart.drop 1) = .ok [(4, .fin v')] ∧ v' ≤ v := by
  obtain ⟨out, h1, h2, h3⟩ := C68_penalty_partial em "sm_exp" (by simp) 1 3 true 0 slowStart 1 longRows long_design
    (by simp [longRows]) long_proper
  obtain ⟨out', h1', h2', h3'⟩ := C68_penalty_partial em "sm_exp" (by simp) 1 3 true 0 (slowStart.drop 1) 1 shortRows short_design
    (by simp [shortRows]) short_proper
  obtain ⟨w, e0, -⟩ := h3 0 (by simp [longRows])
  obtain ⟨v, e1, -⟩ := h3 1 (by simp [longRows])
  obtain ⟨v', e1', -⟩ := h3' 0 (by simp [shortRows])
  have hlen : out.length = 2 := by rw [h2]; simp [longRows]
  have hlen' : out'.length = 1 := by rw [h2']; simp [shortRows]
  have hout : out = [(3, .fin w), (4, .fin v)] := by
    match out, hlen with
    | [a, b], _ => simp [longRows] at e0 e1; rw [e0, e1]
  have hout' : out' = [(4, .fin v')] := by
    match out', hlen' with
    | [a], _ => simpa [shortRows] using e1'
  rw [hout] at h1
  rw [hout'] at h1'
  refine ⟨w, v, v', h1, h1', ?_⟩
  obtain ⟨k, rows', e, -, h⟩ := C126_history em "sm_exp" 1 3 true 0 (Or.inr (Or.inr ⟨Or.inr (Or.inr rfl), rfl⟩)) 1 slowStart _ h1
  rw [short_design] at e
  cases e
  obtain ⟨o, ho, -, h⟩ := h (by simp [shortRows])
  rw [h1'] at ho
  cases ho
  obtain ⟨y, hy, h⟩ := h 0 4 (.fin v') rfl
  simp at hy
  subst hy
  rcases h with h | h
  · cases h
  · simpa [XF.le, le_iff_lt_or_eq] using h

end Examples

end Mizar.Props
