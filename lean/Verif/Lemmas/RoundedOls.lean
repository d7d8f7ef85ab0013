import Verif.Spec.RoundedOls
import Verif.Props.TrendScan
import Mathlib.Tactic.Ring
import Mathlib.Tactic.FieldSimp

/-! Helper lemmas for C143: regressions in floating point. -/

namespace Mizar.Rd
open Mizar.Spec
open Mizar.Brk (ErrModel)
variable {K : Type} [Field K] [LinearOrder K] [IsStrictOrderedRing K]

/-- Multiplication of a float with a number. -/
def sc (u : K) (x : XF K) : XF K := XF.mul (.fin u) x

@[simp] theorem sc_fin (u x : K) : sc u (.fin x) = .fin (u * x) := rfl
@[simp] theorem sc_nan (u : K) : sc u .nan = .nan := rfl

theorem sc_one (x : XF K) : sc 1 x = x := by
  cases x <;> simp [sc, XF.mul, XF.infSign, XF.neg]

theorem sc_add {u : K} (hu : u ≠ 0) (x y : XF K) : XF.add (sc u x) (sc u y) = sc u (XF.add x y) := by
  rcases lt_or_gt_of_ne hu with h | h <;> cases x <;> cases y <;>
    simp [sc, XF.mul, XF.infSign, XF.neg, XF.add, h, not_lt.2 h.le, mul_add]

theorem sc_neg {u : K} (hu : u ≠ 0) (x : XF K) : XF.neg (sc u x) = sc u (XF.neg x) := by
  rcases lt_or_gt_of_ne hu with h | h <;> cases x <;> simp [sc, XF.mul, XF.infSign, XF.neg, h, not_lt.2 h.le]

theorem sc_sub {u : K} (hu : u ≠ 0) (x y : XF K) : XF.sub (sc u x) (sc u y) = sc u (XF.sub x y) := by
  unfold XF.sub
  rw [sc_neg hu, sc_add hu]

theorem infSign_mul {u : K} (hu : u ≠ 0) (x : K) : XF.infSign (u * x) = sc u (XF.infSign x) := by
  rcases lt_or_gt_of_ne hu with h | h <;> rcases lt_trichotomy x 0 with h' | h' | h'
  · simp [sc, XF.mul, XF.infSign, XF.neg, h, h', not_lt.2 h.le, not_lt.2 h'.le, mul_pos_of_neg_of_neg h h']
  · simp [sc, XF.mul, XF.infSign, XF.neg, h, h', not_lt.2 h.le]
  · have := mul_neg_of_neg_of_pos h h'
    simp [sc, XF.mul, XF.infSign, XF.neg, h, h', not_lt.2 h.le, not_lt.2 h'.le, this, not_lt.2 this.le]
  · have := mul_neg_of_pos_of_neg h h'
    simp [sc, XF.mul, XF.infSign, XF.neg, h, h', not_lt.2 h.le, not_lt.2 h'.le, this, not_lt.2 this.le]
  · simp [sc, XF.mul, XF.infSign, XF.neg, h, h', not_lt.2 h.le]
  · simp [sc, XF.mul, XF.infSign, XF.neg, h, h', mul_pos h h']

theorem sc_sc {u v : K} (hu : u ≠ 0) (hv : v ≠ 0) (x : XF K) : sc u (sc v x) = sc (u * v) x := by
  cases x with
  | fin x => simp [mul_assoc]
  | nan => rfl
  | pinf =>
    show sc u (XF.infSign v) = XF.infSign (u * v)
    rw [infSign_mul hu]
  | ninf =>
    show sc u (XF.neg (XF.infSign v)) = XF.neg (XF.infSign (u * v))
    rw [infSign_mul hu, sc_neg hu]

theorem mul_comm_xf (x y : XF K) : XF.mul x y = XF.mul y x := by
  cases x <;> cases y <;> simp [XF.mul, mul_comm]

theorem inf_fin {u : K} (hu : u ≠ 0) (y : K) : XF.mul (XF.infSign u) (.fin y) = XF.infSign (u * y) := by
  rcases lt_or_gt_of_ne hu with h | h
  · have h1 : XF.infSign u = .ninf := by simp [XF.infSign, h, not_lt.2 h.le]
    rw [h1, infSign_mul hu]
    show XF.neg (XF.infSign y) = sc u (XF.infSign y)
    cases hy : XF.infSign y with
    | fin z => unfold XF.infSign at hy; split_ifs at hy
    | _ => simp [sc, XF.mul, XF.neg, h1]
  · have h1 : XF.infSign u = .pinf := by simp [XF.infSign, h]
    rw [h1, infSign_mul hu]
    show XF.infSign y = sc u (XF.infSign y)
    cases hy : XF.infSign y with
    | fin z => unfold XF.infSign at hy; split_ifs at hy
    | _ => simp [sc, XF.mul, XF.neg, h1]

theorem neg_neg_xf (x : XF K) : XF.neg (XF.neg x) = x := by cases x <;> simp [XF.neg]

theorem neg_mul_fin (x : XF K) (y : K) : XF.mul (XF.neg x) (.fin y) = XF.neg (XF.mul x (.fin y)) := by
  cases x with
  | ninf => exact (neg_neg_xf _).symm
  | fin x => simp
  | _ => rfl

theorem sc_mul_left {u : K} (hu : u ≠ 0) (x y : XF K) : XF.mul (sc u x) y = sc u (XF.mul x y) := by
  cases x with
  | nan => rfl
  | fin x =>
    cases y with
    | nan => rfl
    | fin y => simp [mul_assoc]
    | pinf => exact infSign_mul hu x
    | ninf =>
      show XF.neg (XF.infSign (u * x)) = sc u (XF.neg (XF.infSign x))
      rw [infSign_mul hu, sc_neg hu]
  | pinf =>
    cases y with
    | nan => rcases lt_or_gt_of_ne hu with h | h <;> simp [sc, XF.mul, XF.infSign, h, not_lt.2 h.le]
    | fin y =>
      show XF.mul (XF.infSign u) (.fin y) = sc u (XF.infSign y)
      rw [← infSign_mul hu]
      exact inf_fin hu y
    | pinf => rcases lt_or_gt_of_ne hu with h | h <;> simp [sc, XF.mul, XF.infSign, XF.neg, h, not_lt.2 h.le]
    | ninf => rcases lt_or_gt_of_ne hu with h | h <;> simp [sc, XF.mul, XF.infSign, XF.neg, h, not_lt.2 h.le]
  | ninf =>
    cases y with
    | nan => rcases lt_or_gt_of_ne hu with h | h <;> simp [sc, XF.mul, XF.infSign, XF.neg, h, not_lt.2 h.le]
    | fin y =>
      show XF.mul (XF.neg (XF.infSign u)) (.fin y) = sc u (XF.neg (XF.infSign y))
      rw [← sc_neg hu, ← infSign_mul hu, ← inf_fin hu, neg_mul_fin]
    | pinf => rcases lt_or_gt_of_ne hu with h | h <;> simp [sc, XF.mul, XF.infSign, XF.neg, h, not_lt.2 h.le]
    | ninf => rcases lt_or_gt_of_ne hu with h | h <;> simp [sc, XF.mul, XF.infSign, XF.neg, h, not_lt.2 h.le]

theorem sc_mul {u v : K} (hu : u ≠ 0) (hv : v ≠ 0) (x y : XF K) : XF.mul (sc u x) (sc v y) = sc (u * v) (XF.mul x y) := by
  rw [sc_mul_left hu, mul_comm_xf, sc_mul_left hv, mul_comm_xf, sc_sc hu hv]

theorem sc_undef {u : K} (hu : u ≠ 0) (x : XF K) : (sc u x).undef = x.undef := by
  rcases lt_or_gt_of_ne hu with h | h <;> cases x <;>
    simp [sc, XF.mul, XF.infSign, XF.neg, XF.undef, XF.isNan, XF.isInf, h, not_lt.2 h.le]

theorem sc_isNan {u : K} (hu : u ≠ 0) (x : XF K) : (sc u x).isNan = x.isNan := by
  rcases lt_or_gt_of_ne hu with h | h <;> cases x <;>
    simp [sc, XF.mul, XF.infSign, XF.neg, XF.isNan, h, not_lt.2 h.le]

theorem sc_toK {u : K} (hu : u ≠ 0) (x : XF K) : (sc u x).toK = u * x.toK := by
  rcases lt_or_gt_of_ne hu with h | h <;> cases x <;>
    simp [sc, XF.mul, XF.infSign, XF.neg, XF.toK, h, not_lt.2 h.le]

theorem sc_sum {u : K} (hu : u ≠ 0) (l : List (XF K)) : XF.sum (l.map (sc u)) = sc u (XF.sum l) := by
  have : ∀ a, (l.map (sc u)).foldl XF.add (sc u a) = sc u (l.foldl XF.add a) := by
    induction l with
    | nil => intro a; rfl
    | cons x l ih => intro a; rw [List.map_cons, List.foldl_cons, List.foldl_cons, sc_add hu, ih]
  have h := this (.fin 0)
  rw [sc_fin, mul_zero] at h
  exact h

theorem sc_npSumR {u : K} (hu : u ≠ 0) (sm : List K → K) (hs : ∀ l, sm (l.map fun x => u * x) = u * sm l) (l : List (XF K)) :
    npSumR sm (l.map (sc u)) = sc u (npSumR sm l) := by
  unfold npSumR
  have h1 : (l.map (sc u)).any XF.undef = l.any XF.undef := by
    rw [List.any_map]
    congr 1
    funext x
    exact sc_undef hu x
  have h2 : (l.map (sc u)).map XF.toK = (l.map XF.toK).map fun x => u * x := by
    rw [List.map_map, List.map_map]
    exact List.map_congr_left fun x _ => sc_toK hu x
  rw [h1, h2, sc_sum hu, hs]
  split_ifs <;> rfl

theorem sc_rnd {u : K} (hu : u ≠ 0) (r : K → K) (hr : ∀ x, r (u * x) = u * r x) (x : XF K) : rnd r (sc u x) = sc u (rnd r x) := by
  rcases lt_or_gt_of_ne hu with h | h <;> cases x <;> simp [sc, XF.mul, XF.infSign, XF.neg, rnd, h, not_lt.2 h.le, hr]

/-! ### Units -/

theorem pm_ne {u : K} (h : PlusMinusPow u) : u ≠ 0 := by
  obtain ⟨e, rfl | rfl⟩ := h
  · positivity
  · exact neg_ne_zero.2 (by positivity)

theorem pm_one : PlusMinusPow (1 : K) := ⟨0, Or.inl (by simp)⟩

theorem pm_mul {u v : K} (hu : PlusMinusPow u) (hv : PlusMinusPow v) : PlusMinusPow (u * v) := by
  have h2 : (2 : K) ≠ 0 := by norm_num
  obtain ⟨e, rfl | rfl⟩ := hu <;> obtain ⟨f, rfl | rfl⟩ := hv <;> refine ⟨e + f, ?_⟩ <;> rw [zpow_add₀ h2] <;> simp

theorem pm_inv {u : K} (hu : PlusMinusPow u) : PlusMinusPow u⁻¹ := by
  obtain ⟨e, rfl | rfl⟩ := hu <;> refine ⟨-e, ?_⟩ <;> rw [zpow_neg]
  · exact Or.inl rfl
  · exact Or.inr (by rw [inv_neg])

theorem pm_round {r sq : K → K} (B : Binary r sq) {u : K} (hu : PlusMinusPow u) (x : K) : r (u * x) = u * r x := by
  obtain ⟨e, rfl | rfl⟩ := hu
  · exact B.scale e x
  · rw [neg_mul, B.neg, B.scale, neg_mul]

theorem pm_dot {L : LinAlg K} (D : FairDot L) {u : K} (hu : PlusMinusPow u) (o i j : ℕ) (l : List K) :
    L.dot o i j (l.map fun x => u * x) = u * L.dot o i j l := by
  obtain ⟨e, rfl | rfl⟩ := hu
  · exact D.scale o i j e l
  · have : (l.map fun x => -(2 : K) ^ e * x) = (l.map fun x => 2 ^ e * x).map fun x => -x := by
      rw [List.map_map]
      exact List.map_congr_left fun x _ => by simp
    rw [this, D.neg, D.scale, neg_mul]

/-- Rows with the columns and the target in other units. -/
def scRows {k : ℕ} (u : Fin k → K) (v : K) (w : List ((Fin k → XF K) × XF K)) : List ((Fin k → XF K) × XF K) :=
  w.map fun x => (fun j => sc (u j) (x.1 j), sc v x.2)

theorem invR_units {L : LinAlg K} {k : ℕ} {u : Fin k → K} (hu : ∀ j, PlusMinusPow (u j))
    (hinv : ∀ M, L.inv k (fun i j => u i * u j * M i j) = (L.inv k M).map fun N i j => (u i)⁻¹ * (u j)⁻¹ * N i j) (M : Fin k → Fin k → XF K) :
    invR L (fun i j => sc (u i * u j) (M i j)) = (invR L M).map fun N i j => (u i)⁻¹ * (u j)⁻¹ * N i j := by
  have hne : ∀ i j, u i * u j ≠ 0 := fun i j => mul_ne_zero (pm_ne (hu i)) (pm_ne (hu j))
  unfold invR
  simp only [sc_undef (hne _ _), sc_toK (hne _ _), hinv]
  split_ifs
  · rfl
  · cases L.inv k fun i j => (M i j).toK <;> rfl

/-- The products of the regressors with the target. -/
def xyOf (L : LinAlg K) {k : ℕ} (w : List ((Fin k → XF K) × XF K)) (i : Fin k) : XF K :=
  npSumR (L.dot 0 i 0) (w.map fun x => XF.mul (x.1 i) x.2)

/-- The products of the regressors. -/
def xxOf (L : LinAlg K) {k : ℕ} (w : List ((Fin k → XF K) × XF K)) (i j : Fin k) : XF K :=
  npSumR (L.dot 1 i j) (w.map fun x => XF.mul (x.1 i) (x.1 j))

/-- The coefficients. -/
def betaOf (L : LinAlg K) {k : ℕ} (N : Fin k → Fin k → K) (xy : Fin k → XF K) (i : Fin k) : XF K :=
  npSumR (L.dot 2 i 0) (List.ofFn fun j => XF.mul (.fin (N i j)) (xy j))

/-- The residuals. -/
def errOf (r : K → K) (L : LinAlg K) {k : ℕ} (w : List ((Fin k → XF K) × XF K)) (beta : Fin k → XF K) : List (XF K) :=
  w.zipIdx.map fun x => rnd r (XF.sub x.1.2 (npSumR (L.dot 3 x.2 0) (List.ofFn fun j => XF.mul (x.1.1 j) (beta j))))

/-- The variance of the residuals. -/
def s2Of (r : K → K) (L : LinAlg K) (n k : ℕ) (err : List (XF K)) : XF K :=
  rnd r (XF.div (npSumR (L.dot 4 0 0) (err.map fun e => XF.mul e e)) (.fin (r ((n : K) - (k : K)))))

omit [IsStrictOrderedRing K] in
theorem olsR_eq (r : K → K) (L : LinAlg K) {k : ℕ} (w : List ((Fin k → XF K) × XF K)) :
    olsR r L w = (invR L (xxOf L w)).map fun N => (betaOf L N (xyOf L w), fun i j =>
      rnd r (XF.mul (s2Of r L w.length k (errOf r L w (betaOf L N (xyOf L w)))) (.fin (N i j)))) := rfl

theorem xyOf_units {L : LinAlg K} (D : FairDot L) {k : ℕ} {u : Fin k → K} (hu : ∀ j, PlusMinusPow (u j)) {v : K} (hv : PlusMinusPow v)
    (w : List ((Fin k → XF K) × XF K)) (i : Fin k) : xyOf L (scRows u v w) i = sc (u i * v) (xyOf L w i) := by
  have h := pm_mul (hu i) hv
  unfold xyOf
  rw [← sc_npSumR (pm_ne h) _ (pm_dot D h _ _ _)]
  unfold scRows
  rw [List.map_map, List.map_map]
  congr 1
  exact List.map_congr_left fun x _ => sc_mul (pm_ne (hu i)) (pm_ne hv) _ _

theorem xxOf_units {L : LinAlg K} (D : FairDot L) {k : ℕ} {u : Fin k → K} (hu : ∀ j, PlusMinusPow (u j)) (v : K)
    (w : List ((Fin k → XF K) × XF K)) (i j : Fin k) : xxOf L (scRows u v w) i j = sc (u i * u j) (xxOf L w i j) := by
  have h := pm_mul (hu i) (hu j)
  unfold xxOf
  rw [← sc_npSumR (pm_ne h) _ (pm_dot D h _ _ _)]
  unfold scRows
  rw [List.map_map, List.map_map]
  congr 1
  exact List.map_congr_left fun x _ => sc_mul (pm_ne (hu i)) (pm_ne (hu j)) _ _

theorem betaOf_units {L : LinAlg K} (D : FairDot L) {k : ℕ} {u : Fin k → K} (hu : ∀ j, PlusMinusPow (u j)) {v : K} (hv : PlusMinusPow v)
    (N : Fin k → Fin k → K) (xy : Fin k → XF K) (i : Fin k) :
    betaOf L (fun i j => (u i)⁻¹ * (u j)⁻¹ * N i j) (fun j => sc (u j * v) (xy j)) i = sc (v * (u i)⁻¹) (betaOf L N xy i) := by
  have h := pm_mul hv (pm_inv (hu i))
  unfold betaOf
  rw [← sc_npSumR (pm_ne h) _ (pm_dot D h _ _ _), List.map_ofFn]
  congr 2
  funext j
  have hj := pm_ne (hu j)
  have hi := pm_ne (hu i)
  have h1 : XF.fin ((u i)⁻¹ * (u j)⁻¹ * N i j) = sc ((u i)⁻¹ * (u j)⁻¹) (.fin (N i j)) := rfl
  rw [h1, sc_mul (mul_ne_zero (inv_ne_zero hi) (inv_ne_zero hj)) (mul_ne_zero hj (pm_ne hv)), Function.comp]
  congr 1
  field_simp

theorem errOf_units {r sq : K → K} (B : Binary r sq) {L : LinAlg K} (D : FairDot L) {k : ℕ} {u : Fin k → K} (hu : ∀ j, PlusMinusPow (u j))
    {v : K} (hv : PlusMinusPow v) (w : List ((Fin k → XF K) × XF K)) (beta : Fin k → XF K) :
    errOf r L (scRows u v w) (fun j => sc (v * (u j)⁻¹) (beta j)) = (errOf r L w beta).map (sc v) := by
  have hv0 := pm_ne hv
  unfold errOf scRows
  rw [List.zipIdx_map, List.map_map, List.map_map]
  apply List.map_congr_left
  intro x _
  simp only [Function.comp, Prod.map]
  rw [← sc_rnd hv0 r (pm_round B hv), ← sc_sub hv0, ← sc_npSumR hv0 _ (pm_dot D hv _ _ _), List.map_ofFn]
  congr 4
  funext j
  have hj := pm_ne (hu j)
  rw [sc_mul hj (mul_ne_zero hv0 (inv_ne_zero hj)), Function.comp]
  congr 1
  field_simp

theorem sc_div_right {c : K} (hc : c ≠ 0) (x : XF K) (d : K) : XF.div (sc c x) (.fin d) = sc c (XF.div x (.fin d)) := by
  cases x with
  | nan => rfl
  | fin x =>
    simp only [sc_fin, XF.div]
    by_cases h : d = 0
    · rw [if_pos h, if_pos h, infSign_mul hc]
    · rw [if_neg h, if_neg h, sc_fin, mul_div_assoc]
  | pinf =>
    rcases lt_or_gt_of_ne hc with h | h <;> by_cases hd : d < 0 <;> simp [sc, XF.mul, XF.infSign, XF.neg, XF.div, h, not_lt.2 h.le, hd]
  | ninf =>
    rcases lt_or_gt_of_ne hc with h | h <;> by_cases hd : d < 0 <;> simp [sc, XF.mul, XF.infSign, XF.neg, XF.div, h, not_lt.2 h.le, hd]

theorem s2Of_units {r sq : K → K} (B : Binary r sq) {L : LinAlg K} (D : FairDot L) {v : K} (hv : PlusMinusPow v) (n k : ℕ) (err : List (XF K)) :
    s2Of r L n k (err.map (sc v)) = sc (v * v) (s2Of r L n k err) := by
  have hvv := pm_mul hv hv
  unfold s2Of
  rw [← sc_rnd (pm_ne hvv) r (pm_round B hvv), ← sc_div_right (pm_ne hvv), ← sc_npSumR (pm_ne hvv) _ (pm_dot D hvv _ _ _), List.map_map,
    List.map_map]
  congr 4
  funext x
  exact sc_mul (pm_ne hv) (pm_ne hv) x x

theorem olsR_units {r sq : K → K} (B : Binary r sq) {L : LinAlg K} (D : FairDot L) {k : ℕ} {u : Fin k → K} (hu : ∀ j, PlusMinusPow (u j))
    {v : K} (hv : PlusMinusPow v)
    (hinv : ∀ M, L.inv k (fun i j => u i * u j * M i j) = (L.inv k M).map fun N i j => (u i)⁻¹ * (u j)⁻¹ * N i j)
    (w : List ((Fin k → XF K) × XF K)) :
    olsR r L (scRows u v w) = (olsR r L w).map fun b =>
      (fun j => sc (v * (u j)⁻¹) (b.1 j), fun i j => sc (v * v * ((u i)⁻¹ * (u j)⁻¹)) (b.2 i j)) := by
  rw [olsR_eq, olsR_eq, show xxOf L (scRows u v w) = fun i j => sc (u i * u j) (xxOf L w i j) from
    funext fun i => funext fun j => xxOf_units D hu v w i j, invR_units hu hinv,
    show xyOf L (scRows u v w) = fun i => sc (u i * v) (xyOf L w i) from funext fun i => xyOf_units D hu hv w i]
  cases invR L (xxOf L w) with
  | error e => rfl
  | ok N =>
    simp only [Except.map]
    rw [show betaOf L (fun i j => (u i)⁻¹ * (u j)⁻¹ * N i j) (fun j => sc (u j * v) (xyOf L w j)) =
      fun i => sc (v * (u i)⁻¹) (betaOf L N (xyOf L w) i) from funext fun i => betaOf_units D hu hv N _ i,
      errOf_units B D hu hv, s2Of_units B D hv, show (scRows u v w).length = w.length from List.length_map _]
    congr 2
    funext i j
    have h := pm_mul (pm_mul hv hv) (pm_mul (pm_inv (hu i)) (pm_inv (hu j)))
    have h1 : XF.fin ((u i)⁻¹ * (u j)⁻¹ * N i j) = sc ((u i)⁻¹ * (u j)⁻¹) (.fin (N i j)) := rfl
    rw [h1, sc_mul (pm_ne (pm_mul hv hv)) (pm_ne (pm_mul (pm_inv (hu i)) (pm_inv (hu j)))), sc_rnd (pm_ne h) r (pm_round B h)]

/-- The value with its sign changed if the factor is negative. -/
def flip (c : K) (x : XF K) : XF K := if 0 < c then x else XF.neg x

theorem sqrtR_units {r sq : K → K} (B : Binary r sq) {c : K} (hc : PlusMinusPow c) (x : XF K) : sqrtR sq (sc (c * c) x) = sc |c| (sqrtR sq x) := by
  obtain ⟨e, he⟩ : ∃ e : ℤ, |c| = 2 ^ e := by
    obtain ⟨e, rfl | rfl⟩ := hc
    · exact ⟨e, abs_of_pos (by positivity)⟩
    · exact ⟨e, by rw [abs_neg, abs_of_pos (by positivity)]⟩
  have hp : (0 : K) < 2 ^ e := by positivity
  rw [← abs_mul_abs_self c, he]
  have hpp : (0 : K) < 2 ^ e * 2 ^ e := mul_pos hp hp
  cases x with
  | fin x =>
    simp only [sc_fin, sqrtR]
    by_cases hx : x < 0
    · rw [if_pos (mul_neg_of_pos_of_neg hpp hx), if_pos hx, sc_nan]
    · rw [if_neg (not_lt.2 (mul_nonneg hpp.le (not_lt.1 hx))), if_neg hx, sc_fin, B.sqrt e x (not_lt.1 hx)]
  | _ => simp [sc, XF.mul, XF.infSign, XF.neg, sqrtR, hp, hpp]

theorem div_sc {c : K} (h0 : c ≠ 0) (x y : XF K) : XF.div (sc c x) (sc |c| y) = flip c (XF.div x y) := by
  have hp : 0 < |c| := abs_pos.2 h0
  have hcc : ∀ z : XF K, XF.div z (sc |c| y) = sc |c|⁻¹ (XF.div z y) := by
    intro z
    have hpi : 0 < |c|⁻¹ := inv_pos.2 hp
    cases y with
    | fin y =>
      by_cases hy : y = 0
      · subst hy
        rw [sc_fin, mul_zero]
        cases z with
        | fin z =>
          simp only [XF.div, if_pos]
          rw [← infSign_mul hpi.ne']
          unfold XF.infSign
          simp only [mul_pos_iff_of_pos_left hpi, mul_neg_iff, hpi, not_lt.2 hpi.le, true_and, false_and, or_false]
        | _ => simp [XF.div, sc, XF.mul, XF.neg, XF.infSign, hpi, hp, h0]
      · have hy' : |c| * y ≠ 0 := mul_ne_zero hp.ne' hy
        have hlt : |c| * y < 0 ↔ y < 0 := by
          constructor
          · intro h; by_contra h'; exact absurd h (not_lt.2 (mul_nonneg hp.le (not_lt.1 h')))
          · exact mul_neg_of_pos_of_neg hp
        cases z with
        | fin z =>
          simp only [sc_fin, XF.div, if_neg hy, if_neg hy']
          congr 1
          field_simp
        | _ => by_cases hyn : y < 0 <;> simp [XF.div, sc, XF.mul, XF.neg, XF.infSign, hlt, hyn, hpi, hp, h0]
    | _ => cases z <;> simp [XF.div, sc, XF.mul, XF.neg, XF.infSign, hp, hpi, h0]
  have hl : XF.div (sc c x) y = sc c (XF.div x y) := by
    cases y with
    | fin y => exact sc_div_right h0 x y
    | nan => rcases lt_or_gt_of_ne h0 with h | h <;> cases x <;> simp [sc, XF.mul, XF.infSign, XF.neg, XF.div, h, not_lt.2 h.le]
    | pinf => rcases lt_or_gt_of_ne h0 with h | h <;> cases x <;> simp [sc, XF.mul, XF.infSign, XF.neg, XF.div, h, not_lt.2 h.le]
    | ninf => rcases lt_or_gt_of_ne h0 with h | h <;> cases x <;> simp [sc, XF.mul, XF.infSign, XF.neg, XF.div, h, not_lt.2 h.le]
  rw [hcc, hl, sc_sc (inv_pos.2 hp).ne' h0]
  unfold flip
  split_ifs with h
  · rw [abs_of_pos h, inv_mul_cancel₀ h0, sc_one]
  · have h' : c < 0 := lt_of_le_of_ne (not_lt.1 h) h0
    have : |c|⁻¹ * c = -1 := by rw [abs_of_neg h']; field_simp
    rw [this]
    cases XF.div x y <;> simp [sc, XF.mul, XF.infSign, XF.neg, not_lt.2 (zero_le_one (α := K))]

theorem divR_units {r sq : K → K} (B : Binary r sq) (em : ErrModel) {c : K} (hc : PlusMinusPow c) (x y : XF K) :
    divR em r (sc c x) (sc |c| y) = (divR em r x y).map (flip c) := by
  have h0 := pm_ne hc
  have hp : 0 < |c| := abs_pos.2 h0
  have hb : XF.beq (sc |c| y) (.fin 0) = XF.beq y (.fin 0) := by
    cases y <;> simp [sc, XF.mul, XF.infSign, XF.neg, XF.beq, hp, h0]
  have hf : ∀ z : XF K, rnd r (flip c z) = flip c (rnd r z) := by
    intro z
    unfold flip
    split_ifs
    · rfl
    · cases z <;> simp [rnd, XF.neg, B.neg]
  unfold divR
  rw [hb, div_sc h0, hf]
  split_ifs <;> rfl

theorem tValueR_units {r sq : K → K} (B : Binary r sq) {L : LinAlg K} (D : FairDot L) (em : ErrModel) {k : ℕ} {u : Fin k → K}
    (hu : ∀ j, PlusMinusPow (u j)) {v : K} (hv : PlusMinusPow v)
    (hinv : ∀ M, L.inv k (fun i j => u i * u j * M i j) = (L.inv k M).map fun N i j => (u i)⁻¹ * (u j)⁻¹ * N i j) (j : Fin k)
    (w : List ((Fin k → XF K) × XF K)) :
    tValueR em r sq L j (scRows u v w) = (tValueR em r sq L j w).map (flip (v * (u j)⁻¹)) := by
  unfold tValueR
  rw [olsR_units B D hu hv hinv]
  cases olsR r L w with
  | error e => rfl
  | ok b =>
    simp only [Except.map, Py.bind_ok]
    have h := pm_mul hv (pm_inv (hu j))
    rw [show v * v * ((u j)⁻¹ * (u j)⁻¹) = v * (u j)⁻¹ * (v * (u j)⁻¹) by ring, sqrtR_units B h, divR_units B em h]
    rfl

/-! ### The trend scanner -/

theorem flip_abs (c : K) (x : XF K) : XF.abs (flip c x) = XF.abs x := by
  unfold flip
  split
  · rfl
  · cases x <;> simp [XF.abs, XF.neg]

theorem flip_sign (c : K) (x : XF K) : XF.sign (flip c x) = flip c (XF.sign x) := by
  unfold flip
  split
  · rfl
  · cases x with
    | fin x =>
      simp only [XF.neg, XF.sign, XF.fin.injEq]
      rcases lt_trichotomy x 0 with h | h | h
      · simp [h, not_lt.2 h.le]
      · simp [h]
      · simp [h, not_lt.2 h.le]
    | _ => simp [XF.sign, XF.neg]

theorem trendTR_units {r sq : K → K} (B : Binary r sq) {L : LinAlg K} (D : FairDot L) (em : ErrModel) {c : K} (hc : PlusMinusPow c)
    (w : List (XF K)) : trendTR em r sq L (w.map (sc c)) = (trendTR em r sq L w).map (flip c) := by
  unfold trendTR
  have h := tValueR_units B D em (k := 2) (u := fun _ => 1) (fun _ => pm_one) hc (by
    intro M
    simp) 1 (w.zipIdx.map fun x => (![.fin 1, .fin (r (x.2 : K))], x.1))
  rw [inv_one, mul_one] at h
  rw [← h]
  congr 1
  unfold scRows
  rw [List.zipIdx_map, List.map_map, List.map_map]
  apply List.map_congr_left
  intro x _
  simp only [Function.comp, Prod.map, sc_one]
  rfl

omit [IsStrictOrderedRing K] in
theorem fillR_range (em : ErrModel) (r sq : K → K) (L : LinAlg K) (w : List (XF K)) (m n p : ℕ) (a : List (XF K)) (h : a.length = p + n) :
    fillR em r sq L w m ((List.range n).map fun q => m + (p + q)) a =
      (mapE (fun q => trendTR em r sq L (w.take (m + (p + q)))) (List.range n)).bind fun l => .ok (a.take p ++ l) := by
  induction n generalizing p a with
  | zero =>
    simp only [List.range_zero, List.map_nil, fillR, mapE]
    rw [List.take_of_length_le (by omega)]
    simp [Except.bind]
  | succ n ih =>
    rw [List.range_succ_eq_map, List.map_cons, List.map_map]
    have e1 : (List.range n).map ((fun q => m + (p + q)) ∘ Nat.succ) = (List.range n).map fun q => m + (p + 1 + q) := by
      apply List.map_congr_left
      intro q _
      simp only [Function.comp_apply]; omega
    rw [e1]
    simp only [fillR, mapE, Nat.add_zero]
    cases ht : trendTR em r sq L (w.take (m + p)) with
    | error e => rfl
    | ok t =>
      rw [Py.bind_ok, show m + p - m = p by omega, ih (p + 1) _ (by rw [List.length_set]; omega), mapE_map]
      have e2 : (fun q => trendTR em r sq L (w.take (m + (p + 1 + q)))) = fun q => trendTR em r sq L (w.take (m + (p + Nat.succ q))) := by
        funext q
        rw [show m + (p + 1 + q) = m + (p + Nat.succ q) by simp only [Nat.succ_eq_add_one]; omega]
      rw [e2]
      cases mapE (fun q => trendTR em r sq L (w.take (m + (p + Nat.succ q)))) (List.range n) with
      | error e => rfl
      | ok l =>
        simp only [Except.bind]
        congr 1
        rw [List.take_succ, List.getElem?_set_self (by omega), List.take_set_of_le (le_refl _)]
        simp

omit [IsStrictOrderedRing K] in
/-- With step one every entry of the array is computed: nothing of the memory is left. -/
theorem bestAtR_one (em : ErrModel) (r sq : K → K) (L : LinAlg K) (mem : ℕ → XF K) (n m : ℕ) (w : List (XF K)) :
    bestAtR em r sq L mem ⟨n, m, 1⟩ w =
    (mapE (fun q => trendTR em r sq L (w.take (m + q))) (List.range (w.length - m))).bind fun a =>
      .ok (a.getD (argmaxR (a.map XF.abs)) .nan, argmaxR (a.map XF.abs)) := by
  unfold bestAtR
  dsimp only
  rw [Trend.windows_one, Py.bind_ok]
  have := fillR_range em r sq L w m (w.length - m) 0 ((List.range (w.length - m)).map mem) (by simp)
  simp only [Nat.zero_add] at this
  rw [this]
  cases mapE (fun q => trendTR em r sq L (w.take (m + q))) (List.range (w.length - m)) with
  | error e => rfl
  | ok l => rfl

theorem fillR_units {r sq : K → K} (B : Binary r sq) {L : LinAlg K} (D : FairDot L) (em : ErrModel) {c : K} (hc : PlusMinusPow c) (h : 0 < c)
    (w : List (XF K)) (m : ℕ) (fs : List ℕ) (arr : List (XF K)) :
    fillR em r sq L (w.map (sc c)) m fs arr = fillR em r sq L w m fs arr := by
  induction fs generalizing arr with
  | nil => rfl
  | cons f fs ih =>
    simp only [fillR]
    rw [← List.map_take, trendTR_units B D em hc]
    cases trendTR em r sq L (w.take f) with
    | error e => rfl
    | ok t =>
      have : flip c t = t := if_pos h
      show fillR em r sq L (w.map (sc c)) m fs (arr.set (f - m) (flip c t)) = fillR em r sq L w m fs (arr.set (f - m) t)
      rw [this]
      exact ih _

theorem bestAtR_units {r sq : K → K} (B : Binary r sq) {L : LinAlg K} (D : FairDot L) (em : ErrModel) {c : K} (hc : PlusMinusPow c)
    (mem : ℕ → XF K) (p : Trend.Params) (h : 0 < c ∨ p.step = 1) (w : List (XF K)) :
    bestAtR em r sq L mem p (w.map (sc c)) = (bestAtR em r sq L mem p w).map fun b => (flip c b.1, b.2) := by
  rcases h with h | hs
  · have hid : (fun b : XF K × ℕ => (flip c b.1, b.2)) = id := by
      funext b
      have : flip c b.1 = b.1 := if_pos h
      rw [this]; rfl
    rw [hid]
    unfold bestAtR
    rw [List.length_map]
    simp only [fillR_units B D em hc h]
    cases Trend.windows p.minLen w.length p.step with
    | error e => rfl
    | ok fs =>
      rw [Py.bind_ok]
      cases fillR em r sq L w p.minLen fs ((List.range (w.length - p.minLen)).map mem) with
      | error e => rfl
      | ok c => rfl
  · obtain ⟨n, m, st⟩ := p
    dsimp only at hs
    subst hs
    rw [bestAtR_one, bestAtR_one, List.length_map]
    have : (fun q => trendTR em r sq L ((w.map (sc c)).take (m + q))) = fun q => (trendTR em r sq L (w.take (m + q))).map (flip c) := by
      funext q
      rw [← List.map_take, trendTR_units B D em hc]
    rw [this, Props.mapE_mapped]
    cases mapE (fun q => trendTR em r sq L (w.take (m + q))) (List.range (w.length - m)) with
    | error e => rfl
    | ok a =>
      simp only [Except.map, Except.bind, List.map_map]
      have habs : a.map (XF.abs ∘ flip c) = a.map XF.abs := List.map_congr_left fun x _ => flip_abs c x
      rw [habs]
      congr 2
      rw [List.getD_eq_getElem?_getD, List.getD_eq_getElem?_getD, List.getElem?_map]
      cases a[argmaxR (a.map XF.abs)]? with
      | none => simp [flip, XF.neg]
      | some x => rfl

/-- The sign of t-value and label changed if the factor is negative; without the return. -/
def flipRow (c : K) (l : LabelR K) : ℤ × Option ℤ × XF K × XF K := (l.time, l.eventEnd, flip c l.tValue, flip c l.label)

theorem labelAtR_units {r sq : K → K} (B : Binary r sq) {L : LinAlg K} (D : FairDot L) (em : ErrModel) {c : K} (hc : PlusMinusPow c)
    (mem : ℕ → ℕ → XF K) (p : Trend.Params) (h : 0 < c ∨ p.step = 1) (s : List (ℤ × XF K)) (e : ℤ × ℕ) :
    (labelAtR em r sq L mem p (s.map fun x => (x.1, sc c x.2)) e).map (flipRow 1) = (labelAtR em r sq L mem p s e).map (flipRow c) := by
  have h1 : (s.map fun x => (x.1, sc c x.2)).map (·.1) = s.map (·.1) := by rw [List.map_map]; rfl
  have h2 : (s.map fun x => (x.1, sc c x.2)).map (·.2) = (s.map (·.2)).map (sc c) := by rw [List.map_map, List.map_map]; rfl
  have hone : ∀ x : XF K, flip 1 x = x := fun x => if_pos one_pos
  have hnan : flip c .nan = .nan := by unfold flip; split <;> rfl
  unfold labelAtR scanAtR
  dsimp only
  rw [h1, h2, ← List.map_drop, ← List.map_take, List.length_map]
  split
  · rw [bestAtR_units B D em hc (mem e.2) p h]
    cases bestAtR em r sq L (mem e.2) p (((s.map (·.2)).drop ((s.map (·.1)).idxOf e.1)).take p.look) with
    | error e => rfl
    | ok b =>
      simp only [Except.map, Py.bind_ok, flipRow, hone, flip_sign]
  · simp only [Except.map, Py.bind_ok, flipRow, hone, flip_sign]
    simp [XF.sign, hnan]

theorem div_units {c : K} (h : 0 < c) (x y : XF K) : XF.div (sc c x) (sc c y) = XF.div x y := by
  have := div_sc h.ne' x y
  rw [abs_of_pos h] at this
  rw [this]
  exact if_pos h

/-- For a positive factor the whole row is the same. -/
theorem labelAtR_scale {r sq : K → K} (B : Binary r sq) {L : LinAlg K} (D : FairDot L) (em : ErrModel) {c : K} (hc : PlusMinusPow c) (h : 0 < c)
    (mem : ℕ → ℕ → XF K) (p : Trend.Params) (s : List (ℤ × XF K)) (e : ℤ × ℕ) :
    labelAtR em r sq L mem p (s.map fun x => (x.1, sc c x.2)) e = labelAtR em r sq L mem p s e := by
  have h1 : (s.map fun x => (x.1, sc c x.2)).map (·.1) = s.map (·.1) := by rw [List.map_map]; rfl
  have h2 : (s.map fun x => (x.1, sc c x.2)).map (·.2) = (s.map (·.2)).map (sc c) := by rw [List.map_map, List.map_map]; rfl
  have hget : ∀ i, ((s.map (·.2)).map (sc c)).getD i .nan = sc c ((s.map (·.2)).getD i .nan) := by
    intro i
    rw [List.getD_eq_getElem?_getD, List.getD_eq_getElem?_getD, List.getElem?_map]
    cases (s.map (·.2))[i]? <;> rfl
  have hflip : ∀ x : XF K, flip c x = x := fun x => if_pos h
  unfold labelAtR scanAtR
  dsimp only
  rw [h1, h2, ← List.map_drop, ← List.map_take, List.length_map]
  split
  · rw [bestAtR_units B D em hc (mem e.2) p (Or.inl h)]
    cases bestAtR em r sq L (mem e.2) p (((s.map (·.2)).drop ((s.map (·.1)).idxOf e.1)).take p.look) with
    | error e => rfl
    | ok b => simp only [Except.map, Py.bind_ok, hflip, hget, div_units h]
  · rfl

/-! ### The Chow-type test -/

theorem inv_units {L : LinAlg K} (I : FairInv L) {k : ℕ} (s : Fin k → K) (hs : ∀ i, s i = 1 ∨ s i = -1) (e : ℤ) (M : Fin k → Fin k → K) :
    L.inv k (fun i j => s i * 2 ^ e * (s j * 2 ^ e) * M i j) =
      (L.inv k M).map fun N i j => (s i * 2 ^ e)⁻¹ * (s j * 2 ^ e)⁻¹ * N i j := by
  have h2 : (2 : K) ≠ 0 := by norm_num
  have e1 : (fun i j => s i * 2 ^ e * (s j * 2 ^ e) * M i j) = fun i j => s i * s j * (2 ^ (e + e) * M i j) := by
    funext i j
    rw [zpow_add₀ h2]
    ring
  rw [e1, I.sign k s hs fun i j => 2 ^ (e + e) * M i j, I.scale, Option.map_map]
  congr 1
  funext N i j
  have hinv : ∀ i, (s i)⁻¹ = s i := by
    intro i
    rcases hs i with h | h <;> rw [h]
    · exact inv_one
    · rw [inv_neg, inv_one]
  simp only [Function.comp]
  rw [mul_inv, mul_inv, hinv, hinv, zpow_add₀ h2, mul_inv]
  ring

theorem inv_pm {L : LinAlg K} (I : FairInv L) {k : ℕ} {c : K} (hc : PlusMinusPow c) (M : Fin k → Fin k → K) :
    L.inv k (fun i j => c * c * M i j) = (L.inv k M).map fun N i j => c⁻¹ * c⁻¹ * N i j := by
  obtain ⟨e, h⟩ := hc
  obtain ⟨s, hs, rfl⟩ : ∃ s : K, (s = 1 ∨ s = -1) ∧ c = s * 2 ^ e := by
    rcases h with h | h
    · exact ⟨1, Or.inl rfl, by rw [h, one_mul]⟩
    · exact ⟨-1, Or.inr rfl, by rw [h, neg_one_mul]⟩
  exact inv_units I (fun _ => s) (fun _ => hs) e M

theorem diff_units {r sq : K → K} (B : Binary r sq) {c : K} (hc : PlusMinusPow c) (x y : XF K) :
    rnd r (XF.sub (sc c x) (sc c y)) = sc c (rnd r (XF.sub x y)) := by
  rw [sc_sub (pm_ne hc), sc_rnd (pm_ne hc) r (pm_round B hc)]

theorem dfColumnsR_units {r sq : K → K} (B : Binary r sq) {c : K} (hc : PlusMinusPow c) (s : List (ℤ × XF K)) :
    dfColumnsR r (s.map fun x => (x.1, sc c x.2)) = ((dfColumnsR r s).1.map (sc c), (dfColumnsR r s).2.map (sc c)) := by
  unfold dfColumnsR
  dsimp only
  congr 1
  · rw [← List.map_tail, List.zipWith_map]
    have : (List.zipWith (fun a b => rnd r (XF.sub (sc c a.2) (sc c b.2))) s.tail s) =
        (List.zipWith (fun a b => rnd r (XF.sub a.2 b.2)) s.tail s).map (sc c) := by
      rw [List.map_zipWith]
      congr 1
      funext x y
      exact diff_units B hc _ _
    rw [this, List.filter_map]
    congr 1
    apply List.filter_congr
    intro x _
    simp only [Function.comp_apply, sc_isNan (pm_ne hc)]
  · rw [← List.map_dropLast, List.map_map]
    have : (s.dropLast.map ((fun x : ℤ × XF K => x.2) ∘ fun x => (x.1, sc c x.2))) = (s.dropLast.map (·.2)).map (sc c) := by
      rw [List.map_map]; rfl
    rw [this, List.filter_map]
    congr 1
    apply List.filter_congr
    intro x _
    simp only [Function.comp_apply, sc_isNan (pm_ne hc)]

theorem dfcAtR_units {r sq : K → K} (B : Binary r sq) {L : LinAlg K} (D : FairDot L) (I : FairInv L) (em : ErrModel) {c : K}
    (hc : PlusMinusPow c) (yDiff yLag : List (XF K)) (i : ℕ) :
    dfcAtR em r sq L (yDiff.map (sc c)) (yLag.map (sc c)) i = dfcAtR em r sq L yDiff yLag i := by
  have h := tValueR_units B D em (k := 1) (u := fun _ => c) (fun _ => hc) hc (fun M => inv_pm I hc M) 0
    ((List.zip (yLag.zipIdx.map fun v => XF.mul v.1 (.fin (if v.2 < i then 0 else 1))) yDiff).map fun v => (fun _ => v.1, v.2))
  rw [mul_inv_cancel₀ (pm_ne hc)] at h
  have h1 : flip (1 : K) = id := funext fun x => if_pos one_pos
  unfold dfcAtR
  dsimp only
  simp only [List.length_map, List.length_zipIdx]
  split
  · rfl
  · have e : ((List.zip ((yLag.map (sc c)).zipIdx.map fun v => XF.mul v.1 (.fin (if v.2 < i then 0 else 1))) (yDiff.map (sc c))).map
          fun v => ((fun _ : Fin 1 => v.1), v.2)) = scRows (fun _ => c) c
            ((List.zip (yLag.zipIdx.map fun v => XF.mul v.1 (.fin (if v.2 < i then 0 else 1))) yDiff).map fun v => (fun _ => v.1, v.2)) := by
      unfold scRows
      rw [List.zipIdx_map, List.map_map, List.map_map]
      rw [show ((fun v : XF K × ℕ => XF.mul v.1 (.fin (if v.2 < i then 0 else 1))) ∘ Prod.map (sc c) id) =
        sc c ∘ fun v => XF.mul v.1 (.fin (if v.2 < i then 0 else 1)) from funext fun v => by
          simp only [Function.comp, Prod.map, id, sc_mul_left (pm_ne hc)], ← List.map_map, List.zip_map, List.map_map]
      rfl
    rw [e, h, h1]
    cases tValueR em r sq L (0 : Fin 1) ((List.zip (yLag.zipIdx.map fun v => XF.mul v.1 (.fin (if v.2 < i then 0 else 1))) yDiff).map
      fun v => (fun _ => v.1, v.2)) <;> rfl

theorem sdfcRunR_units {r sq : K → K} (B : Binary r sq) {L : LinAlg K} (D : FairDot L) (I : FairInv L) (em : ErrModel) {c : K}
    (hc : PlusMinusPow c) (m : ℕ) (s : List (ℤ × XF K)) :
    sdfcRunR em r sq L m (s.map fun x => (x.1, sc c x.2)) = sdfcRunR em r sq L m s := by
  unfold sdfcRunR
  dsimp only
  rw [dfColumnsR_units B hc, List.length_map, List.map_map (l := s)]
  dsimp only
  rw [show dfcAtR em r sq L ((dfColumnsR r s).1.map (sc c)) ((dfColumnsR r s).2.map (sc c)) = dfcAtR em r sq L (dfColumnsR r s).1 (dfColumnsR r s).2
    from funext fun i => dfcAtR_units B D I em hc _ _ i]
  rfl

/-! ### The explosiveness tests -/

theorem diffsR_units {r sq : K → K} (B : Binary r sq) {c : K} (hc : PlusMinusPow c) (s : List (ℤ × XF K)) :
    diffsR r (s.map fun x => (x.1, sc c x.2)) = (diffsR r s).map fun x => (x.1, sc c x.2.1, sc c x.2.2) := by
  unfold diffsR
  rw [← List.map_tail, List.zipWith_map]
  have : (List.zipWith (fun a b : ℤ × XF K => (a.1, rnd r (XF.sub (sc c a.2) (sc c b.2)), sc c b.2)) s.tail s) =
      (List.zipWith (fun a b : ℤ × XF K => (a.1, rnd r (XF.sub a.2 b.2), b.2)) s.tail s).map fun x => (x.1, sc c x.2.1, sc c x.2.2) := by
    rw [List.map_zipWith]
    congr 1
    funext x y
    rw [diff_units B hc]
  rw [this, List.filter_map]
  congr 1
  apply List.filter_congr
  intro x _
  simp only [Function.comp_apply, sc_isNan (pm_ne hc)]

theorem standardRowsR_units {r sq : K → K} (B : Binary r sq) {c : K} (hc : PlusMinusPow c) (lags : ℤ) (s : List (ℤ × XF K)) :
    standardRowsR r lags (s.map fun x => (x.1, sc c x.2)) = (standardRowsR r lags s).map fun x => (x.1, x.2.1.map (sc c), sc c x.2.2) := by
  unfold standardRowsR
  split_ifs
  · rfl
  · dsimp only
    rw [diffsR_units B hc, List.length_map, List.map_map]
    have hget : ∀ i, ((diffsR r s).map fun x => (x.1, sc c x.2.1, sc c x.2.2)).getD i (0, .nan, .nan) =
        (((diffsR r s).getD i (0, .nan, .nan)).1, sc c ((diffsR r s).getD i (0, .nan, .nan)).2.1, sc c ((diffsR r s).getD i (0, .nan, .nan)).2.2) := by
      intro i
      rw [List.getD_eq_getElem?_getD, List.getD_eq_getElem?_getD, List.getElem?_map]
      cases (diffsR r s)[i]? <;> rfl
    apply List.map_congr_left
    intro j _
    simp only [hget, Function.comp, List.map_cons, List.map_map]
    rfl

omit [IsStrictOrderedRing K] in
theorem standardRowsR_length (r : K → K) (lags : ℤ) (s : List (ℤ × XF K)) : ∀ x ∈ standardRowsR r lags s, x.2.1.length = lags.toNat + 1 := by
  intro x hx
  unfold standardRowsR at hx
  split_ifs at hx
  · cases hx
  · obtain ⟨j, -, rfl⟩ := List.mem_map.1 hx
    simp

/-- What changes in the rows of a design: the unit of each column and of the target. -/
def scDesign (k : ℕ) (u : Fin (k + 1) → K) (v : K) (x x' : ℤ × List (XF K) × XF K) : Prop :=
  x'.1 = x.1 ∧ (∀ j : Fin (k + 1), x'.2.1.getD j .nan = sc (u j) (x.2.1.getD j .nan)) ∧ x'.2.2 = sc v x.2.2 ∧
    (x'.2.1.all (fun v => !v.isNan)) = (x.2.1.all fun v => !v.isNan)

theorem sadfLoopR_units {r sq : K → K} (B : Binary r sq) {L : LinAlg K} (D : FairDot L) (em : ErrModel) (pw : ℤ → K) {k : ℕ}
    {u : Fin (k + 1) → K} (hu : ∀ j, PlusMinusPow (u j)) {v : K} (hv : PlusMinusPow v)
    (hinv : ∀ M, L.inv (k + 1) (fun i j => u i * u j * M i j) = (L.inv (k + 1) M).map fun N i j => (u i)⁻¹ * (u j)⁻¹ * N i j)
    (model : String) (hsm : Brk.isSm model = false → 0 < v * (u 0)⁻¹) (m : ℕ) (w : List ((Fin (k + 1) → XF K) × XF K)) :
    sadfLoopR em r sq L pw k m model (scRows u v w) = sadfLoopR em r sq L pw k m model w := by
  have hl : ∀ w : List ((Fin (k + 1) → XF K) × XF K), (scRows u v w).length = w.length := fun w => List.length_map _
  have hat : ∀ w : List ((Fin (k + 1) → XF K) × XF K), adfAtR em r sq L pw k model (scRows u v w) = adfAtR em r sq L pw k model w := by
    intro w
    funext start
    unfold adfAtR
    rw [hl, show (scRows u v w).drop start = scRows u v (w.drop start) from (List.map_drop).symm, tValueR_units B D em hu hv hinv]
    cases tValueR em r sq L 0 (w.drop start) with
    | error e => rfl
    | ok t =>
      simp only [Except.map, Py.bind_ok, flip_abs]
      cases hm : Brk.isSm model with
      | true => rfl
      | false =>
        rw [show flip (v * (u 0)⁻¹) t = t from if_pos (hsm hm)]
  unfold sadfLoopR
  rw [hl]
  split_ifs
  · rfl
  · congr 1
    funext i
    rw [show (scRows u v w).take (m + i + 1) = scRows u v (w.take (m + i + 1)) from (List.map_take).symm]
    unfold sadfAtR
    rw [hat, hl]

theorem sadfRunR_units {r sq lg : K → K} (B : Binary r sq) {L : LinAlg K} (D : FairDot L) (em : ErrModel) (pw : ℤ → K) {k : ℕ}
    {u : Fin (k + 1) → K} (hu : ∀ j, PlusMinusPow (u j)) {v : K} (hv : PlusMinusPow v)
    (hinv : ∀ M, L.inv (k + 1) (fun i j => u i * u j * M i j) = (L.inv (k + 1) M).map fun N i j => (u i)⁻¹ * (u j)⁻¹ * N i j)
    (model : String) (hsm : Brk.isSm model = false → 0 < v * (u 0)⁻¹) (lags : ℤ) (m : ℕ) (b : Bool) (s s' : List (ℤ × XF K))
    (rows rows' : List (ℤ × List (XF K) × XF K)) (h : designRowsR r lg model lags b s = .ok (k, rows))
    (h' : designRowsR r lg model lags b s' = .ok (k, rows')) (hr : List.Forall₂ (scDesign k u v) rows rows') :
    sadfRunR em r sq lg L pw model lags m b s' = sadfRunR em r sq lg L pw model lags m b s := by
  have h1 : rows'.map (·.1) = rows.map (·.1) := by
    clear h h'
    induction hr with
    | nil => rfl
    | cons a _ ih => rw [List.map_cons, List.map_cons, ih, a.1]
  have h2 : rows'.map (toRowR k) = scRows u v (rows.map (toRowR k)) := by
    clear h h' h1
    induction hr with
    | nil => rfl
    | cons a _ ih =>
      rw [List.map_cons, ih, List.map_cons]
      unfold scRows
      rw [List.map_cons]
      congr 1
      unfold toRowR
      rw [Prod.mk.injEq]
      exact ⟨funext a.2.1, a.2.2.1⟩
  have h3 : rows'.all (fun x => x.2.1.all (fun v => !v.isNan) && !x.2.2.isNan) = rows.all (fun x => x.2.1.all (fun v => !v.isNan) && !x.2.2.isNan) := by
    clear h h' h1 h2
    induction hr with
    | nil => rfl
    | cons a _ ih => rw [List.all_cons, List.all_cons, ih, a.2.2.2, a.2.2.1, sc_isNan (pm_ne hv)]
  unfold sadfRunR getXyR
  rw [h, h', Py.bind_ok, Py.bind_ok]
  dsimp only
  rw [h3]
  cases rows.all (fun x => x.2.1.all (fun v => !v.isNan) && !x.2.2.isNan) with
  | false => rfl
  | true =>
    simp only [if_pos, Py.bind_ok]
    rw [h2, sadfLoopR_units B D em pw hu hv hinv model hsm, h1]

/-- The rows of the standard specification with further columns. -/
theorem addColsR_units {r sq : K → K} (B : Binary r sq) {c : K} (hc : PlusMinusPow c) (lags : ℤ) (s : List (ℤ × XF K)) (f : ℕ → List (XF K)) (k : ℕ) :
    List.Forall₂ (scDesign k (fun j => if (j : ℕ) < lags.toNat + 1 then c else 1) c) (addColsR f (standardRowsR r lags s))
      (addColsR f (standardRowsR r lags (s.map fun x => (x.1, sc c x.2)))) := by
  rw [standardRowsR_units B hc]
  unfold addColsR
  rw [List.forall₂_iff_get]
  refine ⟨by simp, ?_⟩
  intro i h1 h2
  simp only [List.get_eq_getElem, List.getElem_map, List.getElem_zipIdx, Nat.zero_add]
  have hi : i < (standardRowsR r lags s).length := by simpa using h1
  have hlen := standardRowsR_length r lags s ((standardRowsR r lags s)[i]'hi) (List.getElem_mem hi)
  generalize (standardRowsR r lags s)[i]'hi = x at hlen
  refine ⟨rfl, ?_, rfl, ?_⟩
  · intro j
    dsimp only
    rw [List.getD_eq_getElem?_getD, List.getD_eq_getElem?_getD]
    by_cases hj : (j : ℕ) < lags.toNat + 1
    · rw [if_pos hj, List.getElem?_append_left (by simpa [hlen] using hj), List.getElem?_append_left (by simpa [hlen] using hj), List.getElem?_map]
      cases x.2.1[(j : ℕ)]? <;> rfl
    · rw [if_neg hj, List.getElem?_append_right (by simp [hlen]; omega), List.getElem?_append_right (by simp [hlen]; omega), List.length_map, sc_one]
  · dsimp only
    rw [List.all_append, List.all_append, List.all_map]
    congr 2
    funext x
    simp only [Function.comp, sc_isNan (pm_ne hc)]

end Mizar.Rd
