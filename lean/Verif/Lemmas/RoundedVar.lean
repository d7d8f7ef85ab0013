import Verif.Model.RoundedVar
import Verif.Lemmas.RoundedRoll

/-!
Lemmas on rolling variances carried along.
-/

namespace Mizar.Rd
open Mizar.Spec
variable {K : Type} [Field K] [LinearOrder K] [IsStrictOrderedRing K]

/-- Positions `a` to `b - 1`. -/
def seg {α : Type*} (a b : ℕ) (l : List α) : List α := (l.take b).drop a

omit [IsStrictOrderedRing K] in
theorem seg_snoc (l : List (XF K)) {a b : ℕ} (hab : a ≤ b) (hb : b < l.length) :
    seg a (b + 1) l = seg a b l ++ [l.getD b .nan] := by
  unfold seg
  rw [List.take_add_one, List.getElem?_eq_getElem hb, List.drop_append, List.getD_eq_getElem _ _ hb, List.length_take,
    Nat.min_eq_left hb.le, show a - b = 0 by omega]
  rfl

omit [IsStrictOrderedRing K] in
theorem seg_cons (l : List (XF K)) {a b : ℕ} (hab : a < b) (hb : b ≤ l.length) :
    seg a b l = l.getD a .nan :: seg (a + 1) b l := by
  unfold seg
  rw [List.drop_eq_getElem_cons (by rw [List.length_take]; omega), List.getElem_take, List.getD_eq_getElem _ _ (by omega)]

theorem seg_winAt {α : Type*} (w i : ℕ) (l : List α) : seg (i + 1 - w) (i + 1) l = winAt w i l := rfl

/-- Sum of squares. -/
def sumSq (m : List (XF K)) : K := (m.map fun x => x.toK * x.toK).sum

/-- The state belongs to the window `m`. -/
structure Fits (st : VarSt K) (m : List (XF K)) : Prop where
  nobs : st.nobs = (m.map present).sum
  ca : st.ca = 0
  cr : st.cr = 0
  mean : st.mean * (st.nobs : K) = (m.map XF.toK).sum
  ss : st.ss = sumSq m - st.mean * (m.map XF.toK).sum

omit [IsStrictOrderedRing K] in
theorem present_nonneg (m : List (XF K)) : 0 ≤ (m.map present).sum := by
  apply List.sum_nonneg
  intro x hx
  obtain ⟨y, _, rfl⟩ := List.mem_map.1 hx
  unfold present
  split_ifs <;> decide

omit [IsStrictOrderedRing K] in
theorem present_zero (m : List (XF K)) (h : (m.map present).sum = 0) : (m.map XF.toK).sum = 0 ∧ sumSq m = 0 := by
  induction m with
  | nil => simp [sumSq]
  | cons x m ih =>
    rw [List.map_cons, List.sum_cons] at h
    have h1 := present_nonneg m
    have h2 : 0 ≤ present x := by unfold present; split_ifs <;> decide
    obtain ⟨h3, h4⟩ := ih (by omega)
    have hx : present x = 0 := by omega
    have : x.toK = 0 := by
      cases x with
      | fin v => simp [present, XF.undef, XF.isNan, XF.isInf] at hx
      | _ => rfl
    simp only [sumSq, List.map_cons, List.sum_cons, this, h3] at h4 ⊢
    simp [h4]

theorem fits_init : Fits (varInit : VarSt K) [] := ⟨rfl, rfl, rfl, by simp [varInit], by simp [varInit, sumSq]⟩

theorem varAdd_fits {st : VarSt K} {m : List (XF K)} (h : Fits st m) (x : XF K) : Fits (varAdd id st x) (m ++ [x]) := by
  cases x with
  | fin v =>
    have hn0 := present_nonneg m
    rw [← h.nobs] at hn0
    have hn : st.nobs + 1 ≠ 0 := by omega
    have hK : ((st.nobs + 1 : ℤ) : K) ≠ 0 := by exact_mod_cast hn
    have hK' : (st.nobs : K) + 1 ≠ 0 := by exact_mod_cast hn
    have hmean : (varAdd id st (.fin v)).mean = st.mean + (v - st.mean) / ((st.nobs : K) + 1) := by
      simp [varAdd, h.ca, hn]
    have hss : (varAdd id st (.fin v)).ss = st.ss + (v - st.mean) * (v - (st.mean + (v - st.mean) / ((st.nobs : K) + 1))) := by
      simp [varAdd, h.ca, hn]
    have hmean' : (varAdd id st (.fin v)).mean * ((st.nobs : K) + 1) = (m.map XF.toK).sum + v := by
      rw [hmean, ← h.mean]
      field_simp
      ring
    constructor
    · simp [varAdd, h.nobs, present, XF.undef, XF.isNan, XF.isInf]
    · simp [varAdd, h.ca]
    · simp [varAdd, h.cr]
    · rw [List.map_append, List.sum_append]
      simpa [varAdd, XF.toK] using hmean'
    · have e : ((m ++ [XF.fin v]).map XF.toK).sum = (m.map XF.toK).sum + v := by simp [XF.toK]
      have e2 : sumSq (m ++ [XF.fin v]) = sumSq m + v * v := by simp [sumSq, XF.toK]
      rw [e, e2, ← hmean', hss, hmean, h.ss, ← h.mean]
      by_cases h0 : st.nobs = 0
      · have := present_zero m (by rw [← h.nobs, h0])
        rw [h0, this.2]
        push_cast
        ring
      · field_simp
        ring
  | _ =>
    refine ⟨?_, h.ca, h.cr, ?_, ?_⟩
    · simp [varAdd, h.nobs, present, XF.undef, XF.isNan, XF.isInf]
    · simpa [varAdd, XF.toK] using h.mean
    · simpa [varAdd, XF.toK, sumSq] using h.ss

theorem varRemove_fits {st : VarSt K} {m : List (XF K)} (x : XF K) (h : Fits st (x :: m)) : Fits (varRemove id st x) m := by
  cases x with
  | fin v =>
    have hn0 := present_nonneg m
    have hnobs : st.nobs = 1 + (m.map present).sum := by
      rw [h.nobs]; simp [present, XF.undef, XF.isNan, XF.isInf]
    by_cases hn : st.nobs - 1 = 0
    · have hz := present_zero m (by omega)
      have e : varRemove id st (.fin v) = { st with mean := 0, ss := 0, nobs := st.nobs - 1 } := by simp [varRemove, hn]
      rw [e]
      exact ⟨by dsimp only; omega, h.ca, h.cr, by rw [hz.1]; simp, by rw [hz.1, hz.2]; simp⟩
    · have hK' : (st.nobs : K) - 1 ≠ 0 := by exact_mod_cast hn
      have hmean : (varRemove id st (.fin v)).mean = st.mean - (v - st.mean) / ((st.nobs : K) - 1) := by
        simp [varRemove, h.cr, hn]
      have hss : (varRemove id st (.fin v)).ss = st.ss - (v - st.mean) * (v - (st.mean - (v - st.mean) / ((st.nobs : K) - 1))) := by
        simp [varRemove, h.cr, hn]
      have hS : (m.map XF.toK).sum = st.mean * st.nobs - v := by rw [h.mean]; simp [XF.toK]
      have hQ : st.ss = sumSq m + v * v - st.mean * (st.mean * st.nobs) := by rw [h.ss, ← h.mean]; simp [sumSq, XF.toK]; ring
      have hmean' : (varRemove id st (.fin v)).mean * ((st.nobs : K) - 1) = (m.map XF.toK).sum := by
        rw [hmean, hS]
        field_simp
        ring
      constructor
      · have : (varRemove id st (.fin v)).nobs = st.nobs - 1 := by simp [varRemove, hn]
        omega
      · simp [varRemove, h.ca, hn]
      · simp [varRemove, h.cr, hn]
      · have : (varRemove id st (.fin v)).nobs = st.nobs - 1 := by simp [varRemove, hn]
        rw [this]
        push_cast
        exact hmean'
      · rw [hss, hmean, hS, hQ]
        field_simp
        ring
  | _ =>
    refine ⟨?_, h.ca, h.cr, ?_, ?_⟩
    · have := h.nobs
      simpa [varRemove, present, XF.undef, XF.isNan, XF.isInf] using this
    · simpa [varRemove, XF.toK] using h.mean
    · simpa [varRemove, XF.toK, sumSq] using h.ss

theorem varState_fits (b : Bool) {w : ℕ} (hw : 1 ≤ w) (l : List (XF K)) (n : ℕ) (h : n ≤ l.length) :
    Fits (varState id b w l n) (seg (n - w) n l) := by
  induction n with
  | zero => simpa [varState, seg] using (fits_init : Fits (varInit : VarSt K) [])
  | succ n ih =>
    have ih := ih (by omega)
    rw [varState, varStep]
    by_cases hwn : w ≤ n
    · rw [if_pos hwn]
      have e : n + 1 - w = (n - w) + 1 := by omega
      cases b with
      | true =>
        rw [if_pos rfl, e]
        apply varRemove_fits
        rw [← seg_cons l (by omega) (by omega), seg_snoc l (by omega) (by omega)]
        exact varAdd_fits ih _
      | false =>
        rw [if_neg (by simp), e, seg_snoc l (by omega) (by omega)]
        apply varAdd_fits
        apply varRemove_fits
        rw [← seg_cons l (by omega) (by omega)]
        exact ih
    · rw [if_neg hwn, show n + 1 - w = n - w by omega, seg_snoc l (by omega) (by omega)]
      exact varAdd_fits ih _

theorem fits_nonneg {st : VarSt K} {m : List (XF K)} (h : Fits st m) : 0 ≤ st.ss := by
  have key : ∀ (m : List (XF K)) (a : K), 0 ≤ sumSq m - 2 * a * (m.map XF.toK).sum + ((m.map present).sum : ℤ) * (a * a) := by
    intro m a
    induction m with
    | nil => simp [sumSq]
    | cons x m ih =>
      simp only [sumSq, List.map_cons, List.sum_cons] at ih ⊢
      cases x with
      | fin v =>
        have e : present (XF.fin v) = 1 := by simp [present, XF.undef, XF.isNan, XF.isInf]
        rw [e, Int.cast_add, Int.cast_one]
        simp only [XF.toK] at ih ⊢
        linarith [mul_self_nonneg (v - a)]
      | _ =>
        have e : ∀ y : XF K, y.undef = true → present y = 0 := fun y hy => by simp [present, hy]
        rw [e _ rfl, zero_add]
        simp only [XF.toK] at ih ⊢
        linarith
  have := key m st.mean
  rw [h.ss]
  rw [← h.nobs, ← h.mean] at this
  rw [← h.mean]
  linarith

/-! ### counts, whatever the rounding -/

omit [IsStrictOrderedRing K] in
theorem varAdd_nobs (r : K → K) (st : VarSt K) (x : XF K) : (varAdd r st x).nobs = st.nobs + present x := by
  cases x <;> simp [varAdd, present, XF.undef, XF.isNan, XF.isInf]

omit [IsStrictOrderedRing K] in
theorem varRemove_nobs (r : K → K) (st : VarSt K) (x : XF K) : (varRemove r st x).nobs = st.nobs - present x := by
  cases x with
  | fin v => by_cases hn : st.nobs - 1 = 0 <;> simp [varRemove, present, XF.undef, XF.isNan, XF.isInf, hn]
  | _ => simp [varRemove, present, XF.undef, XF.isNan, XF.isInf]

omit [IsStrictOrderedRing K] in
theorem varState_nobs (r : K → K) (b : Bool) {w : ℕ} (hw : 1 ≤ w) (l : List (XF K)) (n : ℕ) (h : n ≤ l.length) :
    (varState r b w l n).nobs = ((seg (n - w) n l).map present).sum := by
  induction n with
  | zero => simp [varState, varInit, seg]
  | succ n ih =>
    have ih := ih (by omega)
    rw [varState, varStep]
    by_cases hwn : w ≤ n
    · rw [if_pos hwn, show n + 1 - w = (n - w) + 1 by omega]
      have e := seg_cons l (show n - w < n + 1 by omega) (by omega)
      rw [seg_snoc l (show n - w ≤ n by omega) (by omega)] at e
      have e' := congrArg (fun m => (m.map present).sum) e
      simp only [List.map_append, List.sum_append, List.map_cons, List.sum_cons, List.map_nil, List.sum_nil, add_zero] at e'
      cases b with
      | true => rw [if_pos rfl, varRemove_nobs, varAdd_nobs, ih]; omega
      | false => rw [if_neg (by simp), varAdd_nobs, varRemove_nobs, ih]; omega
    · rw [if_neg hwn, show n + 1 - w = n - w by omega, seg_snoc l (by omega) (by omega), varAdd_nobs, ih]
      simp

omit [IsStrictOrderedRing K] in
theorem varNobs_full (r : K → K) (b : Bool) {w : ℕ} (hw : 1 ≤ w) (l : List (XF K)) (i : ℕ) (h : i < l.length) :
    ((w : ℤ) ≤ (varState r b w l (i + 1)).nobs ↔ w ≤ i + 1 ∧ (winAt w i l).any XF.undef = false) ∧
      ((w : ℤ) ≤ (varState r b w l (i + 1)).nobs → (varState r b w l (i + 1)).nobs = w) := by
  rw [varState_nobs r b hw l (i + 1) (by omega), seg_winAt]
  obtain ⟨h1, h2⟩ := sum_present (winAt w i l)
  have hl := winAt_len_le w i l
  rw [← h2]
  by_cases hwi : w ≤ i + 1
  · rw [winAt_length w i l hwi h] at *
    omega
  · have : (winAt w i l).length ≤ i + 1 := by unfold winAt; simp
    omega

omit [IsStrictOrderedRing K] in
/-- The value at a position. -/
theorem rollVar_at (r : K → K) (b : Bool) {w : ℕ} (hw : 1 ≤ w) (l : List (XF K)) (i : ℕ) (h : i < l.length) :
    (rollVar r b w l).getD i .nan =
      if 2 ≤ w ∧ w ≤ i + 1 ∧ (winAt w i l).any XF.undef = false then
        .fin (max 0 (r ((varState r b w l (i + 1)).ss / ((w - 1 : ℤ) : K))))
      else .nan := by
  rw [rollVar, List.getD_eq_getElem _ _ (by simpa using h), List.getElem_map, List.getElem_range, calcVar]
  obtain ⟨h1, h2⟩ := varNobs_full r b hw l i h
  generalize varState r b w l (i + 1) = st at h1 h2 ⊢
  by_cases hc : (w : ℤ) ≤ st.nobs
  · have hn := h2 hc
    by_cases hw2 : 2 ≤ w
    · have hc2 : (w : ℤ) ≤ st.nobs ∧ 1 < st.nobs := ⟨hc, by omega⟩
      have hc3 : 2 ≤ w ∧ w ≤ i + 1 ∧ (winAt w i l).any XF.undef = false := ⟨hw2, h1.1 hc⟩
      simp only [if_pos hc2, if_pos hc3]
      rw [hn]
      by_cases hq : r (st.ss / ((w - 1 : ℤ) : K)) < 0
      · rw [if_pos hq, max_eq_left hq.le]
      · rw [if_neg hq, max_eq_right (not_lt.1 hq)]
    · have hc2 : ¬ ((w : ℤ) ≤ st.nobs ∧ 1 < st.nobs) := by omega
      rw [if_neg hc2, if_neg fun h' => hw2 h'.1]
  · rw [if_neg fun h' => hc h'.1, if_neg fun h' => hc (h1.2 h'.2)]

end Mizar.Rd
