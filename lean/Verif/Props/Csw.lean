import Verif.Model.Csw
import Verif.Spec.Csw
import Verif.Props.ZScore

/-!
Property theorem C66: the Chu-Stinchcombe-White test
(`/repo/mizarlabs/structural_breaks/cusum_chu_stinchcome_white.py`).
-/

set_option linter.unusedSectionVars false

namespace Mizar.Props
open Mizar.Spec Mizar.Brk Finset

theorem foldl_add_fin (l : List ℝ) (a : ℝ) : (l.map XF.fin).foldl XF.add (.fin a) = .fin (a + l.sum) := by
  induction l generalizing a with
  | nil => simp
  | cons x l ih => rw [List.map_cons, List.foldl_cons, XF.add_fin, ih, List.sum_cons]; ring_nf

/-- A complete series. -/
def Complete (s : List (ℤ × XF ℝ)) (y : ℕ → ℝ) : Prop := ∀ i < s.length, (s.map (·.2))[i]? = some (.fin (y i))

theorem take_map_of {v : List (XF ℝ)} {y : ℕ → ℝ} (h : ∀ i < v.length, v[i]? = some (.fin (y i))) (t : ℕ) (ht : t ≤ v.length) :
    v.take t = (List.range t).map fun i => .fin (y i) := by
  apply List.ext_getElem?
  intro i
  rw [List.getElem?_take, List.getElem?_map]
  split
  · rename_i hi
    rw [h i (by omega), List.getElem?_range hi]; rfl
  · rename_i hi
    rw [List.getElem?_eq_none (by simp; omega)]; rfl

theorem sigmaSq_fin (y : ℕ → ℝ) (t : ℕ) (ht : 2 ≤ t) :
    sigmaSq ((List.range t).map fun i => .fin (y i)) t = .fin (stepVar y t) := by
  unfold sigmaSq
  have e : (List.zipWith XF.sub ((List.range t).map fun i => (.fin (y i) : XF ℝ)).tail ((List.range t).map fun i => .fin (y i))).map
      (fun x => XF.mul x x) = ((List.range (t - 1)).map fun i => (y (i + 1) - y i) ^ 2).map XF.fin := by
    apply List.ext_getElem?
    intro i
    simp only [List.getElem?_map, List.getElem?_zipWith, List.getElem?_tail]
    by_cases hi : i < t - 1
    · rw [List.getElem?_range hi, List.getElem?_range (show i + 1 < t by omega), List.getElem?_range (show i < t by omega)]
      simp [sq]
    · rw [List.getElem?_eq_none (show (List.range (t - 1)).length ≤ i by simpa using hi),
        List.getElem?_eq_none (show (List.range t).length ≤ i + 1 by simp; omega)]
      simp
  have ht1 : (t : ℝ) - 1 ≠ 0 := by
    have : (2 : ℝ) ≤ t := by exact_mod_cast ht
    linarith
  unfold XF.sum
  rw [e, foldl_add_fin, XF.div_fin _ _ ht1, zero_add]
  unfold stepVar
  rw [sum_map_range]

theorem yDiff_fin {side : String} {g : ℝ → ℝ → ℝ} (hs : SideFn side g) (a b : ℝ) : yDiff side (.fin a) (.fin b) = .fin (g a b) := by
  unfold yDiff
  rcases hs with ⟨rfl, rfl⟩ | ⟨rfl, rfl⟩ | ⟨rfl, rfl⟩ <;> simp

/-- The critical value that belongs to `n`. -/
noncomputable def critical (t n : ℕ) : ℝ := Real.sqrt (4.6 + Real.log ((t : ℝ) - n))

/-- State of the inner loop after `n = 1, …, j`. -/
def LoopState (S : ℕ → ℝ) (t j : ℕ) (st : XF ℝ × XF ℝ) : Prop :=
  (j = 0 ∧ st = (.ninf, .nan)) ∨ ∃ n, IsFirstMax S j n ∧ st = (.fin (S n), .fin (critical t n))

theorem inner_spec (em : ErrModel) {side : String} {g : ℝ → ℝ → ℝ} (hs : SideFn side g) (y : ℕ → ℝ) (t : ℕ) (hv : 0 < stepVar y t) (m : ℕ)
    (j : ℕ) (hm : j + m < t) (st : XF ℝ × XF ℝ) (hst : LoopState (departure g y t) t j st) :
    ∃ st', inner em side (.fin (stepVar y t)) t (.fin (y (t - 1))) j ((List.range m).map fun i => .fin (y (j + i))) st = .ok st' ∧
      LoopState (departure g y t) t (j + m) st' := by
  induction m generalizing j st with
  | zero => exact ⟨st, rfl, hst⟩
  | succ m ih =>
    have hl : ((List.range (m + 1)).map fun i => (.fin (y (j + i)) : XF ℝ)) =
        .fin (y j) :: (List.range m).map fun i => .fin (y (j + 1 + i)) := by
      rw [List.range_succ_eq_map, List.map_cons, List.map_map]
      simp only [Nat.add_zero, List.cons.injEq, true_and]
      apply List.map_congr_left
      intro i _
      simp only [Function.comp_apply, Nat.succ_eq_add_one]
      congr 2
      omega
    have hpos : (0 : ℝ) < (t : ℝ) - ((j + 1 : ℕ) : ℝ) := by
      have : ((j + 1 : ℕ) : ℝ) < t := by exact_mod_cast (by omega)
      linarith
    have hone : (1 : ℝ) ≤ (t : ℝ) - ((j + 1 : ℕ) : ℝ) := by
      have : ((j + 1 : ℕ) : ℝ) + 1 ≤ t := by exact_mod_cast (by omega)
      linarith
    have hden : 0 < Real.sqrt (stepVar y t * ((t : ℝ) - ((j + 1 : ℕ) : ℝ))) := Real.sqrt_pos.2 (mul_pos hv hpos)
    have hdiv : divE em (yDiff side (.fin (y (t - 1))) (.fin (y j))) (XF.sqrt (XF.mul (.fin (stepVar y t)) (.fin ((t : ℝ) - ((j + 1 : ℕ) : ℝ))))) =
        .ok (.fin (departure g y t (j + 1))) := by
      rw [yDiff_fin hs, XF.mul_fin, XF.sqrt_fin (mul_pos hv hpos).le]
      unfold divE
      rw [if_neg (by rw [XF.beq_fin, decide_eq_true_eq]; exact fun h => hden.ne' h.2), XF.div_fin _ _ hden.ne']
      rfl
    have hcrit : XF.sqrt (XF.add (.fin 4.6) (XF.log (.fin ((t : ℝ) - ((j + 1 : ℕ) : ℝ))))) = .fin (critical t (j + 1)) := by
      rw [XF.log_fin hpos, XF.add_fin, XF.sqrt_fin]
      · rfl
      · have := Real.log_nonneg hone
        have h46 : (0 : ℝ) ≤ 4.6 := by norm_num
        linarith
    rw [hl]
    unfold inner
    dsimp only
    rw [hdiv, Py.bind_ok, hcrit, show j + (m + 1) = j + 1 + m by omega]
    apply ih (j + 1) (by omega)
    set S := departure g y t
    rcases hst with ⟨h0, rfl⟩ | ⟨n, ⟨h1, h2, h3, h4⟩, rfl⟩
    · right
      refine ⟨1, ⟨le_refl _, by omega, fun m h1 h2 => by omega, fun m h1 h2 => ?_⟩, ?_⟩
      · rw [show m = 1 by omega]
      · subst h0
        rw [if_pos (by rfl)]
    · right
      by_cases hlt : S n < S (j + 1)
      · refine ⟨j + 1, ⟨by omega, le_refl _, fun m hm1 hm2 => lt_of_le_of_lt (h4 m hm1 (by omega)) hlt, fun m hm1 hm2 => ?_⟩, ?_⟩
        · rcases Nat.lt_or_eq_of_le hm2 with h | h
          · exact (lt_of_le_of_lt (h4 m hm1 (by omega)) hlt).le
          · rw [h]
        · rw [if_pos (by simpa using hlt)]
      · refine ⟨n, ⟨h1, by omega, h3, fun m hm1 hm2 => ?_⟩, ?_⟩
        · rcases Nat.lt_or_eq_of_le hm2 with h | h
          · exact h4 m hm1 (by omega)
          · rw [h]; exact not_lt.1 hlt
        · rw [if_neg (by simpa using hlt)]

theorem stepVar_nonneg (y : ℕ → ℝ) (t : ℕ) (ht : 2 ≤ t) : 0 ≤ stepVar y t := by
  unfold stepVar
  apply div_nonneg (Finset.sum_nonneg fun i _ => sq_nonneg _)
  have : (2 : ℝ) ≤ t := by exact_mod_cast ht
  linarith

theorem stepVar_zero_iff (y : ℕ → ℝ) (t : ℕ) (ht : 2 ≤ t) : stepVar y t = 0 ↔ ∀ i, i + 1 < t → y (i + 1) = y i := by
  unfold stepVar
  have : (t : ℝ) - 1 ≠ 0 := by
    have : (2 : ℝ) ≤ t := by exact_mod_cast ht
    linarith
  rw [div_eq_zero_iff, Finset.sum_eq_zero_iff_of_nonneg (fun i _ => sq_nonneg _)]
  simp only [this, or_false, mem_range, sq_eq_zero_iff, sub_eq_zero]
  constructor
  · intro h i hi; exact h i (by omega)
  · intro h i hi; exact h i (by omega)

theorem const_of_stepVar (y : ℕ → ℝ) (t : ℕ) (h : ∀ i, i + 1 < t → y (i + 1) = y i) : ∀ i < t, y i = y 0 := by
  intro i
  induction i with
  | zero => intro _; rfl
  | succ i ih => intro hi; rw [h i hi, ih (by omega)]

theorem inner_zero {side : String} {g : ℝ → ℝ → ℝ} (hs : SideFn side g) (c : ℝ) (t : ℕ) (l : List (XF ℝ)) (hl : ∀ x ∈ l, x = .fin c)
    (j : ℕ) : inner .numpy side (.fin 0) t (.fin c) j l (.ninf, .nan) = .ok (.ninf, .nan) := by
  induction l generalizing j with
  | nil => rfl
  | cons x l ih =>
    rw [hl x (by simp)]
    unfold inner
    dsimp only
    have g0 : g c c = 0 := by rcases hs with ⟨-, rfl⟩ | ⟨-, rfl⟩ | ⟨-, rfl⟩ <;> simp
    have : divE .numpy (yDiff side (.fin c) (.fin c)) (XF.sqrt (XF.mul (.fin 0) (.fin ((t : ℝ) - ((j + 1 : ℕ) : ℝ))))) = .ok .nan := by
      rw [yDiff_fin hs, g0, XF.mul_fin, zero_mul, XF.sqrt_fin (le_refl _), Real.sqrt_zero]
      unfold divE
      simp [XF.div, XF.infSign]
    rw [this, Py.bind_ok]
    simp only [XF.lt_nan_right, Bool.false_eq_true, if_false]
    exact ih (fun y hy => hl y (by simp [hy])) (j + 1)

theorem statAt_eq (em : ErrModel) (side : String) {v : List (XF ℝ)} {y : ℕ → ℝ} (h : ∀ i < v.length, v[i]? = some (.fin (y i))) (t : ℕ)
    (h2 : 2 ≤ t) (ht : t ≤ v.length) : statAt em side v t =
      inner em side (.fin (stepVar y t)) t (.fin (y (t - 1))) 0 ((List.range (t - 1)).map fun i => .fin (y i)) (.ninf, .nan) := by
  unfold statAt
  rw [take_map_of h t ht, take_map_of h (t - 1) (by omega), sigmaSq_fin y t h2, List.getD_eq_getElem?_getD, List.getElem?_map,
    List.getElem?_range (by omega)]
  rfl

/-- The row of the result for `t`. -/
def RowAt (g : ℝ → ℝ → ℝ) (y : ℕ → ℝ) (t : ℕ) (r : XF ℝ × XF ℝ) : Prop :=
  (0 < stepVar y t → ∃ n, IsFirstMax (departure g y t) (t - 1) n ∧ r = (.fin (departure g y t n), .fin (Real.sqrt (4.6 + Real.log ((t : ℝ) - n))))) ∧
  (stepVar y t = 0 → r = (.ninf, .nan))

theorem statAt_spec (em : ErrModel) {side : String} {g : ℝ → ℝ → ℝ} (hs : SideFn side g) {v : List (XF ℝ)} {y : ℕ → ℝ}
    (h : ∀ i < v.length, v[i]? = some (.fin (y i))) (t : ℕ) (h2 : 2 ≤ t) (ht : t ≤ v.length) (hok : em = .numpy ∨ 0 < stepVar y t) :
    ∃ r, statAt em side v t = .ok r ∧ RowAt g y t r := by
  rw [statAt_eq em side h t h2 ht]
  by_cases hv : 0 < stepVar y t
  · obtain ⟨st, h1, h3⟩ := inner_spec em hs y t hv (t - 1) 0 (by omega) (.ninf, .nan) (Or.inl ⟨rfl, rfl⟩)
    simp only [Nat.zero_add] at h1 h3
    refine ⟨st, h1, fun _ => ?_, fun h0 => absurd h0 hv.ne'⟩
    rcases h3 with ⟨h3, -⟩ | ⟨n, h3, h4⟩
    · omega
    · exact ⟨n, h3, h4⟩
  · have h0 : stepVar y t = 0 := le_antisymm (not_lt.1 hv) (stepVar_nonneg y t h2)
    rcases hok with rfl | hok
    · refine ⟨(.ninf, .nan), ?_, fun h => absurd h hv, fun _ => rfl⟩
      have hc := const_of_stepVar y t ((stepVar_zero_iff y t h2).1 h0)
      rw [h0, hc (t - 1) (by omega)]
      apply inner_zero hs
      intro x hx
      obtain ⟨i, hi, rfl⟩ := List.mem_map.1 hx
      rw [List.mem_range] at hi
      rw [hc i (by omega)]
    · exact absurd hok hv

theorem mapE_getElem?_ok {α β : Type} {f : α → Py β} {l : List α} {r : List β} (h : mapE f l = .ok r) (i : ℕ) (a : α) (ha : l[i]? = some a) :
    ∃ b, r[i]? = some b ∧ f a = .ok b := by
  rw [mapE_eq_ok_iff] at h
  induction h generalizing i with
  | nil => simp at ha
  | cons h1 h2 ih =>
    cases i with
    | zero => simp only [List.getElem?_cons_zero, Option.some.injEq] at ha ⊢; subst ha; exact ⟨_, rfl, h1⟩
    | succ i => simp only [List.getElem?_cons_succ] at ha ⊢; exact ih i ha

theorem mapE_ok_of_exists {α β : Type} (f : α → Py β) (l : List α) (h : ∀ a ∈ l, ∃ b, f a = .ok b) : ∃ r, mapE f l = .ok r := by
  induction l with
  | nil => exact ⟨[], rfl⟩
  | cons a l ih =>
    obtain ⟨b, hb⟩ := h a (by simp)
    obtain ⟨r, hr⟩ := ih fun x hx => h x (by simp [hx])
    exact ⟨b :: r, by simp only [mapE, hb, hr]⟩

/-- C66 (supremum): for every complete series whose first two values differ (or any, with NumPy's division) the result
has one row for every `t` from the second value on; the statistic is the greatest standardised departure over all
earlier `n` and the critical value belongs to the first `n` where it is reached.  While the series is constant the
statistic is minus infinity. -/
theorem C66_supremum (em : ErrModel) (side : String) (g : ℝ → ℝ → ℝ) (hs : SideFn side g) (s : List (ℤ × XF ℝ)) (y : ℕ → ℝ)
    (h : Complete s y) (hok : em = .numpy ∨ y 1 ≠ y 0) :
    ∃ out, cswRun em side s = .ok out ∧ out.length = s.length - 1 ∧ ∀ t, 2 ≤ t → t ≤ s.length →
      ∃ r, out[t - 2]? = some r ∧ some r.1 = (s.map (·.1))[t - 1]? ∧ RowAt g y t r.2 := by
  have hlen : (s.map (·.2)).length = s.length := by simp
  have h' : ∀ i < (s.map (·.2)).length, (s.map (·.2))[i]? = some (.fin (y i)) := fun i hi => h i (by omega)
  have hpos : ∀ t, 2 ≤ t → em = .numpy ∨ 0 < stepVar y t := by
    intro t ht
    rcases hok with h0 | h0
    · exact Or.inl h0
    · right
      rcases (stepVar_nonneg y t ht).lt_or_eq with hlt | heq
      · exact hlt
      · exact absurd ((stepVar_zero_iff y t ht).1 heq.symm 0 (by omega)) h0
  obtain ⟨v, hv⟩ := mapE_ok_of_exists (statAt em side (s.map (·.2))) ((List.range (s.length - 1)).map fun i => i + 2) (by
    intro t ht
    obtain ⟨i, hi, rfl⟩ := List.mem_map.1 ht
    rw [List.mem_range] at hi
    obtain ⟨r, h1, -⟩ := statAt_spec em hs h' (i + 2) (by omega) (by omega) (hpos (i + 2) (by omega))
    exact ⟨r, h1⟩)
  have hvl := mapE_length hv
  simp only [List.length_map, List.length_range] at hvl
  refine ⟨_, by unfold cswRun; rw [hv, Py.bind_ok], by simp [hvl], ?_⟩
  intro t ht1 ht2
  obtain ⟨r, h1, h2⟩ := mapE_getElem?_ok hv (t - 2) t (by
    rw [List.getElem?_map, List.getElem?_range (by omega)]; simp; omega)
  obtain ⟨r', h3, h4⟩ := statAt_spec em hs h' t ht1 (by omega) (hpos t ht1)
  rw [h2] at h3
  simp only [Except.ok.injEq] at h3
  subst h3
  have hidx : (s.map (·.1)).tail[t - 2]? = some ((s.map (·.1))[t - 1]'(by simp; omega)) := by
    rw [List.getElem?_tail, show t - 2 + 1 = t - 1 by omega, List.getElem?_eq_getElem]
  refine ⟨((s.map (·.1))[t - 1]'(by simp; omega), r), ?_, ?_, h4⟩
  · rw [List.getElem?_zip_eq_some]
    exact ⟨hidx, h1⟩
  · rw [List.getElem?_eq_getElem]

/-- C66 (error): with numba's default error model a series that starts with two equal values raises
`ZeroDivisionError`. -/
theorem C66_constant_start (side : String) (g : ℝ → ℝ → ℝ) (hs : SideFn side g) (s : List (ℤ × XF ℝ)) (y : ℕ → ℝ)
    (h : Complete s y) (hlen : 2 ≤ s.length) (h0 : y 1 = y 0) : cswRun .python side s = .error .zeroDivisionError := by
  unfold cswRun
  have h' : ∀ i < (s.map (·.2)).length, (s.map (·.2))[i]? = some (.fin (y i)) := fun i hi => h i (by simpa using hi)
  have e : statAt .python side (s.map (·.2)) 2 = .error .zeroDivisionError := by
    rw [statAt_eq .python side h' 2 (le_refl _) (by simpa using hlen)]
    have : stepVar y 2 = 0 := (stepVar_zero_iff y 2 (le_refl _)).2 (by
      intro i hi
      rw [show i = 0 by omega]; exact h0)
    rw [this]
    simp only [Nat.add_one_sub_one, List.range_one, List.map_cons, List.map_nil]
    unfold inner
    dsimp only
    have hd : divE .python (yDiff side (.fin (y 1)) (.fin (y 0))) (XF.sqrt (XF.mul (.fin 0) (.fin (((2 : ℕ) : ℝ) - ((0 + 1 : ℕ) : ℝ))))) =
        .error .zeroDivisionError := by
      rw [XF.mul_fin, zero_mul, XF.sqrt_fin (le_refl _), Real.sqrt_zero]
      unfold divE
      rw [if_pos (by simp)]
    rw [hd]; rfl
  obtain ⟨n, hn⟩ : ∃ n, s.length - 1 = n + 1 := ⟨s.length - 2, by omega⟩
  rw [hn, List.range_succ_eq_map, List.map_cons]
  simp only [Nat.zero_add, mapE, e]
  rfl

/-- C66 (two-sided): the two-sided statistic is the greater of the two one-sided ones. -/
theorem C66_two_sided (em : ErrModel) (s : List (ℤ × XF ℝ)) (y : ℕ → ℝ) (h : Complete s y) (hok : em = .numpy ∨ y 1 ≠ y 0) :
    ∃ pos neg two, cswRun em "one_sided_positive" s = .ok pos ∧ cswRun em "one_sided_negative" s = .ok neg ∧
      cswRun em "two_sided" s = .ok two ∧ ∀ t, 2 ≤ t → t ≤ s.length → 0 < stepVar y t →
      ∃ a b, ((pos[t - 2]?.map fun r => r.2.1) = some (.fin a)) ∧ ((neg[t - 2]?.map fun r => r.2.1) = some (.fin b)) ∧
        ((two[t - 2]?.map fun r => r.2.1) = some (.fin (max a b))) := by
  obtain ⟨pos, p1, -, p3⟩ := C66_supremum em "one_sided_positive" _ (Or.inl ⟨rfl, rfl⟩) s y h hok
  obtain ⟨neg, n1, -, n3⟩ := C66_supremum em "one_sided_negative" _ (Or.inr (Or.inl ⟨rfl, rfl⟩)) s y h hok
  obtain ⟨two, t1, -, t3⟩ := C66_supremum em "two_sided" _ (Or.inr (Or.inr ⟨rfl, rfl⟩)) s y h hok
  refine ⟨pos, neg, two, p1, n1, t1, ?_⟩
  intro t ht1 ht2 hv
  obtain ⟨r1, e1, -, hr1⟩ := p3 t ht1 ht2
  obtain ⟨r2, e2, -, hr2⟩ := n3 t ht1 ht2
  obtain ⟨r3, e3, -, hr3⟩ := t3 t ht1 ht2
  obtain ⟨k1, m1, q1⟩ := hr1.1 hv
  obtain ⟨k2, m2, q2⟩ := hr2.1 hv
  obtain ⟨k3, m3, q3⟩ := hr3.1 hv
  refine ⟨_, _, by rw [e1, Option.map_some, q1], by rw [e2, Option.map_some, q2], ?_⟩
  rw [e3, Option.map_some, q3]
  dsimp only
  congr 2
  show departure _ y t k3 = max (departure _ y t k1) (departure _ y t k2)
  have habs : ∀ n, departure (fun a b => |a - b|) y t n = max (departure (fun a b => a - b) y t n) (departure (fun a b => b - a) y t n) := by
    intro n
    unfold departure
    dsimp only
    rw [max_div_div_right (Real.sqrt_nonneg _), abs_eq_max_neg, neg_sub]
  apply le_antisymm
  · rw [habs k3]
    exact max_le_max (m1.2.2.2 k3 m3.1 m3.2.1) (m2.2.2.2 k3 m3.1 m3.2.1)
  · apply max_le
    · refine le_trans ?_ (m3.2.2.2 k1 m1.1 m1.2.1)
      rw [habs]; exact le_max_left _ _
    · refine le_trans ?_ (m3.2.2.2 k2 m2.1 m2.2.1)
      rw [habs]; exact le_max_right _ _

/-- C66 (causality): on the first values of any series, complete or not, the test gives the first rows. -/
theorem C66_causal (em : ErrModel) (side : String) (s : List (ℤ × XF ℝ)) (out : List (ℤ × XF ℝ × XF ℝ))
    (h : cswRun em side s = .ok out) (k : ℕ) : cswRun em side (s.take k) = .ok (out.take (k - 1)) := by
  unfold cswRun at h ⊢
  rw [Py.bind_eq_ok] at h
  obtain ⟨v, hv, h⟩ := h
  simp only [Except.ok.injEq] at h
  subst h
  have hcong : mapE (statAt em side ((s.take k).map (·.2))) ((List.range ((s.take k).length - 1)).map fun i => i + 2) =
      mapE (statAt em side (s.map (·.2))) ((List.range ((s.take k).length - 1)).map fun i => i + 2) := by
    apply mapE_congr
    intro t ht
    obtain ⟨i, hi, rfl⟩ := List.mem_map.1 ht
    rw [List.mem_range, List.length_take] at hi
    unfold statAt
    rw [List.map_take, List.take_take, List.take_take, Nat.min_eq_left (by omega), Nat.min_eq_left (by omega)]
  have hpre : (List.range ((s.take k).length - 1)).map (fun i => i + 2) = ((List.range (s.length - 1)).map fun i => i + 2).take (k - 1) := by
    rw [← List.map_take, List.take_range, List.length_take]
    congr 2
    omega
  have htake : mapE (statAt em side (s.map (·.2))) (((List.range (s.length - 1)).map fun i => i + 2).take (k - 1)) = .ok (v.take (k - 1)) := by
    rw [mapE_eq_ok_iff] at hv ⊢
    exact List.forall₂_take _ hv
  rw [hcong, hpre, htake, Py.bind_ok]
  congr 1
  rw [List.map_take, show (List.take k (s.map (·.1))).tail = (s.map (·.1)).tail.take (k - 1) by
    rw [← List.drop_one, ← List.drop_one, List.drop_take], List.zip_eq_zipWith, List.zip_eq_zipWith, List.take_zipWith]

theorem sum_scale {c : ℝ} (hc : 0 < c) (l : List (XF ℝ)) : XF.sum (l.map (XF.mul (.fin c))) = XF.mul (.fin c) (XF.sum l) := by
  unfold XF.sum
  have : ∀ a, (l.map (XF.mul (.fin c))).foldl XF.add (XF.mul (.fin c) a) = XF.mul (.fin c) (l.foldl XF.add a) := by
    induction l with
    | nil => intro a; rfl
    | cons x l ih =>
      intro a
      rw [List.map_cons, List.foldl_cons, List.foldl_cons, ← ih]
      congr 1
      cases a <;> cases x <;> simp [XF.mul, XF.add, infSign_pos hc, XF.neg]
      ring
  have h0 := this (.fin 0)
  rw [XF.mul_fin, mul_zero] at h0
  exact h0

/-- The opposite test. -/
def mirrored (side : String) : String :=
  if side = "one_sided_positive" then "one_sided_negative" else if side = "one_sided_negative" then "one_sided_positive" else side

theorem yDiff_affine (side : String) (a b : ℝ) (ha : a ≠ 0) (x z : XF ℝ) :
    yDiff (if 0 < a then side else mirrored side) (affine a b x) (affine a b z) = XF.mul (.fin |a|) (yDiff side x z) := by
  have hab : 0 < |a| := abs_pos.2 ha
  have key : ∀ x z : XF ℝ, a < 0 → XF.mul (.fin a) (XF.sub x z) = XF.mul (.fin |a|) (XF.sub z x) := by
    intro x z hn
    have : |a| = -a := abs_of_neg hn
    have hp : 0 < -a := by linarith
    rw [this]
    cases x <;> cases z <;> simp [XF.sub, XF.add, XF.neg, XF.mul, infSign_neg' hn, infSign_pos hp]
    ring
  have habs : ∀ w : XF ℝ, XF.abs (XF.mul (.fin a) w) = XF.mul (.fin |a|) (XF.abs w) := by
    intro w
    rcases lt_or_gt_of_ne ha with h | h
    · cases w <;> simp [XF.mul, XF.abs, infSign_neg' h, infSign_pos hab, abs_mul, XF.neg]
    · rw [abs_of_pos h]; exact abs_scale h w
  rcases lt_or_gt_of_ne ha with h | h
  · rw [if_neg (by linarith)]
    unfold yDiff mirrored
    by_cases h1 : side = "one_sided_positive"
    · subst h1
      simp only [if_true, sub_affine ha]
      rw [if_neg (by decide)]
      exact key _ _ h
    · rw [if_neg h1, if_neg h1]
      by_cases h2 : side = "one_sided_negative"
      · subst h2
        simp only [if_true, sub_affine ha]
        exact key _ _ h
      · rw [if_neg h2, if_neg h2, if_neg h1, if_neg h2, sub_affine ha, habs]
  · rw [if_pos h]
    unfold yDiff
    rw [sub_affine ha, sub_affine ha, habs, abs_of_pos h]
    split
    · rfl
    · split <;> rfl

theorem inner_affine (em : ErrModel) (side : String) (a b : ℝ) (ha : a ≠ 0) (sigma : XF ℝ) (t : ℕ) (yt : XF ℝ) (l : List (XF ℝ)) (j : ℕ) (st : XF ℝ × XF ℝ) :
    inner em (if 0 < a then side else mirrored side) (XF.mul (.fin (a ^ 2)) sigma) t (affine a b yt) j (l.map (affine a b)) st =
      inner em side sigma t yt j l st := by
  have hab : 0 < |a| := abs_pos.2 ha
  have ha2 : 0 < a ^ 2 := by positivity
  induction l generalizing j st with
  | nil => rfl
  | cons x l ih =>
    rw [List.map_cons]
    unfold inner
    dsimp only
    rw [yDiff_affine side a b ha]
    have hm : XF.mul (XF.mul (.fin (a ^ 2)) sigma) (.fin ((t : ℝ) - ((j + 1 : ℕ) : ℝ))) =
        XF.mul (.fin (a ^ 2)) (XF.mul sigma (.fin ((t : ℝ) - ((j + 1 : ℕ) : ℝ)))) := by
      cases sigma with
      | nan => rfl
      | fin x => simp [mul_assoc]
      | pinf => simp [XF.mul, infSign_pos ha2]; exact (mul_infSign ha2 _).symm
      | ninf =>
        generalize (t : ℝ) - ((j + 1 : ℕ) : ℝ) = d
        rcases lt_trichotomy d 0 with h | h | h
        · simp [XF.mul, infSign_pos ha2, infSign_neg' h, XF.neg]
        · subst h
          have e0 : XF.infSign (0 : ℝ) = .nan := by simp [XF.infSign]
          simp [XF.mul, infSign_pos ha2, XF.neg, e0]
        · simp [XF.mul, infSign_pos ha2, infSign_pos h, XF.neg]
    have hd : ∀ u w : XF ℝ, divE em (XF.mul (.fin |a|) u) (XF.mul (.fin |a|) w) = divE em u w := by
      intro u w
      unfold divE
      rw [div_scale hab]
      have : XF.beq (XF.mul (.fin |a|) w) (.fin 0) = XF.beq w (.fin 0) := by
        cases w <;> simp [XF.mul, infSign_pos hab, XF.neg, XF.beq, ha]
      rw [this]
    rw [hm, sqrt_scale ha2, Real.sqrt_sq_eq_abs, hd]
    cases divE em (yDiff side yt x) (XF.sqrt (XF.mul sigma (.fin ((t : ℝ) - ((j + 1 : ℕ) : ℝ))))) with
    | error e => rfl
    | ok q => rw [Py.bind_ok, Py.bind_ok]; exact ih _ _

theorem statAt_affine (em : ErrModel) (side : String) (a b : ℝ) (ha : a ≠ 0) (v : List (XF ℝ)) (t : ℕ) :
    statAt em (if 0 < a then side else mirrored side) (v.map (affine a b)) t = statAt em side v t := by
  have ha2 : 0 < a ^ 2 := by positivity
  have hs : sigmaSq ((v.take t).map (affine a b)) t = XF.mul (.fin (a ^ 2)) (sigmaSq (v.take t) t) := by
    unfold sigmaSq
    rw [← List.map_tail, List.zipWith_map, List.map_zipWith]
    have : (List.zipWith (fun x z => (fun x => XF.mul x x) (XF.sub (affine a b x) (affine a b z))) (v.take t).tail (v.take t)) =
        ((List.zipWith XF.sub (v.take t).tail (v.take t)).map fun x => XF.mul x x).map (XF.mul (.fin (a ^ 2))) := by
      rw [List.map_map, List.map_zipWith]
      congr 1
      funext x z
      simp only [Function.comp_apply]
      rw [sub_affine ha]
      generalize XF.sub x z = w
      rcases lt_or_gt_of_ne ha with h | h
      · cases w <;> simp [XF.mul, infSign_neg' h, infSign_pos ha2, XF.neg]
        ring
      · cases w <;> simp [XF.mul, infSign_pos h, infSign_pos ha2, XF.neg]
        ring
    rw [this, sum_scale ha2, div_scale_left ha2]
  unfold statAt
  rw [← List.map_take, ← List.map_take, hs]
  have hd : ((v.take t).map (affine a b)).getD (t - 1) .nan = affine a b ((v.take t).getD (t - 1) .nan) := by
    rw [List.getD_eq_getElem?_getD, List.getD_eq_getElem?_getD, List.getElem?_map]
    cases (v.take t)[t - 1]? <;> simp [affine]
  rw [hd, inner_affine em side a b ha]

/-- C66 (invariance): multiplying any series by a positive number and adding another changes nothing; multiplying by a
negative number exchanges the one-sided tests. -/
theorem C66_affine (em : ErrModel) (side : String) (a b : ℝ) (ha : a ≠ 0) (s : List (ℤ × XF ℝ)) :
    cswRun em (if 0 < a then side else mirrored side) (s.map fun r => (r.1, affine a b r.2)) = cswRun em side s := by
  unfold cswRun
  rw [List.map_map, List.map_map, List.length_map]
  have e1 : s.map ((fun r : ℤ × XF ℝ => r.2) ∘ fun r => (r.1, affine a b r.2)) = (s.map (·.2)).map (affine a b) := by rw [List.map_map]; rfl
  have e2 : s.map ((fun r : ℤ × XF ℝ => r.1) ∘ fun r => (r.1, affine a b r.2)) = s.map (·.1) := rfl
  rw [e1, e2]
  have : statAt em (if 0 < a then side else mirrored side) ((s.map (·.2)).map (affine a b)) = statAt em side (s.map (·.2)) :=
    funext fun t => statAt_affine em side a b ha _ t
  rw [this]

/-- C66 (constructor): exactly the three documented names are accepted. -/
theorem C66_sides (side : String) :
    ((∃ g, SideFn side g) → checkSide side = .ok ()) ∧ ((∀ g, ¬ SideFn side g) → checkSide side = .error .assertionError) := by
  unfold checkSide SideFn
  constructor
  · rintro ⟨g, ⟨rfl, -⟩ | ⟨rfl, -⟩ | ⟨rfl, -⟩⟩ <;> rfl
  · intro h
    rw [if_neg]
    intro hm
    simp only [List.mem_cons, List.not_mem_nil, or_false] at hm
    rcases hm with rfl | rfl | rfl
    · exact h _ (Or.inr (Or.inl ⟨rfl, rfl⟩))
    · exact h _ (Or.inl ⟨rfl, rfl⟩)
    · exact h _ (Or.inr (Or.inr ⟨rfl, rfl⟩))

section Examples

/-- Values 0, 1, 3 at times 10, 20, 30. -/
private def series : List (ℤ × XF ℝ) := [(10, .fin 0), (20, .fin 1), (30, .fin 3)]
private noncomputable def seriesY (i : ℕ) : ℝ := if i = 0 then 0 else if i = 1 then 1 else 3

private theorem series_complete : Complete series seriesY := by
  intro i hi
  simp only [series, List.length_cons, List.length_nil] at hi
  match i, hi with
  | 0, _ => simp [series, seriesY]
  | 1, _ => simp [series, seriesY]
  | 2, _ => simp [series, seriesY]

/-- The greatest upward departure at the third value is the one from the first. -/
example : ∃ out, cswRun .python "one_sided_positive" series = .ok out ∧
    out[1]? = some (30, .fin (3 / Real.sqrt 5), .fin (Real.sqrt (4.6 + Real.log 2))) := by
  obtain ⟨out, h1, -, h3⟩ := C66_supremum .python "one_sided_positive" _ (Or.inl ⟨rfl, rfl⟩) series seriesY series_complete
    (Or.inr (by simp [seriesY]))
  refine ⟨out, h1, ?_⟩
  obtain ⟨r, e1, e2, e3⟩ := h3 3 (by omega) (by simp [series])
  have hv : stepVar seriesY 3 = 5 / 2 := by
    unfold stepVar
    simp [Finset.sum_range_succ, seriesY]
    norm_num
  obtain ⟨n, ⟨n1, n2, n3, n4⟩, e4⟩ := e3.1 (by rw [hv]; norm_num)
  have d1 : departure (fun a b => a - b) seriesY 3 1 = 3 / Real.sqrt 5 := by
    unfold departure
    rw [hv]
    simp [seriesY]
    norm_num
  have d2 : departure (fun a b => a - b) seriesY 3 2 = 2 / Real.sqrt (5 / 2) := by
    unfold departure
    rw [hv]
    simp [seriesY]
    norm_num
  have hlt : 2 / Real.sqrt (5 / 2) < 3 / Real.sqrt 5 := by
    rw [div_lt_div_iff₀ (by positivity) (by positivity)]
    rw [show (5 : ℝ) = 2 * (5 / 2) by norm_num, Real.sqrt_mul (by norm_num), show (2 * (5 / 2) / 2 : ℝ) = 5 / 2 by norm_num]
    have : Real.sqrt 2 < 3 / 2 := by
      rw [Real.sqrt_lt' (by norm_num)]; norm_num
    have h5 : 0 < Real.sqrt (5 / 2) := by positivity
    nlinarith
  have hn : n = 1 := by
    have : n = 1 ∨ n = 2 := by omega
    rcases this with h | h
    · exact h
    · have := n4 1 (le_refl _) (by omega)
      rw [h, d1, d2] at this
      linarith
  subst hn
  rw [e1]
  rw [show r = (r.1, r.2) from rfl, e4, d1]
  simp only [Option.some.injEq, Prod.mk.injEq, XF.fin.injEq, true_and]
  refine ⟨?_, ?_⟩
  · simpa [series] using e2
  · norm_num

end Examples

end Mizar.Props
