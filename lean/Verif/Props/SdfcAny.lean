import Verif.Spec.SdfcAny
import Verif.Props.Sdfc

/-! Property theorems C69 for series with missing values and for regressions that are singular or exact
(`/repo/mizarlabs/structural_breaks/sdfc.py`). -/

namespace Mizar.Props
open Mizar.Spec Mizar.Brk

private theorem tValue_stat (em : ErrModel) (w : List (RRow 1)) : IsStat em w (tValue em 0 (w.map liftRow)) := by
  by_cases hf : FullRank w
  · have hlen := le_length_of_fullRank w hf
    rcases Nat.lt_or_ge 1 w.length with h1 | h1
    · by_cases hc : ∃ c : Fin 1 → ℝ, ∀ r ∈ w, r.2 = predict c r.1
      · obtain ⟨c, hc⟩ := hc
        refine Or.inr (Or.inr (Or.inr ⟨hf, h1, c, hc, ?_⟩))
        have := C67_t_value_exact_fit w hf h1 c hc 0
        cases em
        · exact this.1
        · exact this.2
      · refine Or.inr (Or.inr (Or.inl ⟨hf, h1, hc, ?_⟩))
        obtain ⟨r, a1, a2, -⟩ := C67_t_value em w hf h1 (by
          intro c
          by_contra hn
          push Not at hn
          exact hc ⟨c, hn⟩) 0
        exact ⟨r, a2, a1⟩
    · refine Or.inr (Or.inl ⟨hf, by omega, ?_⟩)
      obtain ⟨c, V, a1, -, -, -, a2⟩ := C67_least_squares w hf
      unfold tValue
      rw [a1, Py.bind_ok, a2 (by omega)]
      cases em <;> simp [divE, XF.sqrt, XF.div, XF.beq]
  · refine Or.inl ⟨hf, ?_⟩
    unfold tValue
    rw [(C67_rank_deficient w).1 hf]
    rfl

private theorem columns_leading (pre t : List (ℤ × XF ℝ)) (hpre : ∀ p ∈ pre, p.2 = .nan) (ht : t ≠ []) :
    dfColumns (pre ++ t) = dfColumns t := by
  induction pre with
  | nil => rfl
  | cons a pre ih =>
    have ih := ih fun p hp => hpre p (by simp [hp])
    rw [← ih]
    have ha : a.2 = .nan := hpre a (by simp)
    obtain ⟨b, l, hb⟩ : ∃ b l, pre ++ t = b :: l := by
      cases h : pre ++ t with
      | nil => rw [List.append_eq_nil_iff] at h; exact absurd h.2 ht
      | cons b l => exact ⟨b, l, rfl⟩
    rw [List.cons_append, hb]
    unfold dfColumns
    congr 1
    · rw [List.tail_cons, List.zipWith_cons_cons, List.filter_cons, ha]
      simp [XF.sub, XF.isNan]
    · rw [List.dropLast_cons_of_ne_nil (by simp), List.map_cons, List.filter_cons, ha]
      simp [XF.isNan]

private theorem mapE_at {α β : Type*} (f : α → Py β) (e : PyErr) (l : List α) (i : ℕ) (hi : i < l.length) (h : f l[i] = .error e)
    (hb : ∀ j (hj : j < i), ∃ b, f l[j] = .ok b) : mapE f l = .error e := by
  induction l generalizing i with
  | nil => simp at hi
  | cons a l ih =>
    cases i with
    | zero => simp only [List.getElem_cons_zero] at h; simp only [mapE, h]
    | succ i =>
      obtain ⟨b, h0⟩ := hb 0 (by omega)
      simp only [List.getElem_cons_zero] at h0
      have := ih i (by simpa using hi) (by simpa using h) fun j hj => by simpa using hb (j + 1) (by omega)
      simp only [mapE, h0, this]

/-- **C69** (exact, missing values in front) If the first values are missing and the others, `y 0, y 1, …`, are numbers, then the position `b` gets
the statistic of the break at the `b`-th *number*, that is as many bars later as values are missing in front.  `v b` is the outcome of this
regression (`IsStat`): the call raises what the first position that raises does, and otherwise returns one value for each position. -/
theorem C69_leading_missing (em : ErrModel) (m : ℕ) (s pre t : List (ℤ × XF ℝ)) (y : ℕ → ℝ) (hs : s = pre ++ t) (hpre : ∀ p ∈ pre, p.2 = .nan) (ht : t ≠ [])
    (h : Complete t y) :
    ∃ v : ℕ → Py (XF ℝ), (∀ b, IsStat em (breakRows y t.length b) (v b)) ∧
      ((∀ b, m ≤ b → b + m < s.length → ∃ x, v b = .ok x) → ∃ out, sdfcRun em m s = .ok out ∧
        out.length = s.length - 2 * m ∧
        ∀ b (_ : m ≤ b) (hb : b + m < s.length), ∃ x, v b = .ok x ∧ out[b - m]? = some (s[b].1, x)) ∧
      ∀ b e, m ≤ b → b + m < s.length → v b = .error e → (∀ b', m ≤ b' → b' < b → ∃ x, v b' = .ok x) →
        sdfcRun em m s = .error e := by
  have hf : ∀ b, dfcAt em (dfColumns s).1 (dfColumns s).2 b = tValue em 0 ((breakRows y t.length b).map liftRow) := by
    intro b
    rw [hs, columns_leading pre t hpre ht, dfColumns_complete h, dfcAt_complete]
  refine ⟨fun b => tValue em 0 ((breakRows y t.length b).map liftRow), fun b => tValue_stat em _, ?_, ?_⟩
  · intro hok
    have hex : ∀ b, ∃ x, m ≤ b → b + m < s.length → tValue em 0 ((breakRows y t.length b).map liftRow) = .ok x := by
      intro b
      by_cases hb : m ≤ b ∧ b + m < s.length
      · obtain ⟨x, hx⟩ := hok b hb.1 hb.2
        exact ⟨x, fun _ _ => hx⟩
      · exact ⟨.nan, fun h1 h2 => absurd ⟨h1, h2⟩ hb⟩
    choose r hr using hex
    have hmap : mapE (dfcAt em (dfColumns s).1 (dfColumns s).2) ((List.range (s.length - m - m)).map fun i => m + i) =
        .ok (((List.range (s.length - m - m)).map fun i => m + i).map r) := by
      apply mapE_ok_of_forall
      intro b hb
      obtain ⟨i, hi, rfl⟩ := List.mem_map.1 hb
      rw [List.mem_range] at hi
      rw [hf]
      exact hr (m + i) (by omega) (by omega)
    refine ⟨_, by unfold sdfcRun; dsimp only; rw [hmap, Py.bind_ok], by simp; omega, ?_⟩
    intro b hb1 hb2
    refine ⟨r b, hr b hb1 hb2, ?_⟩
    rw [List.getElem?_zip_eq_some]
    simp only [List.map_map, List.getElem?_map, List.getElem?_range (show b - m < s.length - m - m by omega), Option.map_some, Function.comp_apply,
      show m + (b - m) = b by omega, Option.some.injEq, and_true]
    rw [List.getD_eq_getElem?_getD, List.getElem?_map, List.getElem?_eq_getElem (by omega)]; rfl
  · intro b e hb1 hb2 he hbefore
    unfold sdfcRun
    dsimp only
    rw [mapE_at _ e _ (b - m) (by simp; omega) (by
      simp only [List.getElem_map, List.getElem_range, show m + (b - m) = b by omega]
      rw [hf]; exact he) (by
      intro j hj
      simp only [List.getElem_map, List.getElem_range]
      rw [hf]
      exact hbefore (m + j) (by omega) (by omega))]
    rfl

private theorem countP_lt {α : Type*} (p q : α → Bool) (l : List α) (h : ∀ a ∈ l, p a = true → q a = true) (a : α) (ha : a ∈ l)
    (hp : p a = false) (hq : q a = true) : l.countP p < l.countP q := by
  induction l with
  | nil => simp at ha
  | cons b l ih =>
    have hle : l.countP p ≤ l.countP q := List.countP_mono_left fun x hx => h x (by simp [hx])
    rw [List.countP_cons, List.countP_cons]
    rcases List.mem_cons.1 ha with rfl | ha
    · simp [hp, hq]; omega
    · have := ih (fun x hx => h x (by simp [hx])) ha
      have hb := h b (by simp)
      cases hpb : p b
      · simp; omega
      · simp [hb hpb]; omega

/-- **C69** (gap) A value that is missing after one that is not makes every call that has a position raise `ValueError`. -/
theorem C69_gap (em : ErrModel) (m : ℕ) (s : List (ℤ × XF ℝ)) (h : 2 * m < s.length) (p : ℕ) (hp : p + 1 < s.length)
    (hx : s[p].2 ≠ .nan) (hnan : s[p + 1].2 = .nan) : sdfcRun em m s = .error .valueError := by
  have hne : (dfColumns s).2.length ≠ (dfColumns s).1.length := by
    unfold dfColumns
    rw [← List.countP_eq_length_filter, ← List.countP_eq_length_filter]
    have e1 : List.zipWith (fun a b => XF.sub a.2 b.2) s.tail s =
        (List.range (s.length - 1)).map fun i => XF.sub (s.getD (i + 1) (0, .nan)).2 (s.getD i (0, .nan)).2 := by
      apply List.ext_getElem
      · simp
      · intro i h1 h2
        simp only [List.length_map, List.length_range] at h2
        rw [List.getElem_zipWith, List.getElem_map, List.getElem_range, List.getElem_tail, List.getD_eq_getElem _ _ (by omega),
          List.getD_eq_getElem _ _ (by omega)]
    have e2 : s.dropLast.map (·.2) = (List.range (s.length - 1)).map fun i => (s.getD i (0, .nan)).2 := by
      apply List.ext_getElem
      · simp
      · intro i h1 h2
        simp only [List.length_map, List.length_range] at h2
        rw [List.getElem_map, List.getElem_map, List.getElem_range, List.getElem_dropLast, List.getD_eq_getElem _ _ (by omega)]
    rw [e1, e2, List.countP_map, List.countP_map]
    refine Nat.ne_of_gt (countP_lt _ _ _ ?_ p (List.mem_range.2 (by omega)) ?_ ?_)
    · intro i _
      simp only [Function.comp_apply]
      cases (s.getD i (0, .nan)).2 <;> cases (s.getD (i + 1) (0, .nan)).2 <;> simp [XF.sub, XF.isNan]
    · simp only [Function.comp_apply]
      rw [List.getD_eq_getElem _ _ hp, hnan]
      rfl
    · simp only [Function.comp_apply]
      rw [List.getD_eq_getElem _ _ (by omega)]
      revert hx
      cases s[p].2 <;> simp [XF.isNan]
  unfold sdfcRun
  dsimp only
  have hfirst : dfcAt em (dfColumns s).1 (dfColumns s).2 m = .error .valueError := by
    unfold dfcAt
    dsimp only
    rw [if_pos (by simpa using hne)]
  obtain ⟨q, hq⟩ : ∃ q, s.length - m - m = q + 1 := ⟨s.length - m - m - 1, by omega⟩
  rw [hq, List.range_succ_eq_map, List.map_cons]
  simp only [Nat.add_zero, mapE, hfirst]
  rfl

/-- **C69** (no values) A series of missing values raises `LinAlgError` as soon as there is a position. -/
theorem C69_all_missing (em : ErrModel) (m : ℕ) (s : List (ℤ × XF ℝ)) (h : 2 * m < s.length) (hs : ∀ p ∈ s, p.2 = .nan) :
    sdfcRun em m s = .error .linAlgError := by
  have h1 : dfColumns s = ([], []) := by
    unfold dfColumns
    congr 1
    · rw [List.filter_eq_nil_iff]
      intro x hx
      obtain ⟨i, hi, rfl⟩ := List.mem_iff_getElem.1 hx
      rw [List.getElem_zipWith, hs _ (List.mem_of_mem_tail (List.getElem_mem _))]
      simp [XF.sub, XF.isNan]
    · rw [List.filter_eq_nil_iff]
      intro x hx
      obtain ⟨p, hp, rfl⟩ := List.mem_map.1 hx
      rw [hs p (List.mem_of_mem_dropLast hp)]
      simp [XF.isNan]
  have hfirst : dfcAt em (dfColumns s).1 (dfColumns s).2 m = .error .linAlgError := by
    rw [h1]
    unfold dfcAt tValue
    dsimp only
    rw [if_neg (by simp)]
    have := (C67_rank_deficient ([] : List (RRow 1))).2 (by simp)
    simp only [List.map_nil] at this
    simp only [List.zipIdx_nil, List.map_nil, List.zip_nil_left, this]
    rfl
  unfold sdfcRun
  dsimp only
  obtain ⟨q, hq⟩ : ∃ q, s.length - m - m = q + 1 := ⟨s.length - m - m - 1, by omega⟩
  rw [hq, List.range_succ_eq_map, List.map_cons]
  simp only [Nat.add_zero, mapE, hfirst]
  rfl

/-- A missing value followed by 1, 10, 1, 2, 3. -/
def lateStart : List (ℤ × XF ℝ) := [(1, .fin 1), (2, .fin 10), (3, .fin 1), (4, .fin 2), (5, .fin 3)]
noncomputable def lateY (i : ℕ) : ℝ := ([1, 10, 1, 2, 3] : List ℝ).getD i 0

private theorem late_complete : Complete lateStart lateY := by
  intro i hi
  simp only [lateStart, List.length_cons, List.length_nil] at hi
  match i, hi with
  | 0, _ => simp [lateStart, lateY]
  | 1, _ => simp [lateStart, lateY]
  | 2, _ => simp [lateStart, lateY]
  | 3, _ => simp [lateStart, lateY]
  | 4, _ => simp [lateStart, lateY]

private theorem late_sign (b : ℕ) (r : ℝ) (hb : b = 1 ∨ b = 2) (h : IsTValue (breakRows lateY 5 b) 0 r) :
    (b = 1 → r < 0) ∧ (b = 2 → 0 < r) := by
  rw [C69_value lateY 5 b ⟨2, by omega, by omega, by simp [lateY]⟩] at h
  dsimp only at h
  constructor
  · rintro rfl
    rw [h]
    have e : Finset.Ico 1 (5 - 1) = {1, 2, 3} := by decide
    rw [e, Finset.sum_insert (by decide), Finset.sum_insert (by decide), Finset.sum_singleton, Finset.sum_insert (by decide),
      Finset.sum_insert (by decide), Finset.sum_singleton, show Finset.range (5 - 1) = {0, 1, 2, 3} by decide,
      Finset.sum_insert (by decide), Finset.sum_insert (by decide), Finset.sum_insert (by decide), Finset.sum_singleton]
    simp only [lateY, List.getD_cons_zero, List.getD_cons_succ]
    apply div_neg_of_neg_of_pos
    · norm_num
    · apply Real.sqrt_pos.2
      norm_num
  · rintro rfl
    rw [h]
    have e : Finset.Ico 2 (5 - 1) = {2, 3} := by decide
    rw [e, Finset.sum_insert (by decide), Finset.sum_singleton, Finset.sum_insert (by decide),
      Finset.sum_singleton, show Finset.range (5 - 1) = {0, 1, 2, 3} by decide,
      Finset.sum_insert (by decide), Finset.sum_insert (by decide), Finset.sum_insert (by decide), Finset.sum_singleton]
    simp only [lateY, List.getD_cons_zero, List.getD_cons_succ]
    apply div_pos
    · norm_num
    · apply Real.sqrt_pos.2
      norm_num

/-- C69 is false if the first value is missing: the statistic reported at the bar with level 10 is positive, that of the regression whose level
counts from this bar on is negative. -/
theorem C69_leading_missing_refuted (em : ErrModel) : ∃ out r, sdfcRun em 2 ((0, .nan) :: lateStart) = .ok out ∧
    ((0, XF.nan) :: lateStart)[2]? = some (2, .fin 10) ∧ lateStart[1]? = some (2, .fin 10) ∧ out[0]? = some (2, .fin r) ∧ 0 < r ∧
    ∀ r', IsTValue (breakRows lateY 5 1) 0 r' → r' < 0 := by
  obtain ⟨v, h1, h2, -⟩ := C69_leading_missing em 2 ((0, .nan) :: lateStart) [(0, .nan)] lateStart lateY rfl (by simp) (by simp [lateStart]) late_complete
  have hv : ∀ b, 2 ≤ b → b ≤ 3 → ∃ r, IsTValue (breakRows lateY 5 b) 0 r ∧ v b = .ok (.fin r) := by
    intro b hb1 hb2
    have hnf : ¬ ∃ c : Fin 1 → ℝ, ∀ r ∈ breakRows lateY 5 b, r.2 = predict c r.1 := by
      rintro ⟨c, hc⟩
      have := hc (fun _ => if 0 < b then 0 else lateY 0, lateY 1 - lateY 0) (List.mem_map.2 ⟨0, by simp, rfl⟩)
      rw [if_pos (by omega)] at this
      simp [predict, lateY] at this
      norm_num at this
    have hfr : FullRank (breakRows lateY 5 b) := (breakRows_fullRank lateY 5 b).2 ⟨3, by omega, by omega, by simp [lateY]⟩
    rcases h1 b with ⟨hn, _⟩ | ⟨_, hn, _⟩ | ⟨_, _, _, r, hr, ho⟩ | ⟨_, _, c, hc, _⟩
    · exact absurd hfr hn
    · simp [breakRows, lateStart] at hn
    · exact ⟨r, hr, ho⟩
    · exact absurd ⟨c, hc⟩ hnf
  obtain ⟨out, o1, o2, o3⟩ := h2 (by
    intro b hb1 hb2
    obtain ⟨r, -, hr⟩ := hv b hb1 (by simp [lateStart] at hb2; omega)
    exact ⟨_, hr⟩)
  obtain ⟨x, x1, x2⟩ := o3 2 (by omega) (by simp [lateStart])
  obtain ⟨r, r1, r2⟩ := hv 2 (by omega) (by omega)
  rw [r2] at x1
  cases x1
  exact ⟨out, r, o1, rfl, rfl, x2, (late_sign 2 r (Or.inr rfl) r1).2 rfl, fun r' hr' => (late_sign 1 r' (Or.inl rfl) hr').1 rfl⟩

/-- A gap in the middle, and nothing but missing values. -/
example (em : ErrModel) : sdfcRun em 1 [(0, .fin 1), (1, .nan), (2, .fin 2), (3, .fin 3)] = .error .valueError ∧
    sdfcRun em 1 [(0, .nan), (1, .nan), (2, .nan)] = .error .linAlgError :=
  ⟨C69_gap em 1 _ (by simp) 0 (by simp) (by simp) rfl, C69_all_missing em 1 _ (by simp) (by simp)⟩

end Mizar.Props
