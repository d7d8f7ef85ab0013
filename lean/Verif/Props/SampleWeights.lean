import Mathlib.Data.List.Sort
import Verif.Lemmas.SampleWeights

/-!
Property theorems C42, C43: sample weights (`/repo/mizarlabs/transformers/sample_weights/__init__.py`).
-/

set_option linter.unusedSectionVars false

namespace Mizar.Props
open Mizar.Spec Mizar.Boot Mizar.SW

/-- C42 (partial: times are whole milliseconds): for events that do not all coincide, with ends not before starts
and positive or missing prices, the weight of each event is the absolute value of the sum over the bars in its
closed life span of log-return over number of live events (missing returns count 0); it is not negative and at
most the sum of the absolute log-returns over these bars. -/
theorem C42_weights_by_return_partial (ev : List (ℤ × ℤ)) (close : List (Option ℝ)) (hlen : close.length = ev.length)
    (hpos : ∀ c, some c ∈ close → 0 < c) (hse : ∀ e ∈ ev, e.1 ≤ e.2)
    (hdiff : ∃ e ∈ ev, ∃ e' ∈ ev, e ≠ e') (hms : ∀ e ∈ ev, (1000000 : ℤ) ∣ e.1 ∧ (1000000 : ℤ) ∣ e.2) :
    ∃ w : ℤ × ℤ → ℝ,
      weightsByReturns (List.zipWith (fun e c => ⟨e.1, some e.2, match c with | some x => .fin x | none => .nan⟩) ev close) =
        .ok (ev.map fun e => (e.1, .fin (w e))) ∧
      ∀ e ∈ ev, w e = |∑ k ∈ barsIn ev e, logRet close k / (aliveAt ev (ev.getD k (0, 0)).1 : ℝ)| ∧
        0 ≤ w e ∧ w e ≤ ∑ k ∈ barsIn ev e, |logRet close k| := by
  refine ⟨fun e => |∑ k ∈ barsIn ev e, logRet close k / (aliveAt ev (ev.getD k (0, 0)).1 : ℝ)|, ?_, ?_⟩
  · have h := weights_formula ev close hlen hpos hse hdiff
    have e : frame ev close =
      List.zipWith (fun e c => ⟨e.1, some e.2, match c with | some x => .fin x | none => .nan⟩) ev close := rfl
    rw [e] at h
    rw [h]
    congr 1
    apply List.map_congr_left
    intro e he
    congr 4
    unfold barsIn
    apply Finset.filter_congr
    intro k hk
    have hk := Finset.mem_range.1 hk
    have hmem : ev.getD k (0, 0) ∈ ev := by
      rw [List.getD_eq_getElem _ _ hk]; exact List.getElem_mem hk
    have h1 := hms e he
    have h2 := hms _ hmem
    unfold Covers
    omega
  · intro e he
    refine ⟨rfl, abs_nonneg _, (Finset.abs_sum_le_sum_abs _ _).trans (Finset.sum_le_sum ?_)⟩
    intro k hk
    have hk := Finset.mem_range.1 (Finset.mem_filter.1 hk).1
    have hmem : ev.getD k (0, 0) ∈ ev := by
      rw [List.getD_eq_getElem _ _ hk]; exact List.getElem_mem hk
    have h1 := aliveAt_pos ev _ hmem (hse _ hmem)
    rw [abs_div, abs_of_nonneg (Nat.cast_nonneg (α := ℝ) (aliveAt ev (ev.getD k (0, 0)).1))]
    exact div_le_self (abs_nonneg _) (by exact_mod_cast h1)

/-- The hypotheses of C42 are met by two overlapping events with a missing price. -/
example : (∀ c, some c ∈ [some (1 : ℝ), some 2, none] → 0 < c) ∧
    (∀ e ∈ [((0 : ℤ), (2000000 : ℤ)), (1000000, 3000000), (2000000, 2000000)], e.1 ≤ e.2) ∧
    (∃ e ∈ [((0 : ℤ), (2000000 : ℤ)), (1000000, 3000000), (2000000, 2000000)],
      ∃ e' ∈ [((0 : ℤ), (2000000 : ℤ)), (1000000, 3000000), (2000000, 2000000)], e ≠ e') ∧
    (∀ e ∈ [((0 : ℤ), (2000000 : ℤ)), (1000000, 3000000), (2000000, 2000000)],
      (1000000 : ℤ) ∣ e.1 ∧ (1000000 : ℤ) ∣ e.2) := by
  refine ⟨?_, by decide, by decide, by decide⟩
  intro c hc
  simp at hc
  rcases hc with rfl | rfl <;> norm_num

/-- C42: prices outside the life span do not matter, except the one just before its first bar: two price lists
that agree on the bars of `e` and on their predecessors give the same weight. -/
theorem C42_local (ev : List (ℤ × ℤ)) (close close' : List (Option ℝ)) (hlen : close.length = ev.length)
    (hlen' : close'.length = ev.length) (hpos : ∀ c, some c ∈ close → 0 < c) (hpos' : ∀ c, some c ∈ close' → 0 < c)
    (hse : ∀ e ∈ ev, e.1 ≤ e.2) (hdiff : ∃ e ∈ ev, ∃ e' ∈ ev, e ≠ e')
    (hms : ∀ e ∈ ev, (1000000 : ℤ) ∣ e.1 ∧ (1000000 : ℤ) ∣ e.2) (j : ℕ) (hj : j < ev.length)
    (h : ∀ k < ev.length, ev[j].1 ≤ (ev.getD k (0, 0)).1 → (ev.getD k (0, 0)).1 ≤ ev[j].2 →
      close.getD k none = close'.getD k none ∧ close.getD (k - 1) none = close'.getD (k - 1) none) :
    ∃ s s', weightsByReturns (frame ev close) = .ok s ∧ weightsByReturns (frame ev close') = .ok s' ∧
      s[j]? = s'[j]? ∧ s[j]?.isSome := by
  obtain ⟨w, h1, h2⟩ := C42_weights_by_return_partial ev close hlen hpos hse hdiff hms
  obtain ⟨w', h1', h2'⟩ := C42_weights_by_return_partial ev close' hlen' hpos' hse hdiff hms
  refine ⟨_, _, h1, h1', ?_, by simp [hj]⟩
  rw [List.getElem?_map, List.getElem?_map, List.getElem?_eq_getElem hj, Option.map_some, Option.map_some]
  rw [(h2 _ (List.getElem_mem hj)).1, (h2' _ (List.getElem_mem hj)).1]
  congr 4
  apply Finset.sum_congr rfl
  intro k hk
  obtain ⟨hk1, hk2⟩ := Finset.mem_filter.1 hk
  obtain ⟨e1, e2⟩ := h k (Finset.mem_range.1 hk1) hk2.1 hk2.2
  unfold logRet
  rw [e1, e2]

/-- C42 is false below the millisecond: the weight of the third event, whose life span is one instant with return
0, contains the return 1 of the bar 400 ns before. -/
theorem C42_sub_millisecond_refuted :
    ∃ s, weightsByReturns [⟨0, some 0, .fin 1⟩, ⟨1000000, some 1000000, .fin (Real.exp 1)⟩,
      ⟨1000400, some 1000400, .fin (Real.exp 1)⟩] = .ok s ∧ s[2]? = some (1000400, .fin 1) := by
  have h := weights_formula [(0, 0), (1000000, 1000000), (1000400, 1000400)]
    [some 1, some (Real.exp 1), some (Real.exp 1)] rfl
    (by intro c hc; simp at hc; rcases hc with rfl | rfl | rfl <;> positivity) (by decide)
    ⟨(0, 0), by simp, (1000000, 1000000), by simp, by simp⟩
  refine ⟨_, h, ?_⟩
  have hf : ((Finset.range 3).filter fun k => (1000400 : ℤ) / 1000000 ≤
      (([(0, 0), (1000000, 1000000), (1000400, 1000400)] : List (ℤ × ℤ)).getD k (0, 0)).1 / 1000000 ∧
      (([(0, 0), (1000000, 1000000), (1000400, 1000400)] : List (ℤ × ℤ)).getD k (0, 0)).1 / 1000000 ≤
        (1000400 : ℤ) / 1000000) = {1, 2} := by decide
  have ha : aliveAt [(0, 0), (1000000, 1000000), (1000400, 1000400)] 1000000 = 1 := by decide
  have hb : aliveAt [(0, 0), (1000000, 1000000), (1000400, 1000400)] 1000400 = 1 := by decide
  simp only [List.map_cons, List.map_nil, List.getElem?_cons_succ, List.getElem?_cons_zero, List.length_cons,
    List.length_nil, Nat.zero_add, Nat.reduceAdd]
  rw [hf]
  simp [ha, hb, logRet]

/-- C42, error branch: a missing end raises. -/
theorem C42_missing_end (X : List SW.Row) (h : ∃ r ∈ X, r.stop = none) : weightsByReturns X = .error .valueError := by
  unfold weightsByReturns
  rw [C12_missing_times_raise]
  obtain ⟨r, hr, h⟩ := h
  exact ⟨_, List.mem_map.2 ⟨r, hr, rfl⟩, Or.inr h⟩

theorem pdCumsumFrom_fin (l : List ℚ) (a : ℚ) :
    pdCumsumFrom (.fin a) (l.map .fin) = (List.range l.length).map fun i => .fin (a + (l.take (i + 1)).sum) := by
  induction l generalizing a with
  | nil => rfl
  | cons x l ih =>
    rw [List.map_cons, pdCumsumFrom]
    simp only [XF.isNan_fin, Bool.false_eq_true, if_false, XF.add_fin]
    rw [ih, List.length_cons, List.range_succ_eq_map, List.map_cons, List.map_map]
    congr 1
    · simp
    · apply List.map_congr_left
      intro i _
      simp [add_assoc]

/-- The frame sorted by time. -/
def sorted (X : List (ℤ × ℤ)) : List (ℤ × ℤ) := X.insertionSort fun a b => a.1 ≤ b.1

theorem sorted_perm (X : List (ℤ × ℤ)) : (sorted X).Perm X := List.perm_insertionSort _ _

theorem sorted_lt (X : List (ℤ × ℤ)) (hnd : (X.map (·.1)).Nodup) : ((sorted X).map (·.1)).Pairwise (· < ·) := by
  have h1 : (sorted X).Pairwise fun a b => a.1 ≤ b.1 := by
    haveI : Std.Total (fun a b : ℤ × ℤ => a.1 ≤ b.1) := ⟨fun a b => le_total _ _⟩
    haveI : IsTrans (ℤ × ℤ) (fun a b => a.1 ≤ b.1) := ⟨fun a b c => le_trans⟩
    exact List.pairwise_insertionSort _ _
  have h2 : ((sorted X).map (·.1)).Nodup := ((sorted_perm X).map _).nodup_iff.2 hnd
  rw [List.pairwise_map]
  have h3 := List.pairwise_map.1 h2
  exact (h1.and h3).imp fun h => lt_of_le_of_ne h.1 h.2

theorem take_eq_filter (l : List (ℤ × ℤ)) (h : (l.map (·.1)).Pairwise (· < ·)) (i : ℕ) (hi : i < l.length) :
    l.take (i + 1) = l.filter fun e => decide (e.1 ≤ l[i].1) := by
  induction l generalizing i with
  | nil => simp at hi
  | cons a l ih =>
    rw [List.map_cons, List.pairwise_cons] at h
    cases i with
    | zero =>
      simp only [List.getElem_cons_zero, List.filter_cons, le_refl, decide_true, if_true, zero_add, List.take_succ_cons,
        List.take_zero]
      congr 1
      symm
      rw [List.filter_eq_nil_iff]
      intro e he
      have := h.1 e.1 (List.mem_map.2 ⟨e, he, rfl⟩)
      simpa using this
    | succ i =>
      have hi' : i < l.length := by simpa using hi
      simp only [List.getElem_cons_succ, List.take_succ_cons, List.filter_cons]
      have := h.1 l[i].1 (List.mem_map.2 ⟨l[i], List.getElem_mem hi', rfl⟩)
      rw [if_pos (by simpa using this.le), ih h.2 i hi']

/-- The uniqueness of an event of the frame. -/
def uniq (X : List (ℤ × ℤ)) (e : ℤ × ℤ) : ℚ := eventUniq (X.map (·.1) ++ X.map (·.2)).toFinset X e

theorem uniqShare_eq (X : List (ℤ × ℤ)) (t : ℤ) :
    uniqShare X t = ((X.filter fun e => decide (e.1 ≤ t)).map (uniq X)).sum / (X.map (uniq X)).sum := rfl

theorem total_pos (X : List (ℤ × ℤ)) (hne : X ≠ []) (hu : ∀ e ∈ X, 0 < uniq X e) : 0 < (X.map (uniq X)).sum := by
  obtain ⟨e, he⟩ := List.exists_mem_of_ne_nil X hne
  apply List.sum_pos
  · intro x hx
    obtain ⟨e, he, rfl⟩ := List.mem_map.1 hx
    exact hu e he
  · simpa using hne

theorem decay_run (c : ℚ) (X : List (ℤ × ℤ)) (hc : c ≤ 1) (hlen : 2 ≤ X.length) (hnd : (X.map (·.1)).Nodup)
    (hse : ∀ e ∈ X, e.1 ≤ e.2) :
    timeDecay c (X.map fun e => (e.1, some e.2)) = .ok ((sorted X).map fun e =>
      (e.1, decay c (.fin (X.map (uniq X)).sum) (.fin (uniqShare X e.1 * (X.map (uniq X)).sum)))) := by
  obtain ⟨h1, h2⟩ := C13_transform X hlen hnd hse
  have hne : X ≠ [] := by rintro rfl; simp at hlen
  have hS := total_pos X hne (fun e he => (h2 e he).1)
  unfold timeDecay
  rw [if_neg (not_not.2 hc), h1]
  simp only
  have hs : (X.map fun e => (e.1, XF.fin (eventUniq (X.map (·.1) ++ X.map (·.2)).toFinset X e))).insertionSort
      (fun a b => a.1 ≤ b.1) = (sorted X).map fun e => (e.1, XF.fin (uniq X e)) := by
    symm
    exact List.map_insertionSort _ _ _ _ (fun a _ b _ => Iff.rfl)
  rw [hs, List.map_map, List.map_map]
  have e1 : (sorted X).map ((fun x : ℤ × XF ℚ => x.2) ∘ fun e => (e.1, XF.fin (uniq X e))) =
      ((sorted X).map (uniq X)).map .fin := by rw [List.map_map]; rfl
  have e2 : (sorted X).map ((fun x : ℤ × XF ℚ => x.1) ∘ fun e => (e.1, XF.fin (uniq X e))) = (sorted X).map (·.1) := rfl
  rw [e1, e2]
  unfold pdCumsum
  rw [pdCumsumFrom_fin]
  have hlt := sorted_lt X hnd
  have hcs : (List.range ((sorted X).map (uniq X)).length).map
      (fun i => XF.fin (0 + (((sorted X).map (uniq X)).take (i + 1)).sum)) =
      (sorted X).map fun e => XF.fin (uniqShare X e.1 * (X.map (uniq X)).sum) := by
    apply List.ext_getElem
    · simp
    · intro i hi1 hi2
      have hi : i < (sorted X).length := by simpa using hi2
      simp only [List.getElem_map, List.getElem_range, zero_add]
      rw [← List.map_take, take_eq_filter _ hlt i hi, uniqShare_eq, div_mul_cancel₀ _ hS.ne']
      congr 1
      exact (((sorted_perm X).filter _).map _).sum_eq
  rw [hcs]
  have hsne : sorted X ≠ [] := by
    intro h
    have := (sorted_perm X).length_eq
    rw [h] at this
    simp at this
    omega
  have hlast : ((sorted X).map fun e => XF.fin (uniqShare X e.1 * (X.map (uniq X)).sum)).getLast? =
      some (.fin (X.map (uniq X)).sum) := by
    rw [List.getLast?_map, List.getLast?_eq_getLast_of_ne_nil hsne, Option.map_some]
    congr 2
    rw [uniqShare_eq, div_mul_cancel₀ _ hS.ne']
    congr 2
    rw [List.filter_eq_self]
    intro e he
    have he' : e ∈ sorted X := (sorted_perm X).mem_iff.2 he
    obtain ⟨i, hi, rfl⟩ := List.getElem_of_mem he'
    rw [List.getLast_eq_getElem]
    have : (sorted X)[i].1 ≤ (sorted X)[(sorted X).length - 1].1 := by
      rcases Nat.lt_or_ge i ((sorted X).length - 1) with h | h
      · exact (List.pairwise_iff_getElem.1 (List.pairwise_map.1 hlt) i ((sorted X).length - 1) hi (by omega) h).le
      · have : i = (sorted X).length - 1 := by omega
        subst this; exact le_rfl
    simpa using this
  rw [hlast]
  simp only
  rw [List.map_map, List.zip_map']
  rfl

theorem decay_fin {c : ℚ} (hc : -1 < c) (S x : ℚ) (hS : 0 < S) :
    decay c (.fin S) (.fin (x * S)) =
      .fin (if 0 ≤ c then (if c + (1 - c) * x < 0 then 0 else c + (1 - c) * x) else max 0 ((c + x) / (c + 1))) := by
  unfold decay
  have hc1 : c + 1 ≠ 0 := by linarith
  by_cases h : 0 ≤ c
  · simp only [h, if_true, XF.div_fin _ _ hS.ne', XF.mul_fin, XF.sub_fin, XF.add_fin, XF.lt_fin]
    have e : 1 - (1 - c) / S * S + (1 - c) / S * (x * S) = c + (1 - c) * x := by
      field_simp; ring
    rw [e]
    split <;> simp_all
  · simp only [h, if_false, XF.mul_fin, XF.div_fin _ _ (mul_ne_zero hc1 hS.ne'), XF.sub_fin, XF.add_fin, XF.lt_fin]
    have e : 1 - 1 / ((c + 1) * S) * S + 1 / ((c + 1) * S) * (x * S) = (c + x) / (c + 1) := by
      field_simp; ring
    rw [e]
    split
    · rename_i h'
      rw [max_eq_left (by simpa using (of_decide_eq_true h').le)]
    · rename_i h'
      rw [max_eq_right (not_lt.1 (by simpa using h'))]

theorem share_props (X : List (ℤ × ℤ)) (hlen : 2 ≤ X.length) (hnd : (X.map (·.1)).Nodup) (hse : ∀ e ∈ X, e.1 ≤ e.2) :
    (∀ t, 0 ≤ uniqShare X t ∧ uniqShare X t ≤ 1) ∧ (∀ t t', t ≤ t' → uniqShare X t ≤ uniqShare X t') ∧
    (∀ e ∈ X, 0 < uniqShare X e.1) ∧ (∀ t, (∀ e ∈ X, e.1 ≤ t) → uniqShare X t = 1) ∧
    (∀ t, ∀ e ∈ X, t < e.1 → uniqShare X t < 1) := by
  have hu : ∀ e ∈ X, 0 < uniq X e := fun e he => ((C13_transform X hlen hnd hse).2 e he).1
  have hne : X ≠ [] := by rintro rfl; simp at hlen
  have hS := total_pos X hne hu
  have key : ∀ p q : ℤ × ℤ → Bool, (∀ e, p e = true → q e = true) →
      ((X.filter p).map (uniq X)).sum ≤ ((X.filter q).map (uniq X)).sum := by
    intro p q hpq
    have hsub : (X.filter p).Sublist (X.filter q) := by
      have : X.filter p = (X.filter q).filter p := by
        rw [List.filter_filter]
        apply List.filter_congr
        intro e _
        cases h : p e with
        | false => simp
        | true => simp [hpq e h]
      rw [this]; exact List.filter_sublist
    apply List.Sublist.sum_le_sum (hsub.map _)
    intro x hx
    obtain ⟨e, he, rfl⟩ := List.mem_map.1 hx
    exact (hu e (List.mem_filter.1 he).1).le
  have hfull : ((X.filter fun _ => true).map (uniq X)).sum = (X.map (uniq X)).sum := by simp
  have hpos : ∀ t, 0 ≤ ((X.filter fun e => decide (e.1 ≤ t)).map (uniq X)).sum := by
    intro t
    apply List.sum_nonneg
    intro x hx
    obtain ⟨e, he, rfl⟩ := List.mem_map.1 hx
    exact (hu e (List.mem_filter.1 he).1).le
  simp only [uniqShare_eq]
  refine ⟨fun t => ⟨div_nonneg (hpos t) hS.le, ?_⟩, ?_, ?_, ?_, ?_⟩
  · rw [div_le_one hS, ← hfull]
    exact key _ _ (by simp)
  · intro t t' h
    apply div_le_div_of_nonneg_right (key _ _ _) hS.le
    intro e he
    simp only [decide_eq_true_eq] at *
    omega
  · intro e he
    apply div_pos _ hS
    apply List.sum_pos
    · intro x hx
      obtain ⟨e, he, rfl⟩ := List.mem_map.1 hx
      exact hu e (List.mem_filter.1 he).1
    · have : e ∈ X.filter fun e' => decide (e'.1 ≤ e.1) := List.mem_filter.2 ⟨he, by simp⟩
      simp only [ne_eq, List.map_eq_nil_iff]
      exact List.ne_nil_of_mem this
  · intro t h
    have : X.filter (fun e => decide (e.1 ≤ t)) = X := by
      rw [List.filter_eq_self]; intro e he; simpa using h e he
    rw [this, div_self hS.ne']
  · intro t e he h
    rw [div_lt_one hS]
    have h1 : ((X.filter fun e => decide (e.1 ≤ t)).map (uniq X)).sum ≤
        ((X.filter fun e' => decide (e' ≠ e)).map (uniq X)).sum := by
      apply key
      intro e' he'
      simp only [decide_eq_true_eq] at *
      rintro rfl; omega
    have h2 : ((X.filter fun e' => decide (e' ≠ e)).map (uniq X)).sum +
        ((X.filter fun e' => decide (e' = e)).map (uniq X)).sum = (X.map (uniq X)).sum := by
      have := (List.filter_append_perm (fun e' => decide (e' ≠ e)) X)
      have h3 := (this.map (uniq X)).sum_eq
      rw [List.map_append, List.sum_append] at h3
      rw [← h3]
      congr 3
      apply List.filter_congr
      intro x _
      simp
    have h3 : 0 < ((X.filter fun e' => decide (e' = e)).map (uniq X)).sum := by
      apply List.sum_pos
      · intro x hx
        obtain ⟨e, he, rfl⟩ := List.mem_map.1 hx
        exact hu e (List.mem_filter.1 he).1
      · have : e ∈ X.filter fun e' => decide (e' = e) := List.mem_filter.2 ⟨he, by simp⟩
        simp only [ne_eq, List.map_eq_nil_iff]
        exact List.ne_nil_of_mem this
    linarith

/-- C43 (partial: minimum weights above -1, at least two events): the result has the times of the frame in
increasing order; the weights do not decrease with time, lie in `[0, 1]`, and the latest is 1.  For minimum weight
1 all are 1; for `0 ≤ c < 1` they are `c + (1 - c) * share`, above `c`; for `c < 0` exactly the events with a
cumulative share of the uniqueness of at most `-c` get 0. -/
theorem C43_time_decay_partial (c : ℚ) (X : List (ℤ × ℤ)) (hc : -1 < c) (hc1 : c ≤ 1) (hlen : 2 ≤ X.length)
    (hnd : (X.map (·.1)).Nodup) (hse : ∀ e ∈ X, e.1 ≤ e.2) :
    ∃ (times : List ℤ) (w : ℤ → ℚ),
      timeDecay c (X.map fun e => (e.1, some e.2)) = .ok (times.map fun t => (t, .fin (w t))) ∧
      times.Pairwise (· < ·) ∧ (∀ t, t ∈ times ↔ ∃ e ∈ X, t = e.1) ∧
      (∀ t ∈ times, ∀ t' ∈ times, t ≤ t' → w t ≤ w t') ∧ (∀ t ∈ times, 0 ≤ w t ∧ w t ≤ 1) ∧
      (∀ t ∈ times, (∀ e ∈ X, e.1 ≤ t) → w t = 1) ∧
      (c = 1 → ∀ t ∈ times, w t = 1) ∧
      (0 ≤ c → c < 1 → ∀ t ∈ times, w t = c + (1 - c) * uniqShare X t ∧ c < w t) ∧
      (c < 0 → ∀ t ∈ times, w t = 0 ↔ uniqShare X t ≤ -c) := by
  have hne : X ≠ [] := by rintro rfl; simp at hlen
  have hS := total_pos X hne (fun e he => ((C13_transform X hlen hnd hse).2 e he).1)
  obtain ⟨s1, s2, s3, s4, s5⟩ := share_props X hlen hnd hse
  have hmem : ∀ t, t ∈ (sorted X).map (·.1) ↔ ∃ e ∈ X, t = e.1 := by
    intro t
    rw [List.mem_map]
    constructor
    · rintro ⟨e, he, rfl⟩; exact ⟨e, (sorted_perm X).mem_iff.1 he, rfl⟩
    · rintro ⟨e, he, rfl⟩; exact ⟨e, (sorted_perm X).mem_iff.2 he, rfl⟩
  have hp1 : 0 < c + 1 := by linarith
  refine ⟨(sorted X).map (·.1), fun t => if 0 ≤ c then c + (1 - c) * uniqShare X t else
    max 0 ((c + uniqShare X t) / (c + 1)), ?_, sorted_lt X hnd, hmem, ?_, ?_, ?_, ?_, ?_, ?_⟩
  · rw [decay_run c X hc1 hlen hnd hse, List.map_map]
    congr 1
    apply List.map_congr_left
    intro e he
    simp only [Function.comp_apply]
    rw [decay_fin hc _ _ hS]
    congr 2
    by_cases h : 0 ≤ c
    · rw [if_pos h, if_pos h, if_neg]
      have := (s1 e.1).1
      have : 0 ≤ (1 - c) * uniqShare X e.1 := mul_nonneg (by linarith) this
      linarith
    · rw [if_neg h, if_neg h]
  · intro t _ t' _ h
    have := s2 t t' h
    simp only
    split
    · have := mul_le_mul_of_nonneg_left this (show 0 ≤ 1 - c by linarith)
      linarith
    · apply max_le_max le_rfl
      apply div_le_div_of_nonneg_right _ hp1.le
      linarith
  · intro t _
    obtain ⟨a, b⟩ := s1 t
    simp only
    split
    · rename_i h
      constructor
      · have : 0 ≤ (1 - c) * uniqShare X t := mul_nonneg (by linarith) a
        linarith
      · have := mul_le_mul_of_nonneg_left b (show 0 ≤ 1 - c by linarith)
        linarith
    · refine ⟨le_max_left _ _, max_le zero_le_one ?_⟩
      rw [div_le_one hp1]; linarith
  · intro t _ h
    simp only [s4 t h, mul_one]
    split
    · ring
    · rw [add_comm, add_comm, div_self (by linarith : c + 1 ≠ 0)]
      simp
  · rintro rfl t _
    simp
  · intro h0 h1 t ht
    obtain ⟨e, he, rfl⟩ := (hmem t).1 ht
    have := s3 e he
    simp only [h0, if_true, true_and]
    have : 0 < (1 - c) * uniqShare X e.1 := mul_pos (by linarith) this
    linarith
  · intro h t ht
    simp only [not_le.2 h, if_false]
    constructor
    · intro h'
      have := le_max_right 0 ((c + uniqShare X t) / (c + 1))
      rw [h'] at this
      have := (div_le_iff₀ hp1).1 this
      linarith
    · intro h'
      apply max_eq_left
      exact div_nonpos_of_nonpos_of_nonneg (by linarith) hp1.le

/-- Three events, minimum weight 1/2 and -1/2. -/
example : timeDecay (1/2) [(4, some 5), (1, some 3), (2, some 6)] =
    .ok [(1, .fin (73/106)), (2, .fin (91/106)), (4, .fin 1)] ∧
    timeDecay (-1/2) [(4, some 5), (1, some 3), (2, some 6)] =
    .ok [(1, .fin 0), (2, .fin (23/53)), (4, .fin 1)] := by decide +kernel

/-- C43 is false for minimum weight -1, which is accepted: every weight is NaN. -/
theorem C43_minus_one_refuted (X : List (ℤ × ℤ)) (hlen : 2 ≤ X.length) (hnd : (X.map (·.1)).Nodup)
    (hse : ∀ e ∈ X, e.1 ≤ e.2) :
    ∃ s, timeDecay (-1) (X.map fun e => (e.1, some e.2)) = .ok s ∧ s.length = X.length ∧ ∀ p ∈ s, p.2 = .nan := by
  have hne : X ≠ [] := by rintro rfl; simp at hlen
  have hu : ∀ e ∈ X, 0 < uniq X e := fun e he => ((C13_transform X hlen hnd hse).2 e he).1
  have hS := total_pos X hne hu
  refine ⟨_, decay_run (-1) X (by norm_num) hlen hnd hse, by simp [(sorted_perm X).length_eq], ?_⟩
  intro p hp
  obtain ⟨e, he, rfl⟩ := List.mem_map.1 hp
  have h3 := (share_props X hlen hnd hse).2.2.1 e ((sorted_perm X).mem_iff.1 he)
  have h4 := mul_pos h3 hS
  have h0 : ¬ (0 : ℚ) ≤ -1 := by norm_num
  have e1 : XF.div (.fin (1 : ℚ)) (XF.mul (.fin (-1 + 1)) (.fin (X.map (uniq X)).sum)) = .pinf := by
    simp [XF.mul, XF.div, XF.infSign]
  have e2 : XF.mul .pinf (.fin (X.map (uniq X)).sum) = .pinf := by simp [XF.mul, XF.infSign, hS]
  have e3 : XF.mul .pinf (.fin (uniqShare X e.1 * (X.map (uniq X)).sum)) = .pinf := by simp [XF.mul, XF.infSign, h4]
  simp only [decay, h0, if_false, e1, e2, e3]
  rfl

/-- C43 is false for minimum weights below -1, which are accepted: weights fall with time, and every event
but the latest has a weight above 1. -/
theorem C43_below_minus_one_refuted (c : ℚ) (X : List (ℤ × ℤ)) (hc : c < -1) (hlen : 2 ≤ X.length)
    (hnd : (X.map (·.1)).Nodup) (hse : ∀ e ∈ X, e.1 ≤ e.2) :
    ∃ (times : List ℤ) (w : ℤ → ℚ),
      timeDecay c (X.map fun e => (e.1, some e.2)) = .ok (times.map fun t => (t, .fin (w t))) ∧
      (∀ t, t ∈ times ↔ ∃ e ∈ X, t = e.1) ∧ (∀ t ∈ times, ∀ t' ∈ times, t ≤ t' → w t' ≤ w t) ∧
      ∀ t ∈ times, (∃ e ∈ X, t < e.1) → 1 < w t := by
  have hne : X ≠ [] := by rintro rfl; simp at hlen
  have hS := total_pos X hne (fun e he => ((C13_transform X hlen hnd hse).2 e he).1)
  obtain ⟨s1, s2, s3, s4, s5⟩ := share_props X hlen hnd hse
  have hc1 : c + 1 < 0 := by linarith
  refine ⟨(sorted X).map (·.1), fun t => (c + uniqShare X t) / (c + 1), ?_, ?_, ?_, ?_⟩
  · rw [decay_run c X (by linarith) hlen hnd hse, List.map_map]
    congr 1
    apply List.map_congr_left
    intro e he
    simp only [Function.comp_apply]
    congr 1
    unfold decay
    have h : ¬ 0 ≤ c := by linarith
    simp only [h, if_false, XF.mul_fin, XF.div_fin _ _ (mul_ne_zero hc1.ne hS.ne'), XF.sub_fin, XF.add_fin, XF.lt_fin]
    have e' : 1 - 1 / ((c + 1) * (X.map (uniq X)).sum) * (X.map (uniq X)).sum +
        1 / ((c + 1) * (X.map (uniq X)).sum) * (uniqShare X e.1 * (X.map (uniq X)).sum) =
        (c + uniqShare X e.1) / (c + 1) := by
      have := hc1.ne
      have := hS.ne'
      field_simp; ring
    rw [e', if_neg]
    have : 0 ≤ (c + uniqShare X e.1) / (c + 1) :=
      div_nonneg_of_nonpos (by have := (s1 e.1).2; linarith) hc1.le
    simpa using this
  · intro t
    rw [List.mem_map]
    constructor
    · rintro ⟨e, he, rfl⟩; exact ⟨e, (sorted_perm X).mem_iff.1 he, rfl⟩
    · rintro ⟨e, he, rfl⟩; exact ⟨e, (sorted_perm X).mem_iff.2 he, rfl⟩
  · intro t _ t' _ h
    apply div_le_div_of_nonpos_of_le hc1.le
    linarith [s2 t t' h]
  · rintro t _ ⟨e, he, h⟩
    rw [one_lt_div_of_neg hc1]
    linarith [s5 t e he h]

/-- C43: minimum weights above 1 are refused. -/
theorem C43_above_one (c : ℚ) (h : 1 < c) (X : List (ℤ × Option ℤ)) : timeDecay c X = .error .assertionError := by
  unfold timeDecay
  rw [if_pos (not_le.2 h)]

end Mizar.Props
