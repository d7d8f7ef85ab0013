import Verif.Lemmas.Boot

/-!
Property theorems C11-C14: indicator matrix and average uniqueness
(`/repo/mizarlabs/model/bootstrapping.py` lines 7-95,
`/repo/mizarlabs/transformers/sampling/average_uniqueness.py`).
-/

namespace Mizar.Props
open Mizar.Spec Mizar.Boot

/-- C11: whatever `get_ind_matrix` returns has one row per element of the strictly increasing list of
starts, ends and bars between the first start and the last end, one column per event, and a one exactly
where the row time lies in the closed life span of the event. -/
theorem C11_indicator_matrix (ev : List (ℤ × ℤ)) (bars : List ℤ) (M : IndMat) (bi : List ℤ)
    (h : getIndMatrix (ev.map fun e => (some e.1, some e.2)) bars = .ok (M, bi)) :
    bi.Pairwise (· < ·) ∧
    (∀ x, x ∈ bi ↔ (∃ e ∈ ev, x = e.1) ∨ (∃ e ∈ ev, x = e.2) ∨
      (x ∈ bars ∧ (∃ e ∈ ev, e.1 ≤ x) ∧ (∃ e ∈ ev, x ≤ e.2))) ∧
    M.nRows = bi.length ∧ M.nCols = ev.length ∧
    ∀ t j (ht : t < bi.length) (hj : j < ev.length),
      M.ent t j = true ↔ (ev[j]).1 ≤ bi[t] ∧ bi[t] ≤ (ev[j]).2 := by
  change getIndMatrix (present ev) bars = _ at h
  rw [getIndMatrix_present] at h
  split at h
  · cases h
  · split at h
    · cases h
    · split at h
      · cases h
      · cases h
        exact ⟨barIndex_sorted ev bars, fun x => mem_barIndex, rawMatrix_nRows ev bars,
          rawMatrix_nCols ev bars, fun t j ht hj => rawMatrix_ent ev bars t j ht hj⟩

/-- Two overlapping events and a bar between them, a bar outside is trimmed. -/
example : (getIndMatrix [(some 10, some 30), (some 20, some 40)] [5, 10, 20, 25, 30, 40, 50]).toOption.map
    (fun r => (r.1.toLists, r.2)) =
    some ([[true, false], [true, true], [true, true], [true, true], [false, true]], [10, 20, 25, 30, 40]) := by
  decide +kernel

/-- C12: a missing start or end always raises `ValueError`. -/
theorem C12_missing_times_raise (events : List (Option ℤ × Option ℤ)) (bars : List ℤ)
    (h : ∃ e ∈ events, e.1 = none ∨ e.2 = none) : getIndMatrix events bars = .error .valueError :=
  getIndMatrix_missing events bars h

example : ∃ e ∈ [(some (1 : ℤ), some (2 : ℤ)), (some 3, none)], e.1 = none ∨ e.2 = none :=
  ⟨(some 3, none), by simp, Or.inr rfl⟩

theorem all_ones_iff (ev : List (ℤ × ℤ)) (bars : List ℤ) :
    (∀ t < (rawMatrix ev bars).nRows, ∀ j < (rawMatrix ev bars).nCols,
      (rawMatrix ev bars).ent t j = true) ↔ ∀ x ∈ barIndex ev bars, ∀ e ∈ ev, Covers e x := by
  rw [rawMatrix_nRows, rawMatrix_nCols]
  constructor
  · intro h x hx e he
    obtain ⟨t, ht, rfl⟩ := List.getElem_of_mem hx
    obtain ⟨j, hj, rfl⟩ := List.getElem_of_mem he
    exact (rawMatrix_ent ev bars t j ht hj).1 (h t ht j hj)
  · intro h t ht j hj
    exact (rawMatrix_ent ev bars t j ht hj).2 (h _ (List.getElem_mem ht) _ (List.getElem_mem hj))

theorem not_all_zero (ev : List (ℤ × ℤ)) (bars : List ℤ) (e : ℤ × ℤ) (he : e ∈ ev) (hse : e.1 ≤ e.2) :
    ¬ ∀ t < (rawMatrix ev bars).nRows, ∀ j < (rawMatrix ev bars).nCols,
      (rawMatrix ev bars).ent t j = false := by
  intro h
  obtain ⟨j, hj, rfl⟩ := List.getElem_of_mem he
  have hm : (ev[j]).1 ∈ barIndex ev bars := mem_barIndex.2 (Or.inl ⟨_, he, rfl⟩)
  obtain ⟨t, ht, htx⟩ := List.getElem_of_mem hm
  have h1 := h t (by rw [rawMatrix_nRows]; exact ht) j (by rw [rawMatrix_nCols]; exact hj)
  have h2 := (rawMatrix_ent ev bars t j ht hj).2 (by rw [htx]; exact ⟨le_refl _, hse⟩)
  rw [h1] at h2; cases h2

/-- C12 (what holds instead): for events whose ends are not before their starts and with no time
missing, `get_ind_matrix` returns normally exactly when two events differ in their start or end; when
all events have the same start and end it raises `AssertionError`. -/
theorem C12_returns_iff_partial (ev : List (ℤ × ℤ)) (bars : List ℤ) (hne : ev ≠ [])
    (hse : ∀ e ∈ ev, e.1 ≤ e.2) :
    ((∃ r, getIndMatrix (ev.map fun e => (some e.1, some e.2)) bars = .ok r) ↔
      ∃ e ∈ ev, ∃ e' ∈ ev, e ≠ e') ∧
    ((∀ e ∈ ev, ∀ e' ∈ ev, e = e') →
      getIndMatrix (ev.map fun e => (some e.1, some e.2)) bars = .error .assertionError) := by
  have key : (∀ x ∈ barIndex ev bars, ∀ e ∈ ev, Covers e x) ↔ ∀ e ∈ ev, ∀ e' ∈ ev, e = e' := by
    constructor
    · intro h e he e' he'
      have a1 := h e.1 (mem_barIndex.2 (Or.inl ⟨e, he, rfl⟩)) e' he'
      have a2 := h e'.1 (mem_barIndex.2 (Or.inl ⟨e', he', rfl⟩)) e he
      have b1 := h e.2 (mem_barIndex.2 (Or.inr (Or.inl ⟨e, he, rfl⟩))) e' he'
      have b2 := h e'.2 (mem_barIndex.2 (Or.inr (Or.inl ⟨e', he', rfl⟩))) e he
      unfold Covers at *
      exact Prod.ext (by omega) (by omega)
    · intro h x hx e he
      have hs := hse e he
      rcases mem_barIndex.1 hx with ⟨e', he', rfl⟩ | ⟨e', he', rfl⟩ | ⟨_, ⟨e1, h1, h1'⟩, ⟨e2, h2, h2'⟩⟩
      · rw [h e he e' he'] at hs ⊢; exact ⟨le_refl _, hs⟩
      · rw [h e he e' he'] at hs ⊢; exact ⟨hs, le_refl _⟩
      · rw [h e1 h1 e he] at h1'
        rw [h e2 h2 e he] at h2'
        exact ⟨h1', h2'⟩
  obtain ⟨e0, he0⟩ := List.exists_mem_of_ne_nil ev hne
  change ((∃ r, getIndMatrix (present ev) bars = .ok r) ↔ _) ∧
    (_ → getIndMatrix (present ev) bars = _)
  rw [getIndMatrix_present, if_neg hne, if_neg (not_all_zero ev bars e0 he0 (hse e0 he0))]
  simp only [all_ones_iff]
  constructor
  · by_cases hall : ∀ e ∈ ev, ∀ e' ∈ ev, e = e'
    · rw [if_pos (key.2 hall)]
      constructor
      · rintro ⟨r, hr⟩; cases hr
      · rintro ⟨e, he, e', he', hn⟩; exact absurd (hall e he e' he') hn
    · rw [if_neg (fun h => hall (key.1 h))]
      push Not at hall
      exact ⟨fun _ => hall, fun _ => ⟨_, rfl⟩⟩
  · intro hall
    rw [if_pos (key.2 hall)]

example : (∀ e ∈ [((1 : ℤ), (5 : ℤ)), (2, 5)], e.1 ≤ e.2) ∧
    ∃ e ∈ [((1 : ℤ), (5 : ℤ)), (2, 5)], ∃ e' ∈ [((1 : ℤ), (5 : ℤ)), (2, 5)], e ≠ e' := by decide

/-- C12 as documented is false: a single event with a regular life span raises `AssertionError`,
whatever the bars are (its matrix contains only ones). -/
theorem C12_single_event_refuted (s e : ℤ) (h : s ≤ e) (bars : List ℤ) :
    getIndMatrix [(some s, some e)] bars = .error .assertionError :=
  (C12_returns_iff_partial [(s, e)] bars (by simp) (by simpa using h)).2 (by simp)

example : getIndMatrix [(some 1, some 9)] [1, 4, 9] = .error .assertionError :=
  C12_single_event_refuted 1 9 (by norm_num) _

/-- C13: `calc_average_uniqueness` gives NaN for a sample without bars; every other sample gets the
mean over its bars of one over the number of samples covering the bar; this is in `(0, 1]` and equals
one exactly when no other sample covers one of its bars. -/
theorem C13_average_uniqueness (M : IndMat) (j : ℕ) (hj : j < M.nCols) :
    (barsOf M j = ∅ → (calcAverageUniqueness M)[j]? = some .nan) ∧
    (barsOf M j ≠ ∅ → ∃ u : ℚ, (calcAverageUniqueness M)[j]? = some (.fin u) ∧
      u = (∑ t ∈ barsOf M j, (1 : ℚ) / ((samplesAt M t).card : ℚ)) / ((barsOf M j).card : ℚ) ∧
      0 < u ∧ u ≤ 1 ∧
      (u = 1 ↔ ∀ t < M.nRows, M.ent t j = true → ∀ i < M.nCols, i ≠ j → M.ent t i = false)) := by
  rw [calcAverageUniqueness_getElem M j hj]
  refine ⟨fun h => by rw [if_pos h], fun h => ?_⟩
  rw [if_neg h]
  have hne := Finset.nonempty_iff_ne_empty.2 h
  have hcard : (0 : ℚ) < ((barsOf M j).card : ℚ) := by exact_mod_cast Finset.card_pos.2 hne
  have hpos : ∀ t ∈ barsOf M j, (0 : ℚ) < 1 / ((samplesAt M t).card : ℚ) := by
    intro t ht
    have := card_samplesAt_pos hj ht
    positivity
  have hle : ∀ t ∈ barsOf M j, (1 : ℚ) / ((samplesAt M t).card : ℚ) ≤ 1 := by
    intro t ht
    have h1 := card_samplesAt_pos hj ht
    rw [div_le_one (by exact_mod_cast h1)]
    exact_mod_cast h1
  refine ⟨_, rfl, rfl, div_pos (Finset.sum_pos hpos hne) hcard, ?_, ?_⟩
  · unfold avgUniq
    rw [div_le_one hcard]
    calc _ ≤ ∑ t ∈ barsOf M j, (1 : ℚ) := Finset.sum_le_sum hle
      _ = _ := by simp
  · unfold avgUniq
    rw [div_eq_one_iff_eq hcard.ne']
    have h1 : ((barsOf M j).card : ℚ) = ∑ t ∈ barsOf M j, (1 : ℚ) := by simp
    rw [h1, Finset.sum_eq_sum_iff_of_le hle]
    constructor
    · intro h t ht hent i hi hij
      have ht' : t ∈ barsOf M j := by simp [barsOf, ht, hent]
      have h2 := h t ht'
      have h3 := card_samplesAt_pos hj ht'
      have h4 : (samplesAt M t).card = 1 := by
        rw [div_eq_one_iff_eq (by exact_mod_cast h3.ne')] at h2
        exact_mod_cast h2.symm
      by_contra hne
      have : i ∈ samplesAt M t := by
        simp only [samplesAt, Finset.mem_filter, Finset.mem_range]
        exact ⟨hi, by simpa using hne⟩
      exact hij (Finset.card_le_one.1 h4.le i this j (mem_samplesAt_of_bar hj ht'))
    · intro h t ht
      have : samplesAt M t = {j} := by
        ext i
        simp only [Finset.mem_singleton]
        constructor
        · intro hi
          by_contra hij
          have ht2 := Finset.mem_filter.1 ht
          have hi2 := Finset.mem_filter.1 hi
          have := h t (Finset.mem_range.1 ht2.1) ht2.2 i (Finset.mem_range.1 hi2.1) hij
          rw [hi2.2] at this; cases this
        · rintro rfl; exact mem_samplesAt_of_bar hj ht
      rw [this]; simp

/-- Sample 0 shares one of two bars, sample 2 has no bars. -/
example : calcAverageUniqueness (.ofLists 3 [[true, false, false], [true, true, false]]) =
    [.fin (3/4), .fin (1/2), .nan] := by decide +kernel

theorem length_zip_calc (M : IndMat) : (calcAverageUniqueness M).length = M.nCols := by
  simp [calcAverageUniqueness]

theorem samplesAt_card_raw (ev : List (ℤ × ℤ)) (bars : List ℤ) (t : ℕ)
    (ht : t < (barIndex ev bars).length) :
    (samplesAt (rawMatrix ev bars) t).card = aliveAt ev ((barIndex ev bars)[t]) := by
  rw [← rowSum_eq]
  unfold rowSum aliveAt
  rw [rawMatrix_nCols, ← List.countP_eq_length_filter]
  have h1 : (List.range ev.length).map (fun j => ev.getD j (0, 0)) = ev := by
    apply List.ext_getElem
    · simp
    · intro i h1 h2
      simp [List.getElem?_eq_getElem h2]
  have h2 := List.countP_map (p := fun e => decide (Covers e (barIndex ev bars)[t]))
    (f := fun j => ev.getD j (0, 0)) (l := List.range ev.length)
  rw [h1] at h2
  rw [h2]
  apply List.countP_congr
  intro j hj
  have hj' := List.mem_range.1 hj
  rw [rawMatrix_ent ev bars t j ht hj']
  simp [List.getElem?_eq_getElem hj']

theorem avgUniq_raw (ev : List (ℤ × ℤ)) (bars : List ℤ) (j : ℕ) (hj : j < ev.length) :
    avgUniq (rawMatrix ev bars) j = eventUniq (barIndex ev bars).toFinset ev ev[j] := by
  have hnd : (barIndex ev bars).Nodup := (barIndex_sorted ev bars).imp ne_of_lt
  have hmem : ∀ t, t ∈ barsOf (rawMatrix ev bars) j →
      ∃ h : t < (barIndex ev bars).length, Covers ev[j] (barIndex ev bars)[t] := by
    intro t ht
    obtain ⟨h1, h2⟩ := Finset.mem_filter.1 ht
    rw [Finset.mem_range, rawMatrix_nRows] at h1
    exact ⟨h1, (rawMatrix_ent ev bars t j h1 hj).1 h2⟩
  have himg : ((barsOf (rawMatrix ev bars) j).image fun t => (barIndex ev bars).getD t 0) =
      (barIndex ev bars).toFinset.filter (Covers ev[j] ·) := by
    ext x
    simp only [Finset.mem_image, Finset.mem_filter, List.mem_toFinset]
    constructor
    · rintro ⟨t, ht, rfl⟩
      obtain ⟨h1, h2⟩ := hmem t ht
      simp only [List.getD_eq_getElem?_getD, List.getElem?_eq_getElem h1, Option.getD_some]
      exact ⟨List.getElem_mem h1, h2⟩
    · rintro ⟨hx, hc⟩
      obtain ⟨t, ht, rfl⟩ := List.getElem_of_mem hx
      refine ⟨t, ?_, by simp [List.getElem?_eq_getElem ht]⟩
      rw [barsOf, Finset.mem_filter, Finset.mem_range, rawMatrix_nRows]
      exact ⟨ht, (rawMatrix_ent ev bars t j ht hj).2 hc⟩
  have hinj : Set.InjOn (fun t => (barIndex ev bars).getD t 0) (barsOf (rawMatrix ev bars) j) := by
    intro a ha b hb hab
    obtain ⟨h1, _⟩ := hmem a ha
    obtain ⟨h2, _⟩ := hmem b hb
    simp only [List.getD_eq_getElem?_getD, List.getElem?_eq_getElem h1, List.getElem?_eq_getElem h2,
      Option.getD_some] at hab
    exact (hnd.getElem_inj_iff).1 hab
  unfold avgUniq eventUniq
  rw [← himg, Finset.card_image_of_injOn hinj, Finset.sum_image (fun a ha b hb => hinj ha hb)]
  congr 1
  apply Finset.sum_congr rfl
  intro t ht
  obtain ⟨h1, _⟩ := hmem t ht
  rw [samplesAt_card_raw ev bars t h1]
  simp [List.getElem?_eq_getElem h1]

/-- C13 for the transformer: on a frame with at least two events, a duplicate-free index and ends not
before starts, `AverageUniqueness.transform` returns one value per event, in the order of the frame: the
mean, over the recorded times (all starts and ends) in the life span of the event, of one over the
number of live events; all values are in `(0, 1]`. -/
theorem C13_transform (X : List (ℤ × ℤ)) (hlen : 2 ≤ X.length) (hnd : (X.map (·.1)).Nodup)
    (hse : ∀ e ∈ X, e.1 ≤ e.2) :
    averageUniqueness (X.map fun e => (e.1, some e.2)) =
      .ok (X.map fun e => (e.1, .fin (eventUniq (X.map (·.1) ++ X.map (·.2)).toFinset X e))) ∧
    ∀ e ∈ X, 0 < eventUniq (X.map (·.1) ++ X.map (·.2)).toFinset X e ∧
      eventUniq (X.map (·.1) ++ X.map (·.2)).toFinset X e ≤ 1 := by
  have hbi : (barIndex X (X.map (·.1))).toFinset = (X.map (·.1) ++ X.map (·.2)).toFinset := by
    ext x
    rw [List.mem_toFinset, mem_barIndex]
    simp only [List.mem_toFinset, List.mem_append, List.mem_map]
    constructor
    · rintro (⟨e, h, rfl⟩ | ⟨e, h, rfl⟩ | ⟨⟨e, h, rfl⟩, _⟩)
      · exact Or.inl ⟨e, h, rfl⟩
      · exact Or.inr ⟨e, h, rfl⟩
      · exact Or.inl ⟨e, h, rfl⟩
    · rintro (⟨e, h, rfl⟩ | ⟨e, h, rfl⟩)
      · exact Or.inl ⟨e, h, rfl⟩
      · exact Or.inr (Or.inl ⟨e, h, rfl⟩)
  have hne : X ≠ [] := by rintro rfl; simp at hlen
  have hdiff : ∃ e ∈ X, ∃ e' ∈ X, e ≠ e' := by
    refine ⟨X[0], List.getElem_mem _, X[1], List.getElem_mem _, ?_⟩
    intro h
    have h0 : 0 < X.length := by omega
    have := (List.Nodup.getElem_inj_iff hnd (i := 0) (hi := by simpa using h0) (j := 1)
      (hj := by simp; omega)).1 (by simp [h])
    omega
  obtain ⟨⟨M, bi⟩, hr⟩ := (C12_returns_iff_partial X (X.map (·.1)) hne hse).1.2 hdiff
  have hM : M = rawMatrix X (X.map (·.1)) := by
    have hr' : getIndMatrix (present X) (X.map (·.1)) = _ := hr
    rw [getIndMatrix_present] at hr'
    split_ifs at hr'
    cases hr'; rfl
  have hval : ∀ j (hj : j < X.length), (calcAverageUniqueness M)[j]? =
      some (.fin (eventUniq (X.map (·.1) ++ X.map (·.2)).toFinset X X[j])) ∧
      0 < eventUniq (X.map (·.1) ++ X.map (·.2)).toFinset X X[j] ∧
      eventUniq (X.map (·.1) ++ X.map (·.2)).toFinset X X[j] ≤ 1 := by
    intro j hj
    have hjM : j < M.nCols := by rw [hM, rawMatrix_nCols]; exact hj
    have hb : barsOf M j ≠ ∅ := by
      rw [hM]
      have hm : (X[j]).1 ∈ barIndex X (X.map (·.1)) :=
        mem_barIndex.2 (Or.inl ⟨_, List.getElem_mem hj, rfl⟩)
      obtain ⟨t, ht, htx⟩ := List.getElem_of_mem hm
      refine Finset.nonempty_iff_ne_empty.1 ⟨t, ?_⟩
      rw [barsOf, Finset.mem_filter, Finset.mem_range, rawMatrix_nRows]
      refine ⟨ht, (rawMatrix_ent X _ t j ht hj).2 ?_⟩
      rw [htx]
      exact ⟨le_refl _, hse _ (List.getElem_mem hj)⟩
    obtain ⟨u, h1, h2, h3, h4, _⟩ := (C13_average_uniqueness M j hjM).2 hb
    have hu : u = eventUniq (X.map (·.1) ++ X.map (·.2)).toFinset X X[j] := by
      rw [h2, ← hbi, ← avgUniq_raw X (X.map (·.1)) j hj, ← hM]; rfl
    exact ⟨by rw [h1, hu], hu ▸ h3, hu ▸ h4⟩
  constructor
  · unfold averageUniqueness
    rw [if_neg (by simp), if_neg (by rw [not_not, List.map_map]; exact hnd)]
    have e1 : (X.map fun e => (e.1, some e.2)).map (fun e => (some e.1, e.2)) =
        X.map (fun e => (some e.1, some e.2)) := by simp
    have e2 : (X.map fun e => (e.1, some e.2)).map (·.1) = X.map (·.1) := by simp
    rw [e1, e2, hr]
    simp only
    congr 1
    apply List.ext_getElem?
    intro j
    by_cases hj : j < X.length
    · have hz := (List.getElem?_zip_eq_some (z := ((X[j]).1, XF.fin (eventUniq (X.map (·.1) ++ X.map (·.2)).toFinset X X[j])))).2
        ⟨(by simp [hj] : (X.map (·.1))[j]? = some (X[j]).1), (hval j hj).1⟩
      rw [hz]
      simp [hj]
    · have : ((X.map (·.1)).zip (calcAverageUniqueness M)).length ≤ j := by
        simp; omega
      rw [List.getElem?_eq_none this]
      simp [List.getElem?_eq_none (Nat.le_of_not_lt hj)]
  · intro e he
    obtain ⟨j, hj, rfl⟩ := List.getElem_of_mem he
    exact (hval j hj).2

/-- Error branch of the transformer: a missing end or a duplicated index raises `AssertionError`. -/
theorem C13_transform_asserts (X : List (ℤ × Option ℤ))
    (h : (∃ e ∈ X, e.2 = none) ∨ ¬ (X.map (·.1)).Nodup) :
    averageUniqueness X = .error .assertionError := by
  unfold averageUniqueness
  by_cases h1 : ∃ e ∈ X, e.2 = none
  · rw [if_pos (by obtain ⟨e, he, h⟩ := h1; exact List.any_eq_true.2 ⟨e, he, by simp [h]⟩)]
  · have h2 := h.resolve_left h1
    rw [if_pos h2, ite_self]

example : averageUniqueness [(1, some 3), (2, some 6), (4, some 5)] =
    .ok [(1, .fin (2/3)), (2, .fin (3/5)), (4, .fin (1/2))] := by decide +kernel

/-- C14: the average uniqueness values weighted with the number of bars of each sample add up to the
number of bars covered by at least one sample. -/
theorem C14_uniqueness_conserved (M : IndMat) (h : ∀ j < M.nCols, barsOf M j ≠ ∅) :
    ∃ u : List ℚ, calcAverageUniqueness M = u.map .fin ∧
      ∑ j ∈ Finset.range M.nCols, u.getD j 0 * ((barsOf M j).card : ℚ) =
        (((Finset.range M.nRows).filter fun t => ∃ j < M.nCols, M.ent t j = true).card : ℚ) := by
  refine ⟨(List.range M.nCols).map (avgUniq M), ?_, ?_⟩
  · apply List.ext_getElem?
    intro j
    by_cases hj : j < M.nCols
    · rw [calcAverageUniqueness_getElem M j hj, if_neg (h j hj)]
      simp [hj]
    · rw [List.getElem?_eq_none (by rw [length_zip_calc]; omega)]
      simp [List.getElem?_eq_none, Nat.le_of_not_lt hj]
  · have h1 : ∀ j ∈ Finset.range M.nCols,
        ((List.range M.nCols).map (avgUniq M)).getD j 0 * ((barsOf M j).card : ℚ) =
          ∑ t ∈ Finset.range M.nRows, if M.ent t j = true then (1 : ℚ) / ((samplesAt M t).card : ℚ) else 0 := by
      intro j hj
      have hj' := Finset.mem_range.1 hj
      have hc : ((barsOf M j).card : ℚ) ≠ 0 := by
        have := Finset.card_pos.2 (Finset.nonempty_iff_ne_empty.2 (h j hj'))
        positivity
      have : ((List.range M.nCols).map (avgUniq M)).getD j 0 = avgUniq M j := by
        simp [hj']
      rw [this, avgUniq, div_mul_cancel₀ _ hc, barsOf, Finset.sum_filter]
    rw [Finset.sum_congr rfl h1, Finset.sum_comm]
    rw [Finset.card_filter]
    push_cast
    apply Finset.sum_congr rfl
    intro t _
    rw [← Finset.sum_filter]
    change ∑ j ∈ samplesAt M t, _ = _
    rw [Finset.sum_const, nsmul_eq_mul]
    by_cases hs : samplesAt M t = ∅
    · rw [hs, if_neg]
      · simp
      · rintro ⟨j, hj, he⟩
        have : j ∈ samplesAt M t := by simp [samplesAt, hj, he]
        rw [hs] at this; simp at this
    · rw [if_pos]
      · have := Finset.card_pos.2 (Finset.nonempty_iff_ne_empty.2 hs)
        field_simp
      · obtain ⟨j, hj⟩ := Finset.nonempty_iff_ne_empty.2 hs
        have := Finset.mem_filter.1 hj
        exact ⟨j, Finset.mem_range.1 this.1, this.2⟩

example : ∀ j < (IndMat.ofLists 2 [[true, false], [true, true]]).nCols,
    barsOf (IndMat.ofLists 2 [[true, false], [true, true]]) j ≠ ∅ := by decide +kernel

end Mizar.Props
