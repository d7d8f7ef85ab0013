import Verif.Props.Labeling
import Verif.Props.Uniqueness
import Verif.Props.SeqBootstrap
import Verif.Props.SampleWeights
import Verif.Props.CV

/-! Property theorems C88: the labels can be given to the transformers, the bootstrap and the cross validation as they are. -/

namespace Mizar.Props
open Mizar.Lab Mizar.Spec Mizar.Boot
variable {K : Type*} [Field K] [LinearOrder K] [IsStrictOrderedRing K]

/-- Start and end of the labelled events: the rows of the output whose end time is not missing. -/
def labelledEvents (times : List ℤ) (rows : List (Lab.Row K)) : List (ℤ × ℤ) :=
  (times.zip rows).filterMap fun p => p.2.endTime.map fun e => (p.1, e)

/-- The labelled events come in the order of the bars, start at bars, end after they start and at a bar.  Not covered: times that are not
whole milliseconds, where it is false (`C88_sub_millisecond_refuted`). -/
theorem C88_events_partial {dv : List ℤ → List (XF K) → List (XF K)} {c : Cfg K} {f : Lab.Frame K} {times : List ℤ}
    {close side vol : List (Option K)} {n : ℕ} (h : LabelInput dv c f times close side vol n) (hn : 1 ≤ n) (hvol : ∀ v, some v ∈ vol → 0 ≤ v) :
    ∃ rows, Lab.transform dv c f = .ok rows ∧
      ((labelledEvents times rows).map (·.1)).Pairwise (· < ·) ∧
      ∀ e ∈ labelledEvents times rows, e.1 < e.2 ∧ e.1 ∈ times ∧ e.2 ∈ times := by
  obtain ⟨rows, h1, h2, h3⟩ := C26_event_end_partial h hn hvol
  obtain ⟨rows', h1', h3'⟩ := C30_no_volatility_no_label_partial h
  obtain ⟨rows'', h1'', h3''⟩ : ∃ rows, Lab.transform dv c f = .ok rows ∧
      ∀ i < times.length, ∀ row t, rows[i]? = some row → row.endTime = some t → t ∈ times := by
    refine ⟨rows, h1, ?_⟩
    intro i hi row t hr ht
    by_cases hv : vol.getD i none = none
    · have := h3' i hi hv
      rw [h1] at h1'
      injection h1' with h1'
      rw [← h1', hr] at this
      injection this with this
      rw [this] at ht
      cases ht
    · obtain ⟨row', sl, pt, hr', hsl, hpt, hend, _⟩ := h3 i hi hv
      rw [hr] at hr'
      injection hr' with hr'
      subst hr'
      rw [ht] at hend
      cases he : earliest (if i + n < times.length then some (i + n) else none) sl pt with
      | none => rw [he] at hend; cases hend
      | some k =>
        rw [he] at hend
        have hk : k < times.length := by
          have hm := (List.min?_eq_some_iff.1 he).1
          simp only [List.filterMap_cons, List.filterMap_nil] at hm
          have hw : winEnd times.length n i ≤ times.length := by unfold winEnd; split <;> omega
          have hsl' : ∀ j, sl = some j → j < times.length := by
            intro j hj; subst hj; exact lt_of_lt_of_le hsl.2.1 hw
          have hpt' : ∀ j, pt = some j → j < times.length := by
            intro j hj; subst hj; exact lt_of_lt_of_le hpt.2.1 hw
          by_cases hin : i + n < times.length
          · cases sl <;> cases pt <;> simp [hin] at hm <;> simp at hsl' hpt' <;> omega
          · cases sl <;> cases pt <;> simp [hin] at hm <;> simp at hsl' hpt' <;> omega
        have : t = times.getD k 0 := by simpa using hend
        rw [this, List.getD_eq_getElem?_getD, List.getElem?_eq_getElem hk]
        exact List.getElem_mem hk
  rw [h1] at h1' h1''
  injection h1' with h1'
  injection h1'' with h1''
  subst h1' h1''
  refine ⟨rows, h1, ?_, ?_⟩
  · have hsub : ((labelledEvents times rows).map (·.1)).Sublist times := by
      clear h1 h3 h3' h3'' h
      unfold labelledEvents
      induction times generalizing rows with
      | nil => simp
      | cons a times ih =>
        cases rows with
        | nil => simp
        | cons r rows =>
          have := ih rows (by simpa using h2)
          rw [List.zip_cons_cons]
          cases hr : r.endTime with
          | none =>
            rw [List.filterMap_cons_none (by simp [hr])]
            exact this.cons _
          | some e =>
            rw [List.filterMap_cons_some (b := (a, e)) (by simp [hr])]
            exact this.cons_cons _
    exact h.sorted.sublist hsub
  · intro e he
    unfold labelledEvents at he
    obtain ⟨p, hp, hpe⟩ := List.mem_filterMap.1 he
    obtain ⟨i, hi⟩ := List.mem_iff_getElem?.1 hp
    rw [List.getElem?_zip_eq_some] at hi
    obtain ⟨ht, hr⟩ := hi
    obtain ⟨t, het, rfl⟩ := Option.map_eq_some_iff.1 hpe
    obtain ⟨hil, hie⟩ := List.getElem?_eq_some_iff.1 ht
    have hget : times.getD i 0 = p.1 := by rw [List.getD_eq_getElem?_getD, ht]; rfl
    by_cases hv : vol.getD i none = none
    · have := h3' i hil hv
      rw [hr] at this
      injection this with this
      rw [this] at het
      cases het
    · obtain ⟨row, sl, pt, hr', _, _, _, hlt, _⟩ := h3 i hil hv
      rw [hr] at hr'
      injection hr' with hr'
      subst hr'
      refine ⟨?_, ?_, h3'' i hil p.2 t hr het⟩
      · have := (hlt t het).1
        rwa [hget] at this
      · exact List.mem_of_getElem? ht

/-- Two or more labelled events can be given to `AverageUniqueness`, to `get_ind_matrix` with the bars, and the matrix to
`seq_bootstrap`: nothing raises, the uniqueness of every event is above 0 and at most 1, and any number of events can be drawn. -/
theorem C88_bootstrap {dv : List ℤ → List (XF K) → List (XF K)} {c : Cfg K} {f : Lab.Frame K} {times : List ℤ}
    {close side vol : List (Option K)} {n : ℕ} (h : LabelInput dv c f times close side vol n) (hn : 1 ≤ n) (hvol : ∀ v, some v ∈ vol → 0 ≤ v) :
    ∃ rows, Lab.transform dv c f = .ok rows ∧ (2 ≤ (labelledEvents times rows).length →
      (∃ u : List ℚ, averageUniqueness ((labelledEvents times rows).map fun e => (e.1, some e.2)) =
        .ok (((labelledEvents times rows).map (·.1)).zip (u.map .fin)) ∧ u.length = (labelledEvents times rows).length ∧ ∀ x ∈ u, 0 < x ∧ x ≤ 1) ∧
      ∃ M bi, getIndMatrix ((labelledEvents times rows).map fun e => (some e.1, some e.2)) times = .ok (M, bi) ∧
        M.nCols = (labelledEvents times rows).length ∧
        ∀ rng, ValidRng M.nCols rng → ∀ (len k : ℕ), 1 ≤ k → ∃ l, seqBootstrap M rng (some len) k = .ok l ∧ l.length = len ∧
          ∀ j ∈ l, j < (labelledEvents times rows).length) := by
  obtain ⟨rows, h1, h2, h3⟩ := C88_events_partial h hn hvol
  refine ⟨rows, h1, ?_⟩
  generalize labelledEvents times rows = ev at *
  intro hlen
  have hse : ∀ e ∈ ev, e.1 ≤ e.2 := fun e he => (h3 e he).1.le
  have hnd : (ev.map (·.1)).Nodup := h2.imp fun h => ne_of_lt h
  constructor
  · obtain ⟨hu, hb⟩ := C13_transform ev hlen hnd hse
    refine ⟨ev.map (eventUniq (ev.map (·.1) ++ ev.map (·.2)).toFinset ev), ?_, by simp, ?_⟩
    · rw [hu, List.map_map, List.zip_map']
      rfl
    · intro x hx
      obtain ⟨e, he, rfl⟩ := List.mem_map.1 hx
      exact hb e he
  · have hne : ∃ e ∈ ev, ∃ e' ∈ ev, e ≠ e' := by
      match ev, hlen, hnd with
      | a :: b :: l, _, hnd =>
        refine ⟨a, by simp, b, by simp, ?_⟩
        intro hab
        simp [hab] at hnd
    obtain ⟨⟨M, bi⟩, hM⟩ := (C12_returns_iff_partial ev times (by rintro rfl; simp at hlen) hse).1.2 hne
    have hc := (C11_indicator_matrix ev times M bi hM).2.2.2.1
    refine ⟨M, bi, hM, hc, ?_⟩
    intro rng hrng len k hk
    obtain ⟨l, e1, e2, e3⟩ := C16_length_and_range M (by omega) rng hrng (some len) k (by omega)
    exact ⟨l, e1, by simpa using e2, fun j hj => hc ▸ e3 j hj⟩

/-- The labelled events form a dataset as the cross validation requires it: event starts as prediction times, event ends as
evaluation times. -/
theorem C88_cross_validation {dv : List ℤ → List (XF K) → List (XF K)} {c : Cfg K} {f : Lab.Frame K} {times : List ℤ}
    {close side vol : List (Option K)} {n : ℕ} (h : LabelInput dv c f times close side vol n) (hn : 1 ≤ n) (hvol : ∀ v, some v ∈ vol → 0 ≤ v) :
    ∃ rows, Lab.transform dv c f = .ok rows ∧
      Timeline (labelledEvents times rows).length (fun i => ((labelledEvents times rows).getD i (0, 0)).1)
        (fun i => ((labelledEvents times rows).getD i (0, 0)).2) := by
  obtain ⟨rows, h1, h2, h3⟩ := C88_events_partial h hn hvol
  refine ⟨rows, h1, ?_, ?_⟩
  · intro i j hij hj
    rcases Nat.eq_or_lt_of_le hij with rfl | hij
    · exact le_refl _
    · have := List.pairwise_iff_getElem.1 h2 i j (by rw [List.length_map]; omega) (by simpa using hj) hij
      rw [List.getElem_map, List.getElem_map] at this
      rw [List.getD_eq_getElem?_getD, List.getD_eq_getElem?_getD, List.getElem?_eq_getElem (by omega), List.getElem?_eq_getElem hj]
      exact this.le
  · intro i hi
    rw [List.getD_eq_getElem?_getD, List.getElem?_eq_getElem hi]
    exact (h3 _ (List.getElem_mem hi)).1.le

/-- The weights by returns of two or more labelled events are finite and not negative, whatever prices are missing. -/
theorem C88_weights {dv : List ℤ → List (XF K) → List (XF K)} {c : Cfg K} {f : Lab.Frame K} {times : List ℤ}
    {close side vol : List (Option K)} {n : ℕ} (h : LabelInput dv c f times close side vol n) (hn : 1 ≤ n) (hvol : ∀ v, some v ∈ vol → 0 ≤ v) :
    ∃ rows, Lab.transform dv c f = .ok rows ∧ (2 ≤ (labelledEvents times rows).length →
      ∀ prices : List (Option ℝ), prices.length = (labelledEvents times rows).length → (∀ p, some p ∈ prices → 0 < p) →
        ∃ w : List ℝ, SW.weightsByReturns (List.zipWith (fun e p => ⟨e.1, some e.2, xf p⟩) (labelledEvents times rows) prices) =
          .ok (((labelledEvents times rows).map (·.1)).zip (w.map .fin)) ∧ w.length = (labelledEvents times rows).length ∧ ∀ x ∈ w, 0 ≤ x) := by
  obtain ⟨rows, h1, h2, h3⟩ := C88_events_partial h hn hvol
  refine ⟨rows, h1, ?_⟩
  generalize labelledEvents times rows = ev at *
  intro hlen prices hpl hpos
  have hne : ∃ e ∈ ev, ∃ e' ∈ ev, e ≠ e' := by
    match ev, hlen, h2 with
    | a :: b :: l, _, h2 =>
      refine ⟨a, by simp, b, by simp, ?_⟩
      intro hab
      simp [hab] at h2
  obtain ⟨w, hw, hb⟩ := C42_weights_by_return_partial ev prices hpl hpos (fun e he => (h3 e he).1.le) hne
    fun e he => ⟨h.whole_ms _ (h3 e he).2.1, h.whole_ms _ (h3 e he).2.2⟩
  refine ⟨ev.map w, ?_, by simp, ?_⟩
  · have e : (fun (e : ℤ × ℤ) (p : Option ℝ) => (⟨e.1, some e.2, xf p⟩ : SW.Row)) =
        fun e c => ⟨e.1, some e.2, match c with | some x => .fin x | none => .nan⟩ := by
      funext e p
      cases p <;> rfl
    rw [e]
    refine hw.trans ?_
    rw [List.map_map, List.zip_map']
    rfl
  · intro x hx
    obtain ⟨e, he, rfl⟩ := List.mem_map.1 hx
    exact (hb e he).2.1

/-- Events of the example frame: the first two bars are labelled. -/
example : Lab.transform (fun _ _ => []) clockCfg (clockFrame 1000000000 1000000000) = .ok
      [⟨some 2000000000, .fin 1, .fin (4/5), .fin 1⟩, ⟨some 4000000000, .fin 1, .fin (-1/3), .fin (-1)⟩, ⟨none, .fin 1, .nan, .nan⟩, ⟨none, .fin 1, .nan, .nan⟩] ∧
    labelledEvents (K := ℚ) [1000000000, 2000000000, 3000000000, 4000000000]
      [⟨some 2000000000, .fin 1, .fin (4/5), .fin 1⟩, ⟨some 4000000000, .fin 1, .fin (-1/3), .fin (-1)⟩, ⟨none, .fin 1, .nan, .nan⟩, ⟨none, .fin 1, .nan, .nan⟩] =
      [(1000000000, 2000000000), (2000000000, 4000000000)] := by decide +kernel

end Mizar.Props
