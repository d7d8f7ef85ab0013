import Verif.Props.Uniqueness

/-!
Property theorems C114: what further events do to the average uniqueness of an event
(`/repo/mizarlabs/model/bootstrapping.py` lines 7-95,
`/repo/mizarlabs/transformers/sampling/average_uniqueness.py`).
-/

namespace Mizar.Props
open Mizar.Spec Mizar.Boot

theorem aliveAt_mono {ev ev' : List (ℤ × ℤ)} (h : ev.Sublist ev') (t : ℤ) : aliveAt ev t ≤ aliveAt ev' t :=
  (h.filter _).length_le

theorem aliveAt_pos {ev : List (ℤ × ℤ)} {e : ℤ × ℤ} (he : e ∈ ev) {t : ℤ} (ht : Covers e t) : 0 < aliveAt ev t :=
  List.length_pos_of_mem (List.mem_filter.2 ⟨he, by simpa using ht⟩)

/-- More live events at the same recorded times: not more unique. -/
theorem eventUniq_le {times times' : Finset ℤ} {ev ev' : List (ℤ × ℤ)} {e : ℤ × ℤ} (he : e ∈ ev)
    (ht : times'.filter (Covers e ·) = times.filter (Covers e ·)) (h : ev.Sublist ev') :
    eventUniq times' ev' e ≤ eventUniq times ev e := by
  unfold eventUniq
  rw [ht]
  apply div_le_div_of_nonneg_right _ (Nat.cast_nonneg _)
  apply Finset.sum_le_sum
  intro t hm
  have h1 := aliveAt_pos he (Finset.mem_filter.1 hm).2
  exact one_div_le_one_div_of_le (by exact_mod_cast h1) (by exact_mod_cast aliveAt_mono h t)

/-- Strictly more live events at one of the recorded times: strictly less unique. -/
theorem eventUniq_lt {times times' : Finset ℤ} {ev ev' : List (ℤ × ℤ)} {e : ℤ × ℤ} (he : e ∈ ev)
    (ht : times'.filter (Covers e ·) = times.filter (Covers e ·)) (h : ev.Sublist ev') (t : ℤ) (htm : t ∈ times) (hte : Covers e t)
    (hlt : aliveAt ev t < aliveAt ev' t) : eventUniq times' ev' e < eventUniq times ev e := by
  unfold eventUniq
  rw [ht]
  have hm : t ∈ times.filter (Covers e ·) := Finset.mem_filter.2 ⟨htm, hte⟩
  have hc : 0 < (times.filter (Covers e ·)).card := Finset.card_pos.2 ⟨t, hm⟩
  apply div_lt_div_of_pos_right _ (by exact_mod_cast hc)
  apply Finset.sum_lt_sum
  · intro t hm
    have h1 := aliveAt_pos he (Finset.mem_filter.1 hm).2
    exact one_div_le_one_div_of_le (by exact_mod_cast h1) (by exact_mod_cast aliveAt_mono h t)
  · refine ⟨t, hm, ?_⟩
    have h1 := aliveAt_pos he hte
    exact one_div_lt_one_div_of_lt (by exact_mod_cast h1) (by exact_mod_cast hlt)

/-- The same live events at the same recorded times: equally unique. -/
theorem eventUniq_congr {times times' : Finset ℤ} {ev ev' : List (ℤ × ℤ)} {e : ℤ × ℤ}
    (ht : times'.filter (Covers e ·) = times.filter (Covers e ·)) (h : ∀ t, Covers e t → aliveAt ev' t = aliveAt ev t) :
    eventUniq times' ev' e = eventUniq times ev e := by
  unfold eventUniq
  rw [ht]
  congr 1
  apply Finset.sum_congr rfl
  intro t hm
  rw [h t (Finset.mem_filter.1 hm).2]

/-- What the matrix returned by `get_ind_matrix` gives for an event that does not end before it starts. -/
theorem uniq_of_matrix {ev : List (ℤ × ℤ)} {bars : List ℤ} {M : IndMat} {bi : List ℤ}
    (h : getIndMatrix (ev.map fun e => (some e.1, some e.2)) bars = .ok (M, bi)) (j : ℕ) (hj : j < ev.length) (hse : ev[j].1 ≤ ev[j].2) :
    (calcAverageUniqueness M)[j]? = some (.fin (eventUniq (barIndex ev bars).toFinset ev ev[j])) := by
  have hM : M = rawMatrix ev bars := by
    have hr' : getIndMatrix (present ev) bars = _ := h
    rw [getIndMatrix_present] at hr'
    split_ifs at hr'
    cases hr'; rfl
  subst hM
  have hb : barsOf (rawMatrix ev bars) j ≠ ∅ := by
    have hm : (ev[j]).1 ∈ barIndex ev bars := mem_barIndex.2 (Or.inl ⟨_, List.getElem_mem hj, rfl⟩)
    obtain ⟨t, ht, htx⟩ := List.getElem_of_mem hm
    refine Finset.nonempty_iff_ne_empty.1 ⟨t, ?_⟩
    rw [barsOf, Finset.mem_filter, Finset.mem_range, rawMatrix_nRows]
    refine ⟨ht, (rawMatrix_ent ev _ t j ht hj).2 ?_⟩
    rw [htx]
    exact ⟨le_refl _, hse⟩
  obtain ⟨u, h1, h2, -⟩ := (C13_average_uniqueness (rawMatrix ev bars) j (by rw [rawMatrix_nCols]; exact hj)).2 hb
  rw [h1, h2, ← avgUniq_raw ev bars j hj]
  rfl

/-- The events of `ev'` beyond those of `ev`: those that make up the difference in multiplicity. -/
def Further (ev ev' : List (ℤ × ℤ)) (x : ℤ × ℤ) : Prop := ev.count x < ev'.count x

theorem Further.mem {ev ev' : List (ℤ × ℤ)} {x : ℤ × ℤ} (h : Further ev ev' x) : x ∈ ev' :=
  List.count_pos_iff.1 (lt_of_le_of_lt (Nat.zero_le _) h)

theorem further_or {ev ev' : List (ℤ × ℤ)} {x : ℤ × ℤ} (hx : x ∈ ev') : Further ev ev' x ∨ x ∈ ev := by
  by_cases h : x ∈ ev
  · exact Or.inr h
  · exact Or.inl (by unfold Further; rw [List.count_eq_zero_of_not_mem h]; exact List.count_pos_iff.2 hx)

theorem aliveAt_lt_of_further {ev ev' : List (ℤ × ℤ)} (h : ev.Sublist ev') {x : ℤ × ℤ} (hx : Further ev ev' x) {t : ℤ} (ht : Covers x t) :
    aliveAt ev t < aliveAt ev' t := by
  refine lt_of_le_of_ne (aliveAt_mono h t) fun he => ?_
  have := (h.filter fun e => decide (Covers e t)).eq_of_length he
  have hc := congrArg (List.count x) this
  rw [List.count_filter (by simpa using ht), List.count_filter (by simpa using ht)] at hc
  exact absurd hc (Nat.ne_of_lt hx)

theorem aliveAt_eq_of_not {ev ev' : List (ℤ × ℤ)} (h : ev.Sublist ev') {t : ℤ} (hn : ∀ x, Further ev ev' x → ¬ Covers x t) :
    aliveAt ev' t = aliveAt ev t := by
  have hp : (ev'.filter fun e => decide (Covers e t)).Perm (ev.filter fun e => decide (Covers e t)) := by
    rw [List.perm_iff_count]
    intro x
    by_cases hc : Covers x t
    · rw [List.count_filter (by simpa using hc), List.count_filter (by simpa using hc)]
      have h1 : ¬ Further ev ev' x := fun hf => hn x hf hc
      exact le_antisymm (not_lt.1 h1) (h.count_le x)
    · rw [List.count_eq_zero_of_not_mem (fun hm => hc (by simpa using (List.mem_filter.1 hm).2)),
        List.count_eq_zero_of_not_mem (fun hm => hc (by simpa using (List.mem_filter.1 hm).2))]
  exact hp.length_eq

theorem times_eq_of_bars {ev ev' : List (ℤ × ℤ)} (bars : List ℤ) (h : ev.Sublist ev') {e : ℤ × ℤ} (he : e ∈ ev)
    (hb : ∀ x, Further ev ev' x → (x.1 ∈ bars ∨ ¬ Covers e x.1) ∧ (x.2 ∈ bars ∨ ¬ Covers e x.2)) :
    (barIndex ev' bars).toFinset.filter (Covers e ·) = (barIndex ev bars).toFinset.filter (Covers e ·) := by
  ext t
  simp only [Finset.mem_filter, List.mem_toFinset, mem_barIndex]
  constructor
  · rintro ⟨hm, hc⟩
    refine ⟨?_, hc⟩
    have bar : t ∈ bars → (∃ e ∈ ev, t = e.1) ∨ (∃ e ∈ ev, t = e.2) ∨ (t ∈ bars ∧ (∃ e ∈ ev, e.1 ≤ t) ∧ (∃ e ∈ ev, t ≤ e.2)) :=
      fun hb => Or.inr (Or.inr ⟨hb, ⟨e, he, hc.1⟩, ⟨e, he, hc.2⟩⟩)
    rcases hm with ⟨x, hx, rfl⟩ | ⟨x, hx, rfl⟩ | ⟨hm, -⟩
    · rcases further_or (ev := ev) hx with hf | hx
      · rcases (hb x hf).1 with hb | hb
        · exact bar hb
        · exact absurd hc hb
      · exact Or.inl ⟨x, hx, rfl⟩
    · rcases further_or (ev := ev) hx with hf | hx
      · rcases (hb x hf).2 with hb | hb
        · exact bar hb
        · exact absurd hc hb
      · exact Or.inr (Or.inl ⟨x, hx, rfl⟩)
    · exact bar hm
  · rintro ⟨hm, hc⟩
    refine ⟨?_, hc⟩
    rcases hm with ⟨x, hx, rfl⟩ | ⟨x, hx, rfl⟩ | ⟨hm, ⟨a, ha, ha'⟩, ⟨b, hb, hb'⟩⟩
    · exact Or.inl ⟨x, h.subset hx, rfl⟩
    · exact Or.inr (Or.inl ⟨x, h.subset hx, rfl⟩)
    · exact Or.inr (Or.inr ⟨hm, ⟨a, h.subset ha, ha'⟩, ⟨b, h.subset hb, hb'⟩⟩)

/-- C114: `get_ind_matrix` and `calc_average_uniqueness` on some events and on more events, with the same bars.  If the further
events start and end at bars, an event `e` of the first list does not become more unique, and it becomes strictly less unique if
a further event is alive at one of the bars (or other recorded times) of `e`.  Without the condition on the bars this is false
(`C114_more_events_refuted`). -/
theorem C114_more_events_partial (ev ev' : List (ℤ × ℤ)) (hsub : ev.Sublist ev') (bars : List ℤ)
    (hbars : ∀ x, Further ev ev' x → x.1 ∈ bars ∧ x.2 ∈ bars) (M M' : IndMat) (bi bi' : List ℤ)
    (h : getIndMatrix (ev.map fun e => (some e.1, some e.2)) bars = .ok (M, bi))
    (h' : getIndMatrix (ev'.map fun e => (some e.1, some e.2)) bars = .ok (M', bi'))
    (j j' : ℕ) (hj : j < ev.length) (hj' : j' < ev'.length) (hjj : ev'[j'] = ev[j]) (hse : ev[j].1 ≤ ev[j].2) :
    ∃ u u' : ℚ, (calcAverageUniqueness M)[j]? = some (.fin u) ∧ (calcAverageUniqueness M')[j']? = some (.fin u') ∧ u' ≤ u ∧
      ((∃ x t, Further ev ev' x ∧ t ∈ bi ∧ Covers x t ∧ Covers ev[j] t) → u' < u) := by
  have e2 := uniq_of_matrix h' j' hj' (by rw [hjj]; exact hse)
  rw [hjj] at e2
  have hbi : bi = barIndex ev bars := by
    have hr' : getIndMatrix (present ev) bars = _ := h
    rw [getIndMatrix_present] at hr'
    split_ifs at hr'
    cases hr'; rfl
  have ht := times_eq_of_bars bars hsub (List.getElem_mem hj) (fun x hx => ⟨Or.inl (hbars x hx).1, Or.inl (hbars x hx).2⟩)
  refine ⟨_, _, uniq_of_matrix h j hj hse, e2, eventUniq_le (List.getElem_mem hj) ht hsub, ?_⟩
  rintro ⟨x, t, hx, htb, hxt, het⟩
  rw [hbi] at htb
  exact eventUniq_lt (List.getElem_mem hj) ht hsub t (List.mem_toFinset.2 htb) het (aliveAt_lt_of_further hsub hx hxt)

/-- C114: further events that are over before `e` starts or start after `e` is over leave the average uniqueness of `e` as it
is, wherever their starts and ends are and whatever the bars are. -/
theorem C114_separate_events (ev ev' : List (ℤ × ℤ)) (hsub : ev.Sublist ev') (bars : List ℤ) (M M' : IndMat) (bi bi' : List ℤ)
    (h : getIndMatrix (ev.map fun e => (some e.1, some e.2)) bars = .ok (M, bi))
    (h' : getIndMatrix (ev'.map fun e => (some e.1, some e.2)) bars = .ok (M', bi'))
    (j j' : ℕ) (hj : j < ev.length) (hj' : j' < ev'.length) (hjj : ev'[j'] = ev[j]) (hse : ev[j].1 ≤ ev[j].2)
    (hsep : ∀ x, Further ev ev' x → x.1 ≤ x.2 ∧ (x.2 < ev[j].1 ∨ ev[j].2 < x.1)) :
    ∃ u : ℚ, (calcAverageUniqueness M)[j]? = some (.fin u) ∧ (calcAverageUniqueness M')[j']? = some (.fin u) := by
  have e2 := uniq_of_matrix h' j' hj' (by rw [hjj]; exact hse)
  rw [hjj] at e2
  have hout : ∀ x, Further ev ev' x → ∀ t, Covers ev[j] t → t < x.1 ∨ x.2 < t := by
    intro x hx t ht
    obtain ⟨h1, h2⟩ := hsep x hx
    obtain ⟨h3, h4⟩ := ht
    omega
  have ht := times_eq_of_bars bars hsub (List.getElem_mem hj) (fun x hx =>
    ⟨Or.inr (fun hc => by rcases hout x hx _ hc with h | h <;> have := (hsep x hx).1 <;> omega),
      Or.inr (fun hc => by rcases hout x hx _ hc with h | h <;> have := (hsep x hx).1 <;> omega)⟩)
  rw [eventUniq_congr ht (fun t hc => aliveAt_eq_of_not hsub (fun x hx hxt => by
    rcases hout x hx t hc with h | h
    · exact absurd hxt.1 (by omega)
    · exact absurd hxt.2 (by omega)))] at e2
  exact ⟨_, uniq_of_matrix h j hj hse, e2⟩

/-- C114 for `AverageUniqueness.transform`: further rows whose events are over before or start after an event leave the value of
this event as it is. -/
theorem C114_separate_rows (X X' : List (ℤ × ℤ)) (hsub : X.Sublist X') (hlen : 2 ≤ X.length) (hnd : (X'.map (·.1)).Nodup)
    (hse : ∀ e ∈ X', e.1 ≤ e.2) (e : ℤ × ℤ) (he : e ∈ X) (hsep : ∀ x ∈ X', x ∉ X → x.2 < e.1 ∨ e.2 < x.1) :
    ∃ r r' u, averageUniqueness (X.map fun e => (e.1, some e.2)) = .ok r ∧
      averageUniqueness (X'.map fun e => (e.1, some e.2)) = .ok r' ∧ (e.1, u) ∈ r ∧ (e.1, u) ∈ r' := by
  obtain ⟨h1, -⟩ := C13_transform X hlen (hnd.sublist (hsub.map _)) (fun e he => hse e (hsub.subset he))
  obtain ⟨h2, -⟩ := C13_transform X' (hlen.trans hsub.length_le) hnd hse
  have hX' : X'.Nodup := hnd.of_map
  have hf : ∀ x, Further X X' x → x ∈ X' ∧ x ∉ X := by
    intro x hx
    refine ⟨hx.mem, fun hm => ?_⟩
    have a := List.count_pos_iff.2 hm
    have b := List.nodup_iff_count_le_one.1 hX' x
    unfold Further at hx
    omega
  have hout : ∀ x ∈ X', x ∉ X → ∀ t, Covers e t → t < x.1 ∨ x.2 < t := by
    intro x hx hx' t ht
    have h1 := hse x hx
    have h2 := hsep x hx hx'
    obtain ⟨h3, h4⟩ := ht
    omega
  have key : eventUniq (X'.map (·.1) ++ X'.map (·.2)).toFinset X' e = eventUniq (X.map (·.1) ++ X.map (·.2)).toFinset X e := by
    apply eventUniq_congr
    · ext t
      simp only [Finset.mem_filter, List.mem_toFinset, List.mem_append, List.mem_map]
      constructor
      · rintro ⟨⟨x, hx, rfl⟩ | ⟨x, hx, rfl⟩, hc⟩
        · by_cases hm : x ∈ X
          · exact ⟨Or.inl ⟨x, hm, rfl⟩, hc⟩
          · have := hout x hx hm _ hc; have := hse x hx; omega
        · by_cases hm : x ∈ X
          · exact ⟨Or.inr ⟨x, hm, rfl⟩, hc⟩
          · have := hout x hx hm _ hc; have := hse x hx; omega
      · rintro ⟨⟨x, hx, rfl⟩ | ⟨x, hx, rfl⟩, hc⟩
        · exact ⟨Or.inl ⟨x, hsub.subset hx, rfl⟩, hc⟩
        · exact ⟨Or.inr ⟨x, hsub.subset hx, rfl⟩, hc⟩
    · intro t hc
      apply aliveAt_eq_of_not hsub
      intro x hx hxt
      obtain ⟨hx1, hx2⟩ := hf x hx
      rcases hout x hx1 hx2 t hc with h | h
      · exact absurd hxt.1 (by omega)
      · exact absurd hxt.2 (by omega)
  exact ⟨_, _, _, h1, h2, List.mem_map.2 ⟨e, he, rfl⟩, List.mem_map.2 ⟨e, hsub.subset he, by rw [key]⟩⟩

/-- C114: in general a further event can make an event more unique, since its times become rows of the matrix: the event from 10
to 20 goes from 3/8 to 5/12 when an event at 15 is added. -/
theorem C114_more_events_refuted :
    averageUniqueness [(0, some 10), (1, some 10), (2, some 10), (10, some 20), (20, some 30)] =
      .ok [(0, .fin (25/48)), (1, .fin (13/36)), (2, .fin (7/24)), (10, .fin (3/8)), (20, .fin (3/4))] ∧
    averageUniqueness [(0, some 10), (1, some 10), (2, some 10), (10, some 20), (15, some 15), (20, some 30)] =
      .ok [(0, .fin (25/48)), (1, .fin (13/36)), (2, .fin (7/24)), (10, .fin (5/12)), (15, .fin (1/2)), (20, .fin (3/4))] := by
  constructor <;> decide +kernel

/-- Two events on four bars and a third one from the second to the third bar. -/
example : [((10 : ℤ), (30 : ℤ)), (20, 40)].Sublist [(10, 30), (20, 30), (20, 40)] ∧
    Further [((10 : ℤ), (30 : ℤ)), (20, 40)] [(10, 30), (20, 30), (20, 40)] (20, 30) ∧
    ((getIndMatrix [(some 10, some 30), (some 20, some 40)] [10, 20, 30, 40]).map fun r => calcAverageUniqueness r.1) =
      .ok [.fin (2/3), .fin (2/3)] ∧
    ((getIndMatrix [(some 10, some 30), (some 20, some 30), (some 20, some 40)] [10, 20, 30, 40]).map
      fun r => calcAverageUniqueness r.1) = .ok [.fin (5/9), .fin (1/3), .fin (5/9)] :=
  ⟨by decide, by unfold Further; decide, by decide +kernel, by decide +kernel⟩

/-- A third event after the first one, not after the second one. -/
example : [((10 : ℤ), (30 : ℤ)), (20, 40)].Sublist [(10, 30), (20, 40), (35, 50)] ∧
    averageUniqueness [(10, some 30), (20, some 40)] = .ok [(10, .fin (2/3)), (20, .fin (2/3))] ∧
    averageUniqueness [(10, some 30), (20, some 40), (35, some 50)] =
      .ok [(10, .fin (2/3)), (20, .fin (1/2)), (35, .fin (2/3))] :=
  ⟨by decide, by decide +kernel, by decide +kernel⟩

end Mizar.Props
