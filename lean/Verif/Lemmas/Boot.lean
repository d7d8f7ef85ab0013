import Mathlib.Algebra.Order.BigOperators.Group.Finset
import Mathlib.Algebra.BigOperators.Field
import Verif.Spec.Boot

/-! Lemmas about the indicator matrix and uniqueness. -/

namespace Mizar.Boot
open Mizar.Spec

theorem fillMatrix_shape (bi : List ℤ) (es : List (ℤ × ℤ)) : ∀ (j : ℕ) (M : IndMat),
    (fillMatrix bi j es M).nRows = M.nRows ∧ (fillMatrix bi j es M).nCols = M.nCols := by
  induction es with
  | nil => intro j M; exact ⟨rfl, rfl⟩
  | cons e es ih => intro j M; simp [fillMatrix, ih, setColumn]

theorem fillMatrix_ent (bi : List ℤ) (es : List (ℤ × ℤ)) : ∀ (j : ℕ) (M : IndMat) (t i : ℕ),
    (fillMatrix bi j es M).ent t i = true ↔
      M.ent t i = true ∨ ∃ e, es[i - j]? = some e ∧ j ≤ i ∧ bi.idxOf e.1 ≤ t ∧ t ≤ bi.idxOf e.2 ∧
        t < M.nRows := by
  induction es with
  | nil => intro j M t i; simp [fillMatrix]
  | cons e es ih =>
    intro j M t i
    rw [fillMatrix, ih]
    simp only [setColumn]
    constructor
    · rintro (h | ⟨e', h1, h2, h3⟩)
      · split at h
        · rename_i hc
          obtain ⟨rfl, h2, h3, h4⟩ := hc
          right
          exact ⟨e, by simp, le_refl _, h2, by omega, h4⟩
        · exact Or.inl h
      · right
        refine ⟨e', ?_, by omega, h3⟩
        rw [show i - j = (i - (j + 1)) + 1 by omega]
        simpa using h1
    · rintro (h | ⟨e', h1, h2, h3, h4, h5⟩)
      · left; simp [h]
      · rcases Nat.eq_or_lt_of_le h2 with rfl | hlt
        · left
          simp at h1
          subst h1
          rw [if_pos ⟨rfl, h3, by omega, h5⟩]
        · right
          rw [show i - j = (i - (j + 1)) + 1 by omega] at h1
          exact ⟨e', by simpa using h1, by omega, h3, h4, h5⟩

theorem idxOf_le_iff {l : List ℤ} (hl : l.Pairwise (· < ·)) {x : ℤ} (hx : x ∈ l) {t : ℕ}
    (ht : t < l.length) : (l.idxOf x ≤ t ↔ x ≤ l[t]) ∧ (t ≤ l.idxOf x ↔ l[t] ≤ x) := by
  have hi : l.idxOf x < l.length := List.idxOf_lt_length_iff.2 hx
  have hget : l[l.idxOf x] = x := List.getElem_idxOf hi
  have hlt : ∀ a b (ha : a < l.length) (hb : b < l.length), a < b → l[a] < l[b] :=
    fun a b ha hb hab => List.pairwise_iff_getElem.1 hl a b ha hb hab
  rcases lt_trichotomy (l.idxOf x) t with h | h | h
  · have := hlt _ _ hi ht h
    rw [hget] at this
    constructor
    · exact ⟨fun _ => this.le, fun _ => h.le⟩
    · exact ⟨fun h' => by omega, fun h' => by omega⟩
  · subst h
    rw [hget]; simp
  · have := hlt _ _ ht hi h
    rw [hget] at this
    constructor
    · exact ⟨fun h' => by omega, fun h' => by omega⟩
    · exact ⟨fun _ => this.le, fun _ => h.le⟩

theorem foldl_min_le (l : List ℤ) : ∀ a, l.foldl min a ≤ a ∧ (∀ x ∈ l, l.foldl min a ≤ x) ∧
    l.foldl min a ∈ a :: l := by
  induction l with
  | nil => intro a; simp
  | cons b l ih =>
    intro a
    obtain ⟨h1, h2, h3⟩ := ih (min a b)
    simp only [List.foldl_cons]
    refine ⟨h1.trans (min_le_left _ _), ?_, ?_⟩
    · intro x hx
      rcases List.mem_cons.1 hx with rfl | hx
      · exact h1.trans (min_le_right _ _)
      · exact h2 x hx
    · rcases List.mem_cons.1 h3 with h | h
      · rw [h]
        rcases min_choice a b with e | e <;> rw [e] <;> simp
      · exact List.mem_cons_of_mem _ (List.mem_cons_of_mem _ h)

theorem le_foldl_max (l : List ℤ) : ∀ a, a ≤ l.foldl max a ∧ (∀ x ∈ l, x ≤ l.foldl max a) ∧
    l.foldl max a ∈ a :: l := by
  induction l with
  | nil => intro a; simp
  | cons b l ih =>
    intro a
    obtain ⟨h1, h2, h3⟩ := ih (max a b)
    simp only [List.foldl_cons]
    refine ⟨(le_max_left _ _).trans h1, ?_, ?_⟩
    · intro x hx
      rcases List.mem_cons.1 hx with rfl | hx
      · exact (le_max_right _ _).trans h1
      · exact h2 x hx
    · rcases List.mem_cons.1 h3 with h | h
      · rw [h]
        rcases max_choice a b with e | e <;> rw [e] <;> simp
      · exact List.mem_cons_of_mem _ (List.mem_cons_of_mem _ h)

theorem listMin_spec {l : List ℤ} {m : ℤ} (h : listMin l = some m) : m ∈ l ∧ ∀ x ∈ l, m ≤ x := by
  cases l with
  | nil => simp [listMin] at h
  | cons a l =>
    simp only [listMin, Option.some.injEq] at h
    subst h
    obtain ⟨h1, h2, h3⟩ := foldl_min_le l a
    refine ⟨h3, ?_⟩
    intro x hx
    rcases List.mem_cons.1 hx with rfl | hx
    · exact h1
    · exact h2 x hx

theorem listMax_spec {l : List ℤ} {m : ℤ} (h : listMax l = some m) : m ∈ l ∧ ∀ x ∈ l, x ≤ m := by
  cases l with
  | nil => simp [listMax] at h
  | cons a l =>
    simp only [listMax, Option.some.injEq] at h
    subst h
    obtain ⟨h1, h2, h3⟩ := le_foldl_max l a
    refine ⟨h3, ?_⟩
    intro x hx
    rcases List.mem_cons.1 hx with rfl | hx
    · exact h1
    · exact h2 x hx

theorem mem_trimBars {starts ends bars : List ℤ} {x : ℤ} :
    x ∈ trimBars starts ends bars ↔ x ∈ bars ∧ (∃ s ∈ starts, s ≤ x) ∧ (∃ e ∈ ends, x ≤ e) := by
  unfold trimBars
  cases hs : listMin starts with
  | none =>
    have : starts = [] := by cases starts with
      | nil => rfl
      | cons a l => simp [listMin] at hs
    subst this; simp
  | some lo =>
    cases he : listMax ends with
    | none =>
      have : ends = [] := by cases ends with
        | nil => rfl
        | cons a l => simp [listMax] at he
      subst this; simp
    | some hi =>
      obtain ⟨h1, h2⟩ := listMin_spec hs
      obtain ⟨h3, h4⟩ := listMax_spec he
      simp only [List.mem_filter, Bool.and_eq_true, decide_eq_true_eq]
      refine and_congr_right fun _ => ?_
      constructor
      · rintro ⟨a, b⟩; exact ⟨⟨lo, h1, a⟩, ⟨hi, h3, b⟩⟩
      · rintro ⟨⟨s, hs, hsx⟩, ⟨e, he, hxe⟩⟩; exact ⟨(h2 s hs).trans hsx, hxe.trans (h4 e he)⟩

theorem mem_barIndex {events : List (ℤ × ℤ)} {bars : List ℤ} {x : ℤ} :
    x ∈ barIndex events bars ↔ (∃ e ∈ events, x = e.1) ∨ (∃ e ∈ events, x = e.2) ∨
      (x ∈ bars ∧ (∃ e ∈ events, e.1 ≤ x) ∧ (∃ e ∈ events, x ≤ e.2)) := by
  unfold barIndex
  rw [mem_npUnique]
  simp only [List.mem_append, mem_trimBars, List.mem_map]
  constructor
  · rintro ((⟨e, h, rfl⟩ | ⟨e, h, rfl⟩) | ⟨h, ⟨_, ⟨e, he, rfl⟩, h1⟩, ⟨_, ⟨e', he', rfl⟩, h2⟩⟩)
    · exact Or.inl ⟨e, h, rfl⟩
    · exact Or.inr (Or.inl ⟨e, h, rfl⟩)
    · exact Or.inr (Or.inr ⟨h, ⟨e, he, h1⟩, ⟨e', he', h2⟩⟩)
  · rintro (⟨e, h, rfl⟩ | ⟨e, h, rfl⟩ | ⟨h, ⟨e, he, h1⟩, ⟨e', he', h2⟩⟩)
    · exact Or.inl (Or.inl ⟨e, h, rfl⟩)
    · exact Or.inl (Or.inr ⟨e, h, rfl⟩)
    · exact Or.inr ⟨h, ⟨_, ⟨e, he, rfl⟩, h1⟩, ⟨_, ⟨e', he', rfl⟩, h2⟩⟩

theorem barIndex_sorted (events : List (ℤ × ℤ)) (bars : List ℤ) :
    (barIndex events bars).Pairwise (· < ·) := pairwise_npUnique _

/-- The matrix built before the asserts. -/
def rawMatrix (ev : List (ℤ × ℤ)) (bars : List ℤ) : IndMat :=
  fillMatrix (barIndex ev bars) 0 ev ⟨(barIndex ev bars).length, ev.length, fun _ _ => false⟩

theorem rawMatrix_nRows (ev : List (ℤ × ℤ)) (bars : List ℤ) :
    (rawMatrix ev bars).nRows = (barIndex ev bars).length := (fillMatrix_shape _ _ _ _).1

theorem rawMatrix_nCols (ev : List (ℤ × ℤ)) (bars : List ℤ) :
    (rawMatrix ev bars).nCols = ev.length := (fillMatrix_shape _ _ _ _).2

theorem rawMatrix_ent (ev : List (ℤ × ℤ)) (bars : List ℤ) (t j : ℕ)
    (ht : t < (barIndex ev bars).length) (hj : j < ev.length) :
    (rawMatrix ev bars).ent t j = true ↔ Covers ev[j] ((barIndex ev bars)[t]) := by
  unfold rawMatrix
  rw [fillMatrix_ent]
  have hm1 : (ev[j]).1 ∈ barIndex ev bars := mem_barIndex.2 (Or.inl ⟨ev[j], List.getElem_mem hj, rfl⟩)
  have hm2 : (ev[j]).2 ∈ barIndex ev bars :=
    mem_barIndex.2 (Or.inr (Or.inl ⟨ev[j], List.getElem_mem hj, rfl⟩))
  have h1 := (idxOf_le_iff (barIndex_sorted ev bars) hm1 ht).1
  have h2 := (idxOf_le_iff (barIndex_sorted ev bars) hm2 ht).2
  simp only [Bool.false_eq_true, false_or, Nat.sub_zero, Nat.zero_le, true_and,
    List.getElem?_eq_getElem hj, Option.some.injEq, exists_eq_left', Covers]
  rw [h1, h2]
  simp [ht]

theorem all_false_iff (M : IndMat) :
    M.toLists.all (fun r => r.all (fun b => !b)) = true ↔
      ∀ t < M.nRows, ∀ j < M.nCols, M.ent t j = false := by
  simp [IndMat.toLists, List.all_eq_true]

theorem all_true_iff (M : IndMat) :
    M.toLists.all (fun r => r.all (fun b => b)) = true ↔
      ∀ t < M.nRows, ∀ j < M.nCols, M.ent t j = true := by
  simp [IndMat.toLists, List.all_eq_true]

/-- Events with all times present. -/
def present (ev : List (ℤ × ℤ)) : List (Option ℤ × Option ℤ) := ev.map fun e => (some e.1, some e.2)

theorem getIndMatrix_present (ev : List (ℤ × ℤ)) (bars : List ℤ) :
    getIndMatrix (present ev) bars =
      if ev = [] then .error .valueError
      else if ∀ t < (rawMatrix ev bars).nRows, ∀ j < (rawMatrix ev bars).nCols,
          (rawMatrix ev bars).ent t j = false then .error .assertionError
      else if ∀ t < (rawMatrix ev bars).nRows, ∀ j < (rawMatrix ev bars).nCols,
          (rawMatrix ev bars).ent t j = true then .error .assertionError
      else .ok (rawMatrix ev bars, barIndex ev bars) := by
  unfold getIndMatrix
  have h1 : ((present ev).any fun e => e.2.isNone) = false := by simp [present]
  have h2 : ((present ev).any fun e => e.1.isNone) = false := by simp [present]
  have h3 : (present ev).filterMap bothPresent = ev := by
    unfold present
    rw [List.filterMap_map]
    have : (bothPresent ∘ fun e : ℤ × ℤ => (some e.1, some e.2)) = some := by funext e; rfl
    rw [this, List.filterMap_some]
  simp only [h1, h2, Bool.or_self, Bool.false_eq_true, if_false, h3]
  have hne : ((barIndex ev bars).length = 0 ∨ ev.length = 0) ↔ ev = [] := by
    constructor
    · rintro (h | h)
      · by_contra hne
        obtain ⟨e, es, rfl⟩ := List.exists_cons_of_ne_nil hne
        have : e.1 ∈ barIndex (e :: es) bars := mem_barIndex.2 (Or.inl ⟨e, by simp, rfl⟩)
        rw [List.length_eq_zero_iff.1 h] at this
        simp at this
      · exact List.length_eq_zero_iff.1 h
    · rintro rfl; right; rfl
  simp only [hne]
  change (if ev = [] then _ else if ((rawMatrix ev bars).toLists.all _) = true then _
    else if ((rawMatrix ev bars).toLists.all _) = true then _ else _) = _
  simp only [all_false_iff, all_true_iff]
  rfl

theorem getIndMatrix_missing (events : List (Option ℤ × Option ℤ)) (bars : List ℤ)
    (h : ∃ e ∈ events, e.1 = none ∨ e.2 = none) : getIndMatrix events bars = .error .valueError := by
  unfold getIndMatrix
  rw [if_pos]
  obtain ⟨e, he, h | h⟩ := h
  · simp only [Bool.or_eq_true, List.any_eq_true]
    exact Or.inr ⟨e, he, by simp [h]⟩
  · simp only [Bool.or_eq_true, List.any_eq_true]
    exact Or.inl ⟨e, he, by simp [h]⟩

theorem exists_present (events : List (Option ℤ × Option ℤ))
    (h : ¬ ∃ e ∈ events, e.1 = none ∨ e.2 = none) : ∃ ev, events = present ev := by
  induction events with
  | nil => exact ⟨[], rfl⟩
  | cons e es ih =>
    obtain ⟨ev, rfl⟩ := ih (fun ⟨e, he, h'⟩ => h ⟨e, List.mem_cons_of_mem _ he, h'⟩)
    obtain ⟨a, b⟩ := e
    cases a with
    | none => exact absurd ⟨_, List.mem_cons_self, Or.inl rfl⟩ h
    | some a =>
      cases b with
      | none => exact absurd ⟨_, List.mem_cons_self, Or.inr rfl⟩ h
      | some b => exact ⟨(a, b) :: ev, rfl⟩

/-! ### Uniqueness -/

theorem colRows_toFinset (M : IndMat) (j : ℕ) : (colRows M j).toFinset = barsOf M j := by
  ext t; simp [colRows, barsOf]

theorem colRows_nodup (M : IndMat) (j : ℕ) : (colRows M j).Nodup :=
  (List.nodup_range).filter _

theorem colRows_length (M : IndMat) (j : ℕ) : (colRows M j).length = (barsOf M j).card := by
  rw [← colRows_toFinset, List.toFinset_card_of_nodup (colRows_nodup M j)]

theorem sum_colRows (M : IndMat) (j : ℕ) (f : ℕ → ℚ) :
    ((colRows M j).map f).sum = ∑ t ∈ barsOf M j, f t := by
  rw [← colRows_toFinset, List.sum_toFinset f (colRows_nodup M j)]

theorem rowSum_eq (M : IndMat) (t : ℕ) : rowSum M t = (samplesAt M t).card := by
  unfold rowSum samplesAt
  rw [List.countP_eq_length_filter, ← List.toFinset_card_of_nodup ((List.nodup_range).filter _)]
  congr 1
  ext j; simp

theorem mem_samplesAt_of_bar {M : IndMat} {t j : ℕ} (hj : j < M.nCols) (ht : t ∈ barsOf M j) :
    j ∈ samplesAt M t := by
  simp only [barsOf, samplesAt, Finset.mem_filter, Finset.mem_range] at *
  exact ⟨hj, ht.2⟩

theorem card_samplesAt_pos {M : IndMat} {t j : ℕ} (hj : j < M.nCols) (ht : t ∈ barsOf M j) :
    0 < (samplesAt M t).card := Finset.card_pos.2 ⟨j, mem_samplesAt_of_bar hj ht⟩

theorem calcAverageUniqueness_getElem (M : IndMat) (j : ℕ) (hj : j < M.nCols) :
    (calcAverageUniqueness M)[j]? =
      some (if barsOf M j = ∅ then .nan else .fin (avgUniq M j)) := by
  unfold calcAverageUniqueness
  rw [List.getElem?_map, List.getElem?_range hj, Option.map_some]
  congr 1
  have h1 : (colRows M j).map (fun t => XF.mul (.fin (1 : ℚ)) (XF.div (.fin 1) (.fin (rowSum M t : ℚ))))
      = (colRows M j).map (fun t => XF.fin ((1 : ℚ) / ((samplesAt M t).card : ℚ))) := by
    apply List.map_congr_left
    intro t ht
    have ht' : t ∈ barsOf M j := by rw [← colRows_toFinset]; simpa using ht
    have := card_samplesAt_pos hj ht'
    rw [rowSum_eq, XF.div_fin _ _ (by positivity)]
    simp
  rw [h1, XF.sum_map_fin, sum_colRows, colRows_length]
  by_cases hb : barsOf M j = ∅
  · simp [hb, XF.div, XF.infSign]
  · rw [if_neg hb, XF.div_fin _ _ (by
      have := Finset.card_pos.2 (Finset.nonempty_iff_ne_empty.2 hb)
      positivity)]
    rfl

theorem drawnAt_eq (M : IndMat) (boot : List ℕ) (t : ℕ) :
    boot.countP (fun i => M.ent t i) = drawnAt M boot t := List.countP_eq_length_filter

theorem updateAvgUnique_eq (M : IndMat) (boot : List ℕ) (j : ℕ) (hb : (barsOf M j).card ≠ 0) :
    updateAvgUnique M boot j = .fin (seqUniq M boot j) := by
  unfold updateAvgUnique seqUniq
  rw [if_neg hb]
  have h1 : (colRows M j).map (fun t => XF.mul (.fin (1 : ℚ)) (concPerSample M boot t j))
      = (colRows M j).map (fun t => XF.fin ((1 : ℚ) / (1 + (drawnAt M boot t : ℚ)))) := by
    apply List.map_congr_left
    intro t ht
    have ht' : M.ent t j = true := by simpa [colRows] using (List.mem_filter.1 ht).2
    unfold concPerSample
    simp only [ht', if_true, drawnAt_eq]
    split
    · rw [XF.div_fin _ _ (by positivity)]; simp
    · rename_i h0; simp at h0; simp [h0]
  rw [h1, XF.sum_map_fin, sum_colRows, colRows_length, XF.div_fin _ _ (by exact_mod_cast hb)]

end Mizar.Boot
