import Verif.Props.ChainAny

/-!
Property theorems C157: triple barrier labels and the order of the rows (`/repo/mizarlabs/transformers/targets/labeling.py` lines 149-205 and 362-435).
-/

set_option linter.unusedSectionVars false

namespace Mizar.Props
open Mizar.Spec Mizar.Lab
variable {K : Type} [Field K] [LinearOrder K] [IsStrictOrderedRing K]

/-- **C157** (what is accepted) A frame that is labelled has its rows in increasing or in decreasing order of time; in any other order, and with
repeated times, no frame is labelled. -/
theorem C157_accepted (dv : List ℤ → List (XF K) → List (XF K)) (c : Cfg K) (f : Lab.Frame K) (hcol : ∀ close, f.col c.closeName = .ok close →
    close.length = f.times.length) (rows : List (Lab.Row K)) (h : Lab.transform dv c f = .ok rows) :
    f.times.Pairwise (· < ·) ∨ f.times.Pairwise (· > ·) := by
  unfold Lab.transform at h
  cases h1 : checkInput c f with
  | error e => simp only [h1] at h; cases h
  | ok u =>
    simp only [h1] at h
    cases h2 : f.col c.closeName with
    | error e => simp only [h2] at h; cases h
    | ok close =>
      simp only [h2] at h
      cases h3 : sideColumn c f with
      | error e => simp only [h3] at h; cases h
      | ok side =>
        simp only [h3] at h
        split at h
        · unfold label at h
          split at h
          · cases h
          · split at h
            · cases h
            · rename_i bs _ _ ls hl
              unfold getLabels at hl
              split at hl
              · rename_i hp
                rw [List.map_fst_zip (by rw [hcol close h2])] at hp
                exact hp
              · cases hl
        · cases h

private theorem firstHit_none (bars : List (ℤ × XF K)) (s e : ℤ) (c d : XF K) (b : XF K → Bool) (h : e ≤ s) : firstHit bars s e c d b = 0 := by
  unfold firstHit
  have : (bars.filter fun p => decide (s ≤ p.1) && decide (p.1 < e)) = [] := by
    rw [List.filter_eq_nil_iff]
    intro p _
    simp only [Bool.and_eq_true, decide_eq_true_eq, not_and]
    intro h1
    omega
  simp only [this, List.filter_nil, List.map_nil, minOrZero]

private theorem gt_of_lt {l : List ℤ} (h : l.Pairwise (· > ·)) {i j : ℕ} (hij : i < j) {a b : ℤ} (ha : l[i]? = some a) (hb : l[j]? = some b) : b < a := by
  obtain ⟨i1, rfl⟩ := List.getElem?_eq_some_iff.1 ha
  obtain ⟨j1, rfl⟩ := List.getElem?_eq_some_iff.1 hb
  exact List.pairwise_iff_getElem.1 h i j i1 j1 hij

/-- **C157** (newest row first) Every frame with decreasing times is labelled (without metalabeling): no barrier is ever found, every event that has a row
`n` rows further ends there, which is before it starts, and its return and label are those of the move back to the earlier price. -/
theorem C157_newest_first (dv : List ℤ → List (XF K) → List (XF K)) (c : Cfg K) (f : Lab.Frame K) (close : List (XF K))
    (hcol : f.col c.closeName = .ok close) (hlen : close.length = f.times.length) (hname : c.sideName = SIDE)
    (hside : f.has SIDE = false ∨ ∃ side, f.col SIDE = .ok side) (hm : c.metalabeling = false) (n : ℕ) (hn : 1 ≤ n) (hexp : c.nExp = n)
    (hd : f.times.Pairwise (· > ·)) (hne : f.times ≠ []) (hfac : ¬ (c.ptf < 0 ∧ c.slf < 0)) :
    ∃ rows, Lab.transform dv c f = .ok rows ∧ rows.length = f.times.length ∧ ∀ (i : ℕ) (row : Lab.Row K), rows[i]? = some row →
      row.vol = (if c.volAdjusted then (dv f.times close).getD i .nan else .fin 1) ∧
      (row.vol.isNan = true ∨ f.times.length ≤ i + n → row.endTime = none ∧ row.ret = .nan ∧ row.label = .nan) ∧
      (row.vol.isNan = false → i + n < f.times.length → ∃ t e x y, f.times[i]? = some t ∧ f.times[i + n]? = some e ∧
        close[i]? = some x ∧ close[i + n]? = some y ∧ e < t ∧ row.endTime = some e ∧ row.ret = XF.sub (XF.div y x) (.fin 1) ∧
        row.label = if c.expirationLabel then .fin 0 else XF.sign row.ret) := by
  obtain ⟨side, hsc⟩ : ∃ side, sideColumn c f = .ok side := by
    unfold sideColumn
    rcases hside with h | ⟨s, h⟩
    · exact ⟨_, by rw [h]; rfl⟩
    · exact ⟨s, by rw [has_of_col h, hname]; exact h⟩
  have hci : checkInput c f = .ok () := by
    unfold checkInput
    rw [has_of_col hcol, hm]
    rfl
  set vol := if c.volAdjusted then dv f.times close else List.replicate f.times.length (.fin 1) with hvol
  set bars := f.times.zip close with hbars
  have hbt : bars.map (·.1) = f.times := List.map_fst_zip (by omega)
  obtain ⟨t0, ht0⟩ : ∃ b, bars.getLast? = some b := by
    have : bars ≠ [] := by
      intro h
      have := congrArg List.length h
      rw [hbars, List.length_zip, hlen, Nat.min_self] at this
      exact hne (List.length_eq_zero_iff.1 this)
    exact ⟨_, List.getLast?_eq_some_getLast this⟩
  have hlast : f.times[f.times.length - 1]? = some t0.1 := by
    have h1 : (bars.map (·.1)).getLast? = some t0.1 := by rw [List.getLast?_map, ht0]; rfl
    rw [hbt, List.getLast?_eq_getElem?] at h1
    exact h1
  have hpos : 0 < f.times.length := List.length_pos_of_ne_nil hne
  set E : ℕ → Event K := fun i => ⟨f.times.getD i 0, shiftIndex f.times n i, close.getD i .nan, vol.getD i .nan, side.getD i .nan⟩ with hE
  have hshift : ∀ i, shiftIndex f.times n i = f.times[i + n]? := by
    intro i
    unfold shiftIndex
    rw [if_pos (by omega)]
    congr 1
  have hexpTime : ∀ i < f.times.length, (shiftIndex f.times n i).getD t0.1 ≤ f.times.getD i 0 := by
    intro i hi
    have hti : f.times[i]? = some (f.times.getD i 0) := by rw [List.getD_eq_getElem _ _ hi]; exact List.getElem?_eq_getElem hi
    rw [hshift]
    cases hs : f.times[i + n]? with
    | some e => exact le_of_lt (gt_of_lt hd (by omega) hti hs)
    | none =>
      rw [Option.getD_none]
      rcases Nat.lt_or_ge i (f.times.length - 1) with h | h
      · exact le_of_lt (gt_of_lt hd h hti hlast)
      · have : i = f.times.length - 1 := by omega
        rw [this] at hti ⊢
        rw [hlast] at hti
        rw [Option.some.inj hti]
  have hdiv : ∀ a b : ℤ, a ≤ b → a / 1000000 ≤ b / 1000000 := fun a b h => Int.ediv_le_ediv (by norm_num) h
  have htb : tripleBarrierLabeling bars (events f.times close vol side c.nExp) c.ptf c.slf =
      .ok ((List.range f.times.length).map fun i => ⟨f.times[i + n]?, none, none⟩) := by
    unfold tripleBarrierLabeling
    rw [if_neg hfac, ht0]
    dsimp only
    congr 1
    unfold events getHorizontalBarriersHit
    rw [hexp]
    rw [List.map_map, List.map_map]
    rw [List.zipWith_map, List.zipWith_self]
    apply List.map_congr_left
    intro i hi
    have hi := List.mem_range.1 hi
    have h1 : (prepare t0.1 c.ptf c.slf (E i)).exp ≤ (prepare t0.1 c.ptf c.slf (E i)).start := hdiv _ _ (hexpTime i hi)
    dsimp only [Function.comp]
    rw [firstHit_none _ _ _ _ _ _ h1, firstHit_none _ _ _ _ _ _ h1]
    simp only [fromMs, if_true, hshift]
  have hclose : ∀ (j : ℕ) (e : ℤ), f.times[j]? = some e → closeAt bars e = .ok (close.getD j .nan) := by
    intro j e he
    have hj := (List.getElem?_eq_some_iff.1 he).1
    unfold closeAt
    have : bars.find? (fun b => b.1 == e) = some (e, close.getD j .nan) := by
      have hmem : bars[j]? = some (e, close.getD j .nan) := by
        rw [hbars, List.getElem?_zip_eq_some]
        exact ⟨he, by rw [List.getD_eq_getElem _ _ (by omega)]; exact List.getElem?_eq_getElem (by omega)⟩
      cases hf : bars.find? (fun b => b.1 == e) with
      | none => exact absurd (List.find?_eq_none.1 hf _ (List.mem_of_getElem? hmem)) (by simp)
      | some b =>
        have hb1 : b.1 = e := by simpa using List.find?_some hf
        obtain ⟨k, hk⟩ := List.getElem?_of_mem (List.mem_of_find?_eq_some hf)
        have hk1 := (List.getElem?_zip_eq_some.1 hk).1
        rw [hb1] at hk1
        have : k = j := by
          rcases Nat.lt_trichotomy k j with h | h | h
          · exact absurd (gt_of_lt hd h hk1 he) (lt_irrefl _)
          · exact h
          · exact absurd (gt_of_lt hd h he hk1) (lt_irrefl _)
        rw [this, hmem] at hk
        rw [Option.some.inj hk]
    rw [this]
  set R : ℕ → XF K := fun i => XF.sub (XF.div (close.getD (i + n) .nan) (close.getD i .nan)) (.fin 1) with hR
  have hlabels : getLabels bars c.metalabeling c.expirationLabel ((events f.times close vol side c.nExp).zip
      ((List.range f.times.length).map fun i => (⟨f.times[i + n]?, none, none⟩ : Barriers))) =
      .ok ((List.range f.times.length).map fun i => if i + n < f.times.length then
        some (R i, if c.expirationLabel then .fin 0 else XF.sign (R i)) else none) := by
    unfold getLabels
    rw [if_pos (Or.inr (by rw [hbt]; exact hd)), if_neg (by rw [hm]; simp)]
    unfold events
    rw [List.zip_map', mapE_map, mapE_eq_ok_iff, List.forall₂_map_right_iff, List.forall₂_same]
    intro i hi
    have hi := List.mem_range.1 hi
    unfold labelRow eventEnd
    dsimp only [minOpt]
    by_cases hin : i + n < f.times.length
    · rw [if_pos hin, List.getElem?_eq_getElem hin]
      dsimp only [minOpt]
      rw [hclose (i + n) _ (List.getElem?_eq_getElem hin), hm]
      simp only [Except.map, Bool.false_eq_true, if_false, Option.isNone_none, Bool.and_true, labelOf]
      rfl
    · rw [if_neg hin, List.getElem?_eq_none (by omega)]
  refine ⟨(List.range f.times.length).map fun i => outputRow (E i) ⟨f.times[i + n]?, none, none⟩ (if i + n < f.times.length then
        some (R i, if c.expirationLabel then .fin 0 else XF.sign (R i)) else none), ?_, by simp, ?_⟩
  · unfold Lab.transform
    rw [hci]
    simp only [hcol, hsc, if_pos hname]
    unfold label
    rw [← hbars, ← hvol, htb]
    dsimp only
    rw [hlabels]
    dsimp only
    congr 1
    unfold events
    rw [hexp, List.zip_map', List.zipWith_map, List.zipWith_self]
  · intro i row hrow
    rw [List.getElem?_map] at hrow
    have hi : i < f.times.length := by
      by_contra h
      rw [List.getElem?_eq_none (by simp; omega)] at hrow
      cases hrow
    rw [List.getElem?_range hi, Option.map_some] at hrow
    have hrow := (Option.some.inj hrow).symm
    have hrv : row.vol = (E i).vol := by
      rw [hrow]; unfold outputRow; split <;> rfl
    refine ⟨?_, ?_, ?_⟩
    · rw [hrv, hE]
      dsimp only
      rw [hvol]
      split
      · rfl
      · rw [List.getD_eq_getElem _ _ (by simpa using hi), List.getElem_replicate]
    · intro h
      rw [hrv] at h
      rw [hrow]
      unfold outputRow
      by_cases hv : (E i).vol.isNan = true
      · rw [if_pos hv]
        exact ⟨rfl, rfl, rfl⟩
      · rw [if_neg hv]
        have h2 : f.times.length ≤ i + n := h.resolve_left hv
        rw [List.getElem?_eq_none h2, if_neg (by omega)]
        exact ⟨rfl, rfl, rfl⟩
    · intro hv hin
      rw [hrv] at hv
      have hti : f.times[i]? = some f.times[i] := List.getElem?_eq_getElem hi
      have htn : f.times[i + n]? = some f.times[i + n] := List.getElem?_eq_getElem hin
      refine ⟨_, _, _, _, hti, htn, List.getElem?_eq_getElem (show i < close.length by omega), List.getElem?_eq_getElem (show i + n < close.length by omega),
        gt_of_lt hd (by omega) hti htn, ?_⟩
      rw [hrow]
      unfold outputRow
      rw [if_neg (by rw [hv]; simp), if_pos hin, htn]
      refine ⟨rfl, ?_, rfl⟩
      show R i = _
      rw [hR]
      dsimp only
      rw [List.getD_eq_getElem _ _ (by omega), List.getD_eq_getElem _ _ (by omega)]

/-- **C157** (oldest row first) With increasing times of whole milliseconds every labelled event ends after it starts.  Missing for the full claim: frames
with decreasing times, see `C157_newest_first`, and several bars within a millisecond, see `C88_any_times`. -/
theorem C157_oldest_first_partial {dv : List ℤ → List (XF K) → List (XF K)} {c : Cfg K} {f : Lab.Frame K} {times : List ℤ}
    {close side vol : List (Option K)} {n : ℕ} (h : AnyFrame dv c f times close side vol n) (hn : 1 ≤ n) (hvol : ∀ v, some v ∈ vol → 0 ≤ v)
    (hms : ∀ t ∈ times, (1000000 : ℤ) ∣ t) (rows : List (Lab.Row K)) (hr : Lab.transform dv c f = .ok rows) :
    ∀ e ∈ labelledEvents times rows, e.1 < e.2 := by
  intro e he
  obtain ⟨h1, -, -, h4⟩ := (C88_any_times h hn hvol rows hr).2 e he
  by_contra hc
  obtain ⟨t, ht, hne, hq⟩ := h4 (not_lt.1 hc)
  obtain ⟨a, ha⟩ := hms t ht
  obtain ⟨b, hb⟩ := hms e.1 h1
  omega

section Examples

/-- Prices that rose from 10 to 12, newest first. -/
def risingNewestFirst : Lab.Frame ℚ := ⟨[3000000, 2000000, 1000000], [("close", [.fin 12, .fin 11, .fin 10])]⟩

private def cfg1 : Cfg ℚ := ⟨1, 1/100, 1/100, false, "close", "side", false, false⟩

/-- C157 fails for rows given newest first: prices that rise are labelled as falling, by events that end before they start. -/
theorem C157_newest_first_refuted : Lab.transform (fun t _ => t.map fun _ => (.fin 1 : XF ℚ)) cfg1 risingNewestFirst =
    .ok [⟨some 2000000, .fin 1, .fin (-1/12), .fin (-1)⟩, ⟨some 1000000, .fin 1, .fin (-1/11), .fin (-1)⟩, ⟨none, .fin 1, .nan, .nan⟩] := by
  decide +kernel

example : ∃ rows, Lab.transform (fun t _ => t.map fun _ => (.fin 1 : XF ℚ)) cfg1 risingNewestFirst = .ok rows ∧ rows.length = 3 := by
  obtain ⟨rows, h1, h2, -⟩ := C157_newest_first (fun t _ => t.map fun _ => (.fin 1 : XF ℚ)) cfg1 risingNewestFirst [.fin 12, .fin 11, .fin 10]
    rfl rfl rfl (Or.inl rfl) rfl 1 (by decide) rfl (by decide) (by decide) (by norm_num [cfg1])
  exact ⟨rows, h1, h2⟩

example : ¬ ∃ rows, Lab.transform (fun t _ => t.map fun _ => (.fin 1 : XF ℚ)) cfg1
    ⟨[2000000, 3000000, 1000000], [("close", [.fin 12, .fin 11, .fin 10])]⟩ = .ok rows := by
  rintro ⟨rows, h⟩
  have := C157_accepted _ _ _ (by
    intro close h
    have h1 : (.ok [.fin 12, .fin 11, .fin 10] : Py (List (XF ℚ))) = .ok close := h
    rw [← Except.ok.inj h1]; rfl) rows h
  revert this
  decide

private theorem rising_input (dv : List ℤ → List (XF ℚ) → List (XF ℚ)) :
    AnyFrame dv cfg1 ⟨[1000000, 2000000, 3000000], [("close", [.fin 10, .fin 11, .fin 12])]⟩ [1000000, 2000000, 3000000] [some 10, some 11, some 12]
      (List.replicate 3 (some 1)) (List.replicate 3 (some 1)) 1 where
  times_eq := rfl
  close_eq := rfl
  name_eq := rfl
  side_eq := Or.inr ⟨by decide, rfl, rfl⟩
  vol_eq := rfl
  n_eq := rfl
  length_eq := rfl
  nonempty := by simp
  sorted := by simp
  positive := by
    intro x hx
    simp only [List.mem_cons, Option.some.injEq, List.not_mem_nil, or_false] at hx
    rcases hx with rfl | rfl | rfl <;> norm_num
  factors := by norm_num [cfg1]

/-- The same prices oldest first: labelled as rising. -/
example : ∃ rows, Lab.transform (fun _ _ => []) cfg1 ⟨[1000000, 2000000, 3000000], [("close", [.fin 10, .fin 11, .fin 12])]⟩ = .ok rows ∧
    rows.map (·.label) = [.fin 1, .fin 1, .nan] ∧ ∀ e ∈ labelledEvents [1000000, 2000000, 3000000] rows, e.1 < e.2 := by
  have hr : Lab.transform (fun _ _ => []) cfg1 ⟨[1000000, 2000000, 3000000], [("close", [.fin 10, .fin 11, .fin 12])]⟩ =
      .ok [⟨some 2000000, .fin 1, .fin (1/10), .fin 1⟩, ⟨some 3000000, .fin 1, .fin (1/11), .fin 1⟩, ⟨none, .fin 1, .nan, .nan⟩] := by
    decide +kernel
  refine ⟨_, hr, rfl, C157_oldest_first_partial (rising_input _) (by norm_num) (by simp) ?_ _ hr⟩
  intro t ht
  simp only [List.mem_cons, List.not_mem_nil, or_false] at ht
  rcases ht with rfl | rfl | rfl <;> norm_num

end Examples

end Mizar.Props
