import Verif.Props.Chain
import Verif.Props.LabelAnyMore

/-! Property theorems C88 for all increasing times: which labelled events can be given to the cross validation as they are. -/

set_option linter.unusedSectionVars false

namespace Mizar.Props
open Mizar.Lab Mizar.Spec Mizar.Boot
variable {K : Type*} [Field K] [LinearOrder K] [IsStrictOrderedRing K]

private theorem starts_sublist (times : List ℤ) (rows : List (Lab.Row K)) : ((labelledEvents times rows).map (·.1)).Sublist times := by
  unfold labelledEvents
  induction times generalizing rows with
  | nil => simp
  | cons a times ih =>
    cases rows with
    | nil => simp
    | cons r rows =>
      have := ih rows
      rw [List.zip_cons_cons]
      cases hr : r.endTime with
      | none =>
        rw [List.filterMap_cons_none (by simp [hr])]
        exact this.cons _
      | some e =>
        rw [List.filterMap_cons_some (b := (a, e)) (by simp [hr])]
        exact this.cons_cons _

private theorem hit_ge {times : List ℤ} {P : ℕ → Prop} {i hi : ℕ} {r : Option ℤ} (h : IsHit times P i hi r) {t : ℤ} (ht : r = some t) :
    ∃ j < times.length, P j ∧ times.getD i 0 / 1000000 ≤ times.getD j 0 / 1000000 ∧ t = times.getD j 0 / 1000000 * 1000000 := by
  rcases h with ⟨_, h2⟩ | ⟨j, hj, hp, _, h2⟩
  · rw [h2] at ht; cases ht
  · rw [h2] at ht
    split at ht
    · cases ht
    · exact ⟨j, hj.1, hp, hj.2.1, (Option.some.inj ht).symm⟩

/-- **C88** (for all increasing times) Whenever the labels are made, the labelled events come in the order of the bars, start at bars and end at
bars, not before the millisecond in which they start; an event ends after it starts unless another bar lies in the same millisecond. -/
theorem C88_any_times {dv : List ℤ → List (XF K) → List (XF K)} {c : Cfg K} {f : Lab.Frame K} {times : List ℤ}
    {close side vol : List (Option K)} {n : ℕ} (h : AnyFrame dv c f times close side vol n) (hn : 1 ≤ n) (hvol : ∀ v, some v ∈ vol → 0 ≤ v)
    (rows : List (Lab.Row K)) (hr : Lab.transform dv c f = .ok rows) :
    ((labelledEvents times rows).map (·.1)).Pairwise (· < ·) ∧
      ∀ e ∈ labelledEvents times rows, e.1 ∈ times ∧ e.2 ∈ times ∧ e.1 / 1000000 * 1000000 ≤ e.2 ∧
        (e.2 ≤ e.1 → ∃ t ∈ times, t ≠ e.1 ∧ t / 1000000 = e.1 / 1000000) := by
  refine ⟨h.sorted.sublist (starts_sublist times rows), fun e he => ?_⟩
  obtain ⟨sl, pt, hsp, hx⟩ := C26_any_times h
  dsimp only at hx
  split at hx
  · rw [hr] at hx; cases hx
  split at hx
  · rw [hr] at hx; cases hx
  rename_i _ hnk
  obtain ⟨_, h1, h2, h3⟩ := hx
  rw [hr] at h1
  obtain rfl := Except.ok.inj h1
  unfold labelledEvents at he
  obtain ⟨p, hp, hpe⟩ := List.mem_filterMap.1 he
  obtain ⟨i, hi⟩ := List.mem_iff_getElem?.1 hp
  rw [List.getElem?_zip_eq_some] at hi
  obtain ⟨ht, hri⟩ := hi
  obtain ⟨t, het, rfl⟩ := Option.map_eq_some_iff.1 hpe
  obtain ⟨hil, hie⟩ := List.getElem?_eq_some_iff.1 ht
  have hget : times.getD i 0 = p.1 := by rw [List.getD_eq_getElem?_getD, ht]; rfl
  obtain ⟨row, hrow, hm⟩ := h3 i hil
  rw [hri] at hrow
  obtain rfl := Option.some.inj hrow
  cases hv : vol.getD i none with
  | none => rw [hv] at hm; dsimp only at hm; rw [hm] at het; cases het
  | some v =>
    rw [hv] at hm
    dsimp only at hm
    have hend := hm.1
    rw [het] at hend
    have hself := not_breach_self (side := side) h.positive hvol c.slf c.ptf i
    have htm : t ∈ times := by
      by_contra hc
      exact hnk ⟨i, hil, t, hend.symm, hc⟩
    have hmem : p.1 ∈ times := List.mem_of_getElem? ht
    have hhit : ∀ (P : ℕ → Prop) r, ¬ P i → IsHit times P i (winEnd times.length n i) r → r = some t →
        p.1 / 1000000 * 1000000 ≤ t ∧ (t ≤ p.1 → ∃ u ∈ times, u ≠ p.1 ∧ u / 1000000 = p.1 / 1000000) := by
      intro P r hP hH hrt
      obtain ⟨j, hj, hPj, hle, hte⟩ := hit_ge hH hrt
      rw [hget] at hle
      refine ⟨by omega, fun htp => ⟨times.getD j 0, ?_, ?_, by omega⟩⟩
      · rw [List.getD_eq_getElem _ _ hj]; exact List.getElem_mem hj
      · intro heq
        rw [← hget] at heq
        have hij : j = i := by
          rcases Nat.lt_trichotomy j i with h4 | h4 | h4
          · have := times_lt h.sorted h4 hil; omega
          · exact h4
          · have := times_lt h.sorted h4 hj; omega
        exact hP (hij ▸ hPj)
    refine ⟨hmem, htm, ?_⟩
    dsimp only
    have hmin : (if i + n < times.length then some (times.getD (i + n) 0) else none) = some t ∨ sl i = some t ∨ pt i = some t := by
      have := List.min?_mem hend.symm
      simp only [List.mem_filterMap, List.mem_cons, List.not_mem_nil, or_false, id] at this
      obtain ⟨o, h5, h6⟩ := this
      rcases h5 with rfl | rfl | rfl
      · exact Or.inl h6
      · exact Or.inr (Or.inl h6)
      · exact Or.inr (Or.inr h6)
    rcases hmin with h4 | h4 | h4
    · split at h4
      · rename_i hlt
        have h5 := times_lt h.sorted (show i < i + n by omega) hlt
        rw [Option.some.inj h4, hget] at h5
        exact ⟨by omega, fun h6 => by omega⟩
      · cases h4
    · exact hhit _ _ hself.1 (hsp i hil).1 h4
    · exact hhit _ _ hself.2 (hsp i hil).2 h4

/-- **C88** (at most one bar in each millisecond) The labelled events form a dataset as the cross validation requires it, whatever the times. -/
theorem C88_one_bar_per_millisecond {dv : List ℤ → List (XF K) → List (XF K)} {c : Cfg K} {f : Lab.Frame K} {times : List ℤ}
    {close side vol : List (Option K)} {n : ℕ} (h : AnyFrame dv c f times close side vol n) (hn : 1 ≤ n) (hvol : ∀ v, some v ∈ vol → 0 ≤ v)
    (hms : ∀ t ∈ times, ∀ u ∈ times, t / 1000000 = u / 1000000 → t = u)
    (rows : List (Lab.Row K)) (hr : Lab.transform dv c f = .ok rows) :
    Timeline (labelledEvents times rows).length (fun i => ((labelledEvents times rows).getD i (0, 0)).1)
      (fun i => ((labelledEvents times rows).getD i (0, 0)).2) ∧ ∀ e ∈ labelledEvents times rows, e.1 < e.2 := by
  obtain ⟨h2, h3⟩ := C88_any_times h hn hvol rows hr
  have h4 : ∀ e ∈ labelledEvents times rows, e.1 < e.2 := by
    intro e he
    by_contra hc
    obtain ⟨k1, -, -, k4⟩ := h3 e he
    obtain ⟨t, t1, t2, t3⟩ := k4 (not_lt.1 hc)
    exact t2 (hms t t1 e.1 k1 t3)
  refine ⟨⟨?_, ?_⟩, h4⟩
  · intro i j hij hj
    rcases Nat.eq_or_lt_of_le hij with rfl | hij
    · exact le_refl _
    · have := List.pairwise_iff_getElem.1 h2 i j (by rw [List.length_map]; omega) (by simpa using hj) hij
      rw [List.getElem_map, List.getElem_map] at this
      rw [List.getD_eq_getElem?_getD, List.getD_eq_getElem?_getD, List.getElem?_eq_getElem (by omega), List.getElem?_eq_getElem hj]
      exact this.le
  · intro i hi
    rw [List.getD_eq_getElem?_getD, List.getElem?_eq_getElem hi]
    exact (h4 _ (List.getElem_mem hi)).le

section Examples

/-- Three bars in one millisecond: the second event ends before it starts, in the same millisecond. -/
example (dv : List ℤ → List (XF ℚ) → List (XF ℚ)) (rows : List (Lab.Row ℚ)) (hr : Lab.transform dv clockCfg (subMsFrame 10 10 18) = .ok rows) :
    ∀ e ∈ labelledEvents [1000000, 1500000, 1700000, 3000000] rows, e.1 / 1000000 * 1000000 ≤ e.2 := fun e he =>
  ((C88_any_times (sub_ms_input dv) (by norm_num) (by simp) rows hr).2 e he).2.2.1

private def oddCfg : Cfg ℚ := { clockCfg with nExp := 1 }

private theorem odd_input (dv : List ℤ → List (XF ℚ) → List (XF ℚ)) :
    AnyFrame dv oddCfg ⟨[1000001, 2500000, 4000003], [("close", [.fin 10, .fin 11, .fin 12])]⟩ [1000001, 2500000, 4000003] [some 10, some 11, some 12]
      (List.replicate 3 (some 1)) (List.replicate 3 (some 1)) 1 where
  times_eq := rfl
  close_eq := rfl
  name_eq := rfl
  side_eq := Or.inr ⟨by decide, rfl, rfl⟩
  vol_eq := rfl
  n_eq := rfl
  length_eq := rfl
  nonempty := by simp
  sorted := by simp
  positive := by
    intro x hx
    simp only [List.mem_cons, Option.some.injEq, List.not_mem_nil, or_false] at hx
    rcases hx with rfl | rfl | rfl <;> norm_num
  factors := by norm_num [oddCfg, clockCfg]

/-- Bars off the millisecond grid, one in each millisecond. -/
example (dv : List ℤ → List (XF ℚ) → List (XF ℚ)) : ∃ rows,
    Lab.transform dv oddCfg ⟨[1000001, 2500000, 4000003], [("close", [.fin 10, .fin 11, .fin 12])]⟩ = .ok rows ∧
    labelledEvents [1000001, 2500000, 4000003] rows = [(1000001, 2500000), (2500000, 4000003)] ∧
    ∀ e ∈ labelledEvents [1000001, 2500000, 4000003] rows, e.1 < e.2 := by
  have hr : Lab.transform dv oddCfg ⟨[1000001, 2500000, 4000003], [("close", [.fin 10, .fin 11, .fin 12])]⟩ =
      .ok [⟨some 2500000, .fin 1, .fin (1/10), .fin 1⟩, ⟨some 4000003, .fin 1, .fin (1/11), .fin 1⟩, ⟨none, .fin 1, .nan, .nan⟩] := by
    have e : ∀ f, Lab.transform dv oddCfg f = Lab.transform (fun _ _ => []) oddCfg f := by
      intro f; rfl
    rw [e]
    decide +kernel
  refine ⟨_, hr, rfl, (C88_one_bar_per_millisecond (odd_input dv) (by norm_num) (by simp) (by decide) _ hr).2⟩

end Examples

end Mizar.Props
