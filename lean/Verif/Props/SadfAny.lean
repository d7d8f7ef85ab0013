import Verif.Props.Sadf

/-!
Property theorems C68 for series with missing values (`/repo/mizarlabs/structural_breaks/sadf.py`, Dickey-Fuller models).
-/

namespace Mizar.Props
open Mizar.Spec Mizar.Brk

/-- A missing value is not a number. -/
private def cellOf (v : Option ℝ) : XF ℝ := v.elim .nan .fin

/-- Positions with a change: the value and the value before are present. -/
noncomputable def changePositions (y : List (Option ℝ)) : List ℕ :=
  (List.range y.length).filter fun p => decide (1 ≤ p) && (y.getD p none).isSome && (y.getD (p - 1) none).isSome

private theorem diffs_gaps (times : List ℤ) (y : List (Option ℝ)) (hl : times.length = y.length) :
    diffs (times.zip (y.map cellOf)) = (changePositions y).map fun p =>
      (times.getD p 0, .fin ((y.getD p none).getD 0 - (y.getD (p - 1) none).getD 0), .fin ((y.getD (p - 1) none).getD 0)) := by
  have hs : ∀ i (hi : i < (times.zip (y.map cellOf)).length), (times.zip (y.map cellOf))[i] = (times.getD i 0, cellOf (y.getD i none)) := by
    intro i hi
    have h1 : i < times.length := by simp at hi; omega
    have h2 : i < y.length := by simp at hi; omega
    rw [List.getElem_zip, List.getElem_map, List.getD_eq_getElem _ _ h1, List.getD_eq_getElem _ _ h2]
  have e : List.zipWith (fun a b => (a.1, XF.sub a.2 b.2, b.2)) (times.zip (y.map cellOf)).tail (times.zip (y.map cellOf)) =
      (List.range (y.length - 1)).map fun i => (times.getD (i + 1) 0, XF.sub (cellOf (y.getD (i + 1) none)) (cellOf (y.getD i none)), cellOf (y.getD i none)) := by
    apply List.ext_getElem
    · simp [hl]
    · intro i h1 h2
      simp only [List.length_map, List.length_range] at h2
      rw [List.getElem_zipWith, List.getElem_map, List.getElem_range, List.getElem_tail, hs (i + 1) (by simp; omega), hs i (by simp; omega)]
  unfold diffs changePositions
  rw [e, List.filter_map]
  have hr : (List.range y.length).filter (fun p => decide (1 ≤ p) && (y.getD p none).isSome && (y.getD (p - 1) none).isSome) =
      ((List.range (y.length - 1)).filter fun i => (y.getD (i + 1) none).isSome && (y.getD i none).isSome).map (· + 1) := by
    cases hy : y.length with
    | zero => rfl
    | succ n =>
      rw [List.range_succ_eq_map, List.filter_cons_of_neg (by simp), List.filter_map]
      simp [Function.comp_def]
  rw [hr, List.map_map]
  have hf : List.filter ((fun r : ℤ × XF ℝ × XF ℝ => !r.2.1.isNan) ∘ fun i =>
      (times.getD (i + 1) 0, XF.sub (cellOf (y.getD (i + 1) none)) (cellOf (y.getD i none)), cellOf (y.getD i none))) (List.range (y.length - 1)) =
      (List.range (y.length - 1)).filter fun i => (y.getD (i + 1) none).isSome && (y.getD i none).isSome := by
    apply List.filter_congr
    intro i _
    simp only [Function.comp_apply]
    cases y.getD (i + 1) none <;> cases y.getD i none <;> rfl
  rw [hf]
  apply List.map_congr_left
  intro i hi
  have := (List.mem_filter.1 hi).2
  rw [Bool.and_eq_true] at this
  obtain ⟨h1, h2⟩ := this
  simp only [Function.comp_apply, Nat.add_sub_cancel]
  cases ha : y.getD (i + 1) none with
  | none => rw [ha] at h1; cases h1
  | some a =>
    cases hb : y.getD i none with
    | none => rw [hb] at h2; cases h2
    | some b => simp [cellOf, XF.sub, XF.add, XF.neg, sub_eq_add_neg]

/-- **C68** (regressions of the Dickey-Fuller models for series with missing values) The changes into and out of a missing value are left out and
the others are numbered through.  There is one row for every change with `L` of them before it: the level before it, the `L` changes before it *in
that numbering*, and the columns of the model, whose trend counts the rows.  Missing values never raise. -/
theorem C68_design_gaps (model : String) (c : Bool) (f : ℕ → List ℝ) (hf : DfModel model c f) (times : List ℤ) (y : List (Option ℝ))
    (hl : times.length = y.length) (L : ℕ) (hL : 1 ≤ L) :
    let P := changePositions y
    let v : ℕ → ℝ := fun p => (y.getD p none).getD 0
    let change : ℕ → ℝ := fun q => v (P.getD q 0) - v (P.getD q 0 - 1)
    getXy model L c (times.zip (y.map fun o => o.elim .nan .fin)) = .ok (L + (f 0).length, (List.range (P.length - L)).map fun j =>
      (times.getD (P.getD (j + L) 0) 0,
        ((v (P.getD (j + L) 0 - 1) :: (List.range L).map fun m => change (j + L - 1 - m)) ++ f j).map XF.fin, .fin (change (j + L)))) := by
  intro P v change
  have hrows : standardRows (L : ℤ) (times.zip (y.map cellOf)) = (List.range (P.length - L)).map fun j =>
      (times.getD (P.getD (j + L) 0) 0,
        (v (P.getD (j + L) 0 - 1) :: (List.range L).map fun m => change (j + L - 1 - m)).map XF.fin, .fin (change (j + L))) := by
    unfold standardRows
    rw [if_neg (by omega)]
    dsimp only
    rw [diffs_gaps times y hl, Int.toNat_natCast, List.length_map]
    apply List.map_congr_left
    intro j hj
    rw [List.mem_range] at hj
    have hj : j < P.length - L := hj
    have hg : ∀ q, q < P.length → (((changePositions y).map fun p =>
        (times.getD p 0, XF.fin ((y.getD p none).getD 0 - (y.getD (p - 1) none).getD 0), XF.fin ((y.getD (p - 1) none).getD 0))).getD q
          (0, .nan, .nan)) = (times.getD (P.getD q 0) 0, .fin (change q), .fin (v (P.getD q 0 - 1))) := by
      intro q hq
      rw [List.getD_eq_getElem _ _ (by simpa using hq), List.getElem_map]
      simp only [change, v, P, List.getD_eq_getElem _ _ hq]
    rw [hg _ (by omega)]
    rw [List.map_cons, List.map_map]
    congr 3
    apply List.map_congr_left
    intro m hm
    rw [List.mem_range] at hm
    rw [hg _ (by omega)]
    rfl
  have hd : designRows model L c (times.zip (y.map cellOf)) = .ok (L + (f 0).length, (List.range (P.length - L)).map fun j =>
      (times.getD (P.getD (j + L) 0) 0,
        ((v (P.getD (j + L) 0 - 1) :: (List.range L).map fun m => change (j + L - 1 - m)) ++ f j).map XF.fin, .fin (change (j + L)))) := by
    unfold designRows
    rw [hrows]
    simp only [addCols_range, Int.toNat_natCast, constCol]
    rcases hf with ⟨rfl, rfl⟩ | ⟨rfl, rfl⟩ | ⟨rfl, rfl⟩
    · rw [if_pos rfl]
      cases c <;> simp
    · rw [if_neg (by decide), if_pos rfl]
      cases c <;> simp [trend]
    · rw [if_neg (by decide), if_neg (by decide), if_pos rfl]
      cases c <;> simp [trend, quadTrend]
  unfold getXy
  have hcell : (fun o : Option ℝ => o.elim XF.nan XF.fin) = cellOf := rfl
  rw [hcell, hd, Py.bind_ok, if_pos]
  rw [List.all_eq_true]
  intro x hx
  obtain ⟨j, -, rfl⟩ := List.mem_map.1 hx
  simp

/-- **C68** (missing values, refuted) The documented regression explains the change at `t` by the change at `t - 1`.  After a gap it does not: the
change from 5 to 7 at time 50 is explained by the change from 1 to 2 at time 20, although the value at time 30 is missing. -/
theorem C68_gap_refuted : getXy "no_trend" 1 false ([10, 20, 30, 40, 50].zip
    ([some 1, some 2, none, some 5, some 7].map fun o : Option ℝ => o.elim .nan .fin)) = .ok (1, [(50, [.fin 5, .fin 1], .fin 2)]) := by
  have hP : changePositions [some 1, some 2, none, some 5, some 7] = [1, 4] := by
    unfold changePositions
    simp [List.range_succ]
  have := C68_design_gaps "no_trend" false (fun _ => []) (Or.inl ⟨rfl, by simp⟩) [10, 20, 30, 40, 50]
    [some 1, some 2, none, some 5, some 7] rfl 1 le_rfl
  dsimp only at this
  rw [hP] at this
  rw [show (1 : ℤ) = ((1 : ℕ) : ℤ) from rfl, this]
  simp [List.range_succ]
  norm_num

/-- A leading missing value only shortens the series. -/
example := C68_design_gaps "linear" true (fun j : ℕ => ((j : ℝ) + 1) :: if true then [1] else []) (Or.inr (Or.inl ⟨rfl, rfl⟩)) [10, 20, 30, 40, 50, 60]
    [none, some 2, some 3, some 5, none, some 7] rfl 1 le_rfl

end Mizar.Props
