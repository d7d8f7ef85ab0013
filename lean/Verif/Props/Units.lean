import Verif.Model.Labeling
import Verif.Model.DailyVol
import Verif.Model.SampleWeights
import Mathlib.Algebra.Order.Field.Basic
import Mathlib.Tactic.FieldSimp

/-! Property theorems C84: labels, volatility and weights do not depend on the unit of the prices. -/

set_option linter.unusedSectionVars false

namespace Mizar.Props
open Mizar.Lab
variable {K : Type*} [Field K] [LinearOrder K] [IsStrictOrderedRing K]

/-- A ratio of prices does not depend on the unit, whatever is missing, infinite or zero. -/
theorem div_units (u : K) (hu : 0 < u) (a b : XF K) : XF.div (XF.mul (.fin u) a) (XF.mul (.fin u) b) = XF.div a b := by
  have hsgn : ∀ x : K, (0 < u * x ↔ 0 < x) ∧ (u * x < 0 ↔ x < 0) := fun x =>
    ⟨by rw [mul_pos_iff_of_pos_left hu], by
      constructor
      · intro h
        by_contra hx
        exact absurd (mul_nonneg hu.le (not_lt.1 hx)) (not_le.2 h)
      · exact fun h => mul_neg_of_pos_of_neg hu h⟩
  have hs : ∀ x : K, XF.infSign (u * x) = XF.infSign x := fun x => by
    unfold XF.infSign; simp only [(hsgn x).1, (hsgn x).2]
  cases a <;> cases b <;> simp [XF.mul, XF.div, XF.infSign, XF.neg, hu, hu.ne', hsgn]
  rename_i x y
  by_cases hy : y = 0
  · simp [hy]
  · simp only [hy, if_false]
    rw [mul_div_mul_left _ _ hu.ne']

theorem lookupClose_units (u : K) (times : List ℤ) (close : List (XF K)) (t : ℤ) :
    lookupClose times (close.map (XF.mul (.fin u))) t = XF.mul (.fin u) (lookupClose times close t) := by
  unfold lookupClose
  rw [show times.zip (close.map (XF.mul (.fin u))) = (times.zip close).map fun p => (p.1, XF.mul (.fin u) p.2) from by
    rw [List.zip_map_right]; rfl, List.find?_map]
  simp only [Function.comp_def]
  cases List.find? (fun p : ℤ × XF K => decide (p.1 = t)) (times.zip close) <;> simp

/-- The daily volatility is the same in any unit. -/
theorem C84_volatility (u : K) (hu : 0 < u) (estd : List (XF K) → List (XF K)) (times : List ℤ) (close : List (XF K)) :
    getDailyVol estd times (close.map (XF.mul (.fin u))) = getDailyVol estd times close ∧
    dailyVolColumn estd times (close.map (XF.mul (.fin u))) = dailyVolColumn estd times close := by
  have h : dailyReturns times (close.map (XF.mul (.fin u))) = dailyReturns times close := by
    unfold dailyReturns
    simp only [lookupClose_units, div_units u hu]
  unfold dailyVolColumn getDailyVol
  rw [h]
  exact ⟨rfl, rfl⟩

/-- The frame with one column in another unit. -/
def inUnit (u : K) (name : String) (f : Frame K) : Frame K :=
  ⟨f.times, f.cols.map fun c => (c.1, if c.1 = name then c.2.map (XF.mul (.fin u)) else c.2)⟩

theorem inUnit_has (u : K) (name n : String) (f : Frame K) : (inUnit u name f).has n = f.has n := by
  unfold Frame.has inUnit
  rw [List.any_map]; rfl

theorem inUnit_col_other (u : K) (name n : String) (f : Frame K) (h : n ≠ name) : (inUnit u name f).col n = f.col n := by
  unfold Frame.col inUnit
  simp only [List.find?_map, Function.comp_def]
  cases hf : List.find? (fun c : String × List (XF K) => c.1 == n) f.cols with
  | none => rfl
  | some c =>
    have : c.1 = n := by simpa using List.find?_some hf
    simp [this, h]

theorem inUnit_col (u : K) (name : String) (f : Frame K) : (inUnit u name f).col name = (f.col name).map fun c => c.map (XF.mul (.fin u)) := by
  unfold Frame.col inUnit
  simp only [List.find?_map, Function.comp_def]
  cases hf : List.find? (fun c : String × List (XF K) => c.1 == name) f.cols with
  | none => rfl
  | some c =>
    have : c.1 = name := by simpa using List.find?_some hf
    simp [this, Except.map]

/-- The bars in another unit. -/
def barsIn (u : K) (bars : List (ℤ × XF K)) : List (ℤ × XF K) := bars.map fun b => (b.1, XF.mul (.fin u) b.2)

/-- An event in another unit. -/
def eventIn (u : K) (e : Event K) : Event K := { e with close := XF.mul (.fin u) e.close }

theorem firstHit_units (u : K) (hu : 0 < u) (bars : List (ℤ × XF K)) (start exp : ℤ) (close side : XF K) (breach : XF K → Bool) :
    firstHit (barsIn u bars) start exp (XF.mul (.fin u) close) side breach = firstHit bars start exp close side breach := by
  unfold firstHit barsIn
  simp only [List.filter_map, List.map_map, Function.comp_def, div_units u hu]

theorem barsIn_map (u : K) (bars : List (ℤ × XF K)) :
    (barsIn u bars).map (fun b => (convertToTimestamp (some b.1), b.2)) =
      barsIn u (bars.map fun b => (convertToTimestamp (some b.1), b.2)) := by
  simp [barsIn]

theorem tripleBarrier_units (u : K) (hu : 0 < u) (bars : List (ℤ × XF K)) (evs : List (Event K)) (ptf slf : K) :
    tripleBarrierLabeling (barsIn u bars) (evs.map (eventIn u)) ptf slf = tripleBarrierLabeling bars evs ptf slf := by
  unfold tripleBarrierLabeling
  by_cases h : ptf < 0 ∧ slf < 0
  · rw [if_pos h, if_pos h]
  · rw [if_neg h, if_neg h]
    have hl : (barsIn u bars).getLast? = bars.getLast?.map fun b => (b.1, XF.mul (.fin u) b.2) := by
      simp [barsIn]
    rw [hl]
    cases bars.getLast? with
    | none => rfl
    | some last =>
      simp only [Option.map_some, barsIn_map]
      have hh : getHorizontalBarriersHit (barsIn u (bars.map fun b => (convertToTimestamp (some b.1), b.2)))
          ((evs.map (eventIn u)).map (prepare last.1 ptf slf)) =
          getHorizontalBarriersHit (bars.map fun b => (convertToTimestamp (some b.1), b.2)) (evs.map (prepare last.1 ptf slf)) := by
        unfold getHorizontalBarriersHit
        simp only [List.map_map]
        apply List.map_congr_left
        intro e _
        simp only [Function.comp, prepare, eventIn]
        rw [firstHit_units u hu, firstHit_units u hu]
      rw [hh, List.zipWith_map_left]
      rfl

theorem closeAt_units (u : K) (bars : List (ℤ × XF K)) (t : ℤ) : closeAt (barsIn u bars) t = (closeAt bars t).map (XF.mul (.fin u)) := by
  unfold closeAt barsIn
  simp only [List.find?_map, Function.comp_def]
  cases List.find? (fun b : ℤ × XF K => b.1 == t) bars <;> rfl

theorem labelRow_units (u : K) (hu : 0 < u) (bars : List (ℤ × XF K)) (m x : Bool) (e : Event K) (b : Barriers) :
    labelRow (barsIn u bars) m x (eventIn u e) b = labelRow bars m x e b := by
  unfold labelRow
  cases eventEnd b with
  | none => rfl
  | some t =>
    dsimp only
    rw [closeAt_units]
    cases closeAt bars t with
    | error e => rfl
    | ok c => simp only [Except.map, eventIn, div_units u hu]

theorem label_units (u : K) (hu : 0 < u) (bars : List (ℤ × XF K)) (evs : List (Event K)) (c : Cfg K) :
    label (barsIn u bars) (evs.map (eventIn u)) c = label bars evs c := by
  unfold label
  rw [tripleBarrier_units u hu]
  cases tripleBarrierLabeling bars evs c.ptf c.slf with
  | error e => rfl
  | ok bs =>
    dsimp only
    have h1 : (evs.map (eventIn u)).zip bs = (evs.zip bs).map fun p => (eventIn u p.1, p.2) := by
      rw [List.zip_map_left]; rfl
    have h2 : getLabels (barsIn u bars) c.metalabeling c.expirationLabel ((evs.map (eventIn u)).zip bs) =
        getLabels bars c.metalabeling c.expirationLabel (evs.zip bs) := by
      unfold getLabels
      have : (barsIn u bars).map (·.1) = bars.map (·.1) := by simp [barsIn]
      rw [this, h1, mapE_map]
      simp only [labelRow_units u hu, List.all_map]
      rfl
    rw [h2]
    cases getLabels bars c.metalabeling c.expirationLabel (evs.zip bs) with
    | error e => rfl
    | ok ls =>
      dsimp only
      rw [h1, List.zipWith_map_left]
      rfl

/-- The triple barrier labels, end times, returns and volatilities are the same in any unit: the result of `transform` on
prices multiplied by `u > 0` is the same, exceptions included. -/
theorem C84_labels (u : K) (hu : 0 < u) (estd : List (XF K) → List (XF K)) (c : Cfg K) (hname : c.sideName ≠ c.closeName) (f : Frame K) :
    Lab.transform (dailyVolColumn estd) c (inUnit u c.closeName f) = Lab.transform (dailyVolColumn estd) c f := by
  unfold Lab.transform
  have hci : checkInput c (inUnit u c.closeName f) = checkInput c f := by
    unfold checkInput; simp only [inUnit_has]
  rw [hci]
  cases checkInput c f with
  | error e => rfl
  | ok _ =>
    dsimp only
    rw [inUnit_col]
    cases f.col c.closeName with
    | error e => rfl
    | ok close =>
      simp only [Except.map]
      have hs : sideColumn c (inUnit u c.closeName f) = sideColumn c f := by
        unfold sideColumn
        rw [inUnit_has, inUnit_col_other _ _ _ _ hname]
        rfl
      have ht : (inUnit u c.closeName f).times = f.times := rfl
      rw [hs, ht, (C84_volatility u hu estd f.times close).2]
      cases sideColumn c f with
      | error e => rfl
      | ok side =>
        dsimp only
        by_cases hn : c.sideName = SIDE
        · rw [if_pos hn, if_pos hn]
          have h1 : f.times.zip (close.map (XF.mul (.fin u))) = barsIn u (f.times.zip close) := by
            unfold barsIn; rw [List.zip_map_right]; rfl
          have h2 : ∀ vol, events f.times (close.map (XF.mul (.fin u))) vol side c.nExp = (events f.times close vol side c.nExp).map (eventIn u) := by
            intro vol
            unfold events
            rw [List.map_map]
            apply List.map_congr_left
            intro i _
            simp only [Function.comp, eventIn]
            congr 1
            simp only [List.getD_eq_getElem?_getD, List.getElem?_map]
            cases close[i]? <;> simp
          rw [h1, h2, label_units u hu]
        · rw [if_neg hn, if_neg hn]

theorem log_units (u : ℝ) (hu : 0 < u) (x : XF ℝ) : XF.log (XF.mul (.fin u) x) = XF.add (.fin (Real.log u)) (XF.log x) := by
  cases x with
  | nan => rfl
  | pinf => simp [XF.mul, XF.infSign, hu, XF.log, XF.add]
  | ninf => simp [XF.mul, XF.infSign, hu, XF.log, XF.neg, XF.add]
  | fin x =>
    simp only [XF.mul, XF.log]
    by_cases h1 : x < 0
    · rw [if_pos (mul_neg_of_pos_of_neg hu h1), if_pos h1]; rfl
    · rw [if_neg (not_lt.2 (mul_nonneg hu.le (not_lt.1 h1))), if_neg h1]
      by_cases h2 : x = 0
      · simp [h2, XF.add]
      · rw [if_neg (mul_ne_zero hu.ne' h2), if_neg h2, Real.log_mul hu.ne' h2]; rfl

theorem sub_shift (t : ℝ) (a b : XF ℝ) : XF.sub (XF.add (.fin t) a) (XF.add (.fin t) b) = XF.sub a b := by
  cases a <;> cases b <;> simp [XF.sub, XF.add, XF.neg]
  ring

theorem pdDiff_shift (t : ℝ) (l : List (XF ℝ)) : pdDiff (l.map (XF.add (.fin t))) = pdDiff l := by
  have h : pdShift (l.map (XF.add (.fin t))) = (pdShift l).map (XF.add (.fin t)) := by
    unfold pdShift
    rw [List.map_take, List.map_cons, List.length_map]
    rfl
  unfold pdDiff
  rw [h, List.zipWith_map]
  simp only [sub_shift]

/-- The weights by return attribution are the same in any unit. -/
theorem C84_weights (u : ℝ) (hu : 0 < u) (X : List SW.Row) :
    SW.weightsByReturns (X.map fun r => { r with close := XF.mul (.fin u) r.close }) = SW.weightsByReturns X := by
  have h : pdDiff (X.map fun r => XF.log (XF.mul (.fin u) r.close)) = pdDiff (X.map fun r => XF.log r.close) := by
    simp only [log_units u hu]
    rw [← pdDiff_shift (Real.log u) (X.map fun r => XF.log r.close), List.map_map]
    rfl
  unfold SW.weightsByReturns
  simp only [List.map_map, Function.comp_def, h]

/-- A frame of three bars in two units: same labels. -/
example : Lab.transform (K := ℚ) (dailyVolColumn fun l => l) ⟨1, 1/10, 1/10, false, "close", "side", false, false⟩
      ⟨[1000000000, 2000000000, 3000000000], [("close", [.fin 10, .fin 12, .fin 9])]⟩ =
    .ok [⟨some 2000000000, .fin 1, .fin (1/5), .fin 1⟩, ⟨some 3000000000, .fin 1, .fin (-1/4), .fin (-1)⟩, ⟨none, .fin 1, .nan, .nan⟩] ∧
    Lab.transform (K := ℚ) (dailyVolColumn fun l => l) ⟨1, 1/10, 1/10, false, "close", "side", false, false⟩
      ⟨[1000000000, 2000000000, 3000000000], [("close", [.fin 1000, .fin 1200, .fin 900])]⟩ =
    .ok [⟨some 2000000000, .fin 1, .fin (1/5), .fin 1⟩, ⟨some 3000000000, .fin 1, .fin (-1/4), .fin (-1)⟩, ⟨none, .fin 1, .nan, .nan⟩] := by
  decide +kernel

end Mizar.Props
