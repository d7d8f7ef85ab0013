import Verif.Spec.LabelAny
import Verif.Props.Chain

/-!
Property theorems C26-C29 for times that are not whole milliseconds (`/repo/mizarlabs/transformers/targets/labeling.py`).
-/

set_option linter.unusedSectionVars false

namespace Mizar.Props
open Mizar.Spec Mizar.Lab
variable {K : Type*} [Field K] [LinearOrder K] [IsStrictOrderedRing K]

/-- A call of `TripleBarrierMethodLabeling.transform` as in `LabelFrame`, with increasing times of any kind. -/
structure AnyFrame (dv : List ℤ → List (XF K) → List (XF K)) (c : Cfg K) (f : Frame K) (times : List ℤ)
    (close side vol : List (Option K)) (n : ℕ) : Prop where
  times_eq : f.times = times
  close_eq : f.col c.closeName = .ok (close.map xf)
  name_eq : c.sideName = SIDE
  side_eq : (f.col SIDE = .ok (side.map xf)) ∨
    (f.has SIDE = false ∧ side = List.replicate times.length (some 1) ∧ c.metalabeling = false)
  vol_eq : (if c.volAdjusted then dv times (close.map xf) else List.replicate times.length (.fin 1)) = vol.map xf
  n_eq : c.nExp = n
  length_eq : close.length = times.length
  nonempty : times ≠ []
  sorted : times.Pairwise (· < ·)
  positive : ∀ x, some x ∈ close → 0 < x
  factors : ¬ (c.ptf < 0 ∧ c.slf < 0)

private theorem transform_any {dv : List ℤ → List (XF K) → List (XF K)} {c : Cfg K} {f : Frame K} {times : List ℤ}
    {close side vol : List (Option K)} {n : ℕ} (h : AnyFrame dv c f times close side vol n) :
    Lab.transform dv c f =
      label (times.zip (close.map xf)) (events times (close.map xf) (vol.map xf) (side.map xf) n) c := by
  have hci : checkInput c f = .ok () := by
    unfold checkInput
    rw [has_of_col h.close_eq]
    cases hm : c.metalabeling
    · rfl
    · rcases h.side_eq with hs | ⟨_, _, hs⟩
      · rw [h.name_eq, has_of_col hs]; rfl
      · rw [hm] at hs; cases hs
  have hsc : sideColumn c f = .ok (side.map xf) := by
    unfold sideColumn
    rcases h.side_eq with hs | ⟨h1, h2, _⟩
    · rw [has_of_col hs, h.name_eq]; exact hs
    · rw [h1, h2, h.times_eq, List.map_replicate]; rfl
  unfold Lab.transform
  rw [hci]
  simp only [h.close_eq, hsc, if_pos h.name_eq, h.times_eq, h.vol_eq, h.n_eq]

private theorem isHit_of_time (times : List ℤ) (close : List (Option K)) (hlen : close.length = times.length) (i hi : ℕ)
    (P : Option K → Prop) (r : ℤ)
    (h : IsFirstTime ((times.zip close).map fun b => (convertToTimestamp (some b.1), b.2))
      (convertToTimestamp (some (times.getD i 0))) (convertToTimestamp (some (times.getD hi 0))) P r) :
    IsHit times (fun j => P (close.getD j none)) i hi (fromMs r) := by
  have hmem : ∀ j, j < times.length → (times.getD j 0 / 1000000, close.getD j none) ∈
      (times.zip close).map fun b => (convertToTimestamp (some b.1), b.2) := by
    intro j hj
    refine List.mem_map.2 ⟨(times.getD j 0, close.getD j none), ?_, rfl⟩
    rw [List.getD_eq_getElem _ _ hj, List.getD_eq_getElem _ _ (by omega)]
    exact List.mem_iff_getElem.2 ⟨j, by simp; omega, by simp⟩
  have hconv : ∀ b ∈ (times.zip close).map fun b => (convertToTimestamp (some b.1), b.2), ∃ j, j < times.length ∧
      b = (times.getD j 0 / 1000000, close.getD j none) := by
    intro b hb
    obtain ⟨q, hq, rfl⟩ := List.mem_map.1 hb
    obtain ⟨j, hj, rfl⟩ := List.mem_iff_getElem.1 hq
    rw [List.length_zip] at hj
    refine ⟨j, by omega, ?_⟩
    rw [List.getD_eq_getElem _ _ (by omega), List.getD_eq_getElem _ _ (by omega), List.getElem_zip]
    rfl
  rcases h with ⟨h1, rfl⟩ | ⟨b, hb, b1, b2, b3, rfl, b4⟩
  · exact Or.inl ⟨fun j hj => h1 _ (hmem j hj.1) hj.2.1 hj.2.2, rfl⟩
  · obtain ⟨j, hj, rfl⟩ := hconv b hb
    refine Or.inr ⟨j, ⟨hj, b1, b2⟩, b3, fun j' hj' hp => b4 _ (hmem j' hj'.1) hj'.2.1 hj'.2.2 hp, rfl⟩

private theorem end_any (b : Barriers) : eventEnd b = earliestTime b.exp b.stopLoss b.profitTaking := by
  obtain ⟨x, y, z⟩ := b
  unfold eventEnd earliestTime
  cases x <;> cases y <;> cases z <;> simp [minOpt, List.min?, min_assoc]

private theorem closeAt_missing (bars : List (ℤ × XF K)) (t : ℤ) (h : t ∉ bars.map (·.1)) : closeAt bars t = .error .keyError := by
  unfold closeAt
  rw [List.find?_eq_none.2]
  intro b hb
  simp only [beq_iff_eq]
  rintro rfl
  exact h (List.mem_map.2 ⟨b, hb, rfl⟩)

private theorem mapE_two_any {α β : Type*} (f : α → Py β) (e : PyErr) (l : List α) (h : ∀ a ∈ l, f a = .error e ∨ ∃ b, f a = .ok b) :
    (∃ a ∈ l, f a = .error e) → mapE f l = .error e := by
  induction l with
  | nil => simp
  | cons a l ih =>
    have i1 := ih fun b hb => h b (by simp [hb])
    rcases h a (by simp) with ha | ⟨b, hb⟩
    · exact fun _ => by simp only [mapE, ha]
    · rintro ⟨a', h1, h2⟩
      rcases List.mem_cons.1 h1 with rfl | h1
      · rw [hb] at h2; cases h2
      · simp only [mapE, hb, i1 ⟨a', h1, h2⟩]

/-- **C26** (exact, for all increasing times) Each barrier is hit in the earliest millisecond with a breaching bar between the milliseconds of
the event and of its expiration, and the event ends at the earliest of these milliseconds and the expiration.  The call raises `ValueError` if
metalabels are asked for and no event ends, `KeyError` if otherwise some event ends at a time that is not the time of a bar, and otherwise gives
the return and the label from the event to the bar at its end. -/
theorem C26_any_times {dv : List ℤ → List (XF K) → List (XF K)} {c : Cfg K} {f : Frame K} {times : List ℤ}
    {close side vol : List (Option K)} {n : ℕ} (h : AnyFrame dv c f times close side vol n) :
    ∃ sl pt : ℕ → Option ℤ, (∀ i < times.length,
        IsHit times (StopLoss c.slf close side vol i) i (winEnd times.length n i) (sl i) ∧
        IsHit times (ProfitTaking c.ptf close side vol i) i (winEnd times.length n i) (pt i)) ∧
      let ends := fun i => earliestTime (if i + n < times.length then some (times.getD (i + n) 0) else none) (sl i) (pt i)
      if c.metalabeling = true ∧ ∀ i < times.length, ends i = none then Lab.transform dv c f = .error .valueError
      else if ∃ i < times.length, ∃ t, ends i = some t ∧ t ∉ times then Lab.transform dv c f = .error .keyError
      else ∃ rows, Lab.transform dv c f = .ok rows ∧ rows.length = times.length ∧ ∀ i < times.length, ∃ row, rows[i]? = some row ∧
        match vol.getD i none with
        | none => row = ⟨none, .nan, .nan, .nan⟩
        | some v => row.endTime = ends i ∧ row.vol = .fin v ∧
          (ends i = none → row.ret = .nan ∧ row.label = .nan) ∧
          ∀ k < times.length, ends i = some (times.getD k 0) →
            row.ret = xf (eventReturn c.metalabeling (fun j => close.getD j none) (fun j => side.getD j none) i k) ∧
            row.label = xf (if c.expirationLabel && (sl i).isNone && (pt i).isNone then some 0
              else labelSpec c.metalabeling (eventReturn c.metalabeling (fun j => close.getD j none) (fun j => side.getD j none) i k)) := by
  have hlc := h.length_eq
  have hsort := h.sorted
  set N := times.length with hN
  have hNpos : 0 < N := List.length_pos_iff.2 h.nonempty
  set T : ℕ → ℤ := fun k => times.getD k 0 with hTdef
  have hprice : ∀ i x, close.getD i none = some x → 0 < x := by
    intro i x hx
    rcases Nat.lt_or_ge i close.length with hi | hi
    · rw [List.getD_eq_getElem _ _ hi] at hx
      exact h.positive x (hx ▸ List.getElem_mem hi)
    · rw [List.getD_eq_default _ _ hi] at hx; cases hx
  have hzl : (times.zip (close.map xf)).length = N := by simp [hlc, hN]
  have hzt : (times.zip (close.map xf)).map (·.1) = times := by
    apply List.map_fst_zip; simp [hlc, hN]
  have hlast : (times.zip (close.map xf)).getLast? = some (T (N - 1), xf (close.getD (N - 1) none)) := by
    rw [List.getLast?_eq_getElem?, hzl, List.getElem?_eq_getElem (by omega)]
    have h1 : N - 1 < times.length := by omega
    have h2 : N - 1 < close.length := by omega
    simp only [List.getElem_zip, List.getElem_map, hTdef]
    rw [List.getD_eq_getElem _ _ h1, List.getD_eq_getElem _ _ h2]
  set mbars := (times.zip (close.map xf)).map fun b => (convertToTimestamp (some b.1), b.2) with hmb
  have hmb' : mbars = (((times.zip close).map fun b => (convertToTimestamp (some b.1), b.2)).map
      fun b => (b.1, xf b.2)) := by
    rw [hmb, List.zip_map_right, List.map_map, List.map_map]
    rfl
  -- the events
  set E : ℕ → Event K := fun i => ⟨T i, if i + n < N then some (T (i + n)) else none, xf (close.getD i none),
      xf (vol.getD i none), xf (side.getD i none)⟩ with hE
  have hevs : events times (close.map xf) (vol.map xf) (side.map xf) (n : ℤ) = (List.range N).map E := by
    unfold events
    apply List.map_congr_left
    intro i _
    simp only [getD_map_xf, hE, hTdef]
    congr 1
    unfold shiftIndex
    rw [if_pos (by omega), show ((i : ℤ) + (n : ℤ)).toNat = i + n by omega]
    split
    · rename_i h'
      rw [List.getD_eq_getElem _ _ h', List.getElem?_eq_getElem h']
    · exact List.getElem?_eq_none (by omega)
  -- the hits
  have hwin : ∀ i, (if i + n < N then some (T (i + n)) else none).getD (T (N - 1)) = T (winEnd N n i) := by
    intro i
    unfold winEnd
    split <;> rfl
  set SL : ℕ → Option ℤ := fun i => fromMs (firstHit mbars (convertToTimestamp (some (T i)))
    (convertToTimestamp (some (T (winEnd N n i)))) (xf (close.getD i none)) (xf (side.getD i none))
    fun r => XF.lt r (xf (slBarrier c.slf (vol.getD i none)))) with hSL
  set PT : ℕ → Option ℤ := fun i => fromMs (firstHit mbars (convertToTimestamp (some (T i)))
    (convertToTimestamp (some (T (winEnd N n i)))) (xf (close.getD i none)) (xf (side.getD i none))
    fun r => XF.lt (xf (ptBarrier c.ptf (vol.getD i none))) r) with hPT
  set B : ℕ → Barriers := fun i => ⟨if i + n < N then some (T (i + n)) else none, SL i, PT i⟩ with hB
  have htb : tripleBarrierLabeling (times.zip (close.map xf)) ((List.range N).map E) c.ptf c.slf = .ok ((List.range N).map B) := by
    unfold tripleBarrierLabeling
    rw [if_neg h.factors, hlast]
    unfold getHorizontalBarriersHit
    simp only [List.map_map]
    rw [List.zipWith_map_left, List.zipWith_map_right, List.zipWith_self]
    congr 1
    apply List.map_congr_left
    intro i _
    have esl : (if 0 < c.slf then XF.mul (.fin (-c.slf)) (xf (vol.getD i none)) else .nan) =
        xf (slBarrier c.slf (vol.getD i none)) := by
      unfold slBarrier
      split
      · cases vol.getD i none <;> simp [xf]
      · rfl
    have ept : (if 0 < c.ptf then XF.mul (.fin c.ptf) (xf (vol.getD i none)) else .nan) =
        xf (ptBarrier c.ptf (vol.getD i none)) := by
      unfold ptBarrier
      split
      · cases vol.getD i none <;> simp [xf]
      · rfl
    simp only [Function.comp, prepare, hE, hB, hSL, hPT, hwin, esl, ept]
    rfl
  refine ⟨SL, PT, fun i _ => ?_, ?_⟩
  · constructor
    · simp only [hSL, hmb']
      exact isHit_of_time times close hlc i _ (fun y => Below (sideReturn (close.getD i none) y (side.getD i none)) (slBarrier c.slf (vol.getD i none))) _
        (firstHit_spec _ _ _ (close.getD i none) (side.getD i none) (hprice i) _ (fun r => Below r (slBarrier c.slf (vol.getD i none)))
          fun r => below_xf r _)
    · simp only [hPT, hmb']
      exact isHit_of_time times close hlc i _ (fun y => Above (sideReturn (close.getD i none) y (side.getD i none)) (ptBarrier c.ptf (vol.getD i none))) _
        (firstHit_spec _ _ _ (close.getD i none) (side.getD i none) (hprice i) _ (fun r => Above r (ptBarrier c.ptf (vol.getD i none)))
          fun r => above_xf r _)
  intro ends
  have hends : ∀ i, eventEnd (B i) = ends i := fun i => end_any _
  have hlabel : Lab.transform dv c f = match getLabels (times.zip (close.map xf)) c.metalabeling c.expirationLabel
        ((List.range N).map fun i => (E i, B i)) with
      | .error e => .error e
      | .ok ls => .ok (List.zipWith (fun (eb : Event K × Barriers) l => outputRow eb.1 eb.2 l) ((List.range N).map fun i => (E i, B i)) ls) := by
    rw [transform_any h, hevs]
    unfold label
    rw [htb]
    simp only [List.zip_map']
    cases getLabels (times.zip (close.map xf)) c.metalabeling c.expirationLabel ((List.range N).map fun i => (E i, B i)) <;> rfl
  have hget : getLabels (times.zip (close.map xf)) c.metalabeling c.expirationLabel ((List.range N).map fun i => (E i, B i)) =
      if c.metalabeling = true ∧ ∀ i < N, ends i = none then .error .valueError
      else mapE (fun i => labelRow (times.zip (close.map xf)) c.metalabeling c.expirationLabel (E i) (B i)) (List.range N) := by
    unfold getLabels
    rw [if_pos (Or.inl (by rw [hzt]; exact hsort)), mapE_map]
    have : (c.metalabeling && ((List.range N).map fun i => (E i, B i)).all fun r => (eventEnd r.2).isNone) = true ↔
        c.metalabeling = true ∧ ∀ i < N, ends i = none := by
      simp [hends]
    by_cases hc : c.metalabeling = true ∧ ∀ i < N, ends i = none
    · rw [if_pos hc, if_pos (this.2 hc)]
    · rw [if_neg hc, if_neg (fun h => hc (this.1 h))]
  rw [hlabel, hget]
  by_cases hc : c.metalabeling = true ∧ ∀ i < N, ends i = none
  · rw [if_pos hc, if_pos hc]
  rw [if_neg hc, if_neg hc]
  have hrow : ∀ i, (ends i = none → labelRow (times.zip (close.map xf)) c.metalabeling c.expirationLabel (E i) (B i) = .ok none) ∧
      (∀ t, ends i = some t → t ∉ times →
        labelRow (times.zip (close.map xf)) c.metalabeling c.expirationLabel (E i) (B i) = .error .keyError) ∧
      ∀ k < N, ends i = some (T k) → labelRow (times.zip (close.map xf)) c.metalabeling c.expirationLabel (E i) (B i) =
        .ok (some (xf (eventReturn c.metalabeling (fun j => close.getD j none) (fun j => side.getD j none) i k),
          xf (if c.expirationLabel && (SL i).isNone && (PT i).isNone then some 0
              else labelSpec c.metalabeling (eventReturn c.metalabeling (fun j => close.getD j none) (fun j => side.getD j none) i k)))) := by
    intro i
    unfold labelRow
    rw [hends]
    refine ⟨fun he => by rw [he], fun t he ht => ?_, fun k hk he => ?_⟩
    · rw [he]
      simp only
      rw [closeAt_missing _ _ (by rw [hzt]; exact ht)]
      rfl
    · rw [he]
      simp only
      have hcl : closeAt (times.zip (close.map xf)) (T k) = .ok (xf (close.getD k none)) := by
        rw [← getD_map_xf]
        exact find_time times (close.map xf) (by simp [hlc, hN]) hsort k hk
      rw [hcl]
      have hrm := ret_meta c.metalabeling (fun j => close.getD j none) (fun j => side.getD j none) hprice i k
      simp only [Except.map, hB, hE]
      rw [hrm, label_xf]
      split <;> rfl
  have hmemT : ∀ t, t ∈ times ↔ ∃ k < N, t = T k := by
    intro t
    constructor
    · intro ht
      obtain ⟨k, hk, rfl⟩ := List.mem_iff_getElem.1 ht
      exact ⟨k, hk, by simp only [hTdef]; rw [List.getD_eq_getElem _ _ hk]⟩
    · rintro ⟨k, hk, rfl⟩
      simp only [hTdef]
      rw [List.getD_eq_getElem _ _ hk]
      exact List.getElem_mem _
  have hdich : ∀ i, labelRow (times.zip (close.map xf)) c.metalabeling c.expirationLabel (E i) (B i) = .error .keyError ∨
      ∃ b, labelRow (times.zip (close.map xf)) c.metalabeling c.expirationLabel (E i) (B i) = .ok b := by
    intro i
    cases he : ends i with
    | none => exact Or.inr ⟨_, (hrow i).1 he⟩
    | some t =>
      by_cases ht : t ∈ times
      · obtain ⟨k, hk, rfl⟩ := (hmemT t).1 ht
        exact Or.inr ⟨_, (hrow i).2.2 k hk he⟩
      · exact Or.inl ((hrow i).2.1 t he ht)
  by_cases hk : ∃ i < N, ∃ t, ends i = some t ∧ t ∉ times
  · rw [if_pos hk]
    obtain ⟨i, hi, t, h1, h2⟩ := hk
    rw [mapE_two_any _ .keyError (List.range N) (fun i _ => hdich i) ⟨i, List.mem_range.2 hi, (hrow i).2.1 t h1 h2⟩]
  · rw [if_neg hk]
    have hok : ∀ i, i < N → ∃ b, labelRow (times.zip (close.map xf)) c.metalabeling c.expirationLabel (E i) (B i) = .ok b := by
      intro i hi
      rcases hdich i with he | he
      · exfalso
        cases hen : ends i with
        | none => rw [(hrow i).1 hen] at he; cases he
        | some t =>
          by_cases ht : t ∈ times
          · obtain ⟨k, hk', rfl⟩ := (hmemT t).1 ht
            rw [(hrow i).2.2 k hk' hen] at he; cases he
          · exact hk ⟨i, hi, t, hen, ht⟩
      · exact he
    choose! L hL using hok
    rw [mapE_ok_of_forall _ L (List.range N) fun i hi => hL i (List.mem_range.1 hi)]
    simp only
    rw [List.zipWith_map_left, List.zipWith_map_right, List.zipWith_self]
    refine ⟨_, rfl, by simp, fun i hi => ⟨outputRow (E i) (B i) (L i), ?_, ?_⟩⟩
    · rw [List.getElem?_map, List.getElem?_range hi]; rfl
    · cases hv : vol.getD i none with
      | none =>
        have hvol : (E i).vol = .nan := by simp only [hE, hv]; rfl
        unfold outputRow
        rw [hvol]
        rfl
      | some v =>
        have hvol : (E i).vol = .fin v := by simp only [hE, hv]; rfl
        have hnan : (E i).vol.isNan = false := by rw [hvol]; rfl
        unfold outputRow
        rw [hnan]
        simp only [Bool.false_eq_true, if_false]
        refine ⟨hends i, hvol, fun he => ?_, fun k hk' he => ?_⟩
        · have := hL i hi
          rw [(hrow i).1 he] at this
          rw [← Except.ok.inj this]
          exact ⟨rfl, rfl⟩
        · have := hL i hi
          rw [(hrow i).2.2 k hk' he] at this
          rw [← Except.ok.inj this]
          exact ⟨rfl, rfl⟩

private theorem eventReturn_side (m : Bool) (p s : ℕ → Option K) (i k : ℕ) :
    eventReturn m p s i k = sideReturn (p i) (p k) (if m then s i else some 1) := by
  unfold eventReturn sideReturn
  cases p i <;> cases p k <;> cases m <;> cases s i <;> simp [mul_comm]

/-- **C28** (for all increasing times) Whenever the call returns, the return of an event is the one from its own bar to the bar at the end time it
reports, times the side with metalabeling, and the metalabel is 1, 0 or missing by its sign; only an expired event with `expiration_label` has
label 0 whatever the return. -/
theorem C28_any_times {dv : List ℤ → List (XF K) → List (XF K)} {c : Cfg K} {f : Frame K} {times : List ℤ}
    {close side vol : List (Option K)} {n : ℕ} (h : AnyFrame dv c f times close side vol n) (rows : List (Row K))
    (hr : Lab.transform dv c f = .ok rows) :
    rows.length = times.length ∧ ∀ i < times.length, ∃ row, rows[i]? = some row ∧
      (row.endTime = none → row.ret = .nan ∧ row.label = .nan) ∧
      ∀ t, row.endTime = some t → ∃ k < times.length, t = times.getD k 0 ∧
        row.ret = xf (sideReturn (close.getD i none) (close.getD k none) (if c.metalabeling then side.getD i none else some 1)) ∧
        (c.metalabeling = true →
          (c.expirationLabel = true ∧ k = i + n ∧ row.label = .fin 0) ∨
          match sideReturn (close.getD i none) (close.getD k none) (side.getD i none) with
          | none => row.label = .nan
          | some r => row.label = if 0 < r then .fin 1 else if r < 0 then .fin 0 else .nan) := by
  obtain ⟨sl, pt, hsp, hm⟩ := C26_any_times h
  dsimp only at hm
  split at hm
  · rw [hr] at hm; cases hm
  split at hm
  · rw [hr] at hm; cases hm
  rename_i hnk
  obtain ⟨rows', h1, h2, h3⟩ := hm
  rw [hr] at h1
  cases h1
  refine ⟨h2, fun i hi => ?_⟩
  obtain ⟨row, e1, e2⟩ := h3 i hi
  refine ⟨row, e1, ?_⟩
  cases hv : vol.getD i none with
  | none => rw [hv] at e2; subst e2; exact ⟨fun _ => ⟨rfl, rfl⟩, fun t ht => by cases ht⟩
  | some v =>
    rw [hv] at e2
    obtain ⟨a1, a2, a3, a4⟩ := e2
    refine ⟨fun hn => a3 (a1 ▸ hn), fun t ht => ?_⟩
    rw [a1] at ht
    have htm : t ∈ times := by
      by_contra hc
      exact hnk ⟨i, hi, t, ht, hc⟩
    obtain ⟨k, hk, rfl⟩ := List.mem_iff_getElem.1 htm
    have hkD : times[k] = times.getD k 0 := by rw [List.getD_eq_getElem _ _ hk]
    rw [hkD] at ht ⊢
    obtain ⟨b1, b2⟩ := a4 k hk ht
    refine ⟨k, hk, rfl, ?_, fun hm => ?_⟩
    · rw [b1, eventReturn_side]
    · by_cases he : (c.expirationLabel && (sl i).isNone && (pt i).isNone) = true
      · refine Or.inl ?_
        simp only [Bool.and_eq_true, Option.isNone_iff_eq_none] at he
        obtain ⟨⟨he1, he2⟩, he3⟩ := he
        rw [b2, if_pos (by simp [he1, he2, he3])]
        refine ⟨he1, ?_, rfl⟩
        rw [he2, he3] at ht
        split at ht
        · rename_i hin
          simp only [earliestTime, List.filterMap_cons, List.filterMap_nil, id, List.min?, List.foldl, Option.some.injEq] at ht
          rw [List.getD_eq_getElem _ _ hin, List.getD_eq_getElem _ _ hk] at ht
          have hnd : times.Nodup := h.sorted.imp fun hlt => ne_of_lt hlt
          exact ((List.Nodup.getElem_inj_iff hnd).1 ht).symm
        · simp [earliestTime] at ht
      · refine Or.inr ?_
        rw [b2, if_neg he, hm, eventReturn_side]
        simp only [if_true]
        unfold labelSpec
        cases hsr : sideReturn (close.getD i none) (close.getD k none) (side.getD i none) with
        | none => rfl
        | some r =>
          simp only [if_true]
          split_ifs <;> rfl

/-- Four bars, three of them in the same millisecond. -/
def subMsFrame (a b c : ℚ) : Frame ℚ := ⟨[1000000, 1500000, 1700000, 3000000], [("close", [.fin a, .fin b, .fin c, .fin 12])]⟩

theorem sub_ms_input (dv : List ℤ → List (XF ℚ) → List (XF ℚ)) :
    AnyFrame dv clockCfg (subMsFrame 10 10 18) [1000000, 1500000, 1700000, 3000000] [some 10, some 10, some 18, some 12]
      (List.replicate 4 (some 1)) (List.replicate 4 (some 1)) 2 where
  times_eq := rfl
  close_eq := rfl
  name_eq := rfl
  side_eq := Or.inr ⟨by decide, rfl, rfl⟩
  vol_eq := rfl
  n_eq := rfl
  length_eq := rfl
  nonempty := by decide
  sorted := by decide
  positive := by
    intro x hx
    simp only [List.mem_cons, Option.some.injEq, List.not_mem_nil, or_false] at hx
    rcases hx with rfl | rfl | rfl | rfl <;> norm_num
  factors := by norm_num [clockCfg]

example (dv : List ℤ → List (XF ℚ) → List (XF ℚ)) := C26_any_times (sub_ms_input dv)

private theorem sub_ms_rows (dv : List ℤ → List (XF ℚ) → List (XF ℚ)) : Lab.transform dv clockCfg (subMsFrame 10 10 18) = .ok
    [⟨some 1700000, .fin 1, .fin (4/5), .fin 1⟩, ⟨some 1000000, .fin 1, .fin 0, .fin 0⟩, ⟨none, .fin 1, .nan, .nan⟩, ⟨none, .fin 1, .nan, .nan⟩] := by
  have e : ∀ f, Lab.transform dv clockCfg f = Lab.transform (fun _ _ => []) clockCfg f := by
    intro f; rfl
  rw [e]
  decide +kernel

example (dv : List ℤ → List (XF ℚ) → List (XF ℚ)) := C28_any_times (sub_ms_input dv) _ (sub_ms_rows dv)

/-- C26 is false for bars inside a millisecond: the event of the second bar ends before it starts. -/
theorem C26_sub_millisecond_refuted (dv : List ℤ → List (XF ℚ) → List (XF ℚ)) : ∃ rows row, 
    Lab.transform dv clockCfg (subMsFrame 10 10 18) = .ok rows ∧ rows[1]? = some row ∧
    (subMsFrame 10 10 18).times[1]? = some 1500000 ∧ row.endTime = some 1000000 :=
  ⟨_, _, sub_ms_rows dv, rfl, rfl, rfl⟩

/-- C27 is false for bars inside a millisecond: the price of the third bar is 80% above that of the second, beyond the profit-taking barrier of
50%, no bar is below the stop loss, and the label is 0. -/
theorem C27_sub_millisecond_refuted (dv : List ℤ → List (XF ℚ) → List (XF ℚ)) : ∃ rows row,
    Lab.transform dv clockCfg (subMsFrame 10 10 18) = .ok rows ∧ rows[1]? = some row ∧
    (18 / 10 - 1 : ℚ) > clockCfg.ptf ∧ (12 / 10 - 1 : ℚ) > - clockCfg.slf ∧ row.label = .fin 0 :=
  ⟨_, _, sub_ms_rows dv, rfl, by norm_num [clockCfg], by norm_num [clockCfg], rfl⟩

/-- C29 is false for bars inside a millisecond: the price of the first bar decides when the event of the second bar ends. -/
theorem C29_sub_millisecond_refuted (dv : List ℤ → List (XF ℚ) → List (XF ℚ)) : ∃ rows rows' row row',
    Lab.transform dv clockCfg (subMsFrame 18 10 10) = .ok rows ∧ Lab.transform dv clockCfg (subMsFrame 10 10 10) = .ok rows' ∧
    rows[1]? = some row ∧ rows'[1]? = some row' ∧ row.endTime = some 1000000 ∧ row'.endTime = some 3000000 ∧
    row.label = .fin 1 ∧ row.ret = .fin (4/5) ∧ row'.ret = .fin (1/5) := by
  have e : ∀ f, Lab.transform dv clockCfg f = Lab.transform (fun _ _ => []) clockCfg f := by
    intro f; rfl
  simp only [e]
  exact ⟨[⟨some 1700000, .fin 1, .fin (-4/9), .fin (-1)⟩, ⟨some 1000000, .fin 1, .fin (4/5), .fin 1⟩, ⟨some 1000000, .fin 1, .fin (4/5), .fin 1⟩,
      ⟨none, .fin 1, .nan, .nan⟩],
    [⟨some 1700000, .fin 1, .fin 0, .fin 0⟩, ⟨some 3000000, .fin 1, .fin (1/5), .fin 1⟩, ⟨none, .fin 1, .nan, .nan⟩,
      ⟨none, .fin 1, .nan, .nan⟩], _, _, by decide +kernel, by decide +kernel, rfl, rfl, rfl, rfl, rfl, rfl, rfl⟩

/-- C88 is false for bars inside a millisecond: a labelled event ends before it starts. -/
theorem C88_sub_millisecond_refuted (dv : List ℤ → List (XF ℚ) → List (XF ℚ)) : ∃ rows,
    Lab.transform dv clockCfg (subMsFrame 10 10 18) = .ok rows ∧
    labelledEvents (subMsFrame 10 10 18).times rows = [(1000000, 1700000), (1500000, 1000000)] :=
  ⟨_, sub_ms_rows dv, rfl⟩

/-- C116 is false for bars inside a millisecond: the event of the second bar is reported to end at the first bar and depends on the price of the
third. -/
theorem C116_sub_millisecond_refuted (dv : List ℤ → List (XF ℚ) → List (XF ℚ)) : ∃ rows rows' row row',
    Lab.transform dv clockCfg (subMsFrame 10 10 18) = .ok rows ∧ Lab.transform dv clockCfg (subMsFrame 10 10 10) = .ok rows' ∧
    rows[1]? = some row ∧ rows'[1]? = some row' ∧ row.endTime = some 1000000 ∧ row'.endTime = some 3000000 := by
  have e : ∀ f, Lab.transform dv clockCfg f = Lab.transform (fun _ _ => []) clockCfg f := by
    intro f; rfl
  refine ⟨_, [⟨some 1700000, .fin 1, .fin 0, .fin 0⟩, ⟨some 3000000, .fin 1, .fin (1/5), .fin 1⟩, ⟨none, .fin 1, .nan, .nan⟩,
      ⟨none, .fin 1, .nan, .nan⟩], _, _, sub_ms_rows dv, ?_, rfl, rfl, rfl, rfl⟩
  rw [e]
  decide +kernel

end Mizar.Props
