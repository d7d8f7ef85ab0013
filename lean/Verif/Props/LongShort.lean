import Verif.Props.Labeling
import Verif.Lemmas.Cusum

/-!
Property theorems C124: long and short bets mirror each other (`/repo/mizarlabs/transformers/targets/labeling.py`).
-/

set_option linter.unusedSectionVars false

namespace Mizar.Props
open Mizar.Spec

variable {K : Type*} [Field K] [LinearOrder K] [IsStrictOrderedRing K]

theorem xf_infSign_neg (x : K) : XF.infSign (-x) = XF.neg (XF.infSign x) := by
  unfold XF.infSign
  rcases lt_trichotomy x 0 with h | h | h
  · simp [h, h.le, not_lt.2 h.le, XF.neg]
  · simp [h, XF.neg]
  · simp [h, h.le, not_lt.2 h.le, XF.neg]

theorem xf_mul_neg (x y : XF K) : XF.mul x (XF.neg y) = XF.neg (XF.mul x y) := by
  cases x <;> cases y <;> simp [XF.mul, XF.neg, xf_infSign_neg, Cusum.neg_neg]
  all_goals
    rename_i z
    first
      | (generalize XF.infSign z = w; cases w <;> simp)

theorem xf_neg_mul (x : K) (y : XF K) : XF.mul (.fin (-x)) y = XF.neg (XF.mul (.fin x) y) := by
  cases y <;> simp [XF.mul, XF.neg, xf_infSign_neg]
  all_goals
    generalize XF.infSign x = w; cases w <;> simp

theorem xf_lt_neg (x y : XF K) : XF.lt x (XF.neg y) = XF.lt y (XF.neg x) := by
  cases x <;> cases y <;> simp [XF.lt, XF.neg, lt_neg]

theorem xf_neg_lt (x y : XF K) : XF.lt (XF.neg x) y = XF.lt (XF.neg y) x := by
  cases x <;> cases y <;> simp [XF.lt, XF.neg, neg_lt]

theorem xf_sign_neg (x : XF K) : XF.sign (XF.neg x) = XF.neg (XF.sign x) := by
  cases x <;> simp [XF.sign, XF.neg]
  rename_i x
  rcases lt_trichotomy x 0 with h | h | h
  · simp [h, h.le, not_lt.2 h.le]
  · simp [h]
  · simp [h, h.le, not_lt.2 h.le]

/-- The event with the opposite side. -/
def opposite (e : Lab.Event K) : Lab.Event K := { e with side := XF.neg e.side }

/-- The two horizontal barriers exchanged. -/
def exchange (b : Lab.Barriers) : Lab.Barriers := ⟨b.exp, b.profitTaking, b.stopLoss⟩

theorem tripleBarrier_opposite (bars : List (ℤ × XF K)) (evs : List (Lab.Event K)) (ptf slf : K) :
    Lab.tripleBarrierLabeling bars (evs.map opposite) slf ptf = (Lab.tripleBarrierLabeling bars evs ptf slf).map (·.map exchange) := by
  unfold Lab.tripleBarrierLabeling
  by_cases h : ptf < 0 ∧ slf < 0
  · rw [if_pos h, if_pos ⟨h.2, h.1⟩]; rfl
  rw [if_neg h, if_neg fun h' => h ⟨h'.2, h'.1⟩]
  cases bars.getLast? with
  | none => rfl
  | some last =>
    dsimp only
    show _ = Except.ok _
    congr 1
    dsimp only
    rw [List.map_zipWith]
    unfold Lab.getHorizontalBarriersHit
    rw [List.map_map, List.map_map, List.map_map, List.zipWith_map_left, List.zipWith_map_right, List.zipWith_map_right]
    rw [List.zipWith_self, List.zipWith_self]
    apply List.map_congr_left
    intro e _
    simp only [Function.comp, opposite, exchange, Lab.prepare, Lab.firstHit, xf_mul_neg]
    congr 3
    · congr 2
      congr 1
      funext p
      by_cases hs : 0 < ptf
      · rw [if_pos hs, if_pos hs, xf_neg_mul, xf_neg_lt, Cusum.neg_neg]
      · rw [if_neg hs, if_neg hs]; cases (XF.mul (XF.sub (XF.div p.2 e.close) (.fin 1)) e.side) <;> rfl
    · congr 2
      congr 1
      funext p
      by_cases hs : 0 < slf
      · rw [if_pos hs, if_pos hs, xf_neg_mul, xf_lt_neg]
      · rw [if_neg hs, if_neg hs]; cases (XF.mul (XF.sub (XF.div p.2 e.close) (.fin 1)) e.side) <;> rfl

theorem minOpt_comm (a b : Option ℤ) : Lab.minOpt a b = Lab.minOpt b a := by
  cases a <;> cases b <;> simp [Lab.minOpt, min_comm]

theorem eventEnd_exchange (b : Lab.Barriers) : Lab.eventEnd (exchange b) = Lab.eventEnd b := by
  unfold Lab.eventEnd exchange
  rw [minOpt_comm b.profitTaking]

/-- Two runs end alike: both raise the same exception, or both return and the values are related. -/
def Alike {α β : Type*} (R : α → β → Prop) (a : Py α) (b : Py β) : Prop :=
  (∃ e, a = .error e ∧ b = .error e) ∨ ∃ x y, a = .ok x ∧ b = .ok y ∧ R x y

theorem mapE_alike {α α' β β' : Type*} {R : β → β' → Prop} (f : α → Py β) (g : α' → Py β') (h : α → α') (l : List α)
    (H : ∀ a ∈ l, Alike R (f a) (g (h a))) : Alike (List.Forall₂ R) (mapE f l) (mapE g (l.map h)) := by
  induction l with
  | nil => exact Or.inr ⟨_, _, rfl, rfl, .nil⟩
  | cons a l ih =>
    rw [List.map_cons, mapE, mapE]
    rcases H a List.mem_cons_self with ⟨e, h1, h2⟩ | ⟨x, y, h1, h2, h3⟩
    · rw [h1, h2]; exact Or.inl ⟨e, rfl, rfl⟩
    · rw [h1, h2]
      rcases ih fun b hb => H b (List.mem_cons_of_mem _ hb) with ⟨e, k1, k2⟩ | ⟨xs, ys, k1, k2, k3⟩
      · rw [k1, k2]; exact Or.inl ⟨e, rfl, rfl⟩
      · rw [k1, k2]; exact Or.inr ⟨_, _, rfl, rfl, .cons h3 k3⟩

theorem mapE_zipWith {α β γ : Type*} (F : α → Py β) (o : α → β → γ) (l : List α) :
    (match mapE F l with | .error e => .error e | .ok ls => .ok (List.zipWith o l ls) : Py (List γ)) =
      mapE (fun a => (F a).map (o a)) l := by
  induction l with
  | nil => rfl
  | cons a l ih =>
    rw [mapE, mapE, ← ih]
    cases F a with
    | error e => rfl
    | ok b => cases mapE F l <;> rfl

/-- Labels and assembly in one pass over the events. -/
theorem label_rows (bars : List (ℤ × XF K)) (evs : List (Lab.Event K)) (c : Lab.Cfg K) :
    Lab.label bars evs c = match Lab.tripleBarrierLabeling bars evs c.ptf c.slf with
      | .error e => .error e
      | .ok bs => if (bars.map (·.1)).Pairwise (· < ·) ∨ (bars.map (·.1)).Pairwise (· > ·) then
          if c.metalabeling && (evs.zip bs).all (fun r => (Lab.eventEnd r.2).isNone) then .error .valueError
          else mapE (fun r : Lab.Event K × Lab.Barriers =>
            (Lab.labelRow bars c.metalabeling c.expirationLabel r.1 r.2).map (Lab.outputRow r.1 r.2)) (evs.zip bs)
        else .error .valueError := by
  unfold Lab.label
  cases Lab.tripleBarrierLabeling bars evs c.ptf c.slf with
  | error e => rfl
  | ok bs =>
    dsimp only
    rw [← mapE_zipWith (fun r : Lab.Event K × Lab.Barriers => Lab.labelRow bars c.metalabeling c.expirationLabel r.1 r.2)
      (fun r l => Lab.outputRow r.1 r.2 l)]
    unfold Lab.getLabels
    split_ifs
    · rfl
    · cases mapE (fun r : Lab.Event K × Lab.Barriers => Lab.labelRow bars c.metalabeling c.expirationLabel r.1 r.2) (evs.zip bs) <;> rfl
    · rfl

/-- The profit-taking and the stop-loss factor exchanged. -/
def swapFactors (c : Lab.Cfg K) : Lab.Cfg K := { c with ptf := c.slf, slf := c.ptf }

/-- The metalabel of the opposite bet. -/
def flip : XF K → XF K
  | .fin x => .fin (1 - x)
  | x => x

/-- The row of the opposite bet: same end and volatility, opposite return, opposite label.  When expirations have label 0, both can be 0. -/
def OppositeRow (expirationLabel : Bool) (r r' : Lab.Row K) : Prop :=
  r'.endTime = r.endTime ∧ r'.vol = r.vol ∧ r'.ret = XF.neg r.ret ∧
    (r'.label = flip r.label ∨ expirationLabel = true ∧ r.label = .fin 0 ∧ r'.label = .fin 0)

theorem flip_labelOf (x : XF K) : Lab.labelOf true (XF.neg x) = flip (Lab.labelOf true x) := by
  unfold Lab.labelOf
  simp only [if_true]
  have h1 : XF.lt (.fin 0) (XF.neg x) = XF.lt x (.fin 0) := by rw [xf_lt_neg]; simp
  have h2 : XF.lt (XF.neg x) (.fin 0) = XF.lt (.fin 0) x := by rw [xf_neg_lt]; simp
  rw [h1, h2]
  by_cases a : XF.lt x (.fin 0) = true
  · have b : XF.lt (.fin 0) x = false := by
      cases x <;> simp_all [XF.lt, le_of_lt]
    rw [a, b]; simp [flip]
  · rw [Bool.not_eq_true] at a
    rw [a]
    cases XF.lt (.fin 0) x <;> simp [flip]

theorem row_opposite (bars : List (ℤ × XF K)) (ex : Bool) (e : Lab.Event K) (b : Lab.Barriers) :
    Alike (OppositeRow ex) ((Lab.labelRow bars true ex e b).map (Lab.outputRow e b))
      ((Lab.labelRow bars true ex (opposite e) (exchange b)).map (Lab.outputRow (opposite e) (exchange b))) := by
  have out : ∀ (l l' : Option (XF K × XF K)), (∀ p, l = some p → ∃ p', l' = some p' ∧ p'.1 = XF.neg p.1 ∧
      (p'.2 = flip p.2 ∨ ex = true ∧ p.2 = .fin 0 ∧ p'.2 = .fin 0)) → (l = none → l' = none) →
      OppositeRow ex (Lab.outputRow e b l) (Lab.outputRow (opposite e) (exchange b) l') := by
    intro l l' h1 h2
    unfold Lab.outputRow
    by_cases hv : e.vol.isNan = true
    · have hv' : (opposite e).vol.isNan = true := hv
      rw [if_pos hv, if_pos hv']
      exact ⟨rfl, rfl, rfl, Or.inl rfl⟩
    · have hv' : ¬ (opposite e).vol.isNan = true := hv
      rw [if_neg hv, if_neg hv']
      refine ⟨eventEnd_exchange b, rfl, ?_, ?_⟩
      · cases l with
        | none => rw [h2 rfl]; rfl
        | some p => obtain ⟨p', k1, k2, -⟩ := h1 p rfl; rw [k1]; exact k2
      · cases l with
        | none => rw [h2 rfl]; exact Or.inl rfl
        | some p => obtain ⟨p', k1, -, k2⟩ := h1 p rfl; rw [k1]; exact k2
  unfold Lab.labelRow
  rw [eventEnd_exchange]
  cases Lab.eventEnd b with
  | none => exact Or.inr ⟨_, _, rfl, rfl, out _ _ (by simp) (fun _ => rfl)⟩
  | some t =>
    dsimp only
    cases Lab.closeAt bars t with
    | error err => exact Or.inl ⟨err, rfl, rfl⟩
    | ok x =>
      refine Or.inr ⟨_, _, rfl, rfl, out _ _ ?_ (by simp)⟩
      rintro p ⟨⟩
      refine ⟨_, rfl, ?_, ?_⟩
      · simp only [if_true]; exact xf_mul_neg _ _
      · simp only [if_true]
        by_cases hx : (ex && b.stopLoss.isNone && b.profitTaking.isNone) = true
        · have hx' : (ex && (exchange b).stopLoss.isNone && (exchange b).profitTaking.isNone) = true := by
            simp only [exchange, Bool.and_eq_true] at hx ⊢; tauto
          rw [hx, hx']
          refine Or.inr ⟨?_, rfl, rfl⟩
          simp only [Bool.and_eq_true] at hx; exact hx.1.1
        · have hx' : ¬ (ex && (exchange b).stopLoss.isNone && (exchange b).profitTaking.isNone) = true := by
            simp only [exchange, Bool.and_eq_true] at hx ⊢; tauto
          rw [if_neg hx, if_neg hx']
          left
          show Lab.labelOf true (XF.mul _ (XF.neg e.side)) = _
          rw [xf_mul_neg, flip_labelOf]
          rfl

theorem zip_map_map {α β γ δ : Type*} (l : List α) (m : List β) (f : α → γ) (g : β → δ) :
    (l.map f).zip (m.map g) = (l.zip m).map fun p => (f p.1, g p.2) := by
  rw [List.zip_map]; rfl

theorem label_opposite (bars : List (ℤ × XF K)) (evs : List (Lab.Event K)) (c : Lab.Cfg K) (hm : c.metalabeling = true) :
    Alike (List.Forall₂ (OppositeRow c.expirationLabel)) (Lab.label bars evs c) (Lab.label bars (evs.map opposite) (swapFactors c)) := by
  rw [label_rows, label_rows]
  show Alike _ _ (match Lab.tripleBarrierLabeling bars (evs.map opposite) c.slf c.ptf with | .error e => _ | .ok bs => _)
  rw [tripleBarrier_opposite]
  cases Lab.tripleBarrierLabeling bars evs c.ptf c.slf with
  | error e => exact Or.inl ⟨e, rfl, rfl⟩
  | ok bs =>
    simp only [Except.map]
    by_cases hp : (bars.map (·.1)).Pairwise (· < ·) ∨ (bars.map (·.1)).Pairwise (· > ·)
    · rw [if_pos hp, if_pos hp, zip_map_map]
      have hall : ((evs.zip bs).map fun p => (opposite p.1, exchange p.2)).all (fun r => (Lab.eventEnd r.2).isNone) =
          (evs.zip bs).all fun r => (Lab.eventEnd r.2).isNone := by
        rw [List.all_map]
        congr 1
        funext r
        simp [eventEnd_exchange]
      have hm' : (swapFactors c).metalabeling = c.metalabeling := rfl
      rw [hall, hm']
      split
      · exact Or.inl ⟨_, rfl, rfl⟩
      apply mapE_alike
      intro r _
      show Alike _ _ ((Lab.labelRow bars c.metalabeling c.expirationLabel (opposite r.1) (exchange r.2)).map _)
      rw [hm]
      exact row_opposite bars c.expirationLabel r.1 r.2
    · rw [if_neg hp, if_neg hp]
      exact Or.inl ⟨_, rfl, rfl⟩

theorem label_plain (bars : List (ℤ × XF K)) (evs : List (Lab.Event K)) (c : Lab.Cfg K) (hm : c.metalabeling = false) :
    Lab.label bars (evs.map opposite) (swapFactors c) = Lab.label bars evs c := by
  rw [label_rows, label_rows]
  show (match Lab.tripleBarrierLabeling bars (evs.map opposite) c.slf c.ptf with | .error e => _ | .ok bs => _) = _
  rw [tripleBarrier_opposite]
  cases Lab.tripleBarrierLabeling bars evs c.ptf c.slf with
  | error e => rfl
  | ok bs =>
    simp only [Except.map]
    by_cases hp : (bars.map (·.1)).Pairwise (· < ·) ∨ (bars.map (·.1)).Pairwise (· > ·)
    · rw [if_pos hp, if_pos hp, zip_map_map, mapE_map]
      have hm' : (swapFactors c).metalabeling = false := hm
      rw [if_neg (by rw [hm', Bool.false_and]; simp), if_neg (by rw [hm, Bool.false_and]; simp)]
      congr 1
      funext r
      show Except.map (Lab.outputRow (opposite r.1) (exchange r.2)) (Lab.labelRow bars c.metalabeling c.expirationLabel (opposite r.1) (exchange r.2)) = _
      have e1 : Lab.labelRow bars c.metalabeling c.expirationLabel (opposite r.1) (exchange r.2) =
          Lab.labelRow bars c.metalabeling c.expirationLabel r.1 r.2 := by
        unfold Lab.labelRow
        rw [eventEnd_exchange, hm]
        have : (c.expirationLabel && (exchange r.2).stopLoss.isNone && (exchange r.2).profitTaking.isNone) =
            (c.expirationLabel && r.2.stopLoss.isNone && r.2.profitTaking.isNone) := by
          simp only [exchange, Bool.and_assoc]; rw [Bool.and_comm r.2.profitTaking.isNone]
        rw [this]
        rfl
      rw [e1]
      congr 1
      funext l
      unfold Lab.outputRow
      rw [eventEnd_exchange]
      rfl
    · rw [if_neg hp, if_neg hp]

theorem events_opposite (times : List ℤ) (close vol side : List (XF K)) (n : ℤ) :
    Lab.events times close vol (side.map XF.neg) n = (Lab.events times close vol side n).map opposite := by
  unfold Lab.events
  rw [List.map_map]
  apply List.map_congr_left
  intro i _
  simp only [Function.comp, opposite]
  congr 1
  rw [List.getD_eq_getElem?_getD, List.getD_eq_getElem?_getD, List.getElem?_map]
  cases side[i]? <;> rfl

/-- `f'` is the frame `f` with the opposite sides. -/
structure OppositeFrame (c : Lab.Cfg K) (f f' : Lab.Frame K) : Prop where
  times : f'.times = f.times
  close : f'.col c.closeName = f.col c.closeName
  side : ∃ s, f.col Lab.SIDE = .ok s ∧ f'.col Lab.SIDE = .ok (s.map XF.neg)
  name : c.sideName = Lab.SIDE

theorem transform_opposite (dv : List ℤ → List (XF K) → List (XF K)) (c : Lab.Cfg K) (f f' : Lab.Frame K) (h : OppositeFrame c f f')
    (P : Py (List (Lab.Row K)) → Py (List (Lab.Row K)) → Prop) (herr : ∀ e, P (.error e) (.error e))
    (hP : ∀ bars evs, P (Lab.label bars evs c) (Lab.label bars (evs.map opposite) (swapFactors c))) :
    P (Lab.transform dv c f) (Lab.transform dv (swapFactors c) f') := by
  obtain ⟨s, h1, h2⟩ := h.side
  have hc : f'.has c.closeName = f.has c.closeName := by
    cases hc : f.col c.closeName with
    | ok l => rw [Lab.has_of_col hc, Lab.has_of_col (h.close.trans hc)]
    | error e => rw [not_has_of_col hc, not_has_of_col (h.close.trans hc)]
  have e0 : Lab.checkInput (swapFactors c) f' = Lab.checkInput c f := by
    unfold Lab.checkInput swapFactors
    dsimp only
    rw [h.name, hc, Lab.has_of_col h1, Lab.has_of_col h2]
  unfold Lab.transform
  rw [e0]
  cases Lab.checkInput c f with
  | error e => exact herr e
  | ok u =>
    dsimp only
    have e1 : f'.col (swapFactors c).closeName = f.col c.closeName := h.close
    rw [e1]
    cases f.col c.closeName with
    | error e => exact herr e
    | ok close =>
      dsimp only
      unfold Lab.sideColumn
      rw [Lab.has_of_col h1, Lab.has_of_col h2]
      simp only [if_true]
      have e2 : (swapFactors c).sideName = c.sideName := rfl
      rw [e2, h.name, h1, h2]
      simp only [if_true]
      have e3 : (swapFactors c).volAdjusted = c.volAdjusted := rfl
      have e4 : (swapFactors c).nExp = c.nExp := rfl
      rw [e3, e4, h.times, events_opposite]
      exact hP _ _

/-- **C124** With metalabeling, the opposite bets with the two barrier factors exchanged end at the same times with the opposite returns, and a
bet gets metalabel 1 exactly where the opposite bet gets 0 (up to expirations, if these always have label 0).  An exception is the same one. -/
theorem C124_opposite_bets (dv : List ℤ → List (XF K) → List (XF K)) (c : Lab.Cfg K) (f f' : Lab.Frame K) (h : OppositeFrame c f f')
    (hm : c.metalabeling = true) :
    Alike (List.Forall₂ (OppositeRow c.expirationLabel)) (Lab.transform dv c f) (Lab.transform dv (swapFactors c) f') :=
  transform_opposite dv c f f' h _ (fun e => Or.inl ⟨e, rfl, rfl⟩) fun bars evs => label_opposite bars evs c hm

/-- **C124** Without metalabeling the side only decides which barrier is which: opposite sides with the two factors exchanged give the same
frame. -/
theorem C124_plain_labels (dv : List ℤ → List (XF K) → List (XF K)) (c : Lab.Cfg K) (f f' : Lab.Frame K) (h : OppositeFrame c f f')
    (hm : c.metalabeling = false) : Lab.transform dv (swapFactors c) f' = Lab.transform dv c f :=
  transform_opposite dv c f f' h (fun a b => b = a) (fun _ => rfl) fun bars evs => label_plain bars evs c hm

/-- A long and a short bet on a rising path, with metalabels; the barriers are at 20% and 10%. -/
def longShort (side : ℚ) : Lab.Frame ℚ :=
  ⟨[1000000, 2000000, 3000000, 4000000], [("close", [.fin 10, .fin 11, .fin 13, .fin 12]), ("side", List.replicate 4 (.fin side))]⟩

example : OppositeFrame (⟨2, 2/10, 1/10, true, "close", "side", false, false⟩ : Lab.Cfg ℚ) (longShort 1) (longShort (-1)) :=
  ⟨rfl, rfl, ⟨_, rfl, by decide +kernel⟩, rfl⟩

example :
    Lab.transform (fun _ _ => []) (⟨2, 2/10, 1/10, true, "close", "side", false, false⟩ : Lab.Cfg ℚ) (longShort 1) =
      .ok [⟨some 3000000, .fin 1, .fin (3/10), .fin 1⟩, ⟨some 4000000, .fin 1, .fin (1/11), .fin 1⟩, ⟨none, .fin 1, .nan, .nan⟩,
        ⟨none, .fin 1, .nan, .nan⟩] ∧
    Lab.transform (fun _ _ => []) (⟨2, 1/10, 2/10, true, "close", "side", false, false⟩ : Lab.Cfg ℚ) (longShort (-1)) =
      .ok [⟨some 3000000, .fin 1, .fin (-3/10), .fin 0⟩, ⟨some 4000000, .fin 1, .fin (-1/11), .fin 0⟩, ⟨none, .fin 1, .nan, .nan⟩,
        ⟨none, .fin 1, .nan, .nan⟩] := by decide +kernel

/-! ### the mirrored price path -/

/-- The price mirrored at `a`. -/
def reflect (a : K) (x : XF K) : XF K := XF.sub (.fin (2 * a)) x

theorem ret_reflect {a : K} (ha : a ≠ 0) (x : XF K) :
    XF.sub (XF.div (reflect a x) (.fin a)) (.fin 1) = XF.neg (XF.sub (XF.div x (.fin a)) (.fin 1)) := by
  unfold reflect
  cases x with
  | nan => rfl
  | fin x =>
    simp only [XF.sub_fin, XF.div, if_neg ha, XF.neg_fin]
    congr 1
    field_simp
    ring
  | pinf =>
    rcases lt_or_gt_of_ne ha with h | h
    · simp [XF.sub, XF.add, XF.neg, XF.div, h]
    · simp [XF.sub, XF.add, XF.neg, XF.div, not_lt.2 h.le]
  | ninf =>
    rcases lt_or_gt_of_ne ha with h | h
    · simp [XF.sub, XF.add, XF.neg, XF.div, h]
    · simp [XF.sub, XF.add, XF.neg, XF.div, not_lt.2 h.le]

theorem xf_mul_comm (x y : XF K) : XF.mul x y = XF.mul y x := by
  cases x <;> cases y <;> simp [XF.mul, mul_comm]

theorem xf_neg_mul' (x y : XF K) : XF.mul (XF.neg x) y = XF.neg (XF.mul x y) := by
  rw [xf_mul_comm, xf_mul_neg, xf_mul_comm]

theorem tripleBarrier_reflect {a : K} (ha : a ≠ 0) (bars : List (ℤ × XF K)) (evs : List (Lab.Event K)) (he : ∀ e ∈ evs, e.close = .fin a)
    (ptf slf : K) :
    Lab.tripleBarrierLabeling (bars.map fun b => (b.1, reflect a b.2)) evs slf ptf =
      (Lab.tripleBarrierLabeling bars evs ptf slf).map (·.map exchange) := by
  unfold Lab.tripleBarrierLabeling
  by_cases h : ptf < 0 ∧ slf < 0
  · rw [if_pos h, if_pos ⟨h.2, h.1⟩]; rfl
  rw [if_neg h, if_neg fun h' => h ⟨h'.2, h'.1⟩]
  rw [List.getLast?_map]
  cases bars.getLast? with
  | none => rfl
  | some last =>
    dsimp only [Option.map_some]
    show _ = Except.ok _
    congr 1
    dsimp only
    rw [List.map_zipWith]
    unfold Lab.getHorizontalBarriersHit
    rw [List.map_map, List.map_map, List.map_map, List.zipWith_map_right, List.zipWith_map_right]
    rw [List.zipWith_self, List.zipWith_self]
    apply List.map_congr_left
    intro e hm
    have hit : ∀ (br br' : XF K → Bool), (∀ x, br (XF.neg x) = br' x) →
        Lab.firstHit (bars.map ((fun b : ℤ × XF K => (Lab.convertToTimestamp (some b.1), b.2)) ∘ fun b => (b.1, reflect a b.2)))
          (Lab.convertToTimestamp (some e.start)) (Lab.convertToTimestamp (some (e.exp.getD last.1))) e.close e.side br =
        Lab.firstHit (bars.map fun b : ℤ × XF K => (Lab.convertToTimestamp (some b.1), b.2))
          (Lab.convertToTimestamp (some e.start)) (Lab.convertToTimestamp (some (e.exp.getD last.1))) e.close e.side br' := by
      intro br br' hbr
      unfold Lab.firstHit
      dsimp only
      rw [List.filter_map, List.filter_map, List.filter_map, List.filter_map, List.map_map, List.map_map]
      have e1 : ∀ l : List (ℤ × XF K), l.filter ((fun p : ℤ × XF K => br (XF.mul (XF.sub (XF.div p.2 e.close) (.fin 1)) e.side)) ∘
          ((fun b : ℤ × XF K => (Lab.convertToTimestamp (some b.1), b.2)) ∘ fun b => (b.1, reflect a b.2))) =
          l.filter ((fun p : ℤ × XF K => br' (XF.mul (XF.sub (XF.div p.2 e.close) (.fin 1)) e.side)) ∘
          fun b : ℤ × XF K => (Lab.convertToTimestamp (some b.1), b.2)) := by
        intro l
        apply List.filter_congr
        intro p _
        simp only [Function.comp]
        rw [he e hm, ret_reflect ha, xf_neg_mul', hbr]
      rw [e1]
      rfl
    simp only [Function.comp, exchange, Lab.prepare]
    congr 2
    · apply hit
      intro x
      by_cases hs : 0 < ptf
      · rw [if_pos hs, if_pos hs, xf_neg_mul, xf_neg_lt, Cusum.neg_neg]
      · rw [if_neg hs, if_neg hs]; cases x <;> rfl
    · apply hit
      intro x
      by_cases hs : 0 < slf
      · rw [if_pos hs, if_pos hs, xf_neg_mul, xf_lt_neg]
      · rw [if_neg hs, if_neg hs]; cases x <;> rfl

/-- The row on the mirrored path: same end and volatility, opposite return and label. -/
def mirrorRow' (r : Lab.Row K) : Lab.Row K := ⟨r.endTime, r.vol, XF.neg r.ret, XF.neg r.label⟩

/-- **C124** On the price path mirrored at the price of the event, with the two factors exchanged, the event ends at the same time with the
opposite return and the opposite label. -/
theorem C124_mirrored_path {a : K} (ha : a ≠ 0) (bars : List (ℤ × XF K)) (evs : List (Lab.Event K)) (he : ∀ e ∈ evs, e.close = .fin a)
    (c : Lab.Cfg K) (hm : c.metalabeling = false) :
    Lab.label (bars.map fun b => (b.1, reflect a b.2)) evs (swapFactors c) = (Lab.label bars evs c).map (·.map mirrorRow') := by
  rw [label_rows, label_rows]
  show (match Lab.tripleBarrierLabeling (bars.map fun b => (b.1, reflect a b.2)) evs c.slf c.ptf with | .error e => _ | .ok bs => _) = _
  rw [tripleBarrier_reflect ha bars evs he]
  cases hb : Lab.tripleBarrierLabeling bars evs c.ptf c.slf with
  | error e => rfl
  | ok bs =>
    simp only [Except.map]
    have e0 : (bars.map fun b => (b.1, reflect a b.2)).map (·.1) = bars.map (·.1) := by rw [List.map_map]; rfl
    rw [e0]
    by_cases hp : (bars.map (·.1)).Pairwise (· < ·) ∨ (bars.map (·.1)).Pairwise (· > ·)
    · rw [if_pos hp, if_pos hp]
      have e1 : evs.zip (bs.map exchange) = (evs.zip bs).map fun p => (p.1, exchange p.2) := by
        have := zip_map_map evs bs id exchange
        simpa using this
      rw [e1, mapE_map]
      have key : ∀ r ∈ evs.zip bs, Except.map (Lab.outputRow r.1 (exchange r.2))
          (Lab.labelRow (bars.map fun b => (b.1, reflect a b.2)) c.metalabeling c.expirationLabel r.1 (exchange r.2)) =
          (Except.map (Lab.outputRow r.1 r.2) (Lab.labelRow bars c.metalabeling c.expirationLabel r.1 r.2)).map mirrorRow' := by
        intro r hr
        have hc : r.1.close = .fin a := he _ (List.of_mem_zip hr).1
        unfold Lab.labelRow
        rw [eventEnd_exchange, hm]
        cases Lab.eventEnd r.2 with
        | none =>
          simp only [Except.map]
          unfold Lab.outputRow
          rw [eventEnd_exchange]
          split_ifs <;> rfl
        | some t =>
          have e2 : Lab.closeAt (bars.map fun b => (b.1, reflect a b.2)) t = (Lab.closeAt bars t).map (reflect a) := by
            unfold Lab.closeAt
            rw [List.find?_map]
            have e5 : ((fun b : ℤ × XF K => b.1 == t) ∘ fun b : ℤ × XF K => (b.1, reflect a b.2)) = fun b => b.1 == t := rfl
            rw [e5]
            cases List.find? (fun b : ℤ × XF K => b.1 == t) bars <;> rfl
          dsimp only
          rw [e2]
          cases Lab.closeAt bars t with
          | error e => rfl
          | ok x =>
            simp only [Except.map, Bool.false_eq_true, if_false]
            rw [hc, ret_reflect ha]
            unfold Lab.outputRow
            rw [eventEnd_exchange]
            have e3 : (c.expirationLabel && (exchange r.2).stopLoss.isNone && (exchange r.2).profitTaking.isNone) =
                (c.expirationLabel && r.2.stopLoss.isNone && r.2.profitTaking.isNone) := by
              simp only [exchange, Bool.and_assoc]; rw [Bool.and_comm r.2.profitTaking.isNone]
            rw [e3]
            unfold Lab.labelOf mirrorRow'
            simp only [Bool.false_eq_true, if_false, xf_sign_neg]
            split_ifs <;> simp [XF.neg]
      have e4 : ∀ l : List (Lab.Event K × Lab.Barriers), (∀ r ∈ l, r ∈ evs.zip bs) →
          mapE (fun r : Lab.Event K × Lab.Barriers => Except.map (Lab.outputRow r.1 (exchange r.2))
            (Lab.labelRow (bars.map fun b => (b.1, reflect a b.2)) c.metalabeling c.expirationLabel r.1 (exchange r.2))) l =
          (mapE (fun r : Lab.Event K × Lab.Barriers => Except.map (Lab.outputRow r.1 r.2)
            (Lab.labelRow bars c.metalabeling c.expirationLabel r.1 r.2)) l).map (·.map mirrorRow') := by
        intro l
        induction l with
        | nil => intro _; rfl
        | cons r l ih =>
          intro hl
          rw [mapE, mapE, key r (hl r List.mem_cons_self), ih fun q hq => hl q (List.mem_cons_of_mem _ hq)]
          cases Except.map (Lab.outputRow r.1 r.2) (Lab.labelRow bars c.metalabeling c.expirationLabel r.1 r.2) with
          | error e => rfl
          | ok b =>
            cases mapE (fun r : Lab.Event K × Lab.Barriers => Except.map (Lab.outputRow r.1 r.2)
              (Lab.labelRow bars c.metalabeling c.expirationLabel r.1 r.2)) l <;> rfl
      have := e4 (evs.zip bs) fun r hr => hr
      simp only [Except.map] at this
      have hm' : (swapFactors c).metalabeling = false := hm
      rw [if_neg (by rw [hm', Bool.false_and]; simp), if_neg (by rw [hm, Bool.false_and]; simp)]
      exact this
    · rw [if_neg hp, if_neg hp]

/-- A path that rises from 10 to 13 and its mirror image, which falls to 7. -/
example :
    Lab.label [(1000000, .fin 10), (2000000, .fin 11), (3000000, .fin 13)] [⟨1000000, some 3000000, .fin 10, .fin 1, .fin 1⟩]
      (⟨2, 5/100, 1/10, false, "close", "side", false, false⟩ : Lab.Cfg ℚ) = .ok [⟨some 2000000, .fin 1, .fin (1/10), .fin 1⟩] ∧
    Lab.label [(1000000, .fin 10), (2000000, .fin 9), (3000000, .fin 7)] [⟨1000000, some 3000000, .fin 10, .fin 1, .fin 1⟩]
      (⟨2, 1/10, 5/100, false, "close", "side", false, false⟩ : Lab.Cfg ℚ) = .ok [⟨some 2000000, .fin 1, .fin (-1/10), .fin (-1)⟩] := by
  decide +kernel

end Mizar.Props
