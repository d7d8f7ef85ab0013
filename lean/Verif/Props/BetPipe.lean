import Verif.Model.BetPipe
import Verif.Props.BetSizing
import Verif.Props.Pipeline
import Verif.Props.PipelineReady
import Verif.Props.Trader

/-!
Property theorems C153: the project's bet sizer inside a pipeline, and the validity of the signal
(`/repo/mizarlabs/model/pipeline.py`, `/repo/mizarlabs/transformers/trading/bet_sizing.py`).
-/

namespace Mizar.Props
open Mizar.Spec Mizar.Pipe Mizar.Trade

/-- The size for class `k`, probability `p` and side `side`: the confidence, discretised if the bet sizer is told to. -/
noncomputable def sizeFor (bc : Bet.Cfg) (k p side : ℝ) : XF ℝ :=
  if bc.discretise then Bet.discretise1 (bc.stepSize.getD 0) (.fin |k * confidence bc.numClasses p * side|)
  else .fin |k * confidence bc.numClasses p * side|

private theorem sizeFor_eq {bc : Bet.Cfg} (h : Bet.construct bc = .ok bc) (k p side : ℝ) :
    sizeFor bc k p side = .fin (rowSize bc (k * confidence bc.numClasses p * side)) := by
  unfold sizeFor rowSize
  cases hd : bc.discretise with
  | false => rfl
  | true =>
    obtain ⟨st, h1, h2, -⟩ := step_of_construct h hd
    simp only [if_true, h1, Option.getD_some]
    rw [Bet.discretise1_fin h2]

/-- The value of a number. -/
private def fv : XF ℝ → ℝ
  | .fin x => x
  | _ => 0

/-- Rows as the bet sizer may be given them: probabilities, classes and sides in range. -/
structure GoodBet (side : Bool) (q : BetRow ℝ) (p σ : ℝ) : Prop where
  prob : q.prob = .fin p
  prob0 : 0 ≤ p
  prob1 : p ≤ 1
  pred0 : -1 ≤ q.pred
  pred1 : q.pred ≤ 1
  given : side = true → q.side = some (.fin σ)
  one : side = false → σ = 1
  range : σ = 1 ∨ σ = -1 ∨ σ = 0

private theorem ownSizer_ok {bc : Bet.Cfg} (hc : Bet.construct bc = .ok bc) (ha : bc.averageActive = false) (hn : 2 ≤ bc.numClasses)
    (b : List (BetRow ℝ)) (hs : Bool) (hms : bc.metaLabeling = true → hs = true) (hb : ∀ q ∈ b, ∃ p σ, GoodBet bc.metaLabeling q p σ) :
    ∃ out, ownSizer bc hs b = .ok out ∧ out.map (·.1) = b.map (·.time) ∧
      ∀ (i : ℕ) (q : BetRow ℝ), b[i]? = some q → ∀ p σ, GoodBet bc.metaLabeling q p σ → out[i]? = some (q.time, sizeFor bc q.pred p σ) := by
  have hin : BetInput bc ⟨b.map (·.time), some (b.map (·.prob)), some (b.map fun r => .fin r.pred),
      if hs then some (b.map fun r => r.side.getD .nan) else none, none⟩ (b.map fun q => fv q.prob) (b.map (·.pred))
      (b.map fun q => if bc.metaLabeling then fv (q.side.getD .nan) else 1) := by
    refine ⟨?_, ?_, ?_, ?_, by simp, by simp, by simp, ?_, ?_, ?_, ?_, hn, hc, ?_⟩
    · simp only [List.map_map, Option.some.injEq]
      apply List.map_congr_left
      intro q hq
      obtain ⟨p, σ, h⟩ := hb q hq
      simp [h.prob, fv]
    · simp [List.map_map, Function.comp_def]
    · intro hm
      rw [hms hm]
      simp only [if_true, List.map_map, Option.some.injEq]
      apply List.map_congr_left
      intro q hq
      obtain ⟨p, σ, h⟩ := hb q hq
      simp [h.given hm, hm, fv]
    · intro h; rw [ha] at h; cases h
    · intro x hx
      obtain ⟨q, hq, rfl⟩ := List.mem_map.1 hx
      obtain ⟨p, σ, h⟩ := hb q hq
      rw [h.prob]
      exact ⟨h.prob0, h.prob1⟩
    · intro x hx
      obtain ⟨q, hq, rfl⟩ := List.mem_map.1 hx
      obtain ⟨p, σ, h⟩ := hb q hq
      exact ⟨h.pred0, h.pred1⟩
    · intro x hx
      obtain ⟨q, hq, rfl⟩ := List.mem_map.1 hx
      obtain ⟨p, σ, h⟩ := hb q hq
      by_cases hm : bc.metaLabeling = true
      · simp only [hm, if_true]
        rw [h.given hm]
        exact h.range
      · simp [hm]
    · intro hm
      simp only [hm, List.length_map, Bool.false_eq_true, if_false]
      exact List.map_const' ..
    · intro h; rw [ha] at h; cases h
  obtain ⟨out, h1, h2⟩ := row_formula hin ha
  obtain ⟨out', h1', -, h3⟩ := C37_size_in_unit_interval_partial hin
  rw [h1, Except.ok.injEq] at h1'
  subst h1'
  refine ⟨out, h1, h3 ha, ?_⟩
  intro i q hq p σ hg
  obtain ⟨hi, hiq⟩ := List.getElem?_eq_some_iff.1 hq
  rw [h2 i (by simpa using hi), sizeFor_eq hc]
  unfold rowSignal
  simp only [List.getElem_map, hiq, List.getD_eq_getElem?_getD, List.getElem?_map, hq, Option.map_some, Option.getD_some]
  have hs1 : (if bc.metaLabeling = true then fv (q.side.getD .nan) else 1) = σ := by
    by_cases hm : bc.metaLabeling = true
    · rw [if_pos hm, hg.given hm]; rfl
    · rw [if_neg hm, hg.one (by simpa using hm)]
  rw [hs1, hg.prob]
  rfl

/-- Rows of probabilities of a classifier: one for each class, in [0, 1], classes in [-1, 1]. -/
structure GoodRows (classes : List ℝ) (rows : List (ℤ × List (XF ℝ))) : Prop where
  some : classes ≠ []
  range : ∀ k ∈ classes, -1 ≤ k ∧ k ≤ 1
  length : ∀ r ∈ rows, r.2.length = classes.length
  unit : ∀ r ∈ rows, ∀ x ∈ r.2, ∃ p : ℝ, x = .fin p ∧ 0 ≤ p ∧ p ≤ 1
  times : (rows.map (·.1)).Nodup

private theorem goodRow_largest {classes : List ℝ} {rows : List (ℤ × List (XF ℝ))} (h : GoodRows classes rows) {r : ℤ × List (XF ℝ)} (hr : r ∈ rows)
    {z : XF ℝ} (hz : Largest r.2 z) : ∃ p : ℝ, z = .fin p ∧ 0 ≤ p ∧ p ≤ 1 := by
  have hl := h.length r hr
  have hne : r.2 ≠ [] := by
    intro h0
    rw [h0] at hl
    exact h.some (List.length_eq_zero_iff.1 hl.symm)
  obtain ⟨x, l, hx⟩ := List.exists_cons_of_ne_nil hne
  have hxm : x ∈ r.2 := by rw [hx]; simp
  obtain ⟨p, rfl, -⟩ := h.unit r hr x hxm
  exact h.unit r hr z (hz.1 ⟨_, hxm, rfl⟩).1

private theorem own_size {bc : Bet.Cfg} (hc : Bet.construct bc = .ok bc) (ha : bc.averageActive = false) (hn : 2 ≤ bc.numClasses)
    {classes : List ℝ} {rows : List (ℤ × List (XF ℝ))} (hg : GoodRows classes rows) (sides : Option (Ser ℝ)) (hms : bc.metaLabeling = true → sides.isSome = true)
    (hnd : ∀ s, sides = some s → (s.map (·.1)).Nodup)
    (hside : ∀ s, sides = some s → ∀ r ∈ rows, ∃ σ : ℝ, (r.1, XF.fin σ) ∈ s ∧ (σ = 1 ∨ σ = -1 ∨ σ = 0)) :
    ∃ b size, mapE (betRow classes sides) rows = .ok b ∧ ownSizer bc sides.isSome b = .ok size ∧ (size.map (·.1)).Nodup ∧
      ∀ t z, (t, z) ∈ size ↔ ∃ r ∈ rows, r.1 = t ∧ ∃ (i : ℕ) (k p : ℝ), classes[i]? = some k ∧ Largest r.2 (.fin p) ∧ FirstAt r.2 i (.fin p) ∧
        ∃ σ : ℝ, (∀ s, sides = some s → bc.metaLabeling = true → (t, .fin σ) ∈ s) ∧ (bc.metaLabeling = false → σ = 1) ∧ z = sizeFor bc k p σ := by
  obtain ⟨b, hb, hbt⟩ := betRows_total classes hg.some sides rows hg.length
  have hbi := betRows_input classes sides hnd rows b hb
  have hlen : rows.length = b.length := hbi.length_eq
  -- what is known of each row
  have hrow : ∀ (i : ℕ) (r : ℤ × List (XF ℝ)) (q : BetRow ℝ), rows[i]? = some r → b[i]? = some q → q.time = r.1 ∧ ∃ (j : ℕ) (p : ℝ), classes[j]? = some q.pred ∧
      q.prob = .fin p ∧ Largest r.2 (.fin p) ∧ FirstAt r.2 j (.fin p) ∧ ∃ σ : ℝ, GoodBet bc.metaLabeling q p σ ∧
        (∀ s, sides = some s → bc.metaLabeling = true → (r.1, .fin σ) ∈ s) ∧ (bc.metaLabeling = false → σ = 1) := by
    intro i r q hr hq
    obtain ⟨hri, hre⟩ := List.getElem?_eq_some_iff.1 hr
    obtain ⟨hqi, hqe⟩ := List.getElem?_eq_some_iff.1 hq
    have hrel := List.forall₂_iff_get.1 hbi
    have := hrel.2 i hri hqi
    rw [List.get_eq_getElem, List.get_eq_getElem, hre, hqe] at this
    obtain ⟨h1, h2, h3, h4, -⟩ := this
    have hrm : r ∈ rows := List.mem_of_getElem? hr
    obtain ⟨p, hp, p0, p1⟩ := goodRow_largest hg hrm h2
    obtain ⟨j, hj, hf⟩ := h3 (fun x hx => by obtain ⟨y, rfl, -⟩ := hg.unit r hrm x hx; rfl)
    rw [hp] at h2 hf
    have hk := hg.range q.pred (List.mem_of_getElem? hj)
    refine ⟨h1, j, p, hj, hp, h2, hf, ?_⟩
    by_cases hm : bc.metaLabeling = true
    · obtain ⟨s, hs⟩ := Option.isSome_iff_exists.1 (hms hm)
      obtain ⟨σ, hσ, hσr⟩ := hside s hs r hrm
      obtain ⟨v, hv, hva⟩ := h4 s hs
      have hve : v = .fin σ := by
        rcases hva with h | ⟨h, -⟩
        · have e1 := serAt_of_mem s (hnd s hs) r.1 v h
          have e2 := serAt_of_mem s (hnd s hs) r.1 (.fin σ) hσ
          rw [← e1, e2]
        · exact absurd hσ (h _)
      refine ⟨σ, ⟨hp, p0, p1, hk.1, hk.2, fun _ => by rw [hv, hve], fun h => (by rw [hm] at h; cases h), hσr⟩, ?_, fun h => by rw [hm] at h; cases h⟩
      intro s' hs' _
      rw [hs] at hs'
      cases hs'
      exact hσ
    · have hm' : bc.metaLabeling = false := by simpa using hm
      exact ⟨1, ⟨hp, p0, p1, hk.1, hk.2, fun h => absurd h hm, fun _ => rfl, Or.inl rfl⟩, fun s _ h => absurd h hm, fun _ => rfl⟩
  obtain ⟨size, hsz, hst, hsi⟩ := ownSizer_ok hc ha hn b sides.isSome hms (by
    intro q hq
    obtain ⟨i, hi⟩ := List.mem_iff_getElem?.1 hq
    have hi' := (List.getElem?_eq_some_iff.1 hi).1
    obtain ⟨-, j, p, -, -, -, -, σ, h, -⟩ := hrow i _ q (List.getElem?_eq_getElem (by omega)) hi
    exact ⟨p, σ, h⟩)
  refine ⟨b, size, hb, hsz, by rw [hst, hbt]; exact hg.times, ?_⟩
  have hsl : size.length = b.length := by simpa using congrArg List.length hst
  intro t z
  constructor
  · intro h
    obtain ⟨i, hi⟩ := List.mem_iff_getElem?.1 h
    have hi' := (List.getElem?_eq_some_iff.1 hi).1
    have hbq : b[i]? = some b[i] := List.getElem?_eq_getElem (by omega)
    have hrr : rows[i]? = some rows[i] := List.getElem?_eq_getElem (by omega)
    obtain ⟨h1, j, p, h2, h3, h4, h5, σ, h6, h7, h8⟩ := hrow i _ _ hrr hbq
    have := hsi i _ hbq p σ h6
    rw [hi, Option.some.injEq, Prod.mk.injEq] at this
    obtain ⟨e1, e2⟩ := this
    refine ⟨rows[i], List.getElem_mem _, by rw [e1, h1], j, _, p, h2, h4, h5, σ, ?_, h8, e2⟩
    rw [e1, h1]
    exact h7
  · rintro ⟨r, hr, rfl, j, k, p, hk, hl, hf, σ, hσ, hσ1, rfl⟩
    obtain ⟨i, hi⟩ := List.mem_iff_getElem?.1 hr
    have hi' := (List.getElem?_eq_some_iff.1 hi).1
    have hbq : b[i]? = some b[i] := List.getElem?_eq_getElem (by omega)
    obtain ⟨h1, j', p', h2, h3, h4, h5, σ', h6, h7, h8⟩ := hrow i _ _ hi hbq
    have hpp : p = p' := by
      have a1 := (h4.1 ⟨_, (List.mem_of_getElem? h5.1), rfl⟩).2.2 (.fin p) (List.mem_of_getElem? hf.1) rfl
      have a2 := (hl.1 ⟨_, (List.mem_of_getElem? hf.1), rfl⟩).2.2 (.fin p') (List.mem_of_getElem? h5.1) rfl
      rw [XF.le_fin, decide_eq_true_eq] at a1 a2
      exact le_antisymm a1 a2
    subst hpp
    have hjj : j = j' := by
      rcases Nat.lt_trichotomy j j' with h | h | h
      · have := h5.2 j h _ hf.1
        simp at this
      · exact h
      · have := hf.2 j' h _ h5.1
        simp at this
    subst hjj
    have hkk : b[i].pred = k := by rw [hk] at h2; exact (Option.some.inj h2).symm
    have hσσ : σ = σ' := by
      by_cases hm : bc.metaLabeling = true
      · obtain ⟨s, hs⟩ := Option.isSome_iff_exists.1 (hms hm)
        have e1 := serAt_of_mem s (hnd s hs) r.1 _ (hσ s hs hm)
        have e2 := serAt_of_mem s (hnd s hs) r.1 _ (h7 s hs hm)
        rw [e1] at e2
        injection e2
      · have hm' : bc.metaLabeling = false := by simpa using hm
        rw [hσ1 hm', h8 hm']
    subst hσσ
    have := hsi i _ hbq p σ h6
    rw [hkk, h1] at this
    exact List.mem_of_getElem? this

private theorem sizeFor_range {bc : Bet.Cfg} (hc : Bet.construct bc = .ok bc) (k p σ : ℝ) : (sizeFor bc k p σ).isNan = false := by
  rw [sizeFor_eq hc]; rfl

/-- C153 (with a metalabeling model): if both models answer with probabilities in [0, 1] and every row of the metalabeling model has a side -1, 0 or 1,
`get_side_and_size` with a `BetSizingFromProbabilities` (no averaging) returns one row for each row of the metalabeling model: its side is
the primary prediction, its size is the confidence in the most probable metalabel times this class, and times the side if the bet sizer has `meta_labeling`. -/
theorem C153_meta_size (c : Cfg ℝ) (m : Clf ℝ) (bc : Bet.Cfg) (X : Dict ℝ) (hm : c.metaModel = some m) (hb : c.betSizer = some (ownSizer bc true))
    (hc : Bet.construct bc = .ok bc) (ha : bc.averageActive = false) (hn : 2 ≤ bc.numClasses) (pred : Predictions ℝ) (proba : Probas ℝ)
    (hpred : predict c X = .ok pred) (hproba : predictProba c X = .ok proba) (rows : List (ℤ × List (XF ℝ))) (hrows : proba.metal = some rows)
    (hg : GoodRows m.classes rows) (hnd : (pred.primary.map (·.1)).Nodup)
    (hside : ∀ r ∈ rows, ∃ σ : ℝ, (r.1, XF.fin σ) ∈ pred.primary ∧ (σ = 1 ∨ σ = -1 ∨ σ = 0)) :
    ∃ res, getSideAndSize c X = .ok res ∧ ∀ t s z, (t, s, z) ∈ res ↔ ∃ r ∈ rows, r.1 = t ∧ ∃ (i : ℕ) (k p σ : ℝ), m.classes[i]? = some k ∧
      Largest r.2 (.fin p) ∧ FirstAt r.2 i (.fin p) ∧ (t, .fin σ) ∈ pred.primary ∧ s = .fin σ ∧ z = sizeFor bc k p (if bc.metaLabeling then σ else 1) := by
  obtain ⟨b, size, h1, h2, h3, h4⟩ := own_size hc ha hn hg (some pred.primary) (fun _ => rfl) (fun s hs => by cases hs; exact hnd)
    (fun s hs => by cases hs; exact hside)
  refine ⟨sideSize pred.primary size, ?_, ?_⟩
  · unfold getSideAndSize
    rw [hpred, Py.bind_ok, hproba, Py.bind_ok]
    unfold signalSize
    simp only [hm, hrows, Option.getD_some]
    unfold sizeMeta
    simp only [hb]
    rw [hpred, Py.bind_ok, h1, Py.bind_ok]
    change (ownSizer bc true b >>= _) = _
    rw [show ownSizer bc true b = .ok size from h2]
    rfl
  · intro t s z
    rw [mem_sideSize _ _ hnd h3, h4]
    constructor
    · rintro ⟨hs, ⟨r, hr, rfl, i, k, p, hk, hl, hf, σ, hσ, hσ1, rfl⟩, -, -⟩
      obtain ⟨τ, hτ, -⟩ := hside r hr
      have hst : s = .fin τ := by
        rw [← serAt_of_mem pred.primary hnd r.1 s hs, serAt_of_mem pred.primary hnd r.1 _ hτ]
      refine ⟨r, hr, rfl, i, k, p, τ, hk, hl, hf, hτ, hst, ?_⟩
      congr 1
      by_cases hml : bc.metaLabeling = true
      · rw [if_pos hml]
        have e := serAt_of_mem pred.primary hnd r.1 _ (hσ _ rfl hml)
        rw [serAt_of_mem pred.primary hnd r.1 _ hτ] at e
        injection e with e
        exact e.symm
      · rw [if_neg hml]
        exact hσ1 (by simpa using hml)
    · rintro ⟨r, hr, rfl, i, k, p, σ, hk, hl, hf, hσ, rfl, rfl⟩
      refine ⟨hσ, ⟨r, hr, rfl, i, k, p, hk, hl, hf, _, ?_, ?_, rfl⟩, rfl, sizeFor_range hc _ _ _⟩
      · intro s' hs' hml
        cases hs'
        rw [if_pos hml]
        exact hσ
      · intro hml
        rw [hml]
        rfl

/-- C153 (without a metalabeling model): the size is the confidence in the most probable class of the primary model times this class. -/
theorem C153_primary_size (c : Cfg ℝ) (bc : Bet.Cfg) (X : Dict ℝ) (hm : c.metaModel = none) (hb : c.betSizer = some (ownSizer bc false))
    (hc : Bet.construct bc = .ok bc) (ha : bc.averageActive = false) (hml : bc.metaLabeling = false) (hn : 2 ≤ bc.numClasses)
    (pred : Predictions ℝ) (proba : Probas ℝ) (hpred : predict c X = .ok pred) (hproba : predictProba c X = .ok proba)
    (hg : GoodRows c.primary.classes proba.primary) (hnd : (pred.primary.map (·.1)).Nodup) :
    ∃ res, getSideAndSize c X = .ok res ∧ ∀ t s z, (t, s, z) ∈ res ↔ (t, s) ∈ pred.primary ∧ s.isNan = false ∧ ∃ r ∈ proba.primary, r.1 = t ∧
      ∃ (i : ℕ) (k p : ℝ), c.primary.classes[i]? = some k ∧ Largest r.2 (.fin p) ∧ FirstAt r.2 i (.fin p) ∧ z = sizeFor bc k p 1 := by
  obtain ⟨b, size, h1, h2, h3, h4⟩ := own_size hc ha hn hg none (fun h => by rw [hml] at h; cases h) (fun s hs => by cases hs)
    (fun s hs => by cases hs)
  refine ⟨sideSize pred.primary size, ?_, ?_⟩
  · unfold getSideAndSize
    rw [hpred, Py.bind_ok, hproba, Py.bind_ok]
    unfold signalSize
    simp only [hm]
    unfold sizePrimary
    simp only [hb]
    rw [h1, Py.bind_ok]
    change (ownSizer bc false b >>= _) = _
    rw [show ownSizer bc false b = .ok size from h2]
    rfl
  · intro t s z
    rw [mem_sideSize _ _ hnd h3, h4]
    constructor
    · rintro ⟨hs, ⟨r, hr, rfl, i, k, p, hk, hl, hf, σ, -, hσ1, rfl⟩, hn1, -⟩
      exact ⟨hs, hn1, r, hr, rfl, i, k, p, hk, hl, hf, by rw [hσ1 hml]⟩
    · rintro ⟨hs, hn1, r, hr, rfl, i, k, p, hk, hl, hf, rfl⟩
      exact ⟨hs, ⟨r, hr, rfl, i, k, p, hk, hl, hf, 1, fun s' hs' => (by cases hs'), fun _ => rfl, rfl⟩, hn1, sizeFor_range hc _ _ _⟩

/-- C153 (success probabilities): with a metalabeling model of the classes 0 and 1 the size is 0 unless 1 is the more probable, and then it is the
confidence in 1 (times the side if the bet sizer has `meta_labeling`). -/
theorem C153_success (c : Cfg ℝ) (m : Clf ℝ) (bc : Bet.Cfg) (X : Dict ℝ) (hm : c.metaModel = some m) (hb : c.betSizer = some (ownSizer bc true))
    (hc : Bet.construct bc = .ok bc) (ha : bc.averageActive = false) (hn : 2 ≤ bc.numClasses) (pred : Predictions ℝ) (proba : Probas ℝ)
    (hpred : predict c X = .ok pred) (hproba : predictProba c X = .ok proba) (rows : List (ℤ × List (XF ℝ))) (hrows : proba.metal = some rows)
    (hg : GoodRows m.classes rows) (hnd : (pred.primary.map (·.1)).Nodup)
    (hside : ∀ r ∈ rows, ∃ σ : ℝ, (r.1, XF.fin σ) ∈ pred.primary ∧ (σ = 1 ∨ σ = -1 ∨ σ = 0)) (hcl : m.classes = [0, 1])
    (t : ℤ) (q0 q1 σ : ℝ) (hr : (t, [XF.fin q0, .fin q1]) ∈ rows) (hσ : (t, XF.fin σ) ∈ pred.primary) :
    ∃ res z, getSideAndSize c X = .ok res ∧ (t, .fin σ, z) ∈ res ∧ (∀ s z', (t, s, z') ∈ res → s = .fin σ ∧ z' = z) ∧
      (q1 ≤ q0 → z = .fin 0) ∧ (q0 < q1 → z = sizeFor bc 1 q1 (if bc.metaLabeling then σ else 1)) := by
  obtain ⟨res, hres, hiff⟩ := C153_meta_size c m bc X hm hb hc ha hn pred proba hpred hproba rows hrows hg hnd hside
  have zero : ∀ p τ : ℝ, sizeFor bc 0 p τ = .fin 0 := by
    intro p τ
    rw [sizeFor_eq hc]
    unfold rowSize
    simp [Bet.disc_zero]
  have huniq : ∀ r ∈ rows, r.1 = t → r = (t, [XF.fin q0, .fin q1]) := by
    intro r hr' hrt
    exact List.inj_on_of_nodup_map hg.times hr' hr (by rw [hrt])
  have hone : ∀ s z, (t, s, z) ∈ res → s = .fin σ ∧ (q1 ≤ q0 → z = .fin 0) ∧ (q0 < q1 → z = sizeFor bc 1 q1 (if bc.metaLabeling then σ else 1)) := by
    intro s z h
    obtain ⟨r, hr', hrt, i, k, p, τ, hk, hl, hf, hτ, rfl, rfl⟩ := (hiff t s z).1 h
    obtain rfl := huniq r hr' hrt
    have hστ : τ = σ := by
      have e := serAt_of_mem pred.primary hnd t _ hτ
      rw [serAt_of_mem pred.primary hnd t _ hσ] at e
      injection e with e
      exact e.symm
    subst hστ
    rw [hcl] at hk
    refine ⟨rfl, ?_, ?_⟩
    · intro h01
      match i, hk, hf with
      | 0, hk, hf =>
        simp only [List.getElem?_cons_zero, Option.some.injEq] at hk
        rw [← hk]
        exact zero _ _
      | 1, hk, hf =>
        have h1 := hf.2 0 (by norm_num) (.fin q0) rfl
        have h2 : p = q1 := by
          have := hf.1
          simpa using this.symm
        rw [h2] at h1
        simp only [XF.lt_fin, decide_eq_true_eq] at h1
        exact absurd h1 (not_lt.2 h01)
      | n + 2, hk, hf => simp at hk
    · intro h01
      match i, hk, hf with
      | 0, hk, hf =>
        have h2 : p = q0 := by
          have := hf.1
          simpa using this.symm
        have h3 := (hl.1 ⟨_, List.mem_of_getElem? hf.1, rfl⟩).2.2 (.fin q1) (by simp) rfl
        rw [XF.le_fin, decide_eq_true_eq, h2] at h3
        exact absurd h01 (not_lt.2 h3)
      | 1, hk, hf =>
        have h2 : p = q1 := by
          have := hf.1
          simpa using this.symm
        have hk1 : k = 1 := by simpa using hk.symm
        rw [hk1, h2]
      | n + 2, hk, hf => simp at hk
  -- the row is there
  have hex : ∃ z, (t, .fin σ, z) ∈ res := by
    rcases le_or_gt q1 q0 with h01 | h01
    · refine ⟨_, (hiff t _ _).2 ⟨_, hr, rfl, 0, 0, q0, σ, by rw [hcl]; rfl, ⟨fun _ => ⟨by simp, rfl, ?_⟩, fun h => ?_⟩, ⟨rfl, fun j hj => by omega⟩, hσ, rfl, rfl⟩⟩
      · intro x hx _
        simp only [List.mem_cons, List.not_mem_nil, or_false] at hx
        rcases hx with rfl | rfl <;> simp [h01]
      · have := h (.fin q0) (by simp)
        cases this
    · refine ⟨_, (hiff t _ _).2 ⟨_, hr, rfl, 1, 1, q1, σ, by rw [hcl]; rfl, ⟨fun _ => ⟨by simp, rfl, ?_⟩, fun h => ?_⟩, ⟨rfl, ?_⟩, hσ, rfl, rfl⟩⟩
      · intro x hx _
        simp only [List.mem_cons, List.not_mem_nil, or_false] at hx
        rcases hx with rfl | rfl <;> simp [h01.le]
      · have := h (.fin q0) (by simp)
        cases this
      · intro j hj x hx
        obtain rfl : j = 0 := by omega
        simp only [List.getElem?_cons_zero, Option.some.injEq] at hx
        rw [← hx]
        simp [h01]
  obtain ⟨z, hz⟩ := hex
  obtain ⟨-, hz0, hz1⟩ := hone _ _ hz
  refine ⟨res, z, hres, hz, ?_, hz0, hz1⟩
  intro s z' h
  obtain ⟨hs, h0, h1⟩ := hone s z' h
  refine ⟨hs, ?_⟩
  rcases le_or_gt q1 q0 with h01 | h01
  · rw [h0 h01, hz0 h01]
  · rw [h1 h01, hz1 h01]

/-! ### Validity -/

/-- Predicted labels are missing or in [-1, 1]. -/
def SideLabels (m : Clf ℝ) : Prop := ∀ f v, m.predict f = .ok v → ∀ x ∈ v, x = .nan ∨ ∃ a : ℝ, x = .fin a ∧ -1 ≤ a ∧ a ≤ 1

/-- Predicted probabilities are missing or in [0, 1]. -/
def UnitProba (m : Clf ℝ) : Prop := ∀ f v, m.proba f = .ok v → ∀ r ∈ v, ∀ x ∈ r, x = .nan ∨ ∃ a : ℝ, x = .fin a ∧ 0 ≤ a ∧ a ≤ 1

/-- The size comes from the project's bet sizer or, without one, from probabilities. -/
def SizedWell (c : Cfg ℝ) : Prop :=
  match c.betSizer with
  | some bs => ∃ bc hs, bs = ownSizer bc hs
  | none => UnitProba (c.metaModel.getD c.primary)

/-- C153 (validity): with sides -1 to 1 and sizes from the project's bet sizer or from probabilities, whenever `create_signal` returns it has set
`strategy_valid` to true, whatever the data. -/
theorem C153_valid (c : Cfg ℝ) (tr : Trader ℝ) (htr : tr.signal = getSideAndSize c) (hl : SideLabels c.primary) (hsz : SizedWell c)
    (st st' : State ℝ) (s : Signal ℝ) (h : createSignal tr st = (.ok s, st')) : SignalInRange s ∧ st'.valid = some true := by
  unfold createSignal at h
  split at h
  · simp at h
  · rw [htr] at h
    cases hg : getSideAndSize c st.data with
    | error e => rw [hg] at h; simp at h
    | ok s0 =>
      rw [hg] at h
      simp only [Prod.mk.injEq, Except.ok.injEq] at h
      obtain ⟨rfl, rfl⟩ := h
      suffices hr : SignalInRange s0 from ⟨hr, by simp [(validSignal_iff s0).2 hr]⟩
      unfold getSideAndSize at hg
      simp only [Py.bind_eq_ok, Except.ok.injEq] at hg
      obtain ⟨pred, hpred, proba, hproba, size, hsize, rfl⟩ := hg
      have hside : ∀ q ∈ pred.primary, q.2 = .nan ∨ ∃ a : ℝ, q.2 = .fin a ∧ -1 ≤ a ∧ a ≤ 1 := by
        unfold predict at hpred
        split at hpred
        · simp at hpred
        · cases hlk : st.data.lookup c.alignOn with
          | none => simp [hlk] at hpred
          | some target =>
            simp only [hlk, Py.bind_eq_ok, Except.ok.injEq] at hpred
            obtain ⟨_, -, F, hF, Xp, hXp, v, hv, s, hs, sm, -, rfl⟩ := hpred
            intro q hq
            unfold mkSeries at hs
            split at hs
            · simp only [Except.ok.injEq] at hs
              subst hs
              exact hl _ _ hv _ (List.of_mem_zip hq).2
            · cases hs
      have hun : ∀ (m : Clf ℝ) (idx : List ℤ) (f : Frame ℝ) (v : List (List (XF ℝ))) (p : List (ℤ × List (XF ℝ))), UnitProba m → m.proba f = .ok v →
          mkRows idx m.classes.length v = .ok p → ∀ r ∈ p, ∀ x ∈ r.2, x = .nan ∨ ∃ a : ℝ, x = .fin a ∧ 0 ≤ a ∧ a ≤ 1 := by
        intro m idx f v p hu hv hp r hr
        unfold mkRows at hp
        split at hp
        · simp only [Except.ok.injEq] at hp
          subst hp
          exact hu _ _ hv _ (List.of_mem_zip hr).2
        · cases hp
      have hsizes : ∀ q ∈ size, q.2 = .nan ∨ ∃ a : ℝ, q.2 = .fin a ∧ 0 ≤ a ∧ a ≤ 1 := by
        unfold SizedWell at hsz
        unfold predictProba at hproba
        simp only [Py.bind_eq_ok, Except.ok.injEq] at hproba
        obtain ⟨F, hF, Xp, hXp, v, hv, p, hp, pm, hpm, rfl⟩ := hproba
        unfold signalSize at hsize
        cases hbs : c.betSizer with
        | some bs =>
          rw [hbs] at hsz
          obtain ⟨bc, hs, rfl⟩ := hsz
          have hown : ∃ b, ownSizer bc hs b = .ok size := by
            cases hmm : c.metaModel with
            | none =>
              simp only [hmm] at hsize
              unfold sizePrimary at hsize
              simp only [hbs, Py.bind_eq_ok] at hsize
              obtain ⟨b, -, hb⟩ := hsize
              exact ⟨b, hb⟩
            | some m =>
              simp only [hmm] at hsize
              unfold sizeMeta at hsize
              simp only [hbs, Py.bind_eq_ok] at hsize
              obtain ⟨_, -, b, -, hb⟩ := hsize
              exact ⟨b, hb⟩
          obtain ⟨b, hb⟩ := hown
          intro q hq
          exact Or.inr (C37_never_outside _ _ _ hb q hq)
        | none =>
          rw [hbs] at hsz
          cases hmm : c.metaModel with
          | none =>
            simp only [hmm] at hsize hsz
            unfold sizePrimary at hsize
            simp only [hbs, Except.ok.injEq] at hsize
            subst hsize
            intro q hq
            obtain ⟨r, hr, rfl⟩ := List.mem_map.1 hq
            have hx := hun _ _ _ _ _ hsz hv hp r hr
            have hlg := largest_rowMax r.2
            by_cases hall : ∀ x ∈ r.2, x.isNan = true
            · exact Or.inl (hlg.2 hall)
            · push Not at hall
              obtain ⟨x, hx1, hx2⟩ := hall
              exact hx _ (hlg.1 ⟨x, hx1, by simpa using hx2⟩).1
          | some m =>
            simp only [hmm] at hsize hsz
            unfold sizeMeta probaOfOne at hsize
            simp only [hbs] at hsize
            unfold probaMeta at hpm
            simp only [hmm] at hpm
            split at hpm
            · cases hpm
            · simp only [Py.bind_eq_ok, Except.ok.injEq] at hpm
              obtain ⟨Xm, -, w, hw, q, hq, rfl⟩ := hpm
              split at hsize
              · simp only [Except.ok.injEq, Option.getD_some] at hsize
                subst hsize
                intro z hz
                obtain ⟨r, hr, rfl⟩ := List.mem_map.1 hz
                have hx := hun _ _ _ _ _ hsz hw hq r hr
                dsimp only
                rw [List.getD_eq_getElem?_getD]
                cases hget : r.2[m.classes.idxOf 1]? with
                | none => exact Or.inl rfl
                | some x => exact hx x (List.mem_of_getElem? hget)
              · cases hsize
      intro r hr
      unfold sideSize at hr
      obtain ⟨hr1, hr2⟩ := List.mem_filter.1 hr
      obtain ⟨t, -, rfl⟩ := List.mem_map.1 hr1
      simp only [Bool.and_eq_true, Bool.not_eq_true'] at hr2
      have mem_of : ∀ (u : Ser ℝ), (serAt u t).isNan = false → (t, serAt u t) ∈ u := by
        intro u hu
        unfold serAt at hu ⊢
        cases hf : u.find? fun r => decide (r.1 = t) with
        | none => rw [hf] at hu; simp [XF.isNan] at hu
        | some r =>
          have h1 := List.mem_of_find?_eq_some hf
          have h2 := List.find?_some hf
          simp only [decide_eq_true_eq] at h2
          rw [← h2]
          exact h1
      rcases hside _ (mem_of _ hr2.1) with h0 | ⟨a, ha, a1, a2⟩
      · dsimp only at h0; rw [h0] at hr2; simp [XF.isNan] at hr2
      · rcases hsizes _ (mem_of _ hr2.2) with h0 | ⟨z, hz, z1, z2⟩
        · dsimp only at h0; rw [h0] at hr2; simp [XF.isNan] at hr2
        · exact ⟨a, z, ha, hz, a1, a2, z1, z2⟩

/-! ### What does not work -/

/-- C153 (refutation): a bet sizer with `average_active` never gives a size in a pipeline, as the pipeline hands over no event end times. -/
theorem C153_average_refuted (c : Cfg ℝ) (bc : Bet.Cfg) (hs : Bool) (hb : c.betSizer = some (ownSizer bc hs)) (ha : bc.averageActive = true) (X : Dict ℝ) :
    ∀ res, getSideAndSize c X ≠ .ok res := by
  have hown : ∀ b out, ownSizer bc hs b ≠ .ok out := by
    intro b out h
    unfold ownSizer Bet.transform Bet.transform0 at h
    dsimp only at h
    split at h
    · cases h
    · rename_i s0 h0
      split at h0
      · cases h0
      · split at h0
        · cases h0
        · unfold Bet.applyAverage at h0
          simp [ha] at h0
  intro res h
  unfold getSideAndSize at h
  simp only [Py.bind_eq_ok, Except.ok.injEq] at h
  obtain ⟨pred, -, proba, -, size, hsize, -⟩ := h
  unfold signalSize at hsize
  cases hmm : c.metaModel with
  | none =>
    simp only [hmm] at hsize
    unfold sizePrimary at hsize
    simp only [hb, Py.bind_eq_ok] at hsize
    obtain ⟨b, -, h⟩ := hsize
    exact hown b size h
  | some m =>
    simp only [hmm] at hsize
    unfold sizeMeta at hsize
    simp only [hb, Py.bind_eq_ok] at hsize
    obtain ⟨_, -, b, -, h⟩ := hsize
    exact hown b size h

/-- C153 (refutation): one row of the metalabeling model without a primary prediction makes the whole call fail with a `meta_labeling` bet sizer
(without a bet sizer such rows are left out, C48). -/
theorem C153_unscored_refuted (c : Cfg ℝ) (m : Clf ℝ) (bc : Bet.Cfg) (X : Dict ℝ) (hm : c.metaModel = some m) (hb : c.betSizer = some (ownSizer bc true))
    (hml : bc.metaLabeling = true) (hn : bc.numClasses ≠ 0) (pred : Predictions ℝ) (proba : Probas ℝ) (hpred : predict c X = .ok pred)
    (hproba : predictProba c X = .ok proba) (rows : List (ℤ × List (XF ℝ))) (hrows : proba.metal = some rows) (hcl : m.classes ≠ [])
    (hlen : ∀ r ∈ rows, r.2.length = m.classes.length) (r : ℤ × List (XF ℝ)) (hr : r ∈ rows) (hmiss : r.1 ∉ pred.primary.map (·.1)) :
    getSideAndSize c X = .error .assertionError := by
  obtain ⟨b, hbr, hbt⟩ := betRows_total m.classes hcl (some pred.primary) rows hlen
  obtain ⟨i, hi⟩ := List.mem_iff_getElem?.1 hr
  have hq := (mapE_eq_ok_iff _ _ _).1 hbr
  have hil := (List.getElem?_eq_some_iff.1 hi)
  have hbi : ∃ q ∈ b, q.side = some .nan := by
    obtain ⟨hl1, hl2⟩ := List.forall₂_iff_get.1 hq
    obtain ⟨h1, h2⟩ := hil
    have := hl2 i h1 (by omega)
    rw [List.get_eq_getElem, h2] at this
    unfold betRow at this
    simp only [Py.bind_eq_ok, Except.ok.injEq] at this
    obtain ⟨j, -, k, -, hk⟩ := this
    refine ⟨b.get ⟨i, by omega⟩, List.get_mem _ _, ?_⟩
    rw [← hk]
    simp [serAt_not_mem _ _ hmiss]
  have hown : ownSizer bc true b = .error .assertionError := by
    obtain ⟨q, hq, hqs⟩ := hbi
    unfold ownSizer Bet.transform Bet.transform0 Bet.applySide
    simp only [if_neg hn, hml, if_true]
    rw [if_neg]
    intro hall
    rw [List.all_eq_true] at hall
    have := hall (.nan) (List.mem_map.2 ⟨q, hq, by rw [hqs]; rfl⟩)
    simp [Bet.validSide, XF.beq] at this
  unfold getSideAndSize
  rw [hpred, Py.bind_ok, hproba, Py.bind_ok]
  unfold signalSize
  simp only [hm, hrows, Option.getD_some]
  unfold sizeMeta
  simp only [hb]
  rw [hpred, Py.bind_ok, hbr, Py.bind_ok, hown]
  rfl

/-! ### A pipeline -/

/-- Goes long, certain of it. -/
private noncomputable def longClf : Clf ℝ where
  fitted := true
  classes := [-1, 1]
  predict f := .ok (f.rows.map fun _ => .fin 1)
  proba f := .ok (f.rows.map fun _ => [.fin 0, .fin 1])

/-- Believes in the first bet only. -/
private noncomputable def doubtClf : Clf ℝ where
  fitted := true
  classes := [0, 1]
  predict f := .ok (f.rows.map fun _ => .fin 1)
  proba f := .ok (f.rows.map fun r => if r.1 = 10 then [.fin 0, .fin 1] else [.fin (1/2), .fin (1/2)])

private noncomputable def ownCfg : Bet.Cfg := ⟨2, false, true, false, none, "bet_size", "event_end_time"⟩

private noncomputable def betPipe : Cfg ℝ where
  alignOn := "bars"
  alignHow := []
  trPrimary := [("bars", none)]
  trMeta := [("bars", some fun f => .ok ⟨f.cols, f.rows.map fun r => (r.1, [.fin 0])⟩)]
  primary := longClf
  metaModel := some doubtClf
  useProba := false
  usePredictions := false
  betSizer := some (ownSizer ownCfg true)

/-- Two bars; at the second the feature of the primary model is `x`. -/
private noncomputable def betData (x : XF ℝ) : Dict ℝ := [("bars", ⟨["a"], [(10, [.fin 1]), (20, [x])]⟩)]

private theorem betPipe_predict : predict betPipe (betData (.fin 1)) = .ok ⟨[(10, .fin 1), (20, .fin 1)], some [(10, .fin 1), (20, .fin 1)]⟩ := rfl

private theorem betPipe_proba : predictProba betPipe (betData (.fin 1)) =
    .ok ⟨[(10, [.fin 0, .fin 1]), (20, [.fin 0, .fin 1])], some [(10, [.fin 0, .fin 1]), (20, [.fin (1/2), .fin (1/2)])]⟩ := rfl

private theorem betPipe_rows : GoodRows doubtClf.classes [(10, [XF.fin 0, .fin 1]), (20, [.fin (1/2), .fin (1/2)])] := by
  refine ⟨by simp [doubtClf], by simp [doubtClf], by simp [doubtClf], ?_, by simp⟩
  intro r hr x hx
  simp only [List.mem_cons, List.not_mem_nil, or_false] at hr
  rcases hr with rfl | rfl <;> simp only [List.mem_cons, List.not_mem_nil, or_false] at hx
  · rcases hx with rfl | rfl
    · exact ⟨0, rfl, by norm_num, by norm_num⟩
    · exact ⟨1, rfl, by norm_num, by norm_num⟩
  · rcases hx with rfl | rfl <;> exact ⟨1/2, rfl, by norm_num, by norm_num⟩

/-- A full bet at the first bar, none at the second. -/
example : ∃ res, getSideAndSize betPipe (betData (.fin 1)) = .ok res ∧ (10, .fin 1, .fin 1) ∈ res ∧ (20, .fin 1, .fin 0) ∈ res := by
  have hside : ∀ r ∈ [((10 : ℤ), [XF.fin (0 : ℝ), .fin 1]), (20, [.fin (1/2), .fin (1/2)])], ∃ σ : ℝ, (r.1, XF.fin σ) ∈ [((10 : ℤ), XF.fin (1 : ℝ)), (20, .fin 1)] ∧
      (σ = 1 ∨ σ = -1 ∨ σ = 0) := by
    intro r hr
    simp only [List.mem_cons, List.not_mem_nil, or_false] at hr
    rcases hr with rfl | rfl <;> exact ⟨1, by simp, Or.inl rfl⟩
  obtain ⟨res, z, h1, h2, -, -, h3⟩ := C153_success betPipe doubtClf ownCfg (betData (.fin 1)) rfl rfl rfl rfl (by decide) _ _ betPipe_predict betPipe_proba _ rfl
    betPipe_rows (by decide) hside rfl 10 0 1 1 (by simp) (by simp)
  obtain ⟨res', z', h1', h2', -, h3', -⟩ := C153_success betPipe doubtClf ownCfg (betData (.fin 1)) rfl rfl rfl rfl (by decide) _ _ betPipe_predict betPipe_proba _ rfl
    betPipe_rows (by decide) hside rfl 20 (1/2) (1/2) 1 (by simp) (by simp)
  rw [h1, Except.ok.injEq] at h1'
  subst h1'
  refine ⟨res, h1, ?_, ?_⟩
  · have hz : z = .fin 1 := by
      rw [h3 (by norm_num)]
      simp [sizeFor, ownCfg, confidence]
    rwa [hz] at h2
  · rwa [h3' (le_refl _)] at h2'

/-- The second bar has no feature for the primary model: the call fails. -/
example : getSideAndSize betPipe (betData .nan) = .error .assertionError :=
  C153_unscored_refuted betPipe doubtClf ownCfg (betData .nan) rfl rfl rfl (by decide)
    ⟨[(10, .fin 1)], some [(10, .fin 1), (20, .fin 1)]⟩ ⟨[(10, [.fin 0, .fin 1])], some [(10, [.fin 0, .fin 1]), (20, [.fin (1/2), .fin (1/2)])]⟩
    rfl rfl _ rfl (by simp [doubtClf]) (by simp [doubtClf]) (20, [.fin (1/2), .fin (1/2)]) (by simp) (by simp)

/-- Without the metalabeling model: full size at both bars. -/
example : ∃ res, getSideAndSize { betPipe with metaModel := none, trMeta := [], betSizer := some (ownSizer { ownCfg with metaLabeling := false } false) } (betData (.fin 1)) = .ok res ∧
    (20, .fin 1, .fin 1) ∈ res := by
  obtain ⟨res, h1, h2⟩ := C153_primary_size { betPipe with metaModel := none, trMeta := [], betSizer := some (ownSizer { ownCfg with metaLabeling := false } false) }
    { ownCfg with metaLabeling := false } (betData (.fin 1)) rfl rfl rfl rfl rfl (by decide) ⟨[(10, .fin 1), (20, .fin 1)], none⟩
    ⟨[(10, [.fin 0, .fin 1]), (20, [.fin 0, .fin 1])], none⟩ rfl rfl
    ⟨by simp [betPipe, longClf], by simp [betPipe, longClf], by simp [betPipe, longClf], by
      intro r hr x hx
      simp only [List.mem_cons, List.not_mem_nil, or_false] at hr
      rcases hr with rfl | rfl <;> simp only [List.mem_cons, List.not_mem_nil, or_false] at hx <;> rcases hx with rfl | rfl
      · exact ⟨0, rfl, by norm_num, by norm_num⟩
      · exact ⟨1, rfl, by norm_num, by norm_num⟩
      · exact ⟨0, rfl, by norm_num, by norm_num⟩
      · exact ⟨1, rfl, by norm_num, by norm_num⟩, by simp⟩ (by simp)
  refine ⟨res, h1, (h2 _ _ _).2 ⟨by simp, rfl, (20, [.fin 0, .fin 1]), by simp, rfl, 1, 1, 1, rfl, ⟨fun _ => ⟨by simp, rfl, ?_⟩, fun h => ?_⟩, ⟨rfl, ?_⟩, ?_⟩⟩
  · intro x hx _
    simp only [List.mem_cons, List.not_mem_nil, or_false] at hx
    rcases hx with rfl | rfl <;> simp
  · have := h (.fin 1) (by simp)
    cases this
  · intro j hj x hx
    obtain rfl : j = 0 := by omega
    simp only [List.getElem?_cons_zero, Option.some.injEq] at hx
    rw [← hx]
    simp
  · simp [sizeFor, ownCfg, confidence]

example : SideLabels betPipe.primary ∧ SizedWell betPipe ∧ SizedWell { betPipe with betSizer := none } := by
  refine ⟨?_, ⟨ownCfg, true, rfl⟩, ?_⟩
  · intro f v hv x hx
    have : v = f.rows.map fun _ => XF.fin (1 : ℝ) := (Except.ok.inj hv).symm
    subst this
    obtain ⟨r, -, rfl⟩ := List.mem_map.1 hx
    exact Or.inr ⟨1, rfl, by norm_num, by norm_num⟩
  · intro f v hv r hr x hx
    have : v = f.rows.map fun r => if r.1 = 10 then [XF.fin (0 : ℝ), .fin 1] else [.fin (1/2), .fin (1/2)] := (Except.ok.inj hv).symm
    subst this
    obtain ⟨q, -, rfl⟩ := List.mem_map.1 hr
    split at hx <;> simp only [List.mem_cons, List.not_mem_nil, or_false] at hx
    · rcases hx with rfl | rfl
      · exact Or.inr ⟨0, rfl, by norm_num, by norm_num⟩
      · exact Or.inr ⟨1, rfl, by norm_num, by norm_num⟩
    · rcases hx with rfl | rfl <;> exact Or.inr ⟨1/2, rfl, by norm_num, by norm_num⟩

end Mizar.Props
