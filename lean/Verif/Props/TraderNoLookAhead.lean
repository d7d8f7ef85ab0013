import Verif.Props.NoLookAheadModels
import Verif.Props.KnownAtEnd
import Verif.Props.Trader

/-!
Property theorems C119: `StrategyTrader.create_position` has no look-ahead, so that a position opened live is the position of the
backtest (`/repo/mizarlabs/model/pipeline.py`).
-/

set_option linter.unusedSectionVars false

namespace Mizar.Props
open Mizar.Spec Mizar.Pipe Mizar.Trade

section
variable {K : Type} [Field K] [LinearOrder K]

/-- The signal up to a time depends on the data up to this time only, and is in the order of time. -/
def CausalSignal (signal : Dict K → Py (Signal K)) : Prop :=
  (∀ X s, IncDict X → signal X = .ok s → (s.map (·.1)).Pairwise (· < ·)) ∧
  ∀ (t : ℤ) (X X' : Dict K) (s s' : Signal K), IncDict X → IncDict X' → AgreeAll t X X' → signal X = .ok s → signal X' = .ok s' →
    upTo t s = upTo t s'

theorem column_take (f : Frame K) (name : String) (k : ℕ) : column (f.take k) name = (column f name).map (List.take k) := by
  unfold column Frame.take
  dsimp only
  by_cases h : name ∈ f.cols
  · rw [if_pos h, if_pos h]; simp [Except.map, List.map_take]
  · rw [if_neg h, if_neg h]; rfl

theorem volatility_take {tr : Trader K} (hdv : CausalVol (Lab.dailyVolColumn tr.estd)) (f : Frame K) (hf : Increasing f) (k : ℕ) :
    volatility tr (f.take k) = (volatility tr f).map (List.take k) := by
  unfold volatility
  by_cases h : tr.volAdjusted = true
  · rw [if_pos h, if_pos h, column_take]
    cases hc : column f CLOSE with
    | error e => rfl
    | ok c =>
      have hl : c.length = f.index.length := by
        unfold column at hc
        split at hc
        · simp only [Except.ok.injEq] at hc
          subst hc; simp [Frame.index]
        · simp at hc
      show Except.ok _ = Except.ok _
      rw [Frame.index_take]
      exact congrArg Except.ok (hdv f.index c hf hl k)
  · rw [if_neg h, if_neg h]
    simp [Except.map, List.map_take, Frame.take]

theorem volatility_causal {tr : Trader K} (hdv : CausalVol (Lab.dailyVolColumn tr.estd)) : CausalModel (volatility tr) :=
  C115_causal_predictor _ fun f hf k => volatility_take hdv f hf k

theorem rows_take {t : ℤ} {g f : Frame K} (hf : Increasing f) (hi : g.index = f.index) :
    upTo t g.rows = g.rows.take (upTo t f.rows).length := by
  have e : g.rows.map (·.1) = f.rows.map (·.1) := hi
  rw [upTo_eq_take t g.rows (by rw [e]; exact hf), upTo_length, upTo_length t f.rows, e]

/-- Writing columns that agree up to `t` into frames that agree up to `t`. -/
theorem setColumn_agree {t : ℤ} {f f' : Frame K} (hf : Increasing f) (hf' : Increasing f') (h : Agree t f f') (name : String)
    {v v' : List (XF K)} (hv : v.length = f.rows.length) (hv' : v'.length = f'.rows.length)
    (e : v.take (upTo t f.rows).length = v'.take (upTo t f'.rows).length) : Agree t (setColumn f name v) (setColumn f' name v') := by
  have r1 : f.rows.take (upTo t f.rows).length = f'.rows.take (upTo t f'.rows).length := by
    rw [← upTo_eq_take t f.rows hf, ← upTo_eq_take t f'.rows hf', agree_upTo h]
  refine ⟨?_, ?_⟩
  · unfold setColumn
    rw [h.1]
    split <;> rfl
  · change upTo t _ = upTo t _
    rw [rows_take hf (setColumn_index f name v hv), rows_take hf' (setColumn_index f' name v' hv')]
    unfold setColumn
    rw [h.1]
    split
    · dsimp only
      rw [List.take_zipWith, List.take_zipWith, r1, e]
    · dsimp only
      rw [List.take_zipWith, List.take_zipWith, r1, e]

theorem setEntry_agree {t : ℤ} {X X' : Dict K} (h : AgreeAll t X X') (key : String) {g g' : Frame K} (hg : Agree t g g') :
    AgreeAll t (setEntry X key g) (setEntry X' key g') := by
  unfold setEntry AgreeAll at *
  rw [List.forall₂_map_left_iff, List.forall₂_map_right_iff]
  refine h.imp ?_
  intro p q hpq
  rw [hpq.1]
  split
  · exact ⟨rfl, hg⟩
  · exact hpq

theorem lengths_of_index {t : ℤ} {g f : Frame K} (h : g.index = f.index) :
    g.rows.length = f.rows.length ∧ (upTo t g.rows).length = (upTo t f.rows).length := by
  have e : g.rows.map (·.1) = f.rows.map (·.1) := h
  refine ⟨by simpa using congrArg List.length e, ?_⟩
  rw [upTo_length, upTo_length t f.rows, e]

theorem barsInc {b f : Frame K} {cols : List String} {vol : List (XF K)} {g : XF K → List (XF K)}
    (hb : b = ⟨cols, List.zipWith (fun t x => (t, g x)) f.index vol⟩) (hl : vol.length = f.index.length) (hf : Increasing f) : Increasing b := by
  have : b.index = f.index := by
    rw [hb]
    unfold Frame.index at hl ⊢
    dsimp only
    generalize f.rows.map (·.1) = i at hl
    clear hb
    induction i generalizing vol with
    | nil => rfl
    | cons t i ih =>
      cases vol with
      | nil => simp at hl
      | cons x vol => rw [List.zipWith_cons_cons, List.map_cons, ih (by simpa using hl)]
  unfold Increasing
  rw [this]; exact hf

/-- **C119** No look-ahead of a trader: for two sets of data that agree up to a time, the positions up to this time (which rows there
are, side, size, stop loss, profit taking, number of bars) and the columns written into the data up to this time are the same. -/
theorem C119_position (tr : Trader K) (hsig : CausalSignal tr.signal) (hdv : CausalVol (Lab.dailyVolColumn tr.estd)) (t : ℤ)
    (st st' w w' : State K) (hwf : ∀ q ∈ st.data, q.2.WF) (hwf' : ∀ q ∈ st'.data, q.2.WF) (hX : IncDict st.data) (hX' : IncDict st'.data)
    (ha : AgreeAll t st.data st'.data) (p p' : Frame K) (h : createPosition tr st = (.ok p, w))
    (h' : createPosition tr st' = (.ok p', w')) : Agree t p p' ∧ AgreeAll t w.data w'.data := by
  obtain ⟨s, b, hs, -, hb, hj⟩ := createPosition_ok h
  obtain ⟨s', b', hs', -, hb', hj'⟩ := createPosition_ok h'
  obtain ⟨-, f, vol, f3, hl, hv, -, -, hf3, hst, -, -, -, -, -, -, hbe⟩ :=
    createBars_ok (st := ⟨some (validSignal s), st.data⟩) hwf hb
  obtain ⟨-, f', vol', f3', hl', hv', -, -, hf3', hst', -, -, -, -, -, -, hbe'⟩ :=
    createBars_ok (st := ⟨some (validSignal s'), st'.data⟩) hwf' hb'
  simp only at hl hl'
  have hf : Increasing f := hX _ (lookup_mem hl)
  have hf' : Increasing f' := hX' _ (lookup_mem hl')
  have hff : Agree t f f' := by
    rcases lookup_agree ha tr.alignOn with ⟨e1, -⟩ | ⟨g, g', e1, e2, hg⟩
    · rw [e1] at hl; simp at hl
    · rw [hl] at e1; rw [hl'] at e2
      simp only [Option.some.injEq] at e1 e2
      subst e1 e2
      exact hg
  have lv := volatility_length hv
  have lv' := volatility_length hv'
  have li : f.index.length = f.rows.length := by simp [Frame.index]
  have li' : f'.index.length = f'.rows.length := by simp [Frame.index]
  have hvz := volatility_causal hdv t f f' vol vol' hf hf' hff (by omega) (by omega) hv hv'
  have hvt := causal_values (volatility_causal hdv) hf hf' hff (by omega) (by omega) hv hv'
  have hss := hsig.2 t _ _ s s' hX hX' ha hs hs'
  constructor
  · have hbb : Agree t b b' := by
      rw [hbe, hbe']
      refine ⟨rfl, ?_⟩
      have key : ∀ (i : List ℤ) (v : List (XF K)), upTo t (List.zipWith (fun t x => (t, [level tr.stopLoss x, level tr.profitTaking x, (XF.fin tr.numBars : XF K)])) i v) =
          (upTo t (i.zip v)).map fun r => (r.1, [level tr.stopLoss r.2, level tr.profitTaking r.2, .fin tr.numBars]) := by
        intro i v
        unfold upTo
        rw [List.zip_eq_zipWith, ← List.map_uncurry_zip_eq_zipWith, ← List.map_uncurry_zip_eq_zipWith, List.filter_map, List.filter_map, List.map_map]
        rfl
      change upTo t _ = upTo t _
      dsimp only
      rw [key, key, hvz]
    have hsf : Agree t (signalFrame s) (signalFrame s') := by
      refine ⟨rfl, ?_⟩
      unfold signalFrame
      dsimp only
      rw [List.filter_map, List.filter_map]
      exact congrArg _ hss
    have ib : Increasing b := barsInc hbe (by omega) hf
    have ib' : Increasing b' := barsInc hbe' (by omega) hf'
    have is1 : Increasing (signalFrame s) := by
      have := hsig.1 _ s hX hs
      unfold Increasing Frame.index signalFrame
      rw [List.map_map]
      exact this
    have is2 : Increasing (signalFrame s') := by
      have := hsig.1 _ s' hX' hs'
      unfold Increasing Frame.index signalFrame
      rw [List.map_map]
      exact this
    unfold joinPosition at hj hj'
    simp only [Py.bind_eq_ok] at hj hj'
    obtain ⟨q, hq, -, -, hj⟩ := hj
    obtain ⟨q', hq', -, -, hj'⟩ := hj'
    split at hj
    swap
    · simp at hj
    split at hj'
    swap
    · simp at hj'
    simp only [Except.ok.injEq] at hj hj'
    subst hj hj'
    exact (concat_agree (d := [("s", signalFrame s), ("b", b)]) (d' := [("s", signalFrame s'), ("b", b')]) (by simp [IncDict, is1, ib])
      (by simp [IncDict, is2, ib']) (List.Forall₂.cons ⟨rfl, hsf⟩ (List.Forall₂.cons ⟨rfl, hbb⟩ List.Forall₂.nil)) hq hq').1
  · rw [hst, hst']
    refine setEntry_agree ha _ ?_
    rw [hf3, hf3']
    have l1 : (vol.map (level tr.stopLoss)).length = f.rows.length := by rw [List.length_map, lv]
    have l1' : (vol'.map (level tr.stopLoss)).length = f'.rows.length := by rw [List.length_map, lv']
    have l2 : (vol.map (level tr.profitTaking)).length = f.rows.length := by rw [List.length_map, lv]
    have l2' : (vol'.map (level tr.profitTaking)).length = f'.rows.length := by rw [List.length_map, lv']
    have hm : (upTo t f.rows).length = (upTo t f'.rows).length := by rw [agree_upTo hff]
    have c1 := setColumn_agree hf hf' hff STOP_LOSS l1 l1' (by rw [← List.map_take, ← List.map_take, hvt])
    generalize e1 : setColumn f STOP_LOSS (vol.map (level tr.stopLoss)) = f1 at c1 ⊢
    generalize e1' : setColumn f' STOP_LOSS (vol'.map (level tr.stopLoss)) = f1' at c1 ⊢
    have i1 : f1.index = f.index := by rw [← e1]; exact setColumn_index _ _ _ l1
    have i1' : f1'.index = f'.index := by rw [← e1']; exact setColumn_index _ _ _ l1'
    have n1 := lengths_of_index (t := t) i1
    have n1' := lengths_of_index (t := t) i1'
    have c2 := setColumn_agree (by unfold Increasing; rw [i1]; exact hf) (by unfold Increasing; rw [i1']; exact hf') c1 PROFIT_TAKING
      (by rw [l2, n1.1]) (by rw [l2', n1'.1]) (by rw [← List.map_take, ← List.map_take, n1.2, n1'.2, hvt])
    generalize e2 : setColumn f1 PROFIT_TAKING (vol.map (level tr.profitTaking)) = f2 at c2 ⊢
    generalize e2' : setColumn f1' PROFIT_TAKING (vol'.map (level tr.profitTaking)) = f2' at c2 ⊢
    have i2 : f2.index = f.index := by rw [← e2, setColumn_index _ _ _ (by rw [l2, n1.1]), i1]
    have i2' : f2'.index = f'.index := by rw [← e2', setColumn_index _ _ _ (by rw [l2', n1'.1]), i1']
    have n2 := lengths_of_index (t := t) i2
    have n2' := lengths_of_index (t := t) i2'
    refine setColumn_agree (by unfold Increasing; rw [i2]; exact hf) (by unfold Increasing; rw [i2']; exact hf') c2 NUM_BARS
      (by rw [List.length_map, n2.1]) (by rw [List.length_map, n2'.1]) ?_
    rw [← List.map_take, ← List.map_take, n2.2, n2'.2, ← upTo_eq_take t f.rows hf, ← upTo_eq_take t f'.rows hf', agree_upTo hff]

/-- The signal of a pipeline with causal parts is causal. -/
theorem C119_pipeline_signal (c : Cfg K) (hc : CausalCfg c) : CausalSignal (getSideAndSize c) := by
  refine ⟨?_, fun t X X' s s' hX hX' ha hs hs' => C115_side_and_size c hc t X X' hX hX' ha s s' hs hs'⟩
  intro X s hX hs
  unfold getSideAndSize at hs
  simp only [Py.bind_eq_ok, Except.ok.injEq] at hs
  obtain ⟨a, ha, q, hq, z, hz, rfl⟩ := hs
  have hag : AgreeAll 0 X X := List.forall₂_same.2 fun p _ => ⟨rfl, rfl, rfl⟩
  obtain ⟨-, s2, -⟩ := size_agree hc hX hX hag hq hq hz hz
  have hj := pairwise_joinIndex [a.primary.map (·.1), z.map (·.1)] (by
    intro i hi
    simp only [List.mem_cons, List.not_mem_nil, or_false] at hi
    rcases hi with rfl | rfl
    · exact predict_inc hc hX ha
    · exact s2)
  unfold sideSize
  refine List.Pairwise.sublist (List.filter_sublist.map _) ?_
  rw [List.map_map]
  simpa [Function.comp_def] using hj

/-- The data known at time `t`. -/
def knownAt (t : ℤ) (X : Dict K) : Dict K := X.map fun p => (p.1, ⟨p.2.cols, upTo t p.2.rows⟩)

theorem knownAt_agree (t : ℤ) (X : Dict K) : AgreeAll t X (knownAt t X) := by
  unfold knownAt AgreeAll
  rw [List.forall₂_map_right_iff]
  refine List.forall₂_same.2 fun p _ => ⟨rfl, rfl, ?_⟩
  unfold upTo
  rw [List.filter_filter]
  simp

theorem knownAt_inc (t : ℤ) {X : Dict K} (h : IncDict X) : IncDict (knownAt t X) := by
  intro p hp
  obtain ⟨q, hq, rfl⟩ := List.mem_map.1 hp
  have := h q hq
  unfold Increasing Frame.index upTo at *
  exact this.sublist (List.filter_sublist.map _)

theorem knownAt_wf (t : ℤ) {X : Dict K} (h : ∀ p ∈ X, p.2.WF) : ∀ p ∈ knownAt t X, p.2.WF := by
  intro p hp
  obtain ⟨q, hq, rfl⟩ := List.mem_map.1 hp
  intro r hr
  exact h q hq r (List.mem_filter.1 hr).1

end

/-- **C119** Live trading gives the positions of the backtest: a trader of a pipeline with causal parts that is run at time `t` on the data
known then gives, for every time up to `t`, the row of the run on all data (with the volatility as computed by `get_daily_vol`). -/
theorem C119_live (c : Cfg ℝ) (hc : CausalCfg c) (span : ℕ) (align : String) (numBars : ℝ) (sl pt : Option ℝ) (adj : Bool) (t : ℤ) (X : Dict ℝ)
    (hwf : ∀ q ∈ X, q.2.WF) (hX : IncDict X) (v v' : Option Bool) (w w' : State ℝ) (p p' : Frame ℝ)
    (h : createPosition ⟨align, getSideAndSize c, ewmStd (ewmAlpha span), numBars, sl, pt, adj⟩ ⟨v, X⟩ = (.ok p, w))
    (h' : createPosition ⟨align, getSideAndSize c, ewmStd (ewmAlpha span), numBars, sl, pt, adj⟩ ⟨v', knownAt t X⟩ = (.ok p', w')) :
    ∀ u ≤ t, p'.row? u = p.row? u := by
  intro u hu
  have := (C119_position ⟨align, getSideAndSize c, ewmStd (ewmAlpha span), numBars, sl, pt, adj⟩ (C119_pipeline_signal c hc) (C116_daily_volatility span) t ⟨v, X⟩ ⟨v', knownAt t X⟩ w w'
    hwf (knownAt_wf t hwf) hX (knownAt_inc t hX) (knownAt_agree t X) p p' h h').1
  exact (agree_row this hu).symm

section Examples

/-- A signal from each bar alone. -/
def tnlSignal (X : Dict ℚ) : Py (Signal ℚ) :=
  match X.lookup "bars" with
  | some f => .ok (f.rows.map fun r => (r.1, (if XF.lt (r.2.getD 0 .nan) (.fin 5) then .fin 1 else .fin (-1)), .fin (1/2)))
  | none => .error .keyError

def tnlTrader : Trader ℚ := ⟨"bars", tnlSignal, fun l => l.map fun _ => .fin 1, 5, some 2, some 3, false⟩

def tnlLonger : State ℚ := ⟨none, [("bars", ⟨["close"], [(10, [.fin 1]), (20, [.fin 7]), (30, [.fin 9]), (40, [.fin 2])]⟩)]⟩

def tnlOther : State ℚ := ⟨none, [("bars", ⟨["close"], [(10, [.fin 1]), (20, [.fin 7]), (25, [.fin 3])]⟩)]⟩

theorem tnlSignal_causal : CausalSignal tnlSignal := by
  constructor
  · intro X s hX hs
    unfold tnlSignal at hs
    split at hs
    · rename_i f hl
      simp only [Except.ok.injEq] at hs
      subst hs
      rw [List.map_map]
      exact hX _ (lookup_mem hl)
    · simp at hs
  · intro t X X' s s' hX hX' ha hs hs'
    unfold tnlSignal at hs hs'
    rcases lookup_agree ha "bars" with ⟨e1, e2⟩ | ⟨f, f', e1, e2, hf⟩
    · rw [e1] at hs; simp at hs
    · rw [e1] at hs
      rw [e2] at hs'
      simp only [Except.ok.injEq] at hs hs'
      subst hs hs'
      unfold upTo
      rw [List.filter_map, List.filter_map]
      exact congrArg _ hf.2

theorem tnlVol_causal : CausalVol (Lab.dailyVolColumn tnlTrader.estd) := fun _ _ hs hl k =>
  Lab.dailyVolColumn_take (estd := tnlTrader.estd) ⟨fun xs => by simp [tnlTrader], fun xs k => by simp [tnlTrader, List.map_take]⟩ hs hl k

/-- C119 beside: the hypotheses hold for this trader and these data. -/
example (p p' : Frame ℚ) (w w' : State ℚ) (h : createPosition tnlTrader tnlLonger = (.ok p, w))
    (h' : createPosition tnlTrader tnlOther = (.ok p', w')) : Agree 24 p p' :=
  (C119_position tnlTrader tnlSignal_causal tnlVol_causal 24 tnlLonger tnlOther w w' (by unfold Frame.WF; decide +kernel) (by unfold Frame.WF; decide +kernel)
    (by unfold IncDict Increasing; decide +kernel) (by unfold IncDict Increasing; decide +kernel)
    (List.Forall₂.cons ⟨rfl, rfl, by decide +kernel⟩ List.Forall₂.nil) p p' h h').1

/-- With volatility-adjusted barriers: a day before the last two bars there is a bar. -/
example : (createPosition { tnlTrader with volAdjusted := true, estd := fun l => l } ⟨none, [("bars", ⟨["close"],
      [(0, [.fin 1]), (86400000000001, [.fin 3]), (86400000000002, [.fin 2])]⟩)]⟩).1 =
    .ok ⟨["side", "size", "stop_loss", "profit_taking", "num_expiration_bars"],
    [(0, [.fin 1, .fin (1/2), .nan, .nan, .fin 5]), (86400000000001, [.fin 1, .fin (1/2), .fin 4, .fin 6, .fin 5]),
      (86400000000002, [.fin 1, .fin (1/2), .fin 2, .fin 3, .fin 5])]⟩ := by decide +kernel

/-- C119 beside: the rows at 10 and 20 are the same, though the data after 20 differ. -/
example : (createPosition tnlTrader tnlLonger).1 = .ok ⟨["side", "size", "stop_loss", "profit_taking", "num_expiration_bars"],
    [(10, [.fin 1, .fin (1/2), .fin 2, .fin 3, .fin 5]), (20, [.fin (-1), .fin (1/2), .fin 2, .fin 3, .fin 5]),
      (30, [.fin (-1), .fin (1/2), .fin 2, .fin 3, .fin 5]), (40, [.fin 1, .fin (1/2), .fin 2, .fin 3, .fin 5])]⟩ := by decide +kernel

example : (createPosition tnlTrader tnlOther).1 = .ok ⟨["side", "size", "stop_loss", "profit_taking", "num_expiration_bars"],
    [(10, [.fin 1, .fin (1/2), .fin 2, .fin 3, .fin 5]), (20, [.fin (-1), .fin (1/2), .fin 2, .fin 3, .fin 5]),
      (25, [.fin 1, .fin (1/2), .fin 2, .fin 3, .fin 5])]⟩ := by decide +kernel

end Examples
end Mizar.Props
