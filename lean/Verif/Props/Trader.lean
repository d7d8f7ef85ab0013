import Mathlib.Algebra.Order.Ring.Rat
import Mathlib.Data.Rat.Cast.Order
import Verif.Lemmas.Trader
import Verif.Spec.Trader

/-!
Property theorems C51–C53: `StrategyTrader` (`/repo/mizarlabs/model/pipeline.py`).
-/

set_option linter.unusedSectionVars false

namespace Mizar.Props
open Mizar.Spec Mizar.Pipe Mizar.Trade

section
variable {K : Type} [Field K] [LinearOrder K] [IsStrictOrderedRing K]

theorem validSignal_iff (s : Signal K) : validSignal s = true ↔ SignalInRange s := by
  have h01 : (0 : K) ≤ 1 := zero_le_one
  unfold validSignal SignalInRange
  have hif : ∀ c : Bool, ((if c = true then false else true) = true) ↔ c = false := by decide
  simp only [hif, Bool.or_eq_false_iff, Bool.not_eq_false', List.all_eq_true]
  constructor
  · rintro ⟨⟨h1, h2⟩, h3, h4⟩ r hr
    have a1 := h1 r hr
    have a2 := h2 r hr
    have a3 := h3 r hr
    have a4 := h4 r hr
    obtain ⟨t, side, size⟩ := r
    cases side <;> cases size <;> simp_all [XF.le, XF.lt, XF.beq, ← le_iff_lt_or_eq]
  · intro h
    refine ⟨⟨?_, ?_⟩, ?_, ?_⟩ <;> intro r hr <;> obtain ⟨side, size, e1, e2, b1, b2, b3, b4⟩ := h r hr <;>
      simp [e1, e2, b1, b2, b3, b4]

/-- C51: after any history of calls, `strategy_valid` is as before the history if no call obtained a signal; else it
is `True` or `False` and `True` exactly when all sides and sizes of the last obtained signal are in range. -/
theorem C51_history (tr : Trader K) (calls : List (TCall K)) (valid : Option Bool) :
    match (calls.filterMap (obtained tr)).getLast? with
    | none => calls.foldl (stepValid tr) valid = valid
    | some s => (calls.foldl (stepValid tr) valid = some true ∧ SignalInRange s) ∨
        (calls.foldl (stepValid tr) valid = some false ∧ ¬ SignalInRange s) := by
  have hcheck : ∀ X : Dict K, checkDict X = true ↔ ∀ p ∈ X, p.2.index.Nodup := by
    intro X; simp [checkDict]
  have hval : ∀ s : Signal K, (validSignal s = true ∧ SignalInRange s) ∨ (validSignal s = false ∧ ¬ SignalInRange s) := by
    intro s
    by_cases h : SignalInRange s
    · exact Or.inl ⟨(validSignal_iff s).2 h, h⟩
    · exact Or.inr ⟨by rw [← Bool.not_eq_true]; exact fun hc => h ((validSignal_iff s).1 hc), h⟩
  have hsig : ∀ (v : Option Bool) (X : Dict K), (createSignal tr ⟨v, X⟩).2 =
      match obtained tr (.signal X) with
      | none => ⟨v, X⟩
      | some s => ⟨some (validSignal s), X⟩ := by
    intro v X
    unfold createSignal obtained
    by_cases hc : checkDict X = true
    · rw [if_neg (by simp [hc])]
      simp only [if_pos ((hcheck X).1 hc)]
      cases tr.signal X <;> rfl
    · rw [if_pos (by simpa using hc)]
      simp only [if_neg (fun h => hc ((hcheck X).2 h))]
  have hbars : ∀ st : State K, (createBars tr st).2.valid = st.valid := by
    intro st
    unfold createBars
    split
    · rfl
    · split
      · rfl
      · split
        · rfl
        · split
          · rfl
          · simp only
            split <;> rfl
  have hpos : ∀ (v : Option Bool) (X : Dict K), (createPosition tr ⟨v, X⟩).2.valid = (createSignal tr ⟨v, X⟩).2.valid := by
    intro v X
    unfold createPosition
    split
    · rename_i e st1 h; rw [h]
    · rename_i s st1 h
      have h2 := hbars st1
      split
      · rename_i e st2 h'; rw [h'] at h2; rw [h]; exact h2
      · rename_i b st2 h'; rw [h'] at h2; rw [h]; exact h2
  have hstep : ∀ (v : Option Bool) (c : TCall K), stepValid tr v c =
      match obtained tr c with
      | none => v
      | some s => some (validSignal s) := by
    intro v c
    cases c with
    | signal X =>
      show (createSignal tr ⟨v, X⟩).2.valid = _
      rw [hsig]
      cases obtained tr (.signal X) <;> rfl
    | bars X =>
      show (createBars tr ⟨v, X⟩).2.valid = _
      rw [hbars]; rfl
    | position X =>
      show (createPosition tr ⟨v, X⟩).2.valid = _
      rw [hpos, hsig]
      show _ = match obtained tr (.signal X) with | none => v | some s => some (validSignal s)
      cases obtained tr (.signal X) <;> rfl
  induction calls using List.reverseRecOn with
  | nil => rfl
  | append_singleton cs c ih =>
    rw [List.foldl_append, List.filterMap_append]
    simp only [List.foldl_cons, List.foldl_nil]
    rw [hstep]
    cases ho : obtained tr c with
    | none =>
      have e : [c].filterMap (obtained tr) = [] := by simp [ho]
      rw [e, List.append_nil]
      exact ih
    | some s =>
      have e : [c].filterMap (obtained tr) = [s] := by simp [ho]
      rw [e, List.getLast?_concat]
      rcases hval s with ⟨h1, h2⟩ | ⟨h1, h2⟩
      · exact Or.inl ⟨congrArg some h1, h2⟩
      · exact Or.inr ⟨congrArg some h1, h2⟩

end

section
variable {K : Type} [Field K] [LinearOrder K]

/-- C51 (one call): the signal frame that is returned is the pipeline's and `strategy_valid` is set. -/
theorem C51_create_signal (tr : Trader K) (st st' : State K) (s : Signal K) (h : createSignal tr st = (.ok s, st')) :
    tr.signal st.data = .ok s ∧ (∀ p ∈ st.data, p.2.index.Nodup) ∧ st'.data = st.data ∧ st'.valid ≠ none := by
  unfold createSignal at h
  split at h
  · simp at h
  · rename_i hc
    split at h
    · simp at h
    · rename_i s' hs
      simp only [Prod.mk.injEq, Except.ok.injEq] at h
      obtain ⟨rfl, rfl⟩ := h
      refine ⟨hs, ?_, rfl, by simp⟩
      simpa [checkDict] using hc

/-- C51 (duplicates): when an index value occurs twice in one of the frames, every call raises `ValueError` and
changes nothing, whatever the pipeline would do. -/
theorem C51_duplicates (tr : Trader K) (st : State K) (p : String × Frame K) (hp : p ∈ st.data) (hd : ¬ p.2.index.Nodup) :
    createSignal tr st = (.error .valueError, st) ∧ createBars tr st = (.error .valueError, st) ∧
    createPosition tr st = (.error .valueError, st) := by
  have hc : checkDict st.data = false := by
    unfold checkDict
    rw [List.all_eq_false]
    exact ⟨p, hp, by simpa using hd⟩
  have h1 : createSignal tr st = (.error .valueError, st) := by unfold createSignal; rw [if_pos hc]
  refine ⟨h1, by unfold createBars; rw [if_pos hc], ?_⟩
  unfold createPosition; rw [h1]

/-- The data after a successful `create_position`, and its parts. -/
theorem createPosition_ok {tr : Trader K} {st st' : State K} {p : Frame K} (h : createPosition tr st = (.ok p, st')) :
    ∃ s b, tr.signal st.data = .ok s ∧ createSignal tr st = (.ok s, ⟨some (validSignal s), st.data⟩) ∧
      createBars tr ⟨some (validSignal s), st.data⟩ = (.ok b, st') ∧ joinPosition s b = .ok p := by
  unfold createPosition at h
  split at h
  · simp at h
  · rename_i s st1 hs
    split at h
    · simp at h
    · rename_i b st2 hb
      simp only [Prod.mk.injEq] at h
      have hs2 := hs
      unfold createSignal at hs2
      split at hs2
      · simp at hs2
      · split at hs2
        · simp at hs2
        · rename_i s' hsig
          simp only [Prod.mk.injEq, Except.ok.injEq] at hs2
          obtain ⟨rfl, rfl⟩ := hs2
          refine ⟨s', b, hsig, hs, ?_, h.1⟩
          rw [← h.2]; exact hb

/-- C52 is refuted: after a successful `create_position` the frame under `align_on` that was handed over has the
columns `stop_loss`, `profit_taking` and `num_expiration_bars`; so it was changed if it did not have them. -/
theorem C52_inputs_unchanged_refuted (tr : Trader K) (st st' : State K) (p : Frame K) (hwf : ∀ q ∈ st.data, q.2.WF)
    (h : createPosition tr st = (.ok p, st')) :
    ∃ f f', st.data.lookup tr.alignOn = some f ∧ st'.data.lookup tr.alignOn = some f' ∧
      "stop_loss" ∈ f'.cols ∧ "profit_taking" ∈ f'.cols ∧ "num_expiration_bars" ∈ f'.cols ∧
      ("stop_loss" ∉ f.cols → f' ≠ f ∧ st'.data ≠ st.data) := by
  obtain ⟨s, b, -, -, hb, -⟩ := createPosition_ok h
  obtain ⟨-, f, vol, f3, hl, -, -, -, -, hst, cA, cB, cN, -⟩ := createBars_ok (st := ⟨some (validSignal s), st.data⟩) hwf hb
  have hmem : ∀ (m : String) (v : List (XF K)), column f3 m = .ok v → m ∈ f3.cols := by
    intro m v hm
    unfold column at hm
    split at hm
    · assumption
    · simp at hm
  have hl' : st'.data.lookup tr.alignOn = some f3 := by rw [hst]; exact lookup_setEntry _ _ _ _ hl
  refine ⟨f, f3, hl, hl', hmem _ _ cA, hmem _ _ cB, hmem _ _ cN, ?_⟩
  intro hne
  have : f3 ≠ f := fun hc => hne (hc ▸ hmem _ _ cA)
  refine ⟨this, fun hc => ?_⟩
  rw [hc, hl] at hl'
  exact this (Option.some.inj hl').symm

/-- C52 (partial: what stays): all other frames, and the index and all other columns of the `align_on` frame, are
unchanged. -/
theorem C52_rest_unchanged_partial (tr : Trader K) (st st' : State K) (p : Frame K) (hwf : ∀ q ∈ st.data, q.2.WF)
    (h : createPosition tr st = (.ok p, st')) :
    st'.data.map (·.1) = st.data.map (·.1) ∧
    (∀ q, q.1 ≠ tr.alignOn → (q ∈ st'.data ↔ q ∈ st.data)) ∧
    ∀ f f', st.data.lookup tr.alignOn = some f → st'.data.lookup tr.alignOn = some f' → f'.index = f.index ∧
      ∀ m, m ≠ "stop_loss" → m ≠ "profit_taking" → m ≠ "num_expiration_bars" → column f' m = column f m := by
  obtain ⟨s, b, -, -, hb, -⟩ := createPosition_ok h
  obtain ⟨-, f, vol, f3, hl, -, -, -, -, hst, -, -, -, -, hi, hO, -⟩ := createBars_ok (st := ⟨some (validSignal s), st.data⟩) hwf hb
  subst hst
  refine ⟨?_, ?_, ?_⟩
  · show (setEntry st.data tr.alignOn f3).map (·.1) = _
    unfold setEntry
    rw [List.map_map]
    apply List.map_congr_left
    intro q _
    simp only [Function.comp]
    split <;> rfl
  · intro q hq
    show q ∈ setEntry st.data tr.alignOn f3 ↔ _
    unfold setEntry
    rw [List.mem_map]
    constructor
    · rintro ⟨q', hq', he⟩
      split at he
      · rename_i hk; rw [← he] at hq; exact absurd hk hq
      · rw [← he]; exact hq'
    · intro hm
      exact ⟨q, hm, if_neg hq⟩
  · intro g g' hg hg'
    rw [show st.data.lookup tr.alignOn = some g from hg] at hl
    have hl := Option.some.inj hl
    subst hl
    have := lookup_setEntry _ _ f3 _ hg
    rw [show (setEntry st.data tr.alignOn f3).lookup tr.alignOn = some g' from hg'] at this
    have := Option.some.inj this
    subst this
    exact ⟨hi, hO⟩

/-- C52 (partial: pipelines that do not look at the added columns): a second `create_position` on the same
dictionary gives the same positions and changes nothing any more. -/
theorem C52_repeatable_partial (tr : Trader K) (st st' : State K) (p : Frame K) (hwf : ∀ q ∈ st.data, q.2.WF)
    (h : createPosition tr st = (.ok p, st'))
    (hsame : tr.signal st'.data = tr.signal st.data) : createPosition tr st' = (.ok p, st') := by
  obtain ⟨s, b, hs, -, hb, hj⟩ := createPosition_ok h
  obtain ⟨hc, f, vol, f3, hl, hv, ha, hp, hf3, hst, cA, cB, cN, hw, hi, hO, hbe⟩ := createBars_ok (st := ⟨some (validSignal s), st.data⟩) hwf hb
  simp only at hl hc hst
  have hl' : st'.data.lookup tr.alignOn = some f3 := by rw [hst]; exact lookup_setEntry _ _ _ _ hl
  have hc' : checkDict st'.data = true := by
    rw [hst]
    unfold checkDict setEntry at *
    rw [List.all_eq_true] at hc ⊢
    intro q hq
    obtain ⟨q', hq', rfl⟩ := List.mem_map.1 hq
    split
    · have := hc _ (lookup_mem hl)
      simpa [hi] using this
    · exact hc q' hq'
  have hrl : f3.rows.length = f.rows.length := by
    have := congrArg List.length hi
    simpa [Frame.index] using this
  have hv' : volatility tr f3 = .ok vol := by
    rw [← hv]
    unfold volatility
    split
    · rw [hO CLOSE (by decide) (by decide) (by decide), hi]
    · congr 1
      apply List.ext_getElem
      · simp [hrl]
      · intro i h1 h2; simp
  have hN : (f3.rows.map fun _ => (XF.fin tr.numBars : XF K)) = f.rows.map fun _ => .fin tr.numBars := by
    apply List.ext_getElem
    · simp [hrl]
    · intro i h1 h2; simp
  have hdata : setEntry st'.data tr.alignOn f3 = st'.data := by
    rw [hst]; exact setEntry_setEntry _ _ _ _
  have hb' : createBars tr st' = (.ok b, st') := by
    unfold createBars
    rw [if_neg (by simp [hc']), hl']
    have hne : noReturns tr f3 = noReturns tr f := by unfold noReturns; rw [hi]
    have hs1 : scaled (noReturns tr f3) vol tr.stopLoss = .ok (vol.map (level tr.stopLoss)) := by
      rw [scaled, if_neg]
      rw [hne, Bool.and_eq_true, not_and, Option.isNone_iff_eq_none]
      exact fun h0 => by simp [ha h0]
    have hs2 : scaled (noReturns tr f3) vol tr.profitTaking = .ok (vol.map (level tr.profitTaking)) := by
      rw [scaled, if_neg]
      rw [hne, Bool.and_eq_true, not_and, Option.isNone_iff_eq_none]
      exact fun h0 => by simp [hp h0]
    simp only [hv', hs1, hs2]
    rw [setColumn_same hw _ _ cA, setColumn_same hw _ _ cB, hN, setColumn_same hw _ _ cN, cA, cB, cN]
    simp only [Py.bind_ok, hdata]
    congr 2
    rw [hbe, hi]
    congr 1
    have lI : f.index.length = f.rows.length := by simp [Frame.index]
    have hvl := volatility_length hv
    apply List.ext_getElem
    · simp; omega
    · intro i h1 h2
      simp
  have hsg : createSignal tr st' = (.ok s, st') := by
    unfold createSignal
    rw [if_neg (by simp [hc']), hsame, hs]
    simp only
    rw [hst]
  unfold createPosition
  rw [hsg]
  simp only [hb', hj]

end

section
variable {K : Type} [Field K] [LinearOrder K]

theorem checkDict_true {X : Dict K} (h : checkDict X = true) : ∀ p ∈ X, p.2.index.Nodup := by
  simpa [checkDict] using h

theorem noReturns_iff (tr : Trader K) (f : Frame K) : noReturns tr f = true ↔ tr.volAdjusted = true ∧ ¬ SpansDay f.index := by
  unfold noReturns
  rw [Bool.and_eq_true, List.isEmpty_iff]
  refine and_congr_right fun _ => ?_
  unfold Lab.shiftedClose SpansDay
  dsimp only
  generalize f.index = l
  have hlen : ((l.map fun t => Lab.searchsortedLeft l (t - Lab.DAY)).filter fun k => decide (0 < k)).length ≤ l.length :=
    (List.length_filter_le _ _).trans (by simp)
  have hiff : (l.map fun t => Lab.searchsortedLeft l (t - Lab.DAY)).filter (fun k => decide (0 < k)) = [] ↔
      ¬ ∃ t ∈ l, ∃ u ∈ l, u < t - 86400000000000 := by
    rw [List.filter_eq_nil_iff]
    simp only [List.forall_mem_map, decide_eq_true_eq, Lab.searchsortedLeft, List.countP_pos_iff]
    push Not
    rfl
  rw [← hiff]
  generalize (l.map fun t => Lab.searchsortedLeft l (t - Lab.DAY)).filter (fun k => decide (0 < k)) = F at hlen
  rw [← List.length_eq_zero_iff, ← List.length_eq_zero_iff (l := F), List.length_zip, List.length_drop, List.length_map]
  omega

theorem levelOf_level {tr : Trader K} {f : Frame K} {k : Option K} (h : k = none → noReturns tr f = true) :
    LevelOf tr.volAdjusted f.index k (level k) := by
  refine ⟨?_, ?_⟩
  · rintro a rfl v
    rfl
  · rintro rfl
    exact ⟨fun v => rfl, (noReturns_iff tr f).1 (h rfl)⟩

/-- C53 (partial: both factors given, or no bar a day before another): the index of the positions is the union of the signal times and
the bars; a bar with a signal carries its side and size, volatility times the two factors and the number of expiration bars; a
bar without signal has no side and size; a signal outside the bars has no barriers.  The volatility of bar `i` is
the daily volatility, or 1 when the adjustment is switched off.  A factor that is not given leaves its column empty, which happens only
when the adjustment is on and no bar has a bar a day before. -/
theorem C53_position_rows_partial (tr : Trader K) (st st' : State K) (p : Frame K) (hwf : ∀ q ∈ st.data, q.2.WF)
    (hsig : ∀ s, tr.signal st.data = .ok s → (s.map (·.1)).Nodup) (h : createPosition tr st = (.ok p, st')) :
    ∃ s f vol A B, tr.signal st.data = .ok s ∧ st.data.lookup tr.alignOn = some f ∧
      LevelOf tr.volAdjusted f.index tr.stopLoss A ∧ LevelOf tr.volAdjusted f.index tr.profitTaking B ∧ vol.length = f.index.length ∧
      (tr.volAdjusted = true → ∃ close, column f "close" = .ok close ∧ vol = Lab.dailyVolColumn tr.estd f.index close) ∧
      (tr.volAdjusted = false → ∀ x ∈ vol, x = .fin 1) ∧
      p.cols = ["side", "size", "stop_loss", "profit_taking", "num_expiration_bars"] ∧
      p.index.Nodup ∧ (∀ t, t ∈ p.index ↔ t ∈ s.map (·.1) ∨ t ∈ f.index) ∧
      (∀ r ∈ s, ∀ i : ℕ, ∀ v, f.index[i]? = some r.1 → vol[i]? = some v →
        p.row? r.1 = some [r.2.1, r.2.2, A v, B v, .fin tr.numBars]) ∧
      (∀ (i : ℕ) t v, f.index[i]? = some t → vol[i]? = some v → t ∉ s.map (·.1) →
        p.row? t = some [.nan, .nan, A v, B v, .fin tr.numBars]) ∧
      (∀ r ∈ s, r.1 ∉ f.index → p.row? r.1 = some [r.2.1, r.2.2, .nan, .nan, .nan]) := by
  obtain ⟨s, b, hs, -, hb, hj⟩ := createPosition_ok h
  obtain ⟨hc, f, vol, f3, hl, hv, ha, hp, hf3, hst, cA, cB, cN, hw, hi, hO, hbe⟩ := createBars_ok (st := ⟨some (validSignal s), st.data⟩) hwf hb
  simp only at hl hc
  have hsn := hsig s hs
  have hfn : f.index.Nodup := checkDict_true hc _ (lookup_mem hl)
  have hvl : vol.length = f.index.length := by rw [volatility_length hv]; simp [Frame.index]
  unfold joinPosition at hj
  simp only [Py.bind_eq_ok] at hj
  obtain ⟨q, hq, _, -, hq2⟩ := hj
  split at hq2
  · rename_i hqn
    simp only [Except.ok.injEq] at hq2
    subst hq2
    have hsi : (signalFrame s).index = s.map (·.1) := by
      unfold signalFrame Frame.index; rw [List.map_map]; rfl
    have hbi : b.index = f.index := by
      rw [hbe]
      unfold Frame.index
      simp only
      apply List.ext_getElem
      · simp [hvl, Frame.index]
      · intro i h1 h2; simp
    have hmem : ∀ t, t ∈ q.index ↔ t ∈ s.map (·.1) ∨ t ∈ f.index := by
      intro t
      rw [concatOuter_index hq, mem_joinIndex _ _ (by simp)]
      simp [hsi, hbi]
    have hqr := (concatOuter_ok hq).2
    have hrow : ∀ t ∈ q.index, q.row? t = some (((signalFrame s).row? t).getD (nanRow 2) ++ (b.row? t).getD (nanRow 3)) := by
      intro t ht
      have hb3 : b.cols.length = 3 := by rw [hbe]; rfl
      apply row?_of_mem hqn
      have ht' : t ∈ joinIndex ([signalFrame s, b].map (·.index)) := by rw [← concatOuter_index hq]; exact ht
      rw [hqr]
      refine List.mem_map.2 ⟨t, ht', ?_⟩
      simp only [List.flatMap_cons, List.flatMap_nil, List.append_nil, hb3]
      rfl
    have hsrow : ∀ r ∈ s, (signalFrame s).row? r.1 = some [r.2.1, r.2.2] := by
      intro r hr
      apply row?_of_mem (by rw [hsi]; exact hsn)
      exact List.mem_map.2 ⟨r, hr, rfl⟩
    have hbrow : ∀ (i : ℕ) t v, f.index[i]? = some t → vol[i]? = some v →
        b.row? t = some [level tr.stopLoss v, level tr.profitTaking v, .fin tr.numBars] := by
      intro i t v h1 h2
      apply row?_of_mem (by rw [hbi]; exact hfn)
      rw [hbe]
      apply List.mem_of_getElem? (i := i)
      simp [List.getElem?_zipWith, h1, h2]
    refine ⟨s, f, vol, level tr.stopLoss, level tr.profitTaking, hs, hl, levelOf_level ha, levelOf_level hp, hvl, ?_, ?_, ?_, hqn, hmem, ?_, ?_, ?_⟩
    · intro hva
      unfold volatility at hv
      rw [if_pos hva, Py.bind_eq_ok] at hv
      obtain ⟨close, hcl, hve⟩ := hv
      simp only [Except.ok.injEq] at hve
      exact ⟨close, hcl, hve.symm⟩
    · intro hva x hx
      unfold volatility at hv
      rw [if_neg (by simp [hva])] at hv
      simp only [Except.ok.injEq] at hv
      rw [← hv] at hx
      obtain ⟨_, -, rfl⟩ := List.mem_map.1 hx
      rfl
    · rw [hqr, hbe]; rfl
    · intro r hr i v h1 h2
      rw [hrow r.1 ((hmem r.1).2 (Or.inl (List.mem_map.2 ⟨r, hr, rfl⟩))), hsrow r hr, hbrow i r.1 v h1 h2]
      rfl
    · intro i t v h1 h2 hn
      rw [hrow t ((hmem t).2 (Or.inr (List.mem_of_getElem? h1))), hbrow i t v h1 h2, row?_not_mem (by rw [hsi]; exact hn)]
      rfl
    · intro r hr hn
      rw [hrow r.1 ((hmem r.1).2 (Or.inl (List.mem_map.2 ⟨r, hr, rfl⟩))), hsrow r hr, row?_not_mem (by rw [hbi]; exact hn)]
      rfl
  · simp at hq2

/-- C53 is refuted for the default factors: with a factor that is not given no position can be created, `TypeError`, without volatility
adjustment and as soon as one bar lies more than a day before another. -/
theorem C53_default_factors_refuted (tr : Trader K) (st : State K) (s : Signal K) (f : Frame K)
    (hva : tr.volAdjusted = false ∨ SpansDay f.index ∧ "close" ∈ f.cols)
    (hd : tr.stopLoss = none ∨ tr.profitTaking = none) (hu : ∀ q ∈ st.data, q.2.index.Nodup)
    (hl : st.data.lookup tr.alignOn = some f) (hs : tr.signal st.data = .ok s) :
    (createPosition tr st).1 = .error .typeError := by
  have hc : checkDict st.data = true := by simpa [checkDict] using hu
  have hn : noReturns tr f = false := by
    rw [← Bool.not_eq_true, noReturns_iff]
    rintro ⟨h1, h2⟩
    rcases hva with h | ⟨h, -⟩
    · rw [h1] at h; cases h
    · exact h2 h
  have hvol : ∃ vol, volatility tr f = .ok vol := by
    unfold volatility
    cases h : tr.volAdjusted with
    | false => exact ⟨_, rfl⟩
    | true =>
      rcases hva with h' | ⟨-, h'⟩
      · rw [h] at h'; cases h'
      · unfold column
        rw [if_pos rfl, if_pos (show CLOSE ∈ f.cols from h')]
        exact ⟨_, rfl⟩
  obtain ⟨vol, hvol⟩ := hvol
  unfold createPosition createSignal createBars
  simp only [hc, Bool.true_eq_false, if_false, hs, hl, hvol, hn]
  cases hsl : tr.stopLoss with
  | none => simp [scaled]
  | some a =>
    cases hpt : tr.profitTaking with
    | none => simp [scaled]
    | some b => simp [hsl, hpt] at hd

/-- C52 (a call that raises): with a stop-loss factor but no profit-taking factor the call raises `TypeError` after it has written the
column of stop losses into the frame that was handed over. -/
theorem C52_failed_call_refuted (tr : Trader K) (st : State K) (s : Signal K) (f : Frame K) (a : K) (hwf : f.WF)
    (hva : tr.volAdjusted = false ∨ SpansDay f.index ∧ "close" ∈ f.cols)
    (ha : tr.stopLoss = some a) (hp : tr.profitTaking = none) (hu : ∀ q ∈ st.data, q.2.index.Nodup)
    (hl : st.data.lookup tr.alignOn = some f) (hs : tr.signal st.data = .ok s) :
    ∃ st' f' v, createPosition tr st = (.error .typeError, st') ∧ st'.data.lookup tr.alignOn = some f' ∧ f'.index = f.index ∧
      column f' "stop_loss" = .ok v ∧ v.length = f.index.length ∧ (tr.volAdjusted = false → ∀ x ∈ v, x = .fin a) ∧
      (∀ m, m ≠ "stop_loss" → column f' m = column f m) ∧ ("stop_loss" ∉ f.cols → st'.data ≠ st.data) := by
  have hc : checkDict st.data = true := by simpa [checkDict] using hu
  have hn : noReturns tr f = false := by
    rw [← Bool.not_eq_true, noReturns_iff]
    rintro ⟨h1, h2⟩
    rcases hva with h | ⟨h, -⟩
    · rw [h1] at h; cases h
    · exact h2 h
  have hvol : ∃ vol, volatility tr f = .ok vol ∧ (tr.volAdjusted = false → ∀ x ∈ vol, x = .fin 1) := by
    unfold volatility
    cases h : tr.volAdjusted with
    | false => exact ⟨_, rfl, by simp⟩
    | true =>
      rcases hva with h' | ⟨-, h'⟩
      · rw [h] at h'; cases h'
      · unfold column
        rw [if_pos rfl, if_pos (show CLOSE ∈ f.cols from h')]
        exact ⟨_, rfl, by simp⟩
  obtain ⟨vol, hvol, hone⟩ := hvol
  have hlen : (vol.map (level (some a))).length = f.rows.length := by rw [List.length_map]; exact volatility_length hvol
  refine ⟨⟨some (validSignal s), setEntry st.data tr.alignOn (setColumn f STOP_LOSS (vol.map (level (some a))))⟩, _, _, ?_, lookup_setEntry _ _ _ _ hl,
    setColumn_index f _ _ hlen, column_setColumn_same hwf _ _ hlen, ?_, ?_, ?_, ?_⟩
  · unfold createPosition createSignal createBars
    simp only [hc, Bool.true_eq_false, if_false, hs, hl, hvol, hn, ha, hp]
    simp [scaled]
  · rw [hlen]; simp [Frame.index]
  · intro h x hx
    obtain ⟨z, hz, rfl⟩ := List.mem_map.1 hx
    rw [hone h z hz]
    simp [level, XF.mul_fin]
  · exact fun m hm => column_setColumn_other hwf _ m hm _ hlen
  · intro hne hd
    have h1 := lookup_setEntry st.data tr.alignOn (setColumn f STOP_LOSS (vol.map (level (some a)))) _ hl
    rw [show setEntry st.data tr.alignOn _ = st.data from hd, hl] at h1
    have h2 : STOP_LOSS ∈ (setColumn f STOP_LOSS (vol.map (level (some a)))).cols := by rw [mem_setColumn_cols]; simp
    rw [← Option.some.inj h1] at h2
    exact hne h2

/-- C53: a position can be created whenever the frames have unique indexes, the frame to align on is there (with its closes if the
volatility is used), both factors are given — or the volatility is used and no bar lies more than a day before another — and the signal
comes with distinct times. -/
theorem C53_created (tr : Trader K) (st : State K) (s : Signal K) (f : Frame K) (hwf : ∀ q ∈ st.data, q.2.WF)
    (hu : ∀ q ∈ st.data, q.2.index.Nodup) (hl : st.data.lookup tr.alignOn = some f) (hs : tr.signal st.data = .ok s)
    (hsn : (s.map (·.1)).Nodup)
    (hfac : tr.stopLoss = none ∨ tr.profitTaking = none → tr.volAdjusted = true ∧ ¬ SpansDay f.index)
    (hv : tr.volAdjusted = true → "close" ∈ f.cols) : ∃ p st', createPosition tr st = (.ok p, st') := by
  have hc : checkDict st.data = true := by simpa [checkDict] using hu
  have hvol : ∃ vol, volatility tr f = .ok vol := by
    unfold volatility
    cases h : tr.volAdjusted with
    | false => exact ⟨_, rfl⟩
    | true =>
      unfold column
      rw [if_pos rfl, if_pos (show CLOSE ∈ f.cols from hv h)]
      exact ⟨_, rfl⟩
  obtain ⟨vol, hvol⟩ := hvol
  have hbars : ∃ q st', createBars tr ⟨some (validSignal s), st.data⟩ = (.ok q, st') := by
    unfold createBars
    rw [if_neg (by simp [hc])]
    have hs1 : scaled (noReturns tr f) vol tr.stopLoss = .ok (vol.map (level tr.stopLoss)) := by
      rw [scaled, if_neg]
      rw [Bool.and_eq_true, not_and, Option.isNone_iff_eq_none]
      exact fun h0 => by simp [(noReturns_iff tr f).2 (hfac (Or.inl h0))]
    have hs2 : scaled (noReturns tr f) vol tr.profitTaking = .ok (vol.map (level tr.profitTaking)) := by
      rw [scaled, if_neg]
      rw [Bool.and_eq_true, not_and, Option.isNone_iff_eq_none]
      exact fun h0 => by simp [(noReturns_iff tr f).2 (hfac (Or.inr h0))]
    simp only [hl, hvol, hs1, hs2]
    have hcol : ∀ (g : Frame K) (n : String), n ∈ g.cols → ∃ v, column g n = .ok v := by
      intro g n hn
      unfold column
      rw [if_pos hn]
      exact ⟨_, rfl⟩
    generalize hf3 : setColumn (setColumn (setColumn f STOP_LOSS (vol.map (level tr.stopLoss))) PROFIT_TAKING
        (vol.map (level tr.profitTaking))) NUM_BARS (f.rows.map fun _ => .fin tr.numBars) = f3
    obtain ⟨x, hx⟩ := hcol f3 STOP_LOSS (by rw [← hf3]; simp [mem_setColumn_cols])
    obtain ⟨y, hy⟩ := hcol f3 PROFIT_TAKING (by rw [← hf3]; simp [mem_setColumn_cols])
    obtain ⟨z, hz⟩ := hcol f3 NUM_BARS (by rw [← hf3]; simp [mem_setColumn_cols])
    rw [hx, hy, hz]
    exact ⟨_, _, rfl⟩
  obtain ⟨q, st', hq⟩ := hbars
  obtain ⟨-, f', vol', f3, hl', hv', -, -, -, -, -, -, -, -, -, -, hqe⟩ :=
    createBars_ok (st := ⟨some (validSignal s), st.data⟩) hwf hq
  simp only at hl'
  rw [hl] at hl'
  cases hl'
  have hqn : q.index.Nodup := by
    have hvl := volatility_length hv'
    rw [hqe]
    unfold Frame.index
    simp only
    have : (List.zipWith (fun t x => (t, [level tr.stopLoss x, level tr.profitTaking x, .fin tr.numBars])) (f.rows.map (·.1)) vol').map (·.1) =
        f.rows.map (·.1) := by
      apply List.ext_getElem
      · simp [hvl]
      · intro i h1 h2
        simp
    rw [this]
    exact hu _ (lookup_mem hl)
  have hj : ∃ p, joinPosition s q = .ok p := by
    unfold joinPosition concatOuter
    rw [if_neg (by simp)]
    simp only [Py.bind_ok, checkColumns]
    rw [if_pos]
    · rw [Py.bind_ok, if_pos]
      · exact ⟨_, rfl⟩
      · unfold Frame.index
        simp only [List.map_map]
        rw [show ((fun x => x.1) ∘ fun t => (t, [signalFrame s, q].flatMap fun f => (f.row? t).getD (nanRow f.cols.length))) =
          (id : ℤ → ℤ) from rfl, List.map_id]
        unfold joinIndex
        split_ifs
        · show ((signalFrame s).rows.map (·.1)).Nodup
          rw [signalFrame, List.map_map]
          exact hsn
        · exact nodup_npUnique _
    · rw [hqe]
      simp [signalFrame]
  obtain ⟨p, hp⟩ := hj
  refine ⟨p, st', ?_⟩
  unfold createPosition createSignal
  rw [if_neg (by simp [hc])]
  simp only [hs, hq, hp]

end

section Examples

private def trader : Trader ℚ where
  alignOn := "bars"
  signal X := match X.lookup "bars" with
    | some f => if f.cols.length = 1 then .ok [(20, .fin (-1), .fin (1/2))] else .error .valueError
    | none => .error .keyError
  estd l := l
  numBars := 5
  stopLoss := some 2
  profitTaking := some 3
  volAdjusted := false

private def trader2 : Trader ℚ := { trader with signal := fun _ => .ok [(20, .fin (-1), .fin (1/2))] }

private def st0 : State ℚ := ⟨none, [("bars", ⟨["close"], [(10, [.fin 1]), (20, [.fin 4])]⟩)]⟩

/-- C51–C53 beside: one call; the barriers of a bar with and without a signal; the written columns. -/
example : createPosition trader2 st0 =
    (.ok ⟨["side", "size", "stop_loss", "profit_taking", "num_expiration_bars"],
      [(10, [.nan, .nan, .fin 2, .fin 3, .fin 5]), (20, [.fin (-1), .fin (1/2), .fin 2, .fin 3, .fin 5])]⟩,
     ⟨some true, [("bars", ⟨["close", "stop_loss", "profit_taking", "num_expiration_bars"],
       [(10, [.fin 1, .fin 2, .fin 3, .fin 5]), (20, [.fin 4, .fin 2, .fin 3, .fin 5])]⟩)]⟩) := by
  decide +kernel

example : ∃ p st', createPosition trader2 st0 = (.ok p, st') :=
  C53_created trader2 st0 [(20, .fin (-1), .fin (1/2))] ⟨["close"], [(10, [.fin 1]), (20, [.fin 4])]⟩
    (by simp [st0, Frame.WF]; rintro _ _ (⟨-, rfl⟩ | ⟨-, rfl⟩) <;> rfl) (by simp [st0, Frame.index]) rfl rfl (by simp) (by simp [trader2, trader]) (by simp [trader2, trader])

example : createPosition trader2 (createPosition trader2 st0).2 = createPosition trader2 st0 := by decide +kernel

/-- C52 is refuted for pipelines that look at all columns (here: one feature expected, as fitted estimators check):
the first call succeeds, the second on the same dictionary raises. -/
theorem C52_repeatable_refuted : (createPosition trader st0).1 ≠ .error .valueError ∧
    (createPosition trader (createPosition trader st0).2).1 = .error .valueError := by
  decide +kernel

example : (createPosition { trader with stopLoss := none } st0).1 = .error .typeError := by decide +kernel

/-- C53 is refuted for the default factors on a short history: with the volatility adjustment and all bars within a day no error is raised
and the position has a side and a size but neither stop loss nor profit taking. -/
theorem C53_no_barriers_refuted : (createPosition { trader2 with stopLoss := none, profitTaking := none, volAdjusted := true } st0).1 =
    .ok ⟨["side", "size", "stop_loss", "profit_taking", "num_expiration_bars"],
      [(10, [.nan, .nan, .nan, .nan, .fin 5]), (20, [.fin (-1), .fin (1/2), .nan, .nan, .fin 5])]⟩ := by
  decide +kernel

/-- The state after a call that raises (`C52_failed_call_refuted`). -/
example : createPosition { trader2 with profitTaking := none } st0 =
    (.error .typeError, ⟨some true, [("bars", ⟨["close", "stop_loss"], [(10, [.fin 1, .fin 2]), (20, [.fin 4, .fin 2])]⟩)]⟩) := by decide +kernel

/-- The hypotheses of `C53_default_factors_refuted` with the volatility adjustment: two bars two days apart. -/
example : (createPosition { trader2 with stopLoss := none, volAdjusted := true } ⟨none, [("bars", ⟨["close"], [(10, [.fin 1]), (172800000000010, [.fin 4])]⟩)]⟩).1 =
    .error .typeError :=
  C53_default_factors_refuted _ _ [(20, .fin (-1), .fin (1/2))] ⟨["close"], [(10, [.fin 1]), (172800000000010, [.fin 4])]⟩
    (Or.inr ⟨⟨172800000000010, by simp [Frame.index], 10, by simp [Frame.index], by norm_num⟩, by simp⟩) (Or.inl rfl) (by simp [Frame.index]) rfl rfl

end Examples

end Mizar.Props
