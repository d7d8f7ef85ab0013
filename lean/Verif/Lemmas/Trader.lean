import Verif.Lemmas.Pipeline
import Verif.Model.Trader

/-! Lemmas about the strategy trader. -/

set_option linter.unusedSectionVars false

namespace Mizar.Trade
open Mizar.Spec Mizar.Pipe
variable {K : Type} [Field K] [LinearOrder K]

theorem row?_of_mem {f : Frame K} (hn : f.index.Nodup) {t : ℤ} {r : List (XF K)} (h : (t, r) ∈ f.rows) : f.row? t = some r := by
  unfold Frame.row?
  unfold Frame.index at hn
  revert hn h
  generalize f.rows = rows
  intro hn h
  induction rows with
  | nil => simp at h
  | cons q rows ih =>
    simp only [List.map_cons, List.nodup_cons] at hn
    by_cases hq : q.1 = t
    · rw [List.find?_cons_of_pos (by simpa using hq)]
      rcases List.mem_cons.1 h with rfl | h
      · rfl
      · exact absurd (List.mem_map.2 ⟨_, h, rfl⟩) (by rw [← hq] at *; exact hn.1)
    · rw [List.find?_cons_of_neg (by simpa using hq)]
      rcases List.mem_cons.1 h with rfl | h
      · exact absurd rfl hq
      · exact ih hn.2 h

theorem row?_not_mem {f : Frame K} {t : ℤ} (h : t ∉ f.index) : f.row? t = none := by
  unfold Frame.row?
  rw [List.find?_eq_none.2]
  · rfl
  · intro r hr hc
    exact h (List.mem_map.2 ⟨r, hr, by simpa using hc⟩)

theorem setColumn_index (f : Frame K) (name : String) (v : List (XF K)) (hv : v.length = f.rows.length) :
    (setColumn f name v).index = f.index := by
  have h1 : ∀ (l : List (ℤ × List (XF K))) (v : List (XF K)) (g : List (XF K) → XF K → List (XF K)), v.length = l.length →
      (List.zipWith (fun r x => (r.1, g r.2 x)) l v).map (·.1) = l.map (·.1) := by
    intro l
    induction l with
    | nil => intro v g _; rfl
    | cons r l ih =>
      intro v g hv
      cases v with
      | nil => simp at hv
      | cons x v =>
        rw [List.zipWith_cons_cons, List.map_cons, List.map_cons, ih v g (by simpa using hv)]
  unfold setColumn Frame.index
  split
  · exact h1 f.rows v (fun r x => r.set (f.cols.idxOf name) x) hv
  · exact h1 f.rows v (fun r x => r ++ [x]) hv

theorem setColumn_rows_length (f : Frame K) (name : String) (v : List (XF K)) (hv : v.length = f.rows.length) :
    (setColumn f name v).rows.length = f.rows.length := by
  have := congrArg List.length (setColumn_index f name v hv)
  simpa [Frame.index] using this

theorem setColumn_wf {f : Frame K} (hf : f.WF) (name : String) (v : List (XF K)) : (setColumn f name v).WF := by
  unfold setColumn
  split
  · intro r hr
    obtain ⟨i, hi, rfl⟩ := List.mem_iff_getElem.1 hr
    simp only [List.length_zipWith] at hi
    have := hf f.rows[i] (List.getElem_mem (by omega))
    simp [this]
  · intro r hr
    obtain ⟨i, hi, rfl⟩ := List.mem_iff_getElem.1 hr
    simp only [List.length_zipWith] at hi
    have := hf f.rows[i] (List.getElem_mem (by omega))
    simp [this]

theorem mem_setColumn_cols (f : Frame K) (name m : String) (v : List (XF K)) :
    m ∈ (setColumn f name v).cols ↔ m ∈ f.cols ∨ m = name := by
  unfold setColumn
  split
  · rename_i h
    constructor
    · exact Or.inl
    · rintro (h1 | rfl)
      · exact h1
      · exact h
  · simp

theorem column_setColumn_same {f : Frame K} (hf : f.WF) (name : String) (v : List (XF K)) (hv : v.length = f.rows.length) :
    column (setColumn f name v) name = .ok v := by
  unfold column
  rw [if_pos ((mem_setColumn_cols f name name v).2 (Or.inr rfl))]
  congr 1
  have hlen := setColumn_rows_length f name v hv
  apply List.ext_getElem
  · simp [hlen, hv]
  · intro i h1 h2
    have hi : i < f.rows.length := by rw [← hv]; exact h2
    have hw := hf f.rows[i] (List.getElem_mem hi)
    unfold setColumn
    split
    · rename_i hm
      have hj : f.cols.idxOf name < f.rows[i].2.length := by rw [hw]; exact List.idxOf_lt_length_iff.2 hm
      simp [List.getD_eq_getElem?_getD, hj]
    · rename_i hm
      have : (f.cols ++ [name]).idxOf name = f.cols.length := by
        rw [List.idxOf_append_of_notMem hm]; simp
      simp [this, List.getD_eq_getElem?_getD, ← hw]

theorem column_setColumn_other {f : Frame K} (hf : f.WF) (name m : String) (hne : m ≠ name) (v : List (XF K))
    (hv : v.length = f.rows.length) : column (setColumn f name v) m = column f m := by
  unfold column
  by_cases hm : m ∈ f.cols
  · rw [if_pos ((mem_setColumn_cols f name m v).2 (Or.inl hm)), if_pos hm]
    congr 1
    have hlen := setColumn_rows_length f name v hv
    apply List.ext_getElem
    · simp [hlen]
    · intro i h1 h2
      have hi : i < f.rows.length := by simpa using h2
      have hw := hf f.rows[i] (List.getElem_mem hi)
      have hjm : f.cols.idxOf m < f.rows[i].2.length := by rw [hw]; exact List.idxOf_lt_length_iff.2 hm
      unfold setColumn
      split
      · rename_i hmem
        have : f.cols.idxOf name ≠ f.cols.idxOf m := by
          intro hc
          exact hne ((List.idxOf_inj hm).1 hc.symm)
        simp [List.getD_eq_getElem?_getD, List.getElem?_set, this]
      · have : (f.cols ++ [name]).idxOf m = f.cols.idxOf m := List.idxOf_append_of_mem hm
        simp [this, List.getD_eq_getElem?_getD, List.getElem?_append_left hjm]
  · rw [if_neg hm, if_neg]
    rw [mem_setColumn_cols]
    rintro (h | h)
    · exact hm h
    · exact hne h

theorem setColumn_same {f : Frame K} (hf : f.WF) (name : String) (v : List (XF K)) (h : column f name = .ok v) :
    setColumn f name v = f := by
  unfold column at h
  split at h
  · rename_i hm
    simp only [Except.ok.injEq] at h
    subst h
    unfold setColumn
    rw [if_pos hm]
    obtain ⟨cols, rows⟩ := f
    congr 1
    simp only at hm ⊢
    apply List.ext_getElem
    · simp
    · intro i h1 h2
      have hw := hf rows[i] (List.getElem_mem h2)
      have hj : cols.idxOf name < rows[i].2.length := by rw [hw]; exact List.idxOf_lt_length_iff.2 hm
      simp only [List.getElem_zipWith, List.getElem_map]
      rw [List.getD_eq_getElem _ _ hj, List.set_getElem_self]
  · simp at h

theorem lookup_setEntry (X : Dict K) (key : String) (f g : Frame K) (h : X.lookup key = some g) :
    (setEntry X key f).lookup key = some f := by
  induction X with
  | nil => simp at h
  | cons p X ih =>
    obtain ⟨k, q⟩ := p
    unfold setEntry at ih ⊢
    by_cases hk : k = key
    · subst hk
      rw [List.map_cons, if_pos rfl, List.lookup_cons]
      simp
    · have hb : (key == k) = false := beq_false_of_ne fun h => hk h.symm
      rw [List.lookup_cons, hb] at h
      rw [List.map_cons, if_neg hk, List.lookup_cons, hb]
      exact ih h

theorem setEntry_same (X : Dict K) (hX : (X.map (·.1)).Nodup) (key : String) (f : Frame K) (h : X.lookup key = some f) :
    setEntry X key f = X := by
  unfold setEntry
  have : ∀ p ∈ X, (if p.1 = key then (p.1, f) else p) = p := by
    intro p hp
    split
    · rename_i hk
      have hm := lookup_mem h
      obtain ⟨k, q⟩ := p
      simp only at hk ⊢
      subst hk
      have := List.inj_on_of_nodup_map hX hm hp rfl
      rw [Prod.mk.injEq] at this
      rw [this.2]
    · rfl
  conv_rhs => rw [← List.map_id X]
  exact List.map_congr_left fun p hp => by rw [this p hp]; rfl

theorem setEntry_setEntry (X : Dict K) (key : String) (f g : Frame K) :
    setEntry (setEntry X key f) key g = setEntry X key g := by
  unfold setEntry
  rw [List.map_map]
  apply List.map_congr_left
  intro p _
  simp only [Function.comp]
  by_cases h : p.1 = key <;> simp [h]

theorem volatility_length {tr : Trader K} {f : Frame K} {vol : List (XF K)} (h : volatility tr f = .ok vol) :
    vol.length = f.rows.length := by
  unfold volatility at h
  split at h
  · rw [Py.bind_eq_ok] at h
    obtain ⟨c, -, h⟩ := h
    simp only [Except.ok.injEq] at h
    subst h
    simp [Lab.dailyVolColumn, Lab.alignTo, Frame.index]
  · simp only [Except.ok.injEq] at h
    subst h; simp

theorem scaled_ok {e : Bool} {vol v : List (XF K)} {k : Option K} (h : scaled e vol k = .ok v) :
    (k = none → e = true) ∧ v = vol.map (level k) := by
  unfold scaled at h
  by_cases hc : (k.isNone && !e) = true
  · rw [if_pos hc] at h
    cases h
  · rw [if_neg hc] at h
    simp only [Except.ok.injEq] at h
    refine ⟨?_, h.symm⟩
    rintro rfl
    simpa using hc

/-- What a successful `create_strategy_bars` has done. -/
theorem createBars_ok {tr : Trader K} {st st' : State K} {b : Frame K} (hwf : ∀ p ∈ st.data, p.2.WF)
    (h : createBars tr st = (.ok b, st')) :
    checkDict st.data = true ∧ ∃ f vol f3, st.data.lookup tr.alignOn = some f ∧ volatility tr f = .ok vol ∧
      (tr.stopLoss = none → noReturns tr f = true) ∧ (tr.profitTaking = none → noReturns tr f = true) ∧
      f3 = setColumn (setColumn (setColumn f STOP_LOSS (vol.map (level tr.stopLoss))) PROFIT_TAKING
        (vol.map (level tr.profitTaking))) NUM_BARS (f.rows.map fun _ => .fin tr.numBars) ∧
      st' = { st with data := setEntry st.data tr.alignOn f3 } ∧
      column f3 STOP_LOSS = .ok (vol.map (level tr.stopLoss)) ∧
      column f3 PROFIT_TAKING = .ok (vol.map (level tr.profitTaking)) ∧
      column f3 NUM_BARS = .ok (f.rows.map fun _ => .fin tr.numBars) ∧
      f3.WF ∧ f3.index = f.index ∧
      (∀ m, m ≠ STOP_LOSS → m ≠ PROFIT_TAKING → m ≠ NUM_BARS → column f3 m = column f m) ∧
      b = ⟨[STOP_LOSS, PROFIT_TAKING, NUM_BARS], List.zipWith (fun t x => (t, [level tr.stopLoss x, level tr.profitTaking x, .fin tr.numBars])) f.index vol⟩ := by
  unfold createBars at h
  split at h
  · simp at h
  · rename_i hc
    refine ⟨by simpa using hc, ?_⟩
    cases hl : st.data.lookup tr.alignOn with
    | none => simp [hl] at h
    | some f =>
      simp only [hl] at h
      cases hv : volatility tr f with
      | error e => simp [hv] at h
      | ok vol =>
        simp only [hv] at h
        cases hs : scaled (noReturns tr f) vol tr.stopLoss with
        | error e => simp [hs] at h
        | ok sl =>
          simp only [hs] at h
          cases hp : scaled (noReturns tr f) vol tr.profitTaking with
          | error e => simp [hp] at h
          | ok pt =>
            simp only [hp, Prod.mk.injEq] at h
            obtain ⟨ha, rfl⟩ := scaled_ok hs
            obtain ⟨hpk, rfl⟩ := scaled_ok hp
            have hf : f.WF := hwf _ (lookup_mem hl)
            have hvl := volatility_length hv
            generalize hA : (vol.map (level tr.stopLoss)) = A at *
            generalize hB : (vol.map (level tr.profitTaking)) = B at *
            generalize hN : (f.rows.map fun _ => (XF.fin tr.numBars : XF K)) = N at *
            have lA : A.length = f.rows.length := by rw [← hA]; simp [hvl]
            have lB : B.length = f.rows.length := by rw [← hB]; simp [hvl]
            have lN : N.length = f.rows.length := by rw [← hN]; simp
            have w1 := setColumn_wf hf STOP_LOSS A
            have l1 := setColumn_rows_length f STOP_LOSS A lA
            generalize hf1 : setColumn f STOP_LOSS A = f1 at *
            have w2 := setColumn_wf w1 PROFIT_TAKING B
            have l2 := setColumn_rows_length f1 PROFIT_TAKING B (by omega)
            generalize hf2 : setColumn f1 PROFIT_TAKING B = f2 at *
            have w3 := setColumn_wf w2 NUM_BARS N
            have i1 : f1.index = f.index := by rw [← hf1]; exact setColumn_index _ _ _ lA
            have i2 : f2.index = f.index := by rw [← hf2, setColumn_index _ _ _ (by omega), i1]
            have i3 : (setColumn f2 NUM_BARS N).index = f.index := by rw [setColumn_index _ _ _ (by omega), i2]
            have ne1 : STOP_LOSS ≠ PROFIT_TAKING := by decide
            have ne2 : STOP_LOSS ≠ NUM_BARS := by decide
            have ne3 : PROFIT_TAKING ≠ NUM_BARS := by decide
            have cN : column (setColumn f2 NUM_BARS N) NUM_BARS = .ok N := column_setColumn_same w2 _ _ (by omega)
            have cB : column (setColumn f2 NUM_BARS N) PROFIT_TAKING = .ok B := by
              rw [column_setColumn_other w2 _ _ ne3 _ (by omega), ← hf2, column_setColumn_same w1 _ _ (by omega)]
            have cA : column (setColumn f2 NUM_BARS N) STOP_LOSS = .ok A := by
              rw [column_setColumn_other w2 _ _ ne2 _ (by omega), ← hf2, column_setColumn_other w1 _ _ ne1 _ (by omega), ← hf1,
                column_setColumn_same hf _ _ lA]
            have cO : ∀ m, m ≠ STOP_LOSS → m ≠ PROFIT_TAKING → m ≠ NUM_BARS →
                column (setColumn f2 NUM_BARS N) m = column f m := by
              intro m h1 h2 h3
              rw [column_setColumn_other w2 _ _ h3 _ (by omega), ← hf2, column_setColumn_other w1 _ _ h2 _ (by omega), ← hf1,
                column_setColumn_other hf _ _ h1 _ lA]
            obtain ⟨hb, hst⟩ := h
            rw [cA, cB, cN] at hb
            simp only [Py.bind_ok, Except.ok.injEq] at hb
            refine ⟨f, vol, setColumn f2 NUM_BARS N, rfl, hv, ha, hpk, by rw [hA, hB, hf1, hf2, hN], hst.symm, ?_, ?_, ?_, w3, i3, cO, ?_⟩
            · rw [cA, hA]
            · rw [cB, hB]
            · rw [cN, hN]
            · rw [← hb, i3]
              congr 1
              have lI : f.index.length = f.rows.length := by simp [Frame.index]
              apply List.ext_getElem
              · simp; omega
              · intro i h1 h2
                simp [← hA, ← hB, ← hN]

end Mizar.Trade
