import Verif.Model.ParallelLoops
import Verif.Lemmas.Parallel
import Verif.Spec.Parallel

/-! Property theorems C80: the result of a parallel loop does not depend on the schedule. -/

namespace Mizar.Props
open Mizar.Spec Mizar.Par

theorem mapE_error_mem {α β : Type*} (f : α → Py β) (l : List α) (a : α) (ha : a ∈ l) (e : PyErr) (h : f a = .error e) :
    ∃ e', mapE f l = .error e' := by
  cases hm : mapE f l with
  | error e' => exact ⟨e', rfl⟩
  | ok r =>
    exfalso
    rw [mapE_eq_ok_iff] at hm
    obtain ⟨b, hb⟩ : ∃ b, f a = .ok b := by
      induction hm with
      | nil => simp at ha
      | cons h1 _ ih =>
        rcases List.mem_cons.1 ha with rfl | h2
        · exact ⟨_, h1⟩
        · exact ih h2
    rw [h] at hb; cases hb

theorem mapE_ok_of {α β : Type*} (f : α → Py β) (g : α → β) (l : List α) (h : ∀ a ∈ l, f a = .ok (g a)) : mapE f l = .ok (l.map g) := by
  rw [mapE_eq_ok_iff, List.forall₂_map_right_iff, List.forall₂_same]
  exact h

/-- A loop whose iterations keep to their own position. -/
theorem scheduleFree_of_own {V β : Type} (n : ℕ) (body : ℕ → Py (List (Loc × V))) (mem : Loc → V) (f : ℕ → Py β) (read : (Loc → V) → ℕ → β)
    (ho : Own body) (he : ∀ i < n, ∀ e, body i = .error e → ∃ e', f i = .error e')
    (hok : ∀ i < n, ∀ ws m, body i = .ok ws → (∀ a, m (a, i) = wrote (a, i) ws (mem (a, i))) → f i = .ok (read m i)) :
    ScheduleFree n body mem (fun m => (List.range n).map (read m)) (mapE f (List.range n)) := by
  refine ⟨exists_outcome n body mem, ?_, fun e h => outcome_error (ho.disjoint n) h⟩
  intro o h
  cases o with
  | error e =>
    obtain ⟨i, hi, hb⟩ := outcome_error (ho.disjoint n) h
    obtain ⟨e', h1⟩ := he i hi e hb
    obtain ⟨e'', h2⟩ := mapE_error_mem f (List.range n) i (List.mem_range.2 hi) e' h1
    rw [h2]; trivial
  | ok m =>
    have : mapE f (List.range n) = .ok ((List.range n).map (read m)) := by
      apply mapE_ok_of
      intro i hi
      obtain ⟨ws, h1, h2⟩ := own_ok ho h i (List.mem_range.1 hi)
      exact hok i (List.mem_range.1 hi) ws m h1 h2
    rw [this]
    rfl

/-- Any loop in which no entry is written by two iterations: all schedules give the same arrays, or all raise. -/
theorem C80_disjoint_writes {V : Type} (n : ℕ) (body : ℕ → Py (List (Loc × V))) (mem : Loc → V)
    (h : ∀ i < n, ∀ j < n, i ≠ j → ∀ ws ws', body i = .ok ws → body j = .ok ws' → ∀ w ∈ ws, ∀ w' ∈ ws', w.1 ≠ w'.1) :
    (∃ o, Outcome n body mem o) ∧ ∀ o o', Outcome n body mem o → Outcome n body mem o' →
      (∃ m, o = .ok m ∧ o' = .ok m) ∨ (∃ e e', o = .error e ∧ o' = .error e') := by
  refine ⟨exists_outcome n body mem, ?_⟩
  intro o o' ho ho'
  have mix : ∀ m e, Outcome n body mem (.ok m) → Outcome n body mem (.error e) → False := by
    intro m e h1 h2
    obtain ⟨i, hi, hb⟩ := outcome_error h h2
    obtain ⟨ws, hw, -⟩ := (outcome_ok h h1).1 i hi
    rw [hb] at hw; cases hw
  cases o with
  | error e =>
    cases o' with
    | error e' => exact Or.inr ⟨e, e', rfl, rfl⟩
    | ok m => exact (mix m e ho' ho).elim
  | ok m =>
    cases o' with
    | error e' => exact (mix m e' ho ho').elim
    | ok m' =>
      left
      refine ⟨m, rfl, ?_⟩
      congr 1
      funext a
      obtain ⟨h1, h2⟩ := outcome_ok h ho
      obtain ⟨h1', h2'⟩ := outcome_ok h ho'
      by_cases ha : ∃ i < n, ∃ ws, body i = .ok ws ∧ ∃ w ∈ ws, w.1 = a
      · obtain ⟨i, hi, ws, hb, hw⟩ := ha
        obtain ⟨ws1, hb1, h3⟩ := h1 i hi
        obtain ⟨ws2, hb2, h4⟩ := h1' i hi
        rw [hb] at hb1 hb2
        cases hb1; cases hb2
        rw [h3 a hw, h4 a hw]
      · push Not at ha
        rw [h2 a fun i hi ws hb w hw => ha i hi ws hb w hw, h2' a fun i hi ws hb w hw => ha i hi ws hb w hw]

/-- Two iterations that write the same entry: here the result depends on the schedule, so the condition above matters. -/
theorem C80_race : ∃ (body : ℕ → Py (List (Loc × ℤ))) (m m' : Loc → ℤ), Outcome 2 body (fun _ => 0) (.ok m) ∧
    Outcome 2 body (fun _ => 0) (.ok m') ∧ m (0, 0) = 1 ∧ m' (0, 0) = 2 := by
  let body : ℕ → Py (List (Loc × ℤ)) := fun i => .ok [((0, 0), (i : ℤ) + 1)]
  have key : ∀ i j : ℕ, i < 2 → j < 2 → i ≠ j → ∃ m, Outcome 2 body (fun _ => 0) (.ok m) ∧ m (0, 0) = (j : ℤ) + 1 := by
    intro i j hi hj hij
    have s1 := Step.write (n := 2) (start body fun _ => 0) i hi (0, 0) ((i : ℤ) + 1) [] rfl
    have s2 := Step.write (n := 2) ⟨Function.update (start body fun _ => 0).pool i [], Function.update (fun _ => 0) (0, 0) ((i : ℤ) + 1), []⟩
      j hj (0, 0) ((j : ℤ) + 1) [] (by
        show Function.update (start body fun _ => 0).pool i [] j = _
        rw [Function.update_of_ne hij.symm]; rfl)
    refine ⟨_, Outcome.ok _ (Run.step (Run.step (Run.refl _) s1) s2) ?_ rfl, ?_⟩
    · intro k hk
      by_cases h1 : k = j
      · subst h1; exact Function.update_self ..
      · have : k = i := by omega
        subst this
        show Function.update (Function.update (start body fun _ => 0).pool k []) j [] k = []
        rw [Function.update_of_ne h1, Function.update_self]
    · simp
  obtain ⟨m, h1, h2⟩ := key 1 0 (by omega) (by omega) (by omega)
  obtain ⟨m', h1', h2'⟩ := key 0 1 (by omega) (by omega) (by omega)
  exact ⟨body, m, m', h1, h1', by simpa using h2, by simpa using h2'⟩

theorem wrote_hits {α : Type} (i : ℕ) (sl pt : List (ℤ × α)) :
    Lab.minOrZero (pt.map (·.1)) = wrote (0, i) ((if sl.isEmpty then [] else [((1, i), Lab.minOrZero (sl.map (·.1)))]) ++
      (if pt.isEmpty then [] else [((0, i), Lab.minOrZero (pt.map (·.1)))])) 0 ∧
    Lab.minOrZero (sl.map (·.1)) = wrote (1, i) ((if sl.isEmpty then [] else [((1, i), Lab.minOrZero (sl.map (·.1)))]) ++
      (if pt.isEmpty then [] else [((0, i), Lab.minOrZero (pt.map (·.1)))])) 0 := by
  cases sl <;> cases pt <;> simp [wrote, Lab.minOrZero]

/-- The barrier search: every schedule gives the hits of the model. -/
theorem C80_barriers {K : Type} [Field K] [LinearOrder K] (bars : List (ℤ × XF K)) (evs : List (Lab.HEvent K)) :
    ScheduleFree evs.length (barrierBody bars evs) (fun _ => 0) (fun m => (List.range evs.length).map fun i => (m (0, i), m (1, i)))
      (.ok (Lab.getHorizontalBarriersHit bars evs)) := by
  have hseq : mapE (fun i => match evs[i]? with
      | none => Except.error PyErr.indexError
      | some e => Except.ok
        (Lab.firstHit bars e.start e.exp e.close e.side (fun r => XF.lt e.profitTaking r),
         Lab.firstHit bars e.start e.exp e.close e.side (fun r => XF.lt r e.stopLoss))) (List.range evs.length) =
      Except.ok (Lab.getHorizontalBarriersHit bars evs) := by
    rw [mapE_eq_ok_iff, List.forall₂_iff_get]
    refine ⟨by simp [Lab.getHorizontalBarriersHit], ?_⟩
    intro i h1 h2
    simp only [List.length_range] at h1
    simp [Lab.getHorizontalBarriersHit, h1]
  rw [← hseq]
  apply scheduleFree_of_own (read := fun m i => (m (0, i), m (1, i)))
  · intro i ws h w hw
    unfold barrierBody at h
    split at h
    · cases h; simp at hw
    · simp only [Except.ok.injEq] at h
      subst h
      rcases List.mem_append.1 hw with h | h <;> split at h <;> simp at h <;> rw [h]
  · intro i hi e h
    unfold barrierBody at h
    split at h <;> cases h
  · intro i hi ws m h hm
    unfold barrierBody at h
    rw [List.getElem?_eq_getElem hi] at h ⊢
    simp only [Except.ok.injEq] at h
    subst h
    simp only [hm, Except.ok.injEq, Prod.mk.injEq]
    exact ⟨(wrote_hits i _ _).1, (wrote_hits i _ _).2⟩

/-- The average of the active bets: every schedule gives the values of the model. -/
theorem C80_signals {K : Type} [Field K] [LinearOrder K] (bets : List (ℤ × ℤ × XF K)) (times : List ℤ) :
    ScheduleFree times.length (signalBody bets times) (fun _ => .fin 0) (fun m => (List.range times.length).map fun i => m (0, i))
      (.ok (times.map (Bet.avgActiveAt bets))) := by
  have hseq : mapE (fun i => match times[i]? with
      | none => Except.error PyErr.indexError
      | some t => Except.ok (Bet.avgActiveAt bets t)) (List.range times.length) = Except.ok (times.map (Bet.avgActiveAt bets)) := by
    rw [mapE_eq_ok_iff, List.forall₂_iff_get]
    refine ⟨by simp, ?_⟩
    intro i h1 h2
    simp only [List.length_range] at h1
    simp [h1]
  rw [← hseq]
  apply scheduleFree_of_own (read := fun m i => m (0, i))
  · intro i ws h w hw
    unfold signalBody at h
    split at h
    · cases h; simp at hw
    · simp only [Except.ok.injEq] at h
      subst h
      split at hw <;> simp at hw
      rw [hw]
  · intro i hi e h
    unfold signalBody at h
    split at h <;> cases h
  · intro i hi ws m h hm
    unfold signalBody at h
    rw [List.getElem?_eq_getElem hi] at h ⊢
    simp only [Except.ok.injEq] at h
    subst h
    simp only [hm, Except.ok.injEq]
    unfold Bet.avgActiveAt
    dsimp only
    split <;> simp [wrote]

/-- The whole of `avg_active_signals`: the values at the change times. -/
theorem C80_average_bets {K : Type} [Field K] [LinearOrder K] (bets : List (Bet.Bet K)) :
    ScheduleFree (Bet.changeTimes bets).length
      (signalBody (bets.map fun b => (Lab.convertToTimestamp (some b.start), Lab.convertToTimestamp b.stop, b.size))
        ((Bet.changeTimes bets).map fun t => Lab.convertToTimestamp (some t)))
      (fun _ => .fin 0) (fun m => (List.range (Bet.changeTimes bets).length).map fun i => m (0, i))
      (.ok ((Bet.avgActiveSignals bets).map (·.2))) := by
  have := C80_signals (bets.map fun b => (Lab.convertToTimestamp (some b.start), Lab.convertToTimestamp b.stop, b.size))
    ((Bet.changeTimes bets).map fun t => Lab.convertToTimestamp (some t))
  simpa [Bet.avgActiveSignals, Function.comp_def] using this

/-- The Chu-Stinchcombe-White statistics: every schedule gives the rows of the model. -/
theorem C80_csw (em : Brk.ErrModel) (side : String) (y : List (XF ℝ)) (n : ℕ) (mem : Loc → XF ℝ) :
    ScheduleFree n (cswBody em side y) mem (fun m => (List.range n).map fun i => (m (0, i), m (1, i)))
      (mapE (Brk.statAt em side y) ((List.range n).map fun i => i + 2)) := by
  rw [mapE_map]
  apply scheduleFree_of_own (read := fun m i => (m (0, i), m (1, i)))
  · intro i ws h w hw
    unfold cswBody at h
    obtain ⟨r, -, h2⟩ := Py.bind_eq_ok.1 h
    cases h2
    rcases List.mem_cons.1 hw with rfl | hw
    · rfl
    · rw [List.mem_singleton.1 hw]
  · intro i hi e h
    unfold cswBody at h
    cases hs : Brk.statAt em side y (i + 2) with
    | error e' => exact ⟨e', rfl⟩
    | ok r => rw [hs] at h; cases h
  · intro i hi ws m h hm
    unfold cswBody at h
    obtain ⟨r, h1, h2⟩ := Py.bind_eq_ok.1 h
    cases h2
    rw [h1]
    simp [hm, wrote]

/-- The supremum augmented Dickey-Fuller statistics: every schedule gives the values of the model. -/
theorem C80_sadf (em : Brk.ErrModel) (k minLength : ℕ) (model : String) (phi : ℝ) (w : List (Brk.Row (k + 1))) (h : minLength ≤ w.length)
    (mem : Loc → XF ℝ) :
    ScheduleFree (w.length - minLength) (sadfBody em k minLength model phi w) mem
      (fun m => (List.range (w.length - minLength)).map fun i => m (0, i)) (Brk.sadfLoop em k minLength model phi w) := by
  unfold Brk.sadfLoop
  rw [if_neg (by omega)]
  apply scheduleFree_of_own (read := fun m i => m (0, i))
  · intro i ws h w' hw
    unfold sadfBody at h
    obtain ⟨r, -, h2⟩ := Py.bind_eq_ok.1 h
    cases h2
    rw [List.mem_singleton.1 hw]
    simp
  · intro i hi e h
    unfold sadfBody at h
    cases hs : Brk.sadfAt em k minLength model phi (w.take (minLength + i + 1)) with
    | error e' => exact ⟨e', rfl⟩
    | ok r => rw [hs] at h; cases h
  · intro i hi ws m h hm
    unfold sadfBody at h
    obtain ⟨r, h1, h2⟩ := Py.bind_eq_ok.1 h
    cases h2
    rw [h1]
    simp [hm, wrote]

/-- The Chow-type Dickey-Fuller statistics: every schedule gives the values of the model. -/
theorem C80_sdfc (em : Brk.ErrModel) (yDiff yLag : List (XF ℝ)) (indices : List ℕ) (mem : Loc → XF ℝ) :
    ScheduleFree indices.length (dfcBody em yDiff yLag indices) mem (fun m => (List.range indices.length).map fun i => m (0, i))
      (mapE (Brk.dfcAt em yDiff yLag) indices) := by
  rw [show mapE (Brk.dfcAt em yDiff yLag) indices =
    mapE (fun i => Brk.dfcAt em yDiff yLag (indices.getD i 0)) (List.range indices.length) by
      conv_lhs => rw [show indices = (List.range indices.length).map fun i => indices.getD i 0 from by
        apply List.ext_getElem
        · simp
        · intro i h1 h2
          simp [h1]]
      rw [mapE_map]]
  apply scheduleFree_of_own (read := fun m i => m (0, i))
  · intro i ws h w hw
    unfold dfcBody at h
    split at h
    · cases h; simp at hw
    · obtain ⟨r, -, h2⟩ := Py.bind_eq_ok.1 h
      cases h2
      rw [List.mem_singleton.1 hw]
  · intro i hi e h
    unfold dfcBody at h
    rw [List.getElem?_eq_getElem hi] at h
    rw [List.getD_eq_getElem _ _ hi]
    cases hs : Brk.dfcAt em yDiff yLag indices[i] with
    | error e' => exact ⟨e', rfl⟩
    | ok r =>
      dsimp only at h
      rw [hs] at h; cases h
  · intro i hi ws m h hm
    unfold dfcBody at h
    rw [List.getElem?_eq_getElem hi] at h
    rw [List.getD_eq_getElem _ _ hi]
    dsimp only at h
    obtain ⟨r, h1, h2⟩ := Py.bind_eq_ok.1 h
    cases h2
    rw [h1]
    simp [hm, wrote]

/-- The float that stands for the position of the end of a trend. -/
noncomputable def endFloat : Option ℕ → XF ℝ
  | some i => .fin (i : ℝ)
  | none => .nan

/-- Trend scanning: every schedule gives the t-values and ends of the model. -/
theorem C80_trend (em : Brk.ErrModel) (junk : ℕ → ℕ → XF ℝ) (p : Trend.Params) (y : List (XF ℝ)) (indices : List ℕ) (mem : Loc → XF ℝ) :
    ScheduleFree indices.length (scanBody em junk p y indices) mem (fun m => (List.range indices.length).map fun i => (m (0, i), m (1, i)))
      (do let r ← mapE (fun e : ℕ × ℕ => Trend.scanAt em (junk e.2) p y e.1) indices.zipIdx
          .ok (r.map fun x => (x.1, endFloat x.2))) := by
  have hseq : (do let r ← mapE (fun e : ℕ × ℕ => Trend.scanAt em (junk e.2) p y e.1) indices.zipIdx
                  Except.ok (r.map fun x => (x.1, endFloat x.2)) : Py (List (XF ℝ × XF ℝ))) =
      mapE (fun i => do let x ← Trend.scanAt em (junk i) p y (indices.getD i 0); .ok (x.1, endFloat x.2)) (List.range indices.length) := by
    have e1 : indices.zipIdx = (List.range indices.length).map fun i => (indices.getD i 0, i) := by
      apply List.ext_getElem
      · simp
      · intro i h1 h2
        simp only [List.length_zipIdx] at h1
        simp [h1]
    rw [e1, mapE_map]
    generalize List.range indices.length = l
    induction l with
    | nil => rfl
    | cons i l ih =>
      simp only [mapE, Function.comp]
      cases h1 : Trend.scanAt em (junk i) p y (indices.getD i 0) with
      | error e => rfl
      | ok r =>
        rw [Py.bind_ok]
        dsimp only
        rw [← ih]
        simp only [Function.comp]
        cases mapE (fun i => Trend.scanAt em (junk i) p y (indices.getD i 0)) l <;> rfl
  rw [hseq]
  apply scheduleFree_of_own (read := fun m i => (m (0, i), m (1, i)))
  · intro i ws h w hw
    unfold scanBody at h
    split at h
    · cases h; simp at hw
    · dsimp only at h
      split at h
      · obtain ⟨r, -, h2⟩ := Py.bind_eq_ok.1 h
        cases h2
        rcases List.mem_cons.1 hw with rfl | hw
        · rfl
        · rw [List.mem_singleton.1 hw]
      · cases h
        rcases List.mem_cons.1 hw with rfl | hw
        · rfl
        · rw [List.mem_singleton.1 hw]
  · intro i hi e h
    unfold scanBody at h
    unfold Trend.scanAt
    rw [List.getElem?_eq_getElem hi] at h
    rw [List.getD_eq_getElem _ _ hi]
    dsimp only at h ⊢
    split at h
    · rename_i hw
      rw [if_pos hw]
      cases hs : Trend.bestAt em (junk i) p ((y.drop indices[i]).take p.look) with
      | error e' => exact ⟨e', rfl⟩
      | ok r => rw [hs] at h; cases h
    · cases h
  · intro i hi ws m h hm
    unfold scanBody at h
    unfold Trend.scanAt
    rw [List.getElem?_eq_getElem hi] at h
    rw [List.getD_eq_getElem _ _ hi]
    dsimp only at h ⊢
    split at h
    · rename_i hw
      rw [if_pos hw]
      obtain ⟨r, h1, h2⟩ := Py.bind_eq_ok.1 h
      cases h2
      rw [h1]
      simp [hm, wrote, endFloat, Py.bind_ok]
    · rename_i hw
      rw [if_neg hw]
      cases h
      simp [hm, wrote, endFloat, Py.bind_ok]

/-- A loop meeting the condition of `C80_disjoint_writes` in which an exception occurs: three iterations, the second raises. -/
example : let body : ℕ → Py (List (Loc × ℤ)) := fun i => if i = 1 then .error .valueError else .ok [((0, i), 7)]
    (∀ i < 3, ∀ j < 3, i ≠ j → ∀ ws ws', body i = .ok ws → body j = .ok ws' → ∀ w ∈ ws, ∀ w' ∈ ws', w.1 ≠ w'.1) ∧
    ∃ o, Outcome 3 body (fun _ => 0) o := by
  refine ⟨?_, exists_outcome _ _ _⟩
  intro i _ j _ hij ws ws' h1 h2 w hw w' hw'
  dsimp only at h1 h2
  split at h1
  · cases h1
  · split at h2
    · cases h2
    · cases h1; cases h2
      rw [List.mem_singleton.1 hw, List.mem_singleton.1 hw']
      simpa using hij

/-- Two events, one of which hits its profit-taking barrier, the other its stop loss: any schedule gives these hits. -/
example (o : Py (Loc → ℤ)) (h : Outcome 2 (barrierBody (K := ℚ) [(1, .fin 10), (2, .fin 12), (3, .fin 8)]
    [⟨4, 1, .fin 10, .fin 1, .fin (-1), .fin (1/10)⟩, ⟨4, 2, .fin 12, .fin 1, .fin (-1/10), .fin 1⟩]) (fun _ => 0) o) :
    ∃ m, o = .ok m ∧ m (0, 0) = 2 ∧ m (1, 0) = 0 ∧ m (0, 1) = 0 ∧ m (1, 1) = 3 := by
  have h1 := (C80_barriers (K := ℚ) [(1, .fin 10), (2, .fin 12), (3, .fin 8)]
    [⟨4, 1, .fin 10, .fin 1, .fin (-1), .fin (1/10)⟩, ⟨4, 2, .fin 12, .fin 1, .fin (-1/10), .fin 1⟩]).2.1 o h
  rw [show Lab.getHorizontalBarriersHit (K := ℚ) [(1, .fin 10), (2, .fin 12), (3, .fin 8)]
    [⟨4, 1, .fin 10, .fin 1, .fin (-1), .fin (1/10)⟩, ⟨4, 2, .fin 12, .fin 1, .fin (-1/10), .fin 1⟩] = [(2, 0), (0, 3)] by decide +kernel] at h1
  cases o with
  | error e => exact h1.elim
  | ok m =>
    have h2 : [(m (0, 0), m (1, 0)), (m (0, 1), m (1, 1))] = [((2 : ℤ), (0 : ℤ)), (0, 3)] := h1
    simp only [List.cons.injEq, Prod.mk.injEq, and_true] at h2
    exact ⟨m, rfl, h2.1.1, h2.1.2, h2.2.1, h2.2.2⟩

end Mizar.Props
