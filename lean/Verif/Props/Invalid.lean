import Verif.Lemmas.Pipeline
import Verif.Lemmas.TaFactory
import Verif.Model.BetSizing
import Verif.Model.Union
import Verif.Model.Features
import Verif.Model.Paths

/-!
Property theorems C106: which exception an invalid call raises.
-/

set_option linter.unusedSectionVars false

namespace Mizar.Props
open Mizar
variable {K : Type} [Field K] [LinearOrder K]

/-- A loop in which every failing step raises `e` and some step fails raises `e`. -/
theorem mapE_error_all {α β : Type} (f : α → Py β) (e : PyErr) (l : List α) (h : ∀ a ∈ l, ∀ e', f a = .error e' → e' = e)
    (hx : ∃ a ∈ l, ∃ e', f a = .error e') : mapE f l = .error e := by
  induction l with
  | nil => obtain ⟨a, ha, -⟩ := hx; simp at ha
  | cons b l ih =>
    cases hb : f b with
    | error e' =>
      have := h b (by simp) e' hb
      subst this
      simp [mapE, hb]
    | ok c =>
      have : mapE f l = .error e := by
        apply ih (fun a ha => h a (by simp [ha]))
        obtain ⟨a, ha, e', he⟩ := hx
        rcases List.mem_cons.1 ha with rfl | ha
        · rw [hb] at he; simp at he
        · exact ⟨a, ha, e', he⟩
      simp [mapE, hb, this]

theorem hstack_lengths (n : ℕ) (ms : List (List (List (XF K)))) (hne : ms ≠ []) :
    (∃ L m, (∀ x ∈ ms, x.length = L) ∧ Union.hstack n ms = .ok m ∧ m.length = L) ∨ Union.hstack n ms = .error .valueError := by
  induction ms with
  | nil => exact absurd rfl hne
  | cons a l ih =>
    cases l with
    | nil => exact Or.inl ⟨a.length, a, by simp, rfl, rfl⟩
    | cons b l =>
      rcases ih (by simp) with ⟨L, m, h1, h2, h3⟩ | h
      · by_cases hl : a.length = m.length
        · refine Or.inl ⟨L, List.zipWith (· ++ ·) a m, ?_, ?_, ?_⟩
          · intro x hx
            rcases List.mem_cons.1 hx with rfl | hx
            · rw [hl, h3]
            · exact h1 x hx
          · rw [Union.hstack, h2, Py.bind_ok, if_pos hl]
            simp
          · simp [hl, h3]
        · right
          rw [Union.hstack, h2, Py.bind_ok, if_neg hl]
          simp
      · right
        rw [Union.hstack, h, Py.bind_error]
        simp

/-- C106: a transformer of a feature union that gives another number of rows than the data: `ValueError`. -/
theorem C106_union (fs : List (Frame K → Py (List (List (XF K))))) (X : Frame K)
    (hok : ∀ f ∈ fs, ∃ m, f X = .ok m) (hbad : ∃ f ∈ fs, ∃ m, f X = .ok m ∧ m.length ≠ X.rows.length) :
    Union.transform fs X = .error .valueError := by
  have h1 : ∃ ms, mapE (fun f => f X) fs = .ok ms ∧ ∃ m ∈ ms, m.length ≠ X.rows.length := by
    clear * - hok hbad
    induction fs with
    | nil => obtain ⟨f, hf, -⟩ := hbad; simp at hf
    | cons f fs ih =>
      obtain ⟨m, hm⟩ := hok f (by simp)
      by_cases hl : m.length ≠ X.rows.length
      · have : ∃ ms, mapE (fun f => f X) fs = .ok ms := by
          clear ih hbad
          have h' : ∀ g ∈ fs, ∃ m, g X = .ok m := fun g hg => hok g (by simp [hg])
          clear hok
          induction fs with
          | nil => exact ⟨[], rfl⟩
          | cons g gs ih =>
            obtain ⟨a, ha⟩ := h' g (by simp)
            obtain ⟨b, hb⟩ := ih fun x hx => h' x (by simp [hx])
            exact ⟨a :: b, by simp [mapE, ha, hb]⟩
        obtain ⟨ms, hms⟩ := this
        exact ⟨m :: ms, by simp [mapE, hm, hms], m, by simp, hl⟩
      · have hb : ∃ g ∈ fs, ∃ m, g X = .ok m ∧ m.length ≠ X.rows.length := by
          obtain ⟨g, hg, a, ha, hla⟩ := hbad
          rcases List.mem_cons.1 hg with rfl | hg
          · rw [hm, Except.ok.injEq] at ha
            exact absurd (ha ▸ hla) hl
          · exact ⟨g, hg, a, ha, hla⟩
        obtain ⟨ms, hms, a, ha, hla⟩ := ih (fun g hg => hok g (by simp [hg])) hb
        exact ⟨m :: ms, by simp [mapE, hm, hms], a, by simp [ha], hla⟩
  obtain ⟨ms, hms, a, ha, hla⟩ := h1
  unfold Union.transform
  rw [hms, Py.bind_ok]
  rcases hstack_lengths X.rows.length ms (by rintro rfl; simp at ha) with ⟨L, m, l1, l2, l3⟩ | h
  · rw [l2, Py.bind_ok]
    unfold Union.withIndex
    rw [if_neg]
    rw [l3, ← l1 a ha]
    exact hla
  · rw [h, Py.bind_error]

theorem locRows_missing (f : Frame K) (idx : List ℤ) (t : ℤ) (ht : t ∈ idx) (hm : t ∉ f.index) :
    Pipe.locRows f idx = .error .keyError := by
  unfold Pipe.locRows
  rw [mapE_error_all _ .keyError]
  · rfl
  · intro a _ e' he
    cases hr : f.row? a with
    | none => simp only [hr, Except.error.injEq] at he; exact he.symm
    | some r => simp [hr] at he
  · refine ⟨t, ht, .keyError, ?_⟩
    have : f.row? t = none := by
      unfold Frame.row?
      rw [Option.map_eq_none_iff, List.find?_eq_none]
      intro r hr
      simp only [decide_eq_true_eq]
      exact fun h => hm (h ▸ List.mem_map.2 ⟨r, hr, rfl⟩)
    simp [this]

theorem mapE_error_of {α β : Type} (f : α → Py β) (e : PyErr) (l : List α) (h : mapE f l = .error e) :
    ∃ a ∈ l, f a = .error e := by
  induction l with
  | nil => simp [mapE] at h
  | cons b l ih =>
    cases hb : f b with
    | error e' =>
      simp only [mapE, hb, Except.error.injEq] at h
      exact ⟨b, by simp, by rw [hb, h]⟩
    | ok c =>
      cases hm : mapE f l with
      | error e' =>
        simp only [mapE, hb, hm, Except.error.injEq] at h
        obtain ⟨a, ha, he⟩ := ih (by rw [hm, h])
        exact ⟨a, by simp [ha], he⟩
      | ok r => simp [mapE, hb, hm] at h

theorem locRows_error (f : Frame K) (idx : List ℤ) (e : PyErr) (h : Pipe.locRows f idx = .error e) : e = .keyError := by
  unfold Pipe.locRows at h
  generalize hm : mapE _ idx = r at h
  cases r with
  | ok rows => simp at h
  | error e' =>
    rw [Py.bind_error, Except.error.injEq] at h
    subst h
    obtain ⟨a, -, ha⟩ := mapE_error_of _ _ _ hm
    cases hr : f.row? a with
    | none => simp only [hr, Except.error.injEq] at ha; exact ha.symm
    | some r => simp [hr] at ha

/-- C106: labels at a time that a primary feature frame does not have: `KeyError`, for both data sets. -/
theorem C106_dataset (c : Pipe.Cfg K) (X : Pipe.Dict K) (y : Pipe.Ser K) (F : Pipe.Features K)
    (hy : ∀ r ∈ y, r.2 = .nan ∨ r.2 = .fin (-1) ∨ r.2 = .fin 0 ∨ r.2 = .fin 1) (hF : Pipe.features c X = .ok F)
    (p : String × Frame K) (hp : p ∈ F.primary) (t : ℤ) (v : XF K) (hv : v.isNan = false) (hr : (t, v) ∈ y) (ht : t ∉ p.2.index) :
    Pipe.datasetPrimary c X y true = .error .keyError ∧ Pipe.datasetMeta c X y = .error .keyError := by
  have hlab : Pipe.labelsOk y = true := by
    unfold Pipe.labelsOk
    rw [List.all_eq_true]
    intro r hr
    rw [List.mem_filter] at hr
    rcases hy r hr.1 with h | h | h | h <;> rw [h] at hr ⊢ <;> simp [XF.beq, XF.isNan] at hr ⊢
  have hal : Pipe.alignXy F.primary y true = .error .keyError := by
    unfold Pipe.alignXy
    rw [if_pos rfl, mapE_error_all _ .keyError]
    · rfl
    · intro q _ e he
      exact locRows_error _ _ _ he
    · exact ⟨p, hp, .keyError, locRows_missing _ _ t (List.mem_map.2 ⟨(t, v), List.mem_filter.2 ⟨hr, by simp [hv]⟩, rfl⟩) ht⟩
  unfold Pipe.datasetPrimary Pipe.datasetMeta
  rw [if_neg (by simp [hlab]), if_neg (by simp [hlab]), hF, Py.bind_ok, Py.bind_ok, hal, Py.bind_error]
  exact ⟨rfl, rfl⟩

/-- C106: a data set in which, once incomplete rows are dropped, no row or no column is left or a value is infinite:
`ValueError`. -/
theorem C106_dataset_values (c : Pipe.Cfg K) (X : Pipe.Dict K) (y : Pipe.Ser K) (F : Pipe.Features K)
    (hy : ∀ r ∈ y, r.2 = .nan ∨ r.2 = .fin (-1) ∨ r.2 = .fin 0 ∨ r.2 = .fin 1) (hF : Pipe.features c X = .ok F)
    (fs : List (Frame K)) (hfs : mapE (fun p => Pipe.locRows p.2 ((y.filter fun r => !r.2.isNan).map (·.1))) F.primary = .ok fs)
    (A : Frame K) (hA : concatOuter fs = .ok A) (ya : Pipe.Ser K) (hya : Pipe.locSer y A.dropna.index = .ok ya)
    (hbad : A.dropna.rows = [] ∨ A.cols = [] ∨ ∃ r ∈ A.dropna.rows, .pinf ∈ r.2 ∨ .ninf ∈ r.2) :
    Pipe.datasetPrimary c X y true = .error .valueError ∧ Pipe.datasetMeta c X y = .error .valueError := by
  have hlab : Pipe.labelsOk y = true := by
    unfold Pipe.labelsOk
    rw [List.all_eq_true]
    intro r hr
    rw [List.mem_filter] at hr
    rcases hy r hr.1 with h | h | h | h <;> rw [h] at hr ⊢ <;> simp [XF.beq, XF.isNan] at hr ⊢
  have hchk : Pipe.checkXy A.dropna ya = .error .valueError := by
    unfold Pipe.checkXy
    by_cases h0 : A.dropna.rows = [] ∨ A.dropna.cols = []
    · rw [if_pos h0]
    · rw [if_neg h0]
      have hcols : A.dropna.cols = A.cols := rfl
      push Not at h0
      rcases hbad with h | h | ⟨r, hr, h⟩
      · exact absurd h h0.1
      · exact absurd h (hcols ▸ h0.2)
      · rw [if_neg]
        rintro ⟨h1, -⟩
        rw [List.all_eq_true] at h1
        have h2 := h1 r hr
        rw [List.all_eq_true] at h2
        rcases h with h | h
        · simpa [XF.undef, XF.isNan, XF.isInf] using h2 _ h
        · simpa [XF.undef, XF.isNan, XF.isInf] using h2 _ h
  have hal : Pipe.alignXy F.primary y true = .error .valueError := by
    unfold Pipe.alignXy
    rw [if_pos rfl, hfs, Py.bind_ok, hA, Py.bind_ok, hya, Py.bind_ok, hchk]
    rfl
  unfold Pipe.datasetPrimary Pipe.datasetMeta
  rw [if_neg (by simp [hlab]), if_neg (by simp [hlab]), hF, Py.bind_ok, Py.bind_ok, hal, Py.bind_error]
  exact ⟨rfl, rfl⟩

/-- C106: with a metalabeling model that is not fitted, `predict` raises `NotFittedError` (a `ValueError`) before anything
else, and so does `predict_proba` once the primary model has given its probabilities. -/
theorem C106_unfitted (c : Pipe.Cfg K) (X : Pipe.Dict K) (m : Pipe.Clf K) (hm : c.metaModel = some m) (hf : m.fitted = false) :
    Pipe.predict c X = .error .valueError ∧
    ∀ (F : Pipe.Features K) (Xp : Frame K) (v : List (List (XF K))) (p : List (ℤ × List (XF K))), Pipe.features c X = .ok F →
      Pipe.primaryFrame F = .ok Xp → c.primary.proba Xp = .ok v → Pipe.mkRows Xp.index c.primary.classes.length v = .ok p →
      Pipe.predictProba c X = .error .valueError := by
  constructor
  · unfold Pipe.predict
    rw [if_pos (by simp [Pipe.metaFitted, hm, hf])]
  · intro F Xp v p h1 h2 h3 h4
    unfold Pipe.predictProba
    rw [h1, Py.bind_ok, h2, Py.bind_ok, h3, Py.bind_ok, h4, Py.bind_ok]
    simp only [Pipe.probaMeta, hm, hf, if_true, Py.bind_error]

/-- C106: `get_side_and_size` without a bet sizer and with a metalabeling model whose classes do not contain 1: `KeyError`,
once both predictions have succeeded. -/
theorem C106_side_and_size (c : Pipe.Cfg K) (X : Pipe.Dict K) (m : Pipe.Clf K) (hm : c.metaModel = some m) (hb : c.betSizer = none)
    (h1 : (1 : K) ∉ m.classes) (p : Pipe.Predictions K) (q : Pipe.Probas K) (hp : Pipe.predict c X = .ok p)
    (hq : Pipe.predictProba c X = .ok q) : Pipe.getSideAndSize c X = .error .keyError := by
  unfold Pipe.getSideAndSize Pipe.signalSize
  rw [hp, Py.bind_ok, hq, Py.bind_ok, hm]
  simp only [Pipe.sizeMeta, hb, Pipe.probaOfOne]
  rw [if_neg h1, Py.bind_error]

/-- C106: bet sizing without the probability or prediction column: `AssertionError`; for no classes `ZeroDivisionError`; with
metalabeling and without the side column `KeyError`; with a side other than 1, -1, 0 `AssertionError`; with averaging and
without the event end column `KeyError`. -/
theorem C106_bet_sizing (c : Bet.Cfg) (X : Bet.Frame) :
    ((X.prob = none ∨ X.pred = none) → Bet.transform c X = .error .assertionError) ∧
    ∀ prob pred, X.prob = some prob → X.pred = some pred →
      (c.numClasses = 0 → Bet.transform c X = .error .zeroDivisionError) ∧
      (c.numClasses ≠ 0 →
        (c.metaLabeling = true → X.side = none → Bet.transform c X = .error .keyError) ∧
        (∀ side, c.metaLabeling = true → X.side = some side → (∃ s ∈ side, s ≠ .fin 1 ∧ s ≠ .fin (-1) ∧ s ≠ .fin 0) →
          Bet.transform c X = .error .assertionError) ∧
        ((c.metaLabeling = true → ∃ side, X.side = some side ∧ ∀ s ∈ side, s = .fin 1 ∨ s = .fin (-1) ∨ s = .fin 0) →
          c.averageActive = true → X.eventEnd = none → Bet.transform c X = .error .keyError)) := by
  refine ⟨?_, ?_⟩
  · intro h
    unfold Bet.transform Bet.transform0
    rcases h with h | h
    · rw [h]
    · cases hp : X.prob <;> rw [h]
  · intro prob pred h1 h2
    unfold Bet.transform Bet.transform0
    rw [h1, h2]
    refine ⟨fun h => by simp only [if_pos h], fun h => ?_⟩
    simp only [if_neg h]
    refine ⟨?_, ?_, ?_⟩
    · intro hm hs
      unfold Bet.applySide
      simp only [hm, if_true, hs]
    · intro side hm hs hb
      unfold Bet.applySide
      have : side.all Bet.validSide = false := by
        rw [List.all_eq_false]
        obtain ⟨s, hs, b1, b2, b3⟩ := hb
        refine ⟨s, hs, ?_⟩
        unfold Bet.validSide
        cases s with
        | fin x =>
          simp only [ne_eq, XF.fin.injEq] at b1 b2 b3
          simp [XF.beq, b1, b2, b3]
        | nan => simp [XF.beq]
        | pinf => simp [XF.beq]
        | ninf => simp [XF.beq]
      simp only [hm, if_true, hs, this, Bool.false_eq_true, if_false]
    · intro hm ha he
      have : ∃ s, Bet.applySide c X (List.zipWith (Bet.signal1 c.numClasses) pred prob) = .ok s := by
        unfold Bet.applySide
        by_cases hmm : c.metaLabeling = true
        · obtain ⟨side, hs, hv⟩ := hm hmm
          have : side.all Bet.validSide = true := by
            rw [List.all_eq_true]
            intro s hs
            unfold Bet.validSide
            rcases hv s hs with rfl | rfl | rfl <;> simp [XF.beq]
          simp only [hmm, if_true, hs, this]
          exact ⟨_, rfl⟩
        · rw [if_neg hmm]
          exact ⟨_, rfl⟩
      obtain ⟨s, hs⟩ := this
      simp only [hs]
      unfold Bet.applyAverage
      simp only [ha, if_true, he]

/-- C106: the bet sizer is constructed unless it is to discretise without a step strictly between 0 and 1, then
`AssertionError`; the same holds for discretising a signal. -/
theorem C106_bet_construction (c : Bet.Cfg) (signal : List (ℤ × XF ℝ)) (step : ℝ) :
    Bet.construct c = (open Classical in
      if c.discretise = true ∧ ¬ ∃ s, c.stepSize = some s ∧ 0 < s ∧ s < 1 then .error .assertionError else .ok c) ∧
    (step ≤ 0 ∨ 1 ≤ step → Bet.discretiseSignal signal step = .error .assertionError) ∧
    (0 < step → step < 1 → (Bet.discretiseSignal signal step).isOk = true) := by
  refine ⟨?_, fun h => ?_, fun h1 h2 => ?_⟩
  · unfold Bet.construct
    cases hd : c.discretise with
    | false => simp
    | true =>
      cases hs : c.stepSize with
      | none => simp
      | some s =>
        by_cases h : 0 < s ∧ s < 1
        · simp [h]
        · simp only [if_true, h, if_false]
          rw [if_pos]
          simpa using h
  · unfold Bet.discretiseSignal
    rw [if_neg (fun h' => by rcases h with h | h <;> linarith [h'.1, h'.2])]
  · unfold Bet.discretiseSignal
    rw [if_pos ⟨h1, h2⟩]
    rfl

/-- C106: discretising switched on after construction without a step: `TypeError` once all steps before succeed. -/
theorem C106_bet_step (c : Bet.Cfg) (signal : List (ℤ × XF ℝ)) (hd : c.discretise = true) (hs : c.stepSize = none) :
    Bet.applyDiscretise c signal = .error .typeError := by
  unfold Bet.applyDiscretise
  rw [hd, hs]
  rfl

/-- C106: the fit arguments of a pipeline: sample weights without steps raise `IndexError`; otherwise the first argument, in the
order given, without `__` raises `ValueError` and the first with an unknown step `KeyError`, whichever comes first. -/
theorem C106_fit_arguments {V : Type} (names : List Union.Name) (w : V) (params : List (Union.Name × V)) :
    Union.pipelineFit [] (some w) params = .error .indexError ∧
    ∀ pre k v post, params = pre ++ (k, v) :: post → (∀ q ∈ pre, ∃ s p, Union.splitDunder q.1 = some (s, p) ∧ s ∈ names) →
      (Union.splitDunder k = none → Union.pipelineFit names none params = .error .valueError) ∧
      (∀ s p, Union.splitDunder k = some (s, p) → s ∉ names → Union.pipelineFit names none params = .error .keyError) := by
  refine ⟨rfl, fun pre k v post e hpre => ?_⟩
  have key : ∀ (d : Union.Name → List (Union.Name × V)) (err : PyErr), (∀ d', Union.route names ((k, v) :: post) d' = .error err) →
      Union.route names (pre ++ (k, v) :: post) d = .error err := by
    intro d err h
    clear e
    induction pre generalizing d with
    | nil => exact h d
    | cons q pre ih =>
      obtain ⟨s, p, h1, h2⟩ := hpre q (by simp)
      rw [List.cons_append, Union.route, h1]
      dsimp only
      rw [if_pos h2]
      exact ih (fun q hq => hpre q (by simp [hq])) _
  rw [e]
  unfold Union.pipelineFit
  refine ⟨fun h => key _ _ fun d' => ?_, fun s p h hn => key _ _ fun d' => ?_⟩
  · rw [Union.route, h]
  · rw [Union.route, h]
    dsimp only
    rw [if_neg hn]

/-- C106: in the paths of combinatorial cross-validation, a model that gives another number of predictions than rows, or
probabilities without classes: `ValueError`. -/
theorem C106_path_answers {S R L P T : Type} {K : Type} [Field K] [LinearOrder K] (M : CV.Learner S R L P K) (st : S) (idx : List ℤ) (X : List R)
    (Y : List (ℤ × T)) (hX : X.length = idx.length) (test : List ℕ) (ht : ∀ t ∈ test, t < X.length) (b : ℕ × ℕ) (rows : List R)
    (hrows : mapE (getE X) (test.filter fun i => decide (b.1 ≤ i ∧ i < b.2)) = .ok rows) (preds : List P)
    (hp : M.predict st rows = .ok preds) :
    (preds.length ≠ rows.length → CV.blockFrame M st idx X Y test b = .error .valueError) ∧
    ∀ proba, preds.length = rows.length → M.proba st rows = .ok proba → [] ∈ proba →
      CV.blockFrame M st idx X Y test b = .error .valueError := by
  obtain ⟨labels, hl⟩ : ∃ labels, mapE (getE idx) (test.filter fun i => decide (b.1 ≤ i ∧ i < b.2)) = .ok labels := by
    refine ⟨_, mapE_ok_of_forall _ (fun t => idx.getD t 0) _ fun t h => ?_⟩
    have := ht t (List.mem_filter.1 h).1
    simp [getE, show t < idx.length by omega]
  have hlen : labels.length = rows.length := by
    rw [mapE_length hl, mapE_length hrows]
  unfold CV.blockFrame
  simp only [hl, hrows, hp, Py.bind_ok]
  refine ⟨fun h => ?_, fun proba h hq hbad => ?_⟩
  · rw [if_pos (by rwa [hlen])]
    rfl
  · rw [if_neg (by rw [hlen]; exact not_not.2 h)]
    simp only [pure_bind, hq, Py.bind_ok]
    rw [mapE_error_all CV.rowMax .valueError proba]
    · rfl
    · intro r _ e' he
      unfold CV.rowMax at he
      split at he <;> cases he
      rfl
    · exact ⟨[], hbad, .valueError, rfl⟩

/-- A model that answers every row with a class and no probabilities. -/
private def mute : CV.Learner Unit ℕ ℕ ℕ ℚ :=
  ⟨fun s _ _ => .ok s, fun _ r => .ok (r.map fun _ => 1), fun _ r => .ok (r.map fun _ => [])⟩

example : CV.blockFrame mute () [10, 20, 30] [1, 2, 3] ([] : List (ℤ × ℕ)) [0, 1] (0, 2) = .error .valueError :=
  (C106_path_answers mute () [10, 20, 30] [1, 2, 3] [] rfl [0, 1] (by decide) (0, 2) [1, 2] rfl [1, 1] rfl).2 [[], []] rfl rfl (by simp)

/-- C106: the labeler is constructed unless metalabeling is asked for without the name of a side column (`AssertionError`),
and refuses frames without the columns it needs (`AssertionError`). -/
theorem C106_labeling (dv : List ℤ → List (XF K) → List (XF K)) (c : Lab.Cfg K) (f : Lab.Frame K) :
    (Lab.construct c = if c.metalabeling = true ∧ c.sideName = "" then .error .assertionError else .ok c) ∧
    ((c.closeName ∉ f.cols.map (·.1) ∨ (c.metalabeling = true ∧ c.sideName ∉ f.cols.map (·.1))) →
      Lab.transform dv c f = .error .assertionError) := by
  refine ⟨?_, ?_⟩
  · unfold Lab.construct
    by_cases h1 : c.metalabeling = true <;> by_cases h2 : c.sideName = "" <;> simp [h1, h2]
  · intro h
    have hhas : ∀ n, n ∉ f.cols.map (·.1) → f.has n = false := by
      intro n hn
      unfold Lab.Frame.has
      rw [List.any_eq_false]
      intro q hq
      simp only [beq_iff_eq]
      exact fun he => hn (he ▸ List.mem_map.2 ⟨q, hq, rfl⟩)
    have : Lab.checkInput c f = .error .assertionError := by
      unfold Lab.checkInput
      rcases h with h | ⟨h1, h2⟩
      · rw [hhas _ h]
        split <;> simp
      · rw [if_pos h1, hhas _ h2]
        simp
    unfold Lab.transform
    rw [this]

/-- C106: a docstring with more than one group of optional arguments: `ValueError` (names, pieces without brackets). -/
theorem C106_docstring (name a b d : String) (more : List String) (hn : ∀ ch ∈ name.toList, ch ≠ '(')
    (ha : ∀ x ∈ a :: b :: d :: more, ∀ ch ∈ x.toList, ch ≠ '[' ∧ ch ≠ '\n') :
    TA.getArgsKwargs (name ++ "(" ++ "[, ".intercalate (a :: b :: d :: more) ++ ")") = .error .valueError := by
  have e : "[, ".toList = ['[', ',', ' '] := by decide
  set l := (a :: b :: d :: more).map String.toList with hl
  have hdoc : (name ++ "(" ++ "[, ".intercalate (a :: b :: d :: more) ++ ")").toList =
      name.toList ++ '(' :: (['[', ',', ' '].intercalate l ++ ')' :: []) := by
    simp [String.toList_append, String.toList_intercalate, e, hl]
  unfold TA.getArgsKwargs
  rw [hdoc, TA.searchParen_of _ _ _ hn _ _ (Or.inl rfl)]
  · simp only [e]
    rw [TA.pySplit_intercalate _ _ _ (by simp [hl])]
    · simp [hl]
    · intro x hx hc
      obtain ⟨y, hy, rfl⟩ := List.mem_map.1 hx
      exact (ha y hy _ hc).1 rfl
  · intro he
    rw [hl, List.map_cons, List.map_cons, TA.intercalate_cons_cons] at he
    simp at he
  · intro ch hc
    rcases TA.mem_intercalate _ _ _ hc with h | ⟨x, hx, h⟩
    · simp only [List.mem_cons, List.not_mem_nil, or_false] at h
      rcases h with rfl | rfl | rfl <;> decide
    · obtain ⟨y, hy, rfl⟩ := List.mem_map.1 hx
      exact (ha y hy ch h).2

/-- C62: the factory gives, for each of its four keys, the z-score of the named series; other keys raise `KeyError`. -/
theorem C62_factory (w : ℤ) (f : Frame ℝ) :
    Feat.zScoreFactory "bar_arrival_time" w f = Feat.zScore w (pdDiff (f.index.map fun t : ℤ => (.fin (t : ℝ) : XF ℝ))) ∧
    (∀ b s, f.attr "quote_asset_buy_volume" = .ok b → f.attr "quote_asset_sell_volume" = .ok s →
      Feat.zScoreFactory "buy_sell_diff" w f = Feat.zScore w (List.zipWith XF.sub b s)) ∧
    (∀ b n, f.attr "quote_asset_buy_volume" = .ok b → f.attr "num_buy_ticks" = .ok n →
      Feat.zScoreFactory "average_buy_size" w f = Feat.zScore w (List.zipWith XF.div b n)) ∧
    (∀ h l, f.attr "high" = .ok h → f.attr "low" = .ok l →
      Feat.zScoreFactory "high_to_low_ratio" w f = Feat.zScore w (List.zipWith XF.div h l)) ∧
    ∀ key, key ∉ ["bar_arrival_time", "buy_sell_diff", "average_buy_size", "high_to_low_ratio"] →
      Feat.zScoreFactory key w f = .error .keyError := by
  refine ⟨?_, ?_, ?_, ?_, ?_⟩
  · unfold Feat.zScoreFactory Feat.zScoreTypes Feat.zScoreTransform Feat.barArrivalTime
    rw [if_pos rfl]
    simp only [Py.bind_ok]
  · intro b s hb hs
    unfold Feat.zScoreFactory Feat.zScoreTypes Feat.zScoreTransform Feat.buySellDiff
    rw [if_neg (by decide), if_pos rfl]
    simp only [hb, hs, Py.bind_ok]
  · intro b s hb hs
    unfold Feat.zScoreFactory Feat.zScoreTypes Feat.zScoreTransform Feat.averageBuySize
    rw [if_neg (by decide), if_neg (by decide), if_pos rfl]
    simp only [hb, hs, Py.bind_ok]
  · intro b s hb hs
    unfold Feat.zScoreFactory Feat.zScoreTypes Feat.zScoreTransform Feat.highToLowRatio
    rw [if_neg (by decide), if_neg (by decide), if_neg (by decide), if_pos rfl]
    simp only [hb, hs, Py.bind_ok]
  · intro key hk
    simp only [List.mem_cons, List.not_mem_nil, or_false, not_or] at hk
    unfold Feat.zScoreFactory Feat.zScoreTypes
    rw [if_neg hk.1, if_neg hk.2.1, if_neg hk.2.2.1, if_neg hk.2.2.2]

example : Union.transform (K := ℚ) [fun _ => .ok [[.fin 1]], fun _ => .ok [[.fin 1], [.fin 2]]]
    ⟨["x"], [(10, [.fin 3]), (20, [.fin 4])]⟩ = .error .valueError := by decide +kernel

example : TA.getArgsKwargs "F(real[, timeperiod=?[, matype=?])" = .error .valueError := by decide +kernel

example : Bet.transform ⟨2, false, true, false, none, "bet_size", "end"⟩ ⟨[1], some [.fin (3/5)], some [.fin 1], none, none⟩ =
    .error .keyError := (((C106_bet_sizing _ _).2 _ _ rfl rfl).2 (by decide)).1 rfl rfl

example : Bet.transform ⟨2, false, true, false, none, "bet_size", "end"⟩
      ⟨[1], some [.fin (3/5)], some [.fin 1], some [.fin 2], none⟩ = .error .assertionError :=
  (((C106_bet_sizing _ _).2 _ _ rfl rfl).2 (by decide)).2.1 _ rfl rfl ⟨.fin 2, by simp, by simp; norm_num⟩

example : Bet.transform ⟨2, true, false, false, none, "bet_size", "end"⟩ ⟨[1], some [.fin (3/5)], some [.fin 1], none, none⟩ =
    .error .keyError := (((C106_bet_sizing _ _).2 _ _ rfl rfl).2 (by decide)).2.2 (by simp) rfl rfl

/-- A step of 1. -/
example : Bet.construct ⟨2, false, false, true, some 1, "bet_size", "end"⟩ = .error .assertionError := by
  rw [(C106_bet_construction _ [] 0).1, if_pos (by simp)]

example : Lab.construct (K := ℚ) ⟨10, 1, 1, true, "close", "", true, true⟩ = .error .assertionError ∧
    (Lab.construct (K := ℚ) ⟨10, 1, 1, true, "close", "side", true, true⟩).isOk ∧
    Lab.transform (fun _ _ => []) (K := ℚ) ⟨10, 1, 1, true, "close", "side", true, true⟩ ⟨[1], [("close", [.fin 1])]⟩ =
      .error .assertionError := ⟨rfl, rfl, by decide +kernel⟩

/-- A label after the last bar. -/
example : Pipe.datasetPrimary (K := ℚ) ⟨"", [], [("bars", none)], [], ⟨true, [], fun _ => .ok [], fun _ => .ok []⟩, none, false,
      false, none⟩ [("bars", ⟨["a"], [(10, [.fin 1])]⟩)] [(10, .fin 1), (20, .fin 0)] true = .error .keyError := by
  decide +kernel

/-- An infinite feature of a labelled bar. -/
example : Pipe.datasetPrimary (K := ℚ) ⟨"", [], [("bars", none)], [], ⟨true, [], fun _ => .ok [], fun _ => .ok []⟩, none, false,
      false, none⟩ [("bars", ⟨["a"], [(10, [.fin 1]), (20, [.pinf])]⟩)] [(10, .fin 1), (20, .fin 0)] true = .error .valueError :=
  (C106_dataset_values _ _ _ ⟨[("bars", ⟨["a"], [(10, [.fin 1]), (20, [.pinf])]⟩)], []⟩ (by simp) (by decide +kernel)
    [⟨["a"], [(10, [.fin 1]), (20, [.pinf])]⟩] (by decide +kernel) ⟨["a"], [(10, [.fin 1]), (20, [.pinf])]⟩ (by decide +kernel)
    [(10, .fin 1), (20, .fin 0)] (by decide +kernel) (.inr (.inr ⟨(20, [.pinf]), by decide +kernel, by simp⟩))).1

/-- A metalabeling model that is not fitted. -/
example : Pipe.predictProba (K := ℚ) ⟨"", [], [("bars", none)], [], ⟨true, [1], fun _ => .ok [.fin 1], fun _ => .ok [[.fin 1]]⟩,
      some ⟨false, [0, 1], fun _ => .ok [], fun _ => .ok []⟩, false, false, none⟩ [("bars", ⟨["a"], [(10, [.fin 1])]⟩)] =
    .error .valueError :=
  (C106_unfitted _ _ _ rfl rfl).2 ⟨[("bars", ⟨["a"], [(10, [.fin 1])]⟩)], []⟩ ⟨["a"], [(10, [.fin 1])]⟩ [[.fin 1]]
    [(10, [.fin 1])] (by decide +kernel) (by decide +kernel) rfl (by decide +kernel)

end Mizar.Props
