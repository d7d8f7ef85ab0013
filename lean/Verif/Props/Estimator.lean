import Verif.Model.Estimator
import Verif.Model.TrendScan
import Mathlib.Data.List.Forall2

/-! Property theorems C81: an estimator reports the parameters it was made with, and can be cloned. -/

namespace Mizar.Props
open Mizar.Est

theorem lookup_zip_getElem {V : Type} (ps : List String) (vs : List V) (hn : ps.Nodup) (i : ℕ) (hi : i < ps.length) (hv : i < vs.length) :
    (ps.zip vs).lookup ps[i] = some vs[i] := by
  induction ps generalizing vs i with
  | nil => simp at hi
  | cons p ps ih =>
    cases vs with
    | nil => simp at hv
    | cons v vs =>
      rw [List.nodup_cons] at hn
      cases i with
      | zero => simp
      | succ i =>
        simp only [List.getElem_cons_succ, List.zip_cons_cons]
        have h1 : ps[i]'(by simpa using hi) ≠ p := fun h => hn.1 (h ▸ List.getElem_mem _)
        rw [List.lookup_cons, beq_false_of_ne h1]
        exact ih vs hn.2 i (by simpa using hi) (by simpa using hv)

/-- What the protocol needs of a constructor: distinct parameters, each held by the attribute of the same name. -/
def Keeps (c : ClassDef) : Prop := c.params.Nodup ∧ ∀ p ∈ c.params, c.assign.reverse.lookup p = some p

instance (c : ClassDef) : Decidable (Keeps c) := inferInstanceAs (Decidable (_ ∧ _))

theorem attrs_of_keeps {V : Type} (c : ClassDef) (vs : List V) (h : Keeps c) (hl : vs.length = c.params.length) (i : ℕ) (hi : i < c.params.length) :
    attrs c vs c.params[i] = some (vs[i]'(by omega)) := by
  unfold attrs
  rw [h.2 _ (List.getElem_mem hi)]
  exact lookup_zip_getElem c.params vs h.1 i hi (by omega)

theorem getParams_of_keeps {V : Type} (c : ClassDef) (vs : List V) (h : Keeps c) (hl : vs.length = c.params.length) :
    getParams c (attrs c vs) = .ok vs := by
  unfold getParams
  rw [mapE_eq_ok_iff, List.forall₂_iff_get]
  refine ⟨hl.symm, fun i h1 h2 => ?_⟩
  simp only [List.get_eq_getElem]
  rw [attrs_of_keeps c vs h hl i h1]

/-- A constructor that keeps its parameters: `get_params` gives them back, `clone` gives an object with the same
attributes, `set_params` changes that one parameter. -/
theorem C81_protocol {V : Type} (c : ClassDef) (h : Keeps c) (check : List V → Py Unit) (vs : List V) (hl : vs.length = c.params.length)
    (o : Obj V) (ho : construct c check vs = .ok o) :
    getParams c o = .ok vs ∧ clone c check o = .ok o ∧
    ∀ i (hi : i < c.params.length) v, ∃ o', setParam c o c.params[i] v = .ok o' ∧ getParams c o' = .ok (vs.set i v) := by
  have h1 := ho
  unfold construct at h1
  obtain ⟨u, hc, h2⟩ := Py.bind_eq_ok.1 h1
  cases h2
  have hg := getParams_of_keeps c vs h hl
  refine ⟨hg, ?_, ?_⟩
  · unfold clone
    rw [hg, Py.bind_ok]
    exact ho
  · intro i hi v
    refine ⟨Function.update (attrs c vs) c.params[i] (some v), ?_, ?_⟩
    · unfold setParam
      rw [hg, Py.bind_ok, if_pos (List.getElem_mem hi)]
    · unfold getParams
      rw [mapE_eq_ok_iff, List.forall₂_iff_get]
      refine ⟨by simp [hl], fun j h1 h2 => ?_⟩
      simp only [List.get_eq_getElem]
      by_cases hij : j = i
      · subst hij
        simp
      · have : c.params[j] ≠ c.params[i] := fun he => hij ((List.Nodup.getElem_inj_iff h.1).1 he)
        rw [Function.update_of_ne this, attrs_of_keeps c vs h hl j h1, List.getElem_set_ne (fun h => hij h.symm)]

/-- The estimators that report their parameters. -/
theorem C81_reports_partial (c : ClassDef)
    (hc : c ∈ [localMaxToCloseRatio, rollingZScore, rollMeasure, rollImpact, highLow, kyleLambda, quoteLambda, vpin, baseLabeling,
      trendScanner, buySellImbalance, identityTransformer, baggingClassifier])
    {V : Type} (check : List V → Py Unit) (vs : List V) (hl : vs.length = c.params.length) (o : Obj V) (ho : construct c check vs = .ok o) :
    getParams c o = .ok vs ∧ clone c check o = .ok o ∧
    ∀ i (hi : i < c.params.length) v, ∃ o', setParam c o c.params[i] v = .ok o' ∧ getParams c o' = .ok (vs.set i v) := by
  apply C81_protocol c _ check vs hl o ho
  have : ∀ c ∈ [localMaxToCloseRatio, rollingZScore, rollMeasure, rollImpact, highLow, kyleLambda, quoteLambda, vpin, baseLabeling,
      trendScanner, buySellImbalance, identityTransformer, baggingClassifier], Keeps c := by decide +kernel
  exact this c hc

/-- A parameter that no attribute is named after: nothing can be read, cloned or set, whatever the values. -/
theorem getParams_missing {V : Type} (c : ClassDef) (vs : List V) (p : String) (hp : p ∈ c.params) (hn : c.assign.reverse.lookup p = none) :
    getParams c (attrs c vs) = .error .attributeError := by
  unfold getParams
  have hnone : attrs c vs p = none := by unfold attrs; rw [hn]; rfl
  generalize attrs c vs = o at hnone ⊢
  generalize c.params = l at hp ⊢
  induction l with
  | nil => simp at hp
  | cons q l ih =>
    simp only [mapE]
    cases hq : o q with
    | none => rfl
    | some v =>
      have : p ≠ q := by rintro rfl; rw [hnone] at hq; cases hq
      dsimp only
      rw [ih (by simpa [this] using hp)]

/-- The estimators that do not: sample weights, average uniqueness, the CUSUM filter, the triple barrier labels, the moving
average and MACD strategies and the bet sizer raise `AttributeError` in `get_params`, `clone`, `set_params` (and `repr`). -/
theorem C81_refuted (c : ClassDef)
    (hc : c ∈ [tripleBarrier, weightsByReturns, averageUniqueness, weightsByTimeDecay, cusumFilter, macd, movingAverageCrossOver, betSizing])
    {V : Type} (check : List V → Py Unit) (vs : List V) (o : Obj V) (ho : construct c check vs = .ok o) (name : String) (v : V) :
    getParams c o = .error .attributeError ∧ clone c check o = .error .attributeError ∧
    setParam c o name v = .error .attributeError := by
  have key : ∀ c ∈ [tripleBarrier, weightsByReturns, averageUniqueness, weightsByTimeDecay, cusumFilter, macd, movingAverageCrossOver, betSizing],
      ∃ p ∈ c.params, c.assign.reverse.lookup p = none := by decide +kernel
  obtain ⟨p, hp, hn⟩ := key c hc
  unfold construct at ho
  obtain ⟨u, -, h2⟩ := Py.bind_eq_ok.1 ho
  cases h2
  have hg := getParams_missing c vs p hp hn
  refine ⟨hg, ?_, ?_⟩
  · unfold clone; rw [hg]; rfl
  · unfold setParam; rw [hg]; rfl

/-- Where the constructors of `C81_refuted` put their parameters: the attribute and the position of the parameter. -/
def storedAt : List (ClassDef × List (String × ℕ)) :=
  [(tripleBarrier, [("n_expiration_bars", 0), ("profit_taking_factor", 1), ("stop_loss_factor", 2), ("metalabeling", 3), ("close_column_name", 4),
    ("side_column_name", 5), ("volatility_window", 6), ("volatility_adjusted_horizontal_barriers", 7), ("expiration_label", 8)]),
   (weightsByReturns, [("_event_end_time_column_name", 0), ("_close_column_name", 1)]),
   (averageUniqueness, [("_event_end_time_column_name", 0)]),
   (weightsByTimeDecay, [("_decay_factor", 0), ("_event_end_time_column_name", 1)]),
   (cusumFilter, [("_threshold", 0)]),
   (macd, [("fast_period_", 0), ("slow_period_", 1), ("signal_period_", 2), ("column_name", 3)]),
   (movingAverageCrossOver, [("fast_", 0), ("slow_", 1), ("column_name", 2), ("fill_between_crossovers", 3)]),
   (betSizing, [("_num_classes", 0), ("_average_active", 1), ("_metalabeling", 2), ("_discretise", 3), ("_step_size", 4),
    ("_probability_column_name", 5), ("_prediction_column_name", 6), ("_side_column_name", 7), ("_event_end_time_column_name", 8),
    ("_bet_size_column_name", 9)])]

/-- C81: the estimators that do not report their parameters hold all of them under other names, and a parameter whose name is none of these
cannot be read as an attribute. -/
theorem C81_stored (c : ClassDef) (names : List (String × ℕ)) (hc : (c, names) ∈ storedAt) {V : Type} (check : List V → Py Unit) (vs : List V)
    (hl : vs.length = c.params.length) (o : Obj V) (ho : construct c check vs = .ok o) :
    (∀ a i, (a, i) ∈ names → ∃ h : i < vs.length, o a = some vs[i]) ∧ (∀ i < vs.length, ∃ a, (a, i) ∈ names) ∧
    ∀ p ∈ c.params, p ∉ names.map (·.1) → o p = none := by
  have key : ∀ q ∈ storedAt, q.1.params.Nodup ∧ (∀ x ∈ q.2, ∃ h : x.2 < q.1.params.length, q.1.assign.reverse.lookup x.1 = some q.1.params[x.2]) ∧
      (∀ i < q.1.params.length, ∃ x ∈ q.2, x.2 = i) ∧ ∀ p ∈ q.1.params, p ∉ q.2.map (·.1) → q.1.assign.reverse.lookup p = none := by
    decide +kernel
  obtain ⟨h1, h2, h3, h4⟩ := key _ hc
  unfold construct at ho
  obtain ⟨u, -, h⟩ := Py.bind_eq_ok.1 ho
  cases h
  refine ⟨?_, ?_, ?_⟩
  · intro a i ha
    obtain ⟨hi, he⟩ := h2 _ ha
    refine ⟨by rw [hl]; exact hi, ?_⟩
    unfold attrs
    rw [he]
    exact lookup_zip_getElem c.params vs h1 i hi (by rw [hl]; exact hi)
  · intro i hi
    obtain ⟨x, hx, rfl⟩ := h3 i (by rw [← hl]; exact hi)
    exact ⟨x.1, hx⟩
  · intro p hp hn
    unfold attrs
    rw [h4 p hp hn]
    rfl

/-- Labelling changes a parameter of the trend scanner: made without events, it reports the index of the first series it
labelled. -/
theorem C81_trend_scanner_refuted (em : Brk.ErrModel) (junk : ℕ → ℕ → XF ℝ) (p : Trend.Params) (s : List (ℤ × XF ℝ)) :
    (Trend.transform em junk p none s).1 = some (s.map (·.1)) ∧ (Trend.transform em junk p none s).1 ≠ none := by
  constructor
  · rfl
  · exact Option.some_ne_none _

/-- A Kyle lambda made with window 20 reports it, and a clone with another window reports that one. -/
example : ∃ o, construct kyleLambda (fun _ => .ok ()) ["20", "close", "volume"] = .ok o ∧
    getParams kyleLambda o = .ok ["20", "close", "volume"] := by
  obtain ⟨o, ho⟩ : ∃ o, construct kyleLambda (fun _ => .ok ()) ["20", "close", "volume"] = .ok o := ⟨_, rfl⟩
  exact ⟨o, ho, (C81_reports_partial kyleLambda (by simp) _ ["20", "close", "volume"] rfl o ho).1⟩

/-- A CUSUM filter with threshold 0.01. -/
example : ∃ o, construct cusumFilter (fun _ => .ok ()) ["0.01"] = .ok o ∧ o "_threshold" = some "0.01" ∧
    getParams cusumFilter o = .error .attributeError :=
  ⟨_, rfl, by decide +kernel, (C81_refuted cusumFilter (by simp) (fun _ => .ok ()) ["0.01"] _ rfl "" "").1⟩

/-- Weights by time decay of at least 0.5. -/
example : ∃ o, construct weightsByTimeDecay (fun _ => .ok ()) ["0.5", "event_end_time"] = .ok o ∧ o "_decay_factor" = some "0.5" := by
  obtain ⟨o, ho⟩ : ∃ o, construct weightsByTimeDecay (fun _ => .ok ()) ["0.5", "event_end_time"] = .ok o := ⟨_, rfl⟩
  exact ⟨o, ho, ((C81_stored weightsByTimeDecay [("_decay_factor", 0), ("_event_end_time_column_name", 1)] (by simp [storedAt]) _
    ["0.5", "event_end_time"] rfl o ho).1 "_decay_factor" 0 (by simp)).2⟩

end Mizar.Props
