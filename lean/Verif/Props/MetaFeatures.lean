import Verif.Lemmas.Pipeline
import Verif.Spec.MetaFeatures

/-!
Property theorems C105: what the metalabeling model of `StrategySignalPipeline` is given and what is returned of it
(`/repo/mizarlabs/model/pipeline.py`).
-/

set_option linter.unusedSectionVars false

namespace Mizar.Props
open Mizar.Spec Mizar.Pipe
variable {K : Type} [Field K] [LinearOrder K]

theorem complete_iff (r : List (XF K)) : complete r = true ↔ ∀ x ∈ r, x.isNan = false := by
  unfold complete
  rw [List.all_eq_true]
  simp

theorem mem_dropna (f : Frame K) (t : ℤ) (a : List (XF K)) :
    (t, a) ∈ f.dropna.rows ↔ (t, a) ∈ f.rows ∧ ∀ x ∈ a, x.isNan = false := by
  unfold Frame.dropna
  rw [List.mem_filter, complete_iff]

theorem find_of_mem {β : Type} (p : List (ℤ × β)) (h : (p.map (·.1)).Nodup) (t : ℤ) (b : β) (hm : (t, b) ∈ p) :
    (p.find? fun q => decide (q.1 = t)) = some (t, b) := by
  induction p with
  | nil => simp at hm
  | cons q l ih =>
    rw [List.map_cons, List.nodup_cons] at h
    rw [List.find?_cons]
    rcases List.mem_cons.1 hm with rfl | hm
    · simp
    · have : q.1 ≠ t := fun hq => h.1 (hq ▸ List.mem_map.2 ⟨_, hm, rfl⟩)
      simp only [this, decide_false]
      exact ih h.2 hm

/-- The frame with the side column. -/
theorem mem_addPrediction (f : Frame K) (hfc : ∀ q ∈ f.rows, ∀ x ∈ q.2, x.isNan = false) (s : Ser K) (hs : (s.map (·.1)).Nodup) (t : ℤ) (r : List (XF K)) :
    ((t, r) ∈ (addPrediction f s).rows ∧ ∀ x ∈ r, x.isNan = false) ↔
      ∃ a v, (t, a) ∈ f.rows ∧ (∀ x ∈ a, x.isNan = false) ∧ (t, v) ∈ s ∧ v.isNan = false ∧
        r = putCell f.cols "primary_side_pred" a v := by
  unfold addPrediction
  constructor
  · rintro ⟨hr, hc⟩
    obtain ⟨⟨t', a⟩, ha, he⟩ := List.mem_map.1 hr
    simp only [Prod.mk.injEq] at he
    obtain ⟨rfl, rfl⟩ := he
    have hv := hc (serAt s t') (mem_putCell_self _ _ _ _)
    refine ⟨a, serAt s t', ha, hfc _ ha, ?_, hv, rfl⟩
    rcases serAt_valueAt s hs t' with h | h
    · exact h
    · rw [h.2] at hv; simp [XF.isNan] at hv
  · rintro ⟨a, v, ha, hac, hv, hvc, rfl⟩
    refine ⟨List.mem_map.2 ⟨(t, a), ha, by rw [serAt_of_mem s hs t v hv]⟩, ?_⟩
    intro x hx
    rcases mem_putCell hx with hx | hx
    · exact hac x hx
    · rw [hx]; exact hvc

theorem isSided_iff (cols : List String) (a : List (XF K)) (v : XF K) (b : List (XF K)) :
    IsSided cols a v b ↔ b = putCell cols "primary_side_pred" a v := by
  unfold IsSided putCell
  by_cases h : "primary_side_pred" ∈ cols
  · simp [h]
  · simp [h]

/-- The frame with the probability columns. -/
theorem mem_joinProba (f : Frame K) (n : ℕ) (p : List (ℤ × List (XF K))) (hp : (p.map (·.1)).Nodup) (t : ℤ) (r : List (XF K)) :
    (t, r) ∈ (joinProba f n p).rows ↔ ∃ a q, (t, a) ∈ f.rows ∧ (t, q) ∈ p ∧ r = a ++ q := by
  unfold joinProba
  simp only [List.mem_filterMap, Option.map_eq_some_iff, Prod.mk.injEq]
  constructor
  · rintro ⟨⟨t', a⟩, ha, ⟨t'', q⟩, hq, rfl, rfl⟩
    have h1 := List.mem_of_find?_eq_some hq
    have h2 : t'' = t' := by simpa using List.find?_some hq
    exact ⟨a, q, ha, h2 ▸ h1, rfl⟩
  · rintro ⟨a, q, ha, hq, rfl⟩
    exact ⟨(t, a), ha, (t, q), find_of_mem p hp t q hq, rfl, rfl⟩

/-- What `_get_features_for_metalabeling` returns, given the predictions of the primary model on the same frame. -/
theorem metaFeatures_spec {c : Cfg K} {Xp Xm : Frame K} {F : Features K} (hXp : Xp.index.Nodup)
    (h : metaFeatures c Xp F = .ok Xm) (sides : Ser K) (probs : List (ℤ × List (XF K)))
    (hs : c.usePredictions = true → ∃ v, c.primary.predict Xp = .ok v ∧ mkSeries Xp.index v = .ok sides)
    (hq : c.useProba = true → ∃ v, c.primary.proba Xp = .ok v ∧ mkRows Xp.index c.primary.classes.length v = .ok probs) :
    ∃ fm, concatOuter (F.metal.map (·.2)) = .ok fm ∧
      Xm.cols = metaColumns c.usePredictions c.useProba c.primary.classes.length fm.cols ∧
      ∀ t r, (t, r) ∈ Xm.rows ↔ IsMetaRow c.usePredictions c.useProba fm.cols fm.rows sides probs t r := by
  obtain ⟨f, f1, f2, hf, h1, h1', h2, h2', rfl, hc⟩ := metaFeatures_ok h
  refine ⟨f, hf, ?_⟩
  have hdc : f.dropna.cols = f.cols := rfl
  -- the frame with the side column
  have k1 : f1.cols = f.cols ++ (if c.usePredictions ∧ "primary_side_pred" ∉ f.cols then ["primary_side_pred"] else []) ∧
      ∀ t b, ((t, b) ∈ f1.rows ∧ ∀ x ∈ b, x.isNan = false) ↔
        ∃ a, (t, a) ∈ f.rows ∧ (∀ x ∈ a, x.isNan = false) ∧
          (if c.usePredictions then ∃ s, (t, s) ∈ sides ∧ s.isNan = false ∧ IsSided f.cols a s b else b = a) := by
    cases hu : c.usePredictions with
    | true =>
      obtain ⟨v, s, hv, hvs, rfl⟩ := h1 hu
      obtain ⟨v', hv', hvs'⟩ := hs hu
      rw [hv, Except.ok.injEq] at hv'
      subst hv'
      rw [hvs, Except.ok.injEq] at hvs'
      subst hvs'
      refine ⟨?_, ?_⟩
      · unfold addPrediction
        by_cases hm : "primary_side_pred" ∈ f.cols
        · simp [hm, hdc]
        · simp [hm, hdc]
      intro t b
      have hn : (s.map (·.1)).Nodup := by rw [(mkSeries_ok hvs).2.2]; exact hXp
      rw [mem_addPrediction _ (fun q hq => ((mem_dropna f q.1 q.2).1 hq).2) _ hn]
      constructor
      · rintro ⟨a, v, ha, hac, hv, hvc, rfl⟩
        exact ⟨a, ((mem_dropna f t a).1 ha).1, hac, by rw [if_pos rfl]; exact ⟨v, hv, hvc, (isSided_iff _ _ _ _).2 rfl⟩⟩
      · rintro ⟨a, ha, hac, hsd⟩
        simp only [if_true] at hsd
        obtain ⟨v, hv, hvc, hsd⟩ := hsd
        exact ⟨a, v, (mem_dropna f t a).2 ⟨ha, hac⟩, hac, hv, hvc, (isSided_iff _ _ _ _).1 hsd⟩
    | false =>
      rw [h1' hu]
      refine ⟨by simp [hdc], ?_⟩
      intro t b
      rw [mem_dropna]
      constructor
      · rintro ⟨⟨ha, hac⟩, -⟩
        exact ⟨b, ha, hac, by simp⟩
      · rintro ⟨a, ha, hac, hsd⟩
        simp only [Bool.false_eq_true, if_false] at hsd
        subst hsd
        exact ⟨⟨ha, hac⟩, hac⟩
  cases hu : c.useProba with
  | true =>
    obtain ⟨v, p, hv, hvp, rfl⟩ := h2 hu
    obtain ⟨v', hv', hvp'⟩ := hq hu
    rw [hv, Except.ok.injEq] at hv'
    subst hv'
    rw [hvp, Except.ok.injEq] at hvp'
    subst hvp'
    have hn : (p.map (·.1)).Nodup := by rw [(mkRows_ok hvp).2.1]; exact hXp
    refine ⟨?_, ?_⟩
    · unfold metaColumns joinProba
      dsimp only
      rw [k1.1, if_pos rfl]
      rfl
    · intro t r
      unfold IsMetaRow
      constructor
      · intro hr
        have hcr := (complete_iff r).1 (hc _ hr)
        obtain ⟨a, q, ha, hq', rfl⟩ := (mem_joinProba _ _ _ hn t r).1 hr
        obtain ⟨b, hb, hbc, hsd⟩ := (k1.2 t a).1 ⟨ha, fun x hx => hcr x (by simp [hx])⟩
        exact ⟨b, a, q, hb, hbc, hsd, by simpa using ⟨hq', fun x hx => hcr x (by simp [hx])⟩, rfl⟩
      · rintro ⟨b, a, q, hb, hbc, hsd, hq', rfl⟩
        simp only [if_true] at hq'
        have := (k1.2 t a).2 ⟨b, hb, hbc, hsd⟩
        exact (mem_joinProba _ _ _ hn t _).2 ⟨a, q, this.1, hq'.1, rfl⟩
  | false =>
    have e := h2' hu
    subst e
    refine ⟨?_, ?_⟩
    · unfold metaColumns
      rw [k1.1]
      simp
    · intro t r
      unfold IsMetaRow
      constructor
      · intro hr
        obtain ⟨b, hb, hbc, hsd⟩ := (k1.2 t r).1 ⟨hr, (complete_iff r).1 (hc _ hr)⟩
        exact ⟨b, r, [], hb, hbc, hsd, by simp, by simp⟩
      · rintro ⟨b, a, q, hb, hbc, hsd, hq', rfl⟩
        simp only [Bool.false_eq_true, if_false] at hq'
        subst hq'
        rw [List.append_nil]
        exact ((k1.2 t a).2 ⟨b, hb, hbc, hsd⟩).1

/-- C105: `predict` and `predict_proba` call a metalabeling model with one and the same frame: its own features, then the
side and the class probabilities that the primary model gives for the same row; they return the answers of the model for the
rows of this frame.  Without a metalabeling model they return none. -/
theorem C105_metalabels (c : Cfg K) (X : Dict K) (pred : Predictions K) (proba : Probas K)
    (hX : ∀ p ∈ X, p.2.index.Nodup)
    (hT : ∀ p ∈ c.trPrimary ++ c.trMeta, ∀ tr, p.2 = some tr → ∀ f g : Frame K, f.index.Nodup → tr f = .ok g → g.index.Nodup)
    (hp : predict c X = .ok pred) (hq : predictProba c X = .ok proba) :
    (c.metaModel = none → pred.metal = none ∧ proba.metal = none) ∧
    ∀ m, c.metaModel = some m → m.fitted = true ∧ ∃ F fm Xm w q,
      features c X = .ok F ∧ concatOuter (F.metal.map (·.2)) = .ok fm ∧
      Xm.cols = metaColumns c.usePredictions c.useProba c.primary.classes.length fm.cols ∧
      (∀ t r, (t, r) ∈ Xm.rows ↔ IsMetaRow c.usePredictions c.useProba fm.cols fm.rows pred.primary proba.primary t r) ∧
      Xm.index.Nodup ∧
      m.predict Xm = .ok w ∧ w.length = Xm.rows.length ∧ pred.metal = some (Xm.index.zip w) ∧
      m.proba Xm = .ok q ∧ q.length = Xm.rows.length ∧ proba.metal = some (Xm.index.zip q) := by
  have hTp : UniqueTr c.trPrimary := fun p hp => hT p (by simp [hp])
  have hTm : UniqueTr c.trMeta := fun p hp => hT p (by simp [hp])
  unfold predictProba at hq
  simp only [Py.bind_eq_ok, Except.ok.injEq] at hq
  obtain ⟨F, hF, Xp, hXp, v, hv, p, hp', pm, hpm, rfl⟩ := hq
  unfold predict at hp
  split at hp
  · simp at hp
  · rename_i hfit
    cases hl : X.lookup c.alignOn with
    | none => simp [hl] at hp
    | some target =>
      simp only [hl, Py.bind_eq_ok, Except.ok.injEq] at hp
      obtain ⟨_, -, F', hF', Xp', hXp', v', hv', s, hs, sm, hsm, rfl⟩ := hp
      rw [hF, Except.ok.injEq] at hF'
      subst hF'
      rw [hXp, Except.ok.injEq] at hXp'
      subst hXp'
      have hu := features_unique hF hX hTp hTm
      have hXpn : Xp.index.Nodup := primaryFrame_unique hu.1 hXp
      unfold predictMeta at hsm
      unfold probaMeta at hpm
      refine ⟨?_, ?_⟩
      · intro hm
        simp only [hm, Except.ok.injEq] at hsm hpm
        exact ⟨hsm.symm, hpm.symm⟩
      · intro m hm
        simp only [hm] at hsm hpm
        have hmf : m.fitted = true := by
          unfold metaFitted at hfit
          simpa [hm] using hfit
        refine ⟨hmf, ?_⟩
        rw [if_neg (by simp [hmf])] at hpm
        simp only [Py.bind_eq_ok, Except.ok.injEq] at hsm hpm
        obtain ⟨Xm, hXm, w, hw, sw, hsw, rfl⟩ := hsm
        obtain ⟨Xm', hXm', q, hq, sq, hsq, rfl⟩ := hpm
        rw [hXm, Except.ok.injEq] at hXm'
        subst hXm'
        obtain ⟨fm, hfm, hcols, hrows⟩ := metaFeatures_spec hXpn hXm s p (fun _ => ⟨v', hv', hs⟩) (fun _ => ⟨v, hv, hp'⟩)
        have hlen : Xm.index.length = Xm.rows.length := List.length_map _
        refine ⟨F, fm, Xm, w, q, hF, hfm, hcols, hrows, metaFeatures_unique hu.2 hXm, hw, ?_, ?_, hq, ?_, ?_⟩
        · rw [← hlen]; exact (mkSeries_ok hsw).2.1
        · simp only [(mkSeries_ok hsw).1]
        · unfold mkRows at hsq
          split at hsq
          · rename_i h; rw [← hlen]; exact h.1
          · simp at hsq
        · simp only [(mkRows_ok hsq).1]

/-- C105 (training): the metalabeling data set has the same columns, and its rows are the own features with the side and
the probabilities that the primary model gives for the rows of the primary data set. -/
theorem C105_training (c : Cfg K) (X : Dict K) (y : Ser K) (Xo : Frame K) (yo : Ser K) (hy : (y.map (·.1)).Nodup)
    (h : datasetMeta c X y = .ok (Xo, yo)) :
    ∃ F fm Xp yp sides probs, features c X = .ok F ∧ concatOuter (F.metal.map (·.2)) = .ok fm ∧
      datasetPrimary c X y true = .ok (Xp, yp) ∧
      (c.usePredictions = true → ∃ v, c.primary.predict Xp = .ok v ∧ sides = Xp.index.zip v) ∧
      (c.useProba = true → ∃ v, c.primary.proba Xp = .ok v ∧ probs = Xp.index.zip v) ∧
      Xo.cols = metaColumns c.usePredictions c.useProba c.primary.classes.length fm.cols ∧
      (∀ t, t ∈ Xo.index ↔ t ∈ Xp.index ∧ ∃ r, IsMetaRow c.usePredictions c.useProba fm.cols fm.rows sides probs t r) ∧
      ∀ t ∈ Xo.index, ∃ r, Xo.row? t = some r ∧
        IsMetaRow c.usePredictions c.useProba fm.cols fm.rows sides probs t r := by
  unfold datasetMeta at h
  split at h
  · simp at h
  · rename_i hlab
    simp only [Py.bind_eq_ok, Except.ok.injEq, Prod.mk.injEq] at h
    obtain ⟨F, hF, ⟨Xp, yp⟩, hXy, Xm, hXm, ps, hps, s, hs, Xo', hXo, yo', hyo, rfl, rfl⟩ := h
    have hprim : datasetPrimary c X y true = .ok (Xp, yp) := by
      unfold datasetPrimary
      rw [if_neg hlab, hF]
      exact hXy
    obtain ⟨e1, -, -, -, -, h6⟩ := alignXy_ok hXy
    have hXpn : Xp.index.Nodup := by
      rw [h6]
      exact (hy.sublist (List.filter_sublist.map _)).sublist List.filter_sublist
    have hmf := metaFeatures_ok hXm
    obtain ⟨f, f1, f2, hf, a1, -, a2, -, -, -⟩ := hmf
    obtain ⟨sides, hsides⟩ : ∃ sides : Ser K, c.usePredictions = true →
        ∃ v, c.primary.predict Xp = .ok v ∧ mkSeries Xp.index v = .ok sides := by
      cases hu : c.usePredictions with
      | true =>
        obtain ⟨v, s', hv, hvs, -⟩ := a1 hu
        exact ⟨s', fun _ => ⟨v, hv, hvs⟩⟩
      | false => exact ⟨[], fun h => by simp at h⟩
    obtain ⟨probs, hprobs⟩ : ∃ probs : List (ℤ × List (XF K)), c.useProba = true →
        ∃ v, c.primary.proba Xp = .ok v ∧ mkRows Xp.index c.primary.classes.length v = .ok probs := by
      cases hu : c.useProba with
      | true =>
        obtain ⟨v, s', hv, hvs, -⟩ := a2 hu
        exact ⟨s', fun _ => ⟨v, hv, hvs⟩⟩
      | false => exact ⟨[], fun h => by simp at h⟩
    obtain ⟨fm, hfm, hcols, hrows⟩ := metaFeatures_spec hXpn hXm sides probs hsides hprobs
    have hx := locRows_ok hXo
    refine ⟨F, fm, Xp, yp, sides, probs, hF, hfm, hprim, ?_, ?_, by rw [hx.1, hcols], ?_, ?_⟩
    · intro hu
      obtain ⟨v, hv, hvs⟩ := hsides hu
      exact ⟨v, hv, (mkSeries_ok hvs).1⟩
    · intro hu
      obtain ⟨v, hv, hvs⟩ := hprobs hu
      exact ⟨v, hv, (mkRows_ok hvs).1⟩
    · intro t
      have hym : (List.zipWith (fun (p l : ℤ × XF K) => (l.1, if XF.beq p.2 l.2 then XF.fin (1 : K) else .fin 0)) s yp).map (·.1) =
          Xp.index := by
        rw [e1, List.map_zipWith]
        have hl : s.length = yp.length := by
          have := congrArg List.length (mkSeries_ok hs).2.2
          simpa using this
        apply List.ext_getElem
        · simp [hl]
        · intro i h1 h2
          simp
      rw [hx.2.1, List.mem_filter, decide_eq_true_eq, hym]
      constructor
      · rintro ⟨a, b⟩
        obtain ⟨⟨t', r⟩, hr, rfl⟩ := List.mem_map.1 a
        exact ⟨b, r, (hrows _ _).1 hr⟩
      · rintro ⟨b, r, hr⟩
        exact ⟨List.mem_map.2 ⟨(t, r), (hrows _ _).2 hr, rfl⟩, b⟩
    · intro t ht
      rw [hx.2.1] at ht
      obtain ⟨hn, he⟩ := hx.2.2 t ht
      cases hr : Xm.row? t with
      | none => exact absurd hr hn
      | some r =>
        refine ⟨r, by rw [he, hr], ?_⟩
        unfold Frame.row? at hr
        rw [Option.map_eq_some_iff] at hr
        obtain ⟨q, hq, rfl⟩ := hr
        have h1 := List.mem_of_find?_eq_some hq
        have h2 : q.1 = t := by simpa using List.find?_some hq
        rw [← hrows]
        rw [← h2]
        exact h1

/-! Two frames, a warm-up row, a missing label: side and probabilities of the primary model are features. -/

section Examples

private def mfClf : Clf ℚ where
  fitted := true
  classes := [-1, 1]
  predict f := .ok (f.rows.map fun r => XF.sign (r.2.headD .nan))
  proba f := .ok (f.rows.map fun r => if XF.lt (.fin 0) (r.2.headD .nan) then [.fin (1/4), .fin (3/4)] else [.fin (3/4), .fin (1/4)])

private def mfMeta : Clf ℚ where
  fitted := true
  classes := [0, 1]
  predict f := .ok (f.rows.map fun r => r.2.getLastD .nan)
  proba f := .ok (f.rows.map fun r => [.fin 0, r.2.getLastD .nan])

private def mfCfg : Cfg ℚ where
  alignOn := "bars"
  alignHow := [("ticks", "mean")]
  trPrimary := [("bars", none), ("ticks", none)]
  trMeta := [("bars", none)]
  primary := mfClf
  metaModel := some mfMeta
  useProba := true
  usePredictions := true
  betSizer := none

private def mfData : Dict ℚ :=
  [("bars", ⟨["a"], [(10, [.fin 1]), (20, [.fin (-2)]), (30, [.fin 3]), (40, [.fin 5])]⟩),
   ("ticks", ⟨["b"], [(15, [.fin 1]), (17, [.fin 2]), (29, [.fin 4])]⟩)]

example : (match predict mfCfg mfData with
    | .ok r => some (r.primary, r.metal)
    | .error _ => none) = some ([(20, .fin (-1)), (30, .fin 1), (40, .fin 1)],
      some [(20, .fin (1/4)), (30, .fin (3/4)), (40, .fin (3/4))]) := by
  decide +kernel

example : (match predictProba mfCfg mfData with
    | .ok r => r.metal
    | .error _ => none) = some [(20, [.fin 0, .fin (1/4)]), (30, [.fin 0, .fin (3/4)]), (40, [.fin 0, .fin (3/4)])] := by
  decide +kernel

example : datasetMeta mfCfg mfData [(10, .fin 1), (20, .fin 1), (30, .fin 1), (40, .nan)] =
    .ok (⟨["a", "primary_side_pred", "primary_side_pred_proba_0", "primary_side_pred_proba_1"],
      [(20, [.fin (-2), .fin (-1), .fin (3/4), .fin (1/4)]), (30, [.fin 3, .fin 1, .fin (1/4), .fin (3/4)])]⟩,
      [(20, .fin 0), (30, .fin 1)]) := by
  decide +kernel

end Examples

end Mizar.Props
