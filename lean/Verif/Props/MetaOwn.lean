import Verif.Lemmas.OofProba
import Verif.Props.MetaFeatures

/-!
Property theorems C149: the own features of a metalabeling model reach the model
(`/repo/mizarlabs/model/pipeline.py` lines 381-434).
-/

set_option linter.unusedSectionVars false

namespace Mizar.Props
open Mizar.Spec Mizar.Pipe
variable {K : Type} [Field K] [LinearOrder K]

private theorem concat_rect {fs : List (Frame K)} (hwf : ∀ f ∈ fs, f.WF) {g : Frame K} (h : concatOuter fs = .ok g) : g.WF := by
  unfold concatOuter at h
  split at h
  · simp at h
  · simp only [Except.ok.injEq] at h
    subst h
    intro r hr
    obtain ⟨t, -, rfl⟩ := List.mem_map.1 hr
    clear hr
    dsimp only
    induction fs with
    | nil => rfl
    | cons f fs ih =>
      rename_i hne
      rw [List.flatMap_cons, List.flatMap_cons, List.length_append, List.length_append]
      have h1 : ((f.row? t).getD (nanRow f.cols.length)).length = f.cols.length := by
        cases hf : f.row? t with
        | none => simp [nanRow]
        | some r =>
          unfold Frame.row? at hf
          rw [Option.map_eq_some_iff] at hf
          obtain ⟨q, hq, rfl⟩ := hf
          exact hwf f (by simp) q (List.mem_of_find?_eq_some hq)
      rw [h1]
      by_cases he : fs = []
      · subst he; rfl
      · rw [ih (fun f hf => hwf f (by simp [hf])) he]

private theorem sided_get {cols : List String} {a b : List (XF K)} {s : XF K} (hl : a.length = cols.length) (h : IsSided cols a s b) :
    (∀ (k : ℕ) (m : String), cols[k]? = some m → m ≠ "primary_side_pred" → b[k]? = a[k]?) ∧
    ("primary_side_pred" ∈ cols → b[cols.idxOf "primary_side_pred"]? = some s) := by
  obtain ⟨h1, h2⟩ := h
  by_cases hm : "primary_side_pred" ∈ cols
  · have e := h2 hm
    have hi : cols.idxOf "primary_side_pred" < a.length := by rw [hl]; exact List.idxOf_lt_length_of_mem hm
    refine ⟨?_, ?_⟩
    · intro k m hk hne
      have hki : k ≠ cols.idxOf "primary_side_pred" := by
        rintro rfl
        rw [List.getElem?_eq_getElem (by omega), List.getElem_idxOf] at hk
        exact hne (Option.some.inj hk).symm
      rw [e, List.append_assoc]
      rcases Nat.lt_or_gt_of_ne hki with h | h
      · rw [List.getElem?_append_left (by rw [List.length_take]; omega), List.getElem?_take_of_lt h]
      · rw [List.getElem?_append_right (by rw [List.length_take]; omega), List.length_take, Nat.min_eq_left hi.le]
        obtain ⟨j, hj⟩ : ∃ j, k = cols.idxOf "primary_side_pred" + 1 + j := ⟨_, (Nat.add_sub_cancel' h).symm⟩
        rw [show k - cols.idxOf "primary_side_pred" = j + 1 by omega, List.singleton_append, List.getElem?_cons_succ, List.getElem?_drop, hj]
    · intro _
      rw [e, List.append_assoc, List.getElem?_append_right (by rw [List.length_take]; omega), List.length_take, Nat.min_eq_left hi.le]
      simp
  · refine ⟨?_, fun h => absurd h hm⟩
    intro k m hk _
    rw [h1 hm]
    have : k < cols.length := by
      by_contra hc
      rw [List.getElem?_eq_none (by omega)] at hk
      cases hk
    rw [List.getElem?_append_left (by omega)]

private theorem metaRow_get {useSide useProba : Bool} {cols : List String} {own : List (ℤ × List (XF K))}
    {sides : List (ℤ × XF K)} {probs : List (ℤ × List (XF K))} {t : ℤ} {r : List (XF K)}
    (hwf : ∀ q ∈ own, q.2.length = cols.length) (h : IsMetaRow useSide useProba cols own sides probs t r) :
    (∃ a, (t, a) ∈ own ∧ ∀ (k : ℕ) (m : String), cols[k]? = some m → (useSide = true → m ≠ "primary_side_pred") →
      r[k]? = a[k]? ∧ a[k]? ≠ none) ∧
    (useSide = true → "primary_side_pred" ∈ cols → ∃ s, (t, s) ∈ sides ∧ r[cols.idxOf "primary_side_pred"]? = some s) := by
  obtain ⟨a, b, prob, ha, -, hs, -, rfl⟩ := h
  have hl := hwf _ ha
  have hk : ∀ (k : ℕ) (m : String), cols[k]? = some m → k < cols.length := by
    intro k m h
    by_contra hc
    rw [List.getElem?_eq_none (by omega)] at h
    cases h
  cases useSide with
  | false =>
    simp only [Bool.false_eq_true, if_false] at hs
    subst hs
    refine ⟨⟨b, ha, ?_⟩, by simp⟩
    intro k m h _
    have := hk k m h
    refine ⟨by rw [List.getElem?_append_left (by simpa [hl] using this)], ?_⟩
    rw [List.getElem?_eq_getElem (by simpa [hl] using this)]
    simp
  | true =>
    simp only [if_true] at hs
    obtain ⟨s, hs, -, hsd⟩ := hs
    obtain ⟨g1, g2⟩ := sided_get hl hsd
    refine ⟨⟨a, ha, ?_⟩, ?_⟩
    · intro k m h hne
      have hlt := hk k m h
      have e := g1 k m h (hne rfl)
      have hak : a[k]? ≠ none := by
        rw [List.getElem?_eq_getElem (by simpa [hl] using hlt)]
        simp
      refine ⟨?_, hak⟩
      have hb : k < b.length := by
        by_contra hc
        rw [List.getElem?_eq_none (by omega)] at e
        exact hak e.symm
      rw [List.getElem?_append_left hb, e]
    · intro _ hm
      have e := g2 hm
      refine ⟨s, hs, ?_⟩
      have hb : cols.idxOf "primary_side_pred" < b.length := by
        by_contra hc
        rw [List.getElem?_eq_none (by omega)] at e
        cases e
      rw [List.getElem?_append_left hb, e]

private theorem metaColumns_get {useSide useProba : Bool} {n : ℕ} {own : List String} {k : ℕ} {m : String} (h : own[k]? = some m) :
    (metaColumns useSide useProba n own)[k]? = some m := by
  have hk : k < own.length := by
    by_contra hc
    rw [List.getElem?_eq_none (by omega)] at h
    cases h
  unfold metaColumns
  rw [List.append_assoc, List.getElem?_append_left hk, h]

/-- C149 (training): every own feature of the metalabeling model keeps its column, its name and its values in the data set, unless
it is named `primary_side_pred` while the predicted side is a feature. -/
theorem C149_training_partial (c : Cfg K) (X : Dict K) (y : Ser K) (Xo : Frame K) (yo : Ser K) (hy : (y.map (·.1)).Nodup)
    (h : datasetMeta c X y = .ok (Xo, yo)) (F : Features K) (hF : features c X = .ok F) (hwf : ∀ p ∈ F.metal, p.2.WF)
    (fm : Frame K) (hfm : concatOuter (F.metal.map (·.2)) = .ok fm) :
    (∀ (k : ℕ) (m : String), fm.cols[k]? = some m → Xo.cols[k]? = some m) ∧
    ∀ t ∈ Xo.index, ∃ a r, (t, a) ∈ fm.rows ∧ Xo.row? t = some r ∧ ∀ (k : ℕ) (m : String), fm.cols[k]? = some m →
      (c.usePredictions = true → m ≠ "primary_side_pred") → r[k]? = a[k]? ∧ a[k]? ≠ none := by
  obtain ⟨F', fm', Xp, yp, sides, probs, hF', hfm', -, -, -, hcols, -, hrows⟩ := C105_training c X y Xo yo hy h
  rw [hF, Except.ok.injEq] at hF'
  subst hF'
  rw [hfm, Except.ok.injEq] at hfm'
  subst hfm'
  have hw : fm.WF := concat_rect (fun f hf => by obtain ⟨p, hp, rfl⟩ := List.mem_map.1 hf; exact hwf p hp) hfm
  refine ⟨fun k m hk => by rw [hcols]; exact metaColumns_get hk, ?_⟩
  intro t ht
  obtain ⟨r, hr, hm⟩ := hrows t ht
  obtain ⟨⟨a, ha, hk⟩, -⟩ := metaRow_get hw hm
  exact ⟨a, r, ha, hr, hk⟩

/-- C149 (prediction): the same for the frame that the metalabeling model is given by `predict` and `predict_proba`. -/
theorem C149_prediction_partial (c : Cfg K) (X : Dict K) (pred : Predictions K) (proba : Probas K) (m : Clf K) (hmm : c.metaModel = some m)
    (hX : ∀ p ∈ X, p.2.index.Nodup)
    (hT : ∀ p ∈ c.trPrimary ++ c.trMeta, ∀ tr, p.2 = some tr → ∀ f g : Frame K, f.index.Nodup → tr f = .ok g → g.index.Nodup)
    (hp : predict c X = .ok pred) (hq : predictProba c X = .ok proba) (F : Features K) (hF : features c X = .ok F)
    (hwf : ∀ p ∈ F.metal, p.2.WF) (fm : Frame K) (hfm : concatOuter (F.metal.map (·.2)) = .ok fm) :
    ∃ Xm w q, m.predict Xm = .ok w ∧ m.proba Xm = .ok q ∧ pred.metal = some (Xm.index.zip w) ∧ proba.metal = some (Xm.index.zip q) ∧
      (∀ (k : ℕ) (m : String), fm.cols[k]? = some m → Xm.cols[k]? = some m) ∧
      ∀ t r, (t, r) ∈ Xm.rows → ∃ a, (t, a) ∈ fm.rows ∧ ∀ (k : ℕ) (m : String), fm.cols[k]? = some m →
        (c.usePredictions = true → m ≠ "primary_side_pred") → r[k]? = a[k]? ∧ a[k]? ≠ none := by
  obtain ⟨-, F', fm', Xm, w, q, hF', hfm', hcols, hrows, -, hw', -, hpm, hq', -, hqm⟩ := (C105_metalabels c X pred proba hX hT hp hq).2 m hmm
  rw [hF, Except.ok.injEq] at hF'
  subst hF'
  rw [hfm, Except.ok.injEq] at hfm'
  subst hfm'
  have hw : fm.WF := concat_rect (fun f hf => by obtain ⟨p, hp, rfl⟩ := List.mem_map.1 hf; exact hwf p hp) hfm
  refine ⟨Xm, w, q, hw', hq', hpm, hqm, fun k m hk => by rw [hcols]; exact metaColumns_get hk, ?_⟩
  intro t r hr
  exact (metaRow_get hw ((hrows t r).1 hr)).1

/-- C149 is refuted for an own feature named `primary_side_pred`: with the predicted side as a feature the data set holds the side that the
primary model predicts in its place. -/
theorem C149_own_side_refuted (c : Cfg K) (X : Dict K) (y : Ser K) (Xo : Frame K) (yo : Ser K) (hy : (y.map (·.1)).Nodup)
    (h : datasetMeta c X y = .ok (Xo, yo)) (F : Features K) (hF : features c X = .ok F) (hwf : ∀ p ∈ F.metal, p.2.WF)
    (fm : Frame K) (hfm : concatOuter (F.metal.map (·.2)) = .ok fm) (hu : c.usePredictions = true)
    (hm : "primary_side_pred" ∈ fm.cols) :
    ∃ Xp yp v, datasetPrimary c X y true = .ok (Xp, yp) ∧ c.primary.predict Xp = .ok v ∧
      Xo.cols[fm.cols.idxOf "primary_side_pred"]? = some "primary_side_pred" ∧
      ∀ t ∈ Xo.index, ∃ r s, Xo.row? t = some r ∧ (t, s) ∈ Xp.index.zip v ∧ r[fm.cols.idxOf "primary_side_pred"]? = some s := by
  obtain ⟨F', fm', Xp, yp, sides, probs, hF', hfm', hXp, hs, -, hcols, -, hrows⟩ := C105_training c X y Xo yo hy h
  rw [hF, Except.ok.injEq] at hF'
  subst hF'
  rw [hfm, Except.ok.injEq] at hfm'
  subst hfm'
  have hw : fm.WF := concat_rect (fun f hf => by obtain ⟨p, hp, rfl⟩ := List.mem_map.1 hf; exact hwf p hp) hfm
  obtain ⟨v, hv, rfl⟩ := hs hu
  refine ⟨Xp, yp, v, hXp, hv, ?_, ?_⟩
  · rw [hcols]
    refine metaColumns_get ?_
    rw [List.getElem?_eq_getElem (List.idxOf_lt_length_of_mem hm), List.getElem_idxOf]
  · intro t ht
    obtain ⟨r, hr, hmr⟩ := hrows t ht
    obtain ⟨s, hs, hrs⟩ := (metaRow_get hw hmr).2 hu hm
    exact ⟨r, s, hr, hs, hrs⟩

/-- C149 (names): the columns of the data set have different names if the own features have and none of them is named like a probability
of the primary model that is a feature. -/
theorem C149_names (c : Cfg K) (X : Dict K) (y : Ser K) (Xo : Frame K) (yo : Ser K) (hy : (y.map (·.1)).Nodup)
    (h : datasetMeta c X y = .ok (Xo, yo)) (F : Features K) (hF : features c X = .ok F)
    (fm : Frame K) (hfm : concatOuter (F.metal.map (·.2)) = .ok fm) (hn : fm.cols.Nodup) :
    Xo.cols.Nodup ↔ (c.useProba = true → ∀ i < c.primary.classes.length, "primary_side_pred_proba_" ++ toString i ∉ fm.cols) := by
  obtain ⟨F', fm', Xp, yp, sides, probs, hF', hfm', -, -, -, hcols, -, -⟩ := C105_training c X y Xo yo hy h
  rw [hF, Except.ok.injEq] at hF'
  subst hF'
  rw [hfm, Except.ok.injEq] at hfm'
  subst hfm'
  rw [hcols]
  unfold metaColumns
  have hpn : ((List.range c.primary.classes.length).map fun i => "primary_side_pred_proba_" ++ toString i).Nodup :=
    nodup_probaNames c.primary.classes.length
  have hne : ∀ i : ℕ, "primary_side_pred_proba_" ++ toString i ≠ "primary_side_pred" := by
    intro i he
    have := congrArg String.length he
    rw [String.length_append, show "primary_side_pred_proba_".length = 24 by decide, show "primary_side_pred".length = 17 by decide] at this
    omega
  have hA : (fm.cols ++ (if c.usePredictions ∧ "primary_side_pred" ∉ fm.cols then ["primary_side_pred"] else [])).Nodup := by
    split
    · rename_i hc
      rw [List.nodup_append]
      refine ⟨hn, by simp, ?_⟩
      intro x hx z hz
      rw [List.mem_singleton.1 hz]
      rintro rfl
      exact hc.2 hx
    · simpa using hn
  cases hq : c.useProba with
  | false => simpa using hA
  | true =>
    rw [if_pos rfl, List.nodup_append]
    constructor
    · rintro ⟨-, -, h3⟩ - i hi hm
      exact h3 _ (List.mem_append_left _ hm) _ (List.mem_map.2 ⟨i, List.mem_range.2 hi, rfl⟩) rfl
    · intro hno
      refine ⟨hA, hpn, ?_⟩
      intro x hx z hz
      obtain ⟨i, hi, rfl⟩ := List.mem_map.1 hz
      rintro rfl
      rcases List.mem_append.1 hx with hx | hx
      · exact hno rfl i (List.mem_range.1 hi) hx
      · split at hx
        · exact hne i (List.mem_singleton.1 hx)
        · simp at hx

/-! A metalabeling model with two own features, one of them named like the predicted side. -/

section Examples

private def moClf : Clf ℚ where
  fitted := true
  classes := [-1, 1]
  predict f := .ok (f.rows.map fun r => XF.sign (r.2.headD .nan))
  proba f := .ok (f.rows.map fun _ => [.fin (1/4), .fin (3/4)])

private def moCfg : Cfg ℚ where
  alignOn := "bars"
  alignHow := [("other", "mean")]
  trPrimary := [("bars", none)]
  trMeta := [("other", none)]
  primary := moClf
  metaModel := some moClf
  useProba := true
  usePredictions := true
  betSizer := none

private def moData (name : String) : Dict ℚ :=
  [("bars", ⟨["a"], [(10, [.fin 1]), (20, [.fin (-2)])]⟩), ("other", ⟨[name, "b"], [(10, [.fin 7, .fin 5]), (20, [.fin 8, .fin 6])]⟩)]

example : datasetMeta moCfg (moData "x") [(10, .fin 1), (20, .fin 1)] =
    .ok (⟨["x", "b", "primary_side_pred", "primary_side_pred_proba_0", "primary_side_pred_proba_1"],
      [(10, [.fin 7, .fin 5, .fin 1, .fin (1/4), .fin (3/4)]), (20, [.fin 8, .fin 6, .fin (-1), .fin (1/4), .fin (3/4)])]⟩,
      [(10, .fin 1), (20, .fin 0)]) := by
  decide +kernel

/-- The 7 and the 8 are lost. -/
example : datasetMeta moCfg (moData "primary_side_pred") [(10, .fin 1), (20, .fin 1)] =
    .ok (⟨["primary_side_pred", "b", "primary_side_pred_proba_0", "primary_side_pred_proba_1"],
      [(10, [.fin 1, .fin 5, .fin (1/4), .fin (3/4)]), (20, [.fin (-1), .fin 6, .fin (1/4), .fin (3/4)])]⟩,
      [(10, .fin 1), (20, .fin 0)]) := by
  decide +kernel

/-- Two columns of one name. -/
example : (datasetMeta moCfg (moData "primary_side_pred_proba_0") [(10, .fin 1), (20, .fin 1)]).toOption.map
      (fun r => r.1.cols) =
    some ["primary_side_pred_proba_0", "b", "primary_side_pred", "primary_side_pred_proba_0", "primary_side_pred_proba_1"] := by
  decide +kernel

/-- The hypotheses of `C149_prediction_partial`. -/
example : (predict moCfg (moData "x")).toOption.isSome ∧ (predictProba moCfg (moData "x")).toOption.isSome := by
  decide +kernel

end Examples

end Mizar.Props
