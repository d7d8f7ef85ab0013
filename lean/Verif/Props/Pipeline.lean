import Mathlib.Algebra.Order.Ring.Rat
import Mathlib.Data.Rat.Cast.Order
import Verif.Lemmas.Pipeline

/-!
Property theorems C48–C50: side and size, training sets and the closing model of `StrategySignalPipeline`
(`/repo/mizarlabs/model/pipeline.py`).
-/

set_option linter.unusedSectionVars false

namespace Mizar.Props
open Mizar.Spec Mizar.Pipe
variable {K : Type} [Field K] [LinearOrder K]

/-- C48: for data with unique indices (and transformers and a bet sizer that keep them unique) `get_side_and_size`
returns each time at most once, and a row (time, side, size) exactly when the side is the prediction of the primary
model at the time, the size is the size of the time, and none is missing.  The sizes are: without a bet sizer the
largest class probability of the primary model, or with a metalabeling model its probability of class 1; with a bet
sizer its output on the largest probabilities, their classes and (with a metalabeling model) the primary sides. -/
theorem C48_side_and_size (c : Cfg K) (X : Dict K) (res : List (ℤ × XF K × XF K))
    (hX : ∀ p ∈ X, p.2.index.Nodup)
    (hT : ∀ p ∈ c.trPrimary ++ c.trMeta, ∀ tr, p.2 = some tr → ∀ f g : Frame K, f.index.Nodup → tr f = .ok g → g.index.Nodup)
    (hB : ∀ bs, c.betSizer = some bs → ∀ rows out, (rows.map BetRow.time).Nodup → bs rows = .ok out → (out.map (·.1)).Nodup)
    (h : getSideAndSize c X = .ok res) :
    ∃ pred proba size, predict c X = .ok pred ∧ predictProba c X = .ok proba ∧
      (res.map (·.1)).Nodup ∧
      (∀ t s z, (t, s, z) ∈ res ↔ (t, s) ∈ pred.primary ∧ (t, z) ∈ size ∧ s.isNan = false ∧ z.isNan = false) ∧
      (c.metaModel = none → c.betSizer = none → SizeLargest proba.primary size) ∧
      (c.metaModel = none → ∀ bs, c.betSizer = some bs →
        ∃ b, BetInput c.primary.classes none proba.primary b ∧ bs b = .ok size) ∧
      (∀ m, c.metaModel = some m → ∃ rows, proba.metal = some rows ∧
        (c.betSizer = none → SizeSuccess m.classes rows size) ∧
        ∀ bs, c.betSizer = some bs → ∃ b, BetInput m.classes (some pred.primary) rows b ∧ bs b = .ok size) := by
  have hTp : UniqueTr c.trPrimary := fun p hp => hT p (by simp [hp])
  have hTm : UniqueTr c.trMeta := fun p hp => hT p (by simp [hp])
  unfold getSideAndSize at h
  simp only [Py.bind_eq_ok, Except.ok.injEq] at h
  obtain ⟨pred, hpred, proba, hproba, size, hsize, rfl⟩ := h
  unfold signalSize at hsize
  have hside : (pred.primary.map (·.1)).Nodup := by
    unfold predict at hpred
    split at hpred
    · simp at hpred
    · cases hl : X.lookup c.alignOn with
      | none => simp [hl] at hpred
      | some target =>
        simp only [hl, Py.bind_eq_ok, Except.ok.injEq] at hpred
        obtain ⟨_, -, F, hF, Xp, hXp, v, -, s, hs, sm, -, rfl⟩ := hpred
        show (s.map (·.1)).Nodup
        rw [(mkSeries_ok hs).2.2]
        exact primaryFrame_unique (features_unique hF hX hTp hTm).1 hXp
  have hprob : (proba.primary.map (·.1)).Nodup ∧ (∀ m, c.metaModel = some m → ∃ rows, proba.metal = some rows ∧
      (rows.map (·.1)).Nodup ∧ ∀ r ∈ rows, r.2.length = m.classes.length) := by
    unfold predictProba at hproba
    simp only [Py.bind_eq_ok, Except.ok.injEq] at hproba
    obtain ⟨F, hF, Xp, hXp, v, -, p, hp, pm, hpm, rfl⟩ := hproba
    have hu := features_unique hF hX hTp hTm
    refine ⟨?_, ?_⟩
    · show (p.map (·.1)).Nodup
      rw [(mkRows_ok hp).2.1]
      exact primaryFrame_unique hu.1 hXp
    · intro m hm
      unfold probaMeta at hpm
      simp only [hm] at hpm
      split at hpm
      · simp at hpm
      · simp only [Py.bind_eq_ok, Except.ok.injEq] at hpm
        obtain ⟨Xm, hXm, w, -, q, hq, rfl⟩ := hpm
        refine ⟨q, rfl, ?_, (mkRows_ok hq).2.2⟩
        rw [(mkRows_ok hq).2.1]
        exact metaFeatures_unique hu.2 hXm
  have times : ∀ (classes : List K) (sides : Option (Ser K)) (rows : List (ℤ × List (XF K))) (b : List (BetRow K)),
      BetInput classes sides rows b → b.map BetRow.time = rows.map (·.1) := by
    intro classes sides rows b hb
    induction hb with
    | nil => rfl
    | cons h1 _ ih => rw [List.map_cons, List.map_cons, ih, h1.1]
  cases hmm : c.metaModel with
  | none =>
    simp only [hmm] at hsize
    unfold sizePrimary at hsize
    cases hbs : c.betSizer with
    | none =>
      simp only [hbs, Except.ok.injEq] at hsize
      have hz : (size.map (·.1)).Nodup := by
        rw [← hsize, List.map_map]; exact hprob.1
      refine ⟨pred, proba, size, hpred, hproba, nodup_sideSize _ _ hside hz, mem_sideSize _ _ hside hz, ?_, ?_, ?_⟩
      · intro _ _
        rw [← hsize]
        unfold SizeLargest
        rw [List.forall₂_map_right_iff, List.forall₂_same]
        intro r _
        exact ⟨rfl, largest_rowMax _⟩
      · intro _ bs hc; simp at hc
      · intro m hc; simp at hc
    | some bs =>
      simp only [hbs, Py.bind_eq_ok] at hsize
      obtain ⟨b, hb, hout⟩ := hsize
      have hbi := betRows_input c.primary.classes none (by intro s hc; simp at hc) _ _ hb
      have hz : (size.map (·.1)).Nodup := hB bs hbs b size (by rw [times _ _ _ _ hbi]; exact hprob.1) hout
      refine ⟨pred, proba, size, hpred, hproba, nodup_sideSize _ _ hside hz, mem_sideSize _ _ hside hz, ?_, ?_, ?_⟩
      · intro _ hc; simp at hc
      · intro _ bs' hc
        simp only [Option.some.injEq] at hc
        subst hc
        exact ⟨b, hbi, hout⟩
      · intro m hc; simp at hc
  | some m =>
    obtain ⟨rows, hrows, hrn, hrl⟩ := hprob.2 m hmm
    simp only [hmm, hrows, Option.getD_some] at hsize
    unfold sizeMeta at hsize
    cases hbs : c.betSizer with
    | none =>
      simp only [hbs] at hsize
      unfold probaOfOne at hsize
      split at hsize
      · rename_i h1
        simp only [Except.ok.injEq] at hsize
        have hz : (size.map (·.1)).Nodup := by
          rw [← hsize, List.map_map]; exact hrn
        refine ⟨pred, proba, size, hpred, hproba, nodup_sideSize _ _ hside hz, mem_sideSize _ _ hside hz, ?_, ?_, ?_⟩
        · intro hc; simp at hc
        · intro hc; simp at hc
        · intro m' hc
          simp only [Option.some.injEq] at hc
          subst hc
          refine ⟨rows, hrows, ?_, ?_⟩
          · intro _
            rw [← hsize]
            unfold SizeSuccess
            rw [List.forall₂_map_right_iff, List.forall₂_same]
            intro r hr
            have hj : m.classes.idxOf 1 < m.classes.length := List.idxOf_lt_length_iff.2 h1
            refine ⟨rfl, m.classes.idxOf 1, ?_, ?_⟩
            · rw [List.getElem?_eq_getElem hj, List.getElem_idxOf hj]
            · have : m.classes.idxOf 1 < r.2.length := by rw [hrl r hr]; exact hj
              simp only
              rw [List.getElem?_eq_getElem this, List.getD_eq_getElem _ _ this]
          · intro bs hc; simp at hc
      · simp at hsize
    | some bs =>
      simp only [hbs, Py.bind_eq_ok] at hsize
      obtain ⟨again, hagain, b, hb, hout⟩ := hsize
      rw [hpred, Except.ok.injEq] at hagain
      subst hagain
      have hbi := betRows_input m.classes (some pred.primary) (by intro s hc; simp only [Option.some.injEq] at hc; subst hc; exact hside) _ _ hb
      have hz : (size.map (·.1)).Nodup := hB bs hbs b size (by rw [times _ _ _ _ hbi]; exact hrn) hout
      refine ⟨pred, proba, size, hpred, hproba, nodup_sideSize _ _ hside hz, mem_sideSize _ _ hside hz, ?_, ?_, ?_⟩
      · intro hc; simp at hc
      · intro hc; simp at hc
      · intro m' hc
        simp only [Option.some.injEq] at hc
        subst hc
        refine ⟨rows, hrows, ?_, ?_⟩
        · intro hc; simp at hc
        · intro bs' hc
          simp only [Option.some.injEq] at hc
          subst hc
          exact ⟨b, hbi, hout⟩

/-- C48 (the rows that are scored): the sides and the class probabilities of the primary model are given at the same
times, those at which all primary features are present; the metalabeling model scores the times at which all its own
features are present, restricted to those scored by the primary model when its probabilities are features. -/
theorem C48_scored_times (c : Cfg K) (X : Dict K) (pred : Predictions K) (proba : Probas K) (hp : predict c X = .ok pred)
    (hq : predictProba c X = .ok proba) :
    ∃ F fp, features c X = .ok F ∧ concatOuter (F.primary.map (·.2)) = .ok fp ∧
      let scored := (fp.rows.filter fun r => decide (∀ x ∈ r.2, x.isNan = false)).map (·.1)
      pred.primary.map (·.1) = scored ∧ proba.primary.map (·.1) = scored ∧
      ∀ rows, proba.metal = some rows → ∃ fm, concatOuter (F.metal.map (·.2)) = .ok fm ∧
        let own := (fm.rows.filter fun r => decide (∀ x ∈ r.2, x.isNan = false)).map (·.1)
        rows.map (·.1) = if c.useProba then own.filter (fun t => decide (t ∈ scored)) else own := by
  have hcomp : ∀ f : Frame K, f.dropna.index = (f.rows.filter fun r => decide (∀ x ∈ r.2, x.isNan = false)).map (·.1) := by
    intro f
    unfold Frame.index Frame.dropna
    congr 1
    apply List.filter_congr
    intro r _
    unfold complete
    rw [Bool.eq_iff_iff, List.all_eq_true, decide_eq_true_eq]
    simp
  unfold predictProba at hq
  simp only [Py.bind_eq_ok, Except.ok.injEq] at hq
  obtain ⟨F, hF, Xp, hXp, v, -, p, hp', pm, hpm, rfl⟩ := hq
  unfold predict at hp
  split at hp
  · simp at hp
  · cases hl : X.lookup c.alignOn with
    | none => simp [hl] at hp
    | some target =>
      simp only [hl, Py.bind_eq_ok, Except.ok.injEq] at hp
      obtain ⟨_, -, F', hF', Xp', hXp', v', -, s, hs, sm, -, rfl⟩ := hp
      rw [hF, Except.ok.injEq] at hF'
      subst hF'
      rw [hXp, Except.ok.injEq] at hXp'
      subst hXp'
      have hXp2 := hXp
      unfold primaryFrame at hXp
      simp only [Py.bind_eq_ok, Except.ok.injEq] at hXp
      obtain ⟨fp, hfp, rfl⟩ := hXp
      refine ⟨F, fp, hF, hfp, ?_, ?_, ?_⟩
      · rw [← hcomp]; exact (mkSeries_ok hs).2.2
      · rw [← hcomp]; exact (mkRows_ok hp').2.1
      · intro rows hrows
        simp only at hrows
        unfold probaMeta at hpm
        cases hmm : c.metaModel with
        | none => simp only [hmm, Except.ok.injEq] at hpm; rw [← hpm] at hrows; simp at hrows
        | some m =>
          simp only [hmm] at hpm
          split at hpm
          · simp at hpm
          · simp only [Py.bind_eq_ok, Except.ok.injEq] at hpm
            obtain ⟨Xm, hXm, w, -, q, hq, rfl⟩ := hpm
            simp only [Option.some.injEq] at hrows
            subst hrows
            obtain ⟨fm, hfm, hi⟩ := metaFeatures_index hXm
            refine ⟨fm, hfm, ?_⟩
            rw [(mkRows_ok hq).2.1, hi, ← hcomp, ← hcomp]

/-- C49 (primary data set): the features and the labels share their index, are not empty and have no missing or
infinite value; every label is one of the given labels and -1, 0 or 1; the feature rows are those of the aligned
frames at these times, and the times are exactly the labelled times (in the given order) at which all features are
present. -/
theorem C49_dataset_primary (c : Cfg K) (X : Dict K) (y : Ser K) (Xo : Frame K) (yo : Ser K)
    (h : datasetPrimary c X y true = .ok (Xo, yo)) :
    ∃ F, features c X = .ok F ∧
      Xo.index = yo.map (·.1) ∧ Xo.rows ≠ [] ∧
      (∀ r ∈ Xo.rows, ∀ x ∈ r.2, ∃ a, x = .fin a) ∧
      (∀ r ∈ yo, r ∈ y ∧ (r.2 = .fin (-1) ∨ r.2 = .fin 0 ∨ r.2 = .fin 1)) ∧
      (∀ r ∈ Xo.rows, r.2 = F.primary.flatMap fun p => (p.2.row? r.1).getD []) ∧
      Xo.index = ((y.filter fun r => !r.2.isNan).map (·.1)).filter
        fun t => (F.primary.flatMap fun p => (p.2.row? t).getD []).all fun x => !x.isNan := by
  have hfin : ∀ x : XF K, x.undef = false → ∃ a, x = .fin a := by
    intro x hx
    cases x with
    | fin a => exact ⟨a, rfl⟩
    | nan => simp [XF.undef, XF.isNan] at hx
    | pinf => simp [XF.undef, XF.isNan, XF.isInf] at hx
    | ninf => simp [XF.undef, XF.isNan, XF.isInf] at hx
  unfold datasetPrimary at h
  split at h
  · simp at h
  · rename_i hlab
    rw [Py.bind_eq_ok] at h
    obtain ⟨F, hF, h⟩ := h
    obtain ⟨h1, h2, h3, h4, h5, h6⟩ := alignXy_ok h
    refine ⟨F, hF, h1, h2, fun r hr x hx => hfin x (h3 r hr x hx), ?_, h5, h6⟩
    intro r hr
    refine ⟨(h4 r hr).1, ?_⟩
    obtain ⟨a, ha⟩ := hfin r.2 (h4 r hr).2
    have hlab : labelsOk y = true := by simpa using hlab
    unfold labelsOk at hlab
    have := List.all_eq_true.1 hlab r (List.mem_filter.2 ⟨(h4 r hr).1, by simp [ha, XF.isNan]⟩)
    rw [ha] at this ⊢
    simpa [XF.beq, or_assoc] using this

/-- C49: a label other than -1, 0, 1 raises `AssertionError` in both functions. -/
theorem C49_bad_label (c : Cfg K) (X : Dict K) (y : Ser K) (d : Bool) (r : ℤ × XF K) (hr : r ∈ y) (hn : r.2.isNan = false)
    (hb : r.2 ≠ .fin (-1) ∧ r.2 ≠ .fin 0 ∧ r.2 ≠ .fin 1) :
    datasetPrimary c X y d = .error .assertionError ∧ datasetMeta c X y = .error .assertionError := by
  have : labelsOk y = false := by
    unfold labelsOk
    rw [List.all_eq_false]
    refine ⟨r, List.mem_filter.2 ⟨hr, by simp [hn]⟩, ?_⟩
    obtain ⟨t, v⟩ := r
    simp only at hb hn ⊢
    cases v with
    | fin a =>
      simp only [ne_eq, XF.fin.injEq] at hb
      simp [XF.beq, hb]
    | nan => simp [XF.isNan] at hn
    | pinf => simp [XF.beq]
    | ninf => simp [XF.beq]
  unfold datasetPrimary datasetMeta
  rw [if_pos this, if_pos this]
  exact ⟨rfl, rfl⟩

/-- C49 (`drop_na=False`): the labels are returned as they are given, beside the concatenated features. -/
theorem C49_keep_missing (c : Cfg K) (X : Dict K) (y : Ser K) (Xo : Frame K) (yo : Ser K)
    (h : datasetPrimary c X y false = .ok (Xo, yo)) :
    yo = y ∧ ∃ F, features c X = .ok F ∧ concatOuter (F.primary.map (·.2)) = .ok Xo := by
  unfold datasetPrimary at h
  split at h
  · simp at h
  · rw [Py.bind_eq_ok] at h
    obtain ⟨F, hF, h⟩ := h
    unfold alignXy at h
    simp only [Bool.false_eq_true, if_false, Py.bind_eq_ok, Except.ok.injEq, Prod.mk.injEq] at h
    obtain ⟨f, hf, rfl, rfl⟩ := h
    exact ⟨rfl, F, hF, hf⟩

/-- C49 (metalabeling data set): features and metalabels share their index and have no missing value; every time is
a labelled time of the primary data set, and its metalabel is 1 when the primary model predicts the label there
and 0 otherwise. -/
theorem C49_dataset_metalabeling (c : Cfg K) (X : Dict K) (y : Ser K) (Xo : Frame K) (yo : Ser K)
    (h : datasetMeta c X y = .ok (Xo, yo)) :
    Xo.index = yo.map (·.1) ∧ (∀ t ∈ Xo.index, ∃ r, Xo.row? t = some r ∧ ∀ x ∈ r, x.isNan = false) ∧
    ∃ Xp yp ps, datasetPrimary c X y true = .ok (Xp, yp) ∧ c.primary.predict Xp = .ok ps ∧
      ∀ r ∈ yo, ∃ (i : ℕ) (p l : XF K), ps[i]? = some p ∧ yp[i]? = some (r.1, l) ∧ Xp.index[i]? = some r.1 ∧
        (r.1, l) ∈ y ∧ (p = l → r.2 = .fin 1) ∧ (p ≠ l → r.2 = .fin 0) := by
  unfold datasetMeta at h
  split at h
  · simp at h
  · rename_i hlab
    simp only [Py.bind_eq_ok, Except.ok.injEq, Prod.mk.injEq] at h
    obtain ⟨F, hF, ⟨Xp, yp⟩, hXy, Xm, hXm, ps, hps, s, hs, Xo', hXo, yo', hyo, rfl, rfl⟩ := h
    have hprim : datasetPrimary c X y true = .ok (Xp, yp) := by
      unfold datasetPrimary
      rw [if_neg hlab, hF]
      exact hXy
    obtain ⟨h1, -, -, h4, -, -⟩ := alignXy_ok hXy
    have hsk := mkSeries_ok hs
    have hx := locRows_ok hXo
    have hy := locSer_ok hyo
    refine ⟨by rw [hx.2.1, hy.1], ?_, Xp, yp, ps, hprim, hps, ?_⟩
    · intro t ht
      rw [hx.2.1] at ht
      obtain ⟨hn, he⟩ := hx.2.2 t ht
      cases hr : Xm.row? t with
      | none => exact absurd hr hn
      | some r =>
        refine ⟨r, by rw [he, hr], ?_⟩
        unfold Frame.row? at hr
        rw [Option.map_eq_some_iff] at hr
        obtain ⟨q, hq, rfl⟩ := hr
        obtain ⟨f, f1, f2, -, -, -, -, -, -, hc⟩ := metaFeatures_ok hXm
        have := hc q (List.mem_of_find?_eq_some hq)
        unfold complete at this
        intro x hxm
        simpa using List.all_eq_true.1 this x hxm
    · intro r hr
      have hm := hy.2 r hr
      rw [List.mem_iff_getElem?] at hm
      obtain ⟨i, hi⟩ := hm
      rw [List.getElem?_zipWith_eq_some] at hi
      obtain ⟨a, b, ha, hb, he⟩ := hi
      subst he
      have hps' : ps[i]? = some a.2 := by
        rw [hsk.1, List.getElem?_zip_eq_some] at ha
        exact ha.2
      have hbm := List.mem_of_getElem? hb
      refine ⟨i, a.2, b.2, hps', hb, ?_, (h4 b hbm).1, ?_, ?_⟩
      · rw [h1, List.getElem?_map, hb]; rfl
      · intro he
        have hbu := (h4 b hbm).2
        simp only [he]
        rw [if_pos]
        cases hb2 : b.2 with
        | fin x => simp [XF.beq]
        | nan => rw [hb2] at hbu; simp [XF.undef, XF.isNan] at hbu
        | pinf => rfl
        | ninf => rfl
      · intro he
        rw [if_neg]
        cases ha2 : a.2 <;> cases hb2 : b.2 <;> simp_all [XF.beq]

/-- C49 (predictions as the only extra features): when the metalabeling features are present at a time outside the
primary data set (for example at a bar without label), no metalabeling data set is created: `ValueError`. -/
theorem C49_predictions_only_raises (c : Cfg K) (X : Dict K) (y : Ser K) (F : Features K) (Xp : Frame K) (yp : Ser K)
    (fm : Frame K) (v : List (XF K)) (hu : c.usePredictions = true) (hq : c.useProba = false)
    (hF : features c X = .ok F) (hp : datasetPrimary c X y true = .ok (Xp, yp)) (hv : c.primary.predict Xp = .ok v)
    (hfm : concatOuter (F.metal.map (·.2)) = .ok fm) (r : ℤ × List (XF K)) (hr : r ∈ fm.rows)
    (hrc : ∀ x ∈ r.2, x.isNan = false) (hout : r.1 ∉ Xp.index) : datasetMeta c X y = .error .valueError := by
  unfold datasetPrimary at hp
  unfold datasetMeta
  split at hp
  · simp at hp
  · rename_i hlab
    rw [if_neg hlab]
    rw [hF, Py.bind_ok] at hp
    simp only [hF, hp, Py.bind_ok]
    have hbad : metaFeatures c Xp F = .error .valueError := by
      unfold metaFeatures withPrediction withProba
      simp only [hfm, hu, hq, hv, Py.bind_ok, if_true, Bool.false_eq_true, if_false]
      unfold mkSeries
      split
      · simp only [Py.bind_ok]
        rw [if_neg]
        intro hall
        have hmem : (r.1, putCell fm.dropna.cols "primary_side_pred" r.2 (serAt (Xp.index.zip v) r.1)) ∈ (addPrediction fm.dropna (Xp.index.zip v)).rows := by
          unfold addPrediction
          refine List.mem_map.2 ⟨r, List.mem_filter.2 ⟨hr, ?_⟩, rfl⟩
          unfold complete
          rw [List.all_eq_true]
          intro x hx; simp [hrc x hx]
        have := List.all_eq_true.1 (Bool.and_eq_true_iff.1 hall).1 _ hmem
        rw [serAt_not_mem] at this
        · unfold complete at this
          have := List.all_eq_true.1 this _ (mem_putCell_self _ _ _ _)
          simp [XF.isNan] at this
        · intro hc
          rw [List.map_fst_zip (by omega)] at hc
          exact hout hc
      · rfl
    rw [hbad]; rfl

/-- C50 is refuted: the attribute that is asked for is never set, so whatever closing model is configured, the
answer is `None`; for instance for a model that always closes all positions. -/
theorem C50_closing_model_refuted :
    (∀ (closing : Option (Dict K → Py (Option String))) (X : Dict K), determinePositionsToClose [] closing X = .ok none) ∧
    ∃ m : Dict K → Py (Option String), ∀ X, m X = .ok (some "all") ∧ determinePositionsToClose [] (some m) X ≠ m X := by
  have key : ∀ (closing : Option (Dict K → Py (Option String))) (X : Dict K),
      determinePositionsToClose [] closing X = .ok none := by
    intro closing X
    unfold determinePositionsToClose consultClosing
    have : "closing_position_model" ∉ attributes := by decide
    cases closing with
    | none => simp
    | some m => simp [this]
  refine ⟨key, fun _ => .ok (some "all"), fun X => ⟨rfl, ?_⟩⟩
  rw [key]; simp

/-- C50 (partial: only when the caller has set an attribute with the misspelled name, or no model is configured):
the answer is the model's if it is one of the four allowed ones; other answers raise `ValueError`, errors pass
through. -/
theorem C50_closing_model_partial (extra : List String) (he : "closing_position_model" ∈ extra)
    (m : Dict K → Py (Option String)) (X : Dict K) :
    (∀ r, m X = .ok r → r ∈ [none, some "all", some "long", some "short"] →
      determinePositionsToClose extra (some m) X = .ok r) ∧
    (∀ r, m X = .ok r → r ∉ [none, some "all", some "long", some "short"] →
      determinePositionsToClose extra (some m) X = .error .valueError) ∧
    (∀ e, m X = .error e → determinePositionsToClose extra (some m) X = .error e) ∧
    determinePositionsToClose extra none X = .ok none := by
  have hc : consultClosing extra (some m) X = m X := by
    exact if_pos (List.mem_append_left _ he)
  refine ⟨?_, ?_, ?_, ?_⟩
  · intro r hr hm
    unfold determinePositionsToClose
    rw [hc, hr, Py.bind_ok, if_pos]
    simp only [List.mem_cons, List.not_mem_nil, or_false] at hm
    tauto
  · intro r hr hm
    unfold determinePositionsToClose
    rw [hc, hr, Py.bind_ok, if_neg]
    simp only [List.mem_cons, List.not_mem_nil, or_false] at hm
    tauto
  · intro e hr
    unfold determinePositionsToClose
    rw [hc, hr, Py.bind_error]
  · unfold determinePositionsToClose consultClosing
    rw [Py.bind_ok, if_pos]
    tauto

example : determinePositionsToClose (K := ℚ) ["closing_position_model"] (some fun _ => .ok (some "long")) [] = .ok (some "long") := by
  decide +kernel

/-! Concrete cases beside the theorems: two frames, warm-up rows, missing labels, a metalabeling model. -/

section Examples

/-- Predicts the sign of the first feature with probability 3/4. -/
private def clf : Clf ℚ where
  fitted := true
  classes := [-1, 1]
  predict f := .ok (f.rows.map fun r => XF.sign (r.2.headD .nan))
  proba f := .ok (f.rows.map fun r => if XF.lt (.fin 0) (r.2.headD .nan) then [.fin (1/4), .fin (3/4)] else [.fin (3/4), .fin (1/4)])

private def metaClf : Clf ℚ where
  fitted := true
  classes := [0, 1]
  predict f := .ok (f.rows.map fun _ => .fin 1)
  proba f := .ok (f.rows.map fun _ => [.fin (1/3), .fin (2/3)])

private def cfg : Cfg ℚ where
  alignOn := "bars"
  alignHow := [("ticks", "mean")]
  trPrimary := [("bars", none), ("ticks", none)]
  trMeta := [("bars", none)]
  primary := clf
  metaModel := some metaClf
  useProba := true
  usePredictions := true
  betSizer := none

private def data : Dict ℚ :=
  [("bars", ⟨["a"], [(10, [.fin 1]), (20, [.fin (-2)]), (30, [.fin 3]), (40, [.fin 5])]⟩),
   ("ticks", ⟨["b"], [(15, [.fin 1]), (17, [.fin 2]), (29, [.fin 4])]⟩)]

private def labels : Ser ℚ := [(10, .fin 1), (20, .fin 1), (30, .fin 1), (40, .nan)]

example : getSideAndSize cfg data =
    .ok [(20, .fin (-1), .fin (2/3)), (30, .fin 1, .fin (2/3)), (40, .fin 1, .fin (2/3))] := by
  decide +kernel

example : getSideAndSize { cfg with metaModel := none, trMeta := [] } data =
    .ok [(20, .fin (-1), .fin (3/4)), (30, .fin 1, .fin (3/4)), (40, .fin 1, .fin (3/4))] := by
  decide +kernel

example : datasetPrimary cfg data labels true =
    .ok (⟨["a", "b"], [(20, [.fin (-2), .fin (3/2)]), (30, [.fin 3, .fin 4])]⟩, [(20, .fin 1), (30, .fin 1)]) := by
  decide +kernel

example : (match datasetMeta cfg data labels with
    | .ok r => (r.1.index, r.2)
    | .error _ => ([], [])) = ([20, 30], [(20, .fin 0), (30, .fin 1)]) := by
  decide +kernel

example : (match datasetMeta { cfg with useProba := false } data labels with
    | .ok _ => none
    | .error e => some e) = some .valueError := by
  decide +kernel

/-- A metalabeling model trained on labels -1 and 0 only (C106). -/
example : getSideAndSize { cfg with metaModel := some { clf with classes := [-1, 0] } } data = .error .keyError := by
  decide +kernel

end Examples

end Mizar.Props
