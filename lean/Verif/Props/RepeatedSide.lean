import Verif.Model.RepeatedSide
import Verif.Props.RepeatedData
import Verif.Props.MetaFeatures
import Verif.Props.PipelineReady
import Verif.Props.NoLookAhead

/-!
Property theorems C160: sides and sizes of bars that share a time (`StrategySignalPipeline`, `/repo/mizarlabs/model/pipeline.py` lines 381-597).
-/

set_option linter.unusedSectionVars false

namespace Mizar.Props
open Mizar.Spec Mizar.Pipe
variable {K : Type} [Field K] [LinearOrder K]

/-- The positions of the bars (of `n`) that have all features. -/
def completeBars (d : Dict K) (n : ℕ) : List ℕ := (List.range n).filter fun i => decide (∀ x ∈ barFeatures d i, x.isNan = false)

/-- The times of the bars at the given positions. -/
def timesOf (idx : List ℤ) (bars : List ℕ) : List ℤ := bars.map fun i => idx.getD i 0

/-- The frame with the features of the bars at the given positions, row by row. -/
def barTable (d : Dict K) (idx : List ℤ) (bars : List ℕ) : Frame K := ⟨d.flatMap (·.2.cols), bars.map fun i => (idx.getD i 0, barFeatures d i)⟩

/-- The frame of the metalabeling model: the features of the bars, with the side of each bar in its own row. -/
def sidedTable (use : Bool) (d : Dict K) (idx : List ℤ) (bars : List ℕ) (v : List (XF K)) : Frame K :=
  if use then
    ⟨if "primary_side_pred" ∈ d.flatMap (·.2.cols) then d.flatMap (·.2.cols) else d.flatMap (·.2.cols) ++ ["primary_side_pred"],
      List.zipWith (fun i x => (idx.getD i 0, putCell (d.flatMap (·.2.cols)) "primary_side_pred" (barFeatures d i) x)) bars v⟩
  else barTable d idx bars

theorem index_barTable (d : Dict K) (idx : List ℤ) (bars : List ℕ) : (barTable d idx bars).index = timesOf idx bars := by
  unfold barTable Frame.index timesOf
  rw [List.map_map]
  rfl

private theorem concat_same (d : Dict K) (idx : List ℤ) (hd : d ≠ []) (hi : ∀ p ∈ d, p.2.index = idx) :
    concatRows (d.map (·.2)) = .ok (barTable d idx (List.range idx.length)) := by
  obtain ⟨p0, d', rfl⟩ := List.exists_cons_of_ne_nil hd
  unfold concatRows
  rw [if_neg (by simp), if_pos]
  · simp only [List.map_cons, List.headD_cons]
    rw [hi p0 (by simp)]
    unfold barTable
    congr 1
    congr 1
    · rw [← List.map_cons (f := fun p : String × Frame K => p.2), List.flatMap_map]
    · apply List.map_congr_left
      intro i _
      unfold barFeatures
      rw [← List.map_cons (f := fun p : String × Frame K => p.2), List.flatMap_map]
  · rw [List.all_eq_true]
    intro f hf
    obtain ⟨p, hp, rfl⟩ := List.mem_map.1 hf
    rw [decide_eq_true_eq, hi p hp, List.map_cons, List.headD_cons, hi p0 (by simp)]

private theorem dropna_table (d : Dict K) (idx : List ℤ) :
    (barTable d idx (List.range idx.length)).dropna = barTable d idx (completeBars d idx.length) := by
  unfold barTable Frame.dropna completeBars
  dsimp only
  rw [List.filter_map]
  congr 2
  apply List.filter_congr
  intro i _
  dsimp only [Function.comp]
  unfold complete
  rw [Bool.eq_iff_iff, List.all_eq_true, decide_eq_true_eq]
  exact forall₂_congr fun x _ => iff_of_eq (Bool.not_eq_true' _)

private theorem primary_table (F : Features K) (idx : List ℤ) (hd : F.primary ≠ []) (hi : ∀ p ∈ F.primary, p.2.index = idx) :
    primaryFrameAny F = .ok (barTable F.primary idx (completeBars F.primary idx.length)) := by
  unfold primaryFrameAny
  rw [concat_same _ _ hd hi, Py.bind_ok, dropna_table]

private theorem mkSeries_bars (idx : List ℤ) (bars : List ℕ) (v : List (XF K)) (h : v.length = bars.length) :
    mkSeries (timesOf idx bars) v = .ok ((timesOf idx bars).zip v) := by
  unfold mkSeries
  rw [if_pos (by unfold timesOf; simpa using h)]

private theorem mkRows_bars (idx : List ℤ) (bars : List ℕ) (n : ℕ) (w : List (List (XF K))) (h : w.length = bars.length) (hr : ∀ r ∈ w, r.length = n) :
    mkRows (timesOf idx bars) n w = .ok ((timesOf idx bars).zip w) := by
  unfold mkRows
  rw [if_pos ⟨by unfold timesOf; simpa using h, hr⟩]

private theorem zip_fst {α : Type} (l : List ℤ) (v : List α) (h : v.length = l.length) : (l.zip v).map (·.1) = l := List.map_fst_zip (by omega)

private theorem side_by_side (u : Joins K) (t : List ℤ) (v z : List (XF K)) (hv : v.length = t.length) (hz : z.length = t.length) :
    sideSizeAny u (t.zip v) (t.zip z) = .ok ((t.zip (v.zip z)).filter fun r => !r.2.1.isNan && !r.2.2.isNan) := by
  unfold sideSizeAny
  rw [zip_fst _ _ hv, zip_fst _ _ hz, if_pos rfl]
  congr 2
  apply List.ext_getElem
  · simp only [List.length_zipWith, List.length_zip]
    omega
  · intro i h1 h2
    simp

/-- What both models answer without a metalabeling model. -/
private theorem primary_answers (u : Joins K) (c : Cfg K) (X : Dict K) (F : Features K) (idx : List ℤ) (target : Frame K) (us : List Unit)
    (htar : X.lookup c.alignOn = some target) (hov : mapE (checkOverlap target.index) X = .ok us) (hF : features c X = .ok F)
    (hd : F.primary ≠ []) (hi : ∀ p ∈ F.primary, p.2.index = idx) (hno : c.metaModel = none)
    (v : List (XF K)) (w : List (List (XF K)))
    (hv : c.primary.predict (barTable F.primary idx (completeBars F.primary idx.length)) = .ok v) (hvl : v.length = (completeBars F.primary idx.length).length)
    (hw : c.primary.proba (barTable F.primary idx (completeBars F.primary idx.length)) = .ok w) (hwl : w.length = (completeBars F.primary idx.length).length)
    (hwr : ∀ r ∈ w, r.length = c.primary.classes.length) :
    predictAny u c X = .ok ⟨(timesOf idx (completeBars F.primary idx.length)).zip v, none⟩ ∧
      predictProbaAny u c X = .ok ⟨(timesOf idx (completeBars F.primary idx.length)).zip w, none⟩ := by
  have h1 : predictAny u c X = .ok ⟨(timesOf idx (completeBars F.primary idx.length)).zip v, none⟩ := by
    unfold predictAny metaFitted predictMetaAny
    rw [hno, htar]
    dsimp only
    rw [if_neg (by simp), hov, Py.bind_ok, hF, Py.bind_ok, primary_table F idx hd hi, Py.bind_ok, hv, Py.bind_ok, index_barTable, mkSeries_bars _ _ _ hvl,
      Py.bind_ok, Py.bind_ok]
  have h2 : predictProbaAny u c X = .ok ⟨(timesOf idx (completeBars F.primary idx.length)).zip w, none⟩ := by
    unfold predictProbaAny probaMetaAny
    rw [hno]
    dsimp only
    rw [hF, Py.bind_ok, primary_table F idx hd hi, Py.bind_ok, hw, Py.bind_ok, index_barTable, mkRows_bars _ _ _ _ hwl hwr, Py.bind_ok, Py.bind_ok]
  exact ⟨h1, h2⟩

/-- **C160** (primary model only) Whichever bars share their times: each bar with all features gets the label of its own row as side and the largest
probability of its own row as size, in the order of the bars; bars whose side or size is missing are left out. -/
theorem C160_primary (u : Joins K) (c : Cfg K) (X : Dict K) (F : Features K) (idx : List ℤ) (target : Frame K) (us : List Unit)
    (htar : X.lookup c.alignOn = some target) (hov : mapE (checkOverlap target.index) X = .ok us) (hF : features c X = .ok F)
    (hd : F.primary ≠ []) (hi : ∀ p ∈ F.primary, p.2.index = idx) (hno : c.metaModel = none) (hbs : c.betSizer = none)
    (v : List (XF K)) (w : List (List (XF K)))
    (hv : c.primary.predict (barTable F.primary idx (completeBars F.primary idx.length)) = .ok v) (hvl : v.length = (completeBars F.primary idx.length).length)
    (hw : c.primary.proba (barTable F.primary idx (completeBars F.primary idx.length)) = .ok w) (hwl : w.length = (completeBars F.primary idx.length).length)
    (hwr : ∀ r ∈ w, r.length = c.primary.classes.length) :
    getSideAndSizeAny u c X = .ok (((timesOf idx (completeBars F.primary idx.length)).zip (v.zip (w.map rowMax))).filter
      fun r => !r.2.1.isNan && !r.2.2.isNan) := by
  have htl : (timesOf idx (completeBars F.primary idx.length)).length = (completeBars F.primary idx.length).length := by unfold timesOf; simp
  obtain ⟨h1, h2⟩ := primary_answers u c X F idx target us htar hov hF hd hi hno v w hv hvl hw hwl hwr
  unfold getSideAndSizeAny signalSizeAny sizePrimary
  rw [h1, Py.bind_ok, h2, Py.bind_ok, hno, hbs]
  dsimp only
  rw [Py.bind_ok]
  have e : (((timesOf idx (completeBars F.primary idx.length)).zip w).map fun r => (r.1, rowMax r.2)) =
      (timesOf idx (completeBars F.primary idx.length)).zip (w.map rowMax) := by
    rw [List.zip_map_right]
    rfl
  rw [e]
  exact side_by_side u _ _ _ (by omega) (by rw [List.length_map]; omega)

/-- C160 (bet sizer, no metalabeling model): a bet sizer that returns one size for each row, in the order of the rows, is given one row for each bar with all
features, in the order of the bars (its time, its largest probability and the class of it), and its sizes are the sizes of these bars, whether or not times repeat.
An exception of the bet sizer is passed on. -/
theorem C160_primary_sizer (u : Joins K) (c : Cfg K) (X : Dict K) (F : Features K) (idx : List ℤ) (target : Frame K) (us : List Unit)
    (htar : X.lookup c.alignOn = some target) (hov : mapE (checkOverlap target.index) X = .ok us) (hF : features c X = .ok F)
    (hd : F.primary ≠ []) (hi : ∀ p ∈ F.primary, p.2.index = idx) (hno : c.metaModel = none)
    (bs : List (BetRow K) → Py (Ser K)) (hbs : c.betSizer = some bs) (hcl : c.primary.classes ≠ []) (v : List (XF K)) (w : List (List (XF K)))
    (hv : c.primary.predict (barTable F.primary idx (completeBars F.primary idx.length)) = .ok v) (hvl : v.length = (completeBars F.primary idx.length).length)
    (hw : c.primary.proba (barTable F.primary idx (completeBars F.primary idx.length)) = .ok w) (hwl : w.length = (completeBars F.primary idx.length).length)
    (hwr : ∀ r ∈ w, r.length = c.primary.classes.length) :
    ∃ b, BetInput c.primary.classes none ((timesOf idx (completeBars F.primary idx.length)).zip w) b ∧
      (∀ z : List (XF K), z.length = b.length → bs b = .ok ((b.map (·.time)).zip z) → getSideAndSizeAny u c X =
        .ok (((timesOf idx (completeBars F.primary idx.length)).zip (v.zip z)).filter fun r => !r.2.1.isNan && !r.2.2.isNan)) ∧
      ∀ e, bs b = .error e → getSideAndSizeAny u c X = .error e := by
  have htl : (timesOf idx (completeBars F.primary idx.length)).length = (completeBars F.primary idx.length).length := by unfold timesOf; simp
  obtain ⟨h1, h2⟩ := primary_answers u c X F idx target us htar hov hF hd hi hno v w hv hvl hw hwl hwr
  obtain ⟨b, hb, hbt⟩ := betRows_total c.primary.classes hcl none ((timesOf idx (completeBars F.primary idx.length)).zip w)
    fun r hr => hwr r.2 (List.of_mem_zip hr).2
  have hbi := betRows_input c.primary.classes none (fun s h => by cases h) _ b hb
  have hbt' : b.map (·.time) = timesOf idx (completeBars F.primary idx.length) := by
    rw [hbt, zip_fst _ _ (by omega)]
  have hbl : b.length = (timesOf idx (completeBars F.primary idx.length)).length := by rw [← hbt', List.length_map]
  refine ⟨b, hbi, fun z hz h => ?_, fun e h => ?_⟩
  · unfold getSideAndSizeAny signalSizeAny sizePrimary
    rw [h1, Py.bind_ok, h2, Py.bind_ok, hno, hbs]
    dsimp only
    rw [hb, Py.bind_ok, h, Py.bind_ok, hbt']
    exact side_by_side u _ _ _ (by omega) (by omega)
  · unfold getSideAndSizeAny signalSizeAny sizePrimary
    rw [h1, Py.bind_ok, h2, Py.bind_ok, hno, hbs]
    dsimp only
    rw [hb, Py.bind_ok, h, Py.bind_error]

private theorem nonmissing_row (d : Dict K) (n i : ℕ) (h : i ∈ completeBars d n) : ∀ x ∈ barFeatures d i, x.isNan = false :=
  of_decide_eq_true (List.mem_filter.1 h).2

private theorem meta_table (u : Joins K) (c : Cfg K) (F : Features K) (idx : List ℤ)
    (hm : F.metal ≠ []) (him : ∀ p ∈ F.metal, p.2.index = idx) (hq : c.useProba = false)
    (hbars : completeBars F.metal idx.length = completeBars F.primary idx.length) (hne : completeBars F.primary idx.length ≠ [])
    (v : List (XF K)) (hv : c.primary.predict (barTable F.primary idx (completeBars F.primary idx.length)) = .ok v)
    (hvl : v.length = (completeBars F.primary idx.length).length) (hvn : ∀ x ∈ v, x.isNan = false) :
    metaFeaturesAny u c (barTable F.primary idx (completeBars F.primary idx.length)) F =
      .ok (sidedTable c.usePredictions F.metal idx (completeBars F.primary idx.length) v) := by
  have htl : (timesOf idx (completeBars F.primary idx.length)).length = (completeBars F.primary idx.length).length := by unfold timesOf; simp
  unfold metaFeaturesAny
  rw [concat_same _ _ hm him, Py.bind_ok, dropna_table, hbars]
  have h1 : withPredictionAny c (barTable F.primary idx (completeBars F.primary idx.length)) (barTable F.metal idx (completeBars F.primary idx.length)) =
      .ok (sidedTable c.usePredictions F.metal idx (completeBars F.primary idx.length) v) := by
    unfold withPredictionAny sidedTable
    cases c.usePredictions with
    | false => rfl
    | true =>
      rw [if_pos rfl, if_pos rfl, hv, Py.bind_ok, index_barTable, mkSeries_bars _ _ _ hvl, Py.bind_ok]
      unfold assignSeries
      rw [if_neg, if_pos]
      · unfold barTable timesOf
        dsimp only
        congr 2
        apply List.ext_getElem
        · simp
        · intro i h1 h2
          simp
      · rw [index_barTable, zip_fst _ _ (by omega)]
      · unfold barTable
        simpa using hne
  have h2 : withProbaAny u c (barTable F.primary idx (completeBars F.primary idx.length))
      (sidedTable c.usePredictions F.metal idx (completeBars F.primary idx.length) v) =
      .ok (sidedTable c.usePredictions F.metal idx (completeBars F.primary idx.length) v) := by
    unfold withProbaAny
    rw [hq, if_neg (by simp)]
  rw [h1, Py.bind_ok, h2, Py.bind_ok, if_pos]
  rw [List.all_eq_true]
  intro r hr
  unfold complete
  rw [List.all_eq_true]
  intro x hx
  rw [Bool.not_eq_true']
  unfold sidedTable at hr
  cases hu : c.usePredictions with
  | false =>
    rw [hu, if_neg (by simp)] at hr
    obtain ⟨i, hi, rfl⟩ := List.mem_map.1 hr
    rw [← hbars] at hi
    exact nonmissing_row _ _ _ hi x hx
  | true =>
    rw [hu, if_pos rfl] at hr
    obtain ⟨k, hk, rfl⟩ := List.mem_iff_getElem.1 hr
    rw [List.getElem_zipWith] at hx
    rcases mem_putCell hx with hx | rfl
    · refine nonmissing_row F.metal idx.length _ ?_ x hx
      rw [hbars]
      exact List.getElem_mem _
    · exact hvn _ (List.getElem_mem _)

/-- What both models answer when their features are complete at the same bars. -/
private theorem both_answer (u : Joins K) (c : Cfg K) (X : Dict K) (F : Features K) (idx : List ℤ) (target : Frame K) (us : List Unit)
    (htar : X.lookup c.alignOn = some target) (hov : mapE (checkOverlap target.index) X = .ok us) (hF : features c X = .ok F)
    (hd : F.primary ≠ []) (hi : ∀ p ∈ F.primary, p.2.index = idx) (hm : F.metal ≠ []) (him : ∀ p ∈ F.metal, p.2.index = idx)
    (m : Clf K) (hmm : c.metaModel = some m) (hfit : m.fitted = true) (hq : c.useProba = false)
    (hbars : completeBars F.metal idx.length = completeBars F.primary idx.length) (hne : completeBars F.primary idx.length ≠ [])
    (v : List (XF K)) (w : List (List (XF K))) (v2 : List (XF K)) (w2 : List (List (XF K)))
    (hv : c.primary.predict (barTable F.primary idx (completeBars F.primary idx.length)) = .ok v) (hvl : v.length = (completeBars F.primary idx.length).length)
    (hvn : ∀ x ∈ v, x.isNan = false)
    (hw : c.primary.proba (barTable F.primary idx (completeBars F.primary idx.length)) = .ok w) (hwl : w.length = (completeBars F.primary idx.length).length)
    (hwr : ∀ r ∈ w, r.length = c.primary.classes.length)
    (hv2 : m.predict (sidedTable c.usePredictions F.metal idx (completeBars F.primary idx.length) v) = .ok v2)
    (hvl2 : v2.length = (completeBars F.primary idx.length).length)
    (hw2 : m.proba (sidedTable c.usePredictions F.metal idx (completeBars F.primary idx.length) v) = .ok w2)
    (hwl2 : w2.length = (completeBars F.primary idx.length).length) (hwr2 : ∀ r ∈ w2, r.length = m.classes.length) :
    predictAny u c X = .ok ⟨(timesOf idx (completeBars F.primary idx.length)).zip v, some ((timesOf idx (completeBars F.primary idx.length)).zip v2)⟩ ∧
      predictProbaAny u c X = .ok ⟨(timesOf idx (completeBars F.primary idx.length)).zip w, some ((timesOf idx (completeBars F.primary idx.length)).zip w2)⟩ := by
  have hX := meta_table u c F idx hm him hq hbars hne v hv hvl hvn
  have hXi : (sidedTable c.usePredictions F.metal idx (completeBars F.primary idx.length) v).index = timesOf idx (completeBars F.primary idx.length) := by
    unfold sidedTable
    cases c.usePredictions with
    | false => rw [if_neg (by simp)]; exact index_barTable _ _ _
    | true =>
      rw [if_pos rfl]
      unfold Frame.index timesOf
      apply List.ext_getElem
      · simp [hvl]
      · intro i h1 h2
        simp
  have h1 : predictAny u c X = .ok ⟨(timesOf idx (completeBars F.primary idx.length)).zip v, some ((timesOf idx (completeBars F.primary idx.length)).zip v2)⟩ := by
    unfold predictAny metaFitted predictMetaAny
    rw [hmm, htar]
    dsimp only
    rw [if_neg (by simp [hfit]), hov, Py.bind_ok, hF, Py.bind_ok, primary_table F idx hd hi, Py.bind_ok, hv, Py.bind_ok, index_barTable,
      mkSeries_bars _ _ _ hvl, Py.bind_ok, hX, Py.bind_ok, hv2, Py.bind_ok, hXi, mkSeries_bars _ _ _ hvl2, Py.bind_ok, Py.bind_ok]
  have h2 : predictProbaAny u c X = .ok ⟨(timesOf idx (completeBars F.primary idx.length)).zip w, some ((timesOf idx (completeBars F.primary idx.length)).zip w2)⟩ := by
    unfold predictProbaAny probaMetaAny
    rw [hmm]
    dsimp only
    rw [hF, Py.bind_ok, primary_table F idx hd hi, Py.bind_ok, hw, Py.bind_ok, index_barTable, mkRows_bars _ _ _ _ hwl hwr, Py.bind_ok,
      if_neg (by simp [hfit]), hX, Py.bind_ok, hw2, Py.bind_ok, hXi, mkRows_bars _ _ _ _ hwl2 hwr2, Py.bind_ok, Py.bind_ok]
  exact ⟨h1, h2⟩

/-- **C160** (metalabeling, rows by rows) When the features of both models are complete at the same bars and the probabilities are not used as features:
whichever bars share their times, each of these bars gets the label of its own row as side and the probability of class 1 of its own row as size, and the
metalabeling model sees each bar with its own side. -/
theorem C160_metalabeling_partial (u : Joins K) (c : Cfg K) (X : Dict K) (F : Features K) (idx : List ℤ) (target : Frame K) (us : List Unit)
    (htar : X.lookup c.alignOn = some target) (hov : mapE (checkOverlap target.index) X = .ok us) (hF : features c X = .ok F)
    (hd : F.primary ≠ []) (hi : ∀ p ∈ F.primary, p.2.index = idx) (hm : F.metal ≠ []) (him : ∀ p ∈ F.metal, p.2.index = idx)
    (m : Clf K) (hmm : c.metaModel = some m) (hfit : m.fitted = true) (hone : 1 ∈ m.classes) (hbs : c.betSizer = none) (hq : c.useProba = false)
    (hbars : completeBars F.metal idx.length = completeBars F.primary idx.length) (hne : completeBars F.primary idx.length ≠ [])
    (v : List (XF K)) (w : List (List (XF K))) (v2 : List (XF K)) (w2 : List (List (XF K)))
    (hv : c.primary.predict (barTable F.primary idx (completeBars F.primary idx.length)) = .ok v) (hvl : v.length = (completeBars F.primary idx.length).length)
    (hvn : ∀ x ∈ v, x.isNan = false)
    (hw : c.primary.proba (barTable F.primary idx (completeBars F.primary idx.length)) = .ok w) (hwl : w.length = (completeBars F.primary idx.length).length)
    (hwr : ∀ r ∈ w, r.length = c.primary.classes.length)
    (hv2 : m.predict (sidedTable c.usePredictions F.metal idx (completeBars F.primary idx.length) v) = .ok v2)
    (hvl2 : v2.length = (completeBars F.primary idx.length).length)
    (hw2 : m.proba (sidedTable c.usePredictions F.metal idx (completeBars F.primary idx.length) v) = .ok w2)
    (hwl2 : w2.length = (completeBars F.primary idx.length).length) (hwr2 : ∀ r ∈ w2, r.length = m.classes.length) :
    getSideAndSizeAny u c X = .ok (((timesOf idx (completeBars F.primary idx.length)).zip
      (v.zip (w2.map fun r => r.getD (m.classes.idxOf 1) .nan))).filter fun r => !r.2.1.isNan && !r.2.2.isNan) := by
  have htl : (timesOf idx (completeBars F.primary idx.length)).length = (completeBars F.primary idx.length).length := by unfold timesOf; simp
  obtain ⟨h1, h2⟩ := both_answer u c X F idx target us htar hov hF hd hi hm him m hmm hfit hq hbars hne v w v2 w2 hv hvl hvn hw hwl hwr hv2 hvl2 hw2 hwl2 hwr2
  unfold getSideAndSizeAny signalSizeAny sizeMetaAny probaOfOne
  rw [h1, Py.bind_ok, h2, Py.bind_ok, hmm, hbs]
  dsimp only
  rw [if_pos hone, Py.bind_ok, Option.getD_some]
  have e : (((timesOf idx (completeBars F.primary idx.length)).zip w2).map fun r => (r.1, r.2.getD (m.classes.idxOf 1) .nan)) =
      (timesOf idx (completeBars F.primary idx.length)).zip (w2.map fun r => r.getD (m.classes.idxOf 1) .nan) := by
    rw [List.zip_map_right]
    rfl
  rw [e]
  exact side_by_side u _ _ _ (by omega) (by rw [List.length_map]; omega)

/-- **C160** (metalabeling with a bet sizer) Under the conditions of `C160_metalabeling_partial`, a bet sizer that returns one size for each row, in the order of the
rows, is given one row for each bar (its time, its largest probability, the class of it and the side of the bar itself), and its sizes are the sizes of these bars, whichever bars
share their times.  An exception of the bet sizer is passed on. -/
theorem C160_metalabeling_sizer_partial (u : Joins K) (c : Cfg K) (X : Dict K) (F : Features K) (idx : List ℤ) (target : Frame K) (us : List Unit)
    (htar : X.lookup c.alignOn = some target) (hov : mapE (checkOverlap target.index) X = .ok us) (hF : features c X = .ok F)
    (hd : F.primary ≠ []) (hi : ∀ p ∈ F.primary, p.2.index = idx) (hm : F.metal ≠ []) (him : ∀ p ∈ F.metal, p.2.index = idx)
    (m : Clf K) (hmm : c.metaModel = some m) (hfit : m.fitted = true) (hcl : m.classes ≠ [])
    (bs : List (BetRow K) → Py (Ser K)) (hbs : c.betSizer = some bs) (hq : c.useProba = false)
    (hbars : completeBars F.metal idx.length = completeBars F.primary idx.length) (hne : completeBars F.primary idx.length ≠ [])
    (v : List (XF K)) (w : List (List (XF K))) (v2 : List (XF K)) (w2 : List (List (XF K)))
    (hv : c.primary.predict (barTable F.primary idx (completeBars F.primary idx.length)) = .ok v) (hvl : v.length = (completeBars F.primary idx.length).length)
    (hvn : ∀ x ∈ v, x.isNan = false)
    (hw : c.primary.proba (barTable F.primary idx (completeBars F.primary idx.length)) = .ok w) (hwl : w.length = (completeBars F.primary idx.length).length)
    (hwr : ∀ r ∈ w, r.length = c.primary.classes.length)
    (hv2 : m.predict (sidedTable c.usePredictions F.metal idx (completeBars F.primary idx.length) v) = .ok v2)
    (hvl2 : v2.length = (completeBars F.primary idx.length).length)
    (hw2 : m.proba (sidedTable c.usePredictions F.metal idx (completeBars F.primary idx.length) v) = .ok w2)
    (hwl2 : w2.length = (completeBars F.primary idx.length).length) (hwr2 : ∀ r ∈ w2, r.length = m.classes.length) :
    ∃ b, BetInput m.classes none ((timesOf idx (completeBars F.primary idx.length)).zip w2) (b.map fun q => { q with side := none }) ∧
      b.map (·.side) = v.map some ∧
      (∀ z : List (XF K), z.length = b.length → bs b = .ok ((b.map (·.time)).zip z) → getSideAndSizeAny u c X =
        .ok (((timesOf idx (completeBars F.primary idx.length)).zip (v.zip z)).filter fun r => !r.2.1.isNan && !r.2.2.isNan)) ∧
      ∀ e, bs b = .error e → getSideAndSizeAny u c X = .error e := by
  have htl : (timesOf idx (completeBars F.primary idx.length)).length = (completeBars F.primary idx.length).length := by unfold timesOf; simp
  obtain ⟨h1, h2⟩ := both_answer u c X F idx target us htar hov hF hd hi hm him m hmm hfit hq hbars hne v w v2 w2 hv hvl hvn hw hwl hwr hv2 hvl2 hw2 hwl2 hwr2
  obtain ⟨b, hb, hbt⟩ := betRows_total m.classes hcl none ((timesOf idx (completeBars F.primary idx.length)).zip w2)
    fun r hr => hwr2 r.2 (List.of_mem_zip hr).2
  have hbi := betRows_input m.classes none (fun s h => by cases h) _ b hb
  rw [zip_fst _ _ (by omega)] at hbt
  have hbl : b.length = v.length := by rw [← List.length_map (f := fun q : BetRow K => q.time), hbt]; omega
  have hnone : ∀ q ∈ b, q.side = none := by
    intro q hq
    obtain ⟨n, hn, rfl⟩ := List.getElem_of_mem hq
    obtain ⟨hlen, hall⟩ := List.forall₂_iff_get.1 hbi
    exact (hall n (by rw [hlen]; exact hn) hn).2.2.2.2 rfl
  have hsides : sidesAt ((timesOf idx (completeBars F.primary idx.length)).zip v) (((timesOf idx (completeBars F.primary idx.length)).zip w2).map (·.1)) = .ok v := by
    unfold sidesAt
    rw [zip_fst _ _ (by omega), zip_fst _ _ (by omega), if_pos rfl, List.map_snd_zip (by omega)]
  have ht : (List.zipWith (fun (r : BetRow K) s => { r with side := some s }) b v).map (·.time) = timesOf idx (completeBars F.primary idx.length) := by
    rw [← hbt]
    apply List.ext_getElem
    · simp [hbl]
    · intro n a1 a2
      simp
  have hl : (List.zipWith (fun (r : BetRow K) s => { r with side := some s }) b v).length = v.length := by simp [hbl]
  have hs : signalSizeAny u c X ⟨(timesOf idx (completeBars F.primary idx.length)).zip w, some ((timesOf idx (completeBars F.primary idx.length)).zip w2)⟩ =
      bs (List.zipWith (fun r s => { r with side := some s }) b v) := by
    unfold signalSizeAny sizeMetaAny
    rw [hmm, hbs]
    dsimp only
    rw [Option.getD_some, hb, Py.bind_ok, h1, Py.bind_ok, hsides, Py.bind_ok]
  refine ⟨List.zipWith (fun r s => { r with side := some s }) b v, ?_, ?_, fun z hz h => ?_, fun e h => ?_⟩
  · convert hbi using 1
    apply List.ext_getElem
    · simp [hbl]
    · intro n a1 a2
      have := hnone b[n] (List.getElem_mem _)
      simp [← this]
  · apply List.ext_getElem
    · simp [hbl]
    · intro n a1 a2
      simp
  · unfold getSideAndSizeAny
    rw [h1, Py.bind_ok, h2, Py.bind_ok, hs, h, Py.bind_ok, ht]
    exact side_by_side u _ _ _ (by omega) (by omega)
  · unfold getSideAndSizeAny
    rw [h1, Py.bind_ok, h2, Py.bind_ok, hs, h, Py.bind_error]

/-- **C160** (different rows) When two bars with all features of the primary model share a time, the sides are used as features and the bars with all
features of the metalabeling model have other times (for example because of a longer warm-up), neither `predict` nor `get_side_and_size` gives anything:
`ValueError`. -/
theorem C160_different_rows (u : Joins K) (c : Cfg K) (X : Dict K) (F : Features K) (idx : List ℤ) (target : Frame K) (us : List Unit)
    (htar : X.lookup c.alignOn = some target) (hov : mapE (checkOverlap target.index) X = .ok us) (hF : features c X = .ok F)
    (hd : F.primary ≠ []) (hi : ∀ p ∈ F.primary, p.2.index = idx) (hm : F.metal ≠ []) (him : ∀ p ∈ F.metal, p.2.index = idx)
    (m : Clf K) (hmm : c.metaModel = some m) (hu : c.usePredictions = true)
    (hdup : ¬ (timesOf idx (completeBars F.primary idx.length)).Nodup) (hsome : completeBars F.metal idx.length ≠ [])
    (hdiff : timesOf idx (completeBars F.metal idx.length) ≠ timesOf idx (completeBars F.primary idx.length))
    (v : List (XF K)) (hv : c.primary.predict (barTable F.primary idx (completeBars F.primary idx.length)) = .ok v)
    (hvl : v.length = (completeBars F.primary idx.length).length) :
    predictAny u c X = .error .valueError ∧ getSideAndSizeAny u c X = .error .valueError := by
  have htl : (timesOf idx (completeBars F.primary idx.length)).length = (completeBars F.primary idx.length).length := by unfold timesOf; simp
  have hX : metaFeaturesAny u c (barTable F.primary idx (completeBars F.primary idx.length)) F = .error .valueError := by
    unfold metaFeaturesAny withPredictionAny
    rw [concat_same _ _ hm him, Py.bind_ok, dropna_table, if_pos hu, hv, Py.bind_ok, index_barTable, mkSeries_bars _ _ _ hvl, Py.bind_ok]
    unfold assignSeries
    rw [zip_fst _ _ (by omega), index_barTable, if_neg, if_neg (fun h => hdiff h.symm), if_neg hdup, Py.bind_error]
    unfold barTable
    simpa using hsome
  have h1 : predictAny u c X = .error .valueError := by
    unfold predictAny metaFitted predictMetaAny
    rw [hmm, htar]
    dsimp only
    split
    · rfl
    · rw [hov, Py.bind_ok, hF, Py.bind_ok, primary_table F idx hd hi, Py.bind_ok, hv, Py.bind_ok, index_barTable,
        mkSeries_bars _ _ _ hvl, Py.bind_ok, hX, Py.bind_error, Py.bind_error]
  refine ⟨h1, ?_⟩
  unfold getSideAndSizeAny
  rw [h1, Py.bind_error]

/-- **C160** (different rows, bet sizer) When two bars with all features of the primary model share a time, neither sides nor probabilities are used as features and the
bars with all features of the metalabeling model are at other times, `predict` and `predict_proba` answer for every bar, but with a bet sizer `get_side_and_size` raises
`ValueError`, whatever the bet sizer does. -/
theorem C160_sizer_different_rows (u : Joins K) (c : Cfg K) (X : Dict K) (F : Features K) (idx : List ℤ) (target : Frame K) (us : List Unit)
    (htar : X.lookup c.alignOn = some target) (hov : mapE (checkOverlap target.index) X = .ok us) (hF : features c X = .ok F)
    (hd : F.primary ≠ []) (hi : ∀ p ∈ F.primary, p.2.index = idx) (hm : F.metal ≠ []) (him : ∀ p ∈ F.metal, p.2.index = idx)
    (m : Clf K) (hmm : c.metaModel = some m) (hfit : m.fitted = true) (hcl : m.classes ≠ []) (hbs : c.betSizer ≠ none) (hu : c.usePredictions = false)
    (hq : c.useProba = false) (hdup : ¬ (timesOf idx (completeBars F.primary idx.length)).Nodup)
    (hdiff : timesOf idx (completeBars F.metal idx.length) ≠ timesOf idx (completeBars F.primary idx.length))
    (v : List (XF K)) (w : List (List (XF K))) (v2 : List (XF K)) (w2 : List (List (XF K)))
    (hv : c.primary.predict (barTable F.primary idx (completeBars F.primary idx.length)) = .ok v) (hvl : v.length = (completeBars F.primary idx.length).length)
    (hw : c.primary.proba (barTable F.primary idx (completeBars F.primary idx.length)) = .ok w) (hwl : w.length = (completeBars F.primary idx.length).length)
    (hwr : ∀ r ∈ w, r.length = c.primary.classes.length)
    (hv2 : m.predict (barTable F.metal idx (completeBars F.metal idx.length)) = .ok v2) (hvl2 : v2.length = (completeBars F.metal idx.length).length)
    (hw2 : m.proba (barTable F.metal idx (completeBars F.metal idx.length)) = .ok w2) (hwl2 : w2.length = (completeBars F.metal idx.length).length)
    (hwr2 : ∀ r ∈ w2, r.length = m.classes.length) :
    predictAny u c X = .ok ⟨(timesOf idx (completeBars F.primary idx.length)).zip v, some ((timesOf idx (completeBars F.metal idx.length)).zip v2)⟩ ∧
      predictProbaAny u c X = .ok ⟨(timesOf idx (completeBars F.primary idx.length)).zip w, some ((timesOf idx (completeBars F.metal idx.length)).zip w2)⟩ ∧
      getSideAndSizeAny u c X = .error .valueError := by
  have htl : (timesOf idx (completeBars F.primary idx.length)).length = (completeBars F.primary idx.length).length := by unfold timesOf; simp
  have htm : (timesOf idx (completeBars F.metal idx.length)).length = (completeBars F.metal idx.length).length := by unfold timesOf; simp
  have hX : metaFeaturesAny u c (barTable F.primary idx (completeBars F.primary idx.length)) F = .ok (barTable F.metal idx (completeBars F.metal idx.length)) := by
    unfold metaFeaturesAny withPredictionAny withProbaAny
    rw [concat_same _ _ hm him, Py.bind_ok, dropna_table, if_neg (by simp [hu]), Py.bind_ok, if_neg (by simp [hq]), Py.bind_ok, if_pos]
    rw [List.all_eq_true]
    intro r hr
    unfold complete
    rw [List.all_eq_true]
    intro x hx
    rw [Bool.not_eq_true']
    obtain ⟨i, hi, rfl⟩ := List.mem_map.1 hr
    exact nonmissing_row _ _ _ hi x hx
  have h1 : predictAny u c X =
      .ok ⟨(timesOf idx (completeBars F.primary idx.length)).zip v, some ((timesOf idx (completeBars F.metal idx.length)).zip v2)⟩ := by
    unfold predictAny metaFitted predictMetaAny
    rw [hmm, htar]
    dsimp only
    rw [if_neg (by simp [hfit]), hov, Py.bind_ok, hF, Py.bind_ok, primary_table F idx hd hi, Py.bind_ok, hv, Py.bind_ok, index_barTable,
      mkSeries_bars _ _ _ hvl, Py.bind_ok, hX, Py.bind_ok, hv2, Py.bind_ok, index_barTable, mkSeries_bars _ _ _ hvl2, Py.bind_ok, Py.bind_ok]
  have h2 : predictProbaAny u c X =
      .ok ⟨(timesOf idx (completeBars F.primary idx.length)).zip w, some ((timesOf idx (completeBars F.metal idx.length)).zip w2)⟩ := by
    unfold predictProbaAny probaMetaAny
    rw [hmm]
    dsimp only
    rw [hF, Py.bind_ok, primary_table F idx hd hi, Py.bind_ok, hw, Py.bind_ok, index_barTable, mkRows_bars _ _ _ _ hwl hwr, Py.bind_ok,
      if_neg (by simp [hfit]), hX, Py.bind_ok, hw2, Py.bind_ok, index_barTable, mkRows_bars _ _ _ _ hwl2 hwr2, Py.bind_ok, Py.bind_ok]
  refine ⟨h1, h2, ?_⟩
  obtain ⟨b, hb, -⟩ := betRows_total m.classes hcl none ((timesOf idx (completeBars F.metal idx.length)).zip w2)
    fun r hr => hwr2 r.2 (List.of_mem_zip hr).2
  obtain ⟨bs, hbs⟩ := Option.ne_none_iff_exists'.1 hbs
  unfold getSideAndSizeAny signalSizeAny sizeMetaAny sidesAt
  rw [h1, Py.bind_ok, h2, Py.bind_ok, hmm, hbs]
  dsimp only
  rw [Option.getD_some, hb, Py.bind_ok, Py.bind_ok, zip_fst _ _ (by omega), zip_fst _ _ (by omega), if_neg (fun h => hdiff h.symm), if_neg hdup, Py.bind_error,
    Py.bind_error]

private theorem concat_unique_rows (d : Dict K) (hd : UniqueDict d) : concatRows (d.map (·.2)) = concatOuter (d.map (·.2)) := by
  by_cases hall : ((d.map (·.2)).all fun f => decide (f.index = ((d.map (·.2)).headD (⟨[], []⟩ : Frame K)).index)) = true
  · cases d with
    | nil => rfl
    | cons p d =>
      refine concat_nodup _ p.2.index (hd p (by simp)) fun f hf => ?_
      have := of_decide_eq_true (List.all_eq_true.1 hall f hf)
      simpa using this
  · unfold concatRows
    by_cases h0 : d.map (·.2) = []
    · rw [if_pos h0]
      unfold concatOuter
      rw [if_pos h0]
    · rw [if_neg h0, if_neg hall, if_pos]
      rw [List.all_eq_true]
      intro f hf
      obtain ⟨p, hp, rfl⟩ := List.mem_map.1 hf
      exact decide_eq_true (hd p hp)

private theorem serAt_at (s : Ser K) (hs : (s.map (·.1)).Nodup) (k : ℕ) (hk : k < s.length) : serAt s s[k].1 = s[k].2 := by
  unfold serAt
  rw [find_of_mem s hs s[k].1 s[k].2 (List.getElem_mem _)]
  rfl

private theorem assign_unique (f : Frame K) (s : Ser K) (hf : f.rows ≠ []) (hs : (s.map (·.1)).Nodup) : assignSeries f s = .ok (addPrediction f s) := by
  unfold assignSeries
  rw [if_neg hf]
  by_cases he : s.map (·.1) = f.index
  · rw [if_pos he]
    unfold addPrediction
    congr 2
    have hl : s.length = f.rows.length := by
      have := congrArg List.length he
      simpa [Frame.index] using this
    apply List.ext_getElem
    · simp [hl]
    · intro i h1 h2
      have hi : i < f.rows.length := by simpa using h2
      have ht : s[i].1 = f.rows[i].1 := by
        have := List.getElem_of_eq he (i := i) (by simp; omega)
        simpa [Frame.index] using this
      rw [List.getElem_zipWith, List.getElem_map, ← ht, serAt_at s hs i (by omega)]
  · rw [if_neg he, if_pos hs]

private theorem meta_unique (u : Joins K) (c : Cfg K) (Xp : Frame K) (F : Features K) (hX : Xp.index.Nodup) (hm : UniqueDict F.metal)
    (hne : c.usePredictions = true → ∀ f, concatOuter (F.metal.map (·.2)) = .ok f → f.dropna.rows ≠ []) :
    metaFeaturesAny u c Xp F = metaFeatures c Xp F := by
  unfold metaFeaturesAny metaFeatures
  rw [concat_unique_rows _ hm]
  cases hf : concatOuter (F.metal.map (·.2)) with
  | error e => rfl
  | ok f =>
    rw [Py.bind_ok, Py.bind_ok]
    have hfn := dropna_index_nodup (concat_unique hm hf)
    have h1 : withPredictionAny c Xp f.dropna = withPrediction c Xp f.dropna := by
      unfold withPredictionAny withPrediction
      cases hu : c.usePredictions with
      | false => rfl
      | true =>
        rw [if_pos rfl, if_pos rfl]
        cases c.primary.predict Xp with
        | error e => rfl
        | ok v =>
          rw [Py.bind_ok, Py.bind_ok]
          cases hs : mkSeries Xp.index v with
          | error e => rfl
          | ok s =>
            rw [Py.bind_ok, Py.bind_ok]
            exact assign_unique _ _ (hne hu f hf) (by rw [(mkSeries_ok hs).2.2]; exact hX)
    rw [h1]
    cases h2 : withPrediction c Xp f.dropna with
    | error e => rfl
    | ok f1 =>
      have hi : f1.index.Nodup := by
        unfold withPrediction at h2
        split at h2
        · obtain ⟨v, -, h2⟩ := Py.bind_eq_ok.1 h2
          obtain ⟨s, -, h2⟩ := Py.bind_eq_ok.1 h2
          rw [← Except.ok.inj h2, addPrediction_index]
          exact hfn
        · rw [← Except.ok.inj h2]
          exact hfn
      have h3 : withProbaAny u c Xp f1 = withProba c Xp f1 := by
        unfold withProbaAny withProba
        simp only [if_pos (⟨hi, hX⟩ : f1.index.Nodup ∧ Xp.index.Nodup)]
      have h4 : assignedToEmpty c Xp f.dropna = false := by
        unfold assignedToEmpty
        cases hu : c.usePredictions with
        | false => rfl
        | true =>
          cases hr : f.dropna.rows with
          | nil => exact absurd hr (hne hu f hf)
          | cons a l => rfl
      rw [Py.bind_ok, Py.bind_ok, h3, h4]
      simp only [Bool.not_false, Bool.and_true]

private theorem side_unique (u : Joins K) (a b : Ser K) (ha : (a.map (·.1)).Nodup) (hb : (b.map (·.1)).Nodup) :
    sideSizeAny u a b = .ok (sideSize a b) := by
  unfold sideSizeAny
  by_cases he : a.map (·.1) = b.map (·.1)
  · rw [if_pos he]
    unfold sideSize
    have hj : joinIndex [a.map (·.1), b.map (·.1)] = a.map (·.1) := by
      unfold joinIndex
      rw [if_pos (by simp [he])]
      rfl
    rw [hj]
    congr 2
    have hl : a.length = b.length := by simpa using congrArg List.length he
    apply List.ext_getElem
    · simp [hl]
    · intro i h1 h2
      have hi : i < a.length := by simpa using h2
      have ht : a[i].1 = b[i].1 := by
        have := List.getElem_of_eq he (i := i) (by simpa using hi)
        simpa using this
      rw [List.getElem_zipWith, List.getElem_map, List.getElem_map, serAt_at a ha i hi, ht, serAt_at b hb i (by omega)]
  · rw [if_neg he, if_pos ⟨ha, hb⟩]

private theorem sidesAt_unique (s : Ser K) (hs : (s.map (·.1)).Nodup) (idx : List ℤ) : sidesAt s idx = .ok (idx.map (serAt s)) := by
  unfold sidesAt
  by_cases h : s.map (·.1) = idx
  · rw [if_pos h]
    congr 1
    apply List.ext_getElem
    · rw [← h]; simp
    · intro n a1 a2
      have hn : n < s.length := by simpa using a1
      subst h
      rw [List.getElem_map, List.getElem_map, List.getElem_map, serAt_at s hs n hn]
  · rw [if_neg h, if_pos hs]

private theorem betRows_sides (classes : List K) (s : Ser K) (rows : List (ℤ × List (XF K))) :
    mapE (betRow classes (some s)) rows = (mapE (betRow classes none) rows).map
      fun b => List.zipWith (fun r x => { r with side := some x }) b ((rows.map (·.1)).map (serAt s)) := by
  induction rows with
  | nil => rfl
  | cons r rows ih =>
    have h1 : betRow classes (some s) r = (betRow classes none r).map fun q => { q with side := some (serAt s r.1) } := by
      unfold betRow
      cases argmax r.2 with
      | error e => rfl
      | ok i =>
        simp only [Py.bind_ok]
        cases getE classes i <;> rfl
    unfold mapE
    rw [ih, h1]
    cases betRow classes none r with
    | error e => rfl
    | ok q =>
      cases mapE (betRow classes none) rows <;> rfl

/-- **C160** (distinct times) When no frame repeats a time (and, if the sides are used as features, some time has all features of the metalabeling model),
labels, probabilities, sides and sizes are those of C47, C48, C105 and C141, whatever pandas does with repeated times; a bet sizer must not repeat times either. -/
theorem C160_distinct_times_partial (u : Joins K) (c : Cfg K) (X : Dict K) (F : Features K) (hF : features c X = .ok F)
    (hp : UniqueDict F.primary) (hm : UniqueDict F.metal)
    (hne : c.usePredictions = true → ∀ f, concatOuter (F.metal.map (·.2)) = .ok f → f.dropna.rows ≠ []) :
    predictAny u c X = predict c X ∧ predictProbaAny u c X = predictProba c X ∧
      ((∀ bs, c.betSizer = some bs → ∀ b z, (b.map BetRow.time).Nodup → bs b = .ok z → (z.map (·.1)).Nodup) →
        getSideAndSizeAny u c X = getSideAndSize c X) := by
  have hPF : primaryFrameAny F = primaryFrame F := by
    unfold primaryFrameAny primaryFrame
    rw [concat_unique_rows _ hp]
  have e1 : predictAny u c X = predict c X := by
    unfold predictAny predict
    split
    · rfl
    · cases X.lookup c.alignOn with
      | none => rfl
      | some target =>
        dsimp only
        rw [hF]
        simp only [Py.bind_ok, hPF]
        cases hXp : primaryFrame F with
        | error e => rfl
        | ok Xp =>
          simp only [Py.bind_ok]
          have := primaryFrame_unique hp hXp
          unfold predictMetaAny predictMeta
          cases hmm : c.metaModel with
          | none => rfl
          | some m => simp only [meta_unique u c Xp F this hm hne]
  have e2 : predictProbaAny u c X = predictProba c X := by
    unfold predictProbaAny predictProba
    rw [hF]
    simp only [Py.bind_ok, hPF]
    cases hXp : primaryFrame F with
    | error e => rfl
    | ok Xp =>
      simp only [Py.bind_ok]
      have := primaryFrame_unique hp hXp
      unfold probaMetaAny probaMeta
      cases hmm : c.metaModel with
      | none => rfl
      | some m => simp only [meta_unique u c Xp F this hm hne]
  refine ⟨e1, e2, fun hB => ?_⟩
  unfold getSideAndSizeAny getSideAndSize
  rw [e1, e2]
  cases h1 : predict c X with
  | error e => rfl
  | ok pred =>
    rw [Py.bind_ok, Py.bind_ok]
    cases h2 : predictProba c X with
    | error e => rfl
    | ok proba =>
      rw [Py.bind_ok, Py.bind_ok]
      -- the times of the side and of the probabilities are distinct
      have n1 : (pred.primary.map (·.1)).Nodup := by
        unfold predict at h1
        split at h1
        · simp at h1
        · cases ht : X.lookup c.alignOn with
          | none => rw [ht] at h1; simp at h1
          | some target =>
            rw [ht] at h1
            dsimp only at h1
            rw [hF] at h1
            simp only [Py.bind_eq_ok, Except.ok.injEq] at h1
            obtain ⟨_, -, F', rfl, Xp, hXp, v, -, s, hs, sm, -, rfl⟩ := h1
            dsimp only
            rw [(mkSeries_ok hs).2.2]
            exact primaryFrame_unique hp hXp
      unfold predictProba at h2
      rw [hF] at h2
      simp only [Py.bind_eq_ok, Except.ok.injEq] at h2
      obtain ⟨F', rfl, Xp, hXp, v, -, p, hpr, pm, hpm, rfl⟩ := h2
      have n2 : (p.map (·.1)).Nodup := by rw [(mkRows_ok hpr).2.1]; exact primaryFrame_unique hp hXp
      have n3 : ∀ m, c.metaModel = some m → ((pm.getD []).map (·.1)).Nodup := by
        intro m hmm
        unfold probaMeta at hpm
        rw [hmm] at hpm
        dsimp only at hpm
        split at hpm
        · simp at hpm
        · simp only [Py.bind_eq_ok, Except.ok.injEq] at hpm
          obtain ⟨Xm, hXm, w, -, q, hq, rfl⟩ := hpm
          have := metaFeatures_unique hm hXm
          rw [← (mkRows_ok hq).2.1] at this
          exact this
      unfold signalSizeAny signalSize sizeMetaAny sizeMeta sizePrimary
      cases hmm : c.metaModel with
      | none =>
        cases hbs : c.betSizer with
        | none =>
          dsimp only
          rw [Py.bind_ok, Py.bind_ok]
          refine side_unique u _ _ n1 ?_
          rw [List.map_map]
          exact n2
        | some bs =>
          dsimp only
          cases hb : mapE (betRow c.primary.classes none) p with
          | error e => rfl
          | ok b =>
            rw [Py.bind_ok]
            cases hz : bs b with
            | error e => rfl
            | ok z => exact side_unique u _ _ n1 (hB bs hbs b z (by rw [betRows_times hb]; exact n2) hz)
      | some m =>
        cases hbs : c.betSizer with
        | none =>
          dsimp only
          unfold probaOfOne
          split
          · rw [Py.bind_ok, Py.bind_ok]
            refine side_unique u _ _ n1 ?_
            rw [List.map_map]
            exact n3 m hmm
          · rfl
        | some bs =>
          dsimp only
          rw [e1, h1]
          simp only [Py.bind_ok, sidesAt_unique _ n1, betRows_sides]
          cases hb : mapE (betRow m.classes none) (pm.getD []) with
          | error e => rfl
          | ok b =>
            simp only [Py.bind_ok, Except.map]
            cases hz : bs (List.zipWith (fun r s => { r with side := some s }) b (((pm.getD []).map (·.1)).map (serAt pred.primary))) with
            | error e => rfl
            | ok z =>
              refine side_unique u _ _ n1 (hB bs hbs _ z ?_ hz)
              have ht := betRows_times hb
              have hl : b.length = (pm.getD []).length := by simpa using congrArg List.length ht
              have : (List.zipWith (fun (r : BetRow K) s => { r with side := some s }) b (((pm.getD []).map (·.1)).map (serAt pred.primary))).map BetRow.time =
                  b.map BetRow.time := by
                apply List.ext_getElem
                · simp [hl]
                · intro n a1 a2
                  simp
              rw [this, ht]
              exact n3 m hmm

section Examples

/-- The primary model: a side for each row, from its first feature. -/
private def twinPrimary : Clf ℚ where
  fitted := true
  classes := [-1, 1]
  predict f := .ok (f.rows.map fun r => if XF.lt (.fin 2) (r.2.headD .nan) then .fin 1 else .fin (-1))
  proba f := .ok (f.rows.map fun r => if XF.lt (.fin 2) (r.2.headD .nan) then [.fin (1/4), .fin (3/4)] else [.fin (2/3), .fin (1/3)])

/-- The metalabeling model: a probability from the last feature, the side of the row. -/
private def twinMeta : Clf ℚ where
  fitted := true
  classes := [0, 1]
  predict f := .ok (f.rows.map fun _ => .fin 1)
  proba f := .ok (f.rows.map fun r => if XF.lt (.fin 0) (r.2.getLastD .nan) then [.fin (1/5), .fin (4/5)] else [.fin (3/5), .fin (2/5)])

private def twinCfg (second : Option (Clf ℚ)) (trMeta : List (String × Tr ℚ)) : Cfg ℚ where
  alignOn := "bars"
  alignHow := []
  trPrimary := [("bars", none)]
  trMeta := trMeta
  primary := twinPrimary
  metaModel := second
  useProba := false
  usePredictions := true
  betSizer := none

/-- Bars at the times 10, 20, 20. -/
private def twinData : Dict ℚ := [("bars", ⟨["c"], [(10, [.fin 1]), (20, [.fin 2]), (20, [.fin 3])]⟩)]

/-- The same features after a warm-up of one bar. -/
private def warmUp : Frame ℚ → Py (Frame ℚ) := fun f => .ok ⟨f.cols, f.rows.mapIdx fun i r => if i = 0 then (r.1, [.nan]) else r⟩

/-- Whatever pandas does with repeated times. -/
private def anyJoins : Joins ℚ := ⟨fun f _ _ => .ok f, fun _ _ => .error .keyError⟩

example : getSideAndSizeAny anyJoins (twinCfg none []) twinData =
    .ok [(10, .fin (-1), .fin (2/3)), (20, .fin (-1), .fin (2/3)), (20, .fin 1, .fin (3/4))] := by
  rw [C160_primary anyJoins (twinCfg none []) twinData ⟨twinData, []⟩ [10, 20, 20] _ [()] rfl (by decide +kernel) (by decide +kernel)
    (by simp [twinData]) (by decide +kernel) rfl rfl [.fin (-1), .fin (-1), .fin 1] [[.fin (2/3), .fin (1/3)], [.fin (2/3), .fin (1/3)], [.fin (1/4), .fin (3/4)]]
    (by decide +kernel) (by decide +kernel) (by decide +kernel) (by decide +kernel) (by decide +kernel)]
  decide +kernel

/-- A bet sizer that returns half the largest probability. -/
private def halfSizer (b : List (BetRow ℚ)) : Py (Ser ℚ) := .ok (b.map fun q => (q.time, XF.div q.prob (.fin 2)))

example : ∃ b : List (BetRow ℚ), b.length = 3 ∧ getSideAndSizeAny anyJoins { twinCfg none [] with betSizer := some halfSizer } twinData =
    .ok ((([10, 20, 20] : List ℤ).zip ([.fin (-1), .fin (-1), .fin 1].zip (b.map fun q => XF.div q.prob (.fin 2)))).filter
      fun r => !r.2.1.isNan && !r.2.2.isNan) := by
  obtain ⟨b, hb, h, -⟩ := C160_primary_sizer anyJoins { twinCfg none [] with betSizer := some halfSizer } twinData ⟨twinData, []⟩ [10, 20, 20] _ [()] rfl
    (by decide +kernel) (by decide +kernel) (by simp [twinData]) (by decide +kernel) rfl halfSizer rfl (by simp [twinCfg, twinPrimary]) [.fin (-1), .fin (-1), .fin 1]
    [[.fin (2/3), .fin (1/3)], [.fin (2/3), .fin (1/3)], [.fin (1/4), .fin (3/4)]] (by decide +kernel) (by decide +kernel) (by decide +kernel) (by decide +kernel)
    (by decide +kernel)
  refine ⟨b, by rw [← hb.length_eq]; decide +kernel, ?_⟩
  rw [h (b.map fun q => XF.div q.prob (.fin 2)) (by simp) (by unfold halfSizer; rw [List.zip_map'])]
  rfl

example : getSideAndSizeAny anyJoins (twinCfg (some twinMeta) [("bars", none)]) twinData =
    .ok [(10, .fin (-1), .fin (2/5)), (20, .fin (-1), .fin (2/5)), (20, .fin 1, .fin (4/5))] := by
  rw [C160_metalabeling_partial anyJoins (twinCfg (some twinMeta) [("bars", none)]) twinData ⟨twinData, twinData⟩ [10, 20, 20] _ [()] rfl (by decide +kernel)
    (by decide +kernel) (by simp [twinData]) (by decide +kernel) (by simp [twinData]) (by decide +kernel) twinMeta rfl rfl (by decide +kernel) rfl rfl rfl
    (by decide +kernel) [.fin (-1), .fin (-1), .fin 1] [[.fin (2/3), .fin (1/3)], [.fin (2/3), .fin (1/3)], [.fin (1/4), .fin (3/4)]]
    [.fin 1, .fin 1, .fin 1] [[.fin (3/5), .fin (2/5)], [.fin (3/5), .fin (2/5)], [.fin (1/5), .fin (4/5)]]
    (by decide +kernel) (by decide +kernel) (by decide +kernel) (by decide +kernel) (by decide +kernel) (by decide +kernel) (by decide +kernel)
    (by decide +kernel) (by decide +kernel) (by decide +kernel) (by decide +kernel)]
  decide +kernel

example : ∃ b : List (BetRow ℚ), b.map (·.side) = [some (.fin (-1)), some (.fin (-1)), some (.fin 1)] ∧
    getSideAndSizeAny anyJoins { twinCfg (some twinMeta) [("bars", none)] with betSizer := some halfSizer } twinData =
    .ok ((([10, 20, 20] : List ℤ).zip ([.fin (-1), .fin (-1), .fin 1].zip (b.map fun q => XF.div q.prob (.fin 2)))).filter
      fun r => !r.2.1.isNan && !r.2.2.isNan) := by
  obtain ⟨b, -, hs, h, -⟩ := C160_metalabeling_sizer_partial anyJoins { twinCfg (some twinMeta) [("bars", none)] with betSizer := some halfSizer } twinData
    ⟨twinData, twinData⟩ [10, 20, 20] _ [()] rfl (by decide +kernel)
    (by decide +kernel) (by simp [twinData]) (by decide +kernel) (by simp [twinData]) (by decide +kernel) twinMeta rfl rfl (by simp [twinMeta]) halfSizer rfl rfl rfl
    (by decide +kernel) [.fin (-1), .fin (-1), .fin 1] [[.fin (2/3), .fin (1/3)], [.fin (2/3), .fin (1/3)], [.fin (1/4), .fin (3/4)]]
    [.fin 1, .fin 1, .fin 1] [[.fin (3/5), .fin (2/5)], [.fin (3/5), .fin (2/5)], [.fin (1/5), .fin (4/5)]]
    (by decide +kernel) (by decide +kernel) (by decide +kernel) (by decide +kernel) (by decide +kernel) (by decide +kernel) (by decide +kernel)
    (by decide +kernel) (by decide +kernel) (by decide +kernel) (by decide +kernel)
  refine ⟨b, hs, ?_⟩
  rw [h (b.map fun q => XF.div q.prob (.fin 2)) (by simp) (by unfold halfSizer; rw [List.zip_map'])]
  rfl

/-- C160 fails: three bars with all features of the primary model, the last two also with those of the metalabeling model, and no side and size for any
of them, because these two share a time. -/
theorem C160_refuted : ∃ (c : Cfg ℚ) (X : Dict ℚ), ∀ u, predictAny u c X = .error .valueError ∧ getSideAndSizeAny u c X = .error .valueError :=
  ⟨twinCfg (some twinMeta) [("bars", some warmUp)], twinData, fun u =>
    C160_different_rows u _ twinData ⟨twinData, [("bars", ⟨["c"], [(10, [.nan]), (20, [.fin 2]), (20, [.fin 3])]⟩)]⟩ [10, 20, 20] _ [()] rfl (by decide +kernel)
      (by decide +kernel) (by simp [twinData]) (by decide +kernel) (by simp) (by decide +kernel) twinMeta rfl rfl (by decide +kernel) (by decide +kernel)
      (by decide +kernel) [.fin (-1), .fin (-1), .fin 1] (by decide +kernel) (by decide +kernel)⟩

/-- A longer warm-up of the metalabeling model and a bet sizer. -/
example (u : Joins ℚ) : getSideAndSizeAny u { twinCfg (some twinMeta) [("bars", some warmUp)] with usePredictions := false, betSizer := some halfSizer } twinData =
    .error .valueError :=
  (C160_sizer_different_rows u { twinCfg (some twinMeta) [("bars", some warmUp)] with usePredictions := false, betSizer := some halfSizer } twinData
    ⟨twinData, [("bars", ⟨["c"], [(10, [.nan]), (20, [.fin 2]), (20, [.fin 3])]⟩)]⟩ [10, 20, 20] _ [()] rfl (by decide +kernel)
    (by decide +kernel) (by simp [twinData]) (by decide +kernel) (by simp) (by decide +kernel) twinMeta rfl rfl (by simp [twinMeta]) (by simp) rfl rfl
    (by decide +kernel) (by decide +kernel) [.fin (-1), .fin (-1), .fin 1] [[.fin (2/3), .fin (1/3)], [.fin (2/3), .fin (1/3)], [.fin (1/4), .fin (3/4)]]
    [.fin 1, .fin 1] [[.fin (1/5), .fin (4/5)], [.fin (1/5), .fin (4/5)]]
    (by decide +kernel) (by decide +kernel) (by decide +kernel) (by decide +kernel) (by decide +kernel) (by decide +kernel) (by decide +kernel)
    (by decide +kernel) (by decide +kernel) (by decide +kernel)).2.2

/-- The same bars at the times 10, 20, 30. -/
private def apartData : Dict ℚ := [("bars", ⟨["c"], [(10, [.fin 1]), (20, [.fin 2]), (30, [.fin 3])]⟩)]

example (u : Joins ℚ) : getSideAndSizeAny u (twinCfg (some twinMeta) [("bars", none)]) apartData = getSideAndSize (twinCfg (some twinMeta) [("bars", none)]) apartData :=
  (C160_distinct_times_partial u (twinCfg (some twinMeta) [("bars", none)]) apartData ⟨apartData, apartData⟩ (by decide +kernel)
    (by unfold UniqueDict; decide +kernel) (by unfold UniqueDict; decide +kernel) (by
      intro _ f hf
      have : concatOuter (apartData.map (·.2)) = .ok ⟨["c"], [(10, [.fin 1]), (20, [.fin 2]), (30, [.fin 3])]⟩ := by decide +kernel
      change concatOuter (apartData.map (·.2)) = .ok f at hf
      rw [this] at hf
      cases hf
      decide +kernel)).2.2 (fun _ h => by cases h)

example (u : Joins ℚ) : getSideAndSizeAny u { twinCfg (some twinMeta) [("bars", none)] with betSizer := some halfSizer } apartData =
    getSideAndSize { twinCfg (some twinMeta) [("bars", none)] with betSizer := some halfSizer } apartData :=
  (C160_distinct_times_partial u { twinCfg (some twinMeta) [("bars", none)] with betSizer := some halfSizer } apartData ⟨apartData, apartData⟩ (by decide +kernel)
    (by unfold UniqueDict; decide +kernel) (by unfold UniqueDict; decide +kernel) (by
      intro _ f hf
      have : concatOuter (apartData.map (·.2)) = .ok ⟨["c"], [(10, [.fin 1]), (20, [.fin 2]), (30, [.fin 3])]⟩ := by decide +kernel
      change concatOuter (apartData.map (·.2)) = .ok f at hf
      rw [this] at hf
      cases hf
      decide +kernel)).2.2 (fun bs h b z hb hz => by
    cases h
    cases hz
    rw [List.map_map]
    exact hb)

end Examples

end Mizar.Props
