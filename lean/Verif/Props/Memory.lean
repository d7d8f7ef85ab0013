import Verif.Props.Causal
import Verif.Props.Signals
import Verif.Props.LongShort

/-!
Property theorem C125: how much history the features need.

`C58` says that later bars do not matter.  Here the earlier bars are dropped: a feature that looks back over a window
gives, from a stated position on, the values it gives on the whole history.
-/

set_option linter.unusedSectionVars false

namespace Mizar.Props
open Mizar.Spec Mizar.Tech Mizar.Feat Finset

/-- The frame without its first `d` rows, `X.iloc[d:]`. -/
def skipRows {K : Type} (d : ℕ) (f : Frame K) : Frame K := ⟨f.cols, f.rows.drop d⟩

/-- From position `m` on, the second series is the first one without its first `d` values. -/
def SameFrom {α : Type} (m d : ℕ) (a a' : List α) : Prop := ∀ i, m ≤ i → a'[i]? = a[i + d]?

/-- On a frame: without the first `d` rows, a transformer ends alike, and all its values but the first `m` are those on
the whole frame. -/
def RemembersAt {K : Type} (m : ℕ) (F : Frame K → Py (List (XF K))) (f : Frame K) : Prop :=
  ∀ d, Alike (SameFrom m d) (F f) (F (skipRows d f))

/-- A transformer that needs the `m` bars before a bar and no more, on every frame. -/
def Remembers {K : Type} (m : ℕ) (F : Frame K → Py (List (XF K))) : Prop := ∀ f, RemembersAt m F f

theorem alike_bind {α α' β β' : Type} {R : α → α' → Prop} {S : β → β' → Prop} {a : Py α} {a' : Py α'} {g : α → Py β} {g' : α' → Py β'}
    (h : Alike R a a') (hg : ∀ x x', a = .ok x → a' = .ok x' → R x x' → Alike S (g x) (g' x')) : Alike S (a >>= g) (a' >>= g') := by
  rcases h with ⟨e, rfl, rfl⟩ | ⟨x, x', rfl, rfl, h⟩
  · exact Or.inl ⟨e, rfl, rfl⟩
  · exact hg x x' rfl rfl h

theorem alike_ok {α β : Type} {R : α → β → Prop} {x : α} {y : β} (h : R x y) : Alike R (.ok x) (.ok y) := Or.inr ⟨_, _, rfl, rfl, h⟩

section
variable {α β γ : Type} {m m' d : ℕ}

theorem SameFrom.mono {a a' : List α} (h : SameFrom m d a a') (hm : m ≤ m') : SameFrom m' d a a' := fun i hi => h i (hm.trans hi)

theorem SameFrom.lt {a a' : List α} (h : SameFrom m d a a') {i : ℕ} (hi : m ≤ i) : i < a'.length ↔ i + d < a.length := by
  have := congrArg Option.isSome (h i hi)
  rw [Bool.eq_iff_iff] at this
  simpa [Option.isSome_iff_exists, List.getElem?_eq_some_iff] using this

theorem SameFrom.map {a a' : List α} (h : SameFrom m d a a') (g : α → β) : SameFrom m d (a.map g) (a'.map g) := by
  intro i hi
  rw [List.getElem?_map, List.getElem?_map, h i hi]

theorem SameFrom.zipWith {a a' : List α} {b b' : List β} (h : SameFrom m d a a') (k : SameFrom m d b b') (g : α → β → γ) :
    SameFrom m d (List.zipWith g a b) (List.zipWith g a' b') := by
  intro i hi
  rw [List.getElem?_zipWith, List.getElem?_zipWith, h i hi, k i hi]

theorem SameFrom.win {a a' : List α} (h : SameFrom m d a a') (w i : ℕ) (hi : m + (w - 1) ≤ i) : winAt w i a' = winAt w (i + d) a := by
  apply List.ext_getElem?
  intro j
  unfold winAt
  rw [List.getElem?_drop, List.getElem?_drop, List.getElem?_take, List.getElem?_take]
  by_cases hj : j < w
  · rw [if_pos (by omega), if_pos (by omega), h _ (by omega)]
    congr 1
    omega
  · rw [if_neg (by omega), if_neg (by omega)]
end

section
variable {K : Type} [Field K] [LinearOrder K] {m d : ℕ}

theorem SameFrom.rolling {a a' : List (XF K)} (h : SameFrom m d a a') (w : ℕ) (g : List K → XF K) :
    SameFrom (m + (w - 1)) d (rolling w g a) (rolling w g a') := by
  intro i hi
  by_cases hl : i < a'.length
  · rw [rolling_getElem? _ _ _ _ hl, rolling_getElem? _ _ _ _ ((h.lt (by omega)).1 hl)]
    unfold rollAt
    rw [h.win w i hi, if_neg (show ¬ i + 1 < w by omega), if_neg (show ¬ i + d + 1 < w by omega)]
  · have hl' : ¬ i + d < a.length := fun k => hl ((h.lt (by omega)).2 k)
    rw [List.getElem?_eq_none (by simpa using hl), List.getElem?_eq_none (by simpa using hl')]

theorem SameFrom.rolling2 {a a' b b' : List (XF K)} (h : SameFrom m d a a') (k : SameFrom m d b b') (w : ℕ) (g : List K → List K → XF K) :
    SameFrom (m + (w - 1)) d (rolling2 w g a b) (rolling2 w g a' b') := by
  intro i hi
  by_cases hl : i < a'.length
  · rw [rolling2_getElem? _ _ _ _ _ hl, rolling2_getElem? _ _ _ _ _ ((h.lt (by omega)).1 hl)]
    unfold rollAt2
    rw [h.win w i hi, k.win w i hi, if_neg (show ¬ i + 1 < w by omega), if_neg (show ¬ i + d + 1 < w by omega)]
  · have hl' : ¬ i + d < a.length := fun k => hl ((h.lt (by omega)).2 k)
    rw [List.getElem?_eq_none (by simpa using hl), List.getElem?_eq_none (by simpa using hl')]

theorem pdShift_getElem?_succ (l : List (XF K)) (i : ℕ) : (pdShift l)[i + 1]? = if i + 1 < l.length then l[i]? else none := by
  unfold pdShift
  rw [List.getElem?_take]
  rfl

theorem SameFrom.shift {a a' : List (XF K)} (h : SameFrom m d a a') : SameFrom (m + 1) d (pdShift a) (pdShift a') := by
  intro i hi
  obtain ⟨i, rfl⟩ : ∃ k, i = k + 1 := ⟨i - 1, by omega⟩
  rw [show i + 1 + d = i + d + 1 by omega, pdShift_getElem?_succ, pdShift_getElem?_succ, h i (by omega)]
  have := h.lt (i := i + 1) (by omega)
  rw [show i + 1 + d = i + d + 1 by omega] at this
  simp only [this]

theorem SameFrom.diff {a a' : List (XF K)} (h : SameFrom m d a a') : SameFrom (m + 1) d (pdDiff a) (pdDiff a') :=
  (h.mono (by omega)).zipWith h.shift XF.sub

theorem rollE_same {a a' : List (XF K)} (h : SameFrom m d a a') (w : ℤ) (g : List K → XF K) :
    Alike (SameFrom (m + (w.toNat - 1)) d) (rollE w g a) (rollE w g a') := by
  unfold rollE
  by_cases hw : w < 0
  · rw [if_pos hw, if_pos hw]; exact Or.inl ⟨_, rfl, rfl⟩
  · rw [if_neg hw, if_neg hw]; exact alike_ok (h.rolling _ _)

theorem rollE2_same {a a' b b' : List (XF K)} (h : SameFrom m d a a') (k : SameFrom m d b b') (w : ℤ) (g : List K → List K → XF K) :
    Alike (SameFrom (m + (w.toNat - 1)) d) (rollE2 w g a b) (rollE2 w g a' b') := by
  unfold rollE2
  by_cases hw : w < 0
  · rw [if_pos hw, if_pos hw]; exact Or.inl ⟨_, rfl, rfl⟩
  · rw [if_neg hw, if_neg hw]; exact alike_ok (h.rolling2 k _ _)

theorem sameFrom_drop {α : Type} (l : List α) (d : ℕ) : SameFrom 0 d l (l.drop d) := by
  intro i _
  rw [List.getElem?_drop, Nat.add_comm]

theorem values_skip (d : ℕ) (f : Frame K) (n : String) : (skipRows d f).values n = (f.values n).drop d := by
  simp [Frame.values, skipRows, List.map_drop]

theorem index_skip (d : ℕ) (f : Frame K) : (skipRows d f).index = f.index.drop d := by
  simp [Frame.index, skipRows, List.map_drop]

theorem values_same (d : ℕ) (f : Frame K) (n : String) : SameFrom 0 d (f.values n) ((skipRows d f).values n) := by
  rw [values_skip]; exact sameFrom_drop _ _

theorem col_same (d : ℕ) (f : Frame K) (n : String) : Alike (SameFrom 0 d) (f.col n) ((skipRows d f).col n) := by
  unfold Frame.col
  by_cases h : n ∈ f.cols
  · rw [if_pos h, if_pos (show n ∈ (skipRows d f).cols from h)]; exact alike_ok (values_same d f n)
  · rw [if_neg h, if_neg (show n ∉ (skipRows d f).cols from h)]; exact Or.inl ⟨_, rfl, rfl⟩

theorem attr_same (d : ℕ) (f : Frame K) (n : String) : Alike (SameFrom 0 d) (f.attr n) ((skipRows d f).attr n) := by
  unfold Frame.attr
  by_cases h : n ∈ f.cols
  · rw [if_pos h, if_pos (show n ∈ (skipRows d f).cols from h)]; exact alike_ok (values_same d f n)
  · rw [if_neg h, if_neg (show n ∉ (skipRows d f).cols from h)]; exact Or.inl ⟨_, rfl, rfl⟩

theorem checkMissing_same (d : ℕ) (f : Frame K) (w : List String) : Alike (fun _ _ => True) (checkMissing f w) (checkMissing (skipRows d f) w) := by
  show Alike _ (checkMissing f w) (checkMissing f w)
  cases checkMissing f w with
  | error e => exact Or.inl ⟨e, rfl, rfl⟩
  | ok _ => exact alike_ok trivial
end

section
theorem zScore_memory {m : ℕ} (w : ℤ) (s : Frame ℝ → Py (List (XF ℝ))) (f : Frame ℝ) (hs : RemembersAt m s f) :
    RemembersAt (m + (w.toNat - 1)) (zScoreTransform w s) f := by
  intro d
  unfold zScoreTransform
  refine alike_bind (hs d) fun x x' _ _ hx => ?_
  unfold zScore
  refine alike_bind (rollE_same hx w winMean) fun a a' _ _ ha => ?_
  refine alike_bind (rollE_same hx w winStd) fun b b' _ _ hb => ?_
  exact alike_ok (((hx.mono (by omega)).zipWith ha _).zipWith hb _)

/-- C125 (z-scores): the rolling z-score of a series with memory `m` needs `m` bars and the rest of the window; each
series of the factory has memory 0, but the arrival time, which has memory 1. -/
theorem C125_z_score (w : ℤ) (m : ℕ) (s : Frame ℝ → Py (List (XF ℝ))) (hs : Remembers m s) :
    Remembers (m + (w.toNat - 1)) (zScoreTransform w s) ∧
    Remembers (1 + (w.toNat - 1)) (zScoreFactory "bar_arrival_time" w) ∧
    ∀ key, key ≠ "bar_arrival_time" → Remembers (w.toNat - 1) (zScoreFactory key w) := by
  have two : ∀ (x y : String) (g : XF ℝ → XF ℝ → XF ℝ), Remembers 0 fun f : Frame ℝ =>
      f.attr x >>= fun b => f.attr y >>= fun s => .ok (List.zipWith g b s) := by
    intro x y g f d
    refine alike_bind (attr_same d f x) fun a a' _ _ ha => ?_
    refine alike_bind (attr_same d f y) fun b b' _ _ hb => ?_
    exact alike_ok (ha.zipWith hb _)
  refine ⟨fun f => zScore_memory w s f (hs f), ?_, ?_⟩
  · intro f
    have : RemembersAt (1 + (w.toNat - 1)) (zScoreTransform w barArrivalTime) f := by
      apply zScore_memory
      intro d
      unfold barArrivalTime
      rw [index_skip]
      exact alike_ok ((sameFrom_drop f.index d).map _).diff
    intro d
    unfold zScoreFactory zScoreTypes
    rw [if_pos rfl]
    exact this d
  · intro key hk f d
    unfold zScoreFactory zScoreTypes
    rw [if_neg hk]
    by_cases h1 : key = "buy_sell_diff"
    · rw [if_pos h1]
      have := zScore_memory w _ f (two "quote_asset_buy_volume" "quote_asset_sell_volume" XF.sub f) d
      rwa [Nat.zero_add] at this
    rw [if_neg h1]
    by_cases h2 : key = "average_buy_size"
    · rw [if_pos h2]
      have := zScore_memory w _ f (two "quote_asset_buy_volume" "num_buy_ticks" XF.div f) d
      rwa [Nat.zero_add] at this
    rw [if_neg h2]
    by_cases h3 : key = "high_to_low_ratio"
    · rw [if_pos h3]
      have := zScore_memory w _ f (two "high" "low" XF.div f) d
      rwa [Nat.zero_add] at this
    rw [if_neg h3]
    exact Or.inl ⟨_, rfl, rfl⟩

/-- C125 (high over close): the ratio of the local maximum needs the rest of the window. -/
theorem C125_local_max (w : ℤ) : Remembers (w.toNat - 1) (localMaxRatio w) := by
  intro f d
  unfold localMaxRatio
  refine alike_bind (attr_same d f _) fun h h' _ _ hh => ?_
  refine alike_bind (rollE_same hh w winMax) fun a a' _ _ ha => ?_
  refine alike_bind (attr_same d f _) fun c c' _ _ hc => ?_
  rw [Nat.zero_add] at ha
  exact alike_ok (ha.zipWith (hc.mono (by omega)) _)

theorem rollMeasure_memory (w : ℤ) (close : String) : Remembers (2 + (w.toNat - 1)) (rollMeasure w close) := by
  intro f d
  unfold rollMeasure
  refine alike_bind (checkMissing_same d f _) fun _ _ _ _ _ => ?_
  refine alike_bind (col_same d f _) fun c c' _ _ hc => ?_
  refine alike_bind (rollE2_same (m := 2) (hc.diff.mono (by omega)) hc.diff.shift w winCov) fun v v' _ _ hv => ?_
  exact alike_ok (hv.map _)

/-- C125 (Roll): the measure and the impact need two bars before the window. -/
theorem C125_roll (w : ℤ) (close volume : String) :
    Remembers (2 + (w.toNat - 1)) (rollMeasure w close) ∧ Remembers (2 + (w.toNat - 1)) (rollImpact w close volume) := by
  refine ⟨rollMeasure_memory w close, fun f d => ?_⟩
  unfold rollImpact
  refine alike_bind (rollMeasure_memory w close f d) fun r r' _ _ hr => ?_
  refine alike_bind (col_same d f _) fun v v' _ _ hv => ?_
  exact alike_ok (hr.zipWith (hv.mono (by omega)) _)

theorem getBeta_same {d : ℕ} {h h' l l' : List (XF ℝ)} (hh : SameFrom 0 d h h') (hl : SameFrom 0 d l l') (w : ℤ) :
    Alike (SameFrom (1 + (w.toNat - 1)) d) (getBeta h l w) (getBeta h' l' w) := by
  unfold getBeta
  refine alike_bind (rollE_same ((hh.zipWith hl XF.div).map _) 2 winSum) fun b b' _ _ hb => ?_
  exact rollE_same (m := 1) hb w winMean

theorem getGamma_same {d : ℕ} {h h' l l' : List (XF ℝ)} (hh : SameFrom 0 d h h') (hl : SameFrom 0 d l l') :
    Alike (SameFrom 1 d) (getGamma h l) (getGamma h' l') := by
  unfold getGamma
  refine alike_bind (rollE_same hh 2 winMax) fun a a' _ _ ha => ?_
  refine alike_bind (rollE_same hl 2 winMin) fun b b' _ _ hb => ?_
  exact alike_ok ((SameFrom.zipWith (m := 1) ha hb XF.div).map _)

/-- C125 (ranges): Parkinson's volatility needs the rest of the window; the estimators from two bars need one bar
more. -/
theorem C125_ranges (w : ℤ) (high low : String) :
    Remembers (w.toNat - 1) (parkinson w high low) ∧
    Remembers (1 + (w.toNat - 1)) (corwinSchultz w high low) ∧
    Remembers (1 + (w.toNat - 1)) (beckersParkinson w high low) := by
  refine ⟨fun f d => ?_, fun f d => ?_, fun f d => ?_⟩
  · unfold parkinson
    refine alike_bind (checkMissing_same d f _) fun _ _ _ _ _ => ?_
    refine alike_bind (col_same d f _) fun h h' _ _ hh => ?_
    refine alike_bind (col_same d f _) fun l l' _ _ hl => ?_
    have := rollE_same ((hh.zipWith hl XF.div).map fun x => XF.mul (.fin (1 / (4 * Real.log 2))) (square (XF.log x))) w winMean
    rwa [Nat.zero_add] at this
  · unfold corwinSchultz
    refine alike_bind (checkMissing_same d f _) fun _ _ _ _ _ => ?_
    refine alike_bind (col_same d f _) fun h h' _ _ hh => ?_
    refine alike_bind (col_same d f _) fun l l' _ _ hl => ?_
    refine alike_bind (getBeta_same hh hl w) fun b b' _ _ hb => ?_
    refine alike_bind (getGamma_same hh hl) fun g g' _ _ hg => ?_
    exact alike_ok ((hb.zipWith (hg.mono (by omega)) _).map _)
  · unfold beckersParkinson
    refine alike_bind (checkMissing_same d f _) fun _ _ _ _ _ => ?_
    refine alike_bind (col_same d f _) fun h h' _ _ hh => ?_
    refine alike_bind (col_same d f _) fun l l' _ _ hl => ?_
    refine alike_bind (getBeta_same hh hl w) fun b b' _ _ hb => ?_
    refine alike_bind (getGamma_same hh hl) fun g g' _ _ hg => ?_
    exact alike_ok (hb.zipWith (hg.mono (by omega)) _)

/-- C125 (price impact): the lambdas of Kyle, Amihud and Hasbrouck need one bar before the window. -/
theorem C125_lambdas (w : ℤ) (close volume : String) :
    Remembers (1 + (w.toNat - 1)) (kyle w close volume) ∧
    Remembers (1 + (w.toNat - 1)) (amihud w close volume) ∧
    Remembers (1 + (w.toNat - 1)) (hasbrouck w close volume) := by
  refine ⟨fun f d => ?_, fun f d => ?_, fun f d => ?_⟩
  · unfold kyle
    refine alike_bind (checkMissing_same d f _) fun _ _ _ _ _ => ?_
    refine alike_bind (col_same d f _) fun c c' _ _ hc => ?_
    refine alike_bind (col_same d f _) fun v v' _ _ hv => ?_
    exact rollE_same ((hc.diff.map _).zipWith (hv.mono (by omega)) _) w winMean
  · unfold amihud
    refine alike_bind (checkMissing_same d f _) fun _ _ _ _ _ => ?_
    refine alike_bind (col_same d f _) fun c c' _ _ hc => ?_
    refine alike_bind (col_same d f _) fun v v' _ _ hv => ?_
    exact rollE_same (((hc.map _).diff.map _).zipWith (hv.mono (by omega)) _) w winMean
  · unfold hasbrouck
    refine alike_bind (checkMissing_same d f _) fun _ _ _ _ _ => ?_
    refine alike_bind (col_same d f _) fun c c' _ _ hc => ?_
    refine alike_bind (col_same d f _) fun v v' _ _ hv => ?_
    exact rollE_same (((hc.map _).diff.map _).zipWith ((hv.map _).mono (by omega)) _) w winMean
end

section
variable {K : Type} [Field K] [LinearOrder K] {m d : ℕ}

theorem fillFrom_late (w : ℕ) (l : List (XF K)) (i : ℕ) (hi : w ≤ i) : (fillFrom w l)[i]? = l[i]?.map (fillna1 (.fin 0)) := by
  unfold fillFrom
  by_cases hw : w ≤ l.length
  · rw [List.getElem?_append_right (by simp; omega), List.length_take, Nat.min_eq_left hw, List.getElem?_map, List.getElem?_drop]
    congr 2
    omega
  · rw [List.getElem?_eq_none (by simp; omega), List.getElem?_eq_none (by omega)]
    rfl

theorem fillFrom_clean (w : ℕ) (l : List (XF K)) : ((fillFrom w l).drop w).any XF.isNan = false := by
  rw [List.any_eq_false]
  intro x hx
  obtain ⟨i, hi, rfl⟩ := List.mem_iff_getElem.1 hx
  have h := fillFrom_late w l (w + i) (by omega)
  rw [List.getElem_drop]
  rw [List.length_drop] at hi
  rw [List.getElem?_eq_getElem (by omega)] at h
  cases hl : l[w + i]? with
  | none => rw [hl] at h; simp at h
  | some y =>
    rw [hl] at h
    simp only [Option.map_some, Option.some.injEq] at h
    rw [h]
    cases y <;> simp [fillna1, XF.isNan]

/-- C125 (VPIN): the first value that is filled is the first one that does not depend on where the history starts. -/
theorem C125_vpin (w : ℤ) (volume buy sell : String) : Remembers (K := K) w.toNat (vpin w volume buy sell) := by
  intro f d
  unfold vpin
  refine alike_bind (checkMissing_same d f _) fun _ _ _ _ _ => ?_
  refine alike_bind (col_same d f _) fun v v' _ _ hv => ?_
  refine alike_bind (rollE_same hv w winSum) fun t t' _ _ ht => ?_
  refine alike_bind (col_same d f _) fun b b' _ _ hb => ?_
  refine alike_bind (col_same d f _) fun s s' _ _ hs => ?_
  refine alike_bind (rollE_same ((hb.zipWith hs XF.sub).map _) w winSum) fun a a' _ _ ha => ?_
  dsimp only
  rw [fillFrom_clean, fillFrom_clean]
  refine alike_ok fun i hi => ?_
  rw [fillFrom_late _ _ _ hi, fillFrom_late _ _ _ (by omega), (ha.zipWith ht XF.div) i (by omega)]

theorem likeIndex_same (f : Frame K) {v v' : List (XF K)} (h : SameFrom m d v v') (hl : v.length = f.rows.length)
    (hl' : v'.length = (skipRows d f).rows.length) : Alike (SameFrom m d) (likeIndex f v) (likeIndex (skipRows d f) v') := by
  unfold likeIndex
  rw [if_pos hl, if_pos hl']
  exact alike_ok h

/-- The indicator gives one value for every bar. -/
def FullLength (ind : Frame K → Py (List (XF K))) : Prop := ∀ f v, ind f = .ok v → v.length = f.rows.length

/-- C125 (strategies): the strategies built on an indicator of `talib` add to the memory of the indicator: mean
reversion nothing, the crossing of the MACD histogram one bar, the confirmation by the RSI its windows and one bar, the
arrival times theirs and one bar. -/
theorem C125_strategies (ind : Frame K → Py (List (XF K))) (hl : FullLength ind) (hm : Remembers m ind) :
    (∀ threshold, Remembers m (meanReversion ind threshold)) ∧
    Remembers (m + 1) (macdCross ind) ∧
    (∀ threshold confirm ma, Remembers (m + max (confirm.toNat - 1) ((ma.toNat - 1) + 1)) (rsiConfirmation ind threshold confirm ma)) ∧
    ∀ p : BarArrival K, Remembers (max m (max (p.fast.toNat - 1) (p.slow.toNat - 1) + 1)) (barArrivalRsi ind p) := by
  refine ⟨fun threshold f d => ?_, fun f d => ?_, fun threshold confirm ma f d => ?_, fun p f d => ?_⟩
  · unfold meanReversion
    refine alike_bind (hm f d) fun v v' e e' hv => ?_
    refine alike_bind (likeIndex_same f hv (hl _ _ e) (hl _ _ e')) fun r r' _ _ hr => ?_
    refine alike_bind (col_same d f _) fun c c' _ _ hc => ?_
    exact alike_ok ((hc.mono (by omega)).zipWith hr _)
  · unfold macdCross
    refine alike_bind (hm f d) fun v v' e e' hv => ?_
    exact alike_ok ((hv.map _).diff.map _)
  · unfold rsiConfirmation
    refine alike_bind (hm f d) fun v v' e e' hv => ?_
    refine alike_bind (likeIndex_same f hv (hl _ _ e) (hl _ _ e')) fun r r' _ _ hr => ?_
    refine alike_bind (rollE_same hr ma winMean) fun a a' _ _ ha => ?_
    refine alike_bind (rollE_same (hr.map _) confirm winAll) fun b b' _ _ hb => ?_
    exact alike_ok (((hb.mono (by omega)).map _).zipWith ((ha.diff.mono (by omega)).map _) _)
  · have harr : SameFrom 0 d (arrivals f.index : List (XF K)) (arrivals (skipRows d f).index) := by
      intro i _
      unfold arrivals
      rw [index_skip, List.getElem?_zipWith, List.getElem?_zipWith, List.getElem?_tail, List.getElem?_tail, List.getElem?_drop,
        List.getElem?_drop, show d + (i + 1) = i + d + 1 by omega, Nat.add_comm d i]
    unfold barArrivalRsi
    refine alike_bind (rollE_same harr p.slow winMean) fun a a' _ _ ha => ?_
    refine alike_bind (rollE_same harr p.fast winMean) fun b b' _ _ hb => ?_
    refine alike_bind (hm f d) fun v v' e e' hv => ?_
    refine alike_bind (likeIndex_same f hv (hl _ _ e) (hl _ _ e')) fun r r' _ _ hr => ?_
    refine alike_ok ((hr.mono (by omega)).zipWith ?_ _)
    intro i hi
    obtain ⟨i, rfl⟩ : ∃ k, i = k + 1 := ⟨i - 1, by omega⟩
    rw [show i + 1 + d = i + d + 1 by omega, List.getElem?_cons_succ, List.getElem?_cons_succ]
    exact ((hb.mono (m' := max (p.fast.toNat - 1) (p.slow.toNat - 1)) (by omega)).zipWith (ha.mono (by omega)) _) i (by omega)

/-- C125 (crossover; partial: unique index, no filling): the side needs one bar before the longer window. -/
theorem C125_cross_over_partial (fast slow : ℤ) (name : String) (f : Frame K) (hn : f.index.Nodup) :
    RemembersAt (1 + (max fast.toNat slow.toNat - 1)) (crossOver fast slow name false) f := by
  intro d
  unfold crossOver
  refine alike_bind (col_same d f _) fun c c' ec ec' hc => ?_
  refine alike_bind (rollE_same hc fast winMean) fun a a' ea ea' ha => ?_
  refine alike_bind (col_same d f _) fun x x' ex ex' hx => ?_
  refine alike_bind (rollE_same hx slow winMean) fun b b' eb eb' hb => ?_
  have lc : ∀ (g : Frame K) v, g.col name = .ok v → v.length = g.index.length := by
    intro g v h
    unfold Frame.col at h
    split at h
    · simp only [Except.ok.injEq] at h
      rw [← h, Frame.values_length]; simp [Frame.index]
    · simp at h
  have la : a.length = f.index.length := by rw [rollE_length ea, lc f c ec]
  have lb : b.length = f.index.length := by rw [rollE_length eb, lc f x ex]
  have la' : a'.length = (skipRows d f).index.length := by rw [rollE_length ea', lc _ c' ec']
  have lb' : b'.length = (skipRows d f).index.length := by rw [rollE_length eb', lc _ x' ex']
  have hn' : (skipRows d f).index.Nodup := by
    rw [index_skip]; exact hn.sublist (List.drop_sublist _ _)
  have ha2 : SameFrom (max fast.toNat slow.toNat - 1) d a a' := ha.mono (by omega)
  have hb2 : SameFrom (max fast.toNat slow.toNat - 1) d b b' := hb.mono (by omega)
  have hidx : SameFrom 0 d f.index (skipRows d f).index := by rw [index_skip]; exact sameFrom_drop _ _
  have key : ∀ (p q : XF K → XF K → Bool) (i : ℕ) (hi : i < (skipRows d f).index.length) (hi' : i + d < f.index.length),
      max fast.toNat slow.toNat - 1 + 1 ≤ i →
      ((skipRows d f).index[i] ∈ crossLabels p q (skipRows d f).index a' b' ↔ f.index[i + d] ∈ crossLabels p q f.index a b) := by
    intro p q i hi hi' hmi
    rw [mem_crossLabels p q _ _ _ hn' la' lb' i hi, mem_crossLabels p q _ _ _ hn la lb (i + d) hi']
    have get : ∀ {u u' : List (XF K)} (h : SameFrom (max fast.toNat slow.toNat - 1 + 1) d u u') (h1 : i < u'.length) (h2 : i + d < u.length),
        u'[i] = u[i + d] := by
      intro u u' h h1 h2
      have := h i hmi
      rw [List.getElem?_eq_getElem h1, List.getElem?_eq_getElem h2] at this
      exact Option.some.inj this
    rw [get ha2.shift, get hb2.shift, get (ha2.mono (by omega)), get (hb2.mono (by omega))]
  refine alike_ok fun i hi => ?_
  have clean : ∀ (idx : List ℤ) (u v : List ℤ), ∀ x ∈ idx.map (fun t => if t ∈ u then (.fin 1 : XF K) else if t ∈ v then .fin (-1) else
      if false = true then .nan else .fin 0), x.isNan = false := by
    intro idx u v x hx
    obtain ⟨t, -, rfl⟩ := List.mem_map.1 hx
    split
    · rfl
    · split <;> rfl
  unfold pdFfill
  rw [pdFfillFrom_complete _ _ (clean _ _ _), pdFfillFrom_complete _ _ (clean _ _ _), List.getElem?_map, List.getElem?_map, List.getElem?_map, List.getElem?_map]
  by_cases hl : i < (skipRows d f).index.length
  · have hl' := (hidx.lt (Nat.zero_le i)).1 hl
    rw [List.getElem?_eq_getElem hl, List.getElem?_eq_getElem hl']
    simp only [Option.map_some]
    unfold upCross downCross
    simp only [key _ _ i hl hl' (by omega)]
  · have hl' : ¬ i + d < f.index.length := fun k => hl ((hidx.lt (Nat.zero_le i)).2 k)
    rw [List.getElem?_eq_none (by omega), List.getElem?_eq_none (by omega)]
    rfl
end

section
variable {K : Type} [Field K] [LinearOrder K] [IsStrictOrderedRing K]

/-- Means of two groups of observations in `[lo, hi]`: joining the second group with weight `c` moves the mean of the
first by at most `c` times its share. -/
theorem join_means {N W N' W' c lo hi : K} (hW : 0 < W) (hW' : 0 ≤ W') (hc : 0 ≤ c) (h1 : lo * W ≤ N) (h2 : N ≤ hi * W)
    (h3 : lo * W' ≤ N') (h4 : N' ≤ hi * W') (hle : W' ≤ W + c * W') :
    |N / W - (N + c * N') / (W + c * W')| ≤ c * (hi - lo) := by
  have hcW : 0 ≤ c * W' := mul_nonneg hc hW'
  have hT : 0 < W + c * W' := by linarith
  have hlh : 0 ≤ hi - lo := by
    by_contra h
    push Not at h
    nlinarith
  have e : N / W - (N + c * N') / (W + c * W') = c * (N * W' - N' * W) / (W * (W + c * W')) := by
    field_simp
    ring
  rw [e, abs_div, abs_of_pos (mul_pos hW hT), div_le_iff₀ (mul_pos hW hT), abs_mul, abs_of_nonneg hc]
  have hb : |N * W' - N' * W| ≤ (hi - lo) * (W * W') := by
    rw [abs_le]
    constructor <;> nlinarith
  calc c * |N * W' - N' * W| ≤ c * ((hi - lo) * (W * W')) := mul_le_mul_of_nonneg_left hb hc
    _ ≤ c * ((hi - lo) * (W * (W + c * W'))) := by
      apply mul_le_mul_of_nonneg_left _ hc
      apply mul_le_mul_of_nonneg_left _ hlh
      exact mul_le_mul_of_nonneg_left hle hW.le
    _ = c * (hi - lo) * (W * (W + c * W')) := by ring

/-- The weighted mean of a complete series, written with its values. -/
theorem ew_complete (q : K) (l : List (XF K)) (v : ℕ → K) (i : ℕ) (h : ∀ j ≤ i, l[j]? = some (.fin (v j))) :
    ewmNum q l i = ∑ j ∈ range (i + 1), q ^ (i - j) * v j ∧ ewmDen q l i = ∑ j ∈ range (i + 1), q ^ (i - j) := by
  unfold ewmNum ewmDen
  constructor <;>
  · apply Finset.sum_congr rfl
    intro j hj
    have : finAt l j = some (v j) := by unfold finAt; rw [h j (by rw [mem_range] at hj; omega)]
    rw [this]
    rfl

theorem ew_split (q : K) (v : ℕ → K) (i d : ℕ) :
    ∑ j ∈ range (i + d + 1), q ^ (i + d - j) * v j =
      ∑ j ∈ range (i + 1), q ^ (i - j) * v (j + d) + q ^ (i + 1) * ∑ j ∈ range d, q ^ (d - 1 - j) * v j := by
  rw [show i + d + 1 = d + (i + 1) by omega, Finset.sum_range_add, add_comm]
  congr 1
  · apply Finset.sum_congr rfl
    intro j _
    rw [show i + d - (d + j) = i - j by omega, Nat.add_comm d j]
  · rw [Finset.mul_sum]
    apply Finset.sum_congr rfl
    intro j hj
    rw [mem_range] at hj
    rw [← mul_assoc, ← pow_add, show i + 1 + (d - 1 - j) = i + d - j by omega]

theorem ew_forget (q lo hi : K) (hq : 0 ≤ q) (v : ℕ → K) (i d : ℕ) (hv : ∀ j ≤ i + d, lo ≤ v j ∧ v j ≤ hi) :
    |(∑ j ∈ range (i + 1), q ^ (i - j) * v (j + d)) / (∑ j ∈ range (i + 1), q ^ (i - j)) -
      (∑ j ∈ range (i + d + 1), q ^ (i + d - j) * v j) / (∑ j ∈ range (i + d + 1), q ^ (i + d - j))| ≤ q ^ (i + 1) * (hi - lo) := by
  have one : ∀ n k, ∑ j ∈ range n, q ^ (k - j) = ∑ j ∈ range n, q ^ (k - j) * (1 : K) := by
    intro n k; apply Finset.sum_congr rfl; intro j _; rw [mul_one]
  have hden : ∑ j ∈ range (i + d + 1), q ^ (i + d - j) = ∑ j ∈ range (i + 1), q ^ (i - j) + q ^ (i + 1) * ∑ j ∈ range d, q ^ (d - 1 - j) := by
    rw [one, ew_split q (fun _ => 1) i d, ← one, ← one]
  have refl : ∀ n, ∑ j ∈ range (n + 1), q ^ (n - j) = ∑ j ∈ range (n + 1), q ^ j := fun n => by
    rw [← Finset.sum_range_reflect]
    apply Finset.sum_congr rfl
    intro j hj
    rw [mem_range] at hj
    congr 1
    omega
  have key : ∀ (n k : ℕ) (u : ℕ → K), (∀ j < n, lo ≤ u j ∧ u j ≤ hi) →
      lo * ∑ j ∈ range n, q ^ (k - j) ≤ ∑ j ∈ range n, q ^ (k - j) * u j ∧ ∑ j ∈ range n, q ^ (k - j) * u j ≤ hi * ∑ j ∈ range n, q ^ (k - j) := by
    intro n k u hu
    rw [Finset.mul_sum, Finset.mul_sum]
    constructor
    · apply Finset.sum_le_sum
      intro j hj
      rw [mul_comm lo]
      exact mul_le_mul_of_nonneg_left (hu j (mem_range.1 hj)).1 (pow_nonneg hq _)
    · apply Finset.sum_le_sum
      intro j hj
      rw [mul_comm hi]
      exact mul_le_mul_of_nonneg_left (hu j (mem_range.1 hj)).2 (pow_nonneg hq _)
  rw [hden, ew_split q v i d]
  have a := key (i + 1) i (fun j => v (j + d)) fun j hj => hv _ (by omega)
  have b := key d (d - 1) v fun j hj => hv _ (by omega)
  have nn : ∀ n k, 0 ≤ ∑ j ∈ range n, q ^ (k - j) := fun n k => Finset.sum_nonneg fun j _ => pow_nonneg hq _
  refine join_means ?_ (nn _ _) (pow_nonneg hq _) a.1 a.2 b.1 b.2 ?_
  · rw [refl, Finset.sum_range_succ', pow_zero]
    have : 0 ≤ ∑ j ∈ range i, q ^ (j + 1) := Finset.sum_nonneg fun j _ => pow_nonneg hq _
    linarith
  · rw [← hden, refl]
    cases d with
    | zero => simpa using Finset.sum_nonneg fun j (_ : j ∈ range (i + 1)) => pow_nonneg hq j
    | succ d =>
      rw [Nat.add_sub_cancel, refl]
      apply Finset.sum_le_sum_of_subset_of_nonneg
      · intro x hx
        rw [mem_range] at hx ⊢
        omega
      · intro j _ _
        exact pow_nonneg hq j

/-- The weight of the previous bar relative to the present one. -/
def decay (span : ℕ) : K := ((span : K) - 1) / (span + 1)

/-- C125 (exponential means): without the first `d` bars, the exponentially weighted mean of a complete series changes
at position `i` by at most `((span - 1) / (span + 1)) ^ (i + 1)` times the range of the values. -/
theorem C125_ewm_forgets (span : ℕ) (hs : 2 ≤ span) (l : List (XF K)) (v : ℕ → K) (d i : ℕ) (lo hi : K) (hi' : i + d < l.length)
    (hv : ∀ j ≤ i + d, l[j]? = some (.fin (v j)) ∧ lo ≤ v j ∧ v j ≤ hi) :
    ∃ out out' x y, ewmE span l = .ok out ∧ ewmE span (l.drop d) = .ok out' ∧ out[i + d]? = some (.fin x) ∧ out'[i]? = some (.fin y) ∧
      |y - x| ≤ decay span ^ (i + 1) * (hi - lo) := by
  have f1 : finAt l 0 ≠ none := by unfold finAt; rw [(hv 0 (by omega)).1]; simp
  have g : ∀ j ≤ i, (l.drop d)[j]? = some (.fin (v (j + d))) := fun j hj => by
    rw [List.getElem?_drop, Nat.add_comm, (hv (j + d) (by omega)).1]
  have f2 : finAt (l.drop d) 0 ≠ none := by unfold finAt; rw [g 0 (by omega)]; simp
  obtain ⟨-, out, h1, h2⟩ := C63_weights (K := K) span hs l (i + d) hi' ⟨0, by omega, f1⟩
  obtain ⟨-, out', k1, k2⟩ := C63_weights (K := K) span hs (l.drop d) i (by rw [List.length_drop]; omega) ⟨0, by omega, f2⟩
  refine ⟨out, out', _, _, h1, k1, h2, k2, ?_⟩
  obtain ⟨a1, a2⟩ := ew_complete (((span : K) - 1) / (span + 1)) l v (i + d) fun j hj => (hv j hj).1
  obtain ⟨b1, b2⟩ := ew_complete (((span : K) - 1) / (span + 1)) (l.drop d) (fun j => v (j + d)) i g
  rw [a1, a2, b1, b2]
  apply ew_forget _ lo hi _ v i d fun j hj => (hv j hj).2
  have : (2 : K) ≤ span := by exact_mod_cast hs
  apply div_nonneg <;> linarith

/-- C125 (difference of means): the same for the difference of the two means, with the sum of the two bounds. -/
theorem C125_difference_forgets (fast slow : ℕ) (hf : 2 ≤ fast) (hs : 2 ≤ slow) (name : String) (f : Frame K) (hn : name ∈ f.cols) (v : ℕ → K) (d i : ℕ)
    (lo hi : K) (hi' : i + d < f.rows.length) (hv : ∀ j ≤ i + d, (f.values name)[j]? = some (.fin (v j)) ∧ lo ≤ v j ∧ v j ≤ hi) :
    ∃ out out' x y, ewmaDifference fast slow name false f = .ok out ∧ ewmaDifference fast slow name false (skipRows d f) = .ok out' ∧
      out[i + d]? = some (.fin x) ∧ out'[i]? = some (.fin y) ∧
      |y - x| ≤ (decay fast ^ (i + 1) + decay slow ^ (i + 1)) * (hi - lo) := by
  have hlen : i + d < (f.values name).length := by rw [Frame.values_length]; exact hi'
  obtain ⟨a, a', x, y, a1, a2, a3, a4, a5⟩ := C125_ewm_forgets fast hf (f.values name) v d i lo hi hlen hv
  obtain ⟨b, b', x', y', b1, b2, b3, b4, b5⟩ := C125_ewm_forgets slow hs (f.values name) v d i lo hi hlen hv
  have hn' : name ∈ (skipRows d f).cols := hn
  refine ⟨List.zipWith XF.sub a b, List.zipWith XF.sub a' b', x - x', y - y', ?_, ?_, ?_, ?_, ?_⟩
  · unfold ewmaDifference
    rw [Frame.col_ok hn, Py.bind_ok, a1, Py.bind_ok, Py.bind_ok, b1, Py.bind_ok]
    rfl
  · unfold ewmaDifference
    rw [Frame.col_ok hn', Py.bind_ok, values_skip, a2, Py.bind_ok, Py.bind_ok, b2, Py.bind_ok]
    rfl
  · rw [List.getElem?_zipWith, a3, b3]; dsimp only; rw [XF.sub_fin]
  · rw [List.getElem?_zipWith, a4, b4]; dsimp only; rw [XF.sub_fin]
  · have e : y - y' - (x - x') = (y - x) - (y' - x') := by ring
    rw [e, add_mul]
    exact (abs_sub _ _).trans (add_le_add a5 b5)

/-- A frame of prices at the times 0, 1, 2, … -/
def pricesOf (p : ℕ → K) (n : ℕ) : Frame K := ⟨["close"], (List.range n).map fun i : ℕ => ((i : ℤ), [.fin (p i)])⟩

theorem pricesOf_values (p : ℕ → K) (n : ℕ) : (pricesOf p n).values "close" = (List.range n).map fun i => .fin (p i) := by
  unfold Frame.values pricesOf
  rw [List.map_map]
  rfl

theorem pricesOf_index (p : ℕ → K) (n : ℕ) : (pricesOf p n).index = (List.range n).map fun i : ℕ => (i : ℤ) := by
  unfold Frame.index pricesOf
  rw [List.map_map]
  rfl

/-- C125 is refuted for exponentially weighted means: for no number of bars is the difference of two of them
independent of the bars before. -/
theorem C125_ewm_refuted (fast slow : ℕ) (hf : 2 ≤ fast) (hs : fast < slow) (m : ℕ) :
    ¬ Remembers (K := K) m (ewmaDifference fast slow "close" false) := by
  intro h
  set p : ℕ → K := fun j => if j = 0 then 1 else 0 with hp
  have hv : ∀ j ≤ m + 1, ((pricesOf p (m + 2)).values "close")[j]? = some (.fin (p j)) := by
    intro j hj
    rw [pricesOf_values, List.getElem?_map, List.getElem?_range (by omega)]
    rfl
  have hv' : ∀ j ≤ m, ((skipRows 1 (pricesOf p (m + 2))).values "close")[j]? = some (.fin 0) := by
    intro j hj
    rw [values_skip, List.getElem?_drop, hv _ (by omega), hp]
    dsimp only
    rw [if_neg (by omega)]
  have hcol : "close" ∈ (pricesOf p (m + 2)).cols := by simp [pricesOf]
  obtain ⟨⟨out, h1, -, h2⟩, -⟩ := C78_difference (K := K) fast slow hf (by omega) "close" (pricesOf p (m + 2)) hcol
  obtain ⟨⟨out', k1, -, k2⟩, -⟩ := C78_difference (K := K) fast slow hf (by omega) "close" (skipRows 1 (pricesOf p (m + 2))) hcol
  have g1 := (h2 (m + 1) (by simp [pricesOf])).1 ⟨0, by omega, by unfold finAt; rw [hv 0 (by omega)]; simp⟩
  have g2 := (k2 m (by simp [pricesOf, skipRows])).1 ⟨0, by omega, by unfold finAt; rw [hv' 0 (by omega)]; simp⟩
  rcases h (pricesOf p (m + 2)) 1 with ⟨e, e1, -⟩ | ⟨x, x', e1, e2, e3⟩
  · rw [h1] at e1; simp at e1
  rw [h1] at e1
  rw [k1] at e2
  simp only [Except.ok.injEq] at e1 e2
  subst e1 e2
  have := e3 m le_rfl
  rw [g1, g2] at this
  simp only [Option.some.injEq, XF.fin.injEq] at this
  unfold ewAt at this
  have num0 : ∀ q : K, ewmNum q ((skipRows 1 (pricesOf p (m + 2))).values "close") m = 0 := by
    intro q
    rw [(ew_complete q _ (fun _ => 0) m hv').1]
    simp
  have num1 : ∀ q : K, ewmNum q ((pricesOf p (m + 2)).values "close") (m + 1) = q ^ (m + 1) := by
    intro q
    rw [(ew_complete q _ p (m + 1) hv).1, Finset.sum_eq_single 0]
    · simp [hp]
    · intro j _ hj; simp [hp, hj]
    · simp
  have den1 : ∀ q : K, ewmDen q ((pricesOf p (m + 2)).values "close") (m + 1) = ∑ j ∈ range (m + 2), q ^ (m + 1 - j) :=
    fun q => (ew_complete q _ p (m + 1) hv).2
  simp only [num0, num1, den1, zero_div, sub_zero] at this
  set a : K := ((fast : K) - 1) / (fast + 1) with ha
  set b : K := ((slow : K) - 1) / (slow + 1) with hb
  have f2 : (2 : K) ≤ fast := by exact_mod_cast hf
  have fs : (fast : K) < slow := by exact_mod_cast hs
  have ha0 : 0 < a := div_pos (by linarith) (by linarith)
  have hab : a < b := by
    rw [ha, hb, div_lt_div_iff₀ (by linarith) (by linarith)]
    nlinarith
  have pos : ∀ q : K, 0 < q → 0 < ∑ j ∈ range (m + 2), q ^ (m + 1 - j) := fun q hq =>
    Finset.sum_pos (fun j _ => pow_pos hq _) ⟨0, by simp⟩
  have lt : a ^ (m + 1) * ∑ j ∈ range (m + 2), b ^ (m + 1 - j) < b ^ (m + 1) * ∑ j ∈ range (m + 2), a ^ (m + 1 - j) := by
    rw [Finset.mul_sum, Finset.mul_sum]
    have split : ∀ (q : K) (j : ℕ), j ≤ m + 1 → q ^ (m + 1) = q ^ (m + 1 - j) * q ^ j := by
      intro q j hj
      rw [← pow_add]
      congr 1
      omega
    apply Finset.sum_lt_sum
    · intro j hj
      rw [mem_range] at hj
      rw [split a j (by omega), split b j (by omega)]
      have : a ^ j ≤ b ^ j := pow_le_pow_left₀ ha0.le hab.le j
      have hpp : 0 < a ^ (m + 1 - j) * b ^ (m + 1 - j) := mul_pos (pow_pos ha0 _) (pow_pos (ha0.trans hab) _)
      calc _ = (a ^ (m + 1 - j) * b ^ (m + 1 - j)) * a ^ j := by ring
        _ ≤ (a ^ (m + 1 - j) * b ^ (m + 1 - j)) * b ^ j := mul_le_mul_of_nonneg_left this hpp.le
        _ = _ := by ring
    · refine ⟨m + 1, by simp, ?_⟩
      simp only [Nat.sub_self, pow_zero, mul_one]
      exact pow_lt_pow_left₀ hab ha0.le (by omega)
  have : a ^ (m + 1) / ∑ j ∈ range (m + 2), a ^ (m + 1 - j) < b ^ (m + 1) / ∑ j ∈ range (m + 2), b ^ (m + 1 - j) := by
    rw [div_lt_div_iff₀ (pos a ha0) (pos b (ha0.trans hab))]
    exact lt
  linarith

/-- C125 is refuted for the filled crossover side: it keeps a crossing however long ago. -/
theorem C125_filled_refuted (m : ℕ) : ¬ Remembers (K := K) m (crossOver 1 2 "close" true) := by
  intro h
  set p : ℕ → K := fun j => if j < 2 then 1 else 2 with hp
  have hv : ∀ j ≤ m + 3, ((pricesOf p (m + 4)).values "close")[j]? = some (.fin (p j)) := by
    intro j hj
    rw [pricesOf_values, List.getElem?_map, List.getElem?_range (by omega)]
    rfl
  have hn : (pricesOf p (m + 4)).index.Nodup := by
    rw [pricesOf_index]
    exact List.nodup_range.map fun a b h => by exact_mod_cast h
  have hcol : "close" ∈ (pricesOf p (m + 4)).cols := by simp [pricesOf]
  have hcomp : ∀ x ∈ (pricesOf p (m + 4)).values "close", ∃ y, x = .fin y := by
    intro x hx
    rw [pricesOf_values] at hx
    obtain ⟨i, -, rfl⟩ := List.mem_map.1 hx
    exact ⟨_, rfl⟩
  have avg1 : ∀ i ≤ m + 3, IsAvg 1 ((pricesOf p (m + 4)).values "close") i (p i) := by
    intro i hi
    refine ⟨by omega, fun _ => p i, ?_, by simp⟩
    intro j hj
    obtain rfl : j = 0 := by omega
    exact hv i hi
  have avg2 : ∀ i, 1 ≤ i → i ≤ m + 3 → IsAvg 2 ((pricesOf p (m + 4)).values "close") i ((p i + p (i - 1)) / 2) := by
    intro i h1 hi
    refine ⟨by omega, fun j => p (i - j), ?_, ?_⟩
    · intro j hj; exact hv _ (by omega)
    · rw [Finset.sum_range_succ, Finset.sum_range_one]; rfl
  have hskip : (skipRows 3 (pricesOf p (m + 4))).values "close" = List.replicate (m + 1) (.fin 2) := by
    rw [values_skip]
    apply List.ext_getElem?
    intro i
    rw [List.getElem?_drop]
    by_cases hi : i < m + 1
    · rw [hv _ (by omega), List.getElem?_replicate_of_lt hi, hp]
      dsimp only
      rw [if_neg (by omega)]
    · rw [List.getElem?_eq_none (by rw [pricesOf_values]; simp; omega), List.getElem?_eq_none (by simp; omega)]
  have flat : ∀ w i x, 1 ≤ w → IsAvg w (List.replicate (m + 1) (.fin (2 : K))) i x → x = 2 := by
    rintro w i x hw ⟨-, u, hu, rfl⟩
    have : ∀ j ∈ range w, u j = 2 := by
      intro j hj
      have := hu j (mem_range.1 hj)
      rw [List.getElem?_replicate] at this
      split at this
      · simpa using this.symm
      · simp at this
    rw [Finset.sum_congr rfl this, Finset.sum_const, card_range, nsmul_eq_mul, mul_comm]
    exact mul_div_cancel_right₀ _ (by exact_mod_cast (show w ≠ 0 by omega))
  obtain ⟨out, h1, -, h2⟩ := C54_filled_partial (K := K) 1 2 (by omega) (by omega) "close" (pricesOf p (m + 4)) hcol hn hcomp
  obtain ⟨out', k1, -, k2⟩ := C54_filled_partial (K := K) 1 2 (by omega) (by omega) "close" (skipRows 3 (pricesOf p (m + 4))) hcol
    (by rw [index_skip]; exact hn.sublist (List.drop_sublist _ _)) (by
      rw [hskip]; intro x hx; rw [List.eq_of_mem_replicate hx]; exact ⟨_, rfl⟩)
  have up : UpCross 1 2 ((pricesOf p (m + 4)).values "close") 2 := by
    refine ⟨_, _, _, _, by omega, avg1 1 (by omega), avg2 1 (by omega) (by omega), avg1 2 (by omega), avg2 2 (by omega) (by omega), ?_, ?_⟩
    · simp only [hp]; norm_num
    · simp only [hp]; norm_num
  obtain ⟨a, b, ha, hb, -, -, g⟩ := (h2 (m + 3) (by rw [pricesOf_index]; simp)).2 2 (by omega) (Or.inl up)
  have hk := (k2 m (by rw [index_skip, pricesOf_index]; simp)).1 (by
    intro j _
    rw [hskip]
    constructor
    · rintro ⟨a, b, a', b', -, -, -, h1, h2, -, h3⟩
      rw [flat 1 _ _ le_rfl h1, flat 2 _ _ (by omega) h2] at h3
      exact lt_irrefl _ h3
    · rintro ⟨a, b, a', b', -, -, -, h1, h2, -, h3⟩
      rw [flat 1 _ _ le_rfl h1, flat 2 _ _ (by omega) h2] at h3
      exact lt_irrefl _ h3)
  rcases h (pricesOf p (m + 4)) 3 with ⟨e, e1, -⟩ | ⟨x, x', e1, e2, e3⟩
  · have := h1.symm.trans e1; simp at this
  have e1' := h1.symm.trans e1
  have e2' := k1.symm.trans e2
  simp only [Except.ok.injEq] at e1' e2'
  subst e1' e2'
  have e4 := e3 m le_rfl
  have uniq : ∀ w i (x y : K), IsAvg w ((pricesOf p (m + 4)).values "close") i x → IsAvg w ((pricesOf p (m + 4)).values "close") i y → x = y := by
    rintro w i x y ⟨-, u, hu, rfl⟩ ⟨-, u', hu', rfl⟩
    congr 1
    apply Finset.sum_congr rfl
    intro j hj
    have := (hu j (mem_range.1 hj)).symm.trans (hu' j (mem_range.1 hj))
    simpa using this
  have hab : a = b := by
    rw [uniq 1 _ _ _ ha (avg1 (m + 3) le_rfl), uniq 2 _ _ _ hb (avg2 (m + 3) (by omega) le_rfl)]
    simp only [hp]
    rw [if_neg (by omega), if_neg (by omega)]
    norm_num
  rw [hk] at e4
  rcases (g hab).2 with g | g <;> rw [g] at e4 <;> simp at e4
end

/-- The rows from `m` bars before position `i` up to it. -/
def lastRows {K : Type} (m i : ℕ) (f : Frame K) : List (ℤ × List (XF K)) := (f.rows.drop (i - m)).take (m + 1)

/-- C125 (locality): a causal transformer with memory `m` has the same value at two bars, of the same or of different
frames, whose last `m + 1` rows are the same.  In particular a changed or missing observation has no effect on the values
more than `m` bars later. -/
theorem C125_local {K : Type} [Field K] [LinearOrder K] {m : ℕ} {T : Frame K → Py (List (XF K))} (f f' : Frame K) (i i' : ℕ)
    (hc : CausalAt T f) (hc' : CausalAt T f') (hr : RemembersAt m T (f.take (i + 1))) (hr' : RemembersAt m T (f'.take (i' + 1)))
    (hcols : f.cols = f'.cols) (hi : m ≤ i) (hi' : m ≤ i') (hw : lastRows m i f = lastRows m i' f') (out out' : List (XF K)) (h : T f = .ok out)
    (h' : T f' = .ok out') : out[i]? = out'[i']? := by
  have key : ∀ (f : Frame K) (i : ℕ), CausalAt T f → RemembersAt m T (f.take (i + 1)) → m ≤ i → ∀ out, T f = .ok out →
      ∃ o, T ⟨f.cols, lastRows m i f⟩ = .ok o ∧ o[m]? = out[i]? := by
    intro f i hc hr hi out h
    have e : skipRows (i - m) (f.take (i + 1)) = ⟨f.cols, lastRows m i f⟩ := by
      unfold skipRows Frame.take lastRows
      rw [List.drop_take, show i + 1 - (i - m) = m + 1 by omega]
    have hk := hc (i + 1)
    rw [h] at hk
    rcases hr (i - m) with ⟨_, e1, -⟩ | ⟨x, y, e1, e2, e3⟩
    · rw [hk] at e1; simp [Except.map] at e1
    · rw [hk] at e1
      simp only [Except.map, Except.ok.injEq] at e1
      rw [e] at e2
      refine ⟨y, e2, ?_⟩
      rw [e3 m le_rfl, ← e1, List.getElem?_take, show m + (i - m) = i by omega, if_pos (by omega)]
  obtain ⟨o, h1, h2⟩ := key f i hc hr hi out h
  obtain ⟨o', h1', h2'⟩ := key f' i' hc' hr' hi' out' h'
  rw [hw, hcols] at h1
  rw [h1] at h1'
  simp only [Except.ok.injEq] at h1'
  rw [← h2, ← h2', h1']

theorem not_remembers {K : Type} {F : Frame K → Py (List (XF K))} (m d i : ℕ) (f : Frame K) (out out' : List (XF K)) (h1 : F f = .ok out)
    (h2 : F (skipRows d f) = .ok out') (hi : m ≤ i) (ne : out'[i]? ≠ out[i + d]?) : ¬ Remembers m F := by
  intro h
  rcases h f d with ⟨e, e1, -⟩ | ⟨x, x', e1, e2, e3⟩
  · rw [h1] at e1; simp at e1
  · rw [h1] at e1
    rw [h2] at e2
    simp only [Except.ok.injEq] at e1 e2
    subst e1 e2
    exact ne (e3 i hi)

/-- C125 (no less will do): with these windows one bar less is not enough. -/
theorem C125_sharp : ¬ Remembers (K := ℚ) 1 (crossOver 1 2 "close" false) ∧ ¬ Remembers (K := ℚ) 0 (vpin 1 "volume" "buy" "sell") ∧
    ¬ Remembers (K := ℚ) 0 (macdCross fun f => f.col "close") :=
  ⟨not_remembers 1 1 1 ⟨["close"], [(1, [.fin 1]), (2, [.fin 1]), (3, [.fin 2])]⟩ [.fin 0, .fin 0, .fin 1] [.fin 0, .fin 0]
      (by decide +kernel) (by decide +kernel) le_rfl (by decide +kernel),
    not_remembers 0 1 0 ⟨["volume", "buy", "sell"], [(1, [.fin 0, .fin 0, .fin 0]), (2, [.fin 0, .fin 0, .fin 0])]⟩ [.nan, .fin 0] [.nan]
      (by decide +kernel) (by decide +kernel) le_rfl (by decide +kernel),
    not_remembers 0 1 0 ⟨["close"], [(1, [.fin (-1)]), (2, [.fin 1])]⟩ [.nan, .fin 1] [.nan]
      (by decide +kernel) (by decide +kernel) le_rfl (by decide +kernel)⟩

/-- The hypotheses of `C125_strategies` are met by reading a column; its conclusion then speaks about defined values. -/
example : FullLength (K := ℚ) (fun f => f.col "rsi") ∧ Remembers (K := ℚ) 0 (fun f => f.col "rsi") ∧
    macdCross (fun f => f.col "rsi") (skipRows 1 ⟨["rsi"], [(1, [.fin 5]), (2, [.fin (-1)]), (3, [.fin (1 : ℚ)])]⟩) = .ok [.nan, .fin 1] := by
  refine ⟨?_, fun f d => col_same d f _, by decide +kernel⟩
  intro f v h
  dsimp only at h
  unfold Frame.col at h
  split at h
  · simp only [Except.ok.injEq] at h; rw [← h, Frame.values_length]
  · simp at h

/-- The hypotheses of `C125_ewm_forgets` on a series: span 3, the values 4, 0, 2, without the first one. -/
example : ∃ out out' : List (XF ℚ), ∃ x y : ℚ, ewmE 3 [.fin 4, .fin 0, .fin 2] = .ok out ∧ ewmE 3 ([.fin 4, .fin 0, .fin (2 : ℚ)].drop 1) = .ok out' ∧
    out[1 + 1]? = some (.fin x) ∧ out'[1]? = some (.fin y) ∧ |y - x| ≤ decay 3 ^ (1 + 1) * (4 - 0) :=
  C125_ewm_forgets (K := ℚ) 3 (by omega) [.fin 4, .fin 0, .fin 2] (fun j => if j = 0 then 4 else if j = 1 then 0 else 2) 1 1 0 4 (by simp) (by decide +kernel)

/-- A crossing found with and without the first bar. -/
example : let f : Frame ℚ := ⟨["close"], [(1, [.fin 9]), (2, [.fin 1]), (3, [.fin 1]), (4, [.fin 2])]⟩
    f.index.Nodup ∧ crossOver 1 2 "close" false f = .ok [.fin 0, .fin 0, .fin 0, .fin 1] ∧
      crossOver 1 2 "close" false (skipRows 1 f) = .ok [.fin 0, .fin 0, .fin 1] := by decide +kernel

/-- `C125_local` for VPIN over 2 bars: a missing volume does not matter 3 bars later, a wrong one 2 bars later does. -/
example : let f : ℚ → XF ℚ → Frame ℚ := fun y x => ⟨["v", "b", "s"],
      [(1, [x, .fin 1, .fin 1]), (2, [.fin y, .fin 2, .fin 0]), (3, [.fin 4, .fin 3, .fin 1]), (4, [.fin 4, .fin 1, .fin 3])]⟩
    lastRows 2 3 (f 4 .nan) = lastRows 2 3 (f 4 (.fin 2)) ∧ vpin 2 "v" "b" "s" (f 4 .nan) = .ok [.nan, .nan, .fin (1 / 2), .fin (1 / 2)] ∧
    vpin 2 "v" "b" "s" (f 4 (.fin 2)) = .ok [.nan, .fin (1 / 3), .fin (1 / 2), .fin (1 / 2)] ∧
    vpin 2 "v" "b" "s" (f 12 (.fin 2)) = .ok [.nan, .fin (1 / 7), .fin (1 / 4), .fin (1 / 2)] := by decide +kernel

end Mizar.Props
