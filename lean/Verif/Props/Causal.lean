import Verif.Model.Features
import Verif.Lemmas.Technical
import Verif.Props.Technical

/-!
Property theorem C58: the features are causal.
-/

set_option linter.unusedSectionVars false

namespace Mizar.Props
open Mizar.Spec Mizar.Tech Mizar.Feat

section
variable {K : Type} [Field K] [LinearOrder K]

theorem likeIndex_take (f : Frame K) (v : List (XF K)) (h : v.length = f.rows.length) (k : ℕ) :
    likeIndex (f.take k) (v.take k) = takeE k (likeIndex f v) := by
  unfold likeIndex
  rw [if_pos h, if_pos (by simp [Frame.take, h])]; rfl

theorem map_takeE {α β : Type} (g : List α → List β) (k : ℕ) (h : ∀ l, g (l.take k) = (g l).take k) (l : List α) :
    (.ok (g (l.take k)) : Py (List β)) = takeE k (.ok (g l)) := by
  rw [h, takeE_ok]

theorem mem_crossLabels_take (p q : XF K → XF K → Bool) (idx : List ℤ) (fa sl : List (XF K)) (hn : idx.Nodup) (k i : ℕ)
    (hi : i < idx.length) (hk : i < k) :
    idx[i] ∈ crossLabels p q (idx.take k) (fa.take k) (sl.take k) ↔ idx[i] ∈ crossLabels p q idx fa sl := by
  have hn' : (idx.take k).Nodup := hn.sublist (List.take_sublist _ _)
  have hi' : i < (idx.take k).length := by simp; omega
  have e : idx[i] = (idx.take k)[i] := by rw [List.getElem_take]
  conv_lhs => rw [e]
  unfold crossLabels
  rw [List.mem_filterMap, List.mem_filterMap]
  constructor
  · rintro ⟨r, hr, h⟩
    refine ⟨r, ?_, by rw [h, ← e]⟩
    rw [pdShift_take, pdShift_take, zipWith_take, zipWith_take, zipWith_take] at hr
    rw [List.zip_eq_zipWith, zipWith_take] at hr
    rw [List.zip_eq_zipWith]
    exact List.mem_of_mem_take hr
  · rintro ⟨r, hr, h⟩
    refine ⟨r, ?_, by rw [h, ← e]⟩
    rw [pdShift_take, pdShift_take, zipWith_take, zipWith_take, zipWith_take]
    rw [List.zip_eq_zipWith, zipWith_take, ← List.zip_eq_zipWith]
    obtain ⟨j, hj, rfl⟩ := List.mem_iff_getElem.1 hr
    have hr1 : idx[i] = (idx.zip (List.zipWith (fun a b => a && b) (List.zipWith p (pdShift fa) (pdShift sl)) (List.zipWith q fa sl)))[j].1 := by
      revert h
      cases hb : (idx.zip (List.zipWith (fun a b => a && b) (List.zipWith p (pdShift fa) (pdShift sl)) (List.zipWith q fa sl)))[j].2
      · simp
      · simp only [if_true, Option.some.injEq]; exact fun h => h.symm
    have hjl : j < idx.length := by simp at hj; omega
    rw [List.getElem_zip] at hr1
    have : i = j := (List.Nodup.getElem_inj_iff hn).1 hr1
    subst this
    rw [List.mem_iff_getElem]
    exact ⟨i, by simp at hj ⊢; omega, by rw [List.getElem_take]⟩

/-- C58 (partial: unique index): the crossover side, with and without filling, is causal. -/
theorem C58_cross_over_partial (fast slow : ℤ) (name : String) (fill : Bool) (f : Frame K) (hn : f.index.Nodup) :
    CausalAt (crossOver fast slow name fill) f := by
  intro k
  unfold crossOver
  apply takeE_bind k _ _ _ _ (Frame.col_take f name k)
  intro c _
  apply takeE_bind k _ _ _ _ (rollE_take fast winMean c k)
  intro fa _
  apply takeE_bind k _ _ _ _ (Frame.col_take f name k)
  intro c' _
  apply takeE_bind k _ _ _ _ (rollE_take slow winMean c' k)
  intro sl _
  rw [takeE_ok, Frame.index_take, ← List.map_take, ← pdFfill_take]
  dsimp only
  congr 3
  rw [← List.map_take]
  apply List.map_congr_left
  intro t ht
  obtain ⟨i, hi, rfl⟩ := List.mem_iff_getElem.1 ht
  have hi' : i < k ∧ i < f.index.length := by simpa using hi
  rw [List.getElem_take]
  unfold upCross downCross
  simp only [mem_crossLabels_take _ _ f.index fa sl hn k i hi'.2 hi'.1]

/-- C58 is refuted for times that occur twice: the crossing at the third bar changes the value at the second. -/
theorem C58_duplicate_times_refuted : ¬ Causal (K := ℚ) (crossOver 1 2 "close" false) := by
  intro h
  have := h ⟨["close"], [(1, [.fin 3]), (2, [.fin 2]), (2, [.fin (4 : ℚ)])]⟩ 2
  revert this
  decide +kernel

/-- C58: differences of exponentially weighted averages and the buy/sell imbalance are causal. -/
theorem C58_ewm (fast slow : ℤ) (name t : String) (normalised : Bool) :
    Causal (K := K) (ewmaDifference fast slow name normalised) ∧ Causal (K := K) (buySellImbalance fast slow t) := by
  constructor
  · intro f k
    unfold ewmaDifference
    apply takeE_bind k _ _ _ _ (Frame.col_take f _ k)
    intro c _
    apply takeE_bind k _ _ _ _ (ewmE_take fast c k)
    intro fa _
    apply takeE_bind k _ _ _ _ (Frame.col_take f _ k)
    intro c' _
    apply takeE_bind k _ _ _ _ (ewmE_take slow c' k)
    intro sl _
    rw [takeE_ok, zipWith_take]
    dsimp only
    split
    · rw [zipWith_take]
    · rfl
  · intro f k
    unfold buySellImbalance
    apply takeE_bind k _ _ _ _ (Frame.col_take f _ k)
    intro b _
    apply takeE_bind k _ _ _ _ (ewmE_take fast b k)
    intro fb _
    apply takeE_bind k _ _ _ _ (Frame.col_take f _ k)
    intro s _
    apply takeE_bind k _ _ _ _ (ewmE_take fast s k)
    intro fs _
    apply takeE_bind k _ _ _ _ (Frame.col_take f _ k)
    intro b' _
    apply takeE_bind k _ _ _ _ (ewmE_take slow b' k)
    intro sb _
    apply takeE_bind k _ _ _ _ (Frame.col_take f _ k)
    intro s' _
    apply takeE_bind k _ _ _ _ (ewmE_take slow s' k)
    intro ss _
    apply takeE_bind k _ _ _ _ (Frame.col_take f _ k)
    intro v _
    rw [takeE_ok, zipWith_take, zipWith_take, zipWith_take, List.map_take, zipWith_take]

theorem arrivals_take (idx : List ℤ) (k : ℕ) : (arrivals (idx.take k) : List (XF K)) = (arrivals idx).take (k - 1) := by
  unfold arrivals
  rw [List.take_zipWith]
  cases k with
  | zero => simp
  | succ k =>
    apply List.ext_getElem?
    intro i
    simp only [List.getElem?_zipWith, List.getElem?_take, List.getElem?_tail, Nat.add_sub_cancel]
    by_cases h : i < k
    · rw [if_pos (by omega), if_pos h, if_pos (by omega), if_pos h]
    · rw [if_neg (by omega), if_neg h]

/-- C58: the strategies built on an indicator are causal whenever the indicator is causal and gives one value per
bar. -/
theorem C58_strategies (ind : Frame K → Py (List (XF K))) (hind : Causal ind)
    (hlen : ∀ f e, ind f = .ok e → e.length = f.rows.length) (threshold : K) (p : BarArrival K) (confirm ma : ℤ) :
    Causal (meanReversion ind threshold) ∧ Causal (macdCross ind) ∧ Causal (barArrivalRsi ind p) ∧
    Causal (rsiConfirmation ind threshold confirm ma) := by
  refine ⟨?_, ?_, ?_, ?_⟩
  · intro f k
    unfold meanReversion
    apply takeE_bind k _ _ _ _ (hind f k)
    intro v hv
    apply takeE_bind k _ _ _ _ (likeIndex_take f v (hlen f v hv) k)
    intro e _
    apply takeE_bind k _ _ _ _ (Frame.col_take f _ k)
    intro c _
    rw [takeE_ok, zipWith_take]
  · intro f k
    unfold macdCross
    apply takeE_bind k _ _ _ _ (hind f k)
    intro v hv
    rw [takeE_ok, List.map_take, pdDiff_take, List.map_take]
  · intro f k
    unfold barArrivalRsi
    have harr := arrivals_take (K := K) f.index k
    rw [← Frame.index_take] at harr
    rw [harr, rollE_take, rollE_take]
    cases h1 : rollE p.slow winMean (arrivals f.index : List (XF K)) with
    | error e => rfl
    | ok sl =>
      cases h2 : rollE p.fast winMean (arrivals f.index : List (XF K)) with
      | error e => rfl
      | ok fa =>
        simp only [takeE_ok, Py.bind_ok]
        apply takeE_bind k _ _ _ _ (hind f k)
        intro v hv
        apply takeE_bind k _ _ _ _ (likeIndex_take f v (hlen f v hv) k)
        intro r _
        rw [takeE_ok, zipWith_take, List.take_zipWith]
        cases k with
        | zero => simp
        | succ k => simp [List.take_zipWith]
  · intro f k
    unfold rsiConfirmation
    apply takeE_bind k _ _ _ _ (hind f k)
    intro v hv
    apply takeE_bind k _ _ _ _ (likeIndex_take f v (hlen f v hv) k)
    intro r _
    apply takeE_bind k _ _ _ _ (rollE_take ma winMean r k)
    intro m _
    apply takeE_bind k _ _ _ _ (by rw [List.map_take]; exact rollE_take confirm winAll _ k)
    intro low _
    dsimp only
    rw [takeE_ok, List.map_take, pdDiff_take, List.map_take, zipWith_take]

theorem fillFrom_getElem? (w : ℕ) (l : List (XF K)) (i : ℕ) :
    (fillFrom w l)[i]? = l[i]?.map fun x => if i < w then x else fillna1 (.fin 0) x := by
  unfold fillFrom
  rw [List.getElem?_append]
  by_cases h : i < w
  · by_cases h' : i < l.length
    · rw [if_pos (by simp; omega), List.getElem?_take, if_pos h]
      simp [h]
    · rw [if_neg (by simp; omega)]
      rw [List.getElem?_eq_none (by simp; omega), List.getElem?_eq_none (by omega)]; rfl
  · rw [if_neg (by simp; omega), List.getElem?_map, List.getElem?_drop]
    simp only [if_neg h]
    by_cases h' : i < l.length
    · rw [show w + (i - (l.take w).length) = i by simp; omega]
    · rw [List.getElem?_eq_none (by simp; omega), List.getElem?_eq_none (by omega)]

theorem fillFrom_take (w : ℕ) (l : List (XF K)) (k : ℕ) : fillFrom w (l.take k) = (fillFrom w l).take k := by
  apply List.ext_getElem?
  intro i
  rw [fillFrom_getElem?, List.getElem?_take, List.getElem?_take, fillFrom_getElem?]
  by_cases h : i < k
  · rw [if_pos h, if_pos h]
  · rw [if_neg h, if_neg h]; rfl

theorem fillFrom_defined (w : ℕ) (l : List (XF K)) : ((fillFrom w l).drop w).any XF.isNan = false := by
  rw [List.any_eq_false]
  intro x hx
  obtain ⟨i, hi⟩ := List.mem_iff_getElem?.1 hx
  rw [List.getElem?_drop, fillFrom_getElem?] at hi
  obtain ⟨y, -, rfl⟩ := Option.map_eq_some_iff.1 hi
  rw [if_neg (by omega)]
  unfold fillna1
  split
  · simp
  · assumption

/-- C58: VPIN is causal. -/
theorem C58_vpin (window : ℤ) (volume buy sell : String) : Causal (K := K) (vpin window volume buy sell) := by
  intro f k
  unfold vpin
  apply takeE_bind_unit
  intro _
  apply takeE_bind k _ _ _ _ (Frame.col_take f _ k)
  intro v _
  apply takeE_bind k _ _ _ _ (rollE_take window winSum v k)
  intro total _
  apply takeE_bind k _ _ _ _ (Frame.col_take f _ k)
  intro b _
  apply takeE_bind k _ _ _ _ (Frame.col_take f _ k)
  intro s _
  apply takeE_bind k _ _ _ _ (by rw [zipWith_take, List.map_take]; exact rollE_take window winSum _ k)
  intro d _
  simp only [fillFrom_defined, Bool.false_eq_true, if_false]
  rw [takeE_ok, zipWith_take, fillFrom_take]

end

theorem zScore_take (window : ℤ) (x : List (XF ℝ)) (k : ℕ) : zScore window (x.take k) = takeE k (zScore window x) := by
  unfold zScore
  apply takeE_bind k _ _ _ _ (rollE_take window winMean x k)
  intro m _
  apply takeE_bind k _ _ _ _ (rollE_take window winStd x k)
  intro s _
  rw [takeE_ok, zipWith_take, zipWith_take]

/-- C58: the rolling z-score is causal for every causal series, hence for every key of the factory. -/
theorem C58_z_score (window : ℤ) :
    (∀ series, Causal series → Causal (zScoreTransform window series)) ∧ ∀ key, Causal (zScoreFactory key window) := by
  have h1 : ∀ series, Causal series → Causal (zScoreTransform window series) := by
    intro series hs f k
    unfold zScoreTransform
    apply takeE_bind k _ _ _ _ (hs f k)
    intro x _
    exact zScore_take window x k
  refine ⟨h1, ?_⟩
  have ha : Causal barArrivalTime := by
    intro f k
    unfold barArrivalTime
    change _ = takeE k _
    rw [takeE_ok, Frame.index_take, List.map_take, pdDiff_take]
  have two : ∀ (n m : String) (g : XF ℝ → XF ℝ → XF ℝ), Causal (K := ℝ) fun f =>
      f.attr n >>= fun a => f.attr m >>= fun b => .ok (List.zipWith g a b) := by
    intro n m g f k
    apply takeE_bind k _ _ _ _ (Frame.attr_take f _ k)
    intro a _
    apply takeE_bind k _ _ _ _ (Frame.attr_take f _ k)
    intro b _
    rw [takeE_ok, zipWith_take]
  intro key f k
  unfold zScoreFactory
  cases hk : zScoreTypes key with
  | none => rfl
  | some g =>
    refine h1 g ?_ f k
    unfold zScoreTypes at hk
    split at hk
    · simp only [Option.some.injEq] at hk; subst hk; exact ha
    · split at hk
      · simp only [Option.some.injEq] at hk; subst hk; exact two _ _ _
      · split at hk
        · simp only [Option.some.injEq] at hk; subst hk; exact two _ _ _
        · split at hk
          · simp only [Option.some.injEq] at hk; subst hk; exact two _ _ _
          · simp at hk

theorem getBeta_take (h l : List (XF ℝ)) (window : ℤ) (k : ℕ) :
    getBeta (h.take k) (l.take k) window = takeE k (getBeta h l window) := by
  unfold getBeta
  apply takeE_bind k _ _ _ _ (by rw [zipWith_take, List.map_take]; exact rollE_take 2 winSum _ k)
  intro b _
  exact rollE_take window winMean b k

theorem getGamma_take (h l : List (XF ℝ)) (k : ℕ) : getGamma (h.take k) (l.take k) = takeE k (getGamma h l) := by
  unfold getGamma
  apply takeE_bind k _ _ _ _ (rollE_take 2 winMax h k)
  intro a _
  apply takeE_bind k _ _ _ _ (rollE_take 2 winMin l k)
  intro b _
  rw [takeE_ok, zipWith_take, List.map_take]

/-- C58: the microstructural features and the local maximum ratio are causal. -/
theorem C58_microstructure (window : ℤ) (a b : String) :
    Causal (rollMeasure window a) ∧ Causal (rollImpact window a b) ∧ Causal (parkinson window a b) ∧
    Causal (corwinSchultz window a b) ∧ Causal (beckersParkinson window a b) ∧ Causal (kyle window a b) ∧
    Causal (amihud window a b) ∧ Causal (hasbrouck window a b) ∧ Causal (localMaxRatio window) := by
  have hroll : Causal (rollMeasure window a) := by
    intro f k
    unfold rollMeasure
    apply takeE_bind_unit
    intro _
    apply takeE_bind k _ _ _ _ (Frame.col_take f _ k)
    intro c _
    apply takeE_bind k _ _ _ _ (by rw [pdDiff_take, pdShift_take]; exact rollE2_take window winCov _ _ k)
    intro v _
    rw [takeE_ok, List.map_take]
  refine ⟨hroll, ?_, ?_, ?_, ?_, ?_, ?_, ?_, ?_⟩
  · intro f k
    unfold rollImpact
    apply takeE_bind k _ _ _ _ (hroll f k)
    intro r _
    apply takeE_bind k _ _ _ _ (Frame.col_take f _ k)
    intro v _
    rw [takeE_ok, zipWith_take]
  · intro f k
    unfold parkinson
    apply takeE_bind_unit
    intro _
    apply takeE_bind k _ _ _ _ (Frame.col_take f _ k)
    intro h _
    apply takeE_bind k _ _ _ _ (Frame.col_take f _ k)
    intro l _
    rw [zipWith_take, List.map_take, rollE_take]
  · intro f k
    unfold corwinSchultz
    apply takeE_bind_unit
    intro _
    apply takeE_bind k _ _ _ _ (Frame.col_take f _ k)
    intro h _
    apply takeE_bind k _ _ _ _ (Frame.col_take f _ k)
    intro l _
    apply takeE_bind k _ _ _ _ (getBeta_take h l window k)
    intro be _
    apply takeE_bind k _ _ _ _ (getGamma_take h l k)
    intro ga _
    unfold getAlpha
    rw [takeE_ok, zipWith_take, List.map_take]
  · intro f k
    unfold beckersParkinson
    apply takeE_bind_unit
    intro _
    apply takeE_bind k _ _ _ _ (Frame.col_take f _ k)
    intro h _
    apply takeE_bind k _ _ _ _ (Frame.col_take f _ k)
    intro l _
    apply takeE_bind k _ _ _ _ (getBeta_take h l window k)
    intro be _
    apply takeE_bind k _ _ _ _ (getGamma_take h l k)
    intro ga _
    dsimp only
    rw [takeE_ok, zipWith_take]
  · intro f k
    unfold kyle
    apply takeE_bind_unit
    intro _
    apply takeE_bind k _ _ _ _ (Frame.col_take f _ k)
    intro c _
    apply takeE_bind k _ _ _ _ (Frame.col_take f _ k)
    intro v _
    rw [pdDiff_take, List.map_take, zipWith_take, rollE_take]
  · intro f k
    unfold amihud
    apply takeE_bind_unit
    intro _
    apply takeE_bind k _ _ _ _ (Frame.col_take f _ k)
    intro c _
    apply takeE_bind k _ _ _ _ (Frame.col_take f _ k)
    intro v _
    rw [List.map_take, pdDiff_take, List.map_take, zipWith_take, rollE_take]
  · intro f k
    unfold hasbrouck
    apply takeE_bind_unit
    intro _
    apply takeE_bind k _ _ _ _ (Frame.col_take f _ k)
    intro c _
    apply takeE_bind k _ _ _ _ (Frame.col_take f _ k)
    intro v _
    rw [List.map_take, pdDiff_take, List.map_take, List.map_take, zipWith_take, rollE_take]
  · intro f k
    unfold localMaxRatio
    apply takeE_bind k _ _ _ _ (Frame.attr_take f _ k)
    intro h _
    apply takeE_bind k _ _ _ _ (rollE_take window winMax h k)
    intro m _
    apply takeE_bind k _ _ _ _ (Frame.attr_take f _ k)
    intro c _
    rw [takeE_ok, zipWith_take]

/-- Three bars at different times; the crossing at the second bar is seen by the second bar already. -/
example : CausalAt (crossOver 1 2 "close" false) (⟨["close"], [(1, [.fin 3]), (2, [.fin 2]), (3, [.fin (4 : ℚ)])]⟩ : Frame ℚ) ∧
    crossOver 1 2 "close" false (⟨["close"], [(1, [.fin 3]), (2, [.fin 2]), (3, [.fin (4 : ℚ)])]⟩ : Frame ℚ) = .ok [.fin 0, .fin 0, .fin 1] :=
  ⟨C58_cross_over_partial 1 2 "close" false _ (by decide), by decide +kernel⟩

/-- The strategies on the column of an indicator that was computed before. -/
example (p : BarArrival ℚ) :
    Causal (meanReversion (fun f : Frame ℚ => f.col "rsi") 30) ∧ Causal (macdCross fun f : Frame ℚ => f.col "rsi") ∧
    Causal (barArrivalRsi (fun f : Frame ℚ => f.col "rsi") p) ∧ Causal (rsiConfirmation (fun f : Frame ℚ => f.col "rsi") 30 2 3) :=
  C58_strategies (fun f => f.col "rsi") (fun f k => Frame.col_take f "rsi" k)
    (by
      intro f e h
      unfold Frame.col at h
      split at h
      · simp only [Except.ok.injEq] at h; subst h; simp [Frame.values]
      · simp at h) 30 p 2 3

end Mizar.Props
