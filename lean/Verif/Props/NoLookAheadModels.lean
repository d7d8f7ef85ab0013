import Verif.Props.NoLookAhead
import Verif.Props.Causal
import Verif.Props.Union
import Verif.Model.PipeSizer

/-!
Property theorems C115, second part: the models, transformers and bet sizers that satisfy the hypotheses of the first part.
-/

set_option linter.unusedSectionVars false

namespace Mizar.Props
open Mizar.Spec Mizar.Pipe Mizar.Tech

section
variable {K : Type} [Field K] [LinearOrder K]

theorem upTo_eq_take {α : Type} (t : ℤ) (l : List (ℤ × α)) (h : (l.map (·.1)).Pairwise (· < ·)) :
    upTo t l = l.take (upTo t l).length := by
  induction l with
  | nil => rfl
  | cons r l ih =>
    rw [List.map_cons, List.pairwise_cons] at h
    unfold upTo at ih ⊢
    by_cases hr : r.1 ≤ t
    · rw [List.filter_cons_of_pos (by simpa using hr), List.length_cons, List.take_succ_cons, ← ih h.2]
    · have : (r :: l).filter (fun r => decide (r.1 ≤ t)) = [] := by
        rw [List.filter_eq_nil_iff]
        intro q hq
        rcases List.mem_cons.1 hq with rfl | hq
        · simpa using hr
        · have := h.1 q.1 (List.mem_map.2 ⟨q, hq, rfl⟩)
          simp only [decide_eq_true_eq]; omega
      rw [this]; rfl

theorem upTo_length {α : Type} (t : ℤ) (l : List (ℤ × α)) :
    (upTo t l).length = ((l.map (·.1)).filter fun s => decide (s ≤ t)).length := by
  unfold upTo
  rw [List.filter_map, List.length_map]
  rfl

/-- The rows of a frame up to a time are its first rows. -/
theorem upTo_zip {α : Type} (t : ℤ) (f : Frame K) (hf : Increasing f) (v : List α) (hv : v.length = f.index.length) :
    upTo t (f.index.zip v) = (f.index.zip v).take (upTo t f.rows).length := by
  have e : (f.index.zip v).map (·.1) = f.index := List.map_fst_zip (by rw [hv])
  rw [upTo_eq_take t _ (by rw [e]; exact hf), upTo_length, upTo_length t f.rows, e]
  rfl

theorem agree_take {t : ℤ} {f f' : Frame K} (hf : Increasing f) (hf' : Increasing f') (h : Agree t f f') :
    f.take (upTo t f.rows).length = f'.take (upTo t f'.rows).length := by
  unfold Frame.take
  rw [← upTo_eq_take t f.rows hf, ← upTo_eq_take t f'.rows hf', agree_upTo h, h.1]

/-- Conversely. -/
theorem causal_values {α : Type} {h : Frame K → Py (List α)} (hc : CausalModel h) {t : ℤ} {f f' : Frame K} (hf : Increasing f)
    (hf' : Increasing f') (ha : Agree t f f') {v v' : List α} (l : v.length = f.index.length) (l' : v'.length = f'.index.length)
    (hv : h f = .ok v) (hv' : h f' = .ok v') : v.take (upTo t f.rows).length = v'.take (upTo t f'.rows).length := by
  have := hc t f f' v v' hf hf' ha l l' hv hv'
  rw [upTo_zip t f hf v l, upTo_zip t f' hf' v' l'] at this
  have := congrArg (List.map (·.2)) this
  rwa [List.map_take, List.map_take, List.map_snd_zip (by rw [l]), List.map_snd_zip (by rw [l'])] at this

/-- **C115** A predictor that gives, on the first bars, the first values of its result on all bars (C58) satisfies the hypothesis. -/
theorem C115_causal_predictor {α : Type} (h : Frame K → Py (List α))
    (hc : ∀ f : Frame K, Increasing f → ∀ k : ℕ, h (f.take k) = (h f).map (List.take k)) : CausalModel h := by
  intro t f f' v v' hf hf' ha l l' hv hv'
  rw [upTo_zip t f hf v l, upTo_zip t f' hf' v' l']
  have e := hc f hf (upTo t f.rows).length
  have e' := hc f' hf' (upTo t f'.rows).length
  rw [hv] at e
  rw [hv', ← agree_take hf hf' ha, e] at e'
  have e2 : v.take (upTo t f.rows).length = v'.take (upTo t f'.rows).length := by
    simpa [Except.map] using e'
  have e3 : f.index.take (upTo t f.rows).length = f'.index.take (upTo t f'.rows).length := by
    rw [← Frame.index_take, ← Frame.index_take, agree_take hf hf' ha]
  rw [List.zip_eq_zipWith, List.zip_eq_zipWith, List.take_zipWith, List.take_zipWith, e2, e3]

/-- **C115** So does a model that treats every row for itself, as the fitted models of scikit-learn do. -/
theorem C115_row_wise {α : Type} (g : List String → List (XF K) → Py α) : CausalModel fun f : Frame K => mapE (fun r => g f.cols r.2) f.rows := by
  intro t f f' v v' hf hf' ha l l' hv hv'
  have key : ∀ (f : Frame K) (v : List α), mapE (fun r => g f.cols r.2) f.rows = .ok v →
      mapE (fun r : ℤ × List (XF K) => (g f.cols r.2).map fun x => (r.1, x)) (upTo t f.rows) = .ok (upTo t (f.index.zip v)) := by
    intro f v hv
    rw [mapE_eq_ok_iff] at hv ⊢
    unfold Frame.index
    generalize f.rows = rows at hv
    induction hv with
    | nil => exact List.Forall₂.nil
    | @cons r x rows v hx _ ih =>
      rw [List.map_cons, List.zip_cons_cons]
      unfold upTo at ih ⊢
      by_cases hr : r.1 ≤ t
      · rw [List.filter_cons_of_pos (by simpa using hr), List.filter_cons_of_pos (by simpa using hr)]
        exact List.Forall₂.cons (by rw [hx]; rfl) ih
      · rw [List.filter_cons_of_neg (by simpa using hr), List.filter_cons_of_neg (by simpa using hr)]
        exact ih
  have e := key f v hv
  have e' := key f' v' hv'
  rw [← agree_upTo ha, ← ha.1, e] at e'
  simpa using e'

/-- **C115** One-hot probabilities, or any other function of the single predictions, keep the hypothesis. -/
theorem C115_of_predictions {α β : Type} (h : Frame K → Py (List α)) (hc : CausalModel h) (g : α → β) :
    CausalModel fun f => (h f).map (List.map g) := by
  intro t f f' v v' hf hf' ha l l' hv hv'
  dsimp only at hv hv'
  cases h1 : h f with
  | error e => rw [h1] at hv; simp [Except.map] at hv
  | ok w =>
    cases h2 : h f' with
    | error e => rw [h2] at hv'; simp [Except.map] at hv'
    | ok w' =>
      rw [h1] at hv
      rw [h2] at hv'
      simp only [Except.map, Except.ok.injEq] at hv hv'
      subst hv; subst hv'
      rw [List.length_map] at l l'
      have e := hc t f f' w w' hf hf' ha l l' h1 h2
      rw [List.zip_map_right, List.zip_map_right]
      have k : ∀ z : List (ℤ × α), upTo t (z.map (Prod.map id g)) = (upTo t z).map (Prod.map id g) := by
        intro z; unfold upTo; rw [List.filter_map]; rfl
      rw [k, k, e]

/-- **C115** The cross-over predictor. -/
theorem C115_cross_over (fast slow : ℤ) (name : String) (fill : Bool) : CausalModel (K := K) (crossOver fast slow name fill) :=
  C115_causal_predictor _ fun f hf k => C58_cross_over_partial fast slow name fill f (hf.imp fun h => ne_of_lt h) k

/-- **C115** The strategies built on an indicator that is causal and gives one value per bar. -/
theorem C115_strategies (ind : Frame K → Py (List (XF K))) (hind : Causal ind)
    (hlen : ∀ f e, ind f = .ok e → e.length = f.rows.length) (threshold : K) (p : BarArrival K) (confirm ma : ℤ) :
    CausalModel (meanReversion ind threshold) ∧ CausalModel (macdCross ind) ∧ CausalModel (barArrivalRsi ind p) ∧
    CausalModel (rsiConfirmation ind threshold confirm ma) := by
  obtain ⟨a, b, c, d⟩ := C58_strategies ind hind hlen threshold p confirm ma
  exact ⟨C115_causal_predictor _ fun f _ => a f, C115_causal_predictor _ fun f _ => b f, C115_causal_predictor _ fun f _ => c f,
    C115_causal_predictor _ fun f _ => d f⟩

/-- **C115** A feature union of causal transformers, with any names of the columns. -/
theorem C115_union (names : List String) (fs : List (Frame K → Py (List (List (XF K))))) (hc : ∀ f ∈ fs, CausalModel f) :
    CausalTr fun X => (Union.transform fs X).map fun rows => (⟨names, rows⟩ : Frame K) := by
  have split : ∀ (X g : Frame K), ((Union.transform fs X).map fun rows => (⟨names, rows⟩ : Frame K)) = .ok g →
      g.cols = names ∧ Union.transform fs X = .ok g.rows := by
    intro X g hg
    cases h : Union.transform fs X with
    | error e => rw [h] at hg; simp [Except.map] at hg
    | ok rows =>
      rw [h] at hg
      simp only [Except.map, Except.ok.injEq] at hg
      subst hg
      exact ⟨rfl, rfl⟩
  constructor
  · intro f g hf hg
    obtain ⟨-, hg⟩ := split f g hg
    unfold Increasing Frame.index
    rw [(C82_index fs f g.rows hg).1]
    exact hf
  · intro t f f' g g' hf hf' ha hg hg'
    obtain ⟨c1, hgr⟩ := split f g hg
    obtain ⟨c2, hgr'⟩ := split f' g' hg'
    refine ⟨by rw [c1, c2], ?_⟩
    obtain ⟨i1, ms, m1, m2, m3⟩ := C82_index fs f g.rows hgr
    obtain ⟨i1', ms', m1', m2', m3'⟩ := C82_index fs f' g'.rows hgr'
    have hlen : (upTo t f.rows).length = (upTo t f'.rows).length := by rw [agree_upTo ha]
    have hk : (upTo t f.rows).length ≤ f.rows.length := List.length_filter_le _ _
    have hk' : (upTo t f'.rows).length ≤ f'.rows.length := List.length_filter_le _ _
    have l1 : g.rows.length = f.rows.length := by
      have := congrArg List.length i1
      simpa [Frame.index] using this
    have l2 : g'.rows.length = f'.rows.length := by
      have := congrArg List.length i1'
      simpa [Frame.index] using this
    have u1 : upTo t g.rows = g.rows.take (upTo t f.rows).length := by
      rw [upTo_eq_take t g.rows (by rw [i1]; exact hf), upTo_length, i1, upTo_length t f.rows]; rfl
    have u2 : upTo t g'.rows = g'.rows.take (upTo t f'.rows).length := by
      rw [upTo_eq_take t g'.rows (by rw [i1']; exact hf'), upTo_length, i1', upTo_length t f'.rows]; rfl
    have hms : ∀ i < (upTo t f.rows).length, (ms.map fun m => m.getD i []) = ms'.map fun m => m.getD i [] := by
      intro i hi
      clear m3 m3' hgr hgr' hg hg' split
      induction m1 generalizing ms' with
      | nil => cases m1'; rfl
      | @cons h m fs ms hm _ ih =>
        cases m1' with
        | @cons _ m' _ ms' hm' m1' =>
          rw [List.map_cons, List.map_cons]
          have := causal_values (hc h List.mem_cons_self) hf hf' ha (by rw [m2 m List.mem_cons_self]; simp [Frame.index])
            (by rw [m2' m' List.mem_cons_self]; simp [Frame.index]) hm hm'
          congr 1
          · have q := congrArg (fun l => l[i]?) this
            simp only [List.getElem?_take, if_pos hi, if_pos (hlen ▸ hi)] at q
            rw [List.getD_eq_getElem?_getD, List.getD_eq_getElem?_getD, q]
          · exact ih (fun f hf => hc f (List.mem_cons_of_mem _ hf)) (fun m hm => m2 m (List.mem_cons_of_mem _ hm)) ms' m1'
              (fun m hm => m2' m (List.mem_cons_of_mem _ hm))
    have hfst : f.index.take (upTo t f.rows).length = f'.index.take (upTo t f'.rows).length := by
      rw [← Frame.index_take, ← Frame.index_take, agree_take hf hf' ha]
    change upTo t g.rows = upTo t g'.rows
    rw [u1, u2]
    have hf1 : (g.rows.take (upTo t f.rows).length).map (·.1) = (g'.rows.take (upTo t f'.rows).length).map (·.1) := by
      rw [List.map_take, List.map_take, i1, i1', hfst]
    have hf2 : (g.rows.take (upTo t f.rows).length).map (·.2) = (g'.rows.take (upTo t f'.rows).length).map (·.2) := by
      apply List.ext_getElem?
      intro i
      rw [List.map_take, List.map_take, List.getElem?_take, List.getElem?_take, ← hlen]
      by_cases hi : i < (upTo t f.rows).length
      · rw [if_pos hi, if_pos hi, m3 i (by omega), m3' i (by omega), hms i hi]
      · rw [if_neg hi, if_neg hi]
    rw [← List.zip_unzip (g.rows.take _), ← List.zip_unzip (g'.rows.take _), List.unzip_eq_map, List.unzip_eq_map]
    dsimp only
    rw [hf1, hf2]

end

section

/-- The size of one row of the frame given to the bet sizer. -/
noncomputable def betRowSize (c : Bet.Cfg) (r : BetRow ℝ) : XF ℝ :=
  let x := Bet.signal1 c.numClasses (.fin r.pred) r.prob
  let x := if c.metaLabeling then XF.mul x (r.side.getD .nan) else x
  XF.abs (if c.discretise then (match c.stepSize with | none => x | some s => Bet.discretise1 s x) else x)

theorem probSizer_rows (c : Bet.Cfg) (rows : List (BetRow ℝ)) (s : Ser ℝ) (h : probSizer c rows = .ok s) :
    s = rows.map fun r => (r.time, betRowSize c r) := by
  unfold probSizer Bet.transform at h
  cases h0 : Bet.transform0 c (betFrame rows) with
  | error e => rw [h0] at h; simp at h
  | ok z =>
    rw [h0] at h
    dsimp only at h
    split at h
    swap
    · simp at h
    simp only [Except.ok.injEq] at h
    subst h
    unfold Bet.transform0 at h0
    simp only [betFrame] at h0
    split at h0
    · simp at h0
    cases h1 : Bet.applySide c (betFrame rows) (List.zipWith (Bet.signal1 c.numClasses) (rows.map fun r => .fin r.pred) (rows.map BetRow.prob)) with
    | error e => simp only [betFrame] at h1; rw [h1] at h0; simp at h0
    | ok x =>
      have h1' := h1
      simp only [betFrame] at h1'
      rw [h1'] at h0
      dsimp only at h0
      have hx : x = rows.map fun r => if c.metaLabeling then XF.mul (Bet.signal1 c.numClasses (.fin r.pred) r.prob) (r.side.getD .nan)
          else Bet.signal1 c.numClasses (.fin r.pred) r.prob := by
        unfold Bet.applySide at h1
        by_cases hm : c.metaLabeling = true
        · simp only [hm, if_true] at h1 ⊢
          simp only [betFrame] at h1
          split at h1
          · simp at h1
          · rename_i side hside
            split at hside
            · simp only [Option.some.injEq] at hside
              subst hside
              split at h1
              · simp only [Except.ok.injEq] at h1
                subst h1
                simp only [List.zipWith_map, List.zipWith_self]
              · simp at h1
            · simp at hside
        · rw [if_neg hm] at h1
          simp only [Except.ok.injEq] at h1
          subst h1
          simp only [hm, List.zipWith_map, List.zipWith_self]
          rfl
      subst hx
      unfold Bet.applyAverage at h0
      by_cases ha : c.averageActive = true
      · rw [if_pos ha] at h0; simp at h0
      · rw [if_neg ha] at h0
        dsimp only at h0
        unfold Bet.applyDiscretise at h0
        by_cases hd : c.discretise = true
        · simp only [hd, if_true] at h0
          cases hst : c.stepSize with
          | none => rw [hst] at h0; simp at h0
          | some st =>
            rw [hst] at h0
            unfold Bet.discretiseSignal at h0
            dsimp only at h0
            split at h0
            · simp at h0
            · rename_i w hw
              split at hw
              · simp only [Except.ok.injEq] at hw h0
                subst hw; subst h0
                simp only [List.zip_map', List.map_map, betRowSize, hd, if_true, hst]
                rfl
              · simp at hw
        · simp only [hd] at h0
          simp only [Bool.false_eq_true, if_false, Except.ok.injEq] at h0
          subst h0
          simp only [List.zip_map', List.map_map, betRowSize, hd]
          rfl

/-- **C115** The bet sizer of the repository, used in a pipeline, with every configuration. -/
theorem C115_bet_sizer (c : Bet.Cfg) : CausalSizer (probSizer c) := by
  constructor
  · intro rows s hr hs
    rw [probSizer_rows c rows s hs, List.map_map]
    exact hr
  · intro t rows rows' s s' hr hr' h hs hs'
    rw [probSizer_rows c rows s hs, probSizer_rows c rows' s' hs']
    unfold upTo
    rw [List.filter_map, List.filter_map]
    change List.map _ (rows.filter fun r => decide (r.time ≤ t)) = List.map _ (rows'.filter fun r => decide (r.time ≤ t))
    rw [h]

end
section Examples

/-- A cross-over model whose bars are aligned with ticks, and a metalabeling model that treats every row for itself. -/
private def nlaCfg : Cfg ℚ where
  alignOn := "bars"
  alignHow := [("ticks", "mean")]
  trPrimary := [("bars", none)]
  trMeta := [("ticks", none)]
  primary := ⟨true, [-1, 0, 1], crossOver 1 2 "close" false,
    fun f => (crossOver 1 2 "close" false f).map (List.map fun p => ([-1, 0, 1] : List ℚ).map fun c => if XF.beq p (.fin c) then .fin 1 else .fin 0)⟩
  metaModel := some ⟨true, [0, 1], fun f => mapE (fun r => .ok (r.2.getLastD .nan)) f.rows,
    fun f => mapE (fun r => .ok [.fin (1/4), XF.add (.fin (1/2)) (XF.mul (.fin (1/4)) (r.2.getLastD .nan))]) f.rows⟩
  useProba := false
  usePredictions := true
  betSizer := none

private theorem nlaCausal : CausalCfg nlaCfg := by
  refine ⟨?_, ?_, C115_cross_over _ _ _ _, C115_of_predictions _ (C115_cross_over _ _ _ _) _, ?_, ?_⟩
  · intro p hp tr htr
    simp only [nlaCfg, List.mem_singleton] at hp
    subst hp; simp at htr
  · intro p hp tr htr
    simp only [nlaCfg, List.mem_singleton] at hp
    subst hp; simp at htr
  · intro m hm
    simp only [nlaCfg, Option.some.injEq] at hm
    subst hm
    exact ⟨C115_row_wise fun _ r => .ok (r.getLastD .nan),
      C115_row_wise fun _ r => .ok [.fin (1/4), XF.add (.fin (1/2)) (XF.mul (.fin (1/4)) (r.getLastD .nan))]⟩
  · intro bs hbs
    simp [nlaCfg] at hbs

private def nlaData : Dict ℚ :=
  [("bars", ⟨["close"], [(10, [.fin 5]), (20, [.fin 4]), (30, [.fin 6]), (40, [.fin 3])]⟩),
   ("ticks", ⟨["x"], [(12, [.fin 1]), (17, [.fin 2]), (29, [.fin 4]), (35, [.fin 8])]⟩)]

/-- The same data up to time 30, other data later. -/
private def nlaData' : Dict ℚ :=
  [("bars", ⟨["close"], [(10, [.fin 5]), (20, [.fin 4]), (30, [.fin 6]), (50, [.fin 9]), (60, [.fin 2])]⟩),
   ("ticks", ⟨["x"], [(12, [.fin 1]), (17, [.fin 2]), (29, [.fin 4]), (55, [.fin 7])]⟩)]

example : getSideAndSize nlaCfg nlaData = .ok [(20, .fin 0, .fin (1/2)), (30, .fin 1, .fin (3/4)), (40, .fin (-1), .fin (1/4))] := by
  decide +kernel

example : getSideAndSize nlaCfg nlaData' = .ok [(20, .fin 0, .fin (1/2)), (30, .fin 1, .fin (3/4)), (50, .fin 0, .fin (1/2)), (60, .fin (-1), .fin (1/4))] := by
  decide +kernel

private theorem nlaInc : IncDict nlaData ∧ IncDict nlaData' ∧ AgreeAll 30 nlaData nlaData' := by
  refine ⟨?_, ?_, ?_⟩
  · intro p hp
    simp only [nlaData, List.mem_cons, List.not_mem_nil, or_false] at hp
    rcases hp with rfl | rfl <;> (unfold Increasing; decide +kernel)
  · intro p hp
    simp only [nlaData', List.mem_cons, List.not_mem_nil, or_false] at hp
    rcases hp with rfl | rfl <;> (unfold Increasing; decide +kernel)
  · refine List.Forall₂.cons ⟨rfl, rfl, ?_⟩ (List.Forall₂.cons ⟨rfl, rfl, ?_⟩ List.Forall₂.nil) <;> decide +kernel

example (r r' : List (ℤ × XF ℚ × XF ℚ)) (hr : getSideAndSize nlaCfg nlaData = .ok r) (hr' : getSideAndSize nlaCfg nlaData' = .ok r') :
    upTo 30 r = upTo 30 r' :=
  C115_side_and_size nlaCfg nlaCausal 30 nlaData nlaData' nlaInc.1 nlaInc.2.1 nlaInc.2.2 r r' hr hr'

end Examples

private theorem nlaOk {α : Type} {x : Py α} (h : x.toOption.isSome = true) : ∃ r, x = .ok r := by
  cases x with
  | error e => simp [Except.toOption] at h
  | ok r => exact ⟨r, rfl⟩

/-- The hypotheses of the theorems on predictions and probabilities are met: both calls return, and the rows after time 30 differ. -/
example : ∃ r r', predict nlaCfg nlaData = .ok r ∧ predict nlaCfg nlaData' = .ok r' ∧ r.primary ≠ r'.primary ∧
    upTo 30 r.primary = upTo 30 r'.primary ∧ r.metal.map (upTo 30) = r'.metal.map (upTo 30) := by
  obtain ⟨r, hr⟩ : ∃ r, predict nlaCfg nlaData = .ok r := nlaOk (by decide +kernel)
  obtain ⟨r', hr'⟩ : ∃ r, predict nlaCfg nlaData' = .ok r := nlaOk (by decide +kernel)
  refine ⟨r, r', hr, hr', ?_, C115_predict nlaCfg nlaCausal 30 nlaData nlaData' nlaInc.1 nlaInc.2.1 nlaInc.2.2 r r' hr hr'⟩
  have e : (predict nlaCfg nlaData).map (·.primary) ≠ (predict nlaCfg nlaData').map (·.primary) := by decide +kernel
  intro h
  rw [hr, hr'] at e
  exact e (by simp [Except.map, h])

example : ∃ r r', predictProba nlaCfg nlaData = .ok r ∧ predictProba nlaCfg nlaData' = .ok r' ∧
    upTo 30 r.primary = upTo 30 r'.primary ∧ r.metal.map (upTo 30) = r'.metal.map (upTo 30) := by
  obtain ⟨r, hr⟩ : ∃ r, predictProba nlaCfg nlaData = .ok r := nlaOk (by decide +kernel)
  obtain ⟨r', hr'⟩ : ∃ r, predictProba nlaCfg nlaData' = .ok r := nlaOk (by decide +kernel)
  exact ⟨r, r', hr, hr', C115_predict_proba nlaCfg nlaCausal 30 nlaData nlaData' nlaInc.1 nlaInc.2.1 nlaInc.2.2 r r' hr hr'⟩

/-- A union of a cross-over and a model for single rows is a transformer that does not look ahead. -/
example : CausalTr fun X : Frame ℚ =>
    (Union.transform [fun f => (crossOver 1 2 "close" false f).map (List.map fun p => [p]), fun f => mapE (fun r => .ok r.2) f.rows] X).map
      fun rows => (⟨["side", "close"], rows⟩ : Frame ℚ) := by
  refine C115_union _ _ fun f hf => ?_
  simp only [List.mem_cons, List.not_mem_nil, or_false] at hf
  rcases hf with rfl | rfl
  · exact C115_of_predictions _ (C115_cross_over _ _ _ _) _
  · exact C115_row_wise fun _ r => .ok r

end Mizar.Props
