import Verif.Lemmas.BetSizing

/-!
Property theorems C37-C41: bet sizes (`/repo/mizarlabs/transformers/trading/bet_sizing.py`).
-/

set_option linter.unusedSectionVars false

namespace Mizar.Props
open Mizar.Spec Mizar.Bet

/-- A call of `BetSizingFromProbabilities.transform` on a frame with the needed columns: probabilities in
`[0,1]`, predictions in `[-1,1]`, sides in `{-1,0,1}`, at least two classes, a constructed object; with
averaging the default column name `bet_size` (see C41). -/
structure BetInput (c : Bet.Cfg) (X : Bet.Frame) (prob pred side : List ℝ) : Prop where
  prob_eq : X.prob = some (prob.map .fin)
  pred_eq : X.pred = some (pred.map .fin)
  side_eq : c.metaLabeling = true → X.side = some (side.map .fin)
  end_eq : c.averageActive = true → ∃ ends, X.eventEnd = some ends ∧ ends.length = X.index.length
  prob_len : prob.length = X.index.length
  pred_len : pred.length = X.index.length
  side_len : side.length = X.index.length
  prob_range : ∀ p ∈ prob, 0 ≤ p ∧ p ≤ 1
  pred_range : ∀ y ∈ pred, -1 ≤ y ∧ y ≤ 1
  side_range : ∀ s ∈ side, s = 1 ∨ s = -1 ∨ s = 0
  side_one : c.metaLabeling = false → side = List.replicate X.index.length 1
  classes : 2 ≤ c.numClasses
  constructed : Bet.construct c = .ok c
  names : c.averageActive = true → c.betSizeName = "bet_size" ∧ c.eventEndName ≠ "bet_size"

/-- The signal of row `i` before averaging and discretisation. -/
noncomputable def rowSignal (k : ℕ) (prob pred side : List ℝ) (i : ℕ) : ℝ :=
  pred.getD i 0 * confidence k (prob.getD i 0) * side.getD i 0

theorem zipWith_range (l : List ℝ) (f : ℕ → ℝ) (n : ℕ) (hl : l.length = n) (h : ∀ i (hi : i < n), l[i] = f i) :
    l.map XF.fin = (List.range n).map fun i => XF.fin (f i) := by
  apply List.ext_getElem
  · simp [hl]
  · intro i h1 h2
    simp only [List.getElem_map, List.getElem_range]
    rw [h i (by simpa using h2)]

theorem signal_eq {c : Bet.Cfg} {X : Bet.Frame} {prob pred side : List ℝ} (h : BetInput c X prob pred side) :
    applySide c X (List.zipWith (signal1 c.numClasses) (pred.map .fin) (prob.map .fin)) =
      .ok ((List.range X.index.length).map fun i => .fin (rowSignal c.numClasses prob pred side i)) := by
  have hsig : List.zipWith (signal1 c.numClasses) (pred.map .fin) (prob.map .fin) =
      (List.range X.index.length).map fun i => .fin (pred.getD i 0 * confidence c.numClasses (prob.getD i 0)) := by
    apply List.ext_getElem
    · simp [h.prob_len, h.pred_len]
    · intro i h1 h2
      have hi : i < X.index.length := by simpa using h2
      have hp : i < prob.length := by rw [h.prob_len]; exact hi
      have hy : i < pred.length := by rw [h.pred_len]; exact hi
      simp only [List.getElem_zipWith, List.getElem_map, List.getElem_range]
      rw [signal1_fin (by have := h.classes; omega) (h.prob_range _ (List.getElem_mem hp)).1
        (h.prob_range _ (List.getElem_mem hp)).2 (by have := h.classes; omega),
        List.getD_eq_getElem _ _ hp, List.getD_eq_getElem _ _ hy]
  unfold applySide
  cases hm : c.metaLabeling with
  | false =>
    simp only [Bool.false_eq_true, if_false]
    rw [hsig]
    congr 1
    apply List.map_congr_left
    intro i hi
    rw [List.mem_range] at hi
    unfold rowSignal
    rw [h.side_one hm, List.getD_eq_getElem (List.replicate _ _) _ (by simpa using hi)]
    simp
  | true =>
    simp only [if_true, h.side_eq hm]
    rw [if_pos]
    · rw [hsig]
      congr 1
      apply List.ext_getElem
      · simp [h.side_len]
      · intro i h1 h2
        have hi : i < X.index.length := by simpa using h2
        have hs : i < side.length := by rw [h.side_len]; exact hi
        simp only [List.getElem_zipWith, List.getElem_map, List.getElem_range, XF.mul_fin]
        unfold rowSignal
        rw [List.getD_eq_getElem side _ hs]
    · rw [List.all_eq_true]
      intro v hv
      obtain ⟨s, hs, rfl⟩ := List.mem_map.1 hv
      rcases h.side_range s hs with rfl | rfl | rfl <;> simp [validSide]

theorem rowSignal_range {c : Bet.Cfg} {X : Bet.Frame} {prob pred side : List ℝ} (h : BetInput c X prob pred side)
    (i : ℕ) (hi : i < X.index.length) :
    |rowSignal c.numClasses prob pred side i| ≤ 1 := by
  unfold rowSignal
  rw [List.getD_eq_getElem pred _ (by rw [h.pred_len]; exact hi), List.getD_eq_getElem side _ (by rw [h.side_len]; exact hi)]
  have h1 := h.pred_range _ (List.getElem_mem (by rw [h.pred_len]; exact hi : i < pred.length))
  have h2 := confidence_range c.numClasses (prob.getD i 0)
  have h3 := h.side_range _ (List.getElem_mem (by rw [h.side_len]; exact hi : i < side.length))
  rw [abs_mul, abs_mul]
  have a1 := abs_le.2 h1
  have a2 := abs_le.2 h2
  have a3 : |side[i]'(by rw [h.side_len]; exact hi)| ≤ 1 := by
    rcases h3 with e | e | e <;> rw [e] <;> norm_num
  exact mul_le_one₀ (mul_le_one₀ a1 (abs_nonneg _) a2) (abs_nonneg _) a3

theorem step_of_construct {c : Bet.Cfg} (h : Bet.construct c = .ok c) (hd : c.discretise = true) :
    ∃ s, c.stepSize = some s ∧ 0 < s ∧ s < 1 := by
  unfold Bet.construct at h
  rw [hd] at h
  simp only [if_true] at h
  cases hs : c.stepSize with
  | none => rw [hs] at h; cases h
  | some s =>
    rw [hs] at h
    simp only at h
    split at h
    · rename_i h2; exact ⟨s, rfl, h2⟩
    · cases h

theorem discretise_good {c : Bet.Cfg} (h : Bet.construct c = .ok c) (s : List (ℤ × XF ℝ))
    (hs : ∀ p ∈ s, ∃ x : ℝ, p.2 = .fin x ∧ -1 ≤ x ∧ x ≤ 1) :
    ∃ s', applyDiscretise c s = .ok s' ∧ s'.map (·.1) = s.map (·.1) ∧
      ∀ p ∈ s', ∃ x : ℝ, p.2 = .fin x ∧ -1 ≤ x ∧ x ≤ 1 := by
  unfold applyDiscretise
  cases hd : c.discretise with
  | false => exact ⟨s, rfl, rfl, hs⟩
  | true =>
    obtain ⟨st, h1, h2, h3⟩ := step_of_construct h hd
    simp only [if_true, h1, discretiseSignal]
    rw [if_pos ⟨h2, h3⟩]
    refine ⟨_, rfl, by simp, ?_⟩
    intro p hp
    obtain ⟨q, hq, rfl⟩ := List.mem_map.1 hp
    obtain ⟨x, hx, _⟩ := hs q hq
    simp only [hx, discretise1_fin h2]
    exact ⟨_, rfl, disc_range _ _⟩

theorem transform_of_signal {c : Bet.Cfg} {X : Bet.Frame} {prob pred side : List ℝ} (h : BetInput c X prob pred side)
    {s s' : List (ℤ × XF ℝ)}
    (hs : applyAverage c X ((List.range X.index.length).map fun i => .fin (rowSignal c.numClasses prob pred side i)) = .ok s)
    (hs' : applyDiscretise c s = .ok s') (hg : ∀ p ∈ s', ∃ x : ℝ, p.2 = .fin x ∧ -1 ≤ x ∧ x ≤ 1) :
    Bet.transform c X = .ok (s'.map fun p => (p.1, XF.abs p.2)) := by
  unfold Bet.transform transform0
  simp only [h.prob_eq, h.pred_eq]
  rw [if_neg (by have := h.classes; omega), signal_eq h]
  simp only [hs, hs']
  rw [if_pos]
  rw [Bool.and_eq_true, List.all_eq_true, List.all_eq_true]
  constructor <;>
  · intro p hp
    obtain ⟨q, hq, rfl⟩ := List.mem_map.1 hp
    obtain ⟨x, hx, h1, h2⟩ := hg q hq
    have h3 : |x| ≤ 1 := abs_le.2 ⟨h1, h2⟩
    have h4 := abs_nonneg x
    simp only [hx, XF.abs_fin, XF.le_fin, decide_eq_true_eq]
    linarith

theorem average_good {c : Bet.Cfg} {X : Bet.Frame} {prob pred side : List ℝ} (h : BetInput c X prob pred side) :
    ∃ s, applyAverage c X ((List.range X.index.length).map fun i =>
      .fin (rowSignal c.numClasses prob pred side i)) = .ok s ∧
      (∀ p ∈ s, ∃ x : ℝ, p.2 = .fin x ∧ -1 ≤ x ∧ x ≤ 1) ∧
      (c.averageActive = false → s.map (·.1) = X.index) := by
  have hrow : ∀ v ∈ (List.range X.index.length).map (fun i => XF.fin (rowSignal c.numClasses prob pred side i)),
      ∃ x : ℝ, v = .fin x ∧ -1 ≤ x ∧ x ≤ 1 := by
    intro v hv
    obtain ⟨i, hi, rfl⟩ := List.mem_map.1 hv
    exact ⟨_, rfl, abs_le.1 (rowSignal_range h i (List.mem_range.1 hi))⟩
  unfold applyAverage
  cases ha : c.averageActive with
  | false =>
    refine ⟨_, rfl, ?_, ?_⟩
    · intro p hp
      exact hrow p.2 (List.of_mem_zip hp).2
    · intro _
      rw [List.map_fst_zip]
      simp
  | true =>
    obtain ⟨ends, h1, h2⟩ := h.end_eq ha
    obtain ⟨n1, n2⟩ := h.names ha
    simp only [if_true, h1]
    rw [if_neg (show ¬ c.eventEndName = BET_SIZE from n2), if_pos (show c.betSizeName = BET_SIZE from n1)]
    refine ⟨_, rfl, ?_, by simp⟩
    intro p hp
    unfold avgActiveSignals at hp
    obtain ⟨t, _, rfl⟩ := List.mem_map.1 hp
    apply avgActiveAt_range
    intro b hb
    obtain ⟨b', hb', rfl⟩ := List.mem_map.1 hb
    rw [← List.map_uncurry_zip_eq_zipWith] at hb'
    obtain ⟨⟨t', e, v⟩, hq, rfl⟩ := List.mem_map.1 hb'
    exact hrow v (List.of_mem_zip (List.of_mem_zip hq).2).2

/-- C37 (partial: at least two classes): every size is a number in `[0, 1]`, with and without averaging,
metalabeling and discretisation. Without averaging the index is the one of the frame. -/
theorem C37_size_in_unit_interval_partial {c : Bet.Cfg} {X : Bet.Frame} {prob pred side : List ℝ}
    (h : BetInput c X prob pred side) :
    ∃ s, Bet.transform c X = .ok s ∧ (∀ p ∈ s, ∃ x : ℝ, p.2 = .fin x ∧ 0 ≤ x ∧ x ≤ 1) ∧
      (c.averageActive = false → s.map (·.1) = X.index) := by
  obtain ⟨s, hs, hg, hidx⟩ := average_good h
  obtain ⟨s', hs', hfst, hg'⟩ := discretise_good h.constructed s hg
  refine ⟨_, transform_of_signal h hs hs' hg', ?_, ?_⟩
  · intro p hp
    obtain ⟨q, hq, rfl⟩ := List.mem_map.1 hp
    obtain ⟨x, hx, h1, h2⟩ := hg' q hq
    refine ⟨|x|, by simp [hx], abs_nonneg _, abs_le.2 ⟨h1, h2⟩⟩
  · intro ha
    rw [List.map_map]
    exact hfst.trans (hidx ha)

/-- C37: no sizes outside `[0, 1]` are ever returned: for every object and every frame, whatever its values,
either an exception is raised or all sizes are numbers in `[0, 1]`. -/
theorem C37_never_outside (c : Bet.Cfg) (X : Bet.Frame) (s : List (ℤ × XF ℝ)) (h : Bet.transform c X = .ok s) :
    ∀ p ∈ s, ∃ x : ℝ, p.2 = .fin x ∧ 0 ≤ x ∧ x ≤ 1 := by
  unfold Bet.transform at h
  cases h0 : transform0 c X with
  | error e => rw [h0] at h; cases h
  | ok s0 =>
    rw [h0] at h
    simp only at h
    split at h
    · rename_i hall
      cases h
      intro p hp
      rw [Bool.and_eq_true, List.all_eq_true, List.all_eq_true] at hall
      have h1 := hall.1 p hp
      have h2 := hall.2 p hp
      have h3 : ∃ v, p.2 = XF.abs v := by
        unfold transform0 at h0
        split at h0
        · split at h0
          · cases h0
          · split at h0
            · cases h0
            · split at h0
              · cases h0
              · split at h0
                · cases h0
                · cases h0
                  obtain ⟨q, hq, rfl⟩ := List.mem_map.1 hp
                  exact ⟨q.2, rfl⟩
        · cases h0
      obtain ⟨v, hv⟩ := h3
      rw [hv] at h1 h2
      cases v with
      | fin x =>
        rw [XF.abs_fin] at h1 h2 hv
        rw [XF.le_fin, decide_eq_true_eq] at h2
        exact ⟨|x|, hv, abs_nonneg _, h2⟩
      | nan => simp [XF.abs, XF.le, XF.lt, XF.beq] at h2
      | pinf => simp [XF.abs, XF.le, XF.lt, XF.beq] at h2
      | ninf => simp [XF.abs, XF.le, XF.lt, XF.beq] at h2
    · cases h

/-- C37 is false for one class: a certain prediction (probability 1) has the statistic 0/0, so the size is NaN
and the assertion of the base class fails. -/
theorem C37_one_class_refuted (name ends : String) (t : ℤ) :
    Bet.transform ⟨1, false, false, false, none, name, ends⟩ ⟨[t], some [.fin 1], some [.fin 1], none, none⟩ =
      .error .assertionError := by
  have : signal1 1 (.fin 1) (.fin 1) = .nan := by
    unfold signal1 zStat
    simp [XF.sqrt, XF.div, XF.infSign, normCdf]
  simp [Bet.transform, transform0, applySide, applyAverage, applyDiscretise, this]

/-- One row of the output without averaging. -/
noncomputable def rowSize (c : Bet.Cfg) (x : ℝ) : ℝ :=
  if c.discretise then disc (c.stepSize.getD 0) |x| else |x|

theorem row_formula {c : Bet.Cfg} {X : Bet.Frame} {prob pred side : List ℝ} (h : BetInput c X prob pred side)
    (ha : c.averageActive = false) :
    ∃ s, Bet.transform c X = .ok s ∧ ∀ i (hi : i < X.index.length), s[i]? = some (X.index[i],
      .fin (rowSize c (rowSignal c.numClasses prob pred side i))) := by
  have hs : applyAverage c X ((List.range X.index.length).map fun i => .fin (rowSignal c.numClasses prob pred side i)) =
      .ok (X.index.zip ((List.range X.index.length).map fun i => .fin (rowSignal c.numClasses prob pred side i))) := by
    unfold applyAverage; rw [ha]; rfl
  obtain ⟨s', hs', hfst, hg'⟩ := discretise_good h.constructed (X.index.zip ((List.range X.index.length).map fun i =>
      .fin (rowSignal c.numClasses prob pred side i))) (by
    intro p hp
    obtain ⟨i, hi, e⟩ := List.mem_map.1 (List.of_mem_zip hp).2
    exact ⟨_, e.symm, abs_le.1 (rowSignal_range h i (List.mem_range.1 hi))⟩)
  refine ⟨_, transform_of_signal h hs hs' hg', ?_⟩
  intro i hi
  unfold applyDiscretise at hs'
  cases hd : c.discretise with
  | false =>
    rw [hd] at hs'
    simp only [Bool.false_eq_true, if_false, Except.ok.injEq] at hs'
    rw [← hs', List.getElem?_map, List.getElem?_eq_getElem (by simpa using hi)]
    simp [rowSize, hd]
  | true =>
    obtain ⟨st, h1, h2, h3⟩ := step_of_construct h.constructed hd
    rw [hd] at hs'
    simp only [if_true, h1, discretiseSignal] at hs'
    rw [if_pos ⟨h2, h3⟩, Except.ok.injEq] at hs'
    rw [← hs', List.getElem?_map, List.getElem?_map, List.getElem?_eq_getElem (by simpa using hi)]
    simp only [Option.map_some, List.getElem_zip, List.getElem_map, List.getElem_range, Option.some.injEq,
      Prod.mk.injEq, true_and]
    rw [discretise1_fin h2, XF.abs_fin, abs_disc h2]
    simp [rowSize, hd, h1]

theorem rowSize_mono {c : Bet.Cfg} (h : Bet.construct c = .ok c) {x y : ℝ} (hxy : |x| ≤ |y|) :
    rowSize c x ≤ rowSize c y := by
  unfold rowSize
  cases hd : c.discretise with
  | false => simpa using hxy
  | true =>
    obtain ⟨st, h1, h2, h3⟩ := step_of_construct h hd
    simp only [if_true, h1, Option.getD_some]
    exact disc_mono h2 hxy

/-- C38 (partial: probabilities of at least `1 / num_classes`): with the same prediction and side in row `i`, a
higher probability never gives a smaller size, with and without discretisation. -/
theorem C38_monotone_partial {c : Bet.Cfg} {X X' : Bet.Frame} {prob prob' pred pred' side side' : List ℝ}
    (h : BetInput c X prob pred side) (h' : BetInput c X' prob' pred' side') (ha : c.averageActive = false)
    (i : ℕ) (hi : i < X.index.length) (hi' : i < X'.index.length)
    (hpred : pred.getD i 0 = pred'.getD i 0) (hside : side.getD i 0 = side'.getD i 0)
    (hchance : 1 / (c.numClasses : ℝ) ≤ prob.getD i 0) (hprob : prob.getD i 0 ≤ prob'.getD i 0) :
    ∃ s s' x x', Bet.transform c X = .ok s ∧ Bet.transform c X' = .ok s' ∧
      s[i]? = some (X.index[i], .fin x) ∧ s'[i]? = some (X'.index[i], .fin x') ∧ x ≤ x' := by
  obtain ⟨s, h1, h2⟩ := row_formula h ha
  obtain ⟨s', h1', h2'⟩ := row_formula h' ha
  refine ⟨s, s', _, _, h1, h1', h2 i hi, h2' i hi', ?_⟩
  apply rowSize_mono h.constructed
  unfold rowSignal
  rw [hpred, hside, abs_mul, abs_mul, abs_mul, abs_mul]
  apply mul_le_mul_of_nonneg_right _ (abs_nonneg _)
  apply mul_le_mul_of_nonneg_left _ (abs_nonneg _)
  have hq := h'.prob_range (prob'.getD i 0) (by
    rw [List.getD_eq_getElem _ _ (by rw [h'.prob_len]; exact hi')]; exact List.getElem_mem _)
  rw [abs_of_nonneg (confidence_nonneg h.classes hchance (by linarith)),
    abs_of_nonneg (confidence_nonneg h.classes (by linarith) hq.2)]
  exact confidence_mono (by have := h.classes; omega) (by linarith [show (0 : ℝ) ≤ 1 / (c.numClasses : ℝ) by positivity]) hprob hq.2

/-- C38: at the chance level `1 / num_classes` the size is 0. -/
theorem C38_zero_at_chance {c : Bet.Cfg} {X : Bet.Frame} {prob pred side : List ℝ} (h : BetInput c X prob pred side)
    (ha : c.averageActive = false) (i : ℕ) (hi : i < X.index.length) (hp : prob.getD i 0 = 1 / (c.numClasses : ℝ)) :
    ∃ s, Bet.transform c X = .ok s ∧ s[i]? = some (X.index[i], .fin 0) := by
  obtain ⟨s, h1, h2⟩ := row_formula h ha
  refine ⟨s, h1, ?_⟩
  rw [h2 i hi]
  unfold rowSignal rowSize
  rw [hp, confidence_chance h.classes]
  simp [disc_zero]

/-- C38: the size without averaging and discretisation is `|prediction * (2 Φ(z) - 1) * side|` in every row. -/
theorem C38_size_formula {c : Bet.Cfg} {X : Bet.Frame} {prob pred side : List ℝ} (h : BetInput c X prob pred side)
    (ha : c.averageActive = false) (hd : c.discretise = false) (i : ℕ) (hi : i < X.index.length) :
    ∃ s, Bet.transform c X = .ok s ∧ s[i]? = some (X.index[i],
      .fin |pred.getD i 0 * confidence c.numClasses (prob.getD i 0) * side.getD i 0|) := by
  obtain ⟨s, h1, h2⟩ := row_formula h ha
  refine ⟨s, h1, ?_⟩
  rw [h2 i hi]
  simp [rowSize, hd, rowSignal]

/-- A two-class object without options. -/
def plainCfg : Bet.Cfg := ⟨2, false, false, false, none, "bet_size", "event_end_time"⟩

/-- Two rows with the given probabilities and prediction 1. -/
def twoRows (p q : ℝ) : Bet.Frame := ⟨[10, 20], some [.fin p, .fin q], some [.fin 1, .fin 1], none, none⟩

theorem twoRows_input {p q : ℝ} (hp : 0 ≤ p ∧ p ≤ 1) (hq : 0 ≤ q ∧ q ≤ 1) :
    BetInput plainCfg (twoRows p q) [p, q] [1, 1] [1, 1] where
  prob_eq := rfl
  pred_eq := rfl
  side_eq := by simp [plainCfg]
  end_eq := by simp [plainCfg]
  prob_len := rfl
  pred_len := rfl
  side_len := rfl
  prob_range := by simp [hp, hq]
  pred_range := by simp
  side_range := by simp
  side_one := by intro _; rfl
  classes := le_rfl
  constructed := by simp [Bet.construct, plainCfg]
  names := by simp [plainCfg]

/-- C38 is false below the chance level: with two classes probability 0 gives size 1, probability 1/2 size 0. -/
theorem C38_below_chance_refuted :
    ∃ s, Bet.transform plainCfg (twoRows 0 (1/2)) = .ok s ∧ s[0]? = some (10, .fin 1) ∧ s[1]? = some (20, .fin 0) := by
  have h := twoRows_input (p := 0) (q := 1/2) (by norm_num) (by norm_num)
  obtain ⟨s, h1, h2⟩ := row_formula h rfl
  refine ⟨s, h1, ?_, ?_⟩
  · rw [h2 0 (by decide)]
    simp [rowSize, rowSignal, plainCfg, confidence, twoRows]
  · rw [h2 1 (by decide)]
    have := confidence_chance (k := 2) le_rfl
    norm_num at this
    rw [one_div] at this
    simp [rowSize, rowSignal, plainCfg, twoRows, this]

section
variable {K : Type*} [Field K] [LinearOrder K] [IsStrictOrderedRing K] [FloorRing K]

/-- C39: `discretise_signal` on any list of numbers succeeds for a step in `(0, 1)` and keeps the index; every
value is in `[-1, 1]`; signals in `[-1, 1]` move by at most `step / 2 + 0.0005`; it is monotone and odd. -/
theorem C39_discretise (step : K) (h0 : 0 < step) (h1 : step < 1) (signal : List (ℤ × K)) :
    ∃ d : K → K, discretiseSignal (signal.map fun p => (p.1, XF.fin p.2)) step =
        .ok (signal.map fun p => (p.1, XF.fin (d p.2))) ∧
      (∀ x, -1 ≤ d x ∧ d x ≤ 1) ∧ (∀ x y, x ≤ y → d x ≤ d y) ∧ (∀ x, d (-x) = -d x) ∧
      (∀ x, -1 ≤ x → x ≤ 1 → |d x - x| ≤ step / 2 + 5 / 10000) := by
  refine ⟨disc step, ?_, disc_range step, fun x y h => disc_mono h0 h, disc_neg step, ?_⟩
  · unfold discretiseSignal
    rw [if_pos ⟨h0, h1⟩, List.map_map]
    congr 1
    apply List.map_congr_left
    intro p _
    simp [discretise1_fin h0]
  · intro x a b
    have := disc_close h0 a b
    norm_num at this ⊢
    exact this

/-- C39: infinite and missing signals: infinities are cut to 1 and -1, NaN stays NaN. -/
theorem C39_special_values (step : K) (h0 : 0 < step) (h1 : step < 1) (t : ℤ) :
    discretiseSignal [(t, .pinf), (t, .ninf), (t, .nan)] step =
      .ok [(t, .fin 1), (t, .fin (-1)), (t, .nan)] := by
  unfold discretiseSignal
  rw [if_pos ⟨h0, h1⟩]
  have t0 : (0 : K) < 1000 := by norm_num
  have t1 : ¬ (1000 : K) < 0 := by norm_num
  have t2 : ¬ (1 : K) < -1 := by norm_num
  have h0' : ¬ step < 0 := not_lt.2 h0.le
  have e1 : discretise1 step .pinf = .fin 1 := by
    simp [discretise1, XF.div, xround, xround3, XF.mul, XF.infSign, h0, h0', t0, t1, t2, XF.lt]
  have e2 : discretise1 step .ninf = .fin (-1) := by
    simp [discretise1, XF.neg, XF.div, xround, xround3, XF.mul, XF.infSign, h0, h0', t0, t1, t2, XF.lt]
  have e3 : discretise1 step .nan = .nan := by
    simp [discretise1, XF.div, xround, xround3, XF.mul, XF.lt]
  simp [e1, e2, e3]

/-- C39: steps outside `(0, 1)` are refused. -/
theorem C39_bad_step (step : K) (h : ¬ (0 < step ∧ step < 1)) (signal : List (ℤ × XF K)) :
    discretiseSignal signal step = .error .assertionError := by
  unfold discretiseSignal; rw [if_neg h]

/-- C39 (partial: signals in `[-1, 1]`): for steps larger than 0.001 discretising twice is discretising once. -/
theorem C39_idempotent_partial (step : K) (h0 : 1 / 1000 < step) (h1 : step < 1) (signal : List (ℤ × K))
    (hs : ∀ p ∈ signal, -1 ≤ p.2 ∧ p.2 ≤ 1) :
    ∃ s, discretiseSignal (signal.map fun p => (p.1, XF.fin p.2)) step = .ok s ∧
      discretiseSignal s step = .ok s := by
  have hp : 0 < step := lt_trans (by norm_num) h0
  unfold discretiseSignal
  rw [if_pos ⟨hp, h1⟩]
  refine ⟨_, rfl, ?_⟩
  rw [if_pos ⟨hp, h1⟩]
  congr 1
  rw [List.map_map, List.map_map, List.map_map]
  apply List.map_congr_left
  intro p hmem
  have := hs p hmem
  simp only [Function.comp_apply, discretise1_fin hp, disc_idem h0 this.1 this.2]
end

/-- C39 is false for signals outside `[-1, 1]`: with step 0.3 the signal 2 becomes 1 and 1 becomes 0.9. -/
theorem C39_idempotent_refuted : discretise1 (3/10 : ℚ) (.fin 2) = .fin 1 ∧
    discretise1 (3/10 : ℚ) (.fin 1) = .fin (9/10) := by decide +kernel

/-- C39: for steps below 0.001 the second application may move a value: step 0.0004, signal 0.0009. -/
theorem C39_small_step_not_idempotent : discretise1 (4/10000 : ℚ) (.fin (9/10000)) = .fin (1/1000) ∧
    discretise1 (4/10000 : ℚ) (.fin (5/10000)) = .fin 0 ∧
    discretise1 (7/10000 : ℚ) (.fin (7/10000)) = .fin (1/1000) := by decide +kernel

/-- C39 through the transformer: with discretisation the sizes are the discretised sizes of the same object
without discretisation, with and without averaging. -/
theorem C39_transform {c : Bet.Cfg} {X : Bet.Frame} {prob pred side : List ℝ} (h : BetInput c X prob pred side)
    (hd : c.discretise = true) {step : ℝ} (hstep : c.stepSize = some step) :
    ∃ s0 s, Bet.transform { c with discretise := false } X = .ok s0 ∧ Bet.transform c X = .ok s ∧
      discretiseSignal s0 step = .ok s := by
  have h' : BetInput { c with discretise := false } X prob pred side :=
    { h with constructed := by simp [Bet.construct] }
  obtain ⟨st, h1, h2, h3⟩ := step_of_construct h.constructed hd
  have hst : st = step := Option.some.inj (h1.symm.trans hstep)
  subst hst
  obtain ⟨s, hs, hg, -⟩ := average_good h
  have hs1 : applyAverage { c with discretise := false } X ((List.range X.index.length).map fun i =>
      .fin (rowSignal c.numClasses prob pred side i)) = .ok s := by rw [← hs]; rfl
  have hd1 : applyDiscretise { c with discretise := false } s = .ok s := by simp [applyDiscretise]
  obtain ⟨s', hs', -, hg'⟩ := discretise_good h.constructed s hg
  refine ⟨_, _, transform_of_signal h' hs1 hd1 hg, transform_of_signal h hs hs' hg', ?_⟩
  unfold applyDiscretise at hs'
  simp only [hd, if_true, hstep, discretiseSignal] at hs'
  rw [if_pos ⟨h2, h3⟩, Except.ok.injEq] at hs'
  unfold discretiseSignal
  rw [if_pos ⟨h2, h3⟩, ← hs', List.map_map, List.map_map]
  congr 1
  apply List.map_congr_left
  intro p hp
  obtain ⟨x, hx, _⟩ := hg p hp
  simp only [Function.comp_apply, hx, XF.abs_fin, discretise1_fin h2, abs_disc h2]

section
variable {K : Type*} [Field K] [LinearOrder K] [IsStrictOrderedRing K]

/-- C40 (partial: times are whole milliseconds and no end time is before 1970): the result has exactly the start
and end times, in increasing order, and at each of them the mean of the bets whose interval `[start, end)`
contains it (0 if there is none); a bet without end never closes. -/
theorem C40_average_active_partial (bets : List (ABet K))
    (hstart : ∀ b ∈ bets, (1000000 : ℤ) ∣ b.start)
    (hstop : ∀ b ∈ bets, ∀ e, b.stop = some e → (1000000 : ℤ) ∣ e ∧ 0 ≤ e) :
    let out := avgActiveSignals (bets.map fun b => (⟨b.start, b.stop, .fin b.size⟩ : Bet.Bet K))
    (out.map (·.1)).Pairwise (· < ·) ∧
    (∀ t, t ∈ out.map (·.1) ↔ ∃ b ∈ bets, t = b.start ∨ b.stop = some t) ∧
    ∀ p ∈ out, p.2 = .fin (activeMean bets p.1) := by
  have hfst : (avgActiveSignals (bets.map fun b => (⟨b.start, b.stop, .fin b.size⟩ : Bet.Bet K))).map (·.1) =
      changeTimes (bets.map fun b => (⟨b.start, b.stop, .fin b.size⟩ : Bet.Bet K)) := by
    unfold avgActiveSignals
    rw [List.map_map]
    conv_rhs => rw [← List.map_id (changeTimes _)]
    rfl
  have hmem : ∀ t, t ∈ changeTimes (bets.map fun b => (⟨b.start, b.stop, .fin b.size⟩ : Bet.Bet K)) ↔
      ∃ b ∈ bets, t = b.start ∨ b.stop = some t := by
    intro t
    unfold changeTimes
    rw [mem_npUnique, List.mem_append, List.mem_filterMap, List.mem_map]
    constructor
    · rintro (⟨b, hb, e⟩ | ⟨b, hb, e⟩)
      · obtain ⟨b', hb', rfl⟩ := List.mem_map.1 hb
        exact ⟨b', hb', Or.inr e⟩
      · obtain ⟨b', hb', rfl⟩ := List.mem_map.1 hb
        exact ⟨b', hb', Or.inl e.symm⟩
    · rintro ⟨b, hb, rfl | e⟩
      · right; exact ⟨_, List.mem_map.2 ⟨b, hb, rfl⟩, rfl⟩
      · left; exact ⟨_, List.mem_map.2 ⟨b, hb, rfl⟩, e⟩
  refine ⟨?_, ?_, ?_⟩
  · rw [hfst]; exact pairwise_npUnique _
  · intro t; rw [hfst]; exact hmem t
  · intro p hp
    unfold avgActiveSignals at hp
    obtain ⟨t, ht, rfl⟩ := List.mem_map.1 hp
    rw [hmem] at ht
    have htd : (1000000 : ℤ) ∣ t := by
      obtain ⟨b, hb, rfl | e⟩ := ht
      · exact hstart b hb
      · exact (hstop b hb t e).1
    simp only
    unfold avgActiveAt activeMean
    simp only
    rw [List.map_map, List.filter_map]
    have hcond : ∀ b ∈ bets, (((fun b : ℤ × ℤ × XF K => decide (b.1 ≤ Lab.convertToTimestamp (some t)) &&
          (decide (Lab.convertToTimestamp (some t) < b.2.1) || decide (b.2.1 < 0))) ∘
          ((fun b : Bet.Bet K => (Lab.convertToTimestamp (some b.start), Lab.convertToTimestamp b.stop, b.size)) ∘
          fun b : ABet K => (⟨b.start, b.stop, .fin b.size⟩ : Bet.Bet K))) b) = decide (b.Active t) := by
      intro b hb
      have h1 := hstart b hb
      have e1 : (b.start / 1000000 ≤ t / 1000000) ↔ b.start ≤ t := by omega
      cases hst : b.stop with
      | none =>
        have : Lab.natInt / 1000000 < 0 := by decide
        simp [Lab.convertToTimestamp, hst, ABet.Active, this, e1]
      | some e =>
        obtain ⟨h2, h3⟩ := hstop b hb e hst
        have e2 : (t / 1000000 < e / 1000000) ↔ t < e := by omega
        have e3 : ¬ (e / 1000000 < 0) := by omega
        simp [Lab.convertToTimestamp, hst, ABet.Active, e1, e2, e3]
    rw [List.filter_congr hcond]
    by_cases hA : bets.filter (fun b => decide (b.Active t)) = []
    · rw [if_pos hA, hA]; rfl
    · rw [if_neg hA, if_pos (by rw [List.length_map]; exact List.length_pos_iff.2 hA), List.map_map]
      have e : (bets.filter (fun b => decide (b.Active t))).map ((fun x : ℤ × ℤ × XF K => x.2.2) ∘
          ((fun b : Bet.Bet K => (Lab.convertToTimestamp (some b.start), Lab.convertToTimestamp b.stop, b.size)) ∘
          fun b : ABet K => (⟨b.start, b.stop, .fin b.size⟩ : Bet.Bet K))) =
          ((bets.filter (fun b => decide (b.Active t))).map (·.size)).map XF.fin := by
        rw [List.map_map]; rfl
      rw [e, mean_fin _ (by simpa using hA), List.length_map]
end

/-- C40 through the transformer (partial as above): with averaging and without discretisation the size at every
start or end time is the absolute value of the mean of the active signed signals. -/
theorem C40_transform_partial {c : Bet.Cfg} {X : Bet.Frame} {prob pred side : List ℝ}
    (h : BetInput c X prob pred side) (ha : c.averageActive = true) (hd : c.discretise = false)
    {ends : List (Option ℤ)} (hends : X.eventEnd = some ends)
    (hstart : ∀ t ∈ X.index, (1000000 : ℤ) ∣ t)
    (hstop : ∀ e, some e ∈ ends → (1000000 : ℤ) ∣ e ∧ 0 ≤ e) :
    ∃ s, Bet.transform c X = .ok s ∧
      let bets := X.index.zipWith (fun t r => (⟨t, r.1, r.2⟩ : ABet ℝ)) (ends.zip
        ((List.range X.index.length).map fun i =>
          pred.getD i 0 * confidence c.numClasses (prob.getD i 0) * side.getD i 0))
      (s.map (·.1)).Pairwise (· < ·) ∧
      (∀ t, t ∈ s.map (·.1) ↔ ∃ b ∈ bets, t = b.start ∨ b.stop = some t) ∧
      ∀ p ∈ s, p.2 = .fin |activeMean bets p.1| := by
  set bets := X.index.zipWith (fun t r => (⟨t, r.1, r.2⟩ : ABet ℝ)) (ends.zip
        ((List.range X.index.length).map fun i =>
          pred.getD i 0 * confidence c.numClasses (prob.getD i 0) * side.getD i 0)) with hbets
  have hmb : ∀ b ∈ bets, b.start ∈ X.index ∧ b.stop ∈ ends ∧ ∃ i < X.index.length,
      b.size = rowSignal c.numClasses prob pred side i := by
    intro b hb
    rw [hbets, ← List.map_uncurry_zip_eq_zipWith] at hb
    obtain ⟨⟨t', e, v⟩, hq, rfl⟩ := List.mem_map.1 hb
    have h1 := List.of_mem_zip hq
    have h2 := List.of_mem_zip h1.2
    obtain ⟨i, hi, hv⟩ := List.mem_map.1 h2.2
    exact ⟨h1.1, h2.1, i, List.mem_range.1 hi, hv.symm⟩
  have key := C40_average_active_partial bets (fun b hb => hstart _ (hmb b hb).1)
    (fun b hb e he => hstop e (he ▸ (hmb b hb).2.1))
  have hmap : (bets.map fun b => (⟨b.start, b.stop, .fin b.size⟩ : Bet.Bet ℝ)) =
      X.index.zipWith (fun t r => (⟨t, r.1, r.2⟩ : Bet.Bet ℝ)) (ends.zip ((List.range X.index.length).map fun i =>
        .fin (rowSignal c.numClasses prob pred side i))) := by
    rw [hbets, List.map_zipWith]
    rw [← List.map_uncurry_zip_eq_zipWith, ← List.map_uncurry_zip_eq_zipWith]
    have e : (List.range X.index.length).map (fun i => XF.fin (rowSignal c.numClasses prob pred side i)) =
        ((List.range X.index.length).map fun i =>
          pred.getD i 0 * confidence c.numClasses (prob.getD i 0) * side.getD i 0).map XF.fin := by
      rw [List.map_map]; rfl
    rw [e]
    generalize ((List.range X.index.length).map fun i =>
          pred.getD i 0 * confidence c.numClasses (prob.getD i 0) * side.getD i 0) = l
    rw [List.zip_map_right, List.zip_map_right, List.map_map]
    rfl
  have havg : applyAverage c X ((List.range X.index.length).map fun i =>
      .fin (rowSignal c.numClasses prob pred side i)) =
      .ok (avgActiveSignals (bets.map fun b => (⟨b.start, b.stop, .fin b.size⟩ : Bet.Bet ℝ))) := by
    unfold applyAverage
    simp only [ha, if_true, hends]
    rw [if_neg (show ¬ c.eventEndName = BET_SIZE from (h.names ha).2),
      if_pos (show c.betSizeName = BET_SIZE from (h.names ha).1), hmap]
  have hdis : ∀ s, applyDiscretise c s = .ok s := by
    intro s; unfold applyDiscretise; rw [hd]; rfl
  refine ⟨_, transform_of_signal h havg (hdis _) ?_, ?_, ?_, ?_⟩
  · intro p hp
    unfold avgActiveSignals at hp
    obtain ⟨t, _, rfl⟩ := List.mem_map.1 hp
    apply avgActiveAt_range
    intro b hb
    obtain ⟨b', hb', rfl⟩ := List.mem_map.1 hb
    obtain ⟨b'', hb'', rfl⟩ := List.mem_map.1 hb'
    obtain ⟨_, _, i, hi, e⟩ := hmb b'' hb''
    refine ⟨_, rfl, ?_⟩
    rw [e]
    exact abs_le.1 (rowSignal_range h i hi)
  · rw [List.map_map]; exact key.1
  · intro t; rw [List.map_map]; exact key.2.1 t
  · intro p hp
    obtain ⟨q, hq, rfl⟩ := List.mem_map.1 hp
    simp only [key.2.2 q hq, XF.abs_fin]

/-- Three overlapping bets with whole-millisecond times: at time 3 ms the bets 1 and 1/2 are active, at 5 ms only
the open one. -/
example : avgActiveSignals [(⟨1000000, some 5000000, .fin (1 : ℚ)⟩ : Bet.Bet ℚ), ⟨2000000, some 3000000, .fin (-1)⟩,
    ⟨3000000, none, .fin (1/2)⟩] = [(1000000, .fin 1), (2000000, .fin 0), (3000000, .fin (3/4)), (5000000, .fin (1/2))] := by
  decide +kernel

/-- C40 is false before 1970: a bet that ended in 1969 stays active forever. -/
theorem C40_before_1970_refuted :
    avgActiveSignals [(⟨-5000000, some (-3000000), .fin (1 : ℚ)⟩ : Bet.Bet ℚ)] =
      [(-5000000, .fin 1), (-3000000, .fin 1)] ∧
    activeMean [(⟨-5000000, some (-3000000), (1 : ℚ)⟩ : ABet ℚ)] (-3000000) = 0 := by decide +kernel

/-- C40 is false below the millisecond: a bet of 600 µs is never active, not even at its start. -/
theorem C40_sub_millisecond_refuted :
    avgActiveSignals [(⟨1000000, some 1600000, .fin (1 : ℚ)⟩ : Bet.Bet ℚ)] =
      [(1000000, .fin 0), (1600000, .fin 0)] ∧
    activeMean [(⟨1000000, some 1600000, (1 : ℚ)⟩ : ABet ℚ)] 1000000 = 1 := by decide +kernel

/-- C41 (partial: without averaging): the name of the bet size column does not matter. -/
theorem C41_name_irrelevant_partial (c : Bet.Cfg) (X : Bet.Frame) (name : String) (ha : c.averageActive = false) :
    Bet.transform { c with betSizeName := name } X = Bet.transform c X := by
  unfold Bet.transform transform0 applyAverage applyDiscretise applySide
  simp only [ha, Bool.false_eq_true, if_false]

/-- C41 is false with averaging: any other name raises where the default name gives sizes. -/
theorem C41_custom_name_refuted {c : Bet.Cfg} {X : Bet.Frame} {prob pred side : List ℝ}
    (h : BetInput c X prob pred side) (ha : c.averageActive = true) (name : String) (hn : name ≠ "bet_size")
    (hn' : name ≠ c.eventEndName) :
    (∃ s, Bet.transform c X = .ok s) ∧ Bet.transform { c with betSizeName := name } X = .error .keyError := by
  constructor
  · obtain ⟨s, h1, _⟩ := C37_size_in_unit_interval_partial h
    exact ⟨s, h1⟩
  · have hs : applySide { c with betSizeName := name } X
        (List.zipWith (signal1 c.numClasses) (pred.map .fin) (prob.map .fin)) =
        .ok ((List.range X.index.length).map fun i => .fin (rowSignal c.numClasses prob pred side i)) := by
      rw [← signal_eq h]; rfl
    obtain ⟨ends, h1, h2⟩ := h.end_eq ha
    unfold Bet.transform transform0
    simp only [h.prob_eq, h.pred_eq, hs]
    rw [if_neg (by have := h.classes; omega)]
    unfold applyAverage
    simp only [ha, if_true, h1]
    rw [if_neg (show ¬ c.eventEndName = BET_SIZE from (h.names ha).2), if_neg (show ¬ name = BET_SIZE from hn), if_neg hn']

/-- The hypotheses of C41 are met: one bet with an end time. -/
theorem averaged_input : BetInput ⟨2, true, true, true, some (1/10), "bet_size", "event_end_time"⟩
    ⟨[1000000], some [.fin (3/4)], some [.fin 1], some [.fin (-1)], some [some 2000000]⟩ [3/4] [1] [-1] where
  prob_eq := rfl
  pred_eq := rfl
  side_eq := by intro _; rfl
  end_eq := by intro _; exact ⟨[some 2000000], rfl, rfl⟩
  prob_len := rfl
  pred_len := rfl
  side_len := rfl
  prob_range := by norm_num
  pred_range := by norm_num
  side_range := by simp
  side_one := by intro h; cases h
  classes := le_rfl
  constructed := by simp [Bet.construct]; norm_num
  names := by simp

/-- C38 beside: probabilities 3/5 and 4/5 for the second row; at probability 1/2 the size is 0. -/
example : ∃ s s' x x', Bet.transform plainCfg (twoRows (1/2) (3/5)) = .ok s ∧ Bet.transform plainCfg (twoRows (1/2) (4/5)) = .ok s' ∧
    s[1]? = some (20, .fin x) ∧ s'[1]? = some (20, .fin x') ∧ x ≤ x' :=
  C38_monotone_partial (twoRows_input (by norm_num) (by norm_num)) (twoRows_input (by norm_num) (by norm_num)) rfl 1 (by decide) (by decide) rfl rfl
    (by norm_num [plainCfg]) (by norm_num)

example : ∃ s, Bet.transform plainCfg (twoRows (1/2) (3/5)) = .ok s ∧ s[0]? = some (10, .fin 0) :=
  C38_zero_at_chance (twoRows_input (by norm_num) (by norm_num)) rfl 0 (by decide) (by norm_num [plainCfg])

/-- C39 beside: a step of a third, and steps that are refused. -/
example : discretiseSignal [(1, .fin (4/5 : ℚ)), (2, .fin (-1/5)), (3, .pinf), (4, .nan)] (1/3) =
    .ok [(1, .fin (667/1000)), (2, .fin (-333/1000)), (3, .fin 1), (4, .nan)] ∧
    discretiseSignal [(1, .fin (4/5 : ℚ))] 1 = .error .assertionError := by decide +kernel

example : ∃ s, discretiseSignal ([((1 : ℤ), (4/5 : ℚ)), (2, -1/5)].map fun p => (p.1, XF.fin p.2)) (1/3) = .ok s ∧ discretiseSignal s (1/3) = .ok s :=
  C39_idempotent_partial (1/3) (by norm_num) (by norm_num) _ (by decide +kernel)

end Mizar.Props
