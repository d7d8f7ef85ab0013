import Verif.Lemmas.DoubleBet
import Verif.Props.RoundedBet
import Verif.Props.RoundedBag

/-!
C154: bet sizes (`/repo/mizarlabs/transformers/trading/bet_sizing.py`) and mean probabilities of the bagging classifier
(`/repo/mizarlabs/model/sequentially_bootstrapped_bagging_classifier.py` lines 465-467) in `float64` with underflow and overflow.
-/

namespace Mizar.Props
open Rd

/-- A call of the constructed transformer on a frame of floats of the format: as `RBetInput`, with predictions -1, 0 or 1, not more
classes than consecutive integers, and a step that is at least the smallest normal number. -/
structure DBetInput (f : Fmt) (c : BetCfg) (X : BetFrame) (prob pred side : List ℚ) : Prop extends RBetInput f.p c X prob pred side where
  prob_has : ∀ p ∈ prob, f.Has p
  pred_label : ∀ y ∈ pred, y = 1 ∨ y = -1 ∨ y = 0
  few : c.numClasses ≤ 2 ^ f.p
  step : ∀ s, c.stepSize = some s → f.tiny ≤ s

private theorem label_int {y : ℚ} (h : y = 1 ∨ y = -1 ∨ y = 0) : ∃ z : ℤ, y = z ∧ |z| ≤ 1 := by
  rcases h with rfl | rfl | rfl
  · exact ⟨1, by simp, by simp⟩
  · exact ⟨-1, by simp, by simp⟩
  · exact ⟨0, by simp, by simp⟩

/-- The signals of all rows in both arithmetics. -/
theorem dsignal {f : Fmt} (R : f.Roomy) {F : BetFn} (hF : BetFnOk F) (hF' : BetFnFits f F) {c : BetCfg} {X : BetFrame} {prob pred side : List ℚ}
    (h : DBetInput f c X prob pred side) : ∃ rows : List ℚ, rows.length = X.index.length ∧ (∀ v ∈ rows, |v| ≤ 1 ∧ OnUnit f.emin v) ∧
    betSideD f.float c X (List.zipWith (betSignalD f.float F c.numClasses) X.pred X.prob) = .ok (rows.map .fin) ∧
    betSide (roundBits f.p) c X (List.zipWith (betSignal (roundBits f.p) F c.numClasses) X.pred X.prob) = .ok (rows.map .fin) := by
  have hv : ∀ i, ∃ v : ℚ, i < X.index.length →
      betSignalD f.float F c.numClasses (.fin (pred.getD i 0)) (.fin (prob.getD i 0)) = .fin v ∧
      betSignal (roundBits f.p) F c.numClasses (.fin (pred.getD i 0)) (.fin (prob.getD i 0)) = .fin v ∧ |v| ≤ 1 ∧ OnUnit f.emin v := by
    intro i
    by_cases hi : i < X.index.length
    · have hp : i < prob.length := by rw [h.prob_len]; exact hi
      have hy : i < pred.length := by rw [h.pred_len]; exact hi
      obtain ⟨h0, h1⟩ := h.prob_range _ (List.getElem_mem hp)
      have hh := h.prob_has _ (List.getElem_mem hp)
      obtain ⟨z, ez, hz⟩ := label_int (h.pred_label _ (List.getElem_mem hy))
      obtain ⟨v, a, b⟩ := betSignalD_eq f R hF hF' h.classes h.few hh h0 h1 hz
      refine ⟨v, fun _ => ?_⟩
      rw [List.getD_eq_getElem _ 0 hp, List.getD_eq_getElem _ 0 hy, ez]
      exact ⟨a, b⟩
    · exact ⟨0, fun e => absurd e hi⟩
  choose v hv using hv
  have zip : ∀ S : XF ℚ → XF ℚ → XF ℚ, (∀ i < X.index.length, S (.fin (pred.getD i 0)) (.fin (prob.getD i 0)) = .fin (v i)) →
      List.zipWith S X.pred X.prob = (List.range X.index.length).map fun i => XF.fin (v i) := by
    intro S hS
    rw [h.prob_eq, h.pred_eq]
    apply List.ext_getElem
    · simp [h.prob_len, h.pred_len]
    · intro i h1 h2
      have hi : i < X.index.length := by simpa using h2
      have hp : i < prob.length := by rw [h.prob_len]; exact hi
      have hy : i < pred.length := by rw [h.pred_len]; exact hi
      simp only [List.getElem_zipWith, List.getElem_map, List.getElem_range]
      have := hS i hi
      rwa [List.getD_eq_getElem _ 0 hp, List.getD_eq_getElem _ 0 hy] at this
  rw [zip _ fun i hi => (hv i hi).1, zip _ fun i hi => (hv i hi).2.1]
  unfold betSideD betSide
  cases hm : c.metaLabeling with
  | false =>
    simp only [Bool.false_eq_true, if_false]
    refine ⟨(List.range X.index.length).map v, by simp, ?_, by rw [List.map_map]; rfl, by rw [List.map_map]; rfl⟩
    intro x hx
    obtain ⟨i, hi, rfl⟩ := List.mem_map.1 hx
    exact (hv i (List.mem_range.1 hi)).2.2
  | true =>
    simp only [if_true]
    have hall : (X.side.all fun v => XF.beq v (.fin 1) || XF.beq v (.fin (-1)) || XF.beq v (.fin 0)) = true := by
      rw [h.side_eq, List.all_eq_true]
      intro v hv
      obtain ⟨s, hs, rfl⟩ := List.mem_map.1 hv
      rcases h.side_range s hs with rfl | rfl | rfl <;> simp
    rw [if_pos hall, if_pos hall]
    have prod : ∀ i < X.index.length, |v i * side.getD i 0| ≤ 1 ∧ OnUnit f.emin (v i * side.getD i 0) := by
      intro i hi
      have hs : i < side.length := by rw [h.side_len]; exact hi
      rw [List.getD_eq_getElem _ 0 hs]
      obtain ⟨z, ez, hz⟩ := label_int (h.side_range _ (List.getElem_mem hs))
      obtain ⟨-, -, v1, vu⟩ := hv i hi
      rw [ez, mul_comm]
      refine ⟨?_, vu.natMul z⟩
      rw [abs_mul]
      exact mul_le_one₀ (by exact_mod_cast hz) (abs_nonneg _) v1
    have zip2 : ∀ M : XF ℚ → XF ℚ, (∀ i < X.index.length, M (.fin (v i * side.getD i 0)) = .fin (roundBits f.p (v i * side.getD i 0))) →
        List.zipWith (fun a b => M (XF.mul a b)) ((List.range X.index.length).map fun i => XF.fin (v i)) X.side =
        ((List.range X.index.length).map fun i => roundBits f.p (v i * side.getD i 0)).map XF.fin := by
      intro M hM
      rw [h.side_eq, List.map_map]
      apply List.ext_getElem
      · simp [h.side_len]
      · intro i h1 h2
        have hi : i < X.index.length := by simpa using h2
        have hs : i < side.length := by rw [h.side_len]; exact hi
        simp only [List.getElem_zipWith, List.getElem_map, List.getElem_range, XF.mul_fin, Function.comp]
        have := hM i hi
        rwa [List.getD_eq_getElem side 0 hs] at this ⊢
    refine ⟨_, ?_, ?_, congrArg _ (zip2 (XF.rounded f.float) fun i hi => ?_), congrArg _ (zip2 (rx (roundBits f.p)) fun i hi => rfl)⟩
    · simp
    · intro x hx
      obtain ⟨i, hi, rfl⟩ := List.mem_map.1 hx
      obtain ⟨a, b⟩ := prod i (List.mem_range.1 hi)
      exact ⟨round_abs_le_one R.p a, b.roundBits R.p⟩
    · obtain ⟨a, b⟩ := prod i hi
      exact f.float_mid R (.inr b) (a.trans R.one_le)

theorem ddiscretise {f : Fmt} (R : f.Roomy) {c : BetCfg} (h : betConstruct c = .ok c) (hstep : ∀ s, c.stepSize = some s → f.tiny ≤ s)
    (s : List (ℤ × XF ℚ)) (hs : ∀ p ∈ s, ∃ x : ℚ, p.2 = .fin x ∧ |x| ≤ 1) :
    betDiscretiseD f.float c s = betDiscretise (roundBits f.p) c s := by
  unfold betDiscretiseD betDiscretise
  cases hd : c.discretise with
  | false => rfl
  | true =>
    obtain ⟨st, h1, h2, h3⟩ := rstep_of_construct h hd
    simp only [if_true, h1, betDiscD, betDisc]
    rw [if_pos ⟨h2, h3⟩, if_pos ⟨h2, h3⟩]
    congr 1
    apply List.map_congr_left
    intro p hp
    obtain ⟨x, hx, hx1⟩ := hs p hp
    rw [hx, betDisc1D_eq f R (hstep st h1) h3 hx1]

/-- C154: without averaging the sizes in a format with bounded exponent, such as `float64`, are those of C108: nothing underflows or
overflows on the way from the probabilities to the sizes, however small a probability or its distance from 1 or from
`1 / num_classes` is. -/
theorem C154_same {f : Fmt} (R : f.Roomy) {F : BetFn} (hF : BetFnOk F) (hF' : BetFnFits f F) {c : BetCfg} {X : BetFrame}
    {prob pred side : List ℚ} (h : DBetInput f c X prob pred side) (ha : c.averageActive = false) :
    betTransformD f.float F c X = betTransform (roundBits f.p) F c X := by
  obtain ⟨rows, hl, hr, e1, e2⟩ := dsignal R hF hF' h
  have e3 : betAverageD f.float c X (rows.map .fin) = betAverage (roundBits f.p) c X (rows.map .fin) := by
    unfold betAverageD betAverage
    rw [ha]
    rfl
  have e4 : betDiscretiseD f.float c (betAverage (roundBits f.p) c X (rows.map .fin)) =
      betDiscretise (roundBits f.p) c (betAverage (roundBits f.p) c X (rows.map .fin)) := by
    apply ddiscretise R h.constructed h.step
    intro p hp
    unfold betAverage at hp
    rw [ha] at hp
    simp only [Bool.false_eq_true, if_false] at hp
    obtain ⟨x, hx, e⟩ := List.mem_map.1 (List.of_mem_zip hp).2
    exact ⟨x, e.symm, (hr x hx).1⟩
  have e5 : betTransform0D f.float F c X = betTransform0 (roundBits f.p) F c X := by
    unfold betTransform0D betTransform0
    rw [e1, e2]
    simp only
    rw [e3, e4]
    rfl
  unfold betTransformD betTransform
  rw [e5]
  rfl

theorem betAvgAtD_range {f : Fmt} (R : f.Roomy) (bets : List (ℤ × ℤ × XF ℚ)) (hlen : bets.length < 2 ^ f.p)
    (hg : ∀ x ∈ bets, ∃ v : ℚ, x.2.2 = .fin v ∧ |v| ≤ 1 ∧ OnUnit f.emin v) (t : ℤ) :
    ∃ v : ℚ, betAvgAtD f.float bets t = .fin v ∧ |v| ≤ 1 := by
  unfold betAvgAtD
  dsimp only
  split
  swap
  · exact ⟨0, rfl, by norm_num⟩
  rename_i hpos
  generalize hA : bets.filter (fun b => decide (b.1 ≤ t) && (decide (t < b.2.1) || decide (b.2.1 < 0))) = A at hpos
  have hsub : ∀ x ∈ A, ∃ v : ℚ, x.2.2 = .fin v ∧ |v| ≤ 1 ∧ OnUnit f.emin v := fun x hx => hg x (by
    rw [← hA] at hx; exact (List.mem_filter.1 hx).1)
  have hlA : A.length ≤ bets.length := by rw [← hA]; exact List.length_filter_le _ _
  obtain ⟨l, hl, hr⟩ : ∃ l : List ℚ, A.map (·.2.2) = l.map .fin ∧ ∀ x ∈ l, |x| ≤ 1 ∧ OnUnit f.emin x := by
    clear hA hpos hlA
    induction A with
    | nil => exact ⟨[], rfl, by simp⟩
    | cons a A ih =>
      obtain ⟨l, h1, h2⟩ := ih fun x hx => hsub x (List.mem_cons_of_mem _ hx)
      obtain ⟨v, h3, h4⟩ := hsub a List.mem_cons_self
      refine ⟨v :: l, by rw [List.map_cons, List.map_cons, h1, h3], ?_⟩
      intro x hx
      rcases List.mem_cons.1 hx with rfl | hx
      · exact h4
      · exact h2 x hx
  have hll : l.length = A.length := by simpa using (congrArg List.length hl).symm
  rw [hl]
  obtain ⟨v, h1, h2, _⟩ := betMeanD_close f R l (fun x hx => (hr x hx).1) (fun x hx => (hr x hx).2)
    (by rw [← List.length_pos_iff, hll]; exact hpos) (lt_of_le_of_lt (by omega) hlen)
  exact ⟨v, h1, h2⟩

/-- C154: with and without averaging, with and without discretisation, `transform` returns a number in [0,1] for every row. -/
theorem C154_range {f : Fmt} (R : f.Roomy) {F : BetFn} (hF : BetFnOk F) (hF' : BetFnFits f F) {c : BetCfg} {X : BetFrame}
    {prob pred side : List ℚ} (h : DBetInput f c X prob pred side) :
    ∃ s, betTransformD f.float F c X = .ok s ∧ (∀ p ∈ s, ∃ x : ℚ, p.2 = .fin x ∧ 0 ≤ x ∧ x ≤ 1) ∧
      (c.averageActive = false → s.map (·.1) = X.index) := by
  cases ha : c.averageActive with
  | false =>
    rw [C154_same R hF hF' h ha]
    obtain ⟨s, a, b, d⟩ := C108_range R.p hF h.toRBetInput
    exact ⟨s, a, b, fun _ => d ha⟩
  | true =>
    obtain ⟨rows, hl, hr, e1, -⟩ := dsignal R hF hF' h
    have g1 : ∀ p ∈ betAverageD f.float c X (rows.map .fin), ∃ x : ℚ, p.2 = .fin x ∧ |x| ≤ 1 := by
      intro p hp
      unfold betAverageD betAvgD at hp
      rw [ha] at hp
      simp only [if_true] at hp
      obtain ⟨t, _, rfl⟩ := List.mem_map.1 hp
      apply betAvgAtD_range R
      · refine lt_of_le_of_lt ?_ h.rows
        simp
      · intro x hx
        obtain ⟨b', hb', rfl⟩ := List.mem_map.1 hx
        rw [← List.map_uncurry_zip_eq_zipWith] at hb'
        obtain ⟨⟨t', e, v⟩, hq, rfl⟩ := List.mem_map.1 hb'
        obtain ⟨y, hy, rfl⟩ := List.mem_map.1 (List.of_mem_zip (List.of_mem_zip hq).2).2
        exact ⟨y, rfl, hr y hy⟩
    obtain ⟨s', hs', -, hg'⟩ := rdiscretise (r := roundBits f.p) h.constructed _ g1
    rw [← ddiscretise R h.constructed h.step _ g1] at hs'
    refine ⟨s'.map fun p => (p.1, XF.abs p.2), ?_, ?_, by simp⟩
    · unfold betTransformD betTransform0D
      rw [if_neg (by have := h.classes; omega), e1]
      simp only [hs']
      rw [if_pos]
      rw [Bool.and_eq_true, List.all_eq_true, List.all_eq_true]
      constructor <;>
      · intro p hp
        obtain ⟨q, hq, rfl⟩ := List.mem_map.1 hp
        obtain ⟨x, hx, h1⟩ := hg' q hq
        have h4 := abs_nonneg x
        simp only [hx, XF.abs_fin, XF.le_fin, decide_eq_true_eq]
        linarith
    · intro p hp
      obtain ⟨q, hq, rfl⟩ := List.mem_map.1 hp
      obtain ⟨x, hx, h1⟩ := hg' q hq
      exact ⟨|x|, by simp [hx], abs_nonneg _, h1⟩

/-- C154: averaging in a format with bounded exponent: as C108, with the same bound for the error, for sizes that are multiples of the
smallest positive number (as all floats of the format are). -/
theorem C154_average {f : Fmt} (R : f.Roomy) (bets : List (Spec.ABet ℚ)) (hlen : bets.length < 2 ^ f.p)
    (hsize : ∀ x ∈ bets, |x.size| ≤ 1) (hhas : ∀ x ∈ bets, f.Has x.size) (hstart : ∀ x ∈ bets, (1000000 : ℤ) ∣ x.start)
    (hstop : ∀ x ∈ bets, ∀ e, x.stop = some e → (1000000 : ℤ) ∣ e ∧ 0 ≤ e) :
    let out := betAvgD f.float (bets.map fun x => (⟨x.start, x.stop, .fin x.size⟩ : Bet.Bet ℚ))
    (out.map (·.1)).Pairwise (· < ·) ∧
    (∀ t, t ∈ out.map (·.1) ↔ ∃ x ∈ bets, t = x.start ∨ x.stop = some t) ∧
    ∀ p ∈ out, ∃ v : ℚ, p.2 = .fin v ∧ |v| ≤ 1 ∧
      |v - Spec.activeMean bets p.1| ≤ ((bets.countP fun x => decide (x.Active p.1)) + 1) / 2 ^ f.p := by
  intro out
  have hC := C40_average_active_partial bets hstart hstop
  have hfst : out.map (·.1) = (Bet.avgActiveSignals (bets.map fun x => (⟨x.start, x.stop, .fin x.size⟩ : Bet.Bet ℚ))).map (·.1) := by
    simp only [out, betAvgD, Bet.avgActiveSignals, List.map_map]
    rfl
  refine ⟨by rw [hfst]; exact hC.1, fun t => by rw [hfst]; exact hC.2.1 t, ?_⟩
  intro p hp
  have hmem : p.1 ∈ out.map (·.1) := List.mem_map.2 ⟨p, hp, rfl⟩
  rw [hfst, hC.2.1] at hmem
  simp only [out, betAvgD] at hp
  obtain ⟨t, _, rfl⟩ := List.mem_map.1 hp
  have htd : (1000000 : ℤ) ∣ t := by
    obtain ⟨x, hx, e | e⟩ := hmem
    · simp only at e; rw [e]; exact hstart x hx
    · exact (hstop x hx t e).1
  simp only
  unfold betAvgAtD Spec.activeMean
  simp only
  rw [List.map_map, List.filter_map]
  have hcond : ∀ x ∈ bets, (((fun x : ℤ × ℤ × XF ℚ => decide (x.1 ≤ Lab.convertToTimestamp (some t)) &&
        (decide (Lab.convertToTimestamp (some t) < x.2.1) || decide (x.2.1 < 0))) ∘
        ((fun x : Bet.Bet ℚ => (Lab.convertToTimestamp (some x.start), Lab.convertToTimestamp x.stop, x.size)) ∘
        fun x : Spec.ABet ℚ => (⟨x.start, x.stop, .fin x.size⟩ : Bet.Bet ℚ))) x) = decide (x.Active t) := by
    intro x hx
    have h1 := hstart x hx
    have e1 : (x.start / 1000000 ≤ t / 1000000) ↔ x.start ≤ t := by omega
    cases hst : x.stop with
    | none =>
      have : Lab.natInt / 1000000 < 0 := by decide
      simp [Lab.convertToTimestamp, hst, Spec.ABet.Active, this, e1]
    | some e =>
      obtain ⟨h2, h3⟩ := hstop x hx e hst
      have e2 : (t / 1000000 < e / 1000000) ↔ t < e := by omega
      have e3 : ¬ (e / 1000000 < 0) := by omega
      simp [Lab.convertToTimestamp, hst, Spec.ABet.Active, e1, e2, e3]
  rw [List.filter_congr hcond, List.countP_eq_length_filter]
  have hsub : ∀ x ∈ bets.filter (fun x => decide (x.Active t)), |x.size| ≤ 1 ∧ OnUnit f.emin x.size := fun x hx =>
    ⟨hsize x (List.mem_filter.1 hx).1, (hhas x (List.mem_filter.1 hx).1).onUnit⟩
  have hle : (bets.filter (fun x => decide (x.Active t))).length ≤ bets.length := List.length_filter_le _ _
  generalize bets.filter (fun x => decide (x.Active t)) = A at hsub hle
  by_cases hA : A = []
  · rw [if_pos hA, hA]
    refine ⟨0, rfl, by norm_num, ?_⟩
    simp only [sub_zero, abs_zero]
    positivity
  · rw [if_neg hA, if_pos (by rw [List.length_map]; exact List.length_pos_iff.2 hA), List.map_map]
    have e : A.map ((fun x : ℤ × ℤ × XF ℚ => x.2.2) ∘
        ((fun x : Bet.Bet ℚ => (Lab.convertToTimestamp (some x.start), Lab.convertToTimestamp x.stop, x.size)) ∘
        fun x : Spec.ABet ℚ => (⟨x.start, x.stop, .fin x.size⟩ : Bet.Bet ℚ))) = (A.map (·.size)).map XF.fin := by
      rw [List.map_map]; rfl
    rw [e]
    obtain ⟨v, h1, h2, h3⟩ := betMeanD_close f R (A.map (·.size)) (by simpa using fun x hx => (hsub x hx).1)
      (by simpa using fun x hx => (hsub x hx).2) (by simpa using hA) (by rw [List.length_map]; omega)
    rw [List.length_map] at h3
    exact ⟨v, h1, h2, h3⟩

/-- C154: discretising with a step of at least the smallest normal number is as in C108 (odd, monotone, within half a step, ...). -/
theorem C154_discretise {f : Fmt} (R : f.Roomy) (step : ℚ) (h0 : f.tiny ≤ step) (signal : List (ℤ × ℚ))
    (hs : ∀ p ∈ signal, |p.2| ≤ 1) :
    betDiscD f.float (signal.map fun p => (p.1, XF.fin p.2)) step = betDisc (roundBits f.p) (signal.map fun p => (p.1, XF.fin p.2)) step := by
  unfold betDiscD betDisc
  by_cases h : 0 < step ∧ step < 1
  · rw [if_pos h, if_pos h]
    congr 1
    rw [List.map_map, List.map_map]
    apply List.map_congr_left
    intro p hp
    simp only [Function.comp]
    rw [betDisc1D_eq f R h0 h.2 (hs p hp)]
  · rw [if_neg h, if_neg h]

/-- C154: a smaller step, which the constructor accepts, makes the full bet 1 of a small signal: `1/100 / step` is infinite. -/
theorem C154_step_refuted : betDiscD binary64.float [(0, .fin (1 / 100))] (2 ^ (-1040 : ℤ)) = .ok [(0, .fin 1)] ∧
    betDisc (roundBits 53) [(0, .fin (1 / 100))] (2 ^ (-1040 : ℤ)) = .ok [(0, .fin (roundBits 53 (1 / 100)))] ∧
    betConstruct ⟨2, false, false, true, some (2 ^ (-1040 : ℤ))⟩ = .ok ⟨2, false, false, true, some (2 ^ (-1040 : ℤ))⟩ := by
  refine ⟨by decide +kernel, by decide +kernel, ?_⟩
  unfold betConstruct
  simp only [if_true]
  rw [if_pos (by decide +kernel)]

/-- C154: a rounding without bounds gives the functions of C108. -/
theorem C154_unbounded (r : ℚ → ℚ) (F : BetFn) (c : BetCfg) (X : BetFrame) :
    betTransformD (fun q => .fin (r q)) F c X = betTransform r F c X := by
  have h : XF.rounded (fun q => XF.fin (r q)) = rx r := by
    funext x
    cases x <;> rfl
  have h1 : betZD (fun q => .fin (r q)) F = betZ r F := by
    funext n p; unfold betZD betZ; rw [h]
  have h2 : betSignalD (fun q => .fin (r q)) F = betSignal r F := by
    funext n y p; unfold betSignalD betSignal; rw [h, h1]
  have h3 : betMeanD (fun q => .fin (r q)) = betMean r := by
    funext l; unfold betMeanD betMean; rw [h]
  have h4 : betDisc1D (fun q => .fin (r q)) = betDisc1 r := by
    funext l; unfold betDisc1D betDisc1; rw [h]
  have h5 : betSideD (fun q => .fin (r q)) = betSide r := by
    funext c X s; unfold betSideD betSide; rw [h]
  have h6 : betAverageD (fun q => .fin (r q)) = betAverage r := by
    funext c X s; unfold betAverageD betAverage betAvgD betAvg betAvgAtD betAvgAt; rw [h3]
  have h7 : betDiscretiseD (fun q => .fin (r q)) = betDiscretise r := by
    funext c s; unfold betDiscretiseD betDiscretise betDiscD betDisc; rw [h4]; rfl
  unfold betTransformD betTransform betTransform0D betTransform0
  rw [h2, h5, h6, h7]
  rfl

/-! The bagging classifier. -/

theorem classMeanD_eq {f : Fmt} (R : f.Roomy) (jobs : ℕ) (hj : 1 ≤ jobs) (ps : List ℚ) (hne : ps ≠ []) (hlen : ps.length < 2 ^ f.p)
    (hps : ∀ x ∈ ps, 0 ≤ x ∧ x ≤ 1) (hhas : ∀ x ∈ ps, f.Has x) :
    classMeanD f.float ps.length jobs ps =
      .fin (f.round (sumR (roundBits f.p) ((jobChunks ps.length jobs ps).map (sumR (roundBits f.p))) / ps.length)) := by
  have hn1 : 1 ≤ ps.length := List.length_pos_iff.2 hne
  have hnq : (0 : ℚ) < ps.length := by exact_mod_cast hn1
  obtain ⟨c1, -⟩ := jobChunks_spec hn1 hj ps rfl
  obtain ⟨L, hL⟩ : ∃ L, L = jobChunks ps.length jobs ps := ⟨_, rfl⟩
  have e0 : classMeanD f.float ps.length jobs ps =
      XF.rounded f.float (XF.div (sumD f.float (L.map fun c => sumD f.float (c.map .fin))) (.fin (ps.length : ℚ))) := by
    rw [hL]
    unfold classMeanD jobChunks
    rw [List.map_map]
    rfl
  obtain ⟨b1, b2, -⟩ := jobSum_bounds R.p jobs hj ps hne hlen hps _ rfl
  rw [← hL] at c1 b1 b2 ⊢
  have one : ∀ c ∈ L, sumD f.float (c.map .fin) = .fin (sumR (roundBits f.p) c) ∧ |sumR (roundBits f.p) c| ≤ c.length ∧
      OnUnit f.emin (sumR (roundBits f.p) c) := by
    intro c hc
    have hsub : ∀ x ∈ c, x ∈ ps := fun x hx => c1 ▸ List.mem_flatten.2 ⟨c, hc, hx⟩
    have hcl : c.length ≤ ps.length := by
      have : c.length ≤ L.flatten.length := (List.sublist_flatten_of_mem hc).length_le
      rwa [c1] at this
    obtain ⟨d1, d2, d3⟩ := foldD f R (c.map fun x => (x, 1)) (by
      intro x hx
      obtain ⟨y, hy, rfl⟩ := List.mem_map.1 hx
      obtain ⟨y0, y1⟩ := hps y (hsub y hy)
      exact ⟨by simpa [abs_of_nonneg y0] using y1, (hhas y (hsub y hy)).onUnit⟩) 0 0 (by simp) (OnUnit.zero _)
      (by simp [Function.comp_def]; omega)
    simp only [List.map_map, Function.comp_def, List.map_id', List.map_const', List.sum_replicate, smul_eq_mul, mul_one, zero_add] at d1 d2 d3
    exact ⟨d1, d2, d3⟩
  obtain ⟨d1, -, -⟩ := foldD f R (L.map fun c => (sumR (roundBits f.p) c, c.length)) (by
    intro x hx
    obtain ⟨c, hc, rfl⟩ := List.mem_map.1 hx
    exact (one c hc).2) 0 0 (by simp) (OnUnit.zero _) (by
      simp only [List.map_map, Function.comp_def, zero_add]
      have : (L.map fun c => c.length).sum = ps.length := by rw [← c1, List.length_flatten]
      rw [this]; exact hlen)
  simp only [List.map_map, Function.comp_def] at d1
  have e1 : (L.map fun c => sumD f.float (c.map .fin)) = L.map fun c => XF.fin (sumR (roundBits f.p) c) :=
    List.map_congr_left fun c hc => (one c hc).1
  rw [e0, e1]
  have e2 : sumD f.float (L.map fun c => XF.fin (sumR (roundBits f.p) c)) = .fin (sumR (roundBits f.p) (L.map (sumR (roundBits f.p)))) := d1
  rw [e2, XF.div_fin _ _ hnq.ne']
  apply f.float_one R
  rw [abs_div, abs_of_pos hnq, abs_of_nonneg b1, div_le_one hnq]
  exact b2

/-- C154: the mean probability of a class is a number in [0,1] with the error bound of C112 (underflow of the quotient costs less than
a unit of rounding at 1). -/
theorem C154_mean {f : Fmt} (R : f.Roomy) (jobs : ℕ) (hj : 1 ≤ jobs) (ps : List ℚ) (hne : ps ≠ []) (hlen : ps.length < 2 ^ f.p)
    (hps : ∀ x ∈ ps, 0 ≤ x ∧ x ≤ 1) (hhas : ∀ x ∈ ps, f.Has x) :
    ∃ v : ℚ, classMeanD f.float ps.length jobs ps = .fin v ∧ 0 ≤ v ∧ v ≤ 1 ∧
      |v - ps.sum / ps.length| ≤ (ps.length + min jobs ps.length + 1) / 2 ^ f.p ∧
      (f.tiny < classMean (roundBits f.p) ps.length jobs ps → v = classMean (roundBits f.p) ps.length jobs ps) := by
  rw [classMeanD_eq R jobs hj ps hne hlen hps hhas, classMean_eq]
  obtain ⟨S, eS⟩ : ∃ S, S = sumR (roundBits f.p) ((jobChunks ps.length jobs ps).map (sumR (roundBits f.p))) := ⟨_, rfl⟩
  obtain ⟨h1, h2, e3⟩ := jobSum_bounds R.p jobs hj ps hne hlen hps S eS
  rw [← eS]
  obtain ⟨n, hn⟩ : ∃ n, n = ps.length := ⟨_, rfl⟩
  rw [← hn] at h2 e3 ⊢
  have hn1 : 1 ≤ n := by rw [hn]; exact List.length_pos_iff.2 hne
  have hnq : (0 : ℚ) < n := by exact_mod_cast hn1
  have q0 : 0 ≤ S / n := div_nonneg h1 hnq.le
  have q1 : S / n ≤ 1 := by rw [div_le_one hnq]; exact h2
  obtain ⟨o1, o2, o3⟩ := f.round_one R (q := S / n) (by rwa [abs_of_nonneg q0])
  refine ⟨_, rfl, o3 q0, (abs_le.1 o1).2, ?_, ?_⟩
  · have e4 : |S / n - ps.sum / n| ≤ (n + (min jobs n : ℕ)) / 2 ^ f.p := by
      rw [← sub_div, abs_div, abs_of_pos hnq, div_le_iff₀ hnq]
      refine e3.trans (le_of_eq (by ring))
    have e5 : ((n : ℚ) + (min jobs n : ℕ) + 1) / 2 ^ f.p = (n + (min jobs n : ℕ)) / 2 ^ f.p + 1 / 2 ^ f.p := by ring
    rw [e5]
    rw [abs_le] at o2 e4 ⊢
    constructor <;> linarith [o2.1, o2.2, e4.1, e4.2]
  · intro ht
    apply f.round_of_le
    change f.tiny ≤ _
    rw [abs_of_nonneg q0]
    by_contra hc
    push Not at hc
    have : roundBits f.p (S / n) ≤ f.tiny := roundBits_small f.p R.p hc.le
    linarith

/-- C154: votes of 0 and 1 give the share of the votes, correctly rounded. -/
theorem C154_votes {f : Fmt} (R : f.Roomy) (jobs : ℕ) (hj : 1 ≤ jobs) (ps : List ℚ) (hne : ps ≠ []) (hlen : ps.length < 2 ^ f.p)
    (hps : ∀ x ∈ ps, x = 0 ∨ x = 1) :
    classMeanD f.float ps.length jobs ps = .fin (roundBits f.p (ps.count 1 / ps.length)) := by
  have he : f.emin ≤ 0 := by have := R.low; have := R.p; omega
  have hmax : (0 : ℚ) < 2 ^ f.emax := two_zpow_pos _
  have hmax1 : (1 : ℚ) < 2 ^ f.emax := one_lt_zpow₀ (by norm_num) (by have := R.high; omega)
  have hhas : ∀ x ∈ ps, f.Has x := by
    intro x hx
    rcases hps x hx with rfl | rfl
    · exact ⟨⟨0, 0, by simp, he, by simp⟩, by simpa using hmax⟩
    · exact ⟨⟨1, 0, by rw [abs_one]; exact one_lt_pow₀ (by norm_num) (by have := R.p; omega), he, by simp⟩, by simpa using hmax1⟩
  have hr : ∀ x ∈ ps, 0 ≤ x ∧ x ≤ 1 := by
    intro x hx
    rcases hps x hx with rfl | rfl <;> norm_num
  obtain ⟨v, e, v0, v1, -, v2⟩ := C154_mean R jobs hj ps hne hlen hr hhas
  have hv := C112_votes R.p jobs hj ps hne hlen hps
  rw [hv] at v2
  have hn1 : 1 ≤ ps.length := List.length_pos_iff.2 hne
  have hnq : (0 : ℚ) < ps.length := by exact_mod_cast hn1
  by_cases hc : ps.count 1 = 0
  · have hz : ∀ x ∈ ps, x = 0 := by
      intro x hx
      rcases hps x hx with h | h
      · exact h
      · rw [h] at hx
        exact absurd hx (List.count_eq_zero.1 hc)
    rw [classMeanD_eq R jobs hj ps hne hlen hr hhas]
    have hb := jobSum_bounds R.p jobs hj ps hne hlen hr _ rfl
    have hm := classMean_eq (roundBits f.p) ps.length jobs ps
    rw [hv, hc] at hm
    rw [hc]
    simp only [Nat.cast_zero, zero_div, roundBits_zero] at hm ⊢
    have q0 := div_nonneg hb.1 hnq.le
    rcases q0.eq_or_lt with h | h
    · rw [← h, f.round_zero]
    · have := roundBits_pos f.p R.p h
      rw [← hm] at this
      exact absurd this (lt_irrefl _)
  · rw [e, v2]
    have h1 : (1 : ℚ) ≤ ps.count 1 := by exact_mod_cast Nat.one_le_iff_ne_zero.2 hc
    have h2 : (2 : ℚ) ^ (-(f.p : ℤ)) ≤ (ps.count 1 : ℚ) / ps.length := by
      rw [zpow_neg, zpow_natCast, ← one_div, div_le_div_iff₀ (by positivity) hnq]
      have h3 : (ps.length : ℚ) ≤ 2 ^ f.p := by exact_mod_cast hlen.le
      nlinarith
    have h3 := roundBits_mono f.p R.p h2
    rw [roundBits_zpow_self f.p R.p] at h3
    refine lt_of_lt_of_le ?_ h3
    exact zpow_lt_zpow_right₀ (by norm_num) (by have := R.low; have := R.p; omega)

theorem argmaxD_fin (x : ℚ) (l : List ℚ) : Pipe.argmax ((x :: l).map XF.fin) = .ok (Bag.argmaxQ (x :: l)) := by
  have key : ∀ (l : List ℚ) (i b : ℕ) (m : ℚ), Pipe.argmaxFrom i b (.fin m) (l.map XF.fin) =
      (l.foldl (fun (s : ℕ × ℚ × ℕ) y => if s.2.1 < y then (s.2.2, y, s.2.2 + 1) else (s.1, s.2.1, s.2.2 + 1)) (b, m, i)).1 := by
    intro l
    induction l with
    | nil => intro i b m; rfl
    | cons y l ih =>
      intro i b m
      simp only [List.map_cons, Pipe.argmaxFrom, List.foldl_cons, XF.isNan, Bool.false_eq_true, if_false, XF.lt_fin, decide_eq_true_eq]
      by_cases h : m < y
      · rw [if_pos h, if_pos h]; exact ih _ _ _
      · rw [if_neg h, if_neg h]; exact ih _ _ _
  simp only [List.map_cons, Pipe.argmax, Bag.argmaxQ]
  rw [key]

/-- C154: the predicted class is the one with the greatest mean probability if it leads by twice the error bound. -/
theorem C154_predict {f : Fmt} (R : f.Roomy) (jobs : ℕ) (hj : 1 ≤ jobs) (n : ℕ) (hn : 1 ≤ n) (hlen : n < 2 ^ f.p) (cols : List (List ℚ))
    (hcols : ∀ c ∈ cols, c.length = n ∧ ∀ x ∈ c, (0 ≤ x ∧ x ≤ 1) ∧ f.Has x) (k : ℕ) (hk : k < cols.length)
    (hgap : ∀ j, j < cols.length → j ≠ k →
      (cols.getD j []).sum / n + 2 * (n + min jobs n + 1) / 2 ^ f.p < (cols.getD k []).sum / n) :
    predictClassD f.float n jobs cols = .ok k := by
  have hv : ∀ c : List ℚ, ∃ v : ℚ, c ∈ cols → classMeanD f.float n jobs c = .fin v ∧ |v - c.sum / n| ≤ (n + min jobs n + 1) / 2 ^ f.p := by
    intro c
    by_cases hc : c ∈ cols
    · obtain ⟨l1, l2⟩ := hcols c hc
      obtain ⟨v, a, -, -, b, -⟩ := C154_mean R jobs hj c (by intro h; rw [h] at l1; simp at l1; omega) (by omega)
        (fun x hx => (l2 x hx).1) (fun x hx => (l2 x hx).2)
      rw [l1] at a b
      exact ⟨v, fun _ => ⟨a, b⟩⟩
    · exact ⟨0, fun h => absurd h hc⟩
  choose v hv using hv
  have e1 : cols.map (classMeanD f.float n jobs) = (cols.map v).map XF.fin := by
    rw [List.map_map]
    exact List.map_congr_left fun c hc => (hv c hc).1
  unfold predictClassD
  rw [e1]
  have hne : cols.map v ≠ [] := by
    intro h
    rw [List.map_eq_nil_iff] at h
    rw [h] at hk
    exact absurd hk (Nat.not_lt_zero _)
  obtain ⟨a1, a2, -⟩ := argmaxQ_spec (cols.map v) hne
  obtain ⟨x, l, hxl⟩ := List.exists_cons_of_ne_nil hne
  rw [hxl, argmaxD_fin, ← hxl]
  rw [List.length_map] at a1 a2
  obtain ⟨m, hm⟩ : ∃ m, m = Bag.argmaxQ (cols.map v) := ⟨_, rfl⟩
  rw [← hm] at a1 a2 ⊢
  congr 1
  by_contra hneq
  have close : ∀ j (hj' : j < cols.length), |(cols.map v).getD j 0 - (cols.getD j []).sum / n| ≤ (n + min jobs n + 1) / 2 ^ f.p := by
    intro j hj'
    rw [List.getD_eq_getElem _ _ (by simpa using hj'), List.getElem_map, List.getD_eq_getElem _ _ hj']
    exact (hv _ (List.getElem_mem hj')).2
  have g := hgap m a1 hneq
  have c1 := abs_le.1 (close m a1)
  have c2 := abs_le.1 (close k hk)
  have c3 := a2 k hk
  rw [mul_div_assoc] at g
  linarith [c1.1, c1.2, c2.1, c2.2]

/-- C154: the exact bounds matter: three estimators that give the smallest positive probability, no probability and again none, have
mean probability zero, although without bounds on the exponent it is positive. -/
theorem C154_tiny_refuted : classMeanD binary64.float 3 1 [2 ^ (-1074 : ℤ), 0, 0] = .fin 0 ∧
    0 < classMean (roundBits 53) 3 1 [2 ^ (-1074 : ℤ), 0, 0] := by decide +kernel

/-- `float64` and `float32` have the room that is asked for. -/
theorem binary64_roomy : binary64.Roomy := ⟨by decide, by decide, by decide, by decide⟩

example : binary32.Roomy := ⟨by decide, by decide, by decide, by decide⟩

/-- Library functions for the examples: three steps as distribution function and a constant root. -/
def demoFnD : BetFn where
  cdf
    | .nan => .nan
    | .ninf => .fin 0
    | .pinf => .fin 1
    | .fin x => .fin (if x < 0 then 1 / 4 else if x = 0 then 1 / 2 else 3 / 4)
  root
    | .fin x => .fin (if x ≤ 0 then 0 else 1 / 2)
    | _ => .nan

theorem demoFnD_ok : BetFnOk demoFnD where
  cdf_range x hx := by
    cases x with
    | nan => exact absurd rfl hx
    | ninf => exact ⟨0, rfl, by norm_num, by norm_num⟩
    | pinf => exact ⟨1, rfl, by norm_num, by norm_num⟩
    | fin x => refine ⟨_, rfl, ?_, ?_⟩ <;> · split_ifs <;> norm_num
  root_pos x hx := ⟨1 / 2, by simp [demoFnD, not_le.2 hx], by norm_num⟩
  root_zero := by simp [demoFnD]

/-- The assumptions about the library functions can be met in `float64`. -/
theorem demoFnD_fits : BetFnFits binary64 demoFnD where
  root x h0 _ := by
    have hx : 0 < x := lt_of_lt_of_le (two_zpow_pos _) h0
    refine ⟨1 / 2, by simp [demoFnD, not_le.2 hx], ?_, by norm_num⟩
    have : (2 : ℚ) ^ (1 - binary64.emax) ≤ 2 ^ (-1 : ℤ) := zpow_le_zpow_right₀ (by norm_num) (by decide)
    norm_num at this ⊢
    exact this
  cdf x c h := by
    have quarter : ∀ m : ℤ, |m| ≤ 4 → binary64.Has (m / 4) := by
      intro m hm
      have hm' : |(m : ℚ)| ≤ 4 := by exact_mod_cast hm
      refine ⟨⟨m, -2, lt_of_le_of_lt hm (by norm_num [binary64]), by decide, by norm_num; ring⟩, ?_⟩
      rw [abs_div]
      have h1 : (2 : ℚ) ^ (1 : ℤ) ≤ 2 ^ binary64.emax := zpow_le_zpow_right₀ (by norm_num) (by decide)
      norm_num at h1 ⊢
      linarith
    cases x with
    | nan => cases h
    | ninf => cases h; simpa using quarter 0 (by norm_num)
    | pinf => cases h; have := quarter 4 (by norm_num); norm_num at this; exact this
    | fin x =>
      simp only [demoFnD, XF.fin.injEq] at h
      subst h
      split_ifs
      · simpa using quarter 1 (by norm_num)
      · have := quarter 2 (by norm_num); norm_num at this; norm_num; exact this
      · simpa using quarter 3 (by norm_num)

/-- Three rows, one with the smallest positive probability. -/
def demoBetFrameD : BetFrame :=
  ⟨[0, 1000000, 2000000], [.fin (2 ^ (-1074 : ℤ)), .fin 1, .fin (1 / 2)], [.fin 1, .fin 1, .fin 0], [.fin 1, .fin (-1), .fin 1],
    [some 2000000, none, some 3000000]⟩

example : DBetInput binary64 demoBetCfg demoBetFrameD [2 ^ (-1074 : ℤ), 1, 1 / 2] [1, 1, 0] [1, -1, 1] where
  prob_eq := rfl
  pred_eq := rfl
  side_eq := rfl
  prob_len := rfl
  pred_len := rfl
  side_len := rfl
  end_len := rfl
  prob_range := by decide +kernel
  pred_range := by decide +kernel
  side_range := by decide +kernel
  classes := le_rfl
  constructed := by norm_num [betConstruct, demoBetCfg]
  rows := by decide +kernel
  prob_has p hp := by
    have h1 : (1 : ℚ) < 2 ^ binary64.emax := by decide +kernel
    simp only [List.mem_cons, List.not_mem_nil, or_false] at hp
    rcases hp with rfl | rfl | rfl
    · exact ⟨⟨1, -1074, by decide +kernel, by decide, by simp⟩, by decide +kernel⟩
    · exact ⟨⟨1, 0, by decide +kernel, by decide, by simp⟩, by simpa using h1⟩
    · exact ⟨⟨1, -1, by decide +kernel, by decide, by norm_num⟩, by decide +kernel⟩
  pred_label := by decide +kernel
  few := by decide +kernel
  step s hs := by
    cases hs
    decide +kernel

example : betTransformD binary64.float demoFnD { demoBetCfg with averageActive := false } demoBetFrameD =
    .ok [(0, .fin (1 / 2)), (1000000, .fin 1), (2000000, .fin 0)] := by decide +kernel

example : classMeanD binary64.float 3 2 [1, 0, 1] = .fin (roundBits 53 (2 / 3)) ∧
    predictClassD binary64.float 3 2 [[1, 0, 1], [0, 1, 0]] = .ok 0 := by decide +kernel

end Mizar.Props
