import Verif.Lemmas.RoundedBet
import Verif.Props.BetSizing

/-!
C108: bet sizing in floating point arithmetic (`/repo/mizarlabs/transformers/trading/bet_sizing.py`).
-/

namespace Mizar.Props
open Rd

/-- A call of the constructed transformer on a frame of numbers: probabilities in `[0,1]`, predictions in `[-1,1]`, sides in
`{-1,0,1}`, at least two classes, and fewer rows than there are consecutive integers in floating point. -/
structure RBetInput (b : ℕ) (c : BetCfg) (X : BetFrame) (prob pred side : List ℚ) : Prop where
  prob_eq : X.prob = prob.map .fin
  pred_eq : X.pred = pred.map .fin
  side_eq : X.side = side.map .fin
  prob_len : prob.length = X.index.length
  pred_len : pred.length = X.index.length
  side_len : side.length = X.index.length
  end_len : X.eventEnd.length = X.index.length
  prob_range : ∀ p ∈ prob, 0 ≤ p ∧ p ≤ 1
  pred_range : ∀ y ∈ pred, |y| ≤ 1
  side_range : ∀ s ∈ side, s = 1 ∨ s = -1 ∨ s = 0
  classes : 2 ≤ c.numClasses
  constructed : betConstruct c = .ok c
  rows : X.index.length < 2 ^ b

theorem rstep_of_construct {c : BetCfg} (h : betConstruct c = .ok c) (hd : c.discretise = true) :
    ∃ s, c.stepSize = some s ∧ 0 < s ∧ s < 1 := by
  unfold betConstruct at h
  rw [hd] at h
  simp only [if_true] at h
  cases hs : c.stepSize with
  | none => rw [hs] at h; cases h
  | some s =>
    rw [hs] at h
    simp only at h
    split at h
    · rename_i h2; exact ⟨s, rfl, h2⟩
    · cases h

/-- The signals of all rows. -/
theorem rsignal {b : ℕ} (hb : 1 ≤ b) {F : BetFn} (hF : BetFnOk F) {c : BetCfg} {X : BetFrame} {prob pred side : List ℚ}
    (h : RBetInput b c X prob pred side) : ∃ conf : ℕ → ℚ,
    (∀ i < X.index.length, F.cdf (betZ (roundBits b) F c.numClasses (.fin (prob.getD i 0))) = .fin (conf i) ∧
      0 ≤ conf i ∧ conf i ≤ 1) ∧
    betSide (roundBits b) c X (List.zipWith (betSignal (roundBits b) F c.numClasses) X.pred X.prob) =
      .ok (((List.range X.index.length).map fun i =>
        let v := roundBits b (pred.getD i 0 * roundBits b (roundBits b (2 * conf i) - 1))
        if c.metaLabeling then roundBits b (v * side.getD i 0) else v).map .fin) := by
  have hc : ∀ i, ∃ v : ℚ, i < X.index.length →
      F.cdf (betZ (roundBits b) F c.numClasses (.fin (prob.getD i 0))) = .fin v ∧ 0 ≤ v ∧ v ≤ 1 := by
    intro i
    by_cases hi : i < X.index.length
    · have hp : i < prob.length := by rw [h.prob_len]; exact hi
      obtain ⟨h0, h1⟩ := h.prob_range _ (List.getElem_mem hp)
      rw [← List.getD_eq_getElem _ 0 hp] at h0 h1
      obtain ⟨v, hv⟩ := cdf_betZ hb hF h.classes h0 h1
      exact ⟨v, fun _ => hv⟩
    · exact ⟨0, fun e => absurd e hi⟩
  choose conf hconf using hc
  refine ⟨conf, hconf, ?_⟩
  have e1 : List.zipWith (betSignal (roundBits b) F c.numClasses) X.pred X.prob =
      (List.range X.index.length).map fun i =>
        XF.fin (roundBits b (pred.getD i 0 * roundBits b (roundBits b (2 * conf i) - 1))) := by
    rw [h.prob_eq, h.pred_eq]
    apply List.ext_getElem
    · simp [h.prob_len, h.pred_len]
    · intro i h1 h2
      have hi : i < X.index.length := by simpa using h2
      have hp : i < prob.length := by rw [h.prob_len]; exact hi
      have hy : i < pred.length := by rw [h.pred_len]; exact hi
      simp only [List.getElem_zipWith, List.getElem_map, List.getElem_range]
      have := (hconf i hi).1
      rw [List.getD_eq_getElem _ 0 hp] at this
      rw [betSignal_fin _ this, List.getD_eq_getElem _ 0 hy]
  rw [e1, betSide]
  cases hm : c.metaLabeling with
  | false => simp
  | true =>
    simp only [if_true]
    rw [if_pos]
    · congr 1
      rw [h.side_eq, List.map_map]
      apply List.ext_getElem
      · simp [h.side_len]
      · intro i h1 h2
        have hi : i < X.index.length := by simpa using h2
        have hs : i < side.length := by rw [h.side_len]; exact hi
        simp only [List.getElem_zipWith, List.getElem_map, List.getElem_range, XF.mul_fin, rx, Function.comp]
        rw [List.getD_eq_getElem side 0 hs]
    · rw [h.side_eq, List.all_eq_true]
      intro v hv
      obtain ⟨s, hs, rfl⟩ := List.mem_map.1 hv
      rcases h.side_range s hs with rfl | rfl | rfl <;> simp

/-- The signal of row `i`. -/
def rrow (b : ℕ) (c : BetCfg) (conf : ℕ → ℚ) (pred side : List ℚ) (i : ℕ) : ℚ :=
  let v := roundBits b (pred.getD i 0 * roundBits b (roundBits b (2 * conf i) - 1))
  if c.metaLabeling then roundBits b (v * side.getD i 0) else v

theorem rrow_range {b : ℕ} (hb : 1 ≤ b) {c : BetCfg} {X : BetFrame} {prob pred side : List ℚ}
    (h : RBetInput b c X prob pred side) {conf : ℕ → ℚ} (hc : ∀ i < X.index.length, 0 ≤ conf i ∧ conf i ≤ 1)
    (i : ℕ) (hi : i < X.index.length) : |rrow b c conf pred side i| ≤ 1 := by
  have hy : i < pred.length := by rw [h.pred_len]; exact hi
  have hs : i < side.length := by rw [h.side_len]; exact hi
  have h1 := h.pred_range _ (List.getElem_mem hy)
  have h3 := h.side_range _ (List.getElem_mem hs)
  have h4 : |roundBits b (pred.getD i 0 * roundBits b (roundBits b (2 * conf i) - 1))| ≤ 1 := by
    apply round_abs_le_one hb
    rw [List.getD_eq_getElem _ 0 hy, abs_mul]
    exact mul_le_one₀ h1 (abs_nonneg _) (conf_range hb (hc i hi).1 (hc i hi).2)
  unfold rrow
  dsimp only
  split
  · apply round_abs_le_one hb
    rw [abs_mul, List.getD_eq_getElem _ 0 hs]
    refine mul_le_one₀ h4 (abs_nonneg _) ?_
    rcases h3 with e | e | e <;> rw [e] <;> norm_num
  · exact h4

theorem betAvgAt_range {b : ℕ} (hb : 1 ≤ b) (bets : List (ℤ × ℤ × XF ℚ)) (hlen : bets.length < 2 ^ b)
    (hg : ∀ x ∈ bets, ∃ v : ℚ, x.2.2 = .fin v ∧ |v| ≤ 1) (t : ℤ) :
    ∃ v : ℚ, betAvgAt (roundBits b) bets t = .fin v ∧ |v| ≤ 1 := by
  unfold betAvgAt
  dsimp only
  split
  swap
  · exact ⟨0, rfl, by norm_num⟩
  rename_i hpos
  generalize hA : bets.filter (fun b => decide (b.1 ≤ t) && (decide (t < b.2.1) || decide (b.2.1 < 0))) = A at hpos
  have hsub : ∀ x ∈ A, ∃ v : ℚ, x.2.2 = .fin v ∧ |v| ≤ 1 := fun x hx => hg x (by
    rw [← hA] at hx; exact (List.mem_filter.1 hx).1)
  have hlA : A.length ≤ bets.length := by rw [← hA]; exact List.length_filter_le _ _
  obtain ⟨l, hl, hr⟩ : ∃ l : List ℚ, A.map (·.2.2) = l.map .fin ∧ ∀ x ∈ l, |x| ≤ 1 := by
    clear hA hpos hlA
    induction A with
    | nil => exact ⟨[], rfl, by simp⟩
    | cons a A ih =>
      obtain ⟨l, h1, h2⟩ := ih fun x hx => hsub x (List.mem_cons_of_mem _ hx)
      obtain ⟨v, h3, h4⟩ := hsub a List.mem_cons_self
      refine ⟨v :: l, by rw [List.map_cons, List.map_cons, h1, h3], ?_⟩
      intro x hx
      rcases List.mem_cons.1 hx with rfl | hx
      · exact h4
      · exact h2 x hx
  have hll : l.length = A.length := by simpa using (congrArg List.length hl).symm
  rw [hl]
  obtain ⟨v, h1, h2, _⟩ := betMean_close hb l hr (by rw [← List.length_pos_iff, hll]; exact hpos)
    (lt_of_le_of_lt (by omega) hlen)
  exact ⟨v, h1, h2⟩

theorem raverage {b : ℕ} (hb : 1 ≤ b) {c : BetCfg} {X : BetFrame} {prob pred side : List ℚ}
    (h : RBetInput b c X prob pred side) (f : ℕ → ℚ) (hf : ∀ i < X.index.length, |f i| ≤ 1) :
    (∀ p ∈ betAverage (roundBits b) c X (((List.range X.index.length).map f).map .fin), ∃ x : ℚ, p.2 = .fin x ∧ |x| ≤ 1) ∧
    (c.averageActive = false →
      (betAverage (roundBits b) c X (((List.range X.index.length).map f).map .fin)).map (·.1) = X.index) := by
  have hrow : ∀ v ∈ ((List.range X.index.length).map f).map XF.fin, ∃ x : ℚ, v = .fin x ∧ |x| ≤ 1 := by
    intro v hv
    rw [List.map_map] at hv
    obtain ⟨i, hi, rfl⟩ := List.mem_map.1 hv
    exact ⟨_, rfl, hf i (List.mem_range.1 hi)⟩
  unfold betAverage
  cases ha : c.averageActive with
  | false =>
    simp only [Bool.false_eq_true, if_false]
    refine ⟨fun p hp => hrow p.2 (List.of_mem_zip hp).2, fun _ => ?_⟩
    rw [List.map_fst_zip]
    simp
  | true =>
    simp only [if_true]
    refine ⟨?_, by simp⟩
    intro p hp
    unfold betAvg at hp
    obtain ⟨t, _, rfl⟩ := List.mem_map.1 hp
    apply betAvgAt_range hb
    · refine lt_of_le_of_lt ?_ h.rows
      simp
    · intro x hx
      obtain ⟨b', hb', rfl⟩ := List.mem_map.1 hx
      rw [← List.map_uncurry_zip_eq_zipWith] at hb'
      obtain ⟨⟨t', e, v⟩, hq, rfl⟩ := List.mem_map.1 hb'
      exact hrow v (List.of_mem_zip (List.of_mem_zip hq).2).2

theorem rdiscretise {r : ℚ → ℚ} {c : BetCfg} (h : betConstruct c = .ok c) (s : List (ℤ × XF ℚ))
    (hs : ∀ p ∈ s, ∃ x : ℚ, p.2 = .fin x ∧ |x| ≤ 1) :
    ∃ s', betDiscretise r c s = .ok s' ∧ s'.map (·.1) = s.map (·.1) ∧ ∀ p ∈ s', ∃ x : ℚ, p.2 = .fin x ∧ |x| ≤ 1 := by
  unfold betDiscretise
  cases hd : c.discretise with
  | false => exact ⟨s, rfl, rfl, hs⟩
  | true =>
    obtain ⟨st, h1, h2, h3⟩ := rstep_of_construct h hd
    simp only [if_true, h1, betDisc]
    rw [if_pos ⟨h2, h3⟩]
    refine ⟨_, rfl, by simp, ?_⟩
    intro p hp
    obtain ⟨q, hq, rfl⟩ := List.mem_map.1 hp
    obtain ⟨x, hx, _⟩ := hs q hq
    simp only [hx, betDisc1_fin r h2]
    exact ⟨_, rfl, discR_range _ _ _⟩

theorem rtransform {b : ℕ} (hb : 1 ≤ b) {F : BetFn} {c : BetCfg} {X : BetFrame} {prob pred side : List ℚ}
    (h : RBetInput b c X prob pred side) {f : ℕ → ℚ} (hf : ∀ i < X.index.length, |f i| ≤ 1)
    (hsig : betSide (roundBits b) c X (List.zipWith (betSignal (roundBits b) F c.numClasses) X.pred X.prob) =
      .ok (((List.range X.index.length).map f).map .fin)) :
    ∃ s', betDiscretise (roundBits b) c (betAverage (roundBits b) c X (((List.range X.index.length).map f).map .fin)) = .ok s' ∧
      betTransform (roundBits b) F c X = .ok (s'.map fun p => (p.1, XF.abs p.2)) ∧
      (∀ p ∈ s', ∃ x : ℚ, p.2 = .fin x ∧ |x| ≤ 1) ∧ (c.averageActive = false → s'.map (·.1) = X.index) := by
  obtain ⟨g1, g2⟩ := raverage hb h f hf
  obtain ⟨s', hs', hfst, hg'⟩ := rdiscretise (r := roundBits b) h.constructed _ g1
  refine ⟨s', hs', ?_, hg', fun e => by rw [hfst]; exact g2 e⟩
  unfold betTransform betTransform0
  rw [if_neg (by have := h.classes; omega), hsig]
  simp only [hs']
  rw [if_pos]
  rw [Bool.and_eq_true, List.all_eq_true, List.all_eq_true]
  constructor <;>
  · intro p hp
    obtain ⟨q, hq, rfl⟩ := List.mem_map.1 hp
    obtain ⟨x, hx, h1⟩ := hg' q hq
    have h4 := abs_nonneg x
    simp only [hx, XF.abs_fin, XF.le_fin, decide_eq_true_eq]
    linarith

/-- C108: with rounding, too, `transform` never fails its own assertions: for every frame of valid numbers, with and without
averaging, metalabeling and discretisation, it returns sizes in `[0,1]`; without averaging one for every row. -/
theorem C108_range {b : ℕ} (hb : 1 ≤ b) {F : BetFn} (hF : BetFnOk F) {c : BetCfg} {X : BetFrame} {prob pred side : List ℚ}
    (h : RBetInput b c X prob pred side) :
    ∃ s, betTransform (roundBits b) F c X = .ok s ∧ (∀ p ∈ s, ∃ x : ℚ, p.2 = .fin x ∧ 0 ≤ x ∧ x ≤ 1) ∧
      (c.averageActive = false → s.map (·.1) = X.index) := by
  obtain ⟨conf, hc, hsig⟩ := rsignal hb hF h
  obtain ⟨s', _, h2, h3, h4⟩ := rtransform hb h (rrow_range hb h fun i hi => (hc i hi).2) hsig
  refine ⟨_, h2, ?_, fun e => ?_⟩
  · intro p hp
    obtain ⟨q, hq, rfl⟩ := List.mem_map.1 hp
    obtain ⟨x, hx, h5⟩ := h3 q hq
    exact ⟨|x|, by simp [hx], abs_nonneg _, h5⟩
  · rw [List.map_map]
    exact h4 e

/-- One size without averaging. -/
def rsize (r : ℚ → ℚ) (c : BetCfg) (x : ℚ) : ℚ := if c.discretise then discR r (c.stepSize.getD 0) |x| else |x|

theorem rrow_formula {b : ℕ} (hb : 1 ≤ b) {F : BetFn} (hF : BetFnOk F) {c : BetCfg} {X : BetFrame} {prob pred side : List ℚ}
    (h : RBetInput b c X prob pred side) (ha : c.averageActive = false) : ∃ (s : List (ℤ × XF ℚ)) (conf : ℕ → ℚ),
    betTransform (roundBits b) F c X = .ok s ∧
    (∀ i < X.index.length, F.cdf (betZ (roundBits b) F c.numClasses (.fin (prob.getD i 0))) = .fin (conf i) ∧
      0 ≤ conf i ∧ conf i ≤ 1) ∧
    ∀ i (hi : i < X.index.length), s[i]? = some (X.index[i], .fin (rsize (roundBits b) c (rrow b c conf pred side i))) := by
  obtain ⟨conf, hc, hsig⟩ := rsignal hb hF h
  obtain ⟨s', h1, h2, h3, h4⟩ := rtransform hb h (rrow_range hb h fun i hi => (hc i hi).2) hsig
  refine ⟨_, conf, h2, hc, ?_⟩
  intro i hi
  have hav : betAverage (roundBits b) c X (((List.range X.index.length).map (rrow b c conf pred side)).map .fin) =
      X.index.zip (((List.range X.index.length).map (rrow b c conf pred side)).map .fin) := by
    simp [betAverage, ha]
  rw [hav] at h1
  unfold betDiscretise at h1
  have hz : (X.index.zip (((List.range X.index.length).map (rrow b c conf pred side)).map XF.fin))[i]? =
      some (X.index[i], .fin (rrow b c conf pred side i)) := by
    rw [List.getElem?_eq_getElem (by simpa using hi)]
    simp
  cases hd : c.discretise with
  | false =>
    rw [hd] at h1
    simp only [Bool.false_eq_true, if_false] at h1
    cases h1
    rw [List.getElem?_map, hz]
    simp [rsize, hd]
  | true =>
    obtain ⟨st, e1, e2, e3⟩ := rstep_of_construct h.constructed hd
    rw [hd] at h1
    simp only [if_true, e1, betDisc] at h1
    rw [if_pos ⟨e2, e3⟩] at h1
    cases h1
    rw [List.getElem?_map, List.getElem?_map, hz]
    simp only [Option.map_some, betDisc1_fin _ e2, XF.abs_fin, rsize, hd, if_true, e1, Option.getD_some]
    rw [discR_abs (fun _ _ e => roundBits_mono b hb e) (roundBits_neg b) e2]

theorem rsize_mono {b : ℕ} (hb : 1 ≤ b) {c : BetCfg} (h : betConstruct c = .ok c) {x y : ℚ} (hxy : |x| ≤ |y|) :
    rsize (roundBits b) c x ≤ rsize (roundBits b) c y := by
  unfold rsize
  cases hd : c.discretise with
  | false => simpa using hxy
  | true =>
    obtain ⟨st, e1, e2, e3⟩ := rstep_of_construct h hd
    simp only [if_true, e1, Option.getD_some]
    exact discR_mono (fun _ _ e => roundBits_mono b hb e) e2 hxy

/-- C108: with rounding the size is exactly 0 at the floating point number `1 / num_classes` (`norm.cdf(0) = 0.5`). -/
theorem C108_chance {b : ℕ} (hb : 1 ≤ b) {F : BetFn} (hF : BetFnOk F) (hhalf : F.cdf (.fin 0) = .fin (1 / 2))
    {c : BetCfg} {X : BetFrame} {prob pred side : List ℚ} (h : RBetInput b c X prob pred side) (ha : c.averageActive = false)
    (i : ℕ) (hi : i < X.index.length) (hp : prob.getD i 0 = roundBits b (1 / (c.numClasses : ℚ))) :
    ∃ s, betTransform (roundBits b) F c X = .ok s ∧ s[i]? = some (X.index[i], .fin 0) := by
  obtain ⟨s, conf, h1, h2, h3⟩ := rrow_formula hb hF h ha
  refine ⟨s, h1, ?_⟩
  rw [h3 i hi]
  obtain ⟨i0, i1⟩ := round_inv_pos (p := b) hb h.classes
  have hz : betZ (roundBits b) F c.numClasses (.fin (prob.getD i 0)) = .fin 0 := by
    rw [hp]
    rcases betZ_cases hb hF h.classes i0.le (by linarith) with ⟨e, _⟩ | ⟨e, _⟩ | ⟨_, _, y, _, _, e⟩
    · exact absurd e i0.ne'
    · linarith
    · rw [e, sub_self, roundBits_zero, zero_div, roundBits_zero]
  have hcf : conf i = 1 / 2 := by
    have := (h2 i hi).1
    rw [hz, hhalf] at this
    exact (XF.fin.inj this).symm
  have h5 : roundBits b (roundBits b (2 * (1 / 2)) - 1) = 0 := by
    rw [show (2 : ℚ) * (1 / 2) = 1 by norm_num, roundBits_one b hb, sub_self, roundBits_zero]
  have h6 : rrow b c conf pred side i = 0 := by
    unfold rrow
    rw [hcf, h5]
    simp [roundBits_zero]
  rw [h6]
  unfold rsize
  simp [discR_zero (roundBits_neg b)]

/-- The test statistic is monotone from probability 1/2 on, where `1 - p` is computed exactly. -/
theorem conf_mono {b : ℕ} (hb : 1 ≤ b) {F : BetFn} (hF : BetFnOk F)
    (hroot : ∀ x y u v : ℚ, 0 ≤ x → x ≤ y → F.root (.fin x) = .fin u → F.root (.fin y) = .fin v → u ≤ v)
    (hcdf : ∀ x y : XF ℚ, XF.le x y = true → ∀ u v : ℚ, F.cdf x = .fin u → F.cdf y = .fin v → u ≤ v)
    {n : ℕ} (hn : 2 ≤ n) {p q : ℚ} (fp : IsFloat b p) (fq : IsFloat b q) (hp : 1 / 2 ≤ p) (hpq : p ≤ q) (hq : q ≤ 1)
    {u v : ℚ} (hu : F.cdf (betZ (roundBits b) F n (.fin p)) = .fin u)
    (hv : F.cdf (betZ (roundBits b) F n (.fin q)) = .fin v) : u ≤ v := by
  obtain ⟨i0, i1⟩ := round_inv_pos (p := b) hb hn
  refine hcdf _ _ ?_ u v hu hv
  have sterbenz : ∀ x : ℚ, IsFloat b x → 1 / 2 ≤ x → x ≤ 1 → roundBits b (1 - x) = 1 - x := fun x fx h1 h2 =>
    roundBits_eq_self b hb (isFloat_one_sub_half hb fx h1 h2)
  rcases betZ_cases hb hF hn (by linarith : (0 : ℚ) ≤ q) hq with ⟨e, _⟩ | ⟨_, e⟩ | ⟨q0, q1, y', hy', hr', e⟩
  · linarith
  · rw [e]
    rcases betZ_cases hb hF hn (by linarith : (0 : ℚ) ≤ p) (by linarith) with ⟨e', _⟩ | ⟨_, e'⟩ | ⟨_, _, y, _, _, e'⟩
    · linarith
    · rw [e']; rfl
    · rw [e']; rfl
  · rcases betZ_cases hb hF hn (by linarith : (0 : ℚ) ≤ p) (by linarith) with ⟨e', _⟩ | ⟨e', _⟩ | ⟨p0, p1, y, hy, hr, e'⟩
    · linarith
    · linarith
    · rw [e, e', XF.le_fin, decide_eq_true_eq]
      apply roundBits_mono b hb
      have hnum : roundBits b (p - roundBits b (1 / (n : ℚ))) ≤ roundBits b (q - roundBits b (1 / (n : ℚ))) :=
        roundBits_mono b hb (by linarith)
      have hnum0 : 0 ≤ roundBits b (p - roundBits b (1 / (n : ℚ))) := roundBits_nonneg b hb (by linarith)
      rw [sterbenz p fp hp p1.le] at hr
      rw [sterbenz q fq (by linarith) q1.le] at hr'
      have hden : y' ≤ y := by
        refine hroot _ _ _ _ (roundBits_nonneg b hb (mul_nonneg q0.le (by linarith))) (roundBits_mono b hb ?_) hr' hr
        nlinarith
      exact div_le_div₀ (by linarith) hnum hy' hden

/-- C108: with rounding, from probability 1/2 on (for two classes: the probability of the predicted class) a higher
probability never gives a smaller size, provided the library's `** 0.5` and `norm.cdf` are monotone. -/
theorem C108_monotone {b : ℕ} (hb : 1 ≤ b) {F : BetFn} (hF : BetFnOk F)
    (hroot : ∀ x y u v : ℚ, 0 ≤ x → x ≤ y → F.root (.fin x) = .fin u → F.root (.fin y) = .fin v → u ≤ v)
    (hcdf : ∀ x y : XF ℚ, XF.le x y = true → ∀ u v : ℚ, F.cdf x = .fin u → F.cdf y = .fin v → u ≤ v)
    (hhalf : F.cdf (.fin 0) = .fin (1 / 2))
    {c : BetCfg} {X X' : BetFrame} {prob prob' pred pred' side side' : List ℚ}
    (h : RBetInput b c X prob pred side) (h' : RBetInput b c X' prob' pred' side') (ha : c.averageActive = false)
    (i : ℕ) (hi : i < X.index.length) (hi' : i < X'.index.length)
    (hpred : pred.getD i 0 = pred'.getD i 0) (hside : side.getD i 0 = side'.getD i 0)
    (fp : IsFloat b (prob.getD i 0)) (fq : IsFloat b (prob'.getD i 0))
    (hchance : 1 / 2 ≤ prob.getD i 0) (hprob : prob.getD i 0 ≤ prob'.getD i 0) :
    ∃ s s' x x', betTransform (roundBits b) F c X = .ok s ∧ betTransform (roundBits b) F c X' = .ok s' ∧
      s[i]? = some (X.index[i], .fin x) ∧ s'[i]? = some (X'.index[i], .fin x') ∧ x ≤ x' := by
  obtain ⟨s, conf, h1, h2, h3⟩ := rrow_formula hb hF h ha
  obtain ⟨s', conf', h1', h2', h3'⟩ := rrow_formula hb hF h' ha
  refine ⟨s, s', _, _, h1, h1', h3 i hi, h3' i hi', rsize_mono hb h.constructed ?_⟩
  have hq1 : prob'.getD i 0 ≤ 1 := by
    have hp : i < prob'.length := by rw [h'.prob_len]; exact hi'
    rw [List.getD_eq_getElem _ 0 hp]
    exact (h'.prob_range _ (List.getElem_mem hp)).2
  have hc : conf i ≤ conf' i :=
    conf_mono hb hF hroot hcdf h.classes fp fq hchance hprob hq1 (h2 i hi).1 (h2' i hi').1
  have hge : 1 / 2 ≤ conf i := by
    refine hcdf (.fin 0) (betZ (roundBits b) F c.numClasses (.fin (prob.getD i 0))) ?_ _ _ hhalf (h2 i hi).1
    obtain ⟨i0, i1⟩ := round_inv_pos (p := b) hb h.classes
    rcases betZ_cases hb hF h.classes (by linarith : (0 : ℚ) ≤ prob.getD i 0) (by linarith) with ⟨e, _⟩ | ⟨_, e⟩ | ⟨_, _, y, hy, _, e⟩
    · linarith
    · rw [e]; rfl
    · rw [e, XF.le_fin, decide_eq_true_eq]
      exact roundBits_nonneg b hb (div_nonneg (roundBits_nonneg b hb (by linarith)) hy.le)
  have g0 : 0 ≤ roundBits b (roundBits b (2 * conf i) - 1) := by
    apply roundBits_nonneg b hb
    have := le_round hb (isFloat_one hb) (show 1 ≤ 2 * conf i by linarith)
    linarith
  have g1 : roundBits b (roundBits b (2 * conf i) - 1) ≤ roundBits b (roundBits b (2 * conf' i) - 1) := by
    apply roundBits_mono b hb
    have := roundBits_mono b hb (show 2 * conf i ≤ 2 * conf' i by linarith)
    linarith
  have habs : ∀ x y : ℚ, |x| ≤ |y| → |roundBits b x| ≤ |roundBits b y| := by
    have key : ∀ x : ℚ, |roundBits b x| = roundBits b |x| := by
      intro x
      rcases le_total 0 x with e | e
      · rw [abs_of_nonneg e, abs_of_nonneg (roundBits_nonneg b hb e)]
      · have : roundBits b x ≤ 0 := by
          have := roundBits_nonneg b hb (show 0 ≤ -x by linarith)
          rw [roundBits_neg] at this
          linarith
        rw [abs_of_nonpos e, abs_of_nonpos this, roundBits_neg]
    intro x y e
    rw [key, key]
    exact roundBits_mono b hb e
  unfold rrow
  dsimp only
  rw [hpred, hside]
  have base : |roundBits b (pred'.getD i 0 * roundBits b (roundBits b (2 * conf i) - 1))| ≤
      |roundBits b (pred'.getD i 0 * roundBits b (roundBits b (2 * conf' i) - 1))| := by
    apply habs
    rw [abs_mul, abs_mul, abs_of_nonneg g0, abs_of_nonneg (g0.trans g1)]
    exact mul_le_mul_of_nonneg_left g1 (abs_nonneg _)
  split
  · apply habs
    rw [abs_mul, abs_mul]
    exact mul_le_mul_of_nonneg_right base (abs_nonneg _)
  · exact base

/-- C108: `discretise_signal` with rounding: one function for all values, in `[-1,1]`, monotone, odd, and within
`step / 2 + 0.0005` of a signal in `[-1,1]` up to `12 / 2^b`. -/
theorem C108_discretise {b : ℕ} (hb : 1 ≤ b) (step : ℚ) (h0 : 0 < step) (h1 : step < 1) (signal : List (ℤ × ℚ)) :
    ∃ d : ℚ → ℚ, betDisc (roundBits b) (signal.map fun p => (p.1, XF.fin p.2)) step =
        .ok (signal.map fun p => (p.1, XF.fin (d p.2))) ∧
      (∀ x, -1 ≤ d x ∧ d x ≤ 1) ∧ (∀ x y, x ≤ y → d x ≤ d y) ∧ (∀ x, d (-x) = -d x) ∧
      (∀ x, -1 ≤ x → x ≤ 1 → |d x - x| ≤ step / 2 + 5 / 10000 + 12 / 2 ^ b) := by
  refine ⟨discR (roundBits b) step, ?_, fun x => abs_le.1 (discR_range _ _ _),
    fun x y e => discR_mono (fun _ _ e => roundBits_mono b hb e) h0 e, discR_neg (roundBits_neg b) step,
    fun x e1 e2 => discR_close hb h0 h1 (abs_le.2 ⟨e1, e2⟩)⟩
  unfold betDisc
  rw [if_pos ⟨h0, h1⟩, List.map_map]
  congr 1
  apply List.map_congr_left
  intro p _
  simp [betDisc1_fin _ h0]

/-- C108: averaging with rounding (times in whole milliseconds, no end before 1970, as in C40; fewer bets than consecutive
integers): the result has exactly the start and end times, in increasing order, and each value is within `(k + 1) / 2^b`
of the mean of the `k` active bets. -/
theorem C108_average {b : ℕ} (hb : 1 ≤ b) (bets : List (Spec.ABet ℚ)) (hlen : bets.length < 2 ^ b)
    (hsize : ∀ x ∈ bets, |x.size| ≤ 1) (hstart : ∀ x ∈ bets, (1000000 : ℤ) ∣ x.start)
    (hstop : ∀ x ∈ bets, ∀ e, x.stop = some e → (1000000 : ℤ) ∣ e ∧ 0 ≤ e) :
    let out := betAvg (roundBits b) (bets.map fun x => (⟨x.start, x.stop, .fin x.size⟩ : Bet.Bet ℚ))
    (out.map (·.1)).Pairwise (· < ·) ∧
    (∀ t, t ∈ out.map (·.1) ↔ ∃ x ∈ bets, t = x.start ∨ x.stop = some t) ∧
    ∀ p ∈ out, ∃ v : ℚ, p.2 = .fin v ∧ |v| ≤ 1 ∧
      |v - Spec.activeMean bets p.1| ≤ ((bets.countP fun x => decide (x.Active p.1)) + 1) / 2 ^ b := by
  intro out
  have hC := C40_average_active_partial bets hstart hstop
  have hfst : out.map (·.1) = (Bet.avgActiveSignals (bets.map fun x => (⟨x.start, x.stop, .fin x.size⟩ : Bet.Bet ℚ))).map (·.1) := by
    simp only [out, betAvg, Bet.avgActiveSignals, List.map_map]
    rfl
  refine ⟨by rw [hfst]; exact hC.1, fun t => by rw [hfst]; exact hC.2.1 t, ?_⟩
  intro p hp
  have hmem : p.1 ∈ out.map (·.1) := List.mem_map.2 ⟨p, hp, rfl⟩
  rw [hfst, hC.2.1] at hmem
  simp only [out, betAvg] at hp
  obtain ⟨t, _, rfl⟩ := List.mem_map.1 hp
  have htd : (1000000 : ℤ) ∣ t := by
    obtain ⟨x, hx, e | e⟩ := hmem
    · simp only at e; rw [e]; exact hstart x hx
    · exact (hstop x hx t e).1
  simp only
  unfold betAvgAt Spec.activeMean
  simp only
  rw [List.map_map, List.filter_map]
  have hcond : ∀ x ∈ bets, (((fun x : ℤ × ℤ × XF ℚ => decide (x.1 ≤ Lab.convertToTimestamp (some t)) &&
        (decide (Lab.convertToTimestamp (some t) < x.2.1) || decide (x.2.1 < 0))) ∘
        ((fun x : Bet.Bet ℚ => (Lab.convertToTimestamp (some x.start), Lab.convertToTimestamp x.stop, x.size)) ∘
        fun x : Spec.ABet ℚ => (⟨x.start, x.stop, .fin x.size⟩ : Bet.Bet ℚ))) x) = decide (x.Active t) := by
    intro x hx
    have h1 := hstart x hx
    have e1 : (x.start / 1000000 ≤ t / 1000000) ↔ x.start ≤ t := by omega
    cases hst : x.stop with
    | none =>
      have : Lab.natInt / 1000000 < 0 := by decide
      simp [Lab.convertToTimestamp, hst, Spec.ABet.Active, this, e1]
    | some e =>
      obtain ⟨h2, h3⟩ := hstop x hx e hst
      have e2 : (t / 1000000 < e / 1000000) ↔ t < e := by omega
      have e3 : ¬ (e / 1000000 < 0) := by omega
      simp [Lab.convertToTimestamp, hst, Spec.ABet.Active, e1, e2, e3]
  rw [List.filter_congr hcond, List.countP_eq_length_filter]
  have hsub : ∀ x ∈ bets.filter (fun x => decide (x.Active t)), |x.size| ≤ 1 := fun x hx => hsize x (List.mem_filter.1 hx).1
  have hle : (bets.filter (fun x => decide (x.Active t))).length ≤ bets.length := List.length_filter_le _ _
  generalize bets.filter (fun x => decide (x.Active t)) = A at hsub hle
  by_cases hA : A = []
  · rw [if_pos hA, hA]
    refine ⟨0, rfl, by norm_num, ?_⟩
    simp only [sub_zero, abs_zero]
    positivity
  · rw [if_neg hA, if_pos (by rw [List.length_map]; exact List.length_pos_iff.2 hA), List.map_map]
    have e : A.map ((fun x : ℤ × ℤ × XF ℚ => x.2.2) ∘
        ((fun x : Bet.Bet ℚ => (Lab.convertToTimestamp (some x.start), Lab.convertToTimestamp x.stop, x.size)) ∘
        fun x : Spec.ABet ℚ => (⟨x.start, x.stop, .fin x.size⟩ : Bet.Bet ℚ))) = (A.map (·.size)).map XF.fin := by
      rw [List.map_map]; rfl
    rw [e]
    obtain ⟨v, h1, h2, h3⟩ := betMean_close hb (A.map (·.size)) (by simpa using hsub) (by simpa using hA)
      (by rw [List.length_map]; omega)
    rw [List.length_map] at h3
    exact ⟨v, h1, h2, h3⟩

theorem rx_id (x : XF ℚ) : rx id x = x := by cases x <;> rfl

/-- C108: without rounding the averaging and the discretisation are the ones of C39 and C40. -/
theorem C108_exact (bets : List (Bet.Bet ℚ)) (signal : List (ℤ × XF ℚ)) (step : ℚ) :
    betAvg id bets = Bet.avgActiveSignals bets ∧ betDisc id signal step = Bet.discretiseSignal signal step := by
  constructor
  · unfold betAvg Bet.avgActiveSignals betAvgAt Bet.avgActiveAt betMean Bet.mean XF.sum
    simp only [rx_id]
  · unfold betDisc Bet.discretiseSignal betDisc1 Bet.discretise1 Bet.xround3
    simp only [rx_id]

/-- Library functions for the examples: a piecewise linear distribution function and `x + x * (1 - x)` for the root. -/
def demoFn : BetFn where
  cdf
    | .nan => .nan
    | .ninf => .fin 0
    | .pinf => .fin 1
    | .fin x => .fin (max 0 (min 1 (1 / 2 + x / 4)))
  root
    | .fin x => .fin (if x ≤ 0 then 0 else min 1 x)
    | _ => .nan

/-- The assumptions about the library functions can be met. -/
theorem demoFn_ok : BetFnOk demoFn where
  cdf_range x hx := by
    cases x with
    | nan => exact absurd rfl hx
    | ninf => exact ⟨0, rfl, by norm_num, by norm_num⟩
    | pinf => exact ⟨1, rfl, by norm_num, by norm_num⟩
    | fin x => exact ⟨_, rfl, le_max_left _ _, max_le (by norm_num) (min_le_left _ _)⟩
  root_pos x hx := ⟨min 1 x, by simp [demoFn, not_le.2 hx], lt_min (by norm_num) hx⟩
  root_zero := by simp [demoFn]

/-- A two-class transformer with metalabeling, averaging and discretisation in steps of one tenth, and a frame of three rows. -/
def demoBetCfg : BetCfg := ⟨2, true, true, true, some (1 / 10)⟩

/-- Three rows. -/
def demoBetFrame : BetFrame :=
  ⟨[0, 1000000, 2000000], [.fin (roundBits 53 (7 / 10)), .fin 1, .fin (1 / 2)], [.fin 1, .fin 1, .fin 0], [.fin 1, .fin (-1), .fin 1],
    [some 2000000, none, some 3000000]⟩

example : RBetInput 53 demoBetCfg demoBetFrame [roundBits 53 (7 / 10), 1, 1 / 2] [1, 1, 0] [1, -1, 1] where
  prob_eq := rfl
  pred_eq := rfl
  side_eq := rfl
  prob_len := rfl
  pred_len := rfl
  side_len := rfl
  end_len := rfl
  prob_range := by decide +kernel
  pred_range := by decide +kernel
  side_range := by decide +kernel
  classes := le_rfl
  constructed := by norm_num [betConstruct, demoBetCfg]
  rows := by decide +kernel

example : betTransform (roundBits 53) demoFn { demoBetCfg with averageActive := false } demoBetFrame =
    .ok [(0, .fin (roundBits 53 (5 / 10))), (1000000, .fin 1), (2000000, .fin 0)] := by decide +kernel

end Mizar.Props
