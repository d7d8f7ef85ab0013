import Mathlib.MeasureTheory.Measure.Lebesgue.Basic
import Verif.Model.BagRandom
import Verif.Props.BaggingWeights

/-!
Property theorems C98: the draws of the bagging classifier from a stateful generator
(`/repo/mizarlabs/model/sequentially_bootstrapped_bagging_classifier.py` lines 36-205,
`/repo/mizarlabs/model/bootstrapping.py` lines 139-195).
-/

namespace Mizar.Props
open Mizar.Spec Mizar.Bag Mizar.Boot

variable {K : Type} [Field K] [LinearOrder K] [IsStrictOrderedRing K]

theorem npCumsumFrom_fin (q : List K) (a : K) :
    npCumsumFrom (.fin a) (q.map .fin) = (List.range q.length).map fun i => .fin (a + (q.take (i + 1)).sum) := by
  induction q generalizing a with
  | nil => rfl
  | cons x q ih =>
    rw [List.map_cons, npCumsumFrom, XF.add_fin, ih, List.length_cons, List.range_succ_eq_map, List.map_cons, List.map_map]
    congr 1
    · simp
    · apply List.map_congr_left
      intro i _
      simp [add_assoc]

theorem take_sum_mono (q : List K) (h0 : ∀ x ∈ q, 0 ≤ x) {i j : ℕ} (hij : i ≤ j) : (q.take i).sum ≤ (q.take j).sum := by
  obtain ⟨d, rfl⟩ := Nat.exists_eq_add_of_le hij
  rw [List.take_add, List.sum_append]
  have : 0 ≤ ((q.drop i).take d).sum := List.sum_nonneg fun x hx => h0 x (List.mem_of_mem_drop (List.mem_of_mem_take hx))
  linarith

theorem choiceDraw_fin (q : List K) (hs : q.sum = 1) (u : K) :
    choiceDraw (q.map .fin) u = (List.range q.length).countP fun i => decide ((q.take (i + 1)).sum ≤ u) := by
  have hne : q ≠ [] := by rintro rfl; simp at hs
  obtain ⟨n, hn⟩ : ∃ n, q.length = n + 1 := ⟨q.length - 1, by have := List.length_pos_iff.2 hne; omega⟩
  unfold choiceDraw
  simp only [npCumsumFrom_fin, zero_add]
  have hl : ((List.range q.length).map fun i => (XF.fin (q.take (i + 1)).sum : XF K)).getLastD .nan = .fin 1 := by
    rw [hn, List.range_succ, List.map_append, List.map_singleton, List.getLastD_eq_getLast?, List.getLast?_concat, Option.getD_some,
      ← hn, List.take_length, hs]
  rw [hl, List.map_map, List.countP_map]
  apply List.countP_congr
  intro i _
  simp [Function.comp, XF.div, XF.le, XF.lt, XF.beq, le_iff_lt_or_eq]

theorem countP_range_eq {n j : ℕ} (hj : j ≤ n) (P : ℕ → Bool) (h1 : ∀ i < j, P i = true) (h2 : ∀ i, j ≤ i → i < n → P i = false) :
    (List.range n).countP P = j := by
  obtain ⟨d, rfl⟩ := Nat.exists_eq_add_of_le hj
  rw [List.range_add, List.countP_append]
  have e1 : (List.range j).countP P = j := by
    have : (List.range j).countP P = (List.range j).length := List.countP_eq_length.2 fun i hi => h1 i (List.mem_range.1 hi)
    simpa using this
  have e2 : ((List.range d).map (j + ·)).countP P = 0 := by
    rw [List.countP_eq_zero]
    intro i hi
    obtain ⟨a, ha, rfl⟩ := List.mem_map.1 hi
    have := List.mem_range.1 ha
    simp [h2 (j + a) (by omega) (by omega)]
  rw [e1, e2, Nat.add_zero]

/-- The draw is the sample whose interval of the distribution function contains the uniform number. -/
theorem C98_choice (q : List K) (h0 : ∀ x ∈ q, 0 ≤ x) (hs : q.sum = 1) (u : K) (hu : 0 ≤ u) (hu1 : u < 1) :
    choiceDraw (q.map .fin) u < q.length ∧ 0 < q.getD (choiceDraw (q.map .fin) u) 0 ∧
    ∀ j < q.length, choiceDraw (q.map .fin) u = j ↔ (q.take j).sum ≤ u ∧ u < (q.take (j + 1)).sum := by
  have key : ∀ j < q.length, (q.take j).sum ≤ u → u < (q.take (j + 1)).sum → choiceDraw (q.map .fin) u = j := by
    intro j hj h1 h2
    rw [choiceDraw_fin q hs]
    apply countP_range_eq (by omega)
    · intro i hi
      rw [decide_eq_true_iff]
      exact (take_sum_mono q h0 (by omega)).trans h1
    · intro i hi _
      rw [decide_eq_false_iff_not, not_le]
      exact lt_of_lt_of_le h2 (take_sum_mono q h0 (by omega))
  have hex : ∃ j, u < (q.take (j + 1)).sum := by
    refine ⟨q.length, ?_⟩
    rw [List.take_of_length_le (by omega), hs]
    exact hu1
  have hfind : ∃ j < q.length, (q.take j).sum ≤ u ∧ u < (q.take (j + 1)).sum := by
    refine ⟨Nat.find hex, ?_, ?_, Nat.find_spec hex⟩
    · have hpos : 0 < q.length := List.length_pos_iff.2 (by rintro rfl; simp at hs)
      have : Nat.find hex ≤ q.length - 1 := by
        apply Nat.find_min'
        rw [show q.length - 1 + 1 = q.length by omega, List.take_length, hs]
        exact hu1
      omega
    · cases hc : Nat.find hex with
      | zero => simpa using hu
      | succ m =>
        have := Nat.find_min hex (m := m) (by omega)
        exact not_lt.1 this
  obtain ⟨j, hj, h1, h2⟩ := hfind
  have hd := key j hj h1 h2
  refine ⟨hd ▸ hj, ?_, ?_⟩
  · rw [hd, List.getD_eq_getElem?_getD, List.getElem?_eq_getElem hj, Option.getD_some]
    rw [List.take_add_one, List.sum_append, List.getElem?_eq_getElem hj] at h2
    simp only [Option.toList_some, List.sum_singleton] at h2
    linarith
  · intro i hi
    constructor
    · intro h
      rw [hd] at h
      subst h
      exact ⟨h1, h2⟩
    · rintro ⟨a, b⟩
      exact key i hi a b

example : (∀ x ∈ [(1/4 : ℚ), 1/2, 1/4], 0 ≤ x) ∧ [(1/4 : ℚ), 1/2, 1/4].sum = 1 ∧
    choiceDraw [.fin (1/4 : ℚ), .fin (1/2), .fin (1/4)] (1/4) = 1 ∧ choiceDraw [.fin (1/4 : ℚ), .fin (1/2), .fin (1/4)] (9/10) = 2 := by
  decide +kernel

/-- Without the assumption that the probabilities add up to 1, which rounding spoils: the draw is the one from the probabilities
divided by their sum. -/
theorem C98_normalised (q : List K) (hs : 0 < q.sum) (u : K) :
    choiceDraw (q.map .fin) u = choiceDraw ((q.map (· / q.sum)).map .fin) u := by
  have hne : q ≠ [] := by rintro rfl; simp at hs
  obtain ⟨n, hn⟩ : ∃ n, q.length = n + 1 := ⟨q.length - 1, by have := List.length_pos_iff.2 hne; omega⟩
  have hdiv : ∀ l : List K, (l.map (· / q.sum)).sum = l.sum / q.sum := by
    intro l
    induction l with
    | nil => simp
    | cons a l ih => rw [List.map_cons, List.sum_cons, List.sum_cons, ih, add_div]
  rw [choiceDraw_fin (q.map (· / q.sum)) (by rw [hdiv, div_self hs.ne'])]
  unfold choiceDraw
  simp only [npCumsumFrom_fin, zero_add]
  have hl : ((List.range q.length).map fun i => (XF.fin (q.take (i + 1)).sum : XF K)).getLastD .nan = .fin q.sum := by
    rw [hn, List.range_succ, List.map_append, List.map_singleton, List.getLastD_eq_getLast?, List.getLast?_concat, Option.getD_some,
      ← hn, List.take_length]
  rw [hl, List.map_map, List.countP_map, List.length_map]
  apply List.countP_congr
  intro i _
  rw [← List.map_take, hdiv]
  simp [Function.comp, XF.div, XF.le, XF.lt, XF.beq, le_iff_lt_or_eq, hs.ne']

example : choiceDraw [.fin (1/4 : ℚ), .fin (1/4)] (1/2) = 1 ∧ choiceDraw [.fin (1/4 : ℚ), .fin (1/4)] (1/4) = 0 := by decide +kernel

/-- A uniform number selects sample `j` with probability `q j`: the numbers that select it have measure `q j`. -/
theorem C98_probability (q : List ℝ) (h0 : ∀ x ∈ q, 0 ≤ x) (hs : q.sum = 1) (j : ℕ) (hj : j < q.length) :
    MeasureTheory.volume {u : ℝ | (0 ≤ u ∧ u < 1) ∧ choiceDraw (q.map .fin) u = j} = ENNReal.ofReal (q.getD j 0) := by
  have hset : {u : ℝ | (0 ≤ u ∧ u < 1) ∧ choiceDraw (q.map .fin) u = j} = Set.Ico (q.take j).sum (q.take (j + 1)).sum := by
    ext u
    simp only [Set.mem_setOf_eq, Set.mem_Ico]
    constructor
    · rintro ⟨⟨a, b⟩, h⟩
      exact ((C98_choice q h0 hs u a b).2.2 j hj).1 h
    · rintro ⟨a, b⟩
      have a' : 0 ≤ u := by
        have := take_sum_mono q h0 (Nat.zero_le j)
        simp only [List.take_zero, List.sum_nil] at this
        linarith
      have b' : u < 1 := by
        have := take_sum_mono q h0 (show j + 1 ≤ q.length by omega)
        rw [List.take_length, hs] at this
        linarith
      exact ⟨⟨a', b'⟩, ((C98_choice q h0 hs u a' b').2.2 j hj).2 ⟨a, b⟩⟩
  rw [hset, Real.volume_Ico]
  congr 1
  rw [List.take_add_one, List.sum_append, List.getElem?_eq_getElem hj, List.getD_eq_getElem?_getD, List.getElem?_eq_getElem hj]
  simp

/-- The state after `n` uniform numbers. -/
def Gen.after {S : Type} (G : Gen S) : ℕ → S → S
  | 0, s => s
  | n + 1, s => Gen.after G n (G.double s).2

/-- The `n`-th uniform number from the state on. -/
def Gen.uniform {S : Type} (G : Gen S) (s : S) (n : ℕ) : ℚ := (G.double (Gen.after G n s)).1

theorem after_add {S : Type} (G : Gen S) (m n : ℕ) (s : S) : Gen.after G (m + n) s = Gen.after G n (Gen.after G m s) := by
  induction m generalizing s with
  | zero => rw [Nat.zero_add]; rfl
  | succ m ih => rw [Nat.succ_add]; exact ih _

theorem doubles_eq {S : Type} (G : Gen S) (m : ℕ) (s : S) :
    G.doubles m s = ((List.range m).map (Gen.uniform G s), Gen.after G m s) := by
  induction m generalizing s with
  | zero => rfl
  | succ m ih =>
    rw [Gen.doubles, ih]
    refine Prod.ext ?_ rfl
    simp only
    rw [List.range_succ_eq_map, List.map_cons, List.map_map]
    rfl

/-- What a valid generator gives: uniform numbers in `[0, 1)`, `randint` as many numbers as wanted in the range,
`sample_without_replacement` as many different numbers as wanted in the range. -/
structure ValidGen {S : Type} (G : Gen S) : Prop where
  double : ∀ s, 0 ≤ (G.double s).1 ∧ (G.double s).1 < 1
  randint : ∀ n m s, 0 < n → (G.randint n m s).1.length = m ∧ ∀ x ∈ (G.randint n m s).1, x < n
  sample : ∀ n m s, m ≤ n → (G.sampleWithout n m s).1.length = m ∧ (G.sampleWithout n m s).1.Nodup ∧ ∀ x ∈ (G.sampleWithout n m s).1, x < n

/-- The draws of batch `i` as a function of the probabilities and the batch size: the uniform numbers from place `i * k` on. -/
def oracle {S : Type} (G : Gen S) (nCols : ℕ) (k : ℤ) (s : S) (i : ℕ) (p : List (XF ℚ)) (m : ℕ) : List ℕ :=
  if choiceValid p = true ∧ p.length = nCols then (List.range m).map fun n => choiceDraw p (Gen.uniform G s (i * k.toNat + n))
  else List.replicate m 0

theorem choiceValid_fin {p : List (XF ℚ)} (h : choiceValid p = true) : ∃ q : List ℚ, p = q.map .fin ∧ (∀ x ∈ q, 0 ≤ x) ∧ q.sum = 1 := by
  unfold choiceValid at h
  simp only [Bool.and_eq_true, decide_eq_true_eq, List.all_eq_true] at h
  obtain ⟨⟨_, h2⟩, h3⟩ := h
  have hsum : ∀ (l : List ℚ) (a : ℚ), (l.map XF.fin).foldl XF.add (.fin a) = .fin (a + l.sum) := by
    intro l
    induction l with
    | nil => intro a; simp
    | cons x l ih => intro a; simp [ih, add_assoc]
  have hinf : ∀ (l : List (XF ℚ)) , (∀ x ∈ l, XF.le (.fin 0) x = true) → ∀ a : XF ℚ, (a = .pinf ∨ ∃ y, a = .fin y) →
      (XF.beq (l.foldl XF.add a) (.fin 1) = true) → ∃ q : List ℚ, l = q.map .fin ∧ ∀ x ∈ q, 0 ≤ x := by
    intro l
    induction l with
    | nil => intro _ _ _ _; exact ⟨[], rfl, by simp⟩
    | cons x l ih =>
      intro hl a ha hb
      have hx := hl x List.mem_cons_self
      rw [List.foldl_cons] at hb
      have hinf' : ∀ (l : List (XF ℚ)), (∀ x ∈ l, XF.le (.fin 0) x = true) → l.foldl XF.add (.pinf : XF ℚ) = .pinf := by
        intro l
        induction l with
        | nil => intro _; rfl
        | cons y l ih2 =>
          intro hl
          rw [List.foldl_cons]
          have hy := hl y List.mem_cons_self
          have : XF.add (.pinf : XF ℚ) y = .pinf := by
            cases y <;> simp_all [XF.le, XF.lt, XF.beq, XF.add]
          rw [this]
          exact ih2 fun z hz => hl z (List.mem_cons_of_mem _ hz)
      have htail : ∀ z ∈ l, XF.le (.fin 0) z = true := fun z hz => hl z (List.mem_cons_of_mem _ hz)
      cases x with
      | nan => simp [XF.le, XF.lt, XF.beq] at hx
      | ninf => simp [XF.le, XF.lt, XF.beq] at hx
      | pinf =>
        have : XF.add a (.pinf : XF ℚ) = .pinf := by rcases ha with rfl | ⟨y, rfl⟩ <;> rfl
        rw [this, hinf' l htail] at hb
        simp [XF.beq] at hb
      | fin y =>
        have ha' : XF.add a (.fin y) = .pinf ∨ ∃ z, XF.add a (.fin y) = .fin z := by
          rcases ha with rfl | ⟨z, rfl⟩
          · exact Or.inl rfl
          · exact Or.inr ⟨_, rfl⟩
        obtain ⟨q, rfl, hq⟩ := ih htail _ ha' hb
        refine ⟨y :: q, rfl, ?_⟩
        intro z hz
        rcases List.mem_cons.1 hz with rfl | hz
        · simpa [XF.le, XF.lt, XF.beq, le_iff_lt_or_eq] using hx
        · exact hq z hz
  obtain ⟨q, rfl, hq⟩ := hinf p h2 (.fin 0) (Or.inr ⟨0, rfl⟩) h3
  refine ⟨q, rfl, hq, ?_⟩
  rw [XF.sum, hsum] at h3
  simpa [XF.beq] using h3

theorem oracle_valid {S : Type} (G : Gen S) (hG : ValidGen G) (nCols : ℕ) (h : 0 < nCols) (k : ℤ) (s : S) :
    ValidRng nCols (oracle G nCols k s) := by
  intro i p m
  unfold oracle
  split
  case isTrue hp =>
    refine ⟨by simp, ?_⟩
    intro x hx
    obtain ⟨n, _, rfl⟩ := List.mem_map.1 hx
    obtain ⟨q, rfl, h0, h1⟩ := choiceValid_fin hp.1
    have := (C98_choice q h0 h1 (Gen.uniform G s (i * k.toNat + n)) (hG.double _).1 (hG.double _).2).1
    rw [← hp.2]
    simpa using this
  case isFalse hp =>
    refine ⟨by simp, ?_⟩
    intro x hx
    rw [(List.mem_replicate.1 hx).2]
    exact h

theorem refresh_prob_length (M : IndMat) (b : BState) (h : b.prob.length = M.nCols) : (refresh M b).prob.length = M.nCols := by
  unfold refresh
  split
  · simp [probOf]
  · exact h

theorem bootLoopS_eq {S : Type} (M : IndMat) (G : Gen S) (len k : ℤ) (hk : 1 ≤ k) (s₀ : S) :
    ∀ (fuel i : ℕ) (b : BState), b.prob.length = M.nCols → (fuel = 0 ∨ ((i : ℤ) + fuel - 1) * k < len) →
      bootLoopS M G len k fuel i b (Gen.after G (i * k.toNat) s₀) = bootLoop M (oracle G M.nCols k s₀) len k fuel i b := by
  intro fuel
  induction fuel with
  | zero => intro i b _ _; rfl
  | succ fuel ih =>
    intro i b hb hlen
    rw [bootLoopS, bootLoop]
    simp only [doubles_eq]
    have hp := refresh_prob_length M b hb
    split
    case isFalse => rfl
    case isTrue hv =>
      have hc : ((List.range (min (len - i * k) k).toNat).map (Gen.uniform G (Gen.after G (i * k.toNat) s₀))).map (choiceDraw (refresh M b).prob) =
          oracle G M.nCols k s₀ i (refresh M b).prob (min (len - i * k) k).toNat := by
        unfold oracle
        rw [if_pos ⟨hv, hp⟩, List.map_map]
        apply List.map_congr_left
        intro n _
        simp only [Function.comp, Gen.uniform, after_add]
      rw [hc, ← after_add]
      rcases Nat.eq_zero_or_pos fuel with rfl | hf
      · rfl
      · have hl : ((i : ℤ) + (fuel : ℤ)) * k < len := by
          rcases hlen with h | h
          · omega
          · push_cast at h; convert h using 2; ring
        have h1 : ((i : ℤ) + 1) * k ≤ ((i : ℤ) + (fuel : ℤ)) * k := by
          apply mul_le_mul_of_nonneg_right _ (by omega)
          omega
        have hmin : (min (len - i * k) k) = k := by
          apply min_eq_right
          nlinarith
        have hst : i * k.toNat + (min (len - i * k) k).toNat = (i + 1) * k.toNat := by rw [hmin]; ring
        rw [hst]
        rw [ih (i + 1) _ (by simpa using hp) (Or.inr (by push_cast; convert hl using 2; ring))]
        rfl

/-- The sequential bootstrap on a stateful generator is the sequential bootstrap with the draws of `oracle`, which are
valid: all theorems about `seq_bootstrap` hold for it. -/
theorem C98_generator {S : Type} (M : IndMat) (G : Gen S) (len : Option ℤ) (k : ℤ) (hk : 1 ≤ k) (s : S) :
    seqBootstrapTraceS M G len k s = seqBootstrapTrace M (oracle G M.nCols k s) len k := by
  unfold seqBootstrapTraceS seqBootstrapTrace
  simp only
  rw [if_neg (by omega), if_neg (by omega), if_neg (by omega), if_neg (by omega)]
  have := bootLoopS_eq M G (len.getD M.nCols) k hk s (⌈((len.getD M.nCols : ℤ) : ℚ) / (k : ℚ)⌉).toNat 0 (initState M)
    (by simp [initState, probOf]) ?_
  · rw [Nat.zero_mul] at this
    exact this
  · rcases Nat.eq_zero_or_pos (⌈((len.getD M.nCols : ℤ) : ℚ) / (k : ℚ)⌉).toNat with h | h
    · exact Or.inl h
    · right
      have hkq : (0 : ℚ) < (k : ℚ) := by exact_mod_cast (by omega : (0 : ℤ) < k)
      have hlt : ((⌈((len.getD M.nCols : ℤ) : ℚ) / (k : ℚ)⌉ : ℤ) : ℚ) < ((len.getD M.nCols : ℤ) : ℚ) / (k : ℚ) + 1 := Int.ceil_lt_add_one _
      have h2 : (((⌈((len.getD M.nCols : ℤ) : ℚ) / (k : ℚ)⌉ : ℤ) : ℚ) - 1) * k < ((len.getD M.nCols : ℤ) : ℚ) := by
        rw [← lt_div_iff₀ hkq]
        linarith
      rw [Nat.cast_zero, zero_add, Int.toNat_of_nonneg (by omega)]
      exact_mod_cast h2

/-- The probabilities and draws of a run of the sequential bootstrap: it returns; the uniform numbers that select sample `j` in
batch `n` have measure average uniqueness of `j` given the samples drawn before, over the sum for all samples; the draws of
the batch are selected by the numbers of the generator that come next. -/
theorem C98_run {S : Type} (M : IndMat) (hM : 0 < M.nCols) (G : Gen S) (hG : ValidGen G) (len : Option ℤ) (k : ℤ) (hk : 1 ≤ k) (s : S) :
    ∃ tr, seqBootstrapTraceS M G len k s = .ok tr ∧
      ((tr.map (·.2)).flatten.length = (len.getD (M.nCols : ℤ)).toNat ∧ ∀ x ∈ (tr.map (·.2)).flatten, x < M.nCols) ∧
      ∀ n (hn : n < tr.length), ∃ q : List ℚ, tr[n].1 = q.map .fin ∧ q.length = M.nCols ∧
        (∀ m (hm : m < tr[n].2.length), tr[n].2[m] = choiceDraw (q.map .fin) (Gen.uniform G s (n * k.toNat + m)) ∧
          0 < q.getD tr[n].2[m] 0) ∧
        ∀ j < M.nCols, MeasureTheory.volume {u : ℝ | (0 ≤ u ∧ u < 1) ∧ choiceDraw (q.map fun x : ℚ => XF.fin (x : ℝ)) u = j} =
          ENNReal.ofReal ((seqUniq M ((tr.take n).map (·.2)).flatten j /
            ∑ i ∈ Finset.range M.nCols, seqUniq M ((tr.take n).map (·.2)).flatten i : ℚ) : ℝ) := by
  have hv := oracle_valid G hG M.nCols hM k s
  obtain ⟨l, h1, h2, h3⟩ := C16_length_and_range M hM (oracle G M.nCols k s) hv len k hk
  obtain ⟨tr, htr, hq⟩ := C17_positive_distribution M (oracle G M.nCols k s) len k hM (by omega) (Or.inl (by omega))
  have hl : (tr.map (·.2)).flatten = l := by
    unfold seqBootstrap at h1
    rw [htr] at h1
    exact Except.ok.inj h1
  refine ⟨tr, by rw [C98_generator M G len k hk s, htr], by rw [hl]; exact ⟨h2, h3⟩, ?_⟩
  intro n hn
  obtain ⟨q, e1, e2, e3, e4⟩ := hq tr[n] (List.getElem_mem hn)
  have h0 : ∀ x ∈ q, 0 ≤ x := fun x hx => (e3 x hx).le
  obtain ⟨hlen, hpr⟩ := C15_incremental_equals_recomputed M _ len k tr htr n hn
  refine ⟨q, e1, e2, ?_, ?_⟩
  · have hdraw : tr[n].2 = oracle G M.nCols k s n tr[n].1 (min (len.getD M.nCols - n * k) k).toNat := by
      unfold seqBootstrapTrace at htr
      simp only at htr
      rw [if_neg (by omega), if_neg (by omega)] at htr
      obtain ⟨tr', f1, f2, f3⟩ := (bootLoop_spec M (oracle G M.nCols k s) (len.getD M.nCols) k
        (⌈((len.getD M.nCols : ℤ) : ℚ) / (k : ℚ)⌉).toNat 0 [] [] (initState M) (inv_init M)).2 (Or.inl hM)
      rw [htr] at f1
      cases f1
      have := (f3 n hn).2
      rw [Nat.zero_add] at this
      exact this
    intro m hm
    have hvq : choiceValid tr[n].1 = true := by
      rw [e1]
      unfold choiceValid
      have hne : q ≠ [] := by rintro rfl; simp at e4
      have hsum : ∀ (l : List ℚ) (a : ℚ), (l.map XF.fin).foldl XF.add (.fin a) = .fin (a + l.sum) := by
        intro l
        induction l with
        | nil => intro a; simp
        | cons x l ih => intro a; simp [ih, add_assoc]
      simp only [Bool.and_eq_true, decide_eq_true_eq, List.all_eq_true]
      refine ⟨⟨by simpa using hne, ?_⟩, ?_⟩
      · intro x hx
        obtain ⟨y, hy, rfl⟩ := List.mem_map.1 hx
        simpa [XF.le, XF.lt, XF.beq, le_iff_lt_or_eq] using h0 y hy
      · rw [XF.sum, hsum, e4]; simp [XF.beq]
    have he : tr[n].2[m] = choiceDraw (q.map .fin) (Gen.uniform G s (n * k.toNat + m)) := by
      have hd' := hdraw
      unfold oracle at hd'
      rw [if_pos ⟨hvq, hlen⟩] at hd'
      have h5 : tr[n].2[m]? = some (choiceDraw tr[n].1 (Gen.uniform G s (n * k.toNat + m))) := by
        rw [hd', List.getElem?_map, List.getElem?_range (by rw [hd'] at hm; simpa using hm)]
        rfl
      rw [List.getElem?_eq_getElem hm] at h5
      rw [Option.some.inj h5, e1]
    refine ⟨he, ?_⟩
    rw [he]
    exact (C98_choice q h0 e4 _ (hG.double _).1 (hG.double _).2).2.1
  · intro j hj
    have hs' : (q.map fun x : ℚ => (x : ℝ)).sum = 1 := by
      have := congrArg (fun x : ℚ => (x : ℝ)) e4
      simpa [← Rat.cast_list_sum] using this
    have := C98_probability (q.map fun x : ℚ => (x : ℝ)) (by
      intro x hx
      obtain ⟨y, hy, rfl⟩ := List.mem_map.1 hx
      exact_mod_cast h0 y hy) hs' j (by simpa [e2] using hj)
    rw [List.map_map] at this
    refine Eq.trans this ?_
    congr 1
    have hj' : j < q.length := by omega
    have h6 := hpr j hj
    rw [e1, List.getElem?_map, List.getElem?_eq_getElem hj'] at h6
    simp only [Option.map_some, Option.some.injEq, XF.fin.injEq] at h6
    rw [List.getD_eq_getElem?_getD, List.getElem?_map, List.getElem?_eq_getElem hj', ← h6]
    rfl

/-- The functions of `Bag.Base` that the stateful generator gives in a fit with `n` features, `maxF` of them drawn, `nCols`
samples and batch size `k`. -/
def asBase {S Est : Type} (b : BaseS S Est) (n maxF nCols : ℕ) (k : ℤ) : Base Est where
  supportsWeight := b.supportsWeight
  featDraw := fun seed _ _ => if b.bootstrapFeatures then (b.gen.randint n maxF (b.gen.afterMake (b.gen.seed seed))).1
    else (b.gen.sampleWithout n maxF (b.gen.afterMake (b.gen.seed seed))).1
  rng := fun seed => oracle b.gen nCols k (if b.bootstrapFeatures then (b.gen.randint n maxF (b.gen.afterMake (b.gen.seed seed))).2
    else (b.gen.sampleWithout n maxF (b.gen.afterMake (b.gen.seed seed))).2)
  fitEst := fun seed => b.fitEst (b.gen.seed seed)

/-- Building one estimator with the stateful generator is building one estimator in the model of `fit`, with draws that meet
what the theorems about `fit` assume. -/
theorem C98_build {S Est : Type} (b : BaseS S Est) (hG : ValidGen b.gen) (d : Data) (sub : IndMat) (hM : 0 < sub.nCols) (maxF maxS : ℕ)
    (hF : 1 ≤ maxF ∧ maxF ≤ d.nFeatures) (k : ℤ) (hk : 1 ≤ k) :
    buildOneS b d sub maxF maxS k = buildOne (asBase b d.nFeatures maxF sub.nCols k) d sub maxF maxS k ∧
    ∀ seed, ValidRng sub.nCols ((asBase b d.nFeatures maxF sub.nCols k).rng seed) := by
  refine ⟨?_, fun seed => oracle_valid b.gen hG sub.nCols hM k _⟩
  funext seed
  unfold buildOneS buildOne generateBaggingIndices generateRandomFeatures seqBootstrap
  have hn0 : ¬ d.nFeatures = 0 := by omega
  have hn1 : ¬ d.nFeatures < maxF := by omega
  simp only [asBase, if_neg hn0, if_neg hn1]
  cases b.bootstrapFeatures
  · simp only [Bool.false_eq_true, if_false]
    rw [C98_generator _ _ _ _ hk]
    cases seqBootstrapTrace sub (oracle b.gen sub.nCols k (b.gen.sampleWithout d.nFeatures maxF (b.gen.afterMake (b.gen.seed seed))).2)
      (some maxS) k <;> rfl
  · simp only [if_true]
    rw [C98_generator _ _ _ _ hk]
    cases seqBootstrapTrace sub (oracle b.gen sub.nCols k (b.gen.randint d.nFeatures maxF (b.gen.afterMake (b.gen.seed seed))).2)
      (some maxS) k <;> rfl

/-- The features of every estimator: `maxF` columns of the frame, all different unless features are bootstrapped; the samples:
`maxS` columns of the matrix. -/
theorem C98_features {S Est : Type} (b : BaseS S Est) (hG : ValidGen b.gen) (d : Data) (sub : IndMat) (hM : 0 < sub.nCols) (maxF maxS : ℕ)
    (hF : 1 ≤ maxF ∧ maxF ≤ d.nFeatures) (k : ℤ) (hk : 1 ≤ k) (seed : ℕ) {e : Est} {feats idx : List ℕ}
    (h : buildOneS b d sub maxF maxS k seed = .ok (e, feats, idx)) :
    feats.length = maxF ∧ (∀ x ∈ feats, x < d.nFeatures) ∧ (b.bootstrapFeatures = false → feats.Nodup) ∧
    idx.length = maxS ∧ ∀ x ∈ idx, x < sub.nCols := by
  unfold buildOneS at h
  simp only at h
  cases hg : generateBaggingIndices b.gen b.bootstrapFeatures d.nFeatures maxF maxS sub k (b.gen.afterMake (b.gen.seed seed)) with
  | error e => rw [hg] at h; cases h
  | ok r =>
    rw [hg] at h
    obtain ⟨f, i⟩ := r
    have hr : feats = f ∧ idx = i := by
      dsimp only at h
      split at h
      · split at h
        · cases h; exact ⟨rfl, rfl⟩
        · cases h
      · cases h; exact ⟨rfl, rfl⟩
    obtain ⟨rfl, rfl⟩ := hr
    unfold generateBaggingIndices at hg
    cases hf : generateRandomFeatures b.gen b.bootstrapFeatures d.nFeatures maxF (b.gen.afterMake (b.gen.seed seed)) with
    | error e => rw [hf] at hg; cases hg
    | ok p =>
      rw [hf] at hg
      obtain ⟨f, s'⟩ := p
      dsimp only at hg
      obtain ⟨tr, h1, ⟨h2, h3⟩, _⟩ := C98_run sub hM b.gen hG (some (maxS : ℤ)) k hk s'
      rw [h1] at hg
      cases hg
      have hfe : feats.length = maxF ∧ (∀ x ∈ feats, x < d.nFeatures) ∧ (b.bootstrapFeatures = false → feats.Nodup) := by
        unfold generateRandomFeatures at hf
        have hn0 : ¬ d.nFeatures = 0 := by omega
        have hn1 : ¬ d.nFeatures < maxF := by omega
        rw [if_neg hn0, if_neg hn1] at hf
        cases hb : b.bootstrapFeatures with
        | true =>
          rw [hb, if_pos rfl] at hf
          have := hG.randint d.nFeatures maxF (b.gen.afterMake (b.gen.seed seed)) (by omega)
          rw [Except.ok.inj hf] at this
          exact ⟨this.1, this.2, fun h => by cases h⟩
        | false =>
          rw [hb, if_neg (by simp)] at hf
          have := hG.sample d.nFeatures maxF (b.gen.afterMake (b.gen.seed seed)) hF.2
          rw [Except.ok.inj hf] at this
          exact ⟨this.1, this.2.2, fun _ => this.2.1⟩
      exact ⟨hfe.1, hfe.2.1, hfe.2.2, by simpa using h2, h3⟩

/-- Every estimator of a cold fit is built from its own generator, with the numbers of features and samples asked for. -/
theorem C98_fit {S Est : Type} (b : BaseS S Est) (hG : ValidGen b.gen) (stream : ℕ → ℕ) (c : Cfg) (d : Data) (s s' : Fitted Est)
    (hj : 1 ≤ c.nJobs) (hw : c.warmStart = false) (hk : 1 ≤ c.updateEvery) (maxF : ℤ) (hF : resolveMaxFeatures c.maxFeatures d.nFeatures = .ok maxF)
    (h : fit (asBase b d.nFeatures maxF.toNat (subsampleCols d.infoIndex d.xIndex).length c.updateEvery) stream c d s = (.ok (), s')) :
    ∃ maxS : ℤ, resolveMaxSamples c.maxSamples d.xIndex.length = .ok maxS ∧
      ∀ i < c.nEstimators.toNat, ∃ e feats idx, (s'.estimators.getD [])[i]? = some e ∧ s'.features[i]? = some feats ∧ s'.samples[i]? = some idx ∧
        buildOneS b d (selectCols d.mat (subsampleCols d.infoIndex d.xIndex)) maxF.toNat maxS.toNat c.updateEvery (stream i) = .ok (e, feats, idx) ∧
        (feats.length : ℤ) = maxF ∧ (∀ x ∈ feats, x < d.nFeatures) ∧ (b.bootstrapFeatures = false → feats.Nodup) ∧
        (idx.length : ℤ) = maxS ∧ ∀ x ∈ idx, x < (subsampleCols d.infoIndex d.xIndex).length := by
  rw [fit_eq _ stream c d s hj] at h
  unfold pre at h
  by_cases h1 : ¬ ∀ x ∈ d.xIndex, x ∈ d.infoIndex
  · rw [if_pos h1] at h; cases h
  rw [if_neg h1] at h
  by_cases h2 : d.weights.any (fun w => decide (w.length ≠ d.xIndex.length)) = true
  · rw [if_pos h2] at h; cases h
  rw [if_neg h2] at h
  by_cases h3 : c.nEstimators ≤ 0
  · rw [if_pos h3] at h; cases h
  rw [if_neg h3, hF] at h
  cases hS : resolveMaxSamples c.maxSamples d.xIndex.length with
  | error e => rw [hS] at h; cases h
  | ok maxS =>
    refine ⟨maxS, rfl, ?_⟩
    rw [hS] at h
    have hx : d.xIndex ≠ [] := by
      intro hx
      rw [hx] at hS
      unfold resolveMaxSamples at hS
      simp only at hS
      split at hS
      · split at hS
        · rename_i hh; simp at hh; omega
        · cases hS
      · split at hS
        · cases hS
        · cases hS
        · cases hS
        · split at hS
          · rename_i hh; simp at hh; omega
          · cases hS
    have hmS := (C24_max_samples_partial d.xIndex.length (List.length_pos_iff.2 hx)).1 _ _ hS
    have hmF : 1 ≤ maxF ∧ maxF ≤ d.nFeatures := by
      rcases (C24_max_features d.nFeatures).1 c.maxFeatures with h' | ⟨m, h', h''⟩
      · rw [h'] at hF; cases hF
      · rw [h'] at hF; cases hF; exact h''
    have hcols : 0 < (selectCols d.mat (subsampleCols d.infoIndex d.xIndex)).nCols := by
      change 0 < (subsampleCols d.infoIndex d.xIndex).length
      obtain ⟨x, xs, hxs⟩ := List.exists_cons_of_ne_nil hx
      have hin := not_not.1 h1 x (by rw [hxs]; simp)
      obtain ⟨i, hi, he⟩ := List.getElem_of_mem hin
      apply List.length_pos_of_mem (a := i)
      unfold subsampleCols
      refine List.mem_flatMap.2 ⟨x, by rw [hxs]; simp, List.mem_filter.2 ⟨List.mem_range.2 hi, ?_⟩⟩
      simp [List.getElem?_eq_getElem hi, he]
    simp only [hw, Bool.false_and, Bool.false_eq_true, if_false] at h
    have hst : startState c s = ⟨some [], [], []⟩ := by simp [startState, hw]
    rw [hst] at h
    unfold core at h
    simp only [Option.getD_some, List.length_nil, Nat.cast_zero, List.nil_append, Nat.sub_zero, Nat.zero_add] at h
    rw [if_neg (by omega), if_neg (by omega)] at h
    obtain ⟨hb, -⟩ := C98_build b hG d (selectCols d.mat (subsampleCols d.infoIndex d.xIndex)) hcols maxF.toNat maxS.toNat (by omega) c.updateEvery hk
    cases hr : buildAll (asBase b d.nFeatures maxF.toNat (subsampleCols d.infoIndex d.xIndex).length c.updateEvery) d c.updateEvery (maxS, maxF)
        ((List.range c.nEstimators.toNat).map fun i => stream i) with
    | error e => rw [hr] at h; cases h
    | ok r =>
      rw [hr] at h
      cases h
      unfold buildAll at hr
      split at hr
      · cases hr
      · dsimp only at hr
        change mapE (buildOne (asBase b d.nFeatures maxF.toNat (selectCols d.mat (subsampleCols d.infoIndex d.xIndex)).nCols c.updateEvery) d _ _ _ _) _ = _ at hr
        rw [← hb] at hr
        intro i hi
        obtain ⟨hir, hbi⟩ := mapE_getElem hr i (by simpa using hi)
        simp only [List.getElem_map, List.getElem_range] at hbi
        refine ⟨r[i].1, r[i].2.1, r[i].2.2, ?_, ?_, ?_, hbi, ?_⟩
        · simp [List.getElem?_eq_getElem hir]
        · simp [List.getElem?_eq_getElem hir]
        · simp [List.getElem?_eq_getElem hir]
        · obtain ⟨g1, g2, g3, g4, g5⟩ := C98_features b hG d _ hcols maxF.toNat maxS.toNat (by omega) c.updateEvery hk (stream i) hbi
          change r[i].2.1.length = _ at g1
          change r[i].2.2.length = _ at g4
          refine ⟨by rw [g1]; exact Int.toNat_of_nonneg (by omega), g2, g3, by rw [g4]; exact Int.toNat_of_nonneg (by omega), g5⟩

/-- A generator for the examples: a counter; uniform numbers `(s mod 8) / 8`. -/
def demoGen : Gen ℕ where
  seed := id
  afterMake := (· + 1)
  randint := fun n m s => ((List.range m).map fun i => (s + i) % n, s + m)
  sampleWithout := fun n m s => (((List.range n).map fun i => (s + i) % n).take m, s + m)
  double := fun s => ((((s * 3) % 8 : ℕ) : ℚ) / 8, s + 1)

example : ValidGen demoGen where
  double := fun s => by
    have h : ((s * 3) % 8 : ℕ) < 8 := Nat.mod_lt _ (by norm_num)
    have h' : (((s * 3) % 8 : ℕ) : ℚ) < 8 := by exact_mod_cast h
    simp only [demoGen]
    constructor
    · positivity
    · rw [div_lt_one (by norm_num)]; exact h'
  randint := fun n m s hn => by
    simp only [demoGen, List.length_map, List.length_range, true_and]
    intro x hx
    obtain ⟨i, _, rfl⟩ := List.mem_map.1 hx
    exact Nat.mod_lt _ hn
  sample := fun n m s hm => by
    simp only [demoGen]
    refine ⟨by simpa using hm, (List.take_sublist _ _).nodup ?_, ?_⟩
    · apply List.Nodup.map_on _ List.nodup_range
      intro x hx y hy hxy
      have hx := List.mem_range.1 hx
      have hy := List.mem_range.1 hy
      have := Nat.ModEq.add_left_cancel' s hxy
      rwa [Nat.ModEq, Nat.mod_eq_of_lt hx, Nat.mod_eq_of_lt hy] at this
    · intro x hx
      obtain ⟨i, hi, rfl⟩ := List.mem_map.1 (List.mem_of_mem_take hx)
      exact Nat.mod_lt _ (by have := List.mem_range.1 hi; omega)

/-- A run of one estimator: matrix with an overlap of the first two of three samples, two of three features, batches of two. -/
example : buildOneS (Est := Train) ⟨demoGen, false, false, fun _ t => t⟩
    { mat := .ofLists 3 [[true, false, false], [true, true, false], [false, false, true]], infoIndex := [10, 20, 30], xIndex := [10, 20, 30],
      nFeatures := 3, weights := none }
    (.ofLists 3 [[true, false, false], [true, true, false], [false, false, true]]) 2 3 2 4 =
    .ok (.rows [2, 0] [1, 0, 1], [2, 0], [1, 0, 1]) := by decide +kernel

end Mizar.Props
