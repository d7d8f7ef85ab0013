import Mathlib.Data.List.GetD
import Verif.Model.RoundedBag
import Verif.Lemmas.RoundedBet
import Verif.Props.BagPredict

/-!
C112: mean probabilities of the bagging classifier in floating point
(`/repo/mizarlabs/model/sequentially_bootstrapped_bagging_classifier.py`, inherited `predict_proba` and `predict`).
-/

namespace Mizar.Props
open Rd Bag Spec

theorem sumR_bounds {b : ℕ} (hb : 1 ≤ b) (l : List (ℚ × ℕ)) (hl : ∀ x ∈ l, 0 ≤ x.1 ∧ x.1 ≤ x.2) : ∀ (s : ℚ) (k : ℕ), 0 ≤ s → s ≤ k →
    k + (l.map (·.2)).sum < 2 ^ b →
    0 ≤ (l.map (·.1)).foldl (fun a x => roundBits b (a + x)) s ∧
    (l.map (·.1)).foldl (fun a x => roundBits b (a + x)) s ≤ ((k + (l.map (·.2)).sum : ℕ) : ℚ) ∧
    |(l.map (·.1)).foldl (fun a x => roundBits b (a + x)) s - (s + (l.map (·.1)).sum)| ≤
      l.length * ((k + (l.map (·.2)).sum : ℕ) : ℚ) / 2 ^ b := by
  induction l with
  | nil => intro s k h0 h1 _; simp [h0, h1]
  | cons x l ih =>
    intro s k h0 h1 hk
    simp only [List.map_cons, List.sum_cons, List.foldl_cons, List.length_cons] at hk ⊢
    obtain ⟨x0, x1⟩ := hl x List.mem_cons_self
    have hsx : 0 ≤ s + x.1 := by linarith
    have hsx1 : s + x.1 ≤ ((k + x.2 : ℕ) : ℚ) := by push_cast; linarith
    have hf : IsFloat b (((k + x.2 : ℕ) : ℤ) : ℚ) := isFloat_int b _ (by
      rw [abs_of_nonneg (by positivity)]
      have : k + x.2 < 2 ^ b := by omega
      exact_mod_cast this)
    have r0 : 0 ≤ roundBits b (s + x.1) := le_round hb isFloat_zero hsx
    have r1 : roundBits b (s + x.1) ≤ ((k + x.2 : ℕ) : ℚ) := by
      have := round_le hb hf (by exact_mod_cast hsx1)
      exact_mod_cast this
    obtain ⟨i0, i1, i2⟩ := ih (fun y hy => hl y (List.mem_cons_of_mem _ hy)) (roundBits b (s + x.1)) (k + x.2) r0 r1 (by omega)
    have hT : k + x.2 + (l.map (·.2)).sum = k + (x.2 + (l.map (·.2)).sum) := by omega
    rw [hT] at i1 i2
    refine ⟨i0, i1, ?_⟩
    have e1 := roundBits_error b hb (s + x.1)
    rw [abs_of_nonneg hsx] at e1
    have hle : (s + x.1) / 2 ^ b ≤ ((k + (x.2 + (l.map (·.2)).sum) : ℕ) : ℚ) / 2 ^ b := by
      apply div_le_div_of_nonneg_right _ (by positivity)
      refine hsx1.trans ?_
      exact_mod_cast (by omega : k + x.2 ≤ k + (x.2 + (l.map (·.2)).sum))
    obtain ⟨T, hTT⟩ : ∃ T : ℚ, T = ((k + (x.2 + (l.map (·.2)).sum) : ℕ) : ℚ) := ⟨_, rfl⟩
    rw [← hTT] at i2 hle ⊢
    have hsplit : ((l.length + 1 : ℕ) : ℚ) * T / 2 ^ b = l.length * T / 2 ^ b + T / 2 ^ b := by push_cast; ring
    rw [hsplit]
    rw [abs_le] at i2 e1 ⊢
    constructor <;> linarith [i2.1, i2.2, e1.1, e1.2]

/-- The parts of the estimators given to the jobs. -/
def jobChunks (n jobs : ℕ) (ps : List ℚ) : List (List ℚ) :=
  (List.range (partitionEstimators n jobs).1).map fun t =>
    (ps.take ((partitionEstimators n jobs).2.2.getD (t + 1) 0)).drop ((partitionEstimators n jobs).2.2.getD t 0)

theorem jobChunks_spec {n jobs : ℕ} (hn : 1 ≤ n) (hj : 1 ≤ jobs) (ps : List ℚ) (hps : ps.length = n) :
    (jobChunks n jobs ps).flatten = ps ∧ (jobChunks n jobs ps).length = min jobs n := by
  obtain ⟨p1, p2, p3, p4⟩ := partition_facts n jobs hn hj
  have hch := chunks_flatten ps (partitionEstimators n jobs).2.2 (partitionEstimators n jobs).2.1 p4 (partitionEstimators n jobs).1 (by omega)
  rw [← p1, List.take_length, p2, List.take_of_length_le (by omega)] at hch
  constructor
  · unfold jobChunks
    rw [← p1]
    exact hch
  · simp [jobChunks, partitionEstimators]

theorem classMean_eq (r : ℚ → ℚ) (n jobs : ℕ) (ps : List ℚ) :
    classMean r n jobs ps = r (sumR r ((jobChunks n jobs ps).map (sumR r)) / (n : ℚ)) := by
  unfold classMean jobChunks
  rw [List.map_map]
  rfl

theorem chunk_bounds {b : ℕ} (hb : 1 ≤ b) {N : ℕ} (hN : N < 2 ^ b) : ∀ (L : List (List ℚ)), (∀ c ∈ L, ∀ x ∈ c, 0 ≤ x ∧ x ≤ 1) → L.flatten.length ≤ N →
    (∀ c ∈ L, 0 ≤ sumR (roundBits b) c ∧ sumR (roundBits b) c ≤ c.length) ∧
    |(L.map (sumR (roundBits b))).sum - L.flatten.sum| ≤ L.flatten.length * (N : ℚ) / 2 ^ b := by
  have one : ∀ c : List ℚ, (∀ x ∈ c, 0 ≤ x ∧ x ≤ 1) → c.length ≤ N →
      (0 ≤ sumR (roundBits b) c ∧ sumR (roundBits b) c ≤ c.length) ∧ |sumR (roundBits b) c - c.sum| ≤ c.length * (N : ℚ) / 2 ^ b := by
    intro c hc hl
    have h := sumR_bounds hb (c.map fun x => (x, 1)) (by
      intro x hx
      obtain ⟨y, hy, rfl⟩ := List.mem_map.1 hx
      simpa using hc y hy) 0 0 le_rfl (by simp) (by simp [Function.comp_def]; omega)
    simp only [List.map_map, Function.comp_def, List.map_id', List.map_const', List.sum_replicate, smul_eq_mul, mul_one, zero_add,
      List.length_map] at h
    refine ⟨⟨h.1, h.2.1⟩, h.2.2.trans ?_⟩
    apply div_le_div_of_nonneg_right _ (by positivity)
    apply mul_le_mul_of_nonneg_left _ (by positivity)
    exact_mod_cast hl
  intro L
  induction L with
  | nil => intro _ _; simp
  | cons c L ih =>
    intro hL hlen
    rw [List.flatten_cons, List.length_append] at hlen
    obtain ⟨i1, i2⟩ := ih (fun d hd => hL d (List.mem_cons_of_mem _ hd)) (by omega)
    obtain ⟨o1, o2⟩ := one c (hL c List.mem_cons_self) (by omega)
    constructor
    · intro d hd
      rcases List.mem_cons.1 hd with rfl | hd
      · exact o1
      · exact i1 d hd
    · rw [List.map_cons, List.sum_cons, List.flatten_cons, List.sum_append, List.length_append]
      have e : ((c.length + L.flatten.length : ℕ) : ℚ) * N / 2 ^ b = c.length * (N : ℚ) / 2 ^ b + L.flatten.length * (N : ℚ) / 2 ^ b := by
        push_cast; ring
      rw [e]
      rw [abs_le] at i2 o2 ⊢
      constructor <;> linarith [i2.1, i2.2, o2.1, o2.2]

/-- The rounded sum over all jobs: range and error. -/
theorem jobSum_bounds {b : ℕ} (hb : 1 ≤ b) (jobs : ℕ) (hj : 1 ≤ jobs) (ps : List ℚ) (hne : ps ≠ []) (hlen : ps.length < 2 ^ b)
    (hps : ∀ x ∈ ps, 0 ≤ x ∧ x ≤ 1) (S : ℚ) (eS : S = sumR (roundBits b) ((jobChunks ps.length jobs ps).map (sumR (roundBits b)))) :
    0 ≤ S ∧ S ≤ ps.length ∧ |S - ps.sum| ≤ (ps.length + (min jobs ps.length : ℕ)) * ps.length / 2 ^ b := by
  obtain ⟨n, hn⟩ : ∃ n, n = ps.length := ⟨_, rfl⟩
  rw [← hn] at hlen eS ⊢
  have hn1 : 1 ≤ n := by rw [hn]; exact List.length_pos_iff.2 hne
  obtain ⟨c1, c2⟩ := jobChunks_spec hn1 hj ps hn.symm
  obtain ⟨L, hL⟩ : ∃ L, L = jobChunks n jobs ps := ⟨_, rfl⟩
  rw [← hL] at c1 c2 eS
  obtain ⟨d1, d2⟩ := chunk_bounds hb hlen L (by
    intro c hc x hx
    exact hps x (c1 ▸ List.mem_flatten.2 ⟨c, hc, hx⟩)) (by rw [c1, hn])
  rw [c1, ← hn] at d2
  have hsz : (L.map List.length).sum = n := by rw [← List.length_flatten, c1, hn]
  have h := sumR_bounds hb (L.map fun c => (sumR (roundBits b) c, c.length)) (by
    intro x hx
    obtain ⟨c, hc, rfl⟩ := List.mem_map.1 hx
    exact d1 c hc) 0 0 le_rfl (by simp) (by
      simp only [List.map_map, Function.comp_def, zero_add]
      have : (L.map fun c => c.length).sum = n := hsz
      rw [this]; exact hlen)
  simp only [List.map_map, Function.comp_def, zero_add, List.length_map, c2] at h
  have hsz' : (L.map fun c => c.length).sum = n := hsz
  rw [hsz'] at h
  obtain ⟨h1, h2, h3⟩ := h
  have hS : sumR (roundBits b) (L.map (sumR (roundBits b))) = (L.map fun x => sumR (roundBits b) x).foldl (fun a x => roundBits b (a + x)) 0 := rfl
  rw [hS] at eS
  rw [← eS] at h1 h2 h3
  refine ⟨h1, h2, ?_⟩
  have e : ((n : ℚ) + (min jobs n : ℕ)) * n / 2 ^ b = n * (n : ℚ) / 2 ^ b + ((min jobs n : ℕ) : ℚ) * n / 2 ^ b := by ring
  rw [e]
  have hm : (L.map fun x => sumR (roundBits b) x).sum = (L.map (sumR (roundBits b))).sum := rfl
  rw [hm] at h3
  rw [abs_le] at h3 d2 ⊢
  constructor <;> linarith [h3.1, h3.2, d2.1, d2.2]

/-- C112: for probabilities in [0,1] the rounded mean stays in [0,1] for every number of jobs, and differs from the exact mean
by at most `n_estimators + jobs + 1` units of rounding. -/
theorem C112_mean {b : ℕ} (hb : 1 ≤ b) (jobs : ℕ) (hj : 1 ≤ jobs) (ps : List ℚ) (hne : ps ≠ []) (hlen : ps.length < 2 ^ b)
    (hps : ∀ x ∈ ps, 0 ≤ x ∧ x ≤ 1) :
    0 ≤ classMean (roundBits b) ps.length jobs ps ∧ classMean (roundBits b) ps.length jobs ps ≤ 1 ∧
    |classMean (roundBits b) ps.length jobs ps - ps.sum / ps.length| ≤ (ps.length + min jobs ps.length + 1) / 2 ^ b := by
  rw [classMean_eq]
  obtain ⟨S, eS⟩ : ∃ S, S = sumR (roundBits b) ((jobChunks ps.length jobs ps).map (sumR (roundBits b))) := ⟨_, rfl⟩
  rw [← eS]
  obtain ⟨h1, h2, e3⟩ := jobSum_bounds hb jobs hj ps hne hlen hps S eS
  obtain ⟨n, hn⟩ : ∃ n, n = ps.length := ⟨_, rfl⟩
  rw [← hn] at h2 e3 ⊢
  have hn1 : 1 ≤ n := by rw [hn]; exact List.length_pos_iff.2 hne
  have hnq : (0 : ℚ) < n := by exact_mod_cast hn1
  have q0 : 0 ≤ S / n := div_nonneg h1 hnq.le
  have q1 : S / n ≤ 1 := by rw [div_le_one hnq]; exact h2
  refine ⟨le_round hb isFloat_zero q0, round_le hb (isFloat_one hb) q1, ?_⟩
  have e1 := roundBits_error b hb (S / n)
  rw [abs_of_nonneg q0] at e1
  have e2 : S / n / 2 ^ b ≤ 1 / 2 ^ b := div_le_div_of_nonneg_right q1 (by positivity)
  have e4 : |S / n - ps.sum / n| ≤ (n + (min jobs n : ℕ)) / 2 ^ b := by
    rw [← sub_div, abs_div, abs_of_pos hnq, div_le_iff₀ hnq]
    refine e3.trans (le_of_eq (by ring))
  have e5 : ((n : ℚ) + (min jobs n : ℕ) + 1) / 2 ^ b = (n + (min jobs n : ℕ)) / 2 ^ b + 1 / 2 ^ b := by ring
  rw [e5]
  rw [abs_le] at e1 e4 ⊢
  constructor <;> linarith [e1.1, e1.2, e4.1, e4.2]

/-- C112: the predicted class is the class with the greatest exact mean whenever that mean exceeds all others by more than
`2 (n_estimators + jobs + 1)` units of rounding. -/
theorem C112_predict {b : ℕ} (hb : 1 ≤ b) (jobs : ℕ) (hj : 1 ≤ jobs) (n : ℕ) (hn : 1 ≤ n) (hlen : n < 2 ^ b) (cols : List (List ℚ))
    (hcols : ∀ c ∈ cols, c.length = n ∧ ∀ x ∈ c, 0 ≤ x ∧ x ≤ 1) (k : ℕ) (hk : k < cols.length)
    (hgap : ∀ j, j < cols.length → j ≠ k →
      (cols.getD j []).sum / n + 2 * (n + min jobs n + 1) / 2 ^ b < (cols.getD k []).sum / n) :
    predictClass (roundBits b) n jobs cols = k := by
  unfold Rd.predictClass
  obtain ⟨a1, a2, -⟩ := argmaxQ_spec (cols.map (classMean (roundBits b) n jobs)) (by
    intro h
    rw [List.map_eq_nil_iff] at h
    rw [h] at hk
    exact absurd hk (Nat.not_lt_zero _))
  rw [List.length_map] at a1 a2
  obtain ⟨m, hm⟩ : ∃ m, m = argmaxQ (cols.map (classMean (roundBits b) n jobs)) := ⟨_, rfl⟩
  rw [← hm] at a1 a2 ⊢
  by_contra hne
  have close : ∀ j (hj' : j < cols.length), |(cols.map (classMean (roundBits b) n jobs)).getD j 0 - (cols.getD j []).sum / n| ≤
      (n + min jobs n + 1) / 2 ^ b := by
    intro j hj'
    rw [List.getD_eq_getElem _ _ (by simpa using hj'), List.getElem_map, List.getD_eq_getElem _ _ hj']
    obtain ⟨l1, l2⟩ := hcols _ (List.getElem_mem hj')
    have := (C112_mean hb jobs hj cols[j] (by intro h; rw [h] at l1; simp at l1; omega) (by omega) l2).2.2
    rw [l1] at this
    exact this
  have g := hgap m a1 hne
  have c1 := abs_le.1 (close m a1)
  have c2 := abs_le.1 (close k hk)
  have c3 := a2 k hk
  rw [mul_div_assoc] at g
  linarith [c1.1, c1.2, c2.1, c2.2]

theorem sumR_nat {b : ℕ} (hb : 1 ≤ b) (l : List ℕ) : ∀ s : ℕ, s + l.sum < 2 ^ b →
    (l.map fun x : ℕ => (x : ℚ)).foldl (fun a x => roundBits b (a + x)) (s : ℚ) = ((s + l.sum : ℕ) : ℚ) := by
  induction l with
  | nil => intro s _; simp
  | cons x l ih =>
    intro s h
    rw [List.sum_cons] at h
    rw [List.map_cons, List.foldl_cons, List.sum_cons]
    have hf : roundBits b ((s : ℚ) + (x : ℚ)) = ((s + x : ℕ) : ℚ) := by
      have := roundBits_natCast b hb (s + x) (by omega)
      push_cast at this ⊢
      exact this
    rw [hf, ih (s + x) (by omega), Nat.add_assoc]

/-- C112: estimators that vote, or whose probabilities are 0 and 1, are counted exactly: the result is the rounded share of the
votes whatever the number of jobs. -/
theorem C112_votes {b : ℕ} (hb : 1 ≤ b) (jobs : ℕ) (hj : 1 ≤ jobs) (ps : List ℚ) (hne : ps ≠ []) (hlen : ps.length < 2 ^ b)
    (hps : ∀ x ∈ ps, x = 0 ∨ x = 1) :
    classMean (roundBits b) ps.length jobs ps = roundBits b (ps.count 1 / ps.length) := by
  have hn1 : 1 ≤ ps.length := List.length_pos_iff.2 hne
  obtain ⟨c1, -⟩ := jobChunks_spec hn1 hj ps rfl
  rw [classMean_eq]
  obtain ⟨L, hL⟩ : ∃ L, L = jobChunks ps.length jobs ps := ⟨_, rfl⟩
  rw [← hL] at c1 ⊢
  have cnt : ∀ c : List ℚ, (∀ x ∈ c, x = 0 ∨ x = 1) → c.length < 2 ^ b → sumR (roundBits b) c = ((c.count 1 : ℕ) : ℚ) := by
    intro c hc hl
    have e : c = (c.map fun x => if x = 1 then 1 else 0).map fun x : ℕ => (x : ℚ) := by
      rw [List.map_map]
      conv_lhs => rw [← List.map_id c]
      apply List.map_congr_left
      intro x hx
      rcases hc x hx with rfl | rfl <;> simp
    have s : (c.map fun x => if x = 1 then 1 else 0).sum = c.count 1 := by
      clear e hl hc
      induction c with
      | nil => rfl
      | cons x c ih =>
        rw [List.map_cons, List.sum_cons, ih, List.count_cons]
        by_cases h : x = 1 <;> simp [h, Nat.add_comm]
    have := sumR_nat hb (c.map fun x => if x = 1 then 1 else 0) 0 (by
      rw [s, zero_add]
      exact lt_of_le_of_lt List.count_le_length hl)
    rw [← e, s, zero_add, Nat.cast_zero] at this
    exact this
  have hL' : L.map (sumR (roundBits b)) = (L.map fun c => c.count 1).map fun x : ℕ => (x : ℚ) := by
    rw [List.map_map]
    apply List.map_congr_left
    intro c hc
    apply cnt
    · intro x hx
      exact hps x (c1 ▸ List.mem_flatten.2 ⟨c, hc, hx⟩)
    · have : c.length ≤ L.flatten.length := (List.sublist_flatten_of_mem hc).length_le
      rw [c1] at this
      omega
  have hsum : (L.map fun c => c.count 1).sum = ps.count 1 := by
    rw [← c1, List.count_flatten]
  have := sumR_nat hb (L.map fun c => c.count 1) 0 (by
    rw [hsum, zero_add]
    exact lt_of_le_of_lt List.count_le_length hlen)
  rw [hsum, zero_add, Nat.cast_zero] at this
  rw [hL', sumR, this]

theorem sumR_id (l : List ℚ) : sumR id l = l.sum := by
  unfold sumR
  rw [List.sum_eq_foldl]
  rfl

/-- C112: without rounding these are the functions of the exact model. -/
theorem C112_exact (jobs nC : ℕ) (hj : 1 ≤ jobs) (ests : List OobEst) (hn : ests ≠ []) (hes : ∀ e ∈ ests, ProperEst nC e) (i : ℕ) :
    Bag.predictProba ests.length jobs nC ests i =
      .ok ((List.range nC).map fun k => classMean id ests.length jobs (ests.map fun e => classProb e i k)) ∧
    Bag.predictClass ests.length jobs nC ests i =
      .ok (Rd.predictClass id ests.length jobs ((List.range nC).map fun k => ests.map fun e => classProb e i k)) := by
  have key : Bag.predictProba ests.length jobs nC ests i =
      .ok ((List.range nC).map fun k => classMean id ests.length jobs (ests.map fun e => classProb e i k)) := by
    rw [C95_mean jobs nC hj ests hn hes i]
    congr 1
    apply List.map_congr_left
    intro k _
    have hn1 : 1 ≤ ests.length := List.length_pos_iff.2 hn
    obtain ⟨c1, -⟩ := jobChunks_spec hn1 hj (ests.map fun e => classProb e i k) (by simp)
    rw [classMean_eq, sumR_id, show sumR id = List.sum from funext sumR_id, ← List.sum_flatten, c1]
    rfl
  refine ⟨key, ?_⟩
  unfold Bag.predictClass Rd.predictClass
  rw [key, List.map_map]
  rfl

/-- C112: in floating point the probabilities depend on the number of jobs, and so does the predicted class: four estimators with
the doubles nearest to 0.1, 0.2, 0.9, 0.8 for the first and 0.9, 0.8, 0.1, 0.2 for the second class. -/
theorem C112_jobs_refuted :
    let d (x : ℚ) := roundBits 53 x
    let cols := [[d (1/10), d (2/10), d (9/10), d (8/10)], [d (9/10), d (8/10), d (1/10), d (2/10)]]
    predictClass (roundBits 53) 4 1 cols = 1 ∧ predictClass (roundBits 53) 4 2 cols = 0 := by decide +kernel

/-- C112: three estimators that agree on the probability 0.1 do not give 0.1. -/
theorem C112_unanimous_refuted :
    classMean (roundBits 53) 3 1 (List.replicate 3 (roundBits 53 (1 / 10))) ≠ roundBits 53 (1 / 10) := by decide +kernel

example : (∀ x ∈ [(1/10 : ℚ), 9/10, 1/2, 1/4, 0], 0 ≤ x ∧ x ≤ 1) ∧
    classMean (roundBits 3) 5 2 [1/10, 9/10, 1/2, 1/4, 0] = 3 / 8 ∧
    classMean (roundBits 53) 3 2 [1, 0, 1] = roundBits 53 (2 / 3) ∧
    ((0 : ℚ) + 2 * (3 + min 2 3 + 1) / 2 ^ 53 < 1) := by decide +kernel

end Mizar.Props
