import Verif.Lemmas.CVSplit

/-!
Property theorems C01-C09 about the combinatorial purged cross-validation
(`/repo/mizarlabs/model/model_selection.py`).
-/

namespace Mizar.Props
open Mizar.Spec Mizar.CV

/-! ### C01: the constructor -/

/-- C01 (rejection): every number of test folds outside `1 .. n_groups - 1` is refused with
`ValueError`, whatever the embargo. -/
theorem C01_rejects_bad_test_splits (N k emb : ℤ) (h : ¬ (1 ≤ k ∧ k ≤ N - 1)) :
    CV.init N k emb = .error .valueError := by
  unfold CV.init pyFactorial
  by_cases h1 : N < 0
  · simp only [h1, if_true]; rfl
  by_cases h2 : k < 0
  · simp only [h1, h2, if_true, if_false]; rfl
  by_cases h3 : N - k < 0
  · simp only [h1, h2, h3, if_true, if_false]; rfl
  have hk : k = 0 ∨ k = N := by omega
  have hone : pyIntTrueDiv ((Nat.factorial N.toNat : ℤ))
      ((Nat.factorial k.toNat : ℤ) * (Nat.factorial (N - k).toNat : ℤ)) = .ok 1 := by
    apply pyIntTrueDiv_exact (m := 1)
    · exact_mod_cast Nat.mul_ne_zero (Nat.factorial_ne_zero _) (Nat.factorial_ne_zero _)
    · rcases hk with rfl | rfl <;> simp
    · norm_num
  simp only [h1, h2, h3, if_false, bind, Except.bind, hone]
  rfl

theorem init_choose (N k : ℕ) (emb : ℤ) (h1 : 1 ≤ k) (h2 : k < N) (hC : N.choose k ≤ 2 ^ 53) :
    CV.init N k emb =
      if emb < 0 then .error .valueError else .ok ⟨N, k, N.choose k, emb⟩ := by
  have hdiv : pyIntTrueDiv ((Nat.factorial (N : ℤ).toNat : ℤ))
      ((Nat.factorial (k : ℤ).toNat : ℤ) * (Nat.factorial ((N : ℤ) - k).toNat : ℤ))
        = .ok (N.choose k : ℤ) := by
    have hsub : ((N : ℤ) - k).toNat = N - k := by omega
    apply pyIntTrueDiv_exact (m := (N.choose k : ℤ))
    · exact_mod_cast Nat.mul_ne_zero (Nat.factorial_ne_zero _) (Nat.factorial_ne_zero _)
    · rw [hsub]
      have := Nat.choose_mul_factorial_mul_factorial h2.le
      simp only [Int.toNat_natCast]
      rw [← this]; push_cast; ring
    · rw [abs_of_nonneg (by positivity)]
      exact_mod_cast hC
  have hgt : ¬ ((N.choose k : ℤ) ≤ 1) := by
    have := self_le_choose h1 h2
    omega
  have e1 : ¬ ((N : ℤ) < 0) := by omega
  have e2 : ¬ ((k : ℤ) < 0) := by omega
  have e3 : ¬ ((N : ℤ) - k < 0) := by omega
  have e4 : ¬ ((k : ℤ) ≤ 0 ∨ (k : ℤ) > N - 1) := by omega
  unfold CV.init pyFactorial
  simp only [e1, e2, e3, if_false, bind, Except.bind, hdiv, hgt, e4]
  split <;> rfl

/-- C01 (acceptance): valid parameters are accepted, and the reported number of splits is the
binomial coefficient, as long as that number has at most 53 bits. -/
theorem C01_accepts_valid_partial (N k : ℕ) (emb : ℤ) (h1 : 1 ≤ k) (h2 : k ≤ N - 1)
    (he : 0 ≤ emb) (hC : N.choose k ≤ 2 ^ 53) :
    CV.init N k emb = .ok ⟨N, k, N.choose k, emb⟩ := by
  rw [init_choose N k emb h1 (by omega) hC, if_neg (by omega)]

/-- C01 without the size restriction is false: for 57 groups and 25 test folds the reported number
of splits is off by one (the quotient of the factorials is rounded to a double). -/
theorem C01_n_splits_refuted :
    ∃ p, CV.init 57 25 0 = .ok p ∧ p.nSplits ≠ Nat.choose 57 25 :=
  ⟨⟨57, 25, 9929472283517788, 0⟩, by decide +kernel⟩

/-- C01 without the size restriction is false: the valid parameters 1030 / 515 are refused with
`OverflowError`. -/
theorem C01_overflow_refuted : CV.init 1030 515 0 = .error .overflowError := by decide +kernel

/-- Instance: 10 groups, 2 test folds. -/
example : CV.init 10 2 5 = .ok ⟨10, 2, 45, 5⟩ := C01_accepts_valid_partial 10 2 5 (by norm_num)
  (by norm_num) (by norm_num) (by decide)
example : CV.init 10 10 5 = .error .valueError := C01_rejects_bad_test_splits _ _ _ (by norm_num)

/-! ### the structure of `split` -/

theorem testFoldBounds_ok (n g k : ℕ) (hg : 0 < g) (h : g ≤ n) :
    testFoldBounds n g k = .ok (combinations k (boundsFrom 0 (sizes n g))).reverse := by
  simp only [testFoldBounds, foldBounds_eq n g hg h]; rfl

theorem split_ok (n g k : ℕ) (pred eval : ℕ → ℤ) (emb : ℤ) (hg : 0 < g) (h : g ≤ n) :
    split n g k pred eval emb =
      .ok ((combinations k (boundsFrom 0 (sizes n g))).reverse.map (splitRound n pred eval emb)) := by
  simp only [split, testFoldBounds_ok n g k hg h]; rfl

theorem split_error (n g k : ℕ) (pred eval : ℕ → ℤ) (emb : ℤ) (h : n < g) :
    split n g k pred eval emb = .error .indexError := by
  simp only [split, testFoldBounds, foldBounds_error n g h]; rfl

/-- What is known about a member of the rounds. -/
theorem mem_split {n g k : ℕ} {pred eval : ℕ → ℤ} {emb : ℤ} {rounds : List (List ℕ × List ℕ)}
    (hg : 0 < g) (hs : split n g k pred eval emb = .ok rounds) {r : List ℕ × List ℕ}
    (hr : r ∈ rounds) :
    ∃ bounds, TestOK n bounds r.2 ∧ r.1 = computeTrainSet n pred eval emb bounds r.2 := by
  rcases Nat.lt_or_ge n g with h | h
  · rw [split_error n g k pred eval emb h] at hs; cases hs
  · rw [split_ok n g k pred eval emb hg h] at hs
    cases hs
    obtain ⟨fbl, hf, rfl⟩ := List.mem_map.1 hr
    have hsub := (mem_combinations.1 (List.mem_reverse.1 hf)).1
    have hok := (foldsOK_sizes n g hg h).sublist hsub
    exact ⟨_, testOK_computeTestSet fbl hok, rfl⟩

/-! ### C03: the folds -/

/-- C03: with at least one sample per group the folds form a balanced contiguous partition into
`n_groups` folds. -/
theorem C03_folds_balanced_partition (n g : ℕ) (hg : 1 ≤ g) (h : g ≤ n) :
    ∃ fb, foldBounds n g = .ok fb ∧ fb.length = g ∧ BalancedPartition n fb :=
  ⟨_, foldBounds_eq n g hg h, by rw [boundsFrom_length, sizes_length n g hg],
    balancedPartition_sizes n g hg h⟩

/-- C03: with fewer samples than groups `split` raises `IndexError`. -/
theorem C03_too_few_samples (n g k : ℕ) (pred eval : ℕ → ℤ) (emb : ℤ) (h : n < g) :
    split n g k pred eval emb = .error .indexError :=
  split_error n g k pred eval emb h

example : foldBounds 11 4 = .ok [(0, 3), (3, 6), (6, 9), (9, 11)] := by decide

/-! ### C02: every combination exactly once -/

/-- C02: there is a balanced partition into `g` folds such that the rounds correspond one to one
(and in order) to a duplicate-free list `sel` of all choices of `k` folds, the test positions of a
round being exactly the positions of its folds; there are `g.choose k` rounds. -/
theorem C02_every_combination_once (n g k : ℕ) (pred eval : ℕ → ℤ) (emb : ℤ)
    (hg : 1 ≤ g) (h : g ≤ n) :
    ∃ (rounds : List (List ℕ × List ℕ)) (fb : List (ℕ × ℕ)) (sel : List (List (ℕ × ℕ))),
      split n g k pred eval emb = .ok rounds ∧
      BalancedPartition n fb ∧ fb.length = g ∧
      sel.Nodup ∧ (∀ s, s ∈ sel ↔ s.Sublist fb ∧ s.length = k) ∧
      List.Forall₂ (fun s (r : List ℕ × List ℕ) => ∀ x, x ∈ r.2 ↔ ∃ b ∈ s, InRange b x) sel rounds ∧
      rounds.length = g.choose k := by
  have hb := balancedPartition_sizes n g hg h
  have hf := foldsOK_sizes n g hg h
  refine ⟨_, boundsFrom 0 (sizes n g), (combinations k (boundsFrom 0 (sizes n g))).reverse,
    split_ok n g k pred eval emb hg h, hb,
    by rw [boundsFrom_length, sizes_length n g hg], ?_, ?_, ?_, ?_⟩
  · exact List.nodup_reverse.2 (nodup_combinations _ _ hf.nodup)
  · intro s; rw [List.mem_reverse, mem_combinations]
  · rw [List.forall₂_map_right_iff, List.forall₂_same]
    intro s hs x
    have hsub := (mem_combinations.1 (List.mem_reverse.1 hs)).1
    simp only [splitRound, mem_computeTestSet]
    constructor
    · exact fun h => h.2
    · rintro ⟨b, hbs, hx⟩
      exact ⟨lt_of_lt_of_le hx.2 (hb.inside b (hsub.subset hbs)), b, hbs, hx⟩
  · rw [List.length_map, List.length_reverse, length_combinations, boundsFrom_length,
      sizes_length n g hg]

/-- C02: the test set of the first round is a final segment of the data. -/
theorem C02_first_round_at_end (n g k : ℕ) (pred eval : ℕ → ℤ) (emb : ℤ)
    (hg : 1 ≤ g) (h : g ≤ n) (hk : 1 ≤ k) (hkg : k ≤ g) :
    ∃ rounds r a, split n g k pred eval emb = .ok rounds ∧ rounds.head? = some r ∧ a < n ∧
      ∀ x, x ∈ r.2 ↔ a ≤ x ∧ x < n := by
  have hlen : (boundsFrom 0 (sizes n g)).length = g := by
    rw [boundsFrom_length, sizes_length n g hg]
  have hb := balancedPartition_sizes n g hg h
  obtain ⟨c, hc⟩ : ∃ c, (boundsFrom 0 (sizes n g))[g - k]? = some c := by
    exact ⟨_, List.getElem?_eq_getElem (by omega)⟩
  have hcm : c ∈ boundsFrom 0 (sizes n g) := List.mem_of_getElem? hc
  refine ⟨_, splitRound n pred eval emb ((boundsFrom 0 (sizes n g)).drop (g - k)), c.1,
    split_ok n g k pred eval emb hg h, ?_, ?_, ?_⟩
  · rw [List.head?_map, List.head?_reverse, getLast?_combinations _ _ (by omega), hlen]; rfl
  · exact lt_of_lt_of_le (hb.nonempty c hcm) (hb.inside c hcm)
  · intro x
    simp only [splitRound, mem_computeTestSet]
    have hdrop : (boundsFrom 0 (sizes n g)).drop (g - k) =
        c :: (boundsFrom 0 (sizes n g)).drop (g - k + 1) := by
      obtain ⟨hlt, he⟩ := List.getElem?_eq_some_iff.1 hc
      rw [List.drop_eq_getElem_cons hlt, he]
    have hp := boundsFrom_pairwise 0 (sizes n g)
    constructor
    · rintro ⟨hx, b, hbm, hr⟩
      refine ⟨?_, hx⟩
      rw [hdrop] at hbm
      rcases List.mem_cons.1 hbm with rfl | hbm
      · exact hr.1
      · have h1 := hp.sublist (List.drop_sublist (g - k) _)
        rw [hdrop] at h1
        have := (List.pairwise_cons.1 h1).1 b hbm
        have := hb.nonempty c hcm
        have := hr.1
        omega
    · rintro ⟨h1, h2⟩
      refine ⟨h2, ?_⟩
      obtain ⟨b, ⟨hbm, hr⟩, _⟩ := hb.cover x h2
      refine ⟨b, ?_, hr⟩
      rw [← List.take_append_drop (g - k) (boundsFrom 0 (sizes n g))] at hbm
      rcases List.mem_append.1 hbm with hbt | hbd
      · exfalso
        have h3 := hp
        rw [← List.take_append_drop (g - k) (boundsFrom 0 (sizes n g)), List.pairwise_append] at h3
        have := h3.2.2 b hbt c (by rw [hdrop]; simp)
        have := hr.2
        omega
      · exact hbd

example : (split 8 4 2 (fun i => i) (fun i => i) 0).toOption.map (·.map (·.2)) =
    some [[4, 5, 6, 7], [2, 3, 6, 7], [2, 3, 4, 5], [0, 1, 6, 7], [0, 1, 4, 5], [0, 1, 2, 3]] := by
  decide +kernel

/-! ### C04: disjointness and ranges (no assumption on the times) -/

/-- C04: in every round the test positions are strictly increasing and in range, the train
positions are in range, and no position is in both. -/
theorem C04_train_test_disjoint (n g k : ℕ) (pred eval : ℕ → ℤ) (emb : ℤ) (hg : 1 ≤ g)
    (rounds : List (List ℕ × List ℕ)) (hs : split n g k pred eval emb = .ok rounds)
    (r : List ℕ × List ℕ) (hr : r ∈ rounds) :
    r.2.Pairwise (· < ·) ∧ (∀ t ∈ r.2, t < n) ∧ (∀ i ∈ r.1, i < n) ∧ (∀ i ∈ r.1, i ∉ r.2) := by
  obtain ⟨bounds, hok, htr⟩ := mem_split hg hs hr
  refine ⟨hok.sorted, ?_, ?_, ?_⟩
  · intro t ht
    obtain ⟨b, hb, hx⟩ := (hok.mem t).1 ht
    exact lt_of_lt_of_le hx.2 (hok.range b hb).2
  · intro i hi
    rw [htr] at hi
    exact (mem_computeTrainSet.1 hi).1
  · intro i hi
    rw [htr] at hi
    exact (mem_computeTrainSet.1 hi).2.1

theorem sorted_step {n : ℕ} {pred eval : ℕ → ℤ} {emb : ℤ} {train test : List ℕ} {b : ℕ × ℕ}
    (hT : Timeline n pred eval) (hb : b.1 < b.2 ∧ b.2 ≤ n) :
    (embargo n pred eval emb (purge n pred eval train b.1 b.2) test b.2).Pairwise (· < ·) := by
  have hp : (purge n pred eval train b.1 b.2).Pairwise (· < ·) := by
    unfold purge
    refine List.pairwise_append.2 ⟨pairwise_npIntersect1d _ _, pairwise_npIntersect1d _ _, ?_⟩
    intro x hx y hy
    have h1 := (mem_npIntersect1d.1 hx).2
    have h2 := (mem_npIntersect1d.1 hy).2
    simp only [List.mem_filter, List.mem_range, decide_eq_true_eq] at h1
    have h2' : b.2 ≤ y := by
      have := @mem_slice n b.2 n y
      rw [List.take_of_length_le (by simp)] at this
      exact (this.1 h2).1
    by_contra hxy
    have h3 := hT.mono b.1 x (by omega) h1.1
    have h4 := hT.fwd x h1.1
    omega
  unfold embargo
  simp only
  split
  · split
    · exact pairwise_npIntersect1d _ _
    · exact hp
  · split
    · exact pairwise_npIntersect1d _ _
    · exact hp

/-- C04: for a documented dataset the train positions are strictly increasing (no position is used
twice for training). -/
theorem C04_train_sorted (n g k : ℕ) (pred eval : ℕ → ℤ) (emb : ℤ) (hg : 1 ≤ g)
    (hT : Timeline n pred eval)
    (rounds : List (List ℕ × List ℕ)) (hs : split n g k pred eval emb = .ok rounds)
    (r : List ℕ × List ℕ) (hr : r ∈ rounds) : r.1.Pairwise (· < ·) := by
  obtain ⟨bounds, hok, htr⟩ := mem_split hg hs hr
  rw [htr, computeTrainSet]
  rcases List.eq_nil_or_concat bounds with rfl | ⟨l, b, rfl⟩
  · simpa using pairwise_npSetdiff1d _ _
  · rw [List.concat_eq_append, List.foldl_append]
    exact sorted_step hT (hok.range b (by simp))

example : (split 8 4 2 (fun i => i) (fun i => i + 1) 0).toOption.map (·.map (·.1)) =
    some [[0, 1, 2], [0, 4], [0, 7], [3, 4], [7], [5, 6, 7]] := by
  decide +kernel

/-! ### C05: purging -/

/-- C05: a training sample before a test sample is evaluated strictly before that test sample's
prediction. -/
theorem C05_purged_before_test (n g k : ℕ) (pred eval : ℕ → ℤ) (emb : ℤ) (hg : 1 ≤ g)
    (hT : Timeline n pred eval)
    (rounds : List (List ℕ × List ℕ)) (hs : split n g k pred eval emb = .ok rounds)
    (r : List ℕ × List ℕ) (hr : r ∈ rounds) (i t : ℕ) (hi : i ∈ r.1) (ht : t ∈ r.2) (hit : i < t) :
    eval i < pred t := by
  obtain ⟨bounds, hok, htr⟩ := mem_split hg hs hr
  obtain ⟨b, hb, hx⟩ := (hok.mem t).1 ht
  rw [htr] at hi
  obtain ⟨hin, hnot, hall⟩ := mem_computeTrainSet.1 hi
  have hbr := hok.range b hb
  have hib : i < b.1 := by
    by_contra hcon
    exact hnot ((hok.mem i).2 ⟨b, hb, by omega, lt_trans hit hx.2⟩)
  rcases (hall b hb).1 with h | h
  · exact lt_of_lt_of_le h (hT.mono b.1 t hx.1 (lt_of_lt_of_le hx.2 hbr.2))
  · omega

/-- A dataset meeting the hypotheses of C05-C07: hourly predictions, labels known two steps later. -/
example : Timeline 8 (fun i => i) (fun i => i + 2) :=
  ⟨fun i j h _ => by simpa using h, fun i _ => by simp⟩

/-! ### C06: no leakage -/

/-- C06 (true part).  A train sample before a test sample never leaks.  A train sample after a test
sample `t` does not leak (embargo included) provided the embargo computed for the run of test
positions containing `t` (which ends at `e`) is effective: the labels of the first `e` test
positions, plus the embargo, end before the last prediction time of the data.  (If `e = n` there is
no later train sample.)  Missing for the full claim: the case where the embargo reaches past the
last prediction time, see `C06_no_leakage_refuted`. -/
theorem C06_no_leakage_partial (n g k : ℕ) (pred eval : ℕ → ℤ) (emb : ℤ) (hg : 1 ≤ g)
    (hT : Timeline n pred eval)
    (rounds : List (List ℕ × List ℕ)) (hs : split n g k pred eval emb = .ok rounds)
    (r : List ℕ × List ℕ) (hr : r ∈ rounds) (i t : ℕ) (hi : i ∈ r.1) (ht : t ∈ r.2)
    (hcut : t < i → ∀ e, RunEnd r.2 t e → ∀ u ∈ r.2.take e, eval u + emb < pred (n - 1)) :
    Separated pred eval emb i t := by
  obtain ⟨bounds, hok, htr⟩ := mem_split hg hs hr
  obtain ⟨b, hb, hx⟩ := (hok.mem t).1 ht
  have hi' := hi
  rw [htr] at hi
  obtain ⟨hin, hnot, hall⟩ := mem_computeTrainSet.1 hi
  have hbr := hok.range b hb
  rcases Nat.lt_trichotomy i t with hlt | heq | hgt
  · exact Or.inl (C05_purged_before_test n g k pred eval emb hg hT rounds hs r hr i t hi' ht hlt)
  · exact absurd ht (heq ▸ hnot)
  · right
    have hib : b.2 ≤ i := by
      by_contra hcon
      exact hnot ((hok.mem i).2 ⟨b, hb, by have := hx.1; omega, by omega⟩)
    have hend : RunEnd r.2 t b.2 := by
      refine ⟨hx.2, fun x h1 h2 => (hok.mem x).2 ⟨b, hb, le_trans hx.1 h1, h2⟩, ?_⟩
      intro hmem
      obtain ⟨c, hc, hcx⟩ := (hok.mem b.2).1 hmem
      have hcr := hok.range c hc
      by_cases hbc : b = c
      · subst hbc; exact absurd hcx.2 (lt_irrefl _)
      · have := hcx.1
        have := hcx.2
        rcases pairwise_or hok.gap hb hc hbc with h | h <;> omega
    have hlt : minTrain n pred eval emb r.2 b.2 < n :=
      minTrain_lt (j := n - 1) (by omega) (hcut hgt b.2 hend)
    rcases (hall b hb).2 hlt with h | h
    · omega
    · exact minTrain_spec hT hin (mem_take_of_lt hok.sorted ht hx.2) h

/-- C06 corollary: rounds in which all test labels plus embargo end before the last prediction time
are completely free of leakage. -/
theorem C06_no_leakage_early_tests_partial (n g k : ℕ) (pred eval : ℕ → ℤ) (emb : ℤ) (hg : 1 ≤ g)
    (hT : Timeline n pred eval)
    (rounds : List (List ℕ × List ℕ)) (hs : split n g k pred eval emb = .ok rounds)
    (r : List ℕ × List ℕ) (hr : r ∈ rounds) (hend : ∀ t ∈ r.2, eval t + emb < pred (n - 1)) :
    ∀ i ∈ r.1, ∀ t ∈ r.2, Separated pred eval emb i t := fun i hi t ht =>
  C06_no_leakage_partial n g k pred eval emb hg hT rounds hs r hr i t hi ht
    (fun _ _ _ u hu => hend u (List.mem_of_mem_take hu))

/-- C06 as documented is false: two-sample folds, labels lasting one step, no embargo.  In the round
testing folds 1 and 3 the sample 4 stays in the train set although its prediction time is not after
the evaluation time of test sample 3. -/
theorem C06_no_leakage_refuted :
    ∃ (n g k : ℕ) (pred eval : ℕ → ℤ) (emb : ℤ) (rounds : List (List ℕ × List ℕ)),
      Timeline n pred eval ∧ 0 ≤ emb ∧ split n g k pred eval emb = .ok rounds ∧
      ∃ r ∈ rounds, ∃ i ∈ r.1, ∃ t ∈ r.2, ¬ Separated pred eval emb i t := by
  refine ⟨8, 4, 2, fun i => i, fun i => i + 1, 0,
    [([0, 1, 2], [4, 5, 6, 7]), ([0, 4], [2, 3, 6, 7]), ([0, 7], [2, 3, 4, 5]),
      ([3, 4], [0, 1, 6, 7]), ([7], [0, 1, 4, 5]), ([5, 6, 7], [0, 1, 2, 3])],
    ⟨fun i j h _ => by simpa using h, fun i _ => by simp⟩, le_refl _, by decide +kernel,
    ([0, 4], [2, 3, 6, 7]), by simp, 4, by simp, 3, by simp, ?_⟩
  unfold Separated
  decide

/-- C06, second counterexample: a single test fold and an embargo longer than the remaining data.
The embargo is then not applied at all and sample 2, inside the embargo, is used for training. -/
theorem C06_long_embargo_refuted :
    ∃ (rounds : List (List ℕ × List ℕ)),
      split 4 2 1 (fun i => i) (fun i => i) 100 = .ok rounds ∧
      ∃ r ∈ rounds, ∃ i ∈ r.1, ∃ t ∈ r.2,
        ¬ Separated (fun i => (i : ℤ)) (fun i => (i : ℤ)) 100 i t := by
  refine ⟨[([0, 1], [2, 3]), ([2, 3], [0, 1])], by decide +kernel, ([2, 3], [0, 1]), by simp, 2,
    by simp, 0, by simp, ?_⟩
  unfold Separated
  decide

/-- Instance of the corollary: the round testing the first two folds of eight samples. -/
example : ∃ rounds, split 8 4 2 (fun i => i) (fun i => i + 1) 0 = .ok rounds ∧
    ([5, 6, 7], [0, 1, 2, 3]) ∈ rounds ∧
    ∀ t ∈ [0, 1, 2, 3], ((fun i => (i : ℤ) + 1) t) + 0 < ((8 - 1 : ℕ) : ℤ) :=
  ⟨_, rfl, by decide +kernel, by decide⟩

/-! ### C07: nothing is dropped without need -/

/-- C07 (true part): when the test positions of a round form one contiguous run, a non-test sample
is missing from the train set only if it is not separated from some test sample.  Missing for the
full claim: test sets with gaps, see `C07_no_overdrop_refuted`. -/
theorem C07_no_overdrop_partial (n g k : ℕ) (pred eval : ℕ → ℤ) (emb : ℤ) (hg : 1 ≤ g)
    (hT : Timeline n pred eval) (hemb : 0 ≤ emb)
    (rounds : List (List ℕ × List ℕ)) (hs : split n g k pred eval emb = .ok rounds)
    (r : List ℕ × List ℕ) (hr : r ∈ rounds)
    (hrun : ∀ x y z, x ∈ r.2 → z ∈ r.2 → x ≤ y → y ≤ z → y ∈ r.2)
    (i : ℕ) (hi : i < n) (hnt : i ∉ r.2) (hdrop : i ∉ r.1) :
    ∃ t ∈ r.2, ¬ Separated pred eval emb i t := by
  obtain ⟨bounds, hok, htr⟩ := mem_split hg hs hr
  by_contra hcon
  push Not at hcon
  apply hdrop
  rw [htr, mem_computeTrainSet]
  refine ⟨hi, hnt, fun b hb => ?_⟩
  have hbr := hok.range b hb
  have hs1 : b.1 ∈ r.2 := (hok.mem _).2 ⟨b, hb, le_refl _, hbr.1⟩
  constructor
  · rcases Nat.lt_or_ge i b.1 with h | h
    · left
      rcases hcon b.1 hs1 with h1 | h1
      · exact h1
      · have h2 := hT.mono i b.1 h.le (by omega)
        have h3 := hT.fwd b.1 (by omega)
        omega
    · right
      by_contra h'
      exact hnt ((hok.mem i).2 ⟨b, hb, h, by omega⟩)
  · intro _
    rcases Nat.lt_or_ge i b.2 with h | h
    · exact Or.inl h
    · right
      by_contra h'
      obtain ⟨u, hu, hpu⟩ := minTrain_cut hT (Nat.lt_of_not_ge h')
      have hur := List.mem_of_mem_take hu
      obtain ⟨c, hc, hcu⟩ := (hok.mem u).1 hur
      have hun : u < n := lt_of_lt_of_le hcu.2 (hok.range c hc).2
      have hui : u < i := by
        by_contra hge
        exact hnt (hrun b.1 i u hs1 hur (by omega) (by omega))
      rcases hcon u hur with h1 | h1
      · have h2 := hT.mono u i hui.le hi
        have h3 := hT.fwd i hi
        omega
      · omega

/-- C07 as documented is false: 18 samples in 6 folds, labels lasting one step, no embargo.  In the
round testing folds 1 and 3 the sample 7 is dropped although it interferes with no test sample
(the embargo after fold 1 is computed from the labels of fold 3). -/
theorem C07_no_overdrop_refuted :
    ∃ (n g k : ℕ) (pred eval : ℕ → ℤ) (emb : ℤ) (rounds : List (List ℕ × List ℕ)),
      Timeline n pred eval ∧ 0 ≤ emb ∧ split n g k pred eval emb = .ok rounds ∧
      ∃ r ∈ rounds, ∃ i < n, i ∉ r.2 ∧ i ∉ r.1 ∧ ∀ t ∈ r.2, Separated pred eval emb i t := by
  have hex : ∃ rounds, split 18 6 2 (fun i => i) (fun i => i + 1) 0 = .ok rounds ∧
      ([0, 1, 13, 14, 15, 16, 17], [3, 4, 5, 9, 10, 11]) ∈ rounds :=
    ⟨_, rfl, by decide +kernel⟩
  obtain ⟨rounds, h1, h2⟩ := hex
  refine ⟨18, 6, 2, fun i => i, fun i => i + 1, 0, rounds,
    ⟨fun i j h _ => by simpa using h, fun i _ => by simp⟩, le_refl _, h1, _, h2, 7, by norm_num,
    by simp, by simp, ?_⟩
  unfold Separated
  decide

/-- C06 and C07 together, exact train set for one contiguous run: if the labels of the run (plus
embargo) end before the last prediction time, the train set consists of exactly the non-test samples
separated from all test samples. -/
theorem C07_exact_train_set_partial (n g k : ℕ) (pred eval : ℕ → ℤ) (emb : ℤ) (hg : 1 ≤ g)
    (hT : Timeline n pred eval) (hemb : 0 ≤ emb)
    (rounds : List (List ℕ × List ℕ)) (hs : split n g k pred eval emb = .ok rounds)
    (r : List ℕ × List ℕ) (hr : r ∈ rounds)
    (hrun : ∀ x y z, x ∈ r.2 → z ∈ r.2 → x ≤ y → y ≤ z → y ∈ r.2)
    (hend : ∀ t ∈ r.2, eval t + emb < pred (n - 1)) (i : ℕ) :
    i ∈ r.1 ↔ i < n ∧ i ∉ r.2 ∧ ∀ t ∈ r.2, Separated pred eval emb i t := by
  constructor
  · intro hi
    have h4 := C04_train_test_disjoint n g k pred eval emb hg rounds hs r hr
    exact ⟨h4.2.2.1 i hi, h4.2.2.2 i hi, fun t ht =>
      C06_no_leakage_early_tests_partial n g k pred eval emb hg hT rounds hs r hr hend i hi t ht⟩
  · rintro ⟨h1, h2, h3⟩
    by_contra h4
    obtain ⟨t, ht, hn⟩ := C07_no_overdrop_partial n g k pred eval emb hg hT hemb rounds hs r hr hrun
      i h1 h2 h4
    exact hn (h3 t ht)

/-! ### C08: every sample is tested equally often -/

/-- C08: over all rounds every position is in the test set of exactly `C(g-1, k-1)` rounds. -/
theorem C08_tested_equally_often (n g k : ℕ) (pred eval : ℕ → ℤ) (emb : ℤ)
    (hg : 1 ≤ g) (h : g ≤ n) (hk : 1 ≤ k) (rounds : List (List ℕ × List ℕ))
    (hs : split n g k pred eval emb = .ok rounds) (x : ℕ) (hx : x < n) :
    rounds.countP (fun r => decide (x ∈ r.2)) = (g - 1).choose (k - 1) := by
  rw [split_ok n g k pred eval emb hg h] at hs
  cases hs
  obtain ⟨k, rfl⟩ : ∃ m, k = m + 1 := ⟨k - 1, by omega⟩
  have hb := balancedPartition_sizes n g hg h
  have hf := foldsOK_sizes n g hg h
  obtain ⟨c, ⟨hc, hcx⟩, huniq⟩ := hb.cover x hx
  have hlen : (boundsFrom 0 (sizes n g)).length = g := by
    rw [boundsFrom_length, sizes_length n g hg]
  have := countP_mem_combinations k _ hf.nodup c hc
  rw [hlen] at this
  rw [Nat.add_sub_cancel, ← this, List.countP_map, List.countP_reverse]
  apply List.countP_congr
  intro s hs
  have hsub := (mem_combinations.1 hs).1
  simp only [Function.comp_apply, decide_eq_true_eq]
  rw [show (splitRound n pred eval emb s).2 = (computeTestSet n s).2 from rfl, mem_computeTestSet]
  constructor
  · rintro ⟨_, b, hbs, hbx⟩
    rw [← huniq b ⟨hsub.subset hbs, hbx⟩]; exact hbs
  · intro hcs
    exact ⟨hx, c, hcs, hcx⟩

example : (split 8 4 2 (fun i => i) (fun i => i) 0).toOption.map
    (fun rs => rs.countP (fun r => decide (5 ∈ r.2))) = some 3 := by decide +kernel

/-! ### C09: number of backtest paths -/

theorem foldl_den (N m : ℕ) (h : m ≤ N - 1) (hN : 1 ≤ N) :
    (List.range m).foldl (fun (d : ℤ) (i : ℕ) => d * ((N : ℤ) - ((i : ℤ) + 1))) 1
      = ((N - 1).descFactorial m : ℤ) := by
  induction m with
  | zero => simp
  | succ m ih =>
    rw [List.range_succ, List.foldl_append, ih (by omega)]
    simp only [List.foldl_cons, List.foldl_nil]
    rw [Nat.descFactorial_succ]
    have : ((N : ℤ) - ((m : ℤ) + 1)) = ((N - 1 - m : ℕ) : ℤ) := by omega
    rw [this]; push_cast; ring

/-- C09: `compute_back_test_paths(N, k)` is `C(N-1, k-1)` whenever that number has at most 53 bits. -/
theorem C09_back_test_paths (N k : ℕ) (hk : 1 ≤ k) (hkN : k ≤ N)
    (hC : (N - 1).choose (k - 1) ≤ 2 ^ 53) :
    computeBackTestPaths N k = .ok ((N - 1).choose (k - 1) : ℤ) := by
  unfold computeBackTestPaths pyFactorial
  have h1 : ((k : ℤ) - 1).toNat = k - 1 := by omega
  have h2 : ¬ ((k : ℤ) - 1 < 0) := by omega
  rw [h1, foldl_den N (k - 1) (by omega) (by omega)]
  simp only [h2, if_false, bind, Except.bind]
  apply pyIntTrueDiv_exact
  · exact_mod_cast Nat.factorial_ne_zero _
  · rw [Nat.descFactorial_eq_factorial_mul_choose]; push_cast; ring
  · rw [abs_of_nonneg (by positivity)]
    exact_mod_cast hC

/-- C09: the same number in the form of the book, `paths = k / N * C(N, k)`. -/
theorem C09_back_test_paths_book (N k p : ℕ) (hk : 1 ≤ k) (hkN : k ≤ N)
    (hC : (N - 1).choose (k - 1) ≤ 2 ^ 53) (hp : computeBackTestPaths N k = .ok (p : ℤ)) :
    N * p = k * N.choose k := by
  rw [C09_back_test_paths N k hk hkN hC] at hp
  have hp' : (N - 1).choose (k - 1) = p := by
    have := Except.ok.inj hp
    exact_mod_cast this
  obtain ⟨k, rfl⟩ : ∃ m, k = m + 1 := ⟨k - 1, by omega⟩
  obtain ⟨N, rfl⟩ : ∃ m, N = m + 1 := ⟨N - 1, by omega⟩
  rw [← hp']
  simp only [Nat.add_sub_cancel]
  have := Nat.add_one_mul_choose_eq N k
  rw [this]; ring

example : computeBackTestPaths 6 2 = .ok 5 := C09_back_test_paths 6 2 (by norm_num) (by norm_num)
  (by decide)

end Mizar.Props
