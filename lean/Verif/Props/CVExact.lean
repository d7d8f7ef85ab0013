import Verif.Props.CV
import Verif.Lemmas.Nearest

/-!
Property theorems C01, C07 and C09 without size restrictions: what the constructor and `compute_back_test_paths` do for
numbers of any size, and the exact train set of every round (`/repo/mizarlabs/model/model_selection.py`).
-/

namespace Mizar.Props
open Mizar.Spec Mizar.CV

/-! ### C01 and C09: numbers of any size -/

/-- `int(a / b)` for a quotient that is a natural number: the nearest double, or `OverflowError` from half a unit above the
greatest double on. -/
theorem pyIntTrueDiv_natural (a b : ℤ) (c : ℕ) (hb : b ≠ 0) (hab : a = c * b) (hc : 1 ≤ c) :
    (2 ^ 1024 - 2 ^ 970 ≤ c → pyIntTrueDiv a b = .error .overflowError) ∧
    (c < 2 ^ 1024 - 2 ^ 970 → ∃ m : ℕ, pyIntTrueDiv a b = .ok m ∧ (m : ℚ) = roundBits 53 c) := by
  have hq : (a : ℚ) / b = c := by
    have : (b : ℚ) ≠ 0 := by exact_mod_cast hb
    rw [hab]; push_cast; field_simp
  have hpos : (0 : ℚ) < c := by exact_mod_cast hc
  obtain ⟨m, hm⟩ := roundBits_int 53 (by norm_num) c
  have hov := roundBits_overflow 53 (by norm_num) 1024 (by norm_num) (c : ℚ) hpos
  have e : (1024 - 53 - 1 : ℕ) = 970 := by norm_num
  rw [e] at hov
  have hcast : ((2 : ℚ) ^ 1024 - 2 ^ 970 ≤ c) ↔ (2 ^ 1024 - 2 ^ 970 ≤ c) := by
    have h1 : (2 : ℕ) ^ 970 ≤ 2 ^ 1024 := Nat.pow_le_pow_right (by norm_num) (by norm_num)
    have h2 : (((2 ^ 1024 - 2 ^ 970 : ℕ)) : ℚ) = 2 ^ 1024 - 2 ^ 970 := by
      rw [Nat.cast_sub h1, Nat.cast_pow, Nat.cast_pow, Nat.cast_ofNat]
    rw [← h2]
    exact Nat.cast_le
  unfold pyIntTrueDiv
  rw [if_neg hb]
  simp only [hq, toDouble_eq, hm] at hov ⊢
  have habs : |(m : ℚ)| = m := abs_of_nonneg (by positivity)
  rw [habs]
  constructor
  · intro h
    rw [if_pos (hov.2 (hcast.2 h))]
  · intro h
    rw [if_neg (fun h' => absurd (hcast.1 (hov.1 h')) (by omega))]
    refine ⟨m, ?_, rfl⟩
    have := pyIntTrunc_intCast (m : ℤ)
    rw [Int.cast_natCast] at this
    rw [this]

/-- The rounded number is exact exactly if it has at most 53 bits after removing trailing zeros. -/
theorem round_exact_iff (c m : ℕ) (h : (m : ℚ) = roundBits 53 c) : m = c ↔ IsFloat 53 c := by
  constructor
  · rintro rfl
    rw [h]
    exact isFloat_roundBits 53 (by norm_num) _
  · intro hf
    rw [roundBits_eq_self 53 (by norm_num) hf] at h
    exact_mod_cast h

/-- C01 (numbers of any size): for a valid number of test folds, if the binomial coefficient rounds to infinity (from half a
unit above the greatest double on) the constructor raises `OverflowError`, whatever the embargo; otherwise it refuses a
negative embargo and accepts every other one, and the reported number of splits is a double nearest to the binomial
coefficient, which is exact exactly if the coefficient is a double. -/
theorem C01_any_size (N k : ℕ) (emb : ℤ) (h1 : 1 ≤ k) (h2 : k ≤ N - 1) :
    (2 ^ 1024 - 2 ^ 970 ≤ N.choose k → CV.init N k emb = .error .overflowError) ∧
    (N.choose k < 2 ^ 1024 - 2 ^ 970 →
      (emb < 0 → CV.init N k emb = .error .valueError) ∧
      (0 ≤ emb → ∃ m : ℕ, CV.init N k emb = .ok ⟨N, k, m, emb⟩ ∧ Nearest 53 (N.choose k) m ∧
        (m = N.choose k ↔ IsFloat 53 (N.choose k)))) := by
  have hkN : k < N := by omega
  have hge : N ≤ N.choose k := self_le_choose h1 hkN
  have hsub : ((N : ℤ) - k).toNat = N - k := by omega
  obtain ⟨p1, p2⟩ := pyIntTrueDiv_natural (Nat.factorial (N : ℤ).toNat : ℤ)
    ((Nat.factorial (k : ℤ).toNat : ℤ) * (Nat.factorial ((N : ℤ) - k).toNat : ℤ)) (N.choose k)
    (by exact_mod_cast Nat.mul_ne_zero (Nat.factorial_ne_zero _) (Nat.factorial_ne_zero _))
    (by
      rw [hsub]
      have := Nat.choose_mul_factorial_mul_factorial hkN.le
      simp only [Int.toNat_natCast]
      rw [← this]; push_cast; ring) (by omega)
  have e1 : ¬ ((N : ℤ) < 0) := by omega
  have e2 : ¬ ((k : ℤ) < 0) := by omega
  have e3 : ¬ ((N : ℤ) - k < 0) := by omega
  have e4 : ¬ ((k : ℤ) ≤ 0 ∨ (k : ℤ) > N - 1) := by omega
  constructor
  · intro h
    have hdiv := p1 h
    unfold CV.init pyFactorial
    simp only [e1, e2, e3, if_false, bind, Except.bind, hdiv]
  · intro h
    obtain ⟨m, hdiv, hm⟩ := p2 h
    have hgt : ¬ ((m : ℤ) ≤ 1) := by
      have ha : ((2 : ℕ) : ℚ) ≤ N.choose k := by exact_mod_cast (by omega : 2 ≤ N.choose k)
      have hb := roundBits_mono 53 (by norm_num) ha
      rw [roundBits_natCast 53 (by norm_num) 2 (by norm_num), ← hm] at hb
      have : 2 ≤ m := by exact_mod_cast hb
      omega
    have hinit : CV.init N k emb = if emb < 0 then .error .valueError else .ok ⟨N, k, m, emb⟩ := by
      unfold CV.init pyFactorial
      simp only [e1, e2, e3, if_false, bind, Except.bind, hdiv, hgt, e4]
      split <;> rfl
    refine ⟨fun he => by rw [hinit, if_pos he], fun he => ⟨m, by rw [hinit, if_neg (by omega)], ?_, round_exact_iff _ _ hm⟩⟩
    rw [hm]
    exact (roundBits_correct 53 (by norm_num) _).1

/-- C01 (what is accepted): the constructor succeeds exactly for the valid parameters whose binomial coefficient does not
round to infinity. -/
theorem C01_accepted_iff (N k emb : ℤ) :
    (∃ p, CV.init N k emb = .ok p) ↔
      1 ≤ k ∧ k ≤ N - 1 ∧ 0 ≤ emb ∧ N.toNat.choose k.toNat < 2 ^ 1024 - 2 ^ 970 := by
  by_cases h : 1 ≤ k ∧ k ≤ N - 1
  · obtain ⟨N', rfl⟩ : ∃ m : ℕ, N = m := ⟨N.toNat, by omega⟩
    obtain ⟨k', rfl⟩ : ∃ m : ℕ, k = m := ⟨k.toNat, by omega⟩
    simp only [Int.toNat_natCast]
    obtain ⟨p1, p2⟩ := C01_any_size N' k' emb (by omega) (by omega)
    rcases Nat.lt_or_ge (N'.choose k') (2 ^ 1024 - 2 ^ 970) with hc | hc
    · rcases lt_or_ge emb 0 with he | he
      · rw [(p2 hc).1 he]
        constructor
        · rintro ⟨_, h⟩; cases h
        · intro h; omega
      · obtain ⟨m, hm, _⟩ := (p2 hc).2 he
        exact ⟨fun _ => ⟨h.1, h.2, he, hc⟩, fun _ => ⟨_, hm⟩⟩
    · rw [p1 hc]
      constructor
      · rintro ⟨_, h⟩; cases h
      · intro h; exact absurd h.2.2.2 (Nat.not_lt.2 hc)
  · rw [C01_rejects_bad_test_splits N k emb h]
    constructor
    · rintro ⟨_, h'⟩; cases h'
    · intro h'; exact absurd ⟨h'.1, h'.2.1⟩ h

/-- 57 groups and 25 test folds: accepted, but the binomial coefficient is odd and above `2 ^ 53`, so it is no double and the
reported number is not exact. -/
example : ¬ IsFloat 53 ((Nat.choose 57 25 : ℕ) : ℚ) ∧ Nat.choose 57 25 < 2 ^ 1024 - 2 ^ 970 := by
  have hval : Nat.choose 57 25 = 9929472283517787 := by decide +kernel
  have hsmall : Nat.choose 57 25 < 2 ^ 1024 - 2 ^ 970 := by decide +kernel
  refine ⟨fun h => ?_, hsmall⟩
  obtain ⟨m, hm, _, hex⟩ := ((C01_any_size 57 25 0 (by norm_num) (by norm_num)).2 hsmall).2 (le_refl _)
  have h3 : CV.init 57 25 0 = .ok ⟨57, 25, 9929472283517788, 0⟩ := by decide +kernel
  rw [show ((57 : ℕ) : ℤ) = 57 by norm_num, show ((25 : ℕ) : ℤ) = 25 by norm_num, h3] at hm
  have h5 : (9929472283517788 : ℤ) = m := congrArg Params.nSplits (Except.ok.inj hm)
  have h6 := hex.2 h
  rw [hval] at h6
  omega

/-- C09 (numbers of any size): for `1 ≤ k ≤ N` the number of paths is a double nearest to `C(N-1, k-1)`, or `OverflowError`
if that rounds to infinity. -/
theorem C09_any_size (N k : ℕ) (hk : 1 ≤ k) (hkN : k ≤ N) :
    (2 ^ 1024 - 2 ^ 970 ≤ (N - 1).choose (k - 1) → computeBackTestPaths N k = .error .overflowError) ∧
    ((N - 1).choose (k - 1) < 2 ^ 1024 - 2 ^ 970 → ∃ m : ℕ, computeBackTestPaths N k = .ok (m : ℤ) ∧
      Nearest 53 ((N - 1).choose (k - 1)) m ∧ (m = (N - 1).choose (k - 1) ↔ IsFloat 53 ((N - 1).choose (k - 1)))) := by
  have hpos : 1 ≤ (N - 1).choose (k - 1) := Nat.choose_pos (by omega)
  obtain ⟨p1, p2⟩ := pyIntTrueDiv_natural ((N - 1).descFactorial (k - 1) : ℤ) ((k - 1).factorial : ℤ) ((N - 1).choose (k - 1))
    (by exact_mod_cast Nat.factorial_ne_zero _)
    (by rw [Nat.descFactorial_eq_factorial_mul_choose]; push_cast; ring) hpos
  have e : computeBackTestPaths N k = pyIntTrueDiv ((N - 1).descFactorial (k - 1) : ℤ) ((k - 1).factorial : ℤ) := by
    unfold computeBackTestPaths pyFactorial
    have h1 : ((k : ℤ) - 1).toNat = k - 1 := by omega
    have h2 : ¬ ((k : ℤ) - 1 < 0) := by omega
    rw [h1, foldl_den N (k - 1) (by omega) (by omega)]
    simp only [h2, if_false, bind, Except.bind]
  rw [e]
  refine ⟨p1, fun h => ?_⟩
  obtain ⟨m, hm, hr⟩ := p2 h
  refine ⟨m, hm, ?_, round_exact_iff _ _ hr⟩
  rw [hr]
  exact (roundBits_correct 53 (by norm_num) _).1

/-- C09 (other numbers of test folds): none or less raises `ValueError`; more than there are folds gives 0. -/
theorem C09_outside (N : ℕ) (hN : 1 ≤ N) (k : ℤ) :
    (k ≤ 0 → computeBackTestPaths N k = .error .valueError) ∧ (N < k → computeBackTestPaths N k = .ok 0) := by
  constructor
  · intro h
    unfold computeBackTestPaths pyFactorial
    rw [if_pos (by omega)]
    rfl
  · intro h
    have hz : ∀ (m : ℕ) (d : ℤ), N ≤ m → (List.range m).foldl (fun (d : ℤ) (i : ℕ) => d * ((N : ℤ) - ((i : ℤ) + 1))) d = 0 := by
      intro m
      induction m with
      | zero => intro d hm; omega
      | succ m ih =>
        intro d hm
        rw [List.range_succ, List.foldl_append]
        simp only [List.foldl_cons, List.foldl_nil]
        rcases Nat.lt_or_ge m N with hlt | hge
        · have : (N : ℤ) - ((m : ℤ) + 1) = 0 := by omega
          rw [this, mul_zero]
        · rw [ih d hge, zero_mul]
    unfold computeBackTestPaths pyFactorial
    rw [hz _ 1 (by omega), if_neg (by omega)]
    simp only [bind, Except.bind]
    exact pyIntTrueDiv_exact (m := 0) (by exact_mod_cast Nat.factorial_ne_zero _) (by ring) (by norm_num)

example : computeBackTestPaths 3 5 = .ok 0 := (C09_outside 3 (by norm_num) 5).2 (by norm_num)

/-! ### C07: the train set of every round -/

/-- The test positions of a round end in a run at the upper bound of each of its blocks. -/
theorem runEnd_of_bound {n : ℕ} {bounds : List (ℕ × ℕ)} {test : List ℕ} (hok : TestOK n bounds test) {b : ℕ × ℕ}
    (hb : b ∈ bounds) {t : ℕ} (hx : InRange b t) : RunEnd test t b.2 := by
  refine ⟨hx.2, fun x h1 h2 => (hok.mem x).2 ⟨b, hb, le_trans hx.1 h1, h2⟩, ?_⟩
  intro hmem
  obtain ⟨c, hc, hcx⟩ := (hok.mem b.2).1 hmem
  have hbr := hok.range b hb
  have hcr := hok.range c hc
  by_cases hbc : b = c
  · subst hbc; exact absurd hcx.2 (lt_irrefl _)
  · have := hcx.1
    have := hcx.2
    rcases pairwise_or hok.gap hb hc hbc with h | h <;> omega

/-- Conversely every end of a run of test positions is the upper bound of a block. -/
theorem bound_of_runEnd {n : ℕ} {bounds : List (ℕ × ℕ)} {test : List ℕ} (hok : TestOK n bounds test) {t e : ℕ}
    (h : RunEnd test t e) : ∃ b ∈ bounds, InRange b t ∧ b.2 = e := by
  obtain ⟨b, hb, hx⟩ := (hok.mem t).1 (h.2.1 t (le_refl _) h.1)
  refine ⟨b, hb, hx, ?_⟩
  have h' := runEnd_of_bound hok hb hx
  rcases Nat.lt_trichotomy b.2 e with hlt | heq | hgt
  · exact absurd (h.2.1 b.2 h'.1.le hlt) h'.2.2
  · exact heq
  · exact absurd (h'.2.1 e h.1.le hgt) h.2.2

/-- C07 (the train set of every round): for a documented dataset, whatever folds are tested, a position is in the train set
exactly if it is not tested, its label is known before the prediction of every later test position, and for every run of
test positions ending at or before it (at `e`): either a label among the first `e` test positions, embargo included, reaches
the last prediction time (then the run has no embargo at all), or all of them end before its prediction.  The two ways in
which this differs from the documented train set are `C06_no_leakage_refuted` and `C07_no_overdrop_refuted`. -/
theorem C07_train_set (n g k : ℕ) (pred eval : ℕ → ℤ) (emb : ℤ) (hg : 1 ≤ g) (hT : Timeline n pred eval)
    (rounds : List (List ℕ × List ℕ)) (hs : split n g k pred eval emb = .ok rounds)
    (r : List ℕ × List ℕ) (hr : r ∈ rounds) (i : ℕ) :
    i ∈ r.1 ↔ i < n ∧ i ∉ r.2 ∧ (∀ t ∈ r.2, i < t → eval i < pred t) ∧
      ∀ t e, RunEnd r.2 t e → e ≤ i →
        (∃ u ∈ r.2.take e, pred (n - 1) ≤ eval u + emb) ∨ ∀ u ∈ r.2.take e, eval u + emb < pred i := by
  obtain ⟨bounds, hok, htr⟩ := mem_split hg hs hr
  constructor
  · intro hi
    have hi' := hi
    rw [htr] at hi
    obtain ⟨hin, hnot, hall⟩ := mem_computeTrainSet.1 hi
    refine ⟨hin, hnot, fun t ht hit => C05_purged_before_test n g k pred eval emb hg hT rounds hs r hr i t hi' ht hit, ?_⟩
    intro t e hre hei
    obtain ⟨b, hb, hx, rfl⟩ := bound_of_runEnd hok hre
    by_cases hcut : ∃ u ∈ r.2.take b.2, pred (n - 1) ≤ eval u + emb
    · exact Or.inl hcut
    · right
      push Not at hcut
      have hlt : minTrain n pred eval emb r.2 b.2 < n := minTrain_lt (j := n - 1) (by omega) hcut
      rcases (hall b hb).2 hlt with h | h
      · omega
      · exact fun u hu => minTrain_spec hT hin hu h
  · rintro ⟨hin, hnot, hbefore, hafter⟩
    rw [htr, mem_computeTrainSet]
    refine ⟨hin, hnot, fun b hb => ?_⟩
    have hbr := hok.range b hb
    have hs1 : b.1 ∈ r.2 := (hok.mem _).2 ⟨b, hb, le_refl _, hbr.1⟩
    constructor
    · rcases Nat.lt_or_ge i b.1 with h | h
      · exact Or.inl (hbefore b.1 hs1 h)
      · right
        by_contra h'
        exact hnot ((hok.mem i).2 ⟨b, hb, h, by omega⟩)
    · intro hlt
      rcases Nat.lt_or_ge i b.2 with h | h
      · exact Or.inl h
      · right
        by_contra h'
        obtain ⟨u, hu, hpu⟩ := minTrain_cut hT (Nat.lt_of_not_ge h')
        rcases hafter b.1 b.2 (runEnd_of_bound hok hb ⟨le_refl _, hbr.1⟩) h with ⟨v, hv, hpv⟩ | hall
        · have h1 : eval v + emb < pred (n - 1) := minTrain_spec hT (by omega) hv (by omega)
          omega
        · have := hall u hu
          omega

/-- Instance: of eight samples with labels known one step later, testing the second and the fourth of four folds. -/
example : Timeline 8 (fun i => i) (fun i => i + 1) ∧
    ∃ rounds, split 8 4 2 (fun i => i) (fun i => i + 1) 0 = .ok rounds ∧ ([0, 4], [2, 3, 6, 7]) ∈ rounds ∧
      RunEnd [2, 3, 6, 7] 2 4 :=
  ⟨⟨fun i j h _ => by simpa using h, fun i _ => by simp⟩, _, rfl, by decide +kernel, by
    refine ⟨by norm_num, fun x h1 h2 => ?_, by decide⟩
    have : x = 2 ∨ x = 3 := by omega
    rcases this with rfl | rfl <;> decide⟩

end Mizar.Props
