import Verif.Lemmas.Within
import Verif.Props.RoundedBoot

/-!
C150: average uniqueness, the sequential bootstrap and the time-decay weights between underflow and overflow.  The arithmetic `r'` below is
known on zero and on the numbers between two powers of two only; the results do not depend on what it does elsewhere.
-/

namespace Mizar.Props
open Mizar Mizar.Spec Mizar.Boot

/-- C150: a format with bounded exponent rounds zero and the numbers between its smallest normal number and half of its largest power of two
as `roundBits` does. -/
theorem C150_format (f : Fmt) (hp : 1 ≤ f.p) (q : ℚ)
    (hq : q = 0 ∨ (2 : ℚ) ^ (f.emin + ((f.p : ℤ) - 1)) ≤ |q| ∧ |q| ≤ 2 ^ (f.emax - 1)) : f.float q = .fin (roundBits f.p q) := by
  have hlt : (2 : ℚ) ^ (f.emax - 1) < 2 ^ f.emax := zpow_lt_zpow_right₀ (by norm_num) (by omega)
  have hr : f.round q = roundBits f.p q ∧ |roundBits f.p q| < 2 ^ f.emax := by
    rcases hq with rfl | ⟨h1, h2⟩
    · rw [roundBits_zero]
      exact ⟨by simp [Fmt.round], by simpa using two_zpow_pos f.emax⟩
    · refine ⟨f.round_of_le h1, ?_⟩
      rw [abs_le] at h2
      have q1 := roundBits_mono f.p hp h2.1
      have q2 := roundBits_mono f.p hp h2.2
      rw [roundBits_zpow_self f.p hp] at q2
      rw [roundBits_neg, roundBits_zpow_self f.p hp] at q1
      rw [abs_lt]
      constructor <;> linarith
  obtain ⟨h1, h2⟩ := hr
  rw [abs_lt] at h2
  unfold Fmt.float
  rw [h1, if_neg (not_le.2 h2.2), if_neg (not_le.2 h2.1)]

/-- C150: whatever a program makes of infinities, the arithmetic of a format agrees with `roundBits` between underflow and overflow. -/
theorem C150_agrees (f : Fmt) (hp : 1 ≤ f.p) (r' : ℚ → ℚ) (h : ∀ q x, f.float q = .fin x → r' q = x) :
    AgreesOn (f.emin + ((f.p : ℤ) - 1)) (f.emax - 1) (roundBits f.p) r' :=
  fun q hq => h q _ (C150_format f hp q hq)

/-- C150: average uniqueness.  No intermediate result is below `2^-2p` or above `2^p`. -/
theorem C150_average_uniqueness (p : ℕ) (hp : 1 ≤ p) (lo hi : ℤ) (r' : ℚ → ℚ) (h : AgreesOn lo hi (roundBits p) r')
    (hlo : lo ≤ -(2 * p)) (hhi : (p : ℤ) ≤ hi) (M : IndMat) (hn : M.nCols ≤ 2 ^ p) (j : ℕ) (hj : j < M.nCols) (hb : (barsOf M j).Nonempty)
    (hk : (barsOf M j).card < 2 ^ p) :
    Rd.averageUniqueness r' M j = Rd.averageUniqueness (roundBits p) M j := by
  refine (Rd.averageUniqueness_within p hp p h (by omega) hhi M j hn hj ?_ ?_).1
  · intro hc
    have := Finset.card_pos.2 hb
    rw [← colRows_length, hc] at this
    simp at this
  · rwa [colRows_length]

/-- C150: time-decay weights of events from their average uniqueness, for every minimum weight above -1 and up to 1. -/
theorem C150_weights (p : ℕ) (hp : 1 ≤ p) (lo hi : ℤ) (r' : ℚ → ℚ) (h : AgreesOn lo hi (roundBits p) r')
    (hlo : lo ≤ -(5 * p)) (hhi : 4 * (p : ℤ) + 2 ≤ hi) (M : IndMat) (hn : M.nCols ≤ 2 ^ p) (js : List ℕ) (hjs : js.length < 2 ^ p)
    (hj : ∀ j ∈ js, j < M.nCols ∧ (barsOf M j).Nonempty ∧ (barsOf M j).card < 2 ^ p)
    (c : ℚ) (hc : IsFloat p c) (hc1 : -1 < c) (hc2 : c ≤ 1) :
    Rd.timeDecay r' c (js.map (Rd.averageUniqueness r' M)) =
      Rd.timeDecay (roundBits p) c (js.map (Rd.averageUniqueness (roundBits p) M)) := by
  have hw : ∀ j ∈ js, Rd.averageUniqueness r' M j = Rd.averageUniqueness (roundBits p) M j ∧
      (2 : ℚ) ^ (-(p : ℤ) - p) ≤ Rd.averageUniqueness (roundBits p) M j ∧ Rd.averageUniqueness (roundBits p) M j ≤ 1 := by
    intro j hjm
    obtain ⟨h1, h2, h3⟩ := hj j hjm
    refine Rd.averageUniqueness_within p hp p h (by omega) (by omega) M j hn h1 ?_ (by rwa [colRows_length])
    intro hcr
    have := Finset.card_pos.2 h2
    rw [← colRows_length, hcr] at this
    simp at this
  rw [List.map_congr_left fun j hjm => (hw j hjm).1]
  refine Rd.timeDecay_within hp (2 * p) h (by push_cast; omega) (by push_cast; omega) c hc hc1 hc2 _ ?_ (by simpa using hjs)
  intro x hx
  obtain ⟨j, hjm, rfl⟩ := List.mem_map.1 hx
  have := (hw j hjm).2
  rwa [show -(p : ℤ) - p = -((2 * p : ℕ) : ℤ) by push_cast; ring] at this

/-- C150: `seq_bootstrap`, for every order in which NumPy adds up the average uniqueness (`plan`), every generator that returns no more
samples than asked for, every length and batch size: the same probabilities, checks and draws. -/
theorem C150_bootstrap (p₁ p₂ : ℕ) (h₁ : 2 ≤ p₁) (h₁₂ : p₁ ≤ p₂) (h₂ : 26 < p₂) (lo₁ hi₁ lo₂ hi₂ : ℤ) (r₁' r₂' : ℚ → ℚ)
    (g₁ : AgreesOn lo₁ hi₁ (roundBits p₁) r₁') (g₂ : AgreesOn lo₂ hi₂ (roundBits p₂) r₂') (hlo₁ : lo₁ ≤ -(p₂ + 1))
    (hhi₁ : (p₂ : ℤ) + 1 ≤ hi₁) (hlo₂ : lo₂ ≤ -(4 * p₂ + 1)) (hhi₂ : (p₂ : ℤ) ≤ hi₂)
    (plan : List ℚ → SumTree) (hplan : ∀ l, l ≠ [] → (plan l).leaves.Perm l)
    (M : IndMat) (hM : 0 < M.nCols) (hn : 40 * 2 ^ 26 * M.nCols ≤ 2 ^ p₂) (hk : ∀ j < M.nCols, (barsOf M j).card < 2 ^ p₂)
    (rng : ℕ → List ℚ → ℕ → List ℕ) (hrng : ∀ i q m, (rng i q m).length ≤ m) (len : Option ℤ) (k : ℤ)
    (hlen : |len.getD M.nCols| < 2 ^ p₂) (hks : |k| < 2 ^ p₂) :
    Rd.seqBootstrapTrace r₁' r₂' (fun l => (plan l).evalWith r₂') M rng len k =
      Rd.seqBootstrapTrace (roundBits p₁) (roundBits p₂) (fun l => (plan l).evalWith (roundBits p₂)) M rng len k := by
  have hp2 : 1 ≤ p₂ := by omega
  have hnq : 40 * 2 ^ 26 * (M.nCols : ℚ) ≤ 2 ^ p₂ := by exact_mod_cast hn
  unfold Rd.seqBootstrapTrace
  dsimp only
  set L := len.getD (M.nCols : ℤ) with hL
  by_cases hk0 : k = 0
  · rw [if_pos hk0, if_pos hk0]
  rw [if_neg hk0, if_neg hk0]
  by_cases hneg : L < 0 ∧ k < 0
  · rw [if_pos hneg, if_pos hneg]
  rw [if_neg hneg, if_neg hneg]
  have hkq : (0 : ℚ) < |(k : ℚ)| := by simpa using hk0
  have hkq1 : (1 : ℚ) ≤ |(k : ℚ)| := by exact_mod_cast Int.one_le_abs hk0
  have hkq2 : |(k : ℚ)| ≤ 2 ^ (p₂ : ℤ) := by rw [zpow_natCast]; exact_mod_cast hks.le
  have hfuel : r₂' ((L : ℚ) / (k : ℚ)) = roundBits p₂ ((L : ℚ) / (k : ℚ)) := by
    apply g₂.mono (lo := -(p₂ : ℤ)) (hi := p₂) (by omega) hhi₂
    by_cases hL0 : L = 0
    · left; simp [hL0]
    · right
      have hl1 : (1 : ℚ) ≤ |(L : ℚ)| := by exact_mod_cast Int.one_le_abs hL0
      have hl2 : |(L : ℚ)| ≤ 2 ^ (p₂ : ℤ) := by rw [zpow_natCast]; exact_mod_cast hlen.le
      rw [abs_div]
      refine ⟨?_, ?_⟩
      · have := Rd.zpow_div_le (a := 0) (b := p₂) (x := |(L : ℚ)|) (by simpa using hl1) hkq hkq2
        simpa using this
      · rw [div_le_iff₀ hkq]
        nlinarith [two_zpow_pos (p₂ : ℤ)]
  have h1 : ∀ j < M.nCols, (2 : ℚ) ^ (-((p₂ + 1 : ℕ) : ℤ) - p₂) ≤ (1 : ℚ) ∧ (1 : ℚ) ≤ 1 ∧ IsFloat p₂ 1 := fun j _ =>
    ⟨zpow_le_one_of_nonpos₀ (by norm_num) (by omega), le_rfl, by
      have := isFloat_roundBits p₂ hp2 1
      rwa [roundBits_one p₂ hp2] at this⟩
  have hinit : Rd.initState r₂' (fun l => (plan l).evalWith r₂') M =
      Rd.initState (roundBits p₂) (fun l => (plan l).evalWith (roundBits p₂)) M := by
    unfold Rd.initState
    have hneg : -((2 * p₂ + 1 : ℕ) : ℤ) = -((p₂ + 1 : ℕ) : ℤ) - p₂ := by push_cast; ring
    rw [(Rd.prob_within h₂ (2 * p₂ + 1) g₂ (by push_cast; omega) hhi₂ plan hplan M.nCols hM hnq (fun _ => 1)
      (by rw [hneg]; exact h1)).1]
  rw [hfuel, hinit, Rd.ceil_round hp2 _ _ hk0 hlen]
  refine Rd.bootLoop_within p₁ p₂ h₁ h₁₂ h₂ (p₂ + 1) g₁ g₂ (by push_cast; omega) (by push_cast; omega) (by push_cast; omega) hhi₂ plan hplan M hM
    hnq (fun j hj => by rw [colRows_length]; exact hk j hj) rng hrng L k _ 0 _ ?_ (by simp [Rd.initState]) h1 rfl
  have e0 : (Rd.initState (roundBits p₂) (fun l => (plan l).evalWith (roundBits p₂)) M).boot.length = 0 := rfl
  rw [e0]
  have hpow : (2 : ℤ) ^ (p₂ + 1) = 2 ^ p₂ + 2 ^ p₂ := by ring
  suffices hz : ((⌈(L : ℚ) / (k : ℚ)⌉.toNat * k.toNat : ℕ) : ℤ) + 1 ≤ 2 ^ (p₂ + 1) by
    rw [zero_add]; exact_mod_cast hz
  have hone : (1 : ℤ) ≤ 2 ^ p₂ := one_le_pow₀ (by norm_num)
  rcases lt_or_gt_of_ne hk0 with hkn | hkp
  · rw [Int.toNat_of_nonpos (show k ≤ 0 by omega)]
    simp only [Nat.mul_zero, Nat.cast_zero]
    omega
  · rcases le_or_gt L 0 with hL0 | hL0
    · have : ⌈(L : ℚ) / (k : ℚ)⌉ ≤ 0 := by
        rw [Int.ceil_le]
        push_cast
        exact div_nonpos_of_nonpos_of_nonneg (by exact_mod_cast hL0) (by exact_mod_cast hkp.le)
      rw [Int.toNat_of_nonpos this]
      simp only [Nat.zero_mul, Nat.cast_zero]
      omega
    · have hkq' : (0 : ℚ) < k := by exact_mod_cast hkp
      have hc := Int.ceil_lt_add_one ((L : ℚ) / (k : ℚ))
      have hc0 : 0 ≤ ⌈(L : ℚ) / (k : ℚ)⌉ := Int.ceil_nonneg (div_nonneg (by exact_mod_cast hL0.le) hkq'.le)
      have hm : ⌈(L : ℚ) / (k : ℚ)⌉ * k < L + k := by
        have : ((⌈(L : ℚ) / (k : ℚ)⌉ : ℤ) : ℚ) * k < (L : ℚ) + k := by
          have := mul_lt_mul_of_pos_right hc hkq'
          rwa [add_mul, div_mul_cancel₀ _ hkq'.ne', one_mul] at this
        exact_mod_cast this
      push_cast
      rw [Int.toNat_of_nonneg hc0, Int.toNat_of_nonneg hkp.le, hpow]
      rw [abs_lt] at hlen hks
      omega

/-- C150: `seq_bootstrap` with the single precision division in `float32` and the other operations in `float64`, for up to three million
samples: neither underflow nor overflow nor denormal numbers play a part. -/
theorem C150_float64 (r₁' r₂' : ℚ → ℚ) (g₁ : ∀ q x, binary32.float q = .fin x → r₁' q = x) (g₂ : ∀ q x, binary64.float q = .fin x → r₂' q = x)
    (plan : List ℚ → SumTree) (hplan : ∀ l, l ≠ [] → (plan l).leaves.Perm l)
    (M : IndMat) (hM : 0 < M.nCols) (hn : M.nCols ≤ 3000000) (hk : ∀ j < M.nCols, (barsOf M j).card < 2 ^ 53)
    (rng : ℕ → List ℚ → ℕ → List ℕ) (hrng : ∀ i q m, (rng i q m).length ≤ m) (len : Option ℤ) (k : ℤ)
    (hlen : |len.getD M.nCols| < 2 ^ 53) (hks : |k| < 2 ^ 53) :
    Rd.seqBootstrapTrace r₁' r₂' (fun l => (plan l).evalWith r₂') M rng len k =
      Rd.seqBootstrapTrace (roundBits 24) (roundBits 53) (fun l => (plan l).evalWith (roundBits 53)) M rng len k :=
  C150_bootstrap 24 53 (by norm_num) (by norm_num) (by norm_num) _ _ _ _ r₁' r₂' (C150_agrees binary32 (by norm_num [binary32]) r₁' g₁)
    (C150_agrees binary64 (by norm_num [binary64]) r₂' g₂) (by norm_num [binary32]) (by norm_num [binary32]) (by norm_num [binary64])
    (by norm_num [binary64]) plan hplan M hM (by omega) hk rng hrng len k hlen hks

/-! ### Examples -/

/-- Doubles, with nonsense for everything that underflows or overflows. -/
private def nonsense (q : ℚ) : ℚ :=
  if q = 0 ∨ (2 : ℚ) ^ (-1022 : ℤ) ≤ |q| ∧ |q| ≤ 2 ^ (1023 : ℤ) then roundBits 53 q else -17

example : AgreesOn (-1022) 1023 (roundBits 53) nonsense ∧ nonsense (2 ^ (-1023 : ℤ)) = -17 := by
  refine ⟨fun q hq => if_pos hq, if_neg ?_⟩
  rw [abs_of_pos (two_zpow_pos _)]
  rintro (h | h)
  · exact absurd h (two_zpow_pos _).ne'
  · exact absurd h.1 (not_le.2 (zpow_lt_zpow_right₀ (by norm_num) (by norm_num)))

example : binary64.float (1 / 3) = .fin (roundBits 53 (1 / 3)) ∧ binary64.float (2 ^ 1024) = .pinf ∧ binary64.float (1 / 2 ^ 1076) = .fin 0 := by
  exact ⟨C150_format binary64 (by norm_num [binary64]) _ (Or.inr ⟨by decide +kernel, by decide +kernel⟩), by decide +kernel, by decide +kernel⟩

/-- Additions from left to right. -/
private def leftPlan : List ℚ → SumTree
  | [] => .leaf 0
  | x :: l => l.foldl (fun T y => .node T (.leaf y)) (.leaf x)

private theorem leftPlan_perm (l : List ℚ) (hl : l ≠ []) : (leftPlan l).leaves.Perm l := by
  have key : ∀ (l : List ℚ) (T : SumTree), (l.foldl (fun T y => SumTree.node T (.leaf y)) T).leaves = T.leaves ++ l := by
    intro l
    induction l with
    | nil => intro T; simp
    | cons y l ih => intro T; rw [List.foldl_cons, ih]; simp [SumTree.leaves]
  cases l with
  | nil => exact absurd rfl hl
  | cons x l =>
    unfold leftPlan
    rw [key]
    simp [SumTree.leaves]

example (r₁' r₂' : ℚ → ℚ) (g₁ : ∀ q x, binary32.float q = .fin x → r₁' q = x) (g₂ : ∀ q x, binary64.float q = .fin x → r₂' q = x) :
    Rd.seqBootstrapTrace r₁' r₂' (fun l => (leftPlan l).evalWith r₂') threeSamples (fun _ _ m => List.replicate m 1) (some 2) 1 =
    .ok [(List.replicate 3 (roundBits 53 (1 / 3)), [1]),
      ([roundBits 53 (2 / 3), 1 / 2, 1].map
        fun u => roundBits 53 (u / Rd.sum (roundBits 53) [roundBits 53 (2 / 3), 1 / 2, 1]), [1])] := by
  rw [C150_float64 r₁' r₂' g₁ g₂ leftPlan leftPlan_perm threeSamples (by decide +kernel) (by decide +kernel) (by decide +kernel) _ (by simp) _ _
    (by decide +kernel) (by decide +kernel)]
  decide +kernel

example : Rd.timeDecay nonsense 0 ([0, 1, 2].map (Rd.averageUniqueness nonsense threeSamples)) =
    Rd.timeDecay (roundBits 53) 0 ([0, 1, 2].map (Rd.averageUniqueness (roundBits 53) threeSamples)) ∧
    Rd.averageUniqueness nonsense threeSamples 0 = roundBits 53 (2 / 3) :=
  ⟨C150_weights 53 (by norm_num) (-1022) 1023 nonsense (fun q hq => if_pos hq) (by norm_num) (by norm_num) threeSamples (by decide +kernel) _
    (by decide +kernel) (by decide +kernel) 0 ⟨0, 0, by norm_num, by norm_num⟩ (by norm_num) (by norm_num),
   (C150_average_uniqueness 53 (by norm_num) (-1022) 1023 nonsense (fun q hq => if_pos hq) (by norm_num) (by norm_num) threeSamples
    (by decide +kernel) 0 (by decide +kernel) (by decide +kernel) (by decide +kernel)).trans (by decide +kernel)⟩

end Mizar.Props
