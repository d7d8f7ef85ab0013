import Verif.Model.DoubleWeights
import Verif.Lemmas.DoubleBet
import Verif.Lemmas.Boot
import Verif.Lemmas.SeqBoot

/-! Sample weights with a bounded exponent follow those without bounds. -/

namespace Mizar

/-- Formats whose exponents reach far beyond their precision in both directions. -/
structure Fmt.Deep (f : Fmt) : Prop where
  p : 3 ≤ f.p
  low : f.emin + 6 * (f.p : ℤ) + 4 ≤ 0
  high : 5 * (f.p : ℤ) + 5 ≤ f.emax
  sym : 2 ≤ f.emin + f.p + f.emax

theorem Fmt.Deep.roomy {f : Fmt} (D : f.Deep) : f.Roomy :=
  ⟨by have := D.p; omega, by have := D.p; have := D.low; omega, by have := D.p; have := D.high; omega, D.sym⟩

theorem Fmt.Deep.one_le {f : Fmt} (D : f.Deep) : 1 ≤ f.p := D.roomy.p

/-- A float of at least `2^a` is a multiple of `2^(a-p+1)`. -/
theorem IsFloat.onUnit {p : ℕ} {x : ℚ} {a : ℤ} (hf : IsFloat p x) (h : (2 : ℚ) ^ a ≤ |x|) : OnUnit (a - p + 1) x := by
  obtain ⟨m, e, hm, rfl⟩ := hf
  refine OnUnit.coarser ?_ ⟨m, rfl⟩
  rw [abs_mul, abs_of_pos (two_zpow_pos e)] at h
  have h1 : (2 : ℚ) ^ a < 2 ^ ((p : ℤ) + e) := by
    rw [zpow_add₀ (by norm_num), zpow_natCast]
    refine lt_of_le_of_lt h (mul_lt_mul_of_pos_right ?_ (two_zpow_pos e))
    exact_mod_cast hm
  have h2 := (zpow_lt_zpow_iff_right₀ (a := (2 : ℚ)) (by norm_num)).1 h1
  omega

/-- Sums and differences of multiples of a unit. -/
theorem Fmt.mid_add (f : Fmt) (D : f.Deep) {e b : ℤ} {q : ℚ} (he : f.emin ≤ e) (hb : b ≤ f.emax - 1) (h : OnUnit e q) (hq : |q| ≤ 2 ^ b) :
    f.float q = .fin (roundBits f.p q) ∧ OnUnit e (roundBits f.p q) ∧ |roundBits f.p q| ≤ 2 ^ b :=
  ⟨f.float_mid D.roomy (.inr (h.coarser he)) (hq.trans (zpow_le_zpow_right₀ (by norm_num) hb)), h.roundBits D.one_le,
    abs_roundBits_le f.p D.one_le hq⟩

/-- Products and quotients that are 0 or normal. -/
theorem Fmt.mid_mul (f : Fmt) (D : f.Deep) {a b : ℤ} {q : ℚ} (ha : f.emin + f.p - 1 ≤ a) (hb : b ≤ f.emax - 1)
    (h : q = 0 ∨ (2 : ℚ) ^ a ≤ |q|) (hq : |q| ≤ 2 ^ b) :
    f.float q = .fin (roundBits f.p q) ∧ OnUnit (a - f.p + 1) (roundBits f.p q) ∧ |roundBits f.p q| ≤ 2 ^ b ∧
      (roundBits f.p q = 0 ∨ (2 : ℚ) ^ a ≤ |roundBits f.p q|) := by
  have hq' := hq.trans (zpow_le_zpow_right₀ (by norm_num) hb)
  rcases h with rfl | h
  · refine ⟨f.float_mid D.roomy (.inr (OnUnit.zero _)) hq', ?_, ?_, .inl (roundBits_zero _)⟩
    · rw [roundBits_zero]; exact OnUnit.zero _
    · rw [roundBits_zero]; exact hq
  · have h1 := le_abs_roundBits f.p D.one_le h
    refine ⟨f.float_mid D.roomy (.inl (le_trans ?_ h)) hq', (isFloat_roundBits f.p D.one_le q).onUnit h1, abs_roundBits_le f.p D.one_le hq, .inr h1⟩
    exact zpow_le_zpow_right₀ (by norm_num) (by omega)

/-- A float other than one is away from one. -/
theorem float_gap_one {p : ℕ} (hp : 1 ≤ p) {x : ℚ} (hx : IsFloat p x) (h0 : 0 ≤ x) (hne : x ≠ 1) : (2 : ℚ) ^ (-(p : ℤ)) ≤ |x - 1| := by
  have hh : (2 : ℚ) ^ (-(p : ℤ)) ≤ 1 / 2 := by
    calc (2 : ℚ) ^ (-(p : ℤ)) ≤ 2 ^ (-1 : ℤ) := zpow_le_zpow_right₀ (by norm_num) (by omega)
      _ = 1 / 2 := by norm_num
  rcases lt_or_ge x (1 / 2) with h | h
  · rw [abs_of_neg (by linarith)]; linarith
  · have hu : OnUnit (-(p : ℤ)) x := by
      refine (hx.onUnit (a := -1) ?_).coarser (by omega)
      rw [abs_of_nonneg h0]
      norm_num
      linarith
    have h1 := hu.sub (OnUnit.one (e := -(p : ℤ)) (by omega))
    rcases lt_or_gt_of_ne hne with hl | hg
    · rw [← abs_neg, abs_of_pos (by linarith)]
      exact (h1.neg).pos_le (by linarith)
    · rw [abs_of_pos (by linarith)]
      exact h1.pos_le (by linarith)

namespace Rd
open Mizar.Boot Mizar.Spec

theorem deep_foldl_onUnit {p : ℕ} (hp : 1 ≤ p) {e : ℤ} (l : List ℚ) (hl : ∀ x ∈ l, OnUnit e x) : ∀ s : ℚ, OnUnit e s →
    OnUnit e (l.foldl (fun a x => roundBits p (a + x)) s) := by
  induction l with
  | nil => exact fun s hs => hs
  | cons x l ih =>
    intro s hs
    exact ih (fun y hy => hl y (List.mem_cons_of_mem _ hy)) _ ((hs.add (hl x List.mem_cons_self)).roundBits hp)

theorem deep_foldl_pos {p : ℕ} (hp : 1 ≤ p) (l : List ℚ) (hl : ∀ x ∈ l, 0 < x) (hne : l ≠ []) :
    0 < l.foldl (fun a x => roundBits p (a + x)) 0 := by
  have key : ∀ (l : List ℚ) (s : ℚ), 0 < s → (∀ x ∈ l, 0 < x) → 0 < l.foldl (fun a x => roundBits p (a + x)) s := by
    intro l
    induction l with
    | nil => exact fun s hs _ => hs
    | cons x l ih =>
      intro s hs h
      exact ih _ (roundBits_pos p hp (add_pos hs (h x List.mem_cons_self))) fun y hy => h y (List.mem_cons_of_mem _ hy)
  cases l with
  | nil => exact absurd rfl hne
  | cons x l =>
    have hx := hl x List.mem_cons_self
    exact key l _ (roundBits_pos p hp (by linarith)) fun y hy => hl y (List.mem_cons_of_mem _ hy)

/-- One over a number of samples. -/
theorem uniq_term_float (f : Fmt) (D : f.Deep) {k : ℕ} (h1 : 1 ≤ k) (hk : k ≤ 2 ^ f.p) :
    XF.rounded f.float (XF.mul (.fin 1) (XF.rounded f.float (XF.div (.fin 1) (.fin (k : ℚ))))) =
      .fin (roundBits f.p (1 * roundBits f.p (1 / (k : ℚ)))) ∧
    OnUnit (-2 * (f.p : ℤ) + 1) (roundBits f.p (1 * roundBits f.p (1 / (k : ℚ)))) ∧
    |roundBits f.p (1 * roundBits f.p (1 / (k : ℚ)))| ≤ 1 ∧ 0 < roundBits f.p (1 * roundBits f.p (1 / (k : ℚ))) := by
  have hp := D.one_le
  have low := D.low
  have high := D.high
  have hk0 : (1 : ℚ) ≤ k := by exact_mod_cast h1
  have hpos : (0 : ℚ) < 1 / k := by positivity
  have hle : (1 : ℚ) / k ≤ 2 ^ (0 : ℤ) := by rw [zpow_zero, div_le_one (by linarith)]; exact hk0
  have hge : (2 : ℚ) ^ (-(f.p : ℤ)) ≤ |1 / (k : ℚ)| := by
    rw [abs_of_pos hpos, zpow_neg, zpow_natCast, ← one_div]
    exact one_div_le_one_div_of_le (by linarith) (by exact_mod_cast hk)
  obtain ⟨a1, a2, a3, a4⟩ := f.mid_mul D (a := -(f.p : ℤ)) (b := 0) (by omega) (by omega) (.inr hge) (by rw [abs_of_pos hpos]; exact hle)
  have e1 : XF.div (.fin 1) (.fin (k : ℚ)) = .fin (1 / k) := by simp [XF.div, show (k : ℚ) ≠ 0 by linarith]
  obtain ⟨b1, b2, b3⟩ := f.mid_add D (e := -2 * (f.p : ℤ) + 1) (b := 0) (q := 1 * roundBits f.p (1 / (k : ℚ))) (by omega) (by omega)
    (by rw [one_mul]; exact a2.coarser (by omega)) (by rw [one_mul]; exact a3)
  refine ⟨?_, b2, by simpa using b3, ?_⟩
  · rw [e1]
    change XF.rounded f.float (XF.mul (.fin 1) (f.float (1 / (k : ℚ)))) = _
    rw [a1]
    exact b1
  · exact roundBits_pos f.p hp (by rw [one_mul]; exact roundBits_pos f.p hp hpos)

/-- The average uniqueness of a sample with at least one bar. -/
theorem averageUniquenessD_eq (f : Fmt) (D : f.Deep) (M : IndMat) (j : ℕ) (hj : j < M.nCols) (hN : M.nCols ≤ 2 ^ f.p)
    (hb : (barsOf M j).Nonempty) (hlen : (barsOf M j).card < 2 ^ f.p) :
    averageUniquenessD f.float M j = .fin (averageUniqueness (roundBits f.p) M j) ∧
    (2 : ℚ) ^ (-3 * (f.p : ℤ) + 1) ≤ averageUniqueness (roundBits f.p) M j := by
  have hp := D.one_le
  have low := D.low
  have high := D.high
  have hrow : ∀ t ∈ colRows M j, 1 ≤ rowSum M t ∧ rowSum M t ≤ 2 ^ f.p := by
    intro t ht
    rw [rowSum_eq]
    refine ⟨?_, ?_⟩
    · exact Finset.card_pos.2 ⟨j, by simp [samplesAt, hj, (mem_colRows.1 ht).2]⟩
    · refine le_trans (le_trans (Finset.card_le_card (Finset.filter_subset _ _)) ?_) hN
      simp
  set T : List ℚ := (colRows M j).map fun t => roundBits f.p (1 * roundBits f.p (1 / (rowSum M t : ℚ))) with hT
  have eT : ((colRows M j).map fun t => XF.rounded f.float (XF.mul (.fin 1) (XF.rounded f.float (XF.div (.fin 1) (.fin (rowSum M t : ℚ)))))) =
      T.map XF.fin := by
    rw [hT, List.map_map]
    exact List.map_congr_left fun t ht => (uniq_term_float f D (hrow t ht).1 (hrow t ht).2).1
  have hTl : T.length = (barsOf M j).card := by rw [hT, List.length_map, colRows_length]
  have hall : ∀ x ∈ T, OnUnit (-2 * (f.p : ℤ) + 1) x ∧ |x| ≤ 1 ∧ 0 < x := by
    intro x hx
    obtain ⟨t, ht, rfl⟩ := List.mem_map.1 hx
    exact (uniq_term_float f D (hrow t ht).1 (hrow t ht).2).2
  have hne : T ≠ [] := by
    intro h
    rw [h] at hTl
    exact absurd hTl.symm (Finset.card_pos.2 hb).ne'
  obtain ⟨s1, s2, -⟩ := foldD f D.roomy (T.map fun x => (x, 1)) (by
    intro x hx
    obtain ⟨y, hy, rfl⟩ := List.mem_map.1 hx
    exact ⟨by simpa using (hall y hy).2.1, ((hall y hy).1).coarser (by omega)⟩) 0 0 (by simp) (OnUnit.zero _) (by
      simp [Function.comp_def]; omega)
  simp only [List.map_map, Function.comp_def, List.map_id', List.map_const', List.sum_replicate, smul_eq_mul, mul_one, zero_add] at s1 s2
  rw [hTl] at s2
  have u1 := deep_foldl_onUnit hp (e := -2 * (f.p : ℤ) + 1) T (fun x hx => (hall x hx).1) 0 (OnUnit.zero _)
  have u2 := deep_foldl_pos hp T (fun x hx => (hall x hx).2.2) hne
  have u3 := u1.pos_le u2
  have hn0 : (0 : ℚ) < ((barsOf M j).card : ℚ) := by exact_mod_cast Finset.card_pos.2 hb
  have hnp : ((barsOf M j).card : ℚ) ≤ 2 ^ f.p := by exact_mod_cast hlen.le
  set s := T.foldl (fun a x => roundBits f.p (a + x)) 0 with hs
  have hq0 : 0 < s / ((barsOf M j).card : ℚ) := div_pos u2 hn0
  have hge : (2 : ℚ) ^ (-3 * (f.p : ℤ) + 1) ≤ |s / ((barsOf M j).card : ℚ)| := by
    rw [abs_of_pos hq0, le_div_iff₀ hn0]
    calc (2 : ℚ) ^ (-3 * (f.p : ℤ) + 1) * ((barsOf M j).card : ℚ) ≤ 2 ^ (-3 * (f.p : ℤ) + 1) * 2 ^ f.p :=
          mul_le_mul_of_nonneg_left hnp (two_zpow_pos _).le
      _ = 2 ^ (-2 * (f.p : ℤ) + 1) := by rw [← zpow_natCast (2 : ℚ) f.p, ← zpow_add₀ (by norm_num)]; congr 1; ring
      _ ≤ s := u3
  have hle : |s / ((barsOf M j).card : ℚ)| ≤ 2 ^ (0 : ℤ) := by
    rw [zpow_zero, abs_div, abs_of_pos hn0, div_le_one hn0]
    exact s2
  obtain ⟨a1, a2, a3, a4⟩ := f.mid_mul D (by omega) (by omega) (.inr hge) hle
  have e2 : averageUniqueness (roundBits f.p) M j = roundBits f.p (s / ((barsOf M j).card : ℚ)) := by
    rw [averageUniqueness, colRows_length]
    rfl
  refine ⟨?_, ?_⟩
  · rw [averageUniquenessD, eT, e2, colRows_length, sumD, s1, show XF.div (.fin s) (.fin ((barsOf M j).card : ℚ)) = .fin (s / (barsOf M j).card) by
      simp [XF.div, hn0.ne']]
    exact a1
  · rw [e2]
    have h4 := le_abs_roundBits f.p hp hge
    rwa [abs_of_pos (roundBits_pos f.p hp hq0)] at h4

/-- The cumulative sums of the average uniqueness. -/
theorem cumsumD_eq (f : Fmt) (D : f.Deep) (u : List ℚ) (hu : ∀ x ∈ u, IsFloat f.p x ∧ (2 : ℚ) ^ (-3 * (f.p : ℤ) + 1) ≤ x ∧ x ≤ 1) :
    ∀ (a : ℚ) (k : ℕ), 0 ≤ a → a ≤ k → OnUnit (-4 * (f.p : ℤ) + 2) a → k + u.length < 2 ^ f.p →
      cumsumD f.float (.fin a) (u.map .fin) = (cumsum (roundBits f.p) a u).map .fin ∧
      ∀ y ∈ cumsum (roundBits f.p) a u, (2 : ℚ) ^ (-3 * (f.p : ℤ) + 1) ≤ y ∧ y ≤ 2 ^ f.p := by
  have hp := D.one_le
  have low := D.low
  have high := D.high
  induction u with
  | nil => intro a k _ _ _ _; simp [cumsumD, cumsum]
  | cons x u ih =>
    intro a k h0 ha hua hk
    obtain ⟨x1, x2, x3⟩ := hu x List.mem_cons_self
    have hx0 : 0 < x := lt_of_lt_of_le (two_zpow_pos _) x2
    have hux : OnUnit (-4 * (f.p : ℤ) + 2) x := (x1.onUnit (by rw [abs_of_pos hx0]; exact x2)).coarser (by omega)
    rw [List.length_cons] at hk
    have hfl : IsFloat f.p ((k + 1 : ℕ) : ℚ) := by
      have := isFloat_int f.p ((k + 1 : ℕ) : ℤ) (by
        rw [abs_of_nonneg (by positivity)]
        have : k + 1 < 2 ^ f.p := by omega
        exact_mod_cast this)
      exact_mod_cast this
    have hsum : a + x ≤ ((k + 1 : ℕ) : ℚ) := by push_cast; linarith
    have hkp : ((k + 1 : ℕ) : ℚ) ≤ 2 ^ f.p := by exact_mod_cast (by omega : k + 1 ≤ 2 ^ f.p)
    have hr := round_le hp hfl hsum
    obtain ⟨b1, b2, -⟩ := f.mid_add D (e := -4 * (f.p : ℤ) + 2) (b := f.p) (q := a + x) (by omega) (by omega) (hua.add hux) (by
      rw [abs_of_nonneg (by linarith), zpow_natCast]; linarith)
    have hpos := roundBits_nonneg f.p hp (show 0 ≤ a + x by linarith)
    obtain ⟨i1, i2⟩ := ih (fun y hy => hu y (List.mem_cons_of_mem _ hy)) (roundBits f.p (a + x)) (k + 1) hpos hr b2 (by omega)
    constructor
    · simp only [List.map_cons, cumsumD, cumsum, XF.add_fin]
      change f.float (a + x) :: cumsumD f.float (f.float (a + x)) _ = _
      rw [b1, i1]
    · intro y hy
      simp only [cumsum, List.mem_cons] at hy
      rcases hy with rfl | hy
      · refine ⟨?_, hr.trans hkp⟩
        have := le_abs_roundBits f.p hp (q := a + x) (k := -3 * (f.p : ℤ) + 1) (by rw [abs_of_nonneg (by linarith)]; linarith)
        rwa [abs_of_nonneg hpos] at this
      · exact i2 y hy

theorem deep_mul_ge {a b : ℤ} {x y : ℚ} (hx : (2 : ℚ) ^ a ≤ |x|) (hy : (2 : ℚ) ^ b ≤ |y|) : (2 : ℚ) ^ (a + b) ≤ |x * y| := by
  rw [zpow_add₀ (by norm_num), abs_mul]
  exact mul_le_mul hx hy (two_zpow_pos _).le (abs_nonneg _)

theorem deep_mul_le {a b : ℤ} {x y : ℚ} (hx : |x| ≤ (2 : ℚ) ^ a) (hy : |y| ≤ (2 : ℚ) ^ b) : |x * y| ≤ (2 : ℚ) ^ (a + b) := by
  rw [zpow_add₀ (by norm_num), abs_mul]
  exact mul_le_mul hx hy (abs_nonneg _) (two_zpow_pos _).le

theorem deep_div_ge {a b : ℤ} {x y : ℚ} (hx : (2 : ℚ) ^ a ≤ |x|) (hy : |y| ≤ (2 : ℚ) ^ b) (hy0 : y ≠ 0) : (2 : ℚ) ^ (a - b) ≤ |x / y| := by
  rw [zpow_sub₀ (by norm_num), abs_div]
  exact div_le_div₀ (abs_nonneg _) hx (abs_pos.2 hy0) hy

theorem deep_div_le {a b : ℤ} {x y : ℚ} (hx : |x| ≤ (2 : ℚ) ^ a) (hy : (2 : ℚ) ^ b ≤ |y|) : |x / y| ≤ (2 : ℚ) ^ (a - b) := by
  rw [zpow_sub₀ (by norm_num), abs_div]
  exact div_le_div₀ (two_zpow_pos _).le hx (two_zpow_pos _) hy

/-- The slope of the decay. -/
theorem slope_float (f : Fmt) (D : f.Deep) {c : ℚ} (hc : IsFloat f.p c) (uc : OnUnit f.emin c) (c1 : -1 < c) (c2 : c ≤ 1) {last : ℚ}
    (hl : (2 : ℚ) ^ (-3 * (f.p : ℤ) + 1) ≤ last) (hl2 : last ≤ 2 ^ f.p) :
    ∃ s : ℚ, s = (if 0 ≤ c then roundBits f.p (roundBits f.p (1 - c) / last) else roundBits f.p (1 / roundBits f.p (roundBits f.p (c + 1) * last))) ∧
      (if 0 ≤ c then XF.rounded f.float (XF.div (f.float (1 - c)) (.fin last))
        else XF.rounded f.float (XF.div (.fin 1) (XF.rounded f.float (XF.mul (f.float (c + 1)) (.fin last))))) = .fin s ∧
      (s = 0 ∨ (2 : ℚ) ^ (-2 * (f.p : ℤ)) ≤ |s|) ∧ |s| ≤ 2 ^ (4 * (f.p : ℤ)) := by
  have hp := D.one_le
  have low := D.low
  have high := D.high
  have hP := D.p
  have he0 : f.emin ≤ 0 := by omega
  have hl0 : 0 < last := lt_of_lt_of_le (two_zpow_pos _) hl
  have hla : |last| ≤ 2 ^ (f.p : ℤ) := by rw [abs_of_pos hl0, zpow_natCast]; exact hl2
  have hlb : (2 : ℚ) ^ (-3 * (f.p : ℤ) + 1) ≤ |last| := by rw [abs_of_pos hl0]; exact hl
  refine ⟨_, rfl, ?_⟩
  by_cases h : 0 ≤ c
  · simp only [if_pos h]
    have g0 : 1 - c = 0 ∨ (2 : ℚ) ^ (-(f.p : ℤ)) ≤ |1 - c| := by
      by_cases hc1 : c = 1
      · left; linarith
      · right; rw [abs_sub_comm]; exact float_gap_one hp hc h hc1
    obtain ⟨a1, a2, a3, a4⟩ := f.mid_mul D (a := -(f.p : ℤ)) (b := 0) (q := 1 - c) (by omega) (by omega) g0 (by
      rw [zpow_zero, abs_le]; constructor <;> linarith)
    have hq1 : |roundBits f.p (1 - c) / last| ≤ 2 ^ (0 - (-3 * (f.p : ℤ) + 1)) := deep_div_le a3 hlb
    have hq2 : roundBits f.p (1 - c) / last = 0 ∨ (2 : ℚ) ^ (-(f.p : ℤ) - f.p) ≤ |roundBits f.p (1 - c) / last| := by
      rcases a4 with h | h
      · left; rw [h, zero_div]
      · right; exact deep_div_ge h hla hl0.ne'
    obtain ⟨b1, b2, b3, b4⟩ := f.mid_mul D (by omega) (by omega) hq2 hq1
    rw [a1]
    refine ⟨?_, ?_, b3.trans (zpow_le_zpow_right₀ (by norm_num) (by omega))⟩
    · rw [show XF.div (.fin (roundBits f.p (1 - c))) (.fin last) = .fin (roundBits f.p (1 - c) / last) by simp [XF.div, hl0.ne']]
      exact b1
    · rwa [show -2 * (f.p : ℤ) = -(f.p : ℤ) - f.p by ring]
  · simp only [if_neg h]
    push Not at h
    have g0 : (2 : ℚ) ^ (-(f.p : ℤ)) ≤ |c + 1| := by
      have := float_gap_one hp (isFloat_neg hc) (by linarith) (by intro h1; linarith)
      rwa [show -c - 1 = -(c + 1) by ring, abs_neg] at this
    obtain ⟨a1, a2, a3, a4⟩ := f.mid_mul D (a := -(f.p : ℤ)) (b := 0) (q := c + 1) (by omega) (by omega) (.inr g0) (by
      rw [zpow_zero, abs_le]; constructor <;> linarith)
    have a5 : (2 : ℚ) ^ (-(f.p : ℤ)) ≤ |roundBits f.p (c + 1)| := le_abs_roundBits f.p hp g0
    obtain ⟨b1, b2, b3, b4⟩ := f.mid_mul D (a := -(f.p : ℤ) + (-3 * (f.p : ℤ) + 1)) (b := 0 + (f.p : ℤ)) (by omega) (by omega)
      (.inr (deep_mul_ge a5 hlb)) (deep_mul_le a3 hla)
    have b5 : (2 : ℚ) ^ (-(f.p : ℤ) + (-3 * (f.p : ℤ) + 1)) ≤ |roundBits f.p (roundBits f.p (c + 1) * last)| :=
      le_abs_roundBits f.p hp (deep_mul_ge a5 hlb)
    have b6 : roundBits f.p (roundBits f.p (c + 1) * last) ≠ 0 := abs_pos.1 (lt_of_lt_of_le (two_zpow_pos _) b5)
    have hone : |(1 : ℚ)| ≤ 2 ^ (0 : ℤ) := by simp
    have hone' : (2 : ℚ) ^ (0 : ℤ) ≤ |(1 : ℚ)| := by simp
    obtain ⟨d1, d2, d3, d4⟩ := f.mid_mul D (by omega) (by omega) (.inr (deep_div_ge hone' b3 b6)) (deep_div_le hone b5)
    have d5 := le_abs_roundBits f.p hp (deep_div_ge hone' b3 b6)
    rw [a1]
    refine ⟨?_, .inr (le_trans (zpow_le_zpow_right₀ (by norm_num) (by omega)) d5), d3.trans (zpow_le_zpow_right₀ (by norm_num) (by omega))⟩
    change XF.rounded f.float (XF.div (.fin 1) (f.float (roundBits f.p (c + 1) * last))) = _
    rw [b1, show XF.div (.fin 1) (.fin (roundBits f.p (roundBits f.p (c + 1) * last))) = .fin (1 / roundBits f.p (roundBits f.p (c + 1) * last)) by
      simp [XF.div, b6]]
    exact d1

/-- The decay. -/
theorem decayD_eq (f : Fmt) (D : f.Deep) {c : ℚ} (hc : IsFloat f.p c) (uc : OnUnit f.emin c) (c1 : -1 < c) (c2 : c ≤ 1) {last x : ℚ}
    (hl : (2 : ℚ) ^ (-3 * (f.p : ℤ) + 1) ≤ last) (hl2 : last ≤ 2 ^ f.p) (hx : (2 : ℚ) ^ (-3 * (f.p : ℤ) + 1) ≤ x) (hx2 : x ≤ 2 ^ f.p) :
    decayD f.float c (.fin last) (.fin x) = .fin (decay (roundBits f.p) c last x) := by
  have hp := D.one_le
  have low := D.low
  have high := D.high
  have hP := D.p
  obtain ⟨s, hs, es, s1, s2⟩ := slope_float f D hc uc c1 c2 hl hl2
  have prod : ∀ y : ℚ, (2 : ℚ) ^ (-3 * (f.p : ℤ) + 1) ≤ y → y ≤ 2 ^ f.p →
      f.float (s * y) = .fin (roundBits f.p (s * y)) ∧ OnUnit (-6 * (f.p : ℤ) + 2) (roundBits f.p (s * y)) ∧
        |roundBits f.p (s * y)| ≤ 2 ^ (5 * (f.p : ℤ)) := by
    intro y hy hy2
    have hy0 : 0 < y := lt_of_lt_of_le (two_zpow_pos _) hy
    have h1 : s * y = 0 ∨ (2 : ℚ) ^ (-2 * (f.p : ℤ) + (-3 * (f.p : ℤ) + 1)) ≤ |s * y| := by
      rcases s1 with h | h
      · left; rw [h, zero_mul]
      · right; exact deep_mul_ge h (by rw [abs_of_pos hy0]; exact hy)
    obtain ⟨a1, a2, a3, -⟩ := f.mid_mul D (b := 4 * (f.p : ℤ) + f.p) (by omega) (by omega) h1
      (deep_mul_le s2 (by rw [abs_of_pos hy0, zpow_natCast]; exact hy2))
    exact ⟨a1, a2.coarser (by omega), a3.trans (zpow_le_zpow_right₀ (by norm_num) (by omega))⟩
  obtain ⟨l1, l2, l3⟩ := prod last hl hl2
  obtain ⟨x1, x2, x3⟩ := prod x hx hx2
  have five : (1 : ℚ) ≤ 2 ^ (5 * (f.p : ℤ)) := one_le_zpow₀ (by norm_num) (by omega)
  have dbl : ∀ k : ℤ, (2 : ℚ) ^ (k + 1) = 2 * 2 ^ k := fun k => by rw [zpow_add₀ (by norm_num), zpow_one]; ring
  obtain ⟨c1', c2', c3'⟩ := f.mid_add D (e := -6 * (f.p : ℤ) + 2) (b := 5 * (f.p : ℤ) + 1) (q := 1 - roundBits f.p (s * last)) (by omega) (by omega)
    ((OnUnit.one (by omega)).sub l2) (by
      rw [dbl]
      have := abs_sub (1 : ℚ) (roundBits f.p (s * last))
      rw [abs_one] at this
      linarith)
  obtain ⟨y1, -, -⟩ := f.mid_add D (e := -6 * (f.p : ℤ) + 2) (b := 5 * (f.p : ℤ) + 1 + 1)
    (q := roundBits f.p (1 - roundBits f.p (s * last)) + roundBits f.p (s * x)) (by omega) (by omega) (c2'.add x2) (by
      rw [dbl (5 * (f.p : ℤ) + 1)]
      have h1 := abs_add_le (roundBits f.p (1 - roundBits f.p (s * last))) (roundBits f.p (s * x))
      have h2 := dbl (5 * (f.p : ℤ))
      linarith)
  unfold decayD decay
  dsimp only
  rw [es, ← hs]
  have e1 : XF.rounded f.float (XF.mul (.fin s) (.fin last)) = .fin (roundBits f.p (s * last)) := l1
  have e2 : XF.rounded f.float (XF.mul (.fin s) (.fin x)) = .fin (roundBits f.p (s * x)) := x1
  have e3 : XF.rounded f.float (XF.sub (.fin 1) (.fin (roundBits f.p (s * last)))) = .fin (roundBits f.p (1 - roundBits f.p (s * last))) := by
    rw [← c1']; simp [XF.sub, XF.add, XF.neg, XF.rounded, sub_eq_add_neg]
  rw [e1, e2, e3, XF.add_fin]
  rw [show XF.rounded f.float (.fin (roundBits f.p (1 - roundBits f.p (s * last)) + roundBits f.p (s * x))) = _ from y1]
  simp only [XF.lt, decide_eq_true_eq]
  split <;> rfl

end Rd

end Mizar
