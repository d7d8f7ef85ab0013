import Verif.Lemmas.RoundedSum
import Verif.Lemmas.SeqBoot
import Verif.Model.RoundedBoot
import Verif.Spec.RoundedBoot

namespace Mizar.Rd
open Mizar Mizar.Spec Mizar.Boot

variable {p : ℕ}

/-! ### Summation in any order -/

theorem leaves_ne_nil : ∀ T : SumTree, 1 ≤ T.leaves.length
  | .leaf x => by simp [SumTree.leaves]
  | .node a b => by
    have := leaves_ne_nil a
    simp only [SumTree.leaves, List.length_append]
    omega

theorem tree_bounds (hp : 1 ≤ p) : ∀ T : SumTree, (∀ x ∈ T.leaves, 0 ≤ x) →
    (1 - 1 / 2 ^ p) ^ (T.leaves.length - 1) * T.leaves.sum ≤ T.eval p ∧
      T.eval p ≤ (1 + 1 / 2 ^ p) ^ (T.leaves.length - 1) * T.leaves.sum
  | .leaf x, _ => by simp [SumTree.leaves, SumTree.eval]
  | .node a b, h => by
    have he := eps_le hp
    have he0 := eps_pos (p := p)
    have ha0 : ∀ x ∈ a.leaves, 0 ≤ x := fun x hx => h x (by simp [SumTree.leaves, hx])
    have hb0 : ∀ x ∈ b.leaves, 0 ≤ x := fun x hx => h x (by simp [SumTree.leaves, hx])
    obtain ⟨a1, a2⟩ := tree_bounds hp a ha0
    obtain ⟨b1, b2⟩ := tree_bounds hp b hb0
    have la := leaves_ne_nil a
    have lb := leaves_ne_nil b
    have sa : 0 ≤ a.leaves.sum := List.sum_nonneg ha0
    have sb : 0 ≤ b.leaves.sum := List.sum_nonneg hb0
    simp only [SumTree.leaves, SumTree.eval, List.length_append, List.sum_append]
    set m := a.leaves.length
    set n := b.leaves.length
    have hmn : m + n - 1 = (m + n - 2) + 1 := by omega
    rw [hmn]
    have low : ∀ k, k ≤ m + n - 2 → (1 - 1 / 2 ^ p : ℚ) ^ (m + n - 2) ≤ (1 - 1 / 2 ^ p) ^ k := fun k hk =>
      pow_le_pow_of_le_one (by linarith) (by linarith) hk
    have up : ∀ k, k ≤ m + n - 2 → (1 + 1 / 2 ^ p : ℚ) ^ k ≤ (1 + 1 / 2 ^ p) ^ (m + n - 2) := fun k hk =>
      pow_le_pow_right₀ (by linarith) hk
    have l1 : (1 - 1 / 2 ^ p) ^ (m + n - 2) * (a.leaves.sum + b.leaves.sum) ≤ a.eval p + b.eval p := by
      rw [mul_add]
      exact add_le_add ((mul_le_mul_of_nonneg_right (low (m - 1) (by omega)) sa).trans a1)
        ((mul_le_mul_of_nonneg_right (low (n - 1) (by omega)) sb).trans b1)
    have u1 : a.eval p + b.eval p ≤ (1 + 1 / 2 ^ p) ^ (m + n - 2) * (a.leaves.sum + b.leaves.sum) := by
      rw [mul_add]
      exact add_le_add (a2.trans (mul_le_mul_of_nonneg_right (up (m - 1) (by omega)) sa))
        (b2.trans (mul_le_mul_of_nonneg_right (up (n - 1) (by omega)) sb))
    have hnn : 0 ≤ a.eval p + b.eval p :=
      le_trans (mul_nonneg (pow_nonneg (by linarith) _) (by linarith)) l1
    constructor
    · refine le_trans ?_ (roundBits_ge_one_sub hp hnn)
      rw [pow_succ, mul_comm _ (1 - 1 / 2 ^ p : ℚ), mul_assoc]
      exact mul_le_mul_of_nonneg_left l1 (by linarith)
    · refine (roundBits_le_one_add hp hnn).trans ?_
      rw [pow_succ, mul_comm _ (1 + 1 / 2 ^ p : ℚ), mul_assoc]
      exact mul_le_mul_of_nonneg_left u1 (by linarith)

theorem summation_bounds (hp : 1 ≤ p) {S : List ℚ → ℚ} (hS : IsSummation p S) (l : List ℚ) (hne : l ≠ [])
    (hf : ∀ x ∈ l, IsFloat p x) (h0 : ∀ x ∈ l, 0 ≤ x) :
    (1 - 1 / 2 ^ p) ^ (l.length - 1) * l.sum ≤ S l ∧ S l ≤ (1 + 1 / 2 ^ p) ^ (l.length - 1) * l.sum := by
  obtain ⟨T, hT, hE⟩ := hS l hne hf
  have := tree_bounds hp T (fun x hx => h0 x (hT.mem_iff.1 hx))
  rw [hT.length_eq, hT.sum_eq] at this
  rw [hE]
  exact this

/-- Adding from left to right is a summation. -/
theorem isSummation_sum (hp : 1 ≤ p) : IsSummation p (sum (roundBits p)) := by
  have key : ∀ (l : List ℚ) (T : SumTree), ∃ T' : SumTree, T'.leaves.Perm (T.leaves ++ l) ∧
      l.foldl (fun a b => roundBits p (a + b)) (T.eval p) = T'.eval p := by
    intro l
    induction l with
    | nil => intro T; exact ⟨T, by simp, rfl⟩
    | cons x l ih =>
      intro T
      obtain ⟨T', h1, h2⟩ := ih (.node T (.leaf x))
      exact ⟨T', by simpa [SumTree.leaves] using h1, h2⟩
  intro l hne hf
  cases l with
  | nil => exact absurd rfl hne
  | cons x l =>
    obtain ⟨T', h1, h2⟩ := key l (.leaf x)
    refine ⟨T', by simpa [SumTree.leaves] using h1, ?_⟩
    rw [← h2]
    unfold sum
    rw [List.foldl_cons, zero_add, roundBits_eq_self p hp (hf x (by simp))]
    rfl

/-! ### The probabilities and the check of the generator -/

theorem prob_sum_bounds (hp : 1 ≤ p) (l : List ℚ) (hpos : ∀ x ∈ l, 0 < x) (hne : l ≠ []) (s : ℚ)
    (h1 : (1 - 1 / 2 ^ p) ^ (l.length - 1) * l.sum ≤ s) (h2 : s ≤ (1 + 1 / 2 ^ p) ^ (l.length - 1) * l.sum)
    (hn : 2 * (l.length : ℚ) ≤ 2 ^ p) :
    |(l.map fun a => roundBits p (a / s)).sum - 1| ≤ 4 * (l.length * (1 / 2 ^ p)) ∧ 0 < s := by
  have he := eps_le hp
  have he0 := eps_pos (p := p)
  have hl : 1 ≤ l.length := List.length_pos_iff.2 hne
  have hsum : 0 < l.sum := List.sum_pos l hpos hne
  set e : ℚ := 1 / 2 ^ p with hE
  set n := l.length with hnn
  have hn1 : (1 : ℚ) ≤ n := by exact_mod_cast hl
  have hne2 : (n : ℚ) * e ≤ 1 / 2 := by
    rw [hE, mul_one_div, div_le_iff₀ (by positivity)]
    linarith
  have hs : 0 < s := lt_of_lt_of_le (mul_pos (pow_pos (by linarith) _) hsum) h1
  refine ⟨?_, hs⟩
  have lo : (1 - e) * (l.sum / s) ≤ (l.map fun a => roundBits p (a / s)).sum := by
    have : (1 - e) * (l.sum / s) = (l.map fun a => (1 - e) * (a / s)).sum := by
      have h : (fun a : ℚ => (1 - e) * (a / s)) = fun a => ((1 - e) / s) * a := by
        funext a
        ring
      rw [h, List.sum_map_mul_left, List.map_id']
      ring
    rw [this]
    apply List.sum_le_sum
    intro a ha
    exact roundBits_ge_one_sub hp (div_nonneg (hpos a ha).le hs.le)
  have hi : (l.map fun a => roundBits p (a / s)).sum ≤ (1 + e) * (l.sum / s) := by
    have : (1 + e) * (l.sum / s) = (l.map fun a => (1 + e) * (a / s)).sum := by
      have h : (fun a : ℚ => (1 + e) * (a / s)) = fun a => ((1 + e) / s) * a := by
        funext a
        ring
      rw [h, List.sum_map_mul_left, List.map_id']
      ring
    rw [this]
    apply List.sum_le_sum
    intro a ha
    exact roundBits_le_one_add hp (div_nonneg (hpos a ha).le hs.le)
  have hen : 1 - n * e ≤ (1 - e) ^ (n - 1) := by
    have := one_add_mul_le_pow (show (-2 : ℚ) ≤ -e by linarith) (n - 1)
    have h3 : ((n - 1 : ℕ) : ℚ) ≤ n := by exact_mod_cast (by omega : n - 1 ≤ n)
    rw [← sub_eq_add_neg] at this
    nlinarith
  have hprod : (1 + e) ^ (n - 1) * (1 - e) ^ (n - 1) ≤ 1 := by
    rw [← mul_pow]
    apply pow_le_one₀ (mul_nonneg (by linarith) (by linarith))
    nlinarith
  -- bounds on the quotient
  have q1 : 1 - n * e ≤ l.sum / s := by
    rw [le_div_iff₀ hs]
    have hq : (1 - n * e) * s ≤ (1 - e) ^ (n - 1) * s := mul_le_mul_of_nonneg_right hen hs.le
    have hq2 : (1 - e) ^ (n - 1) * s ≤ (1 - e) ^ (n - 1) * ((1 + e) ^ (n - 1) * l.sum) :=
      mul_le_mul_of_nonneg_left h2 (pow_nonneg (by linarith) _)
    have hq3 : (1 - e) ^ (n - 1) * ((1 + e) ^ (n - 1) * l.sum) = ((1 + e) ^ (n - 1) * (1 - e) ^ (n - 1)) * l.sum := by ring
    nlinarith
  have q2 : (1 - n * e) * (l.sum / s) ≤ 1 := by
    rw [mul_div_assoc', div_le_one hs]
    refine le_trans ?_ h1
    exact mul_le_mul_of_nonneg_right hen hsum.le
  have q3 : 0 < l.sum / s := div_pos hsum hs
  rw [abs_le]
  constructor
  · nlinarith
  · -- x ≤ (1+e) q, (1 - n e) q ≤ 1
    have hx : (1 + e) * (l.sum / s) ≤ 1 + 4 * (n * e) := by
      have hd : 0 < 1 - n * e := by linarith
      have : l.sum / s ≤ 1 / (1 - n * e) := by
        rw [le_div_iff₀ hd]
        linarith
      refine (mul_le_mul_of_nonneg_left this (by linarith)).trans ?_
      rw [mul_one_div, div_le_iff₀ hd]
      nlinarith [mul_nonneg (mul_nonneg (by linarith : (0:ℚ) ≤ n) he0.le) (by linarith : (0:ℚ) ≤ 1 / 2 - n * e)]
    linarith

/-- One step of `kahan_sum`. -/
theorem kahan_step (hp : 8 ≤ p) {s c x P : ℚ} {m : ℕ} (hm : 16 * ((m : ℚ) * (1 / 2 ^ p)) ≤ 1 / 2) (hx : 0 ≤ x) (hP : 0 ≤ P)
    (hPx : P + x ≤ 2) (hs : |s - P| ≤ 16 * (m * (1 / 2 ^ p))) (hc : |c| ≤ 10 * (1 / 2 ^ p)) :
    |roundBits p (s + roundBits p (x - c)) - (P + x)| ≤ 16 * ((m + 1 : ℕ) * (1 / 2 ^ p)) ∧
      |roundBits p (roundBits p (roundBits p (s + roundBits p (x - c)) - s) - roundBits p (x - c))| ≤ 10 * (1 / 2 ^ p) := by
  have hp1 : 1 ≤ p := by omega
  have he0 := eps_pos (p := p)
  have he : (1 : ℚ) / 2 ^ p ≤ 1 / 256 := by
    apply one_div_le_one_div_of_le (by norm_num)
    calc (256 : ℚ) = 2 ^ 8 := by norm_num
      _ ≤ 2 ^ p := pow_le_pow_right₀ (by norm_num) hp
  have err : ∀ q : ℚ, |roundBits p q - q| ≤ |q| * (1 / 2 ^ p) := by
    intro q
    have := roundBits_error p hp1 q
    rwa [mul_one_div]
  set e : ℚ := 1 / 2 ^ p with hE
  set y := roundBits p (x - c) with hy
  set t := roundBits p (s + y) with ht
  set d := roundBits p (t - s) with hd
  have e1 := err (x - c)
  have e2 := err (s + y)
  have e3 := err (t - s)
  have e4 := err (d - y)
  rw [← hy] at e1
  rw [← ht] at e2
  rw [← hd] at e3
  rw [abs_le] at hs hc
  have a1 : |x - c| ≤ 2 + 10 * e := by rw [abs_le]; constructor <;> linarith [hs.1, hs.2, hc.1, hc.2]
  have b1 : |y - (x - c)| ≤ 3 * e := e1.trans (by nlinarith)
  rw [abs_le] at b1
  have a2 : |s + y| ≤ 3 := by rw [abs_le]; constructor <;> nlinarith [hs.1, hs.2, hc.1, hc.2, b1.1, b1.2]
  have b2 : |t - (s + y)| ≤ 3 * e := e2.trans (by nlinarith)
  rw [abs_le] at b2
  have a3 : |t - s| ≤ 3 := by rw [abs_le]; constructor <;> nlinarith [hs.1, hs.2, hc.1, hc.2, b1.1, b1.2, b2.1, b2.2]
  have b3 : |d - (t - s)| ≤ 3 * e := e3.trans (by nlinarith)
  rw [abs_le] at b3
  have a4 : |d - y| ≤ 6 * e := by rw [abs_le]; constructor <;> linarith [b2.1, b2.2, b3.1, b3.2]
  have b4 : |roundBits p (d - y) - (d - y)| ≤ e := e4.trans (by nlinarith [abs_nonneg (d - y)])
  rw [abs_le] at b4 a4
  constructor
  · push_cast
    rw [abs_le]
    constructor <;> linarith [hs.1, hs.2, hc.1, hc.2, b1.1, b1.2, b2.1, b2.2]
  · rw [abs_le]
    constructor <;> linarith [b4.1, b4.2, a4.1, a4.2]

theorem kahan_fold (hp : 8 ≤ p) (l : List ℚ) (hl : ∀ x ∈ l, 0 ≤ x) : ∀ (s c P : ℚ) (m : ℕ),
    16 * (((m + l.length : ℕ) : ℚ) * (1 / 2 ^ p)) ≤ 1 / 2 → 0 ≤ P → P + l.sum ≤ 2 → |s - P| ≤ 16 * (m * (1 / 2 ^ p)) →
    |c| ≤ 10 * (1 / 2 ^ p) →
    |(l.foldl (fun (s : ℚ × ℚ) x =>
      let y := roundBits p (x - s.2)
      let t := roundBits p (s.1 + y)
      (t, roundBits p (roundBits p (t - s.1) - y))) (s, c)).1 - (P + l.sum)| ≤ 16 * (((m + l.length : ℕ) : ℚ) * (1 / 2 ^ p)) := by
  have he0 := eps_pos (p := p)
  induction l with
  | nil =>
    intro s c P m _ _ _ hs _
    simpa using hs
  | cons x l ih =>
    intro s c P m hm hP hPl hs hc
    have hx := hl x (by simp)
    have hl0 : 0 ≤ l.sum := List.sum_nonneg fun y hy => hl y (by simp [hy])
    rw [List.sum_cons] at hPl
    rw [List.length_cons] at hm
    have hm' : 16 * ((m : ℚ) * (1 / 2 ^ p)) ≤ 1 / 2 := by
      refine le_trans ?_ hm
      have : (m : ℚ) ≤ ((m + (l.length + 1) : ℕ) : ℚ) := by exact_mod_cast (by omega)
      nlinarith
    obtain ⟨h1, h2⟩ := kahan_step hp hm' hx hP (by linarith) hs hc
    have := ih (fun y hy => hl y (by simp [hy])) _ _ (P + x) (m + 1) (by
      have e : m + 1 + l.length = m + (l.length + 1) := by omega
      rw [e]; exact hm) (by linarith) (by linarith) h1 h2
    rw [List.foldl_cons, List.sum_cons, List.length_cons]
    have e : m + 1 + l.length = m + (l.length + 1) := by omega
    rw [e] at this
    rw [← add_assoc]
    exact this

theorem kahan_error (hp : 8 ≤ p) (l : List ℚ) (hl : ∀ x ∈ l, 0 ≤ x) (hsum : l.sum ≤ 2)
    (hn : 16 * ((l.length : ℚ) * (1 / 2 ^ p)) ≤ 1 / 2) :
    |kahan (roundBits p) l - l.sum| ≤ 16 * ((l.length : ℚ) * (1 / 2 ^ p)) := by
  have he0 := eps_pos (p := p)
  cases l with
  | nil => simp [kahan]
  | cons x l =>
    unfold kahan
    rw [List.length_cons] at hn
    have hlen : ((0 + l.length : ℕ) : ℚ) * (1 / 2 ^ p) ≤ ((l.length + 1 : ℕ) : ℚ) * (1 / 2 ^ p) := by
      apply mul_le_mul_of_nonneg_right _ he0.le
      exact_mod_cast (by omega)
    have := kahan_fold hp l (fun y hy => hl y (by simp [hy])) x 0 x 0 (by linarith)
      (hl x (by simp)) (by simpa using hsum) (by simp) (by simp)
    rw [List.sum_cons, List.length_cons]
    exact this.trans (by linarith)

/-- The check of the generator accepts the probabilities computed from positive floats. -/
theorem choiceValid_prob (hp : 26 < p) {S : List ℚ → ℚ} (hS : IsSummation p S) (l : List ℚ) (hne : l ≠ [])
    (hf : ∀ x ∈ l, IsFloat p x) (hpos : ∀ x ∈ l, 0 < x) (hn : 40 * 2 ^ 26 * (l.length : ℚ) ≤ 2 ^ p) :
    choiceValid (roundBits p) (l.map fun a => roundBits p (a / S l)) = true := by
  have hp1 : 1 ≤ p := by omega
  have he := eps_le hp1
  have he0 := eps_pos (p := p)
  obtain ⟨s1, s2⟩ := summation_bounds hp1 hS l hne hf fun x hx => (hpos x hx).le
  have hl1 : (1 : ℚ) ≤ l.length := by exact_mod_cast List.length_pos_iff.2 hne
  have hne2 : 40 * 2 ^ 26 * ((l.length : ℚ) * (1 / 2 ^ p)) ≤ 1 := by
    rw [mul_one_div, mul_div_assoc', div_le_one (by positivity)]
    exact hn
  obtain ⟨h1, h2⟩ := prob_sum_bounds hp1 l hpos hne (S l) s1 s2 (by linarith)
  set q := l.map fun a => roundBits p (a / S l) with hq
  have hlen : q.length = l.length := by simp [hq]
  have hq0 : ∀ x ∈ q, 0 ≤ x := by
    intro x hx
    obtain ⟨a, ha, rfl⟩ := List.mem_map.1 hx
    exact roundBits_nonneg p hp1 (div_nonneg (hpos a ha).le h2.le)
  rw [abs_le] at h1
  have hk := kahan_error (p := p) (by omega) q hq0 (by linarith [h1.2]) (by rw [hlen]; linarith)
  rw [hlen, abs_le] at hk
  have hd : |kahan (roundBits p) q - 1| ≤ 20 * ((l.length : ℚ) * (1 / 2 ^ p)) := by
    rw [abs_le]
    constructor <;> linarith [hk.1, hk.2, h1.1, h1.2]
  have hr : |roundBits p (kahan (roundBits p) q - 1)| ≤ 40 * ((l.length : ℚ) * (1 / 2 ^ p)) := by
    have h3 := roundBits_error p hp1 (kahan (roundBits p) q - 1)
    have h4 : |roundBits p (kahan (roundBits p) q - 1)| ≤
        |kahan (roundBits p) q - 1| + |kahan (roundBits p) q - 1| * (1 / 2 ^ p) := by
      have e : roundBits p (kahan (roundBits p) q - 1) = (kahan (roundBits p) q - 1) +
        (roundBits p (kahan (roundBits p) q - 1) - (kahan (roundBits p) q - 1)) := by ring
      rw [e]
      refine (abs_add_le _ _).trans ?_
      rw [mul_one_div]
      linarith
    have h5 := abs_nonneg (kahan (roundBits p) q - 1)
    nlinarith
  unfold choiceValid
  simp only [Bool.and_eq_true, decide_eq_true_eq, List.all_eq_true]
  refine ⟨⟨?_, hq0⟩, ?_⟩
  · intro h
    rw [h] at hlen
    exact hne (List.length_eq_zero_iff.1 hlen.symm)
  · refine hr.trans ?_
    rw [le_div_iff₀ (by norm_num)]
    linarith

end Mizar.Rd

namespace Mizar.Rd
open Mizar Mizar.Spec Mizar.Boot

variable {p₁ p₂ : ℕ}

theorem IsFloat.mono {p q : ℕ} (h : p ≤ q) {x : ℚ} (hx : IsFloat p x) : IsFloat q x := by
  obtain ⟨m, e, h1, h2⟩ := hx
  exact ⟨m, e, lt_of_lt_of_le h1 (pow_le_pow_right₀ (by norm_num) h), h2⟩

theorem sort_bars (M : IndMat) (j : ℕ) : (barsOf M j).sort (· ≤ ·) = colRows M j := by
  have h1 : (colRows M j).Pairwise (· ≤ ·) :=
    (List.pairwise_lt_range.imp fun h => le_of_lt h).filter _
  have h2 : ((barsOf M j).sort (· ≤ ·)).Perm (colRows M j) := by
    apply (List.perm_ext_iff_of_nodup (Finset.sort_nodup _ _) (colRows_nodup M j)).2
    intro t
    rw [Finset.mem_sort, ← colRows_toFinset, List.mem_toFinset]
  exact h2.eq_of_pairwise (fun a b _ _ hab hba => le_antisymm hab hba) (Finset.pairwise_sort _ _) h1

theorem barShare_props (h₁ : 2 ≤ p₁) (M : IndMat) (d : List ℕ) (t : ℕ) :
    0 < barShare p₁ M d t ∧ barShare p₁ M d t ≤ 1 ∧ (drawnAt M d t = 0 → barShare p₁ M d t = 1) ∧
      (drawnAt M d t ≠ 0 → barShare p₁ M d t ≤ 1 / 2) ∧ IsFloat p₁ (barShare p₁ M d t) := by
  have hp : 1 ≤ p₁ := by omega
  have hone : IsFloat p₁ 1 := by
    have := isFloat_int p₁ 1 (by rw [abs_one]; exact one_lt_pow₀ (by norm_num) (by omega))
    simpa using this
  unfold barShare
  by_cases h : drawnAt M d t = 0
  · rw [if_pos h]
    exact ⟨by norm_num, le_rfl, fun _ => rfl, fun h' => absurd h h', hone⟩
  · rw [if_neg h]
    have hq : (2 : ℚ) ≤ 1 + (drawnAt M d t : ℚ) := by
      have : 1 ≤ drawnAt M d t := by omega
      have : (1 : ℚ) ≤ (drawnAt M d t : ℚ) := by exact_mod_cast this
      linarith
    have h2 : (2 : ℚ) ≤ roundBits p₁ (1 + drawnAt M d t) := by
      have := roundBits_mono p₁ hp hq
      have e := roundBits_natCast p₁ hp 2 (by
        calc 2 < 2 ^ 2 := by norm_num
          _ ≤ 2 ^ p₁ := pow_le_pow_right₀ (by norm_num) h₁)
      push_cast at e
      rwa [e] at this
    have h3 : roundBits p₁ (1 / roundBits p₁ (1 + drawnAt M d t)) ≤ 1 / 2 := by
      have := roundBits_mono p₁ hp (one_div_le_one_div_of_le (by norm_num) h2)
      rwa [roundBits_half hp] at this
    refine ⟨roundBits_pos p₁ hp (by positivity), by linarith, fun h' => absurd h' h, fun _ => h3, isFloat_roundBits p₁ hp _⟩

theorem updateAvgUnique_float (h₁ : 2 ≤ p₁) (h₁₂ : p₁ ≤ p₂) (M : IndMat) (boot : List ℕ) (j : ℕ) (hb : (barsOf M j).card ≠ 0) :
    updateAvgUnique (roundBits p₁) (roundBits p₂) M boot j = floatUniq p₁ p₂ M boot j := by
  unfold updateAvgUnique floatUniq
  rw [if_neg hb, colRows_length, sort_bars]
  unfold sum
  congr 3
  apply List.map_congr_left
  intro t ht
  have hent : M.ent t j = true := (List.mem_filter.1 ht).2
  have hcount : (boot.countP fun i => M.ent t i) = drawnAt M boot t := by
    unfold drawnAt
    rw [List.countP_eq_length_filter]
  have hfl := (barShare_props h₁ M boot t).2.2.2.2
  dsimp only
  rw [hcount, hent, if_pos rfl, one_mul]
  have : (if drawnAt M boot t ≠ 0 then roundBits p₁ (1 / roundBits p₁ (1 + drawnAt M boot t)) else roundBits p₁ 1) =
      barShare p₁ M boot t := by
    unfold barShare
    by_cases h : drawnAt M boot t = 0
    · rw [if_pos h, if_neg (by simpa using h), roundBits_one p₁ (by omega)]
    · rw [if_neg h, if_pos h]
  rw [this, roundBits_eq_self p₂ (by omega) (IsFloat.mono h₁₂ hfl)]

theorem floatUniq_isFloat (h₂ : 1 ≤ p₂) (M : IndMat) (d : List ℕ) (j : ℕ) : IsFloat p₂ (floatUniq p₁ p₂ M d j) := by
  unfold floatUniq
  split
  · have := isFloat_int p₂ 1 (by rw [abs_one]; exact one_lt_pow₀ (by norm_num) (by omega))
    simpa using this
  · exact isFloat_roundBits p₂ h₂ _

theorem floatUniq_pos (h₁ : 2 ≤ p₁) (h₂ : 1 ≤ p₂) (M : IndMat) (d : List ℕ) (j : ℕ) : 0 < floatUniq p₁ p₂ M d j := by
  unfold floatUniq
  split
  · norm_num
  · rename_i hc
    apply roundBits_pos p₂ h₂
    have hcq : (0 : ℚ) < ((barsOf M j).card : ℚ) := by exact_mod_cast Nat.pos_of_ne_zero hc
    apply div_pos _ hcq
    rw [sort_bars]
    apply sum_pos h₂
    · intro x hx
      obtain ⟨t, _, rfl⟩ := List.mem_map.1 hx
      exact (barShare_props h₁ M d t).1
    · intro h
      rw [List.map_eq_nil_iff] at h
      have := colRows_length M j
      rw [h] at this
      simp at this
      exact hc (by simp [← this])

theorem floatUniq_congr (M : IndMat) (a b : List ℕ) (j : ℕ)
    (h : ∀ t ∈ barsOf M j, drawnAt M a t = drawnAt M b t) : floatUniq p₁ p₂ M a j = floatUniq p₁ p₂ M b j := by
  unfold floatUniq
  split
  · rfl
  · congr 3
    apply List.map_congr_left
    intro t ht
    unfold barShare
    rw [h t ((Finset.mem_sort _).1 ht)]

/-- The probabilities after `drawn` have been drawn. -/
def floatProb (p₁ p₂ : ℕ) (S : List ℚ → ℚ) (M : IndMat) (drawn : List ℕ) : List ℚ :=
  probOf (roundBits p₂) S M.nCols (floatUniq p₁ p₂ M drawn)

theorem probOf_congr (r : ℚ → ℚ) (S : List ℚ → ℚ) (n : ℕ) (f g : ℕ → ℚ) (h : ∀ j < n, f j = g j) :
    probOf r S n f = probOf r S n g := by
  unfold probOf
  have h1 : (List.range n).map f = (List.range n).map g := List.map_congr_left fun j hj => h j (List.mem_range.1 hj)
  dsimp only
  rw [h1]
  apply List.map_congr_left
  intro j hj
  rw [h j (List.mem_range.1 hj)]

theorem choiceValid_floatProb (h₁ : 2 ≤ p₁) (h₂ : 26 < p₂) {S : List ℚ → ℚ} (hS : IsSummation p₂ S) (M : IndMat) (d : List ℕ)
    (hM : 0 < M.nCols) (hn : 40 * 2 ^ 26 * (M.nCols : ℚ) ≤ 2 ^ p₂) :
    choiceValid (roundBits p₂) (floatProb p₁ p₂ S M d) = true := by
  have := choiceValid_prob h₂ hS ((List.range M.nCols).map (floatUniq p₁ p₂ M d)) (by simp; omega)
    (by
      intro x hx
      obtain ⟨j, _, rfl⟩ := List.mem_map.1 hx
      exact floatUniq_isFloat (by omega) M d j)
    (by
      intro x hx
      obtain ⟨j, _, rfl⟩ := List.mem_map.1 hx
      exact floatUniq_pos h₁ (by omega) M d j)
    (by simpa using hn)
  rw [List.map_map] at this
  exact this

/-- Invariant between iterations, as `Boot.Inv`. -/
structure Inv (p₁ p₂ : ℕ) (S : List ℚ → ℚ) (M : IndMat) (base new : List ℕ) (s : BState) : Prop where
  boot : s.boot = base ++ new
  rows : ∀ t, t ∈ s.rows ↔ ∃ j ∈ new, t ∈ colRows M j
  avg : ∀ j < M.nCols, s.avg j = floatUniq p₁ p₂ M base j
  prob : s.prob = floatProb p₁ p₂ S M base

theorem inv_init (h₂ : 1 ≤ p₂) (S : List ℚ → ℚ) (M : IndMat) (hk : ∀ j < M.nCols, (barsOf M j).card < 2 ^ p₂) :
    Inv p₁ p₂ S M [] [] (initState (roundBits p₂) S M) := by
  have h : ∀ j < M.nCols, (initState (roundBits p₂) S M).avg j = floatUniq p₁ p₂ M [] j := by
    intro j hj
    unfold initState floatUniq
    dsimp only
    split
    · rfl
    · rename_i hc
      have hcq : ((barsOf M j).card : ℚ) ≠ 0 := by exact_mod_cast hc
      have : ((barsOf M j).sort (· ≤ ·)).map (barShare p₁ M []) = List.replicate (barsOf M j).card 1 := by
        rw [List.eq_replicate_iff]
        refine ⟨by simp, ?_⟩
        intro x hx
        obtain ⟨t, _, rfl⟩ := List.mem_map.1 hx
        simp [barShare, drawnAt]
      rw [this]
      have e := foldl_ones h₂ (barsOf M j).card 0 (by simpa using hk j hj)
      rw [Nat.cast_zero, zero_add] at e
      rw [e, div_self hcq, roundBits_one p₂ h₂]
  refine ⟨rfl, by simp [initState], h, ?_⟩
  exact probOf_congr _ _ _ _ _ h

theorem inv_refresh (h₁ : 2 ≤ p₁) (h₁₂ : p₁ ≤ p₂) (S : List ℚ → ℚ) (M : IndMat) (base new : List ℕ) (s : BState)
    (h : Inv p₁ p₂ S M base new s) :
    Inv p₁ p₂ S M s.boot [] (refresh (roundBits p₁) (roundBits p₂) S M s) ∧
      (refresh (roundBits p₁) (roundBits p₂) S M s).boot = s.boot := by
  have hkeep : ∀ j, (∀ t ∈ barsOf M j, t ∉ s.rows) → floatUniq p₁ p₂ M base j = floatUniq p₁ p₂ M s.boot j := by
    intro j hj
    apply floatUniq_congr
    intro t ht
    have ht' := Finset.mem_filter.1 ht
    rw [h.boot, drawnAt_append, drawnAt_eq_zero (Finset.mem_range.1 ht'.1)
      (fun hex => hj t ht ((h.rows t).2 hex))]
    rfl
  unfold refresh
  split
  · rename_i hr
    refine ⟨?_, rfl⟩
    have havg : ∀ j < M.nCols,
        (if j ∈ npUnique ((npUnique s.rows).flatMap fun t => (List.range M.nCols).filter fun j => M.ent t j)
          then updateAvgUnique (roundBits p₁) (roundBits p₂) M s.boot j else s.avg j) = floatUniq p₁ p₂ M s.boot j := by
      intro j hj
      split
      · rename_i hm
        rw [mem_npUnique, List.mem_flatMap] at hm
        obtain ⟨t, ht, hm⟩ := hm
        have hm := List.mem_filter.1 hm
        rw [mem_npUnique] at ht
        obtain ⟨i, _, hi⟩ := (h.rows t).1 ht
        have htb : t ∈ barsOf M j := by
          rw [barsOf, Finset.mem_filter, Finset.mem_range]
          exact ⟨(mem_colRows.1 hi).1, by simpa using hm.2⟩
        exact updateAvgUnique_float h₁ h₁₂ M s.boot j (Finset.card_pos.2 ⟨t, htb⟩).ne'
      · rename_i hm
        rw [h.avg j hj, hkeep j]
        intro t ht hts
        apply hm
        rw [mem_npUnique, List.mem_flatMap]
        refine ⟨t, mem_npUnique.2 hts, List.mem_filter.2 ⟨List.mem_range.2 hj, ?_⟩⟩
        simpa using (Finset.mem_filter.1 ht).2
    exact ⟨by simp, by simp, havg, probOf_congr _ _ _ _ _ havg⟩
  · rename_i hr
    have hr' : s.rows = [] := by
      rw [← List.length_eq_zero_iff]; omega
    have hk : ∀ j, floatUniq p₁ p₂ M base j = floatUniq p₁ p₂ M s.boot j := fun j => hkeep j (by simp [hr'])
    refine ⟨⟨by simp, by simp [hr'], fun j hj => by rw [h.avg j hj, hk], ?_⟩, rfl⟩
    rw [h.prob]
    exact probOf_congr _ _ _ _ _ fun j _ => hk j

theorem inv_draw (S : List ℚ → ℚ) (M : IndMat) (s : BState) (c : List ℕ) (h : Inv p₁ p₂ S M s.boot [] s) :
    Inv p₁ p₂ S M s.boot c { s with
      boot := s.boot ++ c
      rows := s.rows ++ c.flatMap (fun j => colRows M j) } := by
  refine ⟨rfl, ?_, h.avg, h.prob⟩
  intro t
  have hs : t ∉ s.rows := by
    intro ht
    obtain ⟨j, hj, _⟩ := (h.rows t).1 ht
    simp at hj
  simp [hs]

/-- What the loop returns from a state satisfying the invariant. -/
theorem bootLoop_spec (h₁ : 2 ≤ p₁) (h₁₂ : p₁ ≤ p₂) (h₂ : 26 < p₂) {S : List ℚ → ℚ} (hS : IsSummation p₂ S) (M : IndMat)
    (hM : 0 < M.nCols) (hn : 40 * 2 ^ 26 * (M.nCols : ℚ) ≤ 2 ^ p₂) (rng : ℕ → List ℚ → ℕ → List ℕ) (len k : ℤ) :
    ∀ (fuel i : ℕ) (base new : List ℕ) (s : BState), Inv p₁ p₂ S M base new s →
      ∃ tr, bootLoop (roundBits p₁) (roundBits p₂) S M rng len k fuel i s = .ok tr ∧ tr.length = fuel ∧
        ∀ n (hn : n < tr.length),
          (tr[n]).1 = floatProb p₁ p₂ S M (s.boot ++ ((tr.take n).map (·.2)).flatten) ∧
          (tr[n]).2 = rng (i + n) (tr[n]).1 (min (len - (i + n : ℕ) * k) k).toNat := by
  intro fuel
  induction fuel with
  | zero =>
    intro i base new s _
    exact ⟨[], rfl, rfl, by simp⟩
  | succ fuel ih =>
    intro i base new s hinv
    obtain ⟨hr, hboot⟩ := inv_refresh h₁ h₁₂ S M base new s hinv
    have hprob : (refresh (roundBits p₁) (roundBits p₂) S M s).prob = floatProb p₁ p₂ S M s.boot := hr.prob
    rw [bootLoop]
    simp only
    rw [hprob, choiceValid_floatProb h₁ h₂ hS M s.boot hM hn, if_pos rfl]
    set c := rng i (floatProb p₁ p₂ S M s.boot) (min (len - i * k) k).toNat with hc
    rw [← hboot] at hr
    have hd := inv_draw S M (refresh (roundBits p₁) (roundBits p₂) S M s) c hr
    obtain ⟨tr, h1, h2, h3⟩ := ih (i + 1) _ _ _ hd
    rw [hprob] at h1
    rw [h1]
    refine ⟨_, rfl, by simp [h2], ?_⟩
    intro n hn
    cases n with
    | zero => simp [hc]
    | succ n =>
      have hn' : n < tr.length := by simpa using hn
      obtain ⟨a, b⟩ := h3 n hn'
      simp only [List.getElem_cons_succ, List.take_succ_cons, List.map_cons, List.flatten_cons]
      constructor
      · rw [a]
        simp [hboot]
      · rw [show i + (n + 1) = i + 1 + n by omega]
        exact b

/-- Rounding does not change the number of batches. -/
theorem ceil_round {p : ℕ} (hp : 1 ≤ p) (len k : ℤ) (hk : k ≠ 0) (hl : |len| < 2 ^ p) :
    (⌈roundBits p ((len : ℚ) / (k : ℚ))⌉).toNat = (⌈(len : ℚ) / (k : ℚ)⌉).toNat := by
  rcases le_or_gt ((len : ℚ) / (k : ℚ)) 0 with h0 | h0
  · have h1 : roundBits p ((len : ℚ) / (k : ℚ)) ≤ 0 := by
      have := roundBits_mono p hp h0
      rwa [roundBits_zero] at this
    rw [Int.toNat_eq_zero.2 (Int.ceil_le.2 (by simpa using h1)), Int.toNat_eq_zero.2 (Int.ceil_le.2 (by simpa using h0))]
  · congr 1
    set q : ℚ := (len : ℚ) / (k : ℚ) with hq
    have hkq : (0 : ℚ) < |(k : ℚ)| := abs_pos.2 (by exact_mod_cast hk)
    have hqa : q = |(len : ℚ)| / |(k : ℚ)| := by rw [← abs_div, ← hq, abs_of_pos h0]
    have hk1 : (1 : ℚ) ≤ |(k : ℚ)| := by exact_mod_cast Int.one_le_abs hk
    have hlq : |(len : ℚ)| < 2 ^ p := by exact_mod_cast hl
    have hm1 : 1 ≤ ⌈q⌉ := Int.one_le_ceil_iff.2 h0
    have hle : q ≤ (⌈q⌉ : ℚ) := Int.le_ceil q
    have hmle : ⌈q⌉ ≤ |len| := by
      apply Int.ceil_le.2
      rw [hqa]
      push_cast
      exact div_le_self (abs_nonneg _) hk1
    have hfl : IsFloat p ((⌈q⌉ : ℤ) : ℚ) := isFloat_int p _ (by rw [abs_of_nonneg (by omega)]; omega)
    have hup : roundBits p q ≤ (⌈q⌉ : ℚ) := by
      have := roundBits_mono p hp hle
      rwa [roundBits_eq_self p hp hfl] at this
    have hlow : ((⌈q⌉ : ℚ) - 1) < roundBits p q := by
      rcases hm1.eq_or_lt with h1 | h1
      · rw [← h1]
        simpa using roundBits_pos p hp h0
      · -- the distance from the integer below is at least `1 / |k|`
        have h2 : ((⌈q⌉ : ℚ) - 1) < q := by linarith [Int.ceil_lt_add_one q]
        have h3 : ((⌈q⌉ : ℚ) - 1) * |(k : ℚ)| < |(len : ℚ)| := by
          rw [hqa] at h2 ⊢
          rwa [lt_div_iff₀ hkq] at h2
        have h4 : (⌈q⌉ - 1) * |k| + 1 ≤ |len| := by
          have : (⌈q⌉ - 1) * |k| < |len| := by exact_mod_cast h3
          omega
        have h5 : ((⌈q⌉ : ℚ) - 1) * |(k : ℚ)| + 1 ≤ |(len : ℚ)| := by exact_mod_cast h4
        have h6 : ((⌈q⌉ : ℚ) - 1) + 1 / |(k : ℚ)| ≤ q := by
          rw [hqa, le_div_iff₀ hkq, add_mul, div_mul_cancel₀ _ hkq.ne', ← hqa]
          exact h5
        have h7 := roundBits_error p hp q
        rw [abs_of_pos h0, abs_le] at h7
        have h8 : q / 2 ^ p < 1 / |(k : ℚ)| := by
          rw [hqa, div_div, div_lt_div_iff₀ (by positivity) hkq]
          nlinarith
        linarith [h7.1]
    rw [Int.ceil_eq_iff]
    exact ⟨hlow, hup⟩

end Mizar.Rd
