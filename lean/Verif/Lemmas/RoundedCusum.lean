import Verif.Model.RoundedCusum
import Verif.Spec.RoundedCusum
import Verif.Lemmas.Cusum
import Mathlib.Tactic.Linarith
import Mathlib.Tactic.FieldSimp
import Mathlib.Tactic.Positivity
import Mathlib.Tactic.Ring

/-!
Lemmas about the CUSUM filter with rounding.
-/

namespace Mizar

/-- The error of rounding relative to the result. -/
theorem roundBits_error_result (p : ℕ) (hp : 1 ≤ p) (q : ℚ) (hq : 0 < q) :
    |roundBits p q - q| ≤ roundBits p q / 2 ^ p := by
  obtain ⟨k, h1, h2⟩ := exists_binade hq
  have hlow := (roundBits_in_binade p hp q k h1 h2).1
  have key : |roundBits p q - q| ≤ 2 ^ k / 2 ^ p := by
    rw [roundBits_binade p q k h1 h2]
    set f := k - ((p : ℤ) - 1)
    have h := abs_roundHalfEven_sub_le (q / 2 ^ f)
    have hf := two_zpow_pos f
    have e : (roundHalfEven (q / 2 ^ f) : ℚ) * 2 ^ f - q = ((roundHalfEven (q / 2 ^ f) : ℚ) - q / 2 ^ f) * 2 ^ f := by
      field_simp
    rw [e, abs_mul, abs_of_pos hf]
    have h3 : |(roundHalfEven (q / 2 ^ f) : ℚ) - q / 2 ^ f| * 2 ^ f ≤ 1 / 2 * 2 ^ f := mul_le_mul_of_nonneg_right h hf.le
    have h4 : (1 : ℚ) / 2 * 2 ^ f = 2 ^ k / 2 ^ p := by
      have : (2 : ℚ) ^ k = 2 ^ f * 2 ^ ((p : ℤ) - 1) := by rw [← zpow_add₀ (by norm_num)]; congr 1; omega
      have e3 : (2 : ℚ) ^ ((p : ℤ) - 1) = 2 ^ p / 2 := by rw [zpow_sub₀ (by norm_num), zpow_natCast, zpow_one]
      rw [this, e3]
      field_simp
    linarith
  exact key.trans (div_le_div_of_nonneg_right hlow (by positivity))

namespace Rd

/-- The upward accumulator and flag, with rounding, along a price path. -/
def upAcc (r : ℚ → ℚ) (h : ℚ) (x : ℕ → ℚ) : ℕ → ℚ × Bool
  | 0 => (0, false)
  | k + 1 =>
    let y := max 0 (r ((upAcc r h x k).1 + r (x (k + 1) - x k)))
    if h < y then (0, true) else (y, false)

theorem upAcc_range {r : ℚ → ℚ} {h : ℚ} (hh : 0 ≤ h) (x : ℕ → ℚ) (k : ℕ) :
    0 ≤ (upAcc r h x k).1 ∧ (upAcc r h x k).1 ≤ h := by
  cases k with
  | zero => exact ⟨le_rfl, hh⟩
  | succ k =>
    simp only [upAcc]
    split
    · exact ⟨le_rfl, hh⟩
    · rename_i h1; exact ⟨le_max_left _ _, not_lt.1 h1⟩

/-- What rounding needs: monotone, odd, exact at the threshold. -/
structure Rounding (r : ℚ → ℚ) (h : ℚ) : Prop where
  mono : ∀ x y, x ≤ y → r x ≤ r y
  odd : ∀ x, r (-x) = -r x
  fix : r h = h

theorem rounding_bits {p : ℕ} (hp : 1 ≤ p) {h : ℚ} (hf : IsFloat p h) : Rounding (roundBits p) h :=
  ⟨fun _ _ e => roundBits_mono p hp e, roundBits_neg p, roundBits_eq_self p hp hf⟩

theorem rounding_id (h : ℚ) : Rounding id h := ⟨fun _ _ e => e, fun _ => rfl, rfl⟩

theorem Rounding.lt_of {r : ℚ → ℚ} {h : ℚ} (R : Rounding r h) {y : ℚ} (e : h < r y) : h < y := by
  by_contra c
  have := R.mono _ _ (not_lt.1 c)
  rw [R.fix] at this
  linarith

theorem min_zero_neg (y : ℚ) : min 0 (-y) = -max 0 y := by
  rcases le_total 0 y with h | h
  · rw [max_eq_right h, min_eq_right (by linarith)]
  · rw [max_eq_left h, min_eq_left (by linarith), neg_zero]

theorem step_up {r : ℚ → ℚ} {h : ℚ} (R : Rounding r h) (hh : 0 ≤ h) (x : ℕ → ℚ) (k : ℕ) :
    cusumStep r h ((upAcc r h x k).1, -(upAcc r h (fun i => -x i) k).1) (r (x (k + 1) - x k)) =
      (((upAcc r h x (k + 1)).1, -(upAcc r h (fun i => -x i) (k + 1)).1),
        (upAcc r h x (k + 1)).2 || (upAcc r h (fun i => -x i) (k + 1)).2) ∧
    ¬ ((upAcc r h x (k + 1)).2 = true ∧ (upAcc r h (fun i => -x i) (k + 1)).2 = true) := by
  have ra := (upAcc_range (r := r) hh x k).2
  have rb := (upAcc_range (r := r) hh (fun i => -x i) k).2
  simp only [upAcc, cusumStep]
  generalize (upAcc r h x k).1 = a at *
  generalize (upAcc r h (fun i => -x i) k).1 = b at *
  have e1 : r (-x (k + 1) - -x k) = -r (x (k + 1) - x k) := by rw [← R.odd]; congr 1; ring
  rw [e1]
  generalize r (x (k + 1) - x k) = d
  have e2 : r (-b + d) = -r (b + -d) := by rw [← R.odd]; congr 1; ring
  rw [e2, min_zero_neg]
  simp only [neg_lt_neg_iff]
  by_cases h1 : h < max 0 (r (b + -d))
  · have h3 : ¬ h < max 0 (r (a + d)) := by
      intro h4
      have h5 : h < b + -d := by
        rcases lt_max_iff.1 h1 with h2 | h2
        · linarith
        · exact R.lt_of h2
      have h6 : h < a + d := by
        rcases lt_max_iff.1 h4 with h2 | h2
        · linarith
        · exact R.lt_of h2
      linarith
    simp [h1, h3]
  · by_cases h3 : h < max 0 (r (a + d))
    · simp [h1, h3]
    · simp [h1, h3]

theorem loop_up {r : ℚ → ℚ} {h : ℚ} (R : Rounding r h) (hh : 0 ≤ h) (x : ℕ → ℚ) (t : ℕ → ℤ) (m : ℕ) : ∀ i,
    cusumLoop r h ((upAcc r h x i).1, -(upAcc r h (fun i => -x i) i).1)
      ((List.range' i m).map fun k => (t (k + 1), r (x (k + 1) - x k))) =
    ((List.range' (i + 1) m).filter fun k => (upAcc r h x k).2 || (upAcc r h (fun i => -x i) k).2).map t := by
  induction m with
  | zero => intro i; rfl
  | succ m ih =>
    intro i
    rw [List.range'_succ, List.range'_succ, List.map_cons, List.filter_cons]
    simp only [cusumLoop]
    rw [(step_up R hh x i).1]
    dsimp only
    rw [ih (i + 1)]
    split <;> simp

theorem cusumDiffs_eq (r : ℚ → ℚ) (X : List (ℤ × ℚ)) : cusumDiffs r X =
    (List.range (X.length - 1)).map fun k =>
      ((X.getD (k + 1) (0, 0)).1, r ((X.getD (k + 1) (0, 0)).2 - (X.getD k (0, 0)).2)) := by
  induction X with
  | nil => rfl
  | cons a l ih =>
    cases l with
    | nil => rfl
    | cons b l =>
      simp only [cusumDiffs, List.length_cons, Nat.add_sub_cancel] at ih ⊢
      rw [ih, List.range_succ_eq_map, List.map_cons, List.map_map]
      simp [Function.comp_def]

/-- The selection is the list of times with an upward or downward flag. -/
theorem cusum_eq {r : ℚ → ℚ} {h : ℚ} (R : Rounding r h) (hh : 0 ≤ h) (X : List (ℤ × ℚ)) (hX : (X.map (·.1)).Nodup) :
    cusum r h X = .ok (((List.range X.length).filter fun k => (upAcc r h (fun i => (X.getD i (0, 0)).2) k).2 ||
      (upAcc r h (fun i => -(X.getD i (0, 0)).2) k).2).map fun k => (X.getD k (0, 0)).1) := by
  rw [cusum, if_pos hX, cusumDiffs_eq, List.range_eq_range']
  congr 1
  have := loop_up R hh (fun i => (X.getD i (0, 0)).2) (fun k => (X.getD k (0, 0)).1) (X.length - 1) 0
  simp only [upAcc, neg_zero] at this
  rw [this]
  cases X with
  | nil => rfl
  | cons a l =>
    rw [List.range_eq_range', List.length_cons, List.range'_succ, List.filter_cons]
    simp [upAcc]

theorem pathError_self (p : ℕ) (h : ℚ) (x : ℕ → ℚ) (k : ℕ) : Spec.pathError p h x k k = 0 := by
  simp [Spec.pathError]

theorem pathError_succ (p : ℕ) (h : ℚ) (x : ℕ → ℚ) {j k : ℕ} (hjk : j ≤ k) :
    Spec.pathError p h x j (k + 1) = Spec.pathError p h x j k + |x (k + 1) - x k| / 2 ^ p + h / 2 ^ p := by
  unfold Spec.pathError
  rw [Finset.sum_Ico_succ_top hjk]
  push_cast
  ring

theorem diff_bounds {p : ℕ} (hp : 1 ≤ p) (d : ℚ) :
    roundBits p d ≤ d + |d| / 2 ^ p ∧ d - |d| / 2 ^ p ≤ roundBits p d := by
  have := abs_le.1 (roundBits_error p hp d)
  constructor <;> linarith

theorem upAcc_upper {p : ℕ} (hp : 1 ≤ p) {h : ℚ} (hh : 0 ≤ h) (x : ℕ → ℚ) (k : ℕ) :
    ∃ j ≤ k, (upAcc (roundBits p) h x k).1 ≤ x k - x j + Spec.pathError p h x j k ∧
      ∀ i, j < i → i ≤ k → (upAcc (roundBits p) h x i).2 = false := by
  induction k with
  | zero => exact ⟨0, le_rfl, by simp [upAcc, pathError_self], fun i h1 h2 => by omega⟩
  | succ k ih =>
    obtain ⟨j, hj, h1, h2⟩ := ih
    have triv : (upAcc (roundBits p) h x (k + 1)).1 = 0 → ∃ j ≤ k + 1,
        (upAcc (roundBits p) h x (k + 1)).1 ≤ x (k + 1) - x j + Spec.pathError p h x j (k + 1) ∧
        ∀ i, j < i → i ≤ k + 1 → (upAcc (roundBits p) h x i).2 = false := fun e =>
      ⟨k + 1, le_rfl, by rw [e, pathError_self]; simp, fun i a b => by omega⟩
    have hd := (diff_bounds hp (x (k + 1) - x k)).1
    set d := roundBits p (x (k + 1) - x k) with hdd
    set a := (upAcc (roundBits p) h x k).1 with haa
    by_cases c : h < max 0 (roundBits p (a + d))
    · exact triv (by simp only [upAcc]; rw [if_pos c])
    · have ev : upAcc (roundBits p) h x (k + 1) = (max 0 (roundBits p (a + d)), false) := by
        simp only [upAcc]; rw [if_neg c]
      by_cases c2 : 0 < a + d
      · have h3 := roundBits_pos p hp c2
        have h4 := (abs_le.1 (roundBits_error_result p hp _ c2)).2
        rw [max_eq_right h3.le] at c ev
        have h5 : roundBits p (a + d) / 2 ^ p ≤ h / 2 ^ p := div_le_div_of_nonneg_right (not_lt.1 c) (by positivity)
        refine ⟨j, by omega, ?_, ?_⟩
        · rw [ev, pathError_succ p h x hj]
          dsimp only
          linarith
        · intro i a b
          rcases Nat.lt_or_ge i (k + 1) with e | e
          · exact h2 i a (by omega)
          · rw [show i = k + 1 by omega, ev]
      · refine triv ?_
        rw [ev]
        have := roundBits_mono p hp (not_lt.1 c2)
        rw [roundBits_zero] at this
        exact max_eq_left this

theorem upAcc_lower {p : ℕ} (hp : 1 ≤ p) {h : ℚ} (hh : 0 ≤ h) (x : ℕ → ℚ) (j : ℕ) : ∀ k, j ≤ k →
    (∀ i, j < i → i ≤ k → (upAcc (roundBits p) h x i).2 = false) →
    x k - x j - Spec.pathError p h x j k ≤ (upAcc (roundBits p) h x k).1 := by
  intro k hk
  induction k, hk using Nat.le_induction with
  | base =>
    intro _
    rw [pathError_self]
    simpa using (upAcc_range (r := roundBits p) hh x j).1
  | succ k hk ih =>
    intro hf
    have h1 := ih fun i a b => hf i a (by omega)
    have h2 := hf (k + 1) (by omega) le_rfl
    have hd := (diff_bounds hp (x (k + 1) - x k)).2
    have h0 : 0 ≤ h / 2 ^ p := by positivity
    rw [pathError_succ p h x hk]
    simp only [upAcc] at h2 ⊢
    set d := roundBits p (x (k + 1) - x k) with hdd
    set a := (upAcc (roundBits p) h x k).1 with haa
    by_cases c : h < max 0 (roundBits p (a + d))
    · rw [if_pos c] at h2; cases h2
    · rw [if_neg c]
      dsimp only
      by_cases c2 : 0 < a + d
      · have h3 := roundBits_pos p hp c2
        have h4 := (abs_le.1 (roundBits_error_result p hp _ c2)).1
        rw [max_eq_right h3.le] at c ⊢
        have h5 : roundBits p (a + d) / 2 ^ p ≤ h / 2 ^ p := div_le_div_of_nonneg_right (not_lt.1 c) (by positivity)
        linarith
      · have := le_max_left 0 (roundBits p (a + d))
        linarith

theorem upAcc_isUp {p : ℕ} (hp : 1 ≤ p) {h : ℚ} (hh : 0 ≤ h) (hf : IsFloat p h) (x : ℕ → ℚ) (n : ℕ) :
    Spec.IsUpEventsUpTo (Spec.pathError p h x) h x n fun k => (upAcc (roundBits p) h x k).2 := by
  intro k _
  have h0 : 0 ≤ h / 2 ^ p := by positivity
  constructor
  · cases k with
    | zero => intro e; simp [upAcc] at e
    | succ k =>
      intro e
      obtain ⟨j, hj, h1, h2⟩ := upAcc_upper hp hh x k
      refine ⟨j, by omega, ?_, fun i a b => h2 i a (by omega)⟩
      simp only [upAcc] at e
      have hd := (diff_bounds hp (x (k + 1) - x k)).1
      rw [pathError_succ p h x hj]
      set d := roundBits p (x (k + 1) - x k) with hdd
      set a := (upAcc (roundBits p) h x k).1 with haa
      by_cases c : h < max 0 (roundBits p (a + d))
      · rcases lt_max_iff.1 c with c | c
        · linarith
        · have := (rounding_bits hp hf).lt_of c
          linarith
      · rw [if_neg c] at e; cases e
  · intro j hj hq hlt
    by_contra c
    have := upAcc_lower hp hh x j k hj.le (fun i a b => by
      rcases Nat.lt_or_ge i k with e | e
      · exact hq i a e
      · rw [show i = k by omega]; simpa using c)
    have := (upAcc_range (r := roundBits p) hh x k).2
    linarith

/-- On a grid rounding changes nothing. -/
theorem upAcc_grid {p : ℕ} (hp : 1 ≤ p) {h : ℚ} (x : ℕ → ℚ) (n : ℕ) (e : ℤ) (m : ℕ → ℤ)
    (hm : ∀ i < n, |m i| < 2 ^ (p - 1)) (hx : ∀ i < n, x i = m i * 2 ^ e) : ∀ k < n,
    upAcc (roundBits p) h x k = upAcc id h x k ∧ ∃ j ≤ k, (upAcc id h x k).1 = x k - x j := by
  have hfix : ∀ i < n, ∀ j < n, roundBits p (x i - x j) = x i - x j := by
    intro i hi j hj
    apply roundBits_eq_self p hp
    refine ⟨m i - m j, e, ?_, by rw [hx i hi, hx j hj]; push_cast; ring⟩
    have h1 := abs_lt.1 (hm i hi)
    have h2 := abs_lt.1 (hm j hj)
    have h3 : (2 : ℤ) ^ p = 2 * 2 ^ (p - 1) := by rw [← pow_succ', Nat.sub_add_cancel hp]
    rw [abs_lt, h3]
    constructor <;> linarith [h1.1, h1.2, h2.1, h2.2]
  intro k
  induction k with
  | zero => intro _; exact ⟨rfl, 0, le_rfl, by simp [upAcc]⟩
  | succ k ih =>
    intro hk
    obtain ⟨h1, j, hj, h2⟩ := ih (by omega)
    simp only [upAcc, h1]
    rw [hfix _ hk _ (by omega), h2, show x k - x j + (x (k + 1) - x k) = x (k + 1) - x j by ring,
      hfix _ hk _ (by omega)]
    simp only [id]
    rw [show x k - x j + (x (k + 1) - x k) = x (k + 1) - x j by ring]
    refine ⟨rfl, ?_⟩
    split
    · exact ⟨k + 1, le_rfl, by simp⟩
    · rcases le_total 0 (x (k + 1) - x j) with c | c
      · exact ⟨j, by omega, max_eq_right c⟩
      · exact ⟨k + 1, le_rfl, by rw [max_eq_left c]; simp⟩

theorem cusumStep_id (h a b d : ℚ) : Cusum.step (.fin h) ⟨.fin a, .fin b⟩ (.fin d) =
    (⟨.fin (cusumStep id h (a, b) d).1.1, .fin (cusumStep id h (a, b) d).1.2⟩, (cusumStep id h (a, b) d).2) := by
  simp only [Cusum.step, XF.add_fin, XF.neg_fin, Cusum.pyMax0_fin, Cusum.pyMin0_fin, XF.lt_fin, cusumStep, id,
    decide_eq_true_eq]
  split
  · rfl
  · split <;> rfl

theorem cusumLoop_id (h : ℚ) (l : List (ℤ × ℚ)) : ∀ a b : ℚ,
    Cusum.loop (.fin h) ⟨.fin a, .fin b⟩ (l.map fun x => (x.1, XF.fin x.2)) = cusumLoop id h (a, b) l := by
  induction l with
  | nil => intros; rfl
  | cons x l ih =>
    intro a b
    simp only [List.map_cons, Cusum.loop, cusumLoop, cusumStep_id, ih]

/-- Without rounding the two models agree. -/
theorem cusum_id (h : ℚ) (X : List (ℤ × ℚ)) :
    cusum id h X = Cusum.transform (.fin h) (X.map fun x => (x.1, XF.fin x.2)) := by
  unfold cusum Cusum.transform
  have hm : (X.map fun x => (x.1, XF.fin x.2)).map (·.1) = X.map (·.1) := by simp
  rw [hm, Cusum.diffs_fin, cusumDiffs_eq]
  split
  · rw [← cusumLoop_id, List.map_map]; rfl
  · rfl

/-- The number of flags up to `k`. -/
def upCount (r : ℚ → ℚ) (h : ℚ) (x : ℕ → ℚ) (k : ℕ) : ℕ := (List.range (k + 1)).countP fun i => (upAcc r h x i).2

theorem upCount_succ (r : ℚ → ℚ) (h : ℚ) (x : ℕ → ℚ) (k : ℕ) :
    upCount r h x (k + 1) = upCount r h x k + if (upAcc r h x (k + 1)).2 then 1 else 0 := by
  unfold upCount
  rw [List.range_succ, List.countP_append, List.countP_singleton]

theorem upCount_antitone {r : ℚ → ℚ} (hr : ∀ x y, x ≤ y → r x ≤ r y) {h₁ h₂ : ℚ} (h12 : h₁ ≤ h₂)
    (x : ℕ → ℚ) (k : ℕ) : upCount r h₂ x k ≤ upCount r h₁ x k ∧
      (upCount r h₂ x k = upCount r h₁ x k → (upAcc r h₂ x k).1 ≤ (upAcc r h₁ x k).1) := by
  induction k with
  | zero => simp [upCount, upAcc]
  | succ k ih =>
    obtain ⟨h1, h2⟩ := ih
    rw [upCount_succ, upCount_succ]
    have hy : upCount r h₂ x k = upCount r h₁ x k →
        max 0 (r ((upAcc r h₂ x k).1 + r (x (k + 1) - x k))) ≤ max 0 (r ((upAcc r h₁ x k).1 + r (x (k + 1) - x k))) :=
      fun e => max_le_max le_rfl (hr _ _ (by linarith [h2 e]))
    have n1 : 0 ≤ max 0 (r ((upAcc r h₁ x k).1 + r (x (k + 1) - x k))) := le_max_left _ _
    obtain ⟨y₁, e₁⟩ : ∃ y, y = max 0 (r ((upAcc r h₁ x k).1 + r (x (k + 1) - x k))) := ⟨_, rfl⟩
    obtain ⟨y₂, e₂⟩ : ∃ y, y = max 0 (r ((upAcc r h₂ x k).1 + r (x (k + 1) - x k))) := ⟨_, rfl⟩
    have u₁ : upAcc r h₁ x (k + 1) = if h₁ < y₁ then (0, true) else (y₁, false) := by rw [e₁]; rfl
    have u₂ : upAcc r h₂ x (k + 1) = if h₂ < y₂ then (0, true) else (y₂, false) := by rw [e₂]; rfl
    rw [← e₁, ← e₂] at hy
    rw [← e₁] at n1
    rw [u₁, u₂]
    by_cases c1 : h₁ < y₁
    · by_cases c2 : h₂ < y₂
      · rw [if_pos c1, if_pos c2]; simp only [if_true]; exact ⟨by omega, fun _ => le_rfl⟩
      · rw [if_pos c1, if_neg c2]; simp only [if_true, Bool.false_eq_true, if_false]
        exact ⟨by omega, fun e => by omega⟩
    · by_cases c2 : h₂ < y₂
      · rw [if_neg c1, if_pos c2]; simp only [if_true, Bool.false_eq_true, if_false]
        refine ⟨?_, fun _ => n1⟩
        rcases Nat.lt_or_ge (upCount r h₂ x k) (upCount r h₁ x k) with e | e
        · omega
        · have := hy (by omega)
          exact absurd (h12.trans_lt (c2.trans_le this)) c1
      · rw [if_neg c1, if_neg c2]; simp only [Bool.false_eq_true, if_false]
        exact ⟨by omega, fun e => hy (by omega)⟩

theorem countP_or_disjoint (l : List ℕ) (a b : ℕ → Bool) (hd : ∀ k, ¬ (a k = true ∧ b k = true)) :
    (l.filter fun k => a k || b k).length = l.countP a + l.countP b := by
  rw [← List.countP_eq_length_filter]
  induction l with
  | nil => rfl
  | cons k l ih =>
    rw [List.countP_cons, List.countP_cons, List.countP_cons, ih]
    have := hd k
    cases ha : a k <;> cases hb : b k <;> simp [ha, hb] at this ⊢ <;> omega

theorem disjoint_up {r : ℚ → ℚ} {h : ℚ} (R : Rounding r h) (hh : 0 ≤ h) (x : ℕ → ℚ) (k : ℕ) :
    ¬ ((upAcc r h x k).2 = true ∧ (upAcc r h (fun i => -x i) k).2 = true) := by
  cases k with
  | zero => simp [upAcc]
  | succ k => exact (step_up R hh x k).2

/-- Rounding commutes with powers of two. -/
theorem roundBits_zpow (p : ℕ) (k : ℤ) (q : ℚ) : roundBits p (q * 2 ^ k) = roundBits p q * 2 ^ k := by
  have key : ∀ q : ℚ, 0 < q → roundBits p (q * 2 ^ k) = roundBits p q * 2 ^ k := by
    intro q hq
    obtain ⟨e, h1, h2⟩ := exists_binade hq
    have hk := two_zpow_pos k
    rw [roundBits_binade p q e h1 h2, roundBits_binade p (q * 2 ^ k) (e + k)
      (by rw [zpow_add₀ (by norm_num)]; exact mul_le_mul_of_nonneg_right h1 hk.le)
      (by rw [show e + k + 1 = e + 1 + k by ring, zpow_add₀ (by norm_num)]; exact mul_lt_mul_of_pos_right h2 hk)]
    have e1 : e + k - ((p : ℤ) - 1) = e - ((p : ℤ) - 1) + k := by ring
    rw [e1, zpow_add₀ (by norm_num), mul_div_mul_right _ _ hk.ne', mul_assoc]
  rcases lt_trichotomy 0 q with hq | hq | hq
  · exact key q hq
  · rw [← hq, zero_mul, roundBits_zero, zero_mul]
  · have := key (-q) (neg_pos.2 hq)
    rw [neg_mul, roundBits_neg, roundBits_neg, neg_mul] at this
    exact neg_inj.1 this

theorem upAcc_scale {r : ℚ → ℚ} {c : ℚ} (hc : 0 < c) (hr : ∀ x, r (x * c) = r x * c) (h : ℚ) (x : ℕ → ℚ) (k : ℕ) :
    upAcc r (h * c) (fun i => x i * c) k = ((upAcc r h x k).1 * c, (upAcc r h x k).2) := by
  induction k with
  | zero => simp [upAcc]
  | succ k ih =>
    simp only [upAcc, ih]
    rw [← sub_mul, hr, ← add_mul, hr]
    have : max 0 (r ((upAcc r h x k).1 + r (x (k + 1) - x k)) * c) =
        max 0 (r ((upAcc r h x k).1 + r (x (k + 1) - x k))) * c := by
      rw [max_mul_of_nonneg _ _ hc.le, zero_mul]
    rw [this]
    by_cases e : h < max 0 (r ((upAcc r h x k).1 + r (x (k + 1) - x k)))
    · rw [if_pos e, if_pos (mul_lt_mul_of_pos_right e hc)]; simp
    · rw [if_neg e, if_neg (by rw [not_lt] at e ⊢; exact mul_le_mul_of_nonneg_right e hc.le)]

end Rd
end Mizar
