import Verif.Spec.Within
import Verif.Lemmas.DoubleEvent
import Verif.Lemmas.RoundedBoot

/-! Lemmas about roundings that agree on a range of sizes. -/

namespace Mizar.Rd
open Mizar Mizar.Spec Mizar.Boot

theorem _root_.Mizar.Spec.AgreesOn.mono {lo hi lo' hi' : ℤ} (h1 : lo' ≤ lo) (h2 : hi ≤ hi') {r r' : ℚ → ℚ} (h : AgreesOn lo' hi' r r') : AgreesOn lo hi r r' := by
  intro q hq
  apply h
  rcases hq with hq | ⟨a, b⟩
  · exact Or.inl hq
  · exact Or.inr ⟨(zpow_le_zpow_right₀ (by norm_num) h1).trans a, b.trans (zpow_le_zpow_right₀ (by norm_num) h2)⟩

theorem _root_.Mizar.Spec.AgreesOn.pos {lo hi : ℤ} {r r' : ℚ → ℚ} (h : AgreesOn lo hi r r') {q : ℚ} (a : (2 : ℚ) ^ lo ≤ q) (b : q ≤ 2 ^ hi) : r' q = r q := by
  have h0 : 0 < q := lt_of_lt_of_le (two_zpow_pos lo) a
  exact h q (Or.inr (by rw [abs_of_pos h0]; exact ⟨a, b⟩))

/-- Multiples of a unit are zero or large enough. -/
theorem _root_.Mizar.Spec.AgreesOn.unit {lo hi : ℤ} {r r' : ℚ → ℚ} (h : AgreesOn lo hi r r') {q : ℚ} (hu : OnUnit lo q) (b : |q| ≤ 2 ^ hi) : r' q = r q := by
  obtain ⟨m, rfl⟩ := hu
  apply h
  by_cases hm : m = 0
  · left; simp [hm]
  · refine Or.inr ⟨?_, b⟩
    rw [abs_mul, abs_of_pos (two_zpow_pos lo)]
    have : (1 : ℚ) ≤ |(m : ℚ)| := by exact_mod_cast Int.one_le_abs hm
    nlinarith [two_zpow_pos lo]

theorem roundBits_range (p : ℕ) (hp : 1 ≤ p) {a b : ℤ} {q : ℚ} (h1 : (2 : ℚ) ^ a ≤ q) (h2 : q ≤ 2 ^ b) :
    (2 : ℚ) ^ a ≤ roundBits p q ∧ roundBits p q ≤ 2 ^ b := by
  have e1 := roundBits_mono p hp h1
  have e2 := roundBits_mono p hp h2
  rw [roundBits_zpow_self p hp] at e1 e2
  exact ⟨e1, e2⟩

theorem zpow_neg_le_inv {b : ℤ} {q : ℚ} (h0 : 0 < q) (h : q ≤ 2 ^ b) : (2 : ℚ) ^ (-b) ≤ 1 / q := by
  rw [zpow_neg, ← one_div]
  exact one_div_le_one_div_of_le h0 h

theorem zpow_div_le {a b : ℤ} {x y : ℚ} (hx : (2 : ℚ) ^ a ≤ x) (hy : 0 < y) (hyb : y ≤ 2 ^ b) : (2 : ℚ) ^ (a - b) ≤ x / y := by
  rw [zpow_sub₀ (by norm_num)]
  have := two_zpow_pos a
  exact div_le_div₀ (by linarith) hx hy hyb

/-- Sums of `n` numbers between `2^-a` and one, from left to right. -/
theorem sum_within (p : ℕ) (hp : 1 ≤ p) (a : ℕ) {hi : ℤ} {r' : ℚ → ℚ} (h : AgreesOn (-(a : ℤ)) hi (roundBits p) r') (hhi : (p : ℤ) ≤ hi)
    (l : List ℚ) : ∀ (s : ℚ) (k : ℕ), (∀ x ∈ l, (2 : ℚ) ^ (-(a : ℤ)) ≤ x ∧ x ≤ 1) → 0 ≤ s → s ≤ k → k + l.length < 2 ^ p →
    l.foldl (fun a b => r' (a + b)) s = l.foldl (fun a b => roundBits p (a + b)) s ∧
    s ≤ l.foldl (fun a b => roundBits p (a + b)) s ∨ ¬ IsFloat p s := by
  induction l with
  | nil => intro s k _ _ _ _; exact Or.inl ⟨rfl, le_rfl⟩
  | cons x l ih =>
    intro s k hl hs hk hlen
    by_cases hf : IsFloat p s
    swap
    · exact Or.inr hf
    left
    obtain ⟨hx1, hx2⟩ := hl x (by simp)
    rw [List.length_cons] at hlen
    have hxp : 0 < x := lt_of_lt_of_le (two_zpow_pos _) hx1
    have hk1 : s + x ≤ ((k + 1 : ℕ) : ℚ) := by push_cast; linarith
    have hkp : ((k + 1 : ℕ) : ℚ) ≤ 2 ^ hi := by
      have : ((k + 1 : ℕ) : ℚ) ≤ 2 ^ p := by exact_mod_cast (by omega)
      refine this.trans ?_
      rw [← zpow_natCast]
      exact zpow_le_zpow_right₀ (by norm_num) hhi
    have e : r' (s + x) = roundBits p (s + x) := h.pos (by linarith) (hk1.trans hkp)
    have hup : roundBits p (s + x) ≤ ((k + 1 : ℕ) : ℚ) := by
      have := roundBits_mono p hp hk1
      rwa [roundBits_natCast p hp _ (by omega)] at this
    have hlow : s ≤ roundBits p (s + x) := by
      have := roundBits_mono p hp (show s ≤ s + x by linarith)
      rwa [roundBits_eq_self p hp hf] at this
    rw [List.foldl_cons, List.foldl_cons, e]
    rcases ih (roundBits p (s + x)) (k + 1) (fun y hy => hl y (by simp [hy])) (hs.trans hlow) hup (by omega) with ⟨i1, i2⟩ | hc
    · exact ⟨i1, hlow.trans i2⟩
    · exact absurd (isFloat_roundBits p hp _) hc

theorem foldl_le_steps (p : ℕ) (hp : 1 ≤ p) (l : List ℚ) : ∀ (s : ℚ) (k : ℕ), (∀ x ∈ l, x ≤ 1) → s ≤ k → k + l.length < 2 ^ p →
    l.foldl (fun a b => roundBits p (a + b)) s ≤ ((k + l.length : ℕ) : ℚ) := by
  induction l with
  | nil => intro s k _ hs _; simpa using hs
  | cons x l ih =>
    intro s k hl hs hlen
    rw [List.length_cons] at hlen
    have hx := hl x (by simp)
    have hup : roundBits p (s + x) ≤ ((k + 1 : ℕ) : ℚ) := by
      have := roundBits_mono p hp (show s + x ≤ ((k + 1 : ℕ) : ℚ) by push_cast; linarith)
      rwa [roundBits_natCast p hp _ (by omega)] at this
    rw [List.foldl_cons, List.length_cons]
    have := ih _ (k + 1) (fun y hy => hl y (by simp [hy])) hup (by omega)
    rwa [show k + 1 + l.length = k + (l.length + 1) by omega] at this

/-- The mean of numbers between `2^-a` and one: no operation leaves the range, and the result is between `2^(-a-p)` and one. -/
theorem mean_within (p : ℕ) (hp : 1 ≤ p) (a : ℕ) {lo hi : ℤ} {r' : ℚ → ℚ} (h : AgreesOn lo hi (roundBits p) r') (hlo : lo ≤ -(a : ℤ) - p)
    (hhi : (p : ℤ) ≤ hi) (l : List ℚ) (hne : l ≠ []) (hl : ∀ x ∈ l, (2 : ℚ) ^ (-(a : ℤ)) ≤ x ∧ x ≤ 1) (hlen : l.length < 2 ^ p) :
    r' (sum r' l / (l.length : ℚ)) = roundBits p (sum (roundBits p) l / (l.length : ℚ)) ∧
    (2 : ℚ) ^ (-(a : ℤ) - p) ≤ roundBits p (sum (roundBits p) l / (l.length : ℚ)) ∧
    roundBits p (sum (roundBits p) l / (l.length : ℚ)) ≤ 1 := by
  have hL : (0 : ℚ) < l.length := by exact_mod_cast List.length_pos_iff.2 hne
  have hz : IsFloat p 0 := ⟨0, 0, by positivity, by simp⟩
  have hs : sum r' l = sum (roundBits p) l := by
    unfold sum
    rcases sum_within p hp a (h.mono (by omega) le_rfl) hhi l 0 0 hl le_rfl (by simp) (by omega) with ⟨e, -⟩ | hc
    · exact e
    · exact absurd hz hc
  have hlow : (2 : ℚ) ^ (-(a : ℤ)) ≤ sum (roundBits p) l := by
    obtain ⟨x, t, rfl⟩ := List.exists_cons_of_ne_nil hne
    unfold sum
    rw [List.foldl_cons, zero_add]
    obtain ⟨hx1, hx2⟩ := hl x (by simp)
    have hx := (roundBits_range p hp (b := 0) hx1 (by simpa using hx2)).1
    have hx' := (roundBits_range p hp (b := 0) hx1 (by simpa using hx2)).2
    rw [List.length_cons] at hlen
    rcases sum_within p hp a (h.mono (by omega) le_rfl) hhi t (roundBits p x) 1 (fun y hy => hl y (by simp [hy]))
      ((two_zpow_pos _).le.trans hx) (by simpa using hx') (by omega) with ⟨-, e⟩ | hc
    · exact hx.trans e
    · exact absurd (isFloat_roundBits p hp _) hc
  have hup : sum (roundBits p) l ≤ l.length := by
    have := foldl_le_steps p hp l 0 0 (fun x hx => (hl x hx).2) (by simp) (by omega)
    rwa [Nat.zero_add] at this
  have hLp : (l.length : ℚ) ≤ 2 ^ ((p : ℕ) : ℤ) := by
    rw [zpow_natCast]
    exact_mod_cast hlen.le
  have h1 : (2 : ℚ) ^ (-(a : ℤ) - p) ≤ sum (roundBits p) l / (l.length : ℚ) := zpow_div_le hlow hL hLp
  have h2 : sum (roundBits p) l / (l.length : ℚ) ≤ (2 : ℚ) ^ (0 : ℤ) := by
    rw [zpow_zero, div_le_one hL]; exact hup
  obtain ⟨g1, g2⟩ := roundBits_range p hp h1 h2
  refine ⟨?_, g1, by simpa using g2⟩
  rw [hs]
  exact (h.mono (lo := -(a : ℤ) - p) hlo (show (0 : ℤ) ≤ hi by omega)).pos h1 h2

theorem inv_within (p : ℕ) (hp : 1 ≤ p) (a : ℕ) {lo hi : ℤ} {r' : ℚ → ℚ} (h : AgreesOn lo hi (roundBits p) r') (hlo : lo ≤ -(a : ℤ))
    (hhi : 0 ≤ hi) {q : ℚ} (h1 : 1 ≤ q) (h2 : q ≤ 2 ^ a) :
    r' (1 / q) = roundBits p (1 / q) ∧ (2 : ℚ) ^ (-(a : ℤ)) ≤ roundBits p (1 / q) ∧ roundBits p (1 / q) ≤ 1 := by
  have h0 : 0 < q := by linarith
  have g1 : (2 : ℚ) ^ (-(a : ℤ)) ≤ 1 / q := zpow_neg_le_inv h0 (by rwa [zpow_natCast])
  have g2 : 1 / q ≤ (2 : ℚ) ^ (0 : ℤ) := by rw [zpow_zero, div_le_one h0]; exact h1
  obtain ⟨e1, e2⟩ := roundBits_range p hp g1 g2
  exact ⟨(h.mono hlo hhi).pos g1 g2, e1, by simpa using e2⟩

/-- `calc_average_uniqueness` does not leave the range. -/
theorem averageUniqueness_within (p : ℕ) (hp : 1 ≤ p) (a : ℕ) {lo hi : ℤ} {r' : ℚ → ℚ} (h : AgreesOn lo hi (roundBits p) r')
    (hlo : lo ≤ -(a : ℤ) - p) (hhi : (p : ℤ) ≤ hi) (M : IndMat) (j : ℕ) (hn : M.nCols ≤ 2 ^ a) (hj : j < M.nCols) (hb : colRows M j ≠ [])
    (hL : (colRows M j).length < 2 ^ p) :
    averageUniqueness r' M j = averageUniqueness (roundBits p) M j ∧ (2 : ℚ) ^ (-(a : ℤ) - p) ≤ averageUniqueness (roundBits p) M j ∧
      averageUniqueness (roundBits p) M j ≤ 1 := by
  have hterm : ∀ t ∈ colRows M j, r' (1 * r' (1 / (rowSum M t : ℚ))) = roundBits p (1 * roundBits p (1 / (rowSum M t : ℚ))) ∧
      (2 : ℚ) ^ (-(a : ℤ)) ≤ roundBits p (1 * roundBits p (1 / (rowSum M t : ℚ))) ∧
      roundBits p (1 * roundBits p (1 / (rowSum M t : ℚ))) ≤ 1 := by
    intro t ht
    have h1 : 1 ≤ rowSum M t := by
      unfold rowSum
      rw [Nat.one_le_iff_ne_zero, ← Nat.pos_iff_ne_zero, List.countP_pos_iff]
      exact ⟨j, List.mem_range.2 hj, (mem_colRows.1 ht).2⟩
    have h2 : rowSum M t ≤ M.nCols := by
      unfold rowSum
      exact List.countP_le_length.trans (by simp)
    obtain ⟨e1, e2, e3⟩ := inv_within p hp a h (by omega) (by omega) (q := (rowSum M t : ℚ)) (by exact_mod_cast h1)
      (by exact_mod_cast h2.trans hn)
    rw [one_mul, one_mul, e1, roundBits_idem hp]
    exact ⟨(h.mono (lo := -(a : ℤ)) (hi := 0) (by omega) (by omega)).pos e2 (by simpa using e3) |>.trans (roundBits_idem hp _), e2, e3⟩
  have hmap : (colRows M j).map (fun t => r' (1 * r' (1 / (rowSum M t : ℚ)))) =
      (colRows M j).map fun t => roundBits p (1 * roundBits p (1 / (rowSum M t : ℚ))) :=
    List.map_congr_left fun t ht => (hterm t ht).1
  have := mean_within p hp a h hlo hhi ((colRows M j).map fun t => roundBits p (1 * roundBits p (1 / (rowSum M t : ℚ)))) (by simpa using hb)
    (by
      intro x hx
      obtain ⟨t, ht, rfl⟩ := List.mem_map.1 hx
      exact (hterm t ht).2) (by simpa using hL)
  rw [List.length_map] at this
  unfold averageUniqueness
  rw [hmap]
  exact this

/-- `_calc_update_avg_unique` does not leave the ranges of the two formats. -/
theorem updateAvgUnique_within (p₁ p₂ : ℕ) (h₁ : 1 ≤ p₁) (h₁₂ : p₁ ≤ p₂) (a : ℕ) {lo₁ hi₁ lo₂ hi₂ : ℤ} {r₁' r₂' : ℚ → ℚ}
    (g₁ : AgreesOn lo₁ hi₁ (roundBits p₁) r₁') (g₂ : AgreesOn lo₂ hi₂ (roundBits p₂) r₂') (hlo₁ : lo₁ ≤ -(a : ℤ)) (hhi₁ : (a : ℤ) ≤ hi₁)
    (hlo₂ : lo₂ ≤ -(a : ℤ) - p₂) (hhi₂ : (p₂ : ℤ) ≤ hi₂) (M : IndMat) (boot : List ℕ) (j : ℕ) (hn : boot.length + 1 ≤ 2 ^ a)
    (hb : colRows M j ≠ []) (hL : (colRows M j).length < 2 ^ p₂) :
    updateAvgUnique r₁' r₂' M boot j = updateAvgUnique (roundBits p₁) (roundBits p₂) M boot j ∧
      (2 : ℚ) ^ (-(a : ℤ) - p₂) ≤ updateAvgUnique (roundBits p₁) (roundBits p₂) M boot j ∧
      updateAvgUnique (roundBits p₁) (roundBits p₂) M boot j ≤ 1 := by
  have h₂ : 1 ≤ p₂ := by omega
  have hterm : ∀ t ∈ colRows M j,
      (r₂' (1 * if (boot.countP fun i => M.ent t i) ≠ 0 then r₁' (1 / r₁' ((if M.ent t j then 1 else 0) + ((boot.countP fun i => M.ent t i : ℕ) : ℚ)))
        else r₁' (if M.ent t j then 1 else 0))) =
      (roundBits p₂ (1 * if (boot.countP fun i => M.ent t i) ≠ 0 then
        roundBits p₁ (1 / roundBits p₁ ((if M.ent t j then 1 else 0) + ((boot.countP fun i => M.ent t i : ℕ) : ℚ)))
        else roundBits p₁ (if M.ent t j then 1 else 0))) ∧
      (2 : ℚ) ^ (-(a : ℤ)) ≤ (roundBits p₂ (1 * if (boot.countP fun i => M.ent t i) ≠ 0 then
        roundBits p₁ (1 / roundBits p₁ ((if M.ent t j then 1 else 0) + ((boot.countP fun i => M.ent t i : ℕ) : ℚ)))
        else roundBits p₁ (if M.ent t j then 1 else 0))) ∧
      (roundBits p₂ (1 * if (boot.countP fun i => M.ent t i) ≠ 0 then
        roundBits p₁ (1 / roundBits p₁ ((if M.ent t j then 1 else 0) + ((boot.countP fun i => M.ent t i : ℕ) : ℚ)))
        else roundBits p₁ (if M.ent t j then 1 else 0))) ≤ 1 := by
    intro t ht
    rw [if_pos (mem_colRows.1 ht).2]
    have key : ∀ v v' : ℚ, v' = v → (2 : ℚ) ^ (-(a : ℤ)) ≤ v → v ≤ 1 →
        r₂' (1 * v') = roundBits p₂ (1 * v) ∧ (2 : ℚ) ^ (-(a : ℤ)) ≤ roundBits p₂ (1 * v) ∧ roundBits p₂ (1 * v) ≤ 1 := by
      rintro v _ rfl e1 e2
      rw [one_mul]
      obtain ⟨d1, d2⟩ := roundBits_range p₂ h₂ e1 (b := 0) (by simpa using e2)
      exact ⟨(g₂.mono (lo := -(a : ℤ)) (hi := 0) (by omega) (by omega)).pos e1 (by simpa using e2), d1, by simpa using d2⟩
    have h1a : (2 : ℚ) ^ (-(a : ℤ)) ≤ 1 := zpow_le_one_of_nonpos₀ (by norm_num) (by omega)
    by_cases hc : (boot.countP fun i => M.ent t i) ≠ 0
    · rw [if_pos hc, if_pos hc]
      set c := boot.countP fun i => M.ent t i with hcdef
      have hcl : c ≤ boot.length := List.countP_le_length
      have w1 : (1 : ℚ) ≤ 1 + (c : ℚ) := by linarith [Nat.cast_nonneg (α := ℚ) c]
      have w2 : 1 + (c : ℚ) ≤ (2 : ℚ) ^ (a : ℤ) := by
        rw [zpow_natCast]
        exact_mod_cast (by omega : 1 + c ≤ 2 ^ a)
      have w1' : (2 : ℚ) ^ (0 : ℤ) ≤ 1 + (c : ℚ) := by simpa using w1
      obtain ⟨v1, v2⟩ := roundBits_range p₁ h₁ w1' w2
      have e0 : r₁' (1 + (c : ℚ)) = roundBits p₁ (1 + (c : ℚ)) := (g₁.mono (lo := 0) (hi := a) (by omega) hhi₁).pos w1' w2
      rw [e0]
      obtain ⟨u1, u2, u3⟩ := inv_within p₁ h₁ a g₁ hlo₁ (by omega) (q := roundBits p₁ (1 + (c : ℚ))) (by simpa using v1)
        (by rwa [zpow_natCast] at v2)
      exact key _ _ u1 u2 u3
    · rw [if_neg hc, if_neg hc]
      have e0 : r₁' 1 = roundBits p₁ 1 := (g₁.mono (lo := 0) (hi := 0) (by omega) (by omega)).pos (by simp) (by simp)
      rw [e0, roundBits_one p₁ h₁]
      exact key 1 1 rfl h1a le_rfl
  have := mean_within p₂ h₂ a g₂ hlo₂ hhi₂ ((colRows M j).map fun t =>
      roundBits p₂ (1 * if (boot.countP fun i => M.ent t i) ≠ 0 then
        roundBits p₁ (1 / roundBits p₁ ((if M.ent t j then 1 else 0) + ((boot.countP fun i => M.ent t i : ℕ) : ℚ)))
        else roundBits p₁ (if M.ent t j then 1 else 0))) (by simpa using hb)
    (by
      intro x hx
      obtain ⟨t, ht, rfl⟩ := List.mem_map.1 hx
      exact (hterm t ht).2) (by simpa using hL)
  rw [List.length_map] at this
  unfold updateAvgUnique
  dsimp only
  rw [List.map_congr_left fun t ht => (hterm t ht).1]
  exact this

theorem evalWith_roundBits (p : ℕ) : ∀ T : SumTree, T.evalWith (roundBits p) = T.eval p
  | .leaf _ => rfl
  | .node a b => by rw [SumTree.evalWith, SumTree.eval, evalWith_roundBits p a, evalWith_roundBits p b]

/-- A sum in any order does not leave the range. -/
theorem tree_within (p : ℕ) (hp : 1 ≤ p) (a : ℕ) {lo hi : ℤ} {r' : ℚ → ℚ} (h : AgreesOn lo hi (roundBits p) r') (hlo : lo ≤ -(a : ℤ))
    (hhi : (p : ℤ) ≤ hi) : ∀ T : SumTree, (∀ x ∈ T.leaves, (2 : ℚ) ^ (-(a : ℤ)) ≤ x ∧ x ≤ 1 ∧ IsFloat p x) → T.leaves.length < 2 ^ p →
    T.evalWith r' = T.evalWith (roundBits p) ∧ (2 : ℚ) ^ (-(a : ℤ)) ≤ T.evalWith (roundBits p) ∧
      T.evalWith (roundBits p) ≤ T.leaves.length ∧ IsFloat p (T.evalWith (roundBits p)) ∧ ∀ x ∈ T.leaves, x ≤ T.evalWith (roundBits p)
  | .leaf x, hl, _ => by
    obtain ⟨h1, h2, h3⟩ := hl x (by simp [SumTree.leaves])
    simp only [SumTree.evalWith, SumTree.leaves, List.length_singleton, Nat.cast_one, List.mem_singleton]
    exact ⟨trivial, h1, h2, h3, fun y hy => hy.le⟩
  | .node A B, hl, hlen => by
    have hlen' : A.leaves.length + B.leaves.length < 2 ^ p := by simpa [SumTree.leaves] using hlen
    obtain ⟨a1, a2, a3, a4, a5⟩ := tree_within p hp a h hlo hhi A (fun x hx => hl x (by simp [SumTree.leaves, hx])) (by omega)
    obtain ⟨b1, b2, b3, b4, b5⟩ := tree_within p hp a h hlo hhi B (fun x hx => hl x (by simp [SumTree.leaves, hx])) (by omega)
    have hz := two_zpow_pos (-(a : ℤ))
    simp only [SumTree.evalWith, SumTree.leaves, List.length_append, a1, b1]
    set u := A.evalWith (roundBits p)
    set v := B.evalWith (roundBits p)
    have hup : u + v ≤ ((A.leaves.length + B.leaves.length : ℕ) : ℚ) := by push_cast; linarith
    have hup' : ((A.leaves.length + B.leaves.length : ℕ) : ℚ) ≤ 2 ^ (p : ℤ) := by
      rw [zpow_natCast]; exact_mod_cast hlen'.le
    have hu : u ≤ roundBits p (u + v) := by
      have := roundBits_mono p hp (show u ≤ u + v by linarith)
      rwa [roundBits_eq_self p hp a4] at this
    have hv : v ≤ roundBits p (u + v) := by
      have := roundBits_mono p hp (show v ≤ u + v by linarith)
      rwa [roundBits_eq_self p hp b4] at this
    refine ⟨?_, a2.trans hu, ?_, isFloat_roundBits p hp _, ?_⟩
    · exact (h.mono (lo := -(a : ℤ)) (hi := p) hlo hhi).pos (by linarith) (hup.trans hup')
    · have := roundBits_mono p hp hup
      rwa [roundBits_natCast p hp _ hlen'] at this
    · intro x hx
      rcases List.mem_append.1 hx with hx | hx
      · exact (a5 x hx).trans hu
      · exact (b5 x hx).trans hv

/-- The operands of one step of `kahan_sum`. -/
theorem kahan_step_size {p : ℕ} (hp : 8 ≤ p) {s c x P : ℚ} {m : ℕ} (hm : 16 * ((m : ℚ) * (1 / 2 ^ p)) ≤ 1 / 2) (hx : 0 ≤ x) (hP : 0 ≤ P)
    (hPx : P + x ≤ 2) (hs : |s - P| ≤ 16 * (m * (1 / 2 ^ p))) (hc : |c| ≤ 10 * (1 / 2 ^ p)) :
    |x - c| ≤ 4 ∧ |s + roundBits p (x - c)| ≤ 4 ∧ |roundBits p (s + roundBits p (x - c)) - s| ≤ 4 ∧
      |roundBits p (roundBits p (s + roundBits p (x - c)) - s) - roundBits p (x - c)| ≤ 4 := by
  have hp1 : 1 ≤ p := by omega
  have he0 := eps_pos (p := p)
  have he : (1 : ℚ) / 2 ^ p ≤ 1 / 256 := by
    apply one_div_le_one_div_of_le (by norm_num)
    calc (256 : ℚ) = 2 ^ 8 := by norm_num
      _ ≤ 2 ^ p := pow_le_pow_right₀ (by norm_num) hp
  have err : ∀ q : ℚ, |roundBits p q - q| ≤ |q| * (1 / 2 ^ p) := by
    intro q
    have := roundBits_error p hp1 q
    rwa [mul_one_div]
  set e : ℚ := 1 / 2 ^ p with hE
  set y := roundBits p (x - c) with hy
  set t := roundBits p (s + y) with ht
  set d := roundBits p (t - s) with hd
  have e1 := err (x - c)
  have e2 := err (s + y)
  have e3 := err (t - s)
  rw [← hy] at e1
  rw [← ht] at e2
  rw [← hd] at e3
  rw [abs_le] at hs hc
  have a1 : |x - c| ≤ 2 + 10 * e := by rw [abs_le]; constructor <;> linarith [hs.1, hs.2, hc.1, hc.2]
  have b1 : |y - (x - c)| ≤ 3 * e := e1.trans (by nlinarith)
  rw [abs_le] at b1
  have a2 : |s + y| ≤ 3 := by rw [abs_le]; constructor <;> nlinarith [hs.1, hs.2, hc.1, hc.2, b1.1, b1.2]
  have b2 : |t - (s + y)| ≤ 3 * e := e2.trans (by nlinarith)
  rw [abs_le] at b2
  have a3 : |t - s| ≤ 3 := by rw [abs_le]; constructor <;> nlinarith [hs.1, hs.2, hc.1, hc.2, b1.1, b1.2, b2.1, b2.2]
  have b3 : |d - (t - s)| ≤ 3 * e := e3.trans (by nlinarith)
  rw [abs_le] at b3
  have a4 : |d - y| ≤ 6 * e := by rw [abs_le]; constructor <;> linarith [b2.1, b2.2, b3.1, b3.2]
  exact ⟨by linarith, by linarith, by linarith, by linarith⟩

theorem kahan_fold_within {p : ℕ} (hp : 8 ≤ p) {lo hi : ℤ} {r' : ℚ → ℚ} (h : AgreesOn lo hi (roundBits p) r') (hhi : 2 ≤ hi) (l : List ℚ)
    (hl : ∀ x ∈ l, 0 ≤ x ∧ OnUnit lo x) : ∀ (s c P : ℚ) (m : ℕ), OnUnit lo s → OnUnit lo c →
    16 * (((m + l.length : ℕ) : ℚ) * (1 / 2 ^ p)) ≤ 1 / 2 → 0 ≤ P → P + l.sum ≤ 2 → |s - P| ≤ 16 * (m * (1 / 2 ^ p)) →
    |c| ≤ 10 * (1 / 2 ^ p) →
    l.foldl (fun (s : ℚ × ℚ) x =>
      let y := r' (x - s.2)
      let t := r' (s.1 + y)
      (t, r' (r' (t - s.1) - y))) (s, c) =
    l.foldl (fun (s : ℚ × ℚ) x =>
      let y := roundBits p (x - s.2)
      let t := roundBits p (s.1 + y)
      (t, roundBits p (roundBits p (t - s.1) - y))) (s, c) ∧
    OnUnit lo (l.foldl (fun (s : ℚ × ℚ) x =>
      let y := roundBits p (x - s.2)
      let t := roundBits p (s.1 + y)
      (t, roundBits p (roundBits p (t - s.1) - y))) (s, c)).1 := by
  have he0 := eps_pos (p := p)
  have hp1 : 1 ≤ p := by omega
  have h4 : (4 : ℚ) ≤ 2 ^ hi := by
    calc (4 : ℚ) = 2 ^ (2 : ℤ) := by norm_num
      _ ≤ 2 ^ hi := zpow_le_zpow_right₀ (by norm_num) hhi
  induction l with
  | nil =>
    intro s c P m us _ _ _ _ _ _
    exact ⟨rfl, us⟩
  | cons x l ih =>
    intro s c P m us uc hm hP hPl hs hc
    obtain ⟨hx, ux⟩ := hl x (by simp)
    have hl0 : 0 ≤ l.sum := List.sum_nonneg fun y hy => (hl y (by simp [hy])).1
    rw [List.sum_cons] at hPl
    rw [List.length_cons] at hm
    have hm' : 16 * ((m : ℚ) * (1 / 2 ^ p)) ≤ 1 / 2 := by
      refine le_trans ?_ hm
      have : (m : ℚ) ≤ ((m + (l.length + 1) : ℕ) : ℚ) := by exact_mod_cast (by omega)
      nlinarith
    obtain ⟨h1, h2⟩ := kahan_step hp hm' hx hP (by linarith) hs hc
    obtain ⟨s1, s2, s3, s4⟩ := kahan_step_size hp hm' hx hP (by linarith) hs hc
    have u1 := (ux.sub uc)
    have u2 := us.add (u1.roundBits hp1)
    have u3 := (u2.roundBits hp1).sub us
    have u4 := (u3.roundBits hp1).sub (u1.roundBits hp1)
    have := ih (fun y hy => hl y (by simp [hy])) _ _ (P + x) (m + 1) (u2.roundBits hp1) (u4.roundBits hp1) (by
      have e : m + 1 + l.length = m + (l.length + 1) := by omega
      rw [e]; exact hm) (by linarith) (by linarith) h1 h2
    rw [List.foldl_cons, List.foldl_cons]
    dsimp only
    rw [h.unit u1 (s1.trans h4), h.unit u2 (s2.trans h4), h.unit u3 (s3.trans h4), h.unit u4 (s4.trans h4)]
    exact this

theorem kahan_within {p : ℕ} (hp : 8 ≤ p) {lo hi : ℤ} {r' : ℚ → ℚ} (h : AgreesOn lo hi (roundBits p) r') (hhi : 2 ≤ hi) (l : List ℚ)
    (hl : ∀ x ∈ l, 0 ≤ x ∧ OnUnit lo x) (hsum : l.sum ≤ 2) (hn : 16 * ((l.length : ℚ) * (1 / 2 ^ p)) ≤ 1 / 2) :
    kahan r' l = kahan (roundBits p) l ∧ OnUnit lo (kahan (roundBits p) l) := by
  have he0 := eps_pos (p := p)
  cases l with
  | nil => exact ⟨rfl, OnUnit.zero _⟩
  | cons x l =>
    unfold kahan
    rw [List.length_cons] at hn
    have hlen : ((0 + l.length : ℕ) : ℚ) * (1 / 2 ^ p) ≤ ((l.length + 1 : ℕ) : ℚ) * (1 / 2 ^ p) := by
      apply mul_le_mul_of_nonneg_right _ he0.le
      exact_mod_cast (by omega)
    obtain ⟨e1, e2⟩ := kahan_fold_within hp h hhi l (fun y hy => hl y (by simp [hy])) x 0 x 0 (hl x (by simp)).2 (OnUnit.zero _)
      (by linarith) (hl x (by simp)).1 (by simpa using hsum) (by simp) (by simp)
    exact ⟨congrArg Prod.fst e1, e2⟩

/-- Probabilities and their check do not leave the range. -/
theorem prob_within {p : ℕ} (hp : 26 < p) (a : ℕ) {lo hi : ℤ} {r' : ℚ → ℚ} (h : AgreesOn lo hi (roundBits p) r')
    (hlo : lo ≤ -(a : ℤ) - 2 * p) (hhi : (p : ℤ) ≤ hi) (plan : List ℚ → SumTree) (hplan : ∀ l, l ≠ [] → (plan l).leaves.Perm l)
    (n : ℕ) (hn0 : 0 < n) (hn : 40 * 2 ^ 26 * (n : ℚ) ≤ 2 ^ p) (avg : ℕ → ℚ)
    (havg : ∀ j < n, (2 : ℚ) ^ (-(a : ℤ)) ≤ avg j ∧ avg j ≤ 1 ∧ IsFloat p (avg j)) :
    probOf r' (fun l => (plan l).evalWith r') n avg = probOf (roundBits p) (fun l => (plan l).evalWith (roundBits p)) n avg ∧
    choiceValid r' (probOf (roundBits p) (fun l => (plan l).evalWith (roundBits p)) n avg) =
      choiceValid (roundBits p) (probOf (roundBits p) (fun l => (plan l).evalWith (roundBits p)) n avg) := by
  have hp1 : 1 ≤ p := by omega
  set l := (List.range n).map avg with hl
  have hne : l ≠ [] := by simp [hl]; omega
  have hlen : l.length = n := by simp [hl]
  have hmem : ∀ x ∈ l, (2 : ℚ) ^ (-(a : ℤ)) ≤ x ∧ x ≤ 1 ∧ IsFloat p x := by
    intro x hx
    obtain ⟨j, hj, rfl⟩ := List.mem_map.1 hx
    exact havg j (List.mem_range.1 hj)
  have hP := hplan l hne
  have hnp : n < 2 ^ p := by
    have : (n : ℚ) < 2 ^ p := by
      have : (0 : ℚ) < n := by exact_mod_cast hn0
      linarith
    exact_mod_cast this
  obtain ⟨t1, t2, t3, t4, t5⟩ := tree_within p hp1 a h (by omega) hhi (plan l) (fun x hx => hmem x (hP.mem_iff.1 hx))
    (by rw [hP.length_eq, hlen]; exact hnp)
  rw [hP.length_eq, hlen] at t3
  have hs : IsSummation p fun l => (plan l).evalWith (roundBits p) := by
    intro l hl _
    exact ⟨plan l, hplan l hl, evalWith_roundBits p _⟩
  set s := (plan l).evalWith (roundBits p) with hsdef
  have hspos : 0 < s := lt_of_lt_of_le (two_zpow_pos _) t2
  have hs2 : s ≤ 2 ^ (p : ℤ) := by
    rw [zpow_natCast]; exact t3.trans (by exact_mod_cast hnp.le)
  have hq : ∀ x ∈ l, (2 : ℚ) ^ (-(a : ℤ) - p) ≤ x / s ∧ x / s ≤ 2 ^ (0 : ℤ) := by
    intro x hx
    refine ⟨zpow_div_le (hmem x hx).1 hspos hs2, ?_⟩
    rw [zpow_zero, div_le_one hspos]
    exact t5 x (hP.mem_iff.2 hx)
  have e1 : probOf r' (fun l => (plan l).evalWith r') n avg = probOf (roundBits p) (fun l => (plan l).evalWith (roundBits p)) n avg := by
    unfold probOf
    dsimp only
    rw [← hl, t1]
    apply List.map_congr_left
    intro j hj
    obtain ⟨q1, q2⟩ := hq (avg j) (List.mem_map.2 ⟨j, hj, rfl⟩)
    exact (h.mono (by omega) (by omega)).pos q1 q2
  refine ⟨e1, ?_⟩
  have e2 : probOf (roundBits p) (fun l => (plan l).evalWith (roundBits p)) n avg = l.map fun x => roundBits p (x / s) := by
    unfold probOf
    rw [hl, List.map_map]
    rfl
  rw [e2]
  have he := eps_le hp1
  have he0 := eps_pos (p := p)
  obtain ⟨s1, s2⟩ := summation_bounds hp1 hs l hne (fun x hx => (hmem x hx).2.2)
    (fun x hx => (two_zpow_pos _).le.trans (hmem x hx).1)
  have hl1 : (1 : ℚ) ≤ l.length := by exact_mod_cast List.length_pos_iff.2 hne
  have hnl : 40 * 2 ^ 26 * (l.length : ℚ) ≤ 2 ^ p := by rw [hlen]; exact hn
  have hne2 : 40 * 2 ^ 26 * ((l.length : ℚ) * (1 / 2 ^ p)) ≤ 1 := by
    rw [mul_one_div, mul_div_assoc', div_le_one (by positivity)]
    exact hnl
  obtain ⟨h1, -⟩ := prob_sum_bounds hp1 l (fun x hx => lt_of_lt_of_le (two_zpow_pos _) (hmem x hx).1) hne s s1 s2 (by linarith)
  set q := l.map fun x => roundBits p (x / s) with hqdef
  have hqlen : q.length = l.length := by simp [hqdef]
  have hqe : ∀ x ∈ q, 0 ≤ x ∧ OnUnit lo x := by
    intro x hx
    obtain ⟨y, hy, rfl⟩ := List.mem_map.1 hx
    obtain ⟨q1, q2⟩ := hq y hy
    obtain ⟨d1, d2⟩ := roundBits_range p hp1 q1 q2
    refine ⟨(two_zpow_pos _).le.trans d1, ?_⟩
    obtain ⟨z, hz⟩ := multiple_of_float p hp1 (isFloat_roundBits p hp1 (y / s)) d1
    exact OnUnit.coarser (by omega) ⟨z, hz⟩
  have hqs : q.sum ≤ 2 := by
    rw [abs_le] at h1
    nlinarith [h1.2]
  have hqn : 16 * ((q.length : ℚ) * (1 / 2 ^ p)) ≤ 1 / 2 := by rw [hqlen]; nlinarith
  obtain ⟨k1, k2⟩ := kahan_within (by omega) h (by omega) q hqe hqs hqn
  have kerr := kahan_error (p := p) (by omega) q (fun x hx => (hqe x hx).1) hqs hqn
  have u1 : OnUnit lo (kahan (roundBits p) q - 1) := by
    refine k2.sub ⟨2 ^ (-lo).toNat, ?_⟩
    push_cast
    rw [← zpow_natCast, ← zpow_add₀ (by norm_num)]
    rw [show (((-lo).toNat : ℕ) : ℤ) + lo = 0 by omega, zpow_zero]
  have b1 : |kahan (roundBits p) q - 1| ≤ 2 ^ hi := by
    have h4 : (4 : ℚ) ≤ 2 ^ hi := by
      calc (4 : ℚ) = 2 ^ (2 : ℤ) := by norm_num
        _ ≤ 2 ^ hi := zpow_le_zpow_right₀ (by norm_num) (by omega)
    refine le_trans ?_ h4
    have hq0 : 0 ≤ q.sum := List.sum_nonneg fun x hx => (hqe x hx).1
    rw [abs_le] at kerr ⊢
    constructor <;> linarith [kerr.1, kerr.2]
  unfold choiceValid
  rw [k1, h.unit u1 b1]

/-- The loop of `seq_bootstrap` does not leave the ranges of the two formats. -/
theorem bootLoop_within (p₁ p₂ : ℕ) (h₁ : 2 ≤ p₁) (h₁₂ : p₁ ≤ p₂) (h₂ : 26 < p₂) (a : ℕ) {lo₁ hi₁ lo₂ hi₂ : ℤ} {r₁' r₂' : ℚ → ℚ}
    (g₁ : AgreesOn lo₁ hi₁ (roundBits p₁) r₁') (g₂ : AgreesOn lo₂ hi₂ (roundBits p₂) r₂') (hlo₁ : lo₁ ≤ -(a : ℤ)) (hhi₁ : (a : ℤ) ≤ hi₁)
    (hlo₂ : lo₂ ≤ -(a : ℤ) - 3 * p₂) (hhi₂ : (p₂ : ℤ) ≤ hi₂) (plan : List ℚ → SumTree) (hplan : ∀ l, l ≠ [] → (plan l).leaves.Perm l)
    (M : IndMat) (hM : 0 < M.nCols) (hn : 40 * 2 ^ 26 * (M.nCols : ℚ) ≤ 2 ^ p₂) (hk : ∀ j < M.nCols, (colRows M j).length < 2 ^ p₂)
    (rng : ℕ → List ℚ → ℕ → List ℕ) (hrng : ∀ i q m, (rng i q m).length ≤ m) (len k : ℤ) :
    ∀ (fuel i : ℕ) (s : BState), s.boot.length + fuel * k.toNat + 1 ≤ 2 ^ a → (∀ t ∈ s.rows, t < M.nRows) →
      (∀ j < M.nCols, (2 : ℚ) ^ (-(a : ℤ) - p₂) ≤ s.avg j ∧ s.avg j ≤ 1 ∧ IsFloat p₂ (s.avg j)) →
      s.prob = probOf (roundBits p₂) (fun l => (plan l).evalWith (roundBits p₂)) M.nCols s.avg →
      bootLoop r₁' r₂' (fun l => (plan l).evalWith r₂') M rng len k fuel i s =
        bootLoop (roundBits p₁) (roundBits p₂) (fun l => (plan l).evalWith (roundBits p₂)) M rng len k fuel i s := by
  have ha : ((a + p₂ : ℕ) : ℤ) = (a : ℤ) + p₂ := by push_cast; rfl
  have hneg : -((a + p₂ : ℕ) : ℤ) = -(a : ℤ) - p₂ := by omega
  intro fuel
  induction fuel with
  | zero => intro i s _ _ _ _; rfl
  | succ fuel ih =>
    intro i s hb hrows havg hprob
    have hbl : s.boot.length + 1 ≤ 2 ^ a := by
      have : (fuel + 1) * k.toNat = fuel * k.toNat + k.toNat := by ring
      omega
    have pw := fun (avg : ℕ → ℚ) (h : ∀ j < M.nCols, (2 : ℚ) ^ (-(a : ℤ) - p₂) ≤ avg j ∧ avg j ≤ 1 ∧ IsFloat p₂ (avg j)) =>
      prob_within h₂ (a + p₂) g₂ (by omega) hhi₂ plan hplan M.nCols hM hn avg (by rw [hneg]; exact h)
    have href : refresh r₁' r₂' (fun l => (plan l).evalWith r₂') M s =
        refresh (roundBits p₁) (roundBits p₂) (fun l => (plan l).evalWith (roundBits p₂)) M s ∧
        (refresh (roundBits p₁) (roundBits p₂) (fun l => (plan l).evalWith (roundBits p₂)) M s).boot = s.boot ∧
        (∀ t ∈ (refresh (roundBits p₁) (roundBits p₂) (fun l => (plan l).evalWith (roundBits p₂)) M s).rows, t < M.nRows) ∧
        (∀ j < M.nCols, (2 : ℚ) ^ (-(a : ℤ) - p₂) ≤
          (refresh (roundBits p₁) (roundBits p₂) (fun l => (plan l).evalWith (roundBits p₂)) M s).avg j ∧
          (refresh (roundBits p₁) (roundBits p₂) (fun l => (plan l).evalWith (roundBits p₂)) M s).avg j ≤ 1 ∧
          IsFloat p₂ ((refresh (roundBits p₁) (roundBits p₂) (fun l => (plan l).evalWith (roundBits p₂)) M s).avg j)) ∧
        (refresh (roundBits p₁) (roundBits p₂) (fun l => (plan l).evalWith (roundBits p₂)) M s).prob =
          probOf (roundBits p₂) (fun l => (plan l).evalWith (roundBits p₂)) M.nCols
            (refresh (roundBits p₁) (roundBits p₂) (fun l => (plan l).evalWith (roundBits p₂)) M s).avg := by
      unfold refresh
      by_cases hr : s.rows.length > 0
      · rw [if_pos hr, if_pos hr]
        dsimp only
        set up := npUnique ((npUnique s.rows).flatMap fun t => (List.range M.nCols).filter fun j => M.ent t j) with hup
        have hmem : ∀ j ∈ up, j < M.nCols ∧ colRows M j ≠ [] := by
          intro j hj
          rw [hup, mem_npUnique, List.mem_flatMap] at hj
          obtain ⟨t, ht, hj⟩ := hj
          rw [mem_npUnique] at ht
          rw [List.mem_filter, List.mem_range] at hj
          exact ⟨hj.1, List.ne_nil_of_mem (mem_colRows.2 ⟨hrows t ht, hj.2⟩)⟩
        have hw := fun j (hj : j ∈ up) => updateAvgUnique_within p₁ p₂ (by omega) h₁₂ a g₁ g₂ hlo₁ hhi₁ (by omega) hhi₂ M s.boot j hbl
          (hmem j hj).2 (hk j (hmem j hj).1)
        have heq : (fun j => if j ∈ up then updateAvgUnique r₁' r₂' M s.boot j else s.avg j) =
            fun j => if j ∈ up then updateAvgUnique (roundBits p₁) (roundBits p₂) M s.boot j else s.avg j := by
          funext j
          by_cases hj : j ∈ up
          · rw [if_pos hj, if_pos hj, (hw j hj).1]
          · rw [if_neg hj, if_neg hj]
        have hav : ∀ j < M.nCols, (2 : ℚ) ^ (-(a : ℤ) - p₂) ≤
            (if j ∈ up then updateAvgUnique (roundBits p₁) (roundBits p₂) M s.boot j else s.avg j) ∧
            (if j ∈ up then updateAvgUnique (roundBits p₁) (roundBits p₂) M s.boot j else s.avg j) ≤ 1 ∧
            IsFloat p₂ (if j ∈ up then updateAvgUnique (roundBits p₁) (roundBits p₂) M s.boot j else s.avg j) := by
          intro j hj
          by_cases hju : j ∈ up
          · rw [if_pos hju]
            exact ⟨(hw j hju).2.1, (hw j hju).2.2, isFloat_roundBits p₂ (by omega) _⟩
          · rw [if_neg hju]
            exact havg j hj
        rw [heq]
        refine ⟨?_, rfl, by simp, hav, rfl⟩
        rw [(pw _ hav).1]
      · rw [if_neg hr, if_neg hr]
        exact ⟨rfl, rfl, hrows, havg, hprob⟩
    obtain ⟨f1, f2, f3, f4, f5⟩ := href
    unfold bootLoop
    dsimp only
    rw [f1]
    set s' := refresh (roundBits p₁) (roundBits p₂) (fun l => (plan l).evalWith (roundBits p₂)) M s with hs'
    have hcv : choiceValid r₂' s'.prob = choiceValid (roundBits p₂) s'.prob := by
      rw [f5]
      exact (pw _ f4).2
    rw [hcv]
    have hch : (rng i s'.prob (min (len - (i : ℤ) * k) k).toNat).length ≤ k.toNat :=
      (hrng _ _ _).trans (Int.toNat_le_toNat (min_le_right _ _))
    rw [ih (i + 1) { s' with
        boot := s'.boot ++ rng i s'.prob (min (len - (i : ℤ) * k) k).toNat
        rows := s'.rows ++ (rng i s'.prob (min (len - (i : ℤ) * k) k).toNat).flatMap (fun j => colRows M j) } ?_ ?_ f4 f5]
    · dsimp only
      rw [List.length_append, f2]
      have : (fuel + 1) * k.toNat = fuel * k.toNat + k.toNat := by ring
      omega
    · intro t ht
      rcases List.mem_append.1 ht with ht | ht
      · exact f3 t ht
      · obtain ⟨j, _, hj⟩ := List.mem_flatMap.1 ht
        exact (mem_colRows.1 hj).1

theorem float_below_one {p : ℕ} (hp : 1 ≤ p) {c : ℚ} (hc : IsFloat p c) (h : c < 1) : c ≤ 1 - 2 ^ (-(p : ℤ)) := by
  have hpp : (2 : ℚ) ^ (-(p : ℤ)) ≤ 2 ^ (-1 : ℤ) := zpow_le_zpow_right₀ (by norm_num) (by omega)
  by_cases h2 : (2 : ℚ) ^ (-1 : ℤ) ≤ c
  · obtain ⟨z, hz⟩ := multiple_of_float p hp hc h2
    rw [show (-1 : ℤ) - ((p : ℤ) - 1) = -(p : ℤ) by omega] at hz
    have e : (1 : ℚ) = ((2 ^ p : ℤ) : ℚ) * 2 ^ (-(p : ℤ)) := by
      push_cast
      rw [zpow_neg, zpow_natCast, mul_inv_cancel₀ (by positivity)]
    have hpos := two_zpow_pos (-(p : ℤ))
    have hzl : z < 2 ^ p := by
      by_contra hcon
      push Not at hcon
      have : ((2 ^ p : ℤ) : ℚ) ≤ z := by exact_mod_cast hcon
      nlinarith
    have : (z : ℚ) ≤ ((2 ^ p : ℤ) : ℚ) - 1 := by exact_mod_cast Int.le_sub_one_of_lt hzl
    nlinarith
  · norm_num at h2 hpp
    rw [zpow_neg, zpow_natCast]
    linarith

theorem isFloat_minus {p : ℕ} {c : ℚ} (hc : IsFloat p c) : IsFloat p (-c) := by
  obtain ⟨m, e, h1, h2⟩ := hc
  exact ⟨-m, e, by simpa using h1, by rw [h2]; push_cast; ring⟩

/-- Cumulative sums do not leave the range. -/
theorem cumsum_within {p : ℕ} (hp : 1 ≤ p) (b : ℕ) {lo hi : ℤ} {r' : ℚ → ℚ} (h : AgreesOn lo hi (roundBits p) r') (hlo : lo ≤ -(b : ℤ))
    (hhi : (p : ℤ) ≤ hi) (l : List ℚ) : ∀ (s : ℚ) (k : ℕ), (∀ x ∈ l, (2 : ℚ) ^ (-(b : ℤ)) ≤ x ∧ x ≤ 1) → 0 ≤ s → IsFloat p s → s ≤ k →
    k + l.length < 2 ^ p →
    cumsum r' s l = cumsum (roundBits p) s l ∧ ∀ x ∈ cumsum (roundBits p) s l, (2 : ℚ) ^ (-(b : ℤ)) ≤ x ∧ x ≤ 2 ^ (p : ℤ) := by
  induction l with
  | nil => intro s k _ _ _ _ _; exact ⟨rfl, by simp [cumsum]⟩
  | cons x l ih =>
    intro s k hl hs hf hk hlen
    obtain ⟨hx1, hx2⟩ := hl x (by simp)
    rw [List.length_cons] at hlen
    have hxp : 0 < x := lt_of_lt_of_le (two_zpow_pos _) hx1
    have hk1 : s + x ≤ ((k + 1 : ℕ) : ℚ) := by push_cast; linarith
    have hkp : ((k + 1 : ℕ) : ℚ) ≤ 2 ^ (p : ℤ) := by
      rw [zpow_natCast]; exact_mod_cast (by omega)
    have e : r' (s + x) = roundBits p (s + x) :=
      (h.mono (lo := -(b : ℤ)) (hi := p) hlo hhi).pos (by linarith) (hk1.trans hkp)
    have hup : roundBits p (s + x) ≤ ((k + 1 : ℕ) : ℚ) := by
      have := roundBits_mono p hp hk1
      rwa [roundBits_natCast p hp _ (by omega)] at this
    have hlow : (2 : ℚ) ^ (-(b : ℤ)) ≤ roundBits p (s + x) :=
      (roundBits_range p hp (show (2 : ℚ) ^ (-(b : ℤ)) ≤ s + x by linarith) (hk1.trans hkp)).1
    obtain ⟨i1, i2⟩ := ih (roundBits p (s + x)) (k + 1) (fun y hy => hl y (by simp [hy])) ((two_zpow_pos _).le.trans hlow)
      (isFloat_roundBits p hp _) hup (by omega)
    rw [cumsum, cumsum, e, i1]
    refine ⟨rfl, ?_⟩
    intro y hy
    rcases List.mem_cons.1 hy with rfl | hy
    · exact ⟨hlow, hup.trans hkp⟩
    · exact i2 y hy

theorem onUnit_one {e : ℤ} (he : e ≤ 0) : OnUnit e 1 :=
  OnUnit.coarser he ⟨1, by simp⟩

/-- The decay of one cumulative sum does not leave the range. -/
theorem decay_within {p : ℕ} (hp : 1 ≤ p) (b : ℕ) {lo hi : ℤ} {r' : ℚ → ℚ} (h : AgreesOn lo hi (roundBits p) r')
    (hlo : lo ≤ -(b : ℤ) - 3 * p) (hhi : (b : ℤ) + 2 * p + 2 ≤ hi) (c : ℚ) (hc : IsFloat p c) (hc1 : -1 < c) (hc2 : c ≤ 1) (last x : ℚ)
    (hl1 : (2 : ℚ) ^ (-(b : ℤ)) ≤ last) (hl2 : last ≤ 2 ^ (p : ℤ)) (hx1 : (2 : ℚ) ^ (-(b : ℤ)) ≤ x) (hx2 : x ≤ 2 ^ (p : ℤ)) :
    decay r' c last x = decay (roundBits p) c last x := by
  have hl0 : 0 < last := lt_of_lt_of_le (two_zpow_pos _) hl1
  have hslope : (if 0 ≤ c then r' (r' (1 - c) / last) else r' (1 / r' (r' (c + 1) * last))) =
      (if 0 ≤ c then roundBits p (roundBits p (1 - c) / last) else roundBits p (1 / roundBits p (roundBits p (c + 1) * last))) ∧
      ((if 0 ≤ c then roundBits p (roundBits p (1 - c) / last) else roundBits p (1 / roundBits p (roundBits p (c + 1) * last))) = 0 ∨
       (2 : ℚ) ^ (-(2 * p : ℤ)) ≤
          (if 0 ≤ c then roundBits p (roundBits p (1 - c) / last) else roundBits p (1 / roundBits p (roundBits p (c + 1) * last))) ∧
        (if 0 ≤ c then roundBits p (roundBits p (1 - c) / last) else roundBits p (1 / roundBits p (roundBits p (c + 1) * last))) ≤
          2 ^ ((b : ℤ) + p)) := by
    by_cases h0 : 0 ≤ c
    · rw [if_pos h0, if_pos h0]
      rcases hc2.lt_or_eq with hlt | rfl
      · have g1 : (2 : ℚ) ^ (-(p : ℤ)) ≤ 1 - c := by linarith [float_below_one hp hc hlt]
        have g2 : 1 - c ≤ 2 ^ (0 : ℤ) := by rw [zpow_zero]; linarith
        obtain ⟨v1, v2⟩ := roundBits_range p hp g1 g2
        have e1 : r' (1 - c) = roundBits p (1 - c) := (h.mono (lo := -(p : ℤ)) (hi := 0) (by omega) (by omega)).pos g1 g2
        rw [e1]
        have w1 : (2 : ℚ) ^ (-(p : ℤ) - p) ≤ roundBits p (1 - c) / last := zpow_div_le v1 hl0 hl2
        have w2 : roundBits p (1 - c) / last ≤ 2 ^ (b : ℤ) := by
          rw [div_le_iff₀ hl0]
          have : (1 : ℚ) = 2 ^ (b : ℤ) * 2 ^ (-(b : ℤ)) := by rw [← zpow_add₀ (by norm_num)]; simp
          have hb := two_zpow_pos (b : ℤ)
          rw [zpow_zero] at v2
          nlinarith
        rw [show -(p : ℤ) - p = -(2 * p) by ring] at w1
        obtain ⟨d1, d2⟩ := roundBits_range p hp w1 w2
        exact ⟨(h.mono (by omega) (by omega)).pos w1 w2, Or.inr ⟨d1, d2.trans (zpow_le_zpow_right₀ (by norm_num) (by omega))⟩⟩
      · have e1 : r' (1 - 1) = roundBits p (1 - 1) := h _ (Or.inl (by norm_num))
        have e2 : roundBits p (1 - 1) = 0 := by norm_num [roundBits_zero]
        rw [e1, e2, zero_div, roundBits_zero]
        exact ⟨(h 0 (Or.inl rfl)).trans (roundBits_zero p), Or.inl rfl⟩
    · rw [if_neg h0, if_neg h0]
      push Not at h0
      have g1 : (2 : ℚ) ^ (-(p : ℤ)) ≤ c + 1 := by linarith [float_below_one hp (isFloat_minus hc) (by linarith)]
      have g2 : c + 1 ≤ 2 ^ (0 : ℤ) := by rw [zpow_zero]; linarith
      obtain ⟨v1, v2⟩ := roundBits_range p hp g1 g2
      have e1 : r' (c + 1) = roundBits p (c + 1) := (h.mono (lo := -(p : ℤ)) (hi := 0) (by omega) (by omega)).pos g1 g2
      rw [e1]
      have w1 : (2 : ℚ) ^ (-(p : ℤ) - b) ≤ roundBits p (c + 1) * last := by
        rw [sub_eq_add_neg, zpow_add₀ (by norm_num)]
        exact mul_le_mul v1 hl1 (two_zpow_pos _).le ((two_zpow_pos _).le.trans v1)
      have w2 : roundBits p (c + 1) * last ≤ 2 ^ (p : ℤ) := by
        rw [zpow_zero] at v2
        nlinarith [two_zpow_pos (p : ℤ)]
      obtain ⟨d1, d2⟩ := roundBits_range p hp w1 w2
      have e2 : r' (roundBits p (c + 1) * last) = roundBits p (roundBits p (c + 1) * last) :=
        (h.mono (lo := -(p : ℤ) - b) (hi := p) (by omega) (by omega)).pos w1 w2
      rw [e2]
      have hd : 0 < roundBits p (roundBits p (c + 1) * last) := lt_of_lt_of_le (two_zpow_pos _) d1
      have z1 : (2 : ℚ) ^ (-(p : ℤ)) ≤ 1 / roundBits p (roundBits p (c + 1) * last) := zpow_neg_le_inv hd d2
      have z2 : 1 / roundBits p (roundBits p (c + 1) * last) ≤ 2 ^ ((b : ℤ) + p) := by
        rw [div_le_iff₀ hd]
        have : (1 : ℚ) = 2 ^ ((b : ℤ) + p) * 2 ^ (-(p : ℤ) - b) := by
          rw [← zpow_add₀ (by norm_num), show (b : ℤ) + p + (-(p : ℤ) - b) = 0 by ring, zpow_zero]
        nlinarith [two_zpow_pos ((b : ℤ) + p)]
      obtain ⟨y1, y2⟩ := roundBits_range p hp z1 z2
      exact ⟨(h.mono (by omega) (by omega)).pos z1 z2,
        Or.inr ⟨(zpow_le_zpow_right₀ (by norm_num) (by omega)).trans y1, y2⟩⟩
  obtain ⟨hs1, hs2⟩ := hslope
  unfold decay
  rw [hs1]
  set slope := if 0 ≤ c then roundBits p (roundBits p (1 - c) / last) else roundBits p (1 / roundBits p (roundBits p (c + 1) * last)) with hS
  dsimp only
  have hmul : ∀ y : ℚ, (2 : ℚ) ^ (-(b : ℤ)) ≤ y → y ≤ 2 ^ (p : ℤ) →
      r' (slope * y) = roundBits p (slope * y) ∧ OnUnit lo (roundBits p (slope * y)) ∧ 0 ≤ roundBits p (slope * y) ∧
        roundBits p (slope * y) ≤ 2 ^ ((b : ℤ) + 2 * p) := by
    intro y hy1 hy2
    have hy0 : 0 < y := lt_of_lt_of_le (two_zpow_pos _) hy1
    rcases hs2 with h0 | ⟨k1, k2⟩
    · rw [h0, zero_mul, roundBits_zero]
      exact ⟨(h 0 (Or.inl rfl)).trans (roundBits_zero p), OnUnit.zero _, le_rfl, (two_zpow_pos _).le⟩
    · have m1 : (2 : ℚ) ^ (-(2 * p : ℤ) - b) ≤ slope * y := by
        rw [sub_eq_add_neg, zpow_add₀ (by norm_num)]
        exact mul_le_mul k1 hy1 (two_zpow_pos _).le ((two_zpow_pos _).le.trans k1)
      have m2 : slope * y ≤ 2 ^ ((b : ℤ) + 2 * p) := by
        rw [show (b : ℤ) + 2 * p = (b : ℤ) + p + p by ring, zpow_add₀ (by norm_num)]
        exact mul_le_mul k2 hy2 hy0.le (two_zpow_pos _).le
      obtain ⟨d1, d2⟩ := roundBits_range p hp m1 m2
      obtain ⟨z, hz⟩ := multiple_of_float p hp (isFloat_roundBits p hp (slope * y)) d1
      exact ⟨(h.mono (by omega) (by omega)).pos m1 m2, OnUnit.coarser (by omega) ⟨z, hz⟩, (two_zpow_pos _).le.trans d1, d2⟩
  obtain ⟨a1, a2, a3, a4⟩ := hmul last hl1 hl2
  obtain ⟨b1, b2, b3, b4⟩ := hmul x hx1 hx2
  rw [a1, b1]
  have hbig : (1 : ℚ) ≤ 2 ^ ((b : ℤ) + 2 * p) := one_le_zpow₀ (by norm_num) (by omega)
  have hhi' : (2 : ℚ) ^ ((b : ℤ) + 2 * p) * 4 ≤ 2 ^ hi := by
    calc (2 : ℚ) ^ ((b : ℤ) + 2 * p) * 4 = 2 ^ ((b : ℤ) + 2 * p + 2) := by
          rw [zpow_add₀ (a := (2 : ℚ)) (by norm_num) ((b : ℤ) + 2 * p) 2]; norm_num
      _ ≤ 2 ^ hi := zpow_le_zpow_right₀ (by norm_num) hhi
  have uc : OnUnit lo (1 - roundBits p (slope * last)) := (onUnit_one (by omega)).sub a2
  have sc : |1 - roundBits p (slope * last)| ≤ 2 ^ ((b : ℤ) + 2 * p) := by
    rw [abs_le]; constructor <;> linarith
  rw [h.unit uc (by linarith)]
  have ucr := uc.roundBits hp
  have sr : |roundBits p (1 - roundBits p (slope * last))| ≤ 2 ^ ((b : ℤ) + 2 * p) := by
    rw [abs_le] at sc ⊢
    have q1 := roundBits_mono p hp sc.1
    have q2 := roundBits_mono p hp sc.2
    rw [roundBits_zpow_self p hp] at q2
    rw [roundBits_neg, roundBits_zpow_self p hp] at q1
    exact ⟨q1, q2⟩
  rw [h.unit (ucr.add b2)]
  rw [abs_le] at sr ⊢
  constructor <;> linarith [sr.1, sr.2]

theorem timeDecay_within {p : ℕ} (hp : 1 ≤ p) (b : ℕ) {lo hi : ℤ} {r' : ℚ → ℚ} (h : AgreesOn lo hi (roundBits p) r')
    (hlo : lo ≤ -(b : ℤ) - 3 * p) (hhi : (b : ℤ) + 2 * p + 2 ≤ hi) (c : ℚ) (hc : IsFloat p c) (hc1 : -1 < c) (hc2 : c ≤ 1) (u : List ℚ)
    (hu : ∀ x ∈ u, (2 : ℚ) ^ (-(b : ℤ)) ≤ x ∧ x ≤ 1) (hlen : u.length < 2 ^ p) :
    timeDecay r' c u = timeDecay (roundBits p) c u := by
  obtain ⟨e1, e2⟩ := cumsum_within hp b h (by omega) (by omega) u 0 0 hu le_rfl ⟨0, 0, by simp, by simp⟩ (by simp) (by omega)
  unfold timeDecay
  rw [e1]
  cases hg : (cumsum (roundBits p) 0 u).getLast? with
  | none => rfl
  | some last =>
    obtain ⟨l1, l2⟩ := e2 last (List.mem_of_getLast? hg)
    rw [Option.map_some, Option.map_some]
    congr 1
    apply List.map_congr_left
    intro x hx
    exact decay_within hp b h hlo hhi c hc hc1 hc2 last x l1 l2 (e2 x hx).1 (e2 x hx).2

end Mizar.Rd
