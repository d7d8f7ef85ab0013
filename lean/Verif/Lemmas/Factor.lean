import Verif.Lemmas.RoundedReturns
import Verif.Lemmas.RoundedLog

/-! Relative errors as factors: used for formulas without cancellation. -/

namespace Mizar.Rd

/-- `a` is `b` up to `k` roundings of relative error `e`. -/
def Fac (e : ℝ) (k : ℕ) (a b : ℝ) : Prop := ∃ θ, a = b * θ ∧ (1 - e) ^ k ≤ θ ∧ θ * (1 - e) ^ k ≤ 1

namespace Fac
variable {e a b c a' b' : ℝ} {k l : ℕ}

theorem theta_pos (he1 : e < 1) {θ : ℝ} (h : (1 - e) ^ k ≤ θ) : 0 < θ := lt_of_lt_of_le (pow_pos (by linarith) k) h

theorem refl (e b : ℝ) : Fac e 0 b b := ⟨1, by simp, by simp, by simp⟩

theorem trans (he1 : e < 1) (h : Fac e k a b) (h' : Fac e l b c) : Fac e (k + l) a c := by
  obtain ⟨x, rfl, x1, x2⟩ := h
  obtain ⟨y, rfl, y1, y2⟩ := h'
  have hk : 0 < (1 - e) ^ k := pow_pos (by linarith) k
  have hl : 0 < (1 - e) ^ l := pow_pos (by linarith) l
  refine ⟨y * x, by ring, ?_, ?_⟩
  · rw [pow_add, mul_comm]
    exact mul_le_mul y1 x1 hk.le (hl.trans_le y1).le
  · rw [pow_add, show y * x * ((1 - e) ^ k * (1 - e) ^ l) = (x * (1 - e) ^ k) * (y * (1 - e) ^ l) by ring]
    exact mul_le_one₀ x2 (mul_pos (hl.trans_le y1) hl).le y2

theorem mono (he0 : 0 ≤ e) (he1 : e < 1) (h : Fac e k a b) (hkl : k ≤ l) : Fac e l a b := by
  obtain ⟨x, rfl, x1, x2⟩ := h
  have : (1 - e) ^ l ≤ (1 - e) ^ k := pow_le_pow_of_le_one (by linarith) (by linarith) hkl
  exact ⟨x, rfl, this.trans x1, (mul_le_mul_of_nonneg_left this (theta_pos he1 x1).le).trans x2⟩

theorem mul (he1 : e < 1) (h : Fac e k a b) (h' : Fac e l a' b') : Fac e (k + l) (a * a') (b * b') := by
  obtain ⟨x, rfl, x1, x2⟩ := h
  obtain ⟨y, rfl, y1, y2⟩ := h'
  obtain ⟨z, hz, z1, z2⟩ := trans (c := 1) he1 (⟨x, rfl, x1, x2⟩ : Fac e k (y * x) y) ⟨y, by ring, y1, y2⟩
  refine ⟨z, ?_, z1, z2⟩
  rw [one_mul] at hz
  rw [← hz]
  ring

theorem inv (he1 : e < 1) (h : Fac e k a b) : Fac e k a⁻¹ b⁻¹ := by
  obtain ⟨x, rfl, x1, x2⟩ := h
  have hx := theta_pos he1 x1
  refine ⟨x⁻¹, mul_inv b x, ?_, ?_⟩
  · rwa [← one_div, le_div_iff₀ hx, mul_comm]
  · rwa [← div_eq_inv_mul, div_le_one hx]

theorem div (he1 : e < 1) (h : Fac e k a b) (h' : Fac e l a' b') : Fac e (k + l) (a / a') (b / b') := by
  rw [div_eq_mul_inv, div_eq_mul_inv]
  exact mul he1 h (inv he1 h')

theorem sqrt (he0 : 0 ≤ e) (he1 : e < 1) (h : Fac e k a b) (hb : 0 ≤ b) : Fac e k (√a) (√b) := by
  obtain ⟨x, rfl, x1, x2⟩ := h
  have hx := theta_pos he1 x1
  have hq : 0 < (1 - e) ^ k := pow_pos (by linarith) k
  have hq1 : (1 - e) ^ k ≤ 1 := pow_le_one₀ (by linarith) (by linarith)
  refine ⟨√x, Real.sqrt_mul hb x, ?_, ?_⟩
  · apply Real.le_sqrt_of_sq_le
    nlinarith
  · have : √x ≤ ((1 - e) ^ k)⁻¹ := by
      rw [Real.sqrt_le_left (inv_pos.2 hq).le]
      have h1 : x ≤ ((1 - e) ^ k)⁻¹ := by rwa [← one_div, le_div_iff₀ hq]
      have h2 : 1 ≤ ((1 - e) ^ k)⁻¹ := (one_le_inv₀ hq).2 hq1
      nlinarith
    calc √x * (1 - e) ^ k ≤ ((1 - e) ^ k)⁻¹ * (1 - e) ^ k := mul_le_mul_of_nonneg_right this hq.le
      _ = 1 := inv_mul_cancel₀ hq.ne'

theorem bounds (he1 : e < 1) (h : Fac e k a b) (hb : 0 ≤ b) : b * (1 - e) ^ k ≤ a ∧ a * (1 - e) ^ k ≤ b := by
  obtain ⟨x, rfl, x1, x2⟩ := h
  refine ⟨mul_le_mul_of_nonneg_left x1 hb, ?_⟩
  rw [mul_assoc]
  exact mul_le_of_le_one_right hb x2

theorem of_bounds (he0 : 0 ≤ e) (he1 : e < 1) (hb : 0 ≤ b) (h1 : b * (1 - e) ^ k ≤ a) (h2 : a * (1 - e) ^ k ≤ b) : Fac e k a b := by
  have hq : 0 < (1 - e) ^ k := pow_pos (by linarith) k
  have hq1 : (1 - e) ^ k ≤ 1 := pow_le_one₀ (by linarith) (by linarith)
  rcases hb.eq_or_lt with rfl | hb
  · have : a = 0 := by
      rw [zero_mul] at h1
      by_contra hne
      exact absurd h2 (not_le.2 (mul_pos (lt_of_le_of_ne h1 (Ne.symm hne)) hq))
    subst this
    exact ⟨1, by simp, hq1, by rwa [one_mul]⟩
  · refine ⟨a / b, by field_simp, ?_, ?_⟩
    · rw [le_div_iff₀ hb, mul_comm]
      exact h1
    · rw [div_mul_eq_mul_div, div_le_one hb]
      exact h2

theorem add (he0 : 0 ≤ e) (he1 : e < 1) (hb : 0 ≤ b) (hb' : 0 ≤ b') (h : Fac e k a b) (h' : Fac e k a' b') :
    Fac e k (a + a') (b + b') := by
  obtain ⟨x1, x2⟩ := bounds he1 h hb
  obtain ⟨y1, y2⟩ := bounds he1 h' hb'
  exact of_bounds he0 he1 (by linarith) (by linarith) (by linarith)

theorem sum {ι : Type*} (he0 : 0 ≤ e) (he1 : e < 1) (f g : ι → ℝ) (l : List ι) (hg : ∀ i ∈ l, 0 ≤ g i) (h : ∀ i ∈ l, Fac e k (f i) (g i)) :
    Fac e k (l.map f).sum (l.map g).sum := by
  induction l with
  | nil => exact mono he0 he1 (refl e 0) (Nat.zero_le k)
  | cons i l ih =>
    rw [List.map_cons, List.map_cons, List.sum_cons, List.sum_cons]
    refine add he0 he1 (hg i (by simp)) ?_ (h i (by simp)) (ih (fun j hj => hg j (by simp [hj])) fun j hj => h j (by simp [hj]))
    exact List.sum_nonneg fun x hx => by
      obtain ⟨j, hj, rfl⟩ := List.mem_map.1 hx
      exact hg j (by simp [hj])

/-- One rounding. -/
theorem of_err (he0 : 0 ≤ e) (he1 : e < 1) (h : |a - b| ≤ e * |b|) : Fac e 1 a b := by
  rcases eq_or_ne b 0 with rfl | hb
  · have : a = 0 := by
      rw [abs_zero, mul_zero, sub_zero] at h
      exact abs_eq_zero.1 (le_antisymm h (abs_nonneg _))
    subst this
    exact mono he0 he1 (refl e 0) (by omega)
  · have hq : |a / b - 1| ≤ e := by
      rw [div_sub_one hb, abs_div, div_le_iff₀ (abs_pos.2 hb)]
      exact h
    obtain ⟨h1, h2⟩ := abs_le.1 hq
    refine ⟨a / b, by field_simp, by rw [pow_one]; linarith, ?_⟩
    rw [pow_one]
    nlinarith

/-- An error of two units. -/
theorem of_err2 (he0 : 0 ≤ e) (he : e ≤ 1 / 256) (h : |a - b| ≤ 2 * e * |b|) : Fac e 3 a b := by
  have he1 : e < 1 := by linarith
  rcases eq_or_ne b 0 with rfl | hb
  · have : a = 0 := by
      rw [abs_zero, mul_zero, sub_zero] at h
      exact abs_eq_zero.1 (le_antisymm h (abs_nonneg _))
    subst this
    exact mono he0 he1 (refl e 0) (by omega)
  · have hq : |a / b - 1| ≤ 2 * e := by
      rw [div_sub_one hb, abs_div, div_le_iff₀ (abs_pos.2 hb)]
      exact h
    obtain ⟨h1, h2⟩ := abs_le.1 hq
    have h3 : (1 - e) ^ 3 ≤ 1 - 2 * e := by
      have : e * e ≤ 1 / 256 * e := mul_le_mul_of_nonneg_right he he0
      have : 0 ≤ e * e * e := by positivity
      nlinarith
    refine ⟨a / b, by field_simp, by linarith, ?_⟩
    have h4 : 0 ≤ (1 - e) ^ 3 := by
      have : 0 ≤ 1 - e := by linarith
      positivity
    calc a / b * (1 - e) ^ 3 ≤ (1 + 2 * e) * (1 - e) ^ 3 := mul_le_mul_of_nonneg_right (by linarith) h4
      _ ≤ (1 + 2 * e) * (1 - 2 * e) := mul_le_mul_of_nonneg_left h3 (by linarith)
      _ ≤ 1 := by nlinarith

/-- The error that `k` roundings make. -/
theorem err (he0 : 0 ≤ e) (he1 : e < 1) (h : Fac e k a b) (hk : 2 * (k * e) ≤ 1) : |a - b| ≤ 2 * (k * e) * |b| := by
  obtain ⟨x, rfl, x1, x2⟩ := h
  have hx := theta_pos he1 x1
  have hb : 1 - k * e ≤ (1 - e) ^ k := by
    have := one_add_mul_le_pow (show -2 ≤ -e by linarith) k
    rw [← sub_eq_add_neg] at this
    linarith
  have hke : 0 ≤ k * e := by positivity
  have h2 : x * (1 - k * e) ≤ 1 := (mul_le_mul_of_nonneg_left hb hx.le).trans x2
  have h3 : |x - 1| ≤ 2 * (k * e) := by
    rw [abs_le]
    refine ⟨by linarith, ?_⟩
    nlinarith
  rw [show b * x - b = (x - 1) * b by ring, abs_mul]
  exact mul_le_mul_of_nonneg_right h3 (abs_nonneg _)

theorem pos (he1 : e < 1) (h : Fac e k a b) (hb : 0 < b) : 0 < a := by
  obtain ⟨x, rfl, x1, -⟩ := h
  exact mul_pos hb (theta_pos he1 x1)

theorem zero (h : Fac e k a 0) : a = 0 := by
  obtain ⟨x, rfl, -⟩ := h
  simp

theorem abs (he1 : e < 1) (h : Fac e k a b) : Fac e k |a| |b| := by
  obtain ⟨x, rfl, x1, x2⟩ := h
  exact ⟨x, by rw [abs_mul, abs_of_pos (theta_pos he1 x1)], x1, x2⟩

end Fac

theorem fac_round {p : ℕ} (hp : 8 ≤ p) (x : ℚ) : Fac (1 / 2 ^ p) 1 ((roundBits p x : ℚ) : ℝ) x := by
  obtain ⟨he0, he⟩ := eps_real hp
  exact Fac.of_err he0.le (by linarith) (round_real (by omega) x)

/-- A sum in any order of numbers that are not negative. -/
theorem fac_tree {p : ℕ} (hp : 8 ≤ p) (t : AddTree ℚ) (h : ∀ x ∈ t.leaves, 0 ≤ x) :
    Fac (1 / 2 ^ p) t.depth ((t.eval (roundBits p) : ℚ) : ℝ) ((t.leaves.sum : ℚ) : ℝ) := by
  obtain ⟨he0, he⟩ := eps_real hp
  have he1 : (1 : ℝ) / 2 ^ p < 1 := by linarith
  induction t with
  | leaf x =>
    simp only [AddTree.eval, AddTree.leaves, AddTree.depth, List.sum_cons, List.sum_nil, add_zero]
    exact Fac.refl _ _
  | node a b ha hb =>
    have h1 : ∀ x ∈ a.leaves, 0 ≤ x := fun x hx => h x (List.mem_append_left _ hx)
    have h2 : ∀ x ∈ b.leaves, 0 ≤ x := fun x hx => h x (List.mem_append_right _ hx)
    simp only [AddTree.eval, AddTree.leaves, AddTree.depth, List.sum_append]
    have hr := fac_round hp (a.eval (roundBits p) + b.eval (roundBits p))
    rw [Nat.add_comm]
    refine Fac.trans he1 hr ?_
    rw [Rat.cast_add, Rat.cast_add]
    exact Fac.add he0.le he1 (by exact_mod_cast List.sum_nonneg h1) (by exact_mod_cast List.sum_nonneg h2)
      (Fac.mono he0.le he1 (ha h1) (le_max_left _ _)) (Fac.mono he0.le he1 (hb h2) (le_max_right _ _))

end Mizar.Rd
