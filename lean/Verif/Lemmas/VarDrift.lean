import Verif.Lemmas.RoundedVar

/-!
Error analysis of rolling variances: how far rounding moves mean and sum of squared deviations carried along.
-/

namespace Mizar.Rd
open Mizar.Spec

/-- Rounding of a number close to `a`. -/
theorem near_round {r : ℚ → ℚ} {ε : ℚ} (he : 0 ≤ ε) (hr : ∀ x, |r x - x| ≤ ε * |x|) {x a α A : ℚ} (hx : |x - a| ≤ α) (ha : |a| ≤ A) :
    |r x - a| ≤ α + ε * (A + α) := by
  have h1 := hr x
  have h2 : |x| ≤ A + α := by
    have := abs_sub_abs_le_abs_sub x a
    linarith
  have h3 := mul_le_mul_of_nonneg_left h2 he
  have h4 := abs_sub_le (r x) x a
  linarith

theorem near_mul {x a y b α β A B : ℚ} (hx : |x - a| ≤ α) (ha : |a| ≤ A) (hy : |y - b| ≤ β) (hb : |b| ≤ B) :
    |x * y - a * b| ≤ α * (B + β) + A * β := by
  have e : x * y - a * b = (x - a) * y + a * (y - b) := by ring
  have hy' : |y| ≤ B + β := by
    have := abs_sub_abs_le_abs_sub y b
    linarith
  rw [e]
  refine (abs_add_le _ _).trans ?_
  rw [abs_mul, abs_mul]
  have h0 : 0 ≤ α := (abs_nonneg _).trans hx
  have h1 : 0 ≤ A := (abs_nonneg _).trans ha
  exact add_le_add (mul_le_mul hx hy' (abs_nonneg _) h0) (mul_le_mul ha hy (abs_nonneg _) h1)

section step
variable {r : ℚ → ℚ} {ε M : ℚ} (he0 : 0 ≤ ε) (he : ε ≤ 1 / 256) (hM : 0 ≤ M) (hr : ∀ x, |r x - x| ≤ ε * |x|)
include he0 he hM hr

/-- The first half of a step: the new compensation and the increment of the mean. -/
theorem mean_incr {c v m N : ℚ} (hc : |c| ≤ 5 * (ε * M)) (hv : |v| ≤ M) (hm : |m| ≤ 2 * M) (hN : 1 ≤ N) :
    |r (r (r (r (v - c) - m) + m) - r (v - c))| ≤ 5 * (ε * M) ∧
      |r (r (r (v - c) - m) / N) - (v - m) / N| ≤ 15 * (ε * M) := by
  have hu : 0 ≤ ε * M := mul_nonneg he0 hM
  have huM : ε * M ≤ M / 256 := by nlinarith
  have huu : ε * (ε * M) ≤ ε * M / 256 := by nlinarith
  set u := ε * M with hu'
  have eM : ε * M = u := rfl
  -- y
  have hy0 : |v - c - v| ≤ 5 * u := by rw [show v - c - v = -c by ring, abs_neg]; exact hc
  have hy := near_round he0 hr hy0 hv
  have hy1 : |r (v - c) - v| ≤ 7 * u := by nlinarith
  set y := r (v - c)
  have hyM : |y| ≤ 33 / 32 * M := by
    have := abs_sub_abs_le_abs_sub y v
    linarith
  have hvm : |v - m| ≤ 3 * M := by
    have := abs_sub v m
    linarith
  have hym : |y - m| ≤ 3 * M + 7 * u := by
    have := abs_sub_le y v m
    linarith
  -- t
  have ht := hr (y - m)
  have ht1 : |r (y - m) - (y - m)| ≤ 13 / 4 * u := by
    have := mul_le_mul_of_nonneg_left hym he0
    nlinarith
  have ht2 : |r (y - m) - (v - m)| ≤ 11 * u := by
    have e : r (y - m) - (v - m) = (r (y - m) - (y - m)) + (y - v) := by ring
    rw [e]
    have := abs_add_le (r (y - m) - (y - m)) (y - v)
    linarith
  set t := r (y - m)
  constructor
  · have h1 : |t + m - y| ≤ 13 / 4 * u := by rw [show t + m - y = t - (y - m) by ring]; exact ht1
    have h2 := near_round he0 hr h1 hyM
    have h3 : |r (t + m) - y| ≤ 19 / 4 * u := by nlinarith
    have h4 := hr (r (t + m) - y)
    have h5 := mul_le_mul_of_nonneg_left h3 he0
    have h6 := abs_sub_abs_le_abs_sub (r (r (t + m) - y)) (r (t + m) - y)
    nlinarith
  · have hN0 : 0 < N := by linarith
    have hdiv : ∀ z : ℚ, |z / N| ≤ |z| := fun z => by
      rw [abs_div, abs_of_pos hN0]
      exact div_le_self (abs_nonneg _) hN
    have h1 : |t / N - (v - m) / N| ≤ 11 * u := by
      rw [← sub_div]
      exact (hdiv _).trans ht2
    have h2 := near_round he0 hr h1 ((hdiv _).trans hvm)
    nlinarith

/-- The new mean, when a value is put in. -/
theorem mean_add {m q d : ℚ} (hm : |m| ≤ 2 * M) (hq : |q - d| ≤ 15 * (ε * M)) (hd : |d| ≤ 3 * M) :
    |r (m + q) - (m + d)| ≤ 21 * (ε * M) := by
  have hu : 0 ≤ ε * M := mul_nonneg he0 hM
  have h1 : |m + q - (m + d)| ≤ 15 * (ε * M) := by rw [add_sub_add_left_eq_sub]; exact hq
  have h2 : |m + d| ≤ 5 * M := (abs_add_le _ _).trans (by linarith)
  have := near_round he0 hr h1 h2
  nlinarith

/-- The product that goes into the sum of squared deviations. -/
theorem prod_near {c v m m' : ℚ} (hc : |c| ≤ 5 * (ε * M)) (hv : |v| ≤ M) (hm : |m| ≤ 2 * M) (hm' : |m'| ≤ 2 * M) :
    |r (r (v - r (m - c)) * r (v - m')) - (v - m) * (v - m')| ≤ 58 * (ε * M * M) := by
  have hu : 0 ≤ ε * M := mul_nonneg he0 hM
  have huM : ε * M ≤ M / 256 := by nlinarith
  have huu : ε * (ε * M) ≤ ε * M / 256 := by nlinarith
  set u := ε * M with hu'
  have h1 : |m - c - m| ≤ 5 * u := by rw [show m - c - m = -c by ring, abs_neg]; exact hc
  have h2 : |r (m - c) - m| ≤ 8 * u := by
    have := near_round he0 hr h1 hm
    nlinarith
  have hvm : ∀ z : ℚ, |z| ≤ 2 * M → |v - z| ≤ 3 * M := fun z hz => by
    have := abs_sub v z
    linarith
  have h3 : |v - r (m - c) - (v - m)| ≤ 8 * u := by
    rw [show v - r (m - c) - (v - m) = -(r (m - c) - m) by ring, abs_neg]
    exact h2
  have h4 : |r (v - r (m - c)) - (v - m)| ≤ 12 * u := by
    have := near_round he0 hr h3 (hvm m hm)
    nlinarith
  have h5 : |r (v - m') - (v - m')| ≤ 3 * u := by
    have := hr (v - m')
    have := mul_le_mul_of_nonneg_left (hvm m' hm') he0
    nlinarith
  have h6 := near_mul h4 (hvm m hm) h5 (hvm m' hm')
  have h7 : |(v - m) * (v - m')| ≤ 9 * (M * M) := by
    rw [abs_mul]
    have := mul_le_mul (hvm m hm) (hvm m' hm') (abs_nonneg _) (by linarith)
    linarith
  have huMM : 0 ≤ u * M := mul_nonneg hu hM
  have h8 : |r (v - r (m - c)) * r (v - m') - (v - m) * (v - m')| ≤ 46 * (u * M) := by
    have : u * u ≤ u * M / 256 := by nlinarith
    nlinarith
  have h9 := near_round he0 hr h8 h7
  have e1 : ε * (9 * (M * M)) = 9 * (u * M) := by rw [hu']; ring
  have e2 : ε * (46 * (u * M)) ≤ 46 / 256 * (u * M) := by nlinarith
  linarith

end step

/-! ### the two runs side by side -/

/-- The rounded state `st` and the exact state `E` of the window `m` after `k` steps. -/
structure Close (ε M W : ℚ) (k : ℕ) (st E : VarSt ℚ) (m : List (XF ℚ)) : Prop where
  fits : Fits E m
  zero : E.nobs = 0 → E.mean = 0 ∧ st.mean = 0
  nobs : st.nobs = E.nobs
  len : (m.length : ℚ) ≤ W
  bound : ∀ x ∈ m, |x.toK| ≤ M
  ca : |st.ca| ≤ 5 * (ε * M)
  cr : |st.cr| ≤ 5 * (ε * M)
  mean : |st.mean - E.mean| * (E.nobs : ℚ) ≤ 21 * k * W * (ε * M)
  ss : |st.ss - E.ss| ≤ 170 * (k * k) * W * (ε * M * M)

theorem sum_bound {m : List (XF ℚ)} {M : ℚ} (hM : ∀ x ∈ m, |x.toK| ≤ M) :
    |(m.map XF.toK).sum| ≤ ((m.map present).sum : ℤ) * M ∧ sumSq m ≤ ((m.map present).sum : ℤ) * (M * M) := by
  induction m with
  | nil => simp [sumSq]
  | cons x m ih =>
    obtain ⟨h1, h2⟩ := ih fun y hy => hM y (by simp [hy])
    have hx := hM x (by simp)
    simp only [sumSq, List.map_cons, List.sum_cons] at h2 ⊢
    rw [Int.cast_add]
    cases x with
    | fin v =>
      have e : present (XF.fin v) = 1 := by simp [present, XF.undef, XF.isNan, XF.isInf]
      rw [e, Int.cast_one]
      simp only [XF.toK] at hx h1 h2 ⊢
      constructor
      · have := abs_add_le v (m.map XF.toK).sum
        linarith
      · have h3 : v * v ≤ M * M := by
          rw [← abs_mul_abs_self v]
          exact mul_le_mul hx hx (abs_nonneg _) ((abs_nonneg _).trans hx)
        linarith
    | _ =>
      have e : ∀ y : XF ℚ, y.undef = true → present y = 0 := fun y hy => by simp [present, hy]
      rw [e _ rfl, Int.cast_zero, zero_add]
      simp only [XF.toK, zero_add, mul_zero] at h1 h2 ⊢
      exact ⟨h1, h2⟩

section close
variable {ε M W : ℚ} {k : ℕ} {st E : VarSt ℚ} {m : List (XF ℚ)}

theorem Close.nobs_nonneg (h : Close ε M W k st E m) : 0 ≤ E.nobs := by rw [h.fits.nobs]; exact present_nonneg m

theorem Close.nobs_le (h : Close ε M W k st E m) : (E.nobs : ℚ) ≤ W := by
  have := (sum_present m).1
  rw [← h.fits.nobs] at this
  have h' : (E.nobs : ℚ) ≤ m.length := by exact_mod_cast this
  exact h'.trans h.len

theorem fits_mean_le (h : Fits E m) (hb : ∀ x ∈ m, |x.toK| ≤ M) (h0' : E.nobs = 0 → E.mean = 0) (hM : 0 ≤ M) : |E.mean| ≤ M := by
  by_cases h0 : E.nobs = 0
  · rw [h0' h0, abs_zero]; exact hM
  · have hn : (1 : ℚ) ≤ E.nobs := by
      have := present_nonneg m
      rw [← h.nobs] at this
      have : 1 ≤ E.nobs := by omega
      exact_mod_cast this
    have h1 := (sum_bound hb).1
    rw [← h.mean, ← h.nobs, abs_mul, abs_of_pos (show (0 : ℚ) < E.nobs by linarith), mul_comm] at h1
    exact le_of_mul_le_mul_left h1 (by linarith)

theorem Close.err (h : Close ε M W k st E m) : |st.mean - E.mean| ≤ 21 * k * W * (ε * M) := by
  by_cases h0 : E.nobs = 0
  · have h1 := h.mean
    rw [(h.zero h0).1, (h.zero h0).2, sub_self, abs_zero] at h1 ⊢
    rwa [zero_mul] at h1
  · have hn : (1 : ℚ) ≤ E.nobs := by
      have := h.nobs_nonneg
      have : 1 ≤ E.nobs := by omega
      exact_mod_cast this
    have h1 := h.mean
    have := abs_nonneg (st.mean - E.mean)
    nlinarith

theorem fits_ss_le (h : Fits E m) (hb : ∀ x ∈ m, |x.toK| ≤ M) (hW : (m.length : ℚ) ≤ W) : |E.ss| ≤ W * (M * M) := by
  rw [abs_of_nonneg (fits_nonneg h)]
  have h1 := (sum_bound hb).2
  rw [← h.nobs] at h1
  have h2 : (E.nobs : ℚ) ≤ W := by
    have := (sum_present m).1
    rw [← h.nobs] at this
    have h' : (E.nobs : ℚ) ≤ m.length := by exact_mod_cast this
    exact h'.trans hW
  have hn : (0 : ℚ) ≤ E.nobs := by
    have := present_nonneg m
    rw [← h.nobs] at this
    exact_mod_cast this
  rw [h.ss, ← h.mean]
  have h3 : 0 ≤ E.mean * (E.mean * E.nobs) := by
    rw [← mul_assoc]
    exact mul_nonneg (mul_self_nonneg _) hn
  have h4 : (E.nobs : ℚ) * (M * M) ≤ W * (M * M) := mul_le_mul_of_nonneg_right h2 (mul_self_nonneg M)
  linarith

/-- One more step without a change. -/
theorem Close.more (h : Close ε M W k st E m) (hu : 0 ≤ ε * M) (hM : 0 ≤ M) (hW : 0 ≤ W) : Close ε M W (k + 1) st E m := by
  refine { h with mean := h.mean.trans ?_, ss := h.ss.trans ?_ }
  · apply mul_le_mul_of_nonneg_right _ hu
    push_cast
    nlinarith
  · apply mul_le_mul_of_nonneg_right _ (mul_nonneg hu hM)
    apply mul_le_mul_of_nonneg_right _ hW
    push_cast
    have : (0 : ℚ) ≤ k := by positivity
    nlinarith

end close

section step2
variable {r : ℚ → ℚ} {ε M W : ℚ} (he0 : 0 ≤ ε) (he : ε ≤ 1 / 256) (hM : 0 ≤ M) (hr : ∀ x, |r x - x| ≤ ε * |x|)
include he0 he hM hr

/-- The last part of a step: the new sum of squared deviations, from the means before and after and the errors so far. -/
theorem ss_step {k : ℕ} {c v mh m mh' m' s S S' σ : ℚ} (hσ : σ = 1 ∨ σ = -1) (hW : 1 ≤ W) (hc : |c| ≤ 5 * (ε * M))
    (hv : |v| ≤ M) (hmh : |mh| ≤ 2 * M) (hmh' : |mh'| ≤ 2 * M) (hm : |m| ≤ M) (hm' : |m'| ≤ M)
    (hd : |mh - m| ≤ 21 * k * W * (ε * M)) (hd' : |mh' - m'| ≤ 21 * (k + 1) * W * (ε * M)) (hd1 : |mh' - m'| ≤ M)
    (hs : |s - S| ≤ 170 * (k * k) * W * (ε * M * M)) (hS' : S' = S + σ * ((v - m) * (v - m'))) (hS'b : |S'| ≤ W * (M * M))
    (hk : 170 * ((k + 1) * (k + 1)) * ε ≤ 1) :
    |r (s + σ * r (r (v - r (mh - c)) * r (v - mh'))) - S'| ≤ 170 * ((k + 1) * (k + 1)) * W * (ε * M * M) := by
  have hk0 : (0 : ℚ) ≤ k := by positivity
  have hP := prod_near he0 he hM hr hc hv hmh hmh'
  set P := r (r (v - r (mh - c)) * r (v - mh'))
  have hvm : |v - m| ≤ 2 * M := by
    have := abs_sub v m
    linarith
  have hvm' : |v - m'| ≤ 2 * M := by
    have := abs_sub v m'
    linarith
  have h1 : |v - mh - (v - m)| ≤ |mh - m| := by rw [show v - mh - (v - m) = -(mh - m) by ring, abs_neg]
  have h2 : |v - mh' - (v - m')| ≤ |mh' - m'| := by rw [show v - mh' - (v - m') = -(mh' - m') by ring, abs_neg]
  have h3 := near_mul h1 hvm h2 hvm'
  have huMM : 0 ≤ ε * M * M := mul_nonneg (mul_nonneg he0 hM) hM
  have h4 : |(v - mh) * (v - mh') - (v - m) * (v - m')| ≤ 105 * (k + 1) * W * (ε * M * M) := by
    have a1 : |mh - m| * (2 * M + |mh' - m'|) ≤ |mh - m| * (3 * M) :=
      mul_le_mul_of_nonneg_left (by linarith) (abs_nonneg _)
    have a2 : |mh - m| * (3 * M) ≤ 21 * k * W * (ε * M) * (3 * M) := mul_le_mul_of_nonneg_right hd (by linarith)
    have a3 : 2 * M * |mh' - m'| ≤ 2 * M * (21 * (k + 1) * W * (ε * M)) := mul_le_mul_of_nonneg_left hd' (by linarith)
    have a4 : 21 * k * W * (ε * M) * (3 * M) + 2 * M * (21 * (k + 1) * W * (ε * M)) = (105 * k + 42) * (W * (ε * M * M)) := by ring
    have a5 : (105 * k + 42) * (W * (ε * M * M)) ≤ 105 * (k + 1) * (W * (ε * M * M)) :=
      mul_le_mul_of_nonneg_right (by linarith) (mul_nonneg (by linarith) huMM)
    linarith
  have h5 : |s + σ * P - S'| ≤ (170 * (k * k) + 105 * k + 163) * (W * (ε * M * M)) := by
    have e : s + σ * P - S' = (s - S) + σ * ((P - (v - mh) * (v - mh')) + ((v - mh) * (v - mh') - (v - m) * (v - m'))) := by
      rw [hS']; ring
    have hσ' : |σ| = 1 := by rcases hσ with rfl | rfl <;> simp
    rw [e]
    refine (abs_add_le _ _).trans ?_
    rw [abs_mul, hσ', one_mul]
    have a1 := abs_add_le (P - (v - mh) * (v - mh')) ((v - mh) * (v - mh') - (v - m) * (v - m'))
    have a2 : 58 * (ε * M * M) ≤ 58 * (W * (ε * M * M)) := by nlinarith
    linarith
  have h6 := near_round he0 hr h5 hS'b
  have hX : 0 ≤ W * (ε * M * M) := mul_nonneg (by linarith) huMM
  have h7 : ε * (W * (M * M)) = W * (ε * M * M) := by ring
  have h8 : ε * ((170 * (k * k) + 105 * k + 163) * (W * (ε * M * M))) ≤ 1 * (W * (ε * M * M)) := by
    rw [← mul_assoc]
    apply mul_le_mul_of_nonneg_right _ hX
    have : ε * (170 * (k * k) + 105 * k + 163) ≤ ε * (170 * ((k + 1) * (k + 1))) := mul_le_mul_of_nonneg_left (by nlinarith) he0
    linarith
  have h9 : (170 * (k * k) + 105 * k + 163 + 1 + 1) * (W * (ε * M * M)) ≤ 170 * ((k + 1) * (k + 1)) * (W * (ε * M * M)) :=
    mul_le_mul_of_nonneg_right (by nlinarith) hX
  rw [mul_add, h7] at h6
  linarith

theorem close_add {k : ℕ} {st E : VarSt ℚ} {m : List (XF ℚ)} (h : Close ε M W k st E m) (x : XF ℚ) (hx : |x.toK| ≤ M)
    (hW : (m.length : ℚ) + 1 ≤ W) (hk1 : 21 * (k + 1) * W * ε ≤ 1) (hk2 : 170 * ((k + 1) * (k + 1)) * ε ≤ 1) :
    Close ε M W (k + 1) (varAdd r st x) (varAdd id E x) (m ++ [x]) := by
  have hu : 0 ≤ ε * M := mul_nonneg he0 hM
  have hk0 : (0 : ℚ) ≤ k := by positivity
  have hl0 : (0 : ℚ) ≤ m.length := by positivity
  have hfit := varAdd_fits h.fits x
  have hb : ∀ y ∈ m ++ [x], |y.toK| ≤ M := by
    intro y hy
    rcases List.mem_append.1 hy with hy | hy
    · exact h.bound y hy
    · rw [List.mem_singleton.1 hy]; exact hx
  have hlen : ((m ++ [x]).length : ℚ) ≤ W := by
    rw [List.length_append, List.length_singleton]
    push_cast
    exact hW
  cases x with
  | fin v =>
    have hv : |v| ≤ M := hx
    have hn0 := h.nobs_nonneg
    have hN : (1 : ℚ) ≤ (E.nobs : ℚ) + 1 := by
      have : (0 : ℚ) ≤ E.nobs := by exact_mod_cast hn0
      linarith
    have hNW : (E.nobs : ℚ) + 1 ≤ W := by
      have := (sum_present m).1
      rw [← h.fits.nobs] at this
      have : (E.nobs : ℚ) ≤ m.length := by exact_mod_cast this
      linarith
    have hne : E.nobs + 1 ≠ 0 := by omega
    have hcast : ((E.nobs + 1 : ℤ) : ℚ) = (E.nobs : ℚ) + 1 := by push_cast; rfl
    have hEm : (varAdd id E (.fin v)).mean = E.mean + (v - E.mean) / ((E.nobs : ℚ) + 1) := by
      simp [varAdd, h.fits.ca, hne]
    have hEs : (varAdd id E (.fin v)).ss = E.ss + 1 * ((v - E.mean) * (v - (varAdd id E (.fin v)).mean)) := by
      rw [hEm]; simp [varAdd, h.fits.ca, hne]
    have hEn : (varAdd id E (.fin v)).nobs = E.nobs + 1 := by simp [varAdd]
    have hsm : (varAdd r st (.fin v)).mean = r (st.mean + r (r (r (v - st.ca) - st.mean) / ((E.nobs : ℚ) + 1))) := by
      simp only [varAdd, h.nobs]
      rw [if_pos hne, hcast]
    have hss : (varAdd r st (.fin v)).ss =
        r (st.ss + 1 * r (r (v - r (st.mean - st.ca)) * r (v - (varAdd r st (.fin v)).mean))) := by
      rw [one_mul]; simp only [varAdd]
    have hE0 : |E.mean| ≤ M := fits_mean_le h.fits h.bound (fun h0 => (h.zero h0).1) hM
    have herr := h.err
    have hsmall : 21 * k * W * (ε * M) ≤ M := by
      have : 21 * k * W * ε ≤ 1 := by nlinarith
      calc 21 * k * W * (ε * M) = 21 * k * W * ε * M := by ring
        _ ≤ 1 * M := mul_le_mul_of_nonneg_right this hM
        _ = M := one_mul M
    have hsmall' : 21 * (k + 1) * W * (ε * M) ≤ M := by
      calc 21 * (k + 1) * W * (ε * M) = 21 * (k + 1) * W * ε * M := by ring
        _ ≤ 1 * M := mul_le_mul_of_nonneg_right hk1 hM
        _ = M := one_mul M
    have hst : |st.mean| ≤ 2 * M := by
      have := abs_sub_abs_le_abs_sub st.mean E.mean
      linarith
    obtain ⟨hca, hq⟩ := mean_incr he0 he hM hr h.ca hv hst hN
    have hd3 : |(v - st.mean) / ((E.nobs : ℚ) + 1)| ≤ 3 * M := by
      rw [abs_div, abs_of_pos (show (0 : ℚ) < (E.nobs : ℚ) + 1 by linarith)]
      refine (div_le_self (abs_nonneg _) hN).trans ?_
      have := abs_sub v st.mean
      linarith
    have hη := mean_add he0 he hM hr hst hq hd3
    rw [← hsm] at hη
    have hmean : |(varAdd r st (.fin v)).mean - (varAdd id E (.fin v)).mean| * ((E.nobs : ℚ) + 1) ≤
        21 * (k + 1) * W * (ε * M) := by
      have e : ((varAdd r st (.fin v)).mean - (varAdd id E (.fin v)).mean) * ((E.nobs : ℚ) + 1) =
          ((varAdd r st (.fin v)).mean - (st.mean + (v - st.mean) / ((E.nobs : ℚ) + 1))) * ((E.nobs : ℚ) + 1) +
            (st.mean - E.mean) * E.nobs := by
        rw [hEm]
        have : (E.nobs : ℚ) + 1 ≠ 0 := by linarith
        field_simp
        ring
      have hNp : (0 : ℚ) < (E.nobs : ℚ) + 1 := by linarith
      have h1 := congrArg abs e
      rw [abs_mul, abs_of_pos hNp] at h1
      rw [h1]
      refine (abs_add_le _ _).trans ?_
      rw [abs_mul, abs_mul, abs_of_pos hNp, abs_of_nonneg (show (0 : ℚ) ≤ E.nobs by exact_mod_cast hn0)]
      have a1 : |(varAdd r st (.fin v)).mean - (st.mean + (v - st.mean) / ((E.nobs : ℚ) + 1))| * ((E.nobs : ℚ) + 1) ≤
          21 * (ε * M) * W := mul_le_mul hη hNW hNp.le (by linarith)
      have := h.mean
      linarith
    have hmean1 : |(varAdd r st (.fin v)).mean - (varAdd id E (.fin v)).mean| ≤ 21 * (k + 1) * W * (ε * M) := by
      have := abs_nonneg ((varAdd r st (.fin v)).mean - (varAdd id E (.fin v)).mean)
      nlinarith
    have hE' : |(varAdd id E (.fin v)).mean| ≤ M := fits_mean_le hfit hb (fun h0 => absurd h0 (by rw [hEn]; exact hne)) hM
    have hst' : |(varAdd r st (.fin v)).mean| ≤ 2 * M := by
      have := abs_sub_abs_le_abs_sub (varAdd r st (.fin v)).mean (varAdd id E (.fin v)).mean
      linarith
    refine ⟨hfit, fun h0 => absurd h0 (by rw [hEn]; exact hne), ?_, hlen, hb, ?_, ?_, ?_, ?_⟩
    · simp [varAdd, h.nobs]
    · simpa [varAdd] using hca
    · simpa [varAdd] using h.cr
    · rw [hEn, hcast]
      push_cast
      exact hmean
    · rw [hss]
      push_cast
      exact ss_step he0 he hM hr (.inl rfl) (by linarith) h.ca hv hst hst' hE0 hE' herr hmean1
        (hmean1.trans hsmall') h.ss hEs (fits_ss_le hfit hb hlen) hk2
  | _ =>
    have := h.more hu hM (by linarith)
    exact { this with fits := hfit, len := hlen, bound := hb }

theorem close_remove {k : ℕ} {st E : VarSt ℚ} {m : List (XF ℚ)} (x : XF ℚ) (h : Close ε M W k st E (x :: m))
    (hW : 1 ≤ W) (hk1 : 21 * (k + 1) * W * ε ≤ 1) (hk2 : 170 * ((k + 1) * (k + 1)) * ε ≤ 1) :
    Close ε M W (k + 1) (varRemove r st x) (varRemove id E x) m := by
  have hu : 0 ≤ ε * M := mul_nonneg he0 hM
  have hk0 : (0 : ℚ) ≤ k := by positivity
  have hfit := varRemove_fits x h.fits
  have hb : ∀ y ∈ m, |y.toK| ≤ M := fun y hy => h.bound y (by simp [hy])
  have hlen : (m.length : ℚ) ≤ W := by
    have := h.len
    rw [List.length_cons] at this
    push_cast at this
    linarith
  cases x with
  | fin v =>
    have hv : |v| ≤ M := h.bound (.fin v) (by simp)
    have hn1 : 1 ≤ E.nobs := by
      have h1 := h.fits.nobs
      have h2 := present_nonneg m
      have e : present (XF.fin v) = 1 := by simp [present, XF.undef, XF.isNan, XF.isInf]
      rw [List.map_cons, List.sum_cons, e] at h1
      omega
    by_cases hne : E.nobs - 1 = 0
    · have e1 : varRemove id E (.fin v) = { E with mean := 0, ss := 0, nobs := E.nobs - 1 } := by simp [varRemove, hne]
      have e2 : varRemove r st (.fin v) = { st with mean := 0, ss := 0, nobs := st.nobs - 1 } := by
        simp [varRemove, h.nobs, hne]
      rw [e1] at hfit ⊢
      rw [e2]
      refine ⟨hfit, fun _ => ⟨rfl, rfl⟩, by rw [h.nobs], hlen, hb, h.ca, h.cr, ?_, ?_⟩
      · simp only [sub_self, abs_zero, zero_mul]
        positivity
      · simp only [sub_self, abs_zero]
        positivity
    · have hN : (1 : ℚ) ≤ (E.nobs : ℚ) - 1 := by
        have : 2 ≤ E.nobs := by omega
        have : (2 : ℚ) ≤ E.nobs := by exact_mod_cast this
        linarith
      have hNW : (E.nobs : ℚ) - 1 ≤ W := by linarith [h.nobs_le]
      have hcast : ((E.nobs - 1 : ℤ) : ℚ) = (E.nobs : ℚ) - 1 := by push_cast; rfl
      have hEm : (varRemove id E (.fin v)).mean = E.mean - (v - E.mean) / ((E.nobs : ℚ) - 1) := by
        simp [varRemove, h.fits.cr, hne]
      have hEs : (varRemove id E (.fin v)).ss = E.ss + -1 * ((v - E.mean) * (v - (varRemove id E (.fin v)).mean)) := by
        rw [hEm]; simp [varRemove, h.fits.cr, hne]; ring
      have hEn : (varRemove id E (.fin v)).nobs = E.nobs - 1 := by simp [varRemove, hne]
      have hsm : (varRemove r st (.fin v)).mean = r (st.mean + -r (r (r (v - st.cr) - st.mean) / ((E.nobs : ℚ) - 1))) := by
        simp only [varRemove, h.nobs]
        rw [if_pos hne, hcast, ← sub_eq_add_neg]
      have hss : (varRemove r st (.fin v)).ss =
          r (st.ss + -1 * r (r (v - r (st.mean - st.cr)) * r (v - (varRemove r st (.fin v)).mean))) := by
        rw [neg_one_mul, ← sub_eq_add_neg]
        simp only [varRemove, h.nobs]
        rw [if_pos hne]
      have hE0 : |E.mean| ≤ M := fits_mean_le h.fits h.bound (fun h0 => (h.zero h0).1) hM
      have herr := h.err
      have hsmall : 21 * k * W * (ε * M) ≤ M := by
        have : 21 * k * W * ε ≤ 1 := by nlinarith
        calc 21 * k * W * (ε * M) = 21 * k * W * ε * M := by ring
          _ ≤ 1 * M := mul_le_mul_of_nonneg_right this hM
          _ = M := one_mul M
      have hsmall' : 21 * (k + 1) * W * (ε * M) ≤ M := by
        calc 21 * (k + 1) * W * (ε * M) = 21 * (k + 1) * W * ε * M := by ring
          _ ≤ 1 * M := mul_le_mul_of_nonneg_right hk1 hM
          _ = M := one_mul M
      have hst : |st.mean| ≤ 2 * M := by
        have := abs_sub_abs_le_abs_sub st.mean E.mean
        linarith
      obtain ⟨hcr, hq⟩ := mean_incr he0 he hM hr h.cr hv hst hN
      have hq' : |-r (r (r (v - st.cr) - st.mean) / ((E.nobs : ℚ) - 1)) - -((v - st.mean) / ((E.nobs : ℚ) - 1))| ≤ 15 * (ε * M) := by
        rw [neg_sub_neg, abs_sub_comm]; exact hq
      have hd3 : |-((v - st.mean) / ((E.nobs : ℚ) - 1))| ≤ 3 * M := by
        rw [abs_neg, abs_div, abs_of_pos (show (0 : ℚ) < (E.nobs : ℚ) - 1 by linarith)]
        refine (div_le_self (abs_nonneg _) hN).trans ?_
        have := abs_sub v st.mean
        linarith
      have hη := mean_add he0 he hM hr hst hq' hd3
      rw [← hsm] at hη
      have hmean : |(varRemove r st (.fin v)).mean - (varRemove id E (.fin v)).mean| * ((E.nobs : ℚ) - 1) ≤
          21 * (k + 1) * W * (ε * M) := by
        have e : ((varRemove r st (.fin v)).mean - (varRemove id E (.fin v)).mean) * ((E.nobs : ℚ) - 1) =
            ((varRemove r st (.fin v)).mean - (st.mean + -((v - st.mean) / ((E.nobs : ℚ) - 1)))) * ((E.nobs : ℚ) - 1) +
              (st.mean - E.mean) * E.nobs := by
          rw [hEm]
          have : (E.nobs : ℚ) - 1 ≠ 0 := by linarith
          field_simp
          ring
        have hNp : (0 : ℚ) < (E.nobs : ℚ) - 1 := by linarith
        have h1 := congrArg abs e
        rw [abs_mul, abs_of_pos hNp] at h1
        rw [h1]
        refine (abs_add_le _ _).trans ?_
        rw [abs_mul, abs_mul, abs_of_pos hNp, abs_of_nonneg (show (0 : ℚ) ≤ E.nobs by linarith)]
        have a1 : |(varRemove r st (.fin v)).mean - (st.mean + -((v - st.mean) / ((E.nobs : ℚ) - 1)))| * ((E.nobs : ℚ) - 1) ≤
            21 * (ε * M) * W := mul_le_mul hη hNW hNp.le (by linarith)
        have := h.mean
        linarith
      have hmean1 : |(varRemove r st (.fin v)).mean - (varRemove id E (.fin v)).mean| ≤ 21 * (k + 1) * W * (ε * M) := by
        have := abs_nonneg ((varRemove r st (.fin v)).mean - (varRemove id E (.fin v)).mean)
        nlinarith
      have hE' : |(varRemove id E (.fin v)).mean| ≤ M := fits_mean_le hfit hb (fun h0 => absurd h0 (by rw [hEn]; exact hne)) hM
      have hst' : |(varRemove r st (.fin v)).mean| ≤ 2 * M := by
        have := abs_sub_abs_le_abs_sub (varRemove r st (.fin v)).mean (varRemove id E (.fin v)).mean
        linarith
      refine ⟨hfit, fun h0 => absurd h0 (by rw [hEn]; exact hne), ?_, hlen, hb, ?_, ?_, ?_, ?_⟩
      · rw [hEn]; simp [varRemove, h.nobs, hne]
      · simpa [varRemove, h.nobs, hne] using h.ca
      · simpa [varRemove, h.nobs, hne] using hcr
      · rw [hEn, hcast]
        push_cast
        exact hmean
      · rw [hss]
        push_cast
        exact ss_step he0 he hM hr (.inr rfl) hW h.cr hv hst hst' hE0 hE' herr hmean1
          (hmean1.trans hsmall') h.ss hEs (fits_ss_le hfit hb hlen) hk2
  | _ =>
    have := h.more hu hM (by linarith)
    exact { this with fits := hfit, len := hlen, bound := hb }

theorem varState_close (b : Bool) {w : ℕ} (hw : 1 ≤ w) {l : List (XF ℚ)} (hl : ∀ x ∈ l, |x.toK| ≤ M) (n : ℕ)
    (hn : n ≤ l.length) (hk1 : 42 * n * (w + 1) * ε ≤ 1) (hk2 : 680 * (n * n) * ε ≤ 1) :
    Close ε M (w + 1) (2 * n) (varState r b w l n) (varState id b w l n) (seg (n - w) n l) := by
  have hu : 0 ≤ ε * M := mul_nonneg he0 hM
  have hw0 : (0 : ℚ) ≤ w := by positivity
  have hget : ∀ i, |(l.getD i .nan).toK| ≤ M := by
    intro i
    by_cases hi : i < l.length
    · rw [List.getD_eq_getElem _ _ hi]; exact hl _ (List.getElem_mem hi)
    · rw [List.getD_eq_default _ _ (by omega)]; simpa [XF.toK] using hM
  have hseg : ∀ a b : ℕ, a ≤ b → ((seg a b l).length : ℚ) ≤ (b : ℚ) - a := by
    intro a b hab
    have : (seg a b l).length ≤ b - a := by unfold seg; simp; omega
    have : ((seg a b l).length : ℚ) ≤ ((b - a : ℕ) : ℚ) := by exact_mod_cast this
    rwa [Nat.cast_sub hab] at this
  induction n with
  | zero =>
    refine ⟨varState_fits b hw l 0 (by omega), fun _ => ⟨rfl, rfl⟩, rfl, ?_, ?_, ?_, ?_, ?_, ?_⟩
    · simp [seg]; linarith
    · simp [seg]
    · simp [varState, varInit]; exact hu
    · simp [varState, varInit]; exact hu
    · simp [varState, varInit]
    · simp [varState, varInit]
  | succ n ih =>
    have hn0 : (0 : ℚ) ≤ n := by positivity
    push_cast at hk1 hk2
    have hwε : 0 ≤ ((w : ℚ) + 1) * ε := mul_nonneg (by linarith) he0
    have ih := ih (by omega) (by nlinarith) (by nlinarith)
    have a1 : 21 * (((2 * n : ℕ) : ℚ) + 1) * ((w : ℚ) + 1) * ε ≤ 1 := by push_cast; nlinarith
    have a2 : 170 * ((((2 * n : ℕ) : ℚ) + 1) * (((2 * n : ℕ) : ℚ) + 1)) * ε ≤ 1 := by push_cast; nlinarith
    have b1 : 21 * (((2 * n + 1 : ℕ) : ℚ) + 1) * ((w : ℚ) + 1) * ε ≤ 1 := by push_cast; nlinarith
    have b2 : 170 * ((((2 * n + 1 : ℕ) : ℚ) + 1) * (((2 * n + 1 : ℕ) : ℚ) + 1)) * ε ≤ 1 := by push_cast; nlinarith
    rw [varState, varState, varStep, varStep, show 2 * (n + 1) = 2 * n + 1 + 1 by ring]
    by_cases hwn : w ≤ n
    · rw [if_pos hwn, if_pos hwn]
      have e : n + 1 - w = (n - w) + 1 := by omega
      cases b with
      | true =>
        rw [if_pos rfl, if_pos rfl, e]
        apply close_remove he0 he hM hr _ _ (by linarith) b1 b2
        rw [← seg_cons l (by omega) (by omega), seg_snoc l (by omega) (by omega)]
        apply close_add he0 he hM hr ih _ (hget n) _ a1 a2
        have := hseg (n - w) n (by omega)
        rw [Nat.cast_sub hwn] at this
        linarith
      | false =>
        rw [if_neg (by simp), if_neg (by simp), e, seg_snoc l (by omega) (by omega)]
        apply close_add he0 he hM hr _ _ (hget n) _ b1 b2
        · apply close_remove he0 he hM hr _ _ (by linarith) a1 a2
          rw [← seg_cons l (by omega) (by omega)]
          exact ih
        · have := hseg (n - w + 1) n (by omega)
          rw [Nat.cast_add, Nat.cast_sub hwn] at this
          push_cast at this
          linarith
    · rw [if_neg hwn, if_neg hwn, show n + 1 - w = n - w by omega, seg_snoc l (by omega) (by omega)]
      apply Close.more _ hu hM (by linarith)
      apply close_add he0 he hM hr ih _ (hget n) _ a1 a2
      have := hseg (n - w) n (by omega)
      rw [show n - w = 0 by omega] at this ⊢
      have h3 : (n : ℚ) ≤ w := by exact_mod_cast (by omega : n ≤ w)
      push_cast at this
      linarith

/-- The value before it is clipped. -/
theorem var_near (b : Bool) {w : ℕ} (hw : 2 ≤ w) {l : List (XF ℚ)} (hl : ∀ x ∈ l, |x.toK| ≤ M) (n : ℕ) (h1n : 1 ≤ n)
    (hn : n ≤ l.length) (hk1 : 42 * n * (w + 1) * ε ≤ 1) (hk2 : 680 * (n * n) * ε ≤ 1) :
    |r ((varState r b w l n).ss / ((w - 1 : ℤ) : ℚ)) - (varState id b w l n).ss / ((w - 1 : ℤ) : ℚ)| ≤
      2046 * (n * n) * (ε * M * M) ∧ 0 ≤ (varState id b w l n).ss / ((w - 1 : ℤ) : ℚ) := by
  have h := varState_close he0 he hM hr b (by omega) hl n hn hk1 hk2
  have hw2 : (2 : ℚ) ≤ w := by exact_mod_cast hw
  have hn1 : (1 : ℚ) ≤ n := by exact_mod_cast h1n
  have hc : ((w - 1 : ℤ) : ℚ) = (w : ℚ) - 1 := by push_cast; rfl
  rw [hc]
  have hp : (0 : ℚ) < (w : ℚ) - 1 := by linarith
  have hE := fits_ss_le h.fits h.bound h.len
  have h0 := fits_nonneg h.fits
  have hX : 0 ≤ ε * M * M := mul_nonneg (mul_nonneg he0 hM) hM
  refine ⟨?_, div_nonneg h0 hp.le⟩
  have d1 : |(varState r b w l n).ss / ((w : ℚ) - 1) - (varState id b w l n).ss / ((w : ℚ) - 1)| ≤ 2040 * (n * n) * (ε * M * M) := by
    rw [← sub_div, abs_div, abs_of_pos hp, div_le_iff₀ hp]
    refine h.ss.trans ?_
    push_cast
    have : (w : ℚ) + 1 ≤ 3 * (w - 1) := by linarith
    have h2 : 680 * (n * n) * (ε * M * M) * ((w : ℚ) + 1) ≤ 680 * (n * n) * (ε * M * M) * (3 * (w - 1)) :=
      mul_le_mul_of_nonneg_left this (mul_nonneg (by positivity) hX)
    linarith
  have d2 : |(varState id b w l n).ss / ((w : ℚ) - 1)| ≤ 3 * (M * M) := by
    rw [abs_div, abs_of_pos hp, div_le_iff₀ hp]
    refine hE.trans ?_
    have : (w : ℚ) + 1 ≤ 3 * (w - 1) := by linarith
    have := mul_le_mul_of_nonneg_right this (mul_nonneg hM hM)
    linarith
  have d3 := near_round he0 hr d1 d2
  have d4 : ε * (2040 * (n * n) * (ε * M * M)) ≤ 3 * (ε * M * M) := by
    have : 680 * (n * n) * ε * (3 * (ε * M * M)) ≤ 1 * (3 * (ε * M * M)) := mul_le_mul_of_nonneg_right hk2 (by linarith)
    linarith
  have d5 : 6 * (ε * M * M) ≤ 6 * (n * n) * (ε * M * M) := mul_le_mul_of_nonneg_right (by nlinarith) hX
  linarith

end step2

/-! ### a column that does not change -/

/-- A state of a window with the one number `v`. -/
structure Still {K : Type} [Field K] [LinearOrder K] (v : K) (st : VarSt K) (m : List (XF K)) : Prop where
  nobs : st.nobs = (m.map present).sum
  ss : st.ss = 0
  ca : st.ca = 0
  cr : st.cr = 0
  none : st.nobs = 0 → st.mean = 0
  some : st.nobs ≠ 0 → st.mean = v

section still
variable {K : Type} [Field K] [LinearOrder K] [IsStrictOrderedRing K] {r : K → K} {v : K} (h0 : r 0 = 0) (hv : r v = v)
include h0 hv

theorem still_add {st : VarSt K} {m : List (XF K)} (h : Still v st m) (x : XF K) (hx : ∀ q, x = .fin q → q = v) :
    Still v (varAdd r st x) (m ++ [x]) := by
  cases x with
  | fin q =>
    obtain rfl := hx q rfl
    have hn0 := present_nonneg m
    rw [← h.nobs] at hn0
    have hn : st.nobs + 1 ≠ 0 := by omega
    by_cases hz : st.nobs = 0
    · have hm := h.none hz
      constructor <;> simp [varAdd, h.ss, h.ca, h.cr, hm, hz, h0, hv, present, XF.undef, XF.isNan, XF.isInf]
      rw [← h.nobs, hz]
    · have hm := h.some hz
      constructor <;> simp [varAdd, h.ss, h.ca, h.cr, hm, h0, hv, present, XF.undef, XF.isNan, XF.isInf]
      · exact h.nobs
      all_goals omega
  | _ =>
    refine ⟨?_, h.ss, h.ca, h.cr, h.none, h.some⟩
    simp [varAdd, h.nobs, present, XF.undef, XF.isNan, XF.isInf]

theorem still_remove {st : VarSt K} {m : List (XF K)} (x : XF K) (h : Still v st (x :: m)) (hx : ∀ q, x = .fin q → q = v) :
    Still v (varRemove r st x) m := by
  cases x with
  | fin q =>
    obtain rfl := hx q rfl
    have hn0 := present_nonneg m
    have hnobs : st.nobs = 1 + (m.map present).sum := by
      rw [h.nobs]; simp [present, XF.undef, XF.isNan, XF.isInf]
    have hm := h.some (by omega)
    by_cases hn : st.nobs - 1 = 0
    · have e : varRemove r st (.fin q) = { st with mean := 0, ss := 0, nobs := st.nobs - 1 } := by simp [varRemove, hn]
      rw [e]
      exact ⟨by dsimp only; omega, rfl, h.ca, h.cr, fun _ => rfl, fun h1 => absurd hn h1⟩
    · constructor <;> simp [varRemove, hn, h.ss, h.ca, h.cr, hm, h0, hv]
      omega
  | _ =>
    refine ⟨?_, h.ss, h.ca, h.cr, h.none, h.some⟩
    have := h.nobs
    simpa [varRemove, present, XF.undef, XF.isNan, XF.isInf] using this

theorem varState_still (b : Bool) {w : ℕ} (hw : 1 ≤ w) {l : List (XF K)} (hl : ∀ q, .fin q ∈ l → q = v) (n : ℕ)
    (h : n ≤ l.length) : Still v (varState r b w l n) (seg (n - w) n l) := by
  have hget : ∀ i q, l.getD i .nan = .fin q → q = v := by
    intro i q hq
    by_cases hi : i < l.length
    · rw [List.getD_eq_getElem _ _ hi] at hq
      exact hl q (hq ▸ List.getElem_mem hi)
    · rw [List.getD_eq_default _ _ (by omega)] at hq; cases hq
  induction n with
  | zero => exact ⟨by simp [varState, varInit, seg], rfl, rfl, rfl, fun _ => rfl, fun h => absurd rfl h⟩
  | succ n ih =>
    have ih := ih (by omega)
    rw [varState, varStep]
    by_cases hwn : w ≤ n
    · rw [if_pos hwn]
      have e : n + 1 - w = (n - w) + 1 := by omega
      cases b with
      | true =>
        rw [if_pos rfl, e]
        apply still_remove h0 hv _ _ (hget _)
        rw [← seg_cons l (by omega) (by omega), seg_snoc l (by omega) (by omega)]
        exact still_add h0 hv ih _ (hget _)
      | false =>
        rw [if_neg (by simp), e, seg_snoc l (by omega) (by omega)]
        apply still_add h0 hv _ _ (hget _)
        apply still_remove h0 hv _ _ (hget _)
        rw [← seg_cons l (by omega) (by omega)]
        exact ih
    · rw [if_neg hwn, show n + 1 - w = n - w by omega, seg_snoc l (by omega) (by omega)]
      exact still_add h0 hv ih _ (hget _)

end still

/-! ### scaling -/

/-- A state with the mean multiplied by `c` and the squares by `c²`. -/
def scaleVar (c : ℚ) (st : VarSt ℚ) : VarSt ℚ := ⟨st.mean * c, st.ss * (c * c), st.ca * c, st.cr * c, st.nobs⟩

section scale
variable {r : ℚ → ℚ} {c : ℚ} (hr : ∀ x, r (x * c) = r x * c)
include hr

theorem r_sq (x : ℚ) : r (x * (c * c)) = r x * (c * c) := by rw [← mul_assoc, hr, hr, mul_assoc]

theorem varAdd_scale (st : VarSt ℚ) (x : XF ℚ) (hc : 0 < c) :
    varAdd r (scaleVar c st) (scale c x) = scaleVar c (varAdd r st x) := by
  have hd : ∀ a n : ℚ, a * c / n = a / n * c := fun a n => by ring
  have hm : ∀ a b : ℚ, a * c * (b * c) = a * b * (c * c) := fun a b => by ring
  cases x with
  | fin v =>
    simp only [scale, XF.mul, varAdd, scaleVar]
    by_cases hn : st.nobs + 1 = 0
    · simp only [hn, ne_eq, not_true, if_false, ← sub_mul, hr, ← add_mul, hm, r_sq hr, sub_zero, zero_mul]
    · simp only [hn, ne_eq, not_false_iff, if_true, ← sub_mul, hr, ← add_mul, hd, hm, r_sq hr]
  | _ => simp [scale, XF.mul, varAdd, XF.infSign, XF.neg, hc]

theorem varRemove_scale (st : VarSt ℚ) (x : XF ℚ) (hc : 0 < c) :
    varRemove r (scaleVar c st) (scale c x) = scaleVar c (varRemove r st x) := by
  have hd : ∀ a n : ℚ, a * c / n = a / n * c := fun a n => by ring
  have hm : ∀ a b : ℚ, a * c * (b * c) = a * b * (c * c) := fun a b => by ring
  cases x with
  | fin v =>
    simp only [scale, XF.mul, varRemove]
    by_cases hn : st.nobs - 1 = 0
    · simp [hn, scaleVar]
    · simp only [scaleVar, hn, ne_eq, not_false_iff, if_true, ← sub_mul, hr, ← add_mul, hd, hm, r_sq hr]
  | _ => simp [scale, XF.mul, varRemove, XF.infSign, XF.neg, hc]

theorem varState_scale (b : Bool) (w : ℕ) (l : List (XF ℚ)) (hc : 0 < c) (n : ℕ) :
    varState r b w (l.map (scale c)) n = scaleVar c (varState r b w l n) := by
  induction n with
  | zero => simp [varState, varInit, scaleVar]
  | succ n ih =>
    rw [varState, varState, varStep, varStep, ih, getD_scale, getD_scale]
    by_cases hwn : w ≤ n
    · cases b <;> simp only [if_pos hwn, if_true, Bool.false_eq_true, if_false, varAdd_scale hr _ _ hc, varRemove_scale hr _ _ hc]
    · simp only [if_neg hwn, varAdd_scale hr _ _ hc]

theorem rollVar_scale (b : Bool) (w : ℕ) (l : List (XF ℚ)) (hc : 0 < c) :
    rollVar r b w (l.map (scale c)) = (rollVar r b w l).map (scale (c * c)) := by
  simp only [rollVar, List.length_map, List.map_map]
  apply List.map_congr_left
  intro i _
  rw [Function.comp_apply, varState_scale hr b w l hc]
  generalize varState r b w l (i + 1) = st
  rw [calcVar, calcVar]
  by_cases hn : (w : ℤ) ≤ st.nobs ∧ 1 < st.nobs
  · rw [if_pos (show (w : ℤ) ≤ (scaleVar c st).nobs ∧ 1 < (scaleVar c st).nobs from hn), if_pos hn]
    have e : r ((scaleVar c st).ss / (((scaleVar c st).nobs - 1 : ℤ) : ℚ)) = r (st.ss / ((st.nobs - 1 : ℤ) : ℚ)) * (c * c) := by
      rw [← r_sq hr]
      simp only [scaleVar]
      congr 1
      ring
    simp only [e]
    have hcc : 0 < c * c := mul_pos hc hc
    by_cases hq : r (st.ss / ((st.nobs - 1 : ℤ) : ℚ)) < 0
    · rw [if_pos hq, if_pos (mul_neg_of_neg_of_pos hq hcc)]
      simp [scale, XF.mul]
    · rw [if_neg hq, if_neg (not_lt.2 (mul_nonneg (not_lt.1 hq) hcc.le))]
      rfl
  · rw [if_neg (show ¬ ((w : ℤ) ≤ (scaleVar c st).nobs ∧ 1 < (scaleVar c st).nobs) from hn), if_neg hn]
    rfl

end scale

end Mizar.Rd
