import Verif.Model.RoundedMicro
import Verif.Lemmas.RoundedCross
import Verif.Lemmas.VarDrift

/-!
Lemmas on rolling covariances with rounding.
-/

namespace Mizar.Rd
open Mizar.Spec

section
variable {K : Type} [Field K] [LinearOrder K] [IsStrictOrderedRing K]

theorem prep_undef (a b : XF K) : (XF.add a (XF.mul (.fin 0) b)).undef = (a.undef || b.undef) := by
  cases a <;> cases b <;> simp [XF.add, XF.mul, XF.undef, XF.isNan, XF.isInf, XF.infSign, XF.neg]

theorem prep_toK (a b : XF K) : (XF.add a (XF.mul (.fin 0) b)).toK = if a.undef || b.undef then 0 else a.toK := by
  cases a <;> cases b <;> simp [XF.add, XF.mul, XF.undef, XF.isNan, XF.isInf, XF.infSign, XF.neg, XF.toK]

/-- Product of two values, missing where one of them is. -/
def prodR (r : K → K) (a b : XF K) : XF K :=
  rnd r (XF.mul (XF.add a (XF.mul (.fin 0) b)) (XF.add b (XF.mul (.fin 0) a)))

/-- Sum of two values, missing where one of them is. -/
def plusR (r : K → K) (a b : XF K) : XF K :=
  rnd r (XF.add (XF.add a (XF.mul (.fin 0) b)) (XF.add b (XF.mul (.fin 0) a)))

theorem prodR_undef (r : K → K) (a b : XF K) : (prodR r a b).undef = (a.undef || b.undef) := by
  cases a <;> cases b <;> simp [prodR, rnd, XF.add, XF.mul, XF.undef, XF.isNan, XF.isInf, XF.infSign, XF.neg]

theorem prodR_toK (r : K → K) (a b : XF K) : (prodR r a b).toK = if a.undef || b.undef then 0 else r (a.toK * b.toK) := by
  cases a <;> cases b <;> simp [prodR, rnd, XF.add, XF.mul, XF.undef, XF.isNan, XF.isInf, XF.infSign, XF.neg, XF.toK]

theorem plusR_nan (r : K → K) (a b : XF K) (ha : a.undef = false) (hb : b.undef = false) : (plusR r a b).isNan = false := by
  cases a <;> cases b <;> simp_all [plusR, rnd, XF.add, XF.mul, XF.undef, XF.isNan, XF.isInf]

theorem zip_zip {α β γ δ ε : Type*} (f : γ → δ → ε) (g : α → β → γ) (h : β → α → δ) (l : List α) (m : List β) :
    List.zipWith f (List.zipWith g l m) (List.zipWith h m l) = List.zipWith (fun a b => f (g a b) (h b a)) l m := by
  induction l generalizing m with
  | nil => simp
  | cons a l ih => cases m <;> simp [ih]

theorem winAt_zipWith {α β γ : Type*} (f : α → β → γ) (w i : ℕ) (l : List α) (m : List β) :
    winAt w i (List.zipWith f l m) = List.zipWith f (winAt w i l) (winAt w i m) := by
  simp only [winAt, List.take_zipWith, List.drop_zipWith]

theorem winAt_len_eq {α β : Type*} {l : List α} {m : List β} (h : l.length = m.length) (w i : ℕ) :
    (winAt w i l).length = (winAt w i m).length := by simp [winAt, h]

theorem any_zip {f : XF K → XF K → XF K} (hf : ∀ a b, (f a b).undef = (a.undef || b.undef)) {l m : List (XF K)}
    (h : l.length = m.length) : (List.zipWith f l m).any XF.undef = (l.any XF.undef || m.any XF.undef) := by
  induction l generalizing m with
  | nil => cases m <;> simp at h ⊢
  | cons a l ih =>
    cases m with
    | nil => simp at h
    | cons b m =>
      simp only [List.zipWith_cons_cons, List.any_cons, hf, ih (by simpa using h)]
      cases a.undef <;> cases b.undef <;> simp

theorem toK_zip {f : XF K → XF K → XF K} {g : K → K → K} {l m : List (XF K)}
    (hf : ∀ a b, a.undef = false → b.undef = false → (f a b).toK = g a.toK b.toK)
    (hl : l.any XF.undef = false) (hm : m.any XF.undef = false) :
    (List.zipWith f l m).map XF.toK = List.zipWith g (l.map XF.toK) (m.map XF.toK) := by
  induction l generalizing m with
  | nil => simp
  | cons a l ih =>
    cases m with
    | nil => simp
    | cons b m =>
      simp only [List.any_cons, Bool.or_eq_false_iff] at hl hm
      simp [hf a b hl.1 hm.1, ih hl.2 hm.2]

/-- Complete windows of both series. -/
def Full (w i : ℕ) (x y : List (XF K)) : Prop :=
  w ≤ i + 1 ∧ (winAt w i x).any XF.undef = false ∧ (winAt w i y).any XF.undef = false

variable {x y : List (XF K)} (hl : x.length = y.length)
include hl

theorem full_iff {f : XF K → XF K → XF K} (hf : ∀ a b, (f a b).undef = (a.undef || b.undef)) (w i : ℕ) :
    (w ≤ i + 1 ∧ (winAt w i (List.zipWith f x y)).any XF.undef = false) ↔ Full w i x y := by
  rw [winAt_zipWith, any_zip hf (winAt_len_eq hl w i), Bool.or_eq_false_iff]
  rfl

theorem prep_eq : prepBinary y x = List.zipWith (fun a b => XF.add b (XF.mul (.fin 0) a)) x y := by
  rw [prepBinary, List.zipWith_comm]

theorem mean_missing (r : K → K) {w : ℕ} (hw : 1 ≤ w) (l : List (XF K)) (i : ℕ) (hi : i < l.length)
    (h : ¬ (w ≤ i + 1 ∧ (winAt w i l).any XF.undef = false)) : (rollMean r w l).getD i .nan = .nan := by
  rw [rollMean, List.getD_eq_getElem _ _ (by simpa using hi), List.getElem_map, List.getElem_range, rollMean_at r hw l i hi,
    if_neg h]

theorem cov_missing (r : K → K) {w : ℕ} (hw : 1 ≤ w) (i : ℕ) (hi : i < x.length) (h : ¬ Full w i x y) :
    (rollCovR r w x y).getD i .nan = .nan := by
  rw [rollCovR, List.getD_eq_getElem _ _ (by simpa using hi), List.getElem_map, List.getElem_range]
  have e1 : List.zipWith (fun a b => rnd r (XF.mul a b)) (prepBinary x y) (prepBinary y x) = List.zipWith (prodR r) x y := by
    rw [prepBinary, prepBinary, zip_zip]; rfl
  rw [e1, mean_missing hl r hw _ i (by simpa [← hl] using hi) (fun h' => h ((full_iff hl (prodR_undef r) w i).1 h'))]
  rfl

theorem cov_value (r : K → K) {w : ℕ} (i : ℕ) (hi : i < x.length) (h : Full w i x y) {a b c : K}
    (ha : (rollMean r w (List.zipWith (prodR r) x y)).getD i .nan = .fin a) (hb : (rollMean r w (prepBinary x y)).getD i .nan = .fin b)
    (hc : (rollMean r w (prepBinary y x)).getD i .nan = .fin c) :
    (rollCovR r w x y).getD i .nan = rnd r (XF.mul (.fin (r (a - r (b * c)))) (rnd r (XF.div (.fin w) (.fin (w - 1))))) := by
  rw [rollCovR, List.getD_eq_getElem _ _ (by simpa using hi), List.getElem_map, List.getElem_range]
  have e1 : List.zipWith (fun a b => rnd r (XF.mul a b)) (prepBinary x y) (prepBinary y x) = List.zipWith (prodR r) x y := by
    rw [prepBinary, prepBinary, zip_zip]; rfl
  have e2 : List.zipWith (fun a b => rnd r (XF.add a b)) (prepBinary x y) (prepBinary y x) = List.zipWith (plusR r) x y := by
    rw [prepBinary, prepBinary, zip_zip]; rfl
  have e3 : (winAt w i (List.zipWith (plusR r) x y)).countP (fun x => !x.isNan) = w := by
    rw [List.countP_eq_length.2, winAt_zipWith, List.length_zipWith, ← winAt_len_eq hl, min_self, winAt_length w i x h.1 hi]
    intro z hz
    rw [winAt_zipWith] at hz
    obtain ⟨j, hj, rfl⟩ := List.getElem_of_mem hz
    rw [List.getElem_zipWith]
    have h1 := h.2.1
    have h2 := h.2.2
    rw [List.any_eq_false] at h1 h2
    rw [plusR_nan r _ _ (by simpa using h1 _ (List.getElem_mem _)) (by simpa using h2 _ (List.getElem_mem _))]
    rfl
  rw [e1, e2, ha, hb, hc, biasAdj, e3, XF.mul, rnd, XF.sub_fin, rnd]

omit hl in
theorem rolling2_at (f : List K → List K → XF K) (w i : ℕ) (hi : i < x.length) [Decidable (Full w i x y)] :
    (rolling2 w f x y).getD i .nan =
      if Full w i x y then f ((winAt w i x).map XF.toK) ((winAt w i y).map XF.toK) else .nan := by
  rw [rolling2, List.getD_eq_getElem _ _ (by simpa using hi), List.getElem_map, List.getElem_range, rollAt2]
  by_cases h : Full w i x y
  · rw [if_pos h, if_neg (by have := h.1; omega), if_neg (by simp [h.2.1, h.2.2])]
  · rw [if_neg h]
    by_cases h1 : i + 1 < w
    · rw [if_pos h1]
    · rw [if_neg h1, if_pos]
      by_contra h2
      rw [Bool.or_eq_true, not_or, Bool.not_eq_true, Bool.not_eq_true] at h2
      exact h ⟨by omega, h2⟩

omit hl in
theorem rolling_mean_val {w : ℕ} (hw : 1 ≤ w) (l : List (XF K)) (i : ℕ) (hi : i < l.length)
    (h : w ≤ i + 1 ∧ (winAt w i l).any XF.undef = false) :
    (rolling w winMean l).getD i .nan = .fin (((winAt w i l).map XF.toK).sum / w) := by
  rw [rolling, List.getD_eq_getElem _ _ (by simpa using hi), List.getElem_map, List.getElem_range, rollAt_at, if_pos h, winMean,
    List.length_map, winAt_length w i l h.1 hi, if_neg (by omega)]

/-- The sums of a complete window. -/
theorem full_sums (r : K → K) {w i : ℕ} (h : Full w i x y) :
    (winAt w i (List.zipWith (prodR r) x y)).map XF.toK =
      List.zipWith (fun u v => r (u * v)) ((winAt w i x).map XF.toK) ((winAt w i y).map XF.toK) ∧
    (winAt w i (prepBinary x y)).map XF.toK = (winAt w i x).map XF.toK ∧
    (winAt w i (prepBinary y x)).map XF.toK = (winAt w i y).map XF.toK := by
  have key : ∀ l m : List (XF K), l.length = m.length → l.any XF.undef = false → m.any XF.undef = false →
      (List.zipWith (fun a b => XF.add a (XF.mul (.fin 0) b)) l m).map XF.toK = l.map XF.toK := by
    intro l m hlm h1 h2
    rw [toK_zip (g := fun u _ => u) (fun a b ha hb => by rw [prep_toK, ha, hb]; rfl) h1 h2]
    induction l generalizing m with
    | nil => rfl
    | cons a l ih =>
      cases m with
      | nil => simp at hlm
      | cons b m =>
        simp only [List.any_cons, Bool.or_eq_false_iff] at h1 h2
        simp only [List.map_cons, List.zipWith_cons_cons, ih m (by simpa using hlm) h1.2 h2.2]
  refine ⟨?_, ?_, ?_⟩
  · rw [winAt_zipWith, toK_zip (g := fun u v => r (u * v)) (fun a b ha hb => by rw [prodR_toK, ha, hb]; rfl) h.2.1 h.2.2]
  · rw [prepBinary, winAt_zipWith, key _ _ (winAt_len_eq hl w i) h.2.1 h.2.2]
  · rw [prepBinary, winAt_zipWith, key _ _ (winAt_len_eq hl w i).symm h.2.2 h.2.1]

end

/-- The covariance out of the three means. -/
theorem cov_core {r : ℚ → ℚ} {ε M N a A b B c C β β' : ℚ} (he0 : 0 ≤ ε) (he : ε ≤ 1 / 256) (hM : 0 ≤ M) (hN : 1 ≤ N)
    (hNe : 24 * (N * ε) ≤ 1) (hr : ∀ x, |r x - x| ≤ ε * |x|) (ha : |a - A| ≤ 28 * (N * ε * (M * M))) (hA : |A| ≤ M * M)
    (hb : |b - B| ≤ 26 * (N * ε * M)) (hB : |B| ≤ M) (hc : |c - C| ≤ 26 * (N * ε * M)) (hC : |C| ≤ M)
    (hβ : |β| ≤ 2) (hβ' : |β' - β| ≤ 2 * ε) :
    |r (r (a - r (b * c)) * β') - (A - B * C) * β| ≤ 240 * (N * ε * (M * M)) := by
  have hMM : 0 ≤ M * M := mul_self_nonneg M
  obtain ⟨u, hu⟩ : ∃ u, u = N * ε * (M * M) := ⟨_, rfl⟩
  have hNε : 0 ≤ N * ε := mul_nonneg (by linarith) he0
  have hu0 : 0 ≤ u := by rw [hu]; exact mul_nonneg hNε hMM
  have heN : ε ≤ N * ε := by nlinarith
  have heu : ε * (M * M) ≤ u := by rw [hu]; exact mul_le_mul_of_nonneg_right heN hMM
  have heu' : ε * u ≤ 1 / 256 * u := mul_le_mul_of_nonneg_right he hu0
  rw [← hu] at ha ⊢
  have h1 := near_mul hb hB hc hC
  have e1 : 26 * (N * ε * M) * (M + 26 * (N * ε * M)) + M * (26 * (N * ε * M)) = 52 * u + 676 * (N * ε) * u := by rw [hu]; ring
  have e2 : 676 * (N * ε) * u ≤ 676 / 24 * u := by
    have := mul_le_mul_of_nonneg_right hNe hu0
    linarith
  have h1' : |b * c - B * C| ≤ 81 * u := by linarith
  have hBC : |B * C| ≤ M * M := by rw [abs_mul]; exact mul_le_mul hB hC (abs_nonneg _) hM
  have h2 := near_round he0 hr h1' hBC
  have e3 : ε * (M * M + 81 * u) = ε * (M * M) + 81 * (ε * u) := by ring
  have h2' : |r (b * c) - B * C| ≤ 83 * u := by linarith
  have h3 : |a - r (b * c) - (A - B * C)| ≤ 111 * u := by
    have e : a - r (b * c) - (A - B * C) = (a - A) - (r (b * c) - B * C) := by ring
    rw [e]
    have := abs_sub (a - A) (r (b * c) - B * C)
    linarith
  have hD : |A - B * C| ≤ 2 * (M * M) := by
    have := abs_sub A (B * C)
    linarith
  have h4 := near_round he0 hr h3 hD
  have e4 : ε * (2 * (M * M) + 111 * u) = 2 * (ε * (M * M)) + 111 * (ε * u) := by ring
  have h4' : |r (a - r (b * c)) - (A - B * C)| ≤ 114 * u := by linarith
  have h5 := near_mul h4' hD hβ' hβ
  have e5 : 114 * u * (2 + 2 * ε) + 2 * (M * M) * (2 * ε) = 228 * u + 228 * (ε * u) + 4 * (ε * (M * M)) := by ring
  have h5' : |r (a - r (b * c)) * β' - (A - B * C) * β| ≤ 233 * u := by linarith
  have hE : |(A - B * C) * β| ≤ 4 * (M * M) := by
    rw [abs_mul]
    have := mul_le_mul hD hβ (abs_nonneg _) (by linarith)
    linarith
  have h6 := near_round he0 hr h5' hE
  have e6 : ε * (4 * (M * M) + 233 * u) = 4 * (ε * (M * M)) + 233 * (ε * u) := by ring
  linarith

theorem prod_sum_near {r : ℚ → ℚ} {ε M : ℚ} (he0 : 0 ≤ ε) (hr : ∀ x, |r x - x| ≤ ε * |x|) (hM : 0 ≤ M) (U V : List ℚ)
    (hU : ∀ u ∈ U, |u| ≤ M) (hV : ∀ v ∈ V, |v| ≤ M) :
    |(List.zipWith (fun u v => r (u * v)) U V).sum - (List.zipWith (· * ·) U V).sum| ≤ U.length * (ε * (M * M)) ∧
    |(List.zipWith (· * ·) U V).sum| ≤ U.length * (M * M) := by
  have hMM : 0 ≤ M * M := mul_self_nonneg M
  induction U generalizing V with
  | nil => simp
  | cons u U ih =>
    cases V with
    | nil =>
      simp only [List.zipWith_nil_right, List.sum_nil, sub_zero, abs_zero]
      constructor <;> positivity
    | cons v V =>
      obtain ⟨h1, h2⟩ := ih V (fun z hz => hU z (by simp [hz])) (fun z hz => hV z (by simp [hz]))
      have huv : |u * v| ≤ M * M := by
        rw [abs_mul]
        exact mul_le_mul (hU u (by simp)) (hV v (by simp)) (abs_nonneg _) hM
      have h3 := (hr (u * v)).trans (mul_le_mul_of_nonneg_left huv he0)
      simp only [List.zipWith_cons_cons, List.sum_cons, List.length_cons]
      push_cast
      constructor
      · have e : r (u * v) + (List.zipWith (fun u v => r (u * v)) U V).sum - (u * v + (List.zipWith (· * ·) U V).sum) =
            (r (u * v) - u * v) + ((List.zipWith (fun u v => r (u * v)) U V).sum - (List.zipWith (· * ·) U V).sum) := by ring
        rw [e]
        have := abs_add_le (r (u * v) - u * v) ((List.zipWith (fun u v => r (u * v)) U V).sum - (List.zipWith (· * ·) U V).sum)
        linarith
      · have := abs_add_le (u * v) (List.zipWith (· * ·) U V).sum
        linarith

end Mizar.Rd
