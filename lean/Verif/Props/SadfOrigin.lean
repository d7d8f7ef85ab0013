import Mathlib.Analysis.Complex.ExponentialBounds
import Verif.Props.SadfHistory

/-!
Property theorems C126, continued: models whose regression depends on where the trend starts, for which more history does
lower the explosiveness statistic (`/repo/mizarlabs/structural_breaks/sadf.py` lines 90-237).
-/

namespace Mizar.Props
open Mizar.Spec Mizar.Brk

/-- The t-value has the sign of the coefficient, which is found from the normal equations. -/
theorem tValue_sign {k : ℕ} (w : List (RRow k)) (h : FullRank w) (hk : k < w.length) (hn : NoExactFit w) (c : Fin k → ℝ)
    (hc : ∀ i, (w.map fun r => r.1 i * predict c r.1).sum = (w.map fun r => r.1 i * r.2).sum) (j : Fin k) :
    ∃ S : ℝ, 0 < S ∧ ∀ r, IsTValue w j r ↔ r = c j / S := by
  have hd := (fullRank_iff w).1 h
  have hb : c = betaR w := by
    have e : (gram w).mulVec c = (gram w).mulVec (betaR w) := by
      funext i
      rw [gram_mulVec, gram_mulVec, hc i, normal_eq w hd i]
    have := congrArg ((gram w)⁻¹.mulVec) e
    simpa [Matrix.mulVec_mulVec, Matrix.nonsing_inv_mul _ (Ne.isUnit hd)] using this
  refine ⟨_, Real.sqrt_pos.2 (tValue_spec .numpy w h hk hn j).2, fun r => ?_⟩
  rw [isTValue_iff w h j r, hb]

/-- All windows are proper if the shortest one is. -/
theorem proper_of_last {k : ℕ} (w : List (RRow (k + 1))) (m n : ℕ) (hm : k + 1 < m) (hn : n + m = w.length)
    (h1 : FullRank (w.drop n)) (h2 : NoExactFit (w.drop n)) : Proper w m := by
  intro p hp
  have sub : ∀ r ∈ w.drop n, r ∈ w.drop p := by
    intro r hr
    rw [show n = p + (n - p) by omega, ← List.drop_drop] at hr
    exact List.mem_of_mem_drop hr
  refine ⟨?_, by rw [List.length_drop]; omega, ?_⟩
  · intro c hc
    exact h1 c fun r hr => hc r (sub r hr)
  · intro c
    obtain ⟨r, hr, hne⟩ := h2 c
    exact ⟨r, sub r hr, hne⟩

/-! ### A trend without a constant -/

/-- Levels 0, 0, 2, 1, 2, 3, 2, 1 at times 0 to 7. -/
def hump : List (ℤ × XF ℝ) :=
  [(0, .fin 0), (1, .fin 0), (2, .fin 2), (3, .fin 1), (4, .fin 2), (5, .fin 3), (6, .fin 2), (7, .fin 1)]

private def humpLong : List (ℤ × RRow 3) :=
  [(2, ![0, 0, 1], 2), (3, ![2, 2, 2], -1), (4, ![1, -1, 3], 1), (5, ![2, 1, 4], 1), (6, ![3, 1, 5], -1), (7, ![2, -1, 6], -1)]

private def humpShort : List (ℤ × RRow 3) :=
  [(3, ![2, 2, 1], -1), (4, ![1, -1, 2], 1), (5, ![2, 1, 3], 1), (6, ![3, 1, 4], -1), (7, ![2, -1, 5], -1)]

private theorem humpLong_design : getXy "linear" 1 false hump = .ok (2, humpLong.map liftL) := by
  have hc : Complete hump fun i => ([0, 0, 2, 1, 2, 3, 2, 1] : List ℝ).getD i 0 := by
    intro i hi
    simp only [hump, List.length_cons, List.length_nil] at hi
    match i, hi with
    | 0, _ => simp [hump]
    | 1, _ => simp [hump]
    | 2, _ => simp [hump]
    | 3, _ => simp [hump]
    | 4, _ => simp [hump]
    | 5, _ => simp [hump]
    | 6, _ => simp [hump]
    | 7, _ => simp [hump]
  have := C68_design_standard "linear" false _ (Or.inr (Or.inl ⟨rfl, rfl⟩)) hump _ hc 1 (le_refl _)
  rw [show ((1 : ℕ) : ℤ) = 1 from rfl] at this
  rw [this]
  simp [hump, humpLong, liftL, List.range_succ, dfRegressors]
  norm_num

private theorem humpShort_design : getXy "linear" 1 false (hump.drop 1) = .ok (2, humpShort.map liftL) := by
  have hc : Complete (hump.drop 1) fun i => ([0, 2, 1, 2, 3, 2, 1] : List ℝ).getD i 0 := by
    intro i hi
    simp only [hump, List.drop_succ_cons, List.drop_zero, List.length_cons, List.length_nil] at hi
    match i, hi with
    | 0, _ => simp [hump]
    | 1, _ => simp [hump]
    | 2, _ => simp [hump]
    | 3, _ => simp [hump]
    | 4, _ => simp [hump]
    | 5, _ => simp [hump]
    | 6, _ => simp [hump]
  have := C68_design_standard "linear" false _ (Or.inr (Or.inl ⟨rfl, rfl⟩)) (hump.drop 1) _ hc 1 (le_refl _)
  rw [show ((1 : ℕ) : ℤ) = 1 from rfl] at this
  rw [this]
  simp [hump, humpShort, liftL, List.range_succ, dfRegressors]
  norm_num

private theorem rank3 {w : List (RRow 3)} (h : ∀ c : Fin 3 → ℝ, (∀ r ∈ w, predict c r.1 = 0) → c 0 = 0 ∧ c 1 = 0 ∧ c 2 = 0) : FullRank w := by
  intro c hc
  obtain ⟨a, b, d⟩ := h c hc
  funext i
  fin_cases i
  · exact a
  · exact b
  · exact d

private theorem humpLong_proper : ∀ n, 4 < n → n ≤ humpLong.length → Proper ((humpLong.map (·.2)).take n) 4 := by
  intro n h1 h2
  have : n = 5 ∨ n = 6 := by
    simp [humpLong] at h2
    omega
  rcases this with rfl | rfl
  · apply proper_of_last _ 4 1 (by norm_num) (by simp [humpLong])
    · apply rank3
      intro c hc
      simp [humpLong, predict, Fin.sum_univ_three] at hc
      obtain ⟨e1, e2, e3, e4⟩ := hc
      refine ⟨?_, ?_, ?_⟩ <;> linarith
    · intro c
      by_contra hall
      push Not at hall
      simp [humpLong, predict, Fin.sum_univ_three] at hall
      obtain ⟨e1, e2, e3, e4⟩ := hall
      linarith
  · apply proper_of_last _ 4 2 (by norm_num) (by simp [humpLong])
    · apply rank3
      intro c hc
      simp [humpLong, predict, Fin.sum_univ_three] at hc
      obtain ⟨e1, e2, e3, e4⟩ := hc
      refine ⟨?_, ?_, ?_⟩ <;> linarith
    · intro c
      by_contra hall
      push Not at hall
      simp [humpLong, predict, Fin.sum_univ_three] at hall
      obtain ⟨e1, e2, e3, e4⟩ := hall
      linarith

private theorem humpShort_proper : ∀ n, 4 < n → n ≤ humpShort.length → Proper ((humpShort.map (·.2)).take n) 4 := by
  intro n h1 h2
  have : n = 5 := by
    simp [humpShort] at h2
    omega
  subst this
  apply proper_of_last _ 4 1 (by norm_num) (by simp [humpShort])
  · apply rank3
    intro c hc
    simp [humpShort, predict, Fin.sum_univ_three] at hc
    obtain ⟨e1, e2, e3, e4⟩ := hc
    refine ⟨?_, ?_, ?_⟩ <;> linarith
  · intro c
    by_contra hall
    push Not at hall
    simp [humpShort, predict, Fin.sum_univ_three] at hall
    obtain ⟨e1, e2, e3, e4⟩ := hall
    linarith

/-- C126 (trend without a constant, refuted): with a linear trend and no constant, one more value at the start turns the
statistic of the last bar from positive to negative; the regression through the origin depends on where the trend starts. -/
theorem C126_no_constant_refuted (em : ErrModel) (phi : ℝ) :
    ∃ (s : List (ℤ × XF ℝ)) (w v v' : ℝ), sadfRun em "linear" 1 4 false phi s = .ok [(6, .fin w), (7, .fin v)] ∧
      sadfRun em "linear" 1 4 false phi (s.drop 1) = .ok [(7, .fin v')] ∧ v < 0 ∧ 0 < v' := by
  obtain ⟨out, h1, h2, h3⟩ := C68_supremum em "linear" (by simp) 1 4 false phi hump 2 humpLong humpLong_design
    (by simp [humpLong]) humpLong_proper
  obtain ⟨out', h1', h2', h3'⟩ := C68_supremum em "linear" (by simp) 1 4 false phi (hump.drop 1) 2 humpShort humpShort_design
    (by simp [humpShort]) humpShort_proper
  obtain ⟨w, e0, -⟩ := h3 0 (by simp [humpLong])
  obtain ⟨v, e1, e2⟩ := h3 1 (by simp [humpLong])
  obtain ⟨v', e1', e2'⟩ := h3' 0 (by simp [humpShort])
  have hlen : out.length = 2 := by rw [h2]; simp [humpLong]
  have hlen' : out'.length = 1 := by rw [h2']; simp [humpShort]
  have hout : out = [(6, .fin w), (7, .fin v)] := by
    match out, hlen with
    | [a, b], _ => simp [humpLong] at e0 e1; rw [e0, e1]
  have hout' : out' = [(7, .fin v')] := by
    match out', hlen' with
    | [a], _ => simpa [humpShort] using e1'
  have hpl := humpLong_proper 6 (by norm_num) (by simp [humpLong])
  have hps := humpShort_proper 5 (by norm_num) (by simp [humpShort])
  rw [List.take_of_length_le (by simp [humpLong])] at e2 hpl
  rw [List.take_of_length_le (by simp [humpShort])] at e2' hps
  refine ⟨hump, w, v, v', by rw [h1, hout], by rw [h1', hout'], ?_, ?_⟩
  · obtain ⟨p, r, hp, hr, hv⟩ := e2.1
    change v = r at hv
    rw [hv]
    have : p = 0 ∨ p = 1 ∨ p = 2 := by
      simp [humpLong] at hp
      omega
    obtain ⟨a1, a2, a3⟩ := hpl p hp
    have key : ∀ c : Fin 3 → ℝ, (∀ i, (((humpLong.map (·.2)).drop p).map fun r => r.1 i * predict c r.1).sum =
        (((humpLong.map (·.2)).drop p).map fun r => r.1 i * r.2).sum) → c 0 < 0 → r < 0 := by
      intro c hc h0
      obtain ⟨S, hS, e⟩ := tValue_sign _ a1 a2 a3 c hc 0
      rw [(e r).1 hr]
      exact div_neg_of_neg_of_pos h0 hS
    rcases this with rfl | rfl | rfl
    · refine key ![-211 / 73, 95 / 73, 90 / 73] ?_ (by norm_num)
      intro i
      fin_cases i <;> simp [humpLong, predict, Fin.sum_univ_three] <;> norm_num
    · refine key ![-25 / 19, 9 / 19, 10 / 19] ?_ (by norm_num)
      intro i
      fin_cases i <;> simp [humpLong, predict, Fin.sum_univ_three] <;> norm_num
    · refine key ![-10 / 9, 5 / 9, 4 / 9] ?_ (by norm_num)
      intro i
      fin_cases i <;> simp [humpLong, predict, Fin.sum_univ_three] <;> norm_num
  · obtain ⟨a1, a2, a3⟩ := hps 1 (by simp [humpShort])
    obtain ⟨S, hS, e⟩ := tValue_sign _ a1 a2 a3 ![2 / 3, -1 / 3, -4 / 9] (by
      intro i
      fin_cases i <;> simp [humpShort, predict, Fin.sum_univ_three] <;> norm_num) 0
    have := e2'.2 ⟨1, _, by simp [humpShort], (e _).2 rfl, rfl⟩
    have hpos : (0 : ℝ) < (![2 / 3, -1 / 3, -4 / 9] : Fin 3 → ℝ) 0 / S := div_pos (by norm_num) hS
    exact lt_of_lt_of_le hpos this

/-! ### A quadratic trend without a constant -/

/-- Levels 0, 2, 2, 3, 3, 3, 3, 2, 2 at times 0 to 8. -/
def plateau : List (ℤ × XF ℝ) :=
  [(0, .fin 0), (1, .fin 2), (2, .fin 2), (3, .fin 3), (4, .fin 3), (5, .fin 3), (6, .fin 3), (7, .fin 2), (8, .fin 2)]

private def plateauLong : List (ℤ × RRow 4) :=
  [(2, ![2, 2, 1, 1], 0), (3, ![2, 0, 2, 4], 1), (4, ![3, 1, 3, 9], 0), (5, ![3, 0, 4, 16], 0), (6, ![3, 0, 5, 25], 0), (7, ![3, 0, 6, 36], -1), (8, ![2, -1, 7, 49], 0)]

private def plateauShort : List (ℤ × RRow 4) :=
  [(3, ![2, 0, 1, 1], 1), (4, ![3, 1, 2, 4], 0), (5, ![3, 0, 3, 9], 0), (6, ![3, 0, 4, 16], 0), (7, ![3, 0, 5, 25], -1), (8, ![2, -1, 6, 36], 0)]

private theorem plateauLong_design : getXy "quadratic" 1 false plateau = .ok (3, plateauLong.map liftL) := by
  have hc : Complete plateau fun i => ([0, 2, 2, 3, 3, 3, 3, 2, 2] : List ℝ).getD i 0 := by
    intro i hi
    simp only [plateau, List.length_cons, List.length_nil] at hi
    match i, hi with
    | 0, _ => simp [plateau]
    | 1, _ => simp [plateau]
    | 2, _ => simp [plateau]
    | 3, _ => simp [plateau]
    | 4, _ => simp [plateau]
    | 5, _ => simp [plateau]
    | 6, _ => simp [plateau]
    | 7, _ => simp [plateau]
    | 8, _ => simp [plateau]
  have := C68_design_standard "quadratic" false _ (Or.inr (Or.inr ⟨rfl, rfl⟩)) plateau _ hc 1 (le_refl _)
  rw [show ((1 : ℕ) : ℤ) = 1 from rfl] at this
  rw [this]
  simp [plateau, plateauLong, liftL, List.range_succ, dfRegressors]
  norm_num

private theorem plateauShort_design : getXy "quadratic" 1 false (plateau.drop 1) = .ok (3, plateauShort.map liftL) := by
  have hc : Complete (plateau.drop 1) fun i => ([2, 2, 3, 3, 3, 3, 2, 2] : List ℝ).getD i 0 := by
    intro i hi
    simp only [plateau, List.drop_succ_cons, List.drop_zero, List.length_cons, List.length_nil] at hi
    match i, hi with
    | 0, _ => simp [plateau]
    | 1, _ => simp [plateau]
    | 2, _ => simp [plateau]
    | 3, _ => simp [plateau]
    | 4, _ => simp [plateau]
    | 5, _ => simp [plateau]
    | 6, _ => simp [plateau]
    | 7, _ => simp [plateau]
  have := C68_design_standard "quadratic" false _ (Or.inr (Or.inr ⟨rfl, rfl⟩)) (plateau.drop 1) _ hc 1 (le_refl _)
  rw [show ((1 : ℕ) : ℤ) = 1 from rfl] at this
  rw [this]
  simp [plateau, plateauShort, liftL, List.range_succ, dfRegressors]
  norm_num

private theorem rank4 {w : List (RRow 4)} (h : ∀ c : Fin 4 → ℝ, (∀ r ∈ w, predict c r.1 = 0) → c 0 = 0 ∧ c 1 = 0 ∧ c 2 = 0 ∧ c 3 = 0) : FullRank w := by
  intro c hc
  obtain ⟨a, b, d, e⟩ := h c hc
  funext i
  fin_cases i
  · exact a
  · exact b
  · exact d
  · exact e

private theorem plateauLong_proper : ∀ n, 5 < n → n ≤ plateauLong.length → Proper ((plateauLong.map (·.2)).take n) 5 := by
  intro n h1 h2
  have : n = 6 ∨ n = 7 := by
    simp [plateauLong] at h2
    omega
  rcases this with rfl | rfl
  · apply proper_of_last _ 5 1 (by norm_num) (by simp [plateauLong])
    · apply rank4
      intro c hc
      simp [plateauLong, predict, Fin.sum_univ_four] at hc
      obtain ⟨e1, e2, e3, e4, e5⟩ := hc
      refine ⟨?_, ?_, ?_, ?_⟩ <;> linarith
    · intro c
      by_contra hall
      push Not at hall
      simp [plateauLong, predict, Fin.sum_univ_four] at hall
      obtain ⟨e1, e2, e3, e4, e5⟩ := hall
      linarith
  · apply proper_of_last _ 5 2 (by norm_num) (by simp [plateauLong])
    · apply rank4
      intro c hc
      simp [plateauLong, predict, Fin.sum_univ_four] at hc
      obtain ⟨e1, e2, e3, e4, e5⟩ := hc
      refine ⟨?_, ?_, ?_, ?_⟩ <;> linarith
    · intro c
      by_contra hall
      push Not at hall
      simp [plateauLong, predict, Fin.sum_univ_four] at hall
      obtain ⟨e1, e2, e3, e4, e5⟩ := hall
      linarith

private theorem plateauShort_proper : ∀ n, 5 < n → n ≤ plateauShort.length → Proper ((plateauShort.map (·.2)).take n) 5 := by
  intro n h1 h2
  have : n = 6 := by
    simp [plateauShort] at h2
    omega
  subst this
  apply proper_of_last _ 5 1 (by norm_num) (by simp [plateauShort])
  · apply rank4
    intro c hc
    simp [plateauShort, predict, Fin.sum_univ_four] at hc
    obtain ⟨e1, e2, e3, e4, e5⟩ := hc
    refine ⟨?_, ?_, ?_, ?_⟩ <;> linarith
  · intro c
    by_contra hall
    push Not at hall
    simp [plateauShort, predict, Fin.sum_univ_four] at hall
    obtain ⟨e1, e2, e3, e4, e5⟩ := hall
    linarith

/-- C126 (quadratic trend without a constant, refuted): one more value at the start turns the statistic of the last bar from positive to
negative. -/
theorem C126_quadratic_refuted (em : ErrModel) (phi : ℝ) :
    ∃ (s : List (ℤ × XF ℝ)) (w v v' : ℝ), sadfRun em "quadratic" 1 5 false phi s = .ok [(7, .fin w), (8, .fin v)] ∧
      sadfRun em "quadratic" 1 5 false phi (s.drop 1) = .ok [(8, .fin v')] ∧ v < 0 ∧ 0 < v' := by
  obtain ⟨out, h1, h2, h3⟩ := C68_supremum em "quadratic" (by simp) 1 5 false phi plateau 3 plateauLong plateauLong_design
    (by simp [plateauLong]) plateauLong_proper
  obtain ⟨out', h1', h2', h3'⟩ := C68_supremum em "quadratic" (by simp) 1 5 false phi (plateau.drop 1) 3 plateauShort plateauShort_design
    (by simp [plateauShort]) plateauShort_proper
  obtain ⟨w, e0, -⟩ := h3 0 (by simp [plateauLong])
  obtain ⟨v, e1, e2⟩ := h3 1 (by simp [plateauLong])
  obtain ⟨v', e1', e2'⟩ := h3' 0 (by simp [plateauShort])
  have hlen : out.length = 2 := by rw [h2]; simp [plateauLong]
  have hlen' : out'.length = 1 := by rw [h2']; simp [plateauShort]
  have hout : out = [(7, .fin w), (8, .fin v)] := by
    match out, hlen with
    | [a, b], _ => simp [plateauLong] at e0 e1; rw [e0, e1]
  have hout' : out' = [(8, .fin v')] := by
    match out', hlen' with
    | [a], _ => simpa [plateauShort] using e1'
  have hpl := plateauLong_proper 7 (by norm_num) (by simp [plateauLong])
  have hps := plateauShort_proper 6 (by norm_num) (by simp [plateauShort])
  rw [List.take_of_length_le (by simp [plateauLong])] at e2 hpl
  rw [List.take_of_length_le (by simp [plateauShort])] at e2' hps
  refine ⟨plateau, w, v, v', by rw [h1, hout], by rw [h1', hout'], ?_, ?_⟩
  · obtain ⟨p, r, hp, hr, hv⟩ := e2.1
    change v = r at hv
    rw [hv]
    have : p = 0 ∨ p = 1 ∨ p = 2 := by
      simp [plateauLong] at hp
      omega
    obtain ⟨a1, a2, a3⟩ := hpl p hp
    have key : ∀ c : Fin 4 → ℝ, (∀ i, (((plateauLong.map (·.2)).drop p).map fun r => r.1 i * predict c r.1).sum =
        (((plateauLong.map (·.2)).drop p).map fun r => r.1 i * r.2).sum) → c 0 < 0 → r < 0 := by
      intro c hc h0
      obtain ⟨S, hS, e⟩ := tValue_sign _ a1 a2 a3 c hc 0
      rw [(e r).1 hr]
      exact div_neg_of_neg_of_pos h0 hS
    rcases this with rfl | rfl | rfl
    · refine key ![-160 / 33, 61 / 33, 421 / 66, -15 / 22] ?_ (by norm_num)
      intro i
      fin_cases i <;> simp [plateauLong, predict, Fin.sum_univ_four] <;> norm_num
    · refine key ![-75 / 16, 17 / 16, 409 / 64, -45 / 64] ?_ (by norm_num)
      intro i
      fin_cases i <;> simp [plateauLong, predict, Fin.sum_univ_four] <;> norm_num
    · refine key ![-336 / 67, 111 / 67, 873 / 134, -93 / 134] ?_ (by norm_num)
      intro i
      fin_cases i <;> simp [plateauLong, predict, Fin.sum_univ_four] <;> norm_num
  · obtain ⟨a1, a2, a3⟩ := hps 1 (by simp [plateauShort])
    obtain ⟨S, hS, e⟩ := tValue_sign _ a1 a2 a3 ![68 / 67, -77 / 67, -179 / 134, 17 / 134] (by
      intro i
      fin_cases i <;> simp [plateauShort, predict, Fin.sum_univ_four] <;> norm_num) 0
    have := e2'.2 ⟨1, _, by simp [plateauShort], (e _).2 rfl, rfl⟩
    have hpos : (0 : ℝ) < (![68 / 67, -77 / 67, -179 / 134, 17 / 134] : Fin 4 → ℝ) 0 / S := div_pos (by norm_num) hS
    exact lt_of_lt_of_le hpos this

/-! ### The power model -/

/-- The slope of a regression on one variable and a constant. -/
private theorem slope_zero_iff (w : List (RRow 2)) (h1 : ∀ r ∈ w, r.1 1 = 1) (h : FullRank w) (hk : 2 < w.length) (hn : NoExactFit w)
    (r : ℝ) (hr : IsTValue w 0 r) :
    r = 0 ↔ (w.length : ℝ) * (w.map fun r => r.1 0 * r.2).sum = (w.map fun r => r.1 0).sum * (w.map fun r => r.2).sum := by
  have hd := (fullRank_iff w).1 h
  have hS := Real.sqrt_pos.2 (tValue_spec .numpy w h hk hn 0).2
  rw [(isTValue_iff w h 0 r).1 hr, div_eq_zero_iff, or_iff_left hS.ne']
  have n0 : (w.map fun r => r.1 0 * r.1 0).sum * betaR w 0 + (w.map fun r => r.1 0).sum * betaR w 1 = (w.map fun r => r.1 0 * r.2).sum := by
    rw [← normal_eq w hd 0]
    have : ∀ l : List (RRow 2), (∀ r ∈ l, r.1 1 = 1) → (l.map fun r => r.1 0 * r.1 0).sum * betaR w 0 + (l.map fun r => r.1 0).sum * betaR w 1 =
        (l.map fun r => r.1 0 * predict (betaR w) r.1).sum := by
      intro l hl
      induction l with
      | nil => simp
      | cons x l ih =>
        have e := ih fun r hr => hl r (List.mem_cons_of_mem _ hr)
        have hx := hl x List.mem_cons_self
        simp only [List.map_cons, List.sum_cons, predict, Fin.sum_univ_two, hx] at e ⊢
        rw [← e]; ring
    exact this w h1
  have n1 : (w.map fun r => r.1 0).sum * betaR w 0 + w.length * betaR w 1 = (w.map fun r => r.2).sum := by
    have e1 := normal_eq w hd 1
    have e2 : (w.map fun r => r.1 1 * r.2).sum = (w.map fun r => r.2).sum := by
      congr 1
      apply List.map_congr_left
      intro r hr; rw [h1 r hr, one_mul]
    rw [← e2, ← e1]
    have : ∀ l : List (RRow 2), (∀ r ∈ l, r.1 1 = 1) → (l.map fun r => r.1 0).sum * betaR w 0 + l.length * betaR w 1 =
        (l.map fun r => r.1 1 * predict (betaR w) r.1).sum := by
      intro l hl
      induction l with
      | nil => simp
      | cons x l ih =>
        have e := ih fun r hr => hl r (List.mem_cons_of_mem _ hr)
        have hx := hl x List.mem_cons_self
        simp only [List.map_cons, List.sum_cons, List.length_cons, predict, Fin.sum_univ_two, hx] at e ⊢
        rw [← e]; push_cast; ring
    exact this w h1
  have hdet : (w.map fun r => r.1 0 * r.1 0).sum * w.length - (w.map fun r => r.1 0).sum * (w.map fun r => r.1 0).sum ≠ 0 := by
    rw [Matrix.det_fin_two] at hd
    have g01 : gram w 0 1 = (w.map fun r => r.1 0).sum := by
      simp only [gram, Matrix.of_apply]
      congr 1
      apply List.map_congr_left
      intro r hr; rw [h1 r hr, mul_one]
    have g10 : gram w 1 0 = (w.map fun r => r.1 0).sum := by
      simp only [gram, Matrix.of_apply]
      congr 1
      apply List.map_congr_left
      intro r hr; rw [h1 r hr, one_mul]
    have g11 : gram w 1 1 = w.length := by
      simp only [gram, Matrix.of_apply]
      rw [List.map_congr_left (g := fun _ => (1 : ℝ)) (fun r hr => by rw [h1 r hr, one_mul])]
      simp
    rw [g01, g10, g11] at hd
    exact hd
  generalize (w.map fun r => r.1 0 * r.1 0).sum = A at *
  generalize (w.map fun r => r.1 0).sum = X at *
  generalize (w.map fun r => r.1 0 * r.2).sum = B at *
  generalize (w.map fun r => r.2).sum = Y at *
  generalize (w.length : ℝ) = n at *
  generalize betaR w 0 = b0 at *
  generalize betaR w 1 = b1 at *
  have : (A * n - X * X) * b0 = n * B - X * Y := by rw [← n0, ← n1]; ring
  constructor
  · intro hb
    rw [hb, mul_zero] at this
    linarith
  · intro hb
    rw [hb, sub_self] at this
    exact (mul_eq_zero.1 this).resolve_left hdet

private noncomputable def v2 : ℝ := Real.log (16 / 15)
private noncomputable def v3 : ℝ := Real.log (20 / 9)
private noncomputable def v1 : ℝ := (Real.log (27 / 40) * v2 + Real.log (64 / 30) * v3) / Real.log (60 / 8)
private noncomputable def v0 : ℝ := (Real.log (32 / 120) * v1 + Real.log (243 / 120) * v2 + Real.log (1024 / 120) * v3) / Real.log 120

/-- A series of positive values at times 0 to 4 that has no slope over any window, if time is counted from the first value. -/
noncomputable def flat : List (ℤ × XF ℝ) :=
  [(0, .fin (Real.exp v0)), (1, .fin (Real.exp v1)), (2, .fin (Real.exp v2)), (3, .fin (Real.exp v3)), (4, .fin (Real.exp 0))]

private noncomputable def flatLong : List (ℤ × RRow 2) :=
  [(0, ![Real.log 1, 1], v0), (1, ![Real.log 2, 1], v1), (2, ![Real.log 3, 1], v2), (3, ![Real.log 4, 1], v3), (4, ![Real.log 5, 1], 0)]

private noncomputable def flatShort : List (ℤ × RRow 2) :=
  [(1, ![Real.log 1, 1], v1), (2, ![Real.log 2, 1], v2), (3, ![Real.log 3, 1], v3), (4, ![Real.log 4, 1], 0)]

private theorem power_design (s : List (ℤ × XF ℝ)) (l : List ℝ) (h : s.map (·.2) = l.map fun x => .fin (Real.exp x)) :
    getXy "sm_power" 1 true s = .ok (1, (List.range s.length).map fun j : ℕ =>
      ((s.map (·.1)).getD j 0, [.fin (Real.log ((j : ℝ) + 1)), .fin 1], .fin (l.getD j 0))) := by
  have hlen : s.length = l.length := by rw [← List.length_map (f := (·.2)), h, List.length_map]
  have hc : Complete s fun i => Real.exp (l.getD i 0) := by
    intro i hi
    rw [h, List.getElem?_map, List.getElem?_eq_getElem (by omega)]
    simp [List.getD_eq_getElem?_getD, hlen ▸ hi]
  rw [C68_design_martingale "sm_power" true 1 s _ _ _ (Or.inr ⟨fun i => Real.exp_pos _, rfl, Or.inr (Or.inr ⟨rfl, rfl⟩)⟩) hc]
  simp only [Real.log_exp]
  rfl

private theorem flatLong_design : getXy "sm_power" 1 true flat = .ok (1, flatLong.map liftL) := by
  rw [power_design flat [v0, v1, v2, v3, 0] (by simp [flat])]
  simp [flat, flatLong, liftL, List.range_succ]
  norm_num

private theorem flatShort_design : getXy "sm_power" 1 true (flat.drop 1) = .ok (1, flatShort.map liftL) := by
  rw [power_design (flat.drop 1) [v1, v2, v3, 0] (by simp [flat])]
  simp [flat, flatShort, liftL, List.range_succ]
  norm_num

private theorem proper_of_turn (w : List (RRow 2)) (m n : ℕ) (hm : 3 ≤ m) (hn : n + m = w.length) (a b c u v x : ℝ) (h1 : (![a, 1], u) ∈ w.drop n)
    (h2 : (![b, 1], v) ∈ w.drop n) (h3 : (![c, 1], x) ∈ w.drop n) (hab : a < b) (hbc : b < c) (hne : (v - u) * (x - v) < 0) : Proper w m := by
  refine proper_of_last w m n (by omega) hn ?_ ?_
  · intro d hd
    have e1 := hd _ h1
    have e2 := hd _ h2
    simp [predict, Fin.sum_univ_two] at e1 e2
    have d0 : d 0 = 0 := by
      have : (b - a) * d 0 = 0 := by linarith
      exact (mul_eq_zero.1 this).resolve_left (by linarith)
    rw [d0, mul_zero, zero_add] at e1
    funext i
    fin_cases i
    · exact d0
    · exact e1
  · intro d
    by_contra hall
    push Not at hall
    have e1 := hall _ h1
    have e2 := hall _ h2
    have e3 := hall _ h3
    simp [predict, Fin.sum_univ_two] at e1 e2 e3
    have f1 : v - u = (b - a) * d 0 := by rw [e1, e2]; ring
    have f2 : x - v = (c - b) * d 0 := by rw [e2, e3]; ring
    rw [f1, f2] at hne
    have : 0 ≤ (b - a) * (c - b) * (d 0 * d 0) := mul_nonneg (mul_nonneg (by linarith) (by linarith)) (mul_self_nonneg _)
    linarith

private theorem log_bounds : 0 < v2 ∧ v2 ≤ 1 / 15 ∧ 3 / 4 < v3 ∧ 1 / 2 < Real.log (64 / 30) ∧ 0 < Real.log (60 / 8) ∧
    Real.log (60 / 8) - Real.log (27 / 40) < 3 := by
  have e1 := Real.exp_one_lt_d9
  have e2 := Real.exp_one_gt_d9
  have ee : ∀ (q : ℝ) (n : ℕ), Real.exp (n * q) = Real.exp q ^ n := fun q n => Real.exp_nat_mul q n
  refine ⟨Real.log_pos (by norm_num), ?_, ?_, ?_, Real.log_pos (by norm_num), ?_⟩
  · have := Real.log_le_sub_one_of_pos (show (0 : ℝ) < 16 / 15 by norm_num)
    unfold v2; linarith
  · unfold v3
    rw [Real.lt_log_iff_exp_lt (by norm_num)]
    have h : Real.exp (3 / 4) ^ 4 < (20 / 9) ^ 4 := by
      rw [← ee, show ((4 : ℕ) : ℝ) * (3 / 4) = (3 : ℕ) * 1 by norm_num, ee]
      calc Real.exp 1 ^ 3 < 2.7182818286 ^ 3 := pow_lt_pow_left₀ e1 (Real.exp_pos _).le (by norm_num)
        _ < _ := by norm_num
    exact lt_of_pow_lt_pow_left₀ 4 (by norm_num) h
  · rw [Real.lt_log_iff_exp_lt (by norm_num)]
    have h : Real.exp (1 / 2) ^ 2 < (64 / 30) ^ 2 := by
      rw [← ee, show ((2 : ℕ) : ℝ) * (1 / 2) = 1 by norm_num]
      exact e1.trans (by norm_num)
    exact lt_of_pow_lt_pow_left₀ 2 (by norm_num) h
  · rw [← Real.log_div (by norm_num) (by norm_num), Real.log_lt_iff_lt_exp (by norm_num),
      show (3 : ℝ) = (3 : ℕ) * 1 by norm_num, ee]
    calc (60 / 8 / (27 / 40) : ℝ) < 2.7182818283 ^ 3 := by norm_num
      _ < _ := pow_lt_pow_left₀ e2 (by norm_num) (by norm_num)

private theorem v_order : v2 < v1 ∧ v2 < v3 ∧ 0 < v3 := by
  obtain ⟨b1, b2, b3, b4, b5, b6⟩ := log_bounds
  refine ⟨?_, by linarith, by linarith⟩
  unfold v1
  rw [lt_div_iff₀ b5]
  have h1 : (Real.log (60 / 8) - Real.log (27 / 40)) * v2 < 3 * (1 / 15) := by
    calc _ < 3 * v2 := mul_lt_mul_of_pos_right b6 b1
      _ ≤ _ := by linarith
  have h2 : 1 / 2 * (3 / 4) < Real.log (64 / 30) * v3 := by
    apply mul_lt_mul'' b4 b3 <;> norm_num
  linarith

private theorem flatLong_proper : ∀ n, 3 < n → n ≤ flatLong.length → Proper ((flatLong.map (·.2)).take n) 3 := by
  intro n h1 h2
  obtain ⟨o1, o2, o3⟩ := v_order
  have l23 : Real.log 2 < Real.log 3 := Real.log_lt_log (by norm_num) (by norm_num)
  have l34 : Real.log 3 < Real.log 4 := Real.log_lt_log (by norm_num) (by norm_num)
  have l45 : Real.log 4 < Real.log 5 := Real.log_lt_log (by norm_num) (by norm_num)
  have : n = 4 ∨ n = 5 := by
    simp [flatLong] at h2
    omega
  rcases this with rfl | rfl
  · exact proper_of_turn _ 3 1 (le_refl _) (by simp [flatLong]) (Real.log 2) (Real.log 3) (Real.log 4) v1 v2 v3 (by simp [flatLong])
      (by simp [flatLong]) (by simp [flatLong]) l23 l34 (mul_neg_of_neg_of_pos (by linarith) (by linarith))
  · exact proper_of_turn _ 3 2 (le_refl _) (by simp [flatLong]) (Real.log 3) (Real.log 4) (Real.log 5) v2 v3 0 (by simp [flatLong])
      (by simp [flatLong]) (by simp [flatLong]) l34 l45 (mul_neg_of_pos_of_neg (by linarith) (by linarith))

private theorem flatShort_proper : ∀ n, 3 < n → n ≤ flatShort.length → Proper ((flatShort.map (·.2)).take n) 3 := by
  intro n h1 h2
  obtain ⟨o1, o2, o3⟩ := v_order
  have l23 : Real.log 2 < Real.log 3 := Real.log_lt_log (by norm_num) (by norm_num)
  have l34 : Real.log 3 < Real.log 4 := Real.log_lt_log (by norm_num) (by norm_num)
  have : n = 4 := by
    simp [flatShort] at h2
    omega
  subst this
  exact proper_of_turn _ 3 1 (le_refl _) (by simp [flatShort]) (Real.log 2) (Real.log 3) (Real.log 4) v2 v3 0 (by simp [flatShort])
      (by simp [flatShort]) (by simp [flatShort]) l23 l34 (mul_neg_of_pos_of_neg (by linarith) (by linarith))

/-- C126 (power model, refuted): with `sm_power` more history does lower a statistic, with every penalty: the regressor is the
logarithm of the time since the start of the series, so the same bars get another slope.  Here no window of the longer series
has a slope, and the last three bars have one without the first value. -/
theorem C126_power_refuted (em : ErrModel) (phi : ℝ) :
    ∃ (s : List (ℤ × XF ℝ)) (w v' : ℝ), sadfRun em "sm_power" 1 3 true phi s = .ok [(3, .fin w), (4, .fin 0)] ∧
      sadfRun em "sm_power" 1 3 true phi (s.drop 1) = .ok [(4, .fin v')] ∧ 0 < v' := by
  obtain ⟨out, h1, h2, h3⟩ := C68_penalty_partial em "sm_power" (by simp) 1 3 true phi flat 1 flatLong flatLong_design
    (by simp [flatLong]) flatLong_proper
  obtain ⟨out', h1', h2', h3'⟩ := C68_penalty_partial em "sm_power" (by simp) 1 3 true phi (flat.drop 1) 1 flatShort flatShort_design
    (by simp [flatShort]) flatShort_proper
  obtain ⟨w, e0, -⟩ := h3 0 (by simp [flatLong])
  obtain ⟨v, e1, e2⟩ := h3 1 (by simp [flatLong])
  obtain ⟨v', e1', e2'⟩ := h3' 0 (by simp [flatShort])
  have hlen : out.length = 2 := by rw [h2]; simp [flatLong]
  have hlen' : out'.length = 1 := by rw [h2']; simp [flatShort]
  have hout : out = [(3, .fin w), (4, .fin v)] := by
    match out, hlen with
    | [a, b], _ => simp [flatLong] at e0 e1; rw [e0, e1]
  have hout' : out' = [(4, .fin v')] := by
    match out', hlen' with
    | [a], _ => simpa [flatShort] using e1'
  have hpl := flatLong_proper 5 (by norm_num) (by simp [flatLong])
  have hps := flatShort_proper 4 (by norm_num) (by simp [flatShort])
  rw [List.take_of_length_le (by simp [flatLong])] at e2 hpl
  rw [List.take_of_length_le (by simp [flatShort])] at e2' hps
  obtain ⟨b1, b2, b3, b4, b5, b6⟩ := log_bounds
  have q16 : v2 = 4 * Real.log 2 - Real.log 3 - Real.log 5 := by
    unfold v2
    rw [Real.log_div (by norm_num) (by norm_num), show (16 : ℝ) = 2 ^ 4 by norm_num, show (15 : ℝ) = 3 * 5 by norm_num, Real.log_pow,
      Real.log_mul (by norm_num) (by norm_num)]
    push_cast; ring
  have q20 : v3 = 2 * Real.log 2 + Real.log 5 - 2 * Real.log 3 := by
    unfold v3
    rw [Real.log_div (by norm_num) (by norm_num), show (20 : ℝ) = 2 ^ 2 * 5 by norm_num, show (9 : ℝ) = 3 ^ 2 by norm_num,
      Real.log_mul (by norm_num) (by norm_num), Real.log_pow, Real.log_pow]
    push_cast; ring
  have q27 : Real.log (27 / 40) = 3 * Real.log 3 - 3 * Real.log 2 - Real.log 5 := by
    rw [Real.log_div (by norm_num) (by norm_num), show (27 : ℝ) = 3 ^ 3 by norm_num, show (40 : ℝ) = 2 ^ 3 * 5 by norm_num,
      Real.log_mul (by norm_num) (by norm_num), Real.log_pow, Real.log_pow]
    push_cast; ring
  have q64 : Real.log (64 / 30) = 5 * Real.log 2 - Real.log 3 - Real.log 5 := by
    rw [show (64 / 30 : ℝ) = 2 ^ 5 / (3 * 5) by norm_num, Real.log_div (by norm_num) (by norm_num),
      Real.log_mul (by norm_num) (by norm_num), Real.log_pow]
    push_cast; ring
  have q60 : Real.log (60 / 8) = Real.log 3 + Real.log 5 - Real.log 2 := by
    rw [show (60 / 8 : ℝ) = 3 * 5 / 2 by norm_num, Real.log_div (by norm_num) (by norm_num),
      Real.log_mul (by norm_num) (by norm_num)]
  have q32 : Real.log (32 / 120) = 2 * Real.log 2 - Real.log 3 - Real.log 5 := by
    rw [show (32 / 120 : ℝ) = 2 ^ 2 / (3 * 5) by norm_num, Real.log_div (by norm_num) (by norm_num),
      Real.log_mul (by norm_num) (by norm_num), Real.log_pow]
    push_cast; ring
  have q243 : Real.log (243 / 120) = 4 * Real.log 3 - 3 * Real.log 2 - Real.log 5 := by
    rw [show (243 / 120 : ℝ) = 3 ^ 4 / (2 ^ 3 * 5) by norm_num, Real.log_div (by norm_num) (by norm_num),
      Real.log_mul (by norm_num) (by norm_num), Real.log_pow, Real.log_pow]
    push_cast; ring
  have q1024 : Real.log (1024 / 120) = 7 * Real.log 2 - Real.log 3 - Real.log 5 := by
    rw [show (1024 / 120 : ℝ) = 2 ^ 7 / (3 * 5) by norm_num, Real.log_div (by norm_num) (by norm_num),
      Real.log_mul (by norm_num) (by norm_num), Real.log_pow]
    push_cast; ring
  have q120 : Real.log 120 = 3 * Real.log 2 + Real.log 3 + Real.log 5 := by
    rw [show (120 : ℝ) = 2 ^ 3 * 3 * 5 by norm_num, Real.log_mul (by norm_num) (by norm_num),
      Real.log_mul (by norm_num) (by norm_num), Real.log_pow]
    push_cast; ring
  have q4 : Real.log 4 = 2 * Real.log 2 := by
    rw [show (4 : ℝ) = 2 ^ 2 by norm_num, Real.log_pow]; push_cast; ring
  have hv1 : Real.log (60 / 8) * v1 = Real.log (27 / 40) * v2 + Real.log (64 / 30) * v3 := by
    unfold v1; rw [mul_div_cancel₀ _ b5.ne']
  have hv0 : Real.log 120 * v0 = Real.log (32 / 120) * v1 + Real.log (243 / 120) * v2 + Real.log (1024 / 120) * v3 := by
    have : 0 < Real.log 120 := Real.log_pos (by norm_num)
    unfold v0; rw [mul_div_cancel₀ _ this.ne']
  rw [q60, q27, q64] at hv1
  rw [q120, q32, q243, q1024] at hv0
  have hone : ∀ p, ∀ r ∈ (flatLong.map (·.2)).drop p, r.1 1 = 1 := by
    intro p r hr
    have := List.mem_of_mem_drop hr
    simp only [flatLong, List.map_cons, List.map_nil, List.mem_cons, List.not_mem_nil, or_false] at this
    rcases this with rfl | rfl | rfl | rfl | rfl <;> rfl
  have hone' : ∀ p, ∀ r ∈ (flatShort.map (·.2)).drop p, r.1 1 = 1 := by
    intro p r hr
    have := List.mem_of_mem_drop hr
    simp only [flatShort, List.map_cons, List.map_nil, List.mem_cons, List.not_mem_nil, or_false] at this
    rcases this with rfl | rfl | rfl | rfl <;> rfl
  have hv : v = 0 := by
    obtain ⟨p, r, hp, hr, hv⟩ := e2.1
    obtain ⟨a1, a2, a3⟩ := hpl p hp
    have hz := (slope_zero_iff _ (hone p) a1 a2 a3 r hr).2
    have : p = 0 ∨ p = 1 ∨ p = 2 := by
      simp [flatLong] at hp
      omega
    have hr0 : r = 0 := by
      apply hz
      rcases this with rfl | rfl | rfl
      · simp only [flatLong, List.map_cons, List.map_nil, List.drop_zero, List.length_cons, List.length_nil, List.sum_cons,
          List.sum_nil, Matrix.cons_val_zero, Real.log_one, q4]
        push_cast
        linear_combination (-1 : ℝ) * hv0
      · simp only [flatLong, List.map_cons, List.map_nil, List.drop_succ_cons, List.drop_zero, List.length_cons, List.length_nil, List.sum_cons,
          List.sum_nil, Matrix.cons_val_zero, q4]
        push_cast
        linear_combination (-1 : ℝ) * hv1
      · simp only [flatLong, List.map_cons, List.map_nil, List.drop_succ_cons, List.drop_zero, List.length_cons, List.length_nil, List.sum_cons,
          List.sum_nil, Matrix.cons_val_zero, q4]
        push_cast
        rw [q16, q20]
        ring
    rw [hv, hr0]
    simp
  subst hv
  refine ⟨flat, w, v', by rw [h1, hout], by rw [h1', hout'], ?_⟩
  obtain ⟨a1, a2, a3⟩ := hps 1 (by simp [flatShort])
  obtain ⟨r, -, hr, -⟩ := C67_t_value em _ a1 a2 a3 0
  have hz := (slope_zero_iff _ (hone' 1) a1 a2 a3 r hr).1
  have hr0 : r ≠ 0 := by
    intro h0
    have := hz h0
    simp only [flatShort, List.map_cons, List.map_nil, List.drop_succ_cons, List.drop_zero, List.length_cons, List.length_nil, List.sum_cons,
      List.sum_nil, Matrix.cons_val_zero, q4] at this
    push_cast at this
    have e : (2 * Real.log 3 - 3 * Real.log 2) * v3 = Real.log 3 * v2 := by linear_combination this
    have l9 : 1 / 9 ≤ 2 * Real.log 3 - 3 * Real.log 2 := by
      have h := Real.one_sub_inv_le_log_of_pos (show (0 : ℝ) < 9 / 8 by norm_num)
      rw [show (9 / 8 : ℝ) = 3 ^ 2 / 2 ^ 3 by norm_num, Real.log_div (by norm_num) (by norm_num), Real.log_pow, Real.log_pow] at h
      push_cast at h
      norm_num at h ⊢
      linarith
    have l3 : Real.log 3 < 9 / 8 := by
      rw [Real.log_lt_iff_lt_exp (by norm_num)]
      have h : (3 : ℝ) ^ 8 < Real.exp (9 / 8) ^ 8 := by
        rw [← Real.exp_nat_mul, show ((8 : ℕ) : ℝ) * (9 / 8) = (9 : ℕ) * 1 by norm_num, Real.exp_nat_mul]
        calc (3 : ℝ) ^ 8 < 2.7182818283 ^ 9 := by norm_num
          _ < _ := pow_lt_pow_left₀ Real.exp_one_gt_d9 (by norm_num) (by norm_num)
      exact lt_of_pow_lt_pow_left₀ 8 (Real.exp_pos _).le h
    have f1 : 1 / 9 * (3 / 4) < (2 * Real.log 3 - 3 * Real.log 2) * v3 := by
      apply mul_lt_mul' l9 b3 (by norm_num) (by linarith)
    have f2 : Real.log 3 * v2 < 9 / 8 * (1 / 15) := by
      calc _ < 9 / 8 * v2 := mul_lt_mul_of_pos_right l3 b1
        _ ≤ _ := by linarith
    rw [e] at f1
    linarith
  have hge := e2'.2 ⟨1, r, by simp [flatShort], hr, rfl⟩
  refine lt_of_lt_of_le ?_ hge
  exact div_pos (abs_pos.2 hr0) (Real.rpow_pos_of_pos (by norm_num) _)

end Mizar.Props
