import Verif.Lemmas.RoundedDailyVol
import Verif.Props.Volatility

/-!
Property theorems C135: the daily volatility in floating point (`get_daily_vol`,
`/repo/mizarlabs/transformers/targets/labeling.py` lines 438-463).
-/

namespace Mizar.Props
open Mizar.Spec Mizar.Rd Mizar.Lab

section exact
variable {K : Type} [Field K] [LinearOrder K] [IsStrictOrderedRing K]

omit [IsStrictOrderedRing K] in
private theorem rnd_id (x : XF K) : rnd id x = x := by cases x <;> rfl

private theorem factor_id (span : ℕ) : ewmFactor (id : K → K) span = 1 - ewmAlpha span := by
  have h : (span : K) + 1 ≠ 0 := by positivity
  simp only [ewmFactor, id, ewmAlpha]
  congr 1
  rw [show 1 + ((span : K) - 1) / 2 = (span + 1) / 2 by ring, one_div_div]

private theorem ewmVarR_id (span : ℕ) (l : List (XF K)) : ewmVarR id span l = ewmVar (ewmAlpha span) l := by
  have h1 : ∀ a : K, ewmVarStepR id (1 - a) = ewmVarStep a := by
    intro a
    funext s x
    simp only [ewmVarStepR, ewmVarStep, rnd_id, id]
  have h2 : ewmVarOutR (id : K → K) = ewmVarOut := by
    funext s
    simp only [ewmVarOutR, ewmVarOut, rnd_id, id]
  rw [ewmVarR, ewmVar, factor_id, h1, h2]

private theorem sqrt_id (span : ℕ) (hs : 1 ≤ span) (l : List (XF ℝ)) :
    (ewmVar (ewmAlpha span) l).map (rnd Real.sqrt) = ewmStd (ewmAlpha span) l := by
  unfold ewmStd
  apply List.map_congr_left
  intro y hy
  obtain ⟨i, hi, rfl⟩ := List.getElem_of_mem hy
  have hil : i < l.length := by rwa [ewmVar_length] at hi
  have key : (ewmVar (ewmAlpha span) l)[i]? = some .nan ∨ ∃ v, 0 ≤ v ∧ (ewmVar (ewmAlpha span) l)[i]? = some (.fin v) := by
    rcases Nat.lt_or_ge span 2 with h1 | h2
    · obtain rfl : span = 1 := by omega
      exact Or.inl (C100_span_one l i hil)
    · obtain ⟨a, b⟩ := C100_weighted_variance span h2 l i hil
      by_cases h : ∃ a b, a < b ∧ b ≤ i ∧ finAt l a ≠ none ∧ finAt l b ≠ none
      · exact Or.inr ⟨_, (a h).2.1, (a h).1⟩
      · push Not at h
        left
        apply b
        intro a b h1 h2
        by_cases ha : finAt l a = none
        · exact Or.inl ha
        · exact Or.inr (h a b h1 h2 ha)
  rw [List.getElem?_eq_getElem hi] at key
  rcases key with h | ⟨v, hv, h⟩
  · rw [Option.some.inj h]; rfl
  · rw [Option.some.inj h, rnd, XF.sqrt, if_neg (not_lt.2 hv)]

/-- C135: without rounding these are the variances and the volatility column of the exact model. -/
theorem C135_exact (span : ℕ) (times : List ℤ) (close : List (XF K)) :
    dailyVarColumnR id span times close = dailyVolColumn (ewmVar (ewmAlpha span)) times close ∧
    (1 ≤ span → ∀ close : List (XF ℝ),
      dailyVolColumnR id Real.sqrt span times close = dailyVolColumn (ewmStd (ewmAlpha span)) times close) := by
  constructor
  · simp only [dailyVarColumnR, dailyVolColumn, getDailyVol, dailyReturnsR, dailyReturns, rnd_id, ewmVarR_id]
  · intro hs close
    simp only [dailyVolColumnR, dailyVolColumn, getDailyVol, dailyReturnsR, dailyReturns, rnd_id, ewmStdR, ewmVarR_id]
    congr 2
    exact sqrt_id span hs _

end exact

private theorem ewmVarR_length (r : ℚ → ℚ) (span : ℕ) (l : List (XF ℚ)) : (ewmVarR r span l).length = l.length := by
  rw [ewmVarR, scanMap_length, List.length_map]

private theorem var_at (r : ℚ → ℚ) (span : ℕ) (l : List (XF ℚ)) (i : ℕ) (hi : i < l.length) : (ewmVarR r span l).getD i .nan =
    ewmVarOutR r (((l.map XF.prep).take (i + 1)).foldl (ewmVarStepR r (ewmFactor r span)) ⟨.nan, .fin 0, 1, 1, 1⟩) := by
  rw [List.getD_eq_getElem?_getD, ewmVarR, scanMap_getElem? _ _ _ _ _ (by simpa using hi), Option.getD_some]

private theorem mem_prefix (l : List (XF ℚ)) (i : ℕ) (q : ℚ) :
    (.fin q : XF ℚ) ∈ (l.map XF.prep).take (i + 1) ↔ ∃ j ≤ i, l[j]? = some (.fin q) := by
  rw [List.mem_iff_getElem?]
  constructor
  · rintro ⟨j, hj⟩
    have hji : j < i + 1 := by
      by_contra h
      rw [List.getElem?_take_eq_none (by omega)] at hj
      cases hj
    rw [List.getElem?_take_of_lt hji, List.getElem?_map] at hj
    refine ⟨j, by omega, ?_⟩
    cases h : l[j]? with
    | none => rw [h] at hj; cases hj
    | some x =>
      rw [h] at hj
      cases x <;> simp [XF.prep, XF.isInf] at hj
      rw [hj]
  · rintro ⟨j, hj, e⟩
    exact ⟨j, by rw [List.getElem?_take_of_lt (by omega), List.getElem?_map, e]; simp [XF.prep, XF.isInf]⟩

/-- C135: a variance with rounding is missing or a number that is not negative; it is 0 exactly if all returns so far are the
same number. -/
theorem C135_zero (p : ℕ) (hp : 2 ≤ p) (span : ℕ) (hs : 2 ≤ span) (l : List (XF ℚ)) (i : ℕ) (hi : i < l.length) :
    (ewmVarR (roundBits p) span l).getD i .nan = .nan ∨
    ∃ a, (ewmVarR (roundBits p) span l).getD i .nan = .fin a ∧ 0 ≤ a ∧
      (a = 0 ↔ ∀ j k x y, j ≤ i → k ≤ i → l[j]? = some (.fin x) → l[k]? = some (.fin y) → x = y) := by
  have hp1 : 1 ≤ p := by omega
  rw [var_at _ span l i hi]
  have h := varSign_fold hp1 (ewmFactor_pos hp hs) ((l.map XF.prep).take (i + 1)) (fun x hx => by
    obtain ⟨y, -, rfl⟩ := List.mem_map.1 (List.mem_of_mem_take hx)
    cases y <;> rfl)
  generalize ((l.map XF.prep).take (i + 1)).foldl (ewmVarStepR (roundBits p) (ewmFactor (roundBits p) span))
    ⟨.nan, .fin 0, 1, 1, 1⟩ = s at h
  obtain ⟨-, hw, h⟩ := h
  have hn : 0 < roundBits p (s.sumWt * s.sumWt) := roundBits_pos p hp1 (mul_pos hw hw)
  unfold ewmVarOutR
  rcases h with ⟨h1, -⟩ | ⟨v, h1, h2, -, h4⟩ | ⟨a, c, x, y, h1, h2, h3, h4, h5, h6⟩
  · left; simp [h1, XF.isNan]
  · by_cases hd : 0 < roundBits p (roundBits p (s.sumWt * s.sumWt) - s.sumWt2)
    · right
      refine ⟨0, by simp [h1, h2, XF.isNan, hd, XF.mul, rnd, roundBits_zero], le_rfl, fun _ => ?_, fun _ => rfl⟩
      intro j k x y hj hk hx hy
      rw [h4 x ((mem_prefix l i x).2 ⟨j, hj, hx⟩), h4 y ((mem_prefix l i y).2 ⟨k, hk, hy⟩)]
    · left; simp [h1, XF.isNan, hd]
  · by_cases hd : 0 < roundBits p (roundBits p (s.sumWt * s.sumWt) - s.sumWt2)
    · right
      have hpos := roundBits_pos p hp1 (mul_pos (roundBits_pos p hp1 (div_pos hn hd)) h3)
      refine ⟨_, by simp only [h1, h2, XF.isNan, hd, XF.mul, rnd, Bool.false_eq_true, if_false, if_true], hpos.le,
        fun e => absurd e hpos.ne', fun hall => ?_⟩
      obtain ⟨j, hj, ej⟩ := (mem_prefix l i x).1 h4
      obtain ⟨k, hk, ek⟩ := (mem_prefix l i y).1 h5
      exact absurd (hall j k x y hj hk ej ek) h6
    · left; simp [h1, XF.isNan, hd]

/-- Equal returns, then another one (the exact variance there is 5/11). -/
example : ewmVarR (roundBits 53) 3 [.fin 1, .nan, .fin 1, .fin 0] =
    [.nan, .nan, .fin 0, .fin (8188362958855449 / 18014398509481984)] := by decide +kernel

private theorem drift_fold {r : ℚ → ℚ} {ε M S q : ℚ} (he0 : 0 ≤ ε) (hM : 0 ≤ M) (hS : 1 ≤ S) (hSε : 4096 * (S * S * S) * ε ≤ 1)
    (hr : ∀ x, |r x - x| ≤ ε * |x|) (hq0 : 0 ≤ q) (hq : |q - (1 - 1 / S)| ≤ 4 * ε) (x : ℚ) (hx : |x| ≤ M) (m : List ℚ)
    (hm : ∀ y ∈ m, |y| ≤ M) :
    (∃ a b ch c, VarClose ε M S ((m.map XF.fin).foldl (ewmVarStepR r q) ⟨.fin x, .fin 0, 1, 1, 1⟩)
      ((m.map XF.fin).foldl (ewmVarStep (1 / S)) ⟨.fin x, .fin 0, 1, 1, 1⟩) a b ch c) ∧
    (m ≠ [] → 3 / 2 ≤ S → 4 / 3 ≤ ((m.map XF.fin).foldl (ewmVarStep (1 / S)) ⟨.fin x, .fin 0, 1, 1, 1⟩).oldWt) := by
  induction m using List.reverseRecOn with
  | nil =>
    have h1 : x * x ≤ M * M := by
      rw [← abs_mul_abs_self x]
      exact mul_le_mul hx hx (abs_nonneg _) hM
    have hS0 : 0 ≤ S := by linarith
    refine ⟨⟨x, x, 0, 0, ?_⟩, fun h => absurd rfl h⟩
    constructor <;> first | rfl | exact hx | exact hS | norm_num | skip
    all_goals first | positivity | linarith
  | append_singleton m y ih =>
    obtain ⟨⟨a, b, ch, c, h⟩, -⟩ := ih fun z hz => hm z (by simp [hz])
    have := varClose_step he0 hM hS hSε hr hq0 hq h y (hm y (by simp))
    rw [List.map_append, List.foldl_append, List.foldl_append]
    exact ⟨this.1, fun _ => this.2⟩

private theorem fold_take (f : EwmVarSt ℚ → XF ℚ → EwmVarSt ℚ) (hf : ∀ x, f ⟨.nan, .fin 0, 1, 1, 1⟩ (.fin x) = ⟨.fin x, .fin 0, 1, 1, 1⟩)
    (x : ℚ) (xs : List ℚ) (i : ℕ) : ((((x :: xs).map XF.fin).map XF.prep).take (i + 1)).foldl f ⟨.nan, .fin 0, 1, 1, 1⟩ =
      ((xs.take i).map XF.fin).foldl f ⟨.fin x, .fin 0, 1, 1, 1⟩ := by
  have h : ∀ l : List ℚ, (l.map XF.fin).map XF.prep = l.map XF.fin := by
    intro l
    rw [List.map_map]
    rfl
  rw [h, List.map_cons, List.take_succ_cons, List.foldl_cons, hf, List.map_take]

private theorem round_rel {p : ℕ} (hp : 1 ≤ p) (x : ℚ) : |roundBits p x - x| ≤ 1 / 2 ^ p * |x| := by
  have := roundBits_error p hp x
  rw [div_eq_mul_inv, mul_comm, ← one_div] at this
  exact this

private theorem one_le_of {p span : ℕ} (hp : 512 * (span + 1) ^ 3 ≤ 2 ^ p) : 2 ≤ p := by
  by_contra h
  have h1 : (2 : ℕ) ^ p ≤ 2 ^ 1 := pow_le_pow_right₀ (by norm_num) (by omega)
  have : 0 < (span + 1) ^ 3 := by positivity
  omega

private theorem alpha_inv (span : ℕ) : (ewmAlpha span : ℚ) = 1 / (((span : ℚ) + 1) / 2) := by rw [ewmAlpha, one_div_div]

/-- C135: from the second return on, the variance of complete returns is a number, off by at most
`613 (span+1)³ M² / 2^p`, where `M` bounds the returns.  The bound does not grow with the position. -/
theorem C135_drift (p span : ℕ) (hs : 2 ≤ span) (hp : 512 * (span + 1) ^ 3 ≤ 2 ^ p) (xs : List ℚ) (M : ℚ)
    (hM : ∀ x ∈ xs, |x| ≤ M) (i : ℕ) (hi : i < xs.length) :
    (i = 0 → (ewmVarR (roundBits p) span (xs.map .fin)).getD i .nan = .nan ∧
      (ewmVar (ewmAlpha span) (xs.map .fin)).getD i .nan = .nan) ∧
    (1 ≤ i → ∃ a b, (ewmVarR (roundBits p) span (xs.map .fin)).getD i .nan = .fin a ∧
      (ewmVar (ewmAlpha span) (xs.map .fin)).getD i .nan = .fin b ∧ 0 ≤ a ∧ 0 ≤ b ∧
      |a - b| ≤ 613 * (span + 1) ^ 3 * M ^ 2 / 2 ^ p) := by
  cases xs with
  | nil => simp at hi
  | cons x xs =>
  have hp2 := one_le_of hp
  have hp1 : 1 ≤ p := by omega
  have hs' : (2 : ℚ) ≤ span := by exact_mod_cast hs
  have hP : (0 : ℚ) < 2 ^ p := by positivity
  have he0 : (0 : ℚ) ≤ 1 / 2 ^ p := by positivity
  have hS : (1 : ℚ) ≤ ((span : ℚ) + 1) / 2 := by linarith
  have hSε : 4096 * ((((span : ℚ) + 1) / 2) * (((span : ℚ) + 1) / 2) * (((span : ℚ) + 1) / 2)) * (1 / 2 ^ p) ≤ 1 := by
    rw [mul_one_div, div_le_one hP]
    have : (512 * ((span : ℚ) + 1) ^ 3) ≤ 2 ^ p := by exact_mod_cast hp
    linarith
  have hx := hM x (by simp)
  have hM0 : 0 ≤ M := (abs_nonneg _).trans hx
  have hr := round_rel hp1
  obtain ⟨-, -, -, -, -, -, h64⟩ := eps_units he0 hS hSε
  have hq := factor_near he0 (eps_small he0 hS h64) hr hS span rfl
  have hq0 : 0 ≤ ewmFactor (roundBits p) span := (ewmFactor_pos hp2 hs).le
  have hil : i < ((x :: xs).map XF.fin).length := by simpa using hi
  have eR := var_at (roundBits p) span ((x :: xs).map XF.fin) i hil
  rw [fold_take _ (fun _ => rfl)] at eR
  have eE : (ewmVar (ewmAlpha span) ((x :: xs).map XF.fin)).getD i .nan = ewmVarOut (((xs.take i).map XF.fin).foldl
      (ewmVarStep (1 / (((span : ℚ) + 1) / 2))) ⟨.fin x, .fin 0, 1, 1, 1⟩) := by
    rw [List.getD_eq_getElem?_getD, ewmVar, scanMap_getElem? _ _ _ _ _ (by simpa using hi), Option.getD_some,
      fold_take _ (fun _ => rfl), alpha_inv]
  rw [eR, eE]
  constructor
  · rintro rfl
    rw [List.take_zero]
    simp [ewmVarOutR, ewmVarOut, XF.isNan, roundBits_one p hp1, roundBits_zero]
  · intro h1
    obtain ⟨⟨a, b, ch, c, h⟩, hE⟩ := drift_fold he0 hM0 hS hSε hr hq0 hq x hx (xs.take i)
      (fun y hy => hM y (by simp [List.mem_of_mem_take hy]))
    have hE' := hE (by
      intro e
      rcases List.take_eq_nil_iff.1 e with e | e
      · omega
      · rw [e] at hi; simp at hi; omega) (by linarith)
    obtain ⟨o1, o2, o3⟩ := out_round he0 hM0 hS hSε hr hE' h.ES h.E20 h.E2E h.hw h.hw2 h.c0
      (by linarith [h.cb, mul_self_nonneg b]) h.hc
    have hz := C135_zero p hp2 span hs ((x :: xs).map XF.fin) i hil
    rw [eR] at hz
    clear eR
    generalize ((xs.take i).map XF.fin).foldl (ewmVarStepR (roundBits p) (ewmFactor (roundBits p) span))
        ⟨.fin x, .fin 0, 1, 1, 1⟩ = s at h hz o2 o3 ⊢
    have oR : ewmVarOutR (roundBits p) s = .fin (roundBits p (roundBits p (roundBits p (s.oldWt * s.oldWt) /
        roundBits p (roundBits p (s.oldWt * s.oldWt) - s.sumWt2)) * ch)) := by
      rw [ewmVarOutR, if_neg (by simp [h.mean, XF.isNan])]
      dsimp only
      rw [h.sw, if_pos o2, h.cov, XF.mul, rnd]
    refine ⟨_, _, oR, ?_, ?_, ?_, o3.trans ?_⟩
    · rw [ewmVarOut, if_neg (by rw [h.meanE]; simp [XF.isNan]), h.swE, if_pos o1, h.covE, XF.mul]
    · rw [oR] at hz
      rcases hz with hz | ⟨a', e, h0, -⟩
      · cases hz
      · cases e; exact h0
    · exact mul_nonneg (div_nonneg (mul_self_nonneg _) o1.le) h.c0
    · rw [div_eq_mul_one_div (613 * _ * _)]
      have : 0 ≤ ((span : ℚ) + 1) ^ 3 * M ^ 2 * (1 / 2 ^ p) := by positivity
      have e : 4900 * (((span : ℚ) + 1) / 2 * (((span : ℚ) + 1) / 2) * (((span : ℚ) + 1) / 2)) * (1 / 2 ^ p * (M * M)) =
          1225 / 2 * (((span : ℚ) + 1) ^ 3 * M ^ 2 * (1 / 2 ^ p)) := by ring
      rw [e]
      linarith

/-- The bound for a span of 100 and daily returns up to 50 percent. -/
example : (613 * (100 + 1) ^ 3 * (1 / 2) ^ 2 / 2 ^ 53 : ℚ) < 2 / 10 ^ 8 ∧ 512 * (100 + 1) ^ 3 ≤ 2 ^ 53 := by norm_num

private theorem perturb (span : ℕ) (hs : 2 ≤ span) (xs ys : List ℚ) (hlen : xs.length = ys.length) (M δ : ℚ) (hδ : 0 ≤ δ)
    (hx : ∀ x ∈ xs, |x| ≤ M) (hy : ∀ y ∈ ys, |y| ≤ M) (hxy : ∀ j (h : j < xs.length), |xs[j] - ys[j]| ≤ δ) (i : ℕ) (h1 : 1 ≤ i)
    (hi : i < xs.length) : ∃ u u', (ewmVar (ewmAlpha span) (xs.map .fin)).getD i .nan = .fin u ∧
      (ewmVar (ewmAlpha span) (ys.map .fin)).getD i .nan = .fin u' ∧ |u - u'| ≤ 16 * M * δ := by
  cases xs with
  | nil => simp at hi
  | cons x xs =>
  cases ys with
  | nil => simp at hlen
  | cons y ys =>
  have hs' : (2 : ℚ) ≤ span := by exact_mod_cast hs
  have hS : (1 : ℚ) ≤ ((span : ℚ) + 1) / 2 := by linarith
  have e : ∀ (z : ℚ) (zs : List ℚ), i < (z :: zs).length → (ewmVar (ewmAlpha span) ((z :: zs).map XF.fin)).getD i .nan =
      ewmVarOut (((zs.take i).map XF.fin).foldl (ewmVarStep (1 / (((span : ℚ) + 1) / 2))) ⟨.fin z, .fin 0, 1, 1, 1⟩) := by
    intro z zs h
    rw [List.getD_eq_getElem?_getD, ewmVar, scanMap_getElem? _ _ _ _ _ (by simpa using h), Option.getD_some,
      fold_take _ (fun _ => rfl), alpha_inv]
  have key : ∀ k, k < (x :: xs).length → VarPair M δ (((span : ℚ) + 1) / 2)
      (((xs.take k).map XF.fin).foldl (ewmVarStep (1 / (((span : ℚ) + 1) / 2))) ⟨.fin x, .fin 0, 1, 1, 1⟩)
      (((ys.take k).map XF.fin).foldl (ewmVarStep (1 / (((span : ℚ) + 1) / 2))) ⟨.fin y, .fin 0, 1, 1, 1⟩) ∧
      (1 ≤ k → 4 / 3 ≤
        (((xs.take k).map XF.fin).foldl (ewmVarStep (1 / (((span : ℚ) + 1) / 2))) ⟨.fin x, .fin 0, 1, 1, 1⟩).oldWt) := by
    intro k
    induction k with
    | zero =>
      intro _
      have h0 := hxy 0 (by simp)
      rw [List.getElem_cons_zero, List.getElem_cons_zero] at h0
      refine ⟨⟨x, y, 0, 0, rfl, rfl, rfl, rfl, hx x (by simp), hy y (by simp), h0, ?_, rfl, rfl, rfl, rfl, le_rfl, zero_le_one, le_rfl⟩,
        fun h => absurd h (by omega)⟩
      simpa using sq_diff (hx x (by simp)) (hy y (by simp)) h0
    | succ k ih =>
      intro hk
      obtain ⟨ih, -⟩ := ih (by omega)
      simp only [List.length_cons] at hk hlen
      have hkx : k < xs.length := by omega
      have hky : k < ys.length := by omega
      rw [List.take_succ_eq_append_getElem hkx, List.take_succ_eq_append_getElem hky, List.map_append, List.map_append,
        List.foldl_append, List.foldl_append]
      have hk1 := hxy (k + 1) (by simpa using hkx)
      rw [List.getElem_cons_succ, List.getElem_cons_succ] at hk1
      have := varPair_step hS ih xs[k] ys[k] (hx _ (by simp)) (hy _ (by simp)) hk1
      exact ⟨this.1, fun _ => this.2 (by linarith)⟩
  rw [e x xs hi, e y ys (by rw [← hlen]; exact hi)]
  obtain ⟨k1, k2⟩ := key i hi
  exact varPair_out k1 (k2 h1)

/-- Prices of a bar and its reference. -/
private theorem prices_found {times : List ℤ} (hsorted : times.Pairwise (· < ·)) {close : List ℚ} (hlen : close.length = times.length)
    (hpos : ∀ x ∈ close, 0 < x) (q : ℤ × ℤ) (hq : q ∈ shiftedClose times) :
    ∃ x y, 0 < x ∧ lookupClose times (close.map XF.fin) q.1 = .fin y ∧ lookupClose times (close.map XF.fin) q.2 = .fin x := by
  have hlen' : (close.map XF.fin).length = times.length := by simpa using hlen
  rw [shiftedClose_eq hsorted] at hq
  obtain ⟨t, ht, rfl⟩ := List.mem_map.1 hq
  rw [List.mem_filter] at ht
  obtain ⟨j, hj, rfl⟩ := List.getElem_of_mem ht.1
  have h2 := ht.2
  unfold hasRef at h2
  rw [decide_eq_true_eq] at h2
  have hle := ss_le times (times[j] - DAY)
  refine ⟨close[searchsortedLeft times (times[j] - DAY) - 1], close[j], hpos _ (List.getElem_mem _), ?_, ?_⟩
  · rw [lookup_getElem hsorted hlen' j hj, List.getElem_map]
  · unfold refTime
    dsimp only
    rw [List.getD_eq_getElem times _ (by omega), lookup_getElem hsorted hlen' _ (by omega), List.getElem_map]

private theorem find_zip {A B : List (XF ℚ)} {L : List ℤ} {δ : ℚ} (t : ℤ) (hA : A.length = L.length) (hB : B.length = L.length)
    (h : ∀ j, j < L.length → Near δ (A.getD j .nan) (B.getD j .nan)) :
    Near δ (((L.zip A).find? fun p => decide (p.1 = t)).elim .nan (·.2)) (((L.zip B).find? fun p => decide (p.1 = t)).elim .nan (·.2)) := by
  induction L generalizing A B with
  | nil => simp [Near]
  | cons a L ih =>
    cases A with
    | nil => simp at hA
    | cons x A =>
    cases B with
    | nil => simp at hB
    | cons y B =>
    simp only [List.zip_cons_cons, List.find?_cons]
    by_cases hat : a = t
    · simpa [hat] using h 0 (by simp)
    · simp only [hat, decide_false]
      exact ih (by simpa using hA) (by simpa using hB) (fun j hj => by simpa using h (j + 1) (by simpa using hj))

/-- C135: the column of daily variances from rounded returns is off by at most `(613 (span+1)³ M² + 48 M (1+M)) / 2^p` from
the one without any rounding, where `M` bounds the daily returns, with and without rounding. -/
theorem C135_daily_variance (p span : ℕ) (hs : 2 ≤ span) (hp : 512 * (span + 1) ^ 3 ≤ 2 ^ p) (times : List ℤ) (close : List ℚ)
    (hsorted : times.Pairwise (· < ·)) (hlen : close.length = times.length) (hpos : ∀ x ∈ close, 0 < x) (M : ℚ) (hM0 : 0 ≤ M)
    (hM : ∀ q ∈ dailyReturns times (close.map XF.fin), ∀ v, q.2 = .fin v → |v| ≤ M)
    (hM' : ∀ q ∈ dailyReturnsR (roundBits p) times (close.map XF.fin), ∀ v, q.2 = .fin v → |v| ≤ M) (i : ℕ) (hi : i < times.length) :
    Near ((613 * (span + 1) ^ 3 * M ^ 2 + 48 * M * (1 + M)) / 2 ^ p)
      ((dailyVarColumnR (roundBits p) span times (close.map XF.fin)).getD i .nan)
      ((dailyVolColumn (ewmVar (ewmAlpha span)) times (close.map XF.fin)).getD i .nan) := by
  have hp2 := one_le_of hp
  have hp1 : 1 ≤ p := by omega
  have hP : (0 : ℚ) < 2 ^ p := by positivity
  have he0 : (0 : ℚ) ≤ 1 / 2 ^ p := by positivity
  have he1 : (1 : ℚ) / 2 ^ p ≤ 1 := by rw [div_le_one hP]; exact one_le_pow₀ (by norm_num)
  have hr := round_rel hp1
  -- the returns as lists of numbers
  obtain ⟨xs, ys, ex, ey, hl, hlL, hxy⟩ : ∃ xs ys : List ℚ, (dailyReturnsR (roundBits p) times (close.map XF.fin)).map (·.2) = xs.map XF.fin ∧
      (dailyReturns times (close.map XF.fin)).map (·.2) = ys.map XF.fin ∧ xs.length = ys.length ∧ xs.length = (shiftedClose times).length ∧
      ∀ j (h : j < xs.length) (h' : j < ys.length), |xs[j] - ys[j]| ≤ 3 * (1 + M) / 2 ^ p := by
    have gen : ∀ L : List (ℤ × ℤ), (∀ q ∈ L, q ∈ shiftedClose times) → ∃ xs ys : List ℚ,
        (L.map fun q => rnd (roundBits p) (XF.sub (rnd (roundBits p) (XF.div (lookupClose times (close.map XF.fin) q.1)
          (lookupClose times (close.map XF.fin) q.2))) (.fin 1))) = xs.map XF.fin ∧
        (L.map fun q => XF.sub (XF.div (lookupClose times (close.map XF.fin) q.1) (lookupClose times (close.map XF.fin) q.2)) (.fin 1)) =
          ys.map XF.fin ∧ xs.length = ys.length ∧ xs.length = L.length ∧
        ∀ j (h : j < xs.length) (h' : j < ys.length), |xs[j] - ys[j]| ≤ 3 * (1 + M) / 2 ^ p := by
      intro L
      induction L with
      | nil => intro _; exact ⟨[], [], rfl, rfl, rfl, rfl, by simp⟩
      | cons q L ih =>
        intro hL
        obtain ⟨xs, ys, e1, e2, e3, e4, e5⟩ := ih fun z hz => hL z (by simp [hz])
        obtain ⟨x, y, hx, l1, l2⟩ := prices_found hsorted hlen hpos q (hL q (by simp))
        have hret : XF.sub (XF.div (lookupClose times (close.map XF.fin) q.1) (lookupClose times (close.map XF.fin) q.2)) (.fin 1) =
            .fin (y / x - 1) := by
          rw [l1, l2, XF.div_fin _ _ hx.ne', XF.sub_fin]
        have hv : |y / x - 1| ≤ M := hM (q.1, _) (List.mem_map.2 ⟨q, hL q (by simp), rfl⟩) _ hret
        have hyx : |y / x| ≤ 1 + M := by
          have := abs_add_le (y / x - 1) 1
          rw [sub_add_cancel, abs_one] at this
          linarith
        refine ⟨roundBits p (roundBits p (y / x) - 1) :: xs, (y / x - 1) :: ys, ?_, ?_, by simp [e3], by simp [e4], ?_⟩
        · rw [List.map_cons, List.map_cons, e1, l1, l2, XF.div_fin _ _ hx.ne', rnd, XF.sub_fin, rnd]
        · rw [List.map_cons, List.map_cons, e2, hret]
        · intro j h h'
          cases j with
          | zero =>
            rw [List.getElem_cons_zero, List.getElem_cons_zero]
            have r1 : |roundBits p (y / x) - 1 - (y / x - 1)| ≤ 1 / 2 ^ p * (1 + M) := by
              rw [sub_sub_sub_cancel_right]
              exact (hr _).trans (mul_le_mul_of_nonneg_left hyx he0)
            have r2 := near_round he0 hr r1 hv
            refine r2.trans ?_
            rw [show 3 * (1 + M) / 2 ^ p = 3 * (1 / 2 ^ p * (1 + M)) by ring]
            have h3 : 0 ≤ 1 / 2 ^ p * (1 + M) := by positivity
            have h4 : 1 / 2 ^ p * (1 / 2 ^ p * (1 + M)) ≤ 1 * (1 / 2 ^ p * (1 + M)) := mul_le_mul_of_nonneg_right he1 h3
            have h5 : 1 / 2 ^ p * M ≤ 1 / 2 ^ p * (1 + M) := mul_le_mul_of_nonneg_left (by linarith) he0
            linarith
          | succ j =>
            rw [List.getElem_cons_succ, List.getElem_cons_succ]
            exact e5 j (by simpa using h) (by simpa using h')
    obtain ⟨xs, ys, e1, e2, e3, e4, e5⟩ := gen (shiftedClose times) fun _ h => h
    refine ⟨xs, ys, ?_, ?_, e3, e4, e5⟩
    · rw [dailyReturnsR, List.map_map]; exact e1
    · rw [dailyReturns, List.map_map]; exact e2
  have hxM : ∀ x ∈ xs, |x| ≤ M := by
    intro x hx
    have : (.fin x : XF ℚ) ∈ (dailyReturnsR (roundBits p) times (close.map XF.fin)).map (·.2) := by
      rw [ex]; exact List.mem_map_of_mem hx
    obtain ⟨q, hq, e⟩ := List.mem_map.1 this
    exact hM' q hq x e
  have hyM : ∀ y ∈ ys, |y| ≤ M := by
    intro y hy
    have : (.fin y : XF ℚ) ∈ (dailyReturns times (close.map XF.fin)).map (·.2) := by
      rw [ey]; exact List.mem_map_of_mem hy
    obtain ⟨q, hq, e⟩ := List.mem_map.1 this
    exact hM q hq y e
  have lab1 : (dailyReturnsR (roundBits p) times (close.map XF.fin)).map (·.1) = (shiftedClose times).map (·.1) := by
    rw [dailyReturnsR, List.map_map]; rfl
  have lab2 : (dailyReturns times (close.map XF.fin)).map (·.1) = (shiftedClose times).map (·.1) := by
    rw [dailyReturns, List.map_map]; rfl
  have hcol1 : (dailyVarColumnR (roundBits p) span times (close.map XF.fin)).getD i .nan =
      ((((shiftedClose times).map (·.1)).zip (ewmVarR (roundBits p) span (xs.map XF.fin))).find?
        fun q => decide (q.1 = times[i])).elim .nan (·.2) := by
    rw [dailyVarColumnR]
    rw [lab1, ex, alignTo, List.getD_eq_getElem _ _ (by simpa using hi), List.getElem_map]
  have hcol2 : (dailyVolColumn (ewmVar (ewmAlpha span)) times (close.map XF.fin)).getD i .nan =
      ((((shiftedClose times).map (·.1)).zip (ewmVar (ewmAlpha span) (ys.map XF.fin))).find?
        fun q => decide (q.1 = times[i])).elim .nan (·.2) := by
    rw [dailyVolColumn, getDailyVol]
    rw [lab2, ey, alignTo, List.getD_eq_getElem _ _ (by simpa using hi), List.getElem_map]
  rw [hcol1, hcol2]
  apply find_zip
  · rw [ewmVarR_length]; simp [hlL]
  · rw [ewmVar_length]; simp [← hl, hlL]
  · intro j hj
    have hjx : j < xs.length := by rw [hlL]; simpa using hj
    obtain ⟨d1, d2⟩ := C135_drift p span hs hp xs M hxM j hjx
    rcases Nat.eq_zero_or_pos j with h0 | h1
    · left
      refine ⟨(d1 h0).1, ?_⟩
      exact ((C135_drift p span hs hp ys M hyM j (by omega)).1 h0).2
    · right
      obtain ⟨a, b, ea, eb, -, -, hab⟩ := d2 h1
      obtain ⟨u, u', eu, eu', huu⟩ := perturb span hs xs ys hl M (3 * (1 + M) / 2 ^ p) (by positivity) hxM hyM
        (fun k hk => hxy k hk (by omega)) j h1 hjx
      rw [eb] at eu
      cases eu
      refine ⟨a, u', ea, eu', ?_⟩
      have := abs_sub_le a b u'
      refine this.trans ((add_le_add hab huu).trans (le_of_eq (by ring)))

/-- Bars every 12 hours: the assumptions hold with `M = 1/10` at double precision, the last bars have a variance. -/
example : let times : List ℤ := [0, 43200000000000, 86400000000001, 129600000000001, 172800000000002]
    let close : List ℚ := [100, 101, 102, 99, 103]
    times.Pairwise (· < ·) ∧ close.length = times.length ∧ (∀ x ∈ close, 0 < x) ∧ 512 * (2 + 1) ^ 3 ≤ 2 ^ 53 ∧
    (dailyReturns times (close.map XF.fin)).map (·.2) = [.fin (1 / 50), .fin (-2 / 101), .fin (1 / 102)] ∧
    dailyVolColumn (ewmVar (ewmAlpha 2)) times (close.map XF.fin) =
      [.nan, .nan, .nan, .fin (40401 / 51005000), .fin (108172709 / 287438677500)] ∧
    (dailyReturnsR (roundBits 53) times (close.map XF.fin)).map (·.2) = [.fin (45035996273705 / 2251799813685248),
      .fin (-11147523830125 / 562949953421312), .fin (5519117190405 / 562949953421312)] := by
  decide +kernel

private theorem column_map (f : XF ℚ → XF ℚ) (hf : f .nan = .nan) (times : List ℤ) (L : List ℤ) (V : List (XF ℚ)) :
    alignTo times (L.zip (V.map f)) = (alignTo times (L.zip V)).map f := by
  rw [alignTo, alignTo, List.map_map]
  apply List.map_congr_left
  intro t _
  dsimp only [Function.comp_apply]
  induction L generalizing V with
  | nil => simp [hf]
  | cons a L ih =>
    cases V with
    | nil => simp [hf]
    | cons v V =>
      rw [List.map_cons, List.zip_cons_cons, List.zip_cons_cons, List.find?_cons, List.find?_cons]
      by_cases h : a = t
      · simp [h]
      · simpa [h] using ih V

/-- Every entry of a column is missing or one of the values aligned. -/
private theorem column_mem (times : List ℤ) (L : List ℤ) (V : List (XF ℚ)) (i : ℕ) :
    (alignTo times (L.zip V)).getD i .nan = .nan ∨ ∃ j < V.length, (alignTo times (L.zip V)).getD i .nan = V.getD j .nan := by
  rcases Nat.lt_or_ge i times.length with hi | hi
  · rw [alignTo, List.getD_eq_getElem _ _ (by simpa using hi), List.getElem_map]
    cases h : (L.zip V).find? fun p => decide (p.1 = times[i]) with
    | none => exact Or.inl rfl
    | some q =>
      right
      obtain ⟨j, hj, e⟩ := List.getElem_of_mem (List.mem_of_find?_eq_some h)
      rw [List.getElem_zip] at e
      have hjV : j < V.length := by rw [List.length_zip] at hj; omega
      exact ⟨j, hjV, by rw [← e, List.getD_eq_getElem _ _ hjV]; rfl⟩
  · left
    rw [alignTo, List.getD_eq_default _ _ (by simpa using hi)]

private theorem root_near {a b δ : ℝ} (ha : 0 ≤ a) (hb : 0 ≤ b) (h : |a - b| ≤ δ) :
    |√a - √b| ≤ √δ ∧ (0 < b → |√a - √b| ≤ δ / √b) := by
  have h0 := Real.sqrt_nonneg a
  have h1 := Real.sqrt_nonneg b
  have e : (√a - √b) * (√a + √b) = a - b := by
    have := Real.mul_self_sqrt ha
    have := Real.mul_self_sqrt hb
    linarith
  have e' : |√a - √b| * (√a + √b) = |a - b| := by
    rw [← e, abs_mul, abs_of_nonneg (add_nonneg h0 h1)]
  constructor
  · apply Real.le_sqrt_of_sq_le
    have h2 : |√a - √b| ≤ √a + √b := abs_le.2 ⟨by linarith, by linarith⟩
    have := mul_le_mul_of_nonneg_left h2 (abs_nonneg (√a - √b))
    rw [pow_two]
    linarith
  · intro hb0
    have hs := Real.sqrt_pos.2 hb0
    rw [le_div_iff₀ hs]
    have := mul_le_mul_of_nonneg_left (show √b ≤ √a + √b by linarith) (abs_nonneg (√a - √b))
    linarith

/-- C135: the volatility, for any square root with a relative error of at most `2^-p`: off by at most `e + (√b + e) / 2^p`,
where `b` is the exact variance and `e` the root of the bound of the variances, or that bound divided by the volatility. -/
theorem C135_volatility (p span : ℕ) (hs : 2 ≤ span) (hp : 512 * (span + 1) ^ 3 ≤ 2 ^ p) (times : List ℤ) (close : List ℚ)
    (hsorted : times.Pairwise (· < ·)) (hlen : close.length = times.length) (hpos : ∀ x ∈ close, 0 < x) (M : ℚ) (hM0 : 0 ≤ M)
    (hM : ∀ q ∈ dailyReturns times (close.map XF.fin), ∀ v, q.2 = .fin v → |v| ≤ M)
    (hM' : ∀ q ∈ dailyReturnsR (roundBits p) times (close.map XF.fin), ∀ v, q.2 = .fin v → |v| ≤ M)
    (sq : ℚ → ℚ) (hsq : ∀ x : ℚ, 0 ≤ x → |(sq x : ℝ) - √x| ≤ √x / 2 ^ p) (i : ℕ) (hi : i < times.length) :
    let vol := (dailyVolColumnR (roundBits p) sq span times (close.map XF.fin)).getD i .nan
    let var := (dailyVolColumn (ewmVar (ewmAlpha span)) times (close.map XF.fin)).getD i .nan
    let δ : ℝ := (613 * (span + 1) ^ 3 * M ^ 2 + 48 * M * (1 + M)) / 2 ^ p
    (vol = .nan ∧ var = .nan) ∨ ∃ v b, vol = .fin v ∧ var = .fin b ∧ 0 ≤ b ∧
      |(v : ℝ) - √b| ≤ √δ + (√b + √δ) / 2 ^ p ∧ (0 < b → |(v : ℝ) - √b| ≤ δ / √b + (√b + δ / √b) / 2 ^ p) := by
  intro vol var δ
  have hp2 := one_le_of hp
  have hcol : dailyVolColumnR (roundBits p) sq span times (close.map XF.fin) =
      (dailyVarColumnR (roundBits p) span times (close.map XF.fin)).map (rnd sq) := by
    rw [dailyVolColumnR, dailyVarColumnR, ewmStdR, column_map _ rfl]
  have hvol : vol = rnd sq ((dailyVarColumnR (roundBits p) span times (close.map XF.fin)).getD i .nan) := by
    show (dailyVolColumnR (roundBits p) sq span times (close.map XF.fin)).getD i .nan = _
    rw [hcol, List.getD_eq_getElem?_getD, List.getElem?_map, List.getD_eq_getElem?_getD]
    cases (dailyVarColumnR (roundBits p) span times (close.map XF.fin))[i]? <;> rfl
  rcases C135_daily_variance p span hs hp times close hsorted hlen hpos M hM0 hM hM' i hi with ⟨h1, h2⟩ | ⟨a, b, h1, h2, hab⟩
  · left
    exact ⟨by rw [hvol, h1]; rfl, h2⟩
  · right
    have ha : 0 ≤ a := by
      rcases column_mem times ((dailyReturnsR (roundBits p) times (close.map XF.fin)).map (·.1))
        (ewmVarR (roundBits p) span ((dailyReturnsR (roundBits p) times (close.map XF.fin)).map (·.2))) i with h | ⟨j, hj, h⟩
      · rw [dailyVarColumnR, h] at h1; cases h1
      · rw [dailyVarColumnR, h] at h1
        rw [ewmVarR_length] at hj
        rcases C135_zero p hp2 span hs _ j hj with h' | ⟨a', h', h0, -⟩
        · rw [h'] at h1; cases h1
        · rw [h'] at h1; cases h1; exact h0
    have hb : 0 ≤ b := by
      rcases column_mem times ((dailyReturns times (close.map XF.fin)).map (·.1))
        (ewmVar (ewmAlpha span) ((dailyReturns times (close.map XF.fin)).map (·.2))) i with h | ⟨j, hj, h⟩
      · rw [dailyVolColumn, getDailyVol, h] at h2; cases h2
      · rw [dailyVolColumn, getDailyVol, h] at h2
        rw [ewmVar_length] at hj
        rw [List.getD_eq_getElem?_getD] at h2
        obtain ⟨w1, w2⟩ := C100_weighted_variance span hs ((dailyReturns times (close.map XF.fin)).map (·.2)) j hj
        by_cases hex : ∃ a b, a < b ∧ b ≤ j ∧ finAt ((dailyReturns times (close.map XF.fin)).map (·.2)) a ≠ none ∧
            finAt ((dailyReturns times (close.map XF.fin)).map (·.2)) b ≠ none
        · rw [(w1 hex).1] at h2
          have := (w1 hex).2.1
          cases h2
          exact this
        · push Not at hex
          rw [w2 (fun a b h1 h2 => by
            by_cases ha : finAt ((dailyReturns times (close.map XF.fin)).map (·.2)) a = none
            · exact Or.inl ha
            · exact Or.inr (hex a b h1 h2 ha))] at h2
          cases h2
    have hR : |(a : ℝ) - b| ≤ δ := by
      have : ((|a - b| : ℚ) : ℝ) ≤ (((613 * (span + 1) ^ 3 * M ^ 2 + 48 * M * (1 + M)) / 2 ^ p : ℚ) : ℝ) := by exact_mod_cast hab
      push_cast at this
      exact this
    obtain ⟨n1, n2⟩ := root_near (by exact_mod_cast ha) (by exact_mod_cast hb) hR
    have hsa := hsq a ha
    have step : ∀ e : ℝ, |√(a : ℝ) - √b| ≤ e → |(sq a : ℝ) - √b| ≤ e + (√b + e) / 2 ^ p := by
      intro e he
      have h3 : √(a : ℝ) ≤ √b + e := by linarith [(abs_le.1 he).2]
      have h4 : √(a : ℝ) / 2 ^ p ≤ (√b + e) / 2 ^ p := by gcongr
      have := abs_sub_le (sq a : ℝ) (√a) (√b)
      linarith
    refine ⟨sq a, b, by rw [hvol, h1]; rfl, h2, hb, step _ n1, fun h0 => step _ (n2 (by exact_mod_cast h0))⟩

/-- There are such square roots, for every precision. -/
example (p : ℕ) : ∃ sq : ℚ → ℚ, ∀ x : ℚ, 0 ≤ x → |(sq x : ℝ) - √x| ≤ √x / 2 ^ p := by
  have h : ∀ x : ℚ, ∃ y : ℚ, 0 ≤ x → |(y : ℝ) - √x| ≤ √x / 2 ^ p := by
    intro x
    rcases lt_or_ge 0 x with hx | hx
    · have hs : (0 : ℝ) < √x := Real.sqrt_pos.2 (by exact_mod_cast hx)
      have h1 : (0 : ℝ) < √x / 2 ^ p := by positivity
      obtain ⟨y, hy1, hy2⟩ := exists_rat_btwn (show √(x : ℝ) < √x + √x / 2 ^ p by linarith)
      exact ⟨y, fun _ => abs_le.2 ⟨by linarith, by linarith⟩⟩
    · refine ⟨0, fun h => ?_⟩
      obtain rfl : x = 0 := le_antisymm hx h
      simp
  choose sq hsq using h
  exact ⟨sq, hsq⟩

/-- C135: while all daily returns are the same number, for instance because the price does not move, the variance is missing or
exactly 0, with rounding as without. -/
theorem C135_constant (p : ℕ) (hp : 2 ≤ p) (span : ℕ) (hs : 2 ≤ span) (times : List ℤ) (close : List (XF ℚ)) (c : ℚ)
    (hc : ∀ q ∈ dailyReturns times close, q.2 = .fin c) (i : ℕ) :
    (dailyVarColumnR (roundBits p) span times close).getD i .nan = .nan ∨
    (dailyVarColumnR (roundBits p) span times close).getD i .nan = .fin 0 := by
  have hsame : ∀ q ∈ dailyReturnsR (roundBits p) times close, q.2 = .fin (roundBits p (roundBits p (c + 1) - 1)) := by
    intro q hq
    obtain ⟨z, hz, rfl⟩ := List.mem_map.1 hq
    have := hc _ (List.mem_map.2 ⟨z, hz, rfl⟩)
    dsimp only at this ⊢
    generalize XF.div (lookupClose times close z.1) (lookupClose times close z.2) = d at this
    cases d <;> simp [XF.sub, XF.add, XF.neg] at this
    rename_i d
    obtain rfl : d = c + 1 := by linarith
    rw [rnd, XF.sub_fin, rnd]
  rcases column_mem times ((dailyReturnsR (roundBits p) times close).map (·.1))
    (ewmVarR (roundBits p) span ((dailyReturnsR (roundBits p) times close).map (·.2))) i with h | ⟨j, hj, h⟩
  · left; exact h
  · rw [dailyVarColumnR, h]
    rw [ewmVarR_length] at hj
    rcases C135_zero p hp span hs _ j hj with h' | ⟨a, h', -, hz⟩
    · exact Or.inl h'
    · right
      rw [h', hz.2]
      have val : ∀ (k : ℕ) (x : ℚ), ((dailyReturnsR (roundBits p) times close).map (·.2))[k]? = some (.fin x) →
          x = roundBits p (roundBits p (c + 1) - 1) := by
        intro k x hx
        obtain ⟨q, hq, e⟩ := List.mem_map.1 (List.mem_of_getElem? hx)
        rw [hsame q hq] at e
        cases e; rfl
      intro j k x y _ _ hx hy
      rw [val j x hx, val k y hy]

/-- Prices that grow by a tenth every day (returns that are no floating-point numbers). -/
example : let times : List ℤ := [0, 86400000000001, 172800000000002, 259200000000003]
    let close : List (XF ℚ) := [.fin 1000, .fin 1100, .fin 1210, .fin 1331]
    (∀ q ∈ dailyReturns times close, q.2 = .fin (1 / 10)) ∧
    dailyVarColumnR (roundBits 53) 5 times close = [.nan, .nan, .fin 0, .fin 0] := by
  decide +kernel

private theorem scale_div (c : ℚ) (hc : 0 < c) (x y : XF ℚ) : XF.div (XF.mul (.fin c) x) (XF.mul (.fin c) y) = XF.div x y := by
  have key : ∀ a : ℚ, (c * a = 0 ↔ a = 0) ∧ (0 < c * a ↔ 0 < a) ∧ (c * a < 0 ↔ a < 0) := by
    intro a
    exact ⟨by simp [hc.ne'], mul_pos_iff_of_pos_left hc, by
      constructor <;> intro h
      · by_contra h'
        exact absurd (mul_nonneg hc.le (not_lt.1 h')) (not_le.2 h)
      · exact mul_neg_of_pos_of_neg hc h⟩
  cases x <;> cases y <;> simp [XF.mul, XF.div, XF.infSign, XF.neg, hc.ne', hc, not_lt.2 hc.le, key, mul_div_mul_left _ _ hc.ne']

private theorem scale_lookup (c : ℚ) (times : List ℤ) (close : List (XF ℚ)) (t : ℤ) :
    lookupClose times (close.map (XF.mul (.fin c))) t = XF.mul (.fin c) (lookupClose times close t) := by
  unfold lookupClose
  induction times generalizing close with
  | nil => rfl
  | cons a times ih =>
    cases close with
    | nil => simp [XF.mul]
    | cons x close =>
      rw [List.map_cons, List.zip_cons_cons, List.zip_cons_cons, List.find?_cons, List.find?_cons]
      by_cases h : a = t
      · simp [h]
      · simpa [h] using ih close

/-- C135: the unit of the prices does not matter: with all prices multiplied by a positive number (without rounding of the
products, as for powers of two) the column is the same to the last bit, missing and infinite prices included. -/
theorem C135_unit (r sq : ℚ → ℚ) (span : ℕ) (times : List ℤ) (close : List (XF ℚ)) (c : ℚ) (hc : 0 < c) :
    dailyVolColumnR r sq span times (close.map (XF.mul (.fin c))) = dailyVolColumnR r sq span times close := by
  have h : dailyReturnsR r times (close.map (XF.mul (.fin c))) = dailyReturnsR r times close := by
    simp only [dailyReturnsR, scale_lookup, scale_div c hc]
  rw [dailyVolColumnR, dailyVolColumnR, h]

/-- The bound needs complete returns: after a long gap the weight of the first return is lost in the sum of the weights, and
the variance of two different returns, exactly more than 1/3, is missing. -/
theorem C135_gap_refuted : ∃ l : List (XF ℚ), (ewmVarR (roundBits 53) 2 l).getD 36 .nan = .nan ∧
    ∃ b, (ewmVar (ewmAlpha 2) l).getD 36 .nan = .fin b ∧ 1 / 3 < b := by
  refine ⟨.fin 1 :: List.replicate 35 .nan ++ [.fin 2], by decide +kernel, ?_⟩
  refine ⟨1 / 2, by decide +kernel, by norm_num⟩

end Mizar.Props
