import Verif.Props.RoundedSpread
import Verif.Props.RoundedBeckers
import Mathlib.Analysis.Complex.Exponential
import Mathlib.Algebra.Order.Archimedean.Basic
import Mathlib.Analysis.Complex.ExponentialBounds

/-!
Property theorems C137, continued: two series in double precision whose last four bars are flat.  After the first the Corwin-Schultz
spread is missing, after the second it is positive.
-/

namespace Mizar.Props
open Mizar.Spec Mizar.Rd

theorem log_between {v q : ℚ} (hv : 0 ≤ v) (hv1 : v ≤ 1 / 2) (hq : 0 < q)
    (h1 : ((∑ m ∈ Finset.range 14, (v * (1 - 1 / 2 ^ 53)) ^ m / m.factorial) +
      (v * (1 - 1 / 2 ^ 53)) ^ 14 * (14 + 1) / ((14).factorial * 14) ≤ q))
    (h2 : q ≤ ∑ m ∈ Finset.range 14, (v * (1 + 1 / 2 ^ 53)) ^ m / m.factorial) :
    |(v : ℝ) - Real.log q| ≤ 2 * |Real.log q| / 2 ^ 53 := by
  have hv0 : (0 : ℝ) ≤ v := by exact_mod_cast hv
  have hvh : (v : ℝ) ≤ 1 / 2 := by
    have : ((v : ℚ) : ℝ) ≤ ((1 / 2 : ℚ) : ℝ) := by exact_mod_cast hv1
    push_cast at this
    exact this
  have hq0 : (0 : ℝ) < q := by exact_mod_cast hq
  have k1 : (v : ℝ) * (1 - 1 / 2 ^ 53) ≤ Real.log q := by
    rw [Real.le_log_iff_exp_le hq0]
    refine (Real.exp_bound' (n := 14) (mul_nonneg hv0 (by norm_num)) (by nlinarith) (by norm_num)).trans ?_
    have := (Rat.cast_le (K := ℝ)).2 h1
    push_cast at this ⊢
    exact this
  have k2 : Real.log q ≤ (v : ℝ) * (1 + 1 / 2 ^ 53) := by
    rw [Real.log_le_iff_le_exp hq0]
    refine le_trans ?_ (Real.sum_le_exp_of_nonneg (by positivity) 14)
    have := (Rat.cast_le (K := ℝ)).2 h2
    push_cast at this ⊢
    exact this
  have k0 : 0 ≤ Real.log q := le_trans (mul_nonneg hv0 (by norm_num)) k1
  rw [abs_of_nonneg k0, abs_le]
  norm_num at k1 k2 ⊢
  constructor <;> linarith

theorem near_log (x : ℚ) : ∃ v : ℚ, 0 < x → |(v : ℝ) - Real.log x| ≤ 2 * |Real.log x| / 2 ^ 53 := by
  rcases eq_or_ne (Real.log x) 0 with h | h
  · exact ⟨0, fun _ => by simp [h]⟩
  · have hpos : 0 < 2 * |Real.log x| / 2 ^ 53 := by positivity
    obtain ⟨v, h1, h2⟩ := exists_rat_btwn (show Real.log x < Real.log x + 2 * |Real.log x| / 2 ^ 53 by linarith)
    exact ⟨v, fun _ => abs_le.2 ⟨by linarith, by linarith⟩⟩

open Classical in
/-- A logarithm with given values at four numbers. -/
private noncomputable def someLog (x : ℚ) : ℚ :=
  if x = 1 then 0
  else if x = 67 / 64 then 1650462475204415 / 36028797018963968
  else if x = 72 / 64 then 4243581083941235 / 36028797018963968
  else if x = 76 / 64 then 1547889506116853 / 9007199254740992
  else if x = 77 / 64 then 6662529397872905 / 36028797018963968
  else (near_log x).choose

private theorem someLog_good : GoodLog 53 someLog := by
  intro x hx
  rw [someLog]
  split_ifs with h1 h2 h3 h4 h5
  · subst h1
    simp
  · subst h2
    exact log_between (by norm_num) (by norm_num) (by norm_num) (by decide +kernel) (by decide +kernel)
  · subst h3
    exact log_between (by norm_num) (by norm_num) (by norm_num) (by decide +kernel) (by decide +kernel)
  · subst h4
    exact log_between (by norm_num) (by norm_num) (by norm_num) (by decide +kernel) (by decide +kernel)
  · subst h5
    exact log_between (by norm_num) (by norm_num) (by norm_num) (by decide +kernel) (by decide +kernel)
  · exact (near_log x).choose_spec hx

private theorem range_64 {a v : ℚ} (ha : 0 < a) (h : roundBits 53 (a / 64) = a / 64) (hv : someLog (a / 64) = v) :
    rangeR (roundBits 53) someLog (.fin a) (.fin 64) = .fin (roundBits 53 (v * v)) := by
  rw [rangeR_usable (fun x hx => roundBits_pos 53 (by norm_num) (q := x) hx) (by positivity), h, hv]

private theorem beta_neg : (betaR (roundBits 53) someLog 2 (([67, 72, 64, 64, 64, 64] : List ℚ).map .fin)
    ((List.replicate 6 64).map .fin)).getD 5 .nan = .fin (-1 / 2 ^ 59) := by
  have e : List.zipWith (rangeR (roundBits 53) someLog) (([67, 72, 64, 64, 64, 64] : List ℚ).map .fin)
      ((List.replicate 6 64).map .fin) = [.fin (roundBits 53 (1650462475204415 / 36028797018963968 * (1650462475204415 / 36028797018963968))),
      .fin (roundBits 53 (4243581083941235 / 36028797018963968 * (4243581083941235 / 36028797018963968))),
      .fin (roundBits 53 (0 * 0)), .fin (roundBits 53 (0 * 0)), .fin (roundBits 53 (0 * 0)), .fin (roundBits 53 (0 * 0))] := by
    simp only [List.map_cons, List.map_nil, List.replicate, List.zipWith_cons_cons, List.zipWith_nil_left]
    rw [range_64 (a := 67) (v := 1650462475204415 / 36028797018963968) (by norm_num) (by decide +kernel) (by norm_num [someLog]),
      range_64 (a := 72) (v := 4243581083941235 / 36028797018963968) (by norm_num) (by decide +kernel) (by norm_num [someLog]),
      range_64 (a := 64) (v := 0) (by norm_num) (by decide +kernel) (by norm_num [someLog])]
  rw [betaR, pairR, e]
  decide +kernel

private theorem beta_pos : (betaR (roundBits 53) someLog 2 (([76, 77, 64, 64, 64, 64] : List ℚ).map .fin)
    ((List.replicate 6 64).map .fin)).getD 5 .nan = .fin (1 / 2 ^ 57) := by
  have e : List.zipWith (rangeR (roundBits 53) someLog) (([76, 77, 64, 64, 64, 64] : List ℚ).map .fin)
      ((List.replicate 6 64).map .fin) = [.fin (roundBits 53 (1547889506116853 / 9007199254740992 * (1547889506116853 / 9007199254740992))),
      .fin (roundBits 53 (6662529397872905 / 36028797018963968 * (6662529397872905 / 36028797018963968))),
      .fin (roundBits 53 (0 * 0)), .fin (roundBits 53 (0 * 0)), .fin (roundBits 53 (0 * 0)), .fin (roundBits 53 (0 * 0))] := by
    simp only [List.map_cons, List.map_nil, List.replicate, List.zipWith_cons_cons, List.zipWith_nil_left]
    rw [range_64 (a := 76) (v := 1547889506116853 / 9007199254740992) (by norm_num) (by decide +kernel) (by norm_num [someLog]),
      range_64 (a := 77) (v := 6662529397872905 / 36028797018963968) (by norm_num) (by decide +kernel) (by norm_num [someLog]),
      range_64 (a := 64) (v := 0) (by norm_num) (by decide +kernel) (by norm_num [someLog])]
  rw [betaR, pairR, e]
  decide +kernel

private theorem exact_zero (a b : ℚ) (ha : 0 < a) (hb : 0 < b) (f : Frame ℝ)
    (hx : f.col "high" = .ok ((([a, b, 64, 64, 64, 64] : List ℚ).map .fin).map toReal))
    (hy : f.col "low" = .ok (((List.replicate 6 (64 : ℚ)).map .fin).map toReal)) (out : List (XF ℝ))
    (ho : Feat.corwinSchultz 2 "high" "low" f = .ok out) : out.getD 5 .nan = .fin 0 := by
  have hr : ∀ x : ℚ, 0 < x → rangeR id Real.log (.fin (x : ℝ)) (.fin ((64 : ℚ) : ℝ)) =
      .fin (Real.log (x / (64 : ℚ)) * Real.log (x / (64 : ℚ))) := fun x hx => by
    have := range_real (a := x) (b := 64) (by positivity)
    exact this
  have h64 : rangeR id Real.log (.fin ((64 : ℚ) : ℝ)) (.fin ((64 : ℚ) : ℝ)) = .fin 0 := by
    rw [hr 64 (by norm_num)]
    simp
  have e : List.zipWith (rangeR id Real.log) ((([a, b, 64, 64, 64, 64] : List ℚ).map .fin).map toReal)
      (((List.replicate 6 (64 : ℚ)).map .fin).map toReal) =
      [.fin (Real.log (a / (64 : ℚ)) * Real.log (a / (64 : ℚ))), .fin (Real.log (b / (64 : ℚ)) * Real.log (b / (64 : ℚ))),
        .fin 0, .fin 0, .fin 0, .fin 0] := by
    simp only [List.map_cons, List.map_nil, List.replicate, List.zipWith_cons_cons, List.zipWith_nil_left, toReal]
    rw [hr a ha, hr b hb, h64]
  have hB : (betaR id Real.log 2 ((([a, b, 64, 64, 64, 64] : List ℚ).map .fin).map toReal)
      (((List.replicate 6 (64 : ℚ)).map .fin).map toReal)).getD 5 .nan = .fin 0 := by
    rw [betaR, pairR, (C131_exact 2 (by norm_num) _).1, (C131_exact 2 (by norm_num) _).2, e]
    simp [rolling, rollAt, winAt, winSum, winMean, List.range_succ, XF.undef, XF.isNan, XF.isInf, XF.toK]
  have hG : (gammaR id Real.log ((([a, b, 64, 64, 64, 64] : List ℚ).map .fin).map toReal)
      (((List.replicate 6 (64 : ℚ)).map .fin).map toReal)).getD 5 .nan = .fin 0 := by
    rw [gammaR, zipWith_getD _ _ _ .nan .nan (by simp [rolling]) 5 (by simp [rolling]), real_max _ 4 (by simp), real_min _ 4 (by simp)]
    simpa [toReal] using h64
  rw [(C137_exact 2 (by norm_num) "high" "low" f _ _ hx hy).2.1 out ho, corwinSchultzR,
    List.getD_eq_getElem _ _ (by simp [betaR, pairR, gammaR, rollMean, rollSum, rolling]), List.getElem_map,
    ← List.getD_eq_getElem _ .nan, zipWith_getD _ _ _ .nan .nan (by simp [betaR, pairR, gammaR, rollMean, rollSum, rolling]) 5
    (by simp [betaR, pairR, rollMean, rollSum]), hB, hG, alpha_exact le_rfl le_rfl, spread_exact]
  simp

/-- C137: the Corwin-Schultz spread in double precision can be missing although the last four bars are flat and the exact spread is
0.  The logarithm is off by at most one unit in the last place and exact at 1; prices and low are whole numbers. -/
theorem C137_missing_refuted : ∃ lg : ℚ → ℚ, GoodLog 53 lg ∧ lg 1 = 0 ∧ ∃ H L : List ℚ, Bars H L ∧
    (∀ x ∈ H ++ L, ∃ n : ℕ, x = n) ∧ (∀ j, 2 ≤ j → j < H.length → H.getD j 0 = 64 ∧ L.getD j 0 = 64) ∧ 5 < H.length ∧
    (∀ sq ex : ℚ → ℚ, GoodSqrt 53 sq → (∀ x, 0 ≤ x → 1 ≤ ex x) →
      (corwinSchultzR (roundBits 53) lg sq ex 2 (H.map .fin) (L.map .fin)).getD 5 .nan = .nan) ∧
    ∀ (f : Frame ℝ) (out : List (XF ℝ)), f.col "high" = .ok ((H.map .fin).map toReal) →
      f.col "low" = .ok ((L.map .fin).map toReal) → Feat.corwinSchultz 2 "high" "low" f = .ok out → out.getD 5 .nan = .fin 0 := by
  have hbars : Bars [67, 72, 64, 64, 64, 64] (List.replicate 6 64) := ⟨by simp, by decide +kernel, by decide +kernel⟩
  refine ⟨someLog, someLog_good, by simp [someLog], [67, 72, 64, 64, 64, 64], List.replicate 6 64, hbars, ?_, ?_, by simp, ?_, ?_⟩
  · intro x hx
    simp only [List.replicate, List.cons_append, List.nil_append, List.mem_cons, List.not_mem_nil, or_false] at hx
    rcases hx with rfl | rfl | rfl | rfl | rfl | rfl | rfl | rfl | rfl | rfl | rfl | rfl
    · exact ⟨67, by norm_num⟩
    · exact ⟨72, by norm_num⟩
    all_goals exact ⟨64, by norm_num⟩
  · intro j h1 h2
    have : j = 2 ∨ j = 3 ∨ j = 4 ∨ j = 5 := by simp at h2; omega
    rcases this with rfl | rfl | rfl | rfl <;> exact ⟨rfl, rfl⟩
  · intro sq ex hsq hex
    refine ((C137_spread_missing 53 (by norm_num) 2 (by norm_num) someLog sq ex hex (den_pos (by norm_num) hsq).2 1 1 (by norm_num) ?_
      [67, 72, 64, 64, 64, 64] (List.replicate 6 64) hbars 5 (by simp)).1).2 (.inr ⟨_, beta_neg, by norm_num⟩)
    have h2 := someLog_good 2 (by norm_num)
    have h3 : 0 < Real.log (2 : ℚ) := Real.log_pos (by norm_num)
    rw [abs_of_pos h3] at h2
    have h5 : (0 : ℝ) < someLog 2 := by
      have := (abs_le.1 h2).1
      norm_num at this h3
      linarith
    exact_mod_cast h5
  · intro f out hx hy ho
    exact exact_zero 67 72 (by norm_num) (by norm_num) f hx hy out ho

private theorem floor_32 {x : ℚ} (h : 1 / 2 ^ 32 ≤ x) : 1 / 2 ^ 32 ≤ roundBits 53 x := by
  have h1 := roundBits_mono 53 (by norm_num) h
  rwa [show roundBits 53 (1 / 2 ^ 32) = 1 / 2 ^ 32 by decide +kernel] at h1

private theorem alpha_pos {sq : ℚ → ℚ} (hsq : GoodSqrt 53 sq) :
    ∃ a : ℚ, alphaR (roundBits 53) sq (.fin (1 / 2 ^ 57)) (.fin 0) = .fin a ∧ 1 / 2 ^ 32 ≤ a := by
  obtain ⟨hdn, hd⟩ := den_pos (p := 53) (by norm_num) hsq
  refine ⟨_, by rw [alpha_val (by norm_num) hd le_rfl, if_neg (by norm_num)], le_max_of_le_left (floor_32 ?_)⟩
  have h0 : sq 0 = 0 := by
    have := hsq 0 le_rfl
    simp only [Rat.cast_zero, Real.sqrt_zero, zero_div, sub_zero] at this
    exact_mod_cast abs_nonpos_iff.1 this
  rw [zero_div, roundBits_zero, h0, sub_zero]
  refine floor_32 ?_
  have hs1 : (1.414 : ℝ) ≤ √2 := Real.le_sqrt_of_sq_le (by norm_num)
  have ha : (2 : ℚ) / 5 ≤ roundBits 53 (sq 2 - 1) := by
    have h1 := (abs_le.1 (root_two_near (p := 53) (by norm_num) hsq)).1
    have h2 : ((2 / 5 : ℚ) : ℝ) ≤ (roundBits 53 (sq 2 - 1) : ℚ) := by
      push_cast
      norm_num at h1 hs1
      linarith
    exact_mod_cast h2
  have hd1 : denR (roundBits 53) sq ≤ 1 := by
    have h1 := (abs_le.1 hdn).2
    have h2 : ((denR (roundBits 53) sq : ℚ) : ℝ) ≤ (1 : ℚ) := by
      push_cast
      norm_num at h1 hs1
      linarith
    exact_mod_cast h2
  have hb : (1 : ℚ) / 2 ^ 30 ≤ sq (1 / 2 ^ 57) := by
    have h1 := hsq (1 / 2 ^ 57) (by norm_num)
    have h2 : (1 : ℝ) / 2 ^ 29 ≤ √((1 / 2 ^ 57 : ℚ) : ℝ) := Real.le_sqrt_of_sq_le (by norm_num)
    have h3 : ((1 / 2 ^ 30 : ℚ) : ℝ) ≤ (sq (1 / 2 ^ 57) : ℚ) := by
      have h4 := (abs_le.1 h1).1
      generalize √((1 / 2 ^ 57 : ℚ) : ℝ) = t at *
      generalize sq (1 / 2 ^ 57) = u at *
      push_cast
      norm_num at h2 h4 ⊢
      linarith
    exact_mod_cast h3
  have hm : 1 / 2 ^ 32 ≤ roundBits 53 (roundBits 53 (sq 2 - 1) * sq (1 / 2 ^ 57)) := by
    refine floor_32 ?_
    have := mul_le_mul ha hb (by norm_num) (by linarith)
    refine le_trans ?_ this
    norm_num
  rw [le_div_iff₀ hd]
  refine le_trans ?_ hm
  have := mul_le_mul_of_nonneg_left hd1 (show (0 : ℚ) ≤ 1 / 2 ^ 32 by norm_num)
  linarith

/-- C137: the Corwin-Schultz spread in double precision can be positive although the last four bars are flat and the exact spread
is 0. -/
theorem C137_zero_refuted : ∃ lg : ℚ → ℚ, GoodLog 53 lg ∧ lg 1 = 0 ∧ ∃ H L : List ℚ, Bars H L ∧
    (∀ x ∈ H ++ L, ∃ n : ℕ, x = n) ∧ (∀ j, 2 ≤ j → j < H.length → H.getD j 0 = 64 ∧ L.getD j 0 = 64) ∧ 5 < H.length ∧
    (∀ sq ex : ℚ → ℚ, GoodSqrt 53 sq → GoodExp 53 ex →
      ∃ q, (corwinSchultzR (roundBits 53) lg sq ex 2 (H.map .fin) (L.map .fin)).getD 5 .nan = .fin q ∧ 0 < q) ∧
    ∀ (f : Frame ℝ) (out : List (XF ℝ)), f.col "high" = .ok ((H.map .fin).map toReal) →
      f.col "low" = .ok ((L.map .fin).map toReal) → Feat.corwinSchultz 2 "high" "low" f = .ok out → out.getD 5 .nan = .fin 0 := by
  have hbars : Bars [76, 77, 64, 64, 64, 64] (List.replicate 6 64) := ⟨by simp, by decide +kernel, by decide +kernel⟩
  refine ⟨someLog, someLog_good, by simp [someLog], [76, 77, 64, 64, 64, 64], List.replicate 6 64, hbars, ?_, ?_, by simp, ?_, ?_⟩
  · intro x hx
    simp only [List.replicate, List.cons_append, List.nil_append, List.mem_cons, List.not_mem_nil, or_false] at hx
    rcases hx with rfl | rfl | rfl | rfl | rfl | rfl | rfl | rfl | rfl | rfl | rfl | rfl
    · exact ⟨76, by norm_num⟩
    · exact ⟨77, by norm_num⟩
    all_goals exact ⟨64, by norm_num⟩
  · intro j h1 h2
    have : j = 2 ∨ j = 3 ∨ j = 4 ∨ j = 5 := by simp at h2; omega
    rcases this with rfl | rfl | rfl | rfl <;> exact ⟨rfl, rfl⟩
  · intro sq ex hsq hxp
    have hG : (gammaR (roundBits 53) someLog (([76, 77, 64, 64, 64, 64] : List ℚ).map .fin)
        ((List.replicate 6 (64 : ℚ)).map .fin)).getD 5 .nan = .fin 0 := by
      rw [gammaR, zipWith_getD _ _ _ .nan .nan (by simp [rolling]) 5 (by simp [rolling]), roll_max _ 4 (by simp),
        roll_min _ 4 (by simp)]
      have := range_64 (a := 64) (v := 0) (by norm_num) (by decide +kernel) (by norm_num [someLog])
      rw [mul_zero, roundBits_zero] at this
      simpa using this
    obtain ⟨a, ha, ha32⟩ := alpha_pos hsq
    have hE : 1 < ex a := by
      have h1 := hxp a
      have h2 : ((1 / 2 ^ 32 : ℚ) : ℝ) ≤ a := by exact_mod_cast ha32
      push_cast at h2
      have h3 := Real.add_one_le_exp (a : ℝ)
      have h4 := (abs_le.1 h1).1
      generalize Real.exp (a : ℝ) = E at *
      have h5 : (1 : ℝ) < ex a := by
        norm_num at h2 h4
        linarith
      exact_mod_cast h5
    obtain ⟨f1, f2, -, -⟩ := spread_fin (p := 53) (by norm_num) (ex := ex) (a := a) hE.le
    refine ⟨roundBits 53 (2 * roundBits 53 (ex a - 1) / roundBits 53 (1 + ex a)), ?_, ?_⟩
    · rw [corwinSchultzR, List.getD_eq_getElem _ _ (by simp [betaR, pairR, gammaR, rollMean, rollSum, rolling]), List.getElem_map,
        ← List.getD_eq_getElem _ .nan, zipWith_getD _ _ _ .nan .nan (by simp [betaR, pairR, gammaR, rollMean, rollSum, rolling]) 5
        (by simp [betaR, pairR, rollMean, rollSum]), beta_pos, hG, ha, f1]
    · exact roundBits_pos 53 (by norm_num) (div_pos (mul_pos (by norm_num) (roundBits_pos 53 (by norm_num) (by linarith)))
        (by linarith))
  · intro f out hx hy ho
    exact exact_zero 76 77 (by norm_num) (by norm_num) f hx hy out ho

section Examples

private theorem exists_sqrt : ∃ sq : ℚ → ℚ, GoodSqrt 53 sq := by
  have : ∀ x : ℚ, ∃ v : ℚ, 0 ≤ x → |(v : ℝ) - √x| ≤ √x / 2 ^ 53 := by
    intro x
    rcases (Real.sqrt_nonneg (x : ℝ)).eq_or_lt with h | h
    · exact ⟨0, fun _ => by simp [← h]⟩
    · have hpos : 0 < √(x : ℝ) / 2 ^ 53 := by positivity
      obtain ⟨v, h1, h2⟩ := exists_rat_btwn (show √(x : ℝ) < √x + √x / 2 ^ 53 by linarith)
      exact ⟨v, fun _ => abs_le.2 ⟨by linarith, by linarith⟩⟩
  choose sq h using this
  exact ⟨sq, h⟩

private theorem exists_exp : ∃ ex : ℚ → ℚ, GoodExp 53 ex ∧ ∀ x, 0 ≤ x → 1 ≤ ex x := by
  have : ∀ x : ℚ, ∃ v : ℚ, Real.exp x < v ∧ (v : ℝ) < Real.exp x + 2 * Real.exp x / 2 ^ 53 := by
    intro x
    have hpos : 0 < 2 * Real.exp x / 2 ^ 53 := by positivity
    exact exists_rat_btwn (by linarith)
  choose ex h using this
  refine ⟨ex, fun x => abs_le.2 ⟨?_, by linarith [(h x).2]⟩, fun x hx => ?_⟩
  · have hpos : 0 < 2 * Real.exp x / 2 ^ 53 := by positivity
    linarith [(h x).1]
  · have h1 : (1 : ℝ) ≤ Real.exp x := Real.one_le_exp (by exact_mod_cast hx)
    have h2 : (1 : ℝ) ≤ ex x := by linarith [(h x).1]
    exact_mod_cast h2

private noncomputable def sample : Frame ℝ :=
  ⟨["high", "low"], [(0, [.fin 2, .fin 1]), (1, [.fin 4, .fin 2]), (2, [.fin 3, .fin 2])]⟩

private theorem sample_bars : Bars [2, 4, 3] [1, 2, 2] := ⟨rfl, by decide +kernel, by decide +kernel⟩

private theorem sample_cols : sample.col "high" = .ok ((([2, 4, 3] : List ℚ).map .fin).map toReal) ∧
    sample.col "low" = .ok ((([1, 2, 2] : List ℚ).map .fin).map toReal) := by
  constructor <;> simp [sample, Frame.col, Frame.values, toReal, List.idxOf, List.findIdx, List.findIdx.go]

private theorem log_le_two {x : ℝ} (h1 : 1 ≤ x) (h2 : x ≤ 3) : |Real.log x| ≤ 2 := by
  rw [abs_of_nonneg (Real.log_nonneg h1)]
  linarith [Real.log_le_sub_one_of_pos (show 0 < x by linarith)]

private theorem sample_log : ∀ j ≤ 2, |Real.log (((([2, 4, 3] : List ℚ).getD j 0 : ℚ) : ℝ) / (([1, 2, 2] : List ℚ).getD j 0 : ℚ))| ≤
    (2 : ℚ) := by
  intro j hj
  have : j = 0 ∨ j = 1 ∨ j = 2 := by omega
  rcases this with rfl | rfl | rfl <;> simp only [List.getD_cons_zero, List.getD_cons_succ] <;> push_cast <;>
    exact log_le_two (by norm_num) (by norm_num)

/-- All assumptions of the theorems about the spread hold for three bars. -/
example : ∃ lg sq ex : ℚ → ℚ, GoodLog 53 lg ∧ GoodSqrt 53 sq ∧ GoodExp 53 ex ∧ ∀ out, Feat.corwinSchultz 1 "high" "low" sample = .ok out →
    ∃ q s, (corwinSchultzR (roundBits 53) lg sq ex 1 (([2, 4, 3] : List ℚ).map .fin) (([1, 2, 2] : List ℚ).map .fin)).getD 2 .nan = .fin q ∧
      out.getD 2 .nan = .fin s ∧ |(q : ℝ) - s| ≤ 61 * (1 + 2) * √((2 + 1) / 2 ^ 53) := by
  obtain ⟨sq, hsq⟩ := exists_sqrt
  obtain ⟨ex, hxp, hex⟩ := exists_exp
  refine ⟨someLog, sq, ex, someLog_good, hsq, hxp, fun out ho => ?_⟩
  have hdef := C137_spread_defined 53 (by norm_num) 1 le_rfl someLog sq ex someLog_good hsq hex [2, 4, 3] [1, 2, 2] sample_bars 2
    (by simp) (by norm_num) (by norm_num) 2 (by norm_num) sample_log (by
      intro j h1 h2
      have : j = 1 := by omega
      subst this
      simp only [List.getD_cons_zero, List.getD_cons_succ]
      push_cast
      have h3 : (1 : ℝ) / 2 ≤ Real.log (4 / 2) := by
        rw [show (4 : ℝ) / 2 = 2 by norm_num]
        linarith [Real.log_two_gt_d9]
      have h4 : (1 / 2 : ℝ) ^ 2 ≤ Real.log (4 / 2) ^ 2 := pow_le_pow_left₀ (by norm_num) h3 2
      have h5 := sq_nonneg (Real.log (3 / 2))
      norm_num at h4 h5 ⊢
      linarith)
  obtain ⟨q, hq, -, -⟩ := hdef
  rcases C137_spread 53 (by norm_num) 1 le_rfl someLog sq ex someLog_good hsq hxp hex [2, 4, 3] [1, 2, 2] sample_bars 2 (by simp)
    (by norm_num) (by norm_num) 2 (by norm_num) sample_log (by
      simp only [List.getD_cons_zero, List.getD_cons_succ, Nat.reduceSub]
      push_cast
      norm_num
      exact log_le_two (by norm_num) (by norm_num)) "high" "low" sample sample_cols.1 sample_cols.2 out ho with h | ⟨q', s, h1, h2, h3⟩
  · rw [h.1] at hq
    cases hq
  · exact ⟨q', s, h1, h2, by exact_mod_cast h3⟩

private theorem near_rat {x c : ℝ} (hx : 0 < x) (hc : 0 < c) : ∃ v : ℚ, |(v : ℝ) - x| ≤ c * x / 2 ^ 53 := by
  have hpos : 0 < c * x / 2 ^ 53 := by positivity
  obtain ⟨v, h1, h2⟩ := exists_rat_btwn (show x < x + c * x / 2 ^ 53 by linarith)
  exact ⟨v, abs_le.2 ⟨by linarith, by linarith⟩⟩

/-- All assumptions of the theorem about the Beckers-Parkinson volatility hold for three bars. -/
example : ∃ (lg sq : ℚ → ℚ) (h2 k2 : ℚ), GoodLog 53 lg ∧ GoodSqrt 53 sq ∧ ∀ out, Feat.beckersParkinson 1 "high" "low" sample = .ok out →
    ((beckersParkinsonR (roundBits 53) lg sq h2 k2 1 (([2, 4, 3] : List ℚ).map .fin) (([1, 2, 2] : List ℚ).map .fin)).getD 2 .nan = .nan ∧
      ∃ b, (betaR (roundBits 53) lg 1 (([2, 4, 3] : List ℚ).map .fin) (([1, 2, 2] : List ℚ).map .fin)).getD 2 .nan = .fin b ∧ b < 0) ∨
    ∃ q s, (beckersParkinsonR (roundBits 53) lg sq h2 k2 1 (([2, 4, 3] : List ℚ).map .fin) (([1, 2, 2] : List ℚ).map .fin)).getD 2 .nan =
      .fin q ∧ out.getD 2 .nan = .fin s ∧ |(q : ℝ) - s| ≤ 42 * (1 + 2) * √((2 + 1) / 2 ^ 53) := by
  obtain ⟨sq, hsq⟩ := exists_sqrt
  obtain ⟨h2, hh⟩ := near_rat (x := 1 / √2) (c := 2) (by positivity) (by norm_num)
  obtain ⟨k2, hk⟩ := near_rat (x := √(8 / Real.pi)) (c := 3) (Real.sqrt_pos.2 (div_pos (by norm_num) Real.pi_pos)) (by norm_num)
  refine ⟨someLog, sq, h2, k2, someLog_good, hsq, fun out ho => ?_⟩
  have := C137_sigma 53 (by norm_num) 1 le_rfl someLog sq someLog_good hsq h2 k2 hh hk [2, 4, 3] [1, 2, 2] sample_bars 2 (by simp)
    (by norm_num) (by norm_num) 2 (by norm_num) sample_log (by
      simp only [List.getD_cons_zero, List.getD_cons_succ, Nat.reduceSub]
      push_cast
      norm_num
      exact log_le_two (by norm_num) (by norm_num)) "high" "low" sample sample_cols.1 sample_cols.2 out ho
  push_cast at this
  exact this

/-- All assumptions of the theorem about Parkinson's volatility hold for three bars. -/
example : ∀ out, Feat.parkinson 1 "high" "low" sample = .ok out → NearR (15 * (2 + 1) * (1 + 2) ^ 2 / 2 ^ 53)
    ((parkinsonR (roundBits 53) someLog 1 (([2, 4, 3] : List ℚ).map .fin) (([1, 2, 2] : List ℚ).map .fin)).getD 2 .nan)
    (out.getD 2 .nan) := by
  intro out ho
  have := C137_parkinson 53 (by norm_num) 1 le_rfl someLog someLog_good (([2, 4, 3] : List ℚ).map .fin) (([1, 2, 2] : List ℚ).map .fin)
    rfl 2 (by simp) (by norm_num) 2 (by norm_num) (by
      intro j hj a b ha hb _
      have h := sample_log j hj
      have : j = 0 ∨ j = 1 ∨ j = 2 := by omega
      rcases this with rfl | rfl | rfl <;> simp at ha hb <;> subst ha <;> subst hb <;> exact h) "high" "low" sample
    sample_cols.1 sample_cols.2 out ho
  push_cast at this
  exact this

/-- All assumptions of the theorem about the lambdas hold for three bars. -/
example : ∀ out, Feat.amihud 1 "high" "low" sample = .ok out → NearR (66 * (2 + 1) * 2 / (1 * 2 ^ 53))
    ((amihudR (roundBits 53) someLog 1 (([2, 4, 3] : List ℚ).map .fin) (([1, 2, 2] : List ℚ).map .fin)).getD 2 .nan)
    (out.getD 2 .nan) := by
  intro out ho
  obtain ⟨sq, hsq⟩ := exists_sqrt
  have := ((C137_lambda 53 (by norm_num) 1 le_rfl someLog sq someLog_good hsq [2, 4, 3] [1, 2, 2] sample_bars 2 (by simp) (by norm_num) 2 1
    (by norm_num) (by
      intro j hj
      have : j = 0 ∨ j = 1 ∨ j = 2 := by omega
      rcases this with rfl | rfl | rfl <;> simp only [List.getD_cons_zero, List.getD_cons_succ] <;> push_cast
      · exact log_le_two (by norm_num) (by norm_num)
      · rw [show (4 : ℝ) = 2 * 2 by norm_num, Real.log_mul (by norm_num) (by norm_num), abs_of_nonneg] <;>
          linarith [Real.log_two_lt_d9, Real.log_two_gt_d9]
      · exact log_le_two (by norm_num) (by norm_num)) (by norm_num) "high" "low" sample sample_cols.1 sample_cols.2 out).1 ho
    (by
      intro j hj
      have : j = 0 ∨ j = 1 ∨ j = 2 := by omega
      rcases this with rfl | rfl | rfl <;> decide +kernel)).1
  push_cast at this
  exact this

/-- The frame exists and the exact spread is defined. -/
example : ∃ out, Feat.corwinSchultz 1 "high" "low" sample = .ok out := by
  refine ⟨_, rfl⟩

end Examples

end Mizar.Props
