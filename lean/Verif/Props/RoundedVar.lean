import Verif.Props.RoundedRoll
import Verif.Lemmas.VarDrift
import Verif.Lemmas.RoundedCross

/-!
Property theorems C133: rolling standard deviations and `RollingZScoreTransformer` in floating point
(`/repo/mizarlabs/transformers/features/rolling_z_score.py` lines 33-44).
-/

namespace Mizar.Props
open Mizar.Spec Mizar.Rd

/-- C133: without rounding, the variances carried along are those of the windows, whatever comes first. -/
theorem C133_exact {K : Type} [Field K] [LinearOrder K] [IsStrictOrderedRing K] (b : Bool) (w : ℕ) (hw : 1 ≤ w)
    (l : List (XF K)) : rollVar id b w l = rolling w winVar l := by
  apply List.ext_getElem (by simp [rollVar, rolling])
  intro i h1 h2
  have hi : i < l.length := by simpa [rolling] using h2
  rw [← List.getD_eq_getElem _ .nan h1, rollVar_at id b hw l i hi]
  simp only [rolling, List.getElem_map, List.getElem_range]
  rw [rollAt_at]
  have hf := varState_fits b hw l (i + 1) (by omega)
  rw [seg_winAt] at hf
  have hnobs := varNobs_full id b hw l i hi
  generalize varState id b w l (i + 1) = st at hf hnobs ⊢
  by_cases hc : w ≤ i + 1 ∧ (winAt w i l).any XF.undef = false
  · have hl : (winAt w i l).length = w := winAt_length w i l hc.1 hi
    have hn : st.nobs = w := hnobs.2 (hnobs.1.2 hc)
    rw [if_pos hc, winVar, winCov, List.length_map, hl]
    by_cases hw2 : 2 ≤ w
    · rw [if_pos ⟨hw2, hc⟩, if_neg (by omega)]
      have hw0 : (0 : K) < w := by exact_mod_cast hw
      have hw1 : (0 : K) < w - 1 := by
        have : (1 : K) < w := by exact_mod_cast hw2
        linarith
      have hm : st.mean = ((winAt w i l).map XF.toK).sum / w := by
        rw [eq_div_iff hw0.ne', ← hf.mean, hn]
        push_cast
        rfl
      have hq : (List.zipWith (· * ·) ((winAt w i l).map XF.toK) ((winAt w i l).map XF.toK)).sum = sumSq (winAt w i l) := by
        rw [List.zipWith_self, List.map_map]
        rfl
      have hss : st.ss = (List.zipWith (· * ·) ((winAt w i l).map XF.toK) ((winAt w i l).map XF.toK)).sum -
          ((winAt w i l).map XF.toK).sum * ((winAt w i l).map XF.toK).sum / w := by
        rw [hf.ss, hq, hm]
        ring
      have hpos : 0 ≤ st.ss := by
        have := fits_nonneg hf
        exact this
      rw [id, max_eq_right (div_nonneg hpos (by push_cast; exact hw1.le)), hss]
      push_cast
      rfl
    · rw [if_neg fun h => hw2 h.1, if_pos (by omega)]
  · rw [if_neg fun h => hc h.2, if_neg hc]

/-- C133: without rounding these are the z-scores of the model of `RollingZScoreTransformer`. -/
theorem C133_exact_zscore (b : Bool) (w : ℕ) (hw : 1 ≤ w) (x : List (XF ℝ)) :
    Feat.zScore w x = .ok (Rd.zScore id Real.sqrt b w x) := by
  have hid : ∀ y : XF ℝ, rnd id y = y := by intro y; cases y <;> rfl
  have hstd : rollStd id Real.sqrt b w x = rolling w Feat.winStd x := by
    have : rolling w Feat.winStd x = (rolling w winVar x).map XF.sqrt := by
      rw [rolling, rolling, List.map_map]
      apply List.map_congr_left
      intro i _
      rw [Function.comp_apply, rollAt_at, rollAt_at]
      split_ifs <;> rfl
    rw [this, ← C133_exact b w hw x, rollStd]
    apply List.map_congr_left
    intro y hy
    obtain ⟨i, hi, rfl⟩ := List.mem_iff_getElem.1 hy
    have hi' : i < x.length := by simpa [rollVar] using hi
    rw [← List.getD_eq_getElem _ .nan hi, rollVar_at id b hw x i hi']
    split_ifs
    · rw [XF.sqrt, if_neg (not_lt.2 (le_max_left _ _))]
      rfl
    · rfl
  unfold Feat.zScore Rd.zScore
  simp only [rollE, if_neg (show ¬ ((w : ℤ) < 0) by omega), Int.toNat_natCast, Py.bind_ok, hid, hstd, (C131_exact w hw x).2]

/-- C133: whatever the rounding, a variance is there exactly if the window has at least two rows and is complete, and it is
not negative, so that the standard deviation is a number. -/
theorem C133_nonneg (r : ℚ → ℚ) (b : Bool) (w : ℕ) (hw : 1 ≤ w) (l : List (XF ℚ)) (i : ℕ) (hi : i < l.length) :
    (2 ≤ w ∧ w ≤ i + 1 ∧ (∀ x ∈ winAt w i l, ∃ q, x = .fin q) → ∃ q, (rollVar r b w l).getD i .nan = .fin q ∧ 0 ≤ q) ∧
    (¬ (2 ≤ w ∧ w ≤ i + 1 ∧ (∀ x ∈ winAt w i l, ∃ q, x = .fin q)) → (rollVar r b w l).getD i .nan = .nan) := by
  have hu : (∀ x ∈ winAt w i l, ∃ q, x = .fin q) ↔ (winAt w i l).any XF.undef = false := by
    rw [List.any_eq_false]
    refine forall₂_congr fun x _ => ?_
    cases x <;> simp [XF.undef, XF.isNan, XF.isInf]
  rw [rollVar_at r b hw l i hi]
  rw [hu]
  exact ⟨fun hc => by rw [if_pos hc]; exact ⟨_, rfl, le_max_left _ _⟩, fun hc => by rw [if_neg hc]⟩

example : rollVar id true 2 [.fin (1 : ℚ), .fin 3, .nan, .fin 4, .fin 4] = [.nan, .fin 2, .nan, .nan, .fin 0] := by
  decide +kernel

/-- C133: the variance at position `i` is off by at most `2046 (i+1)² M² / 2^p`, where `M` is the largest number of the
series, for both orders. -/
theorem C133_drift (p : ℕ) (hp : 8 ≤ p) (b : Bool) (w : ℕ) (hw : 1 ≤ w) (l : List (XF ℚ)) (M : ℚ) (hM0 : 0 ≤ M)
    (hM : ∀ x ∈ l, |x.toK| ≤ M) (i : ℕ) (hi : i < l.length) (h1 : 42 * (i + 1) * (w + 1) ≤ 2 ^ p)
    (h2 : 680 * (i + 1) ^ 2 ≤ 2 ^ p) :
    Near (2046 * (i + 1) ^ 2 * M ^ 2 / 2 ^ p) ((rollVar (roundBits p) b w l).getD i .nan)
      ((rolling w winVar l).getD i .nan) := by
  rw [← C133_exact b w hw l, rollVar_at _ b hw l i hi, rollVar_at _ b hw l i hi]
  by_cases hc : 2 ≤ w ∧ w ≤ i + 1 ∧ (winAt w i l).any XF.undef = false
  · rw [if_pos hc, if_pos hc]
    refine .inr ⟨_, _, rfl, rfl, ?_⟩
    have hP : (0 : ℚ) < 2 ^ p := by positivity
    have he : (1 : ℚ) / 2 ^ p ≤ 1 / 256 := by
      apply one_div_le_one_div_of_le (by norm_num)
      calc (256 : ℚ) = 2 ^ 8 := by norm_num
        _ ≤ 2 ^ p := pow_le_pow_right₀ (by norm_num) hp
    have hr : ∀ x, |roundBits p x - x| ≤ 1 / 2 ^ p * |x| := by
      intro x
      have := roundBits_error p (by omega) x
      rw [div_eq_mul_inv, mul_comm, ← one_div] at this
      exact this
    have k1 : 42 * ((i + 1 : ℕ) : ℚ) * ((w : ℚ) + 1) * (1 / 2 ^ p) ≤ 1 := by
      rw [mul_one_div, div_le_one hP]
      exact_mod_cast h1
    have k2 : 680 * (((i + 1 : ℕ) : ℚ) * ((i + 1 : ℕ) : ℚ)) * (1 / 2 ^ p) ≤ 1 := by
      rw [mul_one_div, div_le_one hP, ← pow_two]
      exact_mod_cast h2
    obtain ⟨a, a0⟩ := var_near (by positivity) he hM0 hr b hc.1 hM (i + 1) (by omega) (by omega) k1 k2
    rw [id, max_eq_right a0]
    have hmax : ∀ {x y : ℚ}, 0 ≤ y → |max 0 x - y| ≤ |x - y| := by
      intro x y hy
      by_cases hx : x ≤ 0
      · rw [max_eq_left hx, abs_of_nonpos (by linarith), abs_of_nonpos (by linarith)]
        linarith
      · rw [max_eq_right (by linarith)]
    refine (hmax a0).trans (a.trans (le_of_eq ?_))
    push_cast
    ring
  · rw [if_neg hc, if_neg hc]
    exact .inl ⟨rfl, rfl⟩

/-- The bound for a thousand rows of numbers up to 1: the variance is off by less than 3 / 10^7. -/
example : (2046 * (999 + 1) ^ 2 * 1 ^ 2 / 2 ^ 53 : ℚ) < 3 / 10 ^ 7 ∧ 680 * (999 + 1) ^ 2 ≤ 2 ^ 53 ∧
    42 * (999 + 1) * (100 + 1) ≤ 2 ^ 53 := by norm_num

/-- C133: a column with only one number has variance 0 wherever there is one, whatever the rounding; so no z-score of it is
a number. -/
theorem C133_constant {K : Type} [Field K] [LinearOrder K] [IsStrictOrderedRing K] (r sq : K → K) (b : Bool) (w : ℕ)
    (hw : 1 ≤ w) (l : List (XF K)) (v : K) (h0 : r 0 = 0) (hv : r v = v) (hs : sq 0 = 0) (hl : ∀ q, .fin q ∈ l → q = v)
    (i : ℕ) (hi : i < l.length) :
    ((rollVar r b w l).getD i .nan = .fin 0 ∨ (rollVar r b w l).getD i .nan = .nan) ∧
      ∀ q, (Rd.zScore r sq b w l).getD i .nan ≠ .fin q := by
  have key : (rollVar r b w l).getD i .nan = .fin 0 ∨ (rollVar r b w l).getD i .nan = .nan := by
    rw [rollVar_at r b hw l i hi]
    split_ifs
    · left
      rw [(varState_still h0 hv b hw hl (i + 1) (by omega)).ss, zero_div, h0, max_self]
    · exact .inr rfl
  refine ⟨key, fun q hq => ?_⟩
  have hlen : i < (rollVar r b w l).length := by simpa [rollVar] using hi
  have hz : i < (Rd.zScore r sq b w l).length := by simpa [Rd.zScore, rollStd, rollVar, rollMean] using hi
  rw [List.getD_eq_getElem _ _ hz] at hq
  rw [List.getD_eq_getElem _ _ hlen] at key
  simp only [Rd.zScore, rollStd, List.getElem_zipWith, List.getElem_map] at hq
  generalize rnd r ((l[i]'hi).sub _) = d at hq
  rcases key with h | h <;> rw [h] at hq
  · simp only [rnd, hs] at hq
    cases d with
    | fin x =>
      by_cases hx : x = 0
      · simp [XF.div, XF.infSign, hx] at hq
      · rcases lt_or_gt_of_ne hx with hx' | hx'
        · simp [XF.div, XF.infSign, hx', not_lt.2 hx'.le] at hq
        · simp [XF.div, XF.infSign, hx'] at hq
    | _ => simp [XF.div] at hq
  · cases d <;> simp [rnd, XF.div] at hq

example : roundBits 53 0 = 0 ∧ roundBits 53 (toDouble (1 / 10)) = toDouble (1 / 10) ∧
    rollVar (roundBits 53) true 2 [.fin (toDouble (1 / 10)), .fin (toDouble (1 / 10)), .nan] = [.nan, .fin 0, .nan] := by
  decide +kernel

/-- C133: the unit does not matter if it changes by a power of two: variances change by its square, z-scores not at all.
`sq` is any root that takes part in that. -/
theorem C133_scale (p : ℕ) (k : ℤ) (sq : ℚ → ℚ) (hsq : ∀ x, sq (x * (2 ^ k * 2 ^ k)) = sq x * 2 ^ k) (b : Bool) (w : ℕ)
    (l : List (XF ℚ)) :
    rollVar (roundBits p) b w (l.map fun x => XF.mul x (.fin (2 ^ k))) =
      (rollVar (roundBits p) b w l).map (fun x => XF.mul x (.fin (2 ^ k * 2 ^ k))) ∧
    Rd.zScore (roundBits p) sq b w (l.map fun x => XF.mul x (.fin (2 ^ k))) = Rd.zScore (roundBits p) sq b w l := by
  have hc : (0 : ℚ) < 2 ^ k := two_zpow_pos k
  have hr := roundBits_zpow p k
  have hv := rollVar_scale hr b w l hc
  refine ⟨hv, ?_⟩
  show Rd.zScore (roundBits p) sq b w (l.map (scale (2 ^ k))) = _
  have hstd : rollStd (roundBits p) sq b w (l.map (scale (2 ^ k))) = (rollStd (roundBits p) sq b w l).map (scale (2 ^ k)) := by
    rw [rollStd, rollStd, hv, List.map_map, List.map_map]
    apply List.map_congr_left
    intro x _
    cases x <;> simp [scale, XF.mul, rnd, XF.infSign, XF.neg, hsq, hc]
  unfold Rd.zScore
  rw [hstd, rollMean_scale hr hc, List.zipWith_map]
  simp only [sub_scale hc, rnd_scale hr hc]
  rw [← List.map_zipWith (f := scale (2 ^ k)), List.zipWith_map]
  simp only [div_scale hc]

/-- A root to the nearest power of two below takes part. -/
example (k : ℤ) : ∀ x : ℚ, (fun x : ℚ => if x ≤ 0 then 0 else (2 : ℚ) ^ (Int.log 2 x / 2)) (x * (2 ^ k * 2 ^ k)) =
    (fun x : ℚ => if x ≤ 0 then 0 else (2 : ℚ) ^ (Int.log 2 x / 2)) x * 2 ^ k := by
  intro x
  have hc : (0 : ℚ) < 2 ^ k * 2 ^ k := mul_pos (two_zpow_pos k) (two_zpow_pos k)
  dsimp only
  by_cases hx : x ≤ 0
  · rw [if_pos hx, if_pos (mul_nonpos_of_nonpos_of_nonneg hx hc.le), zero_mul]
  · rw [if_neg hx, if_neg (by push Not at hx ⊢; exact mul_pos hx hc)]
    push Not at hx
    have hlog : Int.log 2 (x * (2 ^ k * 2 ^ k)) = Int.log 2 x + 2 * k := by
      have e : (2 : ℚ) ^ k * 2 ^ k = 2 ^ (2 * k) := by rw [two_mul, zpow_add₀ (by norm_num)]
      rw [e]
      have h1 := Int.zpow_log_le_self (b := 2) (by norm_num) hx
      have h2 := Int.lt_zpow_succ_log_self (b := 2) (by norm_num) x
      have hp := two_zpow_pos (2 * k)
      push_cast at h1 h2
      apply le_antisymm
      · rw [← Int.lt_add_one_iff, ← Int.lt_zpow_iff_log_lt (by norm_num) (mul_pos hx hp)]
        push_cast
        rw [show Int.log 2 x + 2 * k + 1 = Int.log 2 x + 1 + 2 * k by ring, zpow_add₀ (by norm_num)]
        exact mul_lt_mul_of_pos_right h2 hp
      · rw [← Int.zpow_le_iff_le_log (by norm_num) (mul_pos hx hp)]
        push_cast
        rw [zpow_add₀ (by norm_num)]
        exact mul_le_mul_of_nonneg_right h1 hp.le
    rw [hlog, ← zpow_add₀ (by norm_num)]
    congr 1
    omega

/-- The double nearest to 0.1. -/
private def tenth : ℚ := toDouble (1 / 10)

/-- C133: one outlier stays in the variances of all windows after it: with 2^60 at the start, the variance of 2, 3, 4 is
2^66 and not 1, in both orders; so the z-score of the last one is 2^-33 and not 1. -/
theorem C133_outlier_refuted (b : Bool) :
    (rollVar (roundBits 53) b 3 ([2 ^ 60, 1, 2, 3, 4].map .fin)).getD 4 .nan = .fin (2 ^ 66) ∧
    (rolling 3 winVar ([2 ^ 60, 1, 2, 3, 4].map .fin)).getD 4 .nan = .fin (1 : ℚ) ∧
    (∀ sq : ℚ → ℚ, sq (2 ^ 66) = 2 ^ 33 →
      (Rd.zScore (roundBits 53) sq b 3 ([2 ^ 60, 1, 2, 3, 4].map .fin)).getD 4 .nan = .fin (1 / 2 ^ 33)) ∧
    (∀ sq : ℚ → ℚ, sq 1 = 1 → (Rd.zScore id sq b 3 ([2 ^ 60, 1, 2, 3, 4].map .fin)).getD 4 .nan = .fin 1) := by
  have hz : ∀ (r sq : ℚ → ℚ) (l : List (XF ℚ)) (hl : l.length = 5), (Rd.zScore r sq b 3 l).getD 4 .nan =
      rnd r (XF.div (rnd r (XF.sub (l.getD 4 .nan) ((rollMean r 3 l).getD 4 .nan))) (rnd sq ((rollVar r b 3 l).getD 4 .nan))) := by
    intro r sq l hl
    have h1 : 4 < (Rd.zScore r sq b 3 l).length := by simp [Rd.zScore, rollStd, rollVar, rollMean, hl]
    have h2 : 4 < (rollVar r b 3 l).length := by simp [rollVar, hl]
    have h3 : 4 < (rollMean r 3 l).length := by simp [rollMean, hl]
    rw [List.getD_eq_getElem _ _ h1, List.getD_eq_getElem _ _ h2, List.getD_eq_getElem _ _ h3,
      List.getD_eq_getElem _ _ (show 4 < l.length by omega)]
    simp only [Rd.zScore, rollStd, List.getElem_zipWith, List.getElem_map]
  have hv : (rollVar (roundBits 53) b 3 ([2 ^ 60, 1, 2, 3, 4].map .fin)).getD 4 .nan = .fin (2 ^ 66) := by
    cases b <;> decide +kernel
  have hvid : (rollVar id b 3 ([2 ^ 60, 1, 2, 3, 4].map .fin)).getD 4 .nan = .fin (1 : ℚ) := by cases b <;> decide +kernel
  refine ⟨hv, by decide +kernel, fun sq hs => ?_, fun sq hs => ?_⟩
  · rw [hz _ _ _ rfl, hv, rnd, hs]
    decide +kernel
  · rw [hz _ _ _ rfl, hvid, rnd, hs]
    decide +kernel

/-- C133: a column that stands still can have positive variance because of what was before, in both orders; the exact
one is 0. -/
theorem C133_still_refuted (b : Bool) :
    ∃ q, 0 < q ∧ (rollVar (roundBits 53) b 3 ([0, 0, 0, tenth, tenth, tenth].map .fin)).getD 5 .nan = .fin q ∧
      (rolling 3 winVar ([0, 0, 0, tenth, tenth, tenth].map .fin)).getD 5 .nan = .fin 0 := by
  cases b
  · exact ⟨1 / 2305843009213693952, by decide +kernel⟩
  · exact ⟨3 / 2305843009213693952, by decide +kernel⟩

/-- C133: the orders do not agree.  With one gap of a day in a column of durations of a minute in nanoseconds, the window
behind it has variance 1/3; the one order gives 0, the other one 2^39. -/
theorem C133_order_refuted :
    (rollVar (roundBits 53) false 3 ([60000000000, 86400000000000, 60000000000, 60000000001, 60000000001].map .fin)).getD 4 .nan =
      .fin 0 ∧
    (rollVar (roundBits 53) true 3 ([60000000000, 86400000000000, 60000000000, 60000000001, 60000000001].map .fin)).getD 4 .nan =
      .fin (2 ^ 39) ∧
    (rolling 3 winVar ([60000000000, 86400000000000, 60000000000, 60000000001, 60000000001].map .fin)).getD 4 .nan =
      .fin (1 / 3 : ℚ) := by decide +kernel

/-- C133: the mean of a column that never changes can be beside it; then the z-scores are infinite, with changing sign,
where the exact ones are missing. -/
theorem C133_infinite_refuted (b : Bool) (sq : ℚ → ℚ) (hs : sq 0 = 0) :
    (Rd.zScore (roundBits 53) sq b 6 (List.replicate 8 (.fin tenth))).getD 5 .nan = .ninf ∧
    (Rd.zScore (roundBits 53) sq b 6 (List.replicate 8 (.fin tenth))).getD 7 .nan = .pinf ∧
    (Rd.zScore id sq b 6 (List.replicate 8 (.fin tenth))).getD 5 .nan = .nan := by
  have hv : ∀ (r : ℚ → ℚ), (rollVar r b 6 (List.replicate 8 (.fin tenth)) = List.replicate 5 .nan ++ List.replicate 3 (.fin 0)) →
      rollStd r sq b 6 (List.replicate 8 (.fin tenth)) = List.replicate 5 .nan ++ List.replicate 3 (.fin 0) := by
    intro r h
    rw [rollStd, h]
    simp [rnd, hs]
  unfold Rd.zScore
  rw [hv (roundBits 53) (by cases b <;> decide +kernel), hv id (by cases b <;> decide +kernel)]
  decide +kernel

end Mizar.Props
