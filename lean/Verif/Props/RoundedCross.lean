import Verif.Props.RoundedRoll
import Verif.Lemmas.RoundedCross

/-!
Property theorems C132: moving averages and their crossings in floating point
(`/repo/mizarlabs/transformers/technical/moving_average.py` lines 52-97).
-/

namespace Mizar.Props
open Mizar.Spec Mizar.Rd

/-- C132: without rounding these are the signals of `MovingAverageCrossOver`. -/
theorem C132_exact (fast slow : ℕ) (hf : 1 ≤ fast) (hs : 1 ≤ slow) (name : String) (fill : Bool) (f : Frame ℚ)
    (c r : List (XF ℚ)) (hc : f.col name = .ok c) (hr : Tech.crossOver fast slow name fill f = .ok r) :
    r = Rd.crossOver id fast slow fill f.index c := by
  unfold Tech.crossOver at hr
  simp only [hc, Py.bind_ok, rollE, if_neg (show ¬ ((fast : ℤ) < 0) by omega), if_neg (show ¬ ((slow : ℤ) < 0) by omega),
    Int.toNat_natCast] at hr
  cases hr
  rw [crossOver_eq, (C131_exact fast hf c).2, (C131_exact slow hs c).2]
  rfl

/-- C132: whatever the rounding, a mean of non-negative numbers is not negative (the illiquidity measures of
`second_generation.py` are means of absolute values), and a mean of negative numbers is not positive. -/
theorem C132_sign (r : ℚ → ℚ) (w : ℕ) (hw : 1 ≤ w) (l : List (XF ℚ)) (i : ℕ) (hi : i < l.length) (q : ℚ)
    (hq : (rollMean r w l).getD i .nan = .fin q) :
    ((∀ x ∈ winAt w i l, 0 ≤ x.toK) → 0 ≤ q) ∧ ((∀ x ∈ winAt w i l, x.toK < 0) → q ≤ 0) := by
  rw [rollMean_getD r hw l i hi] at hq
  split_ifs at hq with hc
  cases hq
  exact fixSign_sign _ _

/-- C132: a mean is off by at most `26 (i+1) M / 2^p` at position `i`. -/
theorem C132_drift (p : ℕ) (hp : 8 ≤ p) (w : ℕ) (hw : 1 ≤ w) (l : List (XF ℚ)) (M : ℚ) (hM0 : 0 ≤ M)
    (hM : ∀ x ∈ l, |x.toK| ≤ M) (i : ℕ) (hi : i < l.length) (hn : 24 * (i + 1) ≤ 2 ^ p) :
    Near (26 * (i + 1) * M / 2 ^ p) ((rollMean (roundBits p) w l).getD i .nan) ((rolling w winMean l).getD i .nan) := by
  rw [rollMean_getD _ hw l i hi, rolling_mean_at hw l i hi]
  by_cases hc : w ≤ i + 1 ∧ (winAt w i l).any XF.undef = false
  · rw [if_pos hc, if_pos hc]
    refine .inr ⟨_, _, rfl, rfl, ?_⟩
    have hw0 : (0 : ℚ) < w := by exact_mod_cast hw
    have hp2 : (0 : ℚ) < 2 ^ p := by positivity
    refine (fixSign_near (fun h => div_nonneg (sum_toK_nonneg h) hw0.le)
      (fun h => div_nonpos_of_nonpos_of_nonneg (sum_toK_nonpos h) hw0.le)).trans ?_
    have h1 := (rollState_drift hp hw hM0 hM (i + 1) (by omega) hn).1
    rw [win_eq] at h1
    have hS : |((winAt w i l).map XF.toK).sum| ≤ w * M := by
      have := pre_bound hM (k := i + 1 - w) (n := i + 1) (by omega) (by omega)
      have e := win_eq XF.toK w l i
      rw [win] at e
      rw [e, show i + 1 - (i + 1 - w) = w by omega] at this
      exact this
    set s := (rollState (roundBits p) w l (i + 1)).s
    set S := ((winAt w i l).map XF.toK).sum
    have h2 : |s / w - S / w| ≤ 24 * (i + 1) * M / 2 ^ p := by
      rw [← sub_div, abs_div, abs_of_pos hw0, div_le_iff₀ hw0]
      refine h1.trans (le_of_eq ?_)
      push_cast
      ring
    have h3 : |S / w| ≤ M := by
      rw [abs_div, abs_of_pos hw0, div_le_iff₀ hw0]
      linarith
    have h4 : 24 * (i + 1) * M / 2 ^ p ≤ M := by
      rw [div_le_iff₀ hp2]
      have : (24 * (i + 1) : ℚ) ≤ 2 ^ p := by exact_mod_cast hn
      nlinarith
    have h5 : |s / w| ≤ 2 * M := by
      have := abs_sub_abs_le_abs_sub (s / w) (S / w)
      linarith
    have h6 := roundBits_error p (by omega) (s / w)
    have h7 : |s / w| / 2 ^ p ≤ 2 * M / 2 ^ p := div_le_div_of_nonneg_right h5 hp2.le
    have h8 := abs_sub_le (roundBits p (s / w)) (s / w) (S / w)
    have h9 : 2 * M / 2 ^ p + 24 * (i + 1) * M / 2 ^ p ≤ 26 * (i + 1) * M / 2 ^ p := by
      rw [← add_div]
      apply div_le_div_of_nonneg_right _ hp2.le
      have : (0 : ℚ) ≤ i := by positivity
      nlinarith
    linarith
  · rw [if_neg hc, if_neg hc]
    exact .inl ⟨rfl, rfl⟩

/-- C132: prices that are whole multiples of a power of two (ticks), at most `T` of them, have the crossings of the exact
averages if `2 · fast · slow · T < 2^p`. -/
theorem C132_ticks_partial (p : ℕ) (hp : 1 ≤ p) (e : ℤ) (T fast slow : ℕ) (hf : 1 ≤ fast) (hs : 1 ≤ slow) (fill : Bool)
    (index : List ℤ) (c : List (XF ℚ)) (hc : Ticks e T c) (hT : 2 * fast * slow * T < 2 ^ p) :
    Rd.crossOver (roundBits p) fast slow fill index c = Rd.crossOver id fast slow fill index c := by
  have hgf : OnGrid p e fast c := ticks_onGrid hc (lt_of_le_of_lt (by nlinarith [Nat.zero_le (fast * T)]) hT)
  have hgs : OnGrid p e slow c := ticks_onGrid hc (lt_of_le_of_lt (by nlinarith [Nat.zero_le (slow * T)]) hT)
  rw [crossOver_eq, crossOver_eq, (C131_exact fast hf c).2, (C131_exact slow hs c).2, (C131_grid p hp e fast hf c hgf).2,
    (C131_grid p hp e slow hs c hgs).2]
  apply signals_congr
  · rw [rolling_length, rolling_length]
  · rw [List.length_map, List.length_map, rolling_length, rolling_length]
  · rw [List.length_map]
  · intro i hi
    rw [rolling_length] at hi
    have hm : ∀ l : List (XF ℚ), (l.map (rnd (roundBits p))).getD i .nan = rnd (roundBits p) (l.getD i .nan) := by
      intro l
      by_cases h : i < l.length
      · rw [List.getD_eq_getElem _ _ (by simpa using h), List.getElem_map, List.getD_eq_getElem _ _ h]
      · rw [List.getD_eq_default _ _ (by simpa using h), List.getD_eq_default _ _ (by simpa using h)]
        rfl
    rw [hm, hm, rolling_mean_at hf c i hi, rolling_mean_at hs c i hi]
    by_cases h1 : fast ≤ i + 1 ∧ (winAt fast i c).any XF.undef = false
    · by_cases h2 : slow ≤ i + 1 ∧ (winAt slow i c).any XF.undef = false
      · rw [if_pos h1, if_pos h2]
        obtain ⟨a, ha, ha'⟩ := ticks_sum (e := e) (T := T) (m := winAt fast i c)
          fun x hx => hc x (List.mem_of_mem_take (List.mem_of_mem_drop hx))
        obtain ⟨b, hb, hb'⟩ := ticks_sum (e := e) (T := T) (m := winAt slow i c)
          fun x hx => hc x (List.mem_of_mem_take (List.mem_of_mem_drop hx))
        rw [winAt_length fast i c h1.1 hi] at ha'
        rw [winAt_length slow i c h2.1 hi] at hb'
        rw [ha, hb]
        exact sameOrder_fin (round_fractions hp hf hs ha' hb' hT)
          (round_fractions hp hs hf hb' ha' (by rw [show 2 * slow * fast * T = 2 * fast * slow * T by ring]; exact hT))
      · rw [if_neg h2]
        exact sameOrder_nan_right _ _
    · rw [if_neg h1]
      exact sameOrder_nan_left _ _

/-- C132: in general, averages that are never closer together than the errors of the means have the exact crossings. -/
theorem C132_margin_partial (p : ℕ) (hp : 8 ≤ p) (fast slow : ℕ) (hf : 1 ≤ fast) (hs : 1 ≤ slow) (fill : Bool)
    (index : List ℤ) (c : List (XF ℚ)) (M : ℚ) (hM0 : 0 ≤ M) (hM : ∀ x ∈ c, |x.toK| ≤ M) (hn : 24 * c.length ≤ 2 ^ p)
    (hgap : ∀ i a b, (rolling fast winMean c).getD i .nan = .fin a → (rolling slow winMean c).getD i .nan = .fin b →
      52 * (i + 1) * M / 2 ^ p < |a - b|) :
    Rd.crossOver (roundBits p) fast slow fill index c = Rd.crossOver id fast slow fill index c := by
  rw [crossOver_eq, crossOver_eq, (C131_exact fast hf c).2, (C131_exact slow hs c).2]
  apply signals_congr
  · rw [rolling_length, rolling_length]
  · rw [rollMean_length, rollMean_length]
  · rw [rollMean_length, rolling_length]
  · intro i hi
    rw [rolling_length] at hi
    have h1 := C132_drift p hp fast hf c M hM0 hM i hi (by omega)
    have h2 := C132_drift p hp slow hs c M hM0 hM i hi (by omega)
    rcases h1 with ⟨h1, h1'⟩ | ⟨a', a, h1, h1', ha⟩
    · rw [h1, h1']; exact sameOrder_nan_left _ _
    rcases h2 with ⟨h2, h2'⟩ | ⟨b', b, h2, h2', hb⟩
    · rw [h2, h2']; exact sameOrder_nan_right _ _
    have hg := hgap i a b h1' h2'
    rw [h1, h1', h2, h2']
    have ha := abs_le.1 ha
    have hb := abs_le.1 hb
    have e : 52 * ((i : ℚ) + 1) * M / 2 ^ p = 2 * (26 * (i + 1) * M / 2 ^ p) := by ring
    rw [e] at hg
    rcases lt_abs.1 hg with h | h
    · exact sameOrder_fin ⟨fun h' => by linarith, fun h' => by linarith⟩ ⟨fun h' => by linarith, fun h' => by linarith⟩
    · exact sameOrder_fin ⟨fun h' => by linarith, fun h' => by linarith⟩ ⟨fun h' => by linarith, fun h' => by linarith⟩

/-- C132: the unit of the price does not matter if it changes by a power of two. -/
theorem C132_scale (p : ℕ) (k : ℤ) (fast slow : ℕ) (fill : Bool) (index : List ℤ) (c : List (XF ℚ)) :
    Rd.crossOver (roundBits p) fast slow fill index (c.map fun x => XF.mul x (.fin (2 ^ k))) =
      Rd.crossOver (roundBits p) fast slow fill index c := by
  have hc : (0 : ℚ) < 2 ^ k := two_zpow_pos k
  have hr := roundBits_zpow p k
  show Rd.crossOver (roundBits p) fast slow fill index (c.map (scale (2 ^ k))) = _
  rw [crossOver_eq, crossOver_eq, rollMean_scale hr hc, rollMean_scale hr hc]
  apply signals_congr
  · rw [rollMean_length, rollMean_length]
  · rw [List.length_map, List.length_map, rollMean_length, rollMean_length]
  · rw [List.length_map]
  · intro i _
    rw [getD_scale, getD_scale]
    have key : ∀ x y : XF ℚ, (x = .nan ∨ ∃ a, x = .fin a) → (y = .nan ∨ ∃ b, y = .fin b) →
        SameOrder (scale (2 ^ k) x) (scale (2 ^ k) y) x y := by
      rintro x y (rfl | ⟨a, rfl⟩) hy
      · exact sameOrder_nan_left _ _
      · rcases hy with rfl | ⟨b, rfl⟩
        · exact sameOrder_nan_right _ _
        · exact sameOrder_fin (mul_lt_mul_iff_of_pos_right hc) (mul_lt_mul_iff_of_pos_right hc)
    have hval : ∀ w, (rollMean (roundBits p) w c).getD i .nan = .nan ∨ ∃ a, (rollMean (roundBits p) w c).getD i .nan = .fin a := by
      intro w
      by_cases h : i < (rollMean (roundBits p) w c).length
      · rw [List.getD_eq_getElem _ _ h]
        simp only [rollMean, List.getElem_map, calcMean]
        split_ifs
        · exact .inr ⟨_, rfl⟩
        · exact .inr ⟨_, rfl⟩
        · exact .inr ⟨_, rfl⟩
        · exact .inl rfl
      · exact .inl (List.getD_eq_default _ _ (by omega))
    exact key _ _ (hval fast) (hval slow)

/-! The doubles nearest to 0.1, 0.2 and 0.3 -/

private def d1 : ℚ := toDouble (1 / 10)
private def d2 : ℚ := toDouble (2 / 10)
private def d3 : ℚ := toDouble (3 / 10)

/-- C132: prices that jump between 0.1 and 0.2 have equal averages over 2 and over 4 bars, but the signal is given. -/
theorem C132_equal_averages_refuted : ∃ c : List (XF ℚ),
    (∀ i, 3 ≤ i → (rolling 2 winMean c).getD i .nan = (rolling 4 winMean c).getD i .nan) ∧
    Rd.crossOver id 2 4 false [0, 1, 2, 3, 4, 5] c = [0, 0, 0, 0, 0, 0].map .fin ∧
    Rd.crossOver (roundBits 53) 2 4 false [0, 1, 2, 3, 4, 5] c ≠ [0, 0, 0, 0, 0, 0].map .fin := by
  refine ⟨[d1, d2, d1, d2, d1, d2].map .fin, fun i hi => ?_, by decide +kernel, by decide +kernel⟩
  match i with
  | 3 => decide +kernel
  | 4 => decide +kernel
  | 5 => decide +kernel
  | n + 6 => simp [rolling, rollAt]

/-- C132: a price that never moves gives signals in both directions. -/
theorem C132_flat_refuted :
    Rd.crossOver (roundBits 53) 2 6 false [0, 1, 2, 3, 4, 5, 6, 7, 8, 9, 10, 11] (List.replicate 12 (.fin d1)) =
      [0, 0, 0, 0, 0, 0, 0, 1, 0, -1, 0, 1].map .fin ∧
    Rd.crossOver id 2 6 false [0, 1, 2, 3, 4, 5, 6, 7, 8, 9, 10, 11] (List.replicate 12 (.fin d1)) =
      List.replicate 12 (.fin 0) := by decide +kernel

/-- C132: the sign of a rolling sum is not put right, so that the mean of the sums of two non-negative numbers each
(`_get_beta`, `first_generation.py` lines 126-129) is negative after a quiet stretch, and its square root (line 162) missing. -/
theorem C132_beta_refuted : ∃ l : List (XF ℚ), (∀ x ∈ l, ∃ q, x = .fin q ∧ 0 ≤ q) ∧
    ∃ q, (rollMean (roundBits 53) 2 (rollSum (roundBits 53) 2 l)).getD 4 .nan = .fin q ∧ q < 0 := by
  refine ⟨[d1, d3, 0, 0, 0].map .fin, ?_, -1 / 18014398509481984, by decide +kernel⟩
  intro x hx
  obtain ⟨q, hq, rfl⟩ := List.mem_map.1 hx
  refine ⟨q, rfl, ?_⟩
  have : ∀ q ∈ [d1, d3, 0, 0, 0], 0 ≤ q := by decide +kernel
  exact this q hq

/-- The hypotheses of `C132_ticks_partial` hold for prices in quarters, `T = 15`. -/
example : Ticks (-2) 15 ([10 / 4, 11 / 4, 9 / 4, 15 / 4].map .fin) ∧ 2 * 1 * 2 * 15 < 2 ^ 53 ∧
    Rd.crossOver (roundBits 53) 1 2 false [0, 1, 2, 3] ([10 / 4, 11 / 4, 9 / 4, 15 / 4].map .fin) =
      [0, 0, -1, 1].map .fin := by
  refine ⟨?_, by norm_num, by decide +kernel⟩
  intro x hx
  simp only [List.map_cons, List.map_nil, List.mem_cons, List.not_mem_nil, or_false] at hx
  rcases hx with rfl | rfl | rfl | rfl
  · exact ⟨10, by norm_num [XF.toK], by decide⟩
  · exact ⟨11, by norm_num [XF.toK], by decide⟩
  · exact ⟨9, by norm_num [XF.toK], by decide⟩
  · exact ⟨15, by norm_num [XF.toK], by decide⟩

/-- The gap of `C132_margin_partial` is there for prices 0.1, 0.3, 0.1, 0.3 and windows 1 and 2. -/
example : (∀ x ∈ [d1, d3, d1, d3].map XF.fin, |x.toK| ≤ 1) ∧
    (∀ i : ℕ, i < 4 → 1 ≤ i → 52 * ((i : ℚ) + 1) * 1 / 2 ^ 53 <
      |((rolling 1 winMean ([d1, d3, d1, d3].map XF.fin)).getD i .nan).toK -
        ((rolling 2 winMean ([d1, d3, d1, d3].map XF.fin)).getD i .nan).toK|) ∧
    Rd.crossOver (roundBits 53) 1 2 false [0, 1, 2, 3] ([d1, d3, d1, d3].map .fin) = [0, 0, -1, 1].map .fin := by
  decide +kernel

/-- The means of decimal prices in double precision differ from the exact ones by less than 10^-14. -/
example : Near (26 * ((3 : ℕ) + 1) * 1 / 2 ^ 53) ((rollMean (roundBits 53) 2 ([d1, d3, d1, d3].map .fin)).getD 3 .nan)
      ((rolling 2 winMean ([d1, d3, d1, d3].map .fin)).getD 3 .nan) ∧ (26 * ((3 : ℕ) + 1) * 1 / 2 ^ 53 : ℚ) < 2 / 10 ^ 14 :=
  ⟨C132_drift 53 (by norm_num) 2 (by norm_num) _ 1 (by norm_num) (by decide +kernel) 3 (by decide) (by norm_num), by norm_num⟩

end Mizar.Props
