import Verif.Props.RoundedMicro

/-!
Property theorems C136, continued: the measure itself, steady trends, scaling, Kyle's lambda, and where Roll's measure fails in
floating point.
-/

namespace Mizar.Props
open Mizar.Spec Mizar.Rd

private theorem rnd_undef (r : ℚ → ℚ) (x : XF ℚ) : (rnd r x).undef = x.undef := by cases x <;> rfl

private theorem rnd_toK {r : ℚ → ℚ} (h0 : r 0 = 0) (x : XF ℚ) : (rnd r x).toK = r x.toK := by
  cases x <;> simp [rnd, XF.toK, h0]

private theorem root_close {a b δ : ℝ} (ha : 0 ≤ a) (hb : 0 ≤ b) (h : |a - b| ≤ δ) : |√a - √b| ≤ √δ := by
  have h0 := Real.sqrt_nonneg a
  have h1 := Real.sqrt_nonneg b
  have e : (√a - √b) * (√a + √b) = a - b := by
    have := Real.mul_self_sqrt ha
    have := Real.mul_self_sqrt hb
    linarith
  have e' : |√a - √b| * (√a + √b) = |a - b| := by
    rw [← e, abs_mul, abs_of_nonneg (add_nonneg h0 h1)]
  apply Real.le_sqrt_of_sq_le
  have h2 : |√a - √b| ≤ √a + √b := abs_le.2 ⟨by linarith, by linarith⟩
  have := mul_le_mul_of_nonneg_left h2 (abs_nonneg (√a - √b))
  rw [pow_two]
  linarith

/-- C136: Roll's measure, for any square root with a relative error of at most `2^-p`: missing exactly where the covariance of
successive price changes is, otherwise off by at most `2 (√δ + (√|k| + √δ) / 2^p)`, where `k` is that covariance and `δ` the bound
of `C136_prices`. -/
theorem C136_measure (p : ℕ) (hp : 8 ≤ p) (w : ℕ) (hw : 2 ≤ w) (sq : ℚ → ℚ)
    (hsq : ∀ x : ℚ, 0 ≤ x → |(sq x : ℝ) - √x| ≤ √x / 2 ^ p) (close : List (XF ℚ)) (M : ℚ) (hM0 : 0 ≤ M)
    (hM : ∀ a ∈ pdDiff close, |a.toK| ≤ M) (i : ℕ) (hi : i < close.length) (hn : 24 * (i + 1) ≤ 2 ^ p) (δ : ℚ)
    (hδ : δ = 251 * (i + 1) * M ^ 2 / 2 ^ p) :
    ((rollMeasureR (roundBits p) sq w close).getD i .nan = .nan ∧
      (rolling2 w winCov (pdDiff close) (pdShift (pdDiff close))).getD i .nan = .nan) ∨
    ∃ m k : ℚ, (rollMeasureR (roundBits p) sq w close).getD i .nan = .fin m ∧
      (rolling2 w winCov (pdDiff close) (pdShift (pdDiff close))).getD i .nan = .fin k ∧
      |(m : ℝ) - 2 * √(|(k : ℝ)|)| ≤ 2 * (√(δ : ℝ) + (√(|(k : ℝ)|) + √(δ : ℝ)) / 2 ^ p) := by
  have h := C136_prices p hp w hw close M hM0 hM i hi hn
  rw [← hδ] at h
  have hlen : i < (priceCovR (roundBits p) w close).length := by
    simpa [priceCovR, rollCovR, diffR] using hi
  have e : (rollMeasureR (roundBits p) sq w close).getD i .nan =
      XF.mul (.fin 2) (rnd sq (XF.abs ((priceCovR (roundBits p) w close).getD i .nan))) := by
    rw [rollMeasureR, List.getD_eq_getElem _ _ (by simpa using hlen), List.getElem_map, List.getD_eq_getElem _ _ hlen]
  obtain ⟨h1, h2⟩ | ⟨c, k, h1, h2, h3⟩ := h
  · exact .inl ⟨by rw [e, h1]; rfl, h2⟩
  · refine .inr ⟨2 * sq |c|, k, by rw [e, h1]; rfl, h2, ?_⟩
    have h4 : |(|(c : ℝ)| - |(k : ℝ)|)| ≤ (δ : ℝ) := by
      refine (abs_abs_sub_abs_le _ _).trans ?_
      exact_mod_cast h3
    have h5 := root_close (abs_nonneg _) (abs_nonneg _) h4
    have h6 := hsq |c| (abs_nonneg c)
    rw [Rat.cast_abs] at h6
    have h7 : √(|(c : ℝ)|) ≤ √(|(k : ℝ)|) + √(δ : ℝ) := by linarith [(abs_le.1 h5).2]
    have h8 : √(|(c : ℝ)|) / 2 ^ p ≤ (√(|(k : ℝ)|) + √(δ : ℝ)) / 2 ^ p := by gcongr
    have h9 := abs_sub_le (sq |c| : ℝ) (√(|(c : ℝ)|)) (√(|(k : ℝ)|))
    push_cast
    rw [← mul_sub, abs_mul, abs_of_pos (show (0 : ℝ) < 2 by norm_num)]
    linarith

/-- Series on a grid whose windows have small sums. -/
private theorem grid_of {p : ℕ} {e : ℤ} {T w : ℕ} (hT : w * T < 2 ^ p) (l : List (XF ℚ))
    (h : ∀ x ∈ l, ∃ m : ℤ, x.toK = m * 2 ^ e ∧ |m| ≤ T) : OnGrid p e w l := by
  refine ⟨fun x hx => (h x hx).imp fun m hm => hm.1, fun i _ => ?_⟩
  have he := two_zpow_pos e
  have hb : ∀ L : List (XF ℚ), (∀ x ∈ L, x ∈ l) → (L.map fun x => |x.toK|).sum ≤ L.length * (T * 2 ^ e) := by
    intro L
    induction L with
    | nil => simp
    | cons x L ih =>
      intro hL
      have h1 := ih fun y hy => hL y (by simp [hy])
      obtain ⟨m, hm, hmT⟩ := h x (hL x (by simp))
      have h2 : |x.toK| ≤ T * 2 ^ e := by
        rw [hm, abs_mul, abs_of_pos he]
        apply mul_le_mul_of_nonneg_right _ he.le
        exact_mod_cast hmT
      rw [List.map_cons, List.sum_cons, List.length_cons]
      push_cast
      linarith
  have h1 := hb (winAt w i l) fun x hx => List.mem_of_mem_take (List.mem_of_mem_drop hx)
  have h2 : (winAt w i l).length ≤ w := by
    simp only [winAt, List.length_drop, List.length_take]
    omega
  have h3 : ((winAt w i l).length : ℚ) * (T * 2 ^ e) ≤ w * (T * 2 ^ e) := by
    apply mul_le_mul_of_nonneg_right _ (by positivity)
    exact_mod_cast h2
  have h4 : (w : ℚ) * T < 2 ^ p := by exact_mod_cast hT
  have h5 := mul_lt_mul_of_pos_right h4 he
  linarith

private theorem sum_const {d : ℚ} {L : List ℚ} (h : ∀ u ∈ L, u = d) : L.sum = L.length * d := by
  rw [List.eq_replicate_of_mem h, List.sum_replicate, List.length_replicate, nsmul_eq_mul]

private theorem zip_const {d d' : ℚ} (f : ℚ → ℚ → ℚ) {L L' : List ℚ} (h : ∀ u ∈ L, u = d) (h' : ∀ u ∈ L', u = d') :
    ∀ u ∈ List.zipWith f L L', u = f d d' := by
  induction L generalizing L' with
  | nil => simp
  | cons a L ih =>
    cases L' with
    | nil => simp
    | cons b L' =>
      intro u hu
      rw [List.zipWith_cons_cons] at hu
      rcases List.mem_cons.1 hu with rfl | hu
      · rw [h a (by simp), h' b (by simp)]
      · exact ih (fun u hu => h u (by simp [hu])) (fun u hu => h' u (by simp [hu])) u hu

/-- C136: two series of whole numbers of ticks whose products of a window add up to fewer than `2^p` of them: a window in which both
are constant has the covariance zero, whatever came before it. -/
theorem C136_flat (p : ℕ) (hp : 1 ≤ p) (e : ℤ) (T w : ℕ) (hw : 2 ≤ w) (x y : List (XF ℚ)) (hl : x.length = y.length)
    (hx : Ticks e T x) (hy : Ticks e T y) (hT : w * T ^ 2 < 2 ^ p) (i : ℕ) (hi : i < x.length) (hwi : w ≤ i + 1) (d d' : ℚ)
    (hd : ∀ a ∈ winAt w i x, a = .fin d) (hd' : ∀ a ∈ winAt w i y, a = .fin d') :
    (rollCovR (roundBits p) w x y).getD i .nan = .fin 0 := by
  have hw1 : 1 ≤ w := by omega
  have h0 := roundBits_zero p
  have he := two_zpow_pos e
  have hTT : w * T < 2 ^ p := lt_of_le_of_lt (Nat.mul_le_mul_left w (Nat.le_self_pow (by norm_num) T)) hT
  have hnu : ∀ (l : List (XF ℚ)) (q : ℚ), (∀ a ∈ winAt w i l, a = .fin q) → (winAt w i l).any XF.undef = false := by
    intro l q h
    rw [List.any_eq_false]
    intro a ha
    rw [h a ha]
    simp [XF.undef, XF.isNan, XF.isInf]
  have hf : Full w i x y := ⟨hwi, hnu x d hd, hnu y d' hd'⟩
  -- the numbers in the windows
  have htk : ∀ (l : List (XF ℚ)) (q : ℚ), (∀ a ∈ winAt w i l, a = .fin q) → ∀ u ∈ (winAt w i l).map XF.toK, u = q := by
    intro l q h u hu
    obtain ⟨a, ha, rfl⟩ := List.mem_map.1 hu
    rw [h a ha]
    rfl
  have hne : ∀ l : List (XF ℚ), i < l.length → ∃ a, a ∈ winAt w i l := by
    intro l h
    exact List.exists_mem_of_length_pos (by rw [winAt_length w i l hwi h]; omega)
  have hmem : ∀ l : List (XF ℚ), ∀ a ∈ winAt w i l, a ∈ l := fun l a ha => List.mem_of_mem_take (List.mem_of_mem_drop ha)
  obtain ⟨a, ha⟩ := hne x hi
  obtain ⟨b, hb⟩ := hne y (by omega)
  obtain ⟨m, hm, hmT⟩ := hx a (hmem x a ha)
  obtain ⟨n, hn, hnT⟩ := hy b (hmem y b hb)
  rw [hd a ha, XF.toK] at hm
  rw [hd' b hb, XF.toK] at hn
  have hsmall : ∀ z : ℤ, |z| ≤ (T : ℤ) ^ 2 → |z| < 2 ^ p := by
    intro z hz
    have h1 : ((w * T ^ 2 : ℕ) : ℤ) < 2 ^ p := by exact_mod_cast hT
    have h2 : (T : ℤ) ^ 2 ≤ ((w * T ^ 2 : ℕ) : ℤ) := by
      push_cast
      have : (1 : ℤ) ≤ w := by omega
      nlinarith [sq_nonneg (T : ℤ)]
    linarith
  have hTsq : (T : ℤ) ≤ (T : ℤ) ^ 2 := by exact_mod_cast Nat.le_self_pow (by norm_num) T
  have hself : ∀ (z f : ℤ), |z| < 2 ^ p → roundBits p (z * 2 ^ f) = z * 2 ^ f := by
    intro z f hz
    rw [roundBits_zpow, roundBits_eq_self p hp (isFloat_int p z hz)]
  have hprod : ∀ z t : ℤ, |z| ≤ T → |t| ≤ T → |z * t| ≤ (T : ℤ) ^ 2 := by
    intro z t hz ht
    rw [abs_mul, pow_two]
    exact mul_le_mul hz ht (abs_nonneg _) (by positivity)
  have e2 : ((2 : ℚ) ^ (e + e)) = 2 ^ e * 2 ^ e := zpow_add₀ (by norm_num) e e
  -- grids
  have prepT : ∀ u v : List (XF ℚ), Ticks e T u → ∀ a ∈ prepBinary u v, ∃ m : ℤ, a.toK = m * 2 ^ e ∧ |m| ≤ T := by
    intro u v hu a ha
    rw [prepBinary, List.zipWith_eq_zipWith_take_min, ← List.map_uncurry_zip_eq_zipWith] at ha
    obtain ⟨⟨s, t⟩, hst, rfl⟩ := List.mem_map.1 ha
    obtain ⟨m, hm, hmT⟩ := hu s (List.mem_of_mem_take (List.of_mem_zip hst).1)
    rw [Function.uncurry_apply_pair, prep_toK]
    split_ifs
    · exact ⟨0, by simp, by simp⟩
    · exact ⟨m, hm, hmT⟩
  have gX := grid_of hTT _ (prepT x y hx)
  have gY := grid_of hTT _ (prepT y x hy)
  have gP : OnGrid p (e + e) w (List.zipWith (prodR (roundBits p)) x y) := by
    apply grid_of hT
    intro a ha
    rw [← List.map_uncurry_zip_eq_zipWith] at ha
    obtain ⟨⟨s, t⟩, hst, rfl⟩ := List.mem_map.1 ha
    obtain ⟨m, hm, hmT⟩ := hx s (List.of_mem_zip hst).1
    obtain ⟨n, hn, hnT⟩ := hy t (List.of_mem_zip hst).2
    rw [Function.uncurry_apply_pair, prodR_toK]
    split_ifs
    · exact ⟨0, by simp, by simp⟩
    · refine ⟨m * n, ?_, by exact_mod_cast hprod m n hmT hnT⟩
      have h1 : (m : ℚ) * 2 ^ e * (n * 2 ^ e) = ((m * n : ℤ) : ℚ) * 2 ^ (e + e) := by rw [e2]; push_cast; ring
      rw [hm, hn, h1, hself _ _ (hsmall _ (hprod m n hmT hnT))]
  obtain ⟨s1, s2, s3⟩ := full_sums hl (roundBits p) hf
  have hlenx : i < (prepBinary x y).length := by simpa [prepBinary, ← hl] using hi
  have hleny : i < (prepBinary y x).length := by simpa [prepBinary, ← hl] using hi
  have hlenp : i < (List.zipWith (prodR (roundBits p)) x y).length := by simpa [← hl] using hi
  have hfx : w ≤ i + 1 ∧ (winAt w i (prepBinary x y)).any XF.undef = false := (full_iff hl (fun a b => prep_undef a b) w i).2 hf
  have hfy : w ≤ i + 1 ∧ (winAt w i (prepBinary y x)).any XF.undef = false :=
    (full_iff hl.symm (fun a b => prep_undef a b) w i).2 ⟨hf.1, hf.2.2, hf.2.1⟩
  have hfp : w ≤ i + 1 ∧ (winAt w i (List.zipWith (prodR (roundBits p)) x y)).any XF.undef = false :=
    (full_iff hl (prodR_undef (roundBits p)) w i).2 hf
  have hw0 : (w : ℚ) ≠ 0 := by positivity
  have mean : ∀ (l : List (XF ℚ)) (f : ℤ) (q : ℚ), i < l.length → OnGrid p f w l → (winAt w i l).any XF.undef = false →
      (∀ u ∈ (winAt w i l).map XF.toK, u = q) → (rollMean (roundBits p) w l).getD i .nan = .fin (roundBits p q) := by
    intro l f q hil hg hu hq
    have hv := rolling_mean_val hw1 l i hil ⟨hwi, hu⟩
    have hs := sum_const hq
    rw [List.length_map, winAt_length w i l hwi hil] at hs
    rw [(C131_grid p hp f w hw1 l hg).2, List.getD_eq_getElem _ _ (by simpa [rolling] using hil), List.getElem_map,
      ← List.getD_eq_getElem _ .nan, hv, hs, mul_div_cancel_left₀ _ hw0]
    rfl
  have m1 := mean _ _ (roundBits p (d * d')) hlenp gP hfp.2 (by rw [s1]; exact zip_const _ (htk x d hd) (htk y d' hd'))
  have m2 := mean _ _ d hlenx gX hfx.2 (by rw [s2]; exact htk x d hd)
  have m3 := mean _ _ d' hleny gY hfy.2 (by rw [s3]; exact htk y d' hd')
  have r1 : roundBits p d = d := by rw [hm]; exact hself m e (hsmall m (hmT.trans hTsq))
  have r2 : roundBits p d' = d' := by rw [hn]; exact hself n e (hsmall n (hnT.trans hTsq))
  have r3 : roundBits p (d * d') = d * d' := by
    have h1 : (m : ℚ) * 2 ^ e * (n * 2 ^ e) = ((m * n : ℤ) : ℚ) * 2 ^ (e + e) := by rw [e2]; push_cast; ring
    rw [hm, hn, h1, hself _ _ (hsmall _ (hprod m n hmT hnT))]
  rw [r3, r3] at m1
  rw [r1] at m2
  rw [r2] at m3
  rw [cov_value hl _ i hi hf m1 m2 m3, r3, sub_self, h0]
  have hw2 : (2 : ℚ) ≤ w := by exact_mod_cast hw
  rw [XF.div_fin _ _ (by linarith), rnd, XF.mul, rnd, zero_mul, h0]

private theorem mem_window {α : Type*} (w i : ℕ) (l : List α) {a : α} (h : a ∈ winAt w i l) :
    ∃ j, ∃ hj : j < l.length, i + 1 - w ≤ j ∧ j ≤ i ∧ l[j] = a := by
  obtain ⟨n, hn, he⟩ := List.mem_iff_getElem.1 h
  simp only [winAt, List.length_drop, List.length_take] at hn
  simp only [winAt, List.getElem_drop, List.getElem_take] at he
  exact ⟨i + 1 - w + n, by omega, by omega, by omega, he⟩

private theorem shift_at (l : List (XF ℚ)) (j : ℕ) (hj : j < (pdShift l).length) :
    (pdShift l)[j] = if j = 0 then .nan else l.getD (j - 1) .nan := by
  have hl : j < l.length := by simpa [pdShift] using hj
  simp only [pdShift, List.getElem_take]
  cases j with
  | zero => rfl
  | succ j => rw [List.getElem_cons_succ, if_neg (by omega), Nat.add_sub_cancel, List.getD_eq_getElem _ _ (by omega)]

private theorem diff_at (c : List ℚ) (j : ℕ) (hj : j < (pdDiff (c.map XF.fin)).length) :
    (pdDiff (c.map XF.fin))[j] = if j = 0 then .nan else .fin (c.getD j 0 - c.getD (j - 1) 0) := by
  have hl : j < c.length := by simpa [pdDiff, pdShift] using hj
  simp only [pdDiff, List.getElem_zipWith, shift_at, List.getElem_map]
  by_cases h : j = 0
  · rw [if_pos h, if_pos h]; rfl
  · rw [if_neg h, if_neg h, List.getD_eq_getElem _ _ (by simp; omega), List.getElem_map, List.getD_eq_getElem _ _ hl,
      List.getD_eq_getElem _ _ (by omega)]
    simp [XF.sub, XF.neg, XF.add, sub_eq_add_neg]

/-- C136: prices that are whole numbers of ticks and move by at most `T` ticks: where the last `w + 1` price changes are the same,
the covariance of successive price changes and Roll's measure are zero, whatever the prices did before. -/
theorem C136_trend (p : ℕ) (hp : 1 ≤ p) (e : ℤ) (T w : ℕ) (hw : 2 ≤ w) (sq : ℚ → ℚ) (hsq : sq 0 = 0) (close : List ℚ)
    (hg : ∀ x ∈ close, ∃ m : ℤ, x = m * 2 ^ e)
    (hstep : ∀ j, j + 1 < close.length → |close.getD (j + 1) 0 - close.getD j 0| ≤ T * 2 ^ e) (hT : w * T ^ 2 < 2 ^ p) (i : ℕ)
    (hi : i < close.length) (hwi : w < i) (d : ℚ)
    (hd : ∀ j, i - w ≤ j → j ≤ i → close.getD j 0 - close.getD (j - 1) 0 = d) :
    (priceCovR (roundBits p) w (close.map .fin)).getD i .nan = .fin 0 ∧
    (rollMeasureR (roundBits p) sq w (close.map .fin)).getD i .nan = .fin 0 := by
  have he := two_zpow_pos e
  have hgrid : ∀ j, j + 1 < close.length → ∃ m : ℤ, close.getD (j + 1) 0 - close.getD j 0 = m * 2 ^ e ∧ |m| ≤ T := by
    intro j hj
    have h1 : close.getD (j + 1) 0 ∈ close := by rw [List.getD_eq_getElem _ _ hj]; exact List.getElem_mem _
    have h2 : close.getD j 0 ∈ close := by rw [List.getD_eq_getElem _ _ (by omega)]; exact List.getElem_mem _
    obtain ⟨m, hm⟩ := hg _ h1
    obtain ⟨n, hn⟩ := hg _ h2
    have h3 := hstep j hj
    have e1 : close.getD (j + 1) 0 - close.getD j 0 = ((m - n : ℤ) : ℚ) * 2 ^ e := by rw [hm, hn]; push_cast; ring
    refine ⟨m - n, e1, ?_⟩
    rw [e1, abs_mul, abs_of_pos he] at h3
    have h4 := le_of_mul_le_mul_right h3 he
    exact_mod_cast h4
  have hTs : (T : ℤ) < 2 ^ p := by
    have h1 : T ≤ w * T ^ 2 := le_trans (Nat.le_self_pow (by norm_num) T) (Nat.le_mul_of_pos_left _ (by omega))
    exact_mod_cast lt_of_le_of_lt h1 hT
  -- the rounded differences are the exact ones
  have hD : ∀ j (hj : j < (diffR (roundBits p) (close.map XF.fin)).length),
      (diffR (roundBits p) (close.map XF.fin))[j] = if j = 0 then .nan else .fin (close.getD j 0 - close.getD (j - 1) 0) := by
    intro j hj
    have hjl : j < close.length := by simpa [diffR, pdDiff, pdShift] using hj
    simp only [diffR, List.getElem_map, diff_at]
    cases j with
    | zero => rfl
    | succ j =>
      rw [if_neg (by omega), rnd, Nat.add_sub_cancel]
      obtain ⟨m, hm, hmT⟩ := hgrid j hjl
      rw [hm, roundBits_zpow, roundBits_eq_self p hp (isFloat_int p m (lt_of_le_of_lt hmT hTs))]
  have hlen : (diffR (roundBits p) (close.map XF.fin)).length = close.length := by simp [diffR, pdDiff, pdShift]
  have tD : Ticks e T (diffR (roundBits p) (close.map XF.fin)) := by
    intro x hx
    obtain ⟨j, hj, rfl⟩ := List.mem_iff_getElem.1 hx
    rw [hD]
    cases j with
    | zero => exact ⟨0, by simp [XF.toK], by simp⟩
    | succ j =>
      rw [if_neg (by omega), Nat.add_sub_cancel]
      exact hgrid j (by omega)
  have tS : Ticks e T (pdShift (diffR (roundBits p) (close.map XF.fin))) := by
    intro x hx
    rcases List.mem_cons.1 (List.mem_of_mem_take hx) with rfl | h
    · exact ⟨0, by simp [XF.toK], by simp⟩
    · exact tD x h
  have h1 : (priceCovR (roundBits p) w (close.map .fin)).getD i .nan = .fin 0 := by
    refine C136_flat p hp e T w hw _ _ (by simp [pdShift]) tD tS hT i (by omega) (by omega) d d ?_ ?_
    · intro a ha
      obtain ⟨j, hj, h1, h2, rfl⟩ := mem_window w i _ ha
      rw [hD, if_neg (by omega), hd j (by omega) h2]
    · intro a ha
      obtain ⟨j, hj, h1, h2, rfl⟩ := mem_window w i _ ha
      rw [shift_at, if_neg (by omega), List.getD_eq_getElem _ _ (by omega), hD, if_neg (by omega), hd (j - 1) (by omega) (by omega)]
  refine ⟨h1, ?_⟩
  have hlc : i < (priceCovR (roundBits p) w (close.map .fin)).length := by
    simp only [priceCovR, rollCovR, List.length_map, List.length_range]
    omega
  rw [List.getD_eq_getElem _ _ hlc] at h1
  rw [rollMeasureR, List.getD_eq_getElem _ _ (by simpa using hlc), List.getElem_map, h1]
  simp [XF.abs, rnd, XF.mul, hsq]

private theorem prep_scale {c : ℚ} (hc : 0 < c) (a b : XF ℚ) :
    XF.add (scale c a) (XF.mul (.fin 0) (scale c b)) = scale c (XF.add a (XF.mul (.fin 0) b)) := by
  cases a <;> cases b <;> simp [scale, XF.mul, XF.add, XF.infSign, XF.neg, hc]

private theorem infSign_scale {c : ℚ} (hc : 0 < c) (x : ℚ) : (XF.infSign (x * c) : XF ℚ) = XF.infSign x := by
  have hn : x * c < 0 ↔ x < 0 := by
    constructor
    · intro h; by_contra h'; push Not at h'; linarith [mul_nonneg h' hc.le]
    · intro h; exact mul_neg_of_neg_of_pos h hc
  have hq : 0 < x * c ↔ 0 < x := by
    constructor
    · intro h; by_contra h'; push Not at h'; linarith [mul_nonpos_of_nonpos_of_nonneg h' hc.le]
    · intro h; exact mul_pos h hc
  simp [XF.infSign, hn, hq]

private theorem infSign_pos {c : ℚ} (hc : 0 < c) : (XF.infSign c : XF ℚ) = .pinf := by
  simp [XF.infSign, hc]

private theorem sc_pinf {c : ℚ} (hc : 0 < c) : scale c (.pinf : XF ℚ) = .pinf := infSign_pos hc

private theorem sc_ninf {c : ℚ} (hc : 0 < c) : scale c (.ninf : XF ℚ) = .ninf := by
  change XF.neg (XF.infSign c) = _
  rw [infSign_pos hc]; rfl

private theorem sc_sign {c : ℚ} (hc : 0 < c) (z : ℚ) : scale c (XF.infSign z : XF ℚ) = XF.infSign z := by
  unfold XF.infSign
  split_ifs
  · exact sc_pinf hc
  · exact sc_ninf hc
  · rfl

private theorem sc_nsign {c : ℚ} (hc : 0 < c) (z : ℚ) : scale c (XF.neg (XF.infSign z) : XF ℚ) = XF.neg (XF.infSign z) := by
  unfold XF.infSign
  split_ifs
  · exact sc_ninf hc
  · exact sc_pinf hc
  · rfl

private theorem mul_scale_left {c : ℚ} (hc : 0 < c) (a b : XF ℚ) : XF.mul (scale c a) b = scale c (XF.mul a b) := by
  cases a with
  | nan => cases b <;> rfl
  | fin x =>
    cases b with
    | nan => rfl
    | fin y => change XF.fin (x * c * y) = .fin (x * y * c); congr 1; ring
    | pinf => change XF.infSign (x * c) = scale c (XF.infSign x); rw [infSign_scale hc, sc_sign hc]
    | ninf => change XF.neg (XF.infSign (x * c)) = scale c (XF.neg (XF.infSign x)); rw [infSign_scale hc, sc_nsign hc]
  | pinf =>
    rw [sc_pinf hc]
    cases b with
    | nan => rfl
    | fin y => exact (sc_sign hc y).symm
    | pinf => exact (sc_pinf hc).symm
    | ninf => exact (sc_ninf hc).symm
  | ninf =>
    rw [sc_ninf hc]
    cases b with
    | nan => rfl
    | fin y => exact (sc_nsign hc y).symm
    | pinf => exact (sc_ninf hc).symm
    | ninf => exact (sc_pinf hc).symm

private theorem mul_swap (a b : XF ℚ) : XF.mul a b = XF.mul b a := by
  cases a <;> cases b <;> simp [XF.mul, mul_comm]

private theorem sc_sc {c : ℚ} (hc : 0 < c) (a : XF ℚ) : scale c (scale c a) = scale (c * c) a := by
  cases a with
  | nan => rfl
  | fin x => change XF.fin (x * c * c) = .fin (x * (c * c)); rw [mul_assoc]
  | pinf => rw [sc_pinf hc, sc_pinf hc, sc_pinf (mul_pos hc hc)]
  | ninf => rw [sc_ninf hc, sc_ninf hc, sc_ninf (mul_pos hc hc)]

private theorem mul_scale_both {c : ℚ} (hc : 0 < c) (a b : XF ℚ) :
    XF.mul (scale c a) (scale c b) = scale (c * c) (XF.mul a b) := by
  rw [mul_scale_left hc, mul_swap, mul_scale_left hc, mul_swap, sc_sc hc]

private theorem add_scale {c : ℚ} (hc : 0 < c) (x y : XF ℚ) : XF.add (scale c x) (scale c y) = scale c (XF.add x y) := by
  cases x <;> cases y <;> simp [scale, XF.mul, XF.neg, XF.add, XF.infSign, hc, add_mul]

private theorem div_scale_left {c : ℚ} (hc : 0 < c) (a b : XF ℚ) : XF.div (scale c a) b = scale c (XF.div a b) := by
  cases a with
  | nan => cases b <;> rfl
  | fin x =>
    cases b with
    | nan => rfl
    | fin y =>
      change (if y = 0 then XF.infSign (x * c) else XF.fin (x * c / y)) = scale c (if y = 0 then XF.infSign x else .fin (x / y))
      split_ifs
      · rw [infSign_scale hc, sc_sign hc]
      · change XF.fin (x * c / y) = .fin (x / y * c); congr 1; ring
    | pinf => change XF.fin 0 = .fin (0 * c); rw [zero_mul]
    | ninf => change XF.fin 0 = .fin (0 * c); rw [zero_mul]
  | pinf =>
    rw [sc_pinf hc]
    cases b with
    | fin y =>
      change (if y < 0 then XF.ninf else XF.pinf) = scale c (if y < 0 then XF.ninf else XF.pinf)
      split_ifs
      · exact (sc_ninf hc).symm
      · exact (sc_pinf hc).symm
    | _ => rfl
  | ninf =>
    rw [sc_ninf hc]
    cases b with
    | fin y =>
      change (if y < 0 then XF.pinf else XF.ninf) = scale c (if y < 0 then XF.pinf else XF.ninf)
      split_ifs
      · exact (sc_pinf hc).symm
      · exact (sc_ninf hc).symm
    | _ => rfl

private theorem cov_scale (p : ℕ) (k : ℤ) (w : ℕ) (x y : List (XF ℚ)) :
    rollCovR (roundBits p) w (x.map (scale (2 ^ k))) (y.map (scale (2 ^ k))) =
      (rollCovR (roundBits p) w x y).map (scale (2 ^ k * 2 ^ k)) := by
  have hc := two_zpow_pos k
  have hr := roundBits_zpow p k
  have hcc := mul_pos hc hc
  have hr2 : ∀ q, roundBits p (q * (2 ^ k * 2 ^ k)) = roundBits p q * (2 ^ k * 2 ^ k) := by
    intro q
    rw [← mul_assoc, hr, hr, mul_assoc]
  have pz : ∀ z t : List (XF ℚ), prepBinary (z.map (scale (2 ^ k))) (t.map (scale (2 ^ k))) = (prepBinary z t).map (scale (2 ^ k)) := by
    intro z t
    rw [prepBinary, prepBinary, List.zipWith_map, List.map_zipWith]
    congr 1
    funext a b
    exact prep_scale hc a b
  have mz : ∀ z t : List (XF ℚ),
      List.zipWith (fun a b => rnd (roundBits p) (XF.mul a b)) (z.map (scale (2 ^ k))) (t.map (scale (2 ^ k))) =
        (List.zipWith (fun a b => rnd (roundBits p) (XF.mul a b)) z t).map (scale (2 ^ k * 2 ^ k)) := by
    intro z t
    rw [List.zipWith_map, List.map_zipWith]
    congr 1
    funext a b
    rw [mul_scale_both hc, rnd_scale hr2 hcc]
  have az : ∀ z t : List (XF ℚ),
      List.zipWith (fun a b => rnd (roundBits p) (XF.add a b)) (z.map (scale (2 ^ k))) (t.map (scale (2 ^ k))) =
        (List.zipWith (fun a b => rnd (roundBits p) (XF.add a b)) z t).map (scale (2 ^ k)) := by
    intro z t
    rw [List.zipWith_map, List.map_zipWith]
    congr 1
    funext a b
    rw [add_scale hc, rnd_scale hr hc]
  have bz : ∀ (s : List (XF ℚ)) (i : ℕ), biasAdj (roundBits p) w (s.map (scale (2 ^ k))) i = biasAdj (roundBits p) w s i := by
    intro s i
    unfold biasAdj
    rw [Mizar.Rd.winAt_map, List.countP_map]
    have : ((fun x : XF ℚ => !x.isNan) ∘ scale (2 ^ k)) = fun x => !x.isNan := by
      funext x
      cases x <;> simp [scale, XF.mul, infSign_pos hc, XF.neg, XF.isNan]
    rw [this]
  simp only [rollCovR, List.length_map, List.map_map]
  apply List.map_congr_left
  intro i _
  simp only [Function.comp_apply]
  rw [pz, pz, mz, az, bz, rollMean_scale hr2 hcc, rollMean_scale hr hc, rollMean_scale hr hc, getD_scale, getD_scale, getD_scale,
    mul_scale_both hc, rnd_scale hr2 hcc, sub_scale hcc, rnd_scale hr2 hcc, mul_scale_left hcc, rnd_scale hr2 hcc]

private theorem diff_scale (p : ℕ) (k : ℤ) (c : List (XF ℚ)) :
    diffR (roundBits p) (c.map (scale (2 ^ k))) = (diffR (roundBits p) c).map (scale (2 ^ k)) := by
  have hc := two_zpow_pos k
  have hn : scale (2 ^ k) (.nan : XF ℚ) = .nan := rfl
  rw [diffR, diffR, pdDiff, pdDiff, pdShift, pdShift, List.length_map, ← hn, ← List.map_cons, ← List.map_take, List.zipWith_map, hn,
    List.map_map, List.map_zipWith, List.map_zipWith]
  congr 1
  funext a b
  rw [sub_scale hc, Function.comp_apply, rnd_scale (roundBits_zpow p k) hc]

/-- C136: prices in another currency unit, off by a power of two: covariances are multiplied by its square, Roll's measure and
Kyle's lambda by it, exactly. -/
theorem C136_scale (p : ℕ) (k : ℤ) (w : ℕ) (sq : ℚ → ℚ) (hsq : ∀ x, sq (x * (2 ^ k * 2 ^ k)) = sq x * 2 ^ k)
    (close volume : List (XF ℚ)) :
    priceCovR (roundBits p) w (close.map fun x => XF.mul x (.fin (2 ^ k))) =
      (priceCovR (roundBits p) w close).map (fun x => XF.mul x (.fin (2 ^ k * 2 ^ k))) ∧
    rollMeasureR (roundBits p) sq w (close.map fun x => XF.mul x (.fin (2 ^ k))) =
      (rollMeasureR (roundBits p) sq w close).map (fun x => XF.mul x (.fin (2 ^ k))) ∧
    kyleR (roundBits p) w (close.map fun x => XF.mul x (.fin (2 ^ k))) volume =
      (kyleR (roundBits p) w close volume).map (fun x => XF.mul x (.fin (2 ^ k))) := by
  have hc := two_zpow_pos k
  have hr := roundBits_zpow p k
  have hn : scale (2 ^ k) (.nan : XF ℚ) = .nan := rfl
  have h1 : priceCovR (roundBits p) w (close.map (scale (2 ^ k))) = (priceCovR (roundBits p) w close).map (scale (2 ^ k * 2 ^ k)) := by
    rw [priceCovR, priceCovR, diff_scale]
    have : pdShift ((diffR (roundBits p) close).map (scale (2 ^ k))) = (pdShift (diffR (roundBits p) close)).map (scale (2 ^ k)) := by
      rw [pdShift, pdShift, List.length_map, ← hn, ← List.map_cons, List.map_take, hn]
    rw [this, cov_scale]
  refine ⟨h1, ?_, ?_⟩
  · change rollMeasureR (roundBits p) sq w (close.map (scale (2 ^ k))) = (rollMeasureR (roundBits p) sq w close).map (scale (2 ^ k))
    rw [rollMeasureR, rollMeasureR, h1, List.map_map, List.map_map]
    apply List.map_congr_left
    intro x _
    have hcc := mul_pos hc hc
    have h2 : XF.mul (.fin 2) (.pinf : XF ℚ) = .pinf := by simp [XF.mul, XF.infSign]
    rw [Function.comp_apply, Function.comp_apply, abs_scale hcc]
    cases x with
    | nan => rfl
    | fin x =>
      change XF.fin (2 * sq (|x| * (2 ^ k * 2 ^ k))) = .fin (2 * sq |x| * 2 ^ k)
      rw [hsq, mul_assoc]
    | pinf =>
      rw [show XF.abs (.pinf : XF ℚ) = .pinf from rfl, sc_pinf hcc]
      change XF.mul (.fin 2) .pinf = scale (2 ^ k) (XF.mul (.fin 2) .pinf)
      rw [h2, sc_pinf hc]
    | ninf =>
      rw [show XF.abs (.ninf : XF ℚ) = .pinf from rfl, sc_pinf hcc]
      change XF.mul (.fin 2) .pinf = scale (2 ^ k) (XF.mul (.fin 2) .pinf)
      rw [h2, sc_pinf hc]
  · change kyleR (roundBits p) w (close.map (scale (2 ^ k))) volume = (kyleR (roundBits p) w close volume).map (scale (2 ^ k))
    rw [kyleR, kyleR, diff_scale, ← rollMean_scale hr hc, List.map_map]
    congr 1
    rw [List.zipWith_map_left, List.zipWith_map_left, List.map_zipWith]
    congr 1
    funext a b
    rw [Function.comp_apply, abs_scale hc, div_scale_left hc, rnd_scale hr hc]

/-- Square roots with the property that `C136_scale` asks for, for every power of two. -/
example (k : ℤ) : ∃ sq : ℚ → ℚ, sq 0 = 0 ∧ (∀ x, 0 < x → 0 < sq x) ∧ ∀ x, sq (x * (2 ^ k * 2 ^ k)) = sq x * 2 ^ k := by
  refine ⟨fun x => if x = 0 then 0 else 2 ^ Int.log 4 |x|, by simp, fun x hx => by simp only [if_neg hx.ne']; positivity, fun x => ?_⟩
  have hc := two_zpow_pos k
  by_cases hx : x = 0
  · simp [hx]
  · have h1 : x * ((2 : ℚ) ^ k * 2 ^ k) ≠ 0 := mul_ne_zero hx (mul_pos hc hc).ne'
    simp only [if_neg hx, if_neg h1]
    have e : (2 : ℚ) ^ k * 2 ^ k = (4 : ℕ) ^ k := by rw [← mul_zpow]; norm_num
    have hx' : (0 : ℚ) < |x| := abs_pos.2 hx
    have h2 : Int.log 4 (|x| * ((4 : ℕ) : ℚ) ^ k) = Int.log 4 |x| + k := by
      have lo := Int.zpow_log_le_self (b := 4) (by norm_num) hx'
      have hi := Int.lt_zpow_succ_log_self (b := 4) (by norm_num) |x|
      have h4 : (0 : ℚ) < ((4 : ℕ) : ℚ) ^ k := by positivity
      have hp : (0 : ℚ) < |x| * ((4 : ℕ) : ℚ) ^ k := mul_pos hx' h4
      apply le_antisymm
      · have : Int.log 4 (|x| * ((4 : ℕ) : ℚ) ^ k) < Int.log 4 |x| + k + 1 := by
          rw [← Int.lt_zpow_iff_log_lt (by norm_num) hp, show Int.log 4 |x| + k + 1 = (Int.log 4 |x| + 1) + k by ring,
            zpow_add₀ (by norm_num)]
          exact mul_lt_mul_of_pos_right hi h4
        omega
      · rw [← Int.zpow_le_iff_le_log (by norm_num) hp, zpow_add₀ (by norm_num)]
        exact mul_le_mul_of_nonneg_right lo h4.le
    rw [e, abs_mul, abs_of_pos (show (0 : ℚ) < ((4 : ℕ) : ℚ) ^ k by positivity), h2, zpow_add₀ (by norm_num)]

private theorem quotient_near {p : ℕ} (hp : 1 ≤ p) (a b : XF ℚ) :
    (rnd (roundBits p) (XF.div (XF.abs (rnd (roundBits p) a)) b)).undef = (XF.div (XF.abs a) b).undef ∧
    |(rnd (roundBits p) (XF.div (XF.abs (rnd (roundBits p) a)) b)).toK - (XF.div (XF.abs a) b).toK| ≤
      (2 * (1 / 2 ^ p) + 1 / 2 ^ p * (1 / 2 ^ p)) * |(XF.div (XF.abs a) b).toK| := by
  have h0 := roundBits_zero p
  have he0 : (0 : ℚ) ≤ 1 / 2 ^ p := by positivity
  rw [rnd_undef, rnd_toK h0]
  have triv : ∀ z : XF ℚ, z.toK = 0 → |roundBits p z.toK - z.toK| ≤ (2 * (1 / 2 ^ p) + 1 / 2 ^ p * (1 / 2 ^ p)) * |z.toK| := by
    intro z hz
    rw [hz, h0]
    simp
  cases a with
  | nan => exact ⟨rfl, triv _ rfl⟩
  | pinf =>
    refine ⟨rfl, triv _ ?_⟩
    cases b with
    | fin y =>
      change (if y < 0 then XF.ninf else XF.pinf : XF ℚ).toK = 0
      split_ifs <;> rfl
    | _ => rfl
  | ninf =>
    refine ⟨rfl, triv _ ?_⟩
    cases b with
    | fin y =>
      change (if y < 0 then XF.ninf else XF.pinf : XF ℚ).toK = 0
      split_ifs <;> rfl
    | _ => rfl
  | fin x =>
    cases b with
    | nan => exact ⟨rfl, triv _ rfl⟩
    | pinf => exact ⟨rfl, triv _ rfl⟩
    | ninf => exact ⟨rfl, triv _ rfl⟩
    | fin y =>
      simp only [rnd, XF.abs, XF.div]
      by_cases hy : y = 0
      · rw [if_pos hy, if_pos hy]
        have hu : ∀ z : ℚ, (XF.infSign z : XF ℚ).undef = true ∧ (XF.infSign z : XF ℚ).toK = 0 := by
          intro z
          unfold XF.infSign
          split_ifs <;> exact ⟨rfl, rfl⟩
        rw [(hu _).1, (hu _).1, (hu _).2, (hu _).2, h0]
        simp
      · rw [if_neg hy, if_neg hy]
        refine ⟨rfl, ?_⟩
        change |roundBits p (|roundBits p x| / y) - |x| / y| ≤ (2 * (1 / 2 ^ p) + 1 / 2 ^ p * (1 / 2 ^ p)) * (|(|x| / y)|)
        have hy' : 0 < |y| := abs_pos.2 hy
        have h1 : |(|roundBits p x| / y - |x| / y)| ≤ 1 / 2 ^ p * (|(|x| / y)|) := by
          rw [← sub_div, abs_div, abs_div, abs_abs, mul_div_assoc']
          apply div_le_div_of_nonneg_right _ hy'.le
          refine (abs_abs_sub_abs_le _ _).trans ?_
          have := roundBits_error p hp x
          rwa [div_eq_mul_one_div, mul_comm] at this
        have h2 := roundBits_error p hp (|roundBits p x| / y)
        rw [div_eq_mul_one_div _ ((2 : ℚ) ^ p), mul_comm] at h2
        generalize |roundBits p x| / y = q at *
        generalize |x| / y = t at *
        have h3 : |q| ≤ |t| + 1 / 2 ^ p * |t| := by
          have := abs_sub_abs_le_abs_sub q t
          linarith
        have h4 := mul_le_mul_of_nonneg_left h3 he0
        have h5 := abs_sub_le (roundBits p q) q t
        linarith

/-- C136: Kyle's lambda is never negative when the volumes are not, for any rounding that keeps signs: neither the compensated sums
nor cancellation can make it so. -/
theorem C136_kyle_sign (p : ℕ) (hp : 1 ≤ p) (w : ℕ) (hw : 1 ≤ w) (close volume : List (XF ℚ)) (hl : close.length = volume.length)
    (hv : ∀ v ∈ volume, 0 ≤ v.toK) (i : ℕ) (hi : i < close.length) (q : ℚ)
    (hq : (kyleR (roundBits p) w close volume).getD i .nan = .fin q) : 0 ≤ q := by
  refine (C132_sign (roundBits p) w hw _ i ?_ q hq).1 fun x hx => ?_
  · simp [diffR, pdDiff, pdShift, ← hl, hi]
  · have hx' := List.mem_of_mem_take (List.mem_of_mem_drop hx)
    rw [← List.map_uncurry_zip_eq_zipWith] at hx'
    obtain ⟨⟨a, b⟩, hab, rfl⟩ := List.mem_map.1 hx'
    obtain ⟨ha, hb⟩ := List.of_mem_zip hab
    obtain ⟨c, -, rfl⟩ := List.mem_map.1 ha
    have hb0 := hv b hb
    rw [Function.uncurry_apply_pair, rnd_toK (roundBits_zero p)]
    apply roundBits_nonneg p hp
    cases c <;> cases b <;> simp only [XF.abs, XF.div]
    all_goals first | exact le_rfl | skip
    · split_ifs <;> exact le_rfl
    · split_ifs <;> exact le_rfl
    · split_ifs
      · unfold XF.infSign; split_ifs <;> exact le_rfl
      · exact div_nonneg (abs_nonneg _) hb0

private abbrev Moved (L δ : ℚ) (a b : XF ℚ) : Prop := a.undef = b.undef ∧ (|b.toK| ≤ L → |a.toK - b.toK| ≤ δ)

private theorem moved_undef {L δ : ℚ} {A B : List (XF ℚ)} (h : List.Forall₂ (Moved L δ) A B) : A.any XF.undef = B.any XF.undef := by
  induction h with
  | nil => rfl
  | cons h _ ih => rw [List.any_cons, List.any_cons, h.1, ih]

private theorem moved_bound {L δ : ℚ} {A B : List (XF ℚ)} (h : List.Forall₂ (Moved L δ) A B) (hL : ∀ b ∈ B, |b.toK| ≤ L) :
    ∀ a ∈ A, |a.toK| ≤ L + δ := by
  induction h with
  | nil => simp
  | @cons a b A B h _ ih =>
    intro x hx
    rcases List.mem_cons.1 hx with rfl | hx
    · have h1 := hL b (by simp)
      have h2 := h.2 h1
      have h3 := abs_sub_abs_le_abs_sub x.toK b.toK
      linarith
    · exact ih (fun b hb => hL b (by simp [hb])) x hx

private theorem moved_sum {L δ : ℚ} {A B : List (XF ℚ)} (h : List.Forall₂ (Moved L δ) A B) (hL : ∀ b ∈ B, |b.toK| ≤ L) :
    |(A.map XF.toK).sum - (B.map XF.toK).sum| ≤ B.length * δ := by
  induction h with
  | nil => simp
  | @cons a b A B h _ ih =>
    have h1 := ih fun b hb => hL b (by simp [hb])
    have h2 := h.2 (hL b (by simp))
    have h3 := abs_add_le (a.toK - b.toK) ((A.map XF.toK).sum - (B.map XF.toK).sum)
    rw [List.map_cons, List.map_cons, List.sum_cons, List.sum_cons, List.length_cons, add_sub_add_comm]
    push_cast
    linarith

/-- C136: Kyle's lambda is off by at most `29 (i+1) L / 2^p`, where `L` is the largest quotient of a price change and the volume, and
it is missing exactly where the lambda of the exact numbers is. -/
theorem C136_kyle (p : ℕ) (hp : 8 ≤ p) (w : ℕ) (hw : 1 ≤ w) (close volume : List (XF ℚ)) (hl : close.length = volume.length) (L : ℚ)
    (hL0 : 0 ≤ L) (hL : ∀ a ∈ List.zipWith XF.div ((pdDiff close).map XF.abs) volume, |a.toK| ≤ L) (i : ℕ) (hi : i < close.length)
    (hn : 24 * (i + 1) ≤ 2 ^ p) :
    Near (29 * (i + 1) * L / 2 ^ p) ((kyleR (roundBits p) w close volume).getD i .nan)
      ((rolling w winMean (List.zipWith XF.div ((pdDiff close).map XF.abs) volume)).getD i .nan) := by
  have hp1 : 1 ≤ p := by omega
  have hP : (0 : ℚ) < 2 ^ p := by positivity
  have he0 : (0 : ℚ) ≤ 1 / 2 ^ p := by positivity
  have he : (1 : ℚ) / 2 ^ p ≤ 1 / 256 := by
    apply one_div_le_one_div_of_le (by norm_num)
    calc (256 : ℚ) = 2 ^ 8 := by norm_num
      _ ≤ 2 ^ p := pow_le_pow_right₀ (by norm_num) hp
  obtain ⟨ε, hε⟩ : ∃ ε : ℚ, ε = 1 / 2 ^ p := ⟨_, rfl⟩
  have hεε : ε * ε ≤ 1 / 256 * ε := by rw [hε]; exact mul_le_mul_of_nonneg_right he he0
  have e1 : List.zipWith (fun a b => rnd (roundBits p) (XF.div a b)) ((diffR (roundBits p) close).map XF.abs) volume =
      List.zipWith (fun a b => rnd (roundBits p) (XF.div (XF.abs (rnd (roundBits p) a)) b)) (pdDiff close) volume := by
    rw [diffR, List.map_map, List.zipWith_map_left]
    rfl
  have e2 : List.zipWith XF.div ((pdDiff close).map XF.abs) volume = List.zipWith (fun a b => XF.div (XF.abs a) b) (pdDiff close) volume := by
    rw [List.zipWith_map_left]
  rw [kyleR, e1]
  rw [e2] at hL ⊢
  have hlen : (pdDiff close).length = volume.length := by simp [pdDiff, pdShift, hl]
  have hid : i < (pdDiff close).length := by omega
  generalize pdDiff close = D at *
  -- every quotient
  have one : ∀ a b, |(XF.div (XF.abs a) b).toK| ≤ L →
      |(rnd (roundBits p) (XF.div (XF.abs (rnd (roundBits p) a)) b)).toK - (XF.div (XF.abs a) b).toK| ≤ 9 / 4 * (ε * L) := by
    intro a b hab
    have h1 := (quotient_near hp1 a b).2
    rw [← hε] at h1
    have hε0 : 0 ≤ ε := by rw [hε]; exact he0
    have h2 : 2 * ε + ε * ε ≤ 9 / 4 * ε := by linarith
    have h3 := mul_le_mul h2 hab (abs_nonneg _) (by linarith)
    linarith
  have hεL : 0 ≤ ε * L := by rw [hε]; exact mul_nonneg he0 hL0
  have hεL' : ε * (ε * L) ≤ 1 / 256 * (ε * L) := by
    apply mul_le_mul_of_nonneg_right _ hεL
    rw [hε]; exact he
  obtain ⟨A, hA⟩ : ∃ A, A = List.zipWith (fun a b => rnd (roundBits p) (XF.div (XF.abs (rnd (roundBits p) a)) b)) D volume := ⟨_, rfl⟩
  obtain ⟨B, hB⟩ : ∃ B, B = List.zipWith (fun a b => XF.div (XF.abs a) b) D volume := ⟨_, rfl⟩
  have hf : List.Forall₂ (Moved L (9 / 4 * (ε * L))) A B := by
    rw [hA, hB]
    clear hA hB hL hid e1 e2 hl
    induction D generalizing volume with
    | nil => simp
    | cons a D ih =>
      cases volume with
      | nil => simp
      | cons b V =>
        rw [List.zipWith_cons_cons, List.zipWith_cons_cons]
        exact .cons ⟨(quotient_near hp1 a b).1, one a b⟩ (ih V (by simpa using hlen))
  rw [← hA, ← hB]
  rw [← hB] at hL
  have hiB : i < B.length := by rw [hB, List.length_zipWith]; omega
  have hiA : i < A.length := by rw [hf.length_eq]; exact hiB
  clear hA hB
  have hAL := moved_bound hf hL
  have d := C132_drift p hp w hw A (L + 9 / 4 * (ε * L)) (by linarith) hAL i hiA hn
  have hfw : List.Forall₂ (Moved L (9 / 4 * (ε * L))) (winAt w i A) (winAt w i B) :=
    List.forall₂_drop _ (List.forall₂_take _ hf)
  have hu := moved_undef hfw
  by_cases hc : w ≤ i + 1 ∧ (winAt w i B).any XF.undef = false
  · have hw0 : (0 : ℚ) < w := by exact_mod_cast hw
    rw [rolling_mean_val hw A i hiA ⟨hc.1, by rw [hu]; exact hc.2⟩] at d
    rw [rolling_mean_val hw B i hiB hc]
    obtain ⟨a, b, h1, h2, h3⟩ := d.resolve_left fun h => by cases h.2
    cases h2
    refine .inr ⟨a, _, h1, rfl, ?_⟩
    have hs := moved_sum hfw fun b hb => hL b (List.mem_of_mem_take (List.mem_of_mem_drop hb))
    rw [winAt_length w i B hc.1 hiB] at hs
    have hq : |((winAt w i A).map XF.toK).sum / w - ((winAt w i B).map XF.toK).sum / w| ≤ 9 / 4 * (ε * L) := by
      rw [← sub_div, abs_div, abs_of_pos hw0, div_le_iff₀ hw0]
      linarith
    have h4 := abs_sub_le a (((winAt w i A).map XF.toK).sum / w) (((winAt w i B).map XF.toK).sum / w)
    have hi0 : (0 : ℚ) ≤ i := by positivity
    have e5 : 26 * ((i : ℚ) + 1) * (L + 9 / 4 * (ε * L)) / 2 ^ p = 26 * ((i + 1) * (ε * L)) + 117 / 2 * ((i + 1) * (ε * (ε * L))) := by
      rw [div_eq_mul_one_div, ← hε]; ring
    have e6 : 29 * ((i : ℚ) + 1) * L / 2 ^ p = 29 * ((i + 1) * (ε * L)) := by
      rw [div_eq_mul_one_div, ← hε]; ring
    have e7 := mul_le_mul_of_nonneg_left hεL' (show (0 : ℚ) ≤ i + 1 by linarith)
    have e8 : ε * L ≤ (i + 1) * (ε * L) := by
      have := mul_nonneg hi0 hεL
      linarith
    rw [e5] at h3
    rw [e6]
    linarith
  · have hB' : (rolling w winMean B).getD i .nan = .nan := by
      rw [rolling, List.getD_eq_getElem _ _ (by simpa using hiB), List.getElem_map, List.getElem_range, rollAt_at, if_neg hc]
    rw [mean_missing (x := A) (y := A) rfl (roundBits p) hw A i hiA (by rw [hu]; exact hc), hB']
    exact .inl ⟨rfl, rfl⟩

/-- A window of ten on prices in cents that move by at most a hundred dollars meets the hypothesis on the number of ticks. -/
example : 10 * (10 ^ 4) ^ 2 < 2 ^ 53 := by norm_num

/-- Whole prices that jump, go up by two per bar and jump again: zero on the trend, as `C136_trend` says. -/
example : (priceCovR (roundBits 53) 2 (([107, 103, 105, 107, 109, 111, 98, 97] : List ℚ).map .fin)) =
    [.nan, .nan, .nan, .fin 0, .fin 0, .fin 0, .fin 0, .fin (-90)] := by decide +kernel

/-- Kyle's lambda of four bars, the second without volume. -/
example : kyleR (roundBits 53) 1 (([10, 12, 15, 11] : List ℚ).map .fin) (([4, 0, 2, 8] : List ℚ).map .fin) =
    [.nan, .nan, .fin (3 / 2), .fin (1 / 2)] := by decide +kernel

/-- Prices of a straight line in steps of 45924870478633. -/
private def line : List ℚ := (List.range 9).map fun i : ℕ => 45924870478633 * (i : ℚ)

/-- C136: without a bound on the ticks a steady trend has a spread: the covariance of successive price changes, all equal, is
412316860416, so that Roll's measure is above 1280000 instead of zero. -/
theorem C136_trend_refuted : ∃ close : List ℚ, (∀ x ∈ close, IsFloat 53 x) ∧
    (∃ d, ∀ j, j + 1 < close.length → close.getD (j + 1) 0 - close.getD j 0 = d) ∧
    (∀ i < close.length, 4 ≤ i → (rolling2 3 winCov (pdDiff (close.map .fin)) (pdShift (pdDiff (close.map .fin)))).getD i .nan = .fin 0) ∧
    ∀ i < close.length, 4 ≤ i → (priceCovR (roundBits 53) 3 (close.map .fin)).getD i .nan = .fin (412316860416) ∧
      (1280000 : ℝ) < 2 * √|((412316860416 : ℚ) : ℝ)| := by
  refine ⟨line, ?_, ⟨45924870478633, ?_⟩, ?_, ?_⟩
  · intro x hx
    obtain ⟨i, hi, rfl⟩ := List.mem_map.1 hx
    have h9 := List.mem_range.1 hi
    have := isFloat_int 53 (45924870478633 * (i : ℤ)) (by rw [abs_of_nonneg (by positivity)]; omega)
    push_cast at this
    exact this
  · intro j hj
    have : j + 1 < line.length := hj
    have : j < 8 := by simp [line] at this; omega
    interval_cases j <;> decide +kernel
  · intro i hi h4
    have : i < 9 := by simpa [line] using hi
    interval_cases i <;> decide +kernel
  · intro i hi h4
    have : i < 9 := by simpa [line] using hi
    refine ⟨?_, ?_⟩
    · interval_cases i <;> decide +kernel
    · have : (640000 : ℝ) < √|((412316860416 : ℚ) : ℝ)| := by
        apply Real.lt_sqrt_of_sq_lt
        norm_num
      linarith

/-- Prices in steps of ten cents after two wrong ticks. -/
private def afterTicks (s t : ℚ) : List ℚ :=
  ([100, 1001 / 10, 1002 / 10, 1001 / 10, 1001 / 10 + s, 1001 / 10, 1001 / 10 + t, 1002 / 10, 1001 / 10, 1001 / 10, 1002 / 10,
    1001 / 10, 1002 / 10, 1003 / 10] : List ℚ).map toDouble

/-- C136: the sums of the window remember: with a window of four the measure depends on six prices, but wrong prices two and four bars
before those six change the covariance by more than a tenth. -/
theorem C136_memory_refuted : ∃ c c' : List ℚ, c.length = 14 ∧ c'.length = 14 ∧ c.drop 7 = c'.drop 7 ∧
    ((rolling2 4 winCov (pdDiff (c.map .fin)) (pdShift (pdDiff (c.map .fin)))).getD 13 .nan =
      (rolling2 4 winCov (pdDiff (c'.map .fin)) (pdShift (pdDiff (c'.map .fin)))).getD 13 .nan) ∧
    ∃ q q', (priceCovR (roundBits 53) 4 (c.map .fin)).getD 13 .nan = .fin q ∧
      (priceCovR (roundBits 53) 4 (c'.map .fin)).getD 13 .nan = .fin q' ∧ |q| / 10 < |q - q'| := by
  refine ⟨afterTicks 0 0, afterTicks (10 ^ 15 / 3) (10 ^ 10 / 7), rfl, rfl, by decide +kernel, by decide +kernel, ?_⟩
  exact ⟨((priceCovR (roundBits 53) 4 ((afterTicks 0 0).map .fin)).getD 13 .nan).toK,
    ((priceCovR (roundBits 53) 4 ((afterTicks (10 ^ 15 / 3) (10 ^ 10 / 7)).map .fin)).getD 13 .nan).toK,
    by decide +kernel, by decide +kernel, by decide +kernel⟩

end Mizar.Props
