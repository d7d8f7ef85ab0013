import Verif.Lemmas.RoundedMicro
import Verif.Props.RoundedCross

/-!
Property theorems C136: Roll's measure and Kyle's lambda in floating point
(`/repo/mizarlabs/transformers/microstructural_features/first_generation.py` lines 29-36, 66-70 and `second_generation.py` lines
37-47).
-/

namespace Mizar.Props
open Mizar.Spec Mizar.Rd

section exact
variable {K : Type} [Field K] [LinearOrder K] [IsStrictOrderedRing K]

omit [IsStrictOrderedRing K] in
private theorem rnd_id' (x : XF K) : rnd id x = x := by cases x <;> rfl

/-- C136: without rounding the covariance made of three means is the covariance of the window. -/
theorem C136_exact (w : ℕ) (hw : 1 ≤ w) (x y : List (XF K)) (hl : x.length = y.length) :
    rollCovR id w x y = rolling2 w winCov x y := by
  classical
  apply List.ext_getElem
  · simp [rollCovR, rolling2]
  · intro i h1 h2
    have hi : i < x.length := by simpa [rollCovR] using h1
    rw [← List.getD_eq_getElem _ .nan h1, ← List.getD_eq_getElem _ .nan h2, rolling2_at winCov w i hi]
    by_cases hf : Full w i x y
    · rw [if_pos hf]
      obtain ⟨s1, s2, s3⟩ := full_sums hl id hf
      have hX : ∀ z t : List (XF K), z.length = t.length → (i < (prepBinary z t).length ↔ i < z.length) := by
        intro z t h; simp [prepBinary, h]
      have hU : ((winAt w i x).map XF.toK).length = w := by rw [List.length_map, winAt_length w i x hf.1 hi]
      have hfx : w ≤ i + 1 ∧ (winAt w i (prepBinary x y)).any XF.undef = false :=
        (full_iff hl (fun a b => prep_undef a b) w i).2 hf
      have hfy : w ≤ i + 1 ∧ (winAt w i (prepBinary y x)).any XF.undef = false :=
        (full_iff hl.symm (fun a b => prep_undef a b) w i).2 ⟨hf.1, hf.2.2, hf.2.1⟩
      have hfp : w ≤ i + 1 ∧ (winAt w i (List.zipWith (prodR id) x y)).any XF.undef = false :=
        (full_iff hl (prodR_undef id) w i).2 hf
      have m1 := rolling_mean_val hw _ i (by simpa [← hl] using hi) hfp
      have m2 := rolling_mean_val hw _ i ((hX x y hl).2 hi) hfx
      have m3 := rolling_mean_val hw _ i ((hX y x hl.symm).2 (by omega)) hfy
      rw [← (C131_exact w hw _).2] at m1 m2 m3
      rw [cov_value hl id i hi hf m1 m2 m3, s1, s2, s3, rnd_id', rnd_id', winCov, hU]
      dsimp only [id]
      have hV : ((winAt w i y).map XF.toK).length = w := by rw [List.length_map, winAt_length w i y hf.1 (by omega)]
      generalize (winAt w i x).map XF.toK = U at *
      generalize (winAt w i y).map XF.toK = V at *
      by_cases h1 : w ≤ 1
      · obtain rfl : w = 1 := by omega
        rw [if_pos le_rfl]
        obtain ⟨u, rfl⟩ := List.length_eq_one_iff.1 hU
        obtain ⟨v, rfl⟩ := List.length_eq_one_iff.1 hV
        simp [XF.div, XF.mul, XF.infSign]
      · rw [if_neg h1]
        have hw1 : (1 : K) < w := by exact_mod_cast (by omega : 1 < w)
        have hwne : (w : K) ≠ 0 := by linarith
        have hwne1 : (w : K) - 1 ≠ 0 := by linarith
        rw [XF.div_fin _ _ hwne1, XF.mul]
        congr 1
        field_simp
    · rw [if_neg hf, cov_missing hl id hw i hi hf]

end exact

/-- C136: on columns, without rounding, these are `RollMeasure`, `RollImpact` and `KyleLambda` of C60, C61 and C79. -/
theorem C136_exact_columns (w : ℕ) (hw : 1 ≤ w) (close volume : String) (f : Frame ℝ) (c v : List (XF ℝ))
    (hc : f.col close = .ok c) (hv : f.col volume = .ok v) :
    (∀ out, Feat.rollMeasure w close f = .ok out → out = rollMeasureR id Real.sqrt w c) ∧
    (∀ out, Feat.rollImpact w close volume f = .ok out → out = rollImpactR id Real.sqrt w c v) ∧
    (∀ out, Feat.kyle w close volume f = .ok out → out = kyleR id w c v) := by
  have hd : diffR id c = pdDiff c := by
    rw [diffR, funext rnd_id', List.map_id']
  have hroot : (fun x : XF ℝ => XF.mul (.fin 2) (XF.sqrt (XF.abs x))) = fun x => XF.mul (.fin 2) (rnd Real.sqrt (XF.abs x)) := by
    funext x
    cases x with
    | fin x => rw [XF.abs, XF.sqrt, if_neg (not_lt.2 (abs_nonneg x)), rnd]
    | _ => simp [XF.abs, XF.sqrt, rnd]
  have hm : ∀ out, Feat.rollMeasure w close f = .ok out → out = rollMeasureR id Real.sqrt w c := by
    intro out h
    unfold Feat.rollMeasure at h
    by_cases hcm : ∀ z ∈ [close], z ∈ f.cols
    · simp only [checkMissing, if_pos hcm, Py.bind_ok, hc, rollE2, if_neg (show ¬ ((w : ℤ) < 0) by omega), Int.toNat_natCast] at h
      cases h
      rw [rollMeasureR, priceCovR, hd, C136_exact w hw _ _ (by simp), hroot]
    · simp only [checkMissing, if_neg hcm] at h
      cases h
  refine ⟨hm, ?_, ?_⟩
  · intro out h
    unfold Feat.rollImpact at h
    cases hr : Feat.rollMeasure w close f with
    | error e => rw [hr] at h; cases h
    | ok m =>
      simp only [hr, Py.bind_ok, hv] at h
      cases h
      rw [rollImpactR, hm m hr]
      congr 1
      funext a b
      rw [rnd_id']
  · intro out h
    unfold Feat.kyle at h
    by_cases hcm : ∀ z ∈ [close, volume], z ∈ f.cols
    · simp only [checkMissing, if_pos hcm, Py.bind_ok, hc, hv, rollE, if_neg (show ¬ ((w : ℤ) < 0) by omega),
        Int.toNat_natCast] at h
      cases h
      rw [kyleR, hd, (C131_exact w hw _).2]
      congr 2
      funext a b
      rw [rnd_id']
    · simp only [checkMissing, if_neg hcm] at h
      cases h

private theorem rel {p : ℕ} (hp : 1 ≤ p) (x : ℚ) : |roundBits p x - x| ≤ 1 / 2 ^ p * |x| := by
  have := roundBits_error p hp x
  rw [div_eq_mul_inv, mul_comm, ← one_div] at this
  exact this

private theorem win_toK_le {M : ℚ} {l : List (XF ℚ)} (h : ∀ a ∈ l, |a.toK| ≤ M) (w i : ℕ) :
    ∀ u ∈ (winAt w i l).map XF.toK, |u| ≤ M := by
  intro u hu
  obtain ⟨a, ha, rfl⟩ := List.mem_map.1 hu
  exact h a (List.mem_of_mem_take (List.mem_of_mem_drop ha))

private theorem sum_le {M : ℚ} : ∀ {l : List ℚ}, (∀ a ∈ l, |a| ≤ M) → |l.sum| ≤ l.length * M
  | [], _ => by simp
  | a :: l, h => by
    have h1 := sum_le (l := l) fun z hz => h z (by simp [hz])
    have h2 := abs_add_le a l.sum
    have h3 := h a (by simp)
    rw [List.sum_cons, List.length_cons]
    push_cast
    linarith

private theorem bias_near {p w : ℕ} (hp : 8 ≤ p) (hw : 2 ≤ w) :
    |(w : ℚ) / (w - 1)| ≤ 2 ∧ |roundBits p ((w : ℚ) / (w - 1)) - w / (w - 1)| ≤ 2 * (1 / 2 ^ p) := by
  have hw' : (2 : ℚ) ≤ w := by exact_mod_cast hw
  have h1 : |(w : ℚ) / (w - 1)| ≤ 2 := by
    rw [abs_of_nonneg (div_nonneg (by linarith) (by linarith)), div_le_iff₀ (by linarith)]
    linarith
  refine ⟨h1, ?_⟩
  have := rel (by omega : 1 ≤ p) ((w : ℚ) / (w - 1))
  have he : (0 : ℚ) ≤ 1 / 2 ^ p := by positivity
  nlinarith

/-- C136: the covariance at position `i` is off by at most `240 (i+1) M² / 2^p`, where `M` bounds both series. -/
theorem C136_drift (p : ℕ) (hp : 8 ≤ p) (w : ℕ) (hw : 2 ≤ w) (x y : List (XF ℚ)) (hl : x.length = y.length) (M : ℚ) (hM0 : 0 ≤ M)
    (hx : ∀ a ∈ x, |a.toK| ≤ M) (hy : ∀ a ∈ y, |a.toK| ≤ M) (i : ℕ) (hi : i < x.length) (hn : 24 * (i + 1) ≤ 2 ^ p) :
    Near (240 * (i + 1) * M ^ 2 / 2 ^ p) ((rollCovR (roundBits p) w x y).getD i .nan) ((rolling2 w winCov x y).getD i .nan) := by
  classical
  have hw1 : 1 ≤ w := by omega
  rw [rolling2_at winCov w i hi]
  by_cases hf : Full w i x y
  swap
  · rw [if_neg hf, cov_missing hl _ hw1 i hi hf]
    exact .inl ⟨rfl, rfl⟩
  rw [if_pos hf]
  have hP : (0 : ℚ) < 2 ^ p := by positivity
  have he0 : (0 : ℚ) ≤ 1 / 2 ^ p := by positivity
  have he : (1 : ℚ) / 2 ^ p ≤ 1 / 256 := by
    apply one_div_le_one_div_of_le (by norm_num)
    calc (256 : ℚ) = 2 ^ 8 := by norm_num
      _ ≤ 2 ^ p := pow_le_pow_right₀ (by norm_num) hp
  have hr := rel (by omega : 1 ≤ p)
  have hMM : 0 ≤ M * M := mul_self_nonneg M
  have hi0 : (0 : ℚ) ≤ i := by positivity
  have hw0 : (0 : ℚ) < w := by exact_mod_cast hw1
  -- bounds of the three series
  have bx : ∀ z ∈ prepBinary x y, |z.toK| ≤ M := by
    intro z hz
    obtain ⟨j, hj, rfl⟩ := List.getElem_of_mem hz
    simp only [prepBinary, List.getElem_zipWith, prep_toK]
    split_ifs
    · simpa using hM0
    · exact hx _ (List.getElem_mem _)
  have by' : ∀ z ∈ prepBinary y x, |z.toK| ≤ M := by
    intro z hz
    obtain ⟨j, hj, rfl⟩ := List.getElem_of_mem hz
    simp only [prepBinary, List.getElem_zipWith, prep_toK]
    split_ifs
    · simpa using hM0
    · exact hy _ (List.getElem_mem _)
  have bp : ∀ z ∈ List.zipWith (prodR (roundBits p)) x y, |z.toK| ≤ M * M * (1 + 1 / 2 ^ p) := by
    intro z hz
    obtain ⟨j, hj, rfl⟩ := List.getElem_of_mem hz
    simp only [List.getElem_zipWith, prodR_toK]
    have h0 : 0 ≤ M * M * (1 + 1 / 2 ^ p) := mul_nonneg hMM (by linarith)
    split_ifs
    · simpa using h0
    · rw [List.length_zipWith] at hj
      have huv : |(x[j]'(by omega)).toK * (y[j]'(by omega)).toK| ≤ M * M := by
        rw [abs_mul]
        exact mul_le_mul (hx _ (List.getElem_mem _)) (hy _ (List.getElem_mem _)) (abs_nonneg _) hM0
      have := near_round he0 hr (x := (x[j]'(by omega)).toK * (y[j]'(by omega)).toK) (a := 0) (α := M * M) (A := 0)
        (by rwa [sub_zero]) (by simp)
      rw [sub_zero] at this
      linarith
  have lx : (prepBinary x y).length = x.length := by simp [prepBinary, hl]
  have ly : (prepBinary y x).length = x.length := by simp [prepBinary, hl]
  have lp : (List.zipWith (prodR (roundBits p)) x y).length = x.length := by simp [hl]
  have hfx : w ≤ i + 1 ∧ (winAt w i (prepBinary x y)).any XF.undef = false :=
    (full_iff hl (fun a b => prep_undef a b) w i).2 hf
  have hfy : w ≤ i + 1 ∧ (winAt w i (prepBinary y x)).any XF.undef = false :=
    (full_iff hl.symm (fun a b => prep_undef a b) w i).2 ⟨hf.1, hf.2.2, hf.2.1⟩
  have hfp : w ≤ i + 1 ∧ (winAt w i (List.zipWith (prodR (roundBits p)) x y)).any XF.undef = false :=
    (full_iff hl (prodR_undef _) w i).2 hf
  have dx := C132_drift p hp w hw1 _ M hM0 bx i (by omega) hn
  have dy := C132_drift p hp w hw1 _ M hM0 by' i (by omega) hn
  have dp := C132_drift p hp w hw1 _ (M * M * (1 + 1 / 2 ^ p)) (mul_nonneg hMM (by linarith)) bp i (by omega) hn
  rw [rolling_mean_val hw1 _ i (by omega) hfx] at dx
  rw [rolling_mean_val hw1 _ i (by omega) hfy] at dy
  rw [rolling_mean_val hw1 _ i (by omega) hfp] at dp
  obtain ⟨s1, s2, s3⟩ := full_sums hl (roundBits p) hf
  rw [s1] at dp
  rw [s2] at dx
  rw [s3] at dy
  obtain ⟨b, B, eb, eB, hb⟩ := dx.resolve_left fun h => by cases h.2
  obtain ⟨c, C, ec, eC, hc⟩ := dy.resolve_left fun h => by cases h.2
  obtain ⟨a, A', ea, eA, ha⟩ := dp.resolve_left fun h => by cases h.2
  cases eB
  cases eC
  cases eA
  have hU : ((winAt w i x).map XF.toK).length = w := by rw [List.length_map, winAt_length w i x hf.1 hi]
  have hV : ((winAt w i y).map XF.toK).length = w := by rw [List.length_map, winAt_length w i y hf.1 (by omega)]
  have bU := win_toK_le hx w i
  have bV := win_toK_le hy w i
  rw [cov_value hl _ i hi hf ea eb ec, winCov, hU, if_neg (by omega)]
  generalize (winAt w i x).map XF.toK = U at *
  generalize (winAt w i y).map XF.toK = V at *
  obtain ⟨n1, n2⟩ := prod_sum_near he0 hr hM0 U V bU bV
  have n3 := sum_le bU
  have n4 := sum_le bV
  rw [hU] at n1 n2 n3
  rw [hV] at n4
  have hw1' : (w : ℚ) - 1 ≠ 0 := by
    have : (2 : ℚ) ≤ w := by exact_mod_cast hw
    linarith
  rw [XF.div_fin _ _ hw1', rnd, XF.mul, rnd]
  refine .inr ⟨_, _, rfl, rfl, ?_⟩
  obtain ⟨β1, β2⟩ := bias_near hp hw
  have hNe : 24 * (((i : ℚ) + 1) * (1 / 2 ^ p)) ≤ 1 := by
    rw [mul_one_div, ← mul_div_assoc, div_le_one hP]
    exact_mod_cast hn
  have q1 : |a - (List.zipWith (· * ·) U V).sum / w| ≤ 28 * (((i : ℚ) + 1) * (1 / 2 ^ p) * (M * M)) := by
    have d1 : |(List.zipWith (fun u v => roundBits p (u * v)) U V).sum / w - (List.zipWith (· * ·) U V).sum / w| ≤
        1 / 2 ^ p * (M * M) := by
      rw [← sub_div, abs_div, abs_of_pos hw0, div_le_iff₀ hw0]
      linarith
    have d2 := abs_sub_le a ((List.zipWith (fun u v => roundBits p (u * v)) U V).sum / w) ((List.zipWith (· * ·) U V).sum / w)
    obtain ⟨u, hu⟩ : ∃ u, u = ((i : ℚ) + 1) * (1 / 2 ^ p) * (M * M) := ⟨_, rfl⟩
    have e1 : 26 * ((i : ℚ) + 1) * (M * M * (1 + 1 / 2 ^ p)) / 2 ^ p = 26 * u + 26 * (1 / 2 ^ p * u) := by rw [hu]; ring
    have hu0 : 0 ≤ u := by rw [hu]; positivity
    have e2 : 1 / 2 ^ p * u ≤ 1 / 256 * u := mul_le_mul_of_nonneg_right he hu0
    have e3 : 1 / 2 ^ p * (M * M) ≤ u := by
      rw [hu]
      apply mul_le_mul_of_nonneg_right _ hMM
      nlinarith
    rw [← hu]
    linarith
  have q2 : |b - U.sum / w| ≤ 26 * (((i : ℚ) + 1) * (1 / 2 ^ p) * M) := hb.trans (le_of_eq (by ring))
  have q3 : |c - V.sum / w| ≤ 26 * (((i : ℚ) + 1) * (1 / 2 ^ p) * M) := hc.trans (le_of_eq (by ring))
  have q4 : ∀ (s t : ℚ), |s| ≤ w * t → |s / w| ≤ t := by
    intro s t h
    rw [abs_div, abs_of_pos hw0, div_le_iff₀ hw0]
    linarith
  have := cov_core he0 he hM0 (by linarith : (1 : ℚ) ≤ (i : ℚ) + 1) hNe hr q1 (q4 _ _ n2) q2 (q4 _ _ n3) q3 (q4 _ _ n4) β1 β2
  have e : ((List.zipWith (fun x1 x2 => x1 * x2) U V).sum - U.sum * V.sum / w) / ((w : ℚ) - 1) =
      ((List.zipWith (· * ·) U V).sum / w - U.sum / w * (V.sum / w)) * (w / (w - 1)) := by
    field_simp
  rw [e]
  exact this.trans (le_of_eq (by ring))

private theorem rnd_undef (r : ℚ → ℚ) (x : XF ℚ) : (rnd r x).undef = x.undef := by cases x <;> rfl

private theorem rnd_toK {r : ℚ → ℚ} (h0 : r 0 = 0) (x : XF ℚ) : (rnd r x).toK = r x.toK := by
  cases x <;> simp [rnd, XF.toK, h0]

private theorem shift_map (r : ℚ → ℚ) (l : List (XF ℚ)) : pdShift (l.map (rnd r)) = (pdShift l).map (rnd r) := by
  rw [pdShift, pdShift, List.map_take, List.length_map]
  rfl

/-- The covariance of numbers moved by a relative error. -/
private theorem cov_moved {r : ℚ → ℚ} {ε M : ℚ} (he0 : 0 ≤ ε) (he : ε ≤ 1 / 256) (hr : ∀ x, |r x - x| ≤ ε * |x|) (hM : 0 ≤ M) {w : ℕ}
    (hw : 2 ≤ w) (U V : List ℚ) (hU : U.length = w) (hV : V.length = w) (bU : ∀ u ∈ U, |u| ≤ M) (bV : ∀ u ∈ V, |u| ≤ M) :
    ∃ a b, winCov (U.map r) (V.map r) = .fin a ∧ winCov U V = .fin b ∧ |a - b| ≤ 9 * (ε * (M * M)) := by
  have hMM : 0 ≤ M * M := mul_self_nonneg M
  have hw' : (2 : ℚ) ≤ w := by exact_mod_cast hw
  have hw0 : (0 : ℚ) < w := by linarith
  obtain ⟨u, hu⟩ : ∃ u, u = ε * (M * M) := ⟨_, rfl⟩
  have hu0 : 0 ≤ u := by rw [hu]; exact mul_nonneg he0 hMM
  have heu : ε * u ≤ 1 / 256 * u := mul_le_mul_of_nonneg_right he hu0
  have one : ∀ z, |z| ≤ M → |r z - z| ≤ ε * M := fun z hz => (hr z).trans (mul_le_mul_of_nonneg_left hz he0)
  have sums : ∀ L : List ℚ, (∀ z ∈ L, |z| ≤ M) → |(L.map r).sum - L.sum| ≤ L.length * (ε * M) := by
    intro L
    induction L with
    | nil => simp
    | cons z L ih =>
      intro h
      have h1 := ih fun t ht => h t (by simp [ht])
      have h2 := one z (h z (by simp))
      have h3 := abs_add_le (r z - z) ((L.map r).sum - L.sum)
      rw [List.map_cons, List.sum_cons, List.sum_cons, List.length_cons, add_sub_add_comm]
      push_cast
      linarith
  have prods : ∀ L L' : List ℚ, (∀ z ∈ L, |z| ≤ M) → (∀ z ∈ L', |z| ≤ M) →
      |(List.zipWith (· * ·) (L.map r) (L'.map r)).sum - (List.zipWith (· * ·) L L').sum| ≤ L.length * (9 / 4 * u) := by
    intro L
    induction L with
    | nil => simp
    | cons z L ih =>
      intro L' h h'
      cases L' with
      | nil =>
        simp only [List.map_nil, List.zipWith_nil_right, List.sum_nil, sub_zero, abs_zero]
        positivity
      | cons t L' =>
        have h1 := ih L' (fun t ht => h t (by simp [ht])) fun t ht => h' t (by simp [ht])
        have h2 := near_mul (one z (h z (by simp))) (h z (by simp)) (one t (h' t (by simp))) (h' t (by simp))
        have e : ε * M * (M + ε * M) + M * (ε * M) = 2 * u + ε * u := by rw [hu]; ring
        have h3 := abs_add_le (r z * r t - z * t)
          ((List.zipWith (· * ·) (L.map r) (L'.map r)).sum - (List.zipWith (· * ·) L L').sum)
        rw [List.map_cons, List.map_cons, List.zipWith_cons_cons, List.zipWith_cons_cons, List.sum_cons, List.sum_cons,
          List.length_cons, add_sub_add_comm]
        push_cast
        linarith
  have h1 := sums U bU
  have h2 := sums V bV
  have h3 := prods U V bU bV
  have h4 := sum_le bU
  have h5 := sum_le bV
  rw [hU] at h1 h3 h4
  rw [hV] at h2 h5
  have hU' : (U.map r).length = w := by rw [List.length_map, hU]
  refine ⟨_, _, by rw [winCov, hU', if_neg (by omega)], by rw [winCov, hU, if_neg (by omega)], ?_⟩
  generalize (List.zipWith (· * ·) (U.map r) (V.map r)).sum = P' at *
  generalize (List.zipWith (· * ·) U V).sum = P at *
  generalize (U.map r).sum = A' at *
  generalize (V.map r).sum = B' at *
  generalize U.sum = A at *
  generalize V.sum = B at *
  have q : ∀ s t : ℚ, |s| ≤ w * t → |s / w| ≤ t := by
    intro s t h
    rw [abs_div, abs_of_pos hw0, div_le_iff₀ hw0]
    linarith
  have k1 : |A' / w - A / w| ≤ ε * M := by rw [← sub_div]; exact q _ _ h1
  have k2 : |B' / w - B / w| ≤ ε * M := by rw [← sub_div]; exact q _ _ h2
  have k3 : |P' / w - P / w| ≤ 9 / 4 * u := by rw [← sub_div]; exact q _ _ h3
  have k4 := near_mul k1 (q _ _ h4) k2 (q _ _ h5)
  have e4 : ε * M * (M + ε * M) + M * (ε * M) = 2 * u + ε * u := by rw [hu]; ring
  have k5 := abs_sub (P' / w - P / w) (A' / w * (B' / w) - A / w * (B / w))
  have k6 : |(P' / w - P / w) - (A' / w * (B' / w) - A / w * (B / w))| ≤ 9 / 2 * u := by linarith
  have hw1 : (w : ℚ) - 1 ≠ 0 := by linarith
  have e : (P' - A' * B' / w) / ((w : ℚ) - 1) - (P - A * B / w) / ((w : ℚ) - 1) =
      ((P' / w - P / w) - (A' / w * (B' / w) - A / w * (B / w))) * (w / (w - 1)) := by
    field_simp
    ring
  rw [e, abs_mul]
  have hb : |(w : ℚ) / (w - 1)| ≤ 2 := by
    rw [abs_of_nonneg (div_nonneg (by linarith) (by linarith)), div_le_iff₀ (by linarith)]
    linarith
  have := mul_le_mul k6 hb (abs_nonneg _) (by linarith)
  linarith

/-- C136: the covariance of the price changes, whose differences are rounded as well: off by at most `251 (i+1) M² / 2^p`,
where `M` is the largest price change. -/
theorem C136_prices (p : ℕ) (hp : 8 ≤ p) (w : ℕ) (hw : 2 ≤ w) (close : List (XF ℚ)) (M : ℚ) (hM0 : 0 ≤ M)
    (hM : ∀ a ∈ pdDiff close, |a.toK| ≤ M) (i : ℕ) (hi : i < close.length) (hn : 24 * (i + 1) ≤ 2 ^ p) :
    Near (251 * (i + 1) * M ^ 2 / 2 ^ p) ((priceCovR (roundBits p) w close).getD i .nan)
      ((rolling2 w winCov (pdDiff close) (pdShift (pdDiff close))).getD i .nan) := by
  classical
  have hp1 : 1 ≤ p := by omega
  have h0 := roundBits_zero p
  have hP : (0 : ℚ) < 2 ^ p := by positivity
  have he0 : (0 : ℚ) ≤ 1 / 2 ^ p := by positivity
  have he : (1 : ℚ) / 2 ^ p ≤ 1 / 256 := by
    apply one_div_le_one_div_of_le (by norm_num)
    calc (256 : ℚ) = 2 ^ 8 := by norm_num
      _ ≤ 2 ^ p := pow_le_pow_right₀ (by norm_num) hp
  have hr := rel hp1
  have hMM : 0 ≤ M * M := mul_self_nonneg M
  have hi0 : (0 : ℚ) ≤ i := by positivity
  have hS : ∀ a ∈ pdShift (pdDiff close), |a.toK| ≤ M := by
    intro a ha
    rcases List.mem_cons.1 (List.mem_of_mem_take ha) with rfl | h
    · simpa [XF.toK] using hM0
    · exact hM a h
  have up : ∀ L : List (XF ℚ), (∀ a ∈ L, |a.toK| ≤ M) → ∀ a ∈ L.map (rnd (roundBits p)), |a.toK| ≤ M * (1 + 1 / 2 ^ p) := by
    intro L hL a ha
    obtain ⟨b, hb, rfl⟩ := List.mem_map.1 ha
    rw [rnd_toK h0]
    have h1 := hL b hb
    have h2 := near_round he0 hr (x := b.toK) (a := 0) (α := M) (A := 0) (by rwa [sub_zero]) (by simp)
    rw [sub_zero] at h2
    linarith
  have d1 := C136_drift p hp w hw ((pdDiff close).map (rnd (roundBits p))) ((pdShift (pdDiff close)).map (rnd (roundBits p)))
    (by simp) (M * (1 + 1 / 2 ^ p)) (mul_nonneg hM0 (by linarith)) (up _ hM) (up _ hS) i (by simpa using hi) hn
  have e : priceCovR (roundBits p) w close = rollCovR (roundBits p) w ((pdDiff close).map (rnd (roundBits p)))
      ((pdShift (pdDiff close)).map (rnd (roundBits p))) := by
    rw [priceCovR, diffR, shift_map]
  rw [e]
  have wm : ∀ L : List (XF ℚ), winAt w i (L.map (rnd (roundBits p))) = (winAt w i L).map (rnd (roundBits p)) := fun L => winAt_map _ w i L
  have anyU : ∀ L : List (XF ℚ), (L.map (rnd (roundBits p))).any XF.undef = L.any XF.undef := by
    intro L
    rw [List.any_map]
    congr 1
    funext x
    exact rnd_undef _ x
  have hfull : Full w i ((pdDiff close).map (rnd (roundBits p))) ((pdShift (pdDiff close)).map (rnd (roundBits p))) ↔
      Full w i (pdDiff close) (pdShift (pdDiff close)) := by
    unfold Full
    rw [wm, wm, anyU, anyU]
  rw [rolling2_at winCov w i (by simpa using hi)] at d1 ⊢
  by_cases hf : Full w i (pdDiff close) (pdShift (pdDiff close))
  · rw [if_pos hf]
    rw [if_pos (hfull.2 hf), wm, wm, List.map_map, List.map_map] at d1
    have et : ∀ L : List (XF ℚ), L.map (XF.toK ∘ rnd (roundBits p)) = (L.map XF.toK).map (roundBits p) := by
      intro L
      rw [List.map_map]
      apply List.map_congr_left
      intro a _
      exact rnd_toK h0 a
    rw [et, et] at d1
    obtain ⟨a, b, ea, eb, hab⟩ := cov_moved he0 he hr hM0 hw ((winAt w i (pdDiff close)).map XF.toK)
      ((winAt w i (pdShift (pdDiff close))).map XF.toK)
      (by rw [List.length_map, winAt_length w i _ hf.1 (by simpa using hi)])
      (by rw [List.length_map, winAt_length w i _ hf.1 (by simpa using hi)]) (win_toK_le hM w i) (win_toK_le hS w i)
    rw [ea] at d1
    obtain ⟨c, d, ec, ed, hcd⟩ := d1.resolve_left fun h => by cases h.2
    cases ed
    refine .inr ⟨c, b, ec, eb, ?_⟩
    have h1 := abs_sub_le c a b
    obtain ⟨u, hu⟩ : ∃ u, u = ((i : ℚ) + 1) * (1 / 2 ^ p) * (M * M) := ⟨_, rfl⟩
    have hu0 : 0 ≤ u := by rw [hu]; positivity
    have e1 : 240 * ((i : ℚ) + 1) * (M * (1 + 1 / 2 ^ p)) ^ 2 / 2 ^ p = 240 * u + 480 * (1 / 2 ^ p * u) +
        240 * (1 / 2 ^ p * (1 / 2 ^ p * u)) := by rw [hu]; ring
    have e2 : 1 / 2 ^ p * u ≤ 1 / 256 * u := mul_le_mul_of_nonneg_right he hu0
    have e3 : 1 / 2 ^ p * (1 / 2 ^ p * u) ≤ 1 / 256 * (1 / 256 * u) := mul_le_mul he e2 (mul_nonneg he0 hu0) (by norm_num)
    have e4 : 1 / 2 ^ p * (M * M) ≤ u := by
      rw [hu]
      apply mul_le_mul_of_nonneg_right _ hMM
      nlinarith
    have e5 : 251 * ((i : ℚ) + 1) * M ^ 2 / 2 ^ p = 251 * u := by rw [hu]; ring
    rw [e5]
    linarith
  · rw [if_neg hf]
    rw [if_neg fun h => hf (hfull.1 h)] at d1
    obtain ⟨h1, -⟩ | ⟨a, b, -, h, -⟩ := d1
    · exact .inl ⟨h1, rfl⟩
    · cases h

private def movesX : List (XF ℚ) := [.fin 3, .fin 1, .fin 2]
private def movesY : List (XF ℚ) := [.fin 1, .fin (-2), .fin 4]

/-- Moves of 3, 1, 2 and 1, -2, 4 with windows of two, in double precision. -/
example : Near (240 * ((2 : ℕ) + 1) * 4 ^ 2 / 2 ^ 53) ((rollCovR (roundBits 53) 2 movesX movesY).getD 2 .nan)
      ((rolling2 2 winCov movesX movesY).getD 2 .nan) :=
  C136_drift 53 (by norm_num) 2 (by norm_num) movesX movesY rfl 4 (by norm_num) (by decide +kernel) (by decide +kernel) 2 (by decide) (by norm_num)

example : rolling2 2 winCov movesX movesY = [.nan, .fin 3, .fin 3] := by decide +kernel

private def tenths : List (XF ℚ) := ([10, 10 + 1 / 10, 10 - 2 / 10, 10 + 2 / 10, 10] : List ℚ).map fun x => .fin (toDouble x)

private theorem tenths_moves : ∀ a ∈ pdDiff tenths, |a.toK| ≤ 1 / 2 := by decide +kernel

/-- Decimal prices with moves of at most 1/2. -/
example : Near (251 * ((4 : ℕ) + 1) * (1 / 2) ^ 2 / 2 ^ 53) ((priceCovR (roundBits 53) 2 tenths).getD 4 .nan)
      ((rolling2 2 winCov (pdDiff tenths) (pdShift (pdDiff tenths))).getD 4 .nan) :=
  C136_prices 53 (by norm_num) 2 (by norm_num) tenths (1 / 2) (by norm_num) tenths_moves 4 (by decide) (by norm_num)

end Mizar.Props
