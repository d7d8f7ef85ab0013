import Verif.Lemmas.RoundedBet
import Verif.Lemmas.RoundedCusum
import Verif.Lemmas.RoundedRoll

/-!
Property theorems C131: rolling sums and `VPIN` in floating point
(`/repo/mizarlabs/transformers/microstructural_features/vpin.py` lines 58-76).
-/

namespace Mizar.Props
open Mizar.Spec Mizar.Rd

/-- C131: without rounding, sums and means carried along are those of the windows. -/
theorem C131_exact {K : Type} [Field K] [LinearOrder K] [IsStrictOrderedRing K] (w : ℕ) (hw : 1 ≤ w) (l : List (XF K)) :
    rollSum id w l = rolling w winSum l ∧ rollMean id w l = rolling w winMean l := by
  have hs : ∀ i < l.length, (rollState id w l (i + 1)).s = ((winAt w i l).map XF.toK).sum := by
    intro i hi
    rw [← win_eq]
    exact (rollState_exact rfl hw l (fun _ _ => ⟨rfl, rfl⟩) (fun _ _ => ⟨rfl, rfl⟩) (i + 1) (by omega)).1
  constructor
  · apply List.map_congr_left
    intro i hi
    have hi := List.mem_range.1 hi
    rw [rollSum_at id hw l i hi, rollAt_at, hs i hi]
    rfl
  · apply List.map_congr_left
    intro i hi
    have hi := List.mem_range.1 hi
    rw [rollMean_at id hw l i hi, rollAt_at, hs i hi]
    by_cases hc : w ≤ i + 1 ∧ (winAt w i l).any XF.undef = false
    · have hl : ((winAt w i l).map XF.toK).length = w := by rw [List.length_map, winAt_length w i l hc.1 hi]
      have hm : winMean ((winAt w i l).map XF.toK) = .fin (((winAt w i l).map XF.toK).sum / (w : K)) := by
        unfold winMean
        rw [hl, if_neg (by omega)]
      rw [if_pos hc, if_pos hc, hm]
      have hw0 : (0 : K) < w := by exact_mod_cast hw
      rw [fixSign_eq]
      · rfl
      · exact fun h => div_nonneg (sum_toK_nonneg h) hw0.le
      · exact fun h => div_nonpos_of_nonpos_of_nonneg (sum_toK_nonpos h) hw0.le
    · rw [if_neg hc, if_neg hc]

/-- C131: on columns, without rounding, this is the `VPIN` of C59. -/
theorem C131_exact_vpin (w : ℕ) (hw : 1 ≤ w) (volume buy sell : String) (f : Frame ℚ) (v b s : List (XF ℚ))
    (hv : f.col volume = .ok v) (hb : f.col buy = .ok b) (hs : f.col sell = .ok s) (r : List (XF ℚ))
    (hr : Feat.vpin w volume buy sell f = .ok r) : r = Rd.vpin id w v b s := by
  have hid : ∀ x : XF ℚ, rnd id x = x := by intro x; cases x <;> rfl
  unfold Feat.vpin at hr
  by_cases hm : ∀ c ∈ [volume, buy, sell], c ∈ f.cols
  · simp only [checkMissing, if_pos hm, Py.bind_ok, hv, hb, hs, rollE, if_neg (show ¬ ((w : ℤ) < 0) by omega),
      Int.toNat_natCast] at hr
    split_ifs at hr with h
    cases hr
    unfold Rd.vpin
    simp only [hid, (C131_exact w hw _).1]
  · simp only [checkMissing, if_neg hm] at hr
    cases hr

/-- C131: on a grid (for instance whole numbers of contracts) no rounding takes place in the sums, and the means are the
exact means, rounded once. -/
theorem C131_grid (p : ℕ) (hp : 1 ≤ p) (e : ℤ) (w : ℕ) (hw : 1 ≤ w) (l : List (XF ℚ)) (hg : OnGrid p e w l) :
    rollSum (roundBits p) w l = rolling w winSum l ∧
      rollMean (roundBits p) w l = (rolling w winMean l).map (rnd (roundBits p)) := by
  have hs : ∀ i < l.length, (rollState (roundBits p) w l (i + 1)).s = ((winAt w i l).map XF.toK).sum := by
    intro i hi
    rw [← win_eq]
    exact rollState_grid hp hw hg (i + 1) (by omega)
  constructor
  · apply List.map_congr_left
    intro i hi
    have hi := List.mem_range.1 hi
    rw [rollSum_at _ hw l i hi, rollAt_at, hs i hi]
    rfl
  · rw [rolling, List.map_map]
    apply List.map_congr_left
    intro i hi
    have hi := List.mem_range.1 hi
    rw [rollMean_at _ hw l i hi, Function.comp_apply, rollAt_at, hs i hi]
    by_cases hc : w ≤ i + 1 ∧ (winAt w i l).any XF.undef = false
    · have hl : ((winAt w i l).map XF.toK).length = w := by rw [List.length_map, winAt_length w i l hc.1 hi]
      have hm : winMean ((winAt w i l).map XF.toK) = .fin (((winAt w i l).map XF.toK).sum / (w : ℚ)) := by
        unfold winMean
        rw [hl, if_neg (by omega)]
      rw [if_pos hc, if_pos hc, hm]
      have hw0 : (0 : ℚ) < w := by exact_mod_cast hw
      rw [fixSign_eq]
      · rfl
      · exact fun h => roundBits_nonneg p hp (div_nonneg (sum_toK_nonneg h) hw0.le)
      · intro h
        have := roundBits_mono p hp (div_nonpos_of_nonpos_of_nonneg (sum_toK_nonpos h) hw0.le)
        rwa [roundBits_zero] at this
    · rw [if_neg hc, if_neg hc]
      rfl

/-- C131: in general the sum carried along is off by at most `24 (i+1) w M / 2^p` at position `i`, where `M` is the largest
number of the series. -/
theorem C131_drift (p : ℕ) (hp : 8 ≤ p) (w : ℕ) (hw : 1 ≤ w) (l : List (XF ℚ)) (M : ℚ) (hM0 : 0 ≤ M)
    (hM : ∀ x ∈ l, |x.toK| ≤ M) (i : ℕ) (hi : i < l.length) (hn : 24 * (i + 1) ≤ 2 ^ p) :
    Near (24 * (i + 1) * w * M / 2 ^ p) ((rollSum (roundBits p) w l).getD i .nan) ((rolling w winSum l).getD i .nan) := by
  rw [rollSum, rolling, List.getD_eq_getElem _ _ (by simpa using hi), List.getD_eq_getElem _ _ (by simpa using hi),
    List.getElem_map, List.getElem_map, List.getElem_range, rollSum_at _ hw l i hi, rollAt_at]
  by_cases hc : w ≤ i + 1 ∧ (winAt w i l).any XF.undef = false
  · rw [if_pos hc, if_pos hc]
    refine .inr ⟨_, _, rfl, rfl, ?_⟩
    have := (rollState_drift hp hw hM0 hM (i + 1) (by omega) hn).1
    rw [win_eq] at this
    refine this.trans (le_of_eq ?_)
    push_cast
    ring
  · rw [if_neg hc, if_neg hc]
    exact .inl ⟨rfl, rfl⟩

/-- C131: with volumes on a grid every value of `VPIN` is the exact quotient, rounded once; so it is between 0 and 1, and a
window without volume gives 0 (a missing value if it is the first one). -/
theorem C131_vpin_grid_partial (p : ℕ) (hp : 1 ≤ p) (e : ℤ) (w : ℕ) (hw : 1 ≤ w) (V B S : List ℚ) (h : Volumes V B S)
    (hgV : ∀ x ∈ V, ∃ m : ℤ, x = m * 2 ^ e) (hgB : ∀ x ∈ B, ∃ m : ℤ, x = m * 2 ^ e)
    (hgS : ∀ x ∈ S, ∃ m : ℤ, x = m * 2 ^ e) (hs : ∀ i < V.length, windowVolume w V i < 2 ^ p * 2 ^ e) (i : ℕ)
    (hi : i < V.length) :
    (i + 1 < w → (Rd.vpin (roundBits p) w (V.map .fin) (B.map .fin) (S.map .fin)).getD i .nan = .nan) ∧
    (w ≤ i + 1 → 0 < windowVolume w V i →
      ∃ q, (Rd.vpin (roundBits p) w (V.map .fin) (B.map .fin) (S.map .fin)).getD i .nan = .fin q ∧
        q = roundBits p (windowImbalance w B S i / windowVolume w V i) ∧ 0 ≤ q ∧ q ≤ 1) ∧
    (w ≤ i + 1 → windowVolume w V i = 0 →
      (Rd.vpin (roundBits p) w (V.map .fin) (B.map .fin) (S.map .fin)).getD i .nan =
        if w ≤ i then .fin 0 else .nan) := by
  have hd : (rollSum (roundBits p) w ((diffs (roundBits p) B S).map .fin)).getD i .nan =
      (rolling w winSum ((diffs id B S).map .fin)).getD i .nan := by
    obtain ⟨h1, h2⟩ := diffs_grid hp hw h hgB hgS hs
    rw [h1, (C131_grid p hp e w hw _ h2).1]
  have ht : (rollSum (roundBits p) w (V.map .fin)).getD i .nan = (rolling w winSum (V.map .fin)).getD i .nan := by
    rw [(C131_grid p hp e w hw _ (onGrid_fin h.nonneg hgV hs)).1]
  have hi' : i < (diffs id B S).length := by rw [diffs_length _ h.buy h.sell]; exact hi
  obtain ⟨hle0, hle⟩ := windowImbalance_le h w i
  rw [vpin_of_sums (roundBits p) h hi hd ht]
  refine ⟨fun hwi => ?_, fun hwi hv => ?_, fun hwi hv => ?_⟩
  · rw [rolling_fin_nan w _ V i hi (by omega), rolling_fin_nan w _ _ i hi' (by omega), if_neg (by omega)]
    rfl
  · rw [rolling_fin w V i hi hwi, rolling_fin w _ i hi' hwi, XF.div_fin _ _ (show (winAt w i V).sum ≠ 0 from hv.ne')]
    refine ⟨_, ?_, rfl, ?_, ?_⟩
    · by_cases hc : w ≤ i
      · rw [if_pos hc]; rfl
      · rw [if_neg hc]; rfl
    · exact roundBits_nonneg p hp (div_nonneg hle0 hv.le)
    · exact round_le hp (isFloat_one hp) ((div_le_one hv).2 hle)
  · have hd0 : windowImbalance w B S i = 0 := le_antisymm (hv ▸ hle) hle0
    rw [rolling_fin w V i hi hwi, rolling_fin w _ i hi' hwi, show (winAt w i V).sum = 0 from hv,
      show (winAt w i (diffs id B S)).sum = 0 from hd0]
    by_cases hc : w ≤ i
    · rw [if_pos hc, if_pos hc]
      simp [XF.div, XF.infSign, rnd, fillna1, XF.isNan]
    · rw [if_neg hc, if_neg hc]
      simp [XF.div, XF.infSign, rnd]

/-- C131: in general the value is off by at most `5 δ / T`, where `T` is the volume of the window and `δ` the error of the sum
carried along, if `T` is at least `2 δ`. -/
theorem C131_vpin_drift (p : ℕ) (hp : 8 ≤ p) (w : ℕ) (hw : 1 ≤ w) (V B S : List ℚ) (h : Volumes V B S) (M δ : ℚ)
    (hMf : IsFloat p M) (hM : ∀ x ∈ V, x ≤ M) (i : ℕ) (hi : i < V.length) (hwi : w ≤ i + 1) (hn : 24 * (i + 1) ≤ 2 ^ p)
    (hδ : δ = 24 * (i + 1) * w * M / 2 ^ p) (hpos : 0 < windowVolume w V i) (hbig : 2 * δ ≤ windowVolume w V i) :
    ∃ q, (Rd.vpin (roundBits p) w (V.map .fin) (B.map .fin) (S.map .fin)).getD i .nan = .fin q ∧
      |q - windowImbalance w B S i / windowVolume w V i| ≤ 5 * δ / windowVolume w V i := by
  have hp1 : 1 ≤ p := by omega
  have hBS : B.length = S.length := by rw [h.buy, h.sell]
  have hM0 : 0 ≤ M := (h.nonneg _ (getD_mem' hi)).trans (hM _ (getD_mem' hi))
  have hw0 : (1 : ℚ) ≤ w := by exact_mod_cast hw
  have hp2 : (0 : ℚ) < 2 ^ p := by positivity
  have hi0 : (0 : ℚ) ≤ i := by positivity
  have hδw : 24 * (w * (M / 2 ^ p)) ≤ δ := by
    have : 0 ≤ w * (M / 2 ^ p) := by positivity
    rw [hδ]
    calc 24 * (w * (M / 2 ^ p)) ≤ 24 * (i + 1) * (w * (M / 2 ^ p)) := by nlinarith
      _ = _ := by ring
  have hdl : (diffs (roundBits p) B S).length = V.length := diffs_length _ h.buy h.sell
  have hdb : ∀ x ∈ (diffs (roundBits p) B S).map XF.fin, |x.toK| ≤ M := by
    intro x hx
    obtain ⟨y, hy, rfl⟩ := List.mem_map.1 hx
    obtain ⟨j, hj, rfl⟩ := mem_getD hy
    rw [hdl] at hj
    rw [XF.toK, diffs_getD _ (roundBits_zero p) hBS, abs_abs]
    have hc := abs_le.1 ((h.covers j).trans (hM _ (getD_mem' hj)))
    exact abs_le.2 ⟨le_round hp1 (isFloat_neg hMf) hc.1, round_le hp1 hMf hc.2⟩
  have hvb : ∀ x ∈ V.map XF.fin, |x.toK| ≤ M := by
    intro x hx
    obtain ⟨y, hy, rfl⟩ := List.mem_map.1 hx
    rw [XF.toK, abs_of_nonneg (h.nonneg y hy)]
    exact hM y hy
  have e1 := (rollState_drift hp hw hM0 hdb (i + 1) (by rw [List.length_map, hdl]; omega) hn).1
  have e2 := (rollState_drift hp hw hM0 hvb (i + 1) (by rw [List.length_map]; omega) hn).1
  rw [win_eq, winAt_fin_toK] at e1 e2
  have eδ : 12 * ((i + 1 : ℕ) : ℚ) * (1 / 2 ^ p) * (2 * w * M) = δ := by rw [hδ]; push_cast; ring
  rw [eδ] at e1 e2
  have e3 : |(winAt w i (diffs (roundBits p) B S)).sum - windowImbalance w B S i| ≤ w * (M / 2 ^ p) := by
    refine winAt_abs_sub (B := diffs id B S) (forall₂_of_getD ?_ ?_) (by positivity) w i
    · rw [hdl, diffs_length _ h.buy h.sell]
    · intro j hj
      rw [hdl] at hj
      rw [diffs_getD _ (roundBits_zero p) hBS, diffs_getD id rfl hBS, id]
      refine (abs_abs_sub_abs_le _ _).trans ((roundBits_error p hp1 _).trans ?_)
      exact div_le_div_of_nonneg_right ((h.covers j).trans (hM _ (getD_mem' hj))) hp2.le
  set sd := (rollState (roundBits p) w ((diffs (roundBits p) B S).map XF.fin) (i + 1)).s
  set sv := (rollState (roundBits p) w (V.map XF.fin) (i + 1)).s
  obtain ⟨hle0, hle⟩ := windowImbalance_le h w i
  have e4 : |sd - windowImbalance w B S i| ≤ 25 / 24 * δ := by
    have := abs_sub_le sd (winAt w i (diffs (roundBits p) B S)).sum (windowImbalance w B S i)
    linarith
  obtain ⟨hsv, hq⟩ := quot_near hle0 hle hpos e4 e2 hbig
  have hd : (rollSum (roundBits p) w ((diffs (roundBits p) B S).map .fin)).getD i .nan = .fin sd := by
    rw [rollSum_fin _ hw _ i (by rw [hdl]; exact hi), if_pos hwi]
  have ht : (rollSum (roundBits p) w (V.map .fin)).getD i .nan = .fin sv := by
    rw [rollSum_fin _ hw _ i hi, if_pos hwi]
  refine ⟨roundBits p (sd / sv), ?_, ?_⟩
  · rw [vpin_of_sums (roundBits p) h hi hd ht, XF.div_fin _ _ hsv.ne']
    by_cases hc : w ≤ i
    · rw [if_pos hc]; rfl
    · rw [if_neg hc]; rfl
  · have h1 := roundBits_error p hp1 (sd / sv)
    have hT : windowVolume w V i ≤ w * M := by
      have : (winAt w i V).sum ≤ ((winAt w i V).length : ℚ) * M := by
        have := List.sum_le_card_nsmul (winAt w i V) M fun x hx => hM x (List.mem_of_mem_take (List.mem_of_mem_drop hx))
        simpa using this
      refine this.trans (mul_le_mul_of_nonneg_right ?_ hM0)
      exact_mod_cast winAt_len_le w i V
    have h2 : 24 * (1 / 2 ^ p) ≤ δ / windowVolume w V i := by
      rw [le_div_iff₀ hpos]
      have : 1 / 2 ^ p * windowVolume w V i ≤ 1 / 2 ^ p * (w * M) := mul_le_mul_of_nonneg_left hT (by positivity)
      have e : 1 / 2 ^ p * ((w : ℚ) * M) = w * (M / 2 ^ p) := by ring
      linarith
    have h3 : |windowImbalance w B S i / windowVolume w V i| ≤ 1 := by
      rw [abs_of_nonneg (div_nonneg hle0 hpos.le)]
      exact (div_le_one hpos).2 hle
    have h4 : δ / windowVolume w V i ≤ 1 / 2 := by rw [div_le_iff₀ hpos]; linarith
    have h5 : |sd / sv| ≤ 4 := by
      have := abs_sub_abs_le_abs_sub (sd / sv) (windowImbalance w B S i / windowVolume w V i)
      have e : 49 / 12 * δ / windowVolume w V i = 49 / 12 * (δ / windowVolume w V i) := by ring
      linarith
    have h6 : |sd / sv| / 2 ^ p ≤ 4 * (1 / 2 ^ p) := by
      rw [div_eq_mul_one_div]
      exact mul_le_mul_of_nonneg_right h5 (by positivity)
    have h7 := abs_sub_le (roundBits p (sd / sv)) (sd / sv) (windowImbalance w B S i / windowVolume w V i)
    have e : 49 / 12 * δ / windowVolume w V i = 49 / 12 * (δ / windowVolume w V i) := by ring
    have e' : 5 * δ / windowVolume w V i = 5 * (δ / windowVolume w V i) := by ring
    have e0 : (0 : ℚ) < 1 / 2 ^ p := by positivity
    linarith

/-- C131: if everything was bought then `VPIN` is 1, whatever the volumes, wherever the sum carried along is not 0. -/
theorem C131_one_sided (p : ℕ) (hp : 1 ≤ p) (w : ℕ) (V : List ℚ) (h0 : ∀ x ∈ V, 0 ≤ x) (hf : ∀ x ∈ V, IsFloat p x) (i : ℕ)
    (hi : i < V.length) :
    (Rd.vpin (roundBits p) w (V.map .fin) (V.map .fin) ((V.map fun _ => 0).map .fin)).getD i .nan ∈
      [.nan, .fin 0, .fin 1] ∧
    (∀ t, (rollSum (roundBits p) w (V.map .fin)).getD i .nan = .fin t → t ≠ 0 →
      (Rd.vpin (roundBits p) w (V.map .fin) (V.map .fin) ((V.map fun _ => 0).map .fin)).getD i .nan = .fin 1) := by
  have hd : diffs (roundBits p) V (V.map fun _ => 0) = V := by
    apply eq_of_getD (diffs_length _ rfl (by simp))
    intro j hj
    rw [diffs_length _ rfl (by simp)] at hj
    rw [diffs_getD _ (roundBits_zero p) (by simp), List.getD_eq_getElem (V.map fun _ => (0 : ℚ)) _ (by simpa using hj),
      List.getElem_map, sub_zero, roundBits_eq_self p hp (hf _ (getD_mem' hj)), abs_of_nonneg (h0 _ (getD_mem' hj))]
  rw [vpin_at _ w V V _ rfl (by simp) i hi, hd]
  have key : ∀ t : XF ℚ, t ∈ [XF.nan] ∨ (∃ q, t = .fin q) →
      rnd (roundBits p) (XF.div t t) = (if t = .nan ∨ t = .fin 0 then .nan else .fin 1) := by
    rintro t (ht | ⟨q, rfl⟩)
    · rw [List.mem_singleton.1 ht]; rfl
    · by_cases hq : q = 0
      · subst hq; simp [XF.div, XF.infSign, rnd]
      · rw [XF.div_fin _ _ hq, div_self hq, if_neg (by simpa using hq)]
        simp only [rnd, roundBits_eq_self p hp (isFloat_one hp)]
  have hx : (rollSum (roundBits p) w (V.map .fin)).getD i .nan ∈ [XF.nan] ∨
      ∃ q, (rollSum (roundBits p) w (V.map .fin)).getD i .nan = .fin q := by
    rw [rollSum, List.getD_eq_getElem _ _ (by simpa using hi), List.getElem_map, calcSum]
    split_ifs
    · exact .inr ⟨_, rfl⟩
    · exact .inl (by simp)
  simp only [key _ hx]
  constructor
  · split_ifs <;> simp [fillna1, XF.isNan]
  · intro t ht hne
    have hc : ¬ (XF.fin t = XF.nan ∨ XF.fin t = .fin 0) := by simpa using hne
    rw [ht]
    simp only [if_neg hc]
    split_ifs <;> rfl

/-- C131: the unit of the volumes does not matter if it changes by a power of two. -/
theorem C131_scale (p : ℕ) (k : ℤ) (w : ℕ) (v b s : List (XF ℚ)) :
    Rd.vpin (roundBits p) w (v.map fun x => XF.mul x (.fin (2 ^ k))) (b.map fun x => XF.mul x (.fin (2 ^ k)))
      (s.map fun x => XF.mul x (.fin (2 ^ k))) = Rd.vpin (roundBits p) w v b s := by
  have hc : (0 : ℚ) < 2 ^ k := two_zpow_pos k
  have hr := roundBits_zpow p k
  have hd : (List.zipWith (fun b s => rnd (roundBits p) (XF.sub b s)) (b.map (scale (2 ^ k))) (s.map (scale (2 ^ k)))).map XF.abs =
      ((List.zipWith (fun b s => rnd (roundBits p) (XF.sub b s)) b s).map XF.abs).map (scale (2 ^ k)) := by
    rw [List.zipWith_map, List.map_map, List.map_zipWith, List.map_zipWith]
    congr 1
    funext x y
    rw [sub_scale hc, rnd_scale hr hc, abs_scale hc, Function.comp_apply]
  show Rd.vpin (roundBits p) w (v.map (scale (2 ^ k))) (b.map (scale (2 ^ k))) (s.map (scale (2 ^ k))) = _
  unfold Rd.vpin
  dsimp only
  rw [hd, rollSum_scale hr hc, rollSum_scale hr hc, List.zipWith_map]
  simp only [div_scale hc]

/-! The doubles nearest to 0.1, 0.2, 0.3, 0.4 and 0.7 -/

private def d1 : ℚ := toDouble (1 / 10)
private def d2 : ℚ := toDouble (2 / 10)
private def d3 : ℚ := toDouble (3 / 10)
private def d4 : ℚ := toDouble (4 / 10)
private def d7 : ℚ := toDouble (7 / 10)

/-- C131: off the grid a value can be above 1, -/
theorem C131_above_one_refuted : ∃ V B S : List ℚ, Volumes V B S ∧ ∃ q,
    (Rd.vpin (roundBits 53) 2 (V.map .fin) (B.map .fin) (S.map .fin)).getD 2 .nan = .fin q ∧ 1 < q :=
  ⟨[d3, d4, d7], [d3 / 2, d4, d7], [d3 / 2, 0, 0], ⟨rfl, rfl, fun i => by
    match i with
    | 0 => decide +kernel
    | 1 => decide +kernel
    | 2 => decide +kernel
    | n + 3 => simp⟩, 1 + 1 / 2 ^ 52, by decide +kernel⟩

/-- C131: it can be negative, -/
theorem C131_negative_refuted : ∃ V B S : List ℚ, Volumes V B S ∧ ∃ q,
    (Rd.vpin (roundBits 53) 2 (V.map .fin) (B.map .fin) (S.map .fin)).getD 3 .nan = .fin q ∧ q < 0 :=
  ⟨[d1, d3, 0, d1], [d1, d3, 0, d1 / 2], [0, 0, 0, d1 / 2], ⟨rfl, rfl, fun i => by
    match i with
    | 0 => decide +kernel
    | 1 => decide +kernel
    | 2 => decide +kernel
    | 3 => decide +kernel
    | n + 4 => simp⟩,
    ((Rd.vpin (roundBits 53) 2 ([d1, d3, 0, d1].map .fin) ([d1, d3, 0, d1 / 2].map .fin) ([0, 0, 0, d1 / 2].map .fin)).getD 3
      .nan).toK, by decide +kernel⟩

/-- C131: and infinite in a window without any trade, which has the exact value 0. -/
theorem C131_quiet_refuted : ∃ V B S : List ℚ, Volumes V B S ∧ windowVolume 2 V 4 = 0 ∧
    (Rd.vpin (roundBits 53) 2 (V.map .fin) (B.map .fin) (S.map .fin)).getD 4 .nan = .ninf ∧
    (Rd.vpin id 2 (V.map .fin) (B.map .fin) (S.map .fin)).getD 4 .nan = .fin 0 :=
  ⟨[d4, d1, d3, 0, 0], [d2, d1, d3, 0, 0], [d2, 0, 0, 0, 0], ⟨rfl, rfl, fun i => by
    match i with
    | 0 => decide +kernel
    | 1 => decide +kernel
    | 2 => decide +kernel
    | 3 => decide +kernel
    | 4 => decide +kernel
    | n + 5 => simp⟩, by decide +kernel⟩

/-- The hypotheses of `C131_vpin_grid_partial` hold for whole numbers. -/
example : (Rd.vpin (roundBits 53) 2 ([5, 2, 4].map .fin) ([1, 2, 3].map .fin) ([4, 0, 1].map .fin)) =
    [.nan, .fin (roundBits 53 (5 / 7)), .fin (roundBits 53 (4 / 6))] := by decide +kernel

example : Volumes [5, 2, 4] [1, 2, 3] [4, 0, 1] ∧ (∀ x ∈ [5, 2, 4], ∃ m : ℤ, x = m * (2 : ℚ) ^ (0 : ℤ)) ∧
    (∀ i < [5, 2, 4].length, windowVolume 2 [5, 2, 4] i < 2 ^ 53 * 2 ^ (0 : ℤ)) := by
  refine ⟨⟨rfl, rfl, fun i => ?_⟩, ?_, ?_⟩
  · match i with
    | 0 => decide +kernel
    | 1 => decide +kernel
    | 2 => decide +kernel
    | n + 3 => simp
  · intro x hx
    simp only [List.mem_cons, List.not_mem_nil, or_false] at hx
    rcases hx with rfl | rfl | rfl
    · exact ⟨5, by norm_num⟩
    · exact ⟨2, by norm_num⟩
    · exact ⟨4, by norm_num⟩
  · decide +kernel

/-- The hypotheses of `C131_vpin_drift` hold for the columns of `C131_above_one_refuted`, with volumes at most 1. -/
example : 2 * (24 * ((2 : ℕ) + 1) * (2 : ℕ) * 1 / 2 ^ 53) ≤ windowVolume 2 [d3, d4, d7] 2 ∧ (∀ x ∈ [d3, d4, d7], x ≤ 1) := by
  decide +kernel

end Mizar.Props
