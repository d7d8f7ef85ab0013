import Verif.Model.RoundedHighLow
import Verif.Model.Features
import Verif.Props.RoundedCross
import Verif.Lemmas.RoundedHighLow

/-!
Property theorems C137: the estimators made of logarithms (Parkinson, Corwin-Schultz, Beckers-Parkinson, Amihud, Hasbrouck) in
floating point: the exact values without rounding, signs and ranges, missing values, units.
-/

namespace Mizar.Props
open Mizar.Spec Mizar.Rd

private theorem rnd_id'' {K : Type} (x : XF K) : rnd id x = x := by cases x <;> rfl

private theorem rollE_nat {w : ℕ} (f : List ℝ → XF ℝ) (l : List (XF ℝ)) : rollE (w : ℤ) f l = .ok (rolling w f l) := by
  simp only [rollE, if_neg (show ¬ ((w : ℤ) < 0) by omega), Int.toNat_natCast]

/-- C137: on columns, without rounding, these are `ParkinsonVolatility`, `CorwinSchultzSpread`, `BeckersParkinsonVolatility`,
`AmihudLambda` and `HasbrouckLambda` of C60, C61 and C79. -/
theorem C137_exact (w : ℕ) (hw : 1 ≤ w) (a b : String) (f : Frame ℝ) (x y : List (XF ℝ)) (hx : f.col a = .ok x)
    (hy : f.col b = .ok y) :
    (∀ out, Feat.parkinson w a b f = .ok out → out = parkinsonR id Real.log w x y) ∧
    (∀ out, Feat.corwinSchultz w a b f = .ok out → out = corwinSchultzR id Real.log Real.sqrt Real.exp w x y) ∧
    (∀ out, Feat.beckersParkinson w a b f = .ok out →
      out = beckersParkinsonR id Real.log Real.sqrt (1 / √2) √(8 / Real.pi) w x y) ∧
    (∀ out, Feat.amihud w a b f = .ok out → out = amihudR id Real.log w x y) ∧
    (∀ out, Feat.hasbrouck w a b f = .ok out → out = hasbrouckR id Real.log Real.sqrt w x y) := by
  have hlog : logR Real.log = XF.log := by funext z; cases z <;> rfl
  have hsqrt : sqrtR Real.sqrt = XF.sqrt := by funext z; cases z <;> rfl
  have hexp : expR Real.exp = XF.exp := by funext z; cases z <;> rfl
  have hr : ∀ u v : List (XF ℝ), List.zipWith (rangeR id Real.log) u v =
      (List.zipWith XF.div u v).map fun z => Feat.square (XF.log z) := by
    intro u v
    rw [List.map_zipWith]
    congr 1
    funext s t
    rw [rangeR, squareR, rnd_id'', rnd_id'', hlog]
    rfl
  have hclip : (clipR : XF ℝ → XF ℝ) = Feat.clip0 := by
    funext z
    rw [clipR, Feat.clip0]
  have hden : denR id Real.sqrt = Feat.den := rfl
  have hbeta : ∀ u v, Feat.getBeta u v w = .ok (betaR id Real.log w u v) := by
    intro u v
    rw [Feat.getBeta, show (2 : ℤ) = ((2 : ℕ) : ℤ) from rfl, rollE_nat, Py.bind_ok, rollE_nat, betaR, pairR, hr,
      (C131_exact 2 (by norm_num) _).1, (C131_exact w hw _).2]
  have hgamma : ∀ u v, Feat.getGamma u v = .ok (gammaR id Real.log u v) := by
    intro u v
    rw [Feat.getGamma, show (2 : ℤ) = ((2 : ℕ) : ℤ) from rfl, rollE_nat, Py.bind_ok, rollE_nat, Py.bind_ok, gammaR, hr]
  refine ⟨?_, ?_, ?_, ?_, ?_⟩
  · intro out h
    unfold Feat.parkinson at h
    by_cases hcm : ∀ z ∈ [a, b], z ∈ f.cols
    · simp only [checkMissing, if_pos hcm, Py.bind_ok, hx, hy, rollE_nat] at h
      cases h
      rw [parkinsonR, hr, (C131_exact w hw _).2, List.map_map]
      congr 2
      funext z
      rw [Function.comp, rnd_id'']
      rfl
    · simp only [checkMissing, if_neg hcm] at h
      cases h
  · intro out h
    unfold Feat.corwinSchultz at h
    by_cases hcm : ∀ z ∈ [a, b], z ∈ f.cols
    · simp only [checkMissing, if_pos hcm, Py.bind_ok, hx, hy, hbeta, hgamma] at h
      cases h
      rw [corwinSchultzR]
      congr 1
      · funext z
        rw [spreadR, rnd_id'', rnd_id'', rnd_id'', hexp]
      · rw [Feat.getAlpha]
        congr 1
        funext s t
        rw [alphaR, rnd_id'', rnd_id'', rnd_id'', rnd_id'', hsqrt, hclip, hden]
        rfl
    · simp only [checkMissing, if_neg hcm] at h
      cases h
  · intro out h
    unfold Feat.beckersParkinson at h
    by_cases hcm : ∀ z ∈ [a, b], z ∈ f.cols
    · simp only [checkMissing, if_pos hcm, Py.bind_ok, hx, hy, hbeta, hgamma] at h
      cases h
      rw [beckersParkinsonR]
      congr 1
      funext s t
      rw [sigmaR, rnd_id'', rnd_id'', rnd_id'', rnd_id'', hsqrt, hclip, hden, pow_two]
      rfl
    · simp only [checkMissing, if_neg hcm] at h
      cases h
  · intro out h
    unfold Feat.amihud at h
    by_cases hcm : ∀ z ∈ [a, b], z ∈ f.cols
    · simp only [checkMissing, if_pos hcm, Py.bind_ok, hx, hy, rollE_nat] at h
      cases h
      rw [amihudR, (C131_exact w hw _).2, logMovesR, diffR, funext rnd_id'', List.map_id', hlog]
    · simp only [checkMissing, if_neg hcm] at h
      cases h
  · intro out h
    unfold Feat.hasbrouck at h
    by_cases hcm : ∀ z ∈ [a, b], z ∈ f.cols
    · simp only [checkMissing, if_pos hcm, Py.bind_ok, hx, hy, rollE_nat] at h
      cases h
      rw [hasbrouckR, (C131_exact w hw _).2, logMovesR, diffR, funext rnd_id'', List.map_id', hlog, hsqrt]
    · simp only [checkMissing, if_neg hcm] at h
      cases h

private theorem toK_of_mem_map {f : XF ℚ → XF ℚ} {l : List (XF ℚ)} {w i : ℕ} (h : ∀ x ∈ l, 0 ≤ (f x).toK) :
    ∀ x ∈ winAt w i (l.map f), 0 ≤ x.toK := by
  intro x hx
  obtain ⟨y, hy, rfl⟩ := List.mem_map.1 (List.mem_of_mem_take (List.mem_of_mem_drop hx))
  exact h y hy

private theorem mem_zip_exists {α β γ : Type*} {f : α → β → γ} {x : List α} {y : List β} {z : γ} (h : z ∈ List.zipWith f x y) :
    ∃ a ∈ x, ∃ b ∈ y, f a b = z := by
  rw [← List.map_uncurry_zip_eq_zipWith] at h
  obtain ⟨⟨a, b⟩, hab, rfl⟩ := List.mem_map.1 h
  exact ⟨a, (List.of_mem_zip hab).1, b, (List.of_mem_zip hab).2, rfl⟩

private theorem quot_toK_nonneg {p : ℕ} (hp : 1 ≤ p) {x y : XF ℚ} (hx : 0 ≤ x.toK) (hy : 0 ≤ y.toK) :
    0 ≤ (rnd (roundBits p) (XF.div x y)).toK := by
  cases x with
  | fin a =>
    cases y with
    | fin b =>
      rw [XF.div]
      split_ifs
      · rw [XF.infSign]
        split_ifs <;> simp [rnd, XF.toK]
      · exact roundBits_nonneg p hp (div_nonneg hx hy)
    | _ => simp [XF.div, rnd, XF.toK, roundBits_zero]
  | _ =>
    cases y with
    | fin b =>
      rw [XF.div]
      try split_ifs
      all_goals simp [rnd, XF.toK]
    | _ => simp [XF.div, rnd, XF.toK]

private theorem abs_toK_nonneg (x : XF ℚ) : 0 ≤ (XF.abs x).toK := by
  cases x <;> simp [XF.abs, XF.toK]

/-- C137: Parkinson's volatility is never negative, nor are the lambdas of Amihud and Hasbrouck if no volume is, whatever the
logarithm and the square root of a number that is not negative, as long as it is not negative. -/
theorem C137_sign (p : ℕ) (hp : 1 ≤ p) (w : ℕ) (hw : 1 ≤ w) (lg sq : ℚ → ℚ) (h2 : 0 ≤ lg 2) (hsq : ∀ x, 0 ≤ x → 0 ≤ sq x)
    (x y : List (XF ℚ)) (hl : x.length = y.length) (i : ℕ) (hi : i < x.length) (q : ℚ) :
    ((parkinsonR (roundBits p) lg w x y).getD i .nan = .fin q → 0 ≤ q) ∧
    ((∀ v ∈ y, 0 ≤ v.toK) → (amihudR (roundBits p) lg w x y).getD i .nan = .fin q → 0 ≤ q) ∧
    ((∀ v ∈ y, 0 ≤ v.toK) → (hasbrouckR (roundBits p) lg sq w x y).getD i .nan = .fin q → 0 ≤ q) := by
  have hmv : (logMovesR (roundBits p) lg x).length = x.length := by simp [logMovesR, diffR, pdDiff, pdShift]
  have hmn : ∀ a ∈ logMovesR (roundBits p) lg x, 0 ≤ a.toK := by
    intro a ha
    obtain ⟨b, -, rfl⟩ := List.mem_map.1 ha
    exact abs_toK_nonneg b
  refine ⟨?_, ?_, ?_⟩
  · intro h
    refine (C132_sign _ w hw _ i (by simp; omega) q h).1 (toK_of_mem_map ?_)
    intro z hz
    obtain ⟨a, -, b, -, rfl⟩ := mem_zip_exists hz
    have h1 := rangeR_nonneg (lg := lg) (fun x hx => roundBits_nonneg p hp (q := x) hx) a b
    have h3 : 0 ≤ roundBits p (1 / (4 * lg 2)) := roundBits_nonneg p hp (by positivity)
    cases hc : rangeR (roundBits p) lg a b with
    | fin t =>
      rw [hc] at h1
      exact roundBits_nonneg p hp (mul_nonneg h3 h1)
    | _ =>
      simp only [XF.mul, XF.infSign]
      try split_ifs
      all_goals simp [rnd, XF.toK, XF.neg]
  · intro hv h
    refine (C132_sign _ w hw _ i (by simp; omega) q h).1 ?_
    intro z hz
    obtain ⟨a, ha, b, hb, rfl⟩ := mem_zip_exists (List.mem_of_mem_take (List.mem_of_mem_drop hz))
    exact quot_toK_nonneg hp (hmn a ha) (hv b hb)
  · intro hv h
    refine (C132_sign _ w hw _ i (by simp; omega) q h).1 ?_
    intro z hz
    obtain ⟨a, ha, b, hb, rfl⟩ := mem_zip_exists (List.mem_of_mem_take (List.mem_of_mem_drop hz))
    obtain ⟨c, hc, rfl⟩ := List.mem_map.1 hb
    refine quot_toK_nonneg hp (hmn a ha) ?_
    have := hv c hc
    cases c with
    | fin c =>
      rw [sqrtR]
      split_ifs
      · exact le_refl _
      · exact hsq c this
    | _ => simp [sqrtR, XF.toK]

private theorem clip_cases (x : XF ℚ) : clipR x = .nan ∨ clipR x = .pinf ∨ ∃ a, clipR x = .fin a ∧ 0 ≤ a := by
  rw [clipR]
  cases x with
  | fin a =>
    by_cases h : a < 0
    · exact .inr (.inr ⟨0, by simp [XF.lt, h], le_refl _⟩)
    · exact .inr (.inr ⟨a, by simp [XF.lt, h], not_lt.1 h⟩)
  | nan => exact .inl (by simp [XF.lt])
  | pinf => exact .inr (.inl (by simp [XF.lt]))
  | ninf => exact .inr (.inr ⟨0, by simp [XF.lt], le_refl _⟩)

/-- C137: every Corwin-Schultz spread is missing or a number from 0 to 2, and no Beckers-Parkinson volatility is negative. -/
theorem C137_range (p : ℕ) (hp : 2 ≤ p) (w : ℕ) (lg sq ex : ℚ → ℚ) (hex : ∀ x, 0 ≤ x → 1 ≤ ex x) (h2 k2 : ℚ)
    (x y : List (XF ℚ)) :
    (∀ s ∈ corwinSchultzR (roundBits p) lg sq ex w x y, s = .nan ∨ ∃ q, s = .fin q ∧ 0 ≤ q ∧ q ≤ 2) ∧
    (∀ s ∈ beckersParkinsonR (roundBits p) lg sq h2 k2 w x y, s = .nan ∨ s = .pinf ∨ ∃ q, s = .fin q ∧ 0 ≤ q) := by
  have hp1 : 1 ≤ p := by omega
  constructor
  · intro s hs
    obtain ⟨a, ha, rfl⟩ := List.mem_map.1 hs
    obtain ⟨b, -, g, -, rfl⟩ := mem_zip_exists ha
    rw [alphaR]
    rcases clip_cases (rnd (roundBits p) (XF.sub (rnd (roundBits p) (XF.div (rnd (roundBits p)
      (XF.mul (.fin (roundBits p (sq 2 - 1))) (sqrtR sq b))) (.fin (denR (roundBits p) sq))))
      (sqrtR sq (rnd (roundBits p) (XF.div g (.fin (denR (roundBits p) sq))))))) with e | e | ⟨a, e, ha⟩
    · rw [e]
      exact .inl rfl
    · rw [e]
      exact .inl rfl
    · rw [e]
      obtain ⟨e1, e2, e3, e4⟩ := spread_fin hp (hex a ha)
      refine .inr ⟨_, e1, roundBits_nonneg p hp1 (by positivity), ?_⟩
      rw [← roundBits_two_eq hp]
      apply roundBits_mono p hp1
      rw [roundBits_two_eq hp, div_le_iff₀ (by linarith)]
      linarith
  · intro s hs
    obtain ⟨b, -, g, -, rfl⟩ := mem_zip_exists hs
    exact clip_cases _

/-- C137: where values are missing: Parkinson's volatility where the window is not complete or has a bar that is not usable, beta
likewise for the window of one more bar. -/
theorem C137_missing (p : ℕ) (hp : 1 ≤ p) (w : ℕ) (hw : 1 ≤ w) (lg : ℚ → ℚ) (h2 : 0 < lg 2) (x y : List (XF ℚ))
    (hl : x.length = y.length) (i : ℕ) (hi : i < x.length) :
    ((parkinsonR (roundBits p) lg w x y).getD i .nan = .nan ↔
      ¬ (w ≤ i + 1 ∧ ∀ j, i + 1 - w ≤ j → j ≤ i → Usable (x.getD j .nan) (y.getD j .nan))) ∧
    ((betaR (roundBits p) lg w x y).getD i .nan = .nan ↔
      ¬ (w ≤ i ∧ ∀ j, i - w ≤ j → j ≤ i → Usable (x.getD j .nan) (y.getD j .nan))) := by
  have hu : ∀ j, j < x.length → (((List.zipWith (rangeR (roundBits p) lg) x y).getD j .nan).undef = false ↔
      Usable (x.getD j .nan) (y.getD j .nan)) := by
    intro j hj
    rw [zipWith_getD _ x y .nan .nan hl j hj]
    exact rangeR_undef (fun x hx => roundBits_pos p hp (q := x) hx) (roundBits_zero p) (fun x hx => roundBits_lt_zero hp hx) _ _
  have hc : 0 < roundBits p (1 / (4 * lg 2)) := roundBits_pos p hp (by positivity)
  constructor
  · rw [parkinsonR, rollMean_missing _ hw _ i (by simp; omega), not_iff_not]
    refine and_congr_right fun _ => forall_congr' fun j => imp_congr_right fun _ => imp_congr_right fun h2 => ?_
    rw [← hu j (by omega), List.getD_eq_getElem _ _ (by simp; omega), List.getElem_map, ← List.getD_eq_getElem _ .nan, rnd_undef']
    generalize roundBits p (1 / (4 * lg 2)) = c at hc
    cases (List.zipWith (rangeR (roundBits p) lg) x y).getD j .nan with
    | fin t => simp [XF.mul, fin_defined]
    | _ => simp [XF.mul, XF.undef, XF.isNan, XF.isInf, XF.infSign, hc, XF.neg]
  · rw [betaR, rollMean_missing _ hw _ i (by simp [pairR, rollSum]; omega), not_iff_not]
    have hz : (List.zipWith (rangeR (roundBits p) lg) x y).length = x.length := by simp; omega
    constructor
    · rintro ⟨h1, h3⟩
      have hk : ∀ j, i + 1 - w ≤ j → j ≤ i → 2 ≤ j + 1 ∧ ∀ k, j + 1 - 2 ≤ k → k ≤ j → Usable (x.getD k .nan) (y.getD k .nan) := by
        intro j h4 h5
        obtain ⟨h6, h7⟩ := (rollSum_defined _ (by norm_num) _ j (by rw [hz]; omega)).1 (h3 j h4 h5)
        exact ⟨h6, fun k h8 h9 => (hu k (by omega)).1 (h7 k h8 h9)⟩
      have h0 := (hk (i + 1 - w) le_rfl (by omega)).1
      refine ⟨by omega, fun j h4 h5 => ?_⟩
      rcases Nat.lt_or_ge j (i + 1 - w) with h6 | h6
      · exact (hk (i + 1 - w) le_rfl (by omega)).2 j (by omega) (by omega)
      · exact (hk j h6 h5).2 j (by omega) le_rfl
    · rintro ⟨h1, h3⟩
      refine ⟨by omega, fun j h4 h5 => ?_⟩
      exact (rollSum_defined _ (by norm_num) _ j (by rw [hz]; omega)).2
        ⟨by omega, fun k h6 h7 => (hu k (by omega)).2 (h3 k (by omega) (by omega))⟩

private theorem gamma_val {p : ℕ} (hp : 1 ≤ p) (lg : ℚ → ℚ) {H L : List ℚ} (h : Bars H L) (i : ℕ) (hi : i + 1 < H.length) :
    ∃ g, 0 ≤ g ∧ (gammaR (roundBits p) lg (H.map .fin) (L.map .fin)).getD (i + 1) .nan = .fin g := by
  have hl := h.len
  have hL : i + 1 < L.length := by omega
  rw [gammaR, zipWith_getD _ _ _ .nan .nan (by simp [rolling, hl]) (i + 1) (by simpa [rolling] using hi), roll_max H i hi,
    roll_min L i hL]
  have h1 : 0 < max H[i] H[i + 1] := lt_max_of_lt_left (h.high _ (List.getElem_mem _))
  have h2 : 0 < min L[i] L[i + 1] := lt_min (h.low _ (List.getElem_mem _)) (h.low _ (List.getElem_mem _))
  rw [rangeR_usable (fun x hx => roundBits_pos p hp (q := x) hx) (div_pos h1 h2)]
  exact ⟨_, roundBits_nonneg p hp (mul_self_nonneg _), rfl⟩

private theorem bars_usable {H L : List ℚ} (h : Bars H L) (j : ℕ) (hj : j < H.length) :
    Usable ((H.map XF.fin).getD j .nan) ((L.map XF.fin).getD j .nan) := by
  have hl := h.len
  rw [List.getD_eq_getElem _ _ (by simpa using hj), List.getD_eq_getElem _ _ (by simp; omega), List.getElem_map, List.getElem_map]
  exact ⟨_, _, rfl, rfl, div_pos (h.high _ (List.getElem_mem _)) (h.low _ (List.getElem_mem _))⟩

private theorem sigma_val {p : ℕ} (hp : 1 ≤ p) {sq : ℚ → ℚ} {h2 k2 : ℚ} (hd : 0 < denR (roundBits p) sq) (hk : 0 < k2) {b g : ℚ}
    (hg : 0 ≤ g) : (sigmaR (roundBits p) sq h2 k2 (.fin b) (.fin g) = .nan ↔ b < 0) := by
  have h3 : 0 < roundBits p (k2 * denR (roundBits p) sq) := roundBits_pos p hp (mul_pos hk hd)
  have h4 : 0 < roundBits p (roundBits p (k2 * k2) * denR (roundBits p) sq) :=
    roundBits_pos p hp (mul_pos (roundBits_pos p hp (mul_pos hk hk)) hd)
  have h1 : ¬ roundBits p (g / roundBits p (roundBits p (k2 * k2) * denR (roundBits p) sq)) < 0 :=
    not_lt.2 (roundBits_nonneg p hp (div_nonneg hg h4.le))
  by_cases hb : b < 0
  · rw [sigmaR, sqrtR, if_pos hb]
    simp only [hb, iff_true]
    rfl
  · rw [sigmaR, sqrtR, if_neg hb, rnd_div_fin _ h4, sqrtR, if_neg h1, XF.mul, rnd, rnd_div_fin _ h3, XF.add, rnd, clip_fin]
    simp [hb]

/-- C137: with positive prices a spread (or a Beckers-Parkinson volatility) is missing only on the first `w` bars and where the
rounded beta is negative. -/
theorem C137_spread_missing (p : ℕ) (hp : 2 ≤ p) (w : ℕ) (hw : 1 ≤ w) (lg sq ex : ℚ → ℚ) (hex : ∀ x, 0 ≤ x → 1 ≤ ex x)
    (hd : 0 < denR (roundBits p) sq) (h2 k2 : ℚ) (hk : 0 < k2) (hlg : 0 < lg 2) (H L : List ℚ) (h : Bars H L) (i : ℕ)
    (hi : i < H.length) :
    ((corwinSchultzR (roundBits p) lg sq ex w (H.map .fin) (L.map .fin)).getD i .nan = .nan ↔
      i < w ∨ ∃ q, (betaR (roundBits p) lg w (H.map .fin) (L.map .fin)).getD i .nan = .fin q ∧ q < 0) ∧
    ((beckersParkinsonR (roundBits p) lg sq h2 k2 w (H.map .fin) (L.map .fin)).getD i .nan = .nan ↔
      i < w ∨ ∃ q, (betaR (roundBits p) lg w (H.map .fin) (L.map .fin)).getD i .nan = .fin q ∧ q < 0) := by
  have hp1 : 1 ≤ p := by omega
  have hl := h.len
  have lenB : (betaR (roundBits p) lg w (H.map XF.fin) (L.map .fin)).length = H.length := by
    simp [betaR, pairR, rollMean, rollSum, hl]
  have lenG : (gammaR (roundBits p) lg (H.map XF.fin) (L.map .fin)).length = H.length := by
    simp [gammaR, rolling, hl]
  have hm := (C137_missing p hp1 w hw lg hlg (H.map .fin) (L.map .fin) (by simpa using hl) i (by simpa using hi)).2
  have e1 : (corwinSchultzR (roundBits p) lg sq ex w (H.map .fin) (L.map .fin)).getD i .nan =
      spreadR (roundBits p) ex (alphaR (roundBits p) sq ((betaR (roundBits p) lg w (H.map .fin) (L.map .fin)).getD i .nan)
        ((gammaR (roundBits p) lg (H.map .fin) (L.map .fin)).getD i .nan)) := by
    rw [corwinSchultzR, List.getD_eq_getElem _ _ (by simp; omega), List.getElem_map, ← List.getD_eq_getElem _ .nan,
      zipWith_getD _ _ _ .nan .nan (by omega) i (by omega)]
  have e2 : (beckersParkinsonR (roundBits p) lg sq h2 k2 w (H.map .fin) (L.map .fin)).getD i .nan =
      sigmaR (roundBits p) sq h2 k2 ((betaR (roundBits p) lg w (H.map .fin) (L.map .fin)).getD i .nan)
        ((gammaR (roundBits p) lg (H.map .fin) (L.map .fin)).getD i .nan) := by
    rw [beckersParkinsonR, zipWith_getD _ _ _ .nan .nan (by omega) i (by omega)]
  rw [e1, e2]
  by_cases hiw : i < w
  · rw [hm.2 fun h' => by omega]
    simp only [hiw, true_or, iff_true]
    exact ⟨rfl, rfl⟩
  · have hb : ∃ b, (betaR (roundBits p) lg w (H.map XF.fin) (L.map .fin)).getD i .nan = .fin b := by
      have hne : (betaR (roundBits p) lg w (H.map XF.fin) (L.map .fin)).getD i .nan ≠ .nan := by
        intro he
        exact hm.1 he ⟨by omega, fun j _ h4 => bars_usable h j (by omega)⟩
      rw [betaR, rollMean_getD _ hw _ i (by simp [pairR, rollSum]; omega)] at hne ⊢
      split_ifs at hne ⊢ with hc
      · exact ⟨_, rfl⟩
      · exact absurd rfl hne
    obtain ⟨b, hb⟩ := hb
    obtain ⟨g, hg0, hg⟩ := gamma_val hp1 lg h (i - 1) (by omega)
    rw [Nat.sub_add_cancel (by omega)] at hg
    rw [hb, hg, sigma_val hp1 hd hk hg0, alpha_val hp1 hd hg0]
    have hq : (∃ q, XF.fin b = XF.fin q ∧ q < 0) ↔ b < 0 :=
      ⟨fun ⟨q, h1, h2⟩ => by cases h1; exact h2, fun h1 => ⟨b, rfl, h1⟩⟩
    simp only [hiw, false_or, hq]
    refine ⟨?_, trivial⟩
    by_cases hb0 : b < 0
    · simp only [if_pos hb0, hb0, iff_true]
      rfl
    · rw [if_neg hb0, (spread_fin hp (hex _ (le_max_right _ _))).1]
      simp [hb0]

private theorem state_zero {r : ℚ → ℚ} (h0 : r 0 = 0) (w : ℕ) (l : List (XF ℚ)) (n : ℕ)
    (hz : ∀ j < n, l.getD j .nan = .fin 0) :
    (rollState r w l n).s = 0 ∧ (rollState r w l n).ca = 0 ∧ (rollState r w l n).cr = 0 := by
  induction n with
  | zero => exact ⟨rfl, rfl, rfl⟩
  | succ n ih =>
    obtain ⟨h1, h2, h3⟩ := ih fun j hj => hz j (by omega)
    rw [rollState, rollStep, hz n (by omega)]
    by_cases hw : w ≤ n
    · rw [if_pos hw]
      by_cases hw0 : w = 0
      · subst hw0
        rw [Nat.sub_zero, hz n (by omega)]
        simp [rollAdd, rollRemove, kahanAdd, h1, h2, h3, h0]
      · rw [hz (n - w) (by omega)]
        simp [rollAdd, rollRemove, kahanAdd, h1, h2, h3, h0]
    · rw [if_neg hw]
      simp [rollAdd, kahanAdd, h1, h2, h3, h0]

private theorem sum_zero {r : ℚ → ℚ} (h0 : r 0 = 0) {w : ℕ} (hw : 1 ≤ w) (l : List (XF ℚ)) (i : ℕ) (hi : i < l.length)
    (hwi : w ≤ i + 1) (a : ℕ) (ha : a = i + 1 - w) (hs : (rollState r w l (i + 1)).s = 0)
    (hz : ∀ j, a ≤ j → j ≤ i → l.getD j .nan = .fin 0) :
    (rollSum r w l).getD i .nan = .fin 0 ∧ (rollMean r w l).getD i .nan = .fin 0 := by
  have hc : w ≤ i + 1 ∧ (winAt w i l).any XF.undef = false := by
    refine ⟨hwi, (window_defined w i l hi).2 fun j h1 h2 => ?_⟩
    rw [hz j (by omega) h2]
    exact fin_defined _
  rw [rollSum_getD r hw l i hi, rollMean_getD r hw l i hi, if_pos hc, if_pos hc, hs, zero_div, h0]
  exact ⟨rfl, by rw [fixSign_eq (fun _ => le_refl _) (fun _ => le_refl _)]⟩

/-- C137: if every bar so far is flat (high = low, prices may change from bar to bar), Parkinson's volatility and the Corwin-Schultz
spread are zero. -/
theorem C137_flat (p : ℕ) (hp : 2 ≤ p) (w : ℕ) (hw : 1 ≤ w) (lg sq ex : ℚ → ℚ) (hlg : lg 1 = 0) (hsq0 : sq 0 = 0)
    (hsq : ∀ x, 0 ≤ x → 0 ≤ sq x) (hex : ex 0 = 1) (hd : 0 < denR (roundBits p) sq) (H L : List ℚ) (h : Bars H L) (i : ℕ)
    (hi : i < H.length) (hf : ∀ j ≤ i, H.getD j 0 = L.getD j 0) :
    (w ≤ i + 1 → (parkinsonR (roundBits p) lg w (H.map .fin) (L.map .fin)).getD i .nan = .fin 0) ∧
    (w ≤ i → (corwinSchultzR (roundBits p) lg sq ex w (H.map .fin) (L.map .fin)).getD i .nan = .fin 0) := by
  have hp1 : 1 ≤ p := by omega
  have h0 := roundBits_zero p
  have hl := h.len
  have hz : ∀ j ≤ i, (List.zipWith (rangeR (roundBits p) lg) (H.map .fin) (L.map .fin)).getD j .nan = .fin 0 := by
    intro j hj
    have h1 := hf j hj
    rw [List.getD_eq_getElem _ _ (by omega), List.getD_eq_getElem _ _ (by omega)] at h1
    rw [zipWith_getD _ _ _ .nan .nan (by simpa using hl) j (by simp; omega), List.getD_eq_getElem _ _ (by simp; omega),
      List.getD_eq_getElem _ _ (by simp; omega), List.getElem_map, List.getElem_map, h1]
    have hpos := h.low _ (List.getElem_mem (l := L) (n := j) (by omega))
    rw [rangeR_usable (fun x hx => roundBits_pos p hp1 (q := x) hx) (div_pos hpos hpos), div_self hpos.ne', roundBits_one p hp1, hlg,
      mul_zero, h0]
  constructor
  · intro hwi
    rw [parkinsonR]
    have hz' : ∀ j ≤ i, ((List.zipWith (rangeR (roundBits p) lg) (H.map XF.fin) (L.map .fin)).map fun x =>
        rnd (roundBits p) (XF.mul (.fin (roundBits p (1 / (4 * lg 2)))) x)).getD j .nan = .fin 0 := by
      intro j hj
      rw [List.getD_eq_getElem _ _ (by simp; omega), List.getElem_map, ← List.getD_eq_getElem _ .nan, hz j hj, XF.mul, mul_zero, rnd,
        h0]
    exact (sum_zero h0 hw _ i (by simp; omega) hwi _ rfl (state_zero h0 w _ (i + 1) fun j hj => hz' j (by omega)).1
      fun j _ h2 => hz' j h2).2
  · intro hwi
    have hpair : ∀ j, 1 ≤ j → j ≤ i → (pairR (roundBits p) lg (H.map XF.fin) (L.map .fin)).getD j .nan = .fin 0 := by
      intro j h1 h2
      rw [pairR]
      exact (sum_zero h0 (by norm_num) _ j (by simp; omega) (by omega) _ rfl
        (state_zero h0 2 _ (j + 1) fun k hk => hz k (by omega)).1 fun k _ h3 => hz k (by omega)).1
    have hp0 : (pairR (roundBits p) lg (H.map XF.fin) (L.map .fin)).getD 0 .nan = .nan := by
      rw [pairR, rollSum_getD _ (by norm_num) _ 0 (by simp; omega), if_neg (by omega)]
    have hst : ∀ n, n ≤ i + 1 → (rollState (roundBits p) w (pairR (roundBits p) lg (H.map XF.fin) (L.map .fin)) n).s = 0 ∧
        (rollState (roundBits p) w (pairR (roundBits p) lg (H.map XF.fin) (L.map .fin)) n).ca = 0 ∧
        (rollState (roundBits p) w (pairR (roundBits p) lg (H.map XF.fin) (L.map .fin)) n).cr = 0 := by
      intro n
      induction n with
      | zero => exact fun _ => ⟨rfl, rfl, rfl⟩
      | succ n ih =>
        intro hn
        obtain ⟨h1, h2, h3⟩ := ih (by omega)
        have hv : ∀ j ≤ i, (pairR (roundBits p) lg (H.map XF.fin) (L.map .fin)).getD j .nan = .fin 0 ∨
            (pairR (roundBits p) lg (H.map XF.fin) (L.map .fin)).getD j .nan = .nan := by
          intro j hj
          rcases Nat.eq_zero_or_pos j with rfl | hj0
          · exact .inr hp0
          · exact .inl (hpair j hj0 hj)
        rw [rollState, rollStep]
        rcases hv n (by omega) with e | e <;> rcases hv (n - w) (by omega) with e' | e' <;> rw [e, e'] <;>
          by_cases hwn : w ≤ n <;> simp [hwn, rollAdd, rollRemove, kahanAdd, h1, h2, h3, h0]
    have hb : (betaR (roundBits p) lg w (H.map XF.fin) (L.map .fin)).getD i .nan = .fin 0 := by
      rw [betaR]
      exact (sum_zero h0 hw _ i (by simp [pairR, rollSum]; omega) (by omega) _ rfl (hst (i + 1) le_rfl).1
        fun j h1 h2 => hpair j (by omega) h2).2
    obtain ⟨g, hg0, hg⟩ := gamma_val hp1 lg h (i - 1) (by omega)
    rw [Nat.sub_add_cancel (by omega)] at hg
    rw [corwinSchultzR, List.getD_eq_getElem _ _ (by simp [betaR, pairR, gammaR, rollMean, rollSum, rolling]; omega),
      List.getElem_map, ← List.getD_eq_getElem _ .nan,
      zipWith_getD _ _ _ .nan .nan (by simp [betaR, pairR, gammaR, rollMean, rollSum, rolling, hl]) i
        (by simp [betaR, pairR, rollMean, rollSum]; omega), hb, hg, alpha_val hp1 hd hg0, if_neg (lt_irrefl _), hsq0,
      mul_zero, h0, zero_div, h0]
    have h3 : roundBits p (0 - sq (roundBits p (g / denR (roundBits p) sq))) ≤ 0 := by
      rw [zero_sub, roundBits_neg]
      have := roundBits_nonneg p hp1 (hsq _ (roundBits_nonneg p hp1 (div_nonneg hg0 hd.le)))
      linarith
    rw [max_eq_right h3, (spread_fin hp (a := 0) (by rw [hex])).1, hex, sub_self, h0, mul_zero, zero_div, h0]

private theorem foldl_scale {c : ℚ} (hc : 0 ≤ c) (l : List ℚ) (a : ℚ) :
    (l.map (· * c)).foldl max (a * c) = l.foldl max a * c ∧ (l.map (· * c)).foldl min (a * c) = l.foldl min a * c := by
  induction l generalizing a with
  | nil => exact ⟨rfl, rfl⟩
  | cons x l ih =>
    simp only [List.map_cons, List.foldl_cons, ← max_mul_of_nonneg _ _ hc, ← min_mul_of_nonneg _ _ hc]
    exact ⟨(ih _).1, (ih _).2⟩

private theorem rolling_scale {c : ℚ} (f : List ℚ → XF ℚ) (hf : ∀ l, f (l.map (· * c)) = scale c (f l)) (w : ℕ) (H : List ℚ) :
    rolling w f ((H.map (· * c)).map .fin) = (rolling w f (H.map .fin)).map (scale c) := by
  rw [rolling, rolling, List.map_map (l := List.range _), List.length_map, List.length_map, List.length_map]
  apply List.map_congr_left
  intro i _
  rw [Function.comp, rollAt, rollAt, winAt_fin_undef, winAt_fin_undef, winAt_fin_toK, winAt_fin_toK, winAt_map, hf]
  split_ifs <;> rfl

private theorem range_scale (r lg : ℚ → ℚ) {c : ℚ} (hc : 0 < c) (x y : List (XF ℚ)) :
    List.zipWith (rangeR r lg) (x.map (scale c)) (y.map (scale c)) = List.zipWith (rangeR r lg) x y := by
  rw [List.zipWith_map]
  congr 1
  funext a b
  rw [rangeR, div_scale hc, rangeR]

private theorem div_by_scaled {c : ℚ} (hc : 0 < c) (a : XF ℚ) (v : ℚ) :
    XF.div a (.fin (v * c)) = scale c⁻¹ (XF.div a (.fin v)) := by
  have hi : 0 < c⁻¹ := inv_pos.2 hc
  have hs : v * c < 0 ↔ v < 0 := by
    constructor
    · intro h; by_contra h'; push Not at h'; linarith [mul_nonneg h' hc.le]
    · intro h; exact mul_neg_of_neg_of_pos h hc
  cases a with
  | nan => rfl
  | fin x =>
    rw [XF.div, XF.div]
    by_cases hv : v = 0
    · rw [if_pos hv, if_pos (by rw [hv, zero_mul]), scale, XF.infSign]
      split_ifs <;> simp [XF.mul, XF.infSign, hi, XF.neg]
    · rw [if_neg hv, if_neg (mul_ne_zero hv hc.ne'), scale, XF.mul]
      congr 1
      field_simp
  | pinf =>
    rw [XF.div, XF.div]
    by_cases hv : v < 0
    · rw [if_pos hv, if_pos (hs.2 hv)]; simp [scale, XF.mul, XF.infSign, hi, XF.neg]
    · rw [if_neg hv, if_neg (fun h => hv (hs.1 h))]; simp [scale, XF.mul, XF.infSign, hi]
  | ninf =>
    rw [XF.div, XF.div]
    by_cases hv : v < 0
    · rw [if_pos hv, if_pos (hs.2 hv)]; simp [scale, XF.mul, XF.infSign, hi]
    · rw [if_neg hv, if_neg (fun h => hv (hs.1 h))]; simp [scale, XF.mul, XF.infSign, hi, XF.neg]

/-- C137: units.  If all prices are multiplied by the same positive number (and still represented exactly), Parkinson's volatility,
the Corwin-Schultz spread and the Beckers-Parkinson volatility do not change in any bit; if all volumes are multiplied by a power of
two, Amihud's lambda is divided by it. -/
theorem C137_units (p : ℕ) (w : ℕ) (lg sq ex : ℚ → ℚ) (h2 k2 : ℚ) (H L : List ℚ) (c : ℚ) (hc : 0 < c) :
    parkinsonR (roundBits p) lg w ((H.map (· * c)).map .fin) ((L.map (· * c)).map .fin) =
      parkinsonR (roundBits p) lg w (H.map .fin) (L.map .fin) ∧
    corwinSchultzR (roundBits p) lg sq ex w ((H.map (· * c)).map .fin) ((L.map (· * c)).map .fin) =
      corwinSchultzR (roundBits p) lg sq ex w (H.map .fin) (L.map .fin) ∧
    beckersParkinsonR (roundBits p) lg sq h2 k2 w ((H.map (· * c)).map .fin) ((L.map (· * c)).map .fin) =
      beckersParkinsonR (roundBits p) lg sq h2 k2 w (H.map .fin) (L.map .fin) ∧
    ∀ k : ℤ, amihudR (roundBits p) lg w (H.map .fin) ((L.map (· * 2 ^ k)).map .fin) =
      (amihudR (roundBits p) lg w (H.map .fin) (L.map .fin)).map fun x => XF.mul x (.fin (2 ^ (-k))) := by
  have hcol : ∀ l : List ℚ, (l.map (· * c)).map XF.fin = (l.map .fin).map (scale c) := by
    intro l
    rw [List.map_map, List.map_map]
    rfl
  have hmax : ∀ l : List ℚ, winMax (l.map (· * c)) = scale c (winMax l) := by
    intro l
    cases l with
    | nil => rfl
    | cons a l =>
      rw [List.map_cons, winMax, winMax, (foldl_scale hc.le l a).1]
      rfl
  have hmin : ∀ l : List ℚ, winMin (l.map (· * c)) = scale c (winMin l) := by
    intro l
    cases l with
    | nil => rfl
    | cons a l =>
      rw [List.map_cons, winMin, winMin, (foldl_scale hc.le l a).2]
      rfl
  have hb : betaR (roundBits p) lg w ((H.map (· * c)).map .fin) ((L.map (· * c)).map .fin) =
      betaR (roundBits p) lg w (H.map .fin) (L.map .fin) := by
    rw [betaR, betaR, pairR, pairR, hcol, hcol, range_scale _ _ hc]
  have hg : gammaR (roundBits p) lg ((H.map (· * c)).map .fin) ((L.map (· * c)).map .fin) =
      gammaR (roundBits p) lg (H.map .fin) (L.map .fin) := by
    rw [gammaR, gammaR, rolling_scale winMax hmax, rolling_scale winMin hmin, range_scale _ _ hc]
  refine ⟨?_, ?_, ?_, ?_⟩
  · rw [parkinsonR, parkinsonR, hcol, hcol, range_scale _ _ hc]
  · rw [corwinSchultzR, corwinSchultzR, hb, hg]
  · rw [beckersParkinsonR, beckersParkinsonR, hb, hg]
  · intro k
    have hk := two_zpow_pos k
    have hki := two_zpow_pos (-k)
    have hr : ∀ x, roundBits p (x * 2 ^ (-k)) = roundBits p x * 2 ^ (-k) := fun x => roundBits_zpow p (-k) x
    rw [amihudR, amihudR]
    change _ = List.map (scale (2 ^ (-k))) _
    rw [← rollMean_scale hr hki]
    congr 1
    clear hb hg
    generalize logMovesR (roundBits p) lg (H.map XF.fin) = D
    induction L generalizing D with
    | nil => simp
    | cons v L ih =>
      cases D with
      | nil => simp
      | cons d D =>
        simp only [List.map_cons, List.zipWith_cons_cons, List.cons.injEq]
        refine ⟨?_, ih D⟩
        rw [div_by_scaled hk, ← zpow_neg, rnd_scale hr hki]

end Mizar.Props
