import Verif.Lemmas.RoundedLog
import Verif.Props.RoundedHighLow
import Mathlib.Analysis.Complex.ExponentialBounds

/-!
Property theorems C137, continued: how far the estimators made of logarithms are from their exact values, with any logarithm that is
off by at most one unit in the last place.
-/

namespace Mizar.Props
open Mizar.Spec Mizar.Rd

/-- C137: the squared logarithm of one bar is off by at most `6 (1 + T)² / 2^p` if the logarithm is at most `T`. -/
theorem C137_bar (p : ℕ) (hp : 8 ≤ p) (lg : ℚ → ℚ) (hlg : GoodLog p lg) (a b : ℚ) (h : 0 < a / b) (T : ℝ)
    (hT : |Real.log ((a : ℝ) / b)| ≤ T) :
    ∃ q, rangeR (roundBits p) lg (.fin a) (.fin b) = .fin q ∧ |(q : ℝ) - Real.log ((a : ℝ) / b) ^ 2| ≤ 6 * (1 + T) ^ 2 / 2 ^ p := by
  have hT0 : 0 ≤ T := (abs_nonneg _).trans hT
  have hk := (range_near hp hlg (x := .fin a) (y := .fin b) hT0 (by rintro a' b' ⟨⟩ ⟨⟩ _; exact hT)).1.2
  rw [range_real h, rangeR_usable (fun x hx => roundBits_pos p (by omega) (q := x) hx) h] at hk
  refine ⟨_, rangeR_usable (fun x hx => roundBits_pos p (by omega) (q := x) hx) h, ?_⟩
  rw [pow_two, div_eq_mul_one_div (6 * (1 + T) ^ 2)]
  exact hk

/-- Parkinson's constant. -/
private theorem const_near {p : ℕ} (hp : 8 ≤ p) {lg : ℚ → ℚ} (hlg : GoodLog p lg) :
    |((roundBits p (1 / (4 * lg 2)) : ℚ) : ℝ) - 1 / (4 * Real.log 2)| ≤ 11 / 10 * (1 / 2 ^ p) ∧
    |((roundBits p (1 / (4 * lg 2)) : ℚ) : ℝ)| ≤ 37 / 100 ∧ 0 < lg 2 := by
  obtain ⟨he0, he⟩ := eps_real hp
  have h1 := hlg 2 (by norm_num)
  have h2 := round_real (show 1 ≤ p by omega) (1 / (4 * lg 2))
  rw [mul_div_right_comm, div_eq_mul_one_div 2, mul_assoc] at h1
  push_cast at h1 h2 ⊢
  generalize (1 : ℝ) / 2 ^ p = e at *
  generalize ((roundBits p (1 / (4 * lg 2)) : ℚ) : ℝ) = c at *
  have hlam := Real.log_two_gt_d9
  have hlam' := Real.log_two_lt_d9
  generalize Real.log 2 = m at *
  have hm0 : 0 < m := by linarith
  rw [abs_of_pos hm0] at h1
  obtain ⟨h3, h4⟩ := abs_le.1 h1
  have h5 : e * m ≤ 1 / 256 * m := mul_le_mul_of_nonneg_right he hm0.le
  have hl : 127 / 128 * m ≤ (lg 2 : ℝ) := by linarith
  have hl0 : (0 : ℝ) < lg 2 := by linarith
  have hpos : 0 < lg 2 := by exact_mod_cast hl0
  generalize (lg 2 : ℝ) = l at *
  have hc0 : 0 < 1 / (4 * l) := by positivity
  rw [abs_of_pos hc0] at h2
  have hub : 1 / (4 * l) ≤ 3636 / 10000 := by
    rw [div_le_iff₀ (by positivity)]
    linarith
  have hd : |1 / (4 * l) - 1 / (4 * m)| ≤ 7272 / 10000 * e := by
    have e1 : 1 / (4 * l) - 1 / (4 * m) = (m - l) / m * (1 / (4 * l)) := by field_simp
    have e2 : |(m - l) / m| ≤ 2 * e := by
      rw [abs_div, abs_of_pos hm0, div_le_iff₀ hm0, abs_sub_comm]
      linarith
    rw [e1, abs_mul, abs_of_pos hc0]
    have := mul_le_mul e2 hub hc0.le (by positivity)
    linarith
  have h6 := mul_le_mul_of_nonneg_left hub he0.le
  have h7 := abs_sub_le c (1 / (4 * l)) (1 / (4 * m))
  refine ⟨by linarith, ?_, hpos⟩
  have h8 := abs_sub_abs_le_abs_sub c (1 / (4 * l))
  rw [abs_of_pos hc0] at h8
  linarith

private theorem product_near {e c C q s b Z : ℝ} (he0 : 0 < e) (he : e ≤ 1 / 256) (hc : |c - C| ≤ 11 / 10 * e)
    (hc' : |c| ≤ 37 / 100) (hq : |q - s| ≤ 6 * Z * e) (hq' : |q| ≤ 103 / 100 * Z) (hs : |s| ≤ Z) (hZ : 0 ≤ Z)
    (hb : |b - c * q| ≤ e * |c * q|) : |b - C * s| ≤ 4 * Z * e ∧ |b| ≤ 2 / 5 * Z := by
  have h1 : |c * q| ≤ 37 / 100 * (103 / 100 * Z) := by
    rw [abs_mul]
    exact mul_le_mul hc' hq' (abs_nonneg _) (by norm_num)
  have h2 : |c * q - C * s| ≤ 37 / 100 * (6 * Z * e) + 11 / 10 * e * Z := by
    rw [show c * q - C * s = c * (q - s) + (c - C) * s by ring]
    refine (abs_add_le _ _).trans (add_le_add ?_ ?_)
    · rw [abs_mul]
      exact mul_le_mul hc' hq (abs_nonneg _) (by norm_num)
    · rw [abs_mul]
      exact mul_le_mul hc hs (abs_nonneg _) (by positivity)
  have h3 := mul_le_mul_of_nonneg_left h1 he0.le
  have h4 := mul_le_mul_of_nonneg_right he hZ
  have hZe : 0 ≤ Z * e := by positivity
  have h5 := abs_sub_le b (c * q) (C * s)
  have h6 := abs_sub_abs_le_abs_sub b (c * q)
  exact ⟨by linarith, by linarith⟩

/-- C137: Parkinson's volatility in floating point is missing where the exact one is and off by at most `15 (i+1) (1 + T)² / 2^p`
at position `i`, where `T` bounds the logarithms of the bars so far. -/
theorem C137_parkinson (p : ℕ) (hp : 8 ≤ p) (w : ℕ) (hw : 1 ≤ w) (lg : ℚ → ℚ) (hlg : GoodLog p lg) (x y : List (XF ℚ))
    (hl : x.length = y.length) (i : ℕ) (hi : i < x.length) (hn : 24 * (i + 1) ≤ 2 ^ p) (T : ℚ) (hT0 : 0 ≤ T)
    (hT : ∀ j ≤ i, ∀ a b, x.getD j .nan = .fin a → y.getD j .nan = .fin b → 0 < a / b → |Real.log ((a : ℝ) / b)| ≤ T)
    (high low : String) (f : Frame ℝ) (hx : f.col high = .ok (x.map toReal)) (hy : f.col low = .ok (y.map toReal))
    (out : List (XF ℝ)) (ho : Feat.parkinson w high low f = .ok out) :
    NearR (15 * (i + 1) * (1 + T) ^ 2 / 2 ^ p) ((parkinsonR (roundBits p) lg w x y).getD i .nan) (out.getD i .nan) := by
  obtain ⟨he0, he⟩ := eps_real hp
  obtain ⟨c1, c2, c3⟩ := const_near hp hlg
  have hT0' : (0 : ℝ) ≤ T := by exact_mod_cast hT0
  have hZ : (0 : ℝ) ≤ (1 + (T : ℝ)) ^ 2 := by positivity
  rw [(C137_exact w hw high low f _ _ hx hy).1 out ho, parkinsonR, parkinsonR, (C131_exact w hw _).2]
  have hent : ∀ j ≤ i,
      Like (4 * (1 + T) ^ 2 * (1 / 2 ^ p))
        (((List.zipWith (rangeR (roundBits p) lg) x y).map fun x =>
          rnd (roundBits p) (XF.mul (.fin (roundBits p (1 / (4 * lg 2)))) x)).getD j .nan)
        (((List.zipWith (rangeR id Real.log) (x.map toReal) (y.map toReal)).map fun x =>
          rnd id (XF.mul (.fin (id (1 / (4 * Real.log 2)))) x)).getD j .nan) ∧
      |((((List.zipWith (rangeR (roundBits p) lg) x y).map fun x =>
          rnd (roundBits p) (XF.mul (.fin (roundBits p (1 / (4 * lg 2)))) x)).getD j .nan).toK : ℝ)| ≤ 2 / 5 * (1 + T) ^ 2 := by
    intro j hj
    rw [List.getD_eq_getElem _ _ (by simp; omega), List.getD_eq_getElem _ _ (by simp; omega), List.getElem_map, List.getElem_map,
      ← List.getD_eq_getElem _ .nan, ← List.getD_eq_getElem _ .nan, zip_real_getD x y hl j (by omega),
      zipWith_getD _ x y .nan .nan hl j (by omega)]
    obtain ⟨⟨r1, r2⟩, r3⟩ := range_near hp hlg hT0' (hT j hj)
    have hs : |(rangeR id Real.log (toReal (x.getD j .nan)) (toReal (y.getD j .nan))).toK| ≤ (1 + (T : ℝ)) ^ 2 := by
      by_cases hU : Usable (x.getD j .nan) (y.getD j .nan)
      · obtain ⟨a, b, ha, hb, hab⟩ := hU
        have := hT j hj a b ha hb hab
        rw [ha, hb, range_real hab]
        exact sq_le_z this
      · have : (rangeR id Real.log (toReal (x.getD j .nan)) (toReal (y.getD j .nan))).undef = true := by
          by_contra h
          exact hU ((usable_real _ _).1 (by simpa using h))
        rw [undef_toK this, abs_zero]
        exact hZ
    have hc0 : 0 < roundBits p (1 / (4 * lg 2)) := roundBits_pos p (by omega) (by positivity)
    have hC0 : 0 < 1 / (4 * Real.log 2) := by
      have : 0 < Real.log 2 := Real.log_pos (by norm_num)
      positivity
    generalize roundBits p (1 / (4 * lg 2)) = c at *
    simp only [id]
    generalize 1 / (4 * Real.log 2) = C at *
    generalize rangeR (roundBits p) lg (x.getD j .nan) (y.getD j .nan) = A at *
    generalize rangeR id Real.log (toReal (x.getD j .nan)) (toReal (y.getD j .nan)) = B at *
    cases hA : A.undef with
    | false =>
      obtain ⟨q, rfl⟩ := fin_of_defined hA
      obtain ⟨s, rfl⟩ := fin_of_defined (r1 ▸ hA)
      have hb := round_real (show 1 ≤ p by omega) (c * q)
      push_cast at hb
      obtain ⟨k1, k2⟩ := product_near he0 he c1 c2 r2 r3 hs hZ hb
      exact ⟨⟨rfl, k1⟩, k2⟩
    | true =>
      have hB : B.undef = true := r1 ▸ hA
      have e1 : (rnd (roundBits p) (XF.mul (.fin c) A)).undef = true := by
        rw [rnd_undef']
        cases A with
        | fin a => rw [fin_defined] at hA; simp at hA
        | _ => simp [XF.mul, XF.infSign, hc0, XF.neg, XF.undef, XF.isNan, XF.isInf]
      have e2 : (rnd (fun x => x) (XF.mul (.fin C) B)).undef = true := by
        rw [rnd_undef']
        cases B with
        | fin a => rw [fin_defined] at hB; simp at hB
        | _ => simp [XF.mul, XF.infSign, hC0, XF.neg, XF.undef, XF.isNan, XF.isInf]
      change Like _ _ (rnd (fun x => x) (XF.mul (.fin C) B)) ∧ _
      refine ⟨⟨e1.trans e2.symm, ?_⟩, ?_⟩
      · rw [undef_toK e1, undef_toK e2]
        simp only [Rat.cast_zero, sub_zero, abs_zero]
        positivity
      · rw [undef_toK e1]
        simp only [Rat.cast_zero, abs_zero]
        positivity
  have key := mean_near hp hw (M := 2 / 5 * (1 + T) ^ 2) (by simp [hl]) (by simp; omega) (fun j hj => (hent j hj).1)
    (fun j hj => by
      rw [← Rat.cast_le (K := ℝ), Rat.cast_abs]
      push_cast
      exact (hent j hj).2) hn
  have hle : 26 * ((i : ℝ) + 1) * ((2 / 5 * (1 + T) ^ 2 : ℚ) : ℝ) / 2 ^ p + 4 * (1 + (T : ℝ)) ^ 2 * (1 / 2 ^ p) ≤
      15 * (i + 1) * (1 + T) ^ 2 / 2 ^ p := by
    push_cast
    have hi0 : (0 : ℝ) ≤ i := Nat.cast_nonneg i
    rw [div_eq_mul_one_div, div_eq_mul_one_div (15 * ((i : ℝ) + 1) * (1 + T) ^ 2)]
    generalize (1 : ℝ) / 2 ^ p = e at *
    generalize (1 + (T : ℝ)) ^ 2 = Z at *
    have h1 : 0 ≤ Z * e := by positivity
    have h2 : 0 ≤ (i : ℝ) * (Z * e) := by positivity
    linarith
  obtain h | ⟨a, b, ha, hb, hab⟩ := key
  · exact .inl h
  · exact .inr ⟨a, b, ha, hb, hab.trans hle⟩

private theorem abs_sum_le {L : List ℝ} {Z : ℝ} (h : ∀ x ∈ L, |x| ≤ Z) : |L.sum| ≤ L.length * Z := by
  induction L with
  | nil => simp
  | cons a L ih =>
    rw [List.sum_cons, List.length_cons]
    push_cast
    have h1 := ih fun x hx => h x (by simp [hx])
    have h2 := h a (by simp)
    have h3 := abs_add_le a L.sum
    linarith

/-- The sums over two bars. -/
private theorem pair_near {p : ℕ} (hp : 8 ≤ p) {lg : ℚ → ℚ} (hlg : GoodLog p lg) {x y : List (XF ℚ)} (hl : x.length = y.length) {i : ℕ}
    (hi : i < x.length) (hn : 24 * (i + 1) ≤ 2 ^ p) {T : ℚ} (hT0 : 0 ≤ T)
    (hT : ∀ j ≤ i, Within T (x.getD j .nan) (y.getD j .nan)) (j : ℕ) (hj : j ≤ i) :
    NearR (62 * (i + 1) * (1 + T) ^ 2 / 2 ^ p) ((pairR (roundBits p) lg x y).getD j .nan)
      ((rolling 2 winSum (List.zipWith (rangeR id Real.log) (x.map toReal) (y.map toReal))).getD j .nan) ∧
    |((rolling 2 winSum (List.zipWith (rangeR id Real.log) (x.map toReal) (y.map toReal))).getD j .nan).toK| ≤
      2 * (1 + (T : ℝ)) ^ 2 := by
  obtain ⟨he0, he⟩ := eps_real hp
  have hT0' : (0 : ℝ) ≤ T := by exact_mod_cast hT0
  have hZ : (0 : ℝ) ≤ (1 + (T : ℝ)) ^ 2 := by positivity
  have hlen : (List.zipWith (rangeR (roundBits p) lg) x y).length = x.length := by simp; omega
  have hlen' : (List.zipWith (rangeR id Real.log) (x.map toReal) (y.map toReal)).length = x.length := by simp; omega
  have hent : ∀ k ≤ j, Like (6 * (1 + T) ^ 2 * (1 / 2 ^ p)) ((List.zipWith (rangeR (roundBits p) lg) x y).getD k .nan)
      ((List.zipWith (rangeR id Real.log) (x.map toReal) (y.map toReal)).getD k .nan) ∧
      |(((List.zipWith (rangeR (roundBits p) lg) x y).getD k .nan).toK : ℝ)| ≤ 103 / 100 * (1 + T) ^ 2 := by
    intro k hk
    rw [zip_real_getD x y hl k (by omega), zipWith_getD _ x y .nan .nan hl k (by omega)]
    exact range_near hp hlg hT0' (hT k (by omega))
  constructor
  · have key := sum_near hp (w := 2) (by norm_num) (M := 103 / 100 * (1 + T) ^ 2) (hlen.trans hlen'.symm) (by rw [hlen]; omega)
      (fun k hk => (hent k hk).1)
      (fun k hk => by
        rw [← Rat.cast_le (K := ℝ), Rat.cast_abs]
        push_cast
        exact (hent k hk).2) (le_trans (by omega) hn)
    have hle : 24 * ((j : ℝ) + 1) * (2 : ℕ) * ((103 / 100 * (1 + T) ^ 2 : ℚ) : ℝ) / 2 ^ p +
        (2 : ℕ) * (6 * (1 + (T : ℝ)) ^ 2 * (1 / 2 ^ p)) ≤ 62 * (i + 1) * (1 + T) ^ 2 / 2 ^ p := by
      push_cast
      have hi0 : (0 : ℝ) ≤ j := Nat.cast_nonneg j
      have hji : (j : ℝ) ≤ i := by exact_mod_cast hj
      rw [div_eq_mul_one_div, div_eq_mul_one_div (62 * ((i : ℝ) + 1) * (1 + T) ^ 2)]
      generalize (1 : ℝ) / 2 ^ p = e at *
      generalize (1 + (T : ℝ)) ^ 2 = Z at *
      have h1 : 0 ≤ Z * e := by positivity
      have h2 : (j : ℝ) * (Z * e) ≤ i * (Z * e) := mul_le_mul_of_nonneg_right hji h1
      have h3 : 0 ≤ (j : ℝ) * (Z * e) := by positivity
      linarith
    obtain h | ⟨a, b, ha, hb, hab⟩ := key
    · exact .inl h
    · exact .inr ⟨a, b, ha, hb, hab.trans hle⟩
  · rw [rolling_getD _ _ _ j (by rw [hlen']; omega)]
    split_ifs with hc
    · change |((winAt 2 j (List.zipWith (rangeR id Real.log) (x.map toReal) (y.map toReal))).map XF.toK).sum| ≤ _
      have h1 := abs_sum_le (Z := (1 + (T : ℝ)) ^ 2)
        (L := (winAt 2 j (List.zipWith (rangeR id Real.log) (x.map toReal) (y.map toReal))).map XF.toK) ?_
      · rw [List.length_map, winAt_length 2 j _ hc.1 (by rw [hlen']; omega)] at h1
        exact_mod_cast h1
      · intro v hv
        obtain ⟨a, ha, rfl⟩ := List.mem_map.1 hv
        obtain ⟨k, hk, -, h2, rfl⟩ := mem_window' 2 j _ ha
        rw [← List.getD_eq_getElem _ .nan, zip_real_getD x y hl k (by omega)]
        exact range_bound (hT k (by omega)) hT0'
    · change |(0 : ℝ)| ≤ _
      rw [abs_zero]
      positivity

private theorem beta_exact {w : ℕ} (hw : 1 ≤ w) (u v : List (XF ℝ)) : Feat.getBeta u v w =
    .ok (rolling w winMean (rolling 2 winSum (List.zipWith (rangeR id Real.log) u v))) := by
  have hlog : logR Real.log = XF.log := by funext z; cases z <;> rfl
  have hid : ∀ x : XF ℝ, rnd id x = x := fun x => by cases x <;> rfl
  have hr : List.zipWith (rangeR id Real.log) u v = (List.zipWith XF.div u v).map fun z => Feat.square (XF.log z) := by
    rw [List.map_zipWith]
    congr 1
    funext s t
    rw [rangeR, squareR, hid, hid, hlog]
    rfl
  have hE : ∀ (n : ℕ) (f : List ℝ → XF ℝ) (l : List (XF ℝ)), rollE (n : ℤ) f l = .ok (rolling n f l) := by
    intro n f l
    simp only [rollE, if_neg (show ¬ ((n : ℤ) < 0) by omega), Int.toNat_natCast]
  rw [Feat.getBeta, show (2 : ℤ) = ((2 : ℕ) : ℤ) from rfl, hE, Py.bind_ok, hE, hr]

/-- C137: beta of the Corwin-Schultz algorithm in floating point is missing where the exact one is and off by at most
`182 (i+1) (1 + T)² / 2^p` at position `i`. -/
theorem C137_beta (p : ℕ) (hp : 8 ≤ p) (w : ℕ) (hw : 1 ≤ w) (lg : ℚ → ℚ) (hlg : GoodLog p lg) (x y : List (XF ℚ))
    (hl : x.length = y.length) (i : ℕ) (hi : i < x.length) (hn : 24 * (i + 1) ≤ 2 ^ p) (T : ℚ) (hT0 : 0 ≤ T)
    (hT : ∀ j ≤ i, ∀ a b, x.getD j .nan = .fin a → y.getD j .nan = .fin b → 0 < a / b → |Real.log ((a : ℝ) / b)| ≤ T)
    (out : List (XF ℝ)) (ho : Feat.getBeta (x.map toReal) (y.map toReal) w = .ok out) :
    NearR (182 * (i + 1) * (1 + T) ^ 2 / 2 ^ p) ((betaR (roundBits p) lg w x y).getD i .nan) (out.getD i .nan) := by
  obtain ⟨he0, he⟩ := eps_real hp
  have hT0' : (0 : ℝ) ≤ T := by exact_mod_cast hT0
  have hZ : (0 : ℝ) ≤ (1 + (T : ℝ)) ^ 2 := by positivity
  rw [beta_exact hw] at ho
  cases ho
  have hne : 24 * ((i : ℝ) + 1) * (1 / 2 ^ p) ≤ 1 := by
    rw [mul_one_div, div_le_one (by positivity)]
    exact_mod_cast hn
  have hi0 : (0 : ℝ) ≤ i := Nat.cast_nonneg i
  have hent : ∀ j ≤ i, Like (62 * (i + 1) * (1 + T) ^ 2 / 2 ^ p) ((pairR (roundBits p) lg x y).getD j .nan)
      ((rolling 2 winSum (List.zipWith (rangeR id Real.log) (x.map toReal) (y.map toReal))).getD j .nan) ∧
      |(((pairR (roundBits p) lg x y).getD j .nan).toK : ℝ)| ≤ 23 / 5 * (1 + T) ^ 2 := by
    intro j hj
    obtain ⟨h | ⟨a, b, ha, hb, hab⟩, h2⟩ := pair_near hp hlg hl hi hn hT0 hT j hj
    · rw [h.1, h.2]
      refine ⟨⟨rfl, ?_⟩, ?_⟩
      · change |((0 : ℚ) : ℝ) - 0| ≤ _
        rw [Rat.cast_zero, sub_zero, abs_zero]
        positivity
      · change |((0 : ℚ) : ℝ)| ≤ _
        rw [Rat.cast_zero, abs_zero]
        positivity
    · rw [hb] at h2
      rw [ha, hb]
      refine ⟨⟨rfl, hab⟩, ?_⟩
      change |(a : ℝ)| ≤ _
      change |b| ≤ _ at h2
      have h3 := abs_sub_abs_le_abs_sub (a : ℝ) b
      rw [div_eq_mul_one_div] at hab
      generalize (1 : ℝ) / 2 ^ p = e at *
      generalize (1 + (T : ℝ)) ^ 2 = Z at *
      have h4 := mul_le_mul_of_nonneg_right hne hZ
      linarith
  have key := mean_near hp hw (M := 23 / 5 * (1 + T) ^ 2) (by simp [pairR, rollSum, rolling]) (by simp [pairR, rollSum]; omega)
    (fun j hj => (hent j hj).1)
    (fun j hj => by
      rw [← Rat.cast_le (K := ℝ), Rat.cast_abs]
      push_cast
      exact (hent j hj).2) hn
  have hle : 26 * ((i : ℝ) + 1) * ((23 / 5 * (1 + T) ^ 2 : ℚ) : ℝ) / 2 ^ p + 62 * (i + 1) * (1 + (T : ℝ)) ^ 2 / 2 ^ p ≤
      182 * (i + 1) * (1 + T) ^ 2 / 2 ^ p := by
    push_cast
    rw [← add_div]
    apply div_le_div_of_nonneg_right _ (by positivity)
    have h1 : 0 ≤ ((i : ℝ) + 1) * (1 + (T : ℝ)) ^ 2 := by positivity
    linarith
  rw [betaR]
  obtain h | ⟨a, b, ha, hb, hab⟩ := key
  · exact .inl h
  · exact .inr ⟨a, b, ha, hb, hab.trans hle⟩

/-- C137: with positive prices the spread is defined, and a number from 0 to 2, wherever the last `w + 1` bars have no two successive
bars with squared logarithms that add up to less than `62 (i+1) (1 + T)² / 2^p`. -/
theorem C137_spread_defined (p : ℕ) (hp : 8 ≤ p) (w : ℕ) (hw : 1 ≤ w) (lg sq ex : ℚ → ℚ) (hlg : GoodLog p lg) (hsq : GoodSqrt p sq)
    (hex : ∀ x, 0 ≤ x → 1 ≤ ex x) (H L : List ℚ) (h : Bars H L) (i : ℕ) (hi : i < H.length) (hwi : w ≤ i) (hn : 24 * (i + 1) ≤ 2 ^ p)
    (T : ℚ) (hT0 : 0 ≤ T) (hT : ∀ j ≤ i, |Real.log ((H.getD j 0 : ℝ) / L.getD j 0)| ≤ T)
    (hbig : ∀ j, i - w ≤ j → j < i → 62 * (i + 1) * (1 + (T : ℝ)) ^ 2 / 2 ^ p ≤
      Real.log ((H.getD j 0 : ℝ) / L.getD j 0) ^ 2 + Real.log ((H.getD (j + 1) 0 : ℝ) / L.getD (j + 1) 0) ^ 2) :
    ∃ q, (corwinSchultzR (roundBits p) lg sq ex w (H.map .fin) (L.map .fin)).getD i .nan = .fin q ∧ 0 ≤ q ∧ q ≤ 2 := by
  have hl := h.len
  have hd := (den_pos hp hsq).2
  have hlg2 := (const_near hp hlg).2.2
  have hm := (C137_spread_missing p (by omega) w hw lg sq ex hex hd 0 1 (by norm_num) hlg2 H L h i hi).1
  have hlen : (corwinSchultzR (roundBits p) lg sq ex w (H.map .fin) (L.map .fin)).length = H.length := by
    simp [corwinSchultzR, betaR, pairR, gammaR, rollMean, rollSum, rolling, hl]
  have hmem : (corwinSchultzR (roundBits p) lg sq ex w (H.map .fin) (L.map .fin)).getD i .nan ∈
      corwinSchultzR (roundBits p) lg sq ex w (H.map .fin) (L.map .fin) := by
    rw [List.getD_eq_getElem _ _ (by omega)]
    exact List.getElem_mem _
  rcases (C137_range p (by omega) w lg sq ex hex 0 0 (H.map .fin) (L.map .fin)).1 _ hmem with hnan | hq
  · exfalso
    rcases hm.1 hnan with h1 | ⟨q, hq, hneg⟩
    · omega
    · have hcol : ∀ (C : List ℚ) (j : ℕ), j < C.length → (C.map XF.fin).getD j .nan = .fin (C.getD j 0) := by
        intro C j hj
        rw [List.getD_eq_getElem _ _ (by simpa using hj), List.getElem_map, List.getD_eq_getElem _ _ hj]
      have hW : ∀ j ≤ i, Within T ((H.map XF.fin).getD j .nan) ((L.map XF.fin).getD j .nan) := by
        intro j hj a b ha hb _
        rw [hcol H j (by omega)] at ha
        rw [hcol L j (by omega)] at hb
        cases ha
        cases hb
        exact hT j hj
      have hpos : ∀ j ≤ i, 0 < H.getD j 0 / L.getD j 0 := by
        intro j hj
        rw [List.getD_eq_getElem _ _ (by omega), List.getD_eq_getElem _ _ (by omega)]
        exact div_pos (h.high _ (List.getElem_mem _)) (h.low _ (List.getElem_mem _))
      have hent : ∀ j ≤ i, (List.zipWith (rangeR id Real.log) ((H.map XF.fin).map toReal) ((L.map XF.fin).map toReal)).getD j .nan =
          .fin (Real.log ((H.getD j 0 : ℝ) / L.getD j 0) ^ 2) := by
        intro j hj
        rw [zip_real_getD _ _ (by simpa using hl) j (by simp; omega), hcol H j (by omega), hcol L j (by omega),
          range_real (hpos j hj), pow_two]
      have hlz : (List.zipWith (rangeR id Real.log) ((H.map XF.fin).map toReal) ((L.map XF.fin).map toReal)).length = H.length := by
        simp [hl]
      rw [betaR] at hq
      have hs := (C132_sign (roundBits p) w hw _ i (by simp [pairR, rollSum]; omega) q hq).1 ?_
      · linarith
      · intro v hv
        obtain ⟨k, hk, h1, h2, rfl⟩ := mem_window' w i _ hv
        have hk0 : ∃ j, k = j + 1 := ⟨k - 1, by omega⟩
        obtain ⟨j, rfl⟩ := hk0
        have hpn := (pair_near hp hlg (x := H.map .fin) (y := L.map .fin) (by simpa using hl) (by simpa using hi) hn hT0 hW (j + 1)
          h2).1
        rw [rolling_getD _ _ _ (j + 1) (by rw [hlz]; omega), two_window _ j (by rw [hlz]; omega), ← List.getD_eq_getElem _ .nan,
          ← List.getD_eq_getElem _ .nan, hent j (by omega), hent (j + 1) h2, if_pos ⟨by omega, rfl⟩] at hpn
        rw [← List.getD_eq_getElem _ .nan]
        obtain ⟨-, hc⟩ | ⟨a, b, ha, hb, hab⟩ := hpn
        · cases hc
        · cases hb
          rw [ha]
          change 0 ≤ a
          have h3 := hbig j (by omega) (by omega)
          have h4 := (abs_le.1 hab).1
          simp only [List.map_cons, List.map_nil, XF.toK, List.sum_cons, List.sum_nil, add_zero] at h4
          have h5 : (0 : ℝ) ≤ a := by linarith
          exact_mod_cast h5
  · exact hq

end Mizar.Props
