import Verif.Model.RoundedVolume
import Verif.Props.RoundedEwm
import Verif.Props.Signals
import Verif.Lemmas.RoundedHighLow
import Verif.Lemmas.Features

/-!
Property theorems C140: volume imbalance, mean reversion, local maximum and MACD crossings in floating point
(`/repo/mizarlabs/transformers/technical/volume.py`, `mean_reversion.py`, `macd.py`, `/repo/mizarlabs/transformers/features/custom.py`).
-/

namespace Mizar.Props
open Mizar.Spec Mizar.Rd

private theorem rnd_id5 {K : Type} (x : XF K) : rnd id x = x := by cases x <;> rfl

/-- C140: without rounding these are the models of C76 to C78. -/
theorem C140_exact (fast slow : ℕ) (hf : 1 ≤ fast) (hs : 1 ≤ slow) (t : String) (f : Frame ℚ) (b s v c : List (XF ℚ))
    (hb : f.col (t ++ "_asset_buy_volume") = .ok b) (hse : f.col (t ++ "_asset_sell_volume") = .ok s)
    (hv : f.col (t ++ "_asset_volume") = .ok v) (hc : f.col "close" = .ok c) (ema hist : Frame ℚ → Py (List (XF ℚ))) (e h : List (XF ℚ))
    (he : ema f = .ok e) (hel : e.length = f.rows.length) (hh : hist f = .ok h) (threshold : ℚ)
    (w : ℕ) (g : Frame ℝ) (hg : "high" ∈ g.cols) (hgc : "close" ∈ g.cols) :
    Tech.buySellImbalance fast slow t f = .ok (imbalanceR id fast slow b s v) ∧
    Tech.meanReversion ema threshold f = .ok (List.zipWith (reversionR id threshold) c e) ∧
    Tech.macdCross hist f = .ok (macdCrossR id h) ∧
    Feat.localMaxRatio w g = .ok (localMaxRatioR id w (g.values "high") (g.values "close")) := by
  have hE : ∀ (span : ℕ) (c : List (XF ℚ)), 1 ≤ span → ewmE span c = .ok (ewmMeanR id span c) := by
    intro span c h1
    rw [ewmE, if_neg (by omega), Int.toNat_natCast, ewmMeanR_id]
  refine ⟨?_, ?_, ?_, ?_⟩
  · unfold Tech.buySellImbalance imbalanceR
    simp only [hb, hse, hv, Py.bind_ok, hE _ _ hf, hE _ _ hs, rnd_id5]
  · unfold Tech.meanReversion
    rw [he, Py.bind_ok, likeIndex_ok f e hel, Py.bind_ok, hc, Py.bind_ok]
    congr 2
    funext x y
    simp only [Tech.reversion, reversionR, rnd_id5]
  · unfold Tech.macdCross macdCrossR diffR
    rw [hh, Py.bind_ok, show rnd (id : ℚ → ℚ) = id from funext rnd_id5, List.map_id]
    rfl
  · unfold Feat.localMaxRatio localMaxRatioR
    rw [Frame.attr_ok hg, Py.bind_ok, rollE_ok, Py.bind_ok, Frame.attr_ok hgc, Py.bind_ok]
    simp only [rnd_id5]

/-! ### Volume imbalance -/

private theorem rnd_neg {r : ℚ → ℚ} (hr : ∀ x, r (-x) = -r x) (x : XF ℚ) : rnd r (XF.neg x) = XF.neg (rnd r x) := by
  cases x <;> simp [rnd, XF.neg, hr]

private theorem sub_swap (x y : XF ℚ) : XF.sub y x = XF.neg (XF.sub x y) := by
  cases x <;> cases y <;> simp [XF.sub, XF.neg, XF.add]

private theorem neg_sub_neg' (x y : XF ℚ) : XF.sub (XF.neg x) (XF.neg y) = XF.neg (XF.sub x y) := by
  cases x <;> cases y <;> simp [XF.sub, XF.neg, XF.add]
  ring

private theorem neg_div' (x y : XF ℚ) : XF.div (XF.neg x) y = XF.neg (XF.div x y) := by
  cases x <;> cases y <;> simp only [XF.neg, XF.div]
  all_goals try split_ifs
  all_goals try simp [XF.neg, neg_div]
  rename_i a b _
  rcases lt_trichotomy a 0 with h | h | h
  · simp [XF.infSign, h, not_lt.2 h.le]
  · simp [XF.infSign, h]
  · simp [XF.infSign, h, not_lt.2 h.le]

/-- C140: buyers and sellers exchanged turn the sign, exactly. -/
theorem C140_imbalance_mirror (p fast slow : ℕ) (b s v : List (XF ℚ)) (i : ℕ) :
    (imbalanceR (roundBits p) fast slow s b v)[i]? = ((imbalanceR (roundBits p) fast slow b s v)[i]?).map XF.neg := by
  have hn := roundBits_neg p
  unfold imbalanceR
  simp only [List.getElem?_zipWith, List.getElem?_map]
  generalize (ewmMeanR (roundBits p) fast b)[i]? = fb
  generalize (ewmMeanR (roundBits p) fast s)[i]? = fs
  generalize (ewmMeanR (roundBits p) slow b)[i]? = sb
  generalize (ewmMeanR (roundBits p) slow s)[i]? = ss
  generalize v[i]? = y
  cases fb <;> cases fs <;> cases sb <;> cases ss <;> cases y <;> simp only [Option.map_none, Option.map_some] <;> try rfl
  rename_i a b c d y
  rw [sub_swap a b, sub_swap c d, rnd_neg hn, rnd_neg hn, neg_sub_neg', rnd_neg hn, neg_div', rnd_neg hn]

private theorem imb_at {r : ℚ → ℚ} {fast slow : ℕ} {b s v : List (XF ℚ)} {i : ℕ} {y : XF ℚ} (hb : i < b.length) (hs : i < s.length)
    (hv : v[i]? = some y) : (imbalanceR r fast slow b s v)[i]? = some (rnd r (XF.div
      (rnd r (XF.sub (rnd r (XF.sub ((ewmMeanR r fast b).getD i .nan) ((ewmMeanR r fast s).getD i .nan)))
        (rnd r (XF.sub ((ewmMeanR r slow b).getD i .nan) ((ewmMeanR r slow s).getD i .nan)))))
      (rnd r (XF.add y (.fin 1))))) := by
  have h : ∀ (span : ℕ) (l : List (XF ℚ)), i < l.length → (ewmMeanR r span l)[i]? = some ((ewmMeanR r span l).getD i .nan) := by
    intro span l hl
    have hl' : i < (ewmMeanR r span l).length := by rw [ewmMeanR_length]; exact hl
    rw [List.getD_eq_getElem _ _ hl', List.getElem?_eq_getElem hl']
  unfold imbalanceR
  simp only [List.getElem?_zipWith, List.getElem?_map, h _ _ hb, h _ _ hs, hv, Option.map_some]

/-- C140: volumes that do not change, present from some bar on, have the imbalance 0 exactly, whatever the rounding. -/
theorem C140_imbalance_still (r : ℚ → ℚ) (h0 : r 0 = 0) (hpos : ∀ x, 0 < x → 0 < r x) (fast slow : ℕ) (b s v : List (XF ℚ)) (b0 s0 y : ℚ)
    (hb : ∀ q, .fin q ∈ b → q = b0) (hs : ∀ q, .fin q ∈ s → q = s0) (i : ℕ) (hib : i < b.length) (his : i < s.length)
    (hb1 : ∃ j ≤ i, b[j]? = some (.fin b0)) (hs1 : ∃ j ≤ i, s[j]? = some (.fin s0)) (hv : v[i]? = some (.fin y)) (hy : 0 ≤ y) :
    (imbalanceR r fast slow b s v)[i]? = some (.fin 0) := by
  rw [imb_at hib his hv, (C134_constant r fast slow b b0 h0 hb i hib hb1).1, (C134_constant r fast slow s s0 h0 hs i his hs1).1,
    (C134_constant r slow fast b b0 h0 hb i hib hb1).1, (C134_constant r slow fast s s0 h0 hs i his hs1).1]
  have : r (y + 1) ≠ 0 := (hpos _ (by linarith)).ne'
  simp [XF.sub, XF.neg, XF.add, XF.div, rnd, h0, this]

private theorem mean_fin {p span : ℕ} (hs : 1 ≤ span) (hp : 16 * (span + 1) ^ 2 ≤ 2 ^ p) (l : List (XF ℚ)) (i : ℕ) (hi : i < l.length) :
    (ewmMeanR (roundBits p) span l).getD i .nan = .nan ∨ ∃ a, (ewmMeanR (roundBits p) span l).getD i .nan = .fin a := by
  have hM : ∃ M : ℚ, 0 ≤ M ∧ ∀ q, .fin q ∈ l → |q| ≤ M := by
    clear hi
    induction l with
    | nil => exact ⟨0, le_rfl, by simp⟩
    | cons x l ih =>
      obtain ⟨M, h0, h1⟩ := ih
      refine ⟨max M |x.toK|, le_max_of_le_left h0, fun q hq => ?_⟩
      rcases List.mem_cons.1 hq with h | h
      · rw [← h]; exact le_max_right _ _
      · exact (h1 q h).trans (le_max_left _ _)
  obtain ⟨M, h0, h1⟩ := hM
  rcases drift_state p span hs hp l M h0 h1 i hi with h | ⟨a, -, h, -⟩
  · exact .inl h.1
  · exact .inr ⟨a, h⟩

/-- C140: as much bought as sold on every bar gives 0 or a missing value, never a trace of rounding. -/
theorem C140_imbalance_balanced (p fast slow : ℕ) (hf : 1 ≤ fast) (hs : 1 ≤ slow) (hpf : 16 * (fast + 1) ^ 2 ≤ 2 ^ p)
    (hps : 16 * (slow + 1) ^ 2 ≤ 2 ^ p) (b v : List (XF ℚ)) (i : ℕ) (hi : i < b.length) (hv : i < v.length) :
    (imbalanceR (roundBits p) fast slow b b v)[i]? = some .nan ∨ (imbalanceR (roundBits p) fast slow b b v)[i]? = some (.fin 0) := by
  rw [imb_at hi hi (List.getElem?_eq_getElem hv)]
  have h0 := roundBits_zero p
  rcases mean_fin hf hpf b i hi with h | ⟨a, h⟩
  · left
    rw [h]
    rfl
  rcases mean_fin hs hps b i hi with h' | ⟨a', h'⟩
  · left
    rw [h, h']
    rfl
  · rw [h, h']
    generalize rnd (roundBits p) (XF.add v[i] (.fin 1)) = z
    simp only [XF.sub, XF.neg, XF.add, rnd, add_neg_cancel, h0, neg_zero, add_zero]
    cases z with
    | nan => left; rfl
    | pinf => right; simp [XF.div, h0]
    | ninf => right; simp [XF.div, h0]
    | fin y =>
      simp only [XF.div]
      split_ifs
      · left; simp [XF.infSign]
      · right; simp [h0]

private theorem imb_err {r : ℚ → ℚ} {u M F S : ℚ} (hu : 0 ≤ u) (hu6 : u ≤ 1 / 64) (hr : ∀ x, |r x - x| ≤ u * |x|) (hM0 : 0 ≤ M)
    (hF : 0 ≤ F) (hS : 0 ≤ S) (hE : u * M ≤ (F + S) / 112) {a b c d a' b' c' d' y : ℚ} (ha : |a| ≤ M) (hb : |b| ≤ M) (hc : |c| ≤ M)
    (hd : |d| ≤ M) (ha' : |a' - a| ≤ F) (hb' : |b' - b| ≤ F) (hc' : |c' - c| ≤ S) (hd' : |d' - d| ≤ S) (hy : 0 ≤ y) :
    0 < r (y + 1) ∧
    |r (r (r (a' - b') - r (c' - d')) / r (y + 1)) - (a - b - (c - d)) / (y + 1)| ≤ 16 / 7 * (F + S) / (y + 1) := by
  have hy1 : 0 < y + 1 := by linarith
  have x1 : |(a' - b') - (a - b)| ≤ 2 * F := by
    rw [abs_le] at *
    constructor <;> linarith
  have x2 : |(c' - d') - (c - d)| ≤ 2 * S := by
    rw [abs_le] at *
    constructor <;> linarith
  have n1 : |a - b| ≤ 2 * M := by
    rw [abs_le] at *
    constructor <;> linarith
  have n2 : |c - d| ≤ 2 * M := by
    rw [abs_le] at *
    constructor <;> linarith
  generalize a' - b' = s1 at *
  generalize c' - d' = s2 at *
  generalize a - b = t1 at *
  generalize c - d = t2 at *
  clear ha hb hc hd ha' hb' hc' hd'
  have r1 := hr s1
  have r2 := hr s2
  have r3 := hr (r s1 - r s2)
  have r4 := hr (y + 1)
  generalize r s1 = X1 at *
  generalize r s2 = X2 at *
  generalize r (X1 - X2) = X3 at *
  generalize r (y + 1) = D at *
  have r5 := hr (X3 / D)
  generalize r (X3 / D) = Q at *
  clear hr
  have m1 : u * |s1| ≤ u * (2 * M + 2 * F) := mul_le_mul_of_nonneg_left (by rw [abs_le] at *; constructor <;> linarith) hu
  have m2 : u * |s2| ≤ u * (2 * M + 2 * S) := mul_le_mul_of_nonneg_left (by rw [abs_le] at *; constructor <;> linarith) hu
  have uF : u * F ≤ 1 / 64 * F := mul_le_mul_of_nonneg_right hu6 hF
  have uS : u * S ≤ 1 / 64 * S := mul_le_mul_of_nonneg_right hu6 hS
  have e1 : |X1 - t1| ≤ 2 * F + 2 * (u * M) + 2 * (u * F) := by
    have := r1.trans m1
    rw [abs_le] at *
    constructor <;> linarith
  have e2 : |X2 - t2| ≤ 2 * S + 2 * (u * M) + 2 * (u * S) := by
    have := r2.trans m2
    rw [abs_le] at *
    constructor <;> linarith
  clear r1 r2 m1 m2 x1 x2
  have e3 : |X1 - X2 - (t1 - t2)| ≤ (2 + 1 / 28 + 1 / 32) * (F + S) := by
    rw [abs_le] at *
    constructor <;> linarith
  have n3 : |t1 - t2| ≤ 4 * M := by
    rw [abs_le] at *
    constructor <;> linarith
  clear e1 e2 n1 n2
  generalize t1 - t2 = n at *
  generalize F + S = E at *
  have hE0 : 0 ≤ E := by
    have := mul_nonneg hu hM0
    linarith
  have uE : u * E ≤ 1 / 64 * E := mul_le_mul_of_nonneg_right hu6 hE0
  have m3 : u * |X1 - X2| ≤ u * (4 * M + (2 + 1 / 28 + 1 / 32) * E) :=
    mul_le_mul_of_nonneg_left (by rw [abs_le] at *; constructor <;> linarith) hu
  have e4 : |X3 - n| ≤ 2136 / 1000 * E := by
    have := r3.trans m3
    rw [abs_le] at *
    constructor <;> linarith
  clear e3 r3 m3
  rw [abs_of_pos hy1] at r4
  have hD : 63 / 64 * (y + 1) ≤ D := by
    have h1 := (abs_le.1 r4).1
    have h2 : u * (y + 1) ≤ 1 / 64 * (y + 1) := mul_le_mul_of_nonneg_right hu6 hy1.le
    linarith
  have hD0 : 0 < D := lt_of_lt_of_le (by linarith) hD
  refine ⟨hD0, ?_⟩
  have k1 : |X3 / D - n / (y + 1)| ≤ (2136 / 1000 * E + 4 * (u * M)) / D := by
    have : X3 / D - n / (y + 1) = ((X3 - n) - n * ((D - (y + 1)) / (y + 1))) / D := by
      field_simp
      ring
    rw [this, abs_div, abs_of_pos hD0]
    apply div_le_div_of_nonneg_right _ hD0.le
    have h1 : |n * ((D - (y + 1)) / (y + 1))| ≤ 4 * M * u := by
      rw [abs_mul]
      apply mul_le_mul n3 _ (abs_nonneg _) (by linarith)
      rw [abs_div, abs_of_pos hy1, div_le_iff₀ hy1]
      exact r4
    calc _ ≤ |X3 - n| + |n * ((D - (y + 1)) / (y + 1))| := abs_sub _ _
      _ ≤ _ := by linarith
  have k2 : u * |X3 / D| ≤ (4 * (u * M) + 2136 / 1000 * (u * E)) / D := by
    rw [abs_div, abs_of_pos hD0, ← mul_div_assoc]
    apply div_le_div_of_nonneg_right _ hD0.le
    have : |X3| ≤ 4 * M + 2136 / 1000 * E := by
      rw [abs_le] at *
      constructor <;> linarith
    have := mul_le_mul_of_nonneg_left this hu
    linarith
  calc |Q - n / (y + 1)| ≤ |Q - X3 / D| + |X3 / D - n / (y + 1)| := abs_sub_le _ _ _
    _ ≤ (4 * (u * M) + 2136 / 1000 * (u * E)) / D + (2136 / 1000 * E + 4 * (u * M)) / D := add_le_add (r5.trans k2) k1
    _ = (8 * (u * M) + 2136 / 1000 * (u * E) + 2136 / 1000 * E) / D := by ring
    _ ≤ (63 / 64 * (16 / 7) * E) / D := by
      apply div_le_div_of_nonneg_right _ hD0.le
      linarith
    _ ≤ (63 / 64 * (16 / 7) * E) / (63 / 64 * (y + 1)) := by
      apply div_le_div_of_nonneg_left (by positivity) (by positivity) hD
    _ = 16 / 7 * E / (y + 1) := by
      field_simp

/-- C140: every imbalance is off by at most `32 ((fast+1)² + (slow+1)²) M / 2^p / (volume + 1)`, where `M` is the largest buy or sell
volume; the bound does not grow with the position.  Missing are the same values. -/
theorem C140_imbalance_error (p fast slow : ℕ) (hf : 1 ≤ fast) (hs : 1 ≤ slow) (hpf : 16 * (fast + 1) ^ 2 ≤ 2 ^ p)
    (hps : 16 * (slow + 1) ^ 2 ≤ 2 ^ p) (b s v : List (XF ℚ)) (M y : ℚ) (hM0 : 0 ≤ M) (hMb : ∀ q, .fin q ∈ b → |q| ≤ M)
    (hMs : ∀ q, .fin q ∈ s → |q| ≤ M) (i : ℕ) (hib : i < b.length) (his : i < s.length) (hv : v[i]? = some (.fin y)) (hy : 0 ≤ y) :
    Near (32 * ((fast + 1) ^ 2 + (slow + 1) ^ 2) * M / 2 ^ p / (y + 1)) ((imbalanceR (roundBits p) fast slow b s v).getD i .nan)
      ((imbalanceR id fast slow b s v).getD i .nan) := by
  have hp1 : 1 ≤ p := by
    by_contra h
    obtain rfl : p = 0 := by omega
    have : 0 < (fast + 1) ^ 2 := by positivity
    omega
  rw [List.getD_eq_getElem?_getD, List.getD_eq_getElem?_getD, imb_at hib his hv, imb_at hib his hv, Option.getD_some, Option.getD_some,
    ewmMeanR_id, ewmMeanR_id, ewmMeanR_id, ewmMeanR_id]
  simp only [rnd_id5]
  rcases drift_state p fast hf hpf b M hM0 hMb i hib with ⟨h1, h2⟩ | ⟨a', a, h1, h2, ha', ha⟩
  · rw [h1, h2]; exact .inl ⟨rfl, rfl⟩
  rcases drift_state p fast hf hpf s M hM0 hMs i his with ⟨h3, h4⟩ | ⟨b', bb, h3, h4, hb', hb⟩
  · rw [h1, h2, h3, h4]; exact .inl ⟨rfl, rfl⟩
  rcases drift_state p slow hs hps b M hM0 hMb i hib with ⟨h5, h6⟩ | ⟨c', c, h5, h6, hc', hc⟩
  · rw [h1, h2, h3, h4, h5, h6]; exact .inl ⟨rfl, rfl⟩
  rcases drift_state p slow hs hps s M hM0 hMs i his with ⟨h7, h8⟩ | ⟨d', d, h7, h8, hd', hd⟩
  · rw [h1, h2, h3, h4, h5, h6, h7, h8]; exact .inl ⟨rfl, rfl⟩
  rw [h1, h2, h3, h4, h5, h6, h7, h8]
  have hP : (0 : ℚ) < 2 ^ p := by positivity
  have hr : ∀ x, |roundBits p x - x| ≤ 1 / 2 ^ p * |x| := by
    intro x
    have := roundBits_error p hp1 x
    rw [div_eq_mul_inv, mul_comm, ← one_div] at this
    exact this
  have hsq : ∀ k : ℕ, 1 ≤ k → (4 : ℚ) ≤ ((k : ℚ) + 1) ^ 2 := by
    intro k hk
    have : (1 : ℚ) ≤ k := by exact_mod_cast hk
    nlinarith
  have h64 : (64 : ℚ) ≤ 2 ^ p := by
    have h1 : (16 * ((fast : ℚ) + 1) ^ 2) ≤ 2 ^ p := by exact_mod_cast hpf
    have := hsq fast hf
    linarith
  have hu6 : (1 : ℚ) / 2 ^ p ≤ 1 / 64 := one_div_le_one_div_of_le (by norm_num) h64
  have hE : 1 / 2 ^ p * M ≤ (14 * ((fast : ℚ) + 1) ^ 2 * M / 2 ^ p + 14 * ((slow : ℚ) + 1) ^ 2 * M / 2 ^ p) / 112 := by
    have h1 := hsq fast hf
    have h2 := hsq slow hs
    have h3 : (14 * ((fast : ℚ) + 1) ^ 2 * M / 2 ^ p + 14 * ((slow : ℚ) + 1) ^ 2 * M / 2 ^ p) / 112 =
      (((fast : ℚ) + 1) ^ 2 + ((slow : ℚ) + 1) ^ 2) / 8 * (1 / 2 ^ p * M) := by ring
    rw [h3]
    have h4 : 0 ≤ 1 / 2 ^ p * M := by positivity
    exact le_mul_of_one_le_left h4 (by linarith)
  obtain ⟨k0, k1⟩ := imb_err (r := roundBits p) (F := 14 * ((fast : ℚ) + 1) ^ 2 * M / 2 ^ p) (S := 14 * ((slow : ℚ) + 1) ^ 2 * M / 2 ^ p)
    (by positivity) hu6 hr hM0 (by positivity) (by positivity) hE ha hb hc hd ha' hb' hc' hd' hy
  refine .inr ⟨_, (a - bb - (c - d)) / (y + 1), ?_, ?_, k1.trans (le_of_eq ?_)⟩
  · simp only [XF.sub, XF.neg, XF.add, rnd, ← sub_eq_add_neg, XF.div]
    rw [if_neg k0.ne']
  · simp only [XF.sub, XF.neg, XF.add, ← sub_eq_add_neg, XF.div]
    rw [if_neg (by linarith)]
  · ring

/-! ### Normalised difference of exponentially weighted means -/

private theorem exact_nonneg {span : ℕ} (hs : 1 ≤ span) {l : List (XF ℚ)} (hl : ∀ q, .fin q ∈ l → 0 ≤ q) {M : ℚ} (hM0 : 0 ≤ M)
    (hM : ∀ q, .fin q ∈ l → |q| ≤ M) {i : ℕ} (hi : i < l.length) {b : ℚ} (hb : (ewmMean (ewmAlpha span) l).getD i .nan = .fin b) : 0 ≤ b := by
  by_contra hneg
  push Not at hneg
  obtain ⟨n, hn⟩ := pow_unbounded_of_one_lt (max (16 * ((span : ℚ) + 1) ^ 2) (14 * (span + 1) ^ 2 * M / (-b))) (by norm_num : (1 : ℚ) < 2)
  have h1 : (16 * ((span : ℚ) + 1) ^ 2) < 2 ^ n := (le_max_left _ _).trans_lt hn
  have h2 : 14 * ((span : ℚ) + 1) ^ 2 * M / (-b) < 2 ^ n := (le_max_right _ _).trans_lt hn
  have h3 : 16 * (span + 1) ^ 2 ≤ 2 ^ n := by exact_mod_cast h1.le
  have hn1 : 1 ≤ n := by
    by_contra h
    obtain rfl : n = 0 := by omega
    have : 0 < (span + 1) ^ 2 := by positivity
    omega
  rcases drift_state n span hs h3 l M hM0 hM i hi with ⟨-, h⟩ | ⟨a, b', ha, hb', hab, -⟩
  · rw [h] at hb; cases hb
  · rw [hb'] at hb
    cases hb
    rcases C134_sign n hn1 span hs l hl i hi with h | ⟨a', h, h0, -⟩
    · rw [h] at ha; cases ha
    · rw [h] at ha
      cases ha
      have h5 := (abs_le.1 hab).2
      have h6 : 14 * ((span : ℚ) + 1) ^ 2 * M / 2 ^ n < -b := by
        rw [div_lt_iff₀ (by linarith)] at h2
        rw [div_lt_iff₀ (by positivity)]
        linarith
      linarith

private theorem norm_err {u F W x n n' d d' fa fa' Q : ℚ} (hu : 0 ≤ u) (hu6 : u ≤ 1 / 64) (hF : 0 ≤ F) (hW : 0 ≤ W) (hn : |n' - n| ≤ W)
    (hfa : |fa' - fa| ≤ F) (hd : d = fa + 1) (hd1 : 1 ≤ d) (hx : x = n / d) (h1 : 1 ≤ d') (hdd : |d' - (fa' + 1)| ≤ u * d')
    (hQ : |Q - n' / d'| ≤ u * |n' / d'|) : |Q - x| ≤ 65 / 64 * W + |x| * (65 / 64 * (F + u) + u) := by
  have hd0 : 0 < d' := by linarith
  have e1 : n' / d' - x = (n' - n) / d' - x * ((d' - d) / d') := by
    rw [hx]
    have : d ≠ 0 := by linarith
    field_simp
    ring
  have e2 : |(n' - n) / d'| ≤ W := by
    rw [abs_div, abs_of_pos hd0]
    exact (div_le_self (abs_nonneg _) h1).trans hn
  have e3 : |(d' - d) / d'| ≤ F + u := by
    rw [abs_div, abs_of_pos hd0, div_le_iff₀ hd0]
    have hF1 : F ≤ F * d' := le_mul_of_one_le_right hF h1
    rw [abs_le] at *
    constructor <;> nlinarith
  have e4 : |n' / d' - x| ≤ W + |x| * (F + u) := by
    rw [e1]
    calc _ ≤ |(n' - n) / d'| + |x * ((d' - d) / d')| := abs_sub _ _
      _ ≤ W + |x| * (F + u) := by
        rw [abs_mul]
        exact add_le_add e2 (mul_le_mul_of_nonneg_left e3 (abs_nonneg x))
  generalize n' / d' = z at *
  have e5 : |z| ≤ |x| + (W + |x| * (F + u)) := by
    have := abs_sub_abs_le_abs_sub z x
    linarith
  have e6 : u * |z| ≤ u * |x| + 1 / 64 * (W + |x| * (F + u)) := by
    have h1 := mul_le_mul_of_nonneg_left e5 hu
    have h2 : u * (W + |x| * (F + u)) ≤ 1 / 64 * (W + |x| * (F + u)) := mul_le_mul_of_nonneg_right hu6 (by positivity)
    linarith
  calc |Q - x| ≤ |Q - z| + |z - x| := abs_sub_le _ _ _
    _ ≤ _ := by linarith

/-- C140: for prices that are not negative the normalised difference `x` of two exponentially weighted means is off by at most
`16 ((fast+1)² + (slow+1)²) (M+1) (1+|x|) / 2^p`; missing are the same values. -/
theorem C140_normalised (p fast slow : ℕ) (hf : 1 ≤ fast) (hs : 1 ≤ slow) (hpf : 16 * (fast + 1) ^ 2 ≤ 2 ^ p)
    (hps : 16 * (slow + 1) ^ 2 ≤ 2 ^ p) (l : List (XF ℚ)) (M : ℚ) (hM0 : 0 ≤ M) (hl : ∀ q, .fin q ∈ l → 0 ≤ q ∧ q ≤ M) (i : ℕ)
    (hi : i < l.length) :
    ((ewmaDifferenceR (roundBits p) fast slow true l).getD i .nan = .nan ∧ (ewmaDifferenceR id fast slow true l).getD i .nan = .nan) ∨
    ∃ x' x, (ewmaDifferenceR (roundBits p) fast slow true l).getD i .nan = .fin x' ∧
      (ewmaDifferenceR id fast slow true l).getD i .nan = .fin x ∧
      |x' - x| ≤ 16 * ((fast + 1) ^ 2 + (slow + 1) ^ 2) * (M + 1) * (1 + |x|) / 2 ^ p := by
  have hp1 : 1 ≤ p := by
    by_contra h
    obtain rfl : p = 0 := by omega
    have : 0 < (fast + 1) ^ 2 := by positivity
    omega
  have hM : ∀ q, .fin q ∈ l → |q| ≤ M := fun q hq => by rw [abs_of_nonneg (hl q hq).1]; exact (hl q hq).2
  have at' : ∀ r : ℚ → ℚ, (ewmaDifferenceR r fast slow true l).getD i .nan =
      rnd r (XF.div ((ewmaDifferenceR r fast slow false l).getD i .nan) (rnd r (XF.add ((ewmMeanR r fast l).getD i .nan) (.fin 1)))) := by
    intro r
    have h1 : i < (ewmMeanR r fast l).length := by rw [ewmMeanR_length]; exact hi
    have h2 : i < (ewmaDifferenceR r fast slow false l).length := by simp [ewmaDifferenceR, ewmMeanR_length, hi]
    have h3 : i < (ewmaDifferenceR r fast slow true l).length := by simp [ewmaDifferenceR, ewmMeanR_length, hi]
    rw [List.getD_eq_getElem _ _ h1, List.getD_eq_getElem _ _ h2, List.getD_eq_getElem _ _ h3]
    simp [ewmaDifferenceR]
  rw [at', at', ewmMeanR_id]
  simp only [rnd_id5]
  rcases drift_state p fast hf hpf l M hM0 hM i hi with ⟨h1, h2⟩ | ⟨a', a, h1, h2, ha', -⟩
  · left
    rw [h1, h2]
    constructor <;> (cases (ewmaDifferenceR _ fast slow false l).getD i .nan <;> rfl)
  rw [h1, h2]
  rcases (C134_difference p fast slow hf hs hpf hps l M hM0 hM i hi).1 with ⟨h3, h4⟩ | ⟨n', n, h3, h4, hn⟩
  · left
    rw [h3, h4]
    exact ⟨rfl, rfl⟩
  rw [h3, h4]
  have ha0 := exact_nonneg hf (fun q hq => (hl q hq).1) hM0 hM hi h2
  have hd' : 1 ≤ roundBits p (a' + 1) := by
    rcases C134_sign p hp1 fast hf l (fun q hq => (hl q hq).1) i hi with h | ⟨a'', h, -, h0⟩
    · rw [h] at h1; cases h1
    · rw [h] at h1; cases h1; exact h0
  have hP : (0 : ℚ) < 2 ^ p := by positivity
  have hsq : ∀ k : ℕ, 1 ≤ k → (4 : ℚ) ≤ ((k : ℚ) + 1) ^ 2 := by
    intro k hk
    have : (1 : ℚ) ≤ k := by exact_mod_cast hk
    nlinarith
  have h64 : (64 : ℚ) ≤ 2 ^ p := by
    have h1 : (16 * ((fast : ℚ) + 1) ^ 2) ≤ 2 ^ p := by exact_mod_cast hpf
    have := hsq fast hf
    linarith
  have hu6 : (1 : ℚ) / 2 ^ p ≤ 1 / 64 := one_div_le_one_div_of_le (by norm_num) h64
  refine .inr ⟨roundBits p (n' / roundBits p (a' + 1)), n / (a + 1), ?_, ?_, ?_⟩
  · simp only [XF.add, XF.div, rnd]
    rw [if_neg (by linarith)]
  · simp only [XF.add, XF.div]
    rw [if_neg (by linarith)]
  · have ha1 : 0 < a' + 1 := by
      by_contra hc
      push Not at hc
      have := roundBits_mono p hp1 hc
      rw [roundBits_zero] at this
      linarith
    have key := norm_err (u := 1 / 2 ^ p) (Q := roundBits p (n' / roundBits p (a' + 1))) (by positivity) hu6 (by positivity) (by positivity)
      hn ha' rfl (by linarith) rfl hd' (by
        have := roundBits_error_result p hp1 _ ha1
        rw [one_div_mul_eq_div]
        exact this) (by
        have := roundBits_error p hp1 (n' / roundBits p (a' + 1))
        rw [one_div_mul_eq_div]
        exact this)
    refine key.trans ?_
    have hX : 0 ≤ |n / (a + 1)| := abs_nonneg _
    generalize |n / (a + 1)| = X at *
    have A := hsq fast hf
    have B := hsq slow hs
    clear hn ha' hpf hps
    generalize ((fast : ℚ) + 1) ^ 2 = A' at *
    generalize ((slow : ℚ) + 1) ^ 2 = B' at *
    have e : 65 / 64 * (15 * (A' + B') * M / 2 ^ p) + X * (65 / 64 * (14 * A' * M / 2 ^ p + 1 / 2 ^ p) + 1 / 2 ^ p) =
        (65 / 64 * (15 * ((A' + B') * M)) + (65 / 64 * 14 * (A' * M * X)) + (65 / 64 + 1) * X) / 2 ^ p := by
      field_simp
      ring
    rw [e]
    apply div_le_div_of_nonneg_right _ hP.le
    have t1 : 0 ≤ (A' + B') * M := mul_nonneg (by linarith) hM0
    have t2 : 0 ≤ A' * M * X := mul_nonneg (mul_nonneg (by linarith) hM0) hX
    have t3 : 0 ≤ B' * M * X := mul_nonneg (mul_nonneg (by linarith) hM0) hX
    have t4 : 8 * X ≤ (A' + B') * X := mul_le_mul_of_nonneg_right (by linarith) hX
    calc _ ≤ 16 * ((A' + B') * M) + 16 * (A' * M * X) + 16 * (B' * M * X) + 16 * (A' + B') + 16 * ((A' + B') * X) := by linarith
      _ = _ := by ring

/-! ### Mean reversion -/

private theorem deviation_fin {r : ℚ → ℚ} {c e : ℚ} (he : e ≠ 0) :
    rnd r (XF.div (rnd r (XF.sub (.fin c) (.fin e))) (.fin e)) = .fin (r (r (c - e) / e)) := by
  simp only [XF.sub, XF.neg, XF.add, rnd, XF.div, ← sub_eq_add_neg]
  rw [if_neg he]

private theorem reversion_fin {r : ℚ → ℚ} {t c e : ℚ} (he : e ≠ 0) : reversionR r t (.fin c) (.fin e) =
    if r (r (c - e) / e) < -t then .fin 1 else if t < r (r (c - e) / e) then .fin (-1) else .fin 0 := by
  unfold reversionR
  rw [deviation_fin he]
  simp only [XF.lt_fin, decide_eq_true_eq]

/-- C140: with a threshold that is not negative the strategy buys only below the average and sells only above it; at the average it does
nothing.  Rounding does not change that. -/
theorem C140_reversion_direction (p : ℕ) (hp : 1 ≤ p) (t c e : ℚ) (ht : 0 ≤ t) (he : 0 < e) :
    (reversionR (roundBits p) t (.fin c) (.fin e) = .fin 1 → c < e) ∧
    (reversionR (roundBits p) t (.fin c) (.fin e) = .fin (-1) → e < c) ∧
    reversionR (roundBits p) t (.fin e) (.fin e) = .fin 0 := by
  rw [reversion_fin he.ne', reversion_fin he.ne', sub_self, roundBits_zero, zero_div, roundBits_zero]
  refine ⟨fun h => ?_, fun h => ?_, by rw [if_neg (by linarith), if_neg (by linarith)]⟩
  · split_ifs at h with h1 h2
    · have h3 := (roundBits_neg_iff hp).1 (lt_of_lt_of_le h1 (by linarith))
      have h4 := (div_neg_iff.1 h3).resolve_left (fun h => absurd h.2 (not_lt.2 he.le))
      have h5 := (roundBits_neg_iff hp).1 h4.1
      linarith
    · norm_num at h
    · norm_num at h
  · split_ifs at h with h1 h2
    · norm_num at h
    · have h3 := (roundBits_pos_iff hp).1 (lt_of_le_of_lt ht h2)
      have h5 := (roundBits_pos_iff hp).1 ((div_pos_iff_of_pos_right he).1 h3)
      linarith
    · norm_num at h

/-- C140: a higher close never turns a sale into a purchase: the signal does not rise with the close. -/
theorem C140_reversion_monotone (p : ℕ) (hp : 1 ≤ p) (t c c' e : ℚ) (ht : 0 ≤ t) (he : 0 < e) (hc : c ≤ c') :
    (reversionR (roundBits p) t (.fin c') (.fin e)).toK ≤ (reversionR (roundBits p) t (.fin c) (.fin e)).toK := by
  rw [reversion_fin he.ne', reversion_fin he.ne']
  have h := roundBits_mono p hp (div_le_div_of_nonneg_right (roundBits_mono p hp (sub_le_sub_right hc e)) he.le)
  split_ifs <;> simp only [XF.toK] <;> linarith

/-- C140: the signal is the exact one unless the deviation is within `3/2^p` of itself from the threshold. -/
theorem C140_reversion_margin (p : ℕ) (hp : 1 ≤ p) (t c e : ℚ) (he : e ≠ 0)
    (hm : ∀ s ∈ [t, -t], 3 * |(c - e) / e| / 2 ^ p < |(c - e) / e - s|) :
    reversionR (roundBits p) t (.fin c) (.fin e) = reversionR id t (.fin c) (.fin e) := by
  have hid : reversionR id t (.fin c) (.fin e) =
      if (c - e) / e < -t then .fin 1 else if t < (c - e) / e then .fin (-1) else .fin 0 := reversion_fin he
  rw [reversion_fin he, hid]
  have m1 := hm t (by simp)
  have m2 := hm (-t) (by simp)
  have key : |roundBits p (roundBits p (c - e) / e) - (c - e) / e| ≤ 3 * |(c - e) / e| / 2 ^ p := by
    have hu : (0 : ℚ) < 1 / 2 ^ p := by positivity
    have hu1 : (1 : ℚ) / 2 ^ p ≤ 1 := by
      rw [div_le_one (by positivity)]
      exact one_le_pow₀ (by norm_num)
    have r1 := roundBits_error p hp (c - e)
    have r2 := roundBits_error p hp (roundBits p (c - e) / e)
    rw [div_eq_mul_one_div |_| ((2 : ℚ) ^ p)] at r1 r2
    rw [mul_div_assoc, div_eq_mul_one_div |_| ((2 : ℚ) ^ p)]
    generalize (1 : ℚ) / 2 ^ p = u at *
    have k1 : |roundBits p (c - e) / e - (c - e) / e| ≤ |(c - e) / e| * u := by
      rw [← sub_div, abs_div, abs_div, div_mul_eq_mul_div]
      exact div_le_div_of_nonneg_right r1 (abs_nonneg e)
    generalize roundBits p (c - e) / e = q at *
    generalize (c - e) / e = d at *
    generalize roundBits p q = z at *
    have k2 : |q| ≤ |d| + |d| * u := by
      have := abs_sub_abs_le_abs_sub q d
      linarith
    have k3 : |q| * u ≤ (|d| + |d| * u) * u := mul_le_mul_of_nonneg_right k2 hu.le
    have k4 : |d| * u * u ≤ |d| * u * 1 := mul_le_mul_of_nonneg_left hu1 (by positivity)
    calc |z - d| ≤ |z - q| + |q - d| := abs_sub_le _ _ _
      _ ≤ 3 * (|d| * u) := by linarith
  generalize roundBits p (roundBits p (c - e) / e) = q' at *
  clear hm
  generalize hq : (c - e) / e = q at *
  generalize hδ' : 3 * |q| / 2 ^ p = δ at *
  have hδ := (abs_nonneg _).trans key
  have e1 : q' < -t ↔ q < -t := by
    have := abs_le.1 key
    rcases lt_abs.1 m2 with h | h
    · exact ⟨fun _ => by exfalso; linarith, fun _ => by exfalso; linarith⟩
    · exact ⟨fun _ => by linarith, fun _ => by linarith⟩
  have e2 : t < q' ↔ t < q := by
    have := abs_le.1 key
    rcases lt_abs.1 m1 with h | h
    · exact ⟨fun _ => by linarith, fun _ => by linarith⟩
    · exact ⟨fun _ => by exfalso; linarith, fun _ => by exfalso; linarith⟩
  simp only [e1, e2]

/-- C140: the unit of the prices does not matter if it changes by a power of two. -/
theorem C140_reversion_scale (p : ℕ) (k : ℤ) (t c e : ℚ) (he : e ≠ 0) :
    reversionR (roundBits p) t (.fin (c * 2 ^ k)) (.fin (e * 2 ^ k)) = reversionR (roundBits p) t (.fin c) (.fin e) := by
  have h2 : (2 : ℚ) ^ k ≠ 0 := (two_zpow_pos k).ne'
  rw [reversion_fin (mul_ne_zero he h2), reversion_fin he, ← sub_mul, roundBits_zpow, mul_div_mul_right _ _ h2]

/-- C140: at a threshold the computed signal can differ from the exact one: 3 % above the average with the threshold 0.03, whose double is
slightly less than 3/100, is no sale in double precision. -/
theorem C140_threshold_refuted : IsFloat 53 (toDouble (3 / 100)) ∧
    reversionR (roundBits 53) (toDouble (3 / 100)) (.fin 103) (.fin 100) = .fin 0 ∧
    reversionR id (toDouble (3 / 100)) (.fin 103) (.fin 100) = .fin (-1) :=
  ⟨isFloat_roundBits 53 (by norm_num) _, by decide +kernel, by decide +kernel⟩

/-! ### Local maximum and MACD -/

/-- C140: the computed ratio is the exact ratio rounded once; with the close at most the high of its bar it is at least 1, and it is 1
exactly if no high of the window is above the close. -/
theorem C140_local_max (p : ℕ) (hp : 1 ≤ p) (w : ℕ) (hw : 1 ≤ w) (h c : List (XF ℚ)) (i : ℕ) (hi : i < h.length) (hwi : w ≤ i + 1)
    (v : ℕ → ℚ) (hv : ∀ j < w, h[i - j]? = some (.fin (v j))) (y : ℚ) (hc : c[i]? = some (.fin y)) (hy : 0 < y) (fy : IsFloat p y)
    (fv : ∀ j < w, IsFloat p (v j)) :
    ∃ q, (localMaxRatioR (roundBits p) w h c)[i]? = some (.fin q) ∧ (∃ j < w, q = roundBits p (v j / y)) ∧
      (∀ j < w, roundBits p (v j / y) ≤ q) ∧ (y ≤ v 0 → 1 ≤ q ∧ (q = 1 ↔ ∀ j < w, v j ≤ y)) := by
  unfold localMaxRatioR
  rw [zipWith_getElem?_of _ (rolling_getElem? w winMax h i hi) hc, rollAt_of_fin w winMax h i hi hwi v hv]
  obtain ⟨M, hM, ⟨j, hj, rfl⟩, hmax⟩ := winMax_of w hw v
  rw [hM]
  refine ⟨roundBits p (v j / y), ?_, ⟨j, hj, rfl⟩, fun k hk => roundBits_mono p hp (div_le_div_of_nonneg_right (hmax k hk) hy.le), ?_⟩
  · simp only [XF.div, rnd]
    rw [if_neg hy.ne']
  · intro h0
    have h1 : y ≤ v j := h0.trans (hmax 0 (by omega))
    refine ⟨le_round hp (isFloat_one hp) ((one_le_div hy).2 h1), fun h k hk => ?_, fun h => ?_⟩
    · refine (hmax k hk).trans (le_of_not_gt fun hlt => ?_)
      have := one_lt_roundBits hp (ratio_gt hp hy fy (fv j hj) hlt)
      linarith
    · rw [le_antisymm (h j hj) h1, div_self hy.ne', roundBits_one p hp]

private def IsSign (x : XF ℚ) : Prop := x = .nan ∨ x = .fin 1 ∨ x = .fin (-1) ∨ x = .fin 0

private theorem isSign_sign (x : XF ℚ) : IsSign (XF.sign x) := by
  unfold IsSign
  cases x <;> simp [XF.sign]
  rename_i a
  rcases lt_trichotomy a 0 with h | h | h
  · simp [h, not_lt.2 h.le]
  · simp [h]
  · simp [h]

/-- C140: the MACD crossings are not touched by rounding. -/
theorem C140_macd (p : ℕ) (hp : 1 ≤ p) (h : List (XF ℚ)) : macdCrossR (roundBits p) h = macdCrossR id h := by
  have e0 := roundBits_zero p
  have e1 := roundBits_one p hp
  have e2 : roundBits p 2 = 2 := roundBits_eq_self p hp ⟨1, 1, by
    rw [abs_one]; exact one_lt_pow₀ (by norm_num) (by omega), by norm_num⟩
  have e3 : roundBits p (1 / 2) = 1 / 2 := roundBits_eq_self p hp ⟨1, -1, by
    rw [abs_one]; exact one_lt_pow₀ (by norm_num) (by omega), by norm_num⟩
  have key : ∀ x y : XF ℚ, IsSign x → IsSign y → rnd (roundBits p) (XF.div (rnd (roundBits p) (XF.sub x y)) (.fin 2)) =
      XF.div (XF.sub x y) (.fin 2) := by
    intro x y hx hy
    have hn := roundBits_neg p
    have e4 : roundBits p (-1) = -1 := by rw [hn, e1]
    have e5 : roundBits p (-2) = -2 := by rw [hn, e2]
    have e6 : roundBits p (-1 / 2) = -1 / 2 := by rw [neg_div, hn, e3]
    rcases hx with rfl | rfl | rfl | rfl <;> rcases hy with rfl | rfl | rfl | rfl <;>
      norm_num [XF.sub, XF.neg, XF.add, XF.div, rnd, e0, e1, e2, e4, e5, hn]
    all_goals try exact e3
    all_goals try exact e6
  unfold macdCrossR diffR pdDiff
  rw [List.map_map, List.map_map]
  have mem : ∀ x ∈ h.map XF.sign, IsSign x := by
    intro x hx
    obtain ⟨y, -, rfl⟩ := List.mem_map.1 hx
    exact isSign_sign y
  have mem' : ∀ x ∈ pdShift (h.map XF.sign), IsSign x := by
    intro x hx
    rcases List.mem_cons.1 (List.mem_of_mem_take hx) with rfl | hx
    · exact .inl rfl
    · exact mem x hx
  apply List.ext_getElem?
  intro i
  rw [List.getElem?_map, List.getElem?_map, List.getElem?_zipWith]
  cases h1 : (h.map XF.sign)[i]? with
  | none => rfl
  | some x =>
    cases h2 : (pdShift (h.map XF.sign))[i]? with
    | none => rfl
    | some y =>
      simp only [Option.map_some, Function.comp_apply, rnd_id5]
      rw [key x y (mem x (List.mem_of_getElem? h1)) (mem' y (List.mem_of_getElem? h2))]

/-! ### Concrete cases -/

private def buys : List (XF ℚ) := ([3, 5, 2, 7] : List ℚ).map .fin
private def sells : List (XF ℚ) := ([4, 1, 2, 6] : List ℚ).map .fin
private def vols : List (XF ℚ) := ([7, 6, 4, 13] : List ℚ).map .fin

/-- Four bars with spans 3 and 9: off by less than `10⁻¹²`. -/
example : Near (32 * (((3 : ℕ) + 1) ^ 2 + ((9 : ℕ) + 1) ^ 2) * 7 / 2 ^ 53 / (13 + 1)) ((imbalanceR (roundBits 53) 3 9 buys sells vols).getD 3 .nan)
    ((imbalanceR id 3 9 buys sells vols).getD 3 .nan) :=
  C140_imbalance_error 53 3 9 (by norm_num) (by norm_num) (by norm_num) (by norm_num) buys sells vols 7 13 (by norm_num)
    (fun q hq => (by decide +kernel : ∀ x ∈ buys, |x.toK| ≤ 7) (.fin q) hq) (fun q hq => (by decide +kernel : ∀ x ∈ sells, |x.toK| ≤ 7) (.fin q) hq)
    3 (by decide) (by decide) rfl (by norm_num)
example : (32 * ((3 + 1) ^ 2 + (9 + 1) ^ 2) * 7 / 2 ^ 53 / (13 + 1) : ℚ) < 1 / 10 ^ 12 := by norm_num
example : (imbalanceR id 3 9 buys sells vols).getD 3 .nan = .fin (-2 / 861) := by decide +kernel

/-- The normalised difference of the buy volumes. -/
example := C140_normalised 53 3 9 (by norm_num) (by norm_num) (by norm_num) (by norm_num) buys 7 (by norm_num)
    (fun q hq => (by decide +kernel : ∀ x ∈ buys, 0 ≤ x.toK ∧ x.toK ≤ 7) (.fin q) hq) 3 (by decide)

/-- 0.1 bought and 0.7 sold on every bar, the first buy missing. -/
example : (imbalanceR (roundBits 53) 3 9 [.nan, .fin (toDouble (1 / 10)), .fin (toDouble (1 / 10))] (List.replicate 3 (.fin (toDouble (7 / 10))))
    (List.replicate 3 (.fin (toDouble (8 / 10)))))[2]? = some (.fin 0) :=
  C140_imbalance_still (roundBits 53) (roundBits_zero 53) (fun x hx => roundBits_pos 53 (by norm_num) hx) 3 9 _ _ _ (toDouble (1 / 10))
    (toDouble (7 / 10)) (toDouble (8 / 10)) (by simp) (by simp) 2 (by decide) (by decide) ⟨1, by norm_num, rfl⟩ ⟨0, by norm_num, rfl⟩ rfl
    (by decide +kernel)

example : (imbalanceR (roundBits 53) 3 9 buys buys vols)[3]? = some .nan ∨ (imbalanceR (roundBits 53) 3 9 buys buys vols)[3]? = some (.fin 0) :=
  C140_imbalance_balanced 53 3 9 (by norm_num) (by norm_num) (by norm_num) (by norm_num) buys vols 3 (by decide) (by decide)

/-- 5 % above and below the average with a threshold of 3 %. -/
example : reversionR (roundBits 53) (toDouble (3 / 100)) (.fin 105) (.fin 100) = .fin (-1) ∧
    reversionR (roundBits 53) (toDouble (3 / 100)) (.fin 95) (.fin 100) = .fin 1 := by decide +kernel
example : reversionR (roundBits 53) (toDouble (3 / 100)) (.fin 105) (.fin 100) = reversionR id (toDouble (3 / 100)) (.fin 105) (.fin 100) :=
  C140_reversion_margin 53 (by norm_num) _ _ _ (by norm_num) (by decide +kernel)
example : (100 : ℚ) < 105 :=
  (C140_reversion_direction 53 (by norm_num) (toDouble (3 / 100)) 105 100 (by decide +kernel) (by norm_num)).2.1 (by decide +kernel)
example : (reversionR (roundBits 53) (toDouble (3 / 100)) (.fin 105) (.fin 100)).toK ≤
    (reversionR (roundBits 53) (toDouble (3 / 100)) (.fin 95) (.fin 100)).toK :=
  C140_reversion_monotone 53 (by norm_num) _ 95 105 100 (by decide +kernel) (by norm_num) (by norm_num)
example : reversionR (roundBits 53) (toDouble (3 / 100)) (.fin (105 * 2 ^ (-7 : ℤ))) (.fin (100 * 2 ^ (-7 : ℤ))) =
    reversionR (roundBits 53) (toDouble (3 / 100)) (.fin 105) (.fin 100) := C140_reversion_scale 53 (-7) _ 105 100 (by norm_num)

/-- Highs 5, 9, 7, close 7: 9/7, rounded. -/
example : ∃ q, (localMaxRatioR (roundBits 53) 2 [.fin 5, .fin 9, .fin 7] [.fin 5, .fin 8, .fin 7])[2]? = some (.fin q) ∧ 1 ≤ q ∧
    (q = 1 ↔ ∀ j < 2, (if j = 0 then (7 : ℚ) else 9) ≤ 7) := by
  obtain ⟨q, h1, -, -, h4⟩ := C140_local_max 53 (by norm_num) 2 (by norm_num) [.fin 5, .fin 9, .fin 7] [.fin 5, .fin 8, .fin 7] 2 (by decide)
    (by norm_num) (fun j => if j = 0 then 7 else 9) (by
      intro j hj
      interval_cases j <;> rfl) 7 rfl (by norm_num) ⟨7, 0, by norm_num, by norm_num⟩ (by
      intro j hj
      interval_cases j
      · exact ⟨7, 0, by norm_num, by norm_num⟩
      · exact ⟨9, 0, by norm_num, by norm_num⟩)
  exact ⟨q, h1, h4 (by norm_num)⟩

end Mizar.Props
