import Verif.Lemmas.RoundedSignals

/-! Property theorems C139: the RSI strategies in floating point (`/repo/mizarlabs/transformers/technical/rsi.py`). -/

namespace Mizar.Props
open Mizar.Spec Mizar.Rd

/-- C139: without rounding these are the strategies of C77. -/
theorem C139_exact (rsi : Frame ℚ → Py (List (XF ℚ))) (f : Frame ℚ) (v : List (XF ℚ)) (hr : rsi f = .ok v) (hl : v.length = f.rows.length)
    (threshold : ℚ) (confirm ma : ℕ) (hm : 1 ≤ ma) (b : Tech.BarArrival ℚ) (hf : 1 ≤ b.fast) (hs : 1 ≤ b.slow) :
    Tech.rsiConfirmation rsi threshold confirm ma f = .ok (Rd.rsiConfirmation id threshold confirm ma v) ∧
    Tech.barArrivalRsi rsi b f = .ok (Rd.barArrivalRsi id b f.index v) := by
  have hid : rnd (id : ℚ → ℚ) = id := by funext x; cases x <;> rfl
  constructor
  · unfold Tech.rsiConfirmation Rd.rsiConfirmation
    rw [hr, Py.bind_ok, likeIndex_ok f v hl, Py.bind_ok, rollE_ok, Py.bind_ok, rollE_ok, Py.bind_ok, diffR, hid, List.map_id,
      (C131_exact ma hm v).2]
  · obtain ⟨n, hn⟩ := Int.toNat_of_nonneg (show 0 ≤ b.fast by omega) ▸ (⟨_, rfl⟩ : ∃ n, n = b.fast.toNat)
    have e1 : b.fast = (b.fast.toNat : ℤ) := by omega
    have e2 : b.slow = (b.slow.toNat : ℤ) := by omega
    unfold Tech.barArrivalRsi Rd.barArrivalRsi arrivalDiff
    dsimp only
    rw [hid, List.map_id, (C131_exact b.fast.toNat (by omega) _).2, (C131_exact b.slow.toNat (by omega) _).2]
    rw [e1, e2, rollE_ok, rollE_ok, Py.bind_ok, Py.bind_ok, hr, Py.bind_ok, likeIndex_ok f v hl, Py.bind_ok]
    simp only [id_eq, Int.toNat_natCast]

private theorem mem_win {w i j : ℕ} {v : List (XF ℚ)} (hi : i < v.length) (h1 : i + 1 - w ≤ j) (h2 : j ≤ i) : v.getD j .nan ∈ winAt w i v := by
  rw [List.getD_eq_getElem _ _ (by omega), winAt, List.mem_iff_getElem]
  refine ⟨j - (i + 1 - w), by simp; omega, ?_⟩
  simp only [List.getElem_drop, List.getElem_take]
  congr 1
  omega

private theorem fin_of {x : XF ℚ} (h : x.undef = false) : x = .fin x.toK := by
  cases x <;> first | rfl | simp [XF.undef, XF.isNan, XF.isInf] at h

private theorem win_change {w i : ℕ} (hw : 1 ≤ w) (hi1 : 1 ≤ i) (hwi : w ≤ i) {v : List (XF ℚ)} (hi : i < v.length) :
    ((winAt w i v).map XF.toK).sum = ((winAt w (i - 1) v).map XF.toK).sum + ((v.getD i .nan).toK - (v.getD (i - w) .nan).toK) := by
  rw [← win_eq, ← win_eq, show i - 1 + 1 = i by omega, win, win, pre_succ _ _ _ hi, show i + 1 - w = (i - w) + 1 by omega,
    pre_succ _ _ _ (by omega)]
  abel

private theorem pos_iff {p : ℕ} (hp : 1 ≤ p) (x : ℚ) : 0 < roundBits p x ↔ 0 < x := roundBits_pos_iff hp

/-- C139: away from ties of the moving average the confirmation strategy gives the exact signal: it is enough that the indicator differs
from what it was `ma` bars before by more than `52 ma (i+1) M / 2^p`. -/
theorem C139_confirmation_margin (p : ℕ) (hp : 8 ≤ p) (threshold : ℚ) (confirm ma : ℕ) (hm : 1 ≤ ma) (v : List (XF ℚ)) (M : ℚ)
    (hM0 : 0 ≤ M) (hM : ∀ x ∈ v, |x.toK| ≤ M) (i : ℕ) (hi : i < v.length) (hn : 24 * (i + 1) ≤ 2 ^ p)
    (hgap : ma ≤ i → ∀ a b, v.getD (i - ma) .nan = .fin a → v.getD i .nan = .fin b → 52 * ma * (i + 1) * M / 2 ^ p < |b - a|) :
    (Rd.rsiConfirmation (roundBits p) threshold confirm ma v)[i]? = (Rd.rsiConfirmation id threshold confirm ma v)[i]? := by
  have hp1 : 1 ≤ p := by omega
  rw [confirmation_at (pos_iff hp1) threshold confirm ma v i hi, confirmation_at (r := id) (fun _ => Iff.rfl) threshold confirm ma v i hi]
  by_cases h0 : i = 0
  · rw [if_pos h0, if_pos h0]
  · rw [if_neg h0, if_neg h0]
    have hw0 : (0 : ℚ) < ma := by exact_mod_cast hm
    have d1 := C132_drift p hp ma hm v M hM0 hM i hi hn
    have d0 := C132_drift p hp ma hm v M hM0 hM (i - 1) (by omega) (by omega)
    rw [← (C131_exact ma hm v).2] at d0 d1
    suffices h : XF.lt ((rollMean (roundBits p) ma v).getD (i - 1) .nan) ((rollMean (roundBits p) ma v).getD i .nan) =
        XF.lt ((rollMean id ma v).getD (i - 1) .nan) ((rollMean id ma v).getD i .nan) by rw [h]
    rcases d0 with ⟨e1, e2⟩ | ⟨a, b, e1, e2, h1⟩
    · rw [e1, e2]; rfl
    · rcases d1 with ⟨e3, e4⟩ | ⟨a', b', e3, e4, h2⟩
      · rw [e3, e4, e1, e2]; rfl
      · rw [e1, e2, e3, e4, XF.lt_fin, XF.lt_fin]
        -- the exact change of the average
        have k0 : b = ((winAt ma (i - 1) v).map XF.toK).sum / ma ∧ ma ≤ i - 1 + 1 ∧ (winAt ma (i - 1) v).any XF.undef = false := by
          rw [(C131_exact ma hm v).2, rolling_mean_at hm v (i - 1) (by omega)] at e2
          split_ifs at e2 with hc
          cases e2
          exact ⟨rfl, hc⟩
        have k1 : b' = ((winAt ma i v).map XF.toK).sum / ma ∧ ma ≤ i + 1 ∧ (winAt ma i v).any XF.undef = false := by
          rw [(C131_exact ma hm v).2, rolling_mean_at hm v i hi] at e4
          split_ifs at e4 with hc
          cases e4
          exact ⟨rfl, hc⟩
        have hwi : ma ≤ i := by omega
        have f1 := fin_of (List.any_eq_false.1 k1.2.2 _ (mem_win hi (j := i) (by omega) le_rfl) |> Bool.eq_false_iff.2)
        have f0 := fin_of (List.any_eq_false.1 k0.2.2 _ (mem_win (show i - 1 < v.length by omega) (j := i - ma) (by omega) (by omega)) |> Bool.eq_false_iff.2)
        have hg := hgap hwi _ _ f0 f1
        have hch : b' = b + ((v.getD i .nan).toK - (v.getD (i - ma) .nan).toK) / ma := by
          rw [k1.1, k0.1, win_change hm (by omega) hwi hi]
          ring
        have hE : 26 * (((i - 1 : ℕ) : ℚ) + 1) * M / 2 ^ p ≤ 26 * ((i : ℚ) + 1) * M / 2 ^ p := by
          have : ((i - 1 : ℕ) : ℚ) ≤ i := by exact_mod_cast Nat.sub_le i 1
          gcongr
        have hD : 52 * ((i : ℚ) + 1) * M / 2 ^ p < |b' - b| := by
          rw [hch, add_sub_cancel_left, abs_div, abs_of_pos hw0, lt_div_iff₀ hw0]
          calc _ = 52 * ma * (i + 1) * M / 2 ^ p := by ring
            _ < _ := hg
        have h1' := (abs_le.1 h1)
        have h2' := (abs_le.1 h2)
        have hsum : 26 * ((i : ℚ) + 1) * M / 2 ^ p + 26 * ((i : ℚ) + 1) * M / 2 ^ p = 52 * ((i : ℚ) + 1) * M / 2 ^ p := by ring
        congr 1
        rw [eq_iff_iff]
        rcases lt_abs.1 hD with h | h
        · exact ⟨fun _ => by linarith [show 0 ≤ 52 * ((i : ℚ) + 1) * M / 2 ^ p by positivity], fun _ => by linarith⟩
        · exact ⟨fun _ => by exfalso; linarith, fun _ => by exfalso; linarith [show 0 ≤ 52 * ((i : ℚ) + 1) * M / 2 ^ p by positivity]⟩

/-- C139: no false signals on a grid: if the values of the indicator are multiples of `2^e` with windows of less than `2^p` of them, for
instance whole numbers, a computed signal is an exact one; in particular an indicator that is where it was `ma` bars before gives none. -/
theorem C139_confirmation_grid (p : ℕ) (hp : 1 ≤ p) (e : ℤ) (threshold : ℚ) (confirm ma : ℕ) (hm : 1 ≤ ma) (v : List (XF ℚ))
    (hg : OnGrid p e ma v) (i : ℕ) (h : (Rd.rsiConfirmation (roundBits p) threshold confirm ma v)[i]? = some (.fin 1)) :
    (Rd.rsiConfirmation id threshold confirm ma v)[i]? = some (.fin 1) := by
  have hi : i < v.length := by
    by_contra hc
    rw [List.getElem?_eq_none] at h
    · cases h
    · simp [Rd.rsiConfirmation, rolling, diffR, pdDiff, pdShift, rollMean]
      omega
  rw [confirmation_at (pos_iff hp) threshold confirm ma v i hi] at h
  rw [confirmation_at (r := id) (fun _ => Iff.rfl) threshold confirm ma v i hi]
  by_cases h0 : i = 0
  · simp [h0] at h
  rw [if_neg h0] at h
  split_ifs at h with hc
  · rw [Bool.and_eq_true] at hc
    have h2 : XF.lt ((rollMean id ma v).getD (i - 1) .nan) ((rollMean id ma v).getD i .nan) = true := by
      have hc2 := hc.2
      have hgd : ∀ j, (rollMean (roundBits p) ma v).getD j .nan = rnd (roundBits p) ((rollMean id ma v).getD j .nan) := by
        intro j
        rw [(C131_grid p hp e ma hm v hg).2, (C131_exact ma hm v).2, List.getD_eq_getElem?_getD, List.getD_eq_getElem?_getD,
          List.getElem?_map]
        cases (rolling ma winMean v)[j]? <;> rfl
      rw [hgd, hgd] at hc2
      revert hc2
      generalize (rollMean id ma v).getD (i - 1) .nan = x
      generalize (rollMean id ma v).getD i .nan = y
      intro hc2
      cases x <;> cases y <;> simp only [rnd] at hc2 <;> try exact hc2
      rw [XF.lt_fin, decide_eq_true_eq] at hc2 ⊢
      exact lt_of_not_ge fun h => absurd (roundBits_mono p hp h) (not_le.2 hc2)
    rw [if_pos]
    rw [if_neg h0, hc.1, h2]
    rfl
  · simp at h

/-- C139: with whole multiples of `2^e`, at most `T` of them, and `2 ma ma T < 2^p` all signals are exact. -/
theorem C139_confirmation_ticks (p : ℕ) (hp : 1 ≤ p) (e : ℤ) (T : ℕ) (threshold : ℚ) (confirm ma : ℕ) (hm : 1 ≤ ma) (v : List (XF ℚ))
    (hv : Ticks e T v) (hT : 2 * ma * ma * T < 2 ^ p) :
    Rd.rsiConfirmation (roundBits p) threshold confirm ma v = Rd.rsiConfirmation id threshold confirm ma v := by
  have hg : OnGrid p e ma v := ticks_onGrid hv (lt_of_le_of_lt (by nlinarith [Nat.zero_le (ma * T)]) hT)
  apply List.ext_getElem?
  intro i
  by_cases hi : i < v.length
  swap
  · rw [List.getElem?_eq_none, List.getElem?_eq_none]
    · simp [Rd.rsiConfirmation, rolling, diffR, pdDiff, pdShift, rollMean]
      omega
    · simp [Rd.rsiConfirmation, rolling, diffR, pdDiff, pdShift, rollMean]
      omega
  rw [confirmation_at (pos_iff hp) threshold confirm ma v i hi, confirmation_at (r := id) (fun _ => Iff.rfl) threshold confirm ma v i hi]
  by_cases h0 : i = 0
  · rw [if_pos h0, if_pos h0]
  · rw [if_neg h0, if_neg h0]
    suffices h : XF.lt ((rollMean (roundBits p) ma v).getD (i - 1) .nan) ((rollMean (roundBits p) ma v).getD i .nan) =
        XF.lt ((rollMean id ma v).getD (i - 1) .nan) ((rollMean id ma v).getD i .nan) by rw [h]
    have hgd : ∀ j, (rollMean (roundBits p) ma v).getD j .nan = rnd (roundBits p) ((rollMean id ma v).getD j .nan) := by
      intro j
      rw [(C131_grid p hp e ma hm v hg).2, (C131_exact ma hm v).2, List.getD_eq_getElem?_getD, List.getD_eq_getElem?_getD,
        List.getElem?_map]
      cases (rolling ma winMean v)[j]? <;> rfl
    have hval : ∀ j < v.length, (rollMean id ma v).getD j .nan = .nan ∨ ∃ a : ℤ, (rollMean id ma v).getD j .nan = .fin (a * 2 ^ e / ma) ∧ |a| ≤ ma * T := by
      intro j hj
      rw [(C131_exact ma hm v).2, rolling_mean_at hm v j hj]
      split_ifs with hc
      · right
        obtain ⟨a, h1, h2⟩ := ticks_sum (m := winAt ma j v) fun x hx => hv x (List.mem_of_mem_take (List.mem_of_mem_drop hx))
        refine ⟨a, by rw [h1], h2.trans ?_⟩
        exact_mod_cast Nat.mul_le_mul_right _ (winAt_len_le ma j v)
      · exact .inl rfl
    rw [hgd, hgd]
    rcases hval (i - 1) (by omega) with h1 | ⟨a, h1, ha⟩
    · rw [h1]
      rfl
    · rcases hval i hi with h2 | ⟨b, h2, hb⟩
      · rw [h1, h2]
        rfl
      · rw [h1, h2, rnd, rnd, XF.lt_fin, XF.lt_fin]
        congr 1
        rw [eq_iff_iff]
        exact round_fractions hp hm hm ha hb hT

/-- The double nearest to 24.3. -/
private def still : ℚ := 6839841934068941 / 2 ^ 48

/-- C139: an indicator that does not move at all can give a signal in double precision: at 24.3 and with an average of four bars the
computed average rises at the sixth bar. -/
theorem C139_still_refuted : ∃ x : ℚ, IsFloat 53 x ∧
    (Rd.rsiConfirmation (roundBits 53) 30 2 4 (List.replicate 8 (.fin x)))[5]? = some (.fin 1) ∧
    (Rd.rsiConfirmation id 30 2 4 (List.replicate 8 (.fin x)))[5]? = some (.fin 0) :=
  ⟨still, ⟨6839841934068941, -48, by norm_num, by norm_num [still]⟩, by decide +kernel, by decide +kernel⟩

/-! ### Times between bars -/

private theorem bought {r : ℚ → ℚ} {b : Tech.BarArrival ℚ} {index : List ℤ} {v : List (XF ℚ)} {i : ℕ} :
    (Rd.barArrivalRsi r b index v)[i]? = some (.fin 1) ↔ ∃ x d, v[i]? = some x ∧ 1 ≤ i ∧
      (arrivalDiff r b.fast.toNat b.slow.toNat b.maxDiff index)[i - 1]? = some d ∧ Tech.buyArrival b x d = true := by
  unfold Rd.barArrivalRsi
  rw [List.getElem?_zipWith_eq_some]
  constructor
  · rintro ⟨x, d, h1, h2, h3⟩
    cases i with
    | zero =>
      cases h2
      exfalso
      simp [Tech.buyArrival] at h3
    | succ i =>
      rw [List.getElem?_cons_succ] at h2
      refine ⟨x, d, h1, by omega, h2, ?_⟩
      by_contra hc
      rw [if_neg hc] at h3
      simp at h3
  · rintro ⟨x, d, h1, h2, h3, h4⟩
    refine ⟨x, d, h1, ?_, by rw [if_pos h4]⟩
    obtain ⟨j, rfl⟩ : ∃ j, i = j + 1 := ⟨i - 1, by omega⟩
    rw [List.getElem?_cons_succ]
    exact h3

private theorem diff_length (r : ℚ → ℚ) (fast slow : ℕ) (d : ℚ) (index : List ℤ) :
    (arrivalDiff r fast slow d index).length = index.length - 1 := by
  simp [arrivalDiff, rollMean, arrivals_length]

/-- What is bought in floating point. -/
private theorem bought_iff {p : ℕ} (hp : 1 ≤ p) {b : Tech.BarArrival ℚ} (hf : 1 ≤ b.fast) (hs : 1 ≤ b.slow) (hd : b.maxDiff ≠ 0)
    {index : List ℤ} (hinc : ∀ k, k + 1 < index.length → index.getD k 0 ≤ index.getD (k + 1) 0)
    (hspan : ∀ i < index.length, index.getD i 0 - index.getD (i - b.fast.toNat) 0 < 2 ^ p ∧ index.getD i 0 - index.getD (i - b.slow.toNat) 0 < 2 ^ p)
    {v : List (XF ℚ)} {i : ℕ} : (Rd.barArrivalRsi (roundBits p) b index v)[i]? = some (.fin 1) ↔
      i < index.length ∧ b.fast.toNat ≤ i ∧ b.slow.toNat ≤ i ∧ ∃ x, v[i]? = some x ∧ Tech.buyArrival b x (.fin (roundBits p (roundBits p
        (roundBits p (gapMean b.fast.toNat (fun k => index.getD k 0) i) - roundBits p (gapMean b.slow.toNat (fun k => index.getD k 0) i)) /
          b.maxDiff))) = true := by
  rw [bought]
  constructor
  · rintro ⟨x, d, h1, h2, h3, h4⟩
    have hi : i - 1 < index.length - 1 := by
      by_contra hc
      rw [List.getElem?_eq_none (by rw [diff_length]; omega)] at h3
      cases h3
    rw [arrivalDiff_at hp (by omega) (by omega) hd hinc hspan (i - 1) (by omega)] at h3
    split_ifs at h3 with hc
    · cases h3
      simp [Tech.buyArrival] at h4
    · cases h3
      rw [show i - 1 + 1 = i by omega] at h4 hc
      exact ⟨by omega, by omega, by omega, x, h1, h4⟩
  · rintro ⟨h1, h2, h3, x, h4, h5⟩
    refine ⟨x, _, h4, by omega, ?_, h5⟩
    rw [arrivalDiff_at hp (by omega) (by omega) hd hinc hspan (i - 1) (by omega), show i - 1 + 1 = i by omega, if_neg (by omega)]

/-- What is bought exactly. -/
private theorem bought_exact {b : Tech.BarArrival ℚ} (hf : 1 ≤ b.fast) (hs : 1 ≤ b.slow) (hd : b.maxDiff ≠ 0) {index : List ℤ}
    {v : List (XF ℚ)} {i : ℕ} : (Rd.barArrivalRsi id b index v)[i]? = some (.fin 1) ↔
      i < index.length ∧ b.fast.toNat ≤ i ∧ b.slow.toNat ≤ i ∧ ∃ x, v[i]? = some x ∧ Tech.buyArrival b x (.fin
        ((gapMean b.fast.toNat (fun k => index.getD k 0) i - gapMean b.slow.toNat (fun k => index.getD k 0) i) / b.maxDiff)) = true := by
  have hid : rnd (id : ℚ → ℚ) = id := by funext x; cases x <;> rfl
  have hat : ∀ i, i + 1 < index.length → (arrivalDiff id b.fast.toNat b.slow.toNat b.maxDiff index)[i]? =
      some (if i + 1 < b.fast.toNat ∨ i + 1 < b.slow.toNat then .nan else
        .fin ((gapMean b.fast.toNat (fun k => index.getD k 0) (i + 1) - gapMean b.slow.toNat (fun k => index.getD k 0) (i + 1)) / b.maxDiff)) := by
    intro i hi
    have hil : i < (Tech.arrivals index : List (XF ℚ)).length := by rw [arrivals_length]; omega
    unfold arrivalDiff
    dsimp only
    rw [hid, List.map_id, (C131_exact b.fast.toNat (by omega) _).2, (C131_exact b.slow.toNat (by omega) _).2,
      zipWith_getElem?_of _ (rolling_getElem? _ winMean _ i hil) (rolling_getElem? _ winMean _ i hil),
      arrivals_mean _ (by omega) index i hi, arrivals_mean _ (by omega) index i hi]
    by_cases h1 : i + 1 < b.fast.toNat
    · rw [if_pos h1, if_pos (show i + 1 < b.fast.toNat ∨ i + 1 < b.slow.toNat from Or.inl h1)]
      split_ifs <;> rfl
    · rw [if_neg h1]
      by_cases h2 : i + 1 < b.slow.toNat
      · rw [if_pos h2, if_pos (show i + 1 < b.fast.toNat ∨ i + 1 < b.slow.toNat from Or.inr h2)]
        rfl
      · rw [if_neg h2, if_neg (by omega), XF.sub_fin]
        simp only [id_eq]
        rw [XF.div_fin _ _ hd]
  rw [bought]
  constructor
  · rintro ⟨x, d, h1, h2, h3, h4⟩
    have hi : i - 1 < index.length - 1 := by
      by_contra hc
      rw [List.getElem?_eq_none (by rw [diff_length]; omega)] at h3
      cases h3
    rw [hat (i - 1) (by omega)] at h3
    split_ifs at h3 with hc
    · cases h3
      simp [Tech.buyArrival] at h4
    · cases h3
      rw [show i - 1 + 1 = i by omega] at h4 hc
      exact ⟨by omega, by omega, by omega, x, h1, h4⟩
  · rintro ⟨h1, h2, h3, x, h4, h5⟩
    refine ⟨x, _, h4, by omega, ?_, h5⟩
    rw [hat (i - 1) (by omega), show i - 1 + 1 = i by omega, if_neg (by omega)]

/-- C139: with increasing times and windows that last less than `2^p` nanoseconds (104 days for doubles) the direction of the change of
pace is never mistaken: a strategy that asks for slower bars never buys when they are not slower, and the other way round. -/
theorem C139_arrival_direction (p : ℕ) (hp : 1 ≤ p) (b : Tech.BarArrival ℚ) (hf : 1 ≤ b.fast) (hs : 1 ≤ b.slow) (hd : 0 < b.maxDiff)
    (index : List ℤ) (hinc : ∀ k, k + 1 < index.length → index.getD k 0 ≤ index.getD (k + 1) 0)
    (hspan : ∀ i < index.length, index.getD i 0 - index.getD (i - b.fast.toNat) 0 < 2 ^ p ∧ index.getD i 0 - index.getD (i - b.slow.toNat) 0 < 2 ^ p)
    (v : List (XF ℚ)) (i : ℕ) (h : (Rd.barArrivalRsi (roundBits p) b index v)[i]? = some (.fin 1)) :
    (0 ≤ b.arrLow → gapMean (K := ℚ) b.slow.toNat (fun k => index.getD k 0) i < gapMean b.fast.toNat (fun k => index.getD k 0) i) ∧
    (b.arrHigh ≤ 0 → gapMean (K := ℚ) b.fast.toNat (fun k => index.getD k 0) i < gapMean b.slow.toNat (fun k => index.getD k 0) i) := by
  obtain ⟨-, -, -, x, -, h⟩ := (bought_iff hp hf hs hd.ne' hinc hspan).1 h
  unfold Tech.buyArrival at h
  simp only [Bool.and_eq_true, XF.lt_fin, decide_eq_true_eq] at h
  obtain ⟨⟨-, h1⟩, h2⟩ := h
  constructor
  · intro h0
    have h3 := (roundBits_pos_iff hp).1 (lt_of_le_of_lt h0 h2)
    have h4 := (div_pos_iff_of_pos_right hd).1 h3
    have h5 := (roundBits_pos_iff hp).1 h4
    exact lt_of_not_ge fun hc => absurd (roundBits_mono p hp hc) (not_le.2 (by linarith))
  · intro h0
    by_contra hc
    push Not at hc
    have h3 : 0 ≤ roundBits p (gapMean b.fast.toNat (fun k => index.getD k 0) i) - roundBits p (gapMean b.slow.toNat (fun k => index.getD k 0) i) :=
      sub_nonneg.2 (roundBits_mono p hp hc)
    have h4 := roundBits_nonneg p hp (div_nonneg (roundBits_nonneg p hp h3) hd.le)
    linarith

/-- C139: evenly spaced bars have the normalised difference 0 exactly, so the strategy buys exactly where the indicator is between its
thresholds, if 0 is between the arrival thresholds, and never otherwise. -/
theorem C139_steady (p : ℕ) (hp : 1 ≤ p) (b : Tech.BarArrival ℚ) (hf : 1 ≤ b.fast) (hs : 1 ≤ b.slow) (hd : b.maxDiff ≠ 0) (t g : ℤ)
    (hg : 0 ≤ g) (hlen : b.fast * g < 2 ^ p ∧ b.slow * g < 2 ^ p) (v : List (XF ℚ)) (i : ℕ) :
    (Rd.barArrivalRsi (roundBits p) b ((List.range v.length).map fun k : ℕ => t + k * g) v)[i]? = some (.fin 1) ↔
      i < v.length ∧ b.fast ≤ i ∧ b.slow ≤ i ∧ b.arrLow < 0 ∧ 0 < b.arrHigh ∧
        ∃ x, v[i]? = some x ∧ XF.lt (.fin b.rsiLow) x = true ∧ XF.lt x (.fin b.rsiHigh) = true := by
  have hget : ∀ k < v.length, ((List.range v.length).map fun k : ℕ => t + k * g).getD k 0 = t + k * g := by
    intro k hk
    rw [List.getD_eq_getElem _ _ (by simpa using hk)]
    simp
  have hw : ∀ w : ℤ, 1 ≤ w → w * g < 2 ^ p → ∀ i < v.length,
      ((List.range v.length).map fun k : ℕ => t + k * g).getD i 0 - ((List.range v.length).map fun k : ℕ => t + k * g).getD (i - w.toNat) 0 < 2 ^ p := by
    intro w h1 h2 i hi
    rw [hget i hi, hget (i - w.toNat) (by omega)]
    have : ((i : ℤ) - ((i - w.toNat : ℕ) : ℤ)) ≤ w := by omega
    have := mul_le_mul_of_nonneg_right this hg
    linarith
  rw [bought_iff hp hf hs hd (by
      intro k hk
      simp only [List.length_map, List.length_range] at hk
      rw [hget k (by omega), hget (k + 1) hk]
      push_cast
      linarith) (by
      intro i hi
      simp only [List.length_map, List.length_range] at hi
      exact ⟨hw b.fast hf hlen.1 i hi, hw b.slow hs hlen.2 i hi⟩)]
  simp only [List.length_map, List.length_range]
  have hmean : ∀ w : ℤ, 1 ≤ w → w.toNat ≤ i → i < v.length →
      (gapMean w.toNat (fun k => ((List.range v.length).map fun k : ℕ => t + k * g).getD k 0) i : ℚ) = g := by
    intro w h1 h2 h3
    unfold gapMean
    dsimp only
    rw [hget i h3, hget (i - w.toNat) (by omega)]
    have hw0 : ((w.toNat : ℕ) : ℚ) ≠ 0 := by
      have : w.toNat ≠ 0 := by omega
      exact_mod_cast this
    have : (t + (i : ℤ) * g - (t + ((i - w.toNat : ℕ) : ℤ) * g)) = (w.toNat : ℤ) * g := by
      push_cast [h2]
      ring
    rw [this]
    push_cast
    field_simp
  constructor
  · rintro ⟨h1, h2, h3, x, h4, h5⟩
    rw [hmean b.fast hf h2 h1, hmean b.slow hs h3 h1, sub_self, roundBits_zero, zero_div, roundBits_zero] at h5
    unfold Tech.buyArrival at h5
    simp only [Bool.and_eq_true, XF.lt_fin, decide_eq_true_eq] at h5
    exact ⟨h1, by omega, by omega, h5.2, h5.1.2, x, h4, h5.1.1⟩
  · rintro ⟨h1, h2, h3, h4, h5, x, h6, h7⟩
    refine ⟨h1, by omega, by omega, x, h6, ?_⟩
    rw [hmean b.fast hf (by omega) h1, hmean b.slow hs (by omega) h1, sub_self, roundBits_zero, zero_div, roundBits_zero]
    unfold Tech.buyArrival
    simp only [Bool.and_eq_true, XF.lt_fin, decide_eq_true_eq]
    exact ⟨⟨h7, h5⟩, h4⟩

/-- C139: the signals of the arrival strategy are exact unless the normalised difference is within `5 G / (2^p maxDiff)` of a threshold,
where `G` bounds the two mean times between bars. -/
theorem C139_arrival_margin (p : ℕ) (hp : 8 ≤ p) (b : Tech.BarArrival ℚ) (hf : 1 ≤ b.fast) (hs : 1 ≤ b.slow) (hd : 0 < b.maxDiff)
    (index : List ℤ) (hinc : ∀ k, k + 1 < index.length → index.getD k 0 ≤ index.getD (k + 1) 0)
    (hspan : ∀ i < index.length, index.getD i 0 - index.getD (i - b.fast.toNat) 0 < 2 ^ p ∧ index.getD i 0 - index.getD (i - b.slow.toNat) 0 < 2 ^ p)
    (v : List (XF ℚ)) (i : ℕ) (G : ℚ) (hF0 : 0 ≤ (gapMean b.fast.toNat (fun k => index.getD k 0) i : ℚ))
    (hF : gapMean b.fast.toNat (fun k => index.getD k 0) i ≤ G) (hS0 : 0 ≤ (gapMean b.slow.toNat (fun k => index.getD k 0) i : ℚ))
    (hS : gapMean b.slow.toNat (fun k => index.getD k 0) i ≤ G)
    (hmargin : ∀ h ∈ [b.arrLow, b.arrHigh], 5 * G / (2 ^ p * b.maxDiff) <
      |(gapMean b.fast.toNat (fun k => index.getD k 0) i - gapMean b.slow.toNat (fun k => index.getD k 0) i) / b.maxDiff - h|) :
    (Rd.barArrivalRsi (roundBits p) b index v)[i]? = some (.fin 1) ↔ (Rd.barArrivalRsi id b index v)[i]? = some (.fin 1) := by
  have hp1 : 1 ≤ p := by omega
  rw [bought_iff hp1 hf hs hd.ne' hinc hspan, bought_exact hf hs hd.ne']
  have m1 := hmargin b.arrLow (by simp)
  have m2 := hmargin b.arrHigh (by simp)
  have key : ∀ F S d : ℚ, 0 ≤ F → F ≤ G → 0 ≤ S → S ≤ G → 0 < d →
      |roundBits p (roundBits p (roundBits p F - roundBits p S) / d) - (F - S) / d| ≤ 5 * G / (2 ^ p * d) := by
    intro F S d a1 a2 a3 a4 a5
    have hu : (0 : ℚ) < 1 / 2 ^ p := by positivity
    have hu8 : (1 : ℚ) / 2 ^ p ≤ 1 / 256 := by
      apply one_div_le_one_div_of_le (by norm_num)
      calc (256 : ℚ) = 2 ^ 8 := by norm_num
        _ ≤ 2 ^ p := pow_le_pow_right₀ (by norm_num) hp
    have hG : 0 ≤ G := a1.trans a2
    have r1 := roundBits_error p hp1 F
    have r2 := roundBits_error p hp1 S
    have r3 := roundBits_error p hp1 (roundBits p F - roundBits p S)
    have r4 := roundBits_error p hp1 (roundBits p (roundBits p F - roundBits p S) / d)
    rw [show 5 * G / (2 ^ p * d) = 5 * (1 / 2 ^ p) * G / d by field_simp]
    rw [div_eq_mul_one_div |_| ((2 : ℚ) ^ p)] at r1 r2 r3 r4
    generalize (1 : ℚ) / 2 ^ p = u at *
    generalize roundBits p F = F' at *
    generalize roundBits p S = S' at *
    generalize roundBits p (F' - S') = D at *
    generalize roundBits p (D / d) = Q at *
    rw [abs_of_nonneg a1] at r1
    rw [abs_of_nonneg a3] at r2
    have b1 : |F' - F| ≤ u * G := r1.trans (by rw [mul_comm]; exact mul_le_mul_of_nonneg_left a2 hu.le)
    have b2 : |S' - S| ≤ u * G := r2.trans (by rw [mul_comm]; exact mul_le_mul_of_nonneg_left a4 hu.le)
    have huG : 0 ≤ u * G := mul_nonneg hu.le hG
    have hs' : |F' - S'| ≤ G + 2 * (u * G) := by
      rw [abs_le] at b1 b2 ⊢
      constructor <;> linarith
    have b3 : |D - (F - S)| ≤ 3 * (u * G) + 2 * (u * (u * G)) := by
      have c1 : |F' - S'| * u ≤ (G + 2 * (u * G)) * u := mul_le_mul_of_nonneg_right hs' hu.le
      have c2 := r3.trans c1
      rw [abs_le] at b1 b2 c2 ⊢
      constructor <;> linarith
    have huu : u * (u * G) ≤ (1 / 256) * (u * G) := mul_le_mul_of_nonneg_right hu8 huG
    have b4 : |D| ≤ G + 4 * (u * G) := by
      rw [abs_le] at b3 ⊢
      constructor <;> linarith
    have b5 : |D / d - (F - S) / d| ≤ (3 * (u * G) + 2 * (u * (u * G))) / d := by
      rw [← sub_div, abs_div, abs_of_pos a5]
      exact div_le_div_of_nonneg_right b3 a5.le
    have b6 : |Q - D / d| ≤ (u * G + 4 * (u * (u * G))) / d := by
      refine r4.trans ?_
      rw [abs_div, abs_of_pos a5, div_mul_eq_mul_div]
      apply div_le_div_of_nonneg_right _ a5.le
      calc |D| * u ≤ (G + 4 * (u * G)) * u := mul_le_mul_of_nonneg_right b4 hu.le
        _ = u * G + 4 * (u * (u * G)) := by ring
    calc |Q - (F - S) / d| ≤ |Q - D / d| + |D / d - (F - S) / d| := abs_sub_le _ _ _
      _ ≤ (u * G + 4 * (u * (u * G))) / d + (3 * (u * G) + 2 * (u * (u * G))) / d := add_le_add b6 b5
      _ = (4 * (u * G) + 6 * (u * (u * G))) / d := by rw [← add_div]; ring_nf
      _ ≤ 5 * u * G / d := by
        apply div_le_div_of_nonneg_right _ a5.le
        linarith
  have hk := key _ _ _ hF0 hF hS0 hS hd
  generalize (gapMean b.fast.toNat (fun k => index.getD k 0) i : ℚ) = F at *
  generalize (gapMean b.slow.toNat (fun k => index.getD k 0) i : ℚ) = S at *
  generalize roundBits p (roundBits p (roundBits p F - roundBits p S) / b.maxDiff) = q' at *
  generalize (F - S) / b.maxDiff = q at *
  generalize 5 * G / (2 ^ p * b.maxDiff) = δ at *
  have e1 : b.arrLow < q' ↔ b.arrLow < q := by
    have := abs_le.1 hk
    rcases lt_abs.1 m1 with h | h
    · exact ⟨fun _ => by linarith [abs_nonneg (q' - q)], fun _ => by linarith⟩
    · exact ⟨fun _ => by exfalso; linarith, fun _ => by exfalso; linarith [abs_nonneg (q' - q)]⟩
  have e2 : q' < b.arrHigh ↔ q < b.arrHigh := by
    have := abs_le.1 hk
    rcases lt_abs.1 m2 with h | h
    · exact ⟨fun _ => by exfalso; linarith, fun _ => by exfalso; linarith [abs_nonneg (q' - q)]⟩
    · exact ⟨fun _ => by linarith [abs_nonneg (q' - q)], fun _ => by linarith⟩
  have e3 : ∀ x, Tech.buyArrival b x (.fin q') = Tech.buyArrival b x (.fin q) := by
    intro x
    unfold Tech.buyArrival
    simp only [XF.lt_fin, e1, e2]
  simp only [e3]

/-! ### Concrete cases -/

private def strat : Tech.BarArrival ℚ := ⟨70, 30, 1 / 2, -1 / 2, 1, 3, 60⟩
private def stratUp : Tech.BarArrival ℚ := ⟨70, 30, 1 / 2, 0, 1, 3, 60⟩
private def times : List ℤ := [0, 10, 27, 50, 57]
private theorem times_inc : ∀ k, k + 1 < times.length → times.getD k 0 ≤ times.getD (k + 1) 0 :=
  fun k hk => (by decide +kernel : ∀ k < 4, times.getD k 0 ≤ times.getD (k + 1) 0) k (by have : times.length = 5 := rfl; omega)
private def rsis : List (XF ℚ) := [.nan, .fin 50, .fin (101 / 2), .fin 60, .fin 40]

/-- Here the two averages of the bars move, and the first three signals are missing. -/
example : Rd.barArrivalRsi (roundBits 53) strat times rsis = [.fin 0, .fin 0, .fin 0, .fin 1, .fin 1] := by decide +kernel

/-- The hypotheses of `C139_arrival_direction` hold and the mean time between bars has risen: 23 against 50/3. -/
example : (gapMean (K := ℚ) 3 (fun k => times.getD k 0) 3 < gapMean 1 (fun k => times.getD k 0) 3) :=
  (C139_arrival_direction 53 (by norm_num) stratUp (by decide) (by decide) (by norm_num [stratUp]) times times_inc
    (by decide +kernel) rsis 3 (by decide +kernel)).1 (by norm_num [stratUp])

/-- Bars every 10 ns: signals wherever the indicator is between 30 and 70. -/
example : (Rd.barArrivalRsi (roundBits 53) strat ((List.range 5).map fun k : ℕ => (7 : ℤ) + k * 10) rsis)[4]? = some (.fin 1) :=
  (C139_steady 53 (by norm_num) strat (by decide) (by decide) (by norm_num [strat]) 7 10 (by norm_num) (by decide) rsis 4).2
    ⟨by decide, by decide, by decide, by norm_num [strat], by norm_num [strat], .fin 40, rfl, by decide +kernel, by decide +kernel⟩

/-- In double precision the signal at the fourth bar is the exact one. -/
example : (Rd.barArrivalRsi (roundBits 53) strat times rsis)[3]? = some (.fin 1) ↔ (Rd.barArrivalRsi id strat times rsis)[3]? = some (.fin 1) :=
  C139_arrival_margin 53 (by norm_num) strat (by decide) (by decide) (by norm_num [strat]) times times_inc (by decide +kernel)
    rsis 3 23 (by decide +kernel) (by decide +kernel) (by decide +kernel) (by decide +kernel) (by decide +kernel)

private def low : List (XF ℚ) := [.nan, .fin 20, .fin (81 / 4), .fin 21, .fin (45 / 2)]

/-- A rising indicator below 30 is confirmed, and the margin holds. -/
example : (Rd.rsiConfirmation (roundBits 53) 30 2 2 low)[4]? = (Rd.rsiConfirmation id 30 2 2 low)[4]? :=
  C139_confirmation_margin 53 (by norm_num) 30 2 2 (by norm_num) low 30 (by norm_num) (by decide +kernel) 4 (by decide) (by norm_num)
    (by
      intro _ a b ha hb
      cases ha
      cases hb
      norm_num)
example : Rd.rsiConfirmation (roundBits 53) 30 2 2 low = [.fin 0, .fin 0, .fin 0, .fin 1, .fin 1] := by decide +kernel

private theorem low_ticks : Ticks (-2) 90 low := by
  intro x hx
  simp only [low, List.mem_cons, List.not_mem_nil, or_false] at hx
  rcases hx with rfl | rfl | rfl | rfl | rfl
  · exact ⟨0, by norm_num [XF.toK], by norm_num⟩
  · exact ⟨80, by norm_num [XF.toK], by norm_num⟩
  · exact ⟨81, by norm_num [XF.toK], by norm_num⟩
  · exact ⟨84, by norm_num [XF.toK], by norm_num⟩
  · exact ⟨90, by norm_num [XF.toK], by norm_num⟩

/-- Quarters: all signals are exact already with 11 bits. -/
example : Rd.rsiConfirmation (roundBits 11) 30 2 2 low = Rd.rsiConfirmation id 30 2 2 low :=
  C139_confirmation_ticks 11 (by norm_num) (-2) 90 30 2 2 (by norm_num) low low_ticks (by norm_num)
example : (Rd.rsiConfirmation id 30 2 2 low)[4]? = some (.fin 1) :=
  C139_confirmation_grid 53 (by norm_num) (-2) 30 2 2 (by norm_num) low (ticks_onGrid low_ticks (by norm_num)) 4 (by decide +kernel)

private def bars : Frame ℚ := { cols := ["close"], rows := times.map fun t => (t, [.fin 1]) }
example : Tech.rsiConfirmation (fun _ => .ok low) 30 2 2 bars = .ok (Rd.rsiConfirmation id 30 2 2 low) ∧
    Tech.barArrivalRsi (fun _ => .ok low) strat bars = .ok (Rd.barArrivalRsi id strat bars.index low) :=
  C139_exact (fun _ => .ok low) bars low rfl rfl 30 2 2 (by norm_num) strat (by decide) (by decide)

end Mizar.Props
