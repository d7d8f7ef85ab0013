import Verif.Lemmas.RoundedReturns
import Verif.Props.SampleWeights
import Verif.Props.RoundedFlat

/-! Property theorems C138: sample weights by return in floating point. -/

namespace Mizar.Props
open Mizar.Spec Mizar.Rd

/-- C138: with the identity as rounding, the exact logarithm and the exact sum the rounded model is the model of C42. -/
theorem C138_exact (X : List (ℤ × Option ℤ × XF ℝ)) :
    weightsByReturnsR id Real.log List.sum X = SW.weightsByReturns (X.map fun x => ⟨x.1, x.2.1, x.2.2⟩) := by
  have hid : ∀ x : XF ℝ, rnd id x = x := fun x => by cases x <;> rfl
  have hlog : logR Real.log = XF.log := by funext z; cases z <;> rfl
  have hd : ∀ l : List (XF ℝ), diffR id l = pdDiff l := by
    intro l
    rw [diffR, show rnd id = (id : XF ℝ → XF ℝ) from funext hid, List.map_id]
  have hc : ∀ b e : List ℤ, ∀ c l : List (XF ℝ), calculateWeightsR id List.sum b e c l = SW.calculateWeights b e c l := by
    intro b e c l
    rw [calculateWeightsR, SW.calculateWeights]
    simp only [hid, nansumR_sum]
  unfold weightsByReturnsR SW.weightsByReturns
  simp only [List.map_map, hlog, hd, hc]
  rfl

section
variable {K : Type} [Field K] [LinearOrder K] [IsStrictOrderedRing K]

/-- C138: for events that do not all coincide, with ends not before starts and positive or missing prices, every event has a weight,
in the order of the rows: the absolute value of the sum of the rounded quotients of the rounded returns in its life span and the
numbers of live events; missing returns are left out. -/
theorem C138_weights (r lg : K → K) (sm : List K → K) (ev : List (ℤ × ℤ)) (close : List (Option K)) (hlen : close.length = ev.length)
    (hpos : ∀ c, some c ∈ close → 0 < c) (hse : ∀ e ∈ ev, e.1 ≤ e.2) (hdiff : ∃ e ∈ ev, ∃ e' ∈ ev, e ≠ e') :
    weightsByReturnsR r lg sm (rowsOf ev close) = .ok (ev.map fun e => (e.1, .fin |sm (spanTerms r lg ev close e)|)) := by
  have hne : ev ≠ [] := by
    obtain ⟨e, he, _⟩ := hdiff
    exact List.ne_nil_of_mem he
  obtain ⟨m, hm⟩ := (C12_returns_iff_partial ev (ev.map (·.1)) hne hse).1.2 hdiff
  have hm' := SW.matrix_of_ok (ev := ev) hm
  subst hm'
  have fstM : ∀ {β : Type} (f : ℤ × Option ℤ × XF K → β) (g : ℤ × ℤ → β), (∀ (e : ℤ × ℤ) c, f (e.1, some e.2, c) = g e) →
      (rowsOf ev close).map f = ev.map g := by
    intro β f g hf
    unfold rowsOf
    rw [List.map_zipWith]
    apply List.ext_getElem
    · simp [hlen]
    · intro i h1 h2
      simp [hf]
  have e6 : (rowsOf ev close).map (fun x => logR lg x.2.2) =
      close.map fun c => logR lg (match c with | some x => .fin x | none => .nan) := by
    unfold rowsOf
    rw [List.map_zipWith]
    apply List.ext_getElem
    · simp [hlen]
    · intro i h1 h2
      simp only [List.getElem_zipWith, List.getElem_map]
      cases close[i]'(by simpa using h2) <;> rfl
  have e1 := fstM (fun r => (some r.1, r.2.1)) (fun e => (some e.1, some e.2)) (fun _ _ => rfl)
  have e2 := fstM (fun r => r.1) (fun e => e.1) (fun _ _ => rfl)
  have e3 := fstM (fun r => Lab.convertToTimestamp (some r.1)) (fun e => e.1 / 1000000) (fun _ _ => by simp [Lab.convertToTimestamp])
  have e4 := fstM (fun r => Lab.convertToTimestamp r.2.1) (fun e => e.2 / 1000000) (fun _ _ => by simp [Lab.convertToTimestamp])
  have e5 := fstM (fun r => XF.fin (Boot.rowSum (Boot.rawMatrix ev (ev.map (fun e => e.1)))
      ((Boot.barIndex ev (ev.map (fun e => e.1))).idxOf r.1) : K)) (fun e => XF.fin (Boot.rowSum (Boot.rawMatrix ev (ev.map (fun e => e.1)))
      ((Boot.barIndex ev (ev.map (fun e => e.1))).idxOf e.1) : K)) (fun _ _ => by simp only)
  unfold weightsByReturnsR
  rw [e1, e2, hm]
  simp only
  have e7 := (congrArg (diffR r) e6).trans (retsR_eq r lg close hpos)
  rw [e3, e4, e5, e7]
  have hconc : (ev.map fun e => XF.fin (Boot.rowSum (Boot.rawMatrix ev (ev.map (·.1)))
      ((Boot.barIndex ev (ev.map (·.1))).idxOf e.1) : K)) = ev.map fun e => XF.fin (aliveAt ev e.1 : K) := by
    apply List.map_congr_left
    intro e he
    rw [SW.rowSum_idxOf ev _ _ ⟨e, he, rfl⟩]
  rw [hconc]
  rw [SW.map_eq_range ev (0, 0) (fun e => e.1 / 1000000), SW.map_eq_range ev (0, 0) (fun e => e.2 / 1000000),
    SW.map_eq_range ev (0, 0) (fun e => XF.fin (aliveAt ev e.1 : K)), SW.map_eq_range ev (0, 0) (·.1),
    SW.map_eq_range ev (0, 0) (fun e => (e.1, XF.fin |sm (spanTerms r lg ev close e)|)), hlen, calcR_formula, SW.zip_range]
  · congr 1
    apply List.map_congr_left
    intro k _
    congr 4
    unfold spanTerms
    congr 1
    apply List.filter_congr
    intro j _
    simp [InSpan]
  · intro k hk
    have hmem : ev.getD k (0, 0) ∈ ev := by
      rw [List.getD_eq_getElem _ _ hk]; exact List.getElem_mem hk
    have := SW.aliveAt_pos ev _ hmem (hse _ hmem)
    positivity

/-- C138: if the prices in the life span of an event, and the price before it, are all the same, its weight is exactly 0, whatever the
logarithm and the order of the additions. -/
theorem C138_flat (r lg : K → K) (h0 : r 0 = 0) (sm : List K → K) (d : ℕ) (ev : List (ℤ × ℤ)) (hsm : Adds r ev.length d sm)
    (close : List (Option K)) (hlen : close.length = ev.length) (hpos : ∀ c, some c ∈ close → 0 < c) (hse : ∀ e ∈ ev, e.1 ≤ e.2)
    (hdiff : ∃ e ∈ ev, ∃ e' ∈ ev, e ≠ e') (i : ℕ) (hi : i < ev.length)
    (hf : ∀ k < ev.length, InSpan ev ev[i] k → ∀ a b, close.getD k none = some b → close.getD (k - 1) none = some a → a = b) :
    ∃ s, weightsByReturnsR r lg sm (rowsOf ev close) = .ok s ∧ s[i]? = some (ev[i].1, .fin 0) := by
  refine ⟨_, C138_weights r lg sm ev close hlen hpos hse hdiff, ?_⟩
  rw [List.getElem?_map, List.getElem?_eq_getElem hi, Option.map_some]
  have hz : ∀ x ∈ spanTerms r lg ev close ev[i], x = 0 := by
    intro x hx
    obtain ⟨k, hk, hx⟩ := List.mem_filterMap.1 hx
    obtain ⟨hk1, hk2⟩ := List.mem_filter.1 hk
    obtain ⟨y, hy, rfl⟩ := Option.map_eq_some_iff.1 hx
    unfold logRetR at hy
    by_cases hk0 : k = 0
    · rw [if_pos hk0] at hy; cases hy
    · rw [if_neg hk0] at hy
      have h := hf k (List.mem_range.1 hk1) (by simpa using hk2)
      cases e1 : close.getD k none with
      | none => rw [e1] at hy; cases hy
      | some b =>
        cases e2 : close.getD (k - 1) none with
        | none => rw [e1, e2] at hy; cases hy
        | some a =>
          rw [e1, e2] at hy
          rw [h a b e1 e2] at hy
          simp only [sub_self, h0, Option.some.injEq] at hy
          rw [← hy, zero_div, h0]
  have hs : sm (spanTerms r lg ev close ev[i]) = 0 := by
    by_cases hn : spanTerms r lg ev close ev[i] = []
    · rw [hn, hsm.1]
    · have hl : (spanTerms r lg ev close ev[i]).length ≤ ev.length := by
        refine (List.length_filterMap_le _ _).trans ((List.length_filter_le _ _).trans ?_)
        simp
      obtain ⟨t, h1, -, h3⟩ := hsm.2 _ hn hl
      rw [h3]
      exact eval_zero h0 t fun x hx => hz x (h1.mem_iff.1 hx)
  rw [hs, abs_zero]

/-- C138: prices outside the life span do not matter in floating point either, except the one just before its first bar. -/
theorem C138_local (r lg : K → K) (sm : List K → K) (ev : List (ℤ × ℤ)) (close close' : List (Option K))
    (hlen : close.length = ev.length) (hlen' : close'.length = ev.length) (hpos : ∀ c, some c ∈ close → 0 < c)
    (hpos' : ∀ c, some c ∈ close' → 0 < c) (hse : ∀ e ∈ ev, e.1 ≤ e.2) (hdiff : ∃ e ∈ ev, ∃ e' ∈ ev, e ≠ e') (i : ℕ)
    (hi : i < ev.length) (h : ∀ k < ev.length, InSpan ev ev[i] k →
      close.getD k none = close'.getD k none ∧ close.getD (k - 1) none = close'.getD (k - 1) none) :
    ∃ s s', weightsByReturnsR r lg sm (rowsOf ev close) = .ok s ∧ weightsByReturnsR r lg sm (rowsOf ev close') = .ok s' ∧
      s[i]? = s'[i]? ∧ s[i]?.isSome := by
  refine ⟨_, _, C138_weights r lg sm ev close hlen hpos hse hdiff, C138_weights r lg sm ev close' hlen' hpos' hse hdiff, ?_, by simp [hi]⟩
  rw [List.getElem?_map, List.getElem?_map, List.getElem?_eq_getElem hi, Option.map_some, Option.map_some]
  congr 5
  unfold spanTerms
  apply List.filterMap_congr
  intro k hk
  obtain ⟨hk1, hk2⟩ := List.mem_filter.1 hk
  obtain ⟨h1, h2⟩ := h k (List.mem_range.1 hk1) (by simpa using hk2)
  unfold logRetR
  rw [h1, h2]

end

/-- C138: a missing end raises in floating point too, and the weights that there are are never negative. -/
theorem C138_sign (r lg : ℚ → ℚ) (sm : List ℚ → ℚ) (X : List (ℤ × Option ℤ × XF ℚ)) :
    ((∃ x ∈ X, x.2.1 = none) → weightsByReturnsR r lg sm X = .error .valueError) ∧
    ∀ s, weightsByReturnsR r lg sm X = .ok s → s.map (·.1) = X.map (·.1) ∧ ∀ w ∈ s, w.2 = .nan ∨ w.2 = .pinf ∨ ∃ q, w.2 = .fin q ∧ 0 ≤ q := by
  constructor
  · rintro ⟨x, hx, h⟩
    unfold weightsByReturnsR
    rw [C12_missing_times_raise]
    exact ⟨_, List.mem_map.2 ⟨x, hx, rfl⟩, Or.inr h⟩
  · intro s hs
    unfold weightsByReturnsR at hs
    split at hs
    · cases hs
    · rename_i M bi _
      cases hs
      have hlen : ∀ b e : List ℤ, ∀ c l : List (XF ℚ), b.length = e.length → (calculateWeightsR r sm b e c l).length = b.length := by
        intro b e c l h
        simp [calculateWeightsR, h]
      refine ⟨?_, ?_⟩
      · rw [List.map_fst_zip]
        rw [hlen _ _ _ _ (by simp)]
        simp
      · intro w hw
        have h2 := (List.of_mem_zip hw).2
        rw [calculateWeightsR] at h2
        obtain ⟨q, -, hq⟩ := List.mem_map.1 h2
        rw [← hq]
        generalize nansumR sm _ = v
        cases v with
        | nan => exact .inl rfl
        | pinf => exact .inr (.inl rfl)
        | ninf => exact .inr (.inl rfl)
        | fin y => exact .inr (.inr ⟨_, rfl, abs_nonneg _⟩)

private theorem terms_near {f : ℕ → Option ℚ} {g : ℕ → ℝ} {η M : ℝ} (hη : 0 ≤ η) (hM : 0 ≤ M) (L : List ℕ)
    (h : ∀ k ∈ L, (f k = none → g k = 0) ∧ ∀ x, f k = some x → |(x : ℝ) - g k| ≤ η ∧ |(x : ℝ)| ≤ M) :
    |((L.filterMap f).map (fun x : ℚ => (x : ℝ))).sum - (L.map g).sum| ≤ L.length * η ∧
      ((L.filterMap f).map fun x : ℚ => |(x : ℝ)|).sum ≤ L.length * M := by
  induction L with
  | nil => simp
  | cons k L ih =>
    obtain ⟨i1, i2⟩ := ih fun j hj => h j (by simp [hj])
    obtain ⟨h1, h2⟩ := h k (by simp)
    rw [List.filterMap_cons, List.length_cons, List.map_cons (f := g), List.sum_cons]
    push_cast
    cases hk : f k with
    | none =>
      rw [h1 hk, zero_add]
      exact ⟨i1.trans (by linarith), i2.trans (by linarith)⟩
    | some x =>
      obtain ⟨h3, h4⟩ := h2 x hk
      simp only [List.map_cons, List.sum_cons]
      refine ⟨?_, by linarith⟩
      rw [show ∀ a b c d : ℝ, a + b - (c + d) = (a - c) + (b - d) by intros; ring]
      exact (abs_add_le _ _).trans (by linarith)

/-- C138: the weight of an event is off by at most `(9 + 3 d) m T / 2^p`, where `m` is the number of bars in its life span, `T` bounds
the logarithms of the prices and each return goes through at most `d` additions. -/
theorem C138_error (p : ℕ) (hp : 8 ≤ p) (lg : ℚ → ℚ) (hlg : GoodLog p lg) (sm : List ℚ → ℚ) (d : ℕ) (ev : List (ℤ × ℤ))
    (hsm : Adds (roundBits p) ev.length d sm) (hd : 24 * d ≤ 2 ^ p) (close : List (Option ℚ)) (hlen : close.length = ev.length)
    (hpos : ∀ c, some c ∈ close → 0 < c) (hse : ∀ e ∈ ev, e.1 ≤ e.2) (hdiff : ∃ e ∈ ev, ∃ e' ∈ ev, e ≠ e') (T : ℝ)
    (hT0 : 0 ≤ T) (hT : ∀ c, some c ∈ close → |Real.log c| ≤ T) :
    ∃ (v : ℤ × ℤ → ℚ) (w : ℤ × ℤ → ℝ),
      weightsByReturnsR (roundBits p) lg sm (rowsOf ev close) = .ok (ev.map fun e => (e.1, .fin (v e))) ∧
      SW.weightsByReturns (List.zipWith (fun e c => ⟨e.1, some e.2, match c with | some x => .fin (x : ℝ) | none => .nan⟩) ev close) =
        .ok (ev.map fun e => (e.1, .fin (w e))) ∧
      ∀ e ∈ ev, 0 ≤ v e ∧ |(v e : ℝ) - w e| ≤ (9 + 3 * d) * ((List.range ev.length).countP (InSpan ev e ·)) * T / 2 ^ p := by
  obtain ⟨he0, he⟩ := eps_real hp
  have hp1 : 1 ≤ p := by omega
  set closeR : List (Option ℝ) := close.map (Option.map fun x : ℚ => (x : ℝ)) with hcR
  have hposR : ∀ c, some c ∈ closeR → 0 < c := by
    intro c hc
    obtain ⟨o, ho, h⟩ := List.mem_map.1 hc
    obtain ⟨x, rfl, rfl⟩ := Option.map_eq_some_iff.1 h
    exact_mod_cast hpos x ho
  have hfr : SW.frame ev closeR =
      List.zipWith (fun e c => ⟨e.1, some e.2, match c with | some x => .fin (x : ℝ) | none => .nan⟩) ev close := by
    rw [SW.frame, hcR, List.zipWith_map_right]
    congr 1
    funext e c
    cases c <;> rfl
  have hw := SW.weights_formula ev closeR (by simp [hcR, hlen]) hposR hse hdiff
  rw [hfr] at hw
  refine ⟨_, _, C138_weights _ lg sm ev close hlen hpos hse hdiff, hw, fun e _ => ⟨abs_nonneg _, ?_⟩⟩
  set L := (List.range ev.length).filter (InSpan ev e ·) with hL
  have hsum : (∑ k ∈ (Finset.range ev.length).filter fun k =>
          e.1 / 1000000 ≤ (ev.getD k (0, 0)).1 / 1000000 ∧ (ev.getD k (0, 0)).1 / 1000000 ≤ e.2 / 1000000,
        logRet closeR k / (aliveAt ev (ev.getD k (0, 0)).1 : ℝ)) =
      (L.map fun k => logRet closeR k / (aliveAt ev (ev.getD k (0, 0)).1 : ℝ)).sum := by
    rw [← List.sum_toFinset _ ((List.nodup_range).filter _)]
    apply Finset.sum_congr _ fun _ _ => rfl
    ext k
    simp [InSpan]
  rw [hsum]
  have hcnt : (List.range ev.length).countP (InSpan ev e ·) = L.length := by rw [hL, List.countP_eq_length_filter]
  rw [hcnt]
  have hTe : 0 ≤ T * (1 / 2 ^ p) := mul_nonneg hT0 he0.le
  have hgetR : ∀ k, closeR.getD k none = (close.getD k none).map fun x : ℚ => (x : ℝ) := by
    intro k
    simp only [hcR, List.getD_eq_getElem?_getD, List.getElem?_map]
    cases close[k]? <;> rfl
  have hmem : ∀ k c, close.getD k none = some c → some c ∈ close := by
    intro k c hk
    by_cases hkl : k < close.length
    · rw [List.getD_eq_getElem _ _ hkl] at hk
      exact hk ▸ List.getElem_mem hkl
    · rw [List.getD_eq_default _ _ (by omega)] at hk
      cases hk
  obtain ⟨n1, n2⟩ := terms_near (f := fun k => (logRetR (roundBits p) lg close k).map
      fun x => roundBits p (x / (aliveAt ev (ev.getD k (0, 0)).1 : ℚ)))
    (g := fun k => logRet closeR k / (aliveAt ev (ev.getD k (0, 0)).1 : ℝ)) (η := 9 * T * (1 / 2 ^ p)) (M := 21 / 10 * T)
    (by linarith) (by linarith) L (by
      intro k hk
      have hkn := List.mem_range.1 (List.mem_filter.1 hk).1
      have hV : (1 : ℝ) ≤ (aliveAt ev (ev.getD k (0, 0)).1 : ℝ) := by
        have hm : ev.getD k (0, 0) ∈ ev := by
          rw [List.getD_eq_getElem _ _ hkn]; exact List.getElem_mem hkn
        exact_mod_cast SW.aliveAt_pos ev _ hm (hse _ hm)
      unfold logRetR logRet
      rw [hgetR, hgetR]
      by_cases hk0 : k = 0
      · simp [hk0]
      · rw [if_neg hk0, if_neg hk0]
        cases e1 : close.getD k none with
        | none => simp
        | some b =>
          cases e2 : close.getD (k - 1) none with
          | none => simp
          | some a =>
            have hb := hmem _ _ e1
            have ha := hmem _ _ e2
            refine ⟨by simp, fun x hx => ?_⟩
            simp only [Option.map_some, Option.some.injEq] at hx ⊢
            subst hx
            have q1 := round_real hp1 (lg b - lg a)
            have q2 := round_real hp1 (roundBits p (lg b - lg a) / (aliveAt ev (ev.getD k (0, 0)).1 : ℚ))
            have q3 := hlg b (hpos b hb)
            have q4 := hlg a (hpos a ha)
            have t1 := hT b hb
            have t2 := hT a ha
            push_cast at q1 q2
            refine term_near he0 he hT0 t1 t2 (q3.trans ?_) (q4.trans ?_) q1 hV q2
            · rw [div_eq_mul_one_div]
              exact mul_le_mul_of_nonneg_right (by linarith) he0.le
            · rw [div_eq_mul_one_div]
              exact mul_le_mul_of_nonneg_right (by linarith) he0.le)
  change |((spanTerms (roundBits p) lg ev close e).map (fun x : ℚ => (x : ℝ))).sum - _| ≤ _ at n1
  change ((spanTerms (roundBits p) lg ev close e).map fun x : ℚ => |(x : ℝ)|).sum ≤ _ at n2
  have hnum : |((sm (spanTerms (roundBits p) lg ev close e) : ℚ) : ℝ) - ((spanTerms (roundBits p) lg ev close e).map (fun x : ℚ => (x : ℝ))).sum| ≤
      (24 / 23 * (d * (1 / 2 ^ p))) * (L.length * (21 / 10 * T)) := by
    have hR : 0 ≤ (24 / 23 * ((d : ℝ) * (1 / 2 ^ p))) * (L.length * (21 / 10 * T)) := by positivity
    by_cases hn : spanTerms (roundBits p) lg ev close e = []
    · rw [hn, hsm.1]
      simpa using hR
    · have hl : (spanTerms (roundBits p) lg ev close e).length ≤ ev.length := by
        refine (List.length_filterMap_le _ _).trans ((List.length_filter_le _ _).trans ?_)
        simp
      obtain ⟨t, h1, h2, h3⟩ := hsm.2 _ hn hl
      have h4 := eval_error hp1 t
      rw [(h1.map _).sum_eq, (h1.map _).sum_eq] at h4
      rw [h3]
      refine h4.trans ?_
      have hdd : 24 * ((d : ℝ) * (1 / 2 ^ p)) ≤ 1 := by
        have : (24 : ℝ) * d ≤ 2 ^ p := by exact_mod_cast hd
        rw [← mul_assoc, mul_one_div, div_le_one (by positivity)]
        exact this
      have h5 := pow_small he0 he hdd
      have h6 : (1 + 1 / (2 : ℝ) ^ p) ^ t.depth ≤ (1 + 1 / 2 ^ p) ^ d := pow_le_pow_right₀ (by linarith) h2
      have h7 : 0 ≤ ((spanTerms (roundBits p) lg ev close e).map fun x : ℚ => |(x : ℝ)|).sum :=
        List.sum_nonneg (by simp only [List.mem_map]; rintro _ ⟨x, -, rfl⟩; exact abs_nonneg _)
      exact mul_le_mul (by linarith) n2 h7 (by positivity)
  push_cast
  refine (abs_abs_sub_abs_le _ _).trans ?_
  rw [div_eq_mul_one_div (_ * T)]
  generalize (1 : ℝ) / 2 ^ p = ε at *
  have hm0 : 0 ≤ (L.length : ℝ) * (d * (T * ε)) := by positivity
  have := abs_sub_le ((sm (spanTerms (roundBits p) lg ev close e) : ℚ) : ℝ)
    ((spanTerms (roundBits p) lg ev close e).map (fun x : ℚ => (x : ℝ))).sum
    ((L.map fun k => logRet closeR k / (aliveAt ev (ev.getD k (0, 0)).1 : ℝ)).sum)
  refine this.trans ((add_le_add hnum n1).trans ?_)
  linarith

/-- C138: adding up `n + 1` numbers from left to right, each goes through at most `n` additions, so the error grows with the square of
the number of bars at worst. -/
theorem C138_left_to_right {K : Type} [Field K] [LinearOrder K] (r : K → K) (n : ℕ) : Adds r (n + 1) n (sumLeft r) := by
  have key : ∀ (l : List K) (t : AddTree K), ∃ t' : AddTree K, t'.leaves = t.leaves ++ l ∧ t'.depth = t.depth + l.length ∧
      l.foldl (fun a y => r (a + y)) (t.eval r) = t'.eval r := by
    intro l
    induction l with
    | nil => exact fun t => ⟨t, by simp, by simp, rfl⟩
    | cons y l ih =>
      intro t
      obtain ⟨t', h1, h2, h3⟩ := ih (.node t (.leaf y))
      refine ⟨t', by simp [h1, AddTree.leaves], ?_, h3⟩
      rw [h2, AddTree.depth, AddTree.depth, List.length_cons]
      omega
  refine ⟨rfl, fun l hl hn => ?_⟩
  cases l with
  | nil => exact absurd rfl hl
  | cons x l =>
    obtain ⟨t, h1, h2, h3⟩ := key l (.leaf x)
    refine ⟨t, by rw [h1]; rfl, ?_, h3⟩
    rw [h2, AddTree.depth]
    simp only [List.length_cons] at hn
    omega

open Classical in
/-- A logarithm with given values at three numbers. -/
private noncomputable def aLog (x : ℚ) : ℚ :=
  if x = 1 then 0
  else if x = 65 / 64 then 2234388758593785 / 144115188075855872
  else if x = 71 / 64 then 7479347221550435 / 72057594037927936
  else (near_log x).choose

private theorem aLog_good : GoodLog 53 aLog := by
  intro x hx
  rw [aLog]
  split_ifs with h1 h2 h3
  · subst h1
    simp
  · subst h2
    exact log_between (by norm_num) (by norm_num) (by norm_num) (by decide +kernel) (by decide +kernel)
  · subst h3
    exact log_between (by norm_num) (by norm_num) (by norm_num) (by decide +kernel) (by decide +kernel)
  · exact (near_log x).choose_spec hx

/-- A long event and three short ones, a millisecond apart. -/
private def evs : List (ℤ × ℤ) := [(0, 3000000), (1000000, 1000000), (2000000, 2000000), (3000000, 3000000)]

/-- C138: the price can come back to where it was while the numbers of live events stay the same, so that the exact weight is 0, and the
weight in double precision is positive.  The logarithm is off by at most one unit in the last place and exact at 1, the additions go
from left to right. -/
theorem C138_returned_refuted : ∃ lg : ℚ → ℚ, GoodLog 53 lg ∧ lg 1 = 0 ∧ ∃ (ev : List (ℤ × ℤ)) (close : List ℚ) (s : List (ℤ × XF ℚ))
    (s' : List (ℤ × XF ℝ)), (∀ c ∈ close, 0 < c ∧ IsFloat 53 c) ∧ close.head? = close.getLast? ∧
    weightsByReturnsR (roundBits 53) lg (sumLeft (roundBits 53)) (rowsOf ev (close.map some)) = .ok s ∧
    SW.weightsByReturns (List.zipWith (fun e (c : ℚ) => ⟨e.1, some e.2, .fin (c : ℝ)⟩) ev close) = .ok s' ∧
    (∃ q : ℚ, 0 < q ∧ s[0]? = some (0, .fin q)) ∧ s'[0]? = some (0, .fin 0) := by
  have hd : ∃ e ∈ evs, ∃ e' ∈ evs, e ≠ e' := ⟨(0, 3000000), by simp [evs], (1000000, 1000000), by simp [evs], by simp⟩
  have hse : ∀ e ∈ evs, e.1 ≤ e.2 := by decide
  have hposQ : ∀ c, some c ∈ ([1, 65 / 64, 71 / 64, 1] : List ℚ).map some → 0 < c := by
    intro c hc
    simp at hc
    rcases hc with rfl | rfl | rfl | rfl <;> norm_num
  have hw := SW.weights_formula evs ([some 1, some (65 / 64), some (71 / 64), some 1] : List (Option ℝ)) rfl (by
    intro c hc
    simp at hc
    rcases hc with rfl | rfl | rfl | rfl <;> norm_num) hse hd
  have hfr : SW.frame evs ([some 1, some (65 / 64), some (71 / 64), some 1] : List (Option ℝ)) =
      List.zipWith (fun e (c : ℚ) => ⟨e.1, some e.2, .fin (c : ℝ)⟩) evs [1, 65 / 64, 71 / 64, 1] := by
    simp [SW.frame, evs, SW.optPrice]
  rw [hfr] at hw
  refine ⟨aLog, aLog_good, by simp [aLog], evs, [1, 65 / 64, 71 / 64, 1], _, _, ?_, rfl,
    C138_weights _ aLog _ evs _ rfl hposQ hse hd, hw, ?_, ?_⟩
  · intro c hc
    simp only [List.mem_cons, List.not_mem_nil, or_false] at hc
    rcases hc with rfl | rfl | rfl | rfl
    · exact ⟨by norm_num, 1, 0, by norm_num, by norm_num⟩
    · exact ⟨by norm_num, 65, -6, by norm_num, by norm_num⟩
    · exact ⟨by norm_num, 71, -6, by norm_num, by norm_num⟩
    · exact ⟨by norm_num, 1, 0, by norm_num, by norm_num⟩
  · refine ⟨1 / 144115188075855872, by norm_num, ?_⟩
    have l1 : aLog 1 = 0 := by norm_num [aLog]
    have l2 : aLog (65 / 64) = 2234388758593785 / 144115188075855872 := by norm_num [aLog]
    have l3 : aLog (71 / 64) = 7479347221550435 / 72057594037927936 := by norm_num [aLog]
    have ht : spanTerms (roundBits 53) aLog evs (([1, 65 / 64, 71 / 64, 1] : List ℚ).map some) (0, 3000000) =
        [roundBits 53 (roundBits 53 (aLog (65 / 64) - aLog 1) / 2), roundBits 53 (roundBits 53 (aLog (71 / 64) - aLog (65 / 64)) / 2),
          roundBits 53 (roundBits 53 (aLog 1 - aLog (71 / 64)) / 2)] := by
      have h1 : (List.range evs.length).filter (InSpan evs (0, 3000000) ·) = [0, 1, 2, 3] := by decide
      have a1 : aliveAt evs (evs.getD 1 (0, 0)).1 = 2 := by decide
      have a2 : aliveAt evs (evs.getD 2 (0, 0)).1 = 2 := by decide
      have a3 : aliveAt evs (evs.getD 3 (0, 0)).1 = 2 := by decide
      rw [spanTerms, h1]
      simp only [List.getD_eq_getElem?_getD] at a1 a2 a3
      simp [logRetR, a1, a2, a3]
    have he : evs[0]? = some (0, 3000000) := rfl
    rw [List.getElem?_map, he, Option.map_some, ht, l1, l2, l3]
    decide +kernel
  · have h1 : ((Finset.range evs.length).filter fun k => ((0 : ℤ), (3000000 : ℤ)).1 / 1000000 ≤ (evs.getD k (0, 0)).1 / 1000000 ∧
        (evs.getD k (0, 0)).1 / 1000000 ≤ ((0 : ℤ), (3000000 : ℤ)).2 / 1000000) = Finset.range 4 := by decide
    have a1 : aliveAt evs (evs.getD 1 (0, 0)).1 = 2 := by decide
    have a2 : aliveAt evs (evs.getD 2 (0, 0)).1 = 2 := by decide
    have a3 : aliveAt evs (evs.getD 3 (0, 0)).1 = 2 := by decide
    have hs : ∑ k ∈ (Finset.range evs.length).filter (fun k => ((0 : ℤ), (3000000 : ℤ)).1 / 1000000 ≤ (evs.getD k (0, 0)).1 / 1000000 ∧
        (evs.getD k (0, 0)).1 / 1000000 ≤ ((0 : ℤ), (3000000 : ℤ)).2 / 1000000),
        logRet ([some 1, some (65 / 64), some (71 / 64), some 1] : List (Option ℝ)) k / (aliveAt evs (evs.getD k (0, 0)).1 : ℝ) = 0 := by
      rw [h1, Finset.sum_range_succ, Finset.sum_range_succ, Finset.sum_range_succ, Finset.sum_range_succ, Finset.sum_range_zero, a1, a2, a3]
      simp only [logRet]
      simp
      ring
    have he : evs[0]? = some (0, 3000000) := rfl
    rw [List.getElem?_map, he, Option.map_some, hs, abs_zero]

/-- A case of `C138_error` and `C138_weights`: the events and prices above, added up from left to right. -/
example : ∃ (v : ℤ × ℤ → ℚ) (w : ℤ × ℤ → ℝ),
    weightsByReturnsR (roundBits 53) aLog (sumLeft (roundBits 53)) (rowsOf evs (([1, 65 / 64, 71 / 64, 1] : List ℚ).map some)) =
      .ok (evs.map fun e => (e.1, .fin (v e))) ∧ 0 ≤ v (0, 3000000) ∧ |(v (0, 3000000) : ℝ) - w (0, 3000000)| ≤ (9 + 3 * 3) * 4 * 1 / 2 ^ 53 := by
  obtain ⟨v, w, h1, -, h3⟩ := C138_error 53 (by norm_num) aLog aLog_good (sumLeft (roundBits 53)) 3 evs (C138_left_to_right _ 3) (by norm_num)
    (([1, 65 / 64, 71 / 64, 1] : List ℚ).map some) rfl (by
      intro c hc
      simp at hc
      rcases hc with rfl | rfl | rfl | rfl <;> norm_num) (by decide) ⟨(0, 3000000), by simp [evs], (1000000, 1000000), by simp [evs], by simp⟩ 1
    (by norm_num) (by
      have key : ∀ c : ℝ, 1 ≤ c → c ≤ 2 → |Real.log c| ≤ 1 := by
        intro c h1 h2
        rw [abs_of_nonneg (Real.log_nonneg h1)]
        have := Real.log_le_sub_one_of_pos (show 0 < c by linarith)
        linarith
      intro c hc
      simp at hc
      rcases hc with rfl | rfl | rfl | rfl <;> exact key _ (by norm_num) (by norm_num))
  obtain ⟨h4, h5⟩ := h3 (0, 3000000) (by simp [evs])
  refine ⟨v, w, h1, h4, ?_⟩
  have hc : (List.range evs.length).countP (InSpan evs (0, 3000000) ·) = 4 := by decide
  rw [hc] at h5
  exact_mod_cast h5

/-- A case of `C138_flat`: the price moves before the second event starts and not during it, and one price is missing. -/
example (lg : ℚ → ℚ) : ∃ s, weightsByReturnsR (roundBits 53) lg (sumLeft (roundBits 53))
    (rowsOf [(0, 0), (1000000, 1000000), (2000000, 4000000), (3000000, 3000000), (4000000, 9000000)] [some 1, some 3, some 3, none, some 3]) = .ok s ∧
    s[2]? = some (2000000, .fin 0) := by
  refine C138_flat (roundBits 53) lg (roundBits_zero 53) _ 4 [(0, 0), (1000000, 1000000), (2000000, 4000000), (3000000, 3000000), (4000000, 9000000)]
    (C138_left_to_right _ 4) _ rfl ?_ (by decide) ⟨(0, 0), by simp, (1000000, 1000000), by simp, by simp⟩ 2 (by simp) ?_
  · intro c hc
    simp at hc
    rcases hc with rfl | rfl | rfl | rfl <;> norm_num
  · intro k hk hs a b hb ha
    simp only [List.length_cons, List.length_nil] at hk
    interval_cases k
    · exact absurd hs (by decide)
    · exact absurd hs (by decide)
    · cases hb; cases ha; rfl
    · cases hb
    · cases ha

/-- A case of `C138_local`: another price before and after the second event. -/
example (r lg : ℚ → ℚ) (sm : List ℚ → ℚ) : ∃ s s',
    weightsByReturnsR r lg sm (rowsOf [(0, 0), (1000000, 1000000), (2000000, 2000000), (3000000, 3000000)] [some 1, some 3, some 4, some 5]) = .ok s ∧
    weightsByReturnsR r lg sm (rowsOf [(0, 0), (1000000, 1000000), (2000000, 2000000), (3000000, 3000000)] [some 8, some 3, some 4, none]) = .ok s' ∧
    s[2]? = s'[2]? ∧ s[2]?.isSome := by
  refine C138_local r lg sm [(0, 0), (1000000, 1000000), (2000000, 2000000), (3000000, 3000000)] _ _ rfl rfl ?_ ?_ (by decide)
    ⟨(0, 0), by simp, (1000000, 1000000), by simp, by simp⟩ 2 (by simp) ?_
  · intro c hc
    simp at hc
    rcases hc with rfl | rfl | rfl | rfl <;> norm_num
  · intro c hc
    simp at hc
    rcases hc with rfl | rfl | rfl <;> norm_num
  · intro k hk hs
    simp only [List.length_cons, List.length_nil] at hk
    interval_cases k
    · exact absurd hs (by decide)
    · exact absurd hs (by decide)
    · exact ⟨rfl, rfl⟩
    · exact absurd hs (by decide)

end Mizar.Props
