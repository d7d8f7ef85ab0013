import Verif.Lemmas.DoubleReturns
import Verif.Props.RoundedWeights
import Verif.Props.RoundedReturns

/-! Property theorems C155: average uniqueness and sample weights in `float64` with underflow and overflow. -/

namespace Mizar.Props
open Mizar.Spec Mizar.Rd Mizar.Boot

/-- `float64` and `float32` are formats to which the theorems below apply. -/
theorem C155_formats : (binary64.Deep ∧ -binary64.emin ≤ 2 ^ binary64.p ∧ binary64.emax ≤ 2 ^ binary64.p) ∧
    binary32.Deep ∧ -binary32.emin ≤ 2 ^ binary32.p ∧ binary32.emax ≤ 2 ^ binary32.p :=
  ⟨⟨⟨by decide, by decide, by decide, by decide⟩, by decide, by decide⟩, ⟨by decide, by decide, by decide, by decide⟩, by decide, by decide⟩

/-- C155: the average uniqueness of a sample with bars is a finite number in `(0, 1]`, the one of C102; it is 1 exactly if no other
sample covers a bar of it, and its relative error is that of C102. -/
theorem C155_uniqueness (f : Fmt) (D : f.Deep) (M : IndMat) (j : ℕ) (hj : j < M.nCols) (hN : M.nCols ≤ 2 ^ f.p)
    (hb : (barsOf M j).Nonempty) (hk : 2 * (barsOf M j).card ≤ 2 ^ f.p) :
    ∃ u : ℚ, averageUniquenessD f.float M j = .fin u ∧ u = Rd.averageUniqueness (roundBits f.p) M j ∧ 0 < u ∧ u ≤ 1 ∧
      (u = 1 ↔ ∀ t ∈ barsOf M j, samplesAt M t = {j}) ∧
      (1 - 1 / 2 ^ f.p) ^ ((barsOf M j).card + 2) * avgUniq M j ≤ u ∧ u ≤ (1 + 1 / 2 ^ f.p) ^ ((barsOf M j).card + 2) * avgUniq M j := by
  have hp := D.one_le
  have hc : (barsOf M j).card < 2 ^ f.p := by have := Finset.card_pos.2 hb; omega
  obtain ⟨h1, h2, h3⟩ := C102_range f.p hp M j hj hb hk
  obtain ⟨h4, h5⟩ := C102_error f.p hp M j hj hb
  exact ⟨_, (averageUniquenessD_eq f D M j hj hN hb hc).1, rfl, h1, h2, h3, h4, h5⟩

/-- C155: the average uniqueness of a sample without bars is missing. -/
theorem C155_no_bars (g : ℚ → XF ℚ) (M : IndMat) (j : ℕ) (hb : barsOf M j = ∅) : averageUniquenessD g M j = .nan := by
  have h : colRows M j = [] := by
    rw [← List.length_eq_zero_iff, colRows_length, hb, Finset.card_empty]
  rw [averageUniquenessD, h]
  simp [sumD, XF.div, XF.rounded, XF.infSign]

/-- The average uniqueness of given samples, as a list. -/
private theorem uniq_list (f : Fmt) (D : f.Deep) (M : IndMat) (hN : M.nCols ≤ 2 ^ f.p) (js : List ℕ)
    (hjs : ∀ j ∈ js, j < M.nCols ∧ (barsOf M j).Nonempty ∧ 2 * (barsOf M j).card ≤ 2 ^ f.p) :
    js.map (averageUniquenessD f.float M) = (js.map (Rd.averageUniqueness (roundBits f.p) M)).map XF.fin ∧
    ∀ x ∈ js.map (Rd.averageUniqueness (roundBits f.p) M), IsFloat f.p x ∧ (2 : ℚ) ^ (-3 * (f.p : ℤ) + 1) ≤ x ∧ x ≤ 1 := by
  have hc : ∀ j ∈ js, (barsOf M j).card < 2 ^ f.p := fun j hj => by
    obtain ⟨-, h1, h2⟩ := hjs j hj
    have := Finset.card_pos.2 h1
    omega
  constructor
  · rw [List.map_map]
    apply List.map_congr_left
    intro j hj
    obtain ⟨h0, h1, h2⟩ := hjs j hj
    exact (averageUniquenessD_eq f D M j h0 hN h1 (hc j hj)).1
  · intro x hx
    obtain ⟨j, hj, rfl⟩ := List.mem_map.1 hx
    obtain ⟨h0, h1, h2⟩ := hjs j hj
    exact ⟨isFloat_roundBits f.p D.one_le _, (averageUniquenessD_eq f D M j h0 hN h1 (hc j hj)).2,
      (C102_range f.p D.one_le M j h0 h1 h2).2.1⟩

/-- C155: for a minimum weight above -1 and up to 1 and fewer than `2^p` samples with bars, in whatever order, the time-decay weights are
finite and those of C103: nothing underflows or overflows. -/
theorem C155_decay_same (f : Fmt) (D : f.Deep) (c : ℚ) (hc : f.Has c) (c1 : -1 < c) (c2 : c ≤ 1) (M : IndMat) (hN : M.nCols ≤ 2 ^ f.p)
    (js : List ℕ) (hlen : js.length < 2 ^ f.p)
    (hjs : ∀ j ∈ js, j < M.nCols ∧ (barsOf M j).Nonempty ∧ 2 * (barsOf M j).card ≤ 2 ^ f.p) :
    timeDecayD f.float c (js.map (averageUniquenessD f.float M)) =
      (Rd.timeDecay (roundBits f.p) c (js.map (Rd.averageUniqueness (roundBits f.p) M))).map (List.map XF.fin) := by
  obtain ⟨e1, e2⟩ := uniq_list f D M hN js hjs
  rw [e1]
  generalize hu : js.map (Rd.averageUniqueness (roundBits f.p) M) = u at e2
  have hl : u.length < 2 ^ f.p := by rw [← hu, List.length_map]; exact hlen
  obtain ⟨s1, s2⟩ := cumsumD_eq f D u e2 0 0 le_rfl (by simp) (OnUnit.zero _) (by omega)
  unfold timeDecayD Rd.timeDecay
  rw [s1]
  generalize Rd.cumsum (roundBits f.p) 0 u = cs at s2
  cases h : cs.getLast? with
  | none => rw [List.getLast?_map, h]; rfl
  | some last =>
    rw [List.getLast?_map, h]
    simp only [Option.map_some, List.map_map]
    congr 1
    apply List.map_congr_left
    intro x hx
    obtain ⟨l1, l2⟩ := s2 last (List.mem_of_getLast? h)
    obtain ⟨x1, x2⟩ := s2 x hx
    exact decayD_eq f D hc.isFloat hc.onUnit c1 c2 l1 l2 x1 x2

/-- C155: for minimum weights from just above -1 up to 1 the time-decay weights are finite numbers in `[0, 1]`, as many as there are
samples, not decreasing, the last exactly 1; positive for `c ≥ 0` and all 1 for `c = 1`. -/
theorem C155_decay (f : Fmt) (D : f.Deep) (c : ℚ) (hc : f.Has c) (c1 : -1 + 8 / 2 ^ f.p ≤ c) (c2 : c ≤ 1) (M : IndMat)
    (hN : M.nCols ≤ 2 ^ f.p) (js : List ℕ) (hne : js ≠ []) (hlen : js.length < 2 ^ f.p)
    (hjs : ∀ j ∈ js, j < M.nCols ∧ (barsOf M j).Nonempty ∧ 2 * (barsOf M j).card ≤ 2 ^ f.p) :
    ∃ w : List ℚ, timeDecayD f.float c (js.map (averageUniquenessD f.float M)) = some (w.map XF.fin) ∧ w.length = js.length ∧
      w.Pairwise (· ≤ ·) ∧ (∀ x ∈ w, 0 ≤ x ∧ x ≤ 1) ∧ w.getLast? = some 1 ∧ (0 ≤ c → ∀ x ∈ w, 0 < x) ∧ (c = 1 → ∀ x ∈ w, x = 1) := by
  have h8 : (0 : ℚ) < 8 / 2 ^ f.p := by positivity
  obtain ⟨w, h1, h2, h3⟩ := C103_decay f.p D.p c c1 c2 (js.map (Rd.averageUniqueness (roundBits f.p) M)) (by
    intro x hx
    exact lt_of_lt_of_le (two_zpow_pos _) ((uniq_list f D M hN js hjs).2 x hx).2.1) (by simpa using hne)
  refine ⟨w, ?_, by rw [h2, List.length_map], h3⟩
  rw [C155_decay_same f D c hc (by linarith) c2 M hN js hlen hjs, h1]
  rfl

/-- C155: for the minimum weight -1, which is accepted, all weights are missing. -/
theorem C155_minus_one_refuted (f : Fmt) (D : f.Deep) (M : IndMat) (hN : M.nCols ≤ 2 ^ f.p) (js : List ℕ) (hne : js ≠ []) (hlen : js.length < 2 ^ f.p)
    (hjs : ∀ j ∈ js, j < M.nCols ∧ (barsOf M j).Nonempty ∧ 2 * (barsOf M j).card ≤ 2 ^ f.p) :
    timeDecayD f.float (-1) (js.map (averageUniquenessD f.float M)) = some (js.map fun _ => .nan) := by
  obtain ⟨e1, e2⟩ := uniq_list f D M hN js hjs
  rw [e1]
  have hl : (js.map (Rd.averageUniqueness (roundBits f.p) M)).length < 2 ^ f.p := by rw [List.length_map]; exact hlen
  obtain ⟨s1, s2⟩ := cumsumD_eq f D _ e2 0 0 le_rfl (by simp) (OnUnit.zero _) (by omega)
  have hcl := Rd.cumsum_length (roundBits f.p) (js.map (Rd.averageUniqueness (roundBits f.p) M)) 0
  unfold timeDecayD
  rw [s1]
  generalize Rd.cumsum (roundBits f.p) 0 (js.map (Rd.averageUniqueness (roundBits f.p) M)) = cs at s2 hcl
  have hcs : cs ≠ [] := by
    rintro rfl
    rw [List.length_nil, List.length_map] at hcl
    exact hne (List.length_eq_zero_iff.1 hcl.symm)
  have key : ∀ last ∈ cs, ∀ x ∈ cs, decayD f.float (-1) (.fin last) (.fin x) = .nan := by
    intro last hl x hx
    have l0 := lt_of_lt_of_le (two_zpow_pos _) (s2 last hl).1
    have x0 := lt_of_lt_of_le (two_zpow_pos _) (s2 x hx).1
    have z : f.float 0 = .fin 0 := by
      have := f.float_mid D.roomy (q := 0) (.inr (OnUnit.zero _)) (by rw [abs_zero]; exact (two_zpow_pos _).le)
      rw [this, roundBits_zero]
    have a1 : XF.mul (.fin 0) (.fin last) = .fin 0 := by simp [XF.mul]
    have a2 : XF.div (.fin (1 : ℚ)) (.fin 0) = .pinf := by simp [XF.div, XF.infSign]
    have a3 : XF.mul .pinf (.fin last) = .pinf := by simp [XF.mul, XF.infSign, l0]
    have a4 : XF.mul .pinf (.fin x) = .pinf := by simp [XF.mul, XF.infSign, x0]
    have hc : ¬ (0 : ℚ) ≤ -1 := by norm_num
    unfold decayD
    simp only [if_neg hc, show (-1 : ℚ) + 1 = 0 by norm_num, z, a1, XF.rounded, a2, a3, a4]
    rfl
  rw [List.getLast?_map, List.getLast?_eq_some_getLast hcs]
  simp only [Option.map_some, List.map_map]
  congr 1
  rw [List.map_congr_left (f := decayD f.float (-1) (XF.fin (cs.getLast hcs)) ∘ XF.fin) (g := fun _ => XF.nan)
    fun x hx => key _ (List.getLast_mem hcs) x hx, List.map_const', List.map_const', hcl, List.length_map]

/-- C155: correctly rounded logarithms exist. -/
theorem C155_log (p : ℕ) (hp : 1 ≤ p) : ∃ lg : ℚ → ℚ, GoodLog p lg ∧ ∀ c, IsFloat p (lg c) := by
  have he0 : (0 : ℝ) < 1 / 2 ^ p := by positivity
  have hex : ∀ c : ℚ, ∃ v : ℚ, |(v : ℝ) - Real.log c| ≤ |Real.log c| * (1 / 2 ^ p / 2) := by
    intro c
    by_cases h : Real.log c = 0
    · exact ⟨0, by simp [h]⟩
    · have hpos : 0 < |Real.log c| * (1 / 2 ^ p / 2) := mul_pos (abs_pos.2 h) (by positivity)
      obtain ⟨v, h1, h2⟩ := exists_rat_btwn (show Real.log c < Real.log c + |Real.log c| * (1 / 2 ^ p / 2) by linarith)
      exact ⟨v, by rw [abs_of_pos (by linarith)]; linarith⟩
  choose v hv using hex
  refine ⟨fun c => roundBits p (v c), fun c _ => ?_, fun c => isFloat_roundBits p hp _⟩
  have h1 := round_real hp (v c)
  have h2 := hv c
  have h3 := abs_sub_abs_le_abs_sub (v c : ℝ) (Real.log c)
  have h4 := abs_sub_le ((roundBits p (v c) : ℚ) : ℝ) (v c) (Real.log c)
  have he1 : (1 : ℝ) / 2 ^ p ≤ 1 / 2 := by
    refine one_div_le_one_div_of_le (by norm_num) ?_
    calc (2 : ℝ) = 2 ^ 1 := by norm_num
      _ ≤ 2 ^ p := pow_le_pow_right₀ (by norm_num) hp
  have hL := abs_nonneg (Real.log c)
  rw [show 2 * |Real.log (c : ℝ)| / 2 ^ p = 2 * |Real.log c| * (1 / 2 ^ p) by ring]
  generalize (1 : ℝ) / 2 ^ p = ε at *
  have h5 : |(v c : ℝ)| ≤ |Real.log c| * (5 / 4) := by nlinarith
  have h6 : |(v c : ℝ)| * ε ≤ |Real.log c| * (5 / 4) * ε := mul_le_mul_of_nonneg_right h5 he0.le
  nlinarith

/-- C155: for positive or missing float prices the sample weights by return are the finite numbers of C138, whatever the order of the
additions: no return, quotient or sum underflows or overflows. -/
theorem C155_returns (f : Fmt) (D : f.Deep) (hr : -f.emin ≤ 2 ^ f.p ∧ f.emax ≤ 2 ^ f.p) (lg : ℚ → ℚ) (hlg : GoodLog f.p lg)
    (hfl : ∀ c, IsFloat f.p (lg c)) (ord : ℕ → AddTree ℕ) (ev : List (ℤ × ℤ)) (hn : ev.length < 2 ^ f.p)
    (ho : ∀ k, 1 ≤ k → k ≤ ev.length → (ord k).leaves.Perm (List.range k)) (close : List (Option ℚ)) (hlen : close.length = ev.length)
    (hpos : ∀ c, some c ∈ close → 0 < c ∧ f.Has c) (hse : ∀ e ∈ ev, e.1 ≤ e.2) (hdiff : ∃ e ∈ ev, ∃ e' ∈ ev, e ≠ e') :
    weightsByReturnsD f.float lg ord (rowsOf ev close) =
      .ok (ev.map fun e => (e.1, .fin |orderSum (roundBits f.p) ord (spanTerms (roundBits f.p) lg ev close e)|)) := by
  have hne : ev ≠ [] := by
    obtain ⟨e, he, _⟩ := hdiff
    exact List.ne_nil_of_mem he
  obtain ⟨m, hm⟩ := (C12_returns_iff_partial ev (ev.map (·.1)) hne hse).1.2 hdiff
  have hm' := SW.matrix_of_ok (ev := ev) hm
  subst hm'
  have fstM : ∀ {β : Type} (f : ℤ × Option ℤ × XF ℚ → β) (g : ℤ × ℤ → β), (∀ (e : ℤ × ℤ) c, f (e.1, some e.2, c) = g e) →
      (rowsOf ev close).map f = ev.map g := by
    intro β f g hf
    unfold rowsOf
    rw [List.map_zipWith]
    apply List.ext_getElem
    · simp [hlen]
    · intro i h1 h2
      simp [hf]
  have e6 : (rowsOf ev close).map (fun x => logR lg x.2.2) =
      close.map fun c => logR lg (match c with | some x => .fin x | none => .nan) := by
    unfold rowsOf
    rw [List.map_zipWith]
    apply List.ext_getElem
    · simp [hlen]
    · intro i h1 h2
      simp only [List.getElem_zipWith, List.getElem_map]
      cases close[i]'(by simpa using h2) <;> rfl
  have e1 := fstM (fun r => (some r.1, r.2.1)) (fun e => (some e.1, some e.2)) (fun _ _ => rfl)
  have e2 := fstM (fun r => r.1) (fun e => e.1) (fun _ _ => rfl)
  have e3 := fstM (fun r => Lab.convertToTimestamp (some r.1)) (fun e => e.1 / 1000000) (fun _ _ => by simp [Lab.convertToTimestamp])
  have e4 := fstM (fun r => Lab.convertToTimestamp r.2.1) (fun e => e.2 / 1000000) (fun _ _ => by simp [Lab.convertToTimestamp])
  have e5 := fstM (fun r => XF.fin (Boot.rowSum (Boot.rawMatrix ev (ev.map (fun e => e.1)))
      ((Boot.barIndex ev (ev.map (fun e => e.1))).idxOf r.1) : ℚ)) (fun e => XF.fin (Boot.rowSum (Boot.rawMatrix ev (ev.map (fun e => e.1)))
      ((Boot.barIndex ev (ev.map (fun e => e.1))).idxOf e.1) : ℚ)) (fun _ _ => by simp only)
  unfold weightsByReturnsD
  rw [e1, e2, hm]
  simp only
  have e7 : (pdDiff ((rowsOf ev close).map fun x => logR lg x.2.2)).map (XF.rounded f.float) =
      (List.range close.length).map fun k => match logRetR (roundBits f.p) lg close k with | some x => .fin x | none => .nan := by
    rw [e6]
    refine Eq.trans (congrArg (fun u => (pdDiff u).map (XF.rounded f.float)) (List.map_congr_left fun c _ => ?_))
      ((retsD_eq D hr hlg hfl close hpos).trans (List.map_congr_left fun k _ => ?_))
    · cases c <;> rfl
    · cases logRetR (roundBits f.p) lg close k <;> rfl
  rw [e3, e4, e5, e7]
  have hconc : (ev.map fun e => XF.fin (Boot.rowSum (Boot.rawMatrix ev (ev.map (·.1)))
      ((Boot.barIndex ev (ev.map (·.1))).idxOf e.1) : ℚ)) = ev.map fun e => XF.fin (aliveAt ev e.1 : ℚ) := by
    apply List.map_congr_left
    intro e he
    rw [SW.rowSum_idxOf ev _ _ ⟨e, he, rfl⟩]
  rw [hconc]
  have hmem : ∀ k < ev.length, ev.getD k (0, 0) ∈ ev := fun k hk => by
    rw [List.getD_eq_getElem _ _ hk]; exact List.getElem_mem hk
  have hcmem : ∀ k c, close.getD k none = some c → some c ∈ close := by
    intro k c hk
    by_cases hkl : k < close.length
    · rw [List.getD_eq_getElem _ _ hkl] at hk
      exact hk ▸ List.getElem_mem hkl
    · rw [List.getD_eq_default _ _ (by omega)] at hk
      cases hk
  have hal : ∀ t, aliveAt ev t ≤ ev.length := fun t => by
    unfold aliveAt
    exact List.length_filter_le _ _
  have hcalc := calcD_formula D ord ev.length hn ho (fun k => (ev.getD k (0, 0)).1 / 1000000) (fun k => (ev.getD k (0, 0)).2 / 1000000)
    (logRetR (roundBits f.p) lg close) (fun k => aliveAt ev (ev.getD k (0, 0)).1)
    (fun k hk => SW.aliveAt_pos ev _ (hmem k hk) (hse _ (hmem k hk))) (by
      intro k hk x hx
      unfold logRetR at hx
      split at hx
      · cases hx
      · split at hx
        · rename_i b a hb ha
          cases hx
          obtain ⟨b0, hb'⟩ := hpos b (hcmem _ _ hb)
          obtain ⟨a0, ha'⟩ := hpos a (hcmem _ _ ha)
          exact (ret_term D hr hlg hfl ha' a0 hb' b0).2 _ (SW.aliveAt_pos ev _ (hmem k hk) (hse _ (hmem k hk))) ((hal _).trans hn.le)
        · cases hx)
  rw [SW.map_eq_range ev (0, 0) (fun e => e.1 / 1000000), SW.map_eq_range ev (0, 0) (fun e => e.2 / 1000000),
    SW.map_eq_range ev (0, 0) (fun e => XF.fin (aliveAt ev e.1 : ℚ)), SW.map_eq_range ev (0, 0) (·.1),
    SW.map_eq_range ev (0, 0) (fun e => (e.1, XF.fin |orderSum (roundBits f.p) ord (spanTerms (roundBits f.p) lg ev close e)|)), hlen]
  refine congrArg Except.ok (Eq.trans (congrArg (List.zip _) (Eq.trans ?_ hcalc)) ?_)
  · congr 1
  · rw [SW.zip_range]
    apply List.map_congr_left
    intro k _
    congr 4
    unfold spanTerms
    congr 1
    apply List.filter_congr
    intro j _
    simp [InSpan]

/-- C155: the error of the weights by return: with at most `d` additions for each return it is at most `(9 + 3 d) m T / 2^p`, where `m`
is the number of bars in the life span and `T` bounds the logarithms of the prices. -/
theorem C155_returns_error (f : Fmt) (D : f.Deep) (hp : 8 ≤ f.p) (hr : -f.emin ≤ 2 ^ f.p ∧ f.emax ≤ 2 ^ f.p) (lg : ℚ → ℚ) (hlg : GoodLog f.p lg)
    (hfl : ∀ c, IsFloat f.p (lg c)) (ord : ℕ → AddTree ℕ) (d : ℕ) (hd : 24 * d ≤ 2 ^ f.p) (ev : List (ℤ × ℤ)) (hn : ev.length < 2 ^ f.p)
    (ho : ∀ k, 1 ≤ k → k ≤ ev.length → (ord k).leaves.Perm (List.range k) ∧ (ord k).depth ≤ d)
    (close : List (Option ℚ)) (hlen : close.length = ev.length)
    (hpos : ∀ c, some c ∈ close → 0 < c ∧ f.Has c) (hse : ∀ e ∈ ev, e.1 ≤ e.2) (hdiff : ∃ e ∈ ev, ∃ e' ∈ ev, e ≠ e') (T : ℝ)
    (hT0 : 0 ≤ T) (hT : ∀ c, some c ∈ close → |Real.log c| ≤ T) :
    ∃ (v : ℤ × ℤ → ℚ) (w : ℤ × ℤ → ℝ),
      weightsByReturnsD f.float lg ord (rowsOf ev close) = .ok (ev.map fun e => (e.1, .fin (v e))) ∧
      SW.weightsByReturns (List.zipWith (fun e c => ⟨e.1, some e.2, match c with | some x => .fin (x : ℝ) | none => .nan⟩) ev close) =
        .ok (ev.map fun e => (e.1, .fin (w e))) ∧
      ∀ e ∈ ev, 0 ≤ v e ∧ |(v e : ℝ) - w e| ≤ (9 + 3 * d) * ((List.range ev.length).countP (InSpan ev e ·)) * T / 2 ^ f.p := by
  have hsm := orderSum_adds (roundBits f.p) ord ev.length d ho
  obtain ⟨v, w, h1, h2, h3⟩ := C138_error f.p hp lg hlg (orderSum (roundBits f.p) ord) d ev hsm hd close hlen (fun c hc => (hpos c hc).1) hse hdiff T hT0 hT
  refine ⟨v, w, ?_, h2, h3⟩
  rw [← h1, C155_returns f D hr lg hlg hfl ord ev hn (fun k a b => (ho k a b).1) close hlen hpos hse hdiff]
  exact (C138_weights (roundBits f.p) lg _ ev close hlen (fun c hc => (hpos c hc).1) hse hdiff).symm

/-- C155: whatever the prices, a missing end raises, and a weight is missing, infinite or not negative. -/
theorem C155_sign (g : ℚ → XF ℚ) (lg : ℚ → ℚ) (ord : ℕ → AddTree ℕ) (X : List (ℤ × Option ℤ × XF ℚ)) :
    ((∃ x ∈ X, x.2.1 = none) → weightsByReturnsD g lg ord X = .error .valueError) ∧
    ∀ s, weightsByReturnsD g lg ord X = .ok s → s.map (·.1) = X.map (·.1) ∧ ∀ w ∈ s, w.2 = .nan ∨ w.2 = .pinf ∨ ∃ q, w.2 = .fin q ∧ 0 ≤ q := by
  constructor
  · rintro ⟨x, hx, h⟩
    unfold weightsByReturnsD
    rw [C12_missing_times_raise]
    exact ⟨_, List.mem_map.2 ⟨x, hx, rfl⟩, Or.inr h⟩
  · intro s hs
    unfold weightsByReturnsD at hs
    split at hs
    · cases hs
    · cases hs
      have hlen : ∀ b e : List ℤ, ∀ c l : List (XF ℚ), b.length = e.length → (calculateWeightsD g ord b e c l).length = b.length := by
        intro b e c l h
        simp [calculateWeightsD, h]
      refine ⟨?_, ?_⟩
      · rw [List.map_fst_zip]
        rw [hlen _ _ _ _ (by simp)]
        simp
      · intro w hw
        have h2 := (List.of_mem_zip hw).2
        rw [calculateWeightsD] at h2
        obtain ⟨q, -, hq⟩ := List.mem_map.1 h2
        rw [← hq]
        generalize nansumD g ord _ = v
        cases v with
        | nan => exact .inl rfl
        | pinf => exact .inr (.inl rfl)
        | ninf => exact .inr (.inl rfl)
        | fin q => exact .inr (.inr ⟨|q|, by simp, abs_nonneg q⟩)

/-- Adding up from left to right. -/
private def leftOrd : ℕ → AddTree ℕ
  | 0 => .leaf 0
  | 1 => .leaf 0
  | n + 2 => .node (leftOrd (n + 1)) (.leaf (n + 1))

private theorem leftOrd_ok : ∀ k, 1 ≤ k → (leftOrd k).leaves.Perm (List.range k) ∧ (leftOrd k).depth = k - 1
  | 1, _ => ⟨by simp [leftOrd, AddTree.leaves], rfl⟩
  | n + 2, _ => by
    obtain ⟨h1, h2⟩ := leftOrd_ok (n + 1) (by omega)
    constructor
    · simp only [leftOrd, AddTree.leaves]
      rw [List.range_succ]
      exact h1.append_right _
    · simp only [leftOrd, AddTree.depth, h2]
      omega

/-- A case of `C155_uniqueness`, `C155_decay_same`, `C155_decay` and `C155_minus_one_refuted`: three samples, of which two overlap. -/
example : (∀ j ∈ [0, 1, 2], j < threeSamples.nCols ∧ (barsOf threeSamples j).Nonempty ∧ 2 * (barsOf threeSamples j).card ≤ 2 ^ binary64.p) ∧
    averageUniquenessD binary64.float threeSamples 0 = .fin (roundBits 53 (2 / 3)) ∧
    (timeDecayD binary64.float (-1 / 2) ([0, 1, 2].map (averageUniquenessD binary64.float threeSamples))).isSome ∧
    timeDecayD binary64.float (-1) ([0, 1, 2].map (averageUniquenessD binary64.float threeSamples)) = some [.nan, .nan, .nan] := by
  have h : ∀ j ∈ [0, 1, 2], j < threeSamples.nCols ∧ (barsOf threeSamples j).Nonempty ∧ 2 * (barsOf threeSamples j).card ≤ 2 ^ binary64.p := by
    decide +kernel
  have hN : threeSamples.nCols ≤ 2 ^ binary64.p := by decide +kernel
  refine ⟨h, ?_, ?_, C155_minus_one_refuted binary64 C155_formats.1.1 threeSamples hN [0, 1, 2] (by simp) (by decide) h⟩
  · obtain ⟨u, h1, h2, -⟩ := C155_uniqueness binary64 C155_formats.1.1 threeSamples 0 (h 0 (by simp)).1 hN (h 0 (by simp)).2.1 (h 0 (by simp)).2.2
    rw [h1, h2]
    decide +kernel
  · obtain ⟨w, h1, -⟩ := C155_decay binary64 C155_formats.1.1 (-1 / 2) ⟨⟨-1, -1, by decide, by decide, by norm_num⟩, by
      rw [show |(-1 / 2 : ℚ)| = 1 / 2 by norm_num [abs_of_neg]]
      exact lt_of_lt_of_le (by norm_num : (1 / 2 : ℚ) < 2 ^ (0 : ℤ)) (zpow_le_zpow_right₀ (by norm_num) (by decide))⟩
      (by norm_num [binary64]) (by norm_num) threeSamples hN [0, 1, 2] (by simp) (by decide) h
    rw [h1]; rfl

/-- A case of `C155_no_bars`. -/
example : averageUniquenessD binary64.float (IndMat.ofLists 2 [[true, false], [true, false]]) 1 = .nan :=
  C155_no_bars _ _ _ (by decide)

private theorem has_nat (n : ℕ) (hn : n < 2 ^ 53) : binary64.Has (n : ℚ) := by
  refine ⟨⟨n, 0, ?_, by decide, by simp⟩, ?_⟩
  · rw [abs_of_nonneg (by positivity)]
    have : ((n : ℕ) : ℤ) < ((2 ^ 53 : ℕ) : ℤ) := by exact_mod_cast hn
    simpa [binary64] using this
  · rw [abs_of_nonneg (by positivity)]
    have h1 : (n : ℚ) < 2 ^ (53 : ℤ) := by exact_mod_cast hn
    exact h1.trans_le (zpow_le_zpow_right₀ (by norm_num) (by decide))

/-- A case of `C155_returns` and `C155_returns_error`: three events, one missing price, additions from left to right. -/
example : ∃ lg : ℚ → ℚ, GoodLog 53 lg ∧ ∃ (v : ℤ × ℤ → ℚ) (w : ℤ × ℤ → ℝ),
    weightsByReturnsD binary64.float lg leftOrd (rowsOf [(0, 3000000), (1000000, 1000000), (2000000, 5000000)] [some 1, none, some 3]) =
      .ok ([(0, 3000000), (1000000, 1000000), (2000000, 5000000)].map fun e => (e.1, .fin (v e))) ∧
    |(v (0, 3000000) : ℝ) - w (0, 3000000)| ≤ (9 + 3 * 2) * 3 * 2 / 2 ^ 53 := by
  obtain ⟨lg, h1, h2⟩ := C155_log 53 (by norm_num)
  refine ⟨lg, h1, ?_⟩
  obtain ⟨v, w, a1, -, a3⟩ := C155_returns_error binary64 C155_formats.1.1 (by decide) C155_formats.1.2 lg h1 h2 leftOrd 2 (by decide)
    [(0, 3000000), (1000000, 1000000), (2000000, 5000000)] (by decide) (by
      intro k k1 k2
      obtain ⟨l1, l2⟩ := leftOrd_ok k k1
      simp only [List.length_cons, List.length_nil] at k2
      exact ⟨l1, by omega⟩) [some 1, none, some 3] rfl (by
      intro c hc
      simp at hc
      rcases hc with rfl | rfl
      · exact ⟨by norm_num, by simpa using has_nat 1 (by norm_num)⟩
      · exact ⟨by norm_num, by simpa using has_nat 3 (by norm_num)⟩) (by decide)
    ⟨(0, 3000000), by simp, (1000000, 1000000), by simp, by simp⟩ 2 (by norm_num) (by
      intro c hc
      simp at hc
      rcases hc with rfl | rfl
      · simp
      · have := Real.log_le_sub_one_of_pos (show (0 : ℝ) < 3 by norm_num)
        have h0 := Real.log_nonneg (show (1 : ℝ) ≤ 3 by norm_num)
        push_cast
        rw [abs_of_nonneg h0]
        linarith)
  refine ⟨v, w, a1, ?_⟩
  have := (a3 (0, 3000000) (by simp)).2
  have hc : (List.range [((0 : ℤ), (3000000 : ℤ)), (1000000, 1000000), (2000000, 5000000)].length).countP
    (InSpan [((0 : ℤ), (3000000 : ℤ)), (1000000, 1000000), (2000000, 5000000)] (0, 3000000) ·) = 3 := by decide
  rw [hc] at this
  exact_mod_cast this

end Mizar.Props
