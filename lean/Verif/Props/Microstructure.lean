import Mathlib.Analysis.SpecialFunctions.Pow.Real
import Verif.Lemmas.Features
import Verif.Spec.Features

/-!
Property theorems C60, C61 and C62: spread and volatility estimators, price impact measures
(`/repo/mizarlabs/transformers/microstructural_features/`) and the rolling z-score
(`/repo/mizarlabs/transformers/features/rolling_z_score.py`).
-/

set_option linter.unusedSectionVars false

namespace Mizar.Props
open Mizar.Spec Mizar.Feat Finset

/-! ### Reading the models -/

theorem checkMissing_ok {K : Type} [Field K] [LinearOrder K] {f : Frame K} {a b : String} (ha : a ∈ f.cols) (hb : b ∈ f.cols) :
    checkMissing f [a, b] = .ok () := by
  unfold checkMissing; rw [if_pos (by simp [ha, hb])]

/-- The quotients whose logarithms are used. -/
noncomputable def sqLogs (h l : List (XF ℝ)) : List (XF ℝ) := (List.zipWith XF.div h l).map fun x => square (XF.log x)

theorem parkinson_eq (w : ℤ) (high low : String) (f : Frame ℝ) (hh : high ∈ f.cols) (hl : low ∈ f.cols) :
    parkinson w high low f = rollE w winMean ((List.zipWith XF.div (f.values high) (f.values low)).map fun x =>
      XF.mul (.fin (1 / (4 * Real.log 2))) (square (XF.log x))) := by
  unfold parkinson
  rw [checkMissing_ok hh hl, Py.bind_ok, Frame.col_ok hh, Py.bind_ok, Frame.col_ok hl, Py.bind_ok]

theorem corwin_eq (w : ℤ) (high low : String) (f : Frame ℝ) (hh : high ∈ f.cols) (hl : low ∈ f.cols) :
    corwinSchultz w high low f = (getBeta (f.values high) (f.values low) w >>= fun beta =>
      getGamma (f.values high) (f.values low) >>= fun gamma =>
      .ok ((getAlpha beta gamma).map fun a =>
        XF.div (XF.mul (.fin 2) (XF.sub (XF.exp a) (.fin 1))) (XF.add (.fin 1) (XF.exp a)))) := by
  unfold corwinSchultz
  rw [checkMissing_ok hh hl, Py.bind_ok, Frame.col_ok hh, Py.bind_ok, Frame.col_ok hl, Py.bind_ok]

theorem beckers_eq (w : ℤ) (high low : String) (f : Frame ℝ) (hh : high ∈ f.cols) (hl : low ∈ f.cols) :
    beckersParkinson w high low f = (getBeta (f.values high) (f.values low) w >>= fun beta =>
      getGamma (f.values high) (f.values low) >>= fun gamma =>
      .ok (List.zipWith (fun b g =>
        clip0 (XF.add (XF.div (XF.mul (.fin (1 / Real.sqrt 2 - 1)) (XF.sqrt b)) (.fin (Real.sqrt (8 / Real.pi) * den)))
          (XF.sqrt (XF.div g (.fin (Real.sqrt (8 / Real.pi) ^ 2 * den)))))) beta gamma)) := by
  unfold beckersParkinson
  rw [checkMissing_ok hh hl, Py.bind_ok, Frame.col_ok hh, Py.bind_ok, Frame.col_ok hl, Py.bind_ok]

/-! ### Non-negativity and bounds on all inputs -/

theorem clip0_nonneg {x : XF ℝ} {y : ℝ} (h : clip0 x = .fin y) : 0 ≤ y := by
  unfold clip0 at h
  split at h
  · simp only [XF.fin.injEq] at h; exact h.le
  · subst h
    rename_i hn
    simpa using hn

theorem clip0_ne_ninf (x : XF ℝ) : clip0 x ≠ .ninf := by
  unfold clip0
  split
  · simp
  · rename_i h; rintro rfl; simp [XF.lt] at h

/-- A window mean is missing or a number. -/
theorem rollAt_mean_cases {K : Type} [Field K] [LinearOrder K] (w : ℕ) (l : List (XF K)) (i : ℕ) (hi : i < l.length) :
    rollAt w winMean l i = .nan ∨ ∃ v : ℕ → K, 1 ≤ w ∧ w ≤ i + 1 ∧ (∀ j < w, l[i - j]? = some (.fin (v j))) ∧
      rollAt w winMean l i = .fin ((∑ j ∈ range w, v j) / (w : K)) := by
  rcases rollAt_cases w winMean l i hi with h | ⟨h1, h2, h3⟩
  · exact Or.inl h
  · choose! v hv using h2
    rcases Nat.eq_zero_or_pos w with h0 | h0
    · left
      rw [h3]
      subst h0
      unfold winMean winAt
      rw [if_pos (by simp)]
    · right
      exact ⟨v, h0, h1, hv, by rw [rollAt_of_fin w winMean l i hi h1 v hv, winMean_of w h0]⟩

theorem rollE_mean_nonneg {K : Type} [Field K] [LinearOrder K] [IsStrictOrderedRing K] (w : ℤ) (l out : List (XF K))
    (h : rollE w winMean l = .ok out) (hl : ∀ x, .fin x ∈ l → 0 ≤ x) :
    ∀ x ∈ out, x = .nan ∨ ∃ m, x = .fin m ∧ 0 ≤ m := by
  intro x hx
  unfold rollE at h
  split at h
  · simp at h
  · simp only [Except.ok.injEq] at h
    subst h
    obtain ⟨i, hi, rfl⟩ := List.mem_map.1 hx
    rw [List.mem_range] at hi
    rcases rollAt_mean_cases w.toNat l i hi with h | ⟨v, h0, h1, hv, he⟩
    · exact Or.inl h
    · refine Or.inr ⟨_, he, div_nonneg (Finset.sum_nonneg fun j hj => ?_) (by positivity)⟩
      exact hl (v j) (List.mem_iff_getElem?.2 ⟨_, hv j (mem_range.1 hj)⟩)

/-- C60 (bounds): for all prices and windows, every Corwin-Schultz value is missing or in [0, 2), every Parkinson
value is missing or at least 0, and every Beckers-Parkinson number is at least 0. -/
theorem C60_bounds (w : ℤ) (high low : String) (f : Frame ℝ) :
    (∀ out, corwinSchultz w high low f = .ok out → ∀ x ∈ out, x = .nan ∨ ∃ s, x = .fin s ∧ 0 ≤ s ∧ s < 2) ∧
    (∀ out, parkinson w high low f = .ok out → ∀ x ∈ out, x = .nan ∨ ∃ s, x = .fin s ∧ 0 ≤ s) ∧
    (∀ out, beckersParkinson w high low f = .ok out → ∀ x ∈ out, ∀ s, x = .fin s → 0 ≤ s) := by
  refine ⟨?_, ?_, ?_⟩
  · intro out h x hx
    unfold corwinSchultz at h
    simp only [Py.bind_eq_ok, Except.ok.injEq] at h
    obtain ⟨-, -, h, -, l, -, be, -, ga, -, rfl⟩ := h
    obtain ⟨a, ha, rfl⟩ := List.mem_map.1 hx
    have hclip : ∃ y, a = clip0 y := by
      unfold getAlpha at ha
      obtain ⟨i, hi, rfl⟩ := List.mem_iff_getElem.1 ha
      rw [List.getElem_zipWith]
      exact ⟨_, rfl⟩
    obtain ⟨y, hy⟩ := hclip
    cases a with
    | nan => left; rfl
    | ninf => exact absurd hy.symm (clip0_ne_ninf y)
    | pinf =>
      left
      simp [XF.exp, XF.sub, XF.neg, XF.add, XF.mul, XF.infSign, XF.div]
    | fin a =>
      right
      have ha0 := clip0_nonneg hy.symm
      have he : 1 ≤ Real.exp a := Real.one_le_exp ha0
      have hpos : 0 < 1 + Real.exp a := by linarith
      refine ⟨2 * (Real.exp a - 1) / (1 + Real.exp a), ?_, ?_, ?_⟩
      · simp only [XF.exp, XF.sub_fin, XF.mul_fin, XF.add_fin]
        rw [XF.div_fin _ _ hpos.ne']
      · apply div_nonneg <;> linarith
      · rw [div_lt_iff₀ hpos]; linarith
  · intro out h
    unfold parkinson at h
    simp only [Py.bind_eq_ok] at h
    obtain ⟨-, -, h, -, l, -, h⟩ := h
    apply rollE_mean_nonneg w _ out h
    intro x hx
    obtain ⟨y, -, hy⟩ := List.mem_map.1 hx
    have hlog2 : 0 < Real.log 2 := Real.log_pos (by norm_num)
    have hpos : 0 < 1 / (4 * Real.log 2) := by positivity
    unfold square at hy
    cases hlog : XF.log y with
    | nan => rw [hlog] at hy; simp at hy
    | pinf => rw [hlog] at hy; simp [XF.mul, XF.infSign] at hy; split at hy <;> simp at hy
    | ninf => rw [hlog] at hy; simp [XF.mul, XF.infSign] at hy; split at hy <;> simp at hy
    | fin z =>
      rw [hlog] at hy
      simp only [XF.mul_fin, XF.fin.injEq] at hy
      rw [← hy]
      exact mul_nonneg hpos.le (mul_self_nonneg z)
  · intro out h x hx s hs
    unfold beckersParkinson at h
    simp only [Py.bind_eq_ok, Except.ok.injEq] at h
    obtain ⟨-, -, h, -, l, -, be, -, ga, -, rfl⟩ := h
    obtain ⟨i, hi, rfl⟩ := List.mem_iff_getElem.1 hx
    rw [List.getElem_zipWith] at hs
    exact clip0_nonneg hs

/-! ### Scale invariance -/

theorem getBeta_scale {c : ℝ} (hc : 0 < c) (h l : List (XF ℝ)) (w : ℤ) : getBeta (scale c h) (scale c l) w = getBeta h l w := by
  unfold getBeta
  rw [zipWith_div_scale hc]

theorem getGamma_scale {c : ℝ} (hc : 0 < c) (h l : List (XF ℝ)) : getGamma (scale c h) (scale c l) = getGamma h l := by
  unfold getGamma
  rw [rollE_max_scale hc, rollE_min_scale hc]
  cases rollE 2 winMax h with
  | error e => rfl
  | ok a =>
    cases rollE 2 winMin l with
    | error e => rfl
    | ok b =>
      change (.ok _ : Py (List (XF ℝ))) = .ok _
      rw [zipWith_div_scale hc]

/-- C60 (scale): multiplying highs and lows by the same positive constant changes none of the three estimators, for
all prices (also missing ones). -/
theorem C60_scale_free (w : ℤ) (high low : String) (f g : Frame ℝ) (hcols : g.cols = f.cols) (c : ℝ) (hc : 0 < c)
    (h1 : ScaledBy c high f g) (h2 : ScaledBy c low f g) :
    corwinSchultz w high low g = corwinSchultz w high low f ∧ parkinson w high low g = parkinson w high low f ∧
    beckersParkinson w high low g = beckersParkinson w high low f := by
  unfold ScaledBy at h1 h2
  by_cases hh : high ∈ f.cols ∧ low ∈ f.cols
  · have hg1 : high ∈ g.cols := by rw [hcols]; exact hh.1
    have hg2 : low ∈ g.cols := by rw [hcols]; exact hh.2
    rw [corwin_eq w high low g hg1 hg2, corwin_eq w high low f hh.1 hh.2, parkinson_eq w high low g hg1 hg2,
      parkinson_eq w high low f hh.1 hh.2, beckers_eq w high low g hg1 hg2, beckers_eq w high low f hh.1 hh.2, h1, h2,
      getBeta_scale hc, getGamma_scale hc, zipWith_div_scale hc]
    exact ⟨rfl, rfl, rfl⟩
  · have e : ∀ k : Frame ℝ, k.cols = f.cols → checkMissing k [high, low] = .error .assertionError := by
      intro k hk
      unfold checkMissing
      rw [if_neg]
      intro hall
      rw [hk] at hall
      exact hh ⟨hall high (by simp), hall low (by simp)⟩
    unfold corwinSchultz parkinson beckersParkinson
    rw [e g hcols, e f rfl]
    exact ⟨rfl, rfl, rfl⟩

/-! ### The values for positive prices -/

theorem den_pos : 0 < den := by
  unfold den
  have : Real.sqrt 2 < 3 / 2 := by
    rw [Real.sqrt_lt' (by norm_num)]; norm_num
  linarith

theorem sqLogs_getElem? (high low : String) (f : Frame ℝ) (h l : ℕ → ℝ) (hh : Holds f high h) (hl : Holds f low l)
    (hp : ∀ i, 0 < h i ∧ 0 < l i) (i : ℕ) (hi : i < f.rows.length) :
    ((List.zipWith XF.div (f.values high) (f.values low)).map fun x => square (XF.log x))[i]? = some (.fin (logSq h l i)) := by
  rw [map_getElem?_of _ (zipWith_getElem?_of _ (hh.2 i hi) (hl.2 i hi)), XF.div_fin _ _ (hp i).2.ne',
    XF.log_fin (div_pos (hp i).1 (hp i).2)]
  unfold square logSq
  rw [XF.mul_fin, pow_two]

/-- C60 (Parkinson's value): missing in the first `w - 1` bars, then the mean of the squared logarithms over `4 ln 2`. -/
theorem C60_parkinson_value (w : ℕ) (hw : 1 ≤ w) (high low : String) (f : Frame ℝ) (h l : ℕ → ℝ) (hh : Holds f high h)
    (hl : Holds f low l) (hp : ∀ i, 0 < h i ∧ 0 < l i) :
    ∃ out, parkinson w high low f = .ok out ∧ out.length = f.rows.length ∧ ∀ i < f.rows.length,
      out[i]? = some (if i + 1 < w then .nan else .fin (parkinsonAt w h l i)) := by
  refine ⟨_, by rw [parkinson_eq w high low f hh.1 hl.1, rollE_ok], by simp [Frame.values_length], ?_⟩
  intro i hi
  have hlen : i < ((List.zipWith XF.div (f.values high) (f.values low)).map fun x =>
      XF.mul (.fin (1 / (4 * Real.log 2))) (square (XF.log x))).length := by
    simp [Frame.values_length, hi]
  rw [rolling_getElem? w winMean _ i hlen]
  split
  · rename_i hs; rw [rollAt_short _ _ _ _ hs]
  · rename_i hs
    have hv : ∀ j < w, ((List.zipWith XF.div (f.values high) (f.values low)).map fun x =>
        XF.mul (.fin (1 / (4 * Real.log 2))) (square (XF.log x)))[i - j]? =
        some (.fin (1 / (4 * Real.log 2) * logSq h l (i - j))) := by
      intro j hj
      have := sqLogs_getElem? high low f h l hh hl hp (i - j) (by omega)
      rw [List.getElem?_map] at this ⊢
      obtain ⟨x, hx, hx'⟩ := Option.map_eq_some_iff.1 this
      rw [hx, Option.map_some, hx', XF.mul_fin]
    rw [rollAt_of_fin w winMean _ i hlen (by omega) (fun j => 1 / (4 * Real.log 2) * logSq h l (i - j)) hv,
      winMean_of w hw (fun j => 1 / (4 * Real.log 2) * logSq h l (i - j)), ← Finset.mul_sum]
    unfold parkinsonAt
    congr 2
    have hlog2 : 0 < Real.log 2 := Real.log_pos (by norm_num)
    have : (w : ℝ) ≠ 0 := by positivity
    field_simp

theorem getBeta_value (w : ℕ) (hw : 1 ≤ w) (high low : String) (f : Frame ℝ) (h l : ℕ → ℝ) (hh : Holds f high h)
    (hl : Holds f low l) (hp : ∀ i, 0 < h i ∧ 0 < l i) :
    ∃ be, getBeta (f.values high) (f.values low) w = .ok be ∧ be.length = f.rows.length ∧ ∀ i < f.rows.length,
      be[i]? = some (if i < w then .nan else .fin (csBeta w h l i)) := by
  set lr := (List.zipWith XF.div (f.values high) (f.values low)).map fun x => square (XF.log x) with hlr
  have hlen : lr.length = f.rows.length := by simp [hlr, Frame.values_length]
  have e2 : rollE 2 winSum lr = .ok (rolling 2 winSum lr) := rollE_ok 2 winSum lr
  refine ⟨rolling w winMean (rolling 2 winSum lr), ?_, by simp [hlen], ?_⟩
  · unfold getBeta
    rw [← hlr, e2, Py.bind_ok, rollE_ok]
  · intro i hi
    have h2 : ∀ k, 1 ≤ k → k < f.rows.length → (rolling 2 winSum lr)[k]? = some (.fin (logSq h l k + logSq h l (k - 1))) := by
      intro k hk hk'
      rw [rolling_getElem? 2 winSum lr k (by omega), rollAt_of_fin 2 winSum lr k (by omega) (by omega)
        (fun j => logSq h l (k - j)) (fun j hj => sqLogs_getElem? high low f h l hh hl hp (k - j) (by omega)),
        winSum_of 2 (fun j => logSq h l (k - j))]
      simp [Finset.sum_range_succ]
    have h0 : 0 < f.rows.length → (rolling 2 winSum lr)[0]? = some .nan := by
      intro hpos
      rw [rolling_getElem? 2 winSum lr 0 (by omega), rollAt_short _ _ _ _ (by omega)]
    rw [rolling_getElem? w winMean _ i (by simp [hlen, hi])]
    split
    · rename_i hs
      by_cases hs' : i + 1 < w
      · rw [rollAt_short _ _ _ _ hs']
      · rw [rollAt_nan_of w winMean _ i (by simp [hlen, hi]) i (by omega) (by simpa using h0 (by omega))]
    · rename_i hs
      rw [rollAt_of_fin w winMean _ i (by simp [hlen, hi]) (by omega)
        (fun j => logSq h l (i - j) + logSq h l (i - j - 1)) (fun j hj => h2 (i - j) (by omega) (by omega)),
        winMean_of w hw (fun j => logSq h l (i - j) + logSq h l (i - j - 1))]
      rfl

theorem getGamma_value (high low : String) (f : Frame ℝ) (h l : ℕ → ℝ) (hh : Holds f high h)
    (hl : Holds f low l) (hp : ∀ i, 0 < h i ∧ 0 < l i) :
    ∃ ga, getGamma (f.values high) (f.values low) = .ok ga ∧ ga.length = f.rows.length ∧ ∀ i < f.rows.length, 1 ≤ i →
      ga[i]? = some (.fin (csGamma h l i)) := by
  have e1 : rollE 2 winMax (f.values high) = .ok (rolling 2 winMax (f.values high)) := rollE_ok 2 winMax _
  have e2 : rollE 2 winMin (f.values low) = .ok (rolling 2 winMin (f.values low)) := rollE_ok 2 winMin _
  refine ⟨_, by unfold getGamma; rw [e1, Py.bind_ok, e2, Py.bind_ok], by simp [Frame.values_length], ?_⟩
  intro i hi h1
  have hl1 : i < (f.values high).length := by rw [Frame.values_length]; exact hi
  have hl2 : i < (f.values low).length := by rw [Frame.values_length]; exact hi
  have a1 : (rolling 2 winMax (f.values high))[i]? = some (.fin (max (h i) (h (i - 1)))) := by
    rw [rolling_getElem? 2 winMax _ i hl1, rollAt_of_fin 2 winMax _ i hl1 (by omega) (fun j => h (i - j))
      (fun j hj => hh.2 (i - j) (by omega))]
    simp [List.range_succ, winMax, max_comm]
  have a2 : (rolling 2 winMin (f.values low))[i]? = some (.fin (min (l i) (l (i - 1)))) := by
    rw [rolling_getElem? 2 winMin _ i hl2, rollAt_of_fin 2 winMin _ i hl2 (by omega) (fun j => l (i - j))
      (fun j hj => hl.2 (i - j) (by omega))]
    simp [List.range_succ, winMin, min_comm]
  have p1 : 0 < max (h i) (h (i - 1)) := lt_max_of_lt_left (hp i).1
  have p2 : 0 < min (l i) (l (i - 1)) := lt_min (hp i).2 (hp (i - 1)).2
  rw [map_getElem?_of _ (zipWith_getElem?_of _ a1 a2), XF.div_fin _ _ p2.ne', XF.log_fin (div_pos p1 p2)]
  unfold square csGamma
  rw [XF.mul_fin, pow_two]

theorem csBeta_nonneg (w : ℕ) (h l : ℕ → ℝ) (i : ℕ) : 0 ≤ csBeta w h l i := by
  unfold csBeta logSq
  apply div_nonneg
  · exact Finset.sum_nonneg fun j _ => add_nonneg (sq_nonneg _) (sq_nonneg _)
  · positivity

theorem csGamma_nonneg (h l : ℕ → ℝ) (i : ℕ) : 0 ≤ csGamma h l i := sq_nonneg _

theorem clip0_fin (x : ℝ) : clip0 (.fin x) = .fin (max 0 x) := by
  unfold clip0
  rw [XF.lt_fin]
  by_cases h : x < 0
  · rw [if_pos (by simpa using h), max_eq_left h.le]
  · rw [if_neg (by simpa using h), max_eq_right (not_lt.1 h)]

/-- C60 (Corwin-Schultz' value): missing in the first `w` bars, then the spread of the published formulas. -/
theorem C60_corwin_value (w : ℕ) (hw : 1 ≤ w) (high low : String) (f : Frame ℝ) (h l : ℕ → ℝ) (hh : Holds f high h)
    (hl : Holds f low l) (hp : ∀ i, 0 < h i ∧ 0 < l i) :
    ∃ out, corwinSchultz w high low f = .ok out ∧ out.length = f.rows.length ∧ ∀ i < f.rows.length,
      out[i]? = some (if i < w then .nan else .fin (csSpread (csAlpha (csBeta w h l i) (csGamma h l i)))) := by
  obtain ⟨be, hbe, hbl, hbv⟩ := getBeta_value w hw high low f h l hh hl hp
  obtain ⟨ga, hga, hgl, hgv⟩ := getGamma_value high low f h l hh hl hp
  refine ⟨_, by rw [corwin_eq w high low f hh.1 hl.1, hbe, Py.bind_ok, hga, Py.bind_ok], by simp [getAlpha, hbl, hgl], ?_⟩
  intro i hi
  have hgi := List.getElem?_eq_getElem (l := ga) (i := i) (by omega)
  unfold getAlpha
  rw [map_getElem?_of _ (zipWith_getElem?_of _ (hbv i hi) hgi)]
  split
  · simp [XF.sqrt, clip0, XF.exp]
  · rename_i hs
    have hg := hgv i hi (by omega)
    rw [hgi] at hg
    simp only [Option.some.injEq] at hg
    rw [hg]
    have hd := den_pos
    have hb0 := csBeta_nonneg w h l i
    have hg0 := csGamma_nonneg h l i
    rw [XF.sqrt_fin hb0, XF.mul_fin, XF.div_fin _ _ hd.ne', XF.div_fin _ _ hd.ne', XF.sqrt_fin (div_nonneg hg0 hd.le),
      XF.sub_fin, clip0_fin]
    have ha : max 0 ((Real.sqrt 2 - 1) * Real.sqrt (csBeta w h l i) / den - Real.sqrt (csGamma h l i / den)) =
        csAlpha (csBeta w h l i) (csGamma h l i) := by
      unfold csAlpha
      rw [Real.sqrt_mul (by norm_num)]
      unfold den
      congr 3
      ring
    rw [ha]
    have hpos : 1 + Real.exp (csAlpha (csBeta w h l i) (csGamma h l i)) ≠ 0 := by
      have := Real.exp_pos (csAlpha (csBeta w h l i) (csGamma h l i))
      linarith
    simp only [XF.exp, XF.sub_fin, XF.mul_fin, XF.add_fin]
    rw [XF.div_fin _ _ hpos]
    rfl

/-- C60 (Beckers-Parkinson's value): missing in the first `w` bars, then the published formula. -/
theorem C60_beckers_value (w : ℕ) (hw : 1 ≤ w) (high low : String) (f : Frame ℝ) (h l : ℕ → ℝ) (hh : Holds f high h)
    (hl : Holds f low l) (hp : ∀ i, 0 < h i ∧ 0 < l i) :
    ∃ out, beckersParkinson w high low f = .ok out ∧ out.length = f.rows.length ∧ ∀ i < f.rows.length,
      out[i]? = some (if i < w then .nan else .fin (bpSigma (csBeta w h l i) (csGamma h l i))) := by
  obtain ⟨be, hbe, hbl, hbv⟩ := getBeta_value w hw high low f h l hh hl hp
  obtain ⟨ga, hga, hgl, hgv⟩ := getGamma_value high low f h l hh hl hp
  refine ⟨_, by rw [beckers_eq w high low f hh.1 hl.1, hbe, Py.bind_ok, hga, Py.bind_ok], by simp [hbl, hgl], ?_⟩
  intro i hi
  have hgi := List.getElem?_eq_getElem (l := ga) (i := i) (by omega)
  rw [zipWith_getElem?_of _ (hbv i hi) hgi]
  split
  · simp [XF.sqrt, clip0]
  · rename_i hs
    have hg := hgv i hi (by omega)
    rw [hgi] at hg
    simp only [Option.some.injEq] at hg
    rw [hg]
    have hd := den_pos
    have hb0 := csBeta_nonneg w h l i
    have hg0 := csGamma_nonneg h l i
    have hpi : 0 < 8 / Real.pi := by have := Real.pi_pos; positivity
    have hk : 0 < Real.sqrt (8 / Real.pi) := Real.sqrt_pos.2 hpi
    have hd1 : 0 < Real.sqrt (8 / Real.pi) * den := mul_pos hk hd
    have hd2 : 0 < Real.sqrt (8 / Real.pi) ^ 2 * den := mul_pos (pow_pos hk 2) hd
    rw [XF.sqrt_fin hb0, XF.mul_fin, XF.div_fin _ _ hd1.ne', XF.div_fin _ _ hd2.ne', XF.sqrt_fin (div_nonneg hg0 hd2.le),
      XF.add_fin, clip0_fin, Real.sq_sqrt hpi.le]
    unfold bpSigma
    rw [Real.sqrt_div hb0]
    unfold den
    congr 4
    ring

/-! ### Price impact measures -/

theorem kyle_eq (w : ℤ) (close volume : String) (f : Frame ℝ) (h1 : close ∈ f.cols) (h2 : volume ∈ f.cols) :
    kyle w close volume f = rollE w winMean (List.zipWith XF.div ((pdDiff (f.values close)).map XF.abs) (f.values volume)) := by
  unfold kyle
  rw [checkMissing_ok h1 h2, Py.bind_ok, Frame.col_ok h1, Py.bind_ok, Frame.col_ok h2, Py.bind_ok]

theorem amihud_eq (w : ℤ) (close volume : String) (f : Frame ℝ) (h1 : close ∈ f.cols) (h2 : volume ∈ f.cols) :
    amihud w close volume f =
      rollE w winMean (List.zipWith XF.div ((pdDiff ((f.values close).map XF.log)).map XF.abs) (f.values volume)) := by
  unfold amihud
  rw [checkMissing_ok h1 h2, Py.bind_ok, Frame.col_ok h1, Py.bind_ok, Frame.col_ok h2, Py.bind_ok]

theorem hasbrouck_eq (w : ℤ) (close volume : String) (f : Frame ℝ) (h1 : close ∈ f.cols) (h2 : volume ∈ f.cols) :
    hasbrouck w close volume f =
      rollE w winMean (List.zipWith XF.div ((pdDiff ((f.values close).map XF.log)).map XF.abs) ((f.values volume).map XF.sqrt)) := by
  unfold hasbrouck
  rw [checkMissing_ok h1 h2, Py.bind_ok, Frame.col_ok h1, Py.bind_ok, Frame.col_ok h2, Py.bind_ok]

theorem div_abs_nonneg {x y : XF ℝ} {z : ℝ} (hy : XF.lt y (.fin 0) = false) (h : XF.div (XF.abs x) y = .fin z) : 0 ≤ z := by
  cases x with
  | nan => simp at h
  | ninf =>
    cases y <;> simp [XF.abs, XF.div] at h
    split at h <;> simp at h
  | pinf =>
    cases y <;> simp [XF.abs, XF.div] at h
    split at h <;> simp at h
  | fin x =>
    cases y with
    | nan => simp at h
    | ninf => simp [XF.abs, XF.div] at h; exact h.le
    | pinf => simp [XF.abs, XF.div] at h; exact h.le
    | fin y =>
      have hy0 : 0 ≤ y := by simpa using hy
      by_cases h0 : y = 0
      · simp only [XF.abs, XF.div, h0, if_true, XF.infSign] at h
        split at h
        · simp at h
        · split at h <;> simp at h
      · rw [XF.abs_fin, XF.div_fin _ _ h0] at h
        simp only [XF.fin.injEq] at h
        rw [← h]
        exact div_nonneg (abs_nonneg _) hy0

theorem sqrt_nonneg' (x : XF ℝ) : XF.lt (XF.sqrt x) (.fin 0) = false := by
  cases x with
  | fin x =>
    unfold XF.sqrt
    dsimp only
    split
    · simp
    · simpa using Real.sqrt_nonneg x
  | _ => simp [XF.sqrt, XF.lt]

/-- C61 (signs): with volumes that are not negative (they may be zero or missing), every value of the three measures
is missing or at least 0; for Hasbrouck's no assumption is needed. -/
theorem C61_nonneg (w : ℤ) (close volume : String) (f : Frame ℝ) :
    (∀ out, kyle w close volume f = .ok out → (∀ x ∈ f.values volume, XF.lt x (.fin 0) = false) →
      ∀ x ∈ out, x = .nan ∨ ∃ m, x = .fin m ∧ 0 ≤ m) ∧
    (∀ out, amihud w close volume f = .ok out → (∀ x ∈ f.values volume, XF.lt x (.fin 0) = false) →
      ∀ x ∈ out, x = .nan ∨ ∃ m, x = .fin m ∧ 0 ≤ m) ∧
    (∀ out, hasbrouck w close volume f = .ok out → ∀ x ∈ out, x = .nan ∨ ∃ m, x = .fin m ∧ 0 ≤ m) := by
  have hcol : ∀ {name : String} {v : List (XF ℝ)}, f.col name = .ok v → v = f.values name := by
    intro name v h
    unfold Frame.col at h
    split at h
    · simp only [Except.ok.injEq] at h; exact h.symm
    · simp at h
  have key : ∀ (d v : List (XF ℝ)), (∀ x ∈ v, XF.lt x (.fin 0) = false) → ∀ x, .fin x ∈ List.zipWith XF.div (d.map XF.abs) v → 0 ≤ x := by
    intro d v hv x hx
    obtain ⟨i, hi, he⟩ := List.mem_iff_getElem.1 hx
    rw [List.getElem_zipWith, List.getElem_map] at he
    exact div_abs_nonneg (hv _ (List.getElem_mem _)) he
  refine ⟨?_, ?_, ?_⟩
  · intro out h hv
    unfold kyle at h
    simp only [Py.bind_eq_ok] at h
    obtain ⟨-, -, c, -, v, hvol, h⟩ := h
    rw [hcol hvol] at h
    exact rollE_mean_nonneg w _ out h (key _ _ hv)
  · intro out h hv
    unfold amihud at h
    simp only [Py.bind_eq_ok] at h
    obtain ⟨-, -, c, -, v, hvol, h⟩ := h
    rw [hcol hvol] at h
    exact rollE_mean_nonneg w _ out h (key _ _ hv)
  · intro out h
    unfold hasbrouck at h
    simp only [Py.bind_eq_ok] at h
    obtain ⟨-, -, c, -, v, hvol, h⟩ := h
    refine rollE_mean_nonneg w _ out h (key _ _ ?_)
    intro x hx
    obtain ⟨y, -, rfl⟩ := List.mem_map.1 hx
    exact sqrt_nonneg' y

/-- Logarithm of a multiple. -/
theorem log_scale {c : ℝ} (hc : 0 < c) (x : XF ℝ) : XF.log (XF.mul (.fin c) x) = XF.add (.fin (Real.log c)) (XF.log x) := by
  cases x with
  | nan => simp [XF.log]
  | ninf => simp [XF.mul, XF.log, infSign_pos hc, XF.neg]
  | pinf => simp [XF.mul, XF.log, infSign_pos hc, XF.add]
  | fin x =>
    rw [XF.mul_fin]
    rcases lt_trichotomy x 0 with h | h | h
    · simp [XF.log, h, mul_neg_of_pos_of_neg hc h]
    · subst h; simp [XF.log, XF.add]
    · rw [XF.log_fin h, XF.log_fin (mul_pos hc h), XF.add_fin, Real.log_mul hc.ne' h.ne']

theorem sub_add_left (a : ℝ) (x y : XF ℝ) : XF.sub (XF.add (.fin a) x) (XF.add (.fin a) y) = XF.sub x y := by
  cases x <;> cases y <;> simp [XF.sub, XF.add, XF.neg]
  ring

theorem pdDiff_log_scale {c : ℝ} (hc : 0 < c) (l : List (XF ℝ)) : pdDiff ((scale c l).map XF.log) = pdDiff (l.map XF.log) := by
  have e : (scale c l).map XF.log = (l.map XF.log).map (XF.add (.fin (Real.log c))) := by
    rw [List.map_map, List.map_map]
    apply List.map_congr_left
    intro x _
    exact log_scale hc x
  rw [e]
  unfold pdDiff
  rw [pdShift_map _ (by simp), List.zipWith_map]
  congr 1
  funext x y
  exact sub_add_left _ x y

theorem zipWith_div_scale_right {c : ℝ} (hc : 0 < c) (l m : List (XF ℝ)) :
    List.zipWith XF.div l (scale c m) = scale (1 / c) (List.zipWith XF.div l m) := by
  rw [List.zipWith_map_right, scale, List.map_zipWith]
  congr 1
  funext x y
  exact div_scale_right hc x y

theorem sqrt_scale {c : ℝ} (hc : 0 < c) (x : XF ℝ) : XF.sqrt (XF.mul (.fin c) x) = XF.mul (.fin (Real.sqrt c)) (XF.sqrt x) := by
  have hs := Real.sqrt_pos.2 hc
  cases x with
  | nan => simp [XF.sqrt]
  | ninf => simp [XF.mul, XF.sqrt, infSign_pos hc, XF.neg]
  | pinf => simp [XF.mul, XF.sqrt, infSign_pos hc, infSign_pos hs]
  | fin x =>
    rw [XF.mul_fin]
    unfold XF.sqrt
    dsimp only
    by_cases h : x < 0
    · rw [if_pos h, if_pos (mul_neg_of_pos_of_neg hc h)]; simp
    · rw [if_neg h, if_neg (not_lt.2 (mul_nonneg hc.le (not_lt.1 h))), XF.mul_fin, Real.sqrt_mul hc.le]

/-- C61 (prices): multiplying the prices by `c > 0` multiplies Kyle's lambda by `c` and leaves Amihud's and
Hasbrouck's unchanged, for all data. -/
theorem C61_price_scale (w : ℤ) (close volume : String) (f g : Frame ℝ) (hcols : g.cols = f.cols) (c : ℝ) (hc : 0 < c)
    (h1 : ScaledBy c close f g) (h2 : g.values volume = f.values volume) :
    kyle w close volume g = (kyle w close volume f).map (List.map (XF.mul (.fin c))) ∧
    amihud w close volume g = amihud w close volume f ∧ hasbrouck w close volume g = hasbrouck w close volume f := by
  unfold ScaledBy at h1
  by_cases hh : close ∈ f.cols ∧ volume ∈ f.cols
  · have hg1 : close ∈ g.cols := by rw [hcols]; exact hh.1
    have hg2 : volume ∈ g.cols := by rw [hcols]; exact hh.2
    rw [kyle_eq w close volume g hg1 hg2, kyle_eq w close volume f hh.1 hh.2, amihud_eq w close volume g hg1 hg2,
      amihud_eq w close volume f hh.1 hh.2, hasbrouck_eq w close volume g hg1 hg2, hasbrouck_eq w close volume f hh.1 hh.2, h1, h2,
      pdDiff_scale hc, pdDiff_log_scale hc]
    refine ⟨?_, rfl, rfl⟩
    rw [← rollE_mean_scale hc]
    congr 1
    rw [scale, scale, List.map_zipWith, List.map_map, List.zipWith_map_left, List.zipWith_map_left]
    congr 1
    funext x y
    rw [Function.comp_apply, abs_scale hc, div_scale_left hc]
  · have e : ∀ k : Frame ℝ, k.cols = f.cols → checkMissing k [close, volume] = .error .assertionError := by
      intro k hk
      unfold checkMissing
      rw [if_neg]
      intro hall
      rw [hk] at hall
      exact hh ⟨hall close (by simp), hall volume (by simp)⟩
    unfold kyle amihud hasbrouck
    rw [e g hcols, e f rfl]
    exact ⟨rfl, rfl, rfl⟩

/-- C61 (volumes): multiplying the volumes by `c > 0` divides Kyle's and Amihud's lambda by `c` and Hasbrouck's by
its square root. -/
theorem C61_volume_scale (w : ℤ) (close volume : String) (f g : Frame ℝ) (hcols : g.cols = f.cols) (c : ℝ) (hc : 0 < c)
    (h1 : g.values close = f.values close) (h2 : ScaledBy c volume f g) :
    kyle w close volume g = (kyle w close volume f).map (List.map (XF.mul (.fin (1 / c)))) ∧
    amihud w close volume g = (amihud w close volume f).map (List.map (XF.mul (.fin (1 / c)))) ∧
    hasbrouck w close volume g = (hasbrouck w close volume f).map (List.map (XF.mul (.fin (1 / Real.sqrt c)))) := by
  unfold ScaledBy at h2
  by_cases hh : close ∈ f.cols ∧ volume ∈ f.cols
  · have hg1 : close ∈ g.cols := by rw [hcols]; exact hh.1
    have hg2 : volume ∈ g.cols := by rw [hcols]; exact hh.2
    have hs := Real.sqrt_pos.2 hc
    have hsq : (scale c (f.values volume)).map XF.sqrt = scale (Real.sqrt c) ((f.values volume).map XF.sqrt) := by
      rw [scale, scale, List.map_map, List.map_map]
      apply List.map_congr_left
      intro x _
      exact sqrt_scale hc x
    have hc' : 0 < 1 / c := by positivity
    have hs' : 0 < 1 / Real.sqrt c := by positivity
    rw [kyle_eq w close volume g hg1 hg2, kyle_eq w close volume f hh.1 hh.2, amihud_eq w close volume g hg1 hg2,
      amihud_eq w close volume f hh.1 hh.2, hasbrouck_eq w close volume g hg1 hg2, hasbrouck_eq w close volume f hh.1 hh.2, h1, h2,
      hsq, zipWith_div_scale_right hc, zipWith_div_scale_right hc, zipWith_div_scale_right hs]
    exact ⟨rollE_mean_scale hc' w _, rollE_mean_scale hc' w _, rollE_mean_scale hs' w _⟩
  · have e : ∀ k : Frame ℝ, k.cols = f.cols → checkMissing k [close, volume] = .error .assertionError := by
      intro k hk
      unfold checkMissing
      rw [if_neg]
      intro hall
      rw [hk] at hall
      exact hh ⟨hall close (by simp), hall volume (by simp)⟩
    unfold kyle amihud hasbrouck
    rw [e g hcols, e f rfl]
    exact ⟨rfl, rfl, rfl⟩

theorem pdDiff_holds {l : List (XF ℝ)} {n : ℕ} {p : ℕ → ℝ} (hl : l.length = n) (hp : ∀ i < n, l[i]? = some (.fin (p i))) (i : ℕ)
    (hi : i < n) : (pdDiff l)[i]? = some (if i = 0 then .nan else .fin (p i - p (i - 1))) := by
  rw [pdDiff_getElem? l i (by omega)]
  by_cases h : i = 0
  · rw [dif_pos h, if_pos h]
  · rw [dif_neg h, if_neg h]
    have a1 := hp i hi
    have a2 := hp (i - 1) (by omega)
    rw [List.getElem?_eq_getElem (by omega)] at a1 a2
    simp only [Option.some.injEq] at a1 a2
    rw [a1, a2, XF.sub_fin]

theorem lambda_value (w : ℕ) (hw : 1 ≤ w) (n : ℕ) (c v : List (XF ℝ)) (hc : c.length = n) (hv : v.length = n) (p q : ℕ → ℝ)
    (hp : ∀ i < n, c[i]? = some (.fin (p i))) (hq : ∀ i < n, v[i]? = some (.fin (q i))) (hpos : ∀ i, 0 < q i) (i : ℕ) (hi : i < n) :
    (rolling w winMean (List.zipWith XF.div ((pdDiff c).map XF.abs) v))[i]? =
      some (if i < w then .nan else .fin (meanAt w (fun k => |p k - p (k - 1)| / q k) i)) := by
  have hel : ∀ k < n, (List.zipWith XF.div ((pdDiff c).map XF.abs) v)[k]? =
      some (if k = 0 then .nan else .fin (|p k - p (k - 1)| / q k)) := by
    intro k hk
    rw [zipWith_getElem?_of _ (map_getElem?_of _ (pdDiff_holds hc hp k hk)) (hq k hk)]
    split
    · simp
    · rw [XF.abs_fin, XF.div_fin _ _ (hpos k).ne']
  have hlen : i < (List.zipWith XF.div ((pdDiff c).map XF.abs) v).length := by simp [hc, hv, hi]
  rw [rolling_getElem? w winMean _ i hlen]
  split
  · by_cases hs' : i + 1 < w
    · rw [rollAt_short _ _ _ _ hs']
    · rw [rollAt_nan_of w winMean _ i hlen i (by omega) (by rw [hel _ (by omega), if_pos (by omega)])]
  · rw [rollAt_of_fin w winMean _ i hlen (by omega) (fun j => |p (i - j) - p (i - j - 1)| / q (i - j))
      (fun j hj => by rw [hel _ (by omega), if_neg (by omega)]),
      winMean_of w hw (fun j => |p (i - j) - p (i - j - 1)| / q (i - j))]
    rfl

/-- C61 (values): for complete data with positive volumes the first `w` values are missing, then each is the mean over
the last `w` bars of the absolute price change (Kyle), absolute log return (Amihud) over the volume, and of the
absolute log return over the square root of the volume (Hasbrouck). -/
theorem C61_values (w : ℕ) (hw : 1 ≤ w) (close volume : String) (f : Frame ℝ) (p q : ℕ → ℝ) (hp : Holds f close p)
    (hq : Holds f volume q) (hq0 : ∀ i, 0 < q i) :
    (∃ out, kyle w close volume f = .ok out ∧ out.length = f.rows.length ∧ ∀ i < f.rows.length,
      out[i]? = some (if i < w then .nan else .fin (meanAt w (fun k => |p k - p (k - 1)| / q k) i))) ∧
    ((∀ i, 0 < p i) →
      (∃ out, amihud w close volume f = .ok out ∧ out.length = f.rows.length ∧ ∀ i < f.rows.length,
        out[i]? = some (if i < w then .nan else .fin (meanAt w (fun k => |Real.log (p k) - Real.log (p (k - 1))| / q k) i))) ∧
      (∃ out, hasbrouck w close volume f = .ok out ∧ out.length = f.rows.length ∧ ∀ i < f.rows.length,
        out[i]? = some (if i < w then .nan
          else .fin (meanAt w (fun k => |Real.log (p k) - Real.log (p (k - 1))| / Real.sqrt (q k)) i)))) := by
  have l1 := Frame.values_length f close
  have l2 := Frame.values_length f volume
  constructor
  · refine ⟨_, by rw [kyle_eq w close volume f hp.1 hq.1, rollE_ok], by simp [l1, l2], ?_⟩
    intro i hi
    exact lambda_value w hw f.rows.length _ _ l1 l2 p q hp.2 hq.2 hq0 i hi
  · intro hp0
    have hlog : ∀ i < f.rows.length, ((f.values close).map XF.log)[i]? = some (.fin (Real.log (p i))) := by
      intro i hi
      rw [map_getElem?_of _ (hp.2 i hi), XF.log_fin (hp0 i)]
    constructor
    · refine ⟨_, by rw [amihud_eq w close volume f hp.1 hq.1, rollE_ok], by simp [l1, l2], ?_⟩
      intro i hi
      exact lambda_value w hw f.rows.length _ _ (by simp [l1]) l2 _ q hlog hq.2 hq0 i hi
    · refine ⟨_, by rw [hasbrouck_eq w close volume f hp.1 hq.1, rollE_ok], by simp [l1, l2], ?_⟩
      intro i hi
      refine lambda_value w hw f.rows.length _ _ (by simp [l1]) (by simp [l2]) _ (fun k => Real.sqrt (q k)) hlog ?_
        (fun i => Real.sqrt_pos.2 (hq0 i)) i hi
      intro k hk
      rw [map_getElem?_of _ (hq.2 k hk), XF.sqrt_fin (hq0 k).le]

section Examples

private noncomputable def bars : Frame ℝ :=
  ⟨["high", "low", "volume"], [(0, [.fin 2, .fin 1, .fin 3]), (1, [.fin 4, .fin 2, .fin 5]), (2, [.fin 3, .fin 2, .fin 7])]⟩

private noncomputable def highs (i : ℕ) : ℝ := if i = 0 then 2 else if i = 1 then 4 else 3
private noncomputable def lows (i : ℕ) : ℝ := if i = 0 then 1 else 2

/-- The hypotheses of the value theorems hold for these bars. -/
private theorem bars_holds : Holds bars "high" highs ∧ Holds bars "low" lows ∧ ∀ i, 0 < highs i ∧ 0 < lows i := by
  refine ⟨⟨by simp [bars], ?_⟩, ⟨by simp [bars], ?_⟩, ?_⟩
  · intro i hi
    have : i = 0 ∨ i = 1 ∨ i = 2 := by simp [bars] at hi; omega
    rcases this with rfl | rfl | rfl <;> simp [bars, Frame.values, highs, List.idxOf, List.findIdx, List.findIdx.go]
  · intro i hi
    have : i = 0 ∨ i = 1 ∨ i = 2 := by simp [bars] at hi; omega
    rcases this with rfl | rfl | rfl <;> simp [bars, Frame.values, lows, List.idxOf, List.findIdx, List.findIdx.go]
  · intro i
    unfold highs lows
    split
    · simp
    · split <;> norm_num

example : ∃ out, corwinSchultz 1 "high" "low" bars = .ok out ∧ out.length = 3 ∧
    out[1]? = some (.fin (csSpread (csAlpha (csBeta 1 highs lows 1) (csGamma highs lows 1)))) := by
  obtain ⟨h1, h2, h3⟩ := bars_holds
  obtain ⟨out, ho, hl, hv⟩ := C60_corwin_value 1 (le_refl _) "high" "low" bars highs lows h1 h2 h3
  exact ⟨out, ho, hl, by simpa using hv 1 (by simp [bars])⟩

example : ∃ out, parkinson 1 "high" "low" bars = .ok out ∧ out[1]? = some (.fin (Real.log 2 / 4)) := by
  obtain ⟨h1, h2, h3⟩ := bars_holds
  obtain ⟨out, ho, hl, hv⟩ := C60_parkinson_value 1 (le_refl _) "high" "low" bars highs lows h1 h2 h3
  refine ⟨out, ho, ?_⟩
  rw [hv 1 (by simp [bars])]
  simp only [Nat.lt_irrefl, if_false, Nat.reduceAdd, Nat.reduceLT]
  congr 2
  have : Real.log 2 ≠ 0 := (Real.log_pos (by norm_num)).ne'
  simp [parkinsonAt, logSq, highs, lows]
  rw [show (4 : ℝ) / 2 = 2 by norm_num]
  field_simp

example : ∃ out, kyle 1 "high" "low" bars = .ok out ∧ out[2]? = some (.fin (1 / 2)) := by
  obtain ⟨h1, h2, h3⟩ := bars_holds
  obtain ⟨out, ho, hl, hv⟩ := (C61_values 1 (le_refl _) "high" "low" bars highs lows h1 h2 fun i => (h3 i).2).1
  refine ⟨out, ho, ?_⟩
  rw [hv 2 (by simp [bars])]
  simp [meanAt, highs, lows]
  norm_num

end Examples

end Mizar.Props
