import Verif.Props.Microstructure

/-!
Property theorem C62: the rolling z-score (`/repo/mizarlabs/transformers/features/rolling_z_score.py`).
-/

set_option linter.unusedSectionVars false

namespace Mizar.Props
open Mizar.Spec Mizar.Feat Finset

/-- `a * x + b` on ideal floats. -/
noncomputable def affine (a b : ℝ) (x : XF ℝ) : XF ℝ := XF.add (XF.mul (.fin a) x) (.fin b)

theorem infSign_neg' {a : ℝ} (h : a < 0) : XF.infSign a = .ninf := by
  unfold XF.infSign; rw [if_neg (not_lt.2 h.le), if_pos h]

theorem undef_affine {a : ℝ} (ha : a ≠ 0) (b : ℝ) (x : XF ℝ) : (affine a b x).undef = x.undef := by
  unfold affine
  rcases lt_or_gt_of_ne ha with h | h
  · cases x <;> simp [XF.mul, XF.add, XF.undef, infSign_neg' h, XF.isNan, XF.isInf, XF.neg]
  · cases x <;> simp [XF.mul, XF.add, XF.undef, infSign_pos h, XF.isNan, XF.isInf, XF.neg]

theorem sub_affine {a : ℝ} (ha : a ≠ 0) (b : ℝ) (x y : XF ℝ) : XF.sub (affine a b x) (affine a b y) = XF.mul (.fin a) (XF.sub x y) := by
  unfold affine
  rcases lt_or_gt_of_ne ha with h | h
  · cases x <;> cases y <;> simp [XF.mul, XF.sub, XF.add, infSign_neg' h, XF.neg]
    ring
  · cases x <;> cases y <;> simp [XF.mul, XF.sub, XF.add, infSign_pos h, XF.neg]
    ring

theorem div_neg_left (x y : XF ℝ) : XF.div (XF.neg x) y = XF.neg (XF.div x y) := by
  have hs : ∀ z : ℝ, XF.infSign (-z) = XF.neg (XF.infSign z) := by
    intro z
    unfold XF.infSign
    rcases lt_trichotomy z 0 with h | h | h
    · simp [h, not_lt.2 h.le, XF.neg]
    · simp [h]
    · simp [h, not_lt.2 h.le, XF.neg]
  cases x with
  | nan => rfl
  | ninf =>
    cases y with
    | fin y => by_cases h : y < 0 <;> simp [XF.neg, XF.div, h]
    | _ => simp [XF.neg, XF.div]
  | pinf =>
    cases y with
    | fin y => by_cases h : y < 0 <;> simp [XF.neg, XF.div, h]
    | _ => simp [XF.neg, XF.div]
  | fin x =>
    cases y with
    | fin y =>
      by_cases h : y = 0
      · simp [XF.neg, XF.div, h, hs]
      · rw [XF.neg_fin, XF.div_fin _ _ h, XF.div_fin _ _ h, XF.neg_fin, neg_div]
    | _ => simp [XF.neg, XF.div]

theorem mul_neg_num (a : ℝ) (ha : a < 0) (x : XF ℝ) : XF.mul (.fin a) x = XF.neg (XF.mul (.fin |a|) x) := by
  have h : 0 < |a| := abs_pos.2 ha.ne
  rw [abs_of_neg ha] at h ⊢
  cases x <;> simp [XF.mul, XF.neg, infSign_neg' ha, infSign_pos h]
  all_goals rw [infSign_pos (by linarith)]

theorem winMean_affine (a b : ℝ) (l : List ℝ) : winMean (l.map fun x => a * x + b) = affine a b (winMean l) := by
  unfold winMean affine
  rw [List.length_map]
  by_cases h : l.length = 0
  · rw [if_pos h, if_pos h]; simp
  · rw [if_neg h, if_neg h, XF.mul_fin, XF.add_fin]
    congr 1
    have h0 : (l.length : ℝ) ≠ 0 := by exact_mod_cast h
    have : (l.map fun x => a * x + b).sum = a * l.sum + l.length * b := by
      clear h h0
      induction l with
      | nil => simp
      | cons x l ih => simp only [List.map_cons, List.sum_cons, ih, List.length_cons]; push_cast; ring
    rw [this]
    field_simp

theorem winVar_affine (a b : ℝ) (l : List ℝ) : winVar (l.map fun x => a * x + b) = XF.mul (.fin (a ^ 2)) (winVar l) := by
  unfold winVar winCov
  rw [List.length_map]
  by_cases h : l.length ≤ 1
  · simp [h]
  · simp only [h, if_false]
    rw [XF.mul_fin]
    congr 1
    have h0 : (l.length : ℝ) ≠ 0 := by
      have : l.length ≠ 0 := by omega
      exact_mod_cast this
    have h1 : (l.length : ℝ) - 1 ≠ 0 := by
      have : (1 : ℝ) < l.length := by exact_mod_cast (by omega : 1 < l.length)
      linarith
    have e1 : (l.map fun x => a * x + b).sum = a * l.sum + l.length * b := by
      clear h h0 h1
      induction l with
      | nil => simp
      | cons x l ih => simp only [List.map_cons, List.sum_cons, ih, List.length_cons]; push_cast; ring
    have e2 : (List.zipWith (· * ·) (l.map fun x => a * x + b) (l.map fun x => a * x + b)).sum =
        a ^ 2 * (List.zipWith (· * ·) l l).sum + 2 * a * b * l.sum + l.length * b ^ 2 := by
      clear h h0 h1 e1
      induction l with
      | nil => simp
      | cons x l ih => simp only [List.map_cons, List.zipWith_cons_cons, List.sum_cons, ih, List.length_cons]; push_cast; ring
    rw [e1, e2]
    field_simp
    ring

theorem winStd_affine {a : ℝ} (ha : a ≠ 0) (b : ℝ) (l : List ℝ) :
    winStd (l.map fun x => a * x + b) = XF.mul (.fin |a|) (winStd l) := by
  unfold winStd
  rw [winVar_affine, sqrt_scale (by positivity), Real.sqrt_sq_eq_abs]

/-- C62 (invariance): multiplying a series (which may have missing or infinite values) by a positive constant and
adding a constant does not change the z-scores; multiplying by a negative constant flips their signs. -/
theorem C62_affine (w : ℤ) (a b : ℝ) (l : List (XF ℝ)) :
    (0 < a → zScore w (l.map (affine a b)) = zScore w l) ∧
    (a < 0 → zScore w (l.map (affine a b)) = (zScore w l).map (List.map XF.neg)) := by
  have key : ∀ (_ : a ≠ 0) (G : XF ℝ → XF ℝ), (∀ x y, XF.div (XF.mul (.fin a) x) (XF.mul (.fin |a|) y) = G (XF.div x y)) →
      zScore w (l.map (affine a b)) = (zScore w l).map (List.map G) := by
    intro ha G hG
    unfold zScore
    rw [rollE_map w winMean (affine a b) (affine a b) (fun x => a * x + b) (undef_affine ha b) (fun x => by simp [affine])
        (by simp [affine]) (winMean_affine a b),
      rollE_map w winStd (affine a b) (XF.mul (.fin |a|)) (fun x => a * x + b) (undef_affine ha b) (fun x => by simp [affine])
        (by simp) (winStd_affine ha b)]
    cases rollE w winMean l with
    | error e => rfl
    | ok m =>
      cases rollE w winStd l with
      | error e => rfl
      | ok s =>
        change (.ok _ : Py (List (XF ℝ))) = .ok _
        congr 1
        rw [List.zipWith_map, List.map_zipWith]
        have : (fun x y => XF.sub (affine a b x) (affine a b y)) = fun x y => XF.mul (.fin a) (XF.sub x y) := by
          funext x y; exact sub_affine ha b x y
        rw [this, ← List.map_zipWith, List.zipWith_map]
        congr 1
        funext x y
        exact hG x y
  constructor
  · intro ha
    rw [key ha.ne' id (fun x y => by rw [abs_of_pos ha]; exact div_scale ha x y)]
    cases zScore w l <;> simp [Except.map]
  · intro ha
    refine key ha.ne XF.neg fun x y => ?_
    rw [mul_neg_num a ha, div_neg_left, div_scale (abs_pos.2 ha.ne)]

theorem winVar_of (w : ℕ) (v : ℕ → ℝ) :
    winVar ((List.range w).map fun t => v (w - 1 - t)) =
      if w ≤ 1 then .nan else .fin ((∑ j ∈ range w, v j * v j - (∑ j ∈ range w, v j) * (∑ j ∈ range w, v j) / w) / (w - 1)) := by
  unfold winVar winCov
  simp only [List.length_map, List.length_range]
  split
  · rfl
  · congr 1
    have : List.zipWith (· * ·) ((List.range w).map fun t => v (w - 1 - t)) ((List.range w).map fun t => v (w - 1 - t)) =
        (List.range w).map fun t => (fun j => v j * v j) (w - 1 - t) := by
      rw [List.zipWith_map, List.zipWith_self]
    rw [this, sum_map_range, sum_map_range, Finset.sum_range_reflect, Finset.sum_range_reflect (fun j => v j * v j)]

/-- The z-score at one bar. -/
theorem zScore_at (w : ℕ) (l : List (XF ℝ)) (i : ℕ) (hi : i < l.length) :
    ∃ out, zScore w l = .ok out ∧ out.length = l.length ∧
      out[i]? = some (XF.div (XF.sub l[i] (rollAt w winMean l i)) (rollAt w winStd l i)) := by
  refine ⟨_, by unfold zScore; rw [rollE_ok, Py.bind_ok, rollE_ok, Py.bind_ok], by simp, ?_⟩
  rw [zipWith_getElem?_of _ (zipWith_getElem?_of _ (List.getElem?_eq_getElem hi) (rolling_getElem? w winMean l i hi))
    (rolling_getElem? w winStd l i hi)]

theorem sum_sq_dev (w : ℕ) (hw : 1 ≤ w) (v : ℕ → ℝ) :
    ∑ j ∈ range w, v j * v j - (∑ j ∈ range w, v j) * (∑ j ∈ range w, v j) / w =
      ∑ j ∈ range w, (v j - (∑ j ∈ range w, v j) / w) ^ 2 := by
  have h0 : (w : ℝ) ≠ 0 := by positivity
  set T := ∑ j ∈ range w, v j with hT
  have : ∀ j ∈ range w, (v j - T / w) ^ 2 = v j * v j - 2 * (T / w) * v j + (T / w) ^ 2 := by intro j _; ring
  rw [Finset.sum_congr rfl this, Finset.sum_add_distrib, Finset.sum_sub_distrib, ← Finset.mul_sum, ← hT, Finset.sum_const, card_range,
    nsmul_eq_mul]
  field_simp
  ring

/-- C62 (value): where the last `w ≥ 2` values are numbers, the z-score is the distance from their mean in sample
standard deviations, missing if they are all equal; elsewhere it is missing. -/
theorem C62_value (w : ℕ) (hw : 2 ≤ w) (l : List (XF ℝ)) :
    ∃ out, zScore w l = .ok out ∧ out.length = l.length ∧ ∀ i < l.length,
      (∀ v : ℕ → ℝ, w ≤ i + 1 → (∀ j < w, l[i - j]? = some (.fin (v (i - j)))) →
        0 ≤ varAt w v i ∧
        (varAt w v i = 0 → out[i]? = some .nan) ∧
        (varAt w v i ≠ 0 → out[i]? = some (.fin ((v i - meanAt w v i) / Real.sqrt (varAt w v i))))) ∧
      ((i + 1 < w ∨ ∃ j < w, ∀ x, l[i - j]? ≠ some (.fin x)) → out[i]? = some .nan) := by
  rcases Nat.eq_zero_or_pos l.length with h0 | h0
  · refine ⟨_, by unfold zScore; rw [rollE_ok, Py.bind_ok, rollE_ok, Py.bind_ok], by simp, ?_⟩
    intro i hi; omega
  obtain ⟨out, ho, hlen, -⟩ := zScore_at w l 0 h0
  refine ⟨out, ho, hlen, ?_⟩
  intro i hi
  obtain ⟨out', ho', -, hz⟩ := zScore_at w l i hi
  rw [ho] at ho'
  simp only [Except.ok.injEq] at ho'
  subst ho'
  rw [hz]
  constructor
  · intro v hwi hv
    have hw1 : ¬ w ≤ 1 := by omega
    have hw0 : (1 : ℝ) < w := by exact_mod_cast (by omega : 1 < w)
    have hm : rollAt w winMean l i = .fin (meanAt w v i) := by
      rw [rollAt_of_fin w winMean l i hi hwi (fun j => v (i - j)) hv, winMean_of w (by omega) (fun j => v (i - j))]
      rfl
    have hvar : winVar ((List.range w).map fun t => (fun j => v (i - j)) (w - 1 - t)) = .fin (varAt w v i) := by
      rw [winVar_of w (fun j => v (i - j)), if_neg hw1, sum_sq_dev w (by omega)]; rfl
    have hnn : 0 ≤ varAt w v i := by
      unfold varAt
      exact div_nonneg (Finset.sum_nonneg fun j _ => sq_nonneg _) (by linarith)
    have hs : rollAt w winStd l i = .fin (Real.sqrt (varAt w v i)) := by
      rw [rollAt_of_fin w winStd l i hi hwi (fun j => v (i - j)) hv]
      unfold winStd
      rw [hvar, XF.sqrt_fin hnn]
    have hli : l[i] = .fin (v i) := by
      have := hv 0 (by omega)
      rw [Nat.sub_zero, List.getElem?_eq_getElem hi] at this
      simpa using this
    rw [hm, hs, hli, XF.sub_fin]
    refine ⟨hnn, ?_, ?_⟩
    · intro hz0
      have : v i - meanAt w v i = 0 := by
        unfold varAt at hz0
        have hne : (w : ℝ) - 1 ≠ 0 := by linarith
        rw [div_eq_zero_iff, or_iff_left hne, Finset.sum_eq_zero_iff_of_nonneg (fun j _ => sq_nonneg _)] at hz0
        have := hz0 0 (mem_range.2 (by omega))
        simpa using this
      rw [hz0, this]
      simp [XF.div, XF.infSign]
    · intro hne
      rw [XF.div_fin _ _ (Real.sqrt_ne_zero'.2 (lt_of_le_of_ne hnn (Ne.symm hne)))]
  · intro h
    have : rollAt w winMean l i = .nan := by
      rcases rollAt_cases w winMean l i hi with h' | ⟨h1, h2, -⟩
      · exact h'
      · rcases h with h | ⟨j, hj, h⟩
        · omega
        · obtain ⟨x, hx⟩ := h2 j hj
          exact absurd hx (h x)
    rw [this]; simp

/-- C62 (bound): whatever the series and the window, every z-score that is a number has a square of at most
`(w - 1) ^ 2 / w`. -/
theorem C62_bound (w : ℤ) (l out : List (XF ℝ)) (h : zScore w l = .ok out) (z : ℝ) (hz : .fin z ∈ out) :
    2 ≤ w ∧ z ^ 2 ≤ ((w : ℝ) - 1) ^ 2 / w := by
  have hw0 : 0 ≤ w := by
    by_contra hneg
    unfold zScore rollE at h
    rw [if_pos (by omega), Py.bind_error] at h
    simp at h
  obtain ⟨w, rfl⟩ := Int.eq_ofNat_of_zero_le hw0
  obtain ⟨i, hi, hzi⟩ := List.mem_iff_getElem.1 hz
  have hout : out = List.zipWith XF.div (List.zipWith XF.sub l (rolling w winMean l)) (rolling w winStd l) := by
    unfold zScore at h
    rw [rollE_ok, Py.bind_ok, rollE_ok, Py.bind_ok] at h
    simpa using h.symm
  have hil : i < l.length := by rw [hout] at hi; simp at hi; exact hi
  obtain ⟨out', ho', -, hat⟩ := zScore_at w l i hil
  rw [h] at ho'
  simp only [Except.ok.injEq] at ho'
  subst ho'
  rw [List.getElem?_eq_getElem hi, hzi] at hat
  simp only [Option.some.injEq] at hat
  rcases rollAt_mean_cases w l i hil with hn | ⟨v, h1, hwi, hv, hm⟩
  · rw [hn] at hat; simp at hat
  · have hli : l[i] = .fin (v 0) := by
      have := hv 0 (by omega)
      rw [Nat.sub_zero, List.getElem?_eq_getElem hil] at this
      simpa using this
    have hs : rollAt w winStd l i = XF.sqrt (winVar ((List.range w).map fun t => v (w - 1 - t))) := by
      rw [rollAt_of_fin w winStd l i hil hwi v hv]; rfl
    rw [hm, hli, hs, winVar_of, XF.sub_fin] at hat
    by_cases hw1 : w ≤ 1
    · rw [if_pos hw1] at hat; simp [XF.sqrt] at hat
    · rw [if_neg hw1] at hat
      refine ⟨by omega, ?_⟩
      have hwr : (1 : ℝ) < w := by exact_mod_cast (by omega : 1 < w)
      set T := ∑ j ∈ range w, v j with hT
      set Q := ∑ j ∈ range w, v j * v j with hQ
      have hvar : 0 ≤ (Q - T * T / w) / (w - 1) := by
        rw [hQ, hT, sum_sq_dev w (by omega)]
        exact div_nonneg (Finset.sum_nonneg fun j _ => sq_nonneg _) (by linarith)
      rw [XF.sqrt_fin hvar] at hat
      set s2 := (Q - T * T / w) / (w - 1) with hs2
      by_cases hz0 : s2 = 0
      · rw [hz0, Real.sqrt_zero] at hat
        simp only [XF.div, if_true, XF.infSign] at hat
        split at hat
        · simp at hat
        · split at hat <;> simp at hat
      · have hpos : 0 < s2 := lt_of_le_of_ne hvar (Ne.symm hz0)
        rw [XF.div_fin _ _ (Real.sqrt_ne_zero'.2 hpos)] at hat
        simp only [XF.fin.injEq] at hat
        rw [hat, div_pow, Real.sq_sqrt hpos.le]
        -- Cauchy-Schwarz on the other values
        obtain ⟨n, rfl⟩ : ∃ n, w = n + 1 := ⟨w - 1, by omega⟩
        have hcs : (∑ j ∈ range n, v (j + 1)) ^ 2 ≤ (n : ℝ) * ∑ j ∈ range n, v (j + 1) ^ 2 := by
          have := sq_sum_le_card_mul_sum_sq (s := range n) (f := fun j => v (j + 1))
          simpa using this
        have eT : T = ∑ j ∈ range n, v (j + 1) + v 0 := by rw [hT, Finset.sum_range_succ']
        have eQ : Q = ∑ j ∈ range n, v (j + 1) ^ 2 + v 0 * v 0 := by
          rw [hQ, Finset.sum_range_succ']
          congr 1
          exact Finset.sum_congr rfl fun j _ => by ring
        have hn : (0 : ℝ) < n := by exact_mod_cast (by omega : 0 < n)
        push_cast at *
        have hn1 : (0 : ℝ) < (n : ℝ) + 1 := by linarith
        rw [div_le_div_iff₀ hpos hn1]
        have es : s2 * n = Q - T * T / (n + 1) := by
          rw [hs2]
          have : (n : ℝ) + 1 - 1 ≠ 0 := by linarith
          field_simp
          ring
        have e3 : ((n : ℝ) + 1 - 1) ^ 2 * s2 = n * (Q - T * T / (n + 1)) := by rw [← es]; ring
        rw [e3]
        have e4 : (n : ℝ) * (Q - T * T / (n + 1)) - (v 0 - T / (n + 1)) ^ 2 * (n + 1) =
            n * ∑ j ∈ range n, v (j + 1) ^ 2 - (∑ j ∈ range n, v (j + 1)) ^ 2 := by
          rw [eQ, eT]
          field_simp
          ring
        linarith

/-- The z-score of the second of two different values is `1 / √2`, whatever the values. -/
example : zScore 2 [.fin 1, .fin 4] = .ok [.nan, .fin (1 / Real.sqrt 2)] := by
  obtain ⟨out, h1, h2, h3⟩ := C62_value 2 (le_refl _) [.fin 1, .fin 4]
  have hv : varAt 2 (fun i => if i = 0 then (1 : ℝ) else 4) 1 = 9 / 2 := by
    simp [varAt, meanAt, Finset.sum_range_succ]; norm_num
  have hm : meanAt 2 (fun i => if i = 0 then (1 : ℝ) else 4) 1 = 5 / 2 := by
    simp [meanAt, Finset.sum_range_succ]; norm_num
  have a0 := (h3 0 (by simp)).2 (Or.inl (by omega))
  have a1 := ((h3 1 (by simp)).1 (fun i => if i = 0 then 1 else 4) (by omega) (by
    intro j hj
    have : j = 0 ∨ j = 1 := by omega
    rcases this with rfl | rfl <;> rfl)).2.2 (by rw [hv]; norm_num)
  rw [hv, hm] at a1
  have e : ((4 : ℝ) - 5 / 2) / Real.sqrt (9 / 2) = 1 / Real.sqrt 2 := by
    rw [Real.sqrt_div (by norm_num), show (9 : ℝ) = 3 ^ 2 by norm_num, Real.sqrt_sq (by norm_num)]
    have : Real.sqrt 2 ≠ 0 := by positivity
    have h22 : Real.sqrt 2 * Real.sqrt 2 = 2 := Real.mul_self_sqrt (by norm_num)
    field_simp
    norm_num
  simp only [one_ne_zero, if_false, e] at a1
  rw [show ((2 : ℕ) : ℤ) = 2 from rfl] at h1
  rw [h1]
  congr 1
  apply List.ext_getElem?
  intro i
  match i with
  | 0 => exact a0
  | 1 => exact a1
  | i + 2 => simp [List.getElem?_eq_none, h2]

end Mizar.Props
