import Verif.Lemmas.RoundedCsw
import Verif.Lemmas.RoundedCusum
import Mathlib.Data.Int.Log

/-!
Property theorem C142: the Chu-Stinchcombe-White test in floating point
(`/repo/mizarlabs/structural_breaks/cusum_chu_stinchcome_white.py`).
-/

namespace Mizar.Props
open Mizar.Spec Mizar.Brk Mizar.Rd

private theorem npSumR_sum {K : Type} [Field K] [LinearOrder K] (l : List (XF K)) : npSumR List.sum l = XF.sum l := by
  unfold npSumR
  split_ifs with h
  · rfl
  · have h' : ∀ x ∈ l, ∃ a, x = .fin a := by
      intro x hx
      apply fin_of_defined
      rw [Bool.not_eq_true, List.any_eq_false] at h
      simpa using h x hx
    have : ∀ a : K, l.foldl XF.add (.fin a) = .fin (a + (l.map XF.toK).sum) := by
      clear h
      induction l with
      | nil => simp
      | cons x l ih =>
        intro a
        obtain ⟨b, rfl⟩ := h' x (by simp)
        rw [List.foldl_cons, XF.add_fin, ih (fun y hy => h' y (by simp [hy])), List.map_cons, List.sum_cons, XF.toK, add_assoc]
    unfold XF.sum
    rw [this, zero_add]

/-- C142 (exact arithmetic): without rounding the computation is the one of C66, on any series. -/
theorem C142_exact (em : ErrModel) (side : String) (s : List (ℤ × XF ℝ)) :
    cswRunR em id Real.sqrt Real.log List.sum 4.6 side s = cswRun em side s := by
  have hrnd : ∀ x : XF ℝ, rnd id x = x := fun x => by cases x <;> rfl
  have hsq : ∀ x : XF ℝ, sqrtR Real.sqrt x = XF.sqrt x := fun x => by cases x <;> rfl
  have hlg : ∀ x : XF ℝ, logR Real.log x = XF.log x := fun x => by cases x <;> rfl
  have hd : ∀ a b : XF ℝ, divR em id a b = divE em a b := fun a b => by unfold divR divE; rw [hrnd]
  have hy : ∀ a b : XF ℝ, yDiffR id side a b = yDiff side a b := fun a b => by unfold yDiffR yDiff; simp only [hrnd]
  have hin : ∀ (sigma : XF ℝ) (t : ℕ) (yt : XF ℝ) (l : List (XF ℝ)) (j : ℕ) (st : XF ℝ × XF ℝ),
      innerR em id Real.sqrt Real.log 4.6 side sigma t yt j l st = inner em side sigma t yt j l st := by
    intro sigma t yt l
    induction l with
    | nil => intro j st; rfl
    | cons y l ih =>
      intro j st
      unfold innerR Brk.inner
      simp only [hrnd, hsq, hlg, hd, hy, id, ih]
  have hsig : ∀ (l : List (XF ℝ)) (t : ℕ), sigmaSqR id List.sum l t = sigmaSq l t := by
    intro l t
    unfold sigmaSqR sigmaSq
    have e : squareR (id : ℝ → ℝ) = fun x => XF.mul x x := funext fun x => by rw [squareR, hrnd]
    rw [npSumR_sum, hrnd, e]
    simp only [hrnd, id]
  have hst : statAtR em id Real.sqrt Real.log List.sum 4.6 side (s.map (·.2)) = statAt em side (s.map (·.2)) := by
    funext t
    unfold statAtR statAt
    rw [hsig, hin]
  unfold cswRunR cswRun
  rw [hst]

variable {p n d : ℕ} {sq lg : ℚ → ℚ} {sm : List ℚ → ℚ}

private theorem stepVar_pos_or (y : ℕ → ℝ) (t : ℕ) (ht : 2 ≤ t) : 0 < stepVar y t ∨ stepVar y t = 0 := by
  rcases (stepVar_nonneg y t ht).lt_or_eq with h | h
  · exact Or.inl h
  · exact Or.inr h.symm

private theorem run_rows (A : Arith p n d sq lg sm) (em : ErrModel) {side : String} {g : ℝ → ℝ → ℝ} (hs : SideFn side g) {s : List (ℤ × XF ℚ)}
    {y : ℕ → ℚ} (h : CompleteQ s y) (hok : em = .numpy ∨ y 1 ≠ y 0) (hn : s.length ≤ n + 1) (hlen : s.length < 2 ^ p) :
    ∃ out, cswRunR em (roundBits p) sq lg sm (roundBits p (46 / 10)) side s = .ok out ∧ out.length = s.length - 1 ∧
      ∀ t, 2 ≤ t → t ≤ s.length → ∃ r, out[t - 2]? = some r ∧ some r.1 = (s.map (·.1))[t - 1]? ∧
        (stepVar (fun i => (y i : ℝ)) t = 0 → r.2 = (.ninf, .nan)) ∧
        (0 < stepVar (fun i => (y i : ℝ)) t → ∃ k, IsFirstMax (fun k => ((depQ (roundBits p) sq sm side y t k : ℚ) : ℝ)) (t - 1) k ∧
          r.2 = (.fin (depQ (roundBits p) sq sm side y t k), .fin (critQ (roundBits p) sq lg (roundBits p (46 / 10)) t k))) := by
  have h' : ∀ i < (s.map (·.2)).length, (s.map (·.2))[i]? = some (.fin (y i)) := fun i hi => h i (by simpa using hi)
  have key : ∀ t, 2 ≤ t → t ≤ s.length → ∃ r, statAtR em (roundBits p) sq lg sm (roundBits p (46 / 10)) side (s.map (·.2)) t = .ok r ∧
      (stepVar (fun i => (y i : ℝ)) t = 0 → r = (.ninf, .nan)) ∧
      (0 < stepVar (fun i => (y i : ℝ)) t → ∃ k, IsFirstMax (fun k => ((depQ (roundBits p) sq sm side y t k : ℚ) : ℝ)) (t - 1) k ∧
        r = (.fin (depQ (roundBits p) sq sm side y t k), .fin (critQ (roundBits p) sq lg (roundBits p (46 / 10)) t k))) := by
    intro t h2 ht
    obtain ⟨a, b⟩ := statAtR_spec A em hs h' t h2 (by simpa using ht) (by omega) (by omega)
    rcases stepVar_pos_or (fun i => (y i : ℝ)) t h2 with hv | hv
    · obtain ⟨k, k1, k2⟩ := a hv
      exact ⟨_, k2, fun h0 => absurd h0 hv.ne', fun _ => ⟨k, k1, rfl⟩⟩
    · rcases hok with rfl | hok
      · exact ⟨_, (b hv).1, fun _ => rfl, fun h0 => absurd hv h0.ne'⟩
      · exfalso
        have := (stepVar_zero_iff _ t h2).1 hv 0 (by omega)
        exact hok (by exact_mod_cast this)
  obtain ⟨v, hv⟩ := mapE_ok_of_exists (statAtR em (roundBits p) sq lg sm (roundBits p (46 / 10)) side (s.map (·.2)))
    ((List.range (s.length - 1)).map fun i => i + 2) (by
      intro t ht
      obtain ⟨i, hi, rfl⟩ := List.mem_map.1 ht
      rw [List.mem_range] at hi
      obtain ⟨r, h1, -⟩ := key (i + 2) (by omega) (by omega)
      exact ⟨r, h1⟩)
  have hvl := mapE_length hv
  simp only [List.length_map, List.length_range] at hvl
  refine ⟨_, by unfold cswRunR; rw [hv, Py.bind_ok], by simp [hvl], ?_⟩
  intro t ht1 ht2
  obtain ⟨r, h1, h2⟩ := mapE_getElem?_ok hv (t - 2) t (by
    rw [List.getElem?_map, List.getElem?_range (by omega)]; simp; omega)
  obtain ⟨r', h3, h4⟩ := key t ht1 ht2
  rw [h2] at h3
  simp only [Except.ok.injEq] at h3
  subst h3
  have hidx : (s.map (·.1)).tail[t - 2]? = some ((s.map (·.1))[t - 1]'(by simp; omega)) := by
    rw [List.getElem?_tail, show t - 2 + 1 = t - 1 by omega, List.getElem?_eq_getElem]
  refine ⟨((s.map (·.1))[t - 1]'(by simp; omega), r), ?_, ?_, h4⟩
  · rw [List.getElem?_zip_eq_some]
    exact ⟨hidx, h1⟩
  · rw [List.getElem?_eq_getElem]

/-- C142 (error): for every complete series of floats whose first two values differ (or any, with NumPy's division) the test returns one
row for every `t` from the second value on, minus infinity while the series is constant.  Afterwards the statistic is the exact supremum
of C66 up to a relative error of `δ = 2 (d + 8) / 2 ^ p`, whatever the signs and sizes of the values.  The critical value is, up to ten
units in the last place, the one of some `k` whose exact departure is within the rounding of the statistic of being the greatest. -/
theorem C142_error (A : Arith p n d sq lg sm) (em : ErrModel) (side : String) (g : ℝ → ℝ → ℝ) (hs : SideFn side g) (s : List (ℤ × XF ℚ))
    (y : ℕ → ℚ) (h : CompleteQ s y) (hok : em = .numpy ∨ y 1 ≠ y 0) (hn : s.length ≤ n + 1) (hlen : s.length < 2 ^ p) (δ : ℝ)
    (hδ : δ = 2 * (d + 8) / 2 ^ p) (hδ1 : δ ≤ 1) :
    ∃ out, cswRunR em (roundBits p) sq lg sm (roundBits p (46 / 10)) side s = .ok out ∧ out.length = s.length - 1 ∧
      ∀ t, 2 ≤ t → t ≤ s.length → ∃ r, out[t - 2]? = some r ∧ some r.1 = (s.map (·.1))[t - 1]? ∧
        (stepVar (fun i => (y i : ℝ)) t = 0 → r.2 = (.ninf, .nan)) ∧
        (0 < stepVar (fun i => (y i : ℝ)) t → ∃ (k : ℕ) (v c : ℚ), 1 ≤ k ∧ k < t ∧ r.2 = (.fin v, .fin c) ∧
          (∀ m, IsFirstMax (departure g (fun i => (y i : ℝ)) t) (t - 1) m →
            |(v : ℝ) - departure g (fun i => (y i : ℝ)) t m| ≤ δ * |departure g (fun i => (y i : ℝ)) t m|) ∧
          |(v : ℝ) - departure g (fun i => (y i : ℝ)) t k| ≤ δ * |departure g (fun i => (y i : ℝ)) t k| ∧
          |(c : ℝ) - √(4.6 + Real.log ((t : ℝ) - k))| ≤ 10 / 2 ^ p * √(4.6 + Real.log ((t : ℝ) - k)) ∧
          ∀ m, 1 ≤ m → m < t → departure g (fun i => (y i : ℝ)) t m - δ * |departure g (fun i => (y i : ℝ)) t m| ≤
            departure g (fun i => (y i : ℝ)) t k + δ * |departure g (fun i => (y i : ℝ)) t k|) := by
  obtain ⟨he0, he⟩ := eps_real A.bits
  have he1 : (1 : ℝ) / 2 ^ p < 1 := by linarith
  obtain ⟨out, o1, o2, o3⟩ := run_rows A em hs h hok hn hlen
  refine ⟨out, o1, o2, fun t h2 ht => ?_⟩
  obtain ⟨r, r1, r2, r3, r4⟩ := o3 t h2 ht
  refine ⟨r, r1, r2, r3, fun hv => ?_⟩
  obtain ⟨k, ⟨k1, k2, k3, k4⟩, k5⟩ := r4 hv
  have hδe : δ = 2 * (((d + 8 : ℕ) : ℝ) * (1 / 2 ^ p)) := by rw [hδ]; push_cast; ring
  have hδ0 : 0 ≤ δ := by rw [hδe]; positivity
  have herr : ∀ m < t, |((depQ (roundBits p) sq sm side y t m : ℚ) : ℝ) - departure g (fun i => (y i : ℝ)) t m| ≤
      δ * |departure g (fun i => (y i : ℝ)) t m| := by
    intro m hm
    rw [hδe]
    exact Fac.err he0.le he1 (fac_departure A hs y t h2 (by omega) (by omega) m hm).1 (by rw [← hδe]; exact hδ1)
  generalize hS : departure g (fun i => (y i : ℝ)) t = S at *
  have hmono : ∀ a b : ℝ, a ≤ b → a + δ * |a| ≤ b + δ * |b| := by
    intro a b hab
    have h1 : |a| - |b| ≤ b - a := by
      have := abs_sub_abs_le_abs_sub a b
      rw [abs_of_nonpos (show a - b ≤ 0 by linarith)] at this
      linarith
    have h2 : δ * (|a| - |b|) ≤ b - a := by
      rcases le_total 0 (|a| - |b|) with h3 | h3
      · exact (mul_le_of_le_one_left h3 hδ1).trans h1
      · exact (mul_nonpos_of_nonneg_of_nonpos hδ0 h3).trans (by linarith)
    linarith
  refine ⟨k, _, _, k1, by omega, k5, ?_, herr k (by omega), ?_, ?_⟩
  · intro m ⟨m1, m2, m3, m4⟩
    have h1 := abs_le.1 (herr k (by omega))
    have h2 := abs_le.1 (herr m (by omega))
    have h3 := k4 m m1 m2
    have h4 := hmono _ _ (m4 k k1 k2)
    dsimp only at h3
    rw [abs_le]
    constructor <;> linarith
  · have := Fac.err he0.le he1 (fac_critical A t k (by omega) (by omega)).1 (by push_cast; linarith)
    rw [abs_of_nonneg (Real.sqrt_nonneg (4.6 + Real.log ((t : ℝ) - k)))] at this
    rw [show (10 : ℝ) / 2 ^ p = 2 * (((5 : ℕ) : ℝ) * (1 / 2 ^ p)) by push_cast; ring]
    exact this
  · intro m m1 m2
    have h1 := abs_le.1 (herr k (by omega))
    have h2 := abs_le.1 (herr m m2)
    have h3 := k4 m m1 (by omega)
    dsimp only at h3
    linarith

/-- C142 (decision): let the exact departure at `m` exceed all others by more than the rounding of both.  Then the critical value belongs
to `m`, and comparing the statistic with it has the same outcome as in exact arithmetic unless the two are closer than their rounding. -/
theorem C142_decision (A : Arith p n d sq lg sm) (em : ErrModel) (side : String) (g : ℝ → ℝ → ℝ) (hs : SideFn side g) (s : List (ℤ × XF ℚ))
    (y : ℕ → ℚ) (h : CompleteQ s y) (hok : em = .numpy ∨ y 1 ≠ y 0) (hn : s.length ≤ n + 1) (hlen : s.length < 2 ^ p) (δ : ℝ)
    (hδ : δ = 2 * (d + 8) / 2 ^ p) (hδ1 : δ ≤ 1) (t : ℕ) (h2 : 2 ≤ t) (ht : t ≤ s.length) (hv : 0 < stepVar (fun i => (y i : ℝ)) t)
    (m : ℕ) (hm1 : 1 ≤ m) (hm2 : m < t) (S C : ℝ) (hS : S = departure g (fun i => (y i : ℝ)) t m) (hC : C = √(4.6 + Real.log ((t : ℝ) - m)))
    (hsep : ∀ k, 1 ≤ k → k < t → k ≠ m →
      departure g (fun i => (y i : ℝ)) t k + δ * |departure g (fun i => (y i : ℝ)) t k| < S - δ * |S|) :
    ∃ out r v c, cswRunR em (roundBits p) sq lg sm (roundBits p (46 / 10)) side s = .ok out ∧ out[t - 2]? = some r ∧
      r.2 = (.fin v, .fin c) ∧ |(v : ℝ) - S| ≤ δ * |S| ∧ |(c : ℝ) - C| ≤ 10 / 2 ^ p * C ∧
      (δ * |S| + 10 / 2 ^ p * C < |S - C| → (c < v ↔ C < S)) := by
  obtain ⟨out, o1, -, o3⟩ := C142_error A em side g hs s y h hok hn hlen δ hδ hδ1
  obtain ⟨r, r1, -, -, r4⟩ := o3 t h2 ht
  obtain ⟨k, v, c, k1, k2, k3, -, k5, k6, k7⟩ := r4 hv
  have hkm : k = m := by
    by_contra hne
    have h1 := hsep k k1 k2 hne
    have h2 := k7 m hm1 hm2
    rw [← hS] at h2
    linarith
  subst hkm
  rw [← hS] at k5
  rw [← hC] at k6
  refine ⟨out, r, v, c, o1, r1, k3, k5, k6, fun hmar => ?_⟩
  obtain ⟨h1, h1'⟩ := abs_le.1 k5
  obtain ⟨h3, h3'⟩ := abs_le.1 k6
  have hcast : c < v ↔ (c : ℝ) < v := by exact_mod_cast Iff.rfl
  rw [hcast]
  constructor
  · intro hlt
    by_contra hle
    rw [not_lt] at hle
    rw [abs_of_nonpos (show S - C ≤ 0 by linarith)] at hmar
    linarith
  · intro hlt
    rw [abs_of_pos (show 0 < S - C by linarith)] at hmar
    linarith

/-- C142 (error): with numba's default error model a series that starts with two equal values raises `ZeroDivisionError`, as in exact
arithmetic, and by `C142_error` no other complete series does. -/
theorem C142_constant_start (A : Arith p n d sq lg sm) (side : String) (g : ℝ → ℝ → ℝ) (hs : SideFn side g) (s : List (ℤ × XF ℚ))
    (y : ℕ → ℚ) (h : CompleteQ s y) (hn : s.length ≤ n + 1) (hlen : s.length < 2 ^ p) (h2 : 2 ≤ s.length) (h0 : y 1 = y 0) :
    cswRunR .python (roundBits p) sq lg sm (roundBits p (46 / 10)) side s = .error .zeroDivisionError := by
  unfold cswRunR
  have h' : ∀ i < (s.map (·.2)).length, (s.map (·.2))[i]? = some (.fin (y i)) := fun i hi => h i (by simpa using hi)
  have hz : stepVar (fun i => (y i : ℝ)) 2 = 0 := (stepVar_zero_iff _ 2 (le_refl _)).2 (by
    intro i hi
    rw [show i = 0 by omega, h0])
  have e := ((statAtR_spec A .python hs h' 2 le_rfl (by simpa using h2) (by omega) (by omega)).2 hz).2
  obtain ⟨m, hm⟩ : ∃ m, s.length - 1 = m + 1 := ⟨s.length - 2, by omega⟩
  rw [hm, List.range_succ_eq_map, List.map_cons]
  simp only [Nat.zero_add, mapE, e]
  rfl

/-- C142 (two-sided): also with rounding the two-sided statistic is exactly the greater of the two one-sided ones. -/
theorem C142_two_sided (A : Arith p n d sq lg sm) (em : ErrModel) (s : List (ℤ × XF ℚ)) (y : ℕ → ℚ) (h : CompleteQ s y)
    (hok : em = .numpy ∨ y 1 ≠ y 0) (hn : s.length ≤ n + 1) (hlen : s.length < 2 ^ p) :
    ∃ pos neg two, cswRunR em (roundBits p) sq lg sm (roundBits p (46 / 10)) "one_sided_positive" s = .ok pos ∧
      cswRunR em (roundBits p) sq lg sm (roundBits p (46 / 10)) "one_sided_negative" s = .ok neg ∧
      cswRunR em (roundBits p) sq lg sm (roundBits p (46 / 10)) "two_sided" s = .ok two ∧
      ∀ t, 2 ≤ t → t ≤ s.length → 0 < stepVar (fun i => (y i : ℝ)) t →
      ∃ a b, ((pos[t - 2]?.map fun r => r.2.1) = some (.fin a)) ∧ ((neg[t - 2]?.map fun r => r.2.1) = some (.fin b)) ∧
        ((two[t - 2]?.map fun r => r.2.1) = some (.fin (max a b))) := by
  have hp1 : 1 ≤ p := by have := A.bits; omega
  have he1 : (1 : ℝ) / 2 ^ p < 1 := by have := (eps_real A.bits).2; linarith
  obtain ⟨pos, p1, -, p3⟩ := run_rows A em (side := "one_sided_positive") (Or.inl ⟨rfl, rfl⟩) h hok hn hlen
  obtain ⟨neg, n1, -, n3⟩ := run_rows A em (side := "one_sided_negative") (Or.inr (Or.inl ⟨rfl, rfl⟩)) h hok hn hlen
  obtain ⟨two, t1, -, t3⟩ := run_rows A em (side := "two_sided") (Or.inr (Or.inr ⟨rfl, rfl⟩)) h hok hn hlen
  refine ⟨pos, neg, two, p1, n1, t1, ?_⟩
  intro t ht1 ht2 hv
  obtain ⟨r1, e1, -, -, hr1⟩ := p3 t ht1 ht2
  obtain ⟨r2, e2, -, -, hr2⟩ := n3 t ht1 ht2
  obtain ⟨r3, e3, -, -, hr3⟩ := t3 t ht1 ht2
  obtain ⟨k1, m1, q1⟩ := hr1 hv
  obtain ⟨k2, m2, q2⟩ := hr2 hv
  obtain ⟨k3, m3, q3⟩ := hr3 hv
  refine ⟨_, _, by rw [e1, Option.map_some, q1], by rw [e2, Option.map_some, q2], ?_⟩
  rw [e3, Option.map_some, q3]
  dsimp only
  congr 2
  have habs : ∀ k, 1 ≤ k → k ≤ t - 1 → depQ (roundBits p) sq sm "two_sided" y t k =
      max (depQ (roundBits p) sq sm "one_sided_positive" y t k) (depQ (roundBits p) sq sm "one_sided_negative" y t k) := by
    intro k hk1 hk2
    have hpos := Fac.pos he1 (fac_departure A (Or.inl ⟨rfl, rfl⟩) y t ht1 (by omega) (by omega) k (by omega)).2.1 (Real.sqrt_pos.2 (mul_pos hv (by
      have : (k : ℝ) < t := by exact_mod_cast (by omega : k < t)
      linarith)))
    have hposQ : 0 < sq (roundBits p (stepVarQ (roundBits p) sm y t * roundBits p ((t : ℚ) - k))) := by exact_mod_cast hpos
    have hm : Monotone (roundBits p) := fun a b hab => roundBits_mono p hp1 hab
    unfold depQ
    rw [← hm.map_max, max_div_div_right hposQ.le]
    congr 2
    unfold sideQ
    rw [if_neg (by decide), if_neg (by decide), if_pos rfl, if_neg (by decide), if_pos rfl, abs_eq_max_neg, ← roundBits_neg, neg_sub]
  have c1 : ∀ k, 1 ≤ k → k ≤ t - 1 → depQ (roundBits p) sq sm "one_sided_positive" y t k ≤ depQ (roundBits p) sq sm "one_sided_positive" y t k1 :=
    fun k a b => Rat.cast_le.1 (m1.2.2.2 k a b)
  have c2 : ∀ k, 1 ≤ k → k ≤ t - 1 → depQ (roundBits p) sq sm "one_sided_negative" y t k ≤ depQ (roundBits p) sq sm "one_sided_negative" y t k2 :=
    fun k a b => Rat.cast_le.1 (m2.2.2.2 k a b)
  have c3 : ∀ k, 1 ≤ k → k ≤ t - 1 → depQ (roundBits p) sq sm "two_sided" y t k ≤ depQ (roundBits p) sq sm "two_sided" y t k3 :=
    fun k a b => Rat.cast_le.1 (m3.2.2.2 k a b)
  apply le_antisymm
  · rw [habs k3 m3.1 m3.2.1]
    exact max_le_max (c1 k3 m3.1 m3.2.1) (c2 k3 m3.1 m3.2.1)
  · apply max_le
    · refine le_trans ?_ (c3 k1 m1.1 m1.2.1)
      rw [habs k1 m1.1 m1.2.1]; exact le_max_left _ _
    · refine le_trans ?_ (c3 k2 m2.1 m2.2.1)
      rw [habs k2 m2.1 m2.2.1]; exact le_max_right _ _

private theorem sub_neg_neg {K : Type} [Field K] [LinearOrder K] (x z : XF K) : XF.sub (XF.neg x) (XF.neg z) = XF.sub z x := by
  cases x <;> cases z <;> simp [XF.sub, XF.neg, XF.add]
  ring

private theorem sub_swap {K : Type} [Field K] [LinearOrder K] (x z : XF K) : XF.sub z x = XF.neg (XF.sub x z) := by
  cases x <;> cases z <;> simp [XF.sub, XF.neg, XF.add]

/-- C142 (mirror): with rounding that treats both signs alike, changing the sign of any series exchanges the one-sided tests and leaves
every number as it is. -/
theorem C142_mirror {K : Type} [Field K] [LinearOrder K] [IsStrictOrderedRing K] (em : ErrModel) (r sq lg : K → K) (hr : ∀ x, r (-x) = -r x)
    (sm : List K → K) (b : K) (side : String) (s : List (ℤ × XF K)) :
    cswRunR em r sq lg sm b (mirrored side) (s.map fun x => (x.1, XF.neg x.2)) = cswRunR em r sq lg sm b side s := by
  have hrn : ∀ x : XF K, rnd r (XF.neg x) = XF.neg (rnd r x) := fun x => by cases x <;> simp [rnd, XF.neg, hr]
  have habs : ∀ x : XF K, XF.abs (XF.neg x) = XF.abs x := fun x => by cases x <;> simp [XF.abs, XF.neg]
  have hy : ∀ x z : XF K, yDiffR r (mirrored side) (XF.neg x) (XF.neg z) = yDiffR r side x z := by
    intro x z
    unfold yDiffR mirrored
    by_cases h1 : side = "one_sided_positive"
    · subst h1
      simp [sub_neg_neg]
    · by_cases h2 : side = "one_sided_negative"
      · subst h2
        simp [sub_neg_neg]
      · rw [if_neg h1, if_neg h2, if_neg h1, if_neg h2, if_neg h1, if_neg h2, sub_neg_neg, sub_swap, hrn, habs]
  have hsqr : ∀ x : XF K, squareR r (XF.neg x) = squareR r x := fun x => by cases x <;> simp [squareR, XF.mul, XF.neg]
  have hsig : ∀ (l : List (XF K)) (t : ℕ), sigmaSqR r sm (l.map XF.neg) t = sigmaSqR r sm l t := by
    intro l t
    unfold sigmaSqR
    congr 3
    rw [← List.map_tail, List.zipWith_map, List.map_zipWith, List.map_zipWith]
    congr 1
    funext x z
    rw [sub_neg_neg, sub_swap, hrn, hsqr]
  have hin : ∀ (sigma : XF K) (t : ℕ) (yt : XF K) (l : List (XF K)) (j : ℕ) (st : XF K × XF K),
      innerR em r sq lg b (mirrored side) sigma t (XF.neg yt) j (l.map XF.neg) st = innerR em r sq lg b side sigma t yt j l st := by
    intro sigma t yt l
    induction l with
    | nil => intro j st; rfl
    | cons y l ih =>
      intro j st
      rw [List.map_cons]
      unfold innerR
      simp only [hy, ih]
  have hst : statAtR em r sq lg sm b (mirrored side) ((s.map (·.2)).map XF.neg) = statAtR em r sq lg sm b side (s.map (·.2)) := by
    generalize s.map (·.2) = v
    funext t
    unfold statAtR
    rw [← List.map_take, ← List.map_take, hsig]
    have hd : ((v.take t).map XF.neg).getD (t - 1) .nan = XF.neg ((v.take t).getD (t - 1) .nan) := by
      rw [List.getD_eq_getElem?_getD, List.getD_eq_getElem?_getD, List.getElem?_map]
      cases (v.take t)[t - 1]? <;> simp [XF.neg]
    rw [hd, hin]
  unfold cswRunR
  rw [List.map_map, List.map_map, List.length_map]
  have e1 : s.map ((fun r : ℤ × XF K => r.2) ∘ fun r => (r.1, XF.neg r.2)) = (s.map (·.2)).map XF.neg := by rw [List.map_map]; rfl
  have e2 : s.map ((fun r : ℤ × XF K => r.1) ∘ fun r => (r.1, XF.neg r.2)) = s.map (·.1) := rfl
  rw [e1, e2, hst]

/-- C142 (unit): multiplying any series by a positive number with which rounding, square root and summation commute, such as a power of
two, changes neither the statistic nor the critical value in a single bit. -/
theorem C142_scale {K : Type} [Field K] [LinearOrder K] [IsStrictOrderedRing K] (em : ErrModel) (r sq lg : K → K) (sm : List K → K) (c : K)
    (hc : 0 < c) (hr : ∀ x, r (x * c) = r x * c) (hsq : ∀ x, 0 ≤ x → sq (x * (c * c)) = sq x * c)
    (hsm : ∀ l, sm (l.map (· * (c * c))) = sm l * (c * c)) (b : K) (side : String) (s : List (ℤ × XF K)) :
    cswRunR em r sq lg sm b side (s.map fun x => (x.1, XF.mul x.2 (.fin c))) = cswRunR em r sq lg sm b side s := by
  have hcc : 0 < c * c := mul_pos hc hc
  have hr2 : ∀ x, r (x * (c * c)) = r x * (c * c) := fun x => by rw [← mul_assoc, hr, hr, mul_assoc]
  have hi : XF.infSign c = .pinf := by simp [XF.infSign, hc]
  have hi2 : XF.infSign (c * c) = .pinf := by simp [XF.infSign, hcc]
  have hrc : ∀ x : XF K, rnd r (XF.mul x (.fin c)) = XF.mul (rnd r x) (.fin c) := fun x => by
    cases x <;> simp [rnd, XF.mul, hr, hi, XF.neg]
  have hrc2 : ∀ x : XF K, rnd r (XF.mul x (.fin (c * c))) = XF.mul (rnd r x) (.fin (c * c)) := fun x => by
    cases x <;> simp [rnd, XF.mul, hr2, hi2, XF.neg]
  have hsub : ∀ x z : XF K, XF.sub (XF.mul x (.fin c)) (XF.mul z (.fin c)) = XF.mul (XF.sub x z) (.fin c) := by
    intro x z
    cases x <;> cases z <;> simp [XF.sub, XF.mul, XF.neg, XF.add, hi]
    ring
  have habs : ∀ x : XF K, XF.abs (XF.mul x (.fin c)) = XF.mul (XF.abs x) (.fin c) := by
    intro x
    cases x <;> simp [XF.abs, XF.mul, XF.neg, hi, abs_mul, abs_of_pos hc]
  have hy : ∀ x z : XF K, yDiffR r side (XF.mul x (.fin c)) (XF.mul z (.fin c)) = XF.mul (yDiffR r side x z) (.fin c) := by
    intro x z
    unfold yDiffR
    simp only [hsub, hrc, habs]
    split_ifs <;> rfl
  have hsqr : ∀ x : XF K, squareR r (XF.mul x (.fin c)) = XF.mul (squareR r x) (.fin (c * c)) := by
    intro x
    rw [squareR, squareR, ← hrc2]
    congr 1
    cases x <;> simp [XF.mul, XF.neg, hi, hi2]
    ring
  have hsum : ∀ l : List (XF K), npSumR sm (l.map fun x => XF.mul x (.fin (c * c))) = XF.mul (npSumR sm l) (.fin (c * c)) := by
    intro l
    have hu : ∀ x : XF K, (XF.mul x (.fin (c * c))).undef = x.undef := fun x => by
      cases x <;> simp [XF.mul, hi2, XF.undef, XF.isNan, XF.isInf, XF.neg]
    have hany : (l.map fun x => XF.mul x (.fin (c * c))).any XF.undef = l.any XF.undef := by
      rw [List.any_map]
      congr 1
      funext x
      exact hu x
    unfold npSumR
    rw [hany]
    split_ifs with h
    · have : ∀ a : XF K, (l.map fun x => XF.mul x (.fin (c * c))).foldl XF.add (XF.mul a (.fin (c * c))) =
          XF.mul (l.foldl XF.add a) (.fin (c * c)) := by
        clear h hany
        induction l with
        | nil => intro a; rfl
        | cons x l ih =>
          intro a
          rw [List.map_cons, List.foldl_cons, List.foldl_cons, ← ih]
          congr 1
          cases a <;> cases x <;> simp [XF.mul, XF.add, hi2, XF.neg]
          ring
      have h0 := this (.fin 0)
      rw [XF.mul_fin, zero_mul] at h0
      exact h0
    · rw [XF.mul_fin, ← hsm, List.map_map, List.map_map]
      congr 2
      apply List.map_congr_left
      intro x hx
      rw [Bool.not_eq_true, List.any_eq_false] at h
      obtain ⟨a, rfl⟩ := fin_of_defined (by simpa using h x hx)
      rfl
  have hsig : ∀ (l : List (XF K)) (t : ℕ), sigmaSqR r sm (l.map fun x => XF.mul x (.fin c)) t = XF.mul (sigmaSqR r sm l t) (.fin (c * c)) := by
    intro l t
    unfold sigmaSqR
    rw [← hrc2, ← List.map_tail, List.zipWith_map]
    have e : (List.zipWith (fun a b => rnd r (XF.sub (XF.mul a (.fin c)) (XF.mul b (.fin c)))) l.tail l).map (squareR r) =
        ((List.zipWith (fun a b => rnd r (XF.sub a b)) l.tail l).map (squareR r)).map fun x => XF.mul x (.fin (c * c)) := by
      rw [List.map_map, List.map_zipWith, List.map_zipWith]
      congr 1
      funext x z
      rw [Function.comp_apply, hsub, hrc, hsqr]
    rw [e, hsum]
    congr 1
    generalize npSumR sm ((List.zipWith (fun a b => rnd r (XF.sub a b)) l.tail l).map (squareR r)) = x
    generalize r ((t : K) - 1) = q
    cases x with
    | nan => rfl
    | pinf => by_cases hq : q < 0 <;> simp [XF.mul, XF.div, hi2, XF.neg, hq]
    | ninf => by_cases hq : q < 0 <;> simp [XF.mul, XF.div, hi2, XF.neg, hq]
    | fin x =>
      by_cases hq : q = 0
      · rcases lt_trichotomy x 0 with hx | hx | hx
        · simp [XF.mul, XF.div, hq, XF.infSign, hcc, hx, not_lt.2 hx.le, XF.neg, mul_neg_of_neg_of_pos hx hcc, not_lt.2 (mul_neg_of_neg_of_pos hx hcc).le]
        · simp [XF.mul, XF.div, hq, XF.infSign, hx]
        · simp [XF.mul, XF.div, hq, XF.infSign, hcc, hx, mul_pos hx hcc]
      · simp [XF.mul, XF.div, hq]
        ring
  have hroot : ∀ (x : XF K) (q : K), sqrtR sq (rnd r (XF.mul (XF.mul x (.fin (c * c))) (.fin q))) =
      XF.mul (sqrtR sq (rnd r (XF.mul x (.fin q)))) (.fin c) := by
    intro x q
    have e : XF.mul (XF.mul x (.fin (c * c))) (.fin q) = XF.mul (XF.mul x (.fin q)) (.fin (c * c)) := by
      cases x with
      | nan => rfl
      | fin x => simp [XF.mul]; ring
      | pinf => rcases lt_trichotomy q 0 with hq | hq | hq <;> simp [XF.mul, hi2, XF.infSign, hq, hcc, not_lt.2 hq.le, XF.neg] <;> simp [hq, hcc]
      | ninf => rcases lt_trichotomy q 0 with hq | hq | hq <;> simp [XF.mul, hi2, XF.infSign, hq, hcc, not_lt.2 hq.le, XF.neg] <;> simp [hq, hcc]
    rw [e, hrc2]
    generalize rnd r (XF.mul x (.fin q)) = z
    cases z with
    | nan => rfl
    | pinf => simp [XF.mul, hi, hi2, sqrtR]
    | ninf => simp [XF.mul, hi2, sqrtR, XF.neg]
    | fin z =>
      by_cases hz : z < 0
      · simp [XF.mul, sqrtR, hz, mul_neg_of_neg_of_pos hz hcc]
      · have hz' : 0 ≤ z := not_lt.1 hz
        simp [XF.mul, sqrtR, hz, not_lt.2 (mul_nonneg hz' hcc.le), hsq z hz']
  have hdiv : ∀ x z : XF K, divR em r (XF.mul x (.fin c)) (XF.mul z (.fin c)) = divR em r x z := by
    intro x z
    unfold divR
    have e1 : XF.beq (XF.mul z (.fin c)) (.fin 0) = XF.beq z (.fin 0) := by
      cases z <;> simp [XF.mul, hi, XF.neg, XF.beq, hc.ne']
    have e2 : XF.div (XF.mul x (.fin c)) (XF.mul z (.fin c)) = XF.div x z := by
      cases z with
      | nan => cases x <;> simp [XF.mul, XF.div, hi, XF.neg]
      | pinf => cases x <;> simp [XF.mul, XF.div, hi, XF.neg]
      | ninf => cases x <;> simp [XF.mul, XF.div, hi, XF.neg]
      | fin z =>
        have hz : z * c < 0 ↔ z < 0 := ⟨fun h => by
          by_contra hx
          exact absurd h (not_lt.2 (mul_nonneg (not_lt.1 hx) hc.le)), fun h => mul_neg_of_neg_of_pos h hc⟩
        cases x with
        | nan => rfl
        | pinf => simp [XF.mul, XF.div, hi, hz]
        | ninf => simp [XF.mul, XF.div, hi, XF.neg, hz]
        | fin x =>
          by_cases h0 : z = 0
          · have h1 : 0 < x * c ↔ 0 < x := mul_pos_iff_of_pos_right hc
            have h2 : x * c < 0 ↔ x < 0 := ⟨fun h => by
              by_contra hx
              exact absurd h (not_lt.2 (mul_nonneg (not_lt.1 hx) hc.le)), fun h => mul_neg_of_neg_of_pos h hc⟩
            simp [XF.mul, XF.div, h0, XF.infSign, h1, h2]
          · simp [XF.mul, XF.div, h0, hc.ne']
            field_simp
    rw [e1, e2]
  have hin : ∀ (sigma : XF K) (t : ℕ) (yt : XF K) (l : List (XF K)) (j : ℕ) (st : XF K × XF K),
      innerR em r sq lg b side (XF.mul sigma (.fin (c * c))) t (XF.mul yt (.fin c)) j (l.map fun x => XF.mul x (.fin c)) st =
        innerR em r sq lg b side sigma t yt j l st := by
    intro sigma t yt l
    induction l with
    | nil => intro j st; rfl
    | cons y l ih =>
      intro j st
      rw [List.map_cons]
      unfold innerR
      simp only [hy, hroot, hdiv, ih]
  have hst : statAtR em r sq lg sm b side ((s.map (·.2)).map fun x => XF.mul x (.fin c)) = statAtR em r sq lg sm b side (s.map (·.2)) := by
    generalize s.map (·.2) = v
    funext t
    unfold statAtR
    rw [← List.map_take, ← List.map_take, hsig]
    have hd : ((v.take t).map fun x => XF.mul x (.fin c)).getD (t - 1) .nan =
        XF.mul ((v.take t).getD (t - 1) .nan) (.fin c) := by
      rw [List.getD_eq_getElem?_getD, List.getD_eq_getElem?_getD, List.getElem?_map]
      cases (v.take t)[t - 1]? <;> simp [XF.mul]
    rw [hd, hin]
  unfold cswRunR
  rw [List.map_map, List.map_map, List.length_map]
  have e1 : s.map ((fun r : ℤ × XF K => r.2) ∘ fun r => (r.1, XF.mul r.2 (.fin c))) = (s.map (·.2)).map fun x => XF.mul x (.fin c) := by
    rw [List.map_map]; rfl
  have e2 : s.map ((fun r : ℤ × XF K => r.1) ∘ fun r => (r.1, XF.mul r.2 (.fin c))) = s.map (·.1) := rfl
  rw [e1, e2, hst]

section Examples

private theorem exists_root : ∃ sq : ℚ → ℚ, GoodSqrt 53 sq := by
  have : ∀ x : ℚ, ∃ v : ℚ, 0 ≤ x → |(v : ℝ) - √x| ≤ √x / 2 ^ 53 := by
    intro x
    rcases (Real.sqrt_nonneg (x : ℝ)).eq_or_lt with h | h
    · exact ⟨0, fun _ => by simp [← h]⟩
    · have hpos : 0 < √(x : ℝ) / 2 ^ 53 := by positivity
      obtain ⟨v, h1, h2⟩ := exists_rat_btwn (show √(x : ℝ) < √x + √x / 2 ^ 53 by linarith)
      exact ⟨v, fun _ => abs_le.2 ⟨by linarith, by linarith⟩⟩
  choose sq h using this
  exact ⟨sq, h⟩

private theorem exists_ln : ∃ lg : ℚ → ℚ, GoodLog 53 lg := by
  have : ∀ x : ℚ, ∃ v : ℚ, |(v : ℝ) - Real.log x| ≤ 2 * |Real.log x| / 2 ^ 53 := by
    intro x
    rcases (abs_nonneg (Real.log x)).eq_or_lt with h | h
    · exact ⟨0, by rw [← h]; simp [abs_eq_zero.1 h.symm]⟩
    · have hpos : 0 < 2 * |Real.log x| / 2 ^ 53 := by positivity
      obtain ⟨v, h1, h2⟩ := exists_rat_btwn (show Real.log x < Real.log x + 2 * |Real.log x| / 2 ^ 53 by linarith)
      exact ⟨v, abs_le.2 ⟨by linarith, by linarith⟩⟩
  choose lg h using this
  exact ⟨lg, fun x _ => h x⟩

/-- A square root of double precision that commutes with multiplication by four. -/
theorem exists_scaled_root : ∃ sq : ℚ → ℚ, GoodSqrt 53 sq ∧ ∀ x, 0 ≤ x → sq (x * (2 * 2)) = sq x * 2 := by
  obtain ⟨sq, h⟩ := exists_root
  refine ⟨fun x => if x = 0 then 0 else sq (x / 4 ^ Int.log 4 x) * 2 ^ Int.log 4 x, ?_, ?_⟩
  · intro x hx
    by_cases h0 : x = 0
    · simp [h0]
    · simp only [if_neg h0]
      have hz : (0 : ℚ) < 4 ^ Int.log 4 x := zpow_pos (by norm_num) _
      have h2 : (0 : ℝ) < 2 ^ Int.log 4 x := zpow_pos (by norm_num) _
      have h1 := h (x / 4 ^ Int.log 4 x) (div_nonneg hx hz.le)
      have e : √(x : ℝ) = √((x / 4 ^ Int.log 4 x : ℚ) : ℝ) * 2 ^ Int.log 4 x := by
        rw [← Real.sqrt_sq h2.le, ← Real.sqrt_mul (by exact_mod_cast div_nonneg hx hz.le)]
        congr 1
        push_cast
        rw [← zpow_natCast, ← zpow_mul, mul_comm (Int.log 4 x), zpow_mul]
        norm_num
        rw [div_mul_cancel₀]
        exact (zpow_pos (by norm_num) _).ne'
      rw [e, Rat.cast_mul, Rat.cast_zpow, Rat.cast_ofNat, ← sub_mul, abs_mul, abs_of_pos h2, mul_div_right_comm]
      exact mul_le_mul_of_nonneg_right h1 h2.le
  · intro x hx
    by_cases h0 : x = 0
    · simp [h0]
    · have hpos : 0 < x := lt_of_le_of_ne hx (Ne.symm h0)
      have hlog : Int.log 4 (x * (2 * 2)) = Int.log 4 x + 1 := by
        apply le_antisymm
        · rw [← Int.lt_add_one_iff, ← Int.lt_zpow_iff_log_lt (by norm_num) (by positivity), zpow_add₀ (by norm_num)]
          have := Int.lt_zpow_succ_log_self (b := 4) (by norm_num) x
          push_cast at this ⊢
          norm_num
          linarith
        · rw [← Int.zpow_le_iff_le_log (by norm_num) (by positivity), zpow_add₀ (by norm_num)]
          have := Int.zpow_log_le_self (b := 4) (by norm_num) hpos
          push_cast at this ⊢
          norm_num
          linarith
      have e : x * (2 * 2) / 4 ^ (Int.log 4 x + 1) = x / 4 ^ Int.log 4 x := by
        rw [zpow_add₀ (by norm_num)]
        have hz : (4 : ℚ) ^ Int.log 4 x ≠ 0 := (zpow_pos (by norm_num) _).ne'
        field_simp
        norm_num
      simp only [if_neg h0, if_neg (show x * (2 * 2) ≠ 0 by positivity), hlog, e]
      rw [zpow_add₀ (by norm_num), zpow_one, mul_assoc]

private theorem sumLeft_scale {r : ℚ → ℚ} {c : ℚ} (hr : ∀ x, r (x * c) = r x * c) (l : List ℚ) :
    sumLeft r (l.map (· * c)) = sumLeft r l * c := by
  cases l with
  | nil => simp [sumLeft]
  | cons x l =>
    show (l.map (· * c)).foldl (fun a y => r (a + y)) (x * c) = l.foldl (fun a y => r (a + y)) x * c
    induction l generalizing x with
    | nil => rfl
    | cons y l ih =>
      rw [List.map_cons, List.foldl_cons, List.foldl_cons, ← add_mul, hr]
      exact ih _

/-- Values 0, 1, 3 at times 10, 20, 30. -/
private def series : List (ℤ × XF ℚ) := [(10, .fin 0), (20, .fin 1), (30, .fin 3)]
private def seriesY (i : ℕ) : ℚ := if i = 0 then 0 else if i = 1 then 1 else 3

private theorem series_complete : CompleteQ series seriesY := by
  intro i hi
  simp only [series, List.length_cons, List.length_nil] at hi
  match i, hi with
  | 0, _ => rfl
  | 1, _ => rfl
  | 2, _ => rfl

private theorem arith : ∃ sq lg, Arith 53 2 1 sq lg (sumLeft (roundBits 53)) := by
  obtain ⟨sq, h1⟩ := exists_root
  obtain ⟨lg, h2⟩ := exists_ln
  exact ⟨sq, lg, by norm_num, h1, h2, C138_left_to_right _ 1⟩

private theorem series_var : stepVar (fun i => (seriesY i : ℝ)) 3 = 5 / 2 := by
  unfold stepVar
  simp [Finset.sum_range_succ, seriesY]
  norm_num

private theorem dep1 : departure (fun a b => a - b) (fun i => (seriesY i : ℝ)) 3 1 = 3 / √5 := by
  unfold departure
  rw [series_var]
  simp [seriesY]
  norm_num

private theorem dep2 : departure (fun a b => a - b) (fun i => (seriesY i : ℝ)) 3 2 = 2 / √(5 / 2) := by
  unfold departure
  rw [series_var]
  simp [seriesY]
  norm_num

/-- The statistic of the third value in double precision, and no break is reported. -/
example : ∃ (sq lg : ℚ → ℚ) (out : List (ℤ × XF ℚ × XF ℚ)) (r : ℤ × XF ℚ × XF ℚ) (v c : ℚ), Arith 53 2 1 sq lg (sumLeft (roundBits 53)) ∧
    cswRunR .python (roundBits 53) sq lg (sumLeft (roundBits 53)) (roundBits 53 (46 / 10)) "one_sided_positive" series = .ok out ∧
    out[1]? = some r ∧ r.2 = (.fin v, .fin c) ∧ |(v : ℝ) - 3 / √5| ≤ 18 / 2 ^ 53 * (3 / √5) ∧ ¬ c < v := by
  obtain ⟨sq, lg, A⟩ := arith
  have h5 : (0 : ℝ) < √5 := by positivity
  have hs1 : 3 / √5 ≤ 27 / 20 := by
    rw [div_le_iff₀ h5]
    have : (20 / 9 : ℝ) ≤ √5 := Real.le_sqrt_of_sq_le (by norm_num)
    linarith
  have hs2 : 4 / 3 ≤ 3 / √5 := by
    rw [le_div_iff₀ h5]
    have : √5 ≤ (9 / 4 : ℝ) := by rw [Real.sqrt_le_left (by norm_num)]; norm_num
    linarith
  have hs3 : 2 / √(5 / 2) ≤ 13 / 10 := by
    rw [div_le_iff₀ (by positivity)]
    have : (20 / 13 : ℝ) ≤ √(5 / 2) := Real.le_sqrt_of_sq_le (by norm_num)
    linarith
  have hs4 : (0 : ℝ) ≤ 2 / √(5 / 2) := by positivity
  have hC1 : (2 : ℝ) ≤ √(4.6 + Real.log (((3 : ℕ) : ℝ) - ((1 : ℕ) : ℝ))) := by
    apply Real.le_sqrt_of_sq_le
    have : 0 ≤ Real.log (((3 : ℕ) : ℝ) - ((1 : ℕ) : ℝ)) := Real.log_nonneg (by norm_num)
    norm_num at this ⊢
    linarith
  obtain ⟨out, r, v, c, o1, o2, o3, o4, o5, o6⟩ := C142_decision A .python "one_sided_positive" _ (Or.inl ⟨rfl, rfl⟩) series seriesY
    series_complete (Or.inr (by decide +kernel)) (by simp [series]) (by norm_num [series]) (18 / 2 ^ 53) (by norm_num) (by norm_num) 3 (by omega)
    (by simp [series]) (by rw [series_var]; norm_num) 1 le_rfl (by omega) _ _ rfl rfl (by
      intro k k1 k2 k3
      have : k = 2 := by omega
      subst this
      rw [dep1, dep2, abs_of_nonneg hs4, abs_of_nonneg (by linarith)]
      norm_num at hs1 hs2 hs3 ⊢
      linarith)
  rw [dep1] at o4 o6
  rw [abs_of_pos (show (0 : ℝ) < 3 / √5 by positivity)] at o4 o6
  refine ⟨sq, lg, out, r, v, c, A, o1, o2, o3, o4, ?_⟩
  generalize √(4.6 + Real.log (((3 : ℕ) : ℝ) - ((1 : ℕ) : ℝ))) = C at *
  generalize (3 : ℝ) / √5 = S at *
  rw [o6 ?_, not_lt]
  · linarith
  · rw [abs_of_nonpos (by linarith)]
    norm_num
    linarith

/-- The other statements apply to the same series. -/
example : ∃ sq lg : ℚ → ℚ, (∀ x, 0 ≤ x → sq (x * (2 * 2)) = sq x * 2) ∧ Arith 53 2 1 sq lg (sumLeft (roundBits 53)) ∧
    cswRunR .python (roundBits 53) sq lg (sumLeft (roundBits 53)) (roundBits 53 (46 / 10)) "two_sided"
      (series.map fun x => (x.1, XF.mul x.2 (.fin 2))) =
    cswRunR .python (roundBits 53) sq lg (sumLeft (roundBits 53)) (roundBits 53 (46 / 10)) "two_sided" series ∧
    ∃ pos neg two, cswRunR .python (roundBits 53) sq lg (sumLeft (roundBits 53)) (roundBits 53 (46 / 10)) "one_sided_positive" series = .ok pos ∧
      cswRunR .python (roundBits 53) sq lg (sumLeft (roundBits 53)) (roundBits 53 (46 / 10)) "one_sided_positive"
        (series.map fun x => (x.1, XF.neg x.2)) = .ok neg ∧
      cswRunR .python (roundBits 53) sq lg (sumLeft (roundBits 53)) (roundBits 53 (46 / 10)) "two_sided" series = .ok two := by
  obtain ⟨sq, h1, h2⟩ := exists_scaled_root
  obtain ⟨lg, h3⟩ := exists_ln
  have A : Arith 53 2 1 sq lg (sumLeft (roundBits 53)) := ⟨by norm_num, h1, h3, C138_left_to_right _ 1⟩
  have hr : ∀ k : ℤ, ∀ x, roundBits 53 (x * 2 ^ k) = roundBits 53 x * 2 ^ k := fun k x => roundBits_zpow 53 k x
  refine ⟨sq, lg, h2, A, ?_, ?_⟩
  · exact C142_scale .python _ sq lg _ 2 (by norm_num) (by simpa using hr 1) h2 (fun l => sumLeft_scale (by
      have := hr 2
      norm_num at this ⊢
      exact this) l) _ _ _
  · obtain ⟨pos, neg, two, p1, n1, t1, -⟩ := C142_two_sided A .python series seriesY series_complete (Or.inr (by decide +kernel))
      (by simp [series]) (by norm_num [series])
    refine ⟨pos, neg, two, p1, ?_, t1⟩
    rw [← n1]
    exact C142_mirror .python (roundBits 53) sq lg (roundBits_neg 53) _ _ "one_sided_negative" series

/-- A series that starts with two equal values. -/
example : ∃ sq lg : ℚ → ℚ, cswRunR .python (roundBits 53) sq lg (sumLeft (roundBits 53)) (roundBits 53 (46 / 10)) "two_sided"
    [(10, .fin 7), (20, .fin 7), (30, .fin 9)] = .error .zeroDivisionError := by
  obtain ⟨sq, lg, A⟩ := arith
  refine ⟨sq, lg, C142_constant_start A "two_sided" _ (Or.inr (Or.inr ⟨rfl, rfl⟩)) _ (fun i => if i = 2 then 9 else 7) ?_ (by simp)
    (by norm_num) (by simp) (by simp)⟩
  intro i hi
  simp only [List.length_cons, List.length_nil] at hi
  match i, hi with
  | 0, _ => rfl
  | 1, _ => rfl
  | 2, _ => rfl

end Examples

end Mizar.Props
