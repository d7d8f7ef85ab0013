import Verif.Model.Sdfc
import Verif.Spec.Sdfc
import Verif.Props.Ols
import Verif.Props.Csw

/-! Property theorems C69: the Chow-type Dickey-Fuller test (`/repo/mizarlabs/structural_breaks/sdfc.py`). -/

namespace Mizar.Props
open Mizar.Spec Mizar.Brk

theorem complete_getElem {s : List (ℤ × XF ℝ)} {y : ℕ → ℝ} (h : Complete s y) (i : ℕ) (hi : i < s.length) : s[i].2 = .fin (y i) := by
  have h1 := h i hi
  rw [List.getElem?_map, List.getElem?_eq_getElem hi] at h1
  simpa using h1

theorem dfColumns_complete {s : List (ℤ × XF ℝ)} {y : ℕ → ℝ} (h : Complete s y) :
    dfColumns s = ((List.range (s.length - 1)).map fun i => .fin (y (i + 1) - y i), (List.range (s.length - 1)).map fun i => .fin (y i)) := by
  have e1 : List.zipWith (fun a b => XF.sub a.2 b.2) s.tail s = (List.range (s.length - 1)).map fun i => XF.fin (y (i + 1) - y i) := by
    apply List.ext_getElem
    · simp
    · intro i h1 h2
      simp only [List.length_map, List.length_range] at h2
      rw [List.getElem_zipWith, List.getElem_map, List.getElem_range, List.getElem_tail, complete_getElem h (i + 1) (by omega),
        complete_getElem h i (by omega), XF.sub_fin]
  have e2 : s.dropLast.map (·.2) = (List.range (s.length - 1)).map fun i => XF.fin (y i) := by
    apply List.ext_getElem
    · simp
    · intro i h1 h2
      simp only [List.length_map, List.length_range] at h2
      rw [List.getElem_map, List.getElem_map, List.getElem_range, List.getElem_dropLast, complete_getElem h i (by omega)]
  unfold dfColumns
  rw [e1, e2]
  congr 1 <;>
  · rw [List.filter_eq_self]
    intro r hr
    obtain ⟨i, -, rfl⟩ := List.mem_map.1 hr
    rfl

theorem dfcAt_complete (em : ErrModel) (y : ℕ → ℝ) (n b : ℕ) :
    dfcAt em ((List.range (n - 1)).map fun i => .fin (y (i + 1) - y i)) ((List.range (n - 1)).map fun i => .fin (y i)) b =
      tValue em 0 ((breakRows y n b).map liftRow) := by
  unfold dfcAt
  dsimp only
  rw [if_neg (by simp)]
  congr 1
  apply List.ext_getElem
  · simp [breakRows]
  · intro i h1 h2
    simp [breakRows, liftRow]

theorem breakRows_fullRank (y : ℕ → ℝ) (n b : ℕ) : FullRank (breakRows y n b) ↔ ∃ i, b ≤ i ∧ i + 1 < n ∧ y i ≠ 0 := by
  constructor
  · intro h
    by_contra hne
    push Not at hne
    have := h (fun _ => 1) (by
      intro r hr
      obtain ⟨i, hi, rfl⟩ := List.mem_map.1 hr
      rw [List.mem_range] at hi
      simp only [predict, Finset.univ_unique, Finset.sum_singleton]
      split
      · simp
      · rw [hne i (by omega) (by omega)]; simp)
    have := congrFun this 0
    simp at this
  · rintro ⟨i, h1, h2, h3⟩ c hc
    have := hc (fun _ => if i < b then 0 else y i, y (i + 1) - y i) (List.mem_map.2 ⟨i, List.mem_range.2 (by omega), rfl⟩)
    simp only [predict, Finset.univ_unique, Finset.sum_singleton, if_neg (show ¬ i < b by omega), mul_eq_zero, h3, false_or] at this
    funext j
    rw [Subsingleton.elim j default, this]; rfl

/-- C69 (statistic): for a complete series the result has one value for every position with at least `m` changes before
and after it; it is the t-value of the lagged level in the regression whose level only counts from this position on.
Assumed for each position: a level from it on is not zero, and the changes are not exactly proportional.  Not covered here: missing values
(`C69_leading_missing`, `C69_gap`; with missing values in front it is false, `C69_leading_missing_refuted`). -/
theorem C69_statistic_partial (em : ErrModel) (m : ℕ) (s : List (ℤ × XF ℝ)) (y : ℕ → ℝ) (h : Complete s y) (hlen : 3 ≤ s.length)
    (hp : ∀ b, m ≤ b → b + m < s.length → (∃ i, b ≤ i ∧ i + 1 < s.length ∧ y i ≠ 0) ∧ NoExactFit (breakRows y s.length b)) :
    ∃ out, sdfcRun em m s = .ok out ∧ out.length = s.length - 2 * m ∧
      ∀ b (_ : m ≤ b) (hb : b + m < s.length), ∃ r, out[b - m]? = some (s[b].1, .fin r) ∧ IsTValue (breakRows y s.length b) 0 r ∧
        ∀ r', IsTValue (breakRows y s.length b) 0 r' → r' = r := by
  have hch : ∀ b, ∃ r, m ≤ b → b + m < s.length → tValue em 0 ((breakRows y s.length b).map liftRow) = .ok (.fin r) ∧
      IsTValue (breakRows y s.length b) 0 r ∧ ∀ r', IsTValue (breakRows y s.length b) 0 r' → r' = r := by
    intro b
    by_cases hb : m ≤ b ∧ b + m < s.length
    · obtain ⟨h1, h2⟩ := hp b hb.1 hb.2
      obtain ⟨r, hr⟩ := C67_t_value em (breakRows y s.length b) ((breakRows_fullRank y s.length b).2 h1) (by simp [breakRows]; omega) h2 0
      exact ⟨r, fun _ _ => hr⟩
    · exact ⟨0, fun h1 h2 => absurd ⟨h1, h2⟩ hb⟩
  choose r hr using hch
  have hmap : mapE (dfcAt em (dfColumns s).1 (dfColumns s).2) ((List.range (s.length - m - m)).map fun i => m + i) =
      .ok (((List.range (s.length - m - m)).map fun i => m + i).map fun b => .fin (r b)) := by
    apply mapE_ok_of_forall
    intro b hb
    obtain ⟨i, hi, rfl⟩ := List.mem_map.1 hb
    rw [List.mem_range] at hi
    rw [dfColumns_complete h, dfcAt_complete]
    exact (hr (m + i) (by omega) (by omega)).1
  refine ⟨_, by unfold sdfcRun; dsimp only; rw [hmap, Py.bind_ok], by simp; omega, ?_⟩
  intro b hb1 hb2
  refine ⟨r b, ?_, (hr b hb1 hb2).2⟩
  rw [List.getElem?_zip_eq_some]
  simp only [List.map_map, List.getElem?_map, List.getElem?_range (show b - m < s.length - m - m by omega), Option.map_some, Function.comp_apply,
    show m + (b - m) = b by omega, Option.some.injEq, and_true]
  rw [List.getD_eq_getElem?_getD, List.getElem?_map, List.getElem?_eq_getElem (by omega)]; rfl

/-- C69 (value): the t-value in closed form. -/
theorem C69_value (y : ℕ → ℝ) (n b : ℕ) (h : ∃ i, b ≤ i ∧ i + 1 < n ∧ y i ≠ 0) (r : ℝ) :
    IsTValue (breakRows y n b) 0 r ↔
      let sxx := ∑ i ∈ Finset.Ico b (n - 1), y i ^ 2
      let beta := (∑ i ∈ Finset.Ico b (n - 1), y i * (y (i + 1) - y i)) / sxx
      let res := ∑ i ∈ Finset.range (n - 1), (y (i + 1) - y i - (if b ≤ i then beta * y i else 0)) ^ 2
      r = beta / Real.sqrt (res / (((n - 1 : ℕ) : ℝ) - 1) / sxx) := by
  have hf := (breakRows_fullRank y n b).2 h
  rw [isTValue_iff _ hf]
  dsimp only
  have hico : ∀ g : ℕ → ℝ, ((List.range (n - 1)).map fun i => if i < b then 0 else g i).sum = ∑ i ∈ Finset.Ico b (n - 1), g i := by
    intro g
    rw [sum_map_range, ← Finset.sum_filter_not_add_sum_filter (Finset.range (n - 1)) (fun i => b ≤ i)]
    have h1 : ∑ i ∈ Finset.range (n - 1) with ¬ b ≤ i, (if i < b then 0 else g i) = 0 := by
      apply Finset.sum_eq_zero
      intro i hi
      rw [Finset.mem_filter] at hi
      rw [if_pos (by omega)]
    rw [h1, zero_add]
    have h2 : Finset.filter (fun i => b ≤ i) (Finset.range (n - 1)) = Finset.Ico b (n - 1) := by
      ext i
      simp only [Finset.mem_filter, Finset.mem_range, Finset.mem_Ico]; tauto
    rw [h2]
    apply Finset.sum_congr rfl
    intro i hi
    rw [Finset.mem_Ico] at hi
    rw [if_neg (by omega)]
  have hg : gram (breakRows y n b) = Matrix.of fun _ _ => ∑ i ∈ Finset.Ico b (n - 1), y i ^ 2 := by
    ext i j
    unfold gram breakRows
    rw [Matrix.of_apply, Matrix.of_apply, List.map_map, ← hico]
    congr 1
    apply List.map_congr_left
    intro q _
    simp only [Function.comp_apply]
    split <;> ring
  set sxx := ∑ i ∈ Finset.Ico b (n - 1), y i ^ 2 with hsxx
  have hdet := (fullRank_iff _).1 hf
  have hne : sxx ≠ 0 := by
    rw [hg, Matrix.det_unique] at hdet
    exact hdet
  have hinv : (gram (breakRows y n b))⁻¹ = Matrix.of fun _ _ => sxx⁻¹ := by
    apply Matrix.inv_eq_left_inv
    rw [hg]
    ext i j
    rw [Subsingleton.elim i 0, Subsingleton.elim j 0, Matrix.mul_apply]
    simp [hne]
  have hbeta : betaR (breakRows y n b) = fun _ => (∑ i ∈ Finset.Ico b (n - 1), y i * (y (i + 1) - y i)) / sxx := by
    funext j
    unfold betaR
    rw [hinv]
    simp only [Matrix.mulVec, dotProduct, Finset.univ_unique, Finset.sum_singleton, Matrix.of_apply]
    rw [← hico, div_eq_inv_mul]
    congr 2
    unfold breakRows
    rw [List.map_map]
    apply List.map_congr_left
    intro q _
    simp only [Function.comp_apply]
    split <;> ring
  have hrss : ∀ c : ℝ, rss (breakRows y n b) (fun _ => c) =
      ∑ i ∈ Finset.range (n - 1), (y (i + 1) - y i - (if b ≤ i then c * y i else 0)) ^ 2 := by
    intro c
    unfold rss breakRows
    rw [List.map_map, ← sum_map_range]
    congr 1
    apply List.map_congr_left
    intro q _
    simp only [Function.comp_apply, predict, Finset.univ_unique, Finset.sum_singleton]
    by_cases hq : q < b
    · rw [if_pos hq, if_neg (by omega)]; ring
    · rw [if_neg hq, if_pos (by omega)]; ring
  rw [hbeta, hrss, hinv]
  simp only [Matrix.of_apply, breakRows, List.length_map, List.length_range, Nat.cast_one, div_eq_mul_inv]

/-- C69 (no margin): with `min_num_samples = 0` the last position leaves no level, and every non-empty series raises. -/
theorem C69_no_margin (em : ErrModel) (s : List (ℤ × XF ℝ)) (y : ℕ → ℝ) (h : Complete s y) (hs : s ≠ []) :
    ∃ e, sdfcRun em 0 s = .error e := by
  unfold sdfcRun
  dsimp only
  have hlen : 0 < s.length := List.length_pos_iff.2 hs
  have hlast : dfcAt em (dfColumns s).1 (dfColumns s).2 (s.length - 1) = .error .linAlgError := by
    rw [dfColumns_complete h, dfcAt_complete]
    unfold tValue
    rw [(C67_rank_deficient _).1]
    · rfl
    · rw [breakRows_fullRank]
      rintro ⟨i, h1, h2, -⟩
      omega
  cases hm : mapE (dfcAt em (dfColumns s).1 (dfColumns s).2) ((List.range (s.length - 0 - 0)).map fun i => 0 + i) with
  | error e => exact ⟨e, rfl⟩
  | ok v =>
    obtain ⟨r, -, hr⟩ := mapE_getElem?_ok hm (s.length - 1) (s.length - 1) (by
      rw [List.getElem?_map, List.getElem?_range (by omega)]; simp)
    rw [hlast] at hr
    cases hr

/-- C69 (short series): a series with at most twice `min_num_samples` values gives an empty result. -/
theorem C69_short (em : ErrModel) (m : ℕ) (s : List (ℤ × XF ℝ)) (h : s.length ≤ 2 * m) : sdfcRun em m s = .ok [] := by
  unfold sdfcRun
  dsimp only
  rw [show s.length - m - m = 0 by omega]
  rfl

/-- C69 (missing value): if a single value after the first is missing, the two columns have different lengths and every
position raises. -/
theorem C69_missing_value (em : ErrModel) (m : ℕ) (s : List (ℤ × XF ℝ)) (h : 2 * m < s.length) (p : ℕ) (hp : 1 ≤ p) (hps : p < s.length)
    (hnan : s[p].2 = .nan) (hfin : ∀ i (hi : i < s.length), i ≠ p → ∃ x, s[i].2 = .fin x) : sdfcRun em m s = .error .valueError := by
  have hne : (dfColumns s).2.length ≠ (dfColumns s).1.length := by
    unfold dfColumns
    rw [← List.countP_eq_length_filter, ← List.countP_eq_length_filter]
    -- per change: the difference is missing when either value is, the level when the first one is
    have e1 : List.zipWith (fun a b => XF.sub a.2 b.2) s.tail s =
        (List.range (s.length - 1)).map fun i => XF.sub (s.getD (i + 1) (0, .nan)).2 (s.getD i (0, .nan)).2 := by
      apply List.ext_getElem
      · simp
      · intro i h1 h2
        simp only [List.length_map, List.length_range] at h2
        rw [List.getElem_zipWith, List.getElem_map, List.getElem_range, List.getElem_tail, List.getD_eq_getElem _ _ (by omega),
          List.getD_eq_getElem _ _ (by omega)]
    have e2 : s.dropLast.map (·.2) = (List.range (s.length - 1)).map fun i => (s.getD i (0, .nan)).2 := by
      apply List.ext_getElem
      · simp
      · intro i h1 h2
        simp only [List.length_map, List.length_range] at h2
        rw [List.getElem_map, List.getElem_map, List.getElem_range, List.getElem_dropLast, List.getD_eq_getElem _ _ (by omega)]
    rw [e1, e2, List.countP_map, List.countP_map]
    have hfin' : ∀ i, i < s.length → i ≠ p → ∃ x, (s.getD i (0, .nan)).2 = .fin x := by
      intro i hi hip
      rw [List.getD_eq_getElem _ _ hi]; exact hfin i hi hip
    have hnan' : (s.getD p (0, .nan)).2 = .nan := by rw [List.getD_eq_getElem _ _ hps]; exact hnan
    have c1 : List.countP ((fun x : XF ℝ => !x.isNan) ∘ fun i => XF.sub (s.getD (i + 1) (0, .nan)).2 (s.getD i (0, .nan)).2)
        (List.range (s.length - 1)) = List.countP (fun i => decide (i + 1 ≠ p ∧ i ≠ p)) (List.range (s.length - 1)) := by
      apply List.countP_congr
      intro i hi
      rw [List.mem_range] at hi
      simp only [Function.comp_apply]
      by_cases h1 : i = p
      · subst h1; rw [hnan']; simp
      · by_cases h2 : i + 1 = p
        · rw [h2, hnan']; simp
        · obtain ⟨a, ha⟩ := hfin' i (by omega) h1
          obtain ⟨b, hb⟩ := hfin' (i + 1) (by omega) h2
          rw [ha, hb]; simp [h1, h2]
    have c2 : List.countP ((fun x : XF ℝ => !x.isNan) ∘ fun i => (s.getD i (0, .nan)).2) (List.range (s.length - 1)) =
        List.countP (fun i => decide (i ≠ p)) (List.range (s.length - 1)) := by
      apply List.countP_congr
      intro i hi
      rw [List.mem_range] at hi
      simp only [Function.comp_apply]
      by_cases h1 : i = p
      · subst h1; rw [hnan']; simp
      · obtain ⟨a, ha⟩ := hfin' i (by omega) h1
        rw [ha]; simp [h1]
    rw [c1, c2]
    -- the change that ends at `p` only counts in the second column
    have hsplit : List.countP (fun i => decide (i ≠ p)) (List.range (s.length - 1)) =
        List.countP (fun i => decide (i + 1 ≠ p ∧ i ≠ p)) (List.range (s.length - 1)) +
        List.countP (fun i => decide (i + 1 = p)) (List.range (s.length - 1)) := by
      generalize List.range (s.length - 1) = l
      induction l with
      | nil => rfl
      | cons a l ih =>
        simp only [List.countP_cons, ih]
        by_cases h1 : a + 1 = p
        · have : a ≠ p := by omega
          simp [h1, this]; omega
        · by_cases h2 : a = p <;> simp [h1, h2] <;> omega
    have hpos : 0 < List.countP (fun i => decide (i + 1 = p)) (List.range (s.length - 1)) := by
      rw [List.countP_pos_iff]
      exact ⟨p - 1, List.mem_range.2 (by omega), by simp; omega⟩
    omega
  unfold sdfcRun
  dsimp only
  have hfirst : dfcAt em (dfColumns s).1 (dfColumns s).2 m = .error .valueError := by
    unfold dfcAt
    dsimp only
    rw [if_pos (by simpa using hne)]
  obtain ⟨q, hq⟩ : ∃ q, s.length - m - m = q + 1 := ⟨s.length - m - m - 1, by omega⟩
  rw [hq, List.range_succ_eq_map, List.map_cons]
  simp only [Nat.add_zero, mapE, hfirst]
  rfl

section Examples

/-- Levels 1, 2, 1, 2 at times 0 to 3. -/
def chow : List (ℤ × XF ℝ) := [(0, .fin 1), (1, .fin 2), (2, .fin 1), (3, .fin 2)]
noncomputable def chowY (i : ℕ) : ℝ := ([1, 2, 1, 2] : List ℝ).getD i 0

private theorem chow_complete : Complete chow chowY := by
  intro i hi
  simp only [chow, List.length_cons, List.length_nil] at hi
  match i, hi with
  | 0, _ => simp [chow, chowY]
  | 1, _ => simp [chow, chowY]
  | 2, _ => simp [chow, chowY]
  | 3, _ => simp [chow, chowY]

/-- Two positions, 1 and 2; the first change, before either, cannot be fitted. -/
theorem sdfc_chow_run (em : ErrModel) : ∃ a b, sdfcRun em 1 chow = .ok [(1, .fin a), (2, .fin b)] ∧ IsTValue (breakRows chowY 4 1) 0 a ∧
    IsTValue (breakRows chowY 4 2) 0 b := by
  have hp : ∀ b, 1 ≤ b → b + 1 < chow.length → (∃ i, b ≤ i ∧ i + 1 < chow.length ∧ chowY i ≠ 0) ∧ NoExactFit (breakRows chowY chow.length b) := by
    intro b h1 h2
    have h2' : b + 1 < 4 := h2
    refine ⟨⟨2, by omega, by simp [chow], by simp [chowY]⟩, fun c => ⟨(fun _ => if 0 < b then 0 else chowY 0, chowY 1 - chowY 0),
      List.mem_map.2 ⟨0, by simp [chow], rfl⟩, ?_⟩⟩
    rw [if_pos (by omega)]
    simp [predict, chowY]
    norm_num
  obtain ⟨out, h1, h2, h3⟩ := C69_statistic_partial em 1 chow chowY chow_complete (by simp [chow]) hp
  obtain ⟨a, a1, a2, -⟩ := h3 1 (by omega) (by simp [chow])
  obtain ⟨b, b1, b2, -⟩ := h3 2 (by omega) (by simp [chow])
  refine ⟨a, b, ?_, a2, b2⟩
  rw [h1]
  have hlen : out.length = 2 := by rw [h2]; simp [chow]
  match out, hlen with
  | [u, v], _ =>
    simp [chow] at a1 b1
    rw [a1, b1]

end Examples

/-- A break at the second value of 1, 2, 1, 2. -/
example : IsTValue (breakRows chowY 4 1) 0 (-1 / 5 / Real.sqrt (7 / 25)) := by
  rw [C69_value chowY 4 1 ⟨1, by omega, by omega, by simp [chowY]⟩]
  intro sxx beta res
  have hs : sxx = 5 := by simp [sxx, Finset.sum_Ico_succ_top, chowY]; norm_num
  have hb : beta = -1 / 5 := by simp only [beta, hs]; simp [Finset.sum_Ico_succ_top, chowY]; norm_num
  have hr : res = 14 / 5 := by simp only [res, hb]; simp [Finset.sum_range_succ, chowY]; norm_num
  rw [hs, hb, hr]
  norm_num

example (em : ErrModel) : ∃ e, sdfcRun em 0 chow = .error e := C69_no_margin em chow chowY chow_complete (by simp [chow])

example (em : ErrModel) : sdfcRun em 2 chow = .ok [] := C69_short em 2 chow (by simp [chow])

example (em : ErrModel) : sdfcRun em 1 [(0, .fin 1), (1, .nan), (2, .fin 1), (3, .fin 2)] = .error .valueError :=
  C69_missing_value em 1 _ (by simp) 1 (by omega) (by simp) rfl fun i hi h => by
    have hi' : i < 4 := hi
    interval_cases i <;> simp_all

end Mizar.Props
