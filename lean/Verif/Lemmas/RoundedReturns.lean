import Verif.Spec.RoundedReturns
import Verif.Lemmas.SampleWeights
import Verif.Lemmas.RoundedLog

/-! Helper lemmas for C138. -/

namespace Mizar.Rd
open Mizar.Spec

section
variable {K : Type} [Field K] [LinearOrder K]

theorem eval_zero {r : K → K} (h0 : r 0 = 0) (t : AddTree K) (h : ∀ x ∈ t.leaves, x = 0) : t.eval r = 0 := by
  induction t with
  | leaf x => exact h x (by simp [AddTree.leaves])
  | node a b ha hb =>
    rw [AddTree.eval, ha fun x hx => h x (by simp [AddTree.leaves, hx]), hb fun x hx => h x (by simp [AddTree.leaves, hx]), add_zero, h0]

theorem eval_id (t : AddTree K) : t.eval id = t.leaves.sum := by
  induction t with
  | leaf x => simp [AddTree.eval, AddTree.leaves]
  | node a b ha hb => simp [AddTree.eval, AddTree.leaves, ha, hb]

private theorem foldl_nan (l : List (XF K)) : l.foldl XF.add .nan = .nan := by
  induction l with
  | nil => rfl
  | cons x l ih => rw [List.foldl_cons]; cases x <;> exact ih

private theorem foldl_pinf (l : List (XF K)) (h : XF.nan ∉ l) : l.foldl XF.add .pinf = if XF.ninf ∈ l then .nan else .pinf := by
  induction l with
  | nil => rfl
  | cons x l ih =>
    have hl : XF.nan ∉ l := fun hx => h (by simp [hx])
    cases x with
    | nan => simp at h
    | ninf => rw [List.foldl_cons, if_pos (by simp)]; exact foldl_nan l
    | pinf => rw [List.foldl_cons, show XF.add (XF.pinf : XF K) .pinf = .pinf from rfl, ih hl]; simp
    | fin y => rw [List.foldl_cons, show XF.add (XF.pinf : XF K) (.fin y) = .pinf from rfl, ih hl]; simp

private theorem foldl_ninf (l : List (XF K)) (h : XF.nan ∉ l) : l.foldl XF.add .ninf = if XF.pinf ∈ l then .nan else .ninf := by
  induction l with
  | nil => rfl
  | cons x l ih =>
    have hl : XF.nan ∉ l := fun hx => h (by simp [hx])
    cases x with
    | nan => simp at h
    | pinf => rw [List.foldl_cons, if_pos (by simp)]; exact foldl_nan l
    | ninf => rw [List.foldl_cons, show XF.add (XF.ninf : XF K) .ninf = .ninf from rfl, ih hl]; simp
    | fin y => rw [List.foldl_cons, show XF.add (XF.ninf : XF K) (.fin y) = .ninf from rfl, ih hl]; simp

private theorem foldl_fin (l : List (XF K)) (h : XF.nan ∉ l) (a : K) : l.foldl XF.add (.fin a) =
    nansumR (fun s => a + s.sum) l := by
  induction l generalizing a with
  | nil => simp [nansumR]
  | cons x l ih =>
    have hl : XF.nan ∉ l := fun hx => h (by simp [hx])
    cases x with
    | nan => simp at h
    | pinf =>
      rw [List.foldl_cons, show XF.add (XF.fin a : XF K) .pinf = .pinf from rfl, foldl_pinf l hl, nansumR]
      simp
    | ninf =>
      rw [List.foldl_cons, show XF.add (XF.fin a : XF K) .ninf = .ninf from rfl, foldl_ninf l hl, nansumR]
      simp
    | fin y =>
      rw [List.foldl_cons, XF.add_fin, ih hl, nansumR, nansumR]
      simp [add_assoc]

theorem nansumR_sum (l : List (XF K)) : nansumR List.sum l = XF.nansum l := by
  rw [XF.nansum, XF.sum, foldl_fin _ (by simp [XF.isNan]), nansumR, nansumR]
  have h1 : ∀ x : XF K, x.isNan = false → (x ∈ l.filter (fun x => !x.isNan) ↔ x ∈ l) := by
    intro x hx
    simp [hx]
  simp only [h1 .pinf rfl, h1 .ninf rfl, zero_add]
  congr 3
  induction l with
  | nil => rfl
  | cons x l ih => cases x <;> simp_all [XF.isNan]

theorem calcR_formula (r : K → K) (sm : List K → K) (n : ℕ) (bar stop : ℕ → ℤ) (ret : ℕ → Option K) (conc : ℕ → K)
    (hc : ∀ k < n, conc k ≠ 0) :
    calculateWeightsR r sm ((List.range n).map bar) ((List.range n).map stop) ((List.range n).map fun k => .fin (conc k))
      ((List.range n).map fun k => match ret k with | some x => .fin x | none => .nan) =
    (List.range n).map fun i => .fin |sm (((List.range n).filter fun k => decide (bar i ≤ bar k) && decide (bar k ≤ stop i)).filterMap
      fun k => (ret k).map fun x => r (x / conc k))| := by
  unfold calculateWeightsR
  rw [SW.zip_range, SW.zip_range, SW.zip_range, List.map_map]
  apply List.map_congr_left
  intro i _
  simp only [Function.comp_apply]
  rw [List.filter_map, List.map_map]
  set l := (List.range n).filter ((fun b : ℤ × XF K × XF K => decide (bar i ≤ b.1) && decide (b.1 ≤ stop i)) ∘
    fun k => (bar k, (match ret k with | some x => XF.fin x | none => .nan), XF.fin (conc k))) with hl
  have hterm : ∀ k ∈ l, ((fun b : ℤ × XF K × XF K => rnd r (XF.div b.2.1 b.2.2)) ∘
      fun k => (bar k, (match ret k with | some x => XF.fin x | none => .nan), XF.fin (conc k))) k =
      match ret k with | some x => XF.fin (r (x / conc k)) | none => .nan := by
    intro k hk
    have hk' := List.mem_range.1 (List.mem_filter.1 hk).1
    simp only [Function.comp_apply]
    cases ret k with
    | some x => simp only [XF.div_fin _ _ (hc k hk'), rnd]
    | none => rfl
  rw [List.map_congr_left hterm, nansumR, if_neg, if_neg, XF.abs_fin, List.filterMap_map]
  · congr 4
    funext k
    simp only [Function.comp_apply]
    cases ret k <;> rfl
  · intro h
    obtain ⟨k, -, h⟩ := List.mem_map.1 h
    cases hk : ret k <;> simp [hk] at h
  · intro h
    obtain ⟨k, -, h⟩ := List.mem_map.1 h
    cases hk : ret k <;> simp [hk] at h

theorem retsR_eq (r lg : K → K) (close : List (Option K)) (hpos : ∀ c, some c ∈ close → 0 < c) :
    diffR r (close.map fun c => logR lg (match c with | some x => .fin x | none => .nan)) =
      (List.range close.length).map fun k => match logRetR r lg close k with | some x => .fin x | none => .nan := by
  rw [diffR]
  apply List.ext_getElem?
  intro k
  by_cases hk : k < close.length
  · rw [List.getElem?_map, pdDiff_getElem? _ _ (by simpa using hk), List.getElem?_map, List.getElem?_range hk, Option.map_some,
      Option.map_some]
    congr 1
    by_cases h0 : k = 0
    · simp [h0, logRetR, rnd]
    · have hk' : k - 1 < close.length := by omega
      rw [dif_neg h0]
      unfold logRetR
      rw [List.getD_eq_getElem _ _ hk, List.getD_eq_getElem _ _ hk', if_neg h0]
      simp only [List.getElem_map]
      have p1 := fun c (h : close[k] = some c) => hpos c (h ▸ List.getElem_mem hk)
      have p2 := fun c (h : close[k - 1] = some c) => hpos c (h ▸ List.getElem_mem hk')
      cases e1 : close[k] with
      | none => simp [logR, rnd]
      | some b =>
        cases e2 : close[k - 1] with
        | none => simp [logR, rnd]
        | some a =>
          have q1 := p1 b e1
          have q2 := p2 a e2
          simp [logR, rnd, not_lt.2 q1.le, not_lt.2 q2.le, q1.ne', q2.ne']
  · rw [List.getElem?_eq_none (by simpa using hk), List.getElem?_eq_none (by simpa using hk)]

end

/-- The error of a sum, whatever the order. -/
theorem eval_error {p : ℕ} (hp : 1 ≤ p) (t : AddTree ℚ) :
    |((t.eval (roundBits p) : ℚ) : ℝ) - (t.leaves.map (fun x : ℚ => (x : ℝ))).sum| ≤
      ((1 + 1 / 2 ^ p) ^ t.depth - 1) * (t.leaves.map fun x : ℚ => |(x : ℝ)|).sum := by
  have he0 : (0 : ℝ) < 1 / 2 ^ p := by positivity
  induction t with
  | leaf x => simp [AddTree.eval, AddTree.leaves, AddTree.depth]
  | node a b ha hb =>
    have hr := round_real hp (a.eval (roundBits p) + b.eval (roundBits p))
    simp only [AddTree.eval, AddTree.leaves, AddTree.depth, List.map_append, List.sum_append]
    rw [Rat.cast_add] at hr
    have habs : ∀ l : List ℚ, |(l.map (fun x : ℚ => (x : ℝ))).sum| ≤ (l.map fun x : ℚ => |(x : ℝ)|).sum := by
      intro l
      induction l with
      | nil => simp
      | cons x l ih =>
        rw [List.map_cons, List.map_cons, List.sum_cons, List.sum_cons]
        exact (abs_add_le _ _).trans (by linarith)
    have hn : ∀ l : List ℚ, 0 ≤ (l.map fun x : ℚ => |(x : ℝ)|).sum := fun l => (abs_nonneg _).trans (habs l)
    have hA := habs a.leaves
    have hB := habs b.leaves
    have nA := hn a.leaves
    have nB := hn b.leaves
    generalize (1 : ℝ) / 2 ^ p = e at *
    generalize ((roundBits p (a.eval (roundBits p) + b.eval (roundBits p)) : ℚ) : ℝ) = v at *
    generalize ((a.eval (roundBits p) : ℚ) : ℝ) = x at *
    generalize ((b.eval (roundBits p) : ℚ) : ℝ) = y at *
    generalize (a.leaves.map (fun x : ℚ => (x : ℝ))).sum = A at *
    generalize (b.leaves.map (fun x : ℚ => (x : ℝ))).sum = B at *
    generalize (a.leaves.map fun x : ℚ => |(x : ℝ)|).sum = SA at *
    generalize (b.leaves.map fun x : ℚ => |(x : ℝ)|).sum = SB at *
    have h1 : (1 + e) ^ a.depth ≤ (1 + e) ^ max a.depth b.depth := pow_le_pow_right₀ (by linarith) (le_max_left _ _)
    have h2 : (1 + e) ^ b.depth ≤ (1 + e) ^ max a.depth b.depth := pow_le_pow_right₀ (by linarith) (le_max_right _ _)
    rw [pow_succ]
    generalize (1 + e) ^ max a.depth b.depth = P at *
    have ha' : |x - A| ≤ (P - 1) * SA := ha.trans (mul_le_mul_of_nonneg_right (by linarith) nA)
    have hb' : |y - B| ≤ (P - 1) * SB := hb.trans (mul_le_mul_of_nonneg_right (by linarith) nB)
    have hx : |x| ≤ P * SA := by
      have := abs_sub_abs_le_abs_sub x A
      linarith
    have hy : |y| ≤ P * SB := by
      have := abs_sub_abs_le_abs_sub y B
      linarith
    have hxy : e * |x + y| ≤ e * (P * SA + P * SB) := mul_le_mul_of_nonneg_left ((abs_add_le _ _).trans (by linarith)) he0.le
    have h3 : |v - (A + B)| ≤ |v - (x + y)| + (|x - A| + |y - B|) := by
      rw [show v - (A + B) = (v - (x + y)) + ((x - A) + (y - B)) by ring]
      exact (abs_add_le _ _).trans (by linarith [abs_add_le (x - A) (y - B)])
    linarith

/-- The factor of a sum. -/
theorem pow_small {e : ℝ} {d : ℕ} (he0 : 0 < e) (he : e ≤ 1 / 256) (hd : 24 * (d * e) ≤ 1) : (1 + e) ^ d - 1 ≤ 24 / 23 * (d * e) := by
  have h1 : 1 - d * e ≤ (1 - e) ^ d := by
    have := one_add_mul_le_pow (show -2 ≤ -e by linarith) d
    rw [← sub_eq_add_neg] at this
    linarith
  have h2 : (1 + e) ^ d * (1 - e) ^ d ≤ 1 := by
    rw [← mul_pow]
    exact pow_le_one₀ (by nlinarith) (by nlinarith)
  have h3 : 1 ≤ (1 + e) ^ d := one_le_pow₀ (by linarith)
  generalize (1 + e) ^ d = P at *
  have h0 : 0 ≤ (d : ℝ) * e := by positivity
  generalize (d : ℝ) * e = x at *
  have h4 : P * (1 - x) ≤ 1 := (mul_le_mul_of_nonneg_left h1 (by linarith)).trans h2
  have h5 : P * (23 / 24) ≤ 1 := (mul_le_mul_of_nonneg_left (by linarith) (by linarith)).trans h4
  have h6 : P * x ≤ 24 / 23 * x := mul_le_mul_of_nonneg_right (by linarith) h0
  linarith

/-- One return over a number of events. -/
theorem term_near {a' b' d' q' a b V T e : ℝ} (he0 : 0 < e) (he : e ≤ 1 / 256) (hT0 : 0 ≤ T) (ha : |a| ≤ T)
    (hb : |b| ≤ T) (ha' : |a' - a| ≤ 2 * T * e) (hb' : |b' - b| ≤ 2 * T * e) (hd : |d' - (a' - b')| ≤ e * |a' - b'|)
    (hV : 1 ≤ V) (hq : |q' - d' / V| ≤ e * |d' / V|) :
    |q' - (a - b) / V| ≤ 9 * T * e ∧ |q'| ≤ 21 / 10 * T := by
  have hV0 : 0 < V := by linarith
  have hTe : 0 ≤ T * e := by positivity
  have hTe' : T * e ≤ T * (1 / 256) := mul_le_mul_of_nonneg_left he hT0
  have h1 : |a' - b' - (a - b)| ≤ 4 * (T * e) := by
    rw [show a' - b' - (a - b) = (a' - a) - (b' - b) by ring]
    have := abs_sub (a' - a) (b' - b)
    linarith
  have h2 : |a - b| ≤ 2 * T := by
    have := abs_sub a b
    linarith
  have h3 : |a' - b'| ≤ 2 * T + 4 * (T * e) := by
    have := abs_sub_abs_le_abs_sub (a' - b') (a - b)
    linarith
  have h4 : e * |a' - b'| ≤ e * (2 * T + 4 * (T * (1 / 256))) := mul_le_mul_of_nonneg_left (by linarith) he0.le
  have h5 : |d' - (a - b)| ≤ 602 / 100 * (T * e) := by
    have := abs_sub_le d' (a' - b') (a - b)
    linarith
  have h7 : |d'| ≤ 203 / 100 * T := by
    have := abs_sub_abs_le_abs_sub d' (a - b)
    linarith
  have h8 : ∀ x : ℝ, |x / V| ≤ |x| := fun x => by
    rw [abs_div, abs_of_pos hV0]
    exact div_le_self (abs_nonneg _) hV
  have h9 := h8 (d' - (a - b))
  rw [sub_div] at h9
  have h10 := h8 d'
  have h11 := mul_le_mul_of_nonneg_left (h10.trans h7) he0.le
  constructor
  · have := abs_sub_le q' (d' / V) ((a - b) / V)
    linarith
  · have := abs_sub_abs_le_abs_sub q' (d' / V)
    linarith

end Mizar.Rd
