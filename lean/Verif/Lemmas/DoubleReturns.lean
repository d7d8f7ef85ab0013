import Verif.Lemmas.DoubleWeights
import Verif.Lemmas.RoundedReturns
import Verif.Spec.RoundedHighLow

/-! Sample weights by return with a bounded exponent follow those without bounds. -/

namespace Mizar.Rd
open Mizar.Spec

theorem AddTree.place_leaves {K : Type} (h : ℕ → K) (t : AddTree ℕ) : (t.place h).leaves = t.leaves.map h := by
  induction t with
  | leaf i => rfl
  | node a b iha ihb => simp [AddTree.place, AddTree.leaves, iha, ihb]

theorem AddTree.place_depth {K : Type} (h : ℕ → K) (t : AddTree ℕ) : (t.place h).depth = t.depth := by
  induction t with
  | leaf i => rfl
  | node a b iha ihb => simp [AddTree.place, AddTree.depth, iha, ihb]

/-- Any order of addition is an order of addition. -/
theorem orderSum_adds (r : ℚ → ℚ) (ord : ℕ → AddTree ℕ) (n d : ℕ)
    (h : ∀ k, 1 ≤ k → k ≤ n → (ord k).leaves.Perm (List.range k) ∧ (ord k).depth ≤ d) : Adds r n d (orderSum r ord) := by
  refine ⟨by simp [orderSum], fun l hl hn => ?_⟩
  obtain ⟨h1, h2⟩ := h l.length (List.length_pos_of_ne_nil hl) hn
  refine ⟨(ord l.length).place fun i => l.getD i 0, ?_, by rwa [AddTree.place_depth], by rw [orderSum, if_neg hl]⟩
  rw [AddTree.place_leaves]
  refine (h1.map _).trans ?_
  rw [show (List.range l.length).map (fun i => l.getD i 0) = l from ?_]
  apply List.ext_getElem
  · simp
  · intro i h1 h2
    simp [h2]

theorem AddTree.leaves_pos {K : Type} (t : AddTree K) : 1 ≤ t.leaves.length := by
  induction t with
  | leaf i => simp [AddTree.leaves]
  | node a b iha ihb => simp [AddTree.leaves]; omega

/-- A sum in any order of multiples of a unit. -/
theorem evalD_eq (f : Fmt) (D : f.Deep) {e b : ℤ} (he : f.emin ≤ e) (hb : b + f.p ≤ f.emax - 1) (h : ℕ → ℚ)
    (hh : ∀ i, OnUnit e (h i) ∧ |h i| ≤ 2 ^ b) (t : AddTree ℕ) (hn : t.leaves.length < 2 ^ f.p) :
    (t.place fun i => XF.fin (h i)).evalD f.float = .fin ((t.place h).eval (roundBits f.p)) ∧
      OnUnit e ((t.place h).eval (roundBits f.p)) ∧ |(t.place h).eval (roundBits f.p)| ≤ t.leaves.length * 2 ^ b := by
  have hp := D.one_le
  induction t with
  | leaf i => exact ⟨rfl, (hh i).1, by simpa [AddTree.leaves, AddTree.place, AddTree.eval] using (hh i).2⟩
  | node t s iht ihs =>
    simp only [AddTree.leaves, List.length_append] at hn
    obtain ⟨t1, t2, t3⟩ := iht (by omega)
    obtain ⟨s1, s2, s3⟩ := ihs (by omega)
    simp only [AddTree.place, AddTree.evalD, AddTree.eval, AddTree.leaves, List.length_append]
    rw [t1, s1, XF.add_fin]
    set m := t.leaves.length + s.leaves.length with hm
    have hsum : |(t.place h).eval (roundBits f.p) + (s.place h).eval (roundBits f.p)| ≤ (m : ℚ) * 2 ^ b := by
      have := abs_add_le ((t.place h).eval (roundBits f.p)) ((s.place h).eval (roundBits f.p))
      rw [hm]; push_cast; linarith
    have hfl : IsFloat f.p ((m : ℚ) * 2 ^ b) := by
      refine ⟨m, b, ?_, by simp⟩
      rw [abs_of_nonneg (by positivity)]
      exact_mod_cast hn
    have hbig : (m : ℚ) * 2 ^ b ≤ 2 ^ (b + f.p) := by
      rw [zpow_add₀ (by norm_num), zpow_natCast, mul_comm]
      exact mul_le_mul_of_nonneg_left (by exact_mod_cast hn.le) (two_zpow_pos _).le
    obtain ⟨a1, a2, -⟩ := f.mid_add D he hb (t2.add s2) (hsum.trans hbig)
    refine ⟨a1, a2, ?_⟩
    rw [abs_le] at hsum ⊢
    exact ⟨le_round hp (isFloat_neg hfl) hsum.1, round_le hp hfl hsum.2⟩

theorem orderSumD_eq (f : Fmt) (D : f.Deep) {e b : ℤ} (he : f.emin ≤ e) (hb : b + f.p ≤ f.emax - 1) (ord : ℕ → AddTree ℕ)
    (l : List ℚ) (hl : ∀ x ∈ l, OnUnit e x ∧ |x| ≤ 2 ^ b) (ho : l ≠ [] → (ord l.length).leaves.length < 2 ^ f.p) :
    orderSumD f.float ord (l.map XF.fin) = .fin (orderSum (roundBits f.p) ord l) := by
  unfold orderSumD orderSum
  by_cases h : l = []
  · simp [h]
  · rw [if_neg (by simpa using h), if_neg h, List.length_map,
      show (fun i => (l.map XF.fin).getD i (.fin 0)) = fun i => XF.fin (l.getD i 0) from ?_]
    · refine (evalD_eq f D he hb _ ?_ _ (ho h)).1
      intro i
      by_cases hi : i < l.length
      · rw [List.getD_eq_getElem _ _ hi]; exact hl _ (List.getElem_mem hi)
      · rw [List.getD_eq_default _ _ (by omega)]
        exact ⟨OnUnit.zero _, by rw [abs_zero]; exact (two_zpow_pos _).le⟩
    · funext i
      simp only [List.getD_eq_getElem?_getD, List.getElem?_map]
      cases l[i]? <;> rfl

/-- The logarithm of a float is 0 or not small, and not large. -/
theorem log_size {f : Fmt} (D : f.Deep) (hr : -f.emin ≤ 2 ^ f.p ∧ f.emax ≤ 2 ^ f.p) {lg : ℚ → ℚ} (hlg : GoodLog f.p lg) {c : ℚ} (hc : f.Has c) (h0 : 0 < c) :
    (lg c = 0 ∨ (2 : ℚ) ^ (-(f.p : ℤ) - 2) ≤ |lg c|) ∧ |lg c| ≤ 2 ^ ((f.p : ℤ) + 1) := by
  have hp := D.one_le
  have hP := D.p
  have hg := hlg c h0
  have h0R : (0 : ℝ) < c := by exact_mod_cast h0
  have h8 : (8 : ℝ) ≤ 2 ^ f.p := by
    calc (8 : ℝ) = 2 ^ 3 := by norm_num
      _ ≤ 2 ^ f.p := pow_le_pow_right₀ (by norm_num) hP
  have hq : 2 * |Real.log c| / 2 ^ f.p ≤ |Real.log c| / 4 := by
    rw [div_le_div_iff₀ (by positivity) (by norm_num)]
    nlinarith [abs_nonneg (Real.log c)]
  have hcast : ∀ k : ℤ, (((2 : ℚ) ^ k : ℚ) : ℝ) = (2 : ℝ) ^ k := fun k => by push_cast; rfl
  constructor
  · by_cases h1 : c = 1
    · left
      subst h1
      simp only [Rat.cast_one, Real.log_one, abs_zero, mul_zero, zero_div, sub_zero] at hg
      have := abs_nonpos_iff.1 hg
      exact_mod_cast this
    · right
      have gap := float_gap_one hp hc.isFloat h0.le h1
      have gapR : (2 : ℝ) ^ (-(f.p : ℤ)) ≤ |(c : ℝ) - 1| := by rw [← hcast]; exact_mod_cast gap
      have hpe : (2 : ℝ) ^ (-(f.p : ℤ)) ≤ 1 := zpow_le_one_of_nonpos₀ (by norm_num) (by omega)
      have hlogl : (2 : ℝ) ^ (-(f.p : ℤ)) / 2 ≤ |Real.log c| := by
        rcases lt_or_gt_of_ne h1 with h | h
        · have hR : (c : ℝ) < 1 := by exact_mod_cast h
          rw [abs_of_neg (by linarith)] at gapR
          have := Real.log_le_sub_one_of_pos h0R
          rw [abs_of_neg (Real.log_neg h0R hR)]
          have := zpow_pos (by norm_num : (0 : ℝ) < 2) (-(f.p : ℤ))
          linarith
        · have hR : (1 : ℝ) < c := by exact_mod_cast h
          rw [abs_of_pos (by linarith)] at gapR
          have h2 := Real.one_sub_inv_le_log_of_pos h0R
          rw [abs_of_pos (Real.log_pos hR)]
          refine le_trans ?_ h2
          have hpos := zpow_pos (by norm_num : (0 : ℝ) < 2) (-(f.p : ℤ))
          rw [show 1 - (c : ℝ)⁻¹ = (c - 1) / c by field_simp, div_le_div_iff₀ (by norm_num) h0R]
          nlinarith
      have hfin : (2 : ℝ) ^ (-(f.p : ℤ) - 2) ≤ |(lg c : ℝ)| := by
        have h3 := abs_sub_abs_le_abs_sub (Real.log c) (lg c : ℝ)
        rw [abs_sub_comm] at h3
        rw [zpow_sub₀ (by norm_num)]
        norm_num
        have := zpow_pos (by norm_num : (0 : ℝ) < 2) (-(f.p : ℤ))
        rw [zpow_neg, zpow_natCast] at hlogl this
        linarith
      rw [← hcast] at hfin
      exact_mod_cast hfin
  · have hup : |Real.log c| ≤ 2 ^ f.p := by
      have hl2 : Real.log 2 ≤ 1 := by
        have := Real.log_le_sub_one_of_pos (show (0 : ℝ) < 2 by norm_num)
        linarith
      have hl20 : 0 < Real.log 2 := Real.log_pos (by norm_num)
      have u1 : (c : ℝ) ≤ (2 : ℝ) ^ f.emax := by
        have := hc.2
        rw [abs_of_pos h0] at this
        rw [← hcast]; exact_mod_cast this.le
      have u2 : (2 : ℝ) ^ f.emin ≤ c := by
        rw [← hcast]; exact_mod_cast hc.onUnit.pos_le h0
      have v1 := Real.log_le_log h0R u1
      have v2 := Real.log_le_log (zpow_pos (by norm_num) _) u2
      rw [Real.log_zpow] at v1 v2
      have e1 : (f.emax : ℝ) ≤ 2 ^ f.p := by exact_mod_cast hr.2
      have e2 : -(f.emin : ℝ) ≤ 2 ^ f.p := by exact_mod_cast hr.1
      have e3 : (0 : ℝ) ≤ f.emax := by
        have := D.high
        have : 0 ≤ f.emax := by omega
        exact_mod_cast this
      have e4 : (0 : ℝ) ≤ -f.emin := by
        have := D.low
        have : f.emin ≤ 0 := by omega
        have : (f.emin : ℝ) ≤ 0 := by exact_mod_cast this
        linarith
      rw [abs_le]
      constructor
      · nlinarith
      · nlinarith
    have h3 := abs_sub_abs_le_abs_sub (lg c : ℝ) (Real.log c)
    have hfin : |(lg c : ℝ)| ≤ (2 : ℝ) ^ ((f.p : ℤ) + 1) := by
      rw [zpow_add₀ (by norm_num), zpow_natCast, zpow_one]
      linarith
    rw [← hcast] at hfin
    exact_mod_cast hfin

/-- What is needed of the logarithm: it is a number of the precision. -/
theorem log_unit {f : Fmt} (D : f.Deep) (hr : -f.emin ≤ 2 ^ f.p ∧ f.emax ≤ 2 ^ f.p) {lg : ℚ → ℚ} (hlg : GoodLog f.p lg)
    (hfl : ∀ c, IsFloat f.p (lg c)) {c : ℚ} (hc : f.Has c) (h0 : 0 < c) :
    OnUnit (-2 * (f.p : ℤ) - 1) (lg c) ∧ |lg c| ≤ 2 ^ ((f.p : ℤ) + 1) := by
  obtain ⟨h1, h2⟩ := log_size D hr hlg hc h0
  refine ⟨?_, h2⟩
  rcases h1 with h | h
  · rw [h]; exact OnUnit.zero _
  · exact ((hfl c).onUnit h).coarser (by omega)

/-- A return and the quotient by a number of events. -/
theorem ret_term {f : Fmt} (D : f.Deep) (hr : -f.emin ≤ 2 ^ f.p ∧ f.emax ≤ 2 ^ f.p) {lg : ℚ → ℚ} (hlg : GoodLog f.p lg)
    (hfl : ∀ c, IsFloat f.p (lg c)) {a b : ℚ} (ha : f.Has a) (ha0 : 0 < a) (hb : f.Has b) (hb0 : 0 < b) :
    f.float (lg b - lg a) = .fin (roundBits f.p (lg b - lg a)) ∧
    ∀ k : ℕ, 1 ≤ k → k ≤ 2 ^ f.p → f.float (roundBits f.p (lg b - lg a) / k) = .fin (roundBits f.p (roundBits f.p (lg b - lg a) / k)) ∧
      OnUnit (-4 * (f.p : ℤ)) (roundBits f.p (roundBits f.p (lg b - lg a) / k)) ∧
      |roundBits f.p (roundBits f.p (lg b - lg a) / k)| ≤ 2 ^ ((f.p : ℤ) + 2) := by
  have low := D.low
  have high := D.high
  have hP := D.p
  obtain ⟨a1, a2⟩ := log_unit D hr hlg hfl ha ha0
  obtain ⟨b1, b2⟩ := log_unit D hr hlg hfl hb hb0
  have hsub : |lg b - lg a| ≤ 2 ^ ((f.p : ℤ) + 2) := by
    have h1 := abs_sub (lg b) (lg a)
    have h2 : (2 : ℚ) ^ ((f.p : ℤ) + 2) = 2 * 2 ^ ((f.p : ℤ) + 1) := by
      rw [show (f.p : ℤ) + 2 = (f.p + 1) + 1 by ring, zpow_add₀ (by norm_num) ((f.p : ℤ) + 1) 1, zpow_one]; ring
    linarith
  obtain ⟨c1, c2, c3⟩ := f.mid_add D (by omega) (by omega) (b1.sub a1) hsub
  refine ⟨c1, fun k hk1 hk2 => ?_⟩
  have hk0 : (0 : ℚ) < k := by exact_mod_cast hk1
  have hq1 : |roundBits f.p (lg b - lg a) / k| ≤ 2 ^ ((f.p : ℤ) + 2 - 0) :=
    deep_div_le c3 (by rw [zpow_zero, abs_of_pos hk0]; exact_mod_cast hk1)
  have hq2 : roundBits f.p (lg b - lg a) / k = 0 ∨ (2 : ℚ) ^ (-2 * (f.p : ℤ) - 1 - f.p) ≤ |roundBits f.p (lg b - lg a) / k| := by
    by_cases hz : roundBits f.p (lg b - lg a) = 0
    · left; rw [hz, zero_div]
    · right
      refine deep_div_ge ?_ (by rw [abs_of_pos hk0, zpow_natCast]; exact_mod_cast hk2) hk0.ne'
      rcases lt_or_gt_of_ne hz with h | h
      · rw [abs_of_neg h]; exact c2.neg.pos_le (by linarith)
      · rw [abs_of_pos h]; exact c2.pos_le h
  obtain ⟨d1, d2, d3, -⟩ := f.mid_mul D (by omega) (by omega) hq2 hq1
  exact ⟨d1, d2.coarser (by omega), by simpa using d3⟩

theorem mem_pdShift {K : Type} {l : List (XF K)} {x : XF K} (h : x ∈ pdShift l) : x = .nan ∨ x ∈ l := by
  have := List.mem_of_mem_take h
  simpa using this

/-- Differences of logarithms. -/
theorem retsD_eq {f : Fmt} (D : f.Deep) (hr : -f.emin ≤ 2 ^ f.p ∧ f.emax ≤ 2 ^ f.p) {lg : ℚ → ℚ} (hlg : GoodLog f.p lg)
    (hfl : ∀ c, IsFloat f.p (lg c)) (close : List (Option ℚ)) (hpos : ∀ c, some c ∈ close → 0 < c ∧ f.Has c) :
    (pdDiff (close.map fun c => logR lg (match c with | some x => .fin x | none => .nan))).map (XF.rounded f.float) =
      (List.range close.length).map fun k => match logRetR (roundBits f.p) lg close k with | some x => .fin x | none => .nan := by
  refine Eq.trans ?_ ((retsR_eq (roundBits f.p) lg close fun c hc => (hpos c hc).1).trans
    (List.map_congr_left fun k _ => by cases logRetR (roundBits f.p) lg close k <;> rfl))
  rw [diffR]
  refine Eq.trans (List.map_congr_left (g := rnd (roundBits f.p)) fun x hx => ?_) (congrArg (fun u => (pdDiff u).map (rnd (roundBits f.p)))
    (List.map_congr_left fun c _ => by cases c <;> rfl))
  have hl : ∀ y ∈ close.map (fun c => logR lg (match c with | some x => .fin x | none => .nan)),
      y = .nan ∨ ∃ c, 0 < c ∧ f.Has c ∧ y = .fin (lg c) := by
    intro y hy
    obtain ⟨o, ho, rfl⟩ := List.mem_map.1 hy
    cases o with
    | none => left; rfl
    | some c =>
      obtain ⟨h1, h2⟩ := hpos c ho
      exact .inr ⟨c, h1, h2, by simp [logR, not_lt.2 h1.le, h1.ne']⟩
  obtain ⟨i, hi, rfl⟩ := List.getElem_of_mem hx
  simp only [pdDiff, List.getElem_zipWith]
  have hi' := hi
  simp only [pdDiff, List.length_zipWith] at hi'
  have m1 := hl _ (List.getElem_mem (show i < _ from (lt_min_iff.1 hi').1))
  have m2 := mem_pdShift (List.getElem_mem (show i < _ from (lt_min_iff.1 hi').2))
  rcases m1 with h1 | ⟨b, hb0, hb, h1⟩
  · rw [h1]; rfl
  · rw [h1]
    have m3 : (pdShift (close.map fun c => logR lg (match c with | some x => .fin x | none => .nan)))[i]'(lt_min_iff.1 hi').2 = .nan ∨
        ∃ a, 0 < a ∧ f.Has a ∧ (pdShift (close.map fun c => logR lg (match c with | some x => .fin x | none => .nan)))[i]'(lt_min_iff.1 hi').2 = .fin (lg a) := by
      rcases m2 with h | h
      · exact .inl h
      · exact hl _ h
    rcases m3 with h2 | ⟨a, ha0, ha, h2⟩
    · rw [h2]; rfl
    · rw [h2]
      have := (ret_term D hr hlg hfl ha ha0 hb hb0).1
      rw [show XF.sub (.fin (lg b)) (.fin (lg a)) = .fin (lg b - lg a) by simp [XF.sub, XF.add, XF.neg, sub_eq_add_neg]]
      exact this

/-- The weights. -/
theorem calcD_formula {f : Fmt} (D : f.Deep) (ord : ℕ → AddTree ℕ) (n : ℕ) (hn : n < 2 ^ f.p)
    (ho : ∀ k, 1 ≤ k → k ≤ n → (ord k).leaves.Perm (List.range k)) (bar stop : ℕ → ℤ) (ret : ℕ → Option ℚ) (conc : ℕ → ℕ)
    (hc : ∀ k < n, 1 ≤ conc k) (hret : ∀ k < n, ∀ x, ret k = some x → f.float (x / conc k) = .fin (roundBits f.p (x / conc k)) ∧
      OnUnit (-4 * (f.p : ℤ)) (roundBits f.p (x / conc k)) ∧ |roundBits f.p (x / conc k)| ≤ 2 ^ ((f.p : ℤ) + 2)) :
    calculateWeightsD f.float ord ((List.range n).map bar) ((List.range n).map stop) ((List.range n).map fun k => .fin (conc k : ℚ))
      ((List.range n).map fun k => match ret k with | some x => .fin x | none => .nan) =
    (List.range n).map fun i => .fin |orderSum (roundBits f.p) ord
      (((List.range n).filter fun k => decide (bar i ≤ bar k) && decide (bar k ≤ stop i)).filterMap
        fun k => (ret k).map fun x => roundBits f.p (x / conc k))| := by
  have low := D.low
  have high := D.high
  have hP := D.p
  unfold calculateWeightsD
  rw [SW.zip_range, SW.zip_range, SW.zip_range, List.map_map]
  apply List.map_congr_left
  intro i _
  simp only [Function.comp_apply]
  rw [List.filter_map, List.map_map]
  set l := (List.range n).filter ((fun b : ℤ × XF ℚ × XF ℚ => decide (bar i ≤ b.1) && decide (b.1 ≤ stop i)) ∘
    fun k => (bar k, (match ret k with | some x => XF.fin x | none => .nan), XF.fin (conc k : ℚ))) with hl
  have hln : l.length ≤ n := by rw [hl]; exact (List.length_filter_le _ _).trans (by simp)
  have hterm : ∀ k ∈ l, ((fun b : ℤ × XF ℚ × XF ℚ => XF.rounded f.float (XF.div b.2.1 b.2.2)) ∘
      fun k => (bar k, (match ret k with | some x => XF.fin x | none => .nan), XF.fin (conc k : ℚ))) k =
      match ret k with | some x => XF.fin (roundBits f.p (x / conc k)) | none => .nan := by
    intro k hk
    have hk' := List.mem_range.1 (List.mem_filter.1 hk).1
    have hk0 : (conc k : ℚ) ≠ 0 := by have := hc k hk'; positivity
    simp only [Function.comp_apply]
    cases e : ret k with
    | some x => simp only [XF.div_fin _ _ hk0]; exact (hret k hk' x e).1
    | none => rfl
  rw [List.map_congr_left hterm, nansumD]
  have hfil : ∀ l : List ℕ, ((l.map fun k => match ret k with | some x => XF.fin (roundBits f.p (x / conc k)) | none => .nan).filter fun x => !x.isNan) =
      (l.filterMap fun k => (ret k).map fun x => roundBits f.p (x / conc k)).map XF.fin := by
    intro l
    induction l with
    | nil => rfl
    | cons k l ih =>
      cases e : ret k with
      | none => simpa [e, XF.isNan] using ih
      | some x => simpa [e, XF.isNan] using ih
  rw [hfil, orderSumD_eq f D (e := -4 * (f.p : ℤ)) (b := (f.p : ℤ) + 2) (by omega) (by omega) ord, XF.abs_fin]
  · rfl
  · intro x hx
    obtain ⟨k, hk, h⟩ := List.mem_filterMap.1 hx
    obtain ⟨y, hy, rfl⟩ := Option.map_eq_some_iff.1 h
    exact (hret k (List.mem_range.1 (List.mem_filter.1 hk).1) y hy).2
  · intro hne
    have h2 : (l.filterMap fun k => (ret k).map fun x => roundBits f.p (x / conc k)).length ≤ n := (List.length_filterMap_le _ _).trans hln
    rw [(ho _ (List.length_pos_of_ne_nil hne) h2).length_eq, List.length_range]
    omega

end Mizar.Rd
