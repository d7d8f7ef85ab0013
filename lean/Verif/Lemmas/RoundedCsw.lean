import Verif.Model.RoundedCsw
import Verif.Spec.RoundedCsw
import Verif.Lemmas.Factor
import Verif.Props.Csw
import Verif.Props.RoundedReturns

/-! Helper lemmas for C142: the Chu-Stinchcombe-White test in floating point. -/

namespace Mizar.Rd
open Mizar.Spec Mizar.Brk Mizar.Props

/-- The rounded difference each test looks at. -/
def sideQ (r : ℚ → ℚ) (side : String) (a b : ℚ) : ℚ :=
  if side = "one_sided_positive" then r (a - b) else if side = "one_sided_negative" then r (b - a) else |r (a - b)|

/-- The rounded variance. -/
def stepVarQ (r : ℚ → ℚ) (sm : List ℚ → ℚ) (y : ℕ → ℚ) (t : ℕ) : ℚ :=
  r (sm ((List.range (t - 1)).map fun i => r (r (y (i + 1) - y i) * r (y (i + 1) - y i))) / r ((t : ℚ) - 1))

/-- The rounded departure. -/
def depQ (r sq : ℚ → ℚ) (sm : List ℚ → ℚ) (side : String) (y : ℕ → ℚ) (t n : ℕ) : ℚ :=
  r (sideQ r side (y (t - 1)) (y (n - 1)) / sq (r (stepVarQ r sm y t * r ((t : ℚ) - n))))

/-- The rounded critical value. -/
def critQ (r sq lg : ℚ → ℚ) (b : ℚ) (t n : ℕ) : ℚ := sq (r (b + lg (r ((t : ℚ) - n))))

theorem yDiffR_fin (r : ℚ → ℚ) (side : String) (a b : ℚ) : yDiffR r side (.fin a) (.fin b) = .fin (sideQ r side a b) := by
  unfold yDiffR sideQ
  split_ifs <;> simp [rnd]

theorem take_map_ofQ {v : List (XF ℚ)} {y : ℕ → ℚ} (h : ∀ i < v.length, v[i]? = some (.fin (y i))) (t : ℕ) (ht : t ≤ v.length) :
    v.take t = (List.range t).map fun i => .fin (y i) := by
  apply List.ext_getElem?
  intro i
  rw [List.getElem?_take, List.getElem?_map]
  split
  · rename_i hi
    rw [h i (by omega), List.getElem?_range hi]; rfl
  · rename_i hi
    rw [List.getElem?_eq_none (by simp; omega)]; rfl

theorem sigmaSqR_fin (r : ℚ → ℚ) (sm : List ℚ → ℚ) (y : ℕ → ℚ) (t : ℕ) (h1 : r ((t : ℚ) - 1) ≠ 0) :
    sigmaSqR r sm ((List.range t).map fun i => .fin (y i)) t = .fin (stepVarQ r sm y t) := by
  have e : (List.zipWith (fun a b => rnd r (XF.sub a b)) ((List.range t).map fun i => (.fin (y i) : XF ℚ)).tail
      ((List.range t).map fun i => .fin (y i))).map (squareR r) =
      ((List.range (t - 1)).map fun i => r (r (y (i + 1) - y i) * r (y (i + 1) - y i))).map XF.fin := by
    apply List.ext_getElem?
    intro i
    simp only [List.getElem?_map, List.getElem?_zipWith, List.getElem?_tail]
    by_cases hi : i < t - 1
    · rw [List.getElem?_range hi, List.getElem?_range (show i + 1 < t by omega), List.getElem?_range (show i < t by omega)]
      simp [rnd, squareR]
    · rw [List.getElem?_eq_none (show (List.range (t - 1)).length ≤ i by simpa using hi),
        List.getElem?_eq_none (show (List.range t).length ≤ i + 1 by simp; omega)]
      simp
  unfold sigmaSqR npSumR
  rw [e, if_neg, XF.div_fin _ _ h1, List.map_map]
  · rw [show XF.toK ∘ XF.fin = (id : ℚ → ℚ) from rfl, List.map_id]
    rfl
  · simp [XF.undef, XF.isNan, XF.isInf]

/-- State of the inner loop after `n = 1, …, j`. -/
def LoopStateQ (S C : ℕ → ℚ) (j : ℕ) (st : XF ℚ × XF ℚ) : Prop :=
  (j = 0 ∧ st = (.ninf, .nan)) ∨ ∃ n, IsFirstMax (fun k => (S k : ℝ)) j n ∧ st = (.fin (S n), .fin (C n))

theorem innerR_spec (em : ErrModel) (r sq lg : ℚ → ℚ) (b : ℚ) (side : String) (v : ℚ) (y : ℕ → ℚ) (t : ℕ)
    (h1 : ∀ n, 1 ≤ n → n < t → 0 < r ((t : ℚ) - n)) (h2 : ∀ n, 1 ≤ n → n < t → 0 ≤ r (v * r ((t : ℚ) - n)))
    (h3 : ∀ n, 1 ≤ n → n < t → sq (r (v * r ((t : ℚ) - n))) ≠ 0) (h4 : ∀ n, 1 ≤ n → n < t → 0 ≤ r (b + lg (r ((t : ℚ) - n)))) (m : ℕ)
    (j : ℕ) (hm : j + m < t) (st : XF ℚ × XF ℚ)
    (hst : LoopStateQ (fun n => r (sideQ r side (y (t - 1)) (y (n - 1)) / sq (r (v * r ((t : ℚ) - n))))) (critQ r sq lg b t) j st) :
    ∃ st', innerR em r sq lg b side (.fin v) t (.fin (y (t - 1))) j ((List.range m).map fun i => .fin (y (j + i))) st = .ok st' ∧
      LoopStateQ (fun n => r (sideQ r side (y (t - 1)) (y (n - 1)) / sq (r (v * r ((t : ℚ) - n))))) (critQ r sq lg b t) (j + m) st' := by
  induction m generalizing j st with
  | zero => exact ⟨st, rfl, hst⟩
  | succ m ih =>
    have hl : ((List.range (m + 1)).map fun i => (.fin (y (j + i)) : XF ℚ)) =
        .fin (y j) :: (List.range m).map fun i => .fin (y (j + 1 + i)) := by
      rw [List.range_succ_eq_map, List.map_cons, List.map_map]
      simp only [Nat.add_zero, List.cons.injEq, true_and]
      apply List.map_congr_left
      intro i _
      simp only [Function.comp_apply, Nat.succ_eq_add_one]
      congr 2
      omega
    have p1 := h1 (j + 1) (by omega) (by omega)
    have p2 := h2 (j + 1) (by omega) (by omega)
    have p3 := h3 (j + 1) (by omega) (by omega)
    have p4 := h4 (j + 1) (by omega) (by omega)
    generalize hS : (fun n => r (sideQ r side (y (t - 1)) (y (n - 1)) / sq (r (v * r ((t : ℚ) - n))))) = S at *
    have hdiv : divR em r (yDiffR r side (.fin (y (t - 1))) (.fin (y j)))
        (sqrtR sq (rnd r (XF.mul (.fin v) (.fin (r ((t : ℚ) - ((j + 1 : ℕ) : ℚ))))))) = .ok (.fin (S (j + 1))) := by
      rw [yDiffR_fin, XF.mul_fin, rnd, sqrtR, if_neg (not_lt.2 p2)]
      unfold divR
      rw [if_neg (by rw [XF.beq_fin, decide_eq_true_eq]; exact fun h => p3 h.2), XF.div_fin _ _ p3, rnd, ← hS]
      rfl
    have hcrit : sqrtR sq (rnd r (XF.add (.fin b) (logR lg (.fin (r ((t : ℚ) - ((j + 1 : ℕ) : ℚ))))))) = .fin (critQ r sq lg b t (j + 1)) := by
      rw [logR, if_neg (not_lt.2 p1.le), if_neg p1.ne', XF.add_fin, rnd, sqrtR, if_neg (not_lt.2 p4)]
      rfl
    rw [hl]
    unfold innerR
    dsimp only
    rw [hdiv, Py.bind_ok, hcrit, show j + (m + 1) = j + 1 + m by omega]
    apply ih (j + 1) (by omega)
    rcases hst with ⟨h0, rfl⟩ | ⟨n, ⟨h1, h2, h3, h4⟩, rfl⟩
    · right
      refine ⟨1, ⟨le_refl _, by omega, fun m h1 h2 => by omega, fun m h1 h2 => ?_⟩, ?_⟩
      · rw [show m = 1 by omega]
      · subst h0
        rw [if_pos (by rfl)]
    · right
      by_cases hlt : S n < S (j + 1)
      · have hlt' : ((S n : ℚ) : ℝ) < S (j + 1) := by exact_mod_cast hlt
        refine ⟨j + 1, ⟨by omega, le_refl _, fun m hm1 hm2 => lt_of_le_of_lt (h4 m hm1 (by omega)) hlt', fun m hm1 hm2 => ?_⟩, ?_⟩
        · rcases Nat.lt_or_eq_of_le hm2 with h | h
          · exact (lt_of_le_of_lt (h4 m hm1 (by omega)) hlt').le
          · rw [h]
        · rw [if_pos (by simpa using hlt)]
      · refine ⟨n, ⟨h1, by omega, h3, fun m hm1 hm2 => ?_⟩, ?_⟩
        · rcases Nat.lt_or_eq_of_le hm2 with h | h
          · exact h4 m hm1 (by omega)
          · rw [h]
            show ((S (j + 1) : ℚ) : ℝ) ≤ S n
            exact_mod_cast not_lt.1 hlt
        · rw [if_neg (by simpa using hlt)]

theorem sideQ_self {r : ℚ → ℚ} (h0 : r 0 = 0) (side : String) (c : ℚ) : sideQ r side c c = 0 := by
  unfold sideQ
  split_ifs <;> simp [h0]

theorem innerR_zero {r sq : ℚ → ℚ} (h0 : r 0 = 0) (hsq : sq 0 = 0) (lg : ℚ → ℚ) (b : ℚ) (side : String) (c : ℚ) (t : ℕ) (l : List (XF ℚ))
    (hl : ∀ x ∈ l, x = .fin c) (j : ℕ) : innerR .numpy r sq lg b side (.fin 0) t (.fin c) j l (.ninf, .nan) = .ok (.ninf, .nan) := by
  induction l generalizing j with
  | nil => rfl
  | cons x l ih =>
    rw [hl x (by simp)]
    unfold innerR
    dsimp only
    have : divR .numpy r (yDiffR r side (.fin c) (.fin c)) (sqrtR sq (rnd r (XF.mul (.fin 0) (.fin (r ((t : ℚ) - ((j + 1 : ℕ) : ℚ))))))) =
        .ok .nan := by
      rw [yDiffR_fin, sideQ_self h0, XF.mul_fin, zero_mul, rnd, h0, sqrtR, if_neg (lt_irrefl _), hsq]
      unfold divR
      simp [XF.div, XF.infSign, rnd]
    rw [this, Py.bind_ok]
    simp only [XF.lt_nan_right, Bool.false_eq_true, if_false]
    exact ih (fun y hy => hl y (by simp [hy])) (j + 1)

theorem statAtR_eq (em : ErrModel) (r sq lg : ℚ → ℚ) (sm : List ℚ → ℚ) (b : ℚ) (side : String) {v : List (XF ℚ)} {y : ℕ → ℚ}
    (h : ∀ i < v.length, v[i]? = some (.fin (y i))) (t : ℕ) (h2 : 2 ≤ t) (ht : t ≤ v.length) (h1 : r ((t : ℚ) - 1) ≠ 0) :
    statAtR em r sq lg sm b side v t =
      innerR em r sq lg b side (.fin (stepVarQ r sm y t)) t (.fin (y (t - 1))) 0 ((List.range (t - 1)).map fun i => .fin (y i))
        (.ninf, .nan) := by
  unfold statAtR
  rw [take_map_ofQ h t ht, take_map_ofQ h (t - 1) (by omega), sigmaSqR_fin r sm y t h1, List.getD_eq_getElem?_getD, List.getElem?_map,
    List.getElem?_range (by omega)]
  rfl

section
variable {p n d : ℕ} {sq lg : ℚ → ℚ} {sm : List ℚ → ℚ}

theorem round_nat {p : ℕ} (hp : 1 ≤ p) {t n : ℕ} (h : n ≤ t) (ht : t < 2 ^ p) : roundBits p ((t : ℚ) - n) = (t : ℚ) - n := by
  rw [← Nat.cast_sub h]
  exact roundBits_natCast p hp _ (by omega)

theorem fac_sq (A : Arith p n d sq lg sm) {x : ℚ} (hx : 0 ≤ x) : Fac (1 / 2 ^ p) 1 ((sq x : ℚ) : ℝ) (√x) := by
  obtain ⟨he0, he⟩ := eps_real A.bits
  refine Fac.of_err he0.le (by linarith) ?_
  rw [abs_of_nonneg (Real.sqrt_nonneg _), one_div, mul_comm, ← div_eq_mul_inv]
  exact A.sqrt x hx

theorem sq_zero (A : Arith p n d sq lg sm) : sq 0 = 0 := by
  have := fac_sq A (le_refl 0)
  rw [Rat.cast_zero, Real.sqrt_zero] at this
  exact_mod_cast this.zero

/-- The rounded variance and the exact one. -/
theorem fac_stepVar (A : Arith p n d sq lg sm) (y : ℕ → ℚ) (t : ℕ) (h2 : 2 ≤ t) (ht : t ≤ n + 1) (htp : t < 2 ^ p) :
    Fac (1 / 2 ^ p) (d + 4) ((stepVarQ (roundBits p) sm y t : ℚ) : ℝ) (stepVar (fun i => (y i : ℝ)) t) := by
  obtain ⟨he0, he⟩ := eps_real A.bits
  have he1 : (1 : ℝ) / 2 ^ p < 1 := by linarith
  have hp1 : 1 ≤ p := by have := A.bits; omega
  obtain ⟨T, T1, T2, T3⟩ := A.adds.2 ((List.range (t - 1)).map fun i => roundBits p (roundBits p (y (i + 1) - y i) * roundBits p (y (i + 1) - y i)))
    (by simp; omega) (by simp; omega)
  have hleaf : ∀ x ∈ T.leaves, 0 ≤ x := by
    intro x hx
    obtain ⟨i, -, rfl⟩ := List.mem_map.1 (T1.mem_iff.1 hx)
    exact roundBits_nonneg p hp1 (mul_self_nonneg _)
  have f1 := Fac.mono he0.le he1 (fac_tree A.bits T hleaf) T2
  rw [T1.sum_eq] at f1
  have f2 : Fac (1 / 2 ^ p) 3 (((((List.range (t - 1)).map fun i =>
      roundBits p (roundBits p (y (i + 1) - y i) * roundBits p (y (i + 1) - y i))).sum : ℚ)) : ℝ)
      ((List.range (t - 1)).map fun i => ((y (i + 1) : ℝ) - y i) ^ 2).sum := by
    rw [Rat.cast_list_sum, List.map_map]
    refine Fac.sum he0.le he1 _ _ _ (fun i _ => sq_nonneg _) fun i _ => ?_
    have g1 := fac_round A.bits (y (i + 1) - y i)
    have g2 := fac_round A.bits (roundBits p (y (i + 1) - y i) * roundBits p (y (i + 1) - y i))
    rw [Rat.cast_mul] at g2
    have g3 := Fac.trans he1 g2 (Fac.mul he1 g1 g1)
    rw [Rat.cast_sub] at g3
    rw [pow_two]
    exact g3
  have f3 := Fac.trans he1 f1 f2
  unfold stepVarQ
  have e1 : ((1 : ℕ) : ℚ) = 1 := Nat.cast_one
  have hr : roundBits p ((t : ℚ) - 1) = (t : ℚ) - 1 := by
    rw [← e1]
    exact round_nat hp1 (by omega) htp
  rw [hr, T3]
  have f4 := fac_round A.bits (T.eval (roundBits p) / ((t : ℚ) - 1))
  rw [Rat.cast_div] at f4
  have f5 := Fac.trans he1 f4 (Fac.div he1 f3 (Fac.refl _ (((t : ℚ) - 1 : ℚ) : ℝ)))
  rw [stepVar, ← sum_map_range, show d + 4 = 1 + (d + 3 + 0) by omega]
  push_cast at f5 ⊢
  exact f5

theorem fac_side {p : ℕ} (hp : 8 ≤ p) {side : String} {g : ℝ → ℝ → ℝ} (hs : SideFn side g) (a b : ℚ) :
    Fac (1 / 2 ^ p) 1 ((sideQ (roundBits p) side a b : ℚ) : ℝ) (g a b) := by
  obtain ⟨he0, he⟩ := eps_real hp
  have h1 := fac_round hp (a - b)
  have h2 := fac_round hp (b - a)
  rw [Rat.cast_sub] at h1 h2
  unfold sideQ
  rcases hs with ⟨rfl, rfl⟩ | ⟨rfl, rfl⟩ | ⟨rfl, rfl⟩
  · exact h1
  · rw [if_neg (by decide), if_pos rfl]
    exact h2
  · rw [if_neg (by decide), if_neg (by decide), Rat.cast_abs]
    exact Fac.abs (by linarith) h1

/-- The rounded departure and the exact one. -/
theorem fac_departure (A : Arith p n d sq lg sm) {side : String} {g : ℝ → ℝ → ℝ} (hs : SideFn side g) (y : ℕ → ℚ) (t : ℕ) (h2 : 2 ≤ t)
    (ht : t ≤ n + 1) (htp : t < 2 ^ p) (k : ℕ) (hk : k < t) :
    Fac (1 / 2 ^ p) (d + 8) ((depQ (roundBits p) sq sm side y t k : ℚ) : ℝ) (departure g (fun i => (y i : ℝ)) t k) ∧
    Fac (1 / 2 ^ p) (d + 6) ((sq (roundBits p (stepVarQ (roundBits p) sm y t * roundBits p ((t : ℚ) - k))) : ℚ) : ℝ)
      (√(stepVar (fun i => (y i : ℝ)) t * ((t : ℝ) - k))) ∧
    0 ≤ roundBits p (stepVarQ (roundBits p) sm y t * roundBits p ((t : ℚ) - k)) := by
  obtain ⟨he0, he⟩ := eps_real A.bits
  have he1 : (1 : ℝ) / 2 ^ p < 1 := by linarith
  have hp1 : 1 ≤ p := by have := A.bits; omega
  have hpos : (0 : ℝ) < (t : ℝ) - k := by
    have : (k : ℝ) < t := by exact_mod_cast hk
    linarith
  have hv := stepVar_nonneg (fun i => (y i : ℝ)) t h2
  have f1 := fac_stepVar A y t h2 ht htp
  have f2 := fac_round A.bits (stepVarQ (roundBits p) sm y t * roundBits p ((t : ℚ) - k))
  rw [round_nat hp1 hk.le htp] at f2 ⊢
  rw [Rat.cast_mul] at f2
  have f3 := Fac.trans he1 f2 (Fac.mul he1 f1 (Fac.refl _ (((t : ℚ) - k : ℚ) : ℝ)))
  rw [show (((t : ℚ) - k : ℚ) : ℝ) = (t : ℝ) - k by push_cast; ring] at f3
  have h0 : 0 ≤ roundBits p (stepVarQ (roundBits p) sm y t * ((t : ℚ) - k)) := by
    have := (Fac.bounds he1 f3 (mul_nonneg hv hpos.le)).1
    have : (0 : ℝ) ≤ (roundBits p (stepVarQ (roundBits p) sm y t * ((t : ℚ) - k)) : ℚ) := le_trans (mul_nonneg (mul_nonneg hv hpos.le)
      (pow_nonneg (by linarith) _)) this
    exact_mod_cast this
  have f4 := Fac.trans he1 (fac_sq A h0) (Fac.sqrt he0.le he1 f3 (mul_nonneg hv hpos.le))
  have f5 := fac_round A.bits (sideQ (roundBits p) side (y (t - 1)) (y (k - 1)) / sq (roundBits p (stepVarQ (roundBits p) sm y t * ((t : ℚ) - k))))
  rw [Rat.cast_div] at f5
  have f6 := Fac.trans he1 f5 (Fac.div he1 (fac_side A.bits hs (y (t - 1)) (y (k - 1))) f4)
  refine ⟨?_, ?_, h0⟩
  · rw [depQ, round_nat hp1 hk.le htp, departure, show d + 8 = 1 + (1 + (1 + (1 + (d + 4 + 0)))) by omega]
    exact f6
  · rw [show d + 6 = 1 + (1 + (d + 4 + 0)) by omega]
    exact f4

/-- The rounded critical value and the exact one. -/
theorem fac_critical (A : Arith p n d sq lg sm) (t k : ℕ) (hk : k < t) (htp : t < 2 ^ p) :
    Fac (1 / 2 ^ p) 5 ((critQ (roundBits p) sq lg (roundBits p (46 / 10)) t k : ℚ) : ℝ) (√(4.6 + Real.log ((t : ℝ) - k))) ∧
    0 ≤ roundBits p (roundBits p (46 / 10) + lg (roundBits p ((t : ℚ) - k))) := by
  obtain ⟨he0, he⟩ := eps_real A.bits
  have he1 : (1 : ℝ) / 2 ^ p < 1 := by linarith
  have hp1 : 1 ≤ p := by have := A.bits; omega
  have hone : (1 : ℝ) ≤ (t : ℝ) - k := by
    have : (k : ℝ) + 1 ≤ t := by exact_mod_cast hk
    linarith
  have hposQ : (0 : ℚ) < (t : ℚ) - k := by
    have : (k : ℚ) < t := by exact_mod_cast hk
    linarith
  have hlog := Real.log_nonneg hone
  have hl := A.log ((t : ℚ) - k) hposQ
  rw [show (((t : ℚ) - k : ℚ) : ℝ) = (t : ℝ) - k by push_cast; ring] at hl
  have f1 : Fac (1 / 2 ^ p) 3 ((lg ((t : ℚ) - k) : ℚ) : ℝ) (Real.log ((t : ℝ) - k)) := by
    refine Fac.of_err2 he0.le he ?_
    rw [show 2 * (1 / 2 ^ p) * |Real.log ((t : ℝ) - k)| = 2 * |Real.log ((t : ℝ) - k)| / 2 ^ p by ring]
    exact hl
  have f2 := fac_round A.bits (46 / 10)
  rw [show (((46 / 10 : ℚ)) : ℝ) = 4.6 by norm_num] at f2
  have f3 := Fac.add he0.le he1 (by norm_num) hlog (Fac.mono he0.le he1 f2 (show 1 ≤ 3 by omega)) f1
  rw [critQ, round_nat hp1 hk.le htp]
  have f4 := fac_round A.bits (roundBits p (46 / 10) + lg ((t : ℚ) - k))
  rw [Rat.cast_add] at f4
  have f5 := Fac.trans he1 f4 f3
  have hp46 : (0 : ℝ) < 4.6 + Real.log ((t : ℝ) - k) := by
    have : (0 : ℝ) < 4.6 := by norm_num
    linarith
  have h0 : 0 ≤ roundBits p (roundBits p (46 / 10) + lg ((t : ℚ) - k)) := by
    have := (Fac.pos he1 f5 hp46).le
    exact_mod_cast this
  exact ⟨Fac.trans he1 (fac_sq A h0) (Fac.sqrt he0.le he1 f5 hp46.le), h0⟩

/-- The row of the result for `t`: while the series is constant, and after. -/
theorem statAtR_spec (A : Arith p n d sq lg sm) (em : ErrModel) {side : String} {g : ℝ → ℝ → ℝ} (hs : SideFn side g) {v : List (XF ℚ)}
    {y : ℕ → ℚ} (h : ∀ i < v.length, v[i]? = some (.fin (y i))) (t : ℕ) (h2 : 2 ≤ t) (ht : t ≤ v.length) (htn : t ≤ n + 1)
    (htp : t < 2 ^ p) :
    (0 < stepVar (fun i => (y i : ℝ)) t → ∃ k, IsFirstMax (fun k => ((depQ (roundBits p) sq sm side y t k : ℚ) : ℝ)) (t - 1) k ∧
      statAtR em (roundBits p) sq lg sm (roundBits p (46 / 10)) side v t =
        .ok (.fin (depQ (roundBits p) sq sm side y t k), .fin (critQ (roundBits p) sq lg (roundBits p (46 / 10)) t k))) ∧
    (stepVar (fun i => (y i : ℝ)) t = 0 →
      statAtR .numpy (roundBits p) sq lg sm (roundBits p (46 / 10)) side v t = .ok (.ninf, .nan) ∧
      statAtR .python (roundBits p) sq lg sm (roundBits p (46 / 10)) side v t = .error .zeroDivisionError) := by
  obtain ⟨he0, he⟩ := eps_real A.bits
  have he1 : (1 : ℝ) / 2 ^ p < 1 := by linarith
  have hp1 : 1 ≤ p := by have := A.bits; omega
  have hposQ : ∀ k < t, (0 : ℚ) < (t : ℚ) - k := fun k hk => by
    have : (k : ℚ) < t := by exact_mod_cast hk
    linarith
  have e1 : ((1 : ℕ) : ℚ) = 1 := Nat.cast_one
  have hr1 : roundBits p ((t : ℚ) - 1) ≠ 0 := by
    rw [← e1, round_nat hp1 (by omega) htp]
    exact (hposQ 1 (by omega)).ne'
  constructor
  · intro hv
    rw [statAtR_eq em _ sq lg sm _ side h t h2 ht hr1]
    obtain ⟨st, s1, s2⟩ := innerR_spec em (roundBits p) sq lg (roundBits p (46 / 10)) side (stepVarQ (roundBits p) sm y t) y t
      (fun k _ hk => by rw [round_nat hp1 hk.le htp]; exact hposQ k hk) (fun k _ hk => (fac_departure A hs y t h2 htn htp k hk).2.2)
      (fun k _ hk hz => by
        have := Fac.pos he1 (fac_departure A hs y t h2 htn htp k hk).2.1 (Real.sqrt_pos.2 (mul_pos hv (by
          have : (k : ℝ) < t := by exact_mod_cast hk
          linarith)))
        rw [hz, Rat.cast_zero] at this
        exact lt_irrefl _ this) (fun k _ hk => (fac_critical A t k hk htp).2) (t - 1) 0 (by omega) (.ninf, .nan) (Or.inl ⟨rfl, rfl⟩)
    simp only [Nat.zero_add] at s1 s2
    rcases s2 with ⟨s2, -⟩ | ⟨k, s2, s3⟩
    · omega
    · exact ⟨k, s2, by rw [s1, s3]; rfl⟩
  · intro hv
    have hc := const_of_stepVar _ t ((stepVar_zero_iff _ t h2).1 hv)
    have hcQ : ∀ i < t, y i = y 0 := fun i hi => by exact_mod_cast hc i hi
    have hz : stepVarQ (roundBits p) sm y t = 0 := by
      have := fac_stepVar A y t h2 htn htp
      rw [hv] at this
      exact_mod_cast this.zero
    rw [statAtR_eq .numpy _ sq lg sm _ side h t h2 ht hr1, statAtR_eq .python _ sq lg sm _ side h t h2 ht hr1, hz, hcQ (t - 1) (by omega)]
    constructor
    · apply innerR_zero (roundBits_zero p) (sq_zero A)
      intro x hx
      obtain ⟨i, hi, rfl⟩ := List.mem_map.1 hx
      rw [List.mem_range] at hi
      rw [hcQ i (by omega)]
    · obtain ⟨m, hm⟩ : ∃ m, t - 1 = m + 1 := ⟨t - 2, by omega⟩
      rw [hm, List.range_succ_eq_map, List.map_cons]
      unfold innerR
      dsimp only
      rw [XF.mul_fin, zero_mul, rnd, roundBits_zero, sqrtR, if_neg (lt_irrefl _), sq_zero A]
      unfold divR
      rw [if_pos (by simp)]
      rfl

end

end Mizar.Rd
