import Mathlib.Algebra.BigOperators.Field
import Mathlib.Algebra.Order.BigOperators.Group.Finset
import Verif.Spec.EwmVar
import Verif.Lemmas.Technical

/-!
Lemmas on the recursion of `ewm(span).var()`.
-/

set_option linter.unusedSectionVars false

namespace Mizar.Props
open Mizar.Spec Finset
variable {K : Type} [Field K] [LinearOrder K] [IsStrictOrderedRing K]

/-- Weighted sum over the first `n` observations. -/
def ewT (q : K) (l : List (XF K)) (n : ℕ) (g : K → K) : K :=
  ∑ j ∈ range n, (finAt l j).elim 0 fun x => q ^ (n - 1 - j) * g x

theorem ewSum_eq (q : K) (l : List (XF K)) (i : ℕ) (g : K → K) : ewSum q l i g = ewT q l (i + 1) g := rfl

theorem ewT_succ (q : K) (l : List (XF K)) (n : ℕ) (g : K → K) :
    ewT q l (n + 1) g = q * ewT q l n g + (finAt l n).elim 0 g := by
  unfold ewT
  rw [Finset.sum_range_succ, Finset.mul_sum]
  congr 1
  · apply Finset.sum_congr rfl
    intro j hj
    rw [mem_range] at hj
    cases finAt l j with
    | none => simp
    | some x =>
      simp only [Option.elim_some]
      rw [show n + 1 - 1 - j = (n - 1 - j) + 1 by omega]
      ring
  · cases finAt l n with
    | none => simp
    | some x => simp

theorem ewT_none (q : K) (l : List (XF K)) (n : ℕ) (g : K → K) (h : ∀ j < n, finAt l j = none) : ewT q l n g = 0 := by
  unfold ewT
  apply Finset.sum_eq_zero
  intro j hj
  rw [h j (mem_range.1 hj)]; rfl

theorem ewT_sub_sq (q : K) (l : List (XF K)) (n : ℕ) (m : K) :
    ewT q l n (fun x => (x - m) ^ 2) = ewT q l n (fun x => x ^ 2) - 2 * m * ewT q l n id + m ^ 2 * ewT q l n fun _ => 1 := by
  unfold ewT
  rw [Finset.mul_sum, Finset.mul_sum, ← Finset.sum_sub_distrib, ← Finset.sum_add_distrib]
  apply Finset.sum_congr rfl
  intro j _
  cases finAt l j with
  | none => simp
  | some x => simp only [Option.elim_some, id]; ring

theorem ewT_pos (q : K) (hq : 0 < q) (l : List (XF K)) (n : ℕ) (h : ∃ j < n, finAt l j ≠ none) :
    0 < ewT q l n fun _ => 1 := by
  obtain ⟨j, hj, hj'⟩ := h
  unfold ewT
  apply Finset.sum_pos'
  · intro i _
    cases finAt l i with
    | none => simp
    | some x => simp only [Option.elim_some]; positivity
  · refine ⟨j, mem_range.2 hj, ?_⟩
    cases hf : finAt l j with
    | none => exact absurd hf hj'
    | some x => simp only [Option.elim_some]; positivity

/-- The entry the recursion sees. -/
theorem prep_cases (l : List (XF K)) (n : ℕ) (hn : n < l.length) :
    ((l.map XF.prep)[n]'(by simpa using hn) = .nan ∧ finAt l n = none) ∨
    (∃ x, (l.map XF.prep)[n]'(by simpa using hn) = .fin x ∧ finAt l n = some x) := by
  unfold finAt
  rw [List.getElem?_eq_getElem hn, List.getElem_map]
  cases l[n] with
  | nan => left; exact ⟨rfl, rfl⟩
  | ninf => left; exact ⟨rfl, rfl⟩
  | pinf => left; exact ⟨rfl, rfl⟩
  | fin x => right; exact ⟨x, rfl, rfl⟩

theorem ewmVar_state (q : K) (hq : 0 < q) (l : List (XF K)) (n : ℕ) (hn : n ≤ l.length) :
    let s := ((l.map XF.prep).take n).foldl (ewmVarStep (1 - q)) ⟨.nan, .fin 0, 1, 1, 1⟩
    ((∀ j < n, finAt l j = none) → s = ⟨.nan, .fin 0, 1, 1, 1⟩) ∧
    ((∃ j < n, finAt l j ≠ none) → ∃ m c : K,
      s = ⟨.fin m, .fin c, ewT q l n fun _ => 1, ewT (q ^ 2) l n fun _ => 1, ewT q l n fun _ => 1⟩ ∧
      (ewT q l n fun _ => 1) * m = ewT q l n id ∧
      (ewT q l n fun _ => 1) * c = ewT q l n fun x => (x - m) ^ 2) := by
  induction n with
  | zero => exact ⟨fun _ => rfl, fun ⟨j, hj, _⟩ => absurd hj (by omega)⟩
  | succ n ih =>
    have ih := ih (by omega)
    dsimp only at ih ⊢
    have hlen : n < (l.map XF.prep).length := by simpa using hn
    rw [List.take_succ_eq_append_getElem hlen, List.foldl_append, List.foldl_cons, List.foldl_nil]
    have h1q : 1 - (1 - q) = q := by ring
    by_cases hobs : ∃ j < n, finAt l j ≠ none
    · obtain ⟨m, c, hs, hm, hc⟩ := ih.2 hobs
      have hW := ewT_pos q hq l n hobs
      rw [hs]
      refine ⟨fun hno => ?_, fun _ => ?_⟩
      · obtain ⟨j, hj, hj'⟩ := hobs
        exact absurd (hno j (by omega)) hj'
      · rcases prep_cases l n (by omega) with ⟨hp, hf⟩ | ⟨x, hp, hf⟩
        · refine ⟨m, c, ?_, ?_, ?_⟩
          · rw [hp]
            unfold ewmVarStep
            simp only [XF.isNan_fin, Bool.false_eq_true, if_false, h1q, XF.isNan, if_true, ewT_succ, hf, Option.elim_none, add_zero]
            congr 1 <;> ring
          · simp only [ewT_succ, hf, Option.elim_none, add_zero]; rw [← hm]; ring
          · simp only [ewT_succ, hf, Option.elim_none, add_zero]; rw [← hc]; ring
        · set W := ewT q l n fun _ => 1 with hWd
          have hW1 : 0 < q * W + 1 := by positivity
          have hne := hW1.ne'
          set m' := (q * W * m + x) / (q * W + 1) with hm'
          set c' := (q * W * (c + (m - m') * (m - m')) + (x - m') * (x - m')) / (q * W + 1) with hc'
          refine ⟨m', c', ?_, ?_, ?_⟩
          · rw [hp]
            unfold ewmVarStep
            simp only [XF.isNan_fin, Bool.false_eq_true, if_false, h1q]
            have hmm : (if XF.beq (.fin m) (.fin x) = true then (.fin m : XF K) else
                XF.div (XF.add (XF.mul (.fin (W * q)) (.fin m)) (.fin x)) (.fin (W * q + 1))) = .fin m' := by
              simp only [XF.beq_fin, decide_eq_true_eq]
              split
              · rename_i heq
                subst heq
                congr 1
                rw [hm']
                field_simp
              · rw [XF.mul_fin, XF.add_fin, XF.div_fin _ _ (by rw [mul_comm]; exact hne), hm']
                congr 1
                rw [mul_comm W q]
            rw [hmm]
            simp only [XF.sub_fin, XF.mul_fin, XF.add_fin]
            rw [XF.div_fin _ _ (by rw [mul_comm]; exact hne)]
            simp only [ewT_succ, hf, Option.elim_some, ← hWd]
            rw [mul_comm W q]
            congr 1
            ring
          · simp only [ewT_succ, hf, Option.elim_some, ← hWd, id]
            rw [← hm, hm', mul_div_cancel₀ _ hne]; ring
          · rw [ewT_sub_sq] at hc ⊢
            simp only [ewT_succ, hf, Option.elim_some, ← hWd, id] at hc ⊢
            rw [hc', mul_div_cancel₀ _ hne]
            have hmm : (q * W + 1) * m' = q * W * m + x := by rw [hm', mul_div_cancel₀ _ hne]
            have e1 : ewT q l n id = W * m := hm.symm
            rw [e1] at hc ⊢
            linear_combination q * hc
    · have hall : ∀ j < n, finAt l j = none := by
        intro j hj
        by_contra h
        exact hobs ⟨j, hj, h⟩
      rw [ih.1 hall]
      rcases prep_cases l n (by omega) with ⟨hp, hf⟩ | ⟨x, hp, hf⟩
      · rw [hp]
        refine ⟨fun _ => by simp [ewmVarStep, XF.isNan], fun ⟨j, hj, hj'⟩ => ?_⟩
        rcases Nat.lt_or_ge j n with h | h
        · exact absurd (hall j h) hj'
        · have : j = n := by omega
          subst this
          exact absurd hf hj'
      · rw [hp]
        refine ⟨fun hno => ?_, fun _ => ?_⟩
        · have := hno n (by omega)
          rw [hf] at this; simp at this
        · refine ⟨x, 0, ?_, ?_, ?_⟩
          · simp [ewmVarStep, XF.isNan, ewT_succ, hf, ewT_none _ l n _ hall]
          · simp [ewT_succ, hf, ewT_none _ l n _ hall]
          · simp [ewT_succ, hf, ewT_none _ l n _ hall]

theorem ewT_sq_lt (q : K) (hq : 0 < q) (l : List (XF K)) (n : ℕ) :
    ((∃ i j, i < j ∧ j < n ∧ finAt l i ≠ none ∧ finAt l j ≠ none) →
      (ewT (q ^ 2) l n fun _ => 1) < (ewT q l n fun _ => 1) ^ 2) ∧
    ((∀ i j, i < j → j < n → finAt l i = none ∨ finAt l j = none) →
      (ewT (q ^ 2) l n fun _ => 1) = (ewT q l n fun _ => 1) ^ 2) := by
  induction n with
  | zero => exact ⟨fun ⟨i, j, _, hj, _⟩ => absurd hj (by omega), fun _ => by simp [ewT]⟩
  | succ n ih =>
    have hW : 0 ≤ ewT q l n fun _ => 1 := by
      by_cases h : ∃ j < n, finAt l j ≠ none
      · exact (ewT_pos q hq l n h).le
      · rw [ewT_none q l n _ (fun j hj => by by_contra h'; exact h ⟨j, hj, h'⟩)]
    have hle : (ewT (q ^ 2) l n fun _ => 1) ≤ (ewT q l n fun _ => 1) ^ 2 := by
      by_cases h : ∃ i j, i < j ∧ j < n ∧ finAt l i ≠ none ∧ finAt l j ≠ none
      · exact (ih.1 h).le
      · push Not at h
        exact (ih.2 fun i j a b => by
          by_cases hi : finAt l i = none
          · exact Or.inl hi
          · exact Or.inr (h i j a b hi)).le
    simp only [ewT_succ]
    have hq2 : 0 < q ^ 2 := by positivity
    cases hf : finAt l n with
    | none =>
      simp only [Option.elim_none, add_zero]
      constructor
      · rintro ⟨i, j, hij, hj, h1, h2⟩
        have hjn : j ≠ n := by rintro rfl; exact h2 hf
        have := ih.1 ⟨i, j, hij, by omega, h1, h2⟩
        nlinarith
      · intro h
        rw [ih.2 fun i j a b => h i j a (by omega)]; ring
    | some x =>
      simp only [Option.elim_some]
      constructor
      · rintro ⟨i, j, hij, hj, h1, h2⟩
        have hpos := ewT_pos q hq l n ⟨i, by omega, h1⟩
        have := mul_pos hq hpos
        nlinarith
      · intro h
        have hall : ∀ j < n, finAt l j = none := by
          intro j hj
          rcases h j n hj (by omega) with h' | h'
          · exact h'
          · rw [hf] at h'; cases h'
        rw [ewT_none _ l n _ hall, ewT_none _ l n _ hall]; ring

end Mizar.Props
