import Verif.Props.Cusum
import Verif.Props.RoundedCusum

/-!
Property theorems C121: the CUSUM filter starts afresh at every selected bar (`/repo/mizarlabs/transformers/sampling/down_sampling.py`).
-/

set_option linter.unusedSectionVars false

namespace Mizar.Props
open Mizar.Spec Mizar.Cusum
variable {K : Type*} [Field K] [LinearOrder K] [IsStrictOrderedRing K]

/-- Together the two sums never exceed the threshold. -/
def Joint (h : K) (s : St K) : Prop := ∃ a b : K, s = ⟨.fin a, .fin (-b)⟩ ∧ 0 ≤ a ∧ 0 ≤ b ∧ a + b ≤ h

theorem joint_step {h : K} (hh : 0 ≤ h) {s : St K} (hs : Joint h s) (d : XF K) :
    Joint h (step (.fin h) s d).1 ∧ ((step (.fin h) s d).2 = true → (step (.fin h) s d).1 = ⟨.fin 0, .fin 0⟩) ∧
      (d = .nan → step (.fin h) s d = (⟨.fin 0, .fin 0⟩, false)) := by
  obtain ⟨a, b, rfl, ha, hb, hab⟩ := hs
  have z : Joint h (⟨.fin 0, .fin 0⟩ : St K) := ⟨0, 0, by simp, le_rfl, le_rfl, by simpa using hh⟩
  rw [(step_decouple hh (by linarith) (by linarith) d).1]
  cases d with
  | nan => simpa [upStep] using z
  | pinf => simpa [upStep, XF.neg] using z
  | ninf => simpa [upStep, XF.neg] using z
  | fin d =>
    simp only [upStep, XF.neg_fin]
    by_cases h1 : h < max 0 (a + d)
    · have h2 : h < a + d := by
        rcases lt_max_iff.1 h1 with h2 | h2
        · exact absurd h2 (not_lt.2 hh)
        · exact h2
      have h3 : max 0 (b + -d) = 0 := max_eq_left (by linarith)
      rw [if_pos h1, h3, if_neg (not_lt.2 hh)]
      simpa using z
    · rw [if_neg h1]
      by_cases h2 : h < max 0 (b + -d)
      · have h3 : h < b + -d := by
          rcases lt_max_iff.1 h2 with h3 | h3
          · exact absurd h3 (not_lt.2 hh)
          · exact h3
        have h4 : max 0 (a + d) = 0 := max_eq_left (by linarith)
        rw [if_pos h2, h4]
        simpa using z
      · rw [if_neg h2]
        refine ⟨⟨_, _, rfl, le_max_left _ _, le_max_left _ _, ?_⟩, by simp, by simp⟩
        rw [not_lt] at h1 h2
        dsimp only
        rcases le_total 0 (a + d) with e1 | e1
        · rcases le_total 0 (b + -d) with e2 | e2
          · rw [max_eq_right e1, max_eq_right e2]; linarith
          · rw [max_eq_left e2]; linarith
        · rw [max_eq_left e1]; linarith

theorem joint_after {h : K} (hh : 0 ≤ h) (l : List (XF K)) : ∀ s, Joint h s → Joint h (stateAfter (.fin h) s l) := by
  induction l with
  | nil => intro s hs; exact hs
  | cons d l ih => intro s hs; exact ih _ (joint_step hh hs d).1

theorem joint_zero {h : K} (hh : 0 ≤ h) : Joint h (⟨.fin 0, .fin 0⟩ : St K) := ⟨0, 0, by simp, le_rfl, le_rfl, by simpa using hh⟩

theorem diffs_split (A C : List (ℤ × XF K)) (b : ℤ × XF K) : diffs (A ++ b :: C) = diffs (A ++ [b]) ++ diffs (b :: C) := by
  induction A with
  | nil => rfl
  | cons a A ih =>
    cases A with
    | nil => rfl
    | cons a' A => simp only [List.cons_append, diffs] at ih ⊢; rw [ih]

theorem diffs_last (A : List (ℤ × XF K)) (a b : ℤ × XF K) : diffs (A ++ [a] ++ [b]) = diffs (A ++ [a]) ++ [(b.1, XF.sub b.2 a.2)] := by
  have := diffs_split A [b] a
  simpa [diffs] using this

theorem times_mem {h : XF K} {s : St K} {X : List (ℤ × XF K)} {i : ℤ} (hi : i ∈ loop h s (diffs X)) : i ∈ (X.map (·.1)).tail := by
  rw [← diffs_map_fst]
  exact (loop_sublist h s _).subset hi

/-- **C121** The filter starts afresh at every selected bar: cutting the data there, the second piece beginning with that bar, gives the
same selection in two pieces. Any prices, also missing and infinite ones, any threshold. -/
theorem C121_restart (h : K) (A C : List (ℤ × XF K)) (b : ℤ × XF K) (s : List ℤ) (e : transform (.fin h) (A ++ b :: C) = .ok s)
    (hb : b.1 ∈ s) :
    ∃ s₁ s₂, transform (.fin h) (A ++ [b]) = .ok s₁ ∧ transform (.fin h) (b :: C) = .ok s₂ ∧ s = s₁ ++ s₂ := by
  unfold transform at e
  split at e
  swap
  · cases e
  rename_i hN
  cases e
  have hN' := hN
  rw [List.map_append, List.map_cons, List.nodup_append] at hN'
  obtain ⟨nA, nC, dis⟩ := hN'
  rw [List.nodup_cons] at nC
  have hN1 : ((A ++ [b]).map (·.1)).Nodup := hN.sublist (by simp)
  have hN2 : ((b :: C).map (·.1)).Nodup := hN.sublist (by simp)
  have hne : A ≠ [] := by
    rintro rfl
    exact nC.1 (by simpa using times_mem hb)
  unfold transform
  rw [if_pos hN1, if_pos hN2]
  refine ⟨_, _, rfl, rfl, ?_⟩
  rcases lt_or_ge h 0 with h0 | h0
  · rw [loop_neg h0, loop_neg h0, loop_neg h0, diffs_split, List.map_append]
  obtain ⟨A', a, rfl⟩ := List.eq_nil_or_concat' A |>.resolve_left hne
  rw [diffs_split, loop_append] at hb ⊢
  congr 1
  have hb1 : b.1 ∈ loop (.fin h) ⟨.fin 0, .fin 0⟩ (diffs (A' ++ [a] ++ [b])) := by
    rcases List.mem_append.1 hb with hb | hb
    · exact hb
    · exact absurd (by simpa using times_mem hb) nC.1
  rw [diffs_last, loop_append] at hb1
  have hb2 : (step (.fin h) (stateAfter (.fin h) ⟨.fin 0, .fin 0⟩ ((diffs (A' ++ [a])).map (·.2))) (XF.sub b.2 a.2)).2 = true := by
    rcases List.mem_append.1 hb1 with hb1 | hb1
    · exact absurd rfl (dis b.1 (List.mem_of_mem_tail (times_mem hb1)) b.1 List.mem_cons_self)
    · by_contra hc
      rw [Bool.not_eq_true] at hc
      simp [loop, hc] at hb1
  rw [diffs_last, List.map_append, List.map_singleton]
  have : stateAfter (.fin h) ⟨.fin 0, .fin 0⟩ ((diffs (A' ++ [a])).map (·.2) ++ [XF.sub b.2 a.2]) = ⟨.fin 0, .fin 0⟩ := by
    unfold stateAfter at hb2 ⊢
    rw [List.foldl_append]
    exact (joint_step h0 (joint_after h0 _ _ (joint_zero h0)) _).2.1 hb2
  rw [this]

/-- **C121** What comes before a selected bar does not matter for what is selected after it. -/
theorem C121_history (h : K) (A A' C : List (ℤ × XF K)) (b : ℤ × XF K) (s s' : List ℤ) (e : transform (.fin h) (A ++ b :: C) = .ok s)
    (e' : transform (.fin h) (A' ++ b :: C) = .ok s') (hb : b.1 ∈ s) (hb' : b.1 ∈ s') (i : ℤ) (hi : i ∈ C.map (·.1)) : i ∈ s ↔ i ∈ s' := by
  obtain ⟨s₁, s₂, h1, h2, rfl⟩ := C121_restart h A C b s e hb
  obtain ⟨s₁', s₂', h1', h2', rfl⟩ := C121_restart h A' C b s' e' hb'
  rw [h2] at h2'
  cases h2'
  have key : ∀ (A : List (ℤ × XF K)) (s s₁ : List ℤ), transform (.fin h) (A ++ b :: C) = .ok s → transform (.fin h) (A ++ [b]) = .ok s₁ → i ∉ s₁ := by
    intro A s s₁ e h1 hc
    have hN : ((A ++ b :: C).map (·.1)).Nodup := by
      unfold transform at e
      split at e
      · assumption
      · cases e
    have := (C36_subsequence _ _ _ h1).subset hc
    have hm : i ∈ (A ++ [b]).map (·.1) := List.mem_of_mem_tail this
    rw [show A ++ b :: C = (A ++ [b]) ++ C by simp, List.map_append, List.nodup_append] at hN
    exact hN.2.2 i hm i hi rfl
  simp only [List.mem_append, key A _ _ e h1, key A' _ _ e' h1', false_or]

/-- **C121** It also starts afresh at a missing price, which is never selected itself: a move across it is not seen. -/
theorem C121_missing_price (h : K) (hh : 0 ≤ h) (A C : List (ℤ × XF K)) (i : ℤ) (s : List ℤ)
    (e : transform (.fin h) (A ++ (i, .nan) :: C) = .ok s) :
    ∃ s₁ s₂, transform (.fin h) A = .ok s₁ ∧ transform (.fin h) C = .ok s₂ ∧ s = s₁ ++ s₂ := by
  unfold transform at e
  split at e
  swap
  · cases e
  rename_i hN
  cases e
  have hN1 : (A.map (·.1)).Nodup := hN.sublist (by simp)
  have hN2 : (C.map (·.1)).Nodup := hN.sublist (by simp)
  unfold transform
  rw [if_pos hN1, if_pos hN2]
  refine ⟨_, _, rfl, rfl, ?_⟩
  have h2 : ∀ s, Joint h s → loop (.fin h) s (diffs ((i, .nan) :: C)) = loop (.fin h) ⟨.fin 0, .fin 0⟩ (diffs C) := by
    intro s hs
    cases C with
    | nil => rfl
    | cons c C =>
      have : XF.sub c.2 (.nan : XF K) = .nan := by cases c.2 <;> rfl
      simp only [diffs, this, loop, (joint_step hh hs .nan).2.2 rfl]
      rfl
  rw [diffs_split, loop_append, h2 _ (joint_after hh _ _ (joint_zero hh))]
  congr 1
  rcases List.eq_nil_or_concat' A with rfl | ⟨A', a, rfl⟩
  · rfl
  · have : XF.sub (.nan : XF K) a.2 = .nan := by cases a.2 <;> rfl
    rw [diffs_last, loop_append]
    simp only [this, loop, (joint_step hh (joint_after hh _ _ (joint_zero hh)) .nan).2.2 rfl]
    simp

/-- **C121** In floating point with `p` bits (`p = 53` in the code) the same holds for prices in whole ticks (multiples of a power of two with at
most `p - 1` bits). -/
theorem C121_rounded_grid_partial (p : ℕ) (hp : 1 ≤ p) (h : ℚ) (hh : 0 ≤ h) (hf : IsFloat p h) (A C : List (ℤ × ℚ)) (b : ℤ × ℚ) (e : ℤ)
    (hg : ∀ x ∈ A ++ b :: C, ∃ m : ℤ, |m| < 2 ^ (p - 1) ∧ x.2 = m * 2 ^ e) (s : List ℤ)
    (hs : Rd.cusum (roundBits p) h (A ++ b :: C) = .ok s) (hb : b.1 ∈ s) :
    ∃ s₁ s₂, Rd.cusum (roundBits p) h (A ++ [b]) = .ok s₁ ∧ Rd.cusum (roundBits p) h (b :: C) = .ok s₂ ∧ s = s₁ ++ s₂ := by
  rw [C107_grid p hp h hh hf _ e hg, List.map_append, List.map_cons] at hs
  obtain ⟨s₁, s₂, h1, h2, h3⟩ := C121_restart h _ _ _ s hs hb
  refine ⟨s₁, s₂, ?_, ?_, h3⟩
  · rw [C107_grid p hp h hh hf _ e fun x hx => hg x (by
      rcases List.mem_append.1 hx with hx | hx
      · exact List.mem_append_left _ hx
      · rw [List.mem_singleton] at hx; subst hx; simp), List.map_append]
    exact h1
  · rw [C107_grid p hp h hh hf _ e fun x hx => hg x (List.mem_append_right _ hx), List.map_cons]
    exact h2

/-- A rise by the threshold, twelve falls that are lost in the upward sum but not in the downward sum, a fall and a rise. -/
def restartPath : List (ℤ × ℚ) := (0, -1) :: (1, 0) :: (List.range 12).map fun k => ((k : ℤ) + 2, -((k : ℚ) + 1) / 2 ^ 54)

/-- **C121** In floating point it is false for other prices: after the selected bar 14 the upward sum keeps a rest of the prices before, and bar
15 is selected although it is not when the filter is started at bar 14. -/
theorem C121_rounded_refuted :
    Rd.cusum (roundBits 53) 1 (restartPath ++ [(14, -(1 + 1 / 2 ^ 52)), (15, -(1 / 2 ^ 52))]) = .ok [14, 15] ∧
    Rd.cusum (roundBits 53) 1 (restartPath ++ [(14, -(1 + 1 / 2 ^ 52))]) = .ok [14] ∧
    Rd.cusum (roundBits 53) 1 [(14, -(1 + 1 / 2 ^ 52)), (15, -(1 / 2 ^ 52))] = .ok [] ∧
    ∀ x ∈ restartPath ++ [(14, -(1 + 1 / 2 ^ 52)), (15, -(1 / 2 ^ 52))], roundBits 53 x.2 = x.2 := by
  decide +kernel

/-- C121 beside: cut at the selected bar 12. -/
example : transform (.fin (1 : ℚ)) [(10, .fin 5), (11, .fin 4), (12, .fin (11/2)), (13, .nan), (14, .fin 6), (15, .fin 4), (16, .pinf)] = .ok [12, 15, 16] ∧
    transform (.fin (1 : ℚ)) [(10, .fin 5), (11, .fin 4), (12, .fin (11/2))] = .ok [12] ∧
    transform (.fin (1 : ℚ)) [(12, .fin (11/2)), (13, .nan), (14, .fin 6), (15, .fin 4), (16, .pinf)] = .ok [15, 16] ∧
    transform (.fin (1 : ℚ)) [(14, .fin 6), (15, .fin 4), (16, .pinf)] = .ok [15, 16] := by decide +kernel

/-- C121 beside: a bar that is not selected does not cut: started there the filter misses bar 12. -/
example : transform (.fin (1 : ℚ)) [(10, .fin 5), (11, .fin (9/2)), (12, .fin (7/2))] = .ok [12] ∧
    transform (.fin (1 : ℚ)) [(11, .fin (9/2)), (12, .fin (7/2))] = .ok [] := by decide +kernel

end Mizar.Props
