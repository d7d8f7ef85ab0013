import Mathlib.Algebra.BigOperators.Group.Finset.Basic
import Mathlib.Algebra.BigOperators.Field
import Verif.Lemmas.Oob

/-!
Property theorems C23: the out-of-bag decision function
(`/repo/mizarlabs/model/sequentially_bootstrapped_bagging_classifier.py` lines 582-634).
-/

namespace Mizar.Props
open Mizar.Spec Mizar.Bag

/-- C23 (partial: every base estimator was trained on all classes and has an out-of-bag row or accepts an
empty input): the decision function of row `i` is NaN when every estimator has seen the row; otherwise it
is, for each class, the mean of the probabilities given by exactly the estimators whose sample does not
contain the row, and it adds up to one. -/
theorem C23_oob_decision_partial (nC n : ℕ) (ests : List (OobEst × List ℕ))
    (hfull : ∀ p ∈ ests, FullOob nC p.1)
    (hne : ∀ p ∈ ests, p.1.rejectsEmpty = false ∨ ∃ i < n, i ∉ p.2) :
    ∃ dec, oobDecision nC n ests = .ok dec ∧ dec.length = n ∧
      ∀ i < n, ∃ row, dec[i]? = some row ∧ row.length = nC ∧
        (oobOf ests i = [] → ∀ x ∈ row, x = .nan) ∧
        (oobOf ests i ≠ [] →
          (∀ k < nC, row[k]? = some (.fin (((oobOf ests i).map fun e => classProb e i k).sum /
            ((oobOf ests i).length : ℚ)))) ∧
          XF.sum row = .fin 1) := by
  have h0 : IsAcc nC n (List.replicate n (List.replicate nC 0)) (fun _ _ => 0) := by
    refine ⟨by simp, ?_⟩
    intro i hi
    refine ⟨by simp, ?_⟩
    intro k hk; simp
  obtain ⟨preds, hp1, hp2, hp3⟩ := oob_fold nC n ests hfull hne _ _ h0
  unfold oobDecision oobPredictions
  rw [hp1]
  refine ⟨_, rfl, by simp [hp2], ?_⟩
  intro i hi
  have hi' : i < preds.length := by omega
  obtain ⟨hl, hv⟩ := hp3 i hi'
  have hrow : preds[i] = (List.range nC).map fun k => ((oobOf ests i).map fun e => classProb e i k).sum := by
    apply List.ext_getElem
    · simp [hl]
    · intro k h1 h2
      rw [hv k h1]; simp
  have hfull' : ∀ e ∈ oobOf ests i, FullOob nC e := by
    intro e he
    obtain ⟨p, hp, rfl⟩ := List.mem_map.1 he
    exact hfull p (List.mem_of_mem_filter hp)
  have hsum : (preds[i]).sum = ((oobOf ests i).length : ℚ) := by
    rw [hrow]
    generalize oobOf ests i = l at hfull'
    have : ∀ l : List OobEst, (∀ e ∈ l, FullOob nC e) →
        ((List.range nC).map fun k => (l.map fun e => classProb e i k).sum).sum = (l.length : ℚ) := by
      intro l
      induction l with
      | nil => intro _; simp
      | cons e l ih =>
        intro h
        simp only [List.map_cons, List.sum_cons]
        rw [List.sum_map_add, classProb_sum nC e (h e List.mem_cons_self) i,
          ih fun e' he' => h e' (List.mem_cons_of_mem _ he')]
        push_cast [List.length_cons]
        ring
    exact this l hfull'
  refine ⟨(preds[i]).map fun x => XF.div (.fin x) (.fin (preds[i]).sum), by simp [hi'], by simp [hl], ?_, ?_⟩
  · intro hnil x hx
    obtain ⟨y, hy, rfl⟩ := List.mem_map.1 hx
    rw [hrow, hnil] at hy
    simp only [List.map_nil, List.sum_nil, List.mem_map] at hy
    obtain ⟨_, _, rfl⟩ := hy
    rw [hsum, hnil]
    simp [XF.div, XF.infSign]
  · intro hnn
    have hpos : (0 : ℚ) < ((oobOf ests i).length : ℚ) := by
      exact_mod_cast List.length_pos_iff.2 hnn
    have hrow2 : (preds[i]).map (fun x => XF.div (.fin x) (.fin (preds[i]).sum)) =
        (List.range nC).map fun k => XF.fin (((oobOf ests i).map fun e => classProb e i k).sum /
            ((oobOf ests i).length : ℚ)) := by
      rw [hsum]
      conv_lhs => rw [hrow]
      rw [List.map_map]
      apply List.map_congr_left
      intro k _
      simp only [Function.comp]
      rw [XF.div_fin _ _ hpos.ne']
    rw [hrow2]
    constructor
    · intro k hk; simp [hk]
    · rw [XF.sum_map_fin]
      have h1 : (fun k => ((oobOf ests i).map fun e => classProb e i k).sum / ((oobOf ests i).length : ℚ)) =
          fun k => ((oobOf ests i).map fun e => classProb e i k).sum * ((oobOf ests i).length : ℚ)⁻¹ := by
        funext k; rw [div_eq_mul_inv]
      rw [h1, List.sum_map_mul_right, ← hrow, hsum, mul_inv_cancel₀ hpos.ne']

/-- Two estimators, two classes, three rows; row 1 is in every bag. -/
def demoOob : List (OobEst × List ℕ) :=
  [(⟨[0, 1], some (fun i => if i = 0 then [1/4, 3/4] else [1, 0]), fun _ => 0, true⟩, [1, 1, 2]),
   (⟨[0, 1], none, fun i => i % 2, true⟩, [1, 1, 1])]

example : oobDecision 2 3 demoOob = .ok [[.fin (5/8), .fin (3/8)], [.nan, .nan], [.fin 1, .fin 0]] := by
  decide +kernel
example : ∀ p ∈ demoOob, p.1.rejectsEmpty = false ∨ ∃ i < 3, i ∉ p.2 := by decide

/-- C23 fails for a base estimator that was trained on a single class (possible when it does not support
sample weights and its bootstrap sample has one class): its one-column probability is broadcast over all
classes, and the decision function gives the class it knows for certain only one half. -/
theorem C23_single_class_refuted :
    let e : OobEst := ⟨[1], some (fun _ => [1]), fun _ => 1, true⟩
    oobDecision 2 2 [(e, [1])] = .ok [[.fin (1/2), .fin (1/2)], [.nan, .nan]] ∧
    classProb e 0 0 = 0 ∧ classProb e 0 1 = 1 := by
  decide +kernel

/-- C23: with three classes and an estimator that has seen two of them the score raises `ValueError`, and
so it does when an estimator's bag contains every row. -/
theorem C23_raises_refuted :
    oobDecision 3 2 [(⟨[0, 1], some (fun _ => [1/2, 1/2]), fun _ => 0, true⟩, [1])] = .error .valueError ∧
    ∀ (nC n : ℕ) (e : OobEst) (samples : List ℕ), e.rejectsEmpty = true → (∀ i < n, i ∈ samples) →
      oobDecision nC n [(e, samples)] = .error .valueError := by
  constructor
  · decide +kernel
  · intro nC n e samples he hall
    unfold oobDecision oobPredictions
    rw [List.foldlM_cons]
    unfold oobStep
    simp only [he, Bool.true_and, List.length_replicate]
    rw [if_pos]
    · rfl
    · rw [List.all_eq_true]
      intro i hi
      simpa using hall i (List.mem_range.1 hi)

end Mizar.Props
