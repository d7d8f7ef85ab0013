import Mathlib.Algebra.BigOperators.Group.Finset.Basic
import Mathlib.Algebra.BigOperators.Field
import Verif.Spec.Bagging
import Verif.Lemmas.SeqBoot

/-!
Lemmas about the out-of-bag accumulation.
-/

namespace Mizar.Bag
open Mizar.Spec

/-- Rows of accumulated probabilities. -/
def IsAcc (nC n : ℕ) (preds : List (List ℚ)) (F : ℕ → ℕ → ℚ) : Prop :=
  preds.length = n ∧ ∀ i (hi : i < preds.length), (preds[i]).length = nC ∧
    ∀ k (hk : k < (preds[i]).length), (preds[i])[k] = F i k

theorem classProb_proba {nC : ℕ} {e : OobEst} (he : FullOob nC e) {f : ℕ → List ℚ} (hf : e.proba = some f)
    (i k : ℕ) (hk : k < nC) : classProb e i k = (f i).getD k 0 := by
  unfold classProb
  rw [hf]
  simp only
  rw [he.1, if_pos (List.mem_range.2 hk)]
  congr 1
  have := List.Nodup.idxOf_getElem (List.nodup_range (n := nC)) k (by simpa using hk)
  simpa using this

theorem oobStep_ok (nC n : ℕ) (preds : List (List ℚ)) (F : ℕ → ℕ → ℚ) (h : IsAcc nC n preds F)
    (e : OobEst) (samples : List ℕ) (he : FullOob nC e)
    (hne : e.rejectsEmpty = false ∨ ∃ i < n, i ∉ samples) :
    ∃ preds', oobStep nC preds e samples = .ok preds' ∧
      IsAcc nC n preds' (fun i k => F i k + if i ∈ samples then 0 else classProb e i k) := by
  unfold oobStep
  simp only
  rw [if_neg]
  swap
  · intro hc
    rw [Bool.and_eq_true, List.all_eq_true] at hc
    rcases hne with h1 | ⟨i, hi, hni⟩
    · rw [h1] at hc; simp at hc
    · have := hc.2 i (List.mem_range.2 (by rw [h.1]; exact hi))
      simp at this
      exact hni this
  have hrow : ∀ i (hi : i < preds.length), ∃ row',
      (if i ∈ samples then (.ok preds[i] : Py (List ℚ))
        else match e.proba with
          | some f => addRow nC preds[i] (f i)
          | none => addVote nC preds[i] (e.predict i)) = .ok row' ∧ row'.length = nC ∧
        ∀ k (hk : k < row'.length), row'[k] = F i k + if i ∈ samples then 0 else classProb e i k := by
    intro i hi
    obtain ⟨hl, hv⟩ := h.2 i hi
    by_cases his : i ∈ samples
    · refine ⟨_, by rw [if_pos his], hl, ?_⟩
      intro k hk
      rw [hv k hk, if_pos his, add_zero]
    · simp only [if_neg his]
      cases hp : e.proba with
      | some f =>
        obtain ⟨hfl, _⟩ := he.2.1 f hp i
        simp only [addRow, if_pos hfl]
        refine ⟨_, rfl, by simp [hl, hfl], ?_⟩
        intro k hk
        rw [List.length_zipWith] at hk
        rw [List.getElem_zipWith, hv k (by omega), classProb_proba he hp i k (by omega)]
        simp [List.getElem?_eq_getElem (show k < (f i).length by omega)]
      | none =>
        have hpr := he.2.2 hp i
        simp only [addVote, if_pos hpr]
        refine ⟨_, rfl, by simp [hl], ?_⟩
        intro k hk
        rw [List.length_set] at hk
        rw [List.getElem_set]
        have hcp : classProb e i k = if e.predict i = k then 1 else 0 := by simp [classProb, hp]
        rw [hcp]
        by_cases hkp : e.predict i = k
        · rw [if_pos hkp, if_pos hkp, hkp]
          simp [List.getElem?_eq_getElem hk, hv k hk]
        · rw [if_neg hkp, if_neg hkp, hv k hk, add_zero]
  choose! R hR1 hR2 hR3 using hrow
  have hlen : ((List.range preds.length).zip preds).length = preds.length := by simp
  have hmap : mapE (fun p : ℕ × List ℚ =>
      (if p.1 ∈ samples then (.ok p.2 : Py (List ℚ))
        else match e.proba with
          | some f => addRow nC p.2 (f p.1)
          | none => addVote nC p.2 (e.predict p.1))) ((List.range preds.length).zip preds) =
      .ok (((List.range preds.length).zip preds).map fun p => R p.1) := by
    apply mapE_ok_of_forall
    intro p hp
    obtain ⟨i, hi, rfl⟩ := List.getElem_of_mem hp
    rw [hlen] at hi
    have := hR1 i hi
    simpa using this
  refine ⟨_, hmap, ?_, ?_⟩
  · rw [List.length_map, hlen]; exact h.1
  · intro i hi
    rw [List.length_map, hlen] at hi
    simp only [List.getElem_map, List.getElem_zip, List.getElem_range]
    exact ⟨hR2 i hi, hR3 i hi⟩

theorem oob_fold (nC n : ℕ) (ests : List (OobEst × List ℕ)) (hfull : ∀ p ∈ ests, FullOob nC p.1)
    (hne : ∀ p ∈ ests, p.1.rejectsEmpty = false ∨ ∃ i < n, i ∉ p.2) :
    ∀ (preds : List (List ℚ)) (F : ℕ → ℕ → ℚ), IsAcc nC n preds F →
    ∃ preds', ests.foldlM (fun preds (e : OobEst × List ℕ) => oobStep nC preds e.1 e.2) preds = .ok preds' ∧
      IsAcc nC n preds' (fun i k => F i k + ((oobOf ests i).map fun e => classProb e i k).sum) := by
  induction ests with
  | nil => intro preds F h; exact ⟨preds, rfl, by simpa [oobOf] using h⟩
  | cons p ps ih =>
    intro preds F h
    obtain ⟨p1, h1, h2⟩ := oobStep_ok nC n preds F h p.1 p.2 (hfull p List.mem_cons_self)
      (hne p List.mem_cons_self)
    obtain ⟨p2, h3, h4⟩ := ih (fun q hq => hfull q (List.mem_cons_of_mem _ hq))
      (fun q hq => hne q (List.mem_cons_of_mem _ hq)) p1 _ h2
    refine ⟨p2, ?_, ?_⟩
    · rw [List.foldlM_cons, h1]
      exact h3
    · convert h4 using 3 with i k
      by_cases hi : i ∈ p.2
      · simp [oobOf, hi]
      · simp [oobOf, hi, add_assoc]

theorem classProb_sum (nC : ℕ) (e : OobEst) (he : FullOob nC e) (i : ℕ) :
    ((List.range nC).map fun k => classProb e i k).sum = 1 := by
  cases hp : e.proba with
  | some f =>
    obtain ⟨hl, hs⟩ := he.2.1 f hp i
    have : (List.range nC).map (fun k => classProb e i k) = f i := by
      apply List.ext_getElem
      · simp [hl]
      · intro k h1 h2
        simp only [List.length_map, List.length_range] at h1
        rw [List.getElem_map, List.getElem_range, classProb_proba he hp i k h1]
        simp [List.getElem?_eq_getElem h2]
    rw [this, hs]
  | none =>
    have hpr := he.2.2 hp i
    have h1 : (fun k => classProb e i k) = fun k => if e.predict i = k then (1 : ℚ) else 0 := by
      funext k; simp [classProb, hp]
    rw [h1]
    have h2 := Boot.list_sum_range nC (fun k => if e.predict i = k then (1 : ℚ) else 0)
    rw [h2, Finset.sum_ite_eq]
    simp [hpr]

end Mizar.Bag
