import Verif.Spec.OobExact
import Verif.Props.Oob

/-! Property theorems C23: exact outcome of the out-of-bag score. -/

namespace Mizar.Props
open Mizar.Spec Mizar.Bag

private def table (nC n : ℕ) (F : ℕ → ℕ → ℚ) : List (List ℚ) := (List.range n).map fun i => (List.range nC).map (F i)

private theorem addRow_table (nC : ℕ) (F : ℕ → ℚ) (row : List ℚ) :
    (∀ r, addRow nC ((List.range nC).map F) row = .ok r ↔ (row.length = nC ∨ row.length = 1) ∧
      r = (List.range nC).map fun k => F k + if row.length = nC then row.getD k 0 else row.getD 0 0) := by
  intro r
  unfold addRow
  by_cases h : row.length = nC
  · simp only [if_pos h, h, true_or, true_and, Except.ok.injEq]
    have : List.zipWith (· + ·) ((List.range nC).map F) row = (List.range nC).map fun k => F k + row.getD k 0 := by
      apply List.ext_getElem
      · simp [h]
      · intro k h1 h2
        have hk : k < row.length := by simp at h2; omega
        simp [hk]
    rw [this]
    simp only [if_true, Except.ok.injEq]
    exact eq_comm
  · by_cases h1 : row.length = 1
    · rw [if_neg h, if_pos h1]
      simp only [if_neg h, Except.ok.injEq, List.map_map]
      exact ⟨fun e => ⟨.inr h1, e.symm⟩, fun e => e.2.symm⟩
    · simp [h, h1]

private theorem addVote_table (nC : ℕ) (F : ℕ → ℚ) (v : ℕ) :
    (∀ r, addVote nC ((List.range nC).map F) v = .ok r ↔ v < nC ∧ r = (List.range nC).map fun k => F k + if v = k then 1 else 0) := by
  intro r
  unfold addVote
  by_cases h : v < nC
  · rw [if_pos h]
    simp only [Except.ok.injEq, h, true_and]
    have : ((List.range nC).map F).set v (((List.range nC).map F).getD v 0 + 1) = (List.range nC).map fun k => F k + if v = k then 1 else 0 := by
      apply List.ext_getElem
      · simp
      · intro k h1 h2
        have hk : k < nC := by simpa using h2
        rw [List.getElem_set]
        by_cases e : v = k
        · subst e; simp [h]
        · simp [e]
    rw [this]
    exact eq_comm
  · simp [h]

private def cell (nC : ℕ) (F : ℕ → ℕ → ℚ) (e : OobEst) (s : List ℕ) (i : ℕ) : Py (List ℚ) :=
  if i ∈ s then .ok ((List.range nC).map (F i)) else
    match e.proba with
    | some f => addRow nC ((List.range nC).map (F i)) (f i)
    | none => addVote nC ((List.range nC).map (F i)) (e.predict i)

private theorem step_table (nC n : ℕ) (F : ℕ → ℕ → ℚ) (p : OobEst × List ℕ) (r : List (List ℚ)) :
    oobStep nC (table nC n F) p.1 p.2 = .ok r ↔ FitsTable nC n p ∧
      r = table nC n fun i k => F i k + if i ∈ p.2 then 0 else given nC p.1 i k := by
  obtain ⟨e, s⟩ := p
  have hlen : (table nC n F).length = n := by simp [table]
  unfold oobStep FitsTable
  simp only [hlen]
  by_cases hrej : e.rejectsEmpty = false ∨ ∃ i < n, i ∉ s
  · rw [if_neg]
    swap
    · intro hc
      rw [Bool.and_eq_true, List.all_eq_true] at hc
      rcases hrej with h1 | ⟨i, hi, hni⟩
      · rw [h1] at hc; simp at hc
      · exact hni (by simpa using hc.2 i (List.mem_range.2 hi))
    have hz : (List.range n).zip (table nC n F) = (List.range n).map fun i => (i, (List.range nC).map (F i)) := by
      unfold table
      apply List.ext_getElem
      · simp
      · intro i h1 h2
        simp
    rw [hz, mapE_map, mapE_congr (g := cell nC F e s) fun i _ => by cases hp : e.proba <;> simp [cell, hp]]
    simp only [hrej, true_and]
    have hone : ∀ i row, cell nC F e s i = .ok row ↔
        (i ∉ s → match e.proba with
          | some f => (f i).length = nC ∨ (f i).length = 1
          | none => e.predict i < nC) ∧ row = (List.range nC).map fun k => F i k + if i ∈ s then 0 else given nC e i k := by
      intro i row
      unfold cell
      by_cases hi : i ∈ s
      · rw [if_pos hi]
        simp only [Except.ok.injEq, hi, not_true_eq_false, false_imp_iff, true_and, if_true, add_zero]
        exact eq_comm
      · rw [if_neg hi]
        simp only [hi, not_false_eq_true, true_imp_iff, given, if_false]
        cases hp : e.proba with
        | some f => exact addRow_table nC (F i) (f i) row
        | none => exact addVote_table nC (F i) (e.predict i) row
    rw [mapE_eq_ok_iff]
    constructor
    · intro h
      have hl : r.length = n := by rw [← h.length_eq, List.length_range]
      have hg : ∀ i (hi : i < n), _ := fun i hi => (hone i (r[i]'(by omega))).1 (by
        have := (List.forall₂_iff_get.1 h).2 i (by simpa using hi) (by omega)
        simpa using this)
      refine ⟨fun i hi => (hg i hi).1, ?_⟩
      apply List.ext_getElem
      · simp [table, hl]
      · intro i h1 h2
        rw [(hg i (by omega)).2]
        simp [table]
    · rintro ⟨h1, rfl⟩
      rw [List.forall₂_iff_get]
      refine ⟨by simp [table], fun i hi hi' => ?_⟩
      have hin : i < n := by simpa using hi
      have := (hone i ((List.range nC).map fun k => F i k + if i ∈ s then 0 else given nC e i k)).2 ⟨h1 i hin, rfl⟩
      simpa [table] using this
  · rw [if_pos]
    · simp [hrej]
    · push Not at hrej
      rw [Bool.and_eq_true, List.all_eq_true]
      refine ⟨by simpa using hrej.1, fun i hi => by simpa using hrej.2 i (List.mem_range.1 hi)⟩

private theorem fold_table (nC n : ℕ) (ests : List (OobEst × List ℕ)) : ∀ (F : ℕ → ℕ → ℚ) (r : List (List ℚ)),
    ests.foldlM (fun preds (e : OobEst × List ℕ) => oobStep nC preds e.1 e.2) (table nC n F) = .ok r ↔
      (∀ p ∈ ests, FitsTable nC n p) ∧ r = table nC n fun i k => F i k + ((oobOf ests i).map fun e => given nC e i k).sum := by
  induction ests with
  | nil =>
    intro F r
    simp only [List.foldlM_nil, List.not_mem_nil, false_imp_iff, implies_true, true_and, oobOf, List.filter_nil, List.map_nil, List.sum_nil, add_zero]
    constructor
    · intro h; cases h; rfl
    · rintro rfl; rfl
  | cons p ps ih =>
    intro F r
    rw [List.foldlM_cons]
    have hsum : ∀ i k, F i k + ((oobOf (p :: ps) i).map fun e => given nC e i k).sum =
        (F i k + if i ∈ p.2 then 0 else given nC p.1 i k) + ((oobOf ps i).map fun e => given nC e i k).sum := by
      intro i k
      by_cases h : i ∈ p.2
      · simp [oobOf, h]
      · simp [oobOf, h]; ring
    constructor
    · intro h
      cases hs : oobStep nC (table nC n F) p.1 p.2 with
      | error e => rw [hs] at h; cases h
      | ok r1 =>
        rw [hs] at h
        obtain ⟨h1, rfl⟩ := (step_table nC n F p r1).1 hs
        obtain ⟨h2, h3⟩ := (ih _ r).1 h
        refine ⟨fun q hq => ?_, ?_⟩
        · rcases List.mem_cons.1 hq with rfl | hq
          · exact h1
          · exact h2 q hq
        · rw [h3]; simp only [hsum]
    · rintro ⟨h1, rfl⟩
      rw [(step_table nC n F p _).2 ⟨h1 p List.mem_cons_self, rfl⟩]
      refine (ih _ _).2 ⟨fun q hq => h1 q (List.mem_cons_of_mem _ hq), ?_⟩
      simp only [hsum]

/-- C23: the exact outcome for any estimators.  The score can be computed exactly if every estimator has an out-of-bag row or accepts an
empty input and gives each of its out-of-bag rows one probability, one for each class, or a known class; then the decision function of
a row is what the estimators that did not see the row give, and nothing else, divided by the sum over the classes. -/
theorem C23_outcome (nC n : ℕ) (ests : List (OobEst × List ℕ)) (dec : List (List (XF ℚ))) :
    oobDecision nC n ests = .ok dec ↔ (∀ p ∈ ests, FitsTable nC n p) ∧
      dec = (List.range n).map fun i => (List.range nC).map fun k =>
        XF.div (.fin ((oobOf ests i).map fun e => given nC e i k).sum)
          (.fin ((List.range nC).map fun k => ((oobOf ests i).map fun e => given nC e i k).sum).sum) := by
  have h0 : List.replicate n (List.replicate nC (0 : ℚ)) = table nC n fun _ _ => 0 := by
    simp [table, List.map_const']
  unfold oobDecision oobPredictions
  rw [h0]
  have key := fold_table nC n ests fun _ _ => 0
  cases h : ests.foldlM (fun preds (e : OobEst × List ℕ) => oobStep nC preds e.1 e.2) (table nC n fun _ _ => 0) with
  | error e =>
    have hn : ¬ ∀ p ∈ ests, FitsTable nC n p := by
      intro hf
      have := (key _).2 ⟨hf, rfl⟩
      rw [h] at this
      cases this
    constructor
    · intro hh; cases hh
    · intro hh; exact absurd hh.1 hn
  | ok preds =>
    obtain ⟨h1, rfl⟩ := (key preds).1 h
    have hd : ((table nC n fun i k => 0 + ((oobOf ests i).map fun e => given nC e i k).sum).map fun row =>
        row.map fun x => XF.div (.fin x) (.fin row.sum)) = (List.range n).map fun i => (List.range nC).map fun k =>
        XF.div (.fin ((oobOf ests i).map fun e => given nC e i k).sum)
          (.fin ((List.range nC).map fun k => ((oobOf ests i).map fun e => given nC e i k).sum).sum) := by
      simp only [table, List.map_map, zero_add]
      apply List.map_congr_left
      intro i _
      simp only [Function.comp_apply, List.map_map]
      rfl
    constructor
    · intro hh
      refine ⟨h1, ?_⟩
      rw [← hd]
      cases hh
      rfl
    · rintro ⟨-, rfl⟩
      rw [← hd]
      rfl

/-- A case of `C23_outcome`: two classes; the first estimator knows one class only, the second votes, and the third has no usable
answer for a row it has not seen. -/
example : let e1 : OobEst × List ℕ := (⟨[1], some (fun _ => [1]), fun _ => 1, true⟩, [1])
    let e2 : OobEst × List ℕ := (⟨[0, 1], none, fun i => i % 2, true⟩, [0])
    let e3 : OobEst × List ℕ := (⟨[0, 1, 2], none, fun _ => 2, true⟩, [0])
    FitsTable 2 2 e1 ∧ FitsTable 2 2 e2 ∧ ¬ FitsTable 2 2 e3 ∧
    oobDecision 2 2 [e1, e2] = .ok [[.fin (1 / 2), .fin (1 / 2)], [.fin 0, .fin 1]] := by
  refine ⟨⟨.inr ⟨0, by decide, by decide⟩, fun i _ _ => .inr rfl⟩, ⟨.inr ⟨1, by decide, by decide⟩, fun i hi _ => ?_⟩, ?_, by decide +kernel⟩
  · exact Nat.mod_lt _ (by decide)
  · rintro ⟨-, h⟩
    exact absurd (h 1 (by decide) (by decide)) (by decide)

end Mizar.Props
