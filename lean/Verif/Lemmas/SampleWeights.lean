import Mathlib.Algebra.Order.BigOperators.Group.Finset
import Verif.Model.SampleWeights
import Verif.Spec.SampleWeights
import Verif.Props.Uniqueness

/-! Lemmas about the sample weights. -/

namespace Mizar.SW
open Mizar.Spec Mizar.Boot

theorem foldl_nansum {K : Type*} [Field K] [LinearOrder K] {α : Type*} (l : List α) (p : α → Bool) (f : α → K) (a : K) :
    ((l.map fun x => if p x then XF.fin (f x) else .nan).filter (fun x => !x.isNan)).foldl XF.add (.fin a) =
      .fin (a + (l.map fun x => if p x then f x else 0).sum) := by
  induction l generalizing a with
  | nil => simp
  | cons x l ih =>
    rw [List.map_cons, List.map_cons, List.filter_cons]
    by_cases h : p x
    · simp only [h, if_true, XF.isNan_fin, Bool.not_false, List.foldl_cons, XF.add_fin, List.sum_cons]
      rw [ih, add_assoc]
    · simp only [h, Bool.false_eq_true, if_false, XF.isNan_nan, Bool.not_true, List.sum_cons, zero_add]
      rw [ih]

theorem nansum_ite {K : Type*} [Field K] [LinearOrder K] {α : Type*} (l : List α) (p : α → Bool) (f : α → K) :
    XF.nansum (l.map fun x => if p x then XF.fin (f x) else .nan) = .fin (l.map fun x => if p x then f x else 0).sum := by
  unfold XF.nansum XF.sum
  rw [foldl_nansum, zero_add]

/-- The matrix of a successful `getIndMatrix`: row sums are the numbers of live events. -/
theorem rowSum_idxOf (ev : List (ℤ × ℤ)) (bars : List ℤ) (t : ℤ) (ht : ∃ e ∈ ev, t = e.1) :
    rowSum (rawMatrix ev bars) ((barIndex ev bars).idxOf t) = aliveAt ev t := by
  have hm : t ∈ barIndex ev bars := mem_barIndex.2 (Or.inl ht)
  have hi := List.idxOf_lt_length_iff.2 hm
  rw [rowSum_eq, Props.samplesAt_card_raw ev bars _ hi, List.getElem_idxOf hi]

theorem aliveAt_pos (ev : List (ℤ × ℤ)) (e : ℤ × ℤ) (he : e ∈ ev) (h : e.1 ≤ e.2) : 0 < aliveAt ev e.1 := by
  unfold aliveAt
  exact List.length_pos_of_mem (List.mem_filter.2 ⟨he, by simp [Covers, h]⟩)

/-- A price or NaN. -/
def optPrice (c : Option ℝ) : XF ℝ := match c with | some x => .fin x | none => .nan

/-- This and the previous price are present. -/
def okRet (close : List (Option ℝ)) (k : ℕ) : Bool :=
  decide (k ≠ 0) && (close.getD k none).isSome && (close.getD (k - 1) none).isSome

theorem logRet_of_not_ok (close : List (Option ℝ)) (k : ℕ) (h : okRet close k = false) : logRet close k = 0 := by
  unfold okRet at h
  unfold logRet
  by_cases hk : k = 0
  · simp [hk]
  · rw [if_neg hk]
    cases h1 : close.getD k none with
    | none => rfl
    | some b =>
      cases h2 : close.getD (k - 1) none with
      | none => rfl
      | some a =>
        rw [h1, h2] at h
        simp [hk] at h

theorem rets_eq (close : List (Option ℝ)) (hpos : ∀ c, some c ∈ close → 0 < c) :
    pdDiff (close.map fun c => XF.log (optPrice c)) =
      (List.range close.length).map fun k => if okRet close k then XF.fin (logRet close k) else .nan := by
  apply List.ext_getElem?
  intro k
  by_cases hk : k < close.length
  · rw [pdDiff_getElem? _ _ (by simpa using hk), List.getElem?_map, List.getElem?_range hk, Option.map_some]
    congr 1
    by_cases h0 : k = 0
    · simp [h0, okRet]
    · have hk' : k - 1 < close.length := by omega
      rw [dif_neg h0]
      unfold okRet logRet
      rw [List.getD_eq_getElem _ _ hk, List.getD_eq_getElem _ _ hk', if_neg h0]
      simp only [List.getElem_map]
      have p1 := fun c (h : close[k] = some c) => hpos c (h ▸ List.getElem_mem hk)
      have p2 := fun c (h : close[k - 1] = some c) => hpos c (h ▸ List.getElem_mem hk')
      cases e1 : close[k] with
      | none => simp [optPrice, XF.log]
      | some b =>
        cases e2 : close[k - 1] with
        | none => simp [optPrice, XF.log]
        | some a => simp [optPrice, XF.log_fin (p1 b e1), XF.log_fin (p2 a e2), h0]
  · rw [List.getElem?_eq_none (by simpa using hk), List.getElem?_eq_none (by simpa using hk)]

/-- The frame of the events and prices. -/
def frame (ev : List (ℤ × ℤ)) (close : List (Option ℝ)) : List Row :=
  List.zipWith (fun e c => ⟨e.1, some e.2, optPrice c⟩) ev close

theorem frame_map_fst {β : Type*} (ev : List (ℤ × ℤ)) (close : List (Option ℝ)) (h : close.length = ev.length)
    (f : Row → β) (g : ℤ × ℤ → β) (hf : ∀ e c, f ⟨e.1, some e.2, optPrice c⟩ = g e) :
    (frame ev close).map f = ev.map g := by
  unfold frame
  rw [List.map_zipWith]
  apply List.ext_getElem
  · simp [h]
  · intro i h1 h2
    simp [hf]

theorem frame_map_snd {β : Type*} (ev : List (ℤ × ℤ)) (close : List (Option ℝ)) (h : close.length = ev.length)
    (f : Row → β) (g : Option ℝ → β) (hf : ∀ (e : ℤ × ℤ) c, f ⟨e.1, some e.2, optPrice c⟩ = g c) :
    (frame ev close).map f = close.map g := by
  unfold frame
  rw [List.map_zipWith]
  apply List.ext_getElem
  · simp [h]
  · intro i h1 h2
    simp [hf]

theorem map_eq_range {α β : Type*} (l : List α) (d : α) (f : α → β) :
    l.map f = (List.range l.length).map fun k => f (l.getD k d) := by
  apply List.ext_getElem
  · simp
  · intro i h1 h2
    simp at h1
    simp [h1]

theorem zip_range {α β : Type*} (n : ℕ) (f : ℕ → α) (g : ℕ → β) :
    ((List.range n).map f).zip ((List.range n).map g) = (List.range n).map fun k => (f k, g k) :=
  List.zip_map'

theorem matrix_of_ok {ev : List (ℤ × ℤ)} {bars : List ℤ} {r : IndMat × List ℤ}
    (h : getIndMatrix (present ev) bars = .ok r) : r = (rawMatrix ev bars, barIndex ev bars) := by
  rw [getIndMatrix_present] at h
  split_ifs at h
  cases h; rfl

theorem calc_formula {K : Type*} [Field K] [LinearOrder K] (n : ℕ) (bar stop : ℕ → ℤ) (ok : ℕ → Bool) (ret conc : ℕ → K)
    (hc : ∀ k < n, conc k ≠ 0) (hret : ∀ k < n, ok k = false → ret k = 0) :
    calculateWeights ((List.range n).map bar) ((List.range n).map stop) ((List.range n).map fun k => .fin (conc k))
      ((List.range n).map fun k => if ok k then .fin (ret k) else .nan) =
    (List.range n).map fun i => .fin |∑ k ∈ (Finset.range n).filter fun k => bar i ≤ bar k ∧ bar k ≤ stop i,
      ret k / conc k| := by
  unfold calculateWeights
  rw [zip_range, zip_range, zip_range, List.map_map]
  apply List.map_congr_left
  intro i _
  simp only [Function.comp_apply]
  rw [List.filter_map, List.map_map]
  set l := (List.range n).filter ((fun b : ℤ × XF K × XF K => decide (bar i ≤ b.1) && decide (b.1 ≤ stop i)) ∘
    fun k => (bar k, (if ok k then XF.fin (ret k) else .nan), XF.fin (conc k))) with hl
  have hterm : ∀ k ∈ l, ((fun b : ℤ × XF K × XF K => XF.div b.2.1 b.2.2) ∘
      fun k => (bar k, (if ok k then XF.fin (ret k) else .nan), XF.fin (conc k))) k =
      if ok k then XF.fin (ret k / conc k) else .nan := by
    intro k hk
    have hk' := List.mem_range.1 (List.mem_filter.1 hk).1
    simp only [Function.comp_apply]
    split
    · rw [XF.div_fin _ _ (hc k hk')]
    · simp
  rw [List.map_congr_left hterm, nansum_ite, XF.abs_fin]
  congr 2
  rw [← List.sum_toFinset _ ((List.nodup_range).filter _)]
  have hset : l.toFinset = (Finset.range n).filter fun k => bar i ≤ bar k ∧ bar k ≤ stop i := by
    ext k
    simp [hl]
  rw [hset]
  apply Finset.sum_congr rfl
  intro k hk
  split
  · rfl
  · rename_i h
    rw [hret k (Finset.mem_range.1 (Finset.mem_filter.1 hk).1) (by simpa using h), zero_div]

theorem weights_formula (ev : List (ℤ × ℤ)) (close : List (Option ℝ)) (hlen : close.length = ev.length)
    (hpos : ∀ c, some c ∈ close → 0 < c) (hse : ∀ e ∈ ev, e.1 ≤ e.2)
    (hdiff : ∃ e ∈ ev, ∃ e' ∈ ev, e ≠ e') :
    weightsByReturns (frame ev close) = .ok (ev.map fun e =>
      (e.1, .fin |∑ k ∈ (Finset.range ev.length).filter fun k =>
          e.1 / 1000000 ≤ (ev.getD k (0, 0)).1 / 1000000 ∧ (ev.getD k (0, 0)).1 / 1000000 ≤ e.2 / 1000000,
        logRet close k / (aliveAt ev (ev.getD k (0, 0)).1 : ℝ)|)) := by
  have hne : ev ≠ [] := by
    obtain ⟨e, he, _⟩ := hdiff
    exact List.ne_nil_of_mem he
  obtain ⟨r, hr⟩ := (Props.C12_returns_iff_partial ev (ev.map (·.1)) hne hse).1.2 hdiff
  have hr' := matrix_of_ok (ev := ev) hr
  subst hr'
  have e1 := frame_map_fst ev close hlen (fun r => (some r.start, r.stop)) (fun e => (some e.1, some e.2)) (fun _ _ => rfl)
  have e2 := frame_map_fst ev close hlen (fun r => r.start) (fun e => e.1) (fun _ _ => rfl)
  have e3 := frame_map_fst ev close hlen (fun r => Lab.convertToTimestamp (some r.start)) (fun e => e.1 / 1000000)
      (fun _ _ => by simp [Lab.convertToTimestamp])
  have e4 := frame_map_fst ev close hlen (fun r => Lab.convertToTimestamp r.stop) (fun e => e.2 / 1000000)
      (fun _ _ => by simp [Lab.convertToTimestamp])
  have e5 := frame_map_fst ev close hlen (fun r => XF.fin (rowSum (rawMatrix ev (ev.map (fun e => e.1)))
      ((barIndex ev (ev.map (fun e => e.1))).idxOf r.start) : ℝ)) (fun e => XF.fin (rowSum (rawMatrix ev (ev.map (fun e => e.1)))
      ((barIndex ev (ev.map (fun e => e.1))).idxOf e.1) : ℝ)) (fun _ _ => by simp only)
  have e6 := frame_map_snd ev close hlen (fun r => XF.log r.close) (fun c => XF.log (optPrice c)) (fun _ _ => by simp only)
  unfold weightsByReturns
  rw [e1, e2, hr]
  simp only
  rw [e3, e4, e5, e6, rets_eq close hpos]
  have hconc : (ev.map fun e => XF.fin (rowSum (rawMatrix ev (ev.map (·.1)))
      ((barIndex ev (ev.map (·.1))).idxOf e.1) : ℝ)) = ev.map fun e => XF.fin (aliveAt ev e.1 : ℝ) := by
    apply List.map_congr_left
    intro e he
    rw [rowSum_idxOf ev _ _ ⟨e, he, rfl⟩]
  rw [hconc]
  rw [map_eq_range ev (0, 0) (fun e => e.1 / 1000000), map_eq_range ev (0, 0) (fun e => e.2 / 1000000),
    map_eq_range ev (0, 0) (fun e => XF.fin (aliveAt ev e.1 : ℝ)), map_eq_range ev (0, 0) (·.1),
    map_eq_range ev (0, 0), hlen, calc_formula, zip_range]
  · intro k hk
    have hmem : ev.getD k (0, 0) ∈ ev := by
      rw [List.getD_eq_getElem _ _ hk]; exact List.getElem_mem hk
    have := aliveAt_pos ev _ hmem (hse _ hmem)
    positivity
  · intro k _ h
    exact logRet_of_not_ok close k h

end Mizar.SW
