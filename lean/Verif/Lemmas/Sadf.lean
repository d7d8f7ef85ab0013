import Verif.Model.Sadf
import Verif.Spec.Sadf
import Verif.Props.Ols
import Verif.Lemmas.Align

/-! Lemmas for the explosiveness tests (C68). -/

namespace Mizar.Brk
open Mizar.Spec Mizar.Props

theorem npMax_fin (l : List ℝ) (h : l ≠ []) : ∃ m, npMax (l.map XF.fin) = .fin m ∧ m ∈ l ∧ ∀ x ∈ l, x ≤ m := by
  cases l with
  | nil => exact absurd rfl h
  | cons a l => exact Pipe.foldl_xmax_fin l a

/-- All the regressions on windows with at least `m` rows that end with the last row are proper. -/
def Proper {k : ℕ} (w : List (RRow (k + 1))) (m : ℕ) : Prop :=
  ∀ p, p + m ≤ w.length → FullRank (w.drop p) ∧ k + 1 < (w.drop p).length ∧ NoExactFit (w.drop p)

/-- Value of a window as the code computes it. -/
noncomputable def codeVal (model : String) (phi : ℝ) (p : ℕ) (r : ℝ) : ℝ := if isSm model then |r| / ((p : ℝ) + 1) ^ phi else r

theorem adfAt_spec (em : ErrModel) {k : ℕ} (model : String) (phi : ℝ) (w : List (RRow (k + 1))) (m : ℕ) (h : Proper w m) (p : ℕ)
    (hp : p + m ≤ w.length) :
    ∃ r, IsTValue (w.drop p) 0 r ∧ (∀ r', IsTValue (w.drop p) 0 r' → r' = r) ∧
      adfAt em k model phi (w.map liftRow) p = .ok (.fin (codeVal model phi p r)) := by
  obtain ⟨h1, h2, h3⟩ := h p hp
  obtain ⟨r, e1, e2, e3⟩ := C67_t_value em (w.drop p) h1 h2 h3 0
  refine ⟨r, e2, e3, ?_⟩
  unfold adfAt codeVal
  dsimp only
  rw [← List.map_drop, e1, Py.bind_ok]
  have hpos : (0 : ℝ) < ((p : ℝ) + 1) ^ phi := Real.rpow_pos_of_pos (by positivity) _
  split
  · unfold divE
    rw [sub_sub_cancel, XF.abs_fin, show (((p + 1 : ℕ)) : ℝ) = (p : ℝ) + 1 by push_cast; rfl,
      if_neg (by rw [XF.beq_fin, decide_eq_true_eq]; exact fun h => hpos.ne' h.2), XF.div_fin _ _ hpos.ne']
  · rfl

theorem sadfAt_spec (em : ErrModel) {k : ℕ} (model : String) (phi : ℝ) (w : List (RRow (k + 1))) (m : ℕ) (h : Proper w m)
    (hm : m ≤ w.length) : ∃ v, sadfAt em k m model phi (w.map liftRow) = .ok (.fin v) ∧ IsSupremum w m (codeVal model phi) v := by
  have hch : ∀ p : ℕ, ∃ r, p + m ≤ w.length → IsTValue (w.drop p) 0 r ∧ (∀ r', IsTValue (w.drop p) 0 r' → r' = r) ∧
      adfAt em k model phi (w.map liftRow) p = .ok (.fin (codeVal model phi p r)) := by
    intro p
    by_cases hp : p + m ≤ w.length
    · obtain ⟨r, hr⟩ := adfAt_spec em model phi w m h p hp
      exact ⟨r, fun _ => hr⟩
    · exact ⟨0, fun h => absurd h hp⟩
  choose r hr using hch
  have hmap : mapE (adfAt em k model phi (w.map liftRow)) (List.range ((w.map liftRow).length - m + 1)) =
      .ok ((List.range ((w.map liftRow).length - m + 1)).map fun p => .fin (codeVal model phi p (r p))) := by
    apply mapE_ok_of_forall
    intro p hp
    rw [List.mem_range, List.length_map] at hp
    exact (hr p (by omega)).2.2
  obtain ⟨v, e1, e2, e3⟩ := npMax_fin ((List.range (w.length - m + 1)).map fun p => codeVal model phi p (r p)) (by simp)
  refine ⟨v, ?_, ?_, ?_⟩
  · unfold sadfAt
    rw [hmap, Py.bind_ok, List.length_map, ← e1, List.map_map]
    rfl
  · obtain ⟨p, hp, hv⟩ := List.mem_map.1 e2
    rw [List.mem_range] at hp
    exact ⟨p, r p, by omega, (hr p (by omega)).1, hv.symm⟩
  · rintro x ⟨p, r', hp, hr', rfl⟩
    rw [(hr p hp).2.1 r' hr']
    exact e3 _ (List.mem_map.2 ⟨p, List.mem_range.2 (by omega), rfl⟩)

theorem sadfLoop_spec (em : ErrModel) {k : ℕ} (model : String) (phi : ℝ) (w : List (RRow (k + 1))) (m : ℕ)
    (h : ∀ n, m < n → n ≤ w.length → Proper (w.take n) m) (hm : m ≤ w.length) :
    ∃ out, sadfLoop em k m model phi (w.map liftRow) = .ok out ∧ out.length = w.length - m ∧
      ∀ i, i + m < w.length → ∃ v, out[i]? = some (.fin v) ∧ IsSupremum (w.take (m + i + 1)) m (codeVal model phi) v := by
  have hch : ∀ i, ∃ v, i + m < w.length → sadfAt em k m model phi ((w.map liftRow).take (m + i + 1)) = .ok (.fin v) ∧
      IsSupremum (w.take (m + i + 1)) m (codeVal model phi) v := by
    intro i
    by_cases hi : i + m < w.length
    · obtain ⟨v, hv⟩ := sadfAt_spec em model phi (w.take (m + i + 1)) m (h _ (by omega) (by omega)) (by simp; omega)
      refine ⟨v, fun _ => ?_⟩
      rw [← List.map_take]; exact hv
    · exact ⟨0, fun h => absurd h hi⟩
  choose v hv using hch
  refine ⟨(List.range (w.length - m)).map fun i => .fin (v i), ?_, by simp, ?_⟩
  · unfold sadfLoop
    rw [List.length_map, if_neg (by omega)]
    apply mapE_ok_of_forall
    intro i hi
    rw [List.mem_range] at hi
    exact (hv i (by omega)).1
  · intro i hi
    refine ⟨v i, ?_, (hv i hi).2⟩
    rw [List.getElem?_map, List.getElem?_range (by omega)]; rfl

/-- A row with finite numbers before it is turned into an array. -/
def liftL {k : ℕ} (r : ℤ × RRow k) : LRow := (r.1, (List.ofFn r.2.1).map XF.fin, .fin r.2.2)

theorem toRow_liftL {k : ℕ} (r : ℤ × RRow (k + 1)) : toRow k (liftL r) = liftRow r.2 := by
  unfold toRow liftL liftRow
  ext1
  · funext j
    simp only [List.getD_eq_getElem?_getD, List.getElem?_map]
    rw [List.getElem?_ofFn, dif_pos j.2]; rfl
  · rfl

/-! ### Prefixes -/

theorem filter_take' {α : Type} (p : α → Bool) (l : List α) (n : ℕ) : ∃ m, (l.take n).filter p = (l.filter p).take m := by
  refine ⟨((l.take n).filter p).length, ?_⟩
  have h : l.filter p = (l.take n).filter p ++ (l.drop n).filter p := by rw [← List.filter_append, List.take_append_drop]
  rw [h, List.take_left]

theorem zipIdx_take' {α : Type} (l : List α) (n : ℕ) : (l.take n).zipIdx = l.zipIdx.take n := by
  apply List.ext_getElem?
  intro i
  simp only [List.getElem?_zipIdx, List.getElem?_take]
  split <;> simp

theorem zipWith_tail_take {α β : Type} (f : α → α → β) (l : List α) (n : ℕ) :
    List.zipWith f (l.take n).tail (l.take n) = (List.zipWith f l.tail l).take (n - 1) := by
  apply List.ext_getElem?
  intro i
  simp only [List.getElem?_zipWith, List.getElem?_tail, List.getElem?_take]
  by_cases h : i + 1 < n
  · rw [if_pos h, if_pos (by omega), if_pos (by omega)]
  · rw [if_neg h, if_neg (show ¬ i < n - 1 by omega)]

theorem diffs_take (s : List (ℤ × XF ℝ)) (n : ℕ) : ∃ m, diffs (s.take n) = (diffs s).take m := by
  unfold diffs
  rw [zipWith_tail_take]
  exact filter_take' _ _ _

theorem standardRows_take (lags : ℤ) (s : List (ℤ × XF ℝ)) (n : ℕ) : ∃ m, standardRows lags (s.take n) = (standardRows lags s).take m := by
  unfold standardRows
  split
  · exact ⟨0, by simp⟩
  · obtain ⟨m, hm⟩ := diffs_take s n
    dsimp only
    rw [hm]
    refine ⟨m - lags.toNat, ?_⟩
    rw [← List.map_take, List.take_range, List.length_take]
    have : min (m - lags.toNat) ((diffs s).length - lags.toNat) = min m (diffs s).length - lags.toNat := by omega
    rw [this]
    apply List.map_congr_left
    intro j hj
    rw [List.mem_range] at hj
    have hg : ∀ i, i < m → ((diffs s).take m).getD i (0, .nan, .nan) = (diffs s).getD i (0, .nan, .nan) := by
      intro i hi
      simp only [List.getD_eq_getElem?_getD, List.getElem?_take, if_pos hi]
    rw [hg _ (by omega)]
    congr 3
    apply List.map_congr_left
    intro q hq
    rw [List.mem_range] at hq
    rw [hg _ (by omega)]

theorem addCols_take (f : ℕ → List (XF ℝ)) (rows : List LRow) (n : ℕ) : addCols f (rows.take n) = (addCols f rows).take n := by
  unfold addCols
  rw [zipIdx_take', List.map_take]

theorem smRows_take (g : XF ℝ → XF ℝ) (f : ℕ → List (XF ℝ)) (s : List (ℤ × XF ℝ)) (n : ℕ) : smRows g f (s.take n) = (smRows g f s).take n := by
  unfold smRows
  rw [zipIdx_take', List.map_take]

theorem designRows_take (model : String) (lags : ℤ) (c : Bool) (s : List (ℤ × XF ℝ)) (n k : ℕ) (rows : List LRow)
    (h : designRows model lags c s = .ok (k, rows)) : ∃ m, designRows model lags c (s.take n) = .ok (k, rows.take m) := by
  obtain ⟨m, hm⟩ := standardRows_take lags s n
  unfold designRows at h ⊢
  rw [hm]
  simp only [addCols_take, smRows_take]
  split at h
  · rw [if_pos ‹_›]; simp only [Except.ok.injEq, Prod.mk.injEq] at h; exact ⟨m, by rw [← h.1, ← h.2]⟩
  rw [if_neg ‹_›]
  split at h
  · rw [if_pos ‹_›]; simp only [Except.ok.injEq, Prod.mk.injEq] at h; exact ⟨m, by rw [← h.1, ← h.2]⟩
  rw [if_neg ‹_›]
  split at h
  · rw [if_pos ‹_›]; simp only [Except.ok.injEq, Prod.mk.injEq] at h; exact ⟨m, by rw [← h.1, ← h.2]⟩
  rw [if_neg ‹_›]
  split at h
  · rw [if_pos ‹_›]; simp only [Except.ok.injEq, Prod.mk.injEq] at h; exact ⟨n, by rw [← h.1, ← h.2]⟩
  rw [if_neg ‹_›]
  split at h
  · rw [if_pos ‹_›]; simp only [Except.ok.injEq, Prod.mk.injEq] at h; exact ⟨n, by rw [← h.1, ← h.2]⟩
  rw [if_neg ‹_›]
  split at h
  · rw [if_pos ‹_›]; simp only [Except.ok.injEq, Prod.mk.injEq] at h; exact ⟨n, by rw [← h.1, ← h.2]⟩
  rw [if_neg ‹_›]
  split at h
  · rw [if_pos ‹_›]; simp only [Except.ok.injEq, Prod.mk.injEq] at h; exact ⟨n, by rw [← h.1, ← h.2]⟩
  · cases h

theorem getXy_take (model : String) (lags : ℤ) (c : Bool) (s : List (ℤ × XF ℝ)) (n k : ℕ) (rows : List LRow)
    (h : getXy model lags c s = .ok (k, rows)) : ∃ m, getXy model lags c (s.take n) = .ok (k, rows.take m) := by
  unfold getXy at h ⊢
  rw [Py.bind_eq_ok] at h
  obtain ⟨r, h1, h2⟩ := h
  split at h2
  · rename_i hall
    simp only [Except.ok.injEq] at h2
    subst h2
    obtain ⟨m, hm⟩ := designRows_take model lags c s n k rows h1
    refine ⟨m, ?_⟩
    rw [hm, Py.bind_ok, if_pos]
    rw [List.all_eq_true] at hall ⊢
    exact fun x hx => hall x (List.mem_of_mem_take hx)
  · cases h2

end Mizar.Brk
