import Verif.Spec.RoundedAlign
import Verif.Lemmas.RoundedReturns

/-! Alignment with two related ways to aggregate. -/

namespace Mizar.Rd
open Mizar.Pipe Mizar.Spec

/-- Results that correspond: the same error or related values. -/
def Both {α β : Type} (R : α → β → Prop) (a : Py α) (b : Py β) : Prop :=
  (∃ e, a = .error e ∧ b = .error e) ∨ ∃ x y, a = .ok x ∧ b = .ok y ∧ R x y

theorem Both.bind {α β γ δ : Type} {R : α → β → Prop} {S : γ → δ → Prop} {a : Py α} {b : Py β} {f : α → Py γ} {g : β → Py δ}
    (h : Both R a b) (hf : ∀ x y, R x y → Both S (f x) (g y)) : Both S (a >>= f) (b >>= g) := by
  rcases h with ⟨e, rfl, rfl⟩ | ⟨x, y, rfl, rfl, hr⟩
  · exact Or.inl ⟨e, rfl, rfl⟩
  · exact hf x y hr

theorem Both.ok {α β : Type} {R : α → β → Prop} {x : α} {y : β} (h : R x y) : Both R (.ok x) (.ok y) := Or.inr ⟨x, y, rfl, rfl, h⟩

theorem both_mapE {α β γ : Type} {R : β → γ → Prop} {f : α → Py β} {g : α → Py γ} {l : List α} (h : ∀ a ∈ l, Both R (f a) (g a)) :
    Both (List.Forall₂ R) (mapE f l) (mapE g l) := by
  induction l with
  | nil => exact Both.ok .nil
  | cons a l ih =>
    simp only [mapE]
    rcases h a (by simp) with ⟨e, h1, h2⟩ | ⟨x, y, h1, h2, hx⟩
    · exact Or.inl ⟨e, by rw [h1], by rw [h2]⟩
    · rcases ih fun b hb => h b (by simp [hb]) with ⟨e, h3, h4⟩ | ⟨u, v, h3, h4, hu⟩
      · exact Or.inl ⟨e, by rw [h1, h3], by rw [h2, h4]⟩
      · exact Or.inr ⟨_, _, by rw [h1, h3], by rw [h2, h4], .cons hx hu⟩

variable {K L : Type} [Field K] [LinearOrder K] [Field L] [LinearOrder L]

/-- The loop over two frames whose rows correspond. -/
theorem loop_both {R : XF K → XF L → Prop} {agg : List (List (XF K)) → Py (List (XF K))} {agg' : List (List (XF L)) → Py (List (XF L))}
    {rows : List (ℤ × List (XF K))} {rows' : List (ℤ × List (XF L))} (hrows : List.Forall₂ (fun a b => a.1 = b.1 ∧ List.Forall₂ R a.2 b.2) rows rows')
    {W : List (ℤ × ℤ)} (hagg : ∀ s t, 2 ≤ (subset rows s t).length → (∃ u, (u, t) ∈ W ∧ (subset rows s t).length ≤ (subset rows u t).length) →
      Both (List.Forall₂ R) (agg ((subset rows s t).map (·.2))) (agg' ((subset rows' s t).map (·.2)))) :
    ∀ (ts : List ℤ) (prev last : ℤ) (_ : ∀ r ∈ rows, prev < r.1 → last < r.1) (_ : ∀ w ∈ (last :: ts).zip ts, w ∈ W), Both (List.Forall₂ fun a b => (a = none ∧ b = none) ∨ ∃ x y, a = some x ∧ b = some y ∧ List.Forall₂ R x y)
      (alignLoop agg rows prev ts) (alignLoop agg' rows' prev ts) := by
  have hsub : ∀ s t, List.Forall₂ (fun a b => a.1 = b.1 ∧ List.Forall₂ R a.2 b.2) (subset rows s t) (subset rows' s t) := by
    intro s t
    clear hagg
    unfold subset
    induction hrows with
    | nil => exact .nil
    | @cons a b l l' h _ ih =>
      simp only [List.filter_cons, ← h.1]
      split_ifs
      · exact .cons h ih
      · exact ih
  intro ts
  induction ts with
  | nil => intro prev _ _ _; exact Both.ok .nil
  | cons t ts ih =>
    intro prev last hinv hW
    have hs := hsub prev t
    have hlen : (subset rows prev t).length ≤ (subset rows last t).length := by
      unfold subset
      rw [← List.countP_eq_length_filter, ← List.countP_eq_length_filter]
      refine List.countP_mono_left fun r hr h => ?_
      simp only [Bool.and_eq_true, decide_eq_true_eq] at h ⊢
      exact ⟨hinv r hr h.1, h.2⟩
    have ha := fun h => hagg prev t h ⟨last, hW _ (by simp), hlen⟩
    have hW' : ∀ w ∈ (t :: ts).zip ts, w ∈ W := fun w hw => hW w (by rw [List.zip_cons_cons]; exact List.mem_cons_of_mem _ hw)
    have hem : subset rows prev t = [] → ∀ r ∈ rows, prev < r.1 → t < r.1 := by
      intro h0 r hr hp
      by_contra hc
      have : r ∈ subset rows prev t := by
        unfold subset
        rw [List.mem_filter]
        exact ⟨hr, by simp; omega⟩
      rw [h0] at this
      simp at this
    clear hlen
    simp only [alignLoop]
    generalize subset rows prev t = S at hs ha hem
    generalize subset rows' prev t = S' at hs ha
    cases hs with
    | nil =>
      refine (ih prev t (hem rfl) hW').bind fun x y hx => ?_
      exact Both.ok (.cons (Or.inl ⟨rfl, rfl⟩) hx)
    | @cons a b l l' h hl =>
      cases hl with
      | nil =>
        refine (ih t t (fun _ _ h => h) hW').bind fun x y hx => ?_
        exact Both.ok (.cons (Or.inr ⟨_, _, rfl, rfl, h.2⟩) hx)
      | @cons a2 b2 l l' h2 hl =>
        refine (ha (by simp)).bind fun u v hu => ?_
        refine (ih t t (fun _ _ h => h) hW').bind fun x y hx => ?_
        exact Both.ok (.cons (Or.inr ⟨_, _, rfl, rfl, hu⟩) hx)

theorem ffill_both {R : XF K → XF L → Prop} (hn : ∀ x y, R x y → x.isNan = y.isNan) {rows : List (List (XF K))} {rows' : List (List (XF L))}
    (h : List.Forall₂ (List.Forall₂ R) rows rows') : ∀ {last : List (XF K)} {last' : List (XF L)}, List.Forall₂ R last last' →
      List.Forall₂ (List.Forall₂ R) (ffillRowsFrom last rows) (ffillRowsFrom last' rows') := by
  induction h with
  | nil => intro _ _ _; exact .nil
  | @cons a b l l' hab _ ih =>
    intro last last' hl
    have : List.Forall₂ R (List.zipWith (fun x l => if x.isNan then l else x) a last) (List.zipWith (fun x l => if x.isNan then l else x) b last') := by
      clear ih
      induction hab generalizing last last' with
      | nil => exact .nil
      | @cons x y a b hxy _ ih2 =>
        cases hl with
        | nil => exact .nil
        | @cons u v l l' huv hl =>
          refine .cons ?_ (ih2 hl)
          dsimp only
          rw [hn x y hxy]
          split_ifs
          · exact huv
          · exact hxy
    exact .cons this (ih this)

/-- Two frames, aggregated in two ways. -/
theorem frame_both {R : XF K → XF L → Prop} (hn : ∀ x y, R x y → x.isNan = y.isNan) (hnan : R .nan .nan)
    {agg : List (List (XF K)) → Py (List (XF K))} {agg' : List (List (XF L)) → Py (List (XF L))}
    {rows : List (ℤ × List (XF K))} {rows' : List (ℤ × List (XF L))} (hrows : List.Forall₂ (fun a b => a.1 = b.1 ∧ List.Forall₂ R a.2 b.2) rows rows')
    (idx : List ℤ) (hagg : ∀ s t, 2 ≤ (subset rows s t).length →
      (∃ u, (u, t) ∈ (Y1700 :: idx).zip idx ∧ (subset rows s t).length ≤ (subset rows u t).length) →
      Both (List.Forall₂ R) (agg ((subset rows s t).map (·.2))) (agg' ((subset rows' s t).map (·.2))))
    (n : ℕ) (cols : List String) :
    Both (fun (g : Frame K) (h : Frame L) => g.cols = h.cols ∧ List.Forall₂ (fun a b => a.1 = b.1 ∧ List.Forall₂ R a.2 b.2) g.rows h.rows)
      (if rows = [] ∨ idx = [] then .error .indexError else do
        let cells ← alignLoop agg rows Y1700 idx
        .ok ⟨cols, idx.zip (ffillRowsFrom (nanRow n) (cells.map fun c => c.getD (nanRow n)))⟩)
      (if rows' = [] ∨ idx = [] then .error .indexError else do
        let cells ← alignLoop agg' rows' Y1700 idx
        .ok ⟨cols, idx.zip (ffillRowsFrom (nanRow n) (cells.map fun c => c.getD (nanRow n)))⟩) := by
  have he : (rows = [] ∨ idx = []) ↔ (rows' = [] ∨ idx = []) := by
    cases hrows <;> simp
  by_cases h0 : rows = [] ∨ idx = []
  · rw [if_pos h0, if_pos (he.1 h0)]
    exact Or.inl ⟨_, rfl, rfl⟩
  · rw [if_neg h0, if_neg (fun h => h0 (he.2 h))]
    refine (loop_both hrows hagg idx Y1700 Y1700 (fun _ _ h => h) fun _ h => h).bind fun x y hx => ?_
    have hnr : List.Forall₂ R (nanRow n : List (XF K)) (nanRow n : List (XF L)) := by
      unfold nanRow
      induction n with
      | zero => exact .nil
      | succ n ih => exact .cons hnan ih
    have h1 : List.Forall₂ (List.Forall₂ R) (x.map fun c => c.getD (nanRow n)) (y.map fun c => c.getD (nanRow n)) := by
      induction hx with
      | nil => exact .nil
      | @cons a b l l' h _ ih =>
        refine .cons ?_ ih
        rcases h with ⟨rfl, rfl⟩ | ⟨u, v, rfl, rfl, huv⟩
        · exact hnr
        · exact huv
    have h2 := ffill_both hn h1 hnr
    refine Both.ok ⟨rfl, ?_⟩
    dsimp only
    generalize ffillRowsFrom (nanRow n) (x.map fun c => c.getD (nanRow n)) = A at h2
    generalize ffillRowsFrom (nanRow n) (y.map fun c => c.getD (nanRow n)) = B at h2
    clear he h0 hx h1 hagg
    induction h2 generalizing idx with
    | nil => cases idx <;> exact .nil
    | @cons a b l l' h _ ih =>
      cases idx with
      | nil => exact .nil
      | cons t ts => exact .cons ⟨rfl, h⟩ (ih ts)

end Mizar.Rd
