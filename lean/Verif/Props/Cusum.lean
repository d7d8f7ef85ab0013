import Mathlib.Data.Rat.Floor
import Verif.Lemmas.Cusum

/-!
Property theorems C34-C36: the CUSUM filter
(`/repo/mizarlabs/transformers/sampling/down_sampling.py`).
-/

set_option linter.unusedSectionVars false

namespace Mizar.Props
open Mizar.Spec Mizar.Cusum
variable {K : Type*} [Field K] [LinearOrder K] [IsStrictOrderedRing K]

/-- C34: for finite prices, distinct times and a threshold `h ≥ 0` the selected times are those of the
upward events and of the downward events (the upward events of the mirrored path); no position is both. -/
theorem C34_events (h : K) (hh : 0 ≤ h) (X : List (ℤ × K)) (hX : (X.map (·.1)).Nodup) :
    ∃ U D : ℕ → Bool,
      IsUpEvents h (fun k => (X.getD k (0, 0)).2) X.length U ∧
      IsUpEvents h (fun k => -(X.getD k (0, 0)).2) X.length D ∧
      (∀ k < X.length, ¬ (U k = true ∧ D k = true)) ∧
      transform (.fin h) (X.map fun x => (x.1, XF.fin x.2)) =
        .ok (((List.range X.length).filter fun k => U k || D k).map fun k => (X.getD k (0, 0)).1) := by
  set p : ℕ → K := fun k => (X.getD k (0, 0)).2 with hp
  set q : ℕ → K := fun k => -(X.getD k (0, 0)).2 with hq
  have e1 : upFlags h 0 ((List.range (X.length - 1)).map fun i => XF.fin (p (i + 1) - p i)) =
      (List.range (X.length - 1)).map fun i => (upAcc h p (i + 1)).2 := by
    have := upFlags_acc h p (X.length - 1) 0
    simpa [upAcc] using this
  have e2 : upFlags h 0 (((List.range (X.length - 1)).map fun i => XF.fin (p (i + 1) - p i)).map XF.neg) =
      (List.range (X.length - 1)).map fun i => (upAcc h q (i + 1)).2 := by
    have := upFlags_acc h q (X.length - 1) 0
    rw [List.map_map]
    have e3 : (XF.neg ∘ fun i => XF.fin (p (i + 1) - p i)) = fun i => XF.fin (q (0 + i + 1) - q (0 + i)) := by
      funext i
      simp only [Function.comp, XF.neg_fin, hp, hq, Nat.zero_add]
      congr 1; ring
    rw [e3]
    simpa [upAcc] using this
  refine ⟨fun k => (upAcc h p k).2, fun k => (upAcc h q k).2, upAcc_isUp hh p _, upAcc_isUp hh q _, ?_, ?_⟩
  · intro k hk
    cases k with
    | zero => simp [upAcc]
    | succ k =>
      have := flags_disjoint hh ((List.range (X.length - 1)).map fun i => XF.fin (p (i + 1) - p i))
        le_rfl hh le_rfl hh k
      rw [e1, e2] at this
      simpa [show k < X.length - 1 by omega] using this
  · unfold transform
    have hm : (X.map fun x => (x.1, XF.fin x.2)).map (·.1) = X.map (·.1) := by simp
    rw [hm, if_pos hX, diffs_fin, loop_eq_flags, List.map_map, List.map_map]
    simp only [Function.comp_def]
    rw [upFlags_neg_zero, flags_eq hh _ le_rfl hh le_rfl hh]
    have e1' := e1
    have e2' := e2
    simp only [hp] at e1' e2'
    rw [e1', e2', List.zipWith_map, List.zipWith_self]
    cases hX' : X with
    | nil => rfl
    | cons a r =>
      congr 1
      have := filter_flags (m := r.length) (fun k => (X.getD k (0, 0)).1)
        (fun k => (upAcc h p k).2 || (upAcc h q k).2) (by simp [upAcc])
      simpa [hX', hp, hq] using this

/-- C34: repeated times raise `ValueError`. -/
theorem C34_repeated_times_raise (h : XF K) (X : List (ℤ × XF K)) (hX : ¬ (X.map (·.1)).Nodup) :
    transform h X = .error .valueError := by simp [transform, hX]

example : transform (.fin (1 : ℚ)) ([(10, 5), (11, 4), (12, 11/2), (13, 6), (14, 4), (15, 7/2)].map
    fun x => (x.1, XF.fin x.2)) = .ok [12, 14] := by decide +kernel

/-- C35: for thresholds `h₁ ≤ h₂` (of any sign) and every price path, including NaN and infinite prices, the
selection for `h₂` is not longer than the one for `h₁`. -/
theorem C35_threshold_antitone (h₁ h₂ : K) (h12 : h₁ ≤ h₂) (X : List (ℤ × XF K)) (s₁ s₂ : List ℤ)
    (e₁ : transform (.fin h₁) X = .ok s₁) (e₂ : transform (.fin h₂) X = .ok s₂) : s₂.length ≤ s₁.length := by
  unfold transform at e₁ e₂
  split at e₁
  swap
  · cases e₁
  rename_i hX
  rw [if_pos hX] at e₂
  cases e₁; cases e₂
  rcases lt_or_ge h₁ 0 with h0 | h0
  · rw [loop_neg h0]
    simpa using (loop_sublist (.fin h₂) ⟨.fin 0, .fin 0⟩ (diffs X)).length_le
  · have h0' : 0 ≤ h₂ := h0.trans h12
    rw [count_loop, count_loop, upFlags_neg_zero, upFlags_neg_zero, flags_eq h0 _ le_rfl h0 le_rfl h0,
      flags_eq h0' _ le_rfl h0' le_rfl h0',
      count_zipWith_or _ _ (by simp [upFlags_length]) (flags_disjoint h0 _ le_rfl h0 le_rfl h0),
      count_zipWith_or _ _ (by simp [upFlags_length]) (flags_disjoint h0' _ le_rfl h0' le_rfl h0')]
    exact Nat.add_le_add ((upCount_mono h0 h12 _ 0 0 le_rfl).2 le_rfl) ((upCount_mono h0 h12 _ 0 0 le_rfl).2 le_rfl)

/-- A path on which the selections for two thresholds are not nested, so that counting is the right claim. -/
example :
    let X : List (ℤ × XF ℚ) := [(1, .fin 0), (2, .fin 2), (3, .fin 3), (4, .nan), (5, .fin 4), (6, .pinf)]
    transform (.fin 1) X = .ok [2, 6] ∧ transform (.fin (5/2)) X = .ok [3, 6] := by decide +kernel

/-- C36: the selected times are a subsequence of the input times without the first one. -/
theorem C36_subsequence (h : XF K) (X : List (ℤ × XF K)) (s : List ℤ) (e : transform h X = .ok s) :
    s.Sublist (X.map (·.1)).tail := by
  unfold transform at e
  split at e
  · cases e
    rw [← diffs_map_fst]
    exact loop_sublist _ _ _
  · cases e

/-- C36: the selection on the beginning of the data is the beginning of the selection, and the added part
only consists of added times. -/
theorem C36_causal (h : XF K) (X Y : List (ℤ × XF K)) (s : List ℤ) (e : transform h (X ++ Y) = .ok s) :
    ∃ s' t, transform h X = .ok s' ∧ s = s' ++ t ∧ ∀ i ∈ t, i ∈ Y.map (·.1) := by
  unfold transform at e ⊢
  split at e
  swap
  · cases e
  rename_i hX
  cases e
  have hX' : (X.map (·.1)).Nodup := by
    rw [List.map_append] at hX
    exact hX.sublist (List.sublist_append_left _ _)
  obtain ⟨Z, hZ⟩ := diffs_append_prefix X Y
  rw [if_pos hX', hZ, loop_append]
  refine ⟨_, _, rfl, rfl, ?_⟩
  intro i hi
  have h1 := (loop_sublist _ _ _).subset hi
  have h2 := congrArg (List.map (·.1)) hZ
  rw [diffs_map_fst, List.map_append, List.map_append, diffs_map_fst] at h2
  cases X with
  | nil => simp at h2; rw [← h2] at h1; exact List.mem_of_mem_tail h1
  | cons a r =>
    simp only [List.map_cons, List.cons_append, List.tail_cons] at h2
    rw [List.append_cancel_left h2]
    exact h1

/-- C36: shifting all prices does not change the selection. -/
theorem C36_shift_invariant (h : XF K) (c : K) (X : List (ℤ × XF K)) :
    transform h (X.map fun x => (x.1, XF.add x.2 (.fin c))) = transform h X := by
  unfold transform
  rw [diffs_shift]
  simp [List.map_map, Function.comp_def]

/-- C36: mirroring the price path does not change the selection, for every finite threshold. -/
theorem C36_mirror_invariant (h : K) (X : List (ℤ × XF K)) :
    transform (.fin h) (X.map fun x => (x.1, XF.neg x.2)) = transform (.fin h) X := by
  unfold transform
  rw [diffs_neg]
  have hm : (X.map fun x => (x.1, XF.neg x.2)).map (·.1) = X.map (·.1) := by simp
  rw [hm]
  rcases lt_or_ge h 0 with h0 | h0
  · rw [loop_neg h0, loop_neg h0]; simp [Function.comp_def]
  · rw [loop_eq_flags, loop_eq_flags, List.map_map, List.map_map, upFlags_neg_zero, flags_eq h0 _ le_rfl h0 le_rfl h0,
      upFlags_neg_zero, flags_eq h0 _ le_rfl h0 le_rfl h0, List.map_map, List.map_map]
    have e : ((XF.neg ∘ (fun x : ℤ × XF K => x.2)) ∘ fun x => (x.1, XF.neg x.2)) = fun x : ℤ × XF K => x.2 := by
      funext x; exact Cusum.neg_neg _
    have e2 : XF.neg ∘ (fun x : ℤ × XF K => x.2) ∘ (fun x : ℤ × XF K => (x.1, XF.neg x.2)) = fun x => x.2 := by
      funext x; exact Cusum.neg_neg _
    rw [e2, List.zipWith_comm_of_comm (by intro a b; exact Bool.or_comm a b)]
    rfl

/-- C36: a negative threshold selects every time but the first. -/
theorem C36_negative_threshold_selects_all (h : K) (hh : h < 0) (X : List (ℤ × XF K))
    (hX : (X.map (·.1)).Nodup) : transform (.fin h) X = .ok (X.map (·.1)).tail := by
  unfold transform
  rw [if_pos hX, loop_neg hh, diffs_map_fst]

theorem cusum_step_scale {u : K} (hu : 0 < u) (h d : XF K) (s : St K) :
    step (XF.mul (.fin u) h) ⟨XF.mul (.fin u) s.pos, XF.mul (.fin u) s.neg⟩ (XF.mul (.fin u) d) =
      (⟨XF.mul (.fin u) (step h s d).1.pos, XF.mul (.fin u) (step h s d).1.neg⟩, (step h s d).2) := by
  have hs : XF.infSign u = .pinf := by unfold XF.infSign; rw [if_pos hu]
  have hlt : ∀ x y : XF K, XF.lt (XF.mul (.fin u) x) (XF.mul (.fin u) y) = XF.lt x y := by
    intro x y
    cases x <;> cases y <;> simp [XF.mul, hs, XF.neg, XF.lt, hu]
  have hadd : ∀ x y : XF K, XF.add (XF.mul (.fin u) x) (XF.mul (.fin u) y) = XF.mul (.fin u) (XF.add x y) := by
    intro x y
    cases x <;> cases y <;> simp [XF.mul, hs, XF.neg, XF.add]
    ring
  have hneg : ∀ x : XF K, XF.neg (XF.mul (.fin u) x) = XF.mul (.fin u) (XF.neg x) := by
    intro x
    cases x <;> simp [XF.mul, hs, XF.neg]
  have h0 : (.fin 0 : XF K) = XF.mul (.fin u) (.fin 0) := by simp
  have hmax : ∀ x : XF K, pyMax0 (XF.mul (.fin u) x) = XF.mul (.fin u) (pyMax0 x) := by
    intro x
    unfold pyMax0
    rw [show XF.lt (.fin 0) (XF.mul (.fin u) x) = XF.lt (.fin 0) x from by conv_lhs => rw [h0, hlt]]
    split
    · rfl
    · exact h0
  have hmin : ∀ x : XF K, pyMin0 (XF.mul (.fin u) x) = XF.mul (.fin u) (pyMin0 x) := by
    intro x
    unfold pyMin0
    rw [show XF.lt (XF.mul (.fin u) x) (.fin 0) = XF.lt x (.fin 0) from by conv_lhs => rw [h0, hlt]]
    split
    · rfl
    · exact h0
  unfold step
  dsimp only
  rw [hadd, hadd, hmax, hmin, hneg, hlt, hlt]
  split_ifs <;> simp

/-- C36: prices and threshold in another unit give the same selection, also with missing and infinite prices. -/
theorem C36_scale_invariant (u : K) (hu : 0 < u) (h : XF K) (X : List (ℤ × XF K)) :
    transform (XF.mul (.fin u) h) (X.map fun x => (x.1, XF.mul (.fin u) x.2)) = transform h X := by
  have hs : XF.infSign u = .pinf := by unfold XF.infSign; rw [if_pos hu]
  have hd : ∀ X : List (ℤ × XF K), diffs (X.map fun x => (x.1, XF.mul (.fin u) x.2)) = (diffs X).map fun x => (x.1, XF.mul (.fin u) x.2) := by
    intro X
    induction X with
    | nil => rfl
    | cons a r ih =>
      cases r with
      | nil => rfl
      | cons b r =>
        simp only [List.map_cons, diffs] at ih ⊢
        rw [ih]
        congr 2
        cases b.2 <;> cases a.2 <;> simp [XF.mul, hs, XF.neg, XF.sub, XF.add]
        ring
  have hl : ∀ (l : List (ℤ × XF K)) (s : St K), loop (XF.mul (.fin u) h) ⟨XF.mul (.fin u) s.pos, XF.mul (.fin u) s.neg⟩
      (l.map fun x => (x.1, XF.mul (.fin u) x.2)) = loop h s l := by
    intro l
    induction l with
    | nil => intro s; rfl
    | cons a r ih =>
      intro s
      simp only [List.map_cons, loop]
      rw [cusum_step_scale hu, ih]
  unfold transform
  rw [hd]
  have h2 := hl (diffs X) ⟨.fin 0, .fin 0⟩
  simp only [XF.mul_fin, mul_zero] at h2
  rw [h2]
  simp [List.map_map, Function.comp_def]

example : transform (.fin (100 : ℚ)) ([(10, 500), (11, 400), (12, 550), (13, 600), (14, 400), (15, 350)].map
    fun x => (x.1, XF.fin x.2)) = .ok [12, 14] := by decide +kernel

/-- C36: whatever prices came before (including NaN and infinite ones), the next bar never breaches both
sides when the threshold is not negative. -/
theorem C36_one_side_only (h : K) (hh : 0 ≤ h) (l : List (XF K)) (d : XF K) :
    let s := l.foldl (fun s d => (step (.fin h) s d).1) ⟨.fin 0, .fin 0⟩
    ¬ (XF.lt (XF.add s.neg d) (.fin (-h)) = true ∧ XF.lt (.fin h) (XF.add s.pos d) = true) := by
  intro s
  have inv : ∃ a b : K, s = ⟨.fin a, .fin (-b)⟩ ∧ a ≤ h ∧ b ≤ h := by
    have : ∀ (l : List (XF K)) (a b : K), a ≤ h → b ≤ h →
        ∃ a' b' : K, l.foldl (fun s d => (step (.fin h) s d).1) ⟨.fin a, .fin (-b)⟩ = ⟨.fin a', .fin (-b')⟩ ∧
          a' ≤ h ∧ b' ≤ h := by
      intro l
      induction l with
      | nil => intro a b ha hb; exact ⟨a, b, rfl, ha, hb⟩
      | cons d l ih =>
        intro a b ha hb
        rw [List.foldl_cons, (step_decouple hh ha hb d).1]
        exact ih _ _ (upStep_range hh a d).2 (upStep_range hh b _).2
    have := this l 0 0 hh hh
    rw [neg_zero] at this
    exact this
  obtain ⟨a, b, e, ha, hb⟩ := inv
  rw [e]
  cases d <;> simp [XF.add, XF.lt]
  intro h1
  linarith

example : transform (.fin (1 : ℚ)) [(1, .fin 0), (2, .fin 2), (3, .nan), (4, .fin 9), (5, .fin 5)] = .ok [2, 5] := by
  decide +kernel

end Mizar.Props
