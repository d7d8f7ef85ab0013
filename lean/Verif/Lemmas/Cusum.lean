import Verif.Model.Cusum
import Verif.Spec.Cusum

/-!
Lemmas about the CUSUM filter.
-/

set_option linter.unusedSectionVars false

namespace Mizar.Cusum
variable {K : Type*} [Field K] [LinearOrder K] [IsStrictOrderedRing K]

/-- The state after a list of differences. -/
def stateAfter (h : XF K) (s : St K) (l : List (XF K)) : St K := l.foldl (fun s d => (step h s d).1) s

/-- Selection flags. -/
def flags (h : XF K) : St K → List (XF K) → List Bool
  | _, [] => []
  | s, d :: r => (step h s d).2 :: flags h (step h s d).1 r

theorem loop_append (h : XF K) (s : St K) (a b : List (ℤ × XF K)) :
    loop h s (a ++ b) = loop h s a ++ loop h (stateAfter h s (a.map (·.2))) b := by
  induction a generalizing s with
  | nil => rfl
  | cons x a ih =>
    obtain ⟨i, d⟩ := x
    simp only [List.cons_append, loop, ih, List.map_cons, stateAfter, List.foldl_cons]
    split <;> simp

theorem loop_sublist (h : XF K) (s : St K) (l : List (ℤ × XF K)) :
    (loop h s l).Sublist (l.map (·.1)) := by
  induction l generalizing s with
  | nil => exact List.Sublist.refl _
  | cons x l ih =>
    obtain ⟨i, d⟩ := x
    simp only [loop, List.map_cons]
    split
    · exact (ih _).cons_cons _
    · exact (ih _).cons _

theorem diffs_map_fst (X : List (ℤ × XF K)) : (diffs X).map (·.1) = (X.map (·.1)).tail := by
  induction X with
  | nil => rfl
  | cons a r ih =>
    cases r with
    | nil => rfl
    | cons b r => simpa [diffs] using ih

theorem diffs_append_prefix (X Y : List (ℤ × XF K)) : ∃ Z, diffs (X ++ Y) = diffs X ++ Z := by
  induction X with
  | nil => exact ⟨diffs Y, rfl⟩
  | cons a r ih =>
    cases r with
    | nil => exact ⟨_, rfl⟩
    | cons b r =>
      obtain ⟨Z, hZ⟩ := ih
      refine ⟨Z, ?_⟩
      simp only [List.cons_append, diffs] at hZ ⊢
      rw [hZ]

/-- Reachable accumulators for a non-negative threshold. -/
def Good (h : K) (s : St K) : Prop :=
  ∃ a b : K, s.pos = .fin a ∧ s.neg = .fin b ∧ 0 ≤ a ∧ a ≤ h ∧ b ≤ 0 ∧ -h ≤ b

theorem pyMax0_fin (x : K) : pyMax0 (.fin x) = .fin (max 0 x) := by
  unfold pyMax0
  rw [XF.lt_fin]
  by_cases h : 0 < x
  · simp [h, max_eq_right h.le]
  · simp [h, max_eq_left (not_lt.1 h)]

theorem pyMin0_fin (x : K) : pyMin0 (.fin x) = .fin (min 0 x) := by
  unfold pyMin0
  rw [XF.lt_fin]
  by_cases h : x < 0
  · simp [h, min_eq_right h.le]
  · simp [h, min_eq_left (not_lt.1 h)]

/-- The upward accumulator alone. -/
def upStep (h a : K) : XF K → K × Bool
  | .fin d => if h < max 0 (a + d) then (0, true) else (max 0 (a + d), false)
  | .pinf => (0, true)
  | .ninf => (0, false)
  | .nan => (0, false)

/-- For a non-negative threshold both accumulators evolve independently. -/
theorem step_decouple {h : K} (hh : 0 ≤ h) {a b : K} (ha' : a ≤ h) (hb' : b ≤ h)
    (d : XF K) :
    step (.fin h) ⟨.fin a, .fin (-b)⟩ d =
      (⟨.fin (upStep h a d).1, .fin (-(upStep h b (XF.neg d)).1)⟩, (upStep h a d).2 || (upStep h b (XF.neg d)).2) ∧
    ¬ ((upStep h a d).2 = true ∧ (upStep h b (XF.neg d)).2 = true) := by
  cases d with
  | nan => simp [step, upStep, pyMax0, pyMin0, not_lt.2 hh]
  | pinf => simp [step, upStep, pyMax0, pyMin0, XF.add, XF.neg, XF.lt, hh]
  | ninf => simp [step, upStep, pyMax0, pyMin0, XF.add, XF.neg, XF.lt]
  | fin d =>
    have hmin : min 0 (-b + d) = - max 0 (b + -d) := by
      rw [show -b + d = -(b + -d) by ring]
      rcases le_total 0 (b + -d) with h | h
      · rw [max_eq_right h, min_eq_right (by linarith)]
      · rw [max_eq_left h, min_eq_left (by linarith), neg_zero]
    simp only [step, XF.add_fin, XF.neg_fin, pyMax0_fin, pyMin0_fin, XF.lt_fin, upStep, hmin,
      decide_eq_true_eq, neg_lt_neg_iff]
    by_cases h1 : h < max 0 (b + -d)
    · have h1' : h < b + -d := by
        rcases lt_max_iff.1 h1 with h2 | h2
        · exact absurd h2 (not_lt.2 hh)
        · exact h2
      have h3 : ¬ h < max 0 (a + d) := by
        rw [lt_max_iff]; rintro (h4 | h4) <;> linarith
      simp [h1, h3]
    · by_cases h3 : h < max 0 (a + d)
      · simp [h1, h3]
      · simp [h1, h3]

theorem upStep_range {h : K} (hh : 0 ≤ h) (a : K) (d : XF K) : 0 ≤ (upStep h a d).1 ∧ (upStep h a d).1 ≤ h := by
  cases d with
  | fin d =>
    simp only [upStep]
    split
    · exact ⟨le_rfl, hh⟩
    · rename_i h1; exact ⟨le_max_left _ _, not_lt.1 h1⟩
  | _ => exact ⟨le_rfl, hh⟩

/-- Flags of the upward accumulator. -/
def upFlags (h : K) : K → List (XF K) → List Bool
  | _, [] => []
  | a, d :: r => (upStep h a d).2 :: upFlags h (upStep h a d).1 r

theorem upFlags_length (h a : K) (l : List (XF K)) : (upFlags h a l).length = l.length := by
  induction l generalizing a with
  | nil => rfl
  | cons d r ih => simp [upFlags, ih]

theorem flags_eq {h : K} (hh : 0 ≤ h) (l : List (XF K)) : ∀ {a b : K}, 0 ≤ a → a ≤ h → 0 ≤ b → b ≤ h →
    flags (.fin h) ⟨.fin a, .fin (-b)⟩ l =
      List.zipWith (· || ·) (upFlags h a l) (upFlags h b (l.map XF.neg)) := by
  induction l with
  | nil => intros; rfl
  | cons d r ih =>
    intro a b ha ha' hb hb'
    have hs := (step_decouple hh ha' hb' d).1
    have r1 := upStep_range hh a d
    have r2 := upStep_range hh b (XF.neg d)
    simp only [flags, hs, upFlags, List.map_cons, List.zipWith_cons_cons]
    rw [ih r1.1 r1.2 r2.1 r2.2]

theorem flags_disjoint {h : K} (hh : 0 ≤ h) (l : List (XF K)) : ∀ {a b : K}, 0 ≤ a → a ≤ h → 0 ≤ b → b ≤ h →
    ∀ k : ℕ, ¬ ((upFlags h a l)[k]? = some true ∧ (upFlags h b (l.map XF.neg))[k]? = some true) := by
  induction l with
  | nil => intros; simp [upFlags]
  | cons d r ih =>
    intro a b ha ha' hb hb' k
    have r1 := upStep_range hh a d
    have r2 := upStep_range hh b (XF.neg d)
    cases k with
    | zero =>
      have := (step_decouple hh ha' hb' d).2
      simpa [upFlags] using this
    | succ k => simpa [upFlags] using ih r1.1 r1.2 r2.1 r2.2 k

theorem loop_eq_flags (h : XF K) (s : St K) (l : List (ℤ × XF K)) :
    loop h s l = (((l.map (·.1)).zip (flags h s (l.map (·.2)))).filter (·.2)).map (·.1) := by
  induction l generalizing s with
  | nil => rfl
  | cons x l ih =>
    obtain ⟨i, d⟩ := x
    simp only [loop, List.map_cons, flags, List.zip_cons_cons, List.filter_cons]
    split
    · simp [ih]
    · simp [ih]

theorem flags_length (h : XF K) (s : St K) (l : List (XF K)) : (flags h s l).length = l.length := by
  induction l generalizing s with
  | nil => rfl
  | cons d r ih => simp [flags, ih]

theorem count_loop (h : XF K) (s : St K) (l : List (ℤ × XF K)) :
    (loop h s l).length = (flags h s (l.map (·.2))).count true := by
  induction l generalizing s with
  | nil => rfl
  | cons x l ih =>
    obtain ⟨i, d⟩ := x
    simp only [loop, List.map_cons, flags]
    split
    · rename_i hc; simp [ih, hc]
    · rename_i hc; simp [ih, hc]

/-- A negative threshold selects everything. -/
theorem loop_neg {h : K} (hh : h < 0) (s : St K) (l : List (ℤ × XF K)) :
    loop (.fin h) s l = l.map (·.1) := by
  induction l generalizing s with
  | nil => rfl
  | cons x l ih =>
    obtain ⟨i, d⟩ := x
    have : (step (.fin h) s d).2 = true := by
      unfold step
      have : XF.lt (pyMin0 (XF.add s.neg d)) (XF.neg (.fin h)) = true := by
        unfold pyMin0
        split
        · rename_i hc
          generalize XF.add s.neg d = y at hc
          cases y with
          | nan => simp at hc
          | ninf => rfl
          | pinf => simp [XF.lt] at hc
          | fin y => simp at hc ⊢; linarith
        · simpa using hh
      simp only [this, if_true]
    simp [loop, this, ih]

/-- Simulation of two thresholds. -/
theorem upCount_mono {h₁ h₂ : K} (h0 : 0 ≤ h₁) (h12 : h₁ ≤ h₂) (l : List (XF K)) :
    ∀ (a₁ a₂ : K), 0 ≤ a₁ →
      ((upFlags h₂ a₂ l).count true ≤ (upFlags h₁ a₁ l).count true + 1) ∧
      (a₂ ≤ a₁ → (upFlags h₂ a₂ l).count true ≤ (upFlags h₁ a₁ l).count true) := by
  induction l with
  | nil => intros; simp [upFlags]
  | cons d r ih =>
    intro a₁ a₂ ha
    have p1 := (upStep_range h0 a₁ d).1
    obtain ⟨i1, i2⟩ := ih (upStep h₁ a₁ d).1 (upStep h₂ a₂ d).1 p1
    simp only [upFlags, List.count_cons]
    constructor
    · -- slack of one
      by_cases t2 : (upStep h₂ a₂ d).2 = true
      · have hz : (upStep h₂ a₂ d).1 = 0 := by
          cases d with
          | fin d => simp only [upStep] at t2 ⊢; split at t2 <;> simp_all
          | _ => rfl
        have := i2 (by rw [hz]; exact p1)
        simp [t2]; omega
      · simp [t2]; omega
    · intro hle
      cases d with
      | nan => simpa [upStep] using (ih 0 0 le_rfl).2 le_rfl
      | pinf => simpa [upStep] using (ih 0 0 le_rfl).2 le_rfl
      | ninf => simpa [upStep] using (ih 0 0 le_rfl).2 le_rfl
      | fin d =>
        have hm : max 0 (a₂ + d) ≤ max 0 (a₁ + d) := max_le_max le_rfl (by linarith)
        by_cases t2 : h₂ < max 0 (a₂ + d)
        · have t1 : h₁ < max 0 (a₁ + d) := by linarith
          simpa [upStep, t1, t2] using (ih 0 0 le_rfl).2 le_rfl
        · by_cases t1 : h₁ < max 0 (a₁ + d)
          · simpa [upStep, t1, t2] using (ih 0 (max 0 (a₂ + d)) le_rfl).1
          · simpa [upStep, t1, t2] using (ih (max 0 (a₁ + d)) (max 0 (a₂ + d)) (le_max_left _ _)).2 hm

theorem count_zipWith_or (u v : List Bool) (hl : u.length = v.length)
    (hd : ∀ k : ℕ, ¬ (u[k]? = some true ∧ v[k]? = some true)) :
    (List.zipWith (· || ·) u v).count true = u.count true + v.count true := by
  induction u generalizing v with
  | nil => cases v with
    | nil => rfl
    | cons => simp at hl
  | cons a u ih =>
    cases v with
    | nil => simp at hl
    | cons b v =>
      have h0 := hd 0
      have := ih v (by simpa using hl) (fun k => by simpa using hd (k + 1))
      simp only [List.zipWith_cons_cons, List.count_cons, this]
      cases a <;> cases b <;> simp_all <;> omega

theorem upFlags_neg_zero (h : K) (l : List (XF K)) :
    flags (.fin h) ⟨.fin 0, .fin 0⟩ l = flags (.fin h) ⟨.fin 0, .fin (-0)⟩ l := by rw [neg_zero]

/-- The upward accumulator along a finite price path. -/
def upAcc (h : K) (p : ℕ → K) : ℕ → K × Bool
  | 0 => (0, false)
  | k + 1 => upStep h (upAcc h p k).1 (.fin (p (k + 1) - p k))

/-- Invariant of the accumulator: it is the largest rise that did not contain an upward event. -/
theorem upAcc_inv {h : K} (p : ℕ → K) (k : ℕ) :
    (∃ j ≤ k, (∀ i, j < i → i ≤ k → (upAcc h p i).2 = false) ∧ (upAcc h p k).1 = p k - p j) ∧
    (∀ j ≤ k, (∀ i, j < i → i ≤ k → (upAcc h p i).2 = false) → p k - p j ≤ (upAcc h p k).1) := by
  induction k with
  | zero =>
    refine ⟨⟨0, le_rfl, fun i a b => by omega, by simp [upAcc]⟩, ?_⟩
    intro j hj _
    obtain rfl : j = 0 := by omega
    simp [upAcc]
  | succ k ih =>
    obtain ⟨⟨j, hj, hn, hA⟩, hall⟩ := ih
    by_cases ht : h < max 0 ((upAcc h p k).1 + (p (k + 1) - p k))
    · have e : upAcc h p (k + 1) = (0, true) := by simp [upAcc, upStep, ht]
      rw [e]
      refine ⟨⟨k + 1, le_rfl, fun i a b => by omega, by simp⟩, ?_⟩
      intro j' hj' hn'
      by_cases hk : j' = k + 1
      · simp [hk]
      · have := hn' (k + 1) (by omega) le_rfl
        rw [e] at this; simp at this
    · have e : upAcc h p (k + 1) = (max 0 ((upAcc h p k).1 + (p (k + 1) - p k)), false) := by
        simp [upAcc, upStep, ht]
      rw [e]
      constructor
      · rcases le_total 0 ((upAcc h p k).1 + (p (k + 1) - p k)) with h0 | h0
        · refine ⟨j, by omega, ?_, ?_⟩
          · intro i a b
            rcases Nat.lt_or_ge i (k + 1) with hi | hi
            · exact hn i a (by omega)
            · obtain rfl : i = k + 1 := by omega
              rw [e]
          · show max 0 ((upAcc h p k).1 + (p (k + 1) - p k)) = _
            rw [max_eq_right h0, hA]; ring
        · exact ⟨k + 1, le_rfl, fun i a b => by omega, by simp [max_eq_left h0]⟩
      · intro j' hj' hn'
        by_cases hk : j' = k + 1
        · simp [hk]
        · have := hall j' (by omega) (fun i a b => hn' i a (by omega))
          exact le_trans (by linarith) (le_max_right _ _)

theorem upAcc_isUp {h : K} (hh : 0 ≤ h) (p : ℕ → K) (n : ℕ) :
    Spec.IsUpEvents h p n (fun k => (upAcc h p k).2) := by
  intro k _
  cases k with
  | zero => simp [upAcc]
  | succ k =>
    obtain ⟨⟨j, hj, hn, hA⟩, hall⟩ := upAcc_inv (h := h) p k
    have e : (upAcc h p (k + 1)).2 = true ↔ h < max 0 ((upAcc h p k).1 + (p (k + 1) - p k)) := by
      simp only [upAcc, upStep]
      split <;> simp_all
    simp only [e]
    constructor
    · intro ht
      have ht' : h < (upAcc h p k).1 + (p (k + 1) - p k) := by
        rcases lt_max_iff.1 ht with h2 | h2
        · exact absurd h2 (not_lt.2 hh)
        · exact h2
      refine ⟨j, by omega, by rw [hA] at ht'; linarith, fun i a b => hn i a (by omega)⟩
    · rintro ⟨j', h1, h2, h3⟩
      have := hall j' (by omega) (fun i a b => h3 i a (by omega))
      exact lt_max_of_lt_right (by linarith)

theorem upFlags_acc (h : K) (p : ℕ → K) (m k : ℕ) :
    upFlags h (upAcc h p k).1 ((List.range m).map fun i => XF.fin (p (k + i + 1) - p (k + i))) =
      (List.range m).map fun i => (upAcc h p (k + i + 1)).2 := by
  induction m generalizing k with
  | zero => rfl
  | succ m ih =>
    rw [List.range_succ_eq_map, List.map_cons, List.map_cons, List.map_map, List.map_map]
    have := ih (k + 1)
    simp only [upFlags, Nat.add_zero, upAcc]
    congr 1
    have e1 : ((fun i => XF.fin (p (k + i + 1) - p (k + i))) ∘ Nat.succ) =
        fun i => XF.fin (p (k + 1 + i + 1) - p (k + 1 + i)) := by
      funext i
      simp only [Function.comp, Nat.succ_eq_add_one]
      rw [show k + (i + 1) = k + 1 + i by ring]
    have e2 : ((fun i => (upStep h (upAcc h p (k + i)).1 (XF.fin (p (k + i + 1) - p (k + i)))).2) ∘ Nat.succ) =
        fun i => (upAcc h p (k + 1 + i + 1)).2 := by
      funext i
      simp only [Function.comp, Nat.succ_eq_add_one]
      rw [show k + (i + 1) = k + 1 + i by ring]
      rfl
    rw [e1, e2]
    exact this

theorem diffs_fin (X : List (ℤ × K)) :
    diffs (X.map fun x => (x.1, XF.fin x.2)) = (List.range (X.length - 1)).map fun i =>
      ((X.getD (i + 1) (0, 0)).1, XF.fin ((X.getD (i + 1) (0, 0)).2 - (X.getD i (0, 0)).2)) := by
  induction X with
  | nil => rfl
  | cons a r ih =>
    cases r with
    | nil => rfl
    | cons b r =>
      simp only [List.map_cons, diffs, List.length_cons, Nat.add_sub_cancel] at ih ⊢
      rw [ih, List.range_succ_eq_map, List.map_cons, List.map_map]
      simp [Function.comp_def]

theorem filter_flags {m : ℕ} (t : ℕ → ℤ) (F : ℕ → Bool) (h0 : F 0 = false) :
    ((((List.range m).map fun i => t (i + 1)).zip ((List.range m).map fun i => F (i + 1))).filter (·.2)).map (·.1) =
      ((List.range (m + 1)).filter F).map t := by
  rw [List.zip_map', List.filter_map, List.map_map, List.range_succ_eq_map, List.filter_cons, h0,
    List.filter_map]
  simp only [Bool.false_eq_true, if_false, List.map_map]
  rfl

theorem diffs_shift (c : K) (X : List (ℤ × XF K)) :
    diffs (X.map fun x => (x.1, XF.add x.2 (.fin c))) = diffs X := by
  induction X with
  | nil => rfl
  | cons a r ih =>
    cases r with
    | nil => rfl
    | cons b r =>
      simp only [List.map_cons, diffs] at ih ⊢
      rw [ih]
      congr 2
      obtain ⟨_, x⟩ := a
      obtain ⟨_, y⟩ := b
      cases x <;> cases y <;> simp [XF.add, XF.sub, XF.neg]

theorem diffs_neg (X : List (ℤ × XF K)) :
    diffs (X.map fun x => (x.1, XF.neg x.2)) = (diffs X).map fun x => (x.1, XF.neg x.2) := by
  induction X with
  | nil => rfl
  | cons a r ih =>
    cases r with
    | nil => rfl
    | cons b r =>
      simp only [List.map_cons, diffs] at ih ⊢
      rw [ih]
      congr 2
      obtain ⟨_, x⟩ := a
      obtain ⟨_, y⟩ := b
      cases x <;> cases y <;> simp [XF.add, XF.sub, XF.neg]
      ring

theorem neg_neg (x : XF K) : XF.neg (XF.neg x) = x := by cases x <;> simp [XF.neg]

end Mizar.Cusum
