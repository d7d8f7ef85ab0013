import Verif.Model.ModelSelection
import Verif.Spec.CV
import Mathlib.Order.Monotone.Basic
import Mathlib.Data.List.MinMax

/-! Property theorems C85: how the splits of `CombPurgedKFoldCV` change with the embargo and with the clock. -/

namespace Mizar.Props
open Mizar.CV

theorem max?_map_strictMono (φ : ℤ → ℤ) (hφ : StrictMono φ) (l : List ℤ) : (l.map φ).max? = l.max?.map φ := by
  cases h : l.max? with
  | none => rw [List.max?_eq_none_iff] at h; simp [h]
  | some m =>
    rw [Option.map_some]
    rw [List.max?_eq_some_iff] at h ⊢
    refine ⟨List.mem_map_of_mem h.1, ?_⟩
    intro b hb
    obtain ⟨a, ha, rfl⟩ := List.mem_map.1 hb
    exact hφ.monotone (h.2 a ha)

theorem embargo_clock (n : ℕ) (pred eval : ℕ → ℤ) (emb emb' : ℤ) (φ : ℤ → ℤ) (hφ : StrictMono φ)
    (h : ∀ a b, φ a ≤ φ b + emb' ↔ a ≤ b + emb) (train test : List ℕ) (fe : ℕ) :
    embargo n (fun i => φ (pred i)) (fun i => φ (eval i)) emb' train test fe = embargo n pred eval emb train test fe := by
  unfold embargo
  have : (test.take fe).map (fun i => φ (eval i)) = ((test.take fe).map eval).map φ := by rw [List.map_map]; rfl
  rw [this, max?_map_strictMono φ hφ]
  cases ((test.take fe).map eval).max? with
  | none => rfl
  | some m => simp only [Option.map_some, h]

/-- The splits only depend on the order of the times and on which times lie within the embargo: another clock `φ`, with the
embargo expressed on it, gives the same splits.  Covers shifts, other units, and any increasing clock when there is no
embargo. -/
theorem C85_clock (n g k : ℕ) (pred eval : ℕ → ℤ) (emb emb' : ℤ) (φ : ℤ → ℤ) (hφ : StrictMono φ)
    (h : ∀ a b, φ a ≤ φ b + emb' ↔ a ≤ b + emb) :
    split n g k (fun i => φ (pred i)) (fun i => φ (eval i)) emb' = split n g k pred eval emb := by
  have hp : ∀ train fs fe, purge n (fun i => φ (pred i)) (fun i => φ (eval i)) train fs fe = purge n pred eval train fs fe := by
    intro train fs fe
    unfold purge
    simp only [hφ.lt_iff_lt]
  have hr : splitRound n (fun i => φ (pred i)) (fun i => φ (eval i)) emb' = splitRound n pred eval emb := by
    funext fbl
    unfold splitRound computeTrainSet
    simp only [hp, embargo_clock n pred eval emb emb' φ hφ h]
  unfold split
  rw [hr]

/-- Shifting all times changes nothing. -/
theorem C85_shift (n g k : ℕ) (pred eval : ℕ → ℤ) (emb d : ℤ) :
    split n g k (fun i => pred i + d) (fun i => eval i + d) emb = split n g k pred eval emb :=
  C85_clock n g k pred eval emb emb (fun a => a + d) (fun _ _ h => Int.add_lt_add_right h d) fun a b => by
    constructor <;> intro h <;> omega

/-- Seconds instead of nanoseconds, embargo included, change nothing. -/
theorem C85_time_unit (n g k : ℕ) (pred eval : ℕ → ℤ) (emb c : ℤ) (hc : 0 < c) :
    split n g k (fun i => c * pred i) (fun i => c * eval i) (c * emb) = split n g k pred eval emb :=
  C85_clock n g k pred eval emb (c * emb) (fun a => c * a) (fun _ _ h => Int.mul_lt_mul_of_pos_left h hc) fun a b => by
    rw [← mul_add]
    exact mul_le_mul_iff_of_pos_left hc

theorem minIndex_mono (n : ℕ) (pred : ℕ → ℤ) (a b : ℤ) (h : a ≤ b) :
    ((List.range n).filter fun i => decide (pred i ≤ a)).length ≤ ((List.range n).filter fun i => decide (pred i ≤ b)).length := by
  rw [← List.countP_eq_length_filter, ← List.countP_eq_length_filter]
  apply List.countP_mono_left
  intro i _ hi
  simp only [decide_eq_true_eq] at hi ⊢
  omega

theorem embargo_mono (n : ℕ) (pred eval : ℕ → ℤ) (emb emb' : ℤ) (hle : emb ≤ emb') (train train' test : List ℕ) (fe : ℕ)
    (hsub : ∀ x ∈ train', x ∈ train) (hlate : ∃ j < n, ∀ t ∈ test, eval t + emb' < pred j) :
    ∀ x ∈ embargo n pred eval emb' train' test fe, x ∈ embargo n pred eval emb train test fe := by
  intro x hx
  unfold embargo at hx ⊢
  cases hm : ((test.take fe).map eval).max? with
  | none =>
    rw [hm] at hx
    dsimp only at hx ⊢
    split at hx
    · rw [if_pos (by assumption), mem_npIntersect1d]
      rw [mem_npIntersect1d] at hx
      exact ⟨hsub x hx.1, hx.2⟩
    · rw [if_neg (by assumption)]
      exact hsub x hx
  | some m =>
    rw [hm] at hx
    dsimp only at hx ⊢
    obtain ⟨j, hj, hl⟩ := hlate
    have hmem := (List.max?_eq_some_iff.1 hm).1
    obtain ⟨t, ht, rfl⟩ := List.mem_map.1 hmem
    have h1 := hl t (List.mem_of_mem_take ht)
    have hlt : ∀ e, e ≤ emb' → ((List.range n).filter fun i => decide (pred i ≤ eval t + e)).length < n := by
      intro e he
      have h2 : ((List.range n).filter fun i => decide (pred i ≤ eval t + e)).length < (List.range n).length := by
        apply List.length_filter_lt_length_iff_exists.2
        exact ⟨j, List.mem_range.2 hj, by simp; omega⟩
      simpa using h2
    rw [if_pos (hlt emb' le_rfl), mem_npIntersect1d] at hx
    rw [if_pos (hlt emb hle), mem_npIntersect1d]
    refine ⟨hsub x hx.1, ?_⟩
    rcases List.mem_append.1 hx.2 with h2 | h2
    · exact List.mem_append_left _ h2
    · apply List.mem_append_right
      exact List.drop_subset_drop_left _ (minIndex_mono n pred _ _ (by omega)) h2

theorem purge_mono (n : ℕ) (pred eval : ℕ → ℤ) (train train' : List ℕ) (fs fe : ℕ) (hsub : ∀ x ∈ train', x ∈ train) :
    ∀ x ∈ purge n pred eval train' fs fe, x ∈ purge n pred eval train fs fe := by
  intro x hx
  unfold purge at hx ⊢
  simp only [List.mem_append, mem_npIntersect1d] at hx ⊢
  rcases hx with h | h
  · exact Or.inl ⟨hsub x h.1, h.2⟩
  · exact Or.inr ⟨hsub x h.1, h.2⟩

/-- A longer embargo tests the same samples and never adds training samples, in every round in which some sample is
predicted after the longer embargo has passed.  Missing: the other rounds, see `C85_embargo_refuted`. -/
theorem C85_embargo_partial (n g k : ℕ) (pred eval : ℕ → ℤ) (emb emb' : ℤ) (hle : emb ≤ emb') (rounds rounds' : List (List ℕ × List ℕ))
    (h : split n g k pred eval emb = .ok rounds) (h' : split n g k pred eval emb' = .ok rounds') :
    rounds'.map (·.2) = rounds.map (·.2) ∧
    ∀ (i : ℕ) (r r' : List ℕ × List ℕ), rounds[i]? = some r → rounds'[i]? = some r' → (∃ j < n, ∀ t ∈ r.2, eval t + emb' < pred j) → ∀ x ∈ r'.1, x ∈ r.1 := by
  unfold split at h h'
  cases hs : testFoldBounds n g k with
  | error e => rw [hs] at h; cases h
  | ok sel =>
    rw [hs] at h h'
    obtain rfl : sel.map (splitRound n pred eval emb) = rounds := by injection h
    obtain rfl : sel.map (splitRound n pred eval emb') = rounds' := by injection h'
    refine ⟨by simp [splitRound], ?_⟩
    intro i r r' hr hr' hlate
    rw [List.getElem?_map] at hr hr'
    cases hsel : sel[i]? with
    | none => rw [hsel] at hr; cases hr
    | some fbl =>
      rw [hsel] at hr hr'
      obtain rfl : splitRound n pred eval emb fbl = r := by simpa using hr
      obtain rfl : splitRound n pred eval emb' fbl = r' := by simpa using hr'
      unfold splitRound at hlate ⊢
      dsimp only at hlate ⊢
      generalize computeTestSet n fbl = t at hlate ⊢
      unfold computeTrainSet
      have key : ∀ (bs : List (ℕ × ℕ)) (tr tr' : List ℕ), (∀ x ∈ tr', x ∈ tr) → ∀ x ∈ bs.foldl (fun train b => embargo n pred eval emb' (purge n pred eval train b.1 b.2) t.2 b.2) tr',
          x ∈ bs.foldl (fun train b => embargo n pred eval emb (purge n pred eval train b.1 b.2) t.2 b.2) tr := by
        intro bs
        induction bs with
        | nil => exact fun _ _ h => h
        | cons b bs ih =>
          intro tr tr' hsub
          apply ih
          exact embargo_mono n pred eval emb emb' hle _ _ t.2 b.2 (purge_mono n pred eval tr tr' b.1 b.2 hsub) hlate
      exact key t.1 _ _ fun _ h => h

/-- An embargo longer than the data left is not applied: going from 1 to 100 puts sample 3 back into training. -/
theorem C85_embargo_refuted : ∃ rounds rounds' : List (List ℕ × List ℕ),
    split 6 2 1 (fun i => i) (fun i => i) 1 = .ok rounds ∧ split 6 2 1 (fun i => i) (fun i => i) 100 = .ok rounds' ∧
    ∃ r r', rounds[1]? = some r ∧ rounds'[1]? = some r' ∧ r.2 = r'.2 ∧ ∃ x ∈ r'.1, x ∉ r.1 :=
  ⟨[([0, 1, 2], [3, 4, 5]), ([4, 5], [0, 1, 2])], [([0, 1, 2], [3, 4, 5]), ([3, 4, 5], [0, 1, 2])], by decide +kernel, by decide +kernel,
    ([4, 5], [0, 1, 2]), ([3, 4, 5], [0, 1, 2]), rfl, rfl, rfl, 3, by decide, by decide⟩

/-- Two rounds meeting the condition of `C85_embargo_partial`: embargoes of one and two bars after the first fold. -/
example : split 6 2 1 (fun i => i) (fun i => i) 1 = .ok [([0, 1, 2], [3, 4, 5]), ([4, 5], [0, 1, 2])] ∧
    split 6 2 1 (fun i => i) (fun i => i) 2 = .ok [([0, 1, 2], [3, 4, 5]), ([5], [0, 1, 2])] ∧
    ∃ j < 6, ∀ t ∈ [0, 1, 2], ((t : ℕ) : ℤ) + 2 < ((j : ℕ) : ℤ) :=
  ⟨by decide +kernel, by decide +kernel, 5, by decide, by decide⟩

end Mizar.Props
