import Mathlib.Data.Nat.Choose.Basic
import Mathlib.Data.Nat.Choose.Sum
import Verif.Lemmas.CV

/-! Lemmas about combinations, test sets and train sets of the cross-validation model. -/

namespace Mizar.CV
open Mizar.Spec

theorem self_le_choose {N k : ℕ} (h1 : 1 ≤ k) (h2 : k < N) : N ≤ N.choose k := by
  induction N generalizing k with
  | zero => omega
  | succ N ih =>
    obtain ⟨k, rfl⟩ : ∃ m, k = m + 1 := ⟨k - 1, by omega⟩
    rw [Nat.choose_succ_succ]
    have hpos : 0 < N.choose k := Nat.choose_pos (by omega)
    rcases Nat.lt_or_ge (k + 1) N with h | h
    · have := ih (k := k + 1) (by omega) h
      simp only [Nat.succ_eq_add_one]
      omega
    · have hN : N = k + 1 := by omega
      subst hN
      simp [Nat.choose_succ_self_right]

theorem self_lt_choose {N k : ℕ} (h1 : 2 ≤ k) (h2 : k + 2 ≤ N) : N < N.choose k := by
  obtain ⟨k, rfl⟩ : ∃ m, k = m + 1 := ⟨k - 1, by omega⟩
  obtain ⟨N, rfl⟩ : ∃ m, N = m + 1 := ⟨N - 1, by omega⟩
  rw [Nat.choose_succ_succ]
  have h3 := self_le_choose (N := N) (k := k) (by omega) (by omega)
  have h4 := self_le_choose (N := N) (k := k + 1) (by omega) (by omega)
  simp only [Nat.succ_eq_add_one]
  omega

/-! ### itertools.combinations -/

theorem mem_combinations {α : Type*} {k : ℕ} {l s : List α} :
    s ∈ combinations k l ↔ s.Sublist l ∧ s.length = k := by
  induction l generalizing k s with
  | nil =>
    cases k with
    | zero => simp [combinations]
    | succ k =>
      simp only [combinations, List.not_mem_nil, List.sublist_nil, false_iff, not_and]
      rintro rfl; simp
  | cons x xs ih =>
    cases k with
    | zero =>
      simp only [combinations, List.mem_singleton]
      constructor
      · rintro rfl; simp
      · rintro ⟨_, h⟩; exact List.length_eq_zero_iff.1 h
    | succ k =>
      simp only [combinations, List.mem_append, List.mem_map, ih]
      constructor
      · rintro (⟨t, ⟨h1, h2⟩, rfl⟩ | ⟨h1, h2⟩)
        · exact ⟨h1.cons_cons x, by simp [h2]⟩
        · exact ⟨h1.cons x, h2⟩
      · rintro ⟨h1, h2⟩
        cases h1 with
        | cons _ h => exact Or.inr ⟨h, h2⟩
        | cons_cons _ h => exact Or.inl ⟨_, ⟨h, by simpa using h2⟩, rfl⟩

theorem length_combinations {α : Type*} (k : ℕ) (l : List α) :
    (combinations k l).length = l.length.choose k := by
  induction l generalizing k with
  | nil => cases k <;> simp [combinations]
  | cons x xs ih =>
    cases k with
    | zero => simp [combinations]
    | succ k => simp [combinations, ih, Nat.choose_succ_succ]

theorem nodup_combinations {α : Type*} (k : ℕ) (l : List α) (h : l.Nodup) :
    (combinations k l).Nodup := by
  induction l generalizing k with
  | nil => cases k <;> simp [combinations]
  | cons x xs ih =>
    cases k with
    | zero => simp [combinations]
    | succ k =>
      rw [List.nodup_cons] at h
      simp only [combinations]
      refine List.nodup_append.2 ⟨?_, ih _ h.2, ?_⟩
      · exact (ih _ h.2).map (fun a b hab => by simpa using hab)
      · intro a ha b hb hab
        subst hab
        obtain ⟨t, _, rfl⟩ := List.mem_map.1 ha
        have := (mem_combinations.1 hb).1.subset (List.mem_cons_self)
        exact h.1 this

theorem combinations_eq_nil {α : Type*} {k : ℕ} {l : List α} (h : l.length < k) :
    combinations k l = [] := by
  apply List.eq_nil_of_length_eq_zero
  rw [length_combinations, Nat.choose_eq_zero_of_lt h]

/-- The last combination consists of the last `k` elements. -/
theorem getLast?_combinations {α : Type*} (k : ℕ) (l : List α) (h : k ≤ l.length) :
    (combinations k l).getLast? = some (l.drop (l.length - k)) := by
  induction l generalizing k with
  | nil =>
    have : k = 0 := by simpa using h
    subst this; simp [combinations]
  | cons x xs ih =>
    cases k with
    | zero => simp [combinations]
    | succ k =>
      simp only [combinations, List.length_cons] at h ⊢
      rcases Nat.lt_or_ge xs.length (k + 1) with hlt | hge
      · rw [combinations_eq_nil hlt, List.append_nil, List.getLast?_map, ih k (by omega)]
        have h1 : xs.length - k = 0 := by omega
        have h2 : xs.length + 1 - (k + 1) = 0 := by omega
        rw [h1, h2]; simp
      · rw [List.getLast?_append, ih (k + 1) hge]
        have h2 : xs.length + 1 - (k + 1) = (xs.length - (k + 1)) + 1 := by omega
        rw [h2]; simp

/-- In how many combinations a given element occurs. -/
theorem countP_mem_combinations {α : Type*} [DecidableEq α] (k : ℕ) (l : List α) (h : l.Nodup)
    (a : α) (ha : a ∈ l) :
    (combinations (k + 1) l).countP (fun s => decide (a ∈ s)) = (l.length - 1).choose k := by
  induction l generalizing k with
  | nil => simp at ha
  | cons x xs ih =>
    rw [List.nodup_cons] at h
    simp only [combinations, List.countP_append, List.countP_map, List.length_cons,
      Nat.add_sub_cancel]
    rcases List.mem_cons.1 ha with rfl | ha
    · have h1 : (combinations k xs).countP ((fun s => decide (a ∈ s)) ∘ (fun x => a :: x))
          = (combinations k xs).length := by
        rw [List.countP_eq_length]; simp
      have h2 : (combinations (k + 1) xs).countP (fun s => decide (a ∈ s)) = 0 := by
        rw [List.countP_eq_zero]
        intro s hs
        have := (mem_combinations.1 hs).1.subset
        simp only [decide_eq_true_eq]
        exact fun h' => h.1 (this h')
      rw [h1, h2, length_combinations]; simp
    · have hax : a ≠ x := fun e => h.1 (e ▸ ha)
      have h1 : (combinations k xs).countP ((fun s => decide (a ∈ s)) ∘ (fun y => x :: y))
          = (combinations k xs).countP (fun s => decide (a ∈ s)) := by
        congr 1; funext s; simp [hax]
      have hlen : 0 < xs.length := List.length_pos_of_mem ha
      obtain ⟨m, hm⟩ : ∃ m, xs.length = m + 1 := ⟨xs.length - 1, by omega⟩
      rw [h1, ih k h.2 ha, hm]
      cases k with
      | zero => simp [combinations]
      | succ k =>
        rw [ih k h.2 ha, hm, Nat.choose_succ_succ]
        simp

/-! ### test sets -/

/-- Well-formed list of selected folds. -/
structure FoldsOK (n : ℕ) (fbl : List (ℕ × ℕ)) : Prop where
  pair : fbl.Pairwise (fun b c => b.2 ≤ c.1)
  range : ∀ b ∈ fbl, b.1 < b.2 ∧ b.2 ≤ n

theorem FoldsOK.sublist {n : ℕ} {l s : List (ℕ × ℕ)} (h : FoldsOK n l) (hs : s.Sublist l) :
    FoldsOK n s :=
  ⟨h.pair.sublist hs, fun b hb => h.range b (hs.subset hb)⟩

theorem foldsOK_sizes (n g : ℕ) (hg : 0 < g) (h : g ≤ n) :
    FoldsOK n (boundsFrom 0 (sizes n g)) :=
  ⟨boundsFrom_pairwise _ _, fun b hb =>
    ⟨(balancedPartition_sizes n g hg h).nonempty b hb, (balancedPartition_sizes n g hg h).inside b hb⟩⟩

theorem FoldsOK.nodup {n : ℕ} {l : List (ℕ × ℕ)} (h : FoldsOK n l) : l.Nodup := by
  have h2 : l.Pairwise (fun b c => b.2 ≤ c.1 ∧ b.1 < b.2 ∧ c.1 < c.2) := by
    rw [List.pairwise_iff_forall_sublist] at *
    intro a b hab
    have := h.pair
    rw [List.pairwise_iff_forall_sublist] at this
    exact ⟨this hab, (h.range a (hab.subset (by simp))).1, (h.range b (hab.subset (by simp))).1⟩
  exact h2.imp (fun hbc e => by subst e; omega)

/-- Invariant of the loop of `_compute_test_set`. -/
structure TestInv (n : ℕ) (acc : List (ℕ × ℕ) × List ℕ) : Prop where
  gap : acc.1.Pairwise (fun c b => b.2 < c.1)
  range : ∀ b ∈ acc.1, b.1 < b.2 ∧ b.2 ≤ n
  mem : ∀ x, x ∈ acc.2 ↔ ∃ b ∈ acc.1, InRange b x
  sorted : acc.2.Pairwise (· < ·)

theorem mem_slice {n a b x : ℕ} : x ∈ ((List.range n).take b).drop a ↔ a ≤ x ∧ x < b ∧ x < n := by
  rw [List.range_eq_range']
  rcases Nat.le_total b n with h | h
  · rw [List.take_range'_of_length_ge h, List.drop_range', List.mem_range'_1]; omega
  · rw [List.take_range'_of_length_le h, List.drop_range', List.mem_range'_1]; omega

theorem testInv_step {n : ℕ} {acc : List (ℕ × ℕ) × List ℕ} (hi : TestInv n acc) (b : ℕ × ℕ)
    (hb : b.1 < b.2 ∧ b.2 ≤ n) (hle : ∀ c, acc.1.head? = some c → c.2 ≤ b.1) :
    TestInv n (testSetStep n acc b) ∧
      ∃ s, (testSetStep n acc b).1.head? = some (s, b.2) := by
  obtain ⟨bs, t⟩ := acc
  have hmem : ∀ x, x ∈ npUnion1d t (((List.range n).take b.2).drop b.1) ↔
      (∃ c ∈ bs, InRange c x) ∨ InRange b x := by
    intro x
    rw [mem_npUnion1d, mem_slice, hi.mem x]
    simp only [InRange]
    constructor
    · rintro (h | h)
      · exact Or.inl h
      · exact Or.inr ⟨h.1, h.2.1⟩
    · rintro (h | h)
      · exact Or.inl h
      · exact Or.inr ⟨h.1, h.2, by omega⟩
  cases bs with
  | nil =>
    refine ⟨⟨?_, ?_, ?_, pairwise_npUnion1d _ _⟩, ⟨b.1, ?_⟩⟩
    · simp [testSetStep]
    · simp [testSetStep, hb]
    · intro x
      simpa [testSetStep] using hmem x
    · simp [testSetStep]
  | cons last rest =>
    have hl := hle last rfl
    have hgap := List.pairwise_cons.1 hi.gap
    have hlast := hi.range last (by simp)
    by_cases hne : b.1 = last.2
    · refine ⟨⟨?_, ?_, ?_, pairwise_npUnion1d _ _⟩, ⟨last.1, ?_⟩⟩
      · simp only [testSetStep, hne, ne_eq, not_true_eq_false, if_false]
        exact List.pairwise_cons.2 ⟨fun c hc => hgap.1 c hc, hgap.2⟩
      · simp only [testSetStep, hne, ne_eq, not_true_eq_false, if_false]
        intro c hc
        rcases List.mem_cons.1 hc with rfl | hc
        · exact ⟨by simp only; omega, hb.2⟩
        · exact hi.range c (by simp [hc])
      · intro x
        have := hmem x
        simp only [testSetStep, hne, ne_eq, not_true_eq_false, if_false] at this ⊢
        rw [this]
        simp only [List.mem_cons, exists_eq_or_imp, InRange]
        constructor
        · rintro ((h | h) | h)
          · left; omega
          · exact Or.inr h
          · left; omega
        · rintro (h | h)
          · by_cases hx : x < last.2
            · exact Or.inl (Or.inl ⟨h.1, hx⟩)
            · exact Or.inr ⟨by omega, h.2⟩
          · exact Or.inl (Or.inr h)
      · simp [testSetStep, hne]
    · refine ⟨⟨?_, ?_, ?_, pairwise_npUnion1d _ _⟩, ⟨b.1, ?_⟩⟩
      · simp only [testSetStep, ne_eq, hne, not_false_eq_true, if_true]
        refine List.pairwise_cons.2 ⟨fun c hc => ?_, hi.gap⟩
        rcases List.mem_cons.1 hc with rfl | hc
        · omega
        · have := hgap.1 c hc
          have := hi.range c (by simp [hc])
          omega
      · simp only [testSetStep, ne_eq, hne, not_false_eq_true, if_true]
        intro c hc
        rcases List.mem_cons.1 hc with rfl | hc
        · exact hb
        · exact hi.range c hc
      · intro x
        have := hmem x
        simp only [testSetStep, ne_eq, hne, not_false_eq_true, if_true] at this ⊢
        rw [this]
        simp only [List.mem_cons, exists_eq_or_imp]
        exact or_comm
      · simp [testSetStep, hne]

theorem testInv_foldl {n : ℕ} (fbl : List (ℕ × ℕ)) (h : FoldsOK n fbl)
    (acc : List (ℕ × ℕ) × List ℕ) (hi : TestInv n acc)
    (hle : ∀ c, acc.1.head? = some c → ∀ b ∈ fbl, c.2 ≤ b.1) :
    TestInv n (fbl.foldl (testSetStep n) acc) := by
  induction fbl generalizing acc with
  | nil => exact hi
  | cons b fbl ih =>
    have hp := List.pairwise_cons.1 h.pair
    obtain ⟨h1, s, hs⟩ := testInv_step hi b (h.range b (by simp)) (fun c hc => hle c hc b (by simp))
    refine ih ⟨hp.2, fun c hc => h.range c (by simp [hc])⟩ _ h1 ?_
    intro c hc b' hb'
    rw [hs] at hc
    cases hc
    exact hp.1 b' hb'

theorem mem_foldl_testSetStep {n : ℕ} (fbl : List (ℕ × ℕ)) (acc : List (ℕ × ℕ) × List ℕ) (x : ℕ) :
    x ∈ (fbl.foldl (testSetStep n) acc).2 ↔ x ∈ acc.2 ∨ (x < n ∧ ∃ b ∈ fbl, InRange b x) := by
  induction fbl generalizing acc with
  | nil => simp
  | cons b fbl ih =>
    rw [List.foldl_cons, ih]
    simp only [testSetStep, mem_npUnion1d, mem_slice, List.mem_cons, exists_eq_or_imp, InRange]
    tauto

/-- The facts about a computed test set that the train set needs. -/
structure TestOK (n : ℕ) (bounds : List (ℕ × ℕ)) (test : List ℕ) : Prop where
  gap : bounds.Pairwise (fun b c => b.2 < c.1)
  range : ∀ b ∈ bounds, b.1 < b.2 ∧ b.2 ≤ n
  mem : ∀ x, x ∈ test ↔ ∃ b ∈ bounds, InRange b x
  sorted : test.Pairwise (· < ·)

theorem testOK_computeTestSet {n : ℕ} (fbl : List (ℕ × ℕ)) (h : FoldsOK n fbl) :
    TestOK n (computeTestSet n fbl).1 (computeTestSet n fbl).2 := by
  have := testInv_foldl fbl h ([], []) ⟨by simp, by simp, by simp, by simp⟩ (by simp)
  refine ⟨?_, ?_, ?_, this.sorted⟩
  · simp only [computeTestSet, List.pairwise_reverse]
    exact this.gap
  · intro b hb
    exact this.range b (by simpa [computeTestSet] using hb)
  · intro x
    simpa [computeTestSet] using this.mem x

theorem mem_computeTestSet {n : ℕ} (fbl : List (ℕ × ℕ)) (x : ℕ) :
    x ∈ (computeTestSet n fbl).2 ↔ x < n ∧ ∃ b ∈ fbl, InRange b x := by
  simp [computeTestSet, mem_foldl_testSetStep]

theorem sorted_computeTestSet {n : ℕ} (fbl : List (ℕ × ℕ)) :
    (computeTestSet n fbl).2.Pairwise (· < ·) := by
  rcases List.eq_nil_or_concat fbl with rfl | ⟨l, b, rfl⟩
  · simp [computeTestSet]
  · simp only [computeTestSet, List.concat_eq_append, List.foldl_append, List.foldl_cons,
      List.foldl_nil]
    exact pairwise_npUnion1d _ _

/-! ### train sets -/

theorem mem_purge {n : ℕ} {pred eval : ℕ → ℤ} {train : List ℕ} {fs fe i : ℕ} :
    i ∈ purge n pred eval train fs fe ↔
      i ∈ train ∧ i < n ∧ (eval i < pred fs ∨ fe ≤ i) := by
  have hd : ∀ i, i ∈ (List.range n).drop fe ↔ fe ≤ i ∧ i < n := by
    intro i
    have := @mem_slice n fe n i
    rw [List.take_of_length_le (by simp)] at this
    rw [this]; omega
  simp only [purge, List.mem_append, mem_npIntersect1d, List.mem_filter, List.mem_range,
    decide_eq_true_eq, hd]
  tauto

/-- The cut-off position computed by `embargo`. -/
def minTrain (n : ℕ) (pred eval : ℕ → ℤ) (emb : ℤ) (test : List ℕ) (fe : ℕ) : ℕ :=
  match ((test.take fe).map eval).max? with
  | none => 0
  | some m => ((List.range n).filter (fun i => decide (pred i ≤ m + emb))).length

theorem mem_embargo {n : ℕ} {pred eval : ℕ → ℤ} {emb : ℤ} {train test : List ℕ} {fe i : ℕ}
    (hi : i < n) :
    i ∈ embargo n pred eval emb train test fe ↔
      i ∈ train ∧ (minTrain n pred eval emb test fe < n →
        i < fe ∨ minTrain n pred eval emb test fe ≤ i) := by
  have hd : ∀ m i, i ∈ (List.range n).drop m ↔ m ≤ i ∧ i < n := by
    intro m i
    have := @mem_slice n m n i
    rw [List.take_of_length_le (by simp)] at this
    rw [this]; omega
  have ht : ∀ i, i ∈ (List.range n).take fe ↔ i < fe ∧ i < n := by
    intro i
    have := @mem_slice n 0 fe i
    simp only [List.drop_zero, Nat.zero_le, true_and] at this
    exact this
  unfold embargo
  change i ∈ (if minTrain n pred eval emb test fe < n then _ else _) ↔ _
  split
  · rename_i h
    simp only [mem_npIntersect1d, List.mem_append, hd, ht]
    constructor
    · rintro ⟨h1, h2⟩
      exact ⟨h1, fun _ => h2.imp (·.1) (·.1)⟩
    · rintro ⟨h1, h2⟩
      exact ⟨h1, (h2 h).imp (⟨·, hi⟩) (⟨·, hi⟩)⟩
  · rename_i h
    simp [h]

theorem embargo_subset {n : ℕ} {pred eval : ℕ → ℤ} {emb : ℤ} {train test : List ℕ} {fe i : ℕ}
    (h : i ∈ embargo n pred eval emb train test fe) : i ∈ train := by
  unfold embargo at h
  change i ∈ (if minTrain n pred eval emb test fe < n then _ else _) at h
  split at h
  · exact (mem_npIntersect1d.1 h).1
  · exact h

theorem mem_computeTrainSet {n : ℕ} {pred eval : ℕ → ℤ} {emb : ℤ} {bounds : List (ℕ × ℕ)}
    {test : List ℕ} {i : ℕ} :
    i ∈ computeTrainSet n pred eval emb bounds test ↔
      i < n ∧ i ∉ test ∧ ∀ b ∈ bounds, (eval i < pred b.1 ∨ b.2 ≤ i) ∧
        (minTrain n pred eval emb test b.2 < n →
          i < b.2 ∨ minTrain n pred eval emb test b.2 ≤ i) := by
  have key : ∀ (bounds : List (ℕ × ℕ)) (train : List ℕ), (∀ j ∈ train, j < n) →
      (i ∈ bounds.foldl
        (fun train b => embargo n pred eval emb (purge n pred eval train b.1 b.2) test b.2) train ↔
      i ∈ train ∧ ∀ b ∈ bounds, (eval i < pred b.1 ∨ b.2 ≤ i) ∧
        (minTrain n pred eval emb test b.2 < n →
          i < b.2 ∨ minTrain n pred eval emb test b.2 ≤ i)) := by
    intro bounds
    induction bounds with
    | nil => simp
    | cons b bounds ih =>
      intro train htr
      rw [List.foldl_cons, ih _ (fun j hj => htr j (mem_purge.1 (embargo_subset hj)).1)]
      simp only [List.mem_cons, forall_eq_or_imp]
      constructor
      · rintro ⟨h1, h2⟩
        have h3 := mem_purge.1 (embargo_subset h1)
        exact ⟨h3.1, ⟨h3.2.2, ((mem_embargo h3.2.1).1 h1).2⟩, h2⟩
      · rintro ⟨h1, ⟨h2, h3⟩, h4⟩
        exact ⟨(mem_embargo (htr i h1)).2 ⟨mem_purge.2 ⟨h1, htr i h1, h2⟩, h3⟩, h4⟩
  rw [computeTrainSet, key]
  · simp only [mem_npSetdiff1d, List.mem_range]; tauto
  · intro j hj
    simpa using (mem_npSetdiff1d.1 hj).1

/-- In a strictly increasing list of naturals every element `t < e` is among the first `e`. -/
theorem mem_take_of_lt {l : List ℕ} (hs : l.Pairwise (· < ·)) {t e : ℕ} (ht : t ∈ l) (h : t < e) :
    t ∈ l.take e := by
  have key : ∀ (l : List ℕ) (a : ℕ), l.Pairwise (· < ·) → (∀ x ∈ l, a ≤ x) → t ∈ l →
      ∀ e, t < a + e → t ∈ l.take e := by
    intro l
    induction l with
    | nil => intro a _ _ h; simp at h
    | cons x l ih =>
      intro a hp hge hmem e he
      rw [List.pairwise_cons] at hp
      have hax := hge x (by simp)
      cases e with
      | zero =>
        have := hge t hmem
        omega
      | succ e =>
        rw [List.take_succ_cons]
        rcases List.mem_cons.1 hmem with rfl | hm
        · simp
        · exact List.mem_cons_of_mem _ (ih (a + 1) hp.2
            (fun y hy => by have := hp.1 y hy; omega) hm e (by omega))
  exact key l 0 hs (fun _ _ => Nat.zero_le _) ht e (by omega)

theorem le_max?_of_mem {l : List ℤ} {m a : ℤ} (h : l.max? = some m) (ha : a ∈ l) : a ≤ m :=
  (List.max?_eq_some_iff.1 h).2 a ha

/-- Beyond the cut-off every prediction time exceeds the last evaluation time plus embargo. -/
theorem minTrain_spec {n : ℕ} {pred eval : ℕ → ℤ} {emb : ℤ} {test : List ℕ} {fe i t : ℕ}
    (hT : Timeline n pred eval) (hi : i < n) (ht : t ∈ test.take fe)
    (h : minTrain n pred eval emb test fe ≤ i) : eval t + emb < pred i := by
  unfold minTrain at h
  have hmem : eval t ∈ (test.take fe).map eval := List.mem_map_of_mem ht
  cases hm : ((test.take fe).map eval).max? with
  | none => rw [List.max?_eq_none_iff] at hm; rw [hm] at hmem; simp at hmem
  | some m =>
    rw [hm] at h
    simp only at h
    have hle := le_max?_of_mem hm hmem
    by_contra hcon
    have hpi : pred i ≤ m + emb := by omega
    have hsub : (List.range (i + 1)).Sublist
        ((List.range n).filter (fun i => decide (pred i ≤ m + emb))) := by
      have h1 : (List.range (i + 1)).filter (fun i => decide (pred i ≤ m + emb))
          = List.range (i + 1) := by
        rw [List.filter_eq_self]
        intro j hj
        have := hT.mono j i (by simpa [Nat.lt_succ_iff] using hj) hi
        simp only [decide_eq_true_eq]; omega
      rw [← h1]
      exact (List.range_sublist.2 (by omega)).filter _
    have := hsub.length_le
    simp only [List.length_range] at this
    omega

/-- The cut-off is effective when the last evaluation time plus embargo precedes some prediction. -/
theorem minTrain_lt {n : ℕ} {pred eval : ℕ → ℤ} {emb : ℤ} {test : List ℕ} {fe j : ℕ}
    (hj : j < n) (h : ∀ u ∈ test.take fe, eval u + emb < pred j) :
    minTrain n pred eval emb test fe < n := by
  unfold minTrain
  cases hm : ((test.take fe).map eval).max? with
  | none => simp only; omega
  | some m =>
    simp only
    have hmem := (List.max?_eq_some_iff.1 hm).1
    obtain ⟨u, hu, rfl⟩ := List.mem_map.1 hmem
    have := h u hu
    calc _ < (List.range n).length := ?_
      _ = n := by simp
    refine List.length_filter_lt_length_iff_exists.2 ⟨j, by simpa using hj, ?_⟩
    simp only [decide_eq_true_eq]; omega

/-- If a position is cut although it lies behind the block, some of the considered test labels
reaches it. -/
theorem minTrain_cut {n : ℕ} {pred eval : ℕ → ℤ} {emb : ℤ} {test : List ℕ} {fe i : ℕ}
    (hT : Timeline n pred eval) (h : i < minTrain n pred eval emb test fe) :
    ∃ u ∈ test.take fe, pred i ≤ eval u + emb := by
  unfold minTrain at h
  cases hm : ((test.take fe).map eval).max? with
  | none => rw [hm] at h; simp at h
  | some m =>
    rw [hm] at h
    simp only at h
    obtain ⟨u, hu, rfl⟩ := List.mem_map.1 (List.max?_eq_some_iff.1 hm).1
    refine ⟨u, hu, ?_⟩
    by_contra hcon
    have hsub : ((List.range n).filter (fun j => decide (pred j ≤ eval u + emb))).Subperm
        (List.range i) := by
      refine List.Nodup.subperm (List.nodup_range.filter _) ?_
      intro j hj
      simp only [List.mem_filter, List.mem_range, decide_eq_true_eq] at hj ⊢
      by_contra hji
      have := hT.mono i j (by omega) hj.1
      omega
    have := hsub.length_le
    simp only [List.length_range] at this
    omega

end Mizar.CV
