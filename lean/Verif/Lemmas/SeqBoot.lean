import Verif.Lemmas.Boot

/-! Loop invariant of the sequential bootstrap. -/

namespace Mizar.Boot
open Mizar.Spec

theorem seqUniq_pos (M : IndMat) (d : List ℕ) (j : ℕ) : 0 < seqUniq M d j := by
  unfold seqUniq
  split
  · norm_num
  · rename_i h
    have hne : (barsOf M j).Nonempty := Finset.card_pos.1 (Nat.pos_of_ne_zero h)
    apply div_pos
    · exact Finset.sum_pos (fun t _ => by positivity) hne
    · exact_mod_cast Nat.pos_of_ne_zero h

/-- The probabilities the textbook algorithm would use after `drawn` have been drawn. -/
def seqProb (M : IndMat) (drawn : List ℕ) : List (XF ℚ) :=
  (List.range M.nCols).map fun j =>
    .fin (seqUniq M drawn j / ∑ i ∈ Finset.range M.nCols, seqUniq M drawn i)

theorem list_sum_range (n : ℕ) (f : ℕ → ℚ) :
    ((List.range n).map f).sum = ∑ i ∈ Finset.range n, f i := by
  rw [← List.sum_toFinset f List.nodup_range]
  congr 1
  ext i; simp

theorem sum_seqUniq_pos (M : IndMat) (d : List ℕ) (h : 0 < M.nCols) :
    0 < ∑ i ∈ Finset.range M.nCols, seqUniq M d i :=
  Finset.sum_pos (fun i _ => seqUniq_pos M d i) ⟨0, Finset.mem_range.2 h⟩

theorem probOf_eq (M : IndMat) (d : List ℕ) (avg : ℕ → XF ℚ)
    (h : ∀ j < M.nCols, avg j = .fin (seqUniq M d j)) : probOf M.nCols avg = seqProb M d := by
  unfold probOf seqProb
  have h1 : (List.range M.nCols).map avg = (List.range M.nCols).map fun j => XF.fin (seqUniq M d j) :=
    List.map_congr_left fun j hj => h j (List.mem_range.1 hj)
  simp only
  rw [h1, XF.sum_map_fin, list_sum_range]
  apply List.map_congr_left
  intro j hj
  have hj' := List.mem_range.1 hj
  rw [h j hj', XF.div_fin _ _ (sum_seqUniq_pos M d (by omega)).ne']

theorem choiceValid_seqProb (M : IndMat) (d : List ℕ) :
    choiceValid (seqProb M d) = decide (0 < M.nCols) := by
  by_cases h : 0 < M.nCols
  · rw [decide_eq_true h]
    have hs := sum_seqUniq_pos M d h
    unfold choiceValid
    simp only [Bool.and_eq_true, decide_eq_true_eq, List.all_eq_true]
    refine ⟨⟨?_, ?_⟩, ?_⟩
    · intro he
      have := congrArg List.length he
      simp [seqProb] at this
      omega
    · intro x hx
      obtain ⟨j, _, rfl⟩ := List.mem_map.1 hx
      rw [XF.le_fin, decide_eq_true_eq]
      exact (div_pos (seqUniq_pos M d j) hs).le
    · unfold seqProb
      rw [XF.sum_map_fin, list_sum_range, ← Finset.sum_div, div_self hs.ne', XF.beq_fin]
      simp
  · have h0 : M.nCols = 0 := by omega
    simp [seqProb, choiceValid, h0]

theorem drawnAt_append (M : IndMat) (a b : List ℕ) (t : ℕ) :
    drawnAt M (a ++ b) t = drawnAt M a t + drawnAt M b t := by
  simp [drawnAt, List.filter_append]

theorem seqUniq_congr (M : IndMat) (a b : List ℕ) (j : ℕ)
    (h : ∀ t ∈ barsOf M j, drawnAt M a t = drawnAt M b t) : seqUniq M a j = seqUniq M b j := by
  unfold seqUniq
  split
  · rfl
  · congr 1
    exact Finset.sum_congr rfl fun t ht => by rw [h t ht]

/-- Invariant between iterations: cached values belong to `base`, the samples drawn since are `new` and
exactly their rows are recorded as impacted. -/
structure Inv (M : IndMat) (base new : List ℕ) (s : BState) : Prop where
  boot : s.boot = base ++ new
  rows : ∀ t, t ∈ s.rows ↔ ∃ j ∈ new, t ∈ colRows M j
  avg : ∀ j < M.nCols, s.avg j = .fin (seqUniq M base j)
  prob : s.prob = seqProb M base

theorem inv_init (M : IndMat) : Inv M [] [] (initState M) := by
  have h : ∀ j < M.nCols, (initState M).avg j = .fin (seqUniq M [] j) := by
    intro j _
    unfold initState seqUniq
    simp only [drawnAt, List.filter_nil, List.length_nil, Nat.cast_zero, add_zero]
    split
    · rfl
    · rename_i hc
      have : ((barsOf M j).card : ℚ) ≠ 0 := by exact_mod_cast hc
      simp [div_self this]
  exact ⟨rfl, by simp [initState], h, probOf_eq M [] _ h⟩

theorem mem_colRows {M : IndMat} {t j : ℕ} : t ∈ colRows M j ↔ t < M.nRows ∧ M.ent t j = true := by
  simp [colRows]

theorem drawnAt_eq_zero {M : IndMat} {new : List ℕ} {t : ℕ} (ht : t < M.nRows)
    (h : ¬ ∃ j ∈ new, t ∈ colRows M j) : drawnAt M new t = 0 := by
  unfold drawnAt
  rw [List.length_eq_zero_iff, List.filter_eq_nil_iff]
  intro i hi hent
  exact h ⟨i, hi, mem_colRows.2 ⟨ht, hent⟩⟩

theorem inv_refresh (M : IndMat) (base new : List ℕ) (s : BState) (h : Inv M base new s) :
    Inv M s.boot [] (refresh M s) ∧ (refresh M s).boot = s.boot := by
  have hkeep : ∀ j, (∀ t ∈ barsOf M j, t ∉ s.rows) → seqUniq M base j = seqUniq M s.boot j := by
    intro j hj
    apply seqUniq_congr
    intro t ht
    have ht' := Finset.mem_filter.1 ht
    rw [h.boot, drawnAt_append, drawnAt_eq_zero (Finset.mem_range.1 ht'.1)
      (fun hex => hj t ht ((h.rows t).2 hex))]
    rfl
  unfold refresh
  split
  · rename_i hr
    refine ⟨?_, rfl⟩
    have havg : ∀ j < M.nCols,
        (if j ∈ npUnique ((npUnique s.rows).flatMap fun t => (List.range M.nCols).filter fun j => M.ent t j)
          then updateAvgUnique M s.boot j else s.avg j) = .fin (seqUniq M s.boot j) := by
      intro j hj
      split
      · rename_i hm
        rw [mem_npUnique, List.mem_flatMap] at hm
        obtain ⟨t, ht, hm⟩ := hm
        have hm := List.mem_filter.1 hm
        rw [mem_npUnique] at ht
        obtain ⟨i, _, hi⟩ := (h.rows t).1 ht
        have htb : t ∈ barsOf M j := by
          rw [barsOf, Finset.mem_filter, Finset.mem_range]
          exact ⟨(mem_colRows.1 hi).1, by simpa using hm.2⟩
        exact updateAvgUnique_eq M s.boot j (Finset.card_pos.2 ⟨t, htb⟩).ne'
      · rename_i hm
        rw [h.avg j hj, hkeep j]
        intro t ht hts
        apply hm
        rw [mem_npUnique, List.mem_flatMap]
        refine ⟨t, mem_npUnique.2 hts, List.mem_filter.2 ⟨List.mem_range.2 hj, ?_⟩⟩
        simpa using (Finset.mem_filter.1 ht).2
    exact ⟨by simp, by simp, havg, probOf_eq M s.boot _ havg⟩
  · rename_i hr
    have hr' : s.rows = [] := by
      rw [← List.length_eq_zero_iff]; omega
    have hk : ∀ j, seqUniq M base j = seqUniq M s.boot j := fun j => hkeep j (by simp [hr'])
    refine ⟨⟨by simp, by simp [hr'], fun j hj => by rw [h.avg j hj, hk], ?_⟩, rfl⟩
    rw [h.prob]
    unfold seqProb
    simp only [hk]

theorem inv_draw (M : IndMat) (s : BState) (c : List ℕ) (h : Inv M s.boot [] s) :
    Inv M s.boot c { s with
      boot := s.boot ++ c
      rows := s.rows ++ c.flatMap (fun j => colRows M j) } := by
  refine ⟨rfl, ?_, h.avg, h.prob⟩
  intro t
  have hs : t ∉ s.rows := by
    intro ht
    obtain ⟨j, hj, _⟩ := (h.rows t).1 ht
    simp at hj
  simp [hs]

/-- What the loop returns from a state satisfying the invariant. -/
theorem bootLoop_spec (M : IndMat) (rng : ℕ → List (XF ℚ) → ℕ → List ℕ) (len k : ℤ) :
    ∀ (fuel i : ℕ) (base new : List ℕ) (s : BState), Inv M base new s →
      (M.nCols = 0 → 0 < fuel → bootLoop M rng len k fuel i s = .error .valueError) ∧
      (0 < M.nCols ∨ fuel = 0 → ∃ tr, bootLoop M rng len k fuel i s = .ok tr ∧ tr.length = fuel ∧
        ∀ n (hn : n < tr.length),
          (tr[n]).1 = seqProb M (s.boot ++ ((tr.take n).map (·.2)).flatten) ∧
          (tr[n]).2 = rng (i + n) (tr[n]).1 (min (len - (i + n : ℕ) * k) k).toNat) := by
  intro fuel
  induction fuel with
  | zero =>
    intro i base new s _
    exact ⟨fun _ h => absurd h (lt_irrefl 0), fun _ => ⟨[], rfl, rfl, by simp⟩⟩
  | succ fuel ih =>
    intro i base new s hinv
    obtain ⟨hr, hboot⟩ := inv_refresh M base new s hinv
    have hprob : (refresh M s).prob = seqProb M s.boot := hr.prob
    constructor
    · intro h0 _
      rw [bootLoop]
      simp only
      rw [hprob, choiceValid_seqProb]
      simp [h0]
    · intro hpos
      have hpos : 0 < M.nCols := by rcases hpos with h | h; exact h; omega
      rw [bootLoop]
      simp only
      rw [hprob, choiceValid_seqProb, decide_eq_true hpos, if_pos rfl]
      set c := rng i (seqProb M s.boot) (min (len - i * k) k).toNat with hc
      rw [← hboot] at hr
      have hd := inv_draw M (refresh M s) c hr
      obtain ⟨tr, h1, h2, h3⟩ := (ih (i + 1) _ _ _ hd).2 (Or.inl hpos)
      rw [hprob] at h1
      rw [h1]
      refine ⟨_, rfl, by simp [h2], ?_⟩
      intro n hn
      cases n with
      | zero => simp [hc]
      | succ n =>
        have hn' : n < tr.length := by simpa using hn
        obtain ⟨a, b⟩ := h3 n hn'
        simp only [List.getElem_cons_succ, List.take_succ_cons, List.map_cons, List.flatten_cons]
        constructor
        · rw [a]
          simp [hboot]
        · rw [show i + (n + 1) = i + 1 + n by omega]
          exact b

theorem ceil_bounds (len k : ℤ) (hk : 0 < k) :
    len ≤ ((⌈(len : ℚ) / (k : ℚ)⌉).toNat : ℤ) * k ∧
    ((⌈(len : ℚ) / (k : ℚ)⌉).toNat = 0 ∨ (((⌈(len : ℚ) / (k : ℚ)⌉).toNat : ℤ) - 1) * k < len) := by
  have hkq : (0 : ℚ) < (k : ℚ) := by exact_mod_cast hk
  set c := ⌈(len : ℚ) / (k : ℚ)⌉ with hc
  have h1 : (len : ℚ) / k ≤ c := Int.le_ceil _
  have h2 : (c : ℚ) < (len : ℚ) / k + 1 := Int.ceil_lt_add_one _
  have h1' : len ≤ c * k := by
    rw [div_le_iff₀ hkq] at h1; exact_mod_cast h1
  have h2' : (c - 1) * k < len := by
    have : ((c : ℚ) - 1) < len / k := by linarith
    rw [lt_div_iff₀ hkq] at this
    exact_mod_cast this
  rcases lt_or_ge 0 c with hc0 | hc0
  · rw [Int.toNat_of_nonneg hc0.le]
    exact ⟨h1', Or.inr h2'⟩
  · rw [Int.toNat_eq_zero.2 hc0]
    refine ⟨?_, Or.inl rfl⟩
    have : c * k ≤ 0 := mul_nonpos_of_nonpos_of_nonneg hc0 hk.le
    simp; omega

/-- The batch sizes add up to the requested length. -/
theorem batch_total (len k : ℤ) (hk : 0 < k) : ∀ (fuel i : ℕ),
    len - i * k ≤ fuel * k → (fuel = 0 ∨ ((fuel : ℤ) - 1) * k < len - i * k) →
    ((List.range' i fuel).map fun n => (min (len - (n : ℕ) * k) k).toNat).sum = (len - i * k).toNat := by
  intro fuel
  induction fuel with
  | zero =>
    intro i h _
    simp only [Nat.cast_zero, zero_mul] at h
    simp [Int.toNat_eq_zero.2 h]
  | succ fuel ih =>
    intro i h1 h2
    have h2 : ((fuel : ℤ)) * k < len - i * k := by
      rcases h2 with h | h
      · omega
      · simpa using h
    rw [List.range'_succ, List.map_cons, List.sum_cons]
    push_cast at h1
    rw [ih (i + 1) (by push_cast; linarith) (by
      rcases Nat.eq_zero_or_pos fuel with h | h
      · exact Or.inl h
      · right; push_cast; linarith)]
    push_cast
    rcases Nat.eq_zero_or_pos fuel with rfl | hf
    · simp at h1 h2
      have hmin : min (len - i * k) k = len - i * k := min_eq_left (by linarith)
      rw [hmin]
      have : len - (i + 1) * k ≤ 0 := by linarith
      rw [Int.toNat_eq_zero.2 this, add_zero]
    · have hk1 : k ≤ len - i * k := by
        have : (1 : ℤ) ≤ fuel := by exact_mod_cast hf
        nlinarith
      rw [min_eq_right hk1]
      have : len - (i + 1) * k = (len - i * k) - k := by ring
      rw [this]
      omega

end Mizar.Boot
