import Verif.Lemmas.SeqBoot

/-!
Property theorems C15-C18: sequential bootstrap (`/repo/mizarlabs/model/bootstrapping.py` lines 98-195).
`rng i p m` stands for the samples returned by the `i`-th call of `random_state.choice(.., p=p, size=m)`.
-/

namespace Mizar.Props
open Mizar.Spec Mizar.Boot

/-- What is assumed of the random generator: it returns `m` column indices. -/
def ValidRng (nCols : ℕ) (rng : ℕ → List (XF ℚ) → ℕ → List ℕ) : Prop :=
  ∀ i p m, (rng i p m).length = m ∧ ∀ x ∈ rng i p m, x < nCols

/-- C15: in every run of `seq_bootstrap`, for every generator, batch `n` is drawn with probabilities
proportional to the textbook average uniqueness of each sample given *all* samples drawn in the
batches before, although the code only recomputes the samples touched by the last batch. -/
theorem C15_incremental_equals_recomputed (M : IndMat) (rng : ℕ → List (XF ℚ) → ℕ → List ℕ)
    (len : Option ℤ) (k : ℤ) (tr : List (List (XF ℚ) × List ℕ))
    (h : seqBootstrapTrace M rng len k = .ok tr) :
    ∀ n (hn : n < tr.length), (tr[n]).1.length = M.nCols ∧ ∀ j < M.nCols,
      (tr[n]).1[j]? = some (.fin
        (seqUniq M ((tr.take n).map (·.2)).flatten j /
          ∑ i ∈ Finset.range M.nCols, seqUniq M ((tr.take n).map (·.2)).flatten i)) := by
  unfold seqBootstrapTrace at h
  simp only at h
  split at h
  · cases h
  split at h
  · cases h
  · set fuel := (⌈((len.getD M.nCols : ℤ) : ℚ) / (k : ℚ)⌉).toNat with hf
    have hspec := bootLoop_spec M rng (len.getD M.nCols) k fuel 0 [] [] (initState M) (inv_init M)
    intro n hn
    by_cases h0 : 0 < M.nCols ∨ fuel = 0
    · obtain ⟨tr', h1, _, h3⟩ := hspec.2 h0
      rw [h] at h1
      cases h1
      rw [(h3 n hn).1]
      have hb : (initState M).boot = [] := rfl
      rw [hb, List.nil_append]
      refine ⟨by simp [seqProb], ?_⟩
      intro j hj
      simp [seqProb, hj]
    · push Not at h0
      rw [hspec.1 (by omega) (by omega)] at h
      cases h

/-- Three samples, the first two overlap: after drawing sample 0, sample 1 is less likely than 2. -/
example : (seqBootstrapTrace (.ofLists 3 [[true, true, false], [true, false, false], [false, false, true]])
    (fun _ _ m => List.replicate m 0) (some 2) 1).toOption =
    some [([.fin (1/3), .fin (1/3), .fin (1/3)], [0]), ([.fin (1/4), .fin (1/4), .fin (1/2)], [0])] := by
  decide +kernel

/-- C16: for every matrix with at least one sample, every generator, every requested length and every
positive batch size `seq_bootstrap` returns exactly the requested number of column indices (none for a
negative length). -/
theorem C16_length_and_range (M : IndMat) (hM : 0 < M.nCols) (rng : ℕ → List (XF ℚ) → ℕ → List ℕ)
    (hrng : ValidRng M.nCols rng) (len : Option ℤ) (k : ℤ) (hk : 1 ≤ k) :
    ∃ l, seqBootstrap M rng len k = .ok l ∧ l.length = (len.getD (M.nCols : ℤ)).toNat ∧
      ∀ x ∈ l, x < M.nCols := by
  unfold seqBootstrap seqBootstrapTrace
  simp only
  rw [if_neg (by omega), if_neg (by omega)]
  set L : ℤ := len.getD (M.nCols : ℤ) with hL
  obtain ⟨tr, h1, h2, h3⟩ := (bootLoop_spec M rng L k (⌈(L : ℚ) / (k : ℚ)⌉).toNat 0 [] []
    (initState M) (inv_init M)).2 (Or.inl hM)
  rw [h1]
  refine ⟨_, rfl, ?_, ?_⟩
  · obtain ⟨c1, c2⟩ := ceil_bounds L k (by omega)
    have ht := batch_total L k (by omega) (⌈(L : ℚ) / (k : ℚ)⌉).toNat 0 (by simpa using c1)
      (by simpa using c2)
    simp only [Nat.cast_zero, zero_mul, sub_zero] at ht
    rw [List.length_flatten, List.map_map, ← ht]
    congr 1
    apply List.ext_getElem
    · simp [h2]
    · intro n a b
      have hn : n < tr.length := by simpa using a
      simp only [List.getElem_map, Function.comp, List.getElem_range']
      rw [(h3 n hn).2, (hrng _ _ _).1]
      simp
  · intro x hx
    obtain ⟨l, hl, hx⟩ := List.mem_flatten.1 hx
    obtain ⟨p, hp, rfl⟩ := List.mem_map.1 hl
    obtain ⟨n, hn, rfl⟩ := List.getElem_of_mem hp
    rw [(h3 n hn).2] at hx
    exact (hrng _ _ _).2 x hx

example : ValidRng 3 (fun i _ m => List.replicate m (i % 3)) :=
  fun i p m => ⟨by simp, fun x hx => by
    rw [List.mem_replicate] at hx
    rw [hx.2]
    exact Nat.mod_lt _ (by norm_num)⟩

/-- C16, error branches: no samples to draw from raises `ValueError`, batch size zero raises
`ZeroDivisionError`, and a negative length with a negative batch size raises `ValueError` (the generator is asked for a
negative number of draws). -/
theorem C16_errors (M : IndMat) (rng : ℕ → List (XF ℚ) → ℕ → List ℕ) (len : Option ℤ) (k : ℤ) :
    (M.nCols = 0 → 1 ≤ k → ∀ L : ℤ, 1 ≤ L → seqBootstrap M rng (some L) k = .error .valueError) ∧
    seqBootstrap M rng len 0 = .error .zeroDivisionError ∧
    (∀ L : ℤ, L < 0 → k < 0 → seqBootstrap M rng (some L) k = .error .valueError) := by
  refine ⟨?_, ?_, ?_⟩
  · intro h0 hk L hL
    unfold seqBootstrap seqBootstrapTrace
    simp only [Option.getD_some]
    rw [if_neg (by omega), if_neg (by omega)]
    have hpos : 0 < (⌈(L : ℚ) / (k : ℚ)⌉).toNat := by
      rw [Int.lt_toNat]
      simp only [Nat.cast_zero]
      apply Int.ceil_pos.2
      have h1 : (0 : ℚ) < (L : ℚ) := by exact_mod_cast hL
      have h2 : (0 : ℚ) < (k : ℚ) := by exact_mod_cast hk
      positivity
    rw [(bootLoop_spec M rng L k _ 0 [] [] (initState M) (inv_init M)).1 h0 hpos]
    rfl
  · simp [seqBootstrap, seqBootstrapTrace, Except.map]
  · intro L hL hk
    unfold seqBootstrap seqBootstrapTrace
    simp only [Option.getD_some]
    rw [if_neg (by omega), if_pos ⟨hL, hk⟩]
    rfl

/-- C16: a negative batch size is not rejected; it silently returns no samples at all. -/
theorem C16_negative_batch_returns_nothing (M : IndMat) (rng : ℕ → List (XF ℚ) → ℕ → List ℕ) (L k : ℤ)
    (hL : 0 ≤ L) (hk : k < 0) : seqBootstrap M rng (some L) k = .ok [] := by
  unfold seqBootstrap seqBootstrapTrace
  simp only [Option.getD_some]
  rw [if_neg (by omega), if_neg (by omega)]
  have h0 : (⌈(L : ℚ) / (k : ℚ)⌉).toNat = 0 := by
    rw [Int.toNat_eq_zero]
    apply Int.ceil_le.2
    have h1 : (0 : ℚ) ≤ (L : ℚ) := by exact_mod_cast hL
    have h2 : (k : ℚ) < 0 := by exact_mod_cast hk
    simpa using div_nonpos_of_nonneg_of_nonpos h1 h2.le
  rw [h0]
  rfl

/-- C17: at every draw the probabilities are finite, strictly positive and add up to one; in particular
the generator never rejects them. -/
theorem C17_positive_distribution (M : IndMat) (rng : ℕ → List (XF ℚ) → ℕ → List ℕ)
    (len : Option ℤ) (k : ℤ) (hM : 0 < M.nCols) (hk : k ≠ 0) (hs : 0 < k ∨ 0 ≤ len.getD (M.nCols : ℤ)) :
    ∃ tr, seqBootstrapTrace M rng len k = .ok tr ∧
      ∀ b ∈ tr, ∃ q : List ℚ, b.1 = q.map .fin ∧ q.length = M.nCols ∧ (∀ x ∈ q, 0 < x) ∧ q.sum = 1 := by
  unfold seqBootstrapTrace
  simp only
  rw [if_neg hk, if_neg (by omega)]
  obtain ⟨tr, h1, h2, h3⟩ := (bootLoop_spec M rng (len.getD (M.nCols : ℤ)) k
    (⌈((len.getD (M.nCols : ℤ) : ℤ) : ℚ) / (k : ℚ)⌉).toNat 0 [] [] (initState M) (inv_init M)).2 (Or.inl hM)
  refine ⟨tr, h1, ?_⟩
  intro b hb
  obtain ⟨n, hn, rfl⟩ := List.getElem_of_mem hb
  rw [(h3 n hn).1]
  set d := (initState M).boot ++ ((tr.take n).map (·.2)).flatten
  have hs := sum_seqUniq_pos M d hM
  refine ⟨(List.range M.nCols).map fun j => seqUniq M d j / ∑ i ∈ Finset.range M.nCols, seqUniq M d i,
    by simp [seqProb], by simp, ?_, ?_⟩
  · intro x hx
    obtain ⟨j, _, rfl⟩ := List.mem_map.1 hx
    exact div_pos (seqUniq_pos M d j) hs
  · rw [list_sum_range, ← Finset.sum_div, div_self hs.ne']

example : 0 < (IndMat.ofLists 2 [[true, false], [true, true]]).nCols ∧ (2 : ℤ) ≠ 0 := by decide

/-- C18: with more samples drawn the average uniqueness of a sample (with at least one bar) never
increases, and it strictly decreases when one of the newly drawn samples shares a bar with it; it stays
in `(0, 1]`. -/
theorem C18_uniqueness_decreases (M : IndMat) (drawn new : List ℕ) (j : ℕ) (hb : barsOf M j ≠ ∅) :
    ∃ u v : ℚ, updateAvgUnique M drawn j = .fin u ∧ updateAvgUnique M (drawn ++ new) j = .fin v ∧
      0 < v ∧ v ≤ u ∧ u ≤ 1 ∧
      ((∃ i ∈ new, ∃ t < M.nRows, M.ent t i = true ∧ M.ent t j = true) → v < u) := by
  have hne := Finset.nonempty_iff_ne_empty.2 hb
  have hc : (barsOf M j).card ≠ 0 := (Finset.card_pos.2 hne).ne'
  have hcq : (0 : ℚ) < ((barsOf M j).card : ℚ) := by exact_mod_cast Nat.pos_of_ne_zero hc
  have hle : ∀ t, (1 : ℚ) / (1 + (drawnAt M (drawn ++ new) t : ℚ)) ≤ 1 / (1 + (drawnAt M drawn t : ℚ)) := by
    intro t
    apply one_div_le_one_div_of_le
    · positivity
    · rw [drawnAt_append]; push_cast; have : (0 : ℚ) ≤ (drawnAt M new t : ℚ) := by positivity
      linarith
  refine ⟨_, _, updateAvgUnique_eq M drawn j hc, updateAvgUnique_eq M (drawn ++ new) j hc,
    seqUniq_pos _ _ _, ?_, ?_, ?_⟩
  · unfold seqUniq
    rw [if_neg hc, if_neg hc]
    exact div_le_div_of_nonneg_right (Finset.sum_le_sum fun t _ => hle t) hcq.le
  · unfold seqUniq
    rw [if_neg hc, div_le_one hcq]
    calc _ ≤ ∑ t ∈ barsOf M j, (1 : ℚ) := by
          apply Finset.sum_le_sum
          intro t _
          rw [div_le_one (by positivity)]
          have : (0 : ℚ) ≤ (drawnAt M drawn t : ℚ) := by positivity
          linarith
      _ = _ := by simp
  · rintro ⟨i, hi, t, ht, hti, htj⟩
    unfold seqUniq
    rw [if_neg hc, if_neg hc]
    apply div_lt_div_of_pos_right _ hcq
    refine Finset.sum_lt_sum (fun t _ => hle t) ⟨t, by simp [barsOf, ht, htj], ?_⟩
    apply one_div_lt_one_div_of_lt
    · positivity
    · rw [drawnAt_append]
      have h1 : 0 < drawnAt M new t := by
        unfold drawnAt
        exact List.length_pos_of_mem (List.mem_filter.2 ⟨hi, hti⟩)
      have : (0 : ℚ) < (drawnAt M new t : ℚ) := by exact_mod_cast h1
      push_cast
      linarith

example : updateAvgUnique (.ofLists 2 [[true, false], [true, true]]) [1] 0 = .fin (3/4) ∧
    updateAvgUnique (.ofLists 2 [[true, false], [true, true]]) [1, 1] 0 = .fin (2/3) := by decide +kernel

end Mizar.Props
