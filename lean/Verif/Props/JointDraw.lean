import Mathlib.Data.List.GetD
import Mathlib.MeasureTheory.Constructions.Pi
import Verif.Props.BagRandom

/-!
C111: the joint distribution of the samples drawn by the sequential bootstrap and what it is good for
(`/repo/mizarlabs/model/bootstrapping.py` lines 139-195).
-/

namespace Mizar.Spec
open Mizar.Boot

/-- Probability that a draw selects sample `j` after the samples `drawn`: its average uniqueness over the sum for all samples. -/
def drawProb (M : IndMat) (drawn : List ℕ) (j : ℕ) : ℚ :=
  seqUniq M drawn j / ∑ i ∈ Finset.range M.nCols, seqUniq M drawn i

end Mizar.Spec

namespace Mizar.Props
open Mizar.Spec Mizar.Bag Mizar.Boot

/-- A rational ideal float as a real one. -/
def realXF : XF ℚ → XF ℝ
  | .nan => .nan
  | .ninf => .ninf
  | .pinf => .pinf
  | .fin x => .fin (x : ℝ)

/-- The calls of `random_state.choice` in batches of `k` on the sequence `u` of uniform numbers. -/
noncomputable def uniformDraws (k : ℕ) (u : ℕ → ℝ) (i : ℕ) (p : List (XF ℚ)) (m : ℕ) : List ℕ :=
  (List.range m).map fun j => choiceDraw (p.map realXF) (u (i * k + j))

theorem flatten_take_length {N k : ℕ} {L : List (List ℕ)} (h : ∀ n (hn : n < L.length), L[n].length = min (N - n * k) k) :
    ∀ n, n ≤ L.length → (L.take n).flatten.length = min N (n * k) := by
  intro n
  induction n with
  | zero => intro _; simp
  | succ n ih =>
    intro hn
    rw [List.take_add_one, List.getElem?_eq_getElem (by omega), Option.toList_some, List.flatten_append, List.length_append,
      ih (by omega), List.flatten_singleton, h n (by omega), Nat.succ_mul]
    omega

theorem flatten_chunks {N k : ℕ} (hk : 1 ≤ k) {L : List (List ℕ)} (h : ∀ n (hn : n < L.length), L[n].length = min (N - n * k) k)
    (hN : N ≤ L.length * k) :
    L.flatten.length = N ∧ ∀ i, i < N → ∃ hn : i / k < L.length, (L.take (i / k)).flatten = L.flatten.take (i / k * k) ∧
      i % k < L[i / k].length ∧ L.flatten[i]? = L[i / k][i % k]? := by
  constructor
  · have := flatten_take_length h L.length le_rfl
    rw [List.take_length] at this
    omega
  · intro i hi
    have hd := Nat.div_add_mod i k
    rw [Nat.mul_comm] at hd
    have hm := Nat.mod_lt i (by omega : 0 < k)
    have hn : i / k < L.length := by
      by_contra hc
      have := Nat.mul_le_mul_right k (not_lt.1 hc)
      omega
    have hl := flatten_take_length h (i / k) hn.le
    have hl' : (L.take (i / k)).flatten.length = i / k * k := by omega
    have hsplit : L.flatten = (L.take (i / k)).flatten ++ (L[i / k] ++ (L.drop (i / k + 1)).flatten) := by
      rw [← List.flatten_cons, ← List.drop_eq_getElem_cons hn, ← List.flatten_append, List.take_append_drop]
    have hr : i % k < L[i / k].length := by rw [h _ hn]; omega
    refine ⟨hn, ?_, hr, ?_⟩
    · rw [hsplit, ← hl', List.take_left]
    · rw [hsplit, List.getElem?_append_right (by omega), hl', show i - i / k * k = i % k by omega,
        List.getElem?_append_left hr]

/-- The run of `seq_bootstrap` on uniform numbers, draw by draw. -/
theorem uniform_run (M : IndMat) (hM : 0 < M.nCols) (N k : ℕ) (hk : 1 ≤ k) (u : ℕ → ℝ) :
    ∃ l, seqBootstrap M (uniformDraws k u) (some N) k = .ok l ∧ l.length = N ∧
      ∀ i, i < N → l[i]? = some (choiceDraw ((seqProb M (l.take (i / k * k))).map realXF) (u i)) := by
  unfold seqBootstrap seqBootstrapTrace
  simp only [Option.getD_some]
  rw [if_neg (by omega), if_neg (by omega)]
  obtain ⟨tr, h1, h2, h3⟩ := (bootLoop_spec M (uniformDraws k u) N k (⌈((N : ℤ) : ℚ) / ((k : ℤ) : ℚ)⌉).toNat 0 [] []
    (initState M) (inv_init M)).2 (Or.inl hM)
  rw [h1]
  have hb : (initState M).boot = [] := rfl
  simp only [hb, List.nil_append, Nat.zero_add] at h3
  obtain ⟨c1, -⟩ := ceil_bounds (N : ℤ) k (by omega)
  rw [← h2] at c1
  have hlen : ∀ n (hn : n < (tr.map (·.2)).length), ((tr.map (·.2))[n]'hn : List ℕ).length = min (N - n * k) k := by
    intro n hn
    have hn' : n < tr.length := by simpa using hn
    rw [List.getElem_map, (h3 n hn').2, uniformDraws, List.length_map, List.length_range]
    push_cast
    have e : ((n * k : ℕ) : ℤ) = (n : ℤ) * k := by push_cast; rfl
    rw [← e]
    generalize n * k = z
    omega
  have hN : N ≤ (tr.map (·.2)).length * k := by
    rw [List.length_map]
    exact_mod_cast c1
  obtain ⟨f1, f2⟩ := flatten_chunks hk hlen hN
  refine ⟨_, rfl, f1, ?_⟩
  intro i hi
  obtain ⟨hn, g1, g2, g3⟩ := f2 i hi
  have hn' : i / k < tr.length := by simpa using hn
  have hd := Nat.div_add_mod i k
  rw [Nat.mul_comm] at hd
  rw [g3, ← g1]
  have e2 : (tr.map (·.2))[i / k] = tr[i / k].2 := by rw [List.getElem_map]
  rw [e2] at g2 ⊢
  have e3 := (h3 _ hn').2
  have e4 := (h3 _ hn').1
  rw [e3] at g2 ⊢
  rw [uniformDraws] at g2 ⊢
  rw [List.getElem?_map, List.getElem?_range (by simpa using g2), Option.map_some, hd, e4, List.map_take]

theorem uniform_run_iff (M : IndMat) (hM : 0 < M.nCols) (N k : ℕ) (hk : 1 ≤ k) (u : ℕ → ℝ) (l : List ℕ) (hl : l.length = N) :
    seqBootstrap M (uniformDraws k u) (some N) k = .ok l ↔
      ∀ i, i < N → choiceDraw ((seqProb M (l.take (i / k * k))).map realXF) (u i) = l.getD i 0 := by
  obtain ⟨l', h1, h2, h3⟩ := uniform_run M hM N k hk u
  rw [h1]
  constructor
  · intro h i hi
    cases h
    rw [List.getD_eq_getElem?_getD, h3 i hi, Option.getD_some]
  · intro h
    have key : ∀ n, n ≤ N → l'.take n = l.take n := by
      intro n
      induction n using Nat.strong_induction_on with
      | _ n ih =>
        intro hn
        cases n with
        | zero => simp
        | succ n =>
          rw [List.take_add_one, List.take_add_one, ih n (by omega) (by omega), h3 n (by omega)]
          have hle := Nat.div_mul_le_self n k
          rw [ih (n / k * k) (by omega) (by omega), h n (by omega), List.getD_eq_getElem _ _ (by omega),
            List.getElem?_eq_getElem (by omega)]
    have := key N le_rfl
    rw [List.take_of_length_le (by omega), List.take_of_length_le (by omega)] at this
    rw [this]

theorem drawProb_pos (M : IndMat) (hM : 0 < M.nCols) (d : List ℕ) (j : ℕ) : 0 < drawProb M d j :=
  div_pos (seqUniq_pos M d j) (sum_seqUniq_pos M d hM)

theorem drawProb_sum (M : IndMat) (hM : 0 < M.nCols) (d : List ℕ) : ∑ j ∈ Finset.range M.nCols, drawProb M d j = 1 := by
  unfold drawProb
  rw [← Finset.sum_div, div_self (sum_seqUniq_pos M d hM).ne']

theorem seqProb_real (M : IndMat) (d : List ℕ) :
    (seqProb M d).map realXF = (((List.range M.nCols).map fun j => (drawProb M d j : ℝ)).map .fin) := by
  simp [seqProb, drawProb, realXF]

/-- C111: with independent uniform numbers the sequential bootstrap returns the sequence `l` with the product of the
probabilities of its draws, where the probability of a draw is the average uniqueness of the sample given the samples drawn in
the batches before it, over the sum for all samples: the cube of uniform numbers that give `l` has this volume. -/
theorem C111_joint (M : IndMat) (hM : 0 < M.nCols) (N k : ℕ) (hk : 1 ≤ k) (l : List ℕ) (hl : l.length = N) (hr : ∀ x ∈ l, x < M.nCols) :
    MeasureTheory.volume {u : Fin N → ℝ | (∀ i, 0 ≤ u i ∧ u i < 1) ∧
        seqBootstrap M (uniformDraws k fun i => if h : i < N then u ⟨i, h⟩ else 0) (some N) k = .ok l} =
      ENNReal.ofReal ((∏ i ∈ Finset.range N, drawProb M (l.take (i / k * k)) (l.getD i 0) : ℚ) : ℝ) := by
  have hset : {u : Fin N → ℝ | (∀ i, 0 ≤ u i ∧ u i < 1) ∧
        seqBootstrap M (uniformDraws k fun i => if h : i < N then u ⟨i, h⟩ else 0) (some N) k = .ok l} =
      Set.pi Set.univ fun i : Fin N => {x : ℝ | (0 ≤ x ∧ x < 1) ∧
        choiceDraw (((List.range M.nCols).map fun j => (drawProb M (l.take (i / k * k)) j : ℝ)).map .fin) x = l.getD i 0} := by
    ext u
    simp only [Set.mem_setOf_eq, Set.mem_pi, Set.mem_univ, true_implies]
    rw [uniform_run_iff M hM N k hk _ l hl]
    constructor
    · rintro ⟨a, b⟩ i
      refine ⟨a i, ?_⟩
      have := b i i.2
      rw [dif_pos i.2, seqProb_real] at this
      exact this
    · intro h
      refine ⟨fun i => (h i).1, ?_⟩
      intro i hi
      rw [dif_pos hi, seqProb_real]
      exact (h ⟨i, hi⟩).2
  rw [hset, MeasureTheory.volume_pi_pi]
  have hcast : ((∏ i ∈ Finset.range N, drawProb M (l.take (i / k * k)) (l.getD i 0) : ℚ) : ℝ) =
      ∏ i ∈ Finset.range N, (drawProb M (l.take (i / k * k)) (l.getD i 0) : ℝ) := by push_cast; rfl
  rw [hcast, ENNReal.ofReal_prod_of_nonneg (fun i _ => by exact_mod_cast (drawProb_pos M hM _ _).le), Finset.prod_range]
  apply Finset.prod_congr rfl
  intro i _
  have hj : l.getD i 0 < M.nCols := by
    rw [List.getD_eq_getElem _ _ (by omega)]
    exact hr _ (List.getElem_mem _)
  have := C98_probability ((List.range M.nCols).map fun j => (drawProb M (l.take (i / k * k)) j : ℝ)) (by
    intro x hx
    obtain ⟨j, _, rfl⟩ := List.mem_map.1 hx
    exact_mod_cast (drawProb_pos M hM _ _).le) (by
    have h1 := drawProb_sum M hM (l.take (i / k * k))
    have h2 : ∑ j ∈ Finset.range M.nCols, (drawProb M (l.take (i / k * k)) j : ℝ) = 1 := by exact_mod_cast h1
    rw [← h2, ← List.sum_toFinset _ List.nodup_range, List.toFinset_range]) (l.getD i 0) (by simpa using hj)
  rw [this]
  congr 1
  rw [List.getD_eq_getElem _ _ (by simpa using hj), List.getElem_map, List.getElem_range]

/-- C111: this is what the sequential bootstrap is for. In every batch the expected average uniqueness of a draw is at least
that of a draw with equal probabilities, and larger if two samples differ in their average uniqueness. -/
theorem C111_expected (M : IndMat) (rng : ℕ → List (XF ℚ) → ℕ → List ℕ) (len : Option ℤ) (k : ℤ) (hM : 0 < M.nCols)
    (tr : List (List (XF ℚ) × List ℕ)) (h : seqBootstrapTrace M rng len k = .ok tr) (n : ℕ) (hn : n < tr.length) :
    ∃ q : ℕ → ℚ, tr[n].1 = (List.range M.nCols).map (fun j => XF.fin (q j)) ∧
      (∑ j ∈ Finset.range M.nCols, seqUniq M ((tr.take n).map (·.2)).flatten j) / M.nCols ≤
        ∑ j ∈ Finset.range M.nCols, q j * seqUniq M ((tr.take n).map (·.2)).flatten j ∧
      ((∃ i < M.nCols, ∃ j < M.nCols, seqUniq M ((tr.take n).map (·.2)).flatten i ≠ seqUniq M ((tr.take n).map (·.2)).flatten j) →
        (∑ j ∈ Finset.range M.nCols, seqUniq M ((tr.take n).map (·.2)).flatten j) / M.nCols <
          ∑ j ∈ Finset.range M.nCols, q j * seqUniq M ((tr.take n).map (·.2)).flatten j) := by
  obtain ⟨h1, h2⟩ := C15_incremental_equals_recomputed M rng len k tr h n hn
  obtain ⟨d, hd⟩ : ∃ d, d = ((tr.take n).map (·.2)).flatten := ⟨_, rfl⟩
  rw [← hd] at h2 ⊢
  refine ⟨fun j => drawProb M d j, ?_, ?_⟩
  · apply List.ext_getElem?
    intro j
    by_cases hj : j < M.nCols
    · rw [h2 j hj, List.getElem?_map, List.getElem?_range hj]
      rfl
    · rw [List.getElem?_eq_none (by omega), List.getElem?_eq_none (by simp; omega)]
  · have hS := sum_seqUniq_pos M d hM
    have hNq : (0 : ℚ) < M.nCols := by exact_mod_cast hM
    have e : ∑ j ∈ Finset.range M.nCols, drawProb M d j * seqUniq M d j =
        (∑ j ∈ Finset.range M.nCols, seqUniq M d j ^ 2) / ∑ j ∈ Finset.range M.nCols, seqUniq M d j := by
      rw [Finset.sum_div]
      apply Finset.sum_congr rfl
      intro j _
      unfold drawProb
      ring
    rw [e]
    have hvar : ∑ j ∈ Finset.range M.nCols, (M.nCols * seqUniq M d j - ∑ i ∈ Finset.range M.nCols, seqUniq M d i) ^ 2 =
        M.nCols * (M.nCols * (∑ j ∈ Finset.range M.nCols, seqUniq M d j ^ 2) - (∑ j ∈ Finset.range M.nCols, seqUniq M d j) ^ 2) := by
      generalize hs : ∑ i ∈ Finset.range M.nCols, seqUniq M d i = s
      have : ∀ j, (M.nCols * seqUniq M d j - s) ^ 2 = (M.nCols : ℚ) ^ 2 * seqUniq M d j ^ 2 - 2 * M.nCols * s * seqUniq M d j + s ^ 2 := by
        intro j; ring
      simp only [this]
      rw [Finset.sum_add_distrib, Finset.sum_sub_distrib, ← Finset.mul_sum, ← Finset.mul_sum, hs, Finset.sum_const,
        Finset.card_range, nsmul_eq_mul]
      ring
    constructor
    · rw [div_le_div_iff₀ hNq hS]
      have : 0 ≤ ∑ j ∈ Finset.range M.nCols, (M.nCols * seqUniq M d j - ∑ i ∈ Finset.range M.nCols, seqUniq M d i) ^ 2 :=
        Finset.sum_nonneg fun j _ => sq_nonneg _
      rw [hvar] at this
      have := nonneg_of_mul_nonneg_right this hNq
      nlinarith
    · rintro ⟨i, hi, j, hj, hne⟩
      rw [div_lt_div_iff₀ hNq hS]
      have : 0 < ∑ j ∈ Finset.range M.nCols, (M.nCols * seqUniq M d j - ∑ i ∈ Finset.range M.nCols, seqUniq M d i) ^ 2 := by
        apply lt_of_le_of_ne (Finset.sum_nonneg fun j _ => sq_nonneg _)
        intro h0
        rw [eq_comm, Finset.sum_eq_zero_iff_of_nonneg (fun j _ => sq_nonneg _)] at h0
        have a := h0 i (Finset.mem_range.2 hi)
        have b := h0 j (Finset.mem_range.2 hj)
        rw [sq_eq_zero_iff, sub_eq_zero] at a b
        exact hne (mul_left_cancel₀ hNq.ne' (a.trans b.symm))
      rw [hvar] at this
      have := (mul_pos_iff_of_pos_left hNq).1 this
      nlinarith

/-- C111: no sample is more likely than one that shares no bar with the samples drawn before, and every sample that shares a bar
with one of them is less likely. -/
theorem C111_fresh (M : IndMat) (rng : ℕ → List (XF ℚ) → ℕ → List ℕ) (len : Option ℤ) (k : ℤ) (hM : 0 < M.nCols)
    (tr : List (List (XF ℚ) × List ℕ)) (h : seqBootstrapTrace M rng len k = .ok tr) (n : ℕ) (hn : n < tr.length) (j : ℕ) (hj : j < M.nCols)
    (hfresh : ∀ i ∈ ((tr.take n).map (·.2)).flatten, ∀ t < M.nRows, ¬ (M.ent t i = true ∧ M.ent t j = true)) :
    ∃ q : ℕ → ℚ, tr[n].1 = (List.range M.nCols).map (fun j => XF.fin (q j)) ∧ ∀ m < M.nCols, q m ≤ q j ∧
      ((∃ i ∈ ((tr.take n).map (·.2)).flatten, ∃ t < M.nRows, M.ent t i = true ∧ M.ent t m = true) → q m < q j) := by
  obtain ⟨h1, h2⟩ := C15_incremental_equals_recomputed M rng len k tr h n hn
  obtain ⟨d, hd⟩ : ∃ d, d = ((tr.take n).map (·.2)).flatten := ⟨_, rfl⟩
  rw [← hd] at h2 hfresh ⊢
  have hS := sum_seqUniq_pos M d hM
  have hone : seqUniq M d j = 1 := by
    unfold seqUniq
    split
    · rfl
    · rename_i hc
      have hz : ∀ t ∈ barsOf M j, (1 : ℚ) / (1 + (drawnAt M d t : ℚ)) = 1 := by
        intro t ht
        simp only [barsOf, Finset.mem_filter, Finset.mem_range] at ht
        have : drawnAt M d t = 0 := by
          unfold drawnAt
          rw [List.length_eq_zero_iff, List.filter_eq_nil_iff]
          intro i hi hti
          exact hfresh i hi t ht.1 ⟨hti, ht.2⟩
        rw [this]
        norm_num
      rw [Finset.sum_congr rfl hz, Finset.sum_const, nsmul_eq_mul, mul_one, div_self]
      exact_mod_cast hc
  refine ⟨fun j => drawProb M d j, ?_, ?_⟩
  · apply List.ext_getElem?
    intro j
    by_cases hj : j < M.nCols
    · rw [h2 j hj, List.getElem?_map, List.getElem?_range hj]
      rfl
    · rw [List.getElem?_eq_none (by omega), List.getElem?_eq_none (by simp; omega)]
  · intro m hm
    have hle : seqUniq M d m ≤ 1 ∧ ((∃ i ∈ d, ∃ t < M.nRows, M.ent t i = true ∧ M.ent t m = true) → seqUniq M d m < 1) := by
      by_cases hb : barsOf M m = ∅
      · have e : seqUniq M d m = 1 := by unfold seqUniq; rw [hb]; rfl
        refine ⟨e.le, ?_⟩
        rintro ⟨i, _, t, ht, _, htm⟩
        have : t ∈ barsOf M m := by simp [barsOf, ht, htm]
        rw [hb] at this
        cases this
      · have hc : (barsOf M m).card ≠ 0 := (Finset.card_pos.2 (Finset.nonempty_iff_ne_empty.2 hb)).ne'
        obtain ⟨u, v, e1, e2, _, e4, e5, e6⟩ := C18_uniqueness_decreases M [] d m hb
        rw [List.nil_append, updateAvgUnique_eq M d m hc] at e2
        cases e2
        refine ⟨e4.trans e5, fun hx => ?_⟩
        exact lt_of_lt_of_le (e6 hx) e5
    refine ⟨?_, fun hx => ?_⟩
    · unfold drawProb
      dsimp only
      rw [hone]
      exact div_le_div_of_nonneg_right hle.1 hS.le
    · unfold drawProb
      dsimp only
      rw [hone]
      exact div_lt_div_of_pos_right (hle.2 hx) hS

/-- Three samples on three bars, the first two overlap. -/
def jointMat : IndMat := .ofLists 3 [[true, true, false], [true, false, false], [false, false, true]]

/-- The probabilities of `[0, 2]` with an update after every draw and after every second draw, and the hypotheses of
`C111_expected` and `C111_fresh` after drawing sample 0. -/
example : 0 < jointMat.nCols ∧
    (∏ i ∈ Finset.range 2, drawProb jointMat ([0, 2].take (i / 1 * 1)) ([0, 2].getD i 0)) = 1 / 6 ∧
    (∏ i ∈ Finset.range 2, drawProb jointMat ([0, 2].take (i / 2 * 2)) ([0, 2].getD i 0)) = 1 / 9 ∧
    ((seqBootstrapTrace jointMat (fun _ _ m => List.replicate m 0) (some 2) 1).toOption.map (·.length)) = some 2 ∧
    seqUniq jointMat [0] 1 ≠ seqUniq jointMat [0] 2 ∧
    (∀ i ∈ [0], ∀ t < jointMat.nRows, ¬ (jointMat.ent t i = true ∧ jointMat.ent t 2 = true)) := by
  decide +kernel

end Mizar.Props
