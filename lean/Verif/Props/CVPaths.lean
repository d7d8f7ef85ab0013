import Verif.Lemmas.CVPaths
import Verif.Props.CV

/-!
Property theorems C10 about `combinatorial_cross_validation_paths`
(`/repo/mizarlabs/model/model_selection.py`, lines 372-451).
-/

namespace Mizar.Props
open Mizar.Spec Mizar.CV

theorem combinatorialPaths_unfold (n g k : ℕ) (p : Params) (hg : 1 ≤ g) (h : g ≤ n)
    (hpg : p.nGroups = g) (hpk : p.nTest = k) (shuf : ℕ → ℕ → List Block → List Block) :
    combinatorialPaths n p shuf =
      (computeBackTestPaths p.nSplits p.nTest >>= fun m =>
        buildPaths shuf m.toNat 0
          (collectBlocks (combinations k (boundsFrom 0 (sizes n g))).reverse)) := by
  simp only [combinatorialPaths, hpg, hpk, Int.toNat_natCast, testFoldBounds_ok n g k hg h]
  rfl

/-- C10 (soundness of whatever is returned): for every cross-validator, whatever the shuffles do, if
`combinatorial_cross_validation_paths` returns, then every path contains exactly one block per fold
(the block starts are a permutation of the fold starts, and each block carries the bounds of its
fold), no block is used twice over all paths, and every block was predicted in a round that has its
fold in the test set. -/
theorem C10_paths_sound (n g k : ℕ) (emb : ℤ) (nSplits : ℤ) (hg : 1 ≤ g) (h : g ≤ n) (hk : 1 ≤ k)
    (hkg : k ≤ g) (shuf : ℕ → ℕ → List Block → List Block) (hsh : ∀ i j l, (shuf i j l).Perm l)
    (paths : List (List Block))
    (hok : combinatorialPaths n ⟨g, k, nSplits, emb⟩ shuf = .ok paths) :
    ∃ fb sel, foldBounds n g = .ok fb ∧ testFoldBounds n g k = .ok sel ∧
      (∀ p ∈ paths, (p.map (·.bound)).Perm fb) ∧
      paths.flatten.Nodup ∧
      (∀ p ∈ paths, ∀ b ∈ p, ∃ s, sel[b.roundIdx]? = some s ∧ b.bound ∈ s) := by
  rw [combinatorialPaths_unfold n g k _ hg h rfl rfl] at hok
  obtain ⟨f1, f2, f3, f4, f5⟩ := collect_facts n g k hg h hk hkg
  refine ⟨_, _, foldBounds_eq n g hg h, testFoldBounds_ok n g k hg h, ?_⟩
  cases hm : computeBackTestPaths nSplits k with
  | error e => simp only [hm, bind, Except.bind] at hok; cases hok
  | ok m =>
    simp only [hm, bind, Except.bind] at hok
    rcases Nat.lt_or_ge ((g - 1).choose (k - 1)) m.toNat with hlt | hle
    · rw [buildPaths_error shuf hsh m.toNat 0 _ _ hlt (collect_ne_nil n g k hg h hk hkg) f1 f2] at hok
      cases hok
    · obtain ⟨ps, h1, h2, h3, h4⟩ := buildPaths_ok shuf hsh m.toNat 0 _ _ hle f1 f2
      rw [h1] at hok
      cases hok
      have hmem : ∀ p ∈ paths, ∀ b ∈ p, b ∈ contents
          (collectBlocks (combinations k (boundsFrom 0 (sizes n g))).reverse) := by
        intro p hp b hb
        exact h4.subset (List.mem_flatten.2 ⟨p, hp, hb⟩)
      have hround : ∀ p ∈ paths, ∀ b ∈ p, ∃ s,
          (combinations k (boundsFrom 0 (sizes n g))).reverse[b.roundIdx]? = some s ∧ b.bound ∈ s :=
        fun p hp b hb => f5 b (hmem p hp b hb)
      refine ⟨?_, ?_, hround⟩
      · intro p hp
        have hf := foldsOK_sizes n g hg h
        have hstart : ∀ b ∈ boundsFrom 0 (sizes n g), ∀ c ∈ boundsFrom 0 (sizes n g),
            b.1 = c.1 → b = c := by
          intro b hb c hc e
          by_contra hne
          have h1 := hf.range b hb
          have h2 := hf.range c hc
          rcases pairwise_or hf.pair hb hc hne with h | h <;> omega
        have hin : ∀ b ∈ p, b.bound ∈ boundsFrom 0 (sizes n g) := by
          intro b hb
          obtain ⟨s, hs, hbs⟩ := hround p hp b hb
          exact (mem_combinations.1 (List.mem_reverse.1 (List.mem_of_getElem? hs))).1.subset hbs
        have hperm : ((p.map (·.bound)).map (·.1)).Perm ((boundsFrom 0 (sizes n g)).map (·.1)) := by
          rw [List.map_map]
          have := h3 p hp
          have e : p.map ((·.1) ∘ (·.bound)) = p.map (·.bound.1) := rfl
          rw [e, this]; exact f3
        have hnd1 : ((boundsFrom 0 (sizes n g)).map (·.1)).Nodup :=
          (List.nodup_map_iff_inj_on hf.nodup).2 (fun b hb c hc e => hstart b hb c hc e)
        have hnd2 : (p.map (·.bound)).Nodup := (hperm.nodup_iff.2 hnd1).of_map _
        rw [List.perm_ext_iff_of_nodup hnd2 hf.nodup]
        intro x
        constructor
        · intro hx
          obtain ⟨b, hb, rfl⟩ := List.mem_map.1 hx
          exact hin b hb
        · intro hx
          have : x.1 ∈ (p.map (·.bound)).map (·.1) :=
            hperm.symm.subset (List.mem_map_of_mem hx)
          obtain ⟨y, hy, hyx⟩ := List.mem_map.1 this
          obtain ⟨b, hb, rfl⟩ := List.mem_map.1 hy
          rwa [← hstart b.bound (hin b hb) x hx hyx]
      · obtain ⟨l, hl, hsub⟩ := h4
        exact hl.nodup_iff.1 (f4.sublist hsub)

/-- C10 (the cases that work): with one test fold, or with all folds but one, the function returns
the documented number `C(g-1, k-1)` of paths, whatever the shuffles do. -/
theorem C10_path_count_partial (n g k : ℕ) (emb : ℤ) (h : g ≤ n) (hk : 1 ≤ k) (hkg : k < g)
    (hcase : k = 1 ∨ k = g - 1) (hg53 : g ≤ 2 ^ 53)
    (shuf : ℕ → ℕ → List Block → List Block) (hsh : ∀ i j l, (shuf i j l).Perm l) :
    ∃ paths, combinatorialPaths n ⟨g, k, g.choose k, emb⟩ shuf = .ok paths ∧
      paths.length = (g - 1).choose (k - 1) := by
  have hg : 1 ≤ g := by omega
  rw [combinatorialPaths_unfold n g k _ hg h rfl rfl]
  obtain ⟨f1, f2, f3, f4, f5⟩ := collect_facts n g k hg h hk hkg.le
  have hch : g.choose k = g := by
    rcases hcase with rfl | rfl
    · simp
    · rw [Nat.choose_symm_of_eq_add (by omega : g = (g - 1) + 1)]; simp
  have hval : (g - 1).choose (k - 1) ≤ 2 ^ 53 := by
    rcases hcase with rfl | rfl
    · simp
    · rw [Nat.choose_symm_of_eq_add (by omega : g - 1 = (g - 1 - 1) + 1)]
      simp; omega
  have hcomp := C09_back_test_paths g k hk hkg.le hval
  simp only [hch, hcomp, bind, Except.bind, Int.toNat_natCast]
  obtain ⟨ps, h1, h2, _, _⟩ := buildPaths_ok shuf hsh ((g - 1).choose (k - 1)) 0 _ _ (le_refl _) f1 f2
  exact ⟨ps, h1, h2⟩

/-- C10 as documented is false: for every number `k` of test folds with `2 ≤ k ≤ g - 2` the function
raises `IndexError` on every dataset, whatever the shuffles do, because the number of paths is
computed from the number of splits instead of the number of groups and the block lists run empty. -/
theorem C10_paths_refuted (n g k : ℕ) (emb : ℤ) (h : g ≤ n) (hk : 2 ≤ k) (hkg : k ≤ g - 2)
    (hrep : (g.choose k - 1).choose (k - 1) ≤ 2 ^ 53)
    (shuf : ℕ → ℕ → List Block → List Block) (hsh : ∀ i j l, (shuf i j l).Perm l) :
    combinatorialPaths n ⟨g, k, g.choose k, emb⟩ shuf = .error .indexError := by
  have hg : 1 ≤ g := by omega
  rw [combinatorialPaths_unfold n g k _ hg h rfl rfl]
  obtain ⟨f1, f2, f3, f4, f5⟩ := collect_facts n g k hg h (by omega) (by omega)
  have hgt : g < g.choose k := self_lt_choose hk (by omega)
  have hcomp := C09_back_test_paths (g.choose k) k (by omega) (by omega) hrep
  simp only [hcomp, bind, Except.bind, Int.toNat_natCast]
  refine buildPaths_error shuf hsh _ 0 _ _ ?_ (collect_ne_nil n g k hg h (by omega) (by omega)) f1 f2
  calc (g - 1).choose (k - 1) < (g - 1 + 1).choose (k - 1) := by
        obtain ⟨j, hj⟩ : ∃ j, k - 1 = j + 1 := ⟨k - 2, by omega⟩
        rw [hj, Nat.choose_succ_succ]
        have : 0 < (g - 1).choose j := Nat.choose_pos (by omega)
        simp only [Nat.succ_eq_add_one]; omega
    _ ≤ (g.choose k - 1).choose (k - 1) := Nat.choose_le_choose _ (by omega)

/-- Concrete failing case: 4 samples in 4 groups, 2 test folds. -/
example : combinatorialPaths 4 ⟨4, 2, 6, 0⟩ (fun _ _ l => l) = .error .indexError := by decide +kernel
example : (4 : ℕ) ≤ 4 ∧ (Nat.choose 4 2 - 1).choose (2 - 1) ≤ 2 ^ 53 := by decide

/-- Concrete working case: 3 groups, 2 test folds give 2 paths. -/
example : (combinatorialPaths 6 ⟨3, 2, 3, 0⟩ (fun _ _ l => l.reverse)).toOption.map (·.length) = some 2 := by
  decide +kernel

end Mizar.Props
