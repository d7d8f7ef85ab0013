import Verif.Lemmas.SplitGen

/-!
Property theorems C130: several generators of `split` of one cross-validator at the same time
(`/repo/mizarlabs/model/model_selection.py`, lines 149-195).
-/

namespace Mizar.Props
open Mizar.Spec Mizar.CV

/-- C130: as long as every generator that is advanced is over the `m` rows of the time series, each of them gives exactly
the rounds of `split`, in order, and then `StopIteration`, in whatever order the generators are advanced. -/
theorem C130_interleaved (m g k : ℕ) (pred eval : ℕ → ℤ) (emb : ℤ) (hg : 1 ≤ g) (hk : 1 ≤ k)
    (rounds : List (List ℕ × List ℕ)) (hs : CV.split m g k pred eval emb = .ok rounds) (rows : ℕ → ℕ)
    (sched : List ℕ) (hrows : ∀ i ∈ sched, rows i = m) (i : ℕ) :
    GivesRounds rounds (outsOf i (runGens m g k pred eval emb (startGens rows) sched)) := by
  rcases Nat.lt_or_ge m g with hm | hm
  · rw [split_error m g k pred eval emb hm] at hs; cases hs
  rw [split_ok m g k pred eval emb hg hm] at hs
  cases hs
  by_cases hi : i ∈ sched
  · refine outs_notStarted_same hg hm hk sched _ i (by simp [startGens, hrows i hi]) ⟨?_, ?_⟩
    · intro j hj n hn
      simp only [startGens, Gen.notStarted.injEq] at hn
      rw [← hn, hrows j hj]
    · intro j rest h
      simp [startGens] at h
  · have : ∀ (sched : List ℕ) (s : GenState), i ∉ sched → outsOf i (runGens m g k pred eval emb s sched) = [] := by
      intro sched
      induction sched with
      | nil => intro s _; rfl
      | cons j sched ih =>
        intro s h
        rw [runGens, outsOf_cons_ne (by rintro rfl; simp at h)]
        exact ih _ (fun h' => h (by simp [h']))
    rw [this sched _ hi]
    exact givesRounds_nil

/-- C130: whatever the generators are over, and in whatever order they are advanced, a generator over the `m` rows of the
time series never gives a wrong round: it gives the rounds of `split` in order, and if it does not give all of them it is
because it was broken off by an `IndexError`. -/
theorem C130_never_wrong_partial (m g k : ℕ) (pred eval : ℕ → ℤ) (emb : ℤ) (hg : 1 ≤ g) (hk : 1 ≤ k)
    (rounds : List (List ℕ × List ℕ)) (hs : CV.split m g k pred eval emb = .ok rounds) (rows : ℕ → ℕ)
    (sched : List ℕ) (i : ℕ) (hi : rows i = m) :
    GivesRounds rounds (outsOf i (runGens m g k pred eval emb (startGens rows) sched)) ∨
      BrokenOff rounds .indexError (outsOf i (runGens m g k pred eval emb (startGens rows) sched)) := by
  rcases Nat.lt_or_ge m g with hm | hm
  · rw [split_error m g k pred eval emb hm] at hs; cases hs
  rw [split_ok m g k pred eval emb hg hm] at hs
  cases hs
  exact outs_notStarted hg hm hk sched _ i (by simp [startGens, hi])

/-- C130: a generator over another number of rows than the time series have, or over fewer rows than groups, gives no
round at all: it raises `IndexError` at its first `next`. -/
theorem C130_other_rows (m g k : ℕ) (pred eval : ℕ → ℤ) (emb : ℤ) (hg : 1 ≤ g) (hk : 1 ≤ k) (hkg : k ≤ g)
    (rows : ℕ → ℕ) (sched : List ℕ) (i : ℕ) (hi : rows i ≠ m ∨ rows i < g) :
    FailsAtOnce .indexError (outsOf i (runGens m g k pred eval emb (startGens rows) sched)) :=
  outs_bad hg hk hkg hi sched _ i rfl

/-- C130 without the condition on the other generators is false: 3 groups, 1 test fold, 6 rows.  After the first round a
generator over 5 rows is started; it fails, and so does the generator over the right rows, which then has given one of its
three rounds. -/
theorem C130_disturbed_refuted :
    ∃ rounds, CV.split 6 3 1 (fun i => i) (fun i => i) 0 = .ok rounds ∧ rounds.length = 3 ∧
      outsOf 0 (runGens 6 3 1 (fun i => i) (fun i => i) 0 (startGens fun i => if i = 0 then 6 else 5) [0, 1, 0, 0]) =
        [.yield ([0, 1, 2, 3], [4, 5]), .raise .indexError, .stop] :=
  ⟨[([0, 1, 2, 3], [4, 5]), ([0, 1, 4, 5], [2, 3]), ([2, 3, 4, 5], [0, 1])], by decide +kernel⟩

/-- The same order with 6 rows in both: all rounds are given, by both. -/
example : outsOf 0 (runGens 6 3 1 (fun i => i) (fun i => i) 0 (startGens fun _ => 6) [0, 1, 0, 1, 0, 0]) =
    [.yield ([0, 1, 2, 3], [4, 5]), .yield ([0, 1, 4, 5], [2, 3]), .yield ([2, 3, 4, 5], [0, 1]), .stop] := by
  decide +kernel
example : GivesRounds [([0, 1, 2, 3], [4, 5]), ([0, 1, 4, 5], [2, 3]), ([2, 3, 4, 5], [0, 1])]
    (outsOf 1 (runGens 6 3 1 (fun i => i) (fun i => i) 0 (startGens fun _ => 6) [0, 1, 0, 1, 0, 0])) :=
  C130_interleaved 6 3 1 _ _ 0 (by norm_num) (by norm_num) _ (by decide +kernel) _ _ (fun _ _ => rfl) 1

/-- A generator over the right rows started in between repairs the attribute. -/
example : outsOf 0 (runGens 6 3 1 (fun i => i) (fun i => i) 0 (startGens fun i => if i = 1 then 5 else 6)
    [0, 1, 2, 0]) = [.yield ([0, 1, 2, 3], [4, 5]), .yield ([0, 1, 4, 5], [2, 3])] := by
  decide +kernel

end Mizar.Props
