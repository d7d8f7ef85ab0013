import Verif.Props.CV
import Verif.Spec.SplitGen

/-!
Lemmas on interleaved generators of `split`.
-/

namespace Mizar.CV
open Mizar.Spec Mizar.Props

theorem foldlM_blockNow_ok (m : ℕ) (pred eval : ℕ → ℤ) (emb : ℤ) (test : List ℕ) (bounds : List (ℕ × ℕ))
    (h : ∀ b ∈ bounds, b.1 < m) (train : List ℕ) :
    bounds.foldlM (blockNow m m pred eval emb test) train =
      (.ok (bounds.foldl (fun train b => embargo m pred eval emb (purge m pred eval train b.1 b.2) test b.2) train) :
        Py (List ℕ)) := by
  induction bounds generalizing train with
  | nil => rfl
  | cons b bs ih =>
    rw [List.foldlM_cons, blockNow, if_neg (by have := h b (by simp); omega), if_neg (by simp), List.foldl_cons]
    exact ih (fun b hb => h b (by simp [hb])) _

theorem roundNow_ok {m : ℕ} (pred eval : ℕ → ℤ) (emb : ℤ) {fbl : List (ℕ × ℕ)} (h : FoldsOK m fbl) :
    roundNow m m pred eval emb fbl = .ok (splitRound m pred eval emb fbl) := by
  have ht := testOK_computeTestSet fbl h
  simp only [roundNow]
  rw [foldlM_blockNow_ok m pred eval emb _ _ (fun b hb => by have := ht.range b hb; omega)]
  rfl

theorem testSetStep_ne {n : ℕ} (acc : List (ℕ × ℕ) × List ℕ) (b : ℕ × ℕ) : (testSetStep n acc b).1 ≠ [] := by
  unfold testSetStep
  dsimp only
  split
  · simp
  · split <;> simp

theorem computeTestSet_ne {n : ℕ} {fbl : List (ℕ × ℕ)} (h : fbl ≠ []) : (computeTestSet n fbl).1 ≠ [] := by
  rcases List.eq_nil_or_concat fbl with rfl | ⟨l, b, rfl⟩
  · exact absurd rfl h
  · simp only [computeTestSet, List.concat_eq_append, List.foldl_append, List.foldl_cons, List.foldl_nil, ne_eq,
      List.reverse_eq_nil_iff]
    exact testSetStep_ne _ _

theorem roundNow_error {m cur : ℕ} (pred eval : ℕ → ℤ) (emb : ℤ) {fbl : List (ℕ × ℕ)} (h : fbl ≠ [])
    (hc : cur ≠ m) : roundNow m cur pred eval emb fbl = .error .indexError := by
  have hne := computeTestSet_ne (n := cur) h
  simp only [roundNow]
  obtain ⟨b, bs, hb⟩ := List.exists_cons_of_ne_nil hne
  rw [hb, List.foldlM_cons, blockNow]
  by_cases h1 : m ≤ b.1
  · rw [if_pos h1]; rfl
  · rw [if_neg h1, if_pos hc]; rfl

/-! ### answers -/

theorem givesRounds_cons {r : List ℕ × List ℕ} {rs : List (List ℕ × List ℕ)} {outs : List Out}
    (h : GivesRounds rs outs) : GivesRounds (r :: rs) (.yield r :: outs) := by
  intro j hj
  cases j with
  | zero => simp
  | succ j =>
    have := h j (by simpa using hj)
    simpa using this

theorem givesRounds_nil {rs : List (List ℕ × List ℕ)} : GivesRounds rs [] := fun j h => absurd h (by simp)

theorem givesRounds_stop {outs : List Out} (h : ∀ o ∈ outs, o = Out.stop) : GivesRounds [] outs := by
  intro j hj
  simpa using h _ (List.getElem_mem hj)

theorem brokenOff_cons {r : List ℕ × List ℕ} {rs : List (List ℕ × List ℕ)} {e : PyErr} {outs : List Out}
    (h : BrokenOff rs e outs) : BrokenOff (r :: rs) e (.yield r :: outs) := by
  obtain ⟨j, hj, q, rfl⟩ := h
  exact ⟨j + 1, by simpa using hj, q, by simp⟩

theorem brokenOff_raise {rs : List (List ℕ × List ℕ)} {e : PyErr} {outs : List Out}
    (h : ∀ o ∈ outs, o = Out.stop) : BrokenOff rs e (.raise e :: outs) :=
  ⟨0, by simp, outs.length, by simpa using List.eq_replicate_of_mem h⟩

theorem failsAtOnce_raise {e : PyErr} {outs : List Out} (h : ∀ o ∈ outs, o = Out.stop) :
    FailsAtOnce e (.raise e :: outs) := by
  intro j hj
  cases j with
  | zero => simp
  | succ j => simpa using h _ (List.getElem_mem (by simpa using hj))

/-! ### runs -/

section
variable {m g k : ℕ} {pred eval : ℕ → ℤ} {emb : ℤ}

theorem outsOf_cons_self (i : ℕ) (o : Out) (tr : List (ℕ × Out)) : outsOf i ((i, o) :: tr) = o :: outsOf i tr := by
  simp [outsOf]

theorem outsOf_cons_ne {i j : ℕ} (h : j ≠ i) (o : Out) (tr : List (ℕ × Out)) :
    outsOf i ((j, o) :: tr) = outsOf i tr := by
  simp [outsOf, h]

theorem nextGen_other (s : GenState) {i j : ℕ} (h : j ≠ i) :
    (nextGen m g k pred eval emb s j).1.gens i = s.gens i := by
  unfold nextGen
  split
  · rfl
  · simp [Function.update_of_ne (Ne.symm h)]
  · split <;> simp [Function.update_of_ne (Ne.symm h)]

theorem outs_finished (sched : List ℕ) (s : GenState) (i : ℕ) (h : s.gens i = .finished) :
    ∀ o ∈ outsOf i (runGens m g k pred eval emb s sched), o = Out.stop := by
  induction sched generalizing s with
  | nil => simp [runGens, outsOf]
  | cons j sched ih =>
    rw [runGens]
    by_cases hj : j = i
    · subst hj
      have hn : nextGen m g k pred eval emb s j = (s, .stop) := by simp [nextGen, h]
      rw [hn, outsOf_cons_self]
      intro o ho
      rcases List.mem_cons.1 ho with rfl | ho
      · rfl
      · exact ih s h o ho
    · rw [outsOf_cons_ne hj]
      exact ih _ (by rw [nextGen_other s hj, h])

/-- Selected folds of `m` rows. -/
def SelOK (m : ℕ) (sel : List (List (ℕ × ℕ))) : Prop := ∀ fbl ∈ sel, FoldsOK m fbl ∧ fbl ≠ []

theorem selOK_testFoldBounds (hg : 1 ≤ g) (hm : g ≤ m) (hk : 1 ≤ k) :
    SelOK m (combinations k (boundsFrom 0 (sizes m g))).reverse := by
  intro fbl hf
  have := mem_combinations.1 (List.mem_reverse.1 hf)
  refine ⟨(foldsOK_sizes m g hg hm).sublist this.1, ?_⟩
  rintro rfl
  have := this.2
  simp at this
  omega

theorem outs_running (sched : List ℕ) (s : GenState) (i : ℕ) (rest : List (List (ℕ × ℕ)))
    (h : s.gens i = .running rest) (hr : SelOK m rest) :
    GivesRounds (rest.map (splitRound m pred eval emb)) (outsOf i (runGens m g k pred eval emb s sched)) ∨
      BrokenOff (rest.map (splitRound m pred eval emb)) .indexError
        (outsOf i (runGens m g k pred eval emb s sched)) := by
  induction sched generalizing s rest with
  | nil => exact .inl givesRounds_nil
  | cons j sched ih =>
    rw [runGens]
    by_cases hj : j = i
    · subst hj
      cases rest with
      | nil =>
        have hn : nextGen m g k pred eval emb s j = (⟨s.cur, Function.update s.gens j .finished⟩, .stop) := by
          simp [nextGen, h, resume]
        rw [hn, outsOf_cons_self]
        refine .inl (givesRounds_stop ?_)
        intro o ho
        rcases List.mem_cons.1 ho with rfl | ho
        · rfl
        · exact outs_finished _ _ _ (by simp) o ho
      | cons fbl rest =>
        have hf := hr fbl (by simp)
        by_cases hc : s.cur = m
        · have hn : nextGen m g k pred eval emb s j =
              (⟨s.cur, Function.update s.gens j (.running rest)⟩, .yield (splitRound m pred eval emb fbl)) := by
            simp only [nextGen, h, resume, hc, roundNow_ok pred eval emb hf.1]
          rw [hn, outsOf_cons_self, List.map_cons]
          rcases ih ⟨s.cur, Function.update s.gens j (.running rest)⟩ rest (by simp)
            (fun f hf => hr f (by simp [hf])) with h1 | h1
          · exact .inl (givesRounds_cons h1)
          · exact .inr (brokenOff_cons h1)
        · have hn : nextGen m g k pred eval emb s j =
              (⟨s.cur, Function.update s.gens j .finished⟩, .raise .indexError) := by
            simp only [nextGen, h, resume, roundNow_error pred eval emb hf.2 hc]
          rw [hn, outsOf_cons_self]
          exact .inr (brokenOff_raise (outs_finished _ _ _ (by simp)))
    · rw [outsOf_cons_ne hj]
      exact ih _ rest (by rw [nextGen_other s hj, h]) hr

/-- The first `next`, on `m` rows. -/
theorem nextGen_first (s : GenState) (i : ℕ) (h : s.gens i = .notStarted m) (hg : 1 ≤ g) (hm : g ≤ m) (hk : 1 ≤ k)
    (fbl : List (ℕ × ℕ)) (rest : List (List (ℕ × ℕ)))
    (hs : (combinations k (boundsFrom 0 (sizes m g))).reverse = fbl :: rest) :
    nextGen m g k pred eval emb s i =
      (⟨m, Function.update s.gens i (.running rest)⟩, .yield (splitRound m pred eval emb fbl)) := by
  have hf := selOK_testFoldBounds hg hm hk fbl (by rw [hs]; simp)
  simp only [nextGen, h, testFoldBounds_ok m g k hg hm, hs, resume, roundNow_ok pred eval emb hf.1]

theorem nextGen_first_nil (s : GenState) (i : ℕ) (h : s.gens i = .notStarted m) (hg : 1 ≤ g) (hm : g ≤ m)
    (hs : (combinations k (boundsFrom 0 (sizes m g))).reverse = []) :
    nextGen m g k pred eval emb s i = (⟨m, Function.update s.gens i .finished⟩, .stop) := by
  simp only [nextGen, h, testFoldBounds_ok m g k hg hm, hs, resume]

theorem outs_notStarted (hg : 1 ≤ g) (hm : g ≤ m) (hk : 1 ≤ k) (sched : List ℕ) (s : GenState) (i : ℕ)
    (h : s.gens i = .notStarted m) :
    GivesRounds ((combinations k (boundsFrom 0 (sizes m g))).reverse.map (splitRound m pred eval emb))
        (outsOf i (runGens m g k pred eval emb s sched)) ∨
      BrokenOff ((combinations k (boundsFrom 0 (sizes m g))).reverse.map (splitRound m pred eval emb)) .indexError
        (outsOf i (runGens m g k pred eval emb s sched)) := by
  induction sched generalizing s with
  | nil => exact .inl givesRounds_nil
  | cons j sched ih =>
    rw [runGens]
    by_cases hj : j = i
    · subst hj
      have hsel := selOK_testFoldBounds hg hm hk
      cases hs : (combinations k (boundsFrom 0 (sizes m g))).reverse with
      | nil =>
        rw [nextGen_first_nil s j h hg hm hs, outsOf_cons_self]
        refine .inl (givesRounds_stop ?_)
        intro o ho
        rcases List.mem_cons.1 ho with rfl | ho
        · rfl
        · exact outs_finished _ _ _ (by simp) o ho
      | cons fbl rest =>
        rw [hs] at hsel
        rw [nextGen_first s j h hg hm hk fbl rest hs, outsOf_cons_self, List.map_cons]
        rcases outs_running (k := k) (g := g) (pred := pred) (eval := eval) (emb := emb) sched
          ⟨m, Function.update s.gens j (.running rest)⟩ j rest (by simp) (fun f hf => hsel f (by simp [hf])) with h1 | h1
        · exact .inl (givesRounds_cons h1)
        · exact .inr (brokenOff_cons h1)
    · rw [outsOf_cons_ne hj]
      exact ih _ (by rw [nextGen_other s hj, h])

/-- On another number of rows, or with fewer rows than groups, the first `next` fails. -/
theorem nextGen_bad (hg : 1 ≤ g) (hk : 1 ≤ k) (hkg : k ≤ g) {n : ℕ} (s : GenState) (i : ℕ)
    (h : s.gens i = .notStarted n) (hn : n ≠ m ∨ n < g) :
    nextGen m g k pred eval emb s i = (⟨n, Function.update s.gens i .finished⟩, .raise .indexError) := by
  rcases Nat.lt_or_ge n g with hlt | hge
  · have : testFoldBounds n g k = .error .indexError := by
      simp only [testFoldBounds, foldBounds_error n g hlt]; rfl
    simp only [nextGen, h, this]
  · have hne : n ≠ m := hn.resolve_right (by omega)
    have hsel := selOK_testFoldBounds hg hge hk
    cases hs : (combinations k (boundsFrom 0 (sizes n g))).reverse with
    | nil =>
      exfalso
      have hmem : (boundsFrom 0 (sizes n g)).take k ∈ combinations k (boundsFrom 0 (sizes n g)) :=
        mem_combinations.2 ⟨List.take_sublist _ _, by
          rw [List.length_take, boundsFrom_length, sizes_length n g hg]; omega⟩
      rw [List.reverse_eq_nil_iff.1 hs] at hmem
      simp at hmem
    | cons fbl rest =>
      rw [hs] at hsel
      simp only [nextGen, h, testFoldBounds_ok n g k hg hge, hs, resume,
        roundNow_error pred eval emb (hsel fbl (by simp)).2 hne]

theorem outs_bad (hg : 1 ≤ g) (hk : 1 ≤ k) (hkg : k ≤ g) {n : ℕ} (hn : n ≠ m ∨ n < g) (sched : List ℕ) (s : GenState)
    (i : ℕ) (h : s.gens i = .notStarted n) :
    FailsAtOnce .indexError (outsOf i (runGens m g k pred eval emb s sched)) := by
  induction sched generalizing s with
  | nil => intro j hj; simp [runGens, outsOf] at hj
  | cons j sched ih =>
    rw [runGens]
    by_cases hj : j = i
    · subst hj
      rw [nextGen_bad hg hk hkg s j h hn, outsOf_cons_self]
      exact failsAtOnce_raise (outs_finished _ _ _ (by simp))
    · rw [outsOf_cons_ne hj]
      exact ih _ (by rw [nextGen_other s hj, h])

/-- All generators that are advanced from here on are over `m` rows; once one of them is running, `self.indices` has
length `m`. -/
structure SameRows (m : ℕ) (s : GenState) (sched : List ℕ) : Prop where
  rows : ∀ j ∈ sched, ∀ n, s.gens j = .notStarted n → n = m
  sel : ∀ j rest, s.gens j = .running rest → SelOK m rest ∧ s.cur = m

theorem sameRows_next (hg : 1 ≤ g) (hm : g ≤ m) (hk : 1 ≤ k) {s : GenState} {j : ℕ} {sched : List ℕ}
    (h : SameRows m s (j :: sched)) :
    SameRows m (nextGen m g k pred eval emb s j).1 sched ∧
      (s.cur = m → (nextGen m g k pred eval emb s j).1.cur = m) := by
  have hup : ∀ (c : ℕ) (G : Gen), (c = m) → (∀ n, G ≠ .notStarted n) → (∀ rest, G = .running rest → SelOK m rest) →
      SameRows m ⟨c, Function.update s.gens j G⟩ sched := by
    intro c G hc h1 h2
    refine ⟨fun i hi n hn => ?_, fun i rest hr => ?_⟩
    · by_cases hij : i = j
      · subst hij
        simp only [Function.update_self] at hn
        exact absurd hn (h1 n)
      · simp only [Function.update_of_ne hij] at hn
        exact h.rows i (by simp [hi]) n hn
    · by_cases hij : i = j
      · subst hij
        simp only [Function.update_self] at hr
        exact ⟨h2 rest hr, hc⟩
      · simp only [Function.update_of_ne hij] at hr
        exact ⟨(h.sel i rest hr).1, hc⟩
  cases hs : s.gens j with
  | finished =>
    have : nextGen m g k pred eval emb s j = (s, .stop) := by simp [nextGen, hs]
    rw [this]
    exact ⟨⟨fun i hi => h.rows i (by simp [hi]), h.sel⟩, id⟩
  | running rest =>
    obtain ⟨h1, hc⟩ := h.sel j rest hs
    cases rest with
    | nil =>
      have hn : nextGen m g k pred eval emb s j = (⟨s.cur, Function.update s.gens j .finished⟩, .stop) := by
        simp [nextGen, hs, resume]
      rw [hn]
      exact ⟨hup _ _ hc (by simp) (by simp), id⟩
    | cons fbl rest =>
      have hn : nextGen m g k pred eval emb s j =
          (⟨s.cur, Function.update s.gens j (.running rest)⟩, .yield (splitRound m pred eval emb fbl)) := by
        simp only [nextGen, hs, resume, hc, roundNow_ok pred eval emb (h1 fbl (by simp)).1]
      rw [hn]
      exact ⟨hup _ _ hc (by simp) (by rintro r hr; cases hr; exact fun f hf => h1 f (by simp [hf])), id⟩
  | notStarted n =>
    obtain rfl := h.rows j (by simp) n hs
    have hsel := selOK_testFoldBounds hg hm hk
    cases hc : (combinations k (boundsFrom 0 (sizes n g))).reverse with
    | nil =>
      rw [nextGen_first_nil s j hs hg hm hc]
      exact ⟨hup _ _ rfl (by simp) (by simp), fun _ => rfl⟩
    | cons fbl rest =>
      rw [hc] at hsel
      rw [nextGen_first s j hs hg hm hk fbl rest hc]
      exact ⟨hup _ _ rfl (by simp) (by rintro r hr; cases hr; exact fun f hf => hsel f (by simp [hf])), fun _ => rfl⟩

theorem outs_running_same (hg : 1 ≤ g) (hm : g ≤ m) (hk : 1 ≤ k) (sched : List ℕ) (s : GenState) (i : ℕ)
    (rest : List (List (ℕ × ℕ))) (h : s.gens i = .running rest) (hr : SameRows m s sched) :
    GivesRounds (rest.map (splitRound m pred eval emb)) (outsOf i (runGens m g k pred eval emb s sched)) := by
  induction sched generalizing s rest with
  | nil => exact givesRounds_nil
  | cons j sched ih =>
    have hnext := (sameRows_next (k := k) (pred := pred) (eval := eval) (emb := emb) hg hm hk hr).1
    rw [runGens]
    by_cases hj : j = i
    · subst hj
      cases rest with
      | nil =>
        have hn : nextGen m g k pred eval emb s j = (⟨s.cur, Function.update s.gens j .finished⟩, .stop) := by
          simp [nextGen, h, resume]
        rw [hn, outsOf_cons_self]
        refine givesRounds_stop ?_
        intro o ho
        rcases List.mem_cons.1 ho with rfl | ho
        · rfl
        · exact outs_finished _ _ _ (by simp) o ho
      | cons fbl rest =>
        obtain ⟨h1, hc⟩ := hr.sel j _ h
        have hn : nextGen m g k pred eval emb s j =
            (⟨s.cur, Function.update s.gens j (.running rest)⟩, .yield (splitRound m pred eval emb fbl)) := by
          simp only [nextGen, h, resume, hc, roundNow_ok pred eval emb (h1 fbl (by simp)).1]
        rw [hn] at hnext ⊢
        rw [outsOf_cons_self, List.map_cons]
        exact givesRounds_cons (ih _ rest (by simp) hnext)
    · rw [outsOf_cons_ne hj]
      exact ih _ rest (by rw [nextGen_other s hj, h]) hnext

theorem outs_notStarted_same (hg : 1 ≤ g) (hm : g ≤ m) (hk : 1 ≤ k) (sched : List ℕ) (s : GenState) (i : ℕ)
    (h : s.gens i = .notStarted m) (hr : SameRows m s sched) :
    GivesRounds ((combinations k (boundsFrom 0 (sizes m g))).reverse.map (splitRound m pred eval emb))
      (outsOf i (runGens m g k pred eval emb s sched)) := by
  induction sched generalizing s with
  | nil => exact givesRounds_nil
  | cons j sched ih =>
    have hnext := (sameRows_next (k := k) (pred := pred) (eval := eval) (emb := emb) hg hm hk hr).1
    rw [runGens]
    by_cases hj : j = i
    · subst hj
      cases hs : (combinations k (boundsFrom 0 (sizes m g))).reverse with
      | nil =>
        rw [nextGen_first_nil s j h hg hm hs, outsOf_cons_self]
        refine givesRounds_stop ?_
        intro o ho
        rcases List.mem_cons.1 ho with rfl | ho
        · rfl
        · exact outs_finished _ _ _ (by simp) o ho
      | cons fbl rest =>
        rw [nextGen_first s j h hg hm hk fbl rest hs] at hnext ⊢
        rw [outsOf_cons_self, List.map_cons]
        exact givesRounds_cons (outs_running_same hg hm hk sched _ j rest (by simp) hnext)
    · rw [outsOf_cons_ne hj]
      exact ih _ (by rw [nextGen_other s hj, h]) hnext

end

end Mizar.CV
