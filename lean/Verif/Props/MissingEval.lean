import Verif.Model.MissingEval
import Verif.Props.CVExact

/-! Property theorems C87: samples whose evaluation time is missing. -/

namespace Mizar.Props
open Mizar.CV Mizar.Spec

/-- Without missing times this is the splitter of C01-C10. -/
theorem C87_refines (n g k : ℕ) (pred eval : ℕ → ℤ) (emb : ℤ) : splitM n g k pred (fun i => some (eval i)) emb = split n g k pred eval emb := by
  have he : ∀ train test fe, embargoM n pred (fun i => some (eval i)) emb train test fe = embargo n pred eval emb train test fe := by
    intro train test fe
    unfold embargoM embargo
    rw [show (test.take fe).filterMap (fun i => some (eval i)) = (test.take fe).map eval from by
      rw [← List.filterMap_eq_map]; rfl]
    rfl
  have hr : (fun fbl => (computeTrainSetM n pred (fun i => some (eval i)) emb (computeTestSet n fbl).1 (computeTestSet n fbl).2, (computeTestSet n fbl).2)) =
      splitRound n pred eval emb := by
    funext fbl
    unfold splitRound computeTrainSet computeTrainSetM
    simp only [he]
    rfl
  unfold splitM split
  dsimp only
  rw [hr]

theorem mem_purgeM {n : ℕ} {pred : ℕ → ℤ} {eval : ℕ → Option ℤ} {train : List ℕ} {fs fe x : ℕ} :
    x ∈ purgeM n pred eval train fs fe ↔ x ∈ train ∧ ((x < n ∧ ∃ e, eval x = some e ∧ e < pred fs) ∨ x ∈ (List.range n).drop fe) := by
  unfold purgeM
  simp only [List.mem_append, mem_npIntersect1d, List.mem_filter, List.mem_range]
  cases eval x <;> simp <;> tauto

theorem mem_embargoM_train {n : ℕ} {pred : ℕ → ℤ} {eval : ℕ → Option ℤ} {emb : ℤ} {train test : List ℕ} {fe x : ℕ}
    (h : x ∈ embargoM n pred eval emb train test fe) : x ∈ train := by
  unfold embargoM at h
  dsimp only at h
  split at h
  all_goals
    split at h
    · exact (mem_npIntersect1d.1 h).1
    · exact h

/-- The rounds, their test sets and what is left for training. -/
theorem mem_splitM {n g k : ℕ} {pred : ℕ → ℤ} {eval : ℕ → Option ℤ} {emb : ℤ} {rounds : List (List ℕ × List ℕ)}
    (hg : 0 < g) (hs : splitM n g k pred eval emb = .ok rounds) {r : List ℕ × List ℕ} (hr : r ∈ rounds) :
    ∃ bounds, TestOK n bounds r.2 ∧ ∀ x ∈ r.1, x < n ∧ x ∉ r.2 ∧
      ∀ b ∈ bounds, (∃ e, eval x = some e ∧ e < pred b.1) ∨ b.2 ≤ x := by
  rcases Nat.lt_or_ge n g with h | h
  · simp only [splitM, testFoldBounds, foldBounds_error n g h] at hs; cases hs
  · unfold splitM at hs
    rw [testFoldBounds_ok n g k hg h] at hs
    cases hs
    obtain ⟨fbl, hf, rfl⟩ := List.mem_map.1 hr
    have hsub := (mem_combinations.1 (List.mem_reverse.1 hf)).1
    have hok := (foldsOK_sizes n g hg h).sublist hsub
    refine ⟨_, testOK_computeTestSet fbl hok, ?_⟩
    dsimp only
    generalize computeTestSet n fbl = t
    intro x hx
    unfold computeTrainSetM at hx
    have key : ∀ (bs : List (ℕ × ℕ)) (tr : List ℕ), x ∈ bs.foldl (fun train b => embargoM n pred eval emb (purgeM n pred eval train b.1 b.2) t.2 b.2) tr →
        x ∈ tr ∧ ∀ b ∈ bs, (∃ e, eval x = some e ∧ e < pred b.1) ∨ b.2 ≤ x := by
      intro bs
      induction bs with
      | nil => exact fun tr h => ⟨h, by simp⟩
      | cons b bs ih =>
        intro tr h
        obtain ⟨h1, h2⟩ := ih _ h
        obtain ⟨h3, h4⟩ := mem_purgeM.1 (mem_embargoM_train h1)
        refine ⟨h3, ?_⟩
        intro c hc
        rcases List.mem_cons.1 hc with rfl | hc
        · rcases h4 with h4 | h4
          · exact Or.inl h4.2
          · right
            rw [List.range_eq_range', List.drop_range', List.mem_range'_1] at h4
            omega
        · exact h2 c hc
    obtain ⟨h1, h2⟩ := key t.1 _ hx
    unfold npSetdiff1d at h1
    rw [List.mem_filter, mem_npUnique, List.mem_range] at h1
    exact ⟨h1.1, by simpa using h1.2, h2⟩

/-- A sample whose evaluation time is missing trains only after all tests of the round; it is never taken to be known before a
test.  The other samples are purged as before. -/
theorem C87_missing_not_before_test (n g k : ℕ) (pred : ℕ → ℤ) (eval : ℕ → Option ℤ) (emb : ℤ) (hg : 1 ≤ g)
    (hmono : ∀ i j, i ≤ j → j < n → pred i ≤ pred j) (rounds : List (List ℕ × List ℕ)) (hs : splitM n g k pred eval emb = .ok rounds)
    (r : List ℕ × List ℕ) (hr : r ∈ rounds) (i t : ℕ) (hi : i ∈ r.1) (ht : t ∈ r.2) :
    i ≠ t ∧ (i < t → ∃ e, eval i = some e ∧ e < pred t) := by
  obtain ⟨bounds, hok, h⟩ := mem_splitM hg hs hr
  obtain ⟨hin, hnot, hall⟩ := h i hi
  refine ⟨fun h => hnot (h ▸ ht), fun hit => ?_⟩
  obtain ⟨b, hb, hx⟩ := (hok.mem t).1 ht
  have hbr := hok.range b hb
  have hx1 := hx.1
  have hx2 := hx.2
  rcases hall b hb with ⟨e, he, hlt⟩ | hge
  · exact ⟨e, he, lt_of_lt_of_le hlt (hmono b.1 t hx1 (by omega))⟩
  · omega

/-- The cut-off position of `embargo`. -/
private def cutM (n : ℕ) (pred : ℕ → ℤ) (eval : ℕ → Option ℤ) (emb : ℤ) (test : List ℕ) (fe : ℕ) : ℕ :=
  match ((test.take fe).filterMap eval).max? with
  | none => 0
  | some m => ((List.range n).filter fun i => decide (pred i ≤ m + emb)).length

private theorem lt_cutM {n : ℕ} {pred : ℕ → ℤ} {eval : ℕ → Option ℤ} {emb : ℤ} {test : List ℕ} {fe i : ℕ}
    (hmono : ∀ i j, i ≤ j → j < n → pred i ≤ pred j) (hi : i < n) :
    i < cutM n pred eval emb test fe ↔ ∃ u ∈ test.take fe, ∃ v, eval u = some v ∧ pred i ≤ v + emb := by
  unfold cutM
  cases hm : ((test.take fe).filterMap eval).max? with
  | none =>
    rw [List.max?_eq_none_iff, List.filterMap_eq_nil_iff] at hm
    simp only [Nat.not_lt_zero, false_iff]
    rintro ⟨u, hu, v, hv, -⟩
    rw [hm u hu] at hv
    cases hv
  | some m =>
    obtain ⟨hmem, hmax⟩ := List.max?_eq_some_iff.1 hm
    obtain ⟨u, hu, huv⟩ := List.mem_filterMap.1 hmem
    have key : i < ((List.range n).filter fun i => decide (pred i ≤ m + emb)).length ↔ pred i ≤ m + emb := by
      constructor
      · intro h
        by_contra hcon
        have hsub : ((List.range n).filter (fun j => decide (pred j ≤ m + emb))).Subperm (List.range i) := by
          refine List.Nodup.subperm (List.nodup_range.filter _) ?_
          intro j hj
          simp only [List.mem_filter, List.mem_range, decide_eq_true_eq] at hj ⊢
          by_contra hji
          have := hmono i j (by omega) hj.1
          omega
        have := hsub.length_le
        simp only [List.length_range] at this
        omega
      · intro hpi
        have hsub : (List.range (i + 1)).Sublist ((List.range n).filter (fun i => decide (pred i ≤ m + emb))) := by
          have h1 : (List.range (i + 1)).filter (fun i => decide (pred i ≤ m + emb)) = List.range (i + 1) := by
            rw [List.filter_eq_self]
            intro j hj
            have := hmono j i (by simpa [Nat.lt_succ_iff] using hj) hi
            simp only [decide_eq_true_eq]; omega
          rw [← h1]
          exact (List.range_sublist.2 (by omega)).filter _
        have := hsub.length_le
        simp only [List.length_range] at this
        omega
    rw [key]
    constructor
    · exact fun h => ⟨u, hu, m, huv, h⟩
    · rintro ⟨w, hw, v, hv, h⟩
      have := hmax v (List.mem_filterMap.2 ⟨w, hw, hv⟩)
      omega

private theorem mem_drop_range {n m i : ℕ} : i ∈ (List.range n).drop m ↔ m ≤ i ∧ i < n := by
  rw [List.range_eq_range', List.drop_range', List.mem_range'_1]
  omega

private theorem mem_embargoM {n : ℕ} {pred : ℕ → ℤ} {eval : ℕ → Option ℤ} {emb : ℤ} {train test : List ℕ} {fe i : ℕ} (hi : i < n) :
    i ∈ embargoM n pred eval emb train test fe ↔
      i ∈ train ∧ (cutM n pred eval emb test fe < n → i < fe ∨ cutM n pred eval emb test fe ≤ i) := by
  have ht : i ∈ (List.range n).take fe ↔ i < fe := by
    rw [List.take_range, List.mem_range]
    omega
  unfold embargoM
  change i ∈ (if cutM n pred eval emb test fe < n then _ else _) ↔ _
  split
  · rename_i h
    simp only [mem_npIntersect1d, List.mem_append, mem_drop_range, ht]
    constructor
    · rintro ⟨h1, h2⟩
      exact ⟨h1, fun _ => h2.imp id (·.1)⟩
    · rintro ⟨h1, h2⟩
      exact ⟨h1, (h2 h).imp id (⟨·, hi⟩)⟩
  · rename_i h
    simp [h]

/-- The train set of every round when evaluation times are missing: a position is in it exactly if it is not tested, it has an
evaluation time before the prediction of every later test position, and for every run of test positions ending at or before it
(at `e`) either a present label among the first `e` test positions, embargo included, reaches the last prediction time (then the
run has no embargo), or all present ones end before its prediction.  So test positions without evaluation time keep nothing out. -/
theorem C87_train_set (n g k : ℕ) (pred : ℕ → ℤ) (eval : ℕ → Option ℤ) (emb : ℤ) (hg : 1 ≤ g)
    (hmono : ∀ i j, i ≤ j → j < n → pred i ≤ pred j) (rounds : List (List ℕ × List ℕ)) (hs : splitM n g k pred eval emb = .ok rounds)
    (r : List ℕ × List ℕ) (hr : r ∈ rounds) (i : ℕ) :
    i ∈ r.1 ↔ i < n ∧ i ∉ r.2 ∧ (∀ t ∈ r.2, i < t → ∃ v, eval i = some v ∧ v < pred t) ∧
      ∀ t e, RunEnd r.2 t e → e ≤ i →
        (∃ u ∈ r.2.take e, ∃ v, eval u = some v ∧ pred (n - 1) ≤ v + emb) ∨
          ∀ u ∈ r.2.take e, ∀ v, eval u = some v → v + emb < pred i := by
  rcases Nat.lt_or_ge n g with h | h
  · simp only [splitM, testFoldBounds, foldBounds_error n g h] at hs; cases hs
  unfold splitM at hs
  rw [testFoldBounds_ok n g k hg h] at hs
  cases hs
  obtain ⟨fbl, hf, rfl⟩ := List.mem_map.1 hr
  have hsub := (mem_combinations.1 (List.mem_reverse.1 hf)).1
  have hok := testOK_computeTestSet fbl ((foldsOK_sizes n g hg h).sublist hsub)
  dsimp only at hok ⊢
  generalize computeTestSet n fbl = t at hok ⊢
  have key : ∀ (bs : List (ℕ × ℕ)) (tr : List ℕ), (∀ j ∈ tr, j < n) →
      (i ∈ bs.foldl (fun train b => embargoM n pred eval emb (purgeM n pred eval train b.1 b.2) t.2 b.2) tr ↔
        i ∈ tr ∧ ∀ b ∈ bs, ((∃ v, eval i = some v ∧ v < pred b.1) ∨ b.2 ≤ i) ∧
          (cutM n pred eval emb t.2 b.2 < n → i < b.2 ∨ cutM n pred eval emb t.2 b.2 ≤ i)) := by
    intro bs
    induction bs with
    | nil => simp
    | cons b bs ih =>
      intro tr htr
      rw [List.foldl_cons, ih _ (fun j hj => htr j (mem_purgeM.1 (mem_embargoM_train hj)).1)]
      simp only [List.mem_cons, forall_eq_or_imp]
      constructor
      · rintro ⟨h1, h2⟩
        obtain ⟨h3, h4⟩ := mem_purgeM.1 (mem_embargoM_train h1)
        refine ⟨h3, ⟨h4.imp (·.2) (fun h => (mem_drop_range.1 h).1), ((mem_embargoM (htr i h3)).1 h1).2⟩, h2⟩
      · rintro ⟨h1, ⟨h2, h3⟩, h4⟩
        exact ⟨(mem_embargoM (htr i h1)).2 ⟨mem_purgeM.2 ⟨h1, h2.imp (⟨htr i h1, ·⟩) (fun h => mem_drop_range.2 ⟨h, htr i h1⟩)⟩, h3⟩, h4⟩
  rw [computeTrainSetM, key _ _ (by intro j hj; simpa using (mem_npSetdiff1d.1 hj).1), mem_npSetdiff1d, List.mem_range]
  constructor
  · rintro ⟨⟨hin, hnot⟩, hall⟩
    refine ⟨hin, hnot, ?_, ?_⟩
    · intro u hu hiu
      obtain ⟨b, hb, hx⟩ := (hok.mem u).1 hu
      have hx1 := hx.1
      have hx2 := hx.2
      have hbr := hok.range b hb
      rcases (hall b hb).1 with ⟨v, hv, hlt⟩ | hge
      · exact ⟨v, hv, lt_of_lt_of_le hlt (hmono b.1 u hx1 (by omega))⟩
      · omega
    · intro u e hre hei
      obtain ⟨b, hb, hx, rfl⟩ := bound_of_runEnd hok hre
      by_cases hcut : ∃ u ∈ t.2.take b.2, ∃ v, eval u = some v ∧ pred (n - 1) ≤ v + emb
      · exact Or.inl hcut
      · right
        have hlt : cutM n pred eval emb t.2 b.2 < n := by
          have := mt (lt_cutM (fe := b.2) hmono (show n - 1 < n by omega)).1 hcut
          omega
        rcases (hall b hb).2 hlt with h | h
        · omega
        · intro w hw v hv
          by_contra hcon
          exact absurd ((lt_cutM (emb := emb) (fe := b.2) hmono hin).2 ⟨w, hw, v, hv, by omega⟩) (by omega)
  · rintro ⟨hin, hnot, hbefore, hafter⟩
    refine ⟨⟨hin, hnot⟩, fun b hb => ?_⟩
    have hbr := hok.range b hb
    have hs1 : b.1 ∈ t.2 := (hok.mem _).2 ⟨b, hb, le_refl _, hbr.1⟩
    constructor
    · rcases Nat.lt_or_ge i b.1 with h | h
      · exact Or.inl (hbefore b.1 hs1 h)
      · right
        by_contra h'
        exact hnot ((hok.mem i).2 ⟨b, hb, h, by omega⟩)
    · intro hlt
      rcases Nat.lt_or_ge i b.2 with h | h
      · exact Or.inl h
      · right
        by_contra h'
        obtain ⟨u, hu, v, hv, hpu⟩ := (lt_cutM (fe := b.2) hmono hin).1 (Nat.lt_of_not_ge h')
        rcases hafter b.1 b.2 (runEnd_of_bound hok hb ⟨le_refl _, hbr.1⟩) h with ⟨w, hw, z, hz, hpz⟩ | hall
        · have := (lt_cutM (emb := emb) (fe := b.2) hmono (show n - 1 < n by omega)).2 ⟨w, hw, z, hz, hpz⟩
          omega
        · have := hall u hu v hv
          omega

/-- A test sample whose evaluation time is missing is not respected by later training samples: with a label of unknown end in
the test set the next sample is trained on, while the same label, known to end with that sample, keeps it out. -/
theorem C87_missing_test_refuted : ∃ rounds rounds' : List (List ℕ × List ℕ),
    splitM 6 3 1 (fun i => i) (fun i => if i = 3 then none else some i) 0 = .ok rounds ∧
    splitM 6 3 1 (fun i => i) (fun i => if i = 3 then some 4 else some i) 0 = .ok rounds' ∧
    ∃ r r', rounds[1]? = some r ∧ rounds'[1]? = some r' ∧ r.2 = r'.2 ∧ 3 ∈ r.2 ∧ 4 ∈ r.1 ∧ 4 ∉ r'.1 :=
  ⟨[([0, 1, 2], [4, 5]), ([0, 1, 4, 5], [2, 3]), ([2, 3, 4, 5], [0, 1])], [([0, 1, 2], [4, 5]), ([0, 1, 5], [2, 3]), ([2, 3, 4, 5], [0, 1])],
    by decide +kernel, by decide +kernel, ([0, 1, 4, 5], [2, 3]), ([0, 1, 5], [2, 3]), rfl, rfl, rfl, by decide, by decide, by decide⟩

/-- Samples 1 and 4 have no evaluation time: sample 1 trains only when the tests are before it. -/
example : splitM 6 3 1 (fun i => i) (fun i => if i = 1 ∨ i = 4 then none else some i) 0 =
    .ok [([0, 2, 3], [4, 5]), ([0, 4, 5], [2, 3]), ([2, 3, 4, 5], [0, 1])] := by decide +kernel

end Mizar.Props
