import Verif.Props.BagSubset
import Verif.Props.SampleWeights

/-!
Property theorems C97: the indicator matrix, the average uniqueness, the time-decay weights and the fit of the bagging
classifier do not depend on the clock; the order, the repetition and the position outside the events of the bars do not
matter; the order of the events only permutes the result
(`/repo/mizarlabs/model/bootstrapping.py`, `/repo/mizarlabs/transformers/sampling/average_uniqueness.py`,
`/repo/mizarlabs/transformers/sample_weights/__init__.py`).
-/

namespace Mizar.Props
open Mizar.Spec Mizar.Bag Mizar.Boot Mizar.SW

theorem listMin_mono {f : ℤ → ℤ} (hf : StrictMono f) (l : List ℤ) : listMin (l.map f) = (listMin l).map f := by
  cases l with
  | nil => rfl
  | cons a l =>
    simp only [List.map_cons, listMin, Option.map_some, Option.some.injEq]
    induction l generalizing a with
    | nil => rfl
    | cons b l ih => simp only [List.map_cons, List.foldl_cons, ← hf.monotone.map_min, ih]

theorem listMax_mono {f : ℤ → ℤ} (hf : StrictMono f) (l : List ℤ) : listMax (l.map f) = (listMax l).map f := by
  cases l with
  | nil => rfl
  | cons a l =>
    simp only [List.map_cons, listMax, Option.map_some, Option.some.injEq]
    induction l generalizing a with
    | nil => rfl
    | cons b l ih => simp only [List.map_cons, List.foldl_cons, ← hf.monotone.map_max, ih]

theorem trimBars_mono {f : ℤ → ℤ} (hf : StrictMono f) (s e b : List ℤ) :
    trimBars (s.map f) (e.map f) (b.map f) = (trimBars s e b).map f := by
  unfold trimBars
  rw [listMin_mono hf, listMax_mono hf]
  cases listMin s with
  | none => rfl
  | some lo =>
    cases listMax e with
    | none => rfl
    | some hi =>
      simp only [Option.map_some, List.filter_map]
      congr 1
      apply List.filter_congr
      intro x _
      simp only [Function.comp, hf.le_iff_le]

theorem npUnique_mono {f : ℤ → ℤ} (hf : StrictMono f) (l : List ℤ) : npUnique (l.map f) = (npUnique l).map f := by
  apply eq_of_mem_iff_of_pairwise_lt (pairwise_npUnique _)
  · rw [List.pairwise_map]
    exact (pairwise_npUnique l).imp fun h => hf h
  · intro x
    simp [mem_npUnique, List.mem_map]

/-- The times of an event on the other clock. -/
def onClock (f : ℤ → ℤ) (e : ℤ × ℤ) : ℤ × ℤ := (f e.1, f e.2)

theorem barIndex_mono {f : ℤ → ℤ} (hf : StrictMono f) (ev : List (ℤ × ℤ)) (bars : List ℤ) :
    barIndex (ev.map (onClock f)) (bars.map f) = (barIndex ev bars).map f := by
  unfold barIndex
  rw [← npUnique_mono hf, List.map_append, List.map_append, ← trimBars_mono hf]
  simp only [List.map_map]
  rfl

theorem idxOf_injective {f : ℤ → ℤ} (hf : Function.Injective f) (l : List ℤ) (x : ℤ) : (l.map f).idxOf (f x) = l.idxOf x := by
  induction l with
  | nil => rfl
  | cons a l ih =>
    rw [List.map_cons, List.idxOf_cons, List.idxOf_cons, ih]
    have h : (f a == f x) = (a == x) := by
      rw [Bool.eq_iff_iff, beq_iff_eq, beq_iff_eq, hf.eq_iff]
    rw [h]

theorem fillMatrix_injective {f : ℤ → ℤ} (hf : Function.Injective f) (bi : List ℤ) (ev : List (ℤ × ℤ)) (j : ℕ) (M : IndMat) :
    fillMatrix (bi.map f) j (ev.map (onClock f)) M = fillMatrix bi j ev M := by
  induction ev generalizing j M with
  | nil => rfl
  | cons e es ih =>
    rw [List.map_cons]
    unfold fillMatrix
    rw [ih]
    simp only [onClock, idxOf_injective hf]

/-- C97: reading all times on another clock (any strictly increasing map) leaves the indicator matrix as it is and moves the
bar index to the new clock; errors stay as they are. -/
theorem C97_clock_matrix {f : ℤ → ℤ} (hf : StrictMono f) (events : List (Option ℤ × Option ℤ)) (bars : List ℤ) :
    getIndMatrix (events.map fun e => (e.1.map f, e.2.map f)) (bars.map f) =
      (getIndMatrix events bars).map fun r => (r.1, r.2.map f) := by
  have h1 : (events.map fun e => (e.1.map f, e.2.map f)).any (fun e => e.2.isNone) = events.any (fun e => e.2.isNone) := by
    rw [List.any_map]; congr 1; funext e; simp
  have h2 : (events.map fun e => (e.1.map f, e.2.map f)).any (fun e => e.1.isNone) = events.any (fun e => e.1.isNone) := by
    rw [List.any_map]; congr 1; funext e; simp
  have h3 : (events.map fun e => (e.1.map f, e.2.map f)).filterMap bothPresent =
      (events.filterMap bothPresent).map (onClock f) := by
    rw [List.filterMap_map, List.map_filterMap]
    congr 1
    funext e
    obtain ⟨a, b⟩ := e
    cases a <;> cases b <;> rfl
  unfold getIndMatrix
  simp only [h1, h2, h3, barIndex_mono hf, fillMatrix_injective hf.injective, List.length_map]
  split_ifs <;> rfl

example : StrictMono (fun t : ℤ => 1000 * t - 7) ∧
    ((getIndMatrix [(some 10, some 30), (some 20, some 40)] [10, 20, 30, 40]).map fun r => (r.1.toLists, r.2)) =
      .ok ([[true, false], [true, true], [true, true], [false, true]], [10, 20, 30, 40]) ∧
    ((getIndMatrix [(some 9993, some 29993), (some 19993, some 39993)] [9993, 19993, 29993, 39993]).map
      fun r => (r.1.toLists, r.2)) =
      .ok ([[true, false], [true, true], [true, true], [false, true]], [9993, 19993, 29993, 39993]) :=
  ⟨fun a b h => by dsimp only; omega, by decide +kernel, by decide +kernel⟩

/-- C97 for `AverageUniqueness`: same values, index on the new clock. -/
theorem C97_clock_uniqueness {f : ℤ → ℤ} (hf : StrictMono f) (X : List (ℤ × Option ℤ)) :
    averageUniqueness (X.map fun e => (f e.1, e.2.map f)) =
      (averageUniqueness X).map fun r => r.map fun p => (f p.1, p.2) := by
  unfold averageUniqueness
  have h1 : (X.map fun e => (f e.1, e.2.map f)).any (fun e => e.2.isNone) = X.any (fun e => e.2.isNone) := by
    rw [List.any_map]; congr 1; funext e; simp
  have h2 : (X.map fun e => (f e.1, e.2.map f)).map (·.1) = (X.map (·.1)).map f := by
    simp only [List.map_map]; rfl
  have h3 : ((X.map fun e => (f e.1, e.2.map f)).map fun e => (some e.1, e.2)) =
      (X.map fun e => (some e.1, e.2)).map fun e => (e.1.map f, e.2.map f) := by
    simp only [List.map_map]; rfl
  rw [h1, h2, h3, C97_clock_matrix hf]
  have h4 : ((X.map (·.1)).map f).Nodup ↔ (X.map (·.1)).Nodup := List.nodup_map_iff hf.injective
  simp only [h4]
  split_ifs
  · rfl
  rotate_left
  · rfl
  · cases getIndMatrix (X.map fun e => (some e.1, e.2)) (X.map (·.1)) with
    | error e => rfl
    | ok r =>
      simp only [Except.map]
      rw [List.zip_map_left]
      rfl

example : averageUniqueness [(1, some 3), (2, some 6), (4, some 5)] = .ok [(1, .fin (2/3)), (2, .fin (3/5)), (4, .fin (1/2))] ∧
    averageUniqueness [(10, some 30), (20, some 60), (40, some 50)] = .ok [(10, .fin (2/3)), (20, .fin (3/5)), (40, .fin (1/2))] := by
  constructor <;> decide +kernel

/-- C97 for `SampleWeightsByTimeDecay`: same weights, index on the new clock. -/
theorem C97_clock_decay {f : ℤ → ℤ} (hf : StrictMono f) (c : ℚ) (X : List (ℤ × Option ℤ)) :
    timeDecay c (X.map fun e => (f e.1, e.2.map f)) = (timeDecay c X).map fun r => r.map fun p => (f p.1, p.2) := by
  unfold timeDecay
  rw [C97_clock_uniqueness hf]
  split_ifs
  rotate_left
  · rfl
  · cases averageUniqueness X with
    | error e => rfl
    | ok u =>
      simp only [Except.map]
      have hs : (u.map fun p => (f p.1, p.2)).insertionSort (fun a b => a.1 ≤ b.1) =
          (u.insertionSort (fun a b => a.1 ≤ b.1)).map fun p => (f p.1, p.2) := by
        symm
        exact List.map_insertionSort _ _ _ _ (fun a _ b _ => hf.le_iff_le.symm)
      rw [hs]
      have hv : ((u.insertionSort (fun a b => a.1 ≤ b.1)).map fun p => (f p.1, p.2)).map (·.2) =
          (u.insertionSort (fun a b => a.1 ≤ b.1)).map (·.2) := by simp only [List.map_map]; rfl
      have ht : ((u.insertionSort (fun a b => a.1 ≤ b.1)).map fun p => (f p.1, p.2)).map (·.1) =
          ((u.insertionSort (fun a b => a.1 ≤ b.1)).map (·.1)).map f := by simp only [List.map_map]; rfl
      rw [hv, ht]
      cases (pdCumsum ((u.insertionSort (fun a b => a.1 ≤ b.1)).map (·.2))).getLast? with
      | none => rfl
      | some last =>
        simp only
        rw [List.zip_map_left]
        rfl

theorem runJobs_congr {Est : Type} (b : Base Est) (d d' : Data) (hw : d'.weights = d.weights) (hn : d'.nFeatures = d.nFeatures)
    (hx : d'.xIndex.length = d.xIndex.length) : buildOne b d' = buildOne b d := by
  funext sub maxF maxS upd seed
  unfold buildOne
  rw [hw, hn, hx]

/-- C97 for the bagging classifier: with the indices of the matrix and of the training frame on another clock the fit draws the
same samples, builds the same estimators and raises the same errors. -/
theorem C97_clock_fit {Est : Type} {f : ℤ → ℤ} (hf : StrictMono f) (b : Base Est) (stream : ℕ → ℕ) (c : Cfg) (d : Data) (s : Fitted Est) :
    fit b stream c { d with infoIndex := d.infoIndex.map f, xIndex := d.xIndex.map f } s = fit b stream c d s := by
  have h1 : (∀ x ∈ d.xIndex.map f, x ∈ d.infoIndex.map f) ↔ ∀ x ∈ d.xIndex, x ∈ d.infoIndex := by
    simp [List.mem_map, hf.injective.eq_iff]
  have h2 : subsampleCols (d.infoIndex.map f) (d.xIndex.map f) = subsampleCols d.infoIndex d.xIndex := by
    unfold subsampleCols
    rw [List.flatMap_map]
    congr 1
    funext x
    rw [List.length_map]
    apply List.filter_congr
    intro i _
    rw [List.getElem?_map]
    cases d.infoIndex[i]? with
    | none => simp
    | some y => simp [hf.injective.eq_iff]
  have h3 : ∀ sub maxF maxS upd sizes starts seeds jobs,
      runJobs b { d with infoIndex := d.infoIndex.map f, xIndex := d.xIndex.map f } sub maxF maxS upd sizes starts seeds jobs =
        runJobs b d sub maxF maxS upd sizes starts seeds jobs := by
    intros
    unfold runJobs parallelBuild
    rw [runJobs_congr b d { d with infoIndex := d.infoIndex.map f, xIndex := d.xIndex.map f } rfl rfl (by simp)]
  unfold fit
  simp only [h1, h2, h3, List.length_map]

/-- C97 for the bars: two bar lists with the same times between the first start and the last end give the same matrix: order,
repetitions and bars outside the events do not matter. -/
theorem C97_bars (events : List (Option ℤ × Option ℤ)) (bars bars' : List ℤ)
    (h : ∀ t, (∃ s stop, (some s, stop) ∈ events ∧ s ≤ t) → (∃ start e, (start, some e) ∈ events ∧ t ≤ e) → (t ∈ bars ↔ t ∈ bars')) :
    getIndMatrix events bars = getIndMatrix events bars' := by
  by_cases hm : ∃ e ∈ events, e.1 = none ∨ e.2 = none
  · rw [getIndMatrix_missing _ _ hm, getIndMatrix_missing _ _ hm]
  · obtain ⟨ev, rfl⟩ := exists_present events hm
    have hb : barIndex ev bars = barIndex ev bars' := by
      apply eq_of_mem_iff_of_pairwise_lt (barIndex_sorted _ _) (barIndex_sorted _ _)
      intro x
      rw [mem_barIndex, mem_barIndex]
      have key : (∃ e ∈ ev, e.1 ≤ x) → (∃ e ∈ ev, x ≤ e.2) → (x ∈ bars ↔ x ∈ bars') := by
        rintro ⟨e, he, h1⟩ ⟨e', he', h2⟩
        exact h x ⟨e.1, some e.2, List.mem_map.2 ⟨e, he, rfl⟩, h1⟩ ⟨some e'.1, e'.2, List.mem_map.2 ⟨e', he', rfl⟩, h2⟩
      constructor
      · rintro (h1 | h1 | ⟨h1, h2, h3⟩)
        · exact Or.inl h1
        · exact Or.inr (Or.inl h1)
        · exact Or.inr (Or.inr ⟨(key h2 h3).1 h1, h2, h3⟩)
      · rintro (h1 | h1 | ⟨h1, h2, h3⟩)
        · exact Or.inl h1
        · exact Or.inr (Or.inl h1)
        · exact Or.inr (Or.inr ⟨(key h2 h3).2 h1, h2, h3⟩)
    have hr : rawMatrix ev bars = rawMatrix ev bars' := by unfold rawMatrix; rw [hb]
    rw [getIndMatrix_present, getIndMatrix_present, hr, hb]

example : ((getIndMatrix [(some 10, some 30), (some 20, some 40)] [5, 40, 20, 25, 25, 99, 10]).map fun r => (r.1.toLists, r.2)) =
    (getIndMatrix [(some 10, some 30), (some 20, some 40)] [25]).map fun r => (r.1.toLists, r.2) := by decide +kernel

/-- C97 for the order of the events: a permuted frame gives every event the same uniqueness. -/
theorem C97_order (X Y : List (ℤ × ℤ)) (hp : X.Perm Y) (hlen : 2 ≤ X.length) (hnd : (X.map (·.1)).Nodup) (hse : ∀ e ∈ X, e.1 ≤ e.2) :
    ∃ u : ℤ × ℤ → ℚ,
      averageUniqueness (X.map fun e => (e.1, some e.2)) = .ok (X.map fun e => (e.1, .fin (u e))) ∧
      averageUniqueness (Y.map fun e => (e.1, some e.2)) = .ok (Y.map fun e => (e.1, .fin (u e))) := by
  refine ⟨uniq X, (C13_transform X hlen hnd hse).1, ?_⟩
  rw [(C13_transform Y (hp.length_eq ▸ hlen) ((hp.map _).nodup_iff.1 hnd) (fun e he => hse e (hp.mem_iff.2 he))).1]
  have hu : ∀ e, eventUniq (Y.map (·.1) ++ Y.map (·.2)).toFinset Y e = uniq X e := by
    intro e
    have ht : (Y.map (·.1) ++ Y.map (·.2)).toFinset = (X.map (·.1) ++ X.map (·.2)).toFinset :=
      List.toFinset_eq_of_perm _ _ ((hp.symm.map _).append (hp.symm.map _))
    have ha : ∀ t, aliveAt Y t = aliveAt X t := fun t => ((hp.symm.filter _).length_eq)
    unfold uniq eventUniq
    rw [ht]
    simp only [ha]
  simp only [hu]

example : [((1 : ℤ), (3 : ℤ)), (2, 6), (4, 5)].Perm [(4, 5), (1, 3), (2, 6)] ∧
    averageUniqueness [(4, some 5), (1, some 3), (2, some 6)] = .ok [(4, .fin (1/2)), (1, .fin (2/3)), (2, .fin (3/5))] := by
  constructor <;> decide +kernel

/-- C97 for the order of the events and the time-decay weights: they are returned in time order, so a permuted frame gives the
same result. -/
theorem C97_order_decay (c : ℚ) (X Y : List (ℤ × ℤ)) (hp : X.Perm Y) (hlen : 2 ≤ X.length) (hnd : (X.map (·.1)).Nodup)
    (hse : ∀ e ∈ X, e.1 ≤ e.2) :
    timeDecay c (X.map fun e => (e.1, some e.2)) = timeDecay c (Y.map fun e => (e.1, some e.2)) := by
  obtain ⟨u, h1, h2⟩ := C97_order X Y hp hlen hnd hse
  have hs : sorted X = sorted Y := by
    have hl := sorted_lt X hnd
    have hl' := sorted_lt Y ((hp.map _).nodup_iff.1 hnd)
    rw [List.pairwise_map] at hl hl'
    exact (((sorted_perm X).trans hp).trans (sorted_perm Y).symm).eq_of_pairwise
      (fun a b _ _ hab hba => absurd hab (not_lt_of_gt hba)) hl hl'
  have hm : ∀ Z : List (ℤ × ℤ), (Z.map fun e => (e.1, (XF.fin (u e) : XF ℚ))).insertionSort (fun a b => a.1 ≤ b.1) =
      (sorted Z).map fun e => (e.1, XF.fin (u e)) := by
    intro Z
    symm
    exact List.map_insertionSort _ _ _ _ (fun a _ b _ => Iff.rfl)
  unfold timeDecay
  rw [h1, h2]
  simp only [hm, hs]

example : timeDecay (1/2) [(4, some 5), (1, some 3), (2, some 6)] = timeDecay (1/2) [(1, some 3), (2, some 6), (4, some 5)] := by
  decide +kernel

end Mizar.Props
