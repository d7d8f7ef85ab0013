import Mathlib.Data.List.Dedup
import Verif.Lemmas.OofProba

/-!
C91: probabilities of the primary model collected fold by fold.
C92: the check of the metalabels.
-/

set_option linter.unusedSectionVars false

namespace Mizar.Props
open Mizar.Spec Mizar.Pipe
variable {K : Type} [Field K] [LinearOrder K]

/-- C91: after the calls for the folds of a cross validation the frame has its old rows, times and columns, with one new
column per class.  A row in some fold holds the probabilities of the last such fold, a row in none holds missing values. -/
theorem C91_out_of_fold_partial (f : Frame K) (n : ℕ) (folds : List (Fold K)) (hwf : f.WF) (hs : f.index.Pairwise (· < ·))
    (hold : ∀ i, probaName i ∉ f.cols) (hn : 0 < n) (hne : folds ≠ []) (h : ∀ fo ∈ folds, FoldOf f n fo) :
    ∃ g, predProbaFolds f folds = .ok g ∧ g.cols = f.cols ++ (List.range n).map probaName ∧ g.index = f.index ∧
      ∀ (i : ℕ) (r : ℤ × List (XF K)), f.rows[i]? = some r → ∃ w, g.rows[i]? = some (r.1, r.2 ++ w) ∧
        (∀ f1 fo f2 p, folds = f1 ++ fo :: f2 → Gives fo r.1 p → (∀ fo' ∈ f2, r.1 ∉ fo'.idx) → w = p) ∧
        ((∀ fo ∈ folds, r.1 ∉ fo.idx) → w = List.replicate n .nan) := by
  refine ⟨_, folds_eq f n folds hwf hs hold hn hne h, rfl, withCols_index _ _ _, ?_⟩
  intro i r hr
  refine ⟨folds.foldl (fun a fo => upd fo r.1 a) (nanRow n), by simp only [withCols, List.getElem?_map, hr, Option.map_some], ?_, ?_⟩
  · rintro f1 fo f2 p rfl hg hlast
    exact foldl_upd_last f1 f2 fo r.1 _ p (h fo (by simp)).unique hg hlast
  · intro hnone
    exact foldl_upd_none folds r.1 _ hnone

/-- C91: when every time is in exactly one fold, each row holds the probabilities of that fold, and a row without missing
features and probabilities has no missing value. -/
theorem C91_partition_partial (f : Frame K) (n : ℕ) (folds : List (Fold K)) (hwf : f.WF) (hs : f.index.Pairwise (· < ·))
    (hold : ∀ i, probaName i ∉ f.cols) (hn : 0 < n) (hne : folds ≠ []) (h : ∀ fo ∈ folds, FoldOf f n fo)
    (hpart : ∀ t ∈ f.index, ∃ f1 fo f2, folds = f1 ++ fo :: f2 ∧ t ∈ fo.idx ∧ (∀ fo' ∈ f1, t ∉ fo'.idx) ∧
      ∀ fo' ∈ f2, t ∉ fo'.idx) :
    ∃ g, predProbaFolds f folds = .ok g ∧ g.index = f.index ∧
      ∀ (i : ℕ) (r : ℤ × List (XF K)), f.rows[i]? = some r → ∃ fo ∈ folds, ∃ w, Gives fo r.1 w ∧
        (∀ fo' ∈ folds, ∀ w', Gives fo' r.1 w' → w' = w) ∧ g.rows[i]? = some (r.1, r.2 ++ w) ∧
        (complete r.2 = true → complete w = true → complete (r.2 ++ w) = true) := by
  obtain ⟨g, hg, -, hidx, hrows⟩ := C91_out_of_fold_partial f n folds hwf hs hold hn hne h
  refine ⟨g, hg, hidx, ?_⟩
  intro i r hr
  obtain ⟨w, hw, hlast, -⟩ := hrows i r hr
  obtain ⟨f1, fo, f2, hf, hmem, hb, ha⟩ := hpart r.1 (List.mem_map.2 ⟨r, List.mem_of_getElem? hr, rfl⟩)
  have hfo : fo ∈ folds := by rw [hf]; simp
  obtain ⟨j, hj, hjt⟩ := List.getElem_of_mem hmem
  have hjp : j < fo.proba.length := by rw [(h fo hfo).rows]; exact hj
  have hgv : Gives fo r.1 fo.proba[j] := ⟨j, by rw [List.getElem?_eq_getElem hj, hjt], List.getElem?_eq_getElem hjp⟩
  have hwe := hlast f1 fo f2 _ hf hgv ha
  refine ⟨fo, hfo, w, hwe ▸ hgv, ?_, hw, ?_⟩
  · intro fo' hfo' w' hg'
    have hmem' : r.1 ∈ fo'.idx := List.mem_of_getElem? hg'.choose_spec.1
    rw [hf, List.mem_append, List.mem_cons] at hfo'
    rcases hfo' with hm | rfl | hm
    · exact absurd hmem' (hb fo' hm)
    · exact (hlast f1 fo' f2 _ hf hg' ha).symm
    · exact absurd hmem' (ha fo' hm)
  · intro h1 h2
    unfold complete at *
    rw [List.all_append, h1, h2]; rfl

/-- C91: a primary model without `predict_proba` is refused. -/
theorem C91_no_proba (n : ℕ) (f : Frame K) (idx : List ℤ) :
    predProbaFeatures none n f idx = .error .attributeError := rfl

/-- C91: once the columns exist, a fold with a time outside the frame raises `KeyError`. -/
theorem C91_unknown_later (f : Frame K) (n : ℕ) (fo : Fold K) (hc : ∀ i < fo.n, probaName i ∈ f.cols) (t : ℤ)
    (ht : t ∈ fo.idx) (hnot : t ∉ f.index) :
    predProbaFeatures (some fo.proba) fo.n f fo.idx = .error .keyError := by
  unfold predProbaFeatures
  dsimp only
  rw [if_pos (by
    intro c hc'
    obtain ⟨i, hi, rfl⟩ := List.mem_map.1 hc'
    exact hc i (List.mem_range.1 hi))]
  unfold locAssign
  rw [if_neg (fun hall => hnot (hall t ht))]

/-- C91: in the first fold a time outside the frame is not an error.  It becomes a row of missing features. -/
theorem C91_unknown_first (f : Frame K) (n : ℕ) (fo : Fold K) (hold : ∀ i, probaName i ∉ f.cols) (hn : 0 < fo.n)
    (hrows : fo.proba.length = fo.idx.length) (hwidth : ∀ w ∈ fo.proba, w.length = fo.n) (t : ℤ)
    (ht : t ∈ fo.idx) (hnot : t ∉ f.index) :
    ∃ g, predProbaFeatures (some fo.proba) fo.n f fo.idx = .ok g ∧
      ∃ w, (t, List.replicate f.cols.length .nan ++ w) ∈ g.rows := by
  unfold predProbaFeatures
  dsimp only
  rw [if_neg (fun hc => hold 0 (hc _ (mem_probaNames.2 hn)))]
  unfold mkRows
  rw [if_pos ⟨hrows, hwidth⟩]
  simp only [Py.bind_ok]
  unfold concatOuter
  rw [if_neg (by simp)]
  refine ⟨_, rfl, ?_⟩
  refine ⟨((⟨(List.range fo.n).map probaName, fo.idx.zip fo.proba⟩ : Frame K).row? t).getD
    (nanRow ((List.range fo.n).map probaName).length), ?_⟩
  dsimp only
  rw [List.mem_map]
  refine ⟨t, ?_, ?_⟩
  · rw [mem_joinIndex _ _ (by simp)]
    refine ⟨fo.idx, ?_, ht⟩
    simp only [List.map_cons, List.map_nil, Frame.index, List.mem_cons, List.not_mem_nil, or_false]
    right
    rw [List.map_fst_zip (by omega)]
  · simp only [List.flatMap_cons, List.flatMap_nil, List.append_nil, Prod.mk.injEq, true_and]
    have : f.row? t = none := by
      unfold Frame.row?
      rw [List.find?_eq_none.2]
      · rfl
      · intro r hr hc
        exact hnot (List.mem_map.2 ⟨r, hr, by simpa using hc⟩)
    rw [this]; rfl

/-- A frame with two rows, and a model that saw two classes in the first fold and three in the second. -/
def oofTwoRows : Frame ℚ := ⟨["x"], [(0, [.fin 5]), (1, [.fin 6])]⟩
def twoThree : List (Fold ℚ) := [⟨2, [0], [[.fin (1/4), .fin (3/4)]]⟩, ⟨3, [1], [[.fin (1/2), .fin (1/4), .fin (1/4)]]⟩]
def threeTwo : List (Fold ℚ) := [⟨3, [1], [[.fin (1/2), .fin (1/4), .fin (1/4)]]⟩, ⟨2, [0], [[.fin (1/4), .fin (3/4)]]⟩]

/-- C91 fails when the models of the folds saw different numbers of classes: a later fold with more classes adds columns
with names already in use, a later fold with fewer classes leaves values missing although every row is in a fold. -/
theorem C91_classes_refuted :
    (∃ g, predProbaFolds oofTwoRows twoThree = .ok g ∧ ¬ g.cols.Nodup) ∧
      ∃ g, predProbaFolds oofTwoRows threeTwo = .ok g ∧ ∃ r ∈ g.rows, complete r.2 = false := by
  have key : ∀ (x : Py (Frame ℚ)) (p : Frame ℚ → Bool),
      (match x with | .ok g => p g | .error _ => false) = true → ∃ g, x = .ok g ∧ p g = true := by
    intro x p h
    cases x with
    | ok g => exact ⟨g, rfl, h⟩
    | error e => simp at h
  obtain ⟨g, hg, h⟩ := key (predProbaFolds oofTwoRows twoThree) (fun g => decide (¬ g.cols.Nodup)) (by decide +kernel)
  obtain ⟨g', hg', h'⟩ := key (predProbaFolds oofTwoRows threeTwo) (fun g => decide (∃ r ∈ g.rows, complete r.2 = false))
    (by decide +kernel)
  exact ⟨⟨g, hg, of_decide_eq_true h⟩, ⟨g', hg', of_decide_eq_true h'⟩⟩

/-- Two folds of two classes on a frame of three rows meet the hypotheses of C91. -/
def oofFrame : Frame ℚ := ⟨["x"], [(0, [.fin 5]), (1, [.fin 6]), (2, [.fin 7])]⟩
def oofFolds : List (Fold ℚ) :=
  [⟨2, [0, 2], [[.fin (1/4), .fin (3/4)], [.fin 1, .fin 0]]⟩, ⟨2, [1], [[.fin (1/2), .fin (1/2)]]⟩]

example : oofFrame.WF ∧ oofFrame.index.Pairwise (· < ·) ∧ (∀ i, probaName i ∉ oofFrame.cols) ∧ oofFolds ≠ [] ∧
    (∀ fo ∈ oofFolds, FoldOf oofFrame 2 fo) := by
  refine ⟨by unfold Frame.WF; decide, by decide, ?_, by decide, ?_⟩
  · intro i hi
    have hi : probaName i = "x" := by simpa [oofFrame] using hi
    unfold probaName at hi
    have := congrArg String.toList hi
    rw [String.toList_append] at this
    have h2 := congrArg List.length this
    rw [List.length_append] at h2
    have h1 : ("primary_side_pred_proba_" : String).toList.length = 24 := by decide +kernel
    have h3 : ("x" : String).toList.length = 1 := by decide +kernel
    omega
  · intro fo hfo
    simp only [oofFolds, List.mem_cons, List.not_mem_nil, or_false] at hfo
    rcases hfo with rfl | rfl
    · exact ⟨rfl, by decide, by decide, rfl, by decide⟩
    · exact ⟨rfl, by decide, by decide, rfl, by decide⟩

example : ∀ t ∈ oofFrame.index, ∃ f1 fo f2, oofFolds = f1 ++ fo :: f2 ∧ t ∈ fo.idx ∧ (∀ fo' ∈ f1, t ∉ fo'.idx) ∧
      ∀ fo' ∈ f2, t ∉ fo'.idx := by
  intro t ht
  simp only [oofFrame, Frame.index, List.map_cons, List.map_nil, List.mem_cons, List.not_mem_nil, or_false] at ht
  rcases ht with rfl | rfl | rfl
  · exact ⟨[], _, _, rfl, by decide, by simp, by decide⟩
  · exact ⟨[_], _, [], rfl, by decide, by decide, by simp⟩
  · exact ⟨[], _, _, rfl, by decide, by simp, by decide⟩

/-- C92: the check refuses the metalabels exactly if there is at least one and all are equal; it says `incorrect` for
zeros and `correct` otherwise. -/
theorem C92_check (y : List K) (word : String) :
    checkYMetalabel y = some word ↔
      ∃ u, y ≠ [] ∧ (∀ v ∈ y, v = u) ∧ word = if u = 0 then "incorrect" else "correct" := by
  have key : ∀ u, y.dedup = [u] ↔ y ≠ [] ∧ ∀ v ∈ y, v = u := by
    intro u
    constructor
    · intro h
      have hm : ∀ v, v ∈ y ↔ v = u := fun v => by rw [← List.mem_dedup, h, List.mem_singleton]
      exact ⟨List.ne_nil_of_mem ((hm u).2 rfl), fun v hv => (hm v).1 hv⟩
    · rintro ⟨hne, hall⟩
      have hu : u ∈ y := by
        obtain ⟨a, l, rfl⟩ := List.exists_cons_of_ne_nil hne
        rw [← hall a (by simp)]; simp
      have hd := List.nodup_dedup y
      have hm : ∀ v ∈ y.dedup, v = u := fun v hv => hall v (List.mem_dedup.1 hv)
      have hu' : u ∈ y.dedup := List.mem_dedup.2 hu
      match hy : y.dedup, hd, hm, hu' with
      | [], _, _, hu' => simp at hu'
      | [a], _, hm, _ => rw [hm a (by simp)]
      | a :: b :: l, hd, hm, _ =>
        exfalso
        have h1 := hm a (by simp)
        have h2 := hm b (by simp)
        rw [h1, h2] at hd
        simp at hd
  unfold checkYMetalabel
  split
  · rename_i u hu
    have hk := (key u).1 hu
    simp only [Option.some.injEq]
    constructor
    · intro h; exact ⟨u, hk.1, hk.2, h.symm⟩
    · rintro ⟨u', -, hall, rfl⟩
      obtain ⟨a, l, hy⟩ := List.exists_cons_of_ne_nil hk.1
      have ha : a ∈ y := by rw [hy]; simp
      rw [← hall a ha, ← hk.2 a ha]
  · rename_i hn
    constructor
    · intro h; simp at h
    · rintro ⟨u, hne, hall, -⟩
      exact absurd ((key u).2 ⟨hne, hall⟩) (hn u)

/-- C92: for metalabels made from predictions and labels, the check refuses with `incorrect` exactly if the primary model
is wrong on every sample, with `correct` exactly if it is right on every sample, and passes exactly if it is right on one
sample and wrong on another (or there is no sample). -/
theorem C92_primary (pl : List (K × K)) :
    let y : List K := pl.map fun p => if p.1 = p.2 then 1 else 0
    (checkYMetalabel y = some "incorrect" ↔ pl ≠ [] ∧ ∀ p ∈ pl, p.1 ≠ p.2) ∧
    (checkYMetalabel y = some "correct" ↔ pl ≠ [] ∧ ∀ p ∈ pl, p.1 = p.2) ∧
    (checkYMetalabel y = none ↔ pl = [] ∨ ((∃ p ∈ pl, p.1 = p.2) ∧ ∃ p ∈ pl, p.1 ≠ p.2)) := by
  intro y
  have hi : checkYMetalabel y = some "incorrect" ↔ pl ≠ [] ∧ ∀ p ∈ pl, p.1 ≠ p.2 := by
    rw [C92_check]
    constructor
    · rintro ⟨u, hne, hall, hw⟩
      have hu : u = 0 := by
        by_contra hu
        rw [if_neg hu] at hw
        exact absurd hw (by decide)
      subst hu
      refine ⟨by rintro rfl; exact hne rfl, ?_⟩
      intro p hp he
      have := hall _ (List.mem_map.2 ⟨p, hp, rfl⟩)
      rw [if_pos he] at this
      exact one_ne_zero this
    · rintro ⟨hne, hall⟩
      refine ⟨0, by simpa [y] using hne, ?_, by simp⟩
      intro v hv
      obtain ⟨p, hp, rfl⟩ := List.mem_map.1 hv
      rw [if_neg (hall p hp)]
  have hc : checkYMetalabel y = some "correct" ↔ pl ≠ [] ∧ ∀ p ∈ pl, p.1 = p.2 := by
    rw [C92_check]
    constructor
    · rintro ⟨u, hne, hall, hw⟩
      have hu : u ≠ 0 := by
        intro hu
        rw [if_pos hu] at hw
        exact absurd hw (by decide)
      refine ⟨by rintro rfl; exact hne rfl, ?_⟩
      intro p hp
      have := hall _ (List.mem_map.2 ⟨p, hp, rfl⟩)
      by_contra he
      rw [if_neg he] at this
      exact hu this.symm
    · rintro ⟨hne, hall⟩
      refine ⟨1, by simpa [y] using hne, ?_, by simp⟩
      intro v hv
      obtain ⟨p, hp, rfl⟩ := List.mem_map.1 hv
      rw [if_pos (hall p hp)]
  refine ⟨hi, hc, ?_⟩
  have hsome : checkYMetalabel y = none ↔ ¬ (checkYMetalabel y = some "incorrect") ∧ ¬ (checkYMetalabel y = some "correct") := by
    constructor
    · intro h; rw [h]; simp
    · rintro ⟨h1, h2⟩
      cases hr : checkYMetalabel y with
      | none => rfl
      | some w =>
        obtain ⟨u, _, _, hw⟩ := (C92_check y w).1 hr
        rw [hr] at h1 h2
        exfalso
        by_cases hu : u = 0
        · rw [if_pos hu] at hw; exact h1 (by rw [hw])
        · rw [if_neg hu] at hw; exact h2 (by rw [hw])
  rw [hsome, hi, hc]
  constructor
  · rintro ⟨h1, h2⟩
    by_cases hne : pl = []
    · exact Or.inl hne
    · right
      constructor
      · by_contra hn; push Not at hn; exact h1 ⟨hne, hn⟩
      · by_contra hn; push Not at hn; exact h2 ⟨hne, hn⟩
  · rintro (rfl | ⟨⟨p, hp, he⟩, ⟨q, hq, hd⟩⟩)
    · simp
    · exact ⟨fun h => h.2 p hp he, fun h => hd (h.2 q hq)⟩

example : checkYMetalabel ([0, 0] : List ℚ) = some "incorrect" ∧ checkYMetalabel ([1] : List ℚ) = some "correct" ∧
    checkYMetalabel ([1, 0, 1] : List ℚ) = none := by decide +kernel

end Mizar.Props
