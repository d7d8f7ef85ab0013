import Verif.Props.Technical

/-!
Property theorems C54 for every price path and every index: missing prices and times that occur twice
(`/repo/mizarlabs/transformers/technical/moving_average.py` lines 52-97).
-/

namespace Mizar.Props
open Mizar.Spec Mizar.Tech

section
variable {K : Type} [Field K] [LinearOrder K]

/-- Some bar at the time of bar `i` is an upward crossing. -/
def UpAt (fast slow : ℕ) (idx : List ℤ) (l : List (XF K)) (i : ℕ) : Prop := ∃ j, j < idx.length ∧ idx[j]? = idx[i]? ∧ UpCross fast slow l j

/-- Some bar at the time of bar `i` is a downward crossing and none an upward one. -/
def DownAt (fast slow : ℕ) (idx : List ℤ) (l : List (XF K)) (i : ℕ) : Prop :=
  (∃ j, j < idx.length ∧ idx[j]? = idx[i]? ∧ DownCross fast slow l j) ∧ ¬ UpAt fast slow idx l i

private theorem mem_flags (flags : List Bool) (idx : List ℤ) (t : ℤ) :
    t ∈ (idx.zip flags).filterMap (fun r => if r.2 then some r.1 else none) ↔ ∃ j : ℕ, idx[j]? = some t ∧ flags[j]? = some true := by
  rw [List.mem_filterMap]
  constructor
  · rintro ⟨⟨a, b⟩, h1, h2⟩
    obtain ⟨j, hj⟩ := List.mem_iff_getElem?.1 h1
    rw [List.getElem?_zip_eq_some] at hj
    refine ⟨j, ?_⟩
    by_cases hb : b = true
    · subst hb
      simp only [if_true, Option.some.injEq] at h2
      exact ⟨h2 ▸ hj.1, hj.2⟩
    · simp [hb] at h2
  · rintro ⟨j, h1, h2⟩
    exact ⟨(t, true), List.mem_iff_getElem?.2 ⟨j, List.getElem?_zip_eq_some.2 ⟨h1, h2⟩⟩, rfl⟩

private theorem mem_labels_any (p q : XF K → XF K → Bool) (idx : List ℤ) (fa sl : List (XF K)) (t : ℤ) :
    t ∈ crossLabels p q idx fa sl ↔ ∃ j, j < idx.length ∧ idx[j]? = some t ∧
      (j : ℤ) ∈ crossLabels p q ((List.range idx.length).map fun (k : ℕ) => (k : ℤ)) fa sl := by
  unfold crossLabels
  rw [mem_flags]
  have e : ∀ j k : ℕ, ((List.range idx.length).map fun (k : ℕ) => (k : ℤ))[k]? = some (j : ℤ) ↔ k = j ∧ j < idx.length := by
    intro j k
    rw [List.getElem?_map]
    by_cases hk : k < idx.length
    · rw [List.getElem?_range hk]
      simp only [Option.map_some, Option.some.injEq, Nat.cast_inj]
      constructor
      · rintro rfl; exact ⟨rfl, hk⟩
      · exact fun h => h.1
    · rw [List.getElem?_eq_none (by simpa using hk)]
      simp only [Option.map_none, reduceCtorEq, false_iff]
      rintro ⟨rfl, h⟩; exact hk h
  constructor
  · rintro ⟨j, h1, h2⟩
    have hj := (List.getElem?_eq_some_iff.1 h1).1
    exact ⟨j, hj, h1, (mem_flags _ _ _).2 ⟨j, (e j j).2 ⟨rfl, hj⟩, h2⟩⟩
  · rintro ⟨j, hj, h1, h2⟩
    obtain ⟨k, h3, h4⟩ := (mem_flags _ _ _).1 h2
    obtain ⟨rfl, -⟩ := (e j k).1 h3
    exact ⟨k, h1, h4⟩

private theorem cross_any (fast slow : ℕ) (hf : 1 ≤ fast) (hs : 1 ≤ slow) (idx : List ℤ) (l : List (XF K)) (hl : l.length = idx.length) (i : ℕ)
    (hi : i < idx.length) :
    (idx[i] ∈ upCross idx (rolling fast winMean l) (rolling slow winMean l) ↔ UpAt fast slow idx l i) ∧
    (idx[i] ∈ downCross idx (rolling fast winMean l) (rolling slow winMean l) ↔
      ∃ j, j < idx.length ∧ idx[j]? = idx[i]? ∧ DownCross fast slow l j) := by
  have hnd : ((List.range idx.length).map fun (k : ℕ) => (k : ℤ)).Nodup :=
    List.Nodup.map (fun a b h => by exact_mod_cast h) List.nodup_range
  have key := fun j (hj : j < idx.length) => cross_iff fast slow hf hs ((List.range idx.length).map fun (k : ℕ) => (k : ℤ)) l hnd (by simpa using hl) j
    (by simpa using hj)
  simp only [List.getElem_map, List.getElem_range] at key
  unfold upCross downCross UpAt at *
  rw [mem_labels_any, mem_labels_any, List.getElem?_eq_getElem hi]
  constructor
  · constructor
    · rintro ⟨j, h1, h2, h3⟩; exact ⟨j, h1, h2, (key j h1).1.1 h3⟩
    · rintro ⟨j, h1, h2, h3⟩; exact ⟨j, h1, h2, (key j h1).1.2 h3⟩
  · constructor
    · rintro ⟨j, h1, h2, h3⟩; exact ⟨j, h1, h2, (key j h1).2.1 h3⟩
    · rintro ⟨j, h1, h2, h3⟩; exact ⟨j, h1, h2, (key j h1).2.2 h3⟩

private theorem side_any (fast slow : ℕ) (hf : 1 ≤ fast) (hs : 1 ≤ slow) (idx : List ℤ) (l : List (XF K)) (hl : l.length = idx.length) (x : XF K)
    (i : ℕ) (hi : i < idx.length) :
    (UpAt fast slow idx l i → (idx.map fun t =>
      if t ∈ upCross idx (rolling fast winMean l) (rolling slow winMean l) then .fin 1
      else if t ∈ downCross idx (rolling fast winMean l) (rolling slow winMean l) then .fin (-1) else x)[i]? = some (.fin 1)) ∧
    (DownAt fast slow idx l i → (idx.map fun t =>
      if t ∈ upCross idx (rolling fast winMean l) (rolling slow winMean l) then .fin 1
      else if t ∈ downCross idx (rolling fast winMean l) (rolling slow winMean l) then .fin (-1) else x)[i]? = some (.fin (-1))) ∧
    (¬ UpAt fast slow idx l i → ¬ DownAt fast slow idx l i → (idx.map fun t =>
      if t ∈ upCross idx (rolling fast winMean l) (rolling slow winMean l) then .fin 1
      else if t ∈ downCross idx (rolling fast winMean l) (rolling slow winMean l) then .fin (-1) else x)[i]? = some x) := by
  obtain ⟨h1, h2⟩ := cross_any fast slow hf hs idx l hl i hi
  rw [List.getElem?_map, List.getElem?_eq_getElem hi, Option.map_some]
  refine ⟨fun h => ?_, fun h => ?_, fun h h' => ?_⟩
  · rw [if_pos (h1.2 h)]
  · rw [if_neg (fun hc => h.2 (h1.1 hc)), if_pos (h2.2 h.1)]
  · rw [if_neg (fun hc => h (h1.1 hc)), if_neg (fun hc => h' ⟨h2.1 hc, h⟩)]

/-- **C54** Without filling, for every price path and every index: 1 exactly at the times of upward crossings, -1 exactly at the times of
downward crossings that are not times of upward ones, 0 elsewhere. -/
theorem C54_any_index [IsStrictOrderedRing K] (fast slow : ℕ) (hf : 1 ≤ fast) (hs : fast ≤ slow) (name : String) (f : Frame K) (hc : name ∈ f.cols) :
    ∃ out, crossOver fast slow name false f = .ok out ∧ out.length = f.index.length ∧ ∀ i < f.index.length,
      (UpAt fast slow f.index (f.values name) i ↔ out[i]? = some (.fin 1)) ∧
      (DownAt fast slow f.index (f.values name) i ↔ out[i]? = some (.fin (-1))) ∧
      (¬ UpAt fast slow f.index (f.values name) i ∧ ¬ DownAt fast slow f.index (f.values name) i ↔ out[i]? = some (.fin 0)) := by
  obtain ⟨fa, sl, rfl, rfl, he⟩ := crossOver_eq fast slow name false f hc
  have hl : (f.values name).length = f.index.length := by simp [Frame.values, Frame.index]
  have h10 : (1 : K) ≠ -1 := by
    intro h
    have : (0 : K) < 1 := zero_lt_one
    linarith
  refine ⟨_, he, by simp, fun i hi => ?_⟩
  obtain ⟨h1, h2, h3⟩ := side_any fast slow hf (by omega) f.index (f.values name) hl (.fin 0) i hi
  have hcomp : pdFfill (f.index.map fun t =>
      if t ∈ upCross f.index (rolling fast winMean (f.values name)) (rolling slow winMean (f.values name)) then .fin (1 : K)
      else if t ∈ downCross f.index (rolling fast winMean (f.values name)) (rolling slow winMean (f.values name)) then .fin (-1)
      else if false = true then .nan else .fin 0) = f.index.map fun t =>
      if t ∈ upCross f.index (rolling fast winMean (f.values name)) (rolling slow winMean (f.values name)) then .fin (1 : K)
      else if t ∈ downCross f.index (rolling fast winMean (f.values name)) (rolling slow winMean (f.values name)) then .fin (-1)
      else .fin 0 := by
    unfold pdFfill
    rw [pdFfillFrom_complete]
    · simp
    · intro x hx
      obtain ⟨t, -, rfl⟩ := List.mem_map.1 hx
      split
      · rfl
      · split <;> rfl
  rw [hcomp, List.getElem?_map]
  by_cases hu : UpAt fast slow f.index (f.values name) i
  · have hd : ¬ DownAt fast slow f.index (f.values name) i := fun h => h.2 hu
    rw [h1 hu]
    simp [fillna1, hu, hd, h10]
  · by_cases hd : DownAt fast slow f.index (f.values name) i
    · rw [h2 hd]
      simp [fillna1, hu, hd, h10.symm]
    · rw [h3 hu hd]
      simp [fillna1, hu, hd]

/-- **C54** With filling, for every price path and every index: the side of a bar is that of the latest bar up to it whose time is the time of
a crossing, and 0 before the first. -/
theorem C54_filled (fast slow : ℕ) (hf : 1 ≤ fast) (hs : fast ≤ slow) (name : String) (f : Frame K) (hc : name ∈ f.cols) :
    ∃ out, crossOver fast slow name true f = .ok out ∧ out.length = f.index.length ∧ ∀ i < f.index.length,
      ((∀ j ≤ i, ¬ UpAt fast slow f.index (f.values name) j ∧ ¬ DownAt fast slow f.index (f.values name) j) → out[i]? = some (.fin 0)) ∧
      ∀ j ≤ i, (∀ k, j < k → k ≤ i → ¬ UpAt fast slow f.index (f.values name) k ∧ ¬ DownAt fast slow f.index (f.values name) k) →
        (UpAt fast slow f.index (f.values name) j → out[i]? = some (.fin 1)) ∧
        (DownAt fast slow f.index (f.values name) j → out[i]? = some (.fin (-1))) := by
  obtain ⟨fa, sl, rfl, rfl, he⟩ := crossOver_eq fast slow name true f hc
  have hl : (f.values name).length = f.index.length := by simp [Frame.values, Frame.index]
  refine ⟨_, he, by simp, fun i hi => ?_⟩
  simp only [if_true]
  have key := side_any fast slow hf (by omega) f.index (f.values name) hl .nan
  rw [List.getElem?_map]
  unfold pdFfill
  refine ⟨fun h => ?_, fun j hj h => ⟨fun hu => ?_, fun hd => ?_⟩⟩
  · rw [pdFfillFrom_getElem?_none _ _ i (by simpa using hi) fun k hk => (key k (by omega)).2.2 (h k hk).1 (h k hk).2]
    rfl
  · rw [pdFfillFrom_getElem?_last _ _ i j hj (by simpa using hi) _ ((key j (by omega)).1 hu) rfl
      fun k h1 h2 => (key k (by omega)).2.2 (h k h1 h2).1 (h k h1 h2).2]
    rfl
  · rw [pdFfillFrom_getElem?_last _ _ i j hj (by simpa using hi) _ ((key j (by omega)).2.1 hd) rfl
      fun k h1 h2 => (key k (by omega)).2.2 (h k h1 h2).1 (h k h1 h2).2]
    rfl

end

/-- A case of `C54_any_index` and `C54_filled`: a time that occurs twice, then a gap. -/
example : crossOver 1 2 "close" false ⟨["close"], [(1, [.fin 3]), (2, [.fin 2]), (2, [.fin (4 : ℚ)]), (3, [.nan]), (4, [.fin 1])]⟩ =
      .ok [.fin 0, .fin 1, .fin 1, .fin 0, .fin 0] ∧
    crossOver 1 2 "close" true ⟨["close"], [(1, [.fin 3]), (2, [.fin 2]), (2, [.fin (4 : ℚ)]), (3, [.nan]), (4, [.fin 1])]⟩ =
      .ok [.fin 0, .fin 1, .fin 1, .fin 1, .fin 1] := by
  decide +kernel

/-- The bar before the crossing, at the same time, counts as one. -/
example : UpAt 1 2 [1, 2, 2, 3, 4] [.fin 3, .fin 2, .fin (4 : ℚ), .nan, .fin 1] 1 := by
  refine ⟨2, by decide, rfl, 2, 5 / 2, 4, 3, by omega, ⟨by omega, fun _ => 2, ?_, by norm_num⟩, ⟨by omega, fun j => if j = 0 then 2 else 3, ?_, ?_⟩,
    ⟨by omega, fun _ => 4, ?_, by norm_num⟩, ⟨by omega, fun j => if j = 0 then 4 else 2, ?_, ?_⟩, by norm_num, by norm_num⟩
  · intro j hj
    have : j = 0 := by omega
    subst this; rfl
  · intro j hj
    have : j = 0 ∨ j = 1 := by omega
    rcases this with rfl | rfl <;> rfl
  · simp [Finset.sum_range_succ]; norm_num
  · intro j hj
    have : j = 0 := by omega
    subst this; rfl
  · intro j hj
    have : j = 0 ∨ j = 1 := by omega
    rcases this with rfl | rfl <;> rfl
  · simp [Finset.sum_range_succ]; norm_num

end Mizar.Props
