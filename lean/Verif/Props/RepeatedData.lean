import Verif.Model.Repeated
import Verif.Lemmas.Pipeline

/-!
Property theorems C158: training sets of bars that share a time (`/repo/mizarlabs/model/pipeline.py` lines 316-342).
-/

set_option linter.unusedSectionVars false

namespace Mizar.Props
open Mizar.Spec Mizar.Pipe
variable {K : Type} [Field K] [LinearOrder K]

/-- The features of bar number `i`: the values of all frames in its row. -/
def barFeatures (d : Dict K) (i : ℕ) : List (XF K) := d.flatMap fun p => (p.2.rows.map (·.2)).getD i []

/-- The numbers of the bars at time `t`. -/
def barsAt (idx : List ℤ) (t : ℤ) : List ℕ := (List.range idx.length).filter fun i => decide (idx.getD i 0 = t)

/-- The times that have a target, in the order of the target. -/
def labelledTimes (y : Ser K) : List ℤ := (y.filter fun r => !r.2.isNan).map (·.1)

theorem locAll_ok {α : Type*} (rows : List (ℤ × α)) (labels : List ℤ) (h : ∀ t ∈ labels, t ∈ rows.map (·.1)) :
    locAll rows labels = .ok (labels.flatMap fun t => rows.filter fun r => decide (r.1 = t)) := by
  unfold locAll
  have : mapE (fun t => if (rows.filter fun r => decide (r.1 = t)).isEmpty then (.error .keyError : Py (List (ℤ × α)))
      else .ok (rows.filter fun r => decide (r.1 = t))) labels = .ok (labels.map fun t => rows.filter fun r => decide (r.1 = t)) := by
    apply mapE_ok_of_forall
    intro t ht
    rw [if_neg]
    obtain ⟨r, hr, rfl⟩ := List.mem_map.1 (h t ht)
    rw [List.isEmpty_iff]
    intro he
    have := List.filter_eq_nil_iff.1 he r hr
    simp at this
  rw [this, Py.bind_ok, List.flatMap_def]

private theorem filter_barsAt (rows : List (ℤ × List (XF K))) (t : ℤ) :
    (rows.filter fun r => decide (r.1 = t)) = (barsAt (rows.map (·.1)) t).map fun i => ((rows.map (·.1)).getD i 0, (rows.map (·.2)).getD i []) := by
  have e : rows = (List.range rows.length).map fun i => ((rows.map (·.1)).getD i 0, (rows.map (·.2)).getD i []) := by
    apply List.ext_getElem
    · simp
    · intro i h1 h2
      have h3 : i < (rows.map (·.1)).length := by simpa using h1
      have h4 : i < (rows.map (·.2)).length := by simpa using h1
      rw [List.getElem_map, List.getElem_range, List.getD_eq_getElem _ _ h3, List.getD_eq_getElem _ _ h4, List.getElem_map, List.getElem_map]
  conv_lhs => rw [e]
  rw [List.filter_map]
  unfold barsAt
  simp only [List.length_map]
  rfl

/-- The joined rows before and after dropping, for frames that share their index. -/
private theorem joined (d : Dict K) (idx : List ℤ) (hd : d ≠ []) (hi : ∀ p ∈ d, p.2.index = idx) (labels : List ℤ) (hl : ∀ t ∈ labels, t ∈ idx) :
    (mapE (fun p : String × Frame K => do
      let rows ← locAll p.2.rows labels
      .ok (⟨p.2.cols, rows⟩ : Frame K)) d >>= concatRows) =
    .ok ⟨d.flatMap (·.2.cols), (labels.flatMap (barsAt idx)).map fun i => (idx.getD i 0, barFeatures d i)⟩ := by
  set P := labels.flatMap (barsAt idx) with hP
  have h1 : mapE (fun p : String × Frame K => do
      let rows ← locAll p.2.rows labels
      .ok (⟨p.2.cols, rows⟩ : Frame K)) d =
      .ok (d.map fun p => ⟨p.2.cols, P.map fun i => (idx.getD i 0, (p.2.rows.map (·.2)).getD i [])⟩) := by
    apply mapE_ok_of_forall
    intro p hp
    have hpi : p.2.rows.map (·.1) = idx := hi p hp
    rw [locAll_ok p.2.rows labels (by rw [hpi]; exact hl), Py.bind_ok, hP, List.map_flatMap]
    congr 2
    refine List.flatMap_congr fun t _ => ?_
    rw [filter_barsAt, hpi]
  rw [h1, Py.bind_ok]
  obtain ⟨p0, d', rfl⟩ := List.exists_cons_of_ne_nil hd
  have hidx : ∀ p : String × Frame K, (⟨p.2.cols, P.map fun i => (idx.getD i 0, (p.2.rows.map (·.2)).getD i [])⟩ : Frame K).index =
      P.map fun i => idx.getD i 0 := by
    intro p
    unfold Frame.index
    dsimp only
    rw [List.map_map]
    rfl
  unfold concatRows
  rw [if_neg (by simp), if_pos]
  · simp only [List.map_cons, List.headD_cons]
    rw [hidx p0]
    congr 1
    congr 1
    · simp [List.flatMap_map]
    · apply List.ext_getElem
      · simp
      · intro q h2 h3
        have hq : q < P.length := by simpa using h3
        rw [List.getElem_map, List.getElem_range, List.getElem_map, List.getD_eq_getElem _ _ (by simpa using hq), List.getElem_map]
        congr 1
        unfold barFeatures
        rw [← List.map_cons (f := fun p : String × Frame K => (⟨p.2.cols, P.map fun i => (idx.getD i 0, (p.2.rows.map (·.2)).getD i [])⟩ : Frame K)),
          List.flatMap_map]
        refine List.flatMap_congr fun p _ => ?_
        dsimp only
        rw [List.map_map, List.getD_eq_getElem _ _ (by simpa using hq), List.getElem_map]
        rfl
  · rw [List.all_eq_true]
    intro f hf
    obtain ⟨p, _, rfl⟩ := List.mem_map.1 hf
    rw [decide_eq_true_eq, hidx p, List.map_cons, List.headD_cons, hidx p0]

private theorem mem_barsAt {idx : List ℤ} {t : ℤ} {i : ℕ} : i ∈ barsAt idx t ↔ idx[i]? = some t := by
  unfold barsAt
  rw [List.mem_filter, List.mem_range, decide_eq_true_eq]
  constructor
  · rintro ⟨h1, h2⟩
    rw [List.getD_eq_getElem _ _ h1] at h2
    rw [List.getElem?_eq_getElem h1, h2]
  · intro h
    obtain ⟨h1, h2⟩ := List.getElem?_eq_some_iff.1 h
    exact ⟨h1, by rw [List.getD_eq_getElem _ _ h1, h2]⟩

theorem length_flatMap_gt {α β : Type*} (l : List α) (g : α → List β) (h1 : ∀ a ∈ l, 1 ≤ (g a).length) (a : α) (ha : a ∈ l) (h2 : 2 ≤ (g a).length) :
    l.length < (l.flatMap g).length := by
  have hle : ∀ l : List α, (∀ a ∈ l, 1 ≤ (g a).length) → l.length ≤ (l.flatMap g).length := by
    intro l
    induction l with
    | nil => simp
    | cons b l ih =>
      intro h
      have := ih fun a ha => h a (by simp [ha])
      have := h b (by simp)
      simp only [List.length_cons, List.flatMap_cons, List.length_append]
      omega
  induction l with
  | nil => simp at ha
  | cons b l ih =>
    simp only [List.length_cons, List.flatMap_cons, List.length_append]
    rcases List.mem_cons.1 ha with rfl | ha
    · have := hle l fun a ha => h1 a (by simp [ha])
      omega
    · have := ih (fun a ha => h1 a (by simp [ha])) ha
      have := h1 b (by simp)
      omega

private theorem data_eq (d : Dict K) (idx : List ℤ) (hd : d ≠ []) (hi : ∀ p ∈ d, p.2.index = idx) (y : Ser K)
    (hy : ∀ t ∈ labelledTimes y, t ∈ idx) :
    alignXyAny d y =
      (if ((labelledTimes y).flatMap fun t => (barsAt idx t).filter fun i => complete (barFeatures d i)).length ≠
        ((((labelledTimes y).flatMap fun t => (barsAt idx t).filter fun i => complete (barFeatures d i)).map fun i => idx.getD i 0).flatMap
          fun t => y.filter fun r => decide (r.1 = t)).length then .error .valueError
      else (do
        let _ ← checkXy ⟨d.flatMap (·.2.cols), (((labelledTimes y).flatMap fun t => (barsAt idx t).filter fun i => complete (barFeatures d i))).map
            fun i => (idx.getD i 0, barFeatures d i)⟩
          ((((labelledTimes y).flatMap fun t => (barsAt idx t).filter fun i => complete (barFeatures d i)).map fun i => idx.getD i 0).flatMap
            fun t => y.filter fun r => decide (r.1 = t))
        .ok (⟨d.flatMap (·.2.cols), (((labelledTimes y).flatMap fun t => (barsAt idx t).filter fun i => complete (barFeatures d i))).map
            fun i => (idx.getD i 0, barFeatures d i)⟩,
          ((((labelledTimes y).flatMap fun t => (barsAt idx t).filter fun i => complete (barFeatures d i)).map fun i => idx.getD i 0).flatMap
            fun t => y.filter fun r => decide (r.1 = t))))) := by
  set Q := (labelledTimes y).flatMap fun t => (barsAt idx t).filter fun i => complete (barFeatures d i) with hQ
  unfold alignXyAny
  have hj := joined d idx hd hi (labelledTimes y) hy
  unfold labelledTimes at hj
  rw [← bind_assoc, hj, Py.bind_ok]
  have hdrop : (⟨d.flatMap (·.2.cols), (((y.filter fun r => !r.2.isNan).map (·.1)).flatMap (barsAt idx)).map fun i => (idx.getD i 0, barFeatures d i)⟩ : Frame K).dropna =
      ⟨d.flatMap (·.2.cols), Q.map fun i => (idx.getD i 0, barFeatures d i)⟩ := by
    unfold Frame.dropna
    dsimp only
    rw [List.filter_map, List.filter_flatMap]
    rfl
  rw [hdrop]
  have hix : (⟨d.flatMap (·.2.cols), Q.map fun i => (idx.getD i 0, barFeatures d i)⟩ : Frame K).index = Q.map fun i => idx.getD i 0 := by
    unfold Frame.index
    dsimp only
    rw [List.map_map]
    rfl
  rw [hix, locAll_ok y _ (by
    intro t ht
    obtain ⟨i, hi, rfl⟩ := List.mem_map.1 ht
    obtain ⟨s, hs, his⟩ := List.mem_flatMap.1 hi
    have h1 := mem_barsAt.1 (List.mem_filter.1 his).1
    rw [List.getD_eq_getElem?_getD, h1, Option.getD_some]
    obtain ⟨r, hr, rfl⟩ := List.mem_map.1 hs
    exact List.mem_map.2 ⟨r, (List.mem_filter.1 hr).1, rfl⟩), Py.bind_ok]
  rw [List.length_map]

private theorem length_filter_count (y : Ser K) (t : ℤ) : (y.filter fun r => decide (r.1 = t)).length = (y.map (·.1)).count t := by
  rw [List.count, List.countP_map, List.countP_eq_length_filter]
  congr 1

/-- **C158** (shared times are refused) When the target has two rows for a time, one of them with a value, and some bar of this time has all its
features, no training set can be made: `ValueError`.  The frames share an index that has all labelled times. -/
theorem C158_shared_time_refused (d : Dict K) (idx : List ℤ) (hd : d ≠ []) (hi : ∀ p ∈ d, p.2.index = idx) (y : Ser K)
    (hy : ∀ t ∈ labelledTimes y, t ∈ idx) (t : ℤ) (ht : t ∈ labelledTimes y) (h2 : 2 ≤ (y.map (·.1)).count t)
    (i : ℕ) (hit : idx[i]? = some t) (hc : ∀ x ∈ barFeatures d i, x.isNan = false) : alignXyAny d y = .error .valueError := by
  rw [data_eq d idx hd hi y hy, if_pos]
  apply ne_of_lt
  set Q := (labelledTimes y).flatMap fun t => (barsAt idx t).filter fun i => complete (barFeatures d i) with hQ
  have hmemQ : ∀ j ∈ Q, idx.getD j 0 ∈ labelledTimes y := by
    intro j hj
    obtain ⟨s, hs, his⟩ := List.mem_flatMap.1 hj
    have h1 := mem_barsAt.1 (List.mem_filter.1 his).1
    rw [List.getD_eq_getElem?_getD, h1, Option.getD_some]
    exact hs
  have h3 := length_flatMap_gt (Q.map fun i => idx.getD i 0) (fun t => y.filter fun r => decide (r.1 = t)) (by
    intro s hs
    obtain ⟨j, hj, rfl⟩ := List.mem_map.1 hs
    rw [length_filter_count]
    obtain ⟨r, hr, he⟩ := List.mem_map.1 (hmemQ j hj)
    exact List.count_pos_iff.2 (List.mem_map.2 ⟨r, (List.mem_filter.1 hr).1, he⟩)) t (by
    refine List.mem_map.2 ⟨i, List.mem_flatMap.2 ⟨t, ht, List.mem_filter.2 ⟨mem_barsAt.2 hit, ?_⟩⟩, by rw [List.getD_eq_getElem?_getD, hit]; rfl⟩
    unfold complete
    rw [List.all_eq_true]
    intro x hx
    rw [hc x hx]
    rfl) (by rw [length_filter_count]; exact h2)
  simpa using h3

/-- **C158** (what a training set contains) When a training set is made, it has, for every labelled time in the order of the target, one row for each
bar of this time that has all its features; each row comes with the only target of its time. -/
theorem C158_training_set (d : Dict K) (idx : List ℤ) (hd : d ≠ []) (hi : ∀ p ∈ d, p.2.index = idx) (y : Ser K)
    (hy : ∀ t ∈ labelledTimes y, t ∈ idx) (X : Frame K) (ya : Ser K) (h : alignXyAny d y = .ok (X, ya)) :
    X.rows = ((labelledTimes y).flatMap fun t => (barsAt idx t).filter fun i => complete (barFeatures d i)).map (fun i => (idx.getD i 0, barFeatures d i)) ∧
      ya.map (·.1) = X.index ∧ ∀ r ∈ ya, r ∈ y ∧ r.2.isNan = false ∧ (y.map (·.1)).count r.1 = 1 := by
  rw [data_eq d idx hd hi y hy] at h
  set Q := (labelledTimes y).flatMap fun t => (barsAt idx t).filter fun i => complete (barFeatures d i) with hQ
  split at h
  · cases h
  rename_i hlen
  rw [Py.bind_eq_ok] at h
  obtain ⟨u, hu, h⟩ := h
  obtain ⟨rfl, rfl⟩ := Prod.mk.inj (Except.ok.inj h)
  have hpos : ∀ t ∈ Q.map fun i => idx.getD i 0, 1 ≤ (y.filter fun r => decide (r.1 = t)).length := by
    intro s hs
    obtain ⟨j, hj, rfl⟩ := List.mem_map.1 hs
    obtain ⟨s, hs, his⟩ := List.mem_flatMap.1 hj
    have h1 := mem_barsAt.1 (List.mem_filter.1 his).1
    rw [List.getD_eq_getElem?_getD, h1, Option.getD_some, length_filter_count]
    obtain ⟨r, hr, he⟩ := List.mem_map.1 hs
    exact List.count_pos_iff.2 (List.mem_map.2 ⟨r, (List.mem_filter.1 hr).1, he⟩)
  have hone : ∀ t ∈ Q.map fun i => idx.getD i 0, (y.filter fun r => decide (r.1 = t)).length = 1 := by
    intro t ht
    by_contra hne
    have := length_flatMap_gt (Q.map fun i => idx.getD i 0) (fun t => y.filter fun r => decide (r.1 = t)) hpos t ht (by have := hpos t ht; omega)
    rw [List.length_map] at this
    omega
  refine ⟨rfl, ?_, ?_⟩
  · unfold Frame.index
    dsimp only
    rw [List.map_map, List.map_flatMap]
    have : ∀ L : List ℤ, (∀ t ∈ L, (y.filter fun r => decide (r.1 = t)).length = 1) →
        (L.flatMap fun t => (y.filter fun r => decide (r.1 = t)).map (·.1)) = L := by
      intro L
      induction L with
      | nil => intro _; rfl
      | cons t L ih =>
        intro hL
        rw [List.flatMap_cons, ih fun s hs => hL s (by simp [hs])]
        obtain ⟨r, hr⟩ := List.length_eq_one_iff.1 (hL t (by simp))
        have hrt : r.1 = t := by
          have : r ∈ y.filter fun r => decide (r.1 = t) := by rw [hr]; simp
          simpa using (List.mem_filter.1 this).2
        rw [hr, List.map_singleton, hrt]
        rfl
    rw [this _ hone]
    rfl
  · intro r hr
    obtain ⟨t, ht, hrt⟩ := List.mem_flatMap.1 hr
    obtain ⟨h1, h2⟩ := List.mem_filter.1 hrt
    rw [decide_eq_true_eq] at h2
    have h3 := hone t ht
    rw [length_filter_count, ← h2] at h3
    refine ⟨h1, ?_, h3⟩
    unfold checkXy at hu
    split at hu
    · cases hu
    · split at hu
      · rename_i hh
        have := List.all_eq_true.1 hh.2 r hr
        cases hx : r.2.isNan with
        | false => rfl
        | true => simp [XF.undef, hx] at this
      · cases hu

theorem filter_of_nodup {α : Type*} (rows : List (ℤ × α)) (hn : (rows.map (·.1)).Nodup) (t : ℤ) :
    (rows.filter fun r => decide (r.1 = t)) = (rows.find? fun r => decide (r.1 = t)).toList := by
  induction rows with
  | nil => rfl
  | cons r rows ih =>
    rw [List.map_cons, List.nodup_cons] at hn
    by_cases h : r.1 = t
    · rw [List.filter_cons_of_pos (by simpa using h), List.find?_cons_of_pos (by simpa using h), List.filter_eq_nil_iff.2]
      · rfl
      · intro s hs hc
        rw [decide_eq_true_eq] at hc
        exact hn.1 (List.mem_map.2 ⟨s, hs, hc.trans h.symm⟩)
    · rw [List.filter_cons_of_neg (by simpa using h), List.find?_cons_of_neg (by simpa using h), ih hn.2]

theorem locAll_nodup {α : Type*} (rows : List (ℤ × α)) (hn : (rows.map (·.1)).Nodup) (labels : List ℤ) :
    locAll rows labels = mapE (fun t => match rows.find? fun r => decide (r.1 = t) with
      | none => .error .keyError
      | some r => .ok (t, r.2)) labels := by
  unfold locAll
  induction labels with
  | nil => rfl
  | cons t labels ih =>
    simp only [mapE] at ih ⊢
    rw [filter_of_nodup rows hn t]
    cases hf : rows.find? fun r => decide (r.1 = t) with
    | none => rfl
    | some r =>
      have hr : r.1 = t := by simpa using List.find?_some hf
      simp only [Option.toList_some, List.isEmpty_cons, Bool.false_eq_true, if_false]
      rw [← ih]
      cases mapE (fun t => if (rows.filter fun r => decide (r.1 = t)).isEmpty then (.error .keyError : Py (List (ℤ × α)))
        else .ok (rows.filter fun r => decide (r.1 = t))) labels with
      | error e => rfl
      | ok L =>
        subst hr
        rfl

theorem concat_nodup (fs : List (Frame K)) (labels : List ℤ) (hn : labels.Nodup) (h : ∀ f ∈ fs, f.index = labels) :
    concatRows fs = concatOuter fs := by
  unfold concatRows
  by_cases hf : fs = []
  · subst hf; rfl
  rw [if_neg hf]
  obtain ⟨f0, fs', rfl⟩ := List.exists_cons_of_ne_nil hf
  have h0 : f0.index = labels := h f0 (by simp)
  rw [if_pos (by
    rw [List.all_eq_true]
    intro f hfm
    rw [decide_eq_true_eq, List.headD_cons, h f hfm, h0])]
  unfold concatOuter
  rw [if_neg hf]
  congr 2
  have hj : joinIndex ((f0 :: fs').map (·.index)) = labels := by
    unfold joinIndex
    rw [if_pos]
    · rw [List.map_cons, List.headD_cons, h0]
    · rw [List.all_eq_true]
      intro i hi
      obtain ⟨f, hfm, rfl⟩ := List.mem_map.1 hi
      rw [decide_eq_true_eq, List.map_cons, List.headD_cons, h f hfm, h0]
  rw [hj, List.headD_cons, h0]
  apply List.ext_getElem
  · simp
  · intro i h1 h2
    have hi : i < labels.length := by simpa using h1
    rw [List.getElem_map, List.getElem_range, List.getElem_map, List.getD_eq_getElem _ _ hi]
    congr 1
    refine List.flatMap_congr fun f hfm => ?_
    have hfi : f.rows.map (·.1) = labels := h f hfm
    have hil : i < f.rows.length := by rw [← hfi] at hi; simpa using hi
    have hkey : f.rows.find? (fun r => decide (r.1 = labels[i])) = some f.rows[i] := by
      have h3 := filter_of_nodup f.rows (by rw [hfi]; exact hn) labels[i]
      have hmem : f.rows[i] ∈ f.rows.filter fun r => decide (r.1 = labels[i]) := by
        rw [List.mem_filter]
        refine ⟨List.getElem_mem hil, ?_⟩
        rw [decide_eq_true_eq]
        have : (f.rows.map (·.1))[i]'(by simpa using hil) = labels[i] := by simp only [hfi]
        rw [List.getElem_map] at this
        exact this
      rw [h3] at hmem
      exact (Option.mem_toList.1 hmem)
    unfold Frame.row?
    rw [hkey, List.getD_eq_getElem _ _ (by simpa using hil), List.getElem_map]
    rfl

/-- **C158** (distinct times) When no frame and no target has two rows with the same time, training sets are those of C49. -/
theorem C158_distinct_times_partial (d : Dict K) (hd : ∀ p ∈ d, p.2.index.Nodup) (y : Ser K) (hy : (y.map (·.1)).Nodup) :
    alignXyAny d y = alignXy d y true := by
  unfold alignXyAny alignXy
  rw [if_pos rfl]
  have h1 : mapE (fun p : String × Frame K => do
      let rows ← locAll p.2.rows ((y.filter fun r => !r.2.isNan).map (·.1))
      .ok (⟨p.2.cols, rows⟩ : Frame K)) d = mapE (fun p => locRows p.2 ((y.filter fun r => !r.2.isNan).map (·.1))) d := by
    apply mapE_congr
    intro p hp
    rw [locAll_nodup p.2.rows (hd p hp)]
    unfold locRows Frame.row?
    congr 1
    apply mapE_congr
    intro t _
    cases p.2.rows.find? fun r => decide (r.1 = t) <;> rfl
  rw [h1]
  have hlab : ((y.filter fun r => !r.2.isNan).map (·.1)).Nodup := hy.sublist (List.filter_sublist.map _)
  cases hm : mapE (fun p : String × Frame K => locRows p.2 ((y.filter fun r => !r.2.isNan).map (·.1))) d with
  | error e => rfl
  | ok fs =>
    rw [Py.bind_ok, Py.bind_ok]
    have hfs : ∀ f ∈ fs, f.index = (y.filter fun r => !r.2.isNan).map (·.1) := by
      intro f hf
      have h2 := (mapE_eq_ok_iff _ _ _).1 hm
      obtain ⟨j, hj⟩ := List.getElem?_of_mem hf
      have hjl := (List.getElem?_eq_some_iff.1 hj).1
      have h3 := (List.forall₂_iff_get.1 h2).2 j (by rw [(List.forall₂_iff_get.1 h2).1]; exact hjl) hjl
      rw [List.get_eq_getElem, List.get_eq_getElem, (List.getElem?_eq_some_iff.1 hj).2] at h3
      exact (locRows_ok h3).2.1
    rw [concat_nodup fs _ hlab hfs]
    cases hX : concatOuter fs with
    | error e => rfl
    | ok X =>
      have hls : locAll y X.dropna.index = locSer y X.dropna.index := by
        rw [locAll_nodup y hy]
        unfold locSer
        apply mapE_congr
        intro t _
        cases y.find? fun r => decide (r.1 = t) <;> rfl
      rw [Py.bind_ok, Py.bind_ok, hls]
      cases hl : locSer y X.dropna.index with
      | error e => rfl
      | ok ya =>
        rw [Py.bind_ok, Py.bind_ok, if_neg]
        have := mapE_length hl
        rw [not_not, this]
        simp [Frame.index]

section Examples

/-- Two feature frames on three bars, two of them at time 20. -/
def sharedBars : Dict ℚ := [("price", ⟨["c"], [(10, [.fin 1]), (20, [.fin 2]), (20, [.fin 3])]⟩), ("volume", ⟨["v"], [(10, [.fin 7]), (20, [.fin 8]), (20, [.fin 9])]⟩)]

/-- C158 fails: three bars with all their features and targets give no training set, because two of them share a time. -/
theorem C158_refuted : alignXyAny sharedBars [(10, .fin 1), (20, .fin (-1)), (20, .fin 1)] = .error .valueError ∧
    (∀ i < 3, complete (barFeatures sharedBars i) = true) := by
  refine ⟨C158_shared_time_refused sharedBars [10, 20, 20] (by simp [sharedBars]) (by decide) _ (by decide) 20 (by decide) (by decide) 1 rfl (by decide), by decide⟩

/-- Without a target at the shared time: the other bar is used, with its features and target. -/
example : ∃ X ya, alignXyAny sharedBars [(10, .fin 1), (20, .nan), (20, .nan)] = .ok (X, ya) ∧ X.rows = [(10, [.fin 1, .fin 7])] ∧ ya = [(10, .fin 1)] :=
  ⟨⟨["c", "v"], [(10, [.fin 1, .fin 7])]⟩, [(10, .fin 1)], by decide +kernel, rfl, rfl⟩

/-- One target for the two bars at time 20: it is used for both. -/
example : ∃ X ya, alignXyAny sharedBars [(10, .fin 1), (20, .fin (-1))] = .ok (X, ya) ∧
    X.rows = [(10, [.fin 1, .fin 7]), (20, [.fin 2, .fin 8]), (20, [.fin 3, .fin 9])] ∧ ya = [(10, .fin 1), (20, .fin (-1)), (20, .fin (-1))] :=
  ⟨⟨["c", "v"], [(10, [.fin 1, .fin 7]), (20, [.fin 2, .fin 8]), (20, [.fin 3, .fin 9])]⟩, [(10, .fin 1), (20, .fin (-1)), (20, .fin (-1))],
    by decide +kernel, rfl, rfl⟩

example (X : Frame ℚ) (ya : Ser ℚ) (h : alignXyAny sharedBars [(10, .fin 1), (20, .fin (-1))] = .ok (X, ya)) : ya.map (·.1) = X.index :=
  (C158_training_set sharedBars [10, 20, 20] (by simp [sharedBars]) (by decide) _ (by decide) X ya h).2.1

example : alignXyAny [("price", (⟨["c"], [(10, [.fin 1]), (20, [.fin 2])]⟩ : Frame ℚ))] [(20, .fin 1), (10, .fin 0)] =
    alignXy [("price", ⟨["c"], [(10, [.fin 1]), (20, [.fin 2])]⟩)] [(20, .fin 1), (10, .fin 0)] true :=
  C158_distinct_times_partial _ (by decide) _ (by decide)

end Examples

end Mizar.Props
