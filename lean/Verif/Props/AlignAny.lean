import Verif.Spec.AlignAny
import Verif.Props.Align

/-!
Property theorems C44 for features with missing values and alignment times in any order and at any date
(`/repo/mizarlabs/model/pipeline.py` lines 199-243).
-/

set_option linter.unusedSectionVars false

namespace Mizar.Props
open Mizar.Spec Mizar.Pipe

section
variable {K : Type*} [Field K] [LinearOrder K]

private theorem alignLoop_step (agg : List (List (XF K)) → Py (List (XF K))) (rows : List (ℤ × List (XF K))) (prev t : ℤ) (ts : List ℤ) :
    alignLoop agg rows prev (t :: ts) = (do
      let c ← cell agg (subset rows prev t)
      let rest ← alignLoop agg rows (max prev t) ts
      .ok (c :: rest)) := by
  rw [alignLoop]
  have hlt : ∀ r, r ∈ subset rows prev t → max prev t = t := by
    intro r hr
    have := (List.mem_filter.1 hr).2
    simp at this
    exact max_eq_right (by omega)
  rcases hs : subset rows prev t with _ | ⟨r₁, _ | ⟨r₂, rs⟩⟩
  · simp only [cell]
    rw [alignLoop_prev agg rows ts prev (max prev t) (le_max_left _ _) (by
      intro r hr ⟨a, b⟩
      have hb : r.1 ≤ t := by
        rcases le_max_iff.1 b with h | h
        · omega
        · exact h
      have : r ∈ subset rows prev t := by simp [subset, hr, a, hb]
      rw [hs] at this; simp at this)]
    cases alignLoop agg rows (max prev t) ts <;> rfl
  · rw [hlt r₁ (by rw [hs]; simp)]
    simp only [cell]
    cases alignLoop agg rows t ts <;> rfl
  · rw [hlt r₁ (by rw [hs]; simp)]
    simp only [cell]
    cases agg ((r₁ :: r₂ :: rs).map (·.2)) <;> cases alignLoop agg rows t ts <;> rfl

theorem alignLoop_any (agg : List (List (XF K)) → Py (List (XF K))) (rows : List (ℤ × List (XF K))) (prev : ℤ) (idx : List ℤ) :
    alignLoop agg rows prev idx = mapE (fun i => cell agg (rows.filter fun r =>
      decide (prev < r.1) && decide (∀ k < i, idx.getD k 0 < r.1) && decide (r.1 ≤ idx.getD i 0))) (List.range idx.length) := by
  induction idx generalizing prev with
  | nil => rfl
  | cons t ts ih =>
    rw [alignLoop_step, ih, List.length_cons, List.range_succ_eq_map, mapE, mapE_map]
    have e1 : (rows.filter fun r => decide (prev < r.1) && decide (∀ k < 0, (t :: ts).getD k 0 < r.1) && decide (r.1 ≤ (t :: ts).getD 0 0)) =
        subset rows prev t := by
      unfold subset
      apply List.filter_congr
      intro r _
      simp
    rw [e1]
    have e2 : mapE (fun i => cell agg (rows.filter fun r =>
        decide (max prev t < r.1) && decide (∀ k < i, ts.getD k 0 < r.1) && decide (r.1 ≤ ts.getD i 0))) (List.range ts.length) =
        mapE ((fun i => cell agg (rows.filter fun r =>
          decide (prev < r.1) && decide (∀ k < i, (t :: ts).getD k 0 < r.1) && decide (r.1 ≤ (t :: ts).getD i 0))) ∘ Nat.succ) (List.range ts.length) := by
      apply mapE_congr
      intro i _
      simp only [Function.comp]
      congr 1
      apply List.filter_congr
      intro r _
      have : (∀ k < i + 1, (t :: ts).getD k 0 < r.1) ↔ t < r.1 ∧ ∀ k < i, ts.getD k 0 < r.1 := by
        constructor
        · intro h
          exact ⟨by simpa using h 0 (by omega), fun k hk => by simpa using h (k + 1) (by omega)⟩
        · rintro ⟨h1, h2⟩ k hk
          cases k with
          | zero => simpa using h1
          | succ k => simpa using h2 k (by omega)
      simp only [Nat.succ_eq_add_one, List.getD_cons_succ, decide_eq_decide.2 this, Bool.decide_and, max_lt_iff]
      ac_rfl
    rw [e2]
    cases cell agg (subset rows prev t) with
    | error e => rfl
    | ok c =>
      simp only [Function.comp_def]
      cases mapE _ (List.range ts.length) <;> rfl

theorem ffill_cell (a : List (XF K)) (l : List (List (XF K))) (n i j : ℕ) (ha : a.length = n) (hw : ∀ r ∈ l, r.length = n)
    (hj : j < n) (hi : i < l.length) :
    ((ffillRowsFrom a l).getD i []).getD j .nan = if ((l.getD i []).getD j .nan).isNan then
      (if i = 0 then a.getD j .nan else ((ffillRowsFrom a l).getD (i - 1) []).getD j .nan) else (l.getD i []).getD j .nan := by
  induction l generalizing a i with
  | nil => simp at hi
  | cons r l ih =>
    have hr := hw r (by simp)
    cases i with
    | zero =>
      simp only [ffillRowsFrom, List.getD_cons_zero, if_true]
      have h1 : j < r.length := by omega
      have h2 : j < a.length := by omega
      simp [List.getD_eq_getElem?_getD, h1, h2]
    | succ i =>
      have := ih (List.zipWith (fun x l => if x.isNan then l else x) r a) i (by simp [hr, ha]) (fun r' h => hw r' (by simp [h])) (by simpa using hi)
      simp only [ffillRowsFrom, List.getD_cons_succ, Nat.add_sub_cancel]
      rw [this]
      cases i with
      | zero => simp
      | succ i => simp

private theorem add_nan_right (x : XF K) : XF.add x .nan = .nan := by cases x <;> rfl

private theorem foldl_add_nan_of (l : List (XF K)) (a : XF K) (h : .nan ∈ a :: l) : l.foldl XF.add a = .nan := by
  induction l generalizing a with
  | nil => simpa [eq_comm] using h
  | cons b l ih =>
    apply ih
    rcases List.mem_cons.1 h with h | h
    · rw [← h]; exact List.mem_cons.2 (Or.inl rfl)
    · rcases List.mem_cons.1 h with h | h
      · rw [← h, add_nan_right]; simp
      · exact List.mem_cons_of_mem _ h

private theorem foldl_minmax_nan (g : XF K → XF K → XF K) (g1 : ∀ x, g .nan x = .nan) (g2 : ∀ x, g x .nan = .nan) (l : List (XF K)) (a : XF K)
    (h : .nan ∈ a :: l) : l.foldl g a = .nan := by
  induction l generalizing a with
  | nil => simpa [eq_comm] using h
  | cons b l ih =>
    apply ih
    rcases List.mem_cons.1 h with h | h
    · rw [← h, g1]; simp
    · rcases List.mem_cons.1 h with h | h
      · rw [← h, g2]; simp
      · exact List.mem_cons_of_mem _ h

private theorem method_nan {m : String} {f : List (XF K) → XF K} (hf : alignMethods m = some f) (l : List (XF K)) (h : .nan ∈ l) : f l = .nan := by
  unfold alignMethods at hf
  split at hf
  · cases hf
    unfold npMean XF.sum
    rw [foldl_add_nan_of l _ (List.mem_cons_of_mem _ h)]
    rfl
  split at hf
  · cases hf
    cases l with
    | nil => simp at h
    | cons a l => exact foldl_minmax_nan xmin (fun x => by simp [xmin, XF.isNan]) (fun x => by cases x <;> simp [xmin, XF.isNan]) l a h
  split at hf
  · cases hf
    cases l with
    | nil => simp at h
    | cons a l => exact foldl_minmax_nan xmax (fun x => by simp [xmax, XF.isNan]) (fun x => by cases x <;> simp [xmax, XF.isNan]) l a h
  · cases hf

end

section
variable {K : Type*} [Field K] [LinearOrder K] [IsStrictOrderedRing K]

private theorem all_some_or (l : List (Option K)) : none ∈ l ∨ ∃ nums : List K, l = nums.map some := by
  induction l with
  | nil => exact Or.inr ⟨[], rfl⟩
  | cons a l ih =>
    cases a with
    | none => exact Or.inl (by simp)
    | some x =>
      rcases ih with h | ⟨nums, rfl⟩
      · exact Or.inl (by simp [h])
      · exact Or.inr ⟨x :: nums, rfl⟩

private theorem agg_opt (m : String) (hm : m = "mean" ∨ m = "min" ∨ m = "max") :
    ∃ f : List (XF K) → XF K, alignMethods m = some f ∧
      ∀ l : List (Option K), l ≠ [] → ∃ o, f (l.map orMissing) = orMissing o ∧ AggOrMissing m l o := by
  obtain ⟨f, hf, h⟩ := method_agg (K := K) m hm
  refine ⟨f, hf, fun l hl => ?_⟩
  rcases all_some_or l with hn | ⟨nums, rfl⟩
  · exact ⟨none, method_nan hf _ (List.mem_map.2 ⟨none, hn, rfl⟩), Or.inl ⟨rfl, Or.inr hn⟩⟩
  · have hne : nums ≠ [] := by simpa using hl
    obtain ⟨v, h1, h2⟩ := h nums hne
    refine ⟨some v, ?_, Or.inr ⟨nums, hne, rfl, v, rfl, h2⟩⟩
    rw [List.map_map]
    exact h1

private theorem getD_orMissing (r : List (Option K)) (j : ℕ) : (r.map orMissing).getD j .nan = orMissing (r.getD j none) := by
  rw [List.getD_eq_getElem?_getD, List.getD_eq_getElem?_getD, List.getElem?_map]
  cases r[j]? <;> rfl

theorem cell_opt (how : List (String × String)) (key m : String) (hl : how.lookup key = some m)
    (hm : m = "mean" ∨ m = "min" ∨ m = "max") (n : ℕ) (sub : List (ℤ × List (Option K))) (hw : ∀ r ∈ sub, r.2.length = n) :
    ∃ c, cell (aggregate how key n) (sub.map fun r => (r.1, r.2.map orMissing)) = .ok c ∧ (c.getD (nanRow n)).length = n ∧
      ∀ j < n, ∃ o, (c.getD (nanRow n)).getD j .nan = orMissing o ∧ AggOrMissing m (sub.map fun r => r.2.getD j none) o := by
  obtain ⟨f, hf, hagg⟩ := agg_opt (K := K) m hm
  rcases sub with _ | ⟨r₁, _ | ⟨r₂, rs⟩⟩
  · refine ⟨none, rfl, by simp [nanRow], fun j hj => ⟨none, ?_, Or.inl ⟨rfl, Or.inl rfl⟩⟩⟩
    simp [nanRow, List.getD_eq_getElem?_getD, hj, orMissing]
  · refine ⟨some (r₁.2.map orMissing), rfl, by simpa using hw r₁ (by simp), fun j hj => ⟨r₁.2.getD j none, getD_orMissing _ _, ?_⟩⟩
    simp only [List.map_cons, List.map_nil]
    cases r₁.2.getD j none with
    | none => exact Or.inl ⟨rfl, Or.inr (by simp)⟩
    | some v => exact Or.inr ⟨[v], by simp, rfl, v, rfl, agg_singleton m hm v⟩
  · generalize hsub : r₁ :: r₂ :: rs = sub at hw
    have hne : sub ≠ [] := by rw [← hsub]; simp
    have hc : cell (aggregate how key n) (sub.map fun r => (r.1, r.2.map orMissing)) =
        .ok (some (colAgg f n (sub.map fun r => r.2.map orMissing))) := by
      have : aggregate how key n (sub.map fun r => r.2.map orMissing) = .ok (colAgg f n (sub.map fun r => r.2.map orMissing)) := by
        simp [aggregate, hl, hf]
      rw [← hsub] at this ⊢
      simp only [List.map_cons, cell, List.map_map] at this ⊢
      simp only [Function.comp_def]
      rw [this]; rfl
    refine ⟨_, hc, by simp [colAgg], fun j hj => ?_⟩
    obtain ⟨o, h1, h2⟩ := hagg (sub.map fun r => r.2.getD j none) (by simpa using hne)
    refine ⟨o, ?_, h2⟩
    rw [← h1, Option.getD_some]
    unfold colAgg
    rw [List.getD_eq_getElem?_getD, List.getElem?_map, List.getElem?_range hj, Option.map_some, Option.getD_some, List.map_map, List.map_map]
    congr 1
    exact List.map_congr_left fun r _ => getD_orMissing r.2 j

/-- **C44** For feature rows with missing values, at any dates, and alignment times in any order: the call returns, every cell is the mean,
minimum or maximum of the cells of the rows after the earlier alignment times (and after 1 January 1700) up to this one if there are such rows
and none of these cells is missing; otherwise it is the cell of the alignment time before, and missing at the first. -/
theorem C44_any_rows (how : List (String × String)) (key m : String) (hl : how.lookup key = some m)
    (hm : m = "mean" ∨ m = "min" ∨ m = "max") (cols : List String) (rows : List (ℤ × List (Option K))) (idx : List ℤ)
    (hw : ∀ r ∈ rows, r.2.length = cols.length) (hrows : rows ≠ []) (hidx : idx ≠ []) :
    ∃ out : List (List (XF K)),
      alignFrame how key idx ⟨cols, rows.map fun r => (r.1, r.2.map orMissing)⟩ = .ok ⟨cols, idx.zip out⟩ ∧
      out.length = idx.length ∧ (∀ r ∈ out, r.length = cols.length) ∧
      ∀ i < idx.length, ∀ j < cols.length, ∃ o,
        AggOrMissing m ((sinceStart rows idx i).map fun r => r.getD j none) o ∧
        (out.getD i []).getD j .nan = match o with
          | some v => .fin v
          | none => if i = 0 then .nan else (out.getD (i - 1) []).getD j .nan := by
  have hcell : ∀ i, ∃ c,
      cell (aggregate how key cols.length) ((rows.map fun r => (r.1, r.2.map orMissing)).filter fun r =>
        decide (Y1700 < r.1) && decide (∀ k < i, idx.getD k 0 < r.1) && decide (r.1 ≤ idx.getD i 0)) = .ok c ∧
      (c.getD (nanRow cols.length)).length = cols.length ∧
      ∀ j < cols.length, ∃ o, (c.getD (nanRow cols.length)).getD j .nan = orMissing o ∧
        AggOrMissing m ((sinceStart rows idx i).map fun r => r.getD j none) o := by
    intro i
    rw [List.filter_map]
    obtain ⟨c, h1, h2, h3⟩ := cell_opt how key m hl hm cols.length (rows.filter fun r =>
      decide (Y1700 < r.1) && decide (∀ k < i, idx.getD k 0 < r.1) && decide (r.1 ≤ idx.getD i 0)) fun r hr => hw r (List.mem_filter.1 hr).1
    refine ⟨c, h1, h2, fun j hj => ?_⟩
    obtain ⟨o, h4, h5⟩ := h3 j hj
    refine ⟨o, h4, ?_⟩
    unfold sinceStart
    rw [List.map_map]
    exact h5
  choose c hc1 hc2 hc3 using hcell
  have hloop : alignLoop (aggregate how key cols.length) (rows.map fun r => (r.1, r.2.map orMissing)) Y1700 idx =
      .ok ((List.range idx.length).map c) := by
    rw [alignLoop_any]
    exact mapE_ok_of_forall _ _ _ fun i _ => hc1 i
  generalize hL : ((List.range idx.length).map c).map (fun c => c.getD (nanRow cols.length)) = L
  have hLi : ∀ i < idx.length, L.getD i [] = (c i).getD (nanRow cols.length) := by
    intro i hi
    rw [← hL, List.map_map, List.getD_eq_getElem?_getD, List.getElem?_map, List.getElem?_range hi]; rfl
  have hLw : ∀ r ∈ L, r.length = cols.length := by
    intro r hr
    rw [← hL, List.map_map, List.mem_map] at hr
    obtain ⟨i, -, rfl⟩ := hr
    exact hc2 i
  have hLl : L.length = idx.length := by rw [← hL]; simp
  have hwid : ∀ (l : List (List (XF K))) (a : List (XF K)), a.length = cols.length → (∀ r ∈ l, r.length = cols.length) →
      ∀ r ∈ ffillRowsFrom a l, r.length = cols.length := by
    intro l
    induction l with
    | nil => simp [ffillRowsFrom]
    | cons b l ih =>
      intro a ha hb r hr
      have hz : (List.zipWith (fun x l => if XF.isNan x then l else x) b a).length = cols.length := by simp [ha, hb b (by simp)]
      rcases List.mem_cons.1 hr with rfl | hr
      · exact hz
      · exact ih _ hz (fun r h => hb r (by simp [h])) r hr
  refine ⟨ffillRowsFrom (nanRow cols.length) L, ?_, by simp [hLl], hwid L _ (by simp [nanRow]) hLw, ?_⟩
  · unfold alignFrame
    have : ¬ ((rows.map fun r => (r.1, r.2.map orMissing)) = [] ∨ idx = []) := by simp [hrows, hidx]
    rw [if_neg this]
    simp only [hloop, Py.bind_ok, hL]
  · intro i hi j hj
    obtain ⟨o, h1, h2⟩ := hc3 i j hj
    refine ⟨o, h2, ?_⟩
    rw [ffill_cell (nanRow cols.length) L cols.length i j (by simp [nanRow]) hLw hj (by omega), hLi i hi, h1]
    cases o with
    | none =>
      rw [if_pos (by rfl)]
      by_cases h0 : i = 0
      · rw [if_pos h0, if_pos h0]; simp [nanRow, List.getD_eq_getElem?_getD, hj]
      · rw [if_neg h0, if_neg h0]
    | some v => rfl

private theorem mapE_two {α β : Type*} (f : α → Py β) (e : PyErr) (l : List α) (h : ∀ a ∈ l, f a = .error e ∨ ∃ b, f a = .ok b) :
    ((∃ a ∈ l, f a = .error e) → mapE f l = .error e) ∧ ((¬ ∃ a ∈ l, f a = .error e) → ∃ r, mapE f l = .ok r) := by
  induction l with
  | nil => exact ⟨by simp, fun _ => ⟨[], rfl⟩⟩
  | cons a l ih =>
    obtain ⟨i1, i2⟩ := ih fun b hb => h b (by simp [hb])
    rcases h a (by simp) with ha | ⟨b, hb⟩
    · exact ⟨fun _ => by simp only [mapE, ha], fun hn => absurd ⟨a, by simp, ha⟩ hn⟩
    · constructor
      · rintro ⟨a', h1, h2⟩
        rcases List.mem_cons.1 h1 with rfl | h1
        · rw [hb] at h2; cases h2
        · simp only [mapE, hb, i1 ⟨a', h1, h2⟩]
      · intro hn
        obtain ⟨r, hr⟩ := i2 fun ⟨a', h1, h2⟩ => hn ⟨a', by simp [h1], h2⟩
        exact ⟨b :: r, by simp only [mapE, hb, hr]⟩

/-- **C44** Without a known method for the key the call raises `KeyError` exactly if two rows fall to one alignment time, and otherwise
returns. -/
theorem C44_unknown_method (how : List (String × String)) (key : String)
    (hl : ∀ m, how.lookup key = some m → m ≠ "mean" ∧ m ≠ "min" ∧ m ≠ "max") (cols : List String) (rows : List (ℤ × List (XF K)))
    (idx : List ℤ) (hrows : rows ≠ []) (hidx : idx ≠ []) :
    ((∃ i < idx.length, 2 ≤ (sinceStart rows idx i).length) → alignFrame how key idx ⟨cols, rows⟩ = .error .keyError) ∧
    ((∀ i < idx.length, (sinceStart rows idx i).length < 2) → ∃ f, alignFrame how key idx ⟨cols, rows⟩ = .ok f) := by
  have hagg : ∀ S, aggregate (K := K) how key cols.length S = .error .keyError := by
    intro S
    unfold aggregate
    cases h : how.lookup key with
    | none => rfl
    | some m =>
      obtain ⟨h1, h2, h3⟩ := hl m h
      simp [alignMethods, h1, h2, h3]
  have hc : ∀ S : List (ℤ × List (XF K)), (2 ≤ S.length → cell (aggregate how key cols.length) S = .error .keyError) ∧
      (S.length < 2 → ∃ c, cell (aggregate how key cols.length) S = .ok c) := by
    intro S
    rcases S with _ | ⟨r₁, _ | ⟨r₂, rs⟩⟩
    · exact ⟨by simp, fun _ => ⟨_, rfl⟩⟩
    · exact ⟨by simp, fun _ => ⟨_, rfl⟩⟩
    · refine ⟨fun _ => ?_, fun h => by simp only [List.length_cons] at h; omega⟩
      simp only [cell, hagg]
      rfl
  have hlen : ∀ i, (sinceStart rows idx i).length = (rows.filter fun r =>
      decide (Y1700 < r.1) && decide (∀ k < i, idx.getD k 0 < r.1) && decide (r.1 ≤ idx.getD i 0)).length := by
    intro i; unfold sinceStart; rw [List.length_map]; rfl
  obtain ⟨m1, m2⟩ := mapE_two (fun i => cell (aggregate how key cols.length) (rows.filter fun r =>
      decide (Y1700 < r.1) && decide (∀ k < i, idx.getD k 0 < r.1) && decide (r.1 ≤ idx.getD i 0))) .keyError (List.range idx.length) (by
    intro i _
    rcases Nat.lt_or_ge (sinceStart rows idx i).length 2 with h | h
    · exact Or.inr ((hc _).2 (hlen i ▸ h))
    · exact Or.inl ((hc _).1 (hlen i ▸ h)))
  have hne : ¬ (rows = [] ∨ idx = []) := by simp [hrows, hidx]
  constructor
  · rintro ⟨i, hi, h2⟩
    unfold alignFrame
    rw [if_neg hne, alignLoop_any, m1 ⟨i, List.mem_range.2 hi, (hc _).1 (hlen i ▸ h2)⟩]
    rfl
  · intro h
    obtain ⟨r, hr⟩ := m2 (by
      rintro ⟨i, hi, he⟩
      obtain ⟨c, hc'⟩ := (hc _).2 (hlen i ▸ h i (List.mem_range.1 hi))
      rw [hc'] at he; cases he)
    unfold alignFrame
    rw [if_neg hne, alignLoop_any, hr]
    exact ⟨_, rfl⟩

end

/-- A case of `C44_any_rows`: times not in order, a row before 1700, a missing cell in an aggregate. -/
example : alignFrame (K := ℚ) [("vol", "mean")] "vol" [10, 5, 20] ⟨["v", "w"],
      [(-9000000000000000000, [some 9, some 9]), (3, [some 1, none]), (10, [some 3, some 4]), (15, [some 7, some 5])].map
        fun r => (r.1, r.2.map orMissing)⟩ =
      .ok ⟨["v", "w"], [(10, [.fin 2, .nan]), (5, [.fin 2, .nan]), (20, [.fin 7, .fin 5])]⟩ ∧
    sinceStart [(-9000000000000000000, [some (9 : ℚ), some 9]), (3, [some 1, none]), (10, [some 3, some 4]), (15, [some 7, some 5])] [10, 5, 20] 0 =
      [[some 1, none], [some 3, some 4]] := by
  decide +kernel

/-- A case of `C44_unknown_method`: two rows up to the first alignment time. -/
example : alignFrame (K := ℚ) [("vol", "median")] "vol" [10, 20] ⟨["v"], [(3, [.fin 1]), (10, [.fin 3])]⟩ = .error .keyError ∧
    alignFrame (K := ℚ) [("vol", "median")] "vol" [5, 20] ⟨["v"], [(3, [.fin 1]), (10, [.fin 3])]⟩ = .ok ⟨["v"], [(5, [.fin 1]), (20, [.fin 3])]⟩ := by
  decide +kernel

end Mizar.Props
