import Verif.Model.Repeated
import Verif.Props.AlignAny

/-!
Property theorems C158: aligning features to bars that share a time (`/repo/mizarlabs/model/pipeline.py` lines 199-243).
-/

set_option linter.unusedSectionVars false

namespace Mizar.Props
open Mizar.Spec Mizar.Pipe

private theorem lookup_of_unique {α : Type*} (l : List (ℤ × α)) (t : ℤ) (v : α) (h : (t, v) ∈ l) (hu : ∀ w, (t, w) ∈ l → w = v) : l.lookup t = some v := by
  induction l with
  | nil => simp at h
  | cons p l ih =>
    obtain ⟨s, w⟩ := p
    by_cases hs : t = s
    · subst hs
      rw [List.lookup_cons_self, hu w (by simp)]
    · rw [List.lookup_cons, beq_false_of_ne hs]
      refine ih ?_ fun w hw => hu w (by simp [hw])
      rcases List.mem_cons.1 h with h | h
      · exact absurd (congrArg Prod.fst h) hs
      · exact h

private theorem mem_assigned {α : Type*} (idx : List ℤ) (cells : List (Option α)) (t : ℤ) (v : α) :
    (t, v) ∈ ((idx.zip cells).filterMap fun p => p.2.map fun v => (p.1, v)).reverse ↔ ∃ i : ℕ, idx[i]? = some t ∧ cells[i]? = some (some v) := by
  rw [List.mem_reverse, List.mem_filterMap]
  constructor
  · rintro ⟨p, hp, hv⟩
    obtain ⟨w, hw, he⟩ := Option.map_eq_some_iff.1 hv
    obtain ⟨i, hi⟩ := List.getElem?_of_mem hp
    obtain ⟨h1, h2⟩ := List.getElem?_zip_eq_some.1 hi
    cases he
    exact ⟨i, h1, h2.trans (congrArg some hw)⟩
  · rintro ⟨i, h1, h2⟩
    exact ⟨(t, some v), List.mem_of_getElem? (List.getElem?_zip_eq_some.2 ⟨h1, h2⟩), rfl⟩

/-- When only the first of several rows with a time can be assigned, every row gets the value of the first with its time. -/
private theorem byLabel_eq {α : Type*} (idx : List ℤ) (cells : List (Option α)) (hlen : cells.length = idx.length)
    (hu : ∀ (i : ℕ) (t : ℤ) (v : α), idx[i]? = some t → cells[i]? = some (some v) → i = idx.idxOf t) :
    byLabel idx cells = idx.map fun t => cells.getD (idx.idxOf t) none := by
  unfold byLabel
  apply List.map_congr_left
  intro t ht
  have hk : idx.idxOf t < idx.length := List.idxOf_lt_length_of_mem ht
  have hkt : idx[idx.idxOf t]? = some t := by rw [List.getElem?_eq_getElem hk, List.getElem_idxOf hk]
  rw [List.getD_eq_getElem _ _ (by omega)]
  cases hc : cells[idx.idxOf t]'(by omega) with
  | some v =>
    apply lookup_of_unique
    · exact (mem_assigned idx cells t v).2 ⟨_, hkt, by rw [List.getElem?_eq_getElem (by omega), hc]⟩
    · intro w hw
      obtain ⟨i, h1, h2⟩ := (mem_assigned idx cells t w).1 hw
      have := hu i t w h1 h2
      rw [this, List.getElem?_eq_getElem (by omega), hc] at h2
      exact (Option.some.inj (Option.some.inj h2)).symm
  | none =>
    rw [List.lookup_eq_none_iff]
    intro p hp
    rw [bne_iff_ne]
    rintro rfl
    obtain ⟨i, h1, h2⟩ := (mem_assigned idx cells p.1 p.2).1 hp
    have := hu i _ _ h1 h2
    rw [this, List.getElem?_eq_getElem (by omega), hc] at h2
    cases h2

section
variable {K : Type*} [Field K] [LinearOrder K]

private theorem cell_some {agg : List (List (XF K)) → Py (List (XF K))} {S : List (ℤ × List (XF K))} {v : List (XF K)} (h : cell agg S = .ok (some v)) : S ≠ [] := by
  rintro rfl
  cases h

/-- Only the first of several alignment times that are equal is assigned. -/
private theorem loop_first (agg : List (List (XF K)) → Py (List (XF K))) (rows : List (ℤ × List (XF K))) (prev : ℤ) (idx : List ℤ)
    (cells : List (Option (List (XF K)))) (h : alignLoop agg rows prev idx = .ok cells) : cells.length = idx.length ∧
    ∀ (i : ℕ) (t : ℤ) (v : List (XF K)), idx[i]? = some t → cells[i]? = some (some v) → i = idx.idxOf t := by
  rw [alignLoop_any] at h
  have hl := mapE_length h
  refine ⟨by simpa using hl, ?_⟩
  intro i t v hi hv
  have hil := (List.getElem?_eq_some_iff.1 hi).1
  have hle : idx.idxOf t ≤ i := by
    by_contra hc
    have := List.not_of_lt_findIdx (xs := idx) (p := fun x => x == t) (i := i) (by simpa [List.idxOf] using hc)
    obtain ⟨h1, h2⟩ := List.getElem?_eq_some_iff.1 hi
    simp [h2] at this
  rcases Nat.eq_or_lt_of_le hle with he | hlt
  · exact he.symm
  · exfalso
    rw [mapE_eq_ok_iff] at h
    have hc := (List.forall₂_iff_get.1 h).2 i (by simpa using hil) ((List.getElem?_eq_some_iff.1 hv).1)
    simp only [List.get_eq_getElem, List.getElem_range] at hc
    rw [(List.getElem?_eq_some_iff.1 hv).2] at hc
    apply cell_some hc
    rw [List.filter_eq_nil_iff]
    intro r _
    simp only [Bool.and_eq_true, decide_eq_true_eq, not_and, and_imp]
    intro _ h2 h3
    have h4 := h2 _ hlt
    have hk : idx.idxOf t < idx.length := by omega
    rw [List.getD_eq_getElem _ _ hk, List.getElem_idxOf hk] at h4
    rw [List.getD_eq_getElem _ _ hil, (List.getElem?_eq_some_iff.1 hi).2] at h3
    omega

private def Fits (n : ℕ) : List (XF K) → List (List (XF K)) → List (List (XF K)) → Prop
  | _, [], [] => True
  | p, r :: l, r' :: l' => (r' = r ∨ (r = nanRow n ∧ r' = p)) ∧ Fits n r' l l'
  | _, _, _ => False

private theorem fits_of (n : ℕ) (p : List (XF K)) (l l' : List (List (XF K))) (hlen : l'.length = l.length)
    (h : ∀ i < l.length, l'.getD i [] = l.getD i [] ∨ (l.getD i [] = nanRow n ∧ l'.getD i [] = if i = 0 then p else l'.getD (i - 1) [])) : Fits n p l l' := by
  induction l generalizing p l' with
  | nil =>
    cases l' with
    | nil => trivial
    | cons a l' => simp at hlen
  | cons r l ih =>
    cases l' with
    | nil => simp at hlen
    | cons r' l' =>
      refine ⟨by simpa using h 0 (by simp), ih r' l' (by simpa using hlen) ?_⟩
      intro i hi
      have := h (i + 1) (by simpa using hi)
      simp only [List.getD_cons_succ, Nat.add_one_ne_zero, if_false, Nat.add_sub_cancel] at this
      cases i with
      | zero => simpa using this
      | succ i => simpa using this

private abbrev fill (r a : List (XF K)) : List (XF K) := List.zipWith (fun x l => if x.isNan then l else x) r a

private theorem fill_nanRow (n : ℕ) (a : List (XF K)) (h : a.length ≤ n) : fill (nanRow n) a = a := by
  unfold fill nanRow
  apply List.ext_getElem
  · simp; omega
  · intro i h1 h2
    simp [XF.isNan]

private theorem fill_fill (r a : List (XF K)) : fill r (fill r a) = fill r a := by
  unfold fill
  apply List.ext_getElem
  · simp
  · intro i h1 h2
    simp only [List.getElem_zipWith]
    split <;> rfl

private theorem ffill_fits (n : ℕ) (p a : List (XF K)) (l l' : List (List (XF K))) (h : Fits n p l l') (ha : a.length ≤ n) (hp : fill p a = a) :
    ffillRowsFrom a l' = ffillRowsFrom a l := by
  induction l generalizing p a l' with
  | nil =>
    cases l' with
    | nil => rfl
    | cons _ _ => exact h.elim
  | cons r l ih =>
    cases l' with
    | nil => exact h.elim
    | cons r' l' =>
      obtain ⟨h1, h2⟩ := h
      have hz : fill r' a = fill r a := by
        rcases h1 with rfl | ⟨rfl, rfl⟩
        · rfl
        · rw [hp, fill_nanRow n a ha]
      show fill r' a :: ffillRowsFrom (fill r' a) l' = fill r a :: ffillRowsFrom (fill r a) l
      rw [hz]
      congr 1
      refine ih r' (fill r a) l' h2 ?_ ?_
      · simp only [List.length_zipWith]; omega
      · rw [← hz, fill_fill]

/-- **C158** (alignment) When the alignment times do not decrease, aligning to bars that share a time gives each of these bars the same features: the
result is that of the alignment of C44, C45, C127 and C145. -/
theorem C158_alignment (how : List (String × String)) (key : String) (idx : List ℤ) (hs : idx.Pairwise (· ≤ ·)) (f : Frame K) :
    alignFrameAny how key idx f = alignFrame how key idx f ∧
      ∀ g, alignFrameAny how key idx f = .ok g → ∀ (i j : ℕ) (t : ℤ) (v w : List (XF K)), g.rows[i]? = some (t, v) → g.rows[j]? = some (t, w) → v = w := by
  unfold alignFrameAny alignFrame
  by_cases he : f.rows = [] ∨ idx = []
  · rw [if_pos he, if_pos he]
    exact ⟨rfl, fun g h => by cases h⟩
  rw [if_neg he, if_neg he]
  cases hc : alignLoop (aggregate how key f.cols.length) f.rows Y1700 idx with
  | error e => exact ⟨rfl, fun g h => by cases h⟩
  | ok cells =>
    obtain ⟨hl, hu⟩ := loop_first _ _ _ _ _ hc
    simp only [Py.bind_ok]
    set n := f.cols.length
    rw [byLabel_eq idx cells hl hu]
    set L := (idx.map fun t => cells.getD (idx.idxOf t) none).map (fun c => c.getD (nanRow n)) with hL
    have hLi : ∀ i (hi : i < idx.length), L.getD i [] = (cells.getD (idx.idxOf idx[i]) none).getD (nanRow n) := by
      intro i hi
      rw [hL, List.map_map, List.getD_eq_getElem _ _ (by simpa using hi), List.getElem_map]
      rfl
    have hprev : ∀ i (hi : i < idx.length), idx.idxOf idx[i] ≠ i → i ≠ 0 ∧ idx.getD (i - 1) 0 = idx[i] := by
      intro i hi hne
      have hmem : idx[i] ∈ idx := List.getElem_mem hi
      have hk : idx.idxOf idx[i] < idx.length := List.idxOf_lt_length_of_mem hmem
      have hle : idx.idxOf idx[i] ≤ i := by
        by_contra hcc
        have := List.not_of_lt_findIdx (xs := idx) (p := fun x => x == idx[i]) (i := i) (by simpa [List.idxOf] using hcc)
        simp at this
      have hlt : idx.idxOf idx[i] < i := by omega
      refine ⟨by omega, ?_⟩
      rw [List.getD_eq_getElem _ _ (by omega)]
      have hkv := List.getElem_idxOf hk
      have a1 : idx[idx.idxOf idx[i]] ≤ idx[i - 1] := by
        rcases Nat.eq_or_lt_of_le (show idx.idxOf idx[i] ≤ i - 1 by omega) with h | h
        · exact le_of_eq (by congr 1)
        · exact List.pairwise_iff_getElem.1 hs _ _ hk (by omega) h
      have a2 : idx[i - 1] ≤ idx[i] := List.pairwise_iff_getElem.1 hs _ _ (by omega) hi (by omega)
      rw [hkv] at a1
      exact le_antisymm a2 a1
    have hfit : Fits n (nanRow n) (cells.map fun c => c.getD (nanRow n)) L := by
      apply fits_of
      · simp [hL, hl]
      · intro i hi
        have hi' : i < idx.length := by simpa [hl] using hi
        have hci : (cells.map fun c => c.getD (nanRow n)).getD i [] = (cells.getD i none).getD (nanRow n) := by
          rw [List.getD_eq_getElem _ _ hi, List.getElem_map, List.getD_eq_getElem _ _ (by omega)]
        rw [hci, hLi i hi']
        by_cases hf : idx.idxOf idx[i] = i
        · rw [hf]; exact Or.inl rfl
        · right
          obtain ⟨h0, hp⟩ := hprev i hi' hf
          rw [if_neg h0, hLi (i - 1) (by omega)]
          rw [List.getD_eq_getElem _ _ (by omega)] at hp
          rw [hp]
          refine ⟨?_, rfl⟩
          cases hv : cells.getD i none with
          | none => rfl
          | some v =>
            rw [List.getD_eq_getElem _ _ (by omega)] at hv
            exact absurd (hu i idx[i] v (List.getElem?_eq_getElem hi') (by rw [List.getElem?_eq_getElem (by omega), hv])).symm hf
    have hff := ffill_fits n (nanRow n) (nanRow n) _ _ hfit (by simp [nanRow]) (fill_nanRow n _ (by simp [nanRow]))
    refine ⟨by rw [hff], ?_⟩
    intro g hg
    obtain rfl := Except.ok.inj hg
    -- equal times are neighbours, and a row that repeats the time of the row before it is the same row
    have hstep : ∀ i, i + 1 < idx.length → idx.getD i 0 = idx.getD (i + 1) 0 → ∀ a : List (XF K),
        (ffillRowsFrom a L).getD i [] = (ffillRowsFrom a L).getD (i + 1) [] := by
      intro i hi he a
      have hLe : L.getD i [] = L.getD (i + 1) [] := by
        rw [hLi i (by omega), hLi (i + 1) hi]
        rw [List.getD_eq_getElem _ _ (by omega), List.getD_eq_getElem _ _ hi] at he
        rw [he]
      have gen : ∀ (M : List (List (XF K))) (i : ℕ) (a : List (XF K)), i + 1 < M.length → M.getD i [] = M.getD (i + 1) [] →
          (ffillRowsFrom a M).getD i [] = (ffillRowsFrom a M).getD (i + 1) [] := by
        intro M
        induction M with
        | nil => intro i a h; simp at h
        | cons r M ih =>
          intro i a h1 h2
          cases i with
          | zero =>
            cases M with
            | nil => simp at h1
            | cons r' M =>
              simp only [List.getD_cons_zero, List.getD_cons_succ] at h2
              subst h2
              show fill r a = fill r (fill r a)
              rw [fill_fill]
          | succ i =>
            show (ffillRowsFrom (fill r a) M).getD i [] = (ffillRowsFrom (fill r a) M).getD (i + 1) []
            exact ih i _ (by simpa using h1) (by simpa using h2)
      exact gen L i a (by simpa [hL] using hi) hLe
    have hrun : ∀ (d i : ℕ), i + d < idx.length → idx.getD i 0 = idx.getD (i + d) 0 →
        (ffillRowsFrom (nanRow n) L).getD i [] = (ffillRowsFrom (nanRow n) L).getD (i + d) [] := by
      intro d
      induction d with
      | zero => intro i _ _; rfl
      | succ d ih =>
        intro i hi he
        have h1 : idx.getD i 0 ≤ idx.getD (i + d) 0 := by
          rw [List.getD_eq_getElem _ _ (by omega), List.getD_eq_getElem _ _ (by omega)]
          rcases Nat.eq_zero_or_pos d with h | h
          · subst h; exact le_rfl
          · exact List.pairwise_iff_getElem.1 hs _ _ (by omega) (by omega) (by omega)
        have h2 : idx.getD (i + d) 0 ≤ idx.getD (i + d + 1) 0 := by
          rw [List.getD_eq_getElem _ _ (by omega), List.getD_eq_getElem _ _ (by omega)]
          exact List.pairwise_iff_getElem.1 hs _ _ (by omega) (by omega) (by omega)
        have h3 : idx.getD (i + d) 0 = idx.getD (i + d + 1) 0 := by
          apply le_antisymm h2
          rw [show idx.getD (i + d + 1) 0 = idx.getD i 0 from he.symm]
          exact h1
        rw [ih i (by omega) (le_antisymm h1 (by rw [h3]; exact le_of_eq he.symm)), hstep (i + d) hi h3]
        rfl
    have hrow : ∀ (i : ℕ) (t : ℤ) (v : List (XF K)), (idx.zip (ffillRowsFrom (nanRow n) L))[i]? = some (t, v) →
        i < idx.length ∧ idx.getD i 0 = t ∧ (ffillRowsFrom (nanRow n) L).getD i [] = v := by
      intro i t v h
      obtain ⟨h1, h2⟩ := List.getElem?_zip_eq_some.1 h
      exact ⟨(List.getElem?_eq_some_iff.1 h1).1, by rw [List.getD_eq_getElem?_getD, h1]; rfl, by rw [List.getD_eq_getElem?_getD, h2]; rfl⟩
    intro i j t v w hi hj
    obtain ⟨i1, i2, rfl⟩ := hrow i t v hi
    obtain ⟨j1, j2, rfl⟩ := hrow j t w hj
    rcases Nat.le_total i j with h | h
    · obtain ⟨d, rfl⟩ := Nat.exists_eq_add_of_le h
      exact hrun d i j1 (i2.trans j2.symm)
    · obtain ⟨d, rfl⟩ := Nat.exists_eq_add_of_le h
      exact (hrun d j i1 (j2.trans i2.symm)).symm

end

section
variable {K : Type*} [Field K] [LinearOrder K] [IsStrictOrderedRing K]

/-- **C158** (alignment, times in any order) Every cell is the aggregate at the first row that has its time; if there is none, it is the cell of the
row above, and missing at the first. -/
theorem C158_alignment_any_order (how : List (String × String)) (key m : String) (hl : how.lookup key = some m)
    (hm : m = "mean" ∨ m = "min" ∨ m = "max") (cols : List String) (rows : List (ℤ × List (Option K))) (idx : List ℤ)
    (hw : ∀ r ∈ rows, r.2.length = cols.length) (hrows : rows ≠ []) (hidx : idx ≠ []) :
    ∃ out : List (List (XF K)),
      alignFrameAny how key idx ⟨cols, rows.map fun r => (r.1, r.2.map orMissing)⟩ = .ok ⟨cols, idx.zip out⟩ ∧
      out.length = idx.length ∧
      ∀ i < idx.length, ∃ k ≤ i, idx.getD k 0 = idx.getD i 0 ∧ (∀ k' < k, idx.getD k' 0 ≠ idx.getD i 0) ∧ ∀ j < cols.length, ∃ o,
        AggOrMissing m ((sinceStart rows idx k).map fun r => r.getD j none) o ∧
        (out.getD i []).getD j .nan = match o with
          | some v => .fin v
          | none => if i = 0 then .nan else (out.getD (i - 1) []).getD j .nan := by
  have hcell : ∀ i, ∃ c,
      cell (aggregate how key cols.length) ((rows.map fun r => (r.1, r.2.map orMissing)).filter fun r =>
        decide (Y1700 < r.1) && decide (∀ k < i, idx.getD k 0 < r.1) && decide (r.1 ≤ idx.getD i 0)) = .ok c ∧
      (c.getD (nanRow cols.length)).length = cols.length ∧
      ∀ j < cols.length, ∃ o, (c.getD (nanRow cols.length)).getD j .nan = orMissing o ∧
        AggOrMissing m ((sinceStart rows idx i).map fun r => r.getD j none) o := by
    intro i
    rw [List.filter_map]
    obtain ⟨c, h1, h2, h3⟩ := cell_opt how key m hl hm cols.length (rows.filter fun r =>
      decide (Y1700 < r.1) && decide (∀ k < i, idx.getD k 0 < r.1) && decide (r.1 ≤ idx.getD i 0)) fun r hr => hw r (List.mem_filter.1 hr).1
    refine ⟨c, h1, h2, fun j hj => ?_⟩
    obtain ⟨o, h4, h5⟩ := h3 j hj
    refine ⟨o, h4, ?_⟩
    unfold sinceStart
    rw [List.map_map]
    exact h5
  choose c hc1 hc2 hc3 using hcell
  have hloop : alignLoop (aggregate how key cols.length) (rows.map fun r => (r.1, r.2.map orMissing)) Y1700 idx =
      .ok ((List.range idx.length).map c) := by
    rw [alignLoop_any]
    exact mapE_ok_of_forall _ _ _ fun i _ => hc1 i
  obtain ⟨hl', hu⟩ := loop_first _ _ _ _ _ hloop
  generalize hL : (byLabel idx ((List.range idx.length).map c)).map (fun c => c.getD (nanRow cols.length)) = L
  rw [byLabel_eq idx _ hl' hu] at hL
  have hfirst : ∀ i (hi : i < idx.length), idx.idxOf idx[i] < idx.length := fun i hi => List.idxOf_lt_length_of_mem (List.getElem_mem hi)
  have hLi : ∀ i (hi : i < idx.length), L.getD i [] = (c (idx.idxOf idx[i])).getD (nanRow cols.length) := by
    intro i hi
    rw [← hL, List.map_map, List.getD_eq_getElem _ _ (by simpa using hi), List.getElem_map]
    dsimp only [Function.comp]
    rw [List.getD_eq_getElem _ _ (by simpa using hfirst i hi), List.getElem_map, List.getElem_range]
  have hLl : L.length = idx.length := by rw [← hL]; simp
  have hLw : ∀ r ∈ L, r.length = cols.length := by
    intro r hr
    obtain ⟨i, hi⟩ := List.getElem?_of_mem hr
    have hil := (List.getElem?_eq_some_iff.1 hi).1
    have := hLi i (by omega)
    rw [List.getD_eq_getElem?_getD, hi, Option.getD_some] at this
    rw [this]
    exact hc2 _
  refine ⟨ffillRowsFrom (nanRow cols.length) L, ?_, by simp [hLl], ?_⟩
  · unfold alignFrameAny
    have : ¬ ((rows.map fun r => (r.1, r.2.map orMissing)) = [] ∨ idx = []) := by simp [hrows, hidx]
    rw [if_neg this]
    simp only [hloop, Py.bind_ok]
    rw [byLabel_eq idx _ hl' hu, hL]
  · intro i hi
    have hk := hfirst i hi
    have hkv : idx[idx.idxOf idx[i]] = idx[i] := List.getElem_idxOf hk
    have hmin : ∀ k' < idx.idxOf idx[i], idx.getD k' 0 ≠ idx.getD i 0 := by
      intro k' hk' he
      have := List.not_of_lt_findIdx (xs := idx) (p := fun x => x == idx[i]) (i := k') (by simpa [List.idxOf] using hk')
      rw [List.getD_eq_getElem _ _ (by omega), List.getD_eq_getElem _ _ hi] at he
      simp [he] at this
    refine ⟨idx.idxOf idx[i], ?_, by rw [List.getD_eq_getElem _ _ hk, List.getD_eq_getElem _ _ hi, hkv], hmin, ?_⟩
    · by_contra hcc
      exact hmin i (by omega) rfl
    · intro j hj
      obtain ⟨o, h1, h2⟩ := hc3 (idx.idxOf idx[i]) j hj
      refine ⟨o, h2, ?_⟩
      rw [ffill_cell (nanRow cols.length) L cols.length i j (by simp [nanRow]) hLw hj (by omega), hLi i hi, h1]
      cases o with
      | none =>
        rw [if_pos (by rfl)]
        by_cases h0 : i = 0
        · rw [if_pos h0, if_pos h0]; simp [nanRow, List.getD_eq_getElem?_getD, hj]
        · rw [if_neg h0, if_neg h0]
      | some v => rfl

end

section Examples

/-- Two bars at time 20: both get the mean of the ticks since 10. -/
example : alignFrameAny (K := ℚ) [("vol", "mean")] "vol" [10, 20, 20, 30] ⟨["v"], [(5, [.fin 1]), (12, [.fin 2]), (20, [.fin 4])]⟩ =
    .ok ⟨["v"], [(10, [.fin 1]), (20, [.fin 3]), (20, [.fin 3]), (30, [.fin 3])]⟩ := by decide +kernel

example : alignFrameAny (K := ℚ) [("vol", "mean")] "vol" [10, 20, 20, 30] ⟨["v"], [(5, [.fin 1]), (12, [.fin 2]), (20, [.fin 4])]⟩ =
    alignFrame [("vol", "mean")] "vol" [10, 20, 20, 30] ⟨["v"], [(5, [.fin 1]), (12, [.fin 2]), (20, [.fin 4])]⟩ :=
  (C158_alignment _ _ _ (by decide) _).1

/-- Out of order the two rows of time 10 still get the value of the first. -/
example : alignFrameAny (K := ℚ) [("vol", "mean")] "vol" [10, 20, 10] ⟨["v"], [(5, [.fin 1]), (12, [.fin 2])]⟩ =
    .ok ⟨["v"], [(10, [.fin 1]), (20, [.fin 2]), (10, [.fin 1])]⟩ := by decide +kernel

end Examples

end Mizar.Props
