import Verif.Lemmas.Pipeline
import Verif.Props.Align

/-! Property theorems C127: aligning twice, and aligning in steps. -/

set_option linter.unusedSectionVars false

namespace Mizar.Props
open Mizar.Spec Mizar.Pipe

section
variable {K : Type} [Field K] [LinearOrder K]

/-! ### Aligning twice -/

/-- A row filled from the row before is not changed by filling it again. -/
theorem fill_again (r a : List (XF K)) :
    List.zipWith (fun x l => if x.isNan then l else x) (List.zipWith (fun x l : XF K => if x.isNan then l else x) r a) a =
      List.zipWith (fun x l => if x.isNan then l else x) r a := by
  induction r generalizing a with
  | nil => rfl
  | cons x r ih =>
    cases a with
    | nil => rfl
    | cons y a =>
      simp only [List.zipWith_cons_cons, ih]
      congr 1
      by_cases hx : x.isNan = true
      · simp [hx]
      · simp [hx]

theorem ffill_again (a : List (XF K)) (l : List (List (XF K))) : ffillRowsFrom a (ffillRowsFrom a l) = ffillRowsFrom a l := by
  induction l generalizing a with
  | nil => rfl
  | cons r l ih =>
    simp only [ffillRowsFrom]
    rw [fill_again, ih]

theorem alignLoop_own (agg : List (List (XF K)) → Py (List (XF K))) (rows : List (ℤ × List (XF K))) (idx : List ℤ) (v : List (List (XF K)))
    (hl : v.length = idx.length) (prev : ℤ) (hp : (prev :: idx).Pairwise (· < ·))
    (hr : rows.filter (fun r => decide (prev < r.1)) = idx.zip v) : alignLoop agg rows prev idx = .ok (v.map some) := by
  induction idx generalizing v prev with
  | nil =>
    have : v = [] := List.eq_nil_of_length_eq_zero hl
    subst this; rfl
  | cons t ts ih =>
    obtain ⟨x, v, rfl⟩ : ∃ x v', v = x :: v' := by cases v with
      | nil => cases hl
      | cons x v => exact ⟨x, v, rfl⟩
    obtain ⟨h1, h2⟩ := List.pairwise_cons.1 hp
    have h3 := List.pairwise_cons.1 h2
    have late : ∀ r ∈ ts.zip v, t < r.1 := fun r h => h3.1 _ (List.of_mem_zip (a := r.1) (b := r.2) h).1
    have hs : subset rows prev t = [(t, x)] := by
      unfold subset
      rw [← List.filter_filter, show rows.filter (fun r => decide (r.1 ≤ t)) = rows.filter fun r => decide (r.1 ≤ t) from rfl,
        List.filter_comm, hr, List.zip_cons_cons, List.filter_cons_of_pos (by simp), List.filter_eq_nil_iff.2]
      intro r h
      have := late r h
      simp; omega
    have hn : rows.filter (fun r => decide (t < r.1)) = ts.zip v := by
      have e : rows.filter (fun r => decide (t < r.1)) = (rows.filter fun r => decide (prev < r.1)).filter fun r => decide (t < r.1) := by
        rw [List.filter_filter]
        apply List.filter_congr
        intro r _
        have := h1 t (by simp)
        by_cases h : t < r.1
        · simp [h]; omega
        · simp [h]
      rw [e, hr, List.zip_cons_cons, List.filter_cons_of_neg (by simp), List.filter_eq_self.2]
      intro r h
      simpa using late r h
    unfold alignLoop
    rw [hs]
    dsimp only
    rw [ih v (by simpa using hl) t h2 hn]
    rfl

theorem alignFrame_again (how : List (String × String)) (key : String) (idx : List ℤ) (hp : (Y1700 :: idx).Pairwise (· < ·)) (f g : Frame K)
    (h : alignFrame how key idx f = .ok g) : alignFrame how key idx g = .ok g := by
  unfold alignFrame at h
  by_cases h0 : f.rows = [] ∨ idx = []
  · rw [if_pos h0] at h; cases h
  rw [if_neg h0, Py.bind_eq_ok] at h
  obtain ⟨cells, h1, h⟩ := h
  simp only [Except.ok.injEq] at h
  have hc : cells.length = idx.length := by
    rw [alignLoop_eq _ _ _ _ hp] at h1
    rw [mapE_length h1]; simp
  generalize hv : ffillRowsFrom (nanRow f.cols.length) (cells.map fun c => c.getD (nanRow f.cols.length)) = v at h
  have hvl : v.length = idx.length := by rw [← hv]; simp [hc]
  subst h
  unfold alignFrame
  dsimp only
  have hne : idx.zip v ≠ [] := by
    intro e
    have := congrArg List.length e
    rw [List.length_zip, hvl, Nat.min_self, List.length_nil, List.length_eq_zero_iff] at this
    exact h0 (Or.inr this)
  rw [if_neg (by rintro (h | h); exacts [hne h, h0 (Or.inr h)])]
  have hr : (idx.zip v).filter (fun r => decide (Y1700 < r.1)) = idx.zip v := by
    rw [List.filter_eq_self]
    intro r hr
    simpa using (List.pairwise_cons.1 hp).1 _ (List.of_mem_zip (a := r.1) (b := r.2) hr).1
  rw [alignLoop_own _ _ _ _ hvl _ hp hr, Py.bind_ok]
  have e : (v.map some).map (fun c => c.getD (nanRow f.cols.length)) = v := by rw [List.map_map]; simp [Function.comp_def]
  rw [e, ← hv, ffill_again]

/-- C127 (twice): aligned features are not changed by aligning them again, whatever is missing, infinite or configured. -/
theorem C127_twice (how : List (String × String)) (name : String) (X Y : Features K)
    (hs : ∀ f, X.primary.lookup name = some f → f.index.Pairwise (· < ·) ∧ ∀ t ∈ f.index, -8520336000000000000 < t)
    (h : alignOn how name X = .ok Y) : alignOn how name Y = .ok Y := by
  unfold alignOn at h
  by_cases hn : name = ""
  · unfold alignOn
    rw [if_pos hn]
  rw [if_neg hn] at h
  cases hl : X.primary.lookup name with
  | none => rw [hl] at h; cases h
  | some lead =>
    rw [hl] at h
    dsimp only at h
    rw [Py.bind_eq_ok] at h
    obtain ⟨p, h1, h⟩ := h
    rw [Py.bind_eq_ok] at h
    obtain ⟨m, h2, h⟩ := h
    simp only [Except.ok.injEq] at h
    obtain ⟨hs1, hs2⟩ := hs lead hl
    have hp : (Y1700 :: lead.index).Pairwise (· < ·) := List.pairwise_cons.2 ⟨hs2, hs1⟩
    have lk : ∀ d p : Dict K, alignDict how name lead.index d = .ok p → d.lookup name = some lead → p.lookup name = some lead := by
      intro d p h hd
      unfold alignDict at h
      rw [mapE_eq_ok_iff] at h
      induction h with
      | nil => cases hd
      | @cons a b d p hab _ ih =>
        unfold alignEntry at hab
        by_cases ha : a.1 = name
        · rw [if_neg (by simp [ha])] at hab
          cases hab
          obtain ⟨a1, a2⟩ := a
          dsimp only at ha
          subst ha
          simpa [List.lookup] using hd
        · rw [if_pos ha, Py.bind_eq_ok] at hab
          obtain ⟨g, -, hb⟩ := hab
          cases hb
          obtain ⟨a1, a2⟩ := a
          have hne : (name == a1) = false := by simpa using fun e => ha e.symm
          simp only [List.lookup_cons, hne] at hd ⊢
          exact ih hd
    have again : ∀ d p : Dict K, alignDict how name lead.index d = .ok p → alignDict how name lead.index p = .ok p := by
      intro d p h
      unfold alignDict at h ⊢
      rw [mapE_eq_ok_iff] at h ⊢
      induction h with
      | nil => exact .nil
      | @cons a b d p hab _ ih =>
        refine .cons ?_ ih
        unfold alignEntry at hab ⊢
        by_cases ha : a.1 = name
        · rw [if_neg (by simp [ha])] at hab
          cases hab
          rw [if_neg (by simp [ha])]
        · rw [if_pos ha, Py.bind_eq_ok] at hab
          obtain ⟨g, hg, hb⟩ := hab
          cases hb
          rw [if_pos ha]
          dsimp only
          rw [alignFrame_again how a.1 lead.index hp a.2 g hg]
          rfl
    subst h
    unfold alignOn
    rw [if_neg hn]
    dsimp only
    rw [lk _ _ h1 hl]
    dsimp only
    rw [again _ _ h1, again _ _ h2]
    rfl

/-! ### Aligning in steps -/

/-- An aggregation that picks the best of its numbers in some order. -/
structure Picks (f : List (XF K) → XF K) (R : XF K → XF K → Prop) : Prop where
  one : ∀ x, f [x] = x
  mem : ∀ l : List (XF K), l ≠ [] → (∀ x ∈ l, x.isNan = false) → f l ∈ l ∧ ∀ x ∈ l, R x (f l)
  trans : ∀ a b c, R a b → R b c → R a c
  anti : ∀ a b, R a b → R b a → a = b

theorem foldl_xmin (l : List (XF K)) (a : XF K) (ha : a.isNan = false) (hl : ∀ x ∈ l, x.isNan = false) :
    l.foldl xmin a ∈ a :: l ∧ ∀ x ∈ a :: l, XF.le (l.foldl xmin a) x = true := by
  induction l generalizing a with
  | nil => simp [Pipe.le_refl' ha]
  | cons b l ih =>
    have hb := hl b (by simp)
    have hl' : ∀ x ∈ l, x.isNan = false := fun x hx => hl x (by simp [hx])
    rw [List.foldl_cons]
    by_cases hab : XF.lt b a = true
    · have e : xmin a b = b := by simp [xmin, ha, hb, hab]
      rw [e]
      obtain ⟨h1, h3⟩ := ih b hb hl'
      refine ⟨List.mem_cons_of_mem _ h1, ?_⟩
      intro x hx
      rcases List.mem_cons.1 hx with rfl | hx
      · exact Pipe.le_trans' (h3 b (by simp)) (Pipe.le_of_lt' hab)
      · exact h3 x hx
    · have hab := Bool.eq_false_iff.2 hab
      have e : xmin a b = a := by simp [xmin, ha, hb, hab]
      rw [e]
      obtain ⟨h1, h3⟩ := ih a ha hl'
      refine ⟨?_, ?_⟩
      · rcases List.mem_cons.1 h1 with h1 | h1
        · rw [h1]; simp
        · simp [h1]
      · intro x hx
        simp only [List.mem_cons] at hx
        rcases hx with rfl | rfl | hx
        · exact h3 _ (by simp)
        · exact Pipe.le_trans' (h3 a (by simp)) (Pipe.le_of_not_lt hb ha hab)
        · exact h3 x (by simp [hx])

theorem picks_of (m : String) (hm : m = "min" ∨ m = "max") : ∃ (f : List (XF K) → XF K) (R : XF K → XF K → Prop),
    alignMethods m = some f ∧ Picks f R := by
  rcases hm with rfl | rfl
  · refine ⟨npMin, fun x y => XF.le y x = true, by simp [alignMethods], fun _ => rfl, ?_, fun a b c h1 h2 => Pipe.le_trans' h2 h1, fun a b h1 h2 => Pipe.le_antisymm' h2 h1⟩
    intro l hl hn
    cases l with
    | nil => exact absurd rfl hl
    | cons a l => exact foldl_xmin l a (hn a (by simp)) fun x hx => hn x (by simp [hx])
  · refine ⟨npMax, fun x y => XF.le x y = true, by simp [alignMethods], fun _ => rfl, ?_, fun a b c h1 h2 => Pipe.le_trans' h1 h2, fun a b h1 h2 => Pipe.le_antisymm' h1 h2⟩
    intro l hl hn
    cases l with
    | nil => exact absurd rfl hl
    | cons a l =>
      have := foldl_xmax l a (hn a (by simp)) fun x hx => hn x (by simp [hx])
      exact ⟨this.1, this.2.2⟩

/-- The cell of some rows is the aggregation of every column. -/
theorem cell_agg (how : List (String × String)) (key m : String) (hl : how.lookup key = some m) (f : List (XF K) → XF K)
    (hf : alignMethods m = some f) (h1 : ∀ x, f [x] = x) (n : ℕ) (rows : List (ℤ × List (XF K))) (hne : rows ≠ [])
    (hw : ∀ r ∈ rows, r.2.length = n) : cell (aggregate how key n) rows = .ok (some (colAgg f n (rows.map (·.2)))) := by
  match rows, hne with
  | [r], _ =>
    unfold colAgg
    show Except.ok (some r.2) = _
    congr 2
    have := hw r (by simp)
    apply List.ext_getElem
    · simp [this]
    · intro j hj1 hj2
      simp [h1, List.getD_eq_getElem?_getD, hj1]
  | r₁ :: r₂ :: rs, _ =>
    unfold cell aggregate
    rw [hl]
    dsimp only
    rw [hf]
    rfl

/-- The time of the index that a moment belongs to. -/
theorem belongs (lo : ℤ) (idx : List ℤ) (x t : ℤ) (hlo : lo < x) (ht : t ∈ idx) (hx : x ≤ t) :
    ∃ q s, (q, s) ∈ (lo :: idx).zip idx ∧ q < x ∧ x ≤ s := by
  induction idx generalizing lo with
  | nil => cases ht
  | cons a l ih =>
    by_cases hxa : x ≤ a
    · exact ⟨lo, a, by simp, hlo, hxa⟩
    · have hta : t ∈ l := by
        rcases List.mem_cons.1 ht with rfl | h
        · exact absurd hx hxa
        · exact h
      obtain ⟨q, s, h1, h2, h3⟩ := ih a (by omega) hta
      exact ⟨q, s, by rw [List.zip_cons_cons]; exact List.mem_cons_of_mem _ h1, h2, h3⟩

theorem zip_lt (lo : ℤ) (idx : List ℤ) (hp : (lo :: idx).Pairwise (· < ·)) (q s : ℤ) (h : (q, s) ∈ (lo :: idx).zip idx) : q < s := by
  induction idx generalizing lo with
  | nil => cases h
  | cons a l ih =>
    obtain ⟨h1, h2⟩ := List.pairwise_cons.1 hp
    rw [List.zip_cons_cons] at h
    rcases List.mem_cons.1 h with hz | hz
    · cases hz
      exact h1 _ (by simp)
    · exact ih a h2 hz

/-- No time of the index lies between one of its times and the time before it. -/
theorem between (lo : ℤ) (idx : List ℤ) (hp : (lo :: idx).Pairwise (· < ·)) (q s p : ℤ) (h : (q, s) ∈ (lo :: idx).zip idx)
    (hmem : p ∈ lo :: idx) : (p < s → p ≤ q) ∧ (q < p → s ≤ p) ∧ q < s := by
  induction idx generalizing lo with
  | nil => cases h
  | cons a l ih =>
    obtain ⟨h1, h2⟩ := List.pairwise_cons.1 hp
    have ha := h1 a (by simp)
    rw [List.zip_cons_cons] at h
    rcases List.mem_cons.1 h with hz | hz
    · cases hz
      rcases List.mem_cons.1 hmem with rfl | hm
      · exact ⟨fun _ => le_refl _, fun h => absurd h (lt_irrefl _), ha⟩
      · have hge : s ≤ p := by
          rcases List.mem_cons.1 hm with rfl | hm
          · exact le_refl _
          · exact le_of_lt ((List.pairwise_cons.1 h2).1 p hm)
        exact ⟨fun h => by omega, fun _ => hge, ha⟩
    · rcases List.mem_cons.1 hmem with rfl | hm
      · have := h1 q (List.of_mem_zip hz).1
        have hqs : q < s := zip_lt a l h2 q s hz
        exact ⟨fun _ => le_of_lt this, fun h => by omega, hqs⟩
      · exact ih a h2 hz hm

/-- Without missing values nothing is filled. -/
theorem ffill_clean (a : List (XF K)) (l : List (List (XF K))) (n : ℕ) (ha : a.length = n) (hw : ∀ r ∈ l, r.length = n)
    (hn : ∀ r ∈ l, ∀ x ∈ r, x.isNan = false) : ffillRowsFrom a l = l := by
  induction l generalizing a with
  | nil => rfl
  | cons r l ih =>
    have e : List.zipWith (fun x l : XF K => if x.isNan then l else x) r a = r := by
      apply List.ext_getElem
      · simp [ha, hw r (by simp)]
      · intro i h1 h2
        simp [hn r (by simp) _ (List.getElem_mem h2)]
    unfold ffillRowsFrom
    dsimp only
    rw [e, ih r (hw r (by simp)) (fun r hr => hw r (by simp [hr])) fun r hr => hn r (by simp [hr])]

/-- C127 (steps, partial: see the two refutations below): features without missing values that are aligned to a fine index and then to a coarser one, by maximum or by
minimum, are the features aligned to the coarser one at once, provided that there is news at every time of the fine index. -/
theorem C127_steps_partial (how : List (String × String)) (key m : String) (hl : how.lookup key = some m) (hm : m = "min" ∨ m = "max")
    (f : Frame K) (hw : f.WF) (hn : ∀ r ∈ f.rows, ∀ x ∈ r.2, x.isNan = false) (h1700 : ∀ r ∈ f.rows, -8520336000000000000 < r.1)
    (idx coarse : List ℤ) (hs : idx.Pairwise (· < ·)) (hi1700 : ∀ t ∈ idx, -8520336000000000000 < t)
    (hsub : coarse.Sublist idx) (hne : coarse ≠ []) (hnews : ∀ i < idx.length, since f.rows idx i ≠ []) :
    ∃ g, alignFrame how key idx f = .ok g ∧ alignFrame how key coarse g = alignFrame how key coarse f := by
  obtain ⟨F, R, hF, hR⟩ := picks_of (K := K) m hm
  change ∀ r ∈ f.rows, Y1700 < r.1 at h1700
  change ∀ t ∈ idx, Y1700 < t at hi1700
  have hp : (Y1700 :: idx).Pairwise (· < ·) := List.pairwise_cons.2 ⟨hi1700, hs⟩
  have hpc : (Y1700 :: coarse).Pairwise (· < ·) := hp.sublist (hsub.cons_cons _)
  have hine : idx ≠ [] := by rintro rfl; exact hne (List.sublist_nil.1 hsub)
  have hpos : 0 < idx.length := List.length_pos_iff.2 hine
  have hrne : f.rows ≠ [] := by
    intro e
    exact hnews 0 hpos (by simp [since, e])
  -- rows at each time of the fine index
  have news : ∀ q s, (q, s) ∈ (Y1700 :: idx).zip idx → subset f.rows q s ≠ [] := by
    intro q s hqs
    obtain ⟨i, hi, e⟩ := List.mem_iff_getElem.1 hqs
    have hi' : i < idx.length := by simpa using hi
    have h1 := zip_cons_getElem? Y1700 idx i hi'
    rw [List.getElem?_eq_getElem hi, e] at h1
    simp only [Option.some.injEq, Prod.mk.injEq] at h1
    have h2 := subset_map_since (fun r : List (XF K) => r) f.rows Y1700 idx hp h1700 i hi'
    simp only [Prod.mk.eta, List.map_id'] at h2
    rw [h1.1, h1.2, h2]
    intro e
    apply hnews i hi'
    unfold since
    rw [e]; rfl
  let row := fun p : ℤ × ℤ => colAgg F f.cols.length ((subset f.rows p.1 p.2).map (·.2))
  have subw : ∀ a b, ∀ r ∈ subset f.rows a b, r ∈ f.rows := fun a b r hr => (List.mem_filter.1 hr).1
  have hcells : alignLoop (aggregate how key f.cols.length) f.rows Y1700 idx = .ok (((Y1700 :: idx).zip idx).map fun p => some (row p)) := by
    rw [alignLoop_eq _ _ _ _ hp, mapE_eq_ok_iff, List.forall₂_map_right_iff, List.forall₂_same]
    intro p hp
    exact cell_agg how key m hl F hF hR.one _ _ (news p.1 p.2 hp) fun r hr => hw r (subw _ _ r hr)
  have getD_mem : ∀ (r : List (XF K)) (j : ℕ), r.length = f.cols.length → j < f.cols.length → r.getD j .nan ∈ r := by
    intro r j hr hj
    rw [List.getD_eq_getElem?_getD, List.getElem?_eq_getElem (by omega)]
    exact List.getElem_mem _
  have hcol : ∀ (S : List (ℤ × List (XF K))) (j : ℕ), j < f.cols.length → (∀ r ∈ S, r ∈ f.rows) →
      ∀ x ∈ (S.map (·.2)).map (fun r => r.getD j .nan), x.isNan = false := by
    intro S j hj hS x hx
    rw [List.map_map] at hx
    obtain ⟨r, hr, rfl⟩ := List.mem_map.1 hx
    exact hn r (hS r hr) _ (getD_mem r.2 j (hw r (hS r hr)) hj)
  have rowj : ∀ p j, j < f.cols.length → (row p).getD j .nan = F (((subset f.rows p.1 p.2).map (·.2)).map fun r => r.getD j .nan) := by
    intro p j hj
    simp [row, colAgg, List.getD_eq_getElem?_getD, hj]
  have rowlen : ∀ p, (row p).length = f.cols.length := by intro p; simp [row, colAgg]
  have rowclean : ∀ p ∈ (Y1700 :: idx).zip idx, ∀ x ∈ row p, x.isNan = false := by
    intro p hp x hx
    obtain ⟨j, hj, rfl⟩ := List.mem_iff_getElem.1 hx
    rw [rowlen] at hj
    have := rowj p j hj
    rw [List.getD_eq_getElem?_getD, List.getElem?_eq_getElem (by rw [rowlen]; exact hj), Option.getD_some] at this
    rw [this]
    exact hcol _ j hj (subw _ _) _ (hR.mem _ (by simpa using news p.1 p.2 hp) (hcol _ j hj (subw _ _))).1
  have hg : alignFrame how key idx f = .ok ⟨f.cols, idx.zip (((Y1700 :: idx).zip idx).map row)⟩ := by
    unfold alignFrame
    rw [if_neg (by rintro (h | h); exacts [hrne h, hine h]), hcells, Py.bind_ok, List.map_map]
    congr 3
    exact ffill_clean _ _ f.cols.length (by simp [nanRow]) (by
      intro r hr
      obtain ⟨p, -, rfl⟩ := List.mem_map.1 hr
      exact rowlen p) (by
      intro r hr
      obtain ⟨p, hp, rfl⟩ := List.mem_map.1 hr
      exact rowclean p hp)
  refine ⟨_, hg, ?_⟩
  -- the rows of the aligned frame
  have hgrows : ∀ r, r ∈ idx.zip (((Y1700 :: idx).zip idx).map row) ↔ ∃ q, (q, r.1) ∈ (Y1700 :: idx).zip idx ∧ r.2 = row (q, r.1) := by
    have e : idx.zip (((Y1700 :: idx).zip idx).map row) = ((Y1700 :: idx).zip idx).map fun p => (p.2, row p) := by
      apply List.ext_getElem
      · simp
      · intro i h1 h2
        simp
    intro r
    rw [e, List.mem_map]
    constructor
    · rintro ⟨p, hp, rfl⟩
      exact ⟨p.1, hp, rfl⟩
    · rintro ⟨q, hq, e⟩
      exact ⟨(q, r.1), hq, by rw [← e]⟩
  have hgne : idx.zip (((Y1700 :: idx).zip idx).map row) ≠ [] := by
    intro e
    have := congrArg List.length e
    simp at this
    exact hine this
  have hcell : ∀ p t, (p, t) ∈ (Y1700 :: coarse).zip coarse →
      cell (aggregate how key f.cols.length) (subset (idx.zip (((Y1700 :: idx).zip idx).map row)) p t) =
        cell (aggregate how key f.cols.length) (subset f.rows p t) := by
    intro p t hpt
    have hpm : p ∈ Y1700 :: idx := (hsub.cons_cons Y1700).subset (List.of_mem_zip hpt).1
    have htm : t ∈ idx := hsub.subset (List.of_mem_zip hpt).2
    have hlt : p < t := (between Y1700 coarse hpc p t p hpt (List.of_mem_zip hpt).1).2.2
    have hY : Y1700 ≤ p := by
      rcases List.mem_cons.1 hpm with rfl | h
      · exact le_refl _
      · exact le_of_lt (hi1700 p h)
    -- which fine times are used
    have fine : ∀ r, r ∈ subset (idx.zip (((Y1700 :: idx).zip idx).map row)) p t ↔
        ∃ q, (q, r.1) ∈ (Y1700 :: idx).zip idx ∧ r.2 = row (q, r.1) ∧ p ≤ q ∧ r.1 ≤ t := by
      intro r
      unfold subset
      rw [List.mem_filter, hgrows]
      simp only [Bool.and_eq_true, decide_eq_true_eq]
      constructor
      · rintro ⟨⟨q, h1, h2⟩, h3, h4⟩
        exact ⟨q, h1, h2, (between Y1700 idx hp q r.1 p h1 hpm).1 h3, h4⟩
      · rintro ⟨q, h1, h2, h3, h4⟩
        exact ⟨⟨q, h1, h2⟩, lt_of_le_of_lt h3 (between Y1700 idx hp q r.1 p h1 hpm).2.2, h4⟩
    have up : ∀ x ∈ subset f.rows p t, ∃ q s, (q, s) ∈ (Y1700 :: idx).zip idx ∧ p ≤ q ∧ s ≤ t ∧ x ∈ subset f.rows q s := by
      intro x hx
      unfold subset at hx
      rw [List.mem_filter] at hx
      obtain ⟨hx0, hx⟩ := hx
      simp only [Bool.and_eq_true, decide_eq_true_eq] at hx
      obtain ⟨q, s, h1, h2, h3⟩ := belongs Y1700 idx x.1 t (by omega) htm hx.2
      have b1 := between Y1700 idx hp q s p h1 hpm
      have b2 := between Y1700 idx hp q s t h1 (List.mem_cons_of_mem _ htm)
      refine ⟨q, s, h1, b1.1 (by omega), b2.2.1 (by omega), ?_⟩
      unfold subset
      rw [List.mem_filter]
      exact ⟨hx0, by simp [h2, h3]⟩
    have down : ∀ q s, (q, s) ∈ (Y1700 :: idx).zip idx → p ≤ q → s ≤ t → ∀ x ∈ subset f.rows q s, x ∈ subset f.rows p t := by
      intro q s _ h1 h2 x hx
      unfold subset at hx ⊢
      rw [List.mem_filter] at hx ⊢
      simp only [Bool.and_eq_true, decide_eq_true_eq] at hx ⊢
      exact ⟨hx.1, by omega, by omega⟩
    obtain ⟨q0, s0, b1, b2, b3⟩ := belongs Y1700 idx t t (by omega) htm (le_refl _)
    have hst : s0 = t := le_antisymm ((between Y1700 idx hp q0 s0 t b1 (List.mem_cons_of_mem _ htm)).2.1 b2) b3
    subst hst
    have hpq : p ≤ q0 := (between Y1700 idx hp q0 s0 p b1 hpm).1 hlt
    have ne1 : subset (idx.zip (((Y1700 :: idx).zip idx).map row)) p s0 ≠ [] :=
      List.ne_nil_of_mem ((fine (s0, row (q0, s0))).2 ⟨q0, b1, rfl, hpq, le_refl _⟩)
    have ne2 : subset f.rows p s0 ≠ [] := by
      obtain ⟨x, hx⟩ := List.exists_mem_of_ne_nil _ (news q0 s0 b1)
      exact List.ne_nil_of_mem (down q0 s0 b1 hpq (le_refl _) x hx)
    rw [cell_agg how key m hl F hF hR.one _ _ ne1 (by
        intro r hr
        obtain ⟨q, -, e, -⟩ := (fine r).1 hr
        rw [e, rowlen]), cell_agg how key m hl F hF hR.one _ _ ne2 fun r hr => hw r (subw _ _ r hr)]
    congr 2
    unfold colAgg
    apply List.map_congr_left
    intro j hj
    rw [List.mem_range] at hj
    have clean1 : ∀ x ∈ ((subset (idx.zip (((Y1700 :: idx).zip idx).map row)) p s0).map (·.2)).map (fun r => r.getD j .nan), x.isNan = false := by
      intro x hx
      rw [List.map_map] at hx
      obtain ⟨r, hr, rfl⟩ := List.mem_map.1 hx
      obtain ⟨q, h1, e, -⟩ := (fine r).1 hr
      simp only [Function.comp_apply]
      rw [e]
      exact rowclean _ h1 _ (getD_mem _ j (rowlen _) hj)
    obtain ⟨m1, g1⟩ := hR.mem _ (by simpa using ne1) clean1
    obtain ⟨m2, g2⟩ := hR.mem _ (by simpa using ne2) (hcol _ j hj (subw p s0))
    apply hR.anti
    · -- the aggregate of the aggregates is one of the values
      rw [List.map_map, List.mem_map] at m1
      obtain ⟨r, hr, e⟩ := m1
      obtain ⟨q, h1, e2, h3, h4⟩ := (fine r).1 hr
      simp only [Function.comp_apply] at e
      rw [List.map_map, ← e, e2, rowj _ j hj]
      obtain ⟨m3, -⟩ := hR.mem _ (by simpa using news q r.1 h1) (hcol _ j hj (subw q r.1))
      apply g2
      rw [List.map_map, List.mem_map] at m3 ⊢
      obtain ⟨x, hx, e3⟩ := m3
      exact ⟨x, down q r.1 h1 h3 h4 x hx, by rw [List.map_map]; exact e3⟩
    · rw [List.map_map, List.mem_map] at m2
      obtain ⟨x, hx, e⟩ := m2
      obtain ⟨q, s, h1, h2, h3, h4⟩ := up x hx
      simp only [Function.comp_apply] at e
      rw [List.map_map, List.map_map, ← e]
      obtain ⟨-, g3⟩ := hR.mem _ (by simpa using news q s h1) (hcol _ j hj (subw q s))
      refine hR.trans _ _ _ (g3 _ (by rw [List.map_map, List.mem_map]; exact ⟨x, h4, rfl⟩)) ?_
      rw [← rowj (q, s) j hj, ← List.map_map]
      apply g1
      rw [List.map_map, List.mem_map]
      exact ⟨(s, row (q, s)), (fine _).2 ⟨q, h1, rfl, h2, h3⟩, rfl⟩
  unfold alignFrame
  dsimp only
  rw [if_neg (by rintro (h | h); exacts [hgne h, hne h]), if_neg (by rintro (h | h); exacts [hrne h, hne h]),
    alignLoop_eq _ _ _ _ hpc, alignLoop_eq _ _ _ _ hpc, mapE_congr fun x hx => hcell x.1 x.2 hx]

/-- C127 (steps) is false for means: the mean of the means is another number. -/
theorem C127_mean_refuted : ∃ (f g : Frame ℚ), f.WF ∧ alignFrame [("vol", "mean")] "vol" [20, 30] f = .ok g ∧
    alignFrame [("vol", "mean")] "vol" [30] g ≠ alignFrame [("vol", "mean")] "vol" [30] f :=
  ⟨⟨["v"], [(10, [.fin 1]), (20, [.fin 3]), (30, [.fin 8])]⟩, ⟨["v"], [(20, [.fin 2]), (30, [.fin 8])]⟩, by
    intro r hr; simp at hr; rcases hr with rfl | rfl | rfl <;> rfl, by decide +kernel, by decide +kernel⟩

/-- C127 (steps) is false without news at a time of the fine index: the value carried to that time counts again. -/
theorem C127_no_news_refuted : ∃ (f g : Frame ℚ), f.WF ∧ alignFrame [("vol", "max")] "vol" [10, 20, 30] f = .ok g ∧
    alignFrame [("vol", "max")] "vol" [10, 30] g ≠ alignFrame [("vol", "max")] "vol" [10, 30] f :=
  ⟨⟨["v"], [(10, [.fin 5]), (30, [.fin 1])]⟩, ⟨["v"], [(10, [.fin 5]), (20, [.fin 5]), (30, [.fin 1])]⟩, by
    intro r hr; simp at hr; rcases hr with rfl | rfl <;> rfl, by decide +kernel, by decide +kernel⟩

section Examples

/-- Aligned twice: with a missing value, a gap and an aggregation. -/
example : ∃ Y : Features ℚ, alignOn [("vol", "mean")] "price"
      ⟨[("price", ⟨["c"], [(10, [.fin 7]), (20, [.fin 8]), (30, [.fin 9])]⟩), ("vol", ⟨["v"], [(4, [.fin 1]), (9, [.fin 3]), (28, [.nan])]⟩)], []⟩ = .ok Y ∧
    Y.primary.lookup "vol" = some ⟨["v"], [(10, [.fin 2]), (20, [.fin 2]), (30, [.fin 2])]⟩ ∧ alignOn [("vol", "mean")] "price" Y = .ok Y :=
  ⟨⟨[("price", ⟨["c"], [(10, [.fin 7]), (20, [.fin 8]), (30, [.fin 9])]⟩), ("vol", ⟨["v"], [(10, [.fin 2]), (20, [.fin 2]), (30, [.fin 2])]⟩)], []⟩,
    by decide +kernel, by decide +kernel, by decide +kernel⟩

private def ticks : Frame ℚ := ⟨["v"], [(4, [.fin 1]), (9, [.fin 3]), (17, [.fin 2]), (28, [.pinf]), (29, [.fin 0])]⟩

/-- The hypotheses of C127 (steps), with an infinite value. -/
example : ∃ g, alignFrame [("vol", "max")] "vol" [10, 20, 30] ticks = .ok g ∧
    alignFrame [("vol", "max")] "vol" [20, 30] g = alignFrame [("vol", "max")] "vol" [20, 30] ticks ∧
    alignFrame [("vol", "max")] "vol" [20, 30] ticks = .ok ⟨["v"], [(20, [.fin 3]), (30, [.pinf])]⟩ := by
  obtain ⟨g, h1, h2⟩ := C127_steps_partial [("vol", "max")] "vol" "max" (by decide) (Or.inr rfl) ticks
    (by unfold Frame.WF; decide +kernel) (by decide +kernel) (by decide +kernel) [10, 20, 30] [20, 30] (by decide) (by decide) (by decide)
    (by decide) (by decide +kernel)
  exact ⟨g, h1, h2, by decide +kernel⟩

end Examples

end

end Mizar.Props
