import Std.Data.String.ToNat
import Verif.Lemmas.Pipeline
import Verif.Spec.OofProba

/-! Lemmas about out-of-fold probabilities. -/

set_option linter.unusedSectionVars false

namespace Mizar.Pipe
open Mizar.Spec
variable {K : Type} [Field K] [LinearOrder K]

theorem probaName_inj {i j : ℕ} (h : probaName i = probaName j) : i = j := by
  unfold probaName at h
  rw [String.append_right_inj] at h
  exact Nat.repr_injective h

/-- The columns written for `n` classes. -/
def probaNames (n : ℕ) : List String := (List.range n).map probaName

@[simp] theorem length_probaNames (n : ℕ) : (probaNames n).length = n := by simp [probaNames]

theorem nodup_probaNames (n : ℕ) : (probaNames n).Nodup :=
  List.nodup_range.map fun _ _ => probaName_inj

theorem mem_probaNames {n i : ℕ} : probaName i ∈ probaNames n ↔ i < n := by
  unfold probaNames
  rw [List.mem_map]
  constructor
  · rintro ⟨j, hj, h⟩
    rw [← probaName_inj h]; exact List.mem_range.1 hj
  · intro h; exact ⟨i, List.mem_range.2 h, rfl⟩

theorem setCells_old (names cols : List String) (row v : List (XF K)) (hl : row.length = cols.length)
    (h : ∀ c ∈ cols, c ∉ names) : setCells cols names row v = row := by
  unfold setCells
  induction cols generalizing row with
  | nil => rw [List.length_eq_zero_iff.1 hl]; rfl
  | cons c cols ih =>
    obtain ⟨x, row, rfl⟩ := List.exists_cons_of_ne_nil (l := row) (by rintro rfl; simp at hl)
    rw [List.zipWith_cons_cons, ih row (by simpa using hl) (fun c hc => h c (by simp [hc])),
      if_neg (h c (by simp))]

theorem setCells_append (names c1 c2 : List String) (r1 r2 v : List (XF K)) (hl : r1.length = c1.length) :
    setCells (c1 ++ c2) names (r1 ++ r2) v = setCells c1 names r1 v ++ setCells c2 names r2 v := by
  unfold setCells
  rw [List.zipWith_append hl.symm]

theorem setCells_self (names : List String) (hn : names.Nodup) (row v : List (XF K)) (hl : row.length = names.length)
    (hv : v.length = names.length) : setCells names names row v = v := by
  unfold setCells
  apply List.ext_getElem
  · simp [hl, hv]
  · intro i h1 h2
    have h3 : i < names.length := by omega
    simp only [List.getElem_zipWith, List.getElem_mem, if_true]
    rw [List.Nodup.idxOf_getElem hn, List.getD_eq_getElem _ _ h2]

theorem lookup_zip_gives (fo : Fold K) (hu : fo.idx.Nodup) (t : ℤ) (w : List (XF K)) (h : Gives fo t w) :
    (fo.idx.zip fo.proba).lookup t = some w := by
  obtain ⟨n, idx, v⟩ := fo
  obtain ⟨j, h1, h2⟩ := h
  dsimp only at *
  induction idx generalizing v j with
  | nil => simp at h1
  | cons a idx ih =>
    cases v with
    | nil => simp at h2
    | cons b v =>
      rw [List.zip_cons_cons, List.lookup_cons]
      cases j with
      | zero =>
        simp only [List.getElem?_cons_zero, Option.some.injEq] at h1 h2
        subst h1 h2; simp
      | succ j =>
        simp only [List.getElem?_cons_succ] at h1 h2
        have : t ≠ a := by
          rintro rfl
          exact (List.nodup_cons.1 hu).1 (List.mem_of_getElem? h1)
        rw [beq_eq_false_iff_ne.2 this]
        exact ih v (List.nodup_cons.1 hu).2 j h1 h2

theorem lookup_zip_none (fo : Fold K) (t : ℤ) (h : t ∉ fo.idx) : (fo.idx.zip fo.proba).lookup t = none := by
  rw [List.lookup_eq_none_iff]
  intro p hp
  have := (List.of_mem_zip (a := p.1) (b := p.2) hp).1
  rw [bne_iff_ne]
  rintro rfl
  exact h this

/-- What a fold leaves for time `t` when `acc` was there before. -/
def upd (fo : Fold K) (t : ℤ) (acc : List (XF K)) : List (XF K) := ((fo.idx.zip fo.proba).lookup t).getD acc

theorem upd_length {f : Frame K} {n : ℕ} {fo : Fold K} (h : FoldOf f n fo) (t : ℤ) (acc : List (XF K))
    (ha : acc.length = n) : (upd fo t acc).length = n := by
  unfold upd
  cases hl : (fo.idx.zip fo.proba).lookup t with
  | none => exact ha
  | some w =>
    obtain ⟨a, b, hab, _⟩ := List.lookup_eq_some_iff.1 hl
    have : (t, w) ∈ fo.idx.zip fo.proba := by rw [hab]; simp
    exact h.width w (List.of_mem_zip this).2

/-- The frame with `n` columns for the probabilities. -/
def withCols (f : Frame K) (n : ℕ) (p : ℤ → List (XF K)) : Frame K :=
  ⟨f.cols ++ probaNames n, f.rows.map fun r => (r.1, r.2 ++ p r.1)⟩

theorem withCols_index (f : Frame K) (n : ℕ) (p : ℤ → List (XF K)) : (withCols f n p).index = f.index := by
  simp [withCols, Frame.index, List.map_map, Function.comp_def]

theorem mkRows_fold {f : Frame K} {n : ℕ} {fo : Fold K} (h : FoldOf f n fo) :
    mkRows fo.idx n fo.proba = .ok (fo.idx.zip fo.proba) := by
  unfold mkRows
  rw [if_pos ⟨h.rows, h.width⟩]

/-- A call after the first one. -/
theorem step_next (f : Frame K) (n : ℕ) (p : ℤ → List (XF K)) (fo : Fold K) (hwf : f.WF)
    (hold : ∀ i, probaName i ∉ f.cols) (hp : ∀ t, (p t).length = n) (h : FoldOf f n fo) :
    predProbaFeatures (some fo.proba) fo.n (withCols f n p) fo.idx = .ok (withCols f n fun t => upd fo t (p t)) := by
  have hn := h.cols
  unfold predProbaFeatures
  dsimp only
  rw [hn]
  have hnames : (List.range n).map probaName = probaNames n := rfl
  rw [hnames, if_pos (by intro c hc; simp [withCols, hc])]
  unfold locAssign
  rw [if_pos (by rw [withCols_index]; exact h.times), length_probaNames, mkRows_fold h]
  simp only [Py.bind_ok]
  congr 1
  unfold withCols
  rw [List.map_map]
  congr 1
  apply List.map_congr_left
  intro r hr
  dsimp only [Function.comp]
  unfold upd
  cases hl : (fo.idx.zip fo.proba).lookup r.1 with
  | none => rfl
  | some w =>
    have hw : w.length = n := by
      have := upd_length h r.1 (p r.1) (hp _)
      unfold upd at this
      rw [hl] at this; exact this
    simp only [Option.getD_some]
    rw [setCells_append _ _ _ _ _ _ (hwf r hr), setCells_old _ _ _ _ (hwf r hr),
      setCells_self _ (nodup_probaNames n) _ _ (by simp [hp]) (by simp [hw])]
    intro c hc hc'
    obtain ⟨i, -, rfl⟩ := List.mem_map.1 hc'
    exact hold i hc

/-- A call for which some of the columns are not there yet. -/
theorem step_new (f : Frame K) (n : ℕ) (fo : Fold K) (hs : f.index.Pairwise (· < ·))
    (hnot : ¬ ∀ c ∈ probaNames n, c ∈ f.cols) (h : FoldOf f n fo) :
    predProbaFeatures (some fo.proba) fo.n f fo.idx = .ok (withCols f n fun t => upd fo t (nanRow n)) := by
  have hc := h.cols
  unfold predProbaFeatures
  dsimp only
  rw [hc]
  have hnames : (List.range n).map probaName = probaNames n := rfl
  rw [hnames, if_neg hnot, mkRows_fold h]
  simp only [Py.bind_ok]
  unfold concatOuter
  rw [if_neg (by simp)]
  have hidx : (⟨probaNames n, fo.idx.zip fo.proba⟩ : Frame K).index = fo.idx := by
    simp only [Frame.index]
    rw [List.map_fst_zip (by have := h.rows; omega)]
  have hj : joinIndex [f.index, fo.idx] = f.index := by
    have hm : ∀ t, t ∈ joinIndex [f.index, fo.idx] ↔ t ∈ f.index := by
      intro t
      rw [mem_joinIndex _ _ (by simp)]
      constructor
      · rintro ⟨i, hi, ht⟩
        simp only [List.mem_cons, List.not_mem_nil, or_false] at hi
        rcases hi with rfl | rfl
        · exact ht
        · exact h.times t ht
      · intro ht; exact ⟨_, by simp, ht⟩
    by_cases he : fo.idx = f.index
    · rw [he]; simp [joinIndex]
    · apply eq_of_mem_iff_of_pairwise_lt _ hs hm
      unfold joinIndex
      rw [if_neg (by simp [he])]
      exact pairwise_npUnique _
  simp only [List.map_cons, List.map_nil, hidx, hj]
  unfold withCols
  simp only [List.flatMap_cons, List.flatMap_nil, List.append_nil, Frame.index, List.map_map]
  congr 2
  apply List.map_congr_left
  intro r hr
  simp only [Function.comp, length_probaNames, Prod.mk.injEq, true_and]
  congr 1
  · have : f.row? r.1 = some r.2 := by
      unfold Frame.row?
      obtain ⟨cols, rows⟩ := f
      dsimp only [Frame.index] at *
      clear hj hidx h hnot
      induction rows with
      | nil => simp at hr
      | cons q rows ih =>
        simp only [List.map_cons, List.pairwise_cons] at hs
        rcases List.mem_cons.1 hr with rfl | hr
        · simp
        · have hlt := hs.1 r.1 (List.mem_map.2 ⟨r, hr, rfl⟩)
          rw [List.find?_cons_of_neg (by simp; omega)]
          exact ih hs.2 hr
    rw [this]; rfl
  · unfold upd Frame.row?
    dsimp only
    congr 1
    generalize fo.idx.zip fo.proba = l
    induction l with
    | nil => rfl
    | cons q l ih =>
      rw [List.lookup_cons]
      by_cases hq : q.1 = r.1
      · simp [hq]
      · rw [List.find?_cons_of_neg (by simpa using hq), beq_eq_false_iff_ne.2 (Ne.symm hq)]
        exact ih

/-- The first call. -/
theorem step_first (f : Frame K) (n : ℕ) (fo : Fold K) (hs : f.index.Pairwise (· < ·))
    (hold : ∀ i, probaName i ∉ f.cols) (hn : 0 < n) (h : FoldOf f n fo) :
    predProbaFeatures (some fo.proba) fo.n f fo.idx = .ok (withCols f n fun t => upd fo t (nanRow n)) :=
  step_new f n fo hs (fun hc => hold 0 (hc _ (mem_probaNames.2 hn))) h

theorem folds_next (f : Frame K) (n : ℕ) (folds : List (Fold K)) (hwf : f.WF) (hold : ∀ i, probaName i ∉ f.cols)
    (p : ℤ → List (XF K)) (hp : ∀ t, (p t).length = n) (h : ∀ fo ∈ folds, FoldOf f n fo) :
    predProbaFolds (withCols f n p) folds = .ok (withCols f n fun t => folds.foldl (fun a fo => upd fo t a) (p t)) := by
  induction folds generalizing p with
  | nil => rfl
  | cons fo folds ih =>
    unfold predProbaFolds
    rw [step_next f n p fo hwf hold hp (h fo (by simp)), Py.bind_ok,
      ih _ (fun t => upd_length (h fo (by simp)) t _ (hp t)) (fun fo hfo => h fo (by simp [hfo]))]
    rfl

theorem folds_eq (f : Frame K) (n : ℕ) (folds : List (Fold K)) (hwf : f.WF) (hs : f.index.Pairwise (· < ·))
    (hold : ∀ i, probaName i ∉ f.cols) (hn : 0 < n) (hne : folds ≠ []) (h : ∀ fo ∈ folds, FoldOf f n fo) :
    predProbaFolds f folds = .ok (withCols f n fun t => folds.foldl (fun a fo => upd fo t a) (nanRow n)) := by
  obtain ⟨fo, folds, rfl⟩ := List.exists_cons_of_ne_nil hne
  unfold predProbaFolds
  rw [step_first f n fo hs hold hn (h fo (by simp)), Py.bind_ok,
    folds_next f n folds hwf hold _ (fun t => upd_length (h fo (by simp)) t _ (by simp [nanRow]))
      (fun fo hfo => h fo (by simp [hfo]))]
  rfl

/-- Folds without the time leave what was there. -/
theorem foldl_upd_none (folds : List (Fold K)) (t : ℤ) (a : List (XF K)) (h : ∀ fo ∈ folds, t ∉ fo.idx) :
    folds.foldl (fun a fo => upd fo t a) a = a := by
  induction folds generalizing a with
  | nil => rfl
  | cons fo folds ih =>
    rw [List.foldl_cons, ih _ (fun fo hfo => h fo (by simp [hfo]))]
    unfold upd
    rw [lookup_zip_none fo t (h fo (by simp))]; rfl

theorem foldl_upd_last (f1 f2 : List (Fold K)) (fo : Fold K) (t : ℤ) (a w : List (XF K)) (hu : fo.idx.Nodup)
    (hg : Gives fo t w) (h : ∀ fo ∈ f2, t ∉ fo.idx) :
    (f1 ++ fo :: f2).foldl (fun a fo => upd fo t a) a = w := by
  rw [List.foldl_append, List.foldl_cons, foldl_upd_none f2 t _ h]
  unfold upd
  rw [lookup_zip_gives fo hu t w hg]; rfl

end Mizar.Pipe
