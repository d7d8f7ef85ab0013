import Verif.Props.OofProba

/-!
Property theorems C91 for folds whose models saw different numbers of classes (`/repo/mizarlabs/model/pipeline.py` lines 247-295).
-/

set_option linter.unusedSectionVars false

namespace Mizar.Props
open Mizar.Spec Mizar.Pipe
variable {K : Type} [Field K] [LinearOrder K]

private theorem setCells_fewer (n m : ℕ) (hm : m ≤ n) (row v : List (XF K)) (hl : row.length = n) (hv : v.length = m) :
    setCells (probaNames n) (probaNames m) row v = v ++ row.drop m := by
  unfold setCells
  apply List.ext_getElem
  · simp [hl, hv]; omega
  · intro i h1 h2
    have h3 : i < n := by simp [hl] at h1; omega
    have hn : (probaNames n)[i]'(by simpa using h3) = probaName i := by simp [probaNames]
    simp only [List.getElem_zipWith, hn]
    by_cases him : i < m
    · rw [if_pos (mem_probaNames.2 him), List.getElem_append_left (by omega)]
      have hi' : (probaNames m)[i]'(by simpa using him) = probaName i := by simp [probaNames]
      rw [← hi', List.Nodup.idxOf_getElem (nodup_probaNames m), List.getD_eq_getElem _ _ (by omega)]
    · rw [if_neg (fun h => him (mem_probaNames.1 h)), List.getElem_append_right (by omega), List.getElem_drop]
      congr 1
      omega

/-- What a fold leaves for time `t` when `acc` was there before: its probabilities, and what was there for further classes. -/
private def upd2 (fo : Fold K) (t : ℤ) (acc : List (XF K)) : List (XF K) :=
  match (fo.idx.zip fo.proba).lookup t with
  | some w => w ++ acc.drop fo.n
  | none => acc

private theorem lookup_width {f : Frame K} {m : ℕ} {fo : Fold K} (h : FoldOf f m fo) {t : ℤ} {w : List (XF K)}
    (hl : (fo.idx.zip fo.proba).lookup t = some w) : w.length = m := by
  obtain ⟨a, b, hab, _⟩ := List.lookup_eq_some_iff.1 hl
  have : (t, w) ∈ fo.idx.zip fo.proba := by rw [hab]; simp
  exact h.width w (List.of_mem_zip this).2

private theorem upd2_length {f : Frame K} {n : ℕ} {fo : Fold K} (h : FoldOf f fo.n fo) (hm : fo.n ≤ n) (t : ℤ) (acc : List (XF K))
    (ha : acc.length = n) : (upd2 fo t acc).length = n := by
  unfold upd2
  cases hl : (fo.idx.zip fo.proba).lookup t with
  | none => exact ha
  | some w => have := lookup_width h hl; simp only [List.length_append, List.length_drop]; omega

private theorem step_fewer (f : Frame K) (n : ℕ) (p : ℤ → List (XF K)) (fo : Fold K) (hwf : f.WF)
    (hold : ∀ i, probaName i ∉ f.cols) (hp : ∀ t, (p t).length = n) (h : FoldOf f fo.n fo) (hm : fo.n ≤ n) :
    predProbaFeatures (some fo.proba) fo.n (withCols f n p) fo.idx = .ok (withCols f n fun t => upd2 fo t (p t)) := by
  unfold predProbaFeatures
  dsimp only
  have hnames : (List.range fo.n).map probaName = probaNames fo.n := rfl
  rw [hnames, if_pos (by
    intro c hc
    obtain ⟨i, hi, rfl⟩ := List.mem_map.1 hc
    simp only [withCols, List.mem_append]
    exact Or.inr (mem_probaNames.2 (lt_of_lt_of_le (List.mem_range.1 hi) hm)))]
  unfold locAssign
  rw [if_pos (by rw [withCols_index]; exact h.times), length_probaNames, mkRows_fold h]
  simp only [Py.bind_ok]
  congr 1
  unfold withCols
  rw [List.map_map]
  congr 1
  apply List.map_congr_left
  intro r hr
  dsimp only [Function.comp]
  unfold upd2
  cases hl : (fo.idx.zip fo.proba).lookup r.1 with
  | none => rfl
  | some w =>
    have hw := lookup_width h hl
    dsimp only
    rw [setCells_append _ _ _ _ _ _ (hwf r hr), setCells_old _ _ _ _ (hwf r hr), setCells_fewer n fo.n hm _ _ (hp _) hw]
    intro c hc hc'
    obtain ⟨i, -, rfl⟩ := List.mem_map.1 hc'
    exact hold i hc

private theorem folds_fewer (f : Frame K) (n : ℕ) (folds : List (Fold K)) (hwf : f.WF) (hold : ∀ i, probaName i ∉ f.cols)
    (p : ℤ → List (XF K)) (hp : ∀ t, (p t).length = n) (h : ∀ fo ∈ folds, FoldOf f fo.n fo) (hm : ∀ fo ∈ folds, fo.n ≤ n) :
    predProbaFolds (withCols f n p) folds = .ok (withCols f n fun t => folds.foldl (fun a fo => upd2 fo t a) (p t)) := by
  induction folds generalizing p with
  | nil => rfl
  | cons fo folds ih =>
    unfold predProbaFolds
    rw [step_fewer f n p fo hwf hold hp (h fo (by simp)) (hm fo (by simp)), Py.bind_ok,
      ih _ (fun t => upd2_length (h fo (by simp)) (hm fo (by simp)) t _ (hp t)) (fun fo hfo => h fo (by simp [hfo]))
        (fun fo hfo => hm fo (by simp [hfo]))]
    rfl

private theorem upd_eq_upd2 {f : Frame K} {n : ℕ} {fo : Fold K} (h : FoldOf f n fo) (t : ℤ) : upd fo t (nanRow n) = upd2 fo t (nanRow n) := by
  unfold upd upd2
  cases hl : (fo.idx.zip fo.proba).lookup t with
  | none => rfl
  | some w =>
    have := h.cols
    simp only [Option.getD_some]
    rw [List.drop_eq_nil_of_le (by simp [nanRow]; omega), List.append_nil]

private theorem foldl_skip (folds : List (Fold K)) (t : ℤ) (c : ℕ) (a : List (XF K)) (hf : ∀ fo ∈ folds, ∀ w ∈ fo.proba, w.length = fo.n)
    (h : ∀ fo ∈ folds, t ∉ fo.idx ∨ fo.n ≤ c) : (folds.foldl (fun a fo => upd2 fo t a) a)[c]? = a[c]? := by
  induction folds generalizing a with
  | nil => rfl
  | cons fo folds ih =>
    rw [List.foldl_cons, ih _ (fun fo hfo => hf fo (by simp [hfo])) (fun fo hfo => h fo (by simp [hfo]))]
    unfold upd2
    cases hl : (fo.idx.zip fo.proba).lookup t with
    | none => rfl
    | some w =>
      obtain ⟨x, y, hab, _⟩ := List.lookup_eq_some_iff.1 hl
      have hmem : (t, w) ∈ fo.idx.zip fo.proba := by rw [hab]; simp
      have hw := hf fo (by simp) w (List.of_mem_zip hmem).2
      rcases h fo (by simp) with h1 | h1
      · exact absurd (List.of_mem_zip hmem).1 h1
      · dsimp only
        rw [List.getElem?_append_right (by omega), List.getElem?_drop]
        congr 1
        omega

/-- **C91** (models that saw fewer classes) When no later model saw more classes than the first, the frame gets one column for each class of the
first.  The probability of class `c` in a row is that of the last fold that holds the row and whose model saw more than `c` classes, and is missing
if there is none. -/
theorem C91_fewer_classes (f : Frame K) (fo₁ : Fold K) (folds : List (Fold K)) (hwf : f.WF) (hs : f.index.Pairwise (· < ·))
    (hold : ∀ i, probaName i ∉ f.cols) (hn : 0 < fo₁.n) (h : ∀ fo ∈ fo₁ :: folds, FoldOf f fo.n fo) (hm : ∀ fo ∈ folds, fo.n ≤ fo₁.n) :
    ∃ g, predProbaFolds f (fo₁ :: folds) = .ok g ∧ g.cols = f.cols ++ (List.range fo₁.n).map probaName ∧ g.index = f.index ∧
      ∀ (i : ℕ) (r : ℤ × List (XF K)), f.rows[i]? = some r → ∃ w, g.rows[i]? = some (r.1, r.2 ++ w) ∧ w.length = fo₁.n ∧ ∀ c < fo₁.n,
        (∀ f1 fo f2 p, fo₁ :: folds = f1 ++ fo :: f2 → Gives fo r.1 p → c < fo.n → (∀ fo' ∈ f2, r.1 ∉ fo'.idx ∨ fo'.n ≤ c) → w[c]? = p[c]?) ∧
        ((∀ fo ∈ fo₁ :: folds, r.1 ∉ fo.idx ∨ fo.n ≤ c) → w[c]? = some .nan) := by
  have hwid : ∀ fo ∈ fo₁ :: folds, ∀ w ∈ fo.proba, w.length = fo.n := fun fo hfo => (h fo hfo).width
  have hlen : ∀ t, (upd fo₁ t (nanRow fo₁.n)).length = fo₁.n := fun t => upd_length (h fo₁ (by simp)) t _ (by simp [nanRow])
  have key : predProbaFolds f (fo₁ :: folds) =
      .ok (withCols f fo₁.n fun t => (fo₁ :: folds).foldl (fun a fo => upd2 fo t a) (nanRow fo₁.n)) := by
    unfold predProbaFolds
    rw [step_first f fo₁.n fo₁ hs hold hn (h fo₁ (by simp)), Py.bind_ok,
      folds_fewer f fo₁.n folds hwf hold _ hlen (fun fo hfo => h fo (by simp [hfo])) hm]
    congr 2
    funext t
    rw [List.foldl_cons, upd_eq_upd2 (h fo₁ (by simp))]
  refine ⟨_, key, rfl, withCols_index _ _ _, ?_⟩
  intro i r hr
  refine ⟨(fo₁ :: folds).foldl (fun a fo => upd2 fo r.1 a) (nanRow fo₁.n), by simp only [withCols, List.getElem?_map, hr, Option.map_some], ?_, ?_⟩
  · have : ∀ (l : List (Fold K)) (a : List (XF K)), (∀ fo ∈ l, FoldOf f fo.n fo) → (∀ fo ∈ l, fo.n ≤ fo₁.n) → a.length = fo₁.n →
        (l.foldl (fun a fo => upd2 fo r.1 a) a).length = fo₁.n := by
      intro l
      induction l with
      | nil => exact fun a _ _ ha => ha
      | cons x l ih =>
        intro a h1 h2 ha
        rw [List.foldl_cons]
        exact ih _ (fun fo hfo => h1 fo (by simp [hfo])) (fun fo hfo => h2 fo (by simp [hfo]))
          (upd2_length (h1 x (by simp)) (h2 x (by simp)) _ _ ha)
    exact this _ _ h (fun fo hfo => by
      rcases List.mem_cons.1 hfo with rfl | h1
      · exact le_refl _
      · exact hm fo h1) (by simp [nanRow])
  · intro c hc
    refine ⟨?_, ?_⟩
    · intro f1 fo f2 p he hg hcn hlast
      have hfo : fo ∈ fo₁ :: folds := by rw [he]; simp
      rw [he, List.foldl_append, List.foldl_cons,
        foldl_skip f2 r.1 c _ (fun x hx => hwid x (by rw [he]; simp [hx])) hlast]
      unfold upd2
      rw [lookup_zip_gives fo (h fo hfo).unique r.1 p hg]
      dsimp only
      have hp : p.length = fo.n := by
        obtain ⟨j, -, h2⟩ := hg
        exact hwid fo hfo p (List.mem_of_getElem? h2)
      rw [List.getElem?_append_left (by omega)]
    · intro hnone
      rw [foldl_skip _ r.1 c _ hwid hnone]
      unfold nanRow
      rw [List.getElem?_replicate_of_lt hc]

/-- **C91** (a model that saw more classes) When the frame has columns for `n` classes and the model of the next fold saw more, the call adds a second
set of columns with the names in use, in which only the rows of this fold have values, and leaves the columns there as they are. -/
theorem C91_more_classes (f : Frame K) (n : ℕ) (p : ℤ → List (XF K)) (fo : Fold K) (hs : f.index.Pairwise (· < ·))
    (hold : ∀ i, probaName i ∉ f.cols) (hn : 0 < n) (hm : n < fo.n) (h : FoldOf f fo.n fo) :
    ∃ g, predProbaFeatures (some fo.proba) fo.n
        ⟨f.cols ++ (List.range n).map probaName, f.rows.map fun r => (r.1, r.2 ++ p r.1)⟩ fo.idx = .ok g ∧
      g.cols = f.cols ++ (List.range n).map probaName ++ (List.range fo.n).map probaName ∧ ¬ g.cols.Nodup ∧ g.index = f.index ∧
      ∀ (i : ℕ) (r : ℤ × List (XF K)), f.rows[i]? = some r → ∃ w, g.rows[i]? = some (r.1, r.2 ++ p r.1 ++ w) ∧
        (∀ q, Gives fo r.1 q → w = q) ∧ (r.1 ∉ fo.idx → w = List.replicate fo.n .nan) := by
  have hF : FoldOf (withCols f n p) fo.n fo := ⟨rfl, by rw [withCols_index]; exact h.times, h.unique, h.rows, h.width⟩
  have hs' : (withCols f n p).index.Pairwise (· < ·) := by rw [withCols_index]; exact hs
  have hnot : ¬ ∀ c ∈ probaNames fo.n, c ∈ (withCols f n p).cols := by
    intro hc
    have := hc (probaName n) (mem_probaNames.2 hm)
    simp only [withCols, List.mem_append] at this
    rcases this with h1 | h1
    · exact hold n h1
    · exact absurd (mem_probaNames.1 h1) (by omega)
  refine ⟨_, step_new (withCols f n p) fo.n fo hs' hnot hF, rfl, ?_, by rw [withCols_index, withCols_index], ?_⟩
  · intro hnd
    have h1 : ((f.cols ++ probaNames n) ++ probaNames fo.n).Nodup := hnd
    rw [List.nodup_append] at h1
    exact h1.2.2 (probaName 0) (List.mem_append_right _ (mem_probaNames.2 hn)) (probaName 0) (mem_probaNames.2 (by omega)) rfl
  · intro i r hr
    refine ⟨upd fo r.1 (nanRow fo.n), ?_, ?_, ?_⟩
    · simp only [withCols, List.getElem?_map, hr, Option.map_some]
    · intro q hq
      unfold upd
      rw [lookup_zip_gives fo h.unique r.1 q hq]
      rfl
    · intro hnone
      unfold upd
      rw [lookup_zip_none fo r.1 hnone]
      rfl

section Examples

private theorem oof_wf : oofTwoRows.WF := by
  intro r hr
  simp only [oofTwoRows, List.mem_cons, List.not_mem_nil, or_false] at hr
  rcases hr with rfl | rfl <;> rfl

private theorem oof_old : ∀ i, probaName i ∉ oofTwoRows.cols := by
  intro i h
  have hi : probaName i = "x" := by simpa [oofTwoRows] using h
  unfold probaName at hi
  have h1 := congrArg String.toList hi
  rw [String.toList_append] at h1
  have h2 := congrArg List.length h1
  rw [List.length_append] at h2
  have h3 : ("primary_side_pred_proba_" : String).toList.length = 24 := by decide
  have h4 : ("x" : String).toList.length = 1 := by decide
  omega

/-- Three classes, then two: the second row has all three probabilities, the first only two. -/
example : ∃ g, predProbaFolds oofTwoRows threeTwo = .ok g ∧ g.cols = ["x"] ++ (List.range 3).map probaName := by
  obtain ⟨g, h1, h2, -⟩ := C91_fewer_classes oofTwoRows ⟨3, [1], [[.fin (1/2), .fin (1/4), .fin (1/4)]]⟩ [⟨2, [0], [[.fin (1/4), .fin (3/4)]]⟩]
    oof_wf (by decide) oof_old (by decide) (by
      intro fo hfo
      simp only [List.mem_cons, List.not_mem_nil, or_false] at hfo
      rcases hfo with rfl | rfl
      · exact ⟨rfl, by decide, by decide, rfl, by decide⟩
      · exact ⟨rfl, by decide, by decide, rfl, by decide⟩) (by simp)
  exact ⟨g, h1, h2⟩

/-- Two classes, then three. -/
example (p : ℤ → List (XF ℚ)) : ∃ g, predProbaFeatures (some [[.fin (1/2), .fin (1/4), .fin (1/4)]]) 3
      ⟨oofTwoRows.cols ++ (List.range 2).map probaName, oofTwoRows.rows.map fun r => (r.1, r.2 ++ p r.1)⟩ [1] = .ok g ∧ ¬ g.cols.Nodup := by
  obtain ⟨g, h1, -, h2, -⟩ := C91_more_classes oofTwoRows 2 p ⟨3, [1], [[.fin (1/2), .fin (1/4), .fin (1/4)]]⟩ (by decide) oof_old (by decide)
    (by decide) ⟨rfl, by decide, by decide, rfl, by decide⟩
  exact ⟨g, h1, h2⟩

end Examples

end Mizar.Props
