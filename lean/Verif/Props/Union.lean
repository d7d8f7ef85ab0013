import Verif.Model.Union
import Mathlib.Data.List.Forall2

/-! Property theorems C82 and C83: feature unions keep the index; the pipeline passes sample weights to its last step. -/

namespace Mizar.Props
open Mizar.Union
variable {K : Type}

theorem hstack_row {n : ℕ} {ms : List (List (List (XF K)))} {m : List (List (XF K))} (h : hstack n ms = .ok m) (hm : m.length = n) :
    (∀ a ∈ ms, a.length = n) ∧ ∀ i < n, m[i]? = some ((ms.map fun a => a.getD i []).flatten) := by
  induction ms generalizing m with
  | nil =>
    cases h
    refine ⟨by simp, fun i hi => ?_⟩
    simp [hi]
  | cons a l ih =>
    cases l with
    | nil =>
      simp only [hstack, Except.ok.injEq] at h
      subst h
      refine ⟨by simpa using hm, fun i hi => ?_⟩
      simp [hm ▸ hi]
    | cons b l =>
      rw [hstack] at h
      · obtain ⟨r, h1, h2⟩ := Py.bind_eq_ok.1 h
        split at h2
        · rename_i hl
          cases h2
          simp only [List.length_zipWith, hl, min_self] at hm
          obtain ⟨h3, h4⟩ := ih h1 hm
          refine ⟨?_, fun i hi => ?_⟩
          · intro c hc
            rcases List.mem_cons.1 hc with rfl | hc
            · omega
            · exact h3 c hc
          · rw [List.getElem?_zipWith, h4 i hi, List.getElem?_eq_getElem (by omega)]
            simp only [List.map_cons, List.flatten_cons, List.getD_eq_getElem _ _ (show i < a.length by omega)]
        · cases h2
      · simp

/-- A feature union keeps the index: one row per row of the input, with the same label, holding the features of all
transformers one after the other. -/
theorem C82_index (fs : List (Frame K → Py (List (List (XF K))))) (X : Frame K) (out : List (ℤ × List (XF K))) (h : transform fs X = .ok out) :
    out.map (·.1) = X.index ∧ ∃ ms, List.Forall₂ (fun f m => f X = .ok m) fs ms ∧ (∀ m ∈ ms, m.length = X.rows.length) ∧
      ∀ i < X.rows.length, (out.map (·.2))[i]? = some ((ms.map fun m => m.getD i []).flatten) := by
  unfold transform at h
  obtain ⟨ms, h1, h2⟩ := Py.bind_eq_ok.1 h
  obtain ⟨m, h3, h4⟩ := Py.bind_eq_ok.1 h2
  unfold withIndex at h4
  split at h4
  · rename_i hl
    cases h4
    have hi : X.index.length = X.rows.length := by simp [Frame.index]
    obtain ⟨h5, h6⟩ := hstack_row h3 hl
    refine ⟨by rw [List.map_fst_zip (by omega)], ms, (mapE_eq_ok_iff _ _ _).1 h1, h5, ?_⟩
    intro i hi'
    rw [List.map_snd_zip (by omega)]
    exact h6 i hi'
  · cases h4

/-- Transformers that give one row per row of the input: the union succeeds. -/
theorem C82_succeeds (fs : List (Frame K → Py (List (List (XF K))))) (X : Frame K)
    (h : ∀ f ∈ fs, ∃ m, f X = .ok m ∧ m.length = X.rows.length) : ∃ out, transform fs X = .ok out := by
  have h1 : ∃ ms, mapE (fun f => f X) fs = .ok ms ∧ ∀ m ∈ ms, m.length = X.rows.length := by
    induction fs with
    | nil => exact ⟨[], rfl, by simp⟩
    | cons f fs ih =>
      obtain ⟨m, hm, hl⟩ := h f (by simp)
      obtain ⟨ms, h2, h3⟩ := ih fun g hg => h g (by simp [hg])
      refine ⟨m :: ms, by simp [mapE, hm, h2], ?_⟩
      intro a ha
      rcases List.mem_cons.1 ha with rfl | ha
      · exact hl
      · exact h3 a ha
  obtain ⟨ms, h2, h3⟩ := h1
  have h4 : ∃ m, hstack X.rows.length ms = .ok m ∧ m.length = X.rows.length := by
    clear h2
    induction ms with
    | nil => exact ⟨_, rfl, by simp⟩
    | cons a l ih =>
      obtain ⟨r, hr, hrl⟩ := ih fun m hm => h3 m (by simp [hm])
      have ha := h3 a (by simp)
      cases l with
      | nil => exact ⟨a, rfl, ha⟩
      | cons b l =>
        refine ⟨List.zipWith (· ++ ·) a r, ?_, by simp [ha, hrl]⟩
        rw [hstack]
        · rw [hr, Py.bind_ok, if_pos (by omega)]
        · simp
  obtain ⟨m, h5, h6⟩ := h4
  exact ⟨X.index.zip m, by unfold transform; rw [h2, Py.bind_ok, h5, Py.bind_ok, withIndex, if_pos h6]⟩

/-- `fit_transform` is `fit` followed by `transform`, for transformers that do not look at the target.  Missing: transformers
that do (see `C82_target_refuted`). -/
theorem C82_fit_transform_partial (ts : List (Trans K)) (hy : ∀ t ∈ ts, ∀ X y, t X y = t X none) (X : Frame K) (y : Option (List (XF K)))
    (fs : List (Frame K → Py (List (List (XF K))))) (hf : Union.fit ts X y = .ok fs) : fitTransform ts X y = transform fs X := by
  unfold Union.fit at hf
  rw [mapE_eq_ok_iff] at hf
  unfold fitTransform transform
  congr 1
  induction hf with
  | nil => rfl
  | @cons t f ts fs h1 _ ih =>
    have h2 : t X none = .ok f := by rw [← hy t (by simp) X y]; exact h1
    simp only [mapE, h2, Py.bind_ok]
    rw [ih fun t ht => hy t (by simp [ht])]

/-- A transformer that encodes the target: its features are the target values, or NaN without target. -/
def targetTrans : Trans ℚ := fun _ y => .ok fun X => .ok (X.index.map fun _ => [((y.bind List.head?).getD .nan)])

/-- The target given to `fit_transform` is dropped: a transformer that uses it gives other features than after `fit`. -/
theorem C82_target_refuted : ∃ (ts : List (Trans ℚ)) (X : Frame ℚ) (y : Option (List (XF ℚ))) (fs : _) (a b : _),
    Union.fit ts X y = .ok fs ∧ transform fs X = .ok a ∧ fitTransform ts X y = .ok b ∧ a ≠ b := by
  refine ⟨[targetTrans], ⟨["x"], [(1, [.fin 3])]⟩, some [.fin 5], _, [(1, [.fin 5])], [(1, [.nan])], rfl, rfl, rfl, ?_⟩
  decide

/-- Two transformers on a frame with two rows. -/
example : transform (K := ℚ) [fun X => .ok (X.rows.map fun r => r.2), fun X => .ok (X.rows.map fun _ => [.fin 1, .nan])]
    ⟨["x"], [(10, [.fin 3]), (20, [.fin 4])]⟩ = .ok [(10, [.fin 3, .fin 1, .nan]), (20, [.fin 4, .fin 1, .nan])] := rfl

/-- The keyword argument of the sample weights. -/
def sampleWeight : Name := "sample_weight".toList

theorem splitDunder_append (s r : Name) (h : splitDunder s = none) (he : s.getLast? ≠ some '_') :
    splitDunder (s ++ '_' :: '_' :: r) = some (s, r) := by
  induction s with
  | nil => rfl
  | cons c s ih =>
    by_cases hc : ∃ s', c = '_' ∧ s = '_' :: s'
    · obtain ⟨s', rfl, rfl⟩ := hc
      simp [splitDunder] at h
    · have h1 : splitDunder (c :: s) = (splitDunder s).map fun p => (c :: p.1, p.2) := by
        rw [splitDunder]
        rintro r' rfl rfl
        exact hc ⟨r', rfl, rfl⟩
      rw [h1, Option.map_eq_none_iff] at h
      have h2 : splitDunder (c :: (s ++ '_' :: '_' :: r)) = (splitDunder (s ++ '_' :: '_' :: r)).map fun p => (c :: p.1, p.2) := by
        rw [splitDunder]
        rintro r' rfl hr
        cases s with
        | nil => simp at he
        | cons d s =>
          simp only [List.cons_append, List.cons.injEq] at hr
          exact hc ⟨s, rfl, by rw [hr.1]⟩
      rw [List.cons_append, h2, ih h (by cases s <;> simp_all)]
      rfl

theorem splitDunder_eq {k s p : Name} (h : splitDunder k = some (s, p)) : k = s ++ '_' :: '_' :: p := by
  induction k using splitDunder.induct generalizing s p with
  | case1 => simp [splitDunder] at h
  | case2 r => simp only [splitDunder, Option.some.injEq, Prod.mk.injEq] at h; obtain ⟨rfl, rfl⟩ := h; rfl
  | case3 c r hc ih =>
    rw [splitDunder] at h
    · obtain ⟨⟨s', p'⟩, h1, h2⟩ := Option.map_eq_some_iff.1 h
      simp only [Prod.mk.injEq] at h2
      obtain ⟨rfl, rfl⟩ := h2
      rw [ih h1]; rfl
    · exact hc

variable {V : Type}

/-- The keyword arguments that belong to a step. -/
def share (s : Name) (l : List (Name × V)) : List (Name × V) :=
  l.filterMap fun kv => (splitDunder kv.1).bind fun q => if q.1 = s then some (q.2, kv.2) else none

theorem share_cons (s : Name) (k : Name) (v : V) (l : List (Name × V)) (s' p : Name) (h : splitDunder k = some (s', p)) :
    share s ((k, v) :: l) = if s' = s then (p, v) :: share s l else share s l := by
  unfold share
  rw [List.filterMap_cons, h]
  by_cases hs : s' = s <;> simp [hs]

theorem route_spec (names : List Name) (l : List (Name × V)) (d : Name → List (Name × V)) :
    (∃ e, ∀ d : Name → List (Name × V), route names l d = .error e) ∨
    ((∀ kv ∈ l, ∃ s p, splitDunder kv.1 = some (s, p) ∧ s ∈ names) ∧ route names l d = .ok fun s => d s ++ share s l) := by
  induction l generalizing d with
  | nil => right; simp [route, share]
  | cons kv l ih =>
    obtain ⟨k, v⟩ := kv
    cases hk : splitDunder k with
    | none => left; exact ⟨.valueError, fun d => by simp [route, hk]⟩
    | some q =>
      obtain ⟨s, p⟩ := q
      by_cases hs : s ∈ names
      · rcases ih (Function.update d s (d s ++ [(p, v)])) with ⟨e, he⟩ | ⟨h1, h2⟩
        · left
          exact ⟨e, fun d => by simp [route, hk, hs, he]⟩
        · right
          refine ⟨?_, ?_⟩
          · intro kv hkv
            rcases List.mem_cons.1 hkv with rfl | hkv
            · exact ⟨s, p, hk, hs⟩
            · exact h1 kv hkv
          · rw [route, hk]
            dsimp only
            rw [if_pos hs, h2]
            congr 1
            funext s'
            rw [share_cons s' k v l s p hk]
            by_cases he : s' = s
            · subst he; simp
            · rw [Function.update_of_ne he, if_neg (fun h => he h.symm)]
      · left
        exact ⟨.keyError, fun d => by simp [route, hk, hs]⟩

theorem route_dictSet (names : List Name) (key : Name) (w : V) (last p : Name) (hk : splitDunder key = some (last, p)) (hl : last ∈ names)
    (l : List (Name × V)) (d : Name → List (Name × V)) :
    (∃ e, route names l d = .error e ∧ route names (dictSet key w l) d = .error e) ∨
    (route names l d = .ok (fun s => d s ++ share s l) ∧
      route names (dictSet key w l) d = .ok (fun s => d s ++ share s (dictSet key w l))) := by
  induction l generalizing d with
  | nil =>
    right
    refine ⟨by simp [route, share], ?_⟩
    have : dictSet key w [] = [(key, w)] := rfl
    rw [this, route, hk]
    dsimp only
    rw [if_pos hl, route]
    congr 1
    funext s
    rw [share_cons s key w [] last p hk]
    by_cases he : s = last
    · subst he; simp [share]
    · rw [Function.update_of_ne he, if_neg (fun h => he h.symm)]; simp [share]
  | cons kv l ih =>
    obtain ⟨k, v⟩ := kv
    by_cases hkk : k = key
    · subst hkk
      have : dictSet k w ((k, v) :: l) = (k, w) :: l := by simp [dictSet]
      rw [this]
      simp only [route, hk, if_pos hl]
      rcases route_spec names l (Function.update d last (d last ++ [(p, v)])) with ⟨e, he⟩ | ⟨h1, h2⟩
      · left
        exact ⟨e, he _, he _⟩
      · right
        rcases route_spec names l (Function.update d last (d last ++ [(p, w)])) with ⟨e, he⟩ | ⟨h3, h4⟩
        · rw [he] at h2; cases h2
        · rw [h2, h4]
          constructor <;> congr 1 <;> funext s <;> rw [share_cons s k _ l last p hk] <;> by_cases he : s = last
          · subst he; simp
          · rw [Function.update_of_ne he, if_neg (fun h => he h.symm)]
          · subst he; simp
          · rw [Function.update_of_ne he, if_neg (fun h => he h.symm)]
    · have : dictSet key w ((k, v) :: l) = (k, v) :: dictSet key w l := by simp [dictSet, hkk]
      rw [this]
      cases hs : splitDunder k with
      | none => left; exact ⟨.valueError, by simp [route, hs], by simp [route, hs]⟩
      | some q =>
        obtain ⟨s0, p0⟩ := q
        by_cases hn : s0 ∈ names
        · simp only [route, hs, if_pos hn]
          rcases ih (Function.update d s0 (d s0 ++ [(p0, v)])) with ⟨e, h1, h2⟩ | ⟨h1, h2⟩
          · left; exact ⟨e, h1, h2⟩
          · right
            rw [h1, h2]
            constructor <;> congr 1 <;> funext s <;> rw [share_cons s k _ _ s0 p0 hs] <;> by_cases he : s = s0
            · subst he; simp
            · rw [Function.update_of_ne he, if_neg (fun h => he h.symm)]
            · subst he; simp
            · rw [Function.update_of_ne he, if_neg (fun h => he h.symm)]
        · left; exact ⟨.keyError, by simp [route, hs, hn], by simp [route, hs, hn]⟩

theorem share_dictSet_other (key : Name) (w : V) (last p : Name) (hk : splitDunder key = some (last, p)) (l : List (Name × V)) (s : Name)
    (hs : s ≠ last) : share s (dictSet key w l) = share s l := by
  induction l with
  | nil =>
    have : dictSet key w [] = [(key, w)] := rfl
    rw [this, share_cons s key w [] last p hk, if_neg (fun h => hs h.symm)]
  | cons kv l ih =>
    obtain ⟨k, v⟩ := kv
    by_cases hkk : k = key
    · subst hkk
      have : dictSet k w ((k, v) :: l) = (k, w) :: l := by simp [dictSet]
      rw [this, share_cons s k w l last p hk, share_cons s k v l last p hk, if_neg (fun h => hs h.symm), if_neg (fun h => hs h.symm)]
    · have : dictSet key w ((k, v) :: l) = (k, v) :: dictSet key w l := by simp [dictSet, hkk]
      rw [this]
      cases h0 : splitDunder k with
      | none => simp only [share, List.filterMap_cons, h0, Option.bind_none]; exact ih
      | some q => rw [share_cons s k v _ q.1 q.2 h0, share_cons s k v l q.1 q.2 h0, ih]

theorem share_dictSet_last (key : Name) (w : V) (last p : Name) (hk : splitDunder key = some (last, p)) (l : List (Name × V)) (q : Name) :
    (share last (dictSet key w l)).lookup q = if q = p then some w else (share last l).lookup q := by
  induction l with
  | nil =>
    have : dictSet key w [] = [(key, w)] := rfl
    rw [this, share_cons last key w [] last p hk, if_pos rfl]
    by_cases hq : q = p
    · simp [hq]
    · simp [hq, share, List.lookup_cons, beq_false_of_ne hq]
  | cons kv l ih =>
    obtain ⟨k, v⟩ := kv
    by_cases hkk : k = key
    · subst hkk
      have : dictSet k w ((k, v) :: l) = (k, w) :: l := by simp [dictSet]
      rw [this, share_cons last k w l last p hk, share_cons last k v l last p hk, if_pos rfl, if_pos rfl]
      by_cases hq : q = p
      · simp [hq]
      · simp [hq, List.lookup_cons, beq_false_of_ne hq]
    · have : dictSet key w ((k, v) :: l) = (k, v) :: dictSet key w l := by simp [dictSet, hkk]
      rw [this]
      cases h0 : splitDunder k with
      | none => simp only [share, List.filterMap_cons, h0, Option.bind_none]; exact ih
      | some r =>
        rw [share_cons last k v _ r.1 r.2 h0, share_cons last k v l r.1 r.2 h0]
        by_cases hr : r.1 = last
        · rw [if_pos hr, if_pos hr, List.lookup_cons, List.lookup_cons]
          by_cases hq : q = r.2
          · have : q ≠ p := by
              rintro rfl
              apply hkk
              rw [splitDunder_eq hk, splitDunder_eq h0, hr, ← hq]
            simp [hq]
            exact fun h => absurd (hq.trans h) this
          · rw [beq_false_of_ne hq]; exact ih
        · rw [if_neg hr, if_neg hr]; exact ih

/-- Sample weights given to `MizarPipeline.fit` reach the last step as its argument `sample_weight`, replacing one given
otherwise; all other arguments of all steps are those of a call without weights, which fails in the same cases.  Step names
contain no `__` (scikit-learn checks it); the last one must not end with an underscore. -/
theorem C83_weights_partial (names : List Name) (last : Name) (hlast : names.getLast? = some last) (hd : splitDunder last = none)
    (hu : last.getLast? ≠ some '_') (w : V) (params : List (Name × V)) :
    (∃ e, pipelineFit names none params = .error e ∧ pipelineFit names (some w) params = .error e) ∨
    ∃ d d', pipelineFit names none params = .ok d ∧ pipelineFit names (some w) params = .ok d' ∧
      (d' last).lookup sampleWeight = some w ∧ (∀ q, q ≠ sampleWeight → (d' last).lookup q = (d last).lookup q) ∧
      ∀ s, s ≠ last → d' s = d s := by
  have hk : splitDunder (last ++ "__sample_weight".toList) = some (last, sampleWeight) := splitDunder_append last sampleWeight hd hu
  have hm : last ∈ names := List.mem_of_getLast? hlast
  unfold pipelineFit
  dsimp only
  rw [hlast]
  dsimp only
  rcases route_dictSet names _ w last sampleWeight hk hm params (fun _ => []) with ⟨e, h1, h2⟩ | ⟨h1, h2⟩
  · left; exact ⟨e, h1, h2⟩
  · right
    refine ⟨_, _, h1, h2, ?_, ?_, ?_⟩
    · rw [List.nil_append, share_dictSet_last _ w last sampleWeight hk, if_pos rfl]
    · intro q hq
      rw [List.nil_append, share_dictSet_last _ w last sampleWeight hk, if_neg hq, List.nil_append]
    · intro s hs
      rw [share_dictSet_other _ w last sampleWeight hk params s hs]

/-- A last step whose name ends with an underscore does not get its weights: they are refused, or go to another step under
another name. -/
theorem C83_underscore_refuted (w : V) :
    pipelineFit ["model_".toList] (some w) [] = .error .keyError ∧
    ∃ d, pipelineFit ["model".toList, "model_".toList] (some w) [] = .ok d ∧ (d "model_".toList).lookup sampleWeight = none ∧
      d "model".toList = [("_sample_weight".toList, w)] := ⟨rfl, _, rfl, rfl, rfl⟩

/-- A pipeline with two steps and an argument for the first. -/
example : ∃ d, pipelineFit ["scale".toList, "clf".toList] (some 7) [("scale__k".toList, 1)] = .ok d ∧
    d "scale".toList = [("k".toList, 1)] ∧ d "clf".toList = [("sample_weight".toList, 7)] := ⟨_, rfl, rfl, rfl⟩

end Mizar.Props
