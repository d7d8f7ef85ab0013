import Verif.Lemmas.NoLookAhead

/-!
Property theorems C115: the predictions, probabilities, sides and sizes of a pipeline up to a time do not depend on data after this
time (`/repo/mizarlabs/model/pipeline.py` lines 165-245, 375-597).
-/

set_option linter.unusedSectionVars false

namespace Mizar.Props
open Mizar.Spec Mizar.Pipe

section
variable {K : Type} [Field K] [LinearOrder K]

/-- The models of a pipeline depend on the rows up to a time only. -/
def CausalCfg (c : Cfg K) : Prop :=
  CausalTrs c.trPrimary ∧ CausalTrs c.trMeta ∧ CausalModel c.primary.predict ∧ CausalModel c.primary.proba ∧
  (∀ m, c.metaModel = some m → CausalModel m.predict ∧ CausalModel m.proba) ∧ ∀ bs, c.betSizer = some bs → CausalSizer bs

theorem predict_parts {c : Cfg K} {X : Dict K} {r : Predictions K} (h : predict c X = .ok r) : ∃ F Xp v, features c X = .ok F ∧
    primaryFrame F = .ok Xp ∧ c.primary.predict Xp = .ok v ∧ mkSeries Xp.index v = .ok r.primary ∧ predictMeta c Xp F = .ok r.metal := by
  unfold predict at h
  split at h
  · simp at h
  split at h
  · simp at h
  simp only [Py.bind_eq_ok, Except.ok.injEq] at h
  obtain ⟨-, -, F, hF, Xp, hXp, v, hv, s, hs, sm, hsm, rfl⟩ := h
  exact ⟨F, Xp, v, hF, hXp, hv, hs, hsm⟩

theorem proba_parts {c : Cfg K} {X : Dict K} {r : Probas K} (h : predictProba c X = .ok r) : ∃ F Xp v, features c X = .ok F ∧
    primaryFrame F = .ok Xp ∧ c.primary.proba Xp = .ok v ∧ mkRows Xp.index c.primary.classes.length v = .ok r.primary ∧
    probaMeta c Xp F = .ok r.metal := by
  unfold predictProba at h
  simp only [Py.bind_eq_ok, Except.ok.injEq] at h
  obtain ⟨F, hF, Xp, hXp, v, hv, s, hs, sm, hsm, rfl⟩ := h
  exact ⟨F, Xp, v, hF, hXp, hv, hs, hsm⟩

/-- **C115** The predictions of a pipeline up to a time do not depend on the data after this time: for two sets of data that agree up
to `t`, with increasing times, the sides and the metalabels up to `t` are the same. -/
theorem C115_predict (c : Cfg K) (hc : CausalCfg c) (t : ℤ) (X X' : Dict K) (hX : IncDict X) (hX' : IncDict X') (h : AgreeAll t X X')
    (r r' : Predictions K) (hr : predict c X = .ok r) (hr' : predict c X' = .ok r') :
    upTo t r.primary = upTo t r'.primary ∧ r.metal.map (upTo t) = r'.metal.map (upTo t) := by
  obtain ⟨F, Xp, v, hF, hXp, hv, hs, hm⟩ := predict_parts hr
  obtain ⟨F', Xp', v', hF', hXp', hv', hs', hm'⟩ := predict_parts hr'
  obtain ⟨a1, a2, i1, i2, i3, i4⟩ := features_agree hX hX' h hc.1 hc.2.1 hF hF'
  obtain ⟨b1, b2, b3⟩ := primaryFrame_agree i1 i3 a1 hXp hXp'
  refine ⟨series_agree hc.2.2.1 b2 b3 b1 hv hv' hs hs', ?_⟩
  unfold predictMeta at hm hm'
  cases hmm : c.metaModel with
  | none =>
    simp only [hmm, Except.ok.injEq] at hm hm'
    rw [← hm, ← hm']
  | some m =>
    simp only [hmm, Py.bind_eq_ok, Except.ok.injEq] at hm hm'
    obtain ⟨Xm, hXm, w, hw, sm, hsm, e⟩ := hm
    obtain ⟨Xm', hXm', w', hw', sm', hsm', e'⟩ := hm'
    obtain ⟨d1, d2, d3⟩ := metaFeatures_agree hc.2.2.1 hc.2.2.2.1 i2 i4 a2 b1 b2 b3 hXm hXm'
    rw [← e, ← e', Option.map_some, Option.map_some, series_agree (hc.2.2.2.2.1 m hmm).1 d2 d3 d1 hw hw' hsm hsm']

/-- **C115** The same for the probabilities of both models. -/
theorem C115_predict_proba (c : Cfg K) (hc : CausalCfg c) (t : ℤ) (X X' : Dict K) (hX : IncDict X) (hX' : IncDict X') (h : AgreeAll t X X')
    (r r' : Probas K) (hr : predictProba c X = .ok r) (hr' : predictProba c X' = .ok r') :
    upTo t r.primary = upTo t r'.primary ∧ r.metal.map (upTo t) = r'.metal.map (upTo t) := by
  obtain ⟨F, Xp, v, hF, hXp, hv, hs, hm⟩ := proba_parts hr
  obtain ⟨F', Xp', v', hF', hXp', hv', hs', hm'⟩ := proba_parts hr'
  obtain ⟨a1, a2, i1, i2, i3, i4⟩ := features_agree hX hX' h hc.1 hc.2.1 hF hF'
  obtain ⟨b1, b2, b3⟩ := primaryFrame_agree i1 i3 a1 hXp hXp'
  refine ⟨rows_agree hc.2.2.2.1 b2 b3 b1 hv hv' hs hs', ?_⟩
  unfold probaMeta at hm hm'
  cases hmm : c.metaModel with
  | none =>
    simp only [hmm, Except.ok.injEq] at hm hm'
    rw [← hm, ← hm']
  | some m =>
    simp only [hmm] at hm hm'
    split at hm
    · simp at hm
    rename_i hfit
    rw [if_neg hfit] at hm'
    simp only [Py.bind_eq_ok, Except.ok.injEq] at hm hm'
    obtain ⟨Xm, hXm, w, hw, sm, hsm, e⟩ := hm
    obtain ⟨Xm', hXm', w', hw', sm', hsm', e'⟩ := hm'
    obtain ⟨d1, d2, d3⟩ := metaFeatures_agree hc.2.2.1 hc.2.2.2.1 i2 i4 a2 b1 b2 b3 hXm hXm'
    rw [← e, ← e', Option.map_some, Option.map_some, rows_agree (hc.2.2.2.2.1 m hmm).2 d2 d3 d1 hw hw' hsm hsm']

/-- The times of the predictions and of the probabilities are increasing. -/
theorem predict_inc {c : Cfg K} (hc : CausalCfg c) {X : Dict K} (hX : IncDict X) {r : Predictions K} (hr : predict c X = .ok r) :
    (r.primary.map (·.1)).Pairwise (· < ·) := by
  obtain ⟨F, Xp, v, hF, hXp, hv, hs, hm⟩ := predict_parts hr
  have hag : AgreeAll 0 X X := List.forall₂_same.2 fun p _ => ⟨rfl, rfl, rfl⟩
  obtain ⟨a1, a2, i1, i2, i3, i4⟩ := features_agree hX hX hag hc.1 hc.2.1 hF hF
  obtain ⟨b1, b2, b3⟩ := primaryFrame_agree i1 i3 a1 hXp hXp
  obtain ⟨hq, hl, -⟩ := mkSeries_ok hs
  rw [hq, List.map_fst_zip (by rw [hl])]
  exact b2

theorem proba_inc {c : Cfg K} (hc : CausalCfg c) {X : Dict K} (hX : IncDict X) {r : Probas K} (hr : predictProba c X = .ok r) :
    (r.primary.map (·.1)).Pairwise (· < ·) ∧ ((r.metal.getD []).map (·.1)).Pairwise (· < ·) := by
  obtain ⟨F, Xp, v, hF, hXp, hv, hs, hm⟩ := proba_parts hr
  have hag : AgreeAll 0 X X := List.forall₂_same.2 fun p _ => ⟨rfl, rfl, rfl⟩
  obtain ⟨a1, a2, i1, i2, i3, i4⟩ := features_agree hX hX hag hc.1 hc.2.1 hF hF
  obtain ⟨b1, b2, b3⟩ := primaryFrame_agree i1 i3 a1 hXp hXp
  have key : ∀ (f : Frame K) (n : ℕ) (v : List (List (XF K))) (s : List (ℤ × List (XF K))), Increasing f → mkRows f.index n v = .ok s → (s.map (·.1)).Pairwise (· < ·) := by
    intro f n v s hf hs
    unfold mkRows at hs
    split at hs
    · rename_i hl
      simp only [Except.ok.injEq] at hs
      subst hs
      rw [List.map_fst_zip (by rw [hl.1])]
      exact hf
    · simp at hs
  refine ⟨key _ _ _ _ b2 hs, ?_⟩
  unfold probaMeta at hm
  cases hmm : c.metaModel with
  | none =>
    simp only [hmm, Except.ok.injEq] at hm
    rw [← hm]; simp
  | some m =>
    simp only [hmm] at hm
    split at hm
    · simp at hm
    simp only [Py.bind_eq_ok, Except.ok.injEq] at hm
    obtain ⟨Xm, hXm, w, hw, sm, hsm, e⟩ := hm
    obtain ⟨d1, d2, d3⟩ := metaFeatures_agree hc.2.2.1 hc.2.2.2.1 i2 i4 a2 b1 b2 b3 hXm hXm
    rw [← e]
    exact key _ _ _ _ d2 hsm

theorem betRows_times {classes : List K} {sides : Option (Ser K)} {rows : List (ℤ × List (XF K))} {b : List (BetRow K)}
    (h : mapE (betRow classes sides) rows = .ok b) : b.map BetRow.time = rows.map (·.1) := by
  rw [mapE_eq_ok_iff] at h
  induction h with
  | nil => rfl
  | @cons r q rows b hq _ ih =>
    unfold betRow at hq
    simp only [Py.bind_eq_ok, Except.ok.injEq] at hq
    obtain ⟨i, hi, k, hk, rfl⟩ := hq
    simp [ih]

theorem betRows_filter {classes : List K} {sides : Option (Ser K)} (t : ℤ) {rows : List (ℤ × List (XF K))} {b : List (BetRow K)}
    (h : mapE (betRow classes sides) rows = .ok b) :
    mapE (betRow classes sides) (upTo t rows) = .ok (b.filter fun r => decide (r.time ≤ t)) := by
  rw [mapE_eq_ok_iff] at h ⊢
  induction h with
  | nil => exact List.Forall₂.nil
  | @cons r q rows b hq _ ih =>
    have ht : q.time = r.1 := by
      unfold betRow at hq
      simp only [Py.bind_eq_ok, Except.ok.injEq] at hq
      obtain ⟨i, hi, k, hk, rfl⟩ := hq
      rfl
    unfold upTo at ih ⊢
    by_cases hr : r.1 ≤ t
    · rw [List.filter_cons_of_pos (by simpa using hr), List.filter_cons_of_pos (by simpa [ht] using hr)]
      exact List.Forall₂.cons hq ih
    · rw [List.filter_cons_of_neg (by simpa using hr), List.filter_cons_of_neg (by simpa [ht] using hr)]
      exact ih

theorem betRows_agree {classes : List K} {sides sides' : Option (Ser K)} {t : ℤ} (hs : sides.map (upTo t) = sides'.map (upTo t))
    {rows rows' : List (ℤ × List (XF K))} (hr : upTo t rows = upTo t rows') {b b' : List (BetRow K)}
    (h : mapE (betRow classes sides) rows = .ok b) (h' : mapE (betRow classes sides') rows' = .ok b') :
    b.filter (fun r => decide (r.time ≤ t)) = b'.filter fun r => decide (r.time ≤ t) := by
  have e := betRows_filter t h
  have e' := betRows_filter t h'
  rw [← hr, mapE_congr (g := betRow classes sides), e] at e'
  · simpa using e'
  · intro r hm
    have hrt : r.1 ≤ t := by simpa [upTo] using (List.mem_filter.1 hm).2
    unfold betRow
    have : (sides'.map fun s => serAt s r.1) = sides.map fun s => serAt s r.1 := by
      cases sides with
      | none =>
        cases sides' with
        | none => rfl
        | some s' => simp at hs
      | some s =>
        cases sides' with
        | none => simp at hs
        | some s' =>
          simp only [Option.map_some, Option.some.injEq] at hs ⊢
          exact (upTo_serAt hs hrt).symm
    rw [this]

theorem upTo_map {α β : Type} (t : ℤ) (g : ℤ × α → β) (l : List (ℤ × α)) :
    upTo t (l.map fun r => (r.1, g r)) = (upTo t l).map fun r => (r.1, g r) := by
  unfold upTo
  rw [List.filter_map]
  rfl

/-- The size of a bet. -/
theorem size_agree {c : Cfg K} (hc : CausalCfg c) {t : ℤ} {X X' : Dict K} (hX : IncDict X) (hX' : IncDict X') (h : AgreeAll t X X')
    {p p' : Probas K} (hp : predictProba c X = .ok p) (hp' : predictProba c X' = .ok p') {s s' : Ser K}
    (hs : signalSize c X p = .ok s) (hs' : signalSize c X' p' = .ok s') :
    upTo t s = upTo t s' ∧ (s.map (·.1)).Pairwise (· < ·) ∧ (s'.map (·.1)).Pairwise (· < ·) := by
  obtain ⟨e1, e2⟩ := C115_predict_proba c hc t X X' hX hX' h p p' hp hp'
  obtain ⟨i1, i2⟩ := proba_inc hc hX hp
  obtain ⟨j1, j2⟩ := proba_inc hc hX' hp'
  have e2' : upTo t (p.metal.getD []) = upTo t (p'.metal.getD []) := by
    cases h1 : p.metal <;> cases h2 : p'.metal <;> simp [h1, h2] at e2 ⊢
    exact e2
  unfold signalSize at hs hs'
  cases hmm : c.metaModel with
  | some m =>
    simp only [hmm] at hs hs'
    unfold sizeMeta at hs hs'
    cases hb : c.betSizer with
    | some bs =>
      simp only [hb, Py.bind_eq_ok] at hs hs'
      obtain ⟨a, ha, b, hbr, hs⟩ := hs
      obtain ⟨a', ha', b', hbr', hs'⟩ := hs'
      have hside := (C115_predict c hc t X X' hX hX' h a a' ha ha').1
      have k1 : (b.map BetRow.time).Pairwise (· < ·) := by rw [betRows_times hbr]; exact i2
      have k2 : (b'.map BetRow.time).Pairwise (· < ·) := by rw [betRows_times hbr']; exact j2
      have hcs := hc.2.2.2.2.2 bs hb
      exact ⟨hcs.2 t b b' s s' k1 k2 (betRows_agree (by simpa using hside) e2' hbr hbr') hs hs', hcs.1 b s k1 hs, hcs.1 b' s' k2 hs'⟩
    | none =>
      simp only [hb] at hs hs'
      unfold probaOfOne at hs hs'
      split at hs
      swap
      · simp at hs
      rename_i h1
      rw [if_pos h1] at hs'
      simp only [Except.ok.injEq] at hs hs'
      subst hs; subst hs'
      refine ⟨?_, ?_, ?_⟩
      · rw [upTo_map t (fun r : ℤ × List (XF K) => r.2.getD (m.classes.idxOf 1) .nan), upTo_map t (fun r : ℤ × List (XF K) => r.2.getD (m.classes.idxOf 1) .nan), e2']
      · rw [List.map_map]; exact i2
      · rw [List.map_map]; exact j2
  | none =>
    simp only [hmm] at hs hs'
    unfold sizePrimary at hs hs'
    cases hb : c.betSizer with
    | some bs =>
      simp only [hb, Py.bind_eq_ok] at hs hs'
      obtain ⟨b, hbr, hs⟩ := hs
      obtain ⟨b', hbr', hs'⟩ := hs'
      have k1 : (b.map BetRow.time).Pairwise (· < ·) := by rw [betRows_times hbr]; exact i1
      have k2 : (b'.map BetRow.time).Pairwise (· < ·) := by rw [betRows_times hbr']; exact j1
      have hcs := hc.2.2.2.2.2 bs hb
      exact ⟨hcs.2 t b b' s s' k1 k2 (betRows_agree rfl e1 hbr hbr') hs hs', hcs.1 b s k1 hs, hcs.1 b' s' k2 hs'⟩
    | none =>
      simp only [hb, Except.ok.injEq] at hs hs'
      subst hs; subst hs'
      refine ⟨?_, ?_, ?_⟩
      · rw [upTo_map t (fun r : ℤ × List (XF K) => rowMax r.2), upTo_map t (fun r : ℤ × List (XF K) => rowMax r.2), e1]
      · rw [List.map_map]; exact i1
      · rw [List.map_map]; exact j1

theorem sideSize_agree {t : ℤ} {a a' z z' : Ser K} (ha : upTo t a = upTo t a') (hz : upTo t z = upTo t z')
    (i1 : (a.map (·.1)).Pairwise (· < ·)) (i2 : (a'.map (·.1)).Pairwise (· < ·)) (i3 : (z.map (·.1)).Pairwise (· < ·))
    (i4 : (z'.map (·.1)).Pairwise (· < ·)) : upTo t (sideSize a z) = upTo t (sideSize a' z') := by
  have mem : ∀ (s s' : Ser K), upTo t s = upTo t s' → ∀ u ≤ t, u ∈ s.map (·.1) → u ∈ s'.map (·.1) := by
    intro s s' h u hu hm
    obtain ⟨r, hr, rfl⟩ := List.mem_map.1 hm
    have : r ∈ upTo t s' := h ▸ List.mem_filter.2 ⟨hr, by simpa using hu⟩
    exact List.mem_map.2 ⟨r, (List.mem_filter.1 this).1, rfl⟩
  have hx : (joinIndex [a.map (·.1), z.map (·.1)]).filter (fun u => decide (u ≤ t)) =
      (joinIndex [a'.map (·.1), z'.map (·.1)]).filter fun u => decide (u ≤ t) := by
    apply eq_of_mem_iff_of_pairwise_lt
    · exact (pairwise_joinIndex _ (by intro i hi; simp only [List.mem_cons, List.not_mem_nil, or_false] at hi; rcases hi with rfl | rfl <;> assumption)).sublist List.filter_sublist
    · exact (pairwise_joinIndex _ (by intro i hi; simp only [List.mem_cons, List.not_mem_nil, or_false] at hi; rcases hi with rfl | rfl <;> assumption)).sublist List.filter_sublist
    · intro u
      rw [List.mem_filter, List.mem_filter, mem_joinIndex _ _ (by simp), mem_joinIndex _ _ (by simp)]
      simp only [List.mem_cons, List.not_mem_nil, or_false, exists_eq_or_imp, exists_eq_left, decide_eq_true_eq]
      constructor
      · rintro ⟨h | h, hu⟩
        · exact ⟨Or.inl (mem _ _ ha u hu h), hu⟩
        · exact ⟨Or.inr (mem _ _ hz u hu h), hu⟩
      · rintro ⟨h | h, hu⟩
        · exact ⟨Or.inl (mem _ _ ha.symm u hu h), hu⟩
        · exact ⟨Or.inr (mem _ _ hz.symm u hu h), hu⟩
  have key : ∀ a z : Ser K, upTo t (sideSize a z) =
      (((joinIndex [a.map (·.1), z.map (·.1)]).filter fun u => decide (u ≤ t)).map fun u => (u, serAt a u, serAt z u)).filter
        fun r => !r.2.1.isNan && !r.2.2.isNan := by
    intro a z
    unfold upTo sideSize
    rw [List.filter_filter]
    simp only [Bool.and_comm (decide _)]
    rw [← List.filter_filter, List.filter_map]
    rfl
  rw [key, key, hx]
  congr 1
  apply List.map_congr_left
  intro u hu
  have hut : u ≤ t := by simpa using (List.mem_filter.1 hu).2
  rw [upTo_serAt ha hut, upTo_serAt hz hut]

/-- **C115** No look-ahead end to end: the sides and sizes of a pipeline up to a time are the same for two sets of data that agree up
to this time, however they differ after it. -/
theorem C115_side_and_size (c : Cfg K) (hc : CausalCfg c) (t : ℤ) (X X' : Dict K) (hX : IncDict X) (hX' : IncDict X') (h : AgreeAll t X X')
    (r r' : List (ℤ × XF K × XF K)) (hr : getSideAndSize c X = .ok r) (hr' : getSideAndSize c X' = .ok r') : upTo t r = upTo t r' := by
  unfold getSideAndSize at hr hr'
  simp only [Py.bind_eq_ok, Except.ok.injEq] at hr hr'
  obtain ⟨a, ha, p, hp, z, hz, rfl⟩ := hr
  obtain ⟨a', ha', p', hp', z', hz', rfl⟩ := hr'
  obtain ⟨s1, s2, s3⟩ := size_agree hc hX hX' h hp hp' hz hz'
  exact sideSize_agree (C115_predict c hc t X X' hX hX' h a a' ha ha').1 s1 (predict_inc hc hX ha) (predict_inc hc hX' ha') s2 s3

end
end Mizar.Props
