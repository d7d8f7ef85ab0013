import Verif.Spec.PipelineReady
import Verif.Props.MetaFeatures
import Verif.Props.Align

/-!
Property theorems C141: a complete strategy pipeline answers.
-/

namespace Mizar.Props
open Mizar Mizar.Pipe Mizar.Spec
variable {K : Type} [Field K] [LinearOrder K]

private theorem mapE_total {α β : Type} (f : α → Py β) (l : List α) (h : ∀ x ∈ l, ∃ b, f x = .ok b) : ∃ bs, mapE f l = .ok bs := by
  induction l with
  | nil => exact ⟨[], rfl⟩
  | cons x l ih =>
    obtain ⟨b, hb⟩ := h x (by simp)
    obtain ⟨bs, hbs⟩ := ih fun y hy => h y (by simp [hy])
    exact ⟨b :: bs, by rw [mapE, hb, hbs]⟩

private theorem lookup_of_mem {β : Type} (d : List (String × β)) (k : String) (h : ∃ p ∈ d, p.1 = k) : ∃ v, d.lookup k = some v := by
  induction d with
  | nil => obtain ⟨p, hp, -⟩ := h; simp at hp
  | cons q d ih =>
    obtain ⟨k', v'⟩ := q
    rw [List.lookup_cons]
    cases hb : k == k' with
    | true => exact ⟨v', rfl⟩
    | false =>
      obtain ⟨p, hp, hk⟩ := h
      rcases List.mem_cons.1 hp with rfl | hp
      · simp at hk; subst hk; simp at hb
      · exact ih ⟨p, hp, hk⟩

private theorem alignLoop_total (agg : List (List (XF K)) → Py (List (XF K))) (rows : List (ℤ × List (XF K)))
    (hagg : ∀ l, ∃ v, agg l = .ok v) (ts : List ℤ) (prev : ℤ) : ∃ cells, alignLoop agg rows prev ts = .ok cells := by
  induction ts generalizing prev with
  | nil => exact ⟨[], rfl⟩
  | cons t ts ih =>
    unfold alignLoop
    split
    · obtain ⟨cs, h⟩ := ih prev; exact ⟨none :: cs, by rw [h]; rfl⟩
    · obtain ⟨cs, h⟩ := ih t; rw [h]; exact ⟨_, rfl⟩
    · obtain ⟨cs, h⟩ := ih t
      rename_i r₁ r₂ rs _
      obtain ⟨v, hv⟩ := hagg ((r₁ :: r₂ :: rs).map (·.2))
      rw [hv, h]; exact ⟨_, rfl⟩

private theorem alignDict_total (how : List (String × String)) (name : String) (idx : List ℤ) (hidx : idx ≠ []) (d : Dict K)
    (hr : ∀ p ∈ d, p.2.rows ≠ []) (hm : ∀ p ∈ d, p.1 ≠ name → ∃ h ∈ ["mean", "min", "max"], how.lookup p.1 = some h) :
    ∃ d', alignDict how name idx d = .ok d' := by
  apply mapE_total
  intro p hp
  unfold alignEntry
  by_cases hn : p.1 ≠ name
  · rw [if_pos hn]
    obtain ⟨m, hmem, hl⟩ := hm p hp hn
    have hagg : ∀ l : List (List (XF K)), ∃ v, aggregate how p.1 p.2.cols.length l = .ok v := by
      intro l
      unfold aggregate
      rw [hl]
      simp only [List.mem_cons, List.not_mem_nil, or_false] at hmem
      rcases hmem with rfl | rfl | rfl <;> exact ⟨_, rfl⟩
    obtain ⟨cells, hc⟩ := alignLoop_total _ p.2.rows hagg idx Y1700
    have : alignFrame how p.1 idx p.2 = .ok ⟨p.2.cols, idx.zip (ffillRowsFrom (nanRow p.2.cols.length)
        (cells.map fun c => c.getD (nanRow p.2.cols.length)))⟩ := by
      unfold alignFrame
      rw [if_neg (by simp [hr p hp, hidx]), hc]
      rfl
    rw [this]
    exact ⟨_, rfl⟩
  · rw [if_neg hn]; exact ⟨_, rfl⟩

private theorem forall₂_left {α β : Type} {R : α → β → Prop} {l : List α} {m : List β} (h : List.Forall₂ R l m) :
    ∀ b ∈ m, ∃ a ∈ l, R a b := by
  induction h with
  | nil => simp
  | cons hab _ ih =>
    intro b hb
    rcases List.mem_cons.1 hb with rfl | hb
    · exact ⟨_, by simp, hab⟩
    · obtain ⟨a, ha, hr⟩ := ih b hb
      exact ⟨a, by simp [ha], hr⟩

private theorem forall₂_right {α β : Type} {R : α → β → Prop} {l : List α} {m : List β} (h : List.Forall₂ R l m) :
    ∀ a ∈ l, ∃ b ∈ m, R a b := by
  induction h with
  | nil => simp
  | cons hab _ ih =>
    intro a ha
    rcases List.mem_cons.1 ha with rfl | ha
    · exact ⟨_, by simp, hab⟩
    · obtain ⟨b, hb, hr⟩ := ih a ha
      exact ⟨b, by simp [hb], hr⟩

private theorem mapE_keys {α β γ : Type} {f : α → Py β} {k : α → γ} {k' : β → γ} (hf : ∀ a b, f a = .ok b → k' b = k a)
    {l : List α} {m : List β} (h : mapE f l = .ok m) : m.map k' = l.map k := by
  rw [mapE_eq_ok_iff] at h
  induction h with
  | nil => rfl
  | cons hab _ ih => rw [List.map_cons, List.map_cons, ih, hf _ _ hab]

/-- C141: the features of a ready configuration are computed: one frame for each transformer, under its key. -/
theorem C141_features (c : Cfg K) (X : Dict K) (h : Ready c X) :
    ∃ F, features c X = .ok F ∧ F.primary.map (·.1) = c.trPrimary.map (·.1) ∧ F.metal.map (·.1) = c.trMeta.map (·.1) := by
  have hone : ∀ p ∈ c.trPrimary ++ c.trMeta, ∃ g, transformOne X p = .ok (p.1, g) ∧ g.rows ≠ [] := by
    intro p hp
    obtain ⟨f, hf⟩ := lookup_of_mem X p.1 ((h.keys p.1).1 ⟨p, hp, rfl⟩)
    have := h.frames p hp f hf
    unfold transformOne
    rw [hf]
    obtain ⟨k, t⟩ := p
    cases t with
    | none => exact ⟨f, rfl, this⟩
    | some tr =>
      obtain ⟨g, hg, hne⟩ := this
      dsimp only
      rw [hg]
      exact ⟨g, rfl, hne⟩
  obtain ⟨P, hP⟩ := mapE_total (transformOne X) c.trPrimary fun p hp => by
    obtain ⟨g, hg, -⟩ := hone p (by simp [hp]); exact ⟨_, hg⟩
  obtain ⟨M, hM⟩ := mapE_total (transformOne X) c.trMeta fun p hp => by
    obtain ⟨g, hg, -⟩ := hone p (by simp [hp]); exact ⟨_, hg⟩
  have hiff : (∀ k ∈ c.trPrimary.map (·.1) ++ c.trMeta.map (·.1), k ∈ X.map (·.1)) ∧
      (∀ k ∈ X.map (·.1), k ∈ c.trPrimary.map (·.1) ++ c.trMeta.map (·.1)) := by
    rw [← List.map_append]
    simp only [List.mem_map]
    exact ⟨fun k => (h.keys k).1, fun k => (h.keys k).2⟩
  have hT : transform c.trPrimary c.trMeta X = .ok ⟨P, M⟩ := by
    unfold transform
    rw [if_pos hiff, hP, hM]
    rfl
  have hk : ∀ a b, transformOne X a = .ok b → b.1 = a.1 := by
    intro a b hab
    unfold transformOne at hab
    cases hl : X.lookup a.1 with
    | none => rw [hl] at hab; simp at hab
    | some f =>
      rw [hl] at hab
      obtain ⟨k, t⟩ := a
      cases t with
      | none => simp at hab; rw [← hab]
      | some tr =>
        simp [Py.bind_eq_ok] at hab
        obtain ⟨g, -, rfl⟩ := hab
        rfl
  have hkP := mapE_keys (k := (·.1)) (k' := (·.1)) hk hP
  have hkM := mapE_keys (k := (·.1)) (k' := (·.1)) hk hM
  have hrows : ∀ (t : List (String × Tr K)) (d : Dict K), (∀ p ∈ t, p ∈ c.trPrimary ++ c.trMeta) → mapE (transformOne X) t = .ok d →
      ∀ q ∈ d, q.2.rows ≠ [] ∧ ∃ p ∈ t, q.1 = p.1 := by
    intro t d ht hd q hq
    rw [mapE_eq_ok_iff] at hd
    obtain ⟨p, hp, hpq⟩ := forall₂_left hd q hq
    obtain ⟨g, hg, hne⟩ := hone p (ht p hp)
    rw [hpq] at hg
    simp only [Except.ok.injEq] at hg
    subst hg
    exact ⟨hne, p, hp, rfl⟩
  have hrP := hrows c.trPrimary P (fun p hp => by simp [hp]) hP
  have hrM := hrows c.trMeta M (fun p hp => by simp [hp]) hM
  obtain ⟨lead, hlead⟩ := lookup_of_mem P c.alignOn (by
    obtain ⟨p, hp, hpk⟩ := h.lead
    have : c.alignOn ∈ P.map (·.1) := by rw [hkP, ← hpk]; exact List.mem_map.2 ⟨p, hp, rfl⟩
    obtain ⟨q, hq, hqk⟩ := List.mem_map.1 this
    exact ⟨q, hq, hqk⟩)
  have hidx : lead.index ≠ [] := by
    have := (hrP _ (lookup_mem hlead)).1
    unfold Frame.index
    simpa using this
  have hmeth : ∀ (t : List (String × Tr K)) (d : Dict K), (∀ p ∈ t, p ∈ c.trPrimary ++ c.trMeta) →
      (∀ q ∈ d, q.2.rows ≠ [] ∧ ∃ p ∈ t, q.1 = p.1) → ∀ q ∈ d, q.1 ≠ c.alignOn → ∃ how ∈ ["mean", "min", "max"], c.alignHow.lookup q.1 = some how := by
    intro t d ht hd q hq hne
    obtain ⟨-, p, hp, hk⟩ := hd q hq
    rw [hk] at hne ⊢
    exact h.methods p (ht p hp) hne
  obtain ⟨P', hP'⟩ := alignDict_total c.alignHow c.alignOn lead.index hidx P (fun q hq => (hrP q hq).1)
    (hmeth _ _ (fun p hp => by simp [hp]) hrP)
  obtain ⟨M', hM'⟩ := alignDict_total c.alignHow c.alignOn lead.index hidx M (fun q hq => (hrM q hq).1)
    (hmeth _ _ (fun p hp => by simp [hp]) hrM)
  have hke : ∀ (a b : String × Frame K), alignEntry c.alignHow c.alignOn lead.index a = .ok b → b.1 = a.1 := by
    intro a b hab
    unfold alignEntry at hab
    split at hab
    · rw [Py.bind_eq_ok] at hab
      obtain ⟨g, -, hg⟩ := hab
      simp only [Except.ok.injEq] at hg
      rw [← hg]
    · simp only [Except.ok.injEq] at hab; rw [hab]
  refine ⟨⟨P', M'⟩, ?_, ?_, ?_⟩
  · unfold features
    rw [hT]
    change alignOn c.alignHow c.alignOn ⟨P, M⟩ = _
    unfold alignOn
    rw [if_neg h.named]
    dsimp only
    rw [hlead]
    dsimp only
    rw [hP', hM']
    rfl
  · exact (mapE_keys (k := (·.1)) (k' := (·.1)) hke hP').trans hkP
  · exact (mapE_keys (k := (·.1)) (k' := (·.1)) hke hM').trans hkM

private theorem index_concat {d : Dict K} (hd : d ≠ []) :
    ∃ f, concatOuter (d.map (·.2)) = .ok f ∧ (∀ t, FullAt d t → t ∈ f.dropna.index) ∧
      ((∀ p ∈ d, p.2.cols ≠ []) → ∀ t ∈ f.dropna.index, FullAt d t) := by
  have hne : d.map (·.2) ≠ [] := by simpa using hd
  refine ⟨_, by unfold concatOuter; rw [if_neg hne], ?_, ?_⟩
  · intro t ht
    unfold Frame.index Frame.dropna
    rw [List.mem_map]
    refine ⟨(t, _), List.mem_filter.2 ⟨List.mem_map.2 ⟨t, ?_, rfl⟩, ?_⟩, rfl⟩
    · rw [mem_joinIndex _ _ (by simpa using hd)]
      obtain ⟨p, hp⟩ := List.exists_mem_of_ne_nil d hd
      obtain ⟨r, hr, -⟩ := ht p hp
      refine ⟨p.2.index, List.mem_map.2 ⟨p.2, List.mem_map.2 ⟨p, hp, rfl⟩, rfl⟩, ?_⟩
      unfold Frame.row? at hr
      rw [Option.map_eq_some_iff] at hr
      obtain ⟨q, hq, -⟩ := hr
      have h1 := List.mem_of_find?_eq_some hq
      have h2 : q.1 = t := by simpa using List.find?_some hq
      exact List.mem_map.2 ⟨q, h1, h2⟩
    · rw [complete_iff]
      intro x hx
      dsimp only at hx
      rw [List.mem_flatMap] at hx
      obtain ⟨f, hf, hx⟩ := hx
      obtain ⟨p, hp, rfl⟩ := List.mem_map.1 hf
      obtain ⟨r, hr, hc⟩ := ht p hp
      rw [hr] at hx
      exact hc x hx
  · intro hcols t ht p hp
    unfold Frame.index Frame.dropna at ht
    rw [List.mem_map] at ht
    obtain ⟨⟨t', r⟩, hm, rfl⟩ := ht
    rw [List.mem_filter, complete_iff] at hm
    obtain ⟨hm, hc⟩ := hm
    obtain ⟨u, -, hu⟩ := List.mem_map.1 hm
    simp only [Prod.mk.injEq] at hu
    obtain ⟨rfl, rfl⟩ := hu
    have hin : ∀ x ∈ (p.2.row? u).getD (nanRow p.2.cols.length), x.isNan = false := fun x hx =>
      hc x (List.mem_flatMap.2 ⟨p.2, List.mem_map.2 ⟨p, hp, rfl⟩, hx⟩)
    cases hr : p.2.row? u with
    | some r => rw [hr] at hin; exact ⟨r, rfl, hin⟩
    | none =>
      rw [hr] at hin
      exfalso
      obtain ⟨a, l, hl⟩ := List.exists_cons_of_ne_nil (hcols p hp)
      have := hin .nan (by simp [nanRow, hl])
      simp [XF.isNan] at this

private theorem dropna_complete (f : Frame K) : ∀ r ∈ f.dropna.rows, ∀ x ∈ r.2, x.isNan = false := by
  intro r hr
  exact ((mem_dropna f r.1 r.2).1 hr).2

private theorem serAt_zip (idx : List ℤ) (v : List (XF K)) (hl : v.length = idx.length) (t : ℤ) (ht : t ∈ idx) :
    serAt (idx.zip v) t ∈ v := by
  induction idx generalizing v with
  | nil => simp at ht
  | cons i idx ih =>
    cases v with
    | nil => simp at hl
    | cons x v =>
      unfold serAt
      rw [List.zip_cons_cons, List.find?_cons]
      by_cases hi : i = t
      · simp [hi]
      · have : (decide (i = t)) = false := by simp [hi]
        simp only [this]
        exact List.mem_cons_of_mem _ (ih v (by simpa using hl) (by
          rcases List.mem_cons.1 ht with h | h
          · exact absurd h.symm hi
          · exact h))

private theorem rows_ne {f : Frame K} {t : ℤ} (h : t ∈ f.index) : f.rows ≠ [] := by
  unfold Frame.index at h
  intro h0
  simp [h0] at h

/-- The frame of the metalabeling model exists and has the given time. -/
private theorem metaFeatures_total (c : Cfg K) (Xp : Frame K) (F : Features K) (ha : Answers c.primary) (hm : F.metal ≠ [])
    (hXp : Xp.rows ≠ []) (hXc : ∀ r ∈ Xp.rows, ∀ x ∈ r.2, x.isNan = false) (hc : ∀ p ∈ F.metal, p.2.cols ≠ [])
    (hs : c.usePredictions = true → c.useProba = false → ∀ t, FullAt F.metal t → t ∈ Xp.index)
    (hsome : c.usePredictions = true → ∃ t, FullAt F.metal t) :
    ∃ Xm, metaFeatures c Xp F = .ok Xm ∧ (∀ r ∈ Xm.rows, ∀ x ∈ r.2, x.isNan = false) ∧
      ∀ t, t ∈ Xm.index ↔ FullAt F.metal t ∧ (c.useProba = true → t ∈ Xp.index) := by
  obtain ⟨fm, hfm, hin, hout⟩ := index_concat hm
  obtain ⟨v, hv, hvl, hvn⟩ := ha.label Xp hXp hXc
  obtain ⟨w, hw, hwl, hwn⟩ := ha.proba Xp hXp hXc
  have hvl' : v.length = Xp.index.length := by simpa [Frame.index] using hvl
  have hwl' : w.length = Xp.index.length := by simpa [Frame.index] using hwl
  have hser : mkSeries Xp.index v = .ok (Xp.index.zip v) := by unfold mkSeries; rw [if_pos hvl']
  have hrow : mkRows Xp.index c.primary.classes.length w = .ok (Xp.index.zip w) := by
    unfold mkRows; rw [if_pos ⟨hwl', fun r hr => (hwn r hr).1⟩]
  obtain ⟨f1, hf1, hi1, hc1⟩ : ∃ f1, withPrediction c Xp fm.dropna = .ok f1 ∧ f1.index = fm.dropna.index ∧
      ∀ r ∈ f1.rows, r.1 ∈ Xp.index ∨ c.useProba = false → ∀ x ∈ r.2, x.isNan = false := by
    unfold withPrediction
    cases hu : c.usePredictions with
    | false =>
      rw [if_neg (by simp)]
      exact ⟨_, rfl, rfl, fun r hr _ => dropna_complete fm r hr⟩
    | true =>
      rw [if_pos rfl, hv]
      refine ⟨addPrediction fm.dropna (Xp.index.zip v), ?_, addPrediction_index _ _, ?_⟩
      · change (do let s ← mkSeries Xp.index v; .ok (addPrediction fm.dropna s)) = _
        rw [hser]; rfl
      · intro r hr hor x hx
        unfold addPrediction at hr
        obtain ⟨q, hq, rfl⟩ := List.mem_map.1 hr
        rcases mem_putCell hx with hx | rfl
        · exact dropna_complete fm q hq x hx
        · refine hvn _ (serAt_zip _ _ hvl' _ ?_)
          rcases hor with h | h
          · exact h
          · exact hs hu h q.1 (hout hc q.1 (List.mem_map.2 ⟨q, hq, rfl⟩))
  obtain ⟨f2, hf2, hi2, hc2⟩ : ∃ f2, withProba c Xp f1 = .ok f2 ∧
      (f2.index = if c.useProba then f1.index.filter fun t => decide (t ∈ Xp.index) else f1.index) ∧
      ∀ r ∈ f2.rows, ∀ x ∈ r.2, x.isNan = false := by
    unfold withProba
    cases hu : c.useProba with
    | false =>
      rw [if_neg (by simp)]
      exact ⟨_, rfl, by simp, fun r hr => hc1 r hr (Or.inr hu)⟩
    | true =>
      rw [if_pos rfl, hw]
      refine ⟨joinProba f1 c.primary.classes.length (Xp.index.zip w), ?_, ?_, ?_⟩
      · change (do let p ← mkRows Xp.index c.primary.classes.length w; .ok (joinProba f1 c.primary.classes.length p)) = _
        rw [hrow]; rfl
      · rw [joinProba_index, if_pos rfl]
        have : (Xp.index.zip w).map (·.1) = Xp.index := List.map_fst_zip (by omega)
        rw [this]
      · intro r hr x hx
        unfold joinProba at hr
        obtain ⟨q, hq, hr⟩ := List.mem_filterMap.1 hr
        rw [Option.map_eq_some_iff] at hr
        obtain ⟨p, hp, rfl⟩ := hr
        have h1 := List.mem_of_find?_eq_some hp
        have h2 : p.1 = q.1 := by simpa using List.find?_some hp
        have h3 := List.of_mem_zip (a := p.1) (b := p.2) h1
        rcases List.mem_append.1 hx with hx | hx
        · exact hc1 q hq (Or.inl (h2 ▸ h3.1)) x hx
        · exact (hwn _ h3.2).2 x hx
  refine ⟨f2, ?_, hc2, ?_⟩
  · unfold metaFeatures
    rw [hfm]
    change (do
      let f1 ← withPrediction c Xp fm.dropna
      let f2 ← withProba c Xp f1
      if (f2.rows.all fun r => complete r.2) && !assignedToEmpty c Xp fm.dropna then .ok f2 else .error .valueError) = _
    rw [hf1]
    change (do
      let f2 ← withProba c Xp f1
      if (f2.rows.all fun r => complete r.2) && !assignedToEmpty c Xp fm.dropna then .ok f2 else .error .valueError) = _
    rw [hf2]
    change (if (f2.rows.all fun r => complete r.2) && !assignedToEmpty c Xp fm.dropna then .ok f2 else .error .valueError : Py (Frame K)) = _
    have hno : assignedToEmpty c Xp fm.dropna = false := by
      unfold assignedToEmpty
      cases hu : c.usePredictions with
      | false => rfl
      | true =>
        obtain ⟨t, ht⟩ := hsome hu
        have := rows_ne (hin t ht)
        cases hr : fm.dropna.rows with
        | nil => exact absurd hr this
        | cons a l => rfl
    rw [hno, if_pos]
    rw [Bool.not_false, Bool.and_true, List.all_eq_true]
    intro r hr
    rw [complete_iff]
    exact hc2 r hr
  · intro t
    have hiff : t ∈ fm.dropna.index ↔ FullAt F.metal t := ⟨hout hc t, hin t⟩
    rw [hi2, hi1]
    cases c.useProba with
    | false => simp [hiff]
    | true => simp [hiff, List.mem_filter]

/-- The features of the primary model at the scored times. -/
private theorem primaryFrame_total (F : Features K) (hp : F.primary ≠ []) (t : ℤ) (ht : FullAt F.primary t) :
    ∃ Xp, primaryFrame F = .ok Xp ∧ Xp.rows ≠ [] ∧ (∀ r ∈ Xp.rows, ∀ x ∈ r.2, x.isNan = false) ∧
      ∀ t, FullAt F.primary t → t ∈ Xp.index := by
  obtain ⟨fp, hfp, hin, -⟩ := index_concat hp
  refine ⟨fp.dropna, ?_, rows_ne (hin t ht), dropna_complete fp, hin⟩
  unfold primaryFrame
  rw [hfp]
  rfl

private theorem features_keys {c : Cfg K} {X : Dict K} {F : Features K} (h : Ready c X) (hF : features c X = .ok F) :
    F.primary ≠ [] ∧ (c.trMeta ≠ [] → F.metal ≠ []) := by
  obtain ⟨F', hF', hp, hm⟩ := C141_features c X h
  rw [hF] at hF'
  simp only [Except.ok.injEq] at hF'
  subst hF'
  constructor
  · intro h0
    rw [h0] at hp
    obtain ⟨p, hp', -⟩ := h.lead
    have : c.trPrimary = [] := by simpa using hp.symm
    simp [this] at hp'
  · intro hne h0
    rw [h0] at hm
    exact hne (by simpa using hm.symm)

/-- C141: a ready pipeline answers.  The frames overlap and some time has all features: then `predict` and
`predict_proba` return, and every time with all features has a label and a probability for each class. -/
theorem C141_predict (c : Cfg K) (X : Dict K) (F : Features K) (h : Live c X F) :
    ∃ pred proba, predict c X = .ok pred ∧ predictProba c X = .ok proba ∧
      (∀ q ∈ pred.primary, q.2.isNan = false) ∧
      (∀ q ∈ proba.primary, q.2.length = c.primary.classes.length ∧ ∀ x ∈ q.2, x.isNan = false) ∧
      (∀ t, FullAt F.primary t → t ∈ pred.primary.map (·.1) ∧ t ∈ proba.primary.map (·.1)) ∧
      ∀ m, c.metaModel = some m → ∃ ms mp, pred.metal = some ms ∧ proba.metal = some mp ∧
        (∀ q ∈ ms, q.2.isNan = false) ∧ (∀ q ∈ mp, q.2.length = m.classes.length ∧ ∀ x ∈ q.2, x.isNan = false) ∧
        ∀ t, FullAt F.primary t → FullAt F.metal t → t ∈ ms.map (·.1) ∧ t ∈ mp.map (·.1) := by
  obtain ⟨hP, hM⟩ := features_keys h.ready h.feats
  obtain ⟨t₀, ht₀, ht₀m⟩ := h.time
  obtain ⟨Xp, hXp, hne, hcomp, hin⟩ := primaryFrame_total F hP t₀ ht₀
  obtain ⟨v, hv, hvl, hvn⟩ := h.primary.label Xp hne hcomp
  obtain ⟨w, hw, hwl, hwn⟩ := h.primary.proba Xp hne hcomp
  have hvl' : v.length = Xp.index.length := by simpa [Frame.index] using hvl
  have hwl' : w.length = Xp.index.length := by simpa [Frame.index] using hwl
  have hser : mkSeries Xp.index v = .ok (Xp.index.zip v) := by unfold mkSeries; rw [if_pos hvl']
  have hrow : mkRows Xp.index c.primary.classes.length w = .ok (Xp.index.zip w) := by
    unfold mkRows; rw [if_pos ⟨hwl', fun r hr => (hwn r hr).1⟩]
  -- the answers of the metalabeling model
  obtain ⟨sm, pm, hsm, hpm, hmeta⟩ : ∃ sm pm, predictMeta c Xp F = .ok sm ∧ probaMeta c Xp F = .ok pm ∧
      ∀ m, c.metaModel = some m → ∃ ms mp, sm = some ms ∧ pm = some mp ∧
        (∀ q ∈ ms, q.2.isNan = false) ∧ (∀ q ∈ mp, q.2.length = m.classes.length ∧ ∀ x ∈ q.2, x.isNan = false) ∧
        ∀ t, FullAt F.primary t → FullAt F.metal t → t ∈ ms.map (·.1) ∧ t ∈ mp.map (·.1) := by
    unfold predictMeta probaMeta
    cases hmm : c.metaModel with
    | none => exact ⟨none, none, rfl, rfl, fun m hm => by simp at hm⟩
    | some m =>
      dsimp only
      obtain ⟨hfit, hans, hne', hcols, hside⟩ := h.second m hmm
      obtain ⟨Xm, hXm, hXmc, hXmi⟩ := metaFeatures_total c Xp F h.primary (hM hne') hne hcomp hcols
        (fun hu hq t ht => hin t (hside hu hq t ht)) fun _ => ⟨t₀, ht₀m m hmm⟩
      have hXmne : Xm.rows ≠ [] := rows_ne ((hXmi t₀).2 ⟨ht₀m m hmm, fun _ => hin t₀ ht₀⟩)
      obtain ⟨v', hv', hvl2, hvn2⟩ := hans.label Xm hXmne hXmc
      obtain ⟨w', hw', hwl2, hwn2⟩ := hans.proba Xm hXmne hXmc
      have hvl2' : v'.length = Xm.index.length := by simpa [Frame.index] using hvl2
      have hwl2' : w'.length = Xm.index.length := by simpa [Frame.index] using hwl2
      have hser2 : mkSeries Xm.index v' = .ok (Xm.index.zip v') := by unfold mkSeries; rw [if_pos hvl2']
      have hrow2 : mkRows Xm.index m.classes.length w' = .ok (Xm.index.zip w') := by
        unfold mkRows; rw [if_pos ⟨hwl2', fun r hr => (hwn2 r hr).1⟩]
      refine ⟨some (Xm.index.zip v'), some (Xm.index.zip w'), ?_, ?_, ?_⟩
      · rw [hXm, Py.bind_ok, hv', Py.bind_ok, hser2, Py.bind_ok]
      · rw [hfit, if_neg (by simp), hXm, Py.bind_ok, hw', Py.bind_ok, hrow2, Py.bind_ok]
      · intro m' hm'
        simp only [Option.some.injEq] at hm'
        subst hm'
        refine ⟨_, _, rfl, rfl, fun q hq => hvn2 _ (List.of_mem_zip (a := q.1) (b := q.2) hq).2,
          fun q hq => hwn2 _ (List.of_mem_zip (a := q.1) (b := q.2) hq).2, fun t ht htm => ?_⟩
        have hti : t ∈ Xm.index := (hXmi t).2 ⟨htm, fun _ => hin t ht⟩
        rw [List.map_fst_zip (by omega), List.map_fst_zip (by omega)]
        exact ⟨hti, hti⟩
  obtain ⟨target, htar, a, hhd, hov⟩ := h.overlap
  have hcheck : ∃ us, mapE (checkOverlap target.index) X = .ok us := by
    apply mapE_total
    intro p hp
    obtain ⟨b, hb, hab⟩ := hov p hp
    refine ⟨(), ?_⟩
    unfold checkOverlap
    rw [hhd, hb]
    dsimp only
    rw [if_neg (by omega)]
  obtain ⟨us, hus⟩ := hcheck
  have hfit : metaFitted c = true := by
    unfold metaFitted
    cases hmm : c.metaModel with
    | none => rfl
    | some m => exact (h.second m hmm).1
  refine ⟨⟨Xp.index.zip v, sm⟩, ⟨Xp.index.zip w, pm⟩, ?_, ?_,
    fun q hq => hvn _ (List.of_mem_zip (a := q.1) (b := q.2) hq).2,
    fun q hq => hwn _ (List.of_mem_zip (a := q.1) (b := q.2) hq).2, ?_, hmeta⟩
  · unfold predict
    rw [hfit, if_neg (by simp), htar]
    dsimp only
    rw [hus, Py.bind_ok, h.feats, Py.bind_ok, hXp, Py.bind_ok, hv, Py.bind_ok, hser, Py.bind_ok, hsm, Py.bind_ok]
  · unfold predictProba
    rw [h.feats, Py.bind_ok, hXp, Py.bind_ok, hw, Py.bind_ok, hrow, Py.bind_ok, hpm, Py.bind_ok]
  · intro t ht
    dsimp only
    rw [List.map_fst_zip (by omega), List.map_fst_zip (by omega)]
    exact ⟨hin t ht, hin t ht⟩

private theorem serAt_mem (s : Ser K) (t : ℤ) (x : XF K) (h : (t, x) ∈ s) : (t, serAt s t) ∈ s := by
  unfold serAt
  cases hf : s.find? fun r => decide (r.1 = t) with
  | none => exact absurd (List.find?_eq_none.1 hf _ h) (by simp)
  | some r =>
    have h1 := List.mem_of_find?_eq_some hf
    have h2 : r.1 = t := by simpa using List.find?_some hf
    rw [← h2]
    exact h1

private theorem sideSize_of (side size : Ser K) (hs : ∀ q ∈ side, q.2.isNan = false) (hz : ∀ q ∈ size, q.2.isNan = false) (t : ℤ)
    (x z : XF K) (hx : (t, x) ∈ side) (hzt : (t, z) ∈ size) : ∃ a b, (t, a, b) ∈ sideSize side size := by
  refine ⟨serAt side t, serAt size t, ?_⟩
  unfold sideSize
  rw [List.mem_filter]
  refine ⟨List.mem_map.2 ⟨t, ?_, rfl⟩, ?_⟩
  · rw [mem_joinIndex _ _ (by simp)]
    exact ⟨side.map (·.1), by simp, List.mem_map.2 ⟨_, hx, rfl⟩⟩
  · simp [hs _ (serAt_mem side t x hx), hz _ (serAt_mem size t z hzt)]

private theorem rowMax_not_nan (r : List (XF K)) (hne : r ≠ []) (hn : ∀ x ∈ r, x.isNan = false) : (rowMax r).isNan = false := by
  unfold rowMax
  have : r.filter (fun x => !x.isNan) = r := List.filter_eq_self.2 fun x hx => by simp [hn x hx]
  rw [this]
  obtain ⟨a, l, rfl⟩ := List.exists_cons_of_ne_nil hne
  exact (foldl_xmax l a (hn a (by simp)) fun x hx => hn x (by simp [hx])).2.1

private theorem argmaxFrom_lt (l : List (XF K)) (i best : ℕ) (m : XF K) (hb : best < i) : argmaxFrom i best m l < i + l.length := by
  induction l generalizing i best m with
  | nil => simpa [argmaxFrom] using hb
  | cons x l ih =>
    unfold argmaxFrom
    have := ih (i + 1) i x (by omega)
    have := ih (i + 1) best m (by omega)
    rw [List.length_cons]
    split
    · omega
    · split
      · omega
      · split <;> omega

theorem betRows_total (classes : List K) (hc : classes ≠ []) (side : Option (Ser K)) (rows : List (ℤ × List (XF K)))
    (h : ∀ r ∈ rows, r.2.length = classes.length) : ∃ b, mapE (betRow classes side) rows = .ok b ∧ b.map (·.time) = rows.map (·.1) := by
  have hone : ∀ r ∈ rows, ∃ b, betRow classes side r = .ok b := by
    intro r hr
    have hl := h r hr
    unfold betRow
    obtain ⟨t, r⟩ := r
    cases r with
    | nil => exact absurd (List.length_eq_zero_iff.1 hl.symm) hc
    | cons x xs =>
      dsimp only at hl ⊢
      have := argmaxFrom_lt xs 1 0 x (by omega)
      have hlt : argmaxFrom 1 0 x xs < classes.length := by rw [← hl, List.length_cons]; omega
      unfold argmax
      rw [Py.bind_ok]
      have hg : ∃ k, getE classes (argmaxFrom 1 0 x xs) = .ok k := by
        unfold getE
        rw [List.getElem?_eq_getElem hlt]
        exact ⟨_, rfl⟩
      obtain ⟨k, hk⟩ := hg
      rw [hk]
      exact ⟨_, rfl⟩
  obtain ⟨b, hb⟩ := mapE_total _ rows hone
  refine ⟨b, hb, mapE_keys (k := (·.1)) (k' := (·.time)) ?_ hb⟩
  intro r q hq
  unfold betRow at hq
  simp only [Py.bind_eq_ok, Except.ok.injEq] at hq
  obtain ⟨i, -, k, -, rfl⟩ := hq
  rfl

/-- C141: a ready pipeline gives a side and a size.  Without a bet sizer the metalabeling model needs the class 1;
a bet sizer has to give a size for each row.  Then `get_side_and_size` returns, and every time with all features has
a side and a size. -/
theorem C141_side_and_size (c : Cfg K) (X : Dict K) (F : Features K) (h : Live c X F)
    (hb : Sizes c) : ∃ res, getSideAndSize c X = .ok res ∧
      ∀ t, FullAt F.primary t → (∀ m, c.metaModel = some m → FullAt F.metal t) → ∃ s z, (t, s, z) ∈ res := by
  obtain ⟨pred, proba, hpred, hproba, hlab, hprob, hprim, hmeta⟩ := C141_predict c X F h
  obtain ⟨t₀, ht₀, ht₀m⟩ := h.time
  obtain ⟨size, hsize, hszn, hszt⟩ : ∃ size, signalSize c X proba = .ok size ∧ (∀ q ∈ size, q.2.isNan = false) ∧
      ∀ t, FullAt F.primary t → (∀ m, c.metaModel = some m → FullAt F.metal t) → t ∈ size.map (·.1) := by
    unfold signalSize
    cases hmm : c.metaModel with
    | none =>
      dsimp only
      unfold sizePrimary
      unfold Sizes at hb
      cases hbs : c.betSizer with
      | none =>
        refine ⟨_, rfl, ?_, ?_⟩
        · intro q hq
          obtain ⟨r, hr, rfl⟩ := List.mem_map.1 hq
          obtain ⟨hl, hn⟩ := hprob r hr
          refine rowMax_not_nan r.2 ?_ hn
          intro h0
          rw [h0] at hl
          exact h.primary.classes (List.length_eq_zero_iff.1 hl.symm)
        · intro t ht _
          rw [List.map_map]
          exact (hprim t ht).2
      | some bs =>
        rw [hbs] at hb
        obtain ⟨b, hbb, hbt⟩ := betRows_total c.primary.classes h.primary.classes none proba.primary fun r hr => (hprob r hr).1
        have hbne : b ≠ [] := by
          intro h0
          have := (hprim t₀ ht₀).2
          rw [← hbt, h0] at this
          simp at this
        obtain ⟨out, hout, hon, hot⟩ := hb b hbne
        refine ⟨out, ?_, hon, ?_⟩
        · dsimp only
          rw [hbb, Py.bind_ok, hout]
        · intro t ht _
          have := (hprim t ht).2
          rw [← hbt] at this
          obtain ⟨r, hr, rfl⟩ := List.mem_map.1 this
          obtain ⟨q, hq, hqt⟩ := hot r hr
          exact List.mem_map.2 ⟨q, hq, hqt⟩
    | some m =>
      dsimp only
      obtain ⟨ms, mp, hms, hmp, hmsn, hmpn, hmt⟩ := hmeta m hmm
      rw [hmp]
      change ∃ size, sizeMeta c m X mp = .ok size ∧ _
      unfold sizeMeta
      unfold Sizes at hb
      cases hbs : c.betSizer with
      | none =>
        rw [hbs] at hb
        have h1 : (1 : K) ∈ m.classes := hb m hmm
        refine ⟨mp.map fun r => (r.1, r.2.getD (m.classes.idxOf 1) .nan), ?_, ?_, ?_⟩
        · dsimp only
          unfold probaOfOne
          rw [if_pos h1]
        · intro q hq
          obtain ⟨r, hr, rfl⟩ := List.mem_map.1 hq
          obtain ⟨hl, hn⟩ := hmpn r hr
          have hlt : m.classes.idxOf 1 < r.2.length := by rw [hl]; exact List.idxOf_lt_length_of_mem h1
          dsimp only
          rw [List.getD_eq_getElem _ _ hlt]
          exact hn _ (List.getElem_mem hlt)
        · intro t ht htm
          rw [List.map_map]
          exact (hmt t ht (htm m rfl)).2
      | some bs =>
        rw [hbs] at hb
        obtain ⟨b, hbb, hbt⟩ := betRows_total m.classes (h.second m hmm).2.1.classes (some pred.primary) mp fun r hr => (hmpn r hr).1
        have hbne : b ≠ [] := by
          intro h0
          have := (hmt t₀ ht₀ (ht₀m m hmm)).2
          rw [← hbt, h0] at this
          simp at this
        obtain ⟨out, hout, hon, hot⟩ := hb b hbne
        refine ⟨out, ?_, hon, ?_⟩
        · dsimp only
          rw [hpred, Py.bind_ok, hbb, Py.bind_ok, hout]
        · intro t ht htm
          have := (hmt t ht (htm m rfl)).2
          rw [← hbt] at this
          obtain ⟨r, hr, rfl⟩ := List.mem_map.1 this
          obtain ⟨q, hq, hqt⟩ := hot r hr
          exact List.mem_map.2 ⟨q, hq, hqt⟩
  refine ⟨sideSize pred.primary size, ?_, ?_⟩
  · unfold getSideAndSize
    rw [hpred, Py.bind_ok, hproba, Py.bind_ok, hsize, Py.bind_ok]
  · intro t ht htm
    obtain ⟨⟨t1, s⟩, hs, rfl⟩ := List.mem_map.1 (hprim t ht).1
    obtain ⟨⟨t2, z⟩, hz, hzt⟩ := List.mem_map.1 (hszt t1 ht htm)
    dsimp only at hzt
    subst hzt
    exact sideSize_of _ _ hlab hszn t2 s z hs hz

private theorem locRows_total (f : Frame K) (idx : List ℤ) (h : ∀ t ∈ idx, ∃ r, f.row? t = some r) : ∃ g, locRows f idx = .ok g := by
  unfold locRows
  generalize hm : mapE _ idx = res
  cases res with
  | ok rows => exact ⟨_, rfl⟩
  | error e =>
    exfalso
    revert hm
    generalize hfn : (fun t => (_ : Py (ℤ × List (XF K)))) = fn
    intro hm
    obtain ⟨bs, hbs⟩ := mapE_total fn idx (by
      intro t ht
      obtain ⟨r, hr⟩ := h t ht
      refine ⟨(t, r), ?_⟩
      rw [← hfn]
      dsimp only
      rw [hr])
    rw [hm] at hbs
    simp at hbs

private theorem locSer_total (y : Ser K) (idx : List ℤ) (h : ∀ t ∈ idx, t ∈ y.map (·.1)) : ∃ s, locSer y idx = .ok s := by
  apply mapE_total
  intro t ht
  obtain ⟨r, hr, hrt⟩ := List.mem_map.1 (h t ht)
  cases hf : y.find? fun r => decide (r.1 = t) with
  | none => exact absurd (List.find?_eq_none.1 hf r hr) (by simp [hrt])
  | some q => exact ⟨_, rfl⟩

private theorem labelled_labels {F : Features K} {y : Ser K} (h : Labelled F y) : labelsOk y = true := by
  unfold labelsOk
  rw [List.all_eq_true]
  intro r hr
  rw [List.mem_filter] at hr
  rcases h.labels r hr.1 with h | h | h | h <;> rw [h] at hr ⊢ <;> simp [XF.beq, XF.isNan] at hr ⊢

private theorem alignXy_total {F : Features K} {y : Ser K} (h : Labelled F y) :
    ∃ Xo yo, alignXy F.primary y true = .ok (Xo, yo) ∧ ∀ t, t ∈ Xo.index ↔ HasLabel y t ∧ FullAt F.primary t := by
  have hidx : ∀ t, t ∈ (y.filter fun r => !r.2.isNan).map (·.1) ↔ HasLabel y t := by
    intro t
    unfold HasLabel
    simp only [List.mem_map, List.mem_filter]
    constructor
    · rintro ⟨⟨u, l⟩, ⟨hm, hn⟩, rfl⟩
      exact ⟨l, hm, by simpa using hn⟩
    · rintro ⟨l, hm, hn⟩
      exact ⟨(t, l), ⟨hm, by simp [hn]⟩, rfl⟩
  generalize hI : (y.filter fun r => !r.2.isNan).map (·.1) = idx at hidx
  have hrow : ∀ t ∈ idx, ∀ p ∈ F.primary, ∃ q, p.2.row? t = some q ∧ ∀ x ∈ q, x = .nan ∨ ∃ a, x = .fin a := by
    intro t ht p hp
    obtain ⟨l, hl, hn⟩ := (hidx t).1 ht
    exact h.rows (t, l) hl hn p hp
  obtain ⟨fs, hfs⟩ := mapE_total (fun p : String × Frame K => locRows p.2 idx) F.primary (by
    intro p hp
    exact locRows_total _ _ fun t ht => by obtain ⟨q, hq, -⟩ := hrow t ht p hp; exact ⟨q, hq⟩)
  have hfs2 := hfs
  rw [mapE_eq_ok_iff] at hfs2
  obtain ⟨p₀, hp₀, hc₀⟩ := h.columns
  have hne : fs ≠ [] := by
    obtain ⟨f, hf, -⟩ := forall₂_right hfs2 p₀ hp₀
    exact List.ne_nil_of_mem hf
  obtain ⟨X, hX⟩ : ∃ X, concatOuter fs = .ok X := by unfold concatOuter; rw [if_neg hne]; exact ⟨_, rfl⟩
  have hXi : X.index = idx := by
    rw [concatOuter_index hX]
    apply joinIndex_same
    · simpa using hne
    · intro j hj
      obtain ⟨f, hf, rfl⟩ := List.mem_map.1 hj
      obtain ⟨p, -, hp⟩ := forall₂_left hfs2 f hf
      exact (locRows_ok hp).2.1
  have hsub : ∀ t ∈ X.dropna.index, t ∈ idx := by
    intro t ht
    rw [← hXi]
    unfold Frame.index Frame.dropna at ht
    obtain ⟨r, hr, rfl⟩ := List.mem_map.1 ht
    exact List.mem_map.2 ⟨r, (List.mem_filter.1 hr).1, rfl⟩
  obtain ⟨ya, hya⟩ := locSer_total y X.dropna.index (by
    intro t ht
    obtain ⟨l, hl, -⟩ := (hidx t).1 (hsub t ht)
    exact List.mem_map.2 ⟨_, hl, rfl⟩)
  -- the rows of the joined frame
  have hXr : ∀ r ∈ X.rows, r.1 ∈ idx ∧ ∀ x ∈ r.2, ∃ p ∈ F.primary, ∃ q, p.2.row? r.1 = some q ∧ x ∈ q := by
    intro r hr
    have hri : r.1 ∈ idx := by rw [← hXi]; exact List.mem_map.2 ⟨r, hr, rfl⟩
    refine ⟨hri, ?_⟩
    rw [(concatOuter_ok hX).2] at hr
    obtain ⟨t, -, rfl⟩ := List.mem_map.1 hr
    intro x hx
    obtain ⟨f, hf, hx⟩ := List.mem_flatMap.1 hx
    obtain ⟨p, hp, hpf⟩ := forall₂_left hfs2 f hf
    obtain ⟨q, hq, -⟩ := hrow t hri p hp
    rw [((locRows_ok hpf).2.2 t hri).2, hq] at hx
    exact ⟨p, hp, q, hq, hx⟩
  have hXf : ∀ t, t ∈ X.dropna.index ↔ t ∈ idx ∧ FullAt F.primary t := by
    intro t
    constructor
    · intro ht
      refine ⟨hsub t ht, fun p hp => ?_⟩
      obtain ⟨q, hq, -⟩ := hrow t (hsub t ht) p hp
      refine ⟨q, hq, fun x hx => ?_⟩
      unfold Frame.index at ht
      obtain ⟨r, hr, rfl⟩ := List.mem_map.1 ht
      refine dropna_complete X r hr x ?_
      have hr' : r ∈ X.rows := (List.mem_filter.1 hr).1
      rw [(concatOuter_ok hX).2] at hr'
      obtain ⟨t, -, rfl⟩ := List.mem_map.1 hr'
      obtain ⟨f, hf, hpf⟩ := forall₂_right hfs2 p hp
      refine List.mem_flatMap.2 ⟨f, hf, ?_⟩
      rw [((locRows_ok hpf).2.2 _ (hsub _ ht)).2, hq]
      exact hx
    · rintro ⟨ht, hfull⟩
      rw [← hXi] at ht
      unfold Frame.index at ht
      obtain ⟨r, hr, rfl⟩ := List.mem_map.1 ht
      refine List.mem_map.2 ⟨r, (mem_dropna X r.1 r.2).2 ⟨hr, fun x hx => ?_⟩, rfl⟩
      obtain ⟨p, hp, q, hq, hxq⟩ := (hXr r hr).2 x hx
      obtain ⟨q', hq', hn⟩ := hfull p hp
      rw [hq] at hq'
      simp only [Option.some.injEq] at hq'
      subst hq'
      exact hn x hxq
  have hchk : checkXy X.dropna ya = .ok () := by
    unfold checkXy
    rw [if_neg, if_pos]
    · constructor
      · rw [List.all_eq_true]
        intro r hr
        rw [List.all_eq_true]
        intro x hx
        have hn := dropna_complete X r hr x hx
        have hr' : r ∈ X.rows := (List.mem_filter.1 hr).1
        obtain ⟨hri, hxs⟩ := hXr r hr'
        obtain ⟨p, hp, q, hq, hxq⟩ := hxs x hx
        obtain ⟨q', hq', hfin⟩ := hrow r.1 hri p hp
        rw [hq] at hq'
        simp only [Option.some.injEq] at hq'
        subst hq'
        rcases hfin x hxq with rfl | ⟨a, rfl⟩
        · simp [XF.isNan] at hn
        · simp [XF.undef, XF.isNan, XF.isInf]
      · rw [List.all_eq_true]
        intro r hr
        obtain ⟨hk, hm⟩ := locSer_ok hya
        have hy := hm r hr
        have hri : r.1 ∈ idx := hsub _ (by rw [← hk]; exact List.mem_map.2 ⟨r, hr, rfl⟩)
        obtain ⟨l, hl, hn⟩ := (hidx r.1).1 hri
        have heq : l = r.2 := by
          have h1 := find_of_mem y h.unique r.1 l hl
          have h2 := find_of_mem y h.unique r.1 r.2 hy
          rw [h1] at h2
          exact congrArg Prod.snd (Option.some.inj h2)
        subst heq
        rcases h.labels _ hl with h | h | h | h <;> dsimp only at h <;> rw [h] at hn ⊢ <;>
          simp [XF.undef, XF.isNan, XF.isInf] at hn ⊢
    · rintro (h0 | h0)
      · obtain ⟨r, hr, hn, hfull⟩ := h.time
        have : r.1 ∈ X.dropna.index := (hXf r.1).2 ⟨(hidx r.1).2 ⟨r.2, hr, hn⟩, hfull⟩
        unfold Frame.index at this
        rw [h0] at this
        simp at this
      · have hcols : X.dropna.cols = fs.flatMap (·.cols) := by rw [(concatOuter_ok hX).2]; rfl
        rw [hcols, List.flatMap_eq_nil_iff] at h0
        obtain ⟨f, hf, hpf⟩ := forall₂_right hfs2 p₀ hp₀
        exact hc₀ ((locRows_ok hpf).1 ▸ h0 f hf)
  refine ⟨X.dropna, ya, ?_, fun t => by rw [hXf, hidx]⟩
  unfold alignXy
  rw [if_pos rfl, hI, hfs, Py.bind_ok, hX, Py.bind_ok, hya, Py.bind_ok, hchk, Py.bind_ok]

/-- C141: a training set for the primary model is created whenever every labelled time has a row of finite or missing
features in each frame and at least one such row has no missing value; it has exactly the labelled times with all
features. -/
theorem C141_dataset_primary (c : Cfg K) (X : Dict K) (F : Features K) (hF : features c X = .ok F) (y : Ser K) (h : Labelled F y) :
    ∃ Xo yo, datasetPrimary c X y true = .ok (Xo, yo) ∧ ∀ t, t ∈ Xo.index ↔ HasLabel y t ∧ FullAt F.primary t := by
  obtain ⟨Xo, yo, hal, hidx⟩ := alignXy_total h
  refine ⟨Xo, yo, ?_, hidx⟩
  unfold datasetPrimary
  rw [if_neg (by simp [labelled_labels h]), hF, Py.bind_ok, hal]

/-- C141: so is a training set for the metalabeling model when the primary model answers; it has exactly the labelled
times with all features of both models.  With predictions as features some time must have all features of the metalabeling model; with predictions but without probabilities as features, the features of the
metalabeling model may be complete only at times of the primary training set. -/
theorem C141_dataset_metalabeling (c : Cfg K) (X : Dict K) (F : Features K) (hF : features c X = .ok F) (y : Ser K) (h : Labelled F y)
    (ha : Answers c.primary) (hm : F.metal ≠ []) (hc : ∀ p ∈ F.metal, p.2.cols ≠ [])
    (hs : c.usePredictions = true → c.useProba = false → ∀ t, FullAt F.metal t → HasLabel y t ∧ FullAt F.primary t)
    (hsome : c.usePredictions = true → ∃ t, FullAt F.metal t) :
    ∃ Xo yo, datasetMeta c X y = .ok (Xo, yo) ∧
      ∀ t, t ∈ Xo.index ↔ HasLabel y t ∧ FullAt F.primary t ∧ FullAt F.metal t := by
  obtain ⟨Xp, yp, hal, hidx⟩ := alignXy_total h
  obtain ⟨h1, h2, h3, h4, -, -⟩ := alignXy_ok hal
  have hcomp : ∀ r ∈ Xp.rows, ∀ x ∈ r.2, x.isNan = false := by
    intro r hr x hx
    have := h3 r hr x hx
    cases x <;> simp_all [XF.undef, XF.isNan]
  obtain ⟨Xm, hXm, -, hXmi⟩ := metaFeatures_total c Xp F ha hm h2 hcomp hc (fun hu hq t ht => (hidx t).2 (hs hu hq t ht)) hsome
  obtain ⟨v, hv, hvl, -⟩ := ha.label Xp h2 hcomp
  have hvl' : v.length = (yp.map (·.1)).length := by rw [← h1]; simpa [Frame.index] using hvl
  have hser : mkSeries (yp.map (·.1)) v = .ok ((yp.map (·.1)).zip v) := by unfold mkSeries; rw [if_pos hvl']
  generalize hym : List.zipWith (fun (p : ℤ × XF K) (l : ℤ × XF K) => (l.1, if XF.beq p.2 l.2 then (.fin 1 : XF K) else .fin 0))
    ((yp.map (·.1)).zip v) yp = ym
  have hymi : ym.map (·.1) = yp.map (·.1) := by
    rw [← hym, List.map_zipWith]
    apply List.ext_getElem
    · simp [hvl']
    · intro i h1 h2; simp
  have hmem : ∀ t, t ∈ Xm.index.filter (fun t => decide (t ∈ ym.map (·.1))) ↔ HasLabel y t ∧ FullAt F.primary t ∧ FullAt F.metal t := by
    intro t
    rw [List.mem_filter, hymi, ← h1, hXmi, decide_eq_true_eq, hidx]
    tauto
  obtain ⟨Xo, hXo⟩ := locRows_total Xm (Xm.index.filter fun t => decide (t ∈ ym.map (·.1))) (by
    intro t ht
    have ht := (List.mem_filter.1 ht).1
    unfold Frame.index at ht
    obtain ⟨r, hr, hrt⟩ := List.mem_map.1 ht
    unfold Frame.row?
    cases hf : Xm.rows.find? fun r => decide (r.1 = t) with
    | none => exact absurd (List.find?_eq_none.1 hf r hr) (by simp [hrt])
    | some q => exact ⟨q.2, rfl⟩)
  obtain ⟨yo, hyo⟩ := locSer_total ym (Xm.index.filter fun t => decide (t ∈ ym.map (·.1))) (by
    intro t ht
    simpa using (List.mem_filter.1 ht).2)
  refine ⟨Xo, yo, ?_, fun t => by rw [(locRows_ok hXo).2.1, hmem]⟩
  unfold datasetMeta
  rw [if_neg (by simp [labelled_labels h]), hF, Py.bind_ok, hal, Py.bind_ok]
  dsimp only
  rw [hXm, Py.bind_ok, hv, Py.bind_ok, hser, Py.bind_ok, hym, hXo, Py.bind_ok, hyo, Py.bind_ok]

/-- C141: with predictions as features and no time with all features of the metalabeling model, `_get_features_for_metalabeling` raises
`ValueError` (the predictions become the rows of the empty frame, with missing features), so nothing is predicted and no training set is made. -/
theorem C141_no_metalabeling_features (c : Cfg K) (Xp : Frame K) (F : Features K) (ha : Answers c.primary) (hm : F.metal ≠ [])
    (hXp : Xp.rows ≠ []) (hXc : ∀ r ∈ Xp.rows, ∀ x ∈ r.2, x.isNan = false) (hc : ∀ p ∈ F.metal, p.2.cols ≠ [])
    (hu : c.usePredictions = true) (hnone : ∀ t, ¬ FullAt F.metal t) : metaFeatures c Xp F = .error .valueError := by
  obtain ⟨fm, hfm, -, hout⟩ := index_concat hm
  obtain ⟨v, hv, hvl, hvn⟩ := ha.label Xp hXp hXc
  obtain ⟨w, hw, hwl, hwn⟩ := ha.proba Xp hXp hXc
  have hvl' : v.length = Xp.index.length := by simpa [Frame.index] using hvl
  have hwl' : w.length = Xp.index.length := by simpa [Frame.index] using hwl
  have hser : mkSeries Xp.index v = .ok (Xp.index.zip v) := by unfold mkSeries; rw [if_pos hvl']
  have hrow : mkRows Xp.index c.primary.classes.length w = .ok (Xp.index.zip w) := by
    unfold mkRows; rw [if_pos ⟨hwl', fun r hr => (hwn r hr).1⟩]
  have hemp : fm.dropna.rows = [] := by
    cases hr : fm.dropna.rows with
    | nil => rfl
    | cons a l => exact absurd (hout hc a.1 (by unfold Frame.index; rw [hr]; simp)) (hnone a.1)
  have hyes : assignedToEmpty c Xp fm.dropna = true := by
    unfold assignedToEmpty
    rw [hu, hemp]
    cases hr : Xp.rows with
    | nil => exact absurd hr hXp
    | cons a l => rfl
  have h1 : withPrediction c Xp fm.dropna = .ok (addPrediction fm.dropna (Xp.index.zip v)) := by
    unfold withPrediction
    rw [if_pos hu, hv, Py.bind_ok, hser, Py.bind_ok]
  obtain ⟨f2, h2⟩ : ∃ f2, withProba c Xp (addPrediction fm.dropna (Xp.index.zip v)) = .ok f2 := by
    unfold withProba
    split
    · exact ⟨_, by rw [hw, Py.bind_ok, hrow, Py.bind_ok]⟩
    · exact ⟨_, rfl⟩
  unfold metaFeatures
  rw [hfm, Py.bind_ok, h1, Py.bind_ok, h2, Py.bind_ok, hyes, if_neg (by simp)]

section Examples

private def rdClf : Clf ℚ where
  fitted := true
  classes := [-1, 1]
  predict f := .ok (f.rows.map fun r => if XF.lt (.fin 0) (r.2.headD .nan) then .fin 1 else .fin (-1))
  proba f := .ok (f.rows.map fun r => if XF.lt (.fin 0) (r.2.headD .nan) then [.fin (1/4), .fin (3/4)] else [.fin (3/4), .fin (1/4)])

private def rdMeta : Clf ℚ where
  fitted := true
  classes := [0, 1]
  predict f := .ok (f.rows.map fun r => if XF.lt (.fin 0) (r.2.headD .nan) then .fin 1 else .fin 0)
  proba f := .ok (f.rows.map fun _ => [.fin (1/3), .fin (2/3)])

private def rdCfg : Cfg ℚ where
  alignOn := "bars"
  alignHow := [("ticks", "mean")]
  trPrimary := [("bars", none), ("ticks", none)]
  trMeta := [("bars", none)]
  primary := rdClf
  metaModel := some rdMeta
  useProba := true
  usePredictions := true
  betSizer := none

private def rdData : Dict ℚ :=
  [("bars", ⟨["a"], [(10, [.fin 1]), (20, [.fin (-2)]), (30, [.fin 3]), (40, [.fin 5])]⟩),
   ("ticks", ⟨["b"], [(15, [.fin 1]), (17, [.fin 2]), (29, [.fin 4])]⟩)]

private def rdFeatures : Features ℚ :=
  ⟨[("bars", ⟨["a"], [(10, [.fin 1]), (20, [.fin (-2)]), (30, [.fin 3]), (40, [.fin 5])]⟩),
    ("ticks", ⟨["b"], [(10, [.nan]), (20, [.fin (3/2)]), (30, [.fin 4]), (40, [.fin 4])]⟩)],
   [("bars", ⟨["a"], [(10, [.fin 1]), (20, [.fin (-2)]), (30, [.fin 3]), (40, [.fin 5])]⟩)]⟩

private theorem rd_answers : Answers rdClf := by
  refine ⟨by decide, fun f _ _ => ⟨_, rfl, by simp, ?_⟩, fun f _ _ => ⟨_, rfl, by simp, ?_⟩⟩
  · intro x hx
    obtain ⟨r, -, rfl⟩ := List.mem_map.1 hx
    split <;> rfl
  · intro p hp
    obtain ⟨r, -, rfl⟩ := List.mem_map.1 hp
    split
    · exact ⟨rfl, by simp [XF.isNan]⟩
    · exact ⟨rfl, by simp [XF.isNan]⟩

private theorem rd_answers_meta : Answers rdMeta := by
  refine ⟨by decide, fun f _ _ => ⟨_, rfl, by simp, ?_⟩, fun f _ _ => ⟨_, rfl, by simp, ?_⟩⟩
  · intro x hx
    obtain ⟨r, -, rfl⟩ := List.mem_map.1 hx
    split <;> rfl
  · intro p hp
    obtain ⟨r, -, rfl⟩ := List.mem_map.1 hp
    exact ⟨rfl, by simp [XF.isNan]⟩

private theorem rd_ready : Ready rdCfg rdData := by
  refine ⟨?_, by decide, ⟨("bars", none), by simp [rdCfg], rfl⟩, ?_, ?_⟩
  · intro k
    simp [rdCfg, rdData, or_comm, or_left_comm, eq_comm]
  · intro p hp f hf
    simp [rdCfg] at hp
    rcases hp with rfl | rfl | rfl <;> simp [rdData, List.lookup] at hf <;> subst hf <;> simp
  · intro p hp hne
    simp [rdCfg] at hp
    rcases hp with rfl | rfl | rfl
    · exact absurd rfl hne
    · exact ⟨"mean", by simp, by decide⟩
    · exact absurd rfl hne

private theorem rd_features : features rdCfg rdData = .ok rdFeatures := by decide +kernel

private theorem rd_full : FullAt rdFeatures.primary 30 ∧ FullAt rdFeatures.metal 30 := by
  constructor
  · intro p hp
    simp [rdFeatures] at hp
    rcases hp with rfl | rfl
    · exact ⟨[.fin 3], by decide +kernel, by simp [XF.isNan]⟩
    · exact ⟨[.fin 4], by decide +kernel, by simp [XF.isNan]⟩
  · intro p hp
    simp [rdFeatures] at hp
    subst hp
    exact ⟨[.fin 3], by decide +kernel, by simp [XF.isNan]⟩

private theorem rd_live : Live rdCfg rdData rdFeatures := by
  refine ⟨rd_ready, rd_features, ⟨_, rfl, 10, rfl, ?_⟩, rd_answers, ?_, 30, rd_full.1, fun _ _ => rd_full.2⟩
  · intro p hp
    simp [rdData] at hp
    rcases hp with rfl | rfl
    · exact ⟨40, rfl, by omega⟩
    · exact ⟨29, rfl, by omega⟩
  · intro m hm
    have : m = rdMeta := by simpa [rdCfg] using hm.symm
    subst this
    refine ⟨rfl, rd_answers_meta, by simp [rdCfg], ?_, by simp [rdCfg]⟩
    intro p hp
    simp [rdFeatures] at hp
    subst hp
    simp

example : ∃ F, features rdCfg rdData = .ok F ∧ F.primary.map (·.1) = ["bars", "ticks"] ∧ F.metal.map (·.1) = ["bars"] :=
  C141_features rdCfg rdData rd_ready

example : ∃ pred, predict rdCfg rdData = .ok pred ∧ (30 : ℤ) ∈ pred.primary.map (·.1) := by
  obtain ⟨pred, proba, h, -, -, -, ht, -⟩ := C141_predict rdCfg rdData rdFeatures rd_live
  exact ⟨pred, h, (ht 30 rd_full.1).1⟩

example : ∃ res, getSideAndSize rdCfg rdData = .ok res ∧ ∃ s z, ((30 : ℤ), s, z) ∈ res := by
  obtain ⟨res, h, ht⟩ := C141_side_and_size rdCfg rdData rdFeatures rd_live (by
    intro m hm
    have : m = rdMeta := by simpa [rdCfg] using hm.symm
    subst this
    simp [rdMeta])
  exact ⟨res, h, ht 30 rd_full.1 fun _ _ => rd_full.2⟩

private def rdLabels : Ser ℚ := [(10, .fin 1), (20, .nan), (30, .fin (-1))]

private theorem rd_labelled : Labelled rdFeatures rdLabels := by
  refine ⟨?_, by decide +kernel, ?_, ⟨_, List.mem_cons_self, by simp⟩, (30, .fin (-1)), by simp [rdLabels], rfl, rd_full.1⟩
  · intro r hr
    simp [rdLabels] at hr
    rcases hr with rfl | rfl | rfl <;> simp
  · intro r hr hn p hp
    simp [rdFeatures] at hp
    simp [rdLabels] at hr
    rcases hr with rfl | rfl | rfl
    · rcases hp with rfl | rfl
      · exact ⟨[.fin 1], by decide +kernel, by simp⟩
      · exact ⟨[.nan], by decide +kernel, by simp⟩
    · simp [XF.isNan] at hn
    · rcases hp with rfl | rfl
      · exact ⟨[.fin 3], by decide +kernel, by simp⟩
      · exact ⟨[.fin 4], by decide +kernel, by simp⟩

example : ∃ Xo yo, datasetPrimary rdCfg rdData rdLabels true = .ok (Xo, yo) ∧ (30 : ℤ) ∈ Xo.index := by
  obtain ⟨Xo, yo, h, ht⟩ := C141_dataset_primary rdCfg rdData rdFeatures rd_features rdLabels rd_labelled
  exact ⟨Xo, yo, h, (ht 30).2 ⟨⟨.fin (-1), by simp [rdLabels], rfl⟩, rd_full.1⟩⟩

example : ∃ Xo yo, datasetMeta rdCfg rdData rdLabels = .ok (Xo, yo) ∧ (30 : ℤ) ∈ Xo.index := by
  obtain ⟨Xo, yo, h, ht⟩ := C141_dataset_metalabeling rdCfg rdData rdFeatures rd_features rdLabels rd_labelled rd_answers
    (by simp [rdFeatures]) (by intro p hp; simp [rdFeatures] at hp; subst hp; simp) (by simp [rdCfg]) fun _ => ⟨30, rd_full.2⟩
  exact ⟨Xo, yo, h, (ht 30).2 ⟨⟨.fin (-1), by simp [rdLabels], rfl⟩, rd_full⟩⟩

/-- The metalabeling features of `rdFeatures`, all missing. -/
private def rdEmpty : Dict ℚ := [("bars", ⟨["a"], [(10, [.nan]), (20, [.nan]), (30, [.nan]), (40, [.nan])]⟩)]

example : metaFeatures rdCfg ⟨["a"], [(30, [.fin 3])]⟩ ⟨rdFeatures.primary, rdEmpty⟩ = .error .valueError := by
  apply C141_no_metalabeling_features rdCfg _ _ rd_answers (by simp [rdEmpty]) (by simp) (by simp [XF.isNan])
    (by simp [rdEmpty]) rfl
  rintro t h
  obtain ⟨r, hr, hn⟩ := h _ (List.mem_singleton.2 rfl)
  unfold Frame.row? at hr
  obtain ⟨q, hq, rfl⟩ := Option.map_eq_some_iff.1 hr
  have hq := List.mem_of_find?_eq_some hq
  simp only [List.mem_cons, List.not_mem_nil, or_false] at hq
  rcases hq with rfl | rfl | rfl | rfl <;> simp [XF.isNan] at hn

end Examples

end Mizar.Props
