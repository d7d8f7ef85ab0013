import Verif.Spec.NoLookAhead
import Verif.Props.Align
import Verif.Props.Pipeline

/-!
Lemmas for C115: every step of a pipeline keeps the agreement of two sets of data up to a time.
-/

set_option linter.unusedSectionVars false

namespace Mizar.Props
open Mizar.Spec Mizar.Pipe

section
variable {K : Type} [Field K] [LinearOrder K]

/-- All frames of a dictionary are increasing. -/
abbrev IncDict (d : Dict K) : Prop := ∀ p ∈ d, Increasing p.2

/-- All transformers of a list are causal. -/
abbrev CausalTrs (tp : List (String × Tr K)) : Prop := ∀ p ∈ tp, ∀ tr, p.2 = some tr → CausalTr tr

theorem forall₂_left {α β : Type} {R : α → β → Prop} {l : List α} {l' : List β} (h : List.Forall₂ R l l') :
    ∀ a ∈ l, ∃ b ∈ l', R a b := by
  induction h with
  | nil => intro a ha; simp at ha
  | @cons x y l l' hab _ ih =>
    intro a ha
    rcases List.mem_cons.1 ha with rfl | ha
    · exact ⟨y, List.mem_cons_self, hab⟩
    · obtain ⟨b, hb, hr⟩ := ih a ha
      exact ⟨b, List.mem_cons_of_mem _ hb, hr⟩

theorem forall₂_right {α β : Type} {R : α → β → Prop} {l : List α} {l' : List β} (h : List.Forall₂ R l l') :
    ∀ b ∈ l', ∃ a ∈ l, R a b := by
  intro b hb
  obtain ⟨a, ha, hr⟩ := forall₂_left h.flip b hb
  exact ⟨a, ha, hr⟩

theorem upTo_find {α : Type} {t : ℤ} {s s' : List (ℤ × α)} (h : upTo t s = upTo t s') {u : ℤ} (hu : u ≤ t) :
    (s.find? fun r => decide (r.1 = u)) = s'.find? fun r => decide (r.1 = u) := by
  have key : ∀ l : List (ℤ × α), (l.find? fun r => decide (r.1 = u)) = (upTo t l).find? fun r => decide (r.1 = u) := by
    intro l
    induction l with
    | nil => rfl
    | cons r l ih =>
      unfold upTo at ih ⊢
      by_cases hr : r.1 = u
      · rw [List.find?_cons_of_pos (by simpa using hr), List.filter_cons_of_pos (by simpa using hr ▸ hu),
          List.find?_cons_of_pos (by simpa using hr)]
      · rw [List.find?_cons_of_neg (by simpa using hr), ih]
        by_cases ht : r.1 ≤ t
        · rw [List.filter_cons_of_pos (by simpa using ht), List.find?_cons_of_neg (by simpa using hr)]
        · rw [List.filter_cons_of_neg (by simpa using ht)]
  rw [key s, key s', h]

theorem upTo_serAt {t : ℤ} {s s' : Ser K} (h : upTo t s = upTo t s') {u : ℤ} (hu : u ≤ t) : serAt s u = serAt s' u := by
  unfold serAt
  rw [upTo_find h hu]

theorem agree_upTo {t : ℤ} {f f' : Frame K} (h : Agree t f f') : upTo t f.rows = upTo t f'.rows := h.2

theorem agree_row {t : ℤ} {f f' : Frame K} (h : Agree t f f') {u : ℤ} (hu : u ≤ t) : f.row? u = f'.row? u := by
  unfold Frame.row?
  rw [upTo_find (agree_upTo h) hu]

theorem agree_mem {t : ℤ} {f f' : Frame K} (h : Agree t f f') {u : ℤ} (hu : u ≤ t) : u ∈ f.index ↔ u ∈ f'.index := by
  have key : ∀ g : Frame K, u ∈ g.index ↔ ∃ r ∈ upTo t g.rows, r.1 = u := by
    intro g
    unfold Frame.index upTo
    constructor
    · intro hm
      obtain ⟨r, hr, rfl⟩ := List.mem_map.1 hm
      exact ⟨r, List.mem_filter.2 ⟨hr, by simpa using hu⟩, rfl⟩
    · rintro ⟨r, hr, rfl⟩
      exact List.mem_map.2 ⟨r, (List.mem_filter.1 hr).1, rfl⟩
  rw [key f, key f', agree_upTo h]

theorem agree_index_filter {t : ℤ} {f f' : Frame K} (h : Agree t f f') :
    f.index.filter (fun s => decide (s ≤ t)) = f'.index.filter fun s => decide (s ≤ t) := agree_index h

theorem pairwise_joinIndex (is : List (List ℤ)) (h : ∀ i ∈ is, i.Pairwise (· < ·)) : (joinIndex is).Pairwise (· < ·) := by
  unfold joinIndex
  split
  · cases is with
    | nil => simp
    | cons a is => exact h a (by simp)
  · exact pairwise_npUnique _

/-- Concatenating dictionaries that agree up to `t`. -/
theorem concat_agree {t : ℤ} {d d' : Dict K} (hd : IncDict d) (hd' : IncDict d') (h : AgreeAll t d d') {f f' : Frame K}
    (hf : concatOuter (d.map (·.2)) = .ok f) (hf' : concatOuter (d'.map (·.2)) = .ok f') : Agree t f f' ∧ Increasing f ∧ Increasing f' := by
  have inc : ∀ (d : Dict K), IncDict d → ∀ f, concatOuter (d.map (·.2)) = .ok f → Increasing f := by
    intro d hd f hf
    unfold Increasing
    rw [concatOuter_index hf]
    apply pairwise_joinIndex
    intro i hi
    rw [List.map_map, List.mem_map] at hi
    obtain ⟨p, hp, rfl⟩ := hi
    exact hd p hp
  have if1 := inc d hd f hf
  have if2 := inc d' hd' f' hf'
  refine ⟨?_, if1, if2⟩
  have hx : f.index.filter (fun s => decide (s ≤ t)) = f'.index.filter (fun s => decide (s ≤ t)) := by
    apply eq_of_mem_iff_of_pairwise_lt (if1.sublist List.filter_sublist) (if2.sublist List.filter_sublist)
    intro u
    rw [List.mem_filter, List.mem_filter, concatOuter_index hf, concatOuter_index hf']
    have n1 := (concatOuter_ok hf).1
    have n2 := (concatOuter_ok hf').1
    rw [mem_joinIndex _ _ (by simpa using n1), mem_joinIndex _ _ (by simpa using n2)]
    simp only [decide_eq_true_eq]
    constructor
    · rintro ⟨⟨i, hi, hu⟩, hut⟩
      refine ⟨?_, hut⟩
      rw [List.map_map, List.mem_map] at hi
      obtain ⟨p, hp, rfl⟩ := hi
      obtain ⟨q, hq, hpq⟩ := forall₂_left h p hp
      exact ⟨q.2.index, by rw [List.map_map, List.mem_map]; exact ⟨q, hq, rfl⟩, (agree_mem hpq.2 hut).1 hu⟩
    · rintro ⟨⟨i, hi, hu⟩, hut⟩
      refine ⟨?_, hut⟩
      rw [List.map_map, List.mem_map] at hi
      obtain ⟨q, hq, rfl⟩ := hi
      obtain ⟨p, hp, hpq⟩ := forall₂_right h q hq
      exact ⟨p.2.index, by rw [List.map_map, List.mem_map]; exact ⟨p, hp, rfl⟩, (agree_mem hpq.2 hut).2 hu⟩
  have hrow : ∀ u ≤ t, ((d.map (·.2)).flatMap fun f => (f.row? u).getD (nanRow f.cols.length)) =
      (d'.map (·.2)).flatMap fun f => (f.row? u).getD (nanRow f.cols.length) := by
    intro u hu
    clear hf hf' if1 if2 hx hd hd' inc
    induction h with
    | nil => rfl
    | cons hpq _ ih => simp only [List.map_cons, List.flatMap_cons, ih, agree_row hpq.2 hu, hpq.2.1]
  have hcols : (d.map (·.2)).flatMap (·.cols) = (d'.map (·.2)).flatMap (·.cols) := by
    clear hf hf' if1 if2 hx hd hd' inc hrow
    induction h with
    | nil => rfl
    | cons hpq _ ih => simp only [List.map_cons, List.flatMap_cons, ih, hpq.2.1]
  rw [concatOuter_index hf, concatOuter_index hf'] at hx
  rw [(concatOuter_ok hf).2, (concatOuter_ok hf').2]
  refine ⟨hcols, ?_⟩
  dsimp only
  rw [List.filter_map, List.filter_map]
  change List.map _ ((joinIndex (List.map _ _)).filter fun s => decide (s ≤ t)) = List.map _ ((joinIndex (List.map _ _)).filter fun s => decide (s ≤ t))
  rw [hx]
  apply List.map_congr_left
  intro u hu
  rw [hrow u (by simpa using (List.mem_filter.1 hu).2)]

theorem dropna_agree {t : ℤ} {f f' : Frame K} (h : Agree t f f') : Agree t f.dropna f'.dropna := by
  refine ⟨h.1, ?_⟩
  unfold Frame.dropna
  dsimp only
  rw [List.filter_filter, List.filter_filter]
  simp only [Bool.and_comm (decide _)]
  rw [← List.filter_filter, ← List.filter_filter, h.2]

theorem dropna_inc {f : Frame K} (h : Increasing f) : Increasing f.dropna := by
  unfold Increasing Frame.index Frame.dropna at *
  exact h.sublist (List.filter_sublist.map _)

theorem lookup_agree {t : ℤ} {d d' : Dict K} (h : AgreeAll t d d') (k : String) :
    (d.lookup k = none ∧ d'.lookup k = none) ∨ ∃ f f', d.lookup k = some f ∧ d'.lookup k = some f' ∧ Agree t f f' := by
  induction h with
  | nil => exact Or.inl ⟨rfl, rfl⟩
  | @cons p q d d' hpq _ ih =>
    obtain ⟨a, fp⟩ := p
    obtain ⟨b, fq⟩ := q
    obtain ⟨hk, ha⟩ := hpq
    simp only at hk ha; subst hk
    rw [List.lookup_cons, List.lookup_cons]
    cases hb : k == a with
    | true => exact Or.inr ⟨fp, fq, rfl, rfl, ha⟩
    | false => exact ih

theorem transformList_agree {t : ℤ} {X X' : Dict K} (hX : IncDict X) (hX' : IncDict X') (h : AgreeAll t X X')
    (tp : List (String × Tr K)) (hc : CausalTrs tp) : ∀ d d', mapE (transformOne X) tp = .ok d → mapE (transformOne X') tp = .ok d' →
      AgreeAll t d d' ∧ IncDict d ∧ IncDict d' := by
  induction tp with
  | nil =>
    intro d d' hd hd'
    simp only [mapE_nil, Except.ok.injEq] at hd hd'
    subst hd; subst hd'
    exact ⟨List.Forall₂.nil, by intro p hp; simp at hp, by intro p hp; simp at hp⟩
  | cons p tp ih =>
    intro d d' hd hd'
    rw [mapE_cons_bind] at hd hd'
    obtain ⟨b, hb, s, hs, rfl⟩ := hd
    obtain ⟨b', hb', s', hs', rfl⟩ := hd'
    obtain ⟨i1, i2, i3⟩ := ih (fun q hq => hc q (List.mem_cons_of_mem _ hq)) s s' hs hs'
    unfold transformOne at hb hb'
    rcases lookup_agree h p.1 with ⟨e1, e2⟩ | ⟨f, f', e1, e2, ha⟩
    · rw [e1] at hb; simp at hb
    · rw [e1] at hb
      rw [e2] at hb'
      have hf := hX _ (lookup_mem e1)
      have hf' := hX' _ (lookup_mem e2)
      have key : b.1 = b'.1 ∧ Agree t b.2 b'.2 ∧ Increasing b.2 ∧ Increasing b'.2 := by
        cases htr : p.2 with
        | none =>
          simp only [htr, Except.ok.injEq] at hb hb'
          subst hb; subst hb'
          exact ⟨rfl, ha, hf, hf'⟩
        | some tr =>
          simp only [htr, Py.bind_eq_ok, Except.ok.injEq] at hb hb'
          obtain ⟨g, hg, rfl⟩ := hb
          obtain ⟨g', hg', rfl⟩ := hb'
          have hct := hc p List.mem_cons_self tr htr
          exact ⟨rfl, hct.2 t f f' g g' hf hf' ha hg hg', hct.1 f g hf hg, hct.1 f' g' hf' hg'⟩
      refine ⟨List.Forall₂.cons ⟨key.1, key.2.1⟩ i1, ?_, ?_⟩
      · intro q hq
        rcases List.mem_cons.1 hq with rfl | hq
        · exact key.2.2.1
        · exact i2 q hq
      · intro q hq
        rcases List.mem_cons.1 hq with rfl | hq
        · exact key.2.2.2
        · exact i3 q hq

theorem alignOn_inc {how : List (String × String)} {name : String} {X Y : Features K} (h : alignOn how name X = .ok Y)
    (hp : IncDict X.primary) (hm : IncDict X.metal) : IncDict Y.primary ∧ IncDict Y.metal := by
  by_cases hn : name = ""
  · unfold alignOn at h
    rw [if_pos hn] at h
    simp only [Except.ok.injEq] at h
    subst h
    exact ⟨hp, hm⟩
  · obtain ⟨lead, hl, h1, h2⟩ := C46_index_and_keys how name X Y hn h
    have hlead : lead.index.Pairwise (· < ·) := hp _ (lookup_mem hl)
    have key : ∀ (d e : Dict K), IncDict d → List.Forall₂ (fun (p q : String × Frame K) => q.1 = p.1 ∧
        (p.1 = name → q.2 = p.2) ∧ (p.1 ≠ name → q.2.index = lead.index ∧ q.2.cols = p.2.cols)) d e → IncDict e := by
      intro d e hd hde q hq
      obtain ⟨p, hp, -, h3, h4⟩ := forall₂_right hde q hq
      by_cases hk : p.1 = name
      · rw [h3 hk]; exact hd p hp
      · unfold Increasing; rw [(h4 hk).1]; exact hlead
    exact ⟨key _ _ hp h1, key _ _ hm h2⟩

/-- The features of a pipeline. -/
theorem features_agree {t : ℤ} {c : Cfg K} {X X' : Dict K} (hX : IncDict X) (hX' : IncDict X') (h : AgreeAll t X X')
    (hp : CausalTrs c.trPrimary) (hm : CausalTrs c.trMeta) {F F' : Features K} (hF : features c X = .ok F) (hF' : features c X' = .ok F') :
    AgreeAll t F.primary F'.primary ∧ AgreeAll t F.metal F'.metal ∧ IncDict F.primary ∧ IncDict F.metal ∧
      IncDict F'.primary ∧ IncDict F'.metal := by
  unfold features at hF hF'
  rw [Py.bind_eq_ok] at hF hF'
  obtain ⟨G, hG, hF⟩ := hF
  obtain ⟨G', hG', hF'⟩ := hF'
  unfold transform at hG hG'
  split at hG
  swap
  · simp at hG
  split at hG'
  swap
  · simp at hG'
  simp only [Py.bind_eq_ok, Except.ok.injEq] at hG hG'
  obtain ⟨p, hp1, m, hm1, rfl⟩ := hG
  obtain ⟨p', hp1', m', hm1', rfl⟩ := hG'
  obtain ⟨a1, a2, a3⟩ := transformList_agree hX hX' h _ hp p p' hp1 hp1'
  obtain ⟨b1, b2, b3⟩ := transformList_agree hX hX' h _ hm m m' hm1 hm1'
  obtain ⟨c1, c2⟩ := C45_no_look_ahead c.alignHow c.alignOn t _ _ F F' a1 b1 (fun f hf => a2 _ (lookup_mem hf))
    (fun f hf => a3 _ (lookup_mem hf)) hF hF'
  obtain ⟨d1, d2⟩ := alignOn_inc hF a2 b2
  obtain ⟨e1, e2⟩ := alignOn_inc hF' a3 b3
  exact ⟨c1, c2, d1, d2, e1, e2⟩

theorem primaryFrame_agree {t : ℤ} {F F' : Features K} (hF : IncDict F.primary) (hF' : IncDict F'.primary)
    (h : AgreeAll t F.primary F'.primary) {f f' : Frame K} (hf : primaryFrame F = .ok f) (hf' : primaryFrame F' = .ok f') :
    Agree t f f' ∧ Increasing f ∧ Increasing f' := by
  unfold primaryFrame at hf hf'
  simp only [Py.bind_eq_ok, Except.ok.injEq] at hf hf'
  obtain ⟨g, hg, rfl⟩ := hf
  obtain ⟨g', hg', rfl⟩ := hf'
  obtain ⟨a, b, c⟩ := concat_agree hF hF' h hg hg'
  exact ⟨dropna_agree a, dropna_inc b, dropna_inc c⟩

theorem series_agree {t : ℤ} {h : Frame K → Py (List (XF K))} (hc : CausalModel h) {f f' : Frame K} (hf : Increasing f)
    (hf' : Increasing f') (ha : Agree t f f') {v v' : List (XF K)} (hv : h f = .ok v) (hv' : h f' = .ok v') {s s' : Ser K}
    (hs : mkSeries f.index v = .ok s) (hs' : mkSeries f'.index v' = .ok s') : upTo t s = upTo t s' := by
  obtain ⟨rfl, l1, -⟩ := mkSeries_ok hs
  obtain ⟨rfl, l2, -⟩ := mkSeries_ok hs'
  exact hc t f f' v v' hf hf' ha l1 l2 hv hv'

theorem rows_agree {t : ℤ} {h : Frame K → Py (List (List (XF K)))} (hc : CausalModel h) {f f' : Frame K} (hf : Increasing f)
    (hf' : Increasing f') (ha : Agree t f f') {v v' : List (List (XF K))} (hv : h f = .ok v) (hv' : h f' = .ok v') {n : ℕ}
    {s s' : List (ℤ × List (XF K))} (hs : mkRows f.index n v = .ok s) (hs' : mkRows f'.index n v' = .ok s') : upTo t s = upTo t s' := by
  have l1 := hs
  have l2 := hs'
  unfold mkRows at l1 l2
  split at l1
  swap
  · simp at l1
  split at l2
  swap
  · simp at l2
  rename_i h1 h2
  simp only [Except.ok.injEq] at l1 l2
  subst l1; subst l2
  exact hc t f f' v v' hf hf' ha h1.1 h2.1 hv hv'

theorem addPrediction_agree {t : ℤ} {f f' : Frame K} (h : Agree t f f') {s s' : Ser K} (hs : upTo t s = upTo t s') :
    Agree t (addPrediction f s) (addPrediction f' s') := by
  refine ⟨by simp [addPrediction, h.1], ?_⟩
  unfold addPrediction
  rw [h.1]
  dsimp only
  rw [List.filter_map, List.filter_map]
  have e : ((fun r : ℤ × List (XF K) => decide (r.1 ≤ t)) ∘ fun r : ℤ × List (XF K) => (r.1, putCell f'.cols "primary_side_pred" r.2 (serAt s r.1))) =
      fun r => decide (r.1 ≤ t) := rfl
  have e' : ((fun r : ℤ × List (XF K) => decide (r.1 ≤ t)) ∘ fun r : ℤ × List (XF K) => (r.1, putCell f'.cols "primary_side_pred" r.2 (serAt s' r.1))) =
      fun r => decide (r.1 ≤ t) := rfl
  rw [e, e', h.2]
  apply List.map_congr_left
  intro r hr
  rw [upTo_serAt hs (by simpa using (List.mem_filter.1 hr).2)]

theorem joinProba_agree {t : ℤ} {f f' : Frame K} (h : Agree t f f') {n : ℕ} {p p' : List (ℤ × List (XF K))} (hs : upTo t p = upTo t p') :
    Agree t (joinProba f n p) (joinProba f' n p') := by
  refine ⟨by simp [joinProba, h.1], ?_⟩
  have key : ∀ (l : List (ℤ × List (XF K))) (p : List (ℤ × List (XF K))),
      ((l.filterMap fun r => (p.find? fun q => decide (q.1 = r.1)).map fun q => (r.1, r.2 ++ q.2)).filter fun r => decide (r.1 ≤ t)) =
      (l.filter fun r => decide (r.1 ≤ t)).filterMap fun r => (p.find? fun q => decide (q.1 = r.1)).map fun q => (r.1, r.2 ++ q.2) := by
    intro l p
    induction l with
    | nil => rfl
    | cons r l ih =>
      rw [List.filterMap_cons]
      cases hq : (p.find? fun q => decide (q.1 = r.1)) with
      | none =>
        simp only [Option.map_none, ih]
        by_cases hr : r.1 ≤ t
        · rw [List.filter_cons_of_pos (by simpa using hr), List.filterMap_cons, hq]; rfl
        · rw [List.filter_cons_of_neg (by simpa using hr)]
      | some q =>
        simp only [Option.map_some]
        by_cases hr : r.1 ≤ t
        · rw [List.filter_cons_of_pos (by simpa using hr), List.filter_cons_of_pos (by simpa using hr), List.filterMap_cons, hq, ih]; rfl
        · rw [List.filter_cons_of_neg (by simpa using hr), List.filter_cons_of_neg (by simpa using hr), ih]
  unfold joinProba
  dsimp only
  rw [key, key, h.2]
  apply List.filterMap_congr
  intro r hr
  rw [upTo_find hs (by simpa using (List.mem_filter.1 hr).2)]

/-- The features of the metalabeling model. -/
theorem metaFeatures_agree {t : ℤ} {c : Cfg K} (h1 : CausalModel c.primary.predict) (h2 : CausalModel c.primary.proba) {F F' : Features K}
    (hF : IncDict F.metal) (hF' : IncDict F'.metal) (h : AgreeAll t F.metal F'.metal) {Xp Xp' Xm Xm' : Frame K} (ha : Agree t Xp Xp')
    (hi : Increasing Xp) (hi' : Increasing Xp') (hm : metaFeatures c Xp F = .ok Xm) (hm' : metaFeatures c Xp' F' = .ok Xm') :
    Agree t Xm Xm' ∧ Increasing Xm ∧ Increasing Xm' := by
  have inc : ∀ (F : Features K) (Xp Xm : Frame K), IncDict F.metal → metaFeatures c Xp F = .ok Xm → Increasing Xm := by
    intro F Xp Xm hF hm
    obtain ⟨f, hf, hx⟩ := metaFeatures_index hm
    have hn := dropna_inc (concat_agree (t := 0) hF hF (List.forall₂_same.2 fun p _ => ⟨rfl, rfl, rfl⟩) hf hf).2.1
    unfold Increasing at hn ⊢
    rw [hx]
    split
    · exact hn.sublist List.filter_sublist
    · exact hn
  refine ⟨?_, inc _ _ _ hF hm, inc _ _ _ hF' hm'⟩
  obtain ⟨f, f1, f2, hf, p1, p2, q1, q2, rfl, -⟩ := metaFeatures_ok hm
  obtain ⟨f', f1', f2', hf', p1', p2', q1', q2', rfl, -⟩ := metaFeatures_ok hm'
  have a0 := dropna_agree (concat_agree hF hF' h hf hf').1
  have a1 : Agree t f1 f1' := by
    cases hu : c.usePredictions with
    | true =>
      obtain ⟨v, s, hv, hs, rfl⟩ := p1 hu
      obtain ⟨v', s', hv', hs', rfl⟩ := p1' hu
      exact addPrediction_agree a0 (series_agree h1 hi hi' ha hv hv' hs hs')
    | false =>
      rw [p2 hu, p2' hu]; exact a0
  cases hu : c.useProba with
  | true =>
    obtain ⟨v, s, hv, hs, rfl⟩ := q1 hu
    obtain ⟨v', s', hv', hs', rfl⟩ := q1' hu
    exact joinProba_agree a1 (rows_agree h2 hi hi' ha hv hv' hs hs')
  | false =>
    rw [q2 hu, q2' hu]; exact a1

end
end Mizar.Props
