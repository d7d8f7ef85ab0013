import Verif.Props.NoLookAhead
import Verif.Props.NoLookAheadModels
import Verif.Props.KnownAtEnd

/-!
Property theorems C118: the rows of the training sets up to a time do not depend on data and labels after this time
(`/repo/mizarlabs/model/pipeline.py` lines 316-342, 381-434, 599-680).
-/

set_option linter.unusedSectionVars false

namespace Mizar.Props
open Mizar.Spec Mizar.Pipe

section
variable {K : Type} [Field K] [LinearOrder K]

theorem locRows_upTo {f g : Frame K} {idx : List ℤ} (h : locRows f idx = .ok g) (t : ℤ) :
    g.cols = f.cols ∧ g.index = idx ∧ upTo t g.rows = (idx.filter fun u => decide (u ≤ t)).map fun u => (u, (f.row? u).getD []) := by
  refine ⟨(locRows_ok h).1, (locRows_ok h).2.1, ?_⟩
  unfold locRows at h
  simp only [Py.bind_eq_ok, Except.ok.injEq] at h
  obtain ⟨rows, hrows, rfl⟩ := h
  dsimp only
  rw [mapE_eq_ok_iff] at hrows
  unfold upTo
  induction hrows with
  | nil => rfl
  | @cons u r l l' hu _ ih =>
    have hr : r = (u, (f.row? u).getD []) := by
      cases hf : f.row? u with
      | none => rw [hf] at hu; simp at hu
      | some x => rw [hf] at hu; simpa using hu.symm
    subst hr
    by_cases hut : u ≤ t
    · simp [hut, ih]
    · simp [hut, ih]

theorem locRows_agree {t : ℤ} {f f' g g' : Frame K} {idx idx' : List ℤ} (ha : Agree t f f')
    (hi : idx.filter (fun u => decide (u ≤ t)) = idx'.filter fun u => decide (u ≤ t)) (h : locRows f idx = .ok g) (h' : locRows f' idx' = .ok g') :
    Agree t g g' := by
  obtain ⟨c1, -, r1⟩ := locRows_upTo h t
  obtain ⟨c2, -, r2⟩ := locRows_upTo h' t
  refine ⟨by rw [c1, c2, ha.1], ?_⟩
  show upTo t g.rows = upTo t g'.rows
  rw [r1, r2, ← hi]
  apply List.map_congr_left
  intro u hu
  rw [agree_row ha (by simpa using (List.mem_filter.1 hu).2)]

theorem locSer_upTo {y s : Ser K} {idx : List ℤ} (h : locSer y idx = .ok s) (t : ℤ) :
    s.map (·.1) = idx ∧ upTo t s = (idx.filter fun u => decide (u ≤ t)).map fun u => (u, serAt y u) := by
  refine ⟨(locSer_ok h).1, ?_⟩
  unfold locSer at h
  rw [mapE_eq_ok_iff] at h
  unfold upTo
  induction h with
  | nil => rfl
  | @cons u r l l' hu _ ih =>
    have hr : r = (u, serAt y u) := by
      unfold serAt
      cases hf : y.find? fun r => decide (r.1 = u) with
      | none => rw [hf] at hu; simp at hu
      | some x => rw [hf] at hu; simpa using hu.symm
    subst hr
    by_cases hut : u ≤ t
    · simp [hut, ih]
    · simp [hut, ih]

theorem locSer_agree {t : ℤ} {y y' s s' : Ser K} {idx idx' : List ℤ} (ha : upTo t y = upTo t y')
    (hi : idx.filter (fun u => decide (u ≤ t)) = idx'.filter fun u => decide (u ≤ t)) (h : locSer y idx = .ok s) (h' : locSer y' idx' = .ok s') :
    upTo t s = upTo t s' := by
  rw [(locSer_upTo h t).2, (locSer_upTo h' t).2, ← hi]
  apply List.map_congr_left
  intro u hu
  rw [upTo_serAt ha (by simpa using (List.mem_filter.1 hu).2)]

theorem locDict {idx : List ℤ} (hidx : idx.Pairwise (· < ·)) (d : Dict K) : ∀ fs, mapE (fun p : String × Frame K => locRows p.2 idx) d = .ok fs →
    ∃ d2 : Dict K, d2.map (·.2) = fs ∧ IncDict d2 ∧ List.Forall₂ (fun p q : String × Frame K => p.1 = q.1 ∧ locRows p.2 idx = .ok q.2) d d2 := by
  induction d with
  | nil =>
    intro fs h
    simp only [mapE_nil, Except.ok.injEq] at h
    exact ⟨[], by simpa using h, by intro p hp; simp at hp, List.Forall₂.nil⟩
  | cons p d ih =>
    intro fs h
    obtain ⟨g, hg, r, hr, rfl⟩ := (mapE_cons_bind _ _ _ _).1 h
    obtain ⟨d2, e, hinc, hF⟩ := ih r hr
    refine ⟨(p.1, g) :: d2, by simp [e], ?_, List.Forall₂.cons ⟨rfl, hg⟩ hF⟩
    intro q hq
    rcases List.mem_cons.1 hq with rfl | hq
    · show g.index.Pairwise (· < ·)
      rw [(locRows_ok hg).2.1]
      exact hidx
    · exact hinc q hq

theorem forall₂_agree {t : ℤ} {idx idx' : List ℤ} (hi : idx.filter (fun u => decide (u ≤ t)) = idx'.filter fun u => decide (u ≤ t))
    {d d' : Dict K} (h : AgreeAll t d d') : ∀ {e e' : Dict K},
    List.Forall₂ (fun p q : String × Frame K => p.1 = q.1 ∧ locRows p.2 idx = .ok q.2) d e →
    List.Forall₂ (fun p q : String × Frame K => p.1 = q.1 ∧ locRows p.2 idx' = .ok q.2) d' e' → AgreeAll t e e' := by
  induction h with
  | nil =>
    intro e e' h1 h2
    cases h1; cases h2
    exact List.Forall₂.nil
  | @cons p q d d' hpq _ ih =>
    intro e e' h1 h2
    cases h1 with
    | cons a1 b1 =>
    cases h2 with
    | cons a2 b2 =>
    exact List.Forall₂.cons ⟨by rw [← a1.1, ← a2.1]; exact hpq.1, locRows_agree hpq.2 hi a1.2 a2.2⟩ (ih b1 b2)

theorem upTo_filter_index {t : ℤ} {y y' : Ser K} (h : upTo t y = upTo t y') :
    ((y.filter fun r => !r.2.isNan).map (·.1)).filter (fun u => decide (u ≤ t)) =
      ((y'.filter fun r => !r.2.isNan).map (·.1)).filter fun u => decide (u ≤ t) := by
  have key : ∀ y : Ser K, ((y.filter fun r => !r.2.isNan).map (·.1)).filter (fun u => decide (u ≤ t)) = ((upTo t y).filter fun r => !r.2.isNan).map (·.1) := by
    intro y
    unfold upTo
    rw [List.filter_map, List.filter_filter, List.filter_filter]
    congr 2
    funext r
    simp [Bool.and_comm]
  rw [key, key, h]

/-- Aligning features and labels keeps the agreement up to a time. -/
theorem alignXy_agree {t : ℤ} {d d' : Dict K} (hd : IncDict d) (hd' : IncDict d') (ha : AgreeAll t d d') {y y' : Ser K}
    (hy : (y.map (·.1)).Pairwise (· < ·)) (hy' : (y'.map (·.1)).Pairwise (· < ·)) (hyy : upTo t y = upTo t y') (dropNa : Bool) {o o' : Frame K × Ser K}
    (h : alignXy d y dropNa = .ok o) (h' : alignXy d' y' dropNa = .ok o') :
    Agree t o.1 o'.1 ∧ upTo t o.2 = upTo t o'.2 ∧ Increasing o.1 ∧ Increasing o'.1 := by
  unfold alignXy at h h'
  cases dropNa with
  | false =>
    simp only [Bool.false_eq_true, if_false, Py.bind_eq_ok, Except.ok.injEq] at h h'
    obtain ⟨X, hX, rfl⟩ := h
    obtain ⟨X', hX', rfl⟩ := h'
    obtain ⟨a, b, c⟩ := concat_agree hd hd' ha hX hX'
    exact ⟨a, hyy, b, c⟩
  | true =>
    simp only [if_true, Py.bind_eq_ok, Except.ok.injEq] at h h'
    obtain ⟨fs, hfs, X, hX, ya, hya, -, -, rfl⟩ := h
    obtain ⟨fs', hfs', X', hX', ya', hya', -, -, rfl⟩ := h'
    have inc : ∀ y : Ser K, (y.map (·.1)).Pairwise (· < ·) → ((y.filter fun r => !r.2.isNan).map (·.1)).Pairwise (· < ·) :=
      fun y h => h.sublist (List.filter_sublist.map _)
    obtain ⟨e, rfl, hinc, hF⟩ := locDict (inc y hy) d fs hfs
    obtain ⟨e', rfl, hinc', hF'⟩ := locDict (inc y' hy') d' fs' hfs'
    have hag := forall₂_agree (upTo_filter_index hyy) ha hF hF'
    obtain ⟨a, b, c⟩ := concat_agree hinc hinc' hag hX hX'
    refine ⟨dropna_agree a, ?_, dropna_inc b, dropna_inc c⟩
    exact locSer_agree hyy (agree_index_filter (dropna_agree a)) hya hya'

/-- **C118** The rows of the training set of the primary model up to a time, features and labels, do not depend on data and labels after
this time. -/
theorem C118_primary (c : Cfg K) (hp : CausalTrs c.trPrimary) (hm : CausalTrs c.trMeta) (t : ℤ) (X X' : Dict K) (hX : IncDict X)
    (hX' : IncDict X') (h : AgreeAll t X X') (y y' : Ser K) (hy : (y.map (·.1)).Pairwise (· < ·)) (hy' : (y'.map (·.1)).Pairwise (· < ·))
    (hyy : upTo t y = upTo t y') (dropNa : Bool) (o o' : Frame K × Ser K) (ho : datasetPrimary c X y dropNa = .ok o)
    (ho' : datasetPrimary c X' y' dropNa = .ok o') : Agree t o.1 o'.1 ∧ upTo t o.2 = upTo t o'.2 := by
  unfold datasetPrimary at ho ho'
  split at ho
  · simp at ho
  split at ho'
  · simp at ho'
  simp only [Py.bind_eq_ok] at ho ho'
  obtain ⟨F, hF, ho⟩ := ho
  obtain ⟨F', hF', ho'⟩ := ho'
  obtain ⟨a1, -, i1, -, i3, -⟩ := features_agree hX hX' h hp hm hF hF'
  obtain ⟨a, b, -⟩ := alignXy_agree i1 i3 a1 hy hy' hyy dropNa ho ho'
  exact ⟨a, b⟩

theorem alignXy_index {d : Dict K} {y : Ser K} {o : Frame K × Ser K} (h : alignXy d y true = .ok o) : o.2.map (·.1) = o.1.index := by
  unfold alignXy at h
  simp only [if_true, Py.bind_eq_ok, Except.ok.injEq] at h
  obtain ⟨fs, hfs, X, hX, ya, hya, -, -, rfl⟩ := h
  exact (locSer_upTo hya 0).1

/-- The metalabels: whether prediction and label agree. -/
theorem zipWith_upTo {t : ℤ} (G : XF K → XF K → XF K) : ∀ (i : List ℤ) (s y : Ser K), s.map (·.1) = i → y.map (·.1) = i →
    upTo t (List.zipWith (fun p l => (l.1, G p.2 l.2)) s y) = List.zipWith (fun p l => (l.1, G p.2 l.2)) (upTo t s) (upTo t y) := by
  intro i
  induction i with
  | nil =>
    intro s y hs hy
    rw [List.map_eq_nil_iff] at hs hy
    subst hs hy; rfl
  | cons u i ih =>
    intro s y hs hy
    cases s with
    | nil => simp at hs
    | cons a s =>
    cases y with
    | nil => simp at hy
    | cons b y =>
    simp only [List.map_cons, List.cons.injEq] at hs hy
    have := ih s y hs.2 hy.2
    unfold upTo at *
    rw [List.zipWith_cons_cons]
    by_cases hu : u ≤ t
    · rw [List.filter_cons_of_pos (by simp [hy.1, hu]), List.filter_cons_of_pos (by simp [hs.1, hu]), List.filter_cons_of_pos (by simp [hy.1, hu]), this,
        List.zipWith_cons_cons]
    · rw [List.filter_cons_of_neg (by simp [hy.1, hu]), List.filter_cons_of_neg (by simp [hs.1, hu]), List.filter_cons_of_neg (by simp [hy.1, hu]), this]

theorem upTo_mem_index {t : ℤ} {α : Type} {y y' : List (ℤ × α)} (h : upTo t y = upTo t y') {u : ℤ} (hu : u ≤ t) : u ∈ y.map (·.1) ↔ u ∈ y'.map (·.1) := by
  have key : ∀ y : List (ℤ × α), u ∈ y.map (·.1) ↔ u ∈ (upTo t y).map (·.1) := by
    intro y
    unfold upTo
    simp only [List.mem_map, List.mem_filter, decide_eq_true_eq]
    constructor
    · rintro ⟨a, ha, rfl⟩; exact ⟨a, ⟨ha, hu⟩, rfl⟩
    · rintro ⟨a, ⟨ha, -⟩, rfl⟩; exact ⟨a, ha, rfl⟩
  rw [key y, key y', h]

/-- **C118** The same for the training set of the metalabeling model, made with a primary model that does not look ahead. -/
theorem C118_metalabeling (c : Cfg K) (hp : CausalTrs c.trPrimary) (hm : CausalTrs c.trMeta) (h1 : CausalModel c.primary.predict)
    (h2 : CausalModel c.primary.proba) (t : ℤ) (X X' : Dict K) (hX : IncDict X) (hX' : IncDict X') (h : AgreeAll t X X') (y y' : Ser K)
    (hy : (y.map (·.1)).Pairwise (· < ·)) (hy' : (y'.map (·.1)).Pairwise (· < ·)) (hyy : upTo t y = upTo t y') (o o' : Frame K × Ser K)
    (ho : datasetMeta c X y = .ok o) (ho' : datasetMeta c X' y' = .ok o') : Agree t o.1 o'.1 ∧ upTo t o.2 = upTo t o'.2 := by
  unfold datasetMeta at ho ho'
  split at ho
  · simp at ho
  split at ho'
  · simp at ho'
  simp only [Py.bind_eq_ok, Except.ok.injEq] at ho ho'
  obtain ⟨F, hF, Xy, hXy, Xm, hXm, v, hv, s, hs, Xo, hXo, yo, hyo, rfl⟩ := ho
  obtain ⟨F', hF', Xy', hXy', Xm', hXm', v', hv', s', hs', Xo', hXo', yo', hyo', rfl⟩ := ho'
  obtain ⟨a1, a2, i1, i2, i3, i4⟩ := features_agree hX hX' h hp hm hF hF'
  obtain ⟨b1, b2, b3, b4⟩ := alignXy_agree i1 i3 a1 hy hy' hyy true hXy hXy'
  obtain ⟨d1, d2, d3⟩ := metaFeatures_agree h1 h2 i2 i4 a2 b1 b3 b4 hXm hXm'
  have e1 := alignXy_index hXy
  have e2 := alignXy_index hXy'
  have hs0 := (mkSeries_ok hs).2.2
  have hs0' := (mkSeries_ok hs').2.2
  rw [e1] at hs
  rw [e2] at hs'
  have hss : upTo t s = upTo t s' := series_agree h1 b3 b4 b1 hv hv' hs hs'
  have hym : upTo t (List.zipWith (fun (p l : ℤ × XF K) => (l.1, if XF.beq p.2 l.2 then (XF.fin 1 : XF K) else XF.fin 0)) s Xy.2) =
      upTo t (List.zipWith (fun (p l : ℤ × XF K) => (l.1, if XF.beq p.2 l.2 then (XF.fin 1 : XF K) else XF.fin 0)) s' Xy'.2) := by
    rw [zipWith_upTo (fun a b => if XF.beq a b then (XF.fin 1 : XF K) else XF.fin 0) _ _ _ hs0 rfl,
      zipWith_upTo (fun a b => if XF.beq a b then (XF.fin 1 : XF K) else XF.fin 0) _ _ _ hs0' rfl, hss, b2]
  generalize List.zipWith (fun (p l : ℤ × XF K) => (l.1, if XF.beq p.2 l.2 then (XF.fin 1 : XF K) else XF.fin 0)) s Xy.2 = ym at *
  generalize List.zipWith (fun (p l : ℤ × XF K) => (l.1, if XF.beq p.2 l.2 then (XF.fin 1 : XF K) else XF.fin 0)) s' Xy'.2 = ym' at *
  have hidx : (Xm.index.filter fun u => decide (u ∈ ym.map (·.1))).filter (fun u => decide (u ≤ t)) =
      (Xm'.index.filter fun u => decide (u ∈ ym'.map (·.1))).filter fun u => decide (u ≤ t) := by
    have key : ∀ (l : List ℤ) (ym : Ser K), (l.filter fun u => decide (u ∈ ym.map (·.1))).filter (fun u => decide (u ≤ t)) =
        (l.filter fun u => decide (u ≤ t)).filter fun u => decide (u ∈ ym.map (·.1)) := by
      intro l ym
      rw [List.filter_filter, List.filter_filter]
      congr 1
      funext u
      rw [Bool.and_comm]
    rw [key, key, agree_index_filter d1]
    apply List.filter_congr
    intro u hu
    have hut : u ≤ t := by simpa using (List.mem_filter.1 hu).2
    rw [decide_eq_decide]
    exact upTo_mem_index hym hut
  exact ⟨locRows_agree d1 hidx hXo hXo', locSer_agree hym hidx hyo hyo'⟩

theorem serAt_eq_nan_or {y : Ser K} {u : ℤ} (h : (serAt y u).isNan = false) : (u, serAt y u) ∈ y := by
  unfold serAt at h ⊢
  cases hf : y.find? fun r => decide (r.1 = u) with
  | none => rw [hf] at h; simp [XF.isNan] at h
  | some r =>
    have h1 := List.mem_of_find?_eq_some hf
    have h2 := List.find?_some hf
    simp only [decide_eq_true_eq] at h2
    subst h2
    exact h1

theorem agree_mono {t u : ℤ} (hu : u ≤ t) {f f' : Frame K} (h : Agree t f f') : Agree u f f' := by
  refine ⟨h.1, ?_⟩
  have key : ∀ l : List (ℤ × List (XF K)), l.filter (fun r => decide (r.1 ≤ u)) = (l.filter fun r => decide (r.1 ≤ t)).filter fun r => decide (r.1 ≤ u) := by
    intro l
    rw [List.filter_filter]
    apply List.filter_congr
    intro r _
    by_cases hr : r.1 ≤ u
    · simp [hr, le_trans hr hu]
    · simp [hr]
  rw [key, key f'.rows, h.2]

theorem agreeAll_mono {t u : ℤ} (hu : u ≤ t) {d d' : Dict K} (h : AgreeAll t d d') : AgreeAll u d d' :=
  h.imp fun _ _ hpq => ⟨hpq.1, agree_mono hu hpq.2⟩

/-- What the training set of the primary model holds at a time, given the features. -/
theorem dataset_at {c : Cfg K} {X : Dict K} {y : Ser K} {o : Frame K × Ser K} (ho : datasetPrimary c X y true = .ok o) (hy : (y.map (·.1)).Nodup) (u : ℤ) :
    ∃ F, features c X = .ok F ∧
      let r := F.primary.flatMap fun p => (p.2.row? u).getD []
      (o.1.row? u = if (serAt y u).isNan = false ∧ (r.all fun x => !x.isNan) = true then some r else none) ∧
      (serAt o.2 u = if (serAt y u).isNan = false ∧ (r.all fun x => !x.isNan) = true then serAt y u else .nan) := by
  obtain ⟨Xo, yo⟩ := o
  obtain ⟨F, hF, hi, -, -, hyo, hrow, hidx⟩ := C49_dataset_primary c X y Xo yo ho
  refine ⟨F, hF, ?_⟩
  dsimp only
  have hmem : u ∈ Xo.index ↔ (serAt y u).isNan = false ∧ ((F.primary.flatMap fun p => (p.2.row? u).getD []).all fun x => !x.isNan) = true := by
    rw [hidx, List.mem_filter, List.mem_map]
    apply and_congr_left
    intro _
    constructor
    · rintro ⟨r, hr, rfl⟩
      obtain ⟨h1, h2⟩ := List.mem_filter.1 hr
      rw [serAt_of_mem y hy r.1 r.2 h1]
      simpa using h2
    · intro h
      exact ⟨_, List.mem_filter.2 ⟨serAt_eq_nan_or h, by simp [h]⟩, rfl⟩
  by_cases hu : u ∈ Xo.index
  · rw [if_pos (hmem.1 hu), if_pos (hmem.1 hu)]
    constructor
    · unfold Frame.row?
      unfold Frame.index at hu
      cases hf : Xo.rows.find? fun r => decide (r.1 = u) with
      | none =>
        exfalso
        obtain ⟨r, hr, hru⟩ := List.mem_map.1 hu
        have := List.find?_eq_none.1 hf r hr
        simp [hru] at this
      | some r =>
        have h1 := List.mem_of_find?_eq_some hf
        have h2 := List.find?_some hf
        simp only [decide_eq_true_eq] at h2
        subst h2
        rw [Option.map_some, hrow r h1]
        rfl
    · rw [hi] at hu
      obtain ⟨r, hr, rfl⟩ := List.mem_map.1 hu
      have hnd : (yo.map (·.1)).Nodup := by
        rw [← hi, hidx]
        exact (hy.sublist (List.filter_sublist.map _)).sublist List.filter_sublist
      rw [serAt_of_mem y hy r.1 r.2 (hyo r hr).1]
      exact serAt_of_mem yo hnd r.1 r.2 hr
  · rw [if_neg fun h => hu (hmem.2 h), if_neg fun h => hu (hmem.2 h)]
    constructor
    · unfold Frame.row?
      rw [List.find?_eq_none.2, Option.map_none]
      intro r hr
      simp only [decide_eq_true_eq]
      rintro rfl
      exact hu (List.mem_map.2 ⟨r, hr, rfl⟩)
    · unfold serAt
      rw [List.find?_eq_none.2, Option.map_none, Option.getD_none]
      intro r hr
      simp only [decide_eq_true_eq]
      rintro rfl
      rw [hi] at hu
      exact hu (List.mem_map.2 ⟨r, hr, rfl⟩)

theorem zip_fst_sublist {α β : Type} (a : List α) (b : List β) : List.Sublist ((a.zip b).map (·.1)) a := by
  induction a generalizing b with
  | nil => simp
  | cons x a ih =>
    cases b with
    | nil => simp
    | cons y b =>
      rw [List.zip_cons_cons, List.map_cons]
      exact (ih b).cons_cons x

/-- **C118** One row: whether the training set of the primary model has a row at a time, its features and its label depend on the data up
to this time and the label at this time only. -/
theorem C118_row (c : Cfg K) (hp : CausalTrs c.trPrimary) (hm : CausalTrs c.trMeta) (u : ℤ) (X X' : Dict K) (hX : IncDict X)
    (hX' : IncDict X') (h : AgreeAll u X X') (y y' : Ser K) (hy : (y.map (·.1)).Nodup) (hy' : (y'.map (·.1)).Nodup)
    (hyy : serAt y u = serAt y' u) (o o' : Frame K × Ser K) (ho : datasetPrimary c X y true = .ok o)
    (ho' : datasetPrimary c X' y' true = .ok o') : o.1.row? u = o'.1.row? u ∧ serAt o.2 u = serAt o'.2 u := by
  obtain ⟨F, hF, h1, h2⟩ := dataset_at ho hy u
  obtain ⟨F', hF', h1', h2'⟩ := dataset_at ho' hy' u
  obtain ⟨a1, -, -, -, -, -⟩ := features_agree hX hX' h hp hm hF hF'
  have hr : (F.primary.flatMap fun p => (p.2.row? u).getD []) = F'.primary.flatMap fun p => (p.2.row? u).getD [] := by
    clear h1 h2 h1' h2' hF hF'
    generalize F.primary = d at a1 ⊢
    generalize F'.primary = d' at a1 ⊢
    induction a1 with
    | nil => rfl
    | cons hpq _ ih => simp only [List.flatMap_cons, ih, agree_row hpq.2 le_rfl]
  rw [h1, h2, h1', h2', hr, hyy]
  exact ⟨rfl, rfl⟩

end

section
variable {K : Type} [Field K] [LinearOrder K] [IsStrictOrderedRing K]
open Mizar.Lab in
/-- **C118** End to end: a training sample of the cross validation before a test sample, with labels of the triple-barrier method, has the
same features and the same label when the prices and the data of the pipeline change from the bar of the test sample on. -/
theorem C118_purged_training_set {dv : List ℤ → List (XF K) → List (XF K)} (hdv : CausalVol dv) {c : Lab.Cfg K} {f f' : Lab.Frame K} {times : List ℤ}
    {close close' side side' vol vol' : List (Option K)} {n : ℕ} (h : LabelInput dv c f times close side vol n)
    (h' : LabelInput dv c f' times close' side' vol' n) (hn : 1 ≤ n) (hvol : ∀ v, some v ∈ vol → 0 ≤ v)
    (rows rows' : List (Row K)) (hr : Lab.transform dv c f = .ok rows) (hr' : Lab.transform dv c f' = .ok rows')
    (g k : ℕ) (hg : 1 ≤ g) (emb : ℤ) (rounds : List (List ℕ × List ℕ))
    (hs : CV.split (labelledEvents times rows).length g k (fun i => ((labelledEvents times rows).getD i (0, 0)).1)
      (fun i => ((labelledEvents times rows).getD i (0, 0)).2) emb = .ok rounds)
    (r : List ℕ × List ℕ) (hrd : r ∈ rounds) (i t : ℕ) (hi : i ∈ r.1) (ht : t ∈ r.2) (hit : i < t)
    (m : ℕ) (hm : times[m]? = some ((labelledEvents times rows).getD t (0, 0)).1)
    (hc : close.take m = close'.take m) (hside : side.take m = side'.take m)
    (pc : Pipe.Cfg K) (hp : CausalTrs pc.trPrimary) (hpm : CausalTrs pc.trMeta) (X X' : Dict K) (hX : IncDict X) (hX' : IncDict X')
    (hXX : AgreeAll (((labelledEvents times rows).getD t (0, 0)).1 - 1) X X') (o o' : Mizar.Frame K × Ser K)
    (ho : datasetPrimary pc X (times.zip (rows.map Row.label)) true = .ok o)
    (ho' : datasetPrimary pc X' (times.zip (rows'.map Row.label)) true = .ok o') :
    o.1.row? ((labelledEvents times rows).getD i (0, 0)).1 = o'.1.row? ((labelledEvents times rows).getD i (0, 0)).1 ∧
      serAt o.2 ((labelledEvents times rows).getD i (0, 0)).1 = serAt o'.2 ((labelledEvents times rows).getD i (0, 0)).1 := by
  obtain ⟨rows0, e0, hpw, hev⟩ := C88_events_partial h hn hvol
  rw [hr] at e0
  simp only [Except.ok.injEq] at e0
  subst e0
  have hil : i < (labelledEvents times rows).length := (C04_train_test_disjoint _ g k _ _ emb hg rounds hs r hrd).2.2.1 i hi
  have htl : t < (labelledEvents times rows).length := (C04_train_test_disjoint _ g k _ _ emb hg rounds hs r hrd).2.1 t ht
  have hmem : (labelledEvents times rows).getD i (0, 0) ∈ labelledEvents times rows := by
    rw [List.getD_eq_getElem?_getD, List.getElem?_eq_getElem hil]
    exact List.getElem_mem hil
  obtain ⟨p, row0, hp0, -, -⟩ := mem_labelledEvents hmem
  obtain ⟨rows1, row, e1, hrow, hrow'⟩ := C116_training_labels hdv h h' hn hvol rows hr g k hg emb rounds hs r hrd i t hi ht hit m hm hc hside p hp0
  rw [hr'] at e1
  simp only [Except.ok.injEq] at e1
  subst e1
  have nodup : times.Nodup := h.sorted.imp fun h => ne_of_lt h
  have hlt : ((labelledEvents times rows).getD i (0, 0)).1 < ((labelledEvents times rows).getD t (0, 0)).1 := by
    have := List.pairwise_iff_getElem.1 hpw i t (by simpa using hil) (by simpa using htl) hit
    rw [List.getD_eq_getElem?_getD, List.getElem?_eq_getElem hil, List.getD_eq_getElem?_getD, List.getElem?_eq_getElem htl]
    simpa using this
  have sub : ∀ l : List (XF K), ((times.zip l).map (·.1)).Nodup := by
    intro l
    exact nodup.sublist (zip_fst_sublist times l)
  have hser : ∀ l : List (Row K), l[p]? = some row → serAt (times.zip (l.map Row.label)) ((labelledEvents times rows).getD i (0, 0)).1 = row.label := by
    intro l hl
    apply serAt_of_mem _ (sub _)
    apply List.mem_iff_getElem?.2 ⟨p, ?_⟩
    rw [List.getElem?_zip_eq_some]
    exact ⟨hp0, by rw [List.getElem?_map, hl]; rfl⟩
  refine C118_row pc hp hpm _ X X' hX hX' (agreeAll_mono (by omega) hXX) _ _ (sub _) (sub _) ?_ o o' ho ho'
  rw [hser rows hrow, hser rows' hrow']

end

section Examples

/-- Bars for both models; every model treats every row for itself. -/
private def tsCfg : Pipe.Cfg ℚ where
  alignOn := "bars"
  alignHow := []
  trPrimary := [("bars", none)]
  trMeta := [("bars", none)]
  primary := ⟨true, [-1, 1], fun f => mapE (fun r => .ok (XF.sign (r.2.getLastD .nan))) f.rows,
    fun f => mapE (fun r => .ok [r.2.getLastD .nan, .fin (1/2)]) f.rows⟩
  metaModel := none
  useProba := true
  usePredictions := false
  betSizer := none

private def tsData (a b : XF ℚ) : Dict ℚ := [("bars", ⟨["x"], [(1000000, [.fin 1]), (2000000, [.fin (-2)]), (3000000, [.nan]), (4000000, [a]), (5000000, [b])]⟩)]

private def tsLabels (a b : XF ℚ) : Ser ℚ := [(1000000, .fin 1), (2000000, .fin 1), (3000000, .fin (-1)), (4000000, a), (5000000, b)]

private theorem tsInc (a b : XF ℚ) : IncDict (tsData a b) := by
  intro p hp
  simp only [tsData, List.mem_singleton] at hp
  subst hp
  unfold Increasing Frame.index
  simp

private theorem tsAgree (a b a' b' : XF ℚ) : AgreeAll 3000000 (tsData a b) (tsData a' b') :=
  List.Forall₂.cons ⟨rfl, rfl, by simp⟩ List.Forall₂.nil

private theorem tsTr : CausalTrs tsCfg.trPrimary ∧ CausalTrs tsCfg.trMeta := by
  constructor <;>
  · intro p hp tr htr
    simp only [tsCfg, List.mem_singleton] at hp
    subst hp; simp at htr

example : datasetPrimary tsCfg (tsData (.fin 5) .nan) (tsLabels (.fin 0) .nan) true =
    .ok (⟨["x"], [(1000000, [.fin 1]), (2000000, [.fin (-2)]), (4000000, [.fin 5])]⟩, [(1000000, .fin 1), (2000000, .fin 1), (4000000, .fin 0)]) := by
  decide +kernel

example : (datasetMeta tsCfg (tsData (.fin 5) .nan) (tsLabels (.fin 0) .nan)).map (·.2) =
    .ok [(1000000, .fin 1), (2000000, .fin 0), (4000000, .fin 0)] := by
  decide +kernel

example : (datasetMeta tsCfg (tsData .nan (.fin 3)) (tsLabels (.fin 0) (.fin 1))).map (·.2) =
    .ok [(1000000, .fin 1), (2000000, .fin 0), (5000000, .fin 1)] := by
  decide +kernel

example (o o' : Mizar.Frame ℚ × Ser ℚ) (ho : datasetPrimary tsCfg (tsData (.fin 5) .nan) (tsLabels (.fin 0) .nan) true = .ok o)
    (ho' : datasetPrimary tsCfg (tsData .nan (.fin 3)) (tsLabels (.fin 0) (.fin 1)) true = .ok o') :
    Agree 3000000 o.1 o'.1 ∧ upTo 3000000 o.2 = upTo 3000000 o'.2 :=
  C118_primary tsCfg tsTr.1 tsTr.2 _ _ _ (tsInc _ _) (tsInc _ _) (tsAgree _ _ _ _) _ _ (by simp [tsLabels]) (by simp [tsLabels]) (by decide +kernel) true _ _ ho ho'

example (o o' : Mizar.Frame ℚ × Ser ℚ) (ho : datasetMeta tsCfg (tsData (.fin 5) .nan) (tsLabels (.fin 0) .nan) = .ok o)
    (ho' : datasetMeta tsCfg (tsData .nan (.fin 3)) (tsLabels (.fin 0) (.fin 1)) = .ok o') :
    Agree 3000000 o.1 o'.1 ∧ upTo 3000000 o.2 = upTo 3000000 o'.2 :=
  C118_metalabeling tsCfg tsTr.1 tsTr.2 (C115_row_wise fun _ r => .ok (XF.sign (r.getLastD .nan))) (C115_row_wise fun _ r => .ok [r.getLastD .nan, .fin (1/2)])
    _ _ _ (tsInc _ _) (tsInc _ _) (tsAgree _ _ _ _) _ _ (by simp [tsLabels]) (by simp [tsLabels]) (by decide +kernel) _ _ ho ho'

private def tsSix (a b c : XF ℚ) : Dict ℚ :=
  [("bars", ⟨["x"], [(1000000, [.fin 1]), (2000000, [.fin (-2)]), (3000000, [.fin 7]), (4000000, [a]), (5000000, [b]), (6000000, [c])]⟩)]

private def tsTimes : List ℤ := [1000000, 2000000, 3000000, 4000000, 5000000, 6000000]

/-- Both runs give training sets. -/
example : ((Lab.transform kaeVol kaeCvCfg (kaeCv 8 3)).toOption.bind fun rows =>
      (datasetPrimary tsCfg (tsSix (.fin 3) (.fin 4) .nan) (tsTimes.zip (rows.map Lab.Row.label)) true).toOption).map (·.2) =
      some [(2000000, .fin (-1)), (3000000, .fin 1), (4000000, .fin (-1))] ∧
    ((Lab.transform kaeVol kaeCvCfg (kaeCv 90 1)).toOption.bind fun rows =>
      (datasetPrimary tsCfg (tsSix (.fin 0) .nan (.fin 9)) (tsTimes.zip (rows.map Lab.Row.label)) true).toOption).map (·.2) =
      some [(2000000, .fin (-1)), (3000000, .fin 1), (4000000, .fin 1)] := by
  decide +kernel

/-- The training sample of the second bar when the fourth bar is tested and prices and features change from the fourth bar on. -/
example (rows rows' : List (Lab.Row ℚ)) (hr : Lab.transform kaeVol kaeCvCfg (kaeCv 8 3) = .ok rows) (hr' : Lab.transform kaeVol kaeCvCfg (kaeCv 90 1) = .ok rows')
    (hev : labelledEvents tsTimes rows = [(2000000, 3000000), (3000000, 4000000), (4000000, 5000000)]) (o o' : Mizar.Frame ℚ × Ser ℚ)
    (ho : datasetPrimary tsCfg (tsSix (.fin 3) (.fin 4) .nan) (tsTimes.zip (rows.map Lab.Row.label)) true = .ok o)
    (ho' : datasetPrimary tsCfg (tsSix (.fin 0) .nan (.fin 9)) (tsTimes.zip (rows'.map Lab.Row.label)) true = .ok o') :
    o.1.row? 2000000 = o'.1.row? 2000000 ∧ serAt o.2 2000000 = serAt o'.2 2000000 := by
  have := C118_purged_training_set kaeVol_causal (kaeCv_input 8 3 (by norm_num) (by norm_num)) (kaeCv_input 90 1 (by norm_num) (by norm_num)) (by norm_num)
    (by simp) rows rows' hr hr' 3 1 (by norm_num) 0 [([0], [2]), ([2], [1]), ([2], [0])] (by
      show CV.split (labelledEvents tsTimes rows).length 3 1 (fun i => ((labelledEvents tsTimes rows).getD i (0, 0)).1)
        (fun i => ((labelledEvents tsTimes rows).getD i (0, 0)).2) 0 = _
      rw [hev]
      decide +kernel) ([0], [2]) (by simp) 0 2 (by simp) (by simp) (by norm_num) 3 (by
      show tsTimes[3]? = some ((labelledEvents tsTimes rows).getD 2 (0, 0)).1
      rw [hev]; rfl) rfl rfl tsCfg tsTr.1 tsTr.2 (tsSix (.fin 3) (.fin 4) .nan) (tsSix (.fin 0) .nan (.fin 9)) (by
        intro p hp
        simp only [tsSix, List.mem_singleton] at hp
        subst hp
        unfold Increasing Frame.index
        simp) (by
        intro p hp
        simp only [tsSix, List.mem_singleton] at hp
        subst hp
        unfold Increasing Frame.index
        simp) (by
        show AgreeAll (((labelledEvents tsTimes rows).getD 2 (0, 0)).1 - 1) _ _
        rw [hev]
        exact List.Forall₂.cons ⟨rfl, rfl, by simp⟩ List.Forall₂.nil) o o' ho ho'
  change o.1.row? ((labelledEvents tsTimes rows).getD 0 (0, 0)).1 = _ ∧ serAt o.2 ((labelledEvents tsTimes rows).getD 0 (0, 0)).1 =
    serAt o'.2 ((labelledEvents tsTimes rows).getD 0 (0, 0)).1 at this
  rw [show [1000000, 2000000, 3000000, 4000000, 5000000, 6000000] = tsTimes from rfl] at this
  rw [hev] at this
  exact this

end Examples

end Mizar.Props
