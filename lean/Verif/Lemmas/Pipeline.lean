import Mathlib.Data.List.Nodup
import Verif.Lemmas.Align
import Verif.Spec.Pipeline

/-! Lemmas about the signal pipeline. -/

set_option linter.unusedSectionVars false

namespace Mizar.Pipe
open Mizar.Spec
variable {K : Type} [Field K] [LinearOrder K]

theorem serAt_of_mem (s : Ser K) (h : (s.map (·.1)).Nodup) (t : ℤ) (v : XF K) (hm : (t, v) ∈ s) : serAt s t = v := by
  induction s with
  | nil => simp at hm
  | cons r s ih =>
    simp only [List.map_cons, List.nodup_cons] at h
    unfold serAt
    by_cases hr : r.1 = t
    · rw [List.find?_cons_of_pos (by simpa using hr)]
      rcases List.mem_cons.1 hm with rfl | hm
      · rfl
      · exact absurd (List.mem_map.2 ⟨_, hm, rfl⟩) (by rw [← hr] at *; exact h.1)
    · rw [List.find?_cons_of_neg (by simpa using hr)]
      rcases List.mem_cons.1 hm with rfl | hm
      · exact absurd rfl hr
      · exact ih h.2 hm

theorem serAt_not_mem (s : Ser K) (t : ℤ) (h : t ∉ s.map (·.1)) : serAt s t = .nan := by
  unfold serAt
  rw [List.find?_eq_none.2]
  · rfl
  · intro r hr hc
    exact h (List.mem_map.2 ⟨r, hr, by simpa using hc⟩)

theorem mem_joinIndex (is : List (List ℤ)) (t : ℤ) (hne : is ≠ []) : t ∈ joinIndex is ↔ ∃ i ∈ is, t ∈ i := by
  unfold joinIndex
  split
  · rename_i hall
    obtain ⟨a, is, rfl⟩ := List.exists_cons_of_ne_nil hne
    simp only [List.headD_cons]
    constructor
    · intro h; exact ⟨a, by simp, h⟩
    · rintro ⟨i, hi, h⟩
      have := List.all_eq_true.1 hall i hi
      simp only [List.headD_cons, decide_eq_true_eq] at this
      have := of_decide_eq_true this
      rw [← this]; exact h
  · rw [mem_npUnique, List.mem_flatten]

theorem nodup_joinIndex (is : List (List ℤ)) (h : ∀ i ∈ is, i.Nodup) : (joinIndex is).Nodup := by
  unfold joinIndex
  split
  · cases is with
    | nil => simp
    | cons a is => exact h a (by simp)
  · exact nodup_npUnique _

theorem joinIndex_same (is : List (List ℤ)) (i : List ℤ) (hne : is ≠ []) (h : ∀ j ∈ is, j = i) : joinIndex is = i := by
  obtain ⟨a, is, rfl⟩ := List.exists_cons_of_ne_nil hne
  have ha := h a (by simp)
  subst ha
  unfold joinIndex
  rw [if_pos]
  · rfl
  · rw [List.all_eq_true]
    intro j hj
    simpa using h j hj

theorem mem_sideSize (side size : Ser K) (h1 : (side.map (·.1)).Nodup) (h2 : (size.map (·.1)).Nodup) (t : ℤ) (s z : XF K) :
    (t, s, z) ∈ sideSize side size ↔ (t, s) ∈ side ∧ (t, z) ∈ size ∧ s.isNan = false ∧ z.isNan = false := by
  unfold sideSize
  rw [List.mem_filter, List.mem_map]
  have mem_of : ∀ (u : Ser K) (t : ℤ), (serAt u t).isNan = false → (t, serAt u t) ∈ u := by
    intro u t hu
    unfold serAt at hu ⊢
    cases hf : u.find? fun r => decide (r.1 = t) with
    | none => rw [hf] at hu; simp [XF.isNan] at hu
    | some r =>
      have h1 := List.mem_of_find?_eq_some hf
      have h2 := List.find?_some hf
      simp only [decide_eq_true_eq] at h2
      subst h2
      exact h1
  constructor
  · rintro ⟨⟨t', -, he⟩, hn⟩
    simp only [Prod.mk.injEq] at he
    obtain ⟨rfl, rfl, rfl⟩ := he
    simp only [Bool.and_eq_true, Bool.not_eq_true'] at hn
    exact ⟨mem_of side t' hn.1, mem_of size t' hn.2, hn.1, hn.2⟩
  · rintro ⟨a, b, hs, hz⟩
    refine ⟨⟨t, ?_, ?_⟩, ?_⟩
    · rw [mem_joinIndex _ _ (by simp)]
      exact ⟨_, List.mem_cons_self .., List.mem_map.2 ⟨_, a, rfl⟩⟩
    · rw [serAt_of_mem side h1 t s a, serAt_of_mem size h2 t z b]
    · simp [hs, hz]

theorem nodup_sideSize (side size : Ser K) (h1 : (side.map (·.1)).Nodup) (h2 : (size.map (·.1)).Nodup) :
    ((sideSize side size).map (·.1)).Nodup := by
  unfold sideSize
  have : ((joinIndex [side.map (·.1), size.map (·.1)]).map fun t => (t, serAt side t, serAt size t)).map (·.1) =
      joinIndex [side.map (·.1), size.map (·.1)] := by
    rw [List.map_map]; exact List.map_id' _
  apply List.Nodup.sublist ((List.filter_sublist (p := fun r : ℤ × XF K × XF K => !r.2.1.isNan && !r.2.2.isNan)).map _)
  rw [this]
  apply nodup_joinIndex
  intro i hi
  simp only [List.mem_cons, List.not_mem_nil, or_false] at hi
  rcases hi with rfl | rfl
  · exact h1
  · exact h2

theorem mkSeries_ok {idx : List ℤ} {v : List (XF K)} {s : Ser K} (h : mkSeries idx v = .ok s) :
    s = idx.zip v ∧ v.length = idx.length ∧ s.map (·.1) = idx := by
  unfold mkSeries at h
  split at h
  · rename_i hl
    simp only [Except.ok.injEq] at h
    subst h
    exact ⟨rfl, hl, List.map_fst_zip (by omega)⟩
  · simp at h

theorem mkRows_ok {idx : List ℤ} {n : ℕ} {v : List (List (XF K))} {s : List (ℤ × List (XF K))} (h : mkRows idx n v = .ok s) :
    s = idx.zip v ∧ s.map (·.1) = idx ∧ ∀ r ∈ s, r.2.length = n := by
  unfold mkRows at h
  split at h
  · rename_i hl
    simp only [Except.ok.injEq] at h
    subst h
    refine ⟨rfl, List.map_fst_zip (by omega), ?_⟩
    rintro ⟨t, r⟩ hr
    exact hl.2 r (List.of_mem_zip hr).2
  · simp at h

theorem concatOuter_ok {fs : List (Frame K)} {f : Frame K} (h : concatOuter fs = .ok f) :
    fs ≠ [] ∧ f = ⟨fs.flatMap (·.cols), (joinIndex (fs.map (·.index))).map fun t =>
    (t, fs.flatMap fun f => (f.row? t).getD (nanRow f.cols.length))⟩ := by
  unfold concatOuter at h
  split at h
  · simp at h
  · rename_i hne
    simp only [Except.ok.injEq] at h
    exact ⟨hne, h.symm⟩

theorem concatOuter_index {fs : List (Frame K)} {f : Frame K} (h : concatOuter fs = .ok f) :
    f.index = joinIndex (fs.map (·.index)) := by
  rw [(concatOuter_ok h).2]
  unfold Frame.index
  rw [List.map_map]
  exact List.map_id' _

theorem dropna_index_nodup {f : Frame K} (h : f.index.Nodup) : f.dropna.index.Nodup := by
  unfold Frame.index Frame.dropna at *
  exact h.sublist ((List.filter_sublist ..).map _)

/-- Every frame of the dictionary has a unique index. -/
def UniqueDict (d : Dict K) : Prop := ∀ p ∈ d, p.2.index.Nodup

/-- Transformers keep indices unique. -/
def UniqueTr (t : List (String × Tr K)) : Prop :=
  ∀ p ∈ t, ∀ tr, p.2 = some tr → ∀ f g : Frame K, f.index.Nodup → tr f = .ok g → g.index.Nodup

theorem lookup_mem {β : Type} {d : List (String × β)} {k : String} {v : β} (h : d.lookup k = some v) : (k, v) ∈ d := by
  induction d with
  | nil => simp at h
  | cons p d ih =>
    obtain ⟨k', v'⟩ := p
    rw [List.lookup_cons] at h
    cases hb : k == k' with
    | true =>
      simp only [hb, Option.some.injEq] at h
      have : k = k' := by simpa using hb
      subst this; subst h; simp
    | false =>
      simp only [hb] at h
      simp [ih h]

theorem transform_unique {tp tm : List (String × Tr K)} {X : Dict K} {F : Features K} (h : transform tp tm X = .ok F)
    (hX : UniqueDict X) (hp : UniqueTr tp) (hm : UniqueTr tm) : UniqueDict F.primary ∧ UniqueDict F.metal := by
  unfold transform at h
  split at h
  · simp only [Py.bind_eq_ok, Except.ok.injEq] at h
    obtain ⟨p, hp1, m, hm1, rfl⟩ := h
    have key : ∀ (t : List (String × Tr K)) (d : Dict K), UniqueTr t → mapE (transformOne X) t = .ok d → UniqueDict d := by
      intro t d ht hd q hq
      rw [mapE_eq_ok_iff] at hd
      obtain ⟨a, ha, hR⟩ := forall₂_mem_right hd hq
      unfold transformOne at hR
      cases hl : X.lookup a.1 with
      | none => simp [hl] at hR
      | some f =>
        have hf : f.index.Nodup := hX _ (lookup_mem hl)
        cases htr : a.2 with
        | none =>
          simp only [hl, htr, Except.ok.injEq] at hR
          subst hR; exact hf
        | some tr =>
          simp only [hl, htr, Py.bind_eq_ok, Except.ok.injEq] at hR
          obtain ⟨g, hg, rfl⟩ := hR
          exact ht a ha tr htr f g hf hg
    exact ⟨key _ _ hp hp1, key _ _ hm hm1⟩
  · simp at h

theorem alignOn_unique {how : List (String × String)} {name : String} {X Y : Features K} (h : alignOn how name X = .ok Y)
    (hp : UniqueDict X.primary) (hm : UniqueDict X.metal) : UniqueDict Y.primary ∧ UniqueDict Y.metal := by
  unfold alignOn at h
  split at h
  · simp only [Except.ok.injEq] at h; subst h; exact ⟨hp, hm⟩
  · cases hl : X.primary.lookup name with
    | none => simp [hl] at h
    | some f =>
      simp only [hl, Py.bind_eq_ok, Except.ok.injEq] at h
      obtain ⟨p, hp1, m, hm1, rfl⟩ := h
      have hf : f.index.Nodup := hp _ (lookup_mem hl)
      have key : ∀ (d e : Dict K), UniqueDict d → alignDict how name f.index d = .ok e → UniqueDict e := by
        intro d e hd he q hq
        unfold alignDict at he
        rw [mapE_eq_ok_iff] at he
        obtain ⟨a, ha, hR⟩ := forall₂_mem_right he hq
        unfold alignEntry at hR
        split at hR
        · simp only [Py.bind_eq_ok, Except.ok.injEq] at hR
          obtain ⟨g, hg, rfl⟩ := hR
          show g.index.Nodup
          rw [(alignFrame_index _ _ _ _ _ hg).1]; exact hf
        · simp only [Except.ok.injEq] at hR
          subst hR; exact hd _ ha
      exact ⟨key _ _ hp hp1, key _ _ hm hm1⟩

theorem features_unique {c : Cfg K} {X : Dict K} {F : Features K} (h : features c X = .ok F)
    (hX : UniqueDict X) (hp : UniqueTr c.trPrimary) (hm : UniqueTr c.trMeta) : UniqueDict F.primary ∧ UniqueDict F.metal := by
  unfold features at h
  rw [Py.bind_eq_ok] at h
  obtain ⟨G, hG, hF⟩ := h
  have := transform_unique hG hX hp hm
  exact alignOn_unique hF this.1 this.2

theorem concat_unique {d : Dict K} {f : Frame K} (hd : UniqueDict d) (h : concatOuter (d.map (·.2)) = .ok f) : f.index.Nodup := by
  rw [concatOuter_index h]
  apply nodup_joinIndex
  intro i hi
  rw [List.map_map, List.mem_map] at hi
  obtain ⟨p, hp, rfl⟩ := hi
  exact hd p hp

theorem primaryFrame_unique {F : Features K} {f : Frame K} (hF : UniqueDict F.primary) (h : primaryFrame F = .ok f) :
    f.index.Nodup := by
  unfold primaryFrame at h
  simp only [Py.bind_eq_ok, Except.ok.injEq] at h
  obtain ⟨g, hg, rfl⟩ := h
  exact dropna_index_nodup (concat_unique hF hg)

theorem mem_putCell_self (cols : List String) (name : String) (row : List (XF K)) (v : XF K) : v ∈ putCell cols name row v := by
  unfold putCell
  split <;> simp

theorem mem_putCell {cols : List String} {name : String} {row : List (XF K)} {v x : XF K} (h : x ∈ putCell cols name row v) :
    x ∈ row ∨ x = v := by
  unfold putCell at h
  split at h
  · rcases List.mem_append.1 h with h | h
    · exact Or.inl (List.mem_of_mem_take h)
    · rcases List.mem_cons.1 h with h | h
      · exact Or.inr h
      · exact Or.inl (List.mem_of_mem_drop h)
  · simpa using h

theorem addPrediction_index (f : Frame K) (s : Ser K) : (addPrediction f s).index = f.index := by
  unfold addPrediction Frame.index
  rw [List.map_map]; rfl

theorem joinProba_index (f : Frame K) (n : ℕ) (p : List (ℤ × List (XF K))) :
    (joinProba f n p).index = f.index.filter fun t => decide (t ∈ p.map (·.1)) := by
  unfold joinProba Frame.index
  simp only
  induction f.rows with
  | nil => rfl
  | cons r rows ih =>
    cases hf : p.find? fun q => decide (q.1 = r.1) with
    | none =>
      rw [List.filterMap_cons_none (by simp [hf]), ih, List.map_cons, List.filter_cons_of_neg]
      simp only [decide_eq_true_eq, List.mem_map]
      rintro ⟨q, hq, he⟩
      have := List.find?_eq_none.1 hf q hq
      simp [he] at this
    | some q =>
      rw [List.filterMap_cons_some (b := (r.1, r.2 ++ q.2)) (by simp [hf]), List.map_cons, ih, List.map_cons, List.filter_cons_of_pos]
      simp only [decide_eq_true_eq, List.mem_map]
      exact ⟨q, List.mem_of_find?_eq_some hf, by simpa using List.find?_some hf⟩

theorem metaFeatures_ok {c : Cfg K} {Xp Xm : Frame K} {F : Features K} (h : metaFeatures c Xp F = .ok Xm) :
    ∃ f f1 f2, concatOuter (F.metal.map (·.2)) = .ok f ∧
      (c.usePredictions = true → ∃ v s, c.primary.predict Xp = .ok v ∧ mkSeries Xp.index v = .ok s ∧ f1 = addPrediction f.dropna s) ∧
      (c.usePredictions = false → f1 = f.dropna) ∧
      (c.useProba = true → ∃ v p, c.primary.proba Xp = .ok v ∧ mkRows Xp.index c.primary.classes.length v = .ok p ∧
        f2 = joinProba f1 c.primary.classes.length p) ∧
      (c.useProba = false → f2 = f1) ∧ f2 = Xm ∧ ∀ r ∈ Xm.rows, complete r.2 = true := by
  unfold metaFeatures at h
  simp only [Py.bind_eq_ok] at h
  obtain ⟨f, hf, f1, hf1, f2, hf2, hX⟩ := h
  refine ⟨f, f1, f2, hf, ?_⟩
  have e : f2 = Xm ∧ ∀ r ∈ Xm.rows, complete r.2 = true := by
    split at hX
    · rename_i hall
      simp only [Except.ok.injEq] at hX
      subst hX
      exact ⟨rfl, List.all_eq_true.1 (Bool.and_eq_true_iff.1 hall).1⟩
    · simp at hX
  unfold withPrediction at hf1
  unfold withProba at hf2
  refine ⟨?_, ?_, ?_, ?_, e.1, e.2⟩
  · intro hu
    rw [if_pos hu] at hf1
    simp only [Py.bind_eq_ok, Except.ok.injEq] at hf1
    obtain ⟨v, hv, s, hs, rfl⟩ := hf1
    exact ⟨v, s, hv, hs, rfl⟩
  · intro hu
    rw [if_neg (by simp [hu])] at hf1
    simpa using hf1.symm
  · intro hu
    rw [if_pos hu] at hf2
    simp only [Py.bind_eq_ok, Except.ok.injEq] at hf2
    obtain ⟨v, hv, s, hs, rfl⟩ := hf2
    exact ⟨v, s, hv, hs, rfl⟩
  · intro hu
    rw [if_neg (by simp [hu])] at hf2
    simpa using hf2.symm

theorem metaFeatures_index {c : Cfg K} {Xp Xm : Frame K} {F : Features K} (h : metaFeatures c Xp F = .ok Xm) :
    ∃ f, concatOuter (F.metal.map (·.2)) = .ok f ∧
      Xm.index = if c.useProba then f.dropna.index.filter fun t => decide (t ∈ Xp.index) else f.dropna.index := by
  obtain ⟨f, f1, f2, hf, h1, h1', h2, h2', rfl, -⟩ := metaFeatures_ok h
  refine ⟨f, hf, ?_⟩
  have hi : f1.index = f.dropna.index := by
    cases hu : c.usePredictions with
    | true =>
      obtain ⟨v, s, -, -, rfl⟩ := h1 hu
      exact addPrediction_index _ _
    | false => rw [h1' hu]
  cases hu : c.useProba with
  | true =>
    obtain ⟨v, p, -, hp, rfl⟩ := h2 hu
    rw [joinProba_index, hi, (mkRows_ok hp).2.1]; rfl
  | false => rw [h2' hu, hi]; rfl

theorem metaFeatures_unique {c : Cfg K} {Xp Xm : Frame K} {F : Features K} (hF : UniqueDict F.metal)
    (h : metaFeatures c Xp F = .ok Xm) : Xm.index.Nodup := by
  obtain ⟨f, hf, hi⟩ := metaFeatures_index h
  have hn := dropna_index_nodup (concat_unique hF hf)
  rw [hi]
  split
  · exact hn.sublist List.filter_sublist
  · exact hn

/-! Largest values -/

theorem le_of_not_lt {a b : XF K} (ha : a.isNan = false) (hb : b.isNan = false) (h : XF.lt a b = false) : XF.le b a = true := by
  cases a <;> cases b <;> simp_all [XF.isNan, XF.lt, XF.le, XF.beq]
  exact lt_or_eq_of_le h

theorem le_refl' {a : XF K} (ha : a.isNan = false) : XF.le a a = true := by
  cases a <;> simp_all [XF.isNan, XF.lt, XF.le, XF.beq]

theorem le_of_lt' {a b : XF K} (h : XF.lt a b = true) : XF.le a b = true := by simp [XF.le, h]

theorem le_trans' {a b c : XF K} (h1 : XF.le a b = true) (h2 : XF.le b c = true) : XF.le a c = true := by
  cases a <;> cases b <;> cases c <;> simp_all [XF.isNan, XF.lt, XF.le, XF.beq, ← le_iff_lt_or_eq]
  exact h1.trans h2

theorem lt_of_le_of_lt' {a b c : XF K} (h1 : XF.le a b = true) (h2 : XF.lt b c = true) : XF.lt a c = true := by
  cases a <;> cases b <;> cases c <;> simp_all [XF.isNan, XF.lt, XF.le, XF.beq, ← le_iff_lt_or_eq]
  exact h1.trans_lt h2

theorem le_antisymm' {a b : XF K} (h1 : XF.le a b = true) (h2 : XF.le b a = true) : a = b := by
  cases a <;> cases b <;> simp_all [XF.isNan, XF.lt, XF.le, XF.beq, ← le_iff_lt_or_eq]
  exact le_antisymm h1 (by first | exact h2 | exact le_iff_lt_or_eq.2 h2)

theorem foldl_xmax (l : List (XF K)) (a : XF K) (ha : a.isNan = false) (hl : ∀ x ∈ l, x.isNan = false) :
    l.foldl xmax a ∈ a :: l ∧ (l.foldl xmax a).isNan = false ∧ ∀ x ∈ a :: l, XF.le x (l.foldl xmax a) = true := by
  induction l generalizing a with
  | nil => simp [ha, le_refl' ha]
  | cons b l ih =>
    have hb := hl b (by simp)
    have hl' : ∀ x ∈ l, x.isNan = false := fun x hx => hl x (by simp [hx])
    rw [List.foldl_cons]
    by_cases hab : XF.lt a b = true
    · have e : xmax a b = b := by simp [xmax, ha, hb, hab]
      rw [e]
      obtain ⟨h1, h2, h3⟩ := ih b hb hl'
      refine ⟨List.mem_cons_of_mem _ h1, h2, ?_⟩
      intro x hx
      rcases List.mem_cons.1 hx with rfl | hx
      · exact le_trans' (le_of_lt' hab) (h3 b (by simp))
      · exact h3 x hx
    · have hab := Bool.eq_false_iff.2 hab
      have e : xmax a b = a := by simp [xmax, ha, hb, hab]
      rw [e]
      obtain ⟨h1, h2, h3⟩ := ih a ha hl'
      refine ⟨?_, h2, ?_⟩
      · rcases List.mem_cons.1 h1 with h1 | h1
        · rw [h1]; simp
        · simp [h1]
      · intro x hx
        simp only [List.mem_cons] at hx
        rcases hx with rfl | rfl | hx
        · exact h3 _ (by simp)
        · exact le_trans' (le_of_not_lt ha hb hab) (h3 a (by simp))
        · exact h3 x (by simp [hx])

theorem largest_rowMax (r : List (XF K)) : Largest r (rowMax r) := by
  unfold rowMax
  constructor
  · rintro ⟨x, hx, hxn⟩
    have hmem : x ∈ r.filter fun x => !x.isNan := List.mem_filter.2 ⟨hx, by simp [hxn]⟩
    cases hf : r.filter fun x => !x.isNan with
    | nil => rw [hf] at hmem; simp at hmem
    | cons a l =>
      have hall : ∀ y ∈ a :: l, y ∈ r ∧ y.isNan = false := by
        intro y hy
        rw [← hf, List.mem_filter] at hy
        exact ⟨hy.1, by simpa using hy.2⟩
      obtain ⟨h1, h2, h3⟩ := foldl_xmax l a (hall a (by simp)).2 (fun y hy => (hall y (by simp [hy])).2)
      refine ⟨(hall _ h1).1, h2, ?_⟩
      intro y hy hyn
      apply h3
      rw [← hf]
      exact List.mem_filter.2 ⟨hy, by simp [hyn]⟩
  · intro h
    rw [List.filter_eq_nil_iff.2]
    · rfl
    · intro x hx; simp [h x hx]

theorem argmaxFrom_first (xs pre : List (XF K)) (hx : ∀ x ∈ xs, x.isNan = false) (best : ℕ) (m : XF K) (hm : m.isNan = false)
    (hb : best < pre.length) (h1 : FirstAt pre best m) (h2 : ∀ x ∈ pre, XF.le x m = true) :
    ∃ z, FirstAt (pre ++ xs) (argmaxFrom pre.length best m xs) z ∧ ∀ x ∈ pre ++ xs, XF.le x z = true := by
  induction xs generalizing pre best m with
  | nil => exact ⟨m, by simpa [argmaxFrom] using h1, by simpa using h2⟩
  | cons x xs ih =>
    have hxn := hx x (by simp)
    have hx' : ∀ y ∈ xs, y.isNan = false := fun y hy => hx y (by simp [hy])
    simp only [argmaxFrom, hm, hxn, Bool.false_eq_true, if_false]
    have e : pre ++ x :: xs = (pre ++ [x]) ++ xs := by simp
    have el : (pre ++ [x]).length = pre.length + 1 := by simp
    by_cases hlt : XF.lt m x = true
    · rw [if_pos hlt, e, ← el]
      apply ih (pre ++ [x]) hx' pre.length x hxn (by simp)
      · refine ⟨by simp, ?_⟩
        intro j hj y hy
        rw [List.getElem?_append_left hj] at hy
        exact lt_of_le_of_lt' (h2 y (List.mem_of_getElem? hy)) hlt
      · intro y hy
        rcases List.mem_append.1 hy with hy | hy
        · exact le_trans' (h2 y hy) (le_of_lt' hlt)
        · simp only [List.mem_singleton] at hy; subst hy; exact le_refl' hxn
    · rw [if_neg hlt, e, ← el]
      apply ih (pre ++ [x]) hx' best m hm (by simp; omega)
      · refine ⟨by rw [List.getElem?_append_left hb]; exact h1.1, ?_⟩
        intro j hj y hy
        rw [List.getElem?_append_left (by omega)] at hy
        exact h1.2 j hj y hy
      · intro y hy
        rcases List.mem_append.1 hy with hy | hy
        · exact h2 y hy
        · simp only [List.mem_singleton] at hy; subst hy; exact le_of_not_lt hm hxn (Bool.eq_false_iff.2 hlt)

theorem argmax_first (r : List (XF K)) (hr : ∀ x ∈ r, x.isNan = false) (i : ℕ) (h : argmax r = .ok i) :
    FirstAt r i (rowMax r) := by
  cases r with
  | nil => simp [argmax] at h
  | cons x xs =>
    simp only [argmax, Except.ok.injEq] at h
    have hx := hr x (by simp)
    obtain ⟨z, hz1, hz2⟩ := argmaxFrom_first xs [x] (fun y hy => hr y (by simp [hy])) 0 x hx (by simp)
      ⟨by simp, by intro j hj; omega⟩ (by intro y hy; simp only [List.mem_singleton] at hy; subst hy; exact le_refl' hx)
    simp only [List.length_singleton, List.singleton_append] at hz1 hz2
    rw [h] at hz1
    have hl := (largest_rowMax (x :: xs)).1 ⟨x, by simp, hx⟩
    have hzm : z ∈ x :: xs := List.mem_of_getElem? hz1.1
    have : z = rowMax (x :: xs) := le_antisymm' (hl.2.2 z hzm (hr z hzm)) (hz2 _ hl.1)
    rw [← this]; exact hz1

theorem serAt_valueAt (s : Ser K) (h : (s.map (·.1)).Nodup) (t : ℤ) : ValueAt s t (serAt s t) := by
  by_cases hm : t ∈ s.map (·.1)
  · obtain ⟨⟨t', v⟩, hv, rfl⟩ := List.mem_map.1 hm
    rw [serAt_of_mem s h t' v hv]
    exact Or.inl hv
  · refine Or.inr ⟨?_, serAt_not_mem s t hm⟩
    intro w hw
    exact hm (List.mem_map.2 ⟨_, hw, rfl⟩)

theorem betRows_input (classes : List K) (sides : Option (Ser K)) (hs : ∀ s, sides = some s → (s.map (·.1)).Nodup)
    (rows : List (ℤ × List (XF K))) (b : List (BetRow K)) (h : mapE (betRow classes sides) rows = .ok b) :
    BetInput classes sides rows b := by
  rw [mapE_eq_ok_iff] at h
  refine h.imp ?_
  intro r q hq
  unfold betRow at hq
  simp only [Py.bind_eq_ok, Except.ok.injEq] at hq
  obtain ⟨i, hi, k, hk, rfl⟩ := hq
  refine ⟨rfl, largest_rowMax _, ?_, ?_, ?_⟩
  · intro hn
    refine ⟨i, ?_, argmax_first _ hn i hi⟩
    unfold getE at hk
    split at hk
    · simp at hk
    · rename_i heq
      simp only [Except.ok.injEq] at hk
      rw [heq, hk]
  · intro s hss
    subst hss
    exact ⟨_, rfl, serAt_valueAt s (hs s rfl) _⟩
  · intro hss; subst hss; rfl

/-! Training sets -/

theorem locRows_ok {f g : Frame K} {idx : List ℤ} (h : locRows f idx = .ok g) :
    g.cols = f.cols ∧ g.index = idx ∧ ∀ t ∈ idx, f.row? t ≠ none ∧ g.row? t = f.row? t := by
  unfold locRows at h
  simp only [Py.bind_eq_ok, Except.ok.injEq] at h
  obtain ⟨rows, hrows, rfl⟩ := h
  rw [mapE_eq_ok_iff] at hrows
  have hR : List.Forall₂ (fun t (r : ℤ × List (XF K)) => r.1 = t ∧ f.row? t = some r.2) idx rows := by
    refine hrows.imp ?_
    intro t r hr
    split at hr
    · simp at hr
    · rename_i r' heq
      simp only [Except.ok.injEq] at hr
      subst hr
      exact ⟨rfl, heq⟩
  refine ⟨rfl, ?_, ?_⟩
  · unfold Frame.index
    simp only
    clear hrows
    induction hR with
    | nil => rfl
    | cons h1 _ ih => rw [List.map_cons, ih, h1.1]
  · clear hrows
    intro t ht
    unfold Frame.row?
    simp only
    induction hR with
    | nil => simp at ht
    | @cons s r idx rows h1 _ ih =>
      by_cases hs : s = t
      · subst hs
        have h2 := h1.2
        refine ⟨by rw [show Option.map (fun x => x.2) (f.rows.find? fun r => decide (r.1 = s)) = f.row? s from rfl, h2]; simp, ?_⟩
        rw [List.find?_cons_of_pos (by simp [h1.1])]
        exact h2.symm
      · rw [List.find?_cons_of_neg (by simpa [h1.1] using hs)]
        rcases List.mem_cons.1 ht with rfl | ht
        · exact absurd rfl hs
        · exact ih ht

theorem locSer_ok {y s : Ser K} {idx : List ℤ} (h : locSer y idx = .ok s) : s.map (·.1) = idx ∧ ∀ r ∈ s, r ∈ y := by
  unfold locSer at h
  rw [mapE_eq_ok_iff] at h
  have hR : List.Forall₂ (fun t (r : ℤ × XF K) => r.1 = t ∧ r ∈ y) idx s := by
    refine h.imp ?_
    intro t r hr
    split at hr
    · simp at hr
    · rename_i r' heq
      simp only [Except.ok.injEq] at hr
      subst hr
      refine ⟨rfl, ?_⟩
      have h1 := List.mem_of_find?_eq_some heq
      have h2 := List.find?_some heq
      simp only [decide_eq_true_eq] at h2
      subst h2; exact h1
  refine ⟨?_, ?_⟩
  · clear h
    induction hR with
    | nil => rfl
    | cons h1 _ ih => rw [List.map_cons, ih, h1.1]
  · intro r hr
    obtain ⟨t, -, h2⟩ := forall₂_mem_right hR hr
    exact h2.2

theorem alignXy_ok {d : Dict K} {y : Ser K} {Xo : Frame K} {yo : Ser K} (h : alignXy d y true = .ok (Xo, yo)) :
    Xo.index = yo.map (·.1) ∧ Xo.rows ≠ [] ∧ (∀ r ∈ Xo.rows, ∀ x ∈ r.2, x.undef = false) ∧
    (∀ r ∈ yo, r ∈ y ∧ r.2.undef = false) ∧
    (∀ r ∈ Xo.rows, r.2 = d.flatMap fun p => (p.2.row? r.1).getD []) ∧
    Xo.index = ((y.filter fun r => !r.2.isNan).map (·.1)).filter (fun t => complete (d.flatMap fun p => (p.2.row? t).getD [])) := by
  unfold alignXy at h
  simp only [if_true, Py.bind_eq_ok, Except.ok.injEq, Prod.mk.injEq] at h
  obtain ⟨fs, hfs, X, hX, ya, hya, _, hchk, rfl, rfl⟩ := h
  have hl := locSer_ok hya
  unfold checkXy at hchk
  split at hchk
  · simp at hchk
  · rename_i hne
    split at hchk
    · rename_i hfin
      push Not at hne
      rw [mapE_eq_ok_iff] at hfs
      have hF : ∀ f ∈ fs, f.index = (y.filter fun r => !r.2.isNan).map (·.1) := by
        intro f hf
        obtain ⟨p, -, hp⟩ := forall₂_mem_right hfs hf
        exact (locRows_ok hp).2.1
      have hidx : X.index = (y.filter fun r => !r.2.isNan).map (·.1) := by
        rw [concatOuter_index hX]
        apply joinIndex_same
        · simpa using (concatOuter_ok hX).1
        · intro j hj
          obtain ⟨f, hf, rfl⟩ := List.mem_map.1 hj
          exact hF f hf
      generalize hI : (y.filter fun r => !r.2.isNan).map (·.1) = idx at *
      have hrow : ∀ t ∈ idx, (fs.flatMap fun f => (f.row? t).getD (nanRow f.cols.length)) = d.flatMap fun p => (p.2.row? t).getD [] := by
        intro t ht
        clear hX hF hya hl
        induction hfs with
        | nil => rfl
        | @cons p f d fs h1 _ ih =>
          rw [List.flatMap_cons, List.flatMap_cons, ih]
          congr 1
          have := (locRows_ok h1).2.2 t ht
          rw [this.2]
          cases hr : p.2.row? t with
          | none => exact absurd hr this.1
          | some r => rfl
      have hXrows : X.rows = idx.map fun t => (t, d.flatMap fun p => (p.2.row? t).getD []) := by
        rw [(concatOuter_ok hX).2]
        have : joinIndex (fs.map (·.index)) = idx := by rw [← concatOuter_index hX, hidx]
        simp only [this]
        apply List.map_congr_left
        intro t ht
        rw [hrow t ht]
      refine ⟨hl.1.symm, hne.1, ?_, ?_, ?_, ?_⟩
      · intro r hr x hx
        have := List.all_eq_true.1 (List.all_eq_true.1 hfin.1 r hr) x hx
        simpa using this
      · intro r hr
        refine ⟨hl.2 r hr, ?_⟩
        have := List.all_eq_true.1 hfin.2 r hr
        simpa using this
      · intro r hr
        have hr' : r ∈ X.rows := (List.mem_filter.1 hr).1
        rw [hXrows] at hr'
        obtain ⟨t, -, rfl⟩ := List.mem_map.1 hr'
        rfl
      · unfold Frame.dropna Frame.index
        simp only
        rw [hXrows, List.filter_map, List.map_map]
        exact List.map_id' _
    · simp at hchk

end Mizar.Pipe
