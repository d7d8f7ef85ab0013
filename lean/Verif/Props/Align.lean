import Mathlib.Algebra.Order.Ring.Rat
import Mathlib.Data.Rat.Cast.Order
import Verif.Lemmas.Align

/-!
Property theorems C44–C47: feature transformation and alignment of the signal pipeline
(`/repo/mizarlabs/model/pipeline.py`).
-/

set_option linter.unusedSectionVars false

namespace Mizar.Props
open Mizar.Spec Mizar.Pipe

section
variable {K : Type*} [Field K] [LinearOrder K] [IsStrictOrderedRing K]

/-- C44 (partial: no missing feature values, times after 1 January 1700, that is -8520336000000000000 ns): for an increasing alignment index the
aligned frame has at alignment time number `i` the mean, minimum or maximum of the feature rows after the earlier
alignment times and up to this one; when there are none, the row of the alignment time before (missing values at the
first).  The feature rows of all alignment times together are exactly the rows up to the last alignment time, each
of them once. -/
theorem C44_alignment_partial (how : List (String × String)) (key m : String) (hl : how.lookup key = some m)
    (hm : m = "mean" ∨ m = "min" ∨ m = "max") (cols : List String) (rows : List (ℤ × List K)) (idx : List ℤ)
    (hw : ∀ r ∈ rows, r.2.length = cols.length) (hrows : rows ≠ []) (hidx : idx ≠ []) (hs : idx.Pairwise (· < ·))
    (h1700 : ∀ r ∈ rows, -8520336000000000000 < r.1) (h1700' : ∀ t ∈ idx, -8520336000000000000 < t) :
    (∃ out : List (List (XF K)),
      alignFrame how key idx ⟨cols, rows.map fun r => (r.1, r.2.map .fin)⟩ = .ok ⟨cols, idx.zip out⟩ ∧
      out.length = idx.length ∧
      ∀ i < idx.length,
        (since rows idx i ≠ [] → ∃ v : List K, out.getD i [] = v.map .fin ∧ v.length = cols.length ∧
          ∀ j < cols.length, Agg m ((since rows idx i).map fun r => r.getD j 0) (v.getD j 0)) ∧
        (since rows idx i = [] → out.getD i [] =
          if i = 0 then List.replicate cols.length .nan else out.getD (i - 1) [])) ∧
    ((List.range idx.length).flatMap (since rows idx)).Perm
      ((rows.filter fun r => decide (r.1 ≤ idx.getLastD 0)).map (·.2)) := by
  change ∀ r ∈ rows, Y1700 < r.1 at h1700
  change ∀ t ∈ idx, Y1700 < t at h1700'
  refine ⟨?_, since_flatten rows idx hs Y1700 h1700' h1700 hidx⟩
  have hp : (Y1700 :: idx).Pairwise (· < ·) := List.pairwise_cons.2 ⟨h1700', hs⟩
  have hcell : ∀ i < idx.length, ∃ c,
      cell (aggregate how key cols.length) (subset (rows.map fun r => (r.1, r.2.map XF.fin)) ((Y1700 :: idx).getD i 0) (idx.getD i 0)) = .ok c ∧
      (since rows idx i = [] → c = none) ∧
      (since rows idx i ≠ [] → ∃ v : List K, c = some (v.map .fin) ∧ v.length = cols.length ∧
        ∀ j < cols.length, Agg m ((since rows idx i).map fun r => r.getD j 0) (v.getD j 0)) := by
    intro i hi
    rw [subset_map_since (fun r => r.map XF.fin) rows Y1700 idx hp h1700 i hi]
    generalize hS : rows.filter (fun r => decide (∀ k < i, idx.getD k 0 < r.1) && decide (r.1 ≤ idx.getD i 0)) = S
    have hsince : since rows idx i = S.map (·.2) := by rw [← hS]; rfl
    have hwS : ∀ r ∈ S, r.2.length = cols.length := by
      intro r hr; rw [← hS] at hr; exact hw r (List.mem_filter.1 hr).1
    obtain ⟨h0, h1⟩ := cell_fin how key m hl hm cols.length S hwS
    by_cases hSe : S = []
    · refine ⟨none, h0 hSe, fun _ => rfl, ?_⟩
      intro hne; rw [hsince, hSe] at hne; exact absurd rfl hne
    · obtain ⟨v, hv1, hv2, hv3⟩ := h1 hSe
      refine ⟨some (v.map .fin), hv1, ?_, ?_⟩
      · intro he; rw [hsince] at he; simp at he; exact absurd he hSe
      · intro _
        refine ⟨v, rfl, hv2, ?_⟩
        intro j hj
        rw [hsince, List.map_map]
        exact hv3 j hj
  choose! c hc1 hc2 hc3 using hcell
  have hloop : alignLoop (aggregate how key cols.length) (rows.map fun r => (r.1, r.2.map XF.fin)) Y1700 idx =
      .ok ((List.range idx.length).map c) := by
    rw [alignLoop_eq _ _ _ _ hp]
    have hz : (Y1700 :: idx).zip idx = (List.range idx.length).map fun i => ((Y1700 :: idx).getD i 0, idx.getD i 0) := by
      apply List.ext_getElem?
      intro i
      by_cases hi : i < idx.length
      · rw [zip_cons_getElem? _ _ _ hi, List.getElem?_map, List.getElem?_range hi]; rfl
      · rw [List.getElem?_eq_none (by simp; omega), List.getElem?_eq_none (by simpa using hi)]
    rw [hz, mapE_map]
    apply mapE_ok_of_forall
    intro i hi
    exact hc1 i (List.mem_range.1 hi)
  generalize hL : ((List.range idx.length).map c).map (fun c => c.getD (nanRow cols.length)) = L
  have hLi : ∀ i < idx.length, L[i]? = some ((c i).getD (nanRow cols.length)) := by
    intro i hi
    rw [← hL, List.map_map, List.getElem?_map, List.getElem?_range hi]; rfl
  have hLw : ∀ r ∈ L, r.length = cols.length := by
    intro r hr
    rw [← hL, List.map_map, List.mem_map] at hr
    obtain ⟨i, hi, rfl⟩ := hr
    have hi := List.mem_range.1 hi
    by_cases he : since rows idx i = []
    · simp [hc2 i hi he, nanRow]
    · obtain ⟨v, hv, hvl, _⟩ := hc3 i hi he
      simp [hv, hvl]
  have hLl : L.length = idx.length := by rw [← hL]; simp
  refine ⟨ffillRowsFrom (nanRow cols.length) L, ?_, by simp [hLl], ?_⟩
  · unfold alignFrame
    have : ¬ ((rows.map fun r => (r.1, r.2.map XF.fin)) = [] ∨ idx = []) := by simp [hrows, hidx]
    rw [if_neg this]
    simp only [hloop, Py.bind_ok, hL]
  · intro i hi
    refine ⟨?_, ?_⟩
    · intro hne
      obtain ⟨v, hv, hvl, hva⟩ := hc3 i hi hne
      refine ⟨v, ?_, hvl, hva⟩
      have := getElem?_ffillRowsFrom_some (nanRow cols.length) L cols.length i (by simp [nanRow]) hLw v
        (by rw [hLi i hi, hv]; rfl)
      rw [List.getD_eq_getElem?_getD, this]; rfl
    · intro he
      have := getElem?_ffillRowsFrom_none (nanRow cols.length) L cols.length i (by simp [nanRow]) hLw
        (by rw [hLi i hi, hc2 i hi he]; rfl)
      rw [List.getD_eq_getElem?_getD, this]; rfl

end

/-- C44 beside: two feature rows before the first alignment time, none before the second, one before the third. -/
example : alignFrame (K := ℚ) [("vol", "mean")] "vol" [10, 20, 30] ⟨["v"], [(3, [.fin 1]), (10, [.fin 4]), (25, [.fin 7]), (40, [.fin 9])]⟩ =
    .ok ⟨["v"], [(10, [.fin (5/2)]), (20, [.fin (5/2)]), (30, [.fin 7])]⟩ := by
  decide +kernel

/-- C44 is refuted for missing feature values: the aggregation of the only row up to the second alignment time is
missing, but the aligned frame repeats the value of the first. -/
theorem C44_missing_value_refuted :
    alignFrame (K := ℚ) [("vol", "mean")] "vol" [10, 20] ⟨["v"], [(10, [.fin 1]), (20, [.nan])]⟩ =
      .ok ⟨["v"], [(10, [.fin 1]), (20, [.fin 1])]⟩ := by
  decide +kernel

/-- C44 is refuted before 1700: a feature row on the alignment time itself is not aggregated. -/
theorem C44_before_1700_refuted :
    alignFrame (K := ℚ) [("vol", "mean")] "vol" [-8520336000000000000] ⟨["v"], [(-8520336000000000000, [.fin 1])]⟩ =
      .ok ⟨["v"], [(-8520336000000000000, [.nan])]⟩ := by
  decide +kernel

section
variable {K : Type*} [Field K] [LinearOrder K]

/-- The entries of two dictionaries have the same keys and agree up to `t`. -/
abbrev AgreeAll (t : ℤ) (d d' : Dict K) : Prop := List.Forall₂ (fun p q => p.1 = q.1 ∧ Agree t p.2 q.2) d d'

/-- C45: when two sets of features (with increasing alignment indices) agree up to time `t` — later rows may be
added, removed or changed in every frame, also in the alignment frame — then the aligned features agree up to `t`. -/
theorem C45_no_look_ahead (how : List (String × String)) (name : String) (t : ℤ) (X X' Y Y' : Features K)
    (hp : AgreeAll t X.primary X'.primary) (hm : AgreeAll t X.metal X'.metal)
    (hs : ∀ f, X.primary.lookup name = some f → f.index.Pairwise (· < ·))
    (hs' : ∀ f, X'.primary.lookup name = some f → f.index.Pairwise (· < ·))
    (h : alignOn how name X = .ok Y) (h' : alignOn how name X' = .ok Y') :
    AgreeAll t Y.primary Y'.primary ∧ AgreeAll t Y.metal Y'.metal := by
  unfold alignOn at h h'
  by_cases hn : name = ""
  · rw [if_pos hn] at h h'
    simp only [Except.ok.injEq] at h h'
    subst h; subst h'
    exact ⟨hp, hm⟩
  rw [if_neg hn] at h h'
  have hlook : ∀ (d d' : Dict K), AgreeAll t d d' → ∀ f f', d.lookup name = some f → d'.lookup name = some f' → Agree t f f' := by
    intro d d' hd
    induction hd with
    | nil => intro f f' hf; simp at hf
    | @cons p q d d' hpq _ ih =>
      intro f f' hf hf'
      obtain ⟨k, fp⟩ := p
      obtain ⟨k', fq⟩ := q
      obtain ⟨hk, ha⟩ := hpq
      simp only at hk; subst hk
      rw [List.lookup_cons] at hf hf'
      cases hb : name == k with
      | true =>
        simp only [hb, Option.some.injEq] at hf hf'
        subst hf; subst hf'; exact ha
      | false =>
        simp only [hb] at hf hf'
        exact ih f f' hf hf'
  have hdict : ∀ (idx idx' : List ℤ), idx.Pairwise (· < ·) → idx'.Pairwise (· < ·) →
      idx.filter (fun s => decide (s ≤ t)) = idx'.filter (fun s => decide (s ≤ t)) →
      ∀ (d d' e e' : Dict K), AgreeAll t d d' → alignDict how name idx d = .ok e → alignDict how name idx' d' = .ok e' →
        AgreeAll t e e' := by
    intro idx idx' hi hi' hii d d' e e' hd
    induction hd generalizing e e' with
    | nil =>
      intro he he'
      simp only [alignDict, mapE_nil, Except.ok.injEq] at he he'
      subst he; subst he'; exact List.Forall₂.nil
    | @cons p q d d' hpq _ ih =>
      intro he he'
      unfold alignDict at he he'
      rw [mapE_cons_bind] at he he'
      obtain ⟨b, hb, s, hs1, rfl⟩ := he
      obtain ⟨b', hb', s', hs1', rfl⟩ := he'
      refine List.Forall₂.cons ?_ (ih s s' hs1 hs1')
      unfold alignEntry at hb hb'
      rw [← hpq.1] at hb'
      by_cases hk : p.1 ≠ name
      · rw [if_pos hk, Py.bind_eq_ok] at hb hb'
        obtain ⟨g, hg, hb⟩ := hb
        obtain ⟨g', hg', hb'⟩ := hb'
        simp only [Except.ok.injEq] at hb hb'
        subst hb; subst hb'
        exact ⟨rfl, alignFrame_agree how p.1 t idx idx' hi hi' hii p.2 q.2 g g' hpq.2 hg hg'⟩
      · rw [if_neg hk] at hb hb'
        simp only [Except.ok.injEq] at hb hb'
        subst hb; subst hb'
        exact hpq
  cases hl : X.primary.lookup name with
  | none => simp [hl] at h
  | some f =>
    cases hl' : X'.primary.lookup name with
    | none => simp [hl'] at h'
    | some f' =>
      simp only [hl, hl', Py.bind_eq_ok] at h h'
      obtain ⟨p, hp1, m, hm1, hY⟩ := h
      obtain ⟨p', hp1', m', hm1', hY'⟩ := h'
      simp only [Except.ok.injEq] at hY hY'
      subst hY; subst hY'
      have hag := agree_index (hlook _ _ hp f f' hl hl')
      exact ⟨hdict _ _ (hs f hl) (hs' f' hl') hag _ _ _ _ hp hp1 hp1',
        hdict _ _ (hs f hl) (hs' f' hl') hag _ _ _ _ hm hm1 hm1'⟩

/-- C46: a successful alignment keeps the keys and their order in both dictionaries; every frame under another key
than `align_on` gets exactly the index of the `align_on` frame and keeps its columns, and frames under the key
`align_on` are unchanged. -/
theorem C46_index_and_keys (how : List (String × String)) (name : String) (X Y : Features K) (hn : name ≠ "")
    (h : alignOn how name X = .ok Y) :
    ∃ lead, X.primary.lookup name = some lead ∧
      let good := fun (p q : String × Frame K) => q.1 = p.1 ∧
        (p.1 = name → q.2 = p.2) ∧ (p.1 ≠ name → q.2.index = lead.index ∧ q.2.cols = p.2.cols)
      List.Forall₂ good X.primary Y.primary ∧ List.Forall₂ good X.metal Y.metal := by
  unfold alignOn at h
  rw [if_neg hn] at h
  cases hl : X.primary.lookup name with
  | none => simp [hl] at h
  | some f =>
    simp only [hl, Py.bind_eq_ok] at h
    obtain ⟨p, hp1, m, hm1, hY⟩ := h
    simp only [Except.ok.injEq] at hY
    subst hY
    refine ⟨f, rfl, ?_⟩
    have key : ∀ (a b : String × Frame K), alignEntry how name f.index a = .ok b →
        b.1 = a.1 ∧ (a.1 = name → b.2 = a.2) ∧ (a.1 ≠ name → b.2.index = f.index ∧ b.2.cols = a.2.cols) := by
      intro a b hab
      unfold alignEntry at hab
      by_cases hk : a.1 ≠ name
      · rw [if_pos hk, Py.bind_eq_ok] at hab
        obtain ⟨g, hg, hb⟩ := hab
        simp only [Except.ok.injEq] at hb
        subst hb
        exact ⟨rfl, fun hc => absurd hc hk, fun _ => alignFrame_index _ _ _ _ _ hg⟩
      · rw [if_neg hk] at hab
        simp only [Except.ok.injEq] at hab
        subst hab
        exact ⟨rfl, fun _ => rfl, fun hc => absurd hc hk⟩
    refine ⟨?_, ?_⟩
    · exact ((mapE_eq_ok_iff _ _ _).1 hp1).imp fun a b hab => key a b hab
    · exact ((mapE_eq_ok_iff _ _ _).1 hm1).imp fun a b hab => key a b hab

/-- C46 (errors): without a frame under the `align_on` key alignment raises `KeyError`. -/
theorem C46_no_lead (how : List (String × String)) (name : String) (X : Features K) (hn : name ≠ "")
    (h : ∀ p ∈ X.primary, p.1 ≠ name) : alignOn how name X = .error .keyError := by
  unfold alignOn
  rw [if_neg hn]
  have : X.primary.lookup name = none := by
    rw [List.lookup_eq_none_iff]
    intro p hp
    simpa using fun hc => h p hp hc.symm
  simp [this]

end

section
variable {K : Type*} [Field K] [LinearOrder K]

/-- C46 (errors): when two or more rows of a feature frame fall on one alignment time and its key has no known
aggregation, alignment raises `KeyError` (never drops or keeps the frame). -/
theorem C46_missing_aggregation (how : List (String × String)) (name : String) (X : Features K) (lead : Frame K)
    (hn : name ≠ "") (hlead : X.primary.lookup name = some lead) (hs : lead.index.Pairwise (· < ·)) (hne : lead.index ≠ [])
    (h1700 : ∀ s ∈ lead.index, Y1700 < s)
    (hfull : ∀ p ∈ X.primary ++ X.metal, p.2.rows ≠ [] ∧ ∀ r ∈ p.2.rows, Y1700 < r.1)
    (p : String × Frame K) (hp : p ∈ X.primary ++ X.metal) (hk : p.1 ≠ name)
    (hm : ∀ m, how.lookup p.1 = some m → m ≠ "mean" ∧ m ≠ "min" ∧ m ≠ "max")
    (i : ℕ) (hi : i < lead.index.length) (h2 : 2 ≤ (since p.2.rows lead.index i).length) :
    alignOn how name X = .error .keyError := by
  have hpair : (Y1700 :: lead.index).Pairwise (· < ·) := List.pairwise_cons.2 ⟨h1700, hs⟩
  have hloopErr : ∀ (key : String) (n : ℕ) (rows : List (ℤ × List (XF K))) (ts : List ℤ) (prev : ℤ) (e : PyErr),
      alignLoop (aggregate how key n) rows prev ts = .error e → e = .keyError := by
    intro key n rows ts
    induction ts with
    | nil => intro prev e h; simp [alignLoop] at h
    | cons s ts ih =>
      intro prev e h
      unfold alignLoop at h
      have hagg : ∀ l e, aggregate (K := K) how key n l = .error e → e = .keyError := by
        intro l e h
        unfold aggregate at h
        split at h
        · simpa using h.symm
        · split at h
          · simpa using h.symm
          · simp at h
      rcases hsub : subset rows prev s with _ | ⟨r₁, _ | ⟨r₂, rs⟩⟩
      · simp only [hsub] at h
        cases hx : alignLoop (aggregate how key n) rows prev ts with
        | ok x => simp [hx] at h
        | error e' => rw [hx] at h; simp only [Py.bind_error, Except.error.injEq] at h; rw [← h]; exact ih _ _ hx
      · simp only [hsub] at h
        cases hx : alignLoop (aggregate how key n) rows s ts with
        | ok x => simp [hx] at h
        | error e' => rw [hx] at h; simp only [Py.bind_error, Except.error.injEq] at h; rw [← h]; exact ih _ _ hx
      · simp only [hsub] at h
        cases hv : aggregate how key n ((r₁ :: r₂ :: rs).map (·.2)) with
        | error e' => rw [hv] at h; simp only [Py.bind_error, Except.error.injEq] at h; rw [← h]; exact hagg _ _ hv
        | ok v =>
          rw [hv] at h
          cases hx : alignLoop (aggregate how key n) rows s ts with
          | ok x => simp [hx] at h
          | error e' =>
            simp only [hx, Py.bind_ok, Py.bind_error, Except.error.injEq] at h
            rw [← h]; exact ih _ _ hx
  have hentry : ∀ q ∈ X.primary ++ X.metal, ∀ e, alignEntry how name lead.index q = .error e → e = .keyError := by
    intro q hq e he
    unfold alignEntry at he
    split at he
    · unfold alignFrame at he
      rw [if_neg (by simp [(hfull q hq).1, hne])] at he
      cases hx : alignLoop (aggregate how q.1 q.2.cols.length) q.2.rows Y1700 lead.index with
      | ok x => simp [hx] at he
      | error e' =>
        simp only [hx, Py.bind_error, Except.error.injEq] at he
        rw [← he]; exact hloopErr _ _ _ _ _ _ hx
    · simp at he
  have hbad : ∃ e, alignEntry how name lead.index p = .error e := by
    cases hx : alignEntry how name lead.index p with
    | error e => exact ⟨e, rfl⟩
    | ok b =>
      exfalso
      unfold alignEntry at hx
      rw [if_pos hk, Py.bind_eq_ok] at hx
      obtain ⟨g, hg, -⟩ := hx
      unfold alignFrame at hg
      rw [if_neg (by simp [(hfull p hp).1, hne]), Py.bind_eq_ok] at hg
      obtain ⟨c, hc, -⟩ := hg
      rw [alignLoop_eq _ _ _ _ hpair, mapE_eq_ok_iff] at hc
      have hz := zip_cons_getElem? Y1700 lead.index i hi
      have hlen := hc.length_eq
      have hmem : ((Y1700 :: lead.index).getD i 0, lead.index.getD i 0) ∈ (Y1700 :: lead.index).zip lead.index :=
        List.mem_of_getElem? hz
      have hex : ∃ b, cell (aggregate how p.1 p.2.cols.length)
          (subset p.2.rows ((Y1700 :: lead.index).getD i 0) (lead.index.getD i 0)) = .ok b := by
        rw [List.forall₂_iff_get] at hc
        obtain ⟨hi', hzi⟩ := List.getElem?_eq_some_iff.1 hz
        have := hc.2 i hi' (by omega)
        rw [List.get_eq_getElem, hzi] at this
        exact ⟨_, this⟩
      obtain ⟨b, hb⟩ := hex
      have hsub := subset_map_since (fun r : List (XF K) => r) p.2.rows Y1700 lead.index hpair (hfull p hp).2 i hi
      have hid : ∀ l : List (ℤ × List (XF K)), l.map (fun r => (r.1, r.2)) = l := fun l => by simp
      rw [hid, hid] at hsub
      rw [hsub] at hb
      unfold since at h2
      rw [List.length_map] at h2
      generalize p.2.rows.filter (fun r => decide (∀ k < i, lead.index.getD k 0 < r.1) && decide (r.1 ≤ lead.index.getD i 0)) = S at hb h2
      rcases S with _ | ⟨r₁, _ | ⟨r₂, rs⟩⟩
      · simp at h2
      · simp at h2
      · simp only [cell, Py.bind_eq_ok] at hb
        obtain ⟨v, hv, -⟩ := hb
        unfold aggregate at hv
        cases hl : how.lookup p.1 with
        | none => simp [hl] at hv
        | some m =>
          have := hm m hl
          simp [hl, alignMethods, this.1, this.2.1, this.2.2] at hv
  have hmapE : ∀ d : Dict K, (∀ q ∈ d, q ∈ X.primary ++ X.metal) → ∀ e, alignDict how name lead.index d = .error e → e = .keyError := by
    intro d hd e he
    unfold alignDict at he
    induction d with
    | nil => simp at he
    | cons q d ih =>
      simp only [mapE] at he
      cases hq : alignEntry how name lead.index q with
      | error e' =>
        simp only [hq, Except.error.injEq] at he
        rw [← he]; exact hentry q (hd q (by simp)) e' hq
      | ok b =>
        cases hr : mapE (alignEntry how name lead.index) d with
        | error e' =>
          simp only [hq, hr, Except.error.injEq] at he
          exact ih (fun q hq => hd q (by simp [hq])) (by rw [hr, he])
        | ok r => simp [hq, hr] at he
  have hmapBad : ∀ d : Dict K, p ∈ d → ∀ r, alignDict how name lead.index d ≠ .ok r := by
    intro d hpd r hr
    unfold alignDict at hr
    rw [mapE_eq_ok_iff] at hr
    obtain ⟨b, -, hb⟩ := forall₂_mem_left hr hpd
    obtain ⟨e, he⟩ := hbad
    rw [he] at hb; cases hb
  unfold alignOn
  rw [if_neg hn]
  simp only [hlead]
  cases hpr : alignDict how name lead.index X.primary with
  | error e => rw [Py.bind_error, hmapE X.primary (fun q hq => by simp [hq]) e hpr]
  | ok P =>
    cases hme : alignDict how name lead.index X.metal with
    | error e => rw [Py.bind_ok, Py.bind_error, hmapE X.metal (fun q hq => by simp [hq]) e hme]
    | ok M =>
      exfalso
      rcases List.mem_append.1 hp with hp | hp
      · exact hmapBad _ hp _ hpr
      · exact hmapBad _ hp _ hme

/-- C47: `transform` raises `AssertionError` exactly when the keys of the data are not those of the configured
transformers (of both models together); otherwise it applies to the data under each configured key its transformer,
or returns the data when there is none, and fails only if a transformer fails. -/
theorem C47_transform (tp tm : List (String × Tr K)) (X : Dict K) :
    ((¬ ∀ k : String, (∃ p ∈ tp ++ tm, p.1 = k) ↔ ∃ p ∈ X, p.1 = k) → transform tp tm X = .error .assertionError) ∧
    ((∀ k : String, (∃ p ∈ tp ++ tm, p.1 = k) ↔ ∃ p ∈ X, p.1 = k) →
      ∀ Y, transform tp tm X = .ok Y ↔
        let good := fun (p : String × Tr K) (q : String × Frame K) => q.1 = p.1 ∧ ∃ f, X.lookup p.1 = some f ∧
          (p.2 = none → q.2 = f) ∧ ∀ tr, p.2 = some tr → tr f = .ok q.2
        List.Forall₂ good tp Y.primary ∧ List.Forall₂ good tm Y.metal) := by
  have hiff : ((∀ k ∈ tp.map (·.1) ++ tm.map (·.1), k ∈ X.map (·.1)) ∧ (∀ k ∈ X.map (·.1), k ∈ tp.map (·.1) ++ tm.map (·.1))) ↔
      ∀ k : String, (∃ p ∈ tp ++ tm, p.1 = k) ↔ ∃ p ∈ X, p.1 = k := by
    rw [← List.map_append]
    simp only [List.mem_map]
    constructor
    · rintro ⟨h1, h2⟩ k; exact ⟨h1 k, h2 k⟩
    · intro h; exact ⟨fun k => (h k).1, fun k => (h k).2⟩
  unfold transform
  refine ⟨fun h => by rw [if_neg (fun hc => h (hiff.1 hc))], fun h Y => ?_⟩
  rw [if_pos (hiff.2 h)]
  have hone : ∀ (p : String × Tr K) (q : String × Frame K), transformOne X p = .ok q ↔
      (q.1 = p.1 ∧ ∃ f, X.lookup p.1 = some f ∧ (p.2 = none → q.2 = f) ∧ ∀ tr, p.2 = some tr → tr f = .ok q.2) := by
    rintro ⟨k, t⟩ ⟨k', g⟩
    unfold transformOne
    cases hl : X.lookup k with
    | none => simp [hl]
    | some f =>
      cases t with
      | none =>
        simp [hl]
        constructor
        · rintro ⟨rfl, rfl⟩; exact ⟨rfl, rfl⟩
        · rintro ⟨rfl, rfl⟩; exact ⟨rfl, rfl⟩
      | some tr =>
        simp [hl, Py.bind_eq_ok]
        constructor
        · rintro ⟨h1, rfl⟩; exact ⟨rfl, h1⟩
        · rintro ⟨rfl, h1⟩; exact ⟨h1, rfl⟩
  have hall : ∀ (t : List (String × Tr K)) (d : Dict K), mapE (transformOne X) t = .ok d ↔
      List.Forall₂ (fun (p : String × Tr K) (q : String × Frame K) => q.1 = p.1 ∧ ∃ f, X.lookup p.1 = some f ∧
          (p.2 = none → q.2 = f) ∧ ∀ tr, p.2 = some tr → tr f = .ok q.2) t d := by
    intro t d
    rw [mapE_eq_ok_iff]
    have : (fun (p : String × Tr K) (q : String × Frame K) => transformOne X p = .ok q) = _ :=
      funext fun p => funext fun q => propext (hone p q)
    rw [this]
  simp only [Py.bind_eq_ok, hall]
  constructor
  · rintro ⟨p, hp, m, hm, hY⟩
    simp only [Except.ok.injEq] at hY
    subst hY
    exact ⟨hp, hm⟩
  · rintro ⟨hp, hm⟩
    exact ⟨Y.primary, hp, Y.metal, hm, rfl⟩

end

/-- C45–C47 beside: a frame with a later row changed; two keys; a configured key without data. -/
example : alignOn (K := ℚ) [("b", "max")] "a" ⟨[("a", ⟨["x"], [(10, [.fin 1]), (20, [.fin 2])]⟩), ("b", ⟨["y"], [(5, [.fin 1]), (9, [.fin 3]), (15, [.fin 8])]⟩)], []⟩ =
    .ok ⟨[("a", ⟨["x"], [(10, [.fin 1]), (20, [.fin 2])]⟩), ("b", ⟨["y"], [(10, [.fin 3]), (20, [.fin 8])]⟩)], []⟩ := by
  decide +kernel

/-- C45 beside: the same frames with the last row of `b` changed and one added; the row at 10 stays. -/
example : alignOn (K := ℚ) [("b", "max")] "a" ⟨[("a", ⟨["x"], [(10, [.fin 1]), (20, [.fin 2])]⟩), ("b", ⟨["y"], [(5, [.fin 1]), (9, [.fin 3]), (15, [.fin 2]), (17, [.fin 4])]⟩)], []⟩ =
    .ok ⟨[("a", ⟨["x"], [(10, [.fin 1]), (20, [.fin 2])]⟩), ("b", ⟨["y"], [(10, [.fin 3]), (20, [.fin 4])]⟩)], []⟩ := by
  decide +kernel

example : alignOn (K := ℚ) [] "a" ⟨[("a", ⟨["x"], [(10, [.fin 1]), (20, [.fin 2])]⟩), ("b", ⟨["y"], [(5, [.fin 1]), (9, [.fin 3]), (15, [.fin 8])]⟩)], []⟩ =
    .error .keyError := by
  decide +kernel

example : transform (K := ℚ) [("a", none), ("b", some fun f => .ok ⟨f.cols, f.rows.drop 1⟩)] [] [("b", ⟨["y"], [(5, [.fin 1]), (9, [.fin 3])]⟩), ("a", ⟨["x"], []⟩)] =
    .ok ⟨[("a", ⟨["x"], []⟩), ("b", ⟨["y"], [(9, [.fin 3])]⟩)], []⟩ ∧
    transform (K := ℚ) [("a", none)] [] [("b", ⟨["y"], [(5, [.fin 1])]⟩), ("a", ⟨["x"], []⟩)] = .error .assertionError := by
  decide +kernel

end Mizar.Props
