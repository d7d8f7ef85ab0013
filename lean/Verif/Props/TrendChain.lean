import Verif.Spec.TrendChain
import Verif.Props.TrendWindow
import Verif.Props.Uniqueness
import Verif.Props.SeqBootstrap
import Verif.Props.CV

/-!
Property theorems C152: trend-scanning labels in the weights, the bootstrap and the purged cross validation
(`/repo/mizarlabs/transformers/targets/trend_scanning.py`, `sample_weights/average_uniqueness.py`,
`model/bootstrapping.py`, `model/model_selection.py`).
-/

namespace Mizar.Props
open Mizar.Spec Mizar.Brk Mizar.Trend Mizar.Boot

private theorem fill_len (em : ErrModel) (w : List (XF ℝ)) (m : ℕ) (fs : List ℕ) (a b : List (XF ℝ)) (h : fill em w m fs a = .ok b) : b.length = a.length := by
  induction fs generalizing a with
  | nil => simp only [fill, Except.ok.injEq] at h; rw [h]
  | cons f fs ih =>
    unfold fill at h
    obtain ⟨t, -, h2⟩ := Py.bind_eq_ok.1 h
    simpa using ih _ h2

private theorem bestAt_lt (em : ErrModel) (mem : ℕ → XF ℝ) (p : Params) (w : List (XF ℝ)) (hw : p.minLen < w.length) (r : XF ℝ × ℕ)
    (h : bestAt em mem p w = .ok r) : r.2 < w.length - p.minLen := by
  unfold bestAt at h
  obtain ⟨fs, -, h⟩ := Py.bind_eq_ok.1 h
  obtain ⟨a, ha, h⟩ := Py.bind_eq_ok.1 h
  simp only [Except.ok.injEq] at h
  have hl := fill_len _ _ _ _ _ _ ha
  rw [List.length_map, List.length_range] at hl
  rw [← h]
  have := argmax_lt (a.map XF.abs) (by intro h0; have := congrArg List.length h0; simp [hl] at this; omega)
  simpa [hl] using this

private theorem labelAt_end (em : ErrModel) (mem : ℕ → ℕ → XF ℝ) (p : Params) (h1 : 1 ≤ p.minLen) (hp : p.minLen < p.look) (s : List (ℤ × XF ℝ)) (e : ℤ) (k : ℕ) (l : Label)
    (h : labelAt em mem p s (e, k) = .ok l) (u : ℤ) (hu : l.eventEnd = some u) :
    ∃ q, p.minLen ≤ q + 1 ∧ q + 1 < p.look ∧ (s.map (·.1))[(s.map (·.1)).idxOf e + q]? = some u ∧ (s.map (·.1)).idxOf e + p.look ≤ s.length := by
  unfold labelAt scanAt at h
  dsimp only at h
  generalize (s.map (·.1)).idxOf e = i at *
  by_cases hf : (((s.map (·.2)).drop i).take p.look).length = p.look
  · rw [if_pos hf] at h
    obtain ⟨r, hr, h⟩ := Py.bind_eq_ok.1 h
    obtain ⟨r', hr', hr⟩ := Py.bind_eq_ok.1 hr
    have hlt := bestAt_lt em _ p _ (by rw [hf]; exact hp) r' hr'
    rw [hf] at hlt
    simp only [Except.ok.injEq] at h hr
    subst h hr
    simp only [Option.map_some, Option.some.injEq] at hu
    have hil : i + p.look ≤ s.length := by
      simp only [List.length_take, List.length_drop, List.length_map] at hf; omega
    refine ⟨r'.2 + p.minLen - 1, by omega, by omega, ?_, hil⟩
    rw [← hu, List.getD_eq_getElem?_getD, show i + (r'.2 + p.minLen - 1) = i + r'.2 + p.minLen - 1 by omega]
    have hlt2 : i + r'.2 + p.minLen - 1 < (s.map (·.1)).length := by rw [List.length_map]; omega
    rw [List.getElem?_eq_getElem hlt2]
    rfl
  · rw [if_neg hf] at h
    simp only [Py.bind_ok, Except.ok.injEq] at h
    subst h
    cases hu

private theorem labelAt_time (em : ErrModel) (mem : ℕ → ℕ → XF ℝ) (p : Params) (s : List (ℤ × XF ℝ)) (e : ℤ × ℕ) (l : Label)
    (h : labelAt em mem p s e = .ok l) : l.time = e.1 := by
  unfold labelAt at h
  obtain ⟨r, -, h⟩ := Py.bind_eq_ok.1 h
  simp only [Except.ok.injEq] at h
  rw [← h]

private theorem out_times (em : ErrModel) (mem : ℕ → ℕ → XF ℝ) (p : Params) (events : Option (List ℤ)) (s : List (ℤ × XF ℝ)) (out : List Label)
    (h : (Trend.transform em mem p events s).2 = .ok out) : out.map (·.time) = events.getD (s.map (·.1)) := by
  have hrun : mapE (labelAt em mem p s) (events.getD (s.map (·.1))).zipIdx = .ok out := by
    unfold Trend.transform at h
    cases events with
    | none => exact h
    | some ev =>
      dsimp only at h
      split at h
      · exact h
      · cases h
  generalize events.getD (s.map (·.1)) = ev at hrun
  have hlen := mapE_length hrun
  apply List.ext_getElem
  · simpa using hlen
  · intro k h1 h2
    obtain ⟨_, hk⟩ := mapE_getElem hrun k (by simpa using h2)
    have := labelAt_time _ _ _ _ _ _ hk
    simpa using this

private theorem trendEvents_starts (out : List Label) : ((trendEvents out).map (·.1)).Sublist (out.map (·.time)) := by
  unfold trendEvents
  induction out with
  | nil => simp
  | cons l out ih =>
    cases hl : l.eventEnd with
    | none =>
      rw [List.filterMap_cons_none (by simp [hl])]
      exact ih.cons _
    | some u =>
      rw [List.filterMap_cons_some (b := (l.time, u)) (by simp [hl])]
      exact ih.cons_cons _

/-- C152 (events): on increasing bars and for increasing events, whatever the step, the labelled events start in increasing order, each
starts and ends at a bar, and its end is `min_sample_length - 1` to `look_forward_window - 2` bars after its start. -/
theorem C152_events (em : ErrModel) (mem : ℕ → ℕ → XF ℝ) (p : Params) (h2 : 2 ≤ p.minLen) (hp : p.minLen < p.look) (s : List (ℤ × XF ℝ))
    (hs : (s.map (·.1)).Pairwise (· < ·)) (events : Option (List ℤ)) (hev : ∀ ev, events = some ev → ev.Pairwise (· < ·)) (out : List Label)
    (h : (Trend.transform em mem p events s).2 = .ok out) :
    ((trendEvents out).map (·.1)).Pairwise (· < ·) ∧
      ∀ e ∈ trendEvents out, e.1 < e.2 ∧ ∃ i j : ℕ, (s.map (·.1))[i]? = some e.1 ∧ (s.map (·.1))[j]? = some e.2 ∧ i + p.minLen ≤ j + 1 ∧ j + 1 < i + p.look ∧
        i + p.look ≤ s.length := by
  constructor
  · have ht := out_times em mem p events s out h
    have hsub := trendEvents_starts out
    rw [ht] at hsub
    refine List.Pairwise.sublist hsub ?_
    cases events with
    | none => exact hs
    | some ev => exact hev ev rfl
  · intro e he
    obtain ⟨l, hl, hle⟩ := List.mem_filterMap.1 he
    obtain ⟨u, hu, rfl⟩ := Option.map_eq_some_iff.1 hle
    obtain ⟨k, hk, hin⟩ := mem_transform h hl
    obtain ⟨q, q1, q2, q3, q4⟩ := labelAt_end em mem p (by omega) hp s l.time k l hk u hu
    have hil : (s.map (·.1)).idxOf l.time < (s.map (·.1)).length := List.idxOf_lt_length_iff.2 hin
    have hi : (s.map (·.1))[(s.map (·.1)).idxOf l.time]? = some l.time := by
      rw [List.getElem?_eq_getElem hil, List.getElem_idxOf hil]
    generalize (s.map (·.1)).idxOf l.time = i at *
    refine ⟨?_, i, i + q, hi, q3, by omega, by omega, q4⟩
    obtain ⟨a1, a2⟩ := List.getElem?_eq_some_iff.1 hi
    obtain ⟨b1, b2⟩ := List.getElem?_eq_some_iff.1 q3
    dsimp only
    rw [← a2, ← b2]
    exact List.pairwise_iff_getElem.1 hs _ _ a1 b1 (by omega)

/-- C152 (bootstrap): two or more labelled events can be given to `AverageUniqueness`, to `get_ind_matrix` with the bars, and the matrix to
`seq_bootstrap`: nothing raises, every uniqueness is above 0 and at most 1, and any number of events can be drawn. -/
theorem C152_bootstrap (em : ErrModel) (mem : ℕ → ℕ → XF ℝ) (p : Params) (h2 : 2 ≤ p.minLen) (hp : p.minLen < p.look) (s : List (ℤ × XF ℝ))
    (hs : (s.map (·.1)).Pairwise (· < ·)) (events : Option (List ℤ)) (hev : ∀ ev, events = some ev → ev.Pairwise (· < ·)) (out : List Label)
    (h : (Trend.transform em mem p events s).2 = .ok out) (hlen : 2 ≤ (trendEvents out).length) :
    (∃ u : List ℚ, averageUniqueness ((trendEvents out).map fun e => (e.1, some e.2)) =
        .ok (((trendEvents out).map (·.1)).zip (u.map .fin)) ∧ u.length = (trendEvents out).length ∧ ∀ x ∈ u, 0 < x ∧ x ≤ 1) ∧
      ∃ M bi, getIndMatrix ((trendEvents out).map fun e => (some e.1, some e.2)) (s.map (·.1)) = .ok (M, bi) ∧
        M.nCols = (trendEvents out).length ∧
        ∀ rng, ValidRng M.nCols rng → ∀ (len k : ℕ), 1 ≤ k → ∃ l, seqBootstrap M rng (some len) k = .ok l ∧ l.length = len ∧
          ∀ j ∈ l, j < (trendEvents out).length := by
  obtain ⟨h2', h3⟩ := C152_events em mem p h2 hp s hs events hev out h
  generalize trendEvents out = ev at *
  have hse : ∀ e ∈ ev, e.1 ≤ e.2 := fun e he => (h3 e he).1.le
  have hnd : (ev.map (·.1)).Nodup := h2'.imp fun h => ne_of_lt h
  constructor
  · obtain ⟨hu, hb⟩ := C13_transform ev hlen hnd hse
    refine ⟨ev.map (eventUniq (ev.map (·.1) ++ ev.map (·.2)).toFinset ev), ?_, by simp, ?_⟩
    · rw [hu, List.map_map, List.zip_map']
      rfl
    · intro x hx
      obtain ⟨e, he, rfl⟩ := List.mem_map.1 hx
      exact hb e he
  · have hne : ∃ e ∈ ev, ∃ e' ∈ ev, e ≠ e' := by
      match ev, hlen, hnd with
      | a :: b :: l, _, hnd =>
        refine ⟨a, by simp, b, by simp, ?_⟩
        intro hab
        simp [hab] at hnd
    obtain ⟨⟨M, bi⟩, hM⟩ := (C12_returns_iff_partial ev (s.map (·.1)) (by rintro rfl; simp at hlen) hse).1.2 hne
    have hc := (C11_indicator_matrix ev (s.map (·.1)) M bi hM).2.2.2.1
    refine ⟨M, bi, hM, hc, ?_⟩
    intro rng hrng len k hk
    obtain ⟨l, e1, e2, e3⟩ := C16_length_and_range M (by omega) rng hrng (some len) k (by omega)
    exact ⟨l, e1, by simpa using e2, fun j hj => hc ▸ e3 j hj⟩

/-- C152 (cross validation): the labelled events form a dataset as the cross validation requires it. -/
theorem C152_cross_validation (em : ErrModel) (mem : ℕ → ℕ → XF ℝ) (p : Params) (h2 : 2 ≤ p.minLen) (hp : p.minLen < p.look) (s : List (ℤ × XF ℝ))
    (hs : (s.map (·.1)).Pairwise (· < ·)) (events : Option (List ℤ)) (hev : ∀ ev, events = some ev → ev.Pairwise (· < ·)) (out : List Label)
    (h : (Trend.transform em mem p events s).2 = .ok out) :
    Timeline (trendEvents out).length (fun i => ((trendEvents out).getD i (0, 0)).1) (fun i => ((trendEvents out).getD i (0, 0)).2) := by
  obtain ⟨h2', h3⟩ := C152_events em mem p h2 hp s hs events hev out h
  generalize trendEvents out = ev at *
  constructor
  · intro i j hij hj
    rw [List.getD_eq_getElem?_getD, List.getD_eq_getElem?_getD, List.getElem?_eq_getElem hj, List.getElem?_eq_getElem (lt_of_le_of_lt hij hj)]
    rcases Nat.eq_or_lt_of_le hij with rfl | hlt
    · exact le_refl _
    · have := List.pairwise_iff_getElem.1 h2' i j (by simp; omega) (by simpa using hj) hlt
      simp only [List.getElem_map] at this
      exact this.le
  · intro i hi
    rw [List.getD_eq_getElem?_getD, List.getElem?_eq_getElem hi]
    exact (h3 _ (List.getElem_mem hi)).1.le

/-- C152 (purging, step one): if the evaluation time of every labelled event is the last bar that decides its label, `look_forward_window - 2` bars
after its start, then the row of a training event before a test event is the same when the values from the test event's bar on are others. -/
theorem C152_purged_partial (em : ErrModel) (mem mem' : ℕ → ℕ → XF ℝ) (look minLen : ℕ) (h2 : 2 ≤ minLen) (hml : minLen < look) (s s' : List (ℤ × XF ℝ))
    (hs : (s.map (·.1)).Pairwise (· < ·)) (htimes : s'.map (·.1) = s.map (·.1)) (events : Option (List ℤ)) (hev : ∀ ev, events = some ev → ev.Pairwise (· < ·))
    (out out' : List Label) (h : (Trend.transform em mem ⟨look, minLen, 1⟩ events s).2 = .ok out)
    (h' : (Trend.transform em mem' ⟨look, minLen, 1⟩ events s').2 = .ok out') (eval : ℕ → ℤ)
    (heval : ∀ i < (trendEvents out).length, ∀ j : ℕ, (s.map (·.1))[j]? = some ((trendEvents out).getD i (0, 0)).1 → (s.map (·.1))[j + look - 2]? = some (eval i))
    (g k : ℕ) (hg : 1 ≤ g) (emb : ℤ) (rounds : List (List ℕ × List ℕ))
    (hsp : CV.split (trendEvents out).length g k (fun i => ((trendEvents out).getD i (0, 0)).1) eval emb = .ok rounds)
    (r : List ℕ × List ℕ) (hr : r ∈ rounds) (i t : ℕ) (hi : i ∈ r.1) (ht : t ∈ r.2) (hit : i < t)
    (m : ℕ) (hm : (s.map (·.1))[m]? = some ((trendEvents out).getD t (0, 0)).1) (hsame : s.take m = s'.take m) :
    ∃ l ∈ out, l.time = ((trendEvents out).getD i (0, 0)).1 ∧ l ∈ out' := by
  obtain ⟨e1, e2⟩ := C152_events em mem ⟨look, minLen, 1⟩ h2 hml s hs events hev out h
  have hTl := C152_cross_validation em mem ⟨look, minLen, 1⟩ h2 hml s hs events hev out h
  have hpos : ∀ i < (trendEvents out).length, ∃ j : ℕ, (s.map (·.1))[j]? = some ((trendEvents out).getD i (0, 0)).1 ∧ j + look ≤ s.length := by
    intro i hi
    rw [List.getD_eq_getElem?_getD, List.getElem?_eq_getElem hi]
    obtain ⟨-, j, -, hj, -, -, -, hjl⟩ := e2 _ (List.getElem_mem hi)
    exact ⟨j, hj, hjl⟩
  have hlt_of : ∀ {a b : ℕ} {x y : ℤ}, (s.map (·.1))[a]? = some x → (s.map (·.1))[b]? = some y → (x < y ↔ a < b) := by
    intro a b x y ha hb
    obtain ⟨a1, a2⟩ := List.getElem?_eq_some_iff.1 ha
    obtain ⟨b1, b2⟩ := List.getElem?_eq_some_iff.1 hb
    rw [← a2, ← b2]
    constructor
    · intro hxy
      by_contra hcon
      rcases Nat.eq_or_lt_of_le (Nat.not_lt.1 hcon) with heq | hlt
      · subst heq; exact lt_irrefl _ hxy
      · exact lt_asymm hxy (List.pairwise_iff_getElem.1 hs _ _ b1 a1 hlt)
    · exact List.pairwise_iff_getElem.1 hs _ _ a1 b1
  have hT : Timeline (trendEvents out).length (fun i => ((trendEvents out).getD i (0, 0)).1) eval := by
    refine ⟨hTl.mono, ?_⟩
    intro a ha
    obtain ⟨j, hj, hjl⟩ := hpos a ha
    have := (hlt_of hj (heval a ha j hj)).2 (by omega)
    exact this.le
  have hlt := C05_purged_before_test _ g k _ _ emb hg hT rounds hsp r hr i t hi ht hit
  have hil : i < (trendEvents out).length := (C04_train_test_disjoint _ g k _ _ emb hg rounds hsp r hr).2.2.1 i hi
  obtain ⟨j, hj, hjl⟩ := hpos i hil
  have hjm : j + look - 2 < m := (hlt_of (heval i hil j hj) hm).1 hlt
  -- the row in the first result
  have hmem : (trendEvents out).getD i (0, 0) ∈ trendEvents out := by
    rw [List.getD_eq_getElem?_getD, List.getElem?_eq_getElem hil]
    exact List.getElem_mem hil
  obtain ⟨l, hl, hle⟩ := List.mem_filterMap.1 hmem
  obtain ⟨u, -, hlt'⟩ := Option.map_eq_some_iff.1 hle
  have hltime : l.time = ((trendEvents out).getD i (0, 0)).1 := by rw [← hlt']
  -- and in the second
  have ho := out_times em mem _ events s out h
  have ho' := out_times em mem' _ events s' out' h'
  rw [htimes] at ho'
  have : l.time ∈ out'.map (·.time) := by rw [ho', ← ho]; exact List.mem_map.2 ⟨l, hl, rfl⟩
  obtain ⟨l', hl', hte⟩ := List.mem_map.1 this
  have hnd : (s.map (·.1)).Nodup := hs.imp fun h => ne_of_lt h
  have hlen : s.length = s'.length := by simpa using (congrArg List.length htimes).symm
  have heq := C117_window_partial em mem mem' look minLen hml s s' hnd (by rw [htimes]; exact hnd) events events out out' h h' l.time j j
    (by rw [hltime]; exact hj) (by rw [htimes, hltime]; exact hj) ⟨?_, by rw [hlen]⟩ l hl l' hl' rfl hte
  · exact ⟨l, hl, hltime, heq ▸ hl'⟩
  · have := congrArg (fun x => (x.drop j).take (look - 1)) hsame
    simp only [List.drop_take, List.take_take] at this
    rwa [Nat.min_eq_left (by omega)] at this

/-! ### Purging by the reported end -/

/-- The bars of `bumpSeries` and three more. -/
def bumpLong (x : ℝ) : List (ℤ × XF ℝ) := bumpSeries x ++ [(5, .fin 10), (6, .fin 12), (7, .fin 11)]

/-- The values of `bumpLong`. -/
def bumpLongY (x : ℝ) (i : ℕ) : ℝ := match i with
  | 0 => 10
  | 1 => 12
  | 3 => x
  | 5 => 10
  | 6 => 12
  | _ => 11

private theorem bumpLong_complete (x : ℝ) : Complete (bumpLong x) (bumpLongY x) := by
  intro i hi
  simp only [bumpLong, bumpSeries, List.length_append, List.length_cons, List.length_nil] at hi
  match i, hi with
  | 0, _ => simp [bumpLong, bumpSeries, bumpLongY]
  | 1, _ => simp [bumpLong, bumpSeries, bumpLongY]
  | 2, _ => simp [bumpLong, bumpSeries, bumpLongY]
  | 3, _ => simp [bumpLong, bumpSeries, bumpLongY]
  | 4, _ => simp [bumpLong, bumpSeries, bumpLongY]
  | 5, _ => simp [bumpLong, bumpSeries, bumpLongY]
  | 6, _ => simp [bumpLong, bumpSeries, bumpLongY]
  | 7, _ => simp [bumpLong, bumpSeries, bumpLongY]

private theorem bumpLong_times (x : ℝ) : (bumpLong x).map (·.1) = [0, 1, 2, 3, 4, 5, 6, 7] := by simp [bumpLong, bumpSeries]

/-- Both events of the long series have an end, two to `look - 2` bars after the start. -/
theorem bumpLong_rows (em : ErrModel) (mem : ℕ → ℕ → XF ℝ) (x : ℝ) (hx : x ≠ 12) (look : ℕ) (hl : 3 < look) (hl' : look ≤ 5) :
    ∃ a b, (Trend.transform em mem ⟨look, 3, 1⟩ (some [0, 3]) (bumpLong x)).2 = .ok [a, b] ∧ a.time = 0 ∧ b.time = 3 ∧
      (∃ n : ℕ, 2 ≤ n ∧ n + 1 < look ∧ a.eventEnd = some (n : ℤ)) ∧ ∃ n : ℕ, 2 ≤ n ∧ n + 1 < look ∧ b.eventEnd = some ((3 + n : ℕ) : ℤ) := by
  have hpos : ∀ (i : ℕ) (e : ℤ), ((bumpLong x).map (·.1))[i]? = some e → e = i := by
    intro i e hi
    rw [bumpLong_times] at hi
    obtain ⟨hi1, hi2⟩ := List.getElem?_eq_some_iff.1 hi
    simp only [List.length_cons, List.length_nil] at hi1
    interval_cases i <;> simp_all
  obtain ⟨out, h1, h2⟩ := C71_best_partial em mem look 3 hl (bumpLong x) (bumpLongY x) (bumpLong_complete x) (by rw [bumpLong_times]; decide) (some [0, 3])
    (by rw [bumpLong_times]; simp [eventTimes]) (by
      intro i e hi he _
      simp only [eventTimes, Option.getD_some, List.mem_cons, List.not_mem_nil, or_false] at he
      have hie := hpos i e hi
      have hc : i = 0 ∨ i = 3 := by omega
      intro a b
      by_contra hcon
      push Not at hcon
      have h0 := hcon 0 (by norm_num)
      have h1 := hcon 1 (by norm_num)
      have h2 := hcon 2 (by norm_num)
      rcases hc with rfl | rfl
      · norm_num [bumpLongY] at h0 h1 h2
        linarith
      · norm_num [bumpLongY] at h0 h1 h2
        exact hx (by linarith))
  simp only [eventTimes, Option.getD_some] at h2
  rcases h2 with _ | ⟨ha, h3⟩
  rcases h3 with _ | ⟨hb, h4⟩
  cases h4
  have key : ∀ (e : ℕ) (l : Label), e ≤ 3 → (l.time = (e : ℤ) ∧ ∃ i, ((bumpLong x).map (·.1))[i]? = some (e : ℤ) ∧
        if i + look ≤ (bumpLong x).length then
          ∃ n t, IsBestWindow (bumpLongY x) i 3 look n t ∧ l.tValue = .fin t ∧ (∃ u, l.eventEnd = some u ∧ ((bumpLong x).map (·.1))[i + n - 1]? = some u) ∧
            (bumpLongY x i ≠ 0 → l.ret = .fin (bumpLongY x (i + n - 1) / bumpLongY x i - 1)) ∧
            ((0 < t ∧ l.label = .fin 1) ∨ (t < 0 ∧ l.label = .fin (-1)) ∨ (t = 0 ∧ l.label = .fin 0))
        else Missing l) → ∃ n : ℕ, 2 ≤ n ∧ n + 1 < look ∧ l.eventEnd = some ((e + n : ℕ) : ℤ) := by
    intro e l he ⟨_, i, hi, hb⟩
    have hie : i = e := by have := hpos i _ hi; omega
    subst hie
    rw [if_pos (by simp [bumpLong, bumpSeries]; omega)] at hb
    obtain ⟨n, t, ⟨n1, n2, -⟩, -, ⟨u, hu, hu'⟩, -⟩ := hb
    refine ⟨n - 1, by omega, by omega, ?_⟩
    rw [hu, hpos _ _ hu', show i + n - 1 = i + (n - 1) by omega]
  refine ⟨_, _, h1, ha.1, hb.1, ?_, key 3 _ (le_refl _) hb⟩
  have := key 0 _ (by norm_num) ha
  simpa using this

/-- C152 (refutation): purging by the reported end time leaks the test set.  The event at time 0 stays in the training set of the round that
tests the event at time 3, as its reported end is time 2, yet its label changes from 1 to -1 with the value at time 3. -/
theorem C152_purged_refuted (em : ErrModel) (mem : ℕ → ℕ → XF ℝ) :
    ∃ a b a' b', (Trend.transform em mem ⟨5, 3, 1⟩ (some [0, 3]) (bumpLong 11)).2 = .ok [a, b] ∧
      (Trend.transform em mem ⟨5, 3, 1⟩ (some [0, 3]) (bumpLong 3)).2 = .ok [a', b'] ∧
      (bumpLong 11).take 3 = (bumpLong 3).take 3 ∧
      (∃ rounds, CV.split (trendEvents [a, b]).length 2 1 (fun i => ((trendEvents [a, b]).getD i (0, 0)).1) (fun i => ((trendEvents [a, b]).getD i (0, 0)).2) 0 = .ok rounds ∧
        ([0], [1]) ∈ rounds) ∧ ((trendEvents [a, b]).map (·.1)) = [0, 3] ∧ a.label = .fin 1 ∧ a'.label = .fin (-1) := by
  obtain ⟨l, l', h1, h1', hend, -, -, hl, hl'⟩ := C117_event_end_refuted em mem
  obtain ⟨a, b, h2, ha, hb, -, n, n1, n2, hbn⟩ := bumpLong_rows em mem 11 (by norm_num) 5 (by norm_num) (by norm_num)
  obtain ⟨a', b', h2', ha', -⟩ := bumpLong_rows em mem 3 (by norm_num) 5 (by norm_num) (by norm_num)
  have hbe : b.eventEnd = some 5 ∨ b.eventEnd = some 6 := by
    obtain rfl | rfl : n = 2 ∨ n = 3 := by omega
    · exact Or.inl hbn
    · exact Or.inr hbn
  have hlt : l.time = 0 := by
    have := out_times _ _ _ _ _ _ h1
    simpa using this
  have hlt' : l'.time = 0 := by
    have := out_times _ _ _ _ _ _ h1'
    simpa using this
  have ea : l = a := C117_further_bars em mem mem 5 3 (by norm_num) (bumpSeries 11) [(5, .fin 10), (6, .fin 12), (7, .fin 11)]
    (by simp [bumpSeries]) (some [0]) (some [0, 3]) [l] [a, b] h1 h2 0 0 (by simp [bumpSeries]) (by simp [bumpSeries]) l (by simp) a (by simp) hlt ha
  have ea' : l' = a' := C117_further_bars em mem mem 5 3 (by norm_num) (bumpSeries 3) [(5, .fin 10), (6, .fin 12), (7, .fin 11)]
    (by simp [bumpSeries]) (some [0]) (some [0, 3]) [l'] [a', b'] h1' h2' 0 0 (by simp [bumpSeries]) (by simp [bumpSeries]) l' (by simp) a' (by simp) hlt' ha'
  subst ea ea'
  refine ⟨l, b, l', b', h2, h2', by simp [bumpLong, bumpSeries], ?_, ?_, hl, hl'⟩
  · rcases hbe with hbe | hbe
    · have : trendEvents [l, b] = [(0, 2), (3, 5)] := by simp [trendEvents, hend, hbe, ha, hb]
      rw [this]
      exact ⟨[([0], [1]), ([1], [0])], by decide +kernel, by simp⟩
    · have : trendEvents [l, b] = [(0, 2), (3, 6)] := by simp [trendEvents, hend, hbe, ha, hb]
      rw [this]
      exact ⟨[([0], [1]), ([1], [0])], by decide +kernel, by simp⟩
  · rcases hbe with hbe | hbe <;> simp [trendEvents, hend, hbe, ha, hb]

/-- A case of the theorems above: with windows of three bars the events at 0 and 3 end at 2 and 5, where their look-forward windows are
decided, so both series have two labelled events and the event at 0 trains in the round that tests the event at 3. -/
example (em : ErrModel) (mem : ℕ → ℕ → XF ℝ) (x : ℝ) (hx : x ≠ 12) :
    ((bumpLong x).map (·.1)).Pairwise (· < ·) ∧ ∃ out, (Trend.transform em mem ⟨4, 3, 1⟩ (some [0, 3]) (bumpLong x)).2 = .ok out ∧
      trendEvents out = [(0, 2), (3, 5)] ∧
      (∀ i < (trendEvents out).length, ∀ j : ℕ, ((bumpLong x).map (·.1))[j]? = some ((trendEvents out).getD i (0, 0)).1 →
        ((bumpLong x).map (·.1))[j + 4 - 2]? = some ((trendEvents out).getD i (0, 0)).2) ∧
      ∃ rounds, CV.split (trendEvents out).length 2 1 (fun i => ((trendEvents out).getD i (0, 0)).1) (fun i => ((trendEvents out).getD i (0, 0)).2) 0 = .ok rounds ∧
        ([0], [1]) ∈ rounds := by
  refine ⟨by rw [bumpLong_times]; decide, ?_⟩
  obtain ⟨a, b, h, ha, hb, ⟨n, n1, n2, hn⟩, m, m1, m2, hm⟩ := bumpLong_rows em mem x hx 4 (by norm_num) (by norm_num)
  obtain rfl : n = 2 := by omega
  obtain rfl : m = 2 := by omega
  have he : trendEvents [a, b] = [(0, 2), (3, 5)] := by simp [trendEvents, ha, hb, hn, hm]
  refine ⟨_, h, he, ?_, ?_⟩
  · rw [he, bumpLong_times]
    intro i hi j hj
    obtain ⟨hj1, hj2⟩ := List.getElem?_eq_some_iff.1 hj
    simp only [List.length_cons, List.length_nil] at hj1 hi
    interval_cases i <;> interval_cases j <;> simp_all
  · rw [he]
    exact ⟨[([0], [1]), ([1], [0])], by decide +kernel, by simp⟩

end Mizar.Props
