import Verif.Props.TrendScan

/-!
Property theorems C117: which bars a trend-scanning label depends on
(`/repo/mizarlabs/transformers/targets/trend_scanning.py`).
-/

namespace Mizar.Props
open Mizar.Spec Mizar.Brk Mizar.Trend

/-- The bars a label at position `i` may depend on agree: the first `look - 1` bars from the event on, and whether there
are `look` bars at all. -/
def SameWindow (look : ℕ) (s s' : List (ℤ × XF ℝ)) (i i' : ℕ) : Prop :=
  (s.drop i).take (look - 1) = (s'.drop i').take (look - 1) ∧ (i + look ≤ s.length ↔ i' + look ≤ s'.length)

theorem sameWindow_getD {α : Type} (f : ℤ × XF ℝ → α) (d : α) {look : ℕ} {s s' : List (ℤ × XF ℝ)} {i i' : ℕ} (h : SameWindow look s s' i i')
    (k : ℕ) (hk : k < look - 1) : (s.map f).getD (i + k) d = (s'.map f).getD (i' + k) d := by
  have := congrArg (fun l => l[k]?) h.1
  simp only [List.getElem?_take, if_pos hk, List.getElem?_drop] at this
  rw [List.getD_eq_getElem?_getD, List.getD_eq_getElem?_getD, List.getElem?_map, List.getElem?_map, this]

theorem sameWindow_take {look : ℕ} {s s' : List (ℤ × XF ℝ)} {i i' : ℕ} (h : SameWindow look s s' i i') (n : ℕ) (hn : n ≤ look - 1) :
    (((s.map (·.2)).drop i).take look).take n = (((s'.map (·.2)).drop i').take look).take n := by
  have := congrArg (fun l => (l.map (·.2)).take n) h.1
  simp only [List.map_take, List.map_drop, List.take_take] at this ⊢
  rw [Nat.min_eq_left (by omega)] at this ⊢
  exact this

theorem labelAt_window (em : ErrModel) (mem mem' : ℕ → ℕ → XF ℝ) (look minLen : ℕ) (hml : minLen < look) (s s' : List (ℤ × XF ℝ)) (e : ℤ)
    (k k' : ℕ) (h : SameWindow look s s' ((s.map (·.1)).idxOf e) ((s'.map (·.1)).idxOf e)) :
    labelAt em mem ⟨look, minLen, 1⟩ s (e, k) = labelAt em mem' ⟨look, minLen, 1⟩ s' (e, k') := by
  unfold labelAt scanAt
  dsimp only
  generalize (s.map (·.1)).idxOf e = i at *
  generalize (s'.map (·.1)).idxOf e = i' at *
  by_cases hf : i + look ≤ s.length
  · have hf' := h.2.1 hf
    have hl : (((s.map (·.2)).drop i).take look).length = look := by simp; omega
    have hl' : (((s'.map (·.2)).drop i').take look).length = look := by simp; omega
    rw [if_pos hl, if_pos hl', bestAt_one, bestAt_one, hl, hl']
    have hm : mapE (fun q => trendT em ((((s.map (·.2)).drop i).take look).take (minLen + q))) (List.range (look - minLen)) =
        mapE (fun q => trendT em ((((s'.map (·.2)).drop i').take look).take (minLen + q))) (List.range (look - minLen)) := by
      apply mapE_congr
      intro q hq
      rw [List.mem_range] at hq
      rw [sameWindow_take h _ (by omega)]
    by_cases h0 : minLen = 0
    · subst h0
      rw [mapE_range_head _ _ (by omega) .linAlgError (trendT_short em _ (by simp)),
        mapE_range_head _ _ (by omega) .linAlgError (trendT_short em _ (by simp))]
      rfl
    · rw [hm]
      cases hr : mapE (fun q => trendT em ((((s'.map (·.2)).drop i').take look).take (minLen + q))) (List.range (look - minLen)) with
      | error er => rfl
      | ok a =>
        have hla : a.length = look - minLen := by rw [mapE_length hr, List.length_range]
        have hb : argmax (a.map XF.abs) < look - minLen := by
          have := argmax_lt (a.map XF.abs) (by intro h; have := congrArg List.length h; simp [hla] at this; omega)
          simpa [hla] using this
        show Except.ok _ = Except.ok _
        simp only [Py.bind_ok, Option.map_some]
        generalize argmax (a.map XF.abs) = b at hb ⊢
        have e1 : i + b + minLen - 1 = i + (b + minLen - 1) := by omega
        have e2 : i' + b + minLen - 1 = i' + (b + minLen - 1) := by omega
        have t1 := sameWindow_getD (·.1) 0 h (b + minLen - 1) (by omega)
        have t2 := sameWindow_getD (·.2) .nan h (b + minLen - 1) (by omega)
        have t3 := sameWindow_getD (·.2) .nan h 0 (by omega)
        simp only [Nat.add_zero] at t3
        simp only [e1, e2, t1, t2, t3]
  · have hf' : ¬ i' + look ≤ s'.length := fun x => hf (h.2.2 x)
    have hl : (((s.map (·.2)).drop i).take look).length ≠ look := by simp; omega
    have hl' : (((s'.map (·.2)).drop i').take look).length ≠ look := by simp; omega
    rw [if_neg hl, if_neg hl']
    rfl

theorem mem_transform {em : ErrModel} {mem : ℕ → ℕ → XF ℝ} {p : Params} {events : Option (List ℤ)} {s : List (ℤ × XF ℝ)} {out : List Label}
    (h : (Trend.transform em mem p events s).2 = .ok out) {l : Label} (hl : l ∈ out) :
    ∃ k, labelAt em mem p s (l.time, k) = .ok l ∧ l.time ∈ s.map (·.1) := by
  have hrun : ∃ ev : List ℤ, mapE (labelAt em mem p s) ev.zipIdx = .ok out ∧ ∀ e ∈ ev, e ∈ s.map (·.1) := by
    unfold Trend.transform at h
    cases events with
    | none => exact ⟨_, h, fun e he => he⟩
    | some ev =>
      dsimp only at h
      split at h
      · rename_i hall
        exact ⟨_, h, hall⟩
      · cases h
  obtain ⟨ev, hev, hall⟩ := hrun
  obtain ⟨k, hk, rfl⟩ := List.mem_iff_getElem.1 hl
  have hk' : k < ev.zipIdx.length := by rw [← mapE_length hev]; exact hk
  obtain ⟨_, hlab⟩ := mapE_getElem hev k hk'
  have hin : (ev.zipIdx[k]).1 ∈ ev := by simp
  generalize ev.zipIdx[k] = e at hlab hin
  have ht : out[k].time = e.1 := by
    unfold labelAt at hlab
    dsimp only at hlab
    obtain ⟨r, hr, hlab'⟩ := Py.bind_eq_ok.1 hlab
    simp only [Except.ok.injEq] at hlab'
    rw [← hlab']
  exact ⟨e.2, by rw [ht]; exact hlab, by rw [ht]; exact hall _ hin⟩

/-- C117 (the look-forward window decides): with step one, two series that agree on the bars of an event's look-forward window
but the last give the event the same row, wherever the window lies in them, whatever the other bars, the other events and
the memory hold.  The last bar of the window only has to exist. -/
theorem C117_window_partial (em : ErrModel) (mem mem' : ℕ → ℕ → XF ℝ) (look minLen : ℕ) (hml : minLen < look) (s s' : List (ℤ × XF ℝ))
    (hnd : (s.map (·.1)).Nodup) (hnd' : (s'.map (·.1)).Nodup) (events events' : Option (List ℤ)) (out out' : List Label)
    (h : (Trend.transform em mem ⟨look, minLen, 1⟩ events s).2 = .ok out) (h' : (Trend.transform em mem' ⟨look, minLen, 1⟩ events' s').2 = .ok out')
    (e : ℤ) (i i' : ℕ) (hi : (s.map (·.1))[i]? = some e) (hi' : (s'.map (·.1))[i']? = some e) (hw : SameWindow look s s' i i') :
    ∀ l ∈ out, ∀ l' ∈ out', l.time = e → l'.time = e → l = l' := by
  intro l hl l' hl' hte hte'
  obtain ⟨k, hk, -⟩ := mem_transform h hl
  obtain ⟨k', hk', -⟩ := mem_transform h' hl'
  have idx : ∀ {s : List (ℤ × XF ℝ)} {i : ℕ}, (s.map (·.1)).Nodup → (s.map (·.1))[i]? = some e → (s.map (·.1)).idxOf e = i := by
    intro s i hnd hi
    obtain ⟨hlt, hie⟩ := List.getElem?_eq_some_iff.1 hi
    rw [← hie]; exact hnd.idxOf_getElem i hlt
  rw [hte] at hk
  rw [hte', ← labelAt_window em mem mem' look minLen hml s s' e k k' (by rw [idx hnd hi, idx hnd' hi']; exact hw), hk] at hk'
  exact Except.ok.inj hk'

/-- C117 (further bars): bars that arrive after the look-forward window of an event do not change its row. -/
theorem C117_further_bars (em : ErrModel) (mem mem' : ℕ → ℕ → XF ℝ) (look minLen : ℕ) (hml : minLen < look) (s later : List (ℤ × XF ℝ))
    (hnd : ((s ++ later).map (·.1)).Nodup) (events events' : Option (List ℤ)) (out out' : List Label)
    (h : (Trend.transform em mem ⟨look, minLen, 1⟩ events s).2 = .ok out)
    (h' : (Trend.transform em mem' ⟨look, minLen, 1⟩ events' (s ++ later)).2 = .ok out')
    (e : ℤ) (i : ℕ) (hi : (s.map (·.1))[i]? = some e) (hlook : i + look ≤ s.length) :
    ∀ l ∈ out, ∀ l' ∈ out', l.time = e → l'.time = e → l = l' := by
  have hnd0 : (s.map (·.1)).Nodup := by
    rw [List.map_append] at hnd
    exact hnd.of_append_left
  refine C117_window_partial em mem mem' look minLen hml s (s ++ later) hnd0 hnd events events' out out' h h' e i i hi ?_ ⟨?_, ?_⟩
  · rw [List.map_append, List.getElem?_append_left (by simp; omega)]
    exact hi
  · rw [List.drop_append_of_le_length (by omega), List.take_append_of_le_length (by simp; omega)]
  · simp [hlook]; omega

/-! ### The reported end -/

/-- Values 10, 12, 11, `x`, 11 at times 0 to 4. -/
def bumpSeries (x : ℝ) : List (ℤ × XF ℝ) := [(0, .fin 10), (1, .fin 12), (2, .fin 11), (3, .fin x), (4, .fin 11)]

def bumpY (x : ℝ) (i : ℕ) : ℝ := match i with
  | 0 => 10
  | 1 => 12
  | 3 => x
  | _ => 11

theorem bump_complete (x : ℝ) : Complete (bumpSeries x) (bumpY x) := by
  intro i hi
  simp only [bumpSeries, List.length_cons, List.length_nil] at hi
  match i, hi with
  | 0, _ => simp [bumpSeries, bumpY]
  | 1, _ => simp [bumpSeries, bumpY]
  | 2, _ => simp [bumpSeries, bumpY]
  | 3, _ => simp [bumpSeries, bumpY]
  | 4, _ => simp [bumpSeries, bumpY]

theorem bump_curved (x : ℝ) : Curved (bumpY x) 0 3 := by
  intro a b
  by_contra h
  push Not at h
  have h0 := h 0 (by norm_num)
  have h1 := h 1 (by norm_num)
  have h2 := h 2 (by norm_num)
  norm_num [bumpY] at h0 h1 h2
  linarith

theorem bump_three (x t : ℝ) : IsTrendT (bumpY x) 0 3 t ↔ t = (1 / 2) / Real.sqrt (3 / 4) := by
  have hr : trendRows (bumpY x) 0 3 = [(![1, 0], 10), (![1, 1], 12), (![1, 2], 11)] := by
    simp [trendRows, bumpY, List.range_succ]
  unfold IsTrendT
  rw [hr, (tValue_of_inverse _ !![5 / 6, -1 / 2; -1 / 2, 1 / 2] (by
    ext i j
    fin_cases i <;> fin_cases j <;> simp [gram, Matrix.mul_apply, Fin.sum_univ_two] <;> norm_num) ![21 / 2, 1 / 2] (by
    funext i
    fin_cases i <;> simp [Matrix.mulVec, dotProduct, Fin.sum_univ_two] <;> norm_num) 1).2]
  have : rss [(![1, 0], 10), (![1, 1], 12), (![1, 2], 11)] ![21 / 2, 1 / 2] = 3 / 2 := by
    simp [rss, predict, Fin.sum_univ_two]; norm_num
  rw [this]
  have e : ((3 : ℝ) / 2) / (([(![1, 0], 10), (![1, 1], 12), (![1, 2], 11)] : List (RRow 2)).length - ((2 : ℕ) : ℝ)) *
      (!![5 / 6, -1 / 2; -1 / 2, 1 / 2] : Matrix (Fin 2) (Fin 2) ℝ) 1 1 = 3 / 4 := by
    simp; norm_num
  rw [e]
  simp

theorem bump_four (x R t : ℝ) (hR : rss [(![1, 0], 10), (![1, 1], 12), (![1, 2], 11), (![1, 3], x)] ![(129 - 2 * x) / 10, (3 * x - 31) / 10] = 10 * R) :
    IsTrendT (bumpY x) 0 4 t ↔ t = ((3 * x - 31) / 10) / Real.sqrt R := by
  have hr : trendRows (bumpY x) 0 4 = [(![1, 0], 10), (![1, 1], 12), (![1, 2], 11), (![1, 3], x)] := by
    simp [trendRows, bumpY, List.range_succ]
  unfold IsTrendT
  rw [hr, (tValue_of_inverse _ !![7 / 10, -3 / 10; -3 / 10, 1 / 5] (by
    ext i j
    fin_cases i <;> fin_cases j <;> simp [gram, Matrix.mul_apply, Fin.sum_univ_two] <;> norm_num) ![(129 - 2 * x) / 10, (3 * x - 31) / 10] (by
    funext i
    fin_cases i <;> simp [Matrix.mulVec, dotProduct, Fin.sum_univ_two] <;> ring) 1).2]
  rw [hR]
  have e : 10 * R / (([(![1, 0], 10), (![1, 1], 12), (![1, 2], 11), (![1, 3], x)] : List (RRow 2)).length - ((2 : ℕ) : ℝ)) *
      (!![7 / 10, -3 / 10; -3 / 10, 1 / 5] : Matrix (Fin 2) (Fin 2) ℝ) 1 1 = R := by
    simp; ring
  rw [e]
  simp

/-- The row of the event at time 0 when windows of three and four bars are tried. -/
theorem bump_row (em : ErrModel) (mem : ℕ → ℕ → XF ℝ) (x : ℝ) : ∃ l, (Trend.transform em mem ⟨5, 3, 1⟩ (some [0]) (bumpSeries x)).2 = .ok [l] ∧
    l.time = 0 ∧ ∃ n t, IsBestWindow (bumpY x) 0 3 5 n t ∧ l.eventEnd = ([0, 1, 2, 3, 4] : List ℤ)[n - 1]? ∧
      ((0 < t ∧ l.label = .fin 1) ∨ (t < 0 ∧ l.label = .fin (-1)) ∨ (t = 0 ∧ l.label = .fin 0)) := by
  obtain ⟨out, h1, h2⟩ := C71_best_partial em mem 5 3 (by norm_num) (bumpSeries x) (bumpY x) (bump_complete x) (by simp [bumpSeries]) (some [0])
    (by simp [eventTimes, bumpSeries]) (by
      intro i e _ _ h3
      simp only [bumpSeries, List.length_cons, List.length_nil] at h3
      obtain rfl : i = 0 := by omega
      exact bump_curved x)
  simp only [eventTimes, Option.getD_some] at h2
  rcases h2 with _ | ⟨h3, h4⟩
  cases h4
  obtain ⟨ht, i, hi, h5⟩ := h3
  have hi0 : i = 0 := by
    simp only [bumpSeries, List.map_cons, List.map_nil] at hi
    match i, hi with
    | 0, _ => rfl
    | 1, hi => simp at hi
    | 2, hi => simp at hi
    | 3, hi => simp at hi
    | 4, hi => simp at hi
    | n + 5, hi => simp at hi
  subst hi0
  rw [if_pos (by simp [bumpSeries])] at h5
  obtain ⟨n, t, hb, -, ⟨u, hu, hu'⟩, -, hs⟩ := h5
  refine ⟨_, h1, ht, n, t, hb, ?_, hs⟩
  rw [hu, ← hu']
  simp [bumpSeries]

/-- C117 (refutation): the label of an event is not decided by the bars up to the end it reports.  Two series agree up to
time 2, the first reports that the upward trend ends at time 2, the second reports a downward trend: the end is the end
of the window chosen after looking at the later bars. -/
theorem C117_event_end_refuted (em : ErrModel) (mem : ℕ → ℕ → XF ℝ) :
    ∃ l l', (Trend.transform em mem ⟨5, 3, 1⟩ (some [0]) (bumpSeries 11)).2 = .ok [l] ∧
      (Trend.transform em mem ⟨5, 3, 1⟩ (some [0]) (bumpSeries 3)).2 = .ok [l'] ∧ l.eventEnd = some 2 ∧
      (∀ r ∈ bumpSeries 11, r.1 ≤ 2 → r ∈ bumpSeries 3) ∧ (∀ r ∈ bumpSeries 3, r.1 ≤ 2 → r ∈ bumpSeries 11) ∧
      l.label = .fin 1 ∧ l'.label = .fin (-1) := by
  obtain ⟨l, h1, -, n, t, ⟨hn1, hn2, ht, hmax⟩, he, hs⟩ := bump_row em mem 11
  obtain ⟨l', h1', -, n', t', ⟨hn1', hn2', ht', hmax'⟩, he', hs'⟩ := bump_row em mem 3
  have four : ∀ t, IsTrendT (bumpY 11) 0 4 t ↔ t = (1 / 5) / Real.sqrt (9 / 50) := by
    intro t
    rw [bump_four 11 (9 / 50) t (by simp [rss, predict, Fin.sum_univ_two]; norm_num)]
    norm_num
  have four' : ∀ t, IsTrendT (bumpY 3) 0 4 t ↔ t = (-11 / 5) / Real.sqrt (129 / 50) := by
    intro t
    rw [bump_four 3 (129 / 50) t (by simp [rss, predict, Fin.sum_univ_two]; norm_num)]
    norm_num
  have a1 : (0 : ℝ) < Real.sqrt (3 / 4) := Real.sqrt_pos.2 (by norm_num)
  have a2 : (0 : ℝ) < Real.sqrt (9 / 50) := Real.sqrt_pos.2 (by norm_num)
  have a3 : (0 : ℝ) < Real.sqrt (129 / 50) := Real.sqrt_pos.2 (by norm_num)
  have b1 : Real.sqrt (3 / 4) < 1 := by rw [Real.sqrt_lt' (by norm_num)]; norm_num
  have b2 : (2 : ℝ) / 5 < Real.sqrt (9 / 50) := by rw [Real.lt_sqrt (by norm_num)]; norm_num
  have b3 : Real.sqrt (129 / 50) < 17 / 10 := by rw [Real.sqrt_lt' (by norm_num)]; norm_num
  have b4 : (4 : ℝ) / 5 < Real.sqrt (3 / 4) := by rw [Real.lt_sqrt (by norm_num)]; norm_num
  have p3 : (1 / 2 : ℝ) / Real.sqrt (3 / 4) < 5 / 8 := by rw [div_lt_iff₀ a1]; linarith
  have p3' : (1 / 2 : ℝ) < (1 / 2 : ℝ) / Real.sqrt (3 / 4) := by rw [lt_div_iff₀ a1]; linarith
  have p4 : (1 / 5 : ℝ) / Real.sqrt (9 / 50) < 1 / 2 := by rw [div_lt_iff₀ a2]; linarith
  have p4' : (-11 / 5 : ℝ) / Real.sqrt (129 / 50) < -1 := by rw [div_lt_iff₀ a3]; linarith
  have q4 : (0 : ℝ) < (1 / 5 : ℝ) / Real.sqrt (9 / 50) := by positivity
  have hn : n = 3 := by
    by_contra hne
    obtain rfl : n = 4 := by omega
    have := (hmax 3 _ (by norm_num) (by norm_num) ((bump_three 11 _).2 rfl)).1
    rw [(four t).1 ht, abs_of_pos (by linarith), abs_of_pos q4] at this
    linarith
  have hn' : n' = 4 := by
    by_contra hne
    obtain rfl : n' = 3 := by omega
    have := (hmax' 4 _ (by norm_num) (by norm_num) ((four' _).2 rfl)).1
    rw [(bump_three 3 t').1 ht', abs_of_neg (by linarith), abs_of_pos (by linarith)] at this
    linarith
  subst hn hn'
  have ht := (bump_three 11 t).1 ht
  have ht' := (four' t').1 ht'
  refine ⟨l, l', h1, h1', by simpa using he, ?_, ?_, ?_, ?_⟩
  · intro r hr h2
    simp only [bumpSeries, List.mem_cons, List.not_mem_nil, or_false] at hr ⊢
    rcases hr with rfl | rfl | rfl | rfl | rfl <;> simp at h2 ⊢
  · intro r hr h2
    simp only [bumpSeries, List.mem_cons, List.not_mem_nil, or_false] at hr ⊢
    rcases hr with rfl | rfl | rfl | rfl | rfl <;> simp at h2 ⊢
  · rcases hs with ⟨_, h⟩ | ⟨h, _⟩ | ⟨h, _⟩
    · exact h
    · exfalso; linarith
    · exfalso; linarith
  · rcases hs' with ⟨h, _⟩ | ⟨_, h⟩ | ⟨h, _⟩
    · exfalso; linarith
    · exact h
    · exfalso; linarith

/-- Both series of the refutation have the window of event 0 in common with a series that has other bars around it. -/
example (x : ℝ) : SameWindow 5 (bumpSeries x) ((-7, .fin 3) :: ((bumpSeries x).take 4 ++ [(9, .nan)])) 0 1 :=
  ⟨by simp [bumpSeries], by simp [bumpSeries]⟩

end Mizar.Props
