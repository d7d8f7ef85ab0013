import Verif.Lemmas.TrendDirection
import Verif.Props.TrendScan

/-!
C148: the direction that a trend-scanning label stands for (`/repo/mizarlabs/transformers/targets/trend_scanning.py`).
-/

namespace Mizar.Props
open Mizar Mizar.Spec Mizar.Trend Mizar.Brk

private theorem forall₂_with_mem {α β : Type} {R : α → β → Prop} {l : List α} {m : List β} (h : List.Forall₂ R l m) :
    List.Forall₂ (fun a b => R a b ∧ a ∈ l) l m := by
  rw [List.forall₂_iff_get] at h ⊢
  exact ⟨h.1, fun i hi hj => ⟨h.2 i hi hj, List.get_mem _ ⟨i, hi⟩⟩⟩

/-- The label is the sign of the moves between all pairs of bars of the reported window, weighted with the time between them. -/
theorem C148_label (em : ErrModel) (mem : ℕ → ℕ → XF ℝ) (look minLen : ℕ) (hml : minLen < look) (s : List (ℤ × XF ℝ)) (y : ℕ → ℝ)
    (h : Complete s y) (hnd : (s.map (·.1)).Nodup) (events : Option (List ℤ)) (hev : ∀ e ∈ eventTimes events s, e ∈ s.map (·.1))
    (hc : ∀ i e, (s.map (·.1))[i]? = some e → e ∈ eventTimes events s → i + look ≤ s.length → Curved y i minLen) :
    ∃ out, (Trend.transform em mem ⟨look, minLen, 1⟩ events s).2 = .ok out ∧
      List.Forall₂ (fun e l => l.time = e ∧ ∃ i, (s.map (·.1))[i]? = some e ∧
        if i + look ≤ s.length then
          ∃ n, minLen ≤ n ∧ n < look ∧ (∃ u, l.eventEnd = some u ∧ (s.map (·.1))[i + n - 1]? = some u) ∧
            (y i ≠ 0 → l.ret = .fin (y (i + n - 1) / y i - 1)) ∧
            ((0 < pairMoves y i n ∧ l.label = .fin 1) ∨ (pairMoves y i n < 0 ∧ l.label = .fin (-1)) ∨ (pairMoves y i n = 0 ∧ l.label = .fin 0))
        else Missing l) (eventTimes events s) out := by
  obtain ⟨out, h1, h2⟩ := C71_best_partial em mem look minLen hml s y h hnd events hev hc
  refine ⟨out, h1, ?_⟩
  have h4 := forall₂_with_mem h2
  refine h4.imp fun e l ⟨⟨a1, i, a2, a3⟩, he⟩ => ⟨a1, i, a2, ?_⟩
  by_cases hi : i + look ≤ s.length
  · rw [if_pos hi] at a3 ⊢
    obtain ⟨n, t, ⟨b1, b2, b3, -⟩, -, b5, b6, b7⟩ := a3
    refine ⟨n, b1, b2, b5, b6, ?_⟩
    obtain ⟨c1, c2⟩ := trendT_sign (curved_mono (hc i e a2 he hi) b1) b3
    rcases b7 with ⟨d1, d2⟩ | ⟨d1, d2⟩ | ⟨d1, d2⟩
    · exact .inl ⟨c1.1 d1, d2⟩
    · exact .inr (.inl ⟨c2.1 d1, d2⟩)
    · refine .inr (.inr ⟨?_, d2⟩)
      rcases lt_trichotomy (pairMoves y i n) 0 with g | g | g
      · have := c2.2 g; linarith
      · exact g
      · have := c1.2 g; linarith
  · rw [if_neg hi] at a3 ⊢
    exact a3

/-- A price that never falls in the look-forward window gets the label 1, one that never rises gets -1, and the return of the row has
the same sign. -/
theorem C148_monotone (em : ErrModel) (mem : ℕ → ℕ → XF ℝ) (look minLen : ℕ) (hml : minLen < look) (s : List (ℤ × XF ℝ)) (y : ℕ → ℝ)
    (h : Complete s y) (hnd : (s.map (·.1)).Nodup) (events : Option (List ℤ)) (hev : ∀ e ∈ eventTimes events s, e ∈ s.map (·.1))
    (hc : ∀ i e, (s.map (·.1))[i]? = some e → e ∈ eventTimes events s → i + look ≤ s.length → Curved y i minLen) :
    ∃ out, (Trend.transform em mem ⟨look, minLen, 1⟩ events s).2 = .ok out ∧
      List.Forall₂ (fun e l => l.time = e ∧ ∃ i, (s.map (·.1))[i]? = some e ∧ (i + look ≤ s.length →
          (NeverFalls y i look → l.label = .fin 1 ∧ (0 < y i → ∃ r, l.ret = .fin r ∧ 0 ≤ r)) ∧
          (NeverFalls (fun k => -y k) i look → l.label = .fin (-1) ∧ (0 < y i → ∃ r, l.ret = .fin r ∧ r ≤ 0))))
        (eventTimes events s) out := by
  obtain ⟨out, h1, h2⟩ := C148_label em mem look minLen hml s y h hnd events hev hc
  refine ⟨out, h1, ?_⟩
  have h4 := forall₂_with_mem h2
  refine h4.imp fun e l ⟨⟨a1, i, a2, a3⟩, he⟩ => ⟨a1, i, a2, fun hi => ?_⟩
  rw [if_pos hi] at a3
  obtain ⟨n, b1, b2, b5, b6, b7⟩ := a3
  have hC := curved_mono (hc i e a2 he hi) b1
  have hn := curved_three hC
  constructor
  · intro hf
    have hp := pairMoves_pos hC fun a b ab hb => hf a b ab (by omega)
    refine ⟨?_, fun hy => ⟨_, b6 hy.ne', ?_⟩⟩
    · rcases b7 with ⟨-, d⟩ | ⟨d, -⟩ | ⟨d, -⟩
      · exact d
      · linarith
      · linarith
    · have := hf 0 (n - 1) (Nat.zero_le _) (by omega)
      rw [Nat.add_zero, show i + (n - 1) = i + n - 1 by omega] at this
      rw [sub_nonneg, le_div_iff₀ hy]
      linarith
  · intro hf
    have hp := pairMoves_pos (curved_neg hC) fun a b ab hb => hf a b ab (by omega)
    rw [pairMoves_neg] at hp
    refine ⟨?_, fun hy => ⟨_, b6 hy.ne', ?_⟩⟩
    · rcases b7 with ⟨d, -⟩ | ⟨-, d⟩ | ⟨d, -⟩
      · linarith
      · exact d
      · linarith
    · have := hf 0 (n - 1) (Nat.zero_le _) (by omega)
      simp only [Nat.add_zero, show i + (n - 1) = i + n - 1 by omega] at this
      rw [sub_nonpos, div_le_one hy]
      linarith

/-- Values 10, 11, 20, 20, 20, 9, 9. -/
def dipY : ℕ → ℝ
  | 0 => 10
  | 1 => 11
  | 2 => 20
  | 3 => 20
  | 4 => 20
  | 5 => 9
  | _ => 9

def dipSeries : List (ℤ × XF ℝ) := (List.range 7).map fun i : ℕ => ((i : ℤ), .fin (dipY i))

theorem dip_complete : Complete dipSeries dipY := by
  intro i hi
  simp only [dipSeries, List.length_map, List.length_range] at hi
  simp [dipSeries, List.getElem?_range hi]

theorem dip_curved : Curved dipY 0 6 := by
  intro a b
  by_contra h
  push Not at h
  have h0 := h 0 (by norm_num)
  have h1 := h 1 (by norm_num)
  have h2 := h 2 (by norm_num)
  norm_num [dipY] at h0 h1 h2
  linarith

/-- The label need not have the sign of the return of its row: prices 10, 11, 20, 20, 20, 9 have the label 1 and a return of -1/10. -/
theorem C148_return_refuted (em : ErrModel) (mem : ℕ → ℕ → XF ℝ) :
    ∃ l, (Trend.transform em mem ⟨7, 6, 1⟩ (some [0]) dipSeries).2 = .ok [l] ∧ l.label = .fin 1 ∧ l.ret = .fin (-1 / 10) := by
  obtain ⟨out, h1, h2⟩ := C148_label em mem 7 6 (by norm_num) dipSeries dipY dip_complete (by
      simp only [dipSeries, List.map_map, Function.comp_def]; decide) (some [0])
    (by simp only [eventTimes, dipSeries, List.map_map, Function.comp_def]; decide) (by
      intro i e _ _ h3
      simp only [dipSeries, List.length_map, List.length_range] at h3
      obtain rfl : i = 0 := by omega
      exact dip_curved)
  simp only [eventTimes, Option.getD_some] at h2
  rcases h2 with _ | ⟨h3, h4⟩
  cases h4
  obtain ⟨-, i, hi, h5⟩ := h3
  have hi0 : i = 0 := by
    obtain ⟨hl, hv⟩ := List.getElem?_eq_some_iff.1 hi
    simpa [dipSeries] using hv
  subst hi0
  rw [if_pos (by simp [dipSeries])] at h5
  obtain ⟨n, b1, b2, -, b6, b7⟩ := h5
  obtain rfl : n = 6 := by omega
  have hp : pairMoves dipY 0 6 = 66 := by
    simp only [pairMoves, Finset.sum_range_succ, Finset.sum_range_zero, dipY]
    norm_num
  rw [hp] at b7
  refine ⟨_, h1, ?_, ?_⟩
  · rcases b7 with ⟨-, d⟩ | ⟨d, -⟩ | ⟨d, -⟩
    · exact d
    · norm_num at d
    · norm_num at d
  · rw [b6 (by norm_num [dipY])]
    norm_num [dipY]

private theorem trendT_line {look minLen : ℕ} (h3 : 3 ≤ minLen) {y : ℕ → ℝ} {i : ℕ} {a b : ℝ} {n : ℕ} (hn : minLen ≤ n) (hl : n ≤ look)
    (hy : ∀ k < n, y (i + k) = a + b * k) :
    trendT .python ((slice y i look).take n) = .error .zeroDivisionError ∧
      trendT .numpy ((slice y i look).take n) = .ok (if 0 < b then .pinf else if b < 0 then .ninf else .nan) := by
  rw [slice_take y i look _ hl, trendT_slice, trendT_slice]
  refine C67_t_value_exact_fit _ ((trendRows_fullRank y i _).2 (by omega)) (by simp [trendRows]; omega) ![a, b] ?_ 1
  intro r hr
  obtain ⟨k, hk, rfl⟩ := List.mem_map.1 hr
  have := List.mem_range.1 hk
  simp only [predict, Fin.sum_univ_two, Matrix.cons_val_zero, Matrix.cons_val_one]
  rw [hy k (by omega)]
  ring

/-- With numba's default error model a complete series cannot be labelled exactly if for some event with enough bars the first
`min_sample_length` values lie on a straight line. -/
theorem C148_fails (mem : ℕ → ℕ → XF ℝ) (look minLen : ℕ) (h3 : 3 ≤ minLen) (hml : minLen < look) (s : List (ℤ × XF ℝ)) (y : ℕ → ℝ)
    (h : Complete s y) (hnd : (s.map (·.1)).Nodup) (events : Option (List ℤ)) (hev : ∀ e ∈ eventTimes events s, e ∈ s.map (·.1)) :
    ((∃ i e, (s.map (·.1))[i]? = some e ∧ e ∈ eventTimes events s ∧ i + look ≤ s.length ∧ ¬ Curved y i minLen) →
      (Trend.transform .python mem ⟨look, minLen, 1⟩ events s).2 = .error .zeroDivisionError) ∧
    ((¬ ∃ i e, (s.map (·.1))[i]? = some e ∧ e ∈ eventTimes events s ∧ i + look ≤ s.length ∧ ¬ Curved y i minLen) →
      ∃ out, (Trend.transform .python mem ⟨look, minLen, 1⟩ events s).2 = .ok out) := by
  refine ⟨fun hbad => ?_, fun hbad => ?_⟩
  · rw [transform_ok .python mem _ events s hev]
    have key : ∀ x : ℤ × ℕ, x.1 ∈ eventTimes events s → ∃ i, (s.map (·.1))[i]? = some x.1 ∧
        ((i + look ≤ s.length ∧ ¬ Curved y i minLen → labelAt .python mem ⟨look, minLen, 1⟩ s x = .error .zeroDivisionError)) ∧
        (¬ (i + look ≤ s.length ∧ ¬ Curved y i minLen) → ∃ b, labelAt .python mem ⟨look, minLen, 1⟩ s x = .ok b) := by
      intro x hx
      obtain ⟨i, hi, hie⟩ := List.mem_iff_getElem.1 (hev _ hx)
      have hidx : (s.map (·.1)).idxOf x.1 = i := by rw [← hie]; exact hnd.idxOf_getElem i hi
      refine ⟨i, by rw [List.getElem?_eq_getElem hi, hie], ?_, ?_⟩
      · rintro ⟨hx1, hx2⟩
        unfold labelAt scanAt
        dsimp only
        have hlen : (slice y i look).length = look := by simp [slice]
        unfold Curved at hx2
        push Not at hx2
        obtain ⟨a, b, hab⟩ := hx2
        rw [hidx, window_slice h i look hx1, if_pos hlen, bestAt_one, hlen, mapE_range_head _ _ (by omega) .zeroDivisionError]
        · rfl
        · exact (trendT_line h3 le_rfl hml.le hab).1
      · intro hx1
        unfold labelAt scanAt
        dsimp only
        rw [hidx]
        by_cases hx2 : i + look ≤ s.length
        · have hC : Curved y i minLen := by
            by_contra hC
            exact hx1 ⟨hx2, hC⟩
          have hlen : (slice y i look).length = look := by simp [slice]
          have hT : ∀ q, ∃ t, minLen + q ≤ look → trendT .python ((slice y i look).take (minLen + q)) = .ok (.fin t) := by
            intro q
            obtain ⟨t, ht⟩ := trendT_curved .python (curved_mono hC (Nat.le_add_right minLen q))
            exact ⟨t, fun hq => by rw [slice_take y i look _ hq]; exact ht.1⟩
          choose f hf using hT
          rw [window_slice h i look hx2, if_pos hlen, bestAt_one, hlen,
            mapE_ok_of_forall _ (fun q => .fin (f q)) _ fun q hq => hf q (by have := List.mem_range.1 hq; omega)]
          exact ⟨_, rfl⟩
        · have hlen : (((s.map (·.2)).drop i).take look).length ≠ look := by simp; omega
          rw [if_neg hlen]
          exact ⟨_, rfl⟩
    apply mapE_error
    · intro x hx
      have hm : x.1 ∈ eventTimes events s := by
        obtain ⟨-, -, hx⟩ := List.mem_zipIdx hx
        rw [hx]; exact List.getElem_mem _
      obtain ⟨i, -, k1, k2⟩ := key x hm
      by_cases hx1 : i + look ≤ s.length ∧ ¬ Curved y i minLen
      · exact .inl (k1 hx1)
      · exact .inr (k2 hx1)
    · obtain ⟨i, e, he, hin, hb⟩ := hbad
      obtain ⟨k, hk, hke⟩ := List.mem_iff_getElem.1 hin
      refine ⟨(e, k), by rw [List.mem_zipIdx_iff_getElem?]; simp [hk, hke], ?_⟩
      obtain ⟨j, hj, k1, -⟩ := key (e, k) hin
      obtain ⟨hi', hie⟩ := List.getElem?_eq_some_iff.1 he
      obtain ⟨hj', hje⟩ := List.getElem?_eq_some_iff.1 hj
      have hij : i = j := (hnd.getElem_inj_iff).1 (hie.trans hje.symm)
      subst hij
      exact k1 hb
  · obtain ⟨out, h1, -⟩ := C71_best_partial .python mem look minLen hml s y h hnd events hev (by
      intro i e h1 h2 h4
      by_contra hC
      exact hbad ⟨i, e, h1, h2, h4, hC⟩)
    exact ⟨out, h1⟩

/-- With NumPy's error model an event whose look-forward window is a straight line gets the first window, an infinite t-value and the
direction of the line as label; a missing t-value and label if the price does not move. -/
theorem C148_line (mem : ℕ → ℕ → XF ℝ) (look minLen : ℕ) (h3 : 3 ≤ minLen) (hml : minLen < look) (s : List (ℤ × XF ℝ)) (y : ℕ → ℝ)
    (h : Complete s y) (hnd : (s.map (·.1)).Nodup) (i : ℕ) (e : ℤ) (he : (s.map (·.1))[i]? = some e) (hi : i + look ≤ s.length) (a b : ℝ)
    (hy : ∀ k < look, y (i + k) = a + b * k) :
    ∃ l, (Trend.transform .numpy mem ⟨look, minLen, 1⟩ (some [e]) s).2 = .ok [l] ∧
      l.eventEnd = (s.map (·.1))[i + minLen - 1]? ∧
      l.tValue = (if 0 < b then .pinf else if b < 0 then .ninf else .nan) ∧
      l.label = (if 0 < b then .fin 1 else if b < 0 then .fin (-1) else .nan) := by
  obtain ⟨hi', hie⟩ := List.getElem?_eq_some_iff.1 he
  have hidx : (s.map (·.1)).idxOf e = i := by rw [← hie]; exact hnd.idxOf_getElem i hi'
  have hT : ∀ q < look - minLen, trendT .numpy ((slice y i look).take (minLen + q)) = .ok (if 0 < b then .pinf else if b < 0 then .ninf else .nan) :=
    fun q hq => (trendT_line h3 (by omega) (by omega) fun k hk => hy k (by omega)).2
  have hsign : XF.sign (if 0 < b then XF.pinf else if b < 0 then XF.ninf else XF.nan : XF ℝ) =
      (if 0 < b then .fin 1 else if b < 0 then .fin (-1) else .nan) := by
    split_ifs <;> rfl
  have hlen : (slice y i look).length = look := by simp [slice]
  rw [← hsign, transform_ok .numpy mem _ _ s (by
    intro x hx
    simp only [eventTimes, Option.getD_some, List.mem_singleton] at hx
    rw [hx, ← hie]; exact List.getElem_mem _)]
  simp only [eventTimes, Option.getD_some, List.zipIdx_cons, List.zipIdx_nil, mapE, labelAt, scanAt]
  rw [hidx, window_slice h i look hi, if_pos hlen, bestAt_one, hlen, mapE_ok_of_forall _ (fun _ => if 0 < b then .pinf else if b < 0 then .ninf else .nan) _
    fun q hq => hT q (List.mem_range.1 hq)]
  generalize (if 0 < b then XF.pinf else if b < 0 then XF.ninf else XF.nan : XF ℝ) = v
  have hk : ∀ (n j c : ℕ), argmaxGo j c (XF.abs v) ((List.range' n (look - minLen - 1)).map fun _ => XF.abs v) = c := by
    generalize look - minLen - 1 = m
    induction m with
    | zero => intro n j c; rfl
    | succ m ih =>
      intro n j c
      rw [List.range'_succ, List.map_cons, argmaxGo, if_neg]
      · exact ih _ _ _
      · cases v <;> simp [XF.abs, XF.isNan, XF.lt]
  have hm : (List.range (look - minLen)).map (fun _ => v) = v :: (List.range' 1 (look - minLen - 1)).map fun _ => v := by
    rw [List.range_eq_range', show look - minLen = (look - minLen - 1) + 1 by omega, List.range'_succ]
    simp
  rw [hm]
  simp only [Except.bind, Py.bind_ok, List.map_cons, List.map_map, Function.comp_def, argmax, hk]
  refine ⟨_, rfl, ?_, rfl, rfl⟩
  have hlt : i + minLen - 1 < (s.map (·.1)).length := by rw [List.length_map]; omega
  simp only [Nat.add_zero, Option.map_some, List.getD_eq_getElem?_getD]
  rw [List.getElem?_eq_getElem hlt]
  rfl

/-- The hypotheses of `C148_monotone` are met by 0, 0, 1, 1 (windows of three values). -/
example (em : ErrModel) (mem : ℕ → ℕ → XF ℝ) : ∃ l, (Trend.transform em mem ⟨4, 3, 1⟩ (some [10]) stepSeries).2 = .ok [l] ∧ l.label = .fin 1 := by
  obtain ⟨out, h1, h2⟩ := C148_monotone em mem 4 3 (by norm_num) stepSeries stepY stepSeries_complete (by simp [stepSeries]) (some [10])
    (by simp [eventTimes, stepSeries]) (by
      intro i e _ _ h3
      simp only [stepSeries, List.length_cons, List.length_nil] at h3
      obtain rfl : i = 0 := by omega
      exact step_curved)
  simp only [eventTimes, Option.getD_some] at h2
  rcases h2 with _ | ⟨h3, h4⟩
  cases h4
  obtain ⟨-, i, hi, h5⟩ := h3
  have hi0 : i = 0 := by
    simp only [stepSeries, List.map_cons, List.map_nil] at hi
    match i, hi with
    | 0, _ => rfl
    | 1, hi => simp at hi
    | 2, hi => simp at hi
    | 3, hi => simp at hi
    | n + 4, hi => simp at hi
  subst hi0
  refine ⟨_, h1, ((h5 (by simp [stepSeries])).1 ?_).1⟩
  intro a b ab hb
  simp only [stepY]
  split_ifs <;> first | omega | norm_num

/-- The prices 1, 2, 3, 4. -/
def straight : List (ℤ × XF ℝ) := (List.range 4).map fun i : ℕ => ((i : ℤ), .fin ((i : ℝ) + 1))

theorem straight_complete : Complete straight fun i => (i : ℝ) + 1 := by
  intro i hi
  simp only [straight, List.length_map, List.length_range] at hi
  simp [straight, List.getElem?_range hi]

/-- They meet the hypotheses of `C148_fails` and `C148_line`. -/
example (mem : ℕ → ℕ → XF ℝ) : (Trend.transform .python mem ⟨4, 3, 1⟩ (some [0]) straight).2 = .error .zeroDivisionError :=
  (C148_fails mem 4 3 le_rfl (by norm_num) straight _ straight_complete (by simp only [straight, List.map_map, Function.comp_def]; decide) (some [0])
    (by simp only [eventTimes, straight, List.map_map, Function.comp_def]; decide)).1 ⟨0, 0, by simp [straight], by simp [eventTimes],
      by simp [straight], fun h => by
        obtain ⟨i, -, hi⟩ := h 1 1
        exact hi (by simp; ring)⟩

example (mem : ℕ → ℕ → XF ℝ) : ∃ l, (Trend.transform .numpy mem ⟨4, 3, 1⟩ (some [0]) straight).2 = .ok [l] ∧ l.eventEnd = some 2 ∧
    l.tValue = .pinf ∧ l.label = .fin 1 := by
  obtain ⟨l, h1, h2, h3, h4⟩ := C148_line mem 4 3 le_rfl (by norm_num) straight _ straight_complete
    (by simp only [straight, List.map_map, Function.comp_def]; decide) 0 0 (by simp [straight]) (by simp [straight]) 1 1 (by
      intro k _
      simp; ring)
  exact ⟨l, h1, by simpa [straight] using h2, by simpa using h3, by simpa using h4⟩

end Mizar.Props
