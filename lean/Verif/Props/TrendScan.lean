import Verif.Lemmas.TrendAffine
import Verif.Props.Sadf

/-!
Property theorems C70-C73: trend scanning (`/repo/mizarlabs/transformers/targets/trend_scanning.py`).
-/

namespace Mizar.Props
open Mizar.Spec Mizar.Brk Mizar.Trend

/-! ### C70 -/

theorem bestAt_zero (em : ErrModel) (mem : ℕ → XF ℝ) (p : Params) (h : p.step = 0) (w : List (XF ℝ)) :
    bestAt em mem p w = .error .valueError := by
  unfold bestAt windows
  rw [if_pos h]; rfl

/-- C70 (every window tried): with step one the result is determined by the series and the parameters, whatever the
memory holds; so it is with step zero, which is refused.  Missing: every other step (`C70_refuted`). -/
theorem C70_step_one_partial (em : ErrModel) (mem mem' : ℕ → ℕ → XF ℝ) (p : Params) (h : p.step = 1 ∨ p.step = 0) (events : Option (List ℤ))
    (s : List (ℤ × XF ℝ)) : Trend.transform em mem p events s = Trend.transform em mem' p events s := by
  have hb : ∀ (f g : ℕ → XF ℝ) w, bestAt em f p w = bestAt em g p w := by
    intro f g w
    rcases h with h | h
    · obtain ⟨L, m, st⟩ := p
      dsimp only at h
      subst h
      rw [bestAt_one, bestAt_one]
    · rw [bestAt_zero em f p h, bestAt_zero em g p h]
  have hl : labelAt em mem p s = labelAt em mem' p s := by
    funext e
    unfold labelAt scanAt
    dsimp only
    rw [hb (mem e.2) (mem' e.2)]
  unfold Trend.transform
  rw [hl]

theorem fill_keeps (em : ErrModel) (w : List (XF ℝ)) (m : ℕ) (fs : List ℕ) (a b : List (XF ℝ)) (h : fill em w m fs a = .ok b) :
    b.length = a.length ∧ (∀ q, (∀ f ∈ fs, f - m ≠ q) → b[q]? = a[q]?) ∧
      ∀ x ∈ b, x ∈ a ∨ ∃ f ∈ fs, trendT em (w.take f) = .ok x := by
  induction fs generalizing a with
  | nil =>
    simp only [fill, Except.ok.injEq] at h
    subst h
    simp
  | cons f fs ih =>
    simp only [fill] at h
    obtain ⟨t, ht, h⟩ := Py.bind_eq_ok.1 h
    obtain ⟨h1, h2, h3⟩ := ih _ h
    refine ⟨by rw [h1, List.length_set], ?_, ?_⟩
    · intro q hq
      rw [h2 q fun g hg => hq g (by simp [hg]), List.getElem?_set_ne (hq f (by simp))]
    · intro x hx
      rcases h3 x hx with h4 | ⟨g, hg, h4⟩
      · rcases List.mem_or_eq_of_mem_set h4 with h5 | h5
        · exact Or.inl h5
        · exact Or.inr ⟨f, by simp, by rw [h5]; exact ht⟩
      · exact Or.inr ⟨g, by simp [hg], h4⟩

theorem fill_ok (em : ErrModel) (w : List (XF ℝ)) (m : ℕ) (fs : List ℕ) (a : List (XF ℝ)) (h : ∀ f ∈ fs, ∃ t, trendT em (w.take f) = .ok t) :
    ∃ b, fill em w m fs a = .ok b := by
  induction fs generalizing a with
  | nil => exact ⟨a, rfl⟩
  | cons f fs ih =>
    obtain ⟨t, ht⟩ := h f (by simp)
    obtain ⟨b, hb⟩ := ih (a.set (f - m) t) fun g hg => h g (by simp [hg])
    exact ⟨b, by simp only [fill, ht, Py.bind_ok, hb]⟩

theorem window_slice {s : List (ℤ × XF ℝ)} {y : ℕ → ℝ} (h : Complete s y) (i L : ℕ) (hi : i + L ≤ s.length) :
    ((s.map (·.2)).drop i).take L = slice y i L := by
  apply List.ext_getElem
  · simp [slice]; omega
  · intro q h1 h2
    have h2' : q < L := by simpa [slice] using h2
    have := h (i + q) (by omega)
    simp only [List.getElem_take, List.getElem_drop, slice, List.getElem_map, List.getElem_range]
    rw [List.getElem?_eq_getElem (by rw [List.length_map]; omega)] at this
    simpa using this

/-- C70 (refutation): with every other step there are, for every series whose first values do not lie on a line, two
states of the memory that give different labels. -/
theorem C70_refuted (em : ErrModel) (p : Params) (hstep : p.step < 0 ∨ 2 ≤ p.step) (s : List (ℤ × XF ℝ)) (y : ℕ → ℝ) (h : Complete s y)
    (hm : p.minLen + 2 ≤ p.look) (hL : p.look ≤ s.length) (hc : Curved y 0 p.minLen) (e : ℤ) (he : (s.map (·.1))[0]? = some e) :
    ∃ mem mem' l l', (Trend.transform em mem p (some [e]) s).2 = .ok [l] ∧ (Trend.transform em mem' p (some [e]) s).2 = .ok [l'] ∧
      l.label = .nan ∧ l'.label ≠ .nan := by
  obtain ⟨L, m, st⟩ := p
  dsimp only at *
  obtain ⟨fs, hfs, hmem⟩ : ∃ fs, windows m L st = .ok fs ∧ ∀ f ∈ fs, m ≤ f ∧ f < L ∧ f - m ≠ 1 := by
    unfold windows
    rcases hstep with h | h
    · exact ⟨[], by rw [if_neg (by omega), if_pos h], by simp⟩
    · refine ⟨_, by rw [if_neg (by omega), if_neg (by omega)], fun f hf => ?_⟩
      simp only [List.mem_filter, List.mem_range, Bool.and_eq_true, decide_eq_true_eq, beq_iff_eq] at hf
      refine ⟨hf.2.1, hf.1, fun h1 => ?_⟩
      rw [h1, Nat.mod_eq_of_lt (by omega)] at hf
      omega
  have hT : ∀ f ∈ fs, ∃ t : ℝ, trendT em ((slice y 0 L).take f) = .ok (.fin t) := by
    intro f hf
    obtain ⟨h1, h2, -⟩ := hmem f hf
    rw [slice_take y 0 L f (by omega)]
    obtain ⟨t, ht, -⟩ := trendT_curved em (curved_mono hc h1)
    exact ⟨t, ht⟩
  have hw : ((s.map (·.2)).drop 0).take L = slice y 0 L := window_slice h 0 L (by omega)
  have hlen : (slice y 0 L).length = L := by simp [slice]
  have hidx : (s.map (·.1)).idxOf e = 0 := by
    cases s with
    | nil => simp at he
    | cons r s =>
      simp only [List.map_cons, List.getElem?_cons_zero, Option.some.injEq] at he
      simp [he]
  have hin : ∀ x ∈ [e], x ∈ s.map (·.1) := by
    intro x hx
    rw [List.mem_singleton.1 hx]
    exact List.mem_of_getElem? he
  have hrun : ∀ mem : ℕ → ℕ → XF ℝ, ∃ b, fill em (slice y 0 L) m fs ((List.range (L - m)).map (mem 0)) = .ok b ∧
      ∃ l, (Trend.transform em mem ⟨L, m, st⟩ (some [e]) s).2 = .ok [l] ∧ l.label = XF.sign (b.getD (argmax (b.map XF.abs)) .nan) := by
    intro mem
    obtain ⟨b, hb⟩ := fill_ok em (slice y 0 L) m fs ((List.range (L - m)).map (mem 0)) fun f hf => by
      obtain ⟨t, ht⟩ := hT f hf
      exact ⟨_, ht⟩
    refine ⟨b, hb, ?_⟩
    unfold Trend.transform
    dsimp only
    rw [if_pos hin]
    simp only [List.zipIdx_cons, List.zipIdx_nil, mapE, labelAt, hidx, scanAt]
    rw [hw, if_pos hlen]
    simp only [bestAt, hlen]
    rw [hfs]
    simp only [Py.bind_ok, hb]
    exact ⟨_, rfl, rfl⟩
  obtain ⟨b, hb, l, hl, hlab⟩ := hrun fun _ _ => .nan
  obtain ⟨b', hb', l', hl', hlab'⟩ := hrun fun _ _ => .fin 0
  refine ⟨_, _, l, l', hl, hl', ?_, ?_⟩
  · obtain ⟨k1, k2, -⟩ := fill_keeps em _ m fs _ b hb
    have h1 : b[1]? = some .nan := by
      rw [k2 1 fun f hf => (hmem f hf).2.2]
      rw [List.getElem?_map, List.getElem?_range (by omega)]
      rfl
    have h2 := argmax_mem_nan (b.map XF.abs) (List.mem_map.2 ⟨.nan, List.mem_of_getElem? h1, rfl⟩)
    rw [List.getElem?_map, Option.map_eq_some_iff] at h2
    obtain ⟨x, hx, hxn⟩ := h2
    have : x = .nan := by cases x <;> simp_all [XF.abs]
    rw [hlab, List.getD_eq_getElem?_getD, hx, this]
    rfl
  · obtain ⟨k1, -, k3⟩ := fill_keeps em _ m fs _ b' hb'
    rw [List.length_map, List.length_range] at k1
    have hlt : argmax (b'.map XF.abs) < b'.length := by
      have := argmax_lt (b'.map XF.abs) (by
        intro h0
        have := congrArg List.length h0
        simp at this
        rw [this] at k1
        simp at k1
        omega)
      simpa using this
    rw [hlab', List.getD_eq_getElem?_getD, List.getElem?_eq_getElem hlt, Option.getD_some]
    rcases k3 _ (List.getElem_mem hlt) with h1 | ⟨f, hf, h1⟩
    · obtain ⟨q, -, hq⟩ := List.mem_map.1 h1
      rw [← hq]; simp [XF.sign]
    · obtain ⟨t, ht⟩ := hT f hf
      rw [ht] at h1
      rw [← Except.ok.inj h1]; simp [XF.sign]

/-! ### C71 -/

/-- The times that are labelled. -/
def eventTimes (events : Option (List ℤ)) (s : List (ℤ × XF ℝ)) : List ℤ := events.getD (s.map (·.1))

theorem transform_ok (em : ErrModel) (mem : ℕ → ℕ → XF ℝ) (p : Params) (events : Option (List ℤ)) (s : List (ℤ × XF ℝ))
    (hev : ∀ e ∈ eventTimes events s, e ∈ s.map (·.1)) :
    (Trend.transform em mem p events s).2 = mapE (labelAt em mem p s) (eventTimes events s).zipIdx := by
  unfold Trend.transform
  cases events with
  | none => rfl
  | some ev => exact congrArg Prod.snd (if_pos hev)

theorem mapE_zipIdx_forall {α β : Type} (f : α × ℕ → Py β) (l : List α) (R : α → β → Prop) (k : ℕ)
    (h : ∀ a ∈ l, ∀ i, ∃ b, f (a, i) = .ok b ∧ R a b) : ∃ r, mapE f (l.zipIdx k) = .ok r ∧ List.Forall₂ R l r := by
  induction l generalizing k with
  | nil => exact ⟨[], rfl, List.Forall₂.nil⟩
  | cons a l ih =>
    obtain ⟨b, hb, hR⟩ := h a (by simp) k
    obtain ⟨r, hr, hF⟩ := ih (k + 1) fun x hx => h x (by simp [hx])
    refine ⟨b :: r, ?_, List.Forall₂.cons hR hF⟩
    rw [List.zipIdx_cons]
    simp only [mapE, hb, hr]

/-- The row of an event is missing. -/
def Missing (l : Label) : Prop := l.eventEnd = none ∧ l.tValue = .nan ∧ l.ret = .nan ∧ l.label = .nan

/-- C71 (step one): for every complete series with distinct times and every event, the row has the t-value of the first
window with the greatest absolute t-value among those of `min_sample_length ≤ n < look_forward_window` values, the time of
the last bar of this window as end, the return over it, and the sign of the t-value as label; events with fewer than
`look_forward_window` bars left have a missing row.  Values of the first `min_sample_length` bars on a line are excluded.
Missing: the window of all `look_forward_window` bars is never tried (`C71_full_window_refuted`). -/
theorem C71_best_partial (em : ErrModel) (mem : ℕ → ℕ → XF ℝ) (look minLen : ℕ) (hml : minLen < look) (s : List (ℤ × XF ℝ)) (y : ℕ → ℝ)
    (h : Complete s y) (hnd : (s.map (·.1)).Nodup) (events : Option (List ℤ)) (hev : ∀ e ∈ eventTimes events s, e ∈ s.map (·.1))
    (hc : ∀ i e, (s.map (·.1))[i]? = some e → e ∈ eventTimes events s → i + look ≤ s.length → Curved y i minLen) :
    ∃ out, (Trend.transform em mem ⟨look, minLen, 1⟩ events s).2 = .ok out ∧
      List.Forall₂ (fun e l => l.time = e ∧ ∃ i, (s.map (·.1))[i]? = some e ∧
        if i + look ≤ s.length then
          ∃ n t, IsBestWindow y i minLen look n t ∧ l.tValue = .fin t ∧ (∃ u, l.eventEnd = some u ∧ (s.map (·.1))[i + n - 1]? = some u) ∧
            (y i ≠ 0 → l.ret = .fin (y (i + n - 1) / y i - 1)) ∧
            ((0 < t ∧ l.label = .fin 1) ∨ (t < 0 ∧ l.label = .fin (-1)) ∨ (t = 0 ∧ l.label = .fin 0))
        else Missing l) (eventTimes events s) out := by
  rw [transform_ok em mem _ events s hev]
  apply mapE_zipIdx_forall
  intro e he k
  obtain ⟨i, hi, hie⟩ := List.mem_iff_getElem.1 (hev e he)
  have hi' : i < s.length := by simpa using hi
  have hidx : (s.map (·.1)).idxOf e = i := by rw [← hie]; exact hnd.idxOf_getElem i hi
  have hget : (s.map (·.1))[i]? = some e := by rw [List.getElem?_eq_getElem hi, hie]
  unfold labelAt scanAt
  dsimp only
  rw [hidx]
  by_cases hil : i + look ≤ s.length
  · have hC := hc i e hget he hil
    have h3 := curved_three hC
    have hlen : (slice y i look).length = look := by simp [slice]
    rw [window_slice h i look hil, if_pos hlen, bestAt_one, hlen]
    have hT : ∀ q, ∃ t, minLen + q ≤ look → trendT em ((slice y i look).take (minLen + q)) = .ok (.fin t) ∧ IsTrendT y i (minLen + q) t ∧
        ∀ t', IsTrendT y i (minLen + q) t' → t' = t := by
      intro q
      obtain ⟨t, ht⟩ := trendT_curved em (curved_mono hC (Nat.le_add_right minLen q))
      exact ⟨t, fun hq => by rw [slice_take y i look _ hq]; exact ht⟩
    choose f hf using hT
    rw [mapE_ok_of_forall _ (fun q => .fin (f q)) _ fun q hq => (hf q (by have := List.mem_range.1 hq; omega)).1]
    simp only [Except.bind, Py.bind_ok, List.map_map]
    have hcomp : (List.range (look - minLen)).map (XF.abs ∘ fun q => XF.fin (f q)) = (List.range (look - minLen)).map fun q => .fin |f q| := by
      apply List.map_congr_left
      intro q _
      rfl
    rw [hcomp]
    obtain ⟨k1, k2, k3⟩ := argmax_fin (look - minLen) (by omega) fun q => |f q|
    generalize argmax ((List.range (look - minLen)).map fun q => XF.fin |f q|) = q at k1 k2 k3
    have hq : ((List.range (look - minLen)).map fun q => XF.fin (f q)).getD q .nan = .fin (f q) := by
      rw [List.getD_eq_getElem?_getD, List.getElem?_map, List.getElem?_range k1]; rfl
    rw [hq]
    have hend : i + q + minLen - 1 = i + (minLen + q) - 1 := by omega
    have hlt : i + (minLen + q) - 1 < s.length := by omega
    refine ⟨_, rfl, rfl, i, hget, ?_⟩
    rw [if_pos hil]
    refine ⟨minLen + q, f q, ⟨by omega, by omega, (hf q (by omega)).2.1, ?_⟩, rfl, ⟨(s.map (·.1)).getD (i + q + minLen - 1) 0, rfl, ?_⟩, ?_, ?_⟩
    · intro n' t' h1 h2 h3
      obtain ⟨r, rfl⟩ : ∃ r, n' = minLen + r := ⟨n' - minLen, by omega⟩
      rw [(hf r (by omega)).2.2 t' h3]
      exact ⟨k2 r (by omega), fun h4 => k3 r (by omega)⟩
    · rw [hend, List.getD_eq_getElem?_getD, List.getElem?_eq_getElem (by rw [List.length_map]; exact hlt)]; rfl
    · intro hy
      rw [hend]
      simp only [List.getD_eq_getElem?_getD]
      rw [h _ hlt, h i hi']
      simp only [Option.getD_some]
      rw [XF.div_fin _ _ hy, XF.sub_fin]
    · simp only [XF.sign, XF.fin.injEq]
      rcases lt_trichotomy (f q) 0 with h1 | h1 | h1
      · right; left; exact ⟨h1, by rw [if_neg (not_lt.2 h1.le), if_pos h1]⟩
      · right; right; exact ⟨h1, by rw [h1]; simp⟩
      · left; exact ⟨h1, by rw [if_pos h1]⟩
  · have hw : (((s.map (·.2)).drop i).take look).length ≠ look := by simp; omega
    rw [if_neg hw]
    refine ⟨_, rfl, rfl, i, hget, ?_⟩
    rw [if_neg hil]
    exact ⟨rfl, rfl, rfl, rfl⟩

theorem mapE_error {α β : Type} (f : α → Py β) (l : List α) (er : PyErr) (h : ∀ a ∈ l, f a = .error er ∨ ∃ b, f a = .ok b)
    (hex : ∃ a ∈ l, f a = .error er) : mapE f l = .error er := by
  induction l with
  | nil => simp at hex
  | cons a l ih =>
    simp only [mapE]
    rcases h a (by simp) with h1 | ⟨b, h1⟩
    · rw [h1]
    · rw [h1]
      have := ih (fun x hx => h x (by simp [hx])) (by
        obtain ⟨x, hx, h2⟩ := hex
        rcases List.mem_cons.1 hx with rfl | hx
        · rw [h1] at h2; cases h2
        · exact ⟨x, hx, h2⟩)
      dsimp only
      rw [this]

theorem trendT_two (em : ErrModel) (w : List (XF ℝ)) (h : w.length = 2) : trendT em w = .ok .nan := by
  by_cases hf : ∀ x ∈ w, isFinite x = true
  · rw [slice_of_finite w hf, trendT_slice, h]
    generalize (fun i => (w.getD i .nan).toK) = y
    have hd := (fullRank_iff _).1 ((trendRows_fullRank y 0 2).2 (le_refl 2))
    unfold tValue
    rw [ols_fin, if_neg hd, Py.bind_ok]
    dsimp only
    have hr : rss (trendRows y 0 2) (betaR (trendRows y 0 2)) = 0 := by
      apply le_antisymm _ (rss_nonneg _ _)
      have h1 := betaR_least _ hd ![y 0, y 1 - y 0]
      have h2 : rss (trendRows y 0 2) ![y 0, y 1 - y 0] = 0 := by
        rw [rss_eq_zero_iff]
        intro r hr
        simp only [trendRows, List.range_succ, List.range_zero, List.nil_append, List.cons_append, List.map_cons, List.map_nil, List.mem_cons,
          List.not_mem_nil, or_false] at hr
        rcases hr with rfl | rfl <;> simp [predict, Fin.sum_univ_two]
      rw [h2] at h1
      exact h1
    rw [hr]
    have hl : (((trendRows y 0 2).length : ℝ) - ((2 : ℕ) : ℝ)) = 0 := by simp [trendRows]
    rw [hl]
    simp [XF.div, XF.infSign, divE, XF.sqrt, XF.beq]
  · push Not at hf
    obtain ⟨x, hx, hxf⟩ := hf
    exact trendT_not_finite em w (by omega) x hx (by simpa using hxf)

theorem bestAt_nan (em : ErrModel) (mem : ℕ → XF ℝ) (L m : ℕ) (w : List (XF ℝ)) (r : XF ℝ × ℕ) (hr : bestAt em mem ⟨L, m, 1⟩ w = .ok r)
    (q : ℕ) (hq : q < w.length - m) (hn : trendT em (w.take (m + q)) = .ok .nan) : r.1 = .nan := by
  rw [bestAt_one] at hr
  cases ha : mapE (fun q => trendT em (w.take (m + q))) (List.range (w.length - m)) with
  | error e => rw [ha] at hr; cases hr
  | ok a =>
    rw [ha] at hr
    simp only [Except.bind, Except.ok.injEq] at hr
    obtain ⟨b, hb, hb'⟩ := mapE_getElem?_ok ha q q (List.getElem?_range hq)
    rw [hn, Except.ok.injEq] at hb'
    subst hb'
    have h2 := argmax_mem_nan (a.map XF.abs) (List.mem_map.2 ⟨.nan, List.mem_of_getElem? hb, rfl⟩)
    rw [List.getElem?_map, Option.map_eq_some_iff] at h2
    obtain ⟨x, hx, hxn⟩ := h2
    have : x = .nan := by cases x <;> simp_all [XF.abs]
    rw [← hr, List.getD_eq_getElem?_getD, hx, this]
    rfl

theorem label_nan (em : ErrModel) (mem : ℕ → ℕ → XF ℝ) (look minLen : ℕ) (s : List (ℤ × XF ℝ)) (events : Option (List ℤ)) (out : List Label)
    (h : (Trend.transform em mem ⟨look, minLen, 1⟩ events s).2 = .ok out) (P : ℤ → Prop)
    (hP : ∀ e, P e → (s.map (·.1)).idxOf e + look ≤ s.length → ∃ q < look - minLen,
      trendT em ((((s.map (·.2)).drop ((s.map (·.1)).idxOf e)).take look).take (minLen + q)) = .ok .nan) :
    ∀ l ∈ out, P l.time → l.tValue = .nan ∧ l.label = .nan := by
  have hrun : ∃ ev : List ℤ, mapE (labelAt em mem ⟨look, minLen, 1⟩ s) ev.zipIdx = .ok out := by
    unfold Trend.transform at h
    cases events with
    | none => exact ⟨_, h⟩
    | some ev =>
      dsimp only at h
      split at h
      · exact ⟨_, h⟩
      · cases h
  obtain ⟨ev, hev⟩ := hrun
  intro l hl hPl
  obtain ⟨k, hk, rfl⟩ := List.mem_iff_getElem.1 hl
  have hk' : k < ev.zipIdx.length := by rw [← mapE_length hev]; exact hk
  obtain ⟨_, hlab⟩ := mapE_getElem hev k hk'
  revert hPl
  generalize out[k] = l at hlab
  generalize ev.zipIdx[k] = e at hlab
  intro hPl
  unfold labelAt at hlab
  dsimp only at hlab
  obtain ⟨r, hr, hlab⟩ := Py.bind_eq_ok.1 hlab
  simp only [Except.ok.injEq] at hlab
  subst hlab
  dsimp only at *
  have : r.1 = .nan := by
    unfold scanAt at hr
    dsimp only at hr
    split at hr
    · rename_i hlen
      obtain ⟨r', hr', hr⟩ := Py.bind_eq_ok.1 hr
      simp only [Except.ok.injEq] at hr
      subst hr
      have h1 : (s.map (·.1)).idxOf e.1 + look ≤ s.length ∨ look = 0 := by simp at hlen; omega
      rcases h1 with h1 | h1
      · obtain ⟨q, hq, hq'⟩ := hP e.1 hPl h1
        exact bestAt_nan em _ look minLen _ r' hr' q (by rw [hlen]; exact hq) hq'
      · rw [bestAt_one, hlen, h1] at hr'
        simp only [Nat.zero_sub, List.range_zero, mapE, Except.bind, Except.ok.injEq] at hr'
        rw [← hr']; rfl
    · simp only [Except.ok.injEq] at hr
      rw [← hr]
  rw [this]
  exact ⟨rfl, rfl⟩

/-- C71 (missing values): with step one and `2 ≤ min_sample_length`, a row whose look-forward window holds, before its
last bar, a missing or infinite value has a missing t-value and label. -/
theorem C71_missing_values (em : ErrModel) (mem : ℕ → ℕ → XF ℝ) (look minLen : ℕ) (h2 : 2 ≤ minLen) (hml : minLen < look) (s : List (ℤ × XF ℝ))
    (hnd : (s.map (·.1)).Nodup) (events : Option (List ℤ)) (out : List Label)
    (h : (Trend.transform em mem ⟨look, minLen, 1⟩ events s).2 = .ok out) (i q : ℕ) (hq : q + 1 < look) (e : ℤ) (he : (s.map (·.1))[i]? = some e)
    (x : XF ℝ) (hx : (s.map (·.2))[i + q]? = some x) (hxf : ∀ r : ℝ, x ≠ .fin r) : ∀ l ∈ out, l.time = e → l.tValue = .nan ∧ l.label = .nan := by
  refine label_nan em mem look minLen s events out h (fun t => t = e) ?_
  intro e' he' hlen
  subst he'
  obtain ⟨hi, hie⟩ := List.getElem?_eq_some_iff.1 he
  have hidx : (s.map (·.1)).idxOf e' = i := by rw [← hie]; exact hnd.idxOf_getElem i hi
  rw [hidx] at hlen ⊢
  refine ⟨look - 1 - minLen, by omega, ?_⟩
  apply trendT_not_finite em _ (by simp; omega) x
  · rw [List.take_take]
    apply List.mem_of_getElem? (i := q)
    rw [List.getElem?_take_of_lt (by omega), List.getElem?_drop]
    exact hx
  · cases x with
    | fin r => exact absurd rfl (hxf r)
    | nan => rfl
    | pinf => rfl
    | ninf => rfl

/-- C71 (`min_sample_length = 2`): two points always lie on a line with no residual degree of freedom, so with step one
every t-value and every label is missing. -/
theorem C71_two_points (em : ErrModel) (mem : ℕ → ℕ → XF ℝ) (look : ℕ) (hml : 2 < look) (s : List (ℤ × XF ℝ)) (events : Option (List ℤ))
    (out : List Label) (h : (Trend.transform em mem ⟨look, 2, 1⟩ events s).2 = .ok out) : ∀ l ∈ out, l.tValue = .nan ∧ l.label = .nan := by
  intro l hl
  refine label_nan em mem look 2 s events out h (fun _ => True) ?_ l hl trivial
  intro e _ hlen
  exact ⟨0, by omega, trendT_two em _ (by simp; omega)⟩

theorem mapE_range_head {β : Type} (f : ℕ → Py β) (n : ℕ) (hn : 0 < n) (er : PyErr) (h : f 0 = .error er) : mapE f (List.range n) = .error er := by
  obtain ⟨n, rfl⟩ : ∃ k, n = k + 1 := ⟨n - 1, by omega⟩
  rw [List.range_succ_eq_map]
  simp only [mapE, h]

/-- C71 (`min_sample_length ≤ 1`): with step one, labelling any event with enough bars raises `LinAlgError`. -/
theorem C71_one_point (em : ErrModel) (mem : ℕ → ℕ → XF ℝ) (look minLen : ℕ) (h2 : minLen ≤ 1) (hml : minLen < look) (s : List (ℤ × XF ℝ))
    (hnd : (s.map (·.1)).Nodup) (events : Option (List ℤ)) (hev : ∀ e ∈ eventTimes events s, e ∈ s.map (·.1))
    (i : ℕ) (e : ℤ) (he : (s.map (·.1))[i]? = some e) (hin : e ∈ eventTimes events s) (hi : i + look ≤ s.length) :
    (Trend.transform em mem ⟨look, minLen, 1⟩ events s).2 = .error .linAlgError := by
  rw [transform_ok em mem _ events s hev]
  have key : ∀ x : ℤ × ℕ, (((s.map (·.1)).idxOf x.1 + look ≤ s.length → labelAt em mem ⟨look, minLen, 1⟩ s x = .error .linAlgError)) ∧
      (¬ (s.map (·.1)).idxOf x.1 + look ≤ s.length → ∃ b, labelAt em mem ⟨look, minLen, 1⟩ s x = .ok b) := by
    intro x
    unfold labelAt scanAt
    dsimp only
    constructor
    · intro hx
      have hlen : (((s.map (·.2)).drop ((s.map (·.1)).idxOf x.1)).take look).length = look := by simp; omega
      rw [if_pos hlen, bestAt_one, hlen, mapE_range_head _ _ (by omega) .linAlgError]
      · rfl
      · exact trendT_short em _ (by simp; omega)
    · intro hx
      have hlen : (((s.map (·.2)).drop ((s.map (·.1)).idxOf x.1)).take look).length ≠ look := by simp; omega
      rw [if_neg hlen]
      exact ⟨_, rfl⟩
  apply mapE_error
  · intro x _
    by_cases hx : (s.map (·.1)).idxOf x.1 + look ≤ s.length
    · exact Or.inl ((key x).1 hx)
    · exact Or.inr ((key x).2 hx)
  · obtain ⟨k, hk, hke⟩ := List.mem_iff_getElem.1 hin
    refine ⟨(e, k), by rw [List.mem_zipIdx_iff_getElem?]; simp [hk, hke], (key (e, k)).1 ?_⟩
    obtain ⟨hi', hie⟩ := List.getElem?_eq_some_iff.1 he
    have hidx : (s.map (·.1)).idxOf e = i := by rw [← hie]; exact hnd.idxOf_getElem i hi'
    dsimp only
    rw [hidx]; exact hi

/-- Values 0, 0, 1, 1 at times 10, 11, 12, 13. -/
def stepSeries : List (ℤ × XF ℝ) := [(10, .fin 0), (11, .fin 0), (12, .fin 1), (13, .fin 1)]

def stepY (i : ℕ) : ℝ := if i < 2 then 0 else 1

theorem stepSeries_complete : Complete stepSeries stepY := by
  intro i hi
  simp only [stepSeries, List.length_cons, List.length_nil] at hi
  match i, hi with
  | 0, _ => simp [stepSeries, stepY]
  | 1, _ => simp [stepSeries, stepY]
  | 2, _ => simp [stepSeries, stepY]
  | 3, _ => simp [stepSeries, stepY]

theorem step_curved : Curved stepY 0 3 := by
  intro a b
  by_contra h
  push Not at h
  have h0 := h 0 (by norm_num)
  have h1 := h 1 (by norm_num)
  have h2 := h 2 (by norm_num)
  norm_num [stepY] at h0 h1 h2
  linarith

theorem step_four : IsTrendT stepY 0 4 ((2 / 5) / Real.sqrt (1 / 50)) := by
  have hr : trendRows stepY 0 4 = [(![1, 0], 0), (![1, 1], 0), (![1, 2], 1), (![1, 3], 1)] := by
    simp [trendRows, stepY, List.range_succ]
  unfold IsTrendT
  rw [hr, (tValue_of_inverse _ !![7 / 10, -3 / 10; -3 / 10, 1 / 5] (by
    ext i j
    fin_cases i <;> fin_cases j <;> simp [gram, Matrix.mul_apply, Fin.sum_univ_two] <;> norm_num) ![-1 / 10, 2 / 5] (by
    funext i
    fin_cases i <;> simp [Matrix.mulVec, dotProduct, Fin.sum_univ_two] <;> norm_num) 1).2]
  have : rss [(![1, 0], 0), (![1, 1], 0), (![1, 2], 1), (![1, 3], 1)] ![-1 / 10, 2 / 5] = 1 / 5 := by
    simp [rss, predict, Fin.sum_univ_two]; norm_num
  rw [this]
  have e : ((1 : ℝ) / 5) / (([(![1, 0], 0), (![1, 1], 0), (![1, 2], 1), (![1, 3], 1)] : List (RRow 2)).length - ((2 : ℕ) : ℝ)) *
      (!![7 / 10, -3 / 10; -3 / 10, 1 / 5] : Matrix (Fin 2) (Fin 2) ℝ) 1 1 = 1 / 50 := by
    simp; norm_num
  rw [e]
  simp

theorem step_three (t : ℝ) (h : IsTrendT stepY 0 3 t) : t = (1 / 2) / Real.sqrt (1 / 12) := by
  have hr : trendRows stepY 0 3 = [(![1, 0], 0), (![1, 1], 0), (![1, 2], 1)] := by
    simp [trendRows, stepY, List.range_succ]
  unfold IsTrendT at h
  rw [hr, (tValue_of_inverse _ !![5 / 6, -1 / 2; -1 / 2, 1 / 2] (by
    ext i j
    fin_cases i <;> fin_cases j <;> simp [gram, Matrix.mul_apply, Fin.sum_univ_two] <;> norm_num) ![-1 / 6, 1 / 2] (by
    funext i
    fin_cases i <;> simp [Matrix.mulVec, dotProduct, Fin.sum_univ_two] <;> norm_num) 1).2] at h
  rw [h]
  have : rss [(![1, 0], 0), (![1, 1], 0), (![1, 2], 1)] ![-1 / 6, 1 / 2] = 1 / 6 := by
    simp [rss, predict, Fin.sum_univ_two]; norm_num
  rw [this]
  have e : ((1 : ℝ) / 6) / (([(![1, 0], 0), (![1, 1], 0), (![1, 2], 1)] : List (RRow 2)).length - ((2 : ℕ) : ℝ)) *
      (!![5 / 6, -1 / 2; -1 / 2, 1 / 2] : Matrix (Fin 2) (Fin 2) ℝ) 1 1 = 1 / 12 := by
    simp; norm_num
  rw [e]
  simp

/-- C71 (refutation): the window of all `look_forward_window` bars can have a greater t-value than the one reported.  For
the values 0, 0, 1, 1 with windows of three to four bars the reported one is over three bars. -/
theorem C71_full_window_refuted (em : ErrModel) (mem : ℕ → ℕ → XF ℝ) :
    ∃ l t t', (Trend.transform em mem ⟨4, 3, 1⟩ (some [10]) stepSeries).2 = .ok [l] ∧ l.tValue = .fin t ∧ l.eventEnd = some 12 ∧
      IsTrendT stepY 0 4 t' ∧ |t| < |t'| := by
  obtain ⟨out, h1, h2⟩ := C71_best_partial em mem 4 3 (by norm_num) stepSeries stepY stepSeries_complete (by simp [stepSeries]) (some [10])
    (by simp [eventTimes, stepSeries]) (by
      intro i e _ _ h3
      simp only [stepSeries, List.length_cons, List.length_nil] at h3
      obtain rfl : i = 0 := by omega
      exact step_curved)
  simp only [eventTimes, Option.getD_some] at h2
  rcases h2 with _ | ⟨h3, h4⟩
  cases h4
  obtain ⟨-, i, hi, h5⟩ := h3
  have hi0 : i = 0 := by
    simp only [stepSeries, List.map_cons, List.map_nil] at hi
    match i, hi with
    | 0, _ => rfl
    | 1, hi => simp at hi
    | 2, hi => simp at hi
    | 3, hi => simp at hi
    | n + 4, hi => simp at hi
  subst hi0
  rw [if_pos (by simp [stepSeries])] at h5
  obtain ⟨n, t, ⟨hn1, hn2, ht, -⟩, htv, ⟨u, hu, hu'⟩, -⟩ := h5
  obtain rfl : n = 3 := by omega
  refine ⟨_, t, _, h1, htv, ?_, step_four, ?_⟩
  · rw [hu]
    simpa [stepSeries] using hu'.symm
  · rw [step_three t ht]
    have a1 : (0 : ℝ) < Real.sqrt (1 / 12) := Real.sqrt_pos.2 (by norm_num)
    have a2 : (0 : ℝ) < Real.sqrt (1 / 50) := Real.sqrt_pos.2 (by norm_num)
    rw [abs_of_pos (by positivity), abs_of_pos (by positivity), div_lt_div_iff₀ a1 a2]
    have b1 : Real.sqrt (1 / 50) < 1 / 7 := by rw [Real.sqrt_lt' (by norm_num)]; norm_num
    have b2 : (2 : ℝ) / 7 < Real.sqrt (1 / 12) := by rw [Real.lt_sqrt (by norm_num)]; norm_num
    linarith

/-! ### C72 -/

/-- The events an object holds after it transformed series one after the other (each with its own state of the
memory). -/
noncomputable def eventsAfter (em : ErrModel) (p : Params) (events : Option (List ℤ)) (hist : List ((ℕ → ℕ → XF ℝ) × List (ℤ × XF ℝ))) :
    Option (List ℤ) := hist.foldl (fun ev h => (Trend.transform em h.1 p ev h.2).1) events

theorem eventsAfter_some (em : ErrModel) (p : Params) (ev : List ℤ) (hist : List ((ℕ → ℕ → XF ℝ) × List (ℤ × XF ℝ))) :
    eventsAfter em p (some ev) hist = some ev := by
  unfold eventsAfter
  induction hist with
  | nil => rfl
  | cons h hist ih =>
    rw [List.foldl_cons]
    have : (Trend.transform em h.1 p (some ev) h.2).1 = some ev := by
      unfold Trend.transform
      dsimp only
      split <;> rfl
    rw [this, ih]

/-- C72 (events given): an object made with events gives for every series what a new object gives, whatever it
transformed before. -/
theorem C72_given_events_partial (em : ErrModel) (mem : ℕ → ℕ → XF ℝ) (p : Params) (ev : List ℤ) (hist : List ((ℕ → ℕ → XF ℝ) × List (ℤ × XF ℝ)))
    (s : List (ℤ × XF ℝ)) :
    (Trend.transform em mem p (eventsAfter em p (some ev) hist) s).2 = (Trend.transform em mem p (some ev) s).2 := by
  rw [eventsAfter_some]

/-- C72 (no events given): the first series fixes the events for all later calls. -/
theorem C72_frozen (em : ErrModel) (mem : ℕ → ℕ → XF ℝ) (p : Params) (s₁ s : List (ℤ × XF ℝ)) (mem₁ : ℕ → ℕ → XF ℝ)
    (hist : List ((ℕ → ℕ → XF ℝ) × List (ℤ × XF ℝ))) :
    (Trend.transform em mem p (eventsAfter em p none ((mem₁, s₁) :: hist)) s).2 = (Trend.transform em mem p (some (s₁.map (·.1))) s).2 := by
  have : eventsAfter em p none ((mem₁, s₁) :: hist) = some (s₁.map (·.1)) := eventsAfter_some em p _ hist
  rw [this]

/-- C72 (no events given, same index): an object that transformed only series with the same times gives what a new
object gives. -/
theorem C72_same_index_partial (em : ErrModel) (mem : ℕ → ℕ → XF ℝ) (p : Params) (s : List (ℤ × XF ℝ))
    (hist : List ((ℕ → ℕ → XF ℝ) × List (ℤ × XF ℝ))) (h : ∀ r ∈ hist, r.2.map (·.1) = s.map (·.1)) :
    (Trend.transform em mem p (eventsAfter em p none hist) s).2 = (Trend.transform em mem p none s).2 := by
  cases hist with
  | nil => rfl
  | cons r hist =>
    rw [C72_frozen, h r (by simp)]
    unfold Trend.transform
    dsimp only
    rw [if_pos (fun _ h => h)]

/-- C72 (refutation): an object made without events that transformed a series raises `AssertionError` for every series
that lacks one of its times, also for those a new object labels (such as every series that is too short). -/
theorem C72_refuted (em : ErrModel) (mem mem₁ : ℕ → ℕ → XF ℝ) (p : Params) (s₁ s : List (ℤ × XF ℝ)) (t : ℤ) (h₁ : t ∈ s₁.map (·.1))
    (h : t ∉ s.map (·.1)) :
    (Trend.transform em mem p (eventsAfter em p none [(mem₁, s₁)]) s).2 = .error .assertionError ∧
    (s.length < p.look → ∃ out, (Trend.transform em mem p none s).2 = .ok out ∧ out.map (·.time) = s.map (·.1) ∧ ∀ l ∈ out, Missing l) := by
  constructor
  · rw [C72_frozen]
    unfold Trend.transform
    dsimp only
    rw [if_neg]
    intro hall
    exact h (hall t h₁)
  · intro hlen
    obtain ⟨out, h2, h3⟩ := mapE_zipIdx_forall (labelAt em mem p s) (s.map (·.1)) (fun e l => l.time = e ∧ Missing l) 0 (by
      intro e _ i
      unfold labelAt scanAt
      dsimp only
      rw [if_neg (by simp; omega)]
      exact ⟨_, rfl, rfl, rfl, rfl, rfl, rfl⟩)
    refine ⟨out, h2, ?_, ?_⟩
    · clear h2
      generalize s.map (·.1) = ts at h3
      induction h3 with
      | nil => rfl
      | cons h _ ih => rw [List.map_cons, h.1, ih]
    · intro l hl
      obtain ⟨i, hi, rfl⟩ := List.mem_iff_getElem.1 hl
      exact (List.forall₂_iff_get.1 h3).2 i (by rw [h3.length_eq]; exact hi) hi |>.2

/-! ### C73 -/

/-- What a change of scale acts on. -/
noncomputable def mirrorRow (a : ℝ) (l : Label) : ℤ × Option ℤ × XF ℝ × XF ℝ := (l.time, l.eventEnd, sg a l.tValue, sg a l.label)

theorem abs_sg (a : ℝ) (x : XF ℝ) : XF.abs (sg a x) = XF.abs x := by
  unfold sg
  split
  · rfl
  · cases x <;> simp [XF.abs, XF.neg]

theorem sign_sg (a : ℝ) (x : XF ℝ) : XF.sign (sg a x) = sg a (XF.sign x) := by
  unfold sg
  split
  · rfl
  · cases x with
    | fin x =>
      simp only [XF.neg, XF.sign, XF.fin.injEq]
      rcases lt_trichotomy x 0 with h | h | h
      · simp [h, not_lt.2 h.le]
      · simp [h]
      · simp [h, not_lt.2 h.le]
    | _ => simp [XF.sign, XF.neg]

theorem fill_affine (em : ErrModel) {a : ℝ} (ha : 0 < a) (b : ℝ) (w : List (XF ℝ)) (m : ℕ) (fs : List ℕ) (arr : List (XF ℝ)) :
    fill em (w.map (affine a b)) m fs arr = fill em w m fs arr := by
  induction fs generalizing arr with
  | nil => rfl
  | cons f fs ih =>
    simp only [fill]
    rw [← List.map_take, trendT_affine em ha.ne']
    cases trendT em (w.take f) with
    | error e => rfl
    | ok t =>
      have : sg a t = t := if_pos ha
      show fill em (w.map (affine a b)) m fs (arr.set (f - m) (sg a t)) = fill em w m fs (arr.set (f - m) t)
      rw [this]
      exact ih _

theorem mapE_mapped {α β γ : Type} (f : α → Py β) (g : β → γ) (l : List α) : mapE (fun x => (f x).map g) l = (mapE f l).map (List.map g) := by
  induction l with
  | nil => rfl
  | cons x l ih =>
    simp only [mapE, ih]
    cases f x with
    | error e => rfl
    | ok b =>
      cases mapE f l with
      | error e => rfl
      | ok r => rfl

theorem bestAt_affine (em : ErrModel) (mem : ℕ → XF ℝ) (p : Params) {a : ℝ} (h : 0 < a ∨ a < 0 ∧ p.step = 1) (b : ℝ) (w : List (XF ℝ)) :
    bestAt em mem p (w.map (affine a b)) = (bestAt em mem p w).map fun r => (sg a r.1, r.2) := by
  rcases h with h | ⟨h, hs⟩
  · have hid : (fun r : XF ℝ × ℕ => (sg a r.1, r.2)) = id := by
      funext r
      have : sg a r.1 = r.1 := if_pos h
      rw [this]; rfl
    rw [hid]
    unfold bestAt
    rw [List.length_map]
    simp only [fill_affine em h]
    cases windows p.minLen w.length p.step with
    | error e => rfl
    | ok fs =>
      rw [Py.bind_ok]
      cases fill em w p.minLen fs ((List.range (w.length - p.minLen)).map mem) with
      | error e => rfl
      | ok c => rfl
  · obtain ⟨L, m, st⟩ := p
    dsimp only at hs
    subst hs
    rw [bestAt_one, bestAt_one, List.length_map]
    have : (fun q => trendT em ((w.map (affine a b)).take (m + q))) = fun q => (trendT em (w.take (m + q))).map (sg a) := by
      funext q
      rw [← List.map_take, trendT_affine em h.ne]
    rw [this, mapE_mapped]
    cases mapE (fun q => trendT em (w.take (m + q))) (List.range (w.length - m)) with
    | error e => rfl
    | ok c =>
      simp only [Except.map, Except.bind, List.map_map]
      have habs : c.map (XF.abs ∘ sg a) = c.map XF.abs := List.map_congr_left fun x _ => abs_sg a x
      rw [habs]
      congr 2
      rw [List.getD_eq_getElem?_getD, List.getD_eq_getElem?_getD, List.getElem?_map]
      cases c[argmax (c.map XF.abs)]? with
      | none => simp [sg, XF.neg]
      | some x => rfl

theorem labelAt_affine (em : ErrModel) (mem : ℕ → ℕ → XF ℝ) (p : Params) {a : ℝ} (h : 0 < a ∨ a < 0 ∧ p.step = 1) (b : ℝ)
    (s : List (ℤ × XF ℝ)) (e : ℤ × ℕ) :
    (labelAt em mem p (s.map fun r => (r.1, affine a b r.2)) e).map (mirrorRow 1) = (labelAt em mem p s e).map (mirrorRow a) := by
  have h1 : (s.map fun r => (r.1, affine a b r.2)).map (·.1) = s.map (·.1) := by rw [List.map_map]; rfl
  have h2 : (s.map fun r => (r.1, affine a b r.2)).map (·.2) = (s.map (·.2)).map (affine a b) := by rw [List.map_map, List.map_map]; rfl
  have hone : ∀ x, sg 1 x = x := fun x => if_pos one_pos
  have hnan : sg a .nan = .nan := by unfold sg; split <;> rfl
  unfold labelAt scanAt
  dsimp only
  rw [h1, h2, ← List.map_drop, ← List.map_take, List.length_map]
  split
  · rw [bestAt_affine em (mem e.2) p h]
    cases bestAt em (mem e.2) p (((s.map (·.2)).drop ((s.map (·.1)).idxOf e.1)).take p.look) with
    | error e => rfl
    | ok r =>
      simp only [Except.map, Py.bind_ok, mirrorRow, hone, sign_sg]
  · simp only [Except.map, Py.bind_ok, mirrorRow, hone, sign_sg]
    simp [XF.sign, hnan]

theorem transform_affine (em : ErrModel) (mem : ℕ → ℕ → XF ℝ) (p : Params) {a : ℝ} (h : 0 < a ∨ a < 0 ∧ p.step = 1) (b : ℝ)
    (events : Option (List ℤ)) (s : List (ℤ × XF ℝ)) :
    (Trend.transform em mem p events (s.map fun r => (r.1, affine a b r.2))).2.map (List.map (mirrorRow 1)) =
      (Trend.transform em mem p events s).2.map (List.map (mirrorRow a)) := by
  have h1 : (s.map fun r => (r.1, affine a b r.2)).map (·.1) = s.map (·.1) := by rw [List.map_map]; rfl
  have key : ∀ l, (mapE (labelAt em mem p (s.map fun r => (r.1, affine a b r.2))) l).map (List.map (mirrorRow 1)) =
      (mapE (labelAt em mem p s) l).map (List.map (mirrorRow a)) := by
    intro l
    rw [← mapE_mapped, ← mapE_mapped]
    exact mapE_congr fun e _ => labelAt_affine em mem p h b s e
  unfold Trend.transform
  cases events with
  | none =>
    dsimp only
    rw [h1]
    exact key _
  | some ev =>
    dsimp only
    rw [h1]
    split
    · exact key _
    · rfl

theorem mirrorRow_one (l : Label) : mirrorRow 1 l = (l.time, l.eventEnd, l.tValue, l.label) := by
  have hone : ∀ x, sg 1 x = x := fun x => if_pos one_pos
  simp [mirrorRow, hone]

/-- C73 (scale): multiplying any series by a positive number and adding another changes no time, end, t-value or label,
for every step and also where values are missing; the errors are the same too. -/
theorem C73_scale (em : ErrModel) (mem : ℕ → ℕ → XF ℝ) (p : Params) (a b : ℝ) (ha : 0 < a) (events : Option (List ℤ)) (s : List (ℤ × XF ℝ)) :
    (Trend.transform em mem p events (s.map fun r => (r.1, affine a b r.2))).2.map (List.map fun l => (l.time, l.eventEnd, l.tValue, l.label)) =
      (Trend.transform em mem p events s).2.map (List.map fun l => (l.time, l.eventEnd, l.tValue, l.label)) := by
  have := transform_affine em mem p (Or.inl ha) b events s
  have h1 : mirrorRow a = mirrorRow 1 := by
    funext l
    simp only [mirrorRow, sg, if_pos ha, if_pos one_pos]
  rw [h1] at this
  have h2 : mirrorRow 1 = fun l : Label => (l.time, l.eventEnd, l.tValue, l.label) := funext mirrorRow_one
  rw [h2] at this
  exact this

/-- C73 (mirror): with step one, multiplying any series by a negative number and adding another negates every t-value and
label and changes no time or end; the errors are the same too. -/
theorem C73_mirror (em : ErrModel) (mem : ℕ → ℕ → XF ℝ) (p : Params) (hs : p.step = 1) (a b : ℝ) (ha : a < 0) (events : Option (List ℤ))
    (s : List (ℤ × XF ℝ)) :
    (Trend.transform em mem p events (s.map fun r => (r.1, affine a b r.2))).2.map (List.map fun l => (l.time, l.eventEnd, l.tValue, l.label)) =
      (Trend.transform em mem p events s).2.map (List.map fun l => (l.time, l.eventEnd, XF.neg l.tValue, XF.neg l.label)) := by
  have := transform_affine em mem p (Or.inr ⟨ha, hs⟩) b events s
  have h1 : mirrorRow a = fun l : Label => (l.time, l.eventEnd, XF.neg l.tValue, XF.neg l.label) := by
    funext l
    simp only [mirrorRow, sg, if_neg (not_lt.2 ha.le)]
  rw [h1] at this
  have h2 : mirrorRow 1 = fun l : Label => (l.time, l.eventEnd, l.tValue, l.label) := funext mirrorRow_one
  rw [h2] at this
  exact this

section Examples

/-- Two states of the memory give different labels with step two. -/
example (em : ErrModel) : ∃ mem mem' l l', (Trend.transform em mem ⟨5, 3, 2⟩ (some [10]) (stepSeries ++ [(14, .fin 1)])).2 = .ok [l] ∧
    (Trend.transform em mem' ⟨5, 3, 2⟩ (some [10]) (stepSeries ++ [(14, .fin 1)])).2 = .ok [l'] ∧ l.label = .nan ∧ l'.label ≠ .nan := by
  refine C70_refuted em ⟨5, 3, 2⟩ (Or.inr (le_refl _)) _ stepY ?_ (by norm_num) (by simp [stepSeries]) step_curved 10 (by simp [stepSeries])
  intro i hi
  simp only [stepSeries, List.cons_append, List.nil_append, List.length_cons, List.length_nil] at hi
  match i, hi with
  | 0, _ => simp [stepSeries, stepY]
  | 1, _ => simp [stepSeries, stepY]
  | 2, _ => simp [stepSeries, stepY]
  | 3, _ => simp [stepSeries, stepY]
  | 4, _ => simp [stepSeries, stepY]

example (em : ErrModel) (mem mem' : ℕ → ℕ → XF ℝ) : Trend.transform em mem ⟨4, 3, 1⟩ none stepSeries = Trend.transform em mem' ⟨4, 3, 1⟩ none stepSeries :=
  C70_step_one_partial em mem mem' _ (Or.inl rfl) none stepSeries

/-- All events of a short series: one label, three missing rows. -/
example (em : ErrModel) (mem : ℕ → ℕ → XF ℝ) : ∃ out, (Trend.transform em mem ⟨4, 3, 1⟩ none stepSeries).2 = .ok out ∧ out.length = 4 := by
  obtain ⟨out, h1, h2⟩ := C71_best_partial em mem 4 3 (by norm_num) stepSeries stepY stepSeries_complete (by simp [stepSeries]) none
    (by simp [eventTimes]) (by
      intro i e _ _ h3
      simp only [stepSeries, List.length_cons, List.length_nil] at h3
      obtain rfl : i = 0 := by omega
      exact step_curved)
  exact ⟨out, h1, by rw [← h2.length_eq]; simp [eventTimes, stepSeries]⟩

/-- A missing value in the window. -/
example (em : ErrModel) (mem : ℕ → ℕ → XF ℝ) (out : List Label)
    (h : (Trend.transform em mem ⟨4, 2, 1⟩ none [(10, .fin 0), (11, .nan), (12, .fin 1), (13, .fin 1)]).2 = .ok out) :
    ∀ l ∈ out, l.time = 10 → l.tValue = .nan ∧ l.label = .nan :=
  C71_missing_values em mem 4 2 (le_refl _) (by norm_num) _ (by simp) none out h 0 1 (by norm_num) 10 (by simp) .nan (by simp) (by simp)

example (em : ErrModel) (mem : ℕ → ℕ → XF ℝ) : (Trend.transform em mem ⟨4, 1, 1⟩ none stepSeries).2 = .error .linAlgError :=
  C71_one_point em mem 4 1 (le_refl _) (by norm_num) stepSeries (by simp [stepSeries]) none (by simp [eventTimes]) 0 10 (by simp [stepSeries])
    (by simp [eventTimes, stepSeries]) (by simp [stepSeries])

/-- The same object on a later series. -/
example (em : ErrModel) (mem : ℕ → ℕ → XF ℝ) :
    (Trend.transform em mem ⟨20, 5, 1⟩ (eventsAfter em ⟨20, 5, 1⟩ none [(mem, stepSeries)]) [(20, .fin 1), (21, .fin 2)]).2 = .error .assertionError :=
  (C72_refuted em mem mem ⟨20, 5, 1⟩ stepSeries _ 10 (by simp [stepSeries]) (by simp)).1

example (em : ErrModel) (mem : ℕ → ℕ → XF ℝ) :
    (Trend.transform em mem ⟨4, 3, 1⟩ (eventsAfter em ⟨4, 3, 1⟩ none [(mem, stepSeries)]) (stepSeries.map fun r => (r.1, .fin 7))).2 =
      (Trend.transform em mem ⟨4, 3, 1⟩ none (stepSeries.map fun r => (r.1, .fin 7))).2 :=
  C72_same_index_partial em mem _ _ _ (by simp [stepSeries])

end Examples

end Mizar.Props
