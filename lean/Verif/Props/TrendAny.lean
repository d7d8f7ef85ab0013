import Verif.Spec.TrendAny
import Verif.Props.TrendScan

/-!
Property theorems C70 and C71 for any step: trend scanning (`/repo/mizarlabs/transformers/targets/trend_scanning.py`).
-/

namespace Mizar.Props
open Mizar.Spec Mizar.Brk Mizar.Trend

/-- `b` is the first missing position of the list, or the first greatest one. -/
private def FG (l : List (XF ℝ)) (b : ℕ) : Prop :=
  ∃ v, l[b]? = some v ∧ ((v = .nan ∧ ∀ q < b, l[q]? ≠ some .nan) ∨
    (v ≠ .nan ∧ ∀ q x, l[q]? = some x → x ≠ .nan ∧ XF.lt v x = false ∧ (q < b → XF.lt x v = true)))

private theorem xlt_irrefl (x : XF ℝ) : XF.lt x x = false := by cases x <;> simp [XF.lt]

private theorem xlt_asymm {a b : XF ℝ} (h : XF.lt a b = true) : XF.lt b a = false := by
  cases a <;> cases b <;> simp_all [XF.lt]
  exact h.le

private theorem xlt_of_le_lt {a v x : XF ℝ} (ha : a ≠ .nan) (h1 : XF.lt v a = false) (h2 : XF.lt v x = true) : XF.lt a x = true := by
  cases a <;> cases v <;> cases x <;> simp_all [XF.lt]
  exact lt_of_le_of_lt h1 h2

private theorem fg_snoc {l : List (XF ℝ)} {b : ℕ} {v x : XF ℝ} (hv : l[b]? = some v) (h : FG l b) :
    FG (l ++ [x]) (if !v.isNan && (x.isNan || XF.lt v x) then l.length else b) := by
  have hb : b < l.length := (List.getElem?_eq_some_iff.1 hv).1
  obtain ⟨w, hw, h⟩ := h
  obtain rfl : v = w := by rw [hv] at hw; exact Option.some.inj hw
  have hold : ∀ q, q < l.length → (l ++ [x])[q]? = l[q]? := fun q hq => List.getElem?_append_left hq
  have hnew : (l ++ [x])[l.length]? = some x := by simp
  rcases h with ⟨h1, h2⟩ | ⟨h1, h2⟩
  · subst h1
    refine ⟨.nan, by simp [XF.isNan, hold b hb, hv], Or.inl ⟨rfl, fun q hq => ?_⟩⟩
    simp only [XF.isNan, Bool.not_true, Bool.false_and, Bool.false_eq_true, if_false] at hq
    rw [hold q (by omega)]
    exact h2 q hq
  · have hvn : v.isNan = false := by cases v <;> simp_all [XF.isNan]
    simp only [hvn, Bool.not_false, Bool.true_and]
    by_cases hx : x = .nan
    · subst hx
      simp only [XF.isNan, Bool.true_or, if_true]
      refine ⟨.nan, hnew, Or.inl ⟨rfl, fun q hq => ?_⟩⟩
      rw [hold q hq]
      intro hq'
      exact (h2 q _ hq').1 rfl
    · have hxn : x.isNan = false := by cases x <;> simp_all [XF.isNan]
      simp only [hxn, Bool.false_or]
      by_cases hlt : XF.lt v x = true
      · rw [if_pos hlt]
        refine ⟨x, hnew, Or.inr ⟨hx, fun q z hq => ?_⟩⟩
        rcases Nat.lt_trichotomy q l.length with h3 | h3 | h3
        · rw [hold q h3] at hq
          obtain ⟨k1, k2, -⟩ := h2 q z hq
          have k4 := xlt_of_le_lt k1 k2 hlt
          refine ⟨k1, ?_, fun _ => k4⟩
          by_contra k5
          rw [Bool.not_eq_false] at k5
          have := xlt_of_le_lt k1 (v := x) (x := z) ?_ k5
          · rw [xlt_irrefl] at this; cases this
          · exact xlt_asymm k4
        · rw [h3, hnew] at hq
          obtain rfl := Option.some.inj hq
          exact ⟨hx, xlt_irrefl x, fun h4 => by omega⟩
        · rw [List.getElem?_eq_none (by simp; omega)] at hq; cases hq
      · rw [if_neg hlt]
        refine ⟨v, by rw [hold b hb, hv], Or.inr ⟨h1, fun q z hq => ?_⟩⟩
        rcases Nat.lt_trichotomy q l.length with h3 | h3 | h3
        · rw [hold q h3] at hq
          exact h2 q z hq
        · rw [h3, hnew] at hq
          obtain rfl := Option.some.inj hq
          exact ⟨hx, by simpa using hlt, fun h4 => by omega⟩
        · rw [List.getElem?_eq_none (by simp; omega)] at hq; cases hq

private theorem fg_go (l pre : List (XF ℝ)) (b : ℕ) (v : XF ℝ) (hv : pre[b]? = some v) (h : FG pre b) :
    FG (pre ++ l) (argmaxGo pre.length b v l) := by
  induction l generalizing pre b v with
  | nil => simpa [argmaxGo] using h
  | cons x l ih =>
    have h1 := fg_snoc (x := x) hv h
    have hb : b < pre.length := (List.getElem?_eq_some_iff.1 hv).1
    have e : pre ++ x :: l = (pre ++ [x]) ++ l := by simp
    have el : pre.length + 1 = (pre ++ [x]).length := by simp
    rw [e]
    simp only [argmaxGo]
    by_cases hc : (!v.isNan && (x.isNan || XF.lt v x)) = true
    · rw [if_pos hc] at h1 ⊢
      rw [el]
      exact ih _ _ _ (by simp) h1
    · rw [if_neg hc] at h1 ⊢
      rw [el]
      exact ih _ _ _ (by rw [List.getElem?_append_left hb, hv]) h1

private theorem fg_argmax (l : List (XF ℝ)) (h : l ≠ []) : FG l (argmax l) := by
  cases l with
  | nil => exact absurd rfl h
  | cons x l =>
    have := fg_go l [x] 0 x (by simp) ⟨x, by simp, by
      by_cases hx : x = .nan
      · exact Or.inl ⟨hx, fun q hq => by omega⟩
      · refine Or.inr ⟨hx, fun q z hq => ?_⟩
        cases q with
        | zero => simp only [List.getElem?_cons_zero, Option.some.injEq] at hq; subst hq; exact ⟨hx, xlt_irrefl _, fun h => by omega⟩
        | succ q => simp at hq⟩
    simpa [argmax] using this

private theorem abs_nan_iff (x : XF ℝ) : XF.abs x = .nan ↔ x = .nan := by cases x <;> simp [XF.abs]

/-- `np.argmax` of the absolute values picks the first missing or the first greatest one. -/
private theorem argmax_firstGreatest (b : List (XF ℝ)) (n : ℕ) (hn : 0 < n) (hb : b.length = n) :
    FirstGreatest (fun q => b.getD q .nan) n (argmax (b.map XF.abs)) := by
  have hne : b.map XF.abs ≠ [] := by
    intro h0
    have := congrArg List.length h0
    simp only [List.length_map, List.length_nil] at this
    omega
  obtain ⟨v, hv, h⟩ := fg_argmax _ hne
  have hlt := argmax_lt _ hne
  rw [List.length_map, hb] at hlt
  generalize argmax (b.map XF.abs) = q at *
  have hget : ∀ r, r < n → (b.map XF.abs)[r]? = some (XF.abs (b.getD r .nan)) := by
    intro r hr
    rw [List.getElem?_map, List.getD_eq_getElem?_getD, List.getElem?_eq_getElem (by omega)]
    rfl
  rw [hget q hlt] at hv
  obtain rfl := (Option.some.inj hv).symm
  refine ⟨hlt, ?_⟩
  rcases h with ⟨h1, h2⟩ | ⟨h1, h2⟩
  · left
    refine ⟨(abs_nan_iff _).1 h1, fun r hr h3 => ?_⟩
    apply h2 r hr
    rw [hget r (by omega)]
    dsimp only at h3
    rw [h3]; rfl
  · right
    refine ⟨fun r hr => ?_, fun r hr => ?_⟩
    · obtain ⟨k1, k2, -⟩ := h2 r _ (hget r hr)
      exact ⟨fun h3 => k1 ((abs_nan_iff _).2 h3), k2⟩
    · exact (h2 r _ (hget r (by omega))).2.2 hr

private theorem fill_writes (em : ErrModel) (w : List (XF ℝ)) (m : ℕ) (fs : List ℕ) (hfs : ∀ f ∈ fs, m ≤ f) (a b : List (XF ℝ))
    (h : fill em w m fs a = .ok b) (q : ℕ) (hq : q < a.length) (hm : m + q ∈ fs) (t : XF ℝ) (ht : trendT em (w.take (m + q)) = .ok t) :
    b[q]? = some t := by
  induction fs generalizing a with
  | nil => simp at hm
  | cons f fs ih =>
    simp only [fill] at h
    cases hf : trendT em (w.take f) with
    | error er => rw [hf] at h; cases h
    | ok t' =>
      rw [hf, Py.bind_ok] at h
      by_cases hin : m + q ∈ fs
      · exact ih (fun g hg => hfs g (by simp [hg])) _ h (by simpa using hq) hin
      · have hfq : f = m + q := by
          rcases List.mem_cons.1 hm with h1 | h1
          · exact h1.symm
          · exact absurd h1 hin
        subst hfq
        obtain rfl : t' = t := by rw [ht] at hf; exact (Except.ok.inj hf).symm
        rw [(fill_keeps em w m fs _ b h).2.1 q fun g hg h1 => by
          have := hfs g (by simp [hg])
          apply hin
          rw [show m + q = g by omega]
          exact hg]
        rw [Nat.add_sub_cancel_left, List.getElem?_set_self hq]

private theorem mem_windows (m L : ℕ) (st : ℤ) (h0 : st ≠ 0) : ∃ fs, windows m L st = .ok fs ∧
    ∀ f, f ∈ fs ↔ m ≤ f ∧ f < L ∧ Tried st (f - m) := by
  unfold windows
  rw [if_neg h0]
  by_cases hneg : st < 0
  · exact ⟨[], by rw [if_pos hneg], fun f => ⟨fun h => by simp at h, fun h => absurd h.2.2.1 (by omega)⟩⟩
  · refine ⟨_, by rw [if_neg hneg], fun f => ?_⟩
    simp only [List.mem_filter, List.mem_range, Bool.and_eq_true, decide_eq_true_eq, beq_iff_eq]
    obtain ⟨k, rfl⟩ : ∃ k : ℕ, st = k := ⟨st.toNat, by omega⟩
    simp only [Int.toNat_natCast, Tried, Int.natCast_dvd_natCast, Nat.dvd_iff_mod_eq_zero]
    constructor
    · rintro ⟨h1, h2, h3⟩; exact ⟨h2, h1, by omega, h3⟩
    · rintro ⟨h1, h2, -, h3⟩; exact ⟨h2, h1, h3⟩

private theorem mapE_zipIdx_get {α β : Type} (f : α × ℕ → Py β) (l : List α) (R : ℕ → α → β → Prop)
    (h : ∀ a ∈ l, ∀ i, ∃ b, f (a, i) = .ok b ∧ R i a b) : ∃ r, mapE f l.zipIdx = .ok r ∧ r.length = l.length ∧
      ∀ k a b, l[k]? = some a → r[k]? = some b → R k a b := by
  have h' : ∀ x : {x : α × ℕ // x.1 ∈ l}, ∃ b, f x.1 = .ok b ∧ R x.1.2 x.1.1 b := fun x => h x.1.1 x.2 x.1.2
  choose g hg using h'
  cases l with
  | nil => exact ⟨[], rfl, rfl, fun k a b hk => by simp at hk⟩
  | cons a0 l0 =>
    generalize hl : a0 :: l0 = l at *
    have h0 : a0 ∈ l := by rw [← hl]; simp
    classical
    refine ⟨l.zipIdx.map fun x => if hx : x.1 ∈ l then g ⟨x, hx⟩ else g ⟨(a0, 0), h0⟩, mapE_ok_of_forall f _ _ fun x hx => ?_, by simp, ?_⟩
    · have hx' : x.1 ∈ l := List.fst_mem_of_mem_zipIdx hx
      rw [dif_pos hx']
      exact (hg ⟨x, hx'⟩).1
    · intro k a b hk hb
      rw [List.getElem?_map, List.getElem?_zipIdx, hk] at hb
      simp only [Option.map_some, Option.some.injEq, Nat.zero_add] at hb
      have ha : a ∈ l := List.mem_of_getElem? hk
      rw [dif_pos ha] at hb
      rw [← hb]
      exact (hg ⟨(a, k), ha⟩).2

/-- C71 (any step): for every step other than zero, every state of the memory, every complete series with distinct times and every
event with enough bars left, the reported t-value is the first missing or the first greatest in absolute value among the numbers
that are the t-value of the window at the multiples of a positive step and whatever the memory held elsewhere; the end is the
last bar of the window at the chosen position, the return is the one over it and the label is the sign of that number. -/
theorem C71_any_step (em : ErrModel) (mem : ℕ → ℕ → XF ℝ) (p : Params) (hs : p.step ≠ 0) (hml : p.minLen < p.look)
    (s : List (ℤ × XF ℝ)) (y : ℕ → ℝ) (h : Complete s y) (hnd : (s.map (·.1)).Nodup) (events : Option (List ℤ))
    (hev : ∀ e ∈ eventTimes events s, e ∈ s.map (·.1))
    (hc : ∀ i e, (s.map (·.1))[i]? = some e → e ∈ eventTimes events s → i + p.look ≤ s.length → Curved y i p.minLen) :
    ∃ out, (Trend.transform em mem p events s).2 = .ok out ∧ out.length = (eventTimes events s).length ∧
      ∀ k e l, (eventTimes events s)[k]? = some e → out[k]? = some l → l.time = e ∧ ∃ i, (s.map (·.1))[i]? = some e ∧
        if i + p.look ≤ s.length then
          ∃ c : ℕ → XF ℝ, (∀ q < p.look - p.minLen, (Tried p.step q → ∃ t, IsTrendT y i (p.minLen + q) t ∧ c q = .fin t) ∧
              (¬ Tried p.step q → c q = mem k q)) ∧
            ∃ q, FirstGreatest c (p.look - p.minLen) q ∧ l.tValue = c q ∧ l.label = XF.sign (c q) ∧
              (∃ u, l.eventEnd = some u ∧ (s.map (·.1))[i + (p.minLen + q) - 1]? = some u) ∧
              (y i ≠ 0 → l.ret = .fin (y (i + (p.minLen + q) - 1) / y i - 1))
        else Missing l := by
  rw [transform_ok em mem _ events s hev]
  apply mapE_zipIdx_get
  intro e he k
  obtain ⟨look, minLen, st⟩ := p
  dsimp only at *
  obtain ⟨i, hi, hie⟩ := List.mem_iff_getElem.1 (hev e he)
  have hi' : i < s.length := by simpa using hi
  have hidx : (s.map (·.1)).idxOf e = i := by rw [← hie]; exact hnd.idxOf_getElem i hi
  have hget : (s.map (·.1))[i]? = some e := by rw [List.getElem?_eq_getElem hi, hie]
  unfold labelAt scanAt
  dsimp only
  rw [hidx]
  by_cases hil : i + look ≤ s.length
  · have hC := hc i e hget he hil
    have h3 := curved_three hC
    have hlen : (slice y i look).length = look := by simp [slice]
    rw [window_slice h i look hil, if_pos hlen]
    obtain ⟨fs, hfs, hmem⟩ := mem_windows minLen look st hs
    have hT : ∀ q, minLen + q ≤ look → ∃ t, trendT em ((slice y i look).take (minLen + q)) = .ok (.fin t) ∧ IsTrendT y i (minLen + q) t := by
      intro q hq
      obtain ⟨t, h1, h2, -⟩ := trendT_curved em (curved_mono hC (Nat.le_add_right minLen q))
      exact ⟨t, by rw [slice_take y i look _ hq]; exact h1, h2⟩
    obtain ⟨b, hb⟩ := fill_ok em (slice y i look) minLen fs ((List.range (look - minLen)).map (mem k)) fun f hf => by
      obtain ⟨h1, h2, -⟩ := (hmem f).1 hf
      obtain ⟨t, ht, -⟩ := hT (f - minLen) (by omega)
      rw [show minLen + (f - minLen) = f by omega] at ht
      exact ⟨_, ht⟩
    obtain ⟨k1, k2, -⟩ := fill_keeps em _ minLen fs _ b hb
    rw [List.length_map, List.length_range] at k1
    simp only [bestAt, hlen]
    rw [hfs]
    simp only [Py.bind_ok, hb]
    have hF := argmax_firstGreatest b _ (by omega) k1
    generalize argmax (b.map XF.abs) = q at hF
    have hq := hF.1
    have hend : i + q + minLen - 1 = i + (minLen + q) - 1 := by omega
    have hlt : i + (minLen + q) - 1 < s.length := by omega
    refine ⟨_, rfl, rfl, i, hget, ?_⟩
    rw [if_pos hil]
    refine ⟨fun r => b.getD r .nan, fun r hr => ⟨fun htr => ?_, fun htr => ?_⟩, q, hF, rfl, rfl,
      ⟨(s.map (·.1)).getD (i + q + minLen - 1) 0, rfl, ?_⟩, ?_⟩
    · obtain ⟨t, ht, hI⟩ := hT r (by omega)
      refine ⟨t, hI, ?_⟩
      have := fill_writes em _ minLen fs (fun f hf => ((hmem f).1 hf).1) _ b hb r (by simpa using hr)
        ((hmem _).2 ⟨by omega, by omega, by rw [Nat.add_sub_cancel_left]; exact htr⟩) _ ht
      dsimp only
      rw [List.getD_eq_getElem?_getD, this]; rfl
    · have : b[r]? = some (mem k r) := by
        rw [k2 r fun f hf h1 => htr (by rw [← h1]; exact ((hmem f).1 hf).2.2)]
        rw [List.getElem?_map, List.getElem?_range hr]; rfl
      dsimp only
      rw [List.getD_eq_getElem?_getD, this]; rfl
    · rw [hend, List.getD_eq_getElem?_getD, List.getElem?_eq_getElem (by rw [List.length_map]; exact hlt)]; rfl
    · intro hy
      rw [hend]
      simp only [List.getD_eq_getElem?_getD]
      rw [h _ hlt, h i hi']
      simp only [Option.getD_some]
      rw [XF.div_fin _ _ hy, XF.sub_fin]
  · have hw : (((s.map (·.2)).drop i).take look).length ≠ look := by simp; omega
    rw [if_neg hw]
    refine ⟨_, rfl, rfl, i, hget, ?_⟩
    rw [if_neg hil]
    exact ⟨rfl, rfl, rfl, rfl⟩

/-- C70 (zeroed memory): with a positive step and memory that holds zeros, the row has the t-value of the first window with the
greatest absolute t-value among those that are tried: `min_sample_length` bars and every `step` more, fewer than
`look_forward_window`. -/
theorem C70_zero_memory (em : ErrModel) (p : Params) (hs : 0 < p.step) (hml : p.minLen < p.look)
    (s : List (ℤ × XF ℝ)) (y : ℕ → ℝ) (h : Complete s y) (hnd : (s.map (·.1)).Nodup) (events : Option (List ℤ))
    (hev : ∀ e ∈ eventTimes events s, e ∈ s.map (·.1))
    (hc : ∀ i e, (s.map (·.1))[i]? = some e → e ∈ eventTimes events s → i + p.look ≤ s.length → Curved y i p.minLen) :
    ∃ out, (Trend.transform em (fun _ _ => .fin 0) p events s).2 = .ok out ∧ out.length = (eventTimes events s).length ∧
      ∀ (k : ℕ) (e : ℤ) (l : Label), (eventTimes events s)[k]? = some e → out[k]? = some l → ∃ i : ℕ, (s.map (·.1))[i]? = some e ∧
        (i + p.look ≤ s.length → ∃ n t, p.minLen ≤ n ∧ n < p.look ∧ p.step ∣ ((n - p.minLen : ℕ) : ℤ) ∧ IsTrendT y i n t ∧
          l.tValue = .fin t ∧ (∃ u, l.eventEnd = some u ∧ (s.map (·.1))[i + n - 1]? = some u) ∧
          ∀ n' t', p.minLen ≤ n' → n' < p.look → p.step ∣ ((n' - p.minLen : ℕ) : ℤ) → IsTrendT y i n' t' →
            |t'| ≤ |t| ∧ (n' < n → |t'| < |t|)) := by
  obtain ⟨out, h1, h2, h3⟩ := C71_any_step em (fun _ _ => .fin 0) p hs.ne' hml s y h hnd events hev hc
  refine ⟨out, h1, h2, fun k e l hk hl => ?_⟩
  obtain ⟨-, i, hi, hR⟩ := h3 k e l hk hl
  refine ⟨i, hi, fun hil => ?_⟩
  rw [if_pos hil] at hR
  obtain ⟨c, hcell, q, ⟨hq, hF⟩, ht, -, hu, -⟩ := hR
  have hC := hc i e hi (List.mem_of_getElem? hk) hil
  have hfin : ∀ r < p.look - p.minLen, ∃ t, c r = .fin t := by
    intro r hr
    by_cases htr : Tried p.step r
    · obtain ⟨t, -, h4⟩ := (hcell r hr).1 htr; exact ⟨t, h4⟩
    · exact ⟨0, (hcell r hr).2 htr⟩
  have h0 : Tried p.step 0 := ⟨hs, by simp⟩
  rcases hF with ⟨h4, -⟩ | ⟨h4, h5⟩
  · obtain ⟨t, h6⟩ := hfin q hq; rw [h6] at h4; cases h4
  have hle : ∀ r < p.look - p.minLen, ∀ a b, c r = .fin a → c q = .fin b → |a| ≤ |b| ∧ (r < q → |a| < |b|) := by
    intro r hr a b ha hb
    refine ⟨?_, fun hrq => ?_⟩
    · have := (h4 r hr).2
      rw [ha, hb] at this
      simpa [XF.abs, XF.lt] using this
    · have := h5 r hrq
      rw [ha, hb] at this
      simpa [XF.abs, XF.lt] using this
  have hq' : Tried p.step q := by
    by_contra hnt
    have hcq := (hcell q hq).2 hnt
    have hq0 : 0 < q := Nat.pos_of_ne_zero fun h => hnt (h ▸ h0)
    obtain ⟨t, ht0⟩ := hfin 0 (by omega)
    have := (hle 0 (by omega) t 0 ht0 hcq).2 hq0
    rw [abs_zero] at this
    exact absurd (abs_nonneg t) (not_le.2 this)
  obtain ⟨t, hT, hct⟩ := (hcell q hq).1 hq'
  refine ⟨p.minLen + q, t, by omega, by omega, by rw [Nat.add_sub_cancel_left]; exact hq'.2, hT, by rw [ht, hct], hu, ?_⟩
  intro n' t' k1 k2 k3 k4
  obtain ⟨r, rfl⟩ : ∃ r, n' = p.minLen + r := ⟨n' - p.minLen, by omega⟩
  rw [Nat.add_sub_cancel_left] at k3
  obtain ⟨t'', hT'', hc''⟩ := (hcell r (by omega)).1 ⟨hs, k3⟩
  obtain ⟨t0, -, -, huniq⟩ := trendT_curved em (curved_mono hC (Nat.le_add_right p.minLen r))
  rw [huniq t' k4, ← huniq t'' hT'']
  obtain ⟨k5, k6⟩ := hle r (by omega) t'' t hc'' hct
  exact ⟨k5, fun h7 => k6 (by omega)⟩

section Examples

private theorem stepSeries5_complete : Complete (stepSeries ++ [(14, .fin 1)]) stepY := by
  intro i hi
  simp only [stepSeries, List.cons_append, List.nil_append, List.length_cons, List.length_nil] at hi
  match i, hi with
  | 0, _ => simp [stepSeries, stepY]
  | 1, _ => simp [stepSeries, stepY]
  | 2, _ => simp [stepSeries, stepY]
  | 3, _ => simp [stepSeries, stepY]
  | 4, _ => simp [stepSeries, stepY]

private theorem step_hc : ∀ (i : ℕ) (e : ℤ), ((stepSeries ++ [((14 : ℤ), (.fin 1 : XF ℝ))]).map (·.1))[i]? = some e → e ∈ eventTimes (some [10]) (stepSeries ++ [(14, .fin 1)]) →
    i + 5 ≤ (stepSeries ++ [((14 : ℤ), (.fin 1 : XF ℝ))]).length → Curved stepY i 3 := by
  intro i e _ _ h3
  simp only [stepSeries, List.cons_append, List.nil_append, List.length_cons, List.length_nil] at h3
  obtain rfl : i = 0 := by omega
  exact step_curved

/-- Step two: the window of four bars holds what was in the memory. -/
example (em : ErrModel) (mem : ℕ → ℕ → XF ℝ) :
    ∃ out, (Trend.transform em mem ⟨5, 3, 2⟩ (some [10]) (stepSeries ++ [(14, .fin 1)])).2 = .ok out ∧ out.length = 1 := by
  obtain ⟨out, h1, h2, -⟩ := C71_any_step em mem ⟨5, 3, 2⟩ (by norm_num) (by norm_num) _ stepY stepSeries5_complete (by simp [stepSeries])
    (some [10]) (by simp [eventTimes, stepSeries]) step_hc
  exact ⟨out, h1, by simpa [eventTimes] using h2⟩

example (em : ErrModel) : ∃ out, (Trend.transform em (fun _ _ => .fin 0) ⟨5, 3, 2⟩ (some [10]) (stepSeries ++ [(14, .fin 1)])).2 = .ok out ∧
    out.length = 1 := by
  obtain ⟨out, h1, h2, -⟩ := C70_zero_memory em ⟨5, 3, 2⟩ (by norm_num) (by norm_num) _ stepY stepSeries5_complete (by simp [stepSeries])
    (some [10]) (by simp [eventTimes, stepSeries]) step_hc
  exact ⟨out, h1, by simpa [eventTimes] using h2⟩

end Examples

end Mizar.Props
