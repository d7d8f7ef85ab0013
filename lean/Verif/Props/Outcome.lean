import Verif.Spec.Outcome
import Verif.Props.Labeling
import Verif.Props.Trader
import Verif.Props.DoubleEvent

/-!
Property theorems C151: the label of a bar is the outcome of the position opened at this bar
(`/repo/mizarlabs/transformers/targets/labeling.py` 150-330 against `/repo/mizarlabs/model/pipeline.py` 757-840).
-/

set_option linter.unusedSectionVars false

namespace Mizar.Props
open Mizar.Spec
variable {K : Type} [Field K] [LinearOrder K] [IsStrictOrderedRing K]

private theorem profit_iff {ptf x s v : K} {close side vol : List (Option K)} {i j : ℕ} (hp : 0 < ptf)
    (hx : close.getD i none = some x) (hs : side.getD i none = some s) (hv : vol.getD i none = some v) :
    ProfitTaking ptf close side vol i j ↔ TakesProfit x s (v * ptf) (close.getD j none) := by
  unfold ProfitTaking TakesProfit Above ptBarrier
  rw [hx, hs, hv, if_pos hp]
  cases close.getD j none with
  | none => simp [sideReturn]
  | some y => simp [sideReturn, mul_comm v ptf]

private theorem loss_iff {slf x s v : K} {close side vol : List (Option K)} {i j : ℕ} (hp : 0 < slf)
    (hx : close.getD i none = some x) (hs : side.getD i none = some s) (hv : vol.getD i none = some v) :
    StopLoss slf close side vol i j ↔ StopsOut x s (v * slf) (close.getD j none) := by
  unfold StopLoss StopsOut Below slBarrier
  rw [hx, hs, hv, if_pos hp]
  cases close.getD j none with
  | none => simp [sideReturn]
  | some y => simp [sideReturn, mul_comm v slf]

private theorem getD_inj {ts : List ℤ} (h : ts.Pairwise (· < ·)) {a b : ℕ} (ha : a < ts.length) (hb : b < ts.length)
    (e : ts.getD a 0 = ts.getD b 0) : a = b := by
  rw [List.getD_eq_getElem _ _ ha, List.getD_eq_getElem _ _ hb] at e
  have hp := List.pairwise_iff_getElem.1 h
  rcases lt_trichotomy a b with q | q | q
  · exact absurd e (hp a b ha hb q).ne
  · exact q
  · exact absurd e (hp b a hb ha q).ne'

private theorem earliest_cases {a sl pt : Option ℕ} {k : ℕ} (h : earliest a sl pt = some k) :
    (a = some k ∨ sl = some k ∨ pt = some k) ∧ (∀ m, a = some m → k ≤ m) ∧ (∀ m, sl = some m → k ≤ m) ∧
      (∀ m, pt = some m → k ≤ m) := by
  unfold earliest at h
  rw [List.min?_eq_some_iff] at h
  obtain ⟨h1, h2⟩ := h
  refine ⟨?_, fun m hm => h2 m ?_, fun m hm => h2 m ?_, fun m hm => h2 m ?_⟩
  · simpa [List.mem_filterMap, eq_comm] using h1
  all_goals simp [List.mem_filterMap, hm]

private theorem mul_fin_inv {v : Option K} {a S : K} (h : XF.mul (xf v) (.fin a) = .fin S) : ∃ w, v = some w ∧ S = w * a := by
  cases v with
  | none => cases h
  | some w => exact ⟨w, rfl, (XF.fin.inj h).symm⟩

/-- C151: a trader and a labeller with the same positive factors, the same number of expiration bars and the same volatility
look at the same bars. The position that the trader creates at a bar carries its levels `S`, `P` and its number of bars, and
the metalabel of this bar for the position's side tells how the position settles by these levels: the label's end time is the bar at which
the position ends, and the label is 1 if the position has made money there, 0 if it has lost money (a profit level left gives
1, a loss level left gives 0). There is no end time exactly if the bars end before the position does.
Partial: for positive factors only (see `C151_zero_factor_refuted`). -/
theorem C151_outcome_partial (tr : Trade.Trader K) (st st' : Trade.State K) (p : Mizar.Frame K) (hwf : ∀ q ∈ st.data, q.2.WF)
    (hsig : ∀ s, tr.signal st.data = .ok s → (s.map (·.1)).Nodup) (h : Trade.createPosition tr st = (.ok p, st'))
    {f : Mizar.Frame K} (hf : st.data.lookup tr.alignOn = some f)
    {c : Lab.Cfg K} {g : Lab.Frame K} {close side vol : List (Option K)} {n : ℕ}
    (hcol : Trade.column f "close" = .ok (close.map xf))
    (hl : LabelInput (Lab.dailyVolColumn tr.estd) c g f.index close side vol n)
    (hadj : c.volAdjusted = tr.volAdjusted) (hslf : tr.stopLoss = some c.slf) (hptf : tr.profitTaking = some c.ptf)
    (hbars : tr.numBars = (n : K)) (hs0 : 0 < c.slf) (hp0 : 0 < c.ptf) (hn : 1 ≤ n)
    (hm : c.metalabeling = true) (he : c.expirationLabel = false) (hvol : ∀ v, some v ∈ vol → 0 ≤ v) :
    ∃ rows, Lab.transform (Lab.dailyVolColumn tr.estd) c g = .ok rows ∧
      ∀ (i : ℕ) t s z S P b x, f.index[i]? = some t → p.row? t = some [.fin s, z, .fin S, .fin P, b] →
        side.getD i none = some s → close.getD i none = some x →
        b = .fin (n : K) ∧ ∃ row, rows[i]? = some row ∧
          ((∃ k < f.index.length, row.endTime = f.index[k]? ∧ Settles (fun j => close.getD j none) x s S P i n k ∧
              (∀ y, close.getD k none = some y →
                row.label = if 0 < s * (y / x - 1) then .fin 1 else if s * (y / x - 1) < 0 then .fin 0 else .nan) ∧
              (TakesProfit x s P (close.getD k none) → row.label = .fin 1) ∧
              (StopsOut x s S (close.getD k none) → row.label = .fin 0)) ∨
           (row.endTime = none ∧ f.index.length ≤ i + n ∧ ∀ j, i ≤ j → j < f.index.length - 1 →
              ¬ TakesProfit x s P (close.getD j none) ∧ ¬ StopsOut x s S (close.getD j none))) := by
  obtain ⟨sig, f', vol', A, B, -, hf', hA, hB, hlen, hv1, hv2, -, -, -, hrow1, hrow2, -⟩ :=
    C53_position_rows_partial tr st st' p hwf hsig h
  rw [hf] at hf'
  cases hf'
  obtain ⟨rows, hT, hrl, hend⟩ := C26_event_end_partial hl hn hvol
  obtain ⟨rows', hT', hlab⟩ := C28_metalabel hl hm
  rw [hT] at hT'
  cases hT'
  refine ⟨rows, hT, ?_⟩
  intro i t s z S P b x hi hpr hsd hx
  have hiN : i < f.index.length := (List.getElem?_eq_some_iff.1 hi).1
  -- the volatility of the trader is that of the labeller
  have hvv : vol' = vol.map xf := by
    have := hl.vol_eq
    cases ha : tr.volAdjusted with
    | true =>
      obtain ⟨cl, hcl, he⟩ := hv1 ha
      rw [hcol] at hcl
      cases hcl
      rw [hadj, ha, if_pos rfl] at this
      rw [he, this]
    | false =>
      rw [hadj, ha, if_neg (by simp)] at this
      rw [← this]
      exact List.eq_replicate_iff.2 ⟨hlen, hv2 ha⟩
  have hvi : i < vol'.length := by rw [hlen]; exact hiN
  have hvi' : i < vol.length := by rw [hvv, List.length_map] at hvi; exact hvi
  have hvx : vol'[i]? = some (xf (vol.getD i none)) := by
    rw [hvv, List.getElem?_map, List.getElem?_eq_getElem hvi', Option.map_some, List.getD_eq_getElem _ _ hvi']
  -- the row of the position
  have hrow : A (xf (vol.getD i none)) = .fin S ∧ B (xf (vol.getD i none)) = .fin P ∧ b = .fin tr.numBars := by
    by_cases hts : t ∈ sig.map (·.1)
    · obtain ⟨r, hr, rfl⟩ := List.mem_map.1 hts
      have := hrow1 r hr i _ hi hvx
      rw [hpr] at this
      simp only [Option.some.injEq, List.cons.injEq, and_true] at this
      exact ⟨this.2.2.1.symm, this.2.2.2.1.symm, this.2.2.2.2⟩
    · have := hrow2 i t _ hi hvx hts
      rw [hpr] at this
      simp at this
  obtain ⟨hAS, hBP, rfl⟩ := hrow
  rw [hA.1 _ hslf] at hAS
  rw [hB.1 _ hptf] at hBP
  obtain ⟨v, hv, rfl⟩ := mul_fin_inv hAS
  obtain ⟨v', hv', rfl⟩ := mul_fin_inv hBP
  rw [hv] at hv'
  cases hv'
  have hv0 : 0 ≤ v := hvol v (by
    rw [List.getD_eq_getElem _ _ hvi'] at hv
    exact hv ▸ List.getElem_mem hvi')
  refine ⟨by rw [hbars], ?_⟩
  have hPr := fun j => profit_iff (j := j) hp0 hx hsd hv
  have hSt := fun j => loss_iff (j := j) hs0 hx hsd hv
  obtain ⟨row, sl, pt, hr, hsl, hpt, hE, hlat, hnone⟩ := hend i hiN (by rw [hv]; simp)
  obtain ⟨row', hr', hlb⟩ := hlab i hiN
  rw [hr] at hr'
  cases hr'
  refine ⟨row, hr, ?_⟩
  cases hk : earliest (if i + n < f.index.length then some (i + n) else none) sl pt with
  | none =>
    right
    rw [hk, Option.map_none] at hE
    obtain ⟨q1, q2⟩ := hnone.1 hE
    refine ⟨hE, q1, fun j h1 h2 => ?_⟩
    obtain ⟨w1, w2⟩ := q2 j h1 h2
    exact ⟨fun q => w2 ((hPr j).2 q), fun q => w1 ((hSt j).2 q)⟩
  | some k =>
    left
    obtain ⟨hkc, hk1, hk2, hk3⟩ := earliest_cases hk
    rw [hk, Option.map_some] at hE
    have hwin : winEnd f.index.length n i ≤ i + n ∧ winEnd f.index.length n i ≤ f.index.length - 1 := by
      unfold winEnd
      split_ifs <;> omega
    have hkN : k < f.index.length ∧ k ≤ i + n ∧ i ≤ k := by
      rcases hkc with q | q | q
      · split_ifs at q with q2
        cases q
        omega
      · rw [q] at hsl
        have := hsl.2.1
        have := hsl.1
        omega
      · rw [q] at hpt
        have := hpt.2.1
        have := hpt.1
        omega
    obtain ⟨hkN, hkn, hik⟩ := hkN
    have hik' : i < k := by
      have := (hlat _ hE).1
      rcases Nat.eq_or_lt_of_le hik with q | q
      · subst q; exact absurd this (lt_irrefl _)
      · exact q
    have hfirst : ∀ j, i ≤ j → j < k → ¬ StopLoss c.slf close side vol i j ∧ ¬ ProfitTaking c.ptf close side vol i j := by
      intro j h1 h2
      have hjw : j < winEnd f.index.length n i := by
        unfold winEnd
        split_ifs with q
        · have := hk1 (i + n) (by rw [if_pos q]); omega
        · omega
      constructor
      · cases sl with
        | none => exact hsl j h1 hjw
        | some m => exact hsl.2.2.2 j h1 (lt_of_lt_of_le h2 (hk2 m rfl))
      · cases pt with
        | none => exact hpt j h1 hjw
        | some m => exact hpt.2.2.2 j h1 (lt_of_lt_of_le h2 (hk3 m rfl))
    have hlabel : ∀ y, close.getD k none = some y →
        row.label = if 0 < s * (y / x - 1) then .fin 1 else if s * (y / x - 1) < 0 then .fin 0 else .nan := by
      intro y hy
      obtain ⟨k', g1, g2, g3, g4⟩ := hlb _ hE
      have : k' = k := (getD_inj hl.sorted hkN g2 g3).symm
      subst this
      rcases g4 with g4 | g4
      · rw [he] at g4
        exact absurd g4.1 (by simp)
      · rw [hx, hy, hsd] at g4
        exact g4
    refine ⟨k, hkN, ?_, ⟨hik', hkn, ?_, ?_⟩, hlabel, ?_, ?_⟩
    · rw [hE, List.getD_eq_getElem _ _ hkN, List.getElem?_eq_getElem hkN]
    · intro hlt
      rcases hkc with q | q | q
      · split_ifs at q with q2
        cases q
        omega
      · rw [q] at hsl
        exact Or.inr ((hSt k).1 hsl.2.2.1)
      · rw [q] at hpt
        exact Or.inl ((hPr k).1 hpt.2.2.1)
    · intro j h1 h2
      obtain ⟨w1, w2⟩ := hfirst j h1 h2
      exact ⟨fun q => w2 ((hPr j).2 q), fun q => w1 ((hSt j).2 q)⟩
    · rintro ⟨y, hy, hlt⟩
      rw [hlabel y hy, if_pos (lt_of_le_of_lt (mul_nonneg hv0 hp0.le) hlt)]
    · rintro ⟨y, hy, hlt⟩
      have : s * (y / x - 1) < 0 := lt_of_lt_of_le hlt (neg_nonpos.2 (mul_nonneg hv0 hs0.le))
      rw [hlabel y hy, if_neg this.not_gt, if_pos this]

/-- C151: a position created at a bar without a volatility has no levels, only a number of bars — the label of this bar is
missing, and so is its end time. -/
theorem C151_no_levels (tr : Trade.Trader K) (st st' : Trade.State K) (p : Mizar.Frame K) (hwf : ∀ q ∈ st.data, q.2.WF)
    (hsig : ∀ s, tr.signal st.data = .ok s → (s.map (·.1)).Nodup) (h : Trade.createPosition tr st = (.ok p, st'))
    {f : Mizar.Frame K} (hf : st.data.lookup tr.alignOn = some f)
    {c : Lab.Cfg K} {g : Lab.Frame K} {close side vol : List (Option K)} {n : ℕ}
    (hcol : Trade.column f "close" = .ok (close.map xf))
    (hl : LabelInput (Lab.dailyVolColumn tr.estd) c g f.index close side vol n)
    (hadj : c.volAdjusted = tr.volAdjusted) (hslf : tr.stopLoss = some c.slf) :
    ∃ rows, Lab.transform (Lab.dailyVolColumn tr.estd) c g = .ok rows ∧
      ∀ (i : ℕ) t s z P b, f.index[i]? = some t → p.row? t = some [s, z, .nan, P, b] →
        (tr.profitTaking.isSome = true → P = .nan) ∧ b = .fin tr.numBars ∧
          rows[i]? = some (⟨none, .nan, .nan, .nan⟩ : Lab.Row K) := by
  obtain ⟨sig, f', vol', A, B, -, hf', hA, hB, hlen, hv1, hv2, -, -, -, hrow1, hrow2, -⟩ :=
    C53_position_rows_partial tr st st' p hwf hsig h
  rw [hf] at hf'
  cases hf'
  obtain ⟨rows, hT, hrl, hspec⟩ := transform_spec hl
  refine ⟨rows, hT, ?_⟩
  intro i t s z P b hi hpr
  have hiN : i < f.index.length := (List.getElem?_eq_some_iff.1 hi).1
  have hvv : vol' = vol.map xf := by
    have := hl.vol_eq
    cases ha : tr.volAdjusted with
    | true =>
      obtain ⟨cl, hcl, he⟩ := hv1 ha
      rw [hcol] at hcl
      cases hcl
      rw [hadj, ha, if_pos rfl] at this
      rw [he, this]
    | false =>
      rw [hadj, ha, if_neg (by simp)] at this
      rw [← this]
      exact List.eq_replicate_iff.2 ⟨hlen, hv2 ha⟩
  have hvi : i < vol'.length := by rw [hlen]; exact hiN
  have hvi' : i < vol.length := by rw [hvv, List.length_map] at hvi; exact hvi
  have hvx : vol'[i]? = some (xf (vol.getD i none)) := by
    rw [hvv, List.getElem?_map, List.getElem?_eq_getElem hvi', Option.map_some, List.getD_eq_getElem _ _ hvi']
  have hrow : A (xf (vol.getD i none)) = .nan ∧ B (xf (vol.getD i none)) = P ∧ b = .fin tr.numBars := by
    by_cases hts : t ∈ sig.map (·.1)
    · obtain ⟨r, hr, rfl⟩ := List.mem_map.1 hts
      have := hrow1 r hr i _ hi hvx
      rw [hpr] at this
      simp only [Option.some.injEq, List.cons.injEq, and_true] at this
      exact ⟨this.2.2.1.symm, this.2.2.2.1.symm, this.2.2.2.2⟩
    · have := hrow2 i t _ hi hvx hts
      rw [hpr] at this
      simp only [Option.some.injEq, List.cons.injEq, and_true] at this
      exact ⟨this.2.2.1.symm, this.2.2.2.1.symm, this.2.2.2.2⟩
  obtain ⟨hAS, hBP, rfl⟩ := hrow
  rw [hA.1 _ hslf] at hAS
  have hv : vol.getD i none = none := by
    cases hq : vol.getD i none with
    | none => rfl
    | some w => rw [hq] at hAS; cases hAS
  refine ⟨?_, rfl, ?_⟩
  · cases hq : tr.profitTaking with
    | none => intro q; cases q
    | some a =>
      intro _
      rw [hB.1 _ hq, hv] at hBP
      rw [← hBP]
      rfl
  · obtain ⟨sl, pt, -, -, hr⟩ := hspec i hiN
    rw [hr, hv]

private theorem hitD_none {g : ℚ → XF ℚ} {bars : List (ℤ × ℚ)} {start exp : ℤ} {x side : ℚ} {br : XF ℚ → Bool}
    (h : Rd.firstHitD g bars start exp x side br = none) (b : ℤ × ℚ) (hb : b ∈ bars) (h1 : start ≤ b.1) (h2 : b.1 < exp) :
    br (Rd.sidedD g x b.2 side) = false := by
  unfold Rd.firstHitD at h
  rw [List.min?_eq_none_iff, List.map_eq_nil_iff, List.filter_eq_nil_iff] at h
  have := h b (List.mem_filter.2 ⟨hb, by simp [h1, h2]⟩)
  simpa using this

private theorem hitD_some {g : ℚ → XF ℚ} {bars : List (ℤ × ℚ)} {start exp : ℤ} {x side : ℚ} {br : XF ℚ → Bool} {t : ℤ}
    (h : Rd.firstHitD g bars start exp x side br = some t) :
    (∃ y, (t, y) ∈ bars ∧ start ≤ t ∧ t < exp ∧ br (Rd.sidedD g x y side) = true) ∧
      ∀ b ∈ bars, start ≤ b.1 → b.1 < t → br (Rd.sidedD g x b.2 side) = false := by
  unfold Rd.firstHitD at h
  rw [List.min?_eq_some_iff] at h
  obtain ⟨h1, h2⟩ := h
  obtain ⟨b, hb, rfl⟩ := List.mem_map.1 h1
  rw [List.mem_filter, List.mem_filter] at hb
  obtain ⟨⟨a1, a2⟩, a3⟩ := hb
  simp only [Bool.and_eq_true, decide_eq_true_eq] at a2
  refine ⟨⟨b.2, a1, a2.1, a2.2, a3⟩, fun c hc c1 c2 => ?_⟩
  by_contra hq
  rw [Bool.not_eq_false] at hq
  have := h2 c.1 (List.mem_map.2 ⟨c, List.mem_filter.2 ⟨List.mem_filter.2 ⟨hc, by
    simp only [Bool.and_eq_true, decide_eq_true_eq]
    exact ⟨c1, c2.trans a2.2⟩⟩, hq⟩, rfl⟩)
  omega

/-- C151 in floats, with underflow and overflow: the event of the labels ends at the first bar at which the return of the position,
as computed, is above the level `P` or below minus the level `S`, as these are written into the position — the two computations round
alike, even if a level becomes infinite or zero — and otherwise at its expiration. -/
theorem C151_float64 (f : Fmt) (bars : List (ℤ × ℚ)) (hs : (bars.map (·.1)).Pairwise (· < ·)) (start exp : ℤ) (z : ℚ)
    (hz : (exp, z) ∈ bars) (x side ptf slf vol : ℚ) (hse : start ≤ exp) (hp : 0 < ptf) (hl : 0 < slf) :
    let S := Rd.levelD f.float vol slf
    let P := Rd.levelD f.float vol ptf
    let gain (y : ℚ) := Rd.sidedD f.float x y side
    ∃ t y, (t, y) ∈ bars ∧ start ≤ t ∧ t ≤ exp ∧
      Rd.eventD f.float bars true false start exp x side ptf slf vol =
        some (t, gain y, if XF.lt (.fin 0) (gain y) then some 1 else if XF.lt (gain y) (.fin 0) then some 0 else none) ∧
      (t < exp → XF.lt P (gain y) = true ∨ XF.lt (gain y) (XF.neg S) = true) ∧
      ∀ b ∈ bars, start ≤ b.1 → b.1 < t → XF.lt P (gain b.2) = false ∧ XF.lt (gain b.2) (XF.neg S) = false := by
  intro S P gain
  have eP : ∀ q, ((Rd.profitBarrierD f.float ptf vol).any fun b => XF.lt b q) = XF.lt P q := by
    intro q
    unfold Rd.profitBarrierD
    rw [if_pos hp, Option.any_some, mul_comm]
    rfl
  have eS : ∀ q, ((Rd.lossBarrierD f.float slf vol).any fun b => XF.lt q b) = XF.lt q (XF.neg S) := by
    intro q
    unfold Rd.lossBarrierD
    rw [if_pos hl, Option.any_some, neg_mul, Rd.floatE_neg, mul_comm]
    rfl
  unfold Rd.eventD
  generalize hH : Rd.hitsD f.float bars start exp x side ptf slf vol = H
  obtain ⟨H1, H2⟩ := H
  unfold Rd.hitsD at hH
  simp only [eP, eS] at hH
  rw [Prod.mk.injEq] at hH
  obtain ⟨hP, hL⟩ := hH
  have finish : ∀ t y, (t, y) ∈ bars → Rd.eventEnd exp (H1, H2) = t →
      (Option.map (fun b : ℤ × ℚ => (Rd.eventEnd exp (H1, H2),
        Rd.labelOfD f.float true false (H1.isSome || H2.isSome) x b.2 side))
        (bars.find? fun b => b.1 == Rd.eventEnd exp (H1, H2))) =
      some (t, gain y, if XF.lt (.fin 0) (gain y) then some 1 else if XF.lt (gain y) (.fin 0) then some 0 else none) := by
    intro t y hty ht
    rw [ht, Rd.find_bar hs hty, Option.map_some]
    rfl
  suffices h : ∃ t y, (t, y) ∈ bars ∧ start ≤ t ∧ t ≤ exp ∧ Rd.eventEnd exp (H1, H2) = t ∧
      (t < exp → XF.lt P (gain y) = true ∨ XF.lt (gain y) (XF.neg S) = true) ∧
      (∀ s, H1 = some s → t ≤ s) ∧ (∀ s, H2 = some s → t ≤ s) by
    obtain ⟨t, y, h1, h2, h3, h4, h5, h6, h7⟩ := h
    refine ⟨t, y, h1, h2, h3, finish t y h1 h4, h5, fun b hb g1 g2 => ⟨?_, ?_⟩⟩
    · cases h : H1 with
      | none => exact hitD_none (hP.trans h) b hb g1 (by omega)
      | some s =>
        exact (hitD_some (hP.trans h)).2 b hb g1 (lt_of_lt_of_le g2 (h6 s h))
    · cases h : H2 with
      | none => exact hitD_none (hL.trans h) b hb g1 (by omega)
      | some s =>
        exact (hitD_some (hL.trans h)).2 b hb g1 (lt_of_lt_of_le g2 (h7 s h))
  unfold Rd.eventEnd
  rcases h1 : H1 with _ | a <;> rcases h2 : H2 with _ | b
  · exact ⟨exp, z, hz, hse, le_rfl, by simp, fun h => absurd h (lt_irrefl _), by simp, by simp⟩
  · obtain ⟨⟨y, g1, g2, g3, g4⟩, -⟩ := hitD_some (hL.trans h2)
    exact ⟨b, y, g1, g2, g3.le, by simp [g3.le], fun _ => .inr g4, by simp, by simp⟩
  · obtain ⟨⟨y, g1, g2, g3, g4⟩, -⟩ := hitD_some (hP.trans h1)
    exact ⟨a, y, g1, g2, g3.le, by simp [g3.le], fun _ => .inl g4, by simp, by simp⟩
  · obtain ⟨⟨y, g1, g2, g3, g4⟩, -⟩ := hitD_some (hP.trans h1)
    obtain ⟨⟨y', k1, k2, k3, k4⟩, -⟩ := hitD_some (hL.trans h2)
    rcases le_total a b with hab | hab
    · exact ⟨a, y, g1, g2, g3.le, by simp [g3.le, hab], fun _ => .inl g4, by simp, by simp [hab]⟩
    · exact ⟨b, y', k1, k2, k3.le, by simp [k3.le, hab], fun _ => .inr k4, by simp [hab], by simp⟩

/-- A level that overflows is infinite and never left; the event runs to its expiration. -/
example : Rd.levelD binary64.float (2 ^ (1023 : ℤ)) 4 = .pinf ∧
    Rd.eventD binary64.float [(0, 2 ^ (-1000 : ℤ)), (1, 2 ^ (900 : ℤ)), (2, 2 ^ (-999 : ℤ))] true false 0 2 (2 ^ (-1000 : ℤ)) 1 4 4 (2 ^ (1023 : ℤ)) =
      some (2, .fin 1, some 1) := by decide +kernel

/-- C151 beside: prices 10, 11, 9, 12 with a volatility of 1/50 and factors of 2; the short position is stopped at once. -/
example : Rd.levelD binary64.float (1/50) 2 = binary64.float (1/25) ∧
    (Rd.eventD binary64.float [(0, 10), (1, 11), (2, 9), (3, 12)] true false 0 3 10 (-1) 2 2 (1/50)).map (fun e => (e.1, e.2.2)) =
      some (1, some 0) := by decide +kernel

example := C151_float64 binary64 [(0, 10), (1, 11), (2, 9), (3, 12)] (by decide) 0 3 12 (by simp) 10 (-1) 2 2 (1/50) (by norm_num)
  (by norm_num) (by norm_num)

section Examples

private def ts : List ℤ := [1000000000, 2000000000, 3000000000, 4000000000]

private def bars : Mizar.Frame ℚ :=
  ⟨["close"], [(1000000000, [.fin 10]), (2000000000, [.fin 11]), (3000000000, [.fin 8]), (4000000000, [.fin 12])]⟩

private def live (sl pt : ℚ) : Trade.Trader ℚ where
  alignOn := "bars"
  signal _ := .ok [(1000000000, .fin (-1), .fin (1/2)), (2000000000, .fin 1, .fin 1)]
  estd l := l
  numBars := 2
  stopLoss := some sl
  profitTaking := some pt
  volAdjusted := false

private def st0 : Trade.State ℚ := ⟨none, [("bars", bars)]⟩

private def cfg (sl pt : ℚ) : Lab.Cfg ℚ where
  nExp := 2
  ptf := pt
  slf := sl
  metalabeling := true
  closeName := "close"
  sideName := "side"
  volAdjusted := false
  expirationLabel := false

private def marked : Lab.Frame ℚ :=
  ⟨ts, [("close", [.fin 10, .fin 11, .fin 8, .fin 12]), ("side", [.fin (-1), .fin 1, .nan, .nan])]⟩

private theorem marked_input (dv : List ℤ → List (XF ℚ) → List (XF ℚ)) (sl pt : ℚ) (h0 : ¬ (pt < 0 ∧ sl < 0)) :
    LabelInput dv (cfg sl pt) marked ts [some 10, some 11, some 8, some 12] [some (-1), some 1, none, none]
      (List.replicate 4 (some 1)) 2 where
  times_eq := by decide
  close_eq := rfl
  name_eq := rfl
  side_eq := Or.inl rfl
  vol_eq := rfl
  n_eq := rfl
  length_eq := rfl
  nonempty := by simp [ts]
  sorted := by decide
  whole_ms := by decide
  not_epoch := by decide
  positive := by
    intro x hx
    simp only [List.mem_cons, Option.some.injEq, List.not_mem_nil, or_false] at hx
    rcases hx with rfl | rfl | rfl | rfl <;> norm_num
  factors := h0
  ends := fun _ => Or.inl (by decide)

private def pos (sl pt : ℚ) : Mizar.Frame ℚ :=
  ⟨["side", "size", "stop_loss", "profit_taking", "num_expiration_bars"],
    [(1000000000, [.fin (-1), .fin (1/2), .fin sl, .fin pt, .fin 2]), (2000000000, [.fin 1, .fin 1, .fin sl, .fin pt, .fin 2]),
     (3000000000, [.nan, .nan, .fin sl, .fin pt, .fin 2]), (4000000000, [.nan, .nan, .fin sl, .fin pt, .fin 2])]⟩

private theorem created_zero : (Trade.createPosition (live 0 (1/5)) st0).1 = .ok (pos 0 (1/5)) := by decide +kernel

private theorem created_both : (Trade.createPosition (live (1/20) (1/5)) st0).1 = .ok (pos (1/20) (1/5)) := by decide +kernel

private theorem st0_wf : ∀ q ∈ st0.data, q.2.WF := by
  intro q hq
  obtain rfl : q = ("bars", bars) := by simpa [st0] using hq
  intro r hr
  simp only [bars, List.mem_cons, List.not_mem_nil, or_false] at hr
  rcases hr with rfl | rfl | rfl | rfl <;> rfl

/-- C151 beside: a short position with a loss level of 5% is stopped at the second bar (10%), a long position opened there is
stopped at the third bar. -/
example : (Lab.transform (fun _ _ => []) (cfg (1/20) (1/5)) marked).toOption.map (·.map fun r => (r.endTime, r.label)) =
    some [(some 2000000000, .fin 0), (some 3000000000, .fin 0), (none, .nan), (none, .nan)] := by decide +kernel

/-- A loss factor of zero: the short position at the first bar has a loss level of zero, so it would be stopped at the second bar
with a loss — but the label ends at the third bar, with a profit. -/
theorem C151_zero_factor_refuted :
    ¬ ∀ (tr : Trade.Trader ℚ) (st st' : Trade.State ℚ) (p : Mizar.Frame ℚ) (_ : ∀ q ∈ st.data, q.2.WF)
      (_ : ∀ s, tr.signal st.data = .ok s → (s.map (·.1)).Nodup) (_ : Trade.createPosition tr st = (.ok p, st'))
      (f : Mizar.Frame ℚ) (_ : st.data.lookup tr.alignOn = some f)
      (c : Lab.Cfg ℚ) (g : Lab.Frame ℚ) (close side vol : List (Option ℚ)) (n : ℕ)
      (_ : Trade.column f "close" = .ok (close.map xf))
      (_ : LabelInput (Lab.dailyVolColumn tr.estd) c g f.index close side vol n)
      (_ : c.volAdjusted = tr.volAdjusted) (_ : tr.stopLoss = some c.slf) (_ : tr.profitTaking = some c.ptf)
      (_ : tr.numBars = (n : ℚ)) (_ : 0 ≤ c.slf) (_ : 0 ≤ c.ptf) (_ : 1 ≤ n)
      (_ : c.metalabeling = true) (_ : c.expirationLabel = false) (_ : ∀ v, some v ∈ vol → 0 ≤ v) (rows : List (Lab.Row ℚ))
      (_ : Lab.transform (Lab.dailyVolColumn tr.estd) c g = .ok rows)
      (i : ℕ) (t : ℤ) (s : ℚ) (z : XF ℚ) (S P : ℚ) (b : XF ℚ) (x : ℚ) (_ : f.index[i]? = some t)
      (_ : p.row? t = some [.fin s, z, .fin S, .fin P, b])
      (_ : side.getD i none = some s) (_ : close.getD i none = some x) (row : Lab.Row ℚ) (_ : rows[i]? = some row)
      (k : ℕ) (_ : k < f.index.length) (_ : Settles (fun j => close.getD j none) x s S P i n k), row.endTime = f.index[k]? := by
  intro h
  have hp : Trade.createPosition (live 0 (1/5)) st0 = (.ok (pos 0 (1/5)), (Trade.createPosition (live 0 (1/5)) st0).2) :=
    Prod.ext created_zero rfl
  have hT : ∃ rows row, Lab.transform (Lab.dailyVolColumn (live 0 (1/5)).estd) (cfg 0 (1/5)) marked = .ok rows ∧
      rows[0]? = some row ∧ row.endTime = some 3000000000 := by
    have e : ((Lab.transform (Lab.dailyVolColumn (live 0 (1/5)).estd) (cfg 0 (1/5)) marked).toOption.bind (·[0]?)).map (·.endTime) =
        some (some 3000000000) := by decide +kernel
    cases hq : Lab.transform (Lab.dailyVolColumn (live 0 (1/5)).estd) (cfg 0 (1/5)) marked with
    | error _ => rw [hq] at e; cases e
    | ok rows =>
      rw [hq] at e
      obtain ⟨row, e1, e2⟩ := Option.map_eq_some_iff.1 e
      exact ⟨rows, row, rfl, e1, e2⟩
  obtain ⟨rows, row, h1, h2, h3⟩ := hT
  have := h (live 0 (1/5)) st0 _ _ st0_wf (by intro s hs; cases hs; simp) hp bars rfl
    (cfg 0 (1/5)) marked _ _ _ 2 rfl (marked_input _ 0 (1/5) (by norm_num)) rfl rfl rfl (by norm_num [live]) (by norm_num [cfg])
    (by norm_num [cfg]) (by norm_num) rfl rfl (by simp) rows h1 0 1000000000 (-1) _ _ _ _ 10 rfl rfl rfl rfl row h2 1 (by decide)
    ⟨by decide, by decide, fun _ => Or.inr ⟨11, rfl, by norm_num⟩, fun j _ hj => by
      obtain rfl : j = 0 := by omega
      constructor
      · rintro ⟨y, hy, hlt⟩
        cases hy
        norm_num at hlt
      · rintro ⟨y, hy, hlt⟩
        cases hy
        norm_num at hlt⟩
  rw [h3] at this
  exact absurd this (by decide)

/-- C151 beside: the hypotheses of `C151_outcome_partial` are met by two positions. -/
example : ∃ p st', Trade.createPosition (live (1/20) (1/5)) st0 = (.ok p, st') ∧
    ∃ rows, Lab.transform (Lab.dailyVolColumn (live (1/20) (1/5)).estd) (cfg (1/20) (1/5)) marked = .ok rows ∧
      ∃ row, rows[0]? = some row ∧
        ((∃ k < 4, row.endTime = ts[k]? ∧ Settles (fun j => [some (10 : ℚ), some 11, some 8, some 12].getD j none) 10 (-1) (1/20) (1/5) 0 2 k) ∨
          row.endTime = none ∧ 4 ≤ 2) := by
  have hp : Trade.createPosition (live (1/20) (1/5)) st0 =
      (.ok (pos (1/20) (1/5)), (Trade.createPosition (live (1/20) (1/5)) st0).2) := Prod.ext created_both rfl
  refine ⟨_, _, hp, ?_⟩
  obtain ⟨rows, h1, h2⟩ := C151_outcome_partial (live (1/20) (1/5)) st0 _ _ st0_wf
    (by intro s hs; cases hs; simp) hp (f := bars) rfl (c := cfg (1/20) (1/5)) (g := marked) rfl
    (marked_input _ _ _ (by norm_num)) rfl rfl rfl (by norm_num [live]) (by norm_num [cfg]) (by norm_num [cfg]) (by norm_num) rfl rfl (by simp)
  refine ⟨rows, h1, ?_⟩
  obtain ⟨-, row, h3, h4⟩ := h2 0 1000000000 (-1) _ _ _ _ 10 rfl rfl rfl rfl
  refine ⟨row, h3, ?_⟩
  rcases h4 with ⟨k, a, b, c, -⟩ | ⟨a, b, -⟩
  · exact Or.inl ⟨k, a, b, c⟩
  · exact Or.inr ⟨a, by simpa [bars, Mizar.Frame.index] using b⟩

private def adjusted : Trade.Trader ℚ := { live (1/20) (1/5) with volAdjusted := true }

private theorem created_missing : (Trade.createPosition adjusted st0).1.toOption.bind (·.row? 1000000000) =
    some [.fin (-1), .fin (1/2), .nan, .nan, .fin 2] := by decide +kernel

/-- C151 beside: four bars within a second have no daily volatility; the position has no levels, the label is missing. -/
example : ∃ rows, Lab.transform (Lab.dailyVolColumn adjusted.estd) { cfg (1/20) (1/5) with volAdjusted := true } marked = .ok rows ∧
    rows[0]? = some (⟨none, .nan, .nan, .nan⟩ : Lab.Row ℚ) := by
  have e := created_missing
  cases hq : (Trade.createPosition adjusted st0).1 with
  | error _ => rw [hq] at e; cases e
  | ok p =>
    rw [hq] at e
    have hp : Trade.createPosition adjusted st0 = (.ok p, (Trade.createPosition adjusted st0).2) := Prod.ext hq rfl
    obtain ⟨rows, h1, h2⟩ := C151_no_levels adjusted st0 _ p st0_wf (by intro s hs; cases hs; simp) hp (f := bars) rfl
      (c := { cfg (1/20) (1/5) with volAdjusted := true }) (g := marked) (close := [some 10, some 11, some 8, some 12])
      (side := [some (-1), some 1, none, none]) (vol := List.replicate 4 none) (n := 2) rfl
      { marked_input (Lab.dailyVolColumn adjusted.estd) (1/20) (1/5) (by norm_num) with
        vol_eq := by decide +kernel
        ends := fun _ => Or.inl (by decide) } rfl rfl
    exact ⟨rows, h1, (h2 0 1000000000 _ _ _ _ rfl e).2.2⟩

end Examples

end Mizar.Props
