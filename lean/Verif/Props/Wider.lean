import Verif.Props.Labeling

/-!
C110: how the triple barrier labels react to the barrier factors and the expiration
(`/repo/mizarlabs/transformers/targets/labeling.py`).
-/

namespace Mizar.Spec
variable {K : Type*} [Field K] [LinearOrder K]

/-- A barrier with factor `b` is at least as far away as one with factor `a`; a factor that is not positive means that there
is no barrier. -/
def Wider (a b : K) : Prop := b ≤ 0 ∨ 0 < a ∧ a ≤ b

end Mizar.Spec

namespace Mizar.Props
open Mizar.Spec Mizar.Lab
variable {K : Type*} [Field K] [LinearOrder K] [IsStrictOrderedRing K]

theorem LabelInput.change {dv : List ℤ → List (XF K) → List (XF K)} {c : Cfg K} {f : Frame K} {times : List ℤ}
    {close side vol : List (Option K)} {n : ℕ} (h : LabelInput dv c f times close side vol n) (m : ℕ) (p s : K)
    (hf : ¬ (p < 0 ∧ s < 0))
    (he : c.metalabeling = true → SomeEventEnds times.length m (Breach { c with nExp := m, ptf := p, slf := s } close side vol)) :
    LabelInput dv { c with nExp := m, ptf := p, slf := s } f times close side vol m :=
  { times_eq := h.times_eq, close_eq := h.close_eq, name_eq := h.name_eq, side_eq := h.side_eq, vol_eq := h.vol_eq,
    n_eq := rfl, length_eq := h.length_eq, nonempty := h.nonempty, sorted := h.sorted, whole_ms := h.whole_ms,
    not_epoch := h.not_epoch, positive := h.positive, factors := hf, ends := he }

theorem vol_nonneg {vol : List (Option K)} (hvol : ∀ v, some v ∈ vol → 0 ≤ v) {i : ℕ} {v : K} (hv : vol.getD i none = some v) :
    0 ≤ v := by
  rcases Nat.lt_or_ge i vol.length with hi | hi
  · rw [List.getD_eq_getElem _ _ hi] at hv; exact hvol v (hv ▸ List.getElem_mem hi)
  · rw [List.getD_eq_default _ _ hi] at hv; cases hv

theorem stopLoss_narrow {close side vol : List (Option K)} (hvol : ∀ v, some v ∈ vol → 0 ≤ v) {a b : K} (w : Wider a b) {i j : ℕ}
    (h : StopLoss b close side vol i j) : StopLoss a close side vol i j := by
  obtain ⟨r, x, h1, h2, h3⟩ := h
  unfold slBarrier at h2
  split at h2
  · rename_i hb
    rcases w with w | ⟨w1, w2⟩
    · exact absurd hb (not_lt.2 w)
    · cases hv : vol.getD i none with
      | none => rw [hv] at h2; cases h2
      | some v =>
        rw [hv] at h2
        cases h2
        refine ⟨r, -(a * v), h1, by rw [hv]; simp [slBarrier, w1], ?_⟩
        have := mul_le_mul_of_nonneg_right w2 (vol_nonneg hvol hv)
        linarith
  · cases h2

theorem profitTaking_narrow {close side vol : List (Option K)} (hvol : ∀ v, some v ∈ vol → 0 ≤ v) {a b : K} (w : Wider a b) {i j : ℕ}
    (h : ProfitTaking b close side vol i j) : ProfitTaking a close side vol i j := by
  obtain ⟨r, x, h1, h2, h3⟩ := h
  unfold ptBarrier at h2
  split at h2
  · rename_i hb
    rcases w with w | ⟨w1, w2⟩
    · exact absurd hb (not_lt.2 w)
    · cases hv : vol.getD i none with
      | none => rw [hv] at h2; cases h2
      | some v =>
        rw [hv] at h2
        cases h2
        refine ⟨r, a * v, h1, by rw [hv]; simp [ptBarrier, w1], ?_⟩
        have := mul_le_mul_of_nonneg_right w2 (vol_nonneg hvol hv)
        linarith
  · cases h2

theorem eventResult_end (ml el : Bool) (price side : ℕ → Option K) (N n i : ℕ) (sl pt : Option ℕ) :
    (eventResult ml el price side N n i sl pt).1 = earliest (if i + n < N then some (i + n) else none) sl pt := by
  unfold eventResult
  cases earliest (if i + n < N then some (i + n) else none) sl pt <;> rfl

/-- The end of an event whose hits are known lies at or before every position that is a hit or the expiration bar. -/
theorem isFirst_exists {P : ℕ → Prop} {lo hi j : ℕ} {o : Option ℕ} (h : IsFirst P lo hi o) (h1 : lo ≤ j) (h2 : j < hi) (h3 : P j) :
    ∃ k, o = some k ∧ k ≤ j := by
  cases o with
  | none => exact absurd h3 (h j h1 h2)
  | some k =>
    refine ⟨k, rfl, ?_⟩
    by_contra hc
    exact h.2.2.2 j h1 (by omega) h3

theorem earliest_le {a b c : Option ℕ} {x : ℕ} (h : a = some x ∨ b = some x ∨ c = some x) : ∃ k, earliest a b c = some k ∧ k ≤ x := by
  cases he : earliest a b c with
  | none =>
    obtain ⟨h1, h2, h3⟩ := earliest_eq_none.1 he
    rcases h with h | h | h <;> simp_all
  | some k =>
    obtain ⟨_, h2, h3, h4⟩ := earliest_eq_some.1 he
    refine ⟨k, rfl, ?_⟩
    rcases h with h | h | h
    · exact h2 x h
    · exact h3 x h
    · exact h4 x h

theorem winEnd_mono {N n m i : ℕ} (h : n ≤ m) : i + n < N → winEnd N n i ≤ winEnd N m i := by
  intro hn
  unfold winEnd
  rw [if_pos hn]
  split <;> omega

/-- C110: moving the horizontal barriers further away, switching them off, or waiting longer for the expiration never makes an
event end earlier: an event that still ends had an end before, at the same time or earlier.  (For metalabels some event has
to end still, or the call raises: `C30_no_event_ends`.)  Not covered: times at the epoch or inside a millisecond, where it is false
(`C110_epoch_refuted`, `C110_sub_millisecond_refuted`). -/
theorem C110_wider_partial {dv : List ℤ → List (XF K) → List (XF K)} {c : Cfg K} {f : Frame K} {times : List ℤ}
    {close side vol : List (Option K)} {n : ℕ} (h : LabelInput dv c f times close side vol n) (hvol : ∀ v, some v ∈ vol → 0 ≤ v)
    (m : ℕ) (hm : n ≤ m) (p s : K) (hp : Wider c.ptf p) (hs : Wider c.slf s) (hf : ¬ (p < 0 ∧ s < 0))
    (he : c.metalabeling = true → SomeEventEnds times.length m (Breach { c with nExp := m, ptf := p, slf := s } close side vol)) :
    ∃ rows rows', Lab.transform dv c f = .ok rows ∧
      Lab.transform dv { c with nExp := m, ptf := p, slf := s } f = .ok rows' ∧
      rows.length = times.length ∧ rows'.length = times.length ∧
      ∀ (i : ℕ) (row row' : Row K), rows[i]? = some row → rows'[i]? = some row' →
        ∀ t', row'.endTime = some t' → ∃ t, row.endTime = some t ∧ t ≤ t' := by
  obtain ⟨rows, a1, a2, a3⟩ := transform_spec h
  obtain ⟨rows', b1, b2, b3⟩ := transform_spec (h.change m p s hf he)
  refine ⟨rows, rows', a1, b1, a2, b2, ?_⟩
  intro i row row' hr hr' t' ht'
  have hi : i < times.length := by
    rw [← a2]
    exact (List.getElem?_eq_some_iff.1 hr).1
  obtain ⟨sl, pt, hsl, hpt, hrow⟩ := a3 i hi
  obtain ⟨sl', pt', hsl', hpt', hrow'⟩ := b3 i hi
  rw [hr] at hrow
  rw [hr'] at hrow'
  cases hv : vol.getD i none with
  | none =>
    rw [hv] at hrow'
    cases hrow'
    cases ht'
  | some v =>
    rw [hv] at hrow hrow'
    cases hrow
    cases hrow'
    simp only [eventResult_end] at ht' ⊢
    obtain ⟨k', hk', rfl⟩ := Option.map_eq_some_iff.1 ht'
    obtain ⟨hor, h2, h3, h4⟩ := earliest_eq_some.1 hk'
    -- a position that ends the narrow event at or before `k'`
    have key : ∃ k, earliest (if i + n < times.length then some (i + n) else none) sl pt = some k ∧ k ≤ k' ∧ k' < times.length := by
      have hit : ∀ {j : ℕ}, i ≤ j → j < winEnd times.length m i →
          (StopLoss c.slf close side vol i j ∨ ProfitTaking c.ptf close side vol i j) →
          ∃ k, earliest (if i + n < times.length then some (i + n) else none) sl pt = some k ∧ k ≤ j := by
        intro j j1 j2 j3
        by_cases hj : j < winEnd times.length n i
        · rcases j3 with j3 | j3
          · obtain ⟨k, rfl, hk⟩ := isFirst_exists hsl j1 hj j3
            obtain ⟨k2, e1, e2⟩ := earliest_le (a := if i + n < times.length then some (i + n) else none) (b := some k) (c := pt)
              (x := k) (Or.inr (Or.inl rfl))
            exact ⟨k2, e1, by omega⟩
          · obtain ⟨k, rfl, hk⟩ := isFirst_exists hpt j1 hj j3
            obtain ⟨k2, e1, e2⟩ := earliest_le (a := if i + n < times.length then some (i + n) else none) (b := sl) (c := some k)
              (x := k) (Or.inr (Or.inr rfl))
            exact ⟨k2, e1, by omega⟩
        · have hn : i + n < times.length := by
            by_contra hc
            have e1 : winEnd times.length n i = times.length - 1 := by unfold winEnd; rw [if_neg hc]
            have e2 : winEnd times.length m i = times.length - 1 := by unfold winEnd; rw [if_neg (by omega)]
            omega
          have e1 : winEnd times.length n i = i + n := by unfold winEnd; rw [if_pos hn]
          obtain ⟨k2, e2, e3⟩ := earliest_le (a := if i + n < times.length then some (i + n) else none) (b := sl) (c := pt)
            (x := i + n) (Or.inl (by rw [if_pos hn]))
          exact ⟨k2, e2, by omega⟩
      have wl := (winEnd_lt (N := times.length) (n := m) (i := i) (by omega)).1
      rcases hor with e | e | e
      · split at e
        · rename_i hlt
          cases e
          obtain ⟨k2, e2, e3⟩ := earliest_le (a := if i + n < times.length then some (i + n) else none) (b := sl) (c := pt)
            (x := i + n) (Or.inl (by rw [if_pos (by omega)]))
          exact ⟨k2, e2, by omega, hlt⟩
        · cases e
      · rw [e] at hsl'
        obtain ⟨q1, q2, q3, _⟩ := hsl'
        obtain ⟨k, e1, e2⟩ := hit q1 q2 (Or.inl (stopLoss_narrow hvol hs q3))
        exact ⟨k, e1, e2, by omega⟩
      · rw [e] at hpt'
        obtain ⟨q1, q2, q3, _⟩ := hpt'
        obtain ⟨k, e1, e2⟩ := hit q1 q2 (Or.inr (profitTaking_narrow hvol hp q3))
        exact ⟨k, e1, e2, by omega⟩
    obtain ⟨k, e1, e2, e3⟩ := key
    refine ⟨times.getD k 0, by rw [e1]; rfl, ?_⟩
    rcases Nat.lt_or_ge k k' with hlt | hge
    · exact (times_lt h.sorted hlt e3).le
    · obtain rfl : k = k' := by omega
      exact le_rfl

theorem isFirst_longer {P : ℕ → Prop} {lo hi hi' : ℕ} (hh : hi ≤ hi') {o o' : Option ℕ} (h : IsFirst P lo hi o)
    (h' : IsFirst P lo hi' o') : (∀ k, o = some k → o' = some k) ∧ (o = none → ∀ k, o' = some k → hi ≤ k) := by
  constructor
  · rintro k rfl
    exact (isFirst_unique (hi := hi') (a := some k) ⟨h.1, lt_of_lt_of_le h.2.1 hh, h.2.2.1, h.2.2.2⟩ h').symm
  · rintro rfl k rfl
    by_contra hc
    exact h k h'.1 (by omega) h'.2.2.1

/-- C110: an event that ended at a horizontal barrier, that is before its expiration bar, does not change at all when the
expiration is moved further away. -/
theorem C110_longer {dv : List ℤ → List (XF K) → List (XF K)} {c : Cfg K} {f : Frame K} {times : List ℤ}
    {close side vol : List (Option K)} {n : ℕ} (h : LabelInput dv c f times close side vol n) (m : ℕ) (hm : n ≤ m)
    (he : c.metalabeling = true → SomeEventEnds times.length m (Breach c close side vol)) :
    ∃ rows rows', Lab.transform dv c f = .ok rows ∧ Lab.transform dv { c with nExp := m } f = .ok rows' ∧
      rows.length = times.length ∧ rows'.length = times.length ∧
      ∀ (i : ℕ) (row : Row K), rows[i]? = some row → ∀ t, row.endTime = some t → (∀ e, times[i + n]? = some e → t < e) → rows'[i]? = some row := by
  obtain ⟨rows, a1, a2, a3⟩ := transform_spec h
  obtain ⟨rows', b1, b2, b3⟩ := transform_spec (h.change m c.ptf c.slf h.factors he)
  refine ⟨rows, rows', a1, b1, a2, b2, ?_⟩
  intro i row hr t ht hexp
  have hi : i < times.length := by
    rw [← a2]
    exact (List.getElem?_eq_some_iff.1 hr).1
  obtain ⟨sl, pt, hsl, hpt, hrow⟩ := a3 i hi
  obtain ⟨sl', pt', hsl', hpt', hrow'⟩ := b3 i hi
  rw [hr] at hrow
  rw [hrow']
  cases hv : vol.getD i none with
  | none =>
    rw [hv] at hrow
    cases hrow
    cases ht
  | some v =>
    rw [hv] at hrow
    cases hrow
    simp only [eventResult_end] at ht
    obtain ⟨k, hk, rfl⟩ := Option.map_eq_some_iff.1 ht
    obtain ⟨hor, h2, h3, h4⟩ := earliest_eq_some.1 hk
    have hww : winEnd times.length n i ≤ winEnd times.length m i := by
      unfold winEnd
      split <;> split <;> omega
    obtain ⟨s1, s2⟩ := isFirst_longer hww hsl hsl'
    obtain ⟨p1, p2⟩ := isFirst_longer hww hpt hpt'
    have hlt : i + n < times.length → k < i + n := by
      intro hn
      by_contra hc
      have hke := h2 (i + n) (by rw [if_pos hn])
      obtain rfl : k = i + n := by omega
      have := hexp (times.getD (i + n) 0) (by rw [List.getD_eq_getElem _ _ hn, List.getElem?_eq_getElem hn])
      exact lt_irrefl _ this
    have hw : k < winEnd times.length n i := by
      rcases hor with e | e | e
      · split at e
        · rename_i hn
          cases e
          exact absurd (hlt hn) (lt_irrefl _)
        · cases e
      · rw [e] at hsl; exact hsl.2.1
      · rw [e] at hpt; exact hpt.2.1
    have hor2 : sl = some k ∨ pt = some k := by
      rcases hor with e | e | e
      · split at e
        · rename_i hn
          cases e
          exact absurd (hlt hn) (lt_irrefl _)
        · cases e
      · exact Or.inl e
      · exact Or.inr e
    have hk' : earliest (if i + m < times.length then some (i + m) else none) sl' pt' = some k := by
      rw [earliest_eq_some]
      refine ⟨?_, ?_, ?_, ?_⟩
      · rcases hor2 with e | e
        · exact Or.inr (Or.inl (s1 k e))
        · exact Or.inr (Or.inr (p1 k e))
      · intro x hx
        split at hx
        · rename_i hn
          cases hx
          have := hlt (by omega)
          omega
        · cases hx
      · intro x hx
        cases hs : sl with
        | none => have := s2 hs x hx; omega
        | some y =>
          have := s1 y hs
          rw [hx] at this
          cases this
          exact h3 x hs
      · intro x hx
        cases hs : pt with
        | none => have := p2 hs x hx; omega
        | some y =>
          have := p1 y hs
          rw [hx] at this
          cases this
          exact h4 x hs
    have hnn : (sl.isNone && pt.isNone) = (sl'.isNone && pt'.isNone) := by
      rcases hor2 with e | e
      · rw [e, s1 k e]; rfl
      · rw [e, p1 k e]; simp
    simp only [eventResult, hk, hk', Bool.and_assoc, hnn]

/-- Six bars with a side column, a missing price and a volatility that is missing at the first bar. -/
def widerFrame : Frame ℚ :=
  ⟨[1000000000, 2000000000, 3000000000, 4000000000, 5000000000, 6000000000],
    [("close", [.fin 10, .fin 10, .nan, .fin 9, .fin 12, .fin 13]), ("side", [.fin 1, .fin 1, .fin (-1), .fin (-1), .fin 1, .fin 1])]⟩

def widerCfg : Cfg ℚ := ⟨3, 1, 1, true, "close", SIDE, true, false⟩

/-- The volatility of the example. -/
def widerVol : List ℤ → List (XF ℚ) → List (XF ℚ) :=
  fun _ _ => [.nan, .fin (1 / 20), .fin (1 / 20), .fin (1 / 20), .fin (1 / 20), .fin (1 / 20)]

/-- The hypotheses are met with metalabels, a missing price and a missing volatility. -/
theorem wider_input : LabelInput widerVol widerCfg widerFrame
      [1000000000, 2000000000, 3000000000, 4000000000, 5000000000, 6000000000]
      [some 10, some 10, none, some 9, some 12, some 13] [some 1, some 1, some (-1), some (-1), some 1, some 1]
      (none :: List.replicate 5 (some (1 / 20))) 3 where
  times_eq := by decide
  close_eq := rfl
  name_eq := rfl
  side_eq := Or.inl rfl
  vol_eq := rfl
  n_eq := rfl
  length_eq := rfl
  nonempty := by simp
  sorted := by decide
  whole_ms := by decide
  not_epoch := by decide
  positive := by simp +decide
  factors := by norm_num [widerCfg]
  ends := fun _ => Or.inl (by decide)

/-- The second event ends at its stop loss; with a stop loss four times as far it ends at its expiration with the opposite
metalabel; without any barrier the later events end later or not at all. -/
example : (Lab.transform widerVol widerCfg widerFrame).toOption.map (·.map fun r => (r.endTime, r.label)) =
      some [(none, .nan), (some 4000000000, .fin 0), (some 6000000000, .nan), (some 5000000000, .fin 0), (none, .nan), (none, .nan)] ∧
    (Lab.transform widerVol { widerCfg with slf := 4 } widerFrame).toOption.map (·.map fun r => (r.endTime, r.label)) =
      some [(none, .nan), (some 5000000000, .fin 1), (some 6000000000, .nan), (some 5000000000, .fin 0), (none, .nan), (none, .nan)] ∧
    (Lab.transform widerVol { widerCfg with slf := 0, ptf := 0 } widerFrame).toOption.map (·.map fun r => (r.endTime, r.label)) =
      some [(none, .nan), (some 5000000000, .fin 1), (some 6000000000, .nan), (none, .nan), (none, .nan), (none, .nan)] ∧
    (Lab.transform widerVol { widerCfg with nExp := 4 } widerFrame).toOption.map (·.map fun r => (r.endTime, r.label)) =
      some [(none, .nan), (some 4000000000, .fin 0), (none, .nan), (some 5000000000, .fin 0), (none, .nan), (none, .nan)] := by
  decide +kernel

end Mizar.Props
