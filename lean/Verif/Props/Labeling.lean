import Mathlib.Data.Rat.Floor
import Verif.Lemmas.Labeling

/-!
Property theorems C25-C32: the triple barrier labels
(`/repo/mizarlabs/transformers/targets/labeling.py`).
-/

set_option linter.unusedSectionVars false

namespace Mizar.Props
open Mizar.Spec Mizar.Lab
variable {K : Type*} [Field K] [LinearOrder K] [IsStrictOrderedRing K]

/-- C25: for every event the profit-taking (stop-loss) timestamp is the earliest bar in `[start, expiration)`
whose side-adjusted return from the event's close is above (below) the barrier, and `0` if there is none.
Prices, sides and barriers may be NaN (`none`). -/
theorem C25_first_breach (bars : List (ℤ × Option K)) (evs : List (HEvent K)) (k : ℕ) (e : HEvent K)
    (c s b₁ b₂ : Option K) (he : evs[k]? = some e) (hc : e.close = xf c) (hs : e.side = xf s)
    (hsl : e.stopLoss = xf b₁) (hpt : e.profitTaking = xf b₂) (hpos : ∀ x, c = some x → 0 < x) :
    ∃ pt sl, (getHorizontalBarriersHit (bars.map fun b => (b.1, xf b.2)) evs)[k]? = some (pt, sl) ∧
      IsFirstTime bars e.start e.exp (fun y => Above (sideReturn c y s) b₂) pt ∧
      IsFirstTime bars e.start e.exp (fun y => Below (sideReturn c y s) b₁) sl := by
  refine ⟨firstHit (bars.map fun b => (b.1, xf b.2)) e.start e.exp (xf c) (xf s) (fun r => XF.lt (xf b₂) r),
    firstHit (bars.map fun b => (b.1, xf b.2)) e.start e.exp (xf c) (xf s) (fun r => XF.lt r (xf b₁)), ?_, ?_, ?_⟩
  · unfold getHorizontalBarriersHit
    rw [List.getElem?_map, he, Option.map_some, hc, hs, hsl, hpt]
  · exact firstHit_spec bars e.start e.exp c s hpos _ (fun r => Above r b₂) (fun r => above_xf r b₂)
  · exact firstHit_spec bars e.start e.exp c s hpos _ (fun r => Below r b₁) (fun r => below_xf r b₁)

example : getHorizontalBarriersHit [(1, XF.fin (10 : ℚ)), (2, .nan), (3, .fin 8), (4, .fin 13), (5, .fin 7)]
    [⟨5, 1, .fin 10, .fin 1, .fin (-1/10), .fin (2/10)⟩, ⟨5, 3, .fin 8, .fin (-1), .fin (-1/10), .fin (1/10)⟩] =
    [(4, 3), (0, 4)] := by decide +kernel

/-- Bar `j` breaches the stop-loss barrier of the event at bar `i`. -/
def StopLoss (slf : K) (close side vol : List (Option K)) (i j : ℕ) : Prop :=
  Below (sideReturn (close.getD i none) (close.getD j none) (side.getD i none)) (slBarrier slf (vol.getD i none))

/-- Bar `j` breaches the profit-taking barrier of the event at bar `i`. -/
def ProfitTaking (ptf : K) (close side vol : List (Option K)) (i j : ℕ) : Prop :=
  Above (sideReturn (close.getD i none) (close.getD j none) (side.getD i none)) (ptBarrier ptf (vol.getD i none))

/-- Bar `j` breaches a barrier of the event at bar `i`. -/
def Breach (c : Cfg K) (close side vol : List (Option K)) (i j : ℕ) : Prop :=
  StopLoss c.slf close side vol i j ∨ ProfitTaking c.ptf close side vol i j

/-- A call of `TripleBarrierMethodLabeling.transform` on a frame with the default side column name: times are
increasing whole milliseconds different from the epoch, prices are positive or missing, the volatility
(the value of `get_daily_vol`, or one) is a list of optional numbers; without a side column the side is 1. -/
structure LabelFrame (dv : List ℤ → List (XF K) → List (XF K)) (c : Cfg K) (f : Frame K) (times : List ℤ)
    (close side vol : List (Option K)) (n : ℕ) : Prop where
  times_eq : f.times = times
  close_eq : f.col c.closeName = .ok (close.map xf)
  name_eq : c.sideName = SIDE
  side_eq : (f.col SIDE = .ok (side.map xf)) ∨
    (f.has SIDE = false ∧ side = List.replicate times.length (some 1) ∧ c.metalabeling = false)
  vol_eq : (if c.volAdjusted then dv times (close.map xf) else List.replicate times.length (.fin 1)) = vol.map xf
  n_eq : c.nExp = n
  length_eq : close.length = times.length
  nonempty : times ≠ []
  sorted : times.Pairwise (· < ·)
  whole_ms : ∀ t ∈ times, (1000000 : ℤ) ∣ t
  not_epoch : ∀ t ∈ times, t ≠ 0
  positive : ∀ x, some x ∈ close → 0 < x
  factors : ¬ (c.ptf < 0 ∧ c.slf < 0)

/-- The same for a call that returns: with metalabels some event has to end (see `C30_no_event_ends`). -/
structure LabelInput (dv : List ℤ → List (XF K) → List (XF K)) (c : Cfg K) (f : Frame K) (times : List ℤ)
    (close side vol : List (Option K)) (n : ℕ) : Prop extends LabelFrame dv c f times close side vol n where
  ends : c.metalabeling = true → SomeEventEnds times.length n (Breach c close side vol)

theorem transform_label {dv : List ℤ → List (XF K) → List (XF K)} {c : Cfg K} {f : Frame K} {times : List ℤ}
    {close side vol : List (Option K)} {n : ℕ} (h : LabelFrame dv c f times close side vol n) :
    Lab.transform dv c f =
      label (times.zip (close.map xf)) (events times (close.map xf) (vol.map xf) (side.map xf) n) c := by
  have hci : checkInput c f = .ok () := by
    unfold checkInput
    rw [has_of_col h.close_eq]
    cases hm : c.metalabeling
    · rfl
    · rcases h.side_eq with hs | ⟨_, _, hs⟩
      · rw [h.name_eq, has_of_col hs]; rfl
      · rw [hm] at hs; cases hs
  have hsc : sideColumn c f = .ok (side.map xf) := by
    unfold sideColumn
    rcases h.side_eq with hs | ⟨h1, h2, _⟩
    · rw [has_of_col hs, h.name_eq]; exact hs
    · rw [h1, h2, h.times_eq, List.map_replicate]; rfl
  unfold Lab.transform
  rw [hci]
  simp only [h.close_eq, hsc, if_pos h.name_eq, h.times_eq, h.vol_eq, h.n_eq]

theorem transform_spec {dv : List ℤ → List (XF K) → List (XF K)} {c : Cfg K} {f : Frame K} {times : List ℤ}
    {close side vol : List (Option K)} {n : ℕ} (h : LabelInput dv c f times close side vol n) :
    ∃ rows, Lab.transform dv c f = .ok rows ∧ rows.length = times.length ∧
      ∀ i < times.length, ∃ sl pt : Option ℕ,
        IsFirst (StopLoss c.slf close side vol i) i (winEnd times.length n i) sl ∧
        IsFirst (ProfitTaking c.ptf close side vol i) i (winEnd times.length n i) pt ∧
        rows[i]? = some (match vol.getD i none with
          | none => ⟨none, .nan, .nan, .nan⟩
          | some v =>
            let r := eventResult c.metalabeling c.expirationLabel (fun j => close.getD j none)
              (fun j => side.getD j none) times.length n i sl pt
            ⟨r.1.map fun k => times.getD k 0, .fin v, xf r.2.1, xf r.2.2⟩) := by
  rw [transform_label h.toLabelFrame]
  exact (label_spec times close side vol n c h.length_eq h.sorted h.whole_ms h.not_epoch h.positive h.factors h.nonempty).1 h.ends

theorem self_return {ci s : Option K} (hpos : ∀ x, ci = some x → 0 < x) :
    sideReturn ci ci s = none ∨ sideReturn ci ci s = some 0 := by
  cases ci with
  | none => left; rfl
  | some x =>
    cases s with
    | none => left; rfl
    | some s => right; simp [sideReturn, div_self (hpos x rfl).ne']

theorem not_breach_self {close side vol : List (Option K)} (hpos : ∀ x, some x ∈ close → 0 < x)
    (hvol : ∀ v, some v ∈ vol → 0 ≤ v) (slf ptf : K) (i : ℕ) :
    ¬ StopLoss slf close side vol i i ∧ ¬ ProfitTaking ptf close side vol i i := by
  have hp : ∀ x, close.getD i none = some x → 0 < x := by
    intro x hx
    rcases Nat.lt_or_ge i close.length with hi | hi
    · rw [List.getD_eq_getElem _ _ hi] at hx; exact hpos x (hx ▸ List.getElem_mem hi)
    · rw [List.getD_eq_default _ _ hi] at hx; cases hx
  have hv : ∀ x, vol.getD i none = some x → 0 ≤ x := by
    intro x hx
    rcases Nat.lt_or_ge i vol.length with hi | hi
    · rw [List.getD_eq_getElem _ _ hi] at hx; exact hvol x (hx ▸ List.getElem_mem hi)
    · rw [List.getD_eq_default _ _ hi] at hx; cases hx
  constructor
  · rintro ⟨r, b, h1, h2, h3⟩
    rcases self_return (s := side.getD i none) hp with h | h
    · rw [h] at h1; cases h1
    · rw [h] at h1; cases h1
      unfold slBarrier at h2
      split at h2
      · rename_i hs
        cases hvi : vol.getD i none with
        | none => rw [hvi] at h2; cases h2
        | some v =>
          rw [hvi] at h2; cases h2
          have := mul_nonneg hs.le (hv v hvi)
          linarith
      · cases h2
  · rintro ⟨r, b, h1, h2, h3⟩
    rcases self_return (s := side.getD i none) hp with h | h
    · rw [h] at h1; cases h1
    · rw [h] at h1; cases h1
      unfold ptBarrier at h2
      split at h2
      · rename_i hs
        cases hvi : vol.getD i none with
        | none => rw [hvi] at h2; cases h2
        | some v =>
          rw [hvi] at h2; cases h2
          have := mul_nonneg hs.le (hv v hvi)
          linarith
      · cases h2

theorem winEnd_lt {N n i : ℕ} (hN : 0 < N) : winEnd N n i < N ∧ winEnd N n i ≤ i + n ∧ (i + n < N → winEnd N n i = i + n) := by
  unfold winEnd
  split <;> omega

theorem times_lt {times : List ℤ} (h : times.Pairwise (· < ·)) {a b : ℕ} (hab : a < b) (hb : b < times.length) :
    times.getD a 0 < times.getD b 0 := by
  rw [List.getD_eq_getElem _ _ hb, List.getD_eq_getElem _ _ (by omega)]
  exact List.pairwise_iff_getElem.1 h a b _ hb hab

/-- C26: the reported end time is the earliest of the first stop-loss hit, the first profit-taking hit (both
before the expiration bar) and the expiration bar; it is after the start and not after the bar `n` later;
it is missing exactly if there is neither an expiration bar nor a hit.  Not covered: times that are not whole milliseconds or the epoch
(`LabelInput`), where it is false (`C26_sub_millisecond_refuted`, `C26_any_times`). -/
theorem C26_event_end_partial {dv : List ℤ → List (XF K) → List (XF K)} {c : Cfg K} {f : Frame K} {times : List ℤ}
    {close side vol : List (Option K)} {n : ℕ} (h : LabelInput dv c f times close side vol n) (hn : 1 ≤ n)
    (hvol : ∀ v, some v ∈ vol → 0 ≤ v) :
    ∃ rows, Lab.transform dv c f = .ok rows ∧ rows.length = times.length ∧
      ∀ i < times.length, vol.getD i none ≠ none → ∃ row sl pt, rows[i]? = some row ∧
        IsFirst (StopLoss c.slf close side vol i) i (winEnd times.length n i) sl ∧
        IsFirst (ProfitTaking c.ptf close side vol i) i (winEnd times.length n i) pt ∧
        row.endTime = (earliest (if i + n < times.length then some (i + n) else none) sl pt).map
          (fun k => times.getD k 0) ∧
        (∀ t, row.endTime = some t → times.getD i 0 < t ∧ (i + n < times.length → t ≤ times.getD (i + n) 0)) ∧
        (row.endTime = none ↔ times.length ≤ i + n ∧ ∀ j, i ≤ j → j < times.length - 1 →
          ¬ StopLoss c.slf close side vol i j ∧ ¬ ProfitTaking c.ptf close side vol i j) := by
  obtain ⟨rows, h1, h2, h3⟩ := transform_spec h
  refine ⟨rows, h1, h2, ?_⟩
  intro i hi hv
  obtain ⟨sl, pt, hsl, hpt, hrow⟩ := h3 i hi
  obtain ⟨v, hv'⟩ := Option.ne_none_iff_exists'.1 hv
  rw [hv'] at hrow
  simp only at hrow
  have hN : 0 < times.length := by omega
  obtain ⟨w1, w2, w3⟩ := winEnd_lt (n := n) (i := i) hN
  have hend : (eventResult c.metalabeling c.expirationLabel (fun j => close.getD j none)
              (fun j => side.getD j none) times.length n i sl pt).1 =
      earliest (if i + n < times.length then some (i + n) else none) sl pt := by
    unfold eventResult
    cases earliest (if i + n < times.length then some (i + n) else none) sl pt <;> rfl
  refine ⟨_, sl, pt, hrow, hsl, hpt, by simp only [hend], ?_, ?_⟩
  · intro t ht
    simp only [hend] at ht
    obtain ⟨k, hk, rfl⟩ := Option.map_eq_some_iff.1 ht
    obtain ⟨k1, k2, k3, k4⟩ := earliest_eq_some.1 hk
    have hself := not_breach_self (side := side) h.positive hvol c.slf c.ptf i
    have hik : i < k ∧ k < times.length := by
      rcases k1 with k1 | k1 | k1
      · split at k1
        · cases k1; constructor <;> omega
        · cases k1
      · rw [k1] at hsl
        obtain ⟨a1, a2, a3, _⟩ := hsl
        have : k ≠ i := by rintro rfl; exact hself.1 a3
        omega
      · rw [k1] at hpt
        obtain ⟨a1, a2, a3, _⟩ := hpt
        have : k ≠ i := by rintro rfl; exact hself.2 a3
        omega
    refine ⟨times_lt h.sorted hik.1 hik.2, ?_⟩
    intro hlt
    have := k2 (i + n) (by rw [if_pos hlt])
    rcases Nat.lt_or_ge k (i + n) with hk' | hk'
    · exact (times_lt h.sorted hk' hlt).le
    · obtain rfl : k = i + n := by omega
      exact le_rfl
  · simp only [hend, Option.map_eq_none_iff, earliest_eq_none]
    constructor
    · rintro ⟨a1, a2, a3⟩
      have hge : times.length ≤ i + n := by
        by_contra hc
        rw [if_pos (by omega)] at a1; cases a1
      have hw : winEnd times.length n i = times.length - 1 := by unfold winEnd; rw [if_neg (by omega)]
      rw [a2, hw] at hsl
      rw [a3, hw] at hpt
      exact ⟨hge, fun j b1 b2 => ⟨hsl j b1 b2, hpt j b1 b2⟩⟩
    · rintro ⟨hge, hall⟩
      have hw : winEnd times.length n i = times.length - 1 := by unfold winEnd; rw [if_neg (by omega)]
      refine ⟨by rw [if_neg (by omega)], ?_, ?_⟩
      · cases sl with
        | none => rfl
        | some j => rw [hw] at hsl; exact absurd hsl.2.2.1 (hall j hsl.1 hsl.2.1).1
      · cases pt with
        | none => rfl
        | some j => rw [hw] at hpt; exact absurd hpt.2.2.1 (hall j hpt.1 hpt.2.1).2

/-- C27: without side column and metalabeling, with `x` the price and `v ≥ 0` the volatility at bar `i`:
if bar `k` is the first one in the window with a return above `ptf * v` (below `-slf * v`) and no bar
before it touches any barrier, the event ends at `k` with label 1 (-1); if no bar of the window touches a
barrier, the event ends at the expiration bar and the label is the sign of the return, or 0 with
`expiration_label`.  Not covered: times that are not whole milliseconds or the epoch, where it is false
(`C27_sub_millisecond_refuted`). -/
theorem C27_label_of_first_barrier_partial {dv : List ℤ → List (XF K) → List (XF K)} {c : Cfg K} {f : Frame K}
    {times : List ℤ} {close vol : List (Option K)} {n : ℕ}
    (h : LabelInput dv c f times close (List.replicate times.length (some 1)) vol n)
    (hm : c.metalabeling = false) (hvol : ∀ v, some v ∈ vol → 0 ≤ v) :
    ∃ rows, Lab.transform dv c f = .ok rows ∧
      ∀ i < times.length, ∀ x v, close.getD i none = some x → vol.getD i none = some v →
        ∃ row, rows[i]? = some row ∧
        let up (j : ℕ) : Prop := 0 < c.ptf ∧ ∃ y, close.getD j none = some y ∧ c.ptf * v < y / x - 1
        let down (j : ℕ) : Prop := 0 < c.slf ∧ ∃ y, close.getD j none = some y ∧ y / x - 1 < -(c.slf * v)
        (∀ k, i ≤ k → k < winEnd times.length n i → up k → (∀ j, i ≤ j → j < k → ¬ up j ∧ ¬ down j) →
          row.endTime = some (times.getD k 0) ∧ row.label = .fin 1) ∧
        (∀ k, i ≤ k → k < winEnd times.length n i → down k → (∀ j, i ≤ j → j < k → ¬ up j ∧ ¬ down j) →
          row.endTime = some (times.getD k 0) ∧ row.label = .fin (-1)) ∧
        (i + n < times.length → (∀ j, i ≤ j → j < i + n → ¬ up j ∧ ¬ down j) →
          row.endTime = some (times.getD (i + n) 0) ∧
          ∀ y, close.getD (i + n) none = some y → row.ret = .fin (y / x - 1) ∧
            row.label = .fin (if c.expirationLabel then 0
              else if 0 < y / x - 1 then 1 else if y / x - 1 < 0 then -1 else 0)) := by
  obtain ⟨rows, h1, h2, h3⟩ := transform_spec h
  refine ⟨rows, h1, ?_⟩
  intro i hi x v hx hv
  obtain ⟨sl, pt, hsl, hpt, hrow⟩ := h3 i hi
  rw [hv] at hrow
  simp only at hrow
  have hN : 0 < times.length := by omega
  obtain ⟨w1, w2, w3⟩ := winEnd_lt (n := n) (i := i) hN
  have hv0 : 0 ≤ v := by
    rcases Nat.lt_or_ge i vol.length with hi' | hi'
    · rw [List.getD_eq_getElem _ _ hi'] at hv; exact hvol v (hv ▸ List.getElem_mem hi')
    · rw [List.getD_eq_default _ _ hi'] at hv; cases hv
  have hs : (List.replicate times.length (some (1 : K))).getD i none = some 1 := by
    rw [List.getD_eq_getElem _ _ (by simpa using hi)]; simp
  have eup : ∀ j, ProfitTaking c.ptf close (List.replicate times.length (some 1)) vol i j ↔
      (0 < c.ptf ∧ ∃ y, close.getD j none = some y ∧ c.ptf * v < y / x - 1) := by
    intro j
    unfold ProfitTaking
    rw [hs, hx, hv]
    unfold Above ptBarrier
    cases hj : close.getD j none with
    | none => simp [sideReturn]
    | some y =>
      by_cases hp : 0 < c.ptf <;> simp [sideReturn, hp]
  have edown : ∀ j, StopLoss c.slf close (List.replicate times.length (some 1)) vol i j ↔
      (0 < c.slf ∧ ∃ y, close.getD j none = some y ∧ y / x - 1 < -(c.slf * v)) := by
    intro j
    unfold StopLoss
    rw [hs, hx, hv]
    unfold Below slBarrier
    cases hj : close.getD j none with
    | none => simp [sideReturn]
    | some y =>
      by_cases hp : 0 < c.slf <;> simp [sideReturn, hp]
  have excl : ∀ j, ¬ (ProfitTaking c.ptf close (List.replicate times.length (some 1)) vol i j ∧
      StopLoss c.slf close (List.replicate times.length (some 1)) vol i j) := by
    rintro j ⟨a, b⟩
    obtain ⟨a1, y, a2, a3⟩ := (eup j).1 a
    obtain ⟨b1, z, b2, b3⟩ := (edown j).1 b
    rw [a2] at b2; cases b2
    have := mul_nonneg a1.le hv0
    have := mul_nonneg b1.le hv0
    linarith
  refine ⟨_, hrow, ?_, ?_, ?_⟩
  · intro k k1 k2 k3 k4
    have ept : pt = some k := isFirst_unique hpt
      ⟨k1, k2, (eup k).2 k3, fun j a b hj => (k4 j a b).1 ((eup j).1 hj)⟩
    have hear : earliest (if i + n < times.length then some (i + n) else none) sl pt = some k := by
      rw [earliest_eq_some]
      refine ⟨Or.inr (Or.inr ept), ?_, ?_, ?_⟩
      · intro z hz
        split at hz
        · rename_i hlt; cases hz; rw [w3 hlt] at k2; omega
        · cases hz
      · intro z hz
        rw [hz] at hsl
        by_contra hc
        exact (k4 z hsl.1 (by omega)).2 ((edown z).1 hsl.2.2.1)
      · intro z hz; rw [ept] at hz; cases hz; exact le_rfl
    obtain ⟨p1, y, p2, p3⟩ := k3
    have hpos : 0 < y / x - 1 := by have := mul_nonneg p1.le hv0; linarith
    simp only [eventResult, hear]
    simp only [ept, eventReturn, hx, p2, hm, labelSpec, xf, Option.map_some,
      Option.isNone_some, Bool.and_false, Bool.false_eq_true, if_false, hpos, if_true, and_self]
  · intro k k1 k2 k3 k4
    have esl : sl = some k := isFirst_unique hsl
      ⟨k1, k2, (edown k).2 k3, fun j a b hj => (k4 j a b).2 ((edown j).1 hj)⟩
    have hear : earliest (if i + n < times.length then some (i + n) else none) sl pt = some k := by
      rw [earliest_eq_some]
      refine ⟨Or.inr (Or.inl esl), ?_, ?_, ?_⟩
      · intro z hz
        split at hz
        · rename_i hlt; cases hz; rw [w3 hlt] at k2; omega
        · cases hz
      · intro z hz; rw [esl] at hz; cases hz; exact le_rfl
      · intro z hz
        rw [hz] at hpt
        by_contra hc
        exact (k4 z hpt.1 (by omega)).1 ((eup z).1 hpt.2.2.1)
    obtain ⟨p1, y, p2, p3⟩ := k3
    have hneg : y / x - 1 < 0 := by have := mul_nonneg p1.le hv0; linarith
    have hnp : ¬ (0 < y / x - 1) := by linarith
    simp only [eventResult, hear]
    simp only [esl, eventReturn, hx, p2, hm, labelSpec, xf, Option.map_some,
      Option.isNone_some, Bool.and_false, Bool.false_and, Bool.false_eq_true, if_false, hneg, hnp, if_true, and_self]
  · intro hlt hno
    have esl : sl = none := isFirst_unique hsl
      (fun j a b hj => (hno j a (by rw [w3 hlt] at b; exact b)).2 ((edown j).1 hj))
    have ept : pt = none := isFirst_unique hpt
      (fun j a b hj => (hno j a (by rw [w3 hlt] at b; exact b)).1 ((eup j).1 hj))
    have hear : earliest (if i + n < times.length then some (i + n) else none) sl pt = some (i + n) := by
      rw [esl, ept, if_pos hlt]; rfl
    refine ⟨by simp only [eventResult, hear, Option.map_some], ?_⟩
    intro y hy
    simp only [eventResult, hear]
    simp only [esl, ept, eventReturn, hx, hy, hm, labelSpec, xf,
      Option.isNone_none, Bool.and_true, Bool.false_eq_true, if_false]
    cases c.expirationLabel <;> simp

/-- C28: with metalabeling, an event that ends at bar `k` has label 1 if `side * (close_k / close_i - 1)` is
positive, 0 if it is negative and NaN if it is zero or unknown; the only exception is the label 0 of an
expired event with `expiration_label`. -/
theorem C28_metalabel {dv : List ℤ → List (XF K) → List (XF K)} {c : Cfg K} {f : Frame K}
    {times : List ℤ} {close side vol : List (Option K)} {n : ℕ} (h : LabelInput dv c f times close side vol n)
    (hm : c.metalabeling = true) :
    ∃ rows, Lab.transform dv c f = .ok rows ∧
      ∀ i < times.length, ∃ row, rows[i]? = some row ∧ ∀ t, row.endTime = some t →
        ∃ k, i ≤ k ∧ k < times.length ∧ t = times.getD k 0 ∧
          ((c.expirationLabel = true ∧ k = i + n ∧ row.label = .fin 0 ∧
            ∀ j, i ≤ j → j < k → ¬ StopLoss c.slf close side vol i j ∧ ¬ ProfitTaking c.ptf close side vol i j) ∨
           match sideReturn (close.getD i none) (close.getD k none) (side.getD i none) with
           | none => row.label = .nan
           | some r => row.label = if 0 < r then .fin 1 else if r < 0 then .fin 0 else .nan) := by
  obtain ⟨rows, h1, h2, h3⟩ := transform_spec h
  refine ⟨rows, h1, ?_⟩
  intro i hi
  obtain ⟨sl, pt, hsl, hpt, hrow⟩ := h3 i hi
  refine ⟨_, hrow, ?_⟩
  intro t ht
  have hN : 0 < times.length := by omega
  obtain ⟨w1, w2, w3⟩ := winEnd_lt (n := n) (i := i) hN
  cases hv : vol.getD i none with
  | none => rw [hv] at ht; cases ht
  | some v =>
    rw [hv] at ht
    simp only [eventResult] at ht ⊢
    cases he : earliest (if i + n < times.length then some (i + n) else none) sl pt with
    | none => rw [he] at ht; cases ht
    | some k =>
      rw [he] at ht
      simp only [Option.map_some, Option.some.injEq] at ht
      obtain ⟨k1, k2, k3, k4⟩ := earliest_eq_some.1 he
      have hik : i ≤ k ∧ k < times.length := by
        rcases k1 with k1 | k1 | k1
        · split at k1
          · cases k1; constructor <;> omega
          · cases k1
        · rw [k1] at hsl; exact ⟨hsl.1, by have := hsl.2.1; omega⟩
        · rw [k1] at hpt; exact ⟨hpt.1, by have := hpt.2.1; omega⟩
      refine ⟨k, hik.1, hik.2, ht.symm, ?_⟩
      simp only
      by_cases hexp : (c.expirationLabel && sl.isNone && pt.isNone) = true
      · left
        rw [if_pos hexp]
        simp only [Bool.and_eq_true, Option.isNone_iff_eq_none] at hexp
        obtain ⟨⟨e1, e2⟩, e3⟩ := hexp
        have hk : i + n < times.length ∧ k = i + n := by
          rw [e2, e3] at k1
          rcases k1 with k1 | k1 | k1
          · split at k1
            · cases k1; exact ⟨by assumption, rfl⟩
            · cases k1
          · cases k1
          · cases k1
        refine ⟨e1, hk.2, rfl, ?_⟩
        rw [e2, w3 hk.1] at hsl
        rw [e3, w3 hk.1] at hpt
        intro j a b
        exact ⟨hsl j a (by omega), hpt j a (by omega)⟩
      · right
        rw [if_neg hexp]
        simp only [eventReturn, sideReturn, hm, if_true]
        cases close.getD i none with
        | none => simp [labelSpec, xf]
        | some x =>
          cases close.getD k none with
          | none => simp [labelSpec, xf]
          | some y =>
            cases side.getD i none with
            | none => simp [labelSpec, xf]
            | some s =>
              simp only [Option.map_some, labelSpec, if_true, mul_comm (y / x - 1) s]
              split
              · rfl
              · split <;> rfl

/-- C28 (return): an event that ends at bar `k` has the return from bar `i` to bar `k`, times the side of bar `i` with
metalabeling; an event without end has neither return nor label. -/
theorem C28_return {dv : List ℤ → List (XF K) → List (XF K)} {c : Cfg K} {f : Frame K}
    {times : List ℤ} {close side vol : List (Option K)} {n : ℕ} (h : LabelInput dv c f times close side vol n) :
    ∃ rows, Lab.transform dv c f = .ok rows ∧
      ∀ i < times.length, ∃ row, rows[i]? = some row ∧
        (row.endTime = none → row.ret = .nan ∧ row.label = .nan) ∧
        ∀ t, row.endTime = some t → ∃ k, i ≤ k ∧ k < times.length ∧ t = times.getD k 0 ∧
          row.ret = xf (sideReturn (close.getD i none) (close.getD k none)
            (if c.metalabeling then side.getD i none else some 1)) := by
  obtain ⟨rows, h1, h2, h3⟩ := transform_spec h
  refine ⟨rows, h1, ?_⟩
  intro i hi
  obtain ⟨sl, pt, hsl, hpt, hrow⟩ := h3 i hi
  refine ⟨_, hrow, ?_⟩
  have hN : 0 < times.length := by omega
  obtain ⟨w1, w2, w3⟩ := winEnd_lt (n := n) (i := i) hN
  cases hv : vol.getD i none with
  | none => exact ⟨fun _ => ⟨rfl, rfl⟩, fun t ht => by cases ht⟩
  | some v =>
    simp only [eventResult]
    cases he : earliest (if i + n < times.length then some (i + n) else none) sl pt with
    | none => exact ⟨fun _ => ⟨rfl, rfl⟩, fun t ht => by cases ht⟩
    | some k =>
      refine ⟨fun hn => (by cases hn), fun t ht => ?_⟩
      simp only [Option.map_some, Option.some.injEq] at ht
      obtain ⟨k1, k2, k3, k4⟩ := earliest_eq_some.1 he
      have hik : i ≤ k ∧ k < times.length := by
        rcases k1 with k1 | k1 | k1
        · split at k1
          · cases k1; constructor <;> omega
          · cases k1
        · rw [k1] at hsl; exact ⟨hsl.1, by have := hsl.2.1; omega⟩
        · rw [k1] at hpt; exact ⟨hpt.1, by have := hpt.2.1; omega⟩
      refine ⟨k, hik.1, hik.2, ht.symm, ?_⟩
      simp only [eventReturn, sideReturn]
      cases close.getD i none with
      | none => simp [xf]
      | some x =>
        cases close.getD k none with
        | none => simp [xf]
        | some y =>
          cases hm : c.metalabeling
          · simp [xf]
          · cases side.getD i none with
            | none => simp [xf]
            | some s => simp [xf, mul_comm]

/-- C29 (partial for metalabels: some event ends in both frames): the row of the event at bar `i` (end time, return and label) only depends on the times, on the
prices of the bars `i .. i + n`, on the side and on the volatility of bar `i`. -/
theorem C29_no_look_ahead_partial {dv dv' : List ℤ → List (XF K) → List (XF K)} {c : Cfg K} {f f' : Frame K}
    {times : List ℤ} {close close' side side' vol vol' : List (Option K)} {n : ℕ}
    (h : LabelInput dv c f times close side vol n) (h' : LabelInput dv' c f' times close' side' vol' n)
    (i : ℕ) (hi : i < times.length)
    (hclose : ∀ j, i ≤ j → j ≤ i + n → close.getD j none = close'.getD j none)
    (hside : side.getD i none = side'.getD i none) (hvol : vol.getD i none = vol'.getD i none) :
    ∃ rows rows', Lab.transform dv c f = .ok rows ∧ Lab.transform dv' c f' = .ok rows' ∧
      ∃ row, rows[i]? = some row ∧ rows'[i]? = some row := by
  obtain ⟨rows, h1, h2, h3⟩ := transform_spec h
  obtain ⟨rows', h1', h2', h3'⟩ := transform_spec h'
  refine ⟨rows, rows', h1, h1', ?_⟩
  obtain ⟨sl, pt, hsl, hpt, hrow⟩ := h3 i hi
  obtain ⟨sl', pt', hsl', hpt', hrow'⟩ := h3' i hi
  have hN : 0 < times.length := by omega
  obtain ⟨w1, w2, w3⟩ := winEnd_lt (n := n) (i := i) hN
  have esl : sl = sl' := by
    refine isFirst_unique (isFirst_congr ?_ hsl) hsl'
    intro j a b
    unfold StopLoss
    rw [hside, hvol, hclose i le_rfl (by omega), hclose j a (by omega)]
  have ept : pt = pt' := by
    refine isFirst_unique (isFirst_congr ?_ hpt) hpt'
    intro j a b
    unfold ProfitTaking
    rw [hside, hvol, hclose i le_rfl (by omega), hclose j a (by omega)]
  refine ⟨_, hrow, ?_⟩
  rw [hrow', ← esl, ← ept, ← hvol]
  congr 1
  cases vol.getD i none with
  | none => rfl
  | some v =>
    have : eventResult c.metalabeling c.expirationLabel (fun j => close'.getD j none)
              (fun j => side'.getD j none) times.length n i sl pt =
        eventResult c.metalabeling c.expirationLabel (fun j => close.getD j none)
              (fun j => side.getD j none) times.length n i sl pt := by
      unfold eventResult
      cases he : earliest (if i + n < times.length then some (i + n) else none) sl pt with
      | none => rfl
      | some k =>
        obtain ⟨k1, k2, k3, k4⟩ := earliest_eq_some.1 he
        have hik : i ≤ k ∧ k ≤ i + n := by
          rcases k1 with k1 | k1 | k1
          · split at k1
            · cases k1; constructor <;> omega
            · cases k1
          · rw [k1] at hsl; exact ⟨hsl.1, by have := hsl.2.1; omega⟩
          · rw [k1] at hpt; exact ⟨hpt.1, by have := hpt.2.1; omega⟩
        have er : eventReturn c.metalabeling (fun j => close'.getD j none) (fun j => side'.getD j none) i k =
            eventReturn c.metalabeling (fun j => close.getD j none) (fun j => side.getD j none) i k := by
          unfold eventReturn
          simp only [← hside, ← hclose i le_rfl (by omega), ← hclose k hik.1 hik.2]
        simp only [er]
    simp only [this]

/-- C30 (partial for metalabels: some event ends): a bar without volatility has no end time, no return and no label. -/
theorem C30_no_volatility_no_label_partial {dv : List ℤ → List (XF K) → List (XF K)} {c : Cfg K} {f : Frame K}
    {times : List ℤ} {close side vol : List (Option K)} {n : ℕ} (h : LabelInput dv c f times close side vol n) :
    ∃ rows, Lab.transform dv c f = .ok rows ∧
      ∀ i < times.length, vol.getD i none = none → rows[i]? = some ⟨none, .nan, .nan, .nan⟩ := by
  obtain ⟨rows, h1, h2, h3⟩ := transform_spec h
  refine ⟨rows, h1, ?_⟩
  intro i hi hv
  obtain ⟨sl, pt, hsl, hpt, hrow⟩ := h3 i hi
  rw [hv] at hrow
  exact hrow

/-- C30 (partial for metalabels: some event ends): whether other bars have a volatility does not matter for the row of bar `i`. -/
theorem C30_other_rows_partial {dv dv' : List ℤ → List (XF K) → List (XF K)} {c : Cfg K} {f f' : Frame K}
    {times : List ℤ} {close side vol vol' : List (Option K)} {n : ℕ}
    (h : LabelInput dv c f times close side vol n) (h' : LabelInput dv' c f' times close side vol' n)
    (i : ℕ) (hi : i < times.length) (hvol : vol.getD i none = vol'.getD i none) :
    ∃ rows rows', Lab.transform dv c f = .ok rows ∧ Lab.transform dv' c f' = .ok rows' ∧
      ∃ row, rows[i]? = some row ∧ rows'[i]? = some row :=
  C29_no_look_ahead_partial h h' i hi (fun _ _ _ => rfl) rfl hvol

/-- C30 (metalabels): if no event ends, `transform` raises, whether or not the bars have a volatility. -/
theorem C30_no_event_ends {dv : List ℤ → List (XF K) → List (XF K)} {c : Cfg K} {f : Frame K}
    {times : List ℤ} {close side vol : List (Option K)} {n : ℕ} (h : LabelFrame dv c f times close side vol n)
    (hm : c.metalabeling = true) :
    Lab.transform dv c f = .error .valueError ↔ ¬ SomeEventEnds times.length n (Breach c close side vol) := by
  constructor
  · intro he hs
    obtain ⟨rows, h1, -⟩ := transform_spec ⟨h, fun _ => hs⟩
    rw [he] at h1
    cases h1
  · intro hn
    rw [transform_label h]
    exact (label_spec times close side vol n c h.length_eq h.sorted h.whole_ms h.not_epoch h.positive h.factors h.nonempty).2 hm hn

/-- Three bars in seconds, with the side of a primary model, for metalabels with barriers at 10 %. -/
def shortFrame (a : ℚ) : Frame ℚ :=
  ⟨[1000000000, 2000000000, 3000000000], [("close", [.fin a, .fin 12, .fin 12]), ("side", [.fin 1, .fin 1, .fin 1])]⟩

/-- Metalabels with an expiration after `n` bars. -/
def metaCfg (volAdjusted : Bool) (n : ℤ) : Cfg ℚ := ⟨n, 1/10, 1/10, true, "close", "side", volAdjusted, false⟩

/-- C30 is false for metalabels: three bars without volatility and without expiration make the call fail; without metalabels
they are unlabelled. -/
theorem C30_metalabel_refuted :
    Lab.transform (fun _ _ => [.nan, .nan, .nan]) (metaCfg true 3) (shortFrame 12) = .error .valueError ∧
    Lab.transform (fun _ _ => [.nan, .nan, .nan]) { metaCfg true 3 with metalabeling := false } (shortFrame 12) =
      .ok [⟨none, .nan, .nan, .nan⟩, ⟨none, .nan, .nan, .nan⟩, ⟨none, .nan, .nan, .nan⟩] := by
  decide +kernel

/-- C29 is false for metalabels: the event at the second bar is open.  Its row is there as long as the event at the first bar,
whose price is not in the window of the second one, ends. -/
theorem C29_metalabel_refuted :
    Lab.transform (fun _ _ => []) (metaCfg false 3) (shortFrame 10) =
      .ok [⟨some 2000000000, .fin 1, .fin (1/5), .fin 1⟩, ⟨none, .fin 1, .nan, .nan⟩, ⟨none, .fin 1, .nan, .nan⟩] ∧
    Lab.transform (fun _ _ => []) (metaCfg false 3) (shortFrame 12) = .error .valueError := by
  decide +kernel

theorem not_has_of_col {f : Frame K} {name : String} {e : PyErr} (h : f.col name = .error e) : f.has name = false := by
  unfold Frame.col at h
  unfold Frame.has
  split at h
  · cases h
  · rename_i hn
    rw [List.find?_eq_none] at hn
    rw [List.any_eq_false]
    exact hn

/-- C31 (partial: only the default name works): of two frames with the same times and close column, the labels are the same if
the columns of the default side name are the same, or if one frame has no such column and the other one of ones (without
metalabeling; with metalabeling a missing column raises).  So no other column matters. -/
theorem C31_default_side_partial (dv : List ℤ → List (XF K) → List (XF K)) (c : Cfg K) (f f' : Frame K)
    (hname : c.sideName = SIDE) (htimes : f'.times = f.times) (hclose : f'.col c.closeName = f.col c.closeName) :
    (f'.col SIDE = f.col SIDE → Lab.transform dv c f' = Lab.transform dv c f) ∧
    (c.metalabeling = false → f.col SIDE = .error .keyError →
      f'.col SIDE = .ok (List.replicate f.times.length (.fin 1)) → Lab.transform dv c f' = Lab.transform dv c f) ∧
    (c.metalabeling = true → f.col SIDE = .error .keyError → Lab.transform dv c f = .error .assertionError) := by
  have hhas : ∀ name, f'.col name = f.col name → f'.has name = f.has name := by
    intro name h
    cases hc : f.col name with
    | ok l => rw [has_of_col hc, has_of_col (h.trans hc)]
    | error e => rw [not_has_of_col hc, not_has_of_col (h.trans hc)]
  have hcl := hhas _ hclose
  refine ⟨fun hs => ?_, fun hm hn hs => ?_, fun hm hn => ?_⟩
  · have hsd := hhas _ hs
    unfold Lab.transform checkInput sideColumn
    rw [hname, hcl, hsd, hclose, hs, htimes]
  · unfold Lab.transform checkInput sideColumn
    rw [hname, hcl, hclose, hs, htimes, hm, not_has_of_col hn, has_of_col hs]
    simp only [Bool.false_eq_true, if_false, if_true]
  · unfold Lab.transform checkInput
    rw [hname, hm, not_has_of_col hn, Bool.and_false]
    rfl

/-- C31 (partial: only the default name works): with metalabeling the returns are multiplied by the column of the default side
name. -/
theorem C31_side_used_partial {dv : List ℤ → List (XF K) → List (XF K)} {c : Cfg K} {f : Frame K}
    {times : List ℤ} {close side vol : List (Option K)} {n : ℕ} (h : LabelInput dv c f times close side vol n)
    (hm : c.metalabeling = true) :
    f.col SIDE = .ok (side.map xf) ∧ ∃ rows, Lab.transform dv c f = .ok rows ∧
      ∀ i < times.length, ∃ row, rows[i]? = some row ∧ ∀ t, row.endTime = some t → ∃ k, i ≤ k ∧ t = times.getD k 0 ∧
        row.ret = xf (sideReturn (close.getD i none) (close.getD k none) (side.getD i none)) := by
  constructor
  · rcases h.side_eq with hs | ⟨_, _, hs⟩
    · exact hs
    · rw [hm] at hs; cases hs
  · obtain ⟨rows, h1, h2⟩ := C28_return h
    refine ⟨rows, h1, fun i hi => ?_⟩
    obtain ⟨row, h3, _, h4⟩ := h2 i hi
    refine ⟨row, h3, fun t ht => ?_⟩
    obtain ⟨k, k1, _, k2, k3⟩ := h4 t ht
    rw [hm, if_pos rfl] at k3
    exact ⟨k, k1, k2, k3⟩

/-- C31 is false: with any other side column name every call raises, whatever the frame contains. -/
theorem C31_custom_side_column_refuted (dv : List ℤ → List (XF K) → List (XF K)) (c : Cfg K) (f : Frame K)
    (hname : c.sideName ≠ SIDE) :
    Lab.transform dv c f = .error .assertionError ∨ Lab.transform dv c f = .error .keyError := by
  unfold Lab.transform
  cases hc : checkInput c f with
  | error e =>
    left
    unfold checkInput at hc
    split at hc
    · split at hc
      · cases hc
      · cases hc; rfl
    · split at hc
      · cases hc
      · cases hc; rfl
  | ok u =>
    simp only
    cases hcl : f.col c.closeName with
    | error e =>
      right
      unfold Frame.col at hcl
      split at hcl
      · cases hcl
      · cases hcl; rfl
    | ok close =>
      simp only
      cases hs : sideColumn c f with
      | error e =>
        right
        unfold sideColumn at hs
        split at hs
        · unfold Frame.col at hs
          split at hs
          · cases hs
          · cases hs; rfl
        · cases hs
      | ok side => left; simp [hname]

/-- C32 (partial: only for whole-millisecond times none of which is, before or after the shift, the epoch):
adding the same whole number of milliseconds to all times adds it to every end time and changes nothing
else. -/
theorem C32_shift_partial {dv dv' : List ℤ → List (XF K) → List (XF K)} {c : Cfg K} {f f' : Frame K} (d : ℤ)
    {times : List ℤ} {close side vol : List (Option K)} {n : ℕ} (h : LabelInput dv c f times close side vol n)
    (h' : LabelInput dv' c f' (times.map (· + d)) close side vol n) :
    ∃ rows, Lab.transform dv c f = .ok rows ∧
      Lab.transform dv' c f' = .ok (rows.map fun r => { r with endTime := r.endTime.map (· + d) }) := by
  obtain ⟨rows, h1, h2, h3⟩ := transform_spec h
  obtain ⟨rows', h1', h2', h3'⟩ := transform_spec h'
  refine ⟨rows, h1, ?_⟩
  rw [h1']
  congr 1
  rw [List.length_map] at h2' h3'
  apply List.ext_getElem?
  intro i
  rcases Nat.lt_or_ge i times.length with hi | hi
  · obtain ⟨sl, pt, hsl, hpt, hrow⟩ := h3 i hi
    obtain ⟨sl', pt', hsl', hpt', hrow'⟩ := h3' i hi
    obtain rfl := isFirst_unique hsl hsl'
    obtain rfl := isFirst_unique hpt hpt'
    obtain ⟨w1, w2, w3⟩ := winEnd_lt (n := n) (i := i) (by omega : 0 < times.length)
    rw [hrow', List.getElem?_map, hrow]
    cases vol.getD i none with
    | none => rfl
    | some v =>
      simp only [Option.map_some, Option.some.injEq, Row.mk.injEq, and_true]
      unfold eventResult
      cases he : earliest (if i + n < times.length then some (i + n) else none) sl pt with
      | none => rfl
      | some k =>
        obtain ⟨k1, _⟩ := earliest_eq_some.1 he
        have hk : k < times.length := by
          rcases k1 with k1 | k1 | k1
          · split at k1
            · cases k1; assumption
            · cases k1
          · rw [k1] at hsl; have := hsl.2.1; omega
          · rw [k1] at hpt; have := hpt.2.1; omega
        simp only [Option.map_some, Option.some.injEq]
        rw [List.getD_eq_getElem _ _ (by simpa using hk), List.getD_eq_getElem _ _ hk, List.getElem_map]
  · rw [List.getElem?_eq_none (by omega), List.getElem?_eq_none (by simp; omega)]

/-- A frame on four bars one second apart. -/
def clockFrame (t0 : ℤ) (step : ℤ) : Frame ℚ :=
  ⟨[t0, t0 + step, t0 + 2 * step, t0 + 3 * step], [("close", [.fin 10, .fin 18, .fin 11, .fin 12])]⟩

def clockCfg : Cfg ℚ := ⟨2, 1/2, 1/2, false, "close", SIDE, false, false⟩

/-- C32 is false at the epoch: the profit-taking hit at time zero is taken for "no hit", so the first event
ends at its expiration bar; one second later the same bars end it at the hit. -/
theorem C32_epoch_refuted (dv : List ℤ → List (XF ℚ) → List (XF ℚ)) :
    (∃ r rs, Lab.transform dv clockCfg (clockFrame (-1000000000) 1000000000) = .ok (r :: rs) ∧
      r.endTime = some 1000000000 ∧ r.ret = .fin (1/10)) ∧
    (∃ r rs, Lab.transform dv clockCfg (clockFrame 1000000000 1000000000) = .ok (r :: rs) ∧
      r.endTime = some 2000000000 ∧ r.ret = .fin (8/10)) := by
  have e : ∀ f, Lab.transform dv clockCfg f = Lab.transform (fun _ _ => []) clockCfg f := by
    intro f; rfl
  simp only [e]
  constructor
  · refine ⟨(⟨some 1000000000, .fin 1, .fin (1/10), .fin 1⟩ : Row ℚ),
      [⟨some 2000000000, .fin 1, .fin (-1/3), .fin (-1)⟩, ⟨none, .fin 1, .nan, .nan⟩, ⟨none, .fin 1, .nan, .nan⟩], ?_, rfl, rfl⟩
    decide +kernel
  · refine ⟨(⟨some 2000000000, .fin 1, .fin (8/10), .fin 1⟩ : Row ℚ),
      [⟨some 4000000000, .fin 1, .fin (-1/3), .fin (-1)⟩, ⟨none, .fin 1, .nan, .nan⟩, ⟨none, .fin 1, .nan, .nan⟩], ?_, rfl, rfl⟩
    decide +kernel

/-- C32 is false off the millisecond grid: bars at `1 s + 1 ns` ... raise a `KeyError` because the end time is
truncated to milliseconds and then looked up among the bars. -/
theorem C32_sub_millisecond_refuted (dv : List ℤ → List (XF ℚ) → List (XF ℚ)) :
    Lab.transform dv clockCfg (clockFrame 1000000001 1000000000) = .error .keyError := by
  have e : ∀ f, Lab.transform dv clockCfg f = Lab.transform (fun _ _ => []) clockCfg f := by
    intro f; rfl
  rw [e]
  decide +kernel

/-- The hypotheses of the theorems above are met by the example frame. -/
theorem clock_input (dv : List ℤ → List (XF ℚ) → List (XF ℚ)) :
    LabelInput dv clockCfg (clockFrame 1000000000 1000000000)
      [1000000000, 2000000000, 3000000000, 4000000000] [some 10, some 18, some 11, some 12]
      (List.replicate 4 (some 1)) (List.replicate 4 (some 1)) 2 where
  times_eq := by decide
  close_eq := rfl
  name_eq := rfl
  side_eq := Or.inr ⟨by decide, rfl, rfl⟩
  vol_eq := rfl
  n_eq := rfl
  length_eq := rfl
  nonempty := by simp
  sorted := by decide
  whole_ms := by decide
  not_epoch := by decide
  positive := by simp +decide
  factors := by norm_num [clockCfg]
  ends := fun h => by cases h

example : ¬ ∀ (f : Frame ℚ), Lab.transform (fun _ _ => []) { clockCfg with sideName := "dir" } f ≠ .error .keyError := by
  intro h
  exact h ⟨[1000000000], [("close", [.fin 10]), ("side", [.fin 1])]⟩ (by decide +kernel)

/-- C27 beside: the first event of the example ends at the second bar, where its price is 80% up, with label 1. -/
example : (Lab.transform (fun _ _ => []) clockCfg (clockFrame 1000000000 1000000000)).toOption.map (·.map fun r => (r.endTime, r.label)) =
    some [(some 2000000000, .fin 1), (some 4000000000, .fin (-1)), (none, .nan), (none, .nan)] := by decide +kernel

/-- The same frame with another price of the last bar, which is after the expiration of the first event. -/
theorem clock_input_other (dv : List ℤ → List (XF ℚ) → List (XF ℚ)) :
    LabelInput dv clockCfg ⟨[1000000000, 2000000000, 3000000000, 4000000000], [("close", [.fin 10, .fin 18, .fin 11, .fin 50])]⟩
      [1000000000, 2000000000, 3000000000, 4000000000] [some 10, some 18, some 11, some 50]
      (List.replicate 4 (some 1)) (List.replicate 4 (some 1)) 2 where
  times_eq := by decide
  close_eq := rfl
  name_eq := rfl
  side_eq := Or.inr ⟨by decide, rfl, rfl⟩
  vol_eq := rfl
  n_eq := rfl
  length_eq := rfl
  nonempty := by simp
  sorted := by decide
  whole_ms := by decide
  not_epoch := by decide
  positive := by simp +decide
  factors := by norm_num [clockCfg]
  ends := fun h => by cases h

/-- C29 beside: the first row is the same with both prices. -/
example (dv : List ℤ → List (XF ℚ) → List (XF ℚ)) :
    ∃ rows rows', Lab.transform dv clockCfg (clockFrame 1000000000 1000000000) = .ok rows ∧
      Lab.transform dv clockCfg ⟨[1000000000, 2000000000, 3000000000, 4000000000], [("close", [.fin 10, .fin 18, .fin 11, .fin 50])]⟩ = .ok rows' ∧
      ∃ row, rows[0]? = some row ∧ rows'[0]? = some row :=
  C29_no_look_ahead_partial (clock_input dv) (clock_input_other dv) 0 (by decide) (by
    intro j _ hj
    have : j = 0 ∨ j = 1 ∨ j = 2 := by omega
    rcases this with rfl | rfl | rfl <;> rfl) rfl rfl

end Mizar.Props
