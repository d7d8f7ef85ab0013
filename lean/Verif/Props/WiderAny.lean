import Verif.Props.LabelAny
import Verif.Props.Wider

/-!
C110 for times that are not whole milliseconds (`/repo/mizarlabs/transformers/targets/labeling.py`).
-/

set_option linter.unusedSectionVars false

namespace Mizar.Props
open Mizar.Spec Mizar.Lab
variable {K : Type*} [Field K] [LinearOrder K] [IsStrictOrderedRing K]

private theorem AnyFrame.change' {dv : List ℤ → List (XF K) → List (XF K)} {c : Cfg K} {f : Frame K} {times : List ℤ}
    {close side vol : List (Option K)} {n : ℕ} (h : AnyFrame dv c f times close side vol n) (m : ℕ) (p s : K)
    (hf : ¬ (p < 0 ∧ s < 0)) : AnyFrame dv { c with nExp := m, ptf := p, slf := s } f times close side vol m :=
  { times_eq := h.times_eq, close_eq := h.close_eq, name_eq := h.name_eq, side_eq := h.side_eq, vol_eq := h.vol_eq,
    n_eq := rfl, length_eq := h.length_eq, nonempty := h.nonempty, sorted := h.sorted, positive := h.positive, factors := hf }

private theorem earliest_some {a b c : Option ℤ} {t : ℤ} (h : earliestTime a b c = some t) :
    (a = some t ∨ b = some t ∨ c = some t) ∧ (∀ x, a = some x ∨ b = some x ∨ c = some x → t ≤ x) := by
  unfold earliestTime at h
  rw [List.min?_eq_some_iff] at h
  simp only [List.mem_filterMap, List.mem_cons, List.not_mem_nil, or_false, id] at h
  obtain ⟨⟨o, h1, rfl⟩, h2⟩ := h
  refine ⟨by rcases h1 with h1 | h1 | h1 <;> simp [h1], fun x hx => h2 x ⟨some x, ?_, rfl⟩⟩
  rcases hx with hx | hx | hx <;> simp [hx]

private theorem earliest_of {a b c : Option ℤ} {t : ℤ} (h : a = some t ∨ b = some t ∨ c = some t) :
    ∃ x, earliestTime a b c = some x ∧ x ≤ t := by
  cases he : earliestTime a b c with
  | none =>
    unfold earliestTime at he
    rw [List.min?_eq_none_iff, List.filterMap_eq_nil_iff] at he
    exfalso
    have := he (some t) (by rcases h with h | h | h <;> simp [h])
    cases this
  | some x => exact ⟨x, rfl, (earliest_some he).2 t h⟩

/-- A wider barrier is not hit earlier, unless the narrower one is hit in the first millisecond of 1970. -/
private theorem hit_narrow {times : List ℤ} {P Q : ℕ → Prop} {i hi : ℕ} {r r' : Option ℤ} (h0 : ∀ t ∈ times, t / 1000000 ≠ 0)
    (hPQ : ∀ j, Q j → P j) (h : IsHit times P i hi r) (h' : IsHit times Q i hi r') (t' : ℤ) (ht : r' = some t') :
    ∃ t, r = some t ∧ t ≤ t' := by
  rcases h' with ⟨_, rfl⟩ | ⟨j, hj, hq, hmin, rfl⟩
  · cases ht
  · split at ht
    · cases ht
    · cases ht
      rcases h with ⟨hno, _⟩ | ⟨k, hk, hp, hmin', rfl⟩
      · exact absurd (hPQ j hq) (hno j hj)
      · rw [if_neg (h0 _ (by rw [List.getD_eq_getElem _ _ hk.1]; exact List.getElem_mem _))]
        refine ⟨_, rfl, ?_⟩
        have := hmin' j hj (hPQ j hq)
        omega

/-- **C110** (for all increasing times without a bar in the first millisecond of 1970) With the same expiration, moving the horizontal barriers
further away or switching them off never makes an event end earlier, whenever both calls return. -/
theorem C110_any_times {dv : List ℤ → List (XF K) → List (XF K)} {c : Cfg K} {f : Frame K} {times : List ℤ}
    {close side vol : List (Option K)} {n : ℕ} (h : AnyFrame dv c f times close side vol n) (h0 : ∀ t ∈ times, t / 1000000 ≠ 0)
    (hvol : ∀ v, some v ∈ vol → 0 ≤ v) (p s : K) (hp : Wider c.ptf p) (hs : Wider c.slf s) (hf : ¬ (p < 0 ∧ s < 0))
    (rows rows' : List (Row K)) (hr : Lab.transform dv c f = .ok rows)
    (hr' : Lab.transform dv { c with nExp := n, ptf := p, slf := s } f = .ok rows') (i : ℕ) (row row' : Row K)
    (hi : rows[i]? = some row) (hi' : rows'[i]? = some row') (t' : ℤ) (ht' : row'.endTime = some t') :
    ∃ t, row.endTime = some t ∧ t ≤ t' := by
  obtain ⟨sl, pt, hsp, hm⟩ := C26_any_times h
  obtain ⟨sl', pt', hsp', hm'⟩ := C26_any_times (h.change' n p s hf)
  dsimp only at hm hm'
  split at hm
  · rw [hr] at hm; cases hm
  split at hm
  · rw [hr] at hm; cases hm
  split at hm'
  · rw [hr'] at hm'; cases hm'
  split at hm'
  · rw [hr'] at hm'; cases hm'
  obtain ⟨_, h1, h2, h3⟩ := hm
  obtain ⟨_, h1', h2', h3'⟩ := hm'
  rw [hr] at h1
  rw [hr'] at h1'
  cases h1
  cases h1'
  have hlt : i < times.length := by rw [← h2]; exact (List.getElem?_eq_some_iff.1 hi).1
  obtain ⟨_, e1, e2⟩ := h3 i hlt
  obtain ⟨_, e1', e2'⟩ := h3' i hlt
  rw [hi] at e1
  rw [hi'] at e1'
  cases e1
  cases e1'
  cases hv : vol.getD i none with
  | none => rw [hv] at e2'; subst e2'; cases ht'
  | some v =>
    rw [hv] at e2 e2'
    rw [e2.1]
    rw [e2'.1] at ht'
    rcases (earliest_some ht').1 with hx | hx | hx
    · exact earliest_of (Or.inl hx)
    · obtain ⟨t, a1, a2⟩ := hit_narrow h0 (fun j hj => stopLoss_narrow hvol hs hj) (hsp i hlt).1 (hsp' i hlt).1 t' hx
      obtain ⟨x, b1, b2⟩ := earliest_of (a := if i + n < times.length then some (times.getD (i + n) 0) else none) (c := pt i) (Or.inr (Or.inl a1))
      exact ⟨x, b1, by omega⟩
    · obtain ⟨t, a1, a2⟩ := hit_narrow h0 (fun j hj => profitTaking_narrow hvol hp hj) (hsp i hlt).2 (hsp' i hlt).2 t' hx
      obtain ⟨x, b1, b2⟩ := earliest_of (a := if i + n < times.length then some (times.getD (i + n) 0) else none) (b := sl i) (Or.inr (Or.inr a1))
      exact ⟨x, b1, by omega⟩

private theorem hit_longer {times : List ℤ} {P : ℕ → Prop} {i hi hi' : ℕ} {r r' : Option ℤ}
    (hh : times.getD hi 0 / 1000000 ≤ times.getD hi' 0 / 1000000) (h : IsHit times P i hi r) (h' : IsHit times P i hi' r') :
    r' = r ∨ r = none ∧ ∀ t', r' = some t' → times.getD hi 0 / 1000000 * 1000000 ≤ t' := by
  rcases h with ⟨hno, rfl⟩ | ⟨k, hk, hp, hmin, rfl⟩
  · refine Or.inr ⟨rfl, fun t' ht' => ?_⟩
    rcases h' with ⟨_, rfl⟩ | ⟨j, hj, hq, _, rfl⟩
    · cases ht'
    · split at ht'
      · cases ht'
      · cases ht'
        by_contra hc
        exact hno j ⟨hj.1, hj.2.1, by omega⟩ hq
  · refine Or.inl ?_
    have hk' : InMs times i hi' k := ⟨hk.1, hk.2.1, by have := hk.2.2; omega⟩
    rcases h' with ⟨hno, rfl⟩ | ⟨j, hj, hq, hmin', rfl⟩
    · exact absurd hp (hno k hk')
    · have a1 := hmin' k hk' hp
      have a2 := hmin j ⟨hj.1, hj.2.1, by have := hk.2.2; omega⟩ hq
      rw [le_antisymm a1 a2]

/-- **C110** (for all increasing times) An event that ended at a horizontal barrier, that is before its expiration bar, does not change at all when
the expiration is moved further away, whenever both calls return. -/
theorem C110_longer_any_times {dv : List ℤ → List (XF K) → List (XF K)} {c : Cfg K} {f : Frame K} {times : List ℤ}
    {close side vol : List (Option K)} {n : ℕ} (h : AnyFrame dv c f times close side vol n) (m : ℕ) (hnm : n ≤ m)
    (rows rows' : List (Row K)) (hr : Lab.transform dv c f = .ok rows) (hr' : Lab.transform dv { c with nExp := m } f = .ok rows')
    (i : ℕ) (row : Row K) (hi : rows[i]? = some row) (t : ℤ) (ht : row.endTime = some t) (hexp : ∀ e, times[i + n]? = some e → t < e) :
    rows'[i]? = some row := by
  obtain ⟨sl, pt, hsp, hm⟩ := C26_any_times h
  obtain ⟨sl', pt', hsp', hm'⟩ := C26_any_times (h.change' m c.ptf c.slf h.factors)
  dsimp only at hm hm'
  split at hm
  · rw [hr] at hm; cases hm
  split at hm
  · rw [hr] at hm; cases hm
  split at hm'
  · rw [hr'] at hm'; cases hm'
  split at hm'
  · rw [hr'] at hm'; cases hm'
  rename_i hnk _ _
  obtain ⟨_, h1, h2, h3⟩ := hm
  obtain ⟨_, h1', h2', h3'⟩ := hm'
  rw [hr] at h1
  rw [hr'] at h1'
  cases h1
  cases h1'
  have hlt : i < times.length := by rw [← h2]; exact (List.getElem?_eq_some_iff.1 hi).1
  obtain ⟨_, e1, e2⟩ := h3 i hlt
  obtain ⟨row', e1', e2'⟩ := h3' i hlt
  rw [hi] at e1
  cases e1
  rw [e1']
  congr 1
  cases hv : vol.getD i none with
  | none => rw [hv] at e2; subst e2; cases ht
  | some v =>
    rw [hv] at e2 e2'
    obtain ⟨a1, a2, a3, a4⟩ := e2
    obtain ⟨b1, b2, b3, b4⟩ := e2'
    rw [a1] at ht
    have hmono : ∀ a b, a ≤ b → b < times.length → times.getD a 0 ≤ times.getD b 0 := by
      intro a b hab hb
      rcases Nat.lt_or_ge a b with hlt' | hge
      · exact (times_lt h.sorted hlt' hb).le
      · rw [le_antisymm hab hge]
    have hN : 0 < times.length := by omega
    have hw : times.getD (winEnd times.length n i) 0 / 1000000 ≤ times.getD (winEnd times.length m i) 0 / 1000000 := by
      apply Int.ediv_le_ediv (by norm_num)
      apply hmono _ _ _ (winEnd_lt hN).1
      unfold winEnd
      split_ifs <;> omega
    have hS := hit_longer hw (hsp i hlt).1 (hsp' i hlt).1
    have hP := hit_longer hw (hsp i hlt).2 (hsp' i hlt).2
    have hnexp : ¬ (if i + n < times.length then some (times.getD (i + n) 0) else none) = some t := by
      intro hc
      split at hc
      · rename_i hin
        cases hc
        have := hexp (times.getD (i + n) 0) (by rw [List.getD_eq_getElem _ _ hin, List.getElem?_eq_getElem hin])
        omega
      · cases hc
    -- the hit is a whole millisecond before the expiration
    have htw : ∀ P r, IsHit times P i (winEnd times.length n i) r → r = some t →
        t < times.getD (winEnd times.length n i) 0 / 1000000 * 1000000 := by
      intro P r hh hrt
      rcases hh with ⟨_, rfl⟩ | ⟨j, hj, _, _, rfl⟩
      · cases hrt
      · split at hrt
        · cases hrt
        · cases hrt
          have := hj.2.2
          omega
    have hsome : sl i = some t ∨ pt i = some t := by
      rcases (earliest_some ht).1 with hx | hx | hx
      · exact absurd hx hnexp
      · exact Or.inl hx
      · exact Or.inr hx
    have htW : t < times.getD (winEnd times.length n i) 0 / 1000000 * 1000000 := by
      rcases hsome with hx | hx
      · exact htw _ _ (hsp i hlt).1 hx
      · exact htw _ _ (hsp i hlt).2 hx
    have hsome' : sl' i = some t ∨ pt' i = some t := by
      rcases hsome with hx | hx
      · rcases hS with hS | ⟨hS, _⟩
        · exact Or.inl (hS.trans hx)
        · rw [hx] at hS; cases hS
      · rcases hP with hP | ⟨hP, _⟩
        · exact Or.inr (hP.trans hx)
        · rw [hx] at hP; cases hP
    have hends : earliestTime (if i + m < times.length then some (times.getD (i + m) 0) else none) (sl' i) (pt' i) = some t := by
      obtain ⟨x, c1, c2⟩ := earliest_of (a := if i + m < times.length then some (times.getD (i + m) 0) else none)
        (b := sl' i) (c := pt' i) (Or.inr hsome')
      rw [c1]
      congr 1
      refine le_antisymm c2 ?_
      rcases (earliest_some c1).1 with hx | hx | hx
      · split at hx
        · rename_i him
          cases hx
          have d1 := (earliest_some ht).2 (times.getD (i + n) 0) (Or.inl (if_pos (by omega)))
          have d2 := hmono (i + n) (i + m) (by omega) him
          omega
        · cases hx
      · rcases hS with hS | ⟨_, hS⟩
        · rw [hS] at hx
          exact (earliest_some ht).2 x (Or.inr (Or.inl hx))
        · have := hS x hx
          omega
      · rcases hP with hP | ⟨_, hP⟩
        · rw [hP] at hx
          exact (earliest_some ht).2 x (Or.inr (Or.inr hx))
        · have := hP x hx
          omega
    have htm : t ∈ times := by
      by_contra hc
      exact hnk ⟨i, hlt, t, ht, hc⟩
    obtain ⟨k, hk, rfl⟩ := List.mem_iff_getElem.1 htm
    have hkD : times[k] = times.getD k 0 := by rw [List.getD_eq_getElem _ _ hk]
    rw [hkD] at ht hends
    obtain ⟨u1, u2⟩ := a4 k hk ht
    obtain ⟨w1, w2⟩ := b4 k hk hends
    have hf1 : (c.expirationLabel && (sl i).isNone && (pt i).isNone) = false := by
      rcases hsome with hx | hx <;> simp [hx]
    have hf2 : (c.expirationLabel && (sl' i).isNone && (pt' i).isNone) = false := by
      rcases hsome' with hx | hx <;> simp [hx]
    rw [hf1] at u2
    rw [hf2] at w2
    obtain ⟨r1, r2, r3, r4⟩ := row
    obtain ⟨q1, q2, q3, q4⟩ := row'
    dsimp only at *
    rw [a1, ht, a2, u1, u2, b1, hends, b2, w1, w2]

example (dv : List ℤ → List (XF ℚ) → List (XF ℚ)) (rows rows' : List (Row ℚ)) (row row' : Row ℚ)
    (hr : Lab.transform dv clockCfg (subMsFrame 10 10 18) = .ok rows)
    (hr' : Lab.transform dv { clockCfg with nExp := (2 : ℕ), ptf := 1, slf := 1/2 } (subMsFrame 10 10 18) = .ok rows') :=
  C110_any_times (sub_ms_input dv) (by decide) (by intro v hv; rw [List.eq_of_mem_replicate hv |> Option.some.inj]; norm_num) 1 (1/2)
    (by unfold Wider; norm_num [clockCfg]) (by unfold Wider; norm_num [clockCfg]) (by norm_num) rows rows' hr hr' 1 row row'

example (dv : List ℤ → List (XF ℚ) → List (XF ℚ)) :
    let f : Frame ℚ := ⟨[1000000, 2000000, 3500000, 4000000], [("close", [.fin 10, .fin 18, .fin 10, .fin 12])]⟩
    ∃ rows', Lab.transform dv { clockCfg with nExp := (3 : ℕ) } f = .ok rows' ∧
      rows'[0]? = some ⟨some 2000000, .fin 1, .fin (4/5), .fin 1⟩ := by
  intro f
  have e : ∀ n, Lab.transform dv { clockCfg with nExp := n } f =
      Lab.transform (fun _ _ => []) { clockCfg with nExp := n } f := by
    intro p; rfl
  have hI : AnyFrame dv clockCfg f [1000000, 2000000, 3500000, 4000000] [some 10, some 18, some 10, some 12]
      (List.replicate 4 (some 1)) (List.replicate 4 (some 1)) 2 :=
    { times_eq := rfl, close_eq := rfl, name_eq := rfl, side_eq := Or.inr ⟨by decide, rfl, rfl⟩, vol_eq := rfl, n_eq := rfl
      length_eq := rfl, nonempty := by decide, sorted := by decide
      positive := by
        intro x hx
        simp only [List.mem_cons, Option.some.injEq, List.not_mem_nil, or_false] at hx
        rcases hx with rfl | rfl | rfl | rfl <;> norm_num
      factors := by norm_num [clockCfg] }
  have h2 : Lab.transform dv clockCfg f = .ok [⟨some 2000000, .fin 1, .fin (4/5), .fin 1⟩, ⟨some 4000000, .fin 1, .fin (-1/3), .fin (-1)⟩,
      ⟨none, .fin 1, .nan, .nan⟩, ⟨none, .fin 1, .nan, .nan⟩] := (e 2).trans (by decide +kernel)
  have h3 : Lab.transform dv { clockCfg with nExp := (3 : ℕ) } f = .ok [⟨some 2000000, .fin 1, .fin (4/5), .fin 1⟩, ⟨none, .fin 1, .nan, .nan⟩,
      ⟨none, .fin 1, .nan, .nan⟩, ⟨none, .fin 1, .nan, .nan⟩] := (e 3).trans (by decide +kernel)
  exact ⟨_, h3, C110_longer_any_times hI 3 (by omega) _ _ h2 h3 0 _ rfl 2000000 rfl (by
    intro x hx
    have : (3500000 : ℤ) = x := Option.some.inj hx
    omega)⟩

/-- C110 is false at the epoch: with a profit-taking factor of 1/2 the hit at the epoch is lost and the event ends at its expiration; with factor 1
the hit comes one second later and the event ends there, before its expiration. -/
theorem C110_epoch_refuted (dv : List ℤ → List (XF ℚ) → List (XF ℚ)) :
    let f : Frame ℚ := ⟨[-1000000000, 0, 1000000000, 2000000000], [("close", [.fin 10, .fin 18, .fin 30, .fin 12])]⟩
    ∃ rows rows' row row', Lab.transform dv { clockCfg with nExp := 3 } f = .ok rows ∧
      Lab.transform dv { clockCfg with nExp := 3, ptf := 1 } f = .ok rows' ∧ Wider clockCfg.ptf 1 ∧
      rows[0]? = some row ∧ rows'[0]? = some row' ∧ row.endTime = some 2000000000 ∧ row'.endTime = some 1000000000 := by
  intro f
  have e : ∀ p, Lab.transform dv { clockCfg with nExp := 3, ptf := p } f =
      Lab.transform (fun _ _ => []) { clockCfg with nExp := 3, ptf := p } f := by
    intro p; rfl
  refine ⟨[⟨some 2000000000, .fin 1, .fin (1/5), .fin 1⟩, ⟨some 1000000000, .fin 1, .fin (2/3), .fin 1⟩, ⟨none, .fin 1, .nan, .nan⟩,
      ⟨none, .fin 1, .nan, .nan⟩],
    [⟨some 1000000000, .fin 1, .fin 2, .fin 1⟩, ⟨none, .fin 1, .nan, .nan⟩, ⟨none, .fin 1, .nan, .nan⟩,
      ⟨none, .fin 1, .nan, .nan⟩], _, _, (e _).trans ?_, (e _).trans ?_, by unfold Wider; norm_num [clockCfg], rfl, rfl, rfl, rfl⟩
  · decide +kernel
  · decide +kernel

/-- C110 is false for bars inside a millisecond: with one more bar until the expiration the event ends half a millisecond earlier. -/
theorem C110_sub_millisecond_refuted (dv : List ℤ → List (XF ℚ) → List (XF ℚ)) :
    let f : Frame ℚ := ⟨[1000000, 2000000, 2500000, 4000000], [("close", [.fin 10, .fin 10, .fin 18, .fin 12])]⟩
    ∃ rows rows' row row', Lab.transform dv clockCfg f = .ok rows ∧ Lab.transform dv { clockCfg with nExp := 3 } f = .ok rows' ∧
      rows[0]? = some row ∧ rows'[0]? = some row' ∧ row.endTime = some 2500000 ∧ row'.endTime = some 2000000 := by
  intro f
  have e : ∀ n, Lab.transform dv { clockCfg with nExp := n } f =
      Lab.transform (fun _ _ => []) { clockCfg with nExp := n } f := by
    intro p; rfl
  refine ⟨[⟨some 2500000, .fin 1, .fin (4/5), .fin 1⟩, ⟨some 2000000, .fin 1, .fin 0, .fin 0⟩, ⟨none, .fin 1, .nan, .nan⟩,
      ⟨none, .fin 1, .nan, .nan⟩],
    [⟨some 2000000, .fin 1, .fin 0, .fin 0⟩, ⟨some 2000000, .fin 1, .fin 0, .fin 0⟩, ⟨none, .fin 1, .nan, .nan⟩,
      ⟨none, .fin 1, .nan, .nan⟩], _, _, (e 2).trans ?_, (e 3).trans ?_, rfl, rfl, rfl, rfl⟩
  · decide +kernel
  · decide +kernel

end Mizar.Props
