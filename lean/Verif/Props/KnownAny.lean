import Verif.Props.LabelAnyMore
import Verif.Props.KnownAtEnd

/-!
Property theorem C116 for times that are not whole milliseconds (`/repo/mizarlabs/transformers/targets/labeling.py`).
-/

set_option linter.unusedSectionVars false

namespace Mizar.Props
open Mizar.Spec Mizar.Lab
variable {K : Type*} [Field K] [LinearOrder K] [IsStrictOrderedRing K]

private theorem earliest_some {a b c : Option ℤ} {t : ℤ} : earliestTime a b c = some t ↔
    (a = some t ∨ b = some t ∨ c = some t) ∧ (∀ u, a = some u → t ≤ u) ∧ (∀ u, b = some u → t ≤ u) ∧ ∀ u, c = some u → t ≤ u := by
  unfold earliestTime
  rw [List.min?_eq_some_iff]
  simp only [List.mem_filterMap, List.mem_cons, List.not_mem_nil, or_false, id]
  constructor
  · rintro ⟨⟨o, h1, h2⟩, h3⟩
    refine ⟨?_, fun u hu => h3 u ⟨a, Or.inl rfl, hu⟩, fun u hu => h3 u ⟨b, Or.inr (Or.inl rfl), hu⟩,
      fun u hu => h3 u ⟨c, Or.inr (Or.inr rfl), hu⟩⟩
    rcases h1 with rfl | rfl | rfl
    · exact Or.inl h2
    · exact Or.inr (Or.inl h2)
    · exact Or.inr (Or.inr h2)
  · rintro ⟨h1, h2, h3, h4⟩
    refine ⟨?_, ?_⟩
    · rcases h1 with h1 | h1 | h1
      · exact ⟨a, Or.inl rfl, h1⟩
      · exact ⟨b, Or.inr (Or.inl rfl), h1⟩
      · exact ⟨c, Or.inr (Or.inr rfl), h1⟩
    · rintro u ⟨o, rfl | rfl | rfl, ho⟩
      · exact h2 u ho
      · exact h3 u ho
      · exact h4 u ho

/-- Hits in frames that agree up to the millisecond `m`: the same if one of them is not after it, otherwise both later. -/
private theorem isHit_upto {times times' : List ℤ} {P Q : ℕ → Prop} {i hi hi' : ℕ} {r r' : Option ℤ} (m : ℤ)
    (hw : ∀ j, (InMs times i hi j ∧ times.getD j 0 / 1000000 ≤ m) ↔ (InMs times' i hi' j ∧ times'.getD j 0 / 1000000 ≤ m))
    (ht : ∀ j, InMs times i hi j → times.getD j 0 / 1000000 ≤ m → times.getD j 0 = times'.getD j 0)
    (hPQ : ∀ j, InMs times i hi j → times.getD j 0 / 1000000 ≤ m → (P j ↔ Q j))
    (h : IsHit times P i hi r) (h' : IsHit times' Q i hi' r') :
    r' = r ∨ ((∀ u, r = some u → (m + 1) * 1000000 ≤ u) ∧ ∀ u, r' = some u → (m + 1) * 1000000 ≤ u) := by
  by_cases hex : ∃ j, InMs times i hi j ∧ times.getD j 0 / 1000000 ≤ m ∧ P j
  · obtain ⟨j, j1, j2, j3⟩ := hex
    obtain ⟨j1', j2'⟩ := (hw j).1 ⟨j1, j2⟩
    have j3' := (hPQ j j1 j2).1 j3
    rcases h with ⟨a1, rfl⟩ | ⟨k, hk, hp, hmin, rfl⟩
    · exact absurd j3 (a1 j j1)
    rcases h' with ⟨b1, rfl⟩ | ⟨k', hk', hq, hmin', rfl⟩
    · exact absurd j3' (b1 j j1')
    left
    have l1 : times.getD k 0 / 1000000 ≤ m := (hmin j j1 j3).trans j2
    have l2 : times'.getD k' 0 / 1000000 ≤ m := (hmin' j j1' j3').trans j2'
    obtain ⟨x1, x2⟩ := (hw k').2 ⟨hk', l2⟩
    obtain ⟨y1, y2⟩ := (hw k).1 ⟨hk, l1⟩
    have e1 := hmin k' x1 ((hPQ k' x1 x2).2 hq)
    have e2 := hmin' k y1 ((hPQ k hk l1).1 hp)
    rw [← ht k hk l1] at e2
    rw [ht k' x1 x2] at e1
    rw [le_antisymm e2 e1]
  · right
    constructor
    · intro u hu
      rcases h with ⟨_, rfl⟩ | ⟨k, hk, hp, _, rfl⟩
      · cases hu
      · split at hu
        · cases hu
        · have : m < times.getD k 0 / 1000000 := by
            by_contra hc
            exact hex ⟨k, hk, not_lt.1 hc, hp⟩
          have := Option.some.inj hu
          omega
    · intro u hu
      rcases h' with ⟨_, rfl⟩ | ⟨k, hk, hq, _, rfl⟩
      · cases hu
      · split at hu
        · cases hu
        · have : m < times'.getD k 0 / 1000000 := by
            by_contra hc
            obtain ⟨x1, x2⟩ := (hw k).2 ⟨hk, not_lt.1 hc⟩
            exact hex ⟨k, x1, x2, (hPQ k x1 x2).2 hq⟩
          have := Option.some.inj hu
          omega

private theorem ms_mono {times : List ℤ} (hs : times.Pairwise (· < ·)) {a b : ℕ} (hab : a ≤ b) (hb : b < times.length) :
    times.getD a 0 / 1000000 ≤ times.getD b 0 / 1000000 := by
  apply Int.ediv_le_ediv (by norm_num)
  rcases Nat.lt_or_ge a b with h | h
  · exact (times_lt hs h hb).le
  · rw [le_antisymm hab h]

/-- **C116** (for all increasing times) The end, return and label of an event are decided by the bars up to the end of the *millisecond* of its
end `t`: two frames that share their first `m` bars, among them all bars up to that millisecond, and the side and the volatility of bar `i`, give
the same row, if both calls return and the event ends at its expiration or the other frame has a further bar. -/
theorem C116_any_times {dv dv' : List ℤ → List (XF K) → List (XF K)} {c : Cfg K} {f f' : Frame K}
    {times times' : List ℤ} {close close' side side' vol vol' : List (Option K)} {n : ℕ}
    (h : AnyFrame dv c f times close side vol n) (h' : AnyFrame dv' c f' times' close' side' vol' n)
    (i m : ℕ) (t : ℤ) (ht : times.take m = times'.take m) (hc : close.take m = close'.take m)
    (hm : ∀ j < times.length, times.getD j 0 / 1000000 ≤ t / 1000000 → j < m)
    (hm' : ∀ j < times'.length, times'.getD j 0 / 1000000 ≤ t / 1000000 → j < m)
    (hside : side.getD i none = side'.getD i none) (hvol : vol.getD i none = vol'.getD i none)
    (hlast : (i + n < times.length ∧ t = times.getD (i + n) 0) ∨ m < times'.length)
    (rows rows' : List (Row K)) (row : Row K) (hr : Lab.transform dv c f = .ok rows) (hr' : Lab.transform dv' c f' = .ok rows')
    (hi : rows[i]? = some row) (hend : row.endTime = some t) : rows'[i]? = some row := by
  obtain ⟨sl, pt, hsp, hx⟩ := C26_any_times h
  obtain ⟨sl', pt', hsp', hx'⟩ := C26_any_times h'
  dsimp only at hx hx'
  split at hx
  · rw [hr] at hx; cases hx
  split at hx
  · rw [hr] at hx; cases hx
  split at hx'
  · rw [hr'] at hx'; cases hx'
  split at hx'
  · rw [hr'] at hx'; cases hx'
  rename_i hnk _ _
  obtain ⟨_, h1, h2, h3⟩ := hx
  obtain ⟨_, h1', h2', h3'⟩ := hx'
  rw [hr] at h1
  rw [hr'] at h1'
  cases h1
  cases h1'
  have hil : i < times.length := by
    rw [← h2]; exact (List.getElem?_eq_some_iff.1 hi).1
  obtain ⟨row0, e1, e2⟩ := h3 i hil
  rw [hi] at e1
  cases e1
  have hT : ∀ j < m, times.getD j 0 = times'.getD j 0 := fun j hj => getD_of_take ht hj 0
  have hC : ∀ j < m, close.getD j none = close'.getD j none := fun j hj => getD_of_take hc hj none
  have hlen : ∀ j < m, (j < times.length ↔ j < times'.length) := by
    intro j hj
    have := congrArg (fun l => l[j]?) ht
    simp only [List.getElem?_take, if_pos hj] at this
    rw [← not_le, ← not_le, ← List.getElem?_eq_none_iff, ← List.getElem?_eq_none_iff, this]
  cases hv : vol.getD i none with
  | none =>
    rw [hv] at e2
    dsimp only at e2
    rw [e2] at hend
    cases hend
  | some v =>
    rw [hv] at e2
    dsimp only at e2
    obtain ⟨a1, a2, a3, a4⟩ := e2
    rw [hend] at a1
    have hE := a1.symm
    obtain ⟨b1, b2, b3, b4⟩ := earliest_some.1 hE
    have hN : 0 < times.length := by omega
    obtain ⟨w1, w2, w3⟩ := winEnd_lt (n := n) (i := i) hN
    -- the millisecond of the event is not after that of its end
    have hit_ms : ∀ P r, IsHit times P i (winEnd times.length n i) r → r = some t →
        times.getD i 0 / 1000000 ≤ t / 1000000 ∧ t / 1000000 < times.getD (winEnd times.length n i) 0 / 1000000 := by
      intro P r hh hrt
      rcases hh with ⟨_, rfl⟩ | ⟨j, hj, _, _, rfl⟩
      · cases hrt
      · split at hrt
        · cases hrt
        · have := Option.some.inj hrt
          have := hj.2.1
          have := hj.2.2
          omega
    have hcase : (i + n < times.length ∧ t = times.getD (i + n) 0) ∨
        (t / 1000000 < times.getD (winEnd times.length n i) 0 / 1000000 ∧ (sl i = some t ∨ pt i = some t)) := by
      rcases b1 with b1 | b1 | b1
      · split at b1
        · rename_i hin
          exact Or.inl ⟨hin, (Option.some.inj b1).symm⟩
        · cases b1
      · exact Or.inr ⟨(hit_ms _ _ (hsp i hil).1 b1).2, Or.inl b1⟩
      · exact Or.inr ⟨(hit_ms _ _ (hsp i hil).2 b1).2, Or.inr b1⟩
    have hims : times.getD i 0 / 1000000 ≤ t / 1000000 := by
      rcases b1 with b1 | b1 | b1
      · split at b1
        · rename_i hin
          rw [← Option.some.inj b1]
          exact ms_mono h.sorted (by omega) hin
        · cases b1
      · exact (hit_ms _ _ (hsp i hil).1 b1).1
      · exact (hit_ms _ _ (hsp i hil).2 b1).1
    have him : i < m := hm i hil hims
    have hil' : i < times'.length := (hlen i him).1 hil
    have hN' : 0 < times'.length := by omega
    obtain ⟨w1', w2', w3'⟩ := winEnd_lt (n := n) (i := i) hN'
    -- the two windows agree up to the millisecond of the end
    have hupper : ∀ j, j < m → times.getD j 0 / 1000000 ≤ t / 1000000 →
        (times.getD j 0 / 1000000 < times.getD (winEnd times.length n i) 0 / 1000000 ↔
          times.getD j 0 / 1000000 < times'.getD (winEnd times'.length n i) 0 / 1000000) := by
      intro j hj hjt
      rcases Nat.lt_or_ge (i + n) m with hinm | hinm
      · by_cases hin : i + n < times.length
        · have hin' := (hlen _ hinm).1 hin
          rw [w3 hin, w3' hin', hT _ hinm]
        · have hin' : ¬ i + n < times'.length := fun hx => hin ((hlen _ hinm).2 hx)
          have : ¬ m < times'.length := by omega
          rcases hlast with hl | hl
          · exact absurd hl.1 hin
          · exact absurd hl this
      · have hmn : ∀ (T : List ℤ) (w : ℕ), (∀ j < T.length, T.getD j 0 / 1000000 ≤ t / 1000000 → j < m) → w < T.length → m ≤ w →
            t / 1000000 < T.getD w 0 / 1000000 := by
          intro T w hT' hw hmw
          by_contra hcon
          have := hT' w hw (not_lt.1 hcon)
          omega
        have hexp : ¬ (i + n < times.length ∧ t = times.getD (i + n) 0) := by
          rintro ⟨hin, rfl⟩
          have := hm _ hin le_rfl
          omega
        have hl : m < times'.length := by
          rcases hlast with hl | hl
          · exact absurd hl hexp
          · exact hl
        have hb : t / 1000000 < times.getD (winEnd times.length n i) 0 / 1000000 := by
          rcases hcase with hl | hl
          · exact absurd hl hexp
          · exact hl.1
        have hb' : t / 1000000 < times'.getD (winEnd times'.length n i) 0 / 1000000 := by
          apply hmn times' _ hm' w1'
          unfold winEnd
          split <;> omega
        constructor <;> intro _ <;> omega
    have hwin : ∀ j, (InMs times i (winEnd times.length n i) j ∧ times.getD j 0 / 1000000 ≤ t / 1000000) ↔
        (InMs times' i (winEnd times'.length n i) j ∧ times'.getD j 0 / 1000000 ≤ t / 1000000) := by
      intro j
      constructor
      · rintro ⟨⟨j1, j2, j3⟩, j4⟩
        have hj := hm j j1 j4
        refine ⟨⟨(hlen j hj).1 j1, ?_, ?_⟩, ?_⟩
        · rw [← hT j hj, ← hT i him]; exact j2
        · rw [← hT j hj]; exact (hupper j hj j4).1 j3
        · rw [← hT j hj]; exact j4
      · rintro ⟨⟨j1, j2, j3⟩, j4⟩
        have hj := hm' j j1 j4
        rw [← hT j hj, ← hT i him] at j2
        rw [← hT j hj] at j3 j4
        exact ⟨⟨(hlen j hj).2 j1, j2, (hupper j hj j4).2 j3⟩, j4⟩
    have hS := isHit_upto (t / 1000000) hwin (fun j j1 j2 => hT j (hm j j1.1 j2)) (fun j j1 j2 => by
      unfold StopLoss
      rw [hC i him, hC j (hm j j1.1 j2), hside, hvol]) (hsp i hil).1 (hsp' i hil').1
    have hP := isHit_upto (t / 1000000) hwin (fun j j1 j2 => hT j (hm j j1.1 j2)) (fun j j1 j2 => by
      unfold ProfitTaking
      rw [hC i him, hC j (hm j j1.1 j2), hside, hvol]) (hsp i hil).2 (hsp' i hil').2
    have hlt : t < (t / 1000000 + 1) * 1000000 := by omega
    have hhit : ∀ {r r' : Option ℤ}, (r' = r ∨ ((∀ u, r = some u → (t / 1000000 + 1) * 1000000 ≤ u) ∧
        ∀ u, r' = some u → (t / 1000000 + 1) * 1000000 ≤ u)) → (∀ u, r = some u → t ≤ u) → (r = some t → r' = some t) ∧ ∀ u, r' = some u → t ≤ u := by
      intro r r' hrr hle
      rcases hrr with rfl | ⟨g1, g2⟩
      · exact ⟨id, hle⟩
      · refine ⟨fun e => ?_, fun u hu => ?_⟩
        · have := g1 t e; omega
        · have := g2 u hu; omega
    obtain ⟨s1, s2⟩ := hhit hS b3
    obtain ⟨p1, p2⟩ := hhit hP b4
    have hexp1 : (if i + n < times.length then some (times.getD (i + n) 0) else none) = some t →
        (if i + n < times'.length then some (times'.getD (i + n) 0) else none) = some t := by
      intro e
      split at e
      · rename_i hin
        have e' := Option.some.inj e
        have hinm := hm (i + n) hin (by rw [e'])
        rw [if_pos ((hlen _ hinm).1 hin), ← hT _ hinm, e']
      · cases e
    have hexp2 : ∀ u, (if i + n < times'.length then some (times'.getD (i + n) 0) else none) = some u → t ≤ u := by
      intro u e
      split at e
      · rename_i hin'
        have e' := Option.some.inj e
        by_cases hu : u / 1000000 ≤ t / 1000000
        · have hinm := hm' (i + n) hin' (by rw [e']; exact hu)
          apply b2
          rw [if_pos ((hlen _ hinm).2 hin'), hT _ hinm, e']
        · omega
      · cases e
    have hE' : earliestTime (if i + n < times'.length then some (times'.getD (i + n) 0) else none) (sl' i) (pt' i) = some t := by
      refine earliest_some.2 ⟨?_, hexp2, s2, p2⟩
      rcases b1 with b1 | b1 | b1
      · exact Or.inl (hexp1 b1)
      · exact Or.inr (Or.inl (s1 b1))
      · exact Or.inr (Or.inr (p1 b1))
    have htm : t ∈ times := by
      by_contra hcon
      exact hnk ⟨i, hil, t, hE, hcon⟩
    obtain ⟨k, hk, hkt⟩ := List.mem_iff_getElem.1 htm
    have hkD : times.getD k 0 = t := by rw [List.getD_eq_getElem _ _ hk, hkt]
    have hkm : k < m := hm k hk (by rw [hkD])
    have hk' : k < times'.length := (hlen k hkm).1 hk
    obtain ⟨row', f1, f2⟩ := h3' i hil'
    rw [f1]
    congr 1
    rw [← hvol, hv] at f2
    dsimp only at f2
    obtain ⟨c1, c2, c3, c4⟩ := f2
    obtain ⟨u1, u2⟩ := a4 k hk (by rw [hkD]; exact hE)
    obtain ⟨v1, v2⟩ := c4 k hk' (by rw [← hT k hkm, hkD]; exact hE')
    have hret : eventReturn c.metalabeling (fun j => close'.getD j none) (fun j => side'.getD j none) i k =
        eventReturn c.metalabeling (fun j => close.getD j none) (fun j => side.getD j none) i k := by
      unfold eventReturn
      simp only [← hC i him, ← hC k hkm, ← hside]
    have hnone : ((sl' i).isNone && (pt' i).isNone) = ((sl i).isNone && (pt i).isNone) := by
      rcases hcase with ⟨hin, rfl⟩ | ⟨_, hh⟩
      · have hinm := hm (i + n) hin le_rfl
        have hin' := (hlen _ hinm).1 hin
        have key : ∀ {T : List ℤ} {P : ℕ → Prop} {r : Option ℤ}, T.getD (winEnd T.length n i) 0 = times.getD (i + n) 0 →
            IsHit T P i (winEnd T.length n i) r → ∀ u, r = some u → ¬ (times.getD (i + n) 0 / 1000000 + 1) * 1000000 ≤ u := by
          intro T P r hTe hh u hu
          rcases hh with ⟨_, rfl⟩ | ⟨j, hj, _, _, rfl⟩
          · cases hu
          · split at hu
            · cases hu
            · have := Option.some.inj hu
              have := hj.2.2
              omega
        have k1 : times.getD (winEnd times.length n i) 0 = times.getD (i + n) 0 := by rw [w3 hin]
        have k2 : times'.getD (winEnd times'.length n i) 0 = times.getD (i + n) 0 := by rw [w3' hin', hT _ hinm]
        have same : ∀ {r r' : Option ℤ}, (r' = r ∨ ((∀ u, r = some u → (times.getD (i + n) 0 / 1000000 + 1) * 1000000 ≤ u) ∧
            ∀ u, r' = some u → (times.getD (i + n) 0 / 1000000 + 1) * 1000000 ≤ u)) →
            (∀ u, r = some u → ¬ (times.getD (i + n) 0 / 1000000 + 1) * 1000000 ≤ u) →
            (∀ u, r' = some u → ¬ (times.getD (i + n) 0 / 1000000 + 1) * 1000000 ≤ u) → r' = r := by
          intro r r' hrr g1 g2
          rcases hrr with e | ⟨x1, x2⟩
          · exact e
          · cases r with
            | some u => exact absurd (x1 u rfl) (g1 u rfl)
            | none =>
              cases r' with
              | some u => exact absurd (x2 u rfl) (g2 u rfl)
              | none => rfl
        rw [same hS (key k1 (hsp i hil).1) (key k2 (hsp' i hil').1), same hP (key k1 (hsp i hil).2) (key k2 (hsp' i hil').2)]
      · rcases hh with hh | hh
        · rw [hh, s1 hh]; rfl
        · rw [hh, p1 hh]; simp
    rw [Bool.and_assoc, hnone, hret, ← Bool.and_assoc] at v2
    rw [hret] at v1
    obtain ⟨r1, r2, r3, r4⟩ := row
    obtain ⟨q1, q2, q3, q4⟩ := row'
    dsimp only at *
    rw [hend, c1, hE', a2, c2, u1, u2, v1, v2]

/-- The row of the second bar is known at the end of the millisecond of its end. -/
example (dv : List ℤ → List (XF ℚ) → List (XF ℚ)) (rows rows' : List (Row ℚ)) (row : Row ℚ)
    (hr : Lab.transform dv clockCfg ⟨[1000000, 1500000, 1700000, 3000000, 4000000], [("close", [.fin 10, .fin 10, .fin 10, .fin 12, .fin 20])]⟩ = .ok rows)
    (hr' : Lab.transform dv clockCfg ⟨[1000000, 1500000, 1700000, 3000000, 4000000], [("close", [.fin 10, .fin 10, .fin 10, .fin 12, .fin 7])]⟩ = .ok rows')
    (hi : rows[1]? = some row) (hend : row.endTime = some 3000000) : rows'[1]? = some row :=
  C116_any_times (sub_ms_other dv 10 20 (by norm_num) (by norm_num)) (sub_ms_other dv 10 7 (by norm_num) (by norm_num)) 1 4 3000000 rfl rfl
    (by decide) (by decide) rfl rfl (Or.inl (by decide)) rows rows' row hr hr' hi hend

end Mizar.Props
