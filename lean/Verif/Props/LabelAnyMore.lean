import Verif.Props.WiderAny

/-!
Property theorems C29 and C32 for times that are not whole milliseconds (`/repo/mizarlabs/transformers/targets/labeling.py`).
-/

set_option linter.unusedSectionVars false

namespace Mizar.Props
open Mizar.Spec Mizar.Lab
variable {K : Type*} [Field K] [LinearOrder K] [IsStrictOrderedRing K]

private theorem isHit_congr {times : List ℤ} {P Q : ℕ → Prop} {i hi : ℕ} {r r' : Option ℤ} (hPQ : ∀ j, InMs times i hi j → (P j ↔ Q j))
    (h : IsHit times P i hi r) (h' : IsHit times Q i hi r') : r' = r := by
  rcases h with ⟨a1, rfl⟩ | ⟨k, hk, hp, hmin, rfl⟩
  · rcases h' with ⟨_, rfl⟩ | ⟨j, hj, hq, _, _⟩
    · rfl
    · exact absurd ((hPQ j hj).2 hq) (a1 j hj)
  · rcases h' with ⟨b1, rfl⟩ | ⟨j, hj, hq, hmin', rfl⟩
    · exact absurd ((hPQ k hk).1 hp) (b1 k hk)
    · rw [le_antisymm (hmin' k hk ((hPQ k hk).1 hp)) (hmin j hj ((hPQ j hj).2 hq))]

private theorem lt_of_times {times : List ℤ} (hs : times.Pairwise (· < ·)) {a b : ℕ} (ha : a < times.length)
    (h : times.getD a 0 < times.getD b 0) : a < b := by
  by_contra hc
  rcases Nat.lt_or_ge b a with hba | hba
  · have := times_lt hs hba ha
    omega
  · have : a = b := by omega
    rw [this] at h
    omega

/-- **C29** (for all increasing times) Two calls that return, on frames with the same times that agree on the side and volatility of bar `i` and on
the prices of all bars up to bar `i + n` that are not before the *millisecond* of bar `i`, give the same row `i`. -/
theorem C29_any_times {dv dv' : List ℤ → List (XF K) → List (XF K)} {c : Cfg K} {f f' : Frame K}
    {times : List ℤ} {close close' side side' vol vol' : List (Option K)} {n : ℕ}
    (h : AnyFrame dv c f times close side vol n) (h' : AnyFrame dv' c f' times close' side' vol' n)
    (i : ℕ) (hi : i < times.length)
    (hclose : ∀ j, times.getD i 0 / 1000000 ≤ times.getD j 0 / 1000000 → j ≤ i + n → close.getD j none = close'.getD j none)
    (hside : side.getD i none = side'.getD i none) (hvol : vol.getD i none = vol'.getD i none)
    (rows rows' : List (Row K)) (hr : Lab.transform dv c f = .ok rows) (hr' : Lab.transform dv' c f' = .ok rows') :
    ∃ row, rows[i]? = some row ∧ rows'[i]? = some row := by
  obtain ⟨sl, pt, hsp, hm⟩ := C26_any_times h
  obtain ⟨sl', pt', hsp', hm'⟩ := C26_any_times h'
  dsimp only at hm hm'
  split at hm
  · rw [hr] at hm; cases hm
  split at hm
  · rw [hr] at hm; cases hm
  split at hm'
  · rw [hr'] at hm'; cases hm'
  split at hm'
  · rw [hr'] at hm'; cases hm'
  rename_i hnk _ _
  obtain ⟨_, h1, h2, h3⟩ := hm
  obtain ⟨_, h1', h2', h3'⟩ := hm'
  rw [hr] at h1
  rw [hr'] at h1'
  cases h1
  cases h1'
  obtain ⟨row, e1, e2⟩ := h3 i hi
  obtain ⟨row', e1', e2'⟩ := h3' i hi
  refine ⟨row, e1, ?_⟩
  rw [e1']
  congr 1
  have hN : 0 < times.length := by omega
  have hw := winEnd_lt (n := n) (i := i) hN
  have hown : close.getD i none = close'.getD i none := hclose i le_rfl (by omega)
  have hin : ∀ j, InMs times i (winEnd times.length n i) j → close.getD j none = close'.getD j none := by
    intro j hj
    refine hclose j hj.2.1 ?_
    have : j < winEnd times.length n i := lt_of_times h.sorted hj.1 (by have := hj.2.2; omega)
    omega
  have hS : sl' i = sl i := isHit_congr (fun j hj => by
    unfold StopLoss
    rw [hown, hin j hj, hside, hvol]) (hsp i hi).1 (hsp' i hi).1
  have hP : pt' i = pt i := isHit_congr (fun j hj => by
    unfold ProfitTaking
    rw [hown, hin j hj, hside, hvol]) (hsp i hi).2 (hsp' i hi).2
  rw [← hvol, hS, hP] at e2'
  cases hv : vol.getD i none with
  | none => rw [hv] at e2 e2'; rw [e2, e2']
  | some v =>
    rw [hv] at e2 e2'
    obtain ⟨a1, a2, a3, a4⟩ := e2
    obtain ⟨b1, b2, b3, b4⟩ := e2'
    obtain ⟨r1, r2, r3, r4⟩ := row
    obtain ⟨q1, q2, q3, q4⟩ := row'
    dsimp only at *
    cases he : earliestTime (if i + n < times.length then some (times.getD (i + n) 0) else none) (sl i) (pt i) with
    | none => rw [a1, b1, a2, b2, (a3 he).1, (a3 he).2, (b3 he).1, (b3 he).2]
    | some t =>
      have htm : t ∈ times := by
        by_contra hc
        exact hnk ⟨i, hi, t, he, hc⟩
      obtain ⟨k, hk, rfl⟩ := List.mem_iff_getElem.1 htm
      have hkD : times[k] = times.getD k 0 := by rw [List.getD_eq_getElem _ _ hk]
      rw [hkD] at he
      have hmono : ∀ a b, a ≤ b → b < times.length → times.getD a 0 ≤ times.getD b 0 := by
        intro a b hab hb
        rcases Nat.lt_or_ge a b with hlt' | hge
        · exact (times_lt h.sorted hlt' hb).le
        · rw [le_antisymm hab hge]
      have hhit : ∀ P r, IsHit times P i (winEnd times.length n i) r → r = some (times.getD k 0) → close.getD k none = close'.getD k none := by
        intro P r hh hrt
        rcases hh with ⟨_, rfl⟩ | ⟨j, hj, _, _, rfl⟩
        · cases hrt
        · split at hrt
          · cases hrt
          · have e : times.getD j 0 / 1000000 * 1000000 = times.getD k 0 := Option.some.inj hrt
            have := hj.2.1
            have := hj.2.2
            have hkw : k < winEnd times.length n i := lt_of_times h.sorted hk (by omega)
            exact hclose k (by omega) (by omega)
      have hck : close.getD k none = close'.getD k none := by
        have hx : (if i + n < times.length then some (times.getD (i + n) 0) else none) = some (times.getD k 0) ∨ sl i = some (times.getD k 0) ∨
            pt i = some (times.getD k 0) := by
          have h0 := he
          unfold earliestTime at h0
          rw [List.min?_eq_some_iff] at h0
          obtain ⟨⟨o, h1, h2⟩, -⟩ : (∃ o, o ∈ [_, sl i, pt i] ∧ id o = some _) ∧ _ := ⟨List.mem_filterMap.1 h0.1, h0.2⟩
          simp only [List.mem_cons, List.not_mem_nil, or_false, id] at h1 h2
          rcases h1 with h1 | h1 | h1
          · exact Or.inl (h1 ▸ h2)
          · exact Or.inr (Or.inl (h1 ▸ h2))
          · exact Or.inr (Or.inr (h1 ▸ h2))
        rcases hx with hx | hx | hx
        · split at hx
          · rename_i hin'
            have e : times.getD (i + n) 0 = times.getD k 0 := Option.some.inj hx
            have hki : k = i + n := by
              by_contra hne
              rcases Nat.lt_or_ge k (i + n) with hlt | hge
              · have := times_lt h.sorted hlt hin'; omega
              · have := times_lt h.sorted (by omega : i + n < k) hk; omega
            refine hclose k ?_ (by omega)
            apply Int.ediv_le_ediv (by norm_num)
            exact hmono i k (by omega) hk
          · cases hx
        · exact hhit _ _ (hsp i hi).1 hx
        · exact hhit _ _ (hsp i hi).2 hx
      obtain ⟨u1, u2⟩ := a4 k hk he
      obtain ⟨w1, w2⟩ := b4 k hk he
      have hret : eventReturn c.metalabeling (fun j => close'.getD j none) (fun j => side'.getD j none) i k =
          eventReturn c.metalabeling (fun j => close.getD j none) (fun j => side.getD j none) i k := by
        unfold eventReturn
        simp only [← hown, ← hck, ← hside]
      rw [hret] at w1 w2
      rw [a1, b1, a2, b2, u1, u2, w1, w2]

private theorem isHit_shift {times : List ℤ} {P : ℕ → Prop} {i hi : ℕ} {r : Option ℤ} (d : ℤ) (hi1 : i < times.length) (hi2 : hi < times.length)
    (h0 : ∀ t ∈ times, t / 1000000 ≠ 0) (h0' : ∀ t ∈ times, (t + d * 1000000) / 1000000 ≠ 0) (h : IsHit times P i hi r) :
    IsHit (times.map (· + d * 1000000)) P i hi (r.map (· + d * 1000000)) := by
  have hget : ∀ j < times.length, (times.map (· + d * 1000000)).getD j 0 = times.getD j 0 + d * 1000000 := by
    intro j hj
    rw [List.getD_eq_getElem _ _ (by simpa using hj), List.getElem_map, List.getD_eq_getElem _ _ hj]
  have hms : ∀ a : ℤ, (a + d * 1000000) / 1000000 = a / 1000000 + d := fun a => Int.add_mul_ediv_right a d (by norm_num)
  have hin : ∀ j, InMs (times.map (· + d * 1000000)) i hi j ↔ InMs times i hi j := by
    intro j
    unfold InMs
    rw [List.length_map]
    refine and_congr_right fun hj => ?_
    rw [hget j hj, hget i hi1, hget hi hi2, hms, hms, hms]
    omega
  rcases h with ⟨a1, rfl⟩ | ⟨k, hk, hp, hmin, rfl⟩
  · exact Or.inl ⟨fun j hj => a1 j ((hin j).1 hj), rfl⟩
  · have hmem : times.getD k 0 ∈ times := by
      rw [List.getD_eq_getElem _ _ hk.1]
      exact List.getElem_mem _
    refine Or.inr ⟨k, (hin k).2 hk, hp, fun j hj hq => ?_, ?_⟩
    · have := hmin j ((hin j).1 hj) hq
      rw [hget k hk.1, hget j ((hin j).1 hj).1, hms, hms]
      omega
    · rw [hget k hk.1, if_neg (h0 _ hmem), if_neg (h0' _ hmem), hms, Option.map_some]
      congr 1
      ring

private theorem earliest_map (g : ℤ → ℤ) (hg : ∀ a b, a ≤ b ↔ g a ≤ g b) (a b c : Option ℤ) :
    earliestTime (a.map g) (b.map g) (c.map g) = (earliestTime a b c).map g := by
  have hm : ∀ x y, min (g x) (g y) = g (min x y) := by
    intro x y
    rcases le_total x y with h | h
    · rw [min_eq_left h, min_eq_left ((hg x y).1 h)]
    · rw [min_eq_right h, min_eq_right ((hg y x).1 h)]
  cases a <;> cases b <;> cases c <;> simp [earliestTime, List.min?, hm]

/-- **C32** (for all increasing times) Adding the same whole number of milliseconds to all times adds it to every end time and changes nothing else,
exceptions included, if no bar is in the first millisecond of 1970 before or after the shift. -/
theorem C32_any_times {dv dv' : List ℤ → List (XF K) → List (XF K)} {c : Cfg K} {f f' : Frame K} (d : ℤ)
    {times : List ℤ} {close side vol : List (Option K)} {n : ℕ} (h : AnyFrame dv c f times close side vol n)
    (h' : AnyFrame dv' c f' (times.map (· + d * 1000000)) close side vol n)
    (h0 : ∀ t ∈ times, t / 1000000 ≠ 0) (h0' : ∀ t ∈ times, (t + d * 1000000) / 1000000 ≠ 0) :
    Lab.transform dv' c f' = match Lab.transform dv c f with
      | .error e => .error e
      | .ok rows => .ok (rows.map fun r => { r with endTime := r.endTime.map (· + d * 1000000) }) := by
  obtain ⟨sl, pt, hsp, hm⟩ := C26_any_times h
  obtain ⟨sl', pt', hsp', hm'⟩ := C26_any_times h'
  simp only [List.length_map] at hsp' hm' hm
  have hN : 0 < times.length := List.length_pos_iff.2 h.nonempty
  have hget : ∀ j < times.length, (times.map (· + d * 1000000)).getD j 0 = times.getD j 0 + d * 1000000 := by
    intro j hj
    rw [List.getD_eq_getElem _ _ (by simpa using hj), List.getElem_map, List.getD_eq_getElem _ _ hj]
  have hends : ∀ i, i < times.length →
      earliestTime (if i + n < times.length then some ((times.map (· + d * 1000000)).getD (i + n) 0) else none) (sl' i) (pt' i) =
        (earliestTime (if i + n < times.length then some (times.getD (i + n) 0) else none) (sl i) (pt i)).map (· + d * 1000000) := by
    intro i hi
    have hw := (winEnd_lt (n := n) (i := i) hN).1
    have hS : sl' i = (sl i).map (· + d * 1000000) :=
      isHit_congr (fun _ _ => Iff.rfl) (isHit_shift d hi hw h0 h0' (hsp i hi).1) (hsp' i hi).1
    have hP : pt' i = (pt i).map (· + d * 1000000) :=
      isHit_congr (fun _ _ => Iff.rfl) (isHit_shift d hi hw h0 h0' (hsp i hi).2) (hsp' i hi).2
    have hE : (if i + n < times.length then some ((times.map (· + d * 1000000)).getD (i + n) 0) else none) =
        (if i + n < times.length then some (times.getD (i + n) 0) else none).map (· + d * 1000000) := by
      split
      · rename_i hin
        rw [hget _ hin]; rfl
      · rfl
    rw [hS, hP, hE]
    exact earliest_map (· + d * 1000000) (fun a b => by omega) _ _ _
  have hnone : ∀ i, i < times.length → ((sl' i).isNone = (sl i).isNone) ∧ ((pt' i).isNone = (pt i).isNone) := by
    intro i hi
    have hw := (winEnd_lt (n := n) (i := i) hN).1
    have hS : sl' i = (sl i).map (· + d * 1000000) :=
      isHit_congr (fun _ _ => Iff.rfl) (isHit_shift d hi hw h0 h0' (hsp i hi).1) (hsp' i hi).1
    have hP : pt' i = (pt i).map (· + d * 1000000) :=
      isHit_congr (fun _ _ => Iff.rfl) (isHit_shift d hi hw h0 h0' (hsp i hi).2) (hsp' i hi).2
    rw [hS, hP]
    cases sl i <;> cases pt i <;> exact ⟨rfl, rfl⟩
  have hc1 : (c.metalabeling = true ∧ ∀ i < times.length,
      earliestTime (if i + n < times.length then some ((times.map (· + d * 1000000)).getD (i + n) 0) else none) (sl' i) (pt' i) = none) ↔
      (c.metalabeling = true ∧ ∀ i < times.length,
      earliestTime (if i + n < times.length then some (times.getD (i + n) 0) else none) (sl i) (pt i) = none) := by
    refine and_congr_right fun _ => forall₂_congr fun i hi => ?_
    rw [hends i hi, Option.map_eq_none_iff]
  have hc2 : (∃ i < times.length, ∃ t,
      earliestTime (if i + n < times.length then some ((times.map (· + d * 1000000)).getD (i + n) 0) else none) (sl' i) (pt' i) = some t ∧
        t ∉ times.map (· + d * 1000000)) ↔
      (∃ i < times.length, ∃ t,
      earliestTime (if i + n < times.length then some (times.getD (i + n) 0) else none) (sl i) (pt i) = some t ∧ t ∉ times) := by
    constructor
    · rintro ⟨i, hi, t, h1, h2⟩
      rw [hends i hi, Option.map_eq_some_iff] at h1
      obtain ⟨u, h3, rfl⟩ := h1
      exact ⟨i, hi, u, h3, fun hu => h2 (List.mem_map.2 ⟨u, hu, rfl⟩)⟩
    · rintro ⟨i, hi, t, h1, h2⟩
      refine ⟨i, hi, t + d * 1000000, by rw [hends i hi, h1]; rfl, fun hu => ?_⟩
      obtain ⟨u, h3, h4⟩ := List.mem_map.1 hu
      have : u = t := by simpa using h4
      exact h2 (this ▸ h3)
  by_cases g1 : c.metalabeling = true ∧ ∀ i < times.length,
      earliestTime (if i + n < times.length then some (times.getD (i + n) 0) else none) (sl i) (pt i) = none
  · rw [if_pos g1] at hm
    rw [if_pos (hc1.2 g1)] at hm'
    rw [hm, hm']
  rw [if_neg g1] at hm
  rw [if_neg (fun hx => g1 (hc1.1 hx))] at hm'
  by_cases g2 : ∃ i < times.length, ∃ t,
      earliestTime (if i + n < times.length then some (times.getD (i + n) 0) else none) (sl i) (pt i) = some t ∧ t ∉ times
  · rw [if_pos g2] at hm
    rw [if_pos (hc2.2 g2)] at hm'
    rw [hm, hm']
  rw [if_neg g2] at hm
  rw [if_neg (fun hx => g2 (hc2.1 hx))] at hm'
  obtain ⟨rows, h1, h2, h3⟩ := hm
  obtain ⟨rows', h1', h2', h3'⟩ := hm'
  rw [h1, h1']
  dsimp only
  congr 1
  apply List.ext_getElem?
  intro i
  rcases Nat.lt_or_ge i times.length with hi | hi
  · obtain ⟨row, e1, e2⟩ := h3 i hi
    obtain ⟨row', e1', e2'⟩ := h3' i hi
    rw [e1', List.getElem?_map, e1, Option.map_some]
    congr 1
    rw [hends i hi, (hnone i hi).1, (hnone i hi).2] at e2'
    cases hv : vol.getD i none with
    | none => rw [hv] at e2 e2'; rw [e2, e2']; rfl
    | some v =>
      rw [hv] at e2 e2'
      obtain ⟨a1, a2, a3, a4⟩ := e2
      obtain ⟨b1, b2, b3, b4⟩ := e2'
      obtain ⟨r1, r2, r3, r4⟩ := row
      obtain ⟨q1, q2, q3, q4⟩ := row'
      dsimp only at *
      cases he : earliestTime (if i + n < times.length then some (times.getD (i + n) 0) else none) (sl i) (pt i) with
      | none =>
        have hb := b3 (by rw [he]; rfl)
        rw [a1, b1, a2, b2, (a3 he).1, (a3 he).2, hb.1, hb.2]
      | some t =>
        have htm : t ∈ times := by
          by_contra hc
          exact g2 ⟨i, hi, t, he, hc⟩
        obtain ⟨k, hk, rfl⟩ := List.mem_iff_getElem.1 htm
        have hkD : times[k] = times.getD k 0 := by rw [List.getD_eq_getElem _ _ hk]
        rw [hkD] at he
        obtain ⟨u1, u2⟩ := a4 k hk he
        obtain ⟨w1, w2⟩ := b4 k hk (by rw [he, hget k hk]; rfl)
        rw [a1, b1, a2, b2, u1, u2, w1, w2]
  · rw [List.getElem?_eq_none (by omega), List.getElem?_eq_none (by rw [List.length_map]; omega)]

/-- The frame with bars inside a millisecond, with other prices of the first and the last bar. -/
theorem sub_ms_other (dv : List ℤ → List (XF ℚ) → List (XF ℚ)) (a b : ℚ) (ha : 0 < a) (hb : 0 < b) :
    AnyFrame dv clockCfg ⟨[1000000, 1500000, 1700000, 3000000, 4000000], [("close", [.fin a, .fin 10, .fin 10, .fin 12, .fin b])]⟩
      [1000000, 1500000, 1700000, 3000000, 4000000] [some a, some 10, some 10, some 12, some b]
      (List.replicate 5 (some 1)) (List.replicate 5 (some 1)) 2 where
  times_eq := rfl
  close_eq := rfl
  name_eq := rfl
  side_eq := Or.inr ⟨rfl, rfl, rfl⟩
  vol_eq := rfl
  n_eq := rfl
  length_eq := rfl
  nonempty := by decide
  sorted := by decide
  positive := by
    intro x hx
    simp only [List.mem_cons, Option.some.injEq, List.not_mem_nil, or_false] at hx
    rcases hx with rfl | rfl | rfl | rfl | rfl
    · exact ha
    · norm_num
    · norm_num
    · norm_num
    · exact hb
  factors := by norm_num [clockCfg]

/-- The row of the second bar does not see the price of the last bar. -/
example (dv : List ℤ → List (XF ℚ) → List (XF ℚ)) := C29_any_times (sub_ms_other dv 10 20 (by norm_num) (by norm_num))
  (sub_ms_other dv 10 7 (by norm_num) (by norm_num)) 1 (by decide)
  (by
    intro j h1 h2
    have : j = 0 ∨ j = 1 ∨ j = 2 ∨ j = 3 := by omega
    rcases this with rfl | rfl | rfl | rfl <;> rfl) rfl rfl
  [⟨some 1700000, .fin 1, .fin 0, .fin 0⟩, ⟨some 3000000, .fin 1, .fin (1/5), .fin 1⟩, ⟨some 4000000, .fin 1, .fin 1, .fin 1⟩,
    ⟨none, .fin 1, .nan, .nan⟩, ⟨none, .fin 1, .nan, .nan⟩]
  [⟨some 1700000, .fin 1, .fin 0, .fin 0⟩, ⟨some 3000000, .fin 1, .fin (1/5), .fin 1⟩, ⟨some 4000000, .fin 1, .fin (-3/10), .fin (-1)⟩,
    ⟨none, .fin 1, .nan, .nan⟩, ⟨none, .fin 1, .nan, .nan⟩]
  (by
    have e : ∀ f, Lab.transform dv clockCfg f = Lab.transform (fun _ _ => []) clockCfg f := by
      intro f; rfl
    rw [e]
    decide +kernel)
  (by
    have e : ∀ f, Lab.transform dv clockCfg f = Lab.transform (fun _ _ => []) clockCfg f := by
      intro f; rfl
    rw [e]
    decide +kernel)

/-- The frame with bars inside a millisecond, two milliseconds later. -/
private theorem sub_ms_later (dv : List ℤ → List (XF ℚ) → List (XF ℚ)) :
    AnyFrame dv clockCfg ⟨[3000000, 3500000, 3700000, 5000000], [("close", [.fin 10, .fin 10, .fin 18, .fin 12])]⟩
      ([1000000, 1500000, 1700000, 3000000].map (· + 2 * 1000000)) [some 10, some 10, some 18, some 12]
      (List.replicate 4 (some 1)) (List.replicate 4 (some 1)) 2 :=
  { sub_ms_input dv with
    times_eq := by decide
    close_eq := rfl
    side_eq := Or.inr ⟨by decide, rfl, rfl⟩
    vol_eq := rfl
    length_eq := rfl
    nonempty := by decide
    sorted := by decide }

example (dv : List ℤ → List (XF ℚ) → List (XF ℚ)) := C32_any_times 2 (sub_ms_input dv) (sub_ms_later dv) (by decide) (by decide)

end Mizar.Props
