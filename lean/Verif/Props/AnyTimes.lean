import Verif.Props.ActiveBets
import Verif.Props.WeightsKnown

/-!
Property theorems C40, C42, C120 and C122 for times that are not whole milliseconds: the code counts in whole milliseconds, rounded down.
-/

namespace Mizar.Props
open Mizar.Spec Mizar.Bet Mizar.SW

section
variable {K : Type} [Field K] [LinearOrder K] [IsStrictOrderedRing K]

/-- A bet with its times in whole milliseconds, rounded down; an end before 1970 counts as missing. -/
def inMs (b : ABet K) : ABet K :=
  ⟨b.start / 1000000, (b.stop.map (· / 1000000)).filter fun e => decide (0 ≤ e), b.size⟩

/-- **C40** For any times, the result has exactly the start and end times, in increasing order, and at each of them the mean of the bets
whose interval `[start, end)`, both in whole milliseconds, contains the millisecond; a bet without end or with an end before 1970 never
closes. -/
theorem C40_any_times (bets : List (ABet K)) :
    let out := avgActiveSignals (bets.map fun b => (⟨b.start, b.stop, .fin b.size⟩ : Bet.Bet K))
    (out.map (·.1)).Pairwise (· < ·) ∧
    (∀ t, t ∈ out.map (·.1) ↔ ∃ b ∈ bets, t = b.start ∨ b.stop = some t) ∧
    ∀ p ∈ out, p.2 = .fin (activeMean (bets.map inMs) (p.1 / 1000000)) := by
  have hfst : (avgActiveSignals (bets.map fun b => (⟨b.start, b.stop, .fin b.size⟩ : Bet.Bet K))).map (·.1) =
      changeTimes (bets.map fun b => (⟨b.start, b.stop, .fin b.size⟩ : Bet.Bet K)) := by
    unfold avgActiveSignals
    rw [List.map_map]
    conv_rhs => rw [← List.map_id (changeTimes _)]
    rfl
  refine ⟨?_, ?_, ?_⟩
  · rw [hfst]; exact pairwise_npUnique _
  · intro t
    rw [hfst]
    unfold changeTimes
    rw [mem_npUnique, List.mem_append, List.mem_filterMap, List.mem_map]
    constructor
    · rintro (⟨b, hb, e⟩ | ⟨b, hb, e⟩)
      · obtain ⟨b', hb', rfl⟩ := List.mem_map.1 hb
        exact ⟨b', hb', Or.inr e⟩
      · obtain ⟨b', hb', rfl⟩ := List.mem_map.1 hb
        exact ⟨b', hb', Or.inl e.symm⟩
    · rintro ⟨b, hb, rfl | e⟩
      · right; exact ⟨_, List.mem_map.2 ⟨b, hb, rfl⟩, rfl⟩
      · left; exact ⟨_, List.mem_map.2 ⟨b, hb, rfl⟩, e⟩
  · intro p hp
    unfold avgActiveSignals at hp
    obtain ⟨t, ht, rfl⟩ := List.mem_map.1 hp
    simp only
    unfold avgActiveAt activeMean
    simp only
    rw [List.map_map, List.filter_map, List.filter_map]
    have hcond : ∀ b ∈ bets, (((fun b : ℤ × ℤ × XF K => decide (b.1 ≤ Lab.convertToTimestamp (some t)) &&
          (decide (Lab.convertToTimestamp (some t) < b.2.1) || decide (b.2.1 < 0))) ∘
          ((fun b : Bet.Bet K => (Lab.convertToTimestamp (some b.start), Lab.convertToTimestamp b.stop, b.size)) ∘
          fun b : ABet K => (⟨b.start, b.stop, .fin b.size⟩ : Bet.Bet K))) b) =
          ((fun b => decide (b.Active (t / 1000000))) ∘ inMs) b := by
      intro b _
      cases hst : b.stop with
      | none =>
        have : Lab.natInt / 1000000 < 0 := by decide
        simp [Lab.convertToTimestamp, hst, ABet.Active, inMs, this]
      | some e =>
        by_cases h0 : 0 ≤ e / 1000000
        · have h1 : ¬ e / 1000000 < 0 := by omega
          simp [Lab.convertToTimestamp, hst, ABet.Active, inMs, h0, h1, Option.filter]
        · have h1 : e / 1000000 < 0 := by omega
          simp [Lab.convertToTimestamp, hst, ABet.Active, inMs, h0, h1, Option.filter]
    rw [List.filter_congr hcond]
    set A := bets.filter ((fun b => decide (b.Active (t / 1000000))) ∘ inMs) with hAdef
    by_cases hA : A = []
    · rw [hA]; rfl
    · have hA' : ¬ A.map inMs = [] := by simpa using hA
      rw [if_pos (by rw [List.length_map]; exact List.length_pos_iff.2 hA), if_neg hA', List.map_map, List.map_map]
      have e : A.map ((fun x : ℤ × ℤ × XF K => x.2.2) ∘
          ((fun b : Bet.Bet K => (Lab.convertToTimestamp (some b.start), Lab.convertToTimestamp b.stop, b.size)) ∘
          fun b : ABet K => (⟨b.start, b.stop, .fin b.size⟩ : Bet.Bet K))) =
          (A.map ((·.size) ∘ inMs)).map XF.fin := by
        rw [List.map_map]; rfl
      rw [e, mean_fin _ (by simpa using hA), List.length_map, List.length_map]

end

section
variable {K : Type} [Field K] [LinearOrder K]

private def msOf (b : Bet.Bet K) : ℤ × ℤ × XF K := (Lab.convertToTimestamp (some b.start), Lab.convertToTimestamp b.stop, b.size)

private def actAt (u : ℤ) (b : ℤ × ℤ × XF K) : Bool := decide (b.1 ≤ u) && (decide (u < b.2.1) || decide (b.2.1 < 0))

private theorem active_known_any {T u : ℤ} (hT : (1000000 : ℤ) ∣ T + 1) (hu : u ≤ T) (bets : List (Bet.Bet K)) :
    (((bets.map msOf).filter (actAt (Lab.convertToTimestamp (some u)))).map (·.2.2)) =
      ((((bets.filterMap (knownBet T)).map msOf).filter (actAt (Lab.convertToTimestamp (some u)))).map (·.2.2)) := by
  have hnat : Lab.natInt / 1000000 < 0 := by decide
  induction bets with
  | nil => rfl
  | cons b bets ih =>
    rw [List.filterMap_cons]
    by_cases hs : b.start ≤ T
    · have hk : knownBet T b = some ⟨b.start, b.stop.filter fun e => decide (e ≤ T), b.size⟩ := if_pos hs
      rw [hk]
      simp only [List.map_cons]
      have ha : actAt (Lab.convertToTimestamp (some u)) (msOf b) =
          actAt (Lab.convertToTimestamp (some u)) (msOf ⟨b.start, b.stop.filter fun e => decide (e ≤ T), b.size⟩) := by
        unfold actAt msOf
        congr 1
        cases hb : b.stop with
        | none => rfl
        | some e =>
          by_cases he : e ≤ T
          · simp [Option.filter, he]
          · have h1 : u / 1000000 < e / 1000000 := by omega
            simp [Option.filter, he, Lab.convertToTimestamp, h1, hnat]
      by_cases hact : actAt (Lab.convertToTimestamp (some u)) (msOf b) = true
      · rw [List.filter_cons_of_pos hact, List.filter_cons_of_pos (ha ▸ hact), List.map_cons, List.map_cons, ih]; rfl
      · rw [List.filter_cons_of_neg hact, List.filter_cons_of_neg (ha ▸ hact), ih]
    · have hk : knownBet T b = none := if_neg hs
      rw [hk, List.map_cons, List.filter_cons_of_neg, ih]
      have h1 : ¬ b.start / 1000000 ≤ u / 1000000 := by omega
      simp [actAt, msOf, Lab.convertToTimestamp, h1]

private theorem avg_eq_any (bets bets' : List (ℤ × ℤ × XF K)) (u : ℤ)
    (h : (bets.filter (actAt u)).map (·.2.2) = (bets'.filter (actAt u)).map (·.2.2)) : avgActiveAt bets u = avgActiveAt bets' u := by
  have hl := congrArg List.length h
  rw [List.length_map, List.length_map] at hl
  unfold avgActiveAt
  unfold actAt at h hl
  dsimp only
  rw [h, hl]

/-- **C120** For any times, the averages up to the last nanosecond of a millisecond depend on what is known of the bets then only: nothing
looks further ahead than the end of the millisecond. -/
theorem C120_any_times (T : ℤ) (hT : (1000000 : ℤ) ∣ T + 1) (bets : List (Bet.Bet K)) (h : ∀ b ∈ bets, ∀ e, b.stop = some e → b.start ≤ e) :
    upTo T (avgActiveSignals bets) = upTo T (avgActiveSignals (bets.filterMap (knownBet T))) := by
  have ht : (changeTimes bets).filter (fun u => decide (u ≤ T)) =
      (changeTimes (bets.filterMap (knownBet T))).filter fun u => decide (u ≤ T) := by
    apply eq_of_mem_iff_of_pairwise_lt ((pairwise_npUnique _).sublist List.filter_sublist) ((pairwise_npUnique _).sublist List.filter_sublist)
    intro u
    simp only [List.mem_filter, mem_npUnique, List.mem_append, List.mem_filterMap, List.mem_map, decide_eq_true_eq]
    constructor
    · rintro ⟨h1, hu⟩
      refine ⟨?_, hu⟩
      rcases h1 with ⟨b, hb, he⟩ | ⟨b, hb, rfl⟩
      · have := h b hb u he
        refine Or.inl ⟨⟨b.start, b.stop.filter fun e => decide (e ≤ T), b.size⟩, ⟨b, hb, if_pos (by omega)⟩, ?_⟩
        simp [he, Option.filter, hu]
      · exact Or.inr ⟨⟨b.start, b.stop.filter fun e => decide (e ≤ T), b.size⟩, ⟨b, hb, if_pos hu⟩, rfl⟩
    · rintro ⟨h1, hu⟩
      refine ⟨?_, hu⟩
      have key : ∀ b b' : Bet.Bet K, knownBet T b = some b' → b' = ⟨b.start, b.stop.filter fun e => decide (e ≤ T), b.size⟩ := by
        intro b b' hk
        unfold knownBet at hk
        split at hk
        · simpa using hk.symm
        · simp at hk
      rcases h1 with ⟨b', ⟨b, hb, hk⟩, he⟩ | ⟨b', ⟨b, hb, hk⟩, rfl⟩
      · rw [key b b' hk] at he
        simp only [Option.filter_eq_some_iff] at he
        exact Or.inl ⟨b, hb, he.1⟩
      · rw [key b b' hk] at hu ⊢
        exact Or.inr ⟨b, hb, rfl⟩
  unfold avgActiveSignals upTo
  rw [List.filter_map, List.filter_map]
  have e : ∀ (g : ℤ → ℤ × XF K), (∀ u, (g u).1 = u) → ((fun r : ℤ × XF K => decide (r.1 ≤ T)) ∘ g) = fun u => decide (u ≤ T) := by
    intro g hg; funext u; simp [hg]
  rw [e _ fun u => rfl, e _ fun u => rfl, ← ht]
  apply List.map_congr_left
  intro u hu
  rw [List.mem_filter] at hu
  congr 1
  exact avg_eq_any _ _ _ (active_known_any hT (by simpa using hu.2) bets)

end

/-- The bars whose millisecond lies in the closed life span of `e` in milliseconds. -/
def barsInMs (ev : List (ℤ × ℤ)) (e : ℤ × ℤ) : Finset ℕ :=
  (Finset.range ev.length).filter fun k => Covers (e.1 / 1000000, e.2 / 1000000) ((ev.getD k (0, 0)).1 / 1000000)

/-- **C42** For any times, the weight of each event is the absolute value of the sum over the bars in its closed life span, in whole
milliseconds, of log-return over number of live events; it is not negative and at most the sum of the absolute log-returns over these
bars. -/
theorem C42_any_times (ev : List (ℤ × ℤ)) (close : List (Option ℝ)) (hlen : close.length = ev.length)
    (hpos : ∀ c, some c ∈ close → 0 < c) (hse : ∀ e ∈ ev, e.1 ≤ e.2) (hdiff : ∃ e ∈ ev, ∃ e' ∈ ev, e ≠ e') :
    ∃ w : ℤ × ℤ → ℝ, weightsByReturns (frame ev close) = .ok (ev.map fun e => (e.1, .fin (w e))) ∧
      ∀ e ∈ ev, w e = |∑ k ∈ barsInMs ev e, logRet close k / (aliveAt ev (ev.getD k (0, 0)).1 : ℝ)| ∧
        0 ≤ w e ∧ w e ≤ ∑ k ∈ barsInMs ev e, |logRet close k| := by
  refine ⟨_, weights_formula ev close hlen hpos hse hdiff, fun e _ => ⟨rfl, abs_nonneg _, (Finset.abs_sum_le_sum_abs _ _).trans (Finset.sum_le_sum ?_)⟩⟩
  intro k hk
  have hk := Finset.mem_range.1 (Finset.mem_filter.1 hk).1
  have hmem : ev.getD k (0, 0) ∈ ev := by
    rw [List.getD_eq_getElem _ _ hk]; exact List.getElem_mem hk
  have h1 := aliveAt_pos hmem ⟨le_refl _, hse _ hmem⟩
  rw [abs_div, abs_of_nonneg (Nat.cast_nonneg (α := ℝ) (aliveAt ev (ev.getD k (0, 0)).1))]
  exact div_le_self (abs_nonneg _) (by exact_mod_cast h1)

/-- **C122** For any times in increasing order, the weight by return of an event is known at the end of the millisecond in which it ends. -/
theorem C122_any_times (T : ℤ) (hT : (1000000 : ℤ) ∣ T + 1) (ev ev' : List (ℤ × ℤ)) (close close' : List (Option ℝ)) (hlen : close.length = ev.length)
    (hlen' : close'.length = ev'.length) (hpos : ∀ c, some c ∈ close → 0 < c) (hpos' : ∀ c, some c ∈ close' → 0 < c)
    (hse : ∀ e ∈ ev, e.1 ≤ e.2) (hse' : ∀ e ∈ ev', e.1 ≤ e.2) (h2 : 2 ≤ ev.length) (h2' : 2 ≤ ev'.length)
    (hs : (ev.map (·.1)).Pairwise (· < ·)) (hs' : (ev'.map (·.1)).Pairwise (· < ·))
    (hk : (ev.zip close).filterMap (knownRow T) = (ev'.zip close').filterMap (knownRow T)) :
    ∃ s s', weightsByReturns (frame ev close) = .ok s ∧ weightsByReturns (frame ev' close') = .ok s' ∧
      ∀ j (hj : j < ev.length), ev[j].2 ≤ T → s[j]?.isSome ∧ s'[j]? = s[j]? := by
  have hd : ∀ l : List (ℤ × ℤ), (l.map (·.1)).Pairwise (· < ·) → 2 ≤ l.length → ∃ e ∈ l, ∃ e' ∈ l, e ≠ e' := by
    intro l hl hl2
    refine ⟨l[0], List.getElem_mem _, l[1], List.getElem_mem _, fun h => ?_⟩
    have := List.pairwise_iff_getElem.1 hl 0 1 (by simp; omega) (by simp; omega) Nat.zero_lt_one
    rw [List.getElem_map, List.getElem_map, h] at this
    exact lt_irrefl _ this
  obtain ⟨w, a1, a2⟩ := C42_any_times ev close hlen hpos hse (hd ev hs h2)
  obtain ⟨w', b1, b2⟩ := C42_any_times ev' close' hlen' hpos' hse' (hd ev' hs' h2')
  refine ⟨_, _, a1, b1, fun j hj hTj => ⟨by simp [hj], ?_⟩⟩
  have hke : ev.filterMap (knownEvent T) = ev'.filterMap (knownEvent T) := by
    rw [knownEvent_of_knownRow ev close hlen, knownEvent_of_knownRow ev' close' hlen', hk]
  have hke' : (ev'.zip close').filterMap (knownRow T) = (ev.zip close).filterMap (knownRow T) := hk.symm
  have e1 : ev.getD j (0, 0) = ev[j] := by simp [List.getD_eq_getElem?_getD, hj]
  have hjs : ev[j].1 ≤ T := (hse _ (List.getElem_mem hj)).trans hTj
  obtain ⟨hj', c1, -, c2⟩ := row_known hlen hlen' hs hs' hk hj (by rw [e1]; exact hjs)
  have e2 : ev'.getD j (0, 0) = ev'[j] := by simp [List.getD_eq_getElem?_getD, hj']
  rw [e1, e2] at c1 c2
  have heq : ev'[j] = ev[j] := by
    unfold knownEvent at c2
    rw [if_pos (by rw [c1]; exact hjs), if_pos hjs, if_pos hTj] at c2
    split at c2
    · simp only [Option.some.injEq, Prod.mk.injEq] at c2
      exact Prod.ext c2.1 c2.2
    · simp at c2
  rw [List.getElem?_map, List.getElem?_map, List.getElem?_eq_getElem hj, List.getElem?_eq_getElem hj', Option.map_some, Option.map_some, heq]
  have hm := List.getElem_mem hj
  rw [(a2 _ hm).1, (b2 _ (heq ▸ List.getElem_mem hj')).1]
  have near : ∀ t : ℤ, Covers (ev[j].1 / 1000000, ev[j].2 / 1000000) (t / 1000000) → t ≤ T := by
    intro t ht
    have := ht.2
    dsimp only at this
    omega
  have hb : barsInMs ev' ev[j] = barsInMs ev ev[j] := by
    ext k
    unfold barsInMs
    rw [Finset.mem_filter, Finset.mem_filter, Finset.mem_range, Finset.mem_range]
    constructor
    · rintro ⟨q1, q2⟩
      obtain ⟨q3, q4, -, -⟩ := row_known hlen' hlen hs' hs hke' q1 (near _ q2)
      exact ⟨q3, q4 ▸ q2⟩
    · rintro ⟨q1, q2⟩
      obtain ⟨q3, q4, -, -⟩ := row_known hlen hlen' hs hs' hk q1 (near _ q2)
      exact ⟨q3, q4 ▸ q2⟩
  rw [hb]
  congr 4
  apply Finset.sum_congr rfl
  intro k hk1
  obtain ⟨q1, q2⟩ := Finset.mem_filter.1 hk1
  rw [Finset.mem_range] at q1
  have q3 : (ev.getD k (0, 0)).1 ≤ T := near _ q2
  obtain ⟨q4, q5, q6, -⟩ := row_known hlen hlen' hs hs' hk q1 q3
  rw [q5, aliveAt_known q3, aliveAt_known q3, hke]
  congr 1
  unfold logRet
  by_cases hk0 : k = 0
  · rw [if_pos hk0, if_pos hk0]
  · rw [if_neg hk0, if_neg hk0, q6]
    have q7 : (ev.getD (k - 1) (0, 0)).1 ≤ T := by
      have := List.pairwise_iff_getElem.1 hs (k - 1) k (by simp; omega) (by simpa using q1) (by omega)
      rw [List.getElem_map, List.getElem_map] at this
      have q8 : ev.getD k (0, 0) = ev[k] := by simp [List.getD_eq_getElem?_getD, q1]
      have q9 : ev.getD (k - 1) (0, 0) = ev[k - 1]'(by omega) := by
        rw [List.getD_eq_getElem?_getD, List.getElem?_eq_getElem (by omega), Option.getD_some]
      rw [q9]; rw [q8] at q3
      exact this.le.trans q3
    obtain ⟨-, -, q10, -⟩ := row_known hlen hlen' hs hs' hk (k := k - 1) (by omega) q7
    rw [q10]

/-- A case of `C40_any_times` and `C120_any_times`: bets that start and end within milliseconds, one of them before 1970. -/
example : avgActiveSignals [(⟨-5000000, some (-3000000), .fin 1⟩ : Bet.Bet ℚ), ⟨1000500, some 2000100, .fin (1/2)⟩] =
      [(-5000000, .fin 1), (-3000000, .fin 1), (1000500, .fin (3/4)), (2000100, .fin 1)] ∧
    activeMean ([(⟨-5000000, some (-3000000), 1⟩ : ABet ℚ), ⟨1000500, some 2000100, 1/2⟩].map inMs) (1000500 / 1000000) = 3/4 ∧
    upTo 1999999 (avgActiveSignals [(⟨-5000000, some (-3000000), .fin 1⟩ : Bet.Bet ℚ), ⟨1000500, some 2000100, .fin (1/2)⟩]) =
      [(-5000000, .fin 1), (-3000000, .fin 1), (1000500, .fin (3/4))] ∧ (1000000 : ℤ) ∣ 1999999 + 1 := by
  decide +kernel

/-- A case of `C42_any_times`: the bar half a millisecond after the end of the first event counts for it. -/
example : barsInMs [(1000000, 2000000), (1500000, 1600000), (2000500, 2000500)] (1000000, 2000000) = {0, 1, 2} ∧
    barsIn [(1000000, 2000000), (1500000, 1600000), (2000500, 2000500)] (1000000, 2000000) = {0, 1} := by decide

/-- A case of `C122_any_times`: at the end of the third millisecond the same is known of two frames. -/
example (a b c d : ℝ) : (([(1000100, 3000200), (2000000, 9000000), (8000000, 8000000)] : List (ℤ × ℤ)).zip [some a, some b, some c]).filterMap
      (knownRow 3999999) = ([(1000100, 3000200), (2000000, 20000000), (10000000, 11000000)].zip [some a, some b, some d]).filterMap
      (knownRow 3999999) := by
  simp [knownRow, knownEvent]

end Mizar.Props
