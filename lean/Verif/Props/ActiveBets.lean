import Verif.Props.BetSizing
import Verif.Lemmas.Labeling
import Verif.Spec.NoLookAhead

/-!
Property theorems C120: averaging of active bets does not look ahead (`/repo/mizarlabs/transformers/trading/bet_sizing.py`).
-/

set_option linter.unusedSectionVars false

namespace Mizar.Props
open Mizar.Spec Mizar.Bet

section
variable {K : Type} [Field K] [LinearOrder K]

/-- What is known of a bet at time `T`: nothing before its start, its start and size then, its end once it has ended. -/
def knownBet (T : ℤ) (b : Bet.Bet K) : Option (Bet.Bet K) :=
  if b.start ≤ T then some ⟨b.start, b.stop.filter fun e => decide (e ≤ T), b.size⟩ else none

/-- All times are whole milliseconds and no bet ends before it starts. -/
def OnGrid (bets : List (Bet.Bet K)) : Prop :=
  ∀ b ∈ bets, (1000000 : ℤ) ∣ b.start ∧ ∀ e, b.stop = some e → (1000000 : ℤ) ∣ e ∧ b.start ≤ e

/-- The entry of a bet in the arrays given to the averaging loop. -/
private def ms (b : Bet.Bet K) : ℤ × ℤ × XF K := (Lab.convertToTimestamp (some b.start), Lab.convertToTimestamp b.stop, b.size)

private def act (u : ℤ) (b : ℤ × ℤ × XF K) : Bool := decide (b.1 ≤ u) && (decide (u < b.2.1) || decide (b.2.1 < 0))

private theorem conv_none : Lab.convertToTimestamp none < 0 := by decide +kernel

private theorem active_known {T u : ℤ} (hu : u ≤ T) (hgu : (1000000 : ℤ) ∣ u) (bets : List (Bet.Bet K)) (h : OnGrid bets) :
    (((bets.map ms).filter (act (Lab.convertToTimestamp (some u)))).map (·.2.2)) =
      ((((bets.filterMap (knownBet T)).map ms).filter (act (Lab.convertToTimestamp (some u)))).map (·.2.2)) := by
  induction bets with
  | nil => rfl
  | cons b bets ih =>
    have ih := ih fun x hx => h x (List.mem_cons_of_mem _ hx)
    obtain ⟨g1, g2⟩ := h b List.mem_cons_self
    rw [List.filterMap_cons]
    by_cases hs : b.start ≤ T
    · have hk : knownBet T b = some ⟨b.start, b.stop.filter fun e => decide (e ≤ T), b.size⟩ := if_pos hs
      rw [hk]
      simp only [List.map_cons]
      have ha : act (Lab.convertToTimestamp (some u)) (ms b) =
          act (Lab.convertToTimestamp (some u)) (ms ⟨b.start, b.stop.filter fun e => decide (e ≤ T), b.size⟩) := by
        unfold act ms
        congr 1
        cases hb : b.stop with
        | none => rfl
        | some e =>
          by_cases he : e ≤ T
          · simp [Option.filter, he]
          · have h1 := (Lab.toMs_lt hgu (g2 e hb).1).2 (show u < e by omega)
            simp [Option.filter, he, h1, conv_none]
      by_cases hact : act (Lab.convertToTimestamp (some u)) (ms b) = true
      · rw [List.filter_cons_of_pos hact, List.filter_cons_of_pos (ha ▸ hact), List.map_cons, List.map_cons, ih]; rfl
      · rw [List.filter_cons_of_neg hact, List.filter_cons_of_neg (ha ▸ hact), ih]
    · have hk : knownBet T b = none := if_neg hs
      rw [hk, List.map_cons, List.filter_cons_of_neg, ih]
      have h1 := (Lab.toMs_lt hgu g1).2 (show u < b.start by omega)
      simp only [act, ms, Bool.and_eq_true, decide_eq_true_eq, not_and]
      exact fun h2 => absurd (of_decide_eq_true h2) (not_le.2 h1)

private theorem avg_eq (bets bets' : List (ℤ × ℤ × XF K)) (u : ℤ)
    (h : (bets.filter (act u)).map (·.2.2) = (bets'.filter (act u)).map (·.2.2)) : avgActiveAt bets u = avgActiveAt bets' u := by
  have hl := congrArg List.length h
  rw [List.length_map, List.length_map] at hl
  unfold avgActiveAt
  unfold act at h hl
  dsimp only
  rw [h, hl]

theorem changeTimes_known (T : ℤ) (bets : List (Bet.Bet K)) (h : OnGrid bets) :
    (changeTimes bets).filter (fun u => decide (u ≤ T)) = (changeTimes (bets.filterMap (knownBet T))).filter fun u => decide (u ≤ T) := by
  apply eq_of_mem_iff_of_pairwise_lt ((pairwise_npUnique _).sublist List.filter_sublist) ((pairwise_npUnique _).sublist List.filter_sublist)
  intro u
  simp only [List.mem_filter, mem_npUnique, List.mem_append, List.mem_filterMap, List.mem_map, decide_eq_true_eq]
  constructor
  · rintro ⟨h1, hu⟩
    refine ⟨?_, hu⟩
    rcases h1 with ⟨b, hb, he⟩ | ⟨b, hb, rfl⟩
    · have := ((h b hb).2 u he).2
      refine Or.inl ⟨⟨b.start, b.stop.filter fun e => decide (e ≤ T), b.size⟩, ⟨b, hb, if_pos (by omega)⟩, ?_⟩
      simp [he, Option.filter, hu]
    · exact Or.inr ⟨⟨b.start, b.stop.filter fun e => decide (e ≤ T), b.size⟩, ⟨b, hb, if_pos hu⟩, rfl⟩
  · rintro ⟨h1, hu⟩
    refine ⟨?_, hu⟩
    have key : ∀ b b' : Bet.Bet K, knownBet T b = some b' → b' = ⟨b.start, b.stop.filter fun e => decide (e ≤ T), b.size⟩ := by
      intro b b' hk
      unfold knownBet at hk
      split at hk
      · simpa using hk.symm
      · simp at hk
    rcases h1 with ⟨b', ⟨b, hb, hk⟩, he⟩ | ⟨b', ⟨b, hb, hk⟩, rfl⟩
    · rw [key b b' hk] at he
      simp only [Option.filter_eq_some_iff] at he
      exact Or.inl ⟨b, hb, he.1⟩
    · rw [key b b' hk] at hu ⊢
      exact Or.inr ⟨b, hb, rfl⟩

/-- **C120** (partial: times are whole milliseconds) The averages up to a time depend on what is known of the bets at this time only. -/
theorem C120_known_partial (T : ℤ) (bets : List (Bet.Bet K)) (h : OnGrid bets) :
    upTo T (avgActiveSignals bets) = upTo T (avgActiveSignals (bets.filterMap (knownBet T))) := by
  unfold avgActiveSignals upTo
  rw [List.filter_map, List.filter_map]
  have e : ∀ (g : ℤ → ℤ × XF K), (∀ u, (g u).1 = u) → ((fun r : ℤ × XF K => decide (r.1 ≤ T)) ∘ g) = fun u => decide (u ≤ T) := by
    intro g hg; funext u; simp [hg]
  rw [e _ fun u => rfl, e _ fun u => rfl, ← changeTimes_known T bets h]
  apply List.map_congr_left
  intro u hu
  rw [List.mem_filter] at hu
  have hgu : (1000000 : ℤ) ∣ u := by
    have := hu.1
    unfold changeTimes at this
    rw [mem_npUnique, List.mem_append, List.mem_filterMap, List.mem_map] at this
    rcases this with ⟨b, hb, he⟩ | ⟨b, hb, rfl⟩
    · exact ((h b hb).2 u he).1
    · exact (h b hb).1
  congr 1
  exact avg_eq _ _ _ (active_known (by simpa using hu.2) hgu bets h)

/-- **C120** (partial: times are whole milliseconds) Two books of bets of which the same is known at a time have the same averages up to this
time: bets opened later and the later ends of open bets do not matter. -/
theorem C120_no_look_ahead_partial (T : ℤ) (bets bets' : List (Bet.Bet K)) (h : OnGrid bets) (h' : OnGrid bets')
    (hk : bets.filterMap (knownBet T) = bets'.filterMap (knownBet T)) : upTo T (avgActiveSignals bets) = upTo T (avgActiveSignals bets') := by
  rw [C120_known_partial T bets h, C120_known_partial T bets' h', hk]

theorem upTo_map_snd {α β : Type} (t : ℤ) (g : α → β) (l : List (ℤ × α)) :
    upTo t (l.map fun p => (p.1, g p.2)) = (upTo t l).map fun p => (p.1, g p.2) := by
  unfold upTo
  rw [List.filter_map]
  rfl

end

/-- One row given to the bet sizer. -/
structure BetObs where
  time : ℤ
  prob : XF ℝ
  pred : XF ℝ
  side : XF ℝ
  stop : Option ℤ

/-- The frame with these rows. -/
def obsFrame (rows : List BetObs) : Bet.Frame :=
  ⟨rows.map (·.time), some (rows.map (·.prob)), some (rows.map (·.pred)), some (rows.map (·.side)), some (rows.map (·.stop))⟩

/-- What is known of a row at time `T`. -/
def knownObs (T : ℤ) (r : BetObs) : Option BetObs :=
  if r.time ≤ T then some { r with stop := r.stop.filter fun e => decide (e ≤ T) } else none

/-- All times are whole milliseconds and no bet ends before it starts. -/
def ObsOnGrid (rows : List BetObs) : Prop :=
  ∀ r ∈ rows, (1000000 : ℤ) ∣ r.time ∧ ∀ e, r.stop = some e → (1000000 : ℤ) ∣ e ∧ r.time ≤ e

/-- The signed signal of a row. -/
noncomputable def obsSignal (c : Bet.Cfg) (r : BetObs) : XF ℝ :=
  if c.metaLabeling then XF.mul (signal1 c.numClasses r.pred r.prob) r.side else signal1 c.numClasses r.pred r.prob

/-- The value after averaging. -/
noncomputable def obsPost (c : Bet.Cfg) (x : XF ℝ) : XF ℝ :=
  XF.abs (if c.discretise then discretise1 (c.stepSize.getD 0) x else x)

theorem obs_transform {c : Bet.Cfg} (ha : c.averageActive = true) {rows : List BetObs} {s : List (ℤ × XF ℝ)}
    (h : Bet.transform c (obsFrame rows) = .ok s) :
    s = (avgActiveSignals (rows.map fun r => (⟨r.time, r.stop, obsSignal c r⟩ : Bet.Bet ℝ))).map fun p => (p.1, obsPost c p.2) := by
  have h0 : transform0 c (obsFrame rows) = .ok s := by
    unfold Bet.transform at h
    split at h
    · simp at h
    · split at h
      · simp only [Except.ok.injEq] at h; subst h; assumption
      · simp at h
  unfold transform0 obsFrame at h0
  dsimp only at h0
  split at h0
  · simp at h0
  · split at h0
    · simp at h0
    · rename_i x h1
      have hx : x = rows.map (obsSignal c) := by
        unfold applySide at h1
        unfold obsSignal
        by_cases hm : c.metaLabeling = true
        · simp only [hm, if_true] at h1 ⊢
          split at h1
          · simp only [Except.ok.injEq] at h1
            subst h1
            simp only [List.zipWith_map, List.zipWith_self]
          · simp at h1
        · simp only [hm] at h1 ⊢
          simp only [Bool.false_eq_true, if_false, Except.ok.injEq] at h1 ⊢
          subst h1
          simp only [List.zipWith_map, List.zipWith_self]
      subst hx
      split at h0
      · simp at h0
      · rename_i y h2
        have hy : y = avgActiveSignals (rows.map fun r => (⟨r.time, r.stop, obsSignal c r⟩ : Bet.Bet ℝ)) := by
          unfold applyAverage at h2
          simp only [ha, if_true] at h2
          split at h2
          · simp at h2
          · split at h2
            · simp only [Except.ok.injEq] at h2
              subst h2
              congr 1
              rw [List.zip_map', List.zipWith_map, List.zipWith_self]
            · split at h2 <;> simp at h2
        subst hy
        split at h0
        · simp at h0
        · rename_i z h3
          simp only [Except.ok.injEq] at h0
          subst h0
          unfold applyDiscretise at h3
          unfold obsPost
          by_cases hd : c.discretise = true
          · simp only [hd, if_true] at h3 ⊢
            cases hst : c.stepSize with
            | none => rw [hst] at h3; simp at h3
            | some st =>
              rw [hst] at h3
              unfold discretiseSignal at h3
              dsimp only at h3
              split at h3
              · simp only [Except.ok.injEq] at h3
                subst h3
                rw [List.map_map]
                rfl
              · simp at h3
          · simp only [hd] at h3 ⊢
            simp only [Bool.false_eq_true, if_false, Except.ok.injEq] at h3 ⊢
            subst h3
            rfl

/-- **C120** (partial: times are whole milliseconds) The bet sizer with averaging has no look-ahead: for two inputs of which the same is known at
a time, the sizes up to this time are the same, whatever comes later and whenever the open bets end. -/
theorem C120_bet_sizer_partial (c : Bet.Cfg) (ha : c.averageActive = true) (T : ℤ) (rows rows' : List BetObs) (hg : ObsOnGrid rows)
    (hg' : ObsOnGrid rows') (hk : rows.filterMap (knownObs T) = rows'.filterMap (knownObs T)) (s s' : List (ℤ × XF ℝ))
    (h : Bet.transform c (obsFrame rows) = .ok s) (h' : Bet.transform c (obsFrame rows') = .ok s') : upTo T s = upTo T s' := by
  rw [obs_transform ha h, obs_transform ha h', upTo_map_snd, upTo_map_snd]
  have grid : ∀ rows : List BetObs, ObsOnGrid rows → OnGrid (rows.map fun r => (⟨r.time, r.stop, obsSignal c r⟩ : Bet.Bet ℝ)) := by
    intro rows hg b hb
    obtain ⟨r, hr, rfl⟩ := List.mem_map.1 hb
    exact hg r hr
  have known : ∀ rows : List BetObs, (rows.map fun r => (⟨r.time, r.stop, obsSignal c r⟩ : Bet.Bet ℝ)).filterMap (knownBet T) =
      (rows.filterMap (knownObs T)).map fun r => (⟨r.time, r.stop, obsSignal c r⟩ : Bet.Bet ℝ) := by
    intro rows
    induction rows with
    | nil => rfl
    | cons r rows ih =>
      rw [List.map_cons, List.filterMap_cons, List.filterMap_cons, ih]
      unfold knownBet knownObs
      by_cases hr : r.time ≤ T
      · simp only [if_pos hr, List.map_cons]; rfl
      · simp only [if_neg hr]
  rw [C120_no_look_ahead_partial T _ _ (grid rows hg) (grid rows' hg') (by rw [known, known, hk])]

section Examples

/-- **C120** Below the millisecond it is false: a bet opened half a microsecond later changes the average of the bet before. -/
theorem C120_sub_millisecond_refuted :
    avgActiveSignals [(⟨1000000, none, .fin 1⟩ : Bet.Bet ℚ)] = [(1000000, .fin 1)] ∧
    avgActiveSignals [(⟨1000000, none, .fin 1⟩ : Bet.Bet ℚ), ⟨1000500, none, .fin (-1)⟩] = [(1000000, .fin 0), (1000500, .fin 0)] := by
  decide +kernel

/-- Two books: at 4 ms the same is known of them. -/
def book : List (Bet.Bet ℚ) := [⟨1000000, some 3000000, .fin 1⟩, ⟨2000000, some 9000000, .fin (-1/2)⟩, ⟨5000000, none, .fin 1⟩]

def book' : List (Bet.Bet ℚ) := [⟨1000000, some 3000000, .fin 1⟩, ⟨2000000, some 5000000, .fin (-1/2)⟩, ⟨6000000, some 7000000, .nan⟩]

example : book.filterMap (knownBet 4000000) = [⟨1000000, some 3000000, .fin 1⟩, ⟨2000000, none, .fin (-1/2)⟩] ∧
    book'.filterMap (knownBet 4000000) = [⟨1000000, some 3000000, .fin 1⟩, ⟨2000000, none, .fin (-1/2)⟩] := ⟨rfl, rfl⟩

example : avgActiveSignals book = [(1000000, .fin 1), (2000000, .fin (1/4)), (3000000, .fin (-1/2)), (5000000, .fin (1/4)), (9000000, .fin 1)] := by
  decide +kernel

example : avgActiveSignals book' = [(1000000, .fin 1), (2000000, .fin (1/4)), (3000000, .fin (-1/2)), (5000000, .fin 0), (6000000, .nan), (7000000, .fin 0)] := by
  decide +kernel

theorem book_grid : OnGrid book ∧ OnGrid book' := by
  constructor <;> intro b hb <;> simp only [book, book', List.mem_cons, List.not_mem_nil, or_false] at hb <;>
    rcases hb with rfl | rfl | rfl <;> simp <;> norm_num

example : upTo 4000000 (avgActiveSignals book) = upTo 4000000 (avgActiveSignals book') :=
  C120_no_look_ahead_partial 4000000 book book' book_grid.1 book_grid.2 rfl

end Examples
end Mizar.Props
