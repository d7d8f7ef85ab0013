import Verif.Props.MoreEvents
import Verif.Props.SampleWeights
import Verif.Props.CV

/-!
Property theorems C122: average uniqueness and return weight of an event are known at its end
(`/repo/mizarlabs/transformers/sampling/average_uniqueness.py`, `/repo/mizarlabs/transformers/sample_weights/__init__.py`).
-/

set_option linter.unusedSectionVars false

namespace Mizar.Props
open Mizar.Spec Mizar.Boot Mizar.SW

/-- What is known of an event at time `T`: nothing before its start, then its start, and its end once it has passed. -/
def knownEvent (T : ℤ) (e : ℤ × ℤ) : Option (ℤ × Option ℤ) :=
  if e.1 ≤ T then some (e.1, if e.2 ≤ T then some e.2 else none) else none

/-- The number of live events at a time up to `T` is known at `T`. -/
theorem aliveAt_known {T t : ℤ} (ht : t ≤ T) (ev : List (ℤ × ℤ)) :
    aliveAt ev t = ((ev.filterMap (knownEvent T)).filter fun k => decide (k.1 ≤ t) && k.2.all fun e => decide (t ≤ e)).length := by
  unfold aliveAt
  induction ev with
  | nil => rfl
  | cons e ev ih =>
    rw [List.filterMap_cons]
    unfold knownEvent at ih ⊢
    by_cases h1 : e.1 ≤ T
    · rw [if_pos h1]
      dsimp only
      by_cases h2 : e.2 ≤ T
      · rw [if_pos h2]
        by_cases hc : Covers e t
        · rw [List.filter_cons_of_pos (by simpa using hc), List.filter_cons_of_pos (by simpa [Covers] using hc), List.length_cons, List.length_cons, ih]
        · rw [List.filter_cons_of_neg (by simpa using hc), List.filter_cons_of_neg (by simpa [Covers] using hc), ih]
      · rw [if_neg h2]
        by_cases hc : e.1 ≤ t
        · rw [List.filter_cons_of_pos (p := fun e => decide (Covers e t)) (decide_eq_true (show Covers e t from ⟨hc, by omega⟩)), List.filter_cons_of_pos (by simpa using hc), List.length_cons,
            List.length_cons, ih]
        · rw [List.filter_cons_of_neg (by simp [Covers, hc]), List.filter_cons_of_neg (by simpa using hc), ih]
    · rw [if_neg h1]
      dsimp only
      rw [List.filter_cons_of_neg (fun hc => by have := (of_decide_eq_true hc).1; omega), ih]

/-- The recorded times up to `T` are known at `T`. -/
theorem times_known {T t : ℤ} (ht : t ≤ T) (ev : List (ℤ × ℤ)) (hse : ∀ e ∈ ev, e.1 ≤ e.2) :
    t ∈ ev.map (·.1) ++ ev.map (·.2) ↔ ∃ k ∈ ev.filterMap (knownEvent T), k.1 = t ∨ k.2 = some t := by
  simp only [List.mem_append, List.mem_map, List.mem_filterMap, knownEvent]
  constructor
  · rintro (⟨e, he, rfl⟩ | ⟨e, he, rfl⟩)
    · exact ⟨_, ⟨e, he, if_pos ht⟩, Or.inl rfl⟩
    · exact ⟨_, ⟨e, he, if_pos ((hse e he).trans ht)⟩, Or.inr (by simp [ht])⟩
  · rintro ⟨k, ⟨e, he, hk⟩, h⟩
    split at hk
    · cases hk
      rcases h with rfl | h
      · exact Or.inl ⟨e, he, rfl⟩
      · dsimp only at h
        split at h
        · cases h; exact Or.inr ⟨e, he, rfl⟩
        · cases h
    · cases hk

/-- An event that has ended is known. -/
theorem mem_of_known {T : ℤ} {ev ev' : List (ℤ × ℤ)} (hk : ev.filterMap (knownEvent T) = ev'.filterMap (knownEvent T)) {e : ℤ × ℤ}
    (he : e ∈ ev) (hse : e.1 ≤ e.2) (hT : e.2 ≤ T) : e ∈ ev' := by
  have h1 : (e.1, some e.2) ∈ ev.filterMap (knownEvent T) :=
    List.mem_filterMap.2 ⟨e, he, by rw [knownEvent, if_pos (hse.trans hT), if_pos hT]⟩
  rw [hk, List.mem_filterMap] at h1
  obtain ⟨e', he', h2⟩ := h1
  unfold knownEvent at h2
  split at h2
  · split at h2
    · simp only [Option.some.injEq, Prod.mk.injEq] at h2
      have h3 : e' = e := Prod.ext h2.1 h2.2
      exact h3 ▸ he'
    · simp at h2
  · cases h2

theorem eventUniq_known {T : ℤ} {ev ev' : List (ℤ × ℤ)} (hse : ∀ e ∈ ev, e.1 ≤ e.2) (hse' : ∀ e ∈ ev', e.1 ≤ e.2)
    (hk : ev.filterMap (knownEvent T) = ev'.filterMap (knownEvent T)) {e : ℤ × ℤ} (hT : e.2 ≤ T) :
    eventUniq (ev'.map (·.1) ++ ev'.map (·.2)).toFinset ev' e = eventUniq (ev.map (·.1) ++ ev.map (·.2)).toFinset ev e := by
  apply eventUniq_congr
  · ext t
    rw [Finset.mem_filter, Finset.mem_filter, List.mem_toFinset, List.mem_toFinset]
    refine and_congr_left fun hc => ?_
    have ht : t ≤ T := hc.2.trans hT
    rw [times_known ht ev' hse', times_known ht ev hse, hk]
  · intro t hc
    have ht : t ≤ T := hc.2.trans hT
    rw [aliveAt_known ht, aliveAt_known ht, hk]

/-- **C122** The average uniqueness of an event is known at its end: for two sets of events of which the same is known at a time, an event that
has ended by then has the same average uniqueness in both, whatever starts later and whenever the open events end. -/
theorem C122_uniqueness (T : ℤ) (X X' : List (ℤ × ℤ)) (hlen : 2 ≤ X.length) (hlen' : 2 ≤ X'.length) (hnd : (X.map (·.1)).Nodup)
    (hnd' : (X'.map (·.1)).Nodup) (hse : ∀ e ∈ X, e.1 ≤ e.2) (hse' : ∀ e ∈ X', e.1 ≤ e.2)
    (hk : X.filterMap (knownEvent T) = X'.filterMap (knownEvent T)) :
    ∃ r r', averageUniqueness (X.map fun e => (e.1, some e.2)) = .ok r ∧ averageUniqueness (X'.map fun e => (e.1, some e.2)) = .ok r' ∧
      ∀ e ∈ X, e.2 ≤ T → ∃ u, (e.1, u) ∈ r ∧ (e.1, u) ∈ r' := by
  refine ⟨_, _, (C13_transform X hlen hnd hse).1, (C13_transform X' hlen' hnd' hse').1, ?_⟩
  intro e he hT
  refine ⟨_, List.mem_map.2 ⟨e, he, rfl⟩, List.mem_map.2 ⟨e, mem_of_known hk he (hse e he) hT, ?_⟩⟩
  rw [eventUniq_known hse hse' hk hT]

/-- Two sets of events; at time 7 the second event of each is open and the third has not started. -/
example : ([(1, 3), (2, 9), (8, 12)] : List (ℤ × ℤ)).filterMap (knownEvent 7) = [(1, 3), (2, 20), (10, 11)].filterMap (knownEvent 7) ∧
    averageUniqueness [(1, some 3), (2, some 9), (8, some 12)] = .ok [(1, .fin (2/3)), (2, .fin (1/2)), (8, .fin (2/3))] ∧
    averageUniqueness [(1, some 3), (2, some 20), (10, some 11)] =
      .ok [(1, .fin (2/3)), (2, .fin (3/5)), (10, .fin (1/2))] := by decide +kernel

/-- **C122** The average uniqueness of a training sample in a combinatorial purged round is known before the prediction of every later test
sample of the round: with other samples from the test sample on, and other label ends not before its prediction, it is the same. -/
theorem C122_training_sample (n g k : ℕ) (pred eval : ℕ → ℤ) (emb : ℤ) (hg : 1 ≤ g) (hn : 2 ≤ n) (hT : Timeline n pred eval)
    (hst : ∀ i j, i < j → j < n → pred i < pred j) (rounds : List (List ℕ × List ℕ)) (hs : CV.split n g k pred eval emb = .ok rounds)
    (r : List ℕ × List ℕ) (hr : r ∈ rounds) (i t : ℕ) (hi : i ∈ r.1) (hin : i < n) (ht : t ∈ r.2) (hit : i < t)
    (X' : List (ℤ × ℤ)) (hlen' : 2 ≤ X'.length) (hnd' : (X'.map (·.1)).Nodup) (hse' : ∀ e ∈ X', e.1 ≤ e.2)
    (hk : ((List.range n).map fun i => (pred i, eval i)).filterMap (knownEvent (pred t - 1)) = X'.filterMap (knownEvent (pred t - 1))) :
    ∃ u r r', averageUniqueness ((List.range n).map fun i => (pred i, some (eval i))) = .ok r ∧
      averageUniqueness (X'.map fun e => (e.1, some e.2)) = .ok r' ∧ (pred i, u) ∈ r ∧ (pred i, u) ∈ r' := by
  have h1 := C05_purged_before_test n g k pred eval emb hg hT rounds hs r hr i t hi ht hit
  obtain ⟨a, a', h2, h3, h4⟩ := C122_uniqueness (pred t - 1) ((List.range n).map fun i => (pred i, eval i)) X' (by simpa using hn) hlen'
    (by
      rw [List.map_map, List.nodup_map_iff_inj_on List.nodup_range]
      intro x hx y hy hxy
      rw [List.mem_range] at hx hy
      dsimp only [Function.comp] at hxy
      rcases lt_trichotomy x y with h | h | h
      · have := hst x y h hy; omega
      · exact h
      · have := hst y x h hx; omega) hnd'
    (by
      intro e he
      obtain ⟨x, hx, rfl⟩ := List.mem_map.1 he
      exact hT.fwd x (List.mem_range.1 hx)) hse' hk
  rw [List.map_map] at h2
  obtain ⟨u, h5, h6⟩ := h4 (pred i, eval i) (List.mem_map.2 ⟨i, List.mem_range.2 hin, rfl⟩) (by dsimp only; omega)
  exact ⟨u, a, a', h2, h3, h5, h6⟩

/-- A round whose test set is the last third: sample 1 is trained on, and its uniqueness does not see the sample added at time 9. -/
example : ∃ rounds, CV.split 3 3 1 (fun i => [1, 2, 8].getD i 0) (fun i => [3, 6, 9].getD i 0) 0 = .ok rounds ∧ ([0, 1], [2]) ∈ rounds ∧
    ((List.range 3).map fun i => (([1, 2, 8] : List ℤ).getD i 0, ([3, 6, 9] : List ℤ).getD i 0)).filterMap (knownEvent 7) =
      [(1, 3), (2, 6), (8, 20), (9, 9)].filterMap (knownEvent 7) := ⟨_, rfl, by decide +kernel, by decide +kernel⟩

/-- What is known at time `T` of a row of the frame: nothing before its start, then its start and price, and its end once it has passed. -/
def knownRow (T : ℤ) (r : (ℤ × ℤ) × Option ℝ) : Option ((ℤ × Option ℤ) × Option ℝ) :=
  (knownEvent T r.1).map fun k => (k, r.2)

theorem filterMap_getElem? {α β : Type*} (f : α → Option β) (l : List α) (h : l.Pairwise fun a b => f a = none → f b = none) (k : ℕ) :
    (l.filterMap f)[k]? = l[k]?.bind f := by
  induction l generalizing k with
  | nil => rfl
  | cons a l ih =>
    obtain ⟨h1, h2⟩ := List.pairwise_cons.1 h
    rw [List.filterMap_cons]
    cases ha : f a with
    | none =>
      have h3 : l.filterMap f = [] := List.filterMap_eq_nil_iff.2 fun b hb => h1 b hb ha
      dsimp only
      rw [h3, List.getElem?_nil]
      cases k with
      | zero => simp [ha]
      | succ k => rw [List.getElem?_cons_succ, ← ih h2 k, h3, List.getElem?_nil]
    | some b =>
      cases k with
      | zero => simp [ha]
      | succ k => rw [List.getElem?_cons_succ]; exact ih h2 k

theorem knownEvent_of_knownRow {T : ℤ} (ev : List (ℤ × ℤ)) (close : List (Option ℝ)) (hlen : close.length = ev.length) :
    ev.filterMap (knownEvent T) = ((ev.zip close).filterMap (knownRow T)).map (·.1) := by
  induction ev generalizing close with
  | nil => rfl
  | cons e ev ih =>
    cases close with
    | nil => simp at hlen
    | cons c close =>
      rw [List.zip_cons_cons, List.filterMap_cons, List.filterMap_cons, ih close (by simpa using hlen)]
      unfold knownRow
      dsimp only
      cases knownEvent T e <;> rfl

theorem knownEvent_none {T : ℤ} (e : ℤ × ℤ) : knownEvent T e = none ↔ T < e.1 := by
  unfold knownEvent
  split
  · rename_i h; simp [h]
  · rename_i h; simpa using h

theorem knownRow_pairwise {T : ℤ} (ev : List (ℤ × ℤ)) (close : List (Option ℝ)) (hs : (ev.map (·.1)).Pairwise (· < ·)) :
    (ev.zip close).Pairwise fun a b => knownRow T a = none → knownRow T b = none := by
  rw [List.pairwise_iff_getElem] at hs ⊢
  intro i j hi hj hij
  rw [List.getElem_zip, List.getElem_zip]
  simp only [knownRow, Option.map_eq_none_iff, knownEvent_none]
  have := hs i j (by simp at hi; simp [hi]) (by simp at hj; simp [hj]) hij
  simp only [List.getElem_map] at this
  exact fun h => h.trans this

/-- A row that has started is at the same place in both frames, with the same price. -/
theorem row_known {T : ℤ} {ev ev' : List (ℤ × ℤ)} {close close' : List (Option ℝ)} (hlen : close.length = ev.length)
    (hlen' : close'.length = ev'.length) (hs : (ev.map (·.1)).Pairwise (· < ·)) (hs' : (ev'.map (·.1)).Pairwise (· < ·))
    (hk : (ev.zip close).filterMap (knownRow T) = (ev'.zip close').filterMap (knownRow T)) {k : ℕ} (hkl : k < ev.length)
    (hT : (ev.getD k (0, 0)).1 ≤ T) :
    k < ev'.length ∧ (ev'.getD k (0, 0)).1 = (ev.getD k (0, 0)).1 ∧ close'.getD k none = close.getD k none ∧
      knownEvent T (ev'.getD k (0, 0)) = knownEvent T (ev.getD k (0, 0)) := by
  have h1 := congrArg (·[k]?) hk
  rw [filterMap_getElem? _ _ (knownRow_pairwise ev close hs), filterMap_getElem? _ _ (knownRow_pairwise ev' close' hs'),
    List.getElem?_eq_getElem (by simp [hlen, hkl]), List.getElem_zip, Option.bind_some] at h1
  have e1 : ev.getD k (0, 0) = ev[k] := by simp [List.getD_eq_getElem?_getD, hkl]
  have e2 : close.getD k none = close[k] := by simp [List.getD_eq_getElem?_getD, hlen, hkl]
  rw [e1] at hT ⊢
  rw [e2]
  have h2 : knownRow T (ev[k], close[k]) = some ((ev[k].1, if ev[k].2 ≤ T then some ev[k].2 else none), close[k]) := by
    unfold knownRow knownEvent; rw [if_pos hT]; rfl
  rw [h2] at h1
  by_cases hk' : k < ev'.length
  · rw [List.getElem?_eq_getElem (by simp [hlen', hk']), List.getElem_zip, Option.bind_some] at h1
    have e3 : ev'.getD k (0, 0) = ev'[k] := by simp [List.getD_eq_getElem?_getD, hk']
    have e4 : close'.getD k none = close'[k] := by simp [List.getD_eq_getElem?_getD, hlen', hk']
    rw [e3, e4]
    unfold knownRow knownEvent at h1
    dsimp only at h1
    by_cases h3 : ev'[k].1 ≤ T
    · rw [if_pos h3] at h1
      simp only [Option.map_some, Option.some.injEq, Prod.mk.injEq] at h1
      refine ⟨hk', h1.1.1.symm, h1.2.symm, ?_⟩
      unfold knownEvent
      rw [if_pos h3, if_pos hT, h1.1.1, h1.1.2]
    · rw [if_neg h3] at h1
      simp at h1
  · rw [List.getElem?_eq_none (by simp; omega)] at h1
    simp at h1

/-- **C122** (partial: whole milliseconds, rows in time order) The weight by return of an event is known at its end: for two frames of which the
same rows, prices and ends are known at a time, an event that has ended by then has the same weight in both. -/
theorem C122_return_weight_partial (T : ℤ) (ev ev' : List (ℤ × ℤ)) (close close' : List (Option ℝ)) (hlen : close.length = ev.length)
    (hlen' : close'.length = ev'.length) (hpos : ∀ c, some c ∈ close → 0 < c) (hpos' : ∀ c, some c ∈ close' → 0 < c)
    (hse : ∀ e ∈ ev, e.1 ≤ e.2) (hse' : ∀ e ∈ ev', e.1 ≤ e.2) (h2 : 2 ≤ ev.length) (h2' : 2 ≤ ev'.length)
    (hms : ∀ e ∈ ev, (1000000 : ℤ) ∣ e.1 ∧ (1000000 : ℤ) ∣ e.2) (hms' : ∀ e ∈ ev', (1000000 : ℤ) ∣ e.1 ∧ (1000000 : ℤ) ∣ e.2)
    (hs : (ev.map (·.1)).Pairwise (· < ·)) (hs' : (ev'.map (·.1)).Pairwise (· < ·))
    (hk : (ev.zip close).filterMap (knownRow T) = (ev'.zip close').filterMap (knownRow T)) :
    ∃ s s', weightsByReturns (frame ev close) = .ok s ∧ weightsByReturns (frame ev' close') = .ok s' ∧
      ∀ j (hj : j < ev.length), ev[j].2 ≤ T → s[j]?.isSome ∧ s'[j]? = s[j]? := by
  have hd : ∀ l : List (ℤ × ℤ), (l.map (·.1)).Pairwise (· < ·) → 2 ≤ l.length → ∃ e ∈ l, ∃ e' ∈ l, e ≠ e' := by
    intro l hl hl2
    refine ⟨l[0], List.getElem_mem _, l[1], List.getElem_mem _, fun h => ?_⟩
    have := List.pairwise_iff_getElem.1 hl 0 1 (by simp; omega) (by simp; omega) Nat.zero_lt_one
    rw [List.getElem_map, List.getElem_map, h] at this
    exact lt_irrefl _ this
  obtain ⟨w, a1, a2⟩ := C42_weights_by_return_partial ev close hlen hpos hse (hd ev hs h2) hms
  obtain ⟨w', b1, b2⟩ := C42_weights_by_return_partial ev' close' hlen' hpos' hse' (hd ev' hs' h2') hms'
  refine ⟨_, _, a1, b1, fun j hj hT => ⟨by simp [hj], ?_⟩⟩
  have hke : ev.filterMap (knownEvent T) = ev'.filterMap (knownEvent T) := by
    rw [knownEvent_of_knownRow ev close hlen, knownEvent_of_knownRow ev' close' hlen', hk]
  have hke' : (ev'.zip close').filterMap (knownRow T) = (ev.zip close).filterMap (knownRow T) := hk.symm
  have e1 : ev.getD j (0, 0) = ev[j] := by simp [List.getD_eq_getElem?_getD, hj]
  have hjs : ev[j].1 ≤ T := (hse _ (List.getElem_mem hj)).trans hT
  obtain ⟨hj', c1, -, c2⟩ := row_known hlen hlen' hs hs' hk hj (by rw [e1]; exact hjs)
  have e2 : ev'.getD j (0, 0) = ev'[j] := by simp [List.getD_eq_getElem?_getD, hj']
  rw [e1, e2] at c1 c2
  have heq : ev'[j] = ev[j] := by
    unfold knownEvent at c2
    rw [if_pos (by rw [c1]; exact hjs), if_pos hjs, if_pos hT] at c2
    split at c2
    · simp only [Option.some.injEq, Prod.mk.injEq] at c2
      exact Prod.ext c2.1 c2.2
    · simp at c2
  rw [List.getElem?_map, List.getElem?_map, List.getElem?_eq_getElem hj, List.getElem?_eq_getElem hj', Option.map_some, Option.map_some, heq]
  have hm := List.getElem_mem hj
  rw [(a2 _ hm).1, (b2 _ (heq ▸ List.getElem_mem hj')).1]
  have hb : barsIn ev' ev[j] = barsIn ev ev[j] := by
    ext k
    unfold barsIn
    rw [Finset.mem_filter, Finset.mem_filter, Finset.mem_range, Finset.mem_range]
    constructor
    · rintro ⟨q1, q2⟩
      obtain ⟨q3, q4, -, -⟩ := row_known hlen' hlen hs' hs hke' q1 (q2.2.trans hT)
      exact ⟨q3, q4 ▸ q2⟩
    · rintro ⟨q1, q2⟩
      obtain ⟨q3, q4, -, -⟩ := row_known hlen hlen' hs hs' hk q1 (q2.2.trans hT)
      exact ⟨q3, q4 ▸ q2⟩
  rw [hb]
  congr 4
  apply Finset.sum_congr rfl
  intro k hk1
  obtain ⟨q1, q2⟩ := Finset.mem_filter.1 hk1
  rw [Finset.mem_range] at q1
  have q3 : (ev.getD k (0, 0)).1 ≤ T := q2.2.trans hT
  obtain ⟨q4, q5, q6, -⟩ := row_known hlen hlen' hs hs' hk q1 q3
  rw [q5, aliveAt_known q3, aliveAt_known q3, hke]
  congr 1
  unfold logRet
  by_cases hk0 : k = 0
  · rw [if_pos hk0, if_pos hk0]
  · rw [if_neg hk0, if_neg hk0, q6]
    have q7 : (ev.getD (k - 1) (0, 0)).1 ≤ T := by
      have := List.pairwise_iff_getElem.1 hs (k - 1) k (by simp; omega) (by simpa using q1) (by omega)
      rw [List.getElem_map, List.getElem_map] at this
      have q8 : ev.getD k (0, 0) = ev[k] := by simp [List.getD_eq_getElem?_getD, q1]
      have q9 : ev.getD (k - 1) (0, 0) = ev[k - 1]'(by omega) := by
        rw [List.getD_eq_getElem?_getD, List.getElem?_eq_getElem (by omega), Option.getD_some]
      rw [q9]; rw [q8] at q3
      exact this.le.trans q3
    obtain ⟨-, -, q10, -⟩ := row_known hlen hlen' hs hs' hk (k := k - 1) (by omega) q7
    rw [q10]

/-- Two frames of which the same is known at 7 ms; the first event ends at 3 ms. -/
example (a b c d : ℝ) : (([(1000000, 3000000), (2000000, 9000000), (8000000, 8000000)] : List (ℤ × ℤ)).zip [some a, some b, some c]).filterMap
      (knownRow 7000000) = ([(1000000, 3000000), (2000000, 20000000), (10000000, 11000000)].zip [some a, some b, some d]).filterMap
      (knownRow 7000000) := by
  simp [knownRow, knownEvent]

/-- C122 is false for the weights by time decay: the last event always has weight 1, so the weight of an ended event changes with every event
that starts later. -/
theorem C122_time_decay_refuted : ∃ X X' : List (ℤ × ℤ), X.filterMap (knownEvent 7) = X'.filterMap (knownEvent 7) ∧
    timeDecay (1/2) (X.map fun e => (e.1, some e.2)) = .ok [(1, .fin (3/4)), (4, .fin 1)] ∧
    timeDecay (1/2) (X'.map fun e => (e.1, some e.2)) = .ok [(1, .fin (2/3)), (4, .fin (5/6)), (8, .fin 1)] :=
  ⟨[(1, 3), (4, 6)], [(1, 3), (4, 6), (8, 9)], by decide, by decide +kernel, by decide +kernel⟩

/-- C122 is false for the weights by return below the millisecond: the first event ends at 1000300 ns, but its weight contains the return of the
bar that starts 100 ns later. -/
theorem C122_sub_millisecond_refuted : ∃ s s',
    (([(0, 1000300), (1000400, 1000400)] : List (ℤ × ℤ)).zip [some 1, some 1]).filterMap (knownRow 1000300) =
      ([(0, 1000300), (1000400, 1000400)].zip [some 1, some (Real.exp 1)]).filterMap (knownRow 1000300) ∧
    weightsByReturns (frame [(0, 1000300), (1000400, 1000400)] [some 1, some 1]) = .ok s ∧
    weightsByReturns (frame [(0, 1000300), (1000400, 1000400)] [some 1, some (Real.exp 1)]) = .ok s' ∧
    s[0]? = some (0, .fin 0) ∧ s'[0]? = some (0, .fin 1) := by
  have h := fun x : ℝ => fun hx : 0 < x => weights_formula [(0, 1000300), (1000400, 1000400)] [some 1, some x] rfl
    (by intro c hc; simp at hc; rcases hc with rfl | rfl <;> [positivity; exact hx]) (by decide)
    ⟨(0, 1000300), by simp, (1000400, 1000400), by simp, by simp⟩
  refine ⟨_, _, by simp [knownRow, knownEvent], h 1 one_pos, h _ (Real.exp_pos 1), ?_, ?_⟩
  all_goals
    have hf : ((Finset.range 2).filter fun k => (0 : ℤ) / 1000000 ≤
        (([(0, 1000300), (1000400, 1000400)] : List (ℤ × ℤ)).getD k (0, 0)).1 / 1000000 ∧
        (([(0, 1000300), (1000400, 1000400)] : List (ℤ × ℤ)).getD k (0, 0)).1 / 1000000 ≤ (1000300 : ℤ) / 1000000) = {0, 1} := by decide
    have ha : aliveAt [(0, 1000300), (1000400, 1000400)] 1000400 = 1 := by decide
    simp only [List.map_cons, List.map_nil, List.getElem?_cons_zero, List.length_cons, List.length_nil]
    rw [hf]
    simp [logRet, ha]

end Mizar.Props
