import Verif.Model.DailyVolAny
import Verif.Props.RepeatedData
import Verif.Lemmas.DailyVol

/-!
Property theorems C159: the daily volatility of bars that share a time (`get_daily_vol`, `/repo/mizarlabs/transformers/targets/labeling.py` lines 438-463).
-/

set_option linter.unusedSectionVars false

namespace Mizar.Props
open Mizar.Spec Mizar.Lab
variable {K : Type*} [Field K] [LinearOrder K]

/-- The times of the bars (with repetitions) that have a bar more than a day before them. -/
def withDayBefore (times : List ℤ) : List ℤ := times.filter fun t => decide (∃ s ∈ times, s < t - 86400000000000)

/-- `ref t` is the latest time more than a day before `t`. -/
def IsRef (times : List ℤ) (ref : ℤ → ℤ) : Prop :=
  ∀ t ∈ withDayBefore times, ref t ∈ times ∧ ref t < t - 86400000000000 ∧ ∀ s ∈ times, s < t - 86400000000000 → s ≤ ref t

private theorem ss_spec_le {times : List ℤ} (h : times.Pairwise (· ≤ ·)) (v : ℤ) (j : ℕ) (hj : j < times.length) :
    times[j] < v ↔ j < searchsortedLeft times v := by
  unfold searchsortedLeft
  induction times generalizing j with
  | nil => simp at hj
  | cons a l ih =>
    rw [List.pairwise_cons] at h
    by_cases hav : a < v
    · rw [List.countP_cons_of_pos (by simpa using hav)]
      cases j with
      | zero => simp [hav]
      | succ j => simpa using ih h.2 j (by simpa using hj)
    · rw [List.countP_cons_of_neg (by simpa using hav)]
      have h0 : l.countP (fun t => decide (t < v)) = 0 := by
        rw [List.countP_eq_zero]
        intro t ht
        have := h.1 t ht
        simp; omega
      rw [h0]
      cases j with
      | zero => simpa using hav
      | succ j =>
        have := h.1 (l[j]'(by simpa using hj)) (List.getElem_mem _)
        simp; omega

private theorem hasRef_iff (times : List ℤ) (t : ℤ) : hasRef times t = decide (∃ s ∈ times, s < t - 86400000000000) := by
  unfold hasRef searchsortedLeft
  rw [decide_eq_decide, List.countP_pos_iff]
  constructor
  · rintro ⟨s, h1, h2⟩
    exact ⟨s, h1, of_decide_eq_true h2⟩
  · rintro ⟨s, h1, h2⟩
    exact ⟨s, h1, decide_eq_true h2⟩

private theorem shifted_le {times : List ℤ} (h : times.Pairwise (· ≤ ·)) (ref : ℤ → ℤ) (hr : IsRef times ref) :
    shiftedClose times = (withDayBefore times).map fun t => (t, ref t) := by
  have hfil : times.filter (hasRef times) = withDayBefore times := by
    unfold withDayBefore
    exact List.filter_congr fun t _ => hasRef_iff times t
  have e0 : shiftedClose times = (times.filter (hasRef times)).map fun t => (t, refTime times t) := by
    unfold shiftedClose
    have e1 : (times.map fun t => searchsortedLeft times (t - DAY)).filter (fun k => decide (0 < k)) =
        (times.filter (hasRef times)).map fun t => searchsortedLeft times (t - DAY) := by
      rw [List.filter_map]; rfl
    have e2 := filter_suffix (hasRef times) times (h.imp (by
      intro a b hab ha
      unfold hasRef at ha ⊢
      rw [decide_eq_true_eq] at ha ⊢
      exact lt_of_lt_of_le ha (ss_mono times (by omega))))
    simp only [e1, List.length_map, List.map_map]
    rw [← e2, zip_map_self]
    rfl
  rw [e0, hfil]
  apply List.map_congr_left
  intro t ht
  congr 1
  obtain ⟨r1, r2, r3⟩ := hr t ht
  have hpos : 0 < searchsortedLeft times (t - DAY) := by
    have := hasRef_iff times t
    unfold hasRef at this
    rw [decide_eq_decide] at this
    exact this.2 ⟨_, r1, r2⟩
  have hle := ss_le times (t - DAY)
  unfold refTime
  rw [List.getD_eq_getElem _ _ (by omega)]
  have hk := (ss_spec_le h (t - DAY) (searchsortedLeft times (t - DAY) - 1) (by omega)).2 (by omega)
  apply le_antisymm
  · exact r3 _ (List.getElem_mem _) hk
  · obtain ⟨j, hj, hje⟩ := List.mem_iff_getElem.1 r1
    have h1 : times[j] < t - DAY := by rw [hje]; exact r2
    have h2 := (ss_spec_le h _ j hj).1 h1
    rw [← hje]
    rcases Nat.eq_or_lt_of_le (show j ≤ searchsortedLeft times (t - DAY) - 1 by omega) with h3 | h3
    · exact le_of_eq (by congr 1)
    · exact List.pairwise_iff_getElem.1 h _ _ hj (by omega) h3

private theorem len_rows (times : List ℤ) (close : List (XF K)) (hlen : close.length = times.length) (t : ℤ) :
    ((times.zip close).filter fun r => decide (r.1 = t)).length = times.count t := by
  have : times = (times.zip close).map (·.1) := (List.map_fst_zip (by omega)).symm
  conv_rhs => rw [this]
  rw [List.count, List.countP_map, List.countP_eq_length_filter]
  congr 1

private theorem sum_ge {α : Type*} (l : List α) (g : α → ℕ) (h : ∀ a ∈ l, 1 ≤ g a) : l.length ≤ (l.map g).sum := by
  induction l with
  | nil => simp
  | cons a l ih =>
    have := ih fun b hb => h b (by simp [hb])
    have := h a (by simp)
    simp only [List.length_cons, List.map_cons, List.sum_cons]
    omega

/-- **C159** (exact) For times that do not decrease: every bar with a bar more than a day before it brings in all prices of its time, and in the same
way all prices of its reference time.  If the two lists of prices have the same length they are divided one by one; otherwise `ValueError` is raised. -/
theorem C159_exact (times : List ℤ) (close : List (XF K)) (hs : times.Pairwise (· ≤ ·)) (hlen : close.length = times.length) (ref : ℤ → ℤ)
    (hr : IsRef times ref) :
    dailyReturnsAny times close =
      if ((withDayBefore times).map fun t => times.count t).sum = ((withDayBefore times).map fun t => times.count (ref t)).sum then
        .ok (List.zipWith (fun a b => (a.1, XF.sub (XF.div a.2 b.2) (.fin 1)))
          ((withDayBefore times).flatMap fun t => (times.zip close).filter fun r => decide (r.1 = t))
          ((withDayBefore times).flatMap fun t => (times.zip close).filter fun r => decide (r.1 = ref t)))
      else .error .valueError := by
  have hz : (times.zip close).map (·.1) = times := List.map_fst_zip (by omega)
  unfold dailyReturnsAny
  rw [shifted_le hs ref hr, List.map_map, List.map_map]
  have e1 : (withDayBefore times).map ((fun p : ℤ × ℤ => p.1) ∘ fun t => (t, ref t)) = withDayBefore times := by
    conv_rhs => rw [← List.map_id (withDayBefore times)]
    rfl
  rw [e1, locAll_ok _ _ (by
    intro t ht
    rw [hz]
    exact (List.mem_filter.1 ht).1), Py.bind_ok, locAll_ok _ _ (by
    intro t ht
    rw [hz]
    obtain ⟨s, hs1, rfl⟩ := List.mem_map.1 ht
    exact (hr s hs1).1), Py.bind_ok, List.flatMap_map]
  dsimp only [Function.comp]
  have l1 : ((withDayBefore times).flatMap fun t => (times.zip close).filter fun r => decide (r.1 = t)).length =
      ((withDayBefore times).map fun t => times.count t).sum := by
    rw [List.length_flatMap]
    congr 1
    exact List.map_congr_left fun t _ => len_rows times close hlen t
  have l2 : ((withDayBefore times).flatMap fun t => (times.zip close).filter fun r => decide (r.1 = ref t)).length =
      ((withDayBefore times).map fun t => times.count (ref t)).sum := by
    rw [List.length_flatMap]
    congr 1
    exact List.map_congr_left fun t _ => len_rows times close hlen (ref t)
  simp only [l1, l2]
  by_cases he : ((withDayBefore times).map fun t => times.count t).sum = ((withDayBefore times).map fun t => times.count (ref t)).sum
  · rw [if_pos he, if_pos he]
  · rw [if_neg he, if_neg he, if_neg]
    intro hone
    -- a single reference price belongs to a single bar, and this bar is alone at its time
    have hge := sum_ge (withDayBefore times) (fun t => times.count (ref t)) fun t ht => List.count_pos_iff.2 (hr t ht).1
    have hne : withDayBefore times ≠ [] := by
      intro h0
      rw [h0] at hone
      simp at hone
    have hl1 : (withDayBefore times).length = 1 := by
      have := List.length_pos_of_ne_nil hne
      omega
    obtain ⟨t, ht⟩ := List.length_eq_one_iff.1 hl1
    have hc : times.count t = 1 := by
      have h1 : (withDayBefore times).count t = 1 := by rw [ht]; simp
      have hmem : t ∈ withDayBefore times := by rw [ht]; simp
      unfold withDayBefore at h1 hmem
      exact (List.count_filter (p := fun t => decide (∃ s ∈ times, s < t - 86400000000000)) (List.mem_filter.1 hmem).2).symm.trans h1
    apply he
    rw [hone, ht]
    simp [hc]

/-- **C159** (shared times) When a bar with a bar more than a day before it shares its time with another bar, `get_daily_vol` raises `ValueError` or
returns more values than there are such bars. -/
theorem C159_shared (estd : List (XF K) → List (XF K)) (hE : ∀ xs, (estd xs).length = xs.length) (times : List ℤ) (close : List (XF K))
    (hs : times.Pairwise (· ≤ ·)) (hlen : close.length = times.length) (ref : ℤ → ℤ) (hr : IsRef times ref)
    (t : ℤ) (ht : t ∈ withDayBefore times) (h2 : 2 ≤ times.count t) :
    getDailyVolAny estd times close = .error .valueError ∨
      ∃ r, getDailyVolAny estd times close = .ok r ∧ (withDayBefore times).length < r.length := by
  unfold getDailyVolAny
  rw [C159_exact times close hs hlen ref hr]
  split
  · rename_i he
    right
    refine ⟨_, rfl, ?_⟩
    rw [List.length_zip, hE, List.length_map, List.length_map, Nat.min_self, List.length_zipWith]
    have h1 := length_flatMap_gt (withDayBefore times) (fun t => (times.zip close).filter fun r => decide (r.1 = t)) (by
      intro s hs1
      rw [len_rows times close hlen]
      exact List.count_pos_iff.2 (List.mem_filter.1 hs1).1) t ht (by rw [len_rows times close hlen]; exact h2)
    refine lt_min h1 ?_
    have l2 : ((withDayBefore times).flatMap fun t => (times.zip close).filter fun r => decide (r.1 = ref t)).length =
        ((withDayBefore times).flatMap fun t => (times.zip close).filter fun r => decide (r.1 = t)).length := by
      rw [List.length_flatMap, List.length_flatMap]
      have a1 : ((withDayBefore times).map fun t => ((times.zip close).filter fun r => decide (r.1 = ref t)).length) =
          (withDayBefore times).map fun t => times.count (ref t) := List.map_congr_left fun t _ => len_rows times close hlen (ref t)
      have a2 : ((withDayBefore times).map fun t => ((times.zip close).filter fun r => decide (r.1 = t)).length) =
          (withDayBefore times).map fun t => times.count t := List.map_congr_left fun t _ => len_rows times close hlen t
      rw [a1, a2, he]
    rw [l2]
    exact h1
  · exact Or.inl rfl

/-- **C159** (one value for each bar) When every bar with a bar more than a day before it is alone at its time, and its reference is alone at its
time, `get_daily_vol` is that of C33: one return for each such bar. -/
theorem C159_single_partial (estd : List (XF K) → List (XF K)) (times : List ℤ) (close : List (XF K))
    (hs : times.Pairwise (· ≤ ·)) (hlen : close.length = times.length) (ref : ℤ → ℤ) (hr : IsRef times ref)
    (h1 : ∀ t ∈ withDayBefore times, times.count t = 1 ∧ times.count (ref t) = 1) :
    getDailyVolAny estd times close = .ok (getDailyVol estd times close) ∧ (dailyReturns times close).map (·.1) = withDayBefore times := by
  have hone : ∀ t, times.count t = 1 → ((times.zip close).filter fun r => decide (r.1 = t)) = [(t, lookupClose times close t)] := by
    intro t ht
    have hl := len_rows times close hlen t
    rw [ht] at hl
    obtain ⟨p, hp⟩ := List.length_eq_one_iff.1 hl
    have hmem : p ∈ (times.zip close).filter fun r => decide (r.1 = t) := by rw [hp]; simp
    have hpt : p.1 = t := by simpa using (List.mem_filter.1 hmem).2
    rw [hp]
    unfold lookupClose
    rw [← List.head?_filter, hp]
    simp only [List.head?_cons, Option.elim_some, ← hpt]
  have e0 : dailyReturns times close = (withDayBefore times).map fun t => (t, XF.sub (XF.div (lookupClose times close t) (lookupClose times close (ref t))) (.fin 1)) := by
    unfold dailyReturns
    rw [shifted_le hs ref hr, List.map_map]
    rfl
  have e1 : dailyReturnsAny times close = .ok (dailyReturns times close) := by
    rw [C159_exact times close hs hlen ref hr, if_pos, e0]
    · congr 1
      have a1 : ((withDayBefore times).flatMap fun t => (times.zip close).filter fun r => decide (r.1 = t)) =
          (withDayBefore times).map fun t => (t, lookupClose times close t) := by
        rw [List.map_eq_flatMap]
        exact List.flatMap_congr fun t ht => hone t (h1 t ht).1
      have a2 : ((withDayBefore times).flatMap fun t => (times.zip close).filter fun r => decide (r.1 = ref t)) =
          (withDayBefore times).map fun t => (ref t, lookupClose times close (ref t)) := by
        rw [List.map_eq_flatMap]
        exact List.flatMap_congr fun t ht => hone (ref t) (h1 t ht).2
      rw [a1, a2, List.zipWith_map, List.zipWith_self]
    · rw [List.map_congr_left fun t ht => (h1 t ht).1, List.map_congr_left fun t ht => (h1 t ht).2]
  constructor
  · unfold getDailyVolAny getDailyVol
    rw [e1, Py.bind_ok]
  · rw [e0, List.map_map]
    conv_rhs => rw [← List.map_id (withDayBefore times)]
    rfl

section Witnesses

/-- Two bars share a time, and two days later two other bars. -/
def twoPairs : List ℤ := [0, 0, 172800000000000, 172800000000000]

/-- C159 fails: the two bars that have a bar more than a day before them get four returns, and the second bar of a time is compared with the second
of its reference time. -/
theorem C159_refuted : dailyReturnsAny twoPairs ([.fin 10, .fin 20, .fin 30, .fin 50] : List (XF ℚ)) =
    .ok [(172800000000000, .fin 2), (172800000000000, .fin (3/2)), (172800000000000, .fin 2), (172800000000000, .fin (3/2))] ∧
    (withDayBefore twoPairs).length = 2 := by
  constructor <;> decide +kernel

/-- Two bars at different times, two days after two bars that share a time: no volatility at all. -/
theorem C159_raises_refuted : getDailyVolAny (fun l => l) [0, 0, 172800000000000, 172900000000000] ([.fin 10, .fin 20, .fin 30, .fin 50] : List (XF ℚ)) =
    .error .valueError := by decide +kernel

private theorem ref_pairs : IsRef twoPairs fun _ => 0 := by
  unfold IsRef withDayBefore twoPairs
  decide

example : getDailyVolAny (fun l => l) twoPairs ([.fin 10, .fin 20, .fin 30, .fin 50] : List (XF ℚ)) = .error .valueError ∨
    ∃ r, getDailyVolAny (fun l => l) twoPairs ([.fin 10, .fin 20, .fin 30, .fin 50] : List (XF ℚ)) = .ok r ∧ (withDayBefore twoPairs).length < r.length :=
  C159_shared _ (fun _ => rfl) twoPairs _ (by decide) rfl _ ref_pairs 172800000000000 (by decide) (by decide)

/-- The reference time of the last bar is shared: no volatility. -/
example : getDailyVolAny (fun l => l) [0, 0, 1000, 86400000001000] ([.fin 10, .fin 20, .fin 30, .fin 60] : List (XF ℚ)) = .error .valueError := by
  decide +kernel

/-- The shared time is no reference: the last bar has its return. -/
example : getDailyVolAny (fun l => l) [0, 1000, 1000, 86400000000500] ([.fin 10, .fin 20, .fin 30, .fin 60] : List (XF ℚ)) =
    .ok (getDailyVol (fun l => l) [0, 1000, 1000, 86400000000500] [.fin 10, .fin 20, .fin 30, .fin 60]) :=
  (C159_single_partial _ _ _ (by decide) rfl (fun _ => 0) (by unfold IsRef withDayBefore; decide) (by unfold withDayBefore; decide)).1

end Witnesses

end Mizar.Props
