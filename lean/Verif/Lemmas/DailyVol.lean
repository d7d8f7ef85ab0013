import Verif.Model.DailyVol
import Verif.Spec.DailyVol
import Mathlib.Data.List.GetD

/-! Lemmas about `get_daily_vol`. -/

set_option linter.unusedSectionVars false

namespace Mizar.Lab
open Mizar.Spec
variable {K : Type*} [Field K] [LinearOrder K]

theorem ss_spec {times : List ℤ} (h : times.Pairwise (· < ·)) (v : ℤ) (j : ℕ) (hj : j < times.length) :
    times[j] < v ↔ j < searchsortedLeft times v := by
  unfold searchsortedLeft
  induction times generalizing j with
  | nil => simp at hj
  | cons a l ih =>
    rw [List.pairwise_cons] at h
    by_cases hav : a < v
    · rw [List.countP_cons_of_pos (by simpa using hav)]
      cases j with
      | zero => simp [hav]
      | succ j => simpa using ih h.2 j (by simpa using hj)
    · rw [List.countP_cons_of_neg (by simpa using hav)]
      have h0 : l.countP (fun t => decide (t < v)) = 0 := by
        rw [List.countP_eq_zero]
        intro t ht
        have := h.1 t ht
        simp; omega
      rw [h0]
      cases j with
      | zero => simpa using hav
      | succ j =>
        have := h.1 (l[j]'(by simpa using hj)) (List.getElem_mem _)
        simp; omega

theorem ss_le (times : List ℤ) (v : ℤ) : searchsortedLeft times v ≤ times.length := List.countP_le_length

theorem ss_mono (times : List ℤ) {v w : ℤ} (h : v ≤ w) : searchsortedLeft times v ≤ searchsortedLeft times w := by
  apply List.countP_mono_left
  intro x _ hx
  simp at hx ⊢
  omega

theorem latest_spec {times : List ℤ} (h : times.Pairwise (· < ·)) (v : ℤ) :
    IsLatestBefore times v
      (if 0 < searchsortedLeft times v then some (searchsortedLeft times v - 1) else none) := by
  have hle := ss_le times v
  split
  · rename_i hp
    refine ⟨⟨by omega, (ss_spec h v _ (by omega)).2 (by omega)⟩, ?_⟩
    intro k hk hlt
    rw [ss_spec h v k hk]
    omega
  · intro j hj
    rw [ss_spec h v j hj]
    omega

theorem filter_suffix {α : Type*} (p : α → Bool) (l : List α) (h : l.Pairwise fun a b => p a = true → p b = true) :
    l.filter p = l.drop (l.length - (l.filter p).length) := by
  induction l with
  | nil => rfl
  | cons a l ih =>
    rw [List.pairwise_cons] at h
    by_cases ha : p a = true
    · have : (a :: l).filter p = a :: l := by
        rw [List.filter_eq_self]
        intro b hb
        rcases List.mem_cons.1 hb with rfl | hb
        · exact ha
        · exact h.1 b hb ha
      rw [this]; simp
    · rw [List.filter_cons_of_neg ha]
      have hl : (l.filter p).length ≤ l.length := List.length_filter_le _ _
      have : (a :: l).length - (l.filter p).length = (l.length - (l.filter p).length) + 1 := by
        simp; omega
      rw [this, List.drop_succ_cons]
      exact ih h.2

/-- Reference time of bar `t`. -/
def refTime (times : List ℤ) (t : ℤ) : ℤ := times.getD (searchsortedLeft times (t - DAY) - 1) 0

/-- Bar `t` has a reference. -/
def hasRef (times : List ℤ) (t : ℤ) : Bool := decide (0 < searchsortedLeft times (t - DAY))

theorem zip_map_self {α β : Type*} (l : List α) (f : α → β) : l.zip (l.map f) = l.map fun a => (a, f a) := by
  induction l with
  | nil => rfl
  | cons a l ih => simp [ih]

theorem shiftedClose_eq {times : List ℤ} (h : times.Pairwise (· < ·)) :
    shiftedClose times = (times.filter (hasRef times)).map fun t => (t, refTime times t) := by
  unfold shiftedClose
  have e1 : (times.map fun t => searchsortedLeft times (t - DAY)).filter (fun k => decide (0 < k)) =
      (times.filter (hasRef times)).map fun t => searchsortedLeft times (t - DAY) := by
    rw [List.filter_map]; rfl
  have e2 := filter_suffix (hasRef times) times (h.imp (by
    intro a b hab ha
    unfold hasRef at ha ⊢
    rw [decide_eq_true_eq] at ha ⊢
    exact lt_of_lt_of_le ha (ss_mono times (by omega))))
  simp only [e1, List.length_map, List.map_map]
  rw [← e2, zip_map_self]
  rfl

/-- Return of bar `t` with respect to its reference. -/
def refReturn (times : List ℤ) (close : List (XF K)) (t : ℤ) : XF K :=
  XF.sub (XF.div (lookupClose times close t) (lookupClose times close (refTime times t))) (.fin 1)

theorem dailyReturns_eq {times : List ℤ} (h : times.Pairwise (· < ·)) (close : List (XF K)) :
    dailyReturns times close = (times.filter (hasRef times)).map fun t => (t, refReturn times close t) := by
  unfold dailyReturns
  rw [shiftedClose_eq h, List.map_map]
  rfl

theorem lookup_getElem {times : List ℤ} (h : times.Pairwise (· < ·)) {close : List (XF K)}
    (hl : close.length = times.length) (i : ℕ) (hi : i < times.length) :
    lookupClose times close times[i] = close[i] := by
  unfold lookupClose
  have : (times.zip close).find? (fun p => decide (p.1 = times[i])) = some (times[i], close[i]) := by
    rw [List.find?_eq_some_iff_getElem]
    refine ⟨by simp, i, by simpa using ⟨hi, hl ▸ hi⟩, by simp, ?_⟩
    intro j hj
    have := List.pairwise_iff_getElem.1 h j i (by omega) hi hj
    simp; omega
  rw [this]; rfl

theorem find_map_pair {β : Type*} (l : List ℤ) (f : ℤ → β) (t : ℤ) :
    ((l.map fun a => (a, f a)).find? fun p => decide (p.1 = t)) = if t ∈ l then some (t, f t) else none := by
  induction l with
  | nil => simp
  | cons a l ih =>
    rw [List.map_cons, List.find?_cons]
    by_cases h : a = t
    · simp [h]
    · simp only [h, decide_false, ih, List.mem_cons]
      have : ¬ t = a := fun e => h e.symm
      simp [this]

theorem ss_take {times : List ℤ} (h : times.Pairwise (· < ·)) (k : ℕ) {t : ℤ} (ht : t ∈ times.take k) :
    searchsortedLeft (times.take k) (t - DAY) = searchsortedLeft times (t - DAY) := by
  unfold searchsortedLeft
  conv_rhs => rw [← List.take_append_drop k times, List.countP_append]
  have : (times.drop k).countP (fun s => decide (s < t - DAY)) = 0 := by
    rw [List.countP_eq_zero]
    intro s hs
    rw [← List.take_append_drop k times, List.pairwise_append] at h
    have := h.2.2 t ht s hs
    rw [decide_eq_true_eq, not_lt]
    have hd : (0 : ℤ) ≤ DAY := by decide
    linarith
  rw [this]; rfl

theorem lookup_take {times : List ℤ} (h : times.Pairwise (· < ·)) {close : List (XF K)}
    (hl : close.length = times.length) (k : ℕ) {t : ℤ} (ht : t ∈ times.take k) :
    lookupClose (times.take k) (close.take k) t = lookupClose times close t := by
  obtain ⟨i, hi, rfl⟩ := List.getElem_of_mem ht
  have hi' : i < times.length := by simp at hi; omega
  rw [lookup_getElem (h.sublist (List.take_sublist _ _)) (by simp [hl]) i hi]
  have e : (times.take k)[i] = times[i] := by simp
  rw [e, lookup_getElem h hl i hi']
  simp

theorem refReturn_take {times : List ℤ} (h : times.Pairwise (· < ·)) {close : List (XF K)}
    (hl : close.length = times.length) (k : ℕ) {t : ℤ} (ht : t ∈ times.take k) (hr : hasRef times t = true) :
    refReturn (times.take k) (close.take k) t = refReturn times close t := by
  unfold refReturn
  have hss := ss_take h k ht
  have hle := ss_le (times.take k) (t - DAY)
  unfold hasRef at hr
  rw [decide_eq_true_eq] at hr
  have href : refTime (times.take k) t = refTime times t := by
    unfold refTime
    rw [hss] at hle ⊢
    rw [List.getD_eq_getElem _ _ (by omega), List.getD_eq_getElem _ _ (by simp at hle; omega), List.getElem_take]
  have hmem : refTime times t ∈ times.take k := by
    rw [← href]; unfold refTime
    rw [hss] at hle ⊢
    rw [List.getD_eq_getElem _ _ (by omega)]
    exact List.getElem_mem _
  rw [href, lookup_take h hl k ht, lookup_take h hl k hmem]

theorem dailyReturns_take {times : List ℤ} (h : times.Pairwise (· < ·)) {close : List (XF K)}
    (hl : close.length = times.length) (k : ℕ) :
    dailyReturns times close = dailyReturns (times.take k) (close.take k) ++
      ((times.drop k).filter (hasRef times)).map fun t => (t, refReturn times close t) := by
  rw [dailyReturns_eq h, dailyReturns_eq (h.sublist (List.take_sublist _ _))]
  conv_lhs => arg 2; rw [← List.take_append_drop k times]
  rw [List.filter_append, List.map_append, List.take_append_drop]
  congr 1
  have e : (times.take k).filter (hasRef (times.take k)) = (times.take k).filter (hasRef times) := by
    apply List.filter_congr
    intro t ht
    unfold hasRef
    rw [ss_take h k ht]
  rw [e]
  apply List.map_congr_left
  intro t ht
  rw [List.mem_filter] at ht
  rw [refReturn_take h hl k ht.1 ht.2]

/-- An estimator whose value at a position only depends on the observations up to this position. -/
def Causal (estd : List (XF K) → List (XF K)) : Prop :=
  (∀ xs, (estd xs).length = xs.length) ∧ ∀ xs k, estd (xs.take k) = (estd xs).take k

theorem getDailyVol_take {estd : List (XF K) → List (XF K)} (he : Causal estd) {times : List ℤ}
    (h : times.Pairwise (· < ·)) {close : List (XF K)} (hl : close.length = times.length) (k : ℕ) :
    ∃ rest, getDailyVol estd times close = getDailyVol estd (times.take k) (close.take k) ++ rest ∧
      ∀ p ∈ rest, p.1 ∈ times.drop k := by
  unfold getDailyVol
  simp only []
  rw [dailyReturns_take h hl k]
  set A := dailyReturns (times.take k) (close.take k)
  set B := ((times.drop k).filter (hasRef times)).map fun t => (t, refReturn times close t) with hB
  rw [List.map_append, List.map_append]
  have e : estd (A.map (·.2) ++ B.map (·.2)) =
      estd (A.map (·.2)) ++ (estd (A.map (·.2) ++ B.map (·.2))).drop (A.map (·.2)).length := by
    conv_lhs => rw [← List.take_append_drop (A.map (·.2)).length (estd (A.map (·.2) ++ B.map (·.2)))]
    rw [← he.2, List.take_left']
    rfl
  rw [e, List.zip_append (by rw [he.1]; simp)]
  refine ⟨_, rfl, ?_⟩
  intro p hp
  have h1 := (List.of_mem_zip hp).1
  rw [hB, List.map_map] at h1
  obtain ⟨t, ht, e⟩ := List.mem_map.1 h1
  simp only [Function.comp_apply] at e
  rw [← e]
  exact List.mem_of_mem_filter ht

theorem dailyVolColumn_take {estd : List (XF K) → List (XF K)} (he : Causal estd) {times : List ℤ}
    (h : times.Pairwise (· < ·)) {close : List (XF K)} (hl : close.length = times.length) (k : ℕ) :
    dailyVolColumn estd (times.take k) (close.take k) = (dailyVolColumn estd times close).take k := by
  unfold dailyVolColumn alignTo
  rw [← List.map_take]
  apply List.map_congr_left
  intro t ht
  obtain ⟨rest, h1, h2⟩ := getDailyVol_take he h hl k
  rw [h1, List.find?_append]
  have : rest.find? (fun p => decide (p.1 = t)) = none := by
    rw [List.find?_eq_none]
    intro p hp
    rw [← List.take_append_drop k times, List.pairwise_append] at h
    have := h.2.2 t ht p.1 (h2 p hp)
    simp; omega
  rw [this, Option.or_none]

theorem causal_ewmStd (a : ℝ) : Causal (ewmStd a) := ⟨ewmStd_length a, fun xs k => ewmStd_take a xs k⟩

end Mizar.Lab
