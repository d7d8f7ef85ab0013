import Verif.Model.Technical
import Verif.Spec.Technical

/-! Lemmas for the technical transformers. -/

set_option linter.unusedSectionVars false

namespace Mizar
open Finset Mizar.Spec

theorem sum_map_range {M : Type*} [AddCommMonoid M] (n : ℕ) (f : ℕ → M) : ((List.range n).map f).sum = ∑ j ∈ range n, f j := by
  induction n with
  | zero => simp
  | succ n ih => rw [List.range_succ, Finset.sum_range_succ, ← ih]; simp

theorem winAt_eq_map {α : Type*} (d : α) (w i : ℕ) (l : List α) (hw : w ≤ i + 1) (hi : i < l.length) :
    winAt w i l = (List.range w).map fun t => l.getD (i + 1 - w + t) d := by
  unfold winAt
  apply List.ext_getElem?
  intro t
  rw [List.getElem?_drop, List.getElem?_take, List.getElem?_map]
  by_cases ht : t < w
  · rw [if_pos (by omega), List.getElem?_range ht]
    simp only [Option.map_some, List.getD_eq_getElem?_getD]
    rw [List.getElem?_eq_getElem (by omega)]
    rfl
  · rw [if_neg (by omega)]
    simp [List.getElem?_eq_none (show (List.range w).length ≤ t by simpa using ht)]

theorem winAt_length {α : Type*} (w i : ℕ) (l : List α) (hw : w ≤ i + 1) (hi : i < l.length) : (winAt w i l).length = w := by
  unfold winAt; simp; omega

theorem mem_winAt {α : Type*} (w i : ℕ) (l : List α) (hw : w ≤ i + 1) (hi : i < l.length) (x : α) :
    x ∈ winAt w i l ↔ ∃ j < w, l[i - j]? = some x := by
  rw [winAt_eq_map x w i l hw hi, List.mem_map]
  constructor
  · rintro ⟨t, ht, he⟩
    rw [List.mem_range] at ht
    refine ⟨w - 1 - t, by omega, ?_⟩
    rw [List.getD_eq_getElem?_getD, List.getElem?_eq_getElem (by omega)] at he
    rw [show i - (w - 1 - t) = i + 1 - w + t by omega, List.getElem?_eq_getElem (by omega)]
    exact congrArg some he
  · rintro ⟨j, hj, hx⟩
    refine ⟨w - 1 - j, by rw [List.mem_range]; omega, ?_⟩
    rw [show i + 1 - w + (w - 1 - j) = i - j by omega, List.getD_eq_getElem?_getD, hx]
    rfl

section
variable {K : Type} [Field K] [LinearOrder K]

theorem undef_false {x : XF K} (h : x.undef = false) : ∃ y, x = .fin y := by
  cases x <;> simp_all [XF.undef, XF.isNan, XF.isInf]

@[simp] theorem undef_fin (x : K) : (XF.fin x : XF K).undef = false := rfl

theorem rollAt_cases (w : ℕ) (f : List K → XF K) (l : List (XF K)) (i : ℕ) (hi : i < l.length) :
    rollAt w f l i = .nan ∨
      (w ≤ i + 1 ∧ (∀ j < w, ∃ x, l[i - j]? = some (.fin x)) ∧ rollAt w f l i = f ((winAt w i l).map XF.toK)) := by
  unfold rollAt
  by_cases hw : i + 1 < w
  · left; rw [if_pos hw]
  · rw [if_neg hw]
    by_cases hu : (winAt w i l).any XF.undef
    · left; rw [if_pos hu]
    · right
      refine ⟨by omega, ?_, by rw [if_neg hu]⟩
      intro j hj
      have h1 : l[i - j]? = some (l[i - j]'(by omega)) := List.getElem?_eq_getElem (by omega)
      have h2 : l[i - j]'(by omega) ∈ winAt w i l := (mem_winAt w i l (by omega) hi _).2 ⟨j, hj, h1⟩
      rw [Bool.not_eq_true, List.any_eq_false] at hu
      obtain ⟨y, hy⟩ := undef_false (by simpa using hu _ h2)
      exact ⟨y, by rw [h1, hy]⟩

theorem rollAt_of_fin (w : ℕ) (f : List K → XF K) (l : List (XF K)) (i : ℕ) (hi : i < l.length) (hw : w ≤ i + 1)
    (v : ℕ → K) (hv : ∀ j < w, l[i - j]? = some (.fin (v j))) :
    rollAt w f l i = f ((List.range w).map fun t => v (w - 1 - t)) := by
  unfold rollAt
  rw [if_neg (by omega)]
  have hm : winAt w i l = (List.range w).map fun t => (.fin (v (w - 1 - t)) : XF K) := by
    rw [winAt_eq_map .nan w i l hw hi]
    apply List.map_congr_left
    intro t ht
    rw [List.mem_range] at ht
    rw [show i + 1 - w + t = i - (w - 1 - t) by omega, List.getD_eq_getElem?_getD, hv _ (by omega)]
    rfl
  rw [hm, if_neg, List.map_map]
  · rfl
  · rw [Bool.not_eq_true, List.any_eq_false]
    intro x hx
    obtain ⟨t, -, rfl⟩ := List.mem_map.1 hx
    simp

theorem winMean_of (w : ℕ) (hw : 1 ≤ w) (v : ℕ → K) :
    winMean ((List.range w).map fun t => v (w - 1 - t)) = .fin ((∑ j ∈ range w, v j) / (w : K)) := by
  unfold winMean
  rw [if_neg (by simp; omega), sum_map_range, Finset.sum_range_reflect]
  simp

/-- The rolling mean is the average where that exists, else NaN. -/
theorem rollAt_mean (w : ℕ) (hw : 1 ≤ w) (l : List (XF K)) (i : ℕ) (hi : i < l.length) :
    (rollAt w winMean l i = .nan ∧ ∀ m, ¬ IsAvg w l i m) ∨ ∃ m, rollAt w winMean l i = .fin m ∧ IsAvg w l i m := by
  rcases rollAt_cases w winMean l i hi with h | ⟨h1, h2, -⟩
  · left
    refine ⟨h, ?_⟩
    rintro m ⟨h1, v, hv, -⟩
    rw [rollAt_of_fin w winMean l i hi h1 v hv, winMean_of w hw] at h
    simp at h
  · right
    choose! v hv using h2
    refine ⟨_, by rw [rollAt_of_fin w winMean l i hi h1 v hv, winMean_of w hw], h1, v, hv, rfl⟩

theorem isAvg_unique {w : ℕ} {l : List (XF K)} {i : ℕ} {m m' : K} (h : IsAvg w l i m) (h' : IsAvg w l i m') : m = m' := by
  obtain ⟨-, v, hv, rfl⟩ := h
  obtain ⟨-, v', hv', rfl⟩ := h'
  congr 1
  apply Finset.sum_congr rfl
  intro j hj
  have := hv j (mem_range.1 hj)
  rw [hv' j (mem_range.1 hj)] at this
  simpa using this.symm

theorem pdShift_getElem? (l : List (XF K)) (i : ℕ) (hi : i < l.length) :
    (pdShift l)[i]? = some (if h : i = 0 then .nan else l[i - 1]) := by
  unfold pdShift
  rw [List.getElem?_take, if_pos hi]
  cases i with
  | zero => simp
  | succ i => simp [List.getElem?_eq_getElem (show i < l.length by omega)]

/-- `ffill` of a series without missing values. -/
theorem pdFfillFrom_complete (a : XF K) (l : List (XF K)) (h : ∀ x ∈ l, x.isNan = false) : pdFfillFrom a l = l := by
  induction l generalizing a with
  | nil => rfl
  | cons x l ih =>
    unfold pdFfillFrom
    rw [h x (by simp)]
    simp [ih x fun y hy => h y (by simp [hy])]

theorem pdFfillFrom_getElem?_none (a : XF K) (l : List (XF K)) (i : ℕ) (hi : i < l.length)
    (h : ∀ j ≤ i, l[j]? = some .nan) : (pdFfillFrom a l)[i]? = some a := by
  induction l generalizing a i with
  | nil => simp at hi
  | cons x l ih =>
    have h0 := h 0 (by omega)
    simp only [List.getElem?_cons_zero, Option.some.injEq] at h0
    subst h0
    unfold pdFfillFrom
    simp only [XF.isNan_nan, if_true]
    cases i with
    | zero => simp
    | succ i =>
      rw [List.getElem?_cons_succ]
      refine ih a i (by simpa using hi) fun j hj => ?_
      simpa using h (j + 1) (by omega)

theorem pdFfillFrom_getElem?_last (a : XF K) (l : List (XF K)) (i j : ℕ) (hji : j ≤ i) (hi : i < l.length) (x : XF K)
    (hx : l[j]? = some x) (hn : x.isNan = false) (h : ∀ t, j < t → t ≤ i → l[t]? = some .nan) :
    (pdFfillFrom a l)[i]? = some x := by
  induction l generalizing a i j with
  | nil => simp at hi
  | cons y l ih =>
    cases j with
    | zero =>
      simp only [List.getElem?_cons_zero, Option.some.injEq] at hx
      subst hx
      unfold pdFfillFrom
      rw [hn]
      simp only [Bool.false_eq_true, if_false]
      cases i with
      | zero => simp
      | succ i =>
        rw [List.getElem?_cons_succ]
        refine pdFfillFrom_getElem?_none y l i (by simpa using hi) fun t ht => ?_
        simpa using h (t + 1) (by omega) (by omega)
    | succ j =>
      cases i with
      | zero => omega
      | succ i =>
        have key : ∀ a, (pdFfillFrom a l)[i]? = some x := fun a =>
          ih a i j (by omega) (by simpa using hi) (by simpa using hx) fun t h1 h2 => by
            simpa using h (t + 1) (by omega) (by omega)
        unfold pdFfillFrom
        split <;> simpa using key _

end

namespace Tech
variable {K : Type} [Field K] [LinearOrder K]

/-- Membership of a label of a unique index. -/
theorem mem_crossLabels (p q : XF K → XF K → Bool) (idx : List ℤ) (fast slow : List (XF K)) (hn : idx.Nodup)
    (hf : fast.length = idx.length) (hs : slow.length = idx.length) (i : ℕ) (hi : i < idx.length) :
    idx[i] ∈ crossLabels p q idx fast slow ↔
      p ((pdShift fast)[i]'(by simp; omega)) ((pdShift slow)[i]'(by simp; omega)) = true ∧ q fast[i] slow[i] = true := by
  unfold crossLabels
  rw [List.mem_filterMap]
  constructor
  · rintro ⟨r, hr, he⟩
    obtain ⟨j, hj, hrj⟩ := List.mem_iff_getElem.1 hr
    simp only [List.length_zip, List.length_zipWith, length_pdShift] at hj
    rw [List.getElem_zip] at hrj
    subst hrj
    simp only [List.getElem_zipWith] at he
    split at he
    · rename_i hc
      simp only [Option.some.injEq] at he
      have : j = i := (List.Nodup.getElem_inj_iff hn).1 he
      subst this
      simpa using hc
    · simp at he
  · intro h
    refine ⟨(idx[i], true), ?_, by simp⟩
    rw [List.mem_iff_getElem]
    refine ⟨i, by simp; omega, ?_⟩
    rw [List.getElem_zip]
    simp [h.1, h.2]

/-- The averages and the sides of the transformer. -/
theorem crossOver_eq (fast slow : ℕ) (name : String) (fill : Bool) (f : Frame K) (hc : name ∈ f.cols) :
    ∃ fa sl, fa = rolling fast winMean (f.values name) ∧ sl = rolling slow winMean (f.values name) ∧
      crossOver fast slow name fill f = .ok ((pdFfill (f.index.map fun t =>
        if t ∈ upCross f.index fa sl then .fin 1 else if t ∈ downCross f.index fa sl then .fin (-1)
        else if fill then .nan else .fin 0)).map (fillna1 (.fin 0))) := by
  refine ⟨_, _, rfl, rfl, ?_⟩
  unfold crossOver
  have h1 : f.col name = .ok (f.values name) := by unfold Frame.col; rw [if_pos hc]
  have h2 : ∀ w : ℕ, rollE (w : ℤ) winMean (f.values name) = .ok (rolling w winMean (f.values name)) := by
    intro w; unfold rollE; rw [if_neg (by omega), Int.toNat_natCast]
  rw [h1, Py.bind_ok, h2, Py.bind_ok, Py.bind_ok, h2, Py.bind_ok]

/-- Labels of crossings are the crossings of the averages. -/
theorem cross_iff (fast slow : ℕ) (hf : 1 ≤ fast) (hs : 1 ≤ slow) (idx : List ℤ) (l : List (XF K)) (hn : idx.Nodup)
    (hl : l.length = idx.length) (i : ℕ) (hi : i < idx.length) :
    (idx[i] ∈ upCross idx (rolling fast winMean l) (rolling slow winMean l) ↔ UpCross fast slow l i) ∧
    (idx[i] ∈ downCross idx (rolling fast winMean l) (rolling slow winMean l) ↔ DownCross fast slow l i) := by
  have hsh : ∀ w, (pdShift (rolling w winMean l))[i]? = some (if i = 0 then .nan else rollAt w winMean l (i - 1)) := by
    intro w
    rw [pdShift_getElem? _ _ (by simp; omega)]
    by_cases h0 : i = 0
    · simp [h0]
    · rw [dif_neg h0, if_neg h0]
      have := rolling_getElem? w winMean l (i - 1) (by omega)
      rw [List.getElem?_eq_getElem (by simp; omega)] at this
      exact this
  have hcu : ∀ w, (rolling w winMean l)[i]? = some (rollAt w winMean l i) := fun w => rolling_getElem? w winMean l i (by omega)
  have e : ∀ (m : List (XF K)) (h : i < m.length) (x : XF K), m[i]? = some x → m[i] = x := by
    intro m h x hx
    rw [List.getElem?_eq_getElem h] at hx
    exact Option.some.inj hx
  have hsh' : ∀ (w) (h : i < (pdShift (rolling w winMean l)).length), (pdShift (rolling w winMean l))[i] =
      if i = 0 then .nan else rollAt w winMean l (i - 1) := fun w h => e _ h _ (hsh w)
  have hcu' : ∀ (w) (h : i < (rolling w winMean l).length), (rolling w winMean l)[i] = rollAt w winMean l i :=
    fun w h => e _ h _ (hcu w)
  unfold upCross downCross
  rw [mem_crossLabels _ _ idx _ _ hn (by simp [hl]) (by simp [hl]) i hi,
    mem_crossLabels _ _ idx _ _ hn (by simp [hl]) (by simp [hl]) i hi, hsh', hsh', hcu', hcu']
  by_cases h0 : i = 0
  · subst h0
    simp only [if_true, XF.le_nan_left, Bool.false_eq_true, false_and, false_iff]
    exact ⟨by rintro ⟨_, _, _, _, h, _⟩; omega, by rintro ⟨_, _, _, _, h, _⟩; omega⟩
  · rw [if_neg h0, if_neg h0]
    rcases rollAt_mean fast hf l (i - 1) (by omega) with ⟨h, hno⟩ | ⟨a, ha, ha'⟩
    · rw [h]
      simp only [XF.le_nan_left, XF.le_nan_right, Bool.false_eq_true, false_and, false_iff]
      exact ⟨by rintro ⟨_, _, _, _, _, h, _⟩; exact hno _ h, by rintro ⟨_, _, _, _, _, h, _⟩; exact hno _ h⟩
    rcases rollAt_mean slow hs l (i - 1) (by omega) with ⟨h, hno⟩ | ⟨b, hb, hb'⟩
    · rw [h]
      simp only [XF.le_nan_left, XF.le_nan_right, Bool.false_eq_true, false_and, false_iff]
      exact ⟨by rintro ⟨_, _, _, _, _, _, h, _⟩; exact hno _ h, by rintro ⟨_, _, _, _, _, _, h, _⟩; exact hno _ h⟩
    rcases rollAt_mean fast hf l i (by omega) with ⟨h, hno⟩ | ⟨c, hc, hc'⟩
    · rw [h]
      simp only [XF.lt_nan_left, XF.lt_nan_right, Bool.false_eq_true, and_false, false_iff]
      exact ⟨by rintro ⟨_, _, _, _, _, _, _, h, _⟩; exact hno _ h, by rintro ⟨_, _, _, _, _, _, _, h, _⟩; exact hno _ h⟩
    rcases rollAt_mean slow hs l i (by omega) with ⟨h, hno⟩ | ⟨d, hd, hd'⟩
    · rw [h]
      simp only [XF.lt_nan_left, XF.lt_nan_right, Bool.false_eq_true, and_false, false_iff]
      exact ⟨by rintro ⟨_, _, _, _, _, _, _, _, h, _⟩; exact hno _ h, by rintro ⟨_, _, _, _, _, _, _, _, h, _⟩; exact hno _ h⟩
    rw [ha, hb, hc, hd]
    simp only [XF.le_fin, XF.lt_fin, decide_eq_true_eq]
    constructor
    · constructor
      · rintro ⟨h1, h2⟩; exact ⟨a, b, c, d, by omega, ha', hb', hc', hd', h1, h2⟩
      · rintro ⟨a2, b2, c2, d2, -, q1, q2, q3, q4, h1, h2⟩
        rw [isAvg_unique ha' q1, isAvg_unique hb' q2, isAvg_unique hc' q3, isAvg_unique hd' q4]
        exact ⟨h1, h2⟩
    · constructor
      · rintro ⟨h1, h2⟩; exact ⟨a, b, c, d, by omega, ha', hb', hc', hd', h1, h2⟩
      · rintro ⟨a2, b2, c2, d2, -, q1, q2, q3, q4, h1, h2⟩
        rw [isAvg_unique ha' q1, isAvg_unique hb' q2, isAvg_unique hc' q3, isAvg_unique hd' q4]
        exact ⟨h1, h2⟩

theorem not_up_and_down {fast slow : ℕ} {l : List (XF K)} {i : ℕ} (h : UpCross fast slow l i) (h' : DownCross fast slow l i) :
    False := by
  obtain ⟨_, _, a, b, _, _, _, h1, h2, _, h3⟩ := h
  obtain ⟨_, _, a', b', _, _, _, h1', h2', _, h3'⟩ := h'
  rw [isAvg_unique h1 h1', isAvg_unique h2 h2'] at h3
  exact absurd h3 (not_lt.2 h3'.le)

/-- Averages of a series without missing values exist from the end of the first window on. -/
theorem isAvg_of_complete (w : ℕ) (l : List (XF K)) (hl : ∀ x ∈ l, ∃ y, x = .fin y) (i : ℕ) (hi : i < l.length) (hw : w ≤ i + 1) :
    ∃ m, IsAvg w l i m := by
  have : ∀ j < w, ∃ x, l[i - j]? = some (.fin x) := by
    intro j hj
    obtain ⟨y, hy⟩ := hl _ (List.getElem_mem (show i - j < l.length by omega))
    exact ⟨y, by rw [List.getElem?_eq_getElem (by omega), hy]⟩
  choose! v hv using this
  exact ⟨_, hw, v, hv, rfl⟩

end Tech
end Mizar
