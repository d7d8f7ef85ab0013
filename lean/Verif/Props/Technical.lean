import Mathlib.Algebra.Order.Ring.Rat
import Mathlib.Data.Rat.Cast.Order
import Mathlib.Algebra.BigOperators.Field
import Verif.Lemmas.Technical

/-!
Property theorems C54–C57 and C63: technical transformers (`/repo/mizarlabs/transformers/technical/`).
-/

set_option linter.unusedSectionVars false

namespace Mizar.Props
open Mizar.Spec Mizar.Tech Finset

section
variable {K : Type} [Field K] [LinearOrder K]

/-- C54 (partial: unique index): without filling, the side is 1 exactly at upward crossings, -1 exactly at downward
crossings and 0 at all other bars, for every price path (also with missing prices). -/
theorem C54_crossings_partial [IsStrictOrderedRing K] (fast slow : ℕ) (hf : 1 ≤ fast) (hs : fast ≤ slow) (name : String)
    (f : Frame K) (hc : name ∈ f.cols) (hn : f.index.Nodup) :
    checkPeriods fast slow = .ok () ∧
    ∃ out, crossOver fast slow name false f = .ok out ∧ out.length = f.index.length ∧ ∀ i < f.index.length,
      (UpCross fast slow (f.values name) i ↔ out[i]? = some (.fin 1)) ∧
      (DownCross fast slow (f.values name) i ↔ out[i]? = some (.fin (-1))) ∧
      (¬ UpCross fast slow (f.values name) i ∧ ¬ DownCross fast slow (f.values name) i ↔ out[i]? = some (.fin 0)) := by
  refine ⟨by unfold checkPeriods; rw [if_neg (by omega)], ?_⟩
  obtain ⟨fa, sl, rfl, rfl, he⟩ := crossOver_eq fast slow name false f hc
  have hl : (f.values name).length = f.index.length := by simp [Frame.values, Frame.index]
  have h10 : (1 : K) ≠ -1 := by
    intro h
    have : (0 : K) < 1 := zero_lt_one
    linarith
  have h10' : (-1 : K) ≠ 1 := h10.symm
  refine ⟨_, he, by simp, ?_⟩
  intro i hi
  have hd := cross_iff fast slow hf (by omega) f.index (f.values name) hn hl i hi
  unfold pdFfill
  rw [pdFfillFrom_complete, List.getElem?_map, List.getElem?_map, List.getElem?_eq_getElem hi]
  · simp only [Option.map_some]
    by_cases hu : UpCross fast slow (f.values name) i
    · rw [if_pos (hd.1.2 hu)]
      have : ¬ DownCross fast slow (f.values name) i := fun h => not_up_and_down hu h
      simp [fillna1, hu, this, h10]
    · rw [if_neg (fun h => hu (hd.1.1 h))]
      by_cases hw : DownCross fast slow (f.values name) i
      · rw [if_pos (hd.2.2 hw)]
        simp [fillna1, hu, hw, h10']
      · rw [if_neg (fun h => hw (hd.2.1 h))]
        simp [fillna1, hu, hw]
  · intro x hx
    obtain ⟨t, -, rfl⟩ := List.mem_map.1 hx
    split
    · rfl
    · split <;> rfl

/-- C54 (partial: unique index, complete prices): with filling, the side is 0 before the first crossing; from then on
both averages exist and the side is 1 while the fast one is above, -1 while it is below, and stays when they are
equal. -/
theorem C54_filled_partial (fast slow : ℕ) (hf : 1 ≤ fast) (hs : fast ≤ slow) (name : String) (f : Frame K)
    (hc : name ∈ f.cols) (hn : f.index.Nodup) (hcomplete : ∀ x ∈ f.values name, ∃ y, x = .fin y) :
    ∃ out, crossOver fast slow name true f = .ok out ∧ out.length = f.index.length ∧ ∀ i < f.index.length,
      ((∀ j ≤ i, ¬ UpCross fast slow (f.values name) j ∧ ¬ DownCross fast slow (f.values name) j) →
        out[i]? = some (.fin 0)) ∧
      (∀ j ≤ i, UpCross fast slow (f.values name) j ∨ DownCross fast slow (f.values name) j →
        ∃ a b, IsAvg fast (f.values name) i a ∧ IsAvg slow (f.values name) i b ∧
          (b < a → out[i]? = some (.fin 1)) ∧ (a < b → out[i]? = some (.fin (-1))) ∧
          (a = b → out[i]? = out[i - 1]? ∧ (out[i]? = some (.fin 1) ∨ out[i]? = some (.fin (-1))))) := by
  obtain ⟨fa, sl, rfl, rfl, he⟩ := crossOver_eq fast slow name true f hc
  have hl : (f.values name).length = f.index.length := by simp [Frame.values, Frame.index]
  refine ⟨_, he, by simp, ?_⟩
  set l := f.values name with hldef
  set side : List (XF K) := f.index.map fun t =>
        if t ∈ upCross f.index (rolling fast winMean l) (rolling slow winMean l) then .fin 1
        else if t ∈ downCross f.index (rolling fast winMean l) (rolling slow winMean l) then .fin (-1)
        else if true then .nan else .fin 0 with hside
  have hlen : side.length = f.index.length := by simp [hside]
  have hsi : ∀ i < f.index.length, (UpCross fast slow l i → side[i]? = some (.fin 1)) ∧
      (DownCross fast slow l i → side[i]? = some (.fin (-1))) ∧
      (¬ UpCross fast slow l i → ¬ DownCross fast slow l i → side[i]? = some .nan) := by
    intro i hi
    have hd := cross_iff fast slow hf (by omega) f.index l hn hl i hi
    rw [hside, List.getElem?_map, List.getElem?_eq_getElem hi]
    simp only [Option.map_some]
    refine ⟨fun h => ?_, fun h => ?_, fun h h' => ?_⟩
    · rw [if_pos (hd.1.2 h)]
    · rw [if_neg (fun hc => not_up_and_down (hd.1.1 hc) h), if_pos (hd.2.2 h)]
    · rw [if_neg (fun hc => h (hd.1.1 hc)), if_neg (fun hc => h' (hd.2.1 hc))]; rfl
  -- the value at a bar given the last crossing
  have hlast : ∀ (d : K) (i j : ℕ), j ≤ i → i < f.index.length → side[j]? = some (.fin d) →
      (∀ t, j < t → t ≤ i → ¬ UpCross fast slow l t ∧ ¬ DownCross fast slow l t) →
      ((pdFfill side).map (fillna1 (.fin 0)))[i]? = some (.fin d) := by
    intro d i j hji hi hj ht
    rw [List.getElem?_map, pdFfill, pdFfillFrom_getElem?_last .nan side i j hji (by omega) _ hj rfl
      fun t h1 h2 => (hsi t (by omega)).2.2 (ht t h1 h2).1 (ht t h1 h2).2]
    rfl
  -- averages exist after a crossing
  have hex : ∀ j, UpCross fast slow l j ∨ DownCross fast slow l j → slow ≤ j := by
    rintro j (h | h) <;> obtain ⟨_, _, _, _, h1, -, h2, -⟩ := h <;> have := h2.1 <;> omega
  have havg : ∀ i < f.index.length, slow ≤ i + 1 → ∃ a b, IsAvg fast l i a ∧ IsAvg slow l i b := by
    intro i hi h
    obtain ⟨a, ha⟩ := isAvg_of_complete fast l hcomplete i (by omega) (by omega)
    obtain ⟨b, hb⟩ := isAvg_of_complete slow l hcomplete i (by omega) (by omega)
    exact ⟨a, b, ha, hb⟩
  -- last crossing
  have hfind : ∀ i j, j ≤ i → (UpCross fast slow l j ∨ DownCross fast slow l j) →
      ∃ j' ≤ i, (UpCross fast slow l j' ∨ DownCross fast slow l j') ∧
        ∀ t, j' < t → t ≤ i → ¬ UpCross fast slow l t ∧ ¬ DownCross fast slow l t := by
    intro i
    induction i with
    | zero =>
      intro j hj h
      exact ⟨j, hj, h, fun t h1 h2 => by omega⟩
    | succ i ih =>
      intro j hj h
      by_cases hc : UpCross fast slow l (i + 1) ∨ DownCross fast slow l (i + 1)
      · exact ⟨i + 1, le_refl _, hc, fun t h1 h2 => by omega⟩
      · have hji : j ≤ i := by
          rcases Nat.lt_or_ge j (i + 1) with h' | h'
          · omega
          · exact absurd (by have : j = i + 1 := by omega
                             rw [← this]; exact h) hc
        obtain ⟨j', h1, h2, h3⟩ := ih j hji h
        refine ⟨j', by omega, h2, fun t h4 h5 => ?_⟩
        rcases Nat.lt_or_ge t (i + 1) with h' | h'
        · exact h3 t h4 (by omega)
        · have : t = i + 1 := by omega
          rw [this]
          exact ⟨fun h => hc (Or.inl h), fun h => hc (Or.inr h)⟩
  -- the averages keep their order until the next crossing
  have hkeepU : ∀ i j, j ≤ i → i < f.index.length → UpCross fast slow l j →
      (∀ t, j < t → t ≤ i → ¬ UpCross fast slow l t ∧ ¬ DownCross fast slow l t) →
      ∀ a b, IsAvg fast l i a → IsAvg slow l i b → b ≤ a := by
    intro i
    induction i with
    | zero =>
      intro j hj _ h _ a b ha hb
      obtain ⟨_, _, _, _, h1, _⟩ := h
      omega
    | succ i ih =>
      intro j hj hi h ht a b ha hb
      by_cases hji : j = i + 1
      · subst hji
        obtain ⟨_, _, a', b', _, _, _, h1, h2, _, h3⟩ := h
        rw [isAvg_unique ha h1, isAvg_unique hb h2]
        exact h3.le
      · have hsl := hex j (Or.inl h)
        obtain ⟨a0, b0, ha0, hb0⟩ := havg i (by omega) (by omega)
        have := ih j (by omega) (by omega) h (fun t h1 h2 => ht t h1 (by omega)) a0 b0 ha0 hb0
        by_contra hlt
        exact (ht (i + 1) (by omega) (le_refl _)).2 ⟨a0, b0, a, b, by omega, ha0, hb0, ha, hb, this, not_le.1 hlt⟩
  have hkeepD : ∀ i j, j ≤ i → i < f.index.length → DownCross fast slow l j →
      (∀ t, j < t → t ≤ i → ¬ UpCross fast slow l t ∧ ¬ DownCross fast slow l t) →
      ∀ a b, IsAvg fast l i a → IsAvg slow l i b → a ≤ b := by
    intro i
    induction i with
    | zero =>
      intro j hj _ h _ a b ha hb
      obtain ⟨_, _, _, _, h1, _⟩ := h
      omega
    | succ i ih =>
      intro j hj hi h ht a b ha hb
      by_cases hji : j = i + 1
      · subst hji
        obtain ⟨_, _, a', b', _, _, _, h1, h2, _, h3⟩ := h
        rw [isAvg_unique ha h1, isAvg_unique hb h2]
        exact h3.le
      · have hsl := hex j (Or.inr h)
        obtain ⟨a0, b0, ha0, hb0⟩ := havg i (by omega) (by omega)
        have := ih j (by omega) (by omega) h (fun t h1 h2 => ht t h1 (by omega)) a0 b0 ha0 hb0
        by_contra hlt
        exact (ht (i + 1) (by omega) (le_refl _)).1 ⟨a0, b0, a, b, by omega, ha0, hb0, ha, hb, this, not_le.1 hlt⟩
  intro i hi
  constructor
  · intro hno
    rw [List.getElem?_map, pdFfill, pdFfillFrom_getElem?_none .nan side i (by omega)
      fun j hj => (hsi j (by omega)).2.2 (hno j hj).1 (hno j hj).2]
    rfl
  · intro j hj hcr
    obtain ⟨j', hj', hcr', hlat⟩ := hfind i j hj hcr
    have hsl := hex j' hcr'
    obtain ⟨a, b, ha, hb⟩ := havg i hi (by omega)
    refine ⟨a, b, ha, hb, ?_⟩
    have hprev : ∀ d, side[j']? = some (.fin d) → a = b →
        ((pdFfill side).map (fillna1 (.fin 0)))[i - 1]? = some (.fin d) := by
      intro d hd hab
      have hlt : j' < i := by
        rcases Nat.lt_or_ge j' i with h | h
        · exact h
        · have : j' = i := by omega
          subst this
          rcases hcr' with h | h <;> obtain ⟨_, _, _, _, _, _, _, h1, h2, _, h3⟩ := h <;>
            rw [← isAvg_unique ha h1, ← isAvg_unique hb h2, hab] at h3 <;> exact absurd h3 (lt_irrefl _)
      exact hlast d (i - 1) j' (by omega) (by omega) hd fun t h1 h2 => hlat t h1 (by omega)
    rcases hcr' with h | h
    · have h1 := (hsi j' (by omega)).1 h
      have h2 := hlast 1 i j' hj' hi h1 hlat
      have h3 := hkeepU i j' hj' hi h hlat a b ha hb
      refine ⟨fun _ => h2, fun hlt => absurd hlt (not_lt.2 h3), fun hab => ?_⟩
      rw [h2, hprev 1 h1 hab]
      exact ⟨rfl, Or.inl rfl⟩
    · have h1 := (hsi j' (by omega)).2.1 h
      have h2 := hlast (-1) i j' hj' hi h1 hlat
      have h3 := hkeepD i j' hj' hi h hlat a b ha hb
      refine ⟨fun hlt => absurd hlt (not_lt.2 h3), fun _ => h2, fun hab => ?_⟩
      rw [h2, hprev (-1) h1 hab]
      exact ⟨rfl, Or.inr rfl⟩

/-- C54 (what raises): fast above slow at construction, a missing column. -/
theorem C54_raises (fast slow : ℤ) (name : String) (fill : Bool) (f : Frame K) :
    (slow < fast → checkPeriods fast slow = .error .valueError) ∧
    (name ∉ f.cols → crossOver fast slow name fill f = .error .keyError) := by
  constructor
  · intro h; unfold checkPeriods; rw [if_pos h]
  · intro h
    unfold crossOver Frame.col
    rw [if_neg h, Py.bind_error]

end

section Examples54

private def prices (l : List (XF ℚ)) : Frame ℚ := ⟨["close"], (List.range l.length).zipWith (fun i x => ((i : ℤ), [x])) l⟩

example : crossOver 1 2 "close" false (prices [.fin 3, .fin 2, .fin 4, .fin 4, .fin 5, .fin 1]) =
    .ok [.fin 0, .fin 0, .fin 1, .fin 0, .fin 1, .fin (-1)] := by decide +kernel

example : crossOver 1 2 "close" true (prices [.fin 3, .fin 2, .fin 4, .fin 4, .fin 5, .fin 1, .fin 1]) =
    .ok [.fin 0, .fin 0, .fin 1, .fin 1, .fin 1, .fin (-1), .fin (-1)] := by decide +kernel

/-- C54 is refuted for missing prices: after the gap the fast average (1) is below the slow one (3/2), but the side
is still 1, because the crossing itself falls into the gap. -/
theorem C54_gap_refuted :
    crossOver 1 2 "close" true (prices [.fin 3, .fin 2, .fin 4, .nan, .fin 2, .fin 1]) =
      .ok [.fin 0, .fin 0, .fin 1, .fin 1, .fin 1, .fin 1] ∧
    IsAvg (K := ℚ) 1 [.fin 3, .fin 2, .fin 4, .nan, .fin 2, .fin 1] 5 1 ∧
    IsAvg (K := ℚ) 2 [.fin 3, .fin 2, .fin 4, .nan, .fin 2, .fin 1] 5 (3 / 2) := by
  refine ⟨by decide +kernel, ⟨by omega, fun _ => 1, ?_, by norm_num⟩, ⟨by omega, fun j => if j = 0 then 1 else 2, ?_, ?_⟩⟩
  · intro j hj
    have : j = 0 := by omega
    subst this; rfl
  · intro j hj
    have : j = 0 ∨ j = 1 := by omega
    rcases this with rfl | rfl <;> rfl
  · simp [Finset.sum_range_succ]; norm_num

/-- C54 is refuted for times that occur twice: the side of the crossing is written to both bars, also to the one
where nothing crosses (and which comes before the crossing). -/
theorem C54_duplicate_times_refuted :
    crossOver 1 2 "close" false ⟨["close"], [(1, [.fin 3]), (2, [.fin 2]), (2, [.fin (4 : ℚ)])]⟩ =
      .ok [.fin 0, .fin 1, .fin 1] ∧
    crossOver 1 2 "close" false ⟨["close"], [(1, [.fin 3]), (2, [.fin (2 : ℚ)])]⟩ = .ok [.fin 0, .fin 0] := by
  decide +kernel

end Examples54

section
variable {K : Type} [Field K] [LinearOrder K] [IsStrictOrderedRing K]

theorem oneHot_row {classes : List K} (hn : classes.Nodup) {c : K} (hc : c ∈ classes) :
    OneHotRow classes (.fin c) (classes.map fun c' => if XF.beq (.fin c) (.fin c') then 1 else 0) := by
  obtain ⟨i, hi, he⟩ := List.mem_iff_getElem.1 hc
  refine ⟨i, c, by rw [List.getElem?_eq_getElem hi, he], rfl, by simp, ?_⟩
  intro j hj
  rw [List.getElem?_map, List.getElem?_eq_getElem hj]
  simp only [Option.map_some, XF.beq_fin, decide_eq_true_eq, Option.some.injEq]
  by_cases h : j = i
  · subst h; simp [he]
  · rw [if_neg h, if_neg]
    intro hc'
    exact h ((List.Nodup.getElem_inj_iff hn).1 (by rw [he, hc']))

theorem threeClasses_nodup : (threeClasses : List K).Nodup := by
  have h : (0 : K) < 1 := zero_lt_one
  have h1 : (-1 : K) ≠ 0 := by linarith
  have h2 : (-1 : K) ≠ 1 := by linarith
  have h3 : (0 : K) ≠ 1 := by linarith
  simp [threeClasses, h2]

theorem twoClasses_nodup : (twoClasses : List K).Nodup := by simp [twoClasses]

/-- Rows of `oneHot` of predictions within the classes. -/
theorem oneHot_rows {classes : List K} (hn : classes.Nodup) (pred : List (XF K)) (h : ∀ x ∈ pred, ∃ c ∈ classes, x = .fin c) :
    List.Forall₂ (OneHotRow classes) pred (oneHot classes pred) := by
  unfold oneHot
  rw [List.forall₂_map_right_iff, List.forall₂_same]
  intro x hx
  obtain ⟨c, hc, rfl⟩ := h x hx
  exact oneHot_row hn hc

/-- C55: whenever the predictors answer, every prediction is one of the classes and the probabilities are one row per
prediction with a single 1, at the predicted class.  The predictors answer with one prediction per bar. -/
theorem C55_one_hot (f : Frame K) :
    (∀ fast slow name fill pred, crossOver fast slow name fill f = .ok pred →
      (∀ x ∈ pred, x = .fin (-1) ∨ x = .fin 0 ∨ x = .fin 1) ∧ pred.length = f.index.length ∧
      ∃ P, crossOverProba fast slow name fill f = .ok P ∧ List.Forall₂ (OneHotRow [-1, 0, 1]) pred P) ∧
    (∀ ema threshold pred, meanReversion ema threshold f = .ok pred →
      (∀ x ∈ pred, x = .fin (-1) ∨ x = .fin 0 ∨ x = .fin 1) ∧ pred.length = f.index.length ∧
      ∃ P, meanReversionProba ema threshold f = .ok P ∧ List.Forall₂ (OneHotRow [-1, 0, 1]) pred P) ∧
    (∀ rsi p pred, barArrivalRsi rsi p f = .ok pred →
      (∀ x ∈ pred, x = .fin 0 ∨ x = .fin 1) ∧ pred.length = f.index.length ∧
      ∃ P, rsiProba (barArrivalRsi rsi p f) = .ok P ∧ List.Forall₂ (OneHotRow [0, 1]) pred P) ∧
    (∀ rsi threshold confirm ma pred, rsiConfirmation rsi threshold confirm ma f = .ok pred →
      (∀ x ∈ pred, x = .fin 0 ∨ x = .fin 1) ∧ pred.length = f.index.length ∧
      ∃ P, rsiProba (rsiConfirmation rsi threshold confirm ma f) = .ok P ∧ List.Forall₂ (OneHotRow [0, 1]) pred P) := by
  have three : ∀ pred : List (XF K), (∀ x ∈ pred, x = .fin (-1) ∨ x = .fin 0 ∨ x = .fin 1) →
      List.Forall₂ (OneHotRow [-1, 0, 1]) pred (oneHot threeClasses pred) := by
    intro pred h
    refine oneHot_rows threeClasses_nodup pred fun x hx => ?_
    rcases h x hx with rfl | rfl | rfl
    · exact ⟨-1, by simp [threeClasses], rfl⟩
    · exact ⟨0, by simp [threeClasses], rfl⟩
    · exact ⟨1, by simp [threeClasses], rfl⟩
  have two : ∀ pred : List (XF K), (∀ x ∈ pred, x = .fin 0 ∨ x = .fin 1) →
      List.Forall₂ (OneHotRow [0, 1]) pred (oneHot twoClasses pred) := by
    intro pred h
    refine oneHot_rows twoClasses_nodup pred fun x hx => ?_
    rcases h x hx with rfl | rfl
    · exact ⟨0, by simp [twoClasses], rfl⟩
    · exact ⟨1, by simp [twoClasses], rfl⟩
  have ilen : f.index.length = f.rows.length := by simp [Frame.index]
  refine ⟨?_, ?_, ?_, ?_⟩
  · intro fast slow name fill pred h
    have hv : (∀ x ∈ pred, x = .fin (-1) ∨ x = .fin 0 ∨ x = .fin 1) ∧ pred.length = f.index.length := by
      unfold crossOver at h
      simp only [Py.bind_eq_ok, Except.ok.injEq] at h
      obtain ⟨c, -, fa, -, c', -, sl, -, rfl⟩ := h
      have hff : ∀ (m : List (XF K)) (a : XF K), (∀ x ∈ m, x = .fin (-1) ∨ x = .fin 0 ∨ x = .fin 1 ∨ x = .nan) →
          (a = .fin (-1) ∨ a = .fin 0 ∨ a = .fin 1 ∨ a = .nan) →
          ∀ x ∈ pdFfillFrom a m, x = .fin (-1) ∨ x = .fin 0 ∨ x = .fin 1 ∨ x = .nan := by
        intro m
        induction m with
        | nil => intro a _ _ x hx; simp [pdFfillFrom] at hx
        | cons y m ih =>
          intro a hm ha x hx
          unfold pdFfillFrom at hx
          split at hx
          · rcases List.mem_cons.1 hx with rfl | hx
            · exact ha
            · exact ih a (fun z hz => hm z (by simp [hz])) ha x hx
          · rcases List.mem_cons.1 hx with rfl | hx
            · exact hm _ (by simp)
            · exact ih y (fun z hz => hm z (by simp [hz])) (hm y (by simp)) x hx
      refine ⟨?_, by simp⟩
      intro x hx
      obtain ⟨y, hy, rfl⟩ := List.mem_map.1 hx
      have := hff _ _ ?_ (Or.inr (Or.inr (Or.inr rfl))) y hy
      · rcases this with rfl | rfl | rfl | rfl <;> simp [fillna1]
      · intro z hz
        obtain ⟨t, -, rfl⟩ := List.mem_map.1 hz
        split
        · simp
        · split
          · simp
          · split <;> simp
    refine ⟨hv.1, hv.2, _, ?_, three pred hv.1⟩
    unfold crossOverProba
    rw [h, Py.bind_ok]
  · intro ema threshold pred h
    have hv : (∀ x ∈ pred, x = .fin (-1) ∨ x = .fin 0 ∨ x = .fin 1) ∧ pred.length = f.index.length := by
      unfold meanReversion at h
      simp only [Py.bind_eq_ok, Except.ok.injEq] at h
      obtain ⟨v, -, e, he, c, hcol, rfl⟩ := h
      constructor
      · intro x hx
        obtain ⟨i, hi, rfl⟩ := List.mem_iff_getElem.1 hx
        rw [List.getElem_zipWith]
        unfold reversion
        simp only
        split
        · simp
        · split <;> simp
      · unfold likeIndex at he
        split at he
        · simp only [Except.ok.injEq] at he
          subst he
          unfold Frame.col at hcol
          split at hcol
          · simp only [Except.ok.injEq] at hcol
            subst hcol
            rw [List.length_zipWith, Frame.values_length, ilen]
            omega
          · simp at hcol
        · simp at he
    refine ⟨hv.1, hv.2, _, ?_, three pred hv.1⟩
    unfold meanReversionProba
    rw [h, Py.bind_ok]
  · intro rsi p pred h
    have hv : (∀ x ∈ pred, x = .fin 0 ∨ x = .fin 1) ∧ pred.length = f.index.length := by
      unfold barArrivalRsi at h
      simp only [Py.bind_eq_ok, Except.ok.injEq] at h
      obtain ⟨sl, hsl, fa, hfa, v, -, r, hr, rfl⟩ := h
      constructor
      · intro x hx
        obtain ⟨i, hi, rfl⟩ := List.mem_iff_getElem.1 hx
        rw [List.getElem_zipWith]
        split <;> simp
      · have h1 := rollE_length hsl
        have h2 := rollE_length hfa
        have h3 : (arrivals f.index : List (XF K)).length = f.index.length - 1 := by
          unfold arrivals; simp
        unfold likeIndex at hr
        split at hr
        · simp only [Except.ok.injEq] at hr
          subst hr
          simp only [List.length_zipWith, List.length_cons]
          omega
        · simp at hr
    refine ⟨hv.1, hv.2, _, ?_, two pred hv.1⟩
    unfold rsiProba
    rw [h, Py.bind_ok]
  · intro rsi threshold confirm ma pred h
    have hv : (∀ x ∈ pred, x = .fin 0 ∨ x = .fin 1) ∧ pred.length = f.index.length := by
      unfold rsiConfirmation at h
      simp only [Py.bind_eq_ok, Except.ok.injEq] at h
      obtain ⟨v, -, r, hr, m, hm, low, hlow, rfl⟩ := h
      constructor
      · intro x hx
        obtain ⟨i, hi, rfl⟩ := List.mem_iff_getElem.1 hx
        rw [List.getElem_zipWith]
        split <;> simp
      · have h1 := rollE_length hm
        have h2 := rollE_length hlow
        unfold likeIndex at hr
        split at hr
        · simp only [Except.ok.injEq] at hr
          subst hr
          simp only [List.length_zipWith, List.length_map, length_pdDiff] at *
          omega
        · simp at hr
    refine ⟨hv.1, hv.2, _, ?_, two pred hv.1⟩
    unfold rsiProba
    rw [h, Py.bind_ok]

/-- C56: with a threshold that is not negative, the strategy sells exactly at bars whose relative distance from the
average is above the threshold, buys exactly at bars where it is below minus the threshold, and is 0 exactly
otherwise; bars without price or average are 0. -/
theorem C56_mean_reversion (ema : Frame K → Py (List (XF K))) (threshold : K) (h0 : 0 ≤ threshold) (f : Frame K)
    (e : List (XF K)) (he : ema f = .ok e) (hl : e.length = f.index.length) (hc : "close" ∈ f.cols) :
    ∃ out, meanReversion ema threshold f = .ok out ∧ out.length = f.index.length ∧
      ∀ i < f.index.length, ∀ x y, (f.values "close")[i]? = some x → e[i]? = some y →
        (∀ c a, x = .fin c → y = .fin a → a ≠ 0 →
          (out[i]? = some (.fin (-1)) ↔ threshold < (c - a) / a) ∧
          (out[i]? = some (.fin 1) ↔ (c - a) / a < -threshold) ∧
          (out[i]? = some (.fin 0) ↔ |(c - a) / a| ≤ threshold)) ∧
        (x = .nan ∨ y = .nan → out[i]? = some (.fin 0)) := by
  have ilen : f.index.length = f.rows.length := by simp [Frame.index]
  have hpos : (0 : K) < 1 := zero_lt_one
  refine ⟨List.zipWith (reversion threshold) (f.values "close") e, ?_, ?_, ?_⟩
  · unfold meanReversion likeIndex Frame.col
    rw [he, Py.bind_ok, if_pos (by omega), Py.bind_ok, if_pos hc, Py.bind_ok]
  · rw [List.length_zipWith, Frame.values_length]; omega
  · intro i hi x y hx hy
    rw [List.getElem?_zipWith, hx, hy]
    simp only
    constructor
    · rintro c a rfl rfl ha
      unfold reversion
      simp only [XF.sub_fin, XF.div_fin _ _ ha, XF.lt_fin, decide_eq_true_eq]
      set d := (c - a) / a
      rw [abs_le]
      by_cases h1 : d < -threshold
      · rw [if_pos h1]
        simp only [Option.some.injEq, XF.fin.injEq]
        refine ⟨⟨fun h => by linarith, fun h => by linarith⟩, by simp [h1], ⟨fun h => by linarith, fun h => by linarith [h.1]⟩⟩
      · rw [if_neg h1]
        by_cases h2 : threshold < d
        · rw [if_pos h2]
          simp only [Option.some.injEq, XF.fin.injEq]
          refine ⟨by simp [h2], ⟨fun h => by linarith, fun h => absurd h h1⟩, ⟨fun h => by linarith, fun h => by linarith [h.2]⟩⟩
        · rw [if_neg h2]
          simp only [Option.some.injEq, XF.fin.injEq]
          refine ⟨⟨fun h => by linarith, fun h => absurd h h2⟩, ⟨fun h => by linarith, fun h => absurd h h1⟩, ?_⟩
          simp only [true_iff]
          exact ⟨not_lt.1 h1, not_lt.1 h2⟩
    · rintro (rfl | rfl) <;> simp [reversion]

/-- C56 (negative thresholds): the two conditions overlap and buying wins. -/
theorem C56_negative_threshold (threshold : K) (h0 : threshold < 0) (c a : K) (ha : a ≠ 0)
    (h : |(c - a) / a| < -threshold) : reversion threshold (.fin c) (.fin a) = .fin 1 := by
  rw [abs_lt] at h
  unfold reversion
  simp only [XF.sub_fin, XF.div_fin _ _ ha, XF.lt_fin, decide_eq_true_eq]
  rw [if_pos h.2]

/-- C57: the first value is missing, and so is every value with a missing histogram at the bar or before; at the other
bars the value is 1 where the histogram goes from negative to positive, -1 from positive to negative, one half (minus
one half) when it reaches or leaves zero upwards (downwards), 0 when the sign does not change. -/
theorem C57_macd (hist : Frame K → Py (List (XF K))) (f : Frame K) (h : List (XF K)) (hh : hist f = .ok h) :
    ∃ out, macdCross hist f = .ok out ∧ out.length = h.length ∧ (h ≠ [] → out[0]? = some .nan) ∧
      ∀ i, 1 ≤ i → ∀ x y, h[i - 1]? = some x → h[i]? = some y →
        (x = .nan ∨ y = .nan → out[i]? = some .nan) ∧
        ∀ a b, x = .fin a → y = .fin b →
          (out[i]? = some (.fin 1) ↔ a < 0 ∧ 0 < b) ∧
          (out[i]? = some (.fin (-1)) ↔ 0 < a ∧ b < 0) ∧
          (out[i]? = some (.fin (1 / 2)) ↔ (a < 0 ∧ b = 0) ∨ (a = 0 ∧ 0 < b)) ∧
          (out[i]? = some (.fin (-1 / 2)) ↔ (0 < a ∧ b = 0) ∨ (a = 0 ∧ b < 0)) ∧
          (out[i]? = some (.fin 0) ↔ (0 < a ∧ 0 < b) ∨ (a < 0 ∧ b < 0) ∨ (a = 0 ∧ b = 0)) := by
  refine ⟨(pdDiff (h.map XF.sign)).map fun x => XF.div x (.fin 2), ?_, by simp, ?_, ?_⟩
  · unfold macdCross; rw [hh, Py.bind_ok]
  · intro hne
    rw [List.getElem?_map, pdDiff_getElem? _ _ (by simpa using List.length_pos_iff.2 hne)]
    simp
  · intro i hi x y hx hy
    obtain ⟨h1, h1'⟩ := List.getElem?_eq_some_iff.1 hx
    obtain ⟨h2, h2'⟩ := List.getElem?_eq_some_iff.1 hy
    rw [List.getElem?_map, pdDiff_getElem? _ _ (by simpa using h2), dif_neg (by omega)]
    simp only [List.getElem_map, Option.map_some, h1', h2']
    constructor
    · rintro (rfl | rfl) <;> simp [XF.sign]
    · rintro a b rfl rfl
      have hpos : (0 : K) < 1 := zero_lt_one
      have h20 : (2 : K) ≠ 0 := two_ne_zero
      simp only [XF.sign, XF.sub_fin, XF.div_fin _ _ h20, Option.some.injEq, XF.fin.injEq]
      have tri : ∀ c : K, (c < 0 ∧ ¬ 0 < c ∧ ¬ c = 0) ∨ c = 0 ∨ (0 < c ∧ ¬ c < 0 ∧ ¬ c = 0) := by
        intro c
        rcases lt_trichotomy c 0 with h | h | h
        · exact Or.inl ⟨h, not_lt.2 h.le, h.ne⟩
        · exact Or.inr (Or.inl h)
        · exact Or.inr (Or.inr ⟨h, not_lt.2 h.le, h.ne'⟩)
      rcases tri a with ha | ha | ha <;> rcases tri b with hb | hb | hb <;>
        refine ⟨?_, ?_, ?_, ?_, ?_⟩ <;> simp [ha, hb] <;> norm_num

end

section
variable {K : Type} [Field K] [LinearOrder K] [IsStrictOrderedRing K]

theorem ewm_state (q : K) (hq : 0 ≤ q) (l : List (XF K)) (n : ℕ) (hn : n ≤ l.length) :
    ((∀ j < n, finAt l j = none) → ((l.map XF.prep).take n).foldl (ewmStep (1 - q)) ⟨.nan, 1⟩ = ⟨.nan, 1⟩) ∧
    ((∃ j < n, finAt l j ≠ none) → ∃ (m o : K) (w : ℕ → K),
      ((l.map XF.prep).take n).foldl (ewmStep (1 - q)) ⟨.nan, 1⟩ = ⟨.fin m, o⟩ ∧ 0 ≤ o ∧
      o = (∑ j ∈ range n, (finAt l j).elim 0 fun _ => q ^ (n - 1 - j)) ∧
      o * m = (∑ j ∈ range n, (finAt l j).elim 0 fun x => q ^ (n - 1 - j) * x) ∧
      (∀ j, 0 ≤ w j) ∧ (∀ j, (n ≤ j ∨ finAt l j = none) → w j = 0) ∧ ∑ j ∈ range n, w j = 1 ∧
      m = ∑ j ∈ range n, (finAt l j).elim 0 fun x => w j * x) := by
  induction n with
  | zero => exact ⟨fun _ => rfl, fun ⟨j, hj, _⟩ => by omega⟩
  | succ n ih =>
    have ih := ih (by omega)
    have hx : (l.map XF.prep).take (n + 1) = (l.map XF.prep).take n ++ [XF.prep (l[n]'(by omega))] := by
      rw [List.take_succ_eq_append_getElem (by simpa using hn), List.getElem_map]
    rw [hx, List.foldl_append]
    simp only [List.foldl_cons, List.foldl_nil]
    have hcase : (XF.prep (l[n]'(by omega)) = .nan ∧ finAt l n = none) ∨ ∃ x, XF.prep (l[n]'(by omega)) = .fin x ∧ finAt l n = some x := by
      unfold finAt
      rw [List.getElem?_eq_getElem (by omega)]
      cases l[n]'(by omega) <;> simp [XF.prep, XF.isInf]
    have hpow : ∀ (g : ℕ → K → K), (∑ j ∈ range n, (finAt l j).elim 0 fun x => q ^ (n + 1 - 1 - j) * g j x) =
        q * ∑ j ∈ range n, (finAt l j).elim 0 fun x => q ^ (n - 1 - j) * g j x := by
      intro g
      rw [Finset.mul_sum]
      apply Finset.sum_congr rfl
      intro j hj
      rw [mem_range] at hj
      cases finAt l j with
      | none => simp
      | some x =>
        simp only [Option.elim_some]
        rw [show n + 1 - 1 - j = (n - 1 - j) + 1 by omega, pow_succ]
        ring
    have hpow1 : (∑ j ∈ range n, (finAt l j).elim 0 fun _ => q ^ (n + 1 - 1 - j)) =
        q * ∑ j ∈ range n, (finAt l j).elim 0 fun _ => q ^ (n - 1 - j) := by
      simpa using hpow fun _ _ => 1
    have hpow2 := hpow fun _ x => x
    by_cases hobs : ∃ j < n, finAt l j ≠ none
    · obtain ⟨m, o, w, hst, ho, ho2, hm2, hw0, hw1, hw2, hw3⟩ := ih.2 hobs
      rw [hst]
      refine ⟨fun hno => ?_, fun _ => ?_⟩
      · obtain ⟨j, hj, hj'⟩ := hobs
        exact absurd (hno j (by omega)) hj'
      · have h1q : o * (1 - (1 - q)) = q * o := by ring
        have hqo : 0 ≤ q * o := mul_nonneg hq ho
        rcases hcase with ⟨hp, hf⟩ | ⟨x, hp, hf⟩
        · refine ⟨m, q * o, w, ?_, hqo, ?_, ?_, hw0, ?_, ?_, ?_⟩
          · rw [hp]; simp [ewmStep, mul_comm]
          · rw [Finset.sum_range_succ, hf, hpow1, ← ho2]; simp
          · rw [Finset.sum_range_succ, hf, hpow2, ← hm2]; simp only [Option.elim_none]; ring
          · intro j hj
            rcases hj with hj | hj
            · exact hw1 j (Or.inl (by omega))
            · exact hw1 j (Or.inr hj)
          · rw [Finset.sum_range_succ, hw2, hw1 n (Or.inl (le_refl _)), add_zero]
          · rw [Finset.sum_range_succ, hf]; simp only [Option.elim_none, add_zero]; exact hw3
        · have hpos : 0 < q * o + 1 := by linarith
          have hne : q * o + 1 ≠ 0 := hpos.ne'
          refine ⟨(q * o * m + x) / (q * o + 1), q * o + 1,
            fun j => if j = n then 1 / (q * o + 1) else q * o * w j / (q * o + 1), ?_, hpos.le, ?_, ?_, ?_, ?_, ?_, ?_⟩
          · rw [hp]
            unfold ewmStep
            simp only [XF.isNan_fin, Bool.false_eq_true, if_false, h1q, XF.beq_fin, decide_eq_true_eq]
            split
            · rename_i heq
              subst heq
              congr 2
              field_simp
            · simp [XF.div_fin _ _ hne]
          · rw [Finset.sum_range_succ, hf, hpow1, ← ho2]; simp
          · rw [Finset.sum_range_succ, hf, hpow2, ← hm2]
            simp only [Option.elim_some]
            rw [show n + 1 - 1 - n = 0 by omega]
            field_simp
          · intro j
            simp only
            split
            · positivity
            · exact div_nonneg (mul_nonneg hqo (hw0 j)) hpos.le
          · intro j hj
            simp only
            have hjn : j ≠ n := by
              rintro rfl
              rcases hj with h | h
              · omega
              · rw [h] at hf; simp at hf
            rw [if_neg hjn, hw1 j (by rcases hj with h | h; exact Or.inl (by omega); exact Or.inr h)]
            simp
          · rw [Finset.sum_range_succ, if_pos rfl]
            have : (∑ j ∈ range n, if j = n then 1 / (q * o + 1) else q * o * w j / (q * o + 1)) =
                q * o / (q * o + 1) * ∑ j ∈ range n, w j := by
              rw [Finset.mul_sum]
              apply Finset.sum_congr rfl
              intro j hj
              rw [mem_range] at hj
              rw [if_neg (by omega)]; ring
            rw [this, hw2]
            field_simp
          · rw [Finset.sum_range_succ, hf]
            simp only [Option.elim_some, if_true]
            have : (∑ j ∈ range n, (finAt l j).elim 0 fun y => (if j = n then 1 / (q * o + 1) else q * o * w j / (q * o + 1)) * y) =
                q * o / (q * o + 1) * ∑ j ∈ range n, (finAt l j).elim 0 fun y => w j * y := by
              rw [Finset.mul_sum]
              apply Finset.sum_congr rfl
              intro j hj
              rw [mem_range] at hj
              rw [if_neg (by omega)]
              cases finAt l j with
              | none => simp
              | some y => simp only [Option.elim_some]; ring
            rw [this, ← hw3]
            field_simp
    · have hall : ∀ j < n, finAt l j = none := by
        intro j hj
        by_contra h
        exact hobs ⟨j, hj, h⟩
      rw [ih.1 hall]
      have hz : ∀ (g : ℕ → K → K), (∑ j ∈ range n, (finAt l j).elim 0 (g j)) = 0 := by
        intro g
        apply Finset.sum_eq_zero
        intro j hj
        rw [hall j (mem_range.1 hj)]; rfl
      rcases hcase with ⟨hp, hf⟩ | ⟨x, hp, hf⟩
      · rw [hp]
        refine ⟨fun _ => by simp [ewmStep], fun ⟨j, hj, hj'⟩ => ?_⟩
        rcases Nat.lt_or_ge j n with h | h
        · exact absurd (hall j h) hj'
        · have : j = n := by omega
          subst this
          exact absurd hf hj'
      · rw [hp]
        refine ⟨fun hno => ?_, fun _ => ?_⟩
        · have := hno n (by omega)
          rw [hf] at this; simp at this
        · refine ⟨x, 1, fun j => if j = n then 1 else 0, by simp [ewmStep], zero_le_one, ?_, ?_, ?_, ?_, ?_, ?_⟩
          · rw [Finset.sum_range_succ, hf, hz]; simp
          · rw [Finset.sum_range_succ, hf, hz]; simp
          · intro j; simp only; split <;> simp
          · intro j hj
            have hjn : j ≠ n := by
              rintro rfl
              rcases hj with h | h
              · omega
              · rw [h] at hf; simp at hf
            simp [hjn]
          · simp
          · rw [Finset.sum_range_succ, hf, hz]; simp

theorem ewm_alpha_q (span : ℕ) (hs : 1 ≤ span) :
    ∃ q : K, 0 ≤ q ∧ (2 ≤ span → 0 < q) ∧ ewmAlpha span = 1 - q ∧ q = ((span : K) - 1) / (span + 1) := by
  have h1 : (1 : K) ≤ span := by exact_mod_cast hs
  refine ⟨((span : K) - 1) / (span + 1), by apply div_nonneg <;> linarith, ?_, ?_, rfl⟩
  · intro h
    have h2 : (2 : K) ≤ span := by exact_mod_cast h
    apply div_pos <;> linarith
  · unfold ewmAlpha
    have : (span : K) + 1 ≠ 0 := by linarith
    field_simp
    ring

/-- C63: at every bar the exponentially weighted mean is missing if there was no observation yet, and otherwise a
convex combination of the observations so far. -/
theorem C63_convex_combination (span : ℕ) (hs : 1 ≤ span) (l : List (XF K)) :
    ∃ out, ewmE span l = .ok out ∧ out.length = l.length ∧ ∀ i < l.length,
      ((∀ j ≤ i, finAt l j = none) → out[i]? = some .nan) ∧
      ((∃ j ≤ i, finAt l j ≠ none) → ∃ w : ℕ → K, (∀ j, 0 ≤ w j) ∧ (∀ j, finAt l j = none → w j = 0) ∧
        ∑ j ∈ range (i + 1), w j = 1 ∧
        out[i]? = some (.fin (∑ j ∈ range (i + 1), (finAt l j).elim 0 fun x => w j * x))) := by
  obtain ⟨q, hq, -, ha, -⟩ := ewm_alpha_q (K := K) span hs
  refine ⟨ewmMean (ewmAlpha span) l, ?_, ewmMean_length _ _, ?_⟩
  · unfold ewmE; rw [if_neg (by omega), Int.toNat_natCast]
  · intro i hi
    have he : (ewmMean (ewmAlpha span) l)[i]? =
        some (((l.map XF.prep).take (i + 1)).foldl (ewmStep (1 - q)) ⟨.nan, 1⟩).mean := by
      unfold ewmMean
      rw [scanMap_getElem? _ _ _ _ _ (by simpa using hi), ha]
    have hst := ewm_state q hq l (i + 1) (by omega)
    rw [he]
    constructor
    · intro hno
      rw [hst.1 fun j hj => hno j (by omega)]
    · rintro ⟨j, hj, hj'⟩
      obtain ⟨m, o, w, h1, -, -, -, h2, h3, h4, h5⟩ := hst.2 ⟨j, by omega, hj'⟩
      refine ⟨w, h2, fun j hj => h3 j (Or.inr hj), h4, ?_⟩
      rw [h1, ← h5]

/-- C63 (weights): for spans of at least 2 the weight of the observation `d` bars ago is proportional to
`((span - 1) / (span + 1)) ^ d`. -/
theorem C63_weights (span : ℕ) (hs : 2 ≤ span) (l : List (XF K)) (i : ℕ) (hi : i < l.length)
    (hobs : ∃ j ≤ i, finAt l j ≠ none) :
    0 < ewmDen (((span : K) - 1) / (span + 1)) l i ∧
    ∃ out, ewmE span l = .ok out ∧ out[i]? = some (.fin (ewmNum (((span : K) - 1) / (span + 1)) l i /
      ewmDen (((span : K) - 1) / (span + 1)) l i)) := by
  obtain ⟨q, hq, hq', ha, hqe⟩ := ewm_alpha_q (K := K) span (by omega)
  rw [← hqe]
  obtain ⟨j, hj, hj'⟩ := hobs
  obtain ⟨m, o, w, h1, -, h2, h3, -⟩ := (ewm_state q hq l (i + 1) (by omega)).2 ⟨j, by omega, hj'⟩
  have hden : ewmDen q l i = o := by rw [h2]; rfl
  have hnum : ewmNum q l i = o * m := by rw [h3]; rfl
  have hpos : 0 < ewmDen q l i := by
    unfold ewmDen
    apply Finset.sum_pos'
    · intro t _
      cases finAt l t with
      | none => simp
      | some x => exact (pow_pos (hq' hs) _).le
    · refine ⟨j, mem_range.2 (by omega), ?_⟩
      cases hfj : finAt l j with
      | none => exact absurd hfj hj'
      | some x => exact pow_pos (hq' hs) _
  refine ⟨hpos, ewmMean (ewmAlpha span) l, ?_, ?_⟩
  · unfold ewmE; rw [if_neg (by omega), Int.toNat_natCast]
  · have he : (ewmMean (ewmAlpha span) l)[i]? =
        some (((l.map XF.prep).take (i + 1)).foldl (ewmStep (1 - q)) ⟨.nan, 1⟩).mean := by
      unfold ewmMean
      rw [scanMap_getElem? _ _ _ _ _ (by simpa using hi), ha]
    rw [he, h1, hnum, hden]
    rw [hden] at hpos
    rw [mul_div_cancel_left₀ _ hpos.ne']

/-- C63 (range): where defined, the mean is within every interval that contains the observations so far. -/
theorem C63_range (span : ℕ) (hs : 1 ≤ span) (l out : List (XF K)) (h : ewmE span l = .ok out) (i : ℕ) (hi : i < l.length)
    (lo hi' m : K) (hb : ∀ j ≤ i, ∀ x, finAt l j = some x → lo ≤ x ∧ x ≤ hi') (hm : out[i]? = some (.fin m)) :
    lo ≤ m ∧ m ≤ hi' := by
  obtain ⟨out', h1, -, h2⟩ := C63_convex_combination span hs l
  rw [h] at h1
  simp only [Except.ok.injEq] at h1
  subst h1
  by_cases hobs : ∃ j ≤ i, finAt l j ≠ none
  · obtain ⟨w, w0, w1, w2, w3⟩ := (h2 i hi).2 hobs
    rw [hm] at w3
    simp only [Option.some.injEq, XF.fin.injEq] at w3
    have key : ∀ c : K, c = ∑ j ∈ range (i + 1), w j * c := by
      intro c; rw [← Finset.sum_mul, w2, one_mul]
    constructor
    · rw [w3, key lo]
      apply Finset.sum_le_sum
      intro j hj
      rw [mem_range] at hj
      cases hf : finAt l j with
      | none => simp [w1 j hf]
      | some x => exact mul_le_mul_of_nonneg_left (hb j (by omega) x hf).1 (w0 j)
    · rw [w3, key hi']
      apply Finset.sum_le_sum
      intro j hj
      rw [mem_range] at hj
      cases hf : finAt l j with
      | none => simp [w1 j hf]
      | some x => exact mul_le_mul_of_nonneg_left (hb j (by omega) x hf).2 (w0 j)
  · have : ∀ j ≤ i, finAt l j = none := by
      intro j hj
      by_contra hc
      exact hobs ⟨j, hj, hc⟩
    rw [(h2 i hi).1 this] at hm
    simp at hm

end

section Examples

example : meanReversion (fun _ => .ok [.nan, .fin 10, .fin 10, .fin (10 : ℚ)]) (1/10) (prices [.fin 1, .fin 12, .fin 11, .fin 8]) =
    .ok [.fin 0, .fin (-1), .fin 0, .fin 1] := by decide +kernel

example : meanReversionProba (fun _ => .ok [.nan, .fin 10, .fin 10, .fin (10 : ℚ)]) (1/10) (prices [.fin 1, .fin 12, .fin 11, .fin 8]) =
    .ok [[0, 1, 0], [1, 0, 0], [0, 1, 0], [0, 0, 1]] := by decide +kernel

example : macdCross (fun _ => .ok [.nan, .fin (-1), .fin 2, .fin 0, .fin 0, .fin (-3), .fin (3 : ℚ)]) (prices []) =
    .ok [.nan, .nan, .fin 1, .fin (-1/2), .fin 0, .fin (-1/2), .fin 1] := by decide +kernel

example : ewmE 3 [.nan, .fin (4 : ℚ), .nan, .fin 8] = .ok [.nan, .fin 4, .fin 4, .fin (36/5)] := by decide +kernel

example : rsiConfirmation (fun _ => .ok [.nan, .fin 20, .fin 25, .fin 40, .fin (10 : ℚ)]) 30 2 1 (prices [.fin 1, .fin 1, .fin 1, .fin 1, .fin 1]) =
    .ok [.fin 0, .fin 0, .fin 1, .fin 0, .fin 0] := by decide +kernel

example : barArrivalRsi (fun _ => .ok [.fin 50, .fin 50, .fin 50, .fin (80 : ℚ)]) ⟨70, 30, 2, -2, 1, 2, 1⟩
    ⟨["close"], [(0, [.fin 1]), (4, [.fin 1]), (6, [.fin 1]), (7, [.fin 1])]⟩ = .ok [.fin 0, .fin 0, .fin 1, .fin 0] := by
  decide +kernel

end Examples

end Mizar.Props
