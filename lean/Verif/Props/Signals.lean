import Mathlib.Algebra.Order.Ring.Rat
import Verif.Props.Technical
import Verif.Props.ZScore

/-!
Property theorems C77, C78 and C79: RSI strategies (`/repo/mizarlabs/transformers/technical/rsi.py`), differences of
exponentially weighted averages (`moving_average.py`, `volume.py`) and Roll's measure
(`/repo/mizarlabs/transformers/microstructural_features/first_generation.py`).
-/

set_option linter.unusedSectionVars false

namespace Mizar.Props
open Mizar.Spec Mizar.Tech Mizar.Feat Finset

section
variable {K : Type} [Field K] [LinearOrder K] [IsStrictOrderedRing K]

theorem likeIndex_ok (f : Frame K) (v : List (XF K)) (h : v.length = f.rows.length) : likeIndex f v = .ok v := by
  unfold likeIndex; rw [if_pos h]

/-- C77 (confirmation): the strategy buys exactly at bars where the last `confirm` values of the indicator are below
the threshold and the average of the last `ma` values is above the one of the bar before; it is 0 at all others. -/
theorem C77_confirmation (rsi : Frame K → Py (List (XF K))) (threshold : K) (confirm ma : ℕ) (hc : 1 ≤ confirm) (hm : 1 ≤ ma)
    (f : Frame K) (r : List (XF K)) (hr : rsi f = .ok r) (hl : r.length = f.rows.length) :
    ∃ out, rsiConfirmation rsi threshold confirm ma f = .ok out ∧ out.length = f.rows.length ∧ ∀ i < f.rows.length,
      (out[i]? = some (.fin 1) ↔
        (confirm ≤ i + 1 ∧ ∀ j < confirm, ∃ x, r[i - j]? = some x ∧ XF.lt x (.fin threshold) = true) ∧
        1 ≤ i ∧ ∃ a b, IsAvg ma r (i - 1) a ∧ IsAvg ma r i b ∧ a < b) ∧
      (out[i]? = some (.fin 1) ∨ out[i]? = some (.fin 0)) := by
  refine ⟨_, by unfold rsiConfirmation; rw [hr, Py.bind_ok, likeIndex_ok f r hl, Py.bind_ok, rollE_ok, Py.bind_ok, rollE_ok, Py.bind_ok],
    by simp [hl], ?_⟩
  intro i hi
  set ind : List (XF K) := r.map fun x => if XF.lt x (.fin threshold) then (.fin 1 : XF K) else .fin 0 with hind
  have hil : i < ind.length := by simp [hind]; omega
  have hir : i < r.length := by omega
  have hli : i < (rolling ma winMean r).length := by simp; omega
  have hinc := pdDiff_getElem? (rolling ma winMean r) i hli
  rw [zipWith_getElem?_of _ (map_getElem?_of _ (rolling_getElem? confirm winAll ind i hil)) (map_getElem?_of _ hinc)]
  have h01 : (0 : K) ≠ 1 := zero_ne_one
  -- the window condition
  have hlow : (!XF.beq (fillna1 (.fin 0) (rollAt confirm winAll ind i)) (.fin 0)) = true ↔
      (confirm ≤ i + 1 ∧ ∀ j < confirm, ∃ x, r[i - j]? = some x ∧ XF.lt x (.fin threshold) = true) := by
    by_cases hs : i + 1 < confirm
    · rw [rollAt_short _ _ _ _ hs]
      simp only [fillna1, XF.isNan_nan, if_true, XF.beq_fin, decide_true, Bool.not_true, Bool.false_eq_true, false_iff]
      omega
    · have hv : ∀ j < confirm, ind[i - j]? = some (.fin (if XF.lt (r.getD (i - j) .nan) (.fin threshold) then (1 : K) else 0)) := by
        intro j hj
        rw [hind, List.getElem?_map, List.getD_eq_getElem?_getD, List.getElem?_eq_getElem (by omega)]
        simp only [Option.map_some, Option.getD_some]
        split <;> rfl
      rw [rollAt_of_fin confirm winAll ind i hil (by omega) (fun j => if XF.lt (r.getD (i - j) .nan) (.fin threshold) then (1 : K) else 0) hv]
      unfold winAll
      by_cases hall : ∀ j < confirm, XF.lt (r.getD (i - j) .nan) (.fin threshold) = true
      · rw [if_pos]
        · simp only [fillna1, XF.isNan_fin, Bool.false_eq_true, if_false, XF.beq_fin, one_ne_zero, decide_false, Bool.not_false, true_iff]
          refine ⟨by omega, fun j hj => ⟨r.getD (i - j) .nan, ?_, hall j hj⟩⟩
          rw [List.getD_eq_getElem?_getD, List.getElem?_eq_getElem (by omega)]; rfl
        · rw [List.all_eq_true]
          intro x hx
          obtain ⟨t, ht, rfl⟩ := List.mem_map.1 hx
          rw [List.mem_range] at ht
          rw [if_pos (hall (confirm - 1 - t) (by omega))]
          simp
      · rw [if_neg]
        · simp only [fillna1, XF.isNan_fin, Bool.false_eq_true, if_false, XF.beq_fin, decide_true, Bool.not_true, false_iff, not_and]
          intro _ hex
          apply hall
          intro j hj
          obtain ⟨x, hx, hlt⟩ := hex j hj
          rw [List.getD_eq_getElem?_getD, hx]; exact hlt
        · intro hh
          apply hall
          intro j hj
          rw [List.all_eq_true] at hh
          have := hh _ (List.mem_map.2 ⟨confirm - 1 - j, by rw [List.mem_range]; omega, rfl⟩)
          rw [show confirm - 1 - (confirm - 1 - j) = j by omega] at this
          by_contra hne
          rw [if_neg hne] at this
          simp at this
  have hinc' : XF.lt (.fin 0) (if h : i = 0 then .nan else XF.sub (rolling ma winMean r)[i] ((rolling ma winMean r)[i - 1])) = true ↔
      (1 ≤ i ∧ ∃ a b, IsAvg ma r (i - 1) a ∧ IsAvg ma r i b ∧ a < b) := by
    by_cases h0 : i = 0
    · rw [dif_pos h0]; simp; omega
    · rw [dif_neg h0]
      have e1 : (rolling ma winMean r)[i] = rollAt ma winMean r i := by
        have := rolling_getElem? ma winMean r i hir
        rw [List.getElem?_eq_getElem hli] at this
        simpa using this
      have e2 : (rolling ma winMean r)[i - 1]'(by omega) = rollAt ma winMean r (i - 1) := by
        have := rolling_getElem? ma winMean r (i - 1) (by omega)
        rw [List.getElem?_eq_getElem (by omega)] at this
        simpa using this
      rw [e1, e2]
      rcases rollAt_mean ma hm r i hir with ⟨hn, hno⟩ | ⟨b, hb, hb'⟩
      · rw [hn]
        simp only [XF.sub_nan_left, XF.lt_nan_right, Bool.false_eq_true, false_iff]
        rintro ⟨-, a, b, -, hb, -⟩
        exact hno b hb
      · rcases rollAt_mean ma hm r (i - 1) (by omega) with ⟨hn, hno⟩ | ⟨a, ha, ha'⟩
        · rw [hn]
          simp only [XF.sub_nan_right, XF.lt_nan_right, Bool.false_eq_true, false_iff]
          rintro ⟨-, a, b, ha, -, -⟩
          exact hno a ha
        · rw [ha, hb, XF.sub_fin, XF.lt_fin, decide_eq_true_eq, sub_pos]
          constructor
          · intro h; exact ⟨by omega, a, b, ha', hb', h⟩
          · rintro ⟨-, a2, b2, h1, h2, h3⟩
            rwa [isAvg_unique ha' h1, isAvg_unique hb' h2]
  rw [← hlow, ← hinc']
  generalize (!XF.beq (fillna1 (.fin 0) (rollAt confirm winAll ind i)) (.fin 0)) = x
  generalize XF.lt (.fin 0) (if h : i = 0 then .nan else XF.sub (rolling ma winMean r)[i] ((rolling ma winMean r)[i - 1])) = y
  cases x <;> cases y <;> simp

/-- Mean time between the last `w` bars and the bar `i`. -/
def gapMean (w : ℕ) (t : ℕ → ℤ) (i : ℕ) : K := ((t i - t (i - w) : ℤ) : K) / w

theorem arrivals_getElem? (idx : List ℤ) (k : ℕ) (hk : k + 1 < idx.length) :
    (arrivals idx : List (XF K))[k]? = some (.fin ((idx.getD (k + 1) 0 - idx.getD k 0 : ℤ) : K)) := by
  unfold arrivals
  rw [List.getElem?_zipWith, List.getElem?_tail, List.getElem?_eq_getElem hk, List.getElem?_eq_getElem (show k < idx.length by omega)]
  simp [List.getD_eq_getElem?_getD, List.getElem?_eq_getElem hk, List.getElem?_eq_getElem (show k < idx.length by omega)]

theorem arrivals_mean (w : ℕ) (hw : 1 ≤ w) (idx : List ℤ) (i : ℕ) (hi : i + 1 < idx.length) :
    rollAt w winMean (arrivals idx : List (XF K)) i = if i + 1 < w then .nan else .fin (gapMean w (fun k => idx.getD k 0) (i + 1)) := by
  have hlen : (arrivals idx : List (XF K)).length = idx.length - 1 := by unfold arrivals; simp
  split
  · rename_i h; exact rollAt_short _ _ _ _ h
  · rename_i h
    rw [rollAt_of_fin w winMean _ i (by omega) (by omega)
      (fun j => ((idx.getD (i - j + 1) 0 - idx.getD (i - j) 0 : ℤ) : K)) (fun j hj => arrivals_getElem? idx (i - j) (by omega)),
      winMean_of w hw (fun j => ((idx.getD (i - j + 1) 0 - idx.getD (i - j) 0 : ℤ) : K))]
    congr 1
    unfold gapMean
    congr 1
    have : ∀ n ≤ i + 1, ∑ j ∈ range n, ((idx.getD (i - j + 1) 0 - idx.getD (i - j) 0 : ℤ) : K) =
        ((idx.getD (i + 1) 0 - idx.getD (i + 1 - n) 0 : ℤ) : K) := by
      intro n
      induction n with
      | zero => intro _; simp
      | succ n ih =>
        intro hn
        rw [Finset.sum_range_succ, ih (by omega), show i - n + 1 = i + 1 - n by omega, show i - n = i + 1 - (n + 1) by omega]
        push_cast
        ring
    exact this w (by omega)

/-- C77 (bar arrival): the strategy buys exactly at bars with at least `fast` and `slow` bars before, an indicator
strictly between its thresholds, and a scaled difference of the mean times between bars strictly between the arrival
thresholds; it is 0 at all others. -/
theorem C77_bar_arrival (rsi : Frame K → Py (List (XF K))) (rh rl ah al d : K) (hd : d ≠ 0) (fast slow : ℕ) (hf : 1 ≤ fast)
    (hs : 1 ≤ slow) (f : Frame K) (r : List (XF K)) (hr : rsi f = .ok r) (hl : r.length = f.rows.length) :
    ∃ out, barArrivalRsi rsi ⟨rh, rl, ah, al, fast, slow, d⟩ f = .ok out ∧ out.length = f.rows.length ∧ ∀ i < f.rows.length,
      (out[i]? = some (.fin 1) ↔ fast ≤ i ∧ slow ≤ i ∧
        (∃ x, r[i]? = some x ∧ XF.lt (.fin rl) x = true ∧ XF.lt x (.fin rh) = true) ∧
        al < (gapMean fast (fun k => f.index.getD k 0) i - gapMean slow (fun k => f.index.getD k 0) i) / d ∧
        (gapMean fast (fun k => f.index.getD k 0) i - gapMean slow (fun k => f.index.getD k 0) i) / d < ah) ∧
      (out[i]? = some (.fin 1) ∨ out[i]? = some (.fin 0)) := by
  have ilen : f.index.length = f.rows.length := by simp [Frame.index]
  have alen : (arrivals f.index : List (XF K)).length = f.rows.length - 1 := by unfold arrivals; simp [ilen]
  refine ⟨_, by unfold barArrivalRsi; rw [rollE_ok, Py.bind_ok, rollE_ok, Py.bind_ok, hr, Py.bind_ok, likeIndex_ok f r hl, Py.bind_ok], ?_, ?_⟩
  · simp [alen, hl]; omega
  · intro i hi
    have hri : r[i]? = some (r[i]'(by omega)) := List.getElem?_eq_getElem (by omega)
    cases i with
    | zero =>
      have hz : ∀ l : List (XF K), (XF.nan :: l)[0]? = some .nan := fun _ => rfl
      dsimp only
      rw [zipWith_getElem?_of _ hri (hz _)]
      unfold buyArrival
      simp
      omega
    | succ i =>
      dsimp only
      have hnd : (XF.nan :: List.zipWith (fun a b => XF.div (XF.sub a b) (.fin d)) (rolling fast winMean (arrivals f.index))
          (rolling slow winMean (arrivals f.index)))[i + 1]? = some (XF.div (XF.sub (rollAt fast winMean (arrivals f.index) i)
          (rollAt slow winMean (arrivals f.index) i)) (.fin d)) := by
        rw [List.getElem?_cons_succ, zipWith_getElem?_of _ (rolling_getElem? fast winMean _ i (by omega))
          (rolling_getElem? slow winMean _ i (by omega))]
      rw [zipWith_getElem?_of _ hri hnd, arrivals_mean fast hf f.index i (by omega), arrivals_mean slow hs f.index i (by omega)]
      unfold buyArrival
      by_cases h1 : i + 1 < fast
      · rw [if_pos h1]
        simp
        omega
      · rw [if_neg h1]
        by_cases h2 : i + 1 < slow
        · rw [if_pos h2]
          simp
          omega
        · rw [if_neg h2, XF.sub_fin, XF.div_fin _ _ hd]
          set D := (gapMean fast (fun k => f.index.getD k 0) (i + 1) - gapMean slow (fun k => f.index.getD k 0) (i + 1)) / d
          have e1 : al < D ↔ XF.lt (.fin al) (.fin D) = true := by simp
          have e2 : D < ah ↔ XF.lt (.fin D) (.fin ah) = true := by simp
          have e3 : (∃ x, r[i + 1]? = some x ∧ XF.lt (.fin rl) x = true ∧ XF.lt x (.fin rh) = true) ↔
              XF.lt (.fin rl) r[i + 1] = true ∧ XF.lt r[i + 1] (.fin rh) = true := by
            rw [hri]; simp
          rw [e1, e2, e3]
          have h3 : fast ≤ i + 1 := by omega
          have h4 : slow ≤ i + 1 := by omega
          dsimp only
          generalize XF.lt (.fin al) (.fin D) = x1
          generalize XF.lt (.fin D) (.fin ah) = x2
          generalize XF.lt (.fin rl) r[i + 1] = x3
          generalize XF.lt r[i + 1] (.fin rh) = x4
          cases x1 <;> cases x2 <;> cases x3 <;> cases x4 <;> simp [h3, h4]

/-! ### Differences of exponentially weighted averages -/

/-- The exponentially weighted mean of span `s` (at least 2) at bar `i`. -/
def ewAt (s : ℕ) (l : List (XF K)) (i : ℕ) : K :=
  ewmNum (((s : K) - 1) / (s + 1)) l i / ewmDen (((s : K) - 1) / (s + 1)) l i

theorem ewmE_value (s : ℕ) (hs : 2 ≤ s) (l : List (XF K)) :
    ∃ out, ewmE s l = .ok out ∧ out.length = l.length ∧ ∀ i < l.length,
      ((∃ j ≤ i, finAt l j ≠ none) → out[i]? = some (.fin (ewAt s l i))) ∧
      ((∀ j ≤ i, finAt l j = none) → out[i]? = some .nan) := by
  obtain ⟨out, h1, h2, h3⟩ := C63_convex_combination s (by omega) l
  refine ⟨out, h1, h2, fun i hi => ⟨fun hobs => ?_, (h3 i hi).1⟩⟩
  obtain ⟨-, out', h4, h5⟩ := C63_weights s hs l i hi hobs
  rw [h1] at h4
  simp only [Except.ok.injEq] at h4
  rw [h4]; exact h5

/-- C78 (values): once there is an observation, the transformer gives the difference of the two exponentially
weighted means, or that difference over the fast mean plus one; before, it is missing. -/
theorem C78_difference (fast slow : ℕ) (hf : 2 ≤ fast) (hs : 2 ≤ slow) (name : String) (f : Frame K) (hn : name ∈ f.cols) :
    (∃ out, ewmaDifference fast slow name false f = .ok out ∧ out.length = f.rows.length ∧ ∀ i < f.rows.length,
      ((∃ j ≤ i, finAt (f.values name) j ≠ none) →
        out[i]? = some (.fin (ewAt fast (f.values name) i - ewAt slow (f.values name) i))) ∧
      ((∀ j ≤ i, finAt (f.values name) j = none) → out[i]? = some .nan)) ∧
    (∃ out, ewmaDifference fast slow name true f = .ok out ∧ out.length = f.rows.length ∧ ∀ i < f.rows.length,
      ((∃ j ≤ i, finAt (f.values name) j ≠ none) → ewAt fast (f.values name) i + 1 ≠ 0 →
        out[i]? = some (.fin ((ewAt fast (f.values name) i - ewAt slow (f.values name) i) / (ewAt fast (f.values name) i + 1)))) ∧
      ((∀ j ≤ i, finAt (f.values name) j = none) → out[i]? = some .nan)) := by
  obtain ⟨fa, a1, a2, a3⟩ := ewmE_value fast hf (f.values name)
  obtain ⟨sl, b1, b2, b3⟩ := ewmE_value slow hs (f.values name)
  rw [Frame.values_length] at a2 a3 b2 b3
  have heq : ∀ nz, ewmaDifference fast slow name nz f = .ok (if nz then List.zipWith (fun x a => XF.div x (XF.add a (.fin 1)))
      (List.zipWith XF.sub fa sl) fa else List.zipWith XF.sub fa sl) := by
    intro nz
    unfold ewmaDifference
    rw [Frame.col_ok hn, Py.bind_ok, a1, Py.bind_ok, Py.bind_ok, b1, Py.bind_ok]
  constructor
  · refine ⟨_, heq false, by simp [a2, b2], ?_⟩
    intro i hi
    simp only [Bool.false_eq_true, if_false]
    constructor
    · intro h
      rw [zipWith_getElem?_of _ ((a3 i hi).1 h) ((b3 i hi).1 h), XF.sub_fin]
    · intro h
      rw [zipWith_getElem?_of _ ((a3 i hi).2 h) ((b3 i hi).2 h)]; rfl
  · refine ⟨_, heq true, by simp [a2, b2], ?_⟩
    intro i hi
    simp only [if_true]
    constructor
    · intro h h0
      rw [zipWith_getElem?_of _ (zipWith_getElem?_of _ ((a3 i hi).1 h) ((b3 i hi).1 h)) ((a3 i hi).1 h), XF.sub_fin, XF.add_fin,
        XF.div_fin _ _ h0]
    · intro h
      rw [zipWith_getElem?_of _ (zipWith_getElem?_of _ ((a3 i hi).2 h) ((b3 i hi).2 h)) ((a3 i hi).2 h)]; rfl

/-- C78 (range): if all observations so far are within `[lo, hi]`, a difference that is not missing is at most
`hi - lo` in absolute value; for all spans. -/
theorem C78_difference_range (fast slow : ℕ) (hf : 1 ≤ fast) (hs : 1 ≤ slow) (name : String) (f : Frame K) (out : List (XF K))
    (h : ewmaDifference fast slow name false f = .ok out) (i : ℕ) (hi : i < f.rows.length) (lo hi' d : K)
    (hb : ∀ j ≤ i, ∀ x, finAt (f.values name) j = some x → lo ≤ x ∧ x ≤ hi') (hd : out[i]? = some (.fin d)) : |d| ≤ hi' - lo := by
  unfold ewmaDifference at h
  simp only [Py.bind_eq_ok, Bool.false_eq_true, if_false, Except.ok.injEq] at h
  obtain ⟨c, hc, fa, hfa, c', hc', sl, hsl, rfl⟩ := h
  have hcol : ∀ v, f.col name = .ok v → v = f.values name := by
    intro v h
    unfold Frame.col at h
    split at h
    · simp only [Except.ok.injEq] at h; exact h.symm
    · simp at h
  rw [hcol c hc] at hfa
  rw [hcol c' hc'] at hsl
  have hil : i < (f.values name).length := by rw [Frame.values_length]; exact hi
  rw [List.getElem?_zipWith] at hd
  cases hfi : fa[i]? with
  | none => rw [hfi] at hd; simp at hd
  | some a =>
    cases hsi : sl[i]? with
    | none => rw [hfi, hsi] at hd; simp at hd
    | some b =>
      rw [hfi, hsi] at hd
      simp only [Option.some.injEq] at hd
      have fin_of : ∀ (s : ℕ), 1 ≤ s → ∀ e, ewmE s (f.values name) = .ok e → ∀ x, e[i]? = some x → x = .nan ∨ ∃ m, x = .fin m := by
        intro s hs1 e he x hx
        obtain ⟨e', h1, -, h3⟩ := C63_convex_combination s hs1 (f.values name)
        rw [he] at h1
        simp only [Except.ok.injEq] at h1
        subst h1
        by_cases hobs : ∃ j ≤ i, finAt (f.values name) j ≠ none
        · obtain ⟨w, -, -, -, hw⟩ := (h3 i hil).2 hobs
          rw [hx] at hw
          simp only [Option.some.injEq] at hw
          exact Or.inr ⟨_, hw⟩
        · have : ∀ j ≤ i, finAt (f.values name) j = none := by
            intro j hj
            by_contra hc
            exact hobs ⟨j, hj, hc⟩
          have hw := (h3 i hil).1 this
          rw [hx] at hw
          simp only [Option.some.injEq] at hw
          exact Or.inl hw
      rcases fin_of fast hf fa hfa a hfi with rfl | ⟨a, rfl⟩
      · simp at hd
      · rcases fin_of slow hs sl hsl b hsi with rfl | ⟨b, rfl⟩
        · simp at hd
        · have r1 := C63_range fast hf _ fa hfa i hil lo hi' a hb hfi
          have r2 := C63_range slow hs _ sl hsl i hil lo hi' b hb hsi
          rw [XF.sub_fin] at hd
          simp only [XF.fin.injEq] at hd
          rw [← hd, abs_le]
          constructor <;> linarith [r1.1, r1.2, r2.1, r2.2]

/-- C78 (imbalance): with buy and sell volumes observed, the imbalance is the fast mean of the buys minus that of the
sells, minus the same difference of the slow means, over the volume plus one. -/
theorem C78_imbalance (fast slow : ℕ) (hf : 2 ≤ fast) (hs : 2 ≤ slow) (t : String) (f : Frame K) (v : ℕ → K)
    (hb : t ++ "_asset_buy_volume" ∈ f.cols) (hse : t ++ "_asset_sell_volume" ∈ f.cols) (hv : Holds f (t ++ "_asset_volume") v) :
    ∃ out, buySellImbalance fast slow t f = .ok out ∧ out.length = f.rows.length ∧ ∀ i < f.rows.length,
      (∃ j ≤ i, finAt (f.values (t ++ "_asset_buy_volume")) j ≠ none) →
      (∃ j ≤ i, finAt (f.values (t ++ "_asset_sell_volume")) j ≠ none) → v i + 1 ≠ 0 →
      out[i]? = some (.fin (((ewAt fast (f.values (t ++ "_asset_buy_volume")) i - ewAt fast (f.values (t ++ "_asset_sell_volume")) i) -
        (ewAt slow (f.values (t ++ "_asset_buy_volume")) i - ewAt slow (f.values (t ++ "_asset_sell_volume")) i)) / (v i + 1))) := by
  obtain ⟨fb, a1, a2, a3⟩ := ewmE_value fast hf (f.values (t ++ "_asset_buy_volume"))
  obtain ⟨fs, b1, b2, b3⟩ := ewmE_value fast hf (f.values (t ++ "_asset_sell_volume"))
  obtain ⟨sb, c1, c2, c3⟩ := ewmE_value slow hs (f.values (t ++ "_asset_buy_volume"))
  obtain ⟨ss, d1, d2, d3⟩ := ewmE_value slow hs (f.values (t ++ "_asset_sell_volume"))
  rw [Frame.values_length] at a2 a3 b2 b3 c2 c3 d2 d3
  refine ⟨_, by unfold buySellImbalance; rw [Frame.col_ok hb, Py.bind_ok, a1, Py.bind_ok, Frame.col_ok hse, Py.bind_ok, b1, Py.bind_ok,
    Py.bind_ok, c1, Py.bind_ok, Py.bind_ok, d1, Py.bind_ok, Frame.col_ok hv.1, Py.bind_ok], by simp [a2, b2, c2, d2, Frame.values_length], ?_⟩
  intro i hi o1 o2 h0
  rw [zipWith_getElem?_of _ (zipWith_getElem?_of _ (zipWith_getElem?_of _ ((a3 i hi).1 o1) ((b3 i hi).1 o2))
    (zipWith_getElem?_of _ ((c3 i hi).1 o1) ((d3 i hi).1 o2))) (map_getElem?_of _ (hv.2 i hi))]
  simp only [XF.sub_fin, XF.add_fin]
  rw [XF.div_fin _ _ h0]

/-- C78 (volume types): the constructor of the imbalance accepts exactly `quote` and `base`. -/
theorem C78_volume_types (t : String) :
    (t = "quote" ∨ t = "base" → checkVolumeType t = .ok ()) ∧
    (t ≠ "quote" ∧ t ≠ "base" → checkVolumeType t = .error .valueError) := by
  unfold checkVolumeType
  constructor
  · intro h; rw [if_pos h]
  · intro h; rw [if_neg (by tauto)]

end

/-! ### Roll's measure -/

/-- Sample covariance of the price changes of the last `w` bars with the ones before. -/
noncomputable def rollCov (w : ℕ) (p : ℕ → ℝ) (i : ℕ) : ℝ :=
  (∑ j ∈ range w, ((p (i - j) - p (i - j - 1)) - meanAt w (fun k => p k - p (k - 1)) i) *
    ((p (i - j - 1) - p (i - j - 2)) - meanAt w (fun k => p (k - 1) - p (k - 2)) i)) / (w - 1)

theorem rollAt2_cases (w : ℕ) (F : List ℝ → List ℝ → XF ℝ) (l m : List (XF ℝ)) (i : ℕ) :
    rollAt2 w F l m i = .nan ∨ rollAt2 w F l m i = F ((winAt w i l).map XF.toK) ((winAt w i m).map XF.toK) := by
  unfold rollAt2
  split
  · exact Or.inl rfl
  · split
    · exact Or.inl rfl
    · exact Or.inr rfl

theorem winCov_cases (l m : List ℝ) : winCov l m = .nan ∨ ∃ x, winCov l m = .fin x := by
  unfold winCov
  dsimp only
  split
  · exact Or.inl rfl
  · exact Or.inr ⟨_, rfl⟩

/-- C79 (sign): every value of Roll's measure is missing or at least 0, for all data. -/
theorem C79_nonneg (w : ℤ) (close : String) (f : Frame ℝ) (out : List (XF ℝ)) (h : rollMeasure w close f = .ok out) :
    ∀ x ∈ out, x = .nan ∨ ∃ m, x = .fin m ∧ 0 ≤ m := by
  unfold rollMeasure rollE2 at h
  simp only [Py.bind_eq_ok, Except.ok.injEq] at h
  obtain ⟨-, -, c, -, v, hv, rfl⟩ := h
  split at hv
  · simp at hv
  · simp only [Except.ok.injEq] at hv
    subst hv
    intro x hx
    obtain ⟨y, hy, rfl⟩ := List.mem_map.1 hx
    obtain ⟨i, -, rfl⟩ := List.mem_map.1 hy
    rcases rollAt2_cases w.toNat winCov (pdDiff c) (pdShift (pdDiff c)) i with h | h
    · left; rw [h]; simp [XF.sqrt]
    · rw [h]
      rcases winCov_cases ((winAt w.toNat i (pdDiff c)).map XF.toK) ((winAt w.toNat i (pdShift (pdDiff c))).map XF.toK) with h | ⟨z, h⟩
      · left; rw [h]; simp [XF.sqrt]
      · right
        rw [h, XF.abs_fin, XF.sqrt_fin (abs_nonneg z), XF.mul_fin]
        exact ⟨_, rfl, by positivity⟩

theorem winCov_scale (a : ℝ) (l m : List ℝ) :
    winCov (l.map fun x => a * x) (m.map fun x => a * x) = XF.mul (.fin (a ^ 2)) (winCov l m) := by
  unfold winCov
  simp only [List.length_map]
  split
  · simp
  · rw [XF.mul_fin, List.sum_map_mul_left, List.sum_map_mul_left]
    congr 1
    have : (List.zipWith (· * ·) (l.map fun x => a * x) (m.map fun x => a * x)).sum = a ^ 2 * (List.zipWith (· * ·) l m).sum := by
      rw [List.zipWith_map]
      clear * -
      induction l generalizing m with
      | nil => simp
      | cons x l ih =>
        cases m with
        | nil => simp
        | cons y m => simp only [List.zipWith_cons_cons, List.sum_cons, ih]; ring
    rw [this]
    simp only [List.map_id']
    ring

/-- C79 (scaling): multiplying the prices by a number other than 0 and adding another multiplies Roll's measure by the
absolute value of the factor, for all data. -/
theorem C79_affine (w : ℤ) (close : String) (f g : Frame ℝ) (hcols : g.cols = f.cols) (a b : ℝ) (ha : a ≠ 0)
    (h : g.values close = (f.values close).map (affine a b)) :
    rollMeasure w close g = (rollMeasure w close f).map (List.map (XF.mul (.fin |a|))) := by
  have hmulnan : ∀ x, (XF.mul (.fin a) x).undef = x.undef := by
    intro x
    rcases lt_or_gt_of_ne ha with h | h
    · cases x <;> simp [XF.mul, XF.undef, infSign_neg' h, XF.isNan, XF.isInf, XF.neg]
    · exact undef_scale h x
  have hdiff : pdDiff ((f.values close).map (affine a b)) = (pdDiff (f.values close)).map (XF.mul (.fin a)) := by
    unfold pdDiff
    rw [pdShift_map _ (by simp [affine]), List.zipWith_map, List.map_zipWith]
    congr 1
    funext x y
    exact sub_affine ha b x y
  have hroll : ∀ (n : ℕ) (l m : List (XF ℝ)), rolling2 n winCov (l.map (XF.mul (.fin a))) (m.map (XF.mul (.fin a))) =
      (rolling2 n winCov l m).map (XF.mul (.fin (a ^ 2))) := by
    intro n l m
    unfold rolling2
    rw [List.length_map, List.map_map]
    apply List.map_congr_left
    intro i _
    simp only [Function.comp_apply]
    unfold rollAt2
    rw [winAt_map, winAt_map]
    have hu : ∀ l : List (XF ℝ), (l.map (XF.mul (.fin a))).any XF.undef = l.any XF.undef := by
      intro l
      rw [List.any_map]; congr 1; funext x; exact hmulnan x
    rw [hu, hu]
    split
    · simp
    · split
      · simp
      · rename_i hany
        rw [← winCov_scale]
        simp only [Bool.not_eq_true, Bool.or_eq_false_iff, List.any_eq_false] at hany
        have hk : ∀ l : List (XF ℝ), (∀ x ∈ l, x.undef = false) →
            (l.map (XF.mul (.fin a))).map XF.toK = (l.map XF.toK).map fun x => a * x := by
          intro l hl
          rw [List.map_map, List.map_map]
          apply List.map_congr_left
          intro x hx
          obtain ⟨y, rfl⟩ := undef_false (hl x hx)
          simp [XF.toK]
        rw [hk _ hany.1, hk _ hany.2]
  unfold rollMeasure
  by_cases hc : close ∈ f.cols
  · have hc' : close ∈ g.cols := by rw [hcols]; exact hc
    have m1 : ∀ k : Frame ℝ, close ∈ k.cols → checkMissing k [close] = .ok () := by
      intro k hk; unfold checkMissing; rw [if_pos (by simpa using hk)]
    rw [m1 g hc', m1 f hc, Py.bind_ok, Py.bind_ok, Frame.col_ok hc, Frame.col_ok hc', Py.bind_ok, Py.bind_ok, h]
    dsimp only
    rw [hdiff, pdShift_map _ (by simp)]
    unfold rollE2
    split
    · rfl
    · rw [hroll, Py.bind_ok, Py.bind_ok]
      change (.ok _ : Py (List (XF ℝ))) = .ok _
      congr 1
      rw [List.map_map, List.map_map]
      apply List.map_congr_left
      intro x _
      simp only [Function.comp_apply]
      have ha2 : 0 < a ^ 2 := by positivity
      rw [abs_scale ha2, sqrt_scale ha2, Real.sqrt_sq_eq_abs]
      have : 0 < |a| := abs_pos.2 ha
      cases XF.sqrt (XF.abs x) <;> simp [XF.mul, infSign_pos this, infSign_pos (show (0 : ℝ) < 2 by norm_num), XF.neg]
      ring
  · have m1 : ∀ k : Frame ℝ, k.cols = f.cols → checkMissing k [close] = .error .assertionError := by
      intro k hk; unfold checkMissing; rw [if_neg (by simpa [hk] using hc)]
    rw [m1 g hcols, m1 f rfl]
    rfl

/-- C79 (value): for complete prices Roll's measure is missing in the first `w + 1` bars, then twice the square root of
the absolute sample covariance of consecutive price changes; the impact is this over the volume. -/
theorem C79_value (w : ℕ) (hw : 2 ≤ w) (close volume : String) (f : Frame ℝ) (p q : ℕ → ℝ) (hp : Holds f close p)
    (hq : Holds f volume q) (hq0 : ∀ i, q i ≠ 0) :
    ∃ out imp, rollMeasure w close f = .ok out ∧ rollImpact w close volume f = .ok imp ∧ out.length = f.rows.length ∧
      imp.length = f.rows.length ∧ ∀ i < f.rows.length,
      out[i]? = some (if i < w + 1 then .nan else .fin (2 * Real.sqrt |rollCov w p i|)) ∧
      imp[i]? = some (if i < w + 1 then .nan else .fin (2 * Real.sqrt |rollCov w p i| / q i)) := by
  have l1 := Frame.values_length f close
  have l2 := Frame.values_length f volume
  set d := pdDiff (f.values close) with hd
  have dl : d.length = f.rows.length := by simp [hd, l1]
  have he : rollMeasure w close f = .ok ((rolling2 w winCov d (pdShift d)).map fun x => XF.mul (.fin 2) (XF.sqrt (XF.abs x))) := by
    unfold rollMeasure checkMissing rollE2
    rw [if_pos (by simpa using hp.1), Py.bind_ok, Frame.col_ok hp.1, Py.bind_ok]
    dsimp only
    rw [if_neg (by omega), Py.bind_ok, Int.toNat_natCast]
  have hv : ∀ i < f.rows.length, ((rolling2 w winCov d (pdShift d)).map fun x => XF.mul (.fin 2) (XF.sqrt (XF.abs x)))[i]? =
      some (if i < w + 1 then .nan else .fin (2 * Real.sqrt |rollCov w p i|)) := by
    intro i hi
    have hdi : ∀ k < f.rows.length, d[k]? = some (if k = 0 then .nan else .fin (p k - p (k - 1))) := fun k hk =>
      pdDiff_holds l1 hp.2 k hk
    have hsi : ∀ k < f.rows.length, (pdShift d)[k]? = some (if k ≤ 1 then .nan else .fin (p (k - 1) - p (k - 2))) := by
      intro k hk
      rw [pdShift_getElem? d k (by omega)]
      by_cases h0 : k = 0
      · rw [dif_pos h0, if_pos (by omega)]
      · rw [dif_neg h0]
        have := hdi (k - 1) (by omega)
        rw [List.getElem?_eq_getElem (by omega)] at this
        simp only [Option.some.injEq] at this
        rw [this]
        by_cases h1 : k ≤ 1
        · rw [if_pos (by omega), if_pos h1]
        · rw [if_neg (by omega), if_neg h1, show k - 1 - 1 = k - 2 by omega]
    rw [map_getElem?_of _ (rolling2_getElem? w winCov d (pdShift d) i (by omega))]
    congr 1
    by_cases hs : i < w + 1
    · rw [if_pos hs]
      have : rollAt2 w winCov d (pdShift d) i = .nan := by
        unfold rollAt2
        split
        · rfl
        · rename_i hns
          rw [if_pos]
          rw [Bool.or_eq_true]
          right
          rw [List.any_eq_true]
          refine ⟨.nan, (mem_winAt w i (pdShift d) (by omega) (by simp; omega) _).2 ⟨w - 1, by omega, ?_⟩, rfl⟩
          rw [hsi _ (by omega), if_pos (by omega)]
      rw [this]; simp [XF.sqrt]
    · rw [if_neg hs]
      have e1 : (winAt w i d) = (List.range w).map fun t => (.fin (p (i - (w - 1 - t)) - p (i - (w - 1 - t) - 1)) : XF ℝ) := by
        rw [winAt_eq_map .nan w i d (by omega) (by omega)]
        apply List.map_congr_left
        intro t ht
        rw [List.mem_range] at ht
        rw [show i + 1 - w + t = i - (w - 1 - t) by omega, List.getD_eq_getElem?_getD, hdi _ (by omega), if_neg (by omega)]
        rfl
      have e2 : (winAt w i (pdShift d)) = (List.range w).map fun t =>
          (.fin (p (i - (w - 1 - t) - 1) - p (i - (w - 1 - t) - 2)) : XF ℝ) := by
        rw [winAt_eq_map .nan w i (pdShift d) (by omega) (by simp; omega)]
        apply List.map_congr_left
        intro t ht
        rw [List.mem_range] at ht
        rw [show i + 1 - w + t = i - (w - 1 - t) by omega, List.getD_eq_getElem?_getD, hsi _ (by omega), if_neg (by omega)]
        rfl
      have hcov : rollAt2 w winCov d (pdShift d) i = .fin (rollCov w p i) := by
        unfold rollAt2
        rw [if_neg (by omega), e1, e2, if_neg]
        · rw [List.map_map, List.map_map]
          unfold winCov
          simp only [List.length_map, List.length_range]
          rw [if_neg (by omega)]
          congr 1
          have z : (List.zipWith (· * ·) ((List.range w).map (XF.toK ∘ fun t => (.fin (p (i - (w - 1 - t)) - p (i - (w - 1 - t) - 1)) : XF ℝ)))
              ((List.range w).map (XF.toK ∘ fun t => (.fin (p (i - (w - 1 - t) - 1) - p (i - (w - 1 - t) - 2)) : XF ℝ)))) =
              (List.range w).map fun t => (fun j => (p (i - j) - p (i - j - 1)) * (p (i - j - 1) - p (i - j - 2))) (w - 1 - t) := by
            rw [List.zipWith_map, List.zipWith_self]; rfl
          have s1 : ((List.range w).map (XF.toK ∘ fun t => (.fin (p (i - (w - 1 - t)) - p (i - (w - 1 - t) - 1)) : XF ℝ))).sum =
              ∑ j ∈ range w, (p (i - j) - p (i - j - 1)) := by
            rw [sum_map_range]
            exact Finset.sum_range_reflect (fun j => p (i - j) - p (i - j - 1)) w
          have s2 : ((List.range w).map (XF.toK ∘ fun t => (.fin (p (i - (w - 1 - t) - 1) - p (i - (w - 1 - t) - 2)) : XF ℝ))).sum =
              ∑ j ∈ range w, (p (i - j - 1) - p (i - j - 2)) := by
            rw [sum_map_range]
            exact Finset.sum_range_reflect (fun j => p (i - j - 1) - p (i - j - 2)) w
          rw [z, s1, s2, sum_map_range, Finset.sum_range_reflect (fun j => (p (i - j) - p (i - j - 1)) * (p (i - j - 1) - p (i - j - 2)))]
          unfold rollCov meanAt
          congr 1
          set A := fun j => p (i - j) - p (i - j - 1)
          set B := fun j => p (i - j - 1) - p (i - j - 2)
          have hA : ∑ j ∈ range w, (p (i - j) - p (i - j - 1)) = ∑ j ∈ range w, A j := rfl
          have hB : ∑ j ∈ range w, (p (i - j - 1) - p (i - j - 2)) = ∑ j ∈ range w, B j := rfl
          change ∑ j ∈ range w, A j * B j - (∑ j ∈ range w, A j) * (∑ j ∈ range w, B j) / w =
            ∑ j ∈ range w, (A j - (∑ j ∈ range w, A j) / w) * (B j - (∑ j ∈ range w, B j) / w)
          have hw0 : (w : ℝ) ≠ 0 := by positivity
          set SA := ∑ j ∈ range w, A j with hSA
          set SB := ∑ j ∈ range w, B j with hSB
          have : ∀ j ∈ range w, (A j - SA / w) * (B j - SB / w) = A j * B j - SB / w * A j - SA / w * B j + SA / w * (SB / w) := by
            intro j _; ring
          rw [Finset.sum_congr rfl this, Finset.sum_add_distrib, Finset.sum_sub_distrib, Finset.sum_sub_distrib, ← Finset.mul_sum,
            ← Finset.mul_sum, ← hSA, ← hSB, Finset.sum_const, card_range, nsmul_eq_mul]
          field_simp
          ring
        · rw [Bool.not_eq_true, Bool.or_eq_false_iff, List.any_eq_false, List.any_eq_false]
          constructor <;> intro x hx <;> obtain ⟨t, -, rfl⟩ := List.mem_map.1 hx <;> simp
      rw [hcov, XF.abs_fin, XF.sqrt_fin (abs_nonneg _), XF.mul_fin]
  refine ⟨_, _, he, by unfold rollImpact; rw [he, Py.bind_ok, Frame.col_ok hq.1, Py.bind_ok], by simp [dl], by simp [dl, l2], ?_⟩
  intro i hi
  refine ⟨hv i hi, ?_⟩
  rw [zipWith_getElem?_of _ (hv i hi) (hq.2 i hi)]
  split
  · simp
  · rw [XF.div_fin _ _ (hq0 i)]

section Examples

/-- The two indicators below the threshold and rising give the only buy. -/
example : rsiConfirmation (fun _ => .ok [.fin 50, .fin 20, .fin 25, .fin 40, .fin (10 : ℚ)]) 30 2 1
    ⟨["close"], [(0, [.fin 1]), (1, [.fin 1]), (2, [.fin 1]), (3, [.fin 1]), (4, [.fin 1])]⟩ =
    .ok [.fin 0, .fin 0, .fin 1, .fin 0, .fin 0] := by decide +kernel

/-- The missing price leaves the value of the bar before. -/
example : ewmaDifference 2 3 "close" false ⟨["close"], [(0, [.fin 1]), (1, [.nan]), (2, [.fin (4 : ℚ)])]⟩ =
    .ok [.fin 0, .fin 0, .fin (3 / 10)] := by decide +kernel

example : ewmaDifference 2 3 "close" true ⟨["close"], [(0, [.nan]), (1, [.fin 1]), (2, [.fin (4 : ℚ)])]⟩ =
    .ok [.nan, .fin 0, .fin (1 / 17)] := by decide +kernel

/-- Bars at 0, 10, 12, 14, 30: the mean of the last time is below the mean of the last two only where bars speed up. -/
example : barArrivalRsi (fun _ => .ok [.fin 50, .fin 50, .fin 50, .fin 90, .fin (50 : ℚ)]) ⟨70, 30, 0, -1, 1, 2, 10⟩
    ⟨["close"], [(0, [.fin 1]), (10, [.fin 1]), (12, [.fin 1]), (14, [.fin 1]), (30, [.fin 1])]⟩ =
    .ok [.fin 0, .fin 0, .fin 1, .fin 0, .fin 0] := by decide +kernel

example : buySellImbalance 2 3 "base" ⟨["base_asset_buy_volume", "base_asset_sell_volume", "base_asset_volume"],
    [(0, [.fin 1, .fin 3, .fin 4]), (1, [.fin 5, .fin 1, .fin (6 : ℚ)])]⟩ = .ok [.fin 0, .fin (1 / 14)] := by decide +kernel

/-- Prices 1, 2, 1, 2, 1: the changes alternate, the covariance over two bars is -2. -/
example : rolling2 2 winCov (pdDiff [.fin 1, .fin 2, .fin 1, .fin 2, .fin (1 : ℚ)])
    (pdShift (pdDiff [.fin 1, .fin 2, .fin 1, .fin 2, .fin (1 : ℚ)])) = [.nan, .nan, .nan, .fin (-2), .fin (-2)] := by decide +kernel

end Examples

end Mizar.Props
