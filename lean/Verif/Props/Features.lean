import Mathlib.Algebra.Order.Ring.Rat
import Verif.Lemmas.Features
import Verif.Spec.Features
import Verif.Props.Causal

/-!
Property theorems C59 and C76: VPIN (`/repo/mizarlabs/transformers/microstructural_features/vpin.py`) and the local
maximum ratio (`/repo/mizarlabs/transformers/features/custom.py`).
-/

set_option linter.unusedSectionVars false

namespace Mizar.Props
open Mizar.Spec Mizar.Feat Finset

section
variable {K : Type} [Field K] [LinearOrder K] [IsStrictOrderedRing K]

theorem vpin_eq (w : ℕ) (volume buy sell : String) (f : Frame K) (hv : volume ∈ f.cols) (hb : buy ∈ f.cols) (hs : sell ∈ f.cols) :
    vpin w volume buy sell f = .ok (fillFrom w (List.zipWith XF.div
      (rolling w winSum ((List.zipWith XF.sub (f.values buy) (f.values sell)).map XF.abs))
      (rolling w winSum (f.values volume)))) := by
  unfold vpin checkMissing
  rw [if_pos (by simp [hv, hb, hs]), Py.bind_ok, Frame.col_ok hv, Py.bind_ok, rollE_ok, Py.bind_ok, Frame.col_ok hb, Py.bind_ok,
    Frame.col_ok hs, Py.bind_ok, rollE_ok, Py.bind_ok]
  simp only [fillFrom_defined, Bool.false_eq_true, if_false, Int.toNat_natCast]

/-- C59 (partial: at bar `w - 1`, the first with a full window, the value is missing if there was no volume): with
buy and sell volumes that are not negative and add up to the volume, the first `w - 1` values are missing and the
others are the sum of the absolute imbalances over the total volume of the last `w` bars (0 without volume), within
[0, 1]. -/
theorem C59_vpin_partial (w : ℕ) (hw : 1 ≤ w) (volume buy sell : String) (f : Frame K) (x y : ℕ → K)
    (hb : Holds f buy x) (hs : Holds f sell y) (hv : Holds f volume fun i => x i + y i)
    (h0 : ∀ i, 0 ≤ x i ∧ 0 ≤ y i) :
    ∃ out, vpin w volume buy sell f = .ok out ∧ out.length = f.rows.length ∧ ∀ i < f.rows.length,
      (i + 1 < w → out[i]? = some .nan) ∧
      (w ≤ i + 1 →
        (0 < ∑ j ∈ range w, (x (i - j) + y (i - j)) → ∃ p, out[i]? = some (.fin p) ∧ 0 ≤ p ∧ p ≤ 1 ∧
          p * ∑ j ∈ range w, (x (i - j) + y (i - j)) = ∑ j ∈ range w, |x (i - j) - y (i - j)|) ∧
        (∑ j ∈ range w, (x (i - j) + y (i - j)) = 0 →
          out[i]? = some (if i + 1 = w then .nan else .fin 0))) := by
  refine ⟨_, vpin_eq w volume buy sell f hv.1 hb.1 hs.1, ?_, ?_⟩
  · have : (fillFrom w (List.zipWith XF.div
      (rolling w winSum ((List.zipWith XF.sub (f.values buy) (f.values sell)).map XF.abs))
      (rolling w winSum (f.values volume)))).length = (List.zipWith XF.div
      (rolling w winSum ((List.zipWith XF.sub (f.values buy) (f.values sell)).map XF.abs))
      (rolling w winSum (f.values volume))).length := by
      unfold fillFrom; simp; omega
    rw [this]
    simp [Frame.values_length]
  · intro i hi
    have hl1 : ((List.zipWith XF.sub (f.values buy) (f.values sell)).map XF.abs).length = f.rows.length := by
      simp [Frame.values_length]
    have hl2 : (f.values volume).length = f.rows.length := by simp [Frame.values_length]
    have hd : ∀ j < f.rows.length, ((List.zipWith XF.sub (f.values buy) (f.values sell)).map XF.abs)[j]? =
        some (.fin |x j - y j|) := by
      intro j hj
      rw [map_getElem?_of _ (zipWith_getElem?_of _ (hb.2 j hj) (hs.2 j hj))]
      simp
    rw [fillFrom_getElem?, zipWith_getElem?_of XF.div (rolling_getElem? w winSum _ i (by rw [hl1]; exact hi))
      (rolling_getElem? w winSum _ i (by rw [hl2]; exact hi)), Option.map_some]
    constructor
    · intro h
      rw [rollAt_short _ _ _ _ h, if_pos (by omega)]; simp
    · intro h
      rw [rollAt_of_fin w winSum _ i (by omega) h (fun j => |x (i - j) - y (i - j)|) (fun j hj => hd (i - j) (by omega)),
        rollAt_of_fin w winSum _ i (by omega) h (fun j => x (i - j) + y (i - j)) (fun j hj => hv.2 (i - j) (by omega)),
        winSum_of w (fun j => |x (i - j) - y (i - j)|), winSum_of w (fun j => x (i - j) + y (i - j))]
      have hle : ∑ j ∈ range w, |x (i - j) - y (i - j)| ≤ ∑ j ∈ range w, (x (i - j) + y (i - j)) := by
        apply Finset.sum_le_sum
        intro j _
        rw [abs_le]
        have := h0 (i - j)
        constructor <;> linarith [this.1, this.2]
      have hnn : 0 ≤ ∑ j ∈ range w, |x (i - j) - y (i - j)| := Finset.sum_nonneg fun j _ => abs_nonneg _
      constructor
      · intro hT
        refine ⟨_, ?_, div_nonneg hnn hT.le, (div_le_one hT).2 hle, div_mul_cancel₀ _ hT.ne'⟩
        rw [XF.div_fin _ _ hT.ne']
        split <;> simp [fillna1]
      · intro hT
        rw [hT] at hle ⊢
        have hz : ∑ j ∈ range w, |x (i - j) - y (i - j)| = 0 := le_antisymm hle hnn
        rw [hz]
        by_cases hiw : i + 1 = w
        · rw [if_pos (by omega), if_pos hiw]; simp [XF.div, XF.infSign]
        · rw [if_neg (by omega), if_neg hiw]; simp [XF.div, XF.infSign, fillna1]

/-- C59 (any data): whatever the volumes, no value from position `w` on is missing. -/
theorem C59_defined_after_window (w : ℕ) (volume buy sell : String) (f : Frame K) (out : List (XF K))
    (h : vpin w volume buy sell f = .ok out) (i : ℕ) (hi : w ≤ i) : out[i]? ≠ some .nan := by
  unfold vpin at h
  simp only [Py.bind_eq_ok, fillFrom_defined, Bool.false_eq_true, if_false, Except.ok.injEq, Int.toNat_natCast] at h
  obtain ⟨-, -, v, -, t, -, b, -, s, -, d, -, rfl⟩ := h
  rw [fillFrom_getElem?]
  intro h
  obtain ⟨y, -, hy⟩ := Option.map_eq_some_iff.1 h
  rw [if_neg (by omega)] at hy
  unfold fillna1 at hy
  split at hy
  · simp at hy
  · subst hy; simp at *

/-- C59 (missing columns): a missing column raises. -/
theorem C59_missing_column (w : ℤ) (volume buy sell : String) (f : Frame K)
    (h : volume ∉ f.cols ∨ buy ∉ f.cols ∨ sell ∉ f.cols) : vpin w volume buy sell f = .error .assertionError := by
  unfold vpin checkMissing
  rw [if_neg, Py.bind_error]
  intro hc
  simp only [List.mem_cons, List.not_mem_nil, or_false, forall_eq_or_imp, forall_eq] at hc
  tauto

end

/-- C59 is refuted at the first full window: without any volume in it, the value at bar `window - 1` is missing,
although the same situation at later bars gives 0. -/
theorem C59_first_window_refuted :
    vpin 2 "v" "b" "s" ⟨["v", "b", "s"], [(0, [.fin 0, .fin 0, .fin 0]), (1, [.fin 0, .fin 0, .fin 0]),
      (2, [.fin 0, .fin 0, .fin 0]), (3, [.fin 5, .fin 4, .fin (1 : ℚ)])]⟩ =
    .ok [.nan, .nan, .fin 0, .fin (3 / 5)] := by decide +kernel

/-- C76: with `high ≥ close > 0` wherever both are known (no infinities), every value that is not missing is the
largest of the last `window` highs over the close, at least 1, and at most `M / m` for every bound `M` of the highs
and positive lower bound `m` of the closes. -/
theorem C76_local_max (w : ℕ) (hw : 1 ≤ w) (f : Frame ℝ) (hh : "high" ∈ f.cols) (hc : "close" ∈ f.cols)
    (h1 : ∀ (i : ℕ) (x y : ℝ), (f.values "high")[i]? = some (.fin x) → (f.values "close")[i]? = some (.fin y) → y ≤ x ∧ 0 < y)
    (h2 : ∀ x ∈ f.values "close", x = .nan ∨ ∃ y, x = .fin y) :
    ∃ out, localMaxRatio w f = .ok out ∧ out.length = f.rows.length ∧ ∀ i < f.rows.length,
      (out[i]? = some .nan ∨ ∃ r c, out[i]? = some (.fin r) ∧ w ≤ i + 1 ∧ (f.values "close")[i]? = some (.fin c) ∧
        (∃ j < w, (f.values "high")[i - j]? = some (.fin (r * c))) ∧
        (∀ j < w, ∃ x, (f.values "high")[i - j]? = some (.fin x) ∧ x ≤ r * c) ∧ 1 ≤ r ∧
        ∀ M m : ℝ, (∀ (j : ℕ) (x : ℝ), (f.values "high")[j]? = some (.fin x) → x ≤ M) →
          (∀ (j : ℕ) (x : ℝ), (f.values "close")[j]? = some (.fin x) → m ≤ x) → 0 < m → r ≤ M / m) ∧
      (out[i]? = some .nan → i + 1 < w ∨ (f.values "close")[i]? = some .nan ∨
        ∃ j < w, ∀ x, (f.values "high")[i - j]? ≠ some (.fin x)) := by
  refine ⟨List.zipWith XF.div (rolling w winMax (f.values "high")) (f.values "close"), ?_, ?_, ?_⟩
  · unfold localMaxRatio
    rw [Frame.attr_ok hh, Py.bind_ok, rollE_ok, Py.bind_ok, Frame.attr_ok hc, Py.bind_ok]
  · simp [Frame.values_length]
  · intro i hi
    have hl : i < (f.values "high").length := by rw [Frame.values_length]; exact hi
    have hl' : i < (f.values "close").length := by rw [Frame.values_length]; exact hi
    have hci := List.getElem?_eq_getElem hl'
    rw [zipWith_getElem?_of XF.div (rolling_getElem? w winMax _ i hl) hci]
    rcases rollAt_cases w winMax (f.values "high") i hl with h | ⟨h3, h4, -⟩
    · rw [h]
      refine ⟨by simp, fun _ => ?_⟩
      by_contra hno
      simp only [not_or, not_exists, not_and, not_forall, not_not] at hno
      obtain ⟨hn1, -, hn2⟩ := hno
      choose! v hv using hn2
      rw [rollAt_of_fin w winMax _ i hl (by omega) v hv] at h
      obtain ⟨M, hM, -⟩ := winMax_of w hw v
      rw [hM] at h
      simp at h
    · choose! v hv using h4
      rw [rollAt_of_fin w winMax _ i hl h3 v hv]
      obtain ⟨M, hM, ⟨j, hj, hjM⟩, hmax⟩ := winMax_of w hw v
      rw [hM]
      rcases h2 _ (List.getElem_mem hl') with hn | ⟨c, hcc⟩
      · rw [hn]
        simp only [XF.div_nan_right, true_or, forall_true_left, true_and]
        right; left
        rw [hci, hn]
      · rw [hcc] at hci ⊢
        have hi0 : v 0 ≤ M := hmax 0 (by omega)
        have hp := h1 i (v 0) c (by simpa using hv 0 (by omega)) hci
        have hcM : c ≤ M := hp.1.trans hi0
        rw [XF.div_fin _ _ hp.2.ne']
        have hrc : M / c * c = M := div_mul_cancel₀ _ hp.2.ne'
        refine ⟨Or.inr ⟨M / c, c, rfl, h3, hci, ⟨j, hj, by rw [hrc, ← hjM]; exact hv j hj⟩,
          fun t ht => ⟨v t, hv t ht, by rw [hrc]; exact hmax t ht⟩, (one_le_div hp.2).2 hcM, ?_⟩, by simp⟩
        intro B m hB hm hm0
        have e1 : M ≤ B := hB (i - j) M (by rw [← hjM]; exact hv j hj)
        have e2 : m ≤ c := hm i c hci
        exact div_le_div₀ (hp.2.le.trans (hcM.trans e1)) e1 hm0 e2

example : rolling 2 winMax [.fin 3, .fin 5, .fin 4, .fin (1 : ℚ)] = [.nan, .fin 5, .fin 5, .fin 4] := by decide +kernel

end Mizar.Props
