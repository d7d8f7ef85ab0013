import Verif.Props.Features

/-! Property theorems C59 for missing and arbitrary volumes (`/repo/mizarlabs/transformers/microstructural_features/vpin.py`). -/

set_option linter.unusedSectionVars false

namespace Mizar.Props
open Mizar.Spec Mizar.Feat Finset
variable {K : Type} [Field K] [LinearOrder K] [IsStrictOrderedRing K]

/-- **C59** (any volumes, exact) The value at bar `i` with a full window: if a volume of the window is missing, or there is neither volume nor
imbalance, it is missing at bar `w - 1` and 0 at all later bars; if all are known it is the sum of the absolute imbalances over the total volume,
whatever the signs and whether or not buys and sells add up to the volume; an imbalance without volume is infinite. -/
theorem C59_any_values (w : ℕ) (hw : 1 ≤ w) (volume buy sell : String) (f : Frame K) (hv : volume ∈ f.cols) (hb : buy ∈ f.cols)
    (hs : sell ∈ f.cols) : ∃ out, vpin w volume buy sell f = .ok out ∧ out.length = f.rows.length ∧ ∀ i < f.rows.length,
      (i + 1 < w → out[i]? = some .nan) ∧
      (w ≤ i + 1 →
        ((∃ j < w, (f.values buy)[i - j]? = some .nan ∨ (f.values sell)[i - j]? = some .nan ∨ (f.values volume)[i - j]? = some .nan) →
          out[i]? = some (if i + 1 = w then .nan else .fin 0)) ∧
        ∀ x y v : ℕ → K, (∀ j < w, (f.values buy)[i - j]? = some (.fin (x j)) ∧ (f.values sell)[i - j]? = some (.fin (y j)) ∧
            (f.values volume)[i - j]? = some (.fin (v j))) →
          out[i]? = some (if ∑ j ∈ range w, v j ≠ 0 then .fin ((∑ j ∈ range w, |x j - y j|) / ∑ j ∈ range w, v j)
            else if ∑ j ∈ range w, |x j - y j| ≠ 0 then .pinf
            else if i + 1 = w then .nan else .fin 0)) := by
  have hlen : ∀ n, (f.values n).length = f.rows.length := fun n => Frame.values_length f n
  have hl1 : ((List.zipWith XF.sub (f.values buy) (f.values sell)).map XF.abs).length = f.rows.length := by simp [hlen]
  refine ⟨_, vpin_eq w volume buy sell f hv hb hs, ?_, ?_⟩
  · have : ∀ l : List (XF K), (fillFrom w l).length = l.length := by
      intro l
      unfold fillFrom; simp; omega
    rw [this]
    simp [Frame.values_length]
  intro i hi
  rw [fillFrom_getElem?, zipWith_getElem?_of XF.div (rolling_getElem? w winSum _ i (by rw [hl1]; exact hi))
    (rolling_getElem? w winSum _ i (by rw [hlen]; exact hi)), Option.map_some]
  have hnan : ∀ a b : XF K, a = .nan ∨ b = .nan → XF.div a b = .nan := by
    rintro a b (rfl | rfl)
    · cases b <;> rfl
    · cases a <;> rfl
  have hfill : w ≤ i + 1 → (if i < w then (.nan : XF K) else fillna1 (.fin 0) .nan) = if i + 1 = w then .nan else .fin 0 := by
    intro h
    by_cases hiw : i + 1 = w
    · rw [if_pos (by omega), if_pos hiw]
    · rw [if_neg (by omega), if_neg hiw]; rfl
  refine ⟨fun h => ?_, fun h => ⟨?_, ?_⟩⟩
  · rw [rollAt_short _ _ _ _ h, if_pos (by omega)]; simp
  · rintro ⟨j, hj, hx⟩
    have hij : i - j < f.rows.length := by omega
    rw [hnan, hfill h]
    rcases hx with hx | hx | hx
    · left
      apply rollAt_nan_of w winSum _ i (by rw [hl1]; exact hi) j hj
      obtain ⟨z, hy⟩ : ∃ z, (f.values sell)[i - j]? = some z := ⟨_, List.getElem?_eq_getElem (by rw [hlen]; exact hij)⟩
      rw [map_getElem?_of _ (zipWith_getElem?_of _ hx hy)]
      cases z <;> rfl
    · left
      apply rollAt_nan_of w winSum _ i (by rw [hl1]; exact hi) j hj
      obtain ⟨z, hy⟩ : ∃ z, (f.values buy)[i - j]? = some z := ⟨_, List.getElem?_eq_getElem (by rw [hlen]; exact hij)⟩
      rw [map_getElem?_of _ (zipWith_getElem?_of _ hy hx)]
      cases z <;> rfl
    · right
      exact rollAt_nan_of w winSum _ i (by rw [hlen]; exact hi) j hj hx
  · intro x y v hxyz
    have hd : ∀ j < w, ((List.zipWith XF.sub (f.values buy) (f.values sell)).map XF.abs)[i - j]? = some (.fin |x j - y j|) := by
      intro j hj
      rw [map_getElem?_of _ (zipWith_getElem?_of _ (hxyz j hj).1 (hxyz j hj).2.1)]
      simp
    rw [rollAt_of_fin w winSum _ i (by omega) h (fun j => |x j - y j|) hd,
      rollAt_of_fin w winSum _ i (by rw [hlen]; exact hi) h v (fun j hj => (hxyz j hj).2.2), winSum_of w (fun j => |x j - y j|), winSum_of w v]
    have hnn : 0 ≤ ∑ j ∈ range w, |x j - y j| := Finset.sum_nonneg fun j _ => abs_nonneg _
    by_cases hV : ∑ j ∈ range w, v j = 0
    · rw [if_neg (not_not.2 hV), hV]
      by_cases hA : ∑ j ∈ range w, |x j - y j| = 0
      · rw [if_neg (not_not.2 hA), hA, ← hfill h]
        simp [XF.div, XF.infSign]
      · rw [if_pos hA]
        have hp : 0 < ∑ j ∈ range w, |x j - y j| := lt_of_le_of_ne hnn (Ne.symm hA)
        have : XF.div (.fin (∑ j ∈ range w, |x j - y j|)) (.fin 0) = .pinf := by
          simp [XF.div, XF.infSign, hp]
        rw [this]
        split <;> rfl
    · rw [if_pos hV, XF.div_fin _ _ hV]
      split <;> rfl

/-- **C59** (missing volumes, refuted) Missing volumes are not reported as missing: as long as they are in the window the value is 0, as if buys
and sells were in balance, although all known volumes are buys. -/
theorem C59_missing_volume_refuted :
    vpin 2 "v" "b" "s" ⟨["v", "b", "s"], [(0, [.fin 5, .fin 5, .fin 0]), (1, [.fin 5, .fin 5, .fin 0]),
      (2, [.nan, .nan, .nan]), (3, [.fin 5, .fin 5, .fin (0 : ℚ)]), (4, [.fin 5, .fin 5, .fin 0])]⟩ =
    .ok [.nan, .fin 1, .fin 0, .fin 0, .fin 1] := by decide +kernel

example := C59_any_values 2 (by norm_num) "v" "b" "s" (⟨["v", "b", "s"], [(0, [.fin 5, .fin 5, .fin 0]), (1, [.fin 5, .fin 5, .fin 0]),
      (2, [.nan, .nan, .nan]), (3, [.fin 0, .fin 5, .fin (0 : ℚ)]), (4, [.fin 0, .fin 5, .fin 0])]⟩ : Frame ℚ) (by decide) (by decide) (by decide)

end Mizar.Props
