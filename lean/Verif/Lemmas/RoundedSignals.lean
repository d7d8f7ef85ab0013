import Verif.Model.RoundedSignals
import Verif.Props.RoundedCross
import Verif.Props.Signals
import Verif.Lemmas.RoundedMicro
import Verif.Lemmas.RoundedHighLow

/-! Helper lemmas for C139. -/

namespace Mizar.Rd
open Mizar.Spec

/-- The increase of the moving average at one position. -/
theorem increase_iff {r : ℚ → ℚ} (hr : ∀ x, 0 < r x ↔ 0 < x) (l : List (XF ℚ)) (i : ℕ) (hi : i < l.length) :
    ((diffR r l).map fun x => XF.lt (.fin 0) x)[i]? = some (if i = 0 then false else XF.lt (l.getD (i - 1) .nan) (l.getD i .nan)) ∨
      ∃ j, ∀ q, l.getD j .nan ≠ .fin q ∧ l.getD j .nan ≠ .nan := by
  by_cases hinf : ∃ j, ∀ q, l.getD j .nan ≠ .fin q ∧ l.getD j .nan ≠ .nan
  · exact .inr hinf
  · left
    push Not at hinf
    rw [diffR, List.getElem?_map, List.getElem?_map, pdDiff_getElem? _ _ hi, Option.map_some, Option.map_some]
    congr 1
    by_cases h0 : i = 0
    · simp [h0, rnd]
    · have hi' : i - 1 < l.length := by omega
      rw [dif_neg h0, if_neg h0]
      obtain ⟨q1, h1⟩ := hinf i
      obtain ⟨q2, h2⟩ := hinf (i - 1)
      rw [List.getD_eq_getElem _ _ hi] at h1 ⊢
      rw [List.getD_eq_getElem _ _ hi'] at h2 ⊢
      by_cases e1 : l[i] = .fin q1
      · by_cases e2 : l[i - 1] = .fin q2
        · rw [e1, e2, XF.sub_fin, rnd, XF.lt_fin, XF.lt_fin]
          simp only [hr, sub_pos]
        · rw [h2 e2, e1]
          rfl
      · rw [h1 e1]
        cases l[i - 1] <;> rfl

/-- Averages are numbers or missing. -/
theorem rollMean_values (r : ℚ → ℚ) (w : ℕ) (l : List (XF ℚ)) : ¬ ∃ j, ∀ q, (rollMean r w l).getD j .nan ≠ .fin q ∧ (rollMean r w l).getD j .nan ≠ .nan := by
  rintro ⟨j, h⟩
  by_cases hj : j < l.length
  · rw [rollMean, List.getD_eq_getElem _ _ (by simpa using hj), List.getElem_map] at h
    unfold calcMean at h
    split_ifs at h with h1
    · dsimp only at h
      split_ifs at h
      · exact (h 0).1 rfl
      · exact (h 0).1 rfl
      · exact (h _).1 rfl
    · exact (h 0).2 rfl
  · rw [List.getD_eq_default _ _ (by simp [rollMean]; omega)] at h
    exact (h 0).2 rfl

/-- The values below the threshold, which do not round. -/
def lowAt (threshold : ℚ) (confirm : ℕ) (v : List (XF ℚ)) (i : ℕ) : Bool :=
  !XF.beq (fillna1 (.fin 0) (rollAt confirm Tech.winAll (v.map fun x => if XF.lt x (.fin threshold) then (.fin 1 : XF ℚ) else .fin 0) i)) (.fin 0)

/-- The signal of one bar. -/
theorem confirmation_at {r : ℚ → ℚ} (hr : ∀ x, 0 < r x ↔ 0 < x) (threshold : ℚ) (confirm ma : ℕ) (v : List (XF ℚ)) (i : ℕ) (hi : i < v.length) :
    (rsiConfirmation r threshold confirm ma v)[i]? =
      some (if lowAt threshold confirm v i && (if i = 0 then false else XF.lt ((rollMean r ma v).getD (i - 1) .nan) ((rollMean r ma v).getD i .nan))
        then .fin 1 else .fin 0) := by
  have h1 := (increase_iff hr (rollMean r ma v) i (by rw [rollMean_length]; exact hi)).resolve_right (rollMean_values r ma v)
  unfold rsiConfirmation
  dsimp only
  rw [zipWith_getElem?_of _ (by
    rw [List.getElem?_map, rolling_getElem? confirm Tech.winAll _ i (by simpa using hi), Option.map_some]) h1]
  rfl

/-! ### Times between bars -/

theorem arrivals_length (idx : List ℤ) : (Tech.arrivals idx : List (XF ℚ)).length = idx.length - 1 := by unfold Tech.arrivals; simp

theorem arrivals_getD (idx : List ℤ) (k : ℕ) (hk : k + 1 < idx.length) :
    (Tech.arrivals idx : List (XF ℚ)).getD k .nan = .fin ((idx.getD (k + 1) 0 - idx.getD k 0 : ℤ) : ℚ) := by
  rw [List.getD_eq_getElem?_getD, Props.arrivals_getElem? idx k hk]
  rfl

theorem arrivals_pre {idx : List ℤ} (hinc : ∀ k, k + 1 < idx.length → idx.getD k 0 ≤ idx.getD (k + 1) 0) (n : ℕ) (hn : n ≤ idx.length - 1) :
    pre (fun x : XF ℚ => |x.toK|) (Tech.arrivals idx) n = ((idx.getD n 0 - idx.getD 0 0 : ℤ) : ℚ) := by
  induction n with
  | zero => simp [pre]
  | succ n ih =>
    rw [pre_succ _ _ _ (by rw [arrivals_length]; omega), ih (by omega), arrivals_getD idx n (by omega)]
    have h0 : (0 : ℚ) ≤ ((idx.getD (n + 1) 0 - idx.getD n 0 : ℤ) : ℚ) := by exact_mod_cast sub_nonneg.2 (hinc n (by omega))
    rw [show (XF.fin ((idx.getD (n + 1) 0 - idx.getD n 0 : ℤ) : ℚ)).toK = ((idx.getD (n + 1) 0 - idx.getD n 0 : ℤ) : ℚ) from rfl, abs_of_nonneg h0]
    push_cast
    ring

/-- The times between bars are whole numbers; the windows are as long as the bars are apart. -/
theorem arrivals_grid {p w : ℕ} {idx : List ℤ} (hinc : ∀ k, k + 1 < idx.length → idx.getD k 0 ≤ idx.getD (k + 1) 0)
    (hspan : ∀ i < idx.length, idx.getD i 0 - idx.getD (i - w) 0 < 2 ^ p) : OnGrid p 0 w (Tech.arrivals idx) := by
  constructor
  · intro x hx
    obtain ⟨k, hk, rfl⟩ := List.mem_iff_getElem.1 hx
    rw [arrivals_length] at hk
    have := arrivals_getD idx k (by omega)
    rw [List.getD_eq_getElem _ _ (by rw [arrivals_length]; exact hk)] at this
    exact ⟨idx.getD (k + 1) 0 - idx.getD k 0, by rw [this]; simp [XF.toK]⟩
  · intro i hi
    rw [arrivals_length] at hi
    rw [← win_eq, win, arrivals_pre hinc _ (by omega), arrivals_pre hinc _ (by omega), zpow_zero, mul_one]
    have := hspan (i + 1) (by omega)
    have h : ((idx.getD (i + 1) 0 - idx.getD (i + 1 - w) 0 : ℤ) : ℚ) < 2 ^ p := by exact_mod_cast this
    push_cast at h ⊢
    linarith

theorem arrivals_rnd {p w : ℕ} (hp : 1 ≤ p) (hw : 1 ≤ w) {idx : List ℤ} (hinc : ∀ k, k + 1 < idx.length → idx.getD k 0 ≤ idx.getD (k + 1) 0)
    (hspan : ∀ i < idx.length, idx.getD i 0 - idx.getD (i - w) 0 < 2 ^ p) :
    (Tech.arrivals idx : List (XF ℚ)).map (rnd (roundBits p)) = Tech.arrivals idx := by
  have hmono : ∀ m k, k + m < idx.length → idx.getD k 0 ≤ idx.getD (k + m) 0 := by
    intro m
    induction m with
    | zero => intro k _; exact le_rfl
    | succ m ih => intro k hk; exact (ih k (by omega)).trans (hinc (k + m) (by omega))
  conv_rhs => rw [← List.map_id (Tech.arrivals idx)]
  apply List.map_congr_left
  intro x hx
  obtain ⟨k, hk, rfl⟩ := List.mem_iff_getElem.1 hx
  rw [arrivals_length] at hk
  have he := arrivals_getD idx k (by omega)
  rw [List.getD_eq_getElem _ _ (by rw [arrivals_length]; exact hk)] at he
  rw [he]
  simp only [rnd, id_eq, XF.fin.injEq]
  have h1 := hspan (k + 1) (by omega)
  have h2 : idx.getD (k + 1 - w) 0 ≤ idx.getD k 0 := by
    have := hmono (k - (k + 1 - w)) (k + 1 - w) (by omega)
    rwa [show k + 1 - w + (k - (k + 1 - w)) = k by omega] at this
  have h3 := hinc k (by omega)
  refine grid_fixed hp (e := 0) ⟨_, by rw [zpow_zero, mul_one]⟩ ?_
  rw [zpow_zero, mul_one, abs_of_nonneg (by exact_mod_cast sub_nonneg.2 h3)]
  have : idx.getD (k + 1) 0 - idx.getD k 0 < 2 ^ p := by omega
  exact_mod_cast this

/-- The computed difference: each mean is rounded once, then the difference, then the quotient. -/
theorem arrivalDiff_at {p : ℕ} (hp : 1 ≤ p) {fast slow : ℕ} (hf : 1 ≤ fast) (hs : 1 ≤ slow) {d : ℚ} (hd : d ≠ 0) {idx : List ℤ}
    (hinc : ∀ k, k + 1 < idx.length → idx.getD k 0 ≤ idx.getD (k + 1) 0)
    (hspan : ∀ i < idx.length, idx.getD i 0 - idx.getD (i - fast) 0 < 2 ^ p ∧ idx.getD i 0 - idx.getD (i - slow) 0 < 2 ^ p) (i : ℕ)
    (hi : i + 1 < idx.length) :
    (arrivalDiff (roundBits p) fast slow d idx)[i]? = some (if i + 1 < fast ∨ i + 1 < slow then .nan else
      .fin (roundBits p (roundBits p (roundBits p (Props.gapMean fast (fun k => idx.getD k 0) (i + 1)) -
        roundBits p (Props.gapMean slow (fun k => idx.getD k 0) (i + 1))) / d))) := by
  have hil : i < (Tech.arrivals idx : List (XF ℚ)).length := by rw [arrivals_length]; omega
  have hm : ∀ w, 1 ≤ w → (∀ i < idx.length, idx.getD i 0 - idx.getD (i - w) 0 < 2 ^ p) →
      (rollMean (roundBits p) w (Tech.arrivals idx))[i]? =
        some (if i + 1 < w then .nan else .fin (roundBits p (Props.gapMean w (fun k => idx.getD k 0) (i + 1)))) := by
    intro w hw h
    rw [(Props.C131_grid p hp 0 w hw _ (arrivals_grid hinc h)).2, List.getElem?_map, rolling_getElem? w winMean _ i hil, Option.map_some,
      Props.arrivals_mean w hw idx i hi]
    split_ifs <;> rfl
  unfold arrivalDiff
  dsimp only
  rw [arrivals_rnd hp hf hinc fun i hi => (hspan i hi).1, zipWith_getElem?_of _ (hm fast hf fun i hi => (hspan i hi).1)
    (hm slow hs fun i hi => (hspan i hi).2)]
  by_cases h1 : i + 1 < fast
  · rw [if_pos h1, if_pos (show i + 1 < fast ∨ i + 1 < slow from Or.inl h1)]
    split_ifs <;> rfl
  · rw [if_neg h1]
    by_cases h2 : i + 1 < slow
    · rw [if_pos h2, if_pos (show i + 1 < fast ∨ i + 1 < slow from Or.inr h2)]
      rfl
    · rw [if_neg h2, if_neg (by omega), XF.sub_fin, rnd, XF.div_fin _ _ hd, rnd]

end Mizar.Rd
