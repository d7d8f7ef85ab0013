import Verif.Lemmas.Rounded
import Verif.Lemmas.Labeling
import Verif.Spec.Rounded

namespace Mizar.Rd
open Mizar Mizar.Spec

theorem firstHit_some {r : ℚ → ℚ} {bars : List (ℤ × ℚ)} {start exp : ℤ} {x side : ℚ} {breach : ℚ → Bool} {t : ℤ}
    (h : Rd.firstHit r bars start exp x side breach = some t) :
    (∃ y, (t, y) ∈ bars ∧ start ≤ t ∧ t < exp ∧ breach (r (Rd.ret r x y * side)) = true) ∧
      ∀ b ∈ bars, start ≤ b.1 → b.1 < exp → breach (r (Rd.ret r x b.2 * side)) = true → t ≤ b.1 := by
  unfold Rd.firstHit at h
  rw [List.min?_eq_some_iff] at h
  obtain ⟨h1, h2⟩ := h
  constructor
  · simp only [List.mem_map, List.mem_filter, Bool.and_eq_true, decide_eq_true_eq] at h1
    obtain ⟨b, ⟨⟨hb, h3, h4⟩, h5⟩, rfl⟩ := h1
    exact ⟨b.2, hb, h3, h4, h5⟩
  · intro b hb h3 h4 h5
    apply h2
    simp only [List.mem_map, List.mem_filter, Bool.and_eq_true, decide_eq_true_eq]
    exact ⟨b, ⟨⟨hb, h3, h4⟩, h5⟩, rfl⟩

theorem firstHit_none {r : ℚ → ℚ} {bars : List (ℤ × ℚ)} {start exp : ℤ} {x side : ℚ} {breach : ℚ → Bool}
    (h : Rd.firstHit r bars start exp x side breach = none) :
    ∀ b ∈ bars, start ≤ b.1 → b.1 < exp → breach (r (Rd.ret r x b.2 * side)) = false := by
  unfold Rd.firstHit at h
  rw [List.min?_eq_none_iff, List.map_eq_nil_iff, List.filter_eq_nil_iff] at h
  intro b hb h3 h4
  have := h b (by simp [hb, h3, h4])
  simpa using this

theorem find_bar {bars : List (ℤ × ℚ)} (hs : (bars.map (·.1)).Pairwise (· < ·)) {t : ℤ} {y : ℚ} (h : (t, y) ∈ bars) :
    (bars.find? fun b => b.1 == t) = some (t, y) := by
  induction bars with
  | nil => cases h
  | cons a l ih =>
    rw [List.map_cons, List.pairwise_cons] at hs
    rcases List.mem_cons.1 h with rfl | hl
    · simp
    · have hlt := hs.1 t (List.mem_map.2 ⟨(t, y), hl, rfl⟩)
      rw [List.find?_cons_of_neg (by simp; omega)]
      exact ih hs.2 hl

theorem bar_unique {bars : List (ℤ × ℚ)} (hs : (bars.map (·.1)).Pairwise (· < ·)) {t : ℤ} {y z : ℚ} (h : (t, y) ∈ bars)
    (h' : (t, z) ∈ bars) : y = z := by
  have := (find_bar hs h).symm.trans (find_bar hs h')
  simpa using this

theorem labelOf_deserved (p : ℕ) (hp : 1 ≤ p) (m el hit : Bool) (x y side : ℚ) (hx : 0 < x) (hy : 0 < y)
    (fx : IsFloat p x) (fy : IsFloat p y) (hside : side = 1 ∨ side = -1) :
    Rd.labelOf (roundBits p) m el hit x y side =
      (if m then side * floatReturn p x y else floatReturn p x y,
       if el && !hit then some 0 else deservedLabel m x y side) := by
  obtain ⟨h1, h2, h3⟩ := Rd.ret_sign hp hx hy fx fy
  have e : Rd.ret (roundBits p) x y = floatReturn p x y := rfl
  unfold Rd.labelOf
  rw [Rd.side_ret hp hside, e, mul_comm (floatReturn p x y) side]
  rw [e] at h1 h2 h3
  dsimp only
  refine Prod.ext rfl ?_
  dsimp only
  by_cases hh : (el && !hit) = true
  · rw [if_pos hh, if_pos hh]
  rw [if_neg hh, if_neg hh]
  unfold deservedLabel
  cases m with
  | true =>
    simp only [if_true]
    have hs1 : 0 < side * floatReturn p x y ↔ 0 < side * (y - x) := by
      rcases hside with rfl | rfl
      · rw [one_mul, one_mul, h1, sub_pos]
      · rw [neg_one_mul, neg_one_mul, neg_pos, neg_pos, h2, sub_neg]
    have hs2 : side * floatReturn p x y < 0 ↔ side * (y - x) < 0 := by
      rcases hside with rfl | rfl
      · rw [one_mul, one_mul, h2, sub_neg]
      · rw [neg_one_mul, neg_one_mul, neg_lt_zero, neg_lt_zero, h1, sub_pos]
    by_cases g1 : 0 < side * (y - x)
    · rw [if_pos g1, if_pos (hs1.2 g1)]
    · rw [if_neg g1, if_neg (fun h => g1 (hs1.1 h))]
      by_cases g2 : side * (y - x) < 0
      · rw [if_pos g2, if_pos (hs2.2 g2)]
      · rw [if_neg g2, if_neg (fun h => g2 (hs2.1 h))]
  | false =>
    simp only [Bool.false_eq_true, if_false]
    rcases lt_trichotomy x y with h | h | h
    · rw [if_pos (h1.2 h), sign_pos (sub_pos.2 h)]
      simp
    · rw [if_neg (by rw [h1]; linarith), if_neg (by rw [h2]; linarith), h, sub_self, sign_zero]
      simp
    · rw [if_neg (by rw [h1]; linarith), if_pos (h2.2 h), sign_neg (sub_neg.2 h)]
      simp

theorem minOrZero_min? (l : List ℤ) : Lab.minOrZero l = l.min?.getD 0 := by
  cases l with
  | nil => rfl
  | cons a l => rw [List.min?_cons']; rfl

theorem firstHit_exact (bars : List (ℤ × ℚ)) (start exp : ℤ) (x side : ℚ) (hx : x ≠ 0) (f : ℚ → Bool) (g : XF ℚ → Bool)
    (h : ∀ q, g (.fin q) = f q) :
    Lab.firstHit (bars.map fun b => (b.1, XF.fin b.2)) start exp (.fin x) (.fin side) g =
      (Rd.firstHit id bars start exp x side f).getD 0 := by
  unfold Lab.firstHit Rd.firstHit
  dsimp only
  rw [minOrZero_min?]
  congr 2
  rw [List.filter_map, List.filter_map, List.map_map]
  congr 1
  rw [List.filter_filter, List.filter_filter]
  apply List.filter_congr
  intro b _
  simp [XF.div, XF.sub, XF.mul, XF.add, XF.neg, hx, h, Rd.ret, Function.comp, sub_eq_add_neg]

end Mizar.Rd
