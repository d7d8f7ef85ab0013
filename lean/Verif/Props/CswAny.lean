import Verif.Props.Csw

/-! Property theorem C66 for series with missing values
(`/repo/mizarlabs/structural_breaks/cusum_chu_stinchcome_white.py`). -/

namespace Mizar.Props
open Mizar.Spec Mizar.Brk

private theorem foldl_add_nan (l : List (XF ℝ)) (a : XF ℝ) (h : a = .nan ∨ XF.nan ∈ l) : l.foldl XF.add a = .nan := by
  induction l generalizing a with
  | nil =>
    rcases h with h | h
    · exact h
    · simp at h
  | cons b l ih =>
    rw [List.foldl_cons]
    apply ih
    rcases h with rfl | h
    · left; simp [XF.add]
    · rcases List.mem_cons.1 h with rfl | h
      · left; cases a <;> simp [XF.add]
      · exact Or.inr h

private theorem sigma_nan (l : List (XF ℝ)) (t p : ℕ) (h2 : 2 ≤ l.length) (hp : l[p]? = some .nan) : sigmaSq l t = .nan := by
  have hlt : p < l.length := (List.getElem?_eq_some_iff.1 hp).1
  have hv : l[p] = .nan := (List.getElem?_eq_some_iff.1 hp).2
  have hmem : XF.nan ∈ (List.zipWith XF.sub l.tail l).map fun x => XF.mul x x := by
    refine List.mem_map.2 ⟨.nan, ?_, rfl⟩
    rcases Nat.eq_zero_or_pos p with rfl | hpos
    · refine List.mem_iff_getElem.2 ⟨0, by simp; omega, ?_⟩
      rw [List.getElem_zipWith, hv]
      cases l.tail[0]'(by simp; omega) <;> rfl
    · refine List.mem_iff_getElem.2 ⟨p - 1, by simp; omega, ?_⟩
      rw [List.getElem_zipWith, List.getElem_tail]
      have : l[p - 1 + 1]'(by omega) = .nan := by simp only [show p - 1 + 1 = p by omega, hv]
      rw [this]
      rfl
  unfold sigmaSq XF.sum
  rw [foldl_add_nan _ _ (Or.inr hmem)]
  rfl

private theorem inner_nan (em : ErrModel) (side : String) (t : ℕ) (yt : XF ℝ) (l : List (XF ℝ)) (j : ℕ) (c : XF ℝ) :
    inner em side .nan t yt j l (.ninf, c) = .ok (.ninf, c) := by
  induction l generalizing j with
  | nil => rfl
  | cons y l ih =>
    have hs : XF.sqrt (XF.mul XF.nan (.fin ((t : ℝ) - ((j + 1 : ℕ) : ℝ)))) = .nan := rfl
    have hd : divE em (yDiff side yt y) XF.nan = .ok .nan := by
      unfold divE
      rw [if_neg (by simp [XF.beq])]
      cases yDiff side yt y <;> rfl
    simp only [inner]
    rw [hs, hd, Py.bind_ok]
    exact ih _

/-- **C66** (missing values) If the value at position `p` is missing, nothing is reported from there on: the statistic is minus infinity, as the
supremum of no numbers, and the critical value is missing, however complete the rest of the series is.  Before it the result is that of the
values before it, exceptions included. -/
theorem C66_missing (em : ErrModel) (side : String) (s : List (ℤ × XF ℝ)) (p : ℕ) (hp : p < s.length) (hnan : s[p].2 = .nan) :
    cswRun em side s = match cswRun em side (s.take p) with
      | .error e => .error e
      | .ok out => .ok (out ++ (s.drop (max p 1)).map fun r => (r.1, .ninf, .nan)) := by
  have hy : (s.map (·.2))[p]? = some .nan := by
    rw [List.getElem?_map, List.getElem?_eq_getElem hp, Option.map_some, hnan]
  have hrange : (List.range (s.length - 1)).map (fun i => i + 2) =
      (List.range (p - 1)).map (fun i => i + 2) ++ (List.range (s.length - 1 - (p - 1))).map (fun i => i + (p - 1) + 2) := by
    obtain ⟨d, hd⟩ : ∃ d, s.length - 1 = (p - 1) + d := ⟨s.length - 1 - (p - 1), by omega⟩
    rw [hd, List.range_add, List.map_append, List.map_map, show p - 1 + d - (p - 1) = d by omega]
    congr 1
    apply List.map_congr_left
    intro i _
    simp only [Function.comp_apply]
    omega
  have hpre : mapE (statAt em side (s.map (·.2))) ((List.range (p - 1)).map fun i => i + 2) =
      mapE (statAt em side ((s.take p).map (·.2))) ((List.range ((s.take p).length - 1)).map fun i => i + 2) := by
    rw [List.length_take, min_eq_left hp.le]
    apply mapE_congr
    intro t ht
    obtain ⟨i, hi, rfl⟩ := List.mem_map.1 ht
    rw [List.mem_range] at hi
    unfold statAt
    rw [List.map_take, List.take_take, List.take_take, min_eq_left (by omega), min_eq_left (by omega)]
  have hpost : mapE (statAt em side (s.map (·.2))) ((List.range (s.length - 1 - (p - 1))).map fun i => i + (p - 1) + 2) =
      .ok (((List.range (s.length - 1 - (p - 1))).map fun i => i + (p - 1) + 2).map fun _ => (.ninf, .nan)) := by
    apply mapE_ok_of_forall
    intro t ht
    obtain ⟨i, hi, rfl⟩ := List.mem_map.1 ht
    rw [List.mem_range] at hi
    unfold statAt
    rw [sigma_nan _ _ p (by simp; omega) (by rw [List.getElem?_take, if_pos (by omega)]; exact hy)]
    exact inner_nan em side _ _ _ 0 .nan
  unfold cswRun
  rw [hrange, mapE_append, hpre]
  cases hm : mapE (statAt em side ((s.take p).map (·.2))) ((List.range ((s.take p).length - 1)).map fun i => i + 2) with
  | error e => rfl
  | ok v =>
    have hvl : v.length = p - 1 := by
      have := mapE_length hm
      simp at this
      omega
    simp only [hpost]
    show Except.ok _ = Except.ok _
    congr 1
    apply List.ext_getElem
    · simp [hvl]; omega
    · intro i h1 h2
      simp only [List.length_zip, List.length_tail, List.length_map] at h1
      rw [List.getElem_zip, List.getElem_tail, List.getElem_map]
      rcases Nat.lt_or_ge i (p - 1) with hi | hi
      · rw [List.getElem_append_left (by omega), List.getElem_append_left (by simp; omega), List.getElem_zip, List.getElem_tail, List.getElem_map,
          List.getElem_take]
      · rw [List.getElem_append_right (by omega), List.getElem_append_right (by simp; omega)]
        simp only [List.getElem_map, List.getElem_drop]
        congr 3
        simp
        omega

example (em : ErrModel) : cswRun em "two_sided" [(0, .nan), (1, .fin 1), (2, .fin 3)] = .ok [(1, .ninf, .nan), (2, .ninf, .nan)] := by
  rw [C66_missing em "two_sided" _ 0 (by simp) rfl]
  rfl

end Mizar.Props
