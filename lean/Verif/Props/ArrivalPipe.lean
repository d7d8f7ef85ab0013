import Verif.Props.ArrivalJoin

/-!
Property theorems C156: sides and probabilities that the pipeline gets from `BarArrivalRSIStrategy` as primary model
(`/repo/mizarlabs/model/pipeline.py` lines 469-471 and 514-518).
-/

set_option linter.unusedSectionVars false

namespace Mizar.Props
open Mizar.Spec Mizar.Tech Mizar.Feat

section
variable {K : Type} [Field K] [LinearOrder K] [IsStrictOrderedRing K]

private theorem out_perm (rsi : Frame K → Py (List (XF K))) (rh rl ah al d : K) (hd : d ≠ 0) (fast slow : ℕ) (hf : 1 ≤ fast)
    (hs : 1 ≤ slow) (f : Frame K) (r : List (XF K)) (hr : rsi f = .ok r) (hl : r.length = f.rows.length) (hn : f.index.Nodup) :
    ∃ out pred, barArrivalSeries rsi ⟨rh, rl, ah, al, fast, slow, d⟩ f = .ok out ∧
      barArrivalRsi rsi ⟨rh, rl, ah, al, fast, slow, d⟩ f = .ok pred ∧
      (out.map (·.1)).Pairwise (· < ·) ∧ pred.length = f.index.length ∧ out.Perm (f.index.zip pred) := by
  obtain ⟨out, pred, h1, h2, h3, h4, h5⟩ := C156_distinct_partial rsi rh rl ah al d hd fast slow hf hs f r hr hl hn
  obtain ⟨pred', p1, p2, -⟩ := C77_bar_arrival rsi rh rl ah al d hd fast slow hf hs f r hr hl
  obtain rfl : pred = pred' := Except.ok.inj (h2.symm.trans p1)
  have ilen : f.index.length = f.rows.length := by simp [Frame.index]
  have hond : (out.map (·.1)).Nodup := h3.imp fun h => ne_of_lt h
  have hz : ((f.index.zip pred).map (·.1)) = f.index := List.map_fst_zip (by omega)
  have hznd : (f.index.zip pred).Nodup := List.Nodup.of_map (·.1) (by rw [hz]; exact hn)
  refine ⟨out, pred, h1, h2, h3, by omega, ?_⟩
  have hsub : (f.index.zip pred).Subperm out := by
    refine hznd.subperm ?_
    intro x hx
    obtain ⟨i, hi⟩ := List.getElem?_of_mem hx
    have h6 := List.getElem?_zip_eq_some.1 hi
    exact (h5 i x.1 x.2 h6.1).2 h6.2
  exact (hsub.perm_of_length_le (by simp [h4, p2, ilen])).symm

/-- **C156** (sides in the pipeline) For distinct times, in any order, the side of every bar is the decision for it; when two bars after the first
share a time the pipeline raises `ValueError`. -/
theorem C156_pipeline_side (rsi : Frame K → Py (List (XF K))) (rh rl ah al d : K) (hd : d ≠ 0) (fast slow : ℕ) (hf : 1 ≤ fast)
    (hs : 1 ≤ slow) (f : Frame K) (r : List (XF K)) (hr : rsi f = .ok r) (hl : r.length = f.rows.length) :
    (f.index.Nodup → arrivalSide rsi ⟨rh, rl, ah, al, fast, slow, d⟩ f = barArrivalRsi rsi ⟨rh, rl, ah, al, fast, slow, d⟩ f) ∧
      (¬ f.index.tail.Nodup → arrivalSide rsi ⟨rh, rl, ah, al, fast, slow, d⟩ f = .error .valueError) := by
  constructor
  · intro hn
    obtain ⟨out, pred, h1, h2, h3, h4, h5⟩ := out_perm rsi rh rl ah al d hd fast slow hf hs f r hr hl hn
    have hond : (out.map (·.1)).Nodup := h3.imp fun h => ne_of_lt h
    unfold arrivalSide
    rw [h1, Py.bind_ok, h2]
    unfold seriesAt
    by_cases he : out.map (·.1) = f.index
    · rw [if_pos he]
      congr 1
      have hi : f.index.Pairwise (· < ·) := he ▸ h3
      have : out = f.index.zip pred := by
        have a1 : (f.index.zip pred).map (·.1) = f.index := List.map_fst_zip (by omega)
        apply List.Perm.eq_of_pairwise (le := fun a b => a.1 < b.1) (fun a b _ _ x y => absurd (lt_trans x y) (lt_irrefl _)) _ _ h5
        · exact List.pairwise_map.1 h3
        · exact List.pairwise_map.1 (a1.symm ▸ hi)
      rw [this, List.map_snd_zip (by omega)]
    · rw [if_neg he, if_pos hond]
      congr 1
      apply List.ext_getElem
      · simp [h4]
      · intro i a1 a2
        have a0 : i < f.index.length := by simpa using a1
        rw [List.getElem_map]
        have hmem : (f.index[i], pred[i]) ∈ out := h5.mem_iff.2 (List.mem_of_getElem? (i := i) (by
          rw [List.getElem?_zip_eq_some]
          exact ⟨List.getElem?_eq_getElem a0, List.getElem?_eq_getElem a2⟩))
        have hlk : out.lookup f.index[i] = some pred[i] := by
          obtain ⟨s, e, hse⟩ := List.append_of_mem hmem
          rw [List.lookup_eq_some_iff]
          refine ⟨s, e, hse, ?_⟩
          intro p hp
          rw [hse, List.map_append, List.map_cons] at hond
          have := (List.nodup_append.1 hond).2.2 p.1 (List.mem_map.2 ⟨p, hp, rfl⟩) f.index[i] (by simp)
          simpa using fun h => this h.symm
        rw [hlk]
        rfl
  · intro hn
    obtain ⟨out, h1, -, h3⟩ := C156_length rsi rh rl ah al d hd fast slow hf hs f r hr hl
    obtain ⟨out', q1, -, q3, -, -⟩ := C156_rows rsi rh rl ah al d hd fast slow hf hs f r hr hl
    obtain rfl : out = out' := Except.ok.inj (h1.symm.trans q1)
    unfold arrivalSide
    rw [h1, Py.bind_ok]
    unfold seriesAt
    rw [if_neg, if_neg]
    · rw [List.nodup_iff_count_le_one] at hn ⊢
      push Not at hn ⊢
      obtain ⟨t, ht⟩ := hn
      refine ⟨t, ?_⟩
      rw [q3 t]
      have h5 : f.index.tail.count t ≤ f.index.count t := (List.tail_sublist _).count_le t
      have h6 : f.index.count t * 1 ≤ f.index.count t * (max 1 (f.index.tail.count t)) ^ 2 := Nat.mul_le_mul_left _ (pow_pos (lt_of_lt_of_le Nat.one_pos (le_max_left _ _)) 2)
      omega
    · intro he
      refine hn (h3.1 ?_)
      have := congrArg List.length he
      simpa [Frame.index] using this

/-- **C156** (newest bar first) When the times decrease, the probabilities are those of the decisions of C77 in the opposite order of the bars. -/
theorem C156_newest_first (rsi : Frame K → Py (List (XF K))) (rh rl ah al d : K) (hd : d ≠ 0) (fast slow : ℕ) (hf : 1 ≤ fast)
    (hs : 1 ≤ slow) (f : Frame K) (r : List (XF K)) (hr : rsi f = .ok r) (hl : r.length = f.rows.length) (hi : f.index.Pairwise (· > ·)) :
    ∃ pred, barArrivalRsi rsi ⟨rh, rl, ah, al, fast, slow, d⟩ f = .ok pred ∧ pred.length = f.rows.length ∧
      barArrivalProba rsi ⟨rh, rl, ah, al, fast, slow, d⟩ f =
        .ok (pred.map fun p => [if XF.beq p (.fin 0) then (1 : K) else 0, if XF.beq p (.fin 1) then 1 else 0]).reverse := by
  have hn : f.index.Nodup := hi.imp fun h => ne_of_gt h
  obtain ⟨out, pred, h1, h2, h3, h4, h5⟩ := out_perm rsi rh rl ah al d hd fast slow hf hs f r hr hl hn
  have ilen : f.index.length = f.rows.length := by simp [Frame.index]
  refine ⟨pred, h2, by omega, ?_⟩
  have a1 : (f.index.zip pred).map (·.1) = f.index := List.map_fst_zip (by omega)
  have : out = (f.index.zip pred).reverse := by
    apply List.Perm.eq_of_pairwise (le := fun a b => a.1 < b.1) (fun a b _ _ x y => absurd (lt_trans x y) (lt_irrefl _)) _ _
      (h5.trans (List.reverse_perm _).symm)
    · exact List.pairwise_map.1 h3
    · rw [List.pairwise_reverse]
      exact (List.pairwise_map (R := fun a b : ℤ => b < a) (f := fun x : ℤ × XF K => x.1)).1 (a1.symm ▸ hi)
  unfold barArrivalProba
  rw [h1, Py.bind_ok, this, List.map_reverse, List.map_snd_zip (by omega)]
  unfold oneHot twoClasses
  rw [List.map_reverse]
  rfl

/-- **C156** (metalabels) With increasing times the target of the metalabeling model is 1 exactly where the decision for the bar is the target of the
bar.  Metalabels are made exactly if the times do not decrease and those after the first bar are distinct; otherwise `ValueError` is raised. -/
theorem C156_metalabels (rsi : Frame K → Py (List (XF K))) (rh rl ah al d : K) (hd : d ≠ 0) (fast slow : ℕ) (hf : 1 ≤ fast)
    (hs : 1 ≤ slow) (f : Frame K) (r : List (XF K)) (hr : rsi f = .ok r) (hl : r.length = f.rows.length) (y : List (XF K))
    (hy : y.length = f.index.length) :
    (f.index.Pairwise (· < ·) → ∃ pred, barArrivalRsi rsi ⟨rh, rl, ah, al, fast, slow, d⟩ f = .ok pred ∧ ∃ m,
      arrivalMetalabels rsi ⟨rh, rl, ah, al, fast, slow, d⟩ f (f.index.zip y) = .ok m ∧ m.map (·.1) = f.index ∧
        ∀ (i : ℕ) (p t : XF K), pred[i]? = some p → y[i]? = some t →
          (m.map (·.2))[i]? = some (if XF.beq p t then .fin 1 else .fin 0)) ∧
      (f.index.Pairwise (· ≤ ·) ∧ f.index.tail.Nodup → ∃ m, arrivalMetalabels rsi ⟨rh, rl, ah, al, fast, slow, d⟩ f (f.index.zip y) = .ok m) ∧
      (¬ (f.index.Pairwise (· ≤ ·) ∧ f.index.tail.Nodup) →
        arrivalMetalabels rsi ⟨rh, rl, ah, al, fast, slow, d⟩ f (f.index.zip y) = .error .valueError) := by
  have hyz : (f.index.zip y).map (·.1) = f.index := List.map_fst_zip (by omega)
  refine ⟨?_, ?_, ?_⟩
  · intro hi
    obtain ⟨pred, h1, h2, -⟩ := C156_increasing_partial rsi rh rl ah al d hd fast slow hf hs f r hr hl hi
    obtain ⟨pred', p1, p2, -⟩ := C77_bar_arrival rsi rh rl ah al d hd fast slow hf hs f r hr hl
    obtain rfl : pred = pred' := Except.ok.inj (h1.symm.trans p1)
    have ilen : f.index.length = f.rows.length := by simp [Frame.index]
    have hpz : (f.index.zip pred).map (·.1) = f.index := List.map_fst_zip (by omega)
    refine ⟨pred, h1, List.zipWith (fun a b => (a.1, if XF.beq a.2 b.2 then .fin 1 else .fin 0)) (f.index.zip pred) (f.index.zip y), ?_, ?_, ?_⟩
    · unfold arrivalMetalabels
      rw [h2, Py.bind_ok]
      unfold equalSeries
      rw [if_pos (hpz.trans hyz.symm)]
    · rw [List.map_zipWith]
      apply List.ext_getElem
      · simp; omega
      · intro i a1 a2
        simp
    · intro i p t hp ht
      obtain ⟨i1, rfl⟩ := List.getElem?_eq_some_iff.1 hp
      obtain ⟨i2, rfl⟩ := List.getElem?_eq_some_iff.1 ht
      rw [List.map_zipWith, List.getElem?_eq_getElem (by simp; omega)]
      simp
  · rintro ⟨h1, h2⟩
    obtain ⟨out, q1, q2, q3, -, -⟩ := C156_rows rsi rh rl ah al d hd fast slow hf hs f r hr hl
    have he : out.map (·.1) = f.index := by
      apply List.Perm.eq_of_pairwise (le := (· ≤ ·)) (fun a b _ _ x y => le_antisymm x y) q2 h1
      rw [List.perm_iff_count]
      intro t
      rw [q3 t, max_eq_left (List.nodup_iff_count_le_one.1 h2 t)]
      simp
    unfold arrivalMetalabels
    rw [q1, Py.bind_ok]
    unfold equalSeries
    rw [if_pos (he.trans hyz.symm)]
    exact ⟨_, rfl⟩
  · intro h
    obtain ⟨out, h1, -, h3⟩ := C156_length rsi rh rl ah al d hd fast slow hf hs f r hr hl
    obtain ⟨out', q1, q2, q3, -, -⟩ := C156_rows rsi rh rl ah al d hd fast slow hf hs f r hr hl
    obtain rfl : out = out' := Except.ok.inj (h1.symm.trans q1)
    unfold arrivalMetalabels
    rw [h1, Py.bind_ok]
    unfold equalSeries
    rw [if_neg]
    rw [hyz]
    intro he
    refine h ⟨he ▸ q2, h3.1 ?_⟩
    have := congrArg List.length he
    simpa [Frame.index] using this

end

section Witnesses

/-- Bars that are not in order of time; the first is not later than the last, as the pipeline requires (`pipeline.py` lines 454-458). -/
def shuffledBars : Frame ℚ := ⟨["rsi"], [(20, [.fin 50]), (10, [.fin 90]), (40, [.fin 50]), (30, [.fin 90])]⟩

/-- The pipeline buys at the third bar, where the probability of buying is 0, and does not buy at the fourth, where it is 1. -/
theorem C156_side_and_probability_refuted :
    arrivalSide (fun f : Frame ℚ => f.col "rsi") ⟨70, 30, 100, -100, 1, 1, 1⟩ shuffledBars = .ok [.fin 0, .fin 0, .fin 1, .fin 0] ∧
      barArrivalProba (fun f : Frame ℚ => f.col "rsi") ⟨70, 30, 100, -100, 1, 1, 1⟩ shuffledBars =
        .ok [[1, 0], [1, 0], [1, 0], [0, 1]] := by
  constructor <;> decide +kernel

example : newestFirst.index.Pairwise (· > ·) := by decide
example : shuffledBars.index.Nodup := by decide
example : ¬ sameTime.index.tail.Nodup := by decide

/-- Bars in order of time, two of them right. -/
example : arrivalMetalabels (fun f : Frame ℚ => f.col "rsi") ⟨70, 30, 100, -100, 1, 1, 1⟩ ⟨["rsi"], [(10, [.fin 50]), (20, [.fin 50]), (30, [.fin 90])]⟩
    (([10, 20, 30] : List ℤ).zip [.fin 1, .fin 1, .fin 0]) = .ok [(10, .fin 0), (20, .fin 1), (30, .fin 1)] := by decide +kernel

example : arrivalMetalabels (fun f : Frame ℚ => f.col "rsi") ⟨70, 30, 100, -100, 1, 1, 1⟩ shuffledBars (shuffledBars.index.zip [.fin 1, .fin 1, .fin 0, .fin 0]) =
    .error .valueError :=
  (C156_metalabels (fun f : Frame ℚ => f.col "rsi") 70 30 100 (-100) 1 (by norm_num) 1 1 le_rfl le_rfl shuffledBars
    [.fin 50, .fin 90, .fin 50, .fin 90] rfl rfl [.fin 1, .fin 1, .fin 0, .fin 0] rfl).2.2 (by decide)

end Witnesses

end Mizar.Props
