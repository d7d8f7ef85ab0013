import Verif.Props.Align
import Verif.Props.Pipeline
import Verif.Props.MetaFeatures
import Verif.Props.MetaOwn
import Verif.Props.Invalid
import Verif.Props.RoundedBoot
import Verif.Props.RoundedBet
import Verif.Props.RoundedRoll
import Verif.Props.DoubleBet
import Verif.Props.DoubleCusum
import Verif.Props.ArrivalPipe
import Verif.Props.Wider
import Verif.Props.SplitGen
import Verif.Props.MoreEvents
import Verif.Props.DailyVol
import Verif.Props.Timestamp
import Verif.Props.Technical
import Verif.Props.UniquenessChange
import Verif.Props.Units
import Verif.Props.RoundedImpact
import Verif.Props.RoundedCross
import Verif.Props.RoundedVolume

/-!
Further property theorems applied to concrete data, as in `Verif.Check.Instances`: strategies with metalabels, and rounding.
-/

namespace Mizar.Check
open Mizar.Props

private theorem ok_of {α : Type} {x : Py α} (h : x.toOption.isSome = true) : ∃ a, x = .ok a := by
  cases x with
  | ok a => exact ⟨a, rfl⟩
  | error e => cases h

section Strategy
open Mizar.Spec Mizar.Pipe

/-- Predicts the sign of the first feature with probability 3/4. -/
private def signClf : Clf ℚ where
  fitted := true
  classes := [-1, 1]
  predict f := .ok (f.rows.map fun r => XF.sign (r.2.headD .nan))
  proba f := .ok (f.rows.map fun r => if XF.lt (.fin 0) (r.2.headD .nan) then [.fin (1/4), .fin (3/4)] else [.fin (3/4), .fin (1/4)])

private def sureClf : Clf ℚ where
  fitted := true
  classes := [0, 1]
  predict f := .ok (f.rows.map fun _ => .fin 1)
  proba f := .ok (f.rows.map fun _ => [.fin (1/3), .fin (2/3)])

private def plan : Cfg ℚ where
  alignOn := "bars"
  alignHow := [("ticks", "mean")]
  trPrimary := [("bars", none), ("ticks", none)]
  trMeta := [("bars", none)]
  primary := signClf
  metaModel := some sureClf
  useProba := true
  usePredictions := true
  betSizer := none

private def days : Dict ℚ :=
  [("bars", ⟨["a"], [(10, [.fin 1]), (20, [.fin (-2)]), (30, [.fin 3]), (40, [.fin 5])]⟩),
   ("ticks", ⟨["b"], [(15, [.fin 1]), (17, [.fin 2]), (29, [.fin 4])]⟩)]

private def outcome : Ser ℚ := [(10, .fin 1), (20, .fin 1), (30, .fin 1), (40, .nan)]

private theorem days_nodup : ∀ p ∈ days, p.2.index.Nodup := by decide +kernel

private theorem plan_keeps (p : String × Tr ℚ) (hp : p ∈ plan.trPrimary ++ plan.trMeta) (tr : Frame ℚ → Py (Frame ℚ)) (h : p.2 = some tr) : False := by
  simp only [plan, List.cons_append, List.nil_append, List.mem_cons, List.not_mem_nil, or_false] at hp
  rcases hp with rfl | rfl | rfl <;> cases h

private theorem plan_ok : ∃ pred proba res o F fm, predict plan days = .ok pred ∧ predictProba plan days = .ok proba ∧ getSideAndSize plan days = .ok res ∧
    datasetMeta plan days outcome = .ok o ∧ features plan days = .ok F ∧ (∀ p ∈ F.metal, p.2.WF) ∧ concatOuter (F.metal.map (·.2)) = .ok fm := by
  obtain ⟨pred, h1⟩ := ok_of (x := predict plan days) (by decide +kernel)
  obtain ⟨proba, h2⟩ := ok_of (x := predictProba plan days) (by decide +kernel)
  obtain ⟨res, h3⟩ := ok_of (x := getSideAndSize plan days) (by decide +kernel)
  obtain ⟨o, h4⟩ := ok_of (x := datasetMeta plan days outcome) (by decide +kernel)
  have h5 : features plan days = .ok ⟨[("bars", ⟨["a"], [(10, [.fin 1]), (20, [.fin (-2)]), (30, [.fin 3]), (40, [.fin 5])]⟩),
      ("ticks", ⟨["b"], [(10, [.nan]), (20, [.fin (3/2)]), (30, [.fin 4]), (40, [.fin 4])]⟩)],
      [("bars", ⟨["a"], [(10, [.fin 1]), (20, [.fin (-2)]), (30, [.fin 3]), (40, [.fin 5])]⟩)]⟩ := by decide +kernel
  obtain ⟨fm, h6⟩ := ok_of (x := concatOuter [(⟨["a"], [(10, [.fin 1]), (20, [.fin (-2)]), (30, [.fin 3]), (40, [.fin 5])]⟩ : Frame ℚ)]) (by decide +kernel)
  exact ⟨pred, proba, res, o, _, fm, h1, h2, h3, h4, h5, fun p hp => by
    obtain rfl := List.mem_singleton.1 hp
    unfold Frame.WF
    decide, h6⟩

example : ∃ (pred : Predictions ℚ) (proba : Probas ℚ) (size : Ser ℚ) (res : List (ℤ × XF ℚ × XF ℚ)), predict plan days = .ok pred ∧ predictProba plan days = .ok proba ∧ getSideAndSize plan days = .ok res ∧
    ∀ t s z, (t, s, z) ∈ res ↔ (t, s) ∈ pred.primary ∧ (t, z) ∈ size ∧ s.isNan = false ∧ z.isNan = false := by
  obtain ⟨_, _, res, _, _, _, _, _, h3, _⟩ := plan_ok
  obtain ⟨pred, proba, size, h1, h2, _, h4, _⟩ := C48_side_and_size plan days res days_nodup (fun p hp tr h => (plan_keeps p hp tr h).elim)
    (fun bs h => by cases h) h3
  exact ⟨pred, proba, size, res, h1, h2, h3, h4⟩

example : ∃ pred proba F, predict plan days = .ok pred ∧ predictProba plan days = .ok proba ∧ features plan days = .ok F := by
  obtain ⟨pred, proba, _, _, _, _, h1, h2, _⟩ := plan_ok
  obtain ⟨F, fp, hF, -⟩ := C48_scored_times plan days pred proba h1 h2
  exact ⟨pred, proba, F, h1, h2, hF⟩

example : sureClf.fitted = true := by
  obtain ⟨pred, proba, _, _, _, _, h1, h2, _⟩ := plan_ok
  exact ((C105_metalabels plan days pred proba days_nodup (fun p hp tr h => (plan_keeps p hp tr h).elim) h1 h2).2 sureClf rfl).1

example : ∃ (Xo : Frame ℚ) (fm : Frame ℚ), ∀ (k : ℕ) (m : String), fm.cols[k]? = some m → Xo.cols[k]? = some m := by
  obtain ⟨_, _, _, o, F, fm, _, _, _, h4, h5, hw, h6⟩ := plan_ok
  exact ⟨o.1, fm, (C149_training_partial plan days outcome o.1 o.2 (by decide +kernel) h4 F h5 hw fm h6).1⟩

example : ∃ (Xm : Frame ℚ) (w : List (XF ℚ)), sureClf.predict Xm = .ok w := by
  obtain ⟨pred, proba, _, _, F, fm, h1, h2, _, _, h5, hw, h6⟩ := plan_ok
  obtain ⟨Xm, w, q, h, -⟩ := C149_prediction_partial plan days pred proba sureClf rfl days_nodup (fun p hp tr h => (plan_keeps p hp tr h).elim) h1 h2 F h5 hw fm h6
  exact ⟨Xm, w, h⟩

/-- C106: a metalabeling model that never saw a correct bet. -/
example : getSideAndSize { plan with metaModel := some { signClf with classes := [-1, 0] } } days = .error .keyError := by
  obtain ⟨p, hp⟩ := ok_of (x := predict { plan with metaModel := some { signClf with classes := [-1, 0] } } days) (by decide +kernel)
  obtain ⟨q, hq⟩ := ok_of (x := predictProba { plan with metaModel := some { signClf with classes := [-1, 0] } } days) (by decide +kernel)
  exact C106_side_and_size _ days { signClf with classes := [-1, 0] } rfl rfl (by decide +kernel) p q hp hq

/-- C49: a label that is neither a side nor missing. -/
example := C49_bad_label plan days [(10, .fin 2)] true (10, .fin 2) (by simp) rfl (by decide +kernel)

/-- C49: the first bar has metalabeling features but no prediction. -/
example : datasetMeta { plan with useProba := false } days outcome = .error .valueError :=
  C49_predictions_only_raises { plan with useProba := false } days outcome
    ⟨[("bars", ⟨["a"], [(10, [.fin 1]), (20, [.fin (-2)]), (30, [.fin 3]), (40, [.fin 5])]⟩),
      ("ticks", ⟨["b"], [(10, [.nan]), (20, [.fin (3/2)]), (30, [.fin 4]), (40, [.fin 4])]⟩)],
      [("bars", ⟨["a"], [(10, [.fin 1]), (20, [.fin (-2)]), (30, [.fin 3]), (40, [.fin 5])]⟩)]⟩
    ⟨["a", "b"], [(20, [.fin (-2), .fin (3/2)]), (30, [.fin 3, .fin 4])]⟩ [(20, .fin 1), (30, .fin 1)]
    ⟨["a"], [(10, [.fin 1]), (20, [.fin (-2)]), (30, [.fin 3]), (40, [.fin 5])]⟩ [.fin (-1), .fin 1] rfl rfl (by decide +kernel) (by decide +kernel)
    (by decide +kernel) (by decide +kernel) (10, [.fin 1]) (by decide +kernel) (by decide +kernel) (by decide +kernel)

end Strategy

section Rounding
open Mizar.Spec Mizar.Boot

example := C108_discretise (b := 53) (by norm_num) (1 / 10) (by norm_num) (by norm_num) [(1, 1 / 3), (2, -1)]

private def openBets : List (ABet ℚ) := [⟨0, some 3000000, 1 / 2⟩, ⟨1000000, none, 1⟩]

private theorem open_stop : ∀ x ∈ openBets, ∀ e, x.stop = some e → (1000000 : ℤ) ∣ e ∧ 0 ≤ e := by
  intro b hb e he
  simp only [openBets, List.mem_cons, List.not_mem_nil, or_false] at hb
  rcases hb with rfl | rfl <;> simp at he
  subst he
  decide

example := C108_average (b := 53) (by norm_num) openBets (by decide) (by decide +kernel) (by decide) open_stop
example := C154_discretise binary64_roomy (1 / 10) (by decide +kernel) [(1, 1 / 3), (2, -1)] (by decide +kernel)
example := C154_mean binary64_roomy 2 (by norm_num) [1, 0, 1] (by simp) (by decide) (by decide +kernel) (fun x hx => by
  simp only [List.mem_cons, List.not_mem_nil, or_false] at hx
  rcases hx with rfl | rfl | rfl
  · exact_mod_cast has_int 1 (by norm_num)
  · exact_mod_cast has_int 0 (by norm_num)
  · exact_mod_cast has_int 1 (by norm_num))

private def twoAlive : IndMat := ⟨3, 2, fun t j => decide (j = 0 ∨ 1 ≤ t)⟩
example := C104_uniqueness_error 24 53 (by norm_num) (by norm_num) twoAlive [1, 1] 0 ⟨0, by decide⟩ (by norm_num)

private theorem volume_float : ∀ x ∈ ([3, 0, 5] : List ℚ), IsFloat 53 x := by
  have h (z : ℤ) (hz : |z| < 2 ^ 53) : IsFloat 53 (z : ℚ) := ⟨z, 0, hz, by simp⟩
  intro x hx
  simp only [List.mem_cons, List.not_mem_nil, or_false] at hx
  rcases hx with rfl | rfl | rfl
  · exact_mod_cast h 3 (by norm_num)
  · exact_mod_cast h 0 (by norm_num)
  · exact_mod_cast h 5 (by norm_num)

example := C131_one_sided 53 (by norm_num) 2 [3, 0, 5] (by decide +kernel) volume_float 2 (by norm_num)
example : (0 : ℚ) ≤ 1 / 2 := C136_kyle_sign 53 (by norm_num) 1 (by norm_num) [.fin 10, .fin 12] [.fin 3, .fin 4] rfl (by decide +kernel) 1 (by norm_num) (1 / 2)
  (by decide +kernel)

end Rounding

section Rest
open Mizar.Spec

example := C156_pipeline_side (K := ℚ) (fun _ => .ok [.fin 40, .fin 45, .fin 60]) 70 30 1 (-1) 60 (by norm_num) 1 2 (by norm_num) (by norm_num)
  ⟨["close"], [(0, [.fin 1]), (60, [.fin 2]), (60, [.fin 3])]⟩ _ rfl rfl
example := C156_newest_first (K := ℚ) (fun _ => .ok [.fin 40, .fin 45, .fin 60]) 70 30 1 (-1) 60 (by norm_num) 1 2 (by norm_num) (by norm_num)
  ⟨["close"], [(120, [.fin 1]), (60, [.fin 2]), (0, [.fin 3])]⟩ _ rfl rfl (by decide +kernel)
example := C110_wider_partial (clock_input fun _ _ => []) (fun v hv => by
  obtain rfl : v = 1 := by simpa using hv
  norm_num) 3 (by norm_num) 1 1 (Or.inr (by norm_num [clockCfg])) (Or.inr (by norm_num [clockCfg])) (by norm_num) (fun h => by cases h)
example := C130_never_wrong_partial 8 4 2 (fun i => (i : ℤ)) (fun i => (i : ℤ)) 0 (by norm_num) (by norm_num) _ rfl (fun i => if i = 1 then 4 else 8) [0, 1, 0, 0] 0 rfl
example := C75_order 1500000 2500000 (by norm_num)
example := C75_missing 5 (by norm_num)
example := C63_convex_combination (K := ℚ) 3 (by norm_num) [.nan, .fin 2, .fin 5]

/-- C33: the third bar has the first as the bar of the day before. -/
example := C33_estimator_of_returns (K := ℚ) id (fun _ => rfl) [0, 43200000000000, 86400000000001] [.fin 10, .fin 11, .fin 12] (by decide) 0 2 (by decide)
  (86400000000001, .fin (1 / 5)) (by decide +kernel) rfl

end Rest

section MoreEvents
open Mizar.Boot Mizar.Spec

private theorem oneFurther (x : ℤ × ℤ) (h : Further [(1, 4), (3, 6)] [(1, 4), (3, 6), (9, 12)] x) : x = (9, 12) := by
  have hm := h.mem
  simp only [List.mem_cons, List.not_mem_nil, or_false] at hm
  rcases hm with rfl | rfl | rfl
  · exact absurd h (by unfold Further; decide)
  · exact absurd h (by unfold Further; decide)
  · rfl

example : ∃ (M M' : IndMat) (u : ℚ), (calcAverageUniqueness M)[0]? = some (.fin u) ∧ (calcAverageUniqueness M')[0]? = some (.fin u) := by
  obtain ⟨⟨M, bi⟩, h⟩ := ok_of (x := getIndMatrix ([(1, 4), (3, 6)].map fun e : ℤ × ℤ => (some e.1, some e.2)) [1, 3, 4, 6, 9, 12]) (by decide +kernel)
  obtain ⟨⟨M', bi'⟩, h'⟩ := ok_of (x := getIndMatrix ([(1, 4), (3, 6), (9, 12)].map fun e : ℤ × ℤ => (some e.1, some e.2)) [1, 3, 4, 6, 9, 12]) (by decide +kernel)
  obtain ⟨u, h1, h2⟩ := C114_separate_events [(1, 4), (3, 6)] [(1, 4), (3, 6), (9, 12)] (by decide) [1, 3, 4, 6, 9, 12] M M' bi bi' h h' 0 0 (by decide) (by decide) rfl
    (by decide) (fun x hx => by rw [oneFurther x hx]; decide)
  exact ⟨M, M', u, h1, h2⟩

example : ∃ (M M' : IndMat) (u u' : ℚ), (calcAverageUniqueness M)[0]? = some (.fin u) ∧ (calcAverageUniqueness M')[0]? = some (.fin u') ∧ u' ≤ u := by
  obtain ⟨⟨M, bi⟩, h⟩ := ok_of (x := getIndMatrix ([(1, 4), (3, 6)].map fun e : ℤ × ℤ => (some e.1, some e.2)) [1, 3, 4, 6, 9, 12]) (by decide +kernel)
  obtain ⟨⟨M', bi'⟩, h'⟩ := ok_of (x := getIndMatrix ([(1, 4), (3, 6), (9, 12)].map fun e : ℤ × ℤ => (some e.1, some e.2)) [1, 3, 4, 6, 9, 12]) (by decide +kernel)
  obtain ⟨u, u', h1, h2, h3, -⟩ := C114_more_events_partial [(1, 4), (3, 6)] [(1, 4), (3, 6), (9, 12)] (by decide) [1, 3, 4, 6, 9, 12]
    (fun x hx => by rw [oneFurther x hx]; decide) M M' bi bi' h h' 0 0 (by decide) (by decide) rfl (by decide)
  exact ⟨M, M', u, u', h1, h2, h3⟩

end MoreEvents

end Mizar.Check
