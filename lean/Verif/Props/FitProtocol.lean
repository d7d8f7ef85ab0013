import Verif.Model.FitProtocol

/-!
Property theorems C96: `fit_transform` and unions of the transformers (`/repo/mizarlabs/transformers`,
`/repo/mizarlabs/model/pipeline.py` lines 28-37).
-/

namespace Mizar.Props
open Mizar.Union
variable {K : Type}

/-- C96 (partial: the classes named; the others below): `fit_transform` gives what `transform` gives, with and without target. -/
theorem C96_fit_transform_partial {α β γ : Type} (name : String)
    (h : name ∈ ["RollMeasure", "RollImpact", "ParkinsonVolatility", "CorwinSchultzSpread", "BeckersParkinsonVolatility",
      "KyleLambda", "AmihudLambda", "HasbrouckLambda", "VPIN", "BuySellImbalance", "MovingAverageCrossOver",
      "MovingAverageCrossOverPredictor", "MACDHistogramCrossOver", "IdentityTransformer", "TripleBarrierMethodLabeling"]) :
    ∃ s, fitSig.lookup name = some s ∧
      ∀ (t : α → Py β) (X : α) (y : Option γ), mixinFitTransform s t X y = t X := by
  simp only [List.mem_cons, List.not_mem_nil, or_false] at h
  rcases h with rfl | rfl | rfl | rfl | rfl | rfl | rfl | rfl | rfl | rfl | rfl | rfl | rfl | rfl | rfl <;>
    exact ⟨.full, by decide, fun _ _ _ => rfl⟩

/-- C96 refuted: these transformers have no `fit`, so `fit_transform` always raises `AttributeError`. -/
theorem C96_no_fit_refuted {α β γ : Type} (name : String)
    (h : name ∈ ["RollingZScoreTransformer", "LocalMaxToCloseRatio", "BetSizingFromProbabilities", "SampleWeightsByReturns",
      "SampleWeightsByTimeDecay", "CUSUMFilter", "AverageUniqueness"]) :
    ∃ s, fitSig.lookup name = some s ∧
      ∀ (t : α → Py β) (X : α) (y : Option γ), mixinFitTransform s t X y = .error .attributeError := by
  simp only [List.mem_cons, List.not_mem_nil, or_false] at h
  rcases h with rfl | rfl | rfl | rfl | rfl | rfl | rfl <;> exact ⟨.absent, by decide, fun _ _ _ => rfl⟩

/-- C96 refuted: `TrendScannerLabeling.fit_transform` works without a target, but raises `TypeError` with one (as a step of a
pipeline). -/
theorem C96_trend_scanner_refuted {α β γ : Type} :
    ∃ s, fitSig.lookup "TrendScannerLabeling" = some s ∧
      (∀ (t : α → Py β) (X : α), mixinFitTransform s t X (none : Option γ) = t X) ∧
      ∀ (t : α → Py β) (X : α) (y : γ), mixinFitTransform s t X (some y) = .error .typeError :=
  ⟨.single, by decide, fun _ _ => rfl, fun _ _ _ => rfl⟩

/-- C96: `fit_transform` of a union whose transformers all have a `fit` is `transform` of the union that was never fitted,
with and without target. -/
theorem C96_union (l : List (FitSig × (Frame K → Py (List (List (XF K)))))) (hl : ∀ p ∈ l, p.1 ≠ .absent)
    (X : Frame K) (y : Option (List (XF K))) :
    fitTransform (l.map fun p => stateless p.1 p.2) X y = transform (l.map (·.2)) X := by
  unfold fitTransform transform
  rw [mapE_map, mapE_map]
  have : mapE (fun (p : FitSig × (Frame K → Py (List (List (XF K))))) => (do
      let f ← stateless p.1 p.2 X none
      f X : Py (List (List (XF K))))) l = mapE (fun p => p.2 X) l := by
    apply mapE_congr
    intro p hp
    cases hs : p.1 with
    | absent => exact absurd hs (hl p hp)
    | single => rfl
    | full => rfl
  rw [this]

/-- C96 refuted: one transformer without `fit` makes `fit_transform` of the union raise `AttributeError` if the transformers
before it do not raise, although `transform` of the same union works. -/
theorem C96_union_refuted (l r : List (FitSig × (Frame K → Py (List (List (XF K)))))) (hl : ∀ p ∈ l, p.1 ≠ .absent)
    (t : Frame K → Py (List (List (XF K)))) (X : Frame K) (y : Option (List (XF K)))
    (hok : ∀ p ∈ l, ∃ m, p.2 X = .ok m) :
    fitTransform ((l ++ (.absent, t) :: r).map fun p => stateless p.1 p.2) X y = .error .attributeError := by
  unfold fitTransform
  rw [mapE_map]
  have : mapE (fun (p : FitSig × (Frame K → Py (List (List (XF K))))) => (do
      let f ← stateless p.1 p.2 X none
      f X : Py (List (List (XF K))))) (l ++ (.absent, t) :: r) = .error .attributeError := by
    induction l with
    | nil => rfl
    | cons p l ih =>
      obtain ⟨m, hm⟩ := hok p List.mem_cons_self
      have ih := ih (fun q hq => hl q (List.mem_cons_of_mem _ hq)) (fun q hq => hok q (List.mem_cons_of_mem _ hq))
      rw [List.cons_append, mapE, ih]
      have : (do let f ← stateless p.1 p.2 X none
                 f X : Py (List (List (XF K)))) = .ok m := by
        cases hs : p.1 with
        | absent => exact absurd hs (hl p List.mem_cons_self)
        | single => exact hm
        | full => exact hm
      rw [this]
  rw [this]
  rfl

/-- A union of a transformer with `fit` and one without, on a frame with two rows: `transform` works, `fit_transform` raises. -/
example : transform (K := ℚ) [fun X => .ok (X.rows.map fun r => r.2), fun X => .ok (X.rows.map fun _ => [.fin 1])]
      ⟨["a"], [(1, [.fin 5]), (2, [.nan])]⟩ = .ok [(1, [.fin 5, .fin 1]), (2, [.nan, .fin 1])] ∧
    fitTransform (K := ℚ) [stateless .full fun X => .ok (X.rows.map fun r => r.2),
      stateless .absent fun X => .ok (X.rows.map fun _ => [.fin 1])] ⟨["a"], [(1, [.fin 5]), (2, [.nan])]⟩ none =
      .error .attributeError := by decide +kernel

end Mizar.Props
