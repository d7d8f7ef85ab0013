import Verif.Props.DoubleBet

/-!
Property theorems C108 and C154 for zero classes and for one class (`/repo/mizarlabs/transformers/trading/bet_sizing.py`).
-/

namespace Mizar.Props
open Mizar.Spec Mizar.Rd

/-- **C108** Zero classes raise `ZeroDivisionError` for every frame, and nothing else does. -/
theorem C108_no_class (r : ℚ → ℚ) (F : BetFn) (c : BetCfg) (X : BetFrame) :
    betTransform r F c X = .error .zeroDivisionError ↔ c.numClasses = 0 := by
  constructor
  · intro h
    by_contra hn
    unfold betTransform betTransform0 at h
    rw [if_neg hn] at h
    have hs : ∀ s, betSide r c X s ≠ .error .zeroDivisionError := by
      intro s e
      unfold betSide at e
      split at e
      · split at e <;> cases e
      · cases e
    have hd : ∀ s, betDiscretise r c s ≠ .error .zeroDivisionError := by
      intro s e
      unfold betDiscretise at e
      split at e
      · cases h1 : c.stepSize with
        | none => rw [h1] at e; cases e
        | some d =>
          rw [h1] at e
          dsimp only at e
          unfold betDisc at e
          split at e <;> cases e
      · cases e
    cases h1 : betSide r c X (List.zipWith (betSignal r F c.numClasses) X.pred X.prob) with
    | error e => rw [h1] at h; dsimp only at h; rw [Except.error.inj h] at h1; exact hs _ h1
    | ok s =>
      rw [h1] at h
      dsimp only at h
      cases h2 : betDiscretise r c (betAverage r c X s) with
      | error e => rw [h2] at h; dsimp only at h; rw [Except.error.inj h] at h2; exact hd _ h2
      | ok s =>
        rw [h2] at h
        dsimp only at h
        split at h <;> cases h
  · intro h
    unfold betTransform betTransform0
    rw [if_pos h]

/-- **C154** Zero classes raise `ZeroDivisionError` for every frame. -/
theorem C154_no_class (g : ℚ → XF ℚ) (F : BetFn) (c : BetCfg) (X : BetFrame) (h : c.numClasses = 0) :
    betTransformD g F c X = .error .zeroDivisionError := by
  unfold betTransformD betTransform0D
  rw [if_pos h]

/-- **C108** With one class, a prediction with probability 1 has the statistic 0/0: the call raises `AssertionError` with or without metalabeling
and discretisation. -/
theorem C108_one_class {b : ℕ} (hb : 1 ≤ b) {F : BetFn} (hroot : F.root (.fin 0) = .fin 0) (hcdf : F.cdf .nan = .nan) {c : BetCfg}
    (hc : betConstruct c = .ok c) (ha : c.averageActive = false) (h1 : c.numClasses = 1) {X : BetFrame} (i : ℕ) (hi : i < X.index.length)
    (hp : X.prob[i]? = some (.fin 1)) (hd : i < X.pred.length) (hside : i < X.side.length) :
    betTransform (roundBits b) F c X = .error .assertionError := by
  have e1 : roundBits b (1 : ℚ) = 1 := roundBits_eq_self b hb (isFloat_one hb)
  have e0 : roundBits b (0 : ℚ) = 0 := roundBits_zero b
  have hz : betZ (roundBits b) F 1 (.fin 1) = .nan := by
    unfold betZ
    simp [XF.sub, XF.add, XF.neg, XF.mul, rx, e1, e0, hroot, XF.div, XF.infSign]
  have hnan : ∀ p, betSignal (roundBits b) F 1 p (.fin 1) = .nan := by
    intro p
    unfold betSignal
    rw [hz, hcdf]
    cases p <;> simp [XF.mul, XF.sub, XF.add, XF.neg, rx]
  have hrow : (List.zipWith (betSignal (roundBits b) F 1) X.pred X.prob)[i]? = some .nan := by
    rw [List.getElem?_zipWith, hp, List.getElem?_eq_getElem hd]
    exact congrArg some (hnan _)
  unfold betTransform betTransform0
  rw [h1, if_neg (by norm_num)]
  have hs : (∃ e, betSide (roundBits b) c X (List.zipWith (betSignal (roundBits b) F 1) X.pred X.prob) = .error e ∧ e = .assertionError) ∨
      ∃ s, betSide (roundBits b) c X (List.zipWith (betSignal (roundBits b) F 1) X.pred X.prob) = .ok s ∧ s[i]? = some .nan := by
    unfold betSide
    split
    · split
      · refine Or.inr ⟨_, rfl, ?_⟩
        rw [List.getElem?_zipWith, hrow, List.getElem?_eq_getElem hside]
        simp [XF.mul, rx]
      · exact Or.inl ⟨_, rfl, rfl⟩
    · exact Or.inr ⟨_, rfl, hrow⟩
  rcases hs with ⟨e, h2, rfl⟩ | ⟨s, h2, h3⟩
  · rw [h2]
  rw [h2]
  dsimp only
  have h4 : (betAverage (roundBits b) c X s)[i]? = some (X.index[i], .nan) := by
    unfold betAverage
    rw [ha]
    simp only [Bool.false_eq_true, if_false]
    rw [List.getElem?_zip_eq_some]
    exact ⟨List.getElem?_eq_getElem hi, h3⟩
  have h5 : ∃ d, betDiscretise (roundBits b) c (betAverage (roundBits b) c X s) = .ok d ∧ d[i]? = some (X.index[i], .nan) := by
    unfold betDiscretise
    cases hdd : c.discretise with
    | false => exact ⟨_, rfl, h4⟩
    | true =>
      obtain ⟨st, e, p0, p1⟩ := rstep_of_construct hc hdd
      rw [e]
      simp only [if_true]
      unfold betDisc
      rw [if_pos ⟨p0, p1⟩]
      refine ⟨_, rfl, ?_⟩
      rw [List.getElem?_map, h4]
      simp [betDisc1, XF.div, XF.mul, Bet.xround, rx, XF.lt]
  obtain ⟨d, h6, h7⟩ := h5
  rw [h6]
  dsimp only
  rw [if_neg]
  intro hall
  rw [Bool.and_eq_true] at hall
  have hm : (X.index[i], XF.abs .nan) ∈ d.map fun p => (p.1, XF.abs p.2) := by
    rw [List.mem_iff_getElem?]
    exact ⟨i, by rw [List.getElem?_map, h7]; rfl⟩
  have := List.all_eq_true.1 hall.1 _ hm
  simp [XF.le, XF.abs, XF.lt, XF.beq] at this

/-- A certain prediction of one class, at the second of two rows. -/
example := C108_one_class (b := 53) (by norm_num) (F := demoFn) (by simp [demoFn]) rfl (c := ⟨1, false, true, true, some (1 / 10)⟩)
  (by norm_num [betConstruct]) rfl rfl
  (X := ⟨[0, 1000000], [.fin (1 / 2), .fin 1], [.fin 1, .fin 1], [.fin 1, .fin (-1)], [none, none]⟩) 1 (by decide) rfl (by decide) (by decide)

/-- One class is not refused as such. -/
example : betTransform (roundBits 53) demoFn ⟨1, false, false, false, none⟩ ⟨[0], [.fin (1 / 2)], [.fin 1], [.fin 1], [none]⟩ ≠
    .error .zeroDivisionError := fun h => absurd ((C108_no_class _ _ _ _).1 h) (by decide)

end Mizar.Props
