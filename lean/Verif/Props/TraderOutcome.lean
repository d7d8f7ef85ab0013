import Verif.Props.Trader

/-! Property theorem C53: exactly which calls of `create_position` (`/repo/mizarlabs/model/pipeline.py` lines 824-852) give positions. -/

set_option linter.unusedSectionVars false

namespace Mizar.Props
open Mizar.Pipe Mizar.Trade Mizar.Spec
variable {K : Type} [Field K] [LinearOrder K]

open scoped Classical in
/-- **C53** (exact outcome) For frames whose rows fit their columns and a signal with distinct times, the checks come in this order: a frame with a
repeated time raises `ValueError`; then whatever the pipeline raises; then `KeyError` without the frame to align on, or without its closes when the
volatility is used; then `TypeError` when a factor is not given and either the volatility is not used or some bar lies more than a day before
another; otherwise positions are created. -/
theorem C53_outcome (tr : Trader K) (st : State K) (hwf : ∀ q ∈ st.data, q.2.WF)
    (hsn : ∀ s, tr.signal st.data = .ok s → (s.map (·.1)).Nodup) :
    (¬ (∀ q ∈ st.data, q.2.index.Nodup) → createPosition tr st = (.error .valueError, st)) ∧
    ((∀ q ∈ st.data, q.2.index.Nodup) →
      (∀ e, tr.signal st.data = .error e → createPosition tr st = (.error e, st)) ∧
      ∀ s, tr.signal st.data = .ok s →
        (st.data.lookup tr.alignOn = none → (createPosition tr st).1 = .error .keyError) ∧
        ∀ f, st.data.lookup tr.alignOn = some f →
          (tr.volAdjusted = true ∧ "close" ∉ f.cols → (createPosition tr st).1 = .error .keyError) ∧
          ((tr.volAdjusted = true → "close" ∈ f.cols) →
            if (tr.stopLoss = none ∨ tr.profitTaking = none) ∧ (tr.volAdjusted = false ∨ SpansDay f.index)
            then (createPosition tr st).1 = .error .typeError else ∃ p, (createPosition tr st).1 = .ok p)) := by
  refine ⟨fun h => ?_, fun hu => ?_⟩
  · have hc : checkDict st.data = false := by
      rw [← Bool.not_eq_true]
      intro h1
      exact h (by simpa [checkDict] using h1)
    unfold createPosition createSignal
    rw [if_pos hc]
  · have hc : checkDict st.data = true := by simpa [checkDict] using hu
    have hc' : ¬ checkDict st.data = false := by simp [hc]
    refine ⟨fun e he => ?_, fun s hs => ⟨fun hl => ?_, fun f hl => ⟨fun hv => ?_, fun hv => ?_⟩⟩⟩
    · unfold createPosition createSignal
      rw [if_neg hc', he]
    · unfold createPosition createSignal createBars
      simp only [hc, Bool.true_eq_false, if_false, hs, hl]
    · have : volatility tr f = .error .keyError := by
        unfold volatility column
        rw [if_pos hv.1, if_neg (show CLOSE ∉ f.cols from hv.2)]
        rfl
      unfold createPosition createSignal createBars
      simp only [hc, Bool.true_eq_false, if_false, hs, hl, this]
    · split
      · rename_i h
        refine C53_default_factors_refuted tr st s f ?_ h.1 hu hl hs
        cases hva : tr.volAdjusted with
        | false => exact Or.inl rfl
        | true =>
          rcases h.2 with h1 | h1
          · rw [hva] at h1; cases h1
          · exact Or.inr ⟨h1, hv hva⟩
      · rename_i h
        obtain ⟨p, st', hp⟩ := C53_created tr st s f hwf hu hl hs (hsn s hs) (fun hd => by
          have h1 : ¬ (tr.volAdjusted = false ∨ SpansDay f.index) := fun h2 => h ⟨hd, h2⟩
          rw [not_or, Bool.not_eq_false] at h1
          exact h1) hv
        exact ⟨p, by rw [hp]⟩

section Examples

private def exFrame : Frame ℚ := ⟨["close"], [(0, [.fin 10]), (90000000000000, [.fin 11])]⟩

private def exTrader (sl : Option ℚ) : Trader ℚ := ⟨"bars", fun _ => .ok [(0, .fin 1, .fin 1)], fun l => l, 5, sl, some 2, true⟩

/-- Two bars 25 hours apart: without a stop-loss factor the call raises, with one it does not. -/
example : (createPosition (exTrader none) ⟨none, [("bars", exFrame)]⟩).1 = .error .typeError ∧
    ∃ p, (createPosition (exTrader (some 1)) ⟨none, [("bars", exFrame)]⟩).1 = .ok p := by
  have hspan : SpansDay exFrame.index := ⟨90000000000000, by decide, 0, by decide, by norm_num⟩
  have hwf : ∀ q ∈ ([("bars", exFrame)] : Dict ℚ), q.2.WF := by
    intro q hq
    rw [List.mem_singleton.1 hq]
    intro r hr
    simp only [exFrame, List.mem_cons, List.not_mem_nil, or_false] at hr
    rcases hr with rfl | rfl <;> rfl
  have hu : ∀ q ∈ ([("bars", exFrame)] : Dict ℚ), q.2.index.Nodup := by
    intro q hq
    rw [List.mem_singleton.1 hq]
    decide
  have hsn : ∀ sl, ∀ s, (exTrader sl).signal [("bars", exFrame)] = .ok s → (s.map (·.1)).Nodup := by
    intro sl s hs
    rw [← Except.ok.inj (hs : (.ok [(0, .fin 1, .fin 1)] : Py (Signal ℚ)) = .ok s)]
    simp
  constructor
  · have := ((((C53_outcome (exTrader none) ⟨none, [("bars", exFrame)]⟩ hwf (hsn none)).2 hu).2 _ rfl).2 exFrame rfl).2 (fun _ => by simp [exFrame])
    rwa [if_pos ⟨Or.inl rfl, Or.inr hspan⟩] at this
  · have := ((((C53_outcome (exTrader (some 1)) ⟨none, [("bars", exFrame)]⟩ hwf (hsn _)).2 hu).2 _ rfl).2 exFrame rfl).2 (fun _ => by simp [exFrame])
    rwa [if_neg (by simp [exTrader])] at this

end Examples

end Mizar.Props
