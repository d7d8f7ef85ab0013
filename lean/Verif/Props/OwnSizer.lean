import Verif.Props.NoLookAheadModels
import Verif.Model.BetPipe

/-!
Property theorems C115 and C153: the bet sizer of the repository as modelled for the two claims is the same, and does not look ahead.
-/

namespace Mizar.Props
open Mizar.Spec Mizar.Pipe

/-- C115: for the rows of a pipeline, all with a side (metalabeling) or all without, the bet sizer is the one of C153. -/
theorem C115_same_sizer (c : Bet.Cfg) (hasSide : Bool) (rows : List (BetRow ℝ)) (hne : rows ≠ []) (h : ∀ r ∈ rows, r.side.isSome = hasSide) :
    probSizer c rows = ownSizer c hasSide rows := by
  have : rows.all (fun r => r.side.isSome) = hasSide := by
    cases hasSide
    · obtain ⟨r, l, rfl⟩ := List.exists_cons_of_ne_nil hne
      rw [List.all_cons, h r (by simp), Bool.false_and]
    · exact List.all_eq_true.2 h
  unfold probSizer ownSizer betFrame
  rw [this]

private def withSide (hasSide : Bool) (r : BetRow ℝ) : BetRow ℝ := { r with side := if hasSide then some (r.side.getD .nan) else none }

private theorem own_rows (c : Bet.Cfg) (hasSide : Bool) (rows : List (BetRow ℝ)) (s : Ser ℝ) (h : ownSizer c hasSide rows = .ok s) :
    s = rows.map fun r => (r.time, betRowSize c (withSide hasSide r)) := by
  have e : ownSizer c hasSide rows = ownSizer c hasSide (rows.map (withSide hasSide)) := by
    unfold ownSizer
    simp only [List.map_map]
    cases hasSide <;> rfl
  by_cases hne : rows = []
  · subst hne
    cases hasSide
    · have h2 : probSizer c [] = .ok s := by
        rw [← h]
        unfold probSizer ownSizer betFrame Bet.transform Bet.transform0 Bet.applySide
        by_cases hm : c.metaLabeling = true
        · exfalso
          unfold ownSizer Bet.transform Bet.transform0 Bet.applySide at h
          simp [hm] at h
          split at h <;> simp_all
          split at * <;> simp_all
        · simp [hm]
          rfl
      exact probSizer_rows c [] s h2
    · exact probSizer_rows c [] s h
  · rw [e, ← C115_same_sizer c hasSide _ (by simpa using hne) (by
      intro r hr
      obtain ⟨q, -, rfl⟩ := List.mem_map.1 hr
      cases hasSide <;> rfl)] at h
    rw [probSizer_rows c _ s h, List.map_map]
    rfl

/-- C115: the bet sizer of the repository in the form of C153 does not look ahead, with every configuration. -/
theorem C115_own_sizer (c : Bet.Cfg) (hasSide : Bool) : CausalSizer (ownSizer c hasSide) := by
  constructor
  · intro rows s hr hs
    rw [own_rows c hasSide rows s hs, List.map_map]
    exact hr
  · intro t rows rows' s s' hr hr' h hs hs'
    rw [own_rows c hasSide rows s hs, own_rows c hasSide rows' s' hs']
    unfold upTo
    rw [List.filter_map, List.filter_map]
    change List.map _ (rows.filter fun r => decide (r.time ≤ t)) = List.map _ (rows'.filter fun r => decide (r.time ≤ t))
    rw [h]

/-- Two rows of a metalabeling model. -/
example (c : Bet.Cfg) := C115_same_sizer c true [⟨60, .fin (3 / 4), 1, some (.fin 1)⟩, ⟨120, .fin (2 / 3), 0, some (.fin (-1))⟩] (by simp) (by simp)

end Mizar.Props
