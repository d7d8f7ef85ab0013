import Verif.Model.Pipeline
import Verif.Spec.Align

/-!
Independent specification of running a pipeline on two sets of data that agree up to a time (C115).
-/

set_option linter.unusedSectionVars false

namespace Mizar.Spec
open Mizar.Pipe
variable {K : Type} [Field K] [LinearOrder K]

/-- The entries of a list with times that are not later than `t`. -/
def upTo {α : Type} (t : ℤ) (l : List (ℤ × α)) : List (ℤ × α) := l.filter fun r => decide (r.1 ≤ t)

/-- The index of a frame is increasing. -/
def Increasing (f : Frame K) : Prop := f.index.Pairwise (· < ·)

/-- The result of a (fitted) model for a row depends on this row and the rows before it only. -/
def CausalModel {α : Type} (h : Frame K → Py (List α)) : Prop :=
  ∀ (t : ℤ) (f f' : Frame K) (v v' : List α), Increasing f → Increasing f' → Agree t f f' → v.length = f.index.length →
    v'.length = f'.index.length → h f = .ok v → h f' = .ok v' → upTo t (f.index.zip v) = upTo t (f'.index.zip v')

/-- The rows made by a transformer up to a time depend on the rows up to this time only, and stay in the order of time. -/
def CausalTr (tr : Frame K → Py (Frame K)) : Prop :=
  (∀ f g : Frame K, Increasing f → tr f = .ok g → Increasing g) ∧
  ∀ (t : ℤ) (f f' g g' : Frame K), Increasing f → Increasing f' → Agree t f f' → tr f = .ok g → tr f' = .ok g' → Agree t g g'

/-- The sizes made by a bet sizer up to a time depend on the rows up to this time only, and are in the order of time. -/
def CausalSizer (bs : List (BetRow K) → Py (List (ℤ × XF K))) : Prop :=
  (∀ rows s, (rows.map BetRow.time).Pairwise (· < ·) → bs rows = .ok s → (s.map (·.1)).Pairwise (· < ·)) ∧
  ∀ (t : ℤ) (rows rows' : List (BetRow K)) (s s' : List (ℤ × XF K)), (rows.map BetRow.time).Pairwise (· < ·) →
    (rows'.map BetRow.time).Pairwise (· < ·) → rows.filter (fun r => decide (r.time ≤ t)) = rows'.filter (fun r => decide (r.time ≤ t)) →
    bs rows = .ok s → bs rows' = .ok s' → upTo t s = upTo t s'

end Mizar.Spec
