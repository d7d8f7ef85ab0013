import Verif.Model.Parallel

/-! Specification of C80: a parallel loop is as good as the loop in order. -/

namespace Mizar.Spec
open Mizar.Par

/-- The outcome of a parallel loop, read by `read`, is the result of the loop run in order; if the latter raises, so does the
parallel one. -/
def SameResult {V β : Type} (read : (Loc → V) → β) : Py (Loc → V) → Py β → Prop
  | .ok m, .ok v => read m = v
  | .error _, .error _ => True
  | _, _ => False

/-- Whatever the schedule: the loop ends, with the result of the loop in order, or with the exception of one of its
iterations if the loop in order raises. -/
def ScheduleFree {V β : Type} (n : ℕ) (body : ℕ → Py (List (Loc × V))) (mem : Loc → V) (read : (Loc → V) → β) (seq : Py β) : Prop :=
  (∃ o, Outcome n body mem o) ∧ (∀ o, Outcome n body mem o → SameResult read o seq) ∧
    ∀ e, Outcome n body mem (.error e) → ∃ i < n, body i = .error e

end Mizar.Spec
