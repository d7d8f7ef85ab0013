import Verif.Model.SplitGen

/-!
What a generator of rounds may give.
-/

namespace Mizar.Spec
open Mizar.CV

/-- The answers of a generator over `rounds` that nobody disturbs: the rounds in order, then `StopIteration` for ever. -/
def GivesRounds (rounds : List (List ℕ × List ℕ)) (outs : List Out) : Prop :=
  ∀ j (h : j < outs.length),
    outs[j] = if hj : j < rounds.length then Out.yield rounds[j] else Out.stop

/-- The answers of a generator that fails at once: the exception, then `StopIteration` for ever. -/
def FailsAtOnce (e : PyErr) (outs : List Out) : Prop :=
  ∀ j (h : j < outs.length), outs[j] = if j = 0 then Out.raise e else Out.stop

/-- The answers of a generator over `rounds` that may be broken off by `e` after the first `j` rounds. -/
def BrokenOff (rounds : List (List ℕ × List ℕ)) (e : PyErr) (outs : List Out) : Prop :=
  ∃ j, j ≤ rounds.length ∧ ∃ q,
    outs = (rounds.take j).map Out.yield ++ Out.raise e :: List.replicate q Out.stop

end Mizar.Spec
