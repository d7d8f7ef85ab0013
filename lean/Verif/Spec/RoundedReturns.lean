import Verif.Model.RoundedReturns
import Verif.Spec.SampleWeights

/-! What is said about the sample weights by return in floating point. -/

namespace Mizar.Spec
open Mizar.Rd

/-- `sm` adds up arrays of at most `n` numbers in some order, each number going through at most `d` rounded additions. -/
def Adds {K : Type} [Field K] [LinearOrder K] (r : K → K) (n d : ℕ) (sm : List K → K) : Prop :=
  sm [] = 0 ∧ ∀ l, l ≠ [] → l.length ≤ n → ∃ t : AddTree K, t.leaves.Perm l ∧ t.depth ≤ d ∧ sm l = t.eval r

/-- The change of the logarithm at bar `k` with rounding, if this and the previous price are present. -/
def logRetR {K : Type} [Field K] [LinearOrder K] (r lg : K → K) (close : List (Option K)) (k : ℕ) : Option K :=
  if k = 0 then none else
    match close.getD k none, close.getD (k - 1) none with
    | some b, some a => some (r (lg b - lg a))
    | _, _ => none

/-- Bar `k` lies in the life span of `e`, both in whole milliseconds. -/
def InSpan (ev : List (ℤ × ℤ)) (e : ℤ × ℤ) (k : ℕ) : Prop :=
  e.1 / 1000000 ≤ (ev.getD k (0, 0)).1 / 1000000 ∧ (ev.getD k (0, 0)).1 / 1000000 ≤ e.2 / 1000000

instance (ev : List (ℤ × ℤ)) (e : ℤ × ℤ) (k : ℕ) : Decidable (InSpan ev e k) := inferInstanceAs (Decidable (_ ∧ _))

/-- The quotients that are added up for the event `e`. -/
def spanTerms {K : Type} [Field K] [LinearOrder K] (r lg : K → K) (ev : List (ℤ × ℤ)) (close : List (Option K)) (e : ℤ × ℤ) : List K :=
  ((List.range ev.length).filter (InSpan ev e ·)).filterMap fun k =>
    (logRetR r lg close k).map fun x => r (x / (aliveAt ev (ev.getD k (0, 0)).1 : K))

/-- The rows of events and prices. -/
def rowsOf {K : Type} (ev : List (ℤ × ℤ)) (close : List (Option K)) : List (ℤ × Option ℤ × XF K) :=
  List.zipWith (fun e c => (e.1, some e.2, match c with | some x => .fin x | none => .nan)) ev close

/-- Adding up from left to right, as numpy does with fewer than eight numbers. -/
def sumLeft {K : Type} [Field K] [LinearOrder K] (r : K → K) : List K → K
  | [] => 0
  | x :: l => l.foldl (fun a y => r (a + y)) x

end Mizar.Spec
