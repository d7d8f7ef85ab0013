import Mathlib.Data.List.Basic

/-!
Specification for C64 and C65: the documented format of `talib` signatures and renaming of arguments.
-/

namespace Mizar.Spec

/-- The documented format: `name(a, b[, k=?, l=?])`, or `name(a, b)` for functions without keyword arguments. -/
def signature (name : String) (args kwargs : List String) : String :=
  name ++ "(" ++ String.intercalate ", " args ++
    (if kwargs = [] then "" else "[, " ++ String.intercalate ", " (kwargs.map fun k => k ++ "=?") ++ "]") ++ ")"

/-- A name that is not empty and has none of the characters the format uses. -/
def PlainName (s : String) : Prop := s ≠ "" ∧ ∀ c ∈ s.toList, c ∉ ['(', ')', '[', ']', ',', '=', '?', '\n']

/-- What follows the signature in the docstring: nothing, or a new line. -/
def StartsNewLine (rest : String) : Prop := rest = "" ∨ ∃ t, rest.toList = '\n' :: t

/-- The pairs rename the first name to the second; names that are not mentioned stay as they are. -/
def Renames (m : List (String × String)) (a b : String) : Prop := (a, b) ∈ m ∨ (b = a ∧ ∀ c, (a, c) ∉ m)

/-- Every position of the second list is the renamed position of the first: same length, same order, all at once. -/
def RenamedBy (m : List (String × String)) : List String → List String → Prop := List.Forall₂ (Renames m)

end Mizar.Spec
