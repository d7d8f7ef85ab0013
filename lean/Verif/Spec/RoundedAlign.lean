import Verif.Model.RoundedAlign
import Verif.Spec.RoundedReturns

/-! What is said about alignment in floating point. -/

namespace Mizar.Spec
open Mizar.Pipe

/-- A computed and an exact value: the same, or two numbers that differ by at most `δ`. -/
def Close (δ : ℚ) (x y : XF ℚ) : Prop := x = y ∨ ∃ a b, x = .fin a ∧ y = .fin b ∧ |a - b| ≤ δ

/-- Two frames with the same columns and index whose values are close. -/
structure CloseFrames (δ : ℚ) (g h : Frame ℚ) : Prop where
  cols : g.cols = h.cols
  rows : List.Forall₂ (fun a b => a.1 = b.1 ∧ List.Forall₂ (Close δ) a.2 b.2) g.rows h.rows

/-- Two dictionaries with the same keys in the same order and close frames. -/
def CloseDicts (δ : ℚ) (d e : Dict ℚ) : Prop := List.Forall₂ (fun a b => a.1 = b.1 ∧ CloseFrames δ a.2 b.2) d e

/-- No number in the frame is larger than `V` in absolute value. -/
def Bounded (V : ℚ) (f : Frame ℚ) : Prop := ∀ row ∈ f.rows, ∀ x : ℚ, XF.fin x ∈ row.2 → |x| ≤ V

/-- What is asked of the rows of a frame after one alignment time (or the year 1700) and up to the next, for every alignment time. -/
def Groups (P : List (ℤ × List (XF ℚ)) → Prop) (idx : List ℤ) (f : Frame ℚ) : Prop :=
  ∀ w ∈ ((-8520336000000000000 : ℤ) :: idx).zip idx, P (f.rows.filter fun r => decide (w.1 < r.1) && decide (r.1 ≤ w.2))

/-- Every value multiplied by `c`. -/
def scaleFrame {K : Type} [Field K] [LinearOrder K] (c : K) (f : Frame K) : Frame K :=
  ⟨f.cols, f.rows.map fun r => (r.1, r.2.map (XF.mul (.fin c)))⟩

/-- Every value of every frame multiplied by `c`. -/
def scaleFeatures {K : Type} [Field K] [LinearOrder K] (c : K) (X : Features K) : Features K :=
  ⟨X.primary.map fun e => (e.1, scaleFrame c e.2), X.metal.map fun e => (e.1, scaleFrame c e.2)⟩

/-- The methods with minimum and maximum exchanged. -/
def swapHow (how : List (String × String)) : List (String × String) :=
  how.map fun e => (e.1, if e.2 = "min" then "max" else if e.2 = "max" then "min" else e.2)

/-- A missing value or a number from `lo` to `hi`. -/
def Within (lo hi : ℚ) (x : XF ℚ) : Prop := x = .nan ∨ ∃ a, x = .fin a ∧ lo ≤ a ∧ a ≤ hi

end Mizar.Spec
