import Verif.Py.Series

/-! What is said about rolling sums in floating point. -/

namespace Mizar.Spec

/-- All numbers of the series are whole multiples of `2^e`, and those of every window add up to less than `2^p` of them. -/
def OnGrid (p : ℕ) (e : ℤ) (w : ℕ) (l : List (XF ℚ)) : Prop :=
  (∀ x ∈ l, ∃ m : ℤ, x.toK = m * 2 ^ e) ∧
    ∀ i < l.length, ((winAt w i l).map fun x => |x.toK|).sum < 2 ^ p * 2 ^ e

/-- All numbers of the series are whole multiples of `2^e`, at most `T` of them. -/
def Ticks (e : ℤ) (T : ℕ) (l : List (XF ℚ)) : Prop := ∀ x ∈ l, ∃ m : ℤ, x.toK = m * 2 ^ e ∧ |m| ≤ T

/-- Both missing, or both numbers that differ by at most `δ`. -/
def Near (δ : ℚ) (x y : XF ℚ) : Prop := (x = .nan ∧ y = .nan) ∨ ∃ a b, x = .fin a ∧ y = .fin b ∧ |a - b| ≤ δ

/-- Volume of the window that ends at position `i`. -/
def windowVolume (w : ℕ) (V : List ℚ) (i : ℕ) : ℚ := (winAt w i V).sum

/-- Sum of the absolute differences of buy and sell volumes of that window. -/
def windowImbalance (w : ℕ) (B S : List ℚ) (i : ℕ) : ℚ := (winAt w i (List.zipWith (fun b s => |b - s|) B S)).sum

/-- Columns of equal length with differences of buy and sell volume that the volume covers. -/
structure Volumes (V B S : List ℚ) : Prop where
  buy : B.length = V.length
  sell : S.length = V.length
  covers : ∀ i, |B.getD i 0 - S.getD i 0| ≤ V.getD i 0

end Mizar.Spec
