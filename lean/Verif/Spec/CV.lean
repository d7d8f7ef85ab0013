import Mathlib.Data.List.Basic
import Mathlib.Data.Nat.Choose.Basic

/-! Specifications for the cross-validation properties, independent of the model. -/

namespace Mizar.Spec

/-- A dataset as documented for the cross-validators: prediction times are non-decreasing and no
evaluation time precedes its prediction time. -/
structure Timeline (n : ℕ) (pred eval : ℕ → ℤ) : Prop where
  mono : ∀ i j, i ≤ j → j < n → pred i ≤ pred j
  fwd : ∀ i, i < n → pred i ≤ eval i

/-- Training sample `i` and test sample `t` do not interfere: the training label is known before the
test prediction is made, or the training prediction is made more than the embargo after the test
label is known. -/
def Separated (pred eval : ℕ → ℤ) (emb : ℤ) (i t : ℕ) : Prop :=
  eval i < pred t ∨ eval t + emb < pred i

/-- Position `x` lies in the half-open range `b`. -/
def InRange (b : ℕ × ℕ) (x : ℕ) : Prop := b.1 ≤ x ∧ x < b.2

/-- `fb` is a partition of the positions `0 .. n-1` into consecutive non-empty half-open ranges,
the sizes of which differ by at most one. -/
structure BalancedPartition (n : ℕ) (fb : List (ℕ × ℕ)) : Prop where
  nonempty : ∀ b ∈ fb, b.1 < b.2
  first : ∀ b, fb.head? = some b → b.1 = 0
  last : ∀ b, fb.getLast? = some b → b.2 = n
  consecutive : ∀ j b c, fb[j]? = some b → fb[j + 1]? = some c → c.1 = b.2
  cover : ∀ x, x < n → ∃! b, b ∈ fb ∧ InRange b x
  inside : ∀ b ∈ fb, b.2 ≤ n
  balanced : ∀ b ∈ fb, ∀ c ∈ fb, b.2 - b.1 ≤ (c.2 - c.1) + 1

/-- `e` is the end (exclusive) of a maximal run of consecutive test positions that contains `t`. -/
def RunEnd (test : List ℕ) (t e : ℕ) : Prop :=
  t < e ∧ (∀ x, t ≤ x → x < e → x ∈ test) ∧ e ∉ test

end Mizar.Spec
