import Verif.Model.RoundedOls
import Verif.Spec.RoundedReturns
import Verif.Spec.RoundedHighLow

/-! What is said about regressions in floating point. -/

namespace Mizar.Spec
open Mizar.Rd

/-- A power of two, or its negative. -/
def PlusMinusPow {K : Type} [Field K] (u : K) : Prop := ∃ e : ℤ, u = 2 ^ e ∨ u = -(2 ^ e)

/-- What is assumed of rounding: results of opposite sign and results whose exponents differ are rounded alike. -/
structure Binary {K : Type} [Field K] [LinearOrder K] (r sq : K → K) : Prop where
  neg : ∀ x, r (-x) = -r x
  scale : ∀ (e : ℤ) x, r (2 ^ e * x) = 2 ^ e * r x
  sqrt : ∀ (e : ℤ) x, 0 ≤ x → sq (2 ^ e * 2 ^ e * x) = 2 ^ e * sq x

/-- What is assumed of `np.dot`: the same of every entry of a product. -/
structure FairDot {K : Type} [Field K] (L : LinAlg K) : Prop where
  neg : ∀ o i j l, L.dot o i j (l.map fun x => -x) = -L.dot o i j l
  scale : ∀ o i j (e : ℤ) l, L.dot o i j (l.map fun x => 2 ^ e * x) = 2 ^ e * L.dot o i j l

/-- What is assumed of `np.linalg.inv`: elimination chooses pivots by their absolute value, so that it goes the same way when rows and
columns change their sign together, or all entries their exponent. -/
structure FairInv {K : Type} [Field K] (L : LinAlg K) : Prop where
  sign : ∀ k (s : Fin k → K), (∀ i, s i = 1 ∨ s i = -1) → ∀ M, L.inv k (fun i j => s i * s j * M i j) =
    (L.inv k M).map fun N i j => s i * s j * N i j
  scale : ∀ k (e : ℤ) M, L.inv k (fun i j => 2 ^ e * M i j) = (L.inv k M).map fun N i j => (2 ^ e)⁻¹ * N i j

/-- Exact linear algebra. -/
noncomputable def exactAlg : LinAlg ℝ where
  dot _ _ _ := List.sum
  inv k M := if (Matrix.of M).det = 0 then none else some fun i j => ((Matrix.of M)⁻¹ : Matrix (Fin k) (Fin k) ℝ) i j

/-- The inverse of a matrix of order two as the reference implementation of LAPACK computes it (`dgetrf`, `dgetri`): rows exchanged if the
second entry of the first column is greater, factors `l` and `u`, the inverse of the upper factor, then the lower factor. -/
def lapack2 {K : Type} [Field K] [LinearOrder K] (r : K → K) (M : Fin 2 → Fin 2 → K) : Option (Fin 2 → Fin 2 → K) :=
  let sw := |M 0 0| < |M 1 0|
  let a := if sw then M 1 0 else M 0 0
  let b := if sw then M 1 1 else M 0 1
  let c := if sw then M 0 0 else M 1 0
  let d := if sw then M 0 1 else M 1 1
  if a = 0 then none else
    let l := r (c * r (1 / a))
    let u := r (d - r (l * b))
    if u = 0 then none else
      let i11 := r (1 / a)
      let i22 := r (1 / u)
      let i12 := r (-i22 * r (i11 * b))
      let i21 := -r (i22 * l)
      let i11' := r (i11 - r (i12 * l))
      some (if sw then ![![i12, i11'], ![i22, i21]] else ![![i11', i12], ![i21, i22]])

/-- Products added up from left to right and the reference inverse; matrices of order three and more are left out. -/
def referenceAlg {K : Type} [Field K] [LinearOrder K] (r : K → K) : LinAlg K where
  dot _ _ _ l := sumLeft r (l.map r)
  inv k M := if h : k = 2 then (lapack2 r fun i j => M (Fin.cast h.symm i) (Fin.cast h.symm j)).map fun N i j => N (Fin.cast h i) (Fin.cast h j)
    else if h : k = 1 then
      if M (Fin.cast h.symm 0) (Fin.cast h.symm 0) = 0 then none else some fun i j => r (1 / M i j)
    else none

end Mizar.Spec
