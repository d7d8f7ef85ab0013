import Mathlib.Algebra.Order.Field.Basic
import Mathlib.Algebra.Order.BigOperators.Group.List
import Mathlib.Tactic.Linarith
import Mathlib.Tactic.Ring
import Mathlib.Tactic.FieldSimp

/-!
Ideal floats: values of an ordered field `K` together with NaN and the two infinities, with the
IEEE-754 rules for the special values and exact arithmetic on the finite ones.  Rounding, overflow of
finite operations and the sign of zero are not modelled: `x / 0` is `+inf` for `x > 0`, `-inf` for
`x < 0` and NaN for `x = 0`.

They stand for the `float64` values in all numeric code of `/repo/mizarlabs`.
-/

set_option linter.unusedSectionVars false

namespace Mizar

/-- Ideal floats over `K`. -/
inductive XF (K : Type*) where
  | nan
  | ninf
  | pinf
  | fin (x : K)
  deriving DecidableEq, Repr

namespace XF
variable {K : Type*} [Field K] [LinearOrder K]

/-- `np.isnan`. -/
def isNan : XF K → Bool
  | nan => true
  | _ => false

/-- `np.isinf`. -/
def isInf : XF K → Bool
  | ninf => true
  | pinf => true
  | _ => false

/-- Finite value or default. -/
def toK : XF K → K
  | fin x => x
  | _ => 0

/-- Unary minus. -/
def neg : XF K → XF K
  | nan => nan
  | ninf => pinf
  | pinf => ninf
  | fin x => fin (-x)

/-- Addition. -/
def add : XF K → XF K → XF K
  | nan, _ => nan
  | _, nan => nan
  | pinf, ninf => nan
  | ninf, pinf => nan
  | pinf, _ => pinf
  | _, pinf => pinf
  | ninf, _ => ninf
  | _, ninf => ninf
  | fin x, fin y => fin (x + y)

/-- Subtraction. -/
def sub (a b : XF K) : XF K := add a (neg b)

/-- Infinity with the sign of `x`, NaN for zero (the product of an infinity with `x`). -/
def infSign (x : K) : XF K := if 0 < x then pinf else if x < 0 then ninf else nan

/-- Multiplication. -/
def mul : XF K → XF K → XF K
  | nan, _ => nan
  | _, nan => nan
  | pinf, pinf => pinf
  | pinf, ninf => ninf
  | ninf, pinf => ninf
  | ninf, ninf => pinf
  | pinf, fin y => infSign y
  | fin x, pinf => infSign x
  | ninf, fin y => neg (infSign y)
  | fin x, ninf => neg (infSign x)
  | fin x, fin y => fin (x * y)

/-- Division of floats (NumPy rules, no exception). Division by zero treats the zero as positive. -/
def div : XF K → XF K → XF K
  | nan, _ => nan
  | _, nan => nan
  | fin _, pinf => fin 0
  | fin _, ninf => fin 0
  | pinf, pinf => nan
  | pinf, ninf => nan
  | ninf, pinf => nan
  | ninf, ninf => nan
  | pinf, fin y => if y < 0 then ninf else pinf
  | ninf, fin y => if y < 0 then pinf else ninf
  | fin x, fin y => if y = 0 then infSign x else fin (x / y)

/-- `np.abs`. -/
def abs : XF K → XF K
  | nan => nan
  | ninf => pinf
  | pinf => pinf
  | fin x => fin |x|

/-- `a < b` (false when a NaN is involved). -/
def lt : XF K → XF K → Bool
  | nan, _ => false
  | _, nan => false
  | _, ninf => false
  | pinf, _ => false
  | ninf, _ => true
  | _, pinf => true
  | fin x, fin y => decide (x < y)

/-- `a == b` (false when a NaN is involved). -/
def beq : XF K → XF K → Bool
  | nan, _ => false
  | _, nan => false
  | fin x, fin y => decide (x = y)
  | pinf, pinf => true
  | ninf, ninf => true
  | _, _ => false

/-- `a <= b` (false when a NaN is involved). -/
def le (a b : XF K) : Bool := lt a b || beq a b

/-- `np.sign`. -/
def sign : XF K → XF K
  | nan => nan
  | ninf => fin (-1)
  | pinf => fin 1
  | fin x => fin (if 0 < x then 1 else if x < 0 then -1 else 0)

/-- Sum of an array (left to right; exact). -/
def sum (l : List (XF K)) : XF K := l.foldl add (fin 0)

/-- `np.nansum`. -/
def nansum (l : List (XF K)) : XF K := sum (l.filter (fun x => !x.isNan))

@[simp] theorem add_fin (x y : K) : add (fin x) (fin y) = fin (x + y) := rfl
@[simp] theorem sub_fin (x y : K) : sub (fin x) (fin y) = fin (x - y) := by
  simp [sub, neg, sub_eq_add_neg]
@[simp] theorem mul_fin (x y : K) : mul (fin x) (fin y) = fin (x * y) := rfl
@[simp] theorem neg_fin (x : K) : neg (fin x) = fin (-x) := rfl
@[simp] theorem abs_fin (x : K) : abs (fin x) = fin |x| := rfl
theorem div_fin (x y : K) (h : y ≠ 0) : div (fin x) (fin y) = fin (x / y) := by simp [div, h]
@[simp] theorem lt_fin (x y : K) : lt (fin x) (fin y) = decide (x < y) := rfl
@[simp] theorem beq_fin (x y : K) : beq (fin x) (fin y) = decide (x = y) := rfl
@[simp] theorem le_fin (x y : K) : le (fin x) (fin y) = decide (x ≤ y) := by
  simp only [le, lt_fin, beq_fin, ← Bool.decide_or, decide_eq_decide]
  exact le_iff_lt_or_eq.symm
@[simp] theorem isNan_fin (x : K) : isNan (fin x) = false := rfl
@[simp] theorem isNan_nan : isNan (nan : XF K) = true := rfl
@[simp] theorem isNan_pinf : isNan (pinf : XF K) = false := rfl
@[simp] theorem isNan_ninf : isNan (ninf : XF K) = false := rfl
@[simp] theorem isInf_fin (x : K) : isInf (fin x) = false := rfl
@[simp] theorem add_nan_left (a : XF K) : add nan a = nan := rfl
@[simp] theorem add_nan_right (a : XF K) : add a nan = nan := by cases a <;> rfl
@[simp] theorem sub_nan_left (a : XF K) : sub nan a = nan := rfl
@[simp] theorem sub_nan_right (a : XF K) : sub a nan = nan := by cases a <;> rfl
@[simp] theorem mul_nan_left (a : XF K) : mul nan a = nan := rfl
@[simp] theorem mul_nan_right (a : XF K) : mul a nan = nan := by cases a <;> rfl
@[simp] theorem div_nan_left (a : XF K) : div nan a = nan := rfl
@[simp] theorem div_nan_right (a : XF K) : div a nan = nan := by cases a <;> rfl
@[simp] theorem abs_nan : abs (nan : XF K) = nan := rfl
@[simp] theorem neg_nan : neg (nan : XF K) = nan := rfl
@[simp] theorem lt_nan_left (a : XF K) : lt nan a = false := rfl
@[simp] theorem lt_nan_right (a : XF K) : lt a nan = false := by cases a <;> rfl
@[simp] theorem le_nan_left (a : XF K) : le nan a = false := rfl
@[simp] theorem le_nan_right (a : XF K) : le a nan = false := by cases a <;> rfl

theorem foldl_add_fin (l : List K) (a : K) :
    (l.map fin).foldl add (fin a) = fin (a + l.sum) := by
  induction l generalizing a with
  | nil => simp
  | cons b l ih =>
    rw [List.map_cons, List.foldl_cons, add_fin, ih]
    simp [add_assoc]

@[simp] theorem sum_fin (l : List K) : sum (l.map fin) = fin l.sum := by
  simp [sum, foldl_add_fin]

theorem sum_map_fin {α : Type*} (l : List α) (f : α → K) :
    sum (l.map (fun a => fin (f a))) = fin (l.map f).sum := by
  have := sum_fin (l.map f)
  rwa [List.map_map] at this

theorem foldl_add_nan (l : List (XF K)) : l.foldl add nan = nan := by
  induction l with
  | nil => rfl
  | cons b l ih => simpa using ih

end XF
end Mizar
