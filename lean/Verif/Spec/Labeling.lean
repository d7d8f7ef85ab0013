import Verif.Py.XF

/-!
Specification of the triple barrier labels: prices, sides and volatilities are optional numbers (`none` is
NaN), bars are positions `0 .. N-1`.
-/

namespace Mizar.Spec
variable {K : Type*} [Field K] [LinearOrder K]

/-- A number or NaN as a float. -/
def xf : Option K → XF K
  | none => .nan
  | some x => .fin x

/-- Side-adjusted return from price `ci` to price `cj`. -/
def sideReturn (ci cj s : Option K) : Option K :=
  match ci, cj, s with
  | some x, some y, some s => some (s * (y / x - 1))
  | _, _, _ => none

/-- `r` is a number below the barrier `b`. -/
def Below (r b : Option K) : Prop := ∃ x y, r = some x ∧ b = some y ∧ x < y

/-- `r` is a number above the barrier `b`. -/
def Above (r b : Option K) : Prop := ∃ x y, r = some x ∧ b = some y ∧ y < x

/-- `r` is the earliest time in `[start, exp)` at which the price satisfies `P`, or `0` if there is none. -/
def IsFirstTime (bars : List (ℤ × Option K)) (start exp : ℤ) (P : Option K → Prop) (r : ℤ) : Prop :=
  ((∀ b ∈ bars, start ≤ b.1 → b.1 < exp → ¬ P b.2) ∧ r = 0) ∨
  (∃ b ∈ bars, start ≤ b.1 ∧ b.1 < exp ∧ P b.2 ∧ r = b.1 ∧
    ∀ b' ∈ bars, start ≤ b'.1 → b'.1 < exp → P b'.2 → b.1 ≤ b'.1)

/-- `o` is the first position in `[lo, hi)` satisfying `P`. -/
def IsFirst (P : ℕ → Prop) (lo hi : ℕ) : Option ℕ → Prop
  | none => ∀ j, lo ≤ j → j < hi → ¬ P j
  | some j => lo ≤ j ∧ j < hi ∧ P j ∧ ∀ k, lo ≤ k → k < j → ¬ P k

/-- The window in which a horizontal barrier of the event at bar `i` can be hit ends (exclusively) at the
expiration bar, or at the last bar if there is no expiration bar. -/
def winEnd (N n i : ℕ) : ℕ := if i + n < N then i + n else N - 1

/-- The earliest of three optional positions. -/
def earliest (a b c : Option ℕ) : Option ℕ := ([a, b, c].filterMap id).min?

/-- Among `N` events with `n` bars to their expiration there is one that ends: at its expiration, or at a bar before the last
one that breaches a barrier (`breach i j`: bar `j` breaches a barrier of event `i`). -/
def SomeEventEnds (N n : ℕ) (breach : ℕ → ℕ → Prop) : Prop := n < N ∨ ∃ i j, i ≤ j ∧ j + 1 < N ∧ breach i j

/-- Return of the event at bar `i` closed at bar `k`; multiplied by the side for metalabels. -/
def eventReturn (metalabeling : Bool) (price side : ℕ → Option K) (i k : ℕ) : Option K :=
  match price i, price k with
  | some x, some y =>
    if metalabeling then (side i).map fun s => (y / x - 1) * s else some (y / x - 1)
  | _, _ => none

/-- Label of a return: 1 / 0 / missing for metalabels, the sign otherwise. -/
def labelSpec (metalabeling : Bool) : Option K → Option K
  | none => none
  | some r =>
    if metalabeling then (if 0 < r then some 1 else if r < 0 then some 0 else none)
    else some (if 0 < r then 1 else if r < 0 then -1 else 0)

/-- The stop-loss barrier: present only for a positive factor and a known volatility. -/
def slBarrier (slf : K) (vol : Option K) : Option K := if 0 < slf then vol.map fun v => -(slf * v) else none

/-- The profit-taking barrier. -/
def ptBarrier (ptf : K) (vol : Option K) : Option K := if 0 < ptf then vol.map fun v => ptf * v else none

/-- The output for the event at bar `i` given the bars at which the horizontal barriers are hit: end bar,
return and label. -/
def eventResult (metalabeling expirationLabel : Bool) (price side : ℕ → Option K) (N n i : ℕ)
    (sl pt : Option ℕ) : Option ℕ × Option K × Option K :=
  match earliest (if i + n < N then some (i + n) else none) sl pt with
  | none => (none, none, none)
  | some k =>
    (some k, eventReturn metalabeling price side i k,
      if expirationLabel && sl.isNone && pt.isNone then some 0
      else labelSpec metalabeling (eventReturn metalabeling price side i k))

end Mizar.Spec
