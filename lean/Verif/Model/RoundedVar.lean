import Verif.Model.RoundedRoll

/-!
`rolling(w).std()` with rounding: pandas carries mean and sum of squared deviations along (Welford), takes the value that
leaves the window out and puts the new one in, with two compensations for the mean, see `roll_var` of
`pandas/_libs/window/aggregations.pyx` (1.2 to 1.4).  The versions differ in what comes first, taking out or putting in;
`addFirst` stands for that.  `r` rounds the result of every operation, `sq` is the rounded square root.  Then
`RollingZScoreTransformer` on top of it.  As in `RoundedRoll`, infinities count as missing values and the sign of zero is
not modelled.
-/

namespace Mizar.Rd
variable {K : Type} [Field K] [LinearOrder K]

/-- Mean, sum of squared deviations, the two compensations and the number of values. -/
structure VarSt (K : Type) where
  mean : K
  ss : K
  ca : K
  cr : K
  nobs : ℤ

/-- Start of the loop. -/
def varInit : VarSt K := ⟨0, 0, 0, 0, 0⟩

/-- `add_var`. -/
def varAdd (r : K → K) (st : VarSt K) : XF K → VarSt K
  | .fin v =>
    let n := st.nobs + 1
    let prev := r (st.mean - st.ca)
    let y := r (v - st.ca)
    let t := r (y - st.mean)
    let mean := if n ≠ 0 then r (st.mean + r (t / (n : K))) else 0
    ⟨mean, r (st.ss + r (r (v - prev) * r (v - mean))), r (r (t + st.mean) - y), st.cr, n⟩
  | _ => st

/-- `remove_var`. -/
def varRemove (r : K → K) (st : VarSt K) : XF K → VarSt K
  | .fin v =>
    let n := st.nobs - 1
    if n ≠ 0 then
      let prev := r (st.mean - st.cr)
      let y := r (v - st.cr)
      let t := r (y - st.mean)
      let mean := r (st.mean - r (t / (n : K)))
      ⟨mean, r (st.ss - r (r (v - prev) * r (v - mean))), st.ca, r (r (t + st.mean) - y), n⟩
    else { st with mean := 0, ss := 0, nobs := n }
  | _ => st

/-- The loop body for position `i`. -/
def varStep (r : K → K) (addFirst : Bool) (w : ℕ) (l : List (XF K)) (st : VarSt K) (i : ℕ) : VarSt K :=
  if w ≤ i then
    if addFirst then varRemove r (varAdd r st (l.getD i .nan)) (l.getD (i - w) .nan)
    else varAdd r (varRemove r st (l.getD (i - w) .nan)) (l.getD i .nan)
  else varAdd r st (l.getD i .nan)

/-- State before position `i`. -/
def varState (r : K → K) (addFirst : Bool) (w : ℕ) (l : List (XF K)) : ℕ → VarSt K
  | 0 => varInit
  | i + 1 => varStep r addFirst w l (varState r addFirst w l i) i

/-- `calc_var` with `minp = w` and `ddof = 1`: a negative result is set to 0. -/
def calcVar (r : K → K) (w : ℕ) (st : VarSt K) : XF K :=
  if (w : ℤ) ≤ st.nobs ∧ 1 < st.nobs then
    let q := r (st.ss / ((st.nobs - 1 : ℤ) : K))
    if q < 0 then .fin 0 else .fin q
  else .nan

/-- `series.rolling(w).var()` for `w ≥ 1`. -/
def rollVar (r : K → K) (addFirst : Bool) (w : ℕ) (l : List (XF K)) : List (XF K) :=
  (List.range l.length).map fun i => calcVar r w (varState r addFirst w l (i + 1))

/-- `series.rolling(w).std()` for `w ≥ 1` (`zsqrt` of the variance, which is not negative). -/
def rollStd (r sq : K → K) (addFirst : Bool) (w : ℕ) (l : List (XF K)) : List (XF K) := (rollVar r addFirst w l).map (rnd sq)

/-- `RollingZScoreTransformer.calc_z_score` (`/repo/mizarlabs/transformers/features/rolling_z_score.py` lines 33-44). -/
def zScore (r sq : K → K) (addFirst : Bool) (w : ℕ) (x : List (XF K)) : List (XF K) :=
  List.zipWith (fun d s => rnd r (XF.div d s)) (List.zipWith (fun x m => rnd r (XF.sub x m)) x (rollMean r w x))
    (rollStd r sq addFirst w x)

end Mizar.Rd
