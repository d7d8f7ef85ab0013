import Verif.Model.Rounded

/-!
`seq_bootstrap` (`/repo/mizarlabs/model/bootstrapping.py` lines 98-195) with rounding: `r₁` is the rounding of the single
precision division (lines 126-129), `r₂` the rounding of all double precision operations, `S` the summation of
`np.sum(avg_unique)` (NumPy does not add from left to right).
-/

namespace Mizar.Rd
open Mizar.Boot

/-- `kahan_sum` of NumPy, which `RandomState.choice` applies to the probabilities (`bootstrapping.py` lines 185-189). -/
def kahan (r : ℚ → ℚ) : List ℚ → ℚ
  | [] => 0
  | x :: l =>
    (l.foldl (fun (s : ℚ × ℚ) x =>
      let y := r (x - s.2)
      let t := r (s.1 + y)
      (t, r (r (t - s.1) - y))) (x, 0)).1

/-- Argument checks of `RandomState.choice` on the probabilities (`bootstrapping.py` lines 185-189): the tolerance is the
square root of the machine epsilon of doubles. -/
def choiceValid (r : ℚ → ℚ) (p : List ℚ) : Bool :=
  decide (p ≠ []) && p.all (fun x => decide (0 ≤ x)) && decide (|r (kahan r p - 1)| ≤ 1 / 2 ^ 26)

/-- `_calc_update_avg_unique` for one sample (`bootstrapping.py` lines 98-136): counts are converted to single precision
and inverted where a drawn sample is alive; the product with the stored integer one and the sums are in double precision. -/
def updateAvgUnique (r₁ r₂ : ℚ → ℚ) (M : IndMat) (boot : List ℕ) (j : ℕ) : ℚ :=
  r₂ (sum r₂ ((colRows M j).map fun t =>
      let part : ℕ := boot.countP fun i => M.ent t i
      let own : ℚ := if M.ent t j then 1 else 0
      r₂ (1 * if part ≠ 0 then r₁ (1 / r₁ (own + part)) else r₁ own)) / ((colRows M j).length : ℚ))

/-- State of the loop (`bootstrapping.py` lines 164-170). -/
structure BState where
  boot : List ℕ
  avg : ℕ → ℚ
  prob : List ℚ
  rows : List ℕ

/-- `avg_unique / np.sum(avg_unique)` (`bootstrapping.py` lines 167, 182). -/
def probOf (r : ℚ → ℚ) (S : List ℚ → ℚ) (n : ℕ) (avg : ℕ → ℚ) : List ℚ :=
  let s := S ((List.range n).map avg)
  (List.range n).map fun j => r (avg j / s)

/-- The initial state (`bootstrapping.py` lines 164-170). -/
def initState (r₂ : ℚ → ℚ) (S : List ℚ → ℚ) (M : IndMat) : BState :=
  ⟨[], fun _ => 1, probOf r₂ S M.nCols (fun _ => 1), []⟩

/-- The update of the probabilities (`bootstrapping.py` lines 173-183). -/
def refresh (r₁ r₂ : ℚ → ℚ) (S : List ℚ → ℚ) (M : IndMat) (s : BState) : BState :=
  if s.rows.length > 0 then
    let rows := npUnique s.rows
    let toUpdate := npUnique (rows.flatMap fun t => (List.range M.nCols).filter fun j => M.ent t j)
    let avg := fun j => if j ∈ toUpdate then updateAvgUnique r₁ r₂ M s.boot j else s.avg j
    { s with avg := avg, prob := probOf r₂ S M.nCols avg, rows := [] }
  else s

/-- The loop of `seq_bootstrap` (`bootstrapping.py` lines 172-193), as `Boot.bootLoop`. -/
def bootLoop (r₁ r₂ : ℚ → ℚ) (S : List ℚ → ℚ) (M : IndMat) (rng : ℕ → List ℚ → ℕ → List ℕ) (len k : ℤ) :
    ℕ → ℕ → BState → Py (List (List ℚ × List ℕ))
  | 0, _, _ => .ok []
  | fuel + 1, i, s =>
    let s := refresh r₁ r₂ S M s
    if choiceValid r₂ s.prob then
      let choices := rng i s.prob (min (len - i * k) k).toNat
      let s' := { s with
        boot := s.boot ++ choices
        rows := s.rows ++ choices.flatMap (fun j => colRows M j) }
      match bootLoop r₁ r₂ S M rng len k fuel (i + 1) s' with
      | .ok rest => .ok ((s.prob, choices) :: rest)
      | .error e => .error e
    else .error .valueError

/-- `seq_bootstrap` (`bootstrapping.py` lines 139-195) with the probabilities of the batches.  A negative length with a negative
batch size makes `choice` raise `ValueError`. -/
def seqBootstrapTrace (r₁ r₂ : ℚ → ℚ) (S : List ℚ → ℚ) (M : IndMat) (rng : ℕ → List ℚ → ℕ → List ℕ) (len : Option ℤ)
    (k : ℤ) : Py (List (List ℚ × List ℕ)) :=
  let len := len.getD M.nCols
  if k = 0 then .error .zeroDivisionError
  else if len < 0 ∧ k < 0 then .error .valueError
  else bootLoop r₁ r₂ S M rng len k (⌈r₂ ((len : ℚ) / (k : ℚ))⌉).toNat 0 (initState r₂ S M)

end Mizar.Rd
