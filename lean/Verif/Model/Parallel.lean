import Verif.Py.Basic

/-!
Parallel loops of numba (`prange` in a function compiled with `parallel=True`), as used in
`/repo/mizarlabs/transformers/targets/labeling.py` line 326, `/repo/mizarlabs/transformers/targets/trend_scanning.py` line
186, `/repo/mizarlabs/transformers/trading/bet_sizing.py` line 212, `/repo/mizarlabs/structural_breaks/sadf.py` line 293,
`/repo/mizarlabs/structural_breaks/sdfc.py` line 29 and
`/repo/mizarlabs/structural_breaks/cusum_chu_stinchcome_white.py` line 35.

The iterations run interleaved in any order; an action is a write of one entry of a shared array or the raise of an
exception.  Each of the loops above reads only arrays that no iteration writes (`body` below is a function of the number
of the iteration alone).  An exception ends its iteration; from then on other iterations may be abandoned at any point,
as numba gives a whole share of the iterations to each thread.  Writes are atomic and happen in the order of the program
inside an iteration.
-/

namespace Mizar.Par

/-- Entry of an array: number of the array, position (the `prange` loops listed above). -/
abbrev Loc := ℕ × ℕ

/-- One action of an iteration: write a value to an entry of an array, or raise (the `prange` loops listed above). -/
inductive Act (V : Type)
  | write (loc : Loc) (val : V)
  | raise (e : PyErr)

/-- State of a running loop: what is left of each iteration, the arrays, the exceptions raised so far (the `prange` loops listed above). -/
structure Config (V : Type) where
  pool : ℕ → List (Act V)
  mem : Loc → V
  raised : List PyErr

/-- One step of the loop with `n` iterations (the `prange` loops listed above). -/
inductive Step {V : Type} (n : ℕ) : Config V → Config V → Prop
  | write (c : Config V) (i : ℕ) (hi : i < n) (a : Loc) (v : V) (rest : List (Act V)) (h : c.pool i = .write a v :: rest) :
      Step n c { pool := Function.update c.pool i rest, mem := Function.update c.mem a v, raised := c.raised }
  | raise (c : Config V) (i : ℕ) (hi : i < n) (e : PyErr) (rest : List (Act V)) (h : c.pool i = .raise e :: rest) :
      Step n c { pool := Function.update c.pool i [], mem := c.mem, raised := e :: c.raised }
  | abandon (c : Config V) (i : ℕ) (hi : i < n) (h : c.pool i ≠ []) (hr : c.raised ≠ []) :
      Step n c { pool := Function.update c.pool i [], mem := c.mem, raised := c.raised }

/-- Several steps (the `prange` loops listed above). -/
inductive Run {V : Type} (n : ℕ) : Config V → Config V → Prop
  | refl (c : Config V) : Run n c c
  | step {c d e : Config V} (h : Run n c d) (s : Step n d e) : Run n c e

/-- All iterations have ended (the `prange` loops listed above). -/
def Final {V : Type} (n : ℕ) (c : Config V) : Prop := ∀ i < n, c.pool i = []

/-- What an iteration does, given the writes it makes or the exception it raises (the `prange` loops listed above). -/
def actions {V : Type} : Py (List (Loc × V)) → List (Act V)
  | .ok ws => ws.map fun w => .write w.1 w.2
  | .error e => [.raise e]

/-- The loop over `body` before its first step (the `prange` loops listed above). -/
def start {V : Type} (body : ℕ → Py (List (Loc × V))) (mem : Loc → V) : Config V :=
  { pool := fun i => actions (body i), mem := mem, raised := [] }

/-- The outcomes a loop with `n` iterations can have: the arrays of a finished run without exception, or one of the
exceptions raised (the `prange` loops listed above). -/
inductive Outcome {V : Type} (n : ℕ) (body : ℕ → Py (List (Loc × V))) (mem : Loc → V) : Py (Loc → V) → Prop
  | ok (c : Config V) (h : Run n (start body mem) c) (hf : Final n c) (hr : c.raised = []) : Outcome n body mem (.ok c.mem)
  | error (c : Config V) (h : Run n (start body mem) c) (hf : Final n c) (e : PyErr) (he : e ∈ c.raised) :
      Outcome n body mem (.error e)

end Mizar.Par
