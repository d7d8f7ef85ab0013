import Verif.Model.OofProba

/-! Specification of out-of-fold probabilities. -/

namespace Mizar.Spec
variable {K : Type} [Field K] [LinearOrder K]

/-- The fold gives time `t` the probabilities `w`. -/
def Gives (fo : Pipe.Fold K) (t : ℤ) (w : List (XF K)) : Prop :=
  ∃ j : ℕ, fo.idx[j]? = some t ∧ fo.proba[j]? = some w

/-- A fold of the frame with `n` classes: a row of `n` probabilities for each of its times, which are times of the frame. -/
structure FoldOf (f : Frame K) (n : ℕ) (fo : Pipe.Fold K) : Prop where
  cols : fo.n = n
  times : ∀ t ∈ fo.idx, t ∈ f.index
  unique : fo.idx.Nodup
  rows : fo.proba.length = fo.idx.length
  width : ∀ w ∈ fo.proba, w.length = n

end Mizar.Spec
