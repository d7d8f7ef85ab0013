import Verif.Model.BagObject

/-! Specification vocabulary for the life of a bagging classifier. -/

namespace Mizar.Spec
open Mizar.Bag Mizar.Boot

/-- What a user sees of an object: the fitted attributes and the out-of-bag decision function. -/
structure Seen (Est : Type) where
  fitted : Fitted Est
  oob : Option (List (List (XF ℚ)))

def seen {Est : Type} (o : Obj Est) : Seen Est := ⟨o.fitted, o.oob⟩

/-- One call of `fit`: environment, configuration at the time of the call and arguments. -/
structure FitCall (Est : Type) where
  base : Base Est
  view : Est → List ℕ → OobEst
  stream : ℕ → ℕ
  cfg : Cfg
  args : Args

/-- A fit as a user thinks of it: no memory but the fitted attributes; the matrix `M` and the event starts are those of the
events the classifier was made for.  The out-of-bag result is renewed by every fit that asks for it and adds estimators. -/
def plainFit {Est : Type} (M : IndMat) (starts : List ℤ) (k : FitCall Est) (s : Seen Est) : Outcome × Seen Est :=
  let r := fit k.base k.stream k.cfg ⟨M, starts, k.args.xIndex, k.args.nFeatures, k.args.weights⟩ s.fitted
  match r.1 with
  | .error e => (.error e, ⟨r.2, s.oob⟩)
  | .ok () =>
    if k.cfg.oobScore then
      match oobDecision k.args.nClasses k.args.xIndex.length
          ((List.zipWith k.view (r.2.estimators.getD []) r.2.features).zip r.2.samples) with
      | .error e => (.error e, ⟨r.2, s.oob⟩)
      | .ok d => (.ok (), ⟨r.2, some d⟩)
    else (.ok (), ⟨r.2, s.oob⟩)

/-- Outcomes and what is seen after a sequence of fits, exceptions being caught by the caller. -/
def runPlain {Est : Type} (M : IndMat) (starts : List ℤ) (s : Seen Est) : List (FitCall Est) → List Outcome × Seen Est
  | [] => ([], s)
  | k :: ks =>
    let r := plainFit M starts k s
    let rest := runPlain M starts r.2 ks
    (r.1 :: rest.1, rest.2)

/-- The same with the object. -/
def runObj {Est : Type} (o : Obj Est) : List (FitCall Est) → List Outcome × Obj Est
  | [] => ([], o)
  | k :: ks =>
    let r := fitObj k.base k.view k.stream k.cfg k.args o
    let rest := runObj r.2 ks
    (r.1 :: rest.1, rest.2)

end Mizar.Spec
