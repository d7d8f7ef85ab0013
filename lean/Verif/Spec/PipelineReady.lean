import Verif.Model.Pipeline

/-!
Specification for C141: when a strategy pipeline has to answer.
-/

namespace Mizar.Spec
open Mizar Mizar.Pipe
variable {K : Type} [Field K] [LinearOrder K]

/-- A classifier that answers for every frame with rows and without missing values: one label for each row, one
probability for each row and class. -/
structure Answers (m : Clf K) : Prop where
  classes : m.classes ≠ []
  label : ∀ f : Frame K, f.rows ≠ [] → (∀ r ∈ f.rows, ∀ x ∈ r.2, x.isNan = false) →
    ∃ v, m.predict f = .ok v ∧ v.length = f.rows.length ∧ ∀ x ∈ v, x.isNan = false
  proba : ∀ f : Frame K, f.rows ≠ [] → (∀ r ∈ f.rows, ∀ x ∈ r.2, x.isNan = false) →
    ∃ v, m.proba f = .ok v ∧ v.length = f.rows.length ∧ ∀ p ∈ v, p.length = m.classes.length ∧ ∀ x ∈ p, x.isNan = false

/-- The data have the keys of the transformers, the frame to align on is one of the primary model, every transformer
gives a frame with rows, and every other key has an alignment method. -/
structure Ready (c : Cfg K) (X : Dict K) : Prop where
  keys : ∀ k : String, (∃ p ∈ c.trPrimary ++ c.trMeta, p.1 = k) ↔ ∃ p ∈ X, p.1 = k
  named : c.alignOn ≠ ""
  lead : ∃ p ∈ c.trPrimary, p.1 = c.alignOn
  frames : ∀ p ∈ c.trPrimary ++ c.trMeta, ∀ f, X.lookup p.1 = some f →
    match p.2 with
    | none => f.rows ≠ []
    | some tr => ∃ g, tr f = .ok g ∧ g.rows ≠ []
  methods : ∀ p ∈ c.trPrimary ++ c.trMeta, p.1 ≠ c.alignOn →
    ∃ how ∈ ["mean", "min", "max"], c.alignHow.lookup p.1 = some how

/-- Every frame has a row at time `t`, and no value of it is missing. -/
def FullAt (d : Dict K) (t : ℤ) : Prop :=
  ∀ p ∈ d, ∃ r, p.2.row? t = some r ∧ ∀ x ∈ r, x.isNan = false

/-- The pipeline is ready, its features are `F`, the models are fitted and answer, all frames reach the first bar of
the frame to align on, and at some time all features are there.  With predictions but without probabilities as
features, the metalabeling model may have rows only where the primary model has. -/
structure Live (c : Cfg K) (X : Dict K) (F : Features K) : Prop where
  ready : Ready c X
  feats : features c X = .ok F
  overlap : ∃ target, X.lookup c.alignOn = some target ∧ ∃ a, target.index.head? = some a ∧
    ∀ p ∈ X, ∃ b, p.2.index.getLast? = some b ∧ a ≤ b
  primary : Answers c.primary
  second : ∀ m, c.metaModel = some m → m.fitted = true ∧ Answers m ∧ c.trMeta ≠ [] ∧ (∀ p ∈ F.metal, p.2.cols ≠ []) ∧
    (c.usePredictions = true → c.useProba = false → ∀ t, FullAt F.metal t → FullAt F.primary t)
  time : ∃ t, FullAt F.primary t ∧ ∀ m, c.metaModel = some m → FullAt F.metal t

/-- Without a bet sizer the metalabeling model, if there is one, has the class 1; a bet sizer gives every row of a
non-empty frame a size. -/
def Sizes (c : Cfg K) : Prop :=
  match c.betSizer with
  | none => ∀ m, c.metaModel = some m → 1 ∈ m.classes
  | some bs => ∀ rows, rows ≠ [] → ∃ out, bs rows = .ok out ∧ (∀ q ∈ out, q.2.isNan = false) ∧
      ∀ r ∈ rows, ∃ q ∈ out, q.1 = r.time

/-- The time has a label that is not missing. -/
def HasLabel (y : Ser K) (t : ℤ) : Prop := ∃ l, (t, l) ∈ y ∧ l.isNan = false

/-- Labels fit the features: one label for each time, -1, 0, 1 or missing; a labelled time has a row in every frame of
the primary model, with no infinite value; one of these rows is complete; there is a column. -/
structure Labelled (F : Features K) (y : Ser K) : Prop where
  labels : ∀ r ∈ y, r.2 = .nan ∨ r.2 = .fin (-1) ∨ r.2 = .fin 0 ∨ r.2 = .fin 1
  unique : (y.map (·.1)).Nodup
  rows : ∀ r ∈ y, r.2.isNan = false → ∀ p ∈ F.primary, ∃ q, p.2.row? r.1 = some q ∧ ∀ x ∈ q, x = .nan ∨ ∃ a, x = .fin a
  columns : ∃ p ∈ F.primary, p.2.cols ≠ []
  time : ∃ r ∈ y, r.2.isNan = false ∧ FullAt F.primary r.1

end Mizar.Spec
