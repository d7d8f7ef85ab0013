import Mathlib.Data.List.Sort
import Mathlib.Order.Basic

/-!
Python-level primitives shared by the models: exceptions as values and the NumPy set
operations on one-dimensional arrays (`np.unique`, `np.union1d`, `np.intersect1d`,
`np.setdiff1d`) together with Python's `sorted(set(...))`.

Where the code calls them: `/repo/mizarlabs/model/model_selection.py` lines 213, 248, 297, 329, 333;
`/repo/mizarlabs/model/bootstrapping.py` lines 46-54, 174, 176; `/repo/mizarlabs/model/pipeline.py` lines 307, 619, 666.
-/

namespace Mizar

/-- The Python exceptions that the modelled code can raise.  Messages are not modelled. -/
inductive PyErr
  | valueError | indexError | keyError | assertionError | typeError
  | zeroDivisionError | overflowError | attributeError | linAlgError | notImplementedError
  deriving DecidableEq, Repr

/-- Results of code that may raise. -/
abbrev Py (α : Type*) := Except PyErr α

/-- Insert into a strictly increasing list, keeping it strictly increasing and without duplicates. -/
def insUniq {α : Type*} [LinearOrder α] (a : α) : List α → List α
  | [] => [a]
  | b :: l => if a < b then a :: b :: l else if a = b then b :: l else b :: insUniq a l

/-- `np.unique(l)` and Python's `sorted(set(l))`: the strictly increasing list of the elements. -/
def npUnique {α : Type*} [LinearOrder α] (l : List α) : List α := l.foldr insUniq []

/-- `np.union1d(a, b)`. -/
def npUnion1d {α : Type*} [LinearOrder α] (a b : List α) : List α := npUnique (a ++ b)

/-- `np.intersect1d(a, b)` (default `assume_unique=False`). -/
def npIntersect1d {α : Type*} [LinearOrder α] (a b : List α) : List α :=
  npUnique (a.filter (fun x => decide (x ∈ b)))

/-- `np.setdiff1d(a, b)` (default `assume_unique=False`). -/
def npSetdiff1d {α : Type*} [LinearOrder α] (a b : List α) : List α :=
  (npUnique a).filter (fun x => decide (x ∉ b))

section
variable {α : Type*} [LinearOrder α]

theorem mem_insUniq (a x : α) (l : List α) : x ∈ insUniq a l ↔ x = a ∨ x ∈ l := by
  induction l with
  | nil => simp [insUniq]
  | cons b l ih =>
    unfold insUniq
    split
    · simp
    · split
      · rename_i h; subst h; simp
      · simp [ih]; tauto

theorem mem_npUnique {x : α} {l : List α} : x ∈ npUnique l ↔ x ∈ l := by
  unfold npUnique
  induction l with
  | nil => simp
  | cons b l ih => simp [mem_insUniq, ih]

theorem pairwise_insUniq (a : α) (l : List α) (h : l.Pairwise (· < ·)) :
    (insUniq a l).Pairwise (· < ·) := by
  induction l with
  | nil => simp [insUniq]
  | cons b l ih =>
    rw [List.pairwise_cons] at h
    unfold insUniq
    split
    · rename_i hab
      refine List.pairwise_cons.2 ⟨?_, List.pairwise_cons.2 h⟩
      intro y hy
      rcases List.mem_cons.1 hy with rfl | hy
      · exact hab
      · exact hab.trans (h.1 y hy)
    · split
      · exact List.pairwise_cons.2 h
      · rename_i h1 h2
        refine List.pairwise_cons.2 ⟨?_, ih h.2⟩
        intro y hy
        rcases (mem_insUniq a y l).1 hy with rfl | hy
        · exact lt_of_le_of_ne (not_lt.1 h1) (Ne.symm h2)
        · exact h.1 y hy

theorem pairwise_npUnique (l : List α) : (npUnique l).Pairwise (· < ·) := by
  unfold npUnique
  induction l with
  | nil => simp
  | cons b l ih => exact pairwise_insUniq _ _ ih

theorem nodup_npUnique (l : List α) : (npUnique l).Nodup :=
  (pairwise_npUnique l).imp (fun h => ne_of_lt h)

/-- Two strictly increasing lists with the same elements are equal. -/
theorem eq_of_mem_iff_of_pairwise_lt {l₁ l₂ : List α} (h₁ : l₁.Pairwise (· < ·))
    (h₂ : l₂.Pairwise (· < ·)) (h : ∀ x, x ∈ l₁ ↔ x ∈ l₂) : l₁ = l₂ := by
  have p : l₁.Perm l₂ :=
    (List.perm_ext_iff_of_nodup (h₁.imp fun h => ne_of_lt h) (h₂.imp fun h => ne_of_lt h)).2 h
  exact p.eq_of_pairwise (fun a b _ _ hab hba => absurd hab (not_lt_of_gt hba)) h₁ h₂

theorem npUnique_eq_self {l : List α} (h : l.Pairwise (· < ·)) : npUnique l = l :=
  eq_of_mem_iff_of_pairwise_lt (pairwise_npUnique l) h (fun _ => mem_npUnique)

theorem mem_npUnion1d {x : α} {a b : List α} : x ∈ npUnion1d a b ↔ x ∈ a ∨ x ∈ b := by
  simp [npUnion1d, mem_npUnique]

theorem mem_npIntersect1d {x : α} {a b : List α} : x ∈ npIntersect1d a b ↔ x ∈ a ∧ x ∈ b := by
  simp [npIntersect1d, mem_npUnique]

theorem mem_npSetdiff1d {x : α} {a b : List α} : x ∈ npSetdiff1d a b ↔ x ∈ a ∧ x ∉ b := by
  simp [npSetdiff1d, mem_npUnique]

theorem pairwise_npUnion1d (a b : List α) : (npUnion1d a b).Pairwise (· < ·) :=
  pairwise_npUnique _

theorem pairwise_npIntersect1d (a b : List α) : (npIntersect1d a b).Pairwise (· < ·) :=
  pairwise_npUnique _

theorem pairwise_npSetdiff1d (a b : List α) : (npSetdiff1d a b).Pairwise (· < ·) :=
  (pairwise_npUnique a).filter _

end

end Mizar
