import Mathlib.Data.List.Basic
import Verif.Py.Basic

/-! Evaluation of a Python loop / comprehension whose body may raise. -/

namespace Mizar

/-- `[f(x) for x in l]` where `f` may raise: the first exception wins. -/
def mapE {α β : Type*} (f : α → Py β) : List α → Py (List β)
  | [] => .ok []
  | a :: l =>
    match f a with
    | .error e => .error e
    | .ok b =>
      match mapE f l with
      | .error e => .error e
      | .ok bs => .ok (b :: bs)

/-- `l[i]` for a non-negative index. -/
def getE {α : Type*} (l : List α) (i : ℕ) : Py α :=
  match l[i]? with
  | none => .error .indexError
  | some a => .ok a

section
variable {α β γ : Type*}

@[simp] theorem mapE_nil (f : α → Py β) : mapE f [] = .ok [] := rfl

theorem mapE_append (f : α → Py β) (l m : List α) :
    mapE f (l ++ m) = match mapE f l with
      | .error e => .error e
      | .ok bs => match mapE f m with
        | .error e => .error e
        | .ok cs => .ok (bs ++ cs) := by
  induction l with
  | nil => simp; cases mapE f m <;> rfl
  | cons a l ih =>
    simp only [List.cons_append, mapE, ih]
    cases f a with
    | error e => rfl
    | ok b =>
      cases mapE f l with
      | error e => rfl
      | ok bs => cases mapE f m <;> rfl

theorem mapE_eq_ok_iff (f : α → Py β) (l : List α) (r : List β) :
    mapE f l = .ok r ↔ List.Forall₂ (fun a b => f a = .ok b) l r := by
  induction l generalizing r with
  | nil =>
    simp only [mapE]
    constructor
    · intro h; cases h; exact .nil
    · intro h; cases h; rfl
  | cons a l ih =>
    simp only [mapE]
    constructor
    · intro h
      cases hf : f a with
      | error e => rw [hf] at h; cases h
      | ok b =>
        rw [hf] at h
        cases hm : mapE f l with
        | error e => rw [hm] at h; cases h
        | ok bs => rw [hm] at h; cases h; exact .cons hf ((ih bs).1 hm)
    · intro h
      cases h with
      | cons h1 h2 => rw [h1, (ih _).2 h2]

theorem mapE_congr {f g : α → Py β} {l : List α} (h : ∀ a ∈ l, f a = g a) : mapE f l = mapE g l := by
  induction l with
  | nil => rfl
  | cons a l ih =>
    simp only [mapE]
    rw [h a List.mem_cons_self, ih fun b hb => h b (List.mem_cons_of_mem _ hb)]

theorem mapE_map (f : β → Py γ) (g : α → β) (l : List α) : mapE f (l.map g) = mapE (fun a => f (g a)) l := by
  induction l with
  | nil => rfl
  | cons a l ih => simp only [List.map_cons, mapE, ih]

/-- Chained results of consecutive chunks equal one pass over the concatenation. -/
theorem mapE_flatten (f : α → Py β) (ls : List (List α)) :
    (mapE (mapE f) ls).map List.flatten = mapE f ls.flatten := by
  induction ls with
  | nil => rfl
  | cons l ls ih =>
    rw [List.flatten_cons, mapE_append, ← ih]
    simp only [mapE]
    cases mapE f l with
    | error e => rfl
    | ok r =>
      cases mapE (mapE f) ls with
      | error e => rfl
      | ok rs => simp [Except.map]

theorem mapE_ok_of_forall (f : α → Py β) (g : α → β) (l : List α) (h : ∀ a ∈ l, f a = .ok (g a)) :
    mapE f l = .ok (l.map g) := by
  rw [mapE_eq_ok_iff]
  rw [List.forall₂_map_right_iff]
  exact List.forall₂_same.2 h

theorem mapE_length {f : α → Py β} {l : List α} {r : List β} (h : mapE f l = .ok r) :
    r.length = l.length := ((mapE_eq_ok_iff f l r).1 h).length_eq.symm

theorem mapE_getElem {f : α → Py β} {l : List α} {r : List β} (h : mapE f l = .ok r) (i : ℕ)
    (hi : i < l.length) : ∃ hr : i < r.length, f l[i] = .ok r[i] := by
  have hr : i < r.length := by rw [mapE_length h]; exact hi
  refine ⟨hr, ?_⟩
  have := (mapE_eq_ok_iff f l r).1 h
  exact (List.forall₂_iff_get.1 this).2 i hi hr

theorem mapE_range_getE (f : α → Py β) (l : List α) :
    mapE (fun i => (getE l i).bind f) (List.range l.length) = mapE f l := by
  have h : l = (List.range l.length).attach.map (fun i => l[i.1]'(List.mem_range.1 i.2)) := by
    apply List.ext_getElem
    · simp
    · intro i h1 h2; simp
  have h2 : mapE f l = mapE f ((List.range l.length).attach.map
      (fun i => l[i.1]'(List.mem_range.1 i.2))) := by rw [← h]
  rw [h2, mapE_map]
  conv_lhs => rw [← List.attach_map_subtype_val (List.range l.length), mapE_map]
  apply mapE_congr
  intro i _
  rw [getE, List.getElem?_eq_getElem (List.mem_range.1 i.2)]
  rfl

end
end Mizar
