import Mathlib.Algebra.BigOperators.Group.Finset.Basic
import Verif.Model.ArrivalJoin

/-!
Helper lemmas on joining series by time (`/repo/mizarlabs/transformers/technical/rsi.py` lines 68-73).
-/

namespace Mizar.Tech

/-- The values at a time. -/
def valsAt {α : Type} (s : List (ℤ × α)) (t : ℤ) : List α := (s.filter (·.1 == t)).map (·.2)

/-- `[false]` for nothing. -/
def orFalse (l : List Bool) : List Bool := if l = [] then [false] else l

/-- All conjunctions. -/
def andAll (l r : List Bool) : List Bool := l.flatMap fun a => (orFalse r).map fun b => a && b

theorem rowsAt_getD (s : List (ℤ × Bool)) (t : ℤ) : (rowsAt s t).map (fun o => o.getD false) = orFalse (valsAt s t) := by
  unfold rowsAt orFalse valsAt
  by_cases h : s.filter (·.1 == t) = []
  · simp [h]
  · rw [if_neg h, if_neg (by simpa using h), List.map_map]
    rfl

theorem npUnique_congr {a b : List ℤ} (h : ∀ x, x ∈ a ↔ x ∈ b) : npUnique a = npUnique b := by
  apply List.Perm.eq_of_pairwise (le := (· < ·)) (fun x y _ _ h1 h2 => absurd (lt_trans h1 h2) (lt_irrefl _))
    (pairwise_npUnique a) (pairwise_npUnique b)
  rw [List.perm_ext_iff_of_nodup (nodup_npUnique a) (nodup_npUnique b)]
  intro x
  rw [mem_npUnique, mem_npUnique, h]

theorem valsAt_eq_nil {α : Type} (s : List (ℤ × α)) (t : ℤ) : valsAt s t = [] ↔ t ∉ s.map (·.1) := by
  unfold valsAt
  simp only [List.map_eq_nil_iff, List.filter_eq_nil_iff, beq_iff_eq, List.mem_map, not_exists, not_and]

theorem valsAt_blocks {α : Type} (keys : List ℤ) (hk : keys.Nodup) (g : ℤ → List α) (t : ℤ) (ht : t ∈ keys) :
    valsAt (keys.flatMap fun t => (g t).map fun x => (t, x)) t = g t := by
  unfold valsAt
  induction keys with
  | nil => simp at ht
  | cons k keys ih =>
    rw [List.flatMap_cons, List.filter_append, List.map_append]
    have hk' := List.nodup_cons.1 hk
    have hne : ∀ s : ℤ, s ≠ t → ((g s).map fun x => (s, x)).filter (·.1 == t) = [] := by
      intro s hs
      simp [List.filter_eq_nil_iff, hs]
    rcases List.mem_cons.1 ht with rfl | h1
    · have h2 : (keys.flatMap fun t => (g t).map fun x => (t, x)).filter (·.1 == t) = [] := by
        rw [List.filter_eq_nil_iff]
        intro x hx
        obtain ⟨s, hs, hx⟩ := List.mem_flatMap.1 hx
        obtain ⟨y, _, rfl⟩ := List.mem_map.1 hx
        simp only [beq_iff_eq]
        rintro rfl
        exact hk'.1 hs
      rw [h2, List.map_nil, List.append_nil, List.filter_eq_self.2 (by simp), List.map_map]
      simp [Function.comp_def]
    · rw [hne k (fun h => hk'.1 (h ▸ h1)), List.map_nil, List.nil_append]
      exact ih hk'.2 h1

theorem andSeries_blocks (l r : List (ℤ × Bool)) (hne : l.map (·.1) ≠ r.map (·.1)) (hsub : ∀ t ∈ r.map (·.1), t ∈ l.map (·.1)) :
    andSeries l r = (npUnique (l.map (·.1))).flatMap fun t => (andAll (valsAt l t) (valsAt r t)).map fun x => (t, x) := by
  unfold andSeries alignOuter
  rw [if_neg hne, List.map_flatMap]
  have hkeys : npUnion1d (l.map (·.1)) (r.map (·.1)) = npUnique (l.map (·.1)) := by
    unfold npUnion1d
    apply npUnique_congr
    intro x
    rw [List.mem_append]
    exact ⟨fun h => h.elim id (hsub x), Or.inl⟩
  rw [hkeys]
  refine List.flatMap_congr fun t ht => ?_
  rw [mem_npUnique] at ht
  unfold andAll
  rw [← rowsAt_getD r]
  have h1 : rowsAt l t = (valsAt l t).map some := by
    unfold rowsAt valsAt
    rw [if_neg, List.map_map]
    · rfl
    · intro h
      have : valsAt l t = [] := by unfold valsAt; rw [h]; rfl
      exact (valsAt_eq_nil l t).1 this ht
  rw [h1, List.map_flatMap, List.flatMap_map, List.map_flatMap]
  simp only [List.map_map, Function.comp_def, Option.getD_some]

theorem andSeries_keys (l r : List (ℤ × Bool)) (hne : l.map (·.1) ≠ r.map (·.1)) (hsub : ∀ t ∈ r.map (·.1), t ∈ l.map (·.1)) (t : ℤ) :
    t ∈ (andSeries l r).map (·.1) ↔ t ∈ l.map (·.1) := by
  rw [andSeries_blocks l r hne hsub]
  constructor
  · intro h
    obtain ⟨x, hx, rfl⟩ := List.mem_map.1 h
    obtain ⟨s, hs, hx⟩ := List.mem_flatMap.1 hx
    obtain ⟨y, _, rfl⟩ := List.mem_map.1 hx
    exact mem_npUnique.1 hs
  · intro h
    have h1 : valsAt l t ≠ [] := fun h2 => (valsAt_eq_nil l t).1 h2 h
    obtain ⟨a, ha⟩ := List.exists_mem_of_ne_nil _ h1
    have h2 : orFalse (valsAt r t) ≠ [] := by unfold orFalse; split <;> simp [*]
    obtain ⟨b, hb⟩ := List.exists_mem_of_ne_nil _ h2
    refine List.mem_map.2 ⟨(t, a && b), List.mem_flatMap.2 ⟨t, mem_npUnique.2 h, ?_⟩, rfl⟩
    exact List.mem_map.2 ⟨_, List.mem_flatMap.2 ⟨a, ha, List.mem_map.2 ⟨b, hb, rfl⟩⟩, rfl⟩

theorem length_orFalse (l : List Bool) : (orFalse l).length = max 1 l.length := by
  unfold orFalse
  split
  · rename_i h; simp [h]
  · rename_i h
    have := List.length_pos_of_ne_nil h
    omega

theorem length_andAll (l r : List Bool) : (andAll l r).length = l.length * max 1 r.length := by
  unfold andAll
  simp [List.length_flatMap, length_orFalse]

theorem true_mem_andAll (l r : List Bool) : true ∈ andAll l r ↔ true ∈ l ∧ true ∈ r := by
  unfold andAll orFalse
  simp only [List.mem_flatMap, List.mem_map, Bool.and_eq_true]
  constructor
  · rintro ⟨a, ha, b, hb, rfl, rfl⟩
    refine ⟨ha, ?_⟩
    split at hb
    · simp at hb
    · exact hb
  · rintro ⟨h1, h2⟩
    refine ⟨true, h1, true, ?_, rfl, rfl⟩
    rw [if_neg (List.ne_nil_of_mem h2)]
    exact h2

end Mizar.Tech
