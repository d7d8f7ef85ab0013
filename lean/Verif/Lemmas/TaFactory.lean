import Verif.Model.TaFactory
import Verif.Spec.TaFactory

/-! Helper lemmas for C64 and C65. -/

set_option linter.unusedSectionVars false

namespace Mizar.TA
open Mizar.Spec

theorem beforeLast_append (l : List Char) : beforeLast (l ++ [')']) = some l := by
  induction l with
  | nil => rfl
  | cons c l ih => simp [beforeLast, ih]

theorem takeWhile_nl (l : List Char) (h : ∀ c ∈ l, c ≠ '\n') (rest : List Char) (hr : rest = [] ∨ ∃ t, rest = '\n' :: t) :
    (l ++ rest).takeWhile (fun c => decide (c ≠ '\n')) = l := by
  rw [List.takeWhile_append_of_pos (by simpa using h)]
  rcases hr with rfl | ⟨t, rfl⟩ <;> simp

theorem searchParen_of (name sig rest : List Char) (hn : ∀ c ∈ name, c ≠ '(') (hs : sig ≠ []) (hnl : ∀ c ∈ sig, c ≠ '\n')
    (hr : rest = [] ∨ ∃ t, rest = '\n' :: t) : searchParen (name ++ '(' :: (sig ++ ')' :: rest)) = some sig := by
  induction name with
  | nil =>
    have : sig ++ ')' :: rest = (sig ++ [')']) ++ rest := by simp
    rw [List.nil_append, searchParen, if_pos rfl]
    unfold matchParen
    rw [this, takeWhile_nl _ (by
      intro c hc
      rw [List.mem_append] at hc
      rcases hc with hc | hc
      · exact hnl c hc
      · simp at hc; subst hc; decide) rest hr, beforeLast_append]
    cases sig with
    | nil => exact absurd rfl hs
    | cons c r => rfl
  | cons c l ih =>
    rw [List.cons_append, searchParen, if_neg (hn c (by simp))]
    exact ih fun c hc => hn c (by simp [hc])

theorem searchParen_none (l : List Char) (h : '(' ∉ l) : searchParen l = none := by
  induction l with
  | nil => rfl
  | cons c l ih =>
    simp only [List.mem_cons, not_or] at h
    rw [searchParen, if_neg (fun e => h.1 e.symm), ih h.2]

theorem splitGo_skip (sep : List Char) (k : ℕ) (acc s l : List Char) (h : s.length = k) :
    splitGo sep k acc (s ++ l) = splitGo sep 0 acc l := by
  induction k generalizing s with
  | zero => rw [List.length_eq_zero_iff.1 h]; rfl
  | succ k ih =>
    cases s with
    | nil => simp at h
    | cons c s => rw [List.cons_append, splitGo]; exact ih s (by simpa using h)

theorem splitGo_last (c0 : Char) (s acc a : List Char) (h : c0 ∉ a) : splitGo (c0 :: s) 0 acc a = [acc.reverse ++ a] := by
  induction a generalizing acc with
  | nil => simp [splitGo]
  | cons c a ih =>
    simp only [List.mem_cons, not_or] at h
    rw [splitGo, if_neg, ih _ h.2]
    · simp
    · simp only [List.isPrefixOf, Bool.and_eq_true, beq_iff_eq, not_and]
      intro e; exact absurd e h.1

theorem splitGo_piece (c0 : Char) (s acc a rest : List Char) (h : c0 ∉ a) :
    splitGo (c0 :: s) 0 acc (a ++ ((c0 :: s) ++ rest)) = (acc.reverse ++ a) :: splitGo (c0 :: s) 0 [] rest := by
  induction a generalizing acc with
  | nil =>
    rw [List.nil_append, List.cons_append, splitGo, if_pos]
    · rw [splitGo_skip _ _ _ s rest (by simp)]; simp
    · rw [List.isPrefixOf_iff_prefix]; exact ⟨rest, by simp⟩
  | cons c a ih =>
    simp only [List.mem_cons, not_or] at h
    rw [List.cons_append, splitGo, if_neg, ih _ h.2]
    · simp
    · simp only [List.isPrefixOf, Bool.and_eq_true, beq_iff_eq, not_and]
      intro e; exact absurd e h.1

theorem intercalate_cons_cons (sep x y : List Char) (l : List (List Char)) :
    sep.intercalate (x :: y :: l) = x ++ (sep ++ sep.intercalate (y :: l)) := by
  simp [List.intercalate]

theorem intercalate_one (sep x : List Char) : sep.intercalate [x] = x := by simp [List.intercalate]

theorem pySplit_intercalate (c0 : Char) (s : List Char) (l : List (List Char)) (hne : l ≠ []) (h : ∀ x ∈ l, c0 ∉ x) :
    pySplit (c0 :: s) ((c0 :: s).intercalate l) = l := by
  unfold pySplit
  induction l with
  | nil => exact absurd rfl hne
  | cons x l ih =>
    cases l with
    | nil => rw [intercalate_one, splitGo_last _ _ _ _ (h x (by simp))]; simp
    | cons y l =>
      rw [intercalate_cons_cons, splitGo_piece _ _ _ _ _ (h x (by simp)), ih (by simp) (fun z hz => h z (by simp [hz]))]
      simp

theorem intercalate_first (sep : List Char) (l : List (List Char)) (hne : l ≠ []) : ∃ x ∈ l, ∃ p, sep.intercalate l = x ++ p := by
  cases l with
  | nil => exact absurd rfl hne
  | cons x l =>
    cases l with
    | nil => exact ⟨x, by simp, [], by simp [intercalate_one]⟩
    | cons y l => exact ⟨x, by simp, _, intercalate_cons_cons _ _ _ _⟩

theorem intercalate_last (sep : List Char) (l : List (List Char)) (hne : l ≠ []) : ∃ x ∈ l, ∃ p, sep.intercalate l = p ++ x := by
  induction l with
  | nil => exact absurd rfl hne
  | cons x l ih =>
    cases l with
    | nil => exact ⟨x, by simp, [], by simp [intercalate_one]⟩
    | cons y l =>
      obtain ⟨z, hz, p, hp⟩ := ih (by simp)
      exact ⟨z, by simp at hz ⊢; tauto, x ++ (sep ++ p), by rw [intercalate_cons_cons, hp]; simp⟩

theorem mem_intercalate (sep : List Char) (l : List (List Char)) (c : Char) (h : c ∈ sep.intercalate l) :
    c ∈ sep ∨ ∃ x ∈ l, c ∈ x := by
  induction l with
  | nil => simp [List.intercalate] at h
  | cons x l ih =>
    cases l with
    | nil => rw [intercalate_one] at h; exact Or.inr ⟨x, by simp, h⟩
    | cons y l =>
      rw [intercalate_cons_cons, List.mem_append, List.mem_append] at h
      rcases h with h | h | h
      · exact Or.inr ⟨x, by simp, h⟩
      · exact Or.inl h
      · rcases ih h with h | ⟨z, hz, hc⟩
        · exact Or.inl h
        · exact Or.inr ⟨z, by simp at hz ⊢; tauto, hc⟩

theorem dropWhile_head (p : Char → Bool) (c : Char) (l : List Char) (h : p c = false) : (c :: l).dropWhile p = c :: l := by
  simp [h]

theorem pyStrip_of (chars b t : List Char) (x y p q : List Char) (hx : x ≠ []) (hy : y ≠ []) (h1 : b = x ++ p) (h2 : b = q ++ y)
    (hxc : ∀ c ∈ x, c ∉ chars) (hyc : ∀ c ∈ y, c ∉ chars) (ht : ∀ c ∈ t, c ∈ chars) : pyStrip chars (b ++ t) = b := by
  unfold pyStrip
  have e1 : (b ++ t).dropWhile (fun c => decide (c ∈ chars)) = b ++ t := by
    rw [h1]
    cases x with
    | nil => exact absurd rfl hx
    | cons c x => exact dropWhile_head _ _ _ (by simpa using hxc c (by simp))
  rw [e1, List.reverse_append, List.dropWhile_append_of_pos (by simpa using ht), h2, List.reverse_append]
  have hyr : y.reverse ≠ [] := by simpa using hy
  have hyc' : ∀ c ∈ y.reverse, c ∉ chars := by simpa using hyc
  cases hr : y.reverse with
  | nil => exact absurd hr hyr
  | cons c r =>
    rw [List.cons_append, dropWhile_head _ _ _ (by rw [hr] at hyc'; simpa using hyc' c (by simp)), ← List.cons_append, ← hr]
    simp

theorem intercalate_kw (l : List (List Char)) (hne : l ≠ []) :
    [',', ' '].intercalate (l.map fun k => k ++ ['=', '?']) = ['=', '?', ',', ' '].intercalate l ++ ['=', '?'] := by
  induction l with
  | nil => exact absurd rfl hne
  | cons x l ih =>
    cases l with
    | nil => simp [intercalate_one]
    | cons y l =>
      have := ih (by simp)
      rw [List.map_cons] at this
      rw [List.map_cons, List.map_cons, intercalate_cons_cons, this, intercalate_cons_cons]
      simp

theorem map_ofList_toList (l : List String) : (l.map String.toList).map String.ofList = l := by
  rw [List.map_map]
  conv_rhs => rw [← List.map_id l]
  apply List.map_congr_left
  intro s _
  simp

theorem lookup_some {m : List (String × String)} {a b : String} (h : lookup m a = some b) : (a, b) ∈ m := by
  unfold lookup at h
  cases hf : m.find? fun p => decide (p.1 = a) with
  | none => rw [hf] at h; simp at h
  | some p =>
    rw [hf] at h
    have h1 := List.mem_of_find?_eq_some hf
    have h2 := List.find?_some hf
    simp only [Option.map_some, Option.some.injEq, decide_eq_true_eq] at h h2
    obtain ⟨x, y⟩ := p
    simp only at h h2
    rw [← h2, ← h]; exact h1

theorem lookup_none {m : List (String × String)} {a : String} (h : lookup m a = none) : ∀ c, (a, c) ∉ m := by
  unfold lookup at h
  rw [Option.map_eq_none_iff, List.find?_eq_none] at h
  intro c hc
  exact h _ hc (by simp)

theorem renames_lookup (m : List (String × String)) (a : String) : Renames m a ((lookup m a).getD a) := by
  cases h : lookup m a with
  | none => exact Or.inr ⟨rfl, lookup_none h⟩
  | some b => exact Or.inl (lookup_some h)

/-- For a dictionary the new name is determined. -/
theorem renames_unique {m : List (String × String)} (hm : (m.map (·.1)).Nodup) {a b c : String} (h1 : Renames m a b)
    (h2 : Renames m a c) : b = c := by
  have key : ∀ x y, (a, x) ∈ m → (a, y) ∈ m → x = y := by
    clear h1 h2
    induction m with
    | nil => intro x y h; simp at h
    | cons p m ih =>
      rw [List.map_cons, List.nodup_cons] at hm
      intro x y hx hy
      rw [List.mem_cons] at hx hy
      rcases hx with hx | hx <;> rcases hy with hy | hy
      · rw [← hx] at hy; simpa using hy.symm
      · exact absurd (List.mem_map.2 ⟨_, hy, by rw [← hx]⟩) hm.1
      · exact absurd (List.mem_map.2 ⟨_, hx, by rw [← hy]⟩) hm.1
      · exact ih hm.2 x y hx hy
  rcases h1 with h1 | ⟨h1, h1'⟩ <;> rcases h2 with h2 | ⟨h2, h2'⟩
  · exact key _ _ h1 h2
  · exact absurd h1 (h2' _)
  · exact absurd h2 (h1' _)
  · rw [h1, h2]

theorem replaceFirst_map (name col : String) (l : List String) (h : l.Nodup) :
    replaceFirst name col l = l.map fun a => if a = name then col else a := by
  induction l with
  | nil => rfl
  | cons a l ih =>
    rw [List.nodup_cons] at h
    unfold replaceFirst
    rw [List.map_cons]
    split
    · rename_i e
      subst e
      congr 1
      conv_lhs => rw [← List.map_id l]
      apply List.map_congr_left
      intro b hb
      rw [if_neg]
      · rfl
      · rintro rfl; exact h.1 hb
    · rw [ih h.2]

/-- Two replacements in a row are the simultaneous one if the first column does not have the second name. -/
theorem replaceFirst_two (n0 n1 c0 c1 : String) (hn : n0 ≠ n1) (hc : c0 ≠ n1) (l : List String) (h : l.Nodup) :
    replaceFirst n1 c1 (replaceFirst n0 c0 l) = l.map fun a => if a = n0 then c0 else if a = n1 then c1 else a := by
  induction l with
  | nil => rfl
  | cons a l ih =>
    rw [List.nodup_cons] at h
    by_cases h0 : a = n0
    · subst h0
      rw [replaceFirst, if_pos rfl, replaceFirst, if_neg hc, replaceFirst_map _ _ _ h.2, List.map_cons, if_pos rfl]
      congr 1
      apply List.map_congr_left
      intro b hb
      have : b ≠ a := by rintro rfl; exact h.1 hb
      rw [if_neg this]
    · rw [replaceFirst, if_neg h0, List.map_cons, if_neg h0]
      by_cases h1 : a = n1
      · subst h1
        rw [replaceFirst, if_pos rfl, if_pos rfl, replaceFirst_map _ _ _ h.2]
        congr 1
        apply List.map_congr_left
        intro b hb
        have : b ≠ a := by rintro rfl; exact h.1 hb
        rw [if_neg this]
      · rw [replaceFirst, if_neg h1, if_neg h1, ih h.2]

end Mizar.TA
