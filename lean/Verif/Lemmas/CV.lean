import Mathlib.Data.List.Sublists
import Mathlib.Data.List.Nodup
import Mathlib.Tactic.Common
import Verif.Model.ModelSelection
import Verif.Spec.CV

/-! Lemmas about the cross-validation model. -/

namespace Mizar.CV
open Mizar.Spec

theorem pairwise_or {α : Type*} {R : α → α → Prop} {l : List α} (h : l.Pairwise R) {a b : α}
    (ha : a ∈ l) (hb : b ∈ l) (hne : a ≠ b) : R a b ∨ R b a := by
  induction l with
  | nil => simp at ha
  | cons x l ih =>
    rw [List.pairwise_cons] at h
    rcases List.mem_cons.1 ha with rfl | _
    · rcases List.mem_cons.1 hb with rfl | hb
      · exact absurd rfl hne
      · exact Or.inl (h.1 _ hb)
    · rename_i ha'
      rcases List.mem_cons.1 hb with rfl | hb'
      · exact Or.inr (h.1 _ ha')
      · exact ih h.2 ha' hb'

/-! ### array_split and fold bounds -/

/-- Consecutive half-open ranges of the given sizes starting at `a`. -/
def boundsFrom (a : ℕ) : List ℕ → List (ℕ × ℕ)
  | [] => []
  | s :: ss => (a, a + s) :: boundsFrom (a + s) ss

theorem boundsOf_range' (a s : ℕ) (h : 0 < s) :
    boundsOf (List.range' a s) = .ok (a, a + s) := by
  obtain ⟨s, rfl⟩ : ∃ m, s = m + 1 := ⟨s - 1, by omega⟩
  have h1 : (List.range' a (s + 1)).head? = some a := by simp [List.range'_succ]
  have h2 : (List.range' a (s + 1)).getLast? = some (a + s) := by
    simp [List.getLast?_range']
  simp only [boundsOf, h1, h2]
  rfl

theorem mapM_boundsOf_ok (ss : List ℕ) (a : ℕ) (h : ∀ s ∈ ss, 0 < s) :
    (splitSizes ss (List.range' a ss.sum)).mapM boundsOf = .ok (boundsFrom a ss) := by
  induction ss generalizing a with
  | nil => rfl
  | cons s ss ih =>
    have hs : 0 < s := h s (by simp)
    have ht : (List.range' a (s + ss.sum)).take s = List.range' a s := by
      exact List.take_range'_of_length_ge (by omega)
    have hd : (List.range' a (s + ss.sum)).drop s = List.range' (a + s) ss.sum := by
      rw [List.drop_range']; simp
    simp only [splitSizes, List.sum_cons, ht, hd, List.mapM_cons, boundsOf_range' a s hs,
      ih (a + s) (fun s hs => h s (by simp [hs])), boundsFrom]
    rfl

theorem mapM_boundsOf_error (ss : List ℕ) (a : ℕ) (h : 0 ∈ ss) :
    (splitSizes ss (List.range' a ss.sum)).mapM boundsOf = .error .indexError := by
  induction ss generalizing a with
  | nil => simp at h
  | cons s ss ih =>
    have ht : (List.range' a (s + ss.sum)).take s = List.range' a s := by
      exact List.take_range'_of_length_ge (by omega)
    have hd : (List.range' a (s + ss.sum)).drop s = List.range' (a + s) ss.sum := by
      rw [List.drop_range']; simp
    rcases Nat.eq_zero_or_pos s with rfl | hs
    · simp only [splitSizes, List.take_zero, List.mapM_cons]
      rfl
    · have h' : 0 ∈ ss := by
        rcases List.mem_cons.1 h with h | h
        · omega
        · exact h
      simp only [splitSizes, List.sum_cons, ht, hd, List.mapM_cons, boundsOf_range' a s hs, ih (a + s) h']
      rfl

/-- The sizes used by `array_split`. -/
def sizes (n g : ℕ) : List ℕ :=
  List.replicate (n % g) (n / g + 1) ++ List.replicate (g - n % g) (n / g)

theorem sizes_length (n g : ℕ) (hg : 0 < g) : (sizes n g).length = g := by
  have := Nat.mod_lt n hg
  simp [sizes]; omega

theorem sizes_sum (n g : ℕ) (hg : 0 < g) : (sizes n g).sum = n := by
  have h1 := Nat.mod_lt n hg
  have h2 := Nat.div_add_mod n g
  obtain ⟨r, hr⟩ : ∃ r, g = n % g + r := ⟨g - n % g, by omega⟩
  have h3 : g - n % g = r := by omega
  simp only [sizes, List.sum_append, List.sum_replicate_nat, h3]
  calc n % g * (n / g + 1) + r * (n / g) = (n % g + r) * (n / g) + n % g := by ring
    _ = g * (n / g) + n % g := by rw [← hr]
    _ = n := h2

theorem foldBounds_eq (n g : ℕ) (hg : 0 < g) (h : g ≤ n) :
    foldBounds n g = .ok (boundsFrom 0 (sizes n g)) := by
  have hs := sizes_sum n g hg
  have := mapM_boundsOf_ok (sizes n g) 0 (by
    intro s hs
    have : 0 < n / g := Nat.div_pos h hg
    simp only [sizes, List.mem_append, List.mem_replicate] at hs
    omega)
  rw [hs] at this
  simpa [foldBounds, arraySplit, List.range_eq_range', sizes] using this

theorem foldBounds_error (n g : ℕ) (h : n < g) : foldBounds n g = .error .indexError := by
  have hg : 0 < g := by omega
  have hs := sizes_sum n g hg
  have hn : n % g = n := Nat.mod_eq_of_lt h
  have := mapM_boundsOf_error (sizes n g) 0 (by
    simp only [sizes, List.mem_append, List.mem_replicate, Nat.div_eq_of_lt h, hn]
    exact Or.inr ⟨by omega, trivial⟩)
  rw [hs] at this
  simpa [foldBounds, arraySplit, List.range_eq_range', sizes] using this

theorem boundsFrom_length (a : ℕ) (ss : List ℕ) : (boundsFrom a ss).length = ss.length := by
  induction ss generalizing a with
  | nil => rfl
  | cons s ss ih => simp [boundsFrom, ih]

theorem mem_boundsFrom {a : ℕ} {ss : List ℕ} {b : ℕ × ℕ} (h : b ∈ boundsFrom a ss) :
    a ≤ b.1 ∧ b.2 ≤ a + ss.sum ∧ b.1 ≤ b.2 ∧ b.2 - b.1 ∈ ss := by
  induction ss generalizing a with
  | nil => simp [boundsFrom] at h
  | cons s ss ih =>
    rcases List.mem_cons.1 h with rfl | h
    · simp
    · have := ih h
      simp only [List.sum_cons, List.mem_cons]
      exact ⟨by omega, by omega, this.2.2.1, Or.inr this.2.2.2⟩

theorem boundsFrom_pairwise (a : ℕ) (ss : List ℕ) :
    (boundsFrom a ss).Pairwise (fun b c => b.2 ≤ c.1) := by
  induction ss generalizing a with
  | nil => simp [boundsFrom]
  | cons s ss ih =>
    refine List.pairwise_cons.2 ⟨fun c hc => ?_, ih _⟩
    exact (mem_boundsFrom hc).1

theorem boundsFrom_cover (a : ℕ) (ss : List ℕ) (x : ℕ) (h1 : a ≤ x) (h2 : x < a + ss.sum) :
    ∃ b ∈ boundsFrom a ss, InRange b x := by
  induction ss generalizing a with
  | nil => simp at h2; omega
  | cons s ss ih =>
    by_cases hx : x < a + s
    · exact ⟨(a, a + s), by simp [boundsFrom], h1, hx⟩
    · obtain ⟨b, hb, hr⟩ := ih (a + s) (by omega) (by simp at h2; omega)
      exact ⟨b, by simp [boundsFrom, hb], hr⟩

theorem boundsFrom_consecutive (a : ℕ) (ss : List ℕ) (j : ℕ) (b c : ℕ × ℕ)
    (hb : (boundsFrom a ss)[j]? = some b) (hc : (boundsFrom a ss)[j + 1]? = some c) : c.1 = b.2 := by
  induction ss generalizing a j with
  | nil => simp [boundsFrom] at hb
  | cons s ss ih =>
    cases j with
    | zero =>
      simp only [boundsFrom, List.getElem?_cons_zero, Option.some.injEq] at hb
      cases ss with
      | nil => simp [boundsFrom] at hc
      | cons s' ss =>
        simp [boundsFrom] at hc
        rw [← hb, ← hc]
    | succ j =>
      simp only [boundsFrom, List.getElem?_cons_succ] at hb hc
      exact ih _ _ hb hc

theorem boundsFrom_last (a : ℕ) (ss : List ℕ) (b : ℕ × ℕ) (h : (boundsFrom a ss).getLast? = some b) :
    b.2 = a + ss.sum := by
  induction ss generalizing a with
  | nil => simp [boundsFrom] at h
  | cons s ss ih =>
    cases ss with
    | nil => simp [boundsFrom] at h; simp [← h]
    | cons s' ss =>
      have h' : (boundsFrom (a + s) (s' :: ss)).getLast? = some b := by
        rw [← h]
        simp [boundsFrom, List.getLast?_cons_cons]
      have := ih _ h'
      simp only [List.sum_cons] at this ⊢
      omega

theorem balancedPartition_sizes (n g : ℕ) (hg : 0 < g) (h : g ≤ n) :
    BalancedPartition n (boundsFrom 0 (sizes n g)) := by
  have hsum := sizes_sum n g hg
  have hpos : 0 < n / g := Nat.div_pos h hg
  have hmem : ∀ s ∈ sizes n g, s = n / g ∨ s = n / g + 1 := by
    intro s hs
    simp only [sizes, List.mem_append, List.mem_replicate] at hs
    omega
  have hne : ∀ b ∈ boundsFrom 0 (sizes n g), b.1 < b.2 := by
    intro b hb
    have h1 := mem_boundsFrom hb
    have h2 := hmem _ h1.2.2.2
    omega
  refine ⟨hne, ?_, ?_, ?_, ?_, ?_, ?_⟩
  · intro b hb
    cases hs : sizes n g with
    | nil => rw [hs] at hb; simp [boundsFrom] at hb
    | cons s ss => rw [hs] at hb; simp [boundsFrom] at hb; rw [← hb]
  · intro b hb
    have := boundsFrom_last _ _ _ hb
    omega
  · exact boundsFrom_consecutive _ _
  · intro x hx
    obtain ⟨b, hb, hr⟩ := boundsFrom_cover 0 (sizes n g) x (by omega) (by omega)
    refine ⟨b, ⟨hb, hr⟩, ?_⟩
    rintro c ⟨hc, hcr⟩
    by_contra hne'
    have hp := boundsFrom_pairwise 0 (sizes n g)
    have := pairwise_or hp hb hc (Ne.symm hne')
    simp only [InRange] at hr hcr
    omega
  · intro b hb
    have := mem_boundsFrom hb
    omega
  · intro b hb c hc
    have h1 := hmem _ (mem_boundsFrom hb).2.2.2
    have h2 := hmem _ (mem_boundsFrom hc).2.2.2
    omega

end Mizar.CV
