import Verif.Model.Parallel
import Verif.Py.MapE
import Mathlib.Algebra.Order.BigOperators.Group.Finset

/-! Lemmas for C80: executions of a parallel loop. -/

namespace Mizar.Par
variable {V : Type}

/-- The entry of an array after the writes of one iteration. -/
def wrote (a : Loc) (ws : List (Loc × V)) (v : V) : V := ws.foldl (fun v w => if w.1 = a then w.2 else v) v

/-- Number of actions left. -/
def left (n : ℕ) (c : Config V) : ℕ := ∑ i ∈ Finset.range n, (c.pool i).length

theorem left_update (n : ℕ) (c : Config V) (i : ℕ) (hi : i < n) (l : List (Act V)) (hl : l.length < (c.pool i).length) (mem : Loc → V)
    (r : List PyErr) : left n { pool := Function.update c.pool i l, mem := mem, raised := r } < left n c := by
  unfold left
  apply Finset.sum_lt_sum
  · intro j _
    by_cases h : j = i
    · subst h; simp [hl.le]
    · simp [Function.update_of_ne h]
  · exact ⟨i, Finset.mem_range.2 hi, by simpa using hl⟩

theorem step_left {n : ℕ} {c d : Config V} (h : Step n c d) : left n d < left n c := by
  cases h with
  | write i hi a v rest h => exact left_update n c i hi rest (by rw [h]; simp) _ _
  | raise i hi e rest h => exact left_update n c i hi [] (by rw [h]; simp) _ _
  | abandon i hi h hr => exact left_update n c i hi [] (List.length_pos_iff.2 h) _ _

theorem exists_step {n : ℕ} {c : Config V} (h : ¬ Final n c) : ∃ d, Step n c d := by
  unfold Final at h
  push Not at h
  obtain ⟨i, hi, hne⟩ := h
  cases hp : c.pool i with
  | nil => exact absurd hp hne
  | cons x rest =>
    cases x with
    | write a v => exact ⟨_, Step.write c i hi a v rest hp⟩
    | raise e => exact ⟨_, Step.raise c i hi e rest hp⟩

theorem Run.trans {n : ℕ} {c d e : Config V} (h1 : Run n c d) (h2 : Run n d e) : Run n c e := by
  induction h2 with
  | refl => exact h1
  | step _ s ih => exact Run.step ih s

theorem exists_final (n : ℕ) (c : Config V) : ∃ d, Run n c d ∧ Final n d := by
  induction hk : left n c using Nat.strong_induction_on generalizing c with
  | _ k ih =>
    by_cases h : Final n c
    · exact ⟨c, Run.refl c, h⟩
    · obtain ⟨d, hd⟩ := exists_step h
      obtain ⟨e, he, hf⟩ := ih (left n d) (by rw [← hk]; exact step_left hd) d rfl
      exact ⟨e, Run.trans (Run.step (Run.refl c) hd) he, hf⟩

/-- No entry is written by two iterations. -/
def Disjoint (n : ℕ) (body : ℕ → Py (List (Loc × V))) : Prop :=
  ∀ i < n, ∀ j < n, i ≠ j → ∀ ws ws', body i = .ok ws → body j = .ok ws' → ∀ w ∈ ws, ∀ w' ∈ ws', w.1 ≠ w'.1

theorem wrote_append (a : Loc) (l l' : List (Loc × V)) (v : V) : wrote a (l ++ l') v = wrote a l' (wrote a l v) := by
  rw [wrote, List.foldl_append]; rfl

theorem wrote_of_notMem (a : Loc) (l : List (Loc × V)) (v : V) (h : ∀ w ∈ l, w.1 ≠ a) : wrote a l v = v := by
  induction l generalizing v with
  | nil => rfl
  | cons w l ih =>
    have := ih v fun w' hw' => h w' (by simp [hw'])
    change wrote a l (if w.1 = a then w.2 else v) = v
    rw [if_neg (h w (by simp))]
    exact this

/-- What holds at every point of a run. -/
structure Inv (n : ℕ) (body : ℕ → Py (List (Loc × V))) (mem : Loc → V) (c : Config V) : Prop where
  errs : ∀ e ∈ c.raised, ∃ i < n, body i = .error e
  pool : ∀ i x, x ∈ c.pool i → x ∈ actions (body i)
  clean : c.raised = [] → ∀ i < n, (∃ e, c.pool i = [.raise e] ∧ body i = .error e) ∨
    ∃ done rest, body i = .ok (done ++ rest) ∧ c.pool i = rest.map (fun w => .write w.1 w.2) ∧
      ∀ a, (∃ w ∈ done ++ rest, w.1 = a) → c.mem a = wrote a done (mem a)
  frame : ∀ a, (∀ i < n, ∀ ws, body i = .ok ws → ∀ w ∈ ws, w.1 ≠ a) → c.mem a = mem a

theorem inv_start (n : ℕ) (body : ℕ → Py (List (Loc × V))) (mem : Loc → V) : Inv n body mem (start body mem) := by
  refine ⟨by simp [start], by simp [start], ?_, by simp [start]⟩
  intro _ i _
  cases h : body i with
  | ok ws =>
    right
    exact ⟨[], ws, rfl, by simp [start, h, actions], by simp [start, wrote]⟩
  | error e =>
    left
    exact ⟨e, by simp [start, h, actions], rfl⟩

theorem inv_step {n : ℕ} {body : ℕ → Py (List (Loc × V))} {mem : Loc → V} (hdis : Disjoint n body) {c d : Config V} (hc : Inv n body mem c)
    (h : Step n c d) : Inv n body mem d := by
  cases h with
  | write i hi a v rest h =>
    have hw : ∃ ws, body i = .ok ws ∧ (a, v) ∈ ws := by
      have := hc.pool i (.write a v) (by rw [h]; simp)
      cases hb : body i with
      | ok ws =>
        rw [hb] at this
        simp only [actions, List.mem_map] at this
        obtain ⟨w, hw, he⟩ := this
        simp only [Act.write.injEq] at he
        exact ⟨ws, rfl, by rw [← he.1, ← he.2]; exact hw⟩
      | error e => rw [hb] at this; simp [actions] at this
    obtain ⟨ws0, hws0, hmem0⟩ := hw
    refine ⟨hc.errs, ?_, ?_, ?_⟩
    · intro j x hx
      dsimp only at hx
      by_cases hj : j = i
      · subst hj
        rw [Function.update_self] at hx
        exact hc.pool j x (by rw [h]; simp [hx])
      · rw [Function.update_of_ne hj] at hx
        exact hc.pool j x hx
    · intro hr j hjn
      dsimp only
      by_cases hj : j = i
      · subst hj
        rcases hc.clean hr j hjn with ⟨e, h1, -⟩ | ⟨done, rest', h1, h2, h3⟩
        · rw [h] at h1; cases h1
        · right
          cases rest' with
          | nil => rw [h] at h2; cases h2
          | cons w rest' =>
            rw [h, List.map_cons, List.cons.injEq] at h2
            obtain ⟨h4, h5⟩ := h2
            simp only [Act.write.injEq] at h4
            refine ⟨done ++ [w], rest', by simpa using h1, by simpa using h5, ?_⟩
            intro a' ha'
            rw [wrote_append]
            have h6 := h3 a' (by simpa using ha')
            by_cases ha : a' = a
            · subst ha
              simp [wrote, h4.1, h4.2]
            · rw [Function.update_of_ne ha, h6]
              have : w.1 ≠ a' := by rw [← h4.1]; exact fun h => ha h.symm
              rw [wrote_of_notMem a' [w] _ (by simpa using this)]
      · rcases hc.clean hr j hjn with ⟨e, h1, h2⟩ | ⟨done, rest', h1, h2, h3⟩
        · left
          exact ⟨e, by rw [Function.update_of_ne hj]; exact h1, h2⟩
        · right
          refine ⟨done, rest', h1, by rw [Function.update_of_ne hj]; exact h2, fun a' ha' => ?_⟩
          have : a' ≠ a := by
            obtain ⟨w, hw, rfl⟩ := ha'
            exact hdis j hjn i hi hj _ _ h1 hws0 w hw (a, v) hmem0
          rw [Function.update_of_ne this]
          exact h3 a' ha'
    · intro a' ha'
      have : a' ≠ a := fun h => ha' i hi ws0 hws0 (a, v) hmem0 h.symm
      dsimp only
      rw [Function.update_of_ne this]
      exact hc.frame a' ha'
  | raise i hi e rest h =>
    refine ⟨?_, ?_, by simp, hc.frame⟩
    · intro e' he'
      rcases List.mem_cons.1 he' with rfl | he'
      · refine ⟨i, hi, ?_⟩
        have := hc.pool i (.raise e') (by rw [h]; simp)
        cases hb : body i with
        | ok ws => rw [hb] at this; simp [actions] at this
        | error e'' => rw [hb] at this; simp [actions] at this; rw [this]
      · exact hc.errs e' he'
    · intro j x hx
      dsimp only at hx
      by_cases hj : j = i
      · subst hj; simp at hx
      · rw [Function.update_of_ne hj] at hx
        exact hc.pool j x hx
  | abandon i hi h hr =>
    refine ⟨hc.errs, ?_, fun h0 => absurd h0 hr, hc.frame⟩
    intro j x hx
    dsimp only at hx
    by_cases hj : j = i
    · subst hj; simp at hx
    · rw [Function.update_of_ne hj] at hx
      exact hc.pool j x hx

theorem inv_run {n : ℕ} {body : ℕ → Py (List (Loc × V))} {mem : Loc → V} (hdis : Disjoint n body) {c : Config V}
    (h : Run n (start body mem) c) : Inv n body mem c := by
  induction h with
  | refl => exact inv_start n body mem
  | step h s ih => exact inv_step hdis ih s

theorem exists_outcome (n : ℕ) (body : ℕ → Py (List (Loc × V))) (mem : Loc → V) : ∃ o, Outcome n body mem o := by
  obtain ⟨c, hc, hf⟩ := exists_final n (start body mem)
  cases hr : c.raised with
  | nil => exact ⟨_, Outcome.ok c hc hf hr⟩
  | cons e l => exact ⟨_, Outcome.error c hc hf e (by rw [hr]; simp)⟩

theorem outcome_error {n : ℕ} {body : ℕ → Py (List (Loc × V))} {mem : Loc → V} (hdis : Disjoint n body) {e : PyErr}
    (h : Outcome n body mem (.error e)) : ∃ i < n, body i = .error e := by
  cases h with
  | error c h hf e he => exact (inv_run hdis h).errs e he

theorem outcome_ok {n : ℕ} {body : ℕ → Py (List (Loc × V))} {mem : Loc → V} (hdis : Disjoint n body) {m : Loc → V}
    (h : Outcome n body mem (.ok m)) :
    (∀ i < n, ∃ ws, body i = .ok ws ∧ ∀ a, (∃ w ∈ ws, w.1 = a) → m a = wrote a ws (mem a)) ∧
    ∀ a, (∀ i < n, ∀ ws, body i = .ok ws → ∀ w ∈ ws, w.1 ≠ a) → m a = mem a := by
  cases h with
  | ok c h hf hr =>
    have hi := inv_run hdis h
    refine ⟨fun i hi' => ?_, hi.frame⟩
    rcases hi.clean hr i hi' with ⟨e, h1, -⟩ | ⟨done, rest, h1, h2, h3⟩
    · rw [hf i hi'] at h1; cases h1
    · rw [hf i hi'] at h2
      have : rest = [] := by simpa using h2.symm
      subst this
      rw [List.append_nil] at h1 h3
      exact ⟨done, h1, h3⟩

/-- Iteration `i` only writes entries at position `i`. -/
def Own (body : ℕ → Py (List (Loc × V))) : Prop := ∀ i ws, body i = .ok ws → ∀ w ∈ ws, w.1.2 = i

theorem Own.disjoint {body : ℕ → Py (List (Loc × V))} (h : Own body) (n : ℕ) : Disjoint n body := by
  intro i _ j _ hij ws ws' h1 h2 w hw w' hw' he
  apply hij
  rw [← h i ws h1 w hw, ← h j ws' h2 w' hw', he]

theorem own_ok {n : ℕ} {body : ℕ → Py (List (Loc × V))} {mem : Loc → V} (ho : Own body) {m : Loc → V} (h : Outcome n body mem (.ok m))
    (i : ℕ) (hi : i < n) : ∃ ws, body i = .ok ws ∧ ∀ a, m (a, i) = wrote (a, i) ws (mem (a, i)) := by
  obtain ⟨h1, h2⟩ := outcome_ok (ho.disjoint n) h
  obtain ⟨ws, hws, h3⟩ := h1 i hi
  refine ⟨ws, hws, fun a => ?_⟩
  by_cases ha : ∃ w ∈ ws, w.1 = (a, i)
  · exact h3 _ ha
  · push Not at ha
    rw [wrote_of_notMem _ _ _ ha]
    apply h2
    intro j hj ws' hws' w hw he
    have hij : j = i := by rw [← ho j ws' hws' w hw, he]
    subst hij
    rw [hws] at hws'
    cases hws'
    exact ha w hw he

end Mizar.Par
