import Verif.Lemmas.ArrivalJoin
import Verif.Props.Signals

/-!
Property theorems C156: the rows that `BarArrivalRSIStrategy` predicts (`/repo/mizarlabs/transformers/technical/rsi.py` lines 44-82).
-/

set_option linter.unusedSectionVars false

namespace Mizar.Props
open Mizar.Spec Mizar.Tech Mizar.Feat

section
variable {K : Type} [Field K] [LinearOrder K] [IsStrictOrderedRing K]

private theorem zip_fst {A B : Type} (l : List ℤ) (v : List A) (g : A → B) (h : v.length = l.length) :
    (List.zipWith (fun t x => (t, g x)) l v).map (·.1) = l := by
  apply List.ext_getElem
  · simp [h]
  · intro i h1 h2; simp

private theorem true_mem_valsAt {A : Type} (l : List ℤ) (v : List A) (g : A → Bool) (t : ℤ) :
    true ∈ valsAt (List.zipWith (fun t x => (t, g x)) l v) t ↔ ∃ (i : ℕ) (x : A), l[i]? = some t ∧ v[i]? = some x ∧ g x = true := by
  unfold valsAt
  simp only [List.mem_map, List.mem_filter, beq_iff_eq]
  constructor
  · rintro ⟨a, ⟨ha, rfl⟩, hb⟩
    obtain ⟨i, hi⟩ := List.getElem?_of_mem ha
    rw [List.getElem?_zipWith] at hi
    cases h1 : l[i]? <;> cases h2 : v[i]? <;> simp only [h1, h2] at hi
    all_goals try cases hi
    exact ⟨i, _, h1, h2, hb⟩
  · rintro ⟨i, x, h1, h2, h3⟩
    refine ⟨(t, g x), ⟨List.mem_of_getElem? (i := i) ?_, rfl⟩, h3⟩
    rw [List.getElem?_zipWith, h1, h2]

private theorem valsAt_length {A : Type} (l : List (ℤ × A)) (t : ℤ) : (valsAt l t).length = (l.map (·.1)).count t := by
  unfold valsAt
  rw [List.length_map, ← List.countP_eq_length_filter, List.count, List.countP_map]
  rfl

/-- **C156** (exact rows) The series that is returned is ordered by time, whatever the order of the bars.  For a time that `m` bars share it has
`m` rows times the square of the number of these bars that are not the first bar of the frame.  It buys at a time if some bar of this time has
its indicator strictly between the thresholds, some bar of this time an arrival difference below the upper threshold, and some one above the lower
threshold. -/
theorem C156_rows (rsi : Frame K → Py (List (XF K))) (rh rl ah al d : K) (hd : d ≠ 0) (fast slow : ℕ) (hf : 1 ≤ fast)
    (hs : 1 ≤ slow) (f : Frame K) (r : List (XF K)) (hr : rsi f = .ok r) (hl : r.length = f.rows.length) :
    ∃ out, barArrivalSeries rsi ⟨rh, rl, ah, al, fast, slow, d⟩ f = .ok out ∧ (out.map (·.1)).Pairwise (· ≤ ·) ∧
      (∀ t, (out.map (·.1)).count t = f.index.count t * (max 1 (f.index.tail.count t)) ^ 2) ∧
      (∀ x ∈ out, x.2 = .fin 1 ∨ x.2 = .fin 0) ∧
      ∀ t, (t, .fin 1) ∈ out ↔ ∃ i j k : ℕ, f.index[i]? = some t ∧ f.index[j]? = some t ∧ f.index[k]? = some t ∧
        (fast ≤ j ∧ slow ≤ j) ∧ (fast ≤ k ∧ slow ≤ k) ∧ (∃ x, r[i]? = some x ∧ XF.lt (.fin rl) x = true ∧ XF.lt x (.fin rh) = true) ∧
        (gapMean fast (fun k => f.index.getD k 0) j - gapMean slow (fun k => f.index.getD k 0) j) / d < ah ∧
        al < (gapMean fast (fun k => f.index.getD k 0) k - gapMean slow (fun k => f.index.getD k 0) k) / d := by
  have ilen : f.index.length = f.rows.length := by simp [Frame.index]
  have alen : (arrivals f.index : List (XF K)).length = f.rows.length - 1 := by unfold arrivals; simp [ilen]
  refine ⟨_, by unfold barArrivalSeries; rw [rollE_ok, Py.bind_ok, rollE_ok, Py.bind_ok, hr, Py.bind_ok, likeIndex_ok f r hl, Py.bind_ok], ?_⟩
  dsimp only
  set nd := List.zipWith (fun a b => XF.div (XF.sub a b) (.fin d)) (rolling fast winMean (arrivals f.index : List (XF K)))
    (rolling slow winMean (arrivals f.index)) with hnd
  have ndlen : nd.length = f.index.tail.length := by
    rw [hnd]; simp [alen, ilen]
  have ndval : ∀ j : ℕ, j < f.index.tail.length → nd[j]? = some (if fast ≤ j + 1 ∧ slow ≤ j + 1 then
      .fin ((gapMean fast (fun k => f.index.getD k 0) (j + 1) - gapMean slow (fun k => f.index.getD k 0) (j + 1)) / d) else .nan) := by
    intro j hj
    rw [List.length_tail] at hj
    rw [hnd, zipWith_getElem?_of _ (rolling_getElem? fast winMean _ j (by omega)) (rolling_getElem? slow winMean _ j (by omega)),
      arrivals_mean fast hf f.index j (by omega), arrivals_mean slow hs f.index j (by omega)]
    by_cases h1 : j + 1 < fast
    · rw [if_pos h1, if_neg (show ¬ (fast ≤ j + 1 ∧ slow ≤ j + 1) by omega)]; simp
    · by_cases h2 : j + 1 < slow
      · rw [if_neg h1, if_pos h2, if_neg (show ¬ (fast ≤ j + 1 ∧ slow ≤ j + 1) by omega)]; simp
      · rw [if_neg h1, if_neg h2, if_pos (show fast ≤ j + 1 ∧ slow ≤ j + 1 by omega), XF.sub_fin, XF.div_fin _ _ hd]
  set B := List.zipWith (fun t x => (t, XF.lt (.fin rl) x && XF.lt x (.fin rh))) f.index r with hB
  set C := List.zipWith (fun t x => (t, XF.lt x (.fin ah))) f.index.tail nd with hC
  set D := List.zipWith (fun t x => (t, XF.lt (.fin al) x)) f.index.tail nd with hD
  have kB : B.map (·.1) = f.index := zip_fst f.index r (fun x => XF.lt (.fin rl) x && XF.lt x (.fin rh)) (by omega)
  have kC : C.map (·.1) = f.index.tail := zip_fst f.index.tail nd (fun x => XF.lt x (.fin ah)) ndlen
  have kD : D.map (·.1) = f.index.tail := zip_fst f.index.tail nd (fun x => XF.lt (.fin al) x) ndlen
  clear_value B C D
  by_cases hz : f.index = []
  · have hB0 : B = [] := by simpa [hz] using kB
    have hC0 : C = [] := by simpa [hz] using kC
    have hD0 : D = [] := by simpa [hz] using kD
    rw [hB0, hC0, hD0]
    simp [andSeries, alignOuter, hz]
  have hpos : 0 < f.index.length := List.length_pos_of_ne_nil hz
  have n1 : B.map (·.1) ≠ C.map (·.1) := by
    rw [kB, kC]
    intro h
    have := congrArg List.length h
    rw [List.length_tail] at this
    omega
  have s1 : ∀ t ∈ C.map (·.1), t ∈ B.map (·.1) := by
    rw [kB, kC]; exact fun t => List.mem_of_mem_tail
  have e1 := andSeries_blocks B C n1 s1
  have k1 := andSeries_keys B C n1 s1
  have s2 : ∀ t ∈ D.map (·.1), t ∈ (andSeries B C).map (·.1) := by
    intro t ht
    rw [k1, kB]
    rw [kD] at ht
    exact List.mem_of_mem_tail ht
  have v1 : ∀ t ∈ f.index, valsAt (andSeries B C) t = andAll (valsAt B t) (valsAt C t) := by
    intro t ht
    rw [e1]
    exact valsAt_blocks _ (nodup_npUnique _) (fun t => andAll (valsAt B t) (valsAt C t)) t (mem_npUnique.2 (by rw [kB]; exact ht))
  have c1 : ∀ t, ((andSeries B C).map (·.1)).count t = f.index.count t * max 1 (f.index.tail.count t) := by
    intro t
    by_cases ht : t ∈ f.index
    · rw [← valsAt_length, v1 t ht, length_andAll, valsAt_length, valsAt_length, kB, kC]
    · rw [List.count_eq_zero_of_not_mem (fun h => ht (by rw [k1, kB] at h; exact h)), List.count_eq_zero_of_not_mem ht, Nat.zero_mul]
  have n2 : (andSeries B C).map (·.1) ≠ D.map (·.1) := by
    rw [kD]
    intro h
    obtain ⟨t, l, hl⟩ := List.exists_cons_of_ne_nil hz
    have h1 := c1 t
    rw [h, hl, List.tail_cons, List.count_cons_self] at h1
    have h2 : (List.count t l + 1) * 1 ≤ (List.count t l + 1) * max 1 (List.count t l) := Nat.mul_le_mul_left _ (by omega)
    omega
  have e2 := andSeries_blocks _ D n2 s2
  have hkeys : npUnique ((andSeries B C).map (·.1)) = npUnique f.index := npUnique_congr (fun x => by rw [k1, kB])
  rw [hkeys] at e2
  have hfst : ∀ l : List (ℤ × Bool), (l.map fun x => (x.1, if x.2 = true then (.fin 1 : XF K) else .fin 0)).map (·.1) = l.map (·.1) := by
    intro l; rw [List.map_map]; rfl
  have v2 : ∀ t ∈ f.index, valsAt (andSeries (andSeries B C) D) t = andAll (andAll (valsAt B t) (valsAt C t)) (valsAt D t) := by
    intro t ht
    rw [e2, ← v1 t ht]
    exact valsAt_blocks _ (nodup_npUnique _) (fun t => andAll (valsAt (andSeries B C) t) (valsAt D t)) t (mem_npUnique.2 ht)
  have k2 := andSeries_keys _ D n2 s2
  refine ⟨?_, ?_, ?_, ?_⟩
  · rw [hfst, e2]
    have : ∀ (ks : List ℤ) (g : ℤ → List Bool), ks.Pairwise (· < ·) →
        ((ks.flatMap fun t => (g t).map fun x => (t, x)).map (·.1)).Pairwise (· ≤ ·) := by
      intro ks g
      induction ks with
      | nil => intro _; simp
      | cons k ks ih =>
        intro h
        obtain ⟨h1, h2⟩ := List.pairwise_cons.1 h
        rw [List.flatMap_cons, List.map_append, List.pairwise_append]
        refine ⟨?_, ih h2, ?_⟩
        · rw [List.map_map, List.pairwise_map]
          exact List.pairwise_of_forall (fun _ _ => le_refl k)
        · intro a ha b hb
          obtain ⟨x, hx, rfl⟩ := List.mem_map.1 ha
          obtain ⟨y, _, rfl⟩ := List.mem_map.1 hx
          obtain ⟨z, hz, rfl⟩ := List.mem_map.1 hb
          obtain ⟨s, hs, hz⟩ := List.mem_flatMap.1 hz
          obtain ⟨w, _, rfl⟩ := List.mem_map.1 hz
          exact le_of_lt (h1 s hs)
    exact this _ _ (pairwise_npUnique _)
  · intro t
    rw [hfst]
    by_cases ht : t ∈ f.index
    · rw [← valsAt_length, v2 t ht, length_andAll, length_andAll, valsAt_length, valsAt_length, valsAt_length, kB, kC, kD, pow_two, Nat.mul_assoc]
    · rw [List.count_eq_zero_of_not_mem (fun h => ht (by rw [k2, k1, kB] at h; exact h)), List.count_eq_zero_of_not_mem ht, Nat.zero_mul]
  · intro x hx
    obtain ⟨y, _, rfl⟩ := List.mem_map.1 hx
    dsimp only
    split
    · exact Or.inl rfl
    · exact Or.inr rfl
  · intro t
    have m1 : (t, (.fin 1 : XF K)) ∈ (andSeries (andSeries B C) D).map (fun x => (x.1, if x.2 = true then (.fin 1 : XF K) else .fin 0)) ↔
        true ∈ valsAt (andSeries (andSeries B C) D) t := by
      unfold valsAt
      simp only [List.mem_map, List.mem_filter, beq_iff_eq, Prod.mk.injEq]
      constructor
      · rintro ⟨a, ha, h1, h2⟩
        refine ⟨a, ⟨ha, h1⟩, ?_⟩
        by_contra h3
        rw [if_neg h3] at h2
        simp at h2
      · rintro ⟨a, ⟨ha, h1⟩, h2⟩
        exact ⟨a, ha, h1, if_pos h2⟩
    rw [m1]
    have bnd : ∀ i : ℕ, f.index[i]? = some t → i < f.index.length := fun i h => (List.getElem?_eq_some_iff.1 h).1
    have mC : ∀ (g : XF K → Bool), g .nan = false → ((∃ (j : ℕ) (x : XF K), f.index.tail[j]? = some t ∧ nd[j]? = some x ∧ g x = true) ↔
        ∃ j : ℕ, f.index[j]? = some t ∧ (fast ≤ j ∧ slow ≤ j) ∧
          g (.fin ((gapMean fast (fun k => f.index.getD k 0) j - gapMean slow (fun k => f.index.getD k 0) j) / d)) = true) := by
      intro g hg
      constructor
      · rintro ⟨j, x, h1, h2, h3⟩
        have hj := (List.getElem?_eq_some_iff.1 h1).1
        rw [ndval j hj] at h2
        rw [List.getElem?_tail] at h1
        by_cases h4 : fast ≤ j + 1 ∧ slow ≤ j + 1
        · rw [if_pos h4] at h2
          refine ⟨j + 1, h1, h4, ?_⟩
          rw [Option.some.inj h2]
          exact h3
        · rw [if_neg h4] at h2
          rw [← Option.some.inj h2, hg] at h3
          cases h3
      · rintro ⟨j, h1, h2, h3⟩
        obtain ⟨i, rfl⟩ : ∃ i, j = i + 1 := ⟨j - 1, by omega⟩
        have h4 : f.index.tail[i]? = some t := by rw [List.getElem?_tail]; exact h1
        refine ⟨i, _, h4, ndval i (List.getElem?_eq_some_iff.1 h4).1, ?_⟩
        rw [if_pos h2]
        exact h3
    by_cases ht : t ∈ f.index
    · rw [v2 t ht, true_mem_andAll, true_mem_andAll, hB, hC, hD, true_mem_valsAt f.index r (fun x => XF.lt (.fin rl) x && XF.lt x (.fin rh)),
        true_mem_valsAt f.index.tail nd (fun x => XF.lt x (.fin ah)), true_mem_valsAt f.index.tail nd (fun x => XF.lt (.fin al) x),
        mC (fun x => XF.lt x (.fin ah)) (by simp), mC (fun x => XF.lt (.fin al) x) (by simp)]
      simp only [Bool.and_eq_true, XF.lt_fin, decide_eq_true_eq]
      constructor
      · rintro ⟨⟨⟨i, x, h1, h2, h3⟩, j, h4, h5, h6⟩, k, h7, h8, h9⟩
        exact ⟨i, j, k, h1, h4, h7, h5, h8, ⟨x, h2, h3⟩, h6, h9⟩
      · rintro ⟨i, j, k, h1, h4, h7, h5, h8, ⟨x, h2, h3⟩, h6, h9⟩
        exact ⟨⟨⟨i, x, h1, h2, h3⟩, j, h4, h5, h6⟩, k, h7, h8, h9⟩
    · constructor
      · intro h
        have h1 : t ∈ (andSeries (andSeries B C) D).map (·.1) := by
          by_contra h2
          rw [(valsAt_eq_nil _ t).2 h2] at h
          simp at h
        rw [k2, k1, kB] at h1
        exact absurd h1 ht
      · rintro ⟨i, _, _, h, _⟩
        exact absurd (List.mem_of_getElem? h) ht

/-- **C156** (how many) There is one prediction for each bar exactly if the times of the bars after the first are distinct. -/
theorem C156_length (rsi : Frame K → Py (List (XF K))) (rh rl ah al d : K) (hd : d ≠ 0) (fast slow : ℕ) (hf : 1 ≤ fast)
    (hs : 1 ≤ slow) (f : Frame K) (r : List (XF K)) (hr : rsi f = .ok r) (hl : r.length = f.rows.length) :
    ∃ out, barArrivalSeries rsi ⟨rh, rl, ah, al, fast, slow, d⟩ f = .ok out ∧ f.rows.length ≤ out.length ∧
      (out.length = f.rows.length ↔ f.index.tail.Nodup) := by
  obtain ⟨out, h1, -, h3, -, -⟩ := C156_rows rsi rh rl ah al d hd fast slow hf hs f r hr hl
  refine ⟨out, h1, ?_⟩
  have ilen : f.rows.length = ∑ t ∈ f.index.toFinset, f.index.count t := by
    rw [List.sum_toFinset_count_eq_length]; simp [Frame.index]
  have olen : out.length = ∑ t ∈ f.index.toFinset, f.index.count t * (max 1 (f.index.tail.count t)) ^ 2 := by
    have e : (out.map (·.1)).toFinset = f.index.toFinset := by
      ext t
      rw [List.mem_toFinset, List.mem_toFinset, ← List.count_pos_iff, ← List.count_pos_iff, h3 t]
      constructor
      · intro h
        by_contra h4
        have : List.count t f.index = 0 := by omega
        rw [this, Nat.zero_mul] at h
        omega
      · intro h
        exact Nat.mul_pos h (pow_pos (by omega) 2)
    calc out.length = (out.map (·.1)).length := by simp
      _ = ∑ t ∈ (out.map (·.1)).toFinset, (out.map (·.1)).count t := (List.sum_toFinset_count_eq_length _).symm
      _ = _ := by rw [e]; exact Finset.sum_congr rfl fun t _ => h3 t
  have hle : ∀ t ∈ f.index.toFinset, f.index.count t ≤ f.index.count t * (max 1 (f.index.tail.count t)) ^ 2 :=
    fun t _ => Nat.le_mul_of_pos_right _ (pow_pos (by omega) 2)
  refine ⟨by rw [ilen, olen]; exact Finset.sum_le_sum hle, ?_⟩
  rw [ilen, olen, eq_comm, Finset.sum_eq_sum_iff_of_le hle, List.nodup_iff_count_le_one]
  constructor
  · intro h t
    by_cases ht : t ∈ f.index
    · have h4 := h t (List.mem_toFinset.2 ht)
      have h5 : 0 < f.index.count t := List.count_pos_iff.2 ht
      by_contra h6
      have h7 : f.index.count t * 1 < f.index.count t * (max 1 (f.index.tail.count t)) ^ 2 :=
        Nat.mul_lt_mul_of_pos_left (by
          have : 2 ≤ max 1 (f.index.tail.count t) := by omega
          nlinarith) h5
      omega
    · rw [List.count_eq_zero_of_not_mem (fun h => ht (List.mem_of_mem_tail h))]
      omega
  · intro h t _
    have : max 1 (f.index.tail.count t) = 1 := by have := h t; omega
    rw [this]
    simp

/-- **C156** (distinct times) For distinct times, in any order, there is one row for each bar, with what C77 says of the bar; the rows come in the
order of time and not of the bars. -/
theorem C156_distinct_partial (rsi : Frame K → Py (List (XF K))) (rh rl ah al d : K) (hd : d ≠ 0) (fast slow : ℕ) (hf : 1 ≤ fast)
    (hs : 1 ≤ slow) (f : Frame K) (r : List (XF K)) (hr : rsi f = .ok r) (hl : r.length = f.rows.length) (hn : f.index.Nodup) :
    ∃ out pred, barArrivalSeries rsi ⟨rh, rl, ah, al, fast, slow, d⟩ f = .ok out ∧
      barArrivalRsi rsi ⟨rh, rl, ah, al, fast, slow, d⟩ f = .ok pred ∧
      (out.map (·.1)).Pairwise (· < ·) ∧ out.length = f.rows.length ∧
      ∀ (i : ℕ) (t : ℤ) (v : XF K), f.index[i]? = some t → ((t, v) ∈ out ↔ pred[i]? = some v) := by
  obtain ⟨out, h1, h2, h3, h4, h5⟩ := C156_rows rsi rh rl ah al d hd fast slow hf hs f r hr hl
  obtain ⟨pred, p1, p2, p3⟩ := C77_bar_arrival rsi rh rl ah al d hd fast slow hf hs f r hr hl
  have hnt : f.index.tail.Nodup := hn.sublist (List.tail_sublist _)
  have ilen : f.index.length = f.rows.length := by simp [Frame.index]
  have hcount : ∀ t, (out.map (·.1)).count t = f.index.count t := by
    intro t
    rw [h3 t]
    have : max 1 (f.index.tail.count t) = 1 := by have := List.nodup_iff_count_le_one.1 hnt t; omega
    rw [this]
    simp
  have hond : (out.map (·.1)).Nodup := by
    rw [List.nodup_iff_count_le_one]
    intro t
    rw [hcount]
    exact List.nodup_iff_count_le_one.1 hn t
  have hlen : out.length = f.rows.length := by
    obtain ⟨out', q1, -, q3⟩ := C156_length rsi rh rl ah al d hd fast slow hf hs f r hr hl
    rw [h1] at q1
    rw [Except.ok.inj q1]
    exact q3.2 hnt
  refine ⟨out, pred, h1, p1, ?_, hlen, ?_⟩
  · have := List.pairwise_and_iff.2 ⟨h2, hond⟩
    exact this.imp fun h => lt_of_le_of_ne h.1 h.2
  · intro i t v hi
    have hil : i < f.rows.length := by
      rw [← ilen]; exact (List.getElem?_eq_some_iff.1 hi).1
    have uniq : ∀ j : ℕ, f.index[j]? = some t → j = i := by
      intro j hj
      have hjl := (List.getElem?_eq_some_iff.1 hj).1
      exact (List.Nodup.getElem_inj_iff hn (hi := hjl) (hj := by omega)).1
        (by rw [(List.getElem?_eq_some_iff.1 hj).2, (List.getElem?_eq_some_iff.1 hi).2])
    obtain ⟨q1, q2⟩ := p3 i hil
    have hone : (t, (.fin 1 : XF K)) ∈ out ↔ pred[i]? = some (.fin 1) := by
      rw [h5 t, q1]
      constructor
      · rintro ⟨i', j, k, a1, a2, a3, a4, a5, a6, a7, a8⟩
        obtain rfl := uniq i' a1
        obtain rfl := uniq j a2
        obtain rfl := uniq k a3
        exact ⟨a4.1, a4.2, a6, a8, a7⟩
      · rintro ⟨b1, b2, b3, b4, b5⟩
        exact ⟨i, i, i, hi, hi, hi, ⟨b1, b2⟩, ⟨b1, b2⟩, b3, b5, b4⟩
    have hmem : ∃ w, (t, w) ∈ out := by
      have : t ∈ out.map (·.1) := by
        rw [← List.count_pos_iff, hcount, List.count_pos_iff]
        exact List.mem_of_getElem? hi
      obtain ⟨x, hx, rfl⟩ := List.mem_map.1 this
      exact ⟨x.2, hx⟩
    have hfun : ∀ w w', (t, w) ∈ out → (t, w') ∈ out → w = w' := by
      intro w w' hw hw'
      have := List.inj_on_of_nodup_map hond hw hw' rfl
      exact (Prod.mk.inj this).2
    obtain ⟨w, hw⟩ := hmem
    have hw01 := h4 _ hw
    dsimp only at hw01
    have hneq : (.fin 1 : XF K) ≠ .fin 0 := by simp
    have hpw : pred[i]? = some w := by
      rcases hw01 with rfl | rfl
      · exact hone.1 hw
      · rcases q2 with h | h
        · exact absurd (hfun _ _ (hone.2 h) hw) hneq
        · exact h
    constructor
    · intro hv
      rw [hpw, hfun v w hv hw]
    · intro hv
      rw [hpw] at hv
      rw [← Option.some.inj hv]
      exact hw

/-- **C156** (increasing times) For increasing times the predictions are those of C77, bar by bar. -/
theorem C156_increasing_partial (rsi : Frame K → Py (List (XF K))) (rh rl ah al d : K) (hd : d ≠ 0) (fast slow : ℕ) (hf : 1 ≤ fast)
    (hs : 1 ≤ slow) (f : Frame K) (r : List (XF K)) (hr : rsi f = .ok r) (hl : r.length = f.rows.length) (hi : f.index.Pairwise (· < ·)) :
    ∃ pred, barArrivalRsi rsi ⟨rh, rl, ah, al, fast, slow, d⟩ f = .ok pred ∧
      barArrivalSeries rsi ⟨rh, rl, ah, al, fast, slow, d⟩ f = .ok (f.index.zip pred) ∧
      barArrivalProba rsi ⟨rh, rl, ah, al, fast, slow, d⟩ f = rsiProba (barArrivalRsi rsi ⟨rh, rl, ah, al, fast, slow, d⟩ f) := by
  have hn : f.index.Nodup := hi.imp fun h => ne_of_lt h
  obtain ⟨out, pred, h1, h2, h3, h4, h5⟩ := C156_distinct_partial rsi rh rl ah al d hd fast slow hf hs f r hr hl hn
  obtain ⟨pred', p1, p2, -⟩ := C77_bar_arrival rsi rh rl ah al d hd fast slow hf hs f r hr hl
  obtain rfl : pred = pred' := Except.ok.inj (h2.symm.trans p1)
  obtain ⟨out', q1, -, q3, -, -⟩ := C156_rows rsi rh rl ah al d hd fast slow hf hs f r hr hl
  obtain rfl : out = out' := Except.ok.inj (h1.symm.trans q1)
  have ilen : f.index.length = f.rows.length := by simp [Frame.index]
  have hfst : out.map (·.1) = f.index := by
    rw [← npUnique_eq_self h3, ← npUnique_eq_self hi]
    apply npUnique_congr
    intro t
    rw [← List.count_pos_iff, ← List.count_pos_iff, q3 t]
    constructor
    · intro h
      by_contra h4
      have : List.count t f.index = 0 := by omega
      rw [this, Nat.zero_mul] at h
      omega
    · intro h
      exact Nat.mul_pos h (pow_pos (by omega) 2)
  have key : out = f.index.zip pred := by
    apply List.ext_getElem
    · simp [h4, p2, ilen]
    · intro i a1 a2
      have a3 : f.index[i]? = some (out[i].1) := by
        rw [← hfst, List.getElem?_map, List.getElem?_eq_getElem a1]; rfl
      have a4 := (h5 i _ out[i].2 a3).1 (List.getElem_mem a1)
      rw [List.getElem_zip]
      have b1 := (List.getElem?_eq_some_iff.1 a3).2
      have b2 := (List.getElem?_eq_some_iff.1 a4).2
      exact Prod.ext b1.symm b2.symm
  refine ⟨pred, h2, by rw [h1, key], ?_⟩
  unfold barArrivalProba rsiProba
  rw [h1, h2, key]
  simp only [Py.bind_ok]
  congr 2
  rw [List.map_snd_zip (by omega)]

end

section Witnesses

/-- Bars given newest first: the two predictions that buy are those of the newest bars, which come last in what is returned. -/
def newestFirst : Frame ℚ := ⟨["rsi"], [(40, [.fin 50]), (30, [.fin 50]), (20, [.fin 90]), (10, [.fin 90])]⟩

/-- Two trades in one millisecond close two bars with the same time. -/
def sameTime : Frame ℚ := ⟨["rsi"], [(10, [.fin 50]), (20, [.fin 50]), (20, [.fin 50]), (30, [.fin 50])]⟩

/-- C156 fails for bars that are not in order of time: the predictions are not in the order of the bars.  It fails for bars that share a time: there
are more predictions than bars. -/
theorem C156_refuted :
    (∃ pred, barArrivalRsi (fun f : Frame ℚ => f.col "rsi") ⟨70, 30, 100, -100, 1, 1, 1⟩ newestFirst = .ok pred ∧
      ∃ P, barArrivalProba (fun f : Frame ℚ => f.col "rsi") ⟨70, 30, 100, -100, 1, 1, 1⟩ newestFirst = .ok P ∧ P ≠ oneHot twoClasses pred) ∧
    ∃ P, barArrivalProba (fun f : Frame ℚ => f.col "rsi") ⟨70, 30, 100, -100, 1, 1, 1⟩ sameTime = .ok P ∧ P.length = 10 ∧ sameTime.rows.length = 4 := by
  have key : ∀ {A : Type} (x : Py A) (p : A → Bool), (match x with | .ok g => p g | .error _ => false) = true → ∃ g, x = .ok g ∧ p g = true := by
    intro A x p h
    cases x with
    | error e => simp at h
    | ok g => exact ⟨g, rfl, h⟩
  refine ⟨⟨[.fin 0, .fin 1, .fin 0, .fin 0], by decide +kernel, ?_⟩, ?_⟩
  · obtain ⟨P, h1, h2⟩ := key (barArrivalProba (fun f : Frame ℚ => f.col "rsi") ⟨70, 30, 100, -100, 1, 1, 1⟩ newestFirst)
      (fun P => decide (P ≠ oneHot twoClasses [.fin 0, .fin 1, .fin 0, .fin 0])) (by decide +kernel)
    exact ⟨P, h1, of_decide_eq_true h2⟩
  · obtain ⟨P, h1, h2⟩ := key (barArrivalProba (fun f : Frame ℚ => f.col "rsi") ⟨70, 30, 100, -100, 1, 1, 1⟩ sameTime)
      (fun P => decide (P.length = 10)) (by decide +kernel)
    exact ⟨P, h1, of_decide_eq_true h2, rfl⟩

/-- The hypotheses of the theorems hold for these frames. -/
example : ∃ out pred, barArrivalSeries (fun f : Frame ℚ => f.col "rsi") ⟨70, 30, 100, -100, 1, 1, 1⟩ newestFirst = .ok out ∧
    barArrivalRsi (fun f : Frame ℚ => f.col "rsi") ⟨70, 30, 100, -100, 1, 1, 1⟩ newestFirst = .ok pred ∧
    (out.map (·.1)).Pairwise (· < ·) ∧ out.length = newestFirst.rows.length ∧
    ∀ (i : ℕ) (t : ℤ) (v : XF ℚ), newestFirst.index[i]? = some t → ((t, v) ∈ out ↔ pred[i]? = some v) :=
  C156_distinct_partial (fun f : Frame ℚ => f.col "rsi") 70 30 100 (-100) 1 (by norm_num) 1 1 (by decide) (by decide) newestFirst
    [.fin 50, .fin 50, .fin 90, .fin 90] (by decide +kernel) rfl (by decide)

example : ∃ out, barArrivalSeries (fun f : Frame ℚ => f.col "rsi") ⟨70, 30, 100, -100, 1, 1, 1⟩ sameTime = .ok out ∧
    sameTime.rows.length ≤ out.length ∧ (out.length = sameTime.rows.length ↔ sameTime.index.tail.Nodup) :=
  C156_length (fun f : Frame ℚ => f.col "rsi") 70 30 100 (-100) 1 (by norm_num) 1 1 (by decide) (by decide) sameTime
    [.fin 50, .fin 50, .fin 50, .fin 50] (by decide +kernel) rfl

example : ∃ pred, barArrivalRsi (fun _ => .ok [.fin 50, .fin (60 : ℚ), .fin 40]) ⟨70, 30, 100, -100, 1, 1, 1⟩
      ⟨["close"], [(1, [.fin 5]), (4, [.fin 5]), (6, [.fin 7])]⟩ = .ok pred := by
  obtain ⟨p, h, -⟩ := C156_increasing_partial (fun _ => .ok [.fin 50, .fin (60 : ℚ), .fin 40]) 70 30 100 (-100) 1 (by norm_num) 1 1 (by decide)
    (by decide) ⟨["close"], [(1, [.fin 5]), (4, [.fin 5]), (6, [.fin 7])]⟩ [.fin 50, .fin 60, .fin 40] rfl rfl (by decide)
  exact ⟨p, h⟩

end Witnesses

end Mizar.Props
