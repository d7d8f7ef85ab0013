import Verif.Props.Wider
import Verif.Props.DailyVol
import Verif.Props.Chain

/-!
Property theorems C116: the row of an event is decided by the bars up to its end (`/repo/mizarlabs/transformers/targets/labeling.py`
lines 149-205, 208-287, 362-435).
-/

set_option linter.unusedSectionVars false

namespace Mizar.Props
open Mizar.Spec Mizar.Lab

section
variable {K : Type*} [Field K] [LinearOrder K] [IsStrictOrderedRing K]

theorem getD_of_take {α : Type*} {l l' : List α} {m : ℕ} (h : l.take m = l'.take m) {j : ℕ} (hj : j < m) (d : α) : l.getD j d = l'.getD j d := by
  have := congrArg (fun l => l[j]?) h
  simp only [List.getElem?_take, if_pos hj] at this
  rw [List.getD_eq_getElem?_getD, List.getD_eq_getElem?_getD, this]

/-- **C116** The end, return and label of an event are decided by the bars up to its end: if the event at bar `i` ends at bar `k`, every
frame with the same bars up to `k`, the same side and the same volatility at `i` gives the same row.  Partial: unless the event ends at
its expiration, the other frame needs a bar after `k`, because the last bar is never searched for a breach. -/
theorem C116_known_at_end_partial {dv dv' : List ℤ → List (XF K) → List (XF K)} {c : Cfg K} {f f' : Lab.Frame K}
    {times times' : List ℤ} {close close' side side' vol vol' : List (Option K)} {n : ℕ}
    (h : LabelInput dv c f times close side vol n) (h' : LabelInput dv' c f' times' close' side' vol' n)
    (i k : ℕ) (hk : k < times.length) (hk' : k < times'.length) (ht : times.take (k + 1) = times'.take (k + 1))
    (hc : close.take (k + 1) = close'.take (k + 1)) (hside : side.getD i none = side'.getD i none)
    (hvol : vol.getD i none = vol'.getD i none) (hlast : k = i + n ∨ k + 1 < times'.length)
    (rows : List (Row K)) (row : Row K) (hr : Lab.transform dv c f = .ok rows) (hi : rows[i]? = some row)
    (hend : row.endTime = some (times.getD k 0)) :
    ∃ rows', Lab.transform dv' c f' = .ok rows' ∧ rows'[i]? = some row := by
  obtain ⟨rows0, a1, a2, a3⟩ := transform_spec h
  obtain ⟨rows', b1, b2, b3⟩ := transform_spec h'
  rw [hr] at a1
  simp only [Except.ok.injEq] at a1
  subst a1
  refine ⟨rows', b1, ?_⟩
  have hil : i < times.length := by
    rw [← a2]; exact (List.getElem?_eq_some_iff.1 hi).1
  obtain ⟨sl, pt, hsl, hpt, hrow⟩ := a3 i hil
  rw [hi] at hrow
  cases hv : vol.getD i none with
  | none =>
    rw [hv] at hrow
    simp only [Option.some.injEq] at hrow
    rw [hrow] at hend
    simp at hend
  | some v =>
    rw [hv] at hrow
    simp only [Option.some.injEq] at hrow
    have hend' := hend
    rw [hrow] at hend'
    simp only [eventResult_end] at hend'
    obtain ⟨q, hq, hqt⟩ := Option.map_eq_some_iff.1 hend'
    have hN : 0 < times.length := by omega
    obtain ⟨w1, w2, w3⟩ := winEnd_lt (n := n) (i := i) hN
    obtain ⟨k1, k2, k3, k4⟩ := earliest_eq_some.1 hq
    have hq3 : i ≤ q ∧ q ≤ i + n ∧ q < times.length := by
      rcases k1 with k1 | k1 | k1
      · split at k1
        · cases k1; refine ⟨?_, ?_, ?_⟩ <;> omega
        · cases k1
      · rw [k1] at hsl; exact ⟨hsl.1, by have := hsl.2.1; omega, by have := hsl.2.1; omega⟩
      · rw [k1] at hpt; exact ⟨hpt.1, by have := hpt.2.1; omega, by have := hpt.2.1; omega⟩
    have hqk : q = k := by
      rcases Nat.lt_trichotomy q k with hlt | heq | hgt
      · have := times_lt h.sorted hlt hk; omega
      · exact heq
      · have := times_lt h.sorted hgt hq3.2.2; omega
    subst hqk
    obtain ⟨sl', pt', hsl', hpt', hrow'⟩ := b3 i (by omega)
    obtain ⟨w1', w2', w3'⟩ := winEnd_lt (N := times'.length) (n := n) (i := i) (by omega)
    -- the windows agree up to `q`
    have hcj : ∀ j ≤ q, close.getD j none = close'.getD j none := fun j hj => getD_of_take hc (by omega) _
    have eS : ∀ j ≤ q, (StopLoss c.slf close side vol i j ↔ StopLoss c.slf close' side' vol' i j) := by
      intro j hj
      unfold StopLoss
      rw [hside, hvol, hcj i hq3.1, hcj j hj]
    have eP : ∀ j ≤ q, (ProfitTaking c.ptf close side vol i j ↔ ProfitTaking c.ptf close' side' vol' i j) := by
      intro j hj
      unfold ProfitTaking
      rw [hside, hvol, hcj i hq3.1, hcj j hj]
    have hwin : q < winEnd times.length n i → q < winEnd times'.length n i := by
      intro hw
      unfold winEnd at hw ⊢
      split
      · split at hw <;> omega
      · rcases hlast with hl | hl
        · exfalso; split at hw <;> omega
        · omega
    have hexp : (if i + n < times.length then some (i + n) else none) = some q ↔ (if i + n < times'.length then some (i + n) else none) = some q := by
      constructor
      · intro e
        split at e
        · cases e; rw [if_pos (by omega)]
        · cases e
      · intro e
        split at e
        · cases e; rw [if_pos (by omega)]
        · cases e
    -- a first breach at or before `q` in one frame is one in the other
    have fwd : ∀ (P P' : ℕ → Prop) (o o' : Option ℕ), (∀ j ≤ q, (P j ↔ P' j)) → IsFirst P i (winEnd times.length n i) o →
        IsFirst P' i (winEnd times'.length n i) o' → (∀ x, o = some x → q ≤ x) →
        (o = some q ↔ o' = some q) ∧ ∀ x, o' = some x → q ≤ x := by
      intro P P' o o' hPP ho ho' hmin
      have nob : ∀ j, i ≤ j → j < q → ¬ P j := by
        intro j j1 j2 hp
        have hjw : j < winEnd times.length n i := by
          unfold winEnd; split <;> omega
        obtain ⟨x, hx, hxj⟩ := isFirst_exists ho j1 hjw hp
        have := hmin x hx
        omega
      constructor
      · constructor
        · intro e
          rw [e] at ho
          obtain ⟨x, hx, hxq⟩ := isFirst_exists ho' ho.1 (hwin ho.2.1) ((hPP q le_rfl).1 ho.2.2.1)
          rw [hx]
          rw [hx] at ho'
          rcases Nat.lt_or_ge x q with hlt | hge
          · exact absurd ((hPP x (by omega)).2 ho'.2.2.1) (nob x ho'.1 hlt)
          · rw [show x = q by omega]
        · intro e
          rw [e] at ho'
          have hp := (hPP q le_rfl).2 ho'.2.2.1
          have hqw : q < winEnd times.length n i := by
            rcases k1 with k1 | k1 | k1
            · exfalso
              split at k1
              · cases k1
                have := ho'.2.1
                omega
              · cases k1
            · rw [k1] at hsl; exact hsl.2.1
            · rw [k1] at hpt; exact hpt.2.1
          obtain ⟨x, hx, hxq⟩ := isFirst_exists ho ho'.1 hqw hp
          rw [hx, show x = q by have := hmin x hx; omega]
      · intro x hx
        rw [hx] at ho'
        by_contra hlt
        exact nob x ho'.1 (by omega) ((hPP x (by omega)).2 ho'.2.2.1)
    obtain ⟨s1, s2⟩ := fwd _ _ sl sl' eS hsl hsl' k3
    obtain ⟨p1, p2⟩ := fwd _ _ pt pt' eP hpt hpt' k4
    have hq' : earliest (if i + n < times'.length then some (i + n) else none) sl' pt' = some q := by
      rw [earliest_eq_some]
      refine ⟨?_, ?_, s2, p2⟩
      · rcases k1 with k1 | k1 | k1
        · exact Or.inl (hexp.1 k1)
        · exact Or.inr (Or.inl (s1.1 k1))
        · exact Or.inr (Or.inr (p1.1 k1))
      · intro x hx
        split at hx
        · cases hx; omega
        · cases hx
    have hnn : (sl.isNone && pt.isNone) = (sl'.isNone && pt'.isNone) := by
      by_cases e1 : sl = some q
      · rw [e1, s1.1 e1]; rfl
      by_cases e2 : pt = some q
      · rw [e2, p1.1 e2]; simp
      have e3 : q = i + n := by
        rcases k1 with k1 | k1 | k1
        · split at k1
          · cases k1; rfl
          · cases k1
        · exact absurd k1 e1
        · exact absurd k1 e2
      have hnone : ∀ (P : ℕ → Prop) (N : ℕ) (o : Option ℕ), 0 < N → IsFirst P i (winEnd N n i) o → (∀ x, o = some x → q ≤ x) → o = none := by
        intro P N o hN ho hmin
        cases o with
        | none => rfl
        | some x =>
          have := hmin x rfl
          have := ho.2.1
          have := (winEnd_lt (N := N) (n := n) (i := i) hN).2.1
          omega
      rw [hnone _ _ sl hN hsl k3, hnone _ _ pt hN hpt k4, hnone _ _ sl' (by omega) hsl' s2, hnone _ _ pt' (by omega) hpt' p2]
    have er : eventReturn c.metalabeling (fun j => close'.getD j none) (fun j => side'.getD j none) i q =
        eventReturn c.metalabeling (fun j => close.getD j none) (fun j => side.getD j none) i q := by
      unfold eventReturn
      simp only [← hside, ← hcj i hq3.1, ← hcj q le_rfl]
    rw [hrow', ← hvol, hv, hrow]
    simp only [eventResult, hq, hq', er, Bool.and_assoc, hnn, Option.map_some]
    rw [getD_of_take ht (by omega) 0]

/-- The volatility of a bar depends on the bars up to it only. -/
def CausalVol (dv : List ℤ → List (XF K) → List (XF K)) : Prop :=
  ∀ (times : List ℤ) (close : List (XF K)), times.Pairwise (· < ·) → close.length = times.length → ∀ k : ℕ,
    dv (times.take k) (close.take k) = (dv times close).take k

/-- **C116** The same when the volatility is computed from the prices, causally as by `get_daily_vol` (`C116_daily_volatility`): nothing
after the end of the event matters. -/
theorem C116_with_volatility_partial {dv : List ℤ → List (XF K) → List (XF K)} (hdv : CausalVol dv) {c : Cfg K} {f f' : Lab.Frame K}
    {times times' : List ℤ} {close close' side side' vol vol' : List (Option K)} {n : ℕ}
    (h : LabelInput dv c f times close side vol n) (h' : LabelInput dv c f' times' close' side' vol' n)
    (i k : ℕ) (hik : i ≤ k) (hk : k < times.length) (hk' : k < times'.length) (ht : times.take (k + 1) = times'.take (k + 1))
    (hc : close.take (k + 1) = close'.take (k + 1)) (hside : side.take (k + 1) = side'.take (k + 1))
    (hlast : k = i + n ∨ k + 1 < times'.length)
    (rows : List (Row K)) (row : Row K) (hr : Lab.transform dv c f = .ok rows)
    (hi : rows[i]? = some row) (hend : row.endTime = some (times.getD k 0)) :
    ∃ rows', Lab.transform dv c f' = .ok rows' ∧ rows'[i]? = some row := by
  refine C116_known_at_end_partial h h' i k hk hk' ht hc (getD_of_take hside (by omega) _) ?_ hlast rows row hr hi hend
  have e : (vol.map xf).take (k + 1) = (vol'.map xf).take (k + 1) := by
    rw [← h.vol_eq, ← h'.vol_eq]
    split
    · rw [← hdv times _ h.sorted (by simpa using h.length_eq), ← hdv times' _ h'.sorted (by simpa using h'.length_eq),
        ht, ← List.map_take, ← List.map_take, hc]
    · rw [List.take_replicate, List.take_replicate]
      congr 1
      omega
  rw [← List.map_take, ← List.map_take] at e
  have inj : Function.Injective (xf : Option K → XF K) := by
    intro a b hab
    cases a <;> cases b <;> simp_all [xf]
  exact getD_of_take (inj.list_map e) (by omega) _

theorem mem_labelledEvents {times : List ℤ} {rows : List (Lab.Row K)} {e : ℤ × ℤ}
    (h : e ∈ labelledEvents times rows) : ∃ (p : ℕ) (row : Lab.Row K), times[p]? = some e.1 ∧ rows[p]? = some row ∧ row.endTime = some e.2 := by
  unfold labelledEvents at h
  obtain ⟨q, hq, he⟩ := List.mem_filterMap.1 h
  obtain ⟨y, hy, rfl⟩ := Option.map_eq_some_iff.1 he
  obtain ⟨p, hp⟩ := List.mem_iff_getElem?.1 hq
  obtain ⟨h1, h2⟩ := List.getElem?_zip_eq_some.1 hp
  exact ⟨p, q.2, h1, h2, hy⟩

/-- **C116** With the event ends as evaluation times, no label of a training sample before a test sample depends on prices or sides from the bar of
this test sample on: changed prices there leave the row of the training sample as it is. -/
theorem C116_training_labels {dv : List ℤ → List (XF K) → List (XF K)} (hdv : CausalVol dv) {c : Cfg K} {f f' : Lab.Frame K} {times : List ℤ} {close close' side side' vol vol' : List (Option K)}
    {n : ℕ} (h : LabelInput dv c f times close side vol n)
    (h' : LabelInput dv c f' times close' side' vol' n) (hn : 1 ≤ n)
    (hvol : ∀ v, some v ∈ vol → 0 ≤ v) (rows : List (Row K)) (hr : Lab.transform dv c f = .ok rows)
    (g k : ℕ) (hg : 1 ≤ g) (emb : ℤ) (rounds : List (List ℕ × List ℕ))
    (hs : CV.split (labelledEvents times rows).length g k (fun i => ((labelledEvents times rows).getD i (0, 0)).1)
      (fun i => ((labelledEvents times rows).getD i (0, 0)).2) emb = .ok rounds)
    (r : List ℕ × List ℕ) (hrd : r ∈ rounds) (i t : ℕ) (hi : i ∈ r.1) (ht : t ∈ r.2) (hit : i < t)
    (m : ℕ) (hm : times[m]? = some ((labelledEvents times rows).getD t (0, 0)).1)
    (hc : close.take m = close'.take m) (hside : side.take m = side'.take m)
    (p : ℕ) (hp : times[p]? = some ((labelledEvents times rows).getD i (0, 0)).1) :
    ∃ rows' row, Lab.transform dv c f' = .ok rows' ∧ rows[p]? = some row ∧ rows'[p]? = some row := by
  obtain ⟨rows0, e0, hT⟩ := C88_cross_validation h hn hvol
  rw [hr] at e0
  simp only [Except.ok.injEq] at e0
  subst e0
  have hlt := C05_purged_before_test _ g k _ _ emb hg hT rounds hs r hrd i t hi ht hit
  have hil : i < (labelledEvents times rows).length := (C04_train_test_disjoint _ g k _ _ emb hg rounds hs r hrd).2.2.1 i hi
  have hmem : (labelledEvents times rows).getD i (0, 0) ∈ labelledEvents times rows := by
    rw [List.getD_eq_getElem?_getD, List.getElem?_eq_getElem hil]
    exact List.getElem_mem hil
  obtain ⟨p0, row, hp0, hrow, hend⟩ := mem_labelledEvents hmem
  have nodup : times.Nodup := h.sorted.imp fun h => ne_of_lt h
  have hpl : p < times.length := (List.getElem?_eq_some_iff.1 hp).1
  have hpp : p0 = p := by
    apply (List.getElem?_inj (List.getElem?_eq_some_iff.1 hp0).1 nodup).1
    rw [hp0, hp]
  subst hpp
  -- the end is at a bar before the test sample
  have hml : m < times.length := (List.getElem?_eq_some_iff.1 hm).1
  have hmem2 : ((labelledEvents times rows).getD i (0, 0)).2 ∈ times := by
    obtain ⟨rows1, e1, -, h3⟩ := C88_events_partial h hn hvol
    rw [hr] at e1
    simp only [Except.ok.injEq] at e1
    subst e1
    exact (h3 _ hmem).2.2
  obtain ⟨q, hq⟩ := List.mem_iff_getElem?.1 hmem2
  have hql : q < times.length := (List.getElem?_eq_some_iff.1 hq).1
  have vq : times.getD q 0 = ((labelledEvents times rows).getD i (0, 0)).2 := by
    rw [List.getD_eq_getElem?_getD, hq]; rfl
  have vm : times.getD m 0 = ((labelledEvents times rows).getD t (0, 0)).1 := by
    rw [List.getD_eq_getElem?_getD, hm]; rfl
  have vp : times.getD p0 0 = ((labelledEvents times rows).getD i (0, 0)).1 := by
    rw [List.getD_eq_getElem?_getD, hp]; rfl
  have hqm : q < m := by
    by_contra hcon
    rcases Nat.eq_or_lt_of_le (Nat.le_of_not_lt hcon) with e | e
    · rw [← e] at vq; omega
    · have := times_lt h.sorted e hql
      omega
  have hpq : p0 ≤ q := by
    by_contra hcon
    have := times_lt h.sorted (Nat.lt_of_not_le hcon) hpl
    have := (hT.2 i hil)
    omega
  have tk : ∀ {l l' : List (Option K)}, l.take m = l'.take m → l.take (q + 1) = l'.take (q + 1) := by
    intro l l' e
    have := congrArg (List.take (q + 1)) e
    rwa [List.take_take, List.take_take, Nat.min_eq_left (by omega)] at this
  obtain ⟨rows', e1, e2⟩ := C116_with_volatility_partial hdv h h' p0 q hpq hql hql rfl (tk hc) (tk hside) (Or.inr (by omega)) rows row hr hrow
    (by rw [hend, vq])
  exact ⟨rows', row, e1, hrow, e2⟩

end

/-- **C116** `get_daily_vol` is such a volatility. -/
theorem C116_daily_volatility (span : ℕ) : CausalVol (dailyVolColumn (ewmStd (ewmAlpha span))) :=
  fun times close hs hl k => C33_causal span times close hs hl k

/-- Four bars; the price breaches the profit-taking barrier of the first event at the third. -/
def kaeFrame : Lab.Frame ℚ := ⟨[1000000, 2000000, 3000000, 4000000], [("close", [.fin 10, .nan, .fin 30, .fin 5])]⟩

/-- The same bars up to the third, other bars later. -/
def kaeLonger : Lab.Frame ℚ := ⟨[1000000, 2000000, 3000000, 5000000, 6000000], [("close", [.fin 10, .nan, .fin 30, .fin 20, .nan])]⟩

/-- The bars up to the third only. -/
def kaeShorter : Lab.Frame ℚ := ⟨[1000000, 2000000, 3000000], [("close", [.fin 10, .nan, .fin 30])]⟩

def kaeCfg : Cfg ℚ := ⟨3, 1, 1, false, "close", SIDE, false, false⟩

theorem kae_input (dv : List ℤ → List (XF ℚ) → List (XF ℚ)) :
    LabelInput dv kaeCfg kaeFrame [1000000, 2000000, 3000000, 4000000] [some 10, none, some 30, some 5] (List.replicate 4 (some 1))
      (List.replicate 4 (some 1)) 3 where
  times_eq := rfl
  close_eq := rfl
  name_eq := rfl
  side_eq := Or.inr ⟨rfl, rfl, rfl⟩
  vol_eq := rfl
  n_eq := rfl
  length_eq := rfl
  nonempty := by simp
  sorted := by decide
  whole_ms := by decide
  not_epoch := by decide
  positive := by simp +decide
  factors := by norm_num [kaeCfg]
  ends := fun h => by cases h

theorem kae_longer (dv : List ℤ → List (XF ℚ) → List (XF ℚ)) :
    LabelInput dv kaeCfg kaeLonger [1000000, 2000000, 3000000, 5000000, 6000000] [some 10, none, some 30, some 20, none]
      (List.replicate 5 (some 1)) (List.replicate 5 (some 1)) 3 where
  times_eq := rfl
  close_eq := rfl
  name_eq := rfl
  side_eq := Or.inr ⟨rfl, rfl, rfl⟩
  vol_eq := rfl
  n_eq := rfl
  length_eq := rfl
  nonempty := by simp
  sorted := by decide
  whole_ms := by decide
  not_epoch := by decide
  positive := by simp +decide
  factors := by norm_num [kaeCfg]
  ends := fun h => by cases h

theorem kae_shorter (dv : List ℤ → List (XF ℚ) → List (XF ℚ)) :
    LabelInput dv kaeCfg kaeShorter [1000000, 2000000, 3000000] [some 10, none, some 30]
      (List.replicate 3 (some 1)) (List.replicate 3 (some 1)) 3 where
  times_eq := rfl
  close_eq := rfl
  name_eq := rfl
  side_eq := Or.inr ⟨rfl, rfl, rfl⟩
  vol_eq := rfl
  n_eq := rfl
  length_eq := rfl
  nonempty := by simp
  sorted := by decide
  whole_ms := by decide
  not_epoch := by decide
  positive := by simp +decide
  factors := by norm_num [kaeCfg]
  ends := fun h => by cases h

/-- The first event ends at the third bar in both frames, with the same label. -/
example (dv : List ℤ → List (XF ℚ) → List (XF ℚ)) :
    ((Lab.transform dv kaeCfg kaeFrame).toOption.bind (·[0]?)) = some ⟨some 3000000, .fin 1, .fin 2, .fin 1⟩ ∧
    ((Lab.transform dv kaeCfg kaeLonger).toOption.bind (·[0]?)) = some ⟨some 3000000, .fin 1, .fin 2, .fin 1⟩ := by
  have e : ∀ f, Lab.transform dv kaeCfg f = Lab.transform (fun _ _ => []) kaeCfg f := by
    intro f; rfl
  rw [e, e]
  decide +kernel

example (dv : List ℤ → List (XF ℚ) → List (XF ℚ)) (rows : List (Row ℚ)) (row : Row ℚ) (hr : Lab.transform dv kaeCfg kaeFrame = .ok rows)
    (hi : rows[0]? = some row) (hend : row.endTime = some 3000000) :
    ∃ rows', Lab.transform dv kaeCfg kaeLonger = .ok rows' ∧ rows'[0]? = some row :=
  C116_known_at_end_partial (kae_input dv) (kae_longer dv) 0 2 (by decide) (by decide) rfl rfl rfl rfl (Or.inr (by decide)) rows row hr hi hend

/-- Six bars with their labels. -/
def kaeCv (a b : ℚ) : Lab.Frame ℚ :=
  ⟨[1000000, 2000000, 3000000, 4000000, 5000000, 6000000], [("close", [.fin 10, .fin 30, .fin 5, .fin 20, .fin a, .fin b])]⟩

def kaeCvCfg : Cfg ℚ := ⟨2, 1, 1, false, "close", SIDE, true, false⟩

/-- A constant volatility, missing at the first bar. -/
def kaeVol : List ℤ → List (XF ℚ) → List (XF ℚ)
  | [], _ => []
  | _ :: l, _ => .nan :: List.replicate l.length (.fin (1 / 4))

theorem kaeVol_causal : CausalVol kaeVol := by
  intro times close _ _ k
  cases times with
  | nil => simp [kaeVol]
  | cons a l =>
    cases k with
    | zero => rfl
    | succ k => simp [kaeVol, List.take_replicate]

theorem kaeCv_input (a b : ℚ) (ha : 0 < a) (hb : 0 < b) :
    LabelInput kaeVol kaeCvCfg (kaeCv a b) [1000000, 2000000, 3000000, 4000000, 5000000, 6000000]
      [some 10, some 30, some 5, some 20, some a, some b] (List.replicate 6 (some 1)) (none :: List.replicate 5 (some (1 / 4))) 2 where
  times_eq := rfl
  close_eq := rfl
  name_eq := rfl
  side_eq := Or.inr ⟨rfl, rfl, rfl⟩
  vol_eq := rfl
  n_eq := rfl
  length_eq := rfl
  nonempty := by simp
  sorted := by decide
  whole_ms := by decide
  not_epoch := by decide
  positive := by simp +decide [ha, hb]
  factors := by norm_num [kaeCvCfg]
  ends := fun h => by cases h

/-- The events of the second, third and fourth bar are labelled; when the third of them is tested, the first is trained on. -/
example : (Lab.transform kaeVol kaeCvCfg (kaeCv 8 3)).toOption.map (labelledEvents [1000000, 2000000, 3000000, 4000000, 5000000, 6000000]) =
      some [(2000000, 3000000), (3000000, 4000000), (4000000, 5000000)] ∧
    (CV.split 3 3 1 (fun i => ([(2000000, 3000000), (3000000, 4000000), (4000000, 5000000)].getD i ((0 : ℤ), (0 : ℤ))).1)
      (fun i => ([(2000000, 3000000), (3000000, 4000000), (4000000, 5000000)].getD i ((0 : ℤ), (0 : ℤ))).2) 0).toOption =
      some [([0], [2]), ([2], [1]), ([2], [0])] := by
  decide +kernel

/-- The row of the second bar does not depend on the prices of the last three bars. -/
example (rows : List (Row ℚ)) (hr : Lab.transform kaeVol kaeCvCfg (kaeCv 8 3) = .ok rows)
    (hev : labelledEvents [1000000, 2000000, 3000000, 4000000, 5000000, 6000000] rows = [(2000000, 3000000), (3000000, 4000000), (4000000, 5000000)]) :
    ∃ rows' row, Lab.transform kaeVol kaeCvCfg (kaeCv 90 1) = .ok rows' ∧ rows[1]? = some row ∧ rows'[1]? = some row := by
  refine C116_training_labels kaeVol_causal (kaeCv_input 8 3 (by norm_num) (by norm_num)) (kaeCv_input 90 1 (by norm_num) (by norm_num)) (by norm_num)
    (by simp) rows hr 3 1 (by norm_num) 0 [([0], [2]), ([2], [1]), ([2], [0])] ?_ ([0], [2]) (by simp) 0 2 (by simp) (by simp) (by norm_num) 3 ?_ rfl rfl 1 ?_
  · rw [hev]
    decide +kernel
  · rw [hev]; rfl
  · rw [hev]; rfl

/-- **C116** is false for a frame that stops at the end of the event: the row of an event that breaches its barrier at the last bar is
missing, and is filled in only when a further bar arrives. -/
theorem C116_last_bar_refuted (dv : List ℤ → List (XF ℚ) → List (XF ℚ)) : ∃ rows rows' : List (Row ℚ),
    Lab.transform dv kaeCfg kaeFrame = .ok rows ∧ Lab.transform dv kaeCfg kaeShorter = .ok rows' ∧
    kaeShorter.times = kaeFrame.times.take 3 ∧
    rows[0]? = some ⟨some 3000000, .fin 1, .fin 2, .fin 1⟩ ∧ rows'[0]? = some ⟨none, .fin 1, .nan, .nan⟩ := by
  have e : ∀ f, Lab.transform dv kaeCfg f = Lab.transform (fun _ _ => []) kaeCfg f := by
    intro f; rfl
  simp only [e]
  refine ⟨[⟨some 3000000, .fin 1, .fin 2, .fin 1⟩, ⟨none, .fin 1, .nan, .nan⟩, ⟨none, .fin 1, .nan, .nan⟩, ⟨none, .fin 1, .nan, .nan⟩],
    [⟨none, .fin 1, .nan, .nan⟩, ⟨none, .fin 1, .nan, .nan⟩, ⟨none, .fin 1, .nan, .nan⟩], ?_, ?_, rfl, rfl, rfl⟩ <;> decide +kernel

end Mizar.Props
