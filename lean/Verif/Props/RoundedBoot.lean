import Verif.Lemmas.RoundedBoot
import Verif.Props.RoundedWeights

/-!
C104: the sequential bootstrap in floating point (single precision reciprocals, double precision elsewhere).
-/

namespace Mizar.Props
open Mizar Mizar.Spec Mizar.Boot

/-- C104: every run of `seq_bootstrap` in floating point, for every generator, order of summation, length and batch size:
the generator never refuses the probabilities, batch `n` is drawn with the probabilities recomputed from all samples drawn
before, these are positive, and there are as many batches as without rounding. -/
theorem C104_run (p₁ p₂ : ℕ) (h₁ : 2 ≤ p₁) (h₁₂ : p₁ ≤ p₂) (h₂ : 26 < p₂) (S : List ℚ → ℚ) (hS : IsSummation p₂ S)
    (M : IndMat) (hM : 0 < M.nCols) (hn : 40 * 2 ^ 26 * M.nCols ≤ 2 ^ p₂) (hk : ∀ j < M.nCols, (barsOf M j).card < 2 ^ p₂)
    (rng : ℕ → List ℚ → ℕ → List ℕ) (len : Option ℤ) (k : ℤ) (hk0 : k ≠ 0)
    (hs : 0 < k ∨ 0 ≤ len.getD (M.nCols : ℤ)) (hlen : |len.getD M.nCols| < 2 ^ p₂) :
    ∃ tr, Rd.seqBootstrapTrace (roundBits p₁) (roundBits p₂) S M rng len k = .ok tr ∧
      tr.length = (⌈((len.getD M.nCols : ℤ) : ℚ) / (k : ℚ)⌉).toNat ∧
      ∀ n (hn : n < tr.length),
        (tr[n]).1.length = M.nCols ∧ (∀ q ∈ (tr[n]).1, 0 < q) ∧
        (∀ j < M.nCols, (tr[n]).1[j]? = some (roundBits p₂ (floatUniq p₁ p₂ M ((tr.take n).map (·.2)).flatten j /
          S ((List.range M.nCols).map (floatUniq p₁ p₂ M ((tr.take n).map (·.2)).flatten))))) ∧
        (tr[n]).2 = rng n (tr[n]).1 (min (len.getD M.nCols - n * k) k).toNat := by
  have hnq : 40 * 2 ^ 26 * (M.nCols : ℚ) ≤ 2 ^ p₂ := by exact_mod_cast hn
  unfold Rd.seqBootstrapTrace
  simp only
  rw [if_neg hk0, if_neg (by omega)]
  obtain ⟨tr, t1, t2, t3⟩ := Rd.bootLoop_spec h₁ h₁₂ h₂ hS M hM hnq rng (len.getD M.nCols) k
    (⌈roundBits p₂ (((len.getD M.nCols : ℤ) : ℚ) / (k : ℚ))⌉).toNat 0 [] [] _ (Rd.inv_init (by omega) S M hk)
  refine ⟨tr, t1, by rw [t2, Rd.ceil_round (by omega) _ _ hk0 hlen], ?_⟩
  intro n hn
  obtain ⟨a, b⟩ := t3 n hn
  have hb : (Rd.initState (roundBits p₂) S M).boot = [] := rfl
  rw [hb, List.nil_append] at a
  rw [zero_add] at b
  refine ⟨by rw [a]; simp [Rd.floatProb, Rd.probOf], ?_, ?_, b⟩
  · intro q hq
    rw [a] at hq
    obtain ⟨j, _, rfl⟩ := List.mem_map.1 hq
    set l := (List.range M.nCols).map (floatUniq p₁ p₂ M ((tr.take n).map (·.2)).flatten) with hl
    have hpos : ∀ x ∈ l, 0 < x := by
      intro x hx
      obtain ⟨j, _, rfl⟩ := List.mem_map.1 hx
      exact Rd.floatUniq_pos h₁ (by omega) M _ j
    have hne : l ≠ [] := by rw [hl]; simp; omega
    have hs := (Rd.summation_bounds (by omega) hS l hne (by
      intro x hx
      obtain ⟨j, _, rfl⟩ := List.mem_map.1 hx
      exact Rd.floatUniq_isFloat (by omega) M _ j) fun x hx => (hpos x hx).le).1
    have he := Rd.eps_le (p := p₂) (by omega)
    have hS0 : 0 < S l := lt_of_lt_of_le (mul_pos (pow_pos (by linarith) _) (List.sum_pos l hpos hne)) hs
    exact roundBits_pos p₂ (by omega) (div_pos (Rd.floatUniq_pos h₁ (by omega) M _ j) hS0)
  · intro j hj
    rw [a]
    simp [Rd.floatProb, Rd.probOf, hj]

/-- C104: the computed uniqueness of a sample with bars is in `(0, 1]`, and 1 exactly if no drawn sample shares a bar. -/
theorem C104_uniqueness (p₁ p₂ : ℕ) (h₁ : 2 ≤ p₁) (h₁₂ : p₁ ≤ p₂) (M : IndMat) (drawn : List ℕ) (j : ℕ)
    (hb : (barsOf M j).Nonempty) (hk : 2 * (barsOf M j).card ≤ 2 ^ p₂) :
    Rd.updateAvgUnique (roundBits p₁) (roundBits p₂) M drawn j = floatUniq p₁ p₂ M drawn j ∧
    0 < floatUniq p₁ p₂ M drawn j ∧ floatUniq p₁ p₂ M drawn j ≤ 1 ∧
      (floatUniq p₁ p₂ M drawn j = 1 ↔ ∀ i ∈ drawn, ∀ t ∈ barsOf M j, M.ent t i = false) := by
  have h₂ : 1 ≤ p₂ := by omega
  have hk0 : 0 < (barsOf M j).card := Finset.card_pos.2 hb
  have hkq : (0 : ℚ) < ((barsOf M j).card : ℚ) := by exact_mod_cast hk0
  refine ⟨Rd.updateAvgUnique_float h₁ h₁₂ M drawn j hk0.ne', Rd.floatUniq_pos h₁ h₂ M drawn j, ?_⟩
  have hiff : (∀ i ∈ drawn, ∀ t ∈ barsOf M j, M.ent t i = false) ↔ ∀ t ∈ barsOf M j, drawnAt M drawn t = 0 := by
    unfold drawnAt
    constructor
    · intro h t ht
      rw [List.length_eq_zero_iff, List.filter_eq_nil_iff]
      intro i hi
      simp [h i hi t ht]
    · intro h i hi t ht
      have := h t ht
      rw [List.length_eq_zero_iff, List.filter_eq_nil_iff] at this
      simpa using this i hi
  rw [hiff]
  unfold floatUniq
  rw [if_neg hk0.ne', Rd.sort_bars]
  set l := (colRows M j).map (barShare p₁ M drawn) with hl
  have hlen : l.length = (barsOf M j).card := by rw [hl, List.length_map, colRows_length]
  have hone : ∀ x ∈ l, x ≤ 1 := by
    intro x hx
    obtain ⟨t, ht, rfl⟩ := List.mem_map.1 hx
    exact (Rd.barShare_props h₁ M drawn t).2.1
  have hsle : l.foldl (fun a b => roundBits p₂ (a + b)) 0 ≤ ((barsOf M j).card : ℚ) := by
    have := Rd.foldl_le_count h₂ l hone 0 0 (by simp) (by rw [hlen]; omega)
    rw [hlen] at this
    simpa using this
  refine ⟨?_, ?_, ?_⟩
  · have := roundBits_mono p₂ h₂ ((div_le_one hkq).2 hsle)
    rwa [roundBits_one p₂ h₂] at this
  · intro h t ht
    by_contra hne
    have hmem : t ∈ colRows M j := by
      rw [← colRows_toFinset] at ht
      simpa using ht
    have h1 := Rd.sum_le_half h₂ l hone ⟨_, List.mem_map.2 ⟨t, hmem, rfl⟩, (Rd.barShare_props h₁ M drawn t).2.2.2.1 hne⟩ 0 0
      (by simp) (by rw [hlen]; omega)
    rw [hlen] at h1
    have h2 : l.foldl (fun a b => roundBits p₂ (a + b)) 0 / ((barsOf M j).card : ℚ) ≤ 1 - 1 / 2 ^ p₂ := by
      rw [div_le_iff₀ hkq, sub_mul, one_mul]
      have h3 : 1 / 2 ^ p₂ * ((barsOf M j).card : ℚ) ≤ 1 / 2 := by
        rw [div_mul_eq_mul_div, one_mul, div_le_iff₀ (by positivity)]
        have : ((2 * (barsOf M j).card : ℕ) : ℚ) ≤ 2 ^ p₂ := by exact_mod_cast hk
        push_cast at this
        linarith
      have h4 : l.foldl (fun a b => roundBits p₂ (a + b)) 0 ≤ ((barsOf M j).card : ℚ) - 1 / 2 := by simpa using h1
      linarith
    have h3 := roundBits_mono p₂ h₂ h2
    rw [Rd.roundBits_pred h₂, h] at h3
    have := Rd.eps_pos (p := p₂)
    linarith
  · intro h
    have hrep : l = List.replicate (barsOf M j).card 1 := by
      rw [List.eq_replicate_iff]
      refine ⟨hlen, ?_⟩
      intro x hx
      obtain ⟨t, ht, rfl⟩ := List.mem_map.1 hx
      have htb : t ∈ barsOf M j := by rw [← colRows_toFinset]; simpa using ht
      exact (Rd.barShare_props h₁ M drawn t).2.2.1 (h t htb)
    have := Rd.foldl_ones h₂ (barsOf M j).card 0 (by omega)
    rw [Nat.cast_zero, zero_add] at this
    rw [hrep, this, div_self hkq.ne', roundBits_one p₂ h₂]

/-- C104: the computed uniqueness differs from the textbook value by one single precision rounding and one double precision
rounding per bar and one more, as long as fewer than `2^p₁ - 1` samples have been drawn. -/
theorem C104_uniqueness_error (p₁ p₂ : ℕ) (h₁ : 2 ≤ p₁) (h₁₂ : p₁ ≤ p₂) (M : IndMat) (drawn : List ℕ) (j : ℕ)
    (hb : (barsOf M j).Nonempty) (hd : drawn.length + 1 < 2 ^ p₁) :
    (1 - 1 / 2 ^ p₁) * (1 - 1 / 2 ^ p₂) ^ ((barsOf M j).card + 1) * seqUniq M drawn j ≤ floatUniq p₁ p₂ M drawn j ∧
      floatUniq p₁ p₂ M drawn j ≤ (1 + 1 / 2 ^ p₁) * (1 + 1 / 2 ^ p₂) ^ ((barsOf M j).card + 1) * seqUniq M drawn j := by
  have h₂ : 1 ≤ p₂ := by omega
  have hp₁ : 1 ≤ p₁ := by omega
  have he := Rd.eps_le h₂
  have he0 := Rd.eps_pos (p := p₂)
  have hf := Rd.eps_le hp₁
  have hf0 := Rd.eps_pos (p := p₁)
  have hk0 : 0 < (barsOf M j).card := Finset.card_pos.2 hb
  have hkq : (0 : ℚ) < ((barsOf M j).card : ℚ) := by exact_mod_cast hk0
  unfold floatUniq seqUniq
  rw [if_neg hk0.ne', if_neg hk0.ne', Rd.sort_bars]
  set l := (colRows M j).map (barShare p₁ M drawn) with hl
  have hlen : l.length = (barsOf M j).card := by rw [hl, List.length_map, colRows_length]
  have hpos : ∀ x ∈ l, 0 ≤ x := by
    intro x hx
    obtain ⟨t, ht, rfl⟩ := List.mem_map.1 hx
    exact (Rd.barShare_props h₁ M drawn t).1.le
  obtain ⟨s1, s2⟩ := Rd.foldl_bounds h₂ l hpos 0 le_rfl
  rw [hlen, zero_add] at s1 s2
  have hsum : l.sum = ∑ t ∈ barsOf M j, barShare p₁ M drawn t := by rw [hl, sum_colRows]
  have hshare : ∀ t, (1 - 1 / 2 ^ p₁) * (1 / (1 + (drawnAt M drawn t : ℚ))) ≤ barShare p₁ M drawn t ∧
      barShare p₁ M drawn t ≤ (1 + 1 / 2 ^ p₁) * (1 / (1 + (drawnAt M drawn t : ℚ))) := by
    intro t
    unfold barShare
    by_cases h0 : drawnAt M drawn t = 0
    · rw [if_pos h0, h0]
      norm_num
    · rw [if_neg h0]
      have hle : drawnAt M drawn t ≤ drawn.length := List.length_filter_le _ _
      have e : roundBits p₁ (1 + (drawnAt M drawn t : ℚ)) = 1 + (drawnAt M drawn t : ℚ) := by
        have := roundBits_natCast p₁ hp₁ (1 + drawnAt M drawn t) (by omega)
        push_cast at this
        exact this
      rw [e]
      exact ⟨Rd.roundBits_ge_one_sub hp₁ (by positivity), Rd.roundBits_le_one_add hp₁ (by positivity)⟩
  set T := ∑ t ∈ barsOf M j, (1 : ℚ) / (1 + (drawnAt M drawn t : ℚ)) with hT
  have hT0 : 0 ≤ T := Finset.sum_nonneg fun t _ => by positivity
  have t1 : (1 - 1 / 2 ^ p₁) * T ≤ l.sum := by
    rw [hsum, hT, Finset.mul_sum]
    exact Finset.sum_le_sum fun t _ => (hshare t).1
  have t2 : l.sum ≤ (1 + 1 / 2 ^ p₁) * T := by
    rw [hsum, hT, Finset.mul_sum]
    exact Finset.sum_le_sum fun t _ => (hshare t).2
  set k := (barsOf M j).card with hkd
  set s := l.foldl (fun a b => roundBits p₂ (a + b)) 0
  have hlow : (1 - 1 / 2 ^ p₂ : ℚ) ^ k * ((1 - 1 / 2 ^ p₁) * T) ≤ s :=
    (mul_le_mul_of_nonneg_left t1 (pow_nonneg (by linarith) _)).trans s1
  have hup : s ≤ (1 + 1 / 2 ^ p₂ : ℚ) ^ k * ((1 + 1 / 2 ^ p₁) * T) :=
    s2.trans (mul_le_mul_of_nonneg_left t2 (pow_nonneg (by linarith) _))
  have hs0 : 0 ≤ s := le_trans (mul_nonneg (pow_nonneg (by linarith) _) (mul_nonneg (by linarith) hT0)) hlow
  have hq : 0 ≤ s / (k : ℚ) := div_nonneg hs0 hkq.le
  constructor
  · refine le_trans ?_ (Rd.roundBits_ge_one_sub h₂ hq)
    have : (1 - 1 / 2 ^ p₁) * (1 - 1 / 2 ^ p₂ : ℚ) ^ (k + 1) * (T / k) =
      (1 - 1 / 2 ^ p₂) * (((1 - 1 / 2 ^ p₂) ^ k * ((1 - 1 / 2 ^ p₁) * T)) / k) := by ring
    rw [this]
    exact mul_le_mul_of_nonneg_left (div_le_div_of_nonneg_right hlow hkq.le) (by linarith)
  · refine (Rd.roundBits_le_one_add h₂ hq).trans ?_
    have : (1 + 1 / 2 ^ p₁) * (1 + 1 / 2 ^ p₂ : ℚ) ^ (k + 1) * (T / k) =
      (1 + 1 / 2 ^ p₂) * (((1 + 1 / 2 ^ p₂) ^ k * ((1 + 1 / 2 ^ p₁) * T)) / k) := by ring
    rw [this]
    exact mul_le_mul_of_nonneg_left (div_le_div_of_nonneg_right hup hkq.le) (by linarith)

/-- C104: the computed probabilities keep the order of the computed uniqueness, and times the exact sum of the uniqueness
they are the uniqueness up to one relative rounding per sample. -/
theorem C104_probabilities (p : ℕ) (hp : 1 ≤ p) (S : List ℚ → ℚ) (hS : IsSummation p S) (n : ℕ) (u : ℕ → ℚ)
    (hf : ∀ j < n, IsFloat p (u j)) (hpos : ∀ j < n, 0 < u j) :
    (∀ i j, i < n → j < n → u i ≤ u j → ∀ x y, (Rd.probOf (roundBits p) S n u)[i]? = some x →
      (Rd.probOf (roundBits p) S n u)[j]? = some y → x ≤ y) ∧
    ∀ j < n, ∃ q, (Rd.probOf (roundBits p) S n u)[j]? = some q ∧ 0 < q ∧
      (1 - 1 / 2 ^ p) * u j ≤ q * ((1 + 1 / 2 ^ p) ^ (n - 1) * ∑ i ∈ Finset.range n, u i) ∧
      q * ((1 - 1 / 2 ^ p) ^ (n - 1) * ∑ i ∈ Finset.range n, u i) ≤ (1 + 1 / 2 ^ p) * u j := by
  have he := Rd.eps_le hp
  have he0 := Rd.eps_pos (p := p)
  have hget : ∀ j < n, (Rd.probOf (roundBits p) S n u)[j]? = some (roundBits p (u j / S ((List.range n).map u))) := by
    intro j hj
    simp [Rd.probOf, hj]
  have hSb : ∀ j < n, (1 - 1 / 2 ^ p) ^ (n - 1) * ∑ i ∈ Finset.range n, u i ≤ S ((List.range n).map u) ∧
      S ((List.range n).map u) ≤ (1 + 1 / 2 ^ p) ^ (n - 1) * ∑ i ∈ Finset.range n, u i ∧ 0 < S ((List.range n).map u) := by
    intro j hj
    have := Rd.summation_bounds hp hS ((List.range n).map u) (by simp; omega)
      (by
        intro x hx
        obtain ⟨i, hi, rfl⟩ := List.mem_map.1 hx
        exact hf i (List.mem_range.1 hi))
      (by
        intro x hx
        obtain ⟨i, hi, rfl⟩ := List.mem_map.1 hx
        exact (hpos i (List.mem_range.1 hi)).le)
    rw [List.length_map, List.length_range, list_sum_range] at this
    refine ⟨this.1, this.2, lt_of_lt_of_le (mul_pos (pow_pos (by linarith) _) ?_) this.1⟩
    exact Finset.sum_pos (fun i hi => hpos i (Finset.mem_range.1 hi)) ⟨j, Finset.mem_range.2 hj⟩
  refine ⟨?_, ?_⟩
  · intro i j hi hj hij x y hx hy
    rw [hget i hi] at hx
    rw [hget j hj] at hy
    cases hx
    cases hy
    exact roundBits_mono p hp (div_le_div_of_nonneg_right hij (hSb i hi).2.2.le)
  · intro j hj
    obtain ⟨b1, b2, b3⟩ := hSb j hj
    have hu := hpos j hj
    refine ⟨_, hget j hj, roundBits_pos p hp (div_pos hu b3), ?_, ?_⟩
    · have h1 := Rd.roundBits_ge_one_sub hp (div_pos hu b3).le
      have h2 := roundBits_pos p hp (div_pos hu b3)
      calc (1 - 1 / 2 ^ p) * u j = (1 - 1 / 2 ^ p) * (u j / S ((List.range n).map u)) * S ((List.range n).map u) := by
            field_simp
        _ ≤ roundBits p (u j / S ((List.range n).map u)) * S ((List.range n).map u) :=
            mul_le_mul_of_nonneg_right h1 b3.le
        _ ≤ _ := mul_le_mul_of_nonneg_left b2 h2.le
    · have h1 := Rd.roundBits_le_one_add hp (div_pos hu b3).le
      have h2 := roundBits_pos p hp (div_pos hu b3)
      calc _ ≤ roundBits p (u j / S ((List.range n).map u)) * S ((List.range n).map u) :=
            mul_le_mul_of_nonneg_left b1 h2.le
        _ ≤ (1 + 1 / 2 ^ p) * (u j / S ((List.range n).map u)) * S ((List.range n).map u) :=
            mul_le_mul_of_nonneg_right h1 b3.le
        _ = _ := by field_simp

/-- C104: without rounding the recomputed uniqueness is the one of the exact model. -/
theorem C104_exact (M : IndMat) (drawn : List ℕ) (j : ℕ) (hb : (barsOf M j).Nonempty) :
    Boot.updateAvgUnique M drawn j = .fin (Rd.updateAvgUnique id id M drawn j) := by
  have hk0 : (colRows M j).length ≠ 0 := by
    rw [colRows_length]; exact (Finset.card_pos.2 hb).ne'
  have hkq : ((colRows M j).length : ℚ) ≠ 0 := by exact_mod_cast hk0
  unfold Boot.updateAvgUnique Rd.updateAvgUnique
  have : ((colRows M j).map fun t => XF.mul (.fin 1) (concPerSample M drawn t j)) =
      ((colRows M j).map fun t =>
      let part : ℕ := drawn.countP fun i => M.ent t i
      let own : ℚ := if M.ent t j then 1 else 0
      id (1 * if part ≠ 0 then id (1 / id (own + part)) else id own)).map XF.fin := by
    rw [List.map_map]
    apply List.map_congr_left
    intro t ht
    have hent : M.ent t j = true := (List.mem_filter.1 ht).2
    unfold concPerSample
    dsimp only [Function.comp, id]
    rw [hent, if_pos rfl]
    by_cases h : (drawn.countP fun i => M.ent t i) ≠ 0
    · rw [if_pos h, if_pos h]
      have : (1 : ℚ) + ((drawn.countP fun i => M.ent t i : ℕ) : ℚ) ≠ 0 := by positivity
      simp [XF.div, XF.mul, this]
    · rw [if_neg h, if_neg h]
      simp [XF.mul]
  rw [this, sum_fin_id]
  simp [XF.div, hkq]

/-- The first sample shares two of its three bars with the second one. -/
example : Rd.updateAvgUnique (roundBits 24) (roundBits 53) threeSamples [1] 0 = roundBits 53 (2 / 3) ∧
    Rd.updateAvgUnique (roundBits 24) (roundBits 53) threeSamples [1] 1 = 1 / 2 ∧
    Rd.updateAvgUnique (roundBits 24) (roundBits 53) threeSamples [1, 1] 1 = roundBits 24 (1 / 3) := by
  decide +kernel

example : Rd.seqBootstrapTrace (roundBits 24) (roundBits 53) (Rd.sum (roundBits 53)) threeSamples
      (fun _ _ m => List.replicate m 1) (some 2) 1 =
    .ok [(List.replicate 3 (roundBits 53 (1 / 3)), [1]),
      ([roundBits 53 (2 / 3), 1 / 2, 1].map
        fun u => roundBits 53 (u / Rd.sum (roundBits 53) [roundBits 53 (2 / 3), 1 / 2, 1]), [1])] := by
  decide +kernel

example : IsSummation 53 (Rd.sum (roundBits 53)) ∧ 40 * 2 ^ 26 * threeSamples.nCols ≤ 2 ^ 53 ∧
    ∀ j < threeSamples.nCols, (barsOf threeSamples j).card < 2 ^ 53 :=
  ⟨Rd.isSummation_sum (by norm_num), by decide +kernel, by decide +kernel⟩

end Mizar.Props
