import Verif.Props.BagPredict

/-!
Property theorems C128: how far a prediction of the bagging classifier can move when estimators are added or exchanged
(`/repo/mizarlabs/model/sequentially_bootstrapped_bagging_classifier.py` lines 294-467).
-/

namespace Mizar.Props
open Mizar.Spec Mizar.Bag

theorem classProb_le_one {nC : ℕ} {e : OobEst} (he : ProperEst nC e) (i k : ℕ) (hk : k < nC) : classProb e i k ≤ 1 := by
  obtain ⟨h1, h2⟩ := sum_classProb he i
  rw [← h1]
  exact List.single_le_sum (by intro x hx; obtain ⟨j, -, rfl⟩ := List.mem_map.1 hx; exact h2 j) _
    (List.mem_map.2 ⟨k, List.mem_range.2 hk, rfl⟩)

theorem sum_classProb_bounds {nC : ℕ} (l : List OobEst) (hl : ∀ e ∈ l, ProperEst nC e) (i k : ℕ) (hk : k < nC) :
    0 ≤ (l.map fun e => classProb e i k).sum ∧ (l.map fun e => classProb e i k).sum ≤ l.length := by
  induction l with
  | nil => simp
  | cons e l ih =>
    obtain ⟨a, b⟩ := ih fun x hx => hl x (List.mem_cons_of_mem _ hx)
    have c := classProb_le_one (hl e List.mem_cons_self) i k hk
    have d := (sum_classProb (hl e List.mem_cons_self) i).2 k
    simp only [List.map_cons, List.sum_cons, List.length_cons]
    push_cast
    constructor <;> linarith

/-- C128: the order of the estimators does not matter. -/
theorem C128_order (jobs jobs' nC : ℕ) (hj : 1 ≤ jobs) (hj' : 1 ≤ jobs') (ests ests' : List OobEst) (hp : ests.Perm ests')
    (hn : ests ≠ []) (hes : ∀ e ∈ ests, ProperEst nC e) (i : ℕ) :
    predictProba ests.length jobs nC ests i = predictProba ests'.length jobs' nC ests' i := by
  rw [C95_mean jobs nC hj ests hn hes i, C95_mean jobs' nC hj' ests' (fun h => hn (by rw [h] at hp; exact hp.eq_nil))
    (fun e he => hes e (hp.mem_iff.2 he)) i]
  congr 1
  apply List.map_congr_left
  intro k _
  unfold meanProb
  rw [(hp.map fun e => classProb e i k).sum_eq, hp.length_eq]

/-- C128: exchanging some of the estimators for others moves the probability of every class by at most the share of the
estimators exchanged. -/
theorem C128_exchange (jobs jobs' nC : ℕ) (hj : 1 ≤ jobs) (hj' : 1 ≤ jobs') (kept gone come : List OobEst)
    (hlen : gone.length = come.length) (hn : kept ++ gone ≠ [])
    (hes : ∀ e ∈ kept ++ gone, ProperEst nC e) (hes' : ∀ e ∈ come, ProperEst nC e) (i : ℕ) :
    ∃ row row', predictProba (kept ++ gone).length jobs nC (kept ++ gone) i = .ok row ∧
      predictProba (kept ++ come).length jobs' nC (kept ++ come) i = .ok row' ∧ row.length = nC ∧ row'.length = nC ∧
      ∀ k < nC, |row'.getD k 0 - row.getD k 0| ≤ (come.length : ℚ) / (kept ++ come).length := by
  have hl : (0 : ℚ) < (kept ++ gone).length := by exact_mod_cast List.length_pos_iff.2 hn
  have hl' : (kept ++ come).length = (kept ++ gone).length := by simp [hlen]
  have hn' : kept ++ come ≠ [] := by
    rw [← List.length_pos_iff, hl']; exact List.length_pos_iff.2 hn
  have hes2 : ∀ e ∈ kept ++ come, ProperEst nC e := by
    intro e he
    rcases List.mem_append.1 he with h | h
    · exact hes e (List.mem_append_left _ h)
    · exact hes' e h
  refine ⟨_, _, C95_mean jobs nC hj _ hn hes i, C95_mean jobs' nC hj' _ hn' hes2 i, by simp, by simp, ?_⟩
  intro k hk
  have g : ∀ l : List OobEst, ((List.range nC).map (meanProb l i)).getD k 0 = meanProb l i k := by intro l; simp [hk]
  rw [g, g]
  unfold meanProb
  rw [hl', ← sub_div, abs_div, abs_of_pos hl]
  apply div_le_div_of_nonneg_right _ hl.le
  obtain ⟨a1, a2⟩ := sum_classProb_bounds gone (fun e he => hes e (List.mem_append_right _ he)) i k hk
  obtain ⟨b1, b2⟩ := sum_classProb_bounds come hes' i k hk
  rw [hlen] at a2
  simp only [List.map_append, List.sum_append]
  rw [abs_le]
  constructor <;> linarith

/-- C128: `m` further estimators beside `n` move the probability of every class by at most `m / (n + m)`. -/
theorem C128_more (jobs jobs' nC : ℕ) (hj : 1 ≤ jobs) (hj' : 1 ≤ jobs') (ests more : List OobEst) (hn : ests ≠ [])
    (hes : ∀ e ∈ ests ++ more, ProperEst nC e) (i : ℕ) :
    ∃ row row', predictProba ests.length jobs nC ests i = .ok row ∧
      predictProba (ests ++ more).length jobs' nC (ests ++ more) i = .ok row' ∧ row.length = nC ∧ row'.length = nC ∧
      ∀ k < nC, |row'.getD k 0 - row.getD k 0| ≤ (more.length : ℚ) / (ests.length + more.length) := by
  have hl : (0 : ℚ) < ests.length := by exact_mod_cast List.length_pos_iff.2 hn
  have hm : (0 : ℚ) ≤ more.length := by positivity
  have he1 : ∀ e ∈ ests, ProperEst nC e := fun e he => hes e (List.mem_append_left _ he)
  refine ⟨_, _, C95_mean jobs nC hj _ hn he1 i, C95_mean jobs' nC hj' _ (by simp [hn]) hes i, by simp, by simp, ?_⟩
  intro k hk
  have g : ∀ l : List OobEst, ((List.range nC).map (meanProb l i)).getD k 0 = meanProb l i k := by intro l; simp [hk]
  rw [g, g]
  unfold meanProb
  obtain ⟨a1, a2⟩ := sum_classProb_bounds ests he1 i k hk
  obtain ⟨b1, b2⟩ := sum_classProb_bounds more (fun e he => hes e (List.mem_append_right _ he)) i k hk
  simp only [List.map_append, List.sum_append, List.length_append]
  push_cast
  generalize (ests.map fun e => classProb e i k).sum = A at *
  generalize (more.map fun e => classProb e i k).sum = B at *
  generalize (ests.length : ℚ) = n at *
  generalize (more.length : ℚ) = m at *
  have hnm : 0 < n + m := by linarith
  have e : (A + B) / (n + m) - A / n = (B - m * (A / n)) / (n + m) := by
    field_simp
    ring
  have hq0 : 0 ≤ A / n := div_nonneg a1 hl.le
  have hq1 : A / n ≤ 1 := (div_le_one hl).2 a2
  rw [e, abs_div, abs_of_pos hnm]
  apply div_le_div_of_nonneg_right _ hnm.le
  rw [abs_le]
  constructor <;> nlinarith

/-- C128: a class that leads every other class by more than `m / n` is still predicted after `m` further estimators. -/
theorem C128_prediction_stays (jobs nC : ℕ) (hj : 1 ≤ jobs) (hC : 1 ≤ nC) (ests more : List OobEst) (hn : ests ≠ [])
    (hes : ∀ e ∈ ests ++ more, ProperEst nC e) (i : ℕ) (row : List ℚ)
    (hrow : predictProba ests.length jobs nC ests i = .ok row) (k : ℕ) (hk : k < nC)
    (hlead : ∀ j < nC, j ≠ k → (more.length : ℚ) / ests.length < row.getD k 0 - row.getD j 0) :
    predictClass ests.length jobs nC ests i = .ok k ∧
    ∀ jobs' ≥ 1, predictClass (ests ++ more).length jobs' nC (ests ++ more) i = .ok k := by
  have hl : (0 : ℚ) < ests.length := by exact_mod_cast List.length_pos_iff.2 hn
  have hm : (0 : ℚ) ≤ more.length := by positivity
  have he1 : ∀ e ∈ ests, ProperEst nC e := fun e he => hes e (List.mem_append_left _ he)
  rw [C95_mean jobs nC hj _ hn he1 i] at hrow
  cases hrow
  have g : ∀ j < nC, ((List.range nC).map (meanProb ests i)).getD j 0 = meanProb ests i j := by intro j hj; simp [hj]
  have hlead' : ∀ j < nC, j ≠ k → (more.length : ℚ) / ests.length < meanProb ests i k - meanProb ests i j := by
    intro j hj hjk
    have := hlead j hj hjk
    rwa [g k hk, g j hj] at this
  constructor
  · obtain ⟨c, h1, h2, h3, -⟩ := C95_predict jobs nC hj hC ests hn he1 i
    by_cases hc : c = k
    · rw [h1, hc]
    · have a := hlead' c h2 hc
      have b := h3 k hk
      have : 0 ≤ (more.length : ℚ) / ests.length := div_nonneg hm hl.le
      linarith
  · intro jobs' hj'
    obtain ⟨c, h1, h2, h3, -⟩ := C95_predict jobs' nC hj' hC (ests ++ more) (by simp [hn]) hes i
    by_cases hc : c = k
    · rw [h1, hc]
    · exfalso
      have a := hlead' c h2 hc
      have b := h3 k hk
      unfold meanProb at a b
      obtain ⟨a1, a2⟩ := sum_classProb_bounds more (fun e he => hes e (List.mem_append_right _ he)) i k hk
      obtain ⟨b1, b2⟩ := sum_classProb_bounds more (fun e he => hes e (List.mem_append_right _ he)) i c h2
      rw [← sub_div, div_lt_div_iff_of_pos_right hl] at a
      have hnm : (0 : ℚ) < (ests ++ more).length := by simp only [List.length_append]; push_cast; linarith
      rw [div_le_div_iff_of_pos_right hnm] at b
      simp only [List.map_append, List.sum_append] at b
      linarith

/-- An estimator that has only seen class `c`. -/
def sureOf (c : ℕ) : OobEst := ⟨[c], some fun _ => [1], fun _ => c, true⟩

theorem sureOf_proper {nC c : ℕ} (hc : c < nC) : ProperEst nC (sureOf c) := by
  refine ⟨by simp [sureOf], by simpa [sureOf] using hc, ?_, by simp [sureOf]⟩
  intro f hf i
  cases hf
  simp [sureOf]

/-- C128: the bound is best possible for every number of estimators, and with a lead of exactly `m / n` the prediction can
change. -/
theorem C128_sharp (n m nC : ℕ) (hn : 1 ≤ n) (hm : 1 ≤ m) (hC : 2 ≤ nC) (jobs : ℕ) (hj : 1 ≤ jobs) (i : ℕ) :
    (∃ row row', predictProba n jobs nC (List.replicate n (sureOf 1)) i = .ok row ∧
      predictProba (n + m) jobs nC (List.replicate n (sureOf 1) ++ List.replicate m (sureOf 0)) i = .ok row' ∧
      |row'.getD 0 0 - row.getD 0 0| = (m : ℚ) / (n + m)) ∧
    predictClass n jobs nC (List.replicate n (sureOf 1)) i = .ok 1 ∧
    predictClass (n + n) jobs nC (List.replicate n (sureOf 1) ++ List.replicate n (sureOf 0)) i = .ok 0 := by
  have hp1 : ∀ e ∈ List.replicate n (sureOf 1), ProperEst nC e := by
    intro e he; rw [List.eq_of_mem_replicate he]; exact sureOf_proper (by omega)
  have hp : ∀ m, ∀ e ∈ List.replicate n (sureOf 1) ++ List.replicate m (sureOf 0), ProperEst nC e := by
    intro m e he
    rcases List.mem_append.1 he with h | h
    · exact hp1 e h
    · rw [List.eq_of_mem_replicate h]; exact sureOf_proper (by omega)
  have hne : List.replicate n (sureOf 1) ≠ [] := by simp; omega
  have hne' : ∀ m, List.replicate n (sureOf 1) ++ List.replicate m (sureOf 0) ≠ [] := fun m => by
    simp; omega
  have hlen : ∀ m, (List.replicate n (sureOf 1) ++ List.replicate m (sureOf 0)).length = n + m := by simp
  have hcp : ∀ c k, classProb (sureOf c) i k = if k = c then 1 else 0 := by
    intro c k; by_cases h : k = c <;> simp [classProb, sureOf, h]
  have hmean : ∀ m k, meanProb (List.replicate n (sureOf 1) ++ List.replicate m (sureOf 0)) i k =
      (n * (if k = 1 then 1 else 0) + m * (if k = 0 then 1 else 0)) / (n + m) := by
    intro m k
    unfold meanProb
    rw [hlen, List.map_append, List.sum_append, List.map_replicate, List.map_replicate, List.sum_replicate,
      List.sum_replicate, hcp, hcp]
    simp
  have hnq : (0 : ℚ) < n := by exact_mod_cast hn
  have hmq : (0 : ℚ) < m := by exact_mod_cast hm
  have hmean0 : ∀ k, meanProb (List.replicate n (sureOf 1)) i k = if k = 1 then 1 else 0 := by
    intro k
    have := hmean 0 k
    simp only [List.replicate_zero, List.append_nil] at this
    rw [this]
    by_cases h : k = 1
    · simp [h, hnq.ne']
    · simp [h]
  refine ⟨?_, ?_, ?_⟩
  · have r1 := C95_mean jobs nC hj _ hne hp1 i
    have r2 := C95_mean jobs nC hj _ (hne' m) (hp m) i
    rw [List.length_replicate] at r1
    rw [hlen] at r2
    refine ⟨_, _, r1, r2, ?_⟩
    have g : ∀ l : List OobEst, ((List.range nC).map (meanProb l i)).getD 0 0 = meanProb l i 0 := by
      intro l; simp [show 0 < nC by omega]
    rw [g, g, hmean, hmean0]
    simp only [if_neg (show ¬ (0 : ℕ) = 1 by omega), if_true, mul_zero, zero_add, mul_one, sub_zero]
    exact abs_of_pos (div_pos hmq (by linarith))
  · obtain ⟨c, h1, h2, h3, -⟩ := C95_predict jobs nC hj (by omega) _ hne hp1 i
    rw [List.length_replicate] at h1
    have := h3 1 (by omega)
    rw [hmean0, hmean0] at this
    by_cases hc : c = 1
    · rw [h1, hc]
    · simp [hc] at this
      linarith
  · obtain ⟨c, h1, h2, h3, h4⟩ := C95_predict jobs nC hj (by omega) _ (hne' n) (hp n) i
    rw [hlen] at h1
    by_cases hc : c = 0
    · rw [h1, hc]
    · exfalso
      have := h4 0 (by omega)
      rw [hmean, hmean, div_lt_div_iff_of_pos_right (by linarith)] at this
      by_cases hc1 : c = 1
      · simp [hc1] at this
      · simp [hc, hc1] at this
        linarith

/-- Two estimators beside the two of `demoEsts`; the first row moves by less than a half. -/
example : predictProba 2 3 3 demoEsts 0 = .ok [1/8, 1/2, 3/8] ∧
    predictProba 4 1 3 (demoEsts ++ [sureOf 2, sureOf 2]) 0 = .ok [1/16, 1/4, 11/16] := by decide +kernel

/-- Four sure estimators out of five, one more estimator: the lead 3/5 exceeds 1/5, so the class stays. -/
example : predictProba 5 2 2 ([sureOf 0] ++ List.replicate 4 (sureOf 1)) 0 = .ok [1/5, 4/5] ∧
    predictClass 6 1 2 ([sureOf 0] ++ List.replicate 4 (sureOf 1) ++ [sureOf 0]) 0 = .ok 1 := by decide +kernel

end Mizar.Props
