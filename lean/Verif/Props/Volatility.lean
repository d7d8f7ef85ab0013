import Verif.Lemmas.EwmVar
import Verif.Props.DailyVol
import Verif.Props.Technical
import Verif.Props.Labeling

/-!
Property theorems C100: the daily volatility as a number (`ewm(span).std()` of the daily returns,
`/repo/mizarlabs/transformers/targets/labeling.py` line 462), and the labels of a price series with one spike.
-/

set_option linter.unusedSectionVars false

namespace Mizar.Props
open Mizar.Spec Mizar.Lab Finset

section
variable {K : Type} [Field K] [LinearOrder K] [IsStrictOrderedRing K]

/-- C100 (variance): the recursion for `ewm(span).var()` gives the unbiased variance with weights `((span-1)/(span+1))^d`
as soon as there are two observations and is missing before; it is not negative, and zero exactly if all observations so
far are equal. -/
theorem C100_weighted_variance (span : ℕ) (hs : 2 ≤ span) (l : List (XF K)) (i : ℕ) (hi : i < l.length) :
    ((∃ a b, a < b ∧ b ≤ i ∧ finAt l a ≠ none ∧ finAt l b ≠ none) →
      (ewmVar (ewmAlpha span) l)[i]? = some (.fin (ewVariance (((span : K) - 1) / (span + 1)) l i)) ∧
      0 ≤ ewVariance (((span : K) - 1) / (span + 1)) l i ∧
      (ewVariance (((span : K) - 1) / (span + 1)) l i = 0 ↔
        ∀ a b x y, a ≤ i → b ≤ i → finAt l a = some x → finAt l b = some y → x = y)) ∧
    ((∀ a b, a < b → b ≤ i → finAt l a = none ∨ finAt l b = none) → (ewmVar (ewmAlpha span) l)[i]? = some .nan) := by
  obtain ⟨q, -, hq', ha, hqe⟩ := ewm_alpha_q (K := K) span (by omega)
  have hq := hq' hs
  rw [← hqe, ha]
  have he : (ewmVar (1 - q) l)[i]? =
      some (ewmVarOut (((l.map XF.prep).take (i + 1)).foldl (ewmVarStep (1 - q)) ⟨.nan, .fin 0, 1, 1, 1⟩)) := by
    unfold ewmVar
    rw [scanMap_getElem? _ _ _ _ _ (by simpa using hi)]
  obtain ⟨s1, s2⟩ := ewmVar_state q hq l (i + 1) (by omega)
  obtain ⟨t1, t2⟩ := ewT_sq_lt q hq l (i + 1)
  rw [he]
  constructor
  · rintro ⟨a, b, hab, hb, h1, h2⟩
    obtain ⟨m, c, hst, hm, hc⟩ := s2 ⟨a, by omega, h1⟩
    have hlt := t1 ⟨a, b, hab, by omega, h1, h2⟩
    have hW := ewT_pos q hq l (i + 1) ⟨a, by omega, h1⟩
    have hd : 0 < (ewT q l (i + 1) fun _ => 1) ^ 2 - ewT (q ^ 2) l (i + 1) fun _ => 1 := by linarith
    have em : ewMean q l i = m := by
      unfold ewMean
      rw [ewSum_eq, ewSum_eq, ← hm, mul_div_cancel_left₀ _ hW.ne']
    have ec : (ewSum q l i fun x => (x - m) ^ 2) / (ewSum q l i fun _ => 1) = c := by
      rw [ewSum_eq, ewSum_eq, ← hc, mul_div_cancel_left₀ _ hW.ne']
    have ev : ewVariance q l i = (ewT q l (i + 1) fun _ => 1) ^ 2 / ((ewT q l (i + 1) fun _ => 1) ^ 2 -
        ewT (q ^ 2) l (i + 1) fun _ => 1) * c := by
      unfold ewVariance
      dsimp only
      rw [em, ec]
      rfl
    have hpos : 0 < (ewT q l (i + 1) fun _ => 1) ^ 2 / ((ewT q l (i + 1) fun _ => 1) ^ 2 -
        ewT (q ^ 2) l (i + 1) fun _ => 1) := by positivity
    have hterm : ∀ j ∈ range (i + 1), 0 ≤ (finAt l j).elim 0 fun x => q ^ (i + 1 - 1 - j) * (x - m) ^ 2 := by
      intro j _
      cases finAt l j with
      | none => simp
      | some x => simp only [Option.elim_some]; positivity
    have hS : 0 ≤ ewT q l (i + 1) fun x => (x - m) ^ 2 := Finset.sum_nonneg hterm
    have hc0 : 0 ≤ c := by
      by_contra h
      push Not at h
      have := mul_neg_of_pos_of_neg hW h
      linarith
    refine ⟨?_, ?_, ?_⟩
    · rw [hst]
      unfold ewmVarOut
      simp only [XF.isNan_fin, Bool.false_eq_true, if_false]
      rw [if_pos (by rw [← pow_two]; exact hd), XF.mul_fin, ev, ← pow_two (ewT q l (i + 1) fun _ => 1)]
    · rw [ev]; positivity
    · rw [ev]
      have hz : (ewT q l (i + 1) fun _ => 1) ^ 2 / ((ewT q l (i + 1) fun _ => 1) ^ 2 -
          ewT (q ^ 2) l (i + 1) fun _ => 1) * c = 0 ↔ (ewT q l (i + 1) fun x => (x - m) ^ 2) = 0 := by
        rw [← hc, mul_eq_zero, mul_eq_zero]
        simp [hpos.ne', hW.ne']
      rw [hz]
      constructor
      · intro h0 a b x y ha hb hx hy
        have hall := (Finset.sum_eq_zero_iff_of_nonneg hterm).1 h0
        have key : ∀ a x, a ≤ i → finAt l a = some x → x = m := by
          intro a x ha hx
          have := hall a (mem_range.2 (by omega))
          rw [hx] at this
          simp only [Option.elim_some] at this
          have hp : q ^ (i + 1 - 1 - a) ≠ 0 := (pow_pos hq _).ne'
          rcases mul_eq_zero.1 this with h | h
          · exact absurd h hp
          · have := pow_eq_zero_iff (two_ne_zero) |>.1 h
            linarith
        rw [key a x ha hx, key b y hb hy]
      · intro heq
        cases hx : finAt l a with
        | none => exact absurd hx h1
        | some x =>
          have e : ∀ g : K → K, ewT q l (i + 1) g = (ewT q l (i + 1) fun _ => 1) * g x := by
            intro g
            unfold ewT
            rw [Finset.sum_mul]
            apply Finset.sum_congr rfl
            intro j hj
            rw [mem_range] at hj
            cases hy : finAt l j with
            | none => simp
            | some y =>
              rw [heq a j x y (by omega) (by omega) hx hy]
              simp
          have hmx : m = x := by
            rw [e id] at hm
            exact mul_left_cancel₀ hW.ne' hm
          rw [e, hmx]; simp
  · intro hno
    by_cases hobs : ∃ j < i + 1, finAt l j ≠ none
    · obtain ⟨m, c, hst, -, -⟩ := s2 hobs
      have h0 := t2 fun a b h1 h2 => hno a b h1 (by omega)
      rw [hst]
      unfold ewmVarOut
      simp only [XF.isNan_fin, Bool.false_eq_true, if_false]
      rw [if_neg (by rw [h0, ← pow_two]; simp)]
    · rw [s1 fun j hj => by by_contra h; exact hobs ⟨j, hj, h⟩]
      rfl

/-- C100 (span 1): with a span of 1 the variance is missing at every bar, whatever the observations. -/
theorem C100_span_one (l : List (XF K)) (i : ℕ) (hi : i < l.length) : (ewmVar (ewmAlpha 1) l)[i]? = some .nan := by
  have ha : (ewmAlpha 1 : K) = 1 := by unfold ewmAlpha; norm_num
  rw [ha]
  unfold ewmVar
  rw [scanMap_getElem? _ _ _ _ _ (by simpa using hi)]
  have key : ∀ (xs : List (XF K)) (s : EwmVarSt K), (s.mean.isNan = true ∨ s.sumWt * s.sumWt = s.sumWt2) →
      s.sumWt * s.sumWt = s.sumWt2 → ewmVarOut (xs.foldl (ewmVarStep 1) s) = .nan := by
    intro xs
    induction xs with
    | nil =>
      intro s _ h
      change ewmVarOut s = .nan
      unfold ewmVarOut
      split
      · rfl
      · rw [if_neg (by rw [h]; simp)]
    | cons x xs ih =>
      intro s _ h
      rw [List.foldl_cons]
      have : (ewmVarStep 1 s x).sumWt * (ewmVarStep 1 s x).sumWt = (ewmVarStep 1 s x).sumWt2 := by
        unfold ewmVarStep
        split
        · split
          · exact h
          · exact h
        · dsimp only
          split
          · simp
          · simp
      exact ih _ (Or.inr this) this
  rw [key _ _ (Or.inl rfl) (by simp)]

end


/-- The value of `ewm(span).std()` is missing or a number that is not negative. -/
theorem ewmStd_value (span : ℕ) (hs : 1 ≤ span) (l : List (XF ℝ)) (x : XF ℝ) (hx : x ∈ ewmStd (ewmAlpha span) l) :
    x = .nan ∨ ∃ v, 0 ≤ v ∧ x = .fin v := by
  unfold ewmStd at hx
  obtain ⟨y, hy, rfl⟩ := List.mem_map.1 hx
  obtain ⟨i, hi, rfl⟩ := List.getElem_of_mem hy
  have hil : i < l.length := by rwa [ewmVar_length] at hi
  have key : (ewmVar (ewmAlpha span) l)[i]? = some .nan ∨ ∃ v, (ewmVar (ewmAlpha span) l)[i]? = some (.fin v) := by
    rcases Nat.lt_or_ge span 2 with h1 | h2
    · obtain rfl : span = 1 := by omega
      exact Or.inl (C100_span_one l i hil)
    · obtain ⟨a, b⟩ := C100_weighted_variance span h2 l i hil
      by_cases h : ∃ a b, a < b ∧ b ≤ i ∧ finAt l a ≠ none ∧ finAt l b ≠ none
      · exact Or.inr ⟨_, (a h).1⟩
      · push Not at h
        left
        apply b
        intro a b h1 h2
        by_cases ha : finAt l a = none
        · exact Or.inl ha
        · exact Or.inr (h a b h1 h2 ha)
  rw [List.getElem?_eq_getElem hi] at key
  rcases key with h | ⟨v, h⟩
  · left; rw [Option.some.inj h]; rfl
  · rw [Option.some.inj h]
    unfold XF.sqrt
    dsimp only
    split
    · exact Or.inl rfl
    · exact Or.inr ⟨_, Real.sqrt_nonneg _, rfl⟩

/-- C100: whatever the bars are, the volatility column holds missing values and numbers that are not negative (this is
the hypothesis on the volatility of C26 and C27). -/
theorem C100_not_negative (span : ℕ) (hs : 1 ≤ span) (times : List ℤ) (close : List (XF ℝ)) :
    ∃ vol : List (Option ℝ), dailyVolColumn (ewmStd (ewmAlpha span)) times close = vol.map xf ∧
      vol.length = times.length ∧ ∀ v, some v ∈ vol → 0 ≤ v := by
  have key : ∀ x ∈ dailyVolColumn (ewmStd (ewmAlpha span)) times close, x = .nan ∨ ∃ v, 0 ≤ v ∧ x = .fin v := by
    intro x hx
    unfold dailyVolColumn alignTo at hx
    obtain ⟨t, -, rfl⟩ := List.mem_map.1 hx
    cases hf : (getDailyVol (ewmStd (ewmAlpha span)) times close).find? (fun p => decide (p.1 = t)) with
    | none => exact Or.inl rfl
    | some p => exact ewmStd_value span hs _ _ (List.of_mem_zip (List.mem_of_find?_eq_some hf)).2
  have gen : ∀ l : List (XF ℝ), (∀ x ∈ l, x = .nan ∨ ∃ v, 0 ≤ v ∧ x = .fin v) →
      ∃ vol : List (Option ℝ), l = vol.map xf ∧ ∀ v, some v ∈ vol → 0 ≤ v := by
    intro l
    induction l with
    | nil => intro _; exact ⟨[], rfl, by simp⟩
    | cons x l ih =>
      intro h
      obtain ⟨vol, e, hv⟩ := ih fun y hy => h y (List.mem_cons_of_mem _ hy)
      rcases h x List.mem_cons_self with rfl | ⟨v, h0, rfl⟩
      · exact ⟨none :: vol, by rw [List.map_cons, ← e]; rfl, by simpa using hv⟩
      · refine ⟨some v :: vol, by rw [List.map_cons, ← e]; rfl, ?_⟩
        intro w hw
        rcases List.mem_cons.1 hw with hw | hw
        · cases hw; exact h0
        · exact hv w hw
  obtain ⟨vol, e, hv⟩ := gen _ key
  refine ⟨vol, e, ?_, hv⟩
  have := congrArg List.length e
  rw [List.length_map] at this
  rw [← this]
  simp [dailyVolColumn, alignTo]

/-- C100: for bars in increasing order with positive prices, the volatility of bar `i` is a number exactly if the
previous bar is more than one day after the first one (two bars have a daily return).  The number is the square root of
the weighted unbiased variance of the daily returns up to bar `i`, with weights `((span-1)/(span+1))^d`; it is not
negative, and zero exactly if the daily returns so far are all equal. -/
theorem C100_daily_volatility (span : ℕ) (hs : 2 ≤ span) (times : List ℤ) (close : List ℝ)
    (hsorted : times.Pairwise (· < ·)) (hlen : close.length = times.length) (hpos : ∀ x ∈ close, 0 < x)
    (i : ℕ) (hi : i < times.length) :
    let R := dailyReturns times (close.map XF.fin)
    let col := dailyVolColumn (ewmStd (ewmAlpha span)) times (close.map XF.fin)
    (1 ≤ i ∧ times.getD 0 0 + 86400000000000 < times.getD (i - 1) 0 → ∃ k v, (R.map (·.1))[k]? = some times[i] ∧
      col[i]? = some (.fin v) ∧ 0 ≤ v ∧
      v = Real.sqrt (ewVariance (((span : ℝ) - 1) / (span + 1)) (R.map (·.2)) k) ∧
      (v = 0 ↔ ∀ p ∈ R, ∀ p' ∈ R, p.1 ≤ times[i] → p'.1 ≤ times[i] → p.2 = p'.2)) ∧
    (¬ (1 ≤ i ∧ times.getD 0 0 + 86400000000000 < times.getD (i - 1) 0) → col[i]? = some .nan) := by
  intro R col
  have hlen' : (close.map XF.fin).length = times.length := by simpa using hlen
  -- the bars with a return are the bars from `d` on
  obtain ⟨d, hd⟩ : ∃ d, times.filter (hasRef times) = times.drop d := ⟨_, filter_suffix (hasRef times) times (hsorted.imp (by
    intro a b hab ha
    unfold hasRef at ha ⊢
    rw [decide_eq_true_eq] at ha ⊢
    exact lt_of_lt_of_le ha (ss_mono times (by omega))))⟩
  have href : ∀ j (hj : j < times.length), hasRef times times[j] = true ↔ times.getD 0 0 + 86400000000000 < times[j] := by
    intro j hj
    unfold hasRef
    rw [decide_eq_true_eq, ← ss_spec hsorted _ 0 (by omega), List.getD_eq_getElem _ _ (by omega)]
    show times[0] < times[j] - 86400000000000 ↔ _
    omega
  have hdj : ∀ j (hj : j < times.length), d ≤ j ↔ hasRef times times[j] = true := by
    intro j hj
    constructor
    · intro h
      have hm : times[j] ∈ times.drop d := by
        rw [List.mem_iff_getElem]
        exact ⟨j - d, by simp; omega, by simp [Nat.add_sub_cancel' h]⟩
      rw [← hd, List.mem_filter] at hm
      exact hm.2
    · intro h
      have hm : times[j] ∈ times.drop d := by rw [← hd, List.mem_filter]; exact ⟨List.getElem_mem hj, h⟩
      obtain ⟨a, ha, e⟩ := List.getElem_of_mem hm
      rw [List.getElem_drop] at e
      rw [List.length_drop] at ha
      by_contra hc
      have := List.pairwise_iff_getElem.1 hsorted j (d + a) hj (by omega) (by omega)
      omega
  have hR : R = (times.drop d).map fun t => (t, refReturn times (close.map XF.fin) t) := by
    rw [← hd]; exact dailyReturns_eq hsorted _
  have hRfin : ∀ t ∈ times.drop d, ∃ x, refReturn times (close.map XF.fin) t = .fin x := by
    intro t ht
    rw [← hd, List.mem_filter] at ht
    obtain ⟨j, hj, rfl⟩ := List.getElem_of_mem ht.1
    have h2 := ht.2
    unfold hasRef at h2
    rw [decide_eq_true_eq] at h2
    have hle := ss_le times (times[j] - DAY)
    unfold refReturn refTime
    rw [lookup_getElem hsorted hlen' j hj, List.getD_eq_getElem times _ (by omega),
      lookup_getElem hsorted hlen' _ (by omega), List.getElem_map, List.getElem_map]
    have h0 : close[searchsortedLeft times (times[j] - DAY) - 1] ≠ 0 := (hpos _ (List.getElem_mem _)).ne'
    rw [XF.div_fin _ _ h0, XF.sub_fin]
    exact ⟨_, rfl⟩
  have hRl : R.length = times.length - d := by rw [hR]; simp
  have hget : ∀ k (hk : d + k < times.length), R[k]? = some (times[d + k], refReturn times (close.map XF.fin) times[d + k]) := by
    intro k hk
    rw [hR, List.getElem?_map, List.getElem?_drop, List.getElem?_eq_getElem hk]; rfl
  have hfin : ∀ k (hk : d + k < times.length), ∃ x, finAt (R.map (·.2)) k = some x ∧
      refReturn times (close.map XF.fin) times[d + k] = .fin x := by
    intro k hk
    have hm : times[d + k] ∈ times.drop d := by
      rw [List.mem_iff_getElem]; exact ⟨k, by simp; omega, by simp⟩
    obtain ⟨x, hx⟩ := hRfin _ hm
    refine ⟨x, ?_, hx⟩
    unfold finAt
    rw [List.getElem?_map, hget k hk, Option.map_some]
    simp only [hx]
  constructor
  · rintro ⟨h1, h2⟩
    have hd1 : d ≤ i - 1 := by
      rw [hdj (i - 1) (by omega), href (i - 1) (by omega)]
      rwa [List.getD_eq_getElem _ 0 (show i - 1 < times.length by omega)] at h2
    have hk : d + (i - d) < times.length := by omega
    have hki : d + (i - d) = i := by omega
    have hg := hget (i - d) hk
    simp only [hki] at hg
    have hcol : col[i]? = (ewmStd (ewmAlpha span) (R.map (·.2)))[i - d]? :=
      C33_estimator_of_returns _ (ewmStd_length _) times _ hsorted (i - d) i hi _ hg rfl
    obtain ⟨hv, -⟩ := C100_weighted_variance span hs (R.map (·.2)) (i - d) (by rw [List.length_map, hRl]; omega)
    obtain ⟨v1, v2, v3⟩ := hv ⟨i - 1 - d, i - d, by omega, le_rfl,
      by obtain ⟨x, hx, -⟩ := hfin (i - 1 - d) (by omega); rw [hx]; simp,
      by obtain ⟨x, hx, -⟩ := hfin (i - d) (by omega); rw [hx]; simp⟩
    refine ⟨i - d, _, ?_, ?_, Real.sqrt_nonneg _, rfl, ?_⟩
    · rw [List.getElem?_map, hg]; rfl
    · rw [hcol]
      unfold ewmStd
      rw [List.getElem?_map, v1, Option.map_some]
      unfold XF.sqrt
      dsimp only
      rw [if_neg (not_lt.2 v2)]
    · rw [Real.sqrt_eq_zero v2, v3]
      have hmem : ∀ p ∈ R, p.1 ≤ times[i] → ∃ k x, k ≤ i - d ∧ finAt (R.map (·.2)) k = some x ∧ p.2 = .fin x := by
        intro p hp hpi
        obtain ⟨k, hkR, rfl⟩ := List.getElem_of_mem hp
        have hk' : d + k < times.length := by omega
        have e := hget k hk'
        rw [List.getElem?_eq_getElem hkR] at e
        have e := Option.some.inj e
        obtain ⟨x, hx, hx'⟩ := hfin k hk'
        refine ⟨k, x, ?_, hx, by rw [e]; exact hx'⟩
        rw [e] at hpi
        by_contra hc
        have := List.pairwise_iff_getElem.1 hsorted i (d + k) hi hk' (by omega)
        have hpi' : times[d + k] ≤ times[i] := hpi
        omega
      constructor
      · intro h p hp p' hp' hpi hpi'
        obtain ⟨a, x, ha, hx, e⟩ := hmem p hp hpi
        obtain ⟨b, y, hb, hy, e'⟩ := hmem p' hp' hpi'
        rw [e, e', h a b x y ha hb hx hy]
      · intro h a b x y ha hb hx hy
        have key : ∀ a x, a ≤ i - d → finAt (R.map (·.2)) a = some x → ∃ p ∈ R, p.1 ≤ times[i] ∧ p.2 = .fin x := by
          intro a x ha hx
          have ha' : d + a < times.length := by omega
          obtain ⟨x', hx', e⟩ := hfin a ha'
          rw [hx] at hx'
          cases hx'
          refine ⟨_, List.mem_of_getElem? (hget a ha'), ?_, e⟩
          rcases Nat.lt_or_ge (d + a) i with hlt | hge
          · exact (List.pairwise_iff_getElem.1 hsorted (d + a) i ha' hi hlt).le
          · have : d + a = i := by omega
            simp only [this, le_refl]
        obtain ⟨p, hp, hpi, e⟩ := key a x ha hx
        obtain ⟨p', hp', hpi', e'⟩ := key b y hb hy
        have := h p hp p' hp' hpi hpi'
        rw [e, e'] at this
        exact XF.fin.inj this
  · intro hno
    rcases Nat.lt_or_ge i d with hid | hid
    · apply C33_no_reference_no_value _ _ _ hsorted i hi
      intro j hj hlt
      have h0 : times.getD 0 0 ≤ times[j] := by
        rw [List.getD_eq_getElem _ _ (by omega)]
        rcases Nat.eq_zero_or_pos j with rfl | hj0
        · exact le_rfl
        · exact (List.pairwise_iff_getElem.1 hsorted 0 j (by omega) hj hj0).le
      have := (hdj i hi).not.1 (by omega)
      rw [href i hi] at this
      omega
    · have hki : d + (i - d) = i := by omega
      have hg := hget (i - d) (by omega)
      simp only [hki] at hg
      have hcol : col[i]? = (ewmStd (ewmAlpha span) (R.map (·.2)))[i - d]? :=
        C33_estimator_of_returns _ (ewmStd_length _) times _ hsorted (i - d) i hi _ hg rfl
      have hid' : i = d := by
        by_contra hne
        apply hno
        refine ⟨by omega, ?_⟩
        rw [List.getD_eq_getElem _ _ (show i - 1 < times.length by omega), ← href (i - 1) (by omega),
          ← hdj (i - 1) (by omega)]
        omega
      obtain ⟨-, hv⟩ := C100_weighted_variance span hs (R.map (·.2)) (i - d) (by rw [List.length_map, hRl]; omega)
      rw [hcol]
      unfold ewmStd
      rw [List.getElem?_map, hv (by intro a b h1 h2; omega)]
      rfl


/-- Settings and bars of a call of the labelling with volatility-adjusted barriers, no side column and no metalabels, on
positive prices (`volatility_window` is the span of the daily volatility). -/
structure PlainCall (span : ℕ) (c : Cfg ℝ) (f : Lab.Frame ℝ) (times : List ℤ) (close : List ℝ) (n : ℕ) : Prop where
  span_eq : 2 ≤ span
  times_eq : f.times = times
  close_eq : f.col c.closeName = .ok (close.map XF.fin)
  name_eq : c.sideName = SIDE
  no_side : f.has SIDE = false
  plain : c.metalabeling = false
  adjusted : c.volAdjusted = true
  n_eq : c.nExp = n
  length_eq : close.length = times.length
  nonempty : times ≠ []
  sorted : times.Pairwise (· < ·)
  whole_ms : ∀ t ∈ times, (1000000 : ℤ) ∣ t
  not_epoch : ∀ t ∈ times, t ≠ 0
  positive : ∀ x ∈ close, 0 < x
  profit : 0 < c.ptf
  loss : 0 < c.slf

theorem PlainCall.input {span : ℕ} {c : Cfg ℝ} {f : Lab.Frame ℝ} {times : List ℤ} {close : List ℝ} {n : ℕ}
    (h : PlainCall span c f times close n) :
    ∃ vol, LabelInput (dailyVolColumn (ewmStd (ewmAlpha span))) c f times (close.map some)
        (List.replicate times.length (some 1)) vol n ∧ (∀ v, some v ∈ vol → 0 ≤ v) ∧
      dailyVolColumn (ewmStd (ewmAlpha span)) times (close.map XF.fin) = vol.map xf ∧ vol.length = times.length := by
  obtain ⟨vol, e, hl, hv⟩ := C100_not_negative span (by have := h.span_eq; omega) times (close.map XF.fin)
  have ec : (close.map some).map xf = close.map XF.fin := by rw [List.map_map]; rfl
  refine ⟨vol, ⟨⟨h.times_eq, by rw [ec]; exact h.close_eq, h.name_eq, Or.inr ⟨h.no_side, rfl, h.plain⟩, ?_, h.n_eq,
    by simpa using h.length_eq, h.nonempty, h.sorted, h.whole_ms, h.not_epoch, ?_, ?_⟩, fun hm => by rw [h.plain] at hm; cases hm⟩, hv, e, hl⟩
  · rw [h.adjusted, if_pos rfl, ec, e]
  · intro x hx
    obtain ⟨y, hy, e⟩ := List.mem_map.1 hx
    cases e
    exact h.positive x hy
  · intro hc; have := h.profit; linarith [hc.1]

theorem plain_row {span : ℕ} {c : Cfg ℝ} {f : Lab.Frame ℝ} {times : List ℤ} {close : List ℝ} {n : ℕ}
    (h : PlainCall span c f times close n) (i : ℕ) (hi : i < times.length) (h1 : 1 ≤ i)
    (hday : times.getD 0 0 + 86400000000000 < times.getD (i - 1) 0) :
    ∃ rows row v, Lab.transform (dailyVolColumn (ewmStd (ewmAlpha span))) c f = .ok rows ∧ rows[i]? = some row ∧
      row.vol = .fin v ∧ 0 ≤ v ∧ 0 < close.getD i 0 ∧
      (v = 0 ↔ ∀ p ∈ dailyReturns times (close.map XF.fin), ∀ p' ∈ dailyReturns times (close.map XF.fin),
        p.1 ≤ times[i] → p'.1 ≤ times[i] → p.2 = p'.2) ∧
      let r (j : ℕ) : ℝ := close.getD j 0 / close.getD i 0 - 1
      let up (j : ℕ) : Prop := c.ptf * v < r j
      let down (j : ℕ) : Prop := r j < -(c.slf * v)
      (∀ k, i ≤ k → k < winEnd times.length n i → up k → (∀ j, i ≤ j → j < k → ¬ up j ∧ ¬ down j) →
          row.endTime = some (times.getD k 0) ∧ row.label = .fin 1) ∧
      (∀ k, i ≤ k → k < winEnd times.length n i → down k → (∀ j, i ≤ j → j < k → ¬ up j ∧ ¬ down j) →
          row.endTime = some (times.getD k 0) ∧ row.label = .fin (-1)) ∧
      (i + n < times.length → (∀ j, i ≤ j → j < i + n → ¬ up j ∧ ¬ down j) →
          row.endTime = some (times.getD (i + n) 0) ∧ row.ret = .fin (r (i + n)) ∧
            row.label = .fin (if c.expirationLabel then 0 else if 0 < r (i + n) then 1 else if r (i + n) < 0 then -1 else 0)) := by
  obtain ⟨vol, hI, hv, hcol, hvl⟩ := h.input
  have hl := h.length_eq
  obtain ⟨rows, hr, hrow⟩ := C27_label_of_first_barrier_partial hI h.plain hv
  obtain ⟨k, v, -, hvi, hv0, -, hz⟩ := (C100_daily_volatility span h.span_eq times close h.sorted h.length_eq h.positive i
    hi).1 ⟨h1, hday⟩
  have hget : ∀ j, j < times.length → (close.map some).getD j none = some (close.getD j 0) := by
    intro j hj
    rw [List.getD_eq_getElem _ _ (by simp; omega), List.getD_eq_getElem _ _ (by omega)]; simp
  have hvol : vol.getD i none = some v := by
    rw [hcol, List.getElem?_map, List.getElem?_eq_getElem (by omega), Option.map_some, Option.some.injEq] at hvi
    rw [List.getD_eq_getElem _ _ (by omega)]
    cases hx : vol[i] with
    | none => rw [hx] at hvi; cases hvi
    | some w => rw [hx] at hvi; cases hvi; rfl
  obtain ⟨row, hri, c1, c2, c3⟩ := hrow i hi _ v (hget i hi) hvol
  obtain ⟨rows', hr', -, hrow'⟩ := transform_spec hI
  rw [hr] at hr'
  cases hr'
  obtain ⟨sl, pt, -, -, hri'⟩ := hrow' i hi
  have hvr : row.vol = .fin v := by
    rw [hri, hvol] at hri'
    rw [Option.some.inj hri']
  have hwin := (winEnd_lt (N := times.length) (n := n) (i := i) (by omega)).1
  have hup : ∀ j, j < times.length → ((0 < c.ptf ∧ ∃ y, (close.map some).getD j none = some y ∧
      c.ptf * v < y / close.getD i 0 - 1) ↔ c.ptf * v < close.getD j 0 / close.getD i 0 - 1) := by
    intro j hj
    rw [hget j hj]
    constructor
    · rintro ⟨-, y, hy, hlt⟩; cases hy; exact hlt
    · intro hlt; exact ⟨h.profit, _, rfl, hlt⟩
  have hdn : ∀ j, j < times.length → ((0 < c.slf ∧ ∃ y, (close.map some).getD j none = some y ∧
      y / close.getD i 0 - 1 < -(c.slf * v)) ↔ close.getD j 0 / close.getD i 0 - 1 < -(c.slf * v)) := by
    intro j hj
    rw [hget j hj]
    constructor
    · rintro ⟨-, y, hy, hlt⟩; cases hy; exact hlt
    · intro hlt; exact ⟨h.loss, _, rfl, hlt⟩
  refine ⟨rows, row, v, hr, hri, hvr, hv0, ?_, hz, ?_, ?_, ?_⟩
  · rw [List.getD_eq_getElem _ _ (by omega)]; exact h.positive _ (List.getElem_mem _)
  · intro k hk1 hk2 hk3 hk4
    exact c1 k hk1 hk2 ((hup k (by omega)).2 hk3) fun j a b =>
      ⟨(hup j (by omega)).not.2 (hk4 j a b).1, (hdn j (by omega)).not.2 (hk4 j a b).2⟩
  · intro k hk1 hk2 hk3 hk4
    exact c2 k hk1 hk2 ((hdn k (by omega)).2 hk3) fun j a b =>
      ⟨(hup j (by omega)).not.2 (hk4 j a b).1, (hdn j (by omega)).not.2 (hk4 j a b).2⟩
  · intro hin hno
    obtain ⟨e, f⟩ := c3 hin fun j a b =>
      ⟨(hup j (by omega)).not.2 (hno j a b).1, (hdn j (by omega)).not.2 (hno j a b).2⟩
    exact ⟨e, f _ (hget _ hin)⟩

/-- C100 (prices that do not move): if all prices of a window are the same and its first bar has a volatility, the label
is 0 and the end is the bar `n` later, whatever the volatility is. -/
theorem C100_flat_window {span : ℕ} {c : Cfg ℝ} {f : Lab.Frame ℝ} {times : List ℤ} {close : List ℝ} {n : ℕ}
    (h : PlainCall span c f times close n) (i : ℕ) (h1 : 1 ≤ i)
    (hday : times.getD 0 0 + 86400000000000 < times.getD (i - 1) 0) (hin : i + n < times.length)
    (hflat : ∀ j, i ≤ j → j ≤ i + n → close.getD j 0 = close.getD i 0) :
    ∃ rows row, Lab.transform (dailyVolColumn (ewmStd (ewmAlpha span))) c f = .ok rows ∧ rows[i]? = some row ∧
      row.endTime = some (times.getD (i + n) 0) ∧ row.ret = .fin 0 ∧ row.label = .fin 0 := by
  obtain ⟨rows, row, v, hr, hri, -, hv0, hx, -, -, -, hlast⟩ := plain_row h i (by omega) h1 hday
  have hp := mul_nonneg h.profit.le hv0
  have hs := mul_nonneg h.loss.le hv0
  have hr0 : ∀ j, i ≤ j → j ≤ i + n → close.getD j 0 / close.getD i 0 - 1 = 0 := by
    intro j a b
    rw [hflat j a b, div_self hx.ne', sub_self]
  obtain ⟨e1, e2, e3⟩ := hlast hin fun j a b => by
    dsimp only
    rw [hr0 j a (by omega)]
    constructor <;> linarith
  dsimp only at e2 e3
  refine ⟨rows, row, hr, hri, e1, ?_, ?_⟩
  · rw [e2, hr0 _ (by omega) le_rfl]
  · have h0 := hr0 (i + n) (by omega) le_rfl
    rw [e3, if_neg (show ¬ 0 < close.getD (i + n) 0 / close.getD i 0 - 1 by rw [h0]; simp),
      if_neg (show ¬ close.getD (i + n) 0 / close.getD i 0 - 1 < 0 by rw [h0]; simp), ite_self]

/-- C100 (the first move): prices are constant up to bar `s` and different at bar `s`.  An event at an earlier bar with
a volatility has volatility 0; if its window reaches beyond bar `s` the event ends at bar `s`, with label 1 if the price
goes up and -1 if it goes down. -/
theorem C100_first_move {span : ℕ} {c : Cfg ℝ} {f : Lab.Frame ℝ} {times : List ℤ} {close : List ℝ} {n : ℕ}
    (h : PlainCall span c f times close n) (i s : ℕ) (p : ℝ) (h1 : 1 ≤ i)
    (hday : times.getD 0 0 + 86400000000000 < times.getD (i - 1) 0) (his : i < s) (hsn : s < i + n)
    (hin : i + n < times.length) (hflat : ∀ j, j < s → close.getD j 0 = p) (hmove : close.getD s 0 ≠ p) :
    ∃ rows row, Lab.transform (dailyVolColumn (ewmStd (ewmAlpha span))) c f = .ok rows ∧ rows[i]? = some row ∧
      row.vol = .fin 0 ∧ row.endTime = some (times.getD s 0) ∧
      row.label = .fin (if p < close.getD s 0 then 1 else -1) := by
  obtain ⟨rows, row, v, hr, hri, hvr, hv0, hx, hz, hup, hdn, -⟩ := plain_row h i (by omega) h1 hday
  have hl := h.length_eq
  have hl' : (close.map XF.fin).length = times.length := by simpa using hl
  have hpi := hflat i his
  rw [hpi] at hx
  have key : ∀ q ∈ dailyReturns times (close.map XF.fin), q.1 ≤ times[i] → q.2 = .fin 0 := by
    intro q hq hqi
    rw [dailyReturns_eq h.sorted] at hq
    obtain ⟨t, ht, rfl⟩ := List.mem_map.1 hq
    rw [List.mem_filter] at ht
    obtain ⟨⟨j, hj, rfl⟩, h2⟩ := And.intro (List.getElem_of_mem ht.1) ht.2
    unfold hasRef at h2
    rw [decide_eq_true_eq] at h2
    have hle := ss_le times (times[j] - DAY)
    have hji : j ≤ i := by
      by_contra hc
      have := List.pairwise_iff_getElem.1 h.sorted i j (by omega) hj (by omega)
      have hqi' : times[j] ≤ times[i] := hqi
      omega
    have hrj : searchsortedLeft times (times[j] - DAY) - 1 ≤ j := by
      by_contra hc
      have e1 := (ss_spec h.sorted (times[j] - DAY) (searchsortedLeft times (times[j] - DAY) - 1) (by omega)).2 (by omega)
      have e2 := List.pairwise_iff_getElem.1 h.sorted j _ hj (by omega) (by omega : j < searchsortedLeft times (times[j] - DAY) - 1)
      have : (0 : ℤ) ≤ DAY := by decide
      linarith
    have hc : ∀ k (hk : k < close.length), k < s → close[k] = p := by
      intro k hk hks
      rw [← hflat k hks, List.getD_eq_getElem _ _ hk]
    change refReturn times (close.map XF.fin) times[j] = .fin 0
    unfold refReturn refTime
    rw [lookup_getElem h.sorted hl' j hj, List.getD_eq_getElem times _ (by omega),
      lookup_getElem h.sorted hl' _ (by omega), List.getElem_map, List.getElem_map, hc _ _ (by omega), hc _ _ (by omega),
      XF.div_fin _ _ hx.ne', XF.sub_fin, div_self hx.ne', sub_self]
  have hv : v = 0 := hz.2 fun q hq q' hq' a b => by rw [key q hq a, key q' hq' b]
  subst hv
  have hw : winEnd times.length n i = i + n := (winEnd_lt (by omega)).2.2 hin
  have hno : ∀ j, i ≤ j → j < s → ¬ c.ptf * 0 < close.getD j 0 / close.getD i 0 - 1 ∧
      ¬ close.getD j 0 / close.getD i 0 - 1 < -(c.slf * 0) := by
    intro j a b
    rw [hflat j b, hpi, div_self hx.ne']
    simp
  rcases lt_or_gt_of_ne hmove with hlt | hgt
  · obtain ⟨e1, e2⟩ := hdn s his.le (by omega) (by
      dsimp only
      rw [hpi, mul_zero, neg_zero, sub_neg, div_lt_one hx]; exact hlt) hno
    refine ⟨rows, row, hr, hri, hvr, e1, ?_⟩
    rw [if_neg (not_lt.2 hlt.le)]; exact e2
  · obtain ⟨e1, e2⟩ := hup s his.le (by omega) (by
      dsimp only
      rw [hpi, mul_zero, sub_pos, one_lt_div hx]; exact hgt) hno
    refine ⟨rows, row, hr, hri, hvr, e1, ?_⟩
    rw [if_pos hgt]; exact e2

/-- Bars every 20 hours: the first return is that of bar 2, so bar 3 is the first bar with a volatility. -/
def spikeTimes : List ℤ :=
  [72000000000000, 144000000000000, 216000000000000, 288000000000000, 360000000000000, 432000000000000, 504000000000000,
    576000000000000]

/-- The hypotheses of C100 hold for these bars, with prices 100 except for 110 at bar 5, span 3 and events of three bars. -/
theorem spike_call : PlainCall 3 ⟨3, 1, 1, false, "close", SIDE, true, false⟩
    ⟨spikeTimes, [("close", [100, 100, 100, 100, 100, 110, 100, 100].map XF.fin)]⟩ spikeTimes
    [100, 100, 100, 100, 100, 110, 100, 100] 3 where
  span_eq := by decide
  times_eq := rfl
  close_eq := rfl
  name_eq := rfl
  no_side := rfl
  plain := rfl
  adjusted := rfl
  n_eq := rfl
  length_eq := rfl
  nonempty := by decide
  sorted := by decide
  whole_ms := by decide
  not_epoch := by decide
  positive := by simp
  profit := by norm_num
  loss := by norm_num

/-- Bar 3 is labelled 1 and ends at bar 5 by `C100_first_move`. -/
example : ∃ rows row, Lab.transform (dailyVolColumn (ewmStd (ewmAlpha 3))) ⟨3, 1, 1, false, "close", SIDE, true, false⟩
    ⟨spikeTimes, [("close", [100, 100, 100, 100, 100, 110, 100, 100].map XF.fin)]⟩ = .ok rows ∧ rows[3]? = some row ∧
    row.vol = .fin 0 ∧ row.endTime = some 432000000000000 ∧ row.label = .fin 1 := by
  obtain ⟨rows, row, a, b, c, d, e⟩ := C100_first_move spike_call 3 5 100 (by decide) (by decide) (by decide) (by decide)
    (by decide) (by intro j hj; rcases j with _ | _ | _ | _ | _ | j <;> first | rfl | omega) (by simp)
  refine ⟨rows, row, a, b, c, d, ?_⟩
  rw [e]
  norm_num

/-- Two observations with weights 1/4 and 1: the variance of 1 and 3 is `(5/4)²/((5/4)² - 17/16) · 16/25 = 2`. -/
example : (ewmVar (ewmAlpha 3 : ℚ) [.fin 1, .nan, .fin 3, .fin 3])[2]? = some (.fin 2) := by decide +kernel

example : (ewmVar (ewmAlpha 3 : ℚ) [.fin 1, .nan, .fin 3])[1]? = some .nan := by decide +kernel

example : finAt ([.fin 1, .nan, .fin 3] : List (XF ℚ)) 0 ≠ none ∧ finAt ([.fin 1, .nan, .fin 3] : List (XF ℚ)) 2 ≠ none := by
  decide +kernel

end Mizar.Props
