import Verif.Lemmas.RoundedOls
import Verif.Props.RoundedCsw

/-!
Property theorems C143: regressions in floating point (`/repo/mizarlabs/structural_breaks/sdfc.py`, `sadf.py`,
`/repo/mizarlabs/transformers/targets/trend_scanning.py`).
-/

namespace Mizar.Props
open Mizar.Spec Mizar.Brk Mizar.Rd
variable {K : Type} [Field K] [LinearOrder K] [IsStrictOrderedRing K]

/-! ### Exact arithmetic -/

private theorem sum_eq (l : List (XF ℝ)) : npSumR List.sum l = XF.sum l := by
  unfold npSumR
  split_ifs with h
  · rfl
  · have h' : ∀ x ∈ l, ∃ a, x = .fin a := by
      intro x hx
      apply fin_of_defined
      rw [Bool.not_eq_true, List.any_eq_false] at h
      simpa using h x hx
    have : ∀ a : ℝ, l.foldl XF.add (.fin a) = .fin (a + (l.map XF.toK).sum) := by
      clear h
      induction l with
      | nil => simp
      | cons x l ih =>
        intro a
        obtain ⟨b, rfl⟩ := h' x (by simp)
        rw [List.foldl_cons, XF.add_fin, ih (fun y hy => h' y (by simp [hy])), List.map_cons, List.sum_cons, XF.toK, add_assoc]
    unfold XF.sum
    rw [this, zero_add]

private theorem rnd_id (x : XF ℝ) : rnd id x = x := by cases x <;> rfl

private theorem inv_exact {k : ℕ} (M : Fin k → Fin k → XF ℝ) :
    invR exactAlg M = (invX (Matrix.of M)).map fun N : Matrix (Fin k) (Fin k) ℝ => fun i j => N i j := by
  have this : (∃ i j, XF.undef (M i j) = true) ↔ ¬ ∀ i j, isFinite (M i j) = true := by
    push Not
    refine exists_congr fun i => exists_congr fun j => ?_
    cases M i j <;> simp [XF.undef, XF.isNan, XF.isInf, isFinite]
  unfold invR
  by_cases h : ∀ i j, isFinite (M i j) = true
  · rw [if_neg (fun h' => this.1 h' h)]
    have e : invX (Matrix.of M) = if (Matrix.of fun i j => (M i j).toK : Matrix (Fin k) (Fin k) ℝ).det = 0 then .error .linAlgError
        else .ok (Matrix.of fun i j => (M i j).toK : Matrix (Fin k) (Fin k) ℝ)⁻¹ := by
      unfold invX
      exact if_neg (not_not.2 h)
    rw [e]
    dsimp only [exactAlg]
    by_cases hd : (Matrix.of fun i j => (M i j).toK : Matrix (Fin k) (Fin k) ℝ).det = 0
    · rw [if_pos hd, if_pos hd]; rfl
    · rw [if_neg hd, if_neg hd]; rfl
  · rw [if_pos (this.2 h)]
    have e : invX (Matrix.of M) = .error .linAlgError := by
      unfold invX
      exact if_pos h
    rw [e]
    rfl

private theorem tValue_exact (em : ErrModel) {k : ℕ} (j : Fin k) (w : List (Row k)) : tValueR em id Real.sqrt exactAlg j w = tValue em j w := by
  have hsq : ∀ x : XF ℝ, sqrtR Real.sqrt x = XF.sqrt x := fun x => by cases x <;> rfl
  have hd : ∀ a b : XF ℝ, divR em id a b = divE em a b := fun a b => by unfold divR divE; rw [rnd_id]
  have hs : ∀ o i j, exactAlg.dot o i j = List.sum := fun _ _ _ => rfl
  have ho : olsR id exactAlg w = ols w := by
    unfold olsR ols
    simp only [hs, sum_eq, rnd_id, id]
    rw [inv_exact]
    have hg : (Matrix.of fun i j => XF.sum (w.map fun x => XF.mul (x.1 i) (x.1 j))) = gramX w := rfl
    rw [hg]
    cases invX (gramX w) with
    | error e => rfl
    | ok N =>
      simp only [Except.map, Py.bind_ok]
      have he : ∀ beta : Fin k → XF ℝ, (w.zipIdx.map fun x => XF.sub x.1.2 (XF.sum (List.ofFn fun j => XF.mul (x.1.1 j) (beta j)))) =
          w.map fun r => XF.sub r.2 (dotX r.1 beta) := by
        intro beta
        have : (w.map fun r => XF.sub r.2 (dotX r.1 beta)) = (w.zipIdx.map (·.1)).map fun r => XF.sub r.2 (dotX r.1 beta) := by
          rw [List.zipIdx_map_fst]
        rw [this, List.map_map]
        rfl
      rw [he]
      rfl
  unfold tValueR tValue
  rw [ho]
  simp only [hd, hsq]

/-- A row of the exact model. -/
def exactRow (l : LabelR ℝ) : Trend.Label := ⟨l.time, l.eventEnd, l.tValue, l.ret, l.label⟩

private theorem argmax_exact (l : List (XF ℝ)) : argmaxR l = Trend.argmax l := by
  have : ∀ (l : List (XF ℝ)) i b v, argmaxGoR i b v l = Trend.argmaxGo i b v l := by
    intro l
    induction l with
    | nil => intro i b v; rfl
    | cons x l ih => intro i b v; simp only [argmaxGoR, Trend.argmaxGo, ih]
  cases l with
  | nil => rfl
  | cons x l => exact this l 1 0 x

private theorem trend_exact (em : ErrModel) (w : List (XF ℝ)) : trendTR em id Real.sqrt exactAlg w = Trend.trendT em w := tValue_exact em _ _

private theorem label_exact (em : ErrModel) (mem : ℕ → ℕ → XF ℝ) (p : Trend.Params) (s : List (ℤ × XF ℝ)) (e : ℤ × ℕ) :
    (labelAtR em id Real.sqrt exactAlg mem p s e).map exactRow = Trend.labelAt em mem p s e := by
  have hf : ∀ (w : List (XF ℝ)) m fs a, fillR em id Real.sqrt exactAlg w m fs a = Trend.fill em w m fs a := by
    intro w m fs
    induction fs with
    | nil => intro a; rfl
    | cons f fs ih => intro a; simp only [fillR, Trend.fill, trend_exact, ih]
  have hb : ∀ mem w, bestAtR em id Real.sqrt exactAlg mem p w = Trend.bestAt em mem p w := by
    intro mem w
    unfold bestAtR Trend.bestAt
    simp only [hf, argmax_exact]
  have hsc : ∀ mem y i, scanAtR em id Real.sqrt exactAlg mem p y i = Trend.scanAt em mem p y i := by
    intro mem y i
    unfold scanAtR Trend.scanAt
    simp only [hb]
  unfold labelAtR Trend.labelAt
  dsimp only
  rw [hsc]
  cases Trend.scanAt em (mem e.2) p (s.map (·.2)) ((s.map (·.1)).idxOf e.1) with
  | error e => rfl
  | ok b =>
    rw [Py.bind_ok, Py.bind_ok]
    simp only [Except.map, exactRow]
    congr 2
    cases b.2 with
    | none => rfl
    | some i => simp only [rnd_id]

/-- C143 (exact arithmetic): without rounding the computations are those of C71, C68 and C67, on any series. -/
theorem C143_exact (em : ErrModel) :
    (∀ mem p events s, (trendScanR em id Real.sqrt exactAlg mem p events s).map (List.map exactRow) = (Trend.transform em mem p events s).2) ∧
    (∀ m s, sdfcRunR em id Real.sqrt exactAlg m s = sdfcRun em m s) ∧
    ∀ (phi : ℝ) (model : String) lags m c s, sadfRunR em id Real.sqrt Real.log exactAlg (fun n => (n : ℝ) ^ phi) model lags m c s =
      sadfRun em model lags m c phi s := by
  refine ⟨?_, ?_, ?_⟩
  · intro mem p events s
    have key : ∀ l, (mapE (labelAtR em id Real.sqrt exactAlg mem p s) l).map (List.map exactRow) = mapE (Trend.labelAt em mem p s) l := by
      intro l
      rw [← mapE_mapped]
      exact mapE_congr fun e _ => label_exact em mem p s e
    unfold trendScanR Trend.transform
    cases events with
    | none => exact key _
    | some ev =>
      dsimp only
      split
      · exact key _
      · rfl
  · intro m s
    have hd : dfColumnsR id s = dfColumns s := by unfold dfColumnsR dfColumns; simp only [rnd_id]
    have ha : ∀ a b i, dfcAtR em id Real.sqrt exactAlg a b i = dfcAt em a b i := by
      intro a b i
      unfold dfcAtR dfcAt
      simp only [tValue_exact]
    unfold sdfcRunR sdfcRun
    rw [hd]
    simp only [show ∀ a b, dfcAtR em id Real.sqrt exactAlg a b = dfcAt em a b from fun a b => funext fun i => ha a b i]
  · intro phi model lags m c s
    have hlg : ∀ x : XF ℝ, logR Real.log x = XF.log x := fun x => by cases x <;> rfl
    have hdi : ∀ a b : XF ℝ, divR em id a b = divE em a b := fun a b => by unfold divR divE; rw [rnd_id]
    have hst : standardRowsR id lags s = standardRows lags s := by
      unfold standardRowsR standardRows diffsR Brk.diffs
      simp only [rnd_id]
    have hde : designRowsR id Real.log model lags c s = designRows model lags c s := by
      unfold designRowsR designRows
      rw [hst, show logR Real.log = XF.log from funext hlg]
      rfl
    have hxy : getXyR id Real.log model lags c s = getXy model lags c s := by
      unfold getXyR getXy
      rw [hde]
    have hat : ∀ k (w : List (Row (k + 1))), adfAtR em id Real.sqrt exactAlg (fun n => (n : ℝ) ^ phi) k model w = adfAt em k model phi w := by
      intro k w
      funext start
      unfold adfAtR adfAt
      simp only [tValue_exact, hdi]
      push_cast
      rfl
    have hlo : ∀ k (w : List (Row (k + 1))), sadfLoopR em id Real.sqrt exactAlg (fun n => (n : ℝ) ^ phi) k m model w = sadfLoop em k m model phi w := by
      intro k w
      unfold sadfLoopR sadfLoop sadfAtR sadfAt
      simp only [hat]
    unfold sadfRunR sadfRun
    rw [hxy]
    simp only [hlo]
    rfl

/-! ### The trend scanner -/

/-- C143 (trend scanner, power of two): multiplying every value by a power of two changes no bit of any row, whatever is missing or
infinite, for every step and every state of the memory, whichever way `np.dot` and `np.linalg.inv` work; the errors are the same too. -/
theorem C143_trend_scale {r sq : K → K} (B : Binary r sq) {L : LinAlg K} (D : FairDot L) (em : ErrModel) (mem : ℕ → ℕ → XF K)
    (p : Trend.Params) (events : Option (List ℤ)) (e : ℤ) (s : List (ℤ × XF K)) :
    trendScanR em r sq L mem p events (s.map fun x => (x.1, XF.mul (.fin (2 ^ e)) x.2)) = trendScanR em r sq L mem p events s := by
  have h1 : (s.map fun x => (x.1, XF.mul (.fin ((2 : K) ^ e)) x.2)).map (·.1) = s.map (·.1) := by rw [List.map_map]; rfl
  have h2 : labelAtR em r sq L mem p (s.map fun x => (x.1, XF.mul (.fin ((2 : K) ^ e)) x.2)) = labelAtR em r sq L mem p s :=
    funext fun a => labelAtR_scale B D em ⟨e, Or.inl rfl⟩ (by positivity) mem p s a
  unfold trendScanR
  rw [h1, h2]

private theorem neg_one_mul_xf (x : XF K) : XF.neg x = sc (-1) x := by
  cases x <;> simp [sc, XF.mul, XF.infSign, XF.neg, not_lt.2 (zero_le_one (α := K))]

/-- C143 (trend scanner, mirror): with step one, negating every value negates every t-value and label exactly and keeps every time and end. -/
theorem C143_trend_mirror {r sq : K → K} (B : Binary r sq) {L : LinAlg K} (D : FairDot L) (em : ErrModel) (mem : ℕ → ℕ → XF K)
    (p : Trend.Params) (hs : p.step = 1) (events : Option (List ℤ)) (s : List (ℤ × XF K)) :
    (trendScanR em r sq L mem p events (s.map fun x => (x.1, XF.neg x.2))).map (List.map fun l => (l.time, l.eventEnd, l.tValue, l.label)) =
      (trendScanR em r sq L mem p events s).map (List.map fun l => (l.time, l.eventEnd, XF.neg l.tValue, XF.neg l.label)) := by
  have hpm : PlusMinusPow (-1 : K) := ⟨0, Or.inr (by simp)⟩
  have h1 : (s.map fun x => (x.1, sc (-1) x.2)).map (·.1) = s.map (·.1) := by rw [List.map_map]; rfl
  have f1 : (flipRow (1 : K)) = fun l => (l.time, l.eventEnd, l.tValue, l.label) := by
    funext l
    simp [flipRow, Rd.flip]
  have f2 : (flipRow (-1 : K)) = fun l => (l.time, l.eventEnd, XF.neg l.tValue, XF.neg l.label) := by
    funext l
    have : ¬ (0 : K) < -1 := not_lt.2 (by simp)
    simp [flipRow, Rd.flip, this]
  have key : ∀ l, (mapE (labelAtR em r sq L mem p (s.map fun x => (x.1, sc (-1) x.2))) l).map (List.map (flipRow 1)) =
      (mapE (labelAtR em r sq L mem p s) l).map (List.map (flipRow (-1))) := by
    intro l
    rw [← mapE_mapped, ← mapE_mapped]
    exact mapE_congr fun e _ => labelAtR_units B D em hpm mem p (Or.inr hs) s e
  rw [← f1, ← f2]
  simp only [neg_one_mul_xf]
  unfold trendScanR
  rw [h1]
  cases events with
  | none => exact key _
  | some ev =>
    dsimp only
    split
    · exact key _
    · rfl

/-! ### The break tests -/

/-- C143 (Chow-type test): multiplying the series by a power of two, or by the negative of one, changes no bit of any statistic. -/
theorem C143_sdfc {r sq : K → K} (B : Binary r sq) {L : LinAlg K} (D : FairDot L) (I : FairInv L) (em : ErrModel) (m : ℕ) (e : ℤ)
    (s : List (ℤ × XF K)) :
    sdfcRunR em r sq L m (s.map fun x => (x.1, XF.mul (.fin (2 ^ e)) x.2)) = sdfcRunR em r sq L m s ∧
    sdfcRunR em r sq L m (s.map fun x => (x.1, XF.neg x.2)) = sdfcRunR em r sq L m s := by
  refine ⟨sdfcRunR_units B D I em ⟨e, Or.inl rfl⟩ m s, ?_⟩
  simp only [neg_one_mul_xf]
  exact sdfcRunR_units B D I em ⟨0, Or.inr (by simp)⟩ m s

private theorem smRows_units {c : K} (hc : PlusMinusPow c) (k : ℕ) (f : ℕ → List (XF K)) (s : List (ℤ × XF K)) :
    List.Forall₂ (scDesign k (fun _ => 1) c) (smRowsR id f s) (smRowsR id f (s.map fun x => (x.1, sc c x.2))) := by
  unfold smRowsR
  rw [List.forall₂_iff_get]
  refine ⟨by simp, ?_⟩
  intro i h1 h2
  simp only [List.get_eq_getElem, List.getElem_map, List.getElem_zipIdx, Nat.zero_add]
  exact ⟨rfl, fun j => (sc_one _).symm, rfl, rfl⟩

private theorem poly_units {r sq lg : K → K} (B : Binary r sq) {L : LinAlg K} (D : FairDot L) (em : ErrModel) (pw : ℤ → K) (lags : ℤ)
    (m : ℕ) (b : Bool) {c : K} (hc : PlusMinusPow c) (s : List (ℤ × XF K)) :
    sadfRunR em r sq lg L pw "sm_poly_1" lags m b (s.map fun x => (x.1, sc c x.2)) = sadfRunR em r sq lg L pw "sm_poly_1" lags m b s := by
  refine sadfRunR_units (k := 2) (u := fun _ => 1) B D em pw (fun _ => pm_one) hc (by intro M; simp) "sm_poly_1"
    (fun h => absurd h (by decide)) lags m b s _ _ _ rfl rfl (smRows_units hc 2 _ s)

/-- C143 (explosiveness tests, mirror): negating the series changes no bit of any statistic, with no, a linear or a quadratic trend, with
or without constant and for every number of lags, and in the first sub- and super-martingale test. -/
theorem C143_sadf_mirror {r sq lg : K → K} (B : Binary r sq) {L : LinAlg K} (D : FairDot L) (I : FairInv L) (em : ErrModel) (pw : ℤ → K)
    (model : String) (hm : model = "no_trend" ∨ model = "linear" ∨ model = "quadratic" ∨ model = "sm_poly_1") (lags : ℤ) (m : ℕ) (b : Bool)
    (s : List (ℤ × XF K)) :
    sadfRunR em r sq lg L pw model lags m b (s.map fun x => (x.1, XF.neg x.2)) = sadfRunR em r sq lg L pw model lags m b s := by
  have hpm : PlusMinusPow (-1 : K) := ⟨0, Or.inr (by simp)⟩
  simp only [neg_one_mul_xf]
  have hu : ∀ j : ℕ, PlusMinusPow (if j < lags.toNat + 1 then (-1 : K) else 1) := by
    intro j
    split_ifs
    · exact hpm
    · exact pm_one
  have hinv : ∀ (k : ℕ) (M : Fin (k + 1) → Fin (k + 1) → K),
      L.inv (k + 1) (fun i j => (if (i : ℕ) < lags.toNat + 1 then (-1 : K) else 1) * (if (j : ℕ) < lags.toNat + 1 then (-1 : K) else 1) * M i j) =
        (L.inv (k + 1) M).map fun N (i j : Fin (k + 1)) => (if (i : ℕ) < lags.toNat + 1 then (-1 : K) else 1)⁻¹ * (if (j : ℕ) < lags.toNat + 1 then (-1 : K) else 1)⁻¹ * N i j := by
    intro k M
    have := inv_units I (fun i : Fin (k + 1) => if (i : ℕ) < lags.toNat + 1 then (-1 : K) else 1) (by
      intro i
      split_ifs
      · exact Or.inr rfl
      · exact Or.inl rfl) 0 M
    simpa only [zpow_zero, mul_one] using this
  have hpos : ∀ k : ℕ, 0 < (-1 : K) * (if ((0 : Fin (k + 1)) : ℕ) < lags.toNat + 1 then (-1 : K) else 1)⁻¹ := by
    intro k
    rw [if_pos (by simp)]
    simp
  rcases hm with rfl | rfl | rfl | rfl
  · exact sadfRunR_units B D em pw (fun j => hu j) hpm (hinv _) "no_trend" (fun _ => hpos _) lags m b s _ _ _ rfl rfl
      (addColsR_units B hpm lags s _ _)
  · exact sadfRunR_units B D em pw (fun j => hu j) hpm (hinv _) "linear" (fun _ => hpos _) lags m b s _ _ _ rfl rfl
      (addColsR_units B hpm lags s _ _)
  · exact sadfRunR_units B D em pw (fun j => hu j) hpm (hinv _) "quadratic" (fun _ => hpos _) lags m b s _ _ _ rfl rfl
      (addColsR_units B hpm lags s _ _)
  · exact poly_units B D em pw lags m b hpm s

/-- C143 (explosiveness tests, power of two): multiplying the series by a power of two changes no bit of any statistic of the test without
trend and constant, for every number of lags, and of the first sub- and super-martingale test. -/
theorem C143_sadf_scale {r sq lg : K → K} (B : Binary r sq) {L : LinAlg K} (D : FairDot L) (I : FairInv L) (em : ErrModel) (pw : ℤ → K)
    (model : String) (b : Bool) (hm : model = "no_trend" ∧ b = false ∨ model = "sm_poly_1") (lags : ℤ) (m : ℕ) (e : ℤ)
    (s : List (ℤ × XF K)) :
    sadfRunR em r sq lg L pw model lags m b (s.map fun x => (x.1, XF.mul (.fin (2 ^ e)) x.2)) = sadfRunR em r sq lg L pw model lags m b s := by
  have hpm : PlusMinusPow ((2 : K) ^ e) := ⟨e, Or.inl rfl⟩
  rcases hm with ⟨rfl, rfl⟩ | rfl
  · have hk : ∀ j : Fin (lags.toNat + 1), (if (j : ℕ) < lags.toNat + 1 then (2 : K) ^ e else 1) = 2 ^ e := fun j => if_pos j.2
    have hrows := addColsR_units B hpm lags s (fun _ => constColR false) lags.toNat
    simp only [hk] at hrows
    refine sadfRunR_units (k := lags.toNat) (u := fun _ => 2 ^ e) B D em pw (fun _ => hpm) hpm (fun M => inv_pm I hpm M) "no_trend" (fun _ => ?_)
      lags m false s _ _ _ rfl rfl hrows
    rw [mul_inv_cancel₀ (pm_ne hpm)]
    exact one_pos
  · exact poly_units B D em pw lags m b hpm s

/-! ### An arithmetic that meets the assumptions -/

private theorem lapack2_off {r : K → K} (hneg : ∀ x, r (-x) = -r x) (M : Fin 2 → Fin 2 → K) :
    lapack2 r (fun i j => if i = j then M i j else -M i j) = (lapack2 r M).map fun N i j => if i = j then N i j else -N i j := by
  unfold lapack2
  simp only [Fin.isValue, if_pos, one_ne_zero, zero_ne_one, if_false, abs_neg]
  by_cases hsw : |M 0 0| < |M 1 0|
  · simp only [if_pos hsw]
    have e1 : r (1 / -M 1 0) = -r (1 / M 1 0) := by rw [div_neg, hneg]
    have e2 : r (M 0 0 * -r (1 / M 1 0)) = -r (M 0 0 * r (1 / M 1 0)) := by rw [mul_neg, hneg]
    have e3 : ∀ l, r (-M 0 1 - r (-l * M 1 1)) = -r (M 0 1 - r (l * M 1 1)) := by
      intro l
      rw [show -M 0 1 - r (-l * M 1 1) = -(M 0 1 - r (l * M 1 1)) by rw [neg_mul, hneg]; ring, hneg]
    rw [e1, e2, e3]
    by_cases ha : M 1 0 = 0
    · rw [if_pos (neg_eq_zero.2 ha), if_pos ha]; rfl
    rw [if_neg (fun h => ha (neg_eq_zero.1 h)), if_neg ha]
    by_cases hu : r (M 0 1 - r (r (M 0 0 * r (1 / M 1 0)) * M 1 1)) = 0
    · rw [if_pos (neg_eq_zero.2 hu), if_pos hu]; rfl
    rw [if_neg (fun h => hu (neg_eq_zero.1 h)), if_neg hu]
    generalize r (M 0 1 - r (r (M 0 0 * r (1 / M 1 0)) * M 1 1)) = u
    generalize r (M 0 0 * r (1 / M 1 0)) = l
    generalize r (1 / M 1 0) = a
    simp only [Option.map_some, Option.some.injEq, div_neg, hneg, neg_neg, neg_mul, mul_neg]
    funext i j
    fin_cases i <;> fin_cases j <;> simp
    rw [← hneg]
    congr 1
    ring
  · simp only [if_neg hsw]
    have e2 : r (-M 1 0 * r (1 / M 0 0)) = -r (M 1 0 * r (1 / M 0 0)) := by rw [neg_mul, hneg]
    have e3 : ∀ l, r (M 1 1 - r (-l * -M 0 1)) = r (M 1 1 - r (l * M 0 1)) := by
      intro l
      rw [neg_mul_neg]
    rw [e2, e3]
    by_cases ha : M 0 0 = 0
    · rw [if_pos ha, if_pos ha]; rfl
    rw [if_neg ha, if_neg ha]
    by_cases hu : r (M 1 1 - r (r (M 1 0 * r (1 / M 0 0)) * M 0 1)) = 0
    · rw [if_pos hu, if_pos hu]; rfl
    rw [if_neg hu, if_neg hu]
    generalize r (M 1 1 - r (r (M 1 0 * r (1 / M 0 0)) * M 0 1)) = u
    generalize r (M 1 0 * r (1 / M 0 0)) = l
    generalize r (1 / M 0 0) = a
    simp only [Option.map_some, Option.some.injEq, div_neg, hneg, neg_neg, neg_mul, mul_neg]
    funext i j
    fin_cases i <;> fin_cases j <;> simp

private theorem lapack2_scale {r : K → K} {c : K} (hc : 0 < c) (hr : ∀ x, r (c * x) = c * r x) (M : Fin 2 → Fin 2 → K) :
    lapack2 r (fun i j => c * M i j) = (lapack2 r M).map fun N i j => c⁻¹ * N i j := by
  have hr' : ∀ x, r (c⁻¹ * x) = c⁻¹ * r x := by
    intro x
    have := hr (c⁻¹ * x)
    rw [mul_inv_cancel_left₀ hc.ne'] at this
    rw [this, inv_mul_cancel_left₀ hc.ne']
  have hlt : (|c * M 0 0| < |c * M 1 0|) ↔ (|M 0 0| < |M 1 0|) := by
    rw [abs_mul, abs_mul]
    exact mul_lt_mul_iff_right₀ (abs_pos.2 hc.ne')
  unfold lapack2
  simp only [hlt]
  by_cases hsw : |M 0 0| < |M 1 0|
  · simp only [if_pos hsw]
    generalize M 1 0 = a
    generalize M 1 1 = b
    generalize M 0 0 = x
    generalize M 0 1 = d
    have e1 : r (1 / (c * a)) = c⁻¹ * r (1 / a) := by rw [← hr']; congr 1; field_simp
    have e2 : c * x * (c⁻¹ * r (1 / a)) = x * r (1 / a) := by field_simp
    have e3 : ∀ l, r (c * d - r (l * (c * b))) = c * r (d - r (l * b)) := by
      intro l
      rw [show c * d - r (l * (c * b)) = c * (d - r (l * b)) by rw [mul_left_comm, hr]; ring, hr]
    rw [e1, e2, e3]
    by_cases ha : a = 0
    · rw [if_pos (by rw [ha, mul_zero]), if_pos ha]; rfl
    rw [if_neg (mul_ne_zero hc.ne' ha), if_neg ha]
    generalize r (x * r (1 / a)) = l
    generalize r (d - r (l * b)) = u
    by_cases hu : u = 0
    · rw [if_pos (by rw [hu, mul_zero]), if_pos hu]; rfl
    rw [if_neg (mul_ne_zero hc.ne' hu), if_neg hu]
    have e4 : r (1 / (c * u)) = c⁻¹ * r (1 / u) := by rw [← hr']; congr 1; field_simp
    rw [e4]
    generalize r (1 / a) = a'
    generalize r (1 / u) = u'
    have e5 : r (-(c⁻¹ * u') * r (c⁻¹ * a' * (c * b))) = c⁻¹ * r (-u' * r (a' * b)) := by
      rw [← hr']
      congr 1
      rw [show c⁻¹ * a' * (c * b) = a' * b by field_simp]
      ring
    have e6 : ∀ z, r (c⁻¹ * z * l) = c⁻¹ * r (z * l) := fun z => by rw [mul_assoc, hr']
    rw [e5, e6, e6, ← mul_sub, hr']
    simp only [Option.map_some, Option.some.injEq]
    funext i j
    fin_cases i <;> fin_cases j <;> simp
  · simp only [if_neg hsw]
    generalize M 1 0 = x
    generalize M 1 1 = d
    generalize M 0 0 = a
    generalize M 0 1 = b
    have e1 : r (1 / (c * a)) = c⁻¹ * r (1 / a) := by rw [← hr']; congr 1; field_simp
    have e2 : c * x * (c⁻¹ * r (1 / a)) = x * r (1 / a) := by field_simp
    have e3 : ∀ l, r (c * d - r (l * (c * b))) = c * r (d - r (l * b)) := by
      intro l
      rw [show c * d - r (l * (c * b)) = c * (d - r (l * b)) by rw [mul_left_comm, hr]; ring, hr]
    rw [e1, e2, e3]
    by_cases ha : a = 0
    · rw [if_pos (by rw [ha, mul_zero]), if_pos ha]; rfl
    rw [if_neg (mul_ne_zero hc.ne' ha), if_neg ha]
    generalize r (x * r (1 / a)) = l
    generalize r (d - r (l * b)) = u
    by_cases hu : u = 0
    · rw [if_pos (by rw [hu, mul_zero]), if_pos hu]; rfl
    rw [if_neg (mul_ne_zero hc.ne' hu), if_neg hu]
    have e4 : r (1 / (c * u)) = c⁻¹ * r (1 / u) := by rw [← hr']; congr 1; field_simp
    rw [e4]
    generalize r (1 / a) = a'
    generalize r (1 / u) = u'
    have e5 : r (-(c⁻¹ * u') * r (c⁻¹ * a' * (c * b))) = c⁻¹ * r (-u' * r (a' * b)) := by
      rw [← hr']
      congr 1
      rw [show c⁻¹ * a' * (c * b) = a' * b by field_simp]
      ring
    have e6 : ∀ z, r (c⁻¹ * z * l) = c⁻¹ * r (z * l) := fun z => by rw [mul_assoc, hr']
    rw [e5, e6, e6, ← mul_sub, hr']
    simp only [Option.map_some, Option.some.injEq]
    funext i j
    fin_cases i <;> fin_cases j <;> simp

private theorem sumLeft_units {r : K → K} {c : K} (hr : ∀ x, r (c * x) = c * r x) (l : List K) :
    sumLeft r ((l.map fun x => c * x).map r) = c * sumLeft r (l.map r) := by
  have e : (l.map fun x => c * x).map r = (l.map r).map fun x => c * x := by
    rw [List.map_map, List.map_map]
    exact List.map_congr_left fun x _ => hr x
  rw [e]
  generalize l.map r = l
  cases l with
  | nil => simp [sumLeft]
  | cons x l =>
    show (l.map fun x => c * x).foldl (fun a y => r (a + y)) (c * x) = c * l.foldl (fun a y => r (a + y)) x
    induction l generalizing x with
    | nil => rfl
    | cons y l ih =>
      rw [List.map_cons, List.foldl_cons, List.foldl_cons, ← mul_add, hr]
      exact ih _

/-- C143 (reference): products added up from left to right and LAPACK's inverse of a matrix of order one or two are as assumed, for every rounding
that treats opposite numbers and numbers of different exponents alike. -/
theorem C143_reference {r sq : K → K} (B : Binary r sq) : FairDot (referenceAlg r) ∧ FairInv (referenceAlg r) := by
  refine ⟨⟨?_, ?_⟩, ⟨?_, ?_⟩⟩
  · intro o i j l
    have := sumLeft_units (r := r) (c := -1) (fun x => by rw [neg_one_mul, neg_one_mul, B.neg]) l
    simp only [neg_one_mul] at this
    exact this
  · intro o i j e l
    exact sumLeft_units (B.scale e) l
  · intro k s hs M
    show (if h : k = 2 then _ else _) = Option.map _ (if h : k = 2 then _ else _)
    by_cases h : k = 2
    · subst h
      rw [dif_pos rfl, dif_pos rfl, Option.map_map]
      have hid : (fun i j : Fin 2 => s i * s j * M i j) = M ∧ (∀ (N : Fin 2 → Fin 2 → K), (fun i j => s i * s j * N i j) = N) ∨
          (fun i j : Fin 2 => s i * s j * M i j) = (fun i j => if i = j then M i j else -M i j) ∧
            (∀ (N : Fin 2 → Fin 2 → K), (fun i j => s i * s j * N i j) = fun i j => if i = j then N i j else -N i j) := by
        rcases hs 0 with h0 | h0 <;> rcases hs 1 with h1 | h1
        · left; constructor <;> intros <;> funext i j <;> fin_cases i <;> fin_cases j <;> simp [h0, h1]
        · right; constructor <;> intros <;> funext i j <;> fin_cases i <;> fin_cases j <;> simp [h0, h1]
        · right; constructor <;> intros <;> funext i j <;> fin_cases i <;> fin_cases j <;> simp [h0, h1]
        · left; constructor <;> intros <;> funext i j <;> fin_cases i <;> fin_cases j <;> simp [h0, h1]
      have key : lapack2 r (fun i j => s i * s j * M i j) = (lapack2 r M).map fun N i j => s i * s j * N i j := by
        rcases hid with ⟨a, b⟩ | ⟨a, b⟩
        · rw [a]
          rw [show (fun (N : Fin 2 → Fin 2 → K) i j => s i * s j * N i j) = id from funext b]
          rw [Option.map_id, id]
        · rw [a]
          rw [show (fun (N : Fin 2 → Fin 2 → K) i j => s i * s j * N i j) = fun N i j => if i = j then N i j else -N i j from funext b]
          exact lapack2_off B.neg M
      show (lapack2 r fun i j => s i * s j * M i j).map (fun N => N) = (lapack2 r M).map _
      rw [key, Option.map_map]
      rfl
    · rw [dif_neg h, dif_neg h]
      by_cases h1 : k = 1
      · subst h1
        rw [dif_pos rfl, dif_pos rfl]
        have hss : ∀ (i j : Fin 1) (x : K), s i * s j * x = x := by
          intro i j x
          rw [Subsingleton.elim i j]
          rcases hs j with e | e <;> rw [e] <;> ring
        simp only [hss]
        cases (if M (Fin.cast rfl 0) (Fin.cast rfl 0) = 0 then none else some fun i j => r (1 / M i j)) <;> rfl
      · rw [dif_neg h1, dif_neg h1]; rfl
  · intro k e M
    show (if h : k = 2 then _ else _) = Option.map _ (if h : k = 2 then _ else _)
    by_cases h : k = 2
    · subst h
      rw [dif_pos rfl, dif_pos rfl, Option.map_map]
      have := lapack2_scale (r := r) (c := 2 ^ e) (by positivity) (B.scale e) M
      show (lapack2 r fun i j => 2 ^ e * M i j).map (fun N => N) = (lapack2 r M).map _
      rw [this, Option.map_map]
      rfl
    · rw [dif_neg h, dif_neg h]
      by_cases h1 : k = 1
      · subst h1
        rw [dif_pos rfl, dif_pos rfl]
        have h2 : (2 : K) ^ e ≠ 0 := by positivity
        simp only [mul_eq_zero, h2, false_or]
        split_ifs
        · rfl
        · simp only [Option.map_some, Option.some.injEq]
          funext i j
          rw [← zpow_neg, ← B.scale, zpow_neg]
          congr 1
          rw [one_div, mul_inv, one_div]
      · rw [dif_neg h1, dif_neg h1]; rfl

/-! ### A price that does not move -/

/-- A constant series of six bars. -/
def flatSeries (x : ℚ) : List (ℤ × XF ℚ) := (List.range 6).map fun i => ((i : ℤ), .fin x)

private def flatOls (x : ℚ) : Py (XF ℚ × XF ℚ) :=
  (olsR (roundBits 53) (referenceAlg (roundBits 53)) ((List.replicate 5 (.fin x)).zipIdx.map fun y =>
    ((![.fin 1, .fin (roundBits 53 (y.2 : ℚ))] : Fin 2 → XF ℚ), y.1))).map fun b => (b.1 1, b.2 1 1)

private theorem flat_seven : flatOls 7 = .ok (.fin 0, .fin 0) := by decide +kernel

private theorem flat_hundred : flatOls 100 = .ok (.fin 0, .fin (3002399751580331 / 22300745198530623141535718272648361505980416)) := by
  decide +kernel

private theorem flat_less : flatOls (roundBits 53 (9999 / 100)) = .ok (.fin (-1 / 70368744177664), .fin (1 / 9903520314283042199192993792)) := by
  decide +kernel

private theorem flat_scan (sq : ℚ → ℚ) (mem : ℕ → ℕ → XF ℚ) (x : ℚ) :
    (trendScanR .python (roundBits 53) sq (referenceAlg (roundBits 53)) mem ⟨6, 5, 1⟩ (some [0]) (flatSeries x)).map
        (List.map fun l => (l.tValue, l.label)) =
      (flatOls x).bind fun b => (divR .python (roundBits 53) b.1 (sqrtR sq b.2)).map fun t => [(t, XF.sign t)] := by
  have hy : (flatSeries x).map (·.2) = List.replicate 6 (.fin x) := rfl
  have ht : (flatSeries x).map (·.1) = [0, 1, 2, 3, 4, 5] := rfl
  have hT : trendTR .python (roundBits 53) sq (referenceAlg (roundBits 53)) (List.replicate 5 (.fin x)) =
      (flatOls x).bind fun b => divR .python (roundBits 53) b.1 (sqrtR sq b.2) := by
    unfold trendTR tValueR flatOls
    cases olsR (roundBits 53) (referenceAlg (roundBits 53)) ((List.replicate 5 (.fin x)).zipIdx.map fun y =>
      ((![.fin 1, .fin (roundBits 53 (y.2 : ℚ))] : Fin 2 → XF ℚ), y.1)) <;> rfl
  unfold trendScanR
  dsimp only
  rw [if_pos (by rw [ht]; simp)]
  simp only [List.zipIdx_cons, List.zipIdx_nil, mapE]
  unfold labelAtR scanAtR
  dsimp only
  rw [hy, ht, if_pos (by simp), bestAtR_one]
  simp only [List.idxOf_cons_self, List.drop_zero, List.take_replicate, List.length_replicate, Nat.min_self]
  simp only [show (6 - 5 : ℕ) = 1 from rfl, List.range_one, mapE, Nat.add_zero, show min 5 6 = 5 from rfl]
  rw [hT]
  cases flatOls x with
  | error e => rfl
  | ok b =>
    simp only [Except.bind]
    cases divR .python (roundBits 53) b.1 (sqrtR sq b.2) with
    | error e => rfl
    | ok t => rfl

/-- C143 refuted: in floating point the labels of the trend scanner do depend on the level of the series (in exact arithmetic, C73, they do
not).  In double precision, with products added up from left to right and LAPACK's inverse, a price that does not move at all raises at
7, is no trend at 100 and a downward trend at 99.99. -/
theorem C143_level_refuted (sq : ℚ → ℚ) (h : GoodSqrt 53 sq) (mem : ℕ → ℕ → XF ℚ) :
    trendScanR .python (roundBits 53) sq (referenceAlg (roundBits 53)) mem ⟨6, 5, 1⟩ (some [0]) (flatSeries 7) = .error .zeroDivisionError ∧
    (∃ l, trendScanR .python (roundBits 53) sq (referenceAlg (roundBits 53)) mem ⟨6, 5, 1⟩ (some [0]) (flatSeries 100) = .ok [l] ∧
      l.label = .fin 0) ∧
    ∃ l, trendScanR .python (roundBits 53) sq (referenceAlg (roundBits 53)) mem ⟨6, 5, 1⟩ (some [0])
      (flatSeries (roundBits 53 (9999 / 100))) = .ok [l] ∧ l.label = .fin (-1) := by
  have hpos : ∀ v : ℚ, 0 < v → 0 < sq v := by
    intro v hv
    have h1 := h v hv.le
    have h2 : (0 : ℝ) < √v := Real.sqrt_pos.2 (by exact_mod_cast hv)
    have h3 : √(v : ℝ) / 2 ^ 53 < √v := div_lt_self h2 (by norm_num)
    have h4 := (abs_le.1 h1).1
    have : (0 : ℝ) < sq v := by linarith
    exact_mod_cast this
  have h0 : sq 0 = 0 := by
    have h1 := h 0 le_rfl
    simp at h1
    exact h1
  have row : ∀ (out : Py (List (LabelR ℚ))) (t q : XF ℚ), out.map (List.map fun l => (l.tValue, l.label)) = .ok [(t, q)] →
      ∃ l, out = .ok [l] ∧ l.label = q := by
    intro out t q ho
    cases out with
    | error e => cases ho
    | ok l =>
      simp only [Except.map, Except.ok.injEq] at ho
      match l, ho with
      | [a], ho =>
        simp only [List.map_cons, List.map_nil, List.cons.injEq, Prod.mk.injEq, and_true] at ho
        exact ⟨a, rfl, ho.2⟩
  have hdiv : ∀ a v : ℚ, 0 < v → divR .python (roundBits 53) (.fin a) (sqrtR sq (.fin v)) = .ok (.fin (roundBits 53 (a / sq v))) := by
    intro a v hv
    simp only [sqrtR, if_neg (not_lt.2 hv.le), divR, XF.beq, (hpos v hv).ne', decide_false, Bool.false_eq_true, and_false, if_false,
      XF.div, rnd]
  refine ⟨?_, ?_, ?_⟩
  · have := flat_scan sq mem 7
    rw [flat_seven] at this
    simp only [Except.bind, sqrtR, lt_self_iff_false, if_false, h0] at this
    have hz : divR .python (roundBits 53) (.fin 0) (.fin 0) = .error .zeroDivisionError := by
      unfold divR
      rw [if_pos ⟨rfl, by decide +kernel⟩]
    rw [hz] at this
    generalize trendScanR .python (roundBits 53) sq (referenceAlg (roundBits 53)) mem ⟨6, 5, 1⟩ (some [0]) (flatSeries 7) = out at this
    cases out with
    | error e => simpa [Except.map] using this
    | ok l => cases this
  · have := flat_scan sq mem 100
    rw [flat_hundred] at this
    simp only [Except.bind] at this
    rw [hdiv _ _ (by norm_num), zero_div, roundBits_zero] at this
    exact row _ _ _ this
  · have := flat_scan sq mem (roundBits 53 (9999 / 100))
    rw [flat_less] at this
    simp only [Except.bind] at this
    rw [hdiv _ _ (by norm_num)] at this
    obtain ⟨l, l1, l2⟩ := row _ _ _ this
    refine ⟨l, l1, ?_⟩
    rw [l2]
    have hn : -1 / 70368744177664 / sq (1 / 9903520314283042199192993792) < 0 :=
      div_neg_of_neg_of_pos (by norm_num) (hpos _ (by norm_num))
    have hr : roundBits 53 (-1 / 70368744177664 / sq (1 / 9903520314283042199192993792)) < 0 := by
      have := roundBits_pos 53 (by norm_num) (neg_pos.2 hn)
      rw [roundBits_neg] at this
      linarith
    simp only [XF.sign, if_neg (not_lt.2 hr.le), if_pos hr]

section Examples

private theorem root_pow {sq : ℚ → ℚ} (h : ∀ x, 0 ≤ x → sq (x * (2 * 2)) = sq x * 2) (e : ℤ) (x : ℚ) (hx : 0 ≤ x) :
    sq (2 ^ e * 2 ^ e * x) = 2 ^ e * sq x := by
  have hp : ∀ (n : ℕ) (x : ℚ), 0 ≤ x → sq (2 ^ n * 2 ^ n * x) = 2 ^ n * sq x := by
    intro n
    induction n with
    | zero => intro x _; simp
    | succ n ih =>
      intro x hx
      rw [show (2 : ℚ) ^ (n + 1) * 2 ^ (n + 1) * x = 2 ^ n * 2 ^ n * x * (2 * 2) by ring, h _ (by positivity), ih x hx]
      ring
  obtain ⟨n, rfl | rfl⟩ := e.eq_nat_or_neg
  · simpa using hp n x hx
  · have h2 : (2 : ℚ) ^ n ≠ 0 := by positivity
    have := hp n ((2 ^ n)⁻¹ * (2 ^ n)⁻¹ * x) (by positivity)
    rw [show (2 : ℚ) ^ n * 2 ^ n * ((2 ^ n)⁻¹ * (2 ^ n)⁻¹ * x) = x by field_simp] at this
    rw [zpow_neg, zpow_natCast, this]
    field_simp

/-- Double precision meets the assumptions. -/
private theorem double : ∃ sq : ℚ → ℚ, GoodSqrt 53 sq ∧ Binary (roundBits 53) sq := by
  obtain ⟨sq, h1, h2⟩ := exists_scaled_root
  exact ⟨sq, h1, roundBits_neg 53, fun e x => by rw [mul_comm, roundBits_zpow, mul_comm], fun e x hx => root_pow h2 e x hx⟩

/-- Six prices, one missing. -/
private def prices : List (ℤ × XF ℚ) := [(10, .fin 3), (20, .fin 5), (30, .fin 4), (40, .fin 8), (50, .nan), (60, .fin 7)]

example : ∃ sq : ℚ → ℚ, Binary (roundBits 53) sq ∧ FairDot (referenceAlg (roundBits 53)) ∧ FairInv (referenceAlg (roundBits 53)) ∧
    (∀ mem, trendScanR .python (roundBits 53) sq (referenceAlg (roundBits 53)) mem ⟨4, 3, 1⟩ none
        (prices.map fun x => (x.1, XF.mul (.fin (2 ^ (-3 : ℤ))) x.2)) =
      trendScanR .python (roundBits 53) sq (referenceAlg (roundBits 53)) mem ⟨4, 3, 1⟩ none prices) ∧
    sadfRunR .python (roundBits 53) sq sq (referenceAlg (roundBits 53)) (fun n => n) "no_trend" 1 3 false (prices.map fun x => (x.1, XF.neg x.2)) =
      sadfRunR .python (roundBits 53) sq sq (referenceAlg (roundBits 53)) (fun n => n) "no_trend" 1 3 false prices := by
  obtain ⟨sq, -, B⟩ := double
  obtain ⟨D, I⟩ := C143_reference B
  exact ⟨sq, B, D, I, fun mem => C143_trend_scale B D .python mem _ _ _ _, C143_sadf_mirror B D I .python _ _ (Or.inl rfl) 1 3 false prices⟩

/-- The same prices without a gap; both tests answer (evaluated with the identity for the square root). -/
private def complete : List (ℤ × XF ℚ) := [(10, .fin 3), (20, .fin 5), (30, .fin 4), (40, .fin 8), (50, .fin 6), (60, .fin 7)]

example : sdfcRunR .python (roundBits 53) id (referenceAlg (roundBits 53)) 2 complete =
      .ok [(30, .fin (1051847429748277 / 1125899906842624)), (40, .fin (-3602879701896397 / 2251799813685248))] ∧
    sadfRunR .python (roundBits 53) id id (referenceAlg (roundBits 53)) (fun n => n) "no_trend" 1 3 false complete =
      .ok [(60, .fin (8798232232031001 / 2251799813685248))] := by decide +kernel

example : ∃ sq : ℚ → ℚ, Binary (roundBits 53) sq ∧
    sdfcRunR .numpy (roundBits 53) sq (referenceAlg (roundBits 53)) 2 (complete.map fun x => (x.1, XF.neg x.2)) =
      sdfcRunR .numpy (roundBits 53) sq (referenceAlg (roundBits 53)) 2 complete ∧
    sadfRunR .numpy (roundBits 53) sq sq (referenceAlg (roundBits 53)) (fun n => n) "no_trend" 1 3 false
        (complete.map fun x => (x.1, XF.mul (.fin (2 ^ (5 : ℤ))) x.2)) =
      sadfRunR .numpy (roundBits 53) sq sq (referenceAlg (roundBits 53)) (fun n => n) "no_trend" 1 3 false complete := by
  obtain ⟨sq, -, B⟩ := double
  obtain ⟨D, I⟩ := C143_reference B
  exact ⟨sq, B, (C143_sdfc B D I .numpy 2 0 complete).2, C143_sadf_scale B D I .numpy _ _ _ (Or.inl ⟨rfl, rfl⟩) 1 3 5 complete⟩

example : ∃ sq : ℚ → ℚ, Binary (roundBits 53) sq ∧ ∀ mem,
    (trendScanR .numpy (roundBits 53) sq (referenceAlg (roundBits 53)) mem ⟨4, 3, 1⟩ none (prices.map fun x => (x.1, XF.neg x.2))).map
        (List.map fun l => (l.time, l.eventEnd, l.tValue, l.label)) =
      (trendScanR .numpy (roundBits 53) sq (referenceAlg (roundBits 53)) mem ⟨4, 3, 1⟩ none prices).map
        (List.map fun l => (l.time, l.eventEnd, XF.neg l.tValue, XF.neg l.label)) := by
  obtain ⟨sq, -, B⟩ := double
  exact ⟨sq, B, fun mem => C143_trend_mirror B (C143_reference B).1 .numpy mem _ rfl _ _⟩

/-- The level matters with an existing square root. -/
example : ∃ sq : ℚ → ℚ, ∃ l, trendScanR .python (roundBits 53) sq (referenceAlg (roundBits 53)) (fun _ _ => .nan) ⟨6, 5, 1⟩ (some [0])
    (flatSeries (roundBits 53 (9999 / 100))) = .ok [l] ∧ l.label = .fin (-1) := by
  obtain ⟨sq, h, -⟩ := double
  exact ⟨sq, (C143_level_refuted sq h _).2.2⟩

end Examples

end Mizar.Props
