import Verif.Model.DoubleCusum
import Verif.Lemmas.Double
import Verif.Lemmas.RoundedCusum

/-! The CUSUM filter in floating point with a bounded exponent follows the one without bounds. -/

namespace Mizar.Rd
open Mizar.Cusum

/-- Numbers of the format, missing or infinite. -/
def FitsFmt (f : Fmt) (x : XF ℚ) : Prop := ∀ q, x = .fin q → f.Has q

/-- Differences of the two arithmetics: equal, a multiple of the smallest number below the bound if finite, or infinite on one side
and beyond the bound on the other. -/
inductive Twin (f : Fmt) : XF ℚ → XF ℚ → Prop
  | nan : Twin f .nan .nan
  | pinf : Twin f .pinf .pinf
  | ninf : Twin f .ninf .ninf
  | fin (q : ℚ) : OnUnit f.emin q → |q| < 2 ^ f.emax → roundBits f.p q = q → Twin f (.fin q) (.fin q)
  | up (q : ℚ) : 2 ^ f.emax ≤ q → OnUnit f.emin q → Twin f .pinf (.fin q)
  | down (q : ℚ) : q ≤ -2 ^ f.emax → OnUnit f.emin q → Twin f .ninf (.fin q)

theorem twin_float (f : Fmt) (hp : 1 ≤ f.p) {q : ℚ} (h : OnUnit f.emin q) : Twin f (f.float q) (.fin (roundBits f.p q)) := by
  rw [f.float_unit hp h]
  split
  · exact .up _ ‹_› (h.roundBits hp)
  · split
    · exact .down _ ‹_› (h.roundBits hp)
    · rename_i h1 h2
      exact .fin _ (h.roundBits hp) (abs_lt.2 ⟨not_le.1 h2, not_le.1 h1⟩) (roundBits_eq_self f.p hp (isFloat_roundBits f.p hp q))

theorem twin_diff (f : Fmt) (hp : 1 ≤ f.p) {a b : XF ℚ} (ha : FitsFmt f a) (hb : FitsFmt f b) :
    Twin f (XF.rounded f.float (XF.sub b a)) (XF.rounded (fun q => .fin (roundBits f.p q)) (XF.sub b a)) := by
  cases a <;> cases b <;> simp only [XF.sub, XF.neg, XF.add, XF.rounded] <;> first | constructor | skip
  rename_i x y
  exact twin_float f hp ((hb _ rfl).onUnit.add (ha _ rfl).onUnit.neg)

/-- The accumulators. -/
structure Good (f : Fmt) (h : ℚ) (s : St ℚ) : Prop where
  pos : ∃ a, s.pos = .fin a ∧ 0 ≤ a ∧ a ≤ h ∧ OnUnit f.emin a
  neg : ∃ b, s.neg = .fin (-b) ∧ 0 ≤ b ∧ b ≤ h ∧ OnUnit f.emin b

/-- One side. -/
theorem up_twin (f : Fmt) (hp : 1 ≤ f.p) {h : ℚ} (hh : 0 ≤ h) (hF : f.Has h) {a : ℚ} (ha : 0 ≤ a) (hah : a ≤ h) (hu : OnUnit f.emin a)
    {d e : XF ℚ} (hde : Twin f d e) :
    (XF.lt (.fin h) (pyMax0 (XF.rounded f.float (XF.add (.fin a) d))) = true ∧
      XF.lt (.fin h) (pyMax0 (XF.rounded (fun q => .fin (roundBits f.p q)) (XF.add (.fin a) e))) = true ∧
      (e = .pinf ∨ ∃ q, e = .fin q ∧ h < a + q) ∧ (d = .pinf ∨ d = e)) ∨
    ∃ c, 0 ≤ c ∧ c ≤ h ∧ OnUnit f.emin c ∧ pyMax0 (XF.rounded f.float (XF.add (.fin a) d)) = .fin c ∧
      pyMax0 (XF.rounded (fun q => .fin (roundBits f.p q)) (XF.add (.fin a) e)) = .fin c := by
  have hM : h < 2 ^ f.emax := lt_of_le_of_lt (le_abs_self h) hF.2
  have hR := rounding_bits hp hF.isFloat
  have h0 : (0 : ℚ) < 2 ^ f.emax := two_zpow_pos _
  have zero : ∃ c, 0 ≤ c ∧ c ≤ h ∧ OnUnit f.emin c ∧ (XF.fin (0 : ℚ)) = .fin c ∧ (XF.fin (0 : ℚ)) = .fin c :=
    ⟨0, le_rfl, hh, OnUnit.zero _, rfl, rfl⟩
  cases hde with
  | nan => right; simpa [XF.add, XF.rounded, pyMax0, XF.lt] using zero
  | pinf => left; simp [XF.add, XF.rounded, pyMax0, XF.lt]
  | ninf => right; simpa [XF.add, XF.rounded, pyMax0, XF.lt] using zero
  | up q hq hu' =>
    left
    have h1 : 2 ^ f.emax ≤ roundBits f.p (a + q) := by
      have e1 : roundBits f.p q ≤ roundBits f.p (a + q) := roundBits_mono f.p hp (by linarith)
      have e2 : roundBits f.p (2 ^ f.emax) = 2 ^ f.emax :=
        roundBits_eq_self f.p hp ⟨1, f.emax, by rw [abs_one]; exact one_lt_pow₀ (by norm_num) (by omega), by simp⟩
      have e3 := roundBits_mono f.p hp hq
      linarith
    have h2 : (0 : ℚ) < roundBits f.p (a + q) := by linarith
    refine ⟨by simp [XF.add, XF.rounded, pyMax0, XF.lt], ?_, Or.inr ⟨q, rfl, by linarith⟩, Or.inl rfl⟩
    simp only [XF.add, XF.rounded, pyMax0, XF.lt, decide_eq_true_eq, h2, if_true]
    linarith
  | down q hq hu' =>
    right
    have h1 : roundBits f.p (a + q) ≤ 0 := by
      have := roundBits_mono f.p hp (show a + q ≤ 0 by linarith)
      rwa [roundBits_zero] at this
    have e1 : pyMax0 (XF.rounded (fun q => .fin (roundBits f.p q)) (XF.add (.fin a) (.fin q))) = .fin 0 := by
      rw [show XF.rounded (fun q => XF.fin (roundBits f.p q)) (XF.add (.fin a) (.fin q)) = .fin (roundBits f.p (a + q)) from rfl, pyMax0_fin,
        max_eq_left h1]
    rw [e1]
    simpa [XF.add, XF.rounded, pyMax0, XF.lt] using zero
  | fin q hu' hq hqq =>
    have e1 : pyMax0 (XF.rounded (fun q => .fin (roundBits f.p q)) (XF.add (.fin a) (.fin q))) = .fin (max 0 (roundBits f.p (a + q))) := by
      rw [show XF.rounded (fun q => XF.fin (roundBits f.p q)) (XF.add (.fin a) (.fin q)) = .fin (roundBits f.p (a + q)) from rfl, pyMax0_fin]
    have e2 : XF.rounded f.float (XF.add (.fin a) (.fin q)) = f.float (a + q) := rfl
    rw [e1, e2, f.float_unit hp (hu.add hu')]
    have hlow : ¬ roundBits f.p (a + q) ≤ -2 ^ f.emax := by
      have e3 : roundBits f.p q ≤ roundBits f.p (a + q) := roundBits_mono f.p hp (by linarith)
      rw [hqq] at e3
      have := (abs_lt.1 hq).1
      exact not_le.2 (by linarith)
    by_cases c1 : 2 ^ f.emax ≤ roundBits f.p (a + q)
    · left
      rw [if_pos c1]
      refine ⟨by simp [pyMax0, XF.lt], by simp only [XF.lt, decide_eq_true_eq, lt_max_iff]; right; linarith, Or.inr ⟨q, rfl, ?_⟩, Or.inr rfl⟩
      exact hR.lt_of (by linarith)
    · rw [if_neg c1, if_neg hlow, pyMax0_fin]
      by_cases c2 : h < max 0 (roundBits f.p (a + q))
      · left
        refine ⟨by simpa only [XF.lt, decide_eq_true_eq] using c2, by simpa only [XF.lt, decide_eq_true_eq] using c2, Or.inr ⟨q, rfl, ?_⟩, Or.inr rfl⟩
        rcases lt_max_iff.1 c2 with c | c
        · linarith
        · exact hR.lt_of c
      · right
        refine ⟨_, le_max_left _ _, not_lt.1 c2, ?_, rfl, rfl⟩
        rcases max_choice 0 (roundBits f.p (a + q)) with c | c <;> rw [c]
        · exact OnUnit.zero _
        · exact (hu.add hu').roundBits hp

theorem float_neg (f : Fmt) (q : ℚ) : f.float (-q) = XF.neg (f.float q) := by
  have hr : f.round (-q) = -f.round q := by
    unfold Fmt.round
    by_cases h : q = 0
    · simp [h]
    · rw [if_neg (by simpa using h), if_neg h]
      simp only [abs_neg, neg_div, roundHalfEven_neg]
      push_cast
      ring
  have h0 : (0 : ℚ) < 2 ^ f.emax := two_zpow_pos _
  unfold Fmt.float
  rw [hr]
  by_cases h1 : 2 ^ f.emax ≤ f.round q
  · rw [if_neg (by linarith), if_pos (by linarith), if_pos h1]; rfl
  · by_cases h2 : f.round q ≤ -2 ^ f.emax
    · rw [if_pos (by linarith), if_neg h1, if_pos h2]; rfl
    · rw [if_neg (by linarith), if_neg (by linarith), if_neg h1, if_neg h2]; rfl

theorem rounded_neg {g : ℚ → XF ℚ} (hg : ∀ q, g (-q) = XF.neg (g q)) (x : XF ℚ) : XF.rounded g (XF.neg x) = XF.neg (XF.rounded g x) := by
  cases x <;> simp [XF.rounded, XF.neg, hg]

theorem xadd_neg (x y : XF ℚ) : XF.add (XF.neg x) (XF.neg y) = XF.neg (XF.add x y) := by
  cases x <;> cases y <;> simp [XF.add, XF.neg]
  ring

theorem pyMin0_neg (x : XF ℚ) : pyMin0 (XF.neg x) = XF.neg (pyMax0 x) := by
  cases x with
  | fin q => rw [XF.neg, pyMin0_fin, pyMax0_fin, min_zero_neg]; rfl
  | _ => simp [pyMin0, pyMax0, XF.neg, XF.lt]

theorem xneg_neg (x : XF ℚ) : XF.neg (XF.neg x) = x := by cases x <;> simp [XF.neg]

theorem xlt_neg (x y : XF ℚ) : XF.lt (XF.neg x) (XF.neg y) = XF.lt y x := by
  cases x <;> cases y <;> simp [XF.lt, XF.neg]

theorem Twin.neg {f : Fmt} {d e : XF ℚ} (h : Twin f d e) : Twin f (XF.neg d) (XF.neg e) := by
  cases h with
  | nan => exact .nan
  | pinf => exact .ninf
  | ninf => exact .pinf
  | fin q h1 h2 h3 => exact .fin _ h1.neg (by rwa [abs_neg]) (by rw [roundBits_neg, h3])
  | up q h1 h2 => exact .down _ (by linarith) h2.neg
  | down q h1 h2 => exact .up _ (by linarith) h2.neg

/-- One iteration keeps the two arithmetics together. -/
theorem step_twin (f : Fmt) (hp : 1 ≤ f.p) {h : ℚ} (hh : 0 ≤ h) (hF : f.Has h) {s : St ℚ} (hs : Good f h s) {d e : XF ℚ} (hde : Twin f d e) :
    cusumStepD f.float (.fin h) s d = cusumStepD (fun q => .fin (roundBits f.p q)) (.fin h) s e ∧
    Good f h (cusumStepD f.float (.fin h) s d).1 := by
  obtain ⟨sp, sn⟩ := s
  obtain ⟨⟨a, ha, a0, ah, au⟩, ⟨b, hb, b0, bh, bu⟩⟩ := hs
  dsimp only at ha hb
  subst ha hb
  have hn1 : ∀ {g : ℚ → XF ℚ} (hg : ∀ q, g (-q) = XF.neg (g q)) (x : XF ℚ),
      pyMin0 (XF.rounded g (XF.add (.fin (-b)) x)) = XF.neg (pyMax0 (XF.rounded g (XF.add (.fin b) (XF.neg x)))) := by
    intro g hg x
    rw [← pyMin0_neg, ← rounded_neg hg, ← xadd_neg, xneg_neg]; rfl
  unfold cusumStepD
  dsimp only
  rw [hn1 (float_neg f) d, hn1 (fun q => by rw [roundBits_neg]; rfl) e, xlt_neg, xlt_neg]
  have U := up_twin f hp hh hF a0 ah au hde
  have D := up_twin f hp hh hF b0 bh bu hde.neg
  have z : Good f h ⟨.fin 0, .fin 0⟩ := ⟨⟨0, rfl, le_rfl, hh, OnUnit.zero _⟩, ⟨0, by simp, le_rfl, hh, OnUnit.zero _⟩⟩
  rcases U with ⟨u1, u2, u3, u4⟩ | ⟨c, c0, ch, cu, c1, c2⟩
  · rcases D with ⟨d1, d2, d3, d4⟩ | ⟨c', c0', ch', cu', c1', c2'⟩
    · exfalso
      cases e with
      | fin q =>
        obtain ⟨q1, e1, h1⟩ := u3.resolve_left (by simp)
        obtain ⟨q2, e2, h2⟩ := d3.resolve_left (by simp [XF.neg])
        injection e1 with e1
        injection e2 with e2
        subst e1
        linarith
      | _ => simp [XF.neg] at u3 d3
    · rw [c1', c2', u1, u2]
      have hlt : XF.lt (.fin h) (.fin c') = false := by simpa [XF.lt] using ch'
      rw [hlt]
      simp only [Bool.false_eq_true, if_false, if_true]
      exact ⟨trivial, ⟨⟨0, rfl, le_rfl, hh, OnUnit.zero _⟩, ⟨c', rfl, c0', ch', cu'⟩⟩⟩
  · have hlt : XF.lt (.fin h) (.fin c) = false := by simpa [XF.lt] using ch
    rw [c1, c2, hlt]
    rcases D with ⟨d1, d2, d3, d4⟩ | ⟨c', c0', ch', cu', c1', c2'⟩
    · rw [d1, d2]
      simp only [if_true]
      exact ⟨trivial, ⟨⟨c, rfl, c0, ch, cu⟩, ⟨0, by simp, le_rfl, hh, OnUnit.zero _⟩⟩⟩
    · have hlt' : XF.lt (.fin h) (.fin c') = false := by simpa [XF.lt] using ch'
      rw [c1', c2', hlt']
      simp only [Bool.false_eq_true, if_false]
      exact ⟨trivial, ⟨⟨c, rfl, c0, ch, cu⟩, ⟨c', rfl, c0', ch', cu'⟩⟩⟩

theorem loop_twin (f : Fmt) (hp : 1 ≤ f.p) {h : ℚ} (hh : 0 ≤ h) (hF : f.Has h) (l l' : List (ℤ × XF ℚ))
    (hl : List.Forall₂ (fun x y => x.1 = y.1 ∧ Twin f x.2 y.2) l l') : ∀ s, Good f h s →
    cusumLoopD f.float (.fin h) s l = cusumLoopD (fun q => .fin (roundBits f.p q)) (.fin h) s l' := by
  induction hl with
  | nil => intro s _; rfl
  | @cons x y l l' hxy _ ih =>
    intro s hs
    obtain ⟨i, d⟩ := x
    obtain ⟨j, e⟩ := y
    obtain ⟨hij, hde⟩ := hxy
    dsimp only at hij hde
    subst hij
    obtain ⟨h1, h2⟩ := step_twin f hp hh hF hs hde
    unfold cusumLoopD
    dsimp only
    rw [← h1, ih _ h2]

theorem diffs_twin (f : Fmt) (hp : 1 ≤ f.p) (X : List (ℤ × XF ℚ)) (hX : ∀ x ∈ X, FitsFmt f x.2) :
    List.Forall₂ (fun x y => x.1 = y.1 ∧ Twin f x.2 y.2) (cusumDiffsD f.float X) (cusumDiffsD (fun q => .fin (roundBits f.p q)) X) := by
  induction X with
  | nil => exact .nil
  | cons a l ih =>
    cases l with
    | nil => exact .nil
    | cons b l =>
      unfold cusumDiffsD
      exact .cons ⟨rfl, twin_diff f hp (hX a (by simp)) (hX b (by simp))⟩ (ih fun x hx => hX x (List.mem_cons_of_mem _ hx))

/-- The selection does not depend on the bounds of the exponent. -/
theorem cusumD_twin (f : Fmt) (hp : 1 ≤ f.p) {h : ℚ} (hh : 0 ≤ h) (hF : f.Has h) (X : List (ℤ × XF ℚ)) (hX : ∀ x ∈ X, FitsFmt f x.2) :
    cusumD f.float (.fin h) X = cusumD (fun q => .fin (roundBits f.p q)) (.fin h) X := by
  unfold cusumD
  rw [loop_twin f hp hh hF _ _ (diffs_twin f hp X hX) ⟨.fin 0, .fin 0⟩
    ⟨⟨0, rfl, le_rfl, hh, OnUnit.zero _⟩, ⟨0, by simp, le_rfl, hh, OnUnit.zero _⟩⟩]

theorem cusumStepD_fin (r : ℚ → ℚ) (h a b d : ℚ) : cusumStepD (fun q => .fin (r q)) (.fin h) ⟨.fin a, .fin b⟩ (.fin d) =
    (⟨.fin (cusumStep r h (a, b) d).1.1, .fin (cusumStep r h (a, b) d).1.2⟩, (cusumStep r h (a, b) d).2) := by
  simp only [cusumStepD, XF.add_fin, XF.rounded, XF.neg_fin, Cusum.pyMax0_fin, Cusum.pyMin0_fin, XF.lt_fin, cusumStep, decide_eq_true_eq]
  split
  · rfl
  · split <;> rfl

theorem cusumLoopD_fin (r : ℚ → ℚ) (h : ℚ) (l : List (ℤ × ℚ)) : ∀ a b : ℚ,
    cusumLoopD (fun q => .fin (r q)) (.fin h) ⟨.fin a, .fin b⟩ (l.map fun x => (x.1, XF.fin x.2)) = cusumLoop r h (a, b) l := by
  induction l with
  | nil => intros; rfl
  | cons x l ih =>
    intro a b
    simp only [List.map_cons, cusumLoopD, cusumLoop, cusumStepD_fin, ih]

theorem cusumDiffsD_fin (r : ℚ → ℚ) (X : List (ℤ × ℚ)) : cusumDiffsD (fun q => .fin (r q)) (X.map fun x => (x.1, XF.fin x.2)) =
    (cusumDiffs r X).map fun x => (x.1, XF.fin x.2) := by
  induction X with
  | nil => rfl
  | cons a l ih =>
    cases l with
    | nil => rfl
    | cons b l =>
      simp only [List.map_cons] at ih
      simp only [List.map_cons, cusumDiffsD, cusumDiffs, ih, XF.sub, XF.neg_fin, XF.add_fin, XF.rounded, sub_eq_add_neg]

/-- On numbers the model is the one with a rounding function. -/
theorem cusumD_fin (r : ℚ → ℚ) (h : ℚ) (X : List (ℤ × ℚ)) :
    cusumD (fun q => .fin (r q)) (.fin h) (X.map fun x => (x.1, XF.fin x.2)) = cusum r h X := by
  unfold cusumD cusum
  have hm : (X.map fun x => (x.1, XF.fin x.2)).map (·.1) = X.map (·.1) := by simp
  rw [hm, cusumDiffsD_fin, cusumLoopD_fin]

/-- Without rounding the model is the exact one. -/
theorem cusumD_exact {K : Type*} [Field K] [LinearOrder K] (h : XF K) (X : List (ℤ × XF K)) : cusumD XF.fin h X = Cusum.transform h X := by
  have hr : ∀ x : XF K, XF.rounded XF.fin x = x := fun x => by cases x <;> rfl
  have hd : cusumDiffsD XF.fin X = Cusum.diffs X := by
    induction X with
    | nil => rfl
    | cons a l ih =>
      cases l with
      | nil => rfl
      | cons b l => unfold cusumDiffsD Cusum.diffs; rw [ih, hr]
  have hl : ∀ (l : List (ℤ × XF K)) s, cusumLoopD XF.fin h s l = Cusum.loop h s l := by
    intro l
    induction l with
    | nil => intro s; rfl
    | cons a l ih =>
      intro s
      obtain ⟨i, d⟩ := a
      unfold cusumLoopD Cusum.loop cusumStepD Cusum.step
      simp only [hr, ih]
  unfold cusumD Cusum.transform
  rw [hd, hl]

end Mizar.Rd
