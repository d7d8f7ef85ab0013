import Verif.Model.RoundedRoll
import Verif.Spec.RoundedRoll
import Verif.Lemmas.Technical
import Verif.Lemmas.RoundedSum
import Verif.Lemmas.RoundedCusum

/-!
Lemmas on rolling sums and means carried along with rounding.
-/

namespace Mizar.Rd
open Mizar.Spec

/-! ### windows as differences of prefix sums -/

section
variable {K : Type}

/-- Sum of `f` over the first `n` values. -/
def pre {A : Type*} [AddCommGroup A] (f : XF K → A) (l : List (XF K)) (n : ℕ) : A := ((l.take n).map f).sum

theorem pre_succ {A : Type*} [AddCommGroup A] (f : XF K → A) (l : List (XF K)) (n : ℕ) (h : n < l.length) :
    pre f l (n + 1) = pre f l n + f (l.getD n .nan) := by
  unfold pre
  rw [List.take_add_one, List.map_append, List.sum_append, List.getElem?_eq_getElem h, List.getD_eq_getElem _ _ h]
  simp

/-- Sum of `f` over the window before position `n`, i.e. over the last `w` of the first `n` values. -/
def win {A : Type*} [AddCommGroup A] (f : XF K → A) (w : ℕ) (l : List (XF K)) (n : ℕ) : A := pre f l n - pre f l (n - w)

theorem win_zero {A : Type*} [AddCommGroup A] (f : XF K → A) (w : ℕ) (l : List (XF K)) : win f w l 0 = 0 := by
  simp [win, pre]

theorem win_eq {A : Type*} [AddCommGroup A] (f : XF K → A) (w : ℕ) (l : List (XF K)) (i : ℕ) :
    win f w l (i + 1) = ((winAt w i l).map f).sum := by
  unfold win pre winAt
  have : l.take (i + 1) = (l.take (i + 1)).take (i + 1 - w) ++ (l.take (i + 1)).drop (i + 1 - w) :=
    (List.take_append_drop _ _).symm
  conv_lhs => enter [1]; rw [this]
  rw [List.map_append, List.sum_append, List.take_take, Nat.min_eq_left (by omega)]
  abel

/-- The window without the value that leaves it at position `n`. -/
def winRem {A : Type*} [AddCommGroup A] (f : XF K → A) (w : ℕ) (l : List (XF K)) (n : ℕ) : A :=
  if w ≤ n then win f w l n - f (l.getD (n - w) .nan) else win f w l n

theorem win_succ {A : Type*} [AddCommGroup A] (f : XF K → A) {w : ℕ} (hw : 1 ≤ w) (l : List (XF K)) (n : ℕ)
    (h : n < l.length) : win f w l (n + 1) = winRem f w l n + f (l.getD n .nan) := by
  unfold winRem win
  rw [pre_succ f l n h]
  by_cases hwn : w ≤ n
  · rw [if_pos hwn, show n + 1 - w = (n - w) + 1 by omega, pre_succ f l (n - w) (by omega)]
    abel
  · rw [if_neg hwn, show n + 1 - w = n - w by omega]
    abel

end

/-! ### counts -/

section
variable {K : Type} [Field K] [LinearOrder K]

/-- 1 for a number, 0 for a missing value. -/
def present (x : XF K) : ℤ := if x.undef then 0 else 1
/-- 1 for a negative number. -/
def isNeg (x : XF K) : ℤ := if x.undef then 0 else if x.toK < 0 then 1 else 0

theorem rollAdd_counts (r : K → K) (st : RollSt K) (x : XF K) :
    (rollAdd r st x).nobs = st.nobs + present x ∧ (rollAdd r st x).neg = st.neg + isNeg x := by
  cases x with
  | fin v => by_cases h : v < 0 <;> simp [rollAdd, present, isNeg, XF.undef, XF.isNan, XF.isInf, XF.toK, h]
  | _ => simp [rollAdd, present, isNeg, XF.undef, XF.isNan, XF.isInf]

theorem rollRemove_counts (r : K → K) (st : RollSt K) (x : XF K) :
    (rollRemove r st x).nobs = st.nobs - present x ∧ (rollRemove r st x).neg = st.neg - isNeg x := by
  cases x with
  | fin v => by_cases h : v < 0 <;> simp [rollRemove, present, isNeg, XF.undef, XF.isNan, XF.isInf, XF.toK, h]
  | _ => simp [rollRemove, present, isNeg, XF.undef, XF.isNan, XF.isInf]

theorem rollState_counts (r : K → K) {w : ℕ} (hw : 1 ≤ w) (l : List (XF K)) (n : ℕ) (h : n ≤ l.length) :
    (rollState r w l n).nobs = win present w l n ∧ (rollState r w l n).neg = win isNeg w l n := by
  induction n with
  | zero => simp [rollState, rollInit, win_zero]
  | succ n ih =>
    obtain ⟨h1, h2⟩ := ih (by omega)
    rw [rollState, rollStep, (rollAdd_counts _ _ _).1, (rollAdd_counts _ _ _).2, win_succ present hw l n (by omega),
      win_succ isNeg hw l n (by omega), winRem, winRem]
    by_cases hwn : w ≤ n
    · simp only [if_pos hwn, (rollRemove_counts r _ _).1, (rollRemove_counts r _ _).2, h1, h2, and_self]
    · simp only [if_neg hwn, h1, h2, and_self]

theorem sum_present (m : List (XF K)) : (m.map present).sum ≤ m.length ∧
    ((m.map present).sum = m.length ↔ m.any XF.undef = false) := by
  induction m with
  | nil => simp
  | cons a m ih =>
    obtain ⟨h1, h2⟩ := ih
    by_cases ha : a.undef
    · have : present a = 0 := by simp [present, ha]
      simp only [List.map_cons, List.sum_cons, this, List.length_cons, List.any_cons, ha, Bool.true_or]
      push_cast
      refine ⟨by omega, ⟨fun h => by omega, fun h => by simp at h⟩⟩
    · have : present a = 1 := by simp [present, ha]
      simp only [List.map_cons, List.sum_cons, this, List.length_cons, List.any_cons, ha]
      push_cast
      rw [Bool.false_or, ← h2]
      omega

theorem winAt_len_le {α : Type*} (w i : ℕ) (l : List α) : (winAt w i l).length ≤ w := by
  unfold winAt; simp; omega

/-- The window is complete exactly if there are `w` observations. -/
theorem nobs_full (r : K → K) {w : ℕ} (hw : 1 ≤ w) (l : List (XF K)) (i : ℕ) (h : i < l.length) :
    (w : ℤ) ≤ (rollState r w l (i + 1)).nobs ↔ w ≤ i + 1 ∧ (winAt w i l).any XF.undef = false := by
  rw [(rollState_counts r hw l (i + 1) (by omega)).1, win_eq]
  obtain ⟨h1, h2⟩ := sum_present (winAt w i l)
  have hl := winAt_len_le w i l
  rw [← h2]
  by_cases hwi : w ≤ i + 1
  · rw [winAt_length w i l hwi h] at *
    constructor
    · intro h3; exact ⟨hwi, by omega⟩
    · rintro ⟨_, h3⟩; omega
  · have : (winAt w i l).length < w := by unfold winAt; simp; omega
    constructor
    · intro h3; omega
    · rintro ⟨h3, _⟩; exact absurd h3 hwi

theorem nobs_eq (r : K → K) {w : ℕ} (hw : 1 ≤ w) (l : List (XF K)) (i : ℕ) (h : i < l.length)
    (hf : (w : ℤ) ≤ (rollState r w l (i + 1)).nobs) : (rollState r w l (i + 1)).nobs = w := by
  have h3 := (nobs_full r hw l i h).1 hf
  rw [(rollState_counts r hw l (i + 1) (by omega)).1, win_eq, (sum_present _).2.2 h3.2, winAt_length w i l h3.1 h]

end

/-! ### sums without rounding errors -/

section
variable {K : Type} [Field K] [LinearOrder K]

theorem kahanAdd_exact {r : K → K} (h0 : r 0 = 0) {s v : K} (hv : r v = v) (hs : r (s + v) = s + v) :
    kahanAdd r s 0 v = (s + v, 0) := by
  simp only [kahanAdd, sub_zero, hv, hs, add_sub_cancel_left, sub_self, h0]

theorem rollAdd_val (r : K → K) (st : RollSt K) (x : XF K) (h : x.undef = false) :
    rollAdd r st x = { st with s := (kahanAdd r st.s st.ca x.toK).1, ca := (kahanAdd r st.s st.ca x.toK).2,
                               nobs := st.nobs + 1, neg := st.neg + if x.toK < 0 then 1 else 0 } := by
  cases x <;> first | rfl | simp [XF.undef, XF.isNan, XF.isInf] at h

theorem rollRemove_val (r : K → K) (st : RollSt K) (x : XF K) (h : x.undef = false) :
    rollRemove r st x = { st with s := (kahanAdd r st.s st.cr (-x.toK)).1, cr := (kahanAdd r st.s st.cr (-x.toK)).2,
                                  nobs := st.nobs - 1, neg := st.neg - if x.toK < 0 then 1 else 0 } := by
  cases x <;> first | rfl | simp [XF.undef, XF.isNan, XF.isInf] at h

theorem rollAdd_undef (r : K → K) (st : RollSt K) (x : XF K) (h : x.undef = true) : rollAdd r st x = st ∧ x.toK = 0 := by
  cases x <;> first | exact ⟨rfl, rfl⟩ | simp [XF.undef, XF.isNan, XF.isInf] at h

theorem rollRemove_undef (r : K → K) (st : RollSt K) (x : XF K) (h : x.undef = true) :
    rollRemove r st x = st ∧ x.toK = 0 := by
  cases x <;> first | exact ⟨rfl, rfl⟩ | simp [XF.undef, XF.isNan, XF.isInf] at h

/-- Without rounding of the values and of the sums of the windows the sum carried along is the sum of the window. -/
theorem rollState_exact {r : K → K} (h0 : r 0 = 0) {w : ℕ} (hw : 1 ≤ w) (l : List (XF K))
    (hv : ∀ n < l.length, r (l.getD n .nan).toK = (l.getD n .nan).toK ∧ r (-(l.getD n .nan).toK) = -(l.getD n .nan).toK)
    (hs : ∀ n < l.length, r (winRem XF.toK w l n) = winRem XF.toK w l n ∧
      r (win XF.toK w l (n + 1)) = win XF.toK w l (n + 1)) (n : ℕ) (h : n ≤ l.length) :
    (rollState r w l n).s = win XF.toK w l n ∧ (rollState r w l n).ca = 0 ∧ (rollState r w l n).cr = 0 := by
  induction n with
  | zero => simp [rollState, rollInit, win_zero]
  | succ n ih =>
    obtain ⟨h1, h2, h3⟩ := ih (by omega)
    have hn : n < l.length := by omega
    obtain ⟨hs1, hs2⟩ := hs n hn
    have hrem : ∃ st : RollSt K, (if w ≤ n then rollRemove r (rollState r w l n) (l.getD (n - w) .nan) else rollState r w l n)
        = st ∧ st.s = winRem XF.toK w l n ∧ st.ca = 0 ∧ st.cr = 0 := by
      refine ⟨_, rfl, ?_⟩
      by_cases hwn : w ≤ n
      · simp only [winRem, if_pos hwn] at hs1 ⊢
        by_cases hu : (l.getD (n - w) .nan).undef
        · obtain ⟨e1, e2⟩ := rollRemove_undef r (rollState r w l n) _ hu
          rw [e1, e2, sub_zero]
          exact ⟨h1, h2, h3⟩
        · rw [rollRemove_val _ _ _ (by simpa using hu)]
          have hx := kahanAdd_exact h0 (s := win XF.toK w l n) (hv (n - w) (by omega)).2
            (by rw [← sub_eq_add_neg]; exact hs1)
          simp only [h1, h2, h3, hx, sub_eq_add_neg, and_self]
      · rw [winRem, if_neg hwn, if_neg hwn]
        exact ⟨h1, h2, h3⟩
    obtain ⟨st, e, s1, s2, s3⟩ := hrem
    rw [rollState, rollStep, e]
    rw [win_succ XF.toK hw l n hn] at hs2 ⊢
    by_cases hu : (l.getD n .nan).undef
    · obtain ⟨e1, e2⟩ := rollAdd_undef r st _ hu
      rw [e1, e2, add_zero]
      exact ⟨s1, s2, s3⟩
    · rw [rollAdd_val _ _ _ (by simpa using hu)]
      have hx := kahanAdd_exact h0 (s := winRem XF.toK w l n) (hv n hn).1 hs2
      simp only [s1, s2, s3, hx, and_self]

end

/-! ### grids -/

theorem pre_abs (l : List (XF ℚ)) {k n : ℕ} (h : k ≤ n) :
    |pre XF.toK l n - pre XF.toK l k| ≤ pre (fun x => |x.toK|) l n - pre (fun x => |x.toK|) l k := by
  have hs : ∀ m : List (XF ℚ), |(m.map XF.toK).sum| ≤ (m.map fun x => |x.toK|).sum := by
    intro m
    induction m with
    | nil => simp
    | cons a m ih =>
      simp only [List.map_cons, List.sum_cons]
      exact (abs_add_le _ _).trans (by linarith)
  have hd : ∀ f : XF ℚ → ℚ, pre f l n - pre f l k = (((l.take n).drop k).map f).sum := by
    intro f
    unfold pre
    conv_lhs => enter [1]; rw [← List.take_append_drop k (l.take n)]
    rw [List.map_append, List.sum_append, List.take_take, Nat.min_eq_left h]
    ring
  rw [hd, hd]
  exact hs _

theorem winRem_eq {K : Type} {A : Type*} [AddCommGroup A] (f : XF K → A) {w : ℕ} (hw : 1 ≤ w) (l : List (XF K)) (n : ℕ)
    (h : n < l.length) : winRem f w l n = pre f l n - pre f l (n + 1 - w) := by
  have h1 := win_succ f hw l n h
  have h2 := pre_succ f l n h
  rw [win, h2] at h1
  have : pre f l n - pre f l (n + 1 - w) + f (l.getD n .nan) = winRem f w l n + f (l.getD n .nan) := by
    rw [← h1]; abel
  exact (add_right_cancel this).symm

theorem pre_grid {e : ℤ} {l : List (XF ℚ)} (h : ∀ x ∈ l, ∃ m : ℤ, x.toK = m * 2 ^ e) (n : ℕ) :
    ∃ z : ℤ, pre XF.toK l n = z * 2 ^ e := by
  have : ∀ m : List (XF ℚ), (∀ x ∈ m, ∃ z : ℤ, x.toK = z * 2 ^ e) → ∃ z : ℤ, (m.map XF.toK).sum = z * 2 ^ e := by
    intro m
    induction m with
    | nil => intro _; exact ⟨0, by simp⟩
    | cons a m ih =>
      intro hm
      obtain ⟨z, hz⟩ := ih (fun x hx => hm x (by simp [hx]))
      obtain ⟨y, hy⟩ := hm a (by simp)
      exact ⟨y + z, by rw [List.map_cons, List.sum_cons, hz, hy]; push_cast; ring⟩
  exact this _ fun x hx => h x (List.mem_of_mem_take hx)

theorem grid_fixed {p : ℕ} (hp : 1 ≤ p) {e : ℤ} {x : ℚ} (hx : ∃ z : ℤ, x = z * 2 ^ e) (hb : |x| < 2 ^ p * 2 ^ e) :
    roundBits p x = x := by
  obtain ⟨z, rfl⟩ := hx
  refine roundBits_eq_self p hp ⟨z, e, ?_, rfl⟩
  rw [abs_mul, abs_of_pos (two_zpow_pos e)] at hb
  have := lt_of_mul_lt_mul_right hb (two_zpow_pos e).le
  exact_mod_cast this

theorem rollState_grid {p : ℕ} (hp : 1 ≤ p) {e : ℤ} {w : ℕ} (hw : 1 ≤ w) {l : List (XF ℚ)} (hg : OnGrid p e w l) (n : ℕ)
    (h : n ≤ l.length) : (rollState (roundBits p) w l n).s = win XF.toK w l n := by
  have hwin : ∀ n < l.length, win (fun x : XF ℚ => |x.toK|) w l (n + 1) < 2 ^ p * 2 ^ e := by
    intro n hn
    rw [win_eq]
    exact hg.2 n hn
  have hmono : ∀ n < l.length, 0 ≤ winRem (fun x : XF ℚ => |x.toK|) w l n ∧
      |winRem XF.toK w l n| ≤ winRem (fun x : XF ℚ => |x.toK|) w l n ∧
      |win XF.toK w l (n + 1)| ≤ win (fun x : XF ℚ => |x.toK|) w l (n + 1) := by
    intro n hn
    rw [winRem_eq _ hw l n hn, winRem_eq _ hw l n hn]
    have h1 := pre_abs l (show n + 1 - w ≤ n by omega)
    have h2 := pre_abs l (show n + 1 - w ≤ n + 1 by omega)
    exact ⟨(abs_nonneg _).trans h1, h1, h2⟩
  refine (rollState_exact (roundBits_zero p) hw l ?_ ?_ n h).1
  · intro n hn
    have hb : |(l.getD n .nan).toK| < 2 ^ p * 2 ^ e := by
      have h1 := hwin n hn
      rw [win_succ _ hw l n hn] at h1
      linarith [(hmono n hn).1]
    have hm : ∃ z : ℤ, (l.getD n .nan).toK = z * 2 ^ e := by
      rw [List.getD_eq_getElem _ _ hn]
      exact hg.1 _ (List.getElem_mem hn)
    have := grid_fixed hp hm hb
    exact ⟨this, by rw [roundBits_neg, this]⟩
  · intro n hn
    constructor
    · apply grid_fixed hp
      · rw [winRem_eq _ hw l n hn]
        obtain ⟨a, ha⟩ := pre_grid hg.1 n
        obtain ⟨b, hb⟩ := pre_grid hg.1 (n + 1 - w)
        exact ⟨a - b, by rw [ha, hb]; push_cast; ring⟩
      · have h1 := hwin n hn
        rw [win_succ _ hw l n hn] at h1
        have := abs_nonneg (l.getD n .nan).toK
        linarith [(hmono n hn).2.1]
    · apply grid_fixed hp
      · obtain ⟨a, ha⟩ := pre_grid hg.1 (n + 1)
        obtain ⟨b, hb⟩ := pre_grid hg.1 (n + 1 - w)
        exact ⟨a - b, by rw [win, ha, hb]; push_cast; ring⟩
      · linarith [(hmono n hn).2.2, hwin n hn]

/-! ### drift -/

theorem kahanAdd_drift {p : ℕ} (hp : 8 ≤ p) {S s c v : ℚ} (hs : |s| ≤ S) (hv : |v| ≤ S / 2)
    (hc : |c| ≤ 3 * (1 / 2 ^ p) * S) :
    |(kahanAdd (roundBits p) s c v).1 - (s + v)| ≤ 6 * (1 / 2 ^ p) * S ∧
      |(kahanAdd (roundBits p) s c v).2| ≤ 3 * (1 / 2 ^ p) * S := by
  have hp1 : 1 ≤ p := by omega
  have hS : 0 ≤ S := (abs_nonneg s).trans hs
  set ε : ℚ := 1 / 2 ^ p with hε
  have he0 : 0 < ε := by positivity
  have he1 : ε ≤ 1 / 256 := by
    rw [hε]
    have : (2 : ℚ) ^ 8 ≤ 2 ^ p := pow_le_pow_right₀ (by norm_num) hp
    exact one_div_le_one_div_of_le (by norm_num) (by linarith)
  have herr : ∀ q, |roundBits p q - q| ≤ |q| * ε := by
    intro q
    have := roundBits_error p hp1 q
    rw [hε]
    rwa [mul_one_div]
  have heS : ε * S ≤ 1 / 256 * S := mul_le_mul_of_nonneg_right he1 hS
  simp only [kahanAdd]
  set y := roundBits p (v - c) with hy
  set t := roundBits p (s + y) with ht
  set a := roundBits p (t - s) with ha
  have h1 : |v - c| ≤ 0.52 * S := by
    have := abs_sub v c
    nlinarith
  have h2 : |y - (v - c)| ≤ 0.52 * (ε * S) := (herr _).trans (by nlinarith)
  have h3 : |y| ≤ 0.53 * S := by
    have : y = (y - (v - c)) + (v - c) := by ring
    rw [this]
    refine (abs_add_le _ _).trans ?_
    nlinarith
  have h4 : |s + y| ≤ 1.53 * S := (abs_add_le _ _).trans (by linarith)
  have h5 : |t - (s + y)| ≤ 1.53 * (ε * S) := (herr _).trans (by nlinarith)
  have h6 : |t - s| ≤ 0.54 * S := by
    have : t - s = (t - (s + y)) + y := by ring
    rw [this]
    refine (abs_add_le _ _).trans ?_
    nlinarith
  have h7 : |a - (t - s)| ≤ 0.54 * (ε * S) := (herr _).trans (by nlinarith)
  have h8 : |a - y| ≤ 2.07 * (ε * S) := by
    have : a - y = (a - (t - s)) + (t - (s + y)) := by ring
    rw [this]
    exact (abs_add_le _ _).trans (by linarith)
  constructor
  · have : t - (s + v) = (t - (s + y)) + (y - (v - c)) + (-c) := by ring
    rw [this]
    refine (abs_add_le _ _).trans ?_
    rw [abs_neg]
    have := abs_add_le (t - (s + y)) (y - (v - c))
    nlinarith
  · have h9 := herr (a - y)
    have : roundBits p (a - y) = (roundBits p (a - y) - (a - y)) + (a - y) := by ring
    rw [this]
    refine (abs_add_le _ _).trans ?_
    have h10 : |a - y| * ε ≤ 2.07 * (ε * S) * (1 / 256) :=
      mul_le_mul h8 he1 he0.le (by positivity)
    nlinarith

theorem pre_bound {M : ℚ} {l : List (XF ℚ)} (hM : ∀ x ∈ l, |x.toK| ≤ M) {k n : ℕ} (h : k ≤ n) (hn : n ≤ l.length) :
    |pre XF.toK l n - pre XF.toK l k| ≤ ((n - k : ℕ) : ℚ) * M := by
  refine (pre_abs l h).trans ?_
  have : ∀ d, k + d ≤ l.length → pre (fun x : XF ℚ => |x.toK|) l (k + d) - pre (fun x => |x.toK|) l k ≤ (d : ℚ) * M := by
    intro d
    induction d with
    | zero => intro _; simp
    | succ d ih =>
      intro hd
      rw [← add_assoc, pre_succ _ l (k + d) (by omega), List.getD_eq_getElem _ _ (by omega)]
      have := hM _ (List.getElem_mem (show k + d < l.length by omega))
      have := ih (by omega)
      push_cast
      linarith
  have := this (n - k) (by omega)
  rwa [Nat.add_sub_cancel' h] at this

/-- The sum carried along stays near the sum of the window. -/
theorem rollState_drift {p : ℕ} (hp : 8 ≤ p) {w : ℕ} (hw : 1 ≤ w) {l : List (XF ℚ)} {M : ℚ} (hM0 : 0 ≤ M)
    (hM : ∀ x ∈ l, |x.toK| ≤ M) (n : ℕ) (h : n ≤ l.length) (hn : 24 * n ≤ 2 ^ p) :
    |(rollState (roundBits p) w l n).s - win XF.toK w l n| ≤ 12 * n * (1 / 2 ^ p) * (2 * w * M) ∧
      |(rollState (roundBits p) w l n).ca| ≤ 3 * (1 / 2 ^ p) * (2 * w * M) ∧
      |(rollState (roundBits p) w l n).cr| ≤ 3 * (1 / 2 ^ p) * (2 * w * M) := by
  set S : ℚ := 2 * w * M with hS
  have hw1 : (1 : ℚ) ≤ w := by exact_mod_cast hw
  have hMS : M ≤ S / 2 := by rw [hS]; nlinarith
  have hS0 : 0 ≤ S := by linarith
  set ε : ℚ := 1 / 2 ^ p with hε
  have he0 : 0 < ε := by positivity
  have hval : ∀ n < l.length, |(l.getD n .nan).toK| ≤ S / 2 := by
    intro n hn
    rw [List.getD_eq_getElem _ _ hn]
    exact (hM _ (List.getElem_mem hn)).trans hMS
  have hsub : ∀ {k n : ℕ}, k ≤ n → n ≤ l.length → n - k ≤ w → |pre XF.toK l n - pre XF.toK l k| ≤ S / 2 := by
    intro k n hk hn hd
    refine (pre_bound hM hk hn).trans ?_
    have : ((n - k : ℕ) : ℚ) ≤ w := by exact_mod_cast hd
    rw [hS]
    nlinarith
  induction n with
  | zero =>
    simp only [rollState, rollInit, win_zero, sub_self, abs_zero, Nat.cast_zero]
    exact ⟨by simp, by positivity, by positivity⟩
  | succ n ih =>
    obtain ⟨h1, h2, h3⟩ := ih (by omega) (by omega)
    have hnl : n < l.length := by omega
    have hsmall : 24 * ((n : ℚ) + 1) * ε ≤ 1 := by
      have : (24 * ((n : ℚ) + 1)) ≤ 2 ^ p := by exact_mod_cast hn
      rw [hε, mul_one_div, div_le_one (by positivity)]
      exact this
    have hεS : 24 * ((n : ℚ) + 1) * ε * S ≤ 1 * S := mul_le_mul_of_nonneg_right hsmall hS0
    have hpos : 0 ≤ ε * S := by positivity
    -- after the value that leaves
    have hrem : ∃ st : RollSt ℚ, (if w ≤ n then rollRemove (roundBits p) (rollState (roundBits p) w l n) (l.getD (n - w) .nan)
          else rollState (roundBits p) w l n) = st ∧
        |st.s - winRem XF.toK w l n| ≤ (12 * n + 6) * ε * S ∧ |st.ca| ≤ 3 * ε * S ∧ |st.cr| ≤ 3 * ε * S := by
      refine ⟨_, rfl, ?_⟩
      by_cases hwn : w ≤ n
      · simp only [winRem, if_pos hwn]
        by_cases hu : (l.getD (n - w) .nan).undef
        · obtain ⟨e1, e2⟩ := rollRemove_undef (roundBits p) (rollState (roundBits p) w l n) _ hu
          rw [e1, e2, sub_zero]
          exact ⟨h1.trans (by nlinarith), h2, h3⟩
        · rw [rollRemove_val _ _ _ (by simpa using hu)]
          have hs : |(rollState (roundBits p) w l n).s| ≤ S := by
            have e : (rollState (roundBits p) w l n).s =
                ((rollState (roundBits p) w l n).s - win XF.toK w l n) + win XF.toK w l n := by ring
            rw [e]
            refine (abs_add_le _ _).trans ?_
            have := hsub (show n - w ≤ n by omega) hnl.le (by omega)
            rw [← win] at this
            nlinarith
          obtain ⟨d1, d2⟩ := kahanAdd_drift hp hs (v := -(l.getD (n - w) .nan).toK)
            (by rw [abs_neg]; exact hval _ (by omega)) h3
          refine ⟨?_, h2, d2⟩
          dsimp only
          set a := (kahanAdd (roundBits p) (rollState (roundBits p) w l n).s (rollState (roundBits p) w l n).cr
            (-(l.getD (n - w) .nan).toK)).1
          have e : a - (win XF.toK w l n - (l.getD (n - w) .nan).toK) =
              (a - ((rollState (roundBits p) w l n).s + -(l.getD (n - w) .nan).toK)) +
                ((rollState (roundBits p) w l n).s - win XF.toK w l n) := by ring
          rw [e]
          refine (abs_add_le _ _).trans ?_
          linarith
      · rw [winRem, if_neg hwn, if_neg hwn]
        exact ⟨h1.trans (by nlinarith), h2, h3⟩
    obtain ⟨st, e, s1, s2, s3⟩ := hrem
    rw [rollState, rollStep, e, win_succ XF.toK hw l n hnl]
    push_cast
    by_cases hu : (l.getD n .nan).undef
    · obtain ⟨e1, e2⟩ := rollAdd_undef (roundBits p) st _ hu
      rw [e1, e2, add_zero]
      exact ⟨s1.trans (by nlinarith), s2, s3⟩
    · rw [rollAdd_val _ _ _ (by simpa using hu)]
      have hs : |st.s| ≤ S := by
        have e : st.s = (st.s - winRem XF.toK w l n) + winRem XF.toK w l n := by ring
        rw [e]
        refine (abs_add_le _ _).trans ?_
        have := hsub (show n + 1 - w ≤ n by omega) hnl.le (by omega)
        rw [← winRem_eq _ hw l n hnl] at this
        nlinarith
      obtain ⟨d1, d2⟩ := kahanAdd_drift hp hs (hval n hnl) s2
      refine ⟨?_, d2, s3⟩
      dsimp only
      set a := (kahanAdd (roundBits p) st.s st.ca (l.getD n .nan).toK).1
      have e : a - (winRem XF.toK w l n + (l.getD n .nan).toK) =
          (a - (st.s + (l.getD n .nan).toK)) + (st.s - winRem XF.toK w l n) := by ring
      rw [e]
      refine (abs_add_le _ _).trans ?_
      linarith

/-! ### results -/

section
variable {K : Type} [Field K] [LinearOrder K]

theorem rollSum_at (r : K → K) {w : ℕ} (hw : 1 ≤ w) (l : List (XF K)) (i : ℕ) (h : i < l.length) :
    calcSum w (rollState r w l (i + 1)) =
      if w ≤ i + 1 ∧ (winAt w i l).any XF.undef = false then .fin (rollState r w l (i + 1)).s else .nan := by
  unfold calcSum
  by_cases hf : (w : ℤ) ≤ (rollState r w l (i + 1)).nobs
  · rw [if_pos hf, if_pos ((nobs_full r hw l i h).1 hf)]
  · rw [if_neg hf, if_neg fun h' => hf ((nobs_full r hw l i h).2 h')]

theorem rollAt_at {w : ℕ} (f : List K → XF K) (l : List (XF K)) (i : ℕ) :
    rollAt w f l i = if w ≤ i + 1 ∧ (winAt w i l).any XF.undef = false then f ((winAt w i l).map XF.toK) else .nan := by
  unfold rollAt
  by_cases h1 : i + 1 < w
  · rw [if_pos h1, if_neg (by omega)]
  · rw [if_neg h1]
    by_cases h2 : (winAt w i l).any XF.undef = true
    · rw [if_pos h2, if_neg (by rw [h2]; simp)]
    · rw [if_neg h2, if_pos ⟨by omega, by simpa using h2⟩]

theorem sum_isNeg (m : List (XF K)) (hu : m.any XF.undef = false) : 0 ≤ (m.map isNeg).sum ∧ (m.map isNeg).sum ≤ m.length ∧
    ((m.map isNeg).sum = 0 ↔ ∀ x ∈ m, 0 ≤ x.toK) ∧ ((m.map isNeg).sum = m.length ↔ ∀ x ∈ m, x.toK < 0) := by
  induction m with
  | nil => simp
  | cons a m ih =>
    simp only [List.any_cons, Bool.or_eq_false_iff] at hu
    obtain ⟨h0, h1, h2, h3⟩ := ih hu.2
    have ha : isNeg a = if a.toK < 0 then 1 else 0 := by simp [isNeg, hu.1]
    simp only [List.map_cons, List.sum_cons, List.length_cons, List.mem_cons, forall_eq_or_imp, ha]
    push_cast
    by_cases hn : a.toK < 0
    · simp only [if_pos hn]
      refine ⟨by omega, by omega, ⟨fun h => by omega, fun h => absurd h.1 (not_le.2 hn)⟩, ?_⟩
      rw [← h3]
      exact ⟨fun h => ⟨hn, by omega⟩, fun h => by omega⟩
    · simp only [if_neg hn]
      refine ⟨by omega, by omega, ?_, ⟨fun h => by omega, fun h => absurd h.1 hn⟩⟩
      rw [← h2]
      exact ⟨fun h => ⟨not_lt.1 hn, by omega⟩, fun h => by omega⟩

theorem sum_toK_nonneg [IsStrictOrderedRing K] {m : List (XF K)} (h : ∀ x ∈ m, 0 ≤ x.toK) : 0 ≤ (m.map XF.toK).sum := by
  apply List.sum_nonneg
  intro x hx
  obtain ⟨y, hy, rfl⟩ := List.mem_map.1 hx
  exact h y hy

theorem sum_toK_nonpos [IsStrictOrderedRing K] {m : List (XF K)} (h : ∀ x ∈ m, x.toK < 0) : (m.map XF.toK).sum ≤ 0 := by
  induction m with
  | nil => simp
  | cons a m ih =>
    rw [List.map_cons, List.sum_cons]
    linarith [h a (by simp), ih fun x hx => h x (by simp [hx])]

/-- The sign of the mean with its sign put right. -/
def fixSign (m : List (XF K)) (q : K) : K :=
  if (∀ x ∈ m, 0 ≤ x.toK) ∧ q < 0 then 0 else if (∀ x ∈ m, x.toK < 0) ∧ 0 < q then 0 else q

theorem fixSign_eq {m : List (XF K)} {q : K} (h1 : (∀ x ∈ m, 0 ≤ x.toK) → 0 ≤ q) (h2 : (∀ x ∈ m, x.toK < 0) → q ≤ 0) :
    fixSign m q = q := by
  unfold fixSign
  rw [if_neg fun h => absurd h.2 (not_lt.2 (h1 h.1)), if_neg fun h => absurd h.2 (not_lt.2 (h2 h.1))]

theorem fixSign_near [IsStrictOrderedRing K] {m : List (XF K)} {q a : K} (h1 : (∀ x ∈ m, 0 ≤ x.toK) → 0 ≤ a) (h2 : (∀ x ∈ m, x.toK < 0) → a ≤ 0) :
    |fixSign m q - a| ≤ |q - a| := by
  unfold fixSign
  split_ifs with h3 h4
  · have := h1 h3.1
    rw [zero_sub, abs_neg, abs_of_nonneg this, abs_of_neg (by linarith [h3.2])]
    linarith [h3.2]
  · have := h2 h4.1
    rw [zero_sub, abs_neg, abs_of_nonpos this, abs_of_pos (by linarith [h4.2])]
    linarith [h4.2]
  · exact le_refl _

/-- The mean at one position: NaN for an incomplete window, else the quotient with its sign put right. -/
theorem rollMean_at (r : K → K) {w : ℕ} (hw : 1 ≤ w) (l : List (XF K)) (i : ℕ) (h : i < l.length) :
    calcMean r w (rollState r w l (i + 1)) =
      if w ≤ i + 1 ∧ (winAt w i l).any XF.undef = false then
        .fin (fixSign (winAt w i l) (r ((rollState r w l (i + 1)).s / w)))
      else .nan := by
  unfold calcMean
  by_cases hf : (w : ℤ) ≤ (rollState r w l (i + 1)).nobs
  · have hc := (nobs_full r hw l i h).1 hf
    have hn := nobs_eq r hw l i h hf
    rw [if_pos ⟨hf, by omega⟩, if_pos hc]
    have hneg : (rollState r w l (i + 1)).neg = ((winAt w i l).map isNeg).sum := by
      rw [(rollState_counts r hw l (i + 1) (by omega)).2, win_eq]
    obtain ⟨-, -, h2, h3⟩ := sum_isNeg _ hc.2
    rw [winAt_length w i l hc.1 h] at h3
    simp only [hn, hneg, Int.cast_natCast, h2, h3, fixSign]
    split_ifs <;> rfl
  · rw [if_neg (fun h' => hf h'.1), if_neg fun h' => hf ((nobs_full r hw l i h).2 h')]

end

/-! ### VPIN -/

/-- The absolute differences of buy and sell volumes. -/
def diffs (r : ℚ → ℚ) (B S : List ℚ) : List ℚ := List.zipWith (fun b s => |r (b - s)|) B S

theorem diffs_eq (r : ℚ → ℚ) (B S : List ℚ) :
    (List.zipWith (fun b s => rnd r (XF.sub b s)) (B.map XF.fin) (S.map XF.fin)).map XF.abs = (diffs r B S).map XF.fin := by
  induction B generalizing S with
  | nil => rfl
  | cons b B ih =>
    cases S with
    | nil => rfl
    | cons s S =>
      have h := ih S
      simp only [diffs] at h
      simp only [List.map_cons, List.zipWith_cons_cons, diffs]
      rw [h]
      simp only [XF.sub, XF.neg, XF.add, rnd, XF.abs, ← sub_eq_add_neg]

theorem fillFrom_getD (w : ℕ) (l : List (XF ℚ)) (i : ℕ) (h : i < l.length) :
    (Feat.fillFrom w l).getD i .nan = if w ≤ i then fillna1 (.fin 0) (l.getD i .nan) else l.getD i .nan := by
  unfold Feat.fillFrom
  rw [List.getD_eq_getElem _ _ h, List.getD_eq_getElem _ _ (by simp; omega), List.getElem_append]
  by_cases hw : w ≤ i
  · rw [if_pos hw, dif_neg (by simp; omega)]
    simp only [List.getElem_map, List.getElem_drop, List.length_take]
    congr 2
    omega
  · rw [if_neg hw, dif_pos (by simp; omega)]
    simp

theorem rollSum_length (r : ℚ → ℚ) (w : ℕ) (l : List (XF ℚ)) : (rollSum r w l).length = l.length := by simp [rollSum]

theorem vpin_at (r : ℚ → ℚ) (w : ℕ) (V B S : List ℚ) (hB : B.length = V.length) (hS : S.length = V.length) (i : ℕ)
    (hi : i < V.length) :
    (Rd.vpin r w (V.map .fin) (B.map .fin) (S.map .fin)).getD i .nan =
      let x := rnd r (XF.div ((rollSum r w ((diffs r B S).map .fin)).getD i .nan) ((rollSum r w (V.map .fin)).getD i .nan))
      if w ≤ i then fillna1 (.fin 0) x else x := by
  have hD : (diffs r B S).length = V.length := by simp [diffs, hB, hS]
  have h1 : i < (rollSum r w ((diffs r B S).map .fin)).length := by rw [rollSum_length, List.length_map]; omega
  have h2 : i < (rollSum r w (V.map .fin)).length := by rw [rollSum_length, List.length_map]; omega
  unfold Rd.vpin
  simp only [diffs_eq]
  rw [fillFrom_getD _ _ _ (by rw [List.length_zipWith]; omega), List.getD_eq_getElem _ _ (by rw [List.length_zipWith]; omega),
    List.getElem_zipWith, List.getD_eq_getElem _ _ h1, List.getD_eq_getElem _ _ h2]

theorem winAt_fin_undef (w i : ℕ) (V : List ℚ) : (winAt w i (V.map XF.fin)).any XF.undef = false := by
  unfold winAt
  rw [← List.map_take, ← List.map_drop, List.any_map]
  simp [XF.undef, XF.isNan, XF.isInf]

theorem winAt_fin_toK (w i : ℕ) (V : List ℚ) : (winAt w i (V.map XF.fin)).map XF.toK = winAt w i V := by
  unfold winAt
  rw [← List.map_take, ← List.map_drop, List.map_map]
  simp [Function.comp_def, XF.toK]

theorem rolling_fin (w : ℕ) (V : List ℚ) (i : ℕ) (hi : i < V.length) (hw : w ≤ i + 1) :
    (rolling w winSum (V.map XF.fin)).getD i .nan = .fin (winAt w i V).sum := by
  rw [rolling, List.getD_eq_getElem _ _ (by simpa using hi), List.getElem_map, List.getElem_range, rollAt_at,
    if_pos ⟨hw, winAt_fin_undef w i V⟩, winAt_fin_toK]
  rfl

theorem rolling_fin_nan (w : ℕ) (f : List ℚ → XF ℚ) (V : List ℚ) (i : ℕ) (hi : i < V.length) (hw : ¬ w ≤ i + 1) :
    (rolling w f (V.map XF.fin)).getD i .nan = .nan := by
  rw [rolling, List.getD_eq_getElem _ _ (by simpa using hi), List.getElem_map, List.getElem_range, rollAt_at,
    if_neg fun h => hw h.1]

theorem winAt_sum_le {A B : List ℚ} (h : List.Forall₂ (· ≤ ·) A B) (w i : ℕ) : (winAt w i A).sum ≤ (winAt w i B).sum :=
  List.Forall₂.sum_le_sum (List.forall₂_drop (i + 1 - w) (List.forall₂_take (i + 1) h))

theorem winAt_sum_nonneg {A : List ℚ} (h : ∀ x ∈ A, 0 ≤ x) (w i : ℕ) : 0 ≤ (winAt w i A).sum :=
  List.sum_nonneg fun x hx => h x (List.mem_of_mem_take (List.mem_of_mem_drop hx))

theorem diffs_length (r : ℚ → ℚ) {B S : List ℚ} {n : ℕ} (hB : B.length = n) (hS : S.length = n) :
    (diffs r B S).length = n := by simp [diffs, hB, hS]

theorem diffs_getD (r : ℚ → ℚ) (h0 : r 0 = 0) {B S : List ℚ} (h : B.length = S.length) (i : ℕ) :
    (diffs r B S).getD i 0 = |r (B.getD i 0 - S.getD i 0)| := by
  by_cases hi : i < B.length
  · rw [diffs, List.getD_eq_getElem _ _ (by simp; omega), List.getElem_zipWith, List.getD_eq_getElem _ _ hi,
      List.getD_eq_getElem _ _ (by omega)]
  · rw [List.getD_eq_default _ _ (by rw [diffs_length r rfl h.symm]; omega), List.getD_eq_default _ _ (by omega),
      List.getD_eq_default _ _ (by omega)]
    simp [h0]

theorem forall₂_of_getD {R : ℚ → ℚ → Prop} {A B : List ℚ} (hl : A.length = B.length)
    (h : ∀ i < A.length, R (A.getD i 0) (B.getD i 0)) : List.Forall₂ R A B := by
  rw [List.forall₂_iff_get]
  refine ⟨hl, fun i h1 h2 => ?_⟩
  have := h i h1
  rwa [List.getD_eq_getElem _ _ h1, List.getD_eq_getElem _ _ h2] at this

theorem eq_of_getD {A B : List ℚ} (hl : A.length = B.length) (h : ∀ i < A.length, A.getD i 0 = B.getD i 0) : A = B := by
  apply List.ext_getElem hl
  intro i h1 h2
  have := h i h1
  rwa [List.getD_eq_getElem _ _ h1, List.getD_eq_getElem _ _ h2] at this

theorem mem_getD {A : List ℚ} {x : ℚ} (h : x ∈ A) : ∃ i < A.length, A.getD i 0 = x := by
  obtain ⟨i, hi, rfl⟩ := List.mem_iff_getElem.1 h
  exact ⟨i, hi, by rw [List.getD_eq_getElem _ _ hi]⟩

theorem getD_mem' {A : List ℚ} {i : ℕ} (hi : i < A.length) : A.getD i 0 ∈ A := by
  rw [List.getD_eq_getElem _ _ hi]; exact List.getElem_mem hi

theorem winAt_last_mem {w : ℕ} (hw : 1 ≤ w) (A : List ℚ) {i : ℕ} (hi : i < A.length) : A.getD i 0 ∈ winAt w i A := by
  unfold winAt
  rw [List.take_add_one, List.getElem?_eq_getElem hi, List.drop_append, List.getD_eq_getElem _ _ hi]
  apply List.mem_append_right
  rw [List.length_take, Nat.min_eq_left hi.le, show i + 1 - w - i = 0 by omega]
  simp

theorem winAt_map {α β : Type*} (f : α → β) (w i : ℕ) (l : List α) : winAt w i (l.map f) = (winAt w i l).map f := by
  unfold winAt
  rw [← List.map_take, ← List.map_drop]

/-- A series of numbers on the grid, in terms of the numbers. -/
theorem onGrid_fin {p : ℕ} {e : ℤ} {w : ℕ} {V : List ℚ} (h0 : ∀ x ∈ V, 0 ≤ x) (hg : ∀ x ∈ V, ∃ m : ℤ, x = m * 2 ^ e)
    (hs : ∀ i < V.length, (winAt w i V).sum < 2 ^ p * 2 ^ e) : OnGrid p e w (V.map .fin) := by
  constructor
  · intro x hx
    obtain ⟨y, hy, rfl⟩ := List.mem_map.1 hx
    exact hg y hy
  · intro i hi
    rw [List.length_map] at hi
    rw [winAt_map, List.map_map]
    have : (winAt w i V).map ((fun x : XF ℚ => |x.toK|) ∘ XF.fin) = winAt w i V := by
      conv_rhs => rw [← List.map_id (winAt w i V)]
      apply List.map_congr_left
      intro x hx
      have := h0 x (List.mem_of_mem_take (List.mem_of_mem_drop hx))
      simp [XF.toK, abs_of_nonneg this]
    rw [this]
    exact hs i hi

theorem rnd_fillna (r : ℚ → ℚ) (h0 : r 0 = 0) (x : XF ℚ) : fillna1 (.fin 0) (rnd r x) = rnd r (fillna1 (.fin 0) x) := by
  cases x <;> simp [fillna1, rnd, XF.isNan, h0]

theorem rnd_id (x : XF ℚ) : rnd id x = x := by cases x <;> rfl

theorem vpin_length (r : ℚ → ℚ) (w : ℕ) (V B S : List ℚ) (hB : B.length = V.length) (hS : S.length = V.length) :
    (Rd.vpin r w (V.map .fin) (B.map .fin) (S.map .fin)).length = V.length := by
  unfold Rd.vpin
  simp only [diffs_eq, Feat.fillFrom, List.length_append, List.length_map, List.length_take, List.length_drop,
    List.length_zipWith, rollSum_length, diffs_length r hB hS]
  omega

theorem _root_.Mizar.Spec.Volumes.nonneg {V B S : List ℚ} (h : Volumes V B S) : ∀ x ∈ V, 0 ≤ x := by
  intro x hx
  obtain ⟨i, _, rfl⟩ := mem_getD hx
  exact (abs_nonneg _).trans (h.covers i)

theorem _root_.Mizar.Spec.Volumes.diffs_le {V B S : List ℚ} (h : Volumes V B S) : List.Forall₂ (· ≤ ·) (diffs id B S) V := by
  apply forall₂_of_getD (diffs_length id h.buy h.sell)
  intro i _
  rw [diffs_getD id rfl (by rw [h.buy, h.sell])]
  exact h.covers i

theorem windowImbalance_le {V B S : List ℚ} (h : Volumes V B S) (w i : ℕ) :
    0 ≤ windowImbalance w B S i ∧ windowImbalance w B S i ≤ windowVolume w V i := by
  constructor
  · apply winAt_sum_nonneg
    intro x hx
    obtain ⟨j, hj, rfl⟩ := List.mem_iff_getElem.1 hx
    rw [List.getElem_zipWith]
    exact abs_nonneg _
  · exact winAt_sum_le h.diffs_le w i

/-- The value from the two sums. -/
theorem vpin_of_sums (r : ℚ → ℚ) {w : ℕ} {V B S : List ℚ} (h : Volumes V B S) {i : ℕ} (hi : i < V.length) {x y : XF ℚ}
    (hd : (rollSum r w ((diffs r B S).map .fin)).getD i .nan = x) (ht : (rollSum r w (V.map .fin)).getD i .nan = y) :
    (Rd.vpin r w (V.map .fin) (B.map .fin) (S.map .fin)).getD i .nan =
      if w ≤ i then fillna1 (.fin 0) (rnd r (XF.div x y)) else rnd r (XF.div x y) := by
  rw [vpin_at r w V B S h.buy h.sell i hi, hd, ht]

theorem rollSum_fin (r : ℚ → ℚ) {w : ℕ} (hw : 1 ≤ w) (V : List ℚ) (i : ℕ) (hi : i < V.length) :
    (rollSum r w (V.map .fin)).getD i .nan =
      if w ≤ i + 1 then .fin (rollState r w (V.map .fin) (i + 1)).s else .nan := by
  rw [rollSum, List.getD_eq_getElem _ _ (by simpa using hi), List.getElem_map, List.getElem_range,
    rollSum_at r hw _ i (by simpa using hi)]
  by_cases h : w ≤ i + 1
  · rw [if_pos ⟨h, winAt_fin_undef w i V⟩, if_pos h]
  · rw [if_neg fun h' => h h'.1, if_neg h]

theorem diffs_grid {p : ℕ} (hp : 1 ≤ p) {e : ℤ} {w : ℕ} (hw : 1 ≤ w) {V B S : List ℚ} (h : Volumes V B S)
    (hgB : ∀ x ∈ B, ∃ m : ℤ, x = m * 2 ^ e) (hgS : ∀ x ∈ S, ∃ m : ℤ, x = m * 2 ^ e)
    (hs : ∀ i < V.length, windowVolume w V i < 2 ^ p * 2 ^ e) :
    diffs (roundBits p) B S = diffs id B S ∧ OnGrid p e w ((diffs id B S).map .fin) := by
  have hBS : B.length = S.length := by rw [h.buy, h.sell]
  have hgrid : ∀ i < V.length, ∃ m : ℤ, B.getD i 0 - S.getD i 0 = m * 2 ^ e := by
    intro i hi
    obtain ⟨a, ha⟩ := hgB _ (getD_mem' (A := B) (i := i) (by rw [h.buy]; exact hi))
    obtain ⟨b, hb⟩ := hgS _ (getD_mem' (A := S) (i := i) (by rw [h.sell]; exact hi))
    exact ⟨a - b, by rw [ha, hb]; push_cast; ring⟩
  constructor
  · apply eq_of_getD (by rw [diffs_length _ h.buy h.sell, diffs_length _ h.buy h.sell])
    intro i hi
    rw [diffs_length _ h.buy h.sell] at hi
    rw [diffs_getD _ (roundBits_zero p) hBS, diffs_getD id rfl hBS, grid_fixed hp (hgrid i hi), id]
    refine lt_of_le_of_lt ((h.covers i).trans ?_) (hs i hi)
    exact List.single_le_sum (fun x hx => h.nonneg x (List.mem_of_mem_take (List.mem_of_mem_drop hx))) _
      (winAt_last_mem hw V hi)
  · apply onGrid_fin
    · intro x hx
      obtain ⟨i, _, rfl⟩ := mem_getD hx
      rw [diffs_getD id rfl hBS]
      exact abs_nonneg _
    · intro x hx
      obtain ⟨i, hi, rfl⟩ := mem_getD hx
      rw [diffs_length _ h.buy h.sell] at hi
      rw [diffs_getD id rfl hBS, id]
      obtain ⟨m, hm⟩ := hgrid i hi
      exact ⟨|m|, by rw [hm, abs_mul, abs_of_pos (two_zpow_pos e), Int.cast_abs]⟩
    · intro i hi
      rw [diffs_length _ h.buy h.sell] at hi
      exact lt_of_le_of_lt (winAt_sum_le h.diffs_le w i) (hs i hi)

theorem winAt_abs_sub {A B : List ℚ} {δ : ℚ} (h : List.Forall₂ (fun a b => |a - b| ≤ δ) A B) (h0 : 0 ≤ δ) (w i : ℕ) :
    |(winAt w i A).sum - (winAt w i B).sum| ≤ w * δ := by
  have key : ∀ {A B : List ℚ}, List.Forall₂ (fun a b => |a - b| ≤ δ) A B → |A.sum - B.sum| ≤ A.length * δ := by
    intro A B h
    induction h with
    | nil => simp
    | @cons a b A B h1 _ ih =>
      rw [List.sum_cons, List.sum_cons, List.length_cons, show a + A.sum - (b + B.sum) = (a - b) + (A.sum - B.sum) by ring]
      push_cast
      linarith [abs_add_le (a - b) (A.sum - B.sum)]
  refine (key (List.forall₂_drop (i + 1 - w) (List.forall₂_take (i + 1) h))).trans ?_
  apply mul_le_mul_of_nonneg_right _ h0
  exact_mod_cast winAt_len_le w i A

/-- Quotients of disturbed numbers. -/
theorem quot_near {D V D' V' δ : ℚ} (hD0 : 0 ≤ D) (hDV : D ≤ V) (hV : 0 < V) (hD : |D' - D| ≤ 25 / 24 * δ) (hV' : |V' - V| ≤ δ)
    (h2 : 2 * δ ≤ V) : 0 < V' ∧ |D' / V' - D / V| ≤ 49 / 12 * δ / V := by
  have hδ : 0 ≤ δ := (abs_nonneg _).trans hV'
  have hv := abs_le.1 hV'
  have hVp : V / 2 ≤ V' := by linarith [hv.1]
  have hV'0 : 0 < V' := by linarith
  refine ⟨hV'0, ?_⟩
  have e : D' / V' - D / V = ((D' - D) * V + D * (V - V')) / (V * V') := by field_simp; ring
  rw [e, abs_div, abs_of_pos (mul_pos hV hV'0), div_le_div_iff₀ (mul_pos hV hV'0) hV]
  have h1 : |(D' - D) * V + D * (V - V')| ≤ 49 / 24 * δ * V := by
    refine (abs_add_le _ _).trans ?_
    rw [abs_mul, abs_mul, abs_of_pos hV, abs_of_nonneg hD0, abs_sub_comm V V']
    have a1 : |D' - D| * V ≤ 25 / 24 * δ * V := mul_le_mul_of_nonneg_right hD hV.le
    have a2 : D * |V' - V| ≤ V * δ := mul_le_mul hDV hV' (abs_nonneg _) hV.le
    linarith
  have h3 : 49 / 24 * δ * V * V ≤ 49 / 12 * δ * (V * V') := by
    have : 0 ≤ δ * V := mul_nonneg hδ hV.le
    nlinarith
  nlinarith

/-! ### scaling -/

/-- Multiplication by a number. -/
def scale (c : ℚ) (x : XF ℚ) : XF ℚ := XF.mul x (.fin c)

/-- A state with all sums multiplied by `c`. -/
def scaleSt (c : ℚ) (st : RollSt ℚ) : RollSt ℚ := { st with s := st.s * c, ca := st.ca * c, cr := st.cr * c }

theorem kahanAdd_scale {r : ℚ → ℚ} {c : ℚ} (hr : ∀ x, r (x * c) = r x * c) (s a v : ℚ) :
    kahanAdd r (s * c) (a * c) (v * c) = ((kahanAdd r s a v).1 * c, (kahanAdd r s a v).2 * c) := by
  simp only [kahanAdd, ← sub_mul, hr, ← add_mul]

theorem rollAdd_scale {r : ℚ → ℚ} {c : ℚ} (hr : ∀ x, r (x * c) = r x * c) (hc : 0 < c) (st : RollSt ℚ) (x : XF ℚ) :
    rollAdd r (scaleSt c st) (scale c x) = scaleSt c (rollAdd r st x) := by
  cases x with
  | fin v =>
    have : v * c < 0 ↔ v < 0 := by rw [mul_neg_iff]; constructor <;> intro h <;> [skip; exact .inr ⟨h, hc⟩]; rcases h with h | h <;> linarith [h.1, h.2]
    simp only [scale, XF.mul, rollAdd, scaleSt, kahanAdd_scale hr, this]
  | _ => simp [scale, XF.mul, rollAdd, scaleSt, XF.infSign, XF.neg, hc]

theorem rollRemove_scale {r : ℚ → ℚ} {c : ℚ} (hr : ∀ x, r (x * c) = r x * c) (hc : 0 < c) (st : RollSt ℚ) (x : XF ℚ) :
    rollRemove r (scaleSt c st) (scale c x) = scaleSt c (rollRemove r st x) := by
  cases x with
  | fin v =>
    have : v * c < 0 ↔ v < 0 := by rw [mul_neg_iff]; constructor <;> intro h <;> [skip; exact .inr ⟨h, hc⟩]; rcases h with h | h <;> linarith [h.1, h.2]
    simp only [scale, XF.mul, rollRemove, scaleSt, ← neg_mul, kahanAdd_scale hr, this]
  | _ => simp [scale, XF.mul, rollRemove, scaleSt, XF.infSign, XF.neg, hc]

theorem getD_scale (c : ℚ) (l : List (XF ℚ)) (i : ℕ) : (l.map (scale c)).getD i .nan = scale c (l.getD i .nan) := by
  by_cases h : i < l.length
  · rw [List.getD_eq_getElem _ _ (by simpa using h), List.getElem_map, List.getD_eq_getElem _ _ h]
  · rw [List.getD_eq_default _ _ (by simpa using h), List.getD_eq_default _ _ (by simpa using h)]
    rfl

theorem rollState_scale {r : ℚ → ℚ} {c : ℚ} (hr : ∀ x, r (x * c) = r x * c) (hc : 0 < c) (w : ℕ) (l : List (XF ℚ)) (n : ℕ) :
    rollState r w (l.map (scale c)) n = scaleSt c (rollState r w l n) := by
  induction n with
  | zero => simp [rollState, rollInit, scaleSt]
  | succ n ih =>
    simp only [rollState, rollStep, ih, getD_scale]
    by_cases h : w ≤ n
    · rw [if_pos h, if_pos h, rollRemove_scale hr hc, rollAdd_scale hr hc]
    · rw [if_neg h, if_neg h, rollAdd_scale hr hc]

theorem rollSum_scale {r : ℚ → ℚ} {c : ℚ} (hr : ∀ x, r (x * c) = r x * c) (hc : 0 < c) (w : ℕ) (l : List (XF ℚ)) :
    rollSum r w (l.map (scale c)) = (rollSum r w l).map (scale c) := by
  simp only [rollSum, List.length_map, List.map_map]
  apply List.map_congr_left
  intro i _
  rw [Function.comp_apply, rollState_scale hr hc]
  by_cases h : (w : ℤ) ≤ (rollState r w l (i + 1)).nobs
  · have h' : (w : ℤ) ≤ (scaleSt c (rollState r w l (i + 1))).nobs := h
    rw [calcSum, calcSum, if_pos h, if_pos h']; rfl
  · have h' : ¬ (w : ℤ) ≤ (scaleSt c (rollState r w l (i + 1))).nobs := h
    rw [calcSum, calcSum, if_neg h, if_neg h']; rfl

theorem rollMean_scale {r : ℚ → ℚ} {c : ℚ} (hr : ∀ x, r (x * c) = r x * c) (hc : 0 < c) (w : ℕ) (l : List (XF ℚ)) :
    rollMean r w (l.map (scale c)) = (rollMean r w l).map (scale c) := by
  simp only [rollMean, List.length_map, List.map_map]
  apply List.map_congr_left
  intro i _
  rw [Function.comp_apply, rollState_scale hr hc]
  simp only [calcMean, scaleSt]
  have hn : ∀ q : ℚ, q * c < 0 ↔ q < 0 := fun q => by
    constructor
    · intro h; by_contra h'; push Not at h'; linarith [mul_nonneg h' hc.le]
    · intro h; exact mul_neg_of_neg_of_pos h hc
  have hq : ∀ q : ℚ, 0 < q * c ↔ 0 < q := fun q => by
    constructor
    · intro h; by_contra h'; push Not at h'; linarith [mul_nonpos_of_nonpos_of_nonneg h' hc.le]
    · intro h; exact mul_pos h hc
  have hd : ∀ a b : ℚ, a * c / b = a / b * c := fun a b => by ring
  simp only [hd, hr, hn, hq]
  split_ifs <;> simp [scale, XF.mul]

theorem sub_scale {c : ℚ} (hc : 0 < c) (x y : XF ℚ) : XF.sub (scale c x) (scale c y) = scale c (XF.sub x y) := by
  cases x <;> cases y <;> simp [scale, XF.mul, XF.sub, XF.neg, XF.add, XF.infSign, hc, add_mul]

theorem abs_scale {c : ℚ} (hc : 0 < c) (x : XF ℚ) : XF.abs (scale c x) = scale c (XF.abs x) := by
  cases x <;> simp [scale, XF.mul, XF.abs, XF.infSign, XF.neg, hc, abs_mul, abs_of_pos hc]

theorem rnd_scale {r : ℚ → ℚ} {c : ℚ} (hr : ∀ x, r (x * c) = r x * c) (hc : 0 < c) (x : XF ℚ) :
    rnd r (scale c x) = scale c (rnd r x) := by
  cases x <;> simp [scale, XF.mul, rnd, XF.infSign, XF.neg, hc, hr]

theorem div_scale {c : ℚ} (hc : 0 < c) (x y : XF ℚ) : XF.div (scale c x) (scale c y) = XF.div x y := by
  have hn : ∀ q : ℚ, q * c < 0 ↔ q < 0 := fun q => by
    constructor
    · intro h; by_contra h'; push Not at h'; linarith [mul_nonneg h' hc.le]
    · intro h; exact mul_neg_of_neg_of_pos h hc
  have hq : ∀ q : ℚ, 0 < q * c ↔ 0 < q := fun q => by
    constructor
    · intro h; by_contra h'; push Not at h'; linarith [mul_nonpos_of_nonpos_of_nonneg h' hc.le]
    · intro h; exact mul_pos h hc
  cases x <;> cases y <;> simp [scale, XF.mul, XF.div, XF.infSign, XF.neg, hc, hc.ne', hn, hq, mul_div_mul_right]

end Mizar.Rd
