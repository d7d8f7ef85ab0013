import Verif.Lemmas.RoundedAlign
import Verif.Lemmas.RoundedHighLow
import Verif.Lemmas.RoundedCusum
import Verif.Props.RoundedReturns

/-!
Property theorems C145: alignment in floating point (`/repo/mizarlabs/model/pipeline.py` lines 165-245).
-/

namespace Mizar.Props
open Mizar.Spec Mizar.Rd Mizar.Pipe

section
variable {K : Type} [Field K] [LinearOrder K]

private theorem sum_fin (L : List K) : XF.sum (L.map XF.fin) = .fin L.sum := by
  have : ∀ (L : List K) (a : K), (L.map XF.fin).foldl XF.add (.fin a) = .fin (a + L.sum) := by
    intro L
    induction L with
    | nil => intro a; simp
    | cons x L ih => intro a; rw [List.map_cons, List.foldl_cons, XF.add_fin, ih, List.sum_cons, add_assoc]
  unfold XF.sum
  rw [this, zero_add]

private theorem sum_undef (l : List (XF K)) (h : l.any XF.undef = true) : (XF.sum l).undef = true := by
  have ha : ∀ a b : XF K, (XF.add a b).undef = (a.undef || b.undef) := by
    intro a b
    cases a <;> cases b <;> rfl
  have : ∀ (l : List (XF K)) (a : XF K), (l.foldl XF.add a).undef = (a.undef || l.any XF.undef) := by
    intro l
    induction l with
    | nil => intro a; simp
    | cons x l ih => intro a; rw [List.foldl_cons, ih, ha, List.any_cons, Bool.or_assoc]
  unfold XF.sum
  rw [this, h, Bool.or_true]

private theorem defined {l : List (XF K)} (h : ¬ l.any XF.undef = true) : ∃ L : List K, l = L.map XF.fin := by
  refine ⟨l.map XF.toK, ?_⟩
  rw [List.map_map]
  conv_lhs => rw [← List.map_id l]
  apply List.map_congr_left
  intro x hx
  rw [Bool.not_eq_true, List.any_eq_false] at h
  obtain ⟨a, rfl⟩ := fin_of_defined (by simpa using h x hx)
  rfl

private theorem not_undef (L : List K) : ¬ (L.map XF.fin).any XF.undef = true := by
  rw [List.any_map]
  simp [XF.undef, XF.isNan, XF.isInf]

private theorem npSumR_fin (sm : List K → K) (L : List K) : npSumR sm (L.map XF.fin) = .fin (sm L) := by
  unfold npSumR
  rw [if_neg (not_undef L), List.map_map]
  congr 2
  simp [Function.comp_def, XF.toK]

private theorem div_undef {x : XF K} (h : x.undef = true) (n : K) (r : K → K) : rnd r (XF.div x (.fin n)) = XF.div x (.fin n) := by
  cases x with
  | fin a => simp [XF.undef, XF.isNan, XF.isInf] at h
  | nan => rfl
  | pinf => simp only [XF.div]; split_ifs <;> rfl
  | ninf => simp only [XF.div]; split_ifs <;> rfl

/-- C145 (exact arithmetic): without rounding the alignment is the one of C44, for all frames. -/
theorem C145_exact (how : List (String × String)) (name : String) (X : Features K) : alignOnR id List.sum how name X = alignOn how name X := by
  have hm : npMeanR id List.sum = (npMean : List (XF K) → XF K) := by
    funext l
    unfold npMeanR npMean
    have hr : ∀ x : XF K, rnd id x = x := fun x => by cases x <;> rfl
    rw [hr, id]
    by_cases h : l.any XF.undef = true
    · rw [npSumR, if_pos h]
    · obtain ⟨L, rfl⟩ := defined h
      rw [npSumR_fin, sum_fin]
  have ha : ∀ how key (n : ℕ), aggregateR id List.sum how key n = aggregate (K := K) how key n := by
    intro how key n
    funext rows
    unfold aggregateR aggregate alignMethodsR alignMethods
    rw [hm]
    rfl
  have he : alignEntryR (K := K) id List.sum = alignEntry := by
    funext how' nm idx p
    unfold alignEntryR alignEntry alignFrameR alignFrame
    rw [ha]
  unfold alignOnR alignOn alignDict
  rw [he]
  rfl

/-- C145 (minimum, maximum): frames that are not aligned by their mean come out without any rounding. -/
theorem C145_min_max (r : K → K) (sm : List K → K) (how : List (String × String)) (key : String) (hk : how.lookup key ≠ some "mean")
    (idx : List ℤ) (f : Frame K) : alignFrameR r sm how key idx f = alignFrame how key idx f := by
  have : aggregateR r sm how key f.cols.length = aggregate how key f.cols.length := by
    funext rows
    unfold aggregateR aggregate
    cases h : how.lookup key with
    | none => rfl
    | some name =>
      have hn : name ≠ "mean" := fun e => hk (by rw [h, e])
      simp only [alignMethodsR, alignMethods, if_neg hn]
      rfl
  unfold alignFrameR alignFrame
  rw [this]

end

/-! ### The error of a mean -/

private theorem mean_close {p n d : ℕ} (hp : 8 ≤ p) (hn : n < 2 ^ p) (hd : 24 * (d + 1) ≤ 2 ^ p) {sm : List ℚ → ℚ} (hs : Adds (roundBits p) n d sm)
    {V : ℚ} (l : List (XF ℚ)) (hl : l ≠ []) (hln : l.length ≤ n) (hV : ∀ x : ℚ, XF.fin x ∈ l → |x| ≤ V) :
    Close (2 * (d + 1) / 2 ^ p * V) (npMeanR (roundBits p) sm l) (npMean l) := by
  unfold npMeanR npMean
  rw [roundBits_natCast p (by omega) _ (by omega)]
  by_cases h : l.any XF.undef = true
  · left
    rw [npSumR, if_pos h, div_undef (sum_undef l h)]
  · obtain ⟨L, rfl⟩ := defined h
    right
    rw [List.length_map] at hln ⊢
    have hL : L ≠ [] := by rintro rfl; exact hl rfl
    have hlen : 0 < L.length := List.length_pos_of_ne_nil hL
    have hlen' : (0 : ℚ) < L.length := by exact_mod_cast hlen
    rw [npSumR_fin, sum_fin, XF.div_fin _ _ hlen'.ne', XF.div_fin _ _ hlen'.ne']
    refine ⟨_, _, rfl, rfl, ?_⟩
    obtain ⟨t, t1, t2, t3⟩ := hs.2 L hL hln
    rw [t3]
    have e1 := eval_error (p := p) (by omega) t
    have s1 : (t.leaves.map (fun x : ℚ => (x : ℝ))).sum = ((L.sum : ℚ) : ℝ) := by
      rw [(t1.map _).sum_eq]
      clear * -
      induction L with
      | nil => rw [List.map_nil, List.sum_nil, List.sum_nil, Rat.cast_zero]
      | cons x L ih => rw [List.map_cons, List.sum_cons, List.sum_cons, Rat.cast_add, ih]
    have s2 : (t.leaves.map fun x : ℚ => |(x : ℝ)|).sum ≤ L.length * (V : ℝ) := by
      rw [(t1.map _).sum_eq]
      have hV' : ∀ x ∈ L, |(x : ℝ)| ≤ V := by
        intro x hx
        have := hV x (List.mem_map.2 ⟨x, hx, rfl⟩)
        exact_mod_cast this
      clear * - hV'
      induction L with
      | nil => simp
      | cons x L ih =>
        rw [List.map_cons, List.sum_cons, List.length_cons]
        have h1 := hV' x (by simp)
        have h2 := ih fun y hy => hV' y (by simp [hy])
        push_cast
        linarith
    have hV0 : (0 : ℝ) ≤ V := by
      obtain ⟨x, hx⟩ := List.exists_mem_of_ne_nil L hL
      have := hV x (List.mem_map.2 ⟨x, hx, rfl⟩)
      exact_mod_cast (abs_nonneg x).trans this
    have e2 := round_real (p := p) (by omega) (t.eval (roundBits p) / L.length)
    have he0 : (0 : ℝ) < 1 / 2 ^ p := by positivity
    have he1 : (1 : ℝ) / 2 ^ p ≤ 1 / 256 := by
      apply one_div_le_one_div_of_le (by norm_num)
      calc (256 : ℝ) = 2 ^ 8 := by norm_num
        _ ≤ 2 ^ p := pow_le_pow_right₀ (by norm_num) hp
    have he2 : 24 * (((d + 1 : ℕ) : ℝ) * (1 / 2 ^ p)) ≤ 1 := by
      rw [mul_one_div, ← mul_div_assoc, div_le_one (by positivity)]
      exact_mod_cast hd
    have e3 := pow_small he0 he1 he2
    have hgoal : |((roundBits p (t.eval (roundBits p) / L.length) : ℚ) : ℝ) - ((L.sum / L.length : ℚ) : ℝ)| ≤ 2 * ((d + 1 : ℕ) : ℝ) * (1 / 2 ^ p) * V := by
      rw [s1] at e1
      rw [Rat.cast_div, Rat.cast_natCast] at e2 ⊢
      generalize (1 : ℝ) / 2 ^ p = ε at *
      generalize ((roundBits p (t.eval (roundBits p) / L.length) : ℚ) : ℝ) = y at *
      generalize ((t.eval (roundBits p) : ℚ) : ℝ) = a at *
      generalize ((L.sum : ℚ) : ℝ) = b at *
      have hm : (0 : ℝ) < L.length := by exact_mod_cast hlen
      generalize (L.length : ℝ) = m at *
      have hP : (1 + ε) ^ t.depth ≤ (1 + ε) ^ d := pow_le_pow_right₀ (by linarith) t2
      have hP1 : (1 : ℝ) ≤ (1 + ε) ^ t.depth := one_le_pow₀ (by linarith)
      rw [pow_succ] at e3
      generalize (1 + ε) ^ d = P at *
      have h1 : |a - b| ≤ (P - 1) * (m * V) :=
        e1.trans ((mul_le_mul_of_nonneg_left s2 (by linarith)).trans (mul_le_mul_of_nonneg_right (by linarith) (by positivity)))
      have h2 : |a / m - b / m| ≤ (P - 1) * V := by
        rw [← sub_div, abs_div, abs_of_pos hm, div_le_iff₀ hm]
        linarith
      have h3 : |b / m| ≤ V := by
        rw [abs_div, abs_of_pos hm, div_le_iff₀ hm]
        have : |b| ≤ (t.leaves.map fun x : ℚ => |(x : ℝ)|).sum := by
          rw [← s1]
          clear * -
          induction t.leaves with
          | nil => simp
          | cons x l ih =>
            rw [List.map_cons, List.map_cons, List.sum_cons, List.sum_cons]
            exact (abs_add_le _ _).trans (by linarith)
        linarith
      have h4 : |a / m| ≤ P * V := by
        have := abs_sub_abs_le_abs_sub (a / m) (b / m)
        linarith
      have h5 : |y - b / m| ≤ |y - a / m| + |a / m - b / m| := by
        have := abs_add_le (y - a / m) (a / m - b / m)
        rwa [sub_add_sub_cancel] at this
      have h6 : ε * |a / m| ≤ ε * (P * V) := mul_le_mul_of_nonneg_left h4 he0.le
      have h7 : (P * (1 + ε) - 1) * V ≤ 24 / 23 * (((d + 1 : ℕ) : ℝ) * ε) * V := mul_le_mul_of_nonneg_right e3 hV0
      have h8 : 0 ≤ (((d + 1 : ℕ) : ℝ) * ε) * V := by positivity
      linarith
    have : ((2 * ((d + 1 : ℕ) : ℚ) * (1 / 2 ^ p) * V : ℚ) : ℝ) = 2 * ((d + 1 : ℕ) : ℝ) * (1 / 2 ^ p) * V := by push_cast; ring
    rw [← this, ← Rat.cast_sub, ← Rat.cast_abs, Rat.cast_le] at hgoal
    refine hgoal.trans (le_of_eq ?_)
    push_cast
    ring

private theorem forall₂_refl {α : Type} {R : α → α → Prop} (h : ∀ x, R x x) (l : List α) : List.Forall₂ R l l := by
  induction l with
  | nil => exact .nil
  | cons x l ih => exact .cons (h x) ih

private theorem forall₂_map {α β γ : Type} {R : β → γ → Prop} {f : α → β} {g : α → γ} (l : List α) (h : ∀ a ∈ l, R (f a) (g a)) :
    List.Forall₂ R (l.map f) (l.map g) := by
  induction l with
  | nil => exact .nil
  | cons x l ih => exact .cons (h x (by simp)) (ih fun a ha => h a (by simp [ha]))

private theorem frame_close {p n d : ℕ} (hp : 8 ≤ p) (hn : n < 2 ^ p) (hd : 24 * (d + 1) ≤ 2 ^ p) {sm : List ℚ → ℚ} (hs : Adds (roundBits p) n d sm)
    {V : ℚ} (how : List (String × String)) (key : String) (idx : List ℤ) (f : Frame ℚ) (hf : f.rows.length ≤ n) (hV : Bounded V f) :
    Both (CloseFrames (2 * (d + 1) / 2 ^ p * V)) (alignFrameR (roundBits p) sm how key idx f) (alignFrame how key idx f) := by
  have hrefl : ∀ δ x, Close δ x x := fun δ x => Or.inl rfl
  have := frame_both (R := Close (2 * (d + 1) / 2 ^ p * V)) (fun x y h => by rcases h with rfl | ⟨a, b, rfl, rfl, -⟩ <;> rfl) (hrefl _ _)
    (agg := aggregateR (roundBits p) sm how key f.cols.length) (agg' := aggregate how key f.cols.length) (rows := f.rows) (rows' := f.rows)
    (forall₂_refl (fun x => ⟨rfl, forall₂_refl (hrefl _) _⟩) _) idx ?_ f.cols.length f.cols
  · rcases this with h | ⟨x, y, h1, h2, h3, h4⟩
    · exact Or.inl h
    · exact Or.inr ⟨x, y, h1, h2, ⟨h3, h4⟩⟩
  · intro s t h2 _
    unfold aggregateR aggregate
    cases how.lookup key with
    | none => exact Or.inl ⟨_, rfl, rfl⟩
    | some name =>
      unfold alignMethodsR alignMethods
      by_cases h : name = "mean"
      · simp only [if_pos h]
        refine Both.ok ?_
        unfold colAgg
        apply forall₂_map
        intro j _
        apply mean_close hp hn hd hs
        · intro h0
          rw [List.map_eq_nil_iff, List.map_eq_nil_iff] at h0
          rw [h0] at h2
          simp at h2
        · rw [List.length_map, List.length_map]
          exact (List.length_filter_le _ _).trans hf
        · intro x hx
          rw [List.map_map, List.mem_map] at hx
          obtain ⟨row, hr, hx⟩ := hx
          refine hV row (List.mem_of_mem_filter hr) x ?_
          dsimp only [Function.comp] at hx
          rw [← hx]
          by_cases hj : j < row.2.length
          · rw [List.getD_eq_getElem _ _ hj]
            exact List.getElem_mem hj
          · rw [List.getD_eq_default _ _ (by omega)] at hx
            exact absurd hx (by simp)
      · simp only [if_neg h]
        by_cases h3 : name = "min"
        · simp only [if_pos h3]
          exact Both.ok (forall₂_refl (hrefl _) _)
        · simp only [if_neg h3]
          by_cases h4 : name = "max"
          · simp only [if_pos h4]
            exact Both.ok (forall₂_refl (hrefl _) _)
          · simp only [if_neg h4]
            exact Or.inl ⟨_, rfl, rfl⟩

/-- C145 (error): the alignment with rounding to `p` bits raises exactly where the exact alignment raises and with the same error.
Otherwise it has the same keys, columns and times, missing and infinite values are at the same places, and every number is within
`2·(d+1)·2⁻ᵖ·V` of the exact one, where `V` bounds the features, `n` the rows of a frame and `d` the additions an entry goes through. -/
theorem C145_error {p n d : ℕ} (hp : 8 ≤ p) (hn : n < 2 ^ p) (hd : 24 * (d + 1) ≤ 2 ^ p) {sm : List ℚ → ℚ} (hs : Adds (roundBits p) n d sm)
    {V : ℚ} (how : List (String × String)) (name : String) (X : Features ℚ)
    (hX : ∀ e ∈ X.primary ++ X.metal, e.2.rows.length ≤ n ∧ Bounded V e.2) :
    (∀ e, alignOnR (roundBits p) sm how name X = .error e ↔ alignOn how name X = .error e) ∧
    ∀ Y Z, alignOnR (roundBits p) sm how name X = .ok Y → alignOn how name X = .ok Z →
      CloseDicts (2 * (d + 1) / 2 ^ p * V) Y.primary Z.primary ∧ CloseDicts (2 * (d + 1) / 2 ^ p * V) Y.metal Z.metal := by
  have hrefl : ∀ δ x, Close δ x x := fun δ x => Or.inl rfl
  have hfr : ∀ δ (f : Frame ℚ), CloseFrames δ f f := fun δ f => ⟨rfl, forall₂_refl (fun x => ⟨rfl, forall₂_refl (hrefl _) _⟩) _⟩
  have hent : ∀ idx, ∀ e ∈ X.primary ++ X.metal, Both (fun a b => a.1 = b.1 ∧ CloseFrames (2 * (d + 1) / 2 ^ p * V) a.2 b.2)
      (alignEntryR (roundBits p) sm how name idx e) (alignEntry how name idx e) := by
    intro idx e he
    unfold alignEntryR alignEntry
    by_cases h : e.1 ≠ name
    · rw [if_pos h, if_pos h]
      refine (frame_close hp hn hd hs how e.1 idx e.2 (hX e he).1 (hX e he).2).bind fun x y hx => ?_
      exact Both.ok ⟨rfl, hx⟩
    · rw [if_neg h, if_neg h]
      exact Both.ok ⟨rfl, hfr _ _⟩
  have hall : Both (fun Y Z : Features ℚ => CloseDicts (2 * (d + 1) / 2 ^ p * V) Y.primary Z.primary ∧ CloseDicts (2 * (d + 1) / 2 ^ p * V) Y.metal Z.metal)
      (alignOnR (roundBits p) sm how name X) (alignOn how name X) := by
    unfold alignOnR alignOn alignDict
    by_cases h : name = ""
    · rw [if_pos h, if_pos h]
      exact Both.ok ⟨forall₂_refl (fun _ => ⟨rfl, hfr _ _⟩) _, forall₂_refl (fun _ => ⟨rfl, hfr _ _⟩) _⟩
    · rw [if_neg h, if_neg h]
      cases X.primary.lookup name with
      | none => exact Or.inl ⟨_, rfl, rfl⟩
      | some lead =>
        refine (both_mapE fun e he => hent lead.index e (List.mem_append_left _ he)).bind fun x y hx => ?_
        refine (both_mapE fun e he => hent lead.index e (List.mem_append_right _ he)).bind fun u v hu => ?_
        exact Both.ok ⟨hx, hu⟩
  rcases hall with ⟨e, h1, h2⟩ | ⟨Y, Z, h1, h2, h3⟩
  · rw [h1, h2]
    exact ⟨fun e => Iff.rfl, fun Y Z h => by simp at h⟩
  · rw [h1, h2]
    refine ⟨fun e => by simp, fun Y' Z' e1 e2 => ?_⟩
    cases e1
    cases e2
    exact h3

/-! ### The range -/

private theorem mem_forall₂ {α β : Type} {R : α → β → Prop} {l : List α} {l' : List β} (h : List.Forall₂ R l l') {a : α} (ha : a ∈ l) : ∃ b, R a b := by
  induction h with
  | nil => simp at ha
  | cons h _ ih =>
    rcases List.mem_cons.1 ha with rfl | ha
    · exact ⟨_, h⟩
    · exact ih ha

/-- C145 (range): where at most two rows fall between two alignment times, whatever the method, every aligned value is missing or stays in
every interval of floating-point numbers that the features lie in; so does a single row or a value carried forward. -/
theorem C145_range {p : ℕ} (hp : 1 < p) {sm : List ℚ → ℚ} (hs : ∀ a b, sm [a, b] = roundBits p (a + b)) {lo hi : ℚ} (hlo : IsFloat p lo)
    (hhi : IsFloat p hi) (how : List (String × String)) (key : String) (idx : List ℤ) (f : Frame ℚ)
    (hf : ∀ row ∈ f.rows, ∀ x ∈ row.2, Within lo hi x) (hg : Groups (fun g => g.length ≤ 2) idx f) (g : Frame ℚ)
    (h : alignFrameR (roundBits p) sm how key idx f = .ok g) : ∀ row ∈ g.rows, ∀ x ∈ row.2, Within lo hi x := by
  have hmean : ∀ a b, Within lo hi a → Within lo hi b → Within lo hi (npMeanR (roundBits p) sm [a, b]) := by
    rintro a b (rfl | ⟨a, rfl, ha1, ha2⟩) hb
    · left
      rcases hb with rfl | ⟨b, rfl, -⟩ <;> simp [npMeanR, npSumR, XF.undef, XF.isNan, XF.sum, XF.add, XF.div, rnd]
    · rcases hb with rfl | ⟨b, rfl, hb1, hb2⟩
      · left
        simp [npMeanR, npSumR, XF.undef, XF.isNan, XF.isInf, XF.sum, XF.add, XF.div, rnd]
      · right
        have h2 : roundBits p (2 : ℚ) = 2 := by
          have := roundBits_natCast p (by omega) 2 (by calc 2 = 2 ^ 1 := rfl
            _ < 2 ^ p := Nat.pow_lt_pow_right (by norm_num) hp)
          exact_mod_cast this
        have hd : ∀ x : ℚ, IsFloat p x → roundBits p (x + x) = x + x := by
          intro x hx
          have := roundBits_zpow p 1 x
          rw [roundBits_eq_self p (by omega) hx] at this
          rw [zpow_one] at this
          rw [← mul_two, this]
        have hm : ∀ x y : ℚ, x ≤ y → roundBits p x ≤ roundBits p y := fun x y h => roundBits_mono p (by omega) h
        refine ⟨_, by
          unfold npMeanR
          rw [show ([.fin a, .fin b] : List (XF ℚ)) = [a, b].map XF.fin from rfl, npSumR_fin, hs, List.length_map]
          simp only [List.length_cons, List.length_nil]
          push_cast
          rw [h2, XF.div_fin _ _ (by norm_num)]
          rfl, ?_, ?_⟩
        · have h3 := hm (lo + lo) (a + b) (by linarith)
          rw [hd lo hlo] at h3
          have h4 := hm lo (roundBits p (a + b) / 2) (by linarith)
          rwa [roundBits_eq_self p (by omega) hlo] at h4
        · have h3 := hm (a + b) (hi + hi) (by linarith)
          rw [hd hi hhi] at h3
          have h4 := hm (roundBits p (a + b) / 2) hi (by linarith)
          rwa [roundBits_eq_self p (by omega) hhi] at h4
  have hmin : ∀ a b, Within lo hi a → Within lo hi b → Within lo hi (npMin [a, b]) := by
    intro a b ha hb
    simp only [npMin, List.foldl_cons, List.foldl_nil, xmin]
    split_ifs <;> assumption
  have hmax : ∀ a b, Within lo hi a → Within lo hi b → Within lo hi (npMax [a, b]) := by
    intro a b ha hb
    simp only [npMax, List.foldl_cons, List.foldl_nil, xmax]
    split_ifs <;> assumption
  have key2 := frame_both (R := fun x y => x = y ∧ Within lo hi x) (fun x y h => by rw [h.1]) ⟨rfl, Or.inl rfl⟩
    (agg := aggregateR (roundBits p) sm how key f.cols.length) (agg' := aggregateR (roundBits p) sm how key f.cols.length)
    (rows := f.rows) (rows' := f.rows) ?_ idx ?_ f.cols.length f.cols
  · rcases key2 with ⟨e, h1, -⟩ | ⟨x, y, h1, -, -, h4⟩
    · rw [alignFrameR, h1] at h
      cases h
    · rw [alignFrameR, h1] at h
      cases h
      intro row hr v hv
      obtain ⟨_, -, h5⟩ := mem_forall₂ h4 hr
      obtain ⟨_, -, h6⟩ := mem_forall₂ h5 hv
      exact h6
  · have : ∀ l : List (ℤ × List (XF ℚ)), (∀ row ∈ l, ∀ x ∈ row.2, Within lo hi x) →
        List.Forall₂ (fun a b => a.1 = b.1 ∧ List.Forall₂ (fun x y => x = y ∧ Within lo hi x) a.2 b.2) l l := by
      intro l hl
      have h0 := forall₂_map (R := fun a b : ℤ × List (XF ℚ) => a.1 = b.1 ∧ List.Forall₂ (fun x y => x = y ∧ Within lo hi x) a.2 b.2) (f := id) (g := id) l
        (fun a ha => ⟨rfl, by
          have := forall₂_map (R := fun x y => x = y ∧ Within lo hi x) (f := id) (g := id) a.2 fun x hx => ⟨rfl, hl a ha x hx⟩
          rwa [List.map_id] at this⟩)
      rwa [List.map_id] at h0
    exact this _ hf
  · intro s t h2 ⟨u, hu, h1⟩
    have h3 : (subset f.rows s t).length ≤ 2 := h1.trans (hg _ hu)
    have h4 : ∀ row ∈ subset f.rows s t, ∀ j, Within lo hi (row.2.getD j .nan) := by
      intro row hr j
      by_cases hj : j < row.2.length
      · rw [List.getD_eq_getElem _ _ hj]
        exact hf row (List.mem_of_mem_filter hr) _ (List.getElem_mem hj)
      · rw [List.getD_eq_default _ _ (by omega)]
        exact Or.inl rfl
    obtain ⟨u, v, huv⟩ := List.length_eq_two.1 (le_antisymm h3 h2)
    change subset f.rows s t = [u, v] at huv
    rw [huv] at h4 ⊢
    have hu := h4 u (by simp)
    have hv := h4 v (by simp)
    have hagg : ∀ F : List (XF ℚ) → XF ℚ, (∀ a b, Within lo hi a → Within lo hi b → Within lo hi (F [a, b])) →
        Both (List.Forall₂ fun x y => x = y ∧ Within lo hi x) (.ok (colAgg F f.cols.length ([u, v].map (·.2)))) (.ok (colAgg F f.cols.length ([u, v].map (·.2)))) := by
      intro F hF
      refine Both.ok (forall₂_map _ fun j _ => ⟨rfl, ?_⟩)
      exact hF _ _ (hu j) (hv j)
    unfold aggregateR
    cases how.lookup key with
    | none => exact Or.inl ⟨_, rfl, rfl⟩
    | some name =>
      dsimp only
      cases h : alignMethodsR (roundBits p) sm name with
      | none => exact Or.inl ⟨_, rfl, rfl⟩
      | some F =>
        refine hagg F ?_
        unfold alignMethodsR at h
        split_ifs at h <;> cases h
        · exact hmean
        · exact hmin
        · exact hmax

/-! ### Scale and sign -/

section
variable {K : Type} [Field K] [LinearOrder K] [IsStrictOrderedRing K]

private theorem nan_mul (c : K) (x : XF K) (hc : c ≠ 0) : (XF.mul (.fin c) x).isNan = x.isNan := by
  rcases lt_or_gt_of_ne hc with h | h <;> cases x <;> simp [XF.mul, XF.isNan, XF.infSign, XF.neg, h, not_lt.2 h.le]

private theorem undef_mul {c : K} (hc : c ≠ 0) (x : XF K) : (XF.mul (.fin c) x).undef = x.undef := by
  rcases lt_or_gt_of_ne hc with h | h <;> cases x <;> simp [XF.mul, XF.undef, XF.isNan, XF.isInf, XF.infSign, XF.neg, h, not_lt.2 h.le]

private theorem add_mul' {c : K} (hc : c ≠ 0) (x y : XF K) : XF.add (XF.mul (.fin c) x) (XF.mul (.fin c) y) = XF.mul (.fin c) (XF.add x y) := by
  rcases lt_or_gt_of_ne hc with h | h <;> cases x <;> cases y <;> simp [XF.mul, XF.add, XF.infSign, XF.neg, h, not_lt.2 h.le, mul_add]

private theorem div_mul' {c : K} (hc : c ≠ 0) (x : XF K) (n : K) : XF.div (XF.mul (.fin c) x) (.fin n) = XF.mul (.fin c) (XF.div x (.fin n)) := by
  cases x with
  | nan => rfl
  | fin a =>
    by_cases hn : n = 0
    · subst hn
      rcases lt_or_gt_of_ne hc with h | h <;> rcases lt_trichotomy a 0 with ha | ha | ha <;>
        simp [XF.mul, XF.div, XF.infSign, XF.neg, h, not_lt.2 h.le, ha, mul_pos_iff, mul_neg_iff] <;> simp [not_lt.2 ha.le, h, not_lt.2 h.le]
    · rw [XF.mul_fin, XF.div_fin _ _ hn, XF.div_fin _ _ hn, XF.mul_fin, mul_div_assoc]
  | pinf =>
    rcases lt_or_gt_of_ne hc with h | h <;> by_cases hn : n < 0 <;> simp [XF.mul, XF.div, XF.infSign, XF.neg, h, not_lt.2 h.le, hn]
  | ninf =>
    rcases lt_or_gt_of_ne hc with h | h <;> by_cases hn : n < 0 <;> simp [XF.mul, XF.div, XF.infSign, XF.neg, h, not_lt.2 h.le, hn]

private theorem mean_mul {r : K → K} {sm : List K → K} {c : K} (hc : c ≠ 0) (hr : ∀ x, r (c * x) = c * r x) (hs : ∀ l, sm (l.map (c * ·)) = c * sm l)
    (l : List (XF K)) : npMeanR r sm (l.map (XF.mul (.fin c))) = XF.mul (.fin c) (npMeanR r sm l) := by
  have h1 : npSumR sm (l.map (XF.mul (.fin c))) = XF.mul (.fin c) (npSumR sm l) := by
    have hu : (l.map (XF.mul (.fin c))).any XF.undef = l.any XF.undef := by
      rw [List.any_map]
      congr 1
      funext x
      exact undef_mul hc x
    unfold npSumR
    rw [hu]
    by_cases h : l.any XF.undef = true
    · rw [if_pos h, if_pos h]
      have : ∀ (l : List (XF K)) (a : XF K), (l.map (XF.mul (.fin c))).foldl XF.add (XF.mul (.fin c) a) = XF.mul (.fin c) (l.foldl XF.add a) := by
        intro l
        induction l with
        | nil => intro a; rfl
        | cons x l ih => intro a; rw [List.map_cons, List.foldl_cons, add_mul' hc, ih, List.foldl_cons]
      unfold XF.sum
      rw [← this, XF.mul_fin, mul_zero]
    · rw [if_neg h, if_neg h, XF.mul_fin, ← hs]
      obtain ⟨L, rfl⟩ := defined h
      simp [List.map_map, Function.comp_def, XF.toK]
  unfold npMeanR
  rw [h1, List.length_map, div_mul' hc]
  generalize XF.div (npSumR sm l) _ = y
  cases y with
  | fin a => simp [rnd, hr]
  | nan => rfl
  | pinf => rcases lt_or_gt_of_ne hc with h | h <;> simp [XF.mul, XF.infSign, h, not_lt.2 h.le, rnd]
  | ninf => rcases lt_or_gt_of_ne hc with h | h <;> simp [XF.mul, XF.infSign, h, not_lt.2 h.le, rnd, XF.neg]

private theorem lt_mul {c : K} (hc : c ≠ 0) (x y : XF K) :
    XF.lt (XF.mul (.fin c) x) (XF.mul (.fin c) y) = if 0 < c then XF.lt x y else XF.lt y x := by
  rcases lt_or_gt_of_ne hc with h | h <;> cases x <;> cases y <;> simp [XF.mul, XF.lt, XF.infSign, XF.neg, h, not_lt.2 h.le]

private theorem fold_mul {c : K} {f g : XF K → XF K → XF K} (h : ∀ x y, f (XF.mul (.fin c) x) (XF.mul (.fin c) y) = XF.mul (.fin c) (g x y))
    (l : List (XF K)) : ∀ a, (l.map (XF.mul (.fin c))).foldl f (XF.mul (.fin c) a) = XF.mul (.fin c) (l.foldl g a) := by
  induction l with
  | nil => intro a; rfl
  | cons x l ih => intro a; rw [List.map_cons, List.foldl_cons, h, ih, List.foldl_cons]

private theorem min_mul {c : K} (hc : c ≠ 0) (l : List (XF K)) :
    npMin (l.map (XF.mul (.fin c))) = XF.mul (.fin c) (if 0 < c then npMin l else npMax l) := by
  cases l with
  | nil => simp [npMin, npMax]
  | cons a l =>
    rw [List.map_cons]
    unfold npMin npMax
    by_cases h : 0 < c
    · rw [if_pos h]
      refine fold_mul (fun x y => ?_) l a
      simp only [xmin, nan_mul c _ hc, lt_mul hc, if_pos h]
      split_ifs <;> rfl
    · rw [if_neg h]
      refine fold_mul (fun x y => ?_) l a
      simp only [xmin, xmax, nan_mul c _ hc, lt_mul hc, if_neg h]
      split_ifs <;> rfl

private theorem max_mul {c : K} (hc : c ≠ 0) (l : List (XF K)) :
    npMax (l.map (XF.mul (.fin c))) = XF.mul (.fin c) (if 0 < c then npMax l else npMin l) := by
  cases l with
  | nil => simp [npMin, npMax]
  | cons a l =>
    rw [List.map_cons]
    unfold npMin npMax
    by_cases h : 0 < c
    · rw [if_pos h]
      refine fold_mul (fun x y => ?_) l a
      simp only [xmax, nan_mul c _ hc, lt_mul hc, if_pos h]
      split_ifs <;> rfl
    · rw [if_neg h]
      refine fold_mul (fun x y => ?_) l a
      simp only [xmin, xmax, nan_mul c _ hc, lt_mul hc, if_neg h]
      split_ifs <;> rfl

/-- Two methods that correspond under multiplication by `c`. -/
private def Corr (r : K → K) (sm : List K → K) (c : K) (how how' : List (String × String)) : Prop := ∀ key,
  (how.lookup key = none ∧ how'.lookup key = none) ∨ ∃ a b, how.lookup key = some a ∧ how'.lookup key = some b ∧
    ((alignMethodsR r sm a = none ∧ alignMethodsR r sm b = none) ∨ ∃ f g, alignMethodsR r sm a = some f ∧ alignMethodsR r sm b = some g ∧
      ∀ l, g (l.map (XF.mul (.fin c))) = XF.mul (.fin c) (f l))

private theorem frame_mul {r : K → K} {sm : List K → K} {c : K} (hc : c ≠ 0) {how how' : List (String × String)} (H : Corr r sm c how how')
    (key : String) (idx : List ℤ) (f : Frame K) : alignFrameR r sm how' key idx (scaleFrame c f) = (alignFrameR r sm how key idx f).map (scaleFrame c) := by
  have hm : ∀ l : List (XF K), List.Forall₂ (fun x y => y = XF.mul (.fin c) x) l (l.map (XF.mul (.fin c))) := by
    intro l
    induction l with
    | nil => exact .nil
    | cons x l ih => exact .cons rfl ih
  have hm' : ∀ l l' : List (XF K), List.Forall₂ (fun x y => y = XF.mul (.fin c) x) l l' → l' = l.map (XF.mul (.fin c)) := by
    intro l l' h
    induction h with
    | nil => rfl
    | cons h _ ih => rw [List.map_cons, h, ih]
  have key2 := frame_both (R := fun x y => y = XF.mul (.fin c) x) (fun x y h => by rw [h, nan_mul c x hc]) rfl
    (agg := aggregateR r sm how key f.cols.length) (agg' := aggregateR r sm how' key f.cols.length)
    (rows := f.rows) (rows' := (scaleFrame c f).rows) ?_ idx ?_ f.cols.length f.cols
  · change Both _ (alignFrameR r sm how key idx f) (alignFrameR r sm how' key idx (scaleFrame c f)) at key2
    rcases key2 with ⟨e, h1, h2⟩ | ⟨x, y, h1, h2, h3, h4⟩
    · rw [h1, h2]; rfl
    · rw [h1, h2]
      change Except.ok y = Except.ok (scaleFrame c x)
      congr 1
      obtain ⟨xc, xr⟩ := x
      obtain ⟨yc, yr⟩ := y
      dsimp only at h3 h4
      unfold scaleFrame
      dsimp only
      rw [h3]
      congr 1
      clear * - h4 hm'
      induction h4 with
      | nil => rfl
      | @cons a b l l' h _ ih =>
        rw [List.map_cons, ← ih, ← hm' _ _ h.2, h.1]
  · unfold scaleFrame
    dsimp only
    induction f.rows with
    | nil => exact .nil
    | cons x l ih => exact .cons ⟨rfl, hm _⟩ ih
  · intro s t _ _
    have hsub : (subset (scaleFrame c f).rows s t).map (·.2) = ((subset f.rows s t).map (·.2)).map (List.map (XF.mul (.fin c))) := by
      unfold subset scaleFrame
      dsimp only
      rw [List.filter_map, List.map_map, List.map_map]
      rfl
    rw [hsub]
    generalize (subset f.rows s t).map (·.2) = S
    unfold aggregateR
    rcases H key with ⟨h1, h2⟩ | ⟨a, b, h1, h2, h3⟩
    · rw [h1, h2]
      exact Or.inl ⟨_, rfl, rfl⟩
    · rw [h1, h2]
      dsimp only
      rcases h3 with ⟨h3, h4⟩ | ⟨F, G, h3, h4, h5⟩
      · rw [h3, h4]
        exact Or.inl ⟨_, rfl, rfl⟩
      · rw [h3, h4]
        refine Both.ok (forall₂_map _ fun j _ => ?_)
        rw [← h5, List.map_map, List.map_map]
        congr 1
        apply List.map_congr_left
        intro row _
        dsimp only [Function.comp]
        conv_lhs => rw [← XF.mul_nan_right (XF.fin c)]
        rw [List.getD_map]

private theorem on_mul {r : K → K} {sm : List K → K} {c : K} (hc : c ≠ 0) {how how' : List (String × String)} (H : Corr r sm c how how')
    (name : String) (X : Features K) : alignOnR r sm how' name (scaleFeatures c X) = (alignOnR r sm how name X).map (scaleFeatures c) := by
  have hmap : ∀ idx (l : List (String × Frame K)), mapE (alignEntryR r sm how' name idx) (l.map fun e => (e.1, scaleFrame c e.2)) =
      (mapE (alignEntryR r sm how name idx) l).map (List.map fun e => (e.1, scaleFrame c e.2)) := by
    intro idx l
    have : ∀ e : String × Frame K, alignEntryR r sm how' name idx (e.1, scaleFrame c e.2) =
        (alignEntryR r sm how name idx e).map fun e => (e.1, scaleFrame c e.2) := by
      intro e
      unfold alignEntryR
      dsimp only
      by_cases h : e.1 ≠ name
      · rw [if_pos h, if_pos h, frame_mul hc H]
        cases alignFrameR r sm how e.1 idx e.2 <;> rfl
      · rw [if_neg h, if_neg h]
        rfl
    rw [mapE_map]
    simp only [this]
    clear this
    induction l with
    | nil => rfl
    | cons e l ih =>
      simp only [mapE]
      rw [ih]
      cases alignEntryR r sm how name idx e with
      | error _ => rfl
      | ok _ => cases mapE (alignEntryR r sm how name idx) l <;> rfl
  unfold alignOnR
  by_cases h : name = ""
  · rw [if_pos h, if_pos h]; rfl
  · rw [if_neg h, if_neg h]
    have hlk : (scaleFeatures c X).primary.lookup name = (X.primary.lookup name).map (scaleFrame c) := by
      unfold scaleFeatures
      dsimp only
      induction X.primary with
      | nil => rfl
      | cons e l ih =>
        rw [List.map_cons, List.lookup_cons, List.lookup_cons]
        split
        · rfl
        · exact ih
    rw [hlk]
    cases X.primary.lookup name with
    | none => rfl
    | some lead =>
      have hi : (scaleFrame c lead).index = lead.index := by
        unfold scaleFrame Frame.index
        dsimp only
        rw [List.map_map]
        rfl
      dsimp only [Option.map_some]
      rw [hi]
      unfold scaleFeatures
      dsimp only
      rw [hmap, hmap]
      cases mapE (alignEntryR r sm how name lead.index) X.primary with
      | error e => rfl
      | ok P =>
        cases mapE (alignEntryR r sm how name lead.index) X.metal with
        | error e => rfl
        | ok M => rfl

/-- C145 (scale): with a rounding and a sum that commute with the multiplication by `c > 0` (a power of two), multiplying every feature by
`c` multiplies every aligned value by `c` exactly, whatever is missing or infinite; the errors are the same. -/
theorem C145_scale {r : K → K} {sm : List K → K} {c : K} (hc : 0 < c) (hr : ∀ x, r (c * x) = c * r x) (hs : ∀ l, sm (l.map (c * ·)) = c * sm l)
    (how : List (String × String)) (name : String) (X : Features K) :
    alignOnR r sm how name (scaleFeatures c X) = (alignOnR r sm how name X).map (scaleFeatures c) := by
  refine on_mul hc.ne' (fun key => ?_) name X
  cases h : how.lookup key with
  | none => exact Or.inl ⟨rfl, rfl⟩
  | some a =>
    refine Or.inr ⟨a, a, rfl, rfl, ?_⟩
    unfold alignMethodsR
    split_ifs
    · exact Or.inr ⟨_, _, rfl, rfl, mean_mul hc.ne' hr hs⟩
    · exact Or.inr ⟨_, _, rfl, rfl, fun l => by rw [min_mul hc.ne', if_pos hc]⟩
    · exact Or.inr ⟨_, _, rfl, rfl, fun l => by rw [max_mul hc.ne', if_pos hc]⟩
    · exact Or.inl ⟨rfl, rfl⟩

/-- C145 (sign): negating every feature and exchanging minimum and maximum negates every aligned value exactly. -/
theorem C145_mirror {r : K → K} {sm : List K → K} (hr : ∀ x, r (-x) = -r x) (hs : ∀ l, sm (l.map (-·)) = -sm l)
    (how : List (String × String)) (name : String) (X : Features K) :
    alignOnR r sm (swapHow how) name (scaleFeatures (-1) X) = (alignOnR r sm how name X).map (scaleFeatures (-1)) := by
  have hc : (-1 : K) ≠ 0 := by simp
  have hn : ¬ (0 : K) < -1 := by simp
  have hr' : ∀ x, r (-1 * x) = -1 * r x := fun x => by rw [neg_one_mul, neg_one_mul, hr]
  have hs' : ∀ l, sm (l.map (-1 * ·)) = -1 * sm l := fun l => by
    rw [neg_one_mul, ← hs]
    congr 2
    funext x
    exact neg_one_mul x
  refine on_mul hc (fun key => ?_) name X
  have hl : (swapHow how).lookup key = (how.lookup key).map fun s => if s = "min" then "max" else if s = "max" then "min" else s := by
    unfold swapHow
    induction how with
    | nil => rfl
    | cons e l ih =>
      rw [List.map_cons, List.lookup_cons, List.lookup_cons]
      split
      · rfl
      · exact ih
  rw [hl]
  cases h : how.lookup key with
  | none => exact Or.inl ⟨rfl, rfl⟩
  | some a =>
    refine Or.inr ⟨a, _, rfl, rfl, ?_⟩
    dsimp only
    by_cases h1 : a = "min"
    · subst h1
      refine Or.inr ⟨npMin, npMax, by simp [alignMethodsR], by simp [alignMethodsR], fun l => by rw [max_mul hc, if_neg hn]⟩
    · rw [if_neg h1]
      by_cases h2 : a = "max"
      · subst h2
        refine Or.inr ⟨npMax, npMin, by simp [alignMethodsR], by simp [alignMethodsR], fun l => by rw [min_mul hc, if_neg hn]⟩
      · rw [if_neg h2]
        unfold alignMethodsR
        rw [if_neg h1, if_neg h2]
        split_ifs
        · exact Or.inr ⟨_, _, rfl, rfl, mean_mul hc hr' hs'⟩
        · exact Or.inl ⟨rfl, rfl⟩

end

/-- C145 is refuted for the range in general: three rows with the same double 0.1 between two alignment times are aligned by their mean to
a number above 0.1, while the exact mean is 0.1; a feature that never moves moves after the alignment. -/
theorem C145_flat_refuted :
    ∃ y, alignFrameR (roundBits 53) (sumLeft (roundBits 53)) [("vol", "mean")] "vol" [10, 40]
        ⟨["v"], [(10, [.fin (roundBits 53 (1 / 10))]), (20, [.fin (roundBits 53 (1 / 10))]), (30, [.fin (roundBits 53 (1 / 10))]), (40, [.fin (roundBits 53 (1 / 10))])]⟩ =
      .ok ⟨["v"], [(10, [.fin (roundBits 53 (1 / 10))]), (40, [.fin y])]⟩ ∧ roundBits 53 (1 / 10) < y := by
  refine ⟨7205759403792795 / 72057594037927936, ?_, ?_⟩ <;> decide +kernel

section Examples

/-- An alignment frame and a feature with two rows for one alignment time, one missing value and one infinity. -/
private def sample : Features ℚ :=
  ⟨[("bar", ⟨["v"], [(10, [.fin 1]), (30, [.fin 2])]⟩),
    ("vol", ⟨["a", "b"], [(5, [.fin 7, .nan]), (20, [.fin (3602879701896397 / 36028797018963968), .fin 1]), (25, [.fin (3602879701896397 / 18014398509481984), .pinf])]⟩)],
   [("low", ⟨["a"], [(10, [.fin 3]), (20, [.fin 1]), (30, [.fin 2])]⟩)]⟩

private def sampleHow : List (String × String) := [("vol", "mean"), ("low", "min")]

/-- The second mean is off by one unit in the last place of the exact mean. -/
example : alignOnR (roundBits 53) (sumLeft (roundBits 53)) sampleHow "bar" sample =
      .ok ⟨[("bar", ⟨["v"], [(10, [.fin 1]), (30, [.fin 2])]⟩),
        ("vol", ⟨["a", "b"], [(10, [.fin 7, .nan]), (30, [.fin (1351079888211149 / 9007199254740992), .pinf])]⟩)],
       [("low", ⟨["a"], [(10, [.fin 3]), (30, [.fin 1])]⟩)]⟩ ∧
    alignOn sampleHow "bar" sample ≠ alignOnR (roundBits 53) (sumLeft (roundBits 53)) sampleHow "bar" sample := by
  decide +kernel

/-- The hypotheses of `C145_error` for doubles, sums from left to right and frames of at most five rows. -/
example : ∀ Y Z, alignOnR (roundBits 53) (sumLeft (roundBits 53)) sampleHow "bar" sample = .ok Y → alignOn sampleHow "bar" sample = .ok Z →
    CloseDicts (2 * ((4 : ℕ) + 1) / 2 ^ 53 * 7) Y.primary Z.primary ∧ CloseDicts (2 * ((4 : ℕ) + 1) / 2 ^ 53 * 7) Y.metal Z.metal :=
  (C145_error (n := 5) (by norm_num) (by norm_num) (by norm_num) (C138_left_to_right _ 4) sampleHow "bar" sample (by
    intro e he
    have h1 : ∀ e ∈ sample.primary ++ sample.metal, e.2.rows.length ≤ 5 := by decide +kernel
    have h2 : ∀ e ∈ sample.primary ++ sample.metal, ∀ row ∈ e.2.rows, ∀ x ∈ row.2, -7 ≤ x.toK ∧ x.toK ≤ 7 := by decide +kernel
    exact ⟨h1 e he, fun row hr x hx => abs_le.2 (h2 e he row hr _ hx)⟩)).2

/-- The hypothesis of `C145_min_max`. -/
example : alignFrameR (roundBits 53) (sumLeft (roundBits 53)) sampleHow "low" [10, 30] ⟨["a"], [(10, [.fin 3]), (20, [.fin 1]), (30, [.fin 2])]⟩ =
    alignFrame sampleHow "low" [10, 30] ⟨["a"], [(10, [.fin 3]), (20, [.fin 1]), (30, [.fin 2])]⟩ :=
  C145_min_max _ _ _ _ (by decide) _ _

/-- The hypotheses of `C145_range`: two rows with the double 0.1 are aligned to the double 0.1. -/
example : ∀ g, alignFrameR (roundBits 53) (sumLeft (roundBits 53)) [("vol", "mean")] "vol" [10, 30]
      ⟨["v"], [(10, [.nan]), (20, [.fin (roundBits 53 (1 / 10))]), (30, [.fin (roundBits 53 (1 / 10))])]⟩ = .ok g →
    ∀ row ∈ g.rows, ∀ x ∈ row.2, Within (roundBits 53 (1 / 10)) (roundBits 53 (1 / 10)) x := by
  refine fun g h => C145_range (by norm_num) (fun a b => rfl) (isFloat_roundBits 53 (by norm_num) _) (isFloat_roundBits 53 (by norm_num) _) _ _ _ _ ?_ ?_ g h
  · intro row hr x hx
    simp only [List.mem_cons, List.not_mem_nil, or_false] at hr
    rcases hr with rfl | rfl | rfl <;> simp only [List.mem_cons, List.not_mem_nil, or_false] at hx <;> subst hx
    · exact Or.inl rfl
    · exact Or.inr ⟨_, rfl, le_rfl, le_rfl⟩
    · exact Or.inr ⟨_, rfl, le_rfl, le_rfl⟩
  · intro w hw
    simp only [List.zip_cons_cons, List.zip_nil_right, List.mem_cons, List.not_mem_nil, or_false] at hw
    rcases hw with rfl | rfl <;> simp

private theorem sumLeft_mul {r : ℚ → ℚ} {c : ℚ} (hr : ∀ x, r (c * x) = c * r x) (l : List ℚ) : sumLeft r (l.map (c * ·)) = c * sumLeft r l := by
  cases l with
  | nil => simp [sumLeft]
  | cons x l =>
    show (l.map fun x => c * x).foldl (fun a y => r (a + y)) (c * x) = c * l.foldl (fun a y => r (a + y)) x
    induction l generalizing x with
    | nil => rfl
    | cons y l ih =>
      rw [List.map_cons, List.foldl_cons, List.foldl_cons, ← mul_add, hr]
      exact ih _

/-- The hypotheses of `C145_scale` and `C145_mirror` for doubles and sums from left to right. -/
example : alignOnR (roundBits 53) (sumLeft (roundBits 53)) sampleHow "bar" (scaleFeatures (2 ^ (7 : ℤ)) sample) =
      (alignOnR (roundBits 53) (sumLeft (roundBits 53)) sampleHow "bar" sample).map (scaleFeatures (2 ^ (7 : ℤ))) ∧
    alignOnR (roundBits 53) (sumLeft (roundBits 53)) (swapHow sampleHow) "bar" (scaleFeatures (-1) sample) =
      (alignOnR (roundBits 53) (sumLeft (roundBits 53)) sampleHow "bar" sample).map (scaleFeatures (-1)) := by
  have h1 : ∀ x : ℚ, roundBits 53 (2 ^ (7 : ℤ) * x) = 2 ^ (7 : ℤ) * roundBits 53 x := fun x => by
    rw [mul_comm, roundBits_zpow, mul_comm]
  have h2 : ∀ x : ℚ, roundBits 53 (-1 * x) = -1 * roundBits 53 x := fun x => by rw [neg_one_mul, roundBits_neg, neg_one_mul]
  refine ⟨C145_scale (by positivity) h1 (sumLeft_mul h1) _ _ _, C145_mirror (roundBits_neg 53) (fun l => ?_) _ _ _⟩
  have := sumLeft_mul h2 l
  simpa only [neg_one_mul] using this

end Examples

end Mizar.Props
