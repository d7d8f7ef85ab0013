import Verif.Props.BagSubset
import Verif.Spec.BagObject

/-!
Property theorems C90: the cached indicator matrix of the bagging classifier
(`/repo/mizarlabs/model/sequentially_bootstrapped_bagging_classifier.py` lines 245-268, 337-341, 460).
-/

namespace Mizar.Props
open Mizar.Spec Mizar.Bag Mizar.Boot

theorem getIndMatrix_ok {info : List (Option ℤ × Option ℤ)} {bars : List ℤ} {M : IndMat} {bi : List ℤ}
    (h : getIndMatrix info bars = .ok (M, bi)) : ∃ ev : List (ℤ × ℤ), info = ev.map (fun e => (some e.1, some e.2)) ∧ M.nCols = ev.length := by
  by_cases hm : ∃ e ∈ info, e.1 = none ∨ e.2 = none
  · rw [getIndMatrix_missing info bars hm] at h
    cases h
  · obtain ⟨ev, hev⟩ := exists_present info hm
    refine ⟨ev, hev, ?_⟩
    rw [hev] at h
    exact (C11_indicator_matrix ev bars M bi h).2.2.2.1

/-- One fit of an object whose cache, if any, is the matrix of its events. -/
theorem fitObj_plain {Est : Type} (M : IndMat) (bi : List ℤ) (o : Obj Est) (hM : getIndMatrix o.info o.bars = .ok (M, bi))
    (hc : ∀ N, o.cache = some N → N = M) (hm : o.mapIndex = o.info.filterMap (·.1)) (k : FitCall Est) :
    (fitObj k.base k.view k.stream k.cfg k.args o).1 = (plainFit M o.mapIndex k (seen o)).1 ∧
    seen (fitObj k.base k.view k.stream k.cfg k.args o).2 = (plainFit M o.mapIndex k (seen o)).2 ∧
    (fitObj k.base k.view k.stream k.cfg k.args o).2.info = o.info ∧
    (fitObj k.base k.view k.stream k.cfg k.args o).2.bars = o.bars ∧
    (fitObj k.base k.view k.stream k.cfg k.args o).2.mapIndex = o.mapIndex ∧
    ∀ N, (fitObj k.base k.view k.stream k.cfg k.args o).2.cache = some N → N = M := by
  have hind : indMat o = .ok M := by
    unfold indMat
    cases hcc : o.cache with
    | some N => rw [hc N hcc]
    | none => simp [hM, Except.map]
  obtain ⟨ev, hev, hcol⟩ := getIndMatrix_ok hM
  have hlen : o.mapIndex.length = M.nCols := by
    rw [hm, hev, hcol, List.filterMap_map]
    simp [Function.comp_def]
  unfold fitObj
  by_cases hx : ∀ x ∈ k.args.xIndex, x ∈ o.mapIndex
  · rw [if_neg (not_not.2 hx), hind]
    dsimp only
    have hany : (subsampleCols o.mapIndex k.args.xIndex).any (fun i => decide (M.nCols ≤ i)) = false := by
      rw [List.any_eq_false]
      intro i hi
      obtain ⟨x, _, hx⟩ := List.mem_flatMap.1 hi
      have := List.mem_range.1 (List.mem_filter.1 hx).1
      simp only [decide_eq_true_eq, not_le]
      omega
    rw [hany]
    simp only [Bool.false_eq_true, if_false]
    unfold plainFit seen
    dsimp only
    cases hr : (fit k.base k.stream k.cfg ⟨M, o.mapIndex, k.args.xIndex, k.args.nFeatures, k.args.weights⟩ o.fitted).1 with
    | error e =>
      dsimp only
      refine ⟨rfl, rfl, rfl, rfl, rfl, ?_⟩
      intro N hN
      injection hN with hN
      exact hN.symm
    | ok u =>
      dsimp only
      by_cases hoob : k.cfg.oobScore = true
      · have hw : k.cfg.warmStart = false := by
          by_contra hw
          have hw : k.cfg.warmStart = true := by simpa using hw
          unfold fit at hr
          rw [hw, hoob] at hr
          dsimp only at hr
          split at hr
          · cases hr
          split at hr
          · cases hr
          split at hr
          · cases hr
          split at hr
          · cases hr
          split at hr
          · cases hr
          · simp at hr
        rw [hw, hoob]
        simp only [Bool.false_and, Bool.false_eq_true, if_false, if_true]
        split
        · rename_i e he
          refine ⟨by simp only [he], by simp only [he], rfl, rfl, rfl, ?_⟩
          intro N hN
          injection hN with hN
          exact hN.symm
        · rename_i d hd
          exact ⟨by simp only [hd], by simp only [hd], rfl, rfl, rfl, by simp⟩
      · have hoob : k.cfg.oobScore = false := by simpa using hoob
        rw [hoob]
        simp only [Bool.false_eq_true, if_false]
        split
        · refine ⟨rfl, rfl, rfl, rfl, rfl, ?_⟩
          intro N hN
          injection hN with hN
          exact hN.symm
        · exact ⟨rfl, rfl, rfl, rfl, rfl, by simp⟩
  · rw [if_pos hx]
    unfold plainFit seen
    dsimp only
    have hf : fit k.base k.stream k.cfg ⟨M, o.mapIndex, k.args.xIndex, k.args.nFeatures, k.args.weights⟩ o.fitted =
        (.error .assertionError, o.fitted) := by
      unfold fit
      rw [if_pos hx]
    rw [hf]
    exact ⟨rfl, rfl, rfl, rfl, rfl, hc⟩

/-- C90: caching and dropping the matrix cannot be noticed: over every sequence of fits, failing ones included, outcomes,
fitted attributes and out-of-bag results are those of plain fits with the matrix of the events given to the constructor. -/
theorem C90_history_partial {Est : Type} (info : List (Option ℤ × Option ℤ)) (bars : List ℤ) (o : Obj Est)
    (h : construct Est info bars = .ok o) :
    ∃ M bi, getIndMatrix info bars = .ok (M, bi) ∧ ∀ hist : List (FitCall Est),
      (runObj o hist).1 = (runPlain M (info.filterMap (·.1)) ⟨⟨none, [], []⟩, none⟩ hist).1 ∧
      seen (runObj o hist).2 = (runPlain M (info.filterMap (·.1)) ⟨⟨none, [], []⟩, none⟩ hist).2 := by
  unfold construct at h
  cases hM : getIndMatrix info bars with
  | error e => rw [hM] at h; cases h
  | ok r =>
    obtain ⟨M, bi⟩ := r
    rw [hM] at h
    cases h
    refine ⟨M, bi, rfl, ?_⟩
    have key : ∀ (hist : List (FitCall Est)) (o : Obj Est), o.info = info → o.bars = bars → o.mapIndex = info.filterMap (·.1) →
        (∀ N, o.cache = some N → N = M) →
        (runObj o hist).1 = (runPlain M (info.filterMap (·.1)) (seen o) hist).1 ∧
        seen (runObj o hist).2 = (runPlain M (info.filterMap (·.1)) (seen o) hist).2 := by
      intro hist
      induction hist with
      | nil => intro o _ _ _ _; exact ⟨rfl, rfl⟩
      | cons k ks ih =>
        intro o h1 h2 h3 h4
        obtain ⟨a1, a2, a3, a4, a5, a6⟩ := fitObj_plain M bi o (by rw [h1, h2]; exact hM) h4 (by rw [h3, h1]) k
        obtain ⟨b1, b2⟩ := ih (fitObj k.base k.view k.stream k.cfg k.args o).2 (a3.trans h1) (a4.trans h2) (a5.trans h3) a6
        rw [h3] at a1 a2
        unfold runObj runPlain
        dsimp only
        rw [a1, b1, b2, a2]
        exact ⟨rfl, rfl⟩
    intro hist
    exact key hist ⟨info, bars, some M, _, ⟨none, [], []⟩, none⟩ rfl rfl rfl fun N hN => by injection hN with hN; exact hN.symm

/-- C90 does not extend to `set_params`: while the matrix is cached, as it is after construction, new events are not
looked at by the next fit. -/
theorem C90_new_events_ignored_refuted {Est : Type} (o : Obj Est) (M : IndMat) (hc : o.cache = some M)
    (new : List (Option ℤ × Option ℤ)) (k : FitCall Est) :
    (fitObj k.base k.view k.stream k.cfg k.args (setInfo o new)).1 = (fitObj k.base k.view k.stream k.cfg k.args o).1 ∧
    seen (fitObj k.base k.view k.stream k.cfg k.args (setInfo o new)).2 = seen (fitObj k.base k.view k.stream k.cfg k.args o).2 := by
  unfold fitObj setInfo indMat seen
  dsimp only
  rw [hc]
  dsimp only
  split
  · exact ⟨rfl, rfl⟩
  split
  · exact ⟨rfl, rfl⟩
  split
  · exact ⟨rfl, rfl⟩
  split
  · exact ⟨rfl, rfl⟩
  split
  · split
    · exact ⟨rfl, rfl⟩
    · exact ⟨rfl, rfl⟩
  · exact ⟨rfl, rfl⟩

/-- C90, the other half: a successful fit that trains estimators, which is any without a warm start and any with a warm start that
changes their number, drops the matrix.  Events replaced after it are looked at: the next fit uses their matrix, and events with a
missing time are refused with `ValueError`. -/
theorem C90_new_events_after_fit {Est : Type} (o : Obj Est) (k k' : FitCall Est)
    (hok : (fitObj k.base k.view k.stream k.cfg k.args o).1 = .ok ())
    (hadd : k.cfg.warmStart = false ∨ ∀ es, o.fitted.estimators = some es → (es.length : ℤ) ≠ k.cfg.nEstimators)
    (new : List (Option ℤ × Option ℤ)) :
    let o' := (fitObj k.base k.view k.stream k.cfg k.args o).2
    ((∀ x ∈ k'.args.xIndex, x ∈ o.mapIndex) → (∃ e ∈ new, e.1 = none ∨ e.2 = none) →
      (fitObj k'.base k'.view k'.stream k'.cfg k'.args (setInfo o' new)).1 = .error .valueError) ∧
    ∀ M bi, getIndMatrix new o.bars = .ok (M, bi) →
      (fitObj k'.base k'.view k'.stream k'.cfg k'.args (setInfo o' new)).1 =
        (fitObj k'.base k'.view k'.stream k'.cfg k'.args { o' with cache := some M }).1 ∧
      seen (fitObj k'.base k'.view k'.stream k'.cfg k'.args (setInfo o' new)).2 =
        seen (fitObj k'.base k'.view k'.stream k'.cfg k'.args { o' with cache := some M }).2 := by
  have hkey : (fitObj k.base k.view k.stream k.cfg k.args o).2.cache = none ∧
      (fitObj k.base k.view k.stream k.cfg k.args o).2.bars = o.bars ∧
      (fitObj k.base k.view k.stream k.cfg k.args o).2.mapIndex = o.mapIndex := by
    have hearly : (k.cfg.warmStart && o.fitted.estimators.any fun es => decide ((es.length : ℤ) = k.cfg.nEstimators)) = false := by
      rcases hadd with h | h
      · rw [h, Bool.false_and]
      · cases he : o.fitted.estimators with
        | none => simp
        | some es => simp [h es he]
    unfold fitObj at hok ⊢
    by_cases hx : ∀ x ∈ k.args.xIndex, x ∈ o.mapIndex
    · rw [if_neg (not_not.2 hx)] at hok ⊢
      cases hM : indMat o with
      | error e => rw [hM] at hok; cases hok
      | ok M =>
        rw [hM] at hok
        dsimp only at hok ⊢
        split at hok
        · cases hok
        rename_i h1
        rw [if_neg h1]
        rw [hearly] at hok ⊢
        cases hr : (fit k.base k.stream k.cfg ⟨M, o.mapIndex, k.args.xIndex, k.args.nFeatures, k.args.weights⟩ o.fitted).1 with
        | error e => rw [hr] at hok; cases hok
        | ok u =>
          rw [hr] at hok
          simp only [Bool.false_eq_true, if_false] at hok ⊢
          split at hok
          · rename_i h2
            rw [if_pos h2]
            split at hok
            · cases hok
            · rename_i d hd
              exact ⟨rfl, rfl, rfl⟩
          · rename_i h2
            rw [if_neg h2]
            exact ⟨rfl, rfl, rfl⟩
    · rw [if_pos hx] at hok
      cases hok
  generalize fitObj k.base k.view k.stream k.cfg k.args o = r at *
  obtain ⟨out, o'⟩ := r
  dsimp only at hkey hok ⊢
  obtain ⟨h1, h2, h3⟩ := hkey
  refine ⟨fun hx hbad => ?_, fun M bi hM => ?_⟩
  · unfold fitObj setInfo indMat
    dsimp only
    rw [h3, if_neg (not_not.2 hx), h1]
    dsimp only
    rw [getIndMatrix_missing new _ hbad]
    rfl
  · unfold fitObj setInfo indMat seen
    dsimp only
    rw [h1, h2, hM]
    dsimp only [Except.map]
    split
    · exact ⟨rfl, rfl⟩
    split
    · exact ⟨rfl, rfl⟩
    split
    · exact ⟨rfl, rfl⟩
    split
    · exact ⟨rfl, rfl⟩
    split
    · split
      · exact ⟨rfl, rfl⟩
      · exact ⟨rfl, rfl⟩
    · exact ⟨rfl, rfl⟩

/-- A generator that looks at the probabilities: the first most likely sample. -/
def argmaxRng (_ : ℕ) (p : List (XF ℚ)) (m : ℕ) : List ℕ :=
  List.replicate m ((List.range p.length).findIdx fun i => p.all fun q => XF.le q (p.getD i .nan))

/-- Base estimators that remember their samples only. -/
def argmaxBase : Base Train where
  supportsWeight := false
  featDraw := fun _ _ m => List.range m
  rng := fun _ => argmaxRng
  fitEst := fun _ t => t

def argmaxCall : FitCall Train where
  base := argmaxBase
  view := fun _ _ => ⟨[0, 1], some fun _ => [1, 0], fun _ => 0, false⟩
  stream := fun i => i
  cfg := ⟨2, .int 2, .int 1, false, false, 1, 1⟩
  args := ⟨[10, 20, 30], 1, none, 2⟩

/-- A history with two fits: a classifier for three events, the first two overlap. -/
example : ∃ o, construct Train [(some 10, some 20), (some 20, some 25), (some 30, some 40)] [10, 20, 30, 40] = .ok o ∧
    (runObj o [argmaxCall, argmaxCall]).1 = [.ok (), .ok ()] ∧
    (runObj o [argmaxCall, argmaxCall]).2.fitted.samples = [[0, 2], [0, 2]] := by
  refine ⟨_, rfl, ?_⟩
  decide +kernel

/-- A first fit with a warm start meets the hypotheses of `C90_new_events_after_fit`. -/
example : ∃ o, construct Train [(some 10, some 20), (some 20, some 25), (some 30, some 40)] [10, 20, 30, 40] = .ok o ∧
    o.fitted.estimators = none ∧
    (fitObj argmaxCall.base argmaxCall.view argmaxCall.stream { argmaxCall.cfg with warmStart := true } argmaxCall.args o).1 = .ok () := by
  refine ⟨_, rfl, rfl, ?_⟩
  decide +kernel

/-- C90 does not extend to `set_params`: after the events were replaced, two identical fits in a row differ, the first uses
the matrix of the old events, the second that of the new ones. -/
theorem C90_repeated_fit_refuted : ∃ o : Obj Train,
    construct Train [(some 10, some 20), (some 20, some 25), (some 30, some 40)] [10, 20, 30, 40] = .ok o ∧
    (runObj (setInfo o [(some 10, some 15), (some 20, some 30), (some 30, some 40)]) [argmaxCall]).2.fitted.samples = [[0, 2], [0, 2]] ∧
    (runObj (setInfo o [(some 10, some 15), (some 20, some 30), (some 30, some 40)]) [argmaxCall, argmaxCall]).2.fitted.samples = [[0, 1], [0, 1]] := by
  refine ⟨_, rfl, ?_⟩
  decide +kernel

end Mizar.Props
