import Verif.Model.BagSamples
import Verif.Props.BaggingWeights

/-!
Property theorems C94: the attribute `estimators_samples_`
(`/repo/mizarlabs/model/sequentially_bootstrapped_bagging_classifier.py` lines 423-424, 522-524).
-/

namespace Mizar.Props
open Mizar.Spec Mizar.Bag Mizar.Boot

/-- Contract of scikit-learn's draw with replacement: the requested number of rows, all in range. -/
def ValidDraw (draw : ℕ → ℕ → ℕ → ℕ → ℕ → List ℕ) : Prop :=
  ∀ seed nF maxF n m, 0 < n → (draw seed nF maxF n m).length = m ∧ ∀ x ∈ draw seed nF maxF n m, x < n

/-- A call that adds estimators leaves exactly the attributes of that call. -/
theorem fitAttrs_new {Est : Type} (b : Base Est) (stream : ℕ → ℕ) (c : Cfg) (d : Data) (s : Fitted Est) (a : Attrs)
    (hj : 1 ≤ c.nJobs) (hok : (fit b stream c d s).1 = .ok ())
    (hadd : (nFitted (startState c s) : ℤ) < c.nEstimators) :
    ∃ maxS maxF : ℤ, resolveMaxSamples c.maxSamples d.xIndex.length = .ok maxS ∧
      resolveMaxFeatures c.maxFeatures d.nFeatures = .ok maxF ∧
      fitAttrs stream c d s a = ⟨some ((List.range (c.nEstimators.toNat - nFitted (startState c s))).map fun i =>
        stream (nFitted (startState c s) + i)), d.xIndex.length, maxS.toNat, d.nFeatures, maxF.toNat⟩ := by
  rw [fit_eq b stream c d s hj] at hok
  cases hp : pre c d with
  | error e => rw [hp] at hok; cases hok
  | ok v =>
    unfold pre at hp
    split at hp
    · cases hp
    rename_i h1
    split at hp
    · cases hp
    rename_i h2
    split at hp
    · cases hp
    rename_i h3
    cases hS : resolveMaxSamples c.maxSamples d.xIndex.length with
    | error e => rw [hS] at hp; cases hp
    | ok maxS =>
      cases hF : resolveMaxFeatures c.maxFeatures d.nFeatures with
      | error e => rw [hS, hF] at hp; cases hp
      | ok maxF =>
        rw [hS, hF] at hp
        simp only at hp
        split at hp
        · cases hp
        rename_i h4
        refine ⟨maxS, maxF, rfl, rfl, ?_⟩
        have hlen : (if (!c.warmStart || s.estimators.isNone) = true then 0 else (s.estimators.getD []).length) =
            nFitted (startState c s) := by
          unfold startState nFitted
          split <;> rfl
        have hskip : (if (c.warmStart && decide (0 < nFitted (startState c s))) = true then nFitted (startState c s)
            else 0) = nFitted (startState c s) := by
          by_cases hw : c.warmStart = true
          · simp only [hw, Bool.true_and, decide_eq_true_eq]
            split <;> omega
          · have hw' : c.warmStart = false := by simpa using hw
            have := startState_cold_len c s hw'
            unfold nFitted
            rw [this]; simp
        unfold fitAttrs
        rw [if_neg h1, if_neg h2]
        dsimp only
        rw [if_neg h3, hS, hF]
        dsimp only
        rw [if_neg h4, hlen, if_neg (by omega), hskip]
        have : (c.nEstimators - (nFitted (startState c s) : ℤ)).toNat =
            c.nEstimators.toNat - nFitted (startState c s) := by omega
        rw [this]

/-- C94 (partial; the claim that these are the rows the estimators were trained on is refuted below): after a cold fit
`estimators_samples_` has one entry per estimator, each with `max_samples` rows of `X`. -/
theorem C94_cold_shape_partial {Est : Type} (draw : ℕ → ℕ → ℕ → ℕ → ℕ → List ℕ) (hdraw : ValidDraw draw) (b : Base Est)
    (stream : ℕ → ℕ) (c : Cfg) (d : Data) (s : Fitted Est) (a : Attrs) (hj : 1 ≤ c.nJobs) (hc : c.warmStart = false)
    (hok : (fit b stream c d s).1 = .ok ()) :
    ∃ L maxS, estimatorsSamples draw (fitAttrs stream c d s a) = .ok L ∧ L.length = nFitted (fit b stream c d s).2 ∧
      resolveMaxSamples c.maxSamples d.xIndex.length = .ok maxS ∧
      ∀ l ∈ L, (l.length : ℤ) = maxS ∧ ∀ x ∈ l, x < d.xIndex.length := by
  have h0 : nFitted (startState c s) = 0 := startState_cold_len c s hc
  have hpos : 0 < c.nEstimators := by
    rw [fit_eq b stream c d s hj] at hok
    by_contra hn
    unfold pre at hok
    split at hok
    · cases hok
    rename_i h
    split at h
    · cases h
    split at h
    · cases h
    rw [if_pos (by omega)] at h
    cases h
  obtain ⟨maxS, maxF, hS, hF, ha⟩ := fitAttrs_new b stream c d s a hj hok (by rw [h0]; exact_mod_cast hpos)
  have hm : 0 < maxS ∧ maxS ≤ d.xIndex.length := by
    have h := hS
    unfold resolveMaxSamples at h
    simp only at h
    split at h
    · split at h
      · cases h; assumption
      · cases h
    · split at h
      · cases h
      · cases h
      · cases h
      · split at h
        · cases h; assumption
        · cases h
  have hn := (C21_attributes_aligned ([] : List (Call Est)) (by simp)).2.2 ⟨b, stream, c, d⟩ hj
  rw [← C20_cold_fit_forgets b stream c d hj hc s (runHistory (unfitted Est) []) hok] at hn
  have hn := hn hok
  simp only at hn
  rw [ha, h0]
  refine ⟨_, maxS, rfl, ?_, hS, ?_⟩
  · simp; omega
  · intro l hl
    simp only [List.mem_map, List.mem_range] at hl
    obtain ⟨_, ⟨i, -, rfl⟩, rfl⟩ := hl
    obtain ⟨e1, e2⟩ := hdraw (stream (0 + i)) d.nFeatures maxF.toNat d.xIndex.length maxS.toNat (by omega)
    exact ⟨by rw [e1]; omega, e2⟩

/-- Rows 0, 1, 2, … of `n`, as often as asked for. -/
def demoDraw : ℕ → ℕ → ℕ → ℕ → ℕ → List ℕ := fun seed _ _ n m => (List.range m).map fun i => (seed + i) % n

theorem demoDraw_valid : ValidDraw demoDraw := by
  intro seed _ _ n m hn
  refine ⟨by simp [demoDraw], fun x hx => ?_⟩
  simp only [demoDraw, List.mem_map] at hx
  obtain ⟨i, -, rfl⟩ := hx
  exact Nat.mod_lt _ hn

/-- The cold fit of the demo: five entries, which are not the rows trained on. -/
example : (fit demoBase (fun i => i * i) demoCfg demoData (unfitted _)).1 = .ok () ∧
    estimatorsSamples demoDraw (fitAttrs (fun i => i * i) demoCfg demoData (unfitted Unit) noAttrs) =
      .ok [[0, 1, 2], [1, 2, 0], [1, 2, 0], [0, 1, 2], [1, 2, 0]] := by decide +kernel

/-- C94: what `estimators_samples_` returns after a fit that adds estimators does not depend on the label intervals, the
price bars, the weights, the base estimator or the rows drawn by the sequential bootstrap: only on the shape of `X`, the parameters and the
random state. -/
theorem C94_ignores_overlaps {Est Est' : Type} (draw : ℕ → ℕ → ℕ → ℕ → ℕ → List ℕ) (b : Base Est) (b' : Base Est')
    (stream : ℕ → ℕ) (c : Cfg) (d d' : Data) (s : Fitted Est) (s' : Fitted Est') (a a' : Attrs) (hj : 1 ≤ c.nJobs)
    (hc : c.warmStart = false) (hrows : d.xIndex.length = d'.xIndex.length) (hcols : d.nFeatures = d'.nFeatures)
    (hok : (fit b stream c d s).1 = .ok ()) (hok' : (fit b' stream c d' s').1 = .ok ()) (hn : 0 < c.nEstimators) :
    estimatorsSamples draw (fitAttrs stream c d s a) = estimatorsSamples draw (fitAttrs stream c d' s' a') := by
  have h0 : nFitted (startState c s) = 0 := startState_cold_len c s hc
  have h0' : nFitted (startState c s') = 0 := startState_cold_len c s' hc
  obtain ⟨maxS, maxF, hS, hF, ha⟩ := fitAttrs_new b stream c d s a hj hok (by rw [h0]; exact_mod_cast hn)
  obtain ⟨maxS', maxF', hS', hF', ha'⟩ := fitAttrs_new b' stream c d' s' a' hj hok' (by rw [h0']; exact_mod_cast hn)
  rw [← hrows, hS] at hS'
  rw [← hcols, hF] at hF'
  cases hS'
  cases hF'
  rw [ha, ha', h0, h0', hrows, hcols]

/-- Two rows, two events that do not overlap. -/
def twoData : Data where
  mat := .ofLists 2 [[true, false], [false, true]]
  infoIndex := [10, 20]
  xIndex := [10, 20]
  nFeatures := 1
  weights := none

/-- Estimators that record what they were trained with, and a generator that always draws row `v`. -/
def constBase (v : ℕ) : Base (ℕ × Train) where
  supportsWeight := true
  featDraw := fun _ _ _ => [0]
  rng := fun _ _ _ m => List.replicate m v
  fitEst := fun seed t => (seed, t)

def oneCfg : Cfg := ⟨1, .int 1, .int 1, false, false, 1, 1⟩

/-- Not even the documented meaning: the hypotheses of `C94_ignores_overlaps` hold for two generators that make the
estimators train on different rows. -/
example : (fit (constBase 0) id oneCfg twoData (unfitted _)).1 = .ok () ∧
    (fit (constBase 1) id oneCfg twoData (unfitted _)).1 = .ok () ∧
    (fit (constBase 0) id oneCfg twoData (unfitted _)).2.estimators = some [(0, .weighted [0] [1, 0])] ∧
    (fit (constBase 1) id oneCfg twoData (unfitted _)).2.estimators = some [(0, .weighted [0] [0, 1])] := by
  decide +kernel

/-- C94 refuted: however scikit-learn draws, there is a cold fit that returns after which `estimators_samples_` holds other rows
than the estimators were trained on (the recorded `sequentially_bootstrapped_samples_`, see `C94_record`). -/
theorem C94_in_bag_rows_refuted (draw : ℕ → ℕ → ℕ → ℕ → ℕ → List ℕ) (hdraw : ValidDraw draw) :
    ∃ (b : Base (ℕ × Train)) (stream : ℕ → ℕ) (c : Cfg) (d : Data), (∀ seed, ValidRng d.xIndex.length (b.rng seed)) ∧
      (fit b stream c d (unfitted _)).1 = .ok () ∧
      estimatorsSamples draw (fitAttrs stream c d (unfitted (ℕ × Train)) noAttrs) ≠
        .ok (fit b stream c d (unfitted _)).2.samples := by
  obtain ⟨h1, h2⟩ := hdraw 0 1 1 2 1 (by norm_num)
  have key : ∀ v < 2, (∀ seed, ValidRng twoData.xIndex.length ((constBase v).rng seed)) ∧
      (fit (constBase v) id oneCfg twoData (unfitted _)).1 = .ok () ∧
      (fit (constBase v) id oneCfg twoData (unfitted _)).2.samples = [[v]] := by
    intro v hv
    refine ⟨fun seed i p m => ⟨by simp [constBase], fun x hx => ?_⟩, ?_⟩
    · simp only [constBase, List.mem_replicate] at hx
      rw [hx.2]; exact hv
    · have : v = 0 ∨ v = 1 := by omega
      rcases this with rfl | rfl <;> decide +kernel
  have hattr : fitAttrs id oneCfg twoData (unfitted (ℕ × Train)) noAttrs = ⟨some [0], 2, 1, 1, 1⟩ := by decide +kernel
  by_cases hx : draw 0 1 1 2 1 = [0]
  · obtain ⟨k1, k2, k3⟩ := key 1 (by norm_num)
    refine ⟨constBase 1, id, oneCfg, twoData, k1, k2, ?_⟩
    rw [hattr, k3]
    simp [estimatorsSamples, hx]
  · obtain ⟨k1, k2, k3⟩ := key 0 (by norm_num)
    refine ⟨constBase 0, id, oneCfg, twoData, k1, k2, ?_⟩
    rw [hattr, k3]
    simpa [estimatorsSamples] using hx

/-- C94 refuted: a warm fit that adds estimators to an object that has some already returns with fewer entries in
`estimators_samples_` than estimators: only the new ones are listed. -/
theorem C94_warm_start_refuted {Est : Type} (draw : ℕ → ℕ → ℕ → ℕ → ℕ → List ℕ) (b : Base Est) (stream : ℕ → ℕ) (c : Cfg)
    (d : Data) (s : Fitted Est) (a : Attrs) (hj : 1 ≤ c.nJobs) (hw : c.warmStart = true) (h0 : 0 < nFitted s)
    (hadd : (nFitted s : ℤ) < c.nEstimators) (hok : (fit b stream c d s).1 = .ok ()) :
    ∃ L, estimatorsSamples draw (fitAttrs stream c d s a) = .ok L ∧
      L.length + nFitted s = nFitted (fit b stream c d s).2 ∧ L.length < nFitted (fit b stream c d s).2 := by
  have hst : startState c s = s := by
    unfold startState
    rw [if_neg]
    unfold nFitted at h0
    cases hs : s.estimators with
    | none => rw [hs] at h0; simp at h0
    | some l => simp [hw]
  obtain ⟨maxS, maxF, hS, hF, ha⟩ := fitAttrs_new b stream c d s a hj hok (by rw [hst]; exact hadd)
  have hn : (nFitted (fit b stream c d s).2 : ℤ) = c.nEstimators := by
    rw [fit_eq b stream c d s hj] at hok ⊢
    cases hp : pre c d with
    | error e => rw [hp] at hok; cases hok
    | ok v =>
      rw [hp] at hok
      simp only at hok ⊢
      rw [hst] at hok ⊢
      unfold core at hok ⊢
      simp only at hok ⊢
      have e : (s.estimators.getD []).length = nFitted s := rfl
      rw [e] at hok ⊢
      rw [if_neg (by omega), if_neg (by omega)] at hok ⊢
      cases hR : buildAll b d c.updateEvery v
          ((List.range (c.nEstimators.toNat - nFitted s)).map fun i => stream (nFitted s + i)) with
      | error e => rw [hR] at hok; cases hok
      | ok r =>
        have hl : r.length = c.nEstimators.toNat - nFitted s := by
          unfold buildAll at hR
          split at hR
          · cases hR
          · simpa using mapE_length hR
        simp only [nFitted, List.length_append, List.length_map, Option.getD_some]
        unfold nFitted at hl hadd
        omega
  rw [ha, hst]
  refine ⟨_, rfl, ?_, ?_⟩
  · simp; omega
  · simp; omega

/-- Two estimators, then five with warm start: `estimators_samples_` lists three. -/
example : (fit demoBase id { demoCfg with warmStart := true } demoData
      (fit demoBase id { demoCfg with nEstimators := 2 } demoData (unfitted _)).2).1 = .ok () ∧
    nFitted (fit demoBase id { demoCfg with nEstimators := 2 } demoData (unfitted _)).2 = 2 ∧
    (fitAttrs id { demoCfg with warmStart := true } demoData
      (fit demoBase id { demoCfg with nEstimators := 2 } demoData (unfitted _)).2 noAttrs).seeds = some [2, 3, 4] := by
  decide +kernel

/-- What a base estimator is trained with when the rows `idx` are in its sample (numpy counts of the rows times the user's
weights, or the rows themselves). -/
def trainedWith (supports : Bool) (d : Data) (feats idx : List ℕ) : Train :=
  if supports then .weighted feats ((List.range d.xIndex.length).map fun r =>
    (match d.weights with | some w => w.getD r 0 | none => 1) * (idx.count r : ℚ))
  else .rows feats idx

/-- Every estimator of the state was trained in one of the calls with what is recorded for it. -/
def Recorded {Est : Type} (ks : List (Call Est)) (s : Fitted Est) : Prop :=
  List.Forall₂ (fun (e : Est) (r : List ℕ × List ℕ) => ∃ k ∈ ks, ∃ seed,
    e = k.base.fitEst seed (trainedWith k.base.supportsWeight k.data r.1 r.2)) (s.estimators.getD []) (s.features.zip s.samples) ∧
  s.features.length = nFitted s ∧ s.samples.length = nFitted s

theorem buildOne_trained {Est : Type} {b : Base Est} {d : Data} {sub : IndMat} {maxF maxS : ℕ} {upd : ℤ} {seed : ℕ}
    {r : Est × List ℕ × List ℕ} (hw : ∀ w, d.weights = some w → w.length = d.xIndex.length)
    (h : buildOne b d sub maxF maxS upd seed = .ok r) :
    r.1 = b.fitEst seed (trainedWith b.supportsWeight d r.2.1 r.2.2) := by
  unfold buildOne at h
  simp only at h
  split at h
  · cases h
  rename_i idx _
  split at h
  · rename_i hs
    split at h
    · rename_i hl
      cases h
      simp only [trainedWith, hs, if_true]
      congr 2
      have hcl : (d.weights.getD (List.replicate d.xIndex.length 1)).length = d.xIndex.length := by
        cases hd : d.weights with
        | none => simp
        | some w => simpa using hw w hd
      have hb : bincount idx d.xIndex.length = (List.range d.xIndex.length).map fun i => idx.count i := by
        have h1 : (bincount idx d.xIndex.length).length = d.xIndex.length := by rw [← hl, hcl]
        unfold bincount at h1 ⊢
        rw [List.length_map, List.length_range] at h1
        rw [h1]
      rw [hb]
      have hcur : d.weights.getD (List.replicate d.xIndex.length 1) = (List.range d.xIndex.length).map fun r =>
          match d.weights with | some w => w.getD r 0 | none => (1 : ℚ) := by
        revert hw
        cases d.weights with
        | none => intro _; simp [List.map_const']
        | some w =>
          intro hw
          apply List.ext_getElem
          · simp [hw w rfl]
          · intro i h1 h2
            have : i < w.length := h1
            simp [this]
      rw [hcur]
      apply List.ext_getElem <;> simp
    · cases h
  · rename_i hs
    cases h
    simp [trainedWith, hs]

theorem recorded_step {Est : Type} (ks : List (Call Est)) (k : Call Est) (s : Fitted Est) (hj : 1 ≤ k.cfg.nJobs)
    (hk : k ∈ ks) (h : Recorded ks s) : Recorded ks (fit k.base k.stream k.cfg k.data s).2 := by
  rw [fit_eq _ _ _ _ _ hj]
  cases hp : pre k.cfg k.data with
  | error e => exact h
  | ok v =>
    simp only
    have hw : ∀ w, k.data.weights = some w → w.length = k.data.xIndex.length := by
      intro w hd
      unfold pre at hp
      split at hp
      · cases hp
      split at hp
      · cases hp
      rename_i h2
      rw [hd] at h2
      simpa using h2
    have hs : Recorded ks (startState k.cfg s) := by
      unfold startState
      split
      · exact ⟨by simp, rfl, rfl⟩
      · exact h
    generalize startState k.cfg s = s' at hs ⊢
    unfold core
    simp only
    split
    · exact hs
    split
    · exact hs
    split
    · exact hs
    rename_i r hr
    obtain ⟨g1, g2, g3⟩ := hs
    refine ⟨?_, ?_, ?_⟩
    · simp only [Option.getD_some]
      rw [List.zip_append (by rw [g2, g3])]
      refine List.rel_append g1 ?_
      rw [List.zip_map']
      rw [List.forall₂_map_left_iff, List.forall₂_map_right_iff, List.forall₂_same]
      intro x hx
      unfold buildAll at hr
      split at hr
      · cases hr
      obtain ⟨i, hi, rfl⟩ := List.getElem_of_mem hx
      have hl := mapE_length hr
      obtain ⟨_, hb⟩ := mapE_getElem hr i (by omega)
      exact ⟨k, hk, _, buildOne_trained hw hb⟩
    · simp only [nFitted, List.length_append, List.length_map, Option.getD_some] at g2 ⊢
      omega
    · simp only [nFitted, List.length_append, List.length_map, Option.getD_some] at g3 ⊢
      omega

/-- C94: after any history of calls every estimator was trained, in one of the calls, with exactly the features and the rows
recorded for it in `estimators_features_` and `sequentially_bootstrapped_samples_`. -/
theorem C94_record {Est : Type} (hist : List (Call Est)) (hj : ∀ k ∈ hist, 1 ≤ k.cfg.nJobs) :
    ∀ i < nFitted (runHistory (unfitted Est) hist), ∃ k ∈ hist, ∃ seed e feats idx,
      ((runHistory (unfitted Est) hist).estimators.getD [])[i]? = some e ∧
      (runHistory (unfitted Est) hist).features[i]? = some feats ∧
      (runHistory (unfitted Est) hist).samples[i]? = some idx ∧
      e = k.base.fitEst seed (trainedWith k.base.supportsWeight k.data feats idx) := by
  have main : ∀ (l : List (Call Est)) (s : Fitted Est), (∀ k ∈ l, k ∈ hist) → Recorded hist s →
      Recorded hist (runHistory s l) := by
    intro l
    induction l with
    | nil => intro s _ hs; exact hs
    | cons k l ih =>
      intro s hl hs
      exact ih _ (fun k' hk' => hl k' (List.mem_cons_of_mem _ hk'))
        (recorded_step hist k s (hj k (hl k List.mem_cons_self)) (hl k List.mem_cons_self) hs)
  obtain ⟨h1, h2, h3⟩ := main hist (unfitted Est) (fun _ h => h) ⟨by simp [unfitted], rfl, rfl⟩
  generalize runHistory (unfitted Est) hist = s at h1 h2 h3
  intro i hi
  have hi1 : i < (s.estimators.getD []).length := hi
  have hf : i < s.features.length := by omega
  have hs : i < s.samples.length := by omega
  have hz : i < (s.features.zip s.samples).length := by rw [List.length_zip]; omega
  obtain ⟨k, hk, seed, he⟩ := h1.get (by exact hi1) hz
  refine ⟨k, hk, seed, _, _, _, List.getElem?_eq_getElem hi1, List.getElem?_eq_getElem hf, List.getElem?_eq_getElem hs, ?_⟩
  simpa using he

/-- A history with a cold fit, a warm fit that raises and a warm fit on other data. -/
example : (runHistory (unfitted _) [⟨demoBase, id, { demoCfg with nEstimators := 1 }, demoData⟩,
    ⟨demoBase, id, { demoCfg with warmStart := true, nEstimators := 0 }, demoData⟩,
    ⟨demoBase, id, { demoCfg with warmStart := true, nEstimators := 2 }, { demoData with xIndex := [30, 10, 20], weights := some [2, 3, 4] }⟩]).estimators =
    some [(0, .weighted [0] [1, 1, 1]), (1, .weighted [1] [2, 3, 4])] := by decide +kernel

/-- The attributes after a history of calls on an object with fitted state `s` and attributes `a`. -/
def runAttrs {Est : Type} (s : Fitted Est) (a : Attrs) : List (Call Est) → Attrs
  | [] => a
  | k :: ks => runAttrs (fit k.base k.stream k.cfg k.data s).2 (fitAttrs k.stream k.cfg k.data s a) ks

theorem fitAttrs_seeds {Est : Type} (b : Base Est) (stream : ℕ → ℕ) (c : Cfg) (d : Data) (s : Fitted Est) (a : Attrs)
    (hj : 1 ≤ c.nJobs) (h : a.seeds = none ↔ s.estimators = none) :
    (fitAttrs stream c d s a).seeds = none ↔ (fit b stream c d s).2.estimators = none := by
  rw [fit_eq b stream c d s hj]
  unfold pre fitAttrs
  by_cases h1 : ¬ (∀ x ∈ d.xIndex, x ∈ d.infoIndex)
  · rw [if_pos h1, if_pos h1]; exact h
  rw [if_neg h1, if_neg h1]
  by_cases h2 : d.weights.any (fun w => decide (w.length ≠ d.xIndex.length)) = true
  · rw [if_pos h2, if_pos h2]; exact h
  rw [if_neg h2, if_neg h2]
  dsimp only
  by_cases h3 : c.nEstimators ≤ 0
  · rw [if_pos h3, if_pos h3]; exact h
  rw [if_neg h3, if_neg h3]
  cases resolveMaxSamples c.maxSamples d.xIndex.length with
  | error e => exact h
  | ok maxS =>
  cases resolveMaxFeatures c.maxFeatures d.nFeatures with
  | error e => exact h
  | ok maxF =>
  dsimp only
  by_cases h4 : (c.warmStart && c.oobScore) = true
  · rw [if_pos h4, if_pos h4]; exact h
  rw [if_neg h4, if_neg h4]
  have hsome : ∃ l, (startState c s).estimators = some l := by
    unfold startState
    split
    · exact ⟨[], rfl⟩
    · rename_i hn
      cases he : s.estimators with
      | none => simp [he] at hn
      | some l => exact ⟨l, rfl⟩
  obtain ⟨l, hl⟩ := hsome
  have hr : (core b stream c d (maxS, maxF) (startState c s)).2.estimators ≠ none := by
    unfold core
    dsimp only
    split
    · rw [hl]; simp
    split
    · rw [hl]; simp
    split
    · rw [hl]; simp
    · simp
  refine iff_of_false ?_ hr
  by_cases hc : (!c.warmStart || s.estimators.isNone) = true
  · rw [if_pos hc, if_neg (by omega)]
    simp
  · rw [if_neg hc]
    split
    · change ¬ a.seeds = none
      rw [h]
      intro h0
      simp [h0] at hc
    · simp

/-- `estimators_samples_` raises `AttributeError` exactly as long as no call has got as far as setting `estimators_`; in
particular for a new object, and after a first fit refused because of its parameters or data. -/
theorem C94_unfitted {Est : Type} (draw : ℕ → ℕ → ℕ → ℕ → ℕ → List ℕ) (hist : List (Call Est)) (hj : ∀ k ∈ hist, 1 ≤ k.cfg.nJobs) :
    estimatorsSamples draw (runAttrs (unfitted Est) noAttrs hist) = .error .attributeError ↔
      (runHistory (unfitted Est) hist).estimators = none := by
  have main : ∀ (l : List (Call Est)) (s : Fitted Est) (a : Attrs), (∀ k ∈ l, 1 ≤ k.cfg.nJobs) →
      (a.seeds = none ↔ s.estimators = none) →
      ((runAttrs s a l).seeds = none ↔ (runHistory s l).estimators = none) := by
    intro l
    induction l with
    | nil => intro s a _ h; exact h
    | cons k l ih =>
      intro s a hl h
      exact ih _ _ (fun k' hk' => hl k' (List.mem_cons_of_mem _ hk'))
        (fitAttrs_seeds k.base k.stream k.cfg k.data s a (hl k List.mem_cons_self) h)
  rw [← main hist (unfitted Est) noAttrs hj (by simp [noAttrs, unfitted])]
  unfold estimatorsSamples
  cases (runAttrs (unfitted Est) noAttrs hist).seeds <;> simp

/-- A refused call, then one that fits two estimators. -/
example : estimatorsSamples demoDraw (runAttrs (unfitted (ℕ × Train)) noAttrs
      [⟨demoBase, id, { demoCfg with nEstimators := 0 }, demoData⟩]) = .error .attributeError ∧
    estimatorsSamples demoDraw (runAttrs (unfitted (ℕ × Train)) noAttrs
      [⟨demoBase, id, { demoCfg with nEstimators := 0 }, demoData⟩, ⟨demoBase, id, { demoCfg with nEstimators := 2 }, demoData⟩]) ≠
      .error .attributeError := by decide +kernel

end Mizar.Props
