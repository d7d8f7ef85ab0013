import Mathlib.Algebra.Order.Ring.Rat
import Verif.Lemmas.TaFactory

/-!
Property theorems C64 and C65: the factory for `talib` transformers
(`/repo/mizarlabs/transformers/technical/factory.py`).
-/

set_option linter.unusedSectionVars false

namespace Mizar.Props
open Mizar.Spec Mizar.TA

/-- C64: for every docstring that starts with a signature in the documented format the parser returns exactly the
names of the arguments and of the keyword arguments (`None` without keyword arguments). -/
theorem C64_signature (name rest : String) (args kwargs : List String) (hn : ∀ c ∈ name.toList, c ≠ '(')
    (ha : args ≠ []) (hpa : ∀ a ∈ args, PlainName a) (hpk : ∀ k ∈ kwargs, PlainName k) (hr : StartsNewLine rest) :
    getArgsKwargs (signature name args kwargs ++ rest) = .ok (args, if kwargs = [] then none else some kwargs) := by
  have hca : ∀ x ∈ args.map String.toList, x ≠ [] ∧ ∀ c ∈ x, c ∉ ['(', ')', '[', ']', ',', '=', '?', '\n'] := by
    intro x hx
    obtain ⟨a, h1, rfl⟩ := List.mem_map.1 hx
    refine ⟨fun e => (hpa a h1).1 ?_, (hpa a h1).2⟩
    rw [← String.toList_inj, e]; rfl
  have hck : ∀ x ∈ kwargs.map String.toList, x ≠ [] ∧ ∀ c ∈ x, c ∉ ['(', ')', '[', ']', ',', '=', '?', '\n'] := by
    intro x hx
    obtain ⟨a, h1, rfl⟩ := List.mem_map.1 hx
    refine ⟨fun e => (hpk a h1).1 ?_, (hpk a h1).2⟩
    rw [← String.toList_inj, e]; rfl
  have hr' : rest.toList = [] ∨ ∃ t, rest.toList = '\n' :: t := by
    rcases hr with rfl | h
    · exact Or.inl rfl
    · exact Or.inr h
  set A := [',', ' '].intercalate (args.map String.toList) with hA
  have hAne : A ≠ [] := by
    obtain ⟨x, hx, p, hp⟩ := intercalate_first [',', ' '] (args.map String.toList) (by simpa using ha)
    rw [hA, hp]
    intro e
    exact (hca x hx).1 (List.append_eq_nil_iff.1 e).1
  have hAc : ∀ c ∈ A, c ≠ '\n' ∧ c ≠ '[' := by
    intro c hc
    rcases mem_intercalate _ _ _ hc with h | ⟨x, hx, h⟩
    · simp only [List.mem_cons, List.not_mem_nil, or_false] at h
      rcases h with rfl | rfl <;> decide
    · have := (hca x hx).2 c h
      simp only [List.mem_cons, List.not_mem_nil, or_false, not_or] at this
      tauto
  have hsplitA : (pySplit ", ".toList A).map String.ofList = args := by
    have e : ", ".toList = [',', ' '] := by decide
    rw [e, hA, pySplit_intercalate _ _ _ (by simpa using ha), map_ofList_toList]
    intro x hx hc
    exact (hca x hx).2 ',' hc (by simp)
  by_cases hk : kwargs = []
  · have hdoc : (signature name args kwargs ++ rest).toList = name.toList ++ '(' :: (A ++ ')' :: rest.toList) := by
      unfold signature
      rw [if_pos hk]
      simp [String.toList_append, String.toList_intercalate, hA]
    unfold getArgsKwargs
    rw [hdoc, searchParen_of _ _ _ hn hAne (fun c hc => (hAc c hc).1) hr', if_pos hk]
    have e : "[, ".toList = ['[', ',', ' '] := by decide
    have : pySplit "[, ".toList A = [A] := by
      rw [e]; unfold pySplit
      rw [splitGo_last _ _ _ _ (fun h => (hAc _ h).2 rfl)]; simp
    simp only [this, hsplitA]
  · set B := ['=', '?', ',', ' '].intercalate (kwargs.map String.toList) with hB
    have hkm : kwargs.map String.toList ≠ [] := by simpa using hk
    have hBc : ∀ c ∈ B ++ ['=', '?', ']'], c ≠ '\n' ∧ c ≠ '[' := by
      intro c hc
      rw [List.mem_append] at hc
      rcases hc with hc | hc
      · rcases mem_intercalate _ _ _ hc with h | ⟨x, hx, h⟩
        · simp only [List.mem_cons, List.not_mem_nil, or_false] at h
          rcases h with rfl | rfl | rfl | rfl <;> decide
        · have := (hck x hx).2 c h
          simp only [List.mem_cons, List.not_mem_nil, or_false, not_or] at this
          tauto
      · simp only [List.mem_cons, List.not_mem_nil, or_false] at hc
        rcases hc with rfl | rfl | rfl <;> decide
    have hkw : (", ".intercalate (kwargs.map fun k => k ++ "=?")).toList = B ++ ['=', '?'] := by
      have e : ", ".toList = [',', ' '] := by decide
      rw [String.toList_intercalate, e, hB, ← intercalate_kw _ hkm, List.map_map, List.map_map]
      congr 1
      apply List.map_congr_left
      intro k _
      simp [String.toList_append]
    have hdoc : (signature name args kwargs ++ rest).toList =
        name.toList ++ '(' :: ((A ++ (['[', ',', ' '] ++ (B ++ ['=', '?', ']']))) ++ ')' :: rest.toList) := by
      unfold signature
      rw [if_neg hk]
      simp only [String.toList_append, hkw, String.toList_intercalate]
      simp [hA]
    unfold getArgsKwargs
    rw [hdoc, searchParen_of _ _ _ hn (by simp [hAne]) _ hr', if_neg hk]
    · have e : "[, ".toList = ['[', ',', ' '] := by decide
      have : pySplit "[, ".toList (A ++ (['[', ',', ' '] ++ (B ++ ['=', '?', ']']))) = [A, B ++ ['=', '?', ']']] := by
        rw [e]; unfold pySplit
        rw [splitGo_piece _ _ _ _ _ (fun h => (hAc _ h).2 rfl), splitGo_last _ _ _ _ (fun h => (hBc _ h).2 rfl)]; simp
      simp only [this, hsplitA]
      congr 3
      unfold kwNames
      obtain ⟨x, hx, p, hp⟩ := intercalate_first ['=', '?', ',', ' '] _ hkm
      obtain ⟨y, hy, q, hq⟩ := intercalate_last ['=', '?', ',', ' '] _ hkm
      have strip : ∀ z ∈ kwargs.map String.toList, ∀ c ∈ z, c ∉ "=?]".toList := by
        intro z hz c hc hm
        apply (hck z hz).2 c hc
        have e : "=?]".toList = ['=', '?', ']'] := by decide
        rw [e] at hm
        simp only [List.mem_cons, List.not_mem_nil, or_false] at hm ⊢
        tauto
      rw [pyStrip_of "=?]".toList B ['=', '?', ']'] x y p q (hck x hx).1 (hck y hy).1 hp hq (strip x hx) (strip y hy) (by decide)]
      have e2 : "=?, ".toList = ['=', '?', ',', ' '] := by decide
      rw [e2, hB, pySplit_intercalate _ _ _ hkm, map_ofList_toList]
      intro z hz hc
      exact (hck z hz).2 '=' hc (by simp)
    · intro c hc
      rw [List.mem_append, List.mem_append] at hc
      rcases hc with hc | hc | hc
      · exact (hAc c hc).1
      · simp only [List.mem_cons, List.not_mem_nil, or_false] at hc
        rcases hc with rfl | rfl | rfl <;> decide
      · exact (hBc c hc).1

/-- C64 (error): a docstring without an opening parenthesis raises. -/
theorem C64_no_signature (doc : String) (h : '(' ∉ doc.toList) : getArgsKwargs doc = .error .attributeError := by
  unfold getArgsKwargs
  rw [searchParen_none _ h]

/-- The three cases of the mapping argument for the expected columns `args`: unchanged without a mapping, renamed
all at once by a dictionary of expected columns, an error otherwise. -/
def MappedBy (args : List String) (result : MapArg → Py (List String)) : Prop :=
  result .none = .ok args ∧ result .other = .error .typeError ∧
  ∀ d, ((∀ p ∈ d, p.1 ∈ args) → ∃ r, result (.dict d) = .ok r ∧ RenamedBy d args r) ∧
    ((∃ p ∈ d, p.1 ∉ args) → result (.dict d) = .error .valueError)

theorem setMapping_mapped (args : List String) : MappedBy args (setMapping args) := by
  refine ⟨rfl, rfl, fun d => ⟨fun h => ?_, fun h => ?_⟩⟩
  · refine ⟨_, by unfold setMapping; exact if_pos h, ?_⟩
    unfold RenamedBy
    rw [List.forall₂_map_right_iff, List.forall₂_same]
    intro a _
    exact renames_lookup d a
  · unfold setMapping
    obtain ⟨p, h1, h2⟩ := h
    exact if_neg fun h => h2 (h p h1)

/-- C65 (named inputs): for functions that expect named columns the mapping is a simultaneous renaming, whatever
`col_to_transform` is. -/
theorem C65_named_columns (args : List String) (h1 : "real" ∉ args) (h2 : "real0" ∉ args ∨ "real1" ∉ args) (col : ColArg) :
    MappedBy args (checkArgs args col) := by
  have e : ∀ m, checkArgs args col m = setMapping args m := by
    intro m
    unfold checkArgs setReal
    rw [if_neg h1, Py.bind_ok]
    unfold setReal2
    rw [if_neg (by tauto), Py.bind_ok]
  have := setMapping_mapped args
  rwa [show setMapping args = checkArgs args col from funext fun m => (e m).symm] at this

/-- C65 (one array): the column takes the place of `real`, then the mapping applies; without a column name the
function raises. -/
theorem C65_one_array (args : List String) (hd : args.Nodup) (h : "real" ∈ args) (h0 : "real0" ∉ args) (h1 : "real1" ∉ args) :
    (∀ s, ∃ a, RenamedBy [("real", s)] args a ∧ MappedBy a (checkArgs args (.str s))) ∧
    (∀ col m, (∀ s, col ≠ .str s) → checkArgs args col m = .error .valueError) := by
  constructor
  · intro s
    refine ⟨args.map fun a => if a = "real" then s else a, ?_, ?_⟩
    · unfold RenamedBy
      rw [List.forall₂_map_right_iff, List.forall₂_same]
      intro a _
      by_cases ha : a = "real"
      · rw [if_pos ha]; exact Or.inl (by simp [ha])
      · rw [if_neg ha]; exact Or.inr ⟨rfl, by simp [ha]⟩
    · set a := args.map fun a => if a = "real" then s else a with hadef
      have hno : ¬("real0" ∈ a ∧ "real1" ∈ a) := by
        rintro ⟨m0, m1⟩
        obtain ⟨x, hx, ex⟩ := List.mem_map.1 m0
        obtain ⟨y, hy, ey⟩ := List.mem_map.1 m1
        split at ex
        · split at ey
          · rw [ex] at ey; exact absurd ey (by decide)
          · rw [ey] at hy; exact h1 hy
        · rw [ex] at hx; exact h0 hx
      have e : ∀ m, checkArgs args (.str s) m = setMapping a m := by
        intro m
        unfold checkArgs setReal
        rw [if_pos h]
        dsimp only
        rw [Py.bind_ok, replaceFirst_map _ _ _ hd, ← hadef]
        unfold setReal2
        rw [if_neg hno, Py.bind_ok]
      have := setMapping_mapped a
      rwa [show setMapping a = checkArgs args (.str s) from funext fun m => (e m).symm] at this
  · intro col m hc
    unfold checkArgs setReal
    rw [if_pos h]
    cases col with
    | str s => exact absurd rfl (hc s)
    | none => rfl
    | list l => rfl
    | other => rfl

/-- C65 (two arrays): if the first column is not called `real1`, the two columns take the places of `real0` and
`real1`, then the mapping applies; without a list of two names the function raises.  Missing: the case of a first
column called `real1`, see `C65_two_arrays_refuted`. -/
theorem C65_two_arrays_partial (args : List String) (hd : args.Nodup) (h : "real" ∉ args) (h0 : "real0" ∈ args) (h1 : "real1" ∈ args) :
    (∀ c0 c1 l, c0 ≠ "real1" → (∀ x ∈ l, x ≠ none) →
      ∃ a, RenamedBy [("real0", c0), ("real1", c1)] args a ∧ MappedBy a (checkArgs args (.list (some c0 :: some c1 :: l)))) ∧
    (∀ col m, (∀ l, col = .list l → none ∈ l) → checkArgs args col m = .error .valueError) ∧
    (∀ l m, l.length < 2 → none ∉ l → checkArgs args (.list l) m = .error .indexError) := by
  have e0 : ∀ col m, checkArgs args col m = (setReal2 args col >>= fun a => setMapping a m) := by
    intro col m
    unfold checkArgs setReal
    rw [if_neg h, Py.bind_ok]
  refine ⟨?_, ?_, ?_⟩
  · intro c0 c1 l hc hl
    refine ⟨args.map fun a => if a = "real0" then c0 else if a = "real1" then c1 else a, ?_, ?_⟩
    · unfold RenamedBy
      rw [List.forall₂_map_right_iff, List.forall₂_same]
      intro a _
      by_cases ha : a = "real0"
      · rw [if_pos ha]; exact Or.inl (by simp [ha])
      · rw [if_neg ha]
        by_cases hb : a = "real1"
        · rw [if_pos hb]; exact Or.inl (by simp [hb])
        · rw [if_neg hb]; exact Or.inr ⟨rfl, by simp [ha, hb]⟩
    · have e : ∀ m, checkArgs args (.list (some c0 :: some c1 :: l)) m =
          setMapping (args.map fun a => if a = "real0" then c0 else if a = "real1" then c1 else a) m := by
        intro m
        rw [e0]
        unfold setReal2
        rw [if_pos ⟨h0, h1⟩]
        dsimp only
        rw [if_pos, Py.bind_ok, replaceFirst_two _ _ _ _ (by decide) hc _ hd]
        rw [List.all_eq_true]
        intro x hx
        rw [List.mem_cons, List.mem_cons] at hx
        rcases hx with rfl | rfl | hx
        · rfl
        · rfl
        · cases x with
          | none => exact absurd rfl (hl _ hx)
          | some _ => rfl
      have := setMapping_mapped (args.map fun a => if a = "real0" then c0 else if a = "real1" then c1 else a)
      rwa [show setMapping _ = checkArgs args _ from funext fun m => (e m).symm] at this
  · intro col m hl
    rw [e0]
    unfold setReal2
    rw [if_pos ⟨h0, h1⟩]
    cases col with
    | none => rfl
    | str s => rfl
    | other => rfl
    | list l =>
      dsimp only
      rw [if_neg]
      · rfl
      · rw [List.all_eq_true]
        intro hall
        have := hall none (hl l rfl)
        simp at this
  · intro l m hlen hn
    rw [e0]
    unfold setReal2
    rw [if_pos ⟨h0, h1⟩]
    dsimp only
    rw [if_pos]
    · match l, hlen, hn with
      | [], _, _ => rfl
      | [none], _, hn => simp at hn
      | [some _], _, _ => rfl
      | _ :: _ :: _, hlen, _ => simp at hlen
    · rw [List.all_eq_true]
      intro x hx
      cases x with
      | none => exact absurd hx hn
      | some _ => rfl

/-- C65 disagreement: with a first column called `real1` the second replacement hits the first position, so the two
columns end up as `[x, real1]` instead of `[real1, x]`. -/
theorem C65_two_arrays_refuted : ∃ (args : List String) (c0 c1 : String), args.Nodup ∧ "real" ∉ args ∧
    checkArgs args (.list [some c0, some c1]) .none = .ok [c1, c0] ∧ c0 ≠ c1 ∧
    ¬ RenamedBy [("real0", c0), ("real1", c1)] args [c1, c0] := by
  refine ⟨["real0", "real1"], "real1", "x", by decide, by decide, by decide, by decide, ?_⟩
  intro h
  unfold RenamedBy at h
  rw [List.forall₂_cons] at h
  have := h.1
  unfold Renames at this
  simp at this

/-- C65 (keyword arguments): they are handed over unchanged if the function has all of them, and `None` stands for no
keyword arguments; anything else raises. -/
theorem C65_keywords {V : Type} (d : List (String × V)) (names : List String) :
    checkKwargs (none : Option (List (String × V))) (some names) = .ok [] ∧ checkKwargs (none : Option (List (String × V))) none = .ok [] ∧
    checkKwargs (some d) none = .error .valueError ∧
    ((∀ p ∈ d, p.1 ∈ names) → checkKwargs (some d) (some names) = .ok d) ∧
    ((∃ p ∈ d, p.1 ∉ names) → checkKwargs (some d) (some names) = .error .valueError) := by
  refine ⟨rfl, rfl, rfl, fun h => if_pos h, ?_⟩
  rintro ⟨p, h1, h2⟩
  exact if_neg fun h => h2 (h p h1)

section
variable {K V : Type} [Field K] [LinearOrder K]

private theorem transformed_columns (g : TaFunc K V) (args : List String) (kw : List (String × V)) (f : Frame K) (h : ∀ a ∈ args, a ∈ f.cols) :
    transformed g args kw (some f) = (g.run (args.map f.values) kw).map Output.columns := by
  unfold transformed
  dsimp only
  rw [if_pos h, mapE_ok_of_forall f.col f.values args (fun a ha => by unfold Frame.col; rw [if_pos (h a ha)]), Py.bind_ok]
  cases g.run (args.map f.values) kw <;> rfl

/-- What a transformer for the columns `args` does: it applies the function to these columns in this order and returns
one column if the result is a series, the columns of a tuple in their order, and passes exceptions on; a missing column raises
`ValueError`, anything but a data frame `TypeError`. -/
def AppliesTo (g : TaFunc K V) (args : List String) (kw : List (String × V)) (t : Option (Frame K) → Py (List (List (XF K)))) : Prop :=
  (∀ f, (∀ a ∈ args, a ∈ f.cols) →
    (∀ c, g.run (args.map f.values) kw = .ok (.series c) → t (some f) = .ok [c]) ∧
    (∀ l, g.run (args.map f.values) kw = .ok (.tuple l) → t (some f) = .ok l) ∧
    ∀ e, g.run (args.map f.values) kw = .error e → t (some f) = .error e) ∧
  (∀ f a, a ∈ args → a ∉ f.cols → t (some f) = .error .valueError) ∧ t none = .error .typeError

theorem transformed_applies (g : TaFunc K V) (args : List String) (kw : List (String × V)) : AppliesTo g args kw (transformed g args kw) := by
  refine ⟨fun f h => ?_, ?_, rfl⟩
  · rw [transformed_columns g args kw f h]
    exact ⟨fun c hc => by rw [hc]; rfl, fun l hl => by rw [hl]; rfl, fun e he => by rw [he]; rfl⟩
  intro f a ha hf
  unfold transformed
  exact if_neg fun h => hf (h a ha)

/-- C65 (transformer): for a function with a documented signature of named columns, the transformer applies the
function to the renamed columns with the given keyword arguments. -/
theorem C65_transformer (lib : String → Option (TaFunc K V)) (fn : String) (g : TaFunc K V) (hg : lib fn = some g)
    (name rest : String) (args kwargs : List String) (hdoc : g.doc = signature name args kwargs ++ rest)
    (hn : ∀ c ∈ name.toList, c ≠ '(') (ha : args ≠ []) (hpa : ∀ a ∈ args, PlainName a) (hpk : ∀ k ∈ kwargs, PlainName k)
    (hr : StartsNewLine rest) (h1 : "real" ∉ args) (h2 : "real0" ∉ args ∨ "real1" ∉ args)
    (col : ColArg) (d : List (String × String)) (hm : ∀ p ∈ d, p.1 ∈ args) (kw : List (String × V))
    (hkw : kwargs ≠ [] ∧ ∀ p ∈ kw, p.1 ∈ kwargs) :
    ∃ t r, createTransformer lib fn col (.dict d) (some kw) = .ok t ∧ RenamedBy d args r ∧ AppliesTo g r kw t := by
  obtain ⟨r, e, hren⟩ := ((C65_named_columns args h1 h2 col).2.2 d).1 hm
  refine ⟨_, r, ?_, hren, transformed_applies g r kw⟩
  unfold createTransformer getTaFunc
  rw [hg]
  dsimp only
  rw [Py.bind_ok, hdoc, C64_signature name rest args kwargs hn ha hpa hpk hr, Py.bind_ok, e, Py.bind_ok]
  rw [if_neg hkw.1, (C65_keywords kw kwargs).2.2.2.1 hkw.2, Py.bind_ok]

/-- C65 (transformer of one array): for a documented function of one array, as the strategies use it, the transformer
applies the function to the given column. -/
theorem C65_transformer_one_array (lib : String → Option (TaFunc K V)) (fn : String) (g : TaFunc K V) (hg : lib fn = some g)
    (name rest : String) (kwargs : List String) (hdoc : g.doc = signature name ["real"] kwargs ++ rest)
    (hn : ∀ c ∈ name.toList, c ≠ '(') (hpk : ∀ k ∈ kwargs, PlainName k)
    (hr : StartsNewLine rest) (s : String) (kw : List (String × V)) (hkw : kwargs ≠ [] ∧ ∀ p ∈ kw, p.1 ∈ kwargs) :
    ∃ t, createTransformer lib fn (.str s) .none (some kw) = .ok t ∧ AppliesTo g [s] kw t := by
  refine ⟨_, ?_, transformed_applies g [s] kw⟩
  have hp : ∀ a ∈ ["real"], PlainName a := by
    intro a ha
    rw [List.mem_singleton] at ha
    subst ha
    exact ⟨by decide, by decide⟩
  unfold createTransformer getTaFunc
  rw [hg]
  dsimp only
  rw [Py.bind_ok, hdoc, C64_signature name rest ["real"] kwargs hn (by simp) hp hpk hr, Py.bind_ok]
  have : checkArgs ["real"] (.str s) .none = .ok [s] := by
    obtain ⟨a, h1, h2⟩ := (C65_one_array ["real"] (by simp) (by simp) (by decide) (by decide)).1 s
    rw [h2.1]
    congr 1
    unfold RenamedBy at h1
    cases h1 with
    | cons h h' =>
      cases h'
      rcases h with h | h
      · simp at h; rw [h]
      · exact absurd (h.2 s) (by simp)
  rw [this, Py.bind_ok, if_neg hkw.1, (C65_keywords kw kwargs).2.2.2.1 hkw.2, Py.bind_ok]

/-- C65 (unknown function): a name that `talib` does not have raises `ValueError`. -/
theorem C65_unknown (lib : String → Option (TaFunc K V)) (fn : String) (h : lib fn = none) (col : ColArg) (m : MapArg)
    (kw : Option (List (String × V))) : createTransformer lib fn col m kw = .error .valueError := by
  unfold createTransformer getTaFunc; rw [h]; rfl

end

section Examples

example : getArgsKwargs "BBANDS(real[, timeperiod=?, nbdevup=?])\n\nBollinger Bands (Overlap Studies)\n" =
    .ok (["real"], some ["timeperiod", "nbdevup"]) := by decide +kernel

example : getArgsKwargs "AVGPRICE(open, high, low, close)\n\nAverage Price (Price Transform)" =
    .ok (["open", "high", "low", "close"], none) := by decide +kernel

example : signature "SMA" ["real"] ["timeperiod"] = "SMA(real[, timeperiod=?])" := by decide +kernel

/-- The form matters: more text in the same line is taken for part of the signature. -/
example : getArgsKwargs "SMA(real) of (x)" = .ok (["real) of (x"], none) := by decide +kernel

/-- Exchanging two columns works because all positions are renamed at once. -/
example : checkArgs ["high", "low", "close"] .none (.dict [("high", "low"), ("low", "high")]) = .ok ["low", "high", "close"] := by
  decide +kernel

example : checkArgs ["high", "low"] .none (.dict [("open", "x")]) = .error .valueError := by decide +kernel

example : checkArgs ["real0", "real1"] (.list [some "a", some "b"]) (.dict [("a", "c")]) = .ok ["c", "b"] := by decide +kernel

/-- A function that adds its columns, on a frame with exchanged names. -/
example : (createTransformer (K := ℚ) (V := ℤ) (fun n => if n = "SUB" then some ⟨"SUB(high, low[, p=?])\n", fun c _ =>
      match c with
      | [h, l] => .ok (.series (List.zipWith XF.sub h l))
      | _ => .error .typeError⟩ else none) "SUB" .none (.dict [("high", "H")]) (some [("p", 1)]) >>=
    fun t => t (some ⟨["low", "H"], [(0, [.fin 1, .fin 3]), (1, [.fin 2, .fin 2])]⟩)) = .ok [[.fin 2, .fin 0]] := by decide +kernel

end Examples

end Mizar.Props
