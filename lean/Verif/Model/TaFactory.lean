import Verif.Py.Feature

/-!
Model of `/repo/mizarlabs/transformers/technical/factory.py`.

Strings are lists of code points while they are parsed.  The functions of `talib` are parameters: a docstring and a
function from the list of input columns and the keyword arguments to its output.
-/

set_option linter.unusedSectionVars false

namespace Mizar.TA

/-- The position of the last `)` of a line as the text before it; `.+` needs at least one character before.
Part of `re.search(r"\((.+)\)", doc)` (`factory.py` line 55). -/
def beforeLast : List Char → Option (List Char)
  | [] => none
  | c :: l =>
    match beforeLast l with
    | some r => some (c :: r)
    | none => if c = ')' then some [] else none

/-- A match of `\((.+)\)` that starts at the opening parenthesis before `l`: `.` does not match a newline, `+` is greedy (`factory.py` line 55). -/
def matchParen (l : List Char) : Option (List Char) :=
  match beforeLast (l.takeWhile fun c => decide (c ≠ '\n')) with
  | some (c :: r) => some (c :: r)
  | _ => none

/-- `re.search(r"\((.+)\)", doc)` and its first group (`factory.py` line 55). -/
def searchParen : List Char → Option (List Char)
  | [] => none
  | c :: l =>
    if c = '(' then
      match matchParen l with
      | some g => some g
      | none => searchParen l
    else searchParen l

/-- `text.split(sep)` with a separator that is not empty; the first argument counts characters of a separator that
still have to be skipped, the second is the current piece in reverse (`factory.py` lines 57, 63, 66). -/
def splitGo (sep : List Char) : ℕ → List Char → List Char → List (List Char)
  | _, acc, [] => [acc.reverse]
  | k + 1, acc, _ :: l => splitGo sep k acc l
  | 0, acc, c :: l =>
    if sep.isPrefixOf (c :: l) then acc.reverse :: splitGo sep (sep.length - 1) [] l else splitGo sep 0 (c :: acc) l

/-- `text.split(sep)` (`factory.py` lines 57, 63, 66). -/
def pySplit (sep text : List Char) : List (List Char) := splitGo sep 0 [] text

/-- `text.strip(chars)` (`factory.py` line 66). -/
def pyStrip (chars text : List Char) : List Char :=
  ((text.dropWhile fun c => decide (c ∈ chars)).reverse.dropWhile fun c => decide (c ∈ chars)).reverse

/-- `kwargs_names.strip("=?]").split("=?, ")` (`factory.py` line 66). -/
def kwNames (text : List Char) : List String :=
  (pySplit "=?, ".toList (pyStrip "=?]".toList text)).map String.ofList

/-- `get_args_kwargs` (`factory.py` lines 54-69) from the docstring; a docstring without a match raises
`AttributeError`, one with more than one `[, ` raises `ValueError`. -/
def getArgsKwargs (doc : String) : Py (List String × Option (List String)) :=
  match searchParen doc.toList with
  | none => .error .attributeError
  | some sig =>
    match pySplit "[, ".toList sig with
    | [a] => .ok ((pySplit ", ".toList a).map String.ofList, none)
    | [a, k] => .ok ((pySplit ", ".toList a).map String.ofList, some (kwNames k))
    | _ => .error .valueError

/-- The argument `col_to_transform`; elements of a list that are not strings are `none`, any other object is `other` (`factory.py` line 91). -/
inductive ColArg
  | none
  | str (s : String)
  | list (l : List (Option String))
  | other
  deriving DecidableEq

/-- The argument `col_to_transform_mapping`; a dictionary is a list of pairs (`factory.py` line 92). -/
inductive MapArg
  | none
  | dict (m : List (String × String))
  | other
  deriving DecidableEq

/-- `args_names_list[args_names_list.index(name)] = col`: the first occurrence (`factory.py` lines 183-184). -/
def replaceFirst (name col : String) : List String → List String
  | [] => []
  | a :: l => if a = name then col :: l else a :: replaceFirst name col l

/-- Functions of one array (`factory.py` lines 178-184). -/
def setReal (args : List String) (col : ColArg) : Py (List String) :=
  if "real" ∈ args then
    match col with
    | .str s => .ok (replaceFirst "real" s args)
    | _ => .error .valueError
  else .ok args

/-- Functions of two arrays (`factory.py` lines 187-198).  The two replacements are made one after the other. -/
def setReal2 (args : List String) (col : ColArg) : Py (List String) :=
  if "real0" ∈ args ∧ "real1" ∈ args then
    match col with
    | .list l =>
      if l.all Option.isSome then
        match l with
        | some c0 :: some c1 :: _ => .ok (replaceFirst "real1" c1 (replaceFirst "real0" c0 args))
        | _ => .error .indexError
      else .error .valueError
    | _ => .error .valueError
  else .ok args

/-- The value of a key (`factory.py` lines 202-217). -/
def lookup (m : List (String × String)) (a : String) : Option String := (m.find? fun p => decide (p.1 = a)).map (·.2)

/-- Renaming of the expected columns (`factory.py` lines 202-217). -/
def setMapping (args : List String) (m : MapArg) : Py (List String) :=
  match m with
  | .none => .ok args
  | .other => .error .typeError
  | .dict m => if ∀ p ∈ m, p.1 ∈ args then .ok (args.map fun a => (lookup m a).getD a) else .error .valueError

/-- `_check_and_set_args` (`factory.py` lines 148-217).  `args_names_list.index` of the second replacement finds
`real1` unless the first one removed it, which it cannot. -/
def checkArgs (args : List String) (col : ColArg) (m : MapArg) : Py (List String) := do
  let a ← setReal args col
  let a ← setReal2 a col
  setMapping a m

variable {V : Type}

/-- `_check_and_set_kwargs` (`factory.py` lines 241-255); values of keyword arguments are of any type `V`. -/
def checkKwargs (kw : Option (List (String × V))) (names : Option (List String)) : Py (List (String × V)) :=
  match kw, names with
  | none, _ => .ok []
  | some _, none => .error .valueError
  | some d, some n => if ∀ p ∈ d, p.1 ∈ n then .ok d else .error .valueError

variable {K : Type} [Field K] [LinearOrder K]

/-- What a `talib` function returns: one series or a tuple of them (`factory.py` lines 133-137). -/
inductive Output (K : Type)
  | series (c : List (XF K))
  | tuple (l : List (List (XF K)))

/-- The columns of the resulting two-dimensional array (`factory.py` lines 135-144). -/
def Output.columns : Output K → List (List (XF K))
  | .series c => [c]
  | .tuple l => l

/-- A `talib` function: docstring and behaviour (`factory.py` lines 55, 133). -/
structure TaFunc (K V : Type) where
  doc : String
  run : List (List (XF K)) → List (String × V) → Py (Output K)

/-- `ta_func_transformed` (`factory.py` lines 123-144); an argument that is not a data frame is `none`. -/
def transformed (g : TaFunc K V) (args : List String) (kw : List (String × V)) (X : Option (Frame K)) :
    Py (List (List (XF K))) :=
  match X with
  | none => .error .typeError
  | some f =>
    if ∀ a ∈ args, a ∈ f.cols then do
      let cols ← mapE f.col args
      let out ← g.run cols kw
      .ok out.columns
    else .error .valueError

/-- `get_ta_func` (`factory.py` lines 71-86); `lib` are the entries of `talib.__dict__`. -/
def getTaFunc (lib : String → Option (TaFunc K V)) (name : String) : Py (TaFunc K V) :=
  match lib name with
  | none => .error .valueError
  | some g => .ok g

/-- `create_transformer` (`factory.py` lines 88-146): the transformer is the function it applies. -/
def createTransformer (lib : String → Option (TaFunc K V)) (name : String) (col : ColArg) (m : MapArg)
    (kw : Option (List (String × V))) : Py (Option (Frame K) → Py (List (List (XF K)))) := do
  let g ← getTaFunc lib name
  let s ← getArgsKwargs g.doc
  let args ← checkArgs s.1 col m
  let kw ← checkKwargs kw s.2
  .ok (transformed g args kw)

end Mizar.TA
