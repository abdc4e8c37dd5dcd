import Mathlib.Data.List.Sort
import Mathlib.Data.List.Dedup
import Mathlib.Data.String.Basic
import Verif.Scope.Input

/-!
# Registering a model

`/repo/src/pybroker/model.py`: `model`, `_validate_lagged_train_fn`, `_parse_lag_cols`, the calls of
a training function and `_parse_model_result`; `set_model_source` and `get_model_source` of
`/repo/src/pybroker/scope.py`.

What Python passes around as objects is described by what these functions look at: an argument by
its type, a function by its parameters.  A keyword argument of `model` that is handed on is its
name.
-/

namespace PyBroker.Reg

/-- `inspect.Parameter.kind`. -/
inductive ParamKind | posOnly | posOrKw | varPos | kwOnly | varKw
  deriving DecidableEq, Repr

/-- A parameter of a Python function. -/
structure Param where
  name : String
  kind : ParamKind := .posOrKw
  hasDefault : Bool := false
  deriving DecidableEq, Repr

/-- The argument `lags`: an `int`, a `bool` (which is an `int` too) or something else. -/
inductive LagArg | int (n : Int) | bool (b : Bool) | other
  deriving DecidableEq, Repr

/-- The `int` that an argument is, if it is one. -/
def LagArg.value : LagArg → Option Int
  | .int n => some n
  | .bool b => some (if b then 1 else 0)
  | .other => none

/-- An element of `lag_cols`. -/
inductive LagCol | indicator (name : String) | column (name : String) | other
  deriving DecidableEq, Repr

/-- The argument `lag_cols`: a string is an iterable as well, of its characters. -/
inductive LagCols | text (s : String) | items (l : List LagCol)
  deriving DecidableEq, Repr

/-- Iterating over `lag_cols`. -/
def LagCols.iter : LagCols → List LagCol
  | .text s => s.toList.map (fun c => .column (String.singleton c))
  | .items l => l

/-- The argument `indicators`: a binding of an indicator to intervals, or elements, each an indicator
with its name or something else (`none`). -/
inductive IndArg | binding | items (l : List (Option String))
  deriving DecidableEq, Repr

/-- A call of `model`, model.py:1590-1606.  `fn`: the parameters of the function, unless it has no
signature. -/
structure ModelCall where
  name : String
  fn : Option (List Param)
  indicators : Option IndArg := none
  lags : Option LagArg := none
  lagCols : Option LagCols := none
  perBar : Bool := false
  predictFn : Bool := false
  pretrained : Bool := false
  pooled : Bool := false
  kwargs : List String := []
  deriving DecidableEq, Repr

/-- The `ValueError`s of `model`. -/
inductive RegErr
  | badLags | reservedKwarg (k : String) | noLagParams
  | perBarPooled | perBarPredict | badName
  | lagColsWithoutLags | badLagCol | emptyLagCol | reservedLagCol | noLagCols
  | badIndicator
  deriving DecidableEq, Repr

/-- The parameter takes an argument by its name: model.py:1536-1543. -/
def Param.byName (p : Param) : Bool := decide (p.kind = .posOrKw ∨ p.kind = .kwOnly)

/-- `_validate_lagged_train_fn`, model.py:1519-1552. -/
def validateLagFn (fn : Option (List Param)) (kwargs : List String) : Except RegErr Unit :=
  if "lag_train" ∈ kwargs then .error (.reservedKwarg "lag_train")
  else if "lag_test" ∈ kwargs then .error (.reservedKwarg "lag_test")
  else
    match fn with
    | none => .ok ()
    | some ps =>
      if ps.any (fun p => decide (p.kind = .varKw)) then .ok ()
      else
        let accepted := (ps.filter Param.byName).map Param.name
        if "lag_train" ∉ accepted ∨ "lag_test" ∉ accepted then .error .noLagParams else .ok ()

/-- The body of the loop of `_parse_lag_cols`, model.py:1568-1586: the column and, when it is that of
an indicator, the indicator. -/
def lagCol (c : LagCol) : Except RegErr (String × List String) :=
  let checked := fun (name : String) (inds : List String) =>
    if name = "" then .error .emptyLagCol
    else if name ∈ ["date", "symbol"] then .error .reservedLagCol
    else .ok (name, inds)
  match c with
  | .indicator n => checked n [n]
  | .column n => checked n []
  | .other => .error .badLagCol

/-- `dict.fromkeys(names)`. -/
def fromKeys (names : List String) : List String :=
  names.foldl (fun acc x => if x ∈ acc then acc else acc ++ [x]) []

/-- The loop of `_parse_lag_cols`, model.py:1566-1586. -/
def lagLoop : List LagCol → Except RegErr (List String × List String)
  | [] => .ok ([], [])
  | c :: rest =>
    match lagCol c with
    | .error e => .error e
    | .ok r =>
      match lagLoop rest with
      | .error e => .error e
      | .ok s => .ok (r.1 :: s.1, r.2 ++ s.2)

/-- `_parse_lag_cols`, model.py:1555-1590. -/
def parseLagCols (cols : Option LagCols) (lags : Option LagArg) :
    Except RegErr (List String × List String) :=
  match cols with
  | none => .ok ([], [])
  | some cols =>
    if lags.isNone then .error .lagColsWithoutLags
    else
      match lagLoop cols.iter with
      | .error e => .error e
      | .ok r => if r.1 = [] then .error .noLagCols else .ok (fromKeys r.1, fromKeys r.2)

/-- The loop over `indicators`, model.py:1714-1733. -/
def parseIndicators : Option IndArg → Except RegErr (List String)
  | none => .ok []
  | some .binding => .error .badIndicator
  | some (.items l) => if l.any Option.isNone then .error .badIndicator else .ok (l.filterMap id)

/-- A `ModelTrainer` or `ModelLoader`, model.py:1188-1210. -/
structure ModelSrc where
  name : String
  fn : Option (List Param)
  indicators : List String
  lags : Option Int
  lagCols : List String
  perBar : Bool
  predictFn : Bool
  pretrained : Bool
  pooled : Bool
  kwargs : List String
  deriving DecidableEq, Repr

/-- The checks of `lags`, model.py:1697-1701. -/
def checkLags (c : ModelCall) : Except RegErr (Option Int) :=
  match c.lags with
  | none => .ok none
  | some a =>
    match a.value with
    | none => .error .badLags
    | some n =>
      if n ≤ 0 then .error .badLags
      else if c.pretrained then .ok (some n)
      else
        match validateLagFn c.fn c.kwargs with
        | .error e => .error e
        | .ok _ => .ok (some n)

/-- The source that `model` makes, model.py:1697-1763. -/
def makeSource (c : ModelCall) : Except RegErr ModelSrc :=
  match checkLags c with
  | .error e => .error e
  | .ok lags =>
    if c.perBar && c.pooled then .error .perBarPooled
    else if c.perBar && !c.predictFn then .error .perBarPredict
    else if '@' ∈ c.name.toList then .error .badName
    else
      match parseLagCols c.lagCols c.lags with
      | .error e => .error e
      | .ok (cols, lagInds) =>
        match parseIndicators c.indicators with
        | .error e => .error e
        | .ok inds =>
          .ok
            { name := c.name
              fn := c.fn
              indicators := (inds ++ lagInds).dedup.insertionSort (· ≤ ·)
              lags := lags
              lagCols := cols
              perBar := c.perBar
              predictFn := c.predictFn
              pretrained := c.pretrained
              pooled := c.pooled
              kwargs := c.kwargs }

/-- `StaticScope._model_sources`. -/
abbrev Sources := String → Option ModelSrc

/-- `model`: what it returns or raises, and the registered models, with
`StaticScope.set_model_source`, scope.py:204-206. -/
def register (m : Sources) (c : ModelCall) : Except RegErr ModelSrc × Sources :=
  match makeSource c with
  | .error e => (.error e, m)
  | .ok s => (.ok s, fun k => if k = s.name then some s else m k)

/-- The models registered after some calls of `model`. -/
def registerAll (m : Sources) (cs : List ModelCall) : Sources := cs.foldl (fun m c => (register m c).2) m

/-! ## Calling the training function -/

/-- How Python refuses a call. -/
inductive BindErr | tooMany | multiple (k : String) | unexpected (k : String) | missing (k : String)
  deriving DecidableEq, Repr

/-- Passing the keyword argument `k` when the parameters `filled` have been given by position. -/
def kwErr (ps : List Param) (filled : List Param) (k : String) : Option BindErr :=
  if filled.any (fun p => p.byName && decide (p.name = k)) then some (.multiple k)
  else if ps.any (fun p => p.byName && decide (p.name = k)) then none
  else if ps.any (fun p => decide (p.kind = .varKw)) then none
  else some (.unexpected k)

/-- Calling a Python function with `pos` arguments by position and the keywords `kws`: `none` if its
body runs.  (The language's rules; not code of the repository.) -/
def bindCall (ps : List Param) (pos : Nat) (kws : List String) : Option BindErr :=
  let positional := ps.filter (fun p => decide (p.kind = .posOnly ∨ p.kind = .posOrKw))
  let filled := positional.take pos
  if pos > positional.length ∧ ¬ ps.any (fun p => decide (p.kind = .varPos)) then some .tooMany
  else
    match kws.findSome? (kwErr ps filled) with
    | some e => some e
    | none =>
      match ps.find? (fun p => !p.hasDefault && decide (p.kind ≠ .varPos ∧ p.kind ≠ .varKw) &&
          decide (p ∉ filled) && !(p.byName && decide (p.name ∈ kws))) with
      | some p => some (.missing p.name)
      | none => none

/-- The keywords that `ModelTrainer.__call__` and `train_pooled` pass, with the arguments bound by
`functools.partial`, model.py:1435, 1464-1472 and 1501-1510; three arguments go by position. -/
def trainKeywords (s : ModelSrc) : List String :=
  s.kwargs ++ (if s.lags.isNone then [] else ["lag_train", "lag_test"])

/-- What a training function returns: a tuple, of a model and columns (an iterable of names) or of
other things, or anything else. -/
inductive Result (M : Type)
  | value (m : M)
  | tuple (items : List (M × Option (List String)))

/-- `_parse_model_result`, model.py:1856-1870; `none`: it raises.  `names` are the columns of the
training data.  An item of a tuple is a model and, when it can be iterated, names. -/
def parseResult {M : Type} (names dataCols inds : List String) (pooled : Bool) :
    Result M → Option (M × List String)
  | .value m => some (m, inferCols names dataCols inds pooled)
  | .tuple (m :: c :: _) => c.2.map (fun cols => (m.1, cols))
  | .tuple _ => none

end PyBroker.Reg
