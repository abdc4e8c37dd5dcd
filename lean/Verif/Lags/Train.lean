import Verif.Lags.Model
import Verif.Walkforward

/-!
# The data a model is trained on

`Strategy._build_window_stores` of `/repo/src/pybroker/strategy.py` and the part of
`ModelsMixin.train_models` of `/repo/src/pybroker/model.py` that prepares the input of
a model of one symbol on the base timeframe.

Column arrays are lists of cells.  The model cache, the training function and
`input_data_fn` are not part of this file.
-/

namespace PyBroker

/-- `_unique_dates_from_rows`, strategy.py 135-141. -/
def datesOfRows (dates : List Date) (idx : List Nat) : List Date :=
  windowDates (idx.filterMap (fun i => dates[i]?))

/-- What `_build_window_stores` returns. -/
structure WindowStores where
  train : Option Store
  test : Option Store
  history : Option Store

/-- `_build_window_stores`, strategy.py 3276-3332.  `dates` is the date column of the
frame the rows index. -/
def windowStores (master : Store) (dates : List Date) (w : WFWindow) : WindowStores :=
  let testDates := datesOfRows dates w.test
  let test := if w.test = [] then none else some (master.slice testDates)
  if w.train = [] then { train := none, test := test, history := test }
  else
    let trainDates := datesOfRows dates w.train
    let train := master.slice trainDates
    let history :=
      if w.test = [] then train
      else master.slice (windowDates (dates.filter
        (fun d => trainDates.headD 0 ≤ d ∧ d ≤ testDates.getLastD 0)))
    { train := some train, test := test, history := some history }

/-- `_model_input_columns` without the date column, model.py 916-934.  `ordered` are the
data columns in their fixed order. -/
def modelInputCols (ordered inds : List String) (available : String → Bool) : List String :=
  (ordered.filter available ++ inds).eraseDups

/-- A column of a symbol on the dates of its arrays: the data column, or else the
indicator aligned to the dates, model.py 970-978 and 508-516. -/
def inputColumn (a : SymArrays) (inds : List String) (data : String → Option Series)
    (col : String) : Option (List Cell) :=
  match a.col col with
  | some l => some l
  | none => if col ∈ inds then (data col).map (fun ser => valuesForDates ser a.dates) else none

/-- `_symbol_model_input_from_store`, model.py 948-979.  `none`: an indicator has no
data (`KeyError`).  The columns of an input without rows are not modelled. -/
def symbolInput (store : Store) (sym : Sym) (ordered inds : List String)
    (data : String → Option Series) : Option LagInput :=
  match store.arrays sym with
  | none => some { dates := [], symbols := none, columns := [], features := none }
  | some a =>
    if a.dates = [] then some { dates := [], symbols := none, columns := [], features := none }
    else
      match (modelInputCols ordered inds (fun c => (a.col c).isSome)).mapM
          (fun c => (inputColumn a inds data c).map (fun l => (c, l))) with
      | none => none
      | some cols => some { dates := a.dates, symbols := none, columns := cols, features := none }

/-- `merge_lag_series_cache_from_store` for one symbol, model.py 477-520: the cache and
the dates of the symbol's history, if it has any. -/
def mergeFromStore (history : Store) (sym : Sym) (columns : List String) (lags : Nat)
    (inds : List String) (data : String → Option Series) (cache : LagCache) :
    Except LagErr (LagCache × Option (List Date)) :=
  match history.arrays sym with
  | none => .ok (cache, none)
  | some a =>
    if a.dates = [] then .ok (cache, none)
    else
      match cache.merge sym lags none (inputColumn a inds data) columns with
      | .error e => .error e
      | .ok c => .ok (c, some a.dates)

/-- The rows and columns of a matrix. -/
def matRows (m : LagMat) (n width : Nat) : List (List Cell) :=
  (List.range n).map (fun r => (List.range width).map (m r))

/-- `apply_lags_to_model_input`, model.py 778-806. -/
def applyLags (junk : LagMat) (x : LagInput) (columns : List String) (lags : Nat)
    (cache : LagCache) (sym : Sym) (history : List Date) (interval : Option String) :
    Except LagErr LagInput :=
  if x.dates = [] then .ok { x with features := some [] }
  else
    match lagMatrix junk sym columns lags x.dates history cache interval with
    | .error e => .error e
    | .ok m => .ok { x with features := some (matRows m x.dates.length (columns.length * (lags + 1))) }

/-- The lag features of the training and the test input of a model of one symbol,
model.py 2155-2188.  `history_dates[sym]` raises when the symbol has no history. -/
def lagInputs (junk : LagMat) (history : Store) (sym : Sym) (columns : List String) (lags : Nat)
    (inds : List String) (data : String → Option Series) (train test : LagInput)
    (cache : LagCache) : Except LagErr (LagInput × LagInput × LagCache) :=
  match mergeFromStore history sym columns lags inds data cache with
  | .error e => .error e
  | .ok (_, none) => .error .datesMissing
  | .ok (c, some h) =>
    match applyLags junk train columns lags c sym h none with
    | .error e => .error e
    | .ok tr =>
      match applyLags junk test columns lags c sym h none with
      | .error e => .error e
      | .ok te =>
        match tr.dropWarmup with
        | .error e => .error e
        | .ok tr' => .ok (tr', te, c)

end PyBroker
