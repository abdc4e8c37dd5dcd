import Verif.Lags.Train
import Verif.Indicator.Model

/-!
# The input of a model during a backtest

`ModelInputScope` of `/repo/src/pybroker/scope.py`, with `_resolve_lag_cols`, and the
functions of `/repo/src/pybroker/model.py` it uses.

The date column is a column of cells holding dates.  A data frame is the list of its
columns; the index of a frame without columns is not modelled.
-/

namespace PyBroker

/-- The part of a `ModelSource` that prediction uses, model.py 1188-1210. -/
structure InSource where
  indicators : List String
  lags : Option Nat
  pooled : Bool
  inputFn : Option (List (String × List Cell) → List (String × List Cell))

/-- The part of a `TrainedModel` that describes its input, common.py 106-133. -/
structure InModel where
  inputCols : Option (List String)
  lagColumns : Option (List String)

/-- The `ValueError`s of `ModelInputScope`, and its `KeyError` (`datesMissing`). -/
inductive InputErr
  | symbolNotFound | modelNotFound | notTrained | noInputCols | noLagCols
  | read (e : ReadErr) | lag (e : LagErr)
  | missingLagCol | missingCol | noHistory | historyColumn | datesMissing
  | indicatorMissing | misaligned
  deriving DecidableEq, Repr

/-- `_infer_input_cols`, model.py 1802-1818. -/
def inferCols (names dataCols inds : List String) (pooled : Bool) : List String :=
  let l := names.filter (fun c => c ∈ dataCols ∨ c ∈ inds)
  if pooled then l.filter (fun c => c ≠ "symbol") else l

/-- `_lag_feature_cols`, model.py 1821-1853; `none`: it raises. -/
def lagFeatureCols (names dataCols inds : List String) (pooled : Bool) (lagCols : List String) :
    Option (List String) :=
  if lagCols ≠ [] then (if lagCols.all (fun c => c ∈ names) then some lagCols else none)
  else some ((inferCols names dataCols inds pooled).filter (fun c => c ≠ "date" ∧ c ∉ inds))

/-- `_require_lag_cols`, scope.py 1298-1316. -/
def requireLagCols (l : List String) : Except InputErr (Option (List String)) :=
  if l = [] then .error .noLagCols else .ok (some l)

/-- `_resolve_lag_cols`, scope.py 1245-1295.  `names`: the columns of the model input, once
built. -/
def resolveLagCols (dataCols : List String) (src : InSource) (tm : InModel)
    (names : Option (List String)) : Except InputErr (Option (List String)) :=
  match src.lags with
  | none => .ok none
  | some _ =>
    match tm.lagColumns with
    | some l => .ok (some l)
    | none =>
      match names with
      | some ns =>
        requireLagCols ((lagFeatureCols ns dataCols src.indicators src.pooled []).getD [])
      | none =>
        match tm.inputCols with
        | none => .error .noInputCols
        | some ic => requireLagCols (ic.filter (fun c => c ≠ "date" ∧ c ∉ src.indicators))

/-- A column of a symbol's arrays, the dates among them. -/
def SymArrays.colOf (a : SymArrays) (c : String) : Option (List Cell) :=
  if c = "date" then some (a.dates.map (fun d => some ((d : Int) : ℚ))) else a.col c

/-- `ModelInputScope`, scope.py 1819-1836.  `ordered` is `ordered_data_cols`, `sources` the
registered models. -/
structure InScope where
  store : Store
  history : Option Store
  ordered : List String
  sources : String → Option InSource
  models : String → Sym → Option InModel
  ind : IndScope
  lagCache : LagCache := fun _ => none
  historyDates : Sym → Option (List Date) := fun _ => none
  depth : Sym → String → Option Nat := fun _ _ => none
  inputs : List ((String × Sym) × LagInput) := []

/-- The column read by `_merge_lag_cache`, scope.py 1877-1886: a data column of the history,
or else the indicator of that name on the history's dates. -/
def InScope.historyColumn (s : InScope) (h : Store) (sym : Sym) (dates : List Date) (c : String) :
    Option (List Cell) :=
  match (h.arrays sym).bind (fun a => a.colOf c) with
  | some l => some l
  | none => (s.ind.data c sym).map (fun ser => valuesForDates ser dates)

/-- `_merge_lag_cache`, scope.py 1867-1903. -/
def InScope.mergeLags (s : InScope) (h : Store) (sym : Sym) (columns : List String) (lags : Nat)
    (dates : List Date) : Except InputErr Unit × InScope :=
  if columns.any (fun c => (s.historyColumn h sym dates c).isNone) then (.error .historyColumn, s)
  else
    match LagCache.merge sym lags none (s.historyColumn h sym dates) columns s.lagCache with
    | .error e => (.error (.lag e), s)
    | .ok c =>
      (.ok (), { s with
        lagCache := c
        depth := fun s' c' =>
          if s' = sym ∧ c' ∈ columns then some (max ((s.depth s' c').getD 0) lags)
          else s.depth s' c' })

/-- `_ensure_lag_cache`, scope.py 1838-1865. -/
def InScope.ensureLags (s : InScope) (sym : Sym) (columns : List String) (lags : Nat) :
    Except InputErr Unit × InScope :=
  let missing := columns.filter (fun c => (s.depth sym c).all (fun n => n < lags))
  if missing = [] then (.ok (), s)
  else
    match s.history with
    | none => (.error .noHistory, s)
    | some h =>
      match s.historyDates sym with
      | some dates => s.mergeLags h sym missing lags dates
      | none =>
        match h.arrays sym with
        | none => (.error .symbolNotFound, s)
        | some a =>
          InScope.mergeLags
            { s with historyDates := fun s' => if s' = sym then some a.dates else s.historyDates s' }
            h sym missing lags a.dates

/-- The loop over the indicators, scope.py 2010-2011. -/
def readInds (sym : Sym) : List String → IndScope → List (String × List Cell) →
    Except InputErr (List (String × List Cell)) × IndScope
  | [], ind, d => (.ok d, ind)
  | i :: rest, ind, d =>
    match ind.fetch sym i none with
    | (.error e, ind') => (.error (.read e), ind')
    | (.ok l, ind') => readInds sym rest ind' (assocPut d i l)

/-- The columns to read, scope.py 1986-2004. -/
def neededCols (ordered : List String) (src : InSource) (tm : InModel)
    (lagCols : Option (List String)) : List String :=
  match tm.inputCols, src.inputFn with
  | some ic, none =>
    let needed := "date" :: ic ++ lagCols.getD []
    (ordered.filter (fun c => c ∈ needed) ++ needed).eraseDups
  | _, _ => ordered

/-- Attaching the lag features, scope.py 2024-2041. -/
def InScope.addLags (junk : LagMat) (s : InScope) (sym : Sym) (x : LagInput) (lags : Option Nat)
    (lagCols : Option (List String)) : Except InputErr LagInput × InScope :=
  match lagCols, lags with
  | some lc, some n =>
    if lc.all (fun c => c ∈ x.columns.map Prod.fst) then
      match s.ensureLags sym lc n with
      | (.error e, s') => (.error e, s')
      | (.ok (), s') =>
        match s'.historyDates sym with
        | none => (.error .datesMissing, s')
        | some h =>
          match applyLags junk x lc n s'.lagCache sym h none with
          | .error e => (.error (.lag e), s')
          | .ok y => (.ok y, s')
    else (.error .missingLagCol, s)
  | _, _ => (.ok x, s)

/-- `prepare_input_data`, model.py 1212-1228. -/
def InSource.prepare (src : InSource) (df : List (String × List Cell)) :
    Except InputErr (List (String × List Cell)) :=
  if df.all (fun p => p.2 = []) then .ok df
  else
    match src.inputFn with
    | some f => .ok (f df)
    | none =>
      if src.indicators.all (fun i => i ∈ df.map Prod.fst) then
        .ok (src.indicators.filterMap (fun i => (cacheGet df i).map (fun l => (i, l))))
      else .error .indicatorMissing

/-- `apply_prepare_input_data`, model.py 842-865.  A frame without columns or rows gives
input without rows. -/
def LagInput.prepared (src : InSource) (x : LagInput) : Except InputErr LagInput :=
  match src.prepare x.columns with
  | .error e => .error e
  | .ok df =>
    if df.any (fun p => p.2.length ≠ x.dates.length) then .error .misaligned
    else .ok { x with
      dates := if df.all (fun p => p.2 = []) then [] else x.dates
      columns := df }

/-- Selecting the input columns and the user's preparation, scope.py 2042-2054. -/
def finishInput (src : InSource) (tm : InModel) (x : LagInput) : Except InputErr LagInput :=
  match tm.inputCols with
  | none => x.prepared src
  | some ic =>
    if ic.all (fun c => c ∈ x.columns.map Prod.fst) then
      let y : LagInput := { x with
        columns := ic.eraseDups.filterMap (fun c => (cacheGet x.columns c).map (fun l => (c, l))) }
      if ic = [] ∨ src.inputFn.isSome then y.prepared src else .ok y
    else .error .missingCol

/-- `_fetch_model_input` of an input not read before, scope.py 1956-2055. -/
def InScope.build (junk : LagMat) (s : InScope) (sym : Sym) (name : String) :
    Except InputErr LagInput × InScope :=
  match s.store.arrays sym, s.sources name, s.models name sym with
  | none, _, _ => (.error .symbolNotFound, s)
  | some _, none, _ => (.error .modelNotFound, s)
  | some _, some _, none => (.error .notTrained, s)
  | some a, some src, some tm =>
    let defer : Bool := src.lags.isSome && tm.lagColumns.isNone && tm.inputCols.isNone
    match if defer then .ok none else resolveLagCols s.ordered src tm none with
    | .error e => (.error e, s)
    | .ok early =>
      match readInds sym src.indicators s.ind
          ((neededCols s.ordered src tm early).filterMap (fun c => (a.colOf c).map (fun l => (c, l)))) with
      | (.error e, ind') => (.error e, { s with ind := ind' })
      | (.ok d, ind') =>
        let x : LagInput := { dates := a.dates, symbols := none, columns := d, features := none }
        match if defer then resolveLagCols s.ordered src tm (some (d.map Prod.fst)) else .ok early with
        | .error e => (.error e, { s with ind := ind' })
        | .ok lagCols =>
          match InScope.addLags junk { s with ind := ind' } sym x src.lags lagCols with
          | (.error e, s') => (.error e, s')
          | (.ok y, s') =>
            match finishInput src tm y with
            | .error e => (.error e, s')
            | .ok z => (.ok z, { s' with inputs := ((name, sym), z) :: s'.inputs })

/-- `ModelInput.slice`, model.py 110-129. -/
def LagInput.slice (x : LagInput) (e : Option Int) : LagInput where
  dates := sliceTo x.dates e
  symbols := x.symbols.map (fun l => sliceTo l e)
  columns := x.columns.map (fun p => (p.1, sliceTo p.2 e))
  features := x.features.map (fun f => sliceTo f e)

/-- `_fetch_model_input`, scope.py 1944-2057. -/
def InScope.fetch (junk : LagMat) (s : InScope) (sym : Sym) (name : String) (e : Option Int) :
    Except InputErr LagInput × InScope :=
  match cacheGet s.inputs (name, sym) with
  | some x => (.ok (x.slice e), s)
  | none =>
    match s.build junk sym name with
    | (.error err, s') => (.error err, s')
    | (.ok x, s') => (.ok (x.slice e), s')

/-- A read: the uninitialised memory it may allocate, the symbol, the model and the end
index. -/
structure InputRead where
  junk : LagMat
  symbol : Sym
  model : String
  stop : Option Int

/-- A sequence of reads. -/
def InScope.run (s : InScope) : List InputRead → InScope
  | [] => s
  | r :: rest => InScope.run (s.fetch r.junk r.symbol r.model r.stop).2 rest

end PyBroker
