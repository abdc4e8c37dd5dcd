/-
Model of the lag features of `src/pybroker/model.py` and of the training rows of a
window (`src/pybroker/interval.py`, `src/pybroker/strategy.py`).

A value is a `Cell`: `none` is NaN.  A numpy array filled by a loop is a function of
its indexes, and `np.empty` is an arbitrary such function (`junk`).
-/
import Verif.Scope.Store

namespace PyBroker

/-! ## Lagged series -/

/-- One row of `_build_stacked_lags_njit`, model.py 299-301: `row[:lag] = nan`,
`row[lag:] = values[:-lag]`, for `lag ≥ 1`. -/
def shiftLag (values : List Cell) (lag : Nat) : List Cell :=
  List.replicate (min lag values.length) none ++ values.take (values.length - lag)

/-- `_build_stacked_lags_njit`, model.py 292-302: the series, then its lags `1 .. lags`. -/
def buildLags (values : List Cell) (lags : Nat) : List (List Cell) :=
  values :: (List.range lags).map (fun i => shiftLag values (i + 1))

/-- `LagSeriesKey`, model.py 67-74. -/
structure LagKey where
  symbol : Sym
  column : String
  lag : Nat
  interval : Option String
  deriving DecidableEq, Repr

/-- An array in the cache: two-dimensional under lag 0, one-dimensional otherwise. -/
inductive LagArr
  | stack (rows : List (List Cell))
  | row (values : List Cell)
  deriving DecidableEq, Repr

/-- `LagSeriesCache`, model.py 77: a dict. -/
def LagCache := LagKey → Option LagArr

/-- `cache[key] = a`. -/
def LagCache.set (c : LagCache) (k : LagKey) (a : LagArr) : LagCache :=
  fun k' => if k' = k then some a else c k'

/-- The loop of `_store_stacked_lags_in_cache`, model.py 362-363. -/
def LagCache.setRows (c : LagCache) (sym : Sym) (col : String) (interval : Option String)
    (st : List (List Cell)) : LagCache :=
  (List.range' 1 (st.length - 1)).foldl
    (fun c lag => c.set ⟨sym, col, lag, interval⟩ (.row (st.getD lag []))) c

/-- `_store_stacked_lags_in_cache`, model.py 338-363. -/
def LagCache.store (c : LagCache) (sym : Sym) (col : String) (interval : Option String)
    (st : List (List Cell)) : LagCache :=
  match c ⟨sym, col, 0, interval⟩ with
  | some (.stack ex) =>
    if ex.length ≥ st.length then c.setRows sym col interval ex
    else (c.set ⟨sym, col, 0, interval⟩ (.stack st)).setRows sym col interval st
  | _ => (c.set ⟨sym, col, 0, interval⟩ (.stack st)).setRows sym col interval st

/-- `cached_stacked_lags`, model.py 366-381. -/
def LagCache.cached (c : LagCache) (sym : Sym) (col : String) (lags : Nat)
    (interval : Option String) : Option (List (List Cell)) :=
  match c ⟨sym, col, 0, interval⟩ with
  | some (.stack ex) => if ex.length ≥ lags + 1 then some ex else none
  | _ => none

/-- The `ValueError`s of the lag functions. -/
inductive LagErr
  | columnMissing | exceedsHistory | notContiguous
  | historyMissing | tooShallow | tooShort | datesMissing | nothingLeft
  deriving DecidableEq, Repr

/-- `merge_lag_series_cache_from_arrays`, model.py 546-569, and the inner loop of
`merge_interval_lag_series_cache`, 595-612 (an interval's `date` column aside).
`arrays` is `column_arrays.get`. -/
def LagCache.merge (sym : Sym) (lags : Nat) (interval : Option String)
    (arrays : String → Option (List Cell)) : List String → LagCache → Except LagErr LagCache
  | [], c => .ok c
  | col :: cols, c =>
    match arrays col with
    | none => .error .columnMissing
    | some values => merge sym lags interval arrays cols (c.store sym col interval (buildLags values lags))

/-! ## The feature matrix -/

/-- `np.searchsorted(dates, d)` on sorted dates: the number of earlier dates. -/
def firstAtOrAfter (dates : List Date) (d : Date) : Nat := (dates.filter (fun x => x < d)).length

/-- `history_date_offset`, model.py 615-627. -/
def historyOffset (history rows : List Date) : Except LagErr Nat :=
  match rows with
  | [] => .ok 0
  | d :: _ =>
    let offset := firstAtOrAfter history d
    if offset + rows.length > history.length then .error .exceedsHistory
    else if (history.drop offset).take rows.length ≠ rows then .error .notContiguous
    else .ok offset

/-- `_checked_stacked_lags`, model.py 663-697.  The offset is never negative. -/
def checkedStack (c : LagCache) (sym : Sym) (col : String) (lags offset n : Nat)
    (interval : Option String) : Except LagErr (List (List Cell)) :=
  match c ⟨sym, col, 0, interval⟩ with
  | none => .error .historyMissing
  | some (.row _) => .error .tooShallow
  | some (.stack st) =>
    if st.length < lags + 1 then .error .tooShallow
    else if offset + n > (st.headD []).length then .error .tooShort
    else .ok st

/-- A matrix by row and column. -/
abbrev LagMat := Nat → Nat → Cell

/-- `_fill_lag_feature_block_njit`, model.py 305-321. -/
def fillBlock (m : LagMat) (colStart lags : Nat) (st : List (List Cell)) (offset n : Nat) : LagMat :=
  fun r c =>
    if r < n ∧ colStart ≤ c ∧ c < colStart + (lags + 1) then
      (((st.getD (c - colStart) []))[offset + r]?).join
    else m r c

/-- The loop over the columns of `build_lag_feature_matrix`, model.py 721-735. -/
def fillCols (cache : LagCache) (sym : Sym) (lags offset n : Nat) (interval : Option String) :
    List String → Nat → LagMat → Except LagErr LagMat
  | [], _, m => .ok m
  | col :: cols, i, m =>
    match checkedStack cache sym col lags offset n interval with
    | .error e => .error e
    | .ok st => fillCols cache sym lags offset n interval cols (i + (lags + 1))
        (fillBlock m i lags st offset n)

/-- `build_lag_feature_matrix`, model.py 700-735. -/
def lagMatrix (junk : LagMat) (sym : Sym) (columns : List String) (lags : Nat)
    (rows history : List Date) (cache : LagCache) (interval : Option String) :
    Except LagErr LagMat :=
  if rows = [] then .ok junk
  else
    match historyOffset history rows with
    | .error e => .error e
    | .ok offset => fillCols cache sym lags offset rows.length interval columns 0 junk

/-- `_scatter_matrix_rows_njit`, model.py 324-331: row `idx[i]` of `m` becomes row `i`. -/
def scatterRows (m : LagMat) (sub : LagMat) : List Nat → Nat → LagMat
  | [], _ => m
  | r :: idx, i => scatterRows (fun r' c => if r' = r then sub i c else m r' c) sub idx (i + 1)

/-- The rows of a symbol, in order: `order[start:end]` of the stable sort, model.py
754-757. -/
def rowsOf (syms : List Sym) (s : Sym) : List Nat :=
  (List.range syms.length).filter (fun i => syms[i]? = some s)

/-- The loop over the symbols of `build_lag_feature_matrix_pooled`, model.py 759-774.
`history_dates_by_symbol[sym]` raises `KeyError` when the symbol has no history. -/
def pooledLoop (columns : List String) (lags : Nat) (syms : List Sym) (dates : List Date)
    (history : Sym → Option (List Date)) (cache : LagCache) (symbols : List Sym)
    (interval : Option String) : List Sym → LagMat → Except LagErr LagMat
  | [], m => .ok m
  | s :: rest, m =>
    if s ∉ symbols then pooledLoop columns lags syms dates history cache symbols interval rest m
    else
      match history s with
      | none => .error .datesMissing
      | some h =>
        let idx := rowsOf syms s
        match lagMatrix (fun _ _ => none) s columns lags (idx.map (fun i => dates.getD i 0)) h cache
            interval with
        | .error e => .error e
        | .ok sub =>
          pooledLoop columns lags syms dates history cache symbols interval rest
            (scatterRows m sub idx 0)

/-- `build_lag_feature_matrix_pooled`, model.py 738-775.  The symbols are visited once
each; `np.unique` gives them in increasing order, here in order of appearance. -/
def lagMatrixPooled (junk : LagMat) (syms : List Sym) (columns : List String) (lags : Nat)
    (dates : List Date) (history : Sym → Option (List Date)) (cache : LagCache)
    (symbols : List Sym) (interval : Option String) : Except LagErr LagMat :=
  pooledLoop columns lags syms dates history cache symbols interval syms.dedup junk

/-! ## Warm-up rows -/

/-- `ModelInput`, model.py 80-97: the rows of the columns, the symbol column of pooled
input and the lag feature matrix by rows. -/
structure LagInput where
  dates : List Date
  symbols : Option (List Sym)
  columns : List (String × List Cell)
  features : Option (List (List Cell))
  deriving DecidableEq, Repr

/-- `~np.isnan(self.lag_features).any(axis=1)`, model.py 172 and 202. -/
def validRows (f : List (List Cell)) : List Bool := f.map (fun row => row.all Option.isSome)

/-- `lag_warmup_len`, model.py 163-178. -/
def LagInput.warmupLen (x : LagInput) : Nat :=
  match x.features with
  | none => 0
  | some f =>
    if x.dates = [] then 0
    else
      let v := validRows f
      if v.all (fun b => b) then 0
      else if !v.any (fun b => b) then v.length
      else v.idxOf true

/-- `np.flatnonzero(symbols[1:] != symbols[:-1]) + 1`, model.py 255. -/
def symbolChanges (syms : List Sym) : List Nat :=
  (List.range' 1 (syms.length - 1)).filter (fun i => syms[i]? ≠ syms[i - 1]?)

/-- `_symbol_blocks`, model.py 244-257. -/
def LagInput.blocks (x : LagInput) : List (Nat × Nat) :=
  let n := x.dates.length
  match x.symbols with
  | none => [(0, n)]
  | some syms =>
    if n = 0 then [(0, n)]
    else
      let bounds := 0 :: symbolChanges syms ++ [n]
      bounds.zip bounds.tail

/-- The loop of `_lag_warmup_keep_mask`, model.py 235-242. -/
def keepLoop (valid : List Bool) : List (Nat × Nat) → (Nat → Bool) → Nat → Bool
  | [], keep => keep
  | (start, stop) :: rest, keep =>
    let block := (valid.drop start).take (stop - start)
    if !block.any (fun b => b) then keepLoop valid rest keep
    else
      let first := block.idxOf true
      keepLoop valid rest (fun i => if start + first ≤ i ∧ i < stop then true else keep i)

/-- `_lag_warmup_keep_mask`, model.py 228-242. -/
def LagInput.keepMask (x : LagInput) (valid : List Bool) : List Bool :=
  (List.range valid.length).map (keepLoop valid x.blocks (fun _ => false))

/-- `values[keep]`. -/
def maskRows {α : Type} (keep : List Bool) (l : List α) : List α :=
  ((keep.zip l).filter (fun p => p.1)).map (fun p => p.2)

/-- `drop_lag_warmup`, model.py 183-226. -/
def LagInput.dropWarmup (x : LagInput) : Except LagErr LagInput :=
  match x.features with
  | none => .ok x
  | some f =>
    if x.dates = [] then .ok x
    else
      let valid := validRows f
      if valid.all (fun b => b) then .ok x
      else
        let keep := x.keepMask valid
        if !keep.any (fun b => b) then .error .nothingLeft
        else if keep.all (fun b => b) then .ok x
        else
          .ok { dates := maskRows keep x.dates
                symbols := x.symbols.map (maskRows keep)
                columns := x.columns.map (fun c => (c.1, maskRows keep c.2))
                features := some (maskRows keep f) }

/-! ## The rows of a training window -/

/-- `lookahead_train_dates`, interval.py 610-659: the train dates of compressed bars
kept, and the number of compressed bars dropped. -/
def lookaheadTrainDates (bars train test : List Date) (lookahead : Int) : List Date × Nat :=
  if lookahead ≤ 1 ∨ bars = [] then (train, 0)
  else
    let trainIdx := (List.range bars.length).filter (fun i => bars.getD i 0 ∈ train)
    let testIdx := (List.range bars.length).filter (fun i => bars.getD i 0 ∈ test)
    match trainIdx, testIdx with
    | [], _ => ([], 0)
    | _ :: _, [] => (trainIdx.map (fun i => bars.getD i 0), 0)
    | _ :: _, t :: _ =>
      let kept := trainIdx.filter (fun i : Nat => (i : Int) ≤ (t : Int) - lookahead)
      (kept.map (fun i => bars.getD i 0), trainIdx.length - kept.length)

/-- `slice_arrays_by_dates`, interval.py 592-607, on the rows of the arrays. -/
def rowsInDates {α : Type} (bars : List (Date × α)) (selected : List Date) : List (Date × α) :=
  bars.filter (fun b => b.1 ∈ selected)

end PyBroker
