import Verif.Text.Model
import Mathlib.Data.List.Sort
import Mathlib.Data.List.Dedup
import Mathlib.Data.String.Basic

/-!
# Data source queries through the cache

`DataSourceCacheMixin` and `DataSource.query` of `/repo/src/pybroker/data.py`, with the
key of `/repo/src/pybroker/cache.py`.

A frame is a list of column names and a list of rows; a row carries its symbol and date
and, for every other column name, a cell.  Concatenation fills absent columns with an
absent cell, which is what a row answers for a column it does not have.  Dates are
integers; a source is its class name with its `_fetch_data`, a function that does not
raise.  The cache is a map from keys to frames, absent when caching is disabled; that the
layered cache of `cache.py` is such a map is `cache_transparent`.  The sort is stable, as
pandas' sort on several columns.  Index labels, dtypes and logging are not modelled.
-/

namespace PyBroker

/-- A row of a frame: `symbol` and `date`, and the cells of the other columns. -/
structure QRow (V : Type) where
  sym : String
  date : Int
  cells : String → Option V

/-- A `pandas.DataFrame`. -/
structure Frame (V : Type) where
  cols : List String
  rows : List (QRow V)

/-- `df.empty`: some axis has length zero. -/
def Frame.isEmpty {V : Type} (f : Frame V) : Bool := f.rows.isEmpty || f.cols.isEmpty

/-- `pd.DataFrame()`. -/
def Frame.nil {V : Type} : Frame V := ⟨[], []⟩

/-- `pd.concat`: the rows one after the other, the union of the columns. -/
def concatFrames {V : Type} (fs : List (Frame V)) : Frame V :=
  ⟨(fs.flatMap (·.cols)).dedup, fs.flatMap (·.rows)⟩

/-- Order of rows by date, then symbol. -/
def rowLE {V : Type} (a b : QRow V) : Prop := a.date < b.date ∨ (a.date = b.date ∧ a.sym ≤ b.sym)

instance {V : Type} (a b : QRow V) : Decidable (rowLE a b) := by unfold rowLE; infer_instance

/-- `sort_values(by=["date", "symbol"])`. -/
def sortRows {V : Type} (rows : List (QRow V)) : List (QRow V) := rows.insertionSort rowLE

/-- `DataSourceCacheKey`, cache.py:178-190. -/
structure DsKey where
  symbol : String
  tfSeconds : Nat
  start : Int
  stop : Int
  adjust : Option String
  source : String
  deriving DecidableEq

/-- A data source: the qualified class name used in keys, and `_fetch_data`. -/
structure Source (V : Type) where
  name : String
  fetch : List String → Int → Int → Str → Option String → Frame V

/-- Arguments of a query besides the symbols. -/
structure Request where
  start : Int
  stop : Int
  timeframe : Str
  adjust : Option String

/-- The cached frames. -/
abbrev DsCache (V : Type) := DsKey → Option (Frame V)

/-- The key built at data.py:87-94 and 149-156. -/
def dsKey {V : Type} (src : Source V) (secs : Nat) (req : Request) (sym : String) : DsKey :=
  ⟨sym, secs, req.start, req.stop, req.adjust, src.name⟩

/-- `get_cached`, data.py:40-110: the cached frames concatenated, and the symbols without
one.  `none` is a timeframe that does not parse. -/
def getCached {V : Type} (src : Source V) (cache : Option (DsCache V)) (req : Request) (tf : Str)
    (syms : List String) : Option (Frame V × List String) :=
  match cache with
  | none => some (.nil, syms)
  | some c =>
    match toSeconds tf with
    | none => none
    | some secs =>
      let found := syms.filterMap (fun s => c (dsKey src secs req s))
      let missing := syms.filter (fun s => (c (dsKey src secs req s)).isNone)
      some (concatFrames found, missing)

/-- `set_cached`, data.py:112-160: one entry per symbol of the fetched rows. -/
def setCached {V : Type} (src : Source V) (cache : Option (DsCache V)) (req : Request) (tf : Str)
    (data : Frame V) : Option (DsCache V) :=
  if data.isEmpty then cache
  else
    match cache, toSeconds tf with
    | some c, some secs =>
      some (((data.rows.map (·.sym)).dedup).foldl
        (fun c s => fun k => if k = dsKey src secs req s then
          some ⟨data.cols, data.rows.filter (fun r => r.sym = s)⟩ else c k) c)
    | c, _ => c

/-- The columns of `verify_data_source_columns`, common.py:456-463. -/
def requiredCols : List String := ["symbol", "date", "open", "high", "low", "close"]

/-- Errors of a query. -/
inductive QErr | dates | symbols | timeframe | columns
  deriving DecidableEq

/-- `DataSource.query`, data.py:173-285, for the symbols `syms` in the iteration order of
the frozen set (duplicates are dropped here).  `fuel` bounds the recursion of line 256;
`none` is running out of it.  The answer and the cache afterwards. -/
def Source.query {V : Type} (src : Source V) : Nat → Option (DsCache V) → Request → List String →
    Option (Except QErr (Frame V) × Option (DsCache V))
  | 0, _, _, _ => none
  | fuel + 1, cache, req, symbols =>
    if req.stop < req.start then some (.error .dates, cache)
    else if symbols = [] then some (.error .symbols, cache)
    else
      match formatTimeframe req.timeframe with
      | none => some (.error .timeframe, cache)
      | some tf =>
        match getCached src cache req tf symbols.dedup with
        | none => some (.error .timeframe, cache)
        | some (cached, uncached) =>
          if uncached = [] then
            some (.ok (if cached.isEmpty then cached else ⟨cached.cols, sortRows cached.rows⟩), cache)
          else
            let df := src.fetch uncached req.start req.stop tf req.adjust
            if cache.isSome ∧ df.isEmpty = false ∧ cached.cols ≠ [] ∧
                ¬ (cached.cols ⊆ df.cols ∧ df.cols ⊆ cached.cols) then
              Source.query src fuel (some fun _ => none) { req with timeframe := tf } symbols
            else
              let df := if df.cols = [] then ⟨requiredCols, []⟩ else df
              if ¬ requiredCols ⊆ df.cols then some (.error .columns, cache)
              else
                let cache' := setCached src cache req tf df
                let out := if df.isEmpty ∧ cached.isEmpty = false then cached
                  else concatFrames [cached, df]
                some (.ok (if out.isEmpty then out else ⟨out.cols, sortRows out.rows⟩), cache')

/-- `ModelCacheKey`, cache.py:235-259. -/
structure ModelKey where
  symbol : String
  tfSeconds : Nat
  start : Int
  stop : Int
  betweenTime : Option (String × String)
  days : Option (List Nat)
  modelName : String
  pooled : Option (List String)
  lookahead : Option Nat
  deriving DecidableEq

/-- `CacheDateFields`, cache.py:156-175. -/
structure DateFields where
  start : Int
  stop : Int
  tfSeconds : Nat
  betweenTime : Option (String × String)
  days : Option (List Nat)
  deriving DecidableEq

/-- `ModelCacheKey.from_date_fields`, cache.py:261-289: the pooled symbols are sorted. -/
def modelKey (fields : DateFields) (symbol modelName : String) (pooled : Option (List String))
    (lookahead : Option Nat) : ModelKey :=
  ⟨symbol, fields.tfSeconds, fields.start, fields.stop, fields.betweenTime, fields.days, modelName,
    pooled.map (fun l => l.insertionSort (· ≤ ·)), lookahead⟩

end PyBroker
