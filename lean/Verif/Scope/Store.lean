import Verif.Portfolio.Model
import Mathlib.Data.List.Sort
import Mathlib.Data.List.Dedup

/-!
# Column store, indicator reads and the bar clock

`SymbolArrayStore`, `slice_symbol_array_store_by_dates`, `ColumnScope` and
`IndicatorScope` of `/repo/src/pybroker/scope.py`, and the active symbols and bar
counters of `/repo/src/pybroker/strategy.py`.

A cell is a float or NaN (`none`).  Non-numeric columns other than dates, memory
maps and pickling are not modelled.
-/

namespace PyBroker

/-- A cell of a data column: NaN is `none`. -/
abbrev Cell := Option ℚ

/-- A row of the data frame: symbol, date and the cells of its other columns. -/
structure DRow where
  symbol : Sym
  date : Date
  val : String → Cell

/-- The arrays of a symbol, all of one length: `sym_arrays[sym]`, 517-524. -/
structure SymArrays where
  dates : List Date
  col : String → Option (List Cell)

/-- `SymbolArrayStore`, 517-524.  `symbols` in sorted order. -/
structure Store where
  symbols : List Sym
  arrays : Sym → Option SymArrays

/-- The rows of a symbol in date order: its range of the lex-sorted frame,
`symbol_array_store_from_flat_frame`, 719-797. -/
def symRows (rows : List DRow) (sym : Sym) : List DRow :=
  (rows.filter (fun r => r.symbol = sym)).insertionSort (fun a b => a.date ≤ b.date)

/-- `symbol_array_store_from_flat_frame`, 719-797, for a frame with columns `cols`.
The shared buffers and offsets are replaced by the views into them. -/
def storeOf (cols : List String) (rows : List DRow) : Store where
  symbols := (rows.map DRow.symbol).dedup.insertionSort (· ≤ ·)
  arrays sym :=
    if sym ∈ rows.map DRow.symbol then
      some { dates := (symRows rows sym).map DRow.date,
             col := fun c => if c ∈ cols then some ((symRows rows sym).map (fun r => r.val c))
               else none }
    else none

/-- The two-pointer merge of `_sorted_dates_indices_njit`, 588-619.  `i` is the
index of the first date left. -/
def sortedIndices : List Date → List Date → Nat → List Nat
  | [], _, _ => []
  | _ :: _, [], _ => []
  | d :: ds, t :: ts, i =>
    if d = t then i :: sortedIndices ds ts (i + 1)
    else if d < t then sortedIndices ds (t :: ts) (i + 1)
    else sortedIndices (d :: ds) ts i
termination_by ds ts => ds.length + ts.length

/-- `np.flatnonzero(np.isin(dates, target))`: 832-855, 884-888. -/
def maskIndices (dates target : List Date) : List Nat :=
  (List.range dates.length).filter (fun i => (dates[i]?).any (fun d => d ∈ target))

/-- `len(a) <= 1 or np.all(a[:-1] <= a[1:])`: 869, 877-879. -/
def isSorted : List Date → Bool
  | [] => true
  | [_] => true
  | a :: b :: rest => decide (a ≤ b) && isSorted (b :: rest)

/-- The choice of 880-888. -/
def sliceIndices (dates target : List Date) : List Nat :=
  if isSorted target && isSorted dates then sortedIndices dates target 0
  else maskIndices dates target

/-- `_build_sliced_sym_arrays` for one column, 648-699: a run of rows is sliced,
other rows are gathered. -/
def gather {α : Type} (indices : List Nat) (arr : List α) : List α :=
  match indices with
  | [] => []
  | first :: _ =>
    let last := indices.getLastD first
    if last - first + 1 = indices.length then (arr.drop first).take (last + 1 - first)
    else indices.filterMap (fun i => arr[i]?)

/-- `slice_symbol_array_store_by_dates`, 858-892.  A symbol without a selected date
is dropped. -/
def sliceArrays (target : List Date) (a : SymArrays) : Option SymArrays :=
  let idx := sliceIndices a.dates target
  if idx = [] then none
  else some { dates := gather idx a.dates, col := fun c => (a.col c).map (gather idx) }

/-- `slice_symbol_array_store_by_dates`, 858-892. -/
def Store.slice (s : Store) (target : List Date) : Store where
  symbols := s.symbols.filter (fun x => ((s.arrays x).bind (sliceArrays target)).isSome)
  arrays x := (s.arrays x).bind (sliceArrays target)

/-- `SymbolArrayStore.unique_dates`, 543-558. -/
def Store.uniqueDates (s : Store) : List Date :=
  ((s.symbols.flatMap (fun x => ((s.arrays x).map SymArrays.dates).getD [])).dedup).insertionSort
    (· ≤ ·)

/-- `array[:end_index]`, for any `end_index` Python allows. -/
def sliceTo {α : Type} (l : List α) : Option Int → List α
  | none => l
  | some e => if e < 0 then l.take (l.length + e).toNat else l.take e.toNat

/-- What a read can raise. -/
inductive ReadErr
  | symbolNotFound
  | valueNotFound
  | intervalBound
  | indicatorNotFound
deriving DecidableEq, Repr

/-- `ColumnScope.fetch`, 1030-1050. -/
def Store.fetch (s : Store) (sym : Sym) (name : String) (endIndex : Option Int) :
    Except ReadErr (Option (List Cell)) :=
  match s.arrays sym with
  | none => .error .symbolNotFound
  | some a =>
    match a.col name with
    | none => .ok none
    | some l => .ok (some (sliceTo l endIndex))

/-- `array[end_index - 1]` after the clamp; `-1` reads the last value, and an empty
array raises. -/
def lastAt (l : List Cell) (endIndex : Int) : Except ReadErr Cell :=
  if endIndex ≤ 0 then .error .valueNotFound
  else
    let e := if (l.length : Int) < endIndex then (l.length : Int) else endIndex
    match l[(e - 1).toNat]? with
    | none => .error .valueNotFound
    | some v => .ok v

/-- `ColumnScope.fetch_value`, 1052-1065. -/
def Store.fetchValue (s : Store) (sym : Sym) (name : String) (endIndex : Int) :
    Except ReadErr (Option Cell) :=
  match s.arrays sym with
  | none => .error .symbolNotFound
  | some a =>
    match a.col name with
    | none => .ok none
    | some l => (lastAt l endIndex).map some

/-! ## The bar clock -/

/-- `sym_exec_dates_from_store`, 942-964, restricted to the symbols that have an
execution (strategy.py:839-845). -/
def symExecDates (s : Store) (execs : List Sym) : List (Sym × List Date) :=
  (s.symbols.filter (fun x => x ∈ execs)).filterMap
    (fun x => (s.arrays x).map (fun a => (x, a.dates)))

/-- Equality of the sets of dates. -/
def sameSet (a b : List Date) : Bool := a.all (fun d => d ∈ b) && b.all (fun d => d ∈ a)

/-- `_date_to_active_syms`, strategy.py:144-158: `aligned`. -/
def calendarAligned (sd : List (Sym × List Date)) (testDates : List Date) : Bool :=
  sd.all (fun p => sameSet p.2 testDates)

/-- `date_to_syms.get(date, ())`, strategy.py:154-158: symbols are appended to a
date's list in the order of `sym_exec_dates`. -/
def dateToSyms (sd : List (Sym × List Date)) (date : Date) : List Sym :=
  (sd.filter (fun p => date ∈ p.2)).map Prod.fst

/-- The active symbols of a bar, strategy.py:860-869: with aligned calendars, all
execution contexts. -/
def activeSyms (sd : List (Sym × List Date)) (testDates : List Date) (date : Date) : List Sym :=
  if calendarAligned sd testDates then sd.map Prod.fst else dateToSyms sd date

/-- `sym_end_index[sym] += 1` for each active symbol of a bar, strategy.py:870-871. -/
def bumpIndexes (active : List Sym) (idx : Sym → Nat) : Sym → Nat :=
  fun x => idx x + active.count x

/-- `sym_end_index` once the bars of `dates` have been entered. -/
def endIndexes (sd : List (Sym × List Date)) (testDates : List Date) (dates : List Date) :
    Sym → Nat :=
  dates.foldl (fun idx d => bumpIndexes (activeSyms sd testDates d) idx) (fun _ => 0)

/-! ## Indicators -/

/-- A computed indicator: dates and values, one per bar. -/
abbrev Series := List (Date × Cell)

/-- `IndicatorScope`: the series, the dates of the window and the cache
`_sym_inds`, 1115-1127.  `bound` says that a name belongs to an interval
(`parse_indicator_interval_name(name)[1] is not None`). -/
structure IndScope where
  data : String → Sym → Option Series
  bound : String → Bool
  filterDates : List Date
  cache : List ((String × Sym) × List Cell) := []

/-- `dict` lookup in the cache. -/
def cacheGet {K V : Type} [DecidableEq K] : List (K × V) → K → Option V
  | [], _ => none
  | (k, v) :: rest, x => if k = x then some v else cacheGet rest x

/-- The values served for a series, 1168-1182: base series are masked to the
window. -/
def IndScope.served (s : IndScope) (name : String) (ser : Series) : List Cell :=
  if s.bound name then ser.map Prod.snd
  else (ser.filter (fun p => p.1 ∈ s.filterDates)).map Prod.snd

/-- `IndicatorScope.fetch`, 1129-1184: the result and the scope with its cache. -/
def IndScope.fetch (s : IndScope) (sym : Sym) (name : String) (endIndex : Option Int) :
    Except ReadErr (List Cell) × IndScope :=
  if s.bound name && endIndex.isSome then (.error .intervalBound, s)
  else match cacheGet s.cache (name, sym) with
    | some l => (.ok (sliceTo l endIndex), s)
    | none =>
      match s.data name sym with
      | none => (.error .indicatorNotFound, s)
      | some ser =>
        (.ok (sliceTo (s.served name ser) endIndex),
          { s with cache := ((name, sym), s.served name ser) :: s.cache })

/-- `IndicatorScope.fetch_value`, 1222-1242. -/
def IndScope.fetchValue (s : IndScope) (sym : Sym) (name : String) (endIndex : Int) :
    Except ReadErr Cell × IndScope :=
  if s.bound name then (.error .intervalBound, s)
  else
    match s.fetch sym name none with
    | (.error e, s') => (.error e, s')
    | (.ok l, s') => (lastAt l endIndex, s')

/-- `_indicator_values_for_dates` for an increasing index, model.py:893-913: binary
search, then a test for equality.  `np.searchsorted` is the number of smaller
dates. -/
def valuesForDates (ser : Series) (dates : List Date) : List Cell :=
  dates.map (fun d =>
    let pos := (ser.filter (fun p => p.1 < d)).length
    match ser[pos]? with
    | none => none
    | some p => if p.1 = d then p.2 else none)

/-! ## Per-bar predictions -/

/-- `_PerBarPredictions`, 1319-1344: a buffer with spare capacity.  `np.empty` cells
hold arbitrary values, here `junk`. -/
structure PerBar where
  buf : List Cell := []
  filled : Nat := 0

/-- `append`, 1336-1342. -/
def PerBar.append (junk : Nat → Cell) (p : PerBar) (v : Cell) : PerBar :=
  let buf :=
    if p.filled = p.buf.length then
      p.buf.take p.filled ++ (List.range (max 16 (2 * p.buf.length) - p.filled)).map junk
    else p.buf
  { buf := buf.set p.filled v, filled := p.filled + 1 }

/-- `values`, 1344-1345. -/
def PerBar.values (p : PerBar) (n : Int) : List Cell :=
  p.buf.take (max 0 (min n (p.filled : Int))).toNat

end PyBroker
