import Verif.Scope.Store
import Verif.Text.Model

/-!
# The bars a run is given

`_between`, `Strategy._fetch_data`, `_reject_duplicate_bars`, `_to_day_ids`,
`_filter_dates` and the date checks of `Strategy.walkforward`, all of
`/repo/src/pybroker/strategy.py`.

A date is the number of nanoseconds since 1970-01-01 00:00 UTC (`datetime64[ns]`);
a time zone is only a flag of the date column, since the code converts to UTC
before it compares.  A time of day is given as nanoseconds since midnight: reading
the strings of `between_time` is pandas' work and not modelled.
-/

namespace PyBroker

/-- A `pandas.DataFrame` of bars.  `tz`: its date column is time zone aware.
`ranged`: its index is `RangeIndex(0, n)`.  `own`: it is the very object the caller
passed as data source. -/
structure BarFrame where
  rows : List DRow
  tz : Bool := false
  ranged : Bool := true
  own : Bool := false

/-- `_between`, 161-178: the rows dated in the range; the frame itself when that is
all of them. -/
def BarFrame.between (f : BarFrame) (start stop : Date) : BarFrame :=
  if f.rows = [] then f
  else
    let kept := f.rows.filter (fun r => decide (start ≤ r.date) && decide (r.date ≤ stop))
    if kept.length = f.rows.length then f
    else { f with rows := kept, ranged := false, own := false }

/-- `_ensure_range_index`, common.py:670-678. -/
def BarFrame.ensureRange (f : BarFrame) : BarFrame :=
  if f.ranged then f else { f with ranged := true, own := false }

/-- `df[df[symbol].isin(syms)]`, 3444: a new frame. -/
def BarFrame.isin (f : BarFrame) (syms : List Sym) : BarFrame :=
  { f with rows := f.rows.filter (fun r => decide (r.symbol ∈ syms)), ranged := false, own := false }

/-- `df.duplicated(subset=[symbol, date]).any()`, 3473-3474: some row repeats the
symbol and date of an earlier one. -/
def hasDuplicates : List DRow → Bool
  | [] => false
  | r :: rest => rest.any (fun s => s.symbol == r.symbol && s.date == r.date) || hasDuplicates rest

/-- What preparing a run can raise. -/
inductive PrepErr
  | startDate
  | endDate
  | dateRange
  | selectorSource
  | emptySource
  | duplicateBars
  | unknownDay
  deriving DecidableEq, Repr

/-- The data source of a strategy: a frame, or a `DataSource` given by its `query`
of symbols and dates. -/
inductive BarSource
  | frame (f : BarFrame)
  | source (query : List Sym → Date → Date → BarFrame)

/-- The symbols of an execution: fixed, or chosen by a `SymbolSelector` (`none`). -/
abbrev ExecSymbols := Option (List Sym)

/-- `_has_symbol_selector`, 2891-2892. -/
def hasSelector (execs : List ExecSymbols) : Bool := execs.any Option.isNone

/-- `unique_syms`, 3425-3429 and 3438-3442: `_static_symbols` of each execution. -/
def staticSyms (execs : List ExecSymbols) : List Sym := execs.flatMap (fun e => e.getD [])

/-- `_fetch_data`, 3415-3450. -/
def fetchData (src : BarSource) (execs : List ExecSymbols) (start stop : Date) :
    Except PrepErr BarFrame :=
  let found : Except PrepErr BarFrame :=
    match src with
    | .source query =>
      if hasSelector execs then .error .selectorSource
      else .ok (query (staticSyms execs) start stop)
    | .frame f =>
      let df := f.between start stop
      .ok (if hasSelector execs then df else df.isin (staticSyms execs))
  match found with
  | .error e => .error e
  | .ok df =>
    if df.rows = [] then .error .emptySource
    else if hasDuplicates df.rows then .error .duplicateBars
    else .ok df.ensureRange

/-! ## Days and times -/

/-- A day of `days`: a name, or a `Day` by its value. -/
inductive DayArg
  | name (s : Str)
  | day (n : Fin 7)
  deriving DecidableEq, Repr

/-- The members of `Day` in the order of their values 0 to 6, common.py:149-158. -/
def dayMembers : List Str :=
  ["MON".toList, "TUES".toList, "WEDS".toList, "THURS".toList, "FRI".toList, "SAT".toList,
    "SUN".toList]

/-- `Day[name]`: the value of a member; an unknown name raises `KeyError`. -/
def dayValue (s : Str) : Except PrepErr Nat :=
  match dayMembers.idxOf? s with
  | none => .error .unknownDay
  | some n => .ok n

/-- The value of one day, 2883-2887.  Simplified: `str.upper` by character. -/
def DayArg.value : DayArg → Except PrepErr Nat
  | .name s => dayValue (s.map Char.toUpper)
  | .day n => .ok n

/-- The values of all days, in order; the first unknown name raises. -/
def dayValues : List DayArg → Except PrepErr (List Nat)
  | [] => .ok []
  | a :: rest =>
    match a.value with
    | .error e => .error e
    | .ok n =>
      match dayValues rest with
      | .error e => .error e
      | .ok ns => .ok (n :: ns)

/-- `_to_day_ids`, 2876-2889: a set of days, sorted by value.  A single day is a
list of one. -/
def toDayIds (days : Option (List DayArg)) : Except PrepErr (Option (List Nat)) :=
  match days with
  | none => .ok none
  | some l =>
    match dayValues l.dedup with
    | .error e => .error e
    | .ok ns => .ok (some (ns.insertionSort (· ≤ ·)))

/-- Nanoseconds of a day. -/
def nsOfDay : Int := 86400 * 1000000000

/-- `DatetimeIndex.weekday`: Monday is 0; 1970-01-01 was a Thursday. -/
def weekday (d : Date) : Nat := ((d / nsOfDay + 3) % 7).toNat

/-- The time of day of a date. -/
def timeOfDay (d : Date) : Int := d % nsOfDay

/-- The mask of `DataFrame.between_time(start, end)`: both ends are included, and a
range that starts after it ends passes midnight. -/
def inTimes (start stop : Int) (d : Date) : Bool :=
  if start ≤ stop then decide (start ≤ timeOfDay d) && decide (timeOfDay d ≤ stop)
  else decide (start ≤ timeOfDay d) || decide (timeOfDay d ≤ stop)

/-- `_filter_dates`, 3242-3273: the rows, and whether the time zone was taken off
the date column of the caller's own frame (3253-3256). -/
def filterDates (f : BarFrame) (stratStart stratStop start stop : Date)
    (times : Option (Int × Int)) (days : Option (List Nat)) : List DRow × Bool :=
  let f := if start ≠ stratStart ∨ stop ≠ stratStop then (f.between start stop).ensureRange else f
  let stripped := f.tz && f.own
  let rows := f.rows
  let rows := match days with
    | none => rows
    | some ids => rows.filter (fun r => decide (weekday r.date ∈ ids))
  let rows := match times with
    | none => rows
    | some (a, b) => rows.filter (fun r => inTimes a b r.date)
  (rows, stripped)

/-- What a call of `walkforward` says about dates. -/
structure RunDates where
  start : Option Date := none
  stop : Option Date := none
  times : Option (Int × Int) := none
  days : Option (List DayArg) := none

/-- The part of `walkforward` that prepares the bars, 2751-2791, for a strategy
over the dates from `stratStart` to `stratStop`. -/
def prepareBars (src : BarSource) (execs : List ExecSymbols) (stratStart stratStop : Date)
    (r : RunDates) : Except PrepErr (List DRow × Bool) :=
  let start := r.start.getD stratStart
  if start < stratStart ∨ stratStop < start then .error .startDate
  else
    let stop := r.stop.getD stratStop
    if stop < stratStart ∨ stratStop < stop then .error .endDate
    else if stop < start then .error .dateRange
    else
      match fetchData src execs stratStart stratStop with
      | .error e => .error e
      | .ok df =>
        match toDayIds r.days with
        | .error e => .error e
        | .ok ids => .ok (filterDates df stratStart stratStop start stop r.times ids)

end PyBroker
