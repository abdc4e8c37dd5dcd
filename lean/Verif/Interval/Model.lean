import Verif.Scope.Store

/-!
# Compression of bars into intervals

`/repo/src/pybroker/interval.py` (`compress` and what it calls, `slice_for_test`) and
the bar reads of `IntervalScope` (`/repo/src/pybroker/scope.py`).

A cell is a float or NaN (`none`).  The bars of a symbol are given as a list in date
order instead of one array per column.
-/

namespace PyBroker

/-- The cells of a base bar or of a compressed bar. -/
structure IBar where
  date : Date
  opn : Cell
  high : Cell
  low : Cell
  close : Cell
  volume : Cell
  vwap : Cell
  custom : String → Cell

/-- `CalendarInterval`, interval.py:30. -/
inductive Calendar where
  | daily | weekly | monthly | quarterly | yearly
  deriving DecidableEq, Repr

/-- Nanoseconds of a day. -/
def dayNs : Int := 86400 * 1000000000

/-- `_calendar_bin_ids`, interval.py:855-867.  Dates are nanoseconds since the epoch.
`monthOf` and `yearOf` stand for numpy's conversions to `datetime64[M]` and
`datetime64[Y]`. -/
def calendarBin (monthOf yearOf : Date → Int) (c : Calendar) (d : Date) : Int :=
  match c with
  | .daily => Int.fdiv d dayNs
  | .weekly => Int.fdiv (Int.fdiv d dayNs + 3) 7
  | .monthly => monthOf d
  | .quarterly => Int.fdiv (monthOf d) 3
  | .yearly => yearOf d

/-- `_duration_bin_ids`, interval.py:870-876. -/
def durationBin (seconds : Nat) (d : Date) : Int := Int.fdiv d (seconds * 1000000000)

/-- The loop of `_find_bin_starts_ends`, interval.py:924-931: `prev` is the bin of bar
`i - 1` and `start` the first bar of the current bin. -/
def findBinsFrom (prev : Int) (i start : Nat) : List Int → List (Nat × Nat)
  | [] => [(start, i - 1)]
  | b :: bs =>
    if b ≠ prev then (start, i - 1) :: findBinsFrom b (i + 1) i bs
    else findBinsFrom b (i + 1) start bs

/-- `_find_bin_starts_ends`, interval.py:910-931: start and end of each bin. -/
def findBins : List Int → List (Nat × Nat)
  | [] => []
  | b :: bs => findBinsFrom b 1 0 bs

/-- Float addition. -/
def cellAdd : Cell → Cell → Cell
  | some a, some b => some (a + b)
  | _, _ => none

/-- The running maximum of interval.py:965-967. -/
def cellMax (hi x : Cell) : Cell :=
  match x, hi with
  | none, _ => hi
  | some x, none => some x
  | some x, some h => if x > h then some x else some h

/-- The running minimum of interval.py:968-970. -/
def cellMin (lo x : Cell) : Cell :=
  match x, lo with
  | none, _ => lo
  | some x, none => some x
  | some x, some l => if x < l then some x else some l

/-- The bars of a bin. -/
def segment (bars : List IBar) (p : Nat × Nat) : List IBar := (bars.drop p.1).take (p.2 + 1 - p.1)

/-- `_aggregate_vwap`, interval.py:998-1018, for one bin. -/
def aggVwap (seg : List IBar) : Cell :=
  let weighted := seg.foldl (fun a b => cellAdd a (cell2' (· * ·) b.vwap b.volume)) (some 0)
  let vol := seg.foldl (fun a b => cellAdd a b.volume) (some 0)
  let plain := (seg.foldl (fun a b => cellAdd a b.vwap) (some 0)).map (· / (seg.length : ℚ))
  match vol with
  | some v => if v > 0 then weighted.map (· / v) else plain
  | none => plain
where
  cell2' (f : ℚ → ℚ → ℚ) : Cell → Cell → Cell
    | some a, some b => some (f a b)
    | _, _ => none

/-- `_aggregate_bins` for one bin, interval.py:955-980, with the custom columns of
`_aggregate_custom_cols` (984-995) and `interval_dates = dates[ends]` (1192). -/
def aggBin (bars : List IBar) (p : Nat × Nat) : Option IBar :=
  match bars[p.1]?, bars[p.2]? with
  | some s, some e =>
    let seg := segment bars p
    some { date := e.date, opn := s.opn,
           high := seg.foldl (fun h b => cellMax h b.high) none,
           low := seg.foldl (fun l b => cellMin l b.low) none,
           close := e.close,
           volume := seg.foldl (fun v b => cellAdd v b.volume) (some 0),
           vwap := aggVwap seg,
           custom := e.custom }
  | _, _ => none

/-- `_compute_completed`, interval.py:1021-1049, for calendar and duration bins
(`interval_n ≤ 0`, the only calls). -/
def computeCompleted (n : Nat) (segs : List (Nat × Nat)) : List Int :=
  (List.range n).map (fun t =>
    let c : Int := ((segs.filter (fun p => p.2 ≤ t)).length : Int) - 1
    if segs = [] then c
    else if c = (segs.length : Int) - 1 then (segs.length : Int) - 2 else c)

/-- `compress` for calendar and duration intervals, interval.py:1174-1228. -/
def compressBins (bin : Date → Int) (bars : List IBar) : List IBar × List Int :=
  let segs := findBins (bars.map (fun b => bin b.date))
  (segs.filterMap (aggBin bars), computeCompleted bars.length segs)

/-- Starts and ends of `_compress_every_n_bars`, interval.py:1064-1101, 1112-1115. -/
def everyNSegs (k n : Nat) : List (Nat × Nat) :=
  let nFull := n / k * k
  (List.range (n / k)).map (fun i => (i * k, i * k + k - 1)) ++
    (if nFull < n then [(nFull, n - 1)] else [])

/-- `completed` of `_compress_every_n_bars`, interval.py:1107-1113. -/
def everyNCompleted (k n : Nat) : List Int :=
  (List.range n).map (fun i =>
    let c : Int := if i % k = k - 1 then ((i / k : Nat) : Int) else ((i / k : Nat) : Int) - 1
    if n % k ≠ 0 ∧ i / k = (n - 1) / k then (((n - 1) / k : Nat) : Int) - 1 else c)

/-- `_compress_every_n_bars`, interval.py:1052-1130.  `nanmax`, `nanmin` and `sum` of a
row of the reshaped array are the aggregates of the row's bars. -/
def compressEveryN (k : Nat) (bars : List IBar) : List IBar × List Int :=
  ((everyNSegs k bars.length).filterMap (aggBin bars), everyNCompleted k bars.length)

/-! ## Reads -/

/-- `CompressedSymbolData`, interval.py:142-148. -/
structure Compressed where
  bars : List IBar
  completed : List Int
  baseDates : List Date

/-- `np.searchsorted(dates, d)` (left). -/
def searchLeft (dates : List Date) (d : Date) : Nat := (dates.filter (fun x => x < d)).length

inductive IntervalErr where
  | notSubset
  deriving DecidableEq, Repr

/-- `IntervalData.slice_for_test` for one symbol and interval, interval.py:157-182.  A
test date after the last base date indexes past the array (`IndexError`), which is
`notSubset` here too. -/
def Compressed.sliceForTest (c : Compressed) (testDates : List Date) :
    Except IntervalErr Compressed :=
  let idx := testDates.map (searchLeft c.baseDates)
  if idx.map (fun i => c.baseDates[i]?) = testDates.map some then
    .ok { c with completed := idx.filterMap (fun i => c.completed[i]?), baseDates := testDates }
  else .error .notSubset

/-- `IntervalScope.completed_index`, scope.py:1462-1478. -/
def Compressed.completedIndex (c : Compressed) (endIndex : Int) : Int :=
  if endIndex ≤ 0 ∨ c.completed.length = 0 then -1
  else
    let e := if endIndex > c.completed.length then (c.completed.length : Int) else endIndex
    c.completed.getD (e - 1).toNat (-1)

/-- `IntervalScope.fetch_bar`, scope.py:1480-1525: the bars visible at an end index,
of which one column is returned. -/
def Compressed.visible (c : Compressed) (endIndex : Int) : List IBar :=
  let idx := c.completedIndex endIndex
  if idx < 0 then [] else c.bars.take (idx + 1).toNat

end PyBroker
