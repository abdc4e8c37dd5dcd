import Verif.Scope.Interval
import Mathlib.Data.Rat.Floor

/-!
# Compressed data of a run

`/repo/src/pybroker/interval.py` (validation of intervals and of the spacing of bars, compression
of a frame) and `/repo/src/pybroker/strategy.py` (`_build_interval_data`).
-/

namespace PyBroker

/-- What is raised. -/
inductive IvDataErr where
  | noTimeframe
  | badTimeframe
  | badInterval
  | notCoarser
  | spacing (sym : Sym)
  deriving DecidableEq, Repr

/-- `_CALENDAR_INTERVAL_SECONDS`, interval.py:48-54. -/
def calendarSeconds : Calendar → Nat
  | .daily => 86400
  | .weekly => 7 * 86400
  | .monthly => 28 * 86400
  | .quarterly => 90 * 86400
  | .yearly => 365 * 86400

/-- The calendar interval of a name, `_CALENDAR_INTERVALS`, interval.py:44-46. -/
def calendarOf (s : Str) : Option Calendar :=
  if s = "daily".toList then some .daily
  else if s = "weekly".toList then some .weekly
  else if s = "monthly".toList then some .monthly
  else if s = "quarterly".toList then some .quarterly
  else if s = "yearly".toList then some .yearly
  else none

/-- `_coarser_interval_seconds`, interval.py:715-719; `none` is the `ValueError` of `to_seconds`. -/
def coarserSeconds (s : Str) : Option Nat :=
  match calendarOf s with
  | some c => some (calendarSeconds c)
  | none => toSeconds s

/-- `base_timeframe_to_seconds`, interval.py:743-750, with the check for a blank timeframe of
strategy.py:2192. -/
def baseSeconds (timeframe : Str) : Except IvDataErr Nat :=
  if stripWs timeframe = [] then .error .noTimeframe
  else match toSeconds timeframe with
    | none => .error .badTimeframe
    | some n => if n ≤ 0 then .error .badTimeframe else .ok n

/-- `validate_interval`, interval.py:827-841. -/
def validateIv (iv : Iv) (base : Nat) : Except IvDataErr Unit :=
  match normalizeIv iv with
  | none => .error .badInterval
  | some (.num _) => .ok ()
  | some (.str s) =>
    match coarserSeconds s with
    | none => .error .badInterval
    | some n => if n ≤ base then .error .notCoarser else .ok ()

/-- `np.round` to a whole number: half to even. -/
def roundEven (q : ℚ) : Int :=
  let f := ⌊q⌋
  let r := q - f
  if r < 1 / 2 then f
  else if r > 1 / 2 then f + 1
  else if f % 2 = 0 then f else f + 1

/-- `_base_spacing_tolerance`, interval.py:753-762, in seconds. -/
def spacingTol (base : Nat) : ℚ := if base ≥ 86400 then 3600 + 1 else 1

/-- Whether a gap of `ns` nanoseconds between bars is accepted, interval.py:788-792. -/
def gapOk (base : Nat) (ns : Int) : Bool :=
  let gap : ℚ := (ns : ℚ) / 1000000000
  let multiple : ℚ := max (roundEven (gap / base) : ℚ) 1
  let residual := |gap - multiple * base|
  !decide (residual > spacingTol base * multiple)

/-- The differences of `np.diff`. -/
def diffs : List Date → List Int
  | a :: b :: rest => (b - a) :: diffs (b :: rest)
  | _ => []

/-- `_validate_symbol_dates_for_base`, interval.py:765-800.  `np.unique` sorts and removes
duplicates. -/
def spacingOk (base : Nat) (dates : List Date) : Bool :=
  (diffs (dates.dedup.insertionSort (· ≤ ·))).all (gapOk base)

/-- The bars of rows, `_extract_ohlcv_arrays_masked`, interval.py:447-507.  Without a `volume` column
the volume is 0. -/
def barOf (cols customs : List String) (r : DRow) : IBar where
  date := r.date
  opn := r.val "open"
  high := r.val "high"
  low := r.val "low"
  close := r.val "close"
  volume := if "volume" ∈ cols then r.val "volume" else some 0
  vwap := if "vwap" ∈ cols then r.val "vwap" else none
  custom := fun c => if c ∈ customs ∧ c ∈ cols then r.val c else none

/-- The bin of a date, interval.py:1190-1194. -/
def binOf (monthOf yearOf : Date → Int) (s : Str) (d : Date) : Int :=
  match calendarOf s with
  | some c => calendarBin monthOf yearOf c d
  | none => durationBin ((toSeconds s).getD 0) d

/-- `compress`, interval.py:1133-1227, for a normalised interval. -/
def compressIv (monthOf yearOf : Date → Int) (iv : Iv) (bars : List IBar) : List IBar × List Int :=
  match iv with
  | .num n => compressEveryN n.toNat bars
  | .str s => compressBins (binOf monthOf yearOf s) bars

/-- `CompressedSymbolData` of rows, interval.py:1335-1339. -/
def symDataOf (monthOf yearOf : Date → Int) (cols customs : List String) (iv : Iv)
    (rows : List DRow) : IvSymData :=
  let bars := rows.map (barOf cols customs)
  let out := compressIv monthOf yearOf iv bars
  { data := { bars := out.1, completed := out.2, baseDates := bars.map IBar.date }
    hasVwap := decide ("vwap" ∈ cols)
    custom := customs.filter (fun c => decide (c ∈ cols)) }

/-- `_symbol_row_groups`, interval.py:353-373: the symbols in order and the rows of each, in the order
of the frame (the sort by symbol is stable). -/
def rowGroups (rows : List DRow) : List (Sym × List DRow) :=
  ((rows.map DRow.symbol).dedup.insertionSort (· ≤ ·)).map
    (fun sym => (sym, rows.filter (fun r => r.symbol = sym)))

/-- An execution, as far as its intervals go: its symbols (`none` for a selector) and the intervals
declared for it or bound to its indicators and models, strategy.py:2484-2502. -/
structure ExecIvs where
  symbols : Option (List Sym)
  intervals : List Iv
  deriving DecidableEq, Repr

/-- `_all_intervals`, strategy.py:644-651. -/
def allIntervals (execs : List ExecIvs) : List Iv := (execs.flatMap ExecIvs.intervals).dedup

/-- `_symbol_intervals`, strategy.py:654-680: the intervals of a symbol. -/
def symbolIntervals (execs : List ExecIvs) (rows : List DRow) (sym : Sym) : List Iv :=
  ((execs.flatMap (fun e =>
      match e.symbols with
      | some syms => if sym ∈ syms then e.intervals else []
      | none => [])) ++
    (if sym ∈ rows.map DRow.symbol then
      execs.flatMap (fun e => match e.symbols with | some _ => [] | none => e.intervals)
    else [])).dedup

/-- `compress_symbol_intervals_from_frame`, interval.py:1302-1340, for a symbol that has rows. -/
def compressSymbol (monthOf yearOf : Date → Int) (cols customs : List String) (base : Nat)
    (sym : Sym) (rows : List DRow) (ivs : List Iv) :
    Except IvDataErr (List ((Sym × Iv) × IvSymData)) :=
  if spacingOk base (rows.map DRow.date) = false then .error (.spacing sym)
  else ivs.mapM (fun iv => do
    validateIv iv base
    pure ((sym, iv), symDataOf monthOf yearOf cols customs iv rows))

/-- `compress_intervals_from_frame`, interval.py:1343-1377. -/
def compressFrame (monthOf yearOf : Date → Int) (cols customs : List String) (base : Nat)
    (ivsOf : Sym → List Iv) (rows : List DRow) :
    Except IvDataErr (List ((Sym × Iv) × IvSymData)) := do
  let parts ← (rowGroups rows).mapM (fun g =>
    if ivsOf g.1 = [] then .ok []
    else compressSymbol monthOf yearOf cols customs base g.1 g.2 (ivsOf g.1))
  pure parts.flatten

/-- `_build_interval_data`, strategy.py:2179-2211: the compressed data by symbol and interval. -/
def buildIntervalData (monthOf yearOf : Date → Int) (cols customs : List String)
    (execs : List ExecIvs) (timeframe : Str) (rows : List DRow) :
    Except IvDataErr (List ((Sym × Iv) × IvSymData)) :=
  if allIntervals execs = [] then .ok []
  else do
    let base ← baseSeconds timeframe
    (allIntervals execs).forM (fun iv => validateIv iv base)
    compressFrame monthOf yearOf cols customs base (symbolIntervals execs rows) rows

end PyBroker
