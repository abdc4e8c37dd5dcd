import Verif.Interval.Build

/-!
# The function `compress_bars`

`/repo/src/pybroker/interval.py`: compression of one symbol's bars by a user.
-/

namespace PyBroker

/-- `BarData`, common.py:280-319.  Its arrays are given by bar: `hasVolume` and `hasVwap` tell whether
the arrays `volume` and `vwap` are set, and `custom` names the columns that are set. -/
structure BarTable where
  bars : List IBar
  hasVolume : Bool
  hasVwap : Bool
  custom : List String

/-- What `compress_bars` compresses: a `BarData`, or a frame with columns `cols`.  The rows of a frame
without a column `symbol` may have any `symbol` here: it is not read. -/
inductive BarsIn where
  | data (t : BarTable)
  | frame (cols : List String) (rows : List DRow)

/-- What `compress_bars` raises. -/
inductive CompressErr where
  | bad (e : IvDataErr)
  | manySymbols
  deriving DecidableEq, Repr

/-- `_RESERVED_OHLCV_COLS`, interval.py:65-76. -/
def reservedCols : List String :=
  ["date", "open", "high", "low", "close", "volume", "vwap", "symbol"]

/-- `_ohlcv_from_bar_data`, interval.py:510-529: without volumes they are 0. -/
def BarTable.arrays (t : BarTable) : List IBar :=
  t.bars.map (fun b => { b with
    volume := if t.hasVolume then b.volume else some 0
    vwap := if t.hasVwap then b.vwap else none
    custom := fun c => if c ∈ t.custom then b.custom c else none })

/-- `compressed_bars_to_bar_data(_compress_ohlcv(arrays, interval)[0])`, interval.py:1230-1246 and
813-824.  Without bars `compress` (1150-1163) leaves out the VWAP and the custom columns. -/
def compressTable (monthOf yearOf : Date → Int) (iv : Iv) (hasVwap : Bool) (custom : List String)
    (bars : List IBar) : BarTable :=
  { bars := (compressIv monthOf yearOf iv bars).1
    hasVolume := true
    hasVwap := !bars.isEmpty && hasVwap
    custom := if bars.isEmpty then [] else custom }

/-- The branch on the kind of data, interval.py:1268-1298: the compressed bars of a frame or a
`BarData`, for a normalised interval.  Custom columns are numbers (text in a frame raises). -/
def compressInput (monthOf yearOf : Date → Int) (iv : Iv) (base : Nat) :
    BarsIn → Except CompressErr BarTable
  | .data t => .ok (compressTable monthOf yearOf iv t.hasVwap t.custom t.arrays)
  | .frame cols rows =>
    if rows = [] then .ok (compressTable monthOf yearOf iv false [] [])
    else if "symbol" ∈ cols ∧ 1 < (rows.map DRow.symbol).dedup.length then .error .manySymbols
    else if spacingOk base (rows.map DRow.date) = false then
      .error (.bad (.spacing (if "symbol" ∈ cols then (rows.map DRow.symbol).headD "" else "data")))
    else
      let customs := cols.filter (fun c => decide (c ∉ reservedCols))
      .ok (compressTable monthOf yearOf iv (decide ("vwap" ∈ cols)) customs
        (rows.map (barOf cols customs)))

/-- `compress_bars`, interval.py:1249-1299. -/
def compressBars (monthOf yearOf : Date → Int) (inp : BarsIn) (iv : Iv) (timeframe : Str) :
    Except CompressErr BarTable :=
  match baseSeconds timeframe with
  | .error e => .error (.bad e)
  | .ok base =>
    match normalizeIv iv with
    | none => .error (.bad .badInterval)
    | some n =>
      match validateIv n base with
      | .error e => .error (.bad e)
      | .ok _ => compressInput monthOf yearOf n base inp

/-- `is_valid_interval`, interval.py:844-852. -/
def isValidInterval (iv : Iv) (base : Nat) : Bool :=
  match validateIv iv base with
  | .ok _ => true
  | .error _ => false

end PyBroker
