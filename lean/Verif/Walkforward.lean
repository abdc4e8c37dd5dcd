import Verif.Portfolio.Model
import Mathlib.Data.List.Sort
import Mathlib.Data.List.Dedup

/-!
# Walk-forward splitting

`WalkforwardMixin.walkforward_split` of `/repo/src/pybroker/strategy.py` (1530-1728).

A data frame is the list of the dates of its rows, in row order; other columns do
not take part.  `train_size` is an exact rational and the quotients and products
of floats are exact.  An error drops the windows already yielded.
-/

namespace PyBroker

/-- What `walkforward_split` can raise: `ValueError` and `IndexError`.
`diverged` is not raised: it stands for a loop that did not stop. -/
inductive WErr
  | value
  | index
  | diverged
deriving DecidableEq, Repr

/-- `WalkforwardWindow`, 1520-1529: row numbers. -/
structure WFWindow where
  train : List Nat
  test : List Nat
deriving DecidableEq, Repr

/-- `get_unique_sorted_dates_array`, common.py:481-491 (`np.unique`). -/
def windowDates (rows : List Date) : List Date := rows.dedup.insertionSort (· ≤ ·)

/-- The test of a row's date in `_walkforward_row_mask`, 1542-1549.  `above_high` is
never set. -/
def inMask (low high : Date) (belowLow : Bool) (d : Date) : Bool :=
  (if belowLow then decide (low < d) else decide (low ≤ d)) && decide (d ≤ high)

/-- `_walkforward_row_mask`, 1534-1550. -/
def rowMask (rows : List Date) (low high : Date) (belowLow : Bool := false) : List Nat :=
  (List.range rows.length).filter
    (fun i => (rows[i]?).any (fun d => inMask low high belowLow d))

/-- `array[i]` with Python's negative indexes. -/
def pyAt (l : List Date) (i : Int) : Except WErr Date :=
  let j := if i < 0 then i + l.length else i
  if j < 0 then .error .index
  else match l[j.toNat]? with
    | none => .error .index
    | some d => .ok d

/-- `window_dates[low]`, `window_dates[high]` and the rows between them. -/
def maskAt (rows dates : List Date) (low high : Int) (belowLow : Bool := false) :
    Except WErr (List Nat) :=
  match pyAt dates low with
  | .error e => .error e
  | .ok a =>
    match pyAt dates high with
    | .error e => .error e
    | .ok b => .ok (rowMask rows a b belowLow)

/-- A train and a test mask; `shuffle` permutes the training rows. -/
def windowAt (rows dates : List Date) (shuffle : List Nat → List Nat)
    (trainLow trainHigh testLow testHigh : Int) (belowLow : Bool := false) :
    Except WErr WFWindow :=
  match maskAt rows dates trainLow trainHigh belowLow with
  | .error e => .error e
  | .ok tr =>
    match maskAt rows dates testLow testHigh belowLow with
    | .error e => .error e
    | .ok te => .ok { train := shuffle tr, test := te }

/-- Runs a list of computations, as a generator consumed to its end. -/
def collect {α : Type} : List (Except WErr α) → Except WErr (List α)
  | [] => .ok []
  | .error e :: _ => .error e
  | .ok a :: rest =>
    match collect rest with
    | .error e => .error e
    | .ok as => .ok (a :: as)

/-- The `while True` loop, 1687-1694.  `none` when it has not stopped after `fuel`
rounds. -/
def growLengths : Nat → Int → Int → ℚ → Int → Int → Option (Int × Int)
  | 0, _, _, _, _, _ => none
  | fuel + 1, res, windows, ts, tl, te =>
    let rem : ℚ := ((res - (tl + te * windows) : Int) : ℚ) / windows
    let trainIncr := truncQ (rem * ts)
    let testIncr := truncQ (rem * (1 - ts))
    if trainIncr = 0 ∨ testIncr = 0 then some (tl, te)
    else growLengths fuel res windows ts (tl + trainIncr) (te + testIncr)

/-- `train_size` 0 or 1: 1622-1651. -/
def splitWhole (rows : List Date) (windows : Int) (ts : ℚ) (shuffle : List Nat → List Nat) :
    Except WErr (List WFWindow) :=
  let dates := windowDates rows
  let length := truncQ ((dates.length : ℚ) / windows)
  if length = 0 then .error .value
  else
    let offset : Int := dates.length - length * windows
    collect ((List.range windows.toNat).map (fun i : Nat =>
      let start := offset + i * length
      match maskAt rows dates start (start + length - 1) with
      | .error e => .error e
      | .ok l => .ok (if ts = 0 then { train := [], test := l }
          else { train := shuffle l, test := [] })))

/-- One window: 1652-1678. -/
def splitOne (rows : List Date) (lookahead : Int) (ts : ℚ) (shuffle : List Nat → List Nat) :
    Except WErr (List WFWindow) :=
  let dates := windowDates rows
  let n : Int := dates.length
  let res := n - 1 - lookahead
  if res ≤ 0 then .error .value
  else
    let trainLength := truncQ (res * ts)
    let testLength := truncQ (res * (1 - ts))
    let trainStart := n - lookahead - trainLength - testLength - 1
    let trainEnd := trainStart + trainLength
    let testStart := trainEnd + lookahead
    if n ≤ testStart then .error .value
    else collect [windowAt rows dates shuffle trainStart trainEnd testStart (n - 1)]

/-- The indexes of window `i`, 1703-1710. -/
def windowIdx (trainLength testLength lookahead : Int) (i : Nat) : Int × Int × Int × Int :=
  let testEnd := i * testLength
  let testStart := testEnd + testLength
  let trainEnd := testStart + lookahead - 1
  (trainEnd + trainLength, trainEnd, testStart, testEnd)

/-- Several windows: 1679-1728.  The fuel is more rounds than the loop can take
(`split_total`). -/
def splitMany (rows : List Date) (windows lookahead : Int) (ts : ℚ)
    (shuffle : List Nat → List Nat) : Except WErr (List WFWindow) :=
  let dates := windowDates rows
  let res : Int := dates.length - (lookahead - 1) * windows
  let avg : ℚ := (res : ℚ) / windows
  let trainLength := truncQ (avg * ts)
  let testLength := truncQ (avg * (1 - ts))
  if trainLength < 0 ∨ testLength < 0 then .error .value
  else match growLengths (res.toNat + 1) res windows ts trainLength testLength with
    | none => .error .diverged
    | some (tl, te) =>
      if tl = 0 ∧ te = 0 then .error .value
      else collect (((List.range windows.toNat).map (windowIdx tl te lookahead)).reverse.map
        (fun w => windowAt rows dates.reverse shuffle w.1 w.2.1 w.2.2.1 w.2.2.2 true))

/-- `walkforward_split`, 1606-1728. -/
def walkforwardSplit (rows : List Date) (windows lookahead : Int) (ts : ℚ)
    (shuffle : List Nat → List Nat := id) : Except WErr (List WFWindow) :=
  if windows ≤ 0 then .error .value
  else if lookahead ≤ 0 then .error .value
  else if ts < 0 then .error .value
  else if rows = [] then .error .value
  else if ts = 0 ∨ ts = 1 then splitWhole rows windows ts shuffle
  else if windows = 1 then splitOne rows lookahead ts shuffle
  else splitMany rows windows lookahead ts shuffle

end PyBroker
