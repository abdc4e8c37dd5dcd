/-
Converting results to JSON values: `_json_safe` and `_json_safe_key`,
/repo/src/pybroker/common.py:499-627.
-/
import Mathlib.Data.Rat.Defs
import Mathlib.Algebra.Order.Ring.Rat

namespace PyBroker

/-- A Python `float`: a finite value, NaN or one of the infinities. -/
inductive PyFloat
  | fin (q : ℚ)
  | nan
  | inf
  | ninf
  deriving DecidableEq, Repr

/-- Python values as the branches of `_json_safe` (common.py:511-610) tell them
apart, in the order of the branches.

Simplified: dates, times, durations and unrecognised objects carry the text
their branch returns (`isoformat()`, `str()` with the address removed), since
formatting them is left to Python and pandas.  A dict is the list of its items
in insertion order, a set the list of its elements in iteration order. -/
inductive PyVal
  | none
  | bool (b : Bool)
  | str (s : String)
  /-- An `Enum` member and its value. -/
  | enum (v : PyVal)
  /-- `bytes`, by the text they decode to. -/
  | bytes (s : String)
  | int (i : Int)
  | float (f : PyFloat)
  | decimal (f : PyFloat)
  /-- `pd.NaT`, and NaT of the numpy date and duration types. -/
  | nat
  /-- `datetime`, `date`, `pd.Timestamp`, `np.datetime64`, by the text. -/
  | date (iso : String)
  | npBool (b : Bool)
  /-- `timedelta`, `np.timedelta64`, by the text. -/
  | delta (iso : String)
  | npInt (i : Int)
  /-- `np.floating` types that are not Python floats, up to `np.longdouble`. -/
  | npFloat (f : PyFloat)
  /-- A 0-dimensional array. -/
  | array0 (v : PyVal)
  | array (l : List PyVal)
  /-- A value with `_asdict`: its fields. -/
  | record (l : List (PyVal × PyVal))
  | dict (l : List (PyVal × PyVal))
  | list (l : List PyVal)
  | tuple (l : List PyVal)
  | set (l : List PyVal)
  /-- `pd.NA` and other scalars `pd.isna` reports. -/
  | na
  /-- Anything else, by its text. -/
  | other (text : String)

/-- What `_json_safe` uses of the Python library: `json.dumps(v, allow_nan=False)`
(`none` when it raises), `sorted` with the fallback to `key=repr`
(common.py:594-598), and the largest finite `float`. -/
structure PyLib where
  dumps : PyVal → Option String
  sorted : List PyVal → List PyVal
  maxFloat : ℚ

/-- `float(x)` for a finite `Decimal` or `np.longdouble`: beyond the range of a
float the result is an infinity.  Simplified: rounding to a double is left out. -/
def PyLib.toFloat (lib : PyLib) (q : ℚ) : PyFloat :=
  if lib.maxFloat < q then .inf
  else if q < -lib.maxFloat then .ninf
  else .fin q

/-- The number a dict key is compared by; `True == 1 == 1.0` in Python. -/
def PyVal.num : PyVal → Option ℚ
  | .bool b => some (if b then 1 else 0)
  | .int i => some i
  | .float (.fin q) => some q
  | _ => Option.none

/-- Equality of the keys `_json_safe_key` returns. -/
def keyEq : PyVal → PyVal → Bool
  | .none, .none => true
  | .str a, .str b => a == b
  | .float .inf, .float .inf => true
  | .float .ninf, .float .ninf => true
  | a, b => a.num.isSome && a.num == b.num

/-- `d[k] = v`: the first of two equal keys stays, with the last value. -/
def dictPut : List (PyVal × PyVal) → PyVal → PyVal → List (PyVal × PyVal)
  | [], k, v => [(k, v)]
  | (k', v') :: rest, k, v =>
    if keyEq k' k then (k', v) :: rest else (k', v') :: dictPut rest k v

/-- The dict a comprehension builds from its items in order, common.py:588. -/
def dictOf (l : List (PyVal × PyVal)) : List (PyVal × PyVal) :=
  l.foldl (fun d kv => dictPut d kv.1 kv.2) []

/-- What `_json_safe_key` makes of a converted key, common.py:624-627. -/
def keyOf (lib : PyLib) : PyVal → Option PyVal
  | .none => some .none
  | .bool b => some (.bool b)
  | .int i => some (.int i)
  | .float f => some (.float f)
  | .str s => some (.str s)
  | v => (lib.dumps v).map .str

/-- The branch for floats, common.py:526-531 and 572-577. -/
def floatBranch (back : ℚ → PyFloat) : PyFloat → PyVal
  | .nan => .none
  | .inf => .str "Infinity"
  | .ninf => .str "-Infinity"
  | .fin q => .float (back q)

mutual

/-- `_json_safe`, common.py:499-610; `none` is an exception. -/
def jsonSafe (lib : PyLib) : PyVal → Option PyVal
  | .none => some .none
  | .bool b => some (.bool b)
  | .str s => some (.str s)
  | .enum v => jsonSafe lib v
  | .bytes s => some (.str s)
  | .int i => some (.int i)
  | .float f => some (floatBranch .fin f)
  | .decimal f => some (floatBranch lib.toFloat f)
  | .nat => some .none
  | .date s => some (.str s)
  | .npBool b => some (.bool b)
  | .delta s => some (.str s)
  | .npInt i => some (.int i)
  | .npFloat f => some (floatBranch lib.toFloat f)
  | .array0 v => jsonSafe lib v
  | .array l => (jsonSafeList lib l).map .list
  | .record l => (jsonSafeItems lib l).map (fun d => .dict (dictOf d))
  | .dict l => (jsonSafeItems lib l).map (fun d => .dict (dictOf d))
  | .list l => (jsonSafeList lib l).map .list
  | .tuple l => (jsonSafeList lib l).map .list
  | .set l => (jsonSafeList lib l).map (fun d => .list (lib.sorted d))
  | .na => some .none
  | .other s => some (.str s)

/-- `[_json_safe(v) for v in value]`, common.py:584 and 590. -/
def jsonSafeList (lib : PyLib) : List PyVal → Option (List PyVal)
  | [] => some []
  | v :: l =>
    match jsonSafe lib v with
    | Option.none => Option.none
    | some w => (jsonSafeList lib l).map (w :: ·)

/-- The items of the rebuilt dict, with `_json_safe_key` (common.py:613-627) of
each key. -/
def jsonSafeItems (lib : PyLib) : List (PyVal × PyVal) → Option (List (PyVal × PyVal))
  | [] => some []
  | (k, v) :: l =>
    match (jsonSafe lib k).bind (keyOf lib) with
    | Option.none => Option.none
    | some k' =>
      match jsonSafe lib v with
      | Option.none => Option.none
      | some v' => (jsonSafeItems lib l).map ((k', v') :: ·)

end

/-- `_dataframe_records`, common.py:630-650: the first `maxRows` records of the
frame converted; `none` is an exception.  Simplified: the frame is the list of
its records, index columns included. -/
def dataframeRecords (lib : PyLib) (records : List PyVal) (maxRows : Option Int) :
    Option (List PyVal) :=
  if maxRows.any (· < 0) then Option.none
  else
    jsonSafeList lib (match maxRows with
      | Option.none => records
      | some n => records.take n.toNat)

end PyBroker
