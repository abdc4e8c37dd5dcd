import Verif.Scope.Store

/-!
# Bar data and its data frame

`BarData` and `bars_to_df` of `src/pybroker/common.py`.
-/

namespace PyBroker

/-- A column: an array of dates or of numbers. -/
inductive BCol
  | dates (l : List Date)
  | cells (l : List Cell)
  deriving DecidableEq

/-- The number of rows of a column. -/
def BCol.rows : BCol → Nat
  | .dates l => l.length
  | .cells l => l.length

/-- The fields of a `BarData`, common.py:306-314. -/
structure BarArrays where
  date : List Date
  opn : List Cell
  high : List Cell
  low : List Cell
  close : List Cell
  volume : Option (List Cell)
  vwap : Option (List Cell)
  custom : List (String × List Cell)
  deriving DecidableEq

inductive BarDataErr
  | typeError
  | lengths
  | noAttribute
  deriving DecidableEq, Repr

/-- The parameters of `BarData.__init__`, common.py:296-305. -/
def barParams : List String :=
  ["self", "date", "open", "high", "low", "close", "volume", "vwap"]

/-- `BarData(date, open, high, low, close, volume, vwap, **kwargs)`, common.py:296-314.  Python raises a
`TypeError` if a keyword is given twice or names a parameter that already has its argument. -/
def BarArrays.make (date : List Date) (opn high low close : List Cell)
    (volume vwap : Option (List Cell)) (kwargs : List (String × List Cell)) :
    Except BarDataErr BarArrays :=
  if (kwargs.map Prod.fst).Nodup ∧ ∀ k ∈ kwargs.map Prod.fst, k ∉ barParams then
    .ok ⟨date, opn, high, low, close, volume, vwap, kwargs⟩
  else .error .typeError

/-- `d[k] = v` on a dict: in place if the key is there, else at the end. -/
def dictSet : List (String × BCol) → String → BCol → List (String × BCol)
  | [], k, v => [(k, v)]
  | (k', v') :: rest, k, v => if k' = k then (k, v) :: rest else (k', v') :: dictSet rest k v

/-- `bars_to_df`, common.py:322-346.  `pd.DataFrame(data)` keeps the order of the dict and raises if the
arrays differ in length. -/
def BarArrays.toDf (b : BarArrays) : Except BarDataErr (List (String × BCol)) :=
  let data : List (String × BCol) := [("date", .dates b.date), ("open", .cells b.opn),
    ("high", .cells b.high), ("low", .cells b.low), ("close", .cells b.close)]
  let data := match b.volume with
    | some v => dictSet data "volume" (.cells v)
    | none => data
  let data := match b.vwap with
    | some v => dictSet data "vwap" (.cells v)
    | none => data
  let data := b.custom.foldl (fun d c => dictSet d c.1 (.cells c.2)) data
  if data.all (fun c => c.2.rows = b.date.length) then .ok data else .error .lengths

/-- Reading a custom field as an attribute, `__getattr__`, common.py:316-319.  Python calls it only for
names that are not attributes otherwise; those are not modelled here. -/
def BarArrays.getattr (b : BarArrays) (attr : String) : Except BarDataErr (List Cell) :=
  match (if b.custom = [] then none else cacheGet b.custom attr) with
  | some v => .ok v
  | none => .error .noAttribute

end PyBroker
