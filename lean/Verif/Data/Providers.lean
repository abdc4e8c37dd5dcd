import Verif.Cache.Query
import Mathlib.Data.Rat.Defs

/-!
# Data providers

The `_fetch_data` of the data sources in `/repo/src/pybroker/data.py` and
`/repo/src/pybroker/ext/data.py`: which bar length is asked of the provider, and how its answer
becomes rows.

What a provider answers is an argument.  A cell is a rational number, absent if it is NaN.  Texts
of dates, time zones, progress bars, log lines, missing packages, keys and proxies are not
modelled; the iteration order of a frozen set of symbols is any list without repeats.
-/

namespace PyBroker

/-! ## Bar lengths -/

/-- `_parse_alpaca_timeframe`, data.py:332-351.  `none` is a `ValueError`. -/
def alpacaTimeframe : Option Str → Option (Nat × TfUnit)
  | none => none
  | some s =>
    match parseTimeframe s with
    | some [(n, .min)] => some (n, .min)
    | some [(n, .hour)] => some (n, .hour)
    | some [(n, .day)] => some (n, .day)
    | some [(n, .week)] => some (n, .week)
    | _ => none

/-- `Alpaca.query` and `_fetch_data`, data.py:386-406: the timeframe is checked, formatted
(data.py:216) and parsed again for the request. -/
def alpacaAsks (tf : Option Str) : Option (Nat × TfUnit) :=
  match alpacaTimeframe tf with
  | none => none
  | some _ => (formatTimeframe (tf.getD [])).bind (fun f => alpacaTimeframe (some f))

/-- `AKShare._tf_to_period`, ext/data.py:89-93. -/
def akPeriods : List (Str × String) :=
  [("".toList, "daily"), ("1day".toList, "daily"), ("1week".toList, "weekly")]

/-- `YQuery._tf_to_period`, ext/data.py:161-167. -/
def yqPeriods : List (Str × String) :=
  [("".toList, "1d"), ("1hour".toList, "1h"), ("1day".toList, "1d"), ("5day".toList, "5d"),
    ("1week".toList, "1wk")]

/-- The period asked of AKShare or YQuery, ext/data.py:108-117 and 201-210: the timeframe is
formatted by `query` (data.py:216) and again by `_fetch_data`.  `none` is a `ValueError`. -/
def periodAsked (table : List (Str × String)) (tf : Str) : Option String :=
  ((formatTimeframe tf).bind formatTimeframe).bind (fun f => table.lookup f)

/-! ## YFinance -/

/-- The answer of `yfinance.download`: one index of dates and, for each field and symbol, a column
of that length. -/
structure Wide where
  index : List Int
  col : String → String → List (Option ℚ)

/-- The columns of the frame with the fields of the answer they are taken from, data.py:613-625 and
630-654. -/
def yfColumns (autoAdjust : Bool) : List (String × String) :=
  [("open", "Open"), ("high", "High"), ("low", "Low"), ("close", "Close"), ("volume", "Volume")] ++
    (if autoAdjust then [] else [("adj_close", "Adj Close")])

/-- `pd.DataFrame` of a dict with the columns `date`, `symbol` and `cols`, of equal lengths. -/
def frameOf (dates : List Int) (syms : List String) (cols : List (String × List (Option ℚ))) :
    Frame ℚ where
  cols := "date" :: "symbol" :: cols.map Prod.fst
  rows := (List.range dates.length).map (fun i =>
    ⟨syms.getD i "", dates.getD i 0, fun c => ((cols.lookup c).bind (fun l => l[i]?)).join⟩)

/-- `YFinance._fetch_data`, data.py:566-656.  `none` is an answer without columns.  An empty answer
with columns is returned as it is (data.py:604-605); its columns are called as in the answer. -/
def yfFetch (autoAdjust : Bool) (syms : List String) : Option Wide → Frame ℚ
  | none => ⟨["symbol", "date", "open", "high", "low", "close", "volume"] ++
      (if autoAdjust then [] else ["adj_close"]), []⟩
  | some w =>
    if w.index = [] then ⟨(yfColumns autoAdjust).map Prod.snd, []⟩
    else
      match syms with
      | [s] => frameOf w.index (List.replicate w.index.length s)
          ((yfColumns autoAdjust).map (fun p => (p.1, w.col p.2 s)))
      | _ => frameOf (List.replicate syms.length w.index).flatten
          (syms.flatMap (fun s => List.replicate w.index.length s))
          ((yfColumns autoAdjust).map (fun p => (p.1, syms.flatMap (w.col p.2))))

/-- The data source of `YFinance`, data.py:523-656, for a function that downloads.  The symbols are a
set (data.py:235); the timeframe and the adjustment are not used. -/
def yfSource (autoAdjust : Bool) (download : List String → Int → Int → Option Wide) : Source ℚ where
  name := "pybroker.data.YFinance"
  fetch := fun syms a b _ _ => yfFetch autoAdjust syms.dedup (download syms.dedup a b)

/-! ## AKShare -/

/-- The answer of AKShare for a symbol: its columns, and of each row the date and the cells. -/
structure AkAnswer where
  cols : List String
  rows : List (Int × (String → Option ℚ))

/-- The two functions of AKShare, for a code, a period and an adjustment.  `none` is an error of
those caught at ext/data.py:75. -/
structure AkApi where
  hist : String → String → String → Option AkAnswer
  tx : String → String → Option AkAnswer

/-- `symbol.partition(".")`: the text before the first point and the text after it. -/
def atPoint (s : Str) : Str × Str :=
  (s.takeWhile (· ≠ '.'), (s.dropWhile (· ≠ '.')).drop 1)

/-- `item.split(".")[0]`, ext/data.py:107. -/
def bareCode (s : String) : String := String.ofList (atPoint s.toList).1

/-- `_to_tx_symbol`, ext/data.py:44-48. -/
def txSymbol (s : String) : String :=
  if (atPoint s.toList).2 = ['S', 'H'] ∨ (atPoint s.toList).1.head? = some '6' then
    "sh" ++ bareCode s
  else "sz" ++ bareCode s

/-- `_fetch_akshare_symbol`, ext/data.py:51-83. -/
def akSymbol (api : AkApi) (symbol period adjust : String) : Option AkAnswer :=
  match api.hist (bareCode symbol) period adjust with
  | some r => some r
  | none => if period ≠ "daily" then none else api.tx (txSymbol symbol) adjust

/-- `_AKSHARE_COLUMN_MAP`, ext/data.py:29-41. -/
def akMap : List (String × String) :=
  [("日期", "date"), ("开盘", "open"), ("收盘", "close"), ("最高", "high"), ("最低", "low"),
    ("成交量", "volume"), ("date", "date"), ("open", "open"), ("close", "close"), ("high", "high"),
    ("low", "low")]

/-- The new name of a column, ext/data.py:138-147. -/
def akRename (cols : List String) (c : String) : String :=
  ((if "volume" ∈ cols then akMap else akMap ++ [("amount", "volume")]).lookup c).getD c

/-- The canonical columns, ext/data.py:19-27. -/
def canonical : List String := ["date", "symbol", "open", "high", "low", "close", "volume"]

/-- One renamed answer with its symbol, ext/data.py:128-149.  Simplified: of several columns with the
same new name the first is taken. -/
def akRows (symbol : String) (r : AkAnswer) : List (QRow ℚ) :=
  r.rows.map (fun x => ⟨symbol, x.1, fun c =>
    if c ∈ canonical ∧ c ≠ "date" ∧ c ≠ "symbol" then
      (r.cols.find? (fun raw => akRename r.cols raw = c)).bind x.2
    else none⟩)

/-- The rows of the symbols one after the other, ext/data.py:117-149.  An answer without columns adds
nothing. -/
def akLoop (api : AkApi) (period adjust : String) : List String → Option (List (QRow ℚ))
  | [] => some []
  | s :: rest =>
    match akSymbol api s period adjust with
    | none => none
    | some r => (akLoop api period adjust rest).map
        ((if r.cols = [] then [] else akRows s r) ++ ·)

/-- `AKShare._fetch_data`, ext/data.py:95-154.  `none` is an exception. -/
def akFetch (api : AkApi) (tf : Str) (adjust : Option String) (syms : List String) :
    Option (Frame ℚ) :=
  match periodAsked akPeriods tf with
  | none => none
  | some period => (akLoop api period (adjust.getD "") syms).map (fun rows => ⟨canonical, rows⟩)

/-! ## Frames with one row per date and symbol -/

/-- The answer of Alpaca or Yahooquery: a table indexed by symbol and date, or none
(Yahooquery's dict of errors). -/
structure LongAnswer where
  cols : List String
  rows : List (String × Int × (String → Option ℚ))

/-- `Alpaca._fetch_data` after the request, data.py:424-447, with the columns of `DataCol`
(common.py:136-146); `none` is the `KeyError` of a missing column. -/
def alpacaRows (r : LongAnswer) : Option (Frame ℚ) :=
  if r.cols = [] then
    some ⟨["symbol", "date", "open", "high", "low", "close", "volume", "vwap"], []⟩
  else if r.rows = [] then some ⟨r.cols, []⟩
  else if ["open", "high", "low", "close", "volume", "vwap"] ⊆ r.cols then
    some ⟨["date", "symbol", "open", "high", "low", "close", "volume", "vwap"],
      r.rows.map (fun x => ⟨x.1, x.2.1, fun c =>
        if c ∈ ["open", "high", "low", "close", "volume", "vwap"] then x.2.2 c else none⟩)⟩
  else none

/-- `YQuery._fetch_data` after the request, ext/data.py:213-236. -/
def yqRows : Option LongAnswer → Option (Frame ℚ)
  | none => none
  | some r =>
    if r.cols = [] ∨ r.rows = [] then some ⟨canonical, []⟩
    else if ["open", "high", "low", "close", "volume"] ⊆ r.cols then
      some ⟨["symbol", "date", "open", "high", "low", "close", "volume"],
        r.rows.map (fun x => ⟨x.1, x.2.1, fun c =>
          if c ∈ ["open", "high", "low", "close", "volume"] then x.2.2 c else none⟩)⟩
    else none

end PyBroker
