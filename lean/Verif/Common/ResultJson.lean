import Verif.Common.Json
import Verif.Eval.TestResult
import Verif.Portfolio.StopRecords

/-!
# A result as JSON

`TestResult.to_json` (strategy.py:1731-1927), `BootstrapResult.to_json` (eval.py:1279-1287),
`EvalMetrics.to_json` (eval.py:1411-1413), `WindowOptimizeResult.to_json` (optimize.py:802-820),
`OptimizeResult.to_json` (optimize.py:851-878) and `_study_summary` (optimize.py:702-719).

A data frame is the names of its index levels, its columns and its rows.  Names of columns are
strings and differ from each other.  A date is the text of its naive UTC time (`_naive_utc`,
strategy.py:1746-1751, and `isoformat`).
-/

namespace PyBroker

/-- A row: the values of the index levels and of the columns. -/
structure JRow where
  index : List PyVal
  vals : List PyVal

/-- A `pandas.DataFrame`. -/
structure JFrame where
  index : List (Option String)
  columns : List String
  rows : List JRow

/-- The exceptions of `to_json`. -/
inductive JsonErr
  /-- `include` is a string, strategy.py:1840-1843. -/
  | includeStr
  /-- Unknown sections, 1847-1852. -/
  | unknown (names : List String)
  /-- `symbols` is a string, 1854-1859. -/
  | symbolsStr
  /-- 1861-1862. -/
  | noSymbols
  /-- Symbols that were not backtested, 1863-1868. -/
  | missing (names : List Sym)
  /-- `max_rows < 0`, common.py:635-637. -/
  | maxRows
  /-- `reset_index` of a frame with a column named like an index level. -/
  | columnExists
  /-- An exception of `_json_safe`. -/
  | value
  deriving DecidableEq, Repr

/-- `isin(symbols)` for one value. -/
def PyVal.isSym (syms : List Sym) : PyVal → Bool
  | .str s => s ∈ syms
  | _ => false

/-- `df.empty`: without rows or without columns. -/
def JFrame.empty (df : JFrame) : Bool := df.rows.isEmpty || df.columns.isEmpty

/-- The value of a row in a column. -/
def JFrame.col (df : JFrame) (name : String) (r : JRow) : Option PyVal :=
  (df.columns.zip r.vals).lookup name

/-- `df.index.get_level_values(name)` for a row. -/
def JFrame.level (df : JFrame) (name : String) (r : JRow) : Option PyVal :=
  (df.index.zip r.index).lookup (some name)

/-- `_filter_df_symbols`, strategy.py:1754-1765. -/
def filterSymbols (df : JFrame) (symbols : Option (List Sym)) : JFrame :=
  match symbols with
  | none => df
  | some syms =>
    if df.empty then df
    else if "symbol" ∈ df.columns then
      { df with rows := df.rows.filter (fun r => (df.col "symbol" r).any (PyVal.isSym syms)) }
    else if 1 < df.index.length ∧ some "symbol" ∈ df.index then
      { df with rows := df.rows.filter (fun r => (df.level "symbol" r).any (PyVal.isSym syms)) }
    else df

/-- The columns `reset_index` adds, common.py:640-644: none if the index has no names; a level
without a name among others is named by its place. -/
def JFrame.levels (df : JFrame) : List String :=
  if df.index.all Option.isNone then []
  else df.index.mapIdx (fun i n => n.getD s!"level_{i}")

/-- A record of `to_dict(orient="records")`, common.py:649. -/
def JFrame.record (df : JFrame) (r : JRow) : PyVal :=
  .dict ((df.levels.zip r.index ++ df.columns.zip r.vals).map (fun p => (PyVal.str p.1, p.2)))

/-- `_dataframe_records`, common.py:628-649. -/
def frameJson (lib : PyLib) (df : JFrame) (maxRows : Option Int) : Except JsonErr (List PyVal) :=
  if maxRows.any (· < 0) then .error .maxRows
  else if df.empty then .ok []
  else if df.levels.any (· ∈ df.columns) then .error .columnExists
  else
    match dataframeRecords lib (df.rows.map df.record) maxRows with
    | none => .error .value
    | some l => .ok l

/-- `_json_safe` with its exceptions as errors. -/
def safeJson (lib : PyLib) (v : PyVal) : Except JsonErr PyVal :=
  match jsonSafe lib v with
  | none => .error .value
  | some w => .ok w

/-- A dict with string keys. -/
def PyVal.obj (l : List (String × PyVal)) : PyVal := .dict (l.map (fun p => (PyVal.str p.1, p.2)))

/-- `BootstrapResult`, eval.py:1258-1277; the named tuples as their fields. -/
structure JBootstrap where
  confIntervals : JFrame
  drawdownConf : JFrame
  profitFactor : PyVal
  sharpe : PyVal
  drawdown : PyVal

/-- `BootstrapResult.to_json`, eval.py:1279-1287. -/
def JBootstrap.toJson (lib : PyLib) (b : JBootstrap) : Except JsonErr PyVal := do
  let c ← frameJson lib b.confIntervals none
  let d ← frameJson lib b.drawdownConf none
  let pf ← safeJson lib b.profitFactor
  let sh ← safeJson lib b.sharpe
  let dd ← safeJson lib b.drawdown
  pure (.obj [("conf_intervals", .list c), ("drawdown_conf", .list d), ("profit_factor", pf),
    ("sharpe", sh), ("drawdown", dd)])

/-- `TestResult`, strategy.py:1768-1806.  `metrics` are the fields of the `EvalMetrics`. -/
structure JResult where
  startDate : String
  endDate : String
  portfolio : JFrame
  positions : JFrame
  orders : JFrame
  trades : JFrame
  metrics : List (String × PyVal)
  metricsDf : JFrame
  bootstrap : Option JBootstrap
  signals : Option (List (Sym × JFrame))
  stops : Option JFrame
  symbols : List Sym

/-- An argument that is a string or holds strings. -/
inductive JArg
  | str (s : String)
  | items (l : List String)

/-- `_VALID_JSON_SECTIONS`, strategy.py:1732-1744. -/
def validSections : List String :=
  ["metrics", "metrics_df", "trades", "orders", "portfolio", "positions", "bootstrap", "signals",
    "stops"]

/-- `_DEFAULT_JSON_INCLUDE`, strategy.py:1731. -/
def defaultSections : List String := ["metrics", "trades", "orders", "bootstrap"]

/-- The checks of `include`, strategy.py:1840-1852. -/
def checkInclude : JArg → Except JsonErr (List String)
  | .str _ => .error .includeStr
  | .items l =>
    let unknown := l.filter (· ∉ validSections)
    if unknown.isEmpty then .ok l else .error (.unknown (unknown.dedup.insertionSort (· ≤ ·)))

/-- The checks of `symbols`, strategy.py:1853-1868. -/
def checkSymbols (have_ : List Sym) : Option JArg → Except JsonErr (Option (List Sym))
  | none => .ok none
  | some (.str _) => .error .symbolsStr
  | some (.items l) =>
    if l.isEmpty then .error .noSymbols
    else
      let missing := l.filter (· ∉ have_)
      if missing.isEmpty then .ok (some l)
      else .error (.missing (missing.dedup.insertionSort (· ≤ ·)))

/-- A table of the payload. -/
def tableJson (lib : PyLib) (maxRows : Option Int) (df : JFrame) : Except JsonErr PyVal :=
  (frameJson lib df maxRows).map .list

/-- The signals of the payload, strategy.py:1903-1908. -/
def signalsJson (lib : PyLib) (maxRows : Option Int) (symbols : Option (List Sym))
    (signals : List (Sym × JFrame)) : Except JsonErr PyVal :=
  ((signals.filter (fun p => symbols.all (p.1 ∈ ·))).mapM
    (fun p => (frameJson lib p.2 maxRows).map (fun l => (p.1, PyVal.list l)))).map .obj

/-- The stops of the payload, strategy.py:1909-1913. -/
def stopsTable (df : JFrame) (symbols : Option (List Sym)) : JFrame :=
  match symbols with
  | none => df
  | some syms =>
    if "symbol" ∈ df.columns then
      { df with rows := df.rows.filter (fun r => (df.col "symbol" r).any (PyVal.isSym syms)) }
    else df

/-- The sections in the order of the payload, each with its value if the result has it,
strategy.py:1873-1913. -/
def JResult.sections (lib : PyLib) (r : JResult) (maxRows : Option Int)
    (symbols : Option (List Sym)) : List (String × Option (Except JsonErr PyVal)) :=
  [("metrics", some (safeJson lib (.obj r.metrics))),
   ("metrics_df", some (tableJson lib maxRows r.metricsDf)),
   ("trades", some (tableJson lib maxRows (filterSymbols r.trades symbols))),
   ("orders", some (tableJson lib maxRows (filterSymbols r.orders symbols))),
   ("portfolio", some (tableJson lib maxRows r.portfolio)),
   ("positions", some (tableJson lib maxRows (filterSymbols r.positions symbols))),
   ("bootstrap", r.bootstrap.map (JBootstrap.toJson lib)),
   ("signals", r.signals.map (signalsJson lib maxRows symbols)),
   ("stops", r.stops.map (fun df => tableJson lib maxRows (stopsTable df symbols)))]

/-- The payload once a section at a time is added, strategy.py:1873-1914: a section is converted
only if it is asked for and the result has it. -/
def addSections (wanted : List String) :
    List (String × Option (Except JsonErr PyVal)) → Except JsonErr (List (String × PyVal))
  | [] => .ok []
  | (name, v) :: rest =>
    if name ∈ wanted then
      match v with
      | none => addSections wanted rest
      | some e => do
        let x ← e
        let l ← addSections wanted rest
        pure ((name, x) :: l)
    else addSections wanted rest

/-- `TestResult.to_json`, strategy.py:1808-1914. -/
def JResult.toJson (lib : PyLib) (r : JResult) (include_ : JArg) (maxRows : Option Int)
    (symbols : Option JArg) : Except JsonErr (List (String × PyVal)) := do
  let wanted ← checkInclude include_
  let syms ← checkSymbols r.symbols symbols
  let l ← addSections wanted (r.sections lib maxRows syms)
  pure (("start_date", .str r.startDate) :: ("end_date", .str r.endDate) :: l)

/-! ## The frames of a run -/

/-- `Literal["long", "short"]`. -/
def PosType.text : PosType → String
  | .long => "long"
  | .short => "short"

/-- `Literal["buy", "sell"]`. -/
def Side.text : Side → String
  | .buy => "buy"
  | .sell => "sell"

/-- The values of `StopType`, common.py:193-196. -/
def StopType.text : StopType → String
  | .bar => "bar"
  | .loss => "loss"
  | .profit => "profit"
  | .trailing => "trailing"

/-- `Order.order_type`, portfolio.py:361-368. -/
def OrderType.text : OrderType → String
  | .market => "market"
  | .limit => "limit"
  | .stopBar => "stop_bar"
  | .stopLoss => "stop_loss"
  | .stopProfit => "stop_profit"
  | .stopTrailing => "stop_trailing"

/-- `Order.intent`, portfolio.py:369-374. -/
def Intent.text : Intent → String
  | .buyToOpen => "buy_to_open"
  | .buyToClose => "buy_to_close"
  | .sellToOpen => "sell_to_open"
  | .sellToClose => "sell_to_close"

/-- A float. -/
def fl (q : ℚ) : PyVal := .float (.fin q)

/-- A share count as the run casts it, strategy.py:3574-3578. -/
def sharesVal (fractional : Bool) (q : ℚ) : PyVal :=
  if fractional then .float (.fin q) else .int (truncQ q)

/-- A row of the frame below. -/
def tradeCells (txt : Date → String) (fractional : Bool) (t : Trade) : JRow :=
  ⟨[.int t.id],
    [.str t.type.text, .str t.symbol, .date (txt t.entryDate), .date (txt t.exitDate), fl t.entry,
      fl t.exit, sharesVal fractional t.shares, fl t.pnl, fl t.returnPct, fl t.aggPnl, .int t.bars,
      fl t.pnlPerBar, (t.stop.map (fun s => PyVal.str s.text)).getD .none, fl t.mae, fl t.mfe]⟩

/-- `trades_df`, strategy.py:3556-3571, with the fields of `Trade`, portfolio.py:313-328. -/
def tradesFrame (txt : Date → String) (fractional : Bool) (l : List Trade) : JFrame where
  index := [some "id"]
  columns := ["type", "symbol", "entry_date", "exit_date", "entry", "exit", "shares", "pnl",
    "return_pct", "agg_pnl", "bars", "pnl_per_bar", "stop", "mae", "mfe"]
  rows := l.map (tradeCells txt fractional)

/-- A row of the frame below. -/
def orderCells (txt : Date → String) (fractional : Bool) (o : Order) : JRow :=
  ⟨[.int o.id],
    [.str o.side.text, .str o.symbol, .date (txt o.date),
      (o.created.map (fun d => PyVal.date (txt d))).getD .nat, .str o.orderType.text,
      .str o.intent.text, sharesVal fractional o.shares, (o.limitPrice.map fl).getD (.float .nan),
      fl o.marketPrice, fl o.fillPrice, fl o.fees]⟩

/-- `orders_df`, strategy.py:3549-3555, with the fields of `Order`, portfolio.py:356-379.  A missing
`created` is NaT, a missing limit price NaN. -/
def ordersFrame (txt : Date → String) (fractional : Bool) (l : List Order) : JFrame where
  index := [some "id"]
  columns := ["type", "symbol", "date", "created", "order_type", "intent", "shares", "limit_price",
    "market_price", "fill_price", "fees"]
  rows := l.map (orderCells txt fractional)

/-- A row of the frame below. -/
def positionCells (txt : Date → String) (fractional : Bool) (p : PositionBar) : JRow :=
  ⟨[.str p.symbol, .date (txt p.date)],
    [sharesVal fractional p.longShares, sharesVal fractional p.shortShares, fl p.close, fl p.equity,
      fl p.marketValue, fl p.margin, fl p.unrealizedPnl]⟩

/-- `pos_df`, strategy.py:3512-3527, with the fields of `PositionBar`, portfolio.py:433-441. -/
def positionsFrame (txt : Date → String) (fractional : Bool) (l : List PositionBar) : JFrame where
  index := [some "symbol", some "date"]
  columns := ["long_shares", "short_shares", "close", "equity", "market_value", "margin",
    "unrealized_pnl"]
  rows := l.map (positionCells txt fractional)

/-- A row of the frame below. -/
def portfolioCells (txt : Date → String) (b : PortfolioBar) : JRow :=
  ⟨[.date (txt b.date)],
    [fl b.cash, fl b.equity, fl b.notional, fl b.margin, fl b.marginLoan, fl b.netCashBalance,
      fl b.marketValue, fl b.pnl, fl b.unrealizedPnl, fl b.fees]⟩

/-- `portfolio_df`, strategy.py:3528-3548, with the fields of `PortfolioBar`,
portfolio.py:405-415. -/
def portfolioFrame (txt : Date → String) (l : List PortfolioBar) : JFrame where
  index := [some "date"]
  columns := ["cash", "equity", "notional", "margin", "margin_loan", "net_cash_balance",
    "market_value", "pnl", "unrealized_pnl", "fees"]
  rows := l.map (portfolioCells txt)

/-- `metrics_df`, strategy.py:3586-3596: the metrics that are not `None`. -/
def metricsFrame (metrics : List (String × PyVal)) : JFrame where
  index := [none]
  columns := ["name", "value"]
  rows := (metrics.filter (fun m => match m.2 with | .none => false | _ => true)).map
    (fun m => ⟨[.none], [.str m.1, m.2]⟩)

/-- A `Decimal` or `None`. -/
def decVal (o : Option ℚ) : PyVal := (o.map (fun q => PyVal.decimal (.fin q))).getD .none

/-- An `int` or `None`. -/
def intVal (o : Option Nat) : PyVal := (o.map (fun n => PyVal.int n)).getD .none

/-- The values of `PriceType`, common.py:175-180. -/
def PriceType.text : PriceType → String
  | .open => "open"
  | .low => "low"
  | .high => "high"
  | .close => "close"
  | .middle => "middle"
  | .average => "average"

/-- A row of the frame below. -/
def stopCells (txt : Date → String) (s : StopRecord) : JRow :=
  ⟨[.none],
    [.date (txt s.date), .str s.symbol, .int s.stopId, .str s.stopType.text, .str s.posType.text,
      (match s.currValue with
        | none => .none
        | some none => .decimal .nan
        | some (some q) => .decimal (.fin q)), intVal s.currBars, decVal s.percent,
      decVal s.points, intVal s.bars, decVal s.fillPrice, decVal s.limitPrice,
      (s.exitPrice.map (fun p => PyVal.enum (.str p.text))).getD .none]⟩

/-- `stops_df`, strategy.py:3597-3601, with the fields of `StopRecord`, portfolio.py:138-150.  A
`curr_value` that is not a number is NaN.  Simplified: pandas may turn a column of integers with
missing values into floats. -/
def stopsFrame (txt : Date → String) (l : List StopRecord) : JFrame where
  index := [none]
  columns := ["date", "symbol", "stop_id", "stop_type", "pos_type", "curr_value", "curr_bars",
    "percent", "points", "bars", "fill_price", "limit_price", "exit_price"]
  rows := l.map (stopCells txt)

/-- The `TestResult` of a run, strategy.py:3602-3616.  The parts that come from other functions are
arguments. -/
def runResult (txt : Date → String) (fractional : Bool) (t : TestResult) (startDate endDate : String)
    (metrics : List (String × PyVal)) (bootstrap : Option JBootstrap)
    (signals : Option (List (Sym × JFrame))) (stops : Option (List StopRecord))
    (symbols : List Sym) : JResult where
  startDate := startDate
  endDate := endDate
  portfolio := portfolioFrame txt t.portfolio
  positions := positionsFrame txt fractional t.positions
  orders := ordersFrame txt fractional t.orders
  trades := tradesFrame txt fractional t.trades
  metrics := metrics
  metricsDf := metricsFrame metrics
  bootstrap := bootstrap
  signals := signals
  stops := stops.map (stopsFrame txt)
  symbols := symbols

/-! ## Optimisations -/

/-- What `to_json` reads of a study, `_study_summary`, optimize.py:702-719: the number of trials,
the best trial if one completed, and the user attributes. -/
structure JStudy where
  trials : Nat
  best : Option (PyVal × List (String × PyVal))
  attrs : List (String × PyVal)

/-- `_study_summary`, optimize.py:702-719. -/
def JStudy.summary (lib : PyLib) (s : JStudy) : Except JsonErr PyVal :=
  safeJson lib (.obj ([("n_trials", .int s.trials),
    ("best_value", (s.best.map Prod.fst).getD .none),
    ("best_params", .obj ((s.best.map Prod.snd).getD []))] ++
    (if s.attrs.isEmpty then [] else [("user_attrs", .obj s.attrs)])))

/-- `WindowOptimizeResult`, optimize.py:766-800.  Dates are texts. -/
structure JWindow where
  params : List (String × PyVal)
  trainScore : PyVal
  trainStart : Option String
  trainEnd : Option String
  testStart : Option String
  testEnd : Option String
  study : JStudy
  execSymbols : Option (List (Nat × List Sym))

/-- A date or `None`. -/
def dateVal (o : Option String) : PyVal := (o.map PyVal.date).getD .none

/-- `WindowOptimizeResult.to_json`, optimize.py:802-820. -/
def JWindow.toJson (lib : PyLib) (w : JWindow) : Except JsonErr PyVal := do
  let st ← w.study.summary lib
  safeJson lib (.obj ([("params", .obj w.params), ("train_score", w.trainScore),
    ("train_start_date", dateVal w.trainStart), ("train_end_date", dateVal w.trainEnd),
    ("test_start_date", dateVal w.testStart), ("test_end_date", dateVal w.testEnd),
    ("study", st)] ++
    (match w.execSymbols with
      | none => []
      | some l => [("execution_symbols", .obj ((l.insertionSort (fun a b => a.1 ≤ b.1)).map
          (fun p => (toString p.1, .set (p.2.map PyVal.str)))))])))

/-- `OptimizeResult`, optimize.py:827-849. -/
structure JOptimize where
  bestParams : List (String × PyVal)
  bestScore : PyVal
  result : JResult
  study : JStudy
  windows : Option (List JWindow)

/-- The windows in the payload, optimize.py:876-877. -/
def windowsJson (lib : PyLib) : Option (List JWindow) → Except JsonErr (List (String × PyVal))
  | none => .ok []
  | some l => (l.mapM (JWindow.toJson lib)).map (fun x => [("windows", PyVal.list x)])

/-- `OptimizeResult.to_json`, optimize.py:851-878. -/
def JOptimize.toJson (lib : PyLib) (o : JOptimize) (include_ : Option JArg) (maxRows : Option Int)
    (symbols : Option JArg) : Except JsonErr PyVal := do
  let st ← o.study.summary lib
  let res ← o.result.toJson lib (include_.getD (.items defaultSections)) maxRows symbols
  let ws ← windowsJson lib o.windows
  safeJson lib (.obj ([("best_params", .obj o.bestParams), ("best_score", o.bestScore),
    ("study", st), ("result", .obj res)] ++ ws))

end PyBroker
