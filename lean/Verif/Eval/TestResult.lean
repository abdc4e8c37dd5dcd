import Verif.Eval.Model
import Verif.Portfolio.PositionBars
import Verif.Scope.Prices

/-!
# The result of a run: `Strategy._to_test_result`

Data frames are lists of rows.  Conversion of a `Decimal` to a float is exact.  Stop records,
signals and bootstrap results are not modelled.
-/

namespace PyBroker

/-- `quantize` for one value, common.py:432-449: `roundCents` is `Decimal.quantize` to cents with
`ROUND_HALF_UP`. -/
def quantizeVal (round : Bool) (x : ℚ) : ℚ := if round then roundCents x else x

/-- `.astype(float)` or `.astype(int)` of a share count, strategy.py:3573-3577. -/
def castShares (fractional : Bool) (x : ℚ) : ℚ := if fractional then x else (truncQ x : ℚ)

/-- A row of `portfolio_df`, strategy.py:3526-3545. -/
def barRow (rd : Bool) (b : PortfolioBar) : PortfolioBar :=
  { date := b.date
    cash := quantizeVal rd b.cash
    equity := quantizeVal rd b.equity
    notional := quantizeVal rd b.notional
    margin := quantizeVal rd b.margin
    marginLoan := quantizeVal rd b.marginLoan
    netCashBalance := quantizeVal rd b.netCashBalance
    marketValue := quantizeVal rd b.marketValue
    pnl := quantizeVal rd b.pnl
    unrealizedPnl := quantizeVal rd b.unrealizedPnl
    fees := quantizeVal rd b.fees }

/-- A row of `orders_df`, strategy.py:3546-3552 and 3576.  A missing limit price is dropped by
`dropna` and comes back as NaN when the column is assigned by index. -/
def orderRow (rd fractional : Bool) (o : Order) : Order :=
  { o with
    shares := castShares fractional o.shares
    limitPrice := o.limitPrice.map (quantizeVal rd)
    marketPrice := quantizeVal rd o.marketPrice
    fillPrice := quantizeVal rd o.fillPrice
    fees := quantizeVal rd o.fees }

/-- A row of `trades_df`, strategy.py:3553-3572 and 3577. -/
def tradeRow (rd fractional : Bool) (t : Trade) : Trade :=
  { t with
    shares := castShares fractional t.shares
    entry := quantizeVal rd t.entry
    exit := quantizeVal rd t.exit
    pnl := quantizeVal rd t.pnl
    returnPct := quantizeVal rd t.returnPct
    aggPnl := quantizeVal rd t.aggPnl
    pnlPerBar := quantizeVal rd t.pnlPerBar
    mae := quantizeVal rd t.mae
    mfe := quantizeVal rd t.mfe }

/-- A row of `pos_df`, strategy.py:3510-3523 and 3574-3575. -/
def positionRow (rd fractional : Bool) (r : PositionBar) : PositionBar :=
  { r with
    longShares := castShares fractional r.longShares
    shortShares := castShares fractional r.shortShares
    close := quantizeVal rd r.close
    equity := quantizeVal rd r.equity
    marketValue := quantizeVal rd r.marketValue
    margin := quantizeVal rd r.margin
    unrealizedPnl := quantizeVal rd r.unrealizedPnl }

/-- `TestResult`, strategy.py:1736-1810: the tables, the trade statistics and the other metrics. -/
structure TestResult where
  positions : List PositionBar
  portfolio : List PortfolioBar
  orders : List Order
  trades : List Trade
  stats : TradeStats ℚ
  metrics : Option (Metrics ℚ)

/-- The columns of a trade `evaluate` reads, eval.py:1485-1489. -/
def evalRow (t : Trade) : TRow ℚ := ⟨t.pnl, t.returnPct, t.bars⟩

/-- `evaluate` on the tables, eval.py:1473-1528: the trade statistics are only reported with at
least two bars, else every metric has its default. -/
def evaluateTables (F : Fns ℚ) (bars : List PortfolioBar) (trades : List Trade) :
    TradeStats ℚ × Option (Metrics ℚ) :=
  match evalMetrics F (bars.map PortfolioBar.marketValue) (bars.map PortfolioBar.fees)
      (trades.map evalRow) with
  | none => (tradeStats [], none)
  | some m => (tradeStats (trades.map evalRow), some m)

/-- `Strategy._to_test_result`, strategy.py:3486-3616.  `portfolio.bars`, kept with
`record_portfolio_bars`, lists the same bars as `portfolio._metrics_bars` (portfolio.py:1627-1629),
so the choice between them (3524-3526) is not modelled.  `pos` are the `position_bars`. -/
def toTestResult (F : Fns ℚ) (rd fractional trainOnly : Bool) (pf : Portfolio)
    (pos : List PositionBar) : TestResult :=
  if trainOnly then ⟨[], [], [], [], tradeStats [], none⟩
  else
    let bars := pf.metrics.map (barRow rd)
    let trades := pf.trades.map (tradeRow rd fractional)
    let x := evaluateTables F bars trades
    ⟨pos.map (positionRow rd fractional), bars, pf.orders.map (orderRow rd fractional), trades, x.1, x.2⟩

end PyBroker
