import Verif.Portfolio.Registry
import Verif.Portfolio.Fifo
import Verif.Props.Demo
import Verif.Props.Ledger
import Verif.Props.Books
import Verif.Props.Logs
import Verif.Props.Orders
import Verif.Props.Leverage
import Verif.Portfolio.Check
import Verif.Props.Stops
import Verif.Portfolio.StopOrder
import Verif.Portfolio.StopRecords
import Verif.Spec.StopRecords
import Verif.Props.StopRecords
import Verif.Props.Bars
import Verif.Props.Slippage
import Verif.Props.Capture
import Verif.Props.Pending
import Verif.Props.Backtest
import Verif.Props.Rotation
import Verif.Props.Walkforward
import Verif.Props.Scope
import Verif.Props.Prices
import Verif.Props.Interval
import Verif.Props.Text
import Verif.Props.Rolling
import Verif.Props.Causal
import Verif.Props.Bounds
import Verif.Props.NormalCdf
import Verif.Props.Eval
import Verif.Props.EvalTrades
import Verif.Props.Bootstrap
import Verif.Props.Scores
import Verif.Cache.Layered
import Verif.Cache.Query
import Verif.Props.Layered
import Verif.Props.Query
import Verif.Common.Json
import Verif.Common.Executions
import Verif.Props.Json
import Verif.Props.Executions
import Verif.Props.Liquidate
import Verif.Optimize.Model
import Verif.Props.Optimize
import Verif.Context.Model
import Verif.Props.Context
import Verif.Props.Result
import Verif.Lags.Model
import Verif.Lags.Train
import Verif.Props.Lags
import Verif.Props.Train
import Verif.Indicator.Model
import Verif.Props.Indicator
import Verif.Models.Cache
import Verif.Props.Models
import Verif.Lags.Pooled
import Verif.Props.Pooled
import Verif.Scope.Input
import Verif.Props.Input
import Verif.Data.Prepare
import Verif.Props.Prepare
import Verif.Backtest.Drive
import Verif.Backtest.Held
import Verif.Props.Drive
import Verif.Props.Lookahead
import Verif.Props.Tune
import Verif.Scope.Interval
import Verif.Props.IntervalScope
import Verif.Lags.IntervalTrain
import Verif.Props.IntervalTrain
import Verif.Lags.IntervalPooled
import Verif.Props.IntervalPooled
import Verif.Portfolio.Whole
import Verif.Portfolio.PositionBars
import Verif.Props.PositionBars
import Verif.Eval.TestResult
import Verif.Props.TestResult
import Verif.Backtest.Entry
import Verif.Props.Entry
import Verif.Portfolio.Explained
import Verif.Props.Explained
import Verif.Portfolio.Priced
import Verif.Props.Priced
import Verif.Props.Cash
import Verif.Props.CashRun
import Verif.Props.RowOrder
import Verif.Scope.Signals
import Verif.Props.Signals
import Verif.Props.SignalTable
import Verif.Interval.Build
import Verif.Props.IntervalData
import Verif.Scope.Columns
import Verif.Props.Columns
import Verif.Optimize.Collect
import Verif.Props.Collect
import Verif.Props.Shorter
import Verif.Context.Reads
import Verif.Props.Reads
import Verif.Optimize.TrialInds
import Verif.Props.TrialInds
import Verif.Props.HashOrder
import Verif.Common.ResultJson
import Verif.Props.ResultJson
import Verif.Optimize.Sampling
import Verif.Props.Sampling
import Verif.Interval.Public
import Verif.Props.CompressBars
import Verif.Props.CompressSteps
import Verif.Eval.BootRun
import Verif.Props.BootRun
import Verif.Context.Account
import Verif.Props.Account
import Verif.Indicator.Builtin
import Verif.Props.Builtin
import Verif.Props.BuiltinMore
import Verif.Data.Providers
import Verif.Props.Providers
import Verif.Portfolio.Units
import Verif.Portfolio.UnitsStops
import Verif.Backtest.Units
import Verif.Backtest.UnitsRun
import Verif.Props.Units
import Verif.Eval.Full
import Verif.Props.MetricUnits
import Verif.Props.Annual
import Verif.Cache.Manage
import Verif.Props.Manage
import Verif.Parallel.Model
import Verif.Props.Parallel
import Verif.Portfolio.Redate
import Verif.Backtest.Redate
import Verif.Backtest.RedateRun
import Verif.Props.Redate
import Verif.Models.Register
import Verif.Props.Register
import Verif.Backtest.Learn
import Verif.Props.Learn
import Verif.Backtest.Session
import Verif.Props.Session
import Verif.Portfolio.Rename
import Verif.Backtest.Rename
import Verif.Backtest.RenameRun
import Verif.Props.Rename
import Verif.Backtest.Idle
import Verif.Props.Idle
import Verif.Vect.Legendre
import Verif.Props.LeastSquares
import Verif.Props.IndicatorStats
import Verif.Props.IndicatorForms
import Verif.Props.Given
import Verif.Props.IndicatorTraces
import Verif.Optimize.Pretrained
import Verif.Props.Pretrained
import Verif.Props.SharedModel
import Verif.Portfolio.Split
import Verif.Props.Split
import Verif.Lags.Direct
import Verif.Props.Direct
import Verif.Eval.Quantile
import Verif.Props.Quantile
import Verif.Eval.Ulcer
import Verif.Props.Ulcer
import Verif.Props.Cancel
import Verif.Props.UnitFree
import Verif.Props.UnitBounds
import Verif.Log.Bar
import Verif.Props.Progress
import Verif.Props.Capital
import Verif.Props.Declared
import Verif.Interval.Slice
import Verif.Props.BarSlice
import Verif.Props.InputChoice
import Verif.Props.Bins
import Verif.Common.BarData
import Verif.Props.BarData
