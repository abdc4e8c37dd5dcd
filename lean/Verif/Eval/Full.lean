import Verif.Eval.TestResult

/-!
# All metrics of a result: `EvaluateMixin._calc_eval_metrics`

The functions are those of `Verif.Eval.Model`; this file puts every field of `EvalMetrics`
together.  `pow x e` is `x ** e` or `np.power(x, e)`, and `none` where that is not a number.
Simplifications: as in `Verif.Eval.Model`; `bars_per_year` is not negative.
-/

namespace PyBroker

variable {K : Type} [Field K] [LinearOrder K]

/-- `annual_total_return_percent`, eval.py:1044-1064: `none` is NaN. -/
def annualReturnPct (pow : K → K → Option K) (initial pnl : K) (barsPerYear totalBars : Nat) : Option K :=
  if initial = 0 ∨ totalBars ≤ 1 then some 0
  else (pow ((pnl + initial) / initial) ((barsPerYear : K) / ((totalBars : K) - 1))).map
    (fun v => (v - 1) * 100)

/-- `EvalMetrics`, eval.py:1293-1411: the fields copied from the trade statistics, those of
`Metrics`, and the rest. -/
structure AllMetrics (K : Type) where
  stats : TradeStats K
  base : Metrics K
  maxDrawdownDate : Option Date
  sharpe : K
  sortino : Ratio K
  equityR2 : K
  ulcerIndex : K
  upi : Ratio K
  stdError : K
  annualReturnPct : Option (Option K)
  annualStdError : Option K
  annualVolatilityPct : Option K
  calmar : Option (Ratio K)

/-- `evaluate` and `_calc_eval_metrics`, eval.py:1473-1528 and 1573-1675; `none` is `EvalMetrics()`,
every field at its default.  `dates` is the index of `portfolio_df`. -/
def calcEvalMetrics (F : Fns K) (pow : K → K → Option K) (barsPerYear : Option Nat) (dates : List Date)
    (mv fees : List K) (ts : List (TRow K)) : Option (AllMetrics K) :=
  (evalMetrics F mv fees ts).map fun m =>
    { stats := tradeStats ts
      base := m
      maxDrawdownDate := m.maxDrawdownIndex.bind (fun i => dates.tail[i]?)
      sharpe := PyBroker.sharpe F (barReturns mv) barsPerYear
      sortino := PyBroker.sortino F (barReturns mv) barsPerYear
      equityR2 := rSquared mv.length (fun i => mv.getD i 0)
      ulcerIndex := PyBroker.ulcerIndex F mv
      upi := PyBroker.upi (fun x e => (pow x e).getD 0) mv (PyBroker.ulcerIndex F mv) barsPerYear
      stdError := std F mv
      annualReturnPct := barsPerYear.map
        (fun n : Nat => PyBroker.annualReturnPct pow m.initialValue (tradeStats ts).totalPnl n mv.length)
      annualStdError := barsPerYear.map (fun n : Nat => std F mv * F.sqrt n)
      annualVolatilityPct := barsPerYear.map
        (fun n : Nat => std F ((barReturns mv).map (fun r => r * 100)) * F.sqrt n)
      calmar := barsPerYear.map
        (fun n : Nat => PyBroker.calmar (fun x e => (pow x e).getD 0) (barReturns mv) n) }

end PyBroker
