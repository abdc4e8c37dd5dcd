import Verif.Backtest.Drive
import Verif.Eval.TestResult

/-!
# Runs on a portfolio of the caller, and runs that only train

The parameter `portfolio` of `Strategy.walkforward` and `Strategy.backtest`, and `train_only`, of
`/repo/src/pybroker/strategy.py`.  The run is that of `Verif/Backtest/Drive.lean`.

Left out: what is trained (`Verif/Backtest/Learn.lean`, whose training is given nothing of the
portfolio) and the signals (`Verif/Scope/Signals.lean`).  A portfolio's own configuration is assumed
to be that of the strategy.
-/

namespace PyBroker

/-- What a strategy has of trading rules: a `before_exec_fn`, an `after_exec_fn`, a rotation sizer,
the resolved `worst_rank_held`, and for each execution whether it has a function. -/
structure Rules where
  before : Bool := false
  after : Bool := false
  sizer : Bool := false
  worst : Option Int := none
  fns : List Bool := []
  deriving DecidableEq, Repr

/-- `train_only`, strategy.py:2813-2819. -/
def Rules.trainOnly (r : Rules) : Bool :=
  !r.before && !r.after && !r.sizer && r.worst.isNone && r.fns.all (fun f => !f)

namespace RunSetup

/-- One window of `_run_walkforward` when `train_only`, strategy.py:3082-3222: dropped symbols are
closed (3122-3130); `backtest_executions` returns before its loop (789-794). -/
def trainOne (x : RunSetup) (st : State) (kw : WFWindow × Nat) : Except RunErr State :=
  let win := kw.1
  match windowExecutions (fun d : List DRow => (d.map DRow.symbol).dedup) List.isEmpty x.execs
      (x.rowsAt win.train) with
  | .error e => .error (.select e)
  | .ok es =>
    let selected := selectedSymbols es
    let store := (storeOf x.cols x.rows).slice (datesOfRows x.dates win.test)
    if x.droppable st.loop.pf (x.boundary kw.2 selected win) (storeOf x.cols (x.rowsAt win.test))
        (storeOf x.cols x.rows) then
      match startWindow x.cfg st.loop (x.window kw.2 selected win store) with
      | .error e => .error (.loop e)
      | .ok s1 => .ok { st with loop := s1 }
    else .error .price

/-- `_run_walkforward` on a portfolio, strategy.py:2820-2860 and 3037-3240: that of the caller, or a
new one.  The registry of pending orders is new in every run (3081). -/
def runGiven (x : RunSetup) (trainOnly : Bool) (given : Option Portfolio) : Except RunErr State :=
  match walkforwardSplit x.dates x.windows x.lookahead x.trainSize x.shuffle with
  | .error e => .error (.split e)
  | .ok wins => each (if trainOnly then x.trainOne else x.runOne)
      { loop := { pf := given.getD (Portfolio.init x.cfg) } } wins.zipIdx

/-- `Strategy.walkforward`, strategy.py:2813-2874, with a portfolio: the run and its result. -/
def runRules (x : RunSetup) (F : Fns ℚ) (rd : Bool) (r : Rules) (given : Option Portfolio) :
    Except RunErr (State × TestResult) :=
  match x.runGiven r.trainOnly given with
  | .error e => .error e
  | .ok st => .ok (st, toTestResult F rd x.cfg.fractional r.trainOnly st.loop.pf [])

end RunSetup

end PyBroker
