import Verif.Backtest.Drive
import Verif.Data.Prepare
import Verif.Optimize.Tune
import Verif.Eval.TestResult

/-!
# From the API to a run

`StrategyConfig` (`/repo/src/pybroker/config.py`), `Strategy.__init__`, `_verify_config`,
`set_max_long_positions`, `set_max_short_positions`, `enable_rotation` and `Strategy.walkforward`
(`/repo/src/pybroker/strategy.py`): what is checked, and how a call becomes the `RunSetup` of
`Verif/Backtest/Drive.lean`.

Left out: warnings, logging, the checks of a data source's columns, of registered names and of a
slippage model, hyperparameters (their values are part of the settings, see
`Verif/Optimize/Tune.lean`), a portfolio passed by the caller, indicators and models (part of the
user code), runs that only train (`Verif/Backtest/Given.lean`) and the bootstrap.
-/

namespace PyBroker

/-- `StrategyConfig`, config.py:97-124.  Simplified: `return_signals`, `return_stops` and
`record_portfolio_bars` only choose what is returned.  A `bars_per_year` is not negative. -/
structure StratConfig where
  initialCash : ℚ := 100000
  feeMode : Option FeeMode := none
  feeAmount : Option ℚ := some 0
  fractional : Bool := false
  roundFill : Bool := true
  positionMode : PositionMode := .default
  maxLong : Option Int := none
  maxShort : Option Int := none
  buyDelay : Int := 1
  sellDelay : Int := 1
  bootstrapSamples : Int := 10000
  exitOnLast : Bool := false
  exitCover : FillSpec := .price .middle
  exitSell : FillSpec := .price .middle
  barsPerYear : Option Nat := none
  roundResult : Bool := true
  leverage : ℚ := 1
  interestRate : ℚ := 0

/-- The fields `_verify_config` names in what it raises. -/
inductive ConfErr
  | initialCash
  | maxLong
  | maxShort
  | feeAmount
  | buyDelay
  | sellDelay
  | bootstrapSamples
  | leverage
  | interestRate
  | barsPerYear
  deriving DecidableEq, Repr

/-- `_verify_config`, strategy.py:1984-2032. -/
def verifyConfig (c : StratConfig) : Except ConfErr Unit :=
  if c.initialCash ≤ 0 then .error .initialCash
  else if c.maxLong.any (fun m => m ≤ 0) then .error .maxLong
  else if c.maxShort.any (fun m => m ≤ 0) then .error .maxShort
  else if c.feeAmount.any (fun f => f < 0) then .error .feeAmount
  else if c.buyDelay ≤ 0 then .error .buyDelay
  else if c.sellDelay ≤ 0 then .error .sellDelay
  else if c.bootstrapSamples ≤ 0 then .error .bootstrapSamples
  else if c.leverage < 1 then .error .leverage
  else if c.interestRate < 0 then .error .interestRate
  else if 0 < c.interestRate ∧ c.barsPerYear = none then .error .barsPerYear
  else .ok ()

/-- What a caller may see raised. -/
inductive ApiErr
  | config (e : ConfErr)
  | dates
  | limit
  | warmup
  | noExecutions
  | settings
  | prepare (e : PrepErr)
  | run (e : RunErr)
  deriving DecidableEq, Repr

/-- The user code of a strategy and what it depends on, as in `RunSetup`.  `crypto`: the data
source is an `AlpacaCrypto`. -/
structure UserCode where
  cols : List String
  fns : Nat → Sym → Option SymArrays → Cell := fun _ _ _ => none
  orderSlip : Nat → Date → Option SlipModel := fun _ _ => none
  exitSlip : Nat → Date → Option SlipFn := fun _ _ => none
  dropSlip : Nat → Option SlipFn := fun _ => none
  iter : List Sym → List Sym := id
  act : OwnSettings → Nat → Date → (Sym → Option SymArrays) → Loop → List Sym →
    List UserOp × (Sym → Option ExecResult)
  crypto : Bool := false

/-- A `Strategy`, strategy.py:1952-1982.  `sizer`: a rotation sizer is set. -/
structure StrategyObj where
  source : BarSource
  start : Date
  stop : Date
  config : StratConfig
  execs : List (Execn (List DRow)) := []
  own : OwnSettings := {}
  sizer : Bool := false

namespace StrategyObj

/-- `Strategy.__init__`, strategy.py:1950-1982.  Only a given configuration is checked. -/
def new (source : BarSource) (start stop : Date) (config : Option StratConfig) :
    Except ApiErr StrategyObj :=
  if stop < start then .error .dates
  else
    match config with
    | none => .ok { source := source, start := start, stop := stop, config := {} }
    | some c =>
      match verifyConfig c with
      | .error e => .error (.config e)
      | .ok _ => .ok { source := source, start := start, stop := stop, config := c }

/-- `set_max_long_positions`, strategy.py:2091-2101. -/
def setMaxLong (s : StrategyObj) (m : Option Int) : Except ApiErr StrategyObj :=
  if m.any (fun k => k ≤ 0) then .error .limit
  else .ok { s with own := { s.own with maxLong := m } }

/-- `set_max_short_positions`, strategy.py:2103-2113. -/
def setMaxShort (s : StrategyObj) (m : Option Int) : Except ApiErr StrategyObj :=
  if m.any (fun k => k ≤ 0) then .error .limit
  else .ok { s with own := { s.own with maxShort := m } }

/-- `enable_rotation`, strategy.py:2115-2153. -/
def enableRotation (s : StrategyObj) (worst : Option Int) (sizer : Bool) : StrategyObj :=
  match worst with
  | none => { s with own := { s.own with worst := none }, sizer := false }
  | some w => { s with own := { s.own with worst := some w }, sizer := sizer }

/-- `add_execution`, strategy.py:2335-2352 and 2494-2507, after its checks
(`Verif/Common/Executions.lean`). -/
def addExecution (s : StrategyObj) (e : Execn (List DRow)) : StrategyObj :=
  { s with execs := s.execs ++ [e] }

end StrategyObj

/-- The arguments of `Strategy.walkforward`, strategy.py:2643-2662. -/
structure RunCall where
  windows : Int
  lookahead : Int := 1
  dates : RunDates := {}
  trainSize : ℚ := 1 / 2
  shuffle : List Nat → List Nat := id
  warmup : Option Int := none

/-- The symbols of an execution as the data preparation sees them. -/
def ExecSyms.given {D : Type} : ExecSyms D → ExecSymbols
  | .fixed l => some l
  | .selector _ => none

namespace StrategyObj

/-- The portfolio of a run, strategy.py:2819-2834, with `_fractional_shares_enabled` (3032-3035):
the limits are those of the settings. -/
def portfolioConfig (s : StrategyObj) (u : UserCode) (set : OwnSettings) : Config :=
  { cash := s.config.initialCash
    feeMode := s.config.feeMode
    feeAmount := s.config.feeAmount
    fractional := s.config.fractional || u.crypto
    positionMode := s.config.positionMode
    maxLong := set.maxLong.map Int.toNat
    maxShort := set.maxShort.map Int.toNat
    leverage := s.config.leverage
    interestRate := s.config.interestRate
    barsPerYear := s.config.barsPerYear }

/-- What `_run_walkforward` is given, strategy.py:2835-2859. -/
def runSetup (s : StrategyObj) (u : UserCode) (c : RunCall) (set : OwnSettings)
    (rows : List DRow) : RunSetup :=
  { cfg := s.portfolioConfig u set
    cols := u.cols
    rows := rows
    execs := s.execs
    windows := c.windows
    lookahead := c.lookahead
    trainSize := c.trainSize
    shuffle := c.shuffle
    buyDelay := s.config.buyDelay.toNat
    sellDelay := s.config.sellDelay.toNat
    warmup := c.warmup.map Int.toNat
    exitOnLast := s.config.exitOnLast
    exitCover := s.config.exitCover
    exitSell := s.config.exitSell
    round := s.config.roundFill
    fns := u.fns
    orderSlip := u.orderSlip
    exitSlip := u.exitSlip
    dropSlip := u.dropSlip
    iter := u.iter
    act := u.act set }

/-- `Strategy.walkforward`, strategy.py:2735-2859: the checks in their order, then the run.  The
settings are resolved after the date checks of `prepareBars` and before the rest of it; which of
two errors is raised first is the only thing that could tell. -/
def prepare (s : StrategyObj) (u : UserCode) (c : RunCall) : Except ApiErr (OwnSettings × RunSetup) :=
  if c.warmup.any (fun w => w < 1) then .error .warmup
  else if s.execs = [] then .error .noExecutions
  else
    match resolveSettings s.sizer (s.config.maxLong, s.config.maxShort) s.own with
    | none => .error .settings
    | some set =>
      match prepareBars s.source (s.execs.map (fun e => e.symbols.given)) s.start s.stop c.dates with
      | .error e => .error (.prepare e)
      | .ok out => .ok (set, s.runSetup u c set out.1)

/-- `Strategy.walkforward`, strategy.py:2643-2874, of a strategy with something to call on a bar:
the state at the end of the run. -/
def walkforward (s : StrategyObj) (u : UserCode) (c : RunCall) : Except ApiErr RunSetup.State :=
  match s.prepare u c with
  | .error e => .error e
  | .ok p =>
    match p.2.run with
    | .error e => .error (.run e)
    | .ok st => .ok st

/-- `_to_test_result` of the run, strategy.py:2862-2871, without recorded position bars. -/
def testResult (s : StrategyObj) (u : UserCode) (F : Fns ℚ) (st : RunSetup.State) : TestResult :=
  toTestResult F s.config.roundResult (s.config.fractional || u.crypto) false st.loop.pf []

/-- `Strategy.backtest`, strategy.py:2537-2641: `walkforward` with one window. -/
def backtest (s : StrategyObj) (u : UserCode) (c : RunCall) : Except ApiErr RunSetup.State :=
  s.walkforward u { c with windows := 1 }

end StrategyObj

end PyBroker
