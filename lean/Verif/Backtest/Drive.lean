import Verif.Backtest.Model
import Verif.Common.Executions
import Verif.Scope.Prices
import Verif.Lags.Train

/-!
# A whole run

`Strategy._run_walkforward`, `_build_exit_dates` and the part of
`BacktestMixin.backtest_executions` that turns the data into bars, all of
`/repo/src/pybroker/strategy.py`.  `Verif/Backtest/Model.lean` has what happens on a bar.

User code is an arbitrary function: on each bar of a window it is given the bars so far, the
state of the loop and the active symbols, and gives its cancellations and the results of its
contexts.
It stands for `before_exec_fn`, the functions of the executions, `after_exec_fn`, rotation
and `to_result`.  A run calls it once per window and date, so that state it keeps elsewhere
(sessions, models, random numbers) is covered.  Training models, signals, `train_only` runs
and logging are left out.
-/

namespace PyBroker

/-- What is raised: by the split, a symbol selector or the loop; `price`: a position is
closed on a bar without a price (`decimal.InvalidOperation`). -/
inductive RunErr
  | split (e : WErr)
  | select (e : XErr)
  | loop (e : BErr)
  | price
  deriving DecidableEq, Repr

/-- What a run is given.  `fns` are the callables among fill prices, `orderSlip`, `exitSlip`
and `dropSlip` the slippage model on a window and bar, for orders, stops and forced exits,
and symbols dropped. -/
structure RunSetup where
  cfg : Config
  cols : List String
  rows : List DRow
  execs : List (Execn (List DRow))
  windows : Int := 1
  lookahead : Int := 1
  trainSize : ℚ := 0
  shuffle : List Nat → List Nat := id
  buyDelay : Nat := 1
  sellDelay : Nat := 1
  warmup : Option Nat := none
  exitOnLast : Bool := false
  exitCover : FillSpec := .price .middle
  exitSell : FillSpec := .price .middle
  round : Bool := true
  fns : Nat → Sym → Option SymArrays → Cell := fun _ _ _ => none
  orderSlip : Nat → Date → Option SlipModel := fun _ _ => none
  exitSlip : Nat → Date → Option SlipFn := fun _ _ => none
  dropSlip : Nat → Option SlipFn := fun _ => none
  iter : List Sym → List Sym := id
  act : Nat → Date → (Sym → Option SymArrays) → Loop → List Sym →
    List UserOp × (Sym → Option ExecResult)

namespace RunSetup

/-- The date column of the frame. -/
def dates (x : RunSetup) : List Date := x.rows.map DRow.date

/-- `df.iloc[rows]`, strategy.py:3091-3094. -/
def rowsAt (x : RunSetup) (idx : List Nat) : List DRow := idx.filterMap (fun i => x.rows[i]?)

/-- `has_selector`, strategy.py:2891-2892. -/
def selects (x : RunSetup) : Bool := x.execs.any (fun e => e.symbols.isSelector)

/-- The fill price a `FillSpec` stands for. -/
def fillPrice (x : RunSetup) : FillSpec → FillPrice
  | .price t => .type t
  | .amount q => .value q
  | .callable k => .fn (x.fns k)

/-- `PriceScope.fetch` at given end indexes, with empty caches (`prices_current` shows that
the caches do not matter).  Simplified: a price whose column is missing raises in the code
and is not finite here. -/
def priceAt (x : RunSetup) (store : Store) (idx : Sym → Nat) (sym : Sym) (f : FillSpec) :
    Option ℚ :=
  match (PriceScope.fetchFloat { store := store, endIndex := idx, round := x.round } sym
      (x.fillPrice f)).1 with
  | .error _ => none
  | .ok c => c

/-- What the loop reads on a bar. -/
def barEnv (x : RunSetup) (k : Nat) (store : Store) (idx : Sym → Nat) (d : Date) : BarEnv :=
  let ps : PriceScope := { store := store, endIndex := idx, round := x.round }
  { date := d
    endIndex := idx
    hasBarOn := fun s => ps.hasBarOnRaw s d
    fetch := x.priceAt store idx
    stop :=
      { canPrice := fun s => ps.hasBarOnRaw s d &&
          (((store.arrays s).bind (fun a => a.col "close")).isNone || (ps.barOhlcRaw s d).1.isSome)
        fetchFloat := fun s t => x.priceAt store idx s (.price t)
        fetch := x.priceAt store idx
        slip := x.exitSlip k d }
    quote := fun s =>
      let q := ps.barOhlcRaw s d
      if q.1 = none then ⟨none, none, none⟩ else ⟨q.1, q.2.1, q.2.2⟩
    slip := x.orderSlip k d }

/-- `_build_exit_dates`, strategy.py:3334-3358: the last date of each symbol in the whole
frame. -/
def exitDate (x : RunSetup) (sym : Sym) : Option Date :=
  if x.exitOnLast && (x.selects || decide (sym ∈ selectedSymbols x.execs)) then
    ((x.rows.filter (fun r => r.symbol = sym)).map DRow.date).max?
  else none

/-- The prices a position can be closed at: `price_scope.fetch` of the cover and the sell
price. -/
def closePrices (x : RunSetup) (store : Store) (idx : Sym → Nat) (sym : Sym) :
    Option ℚ × Option ℚ :=
  (x.priceAt store idx sym x.exitCover, x.priceAt store idx sym x.exitSell)

/-- Closing the symbol's positions does not need a price that is missing. -/
def closable (pf : Portfolio) (sym : Sym) (p : Option ℚ × Option ℚ) : Bool :=
  (p.1.isSome || (lookupPos pf.shorts sym).isNone) && (p.2.isSome || (lookupPos pf.longs sym).isNone)

/-- The state of a run: the loop and `sym_end_index` of the window; and records the code
does not keep: the turns of executions (window, date and symbol), the results, and the loop
after each bar. -/
structure State where
  loop : Loop
  idx : Sym → Nat := fun _ => 0
  turns : List (Nat × Date × Sym) := []
  results : List ExecResult := []
  trace : List (Date × Loop) := []

/-- Whether a symbol with `n` bars so far is past its warm-up, strategy.py:872-875. -/
def warm (x : RunSetup) (n : Nat) : Bool :=
  match x.warmup with
  | none => true
  | some m => m == 0 || decide (m < n)

/-- One bar, strategy.py:857-1047: the counters advance, symbols in their warm-up are
skipped, orders are placed, user code runs, orders are scheduled and positions are closed on
a symbol's last bar. -/
def bar (x : RunSetup) (k : Nat) (w : Window) (store : Store) (cal : List Date)
    (sd : List (Sym × List Date)) (st : State) (d : Date) : Except RunErr State :=
  let active := activeSyms sd cal d
  let idx := bumpIndexes active st.idx
  let ready := active.filter (fun s => x.warm (idx s))
  let env := x.barEnv k store idx d
  match barOrders x.cfg env st.loop with
  | .error e => .error (.loop e)
  | .ok s1 =>
    let a := x.act k d (fun s => (store.arrays s).map (fun a => a.upTo (idx s)))
      { s1 with pf := captureBar x.cfg s1.pf d env.quote } ready
    let results := ready.filterMap (fun s => (a.2 s).map (fun r => { r with symbol := s, date := d }))
    let exits := ready.filter (fun s => x.exitDate s = some d)
    if exits.all (fun s => closable s1.pf s (x.closePrices store idx s)) then
      match barSignals x.cfg w
          { env := env
            user := a.1
            results := results
            exits := exits.map (fun s =>
              ⟨s, (x.closePrices store idx s).1.getD 0, (x.closePrices store idx s).2.getD 0⟩) } s1 with
      | .error e => .error (.loop e)
      | .ok s2 =>
        .ok { loop := s2, idx := idx, turns := st.turns ++ ready.map (fun s => (k, d, s)),
              results := st.results ++ results, trace := st.trace ++ [(d, s2)] }
    else .error .price

/-- A loop that stops at the first error. -/
def each {α β : Type} (f : β → α → Except RunErr β) : β → List α → Except RunErr β
  | b, [] => .ok b
  | b, a :: as =>
    match f b a with
    | .error e => .error e
    | .ok b' => each f b' as

/-- The bars of a symbol in a store with the prices to close it at. -/
def dropBars (x : RunSetup) (store : Store) (sym : Sym) : List DropBar :=
  match store.arrays sym with
  | none => []
  | some a => a.dates.zipIdx.map (fun di =>
      ⟨di.1, (x.closePrices store (fun _ => di.2 + 1) sym).1.getD 0,
        (x.closePrices store (fun _ => di.2 + 1) sym).2.getD 0⟩)

/-- Whether each position to be closed has a price on its bar, strategy.py:3016-3029. -/
def droppable (x : RunSetup) (pf : Portfolio) (b : Boundary) (test master : Store) : Bool :=
  (droppedSyms pf b.selected).all (fun s =>
    let priced := fun (store : Store) (bar : DropBar) =>
      match store.arrays s with
      | none => true
      | some a => closable pf s (x.closePrices store (fun _ => a.dates.idxOf bar.date + 1) s)
    match testExitBar b s with
    | some bar => priced test bar
    | none =>
      match lateExitBar b s with
      | some bar => priced master bar
      | none => true)

/-- What `_liquidate_dropped_symbols` is given, strategy.py:3122-3130. -/
def boundary (x : RunSetup) (k : Nat) (selected : List Sym) (win : WFWindow) : Boundary where
  selected := selected
  test := x.dropBars (storeOf x.cols (x.rowsAt win.test))
  testDates := (x.rowsAt win.test).map DRow.date
  all := x.dropBars (storeOf x.cols x.rows)
  slip := x.dropSlip k
  iter := x.iter

/-- A window for the loop: the dates of a symbol with an execution in the test data, and in
the whole frame (`master_col_scope`). -/
def window (x : RunSetup) (k : Nat) (selected : List Sym) (win : WFWindow) (store : Store) :
    Window where
  dates := fun s => if s ∈ selected then ((store.arrays s).map SymArrays.dates).getD [] else []
  master := some (fun s => (((storeOf x.cols x.rows).arrays s).map SymArrays.dates).getD [])
  buyDelay := x.buyDelay
  sellDelay := x.sellDelay
  boundary := some (x.boundary k selected win)

/-- One window of `_run_walkforward`, strategy.py:3082-3222.  Without test data only dropped
symbols are closed; the schedules belong to `backtest_executions` and start empty. -/
def runOne (x : RunSetup) (st : State) (kw : WFWindow × Nat) : Except RunErr State :=
  let win := kw.1
  match windowExecutions (fun d : List DRow => (d.map DRow.symbol).dedup) List.isEmpty x.execs
      (x.rowsAt win.train) with
  | .error e => .error (.select e)
  | .ok es =>
    let selected := selectedSymbols es
    let store := (storeOf x.cols x.rows).slice (datesOfRows x.dates win.test)
    let w := x.window kw.2 selected win store
    if x.droppable st.loop.pf (x.boundary kw.2 selected win) (storeOf x.cols (x.rowsAt win.test))
        (storeOf x.cols x.rows) then
      match startWindow x.cfg st.loop w with
      | .error e => .error (.loop e)
      | .ok s1 =>
        let s2 : State :=
          { loop := { s1 with covers := [], buys := [], sells := [] }, idx := fun _ => 0,
            turns := st.turns, results := st.results, trace := st.trace }
        if win.test = [] then .ok s2
        else each (x.bar kw.2 w store store.uniqueDates (symExecDates store selected)) s2
          store.uniqueDates
    else .error .price

/-- `_run_walkforward`, strategy.py:3037-3240. -/
def run (x : RunSetup) : Except RunErr State :=
  match walkforwardSplit x.dates x.windows x.lookahead x.trainSize x.shuffle with
  | .error e => .error (.split e)
  | .ok wins => each (runOne x) { loop := { pf := Portfolio.init x.cfg } } wins.zipIdx

end RunSetup

end PyBroker
