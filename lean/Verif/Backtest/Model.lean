import Verif.Backtest.Pending
import Verif.Slippage

/-!
# Model of the backtest bar loop of `strategy.py`

Line numbers refer to `/repo/src/pybroker/strategy.py` unless another file is
named.  What user code does on a bar is an arbitrary input of the model: the
calls it makes on the portfolio and the registry, and the execution results its
contexts turn into.
-/

namespace PyBroker

/-- `Optional[float]` score: `none` is unset, `some none` is NaN. -/
abbrev Score := Option (Option ℚ)

/-- `ExecResult`, context.py:60-154.  Stops are `[]` for `None` and for the
empty set alike (strategy.py:1134-1135 merges them).  `hold_bars` is only
informative and left out. -/
structure ExecResult where
  symbol : Sym
  date : Date
  buyFill : FillSpec := .price .middle
  sellFill : FillSpec := .price .middle
  score : Score := none
  longScore : Score := none
  shortScore : Score := none
  buyShares : Option ℚ := none
  buyLimit : Option ℚ := none
  buyTimeout : Option Int := none
  sellShares : Option ℚ := none
  sellLimit : Option ℚ := none
  sellTimeout : Option Int := none
  longStops : List Stop := []
  shortStops : List Stop := []
  cover : Bool := false
  pendingId : Option Nat := none
  exitPos : Option PosType := none
  deriving DecidableEq, Repr

/-- The exceptions of the loop: those of the portfolio, a slippage model that
returns an invalid share count (1471-1476) and a result without a side (1127). -/
inductive BErr
  | portfolio (e : Err)
  | slippageShares
  | noSide
  deriving DecidableEq, Repr

/-- Lift a portfolio exception. -/
def liftE {α : Type} : Except Err α → Except BErr α
  | .ok a => .ok a
  | .error e => .error (.portfolio e)

/-- A loop whose body may raise. -/
def foldB {α β : Type} (f : β → α → Except BErr β) : β → List α → Except BErr β
  | b, [] => .ok b
  | b, a :: as =>
    match f b a with
    | .error e => .error e
    | .ok b' => foldB f b' as

/-! ## Scores -/

/-- `_is_rankable`, 215-222, and the value. -/
def Score.rankable : Score → Option ℚ
  | some (some q) => some q
  | _ => none

/-- The common part of `_sort_by_buy_score` and `_sort_by_sell_score`, 187-208:
`sided` is `long_score` or `short_score`.  `⊥` is `-inf`. -/
def sortScore (sided score : Score) : WithBot ℚ :=
  match sided with
  | some (some q) => (q : WithBot ℚ)
  | some none => ⊥
  | none =>
    match score with
    | some (some q) => (q : WithBot ℚ)
    | some none => ⊥
    | none => ((0 : ℚ) : WithBot ℚ)

/-- `_sort_by_buy_score`, 187-196. -/
def ExecResult.buyKey (r : ExecResult) : WithBot ℚ := sortScore r.longScore r.score

/-- `_sort_by_sell_score`, 199-208. -/
def ExecResult.sellKey (r : ExecResult) : WithBot ℚ := sortScore r.shortScore r.score

/-- `list.sort(key=key, reverse=True)`: descending, equal keys keep their order. -/
def sortDesc (key : ExecResult → WithBot ℚ) (l : List ExecResult) : List ExecResult :=
  l.insertionSort (fun a b => key b ≤ key a)

/-! ## Scheduling -/

/-- `_next_master_date`, 1160-1180.  `np.searchsorted` on the sorted dates gives
the number of dates before `curr`. -/
def nextMasterDate (master : List Date) (curr : Date) (delay : Nat) : Option Date :=
  let loc := (master.takeWhile (fun d => d < curr)).length
  if master[loc]? ≠ some curr then none else master[loc + delay]?

/-- The date an order signalled at `dates[endIndex - 1]` executes on, and whether
it lies in the window: the date part of `_schedule_order`, 1095-1113. -/
def execDate (dates : List Date) (master : Option (List Date)) (endIndex delay : Nat) :
    Option (Date × Bool) :=
  match dates[endIndex - 1 + delay]? with
  | some d => some (d, true)
  | none =>
    match master, dates[endIndex - 1]? with
    | some ms, some curr => (nextMasterDate ms curr delay).map (fun d => (d, false))
    | _, _ => none

/-- The request `_schedule_order` adds, 1115-1149. -/
def ExecResult.request (r : ExecResult) (created exec : Date) (execBar : Nat) :
    Except BErr PendingReq :=
  match r.buyShares, r.sellShares with
  | some n, _ => .ok { side := .buy, symbol := r.symbol, created := created, execDate := exec,
                       shares := n, limit := r.buyLimit, fill := r.buyFill, execBar := execBar,
                       timeout := r.buyTimeout, stops := r.longStops, exitPos := r.exitPos }
  | none, some n => .ok { side := .sell, symbol := r.symbol, created := created,
                          execDate := exec, shares := n, limit := r.sellLimit,
                          fill := r.sellFill, execBar := execBar, timeout := r.sellTimeout,
                          stops := r.shortStops, exitPos := r.exitPos }
  | none, none => .error .noSide

/-- A schedule: `dict[date, list[ExecResult]]`, as pairs in append order. -/
abbrev Sched := List (Date × ExecResult)

/-- `sched[date]`. -/
def Sched.on (s : Sched) (d : Date) : List ExecResult := (s.filter (fun x => x.1 = d)).map Prod.snd

/-- `del sched[date]`. -/
def Sched.drop (s : Sched) (d : Date) : Sched := s.filter (fun x => x.1 ≠ d)

/-- A bar a position can be closed on at a window boundary: its date and the
prices `PriceScope.fetch` gives for `exit_cover_fill_price` and
`exit_sell_fill_price` on it (strategy.py:3016-3029). -/
structure DropBar where
  date : Date
  buyFill : ℚ
  sellFill : ℚ
  deriving DecidableEq, Repr

/-- What `_liquidate_dropped_symbols` (strategy.py:2894-2903) is given at the
start of a window: the selected symbols, the bars of each symbol in the test
data and in the whole data set, the dates of the test data, slippage, and the
order in which a set of symbols is iterated. -/
structure Boundary where
  selected : List Sym
  test : Sym → List DropBar
  testDates : List Date
  all : Sym → List DropBar
  slip : Option SlipFn := none
  iter : List Sym → List Sym := id

/-- What one walkforward window fixes: each symbol's own dates in the window
(`col_scope`), its dates in the whole data set (`master_col_scope`), the
delays of the strategy configuration, and what is needed to close positions in
symbols the window no longer selects. -/
structure Window where
  dates : Sym → List Date
  master : Option (Sym → List Date)
  buyDelay : Nat
  sellDelay : Nat
  boundary : Option Boundary := none

/-- `_schedule_order`, 1084-1158: the new registry and schedule. -/
def scheduleOrder (w : Window) (endIndex : Sym → Nat) (created : Date) (delay : Nat)
    (pend : PendingScope) (sched : Sched) (r : ExecResult) :
    Except BErr (PendingScope × Sched) :=
  match execDate (w.dates r.symbol) (w.master.map (fun m => m r.symbol)) (endIndex r.symbol)
      delay with
  | none => .ok (pend, sched)
  | some (d, inWindow) =>
    match r.request created d (endIndex r.symbol + delay) with
    | .error e => .error e
    | .ok q =>
      let x := pend.add q
      .ok (x.2, if inWindow then sched ++ [(d, { r with pendingId := some x.1 })] else sched)

/-! ## Attempting an order -/

/-- The slippage model as the order path distinguishes it, 1450-1477: a fixed
model (its basis points), a model whose `is_fill_noop` is true, or another model
given by its `apply_slippage(side, symbol, shares, fill_price)`. -/
inductive SlipModel
  | fixed (bps : ℚ)
  | noop
  | general (f : SlipFn)

/-- `_get_shares`, 1520-1528. -/
def getShares (cfg : Config) (shares : ℚ) : ℚ :=
  if cfg.fractional then shares else (truncQ shares : ℚ)

/-- `_is_persistent_limit`, 211-212. -/
def PendingOrder.persistent (p : PendingOrder) : Bool := p.limit.isSome && p.timeout.isSome

/-- Slippage on an order, 1450-1477: the shares and the fill price. -/
def slipOrder (cfg : Config) (slip : Option SlipModel) (p : PendingOrder) (shares fill : ℚ) :
    Except BErr (ℚ × ℚ) :=
  match slip with
  | none => .ok (shares, fill)
  | some (.fixed bps) => .ok (shares, Slippage.fixedAdjust bps p.side fill)
  | some .noop => .ok (shares, fill)
  | some (.general f) =>
    let x := f p.side p.symbol shares fill
    if x.1 < 0 ∨ x.1 > shares then .error .slippageShares
    else .ok (getShares cfg x.1, x.2)

/-- The clamp of an exit order, 1429-1446: `none` if nothing is held. -/
def exitClamp (pf : Portfolio) (p : PendingOrder) (shares : ℚ) : Option ℚ :=
  match p.exitPos with
  | none => some shares
  | some t =>
    let held := ((lookupPos (pf.book t) p.symbol).map Position.shares).getD 0
    let n := if shares > held then held else shares
    if n ≤ 0 then none else some n

/-- The call on the portfolio, 1478-1518. -/
def PendingOrder.req (p : PendingOrder) (date : Date) (shares fill market : ℚ) : OrderReq :=
  { date := date, symbol := p.symbol, shares := shares, fill := fill, limit := p.limit,
    stops := p.stops, created := some p.created,
    orderType := if p.limit.isSome then .limit else .market, marketPrice := some market }

/-- Everything the loop reads on one bar.  `fetch` is `PriceScope.fetch`
(`none` = not finite), `hasBarOn sym` is `price_scope.has_bar_on(sym, date)`,
`endIndex` is `sym_end_index` after the advance of 870-871. -/
structure BarEnv where
  date : Date
  endIndex : Sym → Nat
  hasBarOn : Sym → Bool
  fetch : Sym → FillSpec → Option ℚ
  stop : StopEnv
  quote : Sym → BarQuote
  slip : Option SlipModel := none

/-- `_attempt_pending_order`, 1404-1518. -/
def attemptOrder (cfg : Config) (env : BarEnv) (pf : Portfolio) (p : PendingOrder) :
    Except BErr (Option Order × Portfolio) :=
  let shares := getShares cfg p.shares
  match env.fetch p.symbol p.fill with
  | none => .ok (none, pf)
  | some fill =>
    match exitClamp pf p shares with
    | none => .ok (none, pf)
    | some n =>
      match slipOrder cfg env.slip p n fill with
      | .error e => .error e
      | .ok (n', price) =>
        match p.side with
        | .buy => liftE (buy cfg pf (p.req env.date n' price fill))
        | .sell => liftE (sell cfg pf (p.req env.date n' price fill))

/-- An attempt to fill a pending order.  The code keeps no such record; the model
keeps it to state properties of whole runs. -/
structure Attempt where
  order : PendingOrder
  date : Date
  filled : Option Order
  deriving DecidableEq, Repr

/-- The state the loop mutates, 795-856. -/
structure Loop where
  pf : Portfolio
  pend : PendingScope := {}
  covers : Sched := []
  buys : Sched := []
  sells : Sched := []
  attempts : List Attempt := []

/-- Mark, attempt and remove: 1208-1237, 1266-1295, 1350-1402. -/
def attemptStep (cfg : Config) (env : BarEnv) (s : Loop) (p : PendingOrder) :
    Except BErr Loop :=
  let pend1 := s.pend.markAttempted p.id
  match attemptOrder cfg env s.pf p with
  | .error e => .error e
  | .ok (o, pf') =>
    let pend2 := if o.isSome ∨ p.persistent = false then (pend1.remove p.id).2 else pend1
    .ok { s with pf := pf', pend := pend2, attempts := s.attempts ++ [⟨p, env.date, o⟩] }

/-- One iteration of `_place_buy_orders`, 1197-1237. -/
def placeBuy (cfg : Config) (env : BarEnv) (s : Loop) (r : ExecResult) : Except BErr Loop :=
  if r.buyShares.isNone then .ok s
  else
    match r.pendingId with
    | none => .ok s
    | some id =>
      match s.pend.get id with
      | none => .ok s
      | some p => attemptStep cfg env s p

/-- One iteration of `_place_sell_orders`, 1255-1295. -/
def placeSell (cfg : Config) (env : BarEnv) (s : Loop) (r : ExecResult) : Except BErr Loop :=
  if r.sellShares.isNone then .ok s
  else
    match r.pendingId with
    | none => .ok s
    | some id =>
      match s.pend.get id with
      | none => .ok s
      | some p => attemptStep cfg env s p

/-- The order in which a schedule is placed: sorted by score when a position
limit is set, 885-896. -/
def placeOrderOf (limit : Option Nat) (key : ExecResult → WithBot ℚ) (l : List ExecResult) :
    List ExecResult :=
  match limit with
  | none => l
  | some _ => sortDesc key l

/-- `_place_buy_orders` on `cover_sched`, 905-917 and 1182-1238. -/
def placeCovers (cfg : Config) (env : BarEnv) (s : Loop) : Except BErr Loop :=
  (foldB (placeBuy cfg env) s
    (placeOrderOf cfg.maxLong ExecResult.buyKey (s.covers.on env.date))).map
      (fun s => { s with covers := s.covers.drop env.date })

/-- `_place_sell_orders` on `sell_sched`, 918-930 and 1240-1296. -/
def placeSells (cfg : Config) (env : BarEnv) (s : Loop) : Except BErr Loop :=
  (foldB (placeSell cfg env) s
    (placeOrderOf cfg.maxShort ExecResult.sellKey (s.sells.on env.date))).map
      (fun s => { s with sells := s.sells.drop env.date })

/-- `_place_buy_orders` on `buy_sched`, 931-943 and 1182-1238. -/
def placeBuys (cfg : Config) (env : BarEnv) (s : Loop) : Except BErr Loop :=
  (foldB (placeBuy cfg env) s
    (placeOrderOf cfg.maxLong ExecResult.buyKey (s.buys.on env.date))).map
      (fun s => { s with buys := s.buys.drop env.date })

/-! ## Persistent orders -/

/-- `_pending_order_priority`, 391-405. -/
def PendingOrder.priority (p : PendingOrder) : Nat × Nat :=
  match p.side with
  | .buy => (if p.exitPos = some .short then 0 else 2, p.id)
  | .sell => (1, p.id)

/-- `sorted(orders, key=_pending_order_priority)`, 1313-1315: tuples compare
lexicographically. -/
def sortPending (l : List PendingOrder) : List PendingOrder :=
  l.insertionSort (fun a b => a.priority.1 < b.priority.1 ∨
    (a.priority.1 = b.priority.1 ∧ a.priority.2 ≤ b.priority.2))

/-- One iteration of the loop of `_process_persistent_orders`, 1316-1402. -/
def processOne (cfg : Config) (env : BarEnv) (s : Loop) (p : PendingOrder) : Except BErr Loop :=
  if p.execDate > env.date then .ok s
  else
    let first := !s.pend.wasAttempted p.id
    if p.execDate = env.date ∧ first = false then .ok s
    else if env.hasBarOn p.symbol = false then .ok s
    else if first then attemptStep cfg env s p
    else
      match p.timeout with
      | none => .ok s
      | some t =>
        let pend1 := s.pend.advanceRetry p.id
        if 0 ≤ t ∧ (pend1.retryBars p.id : Int) > t then
          .ok { s with pend := (pend1.remove p.id).2 }
        else attemptStep cfg env { s with pend := pend1 } p

/-- `_process_persistent_orders`, 1298-1402. -/
def processPersistent (cfg : Config) (env : BarEnv) (s : Loop) : Except BErr Loop :=
  foldB (processOne cfg env) s (sortPending s.pend.orders)

/-! ## User code, scheduling and forced exits -/

/-- The calls user code can make through its contexts: `cancel_pending_order`,
`cancel_all_pending_orders`, `cancel_stop`, `cancel_stops` (context.py:1273-1299). -/
inductive UserOp
  | cancelPending (id : Nat)
  | cancelAllPending (sym : Option Sym)
  | cancelStop (id : Nat)
  | cancelStopsSym (sym : Sym) (t : Option StopType)
  | cancelStopsEntry (id : Nat) (t : Option StopType)

/-- The effect of a call of user code. -/
def userStep (s : Loop) : UserOp → Loop
  | .cancelPending id => { s with pend := (s.pend.remove id).2 }
  | .cancelAllPending sym => { s with pend := s.pend.removeAll sym }
  | .cancelStop id => { s with pf := (PyBroker.removeStop s.pf id).2 }
  | .cancelStopsSym sym t => { s with pf := PyBroker.removeStopsSym s.pf sym t }
  | .cancelStopsEntry id t => { s with pf := PyBroker.removeStopsEntry s.pf id t }

/-- The three queues results are sorted into, 988-998. -/
def coverResults (rs : List ExecResult) : List ExecResult :=
  rs.filter (fun r => r.buyShares.isSome && r.cover)

def buyResults (rs : List ExecResult) : List ExecResult :=
  rs.filter (fun r => r.buyShares.isSome && !r.cover)

def sellResults (rs : List ExecResult) : List ExecResult :=
  rs.filter (fun r => r.sellShares.isSome)

/-- 999-1009. -/
def schedCover (w : Window) (env : BarEnv) (s : Loop) (r : ExecResult) : Except BErr Loop :=
  (scheduleOrder w env.endIndex env.date w.buyDelay s.pend s.covers r).map
    (fun x => { s with pend := x.1, covers := x.2 })

/-- 1010-1020. -/
def schedBuy (w : Window) (env : BarEnv) (s : Loop) (r : ExecResult) : Except BErr Loop :=
  (scheduleOrder w env.endIndex env.date w.buyDelay s.pend s.buys r).map
    (fun x => { s with pend := x.1, buys := x.2 })

/-- 1021-1031. -/
def schedSell (w : Window) (env : BarEnv) (s : Loop) (r : ExecResult) : Except BErr Loop :=
  (scheduleOrder w env.endIndex env.date w.sellDelay s.pend s.sells r).map
    (fun x => { s with pend := x.1, sells := x.2 })

/-- An exit forced by `exit_dates`, 876-881, 1032-1044 and 1054-1082. -/
structure ForcedExit where
  symbol : Sym
  buyFill : ℚ
  sellFill : ℚ

/-- `_exit_position`, 1054-1082. -/
def exitStep (cfg : Config) (env : BarEnv) (s : Loop) (x : ForcedExit) : Except BErr Loop :=
  (liftE (exitPosition cfg s.pf env.date x.symbol x.buyFill x.sellFill env.stop.slip)).map
    (fun pf => { s with pf := pf })

/-- What happens on one bar: the data and what user code does. -/
structure BarIn where
  env : BarEnv
  user : List UserOp := []
  results : List ExecResult := []
  exits : List ForcedExit := []

/-- The orders of a bar: stops, covers, sells, buys, then persistent orders,
897-954. -/
def barOrders (cfg : Config) (env : BarEnv) (s : Loop) : Except BErr Loop := do
  let pf ← liftE (checkStops cfg s.pf env.date env.stop)
  let s1 ← placeCovers cfg env { s with pf := pf }
  let s2 ← placeSells cfg env s1
  let s3 ← placeBuys cfg env s2
  processPersistent cfg env s3

/-- The rest of a bar: capture, user code, scheduling, forced exits, bar
counts, 955-1045. -/
def barSignals (cfg : Config) (w : Window) (b : BarIn) (s : Loop) : Except BErr Loop := do
  let s1 := { s with pf := captureBar cfg s.pf b.env.date b.env.quote }
  let s2 := b.user.foldl userStep s1
  let s3 ← foldB (schedCover w b.env) s2 (coverResults b.results)
  let s4 ← foldB (schedBuy w b.env) s3 (buyResults b.results)
  let s5 ← foldB (schedSell w b.env) s4 (sellResults b.results)
  let s6 ← foldB (exitStep cfg b.env) s5 b.exits
  .ok { s6 with pf := incrBars s6.pf b.env.hasBarOn }

/-- One iteration of the bar loop, 857-1047. -/
def barStep (cfg : Config) (w : Window) (s : Loop) (b : BarIn) : Except BErr Loop := do
  let s1 ← barOrders cfg b.env s
  barSignals cfg w b s1

/-! ## Window boundaries -/

/-- `np.argmin(date_arr)`, strategy.py:2990: the first bar with the least date. -/
def firstBar : List DropBar → Option DropBar
  | [] => none
  | b :: rest =>
    match firstBar rest with
    | none => some b
    | some c => if b.date ≤ c.date then some b else some c

/-- `np.argmax(date_arr)`, strategy.py:2992 and 3000: the first bar with the
greatest date. -/
def lastBar : List DropBar → Option DropBar
  | [] => none
  | b :: rest =>
    match lastBar rest with
    | none => some b
    | some c => if c.date ≤ b.date then some b else some c

/-- `test_data[date].min()`, strategy.py:2936. -/
def minDate : List Date → Option Date
  | [] => none
  | d :: rest =>
    match minDate rest with
    | none => some d
    | some c => some (if d ≤ c then d else c)

/-- The symbols of pending orders that are not selected, cancelled one symbol
after the other, strategy.py:2922-2929.  Simplified: the code goes through the
symbols in sorted order. -/
def cancelStale (pend : PendingScope) (selected : List Sym) : PendingScope :=
  ((pend.orders.map PendingOrder.symbol).filter (fun x => !selected.contains x)).foldl
    (fun p x => p.removeAll (some x)) pend

/-- The held symbols that are not selected, strategy.py:2921 and 2930. -/
def droppedSyms (pf : Portfolio) (selected : List Sym) : List Sym :=
  (((pf.longs.map Position.symbol) ++ (pf.shorts.map Position.symbol)).dedup).filter
    (fun x => !selected.contains x)

/-- The bar a symbol is closed on in the test data, strategy.py:2935-2946 and
2989-2990: its first, when there is any test data. -/
def testExitBar (b : Boundary) (sym : Sym) : Option DropBar :=
  if b.testDates = [] then none else firstBar (b.test sym)

/-- The bar a symbol without test bars is closed on, strategy.py:2947-2957 and
2991-3002: its last one not after the start of the test data. -/
def lateExitBar (b : Boundary) (sym : Sym) : Option DropBar :=
  match minDate b.testDates with
  | none => lastBar (b.all sym)
  | some d => lastBar ((b.all sym).filter (fun x => decide (x.date ≤ d)))

/-- The call of `exit_position` for one symbol, strategy.py:3016-3029. -/
def dropStep (cfg : Config) (slip : Option SlipFn) (s : Loop) (x : Sym × DropBar) :
    Except BErr Loop :=
  (liftE (exitPosition cfg s.pf x.2.date x.1 x.2.buyFill x.2.sellFill slip)).map
    (fun pf => { s with pf := pf })

/-- `_exit_dropped_at_bar`, strategy.py:2959-3030, with the choice of the bar as
a function: the exits it makes. -/
def dropExits (pick : Sym → Option DropBar) (syms : List Sym) : List (Sym × DropBar) :=
  syms.filterMap (fun x => (pick x).map (fun bar => (x, bar)))

/-- `_liquidate_dropped_symbols`, strategy.py:2894-2957. -/
def liquidateDropped (cfg : Config) (s : Loop) (b : Boundary) : Except BErr Loop := do
  let s0 := { s with pend := cancelStale s.pend b.selected }
  let dropped := b.iter (droppedSyms s.pf b.selected)
  let exits := dropExits (testExitBar b) dropped
  let s1 ← foldB (dropStep cfg b.slip) s0 exits
  let remaining := b.iter (dropped.filter (fun x => !(exits.map Prod.fst).contains x))
  foldB (dropStep cfg b.slip) s1 (dropExits (lateExitBar b) remaining)

/-- The call of `_liquidate_dropped_symbols` at the start of a window,
strategy.py:3122-3130. -/
def startWindow (cfg : Config) (s : Loop) (w : Window) : Except BErr Loop :=
  match w.boundary with
  | none => .ok s
  | some b => liquidateDropped cfg s b

/-- One window of `_run_walkforward` (strategy.py:3122-3130, 3194-3221): dropped
symbols are closed, then `backtest_executions` runs: the schedules start empty
(847-849), the portfolio and the registry carry over (800-801). -/
def runWindow (cfg : Config) (s : Loop) (x : Window × List BarIn) : Except BErr Loop := do
  let s1 ← startWindow cfg s x.1
  foldB (barStep cfg x.1) { s1 with covers := [], buys := [], sells := [] } x.2

/-- A walkforward run: consecutive windows over one portfolio and registry. -/
def runWindows (cfg : Config) (ws : List (Window × List BarIn)) : Except BErr Loop :=
  foldB (runWindow cfg) { pf := Portfolio.init cfg } ws

end PyBroker
