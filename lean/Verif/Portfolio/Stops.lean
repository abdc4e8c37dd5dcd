import Verif.Portfolio.Model

/-!
# Model of `pybroker/portfolio.py`: stops, and histories of portfolio operations

Line numbers refer to `/repo/src/pybroker/portfolio.py` unless another file is
named.  Floats that may be NaN are `Option ℚ` with `none` for NaN.
-/

namespace PyBroker

/-! ## Float comparisons with NaN -/

/-- `a <= b` on floats: false if either is NaN. -/
def leN : Option ℚ → Option ℚ → Bool
  | some a, some b => decide (a ≤ b)
  | _, _ => false

/-- `a < b` on floats: false if either is NaN. -/
def ltN : Option ℚ → Option ℚ → Bool
  | some a, some b => decide (a < b)
  | _, _ => false

/-- Python `min(a, b)`: `b` if `b < a` else `a`. -/
def pyMin (a b : Option ℚ) : Option ℚ := if ltN b a then b else a

/-- Python `max(a, b)`: `b` if `b > a` else `a`. -/
def pyMax (a b : Option ℚ) : Option ℚ := if ltN a b then b else a

/-- What `check_stops` reads from `price_scope` and `slippage_model` on one
date.  `canPrice` is `_can_price_stops` (portfolio.py:1855-1876), `fetchFloat`
is `PriceScope.fetch_float`, `fetch` is `PriceScope.fetch` (`none` = NaN). -/
structure StopEnv where
  canPrice : Sym → Bool
  fetchFloat : Sym → PriceType → Option ℚ
  fetch : Sym → FillSpec → Option ℚ
  slip : Option SlipFn := none

/-- `stop_data.value = v` for the record with this stop id. -/
def setStopValue : List StopData → Nat → Option ℚ → List StopData
  | [], _, _ => []
  | d :: ds, id, v => if d.stop.id = id then { d with value := v } :: ds
                      else d :: setStopValue ds id v

/-- The stops that fire when the price falls to the level:
portfolio.py:2056-2062. -/
def Stop.firesBelow (stop : Stop) : Bool :=
  (stop.posType = .long && (stop.stopType = .loss || stop.stopType = .trailing)) ||
    (stop.posType = .short && stop.stopType = .profit)

/-- `Portfolio._trigger_profit_or_loss_stop`, portfolio.py:2052-2094, as a
function of the current stop value; the result is the fill price if fired. -/
def triggerProfitLoss (env : StopEnv) (stop : Stop) (value : Option ℚ) : Option ℚ :=
  if stop.firesBelow then
    match stop.exitPrice with
    | some pt =>
      let x := env.fetchFloat stop.symbol pt
      if leN x value then x else none
    | none =>
      if leN (env.fetchFloat stop.symbol .low) value then
        pyMin value (env.fetchFloat stop.symbol .high)
      else none
  else
    match stop.exitPrice with
    | some pt =>
      let x := env.fetchFloat stop.symbol pt
      if leN value x then x else none
    | none =>
      if leN value (env.fetchFloat stop.symbol .high) then
        pyMax value (env.fetchFloat stop.symbol .low)
      else none

/-- `_get_stop_amount_f` of a float that may be NaN. -/
def stopAmountN (stop : Stop) (price : Option ℚ) : Except Err (Option ℚ) :=
  match stop.percent with
  | some pct => .ok (price.map (fun x => x * pct / 100))
  | none =>
    match stop.points with
    | some pts => .ok (some pts)
    | none => .error .stopAmountNotSet

/-- `a - b` / `a + b` on floats that may be NaN. -/
def subN : Option ℚ → Option ℚ → Option ℚ
  | some a, some b => some (a - b)
  | _, _ => none
/-- See `subN`. -/
def addN : Option ℚ → Option ℚ → Option ℚ
  | some a, some b => some (a + b)
  | _, _ => none

/-- The ratchet of `_trigger_trailing_stop`, portfolio.py:2120-2128. -/
def ratchet (env : StopEnv) (stop : Stop) (value : Option ℚ) : Except Err (Option ℚ) :=
  match stop.posType with
  | .long =>
    let high := env.fetchFloat stop.symbol .high
    match stopAmountN stop high with
    | .error e => .error e
    | .ok amount => .ok (pyMax (subN high amount) value)
  | .short =>
    let low := env.fetchFloat stop.symbol .low
    match stopAmountN stop low with
    | .error e => .error e
    | .ok amount => .ok (pyMin (addN low amount) value)

/-- `Portfolio._trigger_trailing_stop`, portfolio.py:2114-2129: fill price and
new stop value. -/
def triggerTrailing (env : StopEnv) (stop : Stop) (value : Option ℚ) :
    Except Err (Option ℚ × Option ℚ) :=
  match triggerProfitLoss env stop value with
  | some fill => .ok (some fill, value)
  | none =>
    match ratchet env stop value with
    | .error e => .error e
    | .ok v => .ok (none, v)

/-- `Portfolio._trigger_bar_stop`, portfolio.py:2033-2050, with
`_verify_stop_fill_price`, portfolio.py:2096-2112. -/
def triggerBar (env : StopEnv) (stop : Stop) (symBars : Nat) : Except Err (Option ℚ) :=
  match stop.bars with
  | none => .error .barsNotSet
  | some n =>
    if symBars ≥ n then
      match env.fetch stop.symbol (stop.fillPrice.getD (.price .middle)) with
      | none => .error .badStopFillPrice
      | some x => if x ≤ 0 then .error .badStopFillPrice else .ok (some x)
    else .ok none

/-- `Portfolio._slip_stop_fill_price`, portfolio.py:1906-1938. -/
def slipStopFill (env : StopEnv) (stop : Stop) (shares fill : ℚ) : ℚ :=
  match env.slip with
  | none => fill
  | some f =>
    let side := match stop.posType with
      | .long => Side.sell
      | .short => Side.buy
    let slipped := (f side stop.symbol shares fill).2
    if slipped ≤ 0 then fill else slipped

/-- The limit test of a triggered stop, portfolio.py:1984 and 1992. -/
def stopLimitBlocks (stop : Stop) (fill : ℚ) : Bool :=
  match stop.limitPrice with
  | none => false
  | some l =>
    match stop.posType with
    | .long => decide (fill < l)
    | .short => decide (fill > l)

/-- Order type and side of a stop exit, portfolio.py:1989-2017. -/
def stopOrderType : StopType → OrderType
  | .bar => .stopBar
  | .loss => .stopLoss
  | .profit => .stopProfit
  | .trailing => .stopTrailing

/-- The unslipped fill price of a stop on this bar, with the trailing level
updated when it did not fire (portfolio.py:1953-1972). -/
def stopFill (env : StopEnv) (s : Portfolio) (e : Entry) (stop : Stop) :
    Except Err (Option ℚ × Portfolio) :=
  match stop.stopType with
  | .bar =>
    match triggerBar env stop e.symBars with
    | .error err => .error err
    | .ok f => .ok (f, s)
  | .loss | .profit =>
    match lookupStop s.stopData stop.id with
    | none => .ok (none, s)
    | some d => .ok (triggerProfitLoss env stop d.value, s)
  | .trailing =>
    match lookupStop s.stopData stop.id with
    | none => .ok (none, s)
    | some d =>
      match triggerTrailing env stop d.value with
      | .error err => .error err
      | .ok (f, v) => .ok (f, { s with stopData := setStopValue s.stopData stop.id v })

/-- The side of the order a stop exit records
(portfolio.py:1987-2004, `_trigger_stop`: "sell" for long, "buy" for short). -/
def Stop.exitSide (st : Stop) : Side :=
  match st.posType with
  | .long => .sell
  | .short => .buy

/-- The intent of the order a stop exit records (portfolio.py:1987-2004, `_trigger_stop`). -/
def Stop.exitIntent (st : Stop) : Intent :=
  match st.posType with
  | .long => .sellToClose
  | .short => .buyToClose

/-- `Portfolio._trigger_stop`, portfolio.py:1940-2031.  The position object is
mutated in its dict, so it is written back. -/
def triggerStop (cfg : Config) (env : StopEnv) (date : Date) (s : Portfolio) (p : Position)
    (e : Entry) (stop : Stop) : Except Err (Bool × Portfolio) :=
  if lookupPos (s.book stop.posType) stop.symbol = none then .ok (false, s)
  else
    match stopFill env s e stop with
    | .error err => .error err
    | .ok (none, s1) => .ok (false, s1)
    | .ok (some market, s1) =>
      let fill := slipStopFill env stop e.shares market
      if stopLimitBlocks stop fill then .ok (false, s1)
      else
        let r := exitEntry cfg stop.posType s1 p e e.shares fill date (some stop.stopType)
        let s2 := r.1.setBook p.type (replacePos (r.1.book p.type) r.2)
        let o := s2.addOrder cfg date p.symbol stop.exitSide none (stopOrderType stop.stopType)
          stop.exitIntent e.shares stop.limitPrice (some market) fill
        .ok (true, o.2)

/-- One stop to evaluate: the side and symbol of the position, the entry and
the stop. -/
structure StopCheck where
  posType : PosType
  symbol : Sym
  entryId : Nat
  stop : Stop
  deriving DecidableEq, Repr

/-- `pos.entries` element with this id. -/
def findEntry (es : List Entry) (id : Nat) : Option Entry := es.find? (fun e => e.id = id)

/-- The body of both loops of `check_stops`, portfolio.py:1786-1810 and
1828-1846.  The accumulated list is `executed`, whose entry ids are
`triggered_entry_ids`. -/
def checkOne (cfg : Config) (env : StopEnv) (date : Date) (acc : Portfolio × List StopCheck)
    (c : StopCheck) : Except Err (Portfolio × List StopCheck) :=
  if c.entryId ∈ acc.2.map StopCheck.entryId then .ok acc
  else
    match lookupPos (acc.1.book c.posType) c.symbol with
    | none => .ok acc
    | some p =>
      match findEntry p.entries c.entryId with
      | none => .ok acc
      | some e =>
        match triggerStop cfg env date acc.1 p e c.stop with
        | .error err => .error err
        | .ok (true, s1) => .ok (s1, acc.2 ++ [c])
        | .ok (false, s1) => .ok (s1, acc.2)

/-- The stops visited by the first loop, portfolio.py:1767-1796: active price
stops symbol by symbol. -/
def priceChecks (env : StopEnv) (s : Portfolio) : List StopCheck :=
  s.active.flatMap (fun (sym, ids) =>
    if env.canPrice sym then
      ids.filterMap (fun id =>
        (lookupStop s.stopData id).map (fun d =>
          { posType := d.stop.posType, symbol := sym, entryId := d.entryId, stop := d.stop }))
    else [])

/-- The stops visited by the second loop, portfolio.py:1812-1830: BAR stops of
every entry of every position. -/
def barChecks (env : StopEnv) (s : Portfolio) : List StopCheck :=
  (s.longs ++ s.shorts).flatMap (fun p =>
    if env.canPrice p.symbol then
      p.entries.flatMap (fun e =>
        (e.stops.filter (fun st => st.stopType = .bar)).map (fun st =>
          { posType := p.type, symbol := p.symbol, entryId := e.id, stop := st }))
    else [])

/-- `pos.entries.remove(entry)`. -/
def eraseEntry : List Entry → Nat → List Entry
  | [], _ => []
  | e :: es, id => if e.id = id then es else e :: eraseEntry es id

/-- The body of the final loop of `check_stops`, portfolio.py:1846-1852. -/
def finishStop (s : Portfolio) (c : StopCheck) : Portfolio :=
  match lookupPos (s.book c.posType) c.symbol with
  | none => s
  | some p =>
    match findEntry p.entries c.entryId with
    | none => s
    | some e =>
      (s.removeStopData e.stops).updatePosition
        { p with entries := eraseEntry p.entries c.entryId }

/-- `Portfolio.check_stops`, portfolio.py:1729-1852.  The rows it
records are modelled in `checkStopsRec`. -/
def checkStops (cfg : Config) (s : Portfolio) (date : Date) (env : StopEnv) :
    Except Err Portfolio :=
  match foldE (checkOne cfg env date) (s, []) (priceChecks env s) with
  | .error e => .error e
  | .ok acc =>
    match foldE (checkOne cfg env date) acc (barChecks env acc.1) with
    | .error e => .error e
    | .ok acc2 => .ok (acc2.2.foldl finishStop acc2.1)

/-! ## remove_stop, remove_stops -/

/-- Apply `f` to the entry with this id in every position of a book. -/
def modEntryBook (id : Nat) (f : Entry → Entry) (ps : List Position) : List Position :=
  ps.map (fun p => { p with entries := modEntry id f p.entries })

/-- Remove a stop by id from the first entry that carries it,
portfolio.py:1674-1681. -/
def dropStopEntries (id : Nat) : List Entry → List Entry × Bool
  | [] => ([], false)
  | e :: es =>
    if e.stops.any (fun st => st.id = id) then
      ({ e with stops := e.stops.eraseP (fun st => st.id = id) } :: es, true)
    else
      let r := dropStopEntries id es
      (e :: r.1, r.2)

/-- See `dropStopEntries`. -/
def dropStopBook (id : Nat) : List Position → List Position × Bool
  | [] => ([], false)
  | p :: ps =>
    let r := dropStopEntries id p.entries
    if r.2 then ({ p with entries := r.1 } :: ps, true)
    else
      let r2 := dropStopBook id ps
      (p :: r2.1, r2.2)

/-- `Portfolio.remove_stop`, portfolio.py:1659-1682. -/
def removeStop (s : Portfolio) (id : Nat) : Bool × Portfolio :=
  match lookupStop s.stopData id with
  | some d =>
    (true,
      { s with
        stopData := eraseStop s.stopData id
        active := activeRemove s.active d.stop.symbol id
        longs := modEntryBook d.entryId
          (fun e => { e with stops := e.stops.erase d.stop }) s.longs
        shorts := modEntryBook d.entryId
          (fun e => { e with stops := e.stops.erase d.stop }) s.shorts })
  | none =>
    let l := dropStopBook id s.longs
    if l.2 then (true, { s with longs := l.1 })
    else
      let r := dropStopBook id s.shorts
      if r.2 then (true, { s with shorts := r.1 }) else (false, s)

/-- `Portfolio._remove_entry_stops`, portfolio.py:1713-1727, for the entry of a
position found in the book. -/
def removeEntryStops (s : Portfolio) (e : Entry) (stopType : Option StopType) : Portfolio :=
  match stopType with
  | none =>
    let s1 := s.removeStopData e.stops
    { s1 with
      longs := modEntryBook e.id (fun e' => { e' with stops := [] }) s1.longs
      shorts := modEntryBook e.id (fun e' => { e' with stops := [] }) s1.shorts }
  | some t =>
    match e.stops.find? (fun st => st.stopType = t) with
    | none => s
    | some st => (removeStop s st.id).2

/-- The entry object with this id anywhere in the portfolio. -/
def findEntryAll (s : Portfolio) (id : Nat) : Option Entry :=
  findEntry ((s.longs ++ s.shorts).flatMap Position.entries) id

/-- `Portfolio.remove_stops(entry, stop_type)`, portfolio.py:1706-1727. -/
def removeStopsEntry (s : Portfolio) (id : Nat) (stopType : Option StopType) : Portfolio :=
  match findEntryAll s id with
  | none => s
  | some e => removeEntryStops s e stopType

/-- `Portfolio._remove_position_stops`, portfolio.py:1708-1712: the entry
objects are live, so each is looked up when its turn comes. -/
def removePositionStops (s : Portfolio) (p : Position) (stopType : Option StopType) : Portfolio :=
  p.entries.foldl (fun s e => removeStopsEntry s e.id stopType) s

/-- `Portfolio.remove_stops(symbol, stop_type)`, portfolio.py:1684-1707: the
entries of the long, then of the short position. -/
def removeStopsSym (s : Portfolio) (sym : Sym) (stopType : Option StopType) : Portfolio :=
  let s1 := match lookupPos s.longs sym with
    | none => s
    | some p => removePositionStops s p stopType
  match lookupPos s1.shorts sym with
  | none => s1
  | some p => removePositionStops s1 p stopType

/-! ## Histories -/

/-- The public methods of `Portfolio` that change it. -/
inductive Op
  | buy (r : OrderReq)
  | sell (r : OrderReq)
  | exitPosition (date : Date) (sym : Sym) (buyFill sellFill : ℚ) (slip : Option SlipFn)
  | captureBar (date : Date) (quote : Sym → BarQuote)
  | incrBars (hasBar : Sym → Bool)
  | checkStops (date : Date) (env : StopEnv)
  | removeStop (id : Nat)
  | removeStopsSym (sym : Sym) (t : Option StopType)
  | removeStopsEntry (id : Nat) (t : Option StopType)

/-- The new portfolio, or the exception raised. -/
def step (cfg : Config) (s : Portfolio) : Op → Except Err Portfolio
  | .buy r => (buy cfg s r).map Prod.snd
  | .sell r => (sell cfg s r).map Prod.snd
  | .exitPosition d sym b q slip => exitPosition cfg s d sym b q slip
  | .captureBar d quote => .ok (captureBar cfg s d quote)
  | .incrBars h => .ok (incrBars s h)
  | .checkStops d env => checkStops cfg s d env
  | .removeStop id => .ok (removeStop s id).2
  | .removeStopsSym sym t => .ok (removeStopsSym s sym t)
  | .removeStopsEntry id t => .ok (removeStopsEntry s id t)

/-- A history of successful calls on a portfolio. -/
def runFrom (cfg : Config) : Portfolio → List Op → Except Err Portfolio :=
  foldE (step cfg)

/-- A history from a new portfolio. -/
def run (cfg : Config) (ops : List Op) : Except Err Portfolio :=
  runFrom cfg (Portfolio.init cfg) ops

end PyBroker
