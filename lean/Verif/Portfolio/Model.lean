import Mathlib.Data.Rat.Floor
import Mathlib.Data.List.Sort
import Mathlib.Algebra.Order.Field.Rat

/-!
# Model of `pybroker/portfolio.py`: orders, positions, fees, interest, marks

Amounts (`Decimal`/`float` in the code) are exact rationals.  Python dicts are
lists in insertion order with first-match lookup.  `Entry`/`_StopData` object
references are modelled by ids.  All line numbers refer to
`/repo/src/pybroker/portfolio.py` unless another file is named.
-/

namespace PyBroker

/-- Ticker symbol (`str`). -/
abbrev Sym := String

/-- `np.datetime64` as an integer timestamp. -/
abbrev Date := Int

/-- `Literal["long", "short"]`, portfolio.py:99, 184, 224. -/
inductive PosType | long | short
  deriving DecidableEq, Repr

/-- `Literal["buy", "sell"]`, portfolio.py:357. -/
inductive Side | buy | sell
  deriving DecidableEq, Repr

/-- `StopType`, common.py (BAR, LOSS, PROFIT, TRAILING). -/
inductive StopType | bar | loss | profit | trailing
  deriving DecidableEq, Repr

/-- `PriceType`, common.py. -/
inductive PriceType | open | low | high | close | middle | average
  deriving DecidableEq, Repr

/-- `OrderType`, common.py; `Order.order_type`, portfolio.py:361-368. -/
inductive OrderType | market | limit | stopBar | stopLoss | stopProfit | stopTrailing
  deriving DecidableEq, Repr

/-- `PositionIntent`, common.py; `Order.intent`, portfolio.py:369-374. -/
inductive Intent | buyToOpen | buyToClose | sellToOpen | sellToClose
  deriving DecidableEq, Repr

/-- `PositionMode`, common.py. -/
inductive PositionMode | default | longOnly | shortOnly
  deriving DecidableEq, Repr

/-- `FeeInfo`, common.py; the argument of a user supplied fee function. -/
structure FeeInfo where
  symbol : Sym
  shares : ℚ
  fillPrice : ℚ
  side : Side
  deriving DecidableEq, Repr

/-- `FeeMode` or a user callable, portfolio.py:534-536. -/
inductive FeeMode
  | orderPercent
  | perOrder
  | perShare
  | custom (f : FeeInfo → ℚ)

/-- What a stop or order may name as fill price: a `PriceType`, a number or a
callable (`Stop.fill_price`, portfolio.py:103-112).  A callable is identified
by a number; its meaning is given by the price environment. -/
inductive FillSpec
  | price (t : PriceType)
  | amount (q : ℚ)
  | callable (k : Nat)
  deriving DecidableEq, Repr

/-- `Stop`, portfolio.py:78-114. -/
structure Stop where
  id : Nat
  symbol : Sym
  stopType : StopType
  posType : PosType
  percent : Option ℚ
  points : Option ℚ
  bars : Option Nat
  fillPrice : Option FillSpec
  limitPrice : Option ℚ
  exitPrice : Option PriceType
  deriving DecidableEq, Repr

/-- `Entry`, portfolio.py:153-189. -/
structure Entry where
  id : Nat
  date : Date
  symbol : Sym
  shares : ℚ
  price : ℚ
  type : PosType
  bars : Nat := 0
  symBars : Nat := 0
  stops : List Stop := []
  mae : ℚ := 0
  mfe : ℚ := 0
  deriving DecidableEq, Repr

/-- `_StopData`, portfolio.py:192-196.  `value` is a float; `none` is NaN.
The reference to the entry is its id. -/
structure StopData where
  value : Option ℚ
  stop : Stop
  entryId : Nat
  deriving DecidableEq, Repr

/-- `Position`, portfolio.py:199-234. `close` is only ever assigned finite
closes (portfolio.py:1519-1525), so the `is_finite` test of
`_marked_value` is always true and `close` is a plain rational. -/
structure Position where
  symbol : Sym
  shares : ℚ
  type : PosType
  close : ℚ := 0
  equity : ℚ := 0
  marketValue : ℚ := 0
  margin : ℚ := 0
  pnl : ℚ := 0
  entries : List Entry := []
  bars : Nat := 0
  entryNotional : ℚ := 0
  unmarkedShares : ℚ := 0
  unmarkedNotional : ℚ := 0
  deriving DecidableEq, Repr

/-- `Trade`, portfolio.py:290-328. -/
structure Trade where
  id : Nat
  type : PosType
  symbol : Sym
  entryDate : Date
  exitDate : Date
  entry : ℚ
  exit : ℚ
  shares : ℚ
  pnl : ℚ
  returnPct : ℚ
  aggPnl : ℚ
  bars : Nat
  pnlPerBar : ℚ
  stop : Option StopType
  mae : ℚ
  mfe : ℚ
  deriving DecidableEq, Repr

/-- `Order`, portfolio.py:331-379. -/
structure Order where
  id : Nat
  side : Side
  symbol : Sym
  date : Date
  created : Option Date
  orderType : OrderType
  intent : Intent
  shares : ℚ
  limitPrice : Option ℚ
  marketPrice : ℚ
  fillPrice : ℚ
  fees : ℚ
  deriving DecidableEq, Repr

/-- `PortfolioBar`, portfolio.py:382-415. -/
structure PortfolioBar where
  date : Date
  cash : ℚ
  equity : ℚ
  notional : ℚ
  margin : ℚ
  marginLoan : ℚ
  netCashBalance : ℚ
  marketValue : ℚ
  pnl : ℚ
  unrealizedPnl : ℚ
  fees : ℚ
  deriving DecidableEq, Repr

/-- The constructor arguments of `Portfolio`, portfolio.py:531-548, kept fixed
during a run.  The `record_*` flags are not modelled: per-bar metrics are
always kept (as `_metrics_bars` are), stop records never; for position bars see
PositionBars.lean. -/
structure Config where
  cash : ℚ
  feeMode : Option FeeMode := none
  feeAmount : Option ℚ := none
  fractional : Bool := false
  positionMode : PositionMode := .default
  maxLong : Option Nat := none
  maxShort : Option Nat := none
  leverage : ℚ := 1
  interestRate : ℚ := 0
  barsPerYear : Option Nat := none

/-- The mutable attributes of `Portfolio`, portfolio.py:549-594. -/
structure Portfolio where
  cash : ℚ
  equity : ℚ
  marketValue : ℚ
  fees : ℚ := 0
  margin : ℚ := 0
  accrued : ℚ := 0
  pnl : ℚ := 0
  longs : List Position := []
  shorts : List Position := []
  symbols : List Sym := []
  orders : List Order := []
  trades : List Trade := []
  wins : Nat := 0
  cachedLongMv : Option ℚ := none
  cachedShortMv : Option ℚ := none
  stopData : List StopData := []
  active : List (Sym × List Nat) := []
  orderId : Nat := 0
  entryId : Nat := 0
  tradeId : Nat := 0
  longNotional : ℚ := 0
  shortNotional : ℚ := 0
  metrics : List PortfolioBar := []
  deriving DecidableEq, Repr

/-- `Portfolio.__init__`, portfolio.py:549-594. -/
def Portfolio.init (cfg : Config) : Portfolio :=
  { cash := cfg.cash, equity := cfg.cash, marketValue := cfg.cash }

/-- The `ValueError`s the modelled methods raise. -/
inductive Err
  | negativeShares | badFillPrice | badLimitPrice
  | duplicateStopId | stopAmountNotSet | barsNotSet | badStopFillPrice
  deriving DecidableEq, Repr

/-! ## Dict operations on a book of positions -/

/-- `self.long_positions.get(symbol)`: first match. -/
def lookupPos : List Position → Sym → Option Position
  | [], _ => none
  | p :: ps, sym => if p.symbol = sym then some p else lookupPos ps sym

/-- In-place mutation of the position object stored under its symbol. -/
def replacePos : List Position → Position → List Position
  | [], _ => []
  | p :: ps, q => if p.symbol = q.symbol then q :: ps else p :: replacePos ps q

/-- `del self.long_positions[symbol]`. -/
def erasePos : List Position → Sym → List Position
  | [], _ => []
  | p :: ps, sym => if p.symbol = sym then ps else p :: erasePos ps sym

/-- The dict of positions of a side. -/
def Portfolio.book (s : Portfolio) : PosType → List Position
  | .long => s.longs
  | .short => s.shorts

/-- Replace the dict of positions of a side. -/
def Portfolio.setBook (s : Portfolio) : PosType → List Position → Portfolio
  | .long, ps => { s with longs := ps }
  | .short, ps => { s with shorts := ps }

/-! ## Position: marks and unmarked shares -/

/-- `Position._marked_value`, portfolio.py:236-252. -/
def Position.markedValue (p : Position) : ℚ :=
  if p.close ≤ 0 then p.entryNotional
  else
    let marked := p.shares - p.unmarkedShares
    if marked ≤ 0 then p.unmarkedNotional
    else marked * p.close + p.unmarkedNotional

/-- `Position._add_unmarked`, portfolio.py:254-256. -/
def Position.addUnmarked (p : Position) (shares fill : ℚ) : Position :=
  { p with
    unmarkedShares := p.unmarkedShares + shares
    unmarkedNotional := p.unmarkedNotional + shares * fill }

/-- The loop of `_clamp_unmarked`, portfolio.py:275-283, over the entries from
newest to oldest. -/
def newestNotional : List Entry → ℚ → ℚ
  | [], _ => 0
  | e :: es, rem =>
    if rem ≤ 0 then 0
    else
      let taken := min rem e.shares
      taken * e.price + newestNotional es (rem - taken)

/-- `Position._clamp_unmarked`, portfolio.py:258-283. -/
def Position.clampUnmarked (p : Position) : Position :=
  if p.unmarkedShares ≤ 0 then p
  else if p.shares ≤ 0 then { p with unmarkedShares := 0, unmarkedNotional := 0 }
  else if p.unmarkedShares > p.shares then
    { p with
      unmarkedShares := p.shares
      unmarkedNotional := newestNotional p.entries.reverse p.shares }
  else p

/-- `Position._clear_unmarked`, portfolio.py:285-287. -/
def Position.clearUnmarked (p : Position) : Position :=
  { p with unmarkedShares := 0, unmarkedNotional := 0 }

/-! ## Valuation -/

/-- `Portfolio.margin_loan`, portfolio.py:596-607. -/
def Portfolio.marginLoan (cfg : Config) (s : Portfolio) : ℚ :=
  if cfg.leverage ≤ 1 then s.accrued
  else
    let notional := s.longNotional + s.shortNotional
    notional - notional / cfg.leverage + s.accrued

/-- `Portfolio.win_rate`, portfolio.py:609-613. -/
def Portfolio.winRate (s : Portfolio) : ℚ :=
  if s.trades = [] then 0 else (s.wins : ℚ) / s.trades.length

/-- `Portfolio.loss_rate`, portfolio.py:615-619. -/
def Portfolio.lossRate (s : Portfolio) : ℚ :=
  if s.trades = [] then 0 else 1 - s.winRate

/-- `Portfolio._calculate_fees`, portfolio.py:621-650. -/
def calculateFees (cfg : Config) (sym : Sym) (fill shares : ℚ) (side : Side) : ℚ :=
  match cfg.feeMode, cfg.feeAmount with
  | none, _ => 0
  | _, none => 0
  | some (.custom f), some _ =>
    f { symbol := sym, shares := shares, fillPrice := fill, side := side }
  | some .orderPercent, some amount => amount / 100 * fill * shares
  | some .perOrder, some amount => amount
  | some .perShare, some amount => amount * shares

/-- `Portfolio._verify_input`, portfolio.py:652-663. -/
def verifyInput (shares fill : ℚ) (limit : Option ℚ) : Except Err Unit :=
  if shares < 0 then .error .negativeShares
  else if fill ≤ 0 then .error .badFillPrice
  else
    match limit with
    | none => .ok ()
    | some l => if l ≤ 0 then .error .badLimitPrice else .ok ()

/-- `Portfolio._invalidate_mv_cache`, portfolio.py:764-766. -/
def Portfolio.invalidate (s : Portfolio) : Portfolio :=
  { s with cachedLongMv := none, cachedShortMv := none }

/-- Sum of the marked values of a book. -/
def sumMarked (ps : List Position) : ℚ := (ps.map Position.markedValue).sum

/-- `Portfolio._long_market_value`, portfolio.py:823-830, with its memo. -/
def Portfolio.longMarketValue (s : Portfolio) : ℚ × Portfolio :=
  match s.cachedLongMv with
  | some v => (v, s)
  | none =>
    let total := sumMarked s.longs
    (total, { s with cachedLongMv := some total })

/-- `Portfolio._short_market_value`, portfolio.py:832-839, with its memo. -/
def Portfolio.shortMarketValue (s : Portfolio) : ℚ × Portfolio :=
  match s.cachedShortMv with
  | some v => (v, s)
  | none =>
    let total := sumMarked s.shorts
    (total, { s with cachedShortMv := some total })

/-- `Portfolio._post_collateral`, portfolio.py:841-851. -/
def Portfolio.postCollateral (cfg : Config) (s : Portfolio) (notional : ℚ) : Portfolio :=
  if cfg.leverage > 1 then
    { s with cash := s.cash - notional / cfg.leverage }.invalidate
  else
    { s with cash := s.cash - notional }.invalidate

/-- `Portfolio._release_collateral`, portfolio.py:853-863. -/
def Portfolio.releaseCollateral (cfg : Config) (s : Portfolio) (entryNotional pnl : ℚ) :
    Portfolio :=
  if cfg.leverage > 1 then
    { s with cash := s.cash + (entryNotional / cfg.leverage + pnl) }
  else
    { s with cash := s.cash + (entryNotional + pnl) }

/-- `Portfolio._net_cash_balance`, portfolio.py:865-866. -/
def Portfolio.netCash (cfg : Config) (s : Portfolio) : ℚ :=
  s.cash - s.marginLoan cfg

/-- `Portfolio._live_market_value`, portfolio.py:868-890. -/
def Portfolio.liveMarketValue (cfg : Config) (s : Portfolio) : ℚ × Portfolio :=
  let (lmv, s1) := s.longMarketValue
  let (smv, s2) := s1.shortMarketValue
  (s.cash - s.marginLoan cfg + lmv + 2 * s.shortNotional - smv, s2)

/-- `Portfolio._available_buying_power`, portfolio.py:892-903. -/
def Portfolio.availableBuyingPower (cfg : Config) (s : Portfolio) : ℚ × Portfolio :=
  if cfg.leverage ≤ 1 then (max s.cash 0, s)
  else
    let (lmv, s1) := s.longMarketValue
    let (smv, s2) := s1.shortMarketValue
    let (live, s3) := s2.liveMarketValue cfg
    (max (live * cfg.leverage - (lmv + smv)) 0, s3)

/-- `Portfolio._sweep_accrued_interest`, portfolio.py:905-915. -/
def Portfolio.sweepAccrued (s : Portfolio) : Portfolio :=
  if s.accrued ≤ 0 ∨ s.cash ≤ 0 then s
  else
    let payment := min s.cash s.accrued
    { s with cash := s.cash - payment, accrued := s.accrued - payment }

/-- `Portfolio._apply_interest`, portfolio.py:917-933. -/
def Portfolio.applyInterest (cfg : Config) (s : Portfolio) : Portfolio :=
  match cfg.barsPerYear with
  | none => s
  | some bpy =>
    if cfg.interestRate ≤ 0 then s
    else
      let s := s.sweepAccrued
      let netCash := s.netCash cfg
      if netCash = 0 then s
      else
        let rate := cfg.interestRate / 100 / bpy
        let interest := |netCash| * rate
        if netCash < 0 then { s with accrued := s.accrued + interest }
        else { s with cash := s.cash + interest }

/-- Truncation towards zero: `Decimal //` and `quantize(..., ROUND_DOWN)`. -/
def truncQ (x : ℚ) : ℤ := if x < 0 then ⌈x⌉ else ⌊x⌋

/-- `Decimal(x).quantize(Decimal("1E-9"), rounding=ROUND_DOWN)`,
portfolio.py:66, 971-973. -/
def truncNano (x : ℚ) : ℚ := (truncQ (x * 1000000000) : ℚ) / 1000000000

/-- `max_shares` of `_clamp_shares`, portfolio.py:970-976. -/
def maxShares (cfg : Config) (buyingPower fill : ℚ) : ℚ :=
  if cfg.fractional then truncNano (buyingPower / fill)
  else (truncQ (buyingPower / fill) : ℚ)

/-- `Portfolio._clamp_shares`, portfolio.py:935-977. -/
def Portfolio.clampShares (cfg : Config) (s : Portfolio) (sym : Sym) (fill shares : ℚ)
    (side : Side) : ℚ × Portfolio :=
  let (bp, s1) := s.availableBuyingPower cfg
  if cfg.leverage ≤ 1 ∧ s.cash < 0 then (0, s1)
  else if cfg.leverage > 1 then
    let affordable := min shares (bp / fill)
    let fees := calculateFees cfg sym fill affordable side
    if fees > 0 then
      let bp' := bp - fees * cfg.leverage
      if bp' ≤ 0 then (0, s1)
      else (min shares (maxShares cfg bp' fill), s1)
    else (min shares (maxShares cfg bp fill), s1)
  else (min shares (maxShares cfg bp fill), s1)

/-! ## Logs -/

/-- `Portfolio._add_order`, portfolio.py:686-721. -/
def Portfolio.addOrder (cfg : Config) (s : Portfolio) (date : Date) (sym : Sym) (side : Side)
    (created : Option Date) (orderType : OrderType) (intent : Intent) (shares : ℚ)
    (limit marketPrice : Option ℚ) (fill : ℚ) : Order × Portfolio :=
  let fees := calculateFees cfg sym fill shares side
  let order : Order :=
    { id := s.orderId + 1, side := side, symbol := sym, date := date, created := created,
      orderType := orderType, intent := intent, shares := shares, limitPrice := limit,
      marketPrice := marketPrice.getD fill, fillPrice := fill, fees := fees }
  (order,
    { s with
      orderId := s.orderId + 1
      orders := s.orders ++ [order]
      fees := s.fees + fees
      cash := if cfg.feeMode.isSome then s.cash - fees else s.cash })

/-- `Portfolio._add_trade`, portfolio.py:723-762. The id is assigned here. -/
def Portfolio.addTrade (s : Portfolio) (t : Trade) : Portfolio :=
  { s with
    tradeId := s.tradeId + 1
    trades := s.trades ++ [{ t with id := s.tradeId + 1 }]
    wins := if t.pnl > 0 then s.wins + 1 else s.wins }

/-! ## Stops registry -/

/-- `Portfolio._get_stop_amount_f`, portfolio.py:768-773. -/
def stopAmount (stop : Stop) (price : ℚ) : Except Err ℚ :=
  match stop.percent with
  | some pct => .ok (price * pct / 100)
  | none =>
    match stop.points with
    | some pts => .ok pts
    | none => .error .stopAmountNotSet

/-- The initial stop level, portfolio.py:791-804. -/
def stopValue (stop : Stop) (entryPrice amount : ℚ) : ℚ :=
  if (stop.posType = .long ∧ stop.stopType = .profit) ∨
      (stop.posType = .short ∧ (stop.stopType = .loss ∨ stop.stopType = .trailing)) then
    entryPrice + amount
  else entryPrice - amount

/-- `self._active_stops.setdefault(symbol, []).append(...)`, portfolio.py:807. -/
def activeAdd : List (Sym × List Nat) → Sym → Nat → List (Sym × List Nat)
  | [], sym, id => [(sym, [id])]
  | (k, ids) :: rest, sym, id =>
    if k = sym then (k, ids ++ [id]) :: rest else (k, ids) :: activeAdd rest sym id

/-- `sym_stops.remove(stop_data)`, then `del` of an emptied list,
portfolio.py:814-821 and 1663-1670. -/
def activeRemove : List (Sym × List Nat) → Sym → Nat → List (Sym × List Nat)
  | [], _, _ => []
  | (k, ids) :: rest, sym, id =>
    if k = sym then
      let ids' := ids.erase id
      if ids' = [] then rest else (k, ids') :: rest
    else (k, ids) :: activeRemove rest sym id

/-- `self._stop_data.get(id)`: first match. -/
def lookupStop : List StopData → Nat → Option StopData
  | [], _ => none
  | d :: ds, id => if d.stop.id = id then some d else lookupStop ds id

/-- `self._stop_data.pop(id)`. -/
def eraseStop : List StopData → Nat → List StopData
  | [], _ => []
  | d :: ds, id => if d.stop.id = id then ds else d :: eraseStop ds id

/-- One iteration of the loop of `_add_stops`, portfolio.py:785-807.  The
entry's own stop list is threaded separately and stored in the entry by the
caller. -/
def addStopStep (entryId : Nat) (entryPrice : ℚ) (acc : List Stop × Portfolio) (stop : Stop) :
    Except Err (List Stop × Portfolio) :=
  match lookupStop acc.2.stopData stop.id with
  | some _ => .error .duplicateStopId
  | none =>
    if stop.stopType = .bar then .ok (acc.1 ++ [stop], acc.2)
    else
      match stopAmount stop entryPrice with
      | .error e => .error e
      | .ok amount =>
        .ok (acc.1 ++ [stop],
          { acc.2 with
            stopData := acc.2.stopData ++
              [{ value := some (stopValue stop entryPrice amount), stop := stop,
                 entryId := entryId }]
            active := activeAdd acc.2.active stop.symbol stop.id })

/-- A loop whose body may raise. -/
def foldE {α β : Type} (f : β → α → Except Err β) : β → List α → Except Err β
  | b, [] => .ok b
  | b, a :: as =>
    match f b a with
    | .error e => .error e
    | .ok b' => foldE f b' as

/-- `Portfolio._add_stops`, portfolio.py:778-807: stops sorted by id. -/
def addStops (s : Portfolio) (entryId : Nat) (entryPrice : ℚ) (stops : List Stop) :
    Except Err (List Stop × Portfolio) :=
  foldE (addStopStep entryId entryPrice) ([], s)
    (stops.insertionSort (fun a b => a.id ≤ b.id))

/-- `Portfolio._remove_stop_data`, portfolio.py:809-821. -/
def Portfolio.removeStopData (s : Portfolio) : List Stop → Portfolio
  | [] => s
  | stop :: rest =>
    match lookupStop s.stopData stop.id with
    | none => s.removeStopData rest
    | some _ =>
      { s with
        stopData := eraseStop s.stopData stop.id
        active := activeRemove s.active stop.symbol stop.id }.removeStopData rest

/-! ## Exits -/

/-- Mutation of the entry object with the given id inside `pos.entries`. -/
def modEntry (id : Nat) (f : Entry → Entry) : List Entry → List Entry
  | [] => []
  | e :: es => if e.id = id then f e :: es else e :: modEntry id f es

/-- `pos.shares -= shares; entry.shares -= shares; pos.entry_notional -= ...;
pos._clamp_unmarked()`, portfolio.py:1091-1095 and 1299-1303. -/
def Position.takeShares (p : Position) (e : Entry) (shares : ℚ) : Position :=
  Position.clampUnmarked
    { p with
      shares := p.shares - shares
      entries := modEntry e.id (fun e' => { e' with shares := e'.shares - shares }) p.entries
      entryNotional := p.entryNotional - shares * e.price }

/-- MAE/MFE of a trade including its exit price, portfolio.py:1099-1100 and
1307-1308. -/
def exitMae (unitPnl mae : ℚ) : ℚ := if unitPnl < 0 ∧ unitPnl < mae then unitPnl else mae
/-- See `exitMae`. -/
def exitMfe (unitPnl mfe : ℚ) : ℚ := if unitPnl > 0 ∧ unitPnl > mfe then unitPnl else mfe

/-- `Portfolio._exit_long`, portfolio.py:1285-1326. -/
def exitLong (cfg : Config) (s : Portfolio) (p : Position) (e : Entry) (shares fill : ℚ)
    (date : Date) (stopType : Option StopType) : Portfolio × Position :=
  let orderAmount := shares * fill
  let entryAmount := shares * e.price
  let entryPnl := orderAmount - entryAmount
  let s1 := { s with pnl := s.pnl + entryPnl }.releaseCollateral cfg entryAmount entryPnl
  let s2 := { s1 with longNotional := s1.longNotional - entryAmount }
  let p1 := p.takeShares e shares
  let pnlPerBar := if e.bars = 0 then entryPnl else entryPnl / e.bars
  let returnPct := (fill / e.price - 1) * 100
  let unitPnl := fill - e.price
  let s3 := s2.addTrade
    { id := 0, type := e.type, symbol := e.symbol, entryDate := e.date, exitDate := date,
      entry := e.price, exit := fill, shares := shares, pnl := entryPnl,
      returnPct := returnPct, aggPnl := s2.pnl, bars := e.bars, pnlPerBar := pnlPerBar,
      stop := stopType, mae := exitMae unitPnl e.mae, mfe := exitMfe unitPnl e.mfe }
  (s3.invalidate, p1)

/-- `Portfolio._exit_short`, portfolio.py:1077-1118. -/
def exitShort (cfg : Config) (s : Portfolio) (p : Position) (e : Entry) (shares fill : ℚ)
    (date : Date) (stopType : Option StopType) : Portfolio × Position :=
  let orderAmount := shares * fill
  let entryAmount := shares * e.price
  let entryPnl := entryAmount - orderAmount
  let s1 := { s with pnl := s.pnl + entryPnl }.releaseCollateral cfg entryAmount entryPnl
  let s2 := { s1 with shortNotional := s1.shortNotional - entryAmount }
  let p1 := p.takeShares e shares
  let pnlPerBar := if e.bars = 0 then entryPnl else entryPnl / e.bars
  let returnPct := (e.price / fill - 1) * 100
  let unitPnl := e.price - fill
  let s3 := s2.addTrade
    { id := 0, type := e.type, symbol := e.symbol, entryDate := e.date, exitDate := date,
      entry := e.price, exit := fill, shares := shares, pnl := entryPnl,
      returnPct := returnPct, aggPnl := s2.pnl, bars := e.bars, pnlPerBar := pnlPerBar,
      stop := stopType, mae := exitMae unitPnl e.mae, mfe := exitMfe unitPnl e.mfe }
  (s3.invalidate, p1)

/-- Dispatch used by the loops: `_exit_long` or `_exit_short`. -/
def exitEntry (cfg : Config) (pt : PosType) (s : Portfolio) (p : Position) (e : Entry)
    (shares fill : ℚ) (date : Date) (stopType : Option StopType) : Portfolio × Position :=
  match pt with
  | .long => exitLong cfg s p e shares fill date stopType
  | .short => exitShort cfg s p e shares fill date stopType

/-- `Portfolio._update_position`, portfolio.py:1328-1342.  The position object
was mutated while it sat in the dict, so it is stored back first. -/
def Portfolio.updatePosition (s : Portfolio) (p : Position) : Portfolio :=
  if p.entries ≠ [] then s.setBook p.type (replacePos (s.book p.type) p)
  else
    let s1 := s.setBook p.type (erasePos (s.book p.type) p.symbol)
    if p.symbol ∈ s1.symbols ∧ lookupPos s1.longs p.symbol = none ∧
        lookupPos s1.shorts p.symbol = none then
      { s1 with symbols := s1.symbols.erase p.symbol }
    else s1

/-- Result of the first-in first-out loop: `rem_shares`, portfolio, position. -/
structure ExitResult where
  rem : ℚ
  pf : Portfolio
  pos : Position

/-- The loops of `_cover` (portfolio.py:1059-1073) and `_sell_existing`
(portfolio.py:1267-1281).  The list argument is the remaining `pos.entries`,
whose head is `pos.entries[0]`. -/
def exitLoop (cfg : Config) (pt : PosType) (date : Date) (fill : ℚ) :
    List Entry → ℚ → Portfolio → Position → ExitResult
  | [], rem, s, p => ⟨rem, s, p⟩
  | e :: es, rem, s, p =>
    if rem > 0 then
      if rem ≥ e.shares then
        let (s1, p1) := exitEntry cfg pt s p e e.shares fill date none
        exitLoop cfg pt date fill es (rem - e.shares) (s1.removeStopData e.stops)
          { p1 with entries := p1.entries.tail }
      else
        let (s1, p1) := exitEntry cfg pt s p e rem fill date none
        ⟨0, s1, p1⟩
    else ⟨rem, s, p⟩

/-- `_OrderResult`, portfolio.py:444-446, with the new portfolio. -/
structure OrderResult where
  filled : ℚ
  rem : ℚ
  pf : Portfolio

/-- `Portfolio._cover`, portfolio.py:1045-1075. -/
def cover (cfg : Config) (s : Portfolio) (date : Date) (sym : Sym) (shares fill : ℚ) :
    OrderResult :=
  match lookupPos s.shorts sym with
  | none => ⟨0, shares, s⟩
  | some p =>
    if shares ≤ 0 then ⟨0, shares, s⟩
    else
      let r := exitLoop cfg .short date fill p.entries shares s p
      ⟨shares - r.rem, r.rem, r.pf.updatePosition r.pos⟩

/-- `Portfolio._sell_existing`, portfolio.py:1253-1283. -/
def sellExisting (cfg : Config) (s : Portfolio) (date : Date) (sym : Sym) (shares fill : ℚ) :
    OrderResult :=
  match lookupPos s.longs sym with
  | none => ⟨0, shares, s⟩
  | some p =>
    let r := exitLoop cfg .long date fill p.entries shares s p
    ⟨shares - r.rem, r.rem, r.pf.updatePosition r.pos⟩

/-! ## Opening positions -/

/-- `self.symbols.add(symbol)`. -/
def addSym (syms : List Sym) (sym : Sym) : List Sym := if sym ∈ syms then syms else syms ++ [sym]

/-- The common tail of `_long` (portfolio.py:1162-1185) and `_short`
(portfolio.py:1384-1407): post collateral, create or grow the position, append
the entry, attach the stops and update the running notionals. -/
def openShares (cfg : Config) (pt : PosType) (s : Portfolio) (date : Date) (sym : Sym)
    (shares fill : ℚ) (stops : List Stop) : Except Err (ℚ × Portfolio) :=
  let s1 := s.postCollateral cfg (shares * fill)
  let eid := s1.entryId + 1
  let s2 := { s1 with entryId := eid }
  match addStops s2 eid fill stops with
  | .error e => .error e
  | .ok (entryStops, s3) =>
    let entry : Entry :=
      { id := eid, date := date, symbol := sym, shares := shares, price := fill, type := pt,
        stops := entryStops }
    let s4 : Portfolio :=
      match lookupPos (s3.book pt) sym with
      | none =>
        let p := Position.addUnmarked { symbol := sym, shares := shares, type := pt } shares fill
        let p1 := { p with entries := p.entries ++ [entry],
                           entryNotional := p.entryNotional + shares * fill }
        { s3.setBook pt (s3.book pt ++ [p1]) with symbols := addSym s3.symbols sym }
      | some p0 =>
        let p := Position.addUnmarked { p0 with shares := p0.shares + shares } shares fill
        let p1 := { p with entries := p.entries ++ [entry],
                           entryNotional := p.entryNotional + shares * fill }
        s3.setBook pt (replacePos (s3.book pt) p1)
    let s5 : Portfolio :=
      match pt with
      | .long => { s4 with longNotional := s4.longNotional + shares * fill }
      | .short => { s4 with shortNotional := s4.shortNotional + shares * fill }
    .ok (shares, s5.invalidate)

/-- `max_positions is not None and symbol not in positions and
len(positions) >= max_positions`, portfolio.py:1145-1152 and 1354-1359. -/
def capReached (cap : Option Nat) (ps : List Position) (sym : Sym) : Bool :=
  match cap with
  | none => false
  | some m => (lookupPos ps sym).isNone && decide (ps.length ≥ m)

/-- `Portfolio._long`, portfolio.py:1120-1185. -/
def openLong (cfg : Config) (s : Portfolio) (date : Date) (sym : Sym) (shares fill : ℚ)
    (stops : List Stop) : Except Err (ℚ × Portfolio) :=
  if cfg.positionMode = .shortOnly then .ok (0, s)
  else
    let (clamped, s1) := s.clampShares cfg sym fill shares .buy
    let shares := if clamped < shares then clamped else shares
    if shares ≤ 0 then .ok (0, s1)
    else if capReached cfg.maxLong s1.longs sym then .ok (0, s1)
    else openShares cfg .long s1 date sym shares fill stops

/-- `Portfolio._short`, portfolio.py:1344-1407. -/
def openShort (cfg : Config) (s : Portfolio) (date : Date) (sym : Sym) (shares fill : ℚ)
    (stops : List Stop) : Except Err (ℚ × Portfolio) :=
  if shares ≤ 0 then .ok (0, s)
  else if capReached cfg.maxShort s.shorts sym then .ok (0, s)
  else if cfg.positionMode = .longOnly then .ok (0, s)
  else
    let (clamped, s1) := s.clampShares cfg sym fill shares .sell
    let shares := if clamped < shares then clamped else shares
    if shares ≤ 0 then .ok (0, s1)
    else openShares cfg .short s1 date sym shares fill stops

/-! ## buy, sell, exit_position -/

/-- The arguments of `buy`/`sell`, portfolio.py:979-990 and 1187-1198. -/
structure OrderReq where
  date : Date
  symbol : Sym
  shares : ℚ
  fill : ℚ
  limit : Option ℚ := none
  stops : List Stop := []
  created : Option Date := none
  orderType : OrderType := .market
  marketPrice : Option ℚ := none
  deriving DecidableEq, Repr

/-- `limit_price is not None and limit_price < fill_price`, portfolio.py:1017. -/
def buyLimitBlocks (limit : Option ℚ) (fill : ℚ) : Bool :=
  match limit with
  | none => false
  | some l => decide (l < fill)

/-- `limit_price is not None and limit_price > fill_price`, portfolio.py:1225. -/
def sellLimitBlocks (limit : Option ℚ) (fill : ℚ) : Bool :=
  match limit with
  | none => false
  | some l => decide (l > fill)

/-- `Portfolio.buy`, portfolio.py:979-1043. -/
def buy (cfg : Config) (s : Portfolio) (r : OrderReq) : Except Err (Option Order × Portfolio) :=
  match verifyInput r.shares r.fill r.limit with
  | .error e => .error e
  | .ok () =>
    if buyLimitBlocks r.limit r.fill then .ok (none, s)
    else if r.shares = 0 then .ok (none, s)
    else
      let c := cover cfg s r.date r.symbol r.shares r.fill
      match openLong cfg c.pf r.date r.symbol c.rem r.fill r.stops with
      | .error e => .error e
      | .ok (bought, s2) =>
        if c.filled = 0 ∧ bought = 0 then .ok (none, s2)
        else
          let intent := if bought ≠ 0 then Intent.buyToOpen else Intent.buyToClose
          let (o, s3) := s2.addOrder cfg r.date r.symbol .buy r.created r.orderType intent
            (c.filled + bought) r.limit r.marketPrice r.fill
          .ok (some o, s3)

/-- `Portfolio.sell`, portfolio.py:1187-1251. -/
def sell (cfg : Config) (s : Portfolio) (r : OrderReq) : Except Err (Option Order × Portfolio) :=
  match verifyInput r.shares r.fill r.limit with
  | .error e => .error e
  | .ok () =>
    if sellLimitBlocks r.limit r.fill then .ok (none, s)
    else if r.shares = 0 then .ok (none, s)
    else
      let c := sellExisting cfg s r.date r.symbol r.shares r.fill
      match openShort cfg c.pf r.date r.symbol c.rem r.fill r.stops with
      | .error e => .error e
      | .ok (shorted, s2) =>
        if c.filled = 0 ∧ shorted = 0 then .ok (none, s2)
        else
          let intent := if shorted ≠ 0 then Intent.sellToOpen else Intent.sellToClose
          let (o, s3) := s2.addOrder cfg r.date r.symbol .sell r.created r.orderType intent
            (c.filled + shorted) r.limit r.marketPrice r.fill
          .ok (some o, s3)

/-- A slippage model's `adjust_fill(side, symbol, shares, fill_price)` result
`(shares, fill_price)`; the scopes it may read are fixed for the call. -/
abbrev SlipFn := Side → Sym → ℚ → ℚ → ℚ × ℚ

/-- The fill price after an optional slippage model, portfolio.py:1430-1441. -/
def slipPrice (slip : Option SlipFn) (side : Side) (sym : Sym) (shares fill : ℚ) : ℚ :=
  match slip with
  | none => fill
  | some f => (f side sym shares fill).2

/-- `Portfolio.exit_position`, portfolio.py:1409-1469. -/
def exitPosition (cfg : Config) (s : Portfolio) (date : Date) (sym : Sym)
    (buyFill sellFill : ℚ) (slip : Option SlipFn) : Except Err Portfolio :=
  let afterLong : Except Err Portfolio :=
    match lookupPos s.longs sym with
    | none => .ok s
    | some p =>
      match sell cfg s { date := date, symbol := sym, shares := p.shares,
                         fill := slipPrice slip .sell sym p.shares sellFill,
                         marketPrice := some sellFill } with
      | .error e => .error e
      | .ok (_, s1) => .ok s1
  match afterLong with
  | .error e => .error e
  | .ok s1 =>
    match lookupPos s1.shorts sym with
    | none => .ok s1
    | some p =>
      match buy cfg s1 { date := date, symbol := sym, shares := p.shares,
                         fill := slipPrice slip .buy sym p.shares buyFill,
                         marketPrice := some buyFill } with
      | .error e => .error e
      | .ok (_, s2) => .ok s2

/-! ## capture_bar and incr_bars -/

/-- The bar of a symbol on a date as `capture_bar` reads it
(portfolio.py:1497-1525).  `close = none` stands for no bar, no column or a
non-finite close; `low`/`high = none` for a missing or NaN value (a NaN fails
every comparison of portfolio.py:472-479, like a missing one). -/
structure BarQuote where
  close : Option ℚ
  low : Option ℚ
  high : Option ℚ
  deriving DecidableEq, Repr

/-- One iteration of `_calculate_pnl_mae_mfe` on an entry, portfolio.py:460-479:
the entry with updated MAE/MFE. -/
def Entry.excursion (pt : PosType) (low high : Option ℚ) (e : Entry) : Entry :=
  let loss : Option ℚ :=
    match pt with
    | .long => low.map (fun l => l - e.price)
    | .short => high.map (fun h => e.price - h)
  let profit : Option ℚ :=
    match pt with
    | .long => high.map (fun h => h - e.price)
    | .short => low.map (fun l => e.price - l)
  let mae := match loss with
    | some x => if x < 0 ∧ x < e.mae then x else e.mae
    | none => e.mae
  let mfe := match profit with
    | some x => if x > 0 ∧ x > e.mfe then x else e.mfe
    | none => e.mfe
  { e with mae := mae, mfe := mfe }

/-- Unrealised PnL of an entry at a close, portfolio.py:462 and 466. -/
def Entry.pnlAt (pt : PosType) (close : ℚ) (e : Entry) : ℚ :=
  match pt with
  | .long => (close - e.price) * e.shares
  | .short => (e.price - close) * e.shares

/-- `_calculate_pnl_mae_mfe`, portfolio.py:449-480. -/
def Position.calcPnl (p : Position) (close : ℚ) (low high : Option ℚ) : Position :=
  { p with
    pnl := (p.entries.map (Entry.pnlAt p.type close)).sum
    entries := p.entries.map (Entry.excursion p.type low high) }

/-- Marking a long position, portfolio.py:1534-1542. -/
def Position.markLong (p : Position) (close : ℚ) (low high : Option ℚ) : Position :=
  let p1 := p.calcPnl close low high
  { p1 with equity := p1.shares * close, marketValue := p1.shares * close,
            close := close }.clearUnmarked

/-- Marking a short position, portfolio.py:1567-1575. -/
def Position.markShort (p : Position) (close : ℚ) (low high : Option ℚ) : Position :=
  let p1 := p.calcPnl close low high
  { p1 with close := close, margin := close * p1.shares,
            marketValue := close * p1.shares + p1.pnl }.clearUnmarked

/-- The accumulators of `capture_bar`, portfolio.py:1490-1493.  `math.fsum`
over a list is the exact sum here. -/
structure CaptureAcc where
  pf : Portfolio
  equity : ℚ
  marketValue : ℚ
  margin : ℚ
  longValue : ℚ

/-- The long half of the loop body, portfolio.py:1532-1559. -/
def captureLong (q : BarQuote) (acc : CaptureAcc) (sym : Sym) : CaptureAcc :=
  match lookupPos acc.pf.longs sym with
  | none => acc
  | some p =>
    match q.close with
    | some c =>
      let p1 := p.markLong c q.low q.high
      { acc with
        pf := { acc.pf with longs := replacePos acc.pf.longs p1 }
        equity := acc.equity + p1.equity
        marketValue := acc.marketValue + p1.equity
        longValue := acc.longValue + p1.equity }
    | none =>
      let held := p.markedValue
      { acc with
        equity := acc.equity + held
        marketValue := acc.marketValue + held
        longValue := acc.longValue + held }

/-- The short half of the loop body, portfolio.py:1560-1590. -/
def captureShort (q : BarQuote) (acc : CaptureAcc) (sym : Sym) : CaptureAcc :=
  match lookupPos acc.pf.shorts sym with
  | none => acc
  | some p =>
    match q.close with
    | some c =>
      let p1 := p.markShort c q.low q.high
      { acc with
        pf := { acc.pf with shorts := replacePos acc.pf.shorts p1 }
        equity := acc.equity + p.entryNotional
        marketValue := acc.marketValue + (p.entryNotional + p1.pnl)
        margin := acc.margin + p1.margin }
    | none =>
      { acc with
        equity := acc.equity + p.entryNotional
        marketValue := acc.marketValue + (2 * p.entryNotional - p.markedValue)
        margin := acc.margin + p.margin }

/-- The loop body of `capture_bar` for one symbol. -/
def captureSym (quote : Sym → BarQuote) (acc : CaptureAcc) (sym : Sym) : CaptureAcc :=
  captureShort (quote sym) (captureLong (quote sym) acc sym) sym

/-- The interest step and the loop over the sorted symbols of `capture_bar`,
portfolio.py:1479-1604. -/
def captureAcc (cfg : Config) (s : Portfolio) (quote : Sym → BarQuote) : CaptureAcc :=
  let s1 := s.applyInterest cfg
  let netCash := s1.netCash cfg
  (s1.symbols.insertionSort (fun a b => a ≤ b)).foldl (captureSym quote)
    { pf := s1, equity := netCash, marketValue := netCash, margin := 0, longValue := 0 }

/-- The totals stored by `capture_bar`, portfolio.py:1606-1611. -/
def captureTotals (acc : CaptureAcc) : Portfolio :=
  { acc.pf with equity := acc.equity, marketValue := acc.marketValue,
                margin := acc.margin }.invalidate

/-- The bar recorded by `capture_bar`, portfolio.py:1613-1626. -/
def captureRecord (cfg : Config) (s : Portfolio) (date : Date) (longValue : ℚ) : PortfolioBar :=
  { date := date, cash := s.cash, equity := s.equity,
    notional := longValue + s.margin, margin := s.margin,
    marginLoan := s.marginLoan cfg, netCashBalance := s.netCash cfg,
    marketValue := s.marketValue, pnl := s.equity - cfg.cash,
    unrealizedPnl := s.marketValue - s.equity, fees := s.fees }

/-- `Portfolio.capture_bar`, portfolio.py:1471-1629.  Position bars are
modelled beside it, by `capturedRows` of PositionBars.lean. -/
def captureBar (cfg : Config) (s : Portfolio) (date : Date) (quote : Sym → BarQuote) :
    Portfolio :=
  let acc := captureAcc cfg s quote
  let s2 := captureTotals acc
  { s2 with metrics := s2.metrics ++ [captureRecord cfg s2 date acc.longValue] }

/-- The loop body of `incr_bars` for one position, portfolio.py:1648-1657. -/
def Position.incrBars (hasBar : Sym → Bool) (p : Position) : Position :=
  { p with
    bars := p.bars + 1
    entries := p.entries.map (fun e =>
      { e with bars := e.bars + 1,
               symBars := if hasBar p.symbol then e.symBars + 1 else e.symBars }) }

/-- `Portfolio.incr_bars`, portfolio.py:1631-1657. `hasBar` is
`price_scope.has_bar_on(symbol, date)`, or constantly true. -/
def incrBars (s : Portfolio) (hasBar : Sym → Bool) : Portfolio :=
  { s with longs := s.longs.map (Position.incrBars hasBar),
           shorts := s.shorts.map (Position.incrBars hasBar) }

end PyBroker
