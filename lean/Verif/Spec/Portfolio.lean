import Verif.Portfolio.Stops

/-!
# Specification vocabulary for the portfolio properties

Nothing here is used by the model.  These are the notions the English
properties speak of, defined from what a caller can read off a portfolio:
positions with their entries, cash, orders, trades and recorded bars.
-/

namespace PyBroker.Spec

/-- All open entries. -/
def openEntries (s : Portfolio) : List Entry := (s.longs ++ s.shorts).flatMap Position.entries

/-- What the open entries cost: the sum of shares times entry price. -/
def openCost (s : Portfolio) : ℚ := ((openEntries s).map (fun e => e.shares * e.price)).sum

/-- Collateral is the cost divided by this number. -/
def lev (cfg : Config) : ℚ := if 1 < cfg.leverage then cfg.leverage else 1

/-- Cash less everything owed: borrowed cost and accrued interest. -/
def netBalance (cfg : Config) (s : Portfolio) : ℚ :=
  s.cash - (openCost s - openCost s / lev cfg) - s.accrued

/-- Interest credited (or, if negative, charged) for one bar on a net balance. -/
def perBarInterest (cfg : Config) (balance : ℚ) : ℚ :=
  match cfg.barsPerYear with
  | none => 0
  | some n => if 0 < cfg.interestRate then balance * (cfg.interestRate / 100 / n) else 0

/-- The net interest applied along a history: one amount per captured bar. -/
def interestPaid (cfg : Config) : Portfolio → List Op → ℚ
  | _, [] => 0
  | s, op :: ops =>
    (match op with
      | .captureBar _ _ => perBarInterest cfg (netBalance cfg s)
      | _ => 0) +
    (match step cfg s op with
      | .ok s' => interestPaid cfg s' ops
      | .error _ => 0)

/-- Realised profit: the sum over the trade log. -/
def realised (s : Portfolio) : ℚ := (s.trades.map Trade.pnl).sum

/-- Fees charged: the sum over the order log. -/
def feesCharged (s : Portfolio) : ℚ := (s.orders.map Order.fees).sum

/-- Unrealised profit of an entry at a price. -/
def unrealised (e : Entry) (price : ℚ) : ℚ :=
  match e.type with
  | .long => e.shares * (price - e.price)
  | .short => e.shares * (e.price - price)

/-- Shares of the position in `sym` of a book, zero if there is none. -/
def held (ps : List Position) (sym : Sym) : ℚ :=
  ((ps.filter (fun p => p.symbol = sym)).map Position.shares).sum

/-- Signed shares of an order: bought positive, sold negative. -/
def signed (o : Order) : ℚ :=
  match o.side with
  | .buy => o.shares
  | .sell => -o.shares

/-- Net shares of the orders recorded for a symbol. -/
def netOrdered (s : Portfolio) (sym : Sym) : ℚ :=
  ((s.orders.filter (fun o => o.symbol = sym)).map signed).sum

/-- Profit of closing `shares` bought (or sold short) at `entry`, at `exit`. -/
def profit (t : PosType) (shares entry exit : ℚ) : ℚ :=
  match t with
  | .long => shares * (exit - entry)
  | .short => shares * (entry - exit)

/-- A fill price respects a limit: buys not above, sells not below. -/
def withinLimit (side : Side) (limit : Option ℚ) (fill : ℚ) : Prop :=
  ∀ l, limit = some l → match side with
    | .buy => fill ≤ l
    | .sell => l ≤ fill

/-- First-in first-out: what each entry gives up when `n` shares are closed. -/
def fifo : List ℚ → ℚ → List ℚ
  | [], _ => []
  | x :: xs, n => min x n :: fifo xs (n - min x n)

/-- The entries of a position paired with what each gives up. -/
def exits (es : List Entry) (n : ℚ) : List (Entry × ℚ) := es.zip (fifo (es.map Entry.shares) n)

/-- What a trade says about the entry it closed (all but its id, running total
and bar statistics). -/
structure TradeFacts where
  type : PosType
  symbol : Sym
  entryDate : Date
  exitDate : Date
  entry : ℚ
  exit : ℚ
  shares : ℚ
  pnl : ℚ
  stop : Option StopType
  deriving DecidableEq

def TradeFacts.of (t : Trade) : TradeFacts :=
  ⟨t.type, t.symbol, t.entryDate, t.exitDate, t.entry, t.exit, t.shares, t.pnl, t.stop⟩

/-- The trade that closing `n` shares of an entry at `fill` must record. -/
def tradeFor (date : Date) (fill : ℚ) (stop : Option StopType) (e : Entry) (n : ℚ) : TradeFacts :=
  ⟨e.type, e.symbol, e.date, date, e.price, fill, n, profit e.type n e.price fill, stop⟩

/-- The entries left open after `n` shares are closed first-in first-out. -/
def leftOpen (es : List Entry) (n : ℚ) : List Entry :=
  ((exits es n).filter (fun x => x.2 < x.1.shares)).map
    (fun x => { x.1 with shares := x.1.shares - x.2 })

/-- The trades booked when `n` shares are closed first-in first-out: one for
each entry that gives up a positive number of shares. -/
def fifoTrades (date : Date) (fill : ℚ) (es : List Entry) (n : ℚ) : List TradeFacts :=
  ((exits es n).filter (fun x => 0 < x.2)).map (fun x => tradeFor date fill none x.1 x.2)

/-- The open entries of a symbol on one side of the book, oldest first. -/
def entriesOf (ps : List Position) (sym : Sym) : List Entry :=
  (ps.filter (fun p => p.symbol = sym)).flatMap Position.entries

/-- Cost of a position: shares times entry price over its entries. -/
def cost (p : Position) : ℚ := (p.entries.map (fun e => e.shares * e.price)).sum

/-- Value of a position that has no close on this bar: shares held at the last
mark count at that mark, later fills at cost; at cost if never marked. -/
def heldMark (p : Position) : ℚ :=
  if 0 < p.close then (p.shares - p.unmarkedShares) * p.close + p.unmarkedNotional
  else cost p

/-- Unrealised profit of a position on a bar. -/
def posGain (quote : Sym → BarQuote) (p : Position) : ℚ :=
  match (quote p.symbol).close with
  | some c => (p.entries.map (fun e => unrealised e c)).sum
  | none =>
    match p.type with
    | .long => heldMark p - cost p
    | .short => cost p - heldMark p

/-- Gross exposure at mark. -/
def gross (s : Portfolio) : ℚ := ((s.longs ++ s.shorts).map heldMark).sum

/-- Live market value: net balance, longs at mark, shorts at cost plus gain. -/
def liveValue (cfg : Config) (s : Portfolio) : ℚ :=
  netBalance cfg s + (s.longs.map heldMark).sum +
    (s.shorts.map (fun p => 2 * cost p - heldMark p)).sum

/-- Fees never fall when more shares are ordered. -/
def MonotoneFees (cfg : Config) : Prop :=
  ∀ sym fill side a b, 0 ≤ a → a ≤ b → 0 < fill →
    calculateFees cfg sym fill a side ≤ calculateFees cfg sym fill b side

/-- What a caller can observe of a portfolio, without the memoised sums. -/
def observed (s : Portfolio) : Portfolio := { s with cachedLongMv := none, cachedShortMv := none }

/-! ## Stops -/

/-- The stops an order attaches. -/
def stopsOf : Op → List Stop
  | .buy r => r.stops
  | .sell r => r.stops
  | _ => []

/-- No two stops of a history share an id. -/
def FreshIds (ops : List Op) : Prop := ((ops.flatMap stopsOf).map Stop.id).Nodup

/-- The documented precedence of two stops of one entry: price stops come before
bar stops, and within each kind the smaller id comes first. -/
def TriedBefore (a b : Stop) : Prop :=
  (a.stopType ≠ .bar ∧ b.stopType = .bar) ∨
    ((a.stopType = .bar ↔ b.stopType = .bar) ∧ a.id < b.id)

/-- The current level of an armed price stop; `none` if it is not armed or the
level is NaN. -/
def levelOf (s : Portfolio) (st : Stop) : Option ℚ :=
  match s.stopData.find? (fun d => d.stop.id = st.id) with
  | none => none
  | some d => d.value

/-- Stops that guard against a fall (long loss, long trailing) or take profit on
a fall (short profit). -/
def Below (st : Stop) : Prop :=
  (st.posType = .long ∧ (st.stopType = .loss ∨ st.stopType = .trailing)) ∨
    (st.posType = .short ∧ st.stopType = .profit)

instance (st : Stop) : Decidable (Below st) := by unfold Below; infer_instance

/-- An entry leaving the portfolio because of a stop, at an unslipped price. -/
structure Exit where
  entry : Entry
  stop : Stop
  market : ℚ
  deriving DecidableEq

/-- What an order record says, apart from its id and fees. -/
structure OrderFacts where
  side : Side
  symbol : Sym
  date : Date
  orderType : OrderType
  intent : Intent
  shares : ℚ
  limitPrice : Option ℚ
  marketPrice : ℚ
  fillPrice : ℚ
  deriving DecidableEq

def OrderFacts.of (o : Order) : OrderFacts :=
  ⟨o.side, o.symbol, o.date, o.orderType, o.intent, o.shares, o.limitPrice, o.marketPrice,
    o.fillPrice⟩

/-- When a stop fires and at which unslipped price `m`.  A price stop without an
exit price fires when the bar reaches its level and pays the level, or the near
end of the bar if the bar opened beyond it; with an exit price it compares and
pays that price.  A bar stop fires after its number of bars. -/
inductive FiresAt (env : StopEnv) (st : Stop) (level : Option ℚ) (symBars : Nat) (m : ℚ) : Prop
  | bars {n : Nat} (ht : st.stopType = .bar) (hn : st.bars = some n) (hle : n ≤ symBars)
      (hm : env.fetch st.symbol (st.fillPrice.getD (.price .middle)) = some m) (hpos : 0 < m)
  | below {l lo : ℚ} (ht : st.stopType ≠ .bar) (hb : Below st) (hl : level = some l)
      (he : st.exitPrice = none) (hlo : env.fetchFloat st.symbol .low = some lo) (hle : lo ≤ l)
      (hm : m = (env.fetchFloat st.symbol .high).elim l (min l))
  | above {l hi : ℚ} (ht : st.stopType ≠ .bar) (hb : ¬ Below st) (hl : level = some l)
      (he : st.exitPrice = none) (hhi : env.fetchFloat st.symbol .high = some hi) (hle : l ≤ hi)
      (hm : m = (env.fetchFloat st.symbol .low).elim l (max l))
  | belowAt {l : ℚ} {pt : PriceType} (ht : st.stopType ≠ .bar) (hb : Below st)
      (hl : level = some l) (he : st.exitPrice = some pt)
      (hm : env.fetchFloat st.symbol pt = some m) (hle : m ≤ l)
  | aboveAt {l : ℚ} {pt : PriceType} (ht : st.stopType ≠ .bar) (hb : ¬ Below st)
      (hl : level = some l) (he : st.exitPrice = some pt)
      (hm : env.fetchFloat st.symbol pt = some m) (hle : l ≤ m)

/-- The price paid: the unslipped price moved by the slippage model, unless
that would make it non-positive. -/
def exitPaid (env : StopEnv) (x : Exit) : ℚ :=
  match env.slip with
  | none => x.market
  | some f =>
    let y := (f (if x.stop.posType = .long then .sell else .buy) x.stop.symbol x.entry.shares
      x.market).2
    if 0 < y then y else x.market

/-- The stop's limit price allows the price paid. -/
def LimitAllows (st : Stop) (price : ℚ) : Prop :=
  ∀ l, st.limitPrice = some l → if st.posType = .long then l ≤ price else price ≤ l

/-- The trade and the order a stop exit must record. -/
def stopTrade (env : StopEnv) (date : Date) (x : Exit) : TradeFacts :=
  tradeFor date (exitPaid env x) (some x.stop.stopType) x.entry x.entry.shares

def stopOrder (env : StopEnv) (date : Date) (x : Exit) : OrderFacts :=
  { side := if x.stop.posType = .long then .sell else .buy
    symbol := x.entry.symbol
    date := date
    orderType := match x.stop.stopType with
      | .bar => .stopBar
      | .loss => .stopLoss
      | .profit => .stopProfit
      | .trailing => .stopTrailing
    intent := if x.stop.posType = .long then .sellToClose else .buyToClose
    shares := x.entry.shares
    limitPrice := x.stop.limitPrice
    marketPrice := x.market
    fillPrice := exitPaid env x }

/-- The distance a trailing stop keeps from a price. -/
def trail (st : Stop) (price : ℚ) : ℚ :=
  match st.percent with
  | some pct => price * pct / 100
  | none => st.points.getD 0

/-- A trailing stop's level after a bar that does not trigger it. -/
def tighten (st : Stop) (l : ℚ) (env : StopEnv) : ℚ :=
  match st.posType with
  | .long =>
    let hi := (env.fetchFloat st.symbol .high).getD 0
    max l (hi - trail st hi)
  | .short =>
    let lo := (env.fetchFloat st.symbol .low).getD 0
    min l (lo + trail st lo)

/-- The bars of a history on which the stops of a symbol were checked. -/
def barsChecked (sym : Sym) (ops : List Op) : List StopEnv :=
  ops.filterMap (fun
    | .checkStops _ env => if env.canPrice sym then some env else none
    | _ => none)

/-- The stop is attached to the open entry with this id. -/
def Attached (s : Portfolio) (eid : Nat) (st : Stop) : Prop :=
  ∃ pt sym, ∃ e ∈ entriesOf (s.book pt) sym, e.id = eid ∧ st ∈ e.stops

/-! ## Bars -/

/-- The counted bars of a history; each says which symbols have a bar. -/
def counted (ops : List Op) : List (Sym → Bool) :=
  ops.filterMap (fun op => match op with
    | .incrBars hasBar => some hasBar
    | _ => none)

/-- The quotes of a symbol on the captured bars that have a close for it. -/
def marked (sym : Sym) (ops : List Op) : List BarQuote :=
  ops.filterMap (fun op => match op with
    | .captureBar _ quote => if (quote sym).close = none then none else some (quote sym)
    | _ => none)

/-- Gain per share of a position entered at `entry` when the price is `x`. -/
def perShare (pt : PosType) (entry x : ℚ) : ℚ :=
  match pt with
  | .long => x - entry
  | .short => entry - x

/-- The worst gain per share within a bar: at the low for a long, at the high
for a short. -/
def worst (pt : PosType) (entry : ℚ) (q : BarQuote) : Option ℚ :=
  (match pt with
    | .long => q.low
    | .short => q.high).map (perShare pt entry)

/-- The best gain per share within a bar. -/
def best (pt : PosType) (entry : ℚ) (q : BarQuote) : Option ℚ :=
  (match pt with
    | .long => q.high
    | .short => q.low).map (perShare pt entry)

/-- The call is a buy opening a long, or a sell opening a short. -/
def OpensOn (op : Op) (pt : PosType) (r : OrderReq) : Prop :=
  (op = .buy r ∧ pt = .long) ∨ (op = .sell r ∧ pt = .short)

/-- The percentage return of a trade. -/
def tradeReturn (pt : PosType) (entry exit : ℚ) : ℚ :=
  match pt with
  | .long => (exit - entry) / entry * 100
  | .short => (entry - exit) / exit * 100

end PyBroker.Spec
