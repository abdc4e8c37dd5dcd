import Verif.Backtest.Model

/-!
# Specification of a well-formed backtest

`HB sym d` says that the data has a bar of `sym` on the date `d`.
-/

namespace PyBroker.Spec

/-- A window over the data: the dates of each symbol increase and are dates it
has a bar on, and orders are delayed by at least one bar. -/
structure WindowOK (HB : Sym → Date → Prop) (w : Window) : Prop where
  sorted : ∀ sym, (w.dates sym).Pairwise (· < ·)
  bars : ∀ sym, ∀ d ∈ w.dates sym, HB sym d
  master : ∀ f, w.master = some f → ∀ sym, (f sym).Pairwise (· < ·)
  buyDelay : 1 ≤ w.buyDelay
  sellDelay : 1 ≤ w.sellDelay
  /-- A set is iterated in some order of its elements. -/
  boundary : ∀ b, w.boundary = some b → ∀ l, (b.iter l).Perm l

/-- A bar of a window: the price scope knows which symbols have a bar, and the
symbols that signal are at the bar of this date. -/
structure BarOK (HB : Sym → Date → Prop) (w : Window) (b : BarIn) : Prop where
  bars : ∀ sym, b.env.hasBarOn sym = true ↔ HB sym b.env.date
  now : ∀ r ∈ b.results, (w.dates r.symbol)[b.env.endIndex r.symbol - 1]? = some b.env.date

/-- A walkforward run: windows and bars are well-formed, and time moves forward. -/
structure RunOK (HB : Sym → Date → Prop) (ws : List (Window × List BarIn)) : Prop where
  window : ∀ x ∈ ws, WindowOK HB x.1
  bar : ∀ x ∈ ws, ∀ b ∈ x.2, BarOK HB x.1 b
  forward : (ws.flatMap (fun x => x.2.map (fun b => b.env.date))).Pairwise (· < ·)

/-! ## A backtest as a history of calls on the portfolio -/

/-- The stops the order of a result carries. -/
def orderStops (r : ExecResult) : List Stop :=
  match r.buyShares with
  | some _ => r.longStops
  | none => r.shortStops

/-- The stops of a result are stops of its symbol, on the side it would open. -/
def ResultFit (r : ExecResult) : Prop :=
  (∀ st ∈ r.longStops, st.posType = .long ∧ st.symbol = r.symbol) ∧
    ∀ st ∈ r.shortStops, st.posType = .short ∧ st.symbol = r.symbol

/-- The results of a bar in the order they are scheduled. -/
def signalsOf (b : BarIn) : List ExecResult :=
  coverResults b.results ++ (buyResults b.results ++ sellResults b.results)

/-- All results of a run in the order they are scheduled. -/
def signals (ws : List (Window × List BarIn)) : List ExecResult :=
  ws.flatMap (fun x => x.2.flatMap signalsOf)

/-- No two stops of the run share an id. -/
def FreshStops (ws : List (Window × List BarIn)) : Prop :=
  ((signals ws).flatMap orderStops |>.map Stop.id).Nodup

/-- The price paid for an order: the price on the bar moved by the slippage model. -/
def OrderPaid (slip : Option SlipModel) (side : Side) (sym : Sym) (market paid : ℚ) : Prop :=
  match slip with
  | none => paid = market
  | some .noop => paid = market
  | some (.fixed bps) => paid = Slippage.fixedAdjust bps side market
  | some (.general f) => ∃ n, paid = (f side sym n market).2

/-- The call carries out a pending order: at the price its fill price stands for on the bar, for
no more than its shares, and for all of them unless it is an exit or slippage takes some. -/
structure CarriesOut (cfg : Config) (env : BarEnv) (p : PendingOrder) (r : OrderReq) : Prop where
  symbol : r.symbol = p.symbol
  created : r.created = some p.created
  limit : r.limit = p.limit
  type : r.orderType = if p.limit.isSome then .limit else .market
  stops : r.stops = p.stops ∨ r.stops = []
  price : ∃ m, env.fetch p.symbol p.fill = some m ∧ r.marketPrice = some m ∧
    OrderPaid env.slip p.side p.symbol m r.fill
  shares : 0 ≤ p.shares → r.shares ≤ p.shares
  full : p.exitPos = none → (∀ f, env.slip ≠ some (.general f)) →
    r.shares = if cfg.fractional then p.shares else (truncQ p.shares : ℚ)

/-- A `buy` or `sell` of a symbol with a bar on the date, created before it, that carries out a
pending order in `A`. -/
def IsOrder (A : PendingOrder → Prop) (cfg : Config) (env : BarEnv) : Op → Prop
  | .buy r => r.date = env.date ∧ r.created.elim False (· < env.date) ∧
      env.hasBarOn r.symbol = true ∧ ∃ p, A p ∧ p.side = .buy ∧ CarriesOut cfg env p r
  | .sell r => r.date = env.date ∧ r.created.elim False (· < env.date) ∧
      env.hasBarOn r.symbol = true ∧ ∃ p, A p ∧ p.side = .sell ∧ CarriesOut cfg env p r
  | _ => False

/-- A cancellation of stops. -/
def IsCancel : Op → Prop
  | .removeStop _ => True
  | .removeStopsSym _ _ => True
  | .removeStopsEntry _ _ => True
  | _ => False

/-- The calls a bar makes on the portfolio, in this order: stops are checked,
orders are attempted, the bar is captured, user code cancels stops, positions
are forcibly closed, bar counts advance. -/
def BarCalls (A : PendingOrder → Prop) (cfg : Config) (b : BarIn) (calls : List Op) : Prop :=
  ∃ orders cancels : List Op,
    calls = .checkStops b.env.date b.env.stop :: (orders ++
      (.captureBar b.env.date b.env.quote :: (cancels ++
        (b.exits.map (fun x => .exitPosition b.env.date x.symbol x.buyFill x.sellFill
          b.env.stop.slip) ++ [.incrBars b.env.hasBarOn])))) ∧
    (∀ op ∈ orders, IsOrder A cfg b.env op) ∧ ∀ op ∈ cancels, IsCancel op

/-- The calls made before the bars of a window: symbols the window does not
select are closed, each on one of its bars. -/
def BoundaryCalls (w : Window) (calls : List Op) : Prop :=
  ∀ op ∈ calls, ∃ b, w.boundary = some b ∧ ∃ (sym : Sym) (bar : DropBar),
    op = .exitPosition bar.date sym bar.buyFill bar.sellFill b.slip ∧ sym ∉ b.selected ∧
      (bar ∈ b.test sym ∨ bar ∈ b.all sym)

/-- The calls of a window: at its start, and bar by bar. -/
def WindowCalls (A : PendingOrder → Prop) (cfg : Config) (x : Window × List BarIn)
    (calls : List Op × List (List Op)) : Prop :=
  BoundaryCalls x.1 calls.1 ∧ List.Forall₂ (BarCalls A cfg) x.2 calls.2

/-- A pending order for what a result signals on a date. -/
structure Wants (d : Date) (r : ExecResult) (p : PendingOrder) : Prop where
  symbol : p.symbol = r.symbol
  created : p.created = d
  exitPos : p.exitPos = r.exitPos
  buy : ∀ n, r.buyShares = some n → p.side = .buy ∧ p.shares = n ∧ p.limit = r.buyLimit ∧
    p.fill = r.buyFill ∧ p.timeout = r.buyTimeout ∧ p.stops = r.longStops
  sell : r.buyShares = none → ∀ n, r.sellShares = some n → p.side = .sell ∧ p.shares = n ∧
    p.limit = r.sellLimit ∧ p.fill = r.sellFill ∧ p.timeout = r.sellTimeout ∧
    p.stops = r.shortStops
  side : r.buyShares ≠ none ∨ r.sellShares ≠ none

/-- The pending orders a run's results ask for. -/
def AskedIn (ws : List (Window × List BarIn)) (p : PendingOrder) : Prop :=
  ∃ x ∈ ws, ∃ b ∈ x.2, ∃ r ∈ b.results, Wants b.env.date r p

/-- All calls of a run, in order. -/
def allCalls (hist : List (List Op × List (List Op))) : List Op :=
  hist.flatMap (fun y => y.1 ++ y.2.flatten)

end PyBroker.Spec
