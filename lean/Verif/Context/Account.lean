import Verif.Backtest.Model

/-!
# What a function reads of its portfolio

`/repo/src/pybroker/context.py`, 512-700 and 1107-1153: the properties and methods of
`BaseContext` and `ExecContext` that read the portfolio, and `/repo/src/pybroker/strategy.py`,
857-986: the moment of a bar at which the functions of the user are called.
-/

namespace PyBroker

/-- The numbers a context shows of the portfolio. -/
structure Account where
  totalEquity : ℚ
  cash : ℚ
  totalMargin : ℚ
  buyingPower : ℚ
  marginLoan : ℚ
  netCashBalance : ℚ
  totalMarketValue : ℚ
  winRate : ℚ
  lossRate : ℚ
  deriving DecidableEq

/-- `total_equity`, `cash`, `total_margin`, `buying_power`, `margin_loan`, `net_cash_balance`,
`total_market_value`, `win_rate` and `loss_rate`, context.py:512-572.  The memo that
`buying_power` leaves in the portfolio is dropped. -/
def Portfolio.account (cfg : Config) (pf : Portfolio) : Account :=
  { totalEquity := pf.equity
    cash := pf.cash
    totalMargin := pf.margin
    buyingPower := (pf.availableBuyingPower cfg).1
    marginLoan := pf.marginLoan cfg
    netCashBalance := pf.netCash cfg
    totalMarketValue := pf.marketValue
    winRate := pf.winRate
    lossRate := pf.lossRate }

/-- Why a read of positions fails. -/
inductive PosErr
  | unknownType
  | noSymbol
  deriving DecidableEq

/-- `_verify_pos_type`, context.py:696-698. -/
def verifyPosType (t : String) : Except PosErr Unit :=
  if t ≠ "short" ∧ t ≠ "long" then .error .unknownType else .ok ()

/-- `pos`, context.py:594-616. -/
def Portfolio.posOf (pf : Portfolio) (sym : Sym) (t : String) :
    Except PosErr (Option Position) := do
  verifyPosType t
  if t = "long" ∧ (lookupPos pf.longs sym).isSome then .ok (lookupPos pf.longs sym)
  else if t = "short" ∧ (lookupPos pf.shorts sym).isSome then .ok (lookupPos pf.shorts sym)
  else .ok none

/-- `positions`, context.py:618-654, when the iterator is read to its end. -/
def Portfolio.positionsOf (pf : Portfolio) (sym : Option Sym) (t : Option String) :
    Except PosErr (List Position) := do
  match t with
  | some t => verifyPosType t
  | none => .ok ()
  match sym with
  | none =>
    .ok ((if t ≠ some "short" then pf.longs else []) ++
      (if t ≠ some "long" then pf.shorts else []))
  | some sym =>
    .ok ((if t ≠ some "short" then (lookupPos pf.longs sym).toList else []) ++
      (if t ≠ some "long" then (lookupPos pf.shorts sym).toList else []))

/-- `long_positions`, context.py:656-670. -/
def Portfolio.longPositions (pf : Portfolio) (sym : Option Sym) : Except PosErr (List Position) :=
  pf.positionsOf sym (some "long")

/-- `short_positions`, context.py:672-686. -/
def Portfolio.shortPositions (pf : Portfolio) (sym : Option Sym) : Except PosErr (List Position) :=
  pf.positionsOf sym (some "short")

/-- `has_long_positions`, context.py:688-690. -/
def Portfolio.hasLong (pf : Portfolio) : Bool := !pf.longs.isEmpty

/-- `has_short_positions`, context.py:692-694. -/
def Portfolio.hasShort (pf : Portfolio) : Bool := !pf.shorts.isEmpty

/-- `long_pos` of the context of the symbol `own`, context.py:1107-1131. -/
def Portfolio.longPos (pf : Portfolio) (own : Option Sym) (sym : Option Sym) :
    Except PosErr (Option Position) :=
  match sym with
  | some sym => .ok (lookupPos pf.longs sym)
  | none =>
    match own with
    | none => .error .noSymbol
    | some sym => .ok (lookupPos pf.longs sym)

/-- `short_pos` of the context of the symbol `own`, context.py:1133-1153. -/
def Portfolio.shortPos (pf : Portfolio) (own : Option Sym) (sym : Option Sym) :
    Except PosErr (Option Position) :=
  match sym with
  | some sym => .ok (lookupPos pf.shorts sym)
  | none =>
    match own with
    | none => .error .noSymbol
    | some sym => .ok (lookupPos pf.shorts sym)

/-- The state in which a function of the user runs on the bar `b`, the bars `bs` of its window `w`
and the windows `ws` before it being done and the functions called before it on the bar having
made the calls `us`: strategy.py:3122-3221 and 857-986. -/
def seenOn (cfg : Config) (ws : List (Window × List BarIn)) (w : Window) (bs : List BarIn)
    (b : BarIn) (us : List UserOp) : Except BErr Loop := do
  let s ← runWindows cfg ws
  let s1 ← runWindow cfg s (w, bs)
  let s2 ← barOrders cfg b.env s1
  .ok (us.foldl userStep { s2 with pf := captureBar cfg s2.pf b.env.date b.env.quote })

end PyBroker
