import Verif.Backtest.Model

/-!
# Model of the order side of `ExecContext`

Line numbers refer to `/repo/src/pybroker/context.py`.  Modelled: the settings user
code makes on a bar, target sizing, and the conversion to an `ExecResult`.
Share counts, stop amounts and scores set by user code are numbers; a limit
price may also be NaN or infinite, as the code tests for that.
-/

namespace PyBroker

/-- A price given by user code: a finite number, or NaN or an infinity. -/
inductive PyNum
  | fin (q : ℚ)
  | notFinite
  deriving DecidableEq, Repr

/-- The four settings of one kind of price stop, e.g. `stop_loss`,
`stop_loss_pct`, `stop_loss_limit` and `stop_loss_exit_price`, 335-372.  The exit
price is typed: the type check of 1337-1338 has no counterpart. -/
structure StopSet where
  points : Option ℚ := none
  pct : Option ℚ := none
  limit : Option ℚ := none
  exit : Option PriceType := none
  deriving DecidableEq, Repr

/-- What user code can set on an `ExecContext`, and its private order flags. -/
structure Ctx where
  symbol : Option Sym := none
  date : Option Date := none
  rotation : Bool := false
  cover : Bool := false
  exiting : Bool := false
  exitPos : Option PosType := none
  buyFill : Option FillSpec := none
  buyShares : Option ℚ := none
  buyLimit : Option PyNum := none
  buyTimeout : Option Int := none
  sellFill : Option FillSpec := none
  sellShares : Option ℚ := none
  sellLimit : Option PyNum := none
  sellTimeout : Option Int := none
  holdBars : Option Int := none
  score : Score := none
  longScore : Score := none
  shortScore : Score := none
  loss : StopSet := {}
  profit : StopSet := {}
  trailing : StopSet := {}
  deriving DecidableEq, Repr

/-- The `ValueError`s of the modelled methods. -/
inductive CErr
  | noDate | noSymbol
  | buyLimitAlone | buyFillAlone | sellLimitAlone | sellFillAlone
  | stopAlone | holdAlone | bothSides | scores | rotationScore
  | limitNotFinite | holdBars
  | stopTwice (t : StopType) | stopLimitAlone (t : StopType) | stopExitAlone (t : StopType)
  | badPrice | negativeTarget | noPosition
  deriving DecidableEq, Repr

/-- `set_exec_ctx_data`, 1758-1799: every setting is cleared at the start of a bar. -/
def Ctx.start (c : Ctx) (d : Date) : Ctx :=
  { c with
    date := some d
    cover := false
    exiting := false
    exitPos := none
    buyFill := none
    buyShares := none
    buyLimit := none
    buyTimeout := none
    sellFill := none
    sellShares := none
    sellLimit := none
    sellTimeout := none
    holdBars := none
    score := none
    longScore := none
    shortScore := none
    loss := {}
    profit := {}
    trailing := {} }

/-! ## Settings -/

/-- The setter of `cover_shares`, 870-873. -/
def Ctx.setCoverShares (c : Ctx) (n : Option ℚ) : Ctx := { c with buyShares := n, cover := true }

/-- `sell_all_shares`, 889-898.  The position object is represented by its type, the
only thing read from it later (1696). -/
def Ctx.sellAll (c : Ctx) (pf : Portfolio) : Except CErr Ctx :=
  match c.symbol with
  | none => .error .noSymbol
  | some sym =>
    match lookupPos pf.longs sym with
    | none => .error .noPosition
    | some p => .ok { c with sellShares := some p.shares, exitPos := some p.type, exiting := true }

/-- `cover_all_shares`, 900-909. -/
def Ctx.coverAll (c : Ctx) (pf : Portfolio) : Except CErr Ctx :=
  match c.symbol with
  | none => .error .noSymbol
  | some sym =>
    match lookupPos pf.shorts sym with
    | none => .error .noPosition
    | some p =>
      .ok { c.setCoverShares (some p.shares) with exitPos := some p.type, exiting := true }

/-! ## Target sizes -/

/-- `calc_target_shares`, 1155-1202, given the price that is used (`close_price` when
none is given). -/
def calcTarget (cfg : Config) (equity : ℚ) (target : ℚ) (price : PyNum) (cash : Option ℚ) :
    Except CErr ℚ :=
  match price with
  | .notFinite => .error .badPrice
  | .fin p =>
    if p ≤ 0 then .error .badPrice
    else
      let base := cash.getD (equity * cfg.leverage)
      let shares := base * target / p
      if cfg.fractional then .ok (max shares 0) else .ok (max (truncQ shares) 0 : Int)

/-- `_exit_target_pos`, 1259-1271. -/
def Ctx.exitTarget (c : Ctx) (p : Position) (shares : ℚ) : Ctx :=
  if 0 < shares then c else { c with exitPos := some p.type, exiting := true }

/-- The long branch of `set_target_shares`, 1240-1249. -/
def Ctx.targetLong (c : Ctx) (pos : Option Position) (n : ℚ) : Ctx :=
  match pos with
  | none => { c with buyShares := some n }
  | some p =>
    if p.shares < n then { c with buyShares := some (n - p.shares) }
    else if p.shares > n then
      Ctx.exitTarget { c with sellShares := some (p.shares - n) } p n
    else c

/-- The short branch of `set_target_shares`, 1250-1257. -/
def Ctx.targetShort (c : Ctx) (pos : Option Position) (n : ℚ) : Ctx :=
  match pos with
  | none => { c with sellShares := some n }
  | some p =>
    if p.shares < n then { c with sellShares := some (n - p.shares) }
    else if p.shares > n then
      Ctx.exitTarget (c.setCoverShares (some (p.shares - n))) p n
    else c

/-- `set_target_shares`, 1204-1257; `close` is the bar's close price. -/
def Ctx.setTarget (cfg : Config) (pf : Portfolio) (close : PyNum) (c : Ctx) (target : ℚ)
    (dir : PosType) : Except CErr Ctx :=
  if target < 0 then .error .negativeTarget
  else
    match close with
    | .notFinite => .ok c
    | .fin p =>
      if p ≤ 0 then .ok c
      else
        match calcTarget cfg pf.equity target close none with
        | .error e => .error e
        | .ok n =>
          match c.symbol with
          | none => .error .noSymbol
          | some sym =>
            match dir with
            | .long => .ok (c.targetLong (lookupPos pf.longs sym) n)
            | .short => .ok (c.targetShort (lookupPos pf.shorts sym) n)

/-! ## Stops -/

/-- `_create_stop`, 1308-1352, for a stop with an amount: the percentage wins.  The id
is the class counter after its increment. -/
def createStop (id : Nat) (sym : Sym) (t : StopType) (pt : PosType) (s : StopSet) : Stop :=
  { id := id + 1, symbol := sym, stopType := t, posType := pt,
    percent := s.pct,
    points := match s.pct with
      | some _ => none
      | none => s.points,
    bars := none, fillPrice := none, limitPrice := s.limit, exitPrice := s.exit }

/-- One of the three blocks of `_get_stops` for a price stop, 1392-1414 (loss),
1415-1439 (profit), 1440-1468 (trailing): the stops so far and the id counter. -/
def addPriceStop (sym : Sym) (pt : PosType) (t : StopType) (s : StopSet)
    (acc : List Stop × Nat) : Except CErr (List Stop × Nat) :=
  match s.points, s.pct with
  | some _, some _ => .error (.stopTwice t)
  | some p, none =>
    .ok (acc.1 ++ [createStop acc.2 sym t pt { s with points := some p, pct := none }], acc.2 + 1)
  | none, some q =>
    .ok (acc.1 ++ [createStop acc.2 sym t pt { s with points := none, pct := some q }], acc.2 + 1)
  | none, none => .ok acc

/-- The hold-bars block of `_get_stops`, 1367-1391. -/
def addHoldStop (c : Ctx) (sym : Sym) (pt : PosType) (acc : List Stop × Nat) :
    Except CErr (List Stop × Nat) :=
  match c.holdBars with
  | none => .ok acc
  | some n =>
    if n ≤ 0 then .error .holdBars
    else
      let fill := match pt with
        | .long => c.sellFill.getD (.price .middle)
        | .short => c.buyFill.getD (.price .middle)
      let stop : Stop :=
        { id := acc.2 + 1, symbol := sym, stopType := .bar, posType := pt,
          percent := none, points := none, bars := some n.toNat, fillPrice := some fill,
          limitPrice := none, exitPrice := none }
      .ok (acc.1 ++ [stop], acc.2 + 1)

/-- The checks at the end of `_get_stops`, 1469-1522, for one kind of stop. -/
def checkStopAlone (t : StopType) (s : StopSet) : Except CErr Unit :=
  if s.limit.isSome ∧ s.points.isNone ∧ s.pct.isNone then .error (.stopLimitAlone t)
  else if s.exit.isSome ∧ s.points.isNone ∧ s.pct.isNone then .error (.stopExitAlone t)
  else .ok ()

/-- The stops of `_get_stops`, 1354-1526, for an order that opens a position of type
`pt`, and the new value of the id counter. -/
def Ctx.stopsFor (c : Ctx) (sym : Sym) (pt : PosType) (nextId : Nat) :
    Except CErr (List Stop × Nat) := do
  let a ← addHoldStop c sym pt ([], nextId)
  let a ← addPriceStop sym pt .loss c.loss a
  let a ← addPriceStop sym pt .profit c.profit a
  let a ← addPriceStop sym pt .trailing c.trailing a
  checkStopAlone .loss c.loss
  checkStopAlone .profit c.profit
  checkStopAlone .trailing c.trailing
  return a

/-! ## The result of a bar -/

/-- Nothing is set for this kind of stop. -/
def StopSet.unset (s : StopSet) : Bool :=
  s.points.isNone && s.pct.isNone && s.limit.isNone && s.exit.isNone

/-- `_is_noop_bar`, 1544-1570. -/
def Ctx.noop (c : Ctx) : Bool :=
  if c.buyShares.isSome || c.sellShares.isSome then false
  else
    c.holdBars.isNone && c.buyFill.isNone && c.sellFill.isNone && c.buyLimit.isNone &&
    c.sellLimit.isNone && c.buyTimeout.isNone && c.sellTimeout.isNone && c.score.isNone &&
    c.longScore.isNone && c.shortScore.isNone && c.loss.unset && c.profit.unset &&
    c.trailing.unset

/-- The consistency checks of `to_result`, 1582-1643. -/
def Ctx.checkSettings (c : Ctx) : Except CErr Unit :=
  if c.buyShares.isNone ∧ c.buyLimit.isSome then .error .buyLimitAlone
  else if c.buyShares.isNone ∧ c.buyFill.isSome ∧ c.holdBars.isNone then .error .buyFillAlone
  else if c.sellShares.isNone ∧ c.sellLimit.isSome then .error .sellLimitAlone
  else if c.sellShares.isNone ∧ c.sellFill.isSome ∧ c.holdBars.isNone then .error .sellFillAlone
  else if c.buyShares.isNone ∧ c.sellShares.isNone ∧
      ¬ (c.loss.unset ∧ c.profit.unset ∧ c.trailing.unset) then .error .stopAlone
  else if c.buyShares.isNone ∧ c.sellShares.isNone ∧ c.holdBars.isSome then .error .holdAlone
  else if c.buyShares.isSome ∧ c.sellShares.isSome then .error .bothSides
  else if c.score.isSome ∧ (c.longScore.isSome ∨ c.shortScore.isSome) then .error .scores
  else if c.rotation = true ∧ c.score.isSome then .error .rotationScore
  else .ok ()

/-- `not shares`: unset or zero. -/
def falsy : Option ℚ → Bool
  | none => true
  | some q => q == 0

/-- The finiteness check of the limit prices, 1668-1684. -/
def checkLimit : Option PyNum → Except CErr (Option ℚ)
  | none => .ok none
  | some (.fin q) => .ok (some q)
  | some .notFinite => .error .limitNotFinite

/-- `_get_stops`, 1354-1542: long stops, short stops, id counter. -/
def Ctx.getStops (c : Ctx) (sym : Sym) (nextId : Nat) : Except CErr (List Stop × List Stop × Nat) :=
  if c.buyShares.isSome then do
    let a ← c.stopsFor sym .long nextId
    return (a.1, [], a.2)
  else if c.sellShares.isSome then do
    let a ← c.stopsFor sym .short nextId
    return ([], a.1, a.2)
  else return ([], [], nextId)

/-- The last part of `to_result`, 1646-1723. -/
def Ctx.build (c : Ctx) (sym : Sym) (d : Date) (nextId : Nat) : Except CErr (ExecResult × Nat) := do
  let bl ← checkLimit c.buyLimit
  let sl ← checkLimit c.sellLimit
  let st ← c.getStops sym nextId
  return ({ symbol := sym, date := d,
            buyFill := c.buyFill.getD (.price .middle),
            sellFill := c.sellFill.getD (.price .middle),
            score := c.score, longScore := c.longScore, shortScore := c.shortScore,
            buyShares := c.buyShares, buyLimit := bl, buyTimeout := c.buyTimeout,
            sellShares := c.sellShares, sellLimit := sl, sellTimeout := c.sellTimeout,
            longStops := st.1, shortStops := st.2.1, cover := c.cover,
            exitPos := if c.buyShares.isSome || c.sellShares.isSome then c.exitPos else none },
          st.2.2)

/-- `to_result`, 1572-1723, with the stop id counter before and after. -/
def Ctx.toResult (c : Ctx) (nextId : Nat) : Except CErr (Option ExecResult × Nat) :=
  match c.date, c.symbol with
  | none, _ => .error .noDate
  | some _, none => .error .noSymbol
  | some d, some sym =>
    if c.noop then .ok (none, nextId)
    else
      match c.checkSettings with
      | .error e => .error e
      | .ok _ =>
        if falsy c.buyShares && falsy c.sellShares then .ok (none, nextId)
        else
          match c.build sym d nextId with
          | .error e => .error e
          | .ok (r, n) => .ok (some r, n)

/-! ## Rotation -/

/-- `_reset_rotation_orders`, strategy.py:309-328, for one context. -/
def Ctx.resetOrders (c : Ctx) : Ctx :=
  { c with
    buyShares := none
    buyLimit := none
    buyTimeout := none
    sellShares := none
    sellLimit := none
    sellTimeout := none
    cover := false
    exiting := false
    exitPos := none }

/-- `_clear_unused_rotation_signals`, strategy.py:331-369, for one context. -/
def Ctx.clearUnused (c : Ctx) : Ctx :=
  let c := if c.buyShares.isNone then { c with buyFill := none } else c
  let c := if c.sellShares.isNone then { c with sellFill := none } else c
  if c.buyShares.isSome ∨ c.sellShares.isSome then
    if c.exiting then { c with holdBars := none } else c
  else { c with holdBars := none, loss := {}, profit := {}, trailing := {} }

/-- What rotation decides for one symbol, strategy.py:441-444 and 597-600. -/
inductive RotAct
  | leave
  | exit (dir : PosType)
  | enter (dir : PosType)
  deriving DecidableEq, Repr

/-- The effect of a decision on the symbol's context. -/
def Ctx.rotAct (cfg : Config) (pf : Portfolio) (close : PyNum) (size : ℚ) (c : Ctx) :
    RotAct → Except CErr Ctx
  | .leave => .ok c
  | .exit .long => c.sellAll pf
  | .exit .short => c.coverAll pf
  | .enter dir => c.setTarget cfg pf close size dir

/-- A symbol's context from the end of its execution to `to_result` on a bar with
rotation and no sizer, strategy.py:969-987. -/
def Ctx.rotate (cfg : Config) (pf : Portfolio) (close : PyNum) (size : ℚ) (c : Ctx) (a : RotAct) :
    Except CErr Ctx :=
  match c.resetOrders.rotAct cfg pf close size a with
  | .error e => .error e
  | .ok c => .ok c.clearUnused

end PyBroker
