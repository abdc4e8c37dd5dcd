import Verif.Portfolio.Stops

/-!
# Model of the pending order registry, `PendingOrderScope`

Line numbers refer to `/repo/src/pybroker/scope.py`.  Dicts are lists in
insertion order; a key is looked up by its first match.
-/

namespace PyBroker

/-- `PendingOrder`, scope.py:2428-2470. -/
structure PendingOrder where
  id : Nat
  side : Side
  symbol : Sym
  created : Date
  execDate : Date
  shares : ℚ
  limit : Option ℚ
  fill : FillSpec
  execBar : Nat
  timeout : Option Int
  stops : List Stop
  exitPos : Option PosType
  deriving DecidableEq, Repr

/-- The arguments of `PendingOrderScope.add`, scope.py:2523-2543. -/
structure PendingReq where
  side : Side
  symbol : Sym
  created : Date
  execDate : Date
  shares : ℚ
  limit : Option ℚ
  fill : FillSpec
  execBar : Nat
  timeout : Option Int
  stops : List Stop
  exitPos : Option PosType
  deriving DecidableEq, Repr

/-- The order a request becomes, scope.py:2564-2577. -/
def PendingReq.order (r : PendingReq) (id : Nat) : PendingOrder :=
  { id := id, side := r.side, symbol := r.symbol, created := r.created, execDate := r.execDate,
    shares := r.shares, limit := r.limit, fill := r.fill, execBar := r.execBar,
    timeout := r.timeout, stops := r.stops, exitPos := r.exitPos }

/-- The attributes of `PendingOrderScope`, scope.py:2476-2499: `orders` is
`_orders`, `symOrders` is `_sym_orders`, `retry` is `_retry_bars`. -/
structure PendingScope where
  nextId : Nat := 0
  orders : List PendingOrder := []
  symOrders : List (Sym × List PendingOrder) := []
  retry : List (Nat × Nat) := []
  attempted : List Nat := []
  deriving DecidableEq, Repr

namespace PendingScope

/-- `mark_attempted`, scope.py:2501-2503. -/
def markAttempted (s : PendingScope) (id : Nat) : PendingScope :=
  { s with attempted := if id ∈ s.attempted then s.attempted else id :: s.attempted }

/-- `was_attempted`, scope.py:2505-2507. -/
def wasAttempted (s : PendingScope) (id : Nat) : Bool := decide (id ∈ s.attempted)

/-- `get`, scope.py:2519-2521. -/
def get (s : PendingScope) (id : Nat) : Option PendingOrder :=
  s.orders.find? (fun o => o.id = id)

/-- `contains`, scope.py:2509-2513. -/
def contains (s : PendingScope) (id : Nat) : Bool := s.orders.any (fun o => o.id = id)

/-- `has_orders`, scope.py:2515-2517. -/
def hasOrders (s : PendingScope) : Bool := !s.orders.isEmpty

/-- `_sym_orders[symbol][order.id] = order` on the defaultdict,
scope.py:2579. -/
def symAdd : List (Sym × List PendingOrder) → Sym → PendingOrder → List (Sym × List PendingOrder)
  | [], sym, o => [(sym, [o])]
  | (k, os) :: rest, sym, o =>
    if k = sym then (k, os ++ [o]) :: rest else (k, os) :: symAdd rest sym o

/-- `_sym_orders.get(symbol, {}).pop(order_id, None)`, scope.py:2602. -/
def symPop : List (Sym × List PendingOrder) → Sym → Nat → List (Sym × List PendingOrder)
  | [], _, _ => []
  | (k, os) :: rest, sym, id =>
    if k = sym then (k, os.filter (fun o => o.id ≠ id)) :: rest
    else (k, os) :: symPop rest sym id

/-- `_sym_orders.get(symbol)`. -/
def symGet : List (Sym × List PendingOrder) → Sym → Option (List PendingOrder)
  | [], _ => none
  | (k, os) :: rest, sym => if k = sym then some os else symGet rest sym

/-- `_retry_bars.get(order_id)`. -/
def retryGet : List (Nat × Nat) → Nat → Option Nat
  | [], _ => none
  | (k, n) :: rest, id => if k = id then some n else retryGet rest id

/-- `_retry_bars[order_id] = n`. -/
def retrySet : List (Nat × Nat) → Nat → Nat → List (Nat × Nat)
  | [], id, n => [(id, n)]
  | (k, m) :: rest, id, n => if k = id then (k, n) :: rest else (k, m) :: retrySet rest id n

/-- `_retry_bars.pop(order_id, None)`. -/
def retryPop (l : List (Nat × Nat)) (id : Nat) : List (Nat × Nat) := l.filter (fun x => x.1 ≠ id)

/-- `add`, scope.py:2523-2581: the new id and the new registry. -/
def add (s : PendingScope) (r : PendingReq) : Nat × PendingScope :=
  let id := s.nextId + 1
  let o := r.order id
  (id, { s with
    nextId := id, orders := s.orders ++ [o],
    symOrders := symAdd s.symOrders r.symbol o, retry := retrySet s.retry id 0 })

/-- `retry_bars`, scope.py:2583-2588. -/
def retryBars (s : PendingScope) (id : Nat) : Nat := (retryGet s.retry id).getD 0

/-- `advance_retry_bars`, scope.py:2590-2593. -/
def advanceRetry (s : PendingScope) (id : Nat) : PendingScope :=
  if s.contains id then { s with retry := retrySet s.retry id ((retryGet s.retry id).getD 0 + 1) }
  else s

/-- `remove`, scope.py:2595-2604: the result and the new registry. -/
def remove (s : PendingScope) (id : Nat) : Bool × PendingScope :=
  match s.get id with
  | none => (false, s)
  | some o =>
    (true, { s with
      orders := s.orders.filter (fun x => x.id ≠ id)
      retry := retryPop s.retry id
      attempted := s.attempted.filter (fun x => x ≠ id)
      symOrders := symPop s.symOrders o.symbol id })

/-- The loop of `remove_all`, scope.py:2610-2611. -/
def removeIds (s : PendingScope) : List Nat → PendingScope
  | [] => s
  | id :: ids => removeIds (s.remove id).2 ids

/-- `remove_all`, scope.py:2606-2615. -/
def removeAll (s : PendingScope) (sym : Option Sym) : PendingScope :=
  match sym with
  | none => s.removeIds (s.orders.map PendingOrder.id)
  | some sym =>
    match symGet s.symOrders sym with
    | none => s
    | some os => s.removeIds (os.map PendingOrder.id)

/-- `orders(symbol, order_id)`, scope.py:2617-2643. -/
def list (s : PendingScope) (sym : Option Sym) (id : Option Nat) : List PendingOrder :=
  match id, sym with
  | some id, some sym =>
    match s.get id with
    | some o => if o.symbol = sym then [o] else []
    | none => []
  | some id, none =>
    match s.get id with
    | some o => [o]
    | none => []
  | none, some sym => (symGet s.symOrders sym).getD []
  | none, none => s.orders

end PendingScope

/-! ## Histories of calls -/

/-- A call on the registry. -/
inductive POp
  | add (r : PendingReq)
  | remove (id : Nat)
  | removeAll (sym : Option Sym)
  | markAttempted (id : Nat)
  | advanceRetry (id : Nat)

/-- What a call returns. -/
inductive POut
  | id (n : Nat)
  | found (b : Bool)
  | unit
  deriving DecidableEq, Repr

/-- One call on the registry. -/
def PendingScope.call (s : PendingScope) : POp → POut × PendingScope
  | .add r => let x := s.add r; (.id x.1, x.2)
  | .remove id => let x := s.remove id; (.found x.1, x.2)
  | .removeAll sym => (.unit, s.removeAll sym)
  | .markAttempted id => (.unit, s.markAttempted id)
  | .advanceRetry id => (.unit, s.advanceRetry id)

/-- A history of calls from a registry: the outputs and the final registry. -/
def PendingScope.runOps (s : PendingScope) : List POp → List POut × PendingScope
  | [] => ([], s)
  | op :: ops =>
    let x := s.call op
    let y := x.2.runOps ops
    (x.1 :: y.1, y.2)

end PyBroker
