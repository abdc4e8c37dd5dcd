import Verif.Portfolio.UnitsStops
import Verif.Backtest.Model

/-!
# Another unit of money: pending orders and the bar loop (helper lemmas)
-/

namespace PyBroker

/-! ## The registry of pending orders -/

/-- A pending order in another unit. -/
def PendingOrder.units (k : ℚ) (o : PendingOrder) : PendingOrder :=
  { o with
    limit := money k o.limit
    fill := o.fill.units k
    stops := o.stops.map (Stop.units k) }

/-- The request of a pending order in another unit. -/
def PendingReq.units (k : ℚ) (o : PendingReq) : PendingReq :=
  { o with
    limit := money k o.limit
    fill := o.fill.units k
    stops := o.stops.map (Stop.units k) }

/-- The orders of the symbols in another unit. -/
def symUnits (k : ℚ) (x : Sym × List PendingOrder) : Sym × List PendingOrder :=
  (x.1, x.2.map (PendingOrder.units k))

/-- The registry in another unit. -/
def PendingScope.units (k : ℚ) (s : PendingScope) : PendingScope :=
  { s with
    orders := s.orders.map (PendingOrder.units k)
    symOrders := s.symOrders.map (symUnits k) }

namespace PendingScope

variable {k : ℚ}

theorem get_units (s : PendingScope) (id : Nat) :
    (s.units k).get id = (s.get id).map (PendingOrder.units k) := by
  simp only [get, PendingScope.units, List.find?_map]
  rfl

theorem contains_units (s : PendingScope) (id : Nat) : (s.units k).contains id = s.contains id := by
  simp only [contains, PendingScope.units, List.any_map]
  rfl

theorem symAdd_units (l : List (Sym × List PendingOrder)) (sym : Sym) (o : PendingOrder) :
    symAdd (l.map (symUnits k)) sym (o.units k) = (symAdd l sym o).map (symUnits k) := by
  induction l with
  | nil => rfl
  | cons x l ih =>
    obtain ⟨a, os⟩ := x
    simp only [List.map_cons, symUnits, symAdd] at ih ⊢
    by_cases h : a = sym <;> simp [h, ih, symUnits]

theorem symPop_units (l : List (Sym × List PendingOrder)) (sym : Sym) (id : Nat) :
    symPop (l.map (symUnits k)) sym id = (symPop l sym id).map (symUnits k) := by
  induction l with
  | nil => rfl
  | cons x l ih =>
    obtain ⟨a, os⟩ := x
    simp only [List.map_cons, symUnits, symPop] at ih ⊢
    by_cases h : a = sym
    · simp only [h, if_true, List.map_cons, List.filter_map]
      rfl
    · simp [h, ih, symUnits]

theorem symGet_units (l : List (Sym × List PendingOrder)) (sym : Sym) :
    symGet (l.map (symUnits k)) sym = (symGet l sym).map (List.map (PendingOrder.units k)) := by
  induction l with
  | nil => rfl
  | cons x l ih =>
    obtain ⟨a, os⟩ := x
    simp only [List.map_cons, symUnits, symGet] at ih ⊢
    by_cases h : a = sym <;> simp [h, ih]

theorem add_units (s : PendingScope) (r : PendingReq) :
    (s.units k).add (r.units k) = ((s.add r).1, (s.add r).2.units k) := by
  have h : (r.units k).order (s.nextId + 1) = (r.order (s.nextId + 1)).units k := rfl
  simp only [add, Prod.mk.injEq]
  refine ⟨rfl, ?_⟩
  rw [show (s.units k).nextId = s.nextId from rfl, h]
  simp only [PendingScope.units, List.map_append, List.map_cons, List.map_nil, ← symAdd_units]
  rfl

theorem markAttempted_units (s : PendingScope) (id : Nat) :
    (s.units k).markAttempted id = (s.markAttempted id).units k := rfl

theorem advanceRetry_units (s : PendingScope) (id : Nat) :
    (s.units k).advanceRetry id = (s.advanceRetry id).units k := by
  simp only [advanceRetry, contains_units]
  split <;> rfl

theorem remove_units (s : PendingScope) (id : Nat) :
    (s.units k).remove id = ((s.remove id).1, (s.remove id).2.units k) := by
  simp only [remove, get_units]
  cases s.get id with
  | none => rfl
  | some o =>
    simp only [Option.map_some, PendingScope.units, List.filter_map, Prod.mk.injEq, true_and]
    simp only [← symPop_units]
    rfl

theorem removeIds_units (s : PendingScope) (ids : List Nat) :
    (s.units k).removeIds ids = (s.removeIds ids).units k := by
  induction ids generalizing s with
  | nil => rfl
  | cons id ids ih => simp only [removeIds, remove_units, ih]

theorem removeAll_units (s : PendingScope) (sym : Option Sym) :
    (s.units k).removeAll sym = (s.removeAll sym).units k := by
  have hid : ∀ os : List PendingOrder,
      (os.map (PendingOrder.units k)).map PendingOrder.id = os.map PendingOrder.id := fun os => by
    rw [List.map_map]; rfl
  unfold removeAll
  cases sym with
  | none =>
    simp only
    rw [← removeIds_units]
    congr 1
    exact hid s.orders
  | some sym =>
    simp only
    rw [show (s.units k).symOrders = s.symOrders.map (symUnits k) from rfl, symGet_units]
    cases symGet s.symOrders sym with
    | none => rfl
    | some os => simp only [Option.map_some, hid, removeIds_units]

end PendingScope

/-! ## The loop -/

/-- The result of an execution in another unit: scores and shares stay. -/
def ExecResult.units (k : ℚ) (r : ExecResult) : ExecResult :=
  { r with
    buyFill := r.buyFill.units k
    sellFill := r.sellFill.units k
    buyLimit := money k r.buyLimit
    sellLimit := money k r.sellLimit
    longStops := r.longStops.map (Stop.units k)
    shortStops := r.shortStops.map (Stop.units k) }

/-- A scheduled result in another unit. -/
def schedUnits (k : ℚ) (x : Date × ExecResult) : Date × ExecResult := (x.1, x.2.units k)

/-- A slippage model in another unit. -/
def SlipModel.units (k : ℚ) : SlipModel → SlipModel
  | .fixed bps => .fixed bps
  | .noop => .noop
  | .general f => .general (SlipFn.units k f)

/-- A bar to close a position on in another unit. -/
def DropBar.units (k : ℚ) (b : DropBar) : DropBar :=
  { b with buyFill := k * b.buyFill, sellFill := k * b.sellFill }

/-- The boundary of a window in another unit. -/
def Boundary.units (k : ℚ) (b : Boundary) : Boundary :=
  { b with
    test := fun s => (b.test s).map (DropBar.units k)
    all := fun s => (b.all s).map (DropBar.units k)
    slip := b.slip.map (SlipFn.units k) }

/-- A window in another unit. -/
def Window.units (k : ℚ) (w : Window) : Window :=
  { w with boundary := w.boundary.map (Boundary.units k) }

/-- What the loop reads on a bar in another unit. -/
def BarEnv.units (k : ℚ) (e : BarEnv) : BarEnv :=
  { e with
    fetch := fun s f => money k (e.fetch s (f.units k⁻¹))
    stop := e.stop.units k
    quote := fun s => (e.quote s).units k
    slip := e.slip.map (SlipModel.units k) }

/-- An attempt in another unit. -/
def Attempt.units (k : ℚ) (a : Attempt) : Attempt :=
  { a with order := a.order.units k, filled := a.filled.map (Order.units k) }

/-- The state of the loop in another unit. -/
def Loop.units (k : ℚ) (s : Loop) : Loop where
  pf := s.pf.units k
  pend := s.pend.units k
  covers := s.covers.map (schedUnits k)
  buys := s.buys.map (schedUnits k)
  sells := s.sells.map (schedUnits k)
  attempts := s.attempts.map (Attempt.units k)

/-- A forced exit in another unit. -/
def ForcedExit.units (k : ℚ) (x : ForcedExit) : ForcedExit :=
  { x with buyFill := k * x.buyFill, sellFill := k * x.sellFill }

/-- A bar in another unit. -/
def BarIn.units (k : ℚ) (b : BarIn) : BarIn where
  env := b.env.units k
  user := b.user
  results := b.results.map (ExecResult.units k)
  exits := b.exits.map (ForcedExit.units k)

theorem foldB_map {α β γ δ : Type} (f : β → α → Except BErr β) (g : δ → γ → Except BErr δ)
    (u : β → δ) (v : α → γ) (h : ∀ b a, g (u b) (v a) = (f b a).map u) (b : β) (l : List α) :
    foldB g (u b) (l.map v) = (foldB f b l).map u := by
  induction l generalizing b with
  | nil => rfl
  | cons a l ih =>
    simp only [List.map_cons, foldB, h]
    cases f b a with
    | error e => rfl
    | ok b' => exact ih b'

theorem liftE_map {α β : Type} (u : α → β) (x : Except Err α) :
    liftE (x.map u) = (liftE x).map u := by cases x <;> rfl

theorem exceptB_map_map {α β γ : Type} (f : α → β) (g : β → γ) (x : Except BErr α) :
    (x.map f).map g = x.map (fun a => g (f a)) := by cases x <;> rfl

theorem schedOn_units (k : ℚ) (s : Sched) (d : Date) :
    Sched.on (s.map (schedUnits k)) d = (s.on d).map (ExecResult.units k) := by
  simp only [Sched.on, List.filter_map, List.map_map]
  rfl

theorem schedDrop_units (k : ℚ) (s : Sched) (d : Date) :
    Sched.drop (s.map (schedUnits k)) d = (s.drop d).map (schedUnits k) := by
  simp only [Sched.drop, List.filter_map]
  rfl

theorem placeOrderOf_units (k : ℚ) (limit : Option Nat) (key : ExecResult → WithBot ℚ)
    (hkey : ∀ r : ExecResult, key (r.units k) = key r) (l : List ExecResult) :
    placeOrderOf limit key (l.map (ExecResult.units k)) =
      (placeOrderOf limit key l).map (ExecResult.units k) := by
  cases limit with
  | none => rfl
  | some n =>
    simp only [placeOrderOf, sortDesc]
    exact insertionSort_map_key _ _ _ (fun a b => by rw [hkey, hkey]) l

theorem sortPending_units (k : ℚ) (l : List PendingOrder) :
    sortPending (l.map (PendingOrder.units k)) = (sortPending l).map (PendingOrder.units k) := by
  unfold sortPending
  exact insertionSort_map_key _ _ _ (fun _ _ => Iff.rfl) l

theorem request_units (k : ℚ) (r : ExecResult) (c e : Date) (n : Nat) :
    (r.units k).request c e n = (r.request c e n).map (PendingReq.units k) := by
  have h1 : (r.units k).buyShares = r.buyShares := rfl
  have h2 : (r.units k).sellShares = r.sellShares := rfl
  simp only [ExecResult.request, h1, h2]
  cases r.buyShares <;> cases r.sellShares <;> rfl

/-- A registry and a schedule in another unit. -/
def bookedUnits (k : ℚ) (x : PendingScope × Sched) : PendingScope × Sched :=
  (x.1.units k, x.2.map (schedUnits k))

theorem scheduleOrder_units (k : ℚ) (w : Window) (e : Sym → Nat) (c : Date) (delay : Nat)
    (p : PendingScope) (s : Sched) (r : ExecResult) :
    scheduleOrder (w.units k) e c delay (p.units k) (s.map (schedUnits k)) (r.units k) =
      (scheduleOrder w e c delay p s r).map (bookedUnits k) := by
  have h1 : (r.units k).symbol = r.symbol := rfl
  have h2 : (w.units k).dates = w.dates := rfl
  have h3 : (w.units k).master = w.master := rfl
  simp only [scheduleOrder, h1, h2, h3, request_units]
  cases execDate (w.dates r.symbol) (w.master.map (fun m => m r.symbol)) (e r.symbol) delay with
  | none => rfl
  | some x =>
    obtain ⟨d, b⟩ := x
    simp only
    cases r.request c d (e r.symbol + delay) with
    | error err => rfl
    | ok q =>
      simp only [Except.map, PendingScope.add_units, bookedUnits, Except.ok.injEq, Prod.mk.injEq,
        true_and]
      cases b
      · rfl
      · simp only [if_true, List.map_append]
        rfl

section
variable {k : ℚ} (hk : 0 < k)
include hk

theorem slipOrder_units (cfg : Config) (slip : Option SlipModel) (p : PendingOrder) (n fill : ℚ) :
    slipOrder (cfg.units k) (slip.map (SlipModel.units k)) (p.units k) n (k * fill) =
      (slipOrder cfg slip p n fill).map (fun x => (x.1, k * x.2)) := by
  have h1 : (p.units k).side = p.side := rfl
  have h2 : (p.units k).symbol = p.symbol := rfl
  cases slip with
  | none => rfl
  | some m =>
    cases m with
    | fixed bps =>
      simp only [slipOrder, Option.map_some, SlipModel.units, h1, Except.map, Except.ok.injEq,
        Prod.mk.injEq, true_and, Slippage.fixedAdjust]
      split_ifs
      · rfl
      · ring
    | noop => rfl
    | general f =>
      simp only [slipOrder, Option.map_some, SlipModel.units, h1, h2, SlipFn.units, k_inv hk]
      by_cases h : (f p.side p.symbol n fill).1 < 0 ∨ (f p.side p.symbol n fill).1 > n
      · rw [if_pos h, if_pos h]; rfl
      · rw [if_neg h, if_neg h]; rfl

omit hk in
theorem exitClamp_units (pf : Portfolio) (p : PendingOrder) (n : ℚ) :
    exitClamp (pf.units k) (p.units k) n = exitClamp pf p n := by
  have h1 : (p.units k).exitPos = p.exitPos := rfl
  have h2 : (p.units k).symbol = p.symbol := rfl
  simp only [exitClamp, h1, h2, book_units, lookupPos_units, Option.map_map]
  rfl

omit hk in
theorem pendingReq_units (p : PendingOrder) (d : Date) (n f m : ℚ) :
    (p.units k).req d n (k * f) (k * m) = (p.req d n f m).units k := by
  cases hl : p.limit <;> simp [PendingOrder.req, PendingOrder.units, OrderReq.units, money, hl]

theorem attemptOrder_units (cfg : Config) (env : BarEnv) (pf : Portfolio) (p : PendingOrder) :
    attemptOrder (cfg.units k) (env.units k) (pf.units k) (p.units k) =
      (attemptOrder cfg env pf p).map (placedUnits k) := by
  have h1 : (env.units k).fetch (p.units k).symbol (p.units k).fill =
      money k (env.fetch p.symbol p.fill) := by
    simp only [BarEnv.units, PendingOrder.units, FillSpec.units_inv hk]
  have h2 : getShares (cfg.units k) (p.units k).shares = getShares cfg p.shares := rfl
  have h3 : (p.units k).side = p.side := rfl
  have h4 : (env.units k).slip = env.slip.map (SlipModel.units k) := rfl
  have h5 : (env.units k).date = env.date := rfl
  simp only [attemptOrder, h1, h2, h3, h4, h5, exitClamp_units]
  cases env.fetch p.symbol p.fill with
  | none => rfl
  | some fill =>
    simp only [money, Option.map_some]
    cases exitClamp pf p (getShares cfg p.shares) with
    | none => rfl
    | some n =>
      simp only [slipOrder_units hk]
      cases slipOrder cfg env.slip p n fill with
      | error e => rfl
      | ok x =>
        obtain ⟨n', price⟩ := x
        simp only [Except.map, pendingReq_units]
        cases p.side with
        | buy => simp only [buy_units hk, liftE_map]; rfl
        | sell => simp only [sell_units hk, liftE_map]; rfl

theorem attemptStep_units (cfg : Config) (env : BarEnv) (s : Loop) (p : PendingOrder) :
    attemptStep (cfg.units k) (env.units k) (s.units k) (p.units k) =
      (attemptStep cfg env s p).map (Loop.units k) := by
  have h1 : (p.units k).id = p.id := rfl
  have h2 : (p.units k).persistent = p.persistent := by
    simp [PendingOrder.persistent, PendingOrder.units, money]
  simp only [attemptStep, h1, h2]
  rw [show (s.units k).pf = s.pf.units k from rfl, attemptOrder_units hk,
    show (s.units k).pend = s.pend.units k from rfl, PendingScope.markAttempted_units,
    PendingScope.remove_units]
  cases attemptOrder cfg env s.pf p with
  | error e => rfl
  | ok x =>
    obtain ⟨o, pf'⟩ := x
    simp only [Except.map, placedUnits, Except.ok.injEq]
    cases o with
    | none =>
      cases p.persistent <;> simp [Loop.units, Attempt.units, BarEnv.units]
    | some o =>
      simp [Loop.units, Attempt.units, BarEnv.units]

theorem placeBuy_units (cfg : Config) (env : BarEnv) (s : Loop) (r : ExecResult) :
    placeBuy (cfg.units k) (env.units k) (s.units k) (r.units k) =
      (placeBuy cfg env s r).map (Loop.units k) := by
  have h1 : (r.units k).buyShares = r.buyShares := rfl
  have h2 : (r.units k).pendingId = r.pendingId := rfl
  simp only [placeBuy, h1, h2]
  cases r.buyShares with
  | none => rfl
  | some n =>
    simp only [Option.isNone_some, Bool.false_eq_true, if_false]
    cases r.pendingId with
    | none => rfl
    | some id =>
      simp only
      rw [show (s.units k).pend = s.pend.units k from rfl, PendingScope.get_units]
      cases s.pend.get id with
      | none => rfl
      | some p => exact attemptStep_units hk cfg env s p

theorem placeSell_units (cfg : Config) (env : BarEnv) (s : Loop) (r : ExecResult) :
    placeSell (cfg.units k) (env.units k) (s.units k) (r.units k) =
      (placeSell cfg env s r).map (Loop.units k) := by
  have h1 : (r.units k).sellShares = r.sellShares := rfl
  have h2 : (r.units k).pendingId = r.pendingId := rfl
  simp only [placeSell, h1, h2]
  cases r.sellShares with
  | none => rfl
  | some n =>
    simp only [Option.isNone_some, Bool.false_eq_true, if_false]
    cases r.pendingId with
    | none => rfl
    | some id =>
      simp only
      rw [show (s.units k).pend = s.pend.units k from rfl, PendingScope.get_units]
      cases s.pend.get id with
      | none => rfl
      | some p => exact attemptStep_units hk cfg env s p

theorem placeCovers_units (cfg : Config) (env : BarEnv) (s : Loop) :
    placeCovers (cfg.units k) (env.units k) (s.units k) =
      (placeCovers cfg env s).map (Loop.units k) := by
  have h1 : (env.units k).date = env.date := rfl
  have h2 : (cfg.units k).maxLong = cfg.maxLong := rfl
  simp only [placeCovers, h1, h2]
  rw [show (s.units k).covers = s.covers.map (schedUnits k) from rfl, schedOn_units,
    placeOrderOf_units k cfg.maxLong ExecResult.buyKey (fun _ => rfl),
    foldB_map _ _ _ _ (fun b a => placeBuy_units hk cfg env b a), exceptB_map_map, exceptB_map_map]
  congr 1
  funext t
  simp only [Loop.units, schedDrop_units]

theorem placeSells_units (cfg : Config) (env : BarEnv) (s : Loop) :
    placeSells (cfg.units k) (env.units k) (s.units k) =
      (placeSells cfg env s).map (Loop.units k) := by
  have h1 : (env.units k).date = env.date := rfl
  have h2 : (cfg.units k).maxShort = cfg.maxShort := rfl
  simp only [placeSells, h1, h2]
  rw [show (s.units k).sells = s.sells.map (schedUnits k) from rfl, schedOn_units,
    placeOrderOf_units k cfg.maxShort ExecResult.sellKey (fun _ => rfl),
    foldB_map _ _ _ _ (fun b a => placeSell_units hk cfg env b a), exceptB_map_map, exceptB_map_map]
  congr 1
  funext t
  simp only [Loop.units, schedDrop_units]

theorem placeBuys_units (cfg : Config) (env : BarEnv) (s : Loop) :
    placeBuys (cfg.units k) (env.units k) (s.units k) =
      (placeBuys cfg env s).map (Loop.units k) := by
  have h1 : (env.units k).date = env.date := rfl
  have h2 : (cfg.units k).maxLong = cfg.maxLong := rfl
  simp only [placeBuys, h1, h2]
  rw [show (s.units k).buys = s.buys.map (schedUnits k) from rfl, schedOn_units,
    placeOrderOf_units k cfg.maxLong ExecResult.buyKey (fun _ => rfl),
    foldB_map _ _ _ _ (fun b a => placeBuy_units hk cfg env b a), exceptB_map_map, exceptB_map_map]
  congr 1
  funext t
  simp only [Loop.units, schedDrop_units]

theorem processOne_units (cfg : Config) (env : BarEnv) (s : Loop) (p : PendingOrder) :
    processOne (cfg.units k) (env.units k) (s.units k) (p.units k) =
      (processOne cfg env s p).map (Loop.units k) := by
  have h1 : (p.units k).execDate = p.execDate := rfl
  have h2 : (env.units k).date = env.date := rfl
  have h3 : (s.units k).pend.wasAttempted (p.units k).id = s.pend.wasAttempted p.id := rfl
  have h4 : (env.units k).hasBarOn (p.units k).symbol = env.hasBarOn p.symbol := rfl
  have h5 : (p.units k).timeout = p.timeout := rfl
  have h6 : (s.units k).pend.advanceRetry (p.units k).id = (s.pend.advanceRetry p.id).units k :=
    PendingScope.advanceRetry_units _ _
  have h7 : ∀ q : PendingScope, (q.units k).retryBars (p.units k).id = q.retryBars p.id := fun _ => rfl
  have h8 : ∀ q : PendingScope, (q.units k).remove (p.units k).id =
      ((q.remove p.id).1, (q.remove p.id).2.units k) := fun q => PendingScope.remove_units q _
  have h9 : ∀ q : PendingScope, { s.units k with pend := q.units k } =
      Loop.units k { s with pend := q } := fun _ => rfl
  simp only [processOne, h1, h2, h3, h4, h5, h6, h7, h8, h9, attemptStep_units hk]
  by_cases c1 : p.execDate > env.date
  · simp only [c1, if_true]; rfl
  · simp only [c1, if_false]
    by_cases c2 : p.execDate = env.date ∧ (!s.pend.wasAttempted p.id) = false
    · rw [if_pos c2, if_pos c2]; rfl
    · rw [if_neg c2, if_neg c2]
      by_cases c3 : env.hasBarOn p.symbol = false
      · simp only [c3, if_true]; rfl
      · simp only [c3]
        by_cases c4 : (!s.pend.wasAttempted p.id) = true
        · simp only [c4, if_true]; rfl
        · rw [if_neg c4, if_neg c4]
          cases p.timeout with
          | none => rfl
          | some t =>
            simp only
            by_cases c5 : 0 ≤ t ∧ ((s.pend.advanceRetry p.id).retryBars p.id : Int) > t
            · rw [if_pos c5, if_pos c5]; rfl
            · rw [if_neg c5, if_neg c5]; rfl

theorem processPersistent_units (cfg : Config) (env : BarEnv) (s : Loop) :
    processPersistent (cfg.units k) (env.units k) (s.units k) =
      (processPersistent cfg env s).map (Loop.units k) := by
  unfold processPersistent
  rw [show (s.units k).pend.orders = s.pend.orders.map (PendingOrder.units k) from rfl,
    sortPending_units, foldB_map _ _ _ _ (fun b a => processOne_units hk cfg env b a)]

theorem userStep_units (s : Loop) (o : UserOp) : userStep (s.units k) o = (userStep s o).units k := by
  cases o with
  | cancelPending id =>
    simp only [userStep, Loop.units, PendingScope.remove_units]
  | cancelAllPending sym =>
    simp only [userStep, Loop.units, PendingScope.removeAll_units]
  | cancelStop id =>
    simp only [userStep, Loop.units, removeStop_units hk, firedUnits]
  | cancelStopsSym sym t =>
    simp only [userStep, Loop.units, removeStopsSym_units hk]
  | cancelStopsEntry id t =>
    simp only [userStep, Loop.units, removeStopsEntry_units hk]

theorem userSteps_units (l : List UserOp) (s : Loop) :
    l.foldl userStep (s.units k) = (l.foldl userStep s).units k := by
  induction l generalizing s with
  | nil => rfl
  | cons o l ih => simp only [List.foldl_cons, userStep_units hk, ih]

omit hk in
theorem schedCover_units (w : Window) (env : BarEnv) (s : Loop) (r : ExecResult) :
    schedCover (w.units k) (env.units k) (s.units k) (r.units k) =
      (schedCover w env s r).map (Loop.units k) := by
  unfold schedCover
  have := scheduleOrder_units k w env.endIndex env.date w.buyDelay s.pend s.covers r
  rw [show scheduleOrder (w.units k) (env.units k).endIndex (env.units k).date (w.units k).buyDelay
    (s.units k).pend (s.units k).covers (r.units k) = _ from this, exceptB_map_map, exceptB_map_map]
  rfl

omit hk in
theorem schedBuy_units (w : Window) (env : BarEnv) (s : Loop) (r : ExecResult) :
    schedBuy (w.units k) (env.units k) (s.units k) (r.units k) =
      (schedBuy w env s r).map (Loop.units k) := by
  unfold schedBuy
  have := scheduleOrder_units k w env.endIndex env.date w.buyDelay s.pend s.buys r
  rw [show scheduleOrder (w.units k) (env.units k).endIndex (env.units k).date (w.units k).buyDelay
    (s.units k).pend (s.units k).buys (r.units k) = _ from this, exceptB_map_map, exceptB_map_map]
  rfl

omit hk in
theorem schedSell_units (w : Window) (env : BarEnv) (s : Loop) (r : ExecResult) :
    schedSell (w.units k) (env.units k) (s.units k) (r.units k) =
      (schedSell w env s r).map (Loop.units k) := by
  unfold schedSell
  have := scheduleOrder_units k w env.endIndex env.date w.sellDelay s.pend s.sells r
  rw [show scheduleOrder (w.units k) (env.units k).endIndex (env.units k).date (w.units k).sellDelay
    (s.units k).pend (s.units k).sells (r.units k) = _ from this, exceptB_map_map, exceptB_map_map]
  rfl

theorem exitStep_units (cfg : Config) (env : BarEnv) (s : Loop) (x : ForcedExit) :
    exitStep (cfg.units k) (env.units k) (s.units k) (x.units k) =
      (exitStep cfg env s x).map (Loop.units k) := by
  unfold exitStep
  have := exitPosition_units hk cfg s.pf env.date x.symbol x.buyFill x.sellFill env.stop.slip
  rw [show exitPosition (cfg.units k) (s.units k).pf (env.units k).date (x.units k).symbol
    (x.units k).buyFill (x.units k).sellFill (env.units k).stop.slip = _ from this, liftE_map,
    exceptB_map_map, exceptB_map_map]
  rfl

theorem barOrders_units (cfg : Config) (env : BarEnv) (s : Loop) :
    barOrders (cfg.units k) (env.units k) (s.units k) =
      (barOrders cfg env s).map (Loop.units k) := by
  have h0 := checkStops_units hk cfg s.pf env.date env.stop
  simp only [barOrders, bind, Except.bind]
  rw [show checkStops (cfg.units k) (s.units k).pf (env.units k).date (env.units k).stop = _ from h0,
    liftE_map]
  cases liftE (checkStops cfg s.pf env.date env.stop) with
  | error e => rfl
  | ok pf =>
    simp only [Except.map]
    rw [show { s.units k with pf := pf.units k } = Loop.units k { s with pf := pf } from rfl,
      placeCovers_units hk]
    cases placeCovers cfg env { s with pf := pf } with
    | error e => rfl
    | ok s1 =>
      simp only [Except.map, placeSells_units hk]
      cases placeSells cfg env s1 with
      | error e => rfl
      | ok s2 =>
        simp only [Except.map, placeBuys_units hk]
        cases placeBuys cfg env s2 with
        | error e => rfl
        | ok s3 => exact processPersistent_units hk cfg env s3

omit hk in
theorem queues_units (rs : List ExecResult) :
    coverResults (rs.map (ExecResult.units k)) = (coverResults rs).map (ExecResult.units k) ∧
    buyResults (rs.map (ExecResult.units k)) = (buyResults rs).map (ExecResult.units k) ∧
    sellResults (rs.map (ExecResult.units k)) = (sellResults rs).map (ExecResult.units k) := by
  refine ⟨?_, ?_, ?_⟩ <;> simp only [coverResults, buyResults, sellResults, List.filter_map] <;> rfl

theorem barSignals_units (cfg : Config) (w : Window) (b : BarIn) (s : Loop) :
    barSignals (cfg.units k) (w.units k) (b.units k) (s.units k) =
      (barSignals cfg w b s).map (Loop.units k) := by
  have h0 := captureBar_units hk cfg s.pf b.env.date b.env.quote
  have h1 : captureBar (cfg.units k) (s.units k).pf (b.units k).env.date (b.units k).env.quote =
      (captureBar cfg s.pf b.env.date b.env.quote).units k := h0
  have h2 : ∀ pf : Portfolio, { s.units k with pf := pf.units k } =
      Loop.units k { s with pf := pf } := fun _ => rfl
  simp only [barSignals, bind, Except.bind, h1, h2]
  rw [show (b.units k).user = b.user from rfl, userSteps_units hk,
    show (b.units k).results = b.results.map (ExecResult.units k) from rfl,
    show (b.units k).env = b.env.units k from rfl, (queues_units b.results).1,
    (queues_units b.results).2.1, (queues_units b.results).2.2,
    show (b.units k).exits = b.exits.map (ForcedExit.units k) from rfl,
    foldB_map _ _ _ _ (fun t r => schedCover_units w b.env t r)]
  cases foldB (schedCover w b.env) _ (coverResults b.results) with
  | error e => rfl
  | ok s3 =>
    simp only [Except.map]
    rw [foldB_map _ _ _ _ (fun t r => schedBuy_units w b.env t r)]
    cases foldB (schedBuy w b.env) s3 (buyResults b.results) with
    | error e => rfl
    | ok s4 =>
      simp only [Except.map]
      rw [foldB_map _ _ _ _ (fun t r => schedSell_units w b.env t r)]
      cases foldB (schedSell w b.env) s4 (sellResults b.results) with
      | error e => rfl
      | ok s5 =>
        simp only [Except.map]
        rw [foldB_map _ _ _ _ (fun t r => exitStep_units hk cfg b.env t r)]
        cases foldB (exitStep cfg b.env) s5 b.exits with
        | error e => rfl
        | ok s6 =>
          simp only [Except.map, Except.ok.injEq]
          simp only [Loop.units, BarEnv.units, incrBars_units hk]

/-! ## Window boundaries -/

omit hk in
theorem firstBar_units (l : List DropBar) :
    firstBar (l.map (DropBar.units k)) = (firstBar l).map (DropBar.units k) := by
  induction l with
  | nil => rfl
  | cons b l ih =>
    simp only [List.map_cons, firstBar, ih]
    cases firstBar l with
    | none => rfl
    | some c =>
      simp only [Option.map_some]
      rw [show (b.units k).date = b.date from rfl, show (c.units k).date = c.date from rfl]
      split <;> rfl

omit hk in
theorem lastBar_units (l : List DropBar) :
    lastBar (l.map (DropBar.units k)) = (lastBar l).map (DropBar.units k) := by
  induction l with
  | nil => rfl
  | cons b l ih =>
    simp only [List.map_cons, lastBar, ih]
    cases lastBar l with
    | none => rfl
    | some c =>
      simp only [Option.map_some]
      rw [show (b.units k).date = b.date from rfl, show (c.units k).date = c.date from rfl]
      split <;> rfl

omit hk in
theorem testExitBar_units (b : Boundary) (sym : Sym) :
    testExitBar (b.units k) sym = (testExitBar b sym).map (DropBar.units k) := by
  unfold testExitBar
  rw [show (b.units k).testDates = b.testDates from rfl]
  split
  · rfl
  · exact firstBar_units _

omit hk in
theorem lateExitBar_units (b : Boundary) (sym : Sym) :
    lateExitBar (b.units k) sym = (lateExitBar b sym).map (DropBar.units k) := by
  unfold lateExitBar
  rw [show (b.units k).testDates = b.testDates from rfl]
  cases minDate b.testDates with
  | none => exact lastBar_units _
  | some d =>
    simp only
    rw [show (b.units k).all sym = (b.all sym).map (DropBar.units k) from rfl, List.filter_map,
      lastBar_units]
    rfl

omit hk in
theorem cancelStale_units (p : PendingScope) (sel : List Sym) :
    cancelStale (p.units k) sel = (cancelStale p sel).units k := by
  unfold cancelStale
  rw [show (p.units k).orders.map PendingOrder.symbol = p.orders.map PendingOrder.symbol by
    simp only [PendingScope.units, List.map_map]; rfl]
  generalize (p.orders.map PendingOrder.symbol).filter (fun x => !sel.contains x) = l
  induction l generalizing p with
  | nil => rfl
  | cons x l ih => simp only [List.foldl_cons, PendingScope.removeAll_units, ih]

omit hk in
theorem droppedSyms_units (pf : Portfolio) (sel : List Sym) :
    droppedSyms (pf.units k) sel = droppedSyms pf sel := by
  unfold droppedSyms
  rw [show (pf.units k).longs.map Position.symbol = pf.longs.map Position.symbol by
      simp only [Portfolio.units, List.map_map]; rfl,
    show (pf.units k).shorts.map Position.symbol = pf.shorts.map Position.symbol by
      simp only [Portfolio.units, List.map_map]; rfl]

/-- An exit at a boundary in another unit. -/
def dropUnits (k : ℚ) (x : Sym × DropBar) : Sym × DropBar := (x.1, x.2.units k)

theorem dropStep_units (cfg : Config) (slip : Option SlipFn) (s : Loop) (x : Sym × DropBar) :
    dropStep (cfg.units k) (slip.map (SlipFn.units k)) (s.units k) (dropUnits k x) =
      (dropStep cfg slip s x).map (Loop.units k) := by
  unfold dropStep
  have := exitPosition_units hk cfg s.pf x.2.date x.1 x.2.buyFill x.2.sellFill slip
  rw [show exitPosition (cfg.units k) (s.units k).pf (dropUnits k x).2.date (dropUnits k x).1
    (dropUnits k x).2.buyFill (dropUnits k x).2.sellFill (slip.map (SlipFn.units k)) = _ from this,
    liftE_map, exceptB_map_map, exceptB_map_map]
  rfl

omit hk in
theorem dropExits_units (f g : Sym → Option DropBar) (h : ∀ s, g s = (f s).map (DropBar.units k))
    (l : List Sym) : dropExits g l = (dropExits f l).map (dropUnits k) := by
  unfold dropExits
  rw [List.map_filterMap]
  congr 1
  funext s
  rw [h]
  cases f s <;> rfl

theorem liquidateDropped_units (cfg : Config) (s : Loop) (b : Boundary) :
    liquidateDropped (cfg.units k) (s.units k) (b.units k) =
      (liquidateDropped cfg s b).map (Loop.units k) := by
  have h0 : { s.units k with pend := cancelStale (s.units k).pend (b.units k).selected } =
      Loop.units k { s with pend := cancelStale s.pend b.selected } := by
    simp only [Loop.units, Loop.mk.injEq, true_and, and_true]
    exact cancelStale_units _ _
  have h1 : droppedSyms (s.units k).pf (b.units k).selected = droppedSyms s.pf b.selected :=
    droppedSyms_units _ _
  have h2 : ∀ l, dropExits (testExitBar (b.units k)) l =
      (dropExits (testExitBar b) l).map (dropUnits k) :=
    dropExits_units _ _ (testExitBar_units b)
  have h3 : ∀ l, dropExits (lateExitBar (b.units k)) l =
      (dropExits (lateExitBar b) l).map (dropUnits k) :=
    dropExits_units _ _ (lateExitBar_units b)
  have h4 : ∀ l : List (Sym × DropBar), (l.map (dropUnits k)).map Prod.fst = l.map Prod.fst := fun l => by
    rw [List.map_map]; rfl
  simp only [liquidateDropped, bind, Except.bind, h0, h1, h2, h3, h4]
  rw [show (b.units k).slip = b.slip.map (SlipFn.units k) from rfl,
    show (b.units k).iter = b.iter from rfl,
    foldB_map _ _ _ _ (fun t x => dropStep_units hk cfg b.slip t x)]
  cases foldB (dropStep cfg b.slip) _ (dropExits (testExitBar b) (b.iter (droppedSyms s.pf b.selected))) with
  | error e => rfl
  | ok s1 =>
    simp only [Except.map]
    rw [foldB_map _ _ _ _ (fun t x => dropStep_units hk cfg b.slip t x)]
    rfl

theorem startWindow_units (cfg : Config) (s : Loop) (w : Window) :
    startWindow (cfg.units k) (s.units k) (w.units k) =
      (startWindow cfg s w).map (Loop.units k) := by
  unfold startWindow
  rw [show (w.units k).boundary = w.boundary.map (Boundary.units k) from rfl]
  cases w.boundary with
  | none => rfl
  | some b => exact liquidateDropped_units hk cfg s b

end

end PyBroker
