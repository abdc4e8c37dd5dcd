import Verif.Portfolio.Rename
import Verif.Backtest.Units

/-!
# Other names: pending orders and the bar loop (helper lemmas)
-/

namespace PyBroker

open PyBroker.Spec

/-! ## The registry of pending orders -/

/-- A pending order with its symbol renamed. -/
def PendingOrder.rename (ρ : Sym → Sym) (o : PendingOrder) : PendingOrder :=
  { o with symbol := ρ o.symbol, stops := o.stops.map (Stop.rename ρ) }

/-- The request of a pending order with its symbol renamed. -/
def PendingReq.rename (ρ : Sym → Sym) (o : PendingReq) : PendingReq :=
  { o with symbol := ρ o.symbol, stops := o.stops.map (Stop.rename ρ) }

/-- The orders of the symbols with the symbols renamed. -/
def symRename (ρ : Sym → Sym) (x : Sym × List PendingOrder) : Sym × List PendingOrder :=
  (ρ x.1, x.2.map (PendingOrder.rename ρ))

/-- The registry with its symbols renamed. -/
def PendingScope.rename (ρ : Sym → Sym) (s : PendingScope) : PendingScope :=
  { s with
    orders := s.orders.map (PendingOrder.rename ρ)
    symOrders := s.symOrders.map (symRename ρ) }

namespace PendingScope

variable {ρ : Sym → Sym}

theorem get_rename (s : PendingScope) (id : Nat) :
    (s.rename ρ).get id = (s.get id).map (PendingOrder.rename ρ) := by
  simp only [get, PendingScope.rename, List.find?_map]
  rfl

theorem contains_rename (s : PendingScope) (id : Nat) : (s.rename ρ).contains id = s.contains id := by
  simp only [contains, PendingScope.rename, List.any_map]
  rfl

theorem markAttempted_rename (s : PendingScope) (id : Nat) :
    (s.rename ρ).markAttempted id = (s.markAttempted id).rename ρ := rfl

theorem advanceRetry_rename (s : PendingScope) (id : Nat) :
    (s.rename ρ).advanceRetry id = (s.advanceRetry id).rename ρ := by
  simp only [advanceRetry, contains_rename]
  split <;> rfl

variable (hρ : Function.Injective ρ)
include hρ

theorem symAdd_rename (l : List (Sym × List PendingOrder)) (sym : Sym) (o : PendingOrder) :
    symAdd (l.map (symRename ρ)) (ρ sym) (o.rename ρ) = (symAdd l sym o).map (symRename ρ) := by
  induction l with
  | nil => rfl
  | cons x l ih =>
    obtain ⟨a, os⟩ := x
    simp only [List.map_cons, symRename, symAdd, hρ.eq_iff] at ih ⊢
    by_cases h : a = sym <;> simp [h, ih, symRename]

theorem symPop_rename (l : List (Sym × List PendingOrder)) (sym : Sym) (id : Nat) :
    symPop (l.map (symRename ρ)) (ρ sym) id = (symPop l sym id).map (symRename ρ) := by
  induction l with
  | nil => rfl
  | cons x l ih =>
    obtain ⟨a, os⟩ := x
    simp only [List.map_cons, symRename, symPop, hρ.eq_iff] at ih ⊢
    by_cases h : a = sym
    · simp only [h, if_true, List.map_cons, List.filter_map]
      rfl
    · simp [h, ih, symRename]

theorem symGet_rename (l : List (Sym × List PendingOrder)) (sym : Sym) :
    symGet (l.map (symRename ρ)) (ρ sym) = (symGet l sym).map (List.map (PendingOrder.rename ρ)) := by
  induction l with
  | nil => rfl
  | cons x l ih =>
    obtain ⟨a, os⟩ := x
    simp only [List.map_cons, symRename, symGet, hρ.eq_iff] at ih ⊢
    by_cases h : a = sym <;> simp [h, ih]

theorem add_rename (s : PendingScope) (r : PendingReq) :
    (s.rename ρ).add (r.rename ρ) = ((s.add r).1, (s.add r).2.rename ρ) := by
  have h : (r.rename ρ).order (s.nextId + 1) = (r.order (s.nextId + 1)).rename ρ := rfl
  simp only [add, Prod.mk.injEq]
  refine ⟨rfl, ?_⟩
  rw [show (s.rename ρ).nextId = s.nextId from rfl, h]
  simp only [PendingScope.rename, List.map_append, List.map_cons, List.map_nil, ← symAdd_rename hρ]
  rfl

theorem remove_rename (s : PendingScope) (id : Nat) :
    (s.rename ρ).remove id = ((s.remove id).1, (s.remove id).2.rename ρ) := by
  simp only [remove, get_rename]
  cases s.get id with
  | none => rfl
  | some o =>
    simp only [Option.map_some, PendingScope.rename, List.filter_map, Prod.mk.injEq, true_and]
    simp only [← symPop_rename hρ]
    rfl

theorem removeIds_rename (s : PendingScope) (ids : List Nat) :
    (s.rename ρ).removeIds ids = (s.removeIds ids).rename ρ := by
  induction ids generalizing s with
  | nil => rfl
  | cons id ids ih => simp only [removeIds, remove_rename hρ, ih]

theorem removeAll_rename (s : PendingScope) (sym : Option Sym) :
    (s.rename ρ).removeAll (sym.map ρ) = (s.removeAll sym).rename ρ := by
  have hid : ∀ os : List PendingOrder,
      (os.map (PendingOrder.rename ρ)).map PendingOrder.id = os.map PendingOrder.id := fun os => by
    rw [List.map_map]; rfl
  unfold removeAll
  cases sym with
  | none =>
    simp only [Option.map_none]
    rw [← removeIds_rename hρ]
    congr 1
    exact hid s.orders
  | some sym =>
    simp only [Option.map_some]
    rw [show (s.rename ρ).symOrders = s.symOrders.map (symRename ρ) from rfl, symGet_rename hρ]
    cases symGet s.symOrders sym with
    | none => rfl
    | some os => simp only [Option.map_some, hid, removeIds_rename hρ]

end PendingScope

/-! ## The loop -/

/-- The result of an execution with its symbol renamed. -/
def ExecResult.rename (ρ : Sym → Sym) (r : ExecResult) : ExecResult :=
  { r with
    symbol := ρ r.symbol
    longStops := r.longStops.map (Stop.rename ρ)
    shortStops := r.shortStops.map (Stop.rename ρ) }

/-- A scheduled result with its symbol renamed. -/
def schedRename (ρ : Sym → Sym) (x : Date × ExecResult) : Date × ExecResult := (x.1, x.2.rename ρ)

/-- A call of user code with its symbol renamed. -/
def UserOp.rename (ρ : Sym → Sym) : UserOp → UserOp
  | .cancelAllPending sym => .cancelAllPending (sym.map ρ)
  | .cancelStopsSym sym t => .cancelStopsSym (ρ sym) t
  | o => o

/-- A forced exit with its symbol renamed. -/
def ForcedExit.rename (ρ : Sym → Sym) (x : ForcedExit) : ForcedExit := { x with symbol := ρ x.symbol }

/-- An attempt with its symbols renamed. -/
def Attempt.rename (ρ : Sym → Sym) (a : Attempt) : Attempt where
  order := a.order.rename ρ
  date := a.date
  filled := a.filled.map (Order.rename ρ)

/-- The state of the loop with its symbols renamed. -/
def Loop.rename (ρ : Sym → Sym) (s : Loop) : Loop where
  pf := s.pf.rename ρ
  pend := s.pend.rename ρ
  covers := s.covers.map (schedRename ρ)
  buys := s.buys.map (schedRename ρ)
  sells := s.sells.map (schedRename ρ)
  attempts := s.attempts.map (Attempt.rename ρ)

/-- The same slippage model for the renamed symbol. -/
def Spec.RenamedSlipModel (ρ : Sym → Sym) : Option SlipModel → Option SlipModel → Prop
  | some (.general f), some (.general g) => RenamedSlip ρ (some f) (some g)
  | some (.general _), _ => False
  | m, m' => m' = m

/-- The same bar for the renamed symbols. -/
structure Spec.RenamedBarEnv (ρ : Sym → Sym) (e e' : BarEnv) : Prop where
  date : e'.date = e.date
  endIndex : ∀ s, e'.endIndex (ρ s) = e.endIndex s
  hasBarOn : ∀ s, e'.hasBarOn (ρ s) = e.hasBarOn s
  fetch : ∀ s f, e'.fetch (ρ s) f = e.fetch s f
  stop : RenamedStopEnv ρ e.stop e'.stop
  quote : ∀ s, e'.quote (ρ s) = e.quote s
  slip : RenamedSlipModel ρ e.slip e'.slip

/-- The same bar and the same actions for the renamed symbols. -/
structure Spec.RenamedBarIn (ρ : Sym → Sym) (b b' : BarIn) : Prop where
  env : RenamedBarEnv ρ b.env b'.env
  user : b'.user = b.user.map (UserOp.rename ρ)
  results : b'.results = b.results.map (ExecResult.rename ρ)
  exits : b'.exits = b.exits.map (ForcedExit.rename ρ)

/-- The same boundary for the renamed symbols. -/
structure Spec.RenamedBoundary (ρ : Sym → Sym) (b b' : Boundary) : Prop where
  selected : b'.selected = b.selected.map ρ
  test : ∀ s, b'.test (ρ s) = b.test s
  testDates : b'.testDates = b.testDates
  all : ∀ s, b'.all (ρ s) = b.all s
  slip : RenamedSlip ρ b.slip b'.slip
  iter : ∀ l : List Sym, b'.iter (l.map ρ) = (b.iter l).map ρ

/-- The same window for the renamed symbols. -/
structure Spec.RenamedWindow (ρ : Sym → Sym) (w w' : Window) : Prop where
  dates : ∀ s, w'.dates (ρ s) = w.dates s
  master : ∀ s, w'.master.map (fun m => m (ρ s)) = w.master.map (fun m => m s)
  buyDelay : w'.buyDelay = w.buyDelay
  sellDelay : w'.sellDelay = w.sellDelay
  boundary : Option.Rel (RenamedBoundary ρ) w.boundary w'.boundary

section
variable {ρ : Sym → Sym}

theorem placeOrderOf_rename (limit : Option Nat) (key : ExecResult → WithBot ℚ)
    (hkey : ∀ r : ExecResult, key (r.rename ρ) = key r) (l : List ExecResult) :
    placeOrderOf limit key (l.map (ExecResult.rename ρ)) =
      (placeOrderOf limit key l).map (ExecResult.rename ρ) := by
  cases limit with
  | none => rfl
  | some n =>
    simp only [placeOrderOf, sortDesc]
    exact insertionSort_map_key _ _ _ (fun a b => by rw [hkey, hkey]) l

theorem sortPending_rename (l : List PendingOrder) :
    sortPending (l.map (PendingOrder.rename ρ)) = (sortPending l).map (PendingOrder.rename ρ) := by
  unfold sortPending
  exact insertionSort_map_key _ _ _ (fun _ _ => Iff.rfl) l

theorem request_rename (r : ExecResult) (c e : Date) (n : Nat) :
    (r.rename ρ).request c e n = (r.request c e n).map (PendingReq.rename ρ) := by
  have h1 : (r.rename ρ).buyShares = r.buyShares := rfl
  have h2 : (r.rename ρ).sellShares = r.sellShares := rfl
  simp only [ExecResult.request, h1, h2]
  cases r.buyShares <;> cases r.sellShares <;> rfl

/-- A registry and a schedule with their symbols renamed. -/
def bookedRename (ρ : Sym → Sym) (x : PendingScope × Sched) : PendingScope × Sched :=
  (x.1.rename ρ, x.2.map (schedRename ρ))

theorem schedOn_rename (s : Sched) (d : Date) :
    Sched.on (s.map (schedRename ρ)) d = (s.on d).map (ExecResult.rename ρ) := by
  have h : (fun x : Date × ExecResult => decide (x.1 = d)) ∘ schedRename ρ =
      fun x => decide (x.1 = d) := rfl
  simp only [Sched.on, List.filter_map, List.map_map, h]
  rfl

theorem schedDrop_rename (s : Sched) (d : Date) :
    Sched.drop (s.map (schedRename ρ)) d = (s.drop d).map (schedRename ρ) := by
  have h : (fun x : Date × ExecResult => decide (x.1 ≠ d)) ∘ schedRename ρ =
      fun x => decide (x.1 ≠ d) := rfl
  simp only [Sched.drop, List.filter_map, h]

theorem queues_rename (rs : List ExecResult) :
    coverResults (rs.map (ExecResult.rename ρ)) = (coverResults rs).map (ExecResult.rename ρ) ∧
    buyResults (rs.map (ExecResult.rename ρ)) = (buyResults rs).map (ExecResult.rename ρ) ∧
    sellResults (rs.map (ExecResult.rename ρ)) = (sellResults rs).map (ExecResult.rename ρ) := by
  refine ⟨?_, ?_, ?_⟩ <;> simp only [coverResults, buyResults, sellResults, List.filter_map] <;> rfl

section
variable {cfg cfg' : Config} (hc : RenamedConfig ρ cfg cfg')
include hc

theorem getShares_rename (n : ℚ) : getShares cfg' n = getShares cfg n := by
  simp only [getShares, hc.fractional]

theorem slipOrder_rename {slip slip' : Option SlipModel} (h : RenamedSlipModel ρ slip slip')
    (p : PendingOrder) (n fill : ℚ) :
    slipOrder cfg' slip' (p.rename ρ) n fill = slipOrder cfg slip p n fill := by
  cases slip with
  | none => rw [show slip' = none from h]; rfl
  | some m =>
    cases m with
    | general f =>
      cases slip' with
      | none => exact absurd h id
      | some m' =>
        cases m' with
        | general g =>
          simp only [slipOrder, getShares_rename hc]
          rw [show (p.rename ρ).symbol = ρ p.symbol from rfl, show (p.rename ρ).side = p.side from rfl,
            show ∀ side sym n q, g side (ρ sym) n q = f side sym n q from h]
        | _ => exact absurd h id
    | fixed b => rw [show slip' = some _ from h]; rfl
    | noop => rw [show slip' = some _ from h]; rfl

end

/-! ## Lookups by symbol -/

section
variable (hρ : Function.Injective ρ)
include hρ

theorem scheduleOrder_rename {w w' : Window} (hw : RenamedWindow ρ w w') {e e' : Sym → Nat}
    (he : ∀ s, e' (ρ s) = e s) (c : Date) (delay : Nat)
    (p : PendingScope) (s : Sched) (r : ExecResult) :
    scheduleOrder w' e' c delay (p.rename ρ) (s.map (schedRename ρ)) (r.rename ρ) =
      (scheduleOrder w e c delay p s r).map (bookedRename ρ) := by
  have h1 : (r.rename ρ).symbol = ρ r.symbol := rfl
  simp only [scheduleOrder, h1, hw.dates, hw.master, he]
  cases execDate (w.dates r.symbol) (w.master.map (fun m => m r.symbol)) (e r.symbol) delay with
  | none => rfl
  | some x =>
    obtain ⟨d, b⟩ := x
    simp only [request_rename]
    cases r.request c d (e r.symbol + delay) with
    | error err => rfl
    | ok q =>
      simp only [Except.map, PendingScope.add_rename hρ, bookedRename, Except.ok.injEq, Prod.mk.injEq,
        true_and]
      cases b
      · rfl
      · simp only [if_true, List.map_append]
        rfl

theorem exitClamp_rename (pf : Portfolio) (p : PendingOrder) (n : ℚ) :
    exitClamp (pf.rename ρ) (p.rename ρ) n = exitClamp pf p n := by
  have h1 : (p.rename ρ).exitPos = p.exitPos := rfl
  have h2 : (p.rename ρ).symbol = ρ p.symbol := rfl
  simp only [exitClamp, h1, h2, book_rename, lookupPos_rename hρ, Option.map_map]
  rfl

theorem userStep_rename (s : Loop) (o : UserOp) :
    userStep (s.rename ρ) (o.rename ρ) = (userStep s o).rename ρ := by
  cases o with
  | cancelPending id =>
    simp only [userStep, UserOp.rename, Loop.rename, PendingScope.remove_rename hρ]
  | cancelAllPending sym =>
    simp only [userStep, UserOp.rename, Loop.rename, PendingScope.removeAll_rename hρ]
  | cancelStop id =>
    simp only [userStep, UserOp.rename, Loop.rename, removeStop_rename hρ, pairRename]
  | cancelStopsSym sym t =>
    simp only [userStep, UserOp.rename, Loop.rename, removeStopsSym_rename hρ]
  | cancelStopsEntry id t =>
    simp only [userStep, UserOp.rename, Loop.rename, removeStopsEntry_rename hρ]

theorem userSteps_rename (l : List UserOp) (s : Loop) :
    (l.map (UserOp.rename ρ)).foldl userStep (s.rename ρ) = (l.foldl userStep s).rename ρ := by
  induction l generalizing s with
  | nil => rfl
  | cons o l ih => simp only [List.map_cons, List.foldl_cons, userStep_rename hρ, ih]

theorem schedCover_rename {w w' : Window} (hw : RenamedWindow ρ w w') {env env' : BarEnv}
    (he : RenamedBarEnv ρ env env') (s : Loop) (r : ExecResult) :
    schedCover w' env' (s.rename ρ) (r.rename ρ) = (schedCover w env s r).map (Loop.rename ρ) := by
  unfold schedCover
  have := scheduleOrder_rename hρ hw he.endIndex env.date w.buyDelay s.pend s.covers r
  rw [he.date, hw.buyDelay, show scheduleOrder w' env'.endIndex env.date w.buyDelay
    (s.rename ρ).pend (s.rename ρ).covers (r.rename ρ) = _ from this, exceptB_map_map, exceptB_map_map]
  rfl

theorem schedBuy_rename {w w' : Window} (hw : RenamedWindow ρ w w') {env env' : BarEnv}
    (he : RenamedBarEnv ρ env env') (s : Loop) (r : ExecResult) :
    schedBuy w' env' (s.rename ρ) (r.rename ρ) = (schedBuy w env s r).map (Loop.rename ρ) := by
  unfold schedBuy
  have := scheduleOrder_rename hρ hw he.endIndex env.date w.buyDelay s.pend s.buys r
  rw [he.date, hw.buyDelay, show scheduleOrder w' env'.endIndex env.date w.buyDelay
    (s.rename ρ).pend (s.rename ρ).buys (r.rename ρ) = _ from this, exceptB_map_map, exceptB_map_map]
  rfl

theorem schedSell_rename {w w' : Window} (hw : RenamedWindow ρ w w') {env env' : BarEnv}
    (he : RenamedBarEnv ρ env env') (s : Loop) (r : ExecResult) :
    schedSell w' env' (s.rename ρ) (r.rename ρ) = (schedSell w env s r).map (Loop.rename ρ) := by
  unfold schedSell
  have := scheduleOrder_rename hρ hw he.endIndex env.date w.sellDelay s.pend s.sells r
  rw [he.date, hw.sellDelay, show scheduleOrder w' env'.endIndex env.date w.sellDelay
    (s.rename ρ).pend (s.rename ρ).sells (r.rename ρ) = _ from this, exceptB_map_map, exceptB_map_map]
  rfl

variable {cfg cfg' : Config} (hc : RenamedConfig ρ cfg cfg')
include hc

section
variable {env env' : BarEnv} (he : RenamedBarEnv ρ env env')
include he

theorem attemptOrder_rename (pf : Portfolio) (p : PendingOrder) :
    attemptOrder cfg' env' (pf.rename ρ) (p.rename ρ) =
      (attemptOrder cfg env pf p).map (placedRename ρ) := by
  have h1 : env'.fetch (p.rename ρ).symbol (p.rename ρ).fill = env.fetch p.symbol p.fill := he.fetch _ _
  have h2 : (p.rename ρ).shares = p.shares := rfl
  have h3 : (p.rename ρ).side = p.side := rfl
  have h5 : ∀ (n f m : ℚ), (p.rename ρ).req env'.date n f m =
      (p.req env.date n f m).rename ρ := fun _ _ _ => by rw [he.date]; rfl
  simp only [attemptOrder, h1, h2, h3, h5, exitClamp_rename hρ, slipOrder_rename hc he.slip,
    getShares_rename hc]
  cases env.fetch p.symbol p.fill with
  | none => rfl
  | some fill =>
    simp only
    cases exitClamp pf p (getShares cfg p.shares) with
    | none => rfl
    | some n =>
      simp only
      cases slipOrder cfg env.slip p n fill with
      | error e => rfl
      | ok x =>
        obtain ⟨n', price⟩ := x
        simp only
        cases p.side with
        | buy => simp only [buy_rename hρ hc, liftE_map]
        | sell => simp only [sell_rename hρ hc, liftE_map]

theorem attemptStep_rename (s : Loop) (p : PendingOrder) :
    attemptStep cfg' env' (s.rename ρ) (p.rename ρ) =
      (attemptStep cfg env s p).map (Loop.rename ρ) := by
  have h1 : (p.rename ρ).id = p.id := rfl
  have h2 : (p.rename ρ).persistent = p.persistent := rfl
  simp only [attemptStep, h1, h2, he.date]
  rw [show (s.rename ρ).pf = s.pf.rename ρ from rfl, attemptOrder_rename hρ hc he,
    show (s.rename ρ).pend = s.pend.rename ρ from rfl, PendingScope.markAttempted_rename,
    PendingScope.remove_rename hρ]
  cases attemptOrder cfg env s.pf p with
  | error e => rfl
  | ok x =>
    obtain ⟨o, pf'⟩ := x
    simp only [Except.map, placedRename, Except.ok.injEq]
    cases o with
    | none =>
      cases p.persistent <;> simp [Loop.rename, Attempt.rename]
    | some o =>
      simp [Loop.rename, Attempt.rename]

theorem placeBuy_rename (s : Loop) (r : ExecResult) :
    placeBuy cfg' env' (s.rename ρ) (r.rename ρ) = (placeBuy cfg env s r).map (Loop.rename ρ) := by
  have h1 : (r.rename ρ).buyShares = r.buyShares := rfl
  have h2 : (r.rename ρ).pendingId = r.pendingId := rfl
  simp only [placeBuy, h1, h2]
  cases r.buyShares with
  | none => rfl
  | some n =>
    simp only [Option.isNone_some, Bool.false_eq_true, if_false]
    cases r.pendingId with
    | none => rfl
    | some id =>
      simp only
      rw [show (s.rename ρ).pend = s.pend.rename ρ from rfl, PendingScope.get_rename]
      cases s.pend.get id with
      | none => rfl
      | some p => exact attemptStep_rename hρ hc he s p

theorem placeSell_rename (s : Loop) (r : ExecResult) :
    placeSell cfg' env' (s.rename ρ) (r.rename ρ) = (placeSell cfg env s r).map (Loop.rename ρ) := by
  have h1 : (r.rename ρ).sellShares = r.sellShares := rfl
  have h2 : (r.rename ρ).pendingId = r.pendingId := rfl
  simp only [placeSell, h1, h2]
  cases r.sellShares with
  | none => rfl
  | some n =>
    simp only [Option.isNone_some, Bool.false_eq_true, if_false]
    cases r.pendingId with
    | none => rfl
    | some id =>
      simp only
      rw [show (s.rename ρ).pend = s.pend.rename ρ from rfl, PendingScope.get_rename]
      cases s.pend.get id with
      | none => rfl
      | some p => exact attemptStep_rename hρ hc he s p

theorem placeCovers_rename (s : Loop) :
    placeCovers cfg' env' (s.rename ρ) = (placeCovers cfg env s).map (Loop.rename ρ) := by
  simp only [placeCovers, he.date, hc.maxLong]
  rw [show (s.rename ρ).covers = s.covers.map (schedRename ρ) from rfl, schedOn_rename,
    placeOrderOf_rename cfg.maxLong ExecResult.buyKey (fun _ => rfl),
    foldB_map _ _ _ _ (fun b a => placeBuy_rename hρ hc he b a), exceptB_map_map, exceptB_map_map]
  congr 1
  funext t
  simp only [Loop.rename, schedDrop_rename]

theorem placeSells_rename (s : Loop) :
    placeSells cfg' env' (s.rename ρ) = (placeSells cfg env s).map (Loop.rename ρ) := by
  simp only [placeSells, he.date, hc.maxShort]
  rw [show (s.rename ρ).sells = s.sells.map (schedRename ρ) from rfl, schedOn_rename,
    placeOrderOf_rename cfg.maxShort ExecResult.sellKey (fun _ => rfl),
    foldB_map _ _ _ _ (fun b a => placeSell_rename hρ hc he b a), exceptB_map_map, exceptB_map_map]
  congr 1
  funext t
  simp only [Loop.rename, schedDrop_rename]

theorem placeBuys_rename (s : Loop) :
    placeBuys cfg' env' (s.rename ρ) = (placeBuys cfg env s).map (Loop.rename ρ) := by
  simp only [placeBuys, he.date, hc.maxLong]
  rw [show (s.rename ρ).buys = s.buys.map (schedRename ρ) from rfl, schedOn_rename,
    placeOrderOf_rename cfg.maxLong ExecResult.buyKey (fun _ => rfl),
    foldB_map _ _ _ _ (fun b a => placeBuy_rename hρ hc he b a), exceptB_map_map, exceptB_map_map]
  congr 1
  funext t
  simp only [Loop.rename, schedDrop_rename]

theorem processOne_rename (s : Loop) (p : PendingOrder) :
    processOne cfg' env' (s.rename ρ) (p.rename ρ) = (processOne cfg env s p).map (Loop.rename ρ) := by
  have h1 : (p.rename ρ).execDate = p.execDate := rfl
  have h3 : (s.rename ρ).pend.wasAttempted (p.rename ρ).id = s.pend.wasAttempted p.id := rfl
  have h4 : env'.hasBarOn (p.rename ρ).symbol = env.hasBarOn p.symbol := he.hasBarOn _
  have h5 : (p.rename ρ).timeout = p.timeout := rfl
  have h6 : (s.rename ρ).pend.advanceRetry (p.rename ρ).id = (s.pend.advanceRetry p.id).rename ρ :=
    PendingScope.advanceRetry_rename _ _
  have h7 : ∀ q : PendingScope, (q.rename ρ).retryBars (p.rename ρ).id = q.retryBars p.id := fun _ => rfl
  have h8 : ∀ q : PendingScope, (q.rename ρ).remove (p.rename ρ).id =
      ((q.remove p.id).1, (q.remove p.id).2.rename ρ) := fun q => PendingScope.remove_rename hρ q _
  have h9 : ∀ q : PendingScope, { s.rename ρ with pend := q.rename ρ } =
      Loop.rename ρ { s with pend := q } := fun _ => rfl
  simp only [processOne, h1, he.date, h3, h4, h5, h6, h7, h8, h9, attemptStep_rename hρ hc he, gt_iff_lt]
  by_cases c1 : env.date < p.execDate
  · simp only [c1, if_true]; rfl
  · simp only [c1, if_false]
    by_cases c2 : p.execDate = env.date ∧ (!s.pend.wasAttempted p.id) = false
    · rw [if_pos c2, if_pos c2]; rfl
    · rw [if_neg c2, if_neg c2]
      by_cases c3 : env.hasBarOn p.symbol = false
      · simp only [c3, if_true]; rfl
      · simp only [c3]
        by_cases c4 : (!s.pend.wasAttempted p.id) = true
        · simp only [c4, if_true]; rfl
        · rw [if_neg c4, if_neg c4]
          cases p.timeout with
          | none => rfl
          | some t =>
            simp only
            by_cases c5 : 0 ≤ t ∧ t < ((s.pend.advanceRetry p.id).retryBars p.id : Int)
            · rw [if_pos c5, if_pos c5]; rfl
            · rw [if_neg c5, if_neg c5]; rfl

theorem processPersistent_rename (s : Loop) :
    processPersistent cfg' env' (s.rename ρ) = (processPersistent cfg env s).map (Loop.rename ρ) := by
  unfold processPersistent
  rw [show (s.rename ρ).pend.orders = s.pend.orders.map (PendingOrder.rename ρ) from rfl,
    sortPending_rename, foldB_map _ _ _ _ (fun b a => processOne_rename hρ hc he b a)]

theorem exitStep_rename (s : Loop) (x : ForcedExit) :
    exitStep cfg' env' (s.rename ρ) (x.rename ρ) = (exitStep cfg env s x).map (Loop.rename ρ) := by
  unfold exitStep
  have := exitPosition_rename hρ hc he.stop.slip s.pf env.date x.symbol x.buyFill x.sellFill
  rw [he.date, show exitPosition cfg' (s.rename ρ).pf env.date (x.rename ρ).symbol
    (x.rename ρ).buyFill (x.rename ρ).sellFill env'.stop.slip = _ from this, liftE_map,
    exceptB_map_map, exceptB_map_map]
  rfl

theorem barOrders_rename (s : Loop) :
    barOrders cfg' env' (s.rename ρ) = (barOrders cfg env s).map (Loop.rename ρ) := by
  have h0 := checkStops_rename hρ hc he.stop s.pf env.date
  simp only [barOrders, bind, Except.bind, he.date]
  rw [show checkStops cfg' (s.rename ρ).pf env.date env'.stop = _ from h0, liftE_map]
  cases liftE (checkStops cfg s.pf env.date env.stop) with
  | error e => rfl
  | ok pf =>
    simp only [Except.map]
    rw [show { s.rename ρ with pf := pf.rename ρ } = Loop.rename ρ { s with pf := pf } from rfl,
      placeCovers_rename hρ hc he]
    cases placeCovers cfg env { s with pf := pf } with
    | error e => rfl
    | ok s1 =>
      simp only [Except.map, placeSells_rename hρ hc he]
      cases placeSells cfg env s1 with
      | error e => rfl
      | ok s2 =>
        simp only [Except.map, placeBuys_rename hρ hc he]
        cases placeBuys cfg env s2 with
        | error e => rfl
        | ok s3 => exact processPersistent_rename hρ hc he s3

end

/-! ## Window boundaries -/

omit hc in
theorem contains_map_rename (l : List Sym) (x : Sym) : (l.map ρ).contains (ρ x) = l.contains x := by
  rw [Bool.eq_iff_iff]
  simp only [List.contains_iff_mem, List.mem_map_of_injective hρ]

omit hc in
theorem cancelStale_rename (p : PendingScope) (sel : List Sym) :
    cancelStale (p.rename ρ) (sel.map ρ) = (cancelStale p sel).rename ρ := by
  unfold cancelStale
  rw [show (p.rename ρ).orders.map PendingOrder.symbol = (p.orders.map PendingOrder.symbol).map ρ by
    simp only [PendingScope.rename, List.map_map]; rfl, List.filter_map]
  rw [show ((fun x => !(sel.map ρ).contains x) ∘ ρ) = fun x => !sel.contains x by
    funext x; simp only [Function.comp, contains_map_rename hρ]]
  generalize (p.orders.map PendingOrder.symbol).filter (fun x => !sel.contains x) = l
  induction l generalizing p with
  | nil => rfl
  | cons x l ih =>
    simp only [List.map_cons, List.foldl_cons]
    rw [← ih, ← PendingScope.removeAll_rename hρ]
    rfl

omit hc in
theorem droppedSyms_rename (pf : Portfolio) (sel : List Sym) :
    droppedSyms (pf.rename ρ) (sel.map ρ) = (droppedSyms pf sel).map ρ := by
  unfold droppedSyms
  rw [show (pf.rename ρ).longs.map Position.symbol = (pf.longs.map Position.symbol).map ρ by
      simp only [Portfolio.rename, List.map_map]; rfl,
    show (pf.rename ρ).shorts.map Position.symbol = (pf.shorts.map Position.symbol).map ρ by
      simp only [Portfolio.rename, List.map_map]; rfl, ← List.map_append,
    List.dedup_map_of_injective hρ, List.filter_map]
  congr 2
  funext x
  simp only [Function.comp, contains_map_rename hρ]

/-- An exit at a boundary with its symbol renamed. -/
def dropRename (ρ : Sym → Sym) (x : Sym × DropBar) : Sym × DropBar := (ρ x.1, x.2)

theorem dropStep_rename {slip slip' : Option SlipFn} (h : RenamedSlip ρ slip slip') (s : Loop)
    (x : Sym × DropBar) :
    dropStep cfg' slip' (s.rename ρ) (dropRename ρ x) = (dropStep cfg slip s x).map (Loop.rename ρ) := by
  unfold dropStep
  have := exitPosition_rename hρ hc h s.pf x.2.date x.1 x.2.buyFill x.2.sellFill
  rw [show exitPosition cfg' (s.rename ρ).pf (dropRename ρ x).2.date (dropRename ρ x).1
    (dropRename ρ x).2.buyFill (dropRename ρ x).2.sellFill slip' = _ from this,
    liftE_map, exceptB_map_map, exceptB_map_map]
  rfl

omit hρ hc in
theorem dropExits_rename (f g : Sym → Option DropBar) (h : ∀ s, g (ρ s) = f s)
    (l : List Sym) : dropExits g (l.map ρ) = (dropExits f l).map (dropRename ρ) := by
  unfold dropExits
  rw [List.map_filterMap, List.filterMap_map]
  congr 1
  funext s
  simp only [Function.comp, h]
  cases f s <;> rfl

theorem liquidateDropped_rename (s : Loop) {b b' : Boundary} (hb : RenamedBoundary ρ b b') :
    liquidateDropped cfg' (s.rename ρ) b' = (liquidateDropped cfg s b).map (Loop.rename ρ) := by
  have h0 : { s.rename ρ with pend := cancelStale (s.rename ρ).pend b'.selected } =
      Loop.rename ρ { s with pend := cancelStale s.pend b.selected } := by
    simp only [Loop.rename, Loop.mk.injEq, true_and, and_true, hb.selected]
    exact cancelStale_rename hρ _ _
  have h1 : droppedSyms (s.rename ρ).pf b'.selected = (droppedSyms s.pf b.selected).map ρ := by
    rw [hb.selected]; exact droppedSyms_rename hρ _ _
  have h2 : ∀ l, dropExits (testExitBar b') (l.map ρ) =
      (dropExits (testExitBar b) l).map (dropRename ρ) :=
    dropExits_rename _ _ (fun x => by simp only [testExitBar, hb.test, hb.testDates])
  have h3 : ∀ l, dropExits (lateExitBar b') (l.map ρ) =
      (dropExits (lateExitBar b) l).map (dropRename ρ) :=
    dropExits_rename _ _ (fun x => by simp only [lateExitBar, hb.all, hb.testDates])
  have h4 : ∀ l : List (Sym × DropBar), (l.map (dropRename ρ)).map Prod.fst = (l.map Prod.fst).map ρ :=
    fun l => by rw [List.map_map, List.map_map]; rfl
  have h5 : ∀ l : List Sym, ((fun x => !(l.map ρ).contains x) ∘ ρ) = fun x => !l.contains x := fun l => by
    funext x; simp only [Function.comp, contains_map_rename hρ]
  simp only [liquidateDropped, bind, Except.bind, h0, h1, hb.iter, h2, h3, h4, List.filter_map, h5]
  rw [foldB_map _ _ _ _ (fun t x => dropStep_rename hρ hc hb.slip t x)]
  cases foldB (dropStep cfg b.slip) _ (dropExits (testExitBar b) (b.iter (droppedSyms s.pf b.selected))) with
  | error e => rfl
  | ok s1 =>
    simp only [Except.map]
    rw [foldB_map _ _ _ _ (fun t x => dropStep_rename hρ hc hb.slip t x)]
    rfl

theorem startWindow_rename (s : Loop) {w w' : Window} (hw : RenamedWindow ρ w w') :
    startWindow cfg' (s.rename ρ) w' = (startWindow cfg s w).map (Loop.rename ρ) := by
  unfold startWindow
  have h := hw.boundary
  cases h1 : w.boundary with
  | none =>
    rw [h1] at h
    cases h2 : w'.boundary with
    | none => rfl
    | some b' => rw [h2] at h; cases h
  | some b =>
    rw [h1] at h
    cases h2 : w'.boundary with
    | none => rw [h2] at h; cases h
    | some b' =>
      rw [h2] at h
      cases h with
      | some hb => exact liquidateDropped_rename hρ hc s hb

end

/-! ## A bar -/

section
variable (hi : Function.Injective ρ) {cfg cfg' : Config} (hc : RenamedConfig ρ cfg cfg')
include hi hc

theorem barSignals_rename {w w' : Window} (hw : RenamedWindow ρ w w') {b b' : BarIn}
    (hb : RenamedBarIn ρ b b') (s : Loop) :
    barSignals cfg' w' b' (s.rename ρ) = (barSignals cfg w b s).map (Loop.rename ρ) := by
  have h1 : captureBar cfg' (s.rename ρ).pf b'.env.date b'.env.quote =
      (captureBar cfg s.pf b.env.date b.env.quote).rename ρ := by
    rw [hb.env.date]; exact captureBar_rename hi hc hb.env.quote s.pf b.env.date
  have h2 : ∀ pf : Portfolio, { s.rename ρ with pf := pf.rename ρ } =
      Loop.rename ρ { s with pf := pf } := fun _ => rfl
  simp only [barSignals, bind, Except.bind, h1, h2]
  rw [hb.user, userSteps_rename hi, hb.results, (queues_rename b.results).1,
    (queues_rename b.results).2.1, (queues_rename b.results).2.2, hb.exits,
    foldB_map _ _ _ _ (fun t r => schedCover_rename hi hw hb.env t r)]
  cases foldB (schedCover w b.env) _ (coverResults b.results) with
  | error e => rfl
  | ok s3 =>
    simp only [Except.map]
    rw [foldB_map _ _ _ _ (fun t r => schedBuy_rename hi hw hb.env t r)]
    cases foldB (schedBuy w b.env) s3 (buyResults b.results) with
    | error e => rfl
    | ok s4 =>
      simp only [Except.map]
      rw [foldB_map _ _ _ _ (fun t r => schedSell_rename hi hw hb.env t r)]
      cases foldB (schedSell w b.env) s4 (sellResults b.results) with
      | error e => rfl
      | ok s5 =>
        simp only [Except.map]
        rw [foldB_map _ _ _ _ (fun t r => exitStep_rename hi hc hb.env t r)]
        cases foldB (exitStep cfg b.env) s5 b.exits with
        | error e => rfl
        | ok s6 =>
          simp only [Except.map, Except.ok.injEq]
          simp only [Loop.rename, incrBars_rename _ _ _ hb.env.hasBarOn]

theorem barStep_rename {w w' : Window} (hw : RenamedWindow ρ w w') {b b' : BarIn}
    (hb : RenamedBarIn ρ b b') (s : Loop) :
    barStep cfg' w' (s.rename ρ) b' = (barStep cfg w s b).map (Loop.rename ρ) := by
  simp only [barStep, bind, Except.bind, barOrders_rename hi hc hb.env]
  cases barOrders cfg b.env s with
  | error e => rfl
  | ok s1 => exact barSignals_rename hi hc hw hb s1

end

end

end PyBroker
