import Verif.Portfolio.Redate
import Verif.Backtest.Units

/-!
# Another calendar: pending orders and the bar loop (helper lemmas)
-/

namespace PyBroker

/-! ## The registry of pending orders -/

/-- A pending order with its dates renamed. -/
def PendingOrder.redate (τ : Date → Date) (o : PendingOrder) : PendingOrder :=
  { o with created := τ o.created, execDate := τ o.execDate }

/-- The request of a pending order with its dates renamed. -/
def PendingReq.redate (τ : Date → Date) (o : PendingReq) : PendingReq :=
  { o with created := τ o.created, execDate := τ o.execDate }

/-- The orders of the symbols with their dates renamed. -/
def symRedate (τ : Date → Date) (x : Sym × List PendingOrder) : Sym × List PendingOrder :=
  (x.1, x.2.map (PendingOrder.redate τ))

/-- The registry with its dates renamed. -/
def PendingScope.redate (τ : Date → Date) (s : PendingScope) : PendingScope :=
  { s with
    orders := s.orders.map (PendingOrder.redate τ)
    symOrders := s.symOrders.map (symRedate τ) }

namespace PendingScope

variable {τ : Date → Date}

theorem get_redate (s : PendingScope) (id : Nat) :
    (s.redate τ).get id = (s.get id).map (PendingOrder.redate τ) := by
  simp only [get, PendingScope.redate, List.find?_map]
  rfl

theorem contains_redate (s : PendingScope) (id : Nat) : (s.redate τ).contains id = s.contains id := by
  simp only [contains, PendingScope.redate, List.any_map]
  rfl

theorem symAdd_redate (l : List (Sym × List PendingOrder)) (sym : Sym) (o : PendingOrder) :
    symAdd (l.map (symRedate τ)) sym (o.redate τ) = (symAdd l sym o).map (symRedate τ) := by
  induction l with
  | nil => rfl
  | cons x l ih =>
    obtain ⟨a, os⟩ := x
    simp only [List.map_cons, symRedate, symAdd] at ih ⊢
    by_cases h : a = sym <;> simp [h, ih, symRedate]

theorem symPop_redate (l : List (Sym × List PendingOrder)) (sym : Sym) (id : Nat) :
    symPop (l.map (symRedate τ)) sym id = (symPop l sym id).map (symRedate τ) := by
  induction l with
  | nil => rfl
  | cons x l ih =>
    obtain ⟨a, os⟩ := x
    simp only [List.map_cons, symRedate, symPop] at ih ⊢
    by_cases h : a = sym
    · simp only [h, if_true, List.map_cons, List.filter_map]
      rfl
    · simp [h, ih, symRedate]

theorem symGet_redate (l : List (Sym × List PendingOrder)) (sym : Sym) :
    symGet (l.map (symRedate τ)) sym = (symGet l sym).map (List.map (PendingOrder.redate τ)) := by
  induction l with
  | nil => rfl
  | cons x l ih =>
    obtain ⟨a, os⟩ := x
    simp only [List.map_cons, symRedate, symGet] at ih ⊢
    by_cases h : a = sym <;> simp [h, ih]

theorem add_redate (s : PendingScope) (r : PendingReq) :
    (s.redate τ).add (r.redate τ) = ((s.add r).1, (s.add r).2.redate τ) := by
  have h : (r.redate τ).order (s.nextId + 1) = (r.order (s.nextId + 1)).redate τ := rfl
  simp only [add, Prod.mk.injEq]
  refine ⟨rfl, ?_⟩
  rw [show (s.redate τ).nextId = s.nextId from rfl, h]
  simp only [PendingScope.redate, List.map_append, List.map_cons, List.map_nil, ← symAdd_redate]
  rfl

theorem markAttempted_redate (s : PendingScope) (id : Nat) :
    (s.redate τ).markAttempted id = (s.markAttempted id).redate τ := rfl

theorem advanceRetry_redate (s : PendingScope) (id : Nat) :
    (s.redate τ).advanceRetry id = (s.advanceRetry id).redate τ := by
  simp only [advanceRetry, contains_redate]
  split <;> rfl

theorem remove_redate (s : PendingScope) (id : Nat) :
    (s.redate τ).remove id = ((s.remove id).1, (s.remove id).2.redate τ) := by
  simp only [remove, get_redate]
  cases s.get id with
  | none => rfl
  | some o =>
    simp only [Option.map_some, PendingScope.redate, List.filter_map, Prod.mk.injEq, true_and]
    simp only [← symPop_redate]
    rfl

theorem removeIds_redate (s : PendingScope) (ids : List Nat) :
    (s.redate τ).removeIds ids = (s.removeIds ids).redate τ := by
  induction ids generalizing s with
  | nil => rfl
  | cons id ids ih => simp only [removeIds, remove_redate, ih]

theorem removeAll_redate (s : PendingScope) (sym : Option Sym) :
    (s.redate τ).removeAll sym = (s.removeAll sym).redate τ := by
  have hid : ∀ os : List PendingOrder,
      (os.map (PendingOrder.redate τ)).map PendingOrder.id = os.map PendingOrder.id := fun os => by
    rw [List.map_map]; rfl
  unfold removeAll
  cases sym with
  | none =>
    simp only
    rw [← removeIds_redate]
    congr 1
    exact hid s.orders
  | some sym =>
    simp only
    rw [show (s.redate τ).symOrders = s.symOrders.map (symRedate τ) from rfl, symGet_redate]
    cases symGet s.symOrders sym with
    | none => rfl
    | some os => simp only [Option.map_some, hid, removeIds_redate]

end PendingScope

/-! ## The loop -/

/-- The result of an execution with its date renamed. -/
def ExecResult.redate (τ : Date → Date) (r : ExecResult) : ExecResult := { r with date := τ r.date }

/-- A scheduled result with its dates renamed. -/
def schedRedate (τ : Date → Date) (x : Date × ExecResult) : Date × ExecResult := (τ x.1, x.2.redate τ)

/-- A bar to close a position on with its date renamed. -/
def DropBar.redate (τ : Date → Date) (b : DropBar) : DropBar := { b with date := τ b.date }

/-- The boundary of a window with its dates renamed. -/
def Boundary.redate (τ : Date → Date) (b : Boundary) : Boundary :=
  { b with
    test := fun s => (b.test s).map (DropBar.redate τ)
    testDates := b.testDates.map τ
    all := fun s => (b.all s).map (DropBar.redate τ) }

/-- A window with its dates renamed. -/
def Window.redate (τ : Date → Date) (w : Window) : Window :=
  { w with
    dates := fun s => (w.dates s).map τ
    master := w.master.map (fun m s => (m s).map τ)
    boundary := w.boundary.map (Boundary.redate τ) }

/-- What the loop reads on a bar with its date renamed. -/
def BarEnv.redate (τ : Date → Date) (e : BarEnv) : BarEnv := { e with date := τ e.date }

/-- An attempt with its dates renamed. -/
def Attempt.redate (τ : Date → Date) (a : Attempt) : Attempt where
  order := a.order.redate τ
  date := τ a.date
  filled := a.filled.map (Order.redate τ)

/-- The state of the loop with its dates renamed. -/
def Loop.redate (τ : Date → Date) (s : Loop) : Loop where
  pf := s.pf.redate τ
  pend := s.pend.redate τ
  covers := s.covers.map (schedRedate τ)
  buys := s.buys.map (schedRedate τ)
  sells := s.sells.map (schedRedate τ)
  attempts := s.attempts.map (Attempt.redate τ)

/-- A bar with its dates renamed. -/
def BarIn.redate (τ : Date → Date) (b : BarIn) : BarIn where
  env := b.env.redate τ
  user := b.user
  results := b.results.map (ExecResult.redate τ)
  exits := b.exits

theorem placeOrderOf_redate (τ : Date → Date) (limit : Option Nat) (key : ExecResult → WithBot ℚ)
    (hkey : ∀ r : ExecResult, key (r.redate τ) = key r) (l : List ExecResult) :
    placeOrderOf limit key (l.map (ExecResult.redate τ)) =
      (placeOrderOf limit key l).map (ExecResult.redate τ) := by
  cases limit with
  | none => rfl
  | some n =>
    simp only [placeOrderOf, sortDesc]
    exact insertionSort_map_key _ _ _ (fun a b => by rw [hkey, hkey]) l

theorem sortPending_redate (τ : Date → Date) (l : List PendingOrder) :
    sortPending (l.map (PendingOrder.redate τ)) = (sortPending l).map (PendingOrder.redate τ) := by
  unfold sortPending
  exact insertionSort_map_key _ _ _ (fun _ _ => Iff.rfl) l

theorem request_redate (τ : Date → Date) (r : ExecResult) (c e : Date) (n : Nat) :
    (r.redate τ).request (τ c) (τ e) n = (r.request c e n).map (PendingReq.redate τ) := by
  have h1 : (r.redate τ).buyShares = r.buyShares := rfl
  have h2 : (r.redate τ).sellShares = r.sellShares := rfl
  simp only [ExecResult.request, h1, h2]
  cases r.buyShares <;> cases r.sellShares <;> rfl

/-- A registry and a schedule with their dates renamed. -/
def bookedRedate (τ : Date → Date) (x : PendingScope × Sched) : PendingScope × Sched :=
  (x.1.redate τ, x.2.map (schedRedate τ))

/-! The order of the dates is kept. -/

section
variable {τ : Date → Date} (hτ : StrictMono τ)
include hτ

theorem schedOn_redate (s : Sched) (d : Date) :
    Sched.on (s.map (schedRedate τ)) (τ d) = (s.on d).map (ExecResult.redate τ) := by
  have h : (fun x : Date × ExecResult => decide (x.1 = τ d)) ∘ schedRedate τ =
      fun x => decide (x.1 = d) := by
    funext x
    simp only [Function.comp, schedRedate, hτ.injective.eq_iff]
  simp only [Sched.on, List.filter_map, List.map_map, h]
  rfl

theorem schedDrop_redate (s : Sched) (d : Date) :
    Sched.drop (s.map (schedRedate τ)) (τ d) = (s.drop d).map (schedRedate τ) := by
  have h : (fun x : Date × ExecResult => decide (x.1 ≠ τ d)) ∘ schedRedate τ =
      fun x => decide (x.1 ≠ d) := by
    funext x
    simp only [Function.comp, schedRedate, ne_eq, hτ.injective.eq_iff]
  simp only [Sched.drop, List.filter_map, h]

theorem nextMasterDate_redate (master : List Date) (curr : Date) (delay : Nat) :
    nextMasterDate (master.map τ) (τ curr) delay = (nextMasterDate master curr delay).map τ := by
  have h : (fun d : Date => decide (d < τ curr)) ∘ τ = fun d => decide (d < curr) := by
    funext d
    simp only [Function.comp, hτ.lt_iff_lt]
  simp only [nextMasterDate, List.takeWhile_map, List.length_map, List.getElem?_map, h]
  have h2 : ∀ o : Option Date, o.map τ = some (τ curr) ↔ o = some curr := fun o => by
    cases o with
    | none => simp
    | some a => simp [hτ.injective.eq_iff]
  simp only [ne_eq, h2]
  split_ifs <;> rfl

theorem execDate_redate (dates : List Date) (master : Option (List Date)) (e delay : Nat) :
    execDate (dates.map τ) (master.map (List.map τ)) e delay =
      (execDate dates master e delay).map (fun x => (τ x.1, x.2)) := by
  simp only [execDate, List.getElem?_map]
  cases dates[e - 1 + delay]? with
  | some d => rfl
  | none =>
    simp only [Option.map_none]
    cases master with
    | none => rfl
    | some ms =>
      simp only [Option.map_some]
      cases dates[e - 1]? with
      | none => rfl
      | some curr =>
        simp only [Option.map_some, nextMasterDate_redate hτ, Option.map_map]
        rfl

theorem scheduleOrder_redate (w : Window) (e : Sym → Nat) (c : Date) (delay : Nat)
    (p : PendingScope) (s : Sched) (r : ExecResult) :
    scheduleOrder (w.redate τ) e (τ c) delay (p.redate τ) (s.map (schedRedate τ)) (r.redate τ) =
      (scheduleOrder w e c delay p s r).map (bookedRedate τ) := by
  have h1 : (r.redate τ).symbol = r.symbol := rfl
  have h2 : execDate ((w.redate τ).dates r.symbol) ((w.redate τ).master.map (fun m => m r.symbol))
      (e r.symbol) delay =
      (execDate (w.dates r.symbol) (w.master.map (fun m => m r.symbol)) (e r.symbol) delay).map
        (fun x => (τ x.1, x.2)) := by
    rw [← execDate_redate hτ]
    simp only [Window.redate, Option.map_map]
    rfl
  simp only [scheduleOrder, h1, h2]
  cases execDate (w.dates r.symbol) (w.master.map (fun m => m r.symbol)) (e r.symbol) delay with
  | none => rfl
  | some x =>
    obtain ⟨d, b⟩ := x
    simp only [Option.map_some, request_redate]
    cases r.request c d (e r.symbol + delay) with
    | error err => rfl
    | ok q =>
      simp only [Except.map, PendingScope.add_redate, bookedRedate, Except.ok.injEq, Prod.mk.injEq,
        true_and]
      cases b
      · rfl
      · simp only [if_true, List.map_append]
        rfl

omit hτ in
theorem slipOrder_redate (cfg : Config) (slip : Option SlipModel) (p : PendingOrder) (n fill : ℚ) :
    slipOrder cfg slip (p.redate τ) n fill = slipOrder cfg slip p n fill := rfl

omit hτ in
theorem exitClamp_redate (pf : Portfolio) (p : PendingOrder) (n : ℚ) :
    exitClamp (pf.redate τ) (p.redate τ) n = exitClamp pf p n := by
  have h1 : (p.redate τ).exitPos = p.exitPos := rfl
  have h2 : (p.redate τ).symbol = p.symbol := rfl
  simp only [exitClamp, h1, h2, book_redate, lookupPos_redate, Option.map_map]
  rfl

omit hτ in
theorem attemptOrder_redate (cfg : Config) (env : BarEnv) (pf : Portfolio) (p : PendingOrder) :
    attemptOrder cfg (env.redate τ) (pf.redate τ) (p.redate τ) =
      (attemptOrder cfg env pf p).map (placedRedate τ) := by
  have h1 : (env.redate τ).fetch (p.redate τ).symbol (p.redate τ).fill = env.fetch p.symbol p.fill := rfl
  have h2 : (p.redate τ).shares = p.shares := rfl
  have h3 : (p.redate τ).side = p.side := rfl
  have h4 : (env.redate τ).slip = env.slip := rfl
  have h5 : ∀ (n f m : ℚ), (p.redate τ).req (env.redate τ).date n f m =
      (p.req env.date n f m).redate τ := fun _ _ _ => rfl
  simp only [attemptOrder, h1, h2, h3, h4, h5, exitClamp_redate, slipOrder_redate]
  cases env.fetch p.symbol p.fill with
  | none => rfl
  | some fill =>
    simp only
    cases exitClamp pf p (getShares cfg p.shares) with
    | none => rfl
    | some n =>
      simp only
      cases slipOrder cfg env.slip p n fill with
      | error e => rfl
      | ok x =>
        obtain ⟨n', price⟩ := x
        simp only
        cases p.side with
        | buy => simp only [buy_redate, liftE_map]
        | sell => simp only [sell_redate, liftE_map]

omit hτ in
theorem attemptStep_redate (cfg : Config) (env : BarEnv) (s : Loop) (p : PendingOrder) :
    attemptStep cfg (env.redate τ) (s.redate τ) (p.redate τ) =
      (attemptStep cfg env s p).map (Loop.redate τ) := by
  have h1 : (p.redate τ).id = p.id := rfl
  have h2 : (p.redate τ).persistent = p.persistent := rfl
  simp only [attemptStep, h1, h2]
  rw [show (s.redate τ).pf = s.pf.redate τ from rfl, attemptOrder_redate,
    show (s.redate τ).pend = s.pend.redate τ from rfl, PendingScope.markAttempted_redate,
    PendingScope.remove_redate]
  cases attemptOrder cfg env s.pf p with
  | error e => rfl
  | ok x =>
    obtain ⟨o, pf'⟩ := x
    simp only [Except.map, placedRedate, Except.ok.injEq]
    cases o with
    | none =>
      cases p.persistent <;> simp [Loop.redate, Attempt.redate, BarEnv.redate]
    | some o =>
      simp [Loop.redate, Attempt.redate, BarEnv.redate]

omit hτ in
theorem placeBuy_redate (cfg : Config) (env : BarEnv) (s : Loop) (r : ExecResult) :
    placeBuy cfg (env.redate τ) (s.redate τ) (r.redate τ) =
      (placeBuy cfg env s r).map (Loop.redate τ) := by
  have h1 : (r.redate τ).buyShares = r.buyShares := rfl
  have h2 : (r.redate τ).pendingId = r.pendingId := rfl
  simp only [placeBuy, h1, h2]
  cases r.buyShares with
  | none => rfl
  | some n =>
    simp only [Option.isNone_some, Bool.false_eq_true, if_false]
    cases r.pendingId with
    | none => rfl
    | some id =>
      simp only
      rw [show (s.redate τ).pend = s.pend.redate τ from rfl, PendingScope.get_redate]
      cases s.pend.get id with
      | none => rfl
      | some p => exact attemptStep_redate cfg env s p

omit hτ in
theorem placeSell_redate (cfg : Config) (env : BarEnv) (s : Loop) (r : ExecResult) :
    placeSell cfg (env.redate τ) (s.redate τ) (r.redate τ) =
      (placeSell cfg env s r).map (Loop.redate τ) := by
  have h1 : (r.redate τ).sellShares = r.sellShares := rfl
  have h2 : (r.redate τ).pendingId = r.pendingId := rfl
  simp only [placeSell, h1, h2]
  cases r.sellShares with
  | none => rfl
  | some n =>
    simp only [Option.isNone_some, Bool.false_eq_true, if_false]
    cases r.pendingId with
    | none => rfl
    | some id =>
      simp only
      rw [show (s.redate τ).pend = s.pend.redate τ from rfl, PendingScope.get_redate]
      cases s.pend.get id with
      | none => rfl
      | some p => exact attemptStep_redate cfg env s p

theorem placeCovers_redate (cfg : Config) (env : BarEnv) (s : Loop) :
    placeCovers cfg (env.redate τ) (s.redate τ) = (placeCovers cfg env s).map (Loop.redate τ) := by
  have h1 : (env.redate τ).date = τ env.date := rfl
  simp only [placeCovers, h1]
  rw [show (s.redate τ).covers = s.covers.map (schedRedate τ) from rfl, schedOn_redate hτ,
    placeOrderOf_redate τ cfg.maxLong ExecResult.buyKey (fun _ => rfl),
    foldB_map _ _ _ _ (fun b a => placeBuy_redate cfg env b a), exceptB_map_map, exceptB_map_map]
  congr 1
  funext t
  simp only [Loop.redate, schedDrop_redate hτ]

theorem placeSells_redate (cfg : Config) (env : BarEnv) (s : Loop) :
    placeSells cfg (env.redate τ) (s.redate τ) = (placeSells cfg env s).map (Loop.redate τ) := by
  have h1 : (env.redate τ).date = τ env.date := rfl
  simp only [placeSells, h1]
  rw [show (s.redate τ).sells = s.sells.map (schedRedate τ) from rfl, schedOn_redate hτ,
    placeOrderOf_redate τ cfg.maxShort ExecResult.sellKey (fun _ => rfl),
    foldB_map _ _ _ _ (fun b a => placeSell_redate cfg env b a), exceptB_map_map, exceptB_map_map]
  congr 1
  funext t
  simp only [Loop.redate, schedDrop_redate hτ]

theorem placeBuys_redate (cfg : Config) (env : BarEnv) (s : Loop) :
    placeBuys cfg (env.redate τ) (s.redate τ) = (placeBuys cfg env s).map (Loop.redate τ) := by
  have h1 : (env.redate τ).date = τ env.date := rfl
  simp only [placeBuys, h1]
  rw [show (s.redate τ).buys = s.buys.map (schedRedate τ) from rfl, schedOn_redate hτ,
    placeOrderOf_redate τ cfg.maxLong ExecResult.buyKey (fun _ => rfl),
    foldB_map _ _ _ _ (fun b a => placeBuy_redate cfg env b a), exceptB_map_map, exceptB_map_map]
  congr 1
  funext t
  simp only [Loop.redate, schedDrop_redate hτ]

theorem processOne_redate (cfg : Config) (env : BarEnv) (s : Loop) (p : PendingOrder) :
    processOne cfg (env.redate τ) (s.redate τ) (p.redate τ) =
      (processOne cfg env s p).map (Loop.redate τ) := by
  have h1 : (p.redate τ).execDate = τ p.execDate := rfl
  have h2 : (env.redate τ).date = τ env.date := rfl
  have h3 : (s.redate τ).pend.wasAttempted (p.redate τ).id = s.pend.wasAttempted p.id := rfl
  have h4 : (env.redate τ).hasBarOn (p.redate τ).symbol = env.hasBarOn p.symbol := rfl
  have h5 : (p.redate τ).timeout = p.timeout := rfl
  have h6 : (s.redate τ).pend.advanceRetry (p.redate τ).id = (s.pend.advanceRetry p.id).redate τ :=
    PendingScope.advanceRetry_redate _ _
  have h7 : ∀ q : PendingScope, (q.redate τ).retryBars (p.redate τ).id = q.retryBars p.id := fun _ => rfl
  have h8 : ∀ q : PendingScope, (q.redate τ).remove (p.redate τ).id =
      ((q.remove p.id).1, (q.remove p.id).2.redate τ) := fun q => PendingScope.remove_redate q _
  have h9 : ∀ q : PendingScope, { s.redate τ with pend := q.redate τ } =
      Loop.redate τ { s with pend := q } := fun _ => rfl
  simp only [processOne, h1, h2, h3, h4, h5, h6, h7, h8, h9, attemptStep_redate, gt_iff_lt,
    hτ.lt_iff_lt, hτ.injective.eq_iff]
  by_cases c1 : env.date < p.execDate
  · simp only [c1, if_true]; rfl
  · simp only [c1, if_false]
    by_cases c2 : p.execDate = env.date ∧ (!s.pend.wasAttempted p.id) = false
    · rw [if_pos c2, if_pos c2]; rfl
    · rw [if_neg c2, if_neg c2]
      by_cases c3 : env.hasBarOn p.symbol = false
      · simp only [c3, if_true]; rfl
      · simp only [c3]
        by_cases c4 : (!s.pend.wasAttempted p.id) = true
        · simp only [c4, if_true]; rfl
        · rw [if_neg c4, if_neg c4]
          cases p.timeout with
          | none => rfl
          | some t =>
            simp only
            by_cases c5 : 0 ≤ t ∧ t < ((s.pend.advanceRetry p.id).retryBars p.id : Int)
            · rw [if_pos c5, if_pos c5]; rfl
            · rw [if_neg c5, if_neg c5]; rfl

theorem processPersistent_redate (cfg : Config) (env : BarEnv) (s : Loop) :
    processPersistent cfg (env.redate τ) (s.redate τ) =
      (processPersistent cfg env s).map (Loop.redate τ) := by
  unfold processPersistent
  rw [show (s.redate τ).pend.orders = s.pend.orders.map (PendingOrder.redate τ) from rfl,
    sortPending_redate, foldB_map _ _ _ _ (fun b a => processOne_redate hτ cfg env b a)]

omit hτ in
theorem userStep_redate (s : Loop) (o : UserOp) : userStep (s.redate τ) o = (userStep s o).redate τ := by
  cases o with
  | cancelPending id =>
    simp only [userStep, Loop.redate, PendingScope.remove_redate]
  | cancelAllPending sym =>
    simp only [userStep, Loop.redate, PendingScope.removeAll_redate]
  | cancelStop id =>
    simp only [userStep, Loop.redate, removeStop_redate, pairRedate]
  | cancelStopsSym sym t =>
    simp only [userStep, Loop.redate, removeStopsSym_redate]
  | cancelStopsEntry id t =>
    simp only [userStep, Loop.redate, removeStopsEntry_redate]

omit hτ in
theorem userSteps_redate (l : List UserOp) (s : Loop) :
    l.foldl userStep (s.redate τ) = (l.foldl userStep s).redate τ := by
  induction l generalizing s with
  | nil => rfl
  | cons o l ih => simp only [List.foldl_cons, userStep_redate, ih]

theorem schedCover_redate (w : Window) (env : BarEnv) (s : Loop) (r : ExecResult) :
    schedCover (w.redate τ) (env.redate τ) (s.redate τ) (r.redate τ) =
      (schedCover w env s r).map (Loop.redate τ) := by
  unfold schedCover
  have := scheduleOrder_redate hτ w env.endIndex env.date w.buyDelay s.pend s.covers r
  rw [show scheduleOrder (w.redate τ) (env.redate τ).endIndex (env.redate τ).date (w.redate τ).buyDelay
    (s.redate τ).pend (s.redate τ).covers (r.redate τ) = _ from this, exceptB_map_map, exceptB_map_map]
  rfl

theorem schedBuy_redate (w : Window) (env : BarEnv) (s : Loop) (r : ExecResult) :
    schedBuy (w.redate τ) (env.redate τ) (s.redate τ) (r.redate τ) =
      (schedBuy w env s r).map (Loop.redate τ) := by
  unfold schedBuy
  have := scheduleOrder_redate hτ w env.endIndex env.date w.buyDelay s.pend s.buys r
  rw [show scheduleOrder (w.redate τ) (env.redate τ).endIndex (env.redate τ).date (w.redate τ).buyDelay
    (s.redate τ).pend (s.redate τ).buys (r.redate τ) = _ from this, exceptB_map_map, exceptB_map_map]
  rfl

theorem schedSell_redate (w : Window) (env : BarEnv) (s : Loop) (r : ExecResult) :
    schedSell (w.redate τ) (env.redate τ) (s.redate τ) (r.redate τ) =
      (schedSell w env s r).map (Loop.redate τ) := by
  unfold schedSell
  have := scheduleOrder_redate hτ w env.endIndex env.date w.sellDelay s.pend s.sells r
  rw [show scheduleOrder (w.redate τ) (env.redate τ).endIndex (env.redate τ).date (w.redate τ).sellDelay
    (s.redate τ).pend (s.redate τ).sells (r.redate τ) = _ from this, exceptB_map_map, exceptB_map_map]
  rfl

omit hτ in
theorem exitStep_redate (cfg : Config) (env : BarEnv) (s : Loop) (x : ForcedExit) :
    exitStep cfg (env.redate τ) (s.redate τ) x = (exitStep cfg env s x).map (Loop.redate τ) := by
  unfold exitStep
  have := exitPosition_redate τ cfg s.pf env.date x.symbol x.buyFill x.sellFill env.stop.slip
  rw [show exitPosition cfg (s.redate τ).pf (env.redate τ).date x.symbol
    x.buyFill x.sellFill (env.redate τ).stop.slip = _ from this, liftE_map,
    exceptB_map_map, exceptB_map_map]
  rfl

theorem barOrders_redate (cfg : Config) (env : BarEnv) (s : Loop) :
    barOrders cfg (env.redate τ) (s.redate τ) = (barOrders cfg env s).map (Loop.redate τ) := by
  have h0 := checkStops_redate τ cfg s.pf env.date env.stop
  simp only [barOrders, bind, Except.bind]
  rw [show checkStops cfg (s.redate τ).pf (env.redate τ).date (env.redate τ).stop = _ from h0,
    liftE_map]
  cases liftE (checkStops cfg s.pf env.date env.stop) with
  | error e => rfl
  | ok pf =>
    simp only [Except.map]
    rw [show { s.redate τ with pf := pf.redate τ } = Loop.redate τ { s with pf := pf } from rfl,
      placeCovers_redate hτ]
    cases placeCovers cfg env { s with pf := pf } with
    | error e => rfl
    | ok s1 =>
      simp only [Except.map, placeSells_redate hτ]
      cases placeSells cfg env s1 with
      | error e => rfl
      | ok s2 =>
        simp only [Except.map, placeBuys_redate hτ]
        cases placeBuys cfg env s2 with
        | error e => rfl
        | ok s3 => exact processPersistent_redate hτ cfg env s3

omit hτ in
theorem queues_redate (rs : List ExecResult) :
    coverResults (rs.map (ExecResult.redate τ)) = (coverResults rs).map (ExecResult.redate τ) ∧
    buyResults (rs.map (ExecResult.redate τ)) = (buyResults rs).map (ExecResult.redate τ) ∧
    sellResults (rs.map (ExecResult.redate τ)) = (sellResults rs).map (ExecResult.redate τ) := by
  refine ⟨?_, ?_, ?_⟩ <;> simp only [coverResults, buyResults, sellResults, List.filter_map] <;> rfl

theorem barSignals_redate (cfg : Config) (w : Window) (b : BarIn) (s : Loop) :
    barSignals cfg (w.redate τ) (b.redate τ) (s.redate τ) =
      (barSignals cfg w b s).map (Loop.redate τ) := by
  have h1 : captureBar cfg (s.redate τ).pf (b.redate τ).env.date (b.redate τ).env.quote =
      (captureBar cfg s.pf b.env.date b.env.quote).redate τ :=
    captureBar_redate τ cfg s.pf b.env.date b.env.quote
  have h2 : ∀ pf : Portfolio, { s.redate τ with pf := pf.redate τ } =
      Loop.redate τ { s with pf := pf } := fun _ => rfl
  simp only [barSignals, bind, Except.bind, h1, h2]
  rw [show (b.redate τ).user = b.user from rfl, userSteps_redate,
    show (b.redate τ).results = b.results.map (ExecResult.redate τ) from rfl,
    show (b.redate τ).env = b.env.redate τ from rfl, (queues_redate b.results).1,
    (queues_redate b.results).2.1, (queues_redate b.results).2.2,
    show (b.redate τ).exits = b.exits from rfl,
    foldB_map _ _ _ _ (fun t r => schedCover_redate hτ w b.env t r)]
  cases foldB (schedCover w b.env) _ (coverResults b.results) with
  | error e => rfl
  | ok s3 =>
    simp only [Except.map]
    rw [foldB_map _ _ _ _ (fun t r => schedBuy_redate hτ w b.env t r)]
    cases foldB (schedBuy w b.env) s3 (buyResults b.results) with
    | error e => rfl
    | ok s4 =>
      simp only [Except.map]
      rw [foldB_map _ _ _ _ (fun t r => schedSell_redate hτ w b.env t r)]
      cases foldB (schedSell w b.env) s4 (sellResults b.results) with
      | error e => rfl
      | ok s5 =>
        simp only [Except.map]
        have hx := foldB_map (exitStep cfg b.env) (exitStep cfg (b.env.redate τ)) (Loop.redate τ) id
          (fun t r => exitStep_redate cfg b.env t r) s5 b.exits
        rw [List.map_id] at hx
        rw [hx]
        cases foldB (exitStep cfg b.env) s5 b.exits with
        | error e => rfl
        | ok s6 =>
          simp only [Except.map, Except.ok.injEq]
          simp only [Loop.redate, BarEnv.redate, incrBars_redate]

/-! ## Window boundaries -/

theorem firstBar_redate (l : List DropBar) :
    firstBar (l.map (DropBar.redate τ)) = (firstBar l).map (DropBar.redate τ) := by
  induction l with
  | nil => rfl
  | cons b l ih =>
    simp only [List.map_cons, firstBar, ih]
    cases firstBar l with
    | none => rfl
    | some c =>
      simp only [Option.map_some]
      rw [show (b.redate τ).date = τ b.date from rfl, show (c.redate τ).date = τ c.date from rfl]
      simp only [hτ.le_iff_le]
      split <;> rfl

theorem lastBar_redate (l : List DropBar) :
    lastBar (l.map (DropBar.redate τ)) = (lastBar l).map (DropBar.redate τ) := by
  induction l with
  | nil => rfl
  | cons b l ih =>
    simp only [List.map_cons, lastBar, ih]
    cases lastBar l with
    | none => rfl
    | some c =>
      simp only [Option.map_some]
      rw [show (b.redate τ).date = τ b.date from rfl, show (c.redate τ).date = τ c.date from rfl]
      simp only [hτ.le_iff_le]
      split <;> rfl

theorem minDate_redate (l : List Date) : minDate (l.map τ) = (minDate l).map τ := by
  induction l with
  | nil => rfl
  | cons b l ih =>
    simp only [List.map_cons, minDate, ih]
    cases minDate l with
    | none => rfl
    | some c =>
      simp only [Option.map_some, hτ.le_iff_le]
      split <;> rfl

theorem testExitBar_redate (b : Boundary) (sym : Sym) :
    testExitBar (b.redate τ) sym = (testExitBar b sym).map (DropBar.redate τ) := by
  unfold testExitBar
  rw [show (b.redate τ).testDates = b.testDates.map τ from rfl]
  simp only [List.map_eq_nil_iff]
  split
  · rfl
  · exact firstBar_redate hτ _

theorem lateExitBar_redate (b : Boundary) (sym : Sym) :
    lateExitBar (b.redate τ) sym = (lateExitBar b sym).map (DropBar.redate τ) := by
  unfold lateExitBar
  rw [show (b.redate τ).testDates = b.testDates.map τ from rfl, minDate_redate hτ]
  cases minDate b.testDates with
  | none => exact lastBar_redate hτ _
  | some d =>
    have h : (fun x : DropBar => decide (x.date ≤ τ d)) ∘ DropBar.redate τ =
        fun x => decide (x.date ≤ d) := by
      funext x
      simp only [Function.comp, DropBar.redate, hτ.le_iff_le]
    simp only [Option.map_some]
    rw [show (b.redate τ).all sym = (b.all sym).map (DropBar.redate τ) from rfl, List.filter_map,
      lastBar_redate hτ, h]

omit hτ in
theorem cancelStale_redate (p : PendingScope) (sel : List Sym) :
    cancelStale (p.redate τ) sel = (cancelStale p sel).redate τ := by
  unfold cancelStale
  rw [show (p.redate τ).orders.map PendingOrder.symbol = p.orders.map PendingOrder.symbol by
    simp only [PendingScope.redate, List.map_map]; rfl]
  generalize (p.orders.map PendingOrder.symbol).filter (fun x => !sel.contains x) = l
  induction l generalizing p with
  | nil => rfl
  | cons x l ih => simp only [List.foldl_cons, PendingScope.removeAll_redate, ih]

omit hτ in
theorem droppedSyms_redate (pf : Portfolio) (sel : List Sym) :
    droppedSyms (pf.redate τ) sel = droppedSyms pf sel := by
  unfold droppedSyms
  rw [show (pf.redate τ).longs.map Position.symbol = pf.longs.map Position.symbol by
      simp only [Portfolio.redate, List.map_map]; rfl,
    show (pf.redate τ).shorts.map Position.symbol = pf.shorts.map Position.symbol by
      simp only [Portfolio.redate, List.map_map]; rfl]

/-- An exit at a boundary with its date renamed. -/
def dropRedate (τ : Date → Date) (x : Sym × DropBar) : Sym × DropBar := (x.1, x.2.redate τ)

omit hτ in
theorem dropStep_redate (cfg : Config) (slip : Option SlipFn) (s : Loop) (x : Sym × DropBar) :
    dropStep cfg slip (s.redate τ) (dropRedate τ x) = (dropStep cfg slip s x).map (Loop.redate τ) := by
  unfold dropStep
  have := exitPosition_redate τ cfg s.pf x.2.date x.1 x.2.buyFill x.2.sellFill slip
  rw [show exitPosition cfg (s.redate τ).pf (dropRedate τ x).2.date (dropRedate τ x).1
    (dropRedate τ x).2.buyFill (dropRedate τ x).2.sellFill slip = _ from this,
    liftE_map, exceptB_map_map, exceptB_map_map]
  rfl

omit hτ in
theorem dropExits_redate (f g : Sym → Option DropBar) (h : ∀ s, g s = (f s).map (DropBar.redate τ))
    (l : List Sym) : dropExits g l = (dropExits f l).map (dropRedate τ) := by
  unfold dropExits
  rw [List.map_filterMap]
  congr 1
  funext s
  rw [h]
  cases f s <;> rfl

theorem liquidateDropped_redate (cfg : Config) (s : Loop) (b : Boundary) :
    liquidateDropped cfg (s.redate τ) (b.redate τ) =
      (liquidateDropped cfg s b).map (Loop.redate τ) := by
  have h0 : { s.redate τ with pend := cancelStale (s.redate τ).pend (b.redate τ).selected } =
      Loop.redate τ { s with pend := cancelStale s.pend b.selected } := by
    simp only [Loop.redate, Loop.mk.injEq, true_and, and_true]
    exact cancelStale_redate _ _
  have h1 : droppedSyms (s.redate τ).pf (b.redate τ).selected = droppedSyms s.pf b.selected :=
    droppedSyms_redate _ _
  have h2 : ∀ l, dropExits (testExitBar (b.redate τ)) l =
      (dropExits (testExitBar b) l).map (dropRedate τ) :=
    dropExits_redate _ _ (testExitBar_redate hτ b)
  have h3 : ∀ l, dropExits (lateExitBar (b.redate τ)) l =
      (dropExits (lateExitBar b) l).map (dropRedate τ) :=
    dropExits_redate _ _ (lateExitBar_redate hτ b)
  have h4 : ∀ l : List (Sym × DropBar), (l.map (dropRedate τ)).map Prod.fst = l.map Prod.fst := fun l => by
    rw [List.map_map]; rfl
  simp only [liquidateDropped, bind, Except.bind, h0, h1, h2, h3, h4]
  rw [show (b.redate τ).slip = b.slip from rfl,
    show (b.redate τ).iter = b.iter from rfl,
    foldB_map _ _ _ _ (fun t x => dropStep_redate cfg b.slip t x)]
  cases foldB (dropStep cfg b.slip) _ (dropExits (testExitBar b) (b.iter (droppedSyms s.pf b.selected))) with
  | error e => rfl
  | ok s1 =>
    simp only [Except.map]
    rw [foldB_map _ _ _ _ (fun t x => dropStep_redate cfg b.slip t x)]
    rfl

theorem startWindow_redate (cfg : Config) (s : Loop) (w : Window) :
    startWindow cfg (s.redate τ) (w.redate τ) = (startWindow cfg s w).map (Loop.redate τ) := by
  unfold startWindow
  rw [show (w.redate τ).boundary = w.boundary.map (Boundary.redate τ) from rfl]
  cases w.boundary with
  | none => rfl
  | some b => exact liquidateDropped_redate hτ cfg s b

end

/-! ## There and back -/

section
variable {τ σ : Date → Date} (h : ∀ d, σ (τ d) = d)
include h

theorem PendingOrder.redate_redate (o : PendingOrder) : (o.redate τ).redate σ = o := by
  simp [PendingOrder.redate, h]

theorem ExecResult.redate_redate (r : ExecResult) : (r.redate τ).redate σ = r := by
  simp [ExecResult.redate, h]

theorem Order.redate_redate (o : Order) : (o.redate τ).redate σ = o := by
  cases hc : o.created <;> simp [Order.redate, h, hc] <;> rw [← hc]

theorem Loop.redate_redate (s : Loop) : (s.redate τ).redate σ = s := by
  have e1 : PendingOrder.redate σ ∘ PendingOrder.redate τ = id := funext (PendingOrder.redate_redate h)
  have e2 : schedRedate σ ∘ schedRedate τ = id := by
    funext x
    simp [schedRedate, h, ExecResult.redate_redate h]
  have e3 : Attempt.redate σ ∘ Attempt.redate τ = id := by
    funext a
    obtain ⟨o, d, f⟩ := a
    cases f <;> simp [Attempt.redate, h, PendingOrder.redate_redate h, Order.redate_redate h]
  have e4 : symRedate σ ∘ symRedate τ = id := by
    funext x
    simp [symRedate, e1]
  have e5 : (s.pend.redate τ).redate σ = s.pend := by
    simp only [PendingScope.redate, List.map_map, e1, e4, List.map_id]
  simp only [Loop.redate, List.map_map, e2, e3, List.map_id, e5, Portfolio.redate_redate τ σ h]

end

end PyBroker
