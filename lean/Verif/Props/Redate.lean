import Verif.Backtest.RedateRun
import Verif.Props.Drive
import Verif.Eval.Full

/-!
# Only the order of dates matters (C149)

`Verif/Portfolio/Redate.lean`, `Verif/Backtest/Redate.lean` and `Verif/Backtest/RedateRun.lean` say
what each record is when every date `d` in it is `τ d`: nothing else of it changes.
-/

namespace PyBroker

/-! ## Specification -/

/-- The same execution on renamed dates: the same symbols, or a selector that gives the same
symbols for the rows with renamed dates. -/
def Spec.RedatedExec (τ : Date → Date) (e e' : Execn (List DRow)) : Prop :=
  e'.id = e.id ∧
    match e.symbols, e'.symbols with
    | .fixed l, .fixed l' => l' = l
    | .selector f, .selector g => ∀ rows, g (rows.map (DRow.redate τ)) = f rows
    | _, _ => False

/-- The run `y` is the run `x` on renamed dates: the rows have the dates `τ d` for `d`, user code
that is shown renamed dates cancels the same and asks for the same orders, and everything else
is equal. -/
structure Spec.Redated (τ : Date → Date) (x y : RunSetup) : Prop where
  cfg : y.cfg = x.cfg
  cols : y.cols = x.cols
  rows : y.rows = x.rows.map (DRow.redate τ)
  execs : List.Forall₂ (Spec.RedatedExec τ) x.execs y.execs
  windows : y.windows = x.windows
  lookahead : y.lookahead = x.lookahead
  trainSize : y.trainSize = x.trainSize
  shuffle : y.shuffle = x.shuffle
  buyDelay : y.buyDelay = x.buyDelay
  sellDelay : y.sellDelay = x.sellDelay
  warmup : y.warmup = x.warmup
  exitOnLast : y.exitOnLast = x.exitOnLast
  exitCover : y.exitCover = x.exitCover
  exitSell : y.exitSell = x.exitSell
  round : y.round = x.round
  iter : y.iter = x.iter
  fns : ∀ n s a, y.fns n s (a.map (SymArrays.redate τ)) = x.fns n s a
  orderSlip : ∀ w d, y.orderSlip w (τ d) = x.orderSlip w d
  exitSlip : ∀ w d, y.exitSlip w (τ d) = x.exitSlip w d
  dropSlip : y.dropSlip = x.dropSlip
  act : ∀ w d a s l,
    (y.act w (τ d) (fun sym => (a sym).map (SymArrays.redate τ)) (s.redate τ) l).1 =
      (x.act w d a s l).1 ∧
    ∀ sym, (y.act w (τ d) (fun sym => (a sym).map (SymArrays.redate τ)) (s.redate τ) l).2 sym =
      ((x.act w d a s l).2 sym).map (ExecResult.redate τ)

open PyBroker.Spec

/-! ## Executions -/

theorem redatedExec_selector {τ : Date → Date} {e e' : Execn (List DRow)} (h : RedatedExec τ e e') :
    e'.symbols.isSelector = e.symbols.isSelector ∧ e'.symbols.static = e.symbols.static ∧
      (e.symbols.isSelector = false → e' = e) := by
  obtain ⟨i, s⟩ := e
  obtain ⟨j, t⟩ := e'
  obtain ⟨h1, h2⟩ := h
  simp only at h1 h2
  subst h1
  cases s <;> cases t <;> simp only at h2
  · subst h2; exact ⟨rfl, rfl, fun _ => rfl⟩
  · exact ⟨rfl, rfl, fun h => by simp [ExecSyms.isSelector] at h⟩

theorem redatedExecs {τ : Date → Date} {es es' : List (Execn (List DRow))}
    (h : List.Forall₂ (RedatedExec τ) es es') :
    es'.any (fun e => e.symbols.isSelector) = es.any (fun e => e.symbols.isSelector) ∧
      selectedSymbols es' = selectedSymbols es ∧
      (es.any (fun e => e.symbols.isSelector) = false → es' = es) := by
  induction h with
  | nil => exact ⟨rfl, rfl, fun _ => rfl⟩
  | cons h _ ih =>
    obtain ⟨h1, h2, h3⟩ := redatedExec_selector h
    refine ⟨?_, ?_, ?_⟩
    · simp only [List.any_cons, h1, ih.1]
    · simp only [selectedSymbols, List.flatMap_cons, h2] at ih ⊢
      rw [ih.2.1]
    · intro hs
      simp only [List.any_cons, Bool.or_eq_false_iff] at hs
      rw [h3 hs.1, ih.2.2 hs.2]

theorem resolveLoop_redate {τ : Date → Date} {es es' : List (Execn (List DRow))}
    (h : List.Forall₂ (RedatedExec τ) es es') (rows : List DRow) (seen : List Sym) :
    resolveLoop (fun d : List DRow => (d.map DRow.symbol).dedup) (rows.map (DRow.redate τ)) es' seen =
      resolveLoop (fun d : List DRow => (d.map DRow.symbol).dedup) rows es seen := by
  have hsym : (rows.map (DRow.redate τ)).map DRow.symbol = rows.map DRow.symbol := by
    rw [List.map_map]; rfl
  induction h generalizing seen with
  | nil => rfl
  | @cons e e' es es' h _ ih =>
    have hr : resolveSymbols (fun d : List DRow => (d.map DRow.symbol).dedup)
        (rows.map (DRow.redate τ)) e' =
        resolveSymbols (fun d : List DRow => (d.map DRow.symbol).dedup) rows e := by
      obtain ⟨i, s⟩ := e
      obtain ⟨j, t⟩ := e'
      obtain ⟨h1, h2⟩ := h
      simp only at h1 h2
      cases s <;> cases t <;> simp only at h2
      · subst h2; rfl
      · simp only [resolveSymbols, h2, hsym]
    simp only [resolveLoop, hr, ih, h.1]

theorem windowExecutions_redate {τ : Date → Date} {es es' : List (Execn (List DRow))}
    (h : List.Forall₂ (RedatedExec τ) es es') (rows : List DRow) :
    (windowExecutions (fun d : List DRow => (d.map DRow.symbol).dedup) List.isEmpty es'
      (rows.map (DRow.redate τ))) =
    (windowExecutions (fun d : List DRow => (d.map DRow.symbol).dedup) List.isEmpty es rows) := by
  obtain ⟨h1, _, h3⟩ := redatedExecs h
  have he : (rows.map (DRow.redate τ)).isEmpty = rows.isEmpty := by cases rows <;> rfl
  simp only [windowExecutions, selectionDf, he, h1]
  cases hs : es.any (fun e => e.symbols.isSelector) with
  | false =>
    rw [h3 hs]
    cases hr : rows.isEmpty <;> simp
  | true =>
    cases hr : rows.isEmpty
    · simp [resolveExecutions, resolveLoop_redate h]
    · simp

/-! ## The run -/

namespace RunSetup

variable {τ : Date → Date} {x y : RunSetup}

theorem dates_redate (h : Redated τ x y) : y.dates = x.dates.map τ := by
  unfold dates
  rw [h.rows, List.map_map, List.map_map]
  rfl

theorem rowsAt_redate (h : Redated τ x y) (idx : List Nat) :
    y.rowsAt idx = (x.rowsAt idx).map (DRow.redate τ) := by
  unfold rowsAt
  rw [h.rows, List.map_filterMap]
  congr 1
  funext i
  rw [List.getElem?_map]

theorem priceAt_redate (h : Redated τ x y) (store : Store) (idx : Sym → Nat) (sym : Sym) (f : FillSpec) :
    y.priceAt (store.redate τ) idx sym f = x.priceAt store idx sym f := by
  unfold priceAt
  cases f with
  | price t =>
    simp only [fillPrice, PriceScope.fetchFloat]
    have := fetchPriceType_redate (τ := τ) store idx x.round sym t
    rw [h.round]
    rcases ha : PriceScope.fetchPriceType { store := store.redate τ, endIndex := idx, round := x.round } sym t
      with ⟨a1, a2⟩
    rcases hb : PriceScope.fetchPriceType { store := store, endIndex := idx, round := x.round } sym t
      with ⟨b1, b2⟩
    rw [ha, hb] at this
    simp only at this
    subst this
    cases a1 <;> rfl
  | amount q => simp only [fillPrice, PriceScope.fetchFloat, PriceScope.roundFloat, h.round]
  | callable n =>
    simp only [fillPrice, PriceScope.fetchFloat, PriceScope.roundFloat, h.round]
    have : ((store.redate τ).arrays sym).map (fun a => a.upTo (idx sym)) =
        ((store.arrays sym).map (fun a => a.upTo (idx sym))).map (SymArrays.redate τ) := by
      simp only [Store.redate, Option.map_map]
      congr 1
      funext a
      exact upTo_redate a _
    rw [this, h.fns]

theorem closePrices_redate (h : Redated τ x y) (store : Store) (idx : Sym → Nat) (sym : Sym) :
    y.closePrices (store.redate τ) idx sym = x.closePrices store idx sym := by
  simp only [closePrices, h.exitCover, h.exitSell, priceAt_redate h]

theorem closable_redate (pf : Portfolio) (sym : Sym) (p : Option ℚ × Option ℚ) :
    closable (pf.redate τ) sym p = closable pf sym p := by
  unfold closable
  rw [show (pf.redate τ).shorts = pf.shorts.map (Position.redate τ) from rfl,
    show (pf.redate τ).longs = pf.longs.map (Position.redate τ) from rfl, lookupPos_redate, lookupPos_redate]
  simp

theorem dropBars_redate (h : Redated τ x y) (store : Store) (sym : Sym) :
    y.dropBars (store.redate τ) sym = (x.dropBars store sym).map (DropBar.redate τ) := by
  unfold dropBars
  rw [show (store.redate τ).arrays sym = (store.arrays sym).map (SymArrays.redate τ) from rfl]
  cases store.arrays sym with
  | none => rfl
  | some a =>
    simp only [Option.map_some, List.map_map]
    rw [show (a.redate τ).dates = a.dates.map τ from rfl, List.zipIdx_map, List.map_map]
    apply List.map_congr_left
    intro di _
    simp only [closePrices_redate h, Function.comp, DropBar.redate]
    rfl

variable (hτ : StrictMono τ)
include hτ

theorem barEnv_redate (h : Redated τ x y) (w : Nat) (store : Store) (idx : Sym → Nat) (d : Date) :
    y.barEnv w (store.redate τ) idx (τ d) = (x.barEnv w store idx d).redate τ := by
  have hp : y.priceAt (store.redate τ) idx = x.priceAt store idx := by
    funext s f
    exact priceAt_redate h store idx s f
  simp only [barEnv, BarEnv.redate, hasBarOnRaw_redate hτ, barOhlcRaw_redate hτ, closeNone_redate,
    h.round, hp, h.exitSlip, h.orderSlip]

theorem exitDate_redate (h : Redated τ x y) (sym : Sym) : y.exitDate sym = (x.exitDate sym).map τ := by
  obtain ⟨h1, h2, _⟩ := redatedExecs h.execs
  have h3 : (y.rows.filter (fun r => r.symbol = sym)).map DRow.date =
      ((x.rows.filter (fun r => r.symbol = sym)).map DRow.date).map τ := by
    rw [h.rows, List.filter_map, List.map_map, List.map_map]
    rfl
  unfold exitDate selects
  rw [h.exitOnLast, h1, h2, h3, redate_max hτ]
  split <;> rfl

theorem boundary_redate (h : Redated τ x y) (w : Nat) (sel : List Sym) (win : WFWindow) :
    y.boundary w sel win = (x.boundary w sel win).redate τ := by
  simp only [boundary, Boundary.redate, h.cols, rowsAt_redate h, storeOf_redate hτ, h.rows, h.iter,
    h.dropSlip, List.map_map, Boundary.mk.injEq, true_and, and_true]
  refine ⟨?_, ?_, ?_⟩
  · funext s; exact dropBars_redate h _ s
  · rfl
  · funext s; exact dropBars_redate h _ s

theorem window_redate (h : Redated τ x y) (w : Nat) (sel : List Sym) (win : WFWindow) (store : Store) :
    y.window w sel win (store.redate τ) = (x.window w sel win store).redate τ := by
  simp only [window, Window.redate, storeDates_redate, h.cols, h.rows, storeOf_redate hτ, h.buyDelay,
    h.sellDelay, boundary_redate hτ h, Option.map_some, Window.mk.injEq, and_true]
  funext s
  split <;> rfl

theorem droppable_redate (h : Redated τ x y) (pf : Portfolio) (b : Boundary) (test master : Store) :
    y.droppable (pf.redate τ) (b.redate τ) (test.redate τ) (master.redate τ) =
      x.droppable pf b test master := by
  unfold droppable
  rw [show (b.redate τ).selected = b.selected from rfl, droppedSyms_redate]
  congr 1
  funext s
  have hp : ∀ (store : Store) (bar : DropBar),
      (match (store.redate τ).arrays s with
        | none => true
        | some a => closable (pf.redate τ) s (y.closePrices (store.redate τ)
            (fun _ => a.dates.idxOf (bar.redate τ).date + 1) s)) =
      (match store.arrays s with
        | none => true
        | some a => closable pf s (x.closePrices store (fun _ => a.dates.idxOf bar.date + 1) s)) := by
    intro store bar
    simp only [closePrices_redate h, closable_redate]
    rw [show (store.redate τ).arrays s = (store.arrays s).map (SymArrays.redate τ) from rfl]
    cases store.arrays s with
    | none => rfl
    | some a =>
      simp only [Option.map_some]
      have hi : (a.redate τ).dates.idxOf (bar.redate τ).date = a.dates.idxOf bar.date := by
        simp only [SymArrays.redate, DropBar.redate]
        generalize a.dates = l
        induction l with
        | nil => rfl
        | cons c l ih =>
          simp only [List.map_cons, List.idxOf_cons, ih, beq_eq_decide, hτ.injective.eq_iff]
      rw [hi]
  simp only [testExitBar_redate hτ, lateExitBar_redate hτ]
  cases testExitBar b s with
  | some bar => exact hp test bar
  | none =>
    simp only [Option.map_none]
    cases lateExitBar b s with
    | some bar => exact hp master bar
    | none => rfl

theorem bar_redate (h : Redated τ x y) (n : Nat) (w : Window) (store : Store) (cal : List Date)
    (sd : List (Sym × List Date)) (st : State) (d : Date) :
    y.bar n (w.redate τ) (store.redate τ) (cal.map τ) (sd.map (fun p => (p.1, p.2.map τ)))
      (st.redate τ) (τ d) = (x.bar n w store cal sd st d).map (State.redate τ) := by
  have hidx : (st.redate τ).idx = st.idx := rfl
  have hloop : (st.redate τ).loop = st.loop.redate τ := rfl
  have hwarm : ∀ m, y.warm m = x.warm m := fun m => by simp only [warm, h.warmup]
  simp only [bar, hidx, hloop, hwarm, activeSyms_redate hτ, barEnv_redate hτ h, h.cfg, barOrders_redate hτ]
  generalize hact : activeSyms sd cal d = active
  generalize bumpIndexes active st.idx = idx
  generalize hready : active.filter (fun s => x.warm (idx s)) = ready
  cases barOrders x.cfg (x.barEnv n store idx d) st.loop with
  | error e => rfl
  | ok s1 =>
    simp only [Except.map]
    have hcap : captureBar x.cfg (s1.redate τ).pf (τ d) ((x.barEnv n store idx d).redate τ).quote =
        (captureBar x.cfg s1.pf d (x.barEnv n store idx d).quote).redate τ :=
      captureBar_redate τ x.cfg s1.pf d (x.barEnv n store idx d).quote
    have hset : ∀ pf : Portfolio, { s1.redate τ with pf := pf.redate τ } =
      Loop.redate τ { s1 with pf := pf } := fun _ => rfl
    have harr : (fun s => ((store.redate τ).arrays s).map (fun a => a.upTo (idx s))) =
        (fun s => ((store.arrays s).map (fun a => a.upTo (idx s))).map (SymArrays.redate τ)) := by
      funext s
      simp only [Store.redate, Option.map_map]
      congr 1
      funext a
      exact upTo_redate a _
    simp only [hcap, hset, harr]
    obtain ⟨ha1, ha2⟩ := h.act n d (fun s => (store.arrays s).map (fun a => a.upTo (idx s)))
      { s1 with pf := captureBar x.cfg s1.pf d (x.barEnv n store idx d).quote } ready
    simp only [ha1, ha2]
    generalize hA : x.act n d (fun s => (store.arrays s).map (fun a => a.upTo (idx s)))
      { s1 with pf := captureBar x.cfg s1.pf d (x.barEnv n store idx d).quote } ready = a
    have hres : ready.filterMap (fun s => ((a.2 s).map (ExecResult.redate τ)).map
          (fun r => { r with symbol := s, date := τ d })) =
        (ready.filterMap (fun s => (a.2 s).map (fun r => { r with symbol := s, date := d }))).map
          (ExecResult.redate τ) := by
      rw [List.map_filterMap]
      congr 1
      funext s
      cases a.2 s <;> rfl
    rw [hres]
    generalize ready.filterMap (fun s => (a.2 s).map (fun r => { r with symbol := s, date := d })) = results
    simp only [exitDate_redate hτ h, redate_some hτ, closePrices_redate h]
    rw [show (s1.redate τ).pf = s1.pf.redate τ from rfl]
    simp only [closable_redate]
    generalize hex : ready.filter (fun s => x.exitDate s = some d) = exits
    by_cases hc : exits.all (fun s => closable s1.pf s (x.closePrices store idx s)) = true
    · simp only [hc, if_true]
      have hb := barSignals_redate hτ x.cfg w
        { env := x.barEnv n store idx d
          user := a.1
          results := results
          exits := exits.map (fun s => ForcedExit.mk s ((x.closePrices store idx s).1.getD 0)
            ((x.closePrices store idx s).2.getD 0)) } s1
      simp only [BarIn.redate] at hb
      rw [hb]
      cases barSignals x.cfg w _ s1 with
      | error e => rfl
      | ok s2 =>
        simp [Except.map, State.redate]
    · simp only [hc]
      rfl

omit hτ in
theorem each_redate {α β : Type} (f : State → α → Except RunErr State) (g : State → β → Except RunErr State)
    (v : α → β) (hfg : ∀ b a, g (b.redate τ) (v a) = (f b a).map (State.redate τ)) (b : State) (l : List α) :
    each g (b.redate τ) (l.map v) = (each f b l).map (State.redate τ) := by
  induction l generalizing b with
  | nil => rfl
  | cons a l ih =>
    simp only [List.map_cons, each, hfg]
    cases f b a with
    | error e => rfl
    | ok b' => exact ih b'

theorem runOne_redate (h : Redated τ x y) (st : State) (kw : WFWindow × Nat) :
    y.runOne (st.redate τ) kw = (x.runOne st kw).map (State.redate τ) := by
  simp only [runOne, rowsAt_redate h, windowExecutions_redate h.execs]
  cases windowExecutions (fun d : List DRow => (d.map DRow.symbol).dedup) List.isEmpty x.execs
      (x.rowsAt kw.1.train) with
  | error e => rfl
  | ok es =>
    simp only [h.cols, h.rows, storeOf_redate hτ, dates_redate h, datesOfRows_redate hτ, slice_redate hτ,
      window_redate hτ h, boundary_redate hτ h]
    rw [show (st.redate τ).loop = st.loop.redate τ from rfl,
      show (st.loop.redate τ).pf = st.loop.pf.redate τ from rfl]
    simp only [droppable_redate hτ h, h.cfg, startWindow_redate hτ, uniqueDates_redate hτ,
      symExecDates_redate]
    by_cases hd : x.droppable st.loop.pf (x.boundary kw.2 (selectedSymbols es) kw.1)
        (storeOf x.cols (x.rowsAt kw.1.test)) (storeOf x.cols x.rows) = true
    · simp only [hd, if_true]
      cases startWindow x.cfg st.loop _ with
      | error e => rfl
      | ok s1 =>
        rw [show Except.map (Loop.redate τ) (Except.ok s1 : Except BErr Loop) = .ok (s1.redate τ) from rfl]
        by_cases ht : kw.1.test = []
        · simp only [ht, if_true]
          rfl
        · simp only [ht, if_false]
          rw [← each_redate _ _ τ (fun b a => bar_redate hτ h _ _ _ _ _ b a)]
          rfl
    · simp only [hd]
      rfl

/-- **Only the order of dates matters (C149).**  A run on renamed dates, the order of which is kept,
raises the same error, or ends in the same state with its dates renamed. -/
theorem run_redated (h : Redated τ x y) : y.run = x.run.map (State.redate τ) := by
  unfold run
  rw [dates_redate h, h.windows, h.lookahead, h.trainSize, h.shuffle, split_redate hτ]
  cases walkforwardSplit x.dates x.windows x.lookahead x.trainSize x.shuffle with
  | error e => rfl
  | ok wins =>
    simp only
    have := each_redate (x.runOne) (y.runOne) id (fun b a => runOne_redate hτ h b a)
      { loop := { pf := Portfolio.init x.cfg } } wins.zipIdx
    rw [List.map_id] at this
    rw [← this, h.cfg]
    rfl

/-- **C149, what a user reads off a run.**  A run that ends ends on the renamed dates too: with the
same orders and trades, each on the renamed date, and the same cash, equity, market value and
profit on each date. -/
theorem results_redated (h : Redated τ x y) {s : State} (hx : x.run = .ok s) :
    ∃ t, y.run = .ok t ∧
      t.loop.pf.orders.map (fun o => (o.id, o.date, o.side, o.symbol, o.shares, o.fillPrice, o.fees)) =
        s.loop.pf.orders.map (fun o => (o.id, τ o.date, o.side, o.symbol, o.shares, o.fillPrice, o.fees)) ∧
      t.loop.pf.trades.map (fun r => (r.id, r.entryDate, r.exitDate, r.symbol, r.shares)) =
        s.loop.pf.trades.map (fun r => (r.id, τ r.entryDate, τ r.exitDate, r.symbol, r.shares)) ∧
      t.loop.pf.trades.map (fun r => (r.pnl, r.returnPct, r.bars)) =
        s.loop.pf.trades.map (fun r => (r.pnl, r.returnPct, r.bars)) ∧
      t.loop.pf.metrics.map (fun b => (b.date, b.cash, b.equity, b.marketValue)) =
        s.loop.pf.metrics.map (fun b => (τ b.date, b.cash, b.equity, b.marketValue)) := by
  refine ⟨s.redate τ, ?_, ?_, ?_, ?_, ?_⟩
  · rw [run_redated hτ h, hx]; rfl
  all_goals
    simp only [State.redate, Loop.redate, Portfolio.redate, List.map_map]
    rfl

/-- **C149, errors.**  An error is the same on every calendar. -/
theorem error_redated (h : Redated τ x y) {e : RunErr} : y.run = .error e ↔ x.run = .error e := by
  rw [run_redated hτ h]
  cases x.run with
  | error e' => rfl
  | ok s => exact ⟨fun h => (by cases h), fun h => (by cases h)⟩

end RunSetup

/-! ## Every run can be moved to another calendar -/

/-- An execution on renamed dates: a selector is given the old dates. -/
def Execn.redate (σ : Date → Date) (e : Execn (List DRow)) : Execn (List DRow) where
  id := e.id
  symbols := match e.symbols with
    | .fixed l => .fixed l
    | .selector f => .selector (fun rows => f (rows.map (DRow.redate σ)))

/-- A run on renamed dates: user code is given the old dates, and its answers are renamed. -/
def RunSetup.redate (τ σ : Date → Date) (x : RunSetup) : RunSetup :=
  { x with
    rows := x.rows.map (DRow.redate τ)
    execs := x.execs.map (Execn.redate σ)
    fns := fun n s a => x.fns n s (a.map (SymArrays.redate σ))
    orderSlip := fun w d => x.orderSlip w (σ d)
    exitSlip := fun w d => x.exitSlip w (σ d)
    act := fun w d a s l =>
      ((x.act w (σ d) (fun sym => (a sym).map (SymArrays.redate σ)) (s.redate σ) l).1,
       fun sym => ((x.act w (σ d) (fun sym => (a sym).map (SymArrays.redate σ)) (s.redate σ) l).2 sym).map
        (ExecResult.redate τ)) }

/-- **C149 is about every run**: if the renaming can be undone, each run has one on the renamed
dates. -/
theorem redated_exists (τ σ : Date → Date) (h : ∀ d, σ (τ d) = d) (x : RunSetup) :
    Redated τ x (x.redate τ σ) := by
  have hr : ∀ rows : List DRow, (rows.map (DRow.redate τ)).map (DRow.redate σ) = rows := fun rows => by
    rw [List.map_map, show DRow.redate σ ∘ DRow.redate τ = id from funext (fun r => by simp [DRow.redate, h]),
      List.map_id]
  have ha : ∀ a : Option SymArrays, (a.map (SymArrays.redate τ)).map (SymArrays.redate σ) = a := fun a => by
    cases a with
    | none => rfl
    | some a =>
      simp only [Option.map_some, SymArrays.redate, List.map_map, show σ ∘ τ = id from funext h, List.map_id]
  refine { cfg := rfl, cols := rfl, rows := rfl, execs := ?_, windows := rfl, lookahead := rfl,
           trainSize := rfl, shuffle := rfl, buyDelay := rfl, sellDelay := rfl, warmup := rfl,
           exitOnLast := rfl, exitCover := rfl, exitSell := rfl, round := rfl, iter := rfl, fns := ?_,
           orderSlip := ?_, exitSlip := ?_, dropSlip := rfl, act := ?_ }
  · show List.Forall₂ (RedatedExec τ) x.execs (x.execs.map (Execn.redate σ))
    generalize x.execs = es
    induction es with
    | nil => exact .nil
    | cons e es ih =>
      refine .cons ⟨rfl, ?_⟩ ih
      obtain ⟨i, s⟩ := e
      cases s with
      | fixed l => rfl
      | selector f =>
        intro rows
        show f ((rows.map (DRow.redate τ)).map (DRow.redate σ)) = f rows
        rw [hr]
  · intro n s a
    simp only [RunSetup.redate, ha]
  · intro w d
    simp only [RunSetup.redate, h]
  · intro w d
    simp only [RunSetup.redate, h]
  · intro w d a s l
    simp only [RunSetup.redate, h, ha, Loop.redate_redate h]
    simp

/-! ## Metrics -/

/-- **C149, metrics.**  On renamed dates every evaluation metric is the same; the date of the maximum
drawdown is renamed. -/
theorem metrics_redated {K : Type} [Field K] [LinearOrder K] (F : Fns K) (pow : K → K → Option K)
    (barsPerYear : Option Nat) (τ : Date → Date) (dates : List Date) (mv fees : List K) (ts : List (TRow K)) :
    calcEvalMetrics F pow barsPerYear (dates.map τ) mv fees ts =
      (calcEvalMetrics F pow barsPerYear dates mv fees ts).map
        (fun m => { m with maxDrawdownDate := m.maxDrawdownDate.map τ }) := by
  unfold calcEvalMetrics
  rw [Option.map_map]
  congr 1
  funext m
  simp only [Function.comp, AllMetrics.mk.injEq, true_and, and_true]
  cases m.maxDrawdownIndex with
  | none => rfl
  | some i => simp only [Option.bind_some, ← List.map_tail, List.getElem?_map]

/-! ## Examples -/

namespace Demo

/-- A gap of a hundred days after date 3. -/
def rdShift (d : Int) : Int := if d ≤ 3 then d else d + 100

def rdUnshift (d : Int) : Int := if d ≤ 3 then d else d - 100

def rdGap : Date → Date := rdShift

def rdBack : Date → Date := rdUnshift

theorem rdShift_lt (a b : Int) (h : a < b) : rdShift a < rdShift b := by
  unfold rdShift
  split_ifs <;> omega

theorem rdUnshift_shift (d : Int) : rdUnshift (rdShift d) = d := by
  unfold rdUnshift rdShift
  split_ifs <;> omega

theorem rdGap_mono : StrictMono rdGap := fun a b h => rdShift_lt a b h

theorem rdBack_gap (d : Date) : rdBack (rdGap d) = d := rdUnshift_shift d

/-- The two windows of the demo run, with a gap between dates 3 and 4, make the same trades. -/
example : ∃ t, (drRun.redate rdGap rdBack).run = .ok t ∧
    t.loop.pf.orders.map (fun o => (o.id, o.date, o.side, o.symbol, o.shares, o.fillPrice, o.fees)) =
      (drEnd drRun).loop.pf.orders.map
        (fun o => (o.id, rdGap o.date, o.side, o.symbol, o.shares, o.fillPrice, o.fees)) := by
  obtain ⟨t, h1, h2, _⟩ := RunSetup.results_redated rdGap_mono
    (redated_exists rdGap rdBack rdBack_gap drRun) drRun_run
  exact ⟨t, h1, h2⟩

example : (drEnd (drRun.redate rdGap rdBack)).loop.pf.orders.map (fun o => (o.date, o.symbol, o.shares)) =
    [(2, "AAA", 10), (105, "BBB", 5), (105, "BBB", 5), (106, "AAA", 10)] := by decide +kernel

end Demo

end PyBroker
