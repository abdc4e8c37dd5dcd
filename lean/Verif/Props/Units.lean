import Verif.Backtest.UnitsRun
import Verif.Props.Drive

/-!
# The unit of money does not matter (C144)

`Verif/Portfolio/Units.lean`, `Verif/Backtest/Units.lean` and `Verif/Backtest/UnitsRun.lean` say
what each record is in another unit: amounts of money are multiplied by `k`, everything else
stays.
-/

namespace PyBroker

/-! ## Specification -/

/-- The same execution in another unit: the same symbols, or a selector that gives the same
symbols for the data in the other unit. -/
def Spec.SameExec (k : ℚ) (priced : String → Bool) (e e' : Execn (List DRow)) : Prop :=
  e'.id = e.id ∧
    match e.symbols, e'.symbols with
    | .fixed l, .fixed l' => l' = l
    | .selector f, .selector g => ∀ rows, g (rows.map (DRow.units k priced)) = f rows
    | _, _ => False

/-- The same slippage model in another unit: asked with `k` times the price, it gives the same
shares and `k` times the price. -/
def Spec.SameSlip (k : ℚ) (f g : SlipFn) : Prop :=
  ∀ side sym n p, g side sym n (k * p) = ((f side sym n p).1, k * (f side sym n p).2)

/-- The same slippage model for orders in another unit. -/
def Spec.SameModel (k : ℚ) : SlipModel → SlipModel → Prop
  | .fixed b, .fixed b' => b' = b
  | .noop, .noop => True
  | .general f, .general g => Spec.SameSlip k f g
  | _, _ => False

/-- Two optional models are both missing or correspond. -/
def Spec.SameOpt {α β : Type} (r : α → β → Prop) : Option α → Option β → Prop
  | none, none => True
  | some a, some b => r a b
  | _, _ => False

/-- The run `y` is the run `x` in another unit, `k` of which are one of the old: the cash and the
fees, the money columns of the data and fill prices given as numbers are `k` times as large, and
user code that is shown everything times `k` asks for the same shares of the same symbols, with
limits, fill prices and points of stops times `k`.  `priced` says which columns are money. -/
structure Spec.InUnit (k : ℚ) (priced : String → Bool) (x y : RunSetup) : Prop where
  columns : priced "open" = true ∧ priced "high" = true ∧ priced "low" = true ∧ priced "close" = true
  cfg : y.cfg = x.cfg.units k
  cols : y.cols = x.cols
  rows : y.rows = x.rows.map (DRow.units k priced)
  execs : List.Forall₂ (Spec.SameExec k priced) x.execs y.execs
  windows : y.windows = x.windows
  lookahead : y.lookahead = x.lookahead
  trainSize : y.trainSize = x.trainSize
  shuffle : y.shuffle = x.shuffle
  buyDelay : y.buyDelay = x.buyDelay
  sellDelay : y.sellDelay = x.sellDelay
  warmup : y.warmup = x.warmup
  exitOnLast : y.exitOnLast = x.exitOnLast
  exitCover : y.exitCover = x.exitCover.units k
  exitSell : y.exitSell = x.exitSell.units k
  round : y.round = x.round
  iter : y.iter = x.iter
  fns : ∀ n s a, y.fns n s (a.map (SymArrays.units k priced)) = (x.fns n s a).map (k * ·)
  orderSlip : ∀ w d, Spec.SameOpt (Spec.SameModel k) (x.orderSlip w d) (y.orderSlip w d)
  exitSlip : ∀ w d, Spec.SameOpt (Spec.SameSlip k) (x.exitSlip w d) (y.exitSlip w d)
  dropSlip : ∀ w, Spec.SameOpt (Spec.SameSlip k) (x.dropSlip w) (y.dropSlip w)
  act : ∀ w d a s l,
    (y.act w d (fun sym => (a sym).map (SymArrays.units k priced)) (s.units k) l).1 =
      (x.act w d a s l).1 ∧
    ∀ sym, (y.act w d (fun sym => (a sym).map (SymArrays.units k priced)) (s.units k) l).2 sym =
      ((x.act w d a s l).2 sym).map (ExecResult.units k)

open PyBroker.Spec

/-! ## Models and executions -/

theorem sameSlip_eq {k : ℚ} (hk : 0 < k) {f g : SlipFn} (h : SameSlip k f g) : g = SlipFn.units k f := by
  funext side sym n p
  have := h side sym n (k⁻¹ * p)
  rw [k_inv' hk] at this
  rw [this]
  rfl

theorem sameSlip_opt {k : ℚ} (hk : 0 < k) {f g : Option SlipFn} (h : SameOpt (SameSlip k) f g) :
    g = f.map (SlipFn.units k) := by
  cases f <;> cases g
  · rfl
  · exact h.elim
  · exact h.elim
  · rw [sameSlip_eq hk h]; rfl

theorem sameModel_opt {k : ℚ} (hk : 0 < k) {f g : Option SlipModel} (h : SameOpt (SameModel k) f g) :
    g = f.map (SlipModel.units k) := by
  cases f with
  | none =>
    cases g with
    | none => rfl
    | some m => exact h.elim
  | some m =>
    cases g with
    | none => exact h.elim
    | some m' =>
      cases m <;> cases m' <;> first
        | exact (show False from h).elim
        | skip
      · rw [show _ = _ from h]; rfl
      · rfl
      · rw [sameSlip_eq hk h]; rfl

theorem sameExec_selector {k : ℚ} {priced : String → Bool} {e e' : Execn (List DRow)}
    (h : SameExec k priced e e') :
    e'.symbols.isSelector = e.symbols.isSelector ∧ e'.symbols.static = e.symbols.static ∧
      (e.symbols.isSelector = false → e' = e) := by
  obtain ⟨i, s⟩ := e
  obtain ⟨j, t⟩ := e'
  obtain ⟨h1, h2⟩ := h
  simp only at h1 h2
  subst h1
  cases s <;> cases t <;> simp only at h2
  · subst h2; exact ⟨rfl, rfl, fun _ => rfl⟩
  · exact ⟨rfl, rfl, fun h => by simp [ExecSyms.isSelector] at h⟩

theorem sameExecs {k : ℚ} {priced : String → Bool} {es es' : List (Execn (List DRow))}
    (h : List.Forall₂ (SameExec k priced) es es') :
    es'.any (fun e => e.symbols.isSelector) = es.any (fun e => e.symbols.isSelector) ∧
      selectedSymbols es' = selectedSymbols es ∧
      (es.any (fun e => e.symbols.isSelector) = false → es' = es) := by
  induction h with
  | nil => exact ⟨rfl, rfl, fun _ => rfl⟩
  | cons h _ ih =>
    obtain ⟨h1, h2, h3⟩ := sameExec_selector h
    refine ⟨?_, ?_, ?_⟩
    · simp only [List.any_cons, h1, ih.1]
    · simp only [selectedSymbols, List.flatMap_cons, h2] at ih ⊢
      rw [ih.2.1]
    · intro hs
      simp only [List.any_cons, Bool.or_eq_false_iff] at hs
      rw [h3 hs.1, ih.2.2 hs.2]

theorem resolveLoop_units {k : ℚ} {priced : String → Bool} {es es' : List (Execn (List DRow))}
    (h : List.Forall₂ (SameExec k priced) es es') (rows : List DRow) (seen : List Sym) :
    resolveLoop (fun d : List DRow => (d.map DRow.symbol).dedup) (rows.map (DRow.units k priced)) es' seen =
      resolveLoop (fun d : List DRow => (d.map DRow.symbol).dedup) rows es seen := by
  have hsym : (rows.map (DRow.units k priced)).map DRow.symbol = rows.map DRow.symbol := by
    rw [List.map_map]; rfl
  induction h generalizing seen with
  | nil => rfl
  | @cons e e' es es' h _ ih =>
    have hr : resolveSymbols (fun d : List DRow => (d.map DRow.symbol).dedup)
        (rows.map (DRow.units k priced)) e' =
        resolveSymbols (fun d : List DRow => (d.map DRow.symbol).dedup) rows e := by
      obtain ⟨i, s⟩ := e
      obtain ⟨j, t⟩ := e'
      obtain ⟨h1, h2⟩ := h
      simp only at h1 h2
      cases s <;> cases t <;> simp only at h2
      · subst h2; rfl
      · simp only [resolveSymbols, h2, hsym]
    simp only [resolveLoop, hr, ih, h.1]

theorem windowExecutions_units {k : ℚ} {priced : String → Bool} {es es' : List (Execn (List DRow))}
    (h : List.Forall₂ (SameExec k priced) es es') (rows : List DRow) :
    (windowExecutions (fun d : List DRow => (d.map DRow.symbol).dedup) List.isEmpty es'
      (rows.map (DRow.units k priced))) =
    (windowExecutions (fun d : List DRow => (d.map DRow.symbol).dedup) List.isEmpty es rows) := by
  obtain ⟨h1, _, h3⟩ := sameExecs h
  have he : (rows.map (DRow.units k priced)).isEmpty = rows.isEmpty := by cases rows <;> rfl
  simp only [windowExecutions, selectionDf, he, h1]
  cases hs : es.any (fun e => e.symbols.isSelector) with
  | false =>
    rw [h3 hs]
    cases hr : rows.isEmpty <;> simp
  | true =>
    cases hr : rows.isEmpty
    · simp [resolveExecutions, resolveLoop_units h]
    · simp

/-! ## The run -/

namespace RunSetup

variable {k : ℚ} {priced : String → Bool} {x y : RunSetup}

theorem dates_units (h : InUnit k priced x y) : y.dates = x.dates := by
  unfold dates
  rw [h.rows, List.map_map]
  rfl

theorem rowsAt_units (h : InUnit k priced x y) (idx : List Nat) :
    y.rowsAt idx = (x.rowsAt idx).map (DRow.units k priced) := by
  unfold rowsAt
  rw [h.rows, List.map_filterMap]
  congr 1
  funext i
  rw [List.getElem?_map]

theorem priceAt_units (hk : 0 < k) (h : InUnit k priced x y) (hr : x.round = false) (store : Store)
    (idx : Sym → Nat) (sym : Sym) (f : FillSpec) :
    y.priceAt (store.units k priced) idx sym (f.units k) = money k (x.priceAt store idx sym f) := by
  have hr' : y.round = false := h.round.trans hr
  unfold priceAt
  cases f with
  | price t =>
    simp only [FillSpec.units, fillPrice, PriceScope.fetchFloat]
    have := fetchPriceType_units (k := k) h.columns store idx x.round sym t
    rw [h.round]
    rcases ha : PriceScope.fetchPriceType { store := store.units k priced, endIndex := idx, round := x.round } sym t
      with ⟨a1, a2⟩
    rcases hb : PriceScope.fetchPriceType { store := store, endIndex := idx, round := x.round } sym t
      with ⟨b1, b2⟩
    rw [ha, hb] at this
    simp only at this
    subst this
    cases b1 with
    | error e => rfl
    | ok v => simp [Except.map, PriceScope.roundFloat, hr]
  | amount q =>
    simp [FillSpec.units, fillPrice, PriceScope.fetchFloat, PriceScope.roundFloat, hr, hr', money]
  | callable n =>
    simp only [FillSpec.units, fillPrice, PriceScope.fetchFloat, PriceScope.roundFloat, hr, hr']
    have : ((store.units k priced).arrays sym).map (fun a => a.upTo (idx sym)) =
        ((store.arrays sym).map (fun a => a.upTo (idx sym))).map (SymArrays.units k priced) := by
      simp only [Store.units, Option.map_map]
      congr 1
      funext a
      exact upTo_units a _
    rw [this, h.fns]
    rfl

theorem closePrices_units (hk : 0 < k) (h : InUnit k priced x y) (hr : x.round = false) (store : Store)
    (idx : Sym → Nat) (sym : Sym) :
    y.closePrices (store.units k priced) idx sym =
      (money k (x.closePrices store idx sym).1, money k (x.closePrices store idx sym).2) := by
  simp only [closePrices, h.exitCover, h.exitSell, priceAt_units hk h hr]

theorem closable_units (pf : Portfolio) (sym : Sym) (p : Option ℚ × Option ℚ) :
    closable (pf.units k) sym (money k p.1, money k p.2) = closable pf sym p := by
  unfold closable
  rw [show (pf.units k).shorts = pf.shorts.map (Position.units k) from rfl,
    show (pf.units k).longs = pf.longs.map (Position.units k) from rfl, lookupPos_units, lookupPos_units]
  simp [money]

theorem FillSpec.units_inv' (hk : 0 < k) (f : FillSpec) : (f.units k⁻¹).units k = f := by
  cases f <;> simp [FillSpec.units, hk.ne']

theorem barEnv_units (hk : 0 < k) (h : InUnit k priced x y) (hr : x.round = false) (w : Nat)
    (store : Store) (idx : Sym → Nat) (d : Date) :
    y.barEnv w (store.units k priced) idx d = (x.barEnv w store idx d).units k := by
  have hp : ∀ s f, y.priceAt (store.units k priced) idx s f =
      money k (x.priceAt store idx s (f.units k⁻¹)) := fun s f => by
    rw [← priceAt_units hk h hr, FillSpec.units_inv' hk]
  simp only [barEnv, BarEnv.units, StopEnv.units, hasBarOnRaw_units, barOhlcRaw_units h.columns,
    closeNone_units, h.round, sameSlip_opt hk (h.exitSlip w d), sameModel_opt hk (h.orderSlip w d)]
  congr 1
  · funext s f; exact hp s f
  · congr 1
    · funext s
      simp [ohlcUnits, money]
    · funext s t; exact hp s (.price t)
    · funext s f; exact hp s f
  · funext s
    generalize PriceScope.barOhlcRaw { store := store, endIndex := idx, round := x.round } s d = q
    obtain ⟨c, l, u⟩ := q
    cases c with
    | none => rfl
    | some v => simp [ohlcUnits, money, BarQuote.units]

theorem exitDate_units (h : InUnit k priced x y) (sym : Sym) : y.exitDate sym = x.exitDate sym := by
  obtain ⟨h1, h2, _⟩ := sameExecs h.execs
  have h3 : (y.rows.filter (fun r => r.symbol = sym)).map DRow.date =
      (x.rows.filter (fun r => r.symbol = sym)).map DRow.date := by
    rw [h.rows, List.filter_map, List.map_map]
    rfl
  unfold exitDate selects
  rw [h.exitOnLast, h1, h2, h3]

theorem dropBars_units (hk : 0 < k) (h : InUnit k priced x y) (hr : x.round = false) (store : Store)
    (sym : Sym) :
    y.dropBars (store.units k priced) sym = (x.dropBars store sym).map (DropBar.units k) := by
  unfold dropBars
  rw [show (store.units k priced).arrays sym = (store.arrays sym).map (SymArrays.units k priced) from rfl]
  cases store.arrays sym with
  | none => rfl
  | some a =>
    simp only [Option.map_some, List.map_map]
    rw [show (a.units k priced).dates = a.dates from rfl]
    apply List.map_congr_left
    intro di _
    simp only [closePrices_units hk h hr, Function.comp, DropBar.units, DropBar.mk.injEq, true_and]
    constructor
    · cases (x.closePrices store (fun _ => di.2 + 1) sym).1 <;> simp [money]
    · cases (x.closePrices store (fun _ => di.2 + 1) sym).2 <;> simp [money]

theorem boundary_units (hk : 0 < k) (h : InUnit k priced x y) (hr : x.round = false) (w : Nat)
    (sel : List Sym) (win : WFWindow) : y.boundary w sel win = (x.boundary w sel win).units k := by
  simp only [boundary, Boundary.units, h.cols, rowsAt_units h, storeOf_units, h.rows, h.iter,
    sameSlip_opt hk (h.dropSlip w), List.map_map, Boundary.mk.injEq, true_and, and_true]
  refine ⟨?_, ?_, ?_⟩
  · funext s; exact dropBars_units hk h hr _ s
  · rfl
  · funext s; exact dropBars_units hk h hr _ s

theorem window_units (hk : 0 < k) (h : InUnit k priced x y) (hr : x.round = false) (w : Nat)
    (sel : List Sym) (win : WFWindow) (store : Store) :
    y.window w sel win (store.units k priced) = (x.window w sel win store).units k := by
  simp only [window, Window.units, storeDates_units, h.cols, h.rows, storeOf_units, h.buyDelay,
    h.sellDelay, boundary_units hk h hr, Option.map_some]

theorem droppable_units (hk : 0 < k) (h : InUnit k priced x y) (hr : x.round = false) (pf : Portfolio)
    (b : Boundary) (test master : Store) :
    y.droppable (pf.units k) (b.units k) (test.units k priced) (master.units k priced) =
      x.droppable pf b test master := by
  unfold droppable
  rw [show (b.units k).selected = b.selected from rfl, droppedSyms_units]
  congr 1
  funext s
  have hp : ∀ (store : Store) (bar : DropBar),
      (match (store.units k priced).arrays s with
        | none => true
        | some a => closable (pf.units k) s (y.closePrices (store.units k priced)
            (fun _ => a.dates.idxOf (bar.units k).date + 1) s)) =
      (match store.arrays s with
        | none => true
        | some a => closable pf s (x.closePrices store (fun _ => a.dates.idxOf bar.date + 1) s)) := by
    intro store bar
    simp only [closePrices_units hk h hr, closable_units]
    rw [show (store.units k priced).arrays s = (store.arrays s).map (SymArrays.units k priced) from rfl]
    cases store.arrays s <;> rfl
  simp only [testExitBar_units, lateExitBar_units]
  cases testExitBar b s with
  | some bar => exact hp test bar
  | none =>
    simp only [Option.map_none]
    cases lateExitBar b s with
    | some bar => exact hp master bar
    | none => rfl

theorem bar_units (hk : 0 < k) (h : InUnit k priced x y) (hr : x.round = false) (n : Nat) (w : Window)
    (store : Store) (cal : List Date) (sd : List (Sym × List Date)) (st : State) (d : Date) :
    y.bar n (w.units k) (store.units k priced) cal sd (st.units k) d =
      (x.bar n w store cal sd st d).map (State.units k) := by
  have hidx : (st.units k).idx = st.idx := rfl
  have hloop : (st.units k).loop = st.loop.units k := rfl
  have hwarm : ∀ m, y.warm m = x.warm m := fun m => by simp only [warm, h.warmup]
  simp only [bar, hidx, hloop, hwarm, barEnv_units hk h hr, h.cfg, barOrders_units hk]
  generalize hact : activeSyms sd cal d = active
  generalize bumpIndexes active st.idx = idx
  generalize hready : active.filter (fun s => x.warm (idx s)) = ready
  cases barOrders x.cfg (x.barEnv n store idx d) st.loop with
  | error e => rfl
  | ok s1 =>
    simp only [Except.map]
    have hcap : captureBar (x.cfg.units k) (s1.units k).pf d ((x.barEnv n store idx d).units k).quote =
        (captureBar x.cfg s1.pf d (x.barEnv n store idx d).quote).units k :=
      captureBar_units hk x.cfg s1.pf d (x.barEnv n store idx d).quote
    have hset : ∀ pf : Portfolio, { s1.units k with pf := pf.units k } =
      Loop.units k { s1 with pf := pf } := fun _ => rfl
    have harr : (fun s => ((store.units k priced).arrays s).map (fun a => a.upTo (idx s))) =
        (fun s => ((store.arrays s).map (fun a => a.upTo (idx s))).map (SymArrays.units k priced)) := by
      funext s
      simp only [Store.units, Option.map_map]
      congr 1
      funext a
      exact upTo_units a _
    simp only [hcap, hset, harr]
    obtain ⟨ha1, ha2⟩ := h.act n d (fun s => (store.arrays s).map (fun a => a.upTo (idx s)))
      { s1 with pf := captureBar x.cfg s1.pf d (x.barEnv n store idx d).quote } ready
    simp only [ha1, ha2]
    generalize hA : x.act n d (fun s => (store.arrays s).map (fun a => a.upTo (idx s)))
      { s1 with pf := captureBar x.cfg s1.pf d (x.barEnv n store idx d).quote } ready = a
    have hres : ready.filterMap (fun s => ((a.2 s).map (ExecResult.units k)).map
          (fun r => { r with symbol := s, date := d })) =
        (ready.filterMap (fun s => (a.2 s).map (fun r => { r with symbol := s, date := d }))).map
          (ExecResult.units k) := by
      rw [List.map_filterMap]
      congr 1
      funext s
      cases a.2 s <;> rfl
    rw [hres]
    generalize ready.filterMap (fun s => (a.2 s).map (fun r => { r with symbol := s, date := d })) = results
    simp only [exitDate_units h, closePrices_units hk h hr]
    rw [show (s1.units k).pf = s1.pf.units k from rfl]
    simp only [closable_units]
    generalize hex : ready.filter (fun s => x.exitDate s = some d) = exits
    by_cases hc : exits.all (fun s => closable s1.pf s (x.closePrices store idx s)) = true
    · simp only [hc, if_true]
      have hexits : exits.map (fun s => ForcedExit.mk s
            ((money k (x.closePrices store idx s).1).getD 0) ((money k (x.closePrices store idx s).2).getD 0)) =
          (exits.map (fun s => ForcedExit.mk s ((x.closePrices store idx s).1.getD 0)
            ((x.closePrices store idx s).2.getD 0))).map (ForcedExit.units k) := by
        rw [List.map_map]
        apply List.map_congr_left
        intro s _
        simp only [Function.comp, ForcedExit.units, ForcedExit.mk.injEq, true_and]
        constructor
        · cases (x.closePrices store idx s).1 <;> simp [money]
        · cases (x.closePrices store idx s).2 <;> simp [money]
      rw [hexits]
      have hb := barSignals_units hk x.cfg w
        { env := x.barEnv n store idx d
          user := a.1
          results := results
          exits := exits.map (fun s => ForcedExit.mk s ((x.closePrices store idx s).1.getD 0)
            ((x.closePrices store idx s).2.getD 0)) } s1
      simp only [BarIn.units] at hb
      rw [hb]
      cases barSignals x.cfg w _ s1 with
      | error e => rfl
      | ok s2 =>
        simp [Except.map, State.units]
    · simp only [hc, if_false]
      rfl

theorem each_units {α : Type} (f g : State → α → Except RunErr State)
    (hfg : ∀ b a, g (b.units k) a = (f b a).map (State.units k)) (b : State) (l : List α) :
    each g (b.units k) l = (each f b l).map (State.units k) := by
  induction l generalizing b with
  | nil => rfl
  | cons a l ih =>
    simp only [each, hfg]
    cases f b a with
    | error e => rfl
    | ok b' => exact ih b'

theorem runOne_units (hk : 0 < k) (h : InUnit k priced x y) (hr : x.round = false) (st : State)
    (kw : WFWindow × Nat) :
    y.runOne (st.units k) kw = (x.runOne st kw).map (State.units k) := by
  simp only [runOne, rowsAt_units h, windowExecutions_units h.execs]
  cases windowExecutions (fun d : List DRow => (d.map DRow.symbol).dedup) List.isEmpty x.execs
      (x.rowsAt kw.1.train) with
  | error e => rfl
  | ok es =>
    simp only [h.cols, h.rows, storeOf_units, dates_units h, slice_units, window_units hk h hr,
      boundary_units hk h hr]
    rw [show (st.units k).loop = st.loop.units k from rfl,
      show (st.loop.units k).pf = st.loop.pf.units k from rfl]
    simp only [droppable_units hk h hr, h.cfg, startWindow_units hk, uniqueDates_units,
      symExecDates_units]
    by_cases hd : x.droppable st.loop.pf (x.boundary kw.2 (selectedSymbols es) kw.1)
        (storeOf x.cols (x.rowsAt kw.1.test)) (storeOf x.cols x.rows) = true
    · simp only [hd, if_true]
      cases startWindow x.cfg st.loop _ with
      | error e => rfl
      | ok s1 =>
        rw [show Except.map (Loop.units k) (Except.ok s1 : Except BErr Loop) = .ok (s1.units k) from rfl]
        by_cases ht : kw.1.test = []
        · simp only [ht, if_true]
          rfl
        · simp only [ht, if_false]
          rw [← each_units _ _ (fun b a => bar_units hk h hr _ _ _ _ _ b a)]
          rfl
    · simp only [hd]
      rfl

/-- **The unit of money does not matter (C144), partial: without rounding of fill prices.**  A run
in another unit raises the same error, or ends in the same state with every amount in the other
unit. -/
theorem run_in_unit_partial (hk : 0 < k) (h : InUnit k priced x y) (hr : x.round = false) :
    y.run = x.run.map (State.units k) := by
  unfold run
  rw [dates_units h, h.windows, h.lookahead, h.trainSize, h.shuffle]
  cases walkforwardSplit x.dates x.windows x.lookahead x.trainSize x.shuffle with
  | error e => rfl
  | ok wins =>
    simp only
    rw [← each_units _ _ (fun b a => runOne_units hk h hr b a)]
    congr 1
    simp [State.units, Loop.units, Portfolio.init, h.cfg, Portfolio.units, Config.units, money,
      PendingScope.units]

/-- **C144, what a user reads off a run (partial: without rounding of fill prices).**  A run that
ends in one unit ends in the other: with the same orders of the same shares on the same dates at
prices `k` times as large, the same trades with the same return in percent and `k` times the
profit, and cash, equity and market value that are `k` times as large on every date. -/
theorem results_in_unit_partial (hk : 0 < k) (h : InUnit k priced x y) (hr : x.round = false) {s : State}
    (hx : x.run = .ok s) :
    ∃ t, y.run = .ok t ∧
      t.loop.pf.orders.map (fun o => (o.id, o.side, o.date, o.symbol, o.shares)) =
        s.loop.pf.orders.map (fun o => (o.id, o.side, o.date, o.symbol, o.shares)) ∧
      t.loop.pf.orders.map (fun o => (o.fillPrice, o.fees)) =
        s.loop.pf.orders.map (fun o => (k * o.fillPrice, k * o.fees)) ∧
      t.loop.pf.trades.map (fun r => (r.id, r.symbol, r.entryDate, r.exitDate, r.shares, r.returnPct)) =
        s.loop.pf.trades.map (fun r => (r.id, r.symbol, r.entryDate, r.exitDate, r.shares, r.returnPct)) ∧
      t.loop.pf.trades.map (fun r => r.pnl) = s.loop.pf.trades.map (fun r => k * r.pnl) ∧
      t.loop.pf.metrics.map (fun b => (b.date, b.cash, b.equity, b.marketValue)) =
        s.loop.pf.metrics.map (fun b => (b.date, k * b.cash, k * b.equity, k * b.marketValue)) := by
  refine ⟨s.units k, ?_, ?_, ?_, ?_, ?_, ?_⟩
  · rw [run_in_unit_partial hk h hr, hx]; rfl
  all_goals
    simp only [State.units, Loop.units, Portfolio.units, List.map_map]
    rfl

/-- An error is the same in every unit. -/
theorem error_in_unit_partial (hk : 0 < k) (h : InUnit k priced x y) (hr : x.round = false)
    {e : RunErr} : y.run = .error e ↔ x.run = .error e := by
  rw [run_in_unit_partial hk h hr]
  cases x.run with
  | error e' => rfl
  | ok s => exact ⟨fun h => (by cases h), fun h => (by cases h)⟩

end RunSetup

/-! ## Slippage models -/

namespace Slippage

/-- The bars of a slippage model in another unit. -/
def Bars.units (k : ℚ) (b : Bars) : Bars :=
  { b with cols := b.cols.map (fun c =>
      (c.1.map (money k), c.2.1.map (money k), c.2.2.map (money k))) }

/-- What a slippage model is given in another unit. -/
def Ctx.units (k : ℚ) (c : Ctx) : Ctx :=
  { c with fill := k * c.fill, bars := c.bars.map (Bars.units k) }

theorem trueRange_units {k : ℚ} (hk : 0 < k) (p h l : Option ℚ) :
    trueRange (money k p) (money k h) (money k l) = money k (trueRange p h l) := by
  simp only [trueRange, subN_units hk, ltN_units hk]
  split_ifs <;> simp_all [subN_units hk, ltN_units hk]

theorem atrTotal_units {k : ℚ} (hk : 0 < k) (l : List (Option ℚ × Option ℚ × Option ℚ)) (t p : Option ℚ) :
    atrTotal (money k t) (money k p) (l.map (fun b => (money k b.1, money k b.2.1, money k b.2.2))) =
      money k (atrTotal t p l) := by
  induction l generalizing t p with
  | nil => rfl
  | cons b l ih =>
    obtain ⟨h, lo, c⟩ := b
    simp only [List.map_cons, atrTotal, trueRange_units hk, addN_units hk, ih]

theorem lastAtr_units {k : ℚ} (hk : 0 < k) (n : Nat) (l : List (Option ℚ × Option ℚ × Option ℚ)) :
    lastAtr n (l.map (fun b => (money k b.1, money k b.2.1, money k b.2.2))) = money k (lastAtr n l) := by
  cases l with
  | nil => rfl
  | cons b l =>
    obtain ⟨h, lo, c⟩ := b
    simp only [List.map_cons, lastAtr]
    have := atrTotal_units hk l (some 0) c
    simp only [money, Option.map_some, mul_zero] at this
    simp only [money]
    rw [this]
    cases atrTotal (some 0) c l with
    | none => rfl
    | some t => simp [mul_div_assoc]

theorem fillAtr_units {k : ℚ} (hk : 0 < k) (n : Nat) (b : Bars) :
    fillAtr n (b.units k) = money k (fillAtr n b) := by
  simp only [fillAtr]
  rw [show (b.units k).endIndex = b.endIndex from rfl]
  split
  · rfl
  · simp only [Bars.units]
    cases b.cols with
    | none => rfl
    | some c =>
      obtain ⟨h, l, c⟩ := c
      simp only [Option.map_some, List.length_map]
      split
      · rfl
      · rw [← lastAtr_units hk]
        congr 1
        have hm : ∀ (m : Nat) (q : List (Option ℚ)), lastN m (q.map (money k)) = (lastN m q).map (money k) :=
          fun m q => by simp [lastN, List.map_drop]
        simp only [hm, List.zip_map]
        rfl

/-- **C144.**  The three slippage models of the library do not depend on the unit: given prices times
`k`, each gives the same shares and `k` times the price. -/
theorem slippage_in_unit {k : ℚ} (hk : 0 < k) (c : Ctx) :
    (∀ bps, fixedApply bps (c.units k) = ((fixedApply bps c).1, k * (fixedApply bps c).2)) ∧
    (∀ n scale, volatilityApply n scale (c.units k) =
      ((volatilityApply n scale c).1, k * (volatilityApply n scale c).2)) ∧
    (∀ p, volumeApply p (c.units k) = ((volumeApply p c).1, k * (volumeApply p c).2)) := by
  refine ⟨?_, ?_, ?_⟩
  · intro bps
    simp only [fixedApply, fixedAdjust, Ctx.units]
    split_ifs
    · rfl
    · simp only [Prod.mk.injEq, true_and]; ring
  · intro n scale
    simp only [volatilityApply]
    split_ifs with h0
    · rfl
    · simp only [Ctx.units]
      cases c.bars with
      | none => rfl
      | some b =>
        simp only [Option.map_some, fillAtr_units hk]
        cases fillAtr n b with
        | none => rfl
        | some a =>
          simp only [money, Option.map_some, Prod.mk.injEq, true_and]
          have e1 : adversePrice c.side (k * c.fill) (scale * (k * a)) =
              k * adversePrice c.side c.fill (scale * a) := by
            unfold adversePrice; cases c.side <;> simp only <;> ring
          have e2 : k * c.fill * (1 / 100) = k * (c.fill * (1 / 100)) := by ring
          simp only [e1, e2, k_lt hk]
          by_cases hc : adversePrice c.side c.fill (scale * a) < c.fill * (1 / 100) <;>
            simp only [hc, if_true, if_false]
  · intro p
    have hs : ∀ v, cappedShares p (c.units k) v = cappedShares p c v := fun v => rfl
    have hi : ∀ v n, impactPrice p (c.units k) v n = k * impactPrice p c v n := by
      intro v n
      simp only [impactPrice, Ctx.units]
      split
      · cases c.side with
        | buy => simp only; ring
        | sell =>
          simp only
          have e1 : k * c.fill * (1 - p.impact * (n / v) * (n / v)) =
            k * (c.fill * (1 - p.impact * (n / v) * (n / v))) := by ring
          have e2 : k * c.fill * (1 / 100) = k * (c.fill * (1 / 100)) := by ring
          simp only [e1, e2, k_lt hk]
          by_cases hc : c.fill * (1 - p.impact * (n / v) * (n / v)) < c.fill * (1 / 100) <;>
            simp only [hc, if_true, if_false]
      · rfl
    simp only [volumeApply, hs, hi]
    rw [show (c.units k).bars = c.bars.map (Bars.units k) from rfl,
      show (c.units k).shares = c.shares from rfl, show (c.units k).fill = k * c.fill from rfl]
    by_cases h0 : p.cap = none ∧ ¬ p.impact > 0
    · rw [if_pos h0, if_pos h0]
    · rw [if_neg h0, if_neg h0]
      cases c.bars with
      | none => rfl
      | some b =>
        simp only [Option.map_some]
        rw [show (b.units k).volume = b.volume from rfl]
        cases b.volume with
        | none => rfl
        | some v =>
          simp only
          split_ifs <;> rfl

end Slippage

/-! ## Examples -/

namespace Demo

/-- Four bars of one symbol with prices `p` times 100, 101, 103 and 104. -/
def unRows (p : ℚ) : List DRow :=
  [⟨"AAA", 1, fun c => if c = "volume" then some 5 else some (100 * p)⟩,
   ⟨"AAA", 2, fun c => if c = "volume" then some 5 else some (101 * p)⟩,
   ⟨"AAA", 3, fun c => if c = "volume" then some 5 else some (103 * p)⟩,
   ⟨"AAA", 4, fun c => if c = "volume" then some 5 else some (104 * p)⟩]

/-- A run that buys on date 1, with a limit and a stop `2 * p` below, when the close is above
`99 * p`; one unit of the first run is `p` units of this one. -/
def unRun (p : ℚ) (round : Bool) : RunSetup :=
  { cfg := { cash := 10000 * p, feeMode := some .perOrder, feeAmount := some p }
    cols := ["open", "high", "low", "close", "volume"], rows := unRows p
    execs := [⟨1, .fixed ["AAA"]⟩], exitOnLast := true, round := round
    act := fun _ d a _ _ => ([], fun s =>
      if d = 1 ∧ ((a s).bind (fun q => q.col "close")).any (fun l => l.any (fun v => v.any (fun v => 99 * p < v)))
      then some { symbol := s, date := d, buyShares := some 10, buyLimit := some (102 * p)
                  longStops := [{ lossStop with symbol := s, percent := none, points := some (2 * p) }] }
      else none) }

/-- The error of a run. -/
def errR {α : Type} : Except RunErr α → Option RunErr
  | .ok _ => none
  | .error e => some e

theorem errR_eq {α : Type} {x : Except RunErr α} {e : RunErr} (h : errR x = some e) : x = .error e := by
  cases x with
  | ok a => cases h
  | error e' => cases h; rfl

/-- Everything but the volume is money. -/
def unPriced (c : String) : Bool := c != "volume"

theorem un_inUnit {k : ℚ} (hk : 0 < k) (round : Bool) : InUnit k unPriced (unRun 1 round) (unRun k round) where
  columns := by decide
  cfg := by simp [unRun, Config.units, feeUnits, money, FeeMode.units]; ring
  cols := rfl
  rows := by
    simp only [unRun, unRows, List.map_cons, List.map_nil, DRow.units, cellUnits, unPriced]
    congr 1 <;> [skip; congr 1 <;> [skip; congr 1 <;> [skip; congr 1]]] <;>
      (congr 1; funext c; by_cases hc : c = "volume" <;> simp [hc, money, mul_comm])
  execs := by
    refine .cons ⟨rfl, rfl⟩ .nil
  windows := rfl
  lookahead := rfl
  trainSize := rfl
  shuffle := rfl
  buyDelay := rfl
  sellDelay := rfl
  warmup := rfl
  exitOnLast := rfl
  exitCover := rfl
  exitSell := rfl
  round := rfl
  iter := rfl
  fns := fun _ _ _ => rfl
  orderSlip := fun _ _ => trivial
  exitSlip := fun _ _ => trivial
  dropSlip := fun _ => trivial
  act := by
    intro w d a s l
    refine ⟨rfl, fun sym => ?_⟩
    have hcond : ((((a sym).map (SymArrays.units k unPriced)).bind (fun q => q.col "close")).any
          (fun l => l.any (fun v => v.any (fun v => decide (99 * k < v))))) =
        (((a sym).bind (fun q => q.col "close")).any
          (fun l => l.any (fun v => v.any (fun v => decide (99 * 1 < v))))) := by
      cases a sym with
      | none => rfl
      | some q =>
        simp only [Option.map_some, Option.bind_some, SymArrays.units]
        cases q.col "close" with
        | none => rfl
        | some l =>
          simp only [Option.map_some, Option.any_some, List.any_map]
          congr 1
          funext v
          cases v with
          | none => rfl
          | some v =>
            simp only [Function.comp, cellUnits, unPriced, money]
            simp only [Option.map_some, Option.any_some, mul_one, bne_iff_ne, ne_eq, reduceCtorEq,
              not_false_eq_true, if_true, String.reduceEq]
            rw [mul_comm 99 k]
            exact decide_eq_decide.2 (k_lt hk 99 v)
    simp only [unRun, hcond]
    split
    · simp [ExecResult.units, Stop.units, money, FillSpec.units, lossStop, mul_comm]
    · rfl

/-- In dollars and in cents the run buys and sells the same shares. -/
example : ∃ t, (unRun 100 false).run = .ok t ∧
    t.loop.pf.orders.map (fun o => (o.id, o.side, o.date, o.symbol, o.shares)) =
      (drEnd (unRun 1 false)).loop.pf.orders.map (fun o => (o.id, o.side, o.date, o.symbol, o.shares)) := by
  obtain ⟨t, h1, h2, _⟩ := RunSetup.results_in_unit_partial (k := 100) (by norm_num)
    (un_inUnit (by norm_num) false) rfl (ok_okR (d := { loop := { pf := Portfolio.init (unRun 1 false).cfg } })
      (by decide +kernel))
  exact ⟨t, h1, h2⟩

example : (drEnd (unRun 1 false)).loop.pf.orders.map (fun o => (o.shares, o.fillPrice)) =
    [(10, 101), (10, 104)] := by decide +kernel

end Demo

/-- **C144, where the code falls short.**  With `round_fill_price`, which is the default, the unit
matters: the run that buys and sells 10 shares in one unit raises in a unit 100000 times as large,
because its price is rounded to 0. -/
theorem rounding_depends_on_unit :
    InUnit (1 / 100000) Demo.unPriced (Demo.unRun 1 true) (Demo.unRun (1 / 100000) true) ∧
    (∃ s, (Demo.unRun 1 true).run = .ok s ∧ s.loop.pf.orders.map (fun o => o.shares) = [10, 10]) ∧
    (Demo.unRun (1 / 100000) true).run = .error (.loop (.portfolio .badFillPrice)) := by
  refine ⟨Demo.un_inUnit (by norm_num) true, ⟨Demo.drEnd (Demo.unRun 1 true), ?_, ?_⟩, ?_⟩
  · exact Demo.ok_okR (by decide +kernel)
  · decide +kernel
  · have h : (Demo.errR (Demo.unRun (1 / 100000) true).run) = some (.loop (.portfolio .badFillPrice)) := by
      decide +kernel
    exact Demo.errR_eq h

end PyBroker
