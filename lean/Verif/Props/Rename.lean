import Verif.Backtest.RenameRun
import Verif.Props.Drive

/-!
# Names of symbols matter only through their order (C154)

`Verif/Portfolio/Rename.lean`, `Verif/Backtest/Rename.lean` and `Verif/Backtest/RenameRun.lean` say
what each record is when every symbol `s` in it is `ρ s`: nothing else of it changes.
-/

namespace PyBroker

/-! ## Specification -/

/-- What a selector returned, with symbols renamed. -/
def Selected.rename (ρ : Sym → Sym) : Selected → Selected
  | .syms l => .syms (l.map ρ)
  | .notSymbols => .notSymbols

/-- The same execution for the renamed symbols. -/
def Spec.RenamedExec (ρ : Sym → Sym) (e e' : Execn (List DRow)) : Prop :=
  e'.id = e.id ∧
    match e.symbols, e'.symbols with
    | .fixed l, .fixed l' => l' = l.map ρ
    | .selector f, .selector g => ∀ rows, g (rows.map (DRow.rename ρ)) = (f rows).rename ρ
    | _, _ => False

/-- The run `y` is the run `x` for the renamed symbols: the rows are those of `ρ s` for `s`, user
code that is shown the renamed symbols asks for the same on them, and everything else is equal. -/
structure Spec.Renamed (ρ : Sym → Sym) (x y : RunSetup) : Prop where
  cfg : Spec.RenamedConfig ρ x.cfg y.cfg
  cols : y.cols = x.cols
  rows : y.rows = x.rows.map (DRow.rename ρ)
  execs : List.Forall₂ (Spec.RenamedExec ρ) x.execs y.execs
  windows : y.windows = x.windows
  lookahead : y.lookahead = x.lookahead
  trainSize : y.trainSize = x.trainSize
  shuffle : y.shuffle = x.shuffle
  buyDelay : y.buyDelay = x.buyDelay
  sellDelay : y.sellDelay = x.sellDelay
  warmup : y.warmup = x.warmup
  exitOnLast : y.exitOnLast = x.exitOnLast
  exitCover : y.exitCover = x.exitCover
  exitSell : y.exitSell = x.exitSell
  round : y.round = x.round
  iter : ∀ l : List Sym, y.iter (l.map ρ) = (x.iter l).map ρ
  fns : ∀ n s a, y.fns n (ρ s) a = x.fns n s a
  orderSlip : ∀ w d, Spec.RenamedSlipModel ρ (x.orderSlip w d) (y.orderSlip w d)
  exitSlip : ∀ w d, Spec.RenamedSlip ρ (x.exitSlip w d) (y.exitSlip w d)
  dropSlip : ∀ w, Spec.RenamedSlip ρ (x.dropSlip w) (y.dropSlip w)
  act : ∀ w d a b s l, (∀ sym, b (ρ sym) = a sym) →
    (y.act w d b (s.rename ρ) (l.map ρ)).1 = (x.act w d a s l).1.map (UserOp.rename ρ) ∧
    ∀ sym, (y.act w d b (s.rename ρ) (l.map ρ)).2 (ρ sym) =
      ((x.act w d a s l).2 sym).map (ExecResult.rename ρ)

/-- Both end with related results, or both raise the same. -/
def Spec.Outcomes {ε α β : Type} (R : α → β → Prop) : Except ε α → Except ε β → Prop
  | .ok a, .ok b => R a b
  | .error e, .error e' => e' = e
  | _, _ => False

open PyBroker.Spec

/-! ## Executions -/

theorem renamedExec_selector {ρ : Sym → Sym} {e e' : Execn (List DRow)} (h : RenamedExec ρ e e') :
    e'.symbols.isSelector = e.symbols.isSelector ∧ e'.symbols.static = e.symbols.static.map ρ := by
  obtain ⟨i, s⟩ := e
  obtain ⟨j, t⟩ := e'
  obtain ⟨h1, h2⟩ := h
  cases s <;> cases t <;> simp only at h2
  · subst h2; exact ⟨rfl, rfl⟩
  · exact ⟨rfl, rfl⟩

theorem renamedExecs {ρ : Sym → Sym} {es es' : List (Execn (List DRow))}
    (h : List.Forall₂ (RenamedExec ρ) es es') :
    es'.any (fun e => e.symbols.isSelector) = es.any (fun e => e.symbols.isSelector) ∧
      selectedSymbols es' = (selectedSymbols es).map ρ := by
  induction h with
  | nil => exact ⟨rfl, rfl⟩
  | cons h _ ih =>
    obtain ⟨h1, h2⟩ := renamedExec_selector h
    refine ⟨?_, ?_⟩
    · simp only [List.any_cons, h1, ih.1]
    · simp only [selectedSymbols, List.flatMap_cons, h2, List.map_append] at ih ⊢
      rw [ih.2]

theorem resolveSymbols_rename {ρ : Sym → Sym} (hi : Function.Injective ρ) {e e' : Execn (List DRow)}
    (h : RenamedExec ρ e e') (rows : List DRow) :
    resolveSymbols (fun d : List DRow => (d.map DRow.symbol).dedup) (rows.map (DRow.rename ρ)) e' =
      (resolveSymbols (fun d : List DRow => (d.map DRow.symbol).dedup) rows e).map (List.map ρ) := by
  have hsym : (rows.map (DRow.rename ρ)).map DRow.symbol = (rows.map DRow.symbol).map ρ := by
    rw [List.map_map, List.map_map]; rfl
  obtain ⟨i, s⟩ := e
  obtain ⟨j, t⟩ := e'
  obtain ⟨h1, h2⟩ := h
  simp only at h1 h2
  cases s <;> cases t <;> simp only at h2
  · subst h2; rfl
  · next f g =>
    simp only [resolveSymbols, h2, hsym, List.dedup_map_of_injective hi]
    cases f rows with
    | notSymbols => rfl
    | syms l =>
      simp only [Selected.rename, List.map_eq_nil_iff, List.nodup_map_iff hi, List.any_map]
      have : ((fun x => !((rows.map DRow.symbol).dedup.map ρ).contains x) ∘ ρ) =
          fun x => !(rows.map DRow.symbol).dedup.contains x := by
        funext x
        simp only [Function.comp, contains_map_rename hi]
      rw [this]
      split_ifs <;> rfl

theorem resolveLoop_rename {ρ : Sym → Sym} (hi : Function.Injective ρ) {es es' : List (Execn (List DRow))}
    (h : List.Forall₂ (RenamedExec ρ) es es') (rows : List DRow) (seen : List Sym) :
    Outcomes (List.Forall₂ (RenamedExec ρ))
      (resolveLoop (fun d : List DRow => (d.map DRow.symbol).dedup) rows es seen)
      (resolveLoop (fun d : List DRow => (d.map DRow.symbol).dedup) (rows.map (DRow.rename ρ)) es'
        (seen.map ρ)) := by
  induction h generalizing seen with
  | nil => exact .nil
  | @cons e e' es es' h _ ih =>
    simp only [resolveLoop, resolveSymbols_rename hi h]
    cases resolveSymbols (fun d : List DRow => (d.map DRow.symbol).dedup) rows e with
    | error e => exact rfl
    | ok syms =>
      simp only [Except.map, List.any_map]
      have : ((fun x => (seen.map ρ).contains x) ∘ ρ) = fun x => seen.contains x := by
        funext x
        simp only [Function.comp, contains_map_rename hi]
      rw [this]
      by_cases hs : syms.any (fun x => seen.contains x) = true
      · simp only [hs, if_true]; exact rfl
      · simp only [hs]
        have := ih (seen ++ syms)
        rw [List.map_append] at this
        cases h1 : resolveLoop (fun d : List DRow => (d.map DRow.symbol).dedup) rows es (seen ++ syms) <;>
        cases h2 : resolveLoop (fun d : List DRow => (d.map DRow.symbol).dedup) (rows.map (DRow.rename ρ))
            es' (seen.map ρ ++ syms.map ρ) <;> rw [h1, h2] at this
        · exact this
        · exact absurd this id
        · exact absurd this id
        · exact .cons ⟨h.1, rfl⟩ this

theorem windowExecutions_rename {ρ : Sym → Sym} (hi : Function.Injective ρ)
    {es es' : List (Execn (List DRow))} (h : List.Forall₂ (RenamedExec ρ) es es') (rows : List DRow) :
    Outcomes (List.Forall₂ (RenamedExec ρ))
      (windowExecutions (fun d : List DRow => (d.map DRow.symbol).dedup) List.isEmpty es rows)
      (windowExecutions (fun d : List DRow => (d.map DRow.symbol).dedup) List.isEmpty es'
        (rows.map (DRow.rename ρ))) := by
  obtain ⟨h1, _⟩ := renamedExecs h
  have he : (rows.map (DRow.rename ρ)).isEmpty = rows.isEmpty := by cases rows <;> rfl
  simp only [windowExecutions, selectionDf, he, h1]
  cases hs : es.any (fun e => e.symbols.isSelector) with
  | false =>
    cases hr : rows.isEmpty <;> simp only [if_true, Bool.true_eq_false, Bool.false_eq_true, if_false] <;> exact h
  | true =>
    cases hr : rows.isEmpty
    · simp only [if_true]
      exact resolveLoop_rename hi h rows []
    · simp only [if_true, Bool.true_eq_false, if_false]
      exact rfl

/-! ## The run -/

namespace RunSetup

variable {ρ : Sym → Sym} {x y : RunSetup}

theorem dates_rename (h : Renamed ρ x y) : y.dates = x.dates := by
  unfold dates
  rw [h.rows, List.map_map]
  rfl

theorem rowsAt_rename (h : Renamed ρ x y) (idx : List Nat) :
    y.rowsAt idx = (x.rowsAt idx).map (DRow.rename ρ) := by
  unfold rowsAt
  rw [h.rows, List.map_filterMap]
  congr 1
  funext i
  rw [List.getElem?_map]

section
variable {store store' : Store} {sym : Sym} {idx idx' : Sym → Nat}

theorem priceAt_rename (h : Renamed ρ x y) (hs : store'.arrays (ρ sym) = store.arrays sym)
    (hx : idx' (ρ sym) = idx sym) (f : FillSpec) :
    y.priceAt store' idx' (ρ sym) f = x.priceAt store idx sym f := by
  unfold priceAt
  cases f with
  | price t =>
    simp only [fillPrice, PriceScope.fetchFloat]
    have := fetchPriceType_rename hs hx x.round t
    rw [h.round]
    rcases ha : PriceScope.fetchPriceType { store := store', endIndex := idx', round := x.round } (ρ sym) t
      with ⟨a1, a2⟩
    rcases hb : PriceScope.fetchPriceType { store := store, endIndex := idx, round := x.round } sym t
      with ⟨b1, b2⟩
    rw [ha, hb] at this
    simp only at this
    subst this
    cases a1 <;> rfl
  | amount q => simp only [fillPrice, PriceScope.fetchFloat, PriceScope.roundFloat, h.round]
  | callable n =>
    simp only [fillPrice, PriceScope.fetchFloat, PriceScope.roundFloat, h.round, hs, hx, h.fns]

theorem closePrices_rename (h : Renamed ρ x y) (hs : store'.arrays (ρ sym) = store.arrays sym)
    (hx : idx' (ρ sym) = idx sym) :
    y.closePrices store' idx' (ρ sym) = x.closePrices store idx sym := by
  simp only [closePrices, h.exitCover, h.exitSell, priceAt_rename h hs hx]

theorem dropBars_rename (h : Renamed ρ x y) (hs : store'.arrays (ρ sym) = store.arrays sym) :
    y.dropBars store' (ρ sym) = x.dropBars store sym := by
  unfold dropBars
  rw [hs]
  cases store.arrays sym with
  | none => rfl
  | some a =>
    simp only
    apply List.map_congr_left
    intro di _
    rw [closePrices_rename h hs (idx := fun _ => di.2 + 1) (idx' := fun _ => di.2 + 1) rfl]

end

theorem barEnv_rename (h : Renamed ρ x y) (w : Nat) {store store' : Store}
    (hs : ∀ s, store'.arrays (ρ s) = store.arrays s) {idx idx' : Sym → Nat} (hx : ∀ s, idx' (ρ s) = idx s)
    (d : Date) : RenamedBarEnv ρ (x.barEnv w store idx d) (y.barEnv w store' idx' d) := by
  refine { date := rfl, endIndex := hx, hasBarOn := ?_, fetch := ?_, stop := ?_, quote := ?_,
           slip := h.orderSlip w d }
  · intro s
    simp only [barEnv, h.round]
    exact hasBarOnRaw_rename (hs s) (hx s) _ _
  · intro s f
    exact priceAt_rename h (hs s) (hx s) f
  · refine { canPrice := ?_, fetchFloat := ?_, fetch := ?_, slip := h.exitSlip w d }
    · intro s
      simp only [barEnv, h.round, hs, hasBarOnRaw_rename (hs s) (hx s), barOhlcRaw_rename (hs s) (hx s)]
    · intro s t
      exact priceAt_rename h (hs s) (hx s) _
    · intro s f
      exact priceAt_rename h (hs s) (hx s) f
  · intro s
    simp only [barEnv, h.round, barOhlcRaw_rename (hs s) (hx s)]

variable (hi : Function.Injective ρ)
include hi

theorem closable_rename (pf : Portfolio) (sym : Sym) (p : Option ℚ × Option ℚ) :
    closable (pf.rename ρ) (ρ sym) p = closable pf sym p := by
  unfold closable
  rw [show (pf.rename ρ).shorts = pf.shorts.map (Position.rename ρ) from rfl,
    show (pf.rename ρ).longs = pf.longs.map (Position.rename ρ) from rfl, lookupPos_rename hi,
    lookupPos_rename hi]
  simp

theorem exitDate_rename (h : Renamed ρ x y) (sym : Sym) : y.exitDate (ρ sym) = x.exitDate sym := by
  obtain ⟨h1, h2⟩ := renamedExecs h.execs
  have h3 : (y.rows.filter (fun r => r.symbol = ρ sym)).map DRow.date =
      (x.rows.filter (fun r => r.symbol = sym)).map DRow.date := by
    rw [h.rows, List.filter_map, List.map_map]
    have : ((fun r : DRow => decide (r.symbol = ρ sym)) ∘ DRow.rename ρ) =
        fun r => decide (r.symbol = sym) := by
      funext r
      simp only [Function.comp, DRow.rename, hi.eq_iff]
    rw [this]
    rfl
  unfold exitDate selects
  rw [h.exitOnLast, h1, h2, h3]
  simp only [List.mem_map_of_injective hi]

theorem boundary_rename (h : Renamed ρ x y) (w : Nat) (sel : List Sym) (win : WFWindow) :
    RenamedBoundary ρ (x.boundary w sel win) (y.boundary w (sel.map ρ) win) := by
  refine { selected := rfl, test := ?_, testDates := ?_, all := ?_, slip := h.dropSlip w, iter := h.iter }
  · intro s
    simp only [boundary, h.cols, rowsAt_rename h]
    exact dropBars_rename h (storeArrays_rename hi _ _ s)
  · simp only [boundary, rowsAt_rename h, List.map_map]
    rfl
  · intro s
    simp only [boundary, h.cols, h.rows]
    exact dropBars_rename h (storeArrays_rename hi _ _ s)

theorem window_rename (h : Renamed ρ x y) (w : Nat) (sel : List Sym) (win : WFWindow) {store store' : Store}
    (hs : ∀ s, store'.arrays (ρ s) = store.arrays s) :
    RenamedWindow ρ (x.window w sel win store) (y.window w (sel.map ρ) win store') := by
  refine { dates := ?_, master := ?_, buyDelay := h.buyDelay, sellDelay := h.sellDelay,
           boundary := .some (boundary_rename hi h w sel win) }
  · intro s
    simp only [window, hs, List.mem_map_of_injective hi]
  · intro s
    simp only [window, Option.map_some, h.cols, h.rows, storeArrays_rename hi]

theorem droppable_rename (h : Renamed ρ x y) (pf : Portfolio) {b b' : Boundary} (hb : RenamedBoundary ρ b b')
    {test test' master master' : Store} (ht : ∀ s, test'.arrays (ρ s) = test.arrays s)
    (hm : ∀ s, master'.arrays (ρ s) = master.arrays s) :
    y.droppable (pf.rename ρ) b' test' master' = x.droppable pf b test master := by
  unfold droppable
  rw [hb.selected, droppedSyms_rename hi, List.all_map]
  congr 1
  funext s
  have hp : ∀ (store store' : Store) (bar : DropBar), store'.arrays (ρ s) = store.arrays s →
      (match store'.arrays (ρ s) with
        | none => true
        | some a => closable (pf.rename ρ) (ρ s) (y.closePrices store'
            (fun _ => a.dates.idxOf bar.date + 1) (ρ s))) =
      (match store.arrays s with
        | none => true
        | some a => closable pf s (x.closePrices store (fun _ => a.dates.idxOf bar.date + 1) s)) := by
    intro store store' bar hs
    have hcp : ∀ n : Nat, y.closePrices store' (fun _ => n) (ρ s) = x.closePrices store (fun _ => n) s :=
      fun n => closePrices_rename h hs rfl
    simp only [closable_rename hi, hcp, hs]
  have e1 : testExitBar b' (ρ s) = testExitBar b s := by simp only [testExitBar, hb.test, hb.testDates]
  have e2 : lateExitBar b' (ρ s) = lateExitBar b s := by simp only [lateExitBar, hb.all, hb.testDates]
  simp only [Function.comp, e1, e2]
  cases testExitBar b s with
  | some bar => exact hp test test' bar (ht s)
  | none =>
    simp only
    cases lateExitBar b s with
    | some bar => exact hp master master' bar (hm s)
    | none => rfl

theorem bar_rename (h : Renamed ρ x y) (n : Nat) {w w' : Window} (hw : RenamedWindow ρ w w')
    {store store' : Store} (hs : ∀ s, store'.arrays (ρ s) = store.arrays s) (cal : List Date)
    (sd : List (Sym × List Date)) {st st' : State} (hst : RenamedState ρ st st') (d : Date) :
    Outcomes (RenamedState ρ) (x.bar n w store cal sd st d)
      (y.bar n w' store' cal (sd.map (fun p => (ρ p.1, p.2))) st' d) := by
  have hwarm : ∀ m, y.warm m = x.warm m := fun m => by simp only [warm, h.warmup]
  simp only [bar, hst.loop, hwarm, activeSyms_rename hi]
  generalize activeSyms sd cal d = active
  have hx : ∀ s, bumpIndexes (active.map ρ) st'.idx (ρ s) = bumpIndexes active st.idx s :=
    bumpIndexes_rename hi active hst.idx
  generalize bumpIndexes (active.map ρ) st'.idx = idx' at hx ⊢
  generalize bumpIndexes active st.idx = idx at hx ⊢
  have henv := barEnv_rename h n hs hx d
  rw [barOrders_rename hi h.cfg henv]
  cases barOrders x.cfg (x.barEnv n store idx d) st.loop with
  | error e => exact rfl
  | ok s1 =>
    simp only [Except.map]
    have hready : (active.map ρ).filter (fun s => x.warm (idx' s)) =
        (active.filter (fun s => x.warm (idx s))).map ρ := by
      rw [List.filter_map]
      congr 2
      funext s
      simp only [Function.comp, hx]
    rw [hready]
    generalize active.filter (fun s => x.warm (idx s)) = ready
    have hcap : captureBar y.cfg (s1.rename ρ).pf d (y.barEnv n store' idx' d).quote =
        (captureBar x.cfg s1.pf d (x.barEnv n store idx d).quote).rename ρ :=
      captureBar_rename hi h.cfg henv.quote s1.pf d
    have hset : ∀ pf : Portfolio, { s1.rename ρ with pf := pf.rename ρ } =
      Loop.rename ρ { s1 with pf := pf } := fun _ => rfl
    simp only [hcap, hset]
    obtain ⟨ha1, ha2⟩ := h.act n d (fun s => (store.arrays s).map (fun a => a.upTo (idx s)))
      (fun s => (store'.arrays s).map (fun a => a.upTo (idx' s)))
      { s1 with pf := captureBar x.cfg s1.pf d (x.barEnv n store idx d).quote } ready
      (fun s => by simp only [hs, hx])
    generalize y.act n d (fun s => (store'.arrays s).map (fun a => a.upTo (idx' s))) _ (ready.map ρ) = a'
      at ha1 ha2 ⊢
    generalize x.act n d (fun s => (store.arrays s).map (fun a => a.upTo (idx s)))
      { s1 with pf := captureBar x.cfg s1.pf d (x.barEnv n store idx d).quote } ready = a at ha1 ha2 ⊢
    have hres : (ready.map ρ).filterMap (fun s => (a'.2 s).map (fun r => { r with symbol := s, date := d })) =
        (ready.filterMap (fun s => (a.2 s).map (fun r => { r with symbol := s, date := d }))).map
          (ExecResult.rename ρ) := by
      rw [List.map_filterMap, List.filterMap_map]
      congr 1
      funext s
      simp only [Function.comp, ha2]
      cases a.2 s <;> rfl
    rw [hres]
    generalize ready.filterMap (fun s => (a.2 s).map (fun r => { r with symbol := s, date := d })) = results
    have hex : (ready.map ρ).filter (fun s => y.exitDate s = some d) =
        (ready.filter (fun s => x.exitDate s = some d)).map ρ := by
      rw [List.filter_map]
      congr 2
      funext s
      simp only [Function.comp, exitDate_rename hi h]
    rw [hex]
    have hcp : ∀ s, y.closePrices store' idx' (ρ s) = x.closePrices store idx s :=
      fun s => closePrices_rename h (hs s) (hx s)
    generalize ready.filter (fun s => x.exitDate s = some d) = exits
    have hall : (exits.map ρ).all (fun s => closable (s1.rename ρ).pf s (y.closePrices store' idx' s)) =
        exits.all (fun s => closable s1.pf s (x.closePrices store idx s)) := by
      rw [List.all_map]
      congr 1
      funext s
      simp only [Function.comp, hcp]
      exact closable_rename hi _ _ _
    rw [hall]
    by_cases hc : exits.all (fun s => closable s1.pf s (x.closePrices store idx s)) = true
    · simp only [hc, if_true]
      have hb := barSignals_rename hi h.cfg hw
        (b := { env := x.barEnv n store idx d
                user := a.1
                results := results
                exits := exits.map (fun s => ForcedExit.mk s ((x.closePrices store idx s).1.getD 0)
                  ((x.closePrices store idx s).2.getD 0)) })
        (b' := { env := y.barEnv n store' idx' d
                 user := a'.1
                 results := results.map (ExecResult.rename ρ)
                 exits := (exits.map ρ).map (fun s => ForcedExit.mk s ((y.closePrices store' idx' s).1.getD 0)
                  ((y.closePrices store' idx' s).2.getD 0)) })
        { env := henv
          user := ha1
          results := rfl
          exits := by
            simp only [List.map_map]
            apply List.map_congr_left
            intro s _
            simp only [Function.comp, hcp]
            rfl } s1
      rw [hb]
      cases barSignals x.cfg w _ s1 with
      | error e => exact rfl
      | ok s2 =>
        refine { loop := rfl, idx := hx, turns := ?_, results := ?_, trace := ?_ }
        · simp only [hst.turns, List.map_append, List.map_map]; rfl
        · simp only [hst.results, List.map_append]
        · simp only [hst.trace, List.map_append, List.map_cons, List.map_nil]
    · simp only [hc]
      exact rfl

omit hi in
theorem each_rename {α : Type} (f g : State → α → Except RunErr State)
    (hfg : ∀ b b' a, RenamedState ρ b b' → Outcomes (RenamedState ρ) (f b a) (g b' a)) (b b' : State)
    (hb : RenamedState ρ b b') (l : List α) : Outcomes (RenamedState ρ) (each f b l) (each g b' l) := by
  induction l generalizing b b' with
  | nil => exact hb
  | cons a l ih =>
    have := hfg b b' a hb
    simp only [each]
    cases h1 : f b a <;> cases h2 : g b' a <;> rw [h1, h2] at this
    · exact this
    · exact absurd this id
    · exact absurd this id
    · exact ih _ _ this

theorem runOne_rename (hρ : KeepsOrder ρ (x.rows.map DRow.symbol)) (h : Renamed ρ x y) {st st' : State}
    (hst : RenamedState ρ st st') (kw : WFWindow × Nat) :
    Outcomes (RenamedState ρ) (x.runOne st kw) (y.runOne st' kw) := by
  have hwe := windowExecutions_rename hi h.execs (x.rowsAt kw.1.train)
  simp only [runOne, rowsAt_rename h]
  cases h1 : windowExecutions (fun d : List DRow => (d.map DRow.symbol).dedup) List.isEmpty x.execs
      (x.rowsAt kw.1.train) <;>
  cases h2 : windowExecutions (fun d : List DRow => (d.map DRow.symbol).dedup) List.isEmpty y.execs
      ((x.rowsAt kw.1.train).map (DRow.rename ρ)) <;> rw [h1, h2] at hwe
  · exact congrArg RunErr.select hwe
  · exact absurd hwe id
  · exact absurd hwe id
  · next es es' =>
    simp only [(renamedExecs hwe).2, h.cols, h.rows, dates_rename h, hst.loop]
    generalize selectedSymbols es = sel
    have hstore := slice_rename (storeOf_rename hi x.cols x.rows hρ) (datesOfRows x.dates kw.1.test)
    have hdrop := droppable_rename hi h st.loop.pf (boundary_rename hi h kw.2 sel kw.1)
      (storeArrays_rename hi x.cols (x.rowsAt kw.1.test)) (storeArrays_rename hi x.cols x.rows)
    rw [show (Loop.rename ρ st.loop).pf = st.loop.pf.rename ρ from rfl, hdrop]
    have hw := window_rename hi h kw.2 sel kw.1 hstore.arrays
    by_cases hd : x.droppable st.loop.pf (x.boundary kw.2 sel kw.1)
        (storeOf x.cols (x.rowsAt kw.1.test)) (storeOf x.cols x.rows) = true
    · simp only [hd, if_true, startWindow_rename hi h.cfg st.loop hw]
      cases startWindow x.cfg st.loop _ with
      | error e => exact rfl
      | ok s1 =>
        simp only [Except.map]
        have hs2 : RenamedState ρ
            { loop := { s1 with covers := [], buys := [], sells := [] }, idx := fun _ => 0,
              turns := st.turns, results := st.results, trace := st.trace }
            { loop := { (s1.rename ρ) with covers := [], buys := [], sells := [] }, idx := fun _ => 0,
              turns := st'.turns, results := st'.results, trace := st'.trace } :=
          { loop := rfl, idx := fun _ => rfl, turns := hst.turns, results := hst.results, trace := hst.trace }
        by_cases ht : kw.1.test = []
        · simp only [ht, if_true]
          exact hs2
        · simp only [ht, if_false, uniqueDates_rename hstore, symExecDates_rename hstore hi]
          exact each_rename _ _ (fun b b' a hb => bar_rename hi h kw.2 hw hstore.arrays _ _ hb a) _ _ hs2 _
    · simp only [hd]
      exact rfl

/-- **Names of symbols matter only through their order (C154).**  A run for renamed symbols, with
different names for different symbols and the order of the names in the data kept, raises the same
error, or ends in the same state with its symbols renamed. -/
theorem run_renamed (hρ : KeepsOrder ρ (x.rows.map DRow.symbol)) (h : Renamed ρ x y) :
    Outcomes (RenamedState ρ) x.run y.run := by
  unfold run
  rw [dates_rename h, h.windows, h.lookahead, h.trainSize, h.shuffle]
  cases walkforwardSplit x.dates x.windows x.lookahead x.trainSize x.shuffle with
  | error e => exact rfl
  | ok wins =>
    simp only
    refine each_rename _ _ (fun b b' a hb => runOne_rename hi hρ h hb a) _ _ ?_ _
    refine { loop := ?_, idx := fun _ => rfl, turns := rfl, results := rfl, trace := rfl }
    simp only [Portfolio.init, h.cfg.cash]
    rfl

/-- **C154, what a user reads off a run.**  A run that ends ends for the renamed symbols too: with
the same orders and trades, each for the renamed symbol, and the same cash, equity, market value
and profit on each date. -/
theorem results_renamed (hρ : KeepsOrder ρ (x.rows.map DRow.symbol)) (h : Renamed ρ x y) {s : State}
    (hx : x.run = .ok s) :
    ∃ t, y.run = .ok t ∧
      t.loop.pf.orders.map (fun o => (o.id, o.date, o.side, o.symbol, o.shares, o.fillPrice, o.fees)) =
        s.loop.pf.orders.map (fun o => (o.id, o.date, o.side, ρ o.symbol, o.shares, o.fillPrice, o.fees)) ∧
      t.loop.pf.trades.map (fun r => (r.id, r.entryDate, r.exitDate, r.symbol, r.shares)) =
        s.loop.pf.trades.map (fun r => (r.id, r.entryDate, r.exitDate, ρ r.symbol, r.shares)) ∧
      t.loop.pf.trades.map (fun r => (r.pnl, r.returnPct, r.bars)) =
        s.loop.pf.trades.map (fun r => (r.pnl, r.returnPct, r.bars)) ∧
      t.loop.pf.metrics = s.loop.pf.metrics := by
  have hr := run_renamed hi hρ h
  rw [hx] at hr
  cases hy : y.run with
  | error e => rw [hy] at hr; exact absurd hr id
  | ok t =>
    rw [hy] at hr
    refine ⟨t, rfl, ?_, ?_, ?_, ?_⟩
    all_goals
      rw [hr.loop]
      simp only [Loop.rename, Portfolio.rename, List.map_map]
      try rfl

/-- **C154, errors.**  An error is the same under all names. -/
theorem error_renamed (hρ : KeepsOrder ρ (x.rows.map DRow.symbol)) (h : Renamed ρ x y) {e : RunErr} :
    y.run = .error e ↔ x.run = .error e := by
  have hr := run_renamed hi hρ h
  cases hx : x.run <;> cases hy : y.run <;> rw [hx, hy] at hr
  · rw [show _ = _ from hr]
  · exact absurd hr id
  · exact absurd hr id
  · exact ⟨fun h => (by cases h), fun h => (by cases h)⟩

end RunSetup

/-! ## Every run can be given other names -/

/-- An execution for renamed symbols: a selector is given the old names. -/
def Execn.rename (ρ σ : Sym → Sym) (e : Execn (List DRow)) : Execn (List DRow) where
  id := e.id
  symbols := match e.symbols with
    | .fixed l => .fixed (l.map ρ)
    | .selector f => .selector (fun rows => (f (rows.map (DRow.rename σ))).rename ρ)

/-- Fees of renamed symbols. -/
def Config.rename (σ : Sym → Sym) (cfg : Config) : Config :=
  { cfg with
    feeMode := match cfg.feeMode with
      | some (.custom f) => some (.custom (fun i => f { i with symbol := σ i.symbol }))
      | m => m }

/-- Slippage of renamed symbols. -/
def slipRename (σ : Sym → Sym) (f : SlipFn) : SlipFn := fun side sym n q => f side (σ sym) n q

/-- The slippage model of renamed symbols. -/
def SlipModel.rename (σ : Sym → Sym) : SlipModel → SlipModel
  | .general f => .general (slipRename σ f)
  | m => m

/-- A run for renamed symbols: user code is given the old names, and its answers are renamed. -/
def RunSetup.rename (ρ σ : Sym → Sym) (x : RunSetup) : RunSetup :=
  { x with
    cfg := x.cfg.rename σ
    rows := x.rows.map (DRow.rename ρ)
    execs := x.execs.map (Execn.rename ρ σ)
    fns := fun n s a => x.fns n (σ s) a
    orderSlip := fun w d => (x.orderSlip w d).map (SlipModel.rename σ)
    exitSlip := fun w d => (x.exitSlip w d).map (slipRename σ)
    dropSlip := fun w => (x.dropSlip w).map (slipRename σ)
    iter := fun l => (x.iter (l.map σ)).map ρ
    act := fun w d a s l =>
      ((x.act w d (fun sym => a (ρ sym)) (s.rename σ) (l.map σ)).1.map (UserOp.rename ρ),
       fun sym => ((x.act w d (fun sym => a (ρ sym)) (s.rename σ) (l.map σ)).2 (σ sym)).map
        (ExecResult.rename ρ)) }

/-- The run for renamed symbols is one in the sense of C154. -/
theorem renamed_rename (ρ σ : Sym → Sym) (h : ∀ s, σ (ρ s) = s) (x : RunSetup) :
    Renamed ρ x (x.rename ρ σ) := by
  have hr : ∀ rows : List DRow, (rows.map (DRow.rename ρ)).map (DRow.rename σ) = rows := fun rows => by
    rw [List.map_map, show DRow.rename σ ∘ DRow.rename ρ = id from funext (fun r => by simp [DRow.rename, h]),
      List.map_id]
  have hl : ∀ l : List Sym, (l.map ρ).map σ = l := fun l => by
    rw [List.map_map, show σ ∘ ρ = id from funext h, List.map_id]
  have hslip : ∀ o : Option SlipFn, RenamedSlip ρ o (o.map (slipRename σ)) := fun o => by
    cases o with
    | none => exact trivial
    | some f =>
      intro side sym n q
      simp only [slipRename, h]
  refine { cfg := ?_, cols := rfl, rows := rfl, execs := ?_, windows := rfl, lookahead := rfl,
           trainSize := rfl, shuffle := rfl, buyDelay := rfl, sellDelay := rfl, warmup := rfl,
           exitOnLast := rfl, exitCover := rfl, exitSell := rfl, round := rfl, iter := ?_, fns := ?_,
           orderSlip := ?_, exitSlip := fun w d => hslip _, dropSlip := fun w => hslip _, act := ?_ }
  · refine { cash := rfl, feeMode := ?_, feeAmount := rfl, fractional := rfl, positionMode := rfl,
             maxLong := rfl, maxShort := rfl, leverage := rfl, interestRate := rfl, barsPerYear := rfl }
    simp only [RunSetup.rename, Config.rename]
    cases x.cfg.feeMode with
    | none => exact rfl
    | some m =>
      cases m with
      | custom f =>
        intro i
        simp only [h]
      | _ => exact rfl
  · show List.Forall₂ (RenamedExec ρ) x.execs (x.execs.map (Execn.rename ρ σ))
    generalize x.execs = es
    induction es with
    | nil => exact .nil
    | cons e es ih =>
      refine .cons ⟨rfl, ?_⟩ ih
      obtain ⟨i, s⟩ := e
      cases s with
      | fixed l => rfl
      | selector f =>
        intro rows
        show (f ((rows.map (DRow.rename ρ)).map (DRow.rename σ))).rename ρ = (f rows).rename ρ
        rw [hr]
  · intro l
    simp only [RunSetup.rename, hl]
  · intro n s a
    simp only [RunSetup.rename, h]
  · intro w d
    simp only [RunSetup.rename]
    cases x.orderSlip w d with
    | none => exact rfl
    | some m =>
      cases m with
      | general f =>
        intro side sym n q
        simp only [slipRename, h]
      | _ => exact rfl
  · intro w d a b s l hab
    have : (fun sym => b (ρ sym)) = a := funext hab
    simp only [RunSetup.rename, this, Loop.rename_rename h, hl, h]
    exact ⟨trivial, fun _ => trivial⟩

/-- **C154 is about every run**: each run has one for the renamed symbols. -/
theorem renamed_exists {ρ : Sym → Sym} (hi : Function.Injective ρ) (x : RunSetup) : ∃ y, Renamed ρ x y :=
  ⟨_, renamed_rename ρ (Function.invFun ρ) (Function.leftInverse_invFun hi) x⟩

/-! ## Examples -/

namespace Demo

/-- Exchange two names. -/
def rnSwap (a b s : Sym) : Sym := if s = a then b else if s = b then a else s

theorem rnSwap_swap (a b s : Sym) : rnSwap a b (rnSwap a b s) = s := by
  unfold rnSwap
  split_ifs <;> simp_all

theorem rnSwap_injective (a b : Sym) : Function.Injective (rnSwap a b) :=
  Function.LeftInverse.injective (rnSwap_swap a b)

theorem rnSwap_keeps : KeepsOrder (rnSwap "BBB" "ZZZ") (drRun.rows.map DRow.symbol) := by
  unfold KeepsOrder
  decide +kernel

/-- With `ZZZ` for `BBB` the demo run makes the same trades. -/
example : ∃ t, (drRun.rename (rnSwap "BBB" "ZZZ") (rnSwap "BBB" "ZZZ")).run = .ok t ∧
    t.loop.pf.orders.map (fun o => (o.id, o.date, o.side, o.symbol, o.shares, o.fillPrice, o.fees)) =
      (drEnd drRun).loop.pf.orders.map
        (fun o => (o.id, o.date, o.side, rnSwap "BBB" "ZZZ" o.symbol, o.shares, o.fillPrice, o.fees)) := by
  obtain ⟨t, h1, h2, _⟩ := RunSetup.results_renamed (rnSwap_injective "BBB" "ZZZ") rnSwap_keeps
    (renamed_rename _ _ (rnSwap_swap "BBB" "ZZZ") drRun) drRun_run
  exact ⟨t, h1, h2⟩

example : (drEnd (drRun.rename (rnSwap "BBB" "ZZZ") (rnSwap "BBB" "ZZZ"))).loop.pf.orders.map
      (fun o => (o.date, o.symbol, o.shares)) =
    [(2, "AAA", 10), (5, "ZZZ", 5), (5, "ZZZ", 5), (6, "AAA", 10)] := by decide +kernel

/-- On the first date each symbol asks for a share; the cash is enough for one. -/
def rnPoor : RunSetup :=
  { cfg := { cash := 100 }
    cols := ["open", "high", "low", "close"]
    rows := [drRow "AAA" 1 100, drRow "BBB" 1 100, drRow "AAA" 2 100, drRow "BBB" 2 100]
    execs := [⟨1, .fixed ["AAA", "BBB"]⟩]
    act := fun _ d _ _ _ => ([], fun s => if d = 1 then some { symbol := s, date := d, buyShares := some 1 } else none) }

def rnPoor' : RunSetup := rnPoor.rename (rnSwap "AAA" "BBB") (rnSwap "AAA" "BBB")

theorem rnPoor_run : rnPoor.run = .ok (drEnd rnPoor) := ok_okR (by decide +kernel)

theorem rnPoor_run' : rnPoor'.run = .ok (drEnd rnPoor') := ok_okR (by decide +kernel)

end Demo

/-- **The order of names decides.**  When a renaming changes the order of names, the results can
change: two symbols ask for the same cash, and the one whose name comes first gets it. -/
theorem order_of_names_decides : ∃ (ρ : Sym → Sym) (x y : RunSetup) (s t : RunSetup.State),
    Function.Injective ρ ∧ Renamed ρ x y ∧ x.run = .ok s ∧ y.run = .ok t ∧
      s.loop.pf.orders.map (fun o => (o.symbol, o.shares)) = [("AAA", 1)] ∧ ρ "AAA" = "BBB" ∧
      t.loop.pf.orders.map (fun o => (o.symbol, o.shares)) = [("AAA", 1)] :=
  ⟨Demo.rnSwap "AAA" "BBB", Demo.rnPoor, Demo.rnPoor', _, _, Demo.rnSwap_injective _ _,
    renamed_rename _ _ (Demo.rnSwap_swap _ _) _, Demo.rnPoor_run, Demo.rnPoor_run',
    by decide +kernel, by decide +kernel, by decide +kernel⟩

end PyBroker
