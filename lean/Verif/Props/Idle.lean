import Verif.Backtest.Idle
import Verif.Backtest.RenameRun
import Verif.Props.RowOrder
import Verif.Props.Liquidate

/-!
# A symbol that nobody trades does not change a run (C155)

`y` is the run `x` with further symbols: their rows are in the data, and they may have executions,
but user code returns nothing for them.
-/

namespace PyBroker

/-! ## Specification -/

/-- The run `y` is the run `x` alongside symbols that are not traded: the data of `x` is that of `y`
for the symbols in `P`, on the same dates; the symbols with executions in `x` are those of `y` in
`P`; user code of `y` answers as that of `x` does for the symbols in `P`, and nothing for the others;
everything else is equal. -/
structure Spec.Alongside (P : Sym → Bool) (x y : RunSetup) : Prop where
  rows : x.rows = y.rows.filter (fun r => P r.symbol)
  dates : ∀ r ∈ y.rows, ∃ r' ∈ x.rows, r'.date = r.date
  execs : ∀ s, s ∈ selectedSymbols x.execs ↔ s ∈ selectedSymbols y.execs ∧ P s = true
  fixed : (∀ e ∈ x.execs, e.symbols.isSelector = false) ∧ ∀ e ∈ y.execs, e.symbols.isSelector = false
  act : ∀ w d (a b : Sym → Option SymArrays) s l, (∀ sym, P sym = true → b sym = a sym) →
    (y.act w d b s l).1 = (x.act w d a s (l.filter P)).1 ∧
    ∀ sym, (y.act w d b s l).2 sym = if P sym then (x.act w d a s (l.filter P)).2 sym else none
  cfg : y.cfg = x.cfg
  cols : y.cols = x.cols
  windows : y.windows = x.windows
  lookahead : y.lookahead = x.lookahead
  trainSize : y.trainSize = x.trainSize
  buyDelay : y.buyDelay = x.buyDelay
  sellDelay : y.sellDelay = x.sellDelay
  warmup : y.warmup = x.warmup
  exitOnLast : y.exitOnLast = x.exitOnLast
  exitCover : y.exitCover = x.exitCover
  exitSell : y.exitSell = x.exitSell
  round : y.round = x.round
  fns : y.fns = x.fns
  orderSlip : y.orderSlip = x.orderSlip
  exitSlip : y.exitSlip = x.exitSlip
  dropSlip : y.dropSlip = x.dropSlip
  iter : y.iter = x.iter

/-- The stops a result asks for are for its own symbol, on the side it would open. -/
def Spec.StopsOwn (x : RunSetup) : Prop :=
  ∀ w d a s l sym r, (x.act w d a s l).2 sym = some r → ResultFit { r with symbol := sym, date := d }

open PyBroker.Spec

/-! ## Windows -/

theorem minDate_set {l l' : List Date} (h : ∀ d, d ∈ l ↔ d ∈ l') : minDate l = minDate l' := by
  by_cases hl : l = []
  · subst hl
    rw [show l' = [] from List.eq_nil_iff_forall_not_mem.2 (fun d hd => by cases (h d).2 hd)]
  · have hl' : l' ≠ [] := by
      obtain ⟨d, hd⟩ := List.exists_mem_of_ne_nil _ hl
      exact List.ne_nil_of_mem ((h d).1 hd)
    obtain ⟨a, h1, h2, h3⟩ := minDate_some hl
    obtain ⟨b, h4, h5, h6⟩ := minDate_some hl'
    rw [h1, h4, le_antisymm (h3 b ((h b).2 h5)) (h6 a ((h a).1 h2))]

theorem windowDates_set {l l' : List Date} (h : ∀ d, d ∈ l ↔ d ∈ l') : windowDates l = windowDates l' :=
  sorted_ext (windowDates_sorted l) (windowDates_sorted l') (fun d => by
    rw [mem_windowDates, mem_windowDates, h])

/-- Row numbers in two runs that stand for the rows of the same dates. -/
def SameMask (x y : RunSetup) (l l' : List Nat) : Prop :=
  ∃ q : Date → Bool, x.rowsAt l = x.rows.filter (fun r => q r.date) ∧
    y.rowsAt l' = y.rows.filter (fun r => q r.date) ∧ (l = [] ↔ l' = [])

/-- Windows whose test rows are those of the same dates. -/
def SameTest (x y : RunSetup) (w w' : WFWindow) : Prop := SameMask x y w.test w'.test

namespace RunSetup

variable {P : Sym → Bool} {x y : RunSetup}

theorem mem_dates_beside (h : Alongside P x y) (d : Date) : d ∈ x.dates ↔ d ∈ y.dates := by
  unfold dates
  rw [h.rows]
  constructor
  · intro hd
    obtain ⟨r, hr, rfl⟩ := List.mem_map.1 hd
    exact List.mem_map.2 ⟨r, (List.mem_filter.1 hr).1, rfl⟩
  · intro hd
    obtain ⟨r, hr, rfl⟩ := List.mem_map.1 hd
    obtain ⟨r', hr', e⟩ := h.dates r hr
    rw [h.rows] at hr'
    exact List.mem_map.2 ⟨r', hr', e⟩

theorem mem_filter_beside (h : Alongside P x y) (q : Date → Bool) (d : Date) :
    d ∈ (x.rows.filter (fun r => q r.date)).map DRow.date ↔
      d ∈ (y.rows.filter (fun r => q r.date)).map DRow.date := by
  have key : ∀ z : RunSetup, d ∈ (z.rows.filter (fun r => q r.date)).map DRow.date ↔
      d ∈ z.dates ∧ q d = true := by
    intro z
    unfold dates
    simp only [List.mem_map, List.mem_filter]
    constructor
    · rintro ⟨r, ⟨h1, h2⟩, rfl⟩; exact ⟨⟨r, h1, rfl⟩, h2⟩
    · rintro ⟨⟨r, h1, rfl⟩, h2⟩; exact ⟨r, ⟨h1, h2⟩, rfl⟩
  rw [key, key, mem_dates_beside h]

theorem rowMask_beside (h : Alongside P x y) (low high : Date) (b : Bool) :
    SameMask x y (rowMask x.dates low high b) (rowMask y.dates low high b) := by
  refine ⟨inMask low high b, rowMask_rows _ _ _ _, rowMask_rows _ _ _ _, ?_⟩
  unfold dates
  rw [rowMask_nil, rowMask_nil]
  have := fun d => mem_filter_beside h (inMask low high b) d
  constructor
  · intro e
    rw [e] at this
    exact List.map_eq_nil_iff.1 (List.eq_nil_iff_forall_not_mem.2 (fun d hd => by cases (this d).2 hd))
  · intro e
    rw [e] at this
    exact List.map_eq_nil_iff.1 (List.eq_nil_iff_forall_not_mem.2 (fun d hd => by cases (this d).1 hd))

theorem maskAt_beside (h : Alongside P x y) (ds : List Date) (low high : Int) (b : Bool) :
    SameE (SameMask x y) (maskAt x.dates ds low high b) (maskAt y.dates ds low high b) := by
  unfold maskAt
  rcases pyAt ds low with e | a
  · exact .error e
  · rcases pyAt ds high with e | c
    · exact .error e
    · exact .ok (rowMask_beside h a c b)

theorem sameMask_nil : SameMask x y [] [] :=
  ⟨fun _ => false, by simp [rowsAt], by simp [rowsAt], Iff.rfl⟩

theorem windowAt_beside (h : Alongside P x y) (sh sh' : List Nat → List Nat) (ds : List Date)
    (a c d e : Int) (b : Bool) :
    SameE (SameTest x y) (windowAt x.dates ds sh a c d e b) (windowAt y.dates ds sh' a c d e b) := by
  unfold windowAt
  have hA := maskAt_beside h ds a c b
  have hB := maskAt_beside h ds d e b
  generalize maskAt x.dates ds a c b = m1 at hA ⊢
  generalize maskAt y.dates ds a c b = m2 at hA ⊢
  generalize maskAt x.dates ds d e b = m3 at hB ⊢
  generalize maskAt y.dates ds d e b = m4 at hB ⊢
  cases hA with
  | error e => exact .error e
  | ok h1 =>
    cases hB with
    | error e => exact .error e
    | ok h2 => exact .ok h2

theorem split_beside (h : Alongside P x y) (sh sh' : List Nat → List Nat) (windows lookahead : Int) (ts : ℚ) :
    SameE (List.Forall₂ (SameTest x y)) (walkforwardSplit x.dates windows lookahead ts sh)
      (walkforwardSplit y.dates windows lookahead ts sh') := by
  have hd : windowDates x.dates = windowDates y.dates := windowDates_set (mem_dates_beside h)
  have hnil : x.dates = [] ↔ y.dates = [] := by
    rw [List.eq_nil_iff_forall_not_mem, List.eq_nil_iff_forall_not_mem]
    simp only [mem_dates_beside h]
  unfold walkforwardSplit
  simp only [hnil]
  split
  · exact .error _
  split
  · exact .error _
  split
  · exact .error _
  split
  · exact .error _
  split
  · unfold splitWhole
    simp only [hd]
    split
    · exact .error _
    · apply collect_same
      apply forall₂_map_same
      intro i _
      have hA := maskAt_beside h (windowDates y.dates)
        ((windowDates y.dates).length - truncQ ((windowDates y.dates).length / windows) * windows +
          i * truncQ ((windowDates y.dates).length / windows))
        ((windowDates y.dates).length - truncQ ((windowDates y.dates).length / windows) * windows +
          i * truncQ ((windowDates y.dates).length / windows) +
          truncQ ((windowDates y.dates).length / windows) - 1) false
      generalize maskAt x.dates _ _ _ _ = m1 at hA ⊢
      generalize maskAt y.dates _ _ _ _ = m2 at hA ⊢
      cases hA with
      | error e => exact .error _
      | ok h1 =>
        refine .ok ?_
        split
        · exact h1
        · exact sameMask_nil
  split
  · unfold splitOne
    simp only [hd]
    split
    · exact .error _
    · split
      · exact .error _
      · exact collect_same (.cons (windowAt_beside h _ _ _ _ _ _ _ _) .nil)
  · unfold splitMany
    simp only [hd]
    split
    · exact .error _
    · split
      · exact .error _
      · split
        · exact .error _
        · apply collect_same
          apply forall₂_map_same
          intro i _
          exact windowAt_beside h _ _ _ _ _ _ _ _

/-! ## Data -/

theorem arrays_filter {P : Sym → Bool} {sym : Sym} (hs : P sym = true) (cols : List String) (rows : List DRow) :
    (storeOf cols (rows.filter (fun r => P r.symbol))).arrays sym = (storeOf cols rows).arrays sym := by
  have h1 : (rows.filter (fun r => P r.symbol)).filter (fun r => decide (r.symbol = sym)) =
      rows.filter (fun r => decide (r.symbol = sym)) := by
    rw [List.filter_filter]
    apply List.filter_congr
    intro r _
    by_cases e : r.symbol = sym
    · simp [e, hs]
    · simp [e]
  have h2 : sym ∈ (rows.filter (fun r => P r.symbol)).map DRow.symbol ↔ sym ∈ rows.map DRow.symbol := by
    simp only [List.mem_map, List.mem_filter]
    constructor
    · rintro ⟨r, ⟨h, _⟩, e⟩; exact ⟨r, h, e⟩
    · rintro ⟨r, h, e⟩; exact ⟨r, ⟨h, by rw [e]; exact hs⟩, e⟩
  simp only [storeOf, symRows, h1, h2]

theorem arrays_beside (h : Alongside P x y) {sym : Sym} (hs : P sym = true) :
    (storeOf x.cols y.rows).arrays sym = (storeOf x.cols x.rows).arrays sym := by
  rw [h.rows, arrays_filter hs]

theorem arrays_none (h : Alongside P x y) {sym : Sym} (hs : P sym ≠ true) :
    (storeOf x.cols x.rows).arrays sym = none := by
  simp only [storeOf]
  rw [if_neg]
  rw [h.rows]
  intro hm
  obtain ⟨r, hr, e⟩ := List.mem_map.1 hm
  exact hs (e ▸ (List.mem_filter.1 hr).2)

theorem filter_swap (rows : List DRow) (q : Date → Bool) :
    (rows.filter (fun r => P r.symbol)).filter (fun r => q r.date) =
      (rows.filter (fun r => q r.date)).filter (fun r => P r.symbol) := by
  rw [List.filter_filter, List.filter_filter]
  apply List.filter_congr
  intro r _
  rw [Bool.and_comm]

section
variable (h : Alongside P x y) {store store' : Store} {sym : Sym} {idx idx' : Sym → Nat}
  (hs : store'.arrays sym = store.arrays sym)
include h hs

theorem priceAt_beside (hx : idx' sym = idx sym) (f : FillSpec) :
    y.priceAt store' idx' sym f = x.priceAt store idx sym f := by
  unfold priceAt
  cases f with
  | price t =>
    simp only [fillPrice, PriceScope.fetchFloat]
    have := fetchPriceType_rename (ρ := fun s => s) (sym := sym) hs hx x.round t
    rw [h.round]
    rcases ha : PriceScope.fetchPriceType { store := store', endIndex := idx', round := x.round } sym t
      with ⟨a1, a2⟩
    rcases hb : PriceScope.fetchPriceType { store := store, endIndex := idx, round := x.round } sym t
      with ⟨b1, b2⟩
    rw [ha, hb] at this
    simp only at this
    subst this
    cases a1 <;> rfl
  | amount q => simp only [fillPrice, PriceScope.fetchFloat, PriceScope.roundFloat, h.round]
  | callable n =>
    simp only [fillPrice, PriceScope.fetchFloat, PriceScope.roundFloat, h.round, hs, hx, h.fns]

theorem closePrices_beside (hx : idx' sym = idx sym) :
    y.closePrices store' idx' sym = x.closePrices store idx sym := by
  simp only [closePrices, h.exitCover, h.exitSell, priceAt_beside h hs hx]

theorem dropBars_beside : y.dropBars store' sym = x.dropBars store sym := by
  unfold dropBars
  rw [hs]
  cases store.arrays sym with
  | none => rfl
  | some a =>
    simp only
    apply List.map_congr_left
    intro di _
    rw [closePrices_beside h hs (idx := fun _ => di.2 + 1) (idx' := fun _ => di.2 + 1) rfl]

end

theorem barEnv_beside (h : Alongside P x y) (w : Nat) {store store' : Store}
    (hs : ∀ s, P s = true → store'.arrays s = store.arrays s) {idx idx' : Sym → Nat}
    (hx : ∀ s, P s = true → idx' s = idx s) (d : Date) :
    AgreeEnv (fun s => P s = true) (x.barEnv w store idx d) (y.barEnv w store' idx' d) := by
  have k1 : ∀ s, P s = true → PriceScope.hasBarOnRaw { store := store', endIndex := idx', round := x.round } s d =
      PriceScope.hasBarOnRaw { store := store, endIndex := idx, round := x.round } s d := fun s hp =>
    hasBarOnRaw_rename (ρ := fun s => s) (hs s hp) (hx s hp) _ _
  have k2 : ∀ s, P s = true → PriceScope.barOhlcRaw { store := store', endIndex := idx', round := x.round } s d =
      PriceScope.barOhlcRaw { store := store, endIndex := idx, round := x.round } s d := fun s hp =>
    barOhlcRaw_rename (ρ := fun s => s) (hs s hp) (hx s hp) _ _
  refine { date := rfl, endIndex := hx, hasBarOn := ?_, fetch := ?_, stop := ?_, quote := ?_, slip := ?_ }
  · intro s hp
    simp only [barEnv, h.round]
    exact k1 s hp
  · intro s hp
    funext f
    exact priceAt_beside h (hs s hp) (hx s hp) f
  · refine { canPrice := ?_, fetchFloat := ?_, fetch := ?_, slip := ?_ }
    · intro s hp
      simp only [barEnv, h.round, hs s hp, k1 s hp, k2 s hp]
    · intro s hp
      funext t
      exact priceAt_beside h (hs s hp) (hx s hp) _
    · intro s hp
      funext f
      exact priceAt_beside h (hs s hp) (hx s hp) f
    · simp only [barEnv, h.exitSlip]
  · intro s hp
    simp only [barEnv, h.round, k2 s hp]
  · simp only [barEnv, h.orderSlip]

theorem canPrice_none {w : Nat} {store : Store} {idx : Sym → Nat} {d : Date} {sym : Sym}
    (hs : store.arrays sym = none) : (x.barEnv w store idx d).stop.canPrice sym = false := by
  simp only [barEnv, PriceScope.hasBarOnRaw, hs]
  split <;> rfl

theorem selects_beside (h : Alongside P x y) : x.selects = false ∧ y.selects = false := by
  refine ⟨?_, ?_⟩
  · unfold selects
    rw [List.any_eq_false]
    intro e he
    simp [h.fixed.1 e he]
  · unfold selects
    rw [List.any_eq_false]
    intro e he
    simp [h.fixed.2 e he]

theorem exitDate_beside (h : Alongside P x y) {sym : Sym} (hs : P sym = true) :
    y.exitDate sym = x.exitDate sym := by
  have h1 : x.rows.filter (fun r => decide (r.symbol = sym)) = y.rows.filter (fun r => decide (r.symbol = sym)) := by
    rw [h.rows, List.filter_filter]
    apply List.filter_congr
    intro r _
    by_cases e : r.symbol = sym
    · simp [e, hs]
    · simp [e]
  unfold exitDate
  rw [(selects_beside h).1, (selects_beside h).2, h.exitOnLast, h1]
  simp only [h.execs, hs, and_true]

theorem windowExecutions_fixed {es : List (Execn (List DRow))}
    (h : es.any (fun e => e.symbols.isSelector) = false) (loaded : List DRow → List Sym) (d : List DRow) :
    windowExecutions loaded List.isEmpty es d = .ok es := by
  unfold windowExecutions selectionDf
  simp only [h]
  by_cases he : d.isEmpty = false
  · simp [he]
  · simp [he]

/-! ## The start of a window -/

/-- What two boundaries give for symbols in `P`. -/
structure AgreeBoundary (P : Sym → Prop) (b b' : Boundary) : Prop where
  selected : ∀ s, P s → b'.selected.contains s = b.selected.contains s
  testBar : ∀ s, P s → testExitBar b' s = testExitBar b s
  lateBar : ∀ s, P s → lateExitBar b' s = lateExitBar b s
  slip : b'.slip = b.slip
  iter : b'.iter = b.iter
  perm : ∀ l, (b.iter l).Perm l

theorem droppedSyms_agree {Q : Sym → Prop} {pf : Portfolio} (hp : PfOn Q pf) {b b' : Boundary}
    (hb : AgreeBoundary Q b b') :
    droppedSyms pf b'.selected = droppedSyms pf b.selected ∧ ∀ s ∈ droppedSyms pf b.selected, Q s := by
  have hm : ∀ s ∈ ((pf.longs.map Position.symbol) ++ (pf.shorts.map Position.symbol)).dedup, Q s := by
    intro s hs
    rcases List.mem_append.1 (List.mem_dedup.1 hs) with hs | hs
    · obtain ⟨p, hp', rfl⟩ := List.mem_map.1 hs
      exact hp.pos (pt := .long) hp'
    · obtain ⟨p, hp', rfl⟩ := List.mem_map.1 hs
      exact hp.pos (pt := .short) hp'
  refine ⟨?_, fun s hs => hm s (List.mem_filter.1 hs).1⟩
  unfold droppedSyms
  apply List.filter_congr
  intro s hs
  rw [hb.selected s (hm s hs)]

theorem dropStep_on {Q : Sym → Prop} {cfg : Config} {slip : Option SlipFn} {s s' : Loop} {d : Sym × DropBar}
    (h : LoopOn Q s) (hs : dropStep cfg slip s d = .ok s') : LoopOn Q s' := by
  unfold dropStep at hs
  exact h.exit hs

theorem dropExits_agree {Q : Sym → Prop} {f g : Sym → Option DropBar} (hfg : ∀ s, Q s → g s = f s)
    {l : List Sym} (hl : ∀ s ∈ l, Q s) : dropExits g l = dropExits f l := by
  unfold dropExits
  apply List.filterMap_congr
  intro s hs
  rw [hfg s (hl s hs)]

theorem liquidate_agree {Q : Sym → Prop} {cfg : Config} {s : Loop} (hs : LoopOn Q s) {b b' : Boundary}
    (hb : AgreeBoundary Q b b') :
    liquidateDropped cfg s b' = liquidateDropped cfg s b ∧
      ∀ s', liquidateDropped cfg s b = .ok s' → LoopOn Q s' := by
  obtain ⟨hd1, hd2⟩ := droppedSyms_agree hs.pf hb
  have hc : cancelStale s.pend b'.selected = cancelStale s.pend b.selected := by
    unfold cancelStale
    congr 1
    apply List.filter_congr
    intro a ha
    obtain ⟨o, ho, rfl⟩ := List.mem_map.1 ha
    rw [hb.selected _ (hs.orders o ho).1]
  have hdm : ∀ a ∈ b.iter (droppedSyms s.pf b.selected), Q a := fun a ha =>
    hd2 a ((hb.perm _).mem_iff.1 ha)
  have h0 : LoopOn Q { s with pend := cancelStale s.pend b.selected } :=
    hs.shrink rfl (cancelAll_sub _ _)
  have he1 := dropExits_agree hb.testBar hdm
  have he2 : ∀ l : List Sym, dropExits (lateExitBar b') (b.iter ((b.iter (droppedSyms s.pf b.selected)).filter
        (fun x => !l.contains x))) = dropExits (lateExitBar b)
        (b.iter ((b.iter (droppedSyms s.pf b.selected)).filter (fun x => !l.contains x))) := by
    intro l
    apply dropExits_agree hb.lateBar
    intro a ha
    exact hdm a (List.mem_filter.1 ((hb.perm _).mem_iff.1 ha)).1
  unfold liquidateDropped
  simp only [bind, Except.bind, hc, hd1, hb.iter, hb.slip, he1, he2]
  refine ⟨trivial, fun s' h' => ?_⟩
  cases h1 : foldB (dropStep cfg b.slip) { s with pend := cancelStale s.pend b.selected }
      (dropExits (testExitBar b) (b.iter (droppedSyms s.pf b.selected))) with
  | error e => rw [h1] at h'; cases h'
  | ok s1 =>
    rw [h1] at h'
    have i1 : LoopOn Q s1 := foldB_inv (I := LoopOn Q) (fun _ _ _ _ hb he => dropStep_on hb he) h0 h1
    exact foldB_inv (I := LoopOn Q) (fun _ _ _ _ hb he => dropStep_on hb he) i1 h'

theorem mem_test_beside (h : Alongside P x y) {w w' : WFWindow} (hw : SameTest x y w w') (d : Date) :
    d ∈ (x.rowsAt w.test).map DRow.date ↔ d ∈ (y.rowsAt w'.test).map DRow.date := by
  obtain ⟨q, h1, h2, _⟩ := hw
  rw [h1, h2]
  exact mem_filter_beside h q d

theorem testArrays_beside (h : Alongside P x y) {w w' : WFWindow} (hw : SameTest x y w w') {s : Sym}
    (hs : P s = true) :
    (storeOf x.cols (y.rowsAt w'.test)).arrays s = (storeOf x.cols (x.rowsAt w.test)).arrays s := by
  obtain ⟨q, h1, h2, _⟩ := hw
  rw [h1, h2, h.rows, filter_swap, arrays_filter hs]

theorem boundary_beside (h : Alongside P x y) (hiter : ∀ l, (x.iter l).Perm l) (k : Nat) {w w' : WFWindow}
    (hw : SameTest x y w w') :
    AgreeBoundary (fun s => P s = true) (x.boundary k (selectedSymbols x.execs) w)
      (y.boundary k (selectedSymbols y.execs) w') := by
  have ht : ∀ s, P s = true → (y.boundary k (selectedSymbols y.execs) w').test s =
      (x.boundary k (selectedSymbols x.execs) w).test s := by
    intro s hs
    simp only [boundary, h.cols]
    exact dropBars_beside h (testArrays_beside h hw hs)
  have ha : ∀ s, P s = true → (y.boundary k (selectedSymbols y.execs) w').all s =
      (x.boundary k (selectedSymbols x.execs) w).all s := by
    intro s hs
    simp only [boundary, h.cols]
    exact dropBars_beside h (arrays_beside h hs)
  have hm := fun d => mem_test_beside h hw d
  have hnil : (y.boundary k (selectedSymbols y.execs) w').testDates = [] ↔
      (x.boundary k (selectedSymbols x.execs) w).testDates = [] := by
    simp only [boundary]
    rw [List.eq_nil_iff_forall_not_mem, List.eq_nil_iff_forall_not_mem]
    simp only [hm]
  refine { selected := ?_, testBar := ?_, lateBar := ?_, slip := ?_, iter := h.iter, perm := hiter }
  · intro s hs
    simp only [boundary]
    rw [Bool.eq_iff_iff, List.contains_iff_mem, List.contains_iff_mem, h.execs]
    simp [hs]
  · intro s hs
    simp only [testExitBar, ht s hs, hnil]
  · intro s hs
    simp only [lateExitBar, ha s hs]
    rw [show minDate (y.boundary k (selectedSymbols y.execs) w').testDates =
      minDate (x.boundary k (selectedSymbols x.execs) w).testDates from (minDate_set hm).symm]
  · simp only [boundary, h.dropSlip]

theorem droppable_beside (h : Alongside P x y) {pf : Portfolio} (hp : PfOn (fun s => P s = true) pf)
    {b b' : Boundary} (hb : AgreeBoundary (fun s => P s = true) b b') {test test' master master' : Store}
    (ht : ∀ s, P s = true → test'.arrays s = test.arrays s)
    (hm : ∀ s, P s = true → master'.arrays s = master.arrays s) :
    y.droppable pf b' test' master' = x.droppable pf b test master := by
  obtain ⟨hd1, hd2⟩ := droppedSyms_agree hp hb
  unfold droppable
  rw [hd1, Bool.eq_iff_iff, List.all_eq_true, List.all_eq_true]
  refine forall₂_congr fun s hs => ?_
  have hP := hd2 s hs
  have hpr : ∀ (store store' : Store) (bar : DropBar), store'.arrays s = store.arrays s →
      (match store'.arrays s with
        | none => true
        | some a => closable pf s (y.closePrices store' (fun _ => a.dates.idxOf bar.date + 1) s)) =
      (match store.arrays s with
        | none => true
        | some a => closable pf s (x.closePrices store (fun _ => a.dates.idxOf bar.date + 1) s)) := by
    intro store store' bar hs
    have hcp : ∀ n : Nat, y.closePrices store' (fun _ => n) s = x.closePrices store (fun _ => n) s :=
      fun n => closePrices_beside h hs rfl
    simp only [hcp, hs]
  simp only [hb.testBar s hP, hb.lateBar s hP]
  cases testExitBar b s with
  | some bar => exact Eq.congr_left (hpr test test' bar (ht s hP))
  | none =>
    simp only
    cases lateExitBar b s with
    | some bar => exact Eq.congr_left (hpr master master' bar (hm s hP))
    | none => rfl

/-! ## A bar -/

/-- The states of both runs: equal but for the further symbols. -/
structure Spec.BesideState (P : Sym → Bool) (st st' : State) : Prop where
  loop : st'.loop = st.loop
  results : st'.results = st.results
  trace : st'.trace = st.trace
  turns : st.turns = st'.turns.filter (fun t => P t.2.2)

/-- What the runs keep. -/
structure BesideInv (P : Sym → Bool) (st st' : State) : Prop where
  same : Spec.BesideState P st st'
  idx : ∀ s, P s = true → st'.idx s = st.idx s
  on : LoopOn (fun s => P s = true) st.loop

theorem filterMap_beside {α β : Type} {q : α → Bool} {f g : α → Option β}
    (h : ∀ a, g a = if q a then f a else none) (l : List α) :
    l.filterMap g = (l.filter q).filterMap f := by
  rw [List.filterMap_filter]
  congr 1
  funext a
  rw [h]

theorem bar_beside (h : Alongside P x y) (hown : StopsOwn x) (k : Nat) {w w' : Window}
    (hw : AgreeWindow (fun s => P s = true) w w') {store store' : Store}
    (hs : ∀ s, P s = true → store'.arrays s = store.arrays s)
    (hnone : ∀ s, P s ≠ true → store.arrays s = none) {cal : List Date}
    {sd sd' : List (Sym × List Date)} {d : Date}
    (hact : activeSyms sd cal d = (activeSyms sd' cal d).filter P) {st st' : State}
    (hst : BesideInv P st st') :
    SameE (BesideInv P) (x.bar k w store cal sd st d) (y.bar k w' store' cal sd' st' d) := by
  have hwarm : ∀ m, y.warm m = x.warm m := fun m => by simp only [warm, h.warmup]
  simp only [bar, hst.same.loop, hwarm, hact]
  generalize activeSyms sd' cal d = active
  have hx : ∀ s, P s = true → bumpIndexes active st'.idx s = bumpIndexes (active.filter P) st.idx s := by
    intro s hp
    simp only [bumpIndexes, hst.idx s hp, List.count_filter hp]
  generalize bumpIndexes active st'.idx = idx' at hx ⊢
  generalize bumpIndexes (active.filter P) st.idx = idx at hx ⊢
  have henv := barEnv_beside h k hs hx d
  have hcan : ∀ sym, (x.barEnv k store idx d).stop.canPrice sym = true → P sym = true := by
    intro sym hc
    by_contra hp
    rw [canPrice_none (hnone sym hp)] at hc
    cases hc
  obtain ⟨hbo, hon⟩ := barOrders_agree (cfg := x.cfg) henv hst.on hcan
  rw [h.cfg, hbo]
  cases hbar : barOrders x.cfg (x.barEnv k store idx d) st.loop with
  | error e => exact .error _
  | ok s1 =>
    have h1 := hon s1 hbar
    simp only
    have hready : (active.filter P).filter (fun s => x.warm (idx s)) =
        (active.filter (fun s => x.warm (idx' s))).filter P := by
      rw [List.filter_filter, List.filter_filter]
      apply List.filter_congr
      intro s _
      cases hp : P s with
      | true => simp [hx s hp]
      | false => simp
    rw [hready]
    generalize active.filter (fun s => x.warm (idx' s)) = ready
    have hcap : captureBar x.cfg s1.pf d (y.barEnv k store' idx' d).quote =
        captureBar x.cfg s1.pf d (x.barEnv k store idx d).quote := captureBar_agree henv.quote x.cfg h1.pf d
    rw [hcap]
    obtain ⟨ha1, ha2⟩ := h.act k d (fun s => (store.arrays s).map (fun a => a.upTo (idx s)))
      (fun s => (store'.arrays s).map (fun a => a.upTo (idx' s)))
      { s1 with pf := captureBar x.cfg s1.pf d (x.barEnv k store idx d).quote } ready
      (fun s hp => by simp only [hs s hp, hx s hp])
    have hfit := fun sym r => hown k d (fun s => (store.arrays s).map (fun a => a.upTo (idx s)))
      { s1 with pf := captureBar x.cfg s1.pf d (x.barEnv k store idx d).quote } (ready.filter P) sym r
    generalize y.act k d (fun s => (store'.arrays s).map (fun a => a.upTo (idx' s))) _ ready = a'
      at ha1 ha2 ⊢
    generalize x.act k d (fun s => (store.arrays s).map (fun a => a.upTo (idx s)))
      { s1 with pf := captureBar x.cfg s1.pf d (x.barEnv k store idx d).quote } (ready.filter P) = a
      at ha1 ha2 hfit ⊢
    have hres : ready.filterMap (fun s => (a'.2 s).map (fun r => { r with symbol := s, date := d })) =
        (ready.filter P).filterMap (fun s => (a.2 s).map (fun r => { r with symbol := s, date := d })) := by
      apply filterMap_beside
      intro s
      rw [ha2]
      cases P s <;> rfl
    have hrin : ∀ r ∈ (ready.filter P).filterMap
        (fun s => (a.2 s).map (fun r => ({ r with symbol := s, date := d } : ExecResult))),
        P r.symbol = true ∧ ResultFit r := by
      intro r hr
      obtain ⟨s, hsm, hr⟩ := List.mem_filterMap.1 hr
      rw [Option.map_eq_some_iff] at hr
      obtain ⟨r0, hr0, rfl⟩ := hr
      exact ⟨(List.mem_filter.1 hsm).2, hfit s r0 hr0⟩
    rw [hres]
    generalize (ready.filter P).filterMap (fun s => (a.2 s).map (fun r => { r with symbol := s, date := d })) =
      results at hrin ⊢
    have hex : (ready.filter P).filter (fun s => x.exitDate s = some d) =
        (ready.filter (fun s => y.exitDate s = some d)).filter P := by
      rw [List.filter_filter, List.filter_filter]
      apply List.filter_congr
      intro s _
      cases hp : P s with
      | true => simp [exitDate_beside h hp]
      | false => simp
    rw [hex]
    have hcp : ∀ s, P s = true → y.closePrices store' idx' s = x.closePrices store idx s :=
      fun s hp => closePrices_beside h (hs s hp) (hx s hp)
    generalize ready.filter (fun s => y.exitDate s = some d) = exits
    have hall : exits.all (fun s => closable s1.pf s (y.closePrices store' idx' s)) =
        (exits.filter P).all (fun s => closable s1.pf s (x.closePrices store idx s)) := by
      rw [List.all_filter]
      congr 1
      funext s
      cases hp : P s with
      | true => simp [hcp s hp]
      | false =>
        have hp' : ¬ P s = true := by rw [hp]; simp
        have e1 : lookupPos s1.pf.longs s = none := h1.pf.lookup hp' .long
        have e2 : lookupPos s1.pf.shorts s = none := h1.pf.lookup hp' .short
        simp [closable, e1, e2]
    rw [hall]
    by_cases hc : (exits.filter P).all (fun s => closable s1.pf s (x.closePrices store idx s)) = true
    · rw [if_pos hc, if_pos hc]
      have hb := barSignals_agree (cfg := x.cfg) hw
        (b := { env := x.barEnv k store idx d
                user := a.1
                results := results
                exits := (exits.filter P).map (fun s => ForcedExit.mk s ((x.closePrices store idx s).1.getD 0)
                  ((x.closePrices store idx s).2.getD 0)) })
        (b' := { env := y.barEnv k store' idx' d
                 user := a'.1
                 results := results
                 exits := exits.map (fun s => ForcedExit.mk s ((y.closePrices store' idx' s).1.getD 0)
                  ((y.closePrices store' idx' s).2.getD 0)) })
        henv ha1 rfl hrin P (fun _ => Iff.rfl) (by
          simp only [List.filter_map]
          rw [show ((fun e : ForcedExit => P e.symbol) ∘ fun s => ForcedExit.mk s
            ((y.closePrices store' idx' s).1.getD 0) ((y.closePrices store' idx' s).2.getD 0)) = P from rfl]
          apply List.map_congr_left
          intro s hsm
          rw [hcp s (List.mem_filter.1 hsm).2]) h1
      rw [hb.1]
      cases hsig : barSignals x.cfg w _ s1 with
      | error e => exact .error _
      | ok s2 =>
        refine .ok ⟨⟨rfl, ?_, ?_, ?_⟩, hx, hb.2 s2 hsig⟩
        · simp only [hst.same.results]
        · simp only [hst.same.trace]
        · simp only [hst.same.turns, List.filter_append, List.filter_map]
          rfl
    · rw [if_neg hc, if_neg hc]
      exact .error _

theorem each_beside {α β : Type} {S : α → β → Prop} {f : State → α → Except RunErr State}
    {g : State → β → Except RunErr State} {l : List α} {l' : List β} (hl : List.Forall₂ S l l')
    (hfg : ∀ st st' a a', a ∈ l → S a a' → BesideInv P st st' → SameE (BesideInv P) (f st a) (g st' a'))
    {st st' : State} (hst : BesideInv P st st') : SameE (BesideInv P) (each f st l) (each g st' l') := by
  induction hl generalizing st st' with
  | nil => exact .ok hst
  | @cons a a' l l' hs _ ih =>
    unfold each
    have := hfg st st' a a' List.mem_cons_self hs hst
    generalize f st a = r at this ⊢
    generalize g st' a' = r' at this ⊢
    cases this with
    | error e => exact .error e
    | ok hb => exact ih (fun st st' b b' hb => hfg st st' b b' (List.mem_cons_of_mem _ hb)) hb

theorem runOne_beside (h : Alongside P x y) (hu : UniqueBars y.rows) (hiter : ∀ l, (x.iter l).Perm l)
    (hown : StopsOwn x) {st st' : State} (hst : BesideInv P st st') {w w' : WFWindow}
    (hw : SameTest x y w w') (k : Nat) :
    SameE (BesideInv P) (x.runOne st (w, k)) (y.runOne st' (w', k)) := by
  have hux : UniqueBars x.rows := by rw [h.rows]; exact hu.filter _
  have hdates : datesOfRows y.dates w'.test = datesOfRows x.dates w.test := by
    have key : ∀ (z : RunSetup) (l : List Nat),
        l.filterMap (fun i => z.dates[i]?) = (z.rowsAt l).map DRow.date := by
      intro z l
      unfold RunSetup.rowsAt RunSetup.dates
      rw [List.map_filterMap]
      simp only [List.getElem?_map]
    unfold datesOfRows
    rw [key, key]
    exact windowDates_set (fun d => (mem_test_beside h hw d).symm)
  have hnil : w'.test = [] ↔ w.test = [] := by
    obtain ⟨_, _, _, hn⟩ := hw
    exact hn.symm
  unfold runOne
  simp only
  rw [windowExecutions_fixed (selects_beside h).1, windowExecutions_fixed (selects_beside h).2]
  simp only
  rw [h.cols, hdates, hst.same.loop]
  have hb := boundary_beside h hiter k hw
  rw [droppable_beside h hst.on.pf hb (fun s hs => testArrays_beside h hw hs)
    (fun s hs => arrays_beside h hs)]
  split
  · have hcal : (y.store (datesOfRows x.dates w.test)).uniqueDates =
        (x.store (datesOfRows x.dates w.test)).uniqueDates := by
      refine sorted_ext (uniqueDates_sorted _) (uniqueDates_sorted _) (fun d => ?_)
      rw [mem_calendar hu, mem_calendar hux]
      have := mem_dates_beside h d
      unfold dates at this
      simp only [List.mem_map] at this
      rw [this]
    have hsa : ∀ s, P s = true → ((storeOf x.cols y.rows).slice (datesOfRows x.dates w.test)).arrays s =
        ((storeOf x.cols x.rows).slice (datesOfRows x.dates w.test)).arrays s := by
      intro s hs
      simp only [Store.slice, arrays_beside h hs]
    have hwin : AgreeWindow (fun s => P s = true)
        (x.window k (selectedSymbols x.execs) w
          ((storeOf x.cols x.rows).slice (datesOfRows x.dates w.test)))
        (y.window k (selectedSymbols y.execs) w'
          ((storeOf x.cols y.rows).slice (datesOfRows x.dates w.test))) := by
      refine ⟨?_, ?_, h.buyDelay, h.sellDelay⟩
      · intro s hs
        simp only [window, hsa s hs, h.execs, hs, and_true]
      · intro s hs
        simp only [window, Option.map_some, h.cols, arrays_beside h hs]
    have hstart := liquidate_agree (cfg := x.cfg) hst.on hb
    rw [show startWindow y.cfg st.loop (y.window k (selectedSymbols y.execs) w'
        ((storeOf x.cols y.rows).slice (datesOfRows x.dates w.test))) =
      startWindow x.cfg st.loop (x.window k (selectedSymbols x.execs) w
        ((storeOf x.cols x.rows).slice (datesOfRows x.dates w.test))) from by rw [h.cfg]; exact hstart.1]
    cases hl : startWindow x.cfg st.loop (x.window k (selectedSymbols x.execs) w
        ((storeOf x.cols x.rows).slice (datesOfRows x.dates w.test))) with
    | error e => exact .error _
    | ok s1 =>
      have hon : LoopOn (fun s => P s = true) s1 := hstart.2 s1 hl
      have hs2 : BesideInv P
          { loop := { s1 with covers := [], buys := [], sells := [] }, idx := fun _ => 0,
            turns := st.turns, results := st.results, trace := st.trace }
          { loop := { s1 with covers := [], buys := [], sells := [] }, idx := fun _ => 0,
            turns := st'.turns, results := st'.results, trace := st'.trace } :=
        ⟨⟨rfl, hst.same.results, hst.same.trace, hst.same.turns⟩, fun _ _ => rfl,
          hon.shrink rfl (List.Sublist.refl _)⟩
      simp only [hnil]
      split
      · exact .ok hs2
      · have hcal' : ((storeOf x.cols y.rows).slice (datesOfRows x.dates w.test)).uniqueDates =
            ((storeOf x.cols x.rows).slice (datesOfRows x.dates w.test)).uniqueDates := by
          have := hcal
          unfold store at this
          rw [h.cols] at this
          exact this
        rw [hcal']
        refine each_beside (S := fun a b => a = b) (List.forall₂_same.2 (fun _ _ => rfl)) ?_ hs2
        rintro a a' d _ hd rfl hab
        refine bar_beside h hown k hwin hsa ?_ ?_ hab
        · intro s hs
          simp only [Store.slice, arrays_none h hs, Option.bind_none]
        · have hdx : d ∈ (x.store (datesOfRows x.dates w.test)).uniqueDates := hd
          have hdy : d ∈ (y.store (datesOfRows x.dates w.test)).uniqueDates := by rw [hcal]; exact hdx
          have e1 := active_sorted (selected := selectedSymbols x.execs) hdx
          have e2 := (active_sorted (selected := selectedSymbols y.execs) hdy).filter P
          have m1 := fun s => mem_active hux (selected := selectedSymbols x.execs) hdx (sym := s)
          have m2 := fun s => mem_active hu (selected := selectedSymbols y.execs) hdy (sym := s)
          rw [hcal] at e2 m2
          unfold store at e1 e2 m1 m2
          rw [h.cols] at e2 m2
          refine List.Perm.eq_of_pairwise (le := fun a b : Sym => a < b)
            (fun a b _ _ h h' => absurd h (lt_asymm h')) e1 e2
            ((List.perm_ext_iff_of_nodup (e1.imp ne_of_lt) (e2.imp ne_of_lt)).2 ?_)
          intro s
          rw [m1, List.mem_filter, m2, mem_barsOn, mem_barsOn, h.execs]
          have : P s = true → ((∃ r ∈ x.rows, r.symbol = s ∧ r.date = d) ↔
              ∃ r ∈ y.rows, r.symbol = s ∧ r.date = d) := by
            intro hs
            rw [h.rows]
            constructor
            · rintro ⟨r, hr, e⟩; exact ⟨r, (List.mem_filter.1 hr).1, e⟩
            · rintro ⟨r, hr, e, e'⟩
              exact ⟨r, List.mem_filter.2 ⟨hr, by rw [e]; exact hs⟩, e, e'⟩
          constructor
          · rintro ⟨⟨h1, h2⟩, h3, h4⟩
            exact ⟨⟨h1, h3, (this h2).1 h4⟩, h2⟩
          · rintro ⟨⟨h1, h3, h4⟩, h2⟩
            exact ⟨⟨h1, h2⟩, h3, (this h2).2 h4⟩
  · exact .error _

/-- **C155: a symbol that nobody trades does not change a run.**  A run with further symbols in the
data, with or without executions, on dates the data has anyway, for which user code returns nothing,
raises the same error or ends with the same orders, trades, pending orders and values on each date;
executions of the other symbols get the same turns in the same order. -/
theorem run_alongside (h : Alongside P x y) (hu : UniqueBars y.rows) (hiter : ∀ l, (x.iter l).Perm l)
    (hown : StopsOwn x) :
    match x.run, y.run with
    | .ok a, .ok b => b.loop = a.loop ∧ b.results = a.results ∧ b.trace = a.trace ∧
        a.turns = b.turns.filter (fun t => P t.2.2)
    | .error e, .error e' => e' = e
    | _, _ => False := by
  have key : SameE (BesideInv P) x.run y.run := by
    unfold run
    rw [h.windows, h.lookahead, h.trainSize]
    have hsp := split_beside h x.shuffle y.shuffle x.windows x.lookahead x.trainSize
    generalize walkforwardSplit x.dates x.windows x.lookahead x.trainSize x.shuffle = r at hsp ⊢
    generalize walkforwardSplit y.dates x.windows x.lookahead x.trainSize y.shuffle = r' at hsp ⊢
    cases hsp with
    | error e => exact .error _
    | @ok a b hab =>
      simp only
      have hz : ∀ (n : Nat) {l l' : List WFWindow}, List.Forall₂ (SameTest x y) l l' →
          List.Forall₂ (fun p p' => SameTest x y p.1 p'.1 ∧ p'.2 = p.2) (l.zipIdx n) (l'.zipIdx n) := by
        intro n l l' hl
        induction hl generalizing n with
        | nil => exact .nil
        | cons hw _ ih => exact .cons ⟨hw, rfl⟩ (ih (n + 1))
      refine each_beside (hz 0 hab) ?_ ⟨⟨?_, rfl, rfl, rfl⟩, fun _ _ => rfl,
        ⟨PfOn.init _ _, by intro o ho; cases ho⟩⟩
      · rintro st st' ⟨w, k⟩ ⟨w', k'⟩ _ ⟨hw, hk⟩ hst
        simp only at hw hk
        subst hk
        exact runOne_beside h hu hiter hown hst hw k'
      · rw [h.cfg]
  generalize x.run = r at key ⊢
  generalize y.run = r' at key ⊢
  cases key with
  | error e => exact rfl
  | ok hb => exact ⟨hb.same.loop, hb.same.results, hb.same.trace, hb.same.turns⟩

end RunSetup

/-! ## Examples -/

namespace Demo

/-- Further rows of a symbol `AXX`, before and between those of the others. -/
def idRows : List DRow :=
  drRow "AXX" 1 7 :: drRows.flatMap (fun r => if r.symbol = "AAA" ∧ r.date = 4 then [drRow "AXX" 4 9, r] else [r])

/-- The run of `Demo.drRun` with an execution for `AXX` that does nothing. -/
def idRun : RunSetup :=
  { drRun with
    rows := idRows
    execs := [⟨1, .fixed ["AAA", "BBB"]⟩, ⟨2, .fixed ["AXX"]⟩]
    shuffle := List.reverse }

def idP (s : Sym) : Bool := s == "AAA" || s == "BBB"

theorem idBeside : Alongside idP drRun idRun where
  rows := by
    show drRows = idRows.filter (fun r => idP r.symbol)
    simp [drRows, idRows, drRow, idP]
  dates := by decide +kernel
  execs := by
    intro s
    show s ∈ ["AAA", "BBB"] ↔ s ∈ ["AAA", "BBB", "AXX"] ∧ idP s = true
    simp [idP]
    grind
  fixed := ⟨by decide, by decide⟩
  act := by
    intro w d a b s l _
    refine ⟨rfl, fun sym => ?_⟩
    show (drAct w d b s l).2 sym = if idP sym then (drAct w d a s (l.filter idP)).2 sym else none
    unfold drAct idP
    by_cases h1 : sym = "AAA"
    · simp [h1]
    · by_cases h2 : sym = "BBB"
      · simp [h2]
      · simp [h1, h2]
  cfg := rfl
  cols := rfl
  windows := rfl
  lookahead := rfl
  trainSize := rfl
  buyDelay := rfl
  sellDelay := rfl
  warmup := rfl
  exitOnLast := rfl
  exitCover := rfl
  exitSell := rfl
  round := rfl
  fns := rfl
  orderSlip := rfl
  exitSlip := rfl
  dropSlip := rfl
  iter := rfl

theorem idOwn : StopsOwn drRun := by
  intro w d a s l sym r h
  simp only [drRun, drAct] at h
  split at h
  · rename_i hc
    cases h
    refine ⟨?_, by simp⟩
    intro st hst
    simp only [List.mem_singleton] at hst
    subst hst
    exact ⟨rfl, hc.1.symm⟩
  · split at h
    · cases h
      exact ⟨by simp, by simp⟩
    · cases h

end Demo

/-- The theorem applies. -/
example := RunSetup.run_alongside Demo.idBeside
  (by show UniqueBars Demo.idRows; unfold UniqueBars Demo.idRows Demo.drRows; decide +kernel)
  (fun l => List.Perm.refl l) Demo.idOwn

/-- `AXX` gets its turns, before the symbols after it, and the run trades as it does without. -/
example : (Demo.drEnd Demo.idRun).turns =
      [(0, 1, "AAA"), (0, 1, "AXX"), (0, 1, "BBB"), (0, 2, "AAA"), (0, 2, "BBB"), (0, 3, "AAA"),
       (0, 3, "BBB"), (1, 4, "AAA"), (1, 4, "AXX"), (1, 4, "BBB"), (1, 5, "AAA"), (1, 5, "BBB"),
       (1, 6, "AAA")] ∧
    (Demo.drEnd Demo.idRun).loop.pf.orders.map (fun o => (o.date, o.symbol, o.shares, o.fillPrice)) =
      [(2, "AAA", 10, 101), (5, "BBB", 5, 24), (5, "BBB", 5, 24), (6, "AAA", 10, 105)] := by
  decide +kernel

/-- The dates must be there anyway: with bars of `AXX` on further dates, the windows begin elsewhere
and the run trades on other bars. -/
example : (Demo.drEnd { Demo.idRun with rows := Demo.drRow "AXX" 7 7 :: Demo.drRow "AXX" 8 7 :: Demo.idRows }).loop.pf.orders.map
    (fun o => (o.date, o.symbol)) ≠ (Demo.drEnd Demo.drRun).loop.pf.orders.map (fun o => (o.date, o.symbol)) := by
  decide +kernel

end PyBroker
