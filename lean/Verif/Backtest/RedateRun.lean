import Verif.Backtest.Redate
import Verif.Backtest.UnitsRun

/-!
# Another calendar: data, windows and prices (helper lemmas)
-/

namespace PyBroker

/-- A row of the data with its date renamed. -/
def DRow.redate (τ : Date → Date) (r : DRow) : DRow := { r with date := τ r.date }

/-- The arrays of a symbol with their dates renamed. -/
def SymArrays.redate (τ : Date → Date) (a : SymArrays) : SymArrays := { a with dates := a.dates.map τ }

/-- The columns of all symbols with their dates renamed. -/
def Store.redate (τ : Date → Date) (s : Store) : Store where
  symbols := s.symbols
  arrays := fun x => (s.arrays x).map (SymArrays.redate τ)

/-- The state of a run with its dates renamed. -/
def RunSetup.State.redate (τ : Date → Date) (s : RunSetup.State) : RunSetup.State where
  loop := s.loop.redate τ
  idx := s.idx
  turns := s.turns.map (fun x => (x.1, τ x.2.1, x.2.2))
  results := s.results.map (ExecResult.redate τ)
  trace := s.trace.map (fun x => (τ x.1, x.2.redate τ))

section
variable {τ : Date → Date} (hτ : StrictMono τ)
include hτ

/-! ## Lists of dates -/

theorem redate_some (o : Option Date) (d : Date) : o.map τ = some (τ d) ↔ o = some d := by
  cases o with
  | none => simp
  | some a => simp [hτ.injective.eq_iff]

theorem redate_mem (l : List Date) (d : Date) : τ d ∈ l.map τ ↔ d ∈ l :=
  List.mem_map_of_injective hτ.injective

theorem redate_dedup (l : List Date) : (l.map τ).dedup = l.dedup.map τ :=
  List.dedup_map_of_injective hτ.injective l

theorem redate_sort (l : List Date) :
    (l.map τ).insertionSort (· ≤ ·) = (l.insertionSort (· ≤ ·)).map τ :=
  insertionSort_map_key _ _ _ (fun _ _ => hτ.le_iff_le) l

theorem redate_windowDates (l : List Date) : windowDates (l.map τ) = (windowDates l).map τ := by
  unfold windowDates
  rw [redate_dedup hτ, redate_sort hτ]

theorem redate_max (l : List Date) : (l.map τ).max? = l.max?.map τ := by
  have h : ∀ (l : List Date) (a : Date), (l.map τ).foldl max (τ a) = τ (l.foldl max a) := by
    intro l
    induction l with
    | nil => intro a; rfl
    | cons b l ih =>
      intro a
      simp only [List.map_cons, List.foldl_cons]
      rw [← hτ.monotone.map_max, ih]
  cases l with
  | nil => rfl
  | cons a l =>
    simp only [List.map_cons, List.max?_cons', Option.map_some, h]

/-! ## The split into windows -/

theorem rowMask_redate (rows : List Date) (a b : Date) (bl : Bool) :
    rowMask (rows.map τ) (τ a) (τ b) bl = rowMask rows a b bl := by
  unfold rowMask
  rw [List.length_map]
  congr 1
  funext i
  rw [List.getElem?_map]
  cases rows[i]? with
  | none => rfl
  | some d => simp only [Option.map_some, Option.any_some, inMask, hτ.lt_iff_lt, hτ.le_iff_le]

omit hτ in
theorem pyAt_redate (l : List Date) (i : Int) : pyAt (l.map τ) i = (pyAt l i).map τ := by
  unfold pyAt
  simp only [List.length_map, List.getElem?_map]
  generalize (if i < 0 then i + (l.length : Int) else i) = j
  by_cases h : j < 0
  · simp only [h, if_true]; rfl
  · simp only [h, if_false]
    cases l[j.toNat]? <;> rfl

theorem maskAt_redate (rows dates : List Date) (lo hi : Int) (bl : Bool) :
    maskAt (rows.map τ) (dates.map τ) lo hi bl = maskAt rows dates lo hi bl := by
  unfold maskAt
  rw [pyAt_redate, pyAt_redate]
  cases pyAt dates lo with
  | error e => rfl
  | ok a =>
    cases pyAt dates hi with
    | error e => rfl
    | ok b => simp only [Except.map, rowMask_redate hτ]

theorem windowAt_redate (rows dates : List Date) (sh : List Nat → List Nat) (a b c d : Int) (bl : Bool) :
    windowAt (rows.map τ) (dates.map τ) sh a b c d bl = windowAt rows dates sh a b c d bl := by
  simp only [windowAt, maskAt_redate hτ]

theorem split_redate (rows : List Date) (windows lookahead : Int) (ts : ℚ) (sh : List Nat → List Nat) :
    walkforwardSplit (rows.map τ) windows lookahead ts sh =
      walkforwardSplit rows windows lookahead ts sh := by
  have h1 : splitWhole (rows.map τ) windows ts sh = splitWhole rows windows ts sh := by
    simp only [splitWhole, redate_windowDates hτ, List.length_map, maskAt_redate hτ]
  have h2 : splitOne (rows.map τ) lookahead ts sh = splitOne rows lookahead ts sh := by
    simp only [splitOne, redate_windowDates hτ, List.length_map, windowAt_redate hτ]
  have h3 : splitMany (rows.map τ) windows lookahead ts sh = splitMany rows windows lookahead ts sh := by
    simp only [splitMany, redate_windowDates hτ, List.length_map, ← List.map_reverse, windowAt_redate hτ]
  simp only [walkforwardSplit, h1, h2, h3, List.map_eq_nil_iff]

theorem datesOfRows_redate (dates : List Date) (idx : List Nat) :
    datesOfRows (dates.map τ) idx = (datesOfRows dates idx).map τ := by
  unfold datesOfRows
  rw [← redate_windowDates hτ, List.map_filterMap]
  congr 2
  funext i
  rw [List.getElem?_map]

/-! ## The store -/

theorem symRows_redate (rows : List DRow) (sym : Sym) :
    symRows (rows.map (DRow.redate τ)) sym = (symRows rows sym).map (DRow.redate τ) := by
  unfold symRows
  rw [List.filter_map]
  exact insertionSort_map_key (fun a b : DRow => a.date ≤ b.date) (fun a b : DRow => a.date ≤ b.date)
    (DRow.redate τ) (fun _ _ => hτ.le_iff_le) _

theorem storeOf_redate (cols : List String) (rows : List DRow) :
    storeOf cols (rows.map (DRow.redate τ)) = (storeOf cols rows).redate τ := by
  have h : (rows.map (DRow.redate τ)).map DRow.symbol = rows.map DRow.symbol := by
    rw [List.map_map]; rfl
  simp only [storeOf, Store.redate, h, symRows_redate hτ, Store.mk.injEq, true_and]
  funext sym
  by_cases hs : sym ∈ rows.map DRow.symbol
  · rw [if_pos hs, if_pos hs]
    simp only [Option.map_some, SymArrays.redate, List.map_map, Option.some.injEq, SymArrays.mk.injEq]
    exact ⟨rfl, rfl⟩
  · rw [if_neg hs, if_neg hs]; rfl

theorem isSorted_redate (l : List Date) : isSorted (l.map τ) = isSorted l := by
  induction l with
  | nil => rfl
  | cons a l ih =>
    cases l with
    | nil => rfl
    | cons b l =>
      simp only [List.map_cons, isSorted, hτ.le_iff_le] at ih ⊢
      rw [ih]

theorem sortedIndices_redate (ds ts : List Date) (i : Nat) :
    sortedIndices (ds.map τ) (ts.map τ) i = sortedIndices ds ts i := by
  induction ds, ts, i using sortedIndices.induct with
  | case1 t i => simp [sortedIndices]
  | case2 d ds i => simp [sortedIndices]
  | case3 ds t ts i ih => simp only [List.map_cons, sortedIndices, if_true, ih]
  | case4 d ds t ts i h1 h2 ih =>
    simp only [List.map_cons, sortedIndices, hτ.injective.eq_iff, hτ.lt_iff_lt, h1, h2, if_true, if_false]
    exact ih
  | case5 d ds t ts i h1 h2 ih =>
    simp only [List.map_cons, sortedIndices, hτ.injective.eq_iff, hτ.lt_iff_lt, h1, h2, if_false]
    exact ih

theorem maskIndices_redate (ds ts : List Date) :
    maskIndices (ds.map τ) (ts.map τ) = maskIndices ds ts := by
  unfold maskIndices
  rw [List.length_map]
  congr 1
  funext i
  rw [List.getElem?_map]
  cases ds[i]? with
  | none => rfl
  | some d => simp only [Option.map_some, Option.any_some, redate_mem hτ]

theorem sliceIndices_redate (ds ts : List Date) :
    sliceIndices (ds.map τ) (ts.map τ) = sliceIndices ds ts := by
  simp only [sliceIndices, isSorted_redate hτ, sortedIndices_redate hτ, maskIndices_redate hτ]

theorem slice_redate (s : Store) (target : List Date) :
    (s.redate τ).slice (target.map τ) = (s.slice target).redate τ := by
  have h : ∀ a : SymArrays, sliceArrays (target.map τ) (a.redate τ) =
      (sliceArrays target a).map (SymArrays.redate τ) := fun a => by
    simp only [sliceArrays]
    rw [show (a.redate τ).dates = a.dates.map τ from rfl, sliceIndices_redate hτ, gather_map]
    split
    · rfl
    · rfl
  have h2 : ∀ x, (((s.redate τ).arrays x).bind (sliceArrays (target.map τ))) =
      ((s.arrays x).bind (sliceArrays target)).map (SymArrays.redate τ) := fun x => by
    simp only [Store.redate]
    cases s.arrays x with
    | none => rfl
    | some a => simp only [Option.map_some, Option.bind_some, h]
  simp only [Store.slice, h2]
  simp only [Store.redate, Option.isSome_map]

omit hτ in
theorem storeDates_redate (s : Store) (x : Sym) :
    (((s.redate τ).arrays x).map SymArrays.dates).getD [] =
      (((s.arrays x).map SymArrays.dates).getD []).map τ := by
  simp only [Store.redate]
  cases s.arrays x <;> rfl

theorem uniqueDates_redate (s : Store) : (s.redate τ).uniqueDates = s.uniqueDates.map τ := by
  simp only [Store.uniqueDates, storeDates_redate]
  rw [← redate_sort hτ, ← redate_dedup hτ, List.map_flatMap]
  rfl

omit hτ in
theorem symExecDates_redate (s : Store) (l : List Sym) :
    symExecDates (s.redate τ) l = (symExecDates s l).map (fun p => (p.1, p.2.map τ)) := by
  unfold symExecDates
  rw [List.map_filterMap]
  congr 1
  funext x
  simp only [Store.redate]
  cases s.arrays x <;> rfl

theorem activeSyms_redate (sd : List (Sym × List Date)) (cal : List Date) (d : Date) :
    activeSyms (sd.map (fun p => (p.1, p.2.map τ))) (cal.map τ) (τ d) = activeSyms sd cal d := by
  have h1 : ∀ a b : List Date, sameSet (a.map τ) (b.map τ) = sameSet a b := fun a b => by
    simp only [sameSet, List.all_map]
    have : ∀ c : List Date, ((fun d => decide (d ∈ c.map τ)) ∘ τ) = fun d => decide (d ∈ c) := fun c => by
      funext d
      simp only [Function.comp, redate_mem hτ]
    rw [this, this]
  have h2 : calendarAligned (sd.map (fun p => (p.1, p.2.map τ))) (cal.map τ) = calendarAligned sd cal := by
    simp only [calendarAligned, List.all_map, Function.comp_def, h1]
  have h3 : dateToSyms (sd.map (fun p => (p.1, p.2.map τ))) (τ d) = dateToSyms sd d := by
    simp only [dateToSyms, List.filter_map, List.map_map, Function.comp_def, redate_mem hτ]
  have h4 : (sd.map (fun p => (p.1, p.2.map τ))).map Prod.fst = sd.map Prod.fst := by
    rw [List.map_map]; rfl
  simp only [activeSyms, h2, h3, h4]

omit hτ in
theorem upTo_redate (a : SymArrays) (n : Nat) : (a.redate τ).upTo n = (a.upTo n).redate τ := by
  simp only [SymArrays.upTo, SymArrays.redate, List.map_take]

/-! ## Prices -/

omit hτ in
theorem barCell_redate (s : Store) (sym : Sym) (n : Nat) :
    Spec.barCell (s.redate τ) sym n = Spec.barCell s sym n := by
  funext c
  unfold Spec.barCell
  simp only [Store.redate]
  cases s.arrays sym <;> rfl

omit hτ in
theorem fetchPriceType_redate (store : Store) (idx : Sym → Nat) (b : Bool) (sym : Sym) (t : PriceType) :
    (PriceScope.fetchPriceType { store := store.redate τ, endIndex := idx, round := b } sym t).1 =
      (PriceScope.fetchPriceType { store := store, endIndex := idx, round := b } sym t).1 := by
  have hok : ∀ s : Store, PriceScope.BarOK { store := s, endIndex := idx, round := b } := by
    intro s sym p v h
    simp [cacheGet] at h
  rw [(fetchPriceType_good (hok (store.redate τ)) sym t).1, (fetchPriceType_good (hok store) sym t).1]
  simp only [barCell_redate]

theorem hasBarOnRaw_redate (store : Store) (idx : Sym → Nat) (b : Bool) (sym : Sym) (d : Date) :
    PriceScope.hasBarOnRaw { store := store.redate τ, endIndex := idx, round := b } sym (τ d) =
      PriceScope.hasBarOnRaw { store := store, endIndex := idx, round := b } sym d := by
  unfold PriceScope.hasBarOnRaw
  simp only [Store.redate]
  split
  · rfl
  · cases store.arrays sym with
    | none => rfl
    | some a =>
      simp only [Option.map_some, SymArrays.redate, List.length_map, List.getElem?_map]
      rw [Bool.eq_iff_iff, beq_iff_eq, beq_iff_eq, redate_some hτ]

theorem barOhlcRaw_redate (store : Store) (idx : Sym → Nat) (b : Bool) (sym : Sym) (d : Date) :
    PriceScope.barOhlcRaw { store := store.redate τ, endIndex := idx, round := b } sym (τ d) =
      PriceScope.barOhlcRaw { store := store, endIndex := idx, round := b } sym d := by
  unfold PriceScope.barOhlcRaw
  simp only [Store.redate]
  split
  · rfl
  · cases store.arrays sym with
    | none => rfl
    | some a =>
      simp only [Option.map_some, SymArrays.redate, List.length_map, List.getElem?_map, ne_eq,
        redate_some hτ]

omit hτ in
theorem closeNone_redate (store : Store) (sym : Sym) :
    (((store.redate τ).arrays sym).bind (fun a => a.col "close")) =
      ((store.arrays sym).bind (fun a => a.col "close")) := by
  simp only [Store.redate]
  cases store.arrays sym <;> rfl

end

end PyBroker
