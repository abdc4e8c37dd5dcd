import Verif.Backtest.Units
import Verif.Backtest.Drive
import Verif.Props.Prices

/-!
# Another unit of money: data and whole runs (helper lemmas)
-/

namespace PyBroker

/-- A cell of a column in another unit: `priced` says which columns are amounts of money. -/
def cellUnits (k : ℚ) (priced : String → Bool) (c : String) (v : Cell) : Cell :=
  if priced c then money k v else v

/-- A row of the data in another unit. -/
def DRow.units (k : ℚ) (priced : String → Bool) (r : DRow) : DRow :=
  { r with val := fun c => cellUnits k priced c (r.val c) }

/-- The arrays of a symbol in another unit. -/
def SymArrays.units (k : ℚ) (priced : String → Bool) (a : SymArrays) : SymArrays where
  dates := a.dates
  col := fun c => (a.col c).map (List.map (cellUnits k priced c))

/-- The columns of all symbols in another unit. -/
def Store.units (k : ℚ) (priced : String → Bool) (s : Store) : Store where
  symbols := s.symbols
  arrays := fun x => (s.arrays x).map (SymArrays.units k priced)

/-- The state of a run in another unit. -/
def RunSetup.State.units (k : ℚ) (s : RunSetup.State) : RunSetup.State where
  loop := s.loop.units k
  idx := s.idx
  turns := s.turns
  results := s.results.map (ExecResult.units k)
  trace := s.trace.map (fun x => (x.1, x.2.units k))

section
variable {k : ℚ} {priced : String → Bool}

theorem symRows_units (rows : List DRow) (sym : Sym) :
    symRows (rows.map (DRow.units k priced)) sym = (symRows rows sym).map (DRow.units k priced) := by
  unfold symRows
  rw [List.filter_map]
  exact insertionSort_map_key _ _ _ (fun _ _ => Iff.rfl) _

theorem storeOf_units (cols : List String) (rows : List DRow) :
    storeOf cols (rows.map (DRow.units k priced)) = (storeOf cols rows).units k priced := by
  have h : (rows.map (DRow.units k priced)).map DRow.symbol = rows.map DRow.symbol := by
    rw [List.map_map]; rfl
  simp only [storeOf, Store.units, h, symRows_units, Store.mk.injEq, true_and]
  funext sym
  by_cases hs : sym ∈ rows.map DRow.symbol
  · rw [if_pos hs, if_pos hs]
    simp only [Option.map_some, SymArrays.units, List.map_map, Option.some.injEq, SymArrays.mk.injEq]
    refine ⟨rfl, ?_⟩
    funext c
    by_cases hc : c ∈ cols
    · rw [if_pos hc, if_pos hc]
      simp only [Option.map_some, List.map_map]
      rfl
    · rw [if_neg hc, if_neg hc]; rfl
  · rw [if_neg hs, if_neg hs]; rfl

theorem gather_map {α β : Type} (f : α → β) (idx : List Nat) (arr : List α) :
    gather idx (arr.map f) = (gather idx arr).map f := by
  unfold gather
  cases idx with
  | nil => rfl
  | cons i rest =>
    simp only
    split
    · rw [List.map_take, List.map_drop]
    · rw [List.map_filterMap]
      congr 1
      funext j
      rw [List.getElem?_map]

theorem slice_units (s : Store) (target : List Date) :
    (s.units k priced).slice target = (s.slice target).units k priced := by
  have h : ∀ a : SymArrays, sliceArrays target (a.units k priced) =
      (sliceArrays target a).map (SymArrays.units k priced) := fun a => by
    simp only [sliceArrays]
    rw [show (a.units k priced).dates = a.dates from rfl]
    split
    · rfl
    · simp only [Option.map_some, SymArrays.units, Option.some.injEq, SymArrays.mk.injEq, true_and,
        Option.map_map]
      funext c
      cases a.col c with
      | none => rfl
      | some l => simp only [Option.map_some, Function.comp, gather_map]
  have h2 : ∀ x, (((s.units k priced).arrays x).bind (sliceArrays target)) =
      ((s.arrays x).bind (sliceArrays target)).map (SymArrays.units k priced) := fun x => by
    simp only [Store.units]
    cases s.arrays x with
    | none => rfl
    | some a => simp only [Option.map_some, Option.bind_some, h]
  simp only [Store.slice, h2]
  simp only [Store.units, Option.isSome_map]

theorem storeDates_units (s : Store) (x : Sym) :
    ((s.units k priced).arrays x).map SymArrays.dates = (s.arrays x).map SymArrays.dates := by
  simp only [Store.units, Option.map_map]
  rfl

theorem uniqueDates_units (s : Store) : (s.units k priced).uniqueDates = s.uniqueDates := by
  simp only [Store.uniqueDates, storeDates_units]
  rfl

theorem symExecDates_units (s : Store) (l : List Sym) :
    symExecDates (s.units k priced) l = symExecDates s l := by
  unfold symExecDates
  congr 1
  funext x
  simp only [Store.units, Option.map_map]
  rfl

theorem upTo_units (a : SymArrays) (n : Nat) :
    (a.units k priced).upTo n = (a.upTo n).units k priced := by
  simp only [SymArrays.upTo, SymArrays.units, SymArrays.mk.injEq, true_and, Option.map_map]
  funext c
  cases a.col c with
  | none => rfl
  | some l => simp only [Option.map_some, Function.comp, List.map_take]

end

/-! ## Prices -/

/-- The columns prices are made of are amounts of money. -/
def PricedCols (priced : String → Bool) : Prop :=
  priced "open" = true ∧ priced "high" = true ∧ priced "low" = true ∧ priced "close" = true

section
variable {k : ℚ} {priced : String → Bool}

theorem barCell_units (s : Store) (sym : Sym) (n : Nat) (c : String) :
    Spec.barCell (s.units k priced) sym n c = (Spec.barCell s sym n c).map (cellUnits k priced c) := by
  unfold Spec.barCell
  simp only [Store.units]
  cases s.arrays sym with
  | none => rfl
  | some a =>
    simp only [Option.map_some, Option.bind_some, SymArrays.units]
    cases a.col c with
    | none => rfl
    | some l => simp only [Option.map_some, Option.bind_some, ← List.map_take, List.getLast?_map]

theorem mean2_units (a b : Cell) :
    Spec.mean [money k a, money k b] = money k (Spec.mean [a, b]) := by
  cases a <;> cases b <;> simp [Spec.mean, money]
  ring

theorem mean4_units (a b c d : Cell) :
    Spec.mean [money k a, money k b, money k c, money k d] = money k (Spec.mean [a, b, c, d]) := by
  cases a <;> cases b <;> cases c <;> cases d <;> simp [Spec.mean, money]
  ring

theorem price_units (hp : PricedCols priced) (c : String → Option Cell) (t : PriceType) :
    Spec.price (fun x => (c x).map (cellUnits k priced x)) t = (Spec.price c t).map (money k) := by
  obtain ⟨ho, hh, hl, hc⟩ := hp
  have e : ∀ x, priced x = true → (c x).map (cellUnits k priced x) = (c x).map (money k) := by
    intro x hx
    congr 1
    funext v
    simp [cellUnits, hx]
  cases t with
  | «open» => exact e _ ho
  | low => exact e _ hl
  | high => exact e _ hh
  | close => exact e _ hc
  | middle =>
    simp only [Spec.price, e _ hl, e _ hh]
    cases c "low" <;> cases c "high" <;> simp [mean2_units]
  | average =>
    simp only [Spec.price, e _ hl, e _ hh, e _ ho, e _ hc]
    cases c "open" <;> cases c "low" <;> cases c "high" <;> cases c "close" <;> simp [mean4_units]

theorem fetchPriceType_units (hp : PricedCols priced) (store : Store) (idx : Sym → Nat)
    (b : Bool) (sym : Sym) (t : PriceType) :
    (PriceScope.fetchPriceType { store := store.units k priced, endIndex := idx, round := b } sym t).1 =
      (PriceScope.fetchPriceType { store := store, endIndex := idx, round := b } sym t).1.map (money k) := by
  have hok : ∀ s : Store, PriceScope.BarOK { store := s, endIndex := idx, round := b } := by
    intro s sym p v h
    simp [cacheGet] at h
  have h1 := (fetchPriceType_good (hok (store.units k priced)) sym t).1
  have h2 := (fetchPriceType_good (hok store) sym t).1
  rw [h1, h2]
  simp only
  rw [show Spec.barCell (store.units k priced) sym (idx sym) =
    fun x => (Spec.barCell store sym (idx sym) x).map (cellUnits k priced x) from
      funext (barCell_units store sym (idx sym)), price_units hp]
  cases Spec.price (Spec.barCell store sym (idx sym)) t <;> rfl

theorem hasBarOnRaw_units (store : Store) (idx : Sym → Nat) (b : Bool) (sym : Sym) (d : Date) :
    PriceScope.hasBarOnRaw { store := store.units k priced, endIndex := idx, round := b } sym d =
      PriceScope.hasBarOnRaw { store := store, endIndex := idx, round := b } sym d := by
  unfold PriceScope.hasBarOnRaw
  simp only [Store.units]
  cases store.arrays sym <;> rfl

/-- The prices of a bar in another unit. -/
def ohlcUnits (k : ℚ) (q : Cell × Cell × Cell) : Cell × Cell × Cell :=
  (money k q.1, money k q.2.1, money k q.2.2)

theorem barOhlcRaw_units (hp : PricedCols priced) (store : Store) (idx : Sym → Nat) (b : Bool)
    (sym : Sym) (d : Date) :
    PriceScope.barOhlcRaw { store := store.units k priced, endIndex := idx, round := b } sym d =
      ohlcUnits k (PriceScope.barOhlcRaw { store := store, endIndex := idx, round := b } sym d) := by
  obtain ⟨ho, hh, hl, hc⟩ := hp
  unfold PriceScope.barOhlcRaw
  simp only [Store.units]
  split
  · rfl
  · cases store.arrays sym with
    | none => rfl
    | some a =>
      simp only [Option.map_some]
      rw [show (a.units k priced).dates = a.dates from rfl]
      generalize (if idx sym > a.dates.length then a.dates.length else idx sym) = m
      split
      · rfl
      · have e : ∀ (c : String) (n : Nat), priced c = true →
            (((a.units k priced).col c).bind (fun arr => arr[n]?)).join =
              money k (((a.col c).bind (fun arr => arr[n]?)).join) := by
          intro c n hx
          simp only [SymArrays.units]
          cases a.col c with
          | none => rfl
          | some l =>
            simp only [Option.map_some, Option.bind_some, List.getElem?_map]
            cases l[n]? with
            | none => rfl
            | some v => simp [cellUnits, hx]
        simp only [ohlcUnits, e _ _ hc, e _ _ hl, e _ _ hh]

theorem closeNone_units (store : Store) (sym : Sym) :
    (((store.units k priced).arrays sym).bind (fun a => a.col "close")).isNone =
      ((store.arrays sym).bind (fun a => a.col "close")).isNone := by
  simp only [Store.units]
  cases store.arrays sym with
  | none => rfl
  | some a =>
    simp only [Option.map_some, Option.bind_some, SymArrays.units]
    cases a.col "close" <;> rfl

end

end PyBroker
