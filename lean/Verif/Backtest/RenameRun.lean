import Verif.Backtest.Rename
import Verif.Backtest.Drive
import Verif.Backtest.UnitsRun

/-!
# Other names: data, windows and prices (helper lemmas)
-/

namespace PyBroker

open PyBroker.Spec

/-- A row of the data with its symbol renamed. -/
def DRow.rename (ρ : Sym → Sym) (r : DRow) : DRow := { r with symbol := ρ r.symbol }

/-- The same columns for the renamed symbols. -/
structure Spec.RenamedStore (ρ : Sym → Sym) (s s' : Store) : Prop where
  symbols : s'.symbols = s.symbols.map ρ
  arrays : ∀ x, s'.arrays (ρ x) = s.arrays x

/-- The same state of a run for the renamed symbols. -/
structure Spec.RenamedState (ρ : Sym → Sym) (s t : RunSetup.State) : Prop where
  loop : t.loop = s.loop.rename ρ
  idx : ∀ x, t.idx (ρ x) = s.idx x
  turns : t.turns = s.turns.map (fun x => (x.1, x.2.1, ρ x.2.2))
  results : t.results = s.results.map (ExecResult.rename ρ)
  trace : t.trace = s.trace.map (fun x => (x.1, x.2.rename ρ))

section
variable {ρ : Sym → Sym}

/-! ## The store -/

section
variable (hi : Function.Injective ρ)
include hi

theorem symRows_rename (rows : List DRow) (sym : Sym) :
    symRows (rows.map (DRow.rename ρ)) (ρ sym) = (symRows rows sym).map (DRow.rename ρ) := by
  have h : ((fun r : DRow => decide (r.symbol = ρ sym)) ∘ DRow.rename ρ) = fun r => decide (r.symbol = sym) := by
    funext r
    simp only [Function.comp, DRow.rename, hi.eq_iff]
  unfold symRows
  rw [List.filter_map, h]
  exact insertionSort_map_key (fun a b : DRow => a.date ≤ b.date) (fun a b : DRow => a.date ≤ b.date)
    (DRow.rename ρ) (fun _ _ => Iff.rfl) _

theorem storeArrays_rename (cols : List String) (rows : List DRow) (sym : Sym) :
    (storeOf cols (rows.map (DRow.rename ρ))).arrays (ρ sym) = (storeOf cols rows).arrays sym := by
  have h : (rows.map (DRow.rename ρ)).map DRow.symbol = (rows.map DRow.symbol).map ρ := by
    rw [List.map_map, List.map_map]; rfl
  simp only [storeOf, h, symRows_rename hi, List.mem_map_of_injective hi]
  simp only [List.map_map]
  rfl

theorem activeSyms_rename (sd : List (Sym × List Date)) (cal : List Date) (d : Date) :
    activeSyms (sd.map (fun p => (ρ p.1, p.2))) cal d = (activeSyms sd cal d).map ρ := by
  have h2 : calendarAligned (sd.map (fun p => (ρ p.1, p.2))) cal = calendarAligned sd cal := by
    simp only [calendarAligned, List.all_map]
    rfl
  have h3 : dateToSyms (sd.map (fun p => (ρ p.1, p.2))) d = (dateToSyms sd d).map ρ := by
    simp only [dateToSyms, List.filter_map, List.map_map]
    rfl
  simp only [activeSyms, h2, h3]
  split
  · simp only [List.map_map]; rfl
  · rfl

theorem bumpIndexes_rename (active : List Sym) {idx idx' : Sym → Nat} (h : ∀ s, idx' (ρ s) = idx s) (s : Sym) :
    bumpIndexes (active.map ρ) idx' (ρ s) = bumpIndexes active idx s := by
  simp only [bumpIndexes, h, List.count_map_of_injective active ρ hi]

end

theorem storeOf_rename (hi : Function.Injective ρ) (cols : List String) (rows : List DRow)
    (hρ : KeepsOrder ρ (rows.map DRow.symbol)) :
    RenamedStore ρ (storeOf cols rows) (storeOf cols (rows.map (DRow.rename ρ))) := by
  refine ⟨?_, storeArrays_rename hi cols rows⟩
  have h : (rows.map (DRow.rename ρ)).map DRow.symbol = (rows.map DRow.symbol).map ρ := by
    rw [List.map_map, List.map_map]; rfl
  simp only [storeOf, h]
  rw [List.dedup_map_of_injective hi]
  refine (List.map_insertionSort (r := (· ≤ ·)) (s := (· ≤ ·)) ρ _ ?_).symm
  intro a ha b hb
  exact (hρ a (List.mem_dedup.1 ha) b (List.mem_dedup.1 hb)).symm

section
variable {s s' : Store} (h : RenamedStore ρ s s')
include h

theorem slice_rename (target : List Date) : RenamedStore ρ (s.slice target) (s'.slice target) := by
  constructor
  · simp only [Store.slice, h.symbols, List.filter_map]
    congr 2
    funext x
    simp only [Function.comp, h.arrays]
  · intro x
    simp only [Store.slice, h.arrays]

theorem uniqueDates_rename : s'.uniqueDates = s.uniqueDates := by
  simp only [Store.uniqueDates, h.symbols, List.flatMap_map, h.arrays]

theorem symExecDates_rename (hi : Function.Injective ρ) (l : List Sym) :
    symExecDates s' (l.map ρ) = (symExecDates s l).map (fun p => (ρ p.1, p.2)) := by
  unfold symExecDates
  rw [h.symbols, List.filter_map, List.map_filterMap, List.filterMap_map]
  have e1 : ((fun x => decide (x ∈ l.map ρ)) ∘ ρ) = fun x => decide (x ∈ l) := by
    funext x
    simp only [Function.comp, List.mem_map_of_injective hi]
  rw [e1]
  congr 1
  funext x
  simp only [Function.comp, h.arrays]
  cases s.arrays x <;> rfl

end

/-! ## Prices -/

section
variable {s s' : Store} {sym : Sym} {idx idx' : Sym → Nat} (h : s'.arrays (ρ sym) = s.arrays sym)
  (hx : idx' (ρ sym) = idx sym)
include h

theorem barCell_rename (n : Nat) : Spec.barCell s' (ρ sym) n = Spec.barCell s sym n := by
  funext c
  unfold Spec.barCell
  rw [h]

include hx

theorem fetchPriceType_rename (b : Bool) (t : PriceType) :
    (PriceScope.fetchPriceType { store := s', endIndex := idx', round := b } (ρ sym) t).1 =
      (PriceScope.fetchPriceType { store := s, endIndex := idx, round := b } sym t).1 := by
  have hok : ∀ (s : Store) (i : Sym → Nat), PriceScope.BarOK { store := s, endIndex := i, round := b } := by
    intro s i sym p v h
    simp [cacheGet] at h
  rw [(fetchPriceType_good (hok s' idx') (ρ sym) t).1, (fetchPriceType_good (hok s idx) sym t).1]
  simp only [barCell_rename h, hx]

theorem hasBarOnRaw_rename (b : Bool) (d : Date) :
    PriceScope.hasBarOnRaw { store := s', endIndex := idx', round := b } (ρ sym) d =
      PriceScope.hasBarOnRaw { store := s, endIndex := idx, round := b } sym d := by
  simp only [PriceScope.hasBarOnRaw, h, hx]

theorem barOhlcRaw_rename (b : Bool) (d : Date) :
    PriceScope.barOhlcRaw { store := s', endIndex := idx', round := b } (ρ sym) d =
      PriceScope.barOhlcRaw { store := s, endIndex := idx, round := b } sym d := by
  simp only [PriceScope.barOhlcRaw, h, hx]

end

/-! ## There and back -/

section
variable {σ : Sym → Sym} (h : ∀ s, σ (ρ s) = s)
include h

theorem Stop.rename_rename (st : Stop) : (st.rename ρ).rename σ = st := by simp [Stop.rename, h]

theorem stops_rename_rename (l : List Stop) : (l.map (Stop.rename ρ)).map (Stop.rename σ) = l := by
  rw [List.map_map, show Stop.rename σ ∘ Stop.rename ρ = id from funext (Stop.rename_rename h), List.map_id]

theorem Portfolio.rename_rename (s : Portfolio) : (s.rename ρ).rename σ = s := by
  have e1 : Entry.rename σ ∘ Entry.rename ρ = id := by
    funext e
    simp only [Function.comp, Entry.rename, h, stops_rename_rename h]
    rfl
  have e2 : Position.rename σ ∘ Position.rename ρ = id := by
    funext p
    simp only [Function.comp, Position.rename, h, List.map_map, e1, List.map_id]
    rfl
  have e3 : Order.rename σ ∘ Order.rename ρ = id := by
    funext o; simp only [Function.comp, Order.rename, h]; rfl
  have e4 : Trade.rename σ ∘ Trade.rename ρ = id := by
    funext o; simp only [Function.comp, Trade.rename, h]; rfl
  have e5 : StopData.rename σ ∘ StopData.rename ρ = id := by
    funext o; simp only [Function.comp, StopData.rename, Stop.rename_rename h]; rfl
  have e6 : activeRename σ ∘ activeRename ρ = id := by
    funext o; simp only [Function.comp, activeRename, h]; rfl
  simp only [Portfolio.rename, List.map_map, e2, e3, e4, e5, e6, List.map_id,
    show σ ∘ ρ = id from funext h]

theorem PendingOrder.rename_rename (o : PendingOrder) : (o.rename ρ).rename σ = o := by
  simp only [PendingOrder.rename, h, stops_rename_rename h]

theorem ExecResult.rename_rename (r : ExecResult) : (r.rename ρ).rename σ = r := by
  simp only [ExecResult.rename, h, stops_rename_rename h]

theorem Loop.rename_rename (s : Loop) : (s.rename ρ).rename σ = s := by
  have e1 : PendingOrder.rename σ ∘ PendingOrder.rename ρ = id := funext (PendingOrder.rename_rename h)
  have e2 : schedRename σ ∘ schedRename ρ = id := by
    funext x
    simp [schedRename, ExecResult.rename_rename h]
  have e3 : Attempt.rename σ ∘ Attempt.rename ρ = id := by
    funext a
    obtain ⟨o, d, f⟩ := a
    cases f <;> simp [Attempt.rename, Order.rename, h, PendingOrder.rename_rename h]
  have e4 : symRename σ ∘ symRename ρ = id := by
    funext x
    simp [symRename, e1, h]
  have e5 : (s.pend.rename ρ).rename σ = s.pend := by
    simp only [PendingScope.rename, List.map_map, e1, e4, List.map_id]
  simp only [Loop.rename, List.map_map, e2, e3, List.map_id, e5, Portfolio.rename_rename h]

end

end

end PyBroker
