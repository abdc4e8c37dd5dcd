import Verif.Lags.Pooled
import Verif.Props.Train

/-!
# The data a pooled model is trained on (C93)
-/

namespace PyBroker

namespace Spec

/-- Model input of several symbols: one row per bar, with its symbol, the data columns of the
frame and the symbol's own indicators. -/
structure PooledOf (cols ordered inds : List String) (data : Sym → String → Option Series)
    (bars : List DRow) (x : LagInput) : Prop where
  dates : x.dates = bars.map DRow.date
  symbols : x.symbols = some (bars.map DRow.symbol)
  values : ∀ p ∈ x.columns, p.2 = bars.map (fun r => cellOf cols (data r.symbol) r p.1)
  names : bars ≠ [] → (x.columns.map Prod.fst).Nodup ∧
    ∀ c, c ∈ x.columns.map Prod.fst ↔ (c ∈ ordered ∧ c ∈ cols) ∨ c ∈ inds
  features : x.features = none

/-- Symbol after symbol in increasing order, the bars of each. -/
def bySymbol (symbols : List Sym) (bars : Sym → List DRow) : List DRow :=
  (symbols.insertionSort (· ≤ ·)).flatMap bars

end Spec

open PyBroker.Spec

/-! ## The rows -/

theorem poolParts_spec {store : Store} {cols inds : List String}
    {data : Sym → String → Option Series} {B : Sym → List DRow} :
    ∀ {symbols : List Sym}, (∀ s ∈ symbols, HasData inds (data s)) →
    (∀ s ∈ symbols, ∀ r ∈ B s, r.symbol = s) →
    (∀ s ∈ symbols, (B s = [] ∧ store.arrays s = none) ∨
      (B s ≠ [] ∧ ∃ x, store.arrays s = some x ∧ x.dates = (B s).map DRow.date ∧
        ∀ c, x.col c = if c ∈ cols then some ((B s).map (fun r => r.val c)) else none)) →
    ((poolParts store symbols).isEmpty = true ↔ symbols.flatMap B = []) ∧
    (poolParts store symbols).flatMap (fun p => p.2.dates) = (symbols.flatMap B).map DRow.date ∧
    (poolParts store symbols).flatMap (fun p => List.replicate p.2.dates.length p.1) =
      (symbols.flatMap B).map DRow.symbol ∧
    ∀ c, c ∈ cols ∨ c ∈ inds → poolColumn inds data c (poolParts store symbols) =
      some ((symbols.flatMap B).map (fun r => cellOf cols (data r.symbol) r c)) := by
  intro symbols
  induction symbols with
  | nil => intro _ _ _; exact ⟨by simp [poolParts], rfl, rfl, fun _ _ => rfl⟩
  | cons s rest ih =>
    intro hd hsym hb
    obtain ⟨i1, i2, i3, i4⟩ := ih (fun t ht => hd t (List.mem_cons_of_mem _ ht))
      (fun t ht => hsym t (List.mem_cons_of_mem _ ht)) (fun t ht => hb t (List.mem_cons_of_mem _ ht))
    rcases hb s List.mem_cons_self with ⟨h0, h⟩ | ⟨h0, x, h, h1, h2⟩
    · have e : poolParts store (s :: rest) = poolParts store rest := by
        unfold poolParts
        rw [List.filterMap_cons, h]
        rfl
      rw [e, List.flatMap_cons, h0, List.nil_append]
      exact ⟨i1, i2, i3, i4⟩
    · have hne : x.dates ≠ [] := by rw [h1]; simpa using h0
      have e : poolParts store (s :: rest) = (s, x) :: poolParts store rest := by
        unfold poolParts
        rw [List.filterMap_cons, h]
        simp only [Option.bind_some, if_neg hne]
      rw [e, List.flatMap_cons]
      have hs := hsym s List.mem_cons_self
      refine ⟨by simp [h0], ?_, ?_, ?_⟩
      · rw [List.flatMap_cons, i2, h1, List.map_append]
      · rw [List.flatMap_cons, i3, h1, List.map_append, List.length_map]
        congr 1
        symm
        rw [List.eq_replicate_iff]
        refine ⟨by simp, ?_⟩
        intro t ht
        obtain ⟨r, hr, rfl⟩ := List.mem_map.1 ht
        exact hs r hr
      · intro c hc
        have hcell : ∀ r ∈ B s, cellOf cols (data r.symbol) r c = cellOf cols (data s) r c :=
          fun r hr => by rw [hs r hr]
        rw [poolColumn, i4 c hc, List.map_append, List.map_congr_left hcell]
        have := (inputColumn_eq (hd s List.mem_cons_self) h1 h2 c).1 hc
        unfold inputColumn at this
        dsimp only
        rcases hxc : x.col c with _ | v
        · rw [hxc] at this
          dsimp only at this ⊢
          by_cases hi : c ∈ inds
          · rw [if_pos hi] at this ⊢
            rcases hdc : data s c with _ | ser
            · rw [hdc] at this; cases this
            · rw [hdc, Option.map_some] at this
              rw [Option.map_some, Option.some.inj this]
          · rw [if_neg hi] at this; cases this
        · rw [hxc] at this
          dsimp only at this ⊢
          rw [Option.some.inj this]

/-- Rows with the same symbol and date are the same. -/
theorem same_bar {rows : List DRow} (hu : UniqueBars rows) {a b : DRow} (ha : a ∈ rows) (hb : b ∈ rows)
    (hs : a.symbol = b.symbol) (hd : a.date = b.date) : a = b := by
  obtain ⟨i, hi, rfl⟩ := List.mem_iff_getElem.1 ha
  obtain ⟨j, hj, rfl⟩ := List.mem_iff_getElem.1 hb
  unfold UniqueBars at hu
  rw [List.pairwise_iff_getElem] at hu
  rcases Nat.lt_trichotomy i j with h | h | h
  · rcases hu i j hi hj h with h | h
    · exact absurd hs h
    · exact absurd hd h
  · subst h; rfl
  · rcases hu j i hj hi h with h | h
    · exact absurd hs.symm h
    · exact absurd hd.symm h

theorem mapM_getElem {α : Type} {l : List α} : ∀ {idx : List Nat}, (∀ i ∈ idx, i < l.length) →
    pickRows idx l = some (pick idx l) := by
  intro idx
  induction idx with
  | nil => intro _; rfl
  | cons i idx ih =>
    intro h
    have hi := h i (by simp)
    have := ih (fun j hj => h j (by simp [hj]))
    unfold pickRows at this ⊢
    rw [List.mapM_cons, List.getElem?_eq_getElem hi, this]
    unfold pick
    rw [List.filterMap_cons, List.getElem?_eq_getElem hi]
    rfl

theorem pick_map {α β : Type} (g : α → β) (idx : List Nat) (l : List α) :
    pick idx (l.map g) = (pick idx l).map g := by
  unfold pick
  rw [List.map_filterMap]
  congr 1
  funext i
  rw [List.getElem?_map]

theorem pick_range {α : Type} (l : List α) : pick (List.range l.length) l = l := by
  have := filter_pick (fun _ => true) l
  rw [List.filter_true] at this
  conv_rhs => rw [this]
  congr 1
  symm
  rw [List.filter_eq_self]
  intro i hi
  rw [List.mem_range] at hi
  rw [List.getElem?_eq_getElem hi]
  rfl

/-- A strict order on bars by symbol, then date. -/
def barLT (a b : DRow) : Prop := a.symbol < b.symbol ∨ (a.symbol = b.symbol ∧ a.date < b.date)

theorem bySymbol_sorted {symbols : List Sym} (hn : symbols.Nodup) {B : Sym → List DRow}
    (hsym : ∀ s ∈ symbols, ∀ r ∈ B s, r.symbol = s)
    (hs : ∀ s ∈ symbols, (B s).Pairwise (fun a b => a.date < b.date)) :
    (bySymbol symbols B).Pairwise barLT := by
  unfold bySymbol
  have hp := List.perm_insertionSort (· ≤ ·) symbols
  have h1 := List.pairwise_insertionSort (· ≤ ·) symbols
  have h2 : (symbols.insertionSort (· ≤ ·)).Nodup := hp.nodup_iff.2 hn
  have h3 : ∀ s ∈ symbols.insertionSort (· ≤ ·), s ∈ symbols := fun s h => hp.mem_iff.1 h
  rw [List.pairwise_flatMap]
  refine ⟨?_, ?_⟩
  · intro s hs'
    have h3' := h3 s hs'
    refine List.Pairwise.imp_of_mem ?_ (hs s h3')
    intro a b ha hb hab
    exact .inr ⟨by rw [hsym s h3' a ha, hsym s h3' b hb], hab⟩
  · have := h1.and h2
    refine List.Pairwise.imp_of_mem ?_ this
    intro s t hs' ht hst a ha b hb
    left
    rw [hsym s (h3 s hs') a ha, hsym t (h3 t ht) b hb]
    exact lt_of_le_of_ne hst.1 hst.2

theorem lexOrder_pick {rows : List DRow} (hu : UniqueBars rows) {symbols : List Sym} (hn : symbols.Nodup)
    {B : Sym → List DRow} (hmem : ∀ s ∈ symbols, ∀ r ∈ B s, r ∈ rows ∧ r.symbol = s)
    (hs : ∀ s ∈ symbols, (B s).Pairwise (fun a b => a.date < b.date)) :
    (∀ i ∈ lexOrder ((symbols.flatMap B).map DRow.symbol) ((symbols.flatMap B).map DRow.date),
      i < (symbols.flatMap B).length) ∧
    pick (lexOrder ((symbols.flatMap B).map DRow.symbol) ((symbols.flatMap B).map DRow.date))
      (symbols.flatMap B) = bySymbol symbols B := by
  have hUmem : ∀ r ∈ symbols.flatMap B, r ∈ rows := by
    intro r hr
    obtain ⟨s, hs', hr⟩ := List.mem_flatMap.1 hr
    exact (hmem s hs' r hr).1
  generalize hU : symbols.flatMap B = U at hUmem ⊢
  have hperm : (lexOrder (U.map DRow.symbol) (U.map DRow.date)).Perm (List.range U.length) := by
    unfold lexOrder
    rw [List.length_map]
    exact List.perm_insertionSort _ _
  have hlt : ∀ i ∈ lexOrder (U.map DRow.symbol) (U.map DRow.date), i < U.length :=
    fun i hi => List.mem_range.1 (hperm.mem_iff.1 hi)
  refine ⟨hlt, ?_⟩
  -- a permutation of the bars
  have hpW : (pick (lexOrder (U.map DRow.symbol) (U.map DRow.date)) U).Perm U := by
    have := hperm.filterMap (fun i => U[i]?)
    have h2 := pick_range U
    unfold pick at h2 ⊢
    rw [h2] at this
    exact this
  have hpV : (bySymbol symbols B).Perm U := by
    rw [← hU]
    exact (List.perm_insertionSort (· ≤ ·) symbols).flatMap_right B
  have hVs := bySymbol_sorted hn (fun s hs' r hr => (hmem s hs' r hr).2) hs
  -- sorted
  have hWs : (pick (lexOrder (U.map DRow.symbol) (U.map DRow.date)) U).Pairwise
      (fun a b => a.symbol < b.symbol ∨ (a.symbol = b.symbol ∧ a.date ≤ b.date)) := by
    let le : Nat → Nat → Prop := fun i j => poolLE
      ((U.map DRow.symbol).getD i "", (U.map DRow.date).getD i 0)
      ((U.map DRow.symbol).getD j "", (U.map DRow.date).getD j 0)
    have htot : Std.Total le := ⟨fun i j => by
      simp only [le, poolLE]
      rcases lt_trichotomy ((U.map DRow.symbol).getD i "") ((U.map DRow.symbol).getD j "") with h | h | h
      · exact .inl (.inl h)
      · rcases le_total ((U.map DRow.date).getD i 0) ((U.map DRow.date).getD j 0) with h' | h'
        · exact .inl (.inr ⟨h, h'⟩)
        · exact .inr (.inr ⟨h.symm, h'⟩)
      · exact .inr (.inl h)⟩
    have htr : IsTrans Nat le := ⟨fun i j k => by
      simp only [le, poolLE]
      rintro (h | ⟨h, h'⟩) (g | ⟨g, g'⟩)
      · exact .inl (lt_trans h g)
      · exact .inl (g ▸ h)
      · exact .inl (h ▸ g)
      · exact .inr ⟨h.trans g, le_trans h' g'⟩⟩
    have hsorted : (lexOrder (U.map DRow.symbol) (U.map DRow.date)).Pairwise le :=
      List.pairwise_insertionSort le _
    unfold pick
    rw [List.pairwise_filterMap]
    refine hsorted.imp ?_
    intro i j hij a ha b hb
    have e1 : (U.map DRow.symbol).getD i "" = a.symbol := by
      rw [List.getD_eq_getElem?_getD, List.getElem?_map, ha]; rfl
    have e2 : (U.map DRow.symbol).getD j "" = b.symbol := by
      rw [List.getD_eq_getElem?_getD, List.getElem?_map, hb]; rfl
    have e3 : (U.map DRow.date).getD i 0 = a.date := by
      rw [List.getD_eq_getElem?_getD, List.getElem?_map, ha]; rfl
    have e4 : (U.map DRow.date).getD j 0 = b.date := by
      rw [List.getD_eq_getElem?_getD, List.getElem?_map, hb]; rfl
    simp only [le, poolLE, e1, e2, e3, e4] at hij
    exact hij
  refine List.Perm.eq_of_pairwise (le := fun a b : DRow =>
      a.symbol < b.symbol ∨ (a.symbol = b.symbol ∧ a.date ≤ b.date)) ?_ hWs
    (hVs.imp (fun h => h.imp id (fun h => ⟨h.1, le_of_lt h.2⟩))) (hpW.trans hpV.symm)
  intro a b ha hb h1 h2
  have ha' := hUmem a (hpW.mem_iff.1 ha)
  have hb' := hUmem b (hpV.mem_iff.1 hb)
  rcases h1 with h1 | ⟨h1, h3⟩
  · rcases h2 with h2 | ⟨h2, -⟩
    · exact absurd h1 (lt_asymm h2)
    · exact absurd h1 (by rw [h2]; exact lt_irrefl _)
  · rcases h2 with h2 | ⟨-, h4⟩
    · exact absurd h2 (by rw [h1]; exact lt_irrefl _)
    · exact same_bar hu ha' hb' h1 (le_antisymm h3 h4)

/-- The pooled input of symbols with the given bars. -/
theorem pooledInput_bars {rows : List DRow} (hu : UniqueBars rows) {cols inds ordered : List String}
    {data : Sym → String → Option Series} {symbols : List Sym} (hn : symbols.Nodup)
    (hd : ∀ s ∈ symbols, HasData inds (data s)) {window : List Date} {a b : Int}
    (hw : ∀ d ∈ rows.map DRow.date, d ∈ window ↔ a ≤ barNo (rows.map DRow.date) d ∧
      (barNo (rows.map DRow.date) d : Int) < b) :
    ∃ x, pooledInput ((storeOf cols rows).slice window) symbols ordered inds data = some x ∧
      PooledOf cols ordered inds data (bySymbol symbols (fun s => barsNo rows s a b)) x := by
  have hmem : ∀ s ∈ symbols, ∀ r ∈ barsNo rows s a b, r ∈ rows ∧ r.symbol = s := by
    intro s _ r hr
    have := mem_barsNo.1 hr
    exact ⟨this.1, this.2.1⟩
  have hsort : ∀ s ∈ symbols, (barsNo rows s a b).Pairwise (fun a b => a.date < b.date) :=
    fun s _ => barsNo_sorted hu s a b
  have hsl := fun s => slice_bars hu cols s hw
  obtain ⟨p1, p2, p3, p4⟩ := poolParts_spec (B := fun s => barsNo rows s a b) hd
    (fun s hs r hr => (hmem s hs r hr).2) (fun s _ => hsl s)
  obtain ⟨o1, o2⟩ := lexOrder_pick hu hn hmem hsort
  have hperm : (bySymbol symbols (fun s => barsNo rows s a b)).Perm
      (symbols.flatMap (fun s => barsNo rows s a b)) :=
    (List.perm_insertionSort (· ≤ ·) symbols).flatMap_right _
  unfold pooledInput
  dsimp only
  by_cases h0 : symbols.flatMap (fun s => barsNo rows s a b) = []
  · rw [if_pos (p1.2 h0)]
    have hnil : bySymbol symbols (fun s => barsNo rows s a b) = [] := by
      rw [h0] at hperm; exact hperm.eq_nil
    rw [hnil]
    exact ⟨_, rfl, rfl, rfl, by simp, fun h => absurd rfl h, rfl⟩
  · rw [if_neg (fun h => h0 (p1.1 h)), p2, p3]
    have hav : ∀ c, symbols.any (fun s => (((storeOf cols rows).slice window).arrays s).any
        (fun x => (x.col c).isSome)) = true ↔ c ∈ cols := by
      intro c
      rw [List.any_eq_true]
      constructor
      · rintro ⟨s, _, hs⟩
        rcases hsl s with ⟨_, h⟩ | ⟨_, x, h, _, h2⟩
        · rw [h] at hs; cases hs
        · rw [h] at hs
          simp only [Option.any_some, h2 c] at hs
          by_contra hc
          rw [if_neg hc] at hs
          cases hs
      · intro hc
        obtain ⟨r, hr⟩ := List.exists_mem_of_ne_nil _ h0
        obtain ⟨s, hs, hr⟩ := List.mem_flatMap.1 hr
        refine ⟨s, hs, ?_⟩
        rcases hsl s with ⟨h, _⟩ | ⟨_, x, h, _, h2⟩
        · rw [h] at hr; cases hr
        · rw [h]
          simp only [Option.any_some, h2 c, if_pos hc]
          rfl
    have hpk : ∀ {β : Type} (g : DRow → β), pickRows (lexOrder
        ((symbols.flatMap (fun s => barsNo rows s a b)).map DRow.symbol)
        ((symbols.flatMap (fun s => barsNo rows s a b)).map DRow.date))
        ((symbols.flatMap (fun s => barsNo rows s a b)).map g) =
        some ((bySymbol symbols (fun s => barsNo rows s a b)).map g) := by
      intro β g
      rw [mapM_getElem (fun i hi => by rw [List.length_map]; exact o1 i hi), pick_map, o2]
    rw [hpk, hpk]
    have hcol : ∀ c ∈ modelInputCols ordered inds (fun c => symbols.any (fun s =>
          (((storeOf cols rows).slice window).arrays s).any (fun x => (x.col c).isSome))),
        (poolColumn inds data c (poolParts ((storeOf cols rows).slice window) symbols)).bind
          (pickRows (lexOrder
            ((symbols.flatMap (fun s => barsNo rows s a b)).map DRow.symbol)
            ((symbols.flatMap (fun s => barsNo rows s a b)).map DRow.date))) =
        some ((bySymbol symbols (fun s => barsNo rows s a b)).map
          (fun r => cellOf cols (data r.symbol) r c)) := by
      intro c hc
      rw [p4 c, Option.bind_some, hpk]
      rcases mem_modelInputCols.1 hc with ⟨_, h⟩ | h
      · exact .inl ((hav c).1 h)
      · exact .inr h
    rw [mapM_pairs hcol]
    refine ⟨_, rfl, rfl, rfl, ?_, fun _ => ⟨?_, ?_⟩, rfl⟩
    · intro p hp
      obtain ⟨c, _, rfl⟩ := List.mem_map.1 hp
      rfl
    · simp only [List.map_map]
      rw [show (Prod.fst ∘ fun c => (c, (bySymbol symbols (fun s => barsNo rows s a b)).map
          (fun r => cellOf cols (data r.symbol) r c))) = (id : String → String) from rfl, List.map_id]
      unfold modelInputCols
      exact nodup_eraseDups _
    · intro c
      simp only [List.map_map]
      rw [show (Prod.fst ∘ fun c => (c, (bySymbol symbols (fun s => barsNo rows s a b)).map
          (fun r => cellOf cols (data r.symbol) r c))) = (id : String → String) from rfl, List.map_id,
        mem_modelInputCols]
      simp only [hav]

/-- **C93.** Window number `k` of an accepted split, as in `training_rows`.  A pooled model of
a set of symbols, whatever order the set is iterated in, is trained on exactly the bars each of
them has in the training window, symbol after symbol and each in date order; every row holds
its own symbol's bar and indicators.  The test data are the same for the test window. -/
theorem pooled_training_rows {rows : List DRow} (hu : UniqueBars rows) {w la : Int} {ts : ℚ}
    {shuffle : List Nat → List Nat} (hs : ∀ l, (shuffle l).Perm l) (h0 : 0 < ts) (h1 : ts < 1)
    {ws : List WFWindow} (h : walkforwardSplit (rows.map DRow.date) w la ts shuffle = .ok ws)
    (cols : List String) :
    ∃ tl te : Nat, 0 < tl + te ∧ (ws.length : Int) = w ∧
      ∀ (k : Nat) (win : WFWindow) (first : Int), ws[k]? = some win →
        first = nDates (rows.map DRow.date) - (w - k) * te →
        ∀ (symbols : List Sym) (ordered inds : List String) (data : Sym → String → Option Series),
          symbols.Nodup → (∀ s ∈ symbols, HasData inds (data s)) →
          (∀ st, (windowStores (storeOf cols rows) (rows.map DRow.date) win).train = some st →
            ∃ x, pooledInput st symbols ordered inds data = some x ∧
              PooledOf cols ordered inds data (bySymbol symbols
                (fun s => barsNo rows s (first - (la - 1) - tl) (first - (la - 1)))) x) ∧
          (∀ st, (windowStores (storeOf cols rows) (rows.map DRow.date) win).test = some st →
            ∃ x, pooledInput st symbols ordered inds data = some x ∧
              PooledOf cols ordered inds data (bySymbol symbols
                (fun s => barsNo rows s first (first + te))) x) := by
  obtain ⟨tl, te, hpos, hlen, hfit, hb⟩ := split_blocks hs h0 h1 h
  refine ⟨tl, te, hpos, hlen, ?_⟩
  intro k win first hk hfirst symbols ordered inds data hn hd
  subst hfirst
  obtain ⟨htest, htrain⟩ := hb k win hk
  constructor
  · intro st hst
    rw [windowStores_train] at hst
    split at hst
    · cases hst
    · cases hst
      exact pooledInput_bars hu hn hd (fun d hd' => mem_datesIn htrain hd')
  · intro st hst
    rw [windowStores_test] at hst
    split at hst
    · cases hst
    · cases hst
      exact pooledInput_bars hu hn hd (fun d hd' => mem_datesIn htest hd')

/-! ## Lag features -/

theorem mem_pooled {symbols : List Sym} {B : Sym → List DRow} {r : DRow} :
    r ∈ bySymbol symbols B ↔ ∃ s ∈ symbols, r ∈ B s := by
  unfold bySymbol
  rw [((List.perm_insertionSort (· ≤ ·) symbols).flatMap_right B).mem_iff, List.mem_flatMap]

theorem flatMap_single {B : Sym → List DRow} {s : Sym} : ∀ {l : List Sym}, l.Nodup → s ∈ l →
    l.flatMap (fun t => if t = s then B t else []) = B s := by
  intro l
  induction l with
  | nil => intro _ h; cases h
  | cons t l ih =>
    intro hn hs
    obtain ⟨h1, h2⟩ := List.nodup_cons.1 hn
    rw [List.flatMap_cons]
    by_cases hts : t = s
    · subst hts
      rw [if_pos rfl]
      have : l.flatMap (fun u => if u = t then B u else []) = [] := by
        rw [List.flatMap_eq_nil_iff]
        intro u hu
        rw [if_neg (fun h : u = t => h1 (h ▸ hu))]
      rw [this, List.append_nil]
    · rw [if_neg hts, List.nil_append]
      refine ih h2 ?_
      rcases List.mem_cons.1 hs with h | h
      · exact absurd h.symm hts
      · exact h

theorem filter_bySymbol {symbols : List Sym} (hn : symbols.Nodup) {B : Sym → List DRow}
    (hsym : ∀ s ∈ symbols, ∀ r ∈ B s, r.symbol = s) {s : Sym} (hs : s ∈ symbols) :
    (bySymbol symbols B).filter (fun r => r.symbol = s) = B s := by
  unfold bySymbol
  have hp := List.perm_insertionSort (· ≤ ·) symbols
  rw [List.filter_flatMap]
  rw [List.flatMap_congr (g := fun t => if t = s then B t else [])]
  · exact flatMap_single (hp.nodup_iff.2 hn) (hp.mem_iff.2 hs)
  · intro t ht
    have ht' := hp.mem_iff.1 ht
    by_cases h : t = s
    · subst h
      rw [if_pos rfl, List.filter_eq_self]
      intro r hr
      simp [hsym t ht' r hr]
    · rw [if_neg h, List.filter_eq_nil_iff]
      intro r hr
      simp [hsym t ht' r hr, h]

theorem map_getD_pick {l : List Date} : ∀ {idx : List Nat}, (∀ i ∈ idx, i < l.length) →
    idx.map (fun i => l.getD i 0) = pick idx l := by
  intro idx
  induction idx with
  | nil => intro _; rfl
  | cons i idx ih =>
    intro h
    have hi := h i (by simp)
    have := ih (fun j hj => h j (by simp [hj]))
    unfold pick at this ⊢
    rw [List.filterMap_cons, List.getElem?_eq_getElem hi, List.map_cons, this,
      List.getD_eq_getElem?_getD, List.getElem?_eq_getElem hi]
    rfl

theorem rowsOf_dates {V : List DRow} (s : Sym) :
    (rowsOf (V.map DRow.symbol) s).map (fun i => (V.map DRow.date).getD i 0) =
      (V.filter (fun r => r.symbol = s)).map DRow.date := by
  have e : rowsOf (V.map DRow.symbol) s =
      (List.range V.length).filter (fun i => (V[i]?).any (fun r => decide (r.symbol = s))) := by
    unfold rowsOf
    rw [List.length_map]
    apply List.filter_congr
    intro i _
    rw [List.getElem?_map]
    rcases V[i]? with _ | b <;> simp
  rw [filter_pick (fun r : DRow => decide (r.symbol = s)) V, e, ← pick_map]
  refine map_getD_pick (fun i hi => ?_)
  rw [List.length_map]
  exact List.mem_range.1 (List.mem_filter.1 hi).1

theorem pooledLoop_exists {columns : List String} {lags : Nat} {syms : List Sym} {dates : List Date}
    {history : Sym → Option (List Date)} {cache : LagCache} {symbols : List Sym}
    {i : Option String} : ∀ {rest : List Sym} (m : LagMat),
      (∀ s ∈ rest, s ∈ symbols → ∃ h sub, history s = some h ∧
        lagMatrix (fun _ _ => none) s columns lags ((rowsOf syms s).map (fun i => dates.getD i 0)) h
          cache i = .ok sub) →
      ∃ m', pooledLoop columns lags syms dates history cache symbols i rest m = .ok m' := by
  intro rest
  induction rest with
  | nil => intro m _; exact ⟨m, rfl⟩
  | cons s rest ih =>
    intro m h
    simp only [pooledLoop]
    by_cases hs : s ∈ symbols
    · rw [if_neg (by simpa using hs)]
      obtain ⟨hd, sub, h1, h2⟩ := h s (by simp) hs
      rw [h1]
      dsimp only
      rw [h2]
      exact ih _ (fun t ht => h t (by simp [ht]))
    · rw [if_pos hs]
      exact ih _ (fun t ht => h t (by simp [ht]))

/-- The lag features of runs of the symbols' histories. -/
theorem applyLagsPooled_bars {cols : List String} {data : Sym → String → Option Series}
    {symbols : List Sym} (hn : symbols.Nodup) {P R Q H : Sym → List DRow}
    (hH : ∀ s, H s = P s ++ R s ++ Q s) (hsorted : ∀ s, (H s).Pairwise (fun a b => a.date < b.date))
    (hsym : ∀ s, ∀ r ∈ H s, r.symbol = s) {x : LagInput}
    (hx : x.dates = (bySymbol symbols R).map DRow.date)
    (hxs : x.symbols = some ((bySymbol symbols R).map DRow.symbol))
    {series : Sym → String → List Cell} {cache : LagCache}
    (hsv : ∀ s ∈ symbols, Serves (series s) cache s none) {history : Sym → Option (List Date)}
    (hh : ∀ s h, history s = some h → h = (H s).map DRow.date)
    (hh' : ∀ s ∈ symbols, H s ≠ [] → ∃ h, history s = some h) {columns : List String} {lags : Nat}
    (junk : LagMat)
    (hcol : ∀ s ∈ symbols, H s ≠ [] → ∀ c ∈ columns,
      series s c = (H s).map (fun r => cellOf cols (data s) r c) ∧
      ∃ st, cache.cached s c lags none = some st) :
    ∃ m, applyLagsPooled junk x columns lags cache history symbols none =
        .ok { x with features := some (matRows m (bySymbol symbols R).length
          (columns.length * (lags + 1))) } ∧
      ∀ r b p j k c, (bySymbol symbols R)[r]? = some b → (H b.symbol)[p]? = some b →
        columns[j]? = some c → k ≤ lags →
        m r (j * (lags + 1) + k) = cellBefore cols (data b.symbol) (H b.symbol) p k c := by
  have hRsym : ∀ s ∈ symbols, ∀ r ∈ R s, r.symbol = s := fun s _ r hr =>
    hsym s r (by rw [hH s]; simp [hr])
  unfold applyLagsPooled
  by_cases hV : bySymbol symbols R = []
  · rw [if_pos (by rw [hx, hV]; rfl)]
    refine ⟨junk, by rw [hV]; rfl, ?_⟩
    intro r b p j k c hr
    rw [hV] at hr
    simp at hr
  · have hne : x.dates ≠ [] := by rw [hx]; simpa using hV
    rw [if_neg hne, hxs, Option.getD_some]
    have hlen : x.dates.length = (bySymbol symbols R).length := by rw [hx, List.length_map]
    have hs : ∀ s h, history s = some h → h.Pairwise (· < ·) := by
      intro s h he
      rw [hh s h he]
      exact List.pairwise_map.2 ((hsorted s).imp (fun h => h))
    obtain ⟨m, hm⟩ : ∃ m, lagMatrixPooled junk ((bySymbol symbols R).map DRow.symbol) columns lags x.dates
        history cache symbols none = .ok m := by
      unfold lagMatrixPooled
      refine pooledLoop_exists _ ?_
      intro s hsm hss
      rw [List.mem_dedup] at hsm
      obtain ⟨b, hb, hbs⟩ := List.mem_map.1 hsm
      obtain ⟨t, ht, hbt⟩ := mem_pooled.1 hb
      have hts := hRsym t ht b hbt
      rw [hbs] at hts
      subst hts
      have hRne : R s ≠ [] := List.ne_nil_of_mem hbt
      have hHne : H s ≠ [] := by rw [hH s]; simp [hRne]
      obtain ⟨h, he⟩ := hh' s hss hHne
      have hhe := hh s h he
      rw [hx, rowsOf_dates, filter_bySymbol hn hRsym hss]
      have hlm := (lag_matrix (hsv s hss) (fun _ _ => none) columns lags ((R s).map DRow.date) h (hs s h he)
        (by simpa using hRne)).1.2 ⟨(P s).length, by
          rw [hhe, hH s, List.append_assoc, List.map_append, List.length_map,
            show (P s).length = ((P s).map DRow.date).length by simp, List.drop_left, List.map_append,
            show (R s).length = ((R s).map DRow.date).length by simp, List.take_left],
          fun c hc => ⟨(hcol s hss hHne c hc).2, by rw [(hcol s hss hHne c hc).1, hH s]; simp⟩⟩
      obtain ⟨sub, hsub⟩ := hlm
      exact ⟨h, sub, he, hsub⟩
    rw [hm]
    refine ⟨m, by simp only [hlen], ?_⟩
    intro r b p j k c hr hp hj hk
    have hbm := List.mem_of_getElem? hr
    obtain ⟨t, ht, hbt⟩ := mem_pooled.1 hbm
    have hts := hRsym t ht b hbt
    have hss : b.symbol ∈ symbols := by rw [hts]; exact ht
    have hHne : H b.symbol ≠ [] := List.ne_nil_of_mem (List.mem_of_getElem? hp)
    obtain ⟨h, he⟩ := hh' b.symbol hss hHne
    have := lag_matrix_pooled hsv hs (by rw [hlen, List.length_map]) hm r p j b.symbol b.date h c k hss
      (by rw [List.getElem?_map, hr]; rfl) (by rw [hx, List.getElem?_map, hr]; rfl) he
      (by rw [hh _ h he, List.getElem?_map, hp]; rfl) hj hk
    rw [this, (hcol b.symbol hss hHne c (List.mem_of_getElem? hj)).1, lagged_cell]

/-- Merging the histories of the symbols. -/
theorem mergePool_ok {store : Store} {cols inds : List String} {data : Sym → String → Option Series}
    {H : Sym → List DRow} {columns : List String} {lags : Nat}
    {series : Sym → String → Option String → List Cell}
    (hcols : ∀ c ∈ columns, c ∈ cols ∨ c ∈ inds) : ∀ {symbols : List Sym},
    (∀ s ∈ symbols, HasData inds (data s)) →
    (∀ s ∈ symbols, (H s = [] ∧ store.arrays s = none) ∨
      (H s ≠ [] ∧ ∃ x, store.arrays s = some x ∧ x.dates = (H s).map DRow.date ∧
        ∀ c, x.col c = if c ∈ cols then some ((H s).map (fun r => r.val c)) else none)) →
    (∀ s ∈ symbols, ∀ c, c ∈ cols ∨ c ∈ inds →
      series s c none = (H s).map (fun r => cellOf cols (data s) r c)) →
    ∀ (calls : List MergeCall) (cache : LagCache) (hist : Sym → Option (List Date)),
      (∀ m ∈ calls, Passes series m) → runMerges calls (fun _ => none) = .ok cache →
      (∀ s h, hist s = some h → h = (H s).map DRow.date) →
      ∃ cache' hist' calls', mergePool store columns lags inds data symbols cache hist =
          .ok (cache', hist') ∧ (∀ m ∈ calls', Passes series m) ∧
        runMerges calls' (fun _ => none) = .ok cache' ∧
        (∀ s h, hist' s = some h → h = (H s).map DRow.date) ∧
        (∀ m ∈ calls, m ∈ calls') ∧ (∀ s h, hist s = some h → ∃ h', hist' s = some h') ∧
        ∀ s ∈ symbols, H s ≠ [] → (∃ h, hist' s = some h) ∧
          ∃ m ∈ calls', m.symbol = s ∧ m.interval = none ∧ m.columns = columns ∧ m.lags = lags := by
  intro symbols
  induction symbols with
  | nil =>
    intro _ _ _ calls cache hist h1 h2 h3
    exact ⟨cache, hist, calls, rfl, h1, h2, h3, fun _ h => h, fun s h e => ⟨h, e⟩, fun s hs => by cases hs⟩
  | cons s rest ih =>
    intro hd hst hser calls cache hist h1 h2 h3
    have ih' := ih (fun t ht => hd t (List.mem_cons_of_mem _ ht))
      (fun t ht => hst t (List.mem_cons_of_mem _ ht)) (fun t ht => hser t (List.mem_cons_of_mem _ ht))
    rcases hst s List.mem_cons_self with ⟨h0, h⟩ | ⟨h0, x, h, hx1, hx2⟩
    · have e : mergeFromStore store s columns lags inds (data s) cache = .ok (cache, none) := by
        unfold mergeFromStore
        rw [h]
      obtain ⟨c', t', l', i1, i2, i3, i4, i5, i6, i7⟩ := ih' calls cache hist h1 h2 h3
      refine ⟨c', t', l', by simp only [mergePool, e]; exact i1, i2, i3, i4, i5, i6, ?_⟩
      intro u hu hne
      rcases List.mem_cons.1 hu with rfl | hu
      · exact absurd h0 hne
      · exact i7 u hu hne
    · have hne : x.dates ≠ [] := by rw [hx1]; simpa using h0
      have hic := inputColumn_eq (x := x) (hd s List.mem_cons_self) hx1 hx2
      obtain ⟨c1, hmerge⟩ := merge_ok (sym := s) (lags := lags) (i := none)
        (arrays := inputColumn x inds (data s)) cache (fun c hc => ⟨_, (hic c).1 (hcols c hc)⟩)
      have e : mergeFromStore store s columns lags inds (data s) cache =
          .ok (c1, some ((H s).map DRow.date)) := by
        unfold mergeFromStore
        rw [h]
        dsimp only
        rw [if_neg hne, hmerge]
        dsimp only
        rw [hx1]
      have hrun := runMerges_snoc (m := ⟨s, none, lags, columns, inputColumn x inds (data s)⟩) h2 hmerge
      have hpass : ∀ m ∈ calls ++ [⟨s, none, lags, columns, inputColumn x inds (data s)⟩],
          Passes series m := by
        intro m hm
        rcases List.mem_append.1 hm with hm | hm
        · exact h1 m hm
        · rw [List.mem_singleton] at hm
          subst hm
          intro c v hv
          simp only at hv ⊢
          by_cases hc : c ∈ cols ∨ c ∈ inds
          · rw [(hic c).1 hc] at hv
            cases hv
            exact (hser s List.mem_cons_self c hc).symm
          · rw [(hic c).2 hc] at hv
            cases hv
      obtain ⟨c', t', l', i1, i2, i3, i4, i5, i6, i7⟩ := ih' _ c1
        (fun s' => if s' = s then some ((H s).map DRow.date) else hist s') hpass hrun (by
          intro u hh he
          split at he
          · rename_i hu
            cases he
            rw [hu]
          · exact h3 u hh he)
      refine ⟨c', t', l', by simp only [mergePool, e]; exact i1, i2, i3, i4,
        fun m hm => i5 m (List.mem_append_left _ hm), ?_, ?_⟩
      · intro u hh he
        by_cases hu : u = s
        · exact i6 u ((H s).map DRow.date) (by simp [hu])
        · exact i6 u hh (by simp [hu, he])
      · intro u hu hne
        rcases List.mem_cons.1 hu with rfl | hu
        · exact ⟨i6 u ((H u).map DRow.date) (by simp),
            _, i5 _ (List.mem_append_right _ (List.mem_singleton_self _)), rfl, rfl, rfl, rfl⟩
        · exact i7 u hu hne

theorem sorted_nat {l l' : List Nat} (h : l.Pairwise (· < ·)) (h' : l'.Pairwise (· < ·))
    (hm : ∀ d, d ∈ l ↔ d ∈ l') : l = l' :=
  List.Perm.eq_of_pairwise (le := fun a b : Nat => a < b)
    (fun _ _ _ _ h h' => absurd h (lt_asymm h')) h h'
    ((List.perm_ext_iff_of_nodup (h.imp (fun h => ne_of_lt h)) (h'.imp (fun h => ne_of_lt h))).2 hm)

theorem dropWarmup_error {x : LagInput} {e : LagErr} (h : x.dropWarmup = .error e) : e = .nothingLeft := by
  unfold LagInput.dropWarmup at h
  rcases hf : x.features with _ | f
  · rw [hf] at h; cases h
  · rw [hf] at h
    simp only at h
    split at h
    · cases h
    · split at h
      · cases h
      · split at h
        · cases h; rfl
        · split at h <;> cases h

/-- Position by date in a symbol's bars. -/
theorem pos_le {T : List DRow} (hs : T.Pairwise (fun a b => a.date < b.date)) {p q : Nat} {a b : DRow}
    (hp : T[p]? = some a) (hq : T[q]? = some b) : p ≤ q ↔ a.date ≤ b.date := by
  obtain ⟨hp1, rfl⟩ := List.getElem?_eq_some_iff.1 hp
  obtain ⟨hq1, rfl⟩ := List.getElem?_eq_some_iff.1 hq
  rw [List.pairwise_iff_getElem] at hs
  constructor
  · intro h
    rcases Nat.lt_or_ge p q with h' | h'
    · exact le_of_lt (hs p q hp1 hq1 h')
    · have : p = q := by omega
      subst this
      exact le_refl _
  · intro h
    by_contra hc
    exact absurd (hs q p hq1 hp1 (by omega)) (not_lt.2 h)

/-- Trimming the lag features of pooled rows. -/
theorem trim_pooled {cols : List String} {data : Sym → String → Option Series} {symbols : List Sym}
    (hns : symbols.Nodup) {T : Sym → List DRow}
    (hsorted : ∀ s, (T s).Pairwise (fun a b => a.date < b.date))
    (hsym : ∀ s, ∀ r ∈ T s, r.symbol = s) {x : LagInput}
    (hx : x.dates = (bySymbol symbols T).map DRow.date)
    (hxs : x.symbols = some ((bySymbol symbols T).map DRow.symbol))
    (hval : ∀ p ∈ x.columns, p.2.length = (bySymbol symbols T).length) {columns : List String}
    {lags : Nat} {n : Sym → Nat} (hne : columns ≠ [])
    (hn : ∀ s ∈ symbols, WarmUp cols (data s) columns (T s) (n s)) {m : LagMat}
    (hm : ∀ r b p j k c, (bySymbol symbols T)[r]? = some b → (T b.symbol)[p]? = some b →
        columns[j]? = some c → k ≤ lags →
        m r (j * (lags + 1) + k) = cellBefore cols (data b.symbol) (T b.symbol) p k c) :
    (bySymbol symbols T ≠ [] → bySymbol symbols (fun s => (T s).drop (n s + lags)) = [] →
      LagInput.dropWarmup { x with features := some (matRows m (bySymbol symbols T).length
        (columns.length * (lags + 1))) } = .error .nothingLeft) ∧
    (bySymbol symbols T = [] ∨ bySymbol symbols (fun s => (T s).drop (n s + lags)) ≠ [] →
      ∃ idx : List Nat, (∀ i ∈ idx, i < (bySymbol symbols T).length) ∧
        pick idx (bySymbol symbols T) = bySymbol symbols (fun s => (T s).drop (n s + lags)) ∧
        LagInput.dropWarmup { x with features := some (matRows m (bySymbol symbols T).length
          (columns.length * (lags + 1))) } =
          .ok { dates := pick idx x.dates
                symbols := x.symbols.map (pick idx)
                columns := x.columns.map (fun p => (p.1, pick idx p.2))
                features := some (pick idx (matRows m (bySymbol symbols T).length
                  (columns.length * (lags + 1)))) }) := by
  have hVs := bySymbol_sorted hns (fun s _ => hsym s) (fun s _ => hsorted s)
  have hVmem : ∀ b, b ∈ bySymbol symbols T ↔ b.symbol ∈ symbols ∧ b ∈ T b.symbol := by
    intro b
    rw [mem_pooled]
    constructor
    · rintro ⟨s, hs, hb⟩
      have := hsym s b hb
      rw [this]
      exact ⟨hs, hb⟩
    · rintro ⟨h1, h2⟩
      exact ⟨_, h1, h2⟩
  generalize hV : bySymbol symbols T = V at *
  have hlen : x.dates.length = V.length := by rw [hx, List.length_map]
  generalize hX : ({ x with features := some (matRows m V.length (columns.length * (lags + 1))) } :
    LagInput) = X
  have hXd : X.dates = x.dates := by rw [← hX]
  have hXs : X.symbols = x.symbols := by rw [← hX]
  have hXc : X.columns = x.columns := by rw [← hX]
  have hXf : X.features = some (matRows m V.length (columns.length * (lags + 1))) := by rw [← hX]
  have hal : Aligned X := by
    refine ⟨fun s h => ?_, fun c h => ?_, fun f h => ?_⟩
    · rw [hXs, hxs] at h; cases h; rw [hXd, hlen, List.length_map]
    · rw [hXc] at h; rw [hXd, hlen]; exact hval c h
    · rw [hXf] at h
      cases h
      rw [matRows_length, hXd, hlen]
  have hdef : ∀ i b p, V[i]? = some b → (T b.symbol)[p]? = some b →
      (Defined X i ↔ n b.symbol + lags ≤ p) := by
    intro i b p hi hp
    have hil : i < V.length := (List.getElem?_eq_some_iff.1 hi).1
    have hbs := ((hVmem b).1 (List.mem_of_getElem? hi)).1
    have hpl : p < (T b.symbol).length := (List.getElem?_eq_some_iff.1 hp).1
    have hw := hn b.symbol hbs
    unfold Defined
    constructor
    · rintro ⟨f, row, hf, hrow, hv⟩
      rw [hXf] at hf
      cases hf
      have hall := (matRows_all m hil).1 (fun row' hrow' => by
        rw [hrow] at hrow'; cases hrow'; exact hv)
      have hcell : ∀ c ∈ columns, ∀ k ≤ lags,
          cellBefore cols (data b.symbol) (T b.symbol) p k c ≠ none := by
        intro c hc k hk
        obtain ⟨j, hj⟩ := List.mem_iff_getElem?.1 hc
        rw [← hm i b p j k c hi hp hj hk]
        exact hall j k (List.getElem?_eq_some_iff.1 hj).1 hk
      obtain ⟨c0, hc0⟩ := List.exists_mem_of_ne_nil _ hne
      have hli : lags ≤ p := by
        by_contra h
        have := hcell c0 hc0 lags (le_refl _)
        unfold cellBefore at this
        rw [if_neg h] at this
        exact this rfl
      have hd := (hw (p - lags) _ (List.getElem?_eq_getElem (by omega))).1 (by
        intro c hc
        have := hcell c hc lags (le_refl _)
        unfold cellBefore at this
        rw [if_pos hli, List.getElem?_eq_getElem (show p - lags < (T b.symbol).length by omega)] at this
        exact this)
      omega
    · intro hnp
      refine ⟨_, _, hXf, List.getElem?_eq_getElem (by rw [matRows_length]; exact hil), ?_⟩
      refine (matRows_all m hil).2 ?_ _ (List.getElem?_eq_getElem _)
      intro j k hj hk
      rw [hm i b p j k _ hi hp (List.getElem?_eq_getElem hj) hk]
      unfold cellBefore
      rw [if_pos (show k ≤ p by omega),
        List.getElem?_eq_getElem (show p - k < (T b.symbol).length by omega)]
      exact (hw (p - k) _ (List.getElem?_eq_getElem (by omega))).2 (by omega) _
        (List.getElem_mem hj)
  have hdlt : ∀ i, Defined X i → i < V.length := by
    rintro i ⟨f, row, hf, hrow, -⟩
    rw [hXf] at hf
    cases hf
    have := (List.getElem?_eq_some_iff.1 hrow).1
    rwa [matRows_length] at this
  have hposn : ∀ (i : Nat) (b : DRow), V[i]? = some b → ∃ p : Nat, (T b.symbol)[p]? = some b := by
    intro i b hi
    exact List.mem_iff_getElem?.1 ((hVmem b).1 (List.mem_of_getElem? hi)).2
  have hpast : ∀ i b p, V[i]? = some b → (T b.symbol)[p]? = some b →
      (PastWarmup X i ↔ n b.symbol + lags ≤ p) := by
    intro i b p hi hp
    constructor
    · rintro ⟨j, hj, hd, hsame⟩
      have hjl := hdlt j hd
      have hjb := List.getElem?_eq_getElem hjl
      have hss : V[j].symbol = b.symbol := by
        have := hsame j (le_refl _) hj
        unfold SameSymbol at this
        have := this _ (by rw [hXs]; exact hxs)
        rw [List.getElem?_map, List.getElem?_map, hjb, hi] at this
        simpa using this
      obtain ⟨q, hq⟩ := hposn j _ hjb
      have hnq := (hdef j _ q hjb hq).1 hd
      rw [hss] at hq hnq
      have hle : V[j].date ≤ b.date := by
        rcases Nat.lt_or_ge j i with h | h
        · have hil := (List.getElem?_eq_some_iff.1 hi).1
          have := List.pairwise_iff_getElem.1 hVs j i hjl hil h
          have hb : V[i] = b := (List.getElem?_eq_some_iff.1 hi).2
          rw [hb] at this
          rcases this with this | this
          · rw [hss] at this; exact absurd this (lt_irrefl _)
          · exact le_of_lt this.2
        · have : j = i := by omega
          subst this
          rw [hjb] at hi
          cases hi
          exact le_refl _
      have := (pos_le (hsorted b.symbol) hq hp).2 hle
      omega
    · intro h
      exact ⟨i, le_refl _, (hdef i b p hi hp).2 h, fun m h1 h2 => by
        have : m = i := by omega
        subst this
        intro s _; rfl⟩
  obtain ⟨herr, hok⟩ := drop_warmup X hal (by rw [hXf]; exact Option.some_ne_none _)
  have hKmem : ∀ b, b ∈ bySymbol symbols (fun s => (T s).drop (n s + lags)) ↔
      b.symbol ∈ symbols ∧ ∃ p, (T b.symbol)[p]? = some b ∧ n b.symbol + lags ≤ p := by
    intro b
    rw [mem_pooled]
    constructor
    · rintro ⟨s, hs, hb⟩
      have hbs := hsym s b (List.mem_of_mem_drop hb)
      rw [hbs]
      refine ⟨hs, ?_⟩
      obtain ⟨q, hq⟩ := List.mem_iff_getElem?.1 hb
      rw [List.getElem?_drop] at hq
      exact ⟨_, hq, by omega⟩
    · rintro ⟨h1, p, h2, h3⟩
      refine ⟨_, h1, List.mem_iff_getElem?.2 ⟨p - (n b.symbol + lags), ?_⟩⟩
      rw [List.getElem?_drop, show n b.symbol + lags + (p - (n b.symbol + lags)) = p by omega]
      exact h2
  constructor
  · intro hVne hK
    obtain ⟨e, he⟩ := herr.2 ⟨by rw [hXd, hx]; simpa using hVne, fun i hd => by
      have hil := hdlt i hd
      have hib := List.getElem?_eq_getElem hil
      obtain ⟨p, hp⟩ := hposn i _ hib
      have := (hKmem V[i]).2 ⟨((hVmem _).1 (List.getElem_mem hil)).1, p, hp, (hdef i _ p hib hp).1 hd⟩
      rw [hK] at this
      cases this⟩
    rw [he, dropWarmup_error he]
  · intro hcase
    rcases hd : X.dropWarmup with e | y
    · exfalso
      obtain ⟨h1, h2⟩ := herr.1 ⟨e, hd⟩
      rcases hcase with hc | hc
      · rw [hXd, hx, hc] at h1; exact h1 rfl
      · obtain ⟨b, hb⟩ := List.exists_mem_of_ne_nil _ hc
        obtain ⟨hbs, p, hp, hle⟩ := (hKmem b).1 hb
        obtain ⟨i, hi⟩ := List.mem_iff_getElem?.1 ((hVmem b).2 ⟨hbs, List.mem_of_getElem? hp⟩)
        exact h2 i ((hdef i b p hi hp).2 hle)
    · obtain ⟨idx, h1, h2, h3, h4, h5, h6⟩ := hok y hd
      have hidx : ∀ i ∈ idx, i < V.length := fun i hi => by
        have := ((h2 i).1 hi).1
        rwa [hXd, hlen] at this
      refine ⟨idx, hidx, ?_, ?_⟩
      · -- the kept bars in order
        have hpK : (pick idx V).Pairwise barLT := by
          unfold pick
          rw [List.pairwise_filterMap]
          refine h1.imp_of_mem ?_
          intro i j hi hj hij a ha b hb
          obtain ⟨hil, rfl⟩ := List.getElem?_eq_some_iff.1 ha
          obtain ⟨hjl, rfl⟩ := List.getElem?_eq_some_iff.1 hb
          exact List.pairwise_iff_getElem.1 hVs i j hil hjl hij
        have hKs : (bySymbol symbols (fun s => (T s).drop (n s + lags))).Pairwise barLT :=
          bySymbol_sorted hns (fun s _ r hr => hsym s r (List.mem_of_mem_drop hr))
            (fun s _ => (hsorted s).sublist (List.drop_sublist _ _))
        have hirr : ∀ {a b : DRow}, barLT a b → a ≠ b := by
          rintro a b h rfl
          rcases h with h | h
          · exact lt_irrefl _ h
          · exact lt_irrefl _ h.2
        have hasym : ∀ {a b : DRow}, barLT a b → ¬ barLT b a := by
          rintro a b (h | ⟨h, h'⟩) (g | ⟨g, g'⟩)
          · exact lt_asymm h g
          · rw [g] at h; exact lt_irrefl _ h
          · rw [h] at g; exact lt_irrefl _ g
          · exact lt_asymm h' g'
        refine List.Perm.eq_of_pairwise (le := barLT) (fun a b _ _ h h' => absurd h (hasym h')) hpK hKs
          ((List.perm_ext_iff_of_nodup (hpK.imp hirr) (hKs.imp hirr)).2 ?_)
        intro b
        rw [hKmem b]
        unfold pick
        rw [List.mem_filterMap]
        constructor
        · rintro ⟨i, hi, hb⟩
          obtain ⟨-, hpw⟩ := (h2 i).1 hi
          obtain ⟨p, hp⟩ := hposn i b hb
          exact ⟨((hVmem b).1 (List.mem_of_getElem? hb)).1, p, hp, (hpast i b p hb hp).1 hpw⟩
        · rintro ⟨hbs, p, hp, hle⟩
          obtain ⟨i, hi⟩ := List.mem_iff_getElem?.1 ((hVmem b).2 ⟨hbs, List.mem_of_getElem? hp⟩)
          refine ⟨i, (h2 i).2 ⟨?_, (hpast i b p hi hp).2 hle⟩, hi⟩
          rw [hXd, hlen]
          exact (List.getElem?_eq_some_iff.1 hi).1
      · rw [hXd] at h3
        rw [hXs] at h4
        rw [hXc] at h5
        rw [hXf, Option.map_some] at h6
        cases y
        simp only at h3 h4 h5 h6
        subst h3 h4 h5 h6
        rfl

theorem pick_get {α : Type} {l : List α} : ∀ {idx : List Nat}, (∀ i ∈ idx, i < l.length) → ∀ r : Nat,
    (pick idx l)[r]? = (idx[r]?).bind (fun i => l[i]?) := by
  intro idx
  induction idx with
  | nil => intro _ r; rfl
  | cons i rest ih =>
    intro h r
    have hi := List.getElem?_eq_getElem (h i List.mem_cons_self)
    have e : pick (i :: rest) l = l[i]'(h i List.mem_cons_self) :: pick rest l := by
      unfold pick
      rw [List.filterMap_cons, hi]
    rw [e]
    cases r with
    | zero => simpa using hi.symm
    | succ r => simpa using ih (fun j hj => h j (List.mem_cons_of_mem _ hj)) r

/-- **C93.** Window number `k` of an accepted split, as in `training_lags`.  With `lags` lags
over some columns, a pooled model is trained on exactly each symbol's bars that come after that
symbol's own warm-up and `lags` more of its bars; every row holds the columns of its bar and of
the bars before it of the same symbol within the training window.  If no bar is left it
raises.  Rows of the test window reach back into the training window of the same symbol. -/
theorem pooled_training_lags {rows : List DRow} (hu : UniqueBars rows) {w la : Int} {ts : ℚ}
    {shuffle : List Nat → List Nat} (hs : ∀ l, (shuffle l).Perm l) (h0 : 0 < ts) (h1 : ts < 1)
    {ws : List WFWindow} (h : walkforwardSplit (rows.map DRow.date) w la ts shuffle = .ok ws)
    (cols : List String) :
    ∃ tl te : Nat, 0 < tl + te ∧ (ws.length : Int) = w ∧
      ∀ (k : Nat) (win : WFWindow) (first : Int) (st se sh : Store), ws[k]? = some win →
        first = nDates (rows.map DRow.date) - (w - k) * te →
        (windowStores (storeOf cols rows) (rows.map DRow.date) win) =
          { train := some st, test := some se, history := some sh } →
        ∀ (symbols : List Sym) (ordered inds : List String) (data : Sym → String → Option Series)
          (T E H : Sym → List DRow) (x y : LagInput), symbols.Nodup →
          (∀ s ∈ symbols, HasData inds (data s)) →
          (∀ s, T s = barsNo rows s (first - (la - 1) - tl) (first - (la - 1))) →
          (∀ s, E s = barsNo rows s first (first + te)) →
          (∀ s, H s = barsNo rows s (first - (la - 1) - tl) (first + te)) →
          pooledInput st symbols ordered inds data = some x →
          pooledInput se symbols ordered inds data = some y →
          ∀ (columns : List String) (lags : Nat) (n : Sym → Nat) (kept : List DRow), columns ≠ [] →
            (∀ c ∈ columns, c ∈ cols ∨ c ∈ inds) →
            (∀ s ∈ symbols, WarmUp cols (data s) columns (T s) (n s)) →
            kept = bySymbol symbols (fun s => (T s).drop (n s + lags)) →
            ∀ (series : Sym → String → Option String → List Cell) (calls : List MergeCall)
              (cache : LagCache) (dates : Sym → Option (List Date)) (junk : LagMat),
              (∀ m ∈ calls, Passes series m) → runMerges calls (fun _ => none) = .ok cache →
              (∀ s ∈ symbols, ∀ c, c ∈ cols ∨ c ∈ inds →
                series s c none = (H s).map (fun r => cellOf cols (data s) r c)) →
              (∀ s h, dates s = some h → h = (H s).map DRow.date) →
              (bySymbol symbols T ≠ [] → kept = [] →
                lagInputsPooled junk sh symbols columns lags inds data x y cache dates =
                  .error .nothingLeft) ∧
              (bySymbol symbols T = [] ∨ kept ≠ [] → ∃ x' y' cache' dates',
                lagInputsPooled junk sh symbols columns lags inds data x y cache dates =
                  .ok (x', y', cache', dates') ∧
                x'.dates = kept.map DRow.date ∧ x'.symbols = some (kept.map DRow.symbol) ∧
                x'.columns.map Prod.fst = x.columns.map Prod.fst ∧
                (∀ p ∈ x'.columns, p.2 = kept.map (fun r => cellOf cols (data r.symbol) r p.1)) ∧
                (∀ r p b, kept[r]? = some b → (T b.symbol)[p]? = some b →
                  LagRow cols (data b.symbol) columns lags (T b.symbol) x'.features r p) ∧
                y'.dates = (bySymbol symbols E).map DRow.date ∧
                y'.symbols = some ((bySymbol symbols E).map DRow.symbol) ∧
                y'.columns = y.columns ∧
                ∀ r p b, (bySymbol symbols E)[r]? = some b → (H b.symbol)[p]? = some b →
                  LagRow cols (data b.symbol) columns lags (H b.symbol) y'.features r p) := by
  obtain ⟨tl, te, hpos, hlen, hfit, hb⟩ := split_blocks hs h0 h1 h
  have hla : 1 ≤ la := by
    by_contra hc
    unfold walkforwardSplit at h
    split at h; · cases h
    rw [if_pos (show la ≤ 0 by omega)] at h
    cases h
  refine ⟨tl, te, hpos, hlen, ?_⟩
  intro k win first st se sh hk hfirst hst symbols ordered inds data T E H x y hnd hd hT hE hH hx hy
    columns lags n kept hcne hcols hn hkept series calls cache dates junk hpass hrun hser hdates
  obtain ⟨htest, htrain⟩ := hb k win hk
  rw [← hfirst] at htest htrain
  have htr := congrArg WindowStores.train hst
  have hte := congrArg WindowStores.test hst
  have hhi := congrArg WindowStores.history hst
  simp only at htr hte hhi
  rw [windowStores_train] at htr
  rw [windowStores_test] at hte
  split at htr; · cases htr
  split at hte; · cases hte
  rename_i htrne htene
  have hhist : (windowStores (storeOf cols rows) (rows.map DRow.date) win).history =
      some ((storeOf cols rows).slice (windowDates ((rows.map DRow.date).filter (fun d =>
        decide ((datesOfRows (rows.map DRow.date) win.train).headD 0 ≤ d ∧
          d ≤ (datesOfRows (rows.map DRow.date) win.test).getLastD 0))))) := by
    unfold windowStores
    simp only [if_neg htrne, if_neg htene]
  rw [hhist] at hhi
  have hst' := Option.some.inj htr
  have hse' := Option.some.inj hte
  have hsh' := Option.some.inj hhi
  subst hst' hse' hsh'
  have hkw : (k : Int) < w := by
    have := (List.getElem?_eq_some_iff.1 hk).1
    omega
  have hmul : (w - k) * (te : Int) ≤ w * te := mul_le_mul_of_nonneg_right (by omega) (by omega)
  have hmul2 : (te : Int) ≤ (w - k) * te := by
    have : (1 : Int) * te ≤ (w - k) * te := mul_le_mul_of_nonneg_right (by omega) (by omega)
    omega
  have ha : 0 ≤ first - (la - 1) - tl := by rw [hfirst]; omega
  have he : first + te ≤ nDates (rows.map DRow.date) := by rw [hfirst]; omega
  have hmem := fun d hd' => mem_history htrain htest htrne htene ha he (d := d) hd'
  -- the inputs
  obtain ⟨x1, hx1, hxi⟩ := pooledInput_bars hu (cols := cols) (ordered := ordered) hnd hd
    (fun d hd' => mem_datesIn htrain hd')
  rw [hx] at hx1
  cases hx1
  obtain ⟨y1, hy1, hyi⟩ := pooledInput_bars hu (cols := cols) (ordered := ordered) hnd hd
    (fun d hd' => mem_datesIn htest hd')
  rw [hy] at hy1
  cases hy1
  rw [← funext hT] at hxi
  rw [← funext hE] at hyi
  -- the histories
  have hHT : ∀ s, H s = [] ++ T s ++ barsNo rows s (first - (la - 1)) (first + te) := by
    intro s
    rw [hH, hT, List.nil_append]
    exact bars_append hu s (by omega) (by omega)
  have hHE : ∀ s, H s = barsNo rows s (first - (la - 1) - tl) first ++ E s ++ [] := by
    intro s
    rw [hH, hE, List.append_nil]
    exact bars_append hu s (by omega) (by omega)
  have hHs : ∀ s, (H s).Pairwise (fun a b => a.date < b.date) := by
    intro s; rw [hH]; exact barsNo_sorted hu s _ _
  have hTs : ∀ s, (T s).Pairwise (fun a b => a.date < b.date) := by
    intro s; rw [hT]; exact barsNo_sorted hu s _ _
  have hHsym : ∀ s, ∀ r ∈ H s, r.symbol = s := by
    intro s r hr
    rw [hH] at hr
    exact (mem_barsNo.1 hr).2.1
  have hTsym : ∀ s, ∀ r ∈ T s, r.symbol = s := by
    intro s r hr
    rw [hT] at hr
    exact (mem_barsNo.1 hr).2.1
  have hsl : ∀ s ∈ symbols, _ := fun s _ => slice_bars hu cols s hmem
  obtain ⟨cache', dates', calls', m1, m2, m3, m4, m5, m6, m7⟩ := mergePool_ok (H := H) (lags := lags)
    (columns := columns) (series := series) hcols hd
    (fun s hs => by rw [hH]; exact hsl s hs) hser calls cache dates hpass hrun hdates
  have hsv := fun s (_ : s ∈ symbols) => run_serves m2 m3 s none
  have hcol' : ∀ s ∈ symbols, H s ≠ [] → ∀ c ∈ columns,
      series s c none = (H s).map (fun r => cellOf cols (data s) r c) ∧
      ∃ st, LagCache.cached cache' s c lags none = some st := by
    intro s hs hne c hc
    refine ⟨hser s hs c (hcols c hc), ?_⟩
    obtain ⟨_, m, hm, e1, e2, e3, e4⟩ := m7 s hs hne
    exact (cached_lags m2 m3 s c none lags).1.2 ⟨m, hm, e1, e2, by rw [e3]; exact hc, by rw [e4]⟩
  obtain ⟨m, hm1, hm2⟩ := applyLagsPooled_bars hnd hHT hHs hHsym hxi.dates hxi.symbols
    (series := fun s c => series s c none) hsv m4 (fun s hs hne => (m7 s hs hne).1)
    (columns := columns) (lags := lags) junk hcol'
  obtain ⟨m', hm1', hm2'⟩ := applyLagsPooled_bars hnd hHE hHs hHsym hyi.dates hyi.symbols
    (series := fun s c => series s c none) hsv m4 (fun s hs hne => (m7 s hs hne).1)
    (columns := columns) (lags := lags) junk hcol'
  have hval : ∀ p ∈ x.columns, p.2.length = (bySymbol symbols T).length := by
    intro p hp
    rw [hxi.values p hp, List.length_map]
  have hmT : ∀ r b p j k c, (bySymbol symbols T)[r]? = some b → (T b.symbol)[p]? = some b →
      columns[j]? = some c → k ≤ lags →
      m r (j * (lags + 1) + k) = cellBefore cols (data b.symbol) (T b.symbol) p k c := by
    intro r b p j k c hr hp hj hk
    have hpl := (List.getElem?_eq_some_iff.1 hp).1
    rw [hm2 r b p j k c hr (by
      rw [hHT, List.nil_append, List.getElem?_append_left hpl]; exact hp) hj hk]
    unfold cellBefore
    by_cases hkk : k ≤ p
    · rw [if_pos hkk, if_pos hkk, hHT, List.nil_append, List.getElem?_append_left (by omega)]
    · rw [if_neg hkk, if_neg hkk]
  obtain ⟨ht1, ht2⟩ := trim_pooled hnd hTs hTsym hxi.dates hxi.symbols hval (lags := lags) hcne hn hmT
  unfold lagInputsPooled
  rw [m1]
  simp only [hm1, hm1']
  constructor
  · intro hne hk0
    rw [ht1 hne (by rw [← hkept]; exact hk0)]
  · intro hcase
    obtain ⟨idx, i1, i2, i3⟩ := ht2 (by rw [← hkept]; exact hcase)
    rw [← hkept] at i2
    rw [i3]
    refine ⟨_, _, _, _, rfl, ?_, ?_, ?_, ?_, ?_, hyi.dates, hyi.symbols, rfl, ?_⟩
    · simp only
      rw [hxi.dates, pick_map, i2]
    · simp only
      rw [hxi.symbols, Option.map_some, pick_map, i2]
    · simp only [List.map_map]
      rfl
    · intro p hp
      obtain ⟨q, hq, rfl⟩ := List.mem_map.1 hp
      simp only
      rw [hxi.values q hq, pick_map, i2]
    · intro r p b hr hp
      rw [← i2, pick_get i1] at hr
      obtain ⟨i, hi, hib⟩ := Option.bind_eq_some_iff.1 hr
      have hil := (List.getElem?_eq_some_iff.1 hib).1
      have := lagRow_intro (o := 0) (r := i) (p := p) (m := m) (n := (bySymbol symbols T).length)
        (cols := cols) (data := data b.symbol) (columns := columns) (lags := lags)
        (bars := T b.symbol) (by omega) (by
          intro j k c hj hk
          rw [Nat.zero_add]
          exact hmT i b p j k c hib hp hj hk)
      obtain ⟨f, row, hf, hrow, hl, hc⟩ := this
      refine ⟨_, row, rfl, ?_, hl, hc⟩
      rw [pick_get (by rw [matRows_length]; exact i1), hi]
      rw [Option.some.injEq, List.drop_zero] at hf
      rw [← hf] at hrow
      exact hrow
    · intro r p b hr hp
      have hil := (List.getElem?_eq_some_iff.1 hr).1
      have := lagRow_intro (o := 0) (r := r) (p := p) (m := m') (n := (bySymbol symbols E).length)
        (cols := cols) (data := data b.symbol) (columns := columns) (lags := lags)
        (bars := H b.symbol) (by omega) (by
          intro j k c hj hk
          rw [Nat.zero_add]
          exact hm2' r b p j k c hr hp hj hk)
      simpa using this

/-! ## A concrete case -/

open Demo

/-- The pooled training input of `B` and `A`, the set iterated in that order. -/
example : (trainStores.train.bind (fun st =>
      pooledInput st ["B", "A"] ["close"] ["ind"] (fun _ => trainData))) =
    some { dates := [2, 3, 4, 5, 6, 2, 3, 5, 6]
           symbols := some ["A", "A", "A", "A", "A", "B", "B", "B", "B"]
           columns := [("close", [some 20, some 30, some 40, some 50, some 60,
             some 200, some 300, some 500, some 600]),
             ("ind", [none, some 3, some 4, some 5, some 6, none, some 3, some 5, some 6])]
           features := none } := by decide +kernel

example : (bySymbol ["B", "A"] (fun s => barsNo trainFrame s 1 6)).map (fun r => (r.symbol, r.date)) =
    [("A", 2), ("A", 3), ("A", 4), ("A", 5), ("A", 6), ("B", 2), ("B", 3), ("B", 5), ("B", 6)] := by
  decide +kernel

def pooledLagged (lags : Nat) : Option (Except LagErr (LagInput × LagInput)) :=
  trainStores.train.bind (fun st => trainStores.test.bind (fun se =>
    trainStores.history.bind (fun sh =>
      (pooledInput st ["B", "A"] ["close"] ["ind"] (fun _ => trainData)).bind (fun x =>
        (pooledInput se ["B", "A"] ["close"] ["ind"] (fun _ => trainData)).map (fun y =>
          (lagInputsPooled (fun _ _ => some 99) sh ["B", "A"] ["close", "ind"] lags ["ind"]
            (fun _ => trainData) x y (fun _ => none) (fun _ => none)).map (fun r => (r.1, r.2.1)))))))

/-- With two lags `A` loses three bars and `B` three; no lag crosses from `A` to `B`. -/
example : (pooledLagged 2).bind (fun r => r.toOption.map Prod.fst) = some
    { dates := [5, 6, 6], symbols := some ["A", "A", "B"]
      columns := [("close", [some 50, some 60, some 600]), ("ind", [some 5, some 6, some 6])]
      features := some [[some 50, some 40, some 30, some 5, some 4, some 3],
        [some 60, some 50, some 40, some 6, some 5, some 4],
        [some 600, some 500, some 300, some 6, some 5, some 3]] } := by
  decide +kernel

/-- The test rows reach back into the history of their own symbol. -/
example : (pooledLagged 1).bind (fun r => r.toOption.map Prod.snd) = some
    { dates := [8, 9, 10, 8, 10], symbols := some ["A", "A", "A", "B", "B"]
      columns := [("close", [some 80, some 90, some 100, some 800, some 1000]),
        ("ind", [some 8, some 9, some 10, some 8, some 10])]
      features := some [[some 80, some 70, some 8, some 7], [some 90, some 80, some 9, some 8],
        [some 100, some 90, some 10, some 9], [some 800, some 700, some 8, some 7],
        [some 1000, some 800, some 10, some 8]] } := by
  decide +kernel

/-- The warm-up of both symbols is one bar. -/
example : ∀ s ∈ ["B", "A"], WarmUp ["close"] trainData ["close", "ind"] (barsNo trainFrame s 1 6) 1 := by
  intro s hs i r h
  rw [List.mem_cons, List.mem_singleton] at hs
  rcases hs with rfl | rfl
  · rw [show barsNo trainFrame "B" 1 6 = [2, 3, 5, 6].map
      (fun d : Int => (⟨"B", d, fun _ => some (d * 100)⟩ : DRow)) from rfl] at h
    match i, h with
    | 0, h => cases h; decide +kernel
    | 1, h => cases h; decide +kernel
    | 2, h => cases h; decide +kernel
    | 3, h => cases h; decide +kernel
    | i + 4, h => simp at h
  · rw [show barsNo trainFrame "A" 1 6 = [2, 3, 4, 5, 6].map
      (fun d : Int => (⟨"A", d, fun _ => some (d * 10)⟩ : DRow)) from rfl] at h
    match i, h with
    | 0, h => cases h; decide +kernel
    | 1, h => cases h; decide +kernel
    | 2, h => cases h; decide +kernel
    | 3, h => cases h; decide +kernel
    | 4, h => cases h; decide +kernel
    | i + 5, h => simp at h

/-- With four lags and the warm-up no bar is left: it raises. -/
example : (pooledLagged 4).map (fun r => match r with
    | .error e => e == .nothingLeft
    | .ok _ => false) = some true := by
  decide +kernel

end PyBroker
