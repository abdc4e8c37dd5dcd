import Verif.Portfolio.Priced
import Verif.Props.Explained

/-!
# C119 and C120: orders have a source, and a price on their bar

Each order of a run carries out a signal of an earlier bar, is the exit of a stop that a signal
carried, or closes a position on a last bar or when its symbol is dropped; and its price is one
that the bar it is filled on has for it.
-/

namespace PyBroker

namespace Spec

/-- The cell of a row; none without the column. -/
def rowCell (x : RunSetup) (r : DRow) (c : String) : Option Cell :=
  if c ∈ x.cols then some (r.val c) else none

/-- A price, in cents if prices are rounded. -/
def shown (x : RunSetup) (v : ℚ) : ℚ := if x.round then roundCents v else v

/-- Bars of the symbol of a row, in order, up to that row. -/
def BarsTo (x : RunSetup) (r : DRow) (a : SymArrays) : Prop :=
  ∃ l : List DRow, (∀ q ∈ l, q ∈ x.rows ∧ q.symbol = r.symbol) ∧
    (l.map DRow.date).Pairwise (· ≤ ·) ∧ l.getLast? = some r ∧ a.dates = l.map DRow.date ∧
    ∀ c, a.col c = if c ∈ x.cols then some (l.map (fun q => q.val c)) else none

/-- The price a fill price stands for on the bar of a row: that of the row, a given amount, or
what a function gives for the bars up to it. -/
inductive PriceOn (x : RunSetup) (r : DRow) : FillSpec → ℚ → Prop
  | type {t : PriceType} {v : ℚ} (h : Spec.price (rowCell x r) t = some (some v)) :
      PriceOn x r (.price t) (shown x v)
  | amount (q : ℚ) : PriceOn x r (.amount q) (shown x q)
  | callable {k : Nat} {a : SymArrays} {v : ℚ} (ha : BarsTo x r a)
      (h : x.fns k r.symbol (some a) = some v) : PriceOn x r (.callable k) (shown x v)

/-- Window `k` trades the symbol and has a bar of it on the date in its test data. -/
def InWindow (x : RunSetup) (k : Nat) (sym : Sym) (d : Date) : Prop :=
  ∃ win selected, Trades x k win selected ∧ sym ∈ selected ∧
    ∃ i ∈ win.test, ∃ r, x.rows[i]? = some r ∧ r.symbol = sym ∧ r.date = d

/-- The order, filled on the bar of the row `r`, carries out a signal of an earlier bar. -/
structure FromSignal (x : RunSetup) (q : ExecResult) (o : Order) (r : DRow) : Prop where
  symbol : o.symbol = q.symbol
  created : o.created = some q.date
  later : q.date < o.date
  asked : (o.side = .buy ∧ ∃ n, q.buyShares = some n ∧ (0 ≤ n → o.shares ≤ n) ∧
      o.limitPrice = q.buyLimit ∧ PriceOn x r q.buyFill o.marketPrice) ∨
    (o.side = .sell ∧ q.buyShares = none ∧ ∃ n, q.sellShares = some n ∧ (0 ≤ n → o.shares ≤ n) ∧
      o.limitPrice = q.sellLimit ∧ PriceOn x r q.sellFill o.marketPrice)
  type : o.orderType = if o.limitPrice.isSome then .limit else .market
  limit : ∀ l, o.limitPrice = some l → if o.side = .buy then o.fillPrice ≤ l else l ≤ o.fillPrice
  paid : ∃ k, InWindow x k o.symbol o.date ∧
    OrderPaid (x.orderSlip k o.date) o.side o.symbol o.marketPrice o.fillPrice

/-- The unslipped price of an exit by a stop: the fill price of a bar stop, the exit price of a
price stop with one, and otherwise a price between the low and the high. -/
structure StopPrice (x : RunSetup) (r : DRow) (st : Stop) (m : ℚ) : Prop where
  bar : st.stopType = .bar → PriceOn x r (st.fillPrice.getD (.price .middle)) m
  exit : st.stopType ≠ .bar → ∀ t, st.exitPrice = some t → PriceOn x r (.price t) m
  level : st.stopType ≠ .bar → st.exitPrice = none → ∀ lo hi, PriceOn x r (.price .low) lo →
    PriceOn x r (.price .high) hi → lo ≤ hi → lo ≤ m ∧ m ≤ hi

/-- The order, filled on the bar of the row `r`, is the exit of a stop a signal carried. -/
structure FromStop (x : RunSetup) (q : ExecResult) (st : Stop) (o : Order) (r : DRow) : Prop where
  carried : st ∈ orderStops q
  symbol : o.symbol = st.symbol
  side : o.side = closingSide st.posType
  limit : o.limitPrice = st.limitPrice
  allowed : LimitAllows st o.fillPrice
  type : o.orderType = match st.stopType with
    | .bar => .stopBar
    | .loss => .stopLoss
    | .profit => .stopProfit
    | .trailing => .stopTrailing
  price : StopPrice x r st o.marketPrice
  paid : ∃ k, InWindow x k o.symbol o.date ∧
    o.fillPrice =
      if 0 < slipPrice (x.exitSlip k o.date) o.side o.symbol o.shares o.marketPrice then
        slipPrice (x.exitSlip k o.date) o.side o.symbol o.shares o.marketPrice
      else o.marketPrice

/-- The order, filled on the bar of the row `r`, closes a position: on the last bar of its symbol,
or because a window does not trade the symbol. -/
structure FromClosing (x : RunSetup) (o : Order) (r : DRow) : Prop where
  created : o.created = none
  limit : o.limitPrice = none
  type : o.orderType = .market
  price : PriceOn x r (match o.side with | .buy => x.exitCover | .sell => x.exitSell) o.marketPrice
  paid : ∃ n, (∃ k, InWindow x k o.symbol o.date ∧ x.exitOnLast = true ∧
      LastBar x o.symbol o.date ∧
      o.fillPrice = slipPrice (x.exitSlip k o.date) o.side o.symbol n o.marketPrice) ∨
    ∃ k win selected, Trades x k win selected ∧ o.symbol ∉ selected ∧
      o.fillPrice = slipPrice (x.dropSlip k) o.side o.symbol n o.marketPrice

/-- Where an order comes from. -/
def HasSource (x : RunSetup) (results : List ExecResult) (o : Order) (r : DRow) : Prop :=
  (∃ q ∈ results, FromSignal x q o r) ∨ (∃ q ∈ results, ∃ st, FromStop x q st o r) ∨
    FromClosing x o r

/-- The slippage models of exits make no price out of none. -/
def NoPriceOfNone (x : RunSetup) : Prop :=
  ∀ f, ((∃ k d, x.exitSlip k d = some f) ∨ ∃ k, x.dropSlip k = some f) →
    ∀ side sym n, (f side sym n 0).2 ≤ 0

end Spec

open PyBroker.Spec

/-- The arrays of a symbol are those of these rows. -/
structure RowsAre (x : RunSetup) (l : List DRow) (a : SymArrays) : Prop where
  dates : a.dates = l.map DRow.date
  col : ∀ c, a.col c = if c ∈ x.cols then some (l.map (fun q => q.val c)) else none

theorem take_getLast {α : Type} {l : List α} {n : Nat} {r : α} (hn : 0 < n)
    (h : l[n - 1]? = some r) : (l.take n).getLast? = some r := by
  have hlt := (List.getElem?_eq_some_iff.1 h).1
  rw [List.getLast?_eq_getElem?, List.length_take, Nat.min_eq_left (by omega),
    List.getElem?_take, if_pos (by omega)]
  exact h

theorem barCell_rows {x : RunSetup} {store : Store} {sym : Sym} {n : Nat} {a : SymArrays}
    {l : List DRow} {r : DRow} (ha : store.arrays sym = some a) (hl : RowsAre x l a) (hn : 0 < n)
    (hr : l[n - 1]? = some r) (c : String) : barCell store sym n c = rowCell x r c := by
  unfold barCell rowCell
  rw [ha, Option.bind_some, hl.col]
  split
  · rw [Option.bind_some, ← List.map_take, List.getLast?_map, take_getLast hn hr]
    rfl
  · rfl

theorem emptyScope_ok (store : Store) (idx : Sym → Nat) (b : Bool) :
    PriceScope.BarOK { store := store, endIndex := idx, round := b } := by
  intro sym p v h
  simp [cacheGet] at h

/-- The price of a type on the bar of a row. -/
theorem priceAt_type {x : RunSetup} {store : Store} {idx : Sym → Nat} {sym : Sym} {a : SymArrays}
    {l : List DRow} {r : DRow} (ha : store.arrays sym = some a) (hl : RowsAre x l a)
    (hn : 0 < idx sym) (hr : l[idx sym - 1]? = some r) (t : PriceType) (y : ℚ) :
    x.priceAt store idx sym (.price t) = some y ↔ PriceOn x r (.price t) y := by
  have hc : barCell store sym (idx sym) = rowCell x r := funext (barCell_rows ha hl hn hr)
  have hg := (fetchPriceType_good (emptyScope_ok store idx x.round) sym t).1
  simp only at hg
  rw [hc] at hg
  have hval : x.priceAt store idx sym (.price t) =
      (Spec.price (rowCell x r) t).join.map (shown x) := by
    unfold RunSetup.priceAt RunSetup.fillPrice PriceScope.fetchFloat
    simp only
    rcases hf : PriceScope.fetchPriceType { store := store, endIndex := idx, round := x.round } sym t
      with ⟨q, s'⟩
    rw [hf] at hg
    simp only at hg
    subst hg
    rcases hp : Spec.price (rowCell x r) t with _ | c
    · rfl
    · simp only [asPrice, PriceScope.roundFloat, Option.join_some]
      cases c <;> cases hxr : x.round <;> simp [shown, hxr]
  rw [hval]
  constructor
  · intro h
    obtain ⟨v, hv, rfl⟩ := Option.map_eq_some_iff.1 h
    exact .type (Option.join_eq_some_iff.1 hv)
  · rintro ⟨h⟩
    rw [h]
    rfl

/-- Any fill price on the bar of a row. -/
theorem priceAt_on {x : RunSetup} {store : Store} {idx : Sym → Nat} {sym : Sym} {a : SymArrays}
    {l : List DRow} {r : DRow} (ha : store.arrays sym = some a) (hl : RowsAre x l a)
    (hs : ∀ q ∈ l, q ∈ x.rows ∧ q.symbol = sym) (hsort : (l.map DRow.date).Pairwise (· ≤ ·))
    (hn : 0 < idx sym) (hr : l[idx sym - 1]? = some r) {f : FillSpec} {y : ℚ}
    (h : x.priceAt store idx sym f = some y) : PriceOn x r f y := by
  have hrs : r.symbol = sym := (hs r (List.mem_of_getElem? hr)).2
  cases f with
  | price t => exact (priceAt_type ha hl hn hr t y).1 h
  | amount q =>
    unfold RunSetup.priceAt RunSetup.fillPrice PriceScope.fetchFloat PriceScope.roundFloat at h
    simp only at h
    have : y = shown x q := by
      unfold shown
      split at h <;> simp_all
    rw [this]
    exact .amount q
  | callable k =>
    unfold RunSetup.priceAt RunSetup.fillPrice PriceScope.fetchFloat PriceScope.roundFloat at h
    simp only [ha, Option.map_some] at h
    have hb : BarsTo x r (a.upTo (idx sym)) := by
      refine ⟨l.take (idx sym), fun q hq => ?_, ?_, take_getLast hn hr, ?_, fun c => ?_⟩
      · rw [hrs]; exact hs q (List.mem_of_mem_take hq)
      · exact List.Pairwise.sublist ((List.take_sublist _ _).map _) hsort
      · unfold SymArrays.upTo
        rw [hl.dates, List.map_take]
      · unfold SymArrays.upTo
        simp only
        rw [hl.col]
        split
        · rw [Option.map_some, List.map_take]
        · rfl
    have : ∃ v, x.fns k sym (some (a.upTo (idx sym))) = some v ∧ y = shown x v := by
      unfold shown
      cases hxr : x.round
      · rw [hxr] at h
        exact ⟨y, h, rfl⟩
      · rw [hxr] at h
        obtain ⟨v, h1, h2⟩ := Option.map_eq_some_iff.1 h
        exact ⟨v, h1, h2.symm⟩
    obtain ⟨v, h1, rfl⟩ := this
    subst hrs
    exact .callable hb h1

/-! ## Prices on the bars of a window, and of bars to drop a symbol on -/

theorem symRows_row {rows : List DRow} {sym : Sym} {r : DRow} (h : r ∈ symRows rows sym) :
    r ∈ rows ∧ r.symbol = sym := by
  obtain ⟨h1, h2⟩ := List.mem_filter.1 ((symRows_perm rows sym).mem_iff.1 h)
  exact ⟨h1, by simpa using h2⟩

/-- The prices the loop reads on a bar are those of its row. -/
theorem bar_prices {x : RunSetup} (hu : UniqueBars x.rows) {window : List Date}
    {selected : List Sym} {d : Date} {sym : Sym} (hs : sym ∈ selected)
    (hd : d ∈ x.barsOn window sym) :
    ∃ r ∈ x.rows, r.symbol = sym ∧ r.date = d ∧
      (∀ f y, x.priceAt (x.store window) (x.idxOn window selected d) sym f = some y →
        PriceOn x r f y) ∧
      ∀ t y, PriceOn x r (.price t) y →
        x.priceAt (x.store window) (x.idxOn window selected d) sym (.price t) = some y := by
  have hat := RunSetup.at_bar hu hs hd
  have hn : 0 < x.idxOn window selected d sym := by
    rw [RunSetup.idxOn_eq hu, if_pos hs]
    exact List.countP_pos_iff.2 ⟨d, hd, by simp⟩
  unfold RunSetup.barsOn at hat
  rw [List.getElem?_map, Option.map_eq_some_iff] at hat
  obtain ⟨r, hr, hrd⟩ := hat
  have hmem := symRows_row (List.mem_filter.1 (List.mem_of_getElem? hr)).1
  rcases slice_arrays hu x.cols window sym with ⟨h1, _⟩ | ⟨_, a, ha, h3, h4⟩
  · rw [h1] at hr
    simp at hr
  · have hl : RowsAre x ((symRows x.rows sym).filter (fun r => r.date ∈ window)) a := ⟨h3, h4⟩
    refine ⟨r, hmem.1, hmem.2, hrd, fun f y h => ?_, fun t y h => (priceAt_type ha hl hn hr t y).2 h⟩
    refine priceAt_on ha hl (fun q hq => symRows_row (List.mem_filter.1 hq).1) ?_ hn hr h
    exact (RunSetup.barsOn_sorted hu window sym).imp le_of_lt

/-- The prices of a bar a symbol is dropped on are those of its row. -/
theorem drop_prices {x : RunSetup} {rows : List DRow} (hrows : ∀ r ∈ rows, r ∈ x.rows) {sym : Sym}
    {b : DropBar} (h : b ∈ x.dropBars (storeOf x.cols rows) sym) :
    ∃ r ∈ x.rows, r.symbol = sym ∧ r.date = b.date ∧
      (b.buyFill = 0 ∨ PriceOn x r x.exitCover b.buyFill) ∧
      (b.sellFill = 0 ∨ PriceOn x r x.exitSell b.sellFill) := by
  unfold RunSetup.dropBars at h
  rcases ha : (storeOf x.cols rows).arrays sym with _ | a
  · rw [ha] at h; cases h
  · rw [ha] at h
    have hl : RowsAre x (symRows rows sym) a := by
      unfold storeOf at ha
      simp only at ha
      split at ha
      · cases ha
        exact ⟨rfl, fun _ => rfl⟩
      · cases ha
    obtain ⟨⟨d, i⟩, hdi, rfl⟩ := List.mem_map.1 h
    have hi := List.mem_zipIdx_iff_getElem?.1 hdi
    simp only at hi
    rw [hl.dates, List.getElem?_map, Option.map_eq_some_iff] at hi
    obtain ⟨r, hr, hrd⟩ := hi
    have hmem := symRows_row (List.mem_of_getElem? hr)
    have hsort : ((symRows rows sym).map DRow.date).Pairwise (· ≤ ·) :=
      List.pairwise_map.2 (List.pairwise_insertionSort _ _)
    have key : ∀ f, (x.priceAt (storeOf x.cols rows) (fun _ => i + 1) sym f).getD 0 = 0 ∨
        PriceOn x r f ((x.priceAt (storeOf x.cols rows) (fun _ => i + 1) sym f).getD 0) := by
      intro f
      rcases hp : x.priceAt (storeOf x.cols rows) (fun _ => i + 1) sym f with _ | y
      · exact Or.inl rfl
      · right
        exact priceAt_on (idx := fun _ => i + 1) ha hl
          (fun q hq => ⟨hrows q (symRows_row hq).1, (symRows_row hq).2⟩) hsort (Nat.succ_pos i)
          hr hp
    exact ⟨r, hrows r hmem.1, hmem.2, hrd, key _, key _⟩

/-! ## C119 -/

/-- A price of none makes no order. -/
theorem slip_none {x : RunSetup} (h0 : NoPriceOfNone x) {slip : Option SlipFn}
    (hs : (∃ k d, slip = x.exitSlip k d) ∨ ∃ k, slip = x.dropSlip k) {side : Side} {sym : Sym}
    {n : ℚ} : slipPrice slip side sym n 0 ≤ 0 := by
  unfold slipPrice
  cases slip with
  | none => exact le_rfl
  | some f =>
    apply h0 f
    rcases hs with ⟨k, d, hs⟩ | ⟨k, hs⟩
    · exact Or.inl ⟨k, d, hs.symm⟩
    · exact Or.inr ⟨k, hs.symm⟩

/-- A stop that fires on the bar of a row, with the price it fires at. -/
theorem stop_price {x : RunSetup} {env : StopEnv} {r : DRow} {st : Stop} {level : Option ℚ}
    {n : Nat} {m : ℚ}
    (hfetch : ∀ f y, env.fetch st.symbol f = some y → PriceOn x r f y)
    (hfloat : ∀ t y, env.fetchFloat st.symbol t = some y ↔ PriceOn x r (.price t) y)
    (h : FiresAt env st level n m) : StopPrice x r st m := by
  have uniq : ∀ t y z, PriceOn x r (.price t) y → PriceOn x r (.price t) z → y = z := by
    intro t y z h1 h2
    rw [← hfloat] at h1 h2
    rw [h1] at h2
    exact Option.some.inj h2
  cases h with
  | bars ht hn hle hm hpos =>
    exact ⟨fun _ => hfetch _ _ hm, fun h => absurd ht h, fun h => absurd ht h⟩
  | below ht hb hl he hlo hle hm =>
    refine ⟨fun h => absurd h ht, fun _ t h => (by rw [he] at h; cases h), ?_⟩
    intro _ _ lo hi h1 h2 h3
    rw [(hfloat _ _).2 h2] at hm
    have := uniq _ _ _ h1 ((hfloat _ _).1 hlo)
    subst this
    simp only [Option.elim] at hm
    subst hm
    exact ⟨le_min hle h3, min_le_right _ _⟩
  | above ht hb hl he hhi hle hm =>
    refine ⟨fun h => absurd h ht, fun _ t h => (by rw [he] at h; cases h), ?_⟩
    intro _ _ lo hi h1 h2 h3
    rw [(hfloat _ _).2 h1] at hm
    have := uniq _ _ _ h2 ((hfloat _ _).1 hhi)
    subst this
    simp only [Option.elim] at hm
    subst hm
    exact ⟨le_max_right _ _, max_le hle h3⟩
  | belowAt ht hb hl he hm hle =>
    refine ⟨fun h => absurd h ht, fun _ t h => ?_, fun _ h => by rw [he] at h; cases h⟩
    rw [he] at h
    cases h
    exact (hfloat _ _).1 hm
  | aboveAt ht hb hl he hm hle =>
    refine ⟨fun h => absurd h ht, fun _ t h => ?_, fun _ h => by rw [he] at h; cases h⟩
    rw [he] at h
    cases h
    exact (hfloat _ _).1 hm

/-- A stop given to a call was carried by a result. -/
theorem stop_carried {cfg : Config} {ws : List (Window × List BarIn)}
    {hist : List (List Op × List (List Op))}
    (hcalls : List.Forall₂ (WindowCalls (AskedIn ws) cfg) ws hist) {st : Stop}
    (h : st ∈ (allCalls hist).flatMap stopsOf) :
    ∃ q ∈ ws.flatMap (fun y => y.2.flatMap BarIn.results), st ∈ orderStops q := by
  obtain ⟨op, hop, hst⟩ := List.mem_flatMap.1 h
  unfold allCalls at hop
  obtain ⟨y, hy, hop⟩ := List.mem_flatMap.1 hop
  obtain ⟨wb, hwb, hwc⟩ := RunSetup.forall₂_mem hcalls hy
  have fin : ∀ {env : BarEnv} {p : PendingOrder} {r : OrderReq}, AskedIn ws p →
      CarriesOut cfg env p r → st ∈ r.stops →
      ∃ q ∈ ws.flatMap (fun y => y.2.flatMap BarIn.results), st ∈ orderStops q := by
    rintro env p r ⟨wb, hwb, b, hb, q, hq, hwant⟩ hco hst
    refine ⟨q, List.mem_flatMap.2 ⟨wb, hwb, List.mem_flatMap.2 ⟨b, hb, hq⟩⟩, ?_⟩
    have hp : st ∈ p.stops := by
      rcases hco.stops with e | e
      · rwa [e] at hst
      · rw [e] at hst; cases hst
    unfold orderStops
    cases hbs : q.buyShares with
    | some n => rw [← (hwant.buy n hbs).2.2.2.2.2]; exact hp
    | none =>
      cases hss : q.sellShares with
      | some n => rw [← (hwant.sell hbs n hss).2.2.2.2.2]; exact hp
      | none =>
        rcases hwant.side with h | h
        · exact absurd hbs h
        · exact absurd hss h
  rcases List.mem_append.1 hop with hop | hop
  · obtain ⟨b, hb, sym, bar, rfl, _⟩ := hwc.1 op hop
    cases hst
  · obtain ⟨calls, hcm, hop⟩ := List.mem_flatten.1 hop
    obtain ⟨b, hb, orders, cancels, rfl, ho, hcan⟩ := RunSetup.forall₂_mem hwc.2 hcm
    simp only [List.mem_cons, List.mem_append, List.mem_map] at hop
    rcases hop with rfl | hop | rfl | hop | ⟨e, he, rfl⟩ | hop
    · cases hst
    · have hio := ho op hop
      cases op with
      | buy r =>
        obtain ⟨_, _, _, p, hp, _, hco⟩ := hio
        exact fin hp hco hst
      | sell r =>
        obtain ⟨_, _, _, p, hp, _, hco⟩ := hio
        exact fin hp hco hst
      | _ => exact hio.elim
    · cases hst
    · have hic := hcan op hop
      cases op with
      | removeStop id => cases hst
      | removeStopsSym sym t => cases hst
      | removeStopsEntry id t => cases hst
      | _ => exact hic.elim
    · cases hst
    · rcases hop with rfl | hop
      · cases hst
      · cases hop

/-- An order that carries out a pending order is from its signal. -/
theorem from_signal {x : RunSetup} {cfg : Config} {env : BarEnv} {k : Nat} {q : ExecResult}
    {p : PendingOrder} {r : OrderReq} {o : Order} {row : DRow} (hd : env.date = o.date)
    (hfetch : ∀ f y, env.fetch o.symbol f = some y → PriceOn x row f y)
    (hslip : env.slip = x.orderSlip k o.date) (hin : InWindow x k o.symbol o.date)
    (hq : Wants q.date q p) (hlater : r.created.elim False (· < env.date))
    (hco : CarriesOut cfg env p r) (hside : o.side = p.side) (hf : Fills r o) :
    FromSignal x q o row := by
  obtain ⟨m, hm1, hm2, hm3⟩ := hco.price
  have hsym : o.symbol = p.symbol := hf.symbol.trans hco.symbol
  have hcr : o.created = some q.date := by rw [hf.created, hco.created, hq.created]
  have hmk : o.marketPrice = m := by rw [hf.market, hm2]; rfl
  have hlim : o.limitPrice = p.limit := hf.limit.trans hco.limit
  have hon : PriceOn x row p.fill o.marketPrice := by
    rw [hmk]
    exact hfetch _ _ (by rw [hsym]; exact hm1)
  have hsh : 0 ≤ p.shares → o.shares ≤ p.shares := fun h => hf.shares.trans (hco.shares h)
  refine ⟨hsym.trans hq.symbol, hcr, ?_, ?_, ?_, ?_, k, hin, ?_⟩
  · rw [hco.created, hq.created, hd] at hlater
    exact hlater
  · cases hbs : q.buyShares with
    | some n =>
      obtain ⟨b1, b2, b3, b4, _, _⟩ := hq.buy n hbs
      left
      rw [b2] at hsh
      rw [b4] at hon
      exact ⟨hside.trans b1, n, rfl, hsh, hlim.trans b3, hon⟩
    | none =>
      cases hss : q.sellShares with
      | some n =>
        obtain ⟨b1, b2, b3, b4, _, _⟩ := hq.sell hbs n hss
        right
        rw [b2] at hsh
        rw [b4] at hon
        exact ⟨hside.trans b1, rfl, n, rfl, hsh, hlim.trans b3, hon⟩
      | none =>
        rcases hq.side with h | h
        · exact absurd hbs h
        · exact absurd hss h
  · rw [hf.type, hco.type, hlim]
  · intro l hl
    exact hf.allowed l (by rw [← hf.limit]; exact hl)
  · rw [← hslip, hmk, hside, hsym, hf.fill]
    exact hm3

/-- **C119.**  Every order of a run is on a bar of its symbol, and carries out a signal of an
earlier bar, is the exit of a stop that a signal carried, or closes a position on a last bar or
when its symbol is dropped; its price is the one it asks for on that bar, moved by slippage. -/
theorem orders_have_source {x : RunSetup} (hok : SetupOK x) {st : RunSetup.State}
    (h : x.run = .ok st) (hres : ResultsOK st.results) (h0 : NoPriceOfNone x) :
    ∀ o ∈ st.loop.pf.orders, ∃ r ∈ x.rows, r.symbol = o.symbol ∧ r.date = o.date ∧
      HasSource x st.results o r := by
  obtain ⟨wins, ws, hw, hf, hrun, _, hresults⟩ := RunSetup.run_made h
  have hr := RunSetup.run_ok hok hw (List.Sublist.refl _) hf
  rw [hresults] at hres ⊢
  obtain ⟨hfit, hfresh⟩ := results_signals hres
  obtain ⟨hist, hcalls, hrun', hfit', hfresh', _⟩ := backtest_history hr hfit hfresh hrun
  intro o ho
  obtain ⟨op, hop, hm⟩ := run_makes hfit' hfresh' hrun' o ho
  unfold allCalls at hop
  obtain ⟨y, hy, hop⟩ := List.mem_flatMap.1 hop
  obtain ⟨wb, hwb, hwc⟩ := RunSetup.forall₂_mem hcalls hy
  obtain ⟨kw, hkw, ⟨es, hes, hwin, hbars⟩⟩ := RunSetup.forall₂_mem hf hwb
  have hk := RunSetup.mem_zip hkw
  have htr : Trades x kw.2 kw.1 (selectedSymbols es) := ⟨wins, es, hw, hk, hes, rfl⟩
  rcases List.mem_append.1 hop with hop | hop
  · obtain ⟨b, hb, sym, bar, rfl, hns, hbar⟩ := hwc.1 op hop
    rw [hwin] at hb
    have hb := Option.some.inj hb
    subst hb
    have hm : ClosesOut bar.date sym (match o.side with | .buy => bar.buyFill | .sell => bar.sellFill)
      (x.dropSlip kw.2) o := hm
    have hpr : ∃ r ∈ x.rows, r.symbol = sym ∧ r.date = bar.date ∧
        (bar.buyFill = 0 ∨ PriceOn x r x.exitCover bar.buyFill) ∧
        (bar.sellFill = 0 ∨ PriceOn x r x.exitSell bar.sellFill) := by
      rcases hbar with hbar | hbar
      · refine drop_prices (fun r hr => ?_) hbar
        obtain ⟨i, _, hi⟩ := RunSetup.mem_rowsAt.1 hr
        exact List.mem_of_getElem? hi
      · exact drop_prices (fun r hr => hr) hbar
    obtain ⟨r, hrx, h1, h2, h3, h4⟩ := hpr
    refine ⟨r, hrx, h1.trans hm.symbol.symm, h2.trans hm.date.symm, Or.inr (Or.inr ?_)⟩
    obtain ⟨n, hn⟩ := hm.fill
    have hpos := hm.fillPos
    have hno : o.marketPrice ≠ 0 := by
      intro hz
      rw [hm.market] at hz
      rw [hn, hz] at hpos
      exact absurd hpos (not_lt.2 (slip_none h0 (Or.inr ⟨_, rfl⟩)))
    refine ⟨hm.created, hm.limit, hm.type, ?_, n, Or.inr ⟨kw.2, kw.1, _, htr, ?_, ?_⟩⟩
    · rw [hm.market] at hno ⊢
      cases hos : o.side
      · rw [hos] at hno
        exact h3.resolve_left hno
      · rw [hos] at hno
        exact h4.resolve_left hno
    · rw [hm.symbol]; exact hns
    · rw [hn, hm.symbol, hm.market]
  · obtain ⟨calls, hcm, hop⟩ := List.mem_flatten.1 hop
    obtain ⟨b, hb, orders, cancels, rfl, ho, hcan⟩ := RunSetup.forall₂_mem hwc.2 hcm
    obtain ⟨d, hd, hmade⟩ := RunSetup.forall₂_mem hbars hb
    have hbd : b.env.date = d := hmade.date
    -- the row of a symbol with a bar, and the prices read on it
    have row : ∀ sym, sym ∈ selectedSymbols es → d ∈ x.barsOn (x.testDates kw.1) sym →
        ∃ r ∈ x.rows, r.symbol = sym ∧ r.date = d ∧ InWindow x kw.2 sym d ∧
          (∀ f y, b.env.fetch sym f = some y → PriceOn x r f y) ∧
          (∀ f y, b.env.stop.fetch sym f = some y → PriceOn x r f y) ∧
          ∀ t y, b.env.stop.fetchFloat sym t = some y ↔ PriceOn x r (.price t) y := by
      intro sym h1 h2
      obtain ⟨r, hrx, hrs, hrd, hp1, hp2⟩ := bar_prices hok.unique h1 h2
      have hdt := (RunSetup.mem_calendar' hok.unique).1 hd
      obtain ⟨i, hi, hir⟩ := RunSetup.tested_row hok hw hk hrx (by rw [hrd]; exact hdt)
      refine ⟨r, hrx, hrs, hrd, ⟨kw.1, _, htr, h1, i, hi, r, hir, hrs, hrd⟩, ?_, ?_, ?_⟩
      · intro f y hy; rw [hmade.env] at hy; exact hp1 f y hy
      · intro f y hy; rw [hmade.env] at hy; exact hp1 f y hy
      · intro t y; rw [hmade.env]; exact ⟨hp1 _ y, hp2 t y⟩
    have has : ∀ sym, b.env.hasBarOn sym = true →
        sym ∈ selectedSymbols es ∧ d ∈ x.barsOn (x.testDates kw.1) sym := by
      intro sym hs
      rw [hmade.env] at hs
      exact (RunSetup.hasBar_iff hok.unique kw.2 sym).1 hs
    have asks : ∀ {p : PendingOrder}, AskedIn ws p →
        ∃ q ∈ ws.flatMap (fun y => y.2.flatMap BarIn.results), Wants q.date q p := by
      rintro p ⟨wb', hwb', b', hb', q, hq, hwant⟩
      refine ⟨q, List.mem_flatMap.2 ⟨wb', hwb', List.mem_flatMap.2 ⟨b', hb', hq⟩⟩, ?_⟩
      obtain ⟨kw', _, ⟨es', _, _, hbars'⟩⟩ := RunSetup.forall₂_mem hf hwb'
      obtain ⟨d', _, hmade'⟩ := RunSetup.forall₂_mem hbars' hb'
      rw [hmade'.dates q hq, ← hmade'.date]
      exact hwant
    have order : ∀ {p : PendingOrder} {r : OrderReq}, AskedIn ws p → o.side = p.side → Fills r o →
        r.date = b.env.date → r.created.elim False (· < b.env.date) →
        b.env.hasBarOn r.symbol = true → CarriesOut x.cfg b.env p r →
        ∃ r ∈ x.rows, r.symbol = o.symbol ∧ r.date = o.date ∧
          HasSource x (ws.flatMap (fun y => y.2.flatMap BarIn.results)) o r := by
      intro p r hp hside hfl hrd hlater hhas hco
      obtain ⟨q, hq, hwant⟩ := asks hp
      have hod : o.date = d := by rw [hfl.date, hrd, hbd]
      obtain ⟨h1, h2⟩ := has _ hhas
      rw [← hfl.symbol] at h1 h2
      obtain ⟨r', hrx, hrs, hrd', hin, hp1, _⟩ := row _ h1 h2
      refine ⟨r', hrx, hrs, hrd'.trans hod.symm, Or.inl ⟨q, hq, ?_⟩⟩
      refine from_signal (hbd.trans hod.symm) hp1 (k := kw.2) ?_ (by rw [hod]; exact hin) hwant
        hlater hco hside hfl
      rw [hmade.env, hod]
      rfl
    simp only [List.mem_cons, List.mem_append, List.mem_map] at hop
    rcases hop with rfl | hop | rfl | hop | ⟨e, he, rfl⟩ | hop
    · obtain ⟨e, s, m, level, hU, hsym, hcan', hfire, hlim, hof⟩ := hm
      obtain ⟨q, hq, hst⟩ := stop_carried hcalls hU
      unfold OrderFacts.of stopOrder at hof
      simp only [OrderFacts.mk.injEq] at hof
      obtain ⟨f1, f2, f3, f4, _, f6, f7, f8, f9⟩ := hof
      have hb' : b.env.hasBarOn e.symbol = true := by
        rw [hmade.env] at hcan' ⊢
        unfold RunSetup.barEnv at hcan' ⊢
        simp only [Bool.and_eq_true] at hcan' ⊢
        exact hcan'.1
      obtain ⟨h1, h2⟩ := has _ hb'
      obtain ⟨r, hrx, hrs, hrd, hin, _, hp2, hp3⟩ := row _ h1 h2
      have hod : o.date = d := f3.trans hbd
      refine ⟨r, hrx, by rw [f2]; exact hrs, by rw [hod]; exact hrd,
        Or.inr (Or.inl ⟨q, hq, s, ⟨hst, f2.trans hsym.symm, ?_, f7, ?_, f4, ?_, kw.2, ?_, ?_⟩⟩)⟩
      · rw [f1]; cases s.posType <;> rfl
      · rw [f9]; exact hlim
      · rw [f8]
        exact stop_price (by rw [hsym]; exact hp2) (by rw [hsym]; exact hp3) hfire
      · rw [f2, hod]; exact hin
      · have hsl : b.env.stop.slip = x.exitSlip kw.2 o.date := by rw [hmade.env, hod]; rfl
        rw [f9, f1, f2, f6, f8]
        unfold exitPaid slipPrice
        rw [hsl]
        simp only
        rw [hsym]
        cases x.exitSlip kw.2 o.date with
        | none => simp
        | some f => rfl
    · have hio := ho op hop
      cases op with
      | buy r =>
        obtain ⟨h1, h2, h3, p, hp, hps, hco⟩ := hio
        exact order hp (hm.1.trans hps.symm) hm.2 h1 h2 h3 hco
      | sell r =>
        obtain ⟨h1, h2, h3, p, hp, hps, hco⟩ := hio
        exact order hp (hm.1.trans hps.symm) hm.2 h1 h2 h3 hco
      | _ => exact hio.elim
    · exact hm.elim
    · have hic := hcan op hop
      cases op with
      | removeStop id => exact hm.elim
      | removeStopsSym sym t => exact hm.elim
      | removeStopsEntry id t => exact hm.elim
      | _ => exact hic.elim
    · have hm : ClosesOut b.env.date e.symbol
          (match o.side with | .buy => e.buyFill | .sell => e.sellFill) b.env.stop.slip o := hm
      have hes' : e.symbol ∈ b.exits.map ForcedExit.symbol := List.mem_map_of_mem he
      rw [hmade.exits] at hes'
      obtain ⟨hready, hlast⟩ := List.mem_filter.1 hes'
      have hact := (List.mem_filter.1 hready).1
      obtain ⟨h1, h2⟩ := (RunSetup.mem_active hok.unique (RunSetup.mem_window_calendar hd)).1 hact
      obtain ⟨r, hrx, hrs, hrd, hin, hp1, _, _⟩ := row _ h1 h2
      have hod : o.date = d := hm.date.trans hbd
      have hsl : b.env.stop.slip = x.exitSlip kw.2 o.date := by rw [hmade.env, hod]; rfl
      obtain ⟨n, hn⟩ := hm.fill
      have hpos := hm.fillPos
      have hno : o.marketPrice ≠ 0 := by
        intro hz
        rw [hm.market] at hz
        rw [hn, hz, hsl] at hpos
        exact absurd hpos (not_lt.2 (slip_none h0 (Or.inl ⟨_, _, rfl⟩)))
      obtain ⟨hpb, hps⟩ := hmade.prices e he
      refine ⟨r, hrx, by rw [hm.symbol]; exact hrs, by rw [hod]; exact hrd,
        Or.inr (Or.inr ⟨hm.created, hm.limit, hm.type, ?_, n, Or.inl ⟨kw.2, ?_, ?_, ?_, ?_⟩⟩)⟩
      · have key : ∀ f, (b.env.fetch e.symbol f).getD 0 ≠ 0 →
            PriceOn x r f ((b.env.fetch e.symbol f).getD 0) := by
          intro f hf0
          rcases hbf : b.env.fetch e.symbol f with _ | y
          · rw [hbf] at hf0; exact absurd rfl hf0
          · exact hp1 f y hbf
        have hfe : b.env.fetch = x.priceAt (x.store (x.testDates kw.1))
            (x.idxOn (x.testDates kw.1) (selectedSymbols es) d) := by rw [hmade.env]; rfl
        rw [hfe] at key
        rw [hm.market] at hno ⊢
        cases hos : o.side
        · rw [hos] at hno
          simp only at hno ⊢
          rw [hpb] at hno ⊢
          exact key _ hno
        · rw [hos] at hno
          simp only at hno ⊢
          rw [hps] at hno ⊢
          exact key _ hno
      · rw [hm.symbol, hod]; exact hin
      · exact (RunSetup.exitDate_last (by simpa using hlast)).1
      · rw [hm.symbol, hod]; exact (RunSetup.exitDate_last (by simpa using hlast)).2
      · rw [hn, hm.symbol, hm.market, hsl]
    · rcases hop with rfl | hop
      · exact hm.elim
      · cases hop

/-! ## C120 -/

namespace Spec

/-- The data have lows and highs, and opens and closes are between them. -/
structure SaneBars (cols : List String) (rows : List DRow) : Prop where
  low : "low" ∈ cols
  high : "high" ∈ cols
  range : ∀ r ∈ rows, ∃ l h, r.val "low" = some l ∧ r.val "high" = some h ∧ l ≤ h ∧
    (∀ v, r.val "open" = some v → l ≤ v ∧ v ≤ h) ∧ ∀ v, r.val "close" = some v → l ≤ v ∧ v ≤ h

/-- A price of the bar, neither an amount nor a function. -/
def OfBar (f : FillSpec) : Prop := ∃ t, f = .price t

/-- The price is in the range of the bar, in cents if prices are rounded. -/
def InRange (round : Bool) (r : DRow) (p : ℚ) : Prop :=
  ∃ l h, r.val "low" = some l ∧ r.val "high" = some h ∧
    (if round then roundCents l else l) ≤ p ∧ p ≤ (if round then roundCents h else h)

/-- All fill prices of a run are prices of the bar. -/
structure BarFills (results : List ExecResult) (exitCover exitSell : FillSpec) : Prop where
  buy : ∀ q ∈ results, q.buyShares ≠ none → OfBar q.buyFill
  sell : ∀ q ∈ results, q.sellShares ≠ none → OfBar q.sellFill
  stops : ∀ q ∈ results, ∀ st ∈ orderStops q, ∀ f, st.fillPrice = some f → OfBar f
  cover : OfBar exitCover
  close : OfBar exitSell

end Spec

theorem shown_mono (x : RunSetup) {a b : ℚ} (h : a ≤ b) : shown x a ≤ shown x b := by
  unfold shown
  split
  · exact roundCents_mono h
  · exact h

/-- Any price type of a sane bar is in its range. -/
theorem priceOn_range {x : RunSetup} (hs : SaneBars x.cols x.rows) {r : DRow} (hr : r ∈ x.rows)
    {f : FillSpec} (hf : OfBar f) {y : ℚ} (h : PriceOn x r f y) : InRange x.round r y := by
  obtain ⟨l, hi, hl, hh, hle, ho, hc⟩ := hs.range r hr
  obtain ⟨t, rfl⟩ := hf
  obtain ⟨h⟩ := h
  rename_i v
  suffices hv : l ≤ v ∧ v ≤ hi from
    ⟨l, hi, hl, hh, shown_mono x hv.1, shown_mono x hv.2⟩
  have hl' : rowCell x r "low" = some (some l) := by
    unfold rowCell; rw [if_pos hs.low, hl]
  have hh' : rowCell x r "high" = some (some hi) := by
    unfold rowCell; rw [if_pos hs.high, hh]
  have cell : ∀ {c : String} {u : Cell}, rowCell x r c = some u → r.val c = u := by
    intro c u hc
    unfold rowCell at hc
    split at hc
    · exact Option.some.inj hc
    · cases hc
  cases t with
  | «open» => exact ho v (cell h)
  | close => exact hc v (cell h)
  | low =>
    have : v = l := by rw [show price (rowCell x r) .low = rowCell x r "low" from rfl, hl'] at h; simpa using h.symm
    rw [this]; exact ⟨le_rfl, hle⟩
  | high =>
    have : v = hi := by rw [show price (rowCell x r) .high = rowCell x r "high" from rfl, hh'] at h; simpa using h.symm
    rw [this]; exact ⟨hle, le_rfl⟩
  | middle =>
    obtain ⟨m, h1, h2, h3, _⟩ := (mixed_prices_in_range hl' hh' hle).1
    rw [h1] at h
    have : m = v := by simpa using h
    rw [← this]; exact ⟨h2, h3⟩
  | average =>
    have hoc : ∃ o c, rowCell x r "open" = some (some o) ∧ rowCell x r "close" = some (some c) := by
      unfold price at h
      simp only at h
      split at h
      · rename_i o _ _ c e1 e2 e3 e4
        have hm := Option.some.inj h
        unfold Spec.mean at hm
        split at hm
        · rename_i hall
          simp only [List.all_cons, List.all_nil, Bool.and_true, Bool.and_eq_true] at hall
          obtain ⟨o', ho'⟩ := Option.isSome_iff_exists.1 hall.1
          obtain ⟨c', hc'⟩ := Option.isSome_iff_exists.1 hall.2.2.2
          exact ⟨o', c', by rw [e1, ho'], by rw [e4, hc']⟩
        · cases hm
      · cases h
    obtain ⟨o, c, e1, e2⟩ := hoc
    obtain ⟨o1, o2⟩ := ho o (cell e1)
    obtain ⟨c1, c2⟩ := hc c (cell e2)
    obtain ⟨m, h1, h2, h3, _⟩ := (mixed_prices_in_range hl' hh' hle).2 o c e1 e2 o1 o2 c1 c2
    rw [h1] at h
    have : m = v := by simpa using h
    rw [← this]; exact ⟨h2, h3⟩

/-- **C120.**  When all fill prices are prices of the bar, the market price of every order is in
the range of the bar it is filled on; without slippage, so is the price paid, and so are the entry
and exit price of every trade on the bars of its entry and exit. -/
theorem fills_in_range {x : RunSetup} (hok : SetupOK x) {st : RunSetup.State} (h : x.run = .ok st)
    (hres : ResultsOK st.results) (hsane : SaneBars x.cols x.rows)
    (hfills : BarFills st.results x.exitCover x.exitSell) (h0 : NoPriceOfNone x) :
    (∀ o ∈ st.loop.pf.orders, ∃ r ∈ x.rows, r.symbol = o.symbol ∧ r.date = o.date ∧
      InRange x.round r o.marketPrice) ∧
    ((∀ k d, x.orderSlip k d = none) → (∀ k d, x.exitSlip k d = none) → (∀ k, x.dropSlip k = none) →
      (∀ o ∈ st.loop.pf.orders, ∃ r ∈ x.rows, r.symbol = o.symbol ∧ r.date = o.date ∧
        InRange x.round r o.fillPrice) ∧
      ∀ t ∈ st.loop.pf.trades,
        (∃ r ∈ x.rows, r.symbol = t.symbol ∧ r.date = t.entryDate ∧ InRange x.round r t.entry) ∧
        ∃ r ∈ x.rows, r.symbol = t.symbol ∧ r.date = t.exitDate ∧ InRange x.round r t.exit) := by
  have src := orders_have_source hok h hres h0
  have market : ∀ o r, r ∈ x.rows → HasSource x st.results o r → InRange x.round r o.marketPrice := by
    intro o r hr hso
    rcases hso with ⟨q, hq, hs⟩ | ⟨q, hq, s, hs⟩ | hs
    · rcases hs.asked with ⟨_, n, hn, _, _, hp⟩ | ⟨_, _, n, hn, _, _, hp⟩
      · exact priceOn_range hsane hr (hfills.buy q hq (by rw [hn]; exact Option.some_ne_none n)) hp
      · exact priceOn_range hsane hr (hfills.sell q hq (by rw [hn]; exact Option.some_ne_none n)) hp
    · by_cases hb : s.stopType = .bar
      · refine priceOn_range hsane hr ?_ (hs.price.bar hb)
        rcases hf : s.fillPrice with _ | f
        · exact ⟨.middle, rfl⟩
        · exact hfills.stops q hq s hs.carried f hf
      · rcases he : s.exitPrice with _ | t
        · obtain ⟨l, hi, hl, hh, hle, _, _⟩ := hsane.range r hr
          have e1 : PriceOn x r (.price .low) (shown x l) := .type (by
            show rowCell x r "low" = _
            unfold rowCell; rw [if_pos hsane.low, hl])
          have e2 : PriceOn x r (.price .high) (shown x hi) := .type (by
            show rowCell x r "high" = _
            unfold rowCell; rw [if_pos hsane.high, hh])
          obtain ⟨h1, h2⟩ := hs.price.level hb he _ _ e1 e2 (shown_mono x hle)
          exact ⟨l, hi, hl, hh, h1, h2⟩
        · exact priceOn_range hsane hr ⟨t, rfl⟩ (hs.price.exit hb t he)
    · refine priceOn_range hsane hr ?_ hs.price
      cases o.side
      · exact hfills.cover
      · exact hfills.close
  refine ⟨fun o ho => ?_, fun n1 n2 n3 => ?_⟩
  · obtain ⟨r, hr, h1, h2, h3⟩ := src o ho
    exact ⟨r, hr, h1, h2, market o r hr h3⟩
  · have fill : ∀ o ∈ st.loop.pf.orders, ∃ r ∈ x.rows, r.symbol = o.symbol ∧ r.date = o.date ∧
        InRange x.round r o.fillPrice := by
      intro o ho
      obtain ⟨r, hr, h1, h2, h3⟩ := src o ho
      refine ⟨r, hr, h1, h2, ?_⟩
      have hm := market o r hr h3
      have : o.fillPrice = o.marketPrice := by
        rcases h3 with ⟨q, hq, hs⟩ | ⟨q, hq, s, hs⟩ | hs
        · obtain ⟨k, _, hp⟩ := hs.paid
          rw [n1] at hp
          exact hp
        · obtain ⟨k, _, hp⟩ := hs.paid
          rw [hp, n2]
          unfold slipPrice
          simp
        · obtain ⟨n, ⟨k, _, _, _, hp⟩ | ⟨k, _, _, _, _, hp⟩⟩ := hs.paid
          · rw [hp, n2]; rfl
          · rw [hp, n3]; rfl
      rw [this]
      exact hm
    refine ⟨fill, fun t ht => ?_⟩
    obtain ⟨i, j, a, b, _, hi, hj, ha, hb⟩ := (run_explained hok h hres).1 t ht
    constructor
    · obtain ⟨r, hr, h1, h2, h3⟩ := fill a (List.mem_of_getElem? hi)
      exact ⟨r, hr, h1.trans ha.symbol, h2.trans ha.date, by rw [← ha.price]; exact h3⟩
    · obtain ⟨r, hr, h1, h2, h3⟩ := fill b (List.mem_of_getElem? hj)
      exact ⟨r, hr, h1.trans hb.symbol, h2.trans hb.date, by rw [← hb.price]; exact h3⟩

open Classical in
/-- **C120.**  The same for a call without slippage: every order is filled in the range of a bar of
its symbol and date that the data source has and the call asks for. -/
theorem call_fills_in_range {s : StrategyObj} (hb : Built s) (hsrc : Answers s.source) {u : UserCode}
    {c : RunCall} (hord : OrdersOf u c) (hsize : c.trainSize ≤ 1) {st : RunSetup.State}
    (h : s.walkforward u c = .ok st) (hres : ResultsOK st.results)
    (hsane : SaneBars u.cols (sourceRows s.source (StrategySymbols s) s.start s.stop))
    (hfills : BarFills st.results s.config.exitCover s.config.exitSell)
    (n1 : ∀ k d, u.orderSlip k d = none) (n2 : ∀ k d, u.exitSlip k d = none)
    (n3 : ∀ k, u.dropSlip k = none) :
    ∀ o ∈ st.loop.pf.orders, ∃ r ∈ sourceRows s.source (StrategySymbols s) s.start s.stop,
      CallRow s c r ∧ r.symbol = o.symbol ∧ r.date = o.date ∧
      InRange s.config.roundFill r o.fillPrice := by
  obtain ⟨set, x, _, has, hrows, hok, hx⟩ := call_runs hb hsrc hord hsize h
  have hs : SaneBars x.cols x.rows := by
    refine ⟨by rw [has.cols]; exact hsane.low, by rw [has.cols]; exact hsane.high, fun r hr => ?_⟩
    rw [hrows] at hr
    exact hsane.range r (List.mem_filter.1 hr).1
  have h0 : NoPriceOfNone x := by
    rintro f (⟨k, d, hf⟩ | ⟨k, hf⟩)
    · rw [has.exitSlip, n2] at hf; cases hf
    · rw [has.dropSlip, n3] at hf; cases hf
  have hf : BarFills st.results x.exitCover x.exitSell := by
    rw [has.exitCover, has.exitSell]; exact hfills
  intro o ho
  obtain ⟨r, hr, h1, h2, h3⟩ := ((fills_in_range hok hx hres hs hf h0).2
    (by rw [has.orderSlip]; exact n1) (by rw [has.exitSlip]; exact n2)
    (by rw [has.dropSlip]; exact n3)).1 o ho
  rw [hrows] at hr
  obtain ⟨hr, hc⟩ := List.mem_filter.1 hr
  rw [has.round] at h3
  exact ⟨r, hr, by simpa using hc, h1, h2, h3⟩

/-! ## Non-vacuity -/

namespace Demo

/-- A bar with an open, high, low and close. -/
def prRow (sym : Sym) (d : Date) (o h l c : ℚ) : DRow :=
  ⟨sym, d, fun n => if n = "open" then some o else if n = "high" then some h
    else if n = "low" then some l else some c⟩

def prRows : List DRow :=
  [prRow "AAA" 1 100 102 99 101, prRow "BBB" 1 20 21 19 20, prRow "AAA" 2 101 103 100 102,
   prRow "BBB" 2 20 22 20 21, prRow "AAA" 3 87 88 (171 / 2) 86, prRow "BBB" 3 21 23 21 22,
   prRow "AAA" 4 86 89 85 88, prRow "BBB" 4 22 24 22 (93 / 4)]

/-- Buys `AAA` at the open with a stop, and sells `BBB` short. -/
def prAct (_ : Nat) (d : Date) (_ : Sym → Option SymArrays) (_ : Loop) (_ : List Sym) :
    List UserOp × (Sym → Option ExecResult) :=
  ([], fun s =>
    if s = "AAA" ∧ d = 1 then
      some { symbol := s, date := d, buyShares := some 10, buyFill := .price .open,
             longStops := [{ lossStop with id := 7 }] }
    else if s = "BBB" ∧ d = 2 then
      some { symbol := s, date := d, sellShares := some 5, sellFill := .price .average }
    else none)

def prRun : RunSetup :=
  { drRun with rows := prRows, windows := 1, exitCover := .price .close, act := prAct }

theorem prRun_ok : SetupOK prRun where
  unique := by show UniqueBars prRows; unfold UniqueBars prRows; decide +kernel
  buyDelay := le_refl 1
  sellDelay := le_refl 1
  size := by norm_num [prRun, drRun]
  iter := fun l => List.Perm.refl l
  shuffle := fun l => List.Perm.refl l

theorem prRun_run : prRun.run = .ok (drEnd prRun) := ok_okR (by decide +kernel)

theorem prRun_results : ResultsOK (drEnd prRun).results := by
  have h : (∀ r ∈ (drEnd prRun).results, (∀ st ∈ r.longStops, st.posType = .long ∧ st.symbol = r.symbol) ∧
      ∀ st ∈ r.shortStops, st.posType = .short ∧ st.symbol = r.symbol) ∧
      (∀ r ∈ (drEnd prRun).results, r.buyShares = none ∨ r.sellShares = none) ∧
      (((drEnd prRun).results.flatMap (fun r => r.longStops ++ r.shortStops)).map Stop.id).Nodup := by
    decide +kernel
  exact ⟨h.1, h.2.1, h.2.2⟩

theorem prRun_sane : SaneBars prRun.cols prRun.rows where
  low := by decide
  high := by decide
  range := by
    intro r hr
    have hr : r ∈ prRows := hr
    simp only [prRows, List.mem_cons, List.not_mem_nil, or_false] at hr
    have key : ∀ sym d (o h l c : ℚ), l ≤ o → o ≤ h → l ≤ c → c ≤ h →
        ∃ l' h', (prRow sym d o h l c).val "low" = some l' ∧
          (prRow sym d o h l c).val "high" = some h' ∧ l' ≤ h' ∧
          (∀ v, (prRow sym d o h l c).val "open" = some v → l' ≤ v ∧ v ≤ h') ∧
          ∀ v, (prRow sym d o h l c).val "close" = some v → l' ≤ v ∧ v ≤ h' := by
      intro sym d o h l c h1 h2 h3 h4
      refine ⟨l, h, rfl, rfl, h1.trans h2, fun v hv => ?_, fun v hv => ?_⟩
      · have hv : o = v := Option.some.inj hv
        exact hv ▸ ⟨h1, h2⟩
      · have hv : c = v := Option.some.inj hv
        exact hv ▸ ⟨h3, h4⟩
    rcases hr with rfl | rfl | rfl | rfl | rfl | rfl | rfl | rfl <;>
      exact key _ _ _ _ _ _ (by norm_num) (by norm_num) (by norm_num) (by norm_num)

theorem prRun_fills : BarFills (drEnd prRun).results prRun.exitCover prRun.exitSell := by
  have hall : (drEnd prRun).results.all (fun q =>
      (match q.buyFill with | .price _ => true | _ => false) &&
      (match q.sellFill with | .price _ => true | _ => false) &&
      (orderStops q).all (fun st => st.fillPrice.isNone)) = true := by decide +kernel
  have hof : ∀ f : FillSpec, (match f with | .price _ => true | _ => false) = true → OfBar f := by
    intro f hf
    cases f with
    | price t => exact ⟨t, rfl⟩
    | amount q => cases hf
    | callable k => cases hf
  rw [List.all_eq_true] at hall
  refine ⟨?_, ?_, ?_, ⟨.close, rfl⟩, ⟨.middle, rfl⟩⟩
  · intro q hq _
    have := hall q hq
    simp only [Bool.and_eq_true] at this
    exact hof _ this.1.1
  · intro q hq _
    have := hall q hq
    simp only [Bool.and_eq_true] at this
    exact hof _ this.1.2
  · intro q hq st hst f hf
    have := hall q hq
    simp only [Bool.and_eq_true, List.all_eq_true] at this
    have := this.2 st hst
    rw [hf] at this
    cases this

theorem prRun_none : NoPriceOfNone prRun := by
  rintro f (⟨k, d, hf⟩ | ⟨k, hf⟩) <;> cases hf

end Demo

/-- A signal, a stop and a forced exit: orders at the open, at the end of a bar that opened beyond
the stop, at the average price and at the close, in cents. -/
example : (Demo.drEnd Demo.prRun).loop.pf.orders.map
    (fun o => (o.date, o.symbol, o.side, o.orderType, o.fillPrice)) =
    [(2, "AAA", .buy, .market, 101), (3, "AAA", .sell, .stopLoss, 88),
     (3, "BBB", .sell, .market, 87 / 4), (4, "BBB", .buy, .market, 93 / 4)] := by decide +kernel

example := orders_have_source Demo.prRun_ok Demo.prRun_run Demo.prRun_results Demo.prRun_none

example := (fills_in_range Demo.prRun_ok Demo.prRun_run Demo.prRun_results Demo.prRun_sane
  Demo.prRun_fills Demo.prRun_none).2 (fun _ _ => rfl) (fun _ _ => rfl) (fun _ => rfl)

example := call_fills_in_range Demo.enStrategy_built trivial Demo.enOrders
  (by norm_num [Demo.enCall]) Demo.enRun Demo.enResults
  ⟨by decide, by decide, by
    intro r hr
    have hr : r ∈ Demo.drRows := hr
    have : ∃ sym d p, r = Demo.drRow sym d p := by
      simp only [Demo.drRows, List.mem_cons, List.not_mem_nil, or_false] at hr
      rcases hr with h | h | h | h | h | h | h | h | h | h | h <;> exact ⟨_, _, _, h⟩
    obtain ⟨sym, d, p, rfl⟩ := this
    refine ⟨p, p, rfl, rfl, le_rfl, fun v hv => ?_, fun v hv => ?_⟩ <;>
    · have hv : p = v := Option.some.inj hv
      exact hv ▸ ⟨le_rfl, le_rfl⟩⟩
  (by
    have hall : Demo.enEnd.results.all (fun q =>
        decide (q.buyFill = .price .middle) && decide (q.sellFill = .price .middle) &&
        (orderStops q).all (fun st => st.fillPrice.isNone)) = true := by decide +kernel
    rw [List.all_eq_true] at hall
    refine ⟨fun q hq _ => ?_, fun q hq _ => ?_, fun q hq st hst f hf => ?_, ⟨.middle, rfl⟩,
      ⟨.middle, rfl⟩⟩
    · have := hall q hq
      simp only [Bool.and_eq_true, decide_eq_true_eq] at this
      exact ⟨_, this.1.1⟩
    · have := hall q hq
      simp only [Bool.and_eq_true, decide_eq_true_eq] at this
      exact ⟨_, this.1.2⟩
    · have := hall q hq
      simp only [Bool.and_eq_true, List.all_eq_true] at this
      have := this.2 st hst
      rw [hf] at this
      cases this)
  (fun _ _ => rfl) (fun _ _ => rfl) (fun _ => rfl)

end PyBroker
