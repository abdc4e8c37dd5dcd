import Verif.Portfolio.Units
import Mathlib.Data.List.Dedup

/-!
# Other names (helper lemmas)

Every symbol of a portfolio renamed by `ρ`, and the methods of the portfolio on it.
-/

namespace PyBroker

/-! ## Renamed symbols -/

/-- A stop with its symbol renamed. -/
def Stop.rename (ρ : Sym → Sym) (st : Stop) : Stop := { st with symbol := ρ st.symbol }

/-- An entry with its symbol renamed. -/
def Entry.rename (ρ : Sym → Sym) (e : Entry) : Entry :=
  { e with symbol := ρ e.symbol, stops := e.stops.map (Stop.rename ρ) }

/-- A position with its symbol renamed. -/
def Position.rename (ρ : Sym → Sym) (p : Position) : Position :=
  { p with symbol := ρ p.symbol, entries := p.entries.map (Entry.rename ρ) }

/-- A trade with its symbol renamed. -/
def Trade.rename (ρ : Sym → Sym) (t : Trade) : Trade := { t with symbol := ρ t.symbol }

/-- An order with its symbol renamed. -/
def Order.rename (ρ : Sym → Sym) (o : Order) : Order := { o with symbol := ρ o.symbol }

/-- The record of a stop with its symbol renamed. -/
def StopData.rename (ρ : Sym → Sym) (d : StopData) : StopData := { d with stop := d.stop.rename ρ }

/-- The active stops of a symbol with the symbol renamed. -/
def activeRename (ρ : Sym → Sym) (x : Sym × List Nat) : Sym × List Nat := (ρ x.1, x.2)

/-- A portfolio with all symbols renamed. -/
def Portfolio.rename (ρ : Sym → Sym) (s : Portfolio) : Portfolio :=
  { s with
    longs := s.longs.map (Position.rename ρ)
    shorts := s.shorts.map (Position.rename ρ)
    symbols := s.symbols.map ρ
    orders := s.orders.map (Order.rename ρ)
    trades := s.trades.map (Trade.rename ρ)
    stopData := s.stopData.map (StopData.rename ρ)
    active := s.active.map (activeRename ρ) }

/-- The request of an order with its symbol renamed. -/
def OrderReq.rename (ρ : Sym → Sym) (r : OrderReq) : OrderReq :=
  { r with symbol := ρ r.symbol, stops := r.stops.map (Stop.rename ρ) }

/-- A stop to evaluate with its symbol renamed. -/
def StopCheck.rename (ρ : Sym → Sym) (c : StopCheck) : StopCheck :=
  { c with symbol := ρ c.symbol, stop := c.stop.rename ρ }

/-- The renaming keeps the order of the names in a list. -/
def Spec.KeepsOrder (ρ : Sym → Sym) (names : List Sym) : Prop :=
  ∀ a ∈ names, ∀ b ∈ names, (ρ a ≤ ρ b ↔ a ≤ b)

/-- The same fee mode: a function of the user gives the same fee for the renamed symbol. -/
def Spec.RenamedFee (ρ : Sym → Sym) : Option FeeMode → Option FeeMode → Prop
  | some (.custom f), some (.custom g) => ∀ i : FeeInfo, g { i with symbol := ρ i.symbol } = f i
  | some (.custom _), _ => False
  | m, m' => m' = m

/-- The same settings of the portfolio. -/
structure Spec.RenamedConfig (ρ : Sym → Sym) (cfg cfg' : Config) : Prop where
  cash : cfg'.cash = cfg.cash
  feeMode : RenamedFee ρ cfg.feeMode cfg'.feeMode
  feeAmount : cfg'.feeAmount = cfg.feeAmount
  fractional : cfg'.fractional = cfg.fractional
  positionMode : cfg'.positionMode = cfg.positionMode
  maxLong : cfg'.maxLong = cfg.maxLong
  maxShort : cfg'.maxShort = cfg.maxShort
  leverage : cfg'.leverage = cfg.leverage
  interestRate : cfg'.interestRate = cfg.interestRate
  barsPerYear : cfg'.barsPerYear = cfg.barsPerYear

/-- The same slippage for the renamed symbol. -/
def Spec.RenamedSlip (ρ : Sym → Sym) : Option SlipFn → Option SlipFn → Prop
  | none, none => True
  | some f, some g => ∀ side sym n q, g side (ρ sym) n q = f side sym n q
  | _, _ => False

/-- The same prices for the renamed symbol. -/
structure Spec.RenamedStopEnv (ρ : Sym → Sym) (e e' : StopEnv) : Prop where
  canPrice : ∀ s, e'.canPrice (ρ s) = e.canPrice s
  fetchFloat : ∀ s t, e'.fetchFloat (ρ s) t = e.fetchFloat s t
  fetch : ∀ s f, e'.fetch (ρ s) f = e.fetch s f
  slip : RenamedSlip ρ e.slip e'.slip

open PyBroker.Spec

theorem renamed_feeSome {ρ : Sym → Sym} {cfg cfg' : Config} (hc : RenamedConfig ρ cfg cfg') :
    cfg'.feeMode.isSome = cfg.feeMode.isSome := by
  have h := hc.feeMode
  cases h1 : cfg.feeMode with
  | none => rw [h1] at h; rw [show cfg'.feeMode = none from h]
  | some m =>
    rw [h1] at h
    cases m with
    | custom f =>
      cases h2 : cfg'.feeMode with
      | none => rw [h2] at h; exact absurd h id
      | some m' => rfl
    | _ => rw [show cfg'.feeMode = some _ from h]

theorem calculateFees_rename {ρ : Sym → Sym} {cfg cfg' : Config} (hc : RenamedConfig ρ cfg cfg')
    (sym : Sym) (fill shares : ℚ) (side : Side) :
    calculateFees cfg' (ρ sym) fill shares side = calculateFees cfg sym fill shares side := by
  have h := hc.feeMode
  unfold calculateFees
  rw [hc.feeAmount]
  cases h1 : cfg.feeMode with
  | none => rw [h1] at h; rw [show cfg'.feeMode = none from h]
  | some m =>
    rw [h1] at h
    cases m with
    | custom f =>
      cases h2 : cfg'.feeMode with
      | none => rw [h2] at h; exact absurd h id
      | some m' =>
        rw [h2] at h
        cases m' with
        | custom g =>
          cases cfg.feeAmount with
          | none => rfl
          | some a => exact h ⟨sym, shares, fill, side⟩
        | _ => exact absurd h id
    | _ =>
      rw [show cfg'.feeMode = some _ from h]
      cases cfg.feeAmount <;> rfl

/-! ## Books -/

section
variable {ρ : Sym → Sym}

@[simp] theorem Position.rename_symbol (p : Position) : (p.rename ρ).symbol = ρ p.symbol := rfl
@[simp] theorem Position.rename_type (p : Position) : (p.rename ρ).type = p.type := rfl
@[simp] theorem Position.rename_shares (p : Position) : (p.rename ρ).shares = p.shares := rfl
@[simp] theorem Entry.rename_id (e : Entry) : (e.rename ρ).id = e.id := rfl
@[simp] theorem Entry.rename_shares (e : Entry) : (e.rename ρ).shares = e.shares := rfl
@[simp] theorem Stop.rename_id (st : Stop) : (st.rename ρ).id = st.id := rfl

theorem book_rename (s : Portfolio) (pt : PosType) :
    (s.rename ρ).book pt = (s.book pt).map (Position.rename ρ) := by cases pt <;> rfl

theorem setBook_rename (s : Portfolio) (pt : PosType) (ps : List Position) :
    (s.rename ρ).setBook pt (ps.map (Position.rename ρ)) = (s.setBook pt ps).rename ρ := by
  cases pt <;> rfl

/-! ## Valuation -/

theorem newestNotional_rename (es : List Entry) (rem : ℚ) :
    newestNotional (es.map (Entry.rename ρ)) rem = newestNotional es rem := by
  induction es generalizing rem with
  | nil => rfl
  | cons e es ih =>
    simp only [List.map_cons, newestNotional, Entry.rename_shares, ih]
    rfl

theorem clampUnmarked_rename (p : Position) : (p.rename ρ).clampUnmarked = p.clampUnmarked.rename ρ := by
  simp only [Position.clampUnmarked]
  have h : newestNotional (p.rename ρ).entries.reverse p.shares
      = newestNotional p.entries.reverse p.shares := by
    rw [← newestNotional_rename (ρ := ρ) p.entries.reverse p.shares, List.map_reverse]; rfl
  have hu : (p.rename ρ).unmarkedShares = p.unmarkedShares := rfl
  simp only [Position.rename_shares, h, hu]
  split_ifs <;> rfl

theorem sumMarked_rename (ps : List Position) :
    sumMarked (ps.map (Position.rename ρ)) = sumMarked ps := by
  simp only [sumMarked, List.map_map]
  rfl

/-- A number and a portfolio with its symbols renamed. -/
def pairRename {α : Type} (ρ : Sym → Sym) (x : α × Portfolio) : α × Portfolio := (x.1, x.2.rename ρ)

theorem longMarketValue_rename (s : Portfolio) :
    (s.rename ρ).longMarketValue = pairRename ρ s.longMarketValue := by
  unfold Portfolio.longMarketValue
  have e : sumMarked (s.rename ρ).longs = sumMarked s.longs := sumMarked_rename _
  rw [show (s.rename ρ).cachedLongMv = s.cachedLongMv from rfl, e]
  cases s.cachedLongMv <;> rfl

theorem shortMarketValue_rename (s : Portfolio) :
    (s.rename ρ).shortMarketValue = pairRename ρ s.shortMarketValue := by
  unfold Portfolio.shortMarketValue
  have e : sumMarked (s.rename ρ).shorts = sumMarked s.shorts := sumMarked_rename _
  rw [show (s.rename ρ).cachedShortMv = s.cachedShortMv from rfl, e]
  cases s.cachedShortMv <;> rfl

theorem sweepAccrued_rename (s : Portfolio) : (s.rename ρ).sweepAccrued = s.sweepAccrued.rename ρ := by
  have h1 : (s.rename ρ).accrued = s.accrued := rfl
  have h2 : (s.rename ρ).cash = s.cash := rfl
  simp only [Portfolio.sweepAccrued, h1, h2]
  split_ifs <;> rfl

theorem addTrade_rename (s : Portfolio) (t : Trade) :
    (s.rename ρ).addTrade (t.rename ρ) = (s.addTrade t).rename ρ := by
  simp [Portfolio.addTrade, Portfolio.rename, Trade.rename]

/-! ## Logs and stops -/

theorem lookupStop_rename (ds : List StopData) (id : Nat) :
    lookupStop (ds.map (StopData.rename ρ)) id = (lookupStop ds id).map (StopData.rename ρ) := by
  induction ds with
  | nil => rfl
  | cons d ds ih =>
    simp only [List.map_cons, lookupStop]
    rw [show (d.rename ρ).stop.id = d.stop.id from rfl]
    by_cases h : d.stop.id = id <;> simp [h, ih]

theorem eraseStop_rename (ds : List StopData) (id : Nat) :
    eraseStop (ds.map (StopData.rename ρ)) id = (eraseStop ds id).map (StopData.rename ρ) := by
  induction ds with
  | nil => rfl
  | cons d ds ih =>
    simp only [List.map_cons, eraseStop]
    rw [show (d.rename ρ).stop.id = d.stop.id from rfl]
    by_cases h : d.stop.id = id <;> simp [h, ih]

theorem setStopValue_rename (ds : List StopData) (id : Nat) (v : Option ℚ) :
    setStopValue (ds.map (StopData.rename ρ)) id v = (setStopValue ds id v).map (StopData.rename ρ) := by
  induction ds with
  | nil => rfl
  | cons d ds ih =>
    simp only [List.map_cons, setStopValue]
    rw [show (d.rename ρ).stop.id = d.stop.id from rfl]
    by_cases h : d.stop.id = id
    · simp only [h, if_true, List.map_cons]; rfl
    · simp only [h, if_false, List.map_cons, ih]

theorem modEntry_rename (id : Nat) (f g : Entry → Entry) (h : ∀ e, g (e.rename ρ) = (f e).rename ρ)
    (es : List Entry) : modEntry id g (es.map (Entry.rename ρ)) = (modEntry id f es).map (Entry.rename ρ) := by
  induction es with
  | nil => rfl
  | cons e es ih =>
    simp only [List.map_cons, modEntry, Entry.rename_id]
    by_cases he : e.id = id <;> simp [he, ih, h]

theorem takeShares_rename (p : Position) (e : Entry) (n : ℚ) :
    (p.rename ρ).takeShares (e.rename ρ) n = (p.takeShares e n).rename ρ := by
  unfold Position.takeShares
  rw [← clampUnmarked_rename]
  congr 1
  have h := modEntry_rename (ρ := ρ) e.id (fun e' => { e' with shares := e'.shares - n })
    (fun e' => { e' with shares := e'.shares - n }) (fun _ => rfl) p.entries
  simp only [Position.rename, Position.mk.injEq, true_and, and_true, Entry.rename_id]
  exact ⟨h, rfl⟩

/-- A portfolio and a position with their symbols renamed. -/
def exitRename (ρ : Sym → Sym) (x : Portfolio × Position) : Portfolio × Position :=
  (x.1.rename ρ, x.2.rename ρ)

/-- The result of a loop of exits with its symbols renamed. -/
def ExitResult.rename (ρ : Sym → Sym) (r : ExitResult) : ExitResult := ⟨r.rem, r.pf.rename ρ, r.pos.rename ρ⟩

/-- The result of an order with its symbols renamed. -/
def OrderResult.rename (ρ : Sym → Sym) (r : OrderResult) : OrderResult := ⟨r.filled, r.rem, r.pf.rename ρ⟩

/-- The order placed, if any, and the portfolio with their symbols renamed. -/
def placedRename (ρ : Sym → Sym) (x : Option Order × Portfolio) : Option Order × Portfolio :=
  (x.1.map (Order.rename ρ), x.2.rename ρ)

theorem calcPnl_rename (p : Position) (c : ℚ) (lo hi : Option ℚ) :
    (p.rename ρ).calcPnl c lo hi = (p.calcPnl c lo hi).rename ρ := by
  simp only [Position.calcPnl, Position.rename, List.map_map, Position.mk.injEq, true_and, and_true]
  exact ⟨rfl, rfl⟩

theorem markLong_rename (p : Position) (c : ℚ) (lo hi : Option ℚ) :
    (p.rename ρ).markLong c lo hi = (p.markLong c lo hi).rename ρ := by
  unfold Position.markLong
  simp only [calcPnl_rename]
  rfl

theorem markShort_rename (p : Position) (c : ℚ) (lo hi : Option ℚ) :
    (p.rename ρ).markShort c lo hi = (p.markShort c lo hi).rename ρ := by
  unfold Position.markShort
  simp only [calcPnl_rename]
  rfl

/-- The accumulators of a capture with symbols renamed. -/
def CaptureAcc.rename (ρ : Sym → Sym) (a : CaptureAcc) : CaptureAcc :=
  ⟨a.pf.rename ρ, a.equity, a.marketValue, a.margin, a.longValue⟩

theorem incrBars_rename (s : Portfolio) (hb hb' : Sym → Bool) (h : ∀ x, hb' (ρ x) = hb x) :
    incrBars (s.rename ρ) hb' = (incrBars s hb).rename ρ := by
  have h : ∀ p : Position, (p.rename ρ).incrBars hb' = (p.incrBars hb).rename ρ := fun p => by
    simp only [Position.incrBars, Position.rename, List.map_map, Position.mk.injEq, true_and, and_true, h]
    apply List.map_congr_left
    intro e _
    rfl
  simp only [incrBars, Portfolio.rename, List.map_map, Portfolio.mk.injEq, true_and, and_true]
  exact ⟨List.map_congr_left (fun p _ => h p), List.map_congr_left (fun p _ => h p)⟩

theorem findEntry_rename (es : List Entry) (id : Nat) :
    findEntry (es.map (Entry.rename ρ)) id = (findEntry es id).map (Entry.rename ρ) := by
  simp only [findEntry]
  rw [List.find?_map]
  rfl

theorem eraseEntry_rename (es : List Entry) (id : Nat) :
    eraseEntry (es.map (Entry.rename ρ)) id = (eraseEntry es id).map (Entry.rename ρ) := by
  induction es with
  | nil => rfl
  | cons e es ih =>
    simp only [List.map_cons, eraseEntry, Entry.rename_id]
    by_cases h : e.id = id <;> simp [h, ih]

theorem modEntryBook_rename (id : Nat) (f g : Entry → Entry)
    (h : ∀ e, g (e.rename ρ) = (f e).rename ρ) (ps : List Position) :
    modEntryBook id g (ps.map (Position.rename ρ)) = (modEntryBook id f ps).map (Position.rename ρ) := by
  simp only [modEntryBook, List.map_map]
  apply List.map_congr_left
  intro p _
  simp only [Function.comp, Position.rename, modEntry_rename id f g h]

theorem dropStopEntries_rename (id : Nat) (es : List Entry) :
    dropStopEntries id (es.map (Entry.rename ρ)) =
      ((dropStopEntries id es).1.map (Entry.rename ρ), (dropStopEntries id es).2) := by
  induction es with
  | nil => rfl
  | cons e es ih =>
    have h1 : (e.rename ρ).stops = e.stops.map (Stop.rename ρ) := rfl
    have h2 : ((fun st : Stop => decide (st.id = id)) ∘ Stop.rename ρ) = fun st => decide (st.id = id) := rfl
    simp only [List.map_cons, dropStopEntries, h1, ih, List.any_map, h2]
    split
    · simp only [List.map_cons, Prod.mk.injEq, and_true, List.cons.injEq]
      simp only [Entry.rename, Entry.mk.injEq, true_and, and_true]
      rw [List.eraseP_map, h2]
    · rfl

theorem dropStopBook_rename (id : Nat) (ps : List Position) :
    dropStopBook id (ps.map (Position.rename ρ)) =
      ((dropStopBook id ps).1.map (Position.rename ρ), (dropStopBook id ps).2) := by
  induction ps with
  | nil => rfl
  | cons p ps ih =>
    have h1 : dropStopEntries id (p.rename ρ).entries =
        ((dropStopEntries id p.entries).1.map (Entry.rename ρ), (dropStopEntries id p.entries).2) :=
      dropStopEntries_rename id p.entries
    simp only [List.map_cons, dropStopBook, h1, ih]
    split <;> rfl

/-! ## Settings -/

section
variable {cfg cfg' : Config} (hc : RenamedConfig ρ cfg cfg')
include hc

theorem postCollateral_rename (s : Portfolio) (n : ℚ) :
    (s.rename ρ).postCollateral cfg' n = (s.postCollateral cfg n).rename ρ := by
  simp only [Portfolio.postCollateral, hc.leverage]
  split_ifs <;> rfl

theorem releaseCollateral_rename (s : Portfolio) (n p : ℚ) :
    (s.rename ρ).releaseCollateral cfg' n p = (s.releaseCollateral cfg n p).rename ρ := by
  simp only [Portfolio.releaseCollateral, hc.leverage]
  split_ifs <;> rfl

theorem marginLoan_rename (s : Portfolio) :
    (s.rename ρ).marginLoan cfg' = s.marginLoan cfg := by
  simp only [Portfolio.marginLoan, hc.leverage]
  rfl

theorem netCash_rename (s : Portfolio) : (s.rename ρ).netCash cfg' = s.netCash cfg := by
  simp only [Portfolio.netCash, marginLoan_rename hc]
  rfl

theorem liveMarketValue_rename (s : Portfolio) :
    (s.rename ρ).liveMarketValue cfg' = pairRename ρ (s.liveMarketValue cfg) := by
  simp only [Portfolio.liveMarketValue, longMarketValue_rename, pairRename, shortMarketValue_rename,
    marginLoan_rename hc]
  rfl

theorem availableBuyingPower_rename (s : Portfolio) :
    (s.rename ρ).availableBuyingPower cfg' = pairRename ρ (s.availableBuyingPower cfg) := by
  simp only [Portfolio.availableBuyingPower, hc.leverage]
  split_ifs
  · rfl
  · simp only [longMarketValue_rename, pairRename, shortMarketValue_rename, liveMarketValue_rename hc]

theorem applyInterest_rename (s : Portfolio) :
    (s.rename ρ).applyInterest cfg' = (s.applyInterest cfg).rename ρ := by
  simp only [Portfolio.applyInterest, hc.barsPerYear, hc.interestRate]
  cases cfg.barsPerYear with
  | none => rfl
  | some b =>
    simp only [sweepAccrued_rename, netCash_rename hc]
    split_ifs <;> rfl

theorem maxShares_rename (bp fill : ℚ) : maxShares cfg' bp fill = maxShares cfg bp fill := by
  simp only [maxShares, hc.fractional]

theorem clampShares_rename (s : Portfolio) (sym : Sym) (fill shares : ℚ) (side : Side) :
    (s.rename ρ).clampShares cfg' (ρ sym) fill shares side =
      pairRename ρ (s.clampShares cfg sym fill shares side) := by
  have h2 : (s.rename ρ).cash = s.cash := rfl
  simp only [Portfolio.clampShares, availableBuyingPower_rename hc, pairRename, h2, hc.leverage,
    calculateFees_rename hc, maxShares_rename hc]
  split_ifs <;> rfl

theorem addOrder_rename (s : Portfolio) (date : Date) (sym : Sym) (side : Side)
    (created : Option Date) (ot : OrderType) (intent : Intent) (shares : ℚ)
    (limit market : Option ℚ) (fill : ℚ) :
    (s.rename ρ).addOrder cfg' date (ρ sym) side created ot intent shares limit market fill =
      (((s.addOrder cfg date sym side created ot intent shares limit market fill).1).rename ρ,
        ((s.addOrder cfg date sym side created ot intent shares limit market fill).2).rename ρ) := by
  simp only [Portfolio.addOrder, calculateFees_rename hc, renamed_feeSome hc]
  simp [Order.rename, Portfolio.rename]

theorem exitLong_rename (s : Portfolio) (p : Position) (e : Entry) (n fill : ℚ)
    (date : Date) (t : Option StopType) :
    exitLong cfg' (s.rename ρ) (p.rename ρ) (e.rename ρ) n fill date t =
      exitRename ρ (exitLong cfg s p e n fill date t) := by
  unfold exitLong exitRename
  have e5 : ∀ x : ℚ, ({ s.rename ρ with pnl := (s.rename ρ).pnl + x } : Portfolio) =
      ({ s with pnl := s.pnl + x } : Portfolio).rename ρ := fun _ => rfl
  have e2 : (e.rename ρ).price = e.price := rfl
  simp only [e2, e5, takeShares_rename, releaseCollateral_rename hc]
  generalize Portfolio.releaseCollateral cfg _ (n * e.price) (n * fill - n * e.price) = X
  rw [Prod.mk.injEq]
  refine ⟨?_, rfl⟩
  rw [show ∀ s : Portfolio, s.invalidate.rename ρ = (s.rename ρ).invalidate from fun _ => rfl,
    ← addTrade_rename]
  rfl

theorem exitShort_rename (s : Portfolio) (p : Position) (e : Entry) (n fill : ℚ)
    (date : Date) (t : Option StopType) :
    exitShort cfg' (s.rename ρ) (p.rename ρ) (e.rename ρ) n fill date t =
      exitRename ρ (exitShort cfg s p e n fill date t) := by
  unfold exitShort exitRename
  have e5 : ∀ x : ℚ, ({ s.rename ρ with pnl := (s.rename ρ).pnl + x } : Portfolio) =
      ({ s with pnl := s.pnl + x } : Portfolio).rename ρ := fun _ => rfl
  have e2 : (e.rename ρ).price = e.price := rfl
  simp only [e2, e5, takeShares_rename, releaseCollateral_rename hc]
  generalize Portfolio.releaseCollateral cfg _ (n * e.price) (n * e.price - n * fill) = X
  rw [Prod.mk.injEq]
  refine ⟨?_, rfl⟩
  rw [show ∀ s : Portfolio, s.invalidate.rename ρ = (s.rename ρ).invalidate from fun _ => rfl,
    ← addTrade_rename]
  rfl

theorem exitEntry_rename (pt : PosType) (s : Portfolio) (p : Position) (e : Entry)
    (n fill : ℚ) (date : Date) (t : Option StopType) :
    exitEntry cfg' pt (s.rename ρ) (p.rename ρ) (e.rename ρ) n fill date t =
      exitRename ρ (exitEntry cfg pt s p e n fill date t) := by
  cases pt
  · exact exitLong_rename hc ..
  · exact exitShort_rename hc ..

end

/-! ## Stops -/

section
variable {env env' : StopEnv} (he : RenamedStopEnv ρ env env')
include he

theorem triggerProfitLoss_rename (st : Stop) (v : Option ℚ) :
    triggerProfitLoss env' (st.rename ρ) v = triggerProfitLoss env st v := by
  have h1 : (st.rename ρ).symbol = ρ st.symbol := rfl
  have h2 : (st.rename ρ).exitPrice = st.exitPrice := rfl
  have h3 : (st.rename ρ).firesBelow = st.firesBelow := rfl
  simp only [triggerProfitLoss, h1, h2, h3, he.fetchFloat]

theorem triggerTrailing_rename (st : Stop) (v : Option ℚ) :
    triggerTrailing env' (st.rename ρ) v = triggerTrailing env st v := by
  have h1 : (st.rename ρ).symbol = ρ st.symbol := rfl
  have h2 : (st.rename ρ).posType = st.posType := rfl
  have h3 : ∀ q, stopAmountN (st.rename ρ) q = stopAmountN st q := fun _ => rfl
  simp only [triggerTrailing, ratchet, triggerProfitLoss_rename he, h1, h2, h3, he.fetchFloat]

theorem triggerBar_rename (st : Stop) (n : Nat) :
    triggerBar env' (st.rename ρ) n = triggerBar env st n := by
  have h1 : (st.rename ρ).symbol = ρ st.symbol := rfl
  have h2 : (st.rename ρ).bars = st.bars := rfl
  have h3 : (st.rename ρ).fillPrice = st.fillPrice := rfl
  simp only [triggerBar, h1, h2, h3, he.fetch]

theorem slipStopFill_rename (st : Stop) (n fill : ℚ) :
    slipStopFill env' (st.rename ρ) n fill = slipStopFill env st n fill := by
  have h := he.slip
  have h1 : (st.rename ρ).symbol = ρ st.symbol := rfl
  have h2 : (st.rename ρ).posType = st.posType := rfl
  simp only [slipStopFill, h1, h2]
  cases hs : env.slip with
  | none =>
    cases hs' : env'.slip with
    | none => rfl
    | some g => rw [hs, hs'] at h; exact absurd h id
  | some f =>
    cases hs' : env'.slip with
    | none => rw [hs, hs'] at h; exact absurd h id
    | some g =>
      rw [hs, hs'] at h
      simp only [show ∀ side sym n q, g side (ρ sym) n q = f side sym n q from h]

theorem stopFill_rename (s : Portfolio) (e : Entry) (st : Stop) :
    stopFill env' (s.rename ρ) (e.rename ρ) (st.rename ρ) =
      (stopFill env s e st).map (pairRename ρ) := by
  simp only [stopFill]
  rw [show (s.rename ρ).stopData = s.stopData.map (StopData.rename ρ) from rfl,
    show (e.rename ρ).symBars = e.symBars from rfl, show (st.rename ρ).stopType = st.stopType from rfl]
  simp only [triggerBar_rename he, lookupStop_rename, Stop.rename_id]
  cases st.stopType with
  | bar =>
    simp only
    cases triggerBar env st e.symBars <;> rfl
  | loss =>
    simp only
    cases lookupStop s.stopData st.id with
    | none => rfl
    | some d => simp only [Option.map_some, triggerProfitLoss_rename he]; rfl
  | profit =>
    simp only
    cases lookupStop s.stopData st.id with
    | none => rfl
    | some d => simp only [Option.map_some, triggerProfitLoss_rename he]; rfl
  | trailing =>
    simp only
    cases lookupStop s.stopData st.id with
    | none => rfl
    | some d =>
      simp only [Option.map_some, triggerTrailing_rename he]
      rw [show (d.rename ρ).value = d.value from rfl]
      cases triggerTrailing env st d.value with
      | error e => rfl
      | ok x =>
        simp only [Except.map, pairRename, setStopValue_rename]
        rfl

theorem barChecks_rename (s : Portfolio) :
    barChecks env' (s.rename ρ) = (barChecks env s).map (StopCheck.rename ρ) := by
  unfold barChecks
  rw [show (s.rename ρ).longs = s.longs.map (Position.rename ρ) from rfl,
    show (s.rename ρ).shorts = s.shorts.map (Position.rename ρ) from rfl, ← List.map_append,
    List.flatMap_map, List.map_flatMap]
  congr 1
  funext p
  simp only [Position.rename_symbol, he.canPrice]
  by_cases hp : env.canPrice p.symbol = true
  · simp only [hp, if_true]
    rw [show (p.rename ρ).entries = p.entries.map (Entry.rename ρ) from rfl, List.flatMap_map,
      List.map_flatMap]
    congr 1
    funext e
    rw [show (e.rename ρ).stops = e.stops.map (Stop.rename ρ) from rfl, List.filter_map, List.map_map,
      List.map_map]
    rfl
  · simp only [hp, Bool.false_eq_true, if_false, List.map_nil]

theorem priceChecks_rename (s : Portfolio) :
    priceChecks env' (s.rename ρ) = (priceChecks env s).map (StopCheck.rename ρ) := by
  unfold priceChecks
  rw [show (s.rename ρ).active = s.active.map (activeRename ρ) from rfl,
    show (s.rename ρ).stopData = s.stopData.map (StopData.rename ρ) from rfl,
    List.flatMap_map, List.map_flatMap]
  congr 1
  funext x
  obtain ⟨sym, ids⟩ := x
  simp only [activeRename, he.canPrice]
  by_cases hp : env.canPrice sym = true
  · simp only [hp, if_true, List.map_filterMap, lookupStop_rename]
    congr 1
    funext id
    cases lookupStop s.stopData id <;> rfl
  · simp only [hp, Bool.false_eq_true, if_false, List.map_nil]

end

/-! ## Lookups by symbol -/

section
variable (hρ : Function.Injective ρ)
include hρ

theorem stopRename_injective : Function.Injective (Stop.rename ρ) := by
  intro a b h
  cases a
  cases b
  simp only [Stop.rename, Stop.mk.injEq] at h ⊢
  obtain ⟨h1, h2, h3⟩ := h
  exact ⟨h1, hρ h2, h3⟩

theorem lookupPos_rename (ps : List Position) (sym : Sym) :
    lookupPos (ps.map (Position.rename ρ)) (ρ sym) = (lookupPos ps sym).map (Position.rename ρ) := by
  induction ps with
  | nil => rfl
  | cons p ps ih =>
    simp only [List.map_cons, lookupPos, Position.rename_symbol, hρ.eq_iff]
    by_cases h : p.symbol = sym <;> simp [h, ih]

theorem replacePos_rename (ps : List Position) (q : Position) :
    replacePos (ps.map (Position.rename ρ)) (q.rename ρ) = (replacePos ps q).map (Position.rename ρ) := by
  induction ps with
  | nil => rfl
  | cons p ps ih =>
    simp only [List.map_cons, replacePos, Position.rename_symbol, hρ.eq_iff]
    by_cases h : p.symbol = q.symbol <;> simp [h, ih]

theorem erasePos_rename (ps : List Position) (sym : Sym) :
    erasePos (ps.map (Position.rename ρ)) (ρ sym) = (erasePos ps sym).map (Position.rename ρ) := by
  induction ps with
  | nil => rfl
  | cons p ps ih =>
    simp only [List.map_cons, erasePos, Position.rename_symbol, hρ.eq_iff]
    by_cases h : p.symbol = sym <;> simp [h, ih]

theorem activeAdd_rename (l : List (Sym × List Nat)) (sym : Sym) (id : Nat) :
    activeAdd (l.map (activeRename ρ)) (ρ sym) id = (activeAdd l sym id).map (activeRename ρ) := by
  induction l with
  | nil => rfl
  | cons x l ih =>
    obtain ⟨k, ids⟩ := x
    simp only [List.map_cons, activeRename, activeAdd, hρ.eq_iff] at ih ⊢
    by_cases h : k = sym <;> simp [h, ih, activeRename]

theorem activeRemove_rename (l : List (Sym × List Nat)) (sym : Sym) (id : Nat) :
    activeRemove (l.map (activeRename ρ)) (ρ sym) id = (activeRemove l sym id).map (activeRename ρ) := by
  induction l with
  | nil => rfl
  | cons x l ih =>
    obtain ⟨k, ids⟩ := x
    simp only [List.map_cons, activeRename, activeRemove, hρ.eq_iff] at ih ⊢
    by_cases h : k = sym
    · simp only [h, if_true]
      by_cases h2 : ids.erase id = []
      · simp only [h2, if_true]
      · simp only [h2, if_false]; rfl
    · simp [h, ih, activeRename]

/-- The stops of an entry and the portfolio with their symbols renamed. -/
def stopsRename (ρ : Sym → Sym) (x : List Stop × Portfolio) : List Stop × Portfolio :=
  (x.1.map (Stop.rename ρ), x.2.rename ρ)

theorem addStopStep_rename (id : Nat) (price : ℚ) (acc : List Stop × Portfolio) (st : Stop) :
    addStopStep id price (stopsRename ρ acc) (st.rename ρ) =
      (addStopStep id price acc st).map (stopsRename ρ) := by
  unfold addStopStep
  rw [show (stopsRename ρ acc).2.stopData = acc.2.stopData.map (StopData.rename ρ) from rfl,
    lookupStop_rename, Stop.rename_id]
  cases lookupStop acc.2.stopData st.id with
  | some d => rfl
  | none =>
    simp only [Option.map_none]
    rw [show (st.rename ρ).stopType = st.stopType from rfl]
    by_cases hb : st.stopType = .bar
    · simp only [if_pos hb]
      simp [Except.map, stopsRename]
    · simp only [if_neg hb]
      rw [show stopAmount (st.rename ρ) price = stopAmount st price from rfl]
      cases stopAmount st price with
      | error e => rfl
      | ok a =>
        simp only [Except.map, stopsRename, List.map_append, List.map_cons, List.map_nil,
          Except.ok.injEq, Prod.mk.injEq, true_and]
        rw [show (st.rename ρ).symbol = ρ st.symbol from rfl,
          show (acc.2.rename ρ).active = acc.2.active.map (activeRename ρ) from rfl, activeAdd_rename hρ]
        simp only [Portfolio.rename, List.map_append, List.map_cons, List.map_nil]
        rfl

theorem addStops_rename (s : Portfolio) (id : Nat) (price : ℚ) (stops : List Stop) :
    addStops (s.rename ρ) id price (stops.map (Stop.rename ρ)) =
      (addStops s id price stops).map (stopsRename ρ) := by
  unfold addStops
  rw [insertionSort_map_key (fun a b : Stop => a.id ≤ b.id) (fun a b : Stop => a.id ≤ b.id)
    (Stop.rename ρ) (fun _ _ => Iff.rfl)]
  exact foldE_map (addStopStep id price) (addStopStep id price) (stopsRename ρ) (Stop.rename ρ)
    (addStopStep_rename hρ id price) ([], s) (stops.insertionSort (fun a b => a.id ≤ b.id))

theorem removeStopData_rename (s : Portfolio) (stops : List Stop) :
    (s.rename ρ).removeStopData (stops.map (Stop.rename ρ)) = (s.removeStopData stops).rename ρ := by
  induction stops generalizing s with
  | nil => rfl
  | cons st stops ih =>
    simp only [List.map_cons, Portfolio.removeStopData]
    rw [show (s.rename ρ).stopData = s.stopData.map (StopData.rename ρ) from rfl, lookupStop_rename,
      Stop.rename_id]
    cases lookupStop s.stopData st.id with
    | none => exact ih s
    | some d =>
      simp only [Option.map_some]
      rw [← ih]
      congr 1
      rw [show (st.rename ρ).symbol = ρ st.symbol from rfl,
        show (s.rename ρ).active = s.active.map (activeRename ρ) from rfl, activeRemove_rename hρ,
        eraseStop_rename]
      rfl

theorem updatePosition_rename (s : Portfolio) (p : Position) :
    (s.rename ρ).updatePosition (p.rename ρ) = (s.updatePosition p).rename ρ := by
  unfold Portfolio.updatePosition
  have h1 : (p.rename ρ).entries = p.entries.map (Entry.rename ρ) := rfl
  simp only [h1, Position.rename_type, Position.rename_symbol, book_rename, replacePos_rename hρ,
    erasePos_rename hρ, setBook_rename, ne_eq, List.map_eq_nil_iff]
  by_cases h : p.entries = []
  · simp only [h, not_true_eq_false, if_false]
    have h2 : ∀ t : Portfolio, ρ p.symbol ∈ (t.rename ρ).symbols ↔ p.symbol ∈ t.symbols := fun t => by
      rw [show (t.rename ρ).symbols = t.symbols.map ρ from rfl, List.mem_map_of_injective hρ]
    have h3 : ∀ t : Portfolio, lookupPos (t.rename ρ).longs (ρ p.symbol) = none ↔
        lookupPos t.longs p.symbol = none := fun t => by
      rw [show (t.rename ρ).longs = t.longs.map (Position.rename ρ) from rfl, lookupPos_rename hρ]
      simp
    have h4 : ∀ t : Portfolio, lookupPos (t.rename ρ).shorts (ρ p.symbol) = none ↔
        lookupPos t.shorts p.symbol = none := fun t => by
      rw [show (t.rename ρ).shorts = t.shorts.map (Position.rename ρ) from rfl, lookupPos_rename hρ]
      simp
    have h5 : ∀ t : Portfolio, ({ t.rename ρ with symbols := (t.rename ρ).symbols.erase (ρ p.symbol) } : Portfolio) =
        ({ t with symbols := t.symbols.erase p.symbol } : Portfolio).rename ρ := fun t => by
      rw [show (t.rename ρ).symbols = t.symbols.map ρ from rfl, ← List.map_erase hρ]
      rfl
    simp only [h2, h3, h4, h5]
    split_ifs <;> rfl
  · simp only [h, not_false_eq_true, if_true]

theorem capReached_rename (cap : Option Nat) (ps : List Position) (sym : Sym) :
    capReached cap (ps.map (Position.rename ρ)) (ρ sym) = capReached cap ps sym := by
  cases cap with
  | none => rfl
  | some m => simp [capReached, lookupPos_rename hρ]

theorem addSym_rename (l : List Sym) (sym : Sym) :
    addSym (l.map ρ) (ρ sym) = (addSym l sym).map ρ := by
  simp only [addSym, List.mem_map_of_injective hρ]
  split_ifs <;> simp

variable {cfg cfg' : Config} (hc : RenamedConfig ρ cfg cfg')
include hc

theorem exitLoop_rename (pt : PosType) (date : Date) (fill : ℚ) (es : List Entry)
    (rem : ℚ) (s : Portfolio) (p : Position) :
    exitLoop cfg' pt date fill (es.map (Entry.rename ρ)) rem (s.rename ρ) (p.rename ρ) =
      (exitLoop cfg pt date fill es rem s p).rename ρ := by
  induction es generalizing rem s p with
  | nil => rfl
  | cons e es ih =>
    simp only [List.map_cons, exitLoop, Entry.rename_shares, exitEntry_rename hc, exitRename]
    by_cases h1 : rem > 0
    · simp only [if_pos h1]
      by_cases h2 : rem ≥ e.shares
      · simp only [if_pos h2]
        rw [← ih]
        congr 1
        · exact removeStopData_rename hρ _ _
        · simp only [Position.rename, List.map_tail]
      · simp only [if_neg h2]
        rfl
    · simp only [if_neg h1]
      rfl

theorem cover_rename (s : Portfolio) (date : Date) (sym : Sym) (n fill : ℚ) :
    cover cfg' (s.rename ρ) date (ρ sym) n fill = (cover cfg s date sym n fill).rename ρ := by
  unfold cover
  rw [show (s.rename ρ).shorts = s.shorts.map (Position.rename ρ) from rfl, lookupPos_rename hρ]
  cases lookupPos s.shorts sym with
  | none => rfl
  | some p =>
    simp only [Option.map_some]
    by_cases h : n ≤ 0
    · rw [if_pos h, if_pos h]; rfl
    · rw [if_neg h, if_neg h]
      rw [show (p.rename ρ).entries = p.entries.map (Entry.rename ρ) from rfl, exitLoop_rename hρ hc]
      simp only [ExitResult.rename, OrderResult.rename, updatePosition_rename hρ]

theorem sellExisting_rename (s : Portfolio) (date : Date) (sym : Sym) (n fill : ℚ) :
    sellExisting cfg' (s.rename ρ) date (ρ sym) n fill =
      (sellExisting cfg s date sym n fill).rename ρ := by
  unfold sellExisting
  rw [show (s.rename ρ).longs = s.longs.map (Position.rename ρ) from rfl, lookupPos_rename hρ]
  cases lookupPos s.longs sym with
  | none => rfl
  | some p =>
    simp only [Option.map_some]
    rw [show (p.rename ρ).entries = p.entries.map (Entry.rename ρ) from rfl, exitLoop_rename hρ hc]
    simp only [ExitResult.rename, OrderResult.rename, updatePosition_rename hρ]

/-! ## Opening positions -/

theorem openShares_rename (pt : PosType) (s : Portfolio) (date : Date) (sym : Sym)
    (n fill : ℚ) (stops : List Stop) :
    openShares cfg' pt (s.rename ρ) date (ρ sym) n fill (stops.map (Stop.rename ρ)) =
      (openShares cfg pt s date sym n fill stops).map (pairRename ρ) := by
  unfold openShares
  simp only [postCollateral_rename hc]
  generalize s.postCollateral cfg (n * fill) = s1
  have e2 : ({ s1.rename ρ with entryId := (s1.rename ρ).entryId + 1 } : Portfolio) =
      ({ s1 with entryId := s1.entryId + 1 } : Portfolio).rename ρ := rfl
  have e3 : (s1.rename ρ).entryId = s1.entryId := rfl
  rw [e2, e3, addStops_rename hρ]
  cases addStops { s1 with entryId := s1.entryId + 1 } (s1.entryId + 1) fill stops with
  | error e => rfl
  | ok x =>
    obtain ⟨es, s3⟩ := x
    simp only [Except.map, pairRename, stopsRename, Except.ok.injEq, Prod.mk.injEq, true_and]
    simp only [book_rename, lookupPos_rename hρ]
    rw [show (s3.rename ρ).symbols = s3.symbols.map ρ from rfl, addSym_rename hρ]
    cases lookupPos (s3.book pt) sym with
    | none =>
      simp only [Option.map_none]
      cases pt <;>
        simp [Portfolio.setBook, Portfolio.book, Portfolio.rename, Position.addUnmarked,
          Position.rename, Entry.rename, Portfolio.invalidate]
    | some p0 =>
      simp only [Option.map_some]
      have e4 : ∀ (q q' : Position), q' = q.rename ρ →
          replacePos ((s3.book pt).map (Position.rename ρ)) q' =
            (replacePos (s3.book pt) q).map (Position.rename ρ) := fun q q' h => by
        rw [h, replacePos_rename hρ]
      rw [e4 (q := { (({ p0 with shares := p0.shares + n } : Position).addUnmarked n fill) with
          entries := (({ p0 with shares := p0.shares + n } : Position).addUnmarked n fill).entries ++
            [{ id := s1.entryId + 1, date := date, symbol := sym, shares := n, price := fill,
               type := pt, stops := es }]
          entryNotional :=
            (({ p0 with shares := p0.shares + n } : Position).addUnmarked n fill).entryNotional + n * fill })]
      · rw [setBook_rename]
        cases pt <;> simp [Portfolio.rename, Portfolio.setBook, Portfolio.invalidate]
      · simp [Position.addUnmarked, Position.rename, Entry.rename]

theorem openLong_rename (s : Portfolio) (date : Date) (sym : Sym) (n fill : ℚ)
    (stops : List Stop) :
    openLong cfg' (s.rename ρ) date (ρ sym) n fill (stops.map (Stop.rename ρ)) =
      (openLong cfg s date sym n fill stops).map (pairRename ρ) := by
  unfold openLong
  simp only [clampShares_rename hc, pairRename, hc.positionMode, hc.maxLong]
  generalize s.clampShares cfg sym fill n .buy = c
  have e3 : capReached cfg.maxLong (c.2.rename ρ).longs (ρ sym) = capReached cfg.maxLong c.2.longs sym :=
    capReached_rename hρ _ _ _
  simp only [e3, openShares_rename hρ hc]
  split_ifs <;> rfl

theorem openShort_rename (s : Portfolio) (date : Date) (sym : Sym) (n fill : ℚ)
    (stops : List Stop) :
    openShort cfg' (s.rename ρ) date (ρ sym) n fill (stops.map (Stop.rename ρ)) =
      (openShort cfg s date sym n fill stops).map (pairRename ρ) := by
  unfold openShort
  have e3 : capReached cfg.maxShort (s.rename ρ).shorts (ρ sym) = capReached cfg.maxShort s.shorts sym :=
    capReached_rename hρ _ _ _
  simp only [hc.maxShort, hc.positionMode, e3, clampShares_rename hc, pairRename, openShares_rename hρ hc]
  split_ifs <;> rfl

/-! ## Orders -/

theorem buy_rename (s : Portfolio) (r : OrderReq) :
    buy cfg' (s.rename ρ) (r.rename ρ) = (buy cfg s r).map (placedRename ρ) := by
  unfold buy
  simp only [OrderReq.rename, cover_rename hρ hc]
  cases verifyInput r.shares r.fill r.limit with
  | error e => rfl
  | ok u =>
    simp only
    by_cases h1 : buyLimitBlocks r.limit r.fill
    · simp only [if_pos h1]; rfl
    · simp only [if_neg h1]
      by_cases h2 : r.shares = 0
      · simp only [if_pos h2]; rfl
      · simp only [if_neg h2, OrderResult.rename, openLong_rename hρ hc]
        cases openLong cfg (cover cfg s r.date r.symbol r.shares r.fill).pf r.date r.symbol
          (cover cfg s r.date r.symbol r.shares r.fill).rem r.fill r.stops with
        | error e => rfl
        | ok x =>
          obtain ⟨b, s2⟩ := x
          simp only [Except.map, pairRename, addOrder_rename hc]
          split_ifs <;> rfl

theorem sell_rename (s : Portfolio) (r : OrderReq) :
    sell cfg' (s.rename ρ) (r.rename ρ) = (sell cfg s r).map (placedRename ρ) := by
  unfold sell
  simp only [OrderReq.rename, sellExisting_rename hρ hc]
  cases verifyInput r.shares r.fill r.limit with
  | error e => rfl
  | ok u =>
    simp only
    by_cases h1 : sellLimitBlocks r.limit r.fill
    · simp only [if_pos h1]; rfl
    · simp only [if_neg h1]
      by_cases h2 : r.shares = 0
      · simp only [if_pos h2]; rfl
      · simp only [if_neg h2, OrderResult.rename, openShort_rename hρ hc]
        cases openShort cfg (sellExisting cfg s r.date r.symbol r.shares r.fill).pf r.date r.symbol
          (sellExisting cfg s r.date r.symbol r.shares r.fill).rem r.fill r.stops with
        | error e => rfl
        | ok x =>
          obtain ⟨b, s2⟩ := x
          simp only [Except.map, pairRename, addOrder_rename hc]
          split_ifs <;> rfl

omit hρ hc in
theorem slipPrice_rename {slip slip' : Option SlipFn} (h : RenamedSlip ρ slip slip') (side : Side) (sym : Sym)
    (n q : ℚ) : slipPrice slip' side (ρ sym) n q = slipPrice slip side sym n q := by
  cases slip with
  | none =>
    cases slip' with
    | none => rfl
    | some g => exact absurd h id
  | some f =>
    cases slip' with
    | none => exact absurd h id
    | some g => simp only [slipPrice, show ∀ side sym n q, g side (ρ sym) n q = f side sym n q from h]

theorem exitPosition_rename {slip slip' : Option SlipFn} (h : RenamedSlip ρ slip slip')
    (s : Portfolio) (date : Date) (sym : Sym) (b q : ℚ) :
    exitPosition cfg' (s.rename ρ) date (ρ sym) b q slip' =
      (exitPosition cfg s date sym b q slip).map (Portfolio.rename ρ) := by
  unfold exitPosition
  simp only [slipPrice_rename h]
  have hs : ∀ (t : Portfolio) (n f : ℚ), sell cfg' (t.rename ρ)
      { date := date, symbol := ρ sym, shares := n, fill := f, marketPrice := some q } =
      (sell cfg t
        { date := date, symbol := sym, shares := n,
          fill := f, marketPrice := some q }).map (placedRename ρ) := fun t n f => by
    rw [← sell_rename hρ hc]; rfl
  have hb : ∀ (t : Portfolio) (n f : ℚ), buy cfg' (t.rename ρ)
      { date := date, symbol := ρ sym, shares := n, fill := f, marketPrice := some b } =
      (buy cfg t
        { date := date, symbol := sym, shares := n,
          fill := f, marketPrice := some b }).map (placedRename ρ) := fun t n f => by
    rw [← buy_rename hρ hc]; rfl
  have second : ∀ t : Portfolio,
      (match lookupPos (t.rename ρ).shorts (ρ sym) with
        | none => (.ok (t.rename ρ) : Except Err Portfolio)
        | some p =>
          match buy cfg' (t.rename ρ)
            { date := date, symbol := ρ sym, shares := p.shares,
              fill := slipPrice slip .buy sym p.shares b, marketPrice := some b } with
          | .error e => .error e
          | .ok (_, s2) => .ok s2) =
      (match lookupPos t.shorts sym with
        | none => (.ok t : Except Err Portfolio)
        | some p =>
          match buy cfg t
            { date := date, symbol := sym, shares := p.shares,
              fill := slipPrice slip .buy sym p.shares b, marketPrice := some b } with
          | .error e => .error e
          | .ok (_, s2) => .ok s2).map (Portfolio.rename ρ) := fun t => by
    rw [show (t.rename ρ).shorts = t.shorts.map (Position.rename ρ) from rfl, lookupPos_rename hρ]
    cases lookupPos t.shorts sym with
    | none => rfl
    | some p =>
      simp only [Option.map_some, Position.rename_shares, hb]
      cases buy cfg t _ with
      | error e => rfl
      | ok x => rfl
  rw [show (s.rename ρ).longs = s.longs.map (Position.rename ρ) from rfl, lookupPos_rename hρ]
  cases lookupPos s.longs sym with
  | none => exact second s
  | some p =>
    simp only [Option.map_some, Position.rename_shares, hs]
    cases sell cfg s _ with
    | error e => rfl
    | ok x => exact second x.2

/-! ## The end of a bar -/

omit hc in
theorem captureLong_rename (q : BarQuote) (a : CaptureAcc) (sym : Sym) :
    captureLong q (a.rename ρ) (ρ sym) = (captureLong q a sym).rename ρ := by
  unfold captureLong
  rw [show (a.rename ρ).pf.longs = a.pf.longs.map (Position.rename ρ) from rfl, lookupPos_rename hρ]
  cases lookupPos a.pf.longs sym with
  | none => rfl
  | some p =>
    simp only [Option.map_some]
    cases q.close with
    | none => rfl
    | some c =>
      simp only [markLong_rename, replacePos_rename hρ]
      rfl

omit hc in
theorem captureShort_rename (q : BarQuote) (a : CaptureAcc) (sym : Sym) :
    captureShort q (a.rename ρ) (ρ sym) = (captureShort q a sym).rename ρ := by
  unfold captureShort
  rw [show (a.rename ρ).pf.shorts = a.pf.shorts.map (Position.rename ρ) from rfl, lookupPos_rename hρ]
  cases lookupPos a.pf.shorts sym with
  | none => rfl
  | some p =>
    simp only [Option.map_some]
    cases q.close with
    | none => rfl
    | some c =>
      simp only [markShort_rename, replacePos_rename hρ]
      rfl

/-! ## Stops -/

theorem triggerStop_rename {env env' : StopEnv} (he : RenamedStopEnv ρ env env') (date : Date)
    (s : Portfolio) (p : Position) (e : Entry) (st : Stop) :
    triggerStop cfg' env' date (s.rename ρ) (p.rename ρ) (e.rename ρ) (st.rename ρ) =
      (triggerStop cfg env date s p e st).map (pairRename ρ) := by
  have h0 : (st.rename ρ).posType = st.posType := rfl
  have h0' : (st.rename ρ).symbol = ρ st.symbol := rfl
  have h1 : lookupPos ((s.rename ρ).book st.posType) (ρ st.symbol) = none ↔
      lookupPos (s.book st.posType) st.symbol = none := by
    rw [book_rename, lookupPos_rename hρ]; simp
  simp only [triggerStop, stopFill_rename he, h0, h0']
  by_cases h : lookupPos (s.book st.posType) st.symbol = none
  · simp only [h1.2 h, h, if_true]; rfl
  · have h' : ¬ (lookupPos ((s.rename ρ).book st.posType) (ρ st.symbol) = none) := fun hc => h (h1.1 hc)
    simp only [h', h, if_false]
    cases stopFill env s e st with
    | error err => rfl
    | ok x =>
      obtain ⟨f, s1⟩ := x
      cases f with
      | none => rfl
      | some m =>
        simp only [Except.map, pairRename, Entry.rename_shares, slipStopFill_rename he]
        rw [show stopLimitBlocks (st.rename ρ) (slipStopFill env st e.shares m) =
          stopLimitBlocks st (slipStopFill env st e.shares m) from rfl]
        by_cases hl : stopLimitBlocks st (slipStopFill env st e.shares m)
        · simp only [hl, if_true]
        · simp only [hl, Bool.false_eq_true, if_false, exitEntry_rename hc, exitRename, Position.rename_type,
            book_rename, replacePos_rename hρ, setBook_rename, Position.rename_symbol,
            show (st.rename ρ).stopType = st.stopType from rfl]
          have := addOrder_rename hc
            ((exitEntry cfg st.posType s1 p e e.shares (slipStopFill env st e.shares m) date
              (some st.stopType)).1.setBook p.type
                (replacePos ((exitEntry cfg st.posType s1 p e e.shares
                  (slipStopFill env st e.shares m) date (some st.stopType)).1.book p.type)
                  (exitEntry cfg st.posType s1 p e e.shares (slipStopFill env st e.shares m) date
                    (some st.stopType)).2)) date p.symbol st.exitSide none
            (stopOrderType st.stopType) st.exitIntent e.shares st.limitPrice (some m)
            (slipStopFill env st e.shares m)
          rw [show (st.rename ρ).exitSide = st.exitSide from rfl,
            show (st.rename ρ).exitIntent = st.exitIntent from rfl,
            show (st.rename ρ).limitPrice = st.limitPrice from rfl, this]

/-- The state of the loop over stops with symbols renamed. -/
def checkRename (ρ : Sym → Sym) (x : Portfolio × List StopCheck) : Portfolio × List StopCheck :=
  (x.1.rename ρ, x.2.map (StopCheck.rename ρ))

theorem checkOne_rename {env env' : StopEnv} (he : RenamedStopEnv ρ env env') (date : Date)
    (acc : Portfolio × List StopCheck) (c : StopCheck) :
    checkOne cfg' env' date (checkRename ρ acc) (c.rename ρ) =
      (checkOne cfg env date acc c).map (checkRename ρ) := by
  have h3 : lookupPos ((checkRename ρ acc).1.book (c.rename ρ).posType) (c.rename ρ).symbol =
      (lookupPos (acc.1.book c.posType) c.symbol).map (Position.rename ρ) := by
    simp only [checkRename, StopCheck.rename, book_rename, lookupPos_rename hρ]
  have h4 : (checkRename ρ acc).2.map StopCheck.entryId = acc.2.map StopCheck.entryId := by
    simp only [checkRename, List.map_map]; rfl
  simp only [checkOne, h3, h4]
  rw [show (c.rename ρ).entryId = c.entryId from rfl]
  by_cases h : c.entryId ∈ acc.2.map StopCheck.entryId
  · simp only [if_pos h]; rfl
  · simp only [if_neg h]
    cases lookupPos (acc.1.book c.posType) c.symbol with
    | none => rfl
    | some p =>
      simp only [Option.map_some]
      rw [show (p.rename ρ).entries = p.entries.map (Entry.rename ρ) from rfl, findEntry_rename]
      cases findEntry p.entries c.entryId with
      | none => rfl
      | some e =>
        simp only [Option.map_some]
        rw [show (checkRename ρ acc).1 = acc.1.rename ρ from rfl,
          show (c.rename ρ).stop = c.stop.rename ρ from rfl, triggerStop_rename hρ hc he]
        cases triggerStop cfg env date acc.1 p e c.stop with
        | error err => rfl
        | ok x =>
          obtain ⟨b, s1⟩ := x
          cases b
          · rfl
          · simp [Except.map, checkRename, pairRename]

omit hc in
theorem finishStop_rename (s : Portfolio) (c : StopCheck) :
    finishStop (s.rename ρ) (c.rename ρ) = (finishStop s c).rename ρ := by
  simp only [finishStop, StopCheck.rename, book_rename, lookupPos_rename hρ]
  cases lookupPos (s.book c.posType) c.symbol with
  | none => rfl
  | some p =>
    simp only [Option.map_some]
    rw [show (p.rename ρ).entries = p.entries.map (Entry.rename ρ) from rfl, findEntry_rename]
    cases findEntry p.entries c.entryId with
    | none => rfl
    | some e =>
      simp only [Option.map_some, eraseEntry_rename]
      rw [← updatePosition_rename hρ, ← removeStopData_rename hρ]
      rfl

theorem checkStops_rename {env env' : StopEnv} (he : RenamedStopEnv ρ env env') (s : Portfolio) (date : Date) :
    checkStops cfg' (s.rename ρ) date env' = (checkStops cfg s date env).map (Portfolio.rename ρ) := by
  have hfold : ∀ (b : Portfolio × List StopCheck) (l : List StopCheck),
      foldE (checkOne cfg' env' date) (checkRename ρ b) (l.map (StopCheck.rename ρ)) =
        (foldE (checkOne cfg env date) b l).map (checkRename ρ) := fun b l =>
    foldE_map (checkOne cfg env date) (checkOne cfg' env' date)
      (checkRename ρ) (StopCheck.rename ρ) (fun b a => checkOne_rename hρ hc he date b a) b l
  have hfin : ∀ (l : List StopCheck) (t : Portfolio),
      (l.map (StopCheck.rename ρ)).foldl finishStop (t.rename ρ) = (l.foldl finishStop t).rename ρ := by
    intro l
    induction l with
    | nil => intro t; rfl
    | cons c l ih =>
      intro t
      simp only [List.map_cons, List.foldl_cons, finishStop_rename hρ, ih]
  simp only [checkStops, priceChecks_rename he]
  have h1 := hfold (s, []) (priceChecks env s)
  rw [show checkRename ρ (s, []) = (s.rename ρ, []) from rfl] at h1
  rw [h1]
  cases foldE (checkOne cfg env date) (s, []) (priceChecks env s) with
  | error e => rfl
  | ok acc =>
    simp only [Except.map]
    rw [show (checkRename ρ acc).1 = acc.1.rename ρ from rfl, barChecks_rename he, hfold]
    cases foldE (checkOne cfg env date) acc (barChecks env acc.1) with
    | error e => rfl
    | ok acc2 =>
      simp only [Except.map]
      exact congrArg Except.ok (hfin acc2.2 acc2.1)

/-! ## Removing stops -/

omit hc in
theorem removeStop_rename (s : Portfolio) (id : Nat) :
    removeStop (s.rename ρ) id = pairRename ρ (removeStop s id) := by
  unfold removeStop
  rw [show (s.rename ρ).stopData = s.stopData.map (StopData.rename ρ) from rfl, lookupStop_rename]
  cases lookupStop s.stopData id with
  | some d =>
    simp only [Option.map_some, pairRename, Prod.mk.injEq, true_and]
    have h3 := fun ps => modEntryBook_rename (ρ := ρ) d.entryId
      (fun e => { e with stops := e.stops.erase d.stop })
      (fun e => { e with stops := e.stops.erase (d.stop.rename ρ) })
      (fun e => by
        simp only [Entry.rename, Entry.mk.injEq, true_and, and_true]
        rw [List.map_erase (stopRename_injective hρ)]) ps
    rw [show (d.rename ρ).stop.symbol = ρ d.stop.symbol from rfl,
      show (s.rename ρ).active = s.active.map (activeRename ρ) from rfl, activeRemove_rename hρ,
      eraseStop_rename]
    simp only [Portfolio.rename, Portfolio.mk.injEq, true_and, and_true]
    exact ⟨h3 _, h3 _⟩
  | none =>
    simp only [Option.map_none]
    rw [show (s.rename ρ).longs = s.longs.map (Position.rename ρ) from rfl,
      show (s.rename ρ).shorts = s.shorts.map (Position.rename ρ) from rfl]
    simp only [dropStopBook_rename]
    split
    · rfl
    · split <;> rfl

omit hc in
theorem removeEntryStops_rename (s : Portfolio) (e : Entry) (t : Option StopType) :
    removeEntryStops (s.rename ρ) (e.rename ρ) t = (removeEntryStops s e t).rename ρ := by
  unfold removeEntryStops
  rw [show (e.rename ρ).stops = e.stops.map (Stop.rename ρ) from rfl]
  cases t with
  | none =>
    have h3 := fun ps => modEntryBook_rename (ρ := ρ) e.id
      (fun e' => { e' with stops := [] }) (fun e' => { e' with stops := [] }) (fun _ => rfl) ps
    simp only [removeStopData_rename hρ, Entry.rename_id]
    generalize s.removeStopData e.stops = u
    simp only [Portfolio.rename, Portfolio.mk.injEq, true_and, and_true]
    exact ⟨h3 _, h3 _⟩
  | some t =>
    simp only [List.find?_map]
    rw [show ((fun st : Stop => decide (st.stopType = t)) ∘ Stop.rename ρ) =
      fun st => decide (st.stopType = t) from rfl]
    cases e.stops.find? (fun st => decide (st.stopType = t)) with
    | none => rfl
    | some st => simp only [Option.map_some, Stop.rename_id, removeStop_rename hρ, pairRename]

omit hc in
theorem removeStopsEntry_rename (s : Portfolio) (id : Nat) (t : Option StopType) :
    removeStopsEntry (s.rename ρ) id t = (removeStopsEntry s id t).rename ρ := by
  have h : findEntryAll (s.rename ρ) id = (findEntryAll s id).map (Entry.rename ρ) := by
    unfold findEntryAll
    rw [← findEntry_rename, show (s.rename ρ).longs = s.longs.map (Position.rename ρ) from rfl,
      show (s.rename ρ).shorts = s.shorts.map (Position.rename ρ) from rfl, ← List.map_append,
      List.flatMap_map, List.map_flatMap]
    rfl
  unfold removeStopsEntry
  rw [h]
  cases findEntryAll s id with
  | none => rfl
  | some e => exact removeEntryStops_rename hρ s e t

omit hc in
theorem removePositionStops_rename (s : Portfolio) (p : Position) (t : Option StopType) :
    removePositionStops (s.rename ρ) (p.rename ρ) t = (removePositionStops s p t).rename ρ := by
  unfold removePositionStops
  rw [show (p.rename ρ).entries = p.entries.map (Entry.rename ρ) from rfl]
  generalize p.entries = es
  induction es generalizing s with
  | nil => rfl
  | cons e es ih =>
    simp only [List.map_cons, List.foldl_cons, Entry.rename_id, removeStopsEntry_rename hρ, ih]

omit hc in
theorem removeStopsSym_rename (s : Portfolio) (sym : Sym) (t : Option StopType) :
    removeStopsSym (s.rename ρ) (ρ sym) t = (removeStopsSym s sym t).rename ρ := by
  have second : ∀ u : Portfolio,
      (match lookupPos (u.rename ρ).shorts (ρ sym) with
        | none => u.rename ρ
        | some p => removePositionStops (u.rename ρ) p t) =
      (match lookupPos u.shorts sym with
        | none => u
        | some p => removePositionStops u p t).rename ρ := fun u => by
    rw [show (u.rename ρ).shorts = u.shorts.map (Position.rename ρ) from rfl, lookupPos_rename hρ]
    cases lookupPos u.shorts sym with
    | none => rfl
    | some p => exact removePositionStops_rename hρ u p t
  unfold removeStopsSym
  rw [show (s.rename ρ).longs = s.longs.map (Position.rename ρ) from rfl, lookupPos_rename hρ]
  cases lookupPos s.longs sym with
  | none => exact second s
  | some p =>
    simp only [Option.map_some, removePositionStops_rename hρ]
    exact second _

end

/-! ## The order of symbols at the end of a bar -/

theorem replacePos_swap (ps : List Position) (p q : Position) (h : p.symbol ≠ q.symbol) :
    replacePos (replacePos ps p) q = replacePos (replacePos ps q) p := by
  induction ps with
  | nil => rfl
  | cons r ps ih =>
    by_cases h1 : r.symbol = p.symbol
    · have h2 : ¬ r.symbol = q.symbol := fun e => h (h1.symm.trans e)
      simp only [replacePos, h1, h2, h, if_true, if_false]
    · by_cases h2 : r.symbol = q.symbol
      · simp only [replacePos, h1, h2, Ne.symm h, if_true, if_false]
      · simp only [replacePos, h1, h2, if_false, ih]

theorem lookupPos_replaced (ps : List Position) (p : Position) (sym : Sym) (h : p.symbol ≠ sym) :
    lookupPos (replacePos ps p) sym = lookupPos ps sym := by
  induction ps with
  | nil => rfl
  | cons r ps ih =>
    by_cases h1 : r.symbol = p.symbol
    · simp only [replacePos, h1, if_true, lookupPos, h, if_false]
    · simp only [replacePos, h1, if_false, lookupPos, ih]

theorem lookupPos_symbol {ps : List Position} {p : Position} {sym : Sym} (h : lookupPos ps sym = some p) :
    p.symbol = sym := by
  induction ps with
  | nil => cases h
  | cons r ps ih =>
    simp only [lookupPos] at h
    split at h
    · next hr => cases h; exact hr
    · exact ih h

theorem captureLong_swap (q r : BarQuote) (a : CaptureAcc) {x y : Sym} (h : x ≠ y) :
    captureLong r (captureLong q a x) y = captureLong q (captureLong r a y) x := by
  have e : ∀ (p : Position) (c : ℚ) lo hi, (p.markLong c lo hi).symbol = p.symbol := fun _ _ _ _ => rfl
  unfold captureLong
  cases hp : lookupPos a.pf.longs x with
  | none =>
    cases ho : lookupPos a.pf.longs y with
    | none => simp only [hp]
    | some o =>
      have oy := lookupPos_symbol ho
      cases hr : r.close with
      | none => simp only [hp]
      | some c =>
        simp only
        rw [lookupPos_replaced _ _ _ (by rw [e, oy]; exact Ne.symm h), hp]
  | some p =>
    have px := lookupPos_symbol hp
    cases ho : lookupPos a.pf.longs y with
    | none =>
      cases hq : q.close with
      | none => simp only [ho, hp]
      | some c =>
        simp only
        rw [lookupPos_replaced _ _ _ (by rw [e, px]; exact h), ho]
        simp only [hp]
    | some o =>
      have oy := lookupPos_symbol ho
      have hne : o.symbol ≠ x := by rw [oy]; exact Ne.symm h
      have hne2 : p.symbol ≠ y := by rw [px]; exact h
      have hne3 : p.symbol ≠ o.symbol := by rw [px, oy]; exact h
      cases hq : q.close with
      | none =>
        cases hr : r.close with
        | none => simp only [ho, hp, add_right_comm]
        | some c => simp only [lookupPos_replaced _ _ _ (show (o.markLong c r.low r.high).symbol ≠ x from hne), ho, hp,
            add_right_comm]
      | some b =>
        cases hr : r.close with
        | none => simp only [lookupPos_replaced _ _ _ (show (p.markLong b q.low q.high).symbol ≠ y from hne2), ho, hp,
            add_right_comm]
        | some c =>
          simp only [lookupPos_replaced _ _ _ (show (o.markLong c r.low r.high).symbol ≠ x from hne),
            lookupPos_replaced _ _ _ (show (p.markLong b q.low q.high).symbol ≠ y from hne2), ho, hp,
            add_right_comm, replacePos_swap _ (p.markLong b q.low q.high) (o.markLong c r.low r.high) hne3]

theorem captureShort_swap (q r : BarQuote) (a : CaptureAcc) {x y : Sym} (h : x ≠ y) :
    captureShort r (captureShort q a x) y = captureShort q (captureShort r a y) x := by
  have e : ∀ (p : Position) (c : ℚ) lo hi, (p.markShort c lo hi).symbol = p.symbol := fun _ _ _ _ => rfl
  unfold captureShort
  cases hp : lookupPos a.pf.shorts x with
  | none =>
    cases ho : lookupPos a.pf.shorts y with
    | none => simp only [hp]
    | some o =>
      have oy := lookupPos_symbol ho
      cases hr : r.close with
      | none => simp only [hp]
      | some c =>
        simp only
        rw [lookupPos_replaced _ _ _ (by rw [e, oy]; exact Ne.symm h), hp]
  | some p =>
    have px := lookupPos_symbol hp
    cases ho : lookupPos a.pf.shorts y with
    | none =>
      cases hq : q.close with
      | none => simp only [ho, hp]
      | some c =>
        simp only
        rw [lookupPos_replaced _ _ _ (by rw [e, px]; exact h), ho]
        simp only [hp]
    | some o =>
      have oy := lookupPos_symbol ho
      have hne : o.symbol ≠ x := by rw [oy]; exact Ne.symm h
      have hne2 : p.symbol ≠ y := by rw [px]; exact h
      have hne3 : p.symbol ≠ o.symbol := by rw [px, oy]; exact h
      cases hq : q.close with
      | none =>
        cases hr : r.close with
        | none => simp only [ho, hp, add_right_comm]
        | some c => simp only [lookupPos_replaced _ _ _ (show (o.markShort c r.low r.high).symbol ≠ x from hne), ho, hp,
            add_right_comm]
      | some b =>
        cases hr : r.close with
        | none => simp only [lookupPos_replaced _ _ _ (show (p.markShort b q.low q.high).symbol ≠ y from hne2), ho, hp,
            add_right_comm]
        | some c =>
          simp only [lookupPos_replaced _ _ _ (show (o.markShort c r.low r.high).symbol ≠ x from hne),
            lookupPos_replaced _ _ _ (show (p.markShort b q.low q.high).symbol ≠ y from hne2), ho, hp,
            add_right_comm, replacePos_swap _ (p.markShort b q.low q.high) (o.markShort c r.low r.high) hne3]

theorem captureLongShort_swap (q r : BarQuote) (a : CaptureAcc) (x y : Sym) :
    captureShort r (captureLong q a x) y = captureLong q (captureShort r a y) x := by
  unfold captureLong captureShort
  cases hp : lookupPos a.pf.longs x with
  | none =>
    cases ho : lookupPos a.pf.shorts y with
    | none => simp only [hp]
    | some o => cases hr : r.close <;> simp only [hp]
  | some p =>
    cases ho : lookupPos a.pf.shorts y with
    | none => cases hq : q.close <;> simp only [hp, ho]
    | some o =>
      cases hq : q.close <;> cases hr : r.close <;> simp only [hp, ho, add_right_comm]

theorem captureSym_swap (quote : Sym → BarQuote) (a : CaptureAcc) (x y : Sym) :
    captureSym quote (captureSym quote a x) y = captureSym quote (captureSym quote a y) x := by
  by_cases h : x = y
  · rw [h]
  · simp only [captureSym]
    rw [← captureLongShort_swap, captureLong_swap _ _ _ h, captureShort_swap _ _ _ h, captureLongShort_swap]

theorem captureBar_rename (hρ : Function.Injective ρ) {cfg cfg' : Config} (hc : RenamedConfig ρ cfg cfg')
    {quote quote' : Sym → BarQuote} (hq : ∀ s, quote' (ρ s) = quote s) (s : Portfolio) (date : Date) :
    captureBar cfg' (s.rename ρ) date quote' = (captureBar cfg s date quote).rename ρ := by
  have hf : ∀ (l : List Sym) (a : CaptureAcc),
      (l.map ρ).foldl (captureSym quote') (a.rename ρ) = (l.foldl (captureSym quote) a).rename ρ := by
    intro l
    induction l with
    | nil => intro a; rfl
    | cons x l ih =>
      intro a
      simp only [List.map_cons, List.foldl_cons]
      rw [← ih]
      congr 1
      simp only [captureSym, hq, captureLong_rename hρ, captureShort_rename hρ]
  have ha : captureAcc cfg' (s.rename ρ) quote' = (captureAcc cfg s quote).rename ρ := by
    unfold captureAcc
    simp only [applyInterest_rename hc, netCash_rename hc]
    rw [← hf]
    have hp : (((s.applyInterest cfg).rename ρ).symbols.insertionSort (fun a b => a ≤ b)).Perm
        (((s.applyInterest cfg).symbols.insertionSort (fun a b => a ≤ b)).map ρ) :=
      (List.perm_insertionSort _ _).trans ((List.perm_insertionSort _ _).symm.map ρ)
    exact hp.foldl_eq' (fun x _ y _ z => captureSym_swap quote' z x y) _
  have ht : ∀ a : CaptureAcc, captureTotals (a.rename ρ) = (captureTotals a).rename ρ := fun a => rfl
  have hr : ∀ (t : Portfolio) (v : ℚ), captureRecord cfg' (t.rename ρ) date v = captureRecord cfg t date v := by
    intro t v
    simp only [captureRecord, marginLoan_rename hc, netCash_rename hc, hc.cash]
    rfl
  unfold captureBar
  simp only [ha, ht, hr]
  rfl

end

end PyBroker
