import Verif.Portfolio.Units

/-!
# Another calendar (helper lemmas)

Every date of a portfolio renamed by `τ`, and the methods of the portfolio on it.
-/

namespace PyBroker

/-! ## Renamed dates -/

/-- An entry with its date renamed. -/
def Entry.redate (τ : Date → Date) (e : Entry) : Entry := { e with date := τ e.date }

/-- A position with the dates of its entries renamed. -/
def Position.redate (τ : Date → Date) (p : Position) : Position :=
  { p with entries := p.entries.map (Entry.redate τ) }

/-- A trade with its dates renamed. -/
def Trade.redate (τ : Date → Date) (t : Trade) : Trade :=
  { t with entryDate := τ t.entryDate, exitDate := τ t.exitDate }

/-- An order with its dates renamed. -/
def Order.redate (τ : Date → Date) (o : Order) : Order :=
  { o with date := τ o.date, created := o.created.map τ }

/-- A row of the portfolio table with its date renamed. -/
def PortfolioBar.redate (τ : Date → Date) (b : PortfolioBar) : PortfolioBar :=
  { b with date := τ b.date }

/-- A portfolio with all dates renamed. -/
def Portfolio.redate (τ : Date → Date) (s : Portfolio) : Portfolio :=
  { s with
    longs := s.longs.map (Position.redate τ)
    shorts := s.shorts.map (Position.redate τ)
    orders := s.orders.map (Order.redate τ)
    trades := s.trades.map (Trade.redate τ)
    metrics := s.metrics.map (PortfolioBar.redate τ) }

/-- The request of an order with its dates renamed. -/
def OrderReq.redate (τ : Date → Date) (r : OrderReq) : OrderReq :=
  { r with date := τ r.date, created := r.created.map τ }

/-! ## Books -/

section
variable (τ : Date → Date)

@[simp] theorem Position.redate_symbol (p : Position) : (p.redate τ).symbol = p.symbol := rfl
@[simp] theorem Position.redate_type (p : Position) : (p.redate τ).type = p.type := rfl
@[simp] theorem Position.redate_shares (p : Position) : (p.redate τ).shares = p.shares := rfl
@[simp] theorem Entry.redate_id (e : Entry) : (e.redate τ).id = e.id := rfl
@[simp] theorem Entry.redate_shares (e : Entry) : (e.redate τ).shares = e.shares := rfl

theorem lookupPos_redate (ps : List Position) (sym : Sym) :
    lookupPos (ps.map (Position.redate τ)) sym = (lookupPos ps sym).map (Position.redate τ) := by
  induction ps with
  | nil => rfl
  | cons p ps ih =>
    simp only [List.map_cons, lookupPos, Position.redate_symbol]
    by_cases h : p.symbol = sym <;> simp [h, ih]

theorem replacePos_redate (ps : List Position) (q : Position) :
    replacePos (ps.map (Position.redate τ)) (q.redate τ) = (replacePos ps q).map (Position.redate τ) := by
  induction ps with
  | nil => rfl
  | cons p ps ih =>
    simp only [List.map_cons, replacePos, Position.redate_symbol]
    by_cases h : p.symbol = q.symbol <;> simp [h, ih]

theorem erasePos_redate (ps : List Position) (sym : Sym) :
    erasePos (ps.map (Position.redate τ)) sym = (erasePos ps sym).map (Position.redate τ) := by
  induction ps with
  | nil => rfl
  | cons p ps ih =>
    simp only [List.map_cons, erasePos, Position.redate_symbol]
    by_cases h : p.symbol = sym <;> simp [h, ih]

theorem book_redate (s : Portfolio) (pt : PosType) :
    (s.redate τ).book pt = (s.book pt).map (Position.redate τ) := by cases pt <;> rfl

theorem setBook_redate (s : Portfolio) (pt : PosType) (ps : List Position) :
    (s.redate τ).setBook pt (ps.map (Position.redate τ)) = (s.setBook pt ps).redate τ := by
  cases pt <;> rfl

/-! ## Valuation -/

theorem markedValue_redate (p : Position) : (p.redate τ).markedValue = p.markedValue := rfl

theorem newestNotional_redate (es : List Entry) (rem : ℚ) :
    newestNotional (es.map (Entry.redate τ)) rem = newestNotional es rem := by
  induction es generalizing rem with
  | nil => rfl
  | cons e es ih =>
    simp only [List.map_cons, newestNotional, Entry.redate_shares, ih]
    rfl

theorem clampUnmarked_redate (p : Position) : (p.redate τ).clampUnmarked = p.clampUnmarked.redate τ := by
  simp only [Position.clampUnmarked]
  have h : newestNotional (p.redate τ).entries.reverse p.shares
      = newestNotional p.entries.reverse p.shares := by
    rw [← newestNotional_redate τ p.entries.reverse p.shares, List.map_reverse]; rfl
  have hu : (p.redate τ).unmarkedShares = p.unmarkedShares := rfl
  simp only [Position.redate_shares, h, hu]
  split_ifs <;> rfl

theorem sumMarked_redate (ps : List Position) :
    sumMarked (ps.map (Position.redate τ)) = sumMarked ps := by
  simp only [sumMarked, List.map_map]
  rfl

/-- A number and a portfolio with its dates renamed. -/
def pairRedate {α : Type} (τ : Date → Date) (x : α × Portfolio) : α × Portfolio := (x.1, x.2.redate τ)

theorem longMarketValue_redate (s : Portfolio) :
    (s.redate τ).longMarketValue = pairRedate τ s.longMarketValue := by
  unfold Portfolio.longMarketValue
  have e : sumMarked (s.redate τ).longs = sumMarked s.longs := sumMarked_redate τ _
  rw [show (s.redate τ).cachedLongMv = s.cachedLongMv from rfl, e]
  cases s.cachedLongMv <;> rfl

theorem shortMarketValue_redate (s : Portfolio) :
    (s.redate τ).shortMarketValue = pairRedate τ s.shortMarketValue := by
  unfold Portfolio.shortMarketValue
  have e : sumMarked (s.redate τ).shorts = sumMarked s.shorts := sumMarked_redate τ _
  rw [show (s.redate τ).cachedShortMv = s.cachedShortMv from rfl, e]
  cases s.cachedShortMv <;> rfl

theorem postCollateral_redate (cfg : Config) (s : Portfolio) (n : ℚ) :
    (s.redate τ).postCollateral cfg n = (s.postCollateral cfg n).redate τ := by
  simp only [Portfolio.postCollateral]
  split_ifs <;> rfl

theorem releaseCollateral_redate (cfg : Config) (s : Portfolio) (n p : ℚ) :
    (s.redate τ).releaseCollateral cfg n p = (s.releaseCollateral cfg n p).redate τ := by
  simp only [Portfolio.releaseCollateral]
  split_ifs <;> rfl

theorem marginLoan_redate (cfg : Config) (s : Portfolio) :
    (s.redate τ).marginLoan cfg = s.marginLoan cfg := rfl

theorem netCash_redate (cfg : Config) (s : Portfolio) :
    (s.redate τ).netCash cfg = s.netCash cfg := rfl

theorem liveMarketValue_redate (cfg : Config) (s : Portfolio) :
    (s.redate τ).liveMarketValue cfg = pairRedate τ (s.liveMarketValue cfg) := by
  simp only [Portfolio.liveMarketValue, longMarketValue_redate, pairRedate, shortMarketValue_redate]
  rfl

theorem availableBuyingPower_redate (cfg : Config) (s : Portfolio) :
    (s.redate τ).availableBuyingPower cfg = pairRedate τ (s.availableBuyingPower cfg) := by
  simp only [Portfolio.availableBuyingPower]
  split_ifs
  · rfl
  · simp only [longMarketValue_redate, pairRedate, shortMarketValue_redate, liveMarketValue_redate]

theorem sweepAccrued_redate (s : Portfolio) : (s.redate τ).sweepAccrued = s.sweepAccrued.redate τ := by
  have h1 : (s.redate τ).accrued = s.accrued := rfl
  have h2 : (s.redate τ).cash = s.cash := rfl
  simp only [Portfolio.sweepAccrued, h1, h2]
  split_ifs <;> rfl

theorem applyInterest_redate (cfg : Config) (s : Portfolio) :
    (s.redate τ).applyInterest cfg = (s.applyInterest cfg).redate τ := by
  simp only [Portfolio.applyInterest]
  cases cfg.barsPerYear with
  | none => rfl
  | some b =>
    simp only [sweepAccrued_redate, netCash_redate]
    split_ifs <;> rfl

theorem clampShares_redate (cfg : Config) (s : Portfolio) (sym : Sym) (fill shares : ℚ) (side : Side) :
    (s.redate τ).clampShares cfg sym fill shares side =
      pairRedate τ (s.clampShares cfg sym fill shares side) := by
  have h2 : (s.redate τ).cash = s.cash := rfl
  simp only [Portfolio.clampShares, availableBuyingPower_redate, pairRedate, h2]
  split_ifs <;> rfl

/-! ## Logs and stops -/

theorem addOrder_redate (cfg : Config) (s : Portfolio) (date : Date) (sym : Sym) (side : Side)
    (created : Option Date) (ot : OrderType) (intent : Intent) (shares : ℚ)
    (limit market : Option ℚ) (fill : ℚ) :
    (s.redate τ).addOrder cfg (τ date) sym side (created.map τ) ot intent shares limit market fill =
      (((s.addOrder cfg date sym side created ot intent shares limit market fill).1).redate τ,
        ((s.addOrder cfg date sym side created ot intent shares limit market fill).2).redate τ) := by
  simp only [Portfolio.addOrder]
  simp [Order.redate, Portfolio.redate]

theorem addTrade_redate (s : Portfolio) (t : Trade) :
    (s.redate τ).addTrade (t.redate τ) = (s.addTrade t).redate τ := by
  simp [Portfolio.addTrade, Portfolio.redate, Trade.redate]

theorem addStopStep_redate (id : Nat) (price : ℚ) (acc : List Stop × Portfolio) (st : Stop) :
    addStopStep id price (pairRedate τ acc) st = (addStopStep id price acc st).map (pairRedate τ) := by
  unfold addStopStep
  rw [show (pairRedate τ acc).2.stopData = acc.2.stopData from rfl]
  cases lookupStop acc.2.stopData st.id with
  | some d => rfl
  | none =>
    simp only
    by_cases hb : st.stopType = .bar
    · simp only [if_pos hb]; rfl
    · simp only [if_neg hb]
      cases stopAmount st price <;> rfl

theorem addStops_redate (s : Portfolio) (id : Nat) (price : ℚ) (stops : List Stop) :
    addStops (s.redate τ) id price stops = (addStops s id price stops).map (pairRedate τ) := by
  unfold addStops
  have := foldE_map (addStopStep id price) (addStopStep id price) (pairRedate τ) _root_.id
    (addStopStep_redate τ id price) ([], s)
    (stops.insertionSort (fun a b => a.id ≤ b.id))
  rw [List.map_id] at this
  exact this

theorem removeStopData_redate (s : Portfolio) (stops : List Stop) :
    (s.redate τ).removeStopData stops = (s.removeStopData stops).redate τ := by
  induction stops generalizing s with
  | nil => rfl
  | cons st stops ih =>
    simp only [Portfolio.removeStopData]
    rw [show (s.redate τ).stopData = s.stopData from rfl]
    cases lookupStop s.stopData st.id with
    | none => exact ih s
    | some d =>
      simp only
      rw [← ih]
      rfl

/-! ## Exits -/

theorem modEntry_redate (id : Nat) (f g : Entry → Entry) (h : ∀ e, g (e.redate τ) = (f e).redate τ)
    (es : List Entry) : modEntry id g (es.map (Entry.redate τ)) = (modEntry id f es).map (Entry.redate τ) := by
  induction es with
  | nil => rfl
  | cons e es ih =>
    simp only [List.map_cons, modEntry, Entry.redate_id]
    by_cases he : e.id = id <;> simp [he, ih, h]

theorem takeShares_redate (p : Position) (e : Entry) (n : ℚ) :
    (p.redate τ).takeShares (e.redate τ) n = (p.takeShares e n).redate τ := by
  unfold Position.takeShares
  rw [← clampUnmarked_redate]
  congr 1
  have h := modEntry_redate τ e.id (fun e' => { e' with shares := e'.shares - n })
    (fun e' => { e' with shares := e'.shares - n }) (fun _ => rfl) p.entries
  simp only [Position.redate, Position.mk.injEq, true_and, and_true, Entry.redate_id]
  exact ⟨h, rfl⟩

/-- A portfolio and a position with their dates renamed. -/
def exitRedate (τ : Date → Date) (x : Portfolio × Position) : Portfolio × Position :=
  (x.1.redate τ, x.2.redate τ)

theorem exitLong_redate (cfg : Config) (s : Portfolio) (p : Position) (e : Entry) (n fill : ℚ)
    (date : Date) (t : Option StopType) :
    exitLong cfg (s.redate τ) (p.redate τ) (e.redate τ) n fill (τ date) t =
      exitRedate τ (exitLong cfg s p e n fill date t) := by
  unfold exitLong exitRedate
  have e5 : ∀ x : ℚ, ({ s.redate τ with pnl := (s.redate τ).pnl + x } : Portfolio) =
      ({ s with pnl := s.pnl + x } : Portfolio).redate τ := fun _ => rfl
  have e2 : (e.redate τ).price = e.price := rfl
  simp only [e2, e5, takeShares_redate, releaseCollateral_redate]
  generalize Portfolio.releaseCollateral cfg _ (n * e.price) (n * fill - n * e.price) = X
  rw [Prod.mk.injEq]
  refine ⟨?_, rfl⟩
  rw [show ∀ s : Portfolio, s.invalidate.redate τ = (s.redate τ).invalidate from fun _ => rfl,
    ← addTrade_redate]
  rfl

theorem exitShort_redate (cfg : Config) (s : Portfolio) (p : Position) (e : Entry) (n fill : ℚ)
    (date : Date) (t : Option StopType) :
    exitShort cfg (s.redate τ) (p.redate τ) (e.redate τ) n fill (τ date) t =
      exitRedate τ (exitShort cfg s p e n fill date t) := by
  unfold exitShort exitRedate
  have e5 : ∀ x : ℚ, ({ s.redate τ with pnl := (s.redate τ).pnl + x } : Portfolio) =
      ({ s with pnl := s.pnl + x } : Portfolio).redate τ := fun _ => rfl
  have e2 : (e.redate τ).price = e.price := rfl
  simp only [e2, e5, takeShares_redate, releaseCollateral_redate]
  generalize Portfolio.releaseCollateral cfg _ (n * e.price) (n * e.price - n * fill) = X
  rw [Prod.mk.injEq]
  refine ⟨?_, rfl⟩
  rw [show ∀ s : Portfolio, s.invalidate.redate τ = (s.redate τ).invalidate from fun _ => rfl,
    ← addTrade_redate]
  rfl

theorem exitEntry_redate (cfg : Config) (pt : PosType) (s : Portfolio) (p : Position) (e : Entry)
    (n fill : ℚ) (date : Date) (t : Option StopType) :
    exitEntry cfg pt (s.redate τ) (p.redate τ) (e.redate τ) n fill (τ date) t =
      exitRedate τ (exitEntry cfg pt s p e n fill date t) := by
  cases pt
  · exact exitLong_redate τ ..
  · exact exitShort_redate τ ..

theorem updatePosition_redate (s : Portfolio) (p : Position) :
    (s.redate τ).updatePosition (p.redate τ) = (s.updatePosition p).redate τ := by
  unfold Portfolio.updatePosition
  have h1 : (p.redate τ).entries = p.entries.map (Entry.redate τ) := rfl
  simp only [h1, Position.redate_type, Position.redate_symbol, book_redate, replacePos_redate,
    erasePos_redate, setBook_redate, ne_eq, List.map_eq_nil_iff]
  by_cases h : p.entries = []
  · simp only [h, not_true_eq_false, if_false]
    have h2 : ∀ t : Portfolio, (t.redate τ).symbols = t.symbols := fun _ => rfl
    have h3 : ∀ t : Portfolio, lookupPos (t.redate τ).longs p.symbol = none ↔
        lookupPos t.longs p.symbol = none := fun t => by
      rw [show (t.redate τ).longs = t.longs.map (Position.redate τ) from rfl, lookupPos_redate]
      simp
    have h4 : ∀ t : Portfolio, lookupPos (t.redate τ).shorts p.symbol = none ↔
        lookupPos t.shorts p.symbol = none := fun t => by
      rw [show (t.redate τ).shorts = t.shorts.map (Position.redate τ) from rfl, lookupPos_redate]
      simp
    simp only [h2, h3, h4]
    split_ifs <;> rfl
  · simp only [h, not_false_eq_true, if_true]

/-- The result of a loop of exits with its dates renamed. -/
def ExitResult.redate (τ : Date → Date) (r : ExitResult) : ExitResult := ⟨r.rem, r.pf.redate τ, r.pos.redate τ⟩

theorem exitLoop_redate (cfg : Config) (pt : PosType) (date : Date) (fill : ℚ) (es : List Entry)
    (rem : ℚ) (s : Portfolio) (p : Position) :
    exitLoop cfg pt (τ date) fill (es.map (Entry.redate τ)) rem (s.redate τ) (p.redate τ) =
      (exitLoop cfg pt date fill es rem s p).redate τ := by
  induction es generalizing rem s p with
  | nil => rfl
  | cons e es ih =>
    simp only [List.map_cons, exitLoop, Entry.redate_shares, exitEntry_redate, exitRedate]
    by_cases h1 : rem > 0
    · simp only [if_pos h1]
      by_cases h2 : rem ≥ e.shares
      · simp only [if_pos h2]
        rw [← ih]
        congr 1
        · exact removeStopData_redate τ _ _
        · simp only [Position.redate, List.map_tail]
      · simp only [if_neg h2]
        rfl
    · simp only [if_neg h1]
      rfl

/-- The result of an order with its dates renamed. -/
def OrderResult.redate (τ : Date → Date) (r : OrderResult) : OrderResult := ⟨r.filled, r.rem, r.pf.redate τ⟩

theorem cover_redate (cfg : Config) (s : Portfolio) (date : Date) (sym : Sym) (n fill : ℚ) :
    cover cfg (s.redate τ) (τ date) sym n fill = (cover cfg s date sym n fill).redate τ := by
  unfold cover
  rw [show (s.redate τ).shorts = s.shorts.map (Position.redate τ) from rfl, lookupPos_redate]
  cases lookupPos s.shorts sym with
  | none => rfl
  | some p =>
    simp only [Option.map_some]
    by_cases h : n ≤ 0
    · rw [if_pos h, if_pos h]; rfl
    · rw [if_neg h, if_neg h]
      rw [show (p.redate τ).entries = p.entries.map (Entry.redate τ) from rfl, exitLoop_redate]
      simp only [ExitResult.redate, OrderResult.redate, updatePosition_redate]

theorem sellExisting_redate (cfg : Config) (s : Portfolio) (date : Date) (sym : Sym) (n fill : ℚ) :
    sellExisting cfg (s.redate τ) (τ date) sym n fill =
      (sellExisting cfg s date sym n fill).redate τ := by
  unfold sellExisting
  rw [show (s.redate τ).longs = s.longs.map (Position.redate τ) from rfl, lookupPos_redate]
  cases lookupPos s.longs sym with
  | none => rfl
  | some p =>
    simp only [Option.map_some]
    rw [show (p.redate τ).entries = p.entries.map (Entry.redate τ) from rfl, exitLoop_redate]
    simp only [ExitResult.redate, OrderResult.redate, updatePosition_redate]

/-! ## Opening positions -/

theorem openShares_redate (cfg : Config) (pt : PosType) (s : Portfolio) (date : Date) (sym : Sym)
    (n fill : ℚ) (stops : List Stop) :
    openShares cfg pt (s.redate τ) (τ date) sym n fill stops =
      (openShares cfg pt s date sym n fill stops).map (pairRedate τ) := by
  unfold openShares
  simp only [postCollateral_redate]
  generalize s.postCollateral cfg (n * fill) = s1
  have e2 : ({ s1.redate τ with entryId := (s1.redate τ).entryId + 1 } : Portfolio) =
      ({ s1 with entryId := s1.entryId + 1 } : Portfolio).redate τ := rfl
  have e3 : (s1.redate τ).entryId = s1.entryId := rfl
  rw [e2, e3, addStops_redate]
  cases addStops { s1 with entryId := s1.entryId + 1 } (s1.entryId + 1) fill stops with
  | error e => rfl
  | ok x =>
    obtain ⟨es, s3⟩ := x
    simp only [Except.map, pairRedate, Except.ok.injEq, Prod.mk.injEq, true_and]
    simp only [book_redate, lookupPos_redate]
    cases lookupPos (s3.book pt) sym with
    | none =>
      simp only [Option.map_none]
      cases pt <;>
        simp [Portfolio.setBook, Portfolio.book, Portfolio.redate, Position.addUnmarked,
          Position.redate, Entry.redate, Portfolio.invalidate]
    | some p0 =>
      simp only [Option.map_some]
      have e4 : ∀ (q q' : Position), q' = q.redate τ →
          replacePos ((s3.book pt).map (Position.redate τ)) q' =
            (replacePos (s3.book pt) q).map (Position.redate τ) := fun q q' h => by
        rw [h, replacePos_redate]
      rw [e4 (q := { (({ p0 with shares := p0.shares + n } : Position).addUnmarked n fill) with
          entries := (({ p0 with shares := p0.shares + n } : Position).addUnmarked n fill).entries ++
            [{ id := s1.entryId + 1, date := date, symbol := sym, shares := n, price := fill,
               type := pt, stops := es }]
          entryNotional :=
            (({ p0 with shares := p0.shares + n } : Position).addUnmarked n fill).entryNotional + n * fill })]
      · rw [setBook_redate]
        cases pt <;> simp [Portfolio.redate, Portfolio.setBook, Portfolio.invalidate]
      · simp [Position.addUnmarked, Position.redate, Entry.redate]

theorem capReached_redate (cap : Option Nat) (ps : List Position) (sym : Sym) :
    capReached cap (ps.map (Position.redate τ)) sym = capReached cap ps sym := by
  cases cap with
  | none => rfl
  | some m => simp [capReached, lookupPos_redate]

theorem openLong_redate (cfg : Config) (s : Portfolio) (date : Date) (sym : Sym) (n fill : ℚ)
    (stops : List Stop) :
    openLong cfg (s.redate τ) (τ date) sym n fill stops =
      (openLong cfg s date sym n fill stops).map (pairRedate τ) := by
  unfold openLong
  simp only [clampShares_redate, pairRedate]
  generalize s.clampShares cfg sym fill n .buy = c
  have e3 : capReached cfg.maxLong (c.2.redate τ).longs sym = capReached cfg.maxLong c.2.longs sym :=
    capReached_redate τ _ _ _
  simp only [e3, openShares_redate]
  split_ifs <;> rfl

theorem openShort_redate (cfg : Config) (s : Portfolio) (date : Date) (sym : Sym) (n fill : ℚ)
    (stops : List Stop) :
    openShort cfg (s.redate τ) (τ date) sym n fill stops =
      (openShort cfg s date sym n fill stops).map (pairRedate τ) := by
  unfold openShort
  have e3 : capReached cfg.maxShort (s.redate τ).shorts sym = capReached cfg.maxShort s.shorts sym :=
    capReached_redate τ _ _ _
  simp only [e3, clampShares_redate, pairRedate, openShares_redate]
  split_ifs <;> rfl

/-! ## Orders -/

/-- The order placed, if any, and the portfolio with their dates renamed. -/
def placedRedate (τ : Date → Date) (x : Option Order × Portfolio) : Option Order × Portfolio :=
  (x.1.map (Order.redate τ), x.2.redate τ)

theorem buy_redate (cfg : Config) (s : Portfolio) (r : OrderReq) :
    buy cfg (s.redate τ) (r.redate τ) = (buy cfg s r).map (placedRedate τ) := by
  unfold buy
  simp only [OrderReq.redate, cover_redate]
  cases verifyInput r.shares r.fill r.limit with
  | error e => rfl
  | ok u =>
    simp only
    by_cases h1 : buyLimitBlocks r.limit r.fill
    · simp only [if_pos h1]; rfl
    · simp only [if_neg h1]
      by_cases h2 : r.shares = 0
      · simp only [if_pos h2]; rfl
      · simp only [if_neg h2, OrderResult.redate, openLong_redate]
        cases openLong cfg (cover cfg s r.date r.symbol r.shares r.fill).pf r.date r.symbol
          (cover cfg s r.date r.symbol r.shares r.fill).rem r.fill r.stops with
        | error e => rfl
        | ok x =>
          obtain ⟨b, s2⟩ := x
          simp only [Except.map, pairRedate, addOrder_redate]
          split_ifs <;> rfl

theorem sell_redate (cfg : Config) (s : Portfolio) (r : OrderReq) :
    sell cfg (s.redate τ) (r.redate τ) = (sell cfg s r).map (placedRedate τ) := by
  unfold sell
  simp only [OrderReq.redate, sellExisting_redate]
  cases verifyInput r.shares r.fill r.limit with
  | error e => rfl
  | ok u =>
    simp only
    by_cases h1 : sellLimitBlocks r.limit r.fill
    · simp only [if_pos h1]; rfl
    · simp only [if_neg h1]
      by_cases h2 : r.shares = 0
      · simp only [if_pos h2]; rfl
      · simp only [if_neg h2, OrderResult.redate, openShort_redate]
        cases openShort cfg (sellExisting cfg s r.date r.symbol r.shares r.fill).pf r.date r.symbol
          (sellExisting cfg s r.date r.symbol r.shares r.fill).rem r.fill r.stops with
        | error e => rfl
        | ok x =>
          obtain ⟨b, s2⟩ := x
          simp only [Except.map, pairRedate, addOrder_redate]
          split_ifs <;> rfl

theorem exitPosition_redate (cfg : Config) (s : Portfolio) (date : Date) (sym : Sym) (b q : ℚ)
    (slip : Option SlipFn) :
    exitPosition cfg (s.redate τ) (τ date) sym b q slip =
      (exitPosition cfg s date sym b q slip).map (Portfolio.redate τ) := by
  unfold exitPosition
  have hs : ∀ (t : Portfolio) (n f : ℚ), sell cfg (t.redate τ)
      { date := τ date, symbol := sym, shares := n, fill := f, marketPrice := some q } =
      (sell cfg t
        { date := date, symbol := sym, shares := n,
          fill := f, marketPrice := some q }).map (placedRedate τ) := fun t n f => by
    rw [← sell_redate]; rfl
  have hb : ∀ (t : Portfolio) (n f : ℚ), buy cfg (t.redate τ)
      { date := τ date, symbol := sym, shares := n, fill := f, marketPrice := some b } =
      (buy cfg t
        { date := date, symbol := sym, shares := n,
          fill := f, marketPrice := some b }).map (placedRedate τ) := fun t n f => by
    rw [← buy_redate]; rfl
  have second : ∀ t : Portfolio,
      (match lookupPos (t.redate τ).shorts sym with
        | none => (.ok (t.redate τ) : Except Err Portfolio)
        | some p =>
          match buy cfg (t.redate τ)
            { date := τ date, symbol := sym, shares := p.shares,
              fill := slipPrice slip .buy sym p.shares b, marketPrice := some b } with
          | .error e => .error e
          | .ok (_, s2) => .ok s2) =
      (match lookupPos t.shorts sym with
        | none => (.ok t : Except Err Portfolio)
        | some p =>
          match buy cfg t
            { date := date, symbol := sym, shares := p.shares,
              fill := slipPrice slip .buy sym p.shares b, marketPrice := some b } with
          | .error e => .error e
          | .ok (_, s2) => .ok s2).map (Portfolio.redate τ) := fun t => by
    rw [show (t.redate τ).shorts = t.shorts.map (Position.redate τ) from rfl, lookupPos_redate]
    cases lookupPos t.shorts sym with
    | none => rfl
    | some p =>
      simp only [Option.map_some, Position.redate_shares, hb]
      cases buy cfg t _ with
      | error e => rfl
      | ok x => rfl
  rw [show (s.redate τ).longs = s.longs.map (Position.redate τ) from rfl, lookupPos_redate]
  cases lookupPos s.longs sym with
  | none => exact second s
  | some p =>
    simp only [Option.map_some, Position.redate_shares, hs]
    cases sell cfg s _ with
    | error e => rfl
    | ok x => exact second x.2

/-! ## The end of a bar -/

theorem calcPnl_redate (p : Position) (c : ℚ) (lo hi : Option ℚ) :
    (p.redate τ).calcPnl c lo hi = (p.calcPnl c lo hi).redate τ := by
  simp only [Position.calcPnl, Position.redate, List.map_map, Position.mk.injEq, true_and, and_true]
  exact ⟨rfl, rfl⟩

theorem markLong_redate (p : Position) (c : ℚ) (lo hi : Option ℚ) :
    (p.redate τ).markLong c lo hi = (p.markLong c lo hi).redate τ := by
  unfold Position.markLong
  simp only [calcPnl_redate]
  rfl

theorem markShort_redate (p : Position) (c : ℚ) (lo hi : Option ℚ) :
    (p.redate τ).markShort c lo hi = (p.markShort c lo hi).redate τ := by
  unfold Position.markShort
  simp only [calcPnl_redate]
  rfl

/-- The accumulators of a capture with dates renamed. -/
def CaptureAcc.redate (τ : Date → Date) (a : CaptureAcc) : CaptureAcc :=
  ⟨a.pf.redate τ, a.equity, a.marketValue, a.margin, a.longValue⟩

theorem captureLong_redate (q : BarQuote) (a : CaptureAcc) (sym : Sym) :
    captureLong q (a.redate τ) sym = (captureLong q a sym).redate τ := by
  unfold captureLong
  rw [show (a.redate τ).pf.longs = a.pf.longs.map (Position.redate τ) from rfl, lookupPos_redate]
  cases lookupPos a.pf.longs sym with
  | none => rfl
  | some p =>
    simp only [Option.map_some]
    cases q.close with
    | none => rfl
    | some c =>
      simp only [markLong_redate, replacePos_redate]
      rfl

theorem captureShort_redate (q : BarQuote) (a : CaptureAcc) (sym : Sym) :
    captureShort q (a.redate τ) sym = (captureShort q a sym).redate τ := by
  unfold captureShort
  rw [show (a.redate τ).pf.shorts = a.pf.shorts.map (Position.redate τ) from rfl, lookupPos_redate]
  cases lookupPos a.pf.shorts sym with
  | none => rfl
  | some p =>
    simp only [Option.map_some]
    cases q.close with
    | none => rfl
    | some c =>
      simp only [markShort_redate, replacePos_redate]
      rfl

theorem captureBar_redate (cfg : Config) (s : Portfolio) (date : Date) (quote : Sym → BarQuote) :
    captureBar cfg (s.redate τ) (τ date) quote = (captureBar cfg s date quote).redate τ := by
  have hf : ∀ (l : List Sym) (a : CaptureAcc),
      l.foldl (captureSym quote) (a.redate τ) = (l.foldl (captureSym quote) a).redate τ := by
    intro l
    induction l with
    | nil => intro a; rfl
    | cons x l ih =>
      intro a
      simp only [List.foldl_cons]
      rw [← ih]
      congr 1
      simp only [captureSym, captureLong_redate, captureShort_redate]
  have ha : captureAcc cfg (s.redate τ) quote = (captureAcc cfg s quote).redate τ := by
    unfold captureAcc
    simp only [applyInterest_redate, netCash_redate]
    rw [← hf]
    rfl
  have ht : ∀ a : CaptureAcc, captureTotals (a.redate τ) = (captureTotals a).redate τ := fun a => rfl
  unfold captureBar
  simp only [ha, ht]
  generalize captureAcc cfg s quote = a
  simp only [Portfolio.redate, List.map_append, List.map_cons, List.map_nil]
  rfl

theorem incrBars_redate (s : Portfolio) (hb : Sym → Bool) :
    incrBars (s.redate τ) hb = (incrBars s hb).redate τ := by
  have h : ∀ p : Position, (p.redate τ).incrBars hb = (p.incrBars hb).redate τ := fun p => by
    simp only [Position.incrBars, Position.redate, List.map_map, Position.mk.injEq, true_and, and_true]
    apply List.map_congr_left
    intro e _
    rfl
  simp only [incrBars, Portfolio.redate, List.map_map, Portfolio.mk.injEq, true_and, and_true]
  exact ⟨List.map_congr_left (fun p _ => h p), List.map_congr_left (fun p _ => h p)⟩

/-! ## Stops -/

theorem stopFill_redate (env : StopEnv) (s : Portfolio) (e : Entry) (st : Stop) :
    stopFill env (s.redate τ) (e.redate τ) st = (stopFill env s e st).map (pairRedate τ) := by
  simp only [stopFill]
  rw [show (s.redate τ).stopData = s.stopData from rfl, show (e.redate τ).symBars = e.symBars from rfl]
  cases st.stopType with
  | bar =>
    simp only
    cases triggerBar env st e.symBars <;> rfl
  | loss =>
    simp only
    cases lookupStop s.stopData st.id <;> rfl
  | profit =>
    simp only
    cases lookupStop s.stopData st.id <;> rfl
  | trailing =>
    simp only
    cases lookupStop s.stopData st.id with
    | none => rfl
    | some d =>
      simp only
      cases triggerTrailing env st d.value <;> rfl

theorem triggerStop_redate (cfg : Config) (env : StopEnv) (date : Date) (s : Portfolio) (p : Position)
    (e : Entry) (st : Stop) :
    triggerStop cfg env (τ date) (s.redate τ) (p.redate τ) (e.redate τ) st =
      (triggerStop cfg env date s p e st).map (pairRedate τ) := by
  have h1 : lookupPos ((s.redate τ).book st.posType) st.symbol = none ↔
      lookupPos (s.book st.posType) st.symbol = none := by
    rw [book_redate, lookupPos_redate]; simp
  simp only [triggerStop, stopFill_redate]
  by_cases h : lookupPos (s.book st.posType) st.symbol = none
  · simp only [h1.2 h, h, if_true]; rfl
  · have h' : ¬ (lookupPos ((s.redate τ).book st.posType) st.symbol = none) := fun hc => h (h1.1 hc)
    simp only [h', h, if_false]
    cases stopFill env s e st with
    | error err => rfl
    | ok x =>
      obtain ⟨f, s1⟩ := x
      cases f with
      | none => rfl
      | some m =>
        simp only [Except.map, pairRedate, Entry.redate_shares]
        by_cases hl : stopLimitBlocks st (slipStopFill env st e.shares m)
        · simp only [hl, if_true]
        · simp only [hl, Bool.false_eq_true, if_false, exitEntry_redate, exitRedate, Position.redate_type, book_redate,
            replacePos_redate, setBook_redate, Position.redate_symbol]
          have := addOrder_redate τ cfg
            ((exitEntry cfg st.posType s1 p e e.shares (slipStopFill env st e.shares m) date
              (some st.stopType)).1.setBook p.type
                (replacePos ((exitEntry cfg st.posType s1 p e e.shares
                  (slipStopFill env st e.shares m) date (some st.stopType)).1.book p.type)
                  (exitEntry cfg st.posType s1 p e e.shares (slipStopFill env st e.shares m) date
                    (some st.stopType)).2)) date p.symbol st.exitSide none
            (stopOrderType st.stopType) st.exitIntent e.shares st.limitPrice (some m)
            (slipStopFill env st e.shares m)
          simp only [Option.map_none] at this
          rw [this]

theorem findEntry_redate (es : List Entry) (id : Nat) :
    findEntry (es.map (Entry.redate τ)) id = (findEntry es id).map (Entry.redate τ) := by
  simp only [findEntry]
  rw [List.find?_map]
  rfl

/-- The state of the loop over stops with dates renamed. -/
def checkRedate (τ : Date → Date) (x : Portfolio × List StopCheck) : Portfolio × List StopCheck :=
  (x.1.redate τ, x.2)

theorem checkOne_redate (cfg : Config) (env : StopEnv) (date : Date)
    (acc : Portfolio × List StopCheck) (c : StopCheck) :
    checkOne cfg env (τ date) (checkRedate τ acc) c =
      (checkOne cfg env date acc c).map (checkRedate τ) := by
  have h3 : lookupPos ((checkRedate τ acc).1.book c.posType) c.symbol =
      (lookupPos (acc.1.book c.posType) c.symbol).map (Position.redate τ) := by
    simp only [checkRedate, book_redate, lookupPos_redate]
  simp only [checkOne, h3]
  rw [show (checkRedate τ acc).2 = acc.2 from rfl]
  by_cases h : c.entryId ∈ acc.2.map StopCheck.entryId
  · simp only [if_pos h]; rfl
  · simp only [if_neg h]
    cases lookupPos (acc.1.book c.posType) c.symbol with
    | none => rfl
    | some p =>
      simp only [Option.map_some]
      rw [show (p.redate τ).entries = p.entries.map (Entry.redate τ) from rfl, findEntry_redate]
      cases findEntry p.entries c.entryId with
      | none => rfl
      | some e =>
        simp only [Option.map_some]
        rw [show (checkRedate τ acc).1 = acc.1.redate τ from rfl, triggerStop_redate]
        cases triggerStop cfg env date acc.1 p e c.stop with
        | error err => rfl
        | ok x =>
          obtain ⟨b, s1⟩ := x
          cases b <;> rfl

theorem priceChecks_redate (env : StopEnv) (s : Portfolio) :
    priceChecks env (s.redate τ) = priceChecks env s := rfl

theorem barChecks_redate (env : StopEnv) (s : Portfolio) :
    barChecks env (s.redate τ) = barChecks env s := by
  unfold barChecks
  rw [show (s.redate τ).longs = s.longs.map (Position.redate τ) from rfl,
    show (s.redate τ).shorts = s.shorts.map (Position.redate τ) from rfl, ← List.map_append,
    List.flatMap_map]
  congr 1
  funext p
  simp only [Position.redate_symbol]
  by_cases hp : env.canPrice p.symbol = true
  · simp only [hp, if_true]
    rw [show (p.redate τ).entries = p.entries.map (Entry.redate τ) from rfl, List.flatMap_map]
    rfl
  · simp only [hp, Bool.false_eq_true, if_false]

theorem eraseEntry_redate (es : List Entry) (id : Nat) :
    eraseEntry (es.map (Entry.redate τ)) id = (eraseEntry es id).map (Entry.redate τ) := by
  induction es with
  | nil => rfl
  | cons e es ih =>
    simp only [List.map_cons, eraseEntry, Entry.redate_id]
    by_cases h : e.id = id <;> simp [h, ih]

theorem finishStop_redate (s : Portfolio) (c : StopCheck) :
    finishStop (s.redate τ) c = (finishStop s c).redate τ := by
  simp only [finishStop, book_redate, lookupPos_redate]
  cases lookupPos (s.book c.posType) c.symbol with
  | none => rfl
  | some p =>
    simp only [Option.map_some]
    rw [show (p.redate τ).entries = p.entries.map (Entry.redate τ) from rfl, findEntry_redate]
    cases findEntry p.entries c.entryId with
    | none => rfl
    | some e =>
      simp only [Option.map_some, eraseEntry_redate]
      rw [← updatePosition_redate, ← removeStopData_redate]
      rfl

theorem checkStops_redate (cfg : Config) (s : Portfolio) (date : Date) (env : StopEnv) :
    checkStops cfg (s.redate τ) (τ date) env = (checkStops cfg s date env).map (Portfolio.redate τ) := by
  have hfold : ∀ (b : Portfolio × List StopCheck) (l : List StopCheck),
      foldE (checkOne cfg env (τ date)) (checkRedate τ b) l =
        (foldE (checkOne cfg env date) b l).map (checkRedate τ) := fun b l => by
    have := foldE_map (checkOne cfg env date) (checkOne cfg env (τ date))
      (checkRedate τ) id (fun b a => checkOne_redate τ cfg env date b a) b l
    rwa [List.map_id] at this
  have hfin : ∀ (l : List StopCheck) (t : Portfolio),
      l.foldl finishStop (t.redate τ) = (l.foldl finishStop t).redate τ := by
    intro l
    induction l with
    | nil => intro t; rfl
    | cons c l ih =>
      intro t
      simp only [List.foldl_cons, finishStop_redate, ih]
  simp only [checkStops, priceChecks_redate]
  have h1 := hfold (s, []) (priceChecks env s)
  rw [show checkRedate τ (s, []) = (s.redate τ, []) from rfl] at h1
  rw [h1]
  cases foldE (checkOne cfg env date) (s, []) (priceChecks env s) with
  | error e => rfl
  | ok acc =>
    simp only [Except.map]
    rw [show (checkRedate τ acc).1 = acc.1.redate τ from rfl, barChecks_redate, hfold]
    cases foldE (checkOne cfg env date) acc (barChecks env acc.1) with
    | error e => rfl
    | ok acc2 =>
      simp only [Except.map]
      exact congrArg Except.ok (hfin acc2.2 acc2.1)

/-! ## Removing stops -/

theorem modEntryBook_redate (id : Nat) (f g : Entry → Entry)
    (h : ∀ e, g (e.redate τ) = (f e).redate τ) (ps : List Position) :
    modEntryBook id g (ps.map (Position.redate τ)) = (modEntryBook id f ps).map (Position.redate τ) := by
  simp only [modEntryBook, List.map_map]
  apply List.map_congr_left
  intro p _
  simp only [Function.comp, Position.redate, modEntry_redate τ id f g h]

theorem dropStopEntries_redate (id : Nat) (es : List Entry) :
    dropStopEntries id (es.map (Entry.redate τ)) =
      ((dropStopEntries id es).1.map (Entry.redate τ), (dropStopEntries id es).2) := by
  induction es with
  | nil => rfl
  | cons e es ih =>
    have h1 : (e.redate τ).stops = e.stops := rfl
    simp only [List.map_cons, dropStopEntries, h1, ih]
    split <;> rfl

theorem dropStopBook_redate (id : Nat) (ps : List Position) :
    dropStopBook id (ps.map (Position.redate τ)) =
      ((dropStopBook id ps).1.map (Position.redate τ), (dropStopBook id ps).2) := by
  induction ps with
  | nil => rfl
  | cons p ps ih =>
    have h1 : dropStopEntries id (p.redate τ).entries =
        ((dropStopEntries id p.entries).1.map (Entry.redate τ), (dropStopEntries id p.entries).2) :=
      dropStopEntries_redate τ id p.entries
    simp only [List.map_cons, dropStopBook, h1, ih]
    split <;> rfl

theorem removeStop_redate (s : Portfolio) (id : Nat) :
    removeStop (s.redate τ) id = pairRedate τ (removeStop s id) := by
  unfold removeStop
  rw [show (s.redate τ).stopData = s.stopData from rfl]
  cases lookupStop s.stopData id with
  | some d =>
    simp only [pairRedate, Prod.mk.injEq, true_and]
    have h3 := fun ps => modEntryBook_redate τ d.entryId
      (fun e => { e with stops := e.stops.erase d.stop })
      (fun e => { e with stops := e.stops.erase d.stop }) (fun _ => rfl) ps
    simp only [Portfolio.redate, Portfolio.mk.injEq, true_and, and_true]
    exact ⟨h3 _, h3 _⟩
  | none =>
    simp only
    rw [show (s.redate τ).longs = s.longs.map (Position.redate τ) from rfl,
      show (s.redate τ).shorts = s.shorts.map (Position.redate τ) from rfl]
    simp only [dropStopBook_redate]
    split
    · rfl
    · split <;> rfl

theorem removeEntryStops_redate (s : Portfolio) (e : Entry) (t : Option StopType) :
    removeEntryStops (s.redate τ) (e.redate τ) t = (removeEntryStops s e t).redate τ := by
  unfold removeEntryStops
  rw [show (e.redate τ).stops = e.stops from rfl]
  cases t with
  | none =>
    have h3 := fun ps => modEntryBook_redate τ e.id
      (fun e' => { e' with stops := [] }) (fun e' => { e' with stops := [] }) (fun _ => rfl) ps
    simp only [removeStopData_redate, Entry.redate_id]
    generalize s.removeStopData e.stops = u
    simp only [Portfolio.redate, Portfolio.mk.injEq, true_and, and_true]
    exact ⟨h3 _, h3 _⟩
  | some t =>
    simp only
    cases e.stops.find? (fun st => decide (st.stopType = t)) with
    | none => rfl
    | some st => simp only [removeStop_redate, pairRedate]

theorem removeStopsEntry_redate (s : Portfolio) (id : Nat) (t : Option StopType) :
    removeStopsEntry (s.redate τ) id t = (removeStopsEntry s id t).redate τ := by
  have h : findEntryAll (s.redate τ) id = (findEntryAll s id).map (Entry.redate τ) := by
    unfold findEntryAll
    rw [← findEntry_redate, show (s.redate τ).longs = s.longs.map (Position.redate τ) from rfl,
      show (s.redate τ).shorts = s.shorts.map (Position.redate τ) from rfl, ← List.map_append,
      List.flatMap_map, List.map_flatMap]
    rfl
  unfold removeStopsEntry
  rw [h]
  cases findEntryAll s id with
  | none => rfl
  | some e => exact removeEntryStops_redate τ s e t

theorem removePositionStops_redate (s : Portfolio) (p : Position) (t : Option StopType) :
    removePositionStops (s.redate τ) (p.redate τ) t = (removePositionStops s p t).redate τ := by
  unfold removePositionStops
  rw [show (p.redate τ).entries = p.entries.map (Entry.redate τ) from rfl]
  generalize p.entries = es
  induction es generalizing s with
  | nil => rfl
  | cons e es ih =>
    simp only [List.map_cons, List.foldl_cons, Entry.redate_id, removeStopsEntry_redate, ih]

theorem removeStopsSym_redate (s : Portfolio) (sym : Sym) (t : Option StopType) :
    removeStopsSym (s.redate τ) sym t = (removeStopsSym s sym t).redate τ := by
  have second : ∀ u : Portfolio,
      (match lookupPos (u.redate τ).shorts sym with
        | none => u.redate τ
        | some p => removePositionStops (u.redate τ) p t) =
      (match lookupPos u.shorts sym with
        | none => u
        | some p => removePositionStops u p t).redate τ := fun u => by
    rw [show (u.redate τ).shorts = u.shorts.map (Position.redate τ) from rfl, lookupPos_redate]
    cases lookupPos u.shorts sym with
    | none => rfl
    | some p => exact removePositionStops_redate τ u p t
  unfold removeStopsSym
  rw [show (s.redate τ).longs = s.longs.map (Position.redate τ) from rfl, lookupPos_redate]
  cases lookupPos s.longs sym with
  | none => exact second s
  | some p =>
    simp only [Option.map_some, removePositionStops_redate]
    exact second _

/-! ## There and back -/

theorem Portfolio.redate_redate (σ : Date → Date) (h : ∀ d, σ (τ d) = d) (s : Portfolio) :
    (s.redate τ).redate σ = s := by
  have he : ∀ e : Entry, (e.redate τ).redate σ = e := fun e => by simp [Entry.redate, h]
  have hp : ∀ p : Position, (p.redate τ).redate σ = p := fun p => by
    simp only [Position.redate, List.map_map]
    have : (Entry.redate σ) ∘ (Entry.redate τ) = id := funext he
    rw [this, List.map_id]
  have ho : ∀ o : Order, (o.redate τ).redate σ = o := fun o => by
    simp only [Order.redate, h, Option.map_map]
    have : σ ∘ τ = id := funext h
    rw [this, Option.map_id]; rfl
  have ht : ∀ t : Trade, (t.redate τ).redate σ = t := fun t => by simp [Trade.redate, h]
  have hm : ∀ b : PortfolioBar, (b.redate τ).redate σ = b := fun b => by simp [PortfolioBar.redate, h]
  simp only [Portfolio.redate, List.map_map, show (Position.redate σ) ∘ (Position.redate τ) = id from funext hp,
    show (Order.redate σ) ∘ (Order.redate τ) = id from funext ho,
    show (Trade.redate σ) ∘ (Trade.redate τ) = id from funext ht,
    show (PortfolioBar.redate σ) ∘ (PortfolioBar.redate τ) = id from funext hm, List.map_id]

end

end PyBroker
