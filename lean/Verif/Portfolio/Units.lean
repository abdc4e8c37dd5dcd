import Verif.Portfolio.Basic
import Mathlib.Algebra.Order.Field.Basic
import Mathlib.Algebra.BigOperators.Ring.List

/-!
# Another unit of money (helper lemmas)

Every amount of money of a portfolio times `k`, and the methods of the portfolio on it.
-/

namespace PyBroker

/-! ## Amounts in another unit -/

/-- An amount that may be missing, times `k`. -/
def money (k : ℚ) (a : Option ℚ) : Option ℚ := a.map (k * ·)

/-- A fill price in another unit: a number is an amount. -/
def FillSpec.units (k : ℚ) : FillSpec → FillSpec
  | .price t => .price t
  | .amount q => .amount (k * q)
  | .callable n => .callable n

/-- A stop in another unit: points and limit are amounts, percent and bars are not. -/
def Stop.units (k : ℚ) (s : Stop) : Stop :=
  { s with
    points := money k s.points
    fillPrice := s.fillPrice.map (FillSpec.units k)
    limitPrice := money k s.limitPrice }

/-- An entry in another unit. -/
def Entry.units (k : ℚ) (e : Entry) : Entry :=
  { e with
    price := k * e.price
    stops := e.stops.map (Stop.units k)
    mae := k * e.mae
    mfe := k * e.mfe }

/-- A stop level in another unit. -/
def StopData.units (k : ℚ) (d : StopData) : StopData :=
  { d with value := money k d.value, stop := d.stop.units k }

/-- A position in another unit: the shares stay. -/
def Position.units (k : ℚ) (p : Position) : Position :=
  { p with
    close := k * p.close
    equity := k * p.equity
    marketValue := k * p.marketValue
    margin := k * p.margin
    pnl := k * p.pnl
    entries := p.entries.map (Entry.units k)
    entryNotional := k * p.entryNotional
    unmarkedNotional := k * p.unmarkedNotional }

/-- A trade in another unit: shares, bars and the return in percent stay. -/
def Trade.units (k : ℚ) (t : Trade) : Trade :=
  { t with
    entry := k * t.entry
    exit := k * t.exit
    pnl := k * t.pnl
    aggPnl := k * t.aggPnl
    pnlPerBar := k * t.pnlPerBar
    mae := k * t.mae
    mfe := k * t.mfe }

/-- An order in another unit: the shares stay. -/
def Order.units (k : ℚ) (o : Order) : Order :=
  { o with
    limitPrice := money k o.limitPrice
    marketPrice := k * o.marketPrice
    fillPrice := k * o.fillPrice
    fees := k * o.fees }

/-- A row of the portfolio table in another unit. -/
def PortfolioBar.units (k : ℚ) (b : PortfolioBar) : PortfolioBar :=
  { date := b.date
    cash := k * b.cash
    equity := k * b.equity
    notional := k * b.notional
    margin := k * b.margin
    marginLoan := k * b.marginLoan
    netCashBalance := k * b.netCashBalance
    marketValue := k * b.marketValue
    pnl := k * b.pnl
    unrealizedPnl := k * b.unrealizedPnl
    fees := k * b.fees }

/-- A fee function in another unit: it is asked with a fill price in the new unit and
answers in it. -/
def FeeMode.units (k : ℚ) : FeeMode → FeeMode
  | .orderPercent => .orderPercent
  | .perOrder => .perOrder
  | .perShare => .perShare
  | .custom f => .custom (fun i => k * f { i with fillPrice := k⁻¹ * i.fillPrice })

/-- The fee amount in another unit: a percentage stays. -/
def feeUnits (k : ℚ) : Option FeeMode → Option ℚ → Option ℚ
  | some .orderPercent, a => a
  | _, a => money k a

/-- A configuration in another unit. -/
def Config.units (k : ℚ) (c : Config) : Config :=
  { c with
    cash := k * c.cash
    feeMode := c.feeMode.map (FeeMode.units k)
    feeAmount := feeUnits k c.feeMode c.feeAmount }

/-- A portfolio in another unit. -/
def Portfolio.units (k : ℚ) (s : Portfolio) : Portfolio :=
  { cash := k * s.cash
    equity := k * s.equity
    marketValue := k * s.marketValue
    fees := k * s.fees
    margin := k * s.margin
    accrued := k * s.accrued
    pnl := k * s.pnl
    longs := s.longs.map (Position.units k)
    shorts := s.shorts.map (Position.units k)
    symbols := s.symbols
    orders := s.orders.map (Order.units k)
    trades := s.trades.map (Trade.units k)
    wins := s.wins
    cachedLongMv := money k s.cachedLongMv
    cachedShortMv := money k s.cachedShortMv
    stopData := s.stopData.map (StopData.units k)
    active := s.active
    orderId := s.orderId
    entryId := s.entryId
    tradeId := s.tradeId
    longNotional := k * s.longNotional
    shortNotional := k * s.shortNotional
    metrics := s.metrics.map (PortfolioBar.units k) }

/-- The request of an order in another unit. -/
def OrderReq.units (k : ℚ) (r : OrderReq) : OrderReq :=
  { r with
    fill := k * r.fill
    limit := money k r.limit
    stops := r.stops.map (Stop.units k)
    marketPrice := money k r.marketPrice }

/-- A slippage model in another unit. -/
def SlipFn.units (k : ℚ) (f : SlipFn) : SlipFn :=
  fun side sym shares fill => ((f side sym shares (k⁻¹ * fill)).1, k * (f side sym shares (k⁻¹ * fill)).2)

/-- The prices of a bar in another unit. -/
def BarQuote.units (k : ℚ) (q : BarQuote) : BarQuote :=
  ⟨money k q.close, money k q.low, money k q.high⟩

/-- The prices stops read in another unit. -/
def StopEnv.units (k : ℚ) (e : StopEnv) : StopEnv where
  canPrice := e.canPrice
  fetchFloat := fun s t => money k (e.fetchFloat s t)
  fetch := fun s f => money k (e.fetch s (f.units k⁻¹))
  slip := e.slip.map (SlipFn.units k)

/-! ## Comparisons -/

section
variable {k : ℚ} (hk : 0 < k)
include hk

theorem k_le (a b : ℚ) : k * a ≤ k * b ↔ a ≤ b := mul_le_mul_iff_right₀ hk
theorem k_lt (a b : ℚ) : k * a < k * b ↔ a < b := mul_lt_mul_iff_right₀ hk
theorem k_nonpos (a : ℚ) : k * a ≤ 0 ↔ a ≤ 0 := by
  have := k_le hk a 0; rwa [mul_zero] at this
theorem k_neg (a : ℚ) : k * a < 0 ↔ a < 0 := by
  have := k_lt hk a 0; rwa [mul_zero] at this
theorem k_pos (a : ℚ) : 0 < k * a ↔ 0 < a := by
  have := k_lt hk 0 a; rwa [mul_zero] at this
theorem k_zero (a : ℚ) : k * a = 0 ↔ a = 0 := by
  simp [hk.ne']
theorem k_div (a b : ℚ) : k * a / (k * b) = a / b := mul_div_mul_left a b hk.ne'
theorem k_min (a b : ℚ) : min (k * a) (k * b) = k * min a b := by
  rcases le_total a b with h | h
  · rw [min_eq_left h, min_eq_left ((k_le hk _ _).2 h)]
  · rw [min_eq_right h, min_eq_right ((k_le hk _ _).2 h)]
theorem k_max (a b : ℚ) : max (k * a) (k * b) = k * max a b := by
  rcases le_total a b with h | h
  · rw [max_eq_right h, max_eq_right ((k_le hk _ _).2 h)]
  · rw [max_eq_left h, max_eq_left ((k_le hk _ _).2 h)]
theorem k_max0 (a : ℚ) : max (k * a) 0 = k * max a 0 := by
  have := k_max hk a 0; rwa [mul_zero] at this
theorem k_abs (a : ℚ) : |k * a| = k * |a| := by rw [abs_mul, abs_of_pos hk]
theorem k_inv (a : ℚ) : k⁻¹ * (k * a) = a := by rw [← mul_assoc, inv_mul_cancel₀ hk.ne', one_mul]
theorem k_inv' (a : ℚ) : k * (k⁻¹ * a) = a := by rw [← mul_assoc, mul_inv_cancel₀ hk.ne', one_mul]
end

theorem money_inv {k : ℚ} (hk : 0 < k) (a : Option ℚ) : money k⁻¹ (money k a) = a := by
  cases a with
  | none => rfl
  | some a => simp [money, k_inv hk]

theorem FillSpec.units_inv {k : ℚ} (hk : 0 < k) (f : FillSpec) : (f.units k).units k⁻¹ = f := by
  cases f <;> simp [FillSpec.units, hk.ne']

theorem Stop.units_inv {k : ℚ} (hk : 0 < k) (s : Stop) : (s.units k).units k⁻¹ = s := by
  cases s with
  | mk i sy st pt pc po b fp lp ep =>
    simp only [Stop.units, money_inv hk, Stop.mk.injEq, true_and, and_true]
    cases fp with
    | none => rfl
    | some f => simp [FillSpec.units_inv hk]

theorem Stop.units_injective {k : ℚ} (hk : 0 < k) : Function.Injective (Stop.units k) :=
  Function.LeftInverse.injective (Stop.units_inv hk)

/-! ## Books -/

@[simp] theorem Position.units_symbol (k : ℚ) (p : Position) : (p.units k).symbol = p.symbol := rfl
@[simp] theorem Position.units_type (k : ℚ) (p : Position) : (p.units k).type = p.type := rfl
@[simp] theorem Position.units_shares (k : ℚ) (p : Position) : (p.units k).shares = p.shares := rfl
@[simp] theorem Entry.units_id (k : ℚ) (e : Entry) : (e.units k).id = e.id := rfl
@[simp] theorem Entry.units_shares (k : ℚ) (e : Entry) : (e.units k).shares = e.shares := rfl
@[simp] theorem Stop.units_id (k : ℚ) (s : Stop) : (s.units k).id = s.id := rfl
@[simp] theorem Stop.units_type (k : ℚ) (s : Stop) : (s.units k).stopType = s.stopType := rfl
@[simp] theorem Stop.units_pos (k : ℚ) (s : Stop) : (s.units k).posType = s.posType := rfl
@[simp] theorem Stop.units_symbol (k : ℚ) (s : Stop) : (s.units k).symbol = s.symbol := rfl

theorem lookupPos_units (k : ℚ) (ps : List Position) (sym : Sym) :
    lookupPos (ps.map (Position.units k)) sym = (lookupPos ps sym).map (Position.units k) := by
  induction ps with
  | nil => rfl
  | cons p ps ih =>
    simp only [List.map_cons, lookupPos, Position.units_symbol]
    by_cases h : p.symbol = sym <;> simp [h, ih]

theorem replacePos_units (k : ℚ) (ps : List Position) (q : Position) :
    replacePos (ps.map (Position.units k)) (q.units k) = (replacePos ps q).map (Position.units k) := by
  induction ps with
  | nil => rfl
  | cons p ps ih =>
    simp only [List.map_cons, replacePos, Position.units_symbol]
    by_cases h : p.symbol = q.symbol <;> simp [h, ih]

theorem erasePos_units (k : ℚ) (ps : List Position) (sym : Sym) :
    erasePos (ps.map (Position.units k)) sym = (erasePos ps sym).map (Position.units k) := by
  induction ps with
  | nil => rfl
  | cons p ps ih =>
    simp only [List.map_cons, erasePos, Position.units_symbol]
    by_cases h : p.symbol = sym <;> simp [h, ih]

theorem book_units (k : ℚ) (s : Portfolio) (pt : PosType) :
    (s.units k).book pt = (s.book pt).map (Position.units k) := by cases pt <;> rfl

theorem setBook_units (k : ℚ) (s : Portfolio) (pt : PosType) (ps : List Position) :
    (s.units k).setBook pt (ps.map (Position.units k)) = (s.setBook pt ps).units k := by
  cases pt <;> rfl

/-! ## Valuation -/

/-- Cases on the conditions, on both sides of an equation. -/
scoped macro "ifs" : tactic =>
  `(tactic| (split_ifs <;> (try simp only [*, if_true, if_false])))

section
variable {k : ℚ} (hk : 0 < k)
include hk

theorem markedValue_units (p : Position) : (p.units k).markedValue = k * p.markedValue := by
  simp only [Position.markedValue, Position.units, k_nonpos hk]
  ifs <;> ring

theorem addUnmarked_units (p : Position) (n f : ℚ) :
    (p.units k).addUnmarked n (k * f) = (p.addUnmarked n f).units k := by
  simp only [Position.addUnmarked, Position.units, Position.mk.injEq, true_and, and_true]
  ring

theorem newestNotional_units (es : List Entry) (rem : ℚ) :
    newestNotional (es.map (Entry.units k)) rem = k * newestNotional es rem := by
  induction es generalizing rem with
  | nil => simp [newestNotional]
  | cons e es ih =>
    simp only [List.map_cons, newestNotional, Entry.units_shares, ih]
    ifs
    · simp
    · simp only [Entry.units]; ring

theorem clampUnmarked_units (p : Position) : (p.units k).clampUnmarked = p.clampUnmarked.units k := by
  simp only [Position.clampUnmarked]
  have h : newestNotional (p.units k).entries.reverse p.shares
      = k * newestNotional p.entries.reverse p.shares := by
    have := newestNotional_units hk p.entries.reverse p.shares
    rw [← this, List.map_reverse]; rfl
  have hu : (p.units k).unmarkedShares = p.unmarkedShares := rfl
  simp only [Position.units_shares, h, hu]
  by_cases h1 : p.unmarkedShares ≤ 0
  · rw [if_pos h1, if_pos h1]
  · rw [if_neg h1, if_neg h1]
    by_cases h2 : p.shares ≤ 0
    · rw [if_pos h2, if_pos h2]
      simp [Position.units]
    · rw [if_neg h2, if_neg h2]
      by_cases h3 : p.unmarkedShares > p.shares
      · rw [if_pos h3, if_pos h3]
        rfl
      · rw [if_neg h3, if_neg h3]

theorem clearUnmarked_units (p : Position) : (p.units k).clearUnmarked = p.clearUnmarked.units k := by
  simp [Position.clearUnmarked, Position.units]

theorem marginLoan_units (cfg : Config) (s : Portfolio) :
    (s.units k).marginLoan (cfg.units k) = k * s.marginLoan cfg := by
  simp only [Portfolio.marginLoan, Portfolio.units, Config.units]
  ifs
  ring

theorem calculateFees_units (cfg : Config) (sym : Sym) (fill shares : ℚ) (side : Side) :
    calculateFees (cfg.units k) sym (k * fill) shares side = k * calculateFees cfg sym fill shares side := by
  obtain ⟨cash, fm, fa, _, _, _, _, _, _, _⟩ := cfg
  cases fm with
  | none => cases fa <;> simp [calculateFees, Config.units]
  | some m =>
    cases fa with
    | none => cases m <;> simp [calculateFees, Config.units, feeUnits, money, FeeMode.units]
    | some a =>
      cases m
      · simp only [calculateFees, Config.units, feeUnits, Option.map_some, FeeMode.units]; ring
      · simp [calculateFees, Config.units, feeUnits, money, FeeMode.units]
      · simp [calculateFees, Config.units, feeUnits, money, FeeMode.units]; ring
      · simp [calculateFees, Config.units, feeUnits, money, FeeMode.units, hk.ne']

theorem verifyInput_units (shares fill : ℚ) (limit : Option ℚ) :
    verifyInput shares (k * fill) (money k limit) = verifyInput shares fill limit := by
  cases limit <;> simp only [verifyInput, money, Option.map_none, Option.map_some, k_nonpos hk]

omit hk in
theorem invalidate_units (s : Portfolio) : (s.units k).invalidate = s.invalidate.units k := rfl

theorem sumMarked_units (ps : List Position) :
    sumMarked (ps.map (Position.units k)) = k * sumMarked ps := by
  simp only [sumMarked, List.map_map]
  rw [← List.sum_map_mul_left]
  congr 1
  apply List.map_congr_left
  intro p _
  exact markedValue_units hk p

/-- A value and a portfolio in another unit. -/
def pairUnits (k : ℚ) (x : ℚ × Portfolio) : ℚ × Portfolio := (k * x.1, x.2.units k)

theorem longMarketValue_units (s : Portfolio) :
    (s.units k).longMarketValue = pairUnits k s.longMarketValue := by
  unfold Portfolio.longMarketValue
  cases h : s.cachedLongMv with
  | none =>
    have : (s.units k).cachedLongMv = none := by simp [Portfolio.units, h, money]
    simp only [this]
    have e : sumMarked (s.units k).longs = k * sumMarked s.longs := sumMarked_units hk _
    rw [e]; rfl
  | some v =>
    have : (s.units k).cachedLongMv = some (k * v) := by simp [Portfolio.units, h, money]
    simp only [this]; rfl

theorem shortMarketValue_units (s : Portfolio) :
    (s.units k).shortMarketValue = pairUnits k s.shortMarketValue := by
  unfold Portfolio.shortMarketValue
  cases h : s.cachedShortMv with
  | none =>
    have : (s.units k).cachedShortMv = none := by simp [Portfolio.units, h, money]
    simp only [this]
    have e : sumMarked (s.units k).shorts = k * sumMarked s.shorts := sumMarked_units hk _
    rw [e]; rfl
  | some v =>
    have : (s.units k).cachedShortMv = some (k * v) := by simp [Portfolio.units, h, money]
    simp only [this]; rfl

omit hk in
theorem leverage_units (cfg : Config) : (cfg.units k).leverage = cfg.leverage := rfl

theorem postCollateral_units (cfg : Config) (s : Portfolio) (n : ℚ) :
    (s.units k).postCollateral (cfg.units k) (k * n) = (s.postCollateral cfg n).units k := by
  simp only [Portfolio.postCollateral, leverage_units]
  ifs <;> simp only [Portfolio.units, Portfolio.invalidate, money, Portfolio.mk.injEq,
    true_and, and_true] <;> refine ⟨by ring, rfl, rfl⟩

theorem releaseCollateral_units (cfg : Config) (s : Portfolio) (n p : ℚ) :
    (s.units k).releaseCollateral (cfg.units k) (k * n) (k * p) =
      (s.releaseCollateral cfg n p).units k := by
  simp only [Portfolio.releaseCollateral, leverage_units]
  ifs <;> simp only [Portfolio.units, Portfolio.mk.injEq, true_and, and_true] <;> ring

theorem netCash_units (cfg : Config) (s : Portfolio) :
    (s.units k).netCash (cfg.units k) = k * s.netCash cfg := by
  simp only [Portfolio.netCash, marginLoan_units hk]
  simp only [Portfolio.units]; ring

theorem liveMarketValue_units (cfg : Config) (s : Portfolio) :
    (s.units k).liveMarketValue (cfg.units k) = pairUnits k (s.liveMarketValue cfg) := by
  simp only [Portfolio.liveMarketValue, longMarketValue_units hk, pairUnits,
    shortMarketValue_units hk, marginLoan_units hk]
  simp only [Portfolio.units, Prod.mk.injEq, and_true]
  ring

theorem availableBuyingPower_units (cfg : Config) (s : Portfolio) :
    (s.units k).availableBuyingPower (cfg.units k) = pairUnits k (s.availableBuyingPower cfg) := by
  simp only [Portfolio.availableBuyingPower, leverage_units]
  ifs
  · simp only [pairUnits, Prod.mk.injEq, and_true]
    exact k_max0 hk _
  · simp only [longMarketValue_units hk, pairUnits, shortMarketValue_units hk,
      liveMarketValue_units hk, Prod.mk.injEq, and_true]
    rw [← k_max0 hk]
    congr 1
    ring

theorem sweepAccrued_units (s : Portfolio) : (s.units k).sweepAccrued = s.sweepAccrued.units k := by
  have h1 : (s.units k).accrued = k * s.accrued := rfl
  have h2 : (s.units k).cash = k * s.cash := rfl
  simp only [Portfolio.sweepAccrued, h1, h2, k_nonpos hk, k_min hk]
  ifs
  simp only [Portfolio.units, Portfolio.mk.injEq, true_and, and_true]
  exact ⟨by ring, by ring⟩

theorem applyInterest_units (cfg : Config) (s : Portfolio) :
    (s.units k).applyInterest (cfg.units k) = (s.applyInterest cfg).units k := by
  have h1 : (cfg.units k).barsPerYear = cfg.barsPerYear := rfl
  have h2 : (cfg.units k).interestRate = cfg.interestRate := rfl
  simp only [Portfolio.applyInterest, h1, h2]
  cases cfg.barsPerYear with
  | none => rfl
  | some b =>
    simp only [sweepAccrued_units hk, netCash_units hk, k_zero hk, k_neg hk, k_abs hk]
    ifs
    · simp only [Portfolio.units, Portfolio.mk.injEq, true_and, and_true]; ring
    · simp only [Portfolio.units, Portfolio.mk.injEq, true_and, and_true]; ring

theorem maxShares_units (cfg : Config) (bp fill : ℚ) :
    maxShares (cfg.units k) (k * bp) (k * fill) = maxShares cfg bp fill := by
  have h1 : (cfg.units k).fractional = cfg.fractional := rfl
  simp only [maxShares, h1, k_div hk]

theorem clampShares_units (cfg : Config) (s : Portfolio) (sym : Sym) (fill shares : ℚ) (side : Side) :
    (s.units k).clampShares (cfg.units k) sym (k * fill) shares side =
      ((s.clampShares cfg sym fill shares side).1, (s.clampShares cfg sym fill shares side).2.units k) := by
  have h2 : (s.units k).cash = k * s.cash := rfl
  simp only [Portfolio.clampShares, leverage_units, availableBuyingPower_units hk, pairUnits, h2,
    k_neg hk, k_div hk, calculateFees_units hk]
  have h3 : ∀ f : ℚ, k * (s.availableBuyingPower cfg).1 - k * f * cfg.leverage =
      k * ((s.availableBuyingPower cfg).1 - f * cfg.leverage) := fun f => by ring
  simp only [h3, maxShares_units hk, gt_iff_lt, k_pos hk, k_nonpos hk]
  ifs <;> rfl

/-! ## Logs and stops -/

theorem addOrder_units (cfg : Config) (s : Portfolio) (date : Date) (sym : Sym) (side : Side)
    (created : Option Date) (ot : OrderType) (intent : Intent) (shares : ℚ)
    (limit market : Option ℚ) (fill : ℚ) :
    (s.units k).addOrder (cfg.units k) date sym side created ot intent shares (money k limit)
        (money k market) (k * fill) =
      (((s.addOrder cfg date sym side created ot intent shares limit market fill).1).units k,
        ((s.addOrder cfg date sym side created ot intent shares limit market fill).2).units k) := by
  have h1 : (cfg.units k).feeMode.isSome = cfg.feeMode.isSome := by
    simp [Config.units]
  have h2 : (money k market).getD (k * fill) = k * market.getD fill := by
    cases market <;> rfl
  simp only [Portfolio.addOrder, calculateFees_units hk, h1, h2]
  simp only [Order.units, Portfolio.units, List.map_append, List.map_cons, List.map_nil,
    Prod.mk.injEq, Portfolio.mk.injEq, true_and, and_true]
  refine ⟨?_, by ring⟩
  ifs
  ring

theorem addTrade_units (s : Portfolio) (t : Trade) :
    (s.units k).addTrade (t.units k) = (s.addTrade t).units k := by
  have h : (t.units k).pnl = k * t.pnl := rfl
  simp only [Portfolio.addTrade, h, gt_iff_lt, k_pos hk]
  simp only [Portfolio.units, List.map_append, List.map_cons, List.map_nil, Trade.units]

theorem stopAmount_units (st : Stop) (price : ℚ) :
    stopAmount (st.units k) (k * price) = (stopAmount st price).map (k * ·) := by
  unfold stopAmount
  have h1 : (st.units k).percent = st.percent := rfl
  have h2 : (st.units k).points = money k st.points := rfl
  rw [h1, h2]
  cases st.percent with
  | some p => simp only [Except.map, Except.ok.injEq]; ring
  | none =>
    cases st.points with
    | some p => rfl
    | none => rfl

theorem stopValue_units (st : Stop) (price amount : ℚ) :
    stopValue (st.units k) (k * price) (k * amount) = k * stopValue st price amount := by
  simp only [stopValue, Stop.units_pos, Stop.units_type]
  ifs <;> ring

theorem lookupStop_units (ds : List StopData) (id : Nat) :
    lookupStop (ds.map (StopData.units k)) id = (lookupStop ds id).map (StopData.units k) := by
  induction ds with
  | nil => rfl
  | cons d ds ih =>
    have h0 : (d.units k).stop.id = d.stop.id := rfl
    simp only [List.map_cons, lookupStop, h0]
    by_cases h : d.stop.id = id <;> simp [h, ih]

theorem eraseStop_units (ds : List StopData) (id : Nat) :
    eraseStop (ds.map (StopData.units k)) id = (eraseStop ds id).map (StopData.units k) := by
  induction ds with
  | nil => rfl
  | cons d ds ih =>
    have h0 : (d.units k).stop.id = d.stop.id := rfl
    simp only [List.map_cons, eraseStop, h0]
    by_cases h : d.stop.id = id <;> simp [h, ih]

/-- The stops of an entry and a portfolio in another unit. -/
def stopsUnits (k : ℚ) (x : List Stop × Portfolio) : List Stop × Portfolio :=
  (x.1.map (Stop.units k), x.2.units k)

theorem addStopStep_units (id : Nat) (price : ℚ) (acc : List Stop × Portfolio) (st : Stop) :
    addStopStep id (k * price) (stopsUnits k acc) (st.units k) =
      (addStopStep id price acc st).map (stopsUnits k) := by
  unfold addStopStep
  have h0 : lookupStop (stopsUnits k acc).2.stopData (st.units k).id =
      (lookupStop acc.2.stopData st.id).map (StopData.units k) := lookupStop_units hk _ _
  rw [h0]
  cases lookupStop acc.2.stopData st.id with
  | some d => rfl
  | none =>
    simp only [Option.map_none, Stop.units_type, Stop.units_id, Stop.units_symbol]
    by_cases hb : st.stopType = .bar
    · simp [hb, stopsUnits, Except.map]
    · simp only [hb, if_false, stopAmount_units hk]
      cases stopAmount st price with
      | error e => rfl
      | ok a =>
        simp only [Except.map, stopValue_units hk]
        simp [stopsUnits, Portfolio.units, StopData.units, money]

omit hk in
theorem foldE_map {α β γ δ : Type} (f : β → α → Except Err β) (g : δ → γ → Except Err δ)
    (u : β → δ) (v : α → γ) (h : ∀ b a, g (u b) (v a) = (f b a).map u) (b : β) (l : List α) :
    foldE g (u b) (l.map v) = (foldE f b l).map u := by
  induction l generalizing b with
  | nil => rfl
  | cons a l ih =>
    simp only [List.map_cons, foldE, h]
    cases f b a with
    | error e => rfl
    | ok b' => exact ih b'

omit hk in
theorem insertionSort_map_key {α β : Type} (r : α → α → Prop) (r' : β → β → Prop)
    [DecidableRel r] [DecidableRel r'] (v : α → β) (h : ∀ a b, r' (v a) (v b) ↔ r a b) (l : List α) :
    (l.map v).insertionSort r' = (l.insertionSort r).map v := by
  induction l with
  | nil => rfl
  | cons a l ih =>
    rw [List.map_cons, List.insertionSort_cons, List.insertionSort_cons, ih]
    generalize l.insertionSort r = m
    induction m with
    | nil => rfl
    | cons b m ihm =>
      by_cases hab : r a b
      · rw [List.orderedInsert_cons_of_le _ _ hab, List.map_cons,
          List.orderedInsert_cons_of_le _ _ ((h a b).2 hab)]; rfl
      · rw [List.map_cons, List.orderedInsert_of_not_le _ _ hab,
          List.orderedInsert_of_not_le _ _ (fun hc => hab ((h a b).1 hc)), ihm]; rfl

theorem addStops_units (s : Portfolio) (id : Nat) (price : ℚ) (stops : List Stop) :
    addStops (s.units k) id (k * price) (stops.map (Stop.units k)) =
      (addStops s id price stops).map (stopsUnits k) := by
  unfold addStops
  rw [insertionSort_map_key (fun a b : Stop => a.id ≤ b.id) (fun a b : Stop => a.id ≤ b.id)
    (Stop.units k) (fun _ _ => Iff.rfl)]
  exact foldE_map _ _ (stopsUnits k) (Stop.units k) (addStopStep_units hk id price) ([], s) _

theorem removeStopData_units (s : Portfolio) (stops : List Stop) :
    (s.units k).removeStopData (stops.map (Stop.units k)) = (s.removeStopData stops).units k := by
  induction stops generalizing s with
  | nil => rfl
  | cons st stops ih =>
    simp only [List.map_cons, Portfolio.removeStopData, Stop.units_id, Stop.units_symbol]
    have h0 : lookupStop (s.units k).stopData st.id =
      (lookupStop s.stopData st.id).map (StopData.units k) := lookupStop_units hk _ _
    rw [h0]
    cases lookupStop s.stopData st.id with
    | none => exact ih s
    | some d =>
      simp only [Option.map_some]
      rw [← ih]
      congr 1
      simp only [Portfolio.units, eraseStop_units hk]

/-! ## Exits -/

theorem modEntry_units (id : Nat) (f g : Entry → Entry) (h : ∀ e, g (e.units k) = (f e).units k)
    (es : List Entry) : modEntry id g (es.map (Entry.units k)) = (modEntry id f es).map (Entry.units k) := by
  induction es with
  | nil => rfl
  | cons e es ih =>
    simp only [List.map_cons, modEntry, Entry.units_id]
    by_cases he : e.id = id <;> simp [he, ih, h]

theorem takeShares_units (p : Position) (e : Entry) (n : ℚ) :
    (p.units k).takeShares (e.units k) n = (p.takeShares e n).units k := by
  unfold Position.takeShares
  rw [← clampUnmarked_units hk]
  congr 1
  have h := modEntry_units hk e.id (fun e' => { e' with shares := e'.shares - n })
    (fun e' => { e' with shares := e'.shares - n }) (fun _ => rfl) p.entries
  simp only [Position.units, Position.mk.injEq, true_and, and_true, Entry.units_id]
  refine ⟨h, ?_⟩
  simp only [Entry.units]; ring

theorem exitMae_units (u m : ℚ) : exitMae (k * u) (k * m) = k * exitMae u m := by
  simp only [exitMae, k_neg hk, k_lt hk]
  ifs

theorem exitMfe_units (u m : ℚ) : exitMfe (k * u) (k * m) = k * exitMfe u m := by
  simp only [exitMfe, gt_iff_lt, k_pos hk, k_lt hk]
  ifs

/-- A portfolio and a position in another unit. -/
def exitUnits (k : ℚ) (x : Portfolio × Position) : Portfolio × Position :=
  (x.1.units k, x.2.units k)

theorem exitLong_units (cfg : Config) (s : Portfolio) (p : Position) (e : Entry) (n fill : ℚ)
    (date : Date) (t : Option StopType) :
    exitLong (cfg.units k) (s.units k) (p.units k) (e.units k) n (k * fill) date t =
      exitUnits k (exitLong cfg s p e n fill date t) := by
  unfold exitLong exitUnits
  have e1 : n * (k * fill) - k * (n * e.price) = k * (n * fill - n * e.price) := by ring
  have e2 : n * (e.units k).price = k * (n * e.price) := by simp only [Entry.units]; ring
  have e3 : k * fill - (e.units k).price = k * (fill - e.price) := by simp only [Entry.units]; ring
  have e4 : k * fill / (e.units k).price = fill / e.price := k_div hk _ _
  have e5 := (fun (t : Portfolio) (ht : t = s.units k) => show
      ({ t with pnl := t.pnl + k * (n * fill - n * e.price) } : Portfolio) =
      ({ s with pnl := s.pnl + (n * fill - n * e.price) } : Portfolio).units k by
    subst ht
    simp only [Portfolio.units, Portfolio.mk.injEq, true_and, and_true]; ring) _ rfl
  simp only [e1, e2, e3, e4, e5, takeShares_units hk, releaseCollateral_units hk]
  clear e1 e2 e3 e4 e5
  generalize Portfolio.releaseCollateral cfg _ (n * e.price) (n * fill - n * e.price) = X
  rw [Prod.mk.injEq]
  refine ⟨?_, rfl⟩
  rw [← invalidate_units, ← addTrade_units hk]
  congr 1
  have e6 : (e.units k).bars = e.bars := rfl
  have e7 : (e.units k).mae = k * e.mae := rfl
  have e8 : (e.units k).mfe = k * e.mfe := rfl
  congr 1
  · simp only [Portfolio.units, Portfolio.mk.injEq, true_and, and_true]; ring
  · simp only [e6, e7, e8, exitMae_units hk, exitMfe_units hk]
    simp only [Trade.units, Portfolio.units, Trade.mk.injEq, true_and, and_true]
    refine ⟨rfl, rfl, rfl, rfl, ?_⟩
    ifs
    ring

theorem exitShort_units (cfg : Config) (s : Portfolio) (p : Position) (e : Entry) (n fill : ℚ)
    (date : Date) (t : Option StopType) :
    exitShort (cfg.units k) (s.units k) (p.units k) (e.units k) n (k * fill) date t =
      exitUnits k (exitShort cfg s p e n fill date t) := by
  unfold exitShort exitUnits
  have e1 : k * (n * e.price) - n * (k * fill) = k * (n * e.price - n * fill) := by ring
  have e2 : n * (e.units k).price = k * (n * e.price) := by simp only [Entry.units]; ring
  have e3 : (e.units k).price - k * fill = k * (e.price - fill) := by simp only [Entry.units]; ring
  have e4 : (e.units k).price / (k * fill) = e.price / fill := k_div hk _ _
  have e5 := (fun (t : Portfolio) (ht : t = s.units k) => show
      ({ t with pnl := t.pnl + k * (n * e.price - n * fill) } : Portfolio) =
      ({ s with pnl := s.pnl + (n * e.price - n * fill) } : Portfolio).units k by
    subst ht
    simp only [Portfolio.units, Portfolio.mk.injEq, true_and, and_true]; ring) _ rfl
  simp only [e1, e2, e3, e4, e5, takeShares_units hk, releaseCollateral_units hk]
  clear e1 e2 e3 e4 e5
  generalize Portfolio.releaseCollateral cfg _ (n * e.price) (n * e.price - n * fill) = X
  rw [Prod.mk.injEq]
  refine ⟨?_, rfl⟩
  rw [← invalidate_units, ← addTrade_units hk]
  congr 1
  have e6 : (e.units k).bars = e.bars := rfl
  have e7 : (e.units k).mae = k * e.mae := rfl
  have e8 : (e.units k).mfe = k * e.mfe := rfl
  congr 1
  · simp only [Portfolio.units, Portfolio.mk.injEq, true_and, and_true]; ring
  · simp only [e6, e7, e8, exitMae_units hk, exitMfe_units hk]
    simp only [Trade.units, Portfolio.units, Trade.mk.injEq, true_and, and_true]
    refine ⟨rfl, rfl, rfl, rfl, ?_⟩
    ifs
    ring

theorem exitEntry_units (cfg : Config) (pt : PosType) (s : Portfolio) (p : Position) (e : Entry)
    (n fill : ℚ) (date : Date) (t : Option StopType) :
    exitEntry (cfg.units k) pt (s.units k) (p.units k) (e.units k) n (k * fill) date t =
      exitUnits k (exitEntry cfg pt s p e n fill date t) := by
  cases pt
  · exact exitLong_units hk ..
  · exact exitShort_units hk ..

theorem updatePosition_units (s : Portfolio) (p : Position) :
    (s.units k).updatePosition (p.units k) = (s.updatePosition p).units k := by
  unfold Portfolio.updatePosition
  have h1 : (p.units k).entries = p.entries.map (Entry.units k) := rfl
  simp only [h1, Position.units_type, Position.units_symbol, book_units, replacePos_units,
    erasePos_units, setBook_units, ne_eq, List.map_eq_nil_iff]
  by_cases h : p.entries = []
  · simp only [h, not_true_eq_false, if_false]
    have h2 : ∀ t : Portfolio, (t.units k).symbols = t.symbols := fun _ => rfl
    have h3 : ∀ t : Portfolio, lookupPos (t.units k).longs p.symbol = none ↔
        lookupPos t.longs p.symbol = none := fun t => by
      rw [show (t.units k).longs = t.longs.map (Position.units k) from rfl, lookupPos_units]
      simp
    have h4 : ∀ t : Portfolio, lookupPos (t.units k).shorts p.symbol = none ↔
        lookupPos t.shorts p.symbol = none := fun t => by
      rw [show (t.units k).shorts = t.shorts.map (Position.units k) from rfl, lookupPos_units]
      simp
    simp only [h2, h3, h4]
    ifs
    rfl
  · simp only [h, not_false_eq_true, if_true]

/-- The result of a loop of exits in another unit. -/
def ExitResult.units (k : ℚ) (r : ExitResult) : ExitResult := ⟨r.rem, r.pf.units k, r.pos.units k⟩

theorem exitLoop_units (cfg : Config) (pt : PosType) (date : Date) (fill : ℚ) (es : List Entry)
    (rem : ℚ) (s : Portfolio) (p : Position) :
    exitLoop (cfg.units k) pt date (k * fill) (es.map (Entry.units k)) rem (s.units k) (p.units k) =
      (exitLoop cfg pt date fill es rem s p).units k := by
  induction es generalizing rem s p with
  | nil => rfl
  | cons e es ih =>
    simp only [List.map_cons, exitLoop, Entry.units_shares, exitEntry_units hk, exitUnits]
    by_cases h1 : rem > 0
    · simp only [if_pos h1]
      by_cases h2 : rem ≥ e.shares
      · simp only [if_pos h2]
        rw [← ih]
        congr 1
        · exact removeStopData_units hk _ _
        · simp only [Position.units, List.map_tail]
      · simp only [if_neg h2]
        rfl
    · simp only [if_neg h1]
      rfl

/-- The result of an order in another unit. -/
def OrderResult.units (k : ℚ) (r : OrderResult) : OrderResult := ⟨r.filled, r.rem, r.pf.units k⟩

theorem cover_units (cfg : Config) (s : Portfolio) (date : Date) (sym : Sym) (n fill : ℚ) :
    cover (cfg.units k) (s.units k) date sym n (k * fill) = (cover cfg s date sym n fill).units k := by
  unfold cover
  rw [show (s.units k).shorts = s.shorts.map (Position.units k) from rfl, lookupPos_units]
  cases lookupPos s.shorts sym with
  | none => rfl
  | some p =>
    simp only [Option.map_some]
    by_cases h : n ≤ 0
    · rw [if_pos h, if_pos h]; rfl
    · rw [if_neg h, if_neg h]
      have := exitLoop_units hk cfg .short date fill p.entries n s p
      rw [show (p.units k).entries = p.entries.map (Entry.units k) from rfl, this]
      simp only [ExitResult.units, OrderResult.units, updatePosition_units hk]

theorem sellExisting_units (cfg : Config) (s : Portfolio) (date : Date) (sym : Sym) (n fill : ℚ) :
    sellExisting (cfg.units k) (s.units k) date sym n (k * fill) =
      (sellExisting cfg s date sym n fill).units k := by
  unfold sellExisting
  rw [show (s.units k).longs = s.longs.map (Position.units k) from rfl, lookupPos_units]
  cases lookupPos s.longs sym with
  | none => rfl
  | some p =>
    simp only [Option.map_some]
    have := exitLoop_units hk cfg .long date fill p.entries n s p
    rw [show (p.units k).entries = p.entries.map (Entry.units k) from rfl, this]
    simp only [ExitResult.units, OrderResult.units, updatePosition_units hk]

/-! ## Opening positions -/

/-- The shares of an opening and the portfolio in another unit. -/
def openUnits (k : ℚ) (x : ℚ × Portfolio) : ℚ × Portfolio := (x.1, x.2.units k)

theorem openShares_units (cfg : Config) (pt : PosType) (s : Portfolio) (date : Date) (sym : Sym)
    (n fill : ℚ) (stops : List Stop) :
    openShares (cfg.units k) pt (s.units k) date sym n (k * fill) (stops.map (Stop.units k)) =
      (openShares cfg pt s date sym n fill stops).map (openUnits k) := by
  unfold openShares
  have e1 : n * (k * fill) = k * (n * fill) := by ring
  simp only [e1, postCollateral_units hk]
  generalize s.postCollateral cfg (n * fill) = s1
  have e2 : ({ s1.units k with entryId := (s1.units k).entryId + 1 } : Portfolio) =
      ({ s1 with entryId := s1.entryId + 1 } : Portfolio).units k := rfl
  have e3 : (s1.units k).entryId = s1.entryId := rfl
  rw [e2, e3, addStops_units hk]
  cases addStops { s1 with entryId := s1.entryId + 1 } (s1.entryId + 1) fill stops with
  | error e => rfl
  | ok x =>
    obtain ⟨es, s3⟩ := x
    simp only [Except.map, stopsUnits, openUnits, Except.ok.injEq, Prod.mk.injEq, true_and]
    rw [← invalidate_units]
    congr 1
    simp only [book_units, lookupPos_units]
    cases lookupPos (s3.book pt) sym with
    | none =>
      simp only [Option.map_none]
      cases pt <;>
        simp [Portfolio.setBook, Portfolio.book, Portfolio.units, Position.addUnmarked,
          Position.units, Entry.units, mul_add, mul_left_comm]
    | some p0 =>
      simp only [Option.map_some]
      have e4 : ∀ (q q' : Position), q' = q.units k →
          replacePos ((s3.book pt).map (Position.units k)) q' =
            (replacePos (s3.book pt) q).map (Position.units k) := fun q q' h => by
        rw [h, replacePos_units]
      rw [e4 (q := { (({ p0 with shares := p0.shares + n } : Position).addUnmarked n fill) with
          entries := (({ p0 with shares := p0.shares + n } : Position).addUnmarked n fill).entries ++
            [{ id := s1.entryId + 1, date := date, symbol := sym, shares := n, price := fill,
               type := pt, stops := es }]
          entryNotional :=
            (({ p0 with shares := p0.shares + n } : Position).addUnmarked n fill).entryNotional + n * fill })]
      · rw [setBook_units]
        cases pt <;> simp [Portfolio.units, Portfolio.setBook, mul_add]
      · simp [Position.addUnmarked, Position.units, Entry.units, mul_add, mul_left_comm]

theorem capReached_units (cap : Option Nat) (ps : List Position) (sym : Sym) :
    capReached cap (ps.map (Position.units k)) sym = capReached cap ps sym := by
  cases cap with
  | none => rfl
  | some m => simp [capReached, lookupPos_units]

theorem openLong_units (cfg : Config) (s : Portfolio) (date : Date) (sym : Sym) (n fill : ℚ)
    (stops : List Stop) :
    openLong (cfg.units k) (s.units k) date sym n (k * fill) (stops.map (Stop.units k)) =
      (openLong cfg s date sym n fill stops).map (openUnits k) := by
  unfold openLong
  have e1 : (cfg.units k).positionMode = cfg.positionMode := rfl
  have e2 : (cfg.units k).maxLong = cfg.maxLong := rfl
  simp only [e1, e2, clampShares_units hk]
  generalize s.clampShares cfg sym fill n .buy = c
  have e3 : capReached cfg.maxLong (c.2.units k).longs sym = capReached cfg.maxLong c.2.longs sym :=
    capReached_units hk _ _ _
  simp only [e3, openShares_units hk]
  split_ifs <;> rfl

theorem openShort_units (cfg : Config) (s : Portfolio) (date : Date) (sym : Sym) (n fill : ℚ)
    (stops : List Stop) :
    openShort (cfg.units k) (s.units k) date sym n (k * fill) (stops.map (Stop.units k)) =
      (openShort cfg s date sym n fill stops).map (openUnits k) := by
  unfold openShort
  have e1 : (cfg.units k).positionMode = cfg.positionMode := rfl
  have e2 : (cfg.units k).maxShort = cfg.maxShort := rfl
  have e3 : capReached cfg.maxShort (s.units k).shorts sym = capReached cfg.maxShort s.shorts sym :=
    capReached_units hk _ _ _
  simp only [e1, e2, e3, clampShares_units hk, openShares_units hk]
  split_ifs <;> rfl

/-! ## Orders -/

/-- The order placed, if any, and the portfolio in another unit. -/
def placedUnits (k : ℚ) (x : Option Order × Portfolio) : Option Order × Portfolio :=
  (x.1.map (Order.units k), x.2.units k)

theorem buy_units (cfg : Config) (s : Portfolio) (r : OrderReq) :
    buy (cfg.units k) (s.units k) (r.units k) = (buy cfg s r).map (placedUnits k) := by
  unfold buy
  have hb : buyLimitBlocks (money k r.limit) (k * r.fill) = buyLimitBlocks r.limit r.fill := by
    cases r.limit with
    | none => rfl
    | some l => simp [buyLimitBlocks, money, k_lt hk]
  simp only [OrderReq.units, verifyInput_units hk, hb, cover_units hk]
  cases verifyInput r.shares r.fill r.limit with
  | error e => rfl
  | ok u =>
    simp only
    by_cases h1 : buyLimitBlocks r.limit r.fill
    · simp only [if_pos h1]; rfl
    · simp only [if_neg h1]
      by_cases h2 : r.shares = 0
      · simp only [if_pos h2]; rfl
      · simp only [if_neg h2, OrderResult.units, openLong_units hk]
        cases openLong cfg (cover cfg s r.date r.symbol r.shares r.fill).pf r.date r.symbol
          (cover cfg s r.date r.symbol r.shares r.fill).rem r.fill r.stops with
        | error e => rfl
        | ok x =>
          obtain ⟨b, s2⟩ := x
          simp only [Except.map, openUnits, addOrder_units hk]
          split_ifs <;> rfl

theorem sell_units (cfg : Config) (s : Portfolio) (r : OrderReq) :
    sell (cfg.units k) (s.units k) (r.units k) = (sell cfg s r).map (placedUnits k) := by
  unfold sell
  have hb : sellLimitBlocks (money k r.limit) (k * r.fill) = sellLimitBlocks r.limit r.fill := by
    cases r.limit with
    | none => rfl
    | some l => simp [sellLimitBlocks, money, k_lt hk]
  simp only [OrderReq.units, verifyInput_units hk, hb, sellExisting_units hk]
  cases verifyInput r.shares r.fill r.limit with
  | error e => rfl
  | ok u =>
    simp only
    by_cases h1 : sellLimitBlocks r.limit r.fill
    · simp only [if_pos h1]; rfl
    · simp only [if_neg h1]
      by_cases h2 : r.shares = 0
      · simp only [if_pos h2]; rfl
      · simp only [if_neg h2, OrderResult.units, openShort_units hk]
        cases openShort cfg (sellExisting cfg s r.date r.symbol r.shares r.fill).pf r.date r.symbol
          (sellExisting cfg s r.date r.symbol r.shares r.fill).rem r.fill r.stops with
        | error e => rfl
        | ok x =>
          obtain ⟨b, s2⟩ := x
          simp only [Except.map, openUnits, addOrder_units hk]
          split_ifs <;> rfl

theorem slipPrice_units (slip : Option SlipFn) (side : Side) (sym : Sym) (n fill : ℚ) :
    slipPrice (slip.map (SlipFn.units k)) side sym n (k * fill) = k * slipPrice slip side sym n fill := by
  cases slip with
  | none => rfl
  | some f => simp [slipPrice, SlipFn.units, hk.ne']

theorem exitPosition_units (cfg : Config) (s : Portfolio) (date : Date) (sym : Sym) (b q : ℚ)
    (slip : Option SlipFn) :
    exitPosition (cfg.units k) (s.units k) date sym (k * b) (k * q) (slip.map (SlipFn.units k)) =
      (exitPosition cfg s date sym b q slip).map (Portfolio.units k) := by
  unfold exitPosition
  have hs : ∀ (t : Portfolio) (n : ℚ), sell (cfg.units k) (t.units k)
      { date := date, symbol := sym, shares := n,
        fill := slipPrice (slip.map (SlipFn.units k)) .sell sym n (k * q), marketPrice := some (k * q) } =
      (sell cfg t
        { date := date, symbol := sym, shares := n,
          fill := slipPrice slip .sell sym n q, marketPrice := some q }).map (placedUnits k) := fun t n => by
    rw [← sell_units hk, slipPrice_units hk]; rfl
  have hb : ∀ (t : Portfolio) (n : ℚ), buy (cfg.units k) (t.units k)
      { date := date, symbol := sym, shares := n,
        fill := slipPrice (slip.map (SlipFn.units k)) .buy sym n (k * b), marketPrice := some (k * b) } =
      (buy cfg t
        { date := date, symbol := sym, shares := n,
          fill := slipPrice slip .buy sym n b, marketPrice := some b }).map (placedUnits k) := fun t n => by
    rw [← buy_units hk, slipPrice_units hk]; rfl
  have second : ∀ t : Portfolio,
      (match lookupPos (t.units k).shorts sym with
        | none => (.ok (t.units k) : Except Err Portfolio)
        | some p =>
          match buy (cfg.units k) (t.units k)
            { date := date, symbol := sym, shares := p.shares,
              fill := slipPrice (slip.map (SlipFn.units k)) .buy sym p.shares (k * b),
              marketPrice := some (k * b) } with
          | .error e => .error e
          | .ok (_, s2) => .ok s2) =
      (match lookupPos t.shorts sym with
        | none => (.ok t : Except Err Portfolio)
        | some p =>
          match buy cfg t
            { date := date, symbol := sym, shares := p.shares,
              fill := slipPrice slip .buy sym p.shares b, marketPrice := some b } with
          | .error e => .error e
          | .ok (_, s2) => .ok s2).map (Portfolio.units k) := fun t => by
    rw [show (t.units k).shorts = t.shorts.map (Position.units k) from rfl, lookupPos_units]
    cases lookupPos t.shorts sym with
    | none => rfl
    | some p =>
      simp only [Option.map_some, Position.units_shares, hb]
      cases buy cfg t _ with
      | error e => rfl
      | ok x => rfl
  rw [show (s.units k).longs = s.longs.map (Position.units k) from rfl, lookupPos_units]
  cases lookupPos s.longs sym with
  | none => exact second s
  | some p =>
    simp only [Option.map_some, Position.units_shares, hs]
    cases sell cfg s _ with
    | error e => rfl
    | ok x => exact second x.2

/-! ## The end of a bar -/

theorem excursion_units (pt : PosType) (lo hi : Option ℚ) (e : Entry) :
    (e.units k).excursion pt (money k lo) (money k hi) = (e.excursion pt lo hi).units k := by
  have a1 : ∀ a b : ℚ, k * a - k * b = k * (a - b) := fun a b => by ring
  cases pt <;> cases lo <;> cases hi <;>
    simp only [Entry.excursion, Entry.units, money, Option.map_none, Option.map_some, a1,
      k_neg hk, k_lt hk, gt_iff_lt, k_pos hk, Entry.mk.injEq, true_and, and_true] <;>
    (try refine ⟨?_, ?_⟩) <;> ifs

theorem pnlAt_units (pt : PosType) (c : ℚ) (e : Entry) :
    (e.units k).pnlAt pt (k * c) = k * e.pnlAt pt c := by
  cases pt <;> simp only [Entry.pnlAt, Entry.units] <;> ring

theorem calcPnl_units (p : Position) (c : ℚ) (lo hi : Option ℚ) :
    (p.units k).calcPnl (k * c) (money k lo) (money k hi) = (p.calcPnl c lo hi).units k := by
  simp only [Position.calcPnl, Position.units, List.map_map, Position.mk.injEq, true_and, and_true]
  refine ⟨?_, ?_⟩
  · rw [← List.sum_map_mul_left]
    congr 1
    apply List.map_congr_left
    intro e _
    exact pnlAt_units hk _ _ e
  · apply List.map_congr_left
    intro e _
    exact excursion_units hk _ _ _ e

theorem markLong_units (p : Position) (c : ℚ) (lo hi : Option ℚ) :
    (p.units k).markLong (k * c) (money k lo) (money k hi) = (p.markLong c lo hi).units k := by
  unfold Position.markLong
  simp only [calcPnl_units hk]
  rw [← clearUnmarked_units hk]
  congr 1
  simp only [Position.units, Position.mk.injEq, true_and, and_true]
  exact ⟨by ring, by ring⟩

theorem markShort_units (p : Position) (c : ℚ) (lo hi : Option ℚ) :
    (p.units k).markShort (k * c) (money k lo) (money k hi) = (p.markShort c lo hi).units k := by
  unfold Position.markShort
  simp only [calcPnl_units hk]
  rw [← clearUnmarked_units hk]
  congr 1
  simp only [Position.units, Position.mk.injEq, true_and, and_true]
  exact ⟨by ring, by ring⟩

/-- The accumulators of a capture in another unit. -/
def CaptureAcc.units (k : ℚ) (a : CaptureAcc) : CaptureAcc :=
  ⟨a.pf.units k, k * a.equity, k * a.marketValue, k * a.margin, k * a.longValue⟩

theorem captureLong_units (q : BarQuote) (a : CaptureAcc) (sym : Sym) :
    captureLong (q.units k) (a.units k) sym = (captureLong q a sym).units k := by
  unfold captureLong
  rw [show (a.units k).pf.longs = a.pf.longs.map (Position.units k) from rfl, lookupPos_units]
  cases lookupPos a.pf.longs sym with
  | none => rfl
  | some p =>
    simp only [Option.map_some, BarQuote.units]
    cases q.close with
    | none =>
      simp only [money, Option.map_none, markedValue_units hk, CaptureAcc.units, CaptureAcc.mk.injEq,
        true_and]
      exact ⟨by ring, by ring, by ring⟩
    | some c =>
      simp only [show money k (some c) = some (k * c) from rfl, markLong_units hk, CaptureAcc.units,
        CaptureAcc.mk.injEq, true_and]
      refine ⟨?_, ?_, ?_, ?_⟩
      · simp only [Portfolio.units, replacePos_units]
      all_goals (simp only [Position.units]; ring)

theorem captureShort_units (q : BarQuote) (a : CaptureAcc) (sym : Sym) :
    captureShort (q.units k) (a.units k) sym = (captureShort q a sym).units k := by
  unfold captureShort
  rw [show (a.units k).pf.shorts = a.pf.shorts.map (Position.units k) from rfl, lookupPos_units]
  cases lookupPos a.pf.shorts sym with
  | none => rfl
  | some p =>
    simp only [Option.map_some, BarQuote.units]
    cases q.close with
    | none =>
      simp only [money, Option.map_none, markedValue_units hk, CaptureAcc.units, CaptureAcc.mk.injEq,
        true_and, and_true]
      simp only [Position.units]
      exact ⟨by ring, by ring, by ring⟩
    | some c =>
      simp only [show money k (some c) = some (k * c) from rfl, markShort_units hk, CaptureAcc.units,
        CaptureAcc.mk.injEq, true_and, and_true]
      refine ⟨?_, ?_, ?_, ?_⟩
      · simp only [Portfolio.units, replacePos_units]
      all_goals (simp only [Position.units]; ring)

theorem captureBar_units (cfg : Config) (s : Portfolio) (date : Date) (quote : Sym → BarQuote) :
    captureBar (cfg.units k) (s.units k) date (fun x => (quote x).units k) =
      (captureBar cfg s date quote).units k := by
  have hf : ∀ (l : List Sym) (a : CaptureAcc),
      l.foldl (captureSym (fun x => (quote x).units k)) (a.units k) =
        (l.foldl (captureSym quote) a).units k := by
    intro l
    induction l with
    | nil => intro a; rfl
    | cons x l ih =>
      intro a
      simp only [List.foldl_cons]
      rw [← ih]
      congr 1
      simp only [captureSym, captureLong_units hk, captureShort_units hk]
  have ha : captureAcc (cfg.units k) (s.units k) (fun x => (quote x).units k) =
      (captureAcc cfg s quote).units k := by
    unfold captureAcc
    simp only [applyInterest_units hk, netCash_units hk]
    have := hf ((s.applyInterest cfg).symbols.insertionSort (fun a b => a ≤ b))
      { pf := s.applyInterest cfg, equity := (s.applyInterest cfg).netCash cfg,
        marketValue := (s.applyInterest cfg).netCash cfg, margin := 0, longValue := 0 }
    rw [← this]
    simp [CaptureAcc.units]
    rfl
  have ht : ∀ a : CaptureAcc, captureTotals (a.units k) = (captureTotals a).units k := fun a => rfl
  unfold captureBar
  simp only [ha, ht]
  have hr : captureRecord (cfg.units k) ((captureTotals (captureAcc cfg s quote)).units k) date
        ((captureAcc cfg s quote).units k).longValue =
      (captureRecord cfg (captureTotals (captureAcc cfg s quote)) date
        (captureAcc cfg s quote).longValue).units k := by
    simp only [captureRecord, marginLoan_units hk, netCash_units hk, PortfolioBar.units,
      PortfolioBar.mk.injEq, true_and]
    simp only [Portfolio.units, Config.units, CaptureAcc.units, true_and, and_true]
    exact ⟨by ring, by ring, by ring⟩
  rw [hr]
  simp only [Portfolio.units, List.map_append, List.map_cons, List.map_nil]

theorem incrBars_units (s : Portfolio) (hb : Sym → Bool) :
    incrBars (s.units k) hb = (incrBars s hb).units k := by
  have h : ∀ p : Position, (p.units k).incrBars hb = (p.incrBars hb).units k := fun p => by
    simp only [Position.incrBars, Position.units, List.map_map, Position.mk.injEq, true_and, and_true]
    apply List.map_congr_left
    intro e _
    rfl
  simp only [incrBars, Portfolio.units, List.map_map, Portfolio.mk.injEq, true_and, and_true]
  exact ⟨List.map_congr_left (fun p _ => h p), List.map_congr_left (fun p _ => h p)⟩

end

end PyBroker
