import Verif.Portfolio.UnitsStops
import Verif.Props.StopRecords
import Verif.Portfolio.History

/-!
# Stock splits (helper lemmas)

The prices of each symbol times a factor of the symbol, its shares divided by it, and the methods
of the portfolio on the books with such prices and shares.
-/

namespace PyBroker

/-! ## Records after a split -/

/-- A stop of a symbol whose prices are multiplied by `m symbol`. -/
def Stop.split (m : Sym → ℚ) (s : Stop) : Stop := s.units (m s.symbol)

/-- An entry of a symbol whose prices are multiplied by `k`. -/
def Entry.split (m : Sym → ℚ) (k : ℚ) (e : Entry) : Entry :=
  { e with
    shares := k⁻¹ * e.shares
    price := k * e.price
    stops := e.stops.map (Stop.split m)
    mae := k * e.mae
    mfe := k * e.mfe }

/-- A stop level after a split. -/
def StopData.split (m : Sym → ℚ) (d : StopData) : StopData :=
  { d with value := money (m d.stop.symbol) d.value, stop := d.stop.split m }

/-- A position after a split: the amounts stay. -/
def Position.split (m : Sym → ℚ) (p : Position) : Position :=
  { p with
    shares := (m p.symbol)⁻¹ * p.shares
    close := m p.symbol * p.close
    entries := p.entries.map (Entry.split m (m p.symbol))
    unmarkedShares := (m p.symbol)⁻¹ * p.unmarkedShares }

/-- A trade after a split: profit and return stay. -/
def Trade.split (m : Sym → ℚ) (t : Trade) : Trade :=
  { t with
    entry := m t.symbol * t.entry
    exit := m t.symbol * t.exit
    shares := (m t.symbol)⁻¹ * t.shares
    mae := m t.symbol * t.mae
    mfe := m t.symbol * t.mfe }

/-- An order after a split: the fees stay. -/
def Order.split (m : Sym → ℚ) (o : Order) : Order :=
  { o with
    shares := (m o.symbol)⁻¹ * o.shares
    limitPrice := money (m o.symbol) o.limitPrice
    marketPrice := m o.symbol * o.marketPrice
    fillPrice := m o.symbol * o.fillPrice }

/-- A fee function after a split: asked with the new shares and price, it answers as before. -/
def FeeMode.split (m : Sym → ℚ) : FeeMode → FeeMode
  | .orderPercent => .orderPercent
  | .perOrder => .perOrder
  | .perShare => .perShare
  | .custom f => .custom (fun i =>
      f { i with shares := m i.symbol * i.shares, fillPrice := (m i.symbol)⁻¹ * i.fillPrice })

/-- A configuration after a split. -/
def Config.split (m : Sym → ℚ) (c : Config) : Config :=
  { c with feeMode := c.feeMode.map (FeeMode.split m) }

/-- A portfolio after a split: cash, amounts and the portfolio table stay. -/
def Portfolio.split (m : Sym → ℚ) (s : Portfolio) : Portfolio :=
  { s with
    longs := s.longs.map (Position.split m)
    shorts := s.shorts.map (Position.split m)
    orders := s.orders.map (Order.split m)
    trades := s.trades.map (Trade.split m)
    stopData := s.stopData.map (StopData.split m) }

/-- The request of an order after a split. -/
def OrderReq.split (m : Sym → ℚ) (r : OrderReq) : OrderReq :=
  { r with
    shares := (m r.symbol)⁻¹ * r.shares
    fill := m r.symbol * r.fill
    limit := money (m r.symbol) r.limit
    stops := r.stops.map (Stop.split m)
    marketPrice := money (m r.symbol) r.marketPrice }

/-- A slippage model after a split. -/
def SlipFn.split (m : Sym → ℚ) (f : SlipFn) : SlipFn :=
  fun side sym shares fill =>
    ((m sym)⁻¹ * (f side sym (m sym * shares) ((m sym)⁻¹ * fill)).1,
      m sym * (f side sym (m sym * shares) ((m sym)⁻¹ * fill)).2)

/-- The prices stops read after a split. -/
def StopEnv.split (m : Sym → ℚ) (e : StopEnv) : StopEnv where
  canPrice := e.canPrice
  fetchFloat := fun s t => money (m s) (e.fetchFloat s t)
  fetch := fun s f => money (m s) (e.fetch s (f.units (m s)⁻¹))
  slip := e.slip.map (SlipFn.split m)

/-! ## Books -/

section
variable {m : Sym → ℚ} (hm : ∀ s, 0 < m s)

@[simp] theorem Position.split_symbol (p : Position) : (p.split m).symbol = p.symbol := rfl
@[simp] theorem Position.split_type (p : Position) : (p.split m).type = p.type := rfl
@[simp] theorem Entry.split_id (k : ℚ) (e : Entry) : (e.split m k).id = e.id := rfl
@[simp] theorem Stop.split_id (s : Stop) : (s.split m).id = s.id := rfl
@[simp] theorem Stop.split_type (s : Stop) : (s.split m).stopType = s.stopType := rfl
@[simp] theorem Stop.split_pos (s : Stop) : (s.split m).posType = s.posType := rfl
@[simp] theorem Stop.split_symbol (s : Stop) : (s.split m).symbol = s.symbol := rfl

theorem lookupPos_split (ps : List Position) (sym : Sym) :
    lookupPos (ps.map (Position.split m)) sym = (lookupPos ps sym).map (Position.split m) := by
  induction ps with
  | nil => rfl
  | cons p ps ih =>
    simp only [List.map_cons, lookupPos, Position.split_symbol]
    by_cases h : p.symbol = sym <;> simp [h, ih]

theorem replacePos_split (ps : List Position) (q : Position) :
    replacePos (ps.map (Position.split m)) (q.split m) = (replacePos ps q).map (Position.split m) := by
  induction ps with
  | nil => rfl
  | cons p ps ih =>
    simp only [List.map_cons, replacePos, Position.split_symbol]
    by_cases h : p.symbol = q.symbol <;> simp [h, ih]

theorem erasePos_split (ps : List Position) (sym : Sym) :
    erasePos (ps.map (Position.split m)) sym = (erasePos ps sym).map (Position.split m) := by
  induction ps with
  | nil => rfl
  | cons p ps ih =>
    simp only [List.map_cons, erasePos, Position.split_symbol]
    by_cases h : p.symbol = sym <;> simp [h, ih]

theorem book_split (s : Portfolio) (pt : PosType) :
    (s.split m).book pt = (s.book pt).map (Position.split m) := by cases pt <;> rfl

theorem setBook_split (s : Portfolio) (pt : PosType) (ps : List Position) :
    (s.split m).setBook pt (ps.map (Position.split m)) = (s.setBook pt ps).split m := by
  cases pt <;> rfl

/-- Shares times price is the same amount. -/
theorem split_amount {k : ℚ} (hk : 0 < k) (a b : ℚ) : (k⁻¹ * a) * (k * b) = a * b := by
  field_simp

include hm

theorem Stop.split_injective : Function.Injective (Stop.split m) := by
  intro a b h
  have hs := congrArg Stop.symbol h
  have hs : a.symbol = b.symbol := hs
  unfold Stop.split at h
  rw [hs] at h
  exact Stop.units_injective (hm b.symbol) h

/-! ## Valuation -/

theorem markedValue_split (p : Position) : (p.split m).markedValue = p.markedValue := by
  have hk := hm p.symbol
  have hi := inv_pos.2 hk
  simp only [Position.markedValue, Position.split, k_nonpos hk, ← mul_sub, k_nonpos hi,
    split_amount hk]

theorem addUnmarked_split (p : Position) (n f : ℚ) :
    (p.split m).addUnmarked ((m p.symbol)⁻¹ * n) (m p.symbol * f) = (p.addUnmarked n f).split m := by
  simp only [Position.addUnmarked, Position.split, split_amount (hm p.symbol), mul_add]

omit hm in
theorem newestNotional_split (k : ℚ) (hk : 0 < k) (es : List Entry) (rem : ℚ) :
    newestNotional (es.map (Entry.split m k)) (k⁻¹ * rem) = newestNotional es rem := by
  have hi := inv_pos.2 hk
  induction es generalizing rem with
  | nil => simp [newestNotional]
  | cons e es ih =>
    have e1 : (e.split m k).shares = k⁻¹ * e.shares := rfl
    have e2 : (e.split m k).price = k * e.price := rfl
    simp only [List.map_cons, newestNotional, e1, e2, k_nonpos hi, k_min hi, ← mul_sub, ih,
      split_amount hk]

theorem clampUnmarked_split (p : Position) : (p.split m).clampUnmarked = p.clampUnmarked.split m := by
  have hk := hm p.symbol
  have hi := inv_pos.2 hk
  have h : newestNotional (p.split m).entries.reverse ((m p.symbol)⁻¹ * p.shares)
      = newestNotional p.entries.reverse p.shares := by
    have := newestNotional_split (m := m) _ hk p.entries.reverse p.shares
    rw [← this, List.map_reverse]; rfl
  have hu : (p.split m).unmarkedShares = (m p.symbol)⁻¹ * p.unmarkedShares := rfl
  have hs : (p.split m).shares = (m p.symbol)⁻¹ * p.shares := rfl
  simp only [Position.clampUnmarked, hs, hu, h, k_nonpos hi, gt_iff_lt, k_lt hi]
  by_cases h1 : p.unmarkedShares ≤ 0
  · rw [if_pos h1, if_pos h1]
  · rw [if_neg h1, if_neg h1]
    by_cases h2 : p.shares ≤ 0
    · rw [if_pos h2, if_pos h2]
      simp [Position.split]
    · rw [if_neg h2, if_neg h2]
      by_cases h3 : p.shares < p.unmarkedShares
      · rw [if_pos h3, if_pos h3]
        rfl
      · rw [if_neg h3, if_neg h3]

omit hm in
theorem clearUnmarked_split (p : Position) : (p.split m).clearUnmarked = p.clearUnmarked.split m := by
  simp [Position.clearUnmarked, Position.split]

omit hm in
theorem marginLoan_split (cfg : Config) (s : Portfolio) :
    (s.split m).marginLoan (cfg.split m) = s.marginLoan cfg := rfl

theorem calculateFees_split (cfg : Config) (hf : ∀ a, cfg.feeMode = some a → a ≠ .perShare) (sym : Sym)
    (fill shares : ℚ) (side : Side) :
    calculateFees (cfg.split m) sym (m sym * fill) ((m sym)⁻¹ * shares) side =
      calculateFees cfg sym fill shares side := by
  have hk := hm sym
  obtain ⟨cash, fm, fa, _, _, _, _, _, _, _⟩ := cfg
  cases fm with
  | none => cases fa <;> simp [calculateFees, Config.split]
  | some f =>
    cases fa with
    | none => cases f <;> simp [calculateFees, Config.split, FeeMode.split]
    | some a =>
      cases f
      · simp only [calculateFees, Config.split, Option.map_some, FeeMode.split]
        field_simp
      · simp [calculateFees, Config.split, FeeMode.split]
      · exact absurd rfl (hf _ rfl)
      · simp only [calculateFees, Config.split, Option.map_some, FeeMode.split, k_inv hk, k_inv' hk]

theorem verifyInput_split (sym : Sym) (shares fill : ℚ) (limit : Option ℚ) :
    verifyInput ((m sym)⁻¹ * shares) (m sym * fill) (money (m sym) limit) = verifyInput shares fill limit := by
  have hk := hm sym
  have hi := inv_pos.2 hk
  cases limit <;> simp only [verifyInput, money, Option.map_none, Option.map_some, k_nonpos hk, k_neg hi]

omit hm in
theorem invalidate_split (s : Portfolio) : (s.split m).invalidate = s.invalidate.split m := rfl

theorem sumMarked_split (ps : List Position) :
    sumMarked (ps.map (Position.split m)) = sumMarked ps := by
  simp only [sumMarked, List.map_map]
  congr 1
  apply List.map_congr_left
  intro p _
  exact markedValue_split hm p

/-- A value and a portfolio after a split. -/
def pairSplit (m : Sym → ℚ) (x : ℚ × Portfolio) : ℚ × Portfolio := (x.1, x.2.split m)

theorem longMarketValue_split (s : Portfolio) :
    (s.split m).longMarketValue = pairSplit m s.longMarketValue := by
  unfold Portfolio.longMarketValue
  rw [show (s.split m).cachedLongMv = s.cachedLongMv from rfl,
    show sumMarked (s.split m).longs = sumMarked s.longs from sumMarked_split hm _]
  cases s.cachedLongMv <;> rfl

theorem shortMarketValue_split (s : Portfolio) :
    (s.split m).shortMarketValue = pairSplit m s.shortMarketValue := by
  unfold Portfolio.shortMarketValue
  rw [show (s.split m).cachedShortMv = s.cachedShortMv from rfl,
    show sumMarked (s.split m).shorts = sumMarked s.shorts from sumMarked_split hm _]
  cases s.cachedShortMv <;> rfl

omit hm in
theorem postCollateral_split (cfg : Config) (s : Portfolio) (n : ℚ) :
    (s.split m).postCollateral (cfg.split m) n = (s.postCollateral cfg n).split m := by
  simp only [Portfolio.postCollateral, show (cfg.split m).leverage = cfg.leverage from rfl]
  ifs <;> rfl

omit hm in
theorem releaseCollateral_split (cfg : Config) (s : Portfolio) (n p : ℚ) :
    (s.split m).releaseCollateral (cfg.split m) n p = (s.releaseCollateral cfg n p).split m := by
  simp only [Portfolio.releaseCollateral, show (cfg.split m).leverage = cfg.leverage from rfl]
  ifs <;> rfl

omit hm in
theorem netCash_split (cfg : Config) (s : Portfolio) :
    (s.split m).netCash (cfg.split m) = s.netCash cfg := rfl

theorem liveMarketValue_split (cfg : Config) (s : Portfolio) :
    (s.split m).liveMarketValue (cfg.split m) = pairSplit m (s.liveMarketValue cfg) := by
  simp only [Portfolio.liveMarketValue, longMarketValue_split hm, pairSplit,
    shortMarketValue_split hm, marginLoan_split]
  rfl

theorem availableBuyingPower_split (cfg : Config) (s : Portfolio) :
    (s.split m).availableBuyingPower (cfg.split m) = pairSplit m (s.availableBuyingPower cfg) := by
  simp only [Portfolio.availableBuyingPower, show (cfg.split m).leverage = cfg.leverage from rfl]
  ifs
  · rfl
  · simp only [longMarketValue_split hm, pairSplit, shortMarketValue_split hm,
      liveMarketValue_split hm]

omit hm in
theorem sweepAccrued_split (s : Portfolio) : (s.split m).sweepAccrued = s.sweepAccrued.split m := by
  simp only [Portfolio.sweepAccrued, show (s.split m).accrued = s.accrued from rfl,
    show (s.split m).cash = s.cash from rfl]
  ifs
  rfl

omit hm in
theorem applyInterest_split (cfg : Config) (s : Portfolio) :
    (s.split m).applyInterest (cfg.split m) = (s.applyInterest cfg).split m := by
  simp only [Portfolio.applyInterest, show (cfg.split m).barsPerYear = cfg.barsPerYear from rfl,
    show (cfg.split m).interestRate = cfg.interestRate from rfl]
  cases cfg.barsPerYear with
  | none => rfl
  | some b =>
    simp only [sweepAccrued_split, netCash_split]
    ifs <;> rfl

/-! ## Logs and stops -/

theorem addOrder_split (cfg : Config) (hf : ∀ a, cfg.feeMode = some a → a ≠ .perShare) (s : Portfolio)
    (date : Date) (sym : Sym) (side : Side)
    (created : Option Date) (ot : OrderType) (intent : Intent) (shares : ℚ)
    (limit market : Option ℚ) (fill : ℚ) :
    (s.split m).addOrder (cfg.split m) date sym side created ot intent ((m sym)⁻¹ * shares)
        (money (m sym) limit) (money (m sym) market) (m sym * fill) =
      (((s.addOrder cfg date sym side created ot intent shares limit market fill).1).split m,
        ((s.addOrder cfg date sym side created ot intent shares limit market fill).2).split m) := by
  have h1 : (cfg.split m).feeMode.isSome = cfg.feeMode.isSome := by
    simp [Config.split]
  have h2 : (money (m sym) market).getD (m sym * fill) = m sym * market.getD fill := by
    cases market <;> rfl
  simp only [Portfolio.addOrder, calculateFees_split hm cfg hf, h1, h2]
  simp only [Order.split, Portfolio.split, List.map_append, List.map_cons, List.map_nil]

omit hm in
theorem addTrade_split (s : Portfolio) (t : Trade) :
    (s.split m).addTrade (t.split m) = (s.addTrade t).split m := by
  simp only [Portfolio.addTrade, show (t.split m).pnl = t.pnl from rfl]
  simp only [Portfolio.split, List.map_append, List.map_cons, List.map_nil, Trade.split]

omit hm in
theorem lookupStop_split (ds : List StopData) (id : Nat) :
    lookupStop (ds.map (StopData.split m)) id = (lookupStop ds id).map (StopData.split m) := by
  induction ds with
  | nil => rfl
  | cons d ds ih =>
    have h0 : (d.split m).stop.id = d.stop.id := rfl
    simp only [List.map_cons, lookupStop, h0]
    by_cases h : d.stop.id = id <;> simp [h, ih]

omit hm in
theorem eraseStop_split (ds : List StopData) (id : Nat) :
    eraseStop (ds.map (StopData.split m)) id = (eraseStop ds id).map (StopData.split m) := by
  induction ds with
  | nil => rfl
  | cons d ds ih =>
    have h0 : (d.split m).stop.id = d.stop.id := rfl
    simp only [List.map_cons, eraseStop, h0]
    by_cases h : d.stop.id = id <;> simp [h, ih]

/-- The stops of an entry and a portfolio after a split. -/
def stopsSplit (m : Sym → ℚ) (x : List Stop × Portfolio) : List Stop × Portfolio :=
  (x.1.map (Stop.split m), x.2.split m)

theorem addStopStep_split (id : Nat) (sym : Sym) (price : ℚ) (acc : List Stop × Portfolio) (st : Stop)
    (hs : st.symbol = sym) :
    addStopStep id (m sym * price) (stopsSplit m acc) (st.split m) =
      (addStopStep id price acc st).map (stopsSplit m) := by
  subst hs
  unfold addStopStep
  have h0 : lookupStop (stopsSplit m acc).2.stopData (st.split m).id =
      (lookupStop acc.2.stopData st.id).map (StopData.split m) := lookupStop_split _ _
  have h1 : stopAmount (st.split m) (m st.symbol * price) =
      (stopAmount st price).map (m st.symbol * ·) := stopAmount_units (hm st.symbol) st price
  have h2 : ∀ a, stopValue (st.split m) (m st.symbol * price) (m st.symbol * a) =
      m st.symbol * stopValue st price a := stopValue_units (hm st.symbol) st price
  rw [h0]
  cases lookupStop acc.2.stopData st.id with
  | some d => rfl
  | none =>
    simp only [Option.map_none, Stop.split_type, Stop.split_id, Stop.split_symbol]
    by_cases hb : st.stopType = .bar
    · simp [hb, stopsSplit, Except.map]
    · simp only [hb, if_false, h1]
      cases stopAmount st price with
      | error e => rfl
      | ok a =>
        simp only [Except.map, h2]
        simp [stopsSplit, Portfolio.split, StopData.split, money]

omit hm in
/-- A loop over the images of a list, for steps that correspond on its elements. -/
theorem foldE_map_mem {α β γ δ : Type} (f : β → α → Except Err β) (g : δ → γ → Except Err δ)
    (u : β → δ) (v : α → γ) (l : List α) (h : ∀ a ∈ l, ∀ b, g (u b) (v a) = (f b a).map u) (b : β) :
    foldE g (u b) (l.map v) = (foldE f b l).map u := by
  induction l generalizing b with
  | nil => rfl
  | cons a l ih =>
    simp only [List.map_cons, foldE, h a List.mem_cons_self]
    cases f b a with
    | error e => rfl
    | ok b' => exact ih (fun a ha => h a (List.mem_cons_of_mem _ ha)) b'

theorem addStops_split (s : Portfolio) (id : Nat) (sym : Sym) (price : ℚ) (stops : List Stop)
    (hs : ∀ st ∈ stops, st.symbol = sym) :
    addStops (s.split m) id (m sym * price) (stops.map (Stop.split m)) =
      (addStops s id price stops).map (stopsSplit m) := by
  unfold addStops
  rw [insertionSort_map_key (fun a b : Stop => a.id ≤ b.id) (fun a b : Stop => a.id ≤ b.id)
    (Stop.split m) (fun _ _ => Iff.rfl)]
  exact foldE_map_mem _ _ (stopsSplit m) (Stop.split m) _
    (fun st hst b => addStopStep_split hm id sym price b st
      (hs st ((List.perm_insertionSort _ _).subset hst))) ([], s)

omit hm in
theorem removeStopData_split (s : Portfolio) (stops : List Stop) :
    (s.split m).removeStopData (stops.map (Stop.split m)) = (s.removeStopData stops).split m := by
  induction stops generalizing s with
  | nil => rfl
  | cons st stops ih =>
    simp only [List.map_cons, Portfolio.removeStopData, Stop.split_id, Stop.split_symbol]
    have h0 : lookupStop (s.split m).stopData st.id =
      (lookupStop s.stopData st.id).map (StopData.split m) := lookupStop_split _ _
    rw [h0]
    cases lookupStop s.stopData st.id with
    | none => exact ih s
    | some d =>
      simp only [Option.map_some]
      rw [← ih]
      congr 1
      simp only [Portfolio.split, eraseStop_split]

/-! ## Exits -/

omit hm in
theorem modEntry_split (k : ℚ) (id : Nat) (f g : Entry → Entry)
    (h : ∀ e, g (e.split m k) = (f e).split m k) (es : List Entry) :
    modEntry id g (es.map (Entry.split m k)) = (modEntry id f es).map (Entry.split m k) := by
  induction es with
  | nil => rfl
  | cons e es ih =>
    simp only [List.map_cons, modEntry, Entry.split_id]
    by_cases he : e.id = id <;> simp [he, ih, h]

theorem takeShares_split (p : Position) (e : Entry) (n : ℚ) :
    (p.split m).takeShares (e.split m (m p.symbol)) ((m p.symbol)⁻¹ * n) = (p.takeShares e n).split m := by
  unfold Position.takeShares
  rw [← clampUnmarked_split hm]
  congr 1
  have h := modEntry_split (m := m) (m p.symbol) e.id (fun e' => { e' with shares := e'.shares - n })
    (fun e' => { e' with shares := e'.shares - (m p.symbol)⁻¹ * n })
    (fun e' => by simp only [Entry.split, mul_sub]) p.entries
  simp only [Position.split, Entry.split_id, Position.mk.injEq, true_and, and_true]
  refine ⟨by ring, h, ?_⟩
  rw [show (e.split m (m p.symbol)).price = m p.symbol * e.price from rfl, split_amount (hm p.symbol)]

/-- A portfolio and a position after a split. -/
def exitSplit (m : Sym → ℚ) (x : Portfolio × Position) : Portfolio × Position :=
  (x.1.split m, x.2.split m)

theorem exitLong_split (cfg : Config) (s : Portfolio) (p : Position) (e : Entry) (n fill : ℚ)
    (date : Date) (t : Option StopType) (he : e.symbol = p.symbol) :
    exitLong (cfg.split m) (s.split m) (p.split m) (e.split m (m p.symbol)) ((m p.symbol)⁻¹ * n)
        (m p.symbol * fill) date t =
      exitSplit m (exitLong cfg s p e n fill date t) := by
  have hk := hm p.symbol
  unfold exitLong exitSplit
  have e0 : (e.split m (m p.symbol)).price = m p.symbol * e.price := rfl
  have e5 : ∀ x : ℚ, ({ s.split m with pnl := (s.split m).pnl + x } : Portfolio) =
      ({ s with pnl := s.pnl + x } : Portfolio).split m := fun x => rfl
  simp only [e0, split_amount hk, k_div hk, ← mul_sub, e5, takeShares_split hm,
    releaseCollateral_split]
  generalize Portfolio.releaseCollateral cfg _ (n * e.price) (n * fill - n * e.price) = X
  rw [Prod.mk.injEq]
  refine ⟨?_, rfl⟩
  rw [← invalidate_split, ← addTrade_split]
  congr 1
  congr 1
  have e7 : (e.split m (m p.symbol)).mae = m p.symbol * e.mae := rfl
  have e8 : (e.split m (m p.symbol)).mfe = m p.symbol * e.mfe := rfl
  simp only [e7, e8, exitMae_units hk, exitMfe_units hk]
  have e9 : (e.split m (m p.symbol)).symbol = p.symbol := he
  simp only [Trade.split, he, e9]
  rfl

theorem exitShort_split (cfg : Config) (s : Portfolio) (p : Position) (e : Entry) (n fill : ℚ)
    (date : Date) (t : Option StopType) (he : e.symbol = p.symbol) :
    exitShort (cfg.split m) (s.split m) (p.split m) (e.split m (m p.symbol)) ((m p.symbol)⁻¹ * n)
        (m p.symbol * fill) date t =
      exitSplit m (exitShort cfg s p e n fill date t) := by
  have hk := hm p.symbol
  unfold exitShort exitSplit
  have e0 : (e.split m (m p.symbol)).price = m p.symbol * e.price := rfl
  have e5 : ∀ x : ℚ, ({ s.split m with pnl := (s.split m).pnl + x } : Portfolio) =
      ({ s with pnl := s.pnl + x } : Portfolio).split m := fun x => rfl
  simp only [e0, split_amount hk, k_div hk, ← mul_sub, e5, takeShares_split hm,
    releaseCollateral_split]
  generalize Portfolio.releaseCollateral cfg _ (n * e.price) (n * e.price - n * fill) = X
  rw [Prod.mk.injEq]
  refine ⟨?_, rfl⟩
  rw [← invalidate_split, ← addTrade_split]
  congr 1
  congr 1
  have e7 : (e.split m (m p.symbol)).mae = m p.symbol * e.mae := rfl
  have e8 : (e.split m (m p.symbol)).mfe = m p.symbol * e.mfe := rfl
  simp only [e7, e8, exitMae_units hk, exitMfe_units hk]
  have e9 : (e.split m (m p.symbol)).symbol = p.symbol := he
  simp only [Trade.split, he, e9]
  rfl

theorem exitEntry_split (cfg : Config) (pt : PosType) (s : Portfolio) (p : Position) (e : Entry)
    (n fill : ℚ) (date : Date) (t : Option StopType) (he : e.symbol = p.symbol) :
    exitEntry (cfg.split m) pt (s.split m) (p.split m) (e.split m (m p.symbol)) ((m p.symbol)⁻¹ * n)
        (m p.symbol * fill) date t =
      exitSplit m (exitEntry cfg pt s p e n fill date t) := by
  cases pt
  · exact exitLong_split hm _ _ _ _ _ _ _ _ he
  · exact exitShort_split hm _ _ _ _ _ _ _ _ he

omit hm in
theorem updatePosition_split (s : Portfolio) (p : Position) :
    (s.split m).updatePosition (p.split m) = (s.updatePosition p).split m := by
  unfold Portfolio.updatePosition
  have h1 : (p.split m).entries = p.entries.map (Entry.split m (m p.symbol)) := rfl
  simp only [h1, Position.split_type, Position.split_symbol, book_split, replacePos_split,
    erasePos_split, setBook_split, ne_eq, List.map_eq_nil_iff]
  by_cases h : p.entries = []
  · simp only [h, not_true_eq_false, if_false]
    have h2 : ∀ t : Portfolio, (t.split m).symbols = t.symbols := fun _ => rfl
    have h3 : ∀ t : Portfolio, lookupPos (t.split m).longs p.symbol = none ↔
        lookupPos t.longs p.symbol = none := fun t => by
      rw [show (t.split m).longs = t.longs.map (Position.split m) from rfl, lookupPos_split]
      simp
    have h4 : ∀ t : Portfolio, lookupPos (t.split m).shorts p.symbol = none ↔
        lookupPos t.shorts p.symbol = none := fun t => by
      rw [show (t.split m).shorts = t.shorts.map (Position.split m) from rfl, lookupPos_split]
      simp
    simp only [h2, h3, h4]
    ifs
    rfl
  · simp only [h, not_false_eq_true, if_true]

/-- The result of a loop of exits of `sym` after a split. -/
def ExitResult.split (m : Sym → ℚ) (sym : Sym) (r : ExitResult) : ExitResult :=
  ⟨(m sym)⁻¹ * r.rem, r.pf.split m, r.pos.split m⟩

omit hm in
theorem exitEntry_symbol (cfg : Config) (pt : PosType) (s : Portfolio) (p : Position) (e : Entry)
    (n fill : ℚ) (date : Date) (t : Option StopType) :
    (exitEntry cfg pt s p e n fill date t).2.symbol = p.symbol := by
  cases pt <;> exact takeShares_symbol _ _ _

theorem exitLoop_split (cfg : Config) (pt : PosType) (date : Date) (fill : ℚ) (sym : Sym)
    (es : List Entry) (hes : ∀ e ∈ es, e.symbol = sym) (rem : ℚ) (s : Portfolio) (p : Position)
    (hp : p.symbol = sym) :
    exitLoop (cfg.split m) pt date (m sym * fill) (es.map (Entry.split m (m sym))) ((m sym)⁻¹ * rem)
        (s.split m) (p.split m) =
      (exitLoop cfg pt date fill es rem s p).split m sym := by
  subst hp
  have hi := inv_pos.2 (hm p.symbol)
  generalize hq : p.symbol = sym at *
  induction es generalizing rem s p with
  | nil => rfl
  | cons e es ih =>
    have e1 : (e.split m (m sym)).shares = (m sym)⁻¹ * e.shares := rfl
    have hx : ∀ n : ℚ, exitEntry (cfg.split m) pt (s.split m) (p.split m) (e.split m (m sym))
        ((m sym)⁻¹ * n) (m sym * fill) date none =
        exitSplit m (exitEntry cfg pt s p e n fill date none) := fun n => by
      have := exitEntry_split hm cfg pt s p e n fill date none
        ((hes e List.mem_cons_self).trans hq.symm)
      rw [hq] at this
      exact this
    simp only [List.map_cons, exitLoop, e1, hx, exitSplit, gt_iff_lt, ge_iff_le, k_pos hi, k_le hi]
    by_cases h1 : 0 < rem
    · simp only [if_pos h1]
      by_cases h2 : e.shares ≤ rem
      · simp only [if_pos h2]
        rw [← mul_sub, ← ih _ _ _
          (show ({ (exitEntry cfg pt s p e e.shares fill date none).2 with
            entries := (exitEntry cfg pt s p e e.shares fill date none).2.entries.tail } : Position).symbol
              = sym from (exitEntry_symbol ..).trans hq)
          (fun x hx => hes x (List.mem_cons_of_mem _ hx))]
        congr 1
        · exact removeStopData_split _ _
        · simp only [Position.split, List.map_tail]
      · simp only [if_neg h2]
        simp [ExitResult.split]
    · simp only [if_neg h1]
      rfl

/-- The result of an order for `sym` after a split. -/
def OrderResult.split (m : Sym → ℚ) (sym : Sym) (r : OrderResult) : OrderResult :=
  ⟨(m sym)⁻¹ * r.filled, (m sym)⁻¹ * r.rem, r.pf.split m⟩

/-- The entries of each position are of its symbol. -/
def EntSym (s : Portfolio) : Prop := ∀ pt, ∀ p ∈ s.book pt, ∀ e ∈ p.entries, e.symbol = p.symbol

theorem cover_split (cfg : Config) (s : Portfolio) (hs : EntSym s) (date : Date) (sym : Sym) (n fill : ℚ) :
    cover (cfg.split m) (s.split m) date sym ((m sym)⁻¹ * n) (m sym * fill) =
      (cover cfg s date sym n fill).split m sym := by
  have hi := inv_pos.2 (hm sym)
  unfold cover
  rw [show (s.split m).shorts = s.shorts.map (Position.split m) from rfl, lookupPos_split]
  cases hl : lookupPos s.shorts sym with
  | none => simp [OrderResult.split]
  | some p =>
    obtain ⟨hpm, hps⟩ := lookupPos_some hl
    simp only [Option.map_some, k_nonpos hi]
    by_cases h : n ≤ 0
    · rw [if_pos h, if_pos h]; simp [OrderResult.split]
    · rw [if_neg h, if_neg h]
      have := exitLoop_split hm cfg .short date fill sym p.entries
        (fun e he => (hs .short p hpm e he).trans hps) n s p hps
      rw [show (p.split m).entries = p.entries.map (Entry.split m (m p.symbol)) from rfl, hps, this]
      simp only [ExitResult.split, OrderResult.split, updatePosition_split, mul_sub]

theorem sellExisting_split (cfg : Config) (s : Portfolio) (hs : EntSym s) (date : Date) (sym : Sym)
    (n fill : ℚ) :
    sellExisting (cfg.split m) (s.split m) date sym ((m sym)⁻¹ * n) (m sym * fill) =
      (sellExisting cfg s date sym n fill).split m sym := by
  unfold sellExisting
  rw [show (s.split m).longs = s.longs.map (Position.split m) from rfl, lookupPos_split]
  cases hl : lookupPos s.longs sym with
  | none => simp [OrderResult.split]
  | some p =>
    obtain ⟨hpm, hps⟩ := lookupPos_some hl
    simp only [Option.map_some]
    have := exitLoop_split hm cfg .long date fill sym p.entries
      (fun e he => (hs .long p hpm e he).trans hps) n s p hps
    rw [show (p.split m).entries = p.entries.map (Entry.split m (m p.symbol)) from rfl, hps, this]
    simp only [ExitResult.split, OrderResult.split, updatePosition_split, mul_sub]

/-! ## Opening positions -/

omit hm in
theorem truncQ_nat_mul (N : ℕ) {x : ℚ} (hx : 0 ≤ x) : (N : ℚ) * (truncQ x : ℚ) ≤ (truncQ (N * x) : ℚ) := by
  have hN : (0 : ℚ) ≤ N := Nat.cast_nonneg N
  have h2 : 0 ≤ N * x := mul_nonneg hN hx
  unfold truncQ
  rw [if_neg (not_lt.2 hx), if_neg (not_lt.2 h2)]
  have h3 : ((N : ℤ) * ⌊x⌋ : ℤ) ≤ ⌊(N : ℚ) * x⌋ := by
    rw [Int.le_floor]
    push_cast
    exact mul_le_mul_of_nonneg_left (Int.floor_le x) hN
  calc (N : ℚ) * (⌊x⌋ : ℚ) = (((N : ℤ) * ⌊x⌋ : ℤ) : ℚ) := by push_cast; ring
    _ ≤ (⌊(N : ℚ) * x⌋ : ℚ) := by exact_mod_cast h3

theorem maxShares_split (hN : ∀ s, ∃ N : ℕ, (m s)⁻¹ = N) (cfg : Config) (sym : Sym) {bp fill : ℚ}
    (hb : 0 ≤ bp) (hf : 0 < fill) :
    (m sym)⁻¹ * maxShares cfg bp fill ≤ maxShares (cfg.split m) bp (m sym * fill) := by
  obtain ⟨N, h⟩ := hN sym
  have h0 : 0 ≤ bp / fill := div_nonneg hb hf.le
  have h1 : bp / (m sym * fill) = N * (bp / fill) := by
    rw [← h]
    have := (hm sym).ne'
    field_simp
  simp only [maxShares, show (cfg.split m).fractional = cfg.fractional from rfl, h1, h]
  split_ifs
  · unfold truncNano
    rw [mul_div_assoc', mul_assoc]
    exact div_le_div_of_nonneg_right (truncQ_nat_mul N (by positivity)) (by norm_num)
  · exact truncQ_nat_mul N h0

omit hm in
theorem availableBuyingPower_nonneg (cfg : Config) (s : Portfolio) :
    0 ≤ (s.availableBuyingPower cfg).1 := by
  unfold Portfolio.availableBuyingPower
  split_ifs
  · exact le_max_right _ _
  · exact le_max_right _ _

theorem clampShares_split_pf (cfg : Config) (s : Portfolio) (sym : Sym) (fill shares : ℚ) (side : Side)
    (hf : ∀ a, cfg.feeMode = some a → a ≠ .perShare) :
    ((s.split m).clampShares (cfg.split m) sym (m sym * fill) ((m sym)⁻¹ * shares) side).2 =
      (s.clampShares cfg sym fill shares side).2.split m := by
  simp only [Portfolio.clampShares, availableBuyingPower_split hm, pairSplit,
    show (cfg.split m).leverage = cfg.leverage from rfl, show (s.split m).cash = s.cash from rfl]
  have hi := inv_pos.2 (hm sym)
  have e1 : ∀ b : ℚ, b / (m sym * fill) = (m sym)⁻¹ * (b / fill) := fun b => by
    rw [div_mul_eq_div_div, div_eq_inv_mul (b / m sym), div_eq_inv_mul b (m sym), div_eq_inv_mul b fill]
    ring
  simp only [e1, k_min hi, calculateFees_split hm cfg hf]
  split_ifs <;> rfl

theorem clampShares_split_le (hN : ∀ s, ∃ N : ℕ, (m s)⁻¹ = N) (cfg : Config) (s : Portfolio) (sym : Sym)
    (fill shares : ℚ) (side : Side) (hf : ∀ a, cfg.feeMode = some a → a ≠ .perShare) (hfill : 0 < fill)
    (hs : 0 < shares) (h : shares ≤ (s.clampShares cfg sym fill shares side).1) :
    (m sym)⁻¹ * shares ≤
      ((s.split m).clampShares (cfg.split m) sym (m sym * fill) ((m sym)⁻¹ * shares) side).1 := by
  have hi := inv_pos.2 (hm sym)
  have hbp := availableBuyingPower_nonneg cfg s
  have e1 : ∀ b : ℚ, b / (m sym * fill) = (m sym)⁻¹ * (b / fill) := fun b => by
    rw [div_mul_eq_div_div, div_eq_inv_mul (b / m sym), div_eq_inv_mul b (m sym), div_eq_inv_mul b fill]
    ring
  have key : ∀ b : ℚ, 0 ≤ b → shares ≤ min shares (maxShares cfg b fill) →
      (m sym)⁻¹ * shares ≤ min ((m sym)⁻¹ * shares) (maxShares (cfg.split m) b (m sym * fill)) := by
    intro b hb hle
    refine le_min le_rfl (le_trans ?_ (maxShares_split hm hN cfg sym hb hfill))
    exact (k_le hi _ _).2 (hle.trans (min_le_right _ _))
  revert h
  simp only [Portfolio.clampShares, availableBuyingPower_split hm, pairSplit,
    show (cfg.split m).leverage = cfg.leverage from rfl, show (s.split m).cash = s.cash from rfl,
    e1, k_min hi, calculateFees_split hm cfg hf]
  split_ifs with h1 h2 h3 h4
  · intro h; exact absurd h (not_le.2 hs)
  · intro h; exact absurd h (not_le.2 hs)
  · exact key _ (not_le.1 h4).le
  · exact key _ hbp
  · exact key _ hbp

omit hm in
theorem clampShares_le (cfg : Config) (s : Portfolio) (sym : Sym) (fill shares : ℚ) (side : Side) :
    (s.clampShares cfg sym fill shares side).1 ≤ max shares 0 := by
  simp only [Portfolio.clampShares]
  split_ifs
  · exact le_max_right _ _
  · exact le_max_right _ _
  · exact (min_le_left _ _).trans (le_max_left _ _)
  · exact (min_le_left _ _).trans (le_max_left _ _)
  · exact (min_le_left _ _).trans (le_max_left _ _)

/-- The shares of an opening of `sym` and the portfolio after a split. -/
def openSplit (m : Sym → ℚ) (sym : Sym) (x : ℚ × Portfolio) : ℚ × Portfolio :=
  ((m sym)⁻¹ * x.1, x.2.split m)

theorem openShares_split (cfg : Config) (pt : PosType) (s : Portfolio) (date : Date) (sym : Sym)
    (n fill : ℚ) (stops : List Stop) (hst : ∀ st ∈ stops, st.symbol = sym) :
    openShares (cfg.split m) pt (s.split m) date sym ((m sym)⁻¹ * n) (m sym * fill)
        (stops.map (Stop.split m)) =
      (openShares cfg pt s date sym n fill stops).map (openSplit m sym) := by
  have hk := hm sym
  unfold openShares
  simp only [split_amount hk, postCollateral_split]
  generalize s.postCollateral cfg (n * fill) = s1
  have e2 : ({ s1.split m with entryId := (s1.split m).entryId + 1 } : Portfolio) =
      ({ s1 with entryId := s1.entryId + 1 } : Portfolio).split m := rfl
  have e3 : (s1.split m).entryId = s1.entryId := rfl
  rw [e2, e3, addStops_split hm _ _ _ _ _ hst]
  cases addStops { s1 with entryId := s1.entryId + 1 } (s1.entryId + 1) fill stops with
  | error e => rfl
  | ok x =>
    obtain ⟨es, s3⟩ := x
    simp only [Except.map, stopsSplit, openSplit, Except.ok.injEq, Prod.mk.injEq, true_and]
    rw [← invalidate_split]
    congr 1
    simp only [book_split, lookupPos_split]
    cases hl : lookupPos (s3.book pt) sym with
    | none =>
      simp only [Option.map_none]
      cases pt <;>
        simp [Portfolio.setBook, Portfolio.book, Portfolio.split, Position.addUnmarked,
          Position.split, Entry.split, split_amount hk]
    | some p0 =>
      obtain ⟨_, hps⟩ := lookupPos_some hl
      simp only [Option.map_some]
      have e4 : ∀ (q q' : Position), q' = q.split m →
          replacePos ((s3.book pt).map (Position.split m)) q' =
            (replacePos (s3.book pt) q).map (Position.split m) := fun q q' h => by
        rw [h, replacePos_split]
      rw [e4 (q := { (({ p0 with shares := p0.shares + n } : Position).addUnmarked n fill) with
          entries := (({ p0 with shares := p0.shares + n } : Position).addUnmarked n fill).entries ++
            [{ id := s1.entryId + 1, date := date, symbol := sym, shares := n, price := fill,
               type := pt, stops := es }]
          entryNotional :=
            (({ p0 with shares := p0.shares + n } : Position).addUnmarked n fill).entryNotional + n * fill })]
      · rw [setBook_split]
        cases pt <;> simp [Portfolio.split, Portfolio.setBook]
      · simp [Position.addUnmarked, Position.split, Entry.split, mul_add, hps, split_amount hk]

omit hm in
theorem capReached_split (cap : Option Nat) (ps : List Position) (sym : Sym) :
    capReached cap (ps.map (Position.split m)) sym = capReached cap ps sym := by
  cases cap with
  | none => rfl
  | some n => simp [capReached, lookupPos_split]

/-- The position mode or the cap on positions keeps an order from opening. -/
def Barred (cfg : Config) (s : Portfolio) (sym : Sym) : Side → Prop
  | .buy => cfg.positionMode = .shortOnly ∨ capReached cfg.maxLong s.longs sym = true
  | .sell => cfg.positionMode = .longOnly ∨ capReached cfg.maxShort s.shorts sym = true

/-- The buying power covers the shares that an order opens. -/
def Uncut (cfg : Config) (s : Portfolio) (sym : Sym) (fill n : ℚ) (side : Side) : Prop :=
  0 < n → ¬ Barred cfg s sym side → n ≤ (s.clampShares cfg sym fill n side).1

omit hm in
theorem cut_shares (c n : ℚ) (h : n ≤ c) : (if c < n then c else n) = n := if_neg (not_lt.2 h)

theorem openLong_split (hN : ∀ s, ∃ N : ℕ, (m s)⁻¹ = N) (cfg : Config)
    (hf : ∀ a, cfg.feeMode = some a → a ≠ .perShare) (s : Portfolio) (date : Date) (sym : Sym)
    (n fill : ℚ) (hfill : 0 < fill) (stops : List Stop) (hst : ∀ st ∈ stops, st.symbol = sym)
    (hu : Uncut cfg s sym fill n .buy) :
    openLong (cfg.split m) (s.split m) date sym ((m sym)⁻¹ * n) (m sym * fill) (stops.map (Stop.split m)) =
      (openLong cfg s date sym n fill stops).map (openSplit m sym) := by
  have hi := inv_pos.2 (hm sym)
  unfold openLong
  have e1 : (cfg.split m).positionMode = cfg.positionMode := rfl
  have e2 : (cfg.split m).maxLong = cfg.maxLong := rfl
  have e5 := clampShares_split_pf hm cfg s sym fill n .buy hf
  have e6 := clampShares_le cfg s sym fill n .buy
  have e7 := clampShares_le (cfg.split m) (s.split m) sym (m sym * fill) ((m sym)⁻¹ * n) .buy
  by_cases hb : Barred cfg s sym .buy
  · obtain ⟨a, b, -, hfr⟩ := clampShares_frame cfg s sym fill n .buy
    have e3 : capReached cfg.maxLong ((s.clampShares cfg sym fill n .buy).2.split m).longs sym =
        capReached cfg.maxLong s.longs sym := by
      rw [hfr]; exact capReached_split _ _ _
    have e4 : capReached cfg.maxLong (s.clampShares cfg sym fill n .buy).2.longs sym =
        capReached cfg.maxLong s.longs sym := by rw [hfr]
    simp only [e1, e2, e5, e3, e4]
    rcases hb with hb | hb
    · simp [hb, Except.map, openSplit]
    · simp only [hb, if_true, ite_self]
      split_ifs <;> simp [Except.map, openSplit]
  by_cases hn : 0 < n
  · have hc := hu hn hb
    have hc' := clampShares_split_le hm hN cfg s sym fill n .buy hf hfill hn hc
    simp only [e1, e2, e5, cut_shares _ _ hc, cut_shares _ _ hc', k_nonpos hi]
    have e3 : capReached cfg.maxLong ((s.clampShares cfg sym fill n .buy).2.split m).longs sym =
        capReached cfg.maxLong (s.clampShares cfg sym fill n .buy).2.longs sym := capReached_split _ _ _
    simp only [e3, openShares_split hm _ _ _ _ _ _ _ _ hst]
    split_ifs <;> first | rfl | simp [Except.map, openSplit]
  · have hn0 : n ≤ 0 := not_lt.1 hn
    have hn1 : (m sym)⁻¹ * n ≤ 0 := (k_nonpos hi n).2 hn0
    have c1 : (if (s.clampShares cfg sym fill n .buy).1 < n then
        (s.clampShares cfg sym fill n .buy).1 else n) ≤ 0 := by
      split_ifs with h
      · exact h.le.trans hn0
      · exact hn0
    have c2 : (if ((s.split m).clampShares (cfg.split m) sym (m sym * fill) ((m sym)⁻¹ * n) .buy).1
          < (m sym)⁻¹ * n then
        ((s.split m).clampShares (cfg.split m) sym (m sym * fill) ((m sym)⁻¹ * n) .buy).1
        else (m sym)⁻¹ * n) ≤ 0 := by
      split_ifs with h
      · exact h.le.trans hn1
      · exact hn1
    simp only [e1, if_pos c1, if_pos c2, e5]
    split_ifs <;> simp [Except.map, openSplit]

theorem openShort_split (hN : ∀ s, ∃ N : ℕ, (m s)⁻¹ = N) (cfg : Config)
    (hf : ∀ a, cfg.feeMode = some a → a ≠ .perShare) (s : Portfolio) (date : Date) (sym : Sym)
    (n fill : ℚ) (hfill : 0 < fill) (stops : List Stop) (hst : ∀ st ∈ stops, st.symbol = sym)
    (hu : Uncut cfg s sym fill n .sell) :
    openShort (cfg.split m) (s.split m) date sym ((m sym)⁻¹ * n) (m sym * fill) (stops.map (Stop.split m)) =
      (openShort cfg s date sym n fill stops).map (openSplit m sym) := by
  have hi := inv_pos.2 (hm sym)
  unfold openShort
  have e1 : (cfg.split m).positionMode = cfg.positionMode := rfl
  have e2 : (cfg.split m).maxShort = cfg.maxShort := rfl
  have e3 : capReached cfg.maxShort (s.split m).shorts sym = capReached cfg.maxShort s.shorts sym :=
    capReached_split _ _ _
  have e5 := clampShares_split_pf hm cfg s sym fill n .sell hf
  by_cases hb : Barred cfg s sym .sell
  · simp only [e1, e2, e3, k_nonpos hi]
    rcases hb with hb | hb
    · simp only [hb, if_true]
      split_ifs <;> simp [Except.map, openSplit]
    · simp only [hb, if_true]
      split_ifs <;> simp [Except.map, openSplit]
  by_cases hn : 0 < n
  · have hc := hu hn hb
    have hc' := clampShares_split_le hm hN cfg s sym fill n .sell hf hfill hn hc
    simp only [e1, e2, e3, e5, cut_shares _ _ hc, cut_shares _ _ hc', k_nonpos hi,
      openShares_split hm _ _ _ _ _ _ _ _ hst]
    split_ifs <;> first | rfl | simp [Except.map, openSplit]
  · have hn0 : n ≤ 0 := not_lt.1 hn
    simp [if_pos hn0, if_pos ((k_nonpos hi n).2 hn0), Except.map, openSplit]

/-! ## Orders -/

/-- The order placed, if any, and the portfolio after a split. -/
def placedSplit (m : Sym → ℚ) (x : Option Order × Portfolio) : Option Order × Portfolio :=
  (x.1.map (Order.split m), x.2.split m)

/-- The buying power covers what the order opens. -/
def UncutOrder (cfg : Config) (s : Portfolio) (sd : Side) (r : OrderReq) : Prop :=
  match sd with
  | .buy => Uncut cfg (cover cfg s r.date r.symbol r.shares r.fill).pf r.symbol r.fill
      (cover cfg s r.date r.symbol r.shares r.fill).rem .buy
  | .sell => Uncut cfg (sellExisting cfg s r.date r.symbol r.shares r.fill).pf r.symbol r.fill
      (sellExisting cfg s r.date r.symbol r.shares r.fill).rem .sell

theorem buy_split (hN : ∀ s, ∃ N : ℕ, (m s)⁻¹ = N) (cfg : Config)
    (hf : ∀ a, cfg.feeMode = some a → a ≠ .perShare) (s : Portfolio) (hs : EntSym s) (r : OrderReq)
    (hst : ∀ st ∈ r.stops, st.symbol = r.symbol)
    (hu : ¬ buyLimitBlocks r.limit r.fill → r.shares ≠ 0 → 0 < r.fill → UncutOrder cfg s .buy r) :
    buy (cfg.split m) (s.split m) (r.split m) = (buy cfg s r).map (placedSplit m) := by
  have hk := hm r.symbol
  have hi := inv_pos.2 hk
  unfold buy
  have hb : buyLimitBlocks (money (m r.symbol) r.limit) (m r.symbol * r.fill) =
      buyLimitBlocks r.limit r.fill := by
    cases r.limit with
    | none => rfl
    | some l => simp [buyLimitBlocks, money, k_lt hk]
  simp only [OrderReq.split, verifyInput_split hm, hb, cover_split hm cfg s hs, k_zero hi]
  cases hv : verifyInput r.shares r.fill r.limit with
  | error e => rfl
  | ok u =>
    have hfill : 0 < r.fill := (verifyInput_ok hv).2.1
    simp only
    by_cases h1 : buyLimitBlocks r.limit r.fill
    · simp only [if_pos h1]; rfl
    · simp only [if_neg h1]
      by_cases h2 : r.shares = 0
      · simp only [if_pos h2]; rfl
      · simp only [if_neg h2, OrderResult.split]
        rw [openLong_split hm hN cfg hf _ _ _ _ _ hfill _ hst (hu h1 h2 hfill)]
        cases openLong cfg (cover cfg s r.date r.symbol r.shares r.fill).pf r.date r.symbol
          (cover cfg s r.date r.symbol r.shares r.fill).rem r.fill r.stops with
        | error e => rfl
        | ok x =>
          obtain ⟨b, s2⟩ := x
          simp only [Except.map, openSplit, k_zero hi, ← mul_add, addOrder_split hm cfg hf, ne_eq]
          split_ifs <;> rfl

theorem sell_split (hN : ∀ s, ∃ N : ℕ, (m s)⁻¹ = N) (cfg : Config)
    (hf : ∀ a, cfg.feeMode = some a → a ≠ .perShare) (s : Portfolio) (hs : EntSym s) (r : OrderReq)
    (hst : ∀ st ∈ r.stops, st.symbol = r.symbol)
    (hu : ¬ sellLimitBlocks r.limit r.fill → r.shares ≠ 0 → 0 < r.fill → UncutOrder cfg s .sell r) :
    sell (cfg.split m) (s.split m) (r.split m) = (sell cfg s r).map (placedSplit m) := by
  have hk := hm r.symbol
  have hi := inv_pos.2 hk
  unfold sell
  have hb : sellLimitBlocks (money (m r.symbol) r.limit) (m r.symbol * r.fill) =
      sellLimitBlocks r.limit r.fill := by
    cases r.limit with
    | none => rfl
    | some l => simp [sellLimitBlocks, money, k_lt hk]
  simp only [OrderReq.split, verifyInput_split hm, hb, sellExisting_split hm cfg s hs, k_zero hi]
  cases hv : verifyInput r.shares r.fill r.limit with
  | error e => rfl
  | ok u =>
    have hfill : 0 < r.fill := (verifyInput_ok hv).2.1
    simp only
    by_cases h1 : sellLimitBlocks r.limit r.fill
    · simp only [if_pos h1]; rfl
    · simp only [if_neg h1]
      by_cases h2 : r.shares = 0
      · simp only [if_pos h2]; rfl
      · simp only [if_neg h2, OrderResult.split]
        rw [openShort_split hm hN cfg hf _ _ _ _ _ hfill _ hst (hu h1 h2 hfill)]
        cases openShort cfg (sellExisting cfg s r.date r.symbol r.shares r.fill).pf r.date r.symbol
          (sellExisting cfg s r.date r.symbol r.shares r.fill).rem r.fill r.stops with
        | error e => rfl
        | ok x =>
          obtain ⟨b, s2⟩ := x
          simp only [Except.map, openSplit, k_zero hi, ← mul_add, addOrder_split hm cfg hf, ne_eq]
          split_ifs <;> rfl

theorem slipPrice_split (slip : Option SlipFn) (side : Side) (sym : Sym) (n fill : ℚ) :
    slipPrice (slip.map (SlipFn.split m)) side sym ((m sym)⁻¹ * n) (m sym * fill) =
      m sym * slipPrice slip side sym n fill := by
  cases slip with
  | none => rfl
  | some f => simp only [slipPrice, Option.map_some, SlipFn.split, k_inv (hm sym), k_inv' (hm sym)]

omit hm in
theorem WF.entSym {Z : List Nat} {s : Portfolio} (h : WF Z s) : EntSym s :=
  fun pt p hp e he => ((h.pos pt p hp).entries e he).symbol

theorem exitPosition_split (hN : ∀ s, ∃ N : ℕ, (m s)⁻¹ = N) (cfg : Config)
    (hf : ∀ a, cfg.feeMode = some a → a ≠ .perShare) (s : Portfolio) (hg : Good s) (date : Date)
    (sym : Sym) (b q : ℚ) (slip : Option SlipFn) :
    exitPosition (cfg.split m) (s.split m) date sym (m sym * b) (m sym * q) (slip.map (SlipFn.split m)) =
      (exitPosition cfg s date sym b q slip).map (Portfolio.split m) := by
  unfold exitPosition
  have hsell : ∀ (p : Position), lookupPos s.longs sym = some p → sell (cfg.split m) (s.split m)
      { date := date, symbol := sym, shares := (m sym)⁻¹ * p.shares,
        fill := slipPrice (slip.map (SlipFn.split m)) .sell sym ((m sym)⁻¹ * p.shares) (m sym * q),
        marketPrice := some (m sym * q) } =
      (sell cfg s
        { date := date, symbol := sym, shares := p.shares,
          fill := slipPrice slip .sell sym p.shares q, marketPrice := some q }).map (placedSplit m) :=
    fun p hp => by
    rw [← sell_split hm hN cfg hf s hg.wf.entSym _ (by simp), slipPrice_split hm]
    · rfl
    · intro _ _ _
      simp only [UncutOrder, sellExisting_eq]
      intro hpos
      exact absurd hpos (not_lt.2 (closeShares_all (pt := .long) hg hp).le)
  have hbuy : ∀ (t : Portfolio) (p : Position), Good t → lookupPos t.shorts sym = some p →
      buy (cfg.split m) (t.split m)
      { date := date, symbol := sym, shares := (m sym)⁻¹ * p.shares,
        fill := slipPrice (slip.map (SlipFn.split m)) .buy sym ((m sym)⁻¹ * p.shares) (m sym * b),
        marketPrice := some (m sym * b) } =
      (buy cfg t
        { date := date, symbol := sym, shares := p.shares,
          fill := slipPrice slip .buy sym p.shares b, marketPrice := some b }).map (placedSplit m) :=
    fun t p ht hp => by
    rw [← buy_split hm hN cfg hf t ht.wf.entSym _ (by simp), slipPrice_split hm]
    · rfl
    · intro _ h0 _
      have hpm := lookupPos_some hp
      have hpos : 0 < p.shares :=
        lt_of_le_of_ne (PosWF.shares_nonneg (ht.wf.pos .short p hpm.1)) (Ne.symm h0)
      simp only [UncutOrder, cover_eq hpos]
      intro hr
      exact absurd hr (not_lt.2 (closeShares_all (pt := .short) ht hp).le)
  have second : ∀ t : Portfolio, Good t →
      (match lookupPos (t.split m).shorts sym with
        | none => (.ok (t.split m) : Except Err Portfolio)
        | some p =>
          match buy (cfg.split m) (t.split m)
            { date := date, symbol := sym, shares := p.shares,
              fill := slipPrice (slip.map (SlipFn.split m)) .buy sym p.shares (m sym * b),
              marketPrice := some (m sym * b) } with
          | .error e => .error e
          | .ok (_, s2) => .ok s2) =
      (match lookupPos t.shorts sym with
        | none => (.ok t : Except Err Portfolio)
        | some p =>
          match buy cfg t
            { date := date, symbol := sym, shares := p.shares,
              fill := slipPrice slip .buy sym p.shares b, marketPrice := some b } with
          | .error e => .error e
          | .ok (_, s2) => .ok s2).map (Portfolio.split m) := fun t ht => by
    rw [show (t.split m).shorts = t.shorts.map (Position.split m) from rfl, lookupPos_split]
    cases hl : lookupPos t.shorts sym with
    | none => rfl
    | some p =>
      have hps := (lookupPos_some hl).2
      have h1 : (p.split m).shares = (m sym)⁻¹ * p.shares := by rw [← hps]; rfl
      simp only [Option.map_some, h1, hbuy t p ht hl]
      cases buy cfg t _ with
      | error e => rfl
      | ok x => rfl
  rw [show (s.split m).longs = s.longs.map (Position.split m) from rfl, lookupPos_split]
  cases hl : lookupPos s.longs sym with
  | none => exact second s hg
  | some p =>
    have hps := (lookupPos_some hl).2
    have h1 : (p.split m).shares = (m sym)⁻¹ * p.shares := by rw [← hps]; rfl
    simp only [Option.map_some, h1, hsell p hl]
    cases hx : sell cfg s _ with
    | error e => rfl
    | ok x => exact second x.2 (placeOrder_good (sd := .sell) hg hx)

/-! ## The end of a bar -/

/-- The prices of a bar of a symbol after a split. -/
def BarQuote.split (m : Sym → ℚ) (sym : Sym) (q : BarQuote) : BarQuote := q.units (m sym)

omit hm in
theorem excursion_split (k : ℚ) (hk : 0 < k) (pt : PosType) (lo hi : Option ℚ) (e : Entry) :
    (e.split m k).excursion pt (money k lo) (money k hi) = (e.excursion pt lo hi).split m k := by
  have a1 : ∀ a b : ℚ, k * a - k * b = k * (a - b) := fun a b => by ring
  cases pt <;> cases lo <;> cases hi <;>
    simp only [Entry.excursion, Entry.split, money, Option.map_none, Option.map_some, a1,
      k_neg hk, k_lt hk, gt_iff_lt, k_pos hk, Entry.mk.injEq, true_and, and_true] <;>
    (try refine ⟨?_, ?_⟩) <;> ifs

omit hm in
theorem pnlAt_split (k : ℚ) (hk : 0 < k) (pt : PosType) (c : ℚ) (e : Entry) :
    (e.split m k).pnlAt pt (k * c) = e.pnlAt pt c := by
  cases pt <;> simp only [Entry.pnlAt, Entry.split] <;> field_simp

theorem calcPnl_split (p : Position) (c : ℚ) (lo hi : Option ℚ) :
    (p.split m).calcPnl (m p.symbol * c) (money (m p.symbol) lo) (money (m p.symbol) hi) =
      (p.calcPnl c lo hi).split m := by
  simp only [Position.calcPnl, Position.split, List.map_map, Position.mk.injEq, true_and, and_true]
  refine ⟨?_, ?_⟩
  · congr 1
    apply List.map_congr_left
    intro e _
    exact pnlAt_split _ (hm p.symbol) _ _ e
  · apply List.map_congr_left
    intro e _
    exact excursion_split _ (hm p.symbol) _ _ _ e

theorem markLong_split (p : Position) (c : ℚ) (lo hi : Option ℚ) :
    (p.split m).markLong (m p.symbol * c) (money (m p.symbol) lo) (money (m p.symbol) hi) =
      (p.markLong c lo hi).split m := by
  unfold Position.markLong
  simp only [calcPnl_split hm]
  rw [← clearUnmarked_split]
  congr 1
  have : (p.calcPnl c lo hi).symbol = p.symbol := rfl
  simp only [Position.split, this, split_amount (hm p.symbol)]

theorem markShort_split (p : Position) (c : ℚ) (lo hi : Option ℚ) :
    (p.split m).markShort (m p.symbol * c) (money (m p.symbol) lo) (money (m p.symbol) hi) =
      (p.markShort c lo hi).split m := by
  unfold Position.markShort
  simp only [calcPnl_split hm]
  rw [← clearUnmarked_split]
  congr 1
  have : (p.calcPnl c lo hi).symbol = p.symbol := rfl
  have h2 : ∀ a b : ℚ, (m p.symbol * a) * ((m p.symbol)⁻¹ * b) = a * b := fun a b => by
    have := (hm p.symbol).ne'
    field_simp
  simp only [Position.split, this, h2]

/-- The accumulators of a capture after a split. -/
def CaptureAcc.split (m : Sym → ℚ) (a : CaptureAcc) : CaptureAcc := { a with pf := a.pf.split m }

theorem captureLong_split (q : BarQuote) (a : CaptureAcc) (sym : Sym) :
    captureLong (q.split m sym) (a.split m) sym = (captureLong q a sym).split m := by
  unfold captureLong
  rw [show (a.split m).pf.longs = a.pf.longs.map (Position.split m) from rfl, lookupPos_split]
  cases hl : lookupPos a.pf.longs sym with
  | none => rfl
  | some p =>
    have hps := (lookupPos_some hl).2
    subst hps
    simp only [Option.map_some, BarQuote.split, BarQuote.units]
    cases q.close with
    | none =>
      simp only [money, Option.map_none, markedValue_split hm]
      rfl
    | some c =>
      simp only [show money (m p.symbol) (some c) = some (m p.symbol * c) from rfl, markLong_split hm,
        CaptureAcc.split, CaptureAcc.mk.injEq]
      refine ⟨?_, ?_⟩
      · simp only [Portfolio.split, replacePos_split]
      · simp [Position.split]

theorem captureShort_split (q : BarQuote) (a : CaptureAcc) (sym : Sym) :
    captureShort (q.split m sym) (a.split m) sym = (captureShort q a sym).split m := by
  unfold captureShort
  rw [show (a.split m).pf.shorts = a.pf.shorts.map (Position.split m) from rfl, lookupPos_split]
  cases hl : lookupPos a.pf.shorts sym with
  | none => rfl
  | some p =>
    have hps := (lookupPos_some hl).2
    subst hps
    simp only [Option.map_some, BarQuote.split, BarQuote.units]
    cases q.close with
    | none =>
      simp only [money, Option.map_none, markedValue_split hm]
      rfl
    | some c =>
      simp only [show money (m p.symbol) (some c) = some (m p.symbol * c) from rfl, markShort_split hm,
        CaptureAcc.split, CaptureAcc.mk.injEq]
      refine ⟨?_, ?_⟩
      · simp only [Portfolio.split, replacePos_split]
      · simp [Position.split]

theorem captureBar_split (cfg : Config) (s : Portfolio) (date : Date) (quote : Sym → BarQuote) :
    captureBar (cfg.split m) (s.split m) date (fun x => (quote x).split m x) =
      (captureBar cfg s date quote).split m := by
  have hf : ∀ (l : List Sym) (a : CaptureAcc),
      l.foldl (captureSym (fun x => (quote x).split m x)) (a.split m) =
        (l.foldl (captureSym quote) a).split m := by
    intro l
    induction l with
    | nil => intro a; rfl
    | cons x l ih =>
      intro a
      simp only [List.foldl_cons]
      rw [← ih]
      congr 1
      simp only [captureSym, captureLong_split hm, captureShort_split hm]
  have ha : captureAcc (cfg.split m) (s.split m) (fun x => (quote x).split m x) =
      (captureAcc cfg s quote).split m := by
    unfold captureAcc
    simp only [applyInterest_split, netCash_split]
    exact hf ((s.applyInterest cfg).symbols.insertionSort (fun a b => a ≤ b))
      { pf := s.applyInterest cfg, equity := (s.applyInterest cfg).netCash cfg,
        marketValue := (s.applyInterest cfg).netCash cfg, margin := 0, longValue := 0 }
  unfold captureBar
  simp only [ha]
  rfl

omit hm in
theorem incrBars_split (s : Portfolio) (hb : Sym → Bool) :
    incrBars (s.split m) hb = (incrBars s hb).split m := by
  have h : ∀ p : Position, (p.split m).incrBars hb = (p.incrBars hb).split m := fun p => by
    simp only [Position.incrBars, Position.split, List.map_map, Position.mk.injEq, true_and, and_true]
    apply List.map_congr_left
    intro e _
    rfl
  simp only [incrBars, Portfolio.split, List.map_map, Portfolio.mk.injEq, true_and, and_true]
  exact ⟨List.map_congr_left (fun p _ => h p), List.map_congr_left (fun p _ => h p)⟩

/-! ## Stops -/

omit hm in
theorem setStopValue_split (ds : List StopData) (id : Nat) (sym : Sym)
    (h : ∀ d, lookupStop ds id = some d → d.stop.symbol = sym) (v : Option ℚ) :
    setStopValue (ds.map (StopData.split m)) id (money (m sym) v) =
      (setStopValue ds id v).map (StopData.split m) := by
  induction ds with
  | nil => rfl
  | cons d ds ih =>
    have h0 : (d.split m).stop.id = d.stop.id := rfl
    simp only [List.map_cons, setStopValue, h0]
    by_cases hd : d.stop.id = id
    · have := h d (by simp [lookupStop, hd])
      simp [hd, StopData.split, this]
    · simp only [hd, if_false, List.map_cons]
      rw [ih (fun d' hd' => h d' (by simp [lookupStop, hd, hd']))]

theorem triggerProfitLoss_split (env : StopEnv) (st : Stop) (v : Option ℚ) :
    triggerProfitLoss (env.split m) (st.split m) (money (m st.symbol) v) =
      money (m st.symbol) (triggerProfitLoss env st v) :=
  (show triggerProfitLoss (env.split m) (st.split m) (money (m st.symbol) v) =
    triggerProfitLoss (env.units (m st.symbol)) (st.units (m st.symbol)) (money (m st.symbol) v)
    from rfl).trans (triggerProfitLoss_units (hm st.symbol) env st v)

theorem triggerTrailing_split (env : StopEnv) (st : Stop) (v : Option ℚ) :
    triggerTrailing (env.split m) (st.split m) (money (m st.symbol) v) =
      (triggerTrailing env st v).map (fun x => (money (m st.symbol) x.1, money (m st.symbol) x.2)) :=
  (show triggerTrailing (env.split m) (st.split m) (money (m st.symbol) v) =
    triggerTrailing (env.units (m st.symbol)) (st.units (m st.symbol)) (money (m st.symbol) v)
    from rfl).trans (triggerTrailing_units (hm st.symbol) env st v)

theorem triggerBar_split (env : StopEnv) (st : Stop) (n : Nat) :
    triggerBar (env.split m) (st.split m) n = (triggerBar env st n).map (money (m st.symbol)) :=
  (show triggerBar (env.split m) (st.split m) n =
    triggerBar (env.units (m st.symbol)) (st.units (m st.symbol)) n from rfl).trans
    (triggerBar_units (hm st.symbol) env st n)

theorem slipStopFill_split (env : StopEnv) (st : Stop) (n fill : ℚ) :
    slipStopFill (env.split m) (st.split m) ((m st.symbol)⁻¹ * n) (m st.symbol * fill) =
      m st.symbol * slipStopFill env st n fill := by
  have hk := hm st.symbol
  have h1 : (env.split m).slip = env.slip.map (SlipFn.split m) := rfl
  have h2 : (st.split m).posType = st.posType := rfl
  simp only [slipStopFill, h1, h2, Stop.split_symbol]
  cases env.slip with
  | none => rfl
  | some f =>
    simp only [Option.map_some, SlipFn.split, k_inv hk, k_inv' hk, k_nonpos hk]
    split_ifs <;> simp_all

theorem stopLimitBlocks_split (st : Stop) (fill : ℚ) :
    stopLimitBlocks (st.split m) (m st.symbol * fill) = stopLimitBlocks st fill :=
  stopLimitBlocks_units (hm st.symbol) st fill

/-- The level a stop reads belongs to a stop of the same symbol. -/
def LevelSym (s : Portfolio) (st : Stop) : Prop :=
  st.stopType ≠ .bar → ∀ d, lookupStop s.stopData st.id = some d → d.stop.symbol = st.symbol

theorem stopFill_split (env : StopEnv) (s : Portfolio) (e : Entry) (k : ℚ) (st : Stop)
    (h : LevelSym s st) :
    stopFill (env.split m) (s.split m) (e.split m k) (st.split m) =
      (stopFill env s e st).map (fun x => (money (m st.symbol) x.1, x.2.split m)) := by
  have h0 : (e.split m k).symBars = e.symBars := rfl
  have h1 : lookupStop (s.split m).stopData st.id =
      (lookupStop s.stopData st.id).map (StopData.split m) := lookupStop_split _ _
  have h2 : (st.split m).stopType = st.stopType := rfl
  simp only [stopFill, h2, Stop.split_id, h0, h1, triggerBar_split hm]
  cases ht : st.stopType with
  | bar =>
    simp only
    cases triggerBar env st e.symBars with
    | error err => rfl
    | ok f => rfl
  | loss =>
    simp only
    have h := h (by simp [ht])
    cases hl : lookupStop s.stopData st.id with
    | none => rfl
    | some d =>
      simp only [Option.map_some, StopData.split, h d hl, triggerProfitLoss_split hm]
      rfl
  | profit =>
    simp only
    have h := h (by simp [ht])
    cases hl : lookupStop s.stopData st.id with
    | none => rfl
    | some d =>
      simp only [Option.map_some, StopData.split, h d hl, triggerProfitLoss_split hm]
      rfl
  | trailing =>
    simp only
    have h := h (by simp [ht])
    cases hl : lookupStop s.stopData st.id with
    | none => rfl
    | some d =>
      simp only [Option.map_some, StopData.split, h d hl, triggerTrailing_split hm]
      cases triggerTrailing env st d.value with
      | error err => rfl
      | ok x =>
        simp only [Except.map, Except.ok.injEq, Prod.mk.injEq, true_and]
        simp only [Portfolio.split, ← setStopValue_split _ _ _ h]

/-- Whether a stop fired and the portfolio after a split. -/
def firedSplit (m : Sym → ℚ) (x : Bool × Portfolio) : Bool × Portfolio := (x.1, x.2.split m)

theorem triggerStop_split (cfg : Config) (hf : ∀ a, cfg.feeMode = some a → a ≠ .perShare)
    (env : StopEnv) (date : Date) (s : Portfolio) (p : Position)
    (e : Entry) (st : Stop) (hp : p.symbol = st.symbol) (he : e.symbol = p.symbol)
    (hlv : LevelSym s st) :
    triggerStop (cfg.split m) (env.split m) date (s.split m) (p.split m) (e.split m (m p.symbol))
        (st.split m) =
      (triggerStop cfg env date s p e st).map (firedSplit m) := by
  have h1 : lookupPos ((s.split m).book st.posType) st.symbol = none ↔
      lookupPos (s.book st.posType) st.symbol = none := by
    rw [book_split, lookupPos_split]; simp
  have h2 : (st.split m).exitSide = st.exitSide := rfl
  have h3 : (st.split m).exitIntent = st.exitIntent := rfl
  have h4 : (st.split m).limitPrice = money (m st.symbol) st.limitPrice := rfl
  have h5 : (st.split m).posType = st.posType := rfl
  have h6 : (st.split m).stopType = st.stopType := rfl
  have h7 : (e.split m (m p.symbol)).shares = (m p.symbol)⁻¹ * e.shares := rfl
  simp only [triggerStop, h5, Stop.split_symbol, stopFill_split hm _ _ _ _ _ hlv, h2, h3, h4]
  by_cases h : lookupPos (s.book st.posType) st.symbol = none
  · simp only [h1.2 h, h, if_true]; rfl
  · have h' : ¬ (lookupPos ((s.split m).book st.posType) st.symbol = none) := fun hc => h (h1.1 hc)
    simp only [h', h, if_false]
    cases stopFill env s e st with
    | error err => rfl
    | ok x =>
      obtain ⟨f, s1⟩ := x
      cases f with
      | none => rfl
      | some q =>
        have h8 : slipStopFill (env.split m) (st.split m) ((m p.symbol)⁻¹ * e.shares)
            (m st.symbol * q) = m st.symbol * slipStopFill env st e.shares q := by
          rw [hp]; exact slipStopFill_split hm env st e.shares q
        simp only [Except.map, money, Option.map_some, h7, h8, stopLimitBlocks_split hm]
        by_cases hl : stopLimitBlocks st (slipStopFill env st e.shares q)
        · simp only [if_pos hl]; rfl
        · have h9 := exitEntry_split hm cfg st.posType s1 p e e.shares
            (slipStopFill env st e.shares q) date (some st.stopType) he
          rw [show m st.symbol = m p.symbol by rw [hp]]
          simp only [if_neg hl, h6, h9, exitSplit, Position.split_type, book_split,
            replacePos_split, setBook_split, Position.split_symbol]
          have := addOrder_split hm cfg hf
            ((exitEntry cfg st.posType s1 p e e.shares (slipStopFill env st e.shares q) date
              (some st.stopType)).1.setBook p.type
                (replacePos ((exitEntry cfg st.posType s1 p e e.shares
                  (slipStopFill env st e.shares q) date (some st.stopType)).1.book p.type)
                  (exitEntry cfg st.posType s1 p e e.shares (slipStopFill env st e.shares q) date
                    (some st.stopType)).2)) date p.symbol st.exitSide none
            (stopOrderType st.stopType) st.exitIntent e.shares st.limitPrice (some q)
            (slipStopFill env st e.shares q)
          simp only [money, Option.map_some] at this
          rw [this]
          rfl

/-- A stop to evaluate after a split. -/
def StopCheck.split (m : Sym → ℚ) (c : StopCheck) : StopCheck := { c with stop := c.stop.split m }

/-- The state of the loop over stops after a split. -/
def checkSplit (m : Sym → ℚ) (x : Portfolio × List StopCheck) : Portfolio × List StopCheck :=
  (x.1.split m, x.2.map (StopCheck.split m))

omit hm in
theorem findEntry_split (k : ℚ) (es : List Entry) (id : Nat) :
    findEntry (es.map (Entry.split m k)) id = (findEntry es id).map (Entry.split m k) := by
  simp only [findEntry]
  rw [List.find?_map]
  rfl

theorem checkOne_split (cfg : Config) (hf : ∀ a, cfg.feeMode = some a → a ≠ .perShare)
    (env : StopEnv) (date : Date)
    (acc : Portfolio × List StopCheck) (c : StopCheck) (hs : EntSym acc.1)
    (hc : c.stop.symbol = c.symbol) (hlv : LevelSym acc.1 c.stop) :
    checkOne (cfg.split m) (env.split m) date (checkSplit m acc) (c.split m) =
      (checkOne cfg env date acc c).map (checkSplit m) := by
  have h1 : ((checkSplit m acc).2.map StopCheck.entryId) = acc.2.map StopCheck.entryId := by
    simp only [checkSplit, List.map_map]; rfl
  have h2 : (c.split m).entryId = c.entryId := rfl
  have h3 : lookupPos ((checkSplit m acc).1.book c.posType) c.symbol =
      (lookupPos (acc.1.book c.posType) c.symbol).map (Position.split m) := by
    simp only [checkSplit, book_split, lookupPos_split]
  have h4 : (c.split m).posType = c.posType := rfl
  have h5 : (c.split m).symbol = c.symbol := rfl
  simp only [checkOne, h1, h2, h3, h4, h5]
  by_cases h : c.entryId ∈ acc.2.map StopCheck.entryId
  · simp only [if_pos h]; rfl
  · simp only [if_neg h]
    cases hl : lookupPos (acc.1.book c.posType) c.symbol with
    | none => rfl
    | some p =>
      obtain ⟨hpm, hps⟩ := lookupPos_some hl
      simp only [Option.map_some]
      rw [show (p.split m).entries = p.entries.map (Entry.split m (m p.symbol)) from rfl,
        findEntry_split]
      cases hfe : findEntry p.entries c.entryId with
      | none => rfl
      | some e =>
        simp only [Option.map_some]
        have := triggerStop_split hm cfg hf env date acc.1 p e c.stop (hps.trans hc.symm)
          (hs _ p hpm e (findEntry_some hfe).1) hlv
        rw [show (checkSplit m acc).1 = acc.1.split m from rfl,
          show (c.split m).stop = c.stop.split m from rfl, this]
        cases triggerStop cfg env date acc.1 p e c.stop with
        | error err => rfl
        | ok x =>
          obtain ⟨b, s1⟩ := x
          cases b
          · rfl
          · simp [Except.map, firedSplit, checkSplit]

omit hm in
theorem priceChecks_split (env : StopEnv) (s : Portfolio) :
    priceChecks (env.split m) (s.split m) = (priceChecks env s).map (StopCheck.split m) := by
  unfold priceChecks
  rw [List.map_flatMap]
  congr 1
  funext x
  obtain ⟨sym, ids⟩ := x
  have hc : (env.split m).canPrice sym = env.canPrice sym := rfl
  simp only [hc]
  by_cases hp : env.canPrice sym = true
  · simp only [hp, if_true]
    rw [List.map_filterMap]
    congr 1
    funext id
    have h1 : lookupStop (s.split m).stopData id =
      (lookupStop s.stopData id).map (StopData.split m) := lookupStop_split _ _
    rw [h1]
    cases lookupStop s.stopData id <;> rfl
  · simp only [hp]; rfl

omit hm in
theorem barChecks_split (env : StopEnv) (s : Portfolio) :
    barChecks (env.split m) (s.split m) = (barChecks env s).map (StopCheck.split m) := by
  unfold barChecks
  rw [show (s.split m).longs = s.longs.map (Position.split m) from rfl,
    show (s.split m).shorts = s.shorts.map (Position.split m) from rfl, ← List.map_append,
    List.flatMap_map, List.map_flatMap]
  congr 1
  funext p
  have hc : (env.split m).canPrice p.symbol = env.canPrice p.symbol := rfl
  simp only [Position.split_symbol, hc]
  by_cases hp : env.canPrice p.symbol = true
  · simp only [hp, if_true]
    rw [show (p.split m).entries = p.entries.map (Entry.split m (m p.symbol)) from rfl,
      List.flatMap_map, List.map_flatMap]
    congr 1
    funext e
    rw [show (e.split m (m p.symbol)).stops = e.stops.map (Stop.split m) from rfl, List.filter_map,
      List.map_map, List.map_map]
    rfl
  · simp only [hp]; rfl

omit hm in
theorem eraseEntry_split (k : ℚ) (es : List Entry) (id : Nat) :
    eraseEntry (es.map (Entry.split m k)) id = (eraseEntry es id).map (Entry.split m k) := by
  induction es with
  | nil => rfl
  | cons e es ih =>
    simp only [List.map_cons, eraseEntry, Entry.split_id]
    by_cases h : e.id = id <;> simp [h, ih]

omit hm in
theorem finishStop_split (s : Portfolio) (c : StopCheck) :
    finishStop (s.split m) (c.split m) = (finishStop s c).split m := by
  have h2 : (c.split m).entryId = c.entryId := rfl
  have h4 : (c.split m).posType = c.posType := rfl
  have h5 : (c.split m).symbol = c.symbol := rfl
  simp only [finishStop, h2, h4, h5, book_split, lookupPos_split]
  cases lookupPos (s.book c.posType) c.symbol with
  | none => rfl
  | some p =>
    simp only [Option.map_some]
    rw [show (p.split m).entries = p.entries.map (Entry.split m (m p.symbol)) from rfl,
      findEntry_split]
    cases findEntry p.entries c.entryId with
    | none => rfl
    | some e =>
      simp only [Option.map_some, eraseEntry_split]
      rw [← updatePosition_split, ← removeStopData_split]
      rfl

omit hm in
theorem setStopValue_stops (ds : List StopData) (id : Nat) (v : Option ℚ) :
    (setStopValue ds id v).map StopData.stop = ds.map StopData.stop := by
  induction ds with
  | nil => rfl
  | cons d ds ih =>
    simp only [setStopValue]
    split <;> simp [ih]

omit hm in
theorem lookupStop_stops {ds ds' : List StopData} (h : ds'.map StopData.stop = ds.map StopData.stop)
    (id : Nat) : (lookupStop ds' id).map StopData.stop = (lookupStop ds id).map StopData.stop := by
  induction ds' generalizing ds with
  | nil => cases ds with
    | nil => rfl
    | cons d ds => cases h
  | cons d' ds' ih => cases ds with
    | nil => cases h
    | cons d ds =>
      simp only [List.map_cons, List.cons.injEq] at h
      simp only [lookupStop, h.1]
      split
      · simp [h.1]
      · exact ih h.2

omit hm in
theorem checkOne_stops {cfg : Config} {env : StopEnv} {date : Date}
    {acc acc' : Portfolio × List StopCheck} {c : StopCheck}
    (h : checkOne cfg env date acc c = .ok acc') :
    acc'.1.stopData.map StopData.stop = acc.1.stopData.map StopData.stop := by
  have hfill : ∀ (s : Portfolio) (e : Entry) (st : Stop) (f : Option ℚ) (s1 : Portfolio),
      stopFill env s e st = .ok (f, s1) → s1.stopData.map StopData.stop = s.stopData.map StopData.stop := by
    intro s e st f s1 h
    unfold stopFill at h
    split at h <;> split at h <;> (try split at h) <;> cases h <;>
      simp [setStopValue_stops]
  have htrig : ∀ (s : Portfolio) (p : Position) (e : Entry) (st : Stop) (b : Bool) (s1 : Portfolio),
      triggerStop cfg env date s p e st = .ok (b, s1) →
        s1.stopData.map StopData.stop = s.stopData.map StopData.stop := by
    intro s p e st b s1 h
    unfold triggerStop at h
    split at h
    · cases h; rfl
    · split at h
      · cases h
      · rename_i hf
        cases h
        exact hfill _ _ _ _ _ hf
      · rename_i q s2 hf
        rw [← hfill _ _ _ _ _ hf]
        dsimp only at h
        split at h
        · cases h; rfl
        · simp only [Except.ok.injEq, Prod.mk.injEq] at h
          rw [← h.2]
          have h1 : ∀ (pt : PosType) (u : Portfolio) (n fill : ℚ) (d : Date) (t : Option StopType),
              (exitEntry cfg pt u p e n fill d t).1.stopData = u.stopData := by
            intro pt u n fill d t; rw [exitEntry_pf]; rfl
          have h2 : ∀ (u : Portfolio) (pt : PosType) (b : List Position),
              (u.setBook pt b).stopData = u.stopData := by
            intro u pt b; cases pt <;> rfl
          show List.map StopData.stop (Portfolio.setBook _ _ _).stopData = _
          rw [h2, h1]
  unfold checkOne at h
  split at h
  · cases h; rfl
  · split at h
    · cases h; rfl
    · split at h
      · cases h; rfl
      · split at h
        · cases h
        · rename_i ht
          cases h
          exact htrig _ _ _ _ _ _ ht
        · rename_i ht
          cases h
          exact htrig _ _ _ _ _ _ ht

omit hm in
theorem foldE_map_inv {α β γ δ : Type} (P : β → Prop) (f : β → α → Except Err β)
    (g : δ → γ → Except Err δ)
    (u : β → δ) (v : α → γ) (l : List α)
    (h : ∀ a ∈ l, ∀ b, P b → g (u b) (v a) = (f b a).map u)
    (hP : ∀ a ∈ l, ∀ b b', P b → f b a = .ok b' → P b') (b : β) (hb : P b) :
    foldE g (u b) (l.map v) = (foldE f b l).map u := by
  induction l generalizing b with
  | nil => rfl
  | cons a l ih =>
    simp only [List.map_cons, foldE, h a List.mem_cons_self b hb]
    cases hfa : f b a with
    | error e => rfl
    | ok b' =>
      exact ih (fun a ha => h a (List.mem_cons_of_mem _ ha))
        (fun a ha => hP a (List.mem_cons_of_mem _ ha)) b' (hP a List.mem_cons_self b b' hb hfa)

theorem checkStops_split (cfg : Config) (hf : ∀ a, cfg.feeMode = some a → a ≠ .perShare)
    (s : Portfolio) (hg : Good s) (hfit : StopsFit s) (hi : IndexOK s) (date : Date) (env : StopEnv) :
    checkStops (cfg.split m) (s.split m) date (env.split m) =
      (checkStops cfg s date env).map (Portfolio.split m) := by
  have hfin : ∀ (l : List StopCheck) (t : Portfolio),
      (l.map (StopCheck.split m)).foldl finishStop (t.split m) = (l.foldl finishStop t).split m := by
    intro l
    induction l with
    | nil => intro t; rfl
    | cons c l ih =>
      intro t
      simp only [List.map_cons, List.foldl_cons, finishStop_split, ih]
  have hi0 : CheckInv (s, []) := ⟨hg.wf, hg.ne, by simp, by simp⟩
  let P : Portfolio × List StopCheck → Prop := fun a => (CheckInv a ∧ SubIds a.1 s) ∧
    a.1.stopData.map StopData.stop = s.stopData.map StopData.stop
  have h1 := foldE_map_inv P (checkOne cfg env date) (checkOne (cfg.split m) (env.split m) date)
    (checkSplit m) (StopCheck.split m) (priceChecks env s)
    (by
      rintro c hc a ⟨⟨ha, -⟩, hst⟩
      obtain ⟨d, hd, -, rfl⟩ := (priceChecks_mem hi).1 hc
      refine checkOne_split hm cfg hf env date a _ ha.wf.entSym rfl ?_
      intro _ d' hd'
      have h2 := lookupStop_stops hst d.stop.id
      rw [hd', lookupStop_of_mem hi.nodup hd] at h2
      simp only [Option.map_some, Option.some.injEq] at h2
      rw [h2])
    (by
      rintro c hc a a' ⟨⟨ha, hsub⟩, hst⟩ hs
      obtain ⟨h3, h4⟩ := ha.step (priceChecks_fit env s c hc) hs
      exact ⟨⟨h3, h4.trans hsub⟩, (checkOne_stops hs).trans hst⟩)
    (s, []) ⟨⟨hi0, SubIds.refl s⟩, rfl⟩
  simp only [checkStops, priceChecks_split]
  rw [show checkSplit m (s, []) = (s.split m, []) from rfl] at h1
  rw [h1]
  cases hx : foldE (checkOne cfg env date) (s, []) (priceChecks env s) with
  | error e => rfl
  | ok acc =>
    have hacc : CheckInv acc ∧ SubIds acc.1 s :=
      foldE_inv_mem (f := checkOne cfg env date)
        (fun a => CheckInv a ∧ SubIds a.1 s) (priceChecks env s)
        (by
          rintro a c a' hc ⟨ha, hsub⟩ hs
          obtain ⟨h3, h4⟩ := ha.step (priceChecks_fit env s c hc) hs
          exact ⟨h3, h4.trans hsub⟩) (s, []) acc
        ⟨hi0, SubIds.refl s⟩ hx
    have hfa : StopsFit acc.1 := hacc.2.fit hfit
    have h2 := foldE_map_inv (fun a => CheckInv a) (checkOne cfg env date)
      (checkOne (cfg.split m) (env.split m) date)
      (checkSplit m) (StopCheck.split m) (barChecks env acc.1)
      (by
        intro c hc a ha
        obtain ⟨pt, p, hp, e, he, st, hst, hb, -, rfl⟩ := (barChecks_mem hacc.1.wf).1 hc
        exact checkOne_split hm cfg hf env date a _ ha.wf.entSym
          (hfa.entries pt p hp e he st hst).2 (fun hn => absurd hb hn))
      (fun c hc a a' ha hs => (ha.step (barChecks_fit hacc.1.wf hfa c hc) hs).1)
      acc hacc.1
    simp only [Except.map]
    rw [show (checkSplit m acc).1 = acc.1.split m from rfl, barChecks_split, h2]
    cases foldE (checkOne cfg env date) acc (barChecks env acc.1) with
    | error e => rfl
    | ok acc2 =>
      simp only [Except.map]
      exact congrArg Except.ok (hfin acc2.2 acc2.1)

/-! ## Removing stops -/

omit hm in
theorem modEntryBook_split (id : Nat) (f g : Entry → Entry)
    (h : ∀ k e, g (e.split m k) = (f e).split m k) (ps : List Position) :
    modEntryBook id g (ps.map (Position.split m)) = (modEntryBook id f ps).map (Position.split m) := by
  simp only [modEntryBook, List.map_map]
  apply List.map_congr_left
  intro p _
  simp only [Function.comp, Position.split, modEntry_split _ id f g (h _)]

omit hm in
theorem dropStopEntries_split (k : ℚ) (id : Nat) (es : List Entry) :
    dropStopEntries id (es.map (Entry.split m k)) =
      ((dropStopEntries id es).1.map (Entry.split m k), (dropStopEntries id es).2) := by
  induction es with
  | nil => rfl
  | cons e es ih =>
    have h1 : (e.split m k).stops.any (fun st => decide (st.id = id)) =
        e.stops.any (fun st => decide (st.id = id)) := by
      simp only [Entry.split, List.any_map]; rfl
    simp only [List.map_cons, dropStopEntries, h1, ih]
    split
    · simp only [Entry.split, List.map_cons, List.eraseP_map]
      rfl
    · rfl

omit hm in
theorem dropStopBook_split (id : Nat) (ps : List Position) :
    dropStopBook id (ps.map (Position.split m)) =
      ((dropStopBook id ps).1.map (Position.split m), (dropStopBook id ps).2) := by
  induction ps with
  | nil => rfl
  | cons p ps ih =>
    have h1 : dropStopEntries id (p.split m).entries =
        ((dropStopEntries id p.entries).1.map (Entry.split m (m p.symbol)),
          (dropStopEntries id p.entries).2) :=
      dropStopEntries_split _ id p.entries
    simp only [List.map_cons, dropStopBook, h1, ih]
    split <;> rfl

theorem removeStop_split (s : Portfolio) (id : Nat) :
    removeStop (s.split m) id = firedSplit m (removeStop s id) := by
  have h1 : lookupStop (s.split m).stopData id =
      (lookupStop s.stopData id).map (StopData.split m) := lookupStop_split _ _
  unfold removeStop
  rw [h1]
  cases lookupStop s.stopData id with
  | some d =>
    simp only [Option.map_some, firedSplit, Prod.mk.injEq, true_and]
    have h2 : ∀ (k : ℚ) (e : Entry),
        (fun e : Entry => { e with stops := e.stops.erase (d.split m).stop }) (e.split m k) =
        (Entry.split m k { e with stops := e.stops.erase d.stop }) := fun k e => by
      simp only [Entry.split, StopData.split, Entry.mk.injEq, true_and, and_true]
      exact (List.map_erase (Stop.split_injective hm) ..).symm
    have h3 := fun ps => modEntryBook_split d.entryId
      (fun e => { e with stops := e.stops.erase d.stop })
      (fun e => { e with stops := e.stops.erase (d.split m).stop }) h2 ps
    simp only [Portfolio.split, eraseStop_split, Portfolio.mk.injEq, true_and, and_true]
    exact ⟨h3 _, h3 _, rfl⟩
  | none =>
    simp only [Option.map_none]
    rw [show (s.split m).longs = s.longs.map (Position.split m) from rfl,
      show (s.split m).shorts = s.shorts.map (Position.split m) from rfl]
    simp only [dropStopBook_split]
    split
    · rfl
    · split <;> rfl

theorem removeEntryStops_split (s : Portfolio) (e e' : Entry) (hid : e'.id = e.id)
    (hst : e'.stops = e.stops.map (Stop.split m)) (t : Option StopType) :
    removeEntryStops (s.split m) e' t = (removeEntryStops s e t).split m := by
  unfold removeEntryStops
  rw [hst, hid]
  cases t with
  | none =>
    have h3 := fun ps => modEntryBook_split (m := m) e.id
      (fun e' => { e' with stops := [] }) (fun e' => { e' with stops := [] }) (fun _ _ => rfl) ps
    simp only [removeStopData_split]
    generalize s.removeStopData e.stops = u
    simp only [Portfolio.split, Portfolio.mk.injEq, true_and, and_true]
    exact ⟨h3 _, h3 _⟩
  | some t =>
    simp only [List.find?_map]
    have : ((fun st : Stop => decide (st.stopType = t)) ∘ Stop.split m) =
        (fun st : Stop => decide (st.stopType = t)) := rfl
    rw [this]
    cases e.stops.find? (fun st => decide (st.stopType = t)) with
    | none => rfl
    | some st =>
      simp only [Option.map_some, Stop.split_id, removeStop_split hm, firedSplit]

theorem removeStopsEntry_split (s : Portfolio) (id : Nat) (t : Option StopType) :
    removeStopsEntry (s.split m) id t = (removeStopsEntry s id t).split m := by
  have key : ∀ ps : List Position,
      ((ps.map (Position.split m)).flatMap Position.entries).map (fun e => (e.id, e.stops)) =
        (ps.flatMap Position.entries).map (fun e => (e.id, e.stops.map (Stop.split m))) := by
    intro ps
    induction ps with
    | nil => rfl
    | cons p ps ih =>
      simp only [List.map_cons, List.flatMap_cons, List.map_append, ih]
      congr 1
      simp only [Position.split, List.map_map]
      rfl
  have hf : ∀ (es : List Entry) (g : Entry → Nat × List Stop), (∀ e, (g e).1 = e.id) →
      (findEntry es id).map g = (es.map g).find? (fun x => decide (x.1 = id)) := by
    intro es g hg
    simp only [findEntry, List.find?_map]
    congr 2
    funext e
    simp [hg]
  have h : (findEntryAll (s.split m) id).map (fun e => (e.id, e.stops)) =
      (findEntryAll s id).map (fun e => (e.id, e.stops.map (Stop.split m))) := by
    unfold findEntryAll
    rw [show (s.split m).longs = s.longs.map (Position.split m) from rfl,
      show (s.split m).shorts = s.shorts.map (Position.split m) from rfl, ← List.map_append,
      hf _ _ (fun _ => rfl), hf _ _ (fun _ => rfl), key]
  unfold removeStopsEntry
  cases h1 : findEntryAll s id with
  | none =>
    rw [h1] at h
    cases h2 : findEntryAll (s.split m) id with
    | none => rfl
    | some e => rw [h2] at h; cases h
  | some e =>
    rw [h1] at h
    cases h2 : findEntryAll (s.split m) id with
    | none => rw [h2] at h; cases h
    | some e' =>
      rw [h2] at h
      simp only [Option.map_some, Option.some.injEq, Prod.mk.injEq] at h
      exact removeEntryStops_split hm s e e' h.1 h.2 t

theorem removePositionStops_split (s : Portfolio) (p : Position) (t : Option StopType) :
    removePositionStops (s.split m) (p.split m) t = (removePositionStops s p t).split m := by
  unfold removePositionStops
  rw [show (p.split m).entries = p.entries.map (Entry.split m (m p.symbol)) from rfl]
  generalize p.entries = es
  induction es generalizing s with
  | nil => rfl
  | cons e es ih =>
    simp only [List.map_cons, List.foldl_cons, Entry.split_id, removeStopsEntry_split hm, ih]

theorem removeStopsSym_split (s : Portfolio) (sym : Sym) (t : Option StopType) :
    removeStopsSym (s.split m) sym t = (removeStopsSym s sym t).split m := by
  have second : ∀ u : Portfolio,
      (match lookupPos (u.split m).shorts sym with
        | none => u.split m
        | some p => removePositionStops (u.split m) p t) =
      (match lookupPos u.shorts sym with
        | none => u
        | some p => removePositionStops u p t).split m := fun u => by
    rw [show (u.split m).shorts = u.shorts.map (Position.split m) from rfl, lookupPos_split]
    cases lookupPos u.shorts sym with
    | none => rfl
    | some p => exact removePositionStops_split hm u p t
  unfold removeStopsSym
  rw [show (s.split m).longs = s.longs.map (Position.split m) from rfl, lookupPos_split]
  cases lookupPos s.longs sym with
  | none => exact second s
  | some p =>
    simp only [Option.map_some, removePositionStops_split hm]
    exact second _

/-! ## Histories -/

/-- A call on the portfolio after a split. -/
def Op.split (m : Sym → ℚ) : Op → Op
  | .buy r => .buy (r.split m)
  | .sell r => .sell (r.split m)
  | .exitPosition d sym b q slip =>
    .exitPosition d sym (m sym * b) (m sym * q) (slip.map (SlipFn.split m))
  | .captureBar d quote => .captureBar d (fun x => (quote x).split m x)
  | .incrBars h => .incrBars h
  | .checkStops d env => .checkStops d (env.split m)
  | .removeStop id => .removeStop id
  | .removeStopsSym sym t => .removeStopsSym sym t
  | .removeStopsEntry id t => .removeStopsEntry id t

/-- The call is not an order that the buying power cuts. -/
def UncutOp (cfg : Config) (s : Portfolio) : Op → Prop
  | .buy r => ¬ buyLimitBlocks r.limit r.fill → r.shares ≠ 0 → 0 < r.fill → UncutOrder cfg s .buy r
  | .sell r => ¬ sellLimitBlocks r.limit r.fill → r.shares ≠ 0 → 0 < r.fill → UncutOrder cfg s .sell r
  | _ => True

theorem step_split (hN : ∀ s, ∃ N : ℕ, (m s)⁻¹ = N) (cfg : Config)
    (hf : ∀ a, cfg.feeMode = some a → a ≠ .perShare) (s : Portfolio) (hg : Good s)
    (hfit : StopsFit s) (hi : IndexOK s) (op : Op) (hop : op.Fit) (hu : UncutOp cfg s op) :
    step (cfg.split m) (s.split m) (op.split m) = (step cfg s op).map (Portfolio.split m) := by
  cases op with
  | buy r =>
    simp only [step, Op.split,
      buy_split hm hN cfg hf s hg.wf.entSym r (fun st hst => (hop st hst).2) hu]
    cases buy cfg s r <;> rfl
  | sell r =>
    simp only [step, Op.split,
      sell_split hm hN cfg hf s hg.wf.entSym r (fun st hst => (hop st hst).2) hu]
    cases sell cfg s r <;> rfl
  | exitPosition d sym b q slip => exact exitPosition_split hm hN cfg hf s hg ..
  | captureBar d quote => exact congrArg Except.ok (captureBar_split hm ..)
  | incrBars h => exact congrArg Except.ok (incrBars_split ..)
  | checkStops d env => exact checkStops_split hm cfg hf s hg hfit hi ..
  | removeStop id =>
    simp only [step, Op.split, removeStop_split hm]
    rfl
  | removeStopsSym sym t => exact congrArg Except.ok (removeStopsSym_split hm ..)
  | removeStopsEntry id t => exact congrArg Except.ok (removeStopsEntry_split hm ..)

end

end PyBroker
