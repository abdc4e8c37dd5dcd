import Verif.Portfolio.UnitsStops
import Verif.Portfolio.FeeMode
import Verif.Props.Split

/-!
# More capital, larger orders (C172)

With `N` times the cash and `N` times the shares in every order, at the same prices, everything is
`N` times as large.  This is a change of the unit of money (C144) after a split (C164) that undo
each other's change of the prices.
-/

namespace PyBroker

/-! ## Specification -/

/-- A slippage model asked about `N` times the shares: the same price, and `N` times the shares it
would have answered. -/
def Spec.largerSlip (N : ℕ) (f : SlipFn) : SlipFn :=
  fun side sym shares fill =>
    (N * (f side sym (shares / N) fill).1, (f side sym (shares / N) fill).2)

/-- The same call in an account `N` times as large: orders are for `N` times the shares, and nothing
else differs. -/
def Spec.larger (N : ℕ) : Op → Op
  | .buy r => .buy { r with shares := N * r.shares }
  | .sell r => .sell { r with shares := N * r.shares }
  | .exitPosition d sym b q slip => .exitPosition d sym b q (slip.map (Spec.largerSlip N))
  | .captureBar d quote => .captureBar d quote
  | .incrBars h => .incrBars h
  | .checkStops d env => .checkStops d { env with slip := env.slip.map (Spec.largerSlip N) }
  | .removeStop id => .removeStop id
  | .removeStopsSym sym t => .removeStopsSym sym t
  | .removeStopsEntry id t => .removeStopsEntry id t

/-- A trade of `N` times the shares: the same dates, prices, return and excursions, and `N` times the
profit. -/
def Spec.LargerTrade (N : ℕ) (t t' : Trade) : Prop :=
  t'.symbol = t.symbol ∧ t'.type = t.type ∧ t'.entryDate = t.entryDate ∧ t'.exitDate = t.exitDate ∧
    t'.entry = t.entry ∧ t'.exit = t.exit ∧ t'.shares = N * t.shares ∧ t'.pnl = N * t.pnl ∧
    t'.returnPct = t.returnPct ∧ t'.aggPnl = N * t.aggPnl ∧ t'.bars = t.bars ∧
    t'.pnlPerBar = N * t.pnlPerBar ∧ t'.mae = t.mae ∧ t'.mfe = t.mfe ∧ t'.stop = t.stop

/-- An order of `N` times the shares. -/
def Spec.LargerOrder (N : ℕ) (o o' : Order) : Prop :=
  o'.id = o.id ∧ o'.symbol = o.symbol ∧ o'.side = o.side ∧ o'.date = o.date ∧ o'.intent = o.intent ∧
    o'.orderType = o.orderType ∧ o'.shares = N * o.shares ∧ o'.fillPrice = o.fillPrice ∧
    o'.limitPrice = o.limitPrice ∧ o'.fees = N * o.fees

/-- A position of `N` times the shares. -/
def Spec.LargerHolding (N : ℕ) (p p' : Position) : Prop :=
  p'.symbol = p.symbol ∧ p'.type = p.type ∧ p'.shares = N * p.shares ∧ p'.close = p.close ∧
    p'.equity = N * p.equity ∧ p'.marketValue = N * p.marketValue ∧ p'.margin = N * p.margin ∧
    p'.pnl = N * p.pnl

/-- A row of the portfolio table with all amounts `N` times as large. -/
def Spec.LargerBar (N : ℕ) (b b' : PortfolioBar) : Prop :=
  b'.date = b.date ∧ b'.cash = N * b.cash ∧ b'.equity = N * b.equity ∧
    b'.notional = N * b.notional ∧ b'.margin = N * b.margin ∧ b'.marginLoan = N * b.marginLoan ∧ b'.netCashBalance = N * b.netCashBalance ∧
    b'.marketValue = N * b.marketValue ∧ b'.pnl = N * b.pnl ∧
    b'.unrealizedPnl = N * b.unrealizedPnl ∧ b'.fees = N * b.fees

/-- `N` times the shares cost `N` times the fee: there are no fees, or they are in percent or per share,
or a function with this property. -/
def Spec.ProportionalFees (N : ℕ) (cfg : Config) : Prop :=
  match cfg.feeMode with
  | none | some .orderPercent | some .perShare => True
  | some .perOrder => False
  | some (.custom f) => ∀ sym fill n side,
      f { symbol := sym, shares := N * n, fillPrice := fill, side := side } =
        N * f { symbol := sym, shares := n, fillPrice := fill, side := side }

open PyBroker.Spec

/-! ## Split, then another unit -/

theorem proportional_fees {N : ℕ} {cfg : Config} (h : ProportionalFees N cfg) (sym : Sym) (fill n : ℚ)
    (side : Side) : calculateFees cfg sym fill (N * n) side = N * calculateFees cfg sym fill n side := by
  unfold ProportionalFees at h
  rcases hm : cfg.feeMode with _ | m
  · simp [calculateFees, hm]
  · rcases ha : cfg.feeAmount with _ | a
    · cases m <;> simp [calculateFees, hm, ha]
    · cases m with
      | orderPercent => simp only [calculateFees, hm, ha]; ring
      | perOrder => rw [hm] at h; exact h.elim
      | perShare => simp only [calculateFees, hm, ha]; ring
      | custom f => rw [hm] at h; simp only [calculateFees, hm, ha]; exact h sym fill n side

section
variable {N : ℕ} (hN : 0 < N)
include hN

theorem nat_cancel (x : ℚ) : (N : ℚ) * ((N : ℚ)⁻¹ * x) = x := by
  have : (N : ℚ) ≠ 0 := by exact_mod_cast hN.ne'
  rw [← mul_assoc, mul_inv_cancel₀ this, one_mul]

theorem money_cancel (a : Option ℚ) : money (N : ℚ) (money (N : ℚ)⁻¹ a) = a := by
  cases a with
  | none => rfl
  | some x => simp only [money, Option.map_some, nat_cancel hN]

theorem fill_cancel (f : FillSpec) : (f.units (N : ℚ)⁻¹).units (N : ℚ) = f := by
  cases f <;> simp only [FillSpec.units, nat_cancel hN]

theorem stop_cancel (st : Stop) :
    (st.split (splitFactor fun _ => N)).units (N : ℚ) = st := by
  cases st with
  | mk => simp only [Stop.split, splitFactor, Stop.units, money_cancel hN, Option.map_map,
      Function.comp_def, fill_cancel hN, Option.map_id']

theorem stops_cancel (l : List Stop) :
    (l.map (Stop.split (splitFactor fun _ => N))).map (Stop.units (N : ℚ)) = l := by
  rw [List.map_map]
  conv_rhs => rw [← List.map_id l]
  exact List.map_congr_left (fun st _ => stop_cancel hN st)

theorem req_larger (r : OrderReq) :
    (r.split (splitFactor fun _ => N)).units (N : ℚ) = { r with shares := N * r.shares } := by
  cases r with
  | mk => simp only [OrderReq.split, OrderReq.units, stops_cancel hN, splitFactor, nat_cancel hN,
      money_cancel hN, inv_inv]

theorem slip_larger (f : SlipFn) :
    SlipFn.units (N : ℚ) (SlipFn.split (splitFactor fun _ => N) f) = largerSlip N f := by
  funext side sym shares fill
  have h2 : (N : ℚ)⁻¹ * shares = shares / N := by ring
  simp only [SlipFn.units, SlipFn.split, splitFactor, largerSlip, h2, nat_cancel hN, inv_inv]

theorem quote_cancel (q : BarQuote) (sym : Sym) :
    (q.split (splitFactor fun _ => N) sym).units (N : ℚ) = q := by
  cases q with
  | mk => simp only [BarQuote.split, BarQuote.units, splitFactor, money_cancel hN]

theorem env_larger (e : StopEnv) :
    (e.split (splitFactor fun _ => N)).units (N : ℚ) =
      { e with slip := e.slip.map (largerSlip N) } := by
  have h : ∀ f : FillSpec, (f.units (N : ℚ)⁻¹).units (N : ℚ) = f := fill_cancel hN
  cases e with
  | mk => simp only [StopEnv.split, StopEnv.units, splitFactor, money_cancel hN, inv_inv, h,
      Option.map_map, Function.comp_def, slip_larger hN]

theorem op_larger (op : Op) :
    (op.split (splitFactor fun _ => N)).units (N : ℚ) = larger N op := by
  cases op with
  | exitPosition d sym b q slip =>
    simp only [Op.split, Op.units, larger, splitFactor, nat_cancel hN, Option.map_map,
      Function.comp_def]
    congr 2
    funext f
    exact slip_larger hN f
  | _ => simp only [Op.split, Op.units, larger, req_larger hN, quote_cancel hN, env_larger hN]

end

theorem larger_fees {N : ℕ} (hN : 0 < N) {cfg : Config} (h : ProportionalFees N cfg) :
    ∃ m a, (cfg.feesAsFn.split (splitFactor fun _ => N)).units (N : ℚ) =
        Config.withFees { cfg with cash := N * cfg.cash } m a ∧
      (∀ sym fill n side,
        calculateFees (Config.withFees { cfg with cash := N * cfg.cash } m a) sym fill n side =
          calculateFees { cfg with cash := N * cfg.cash } sym fill n side) ∧
      m.isSome = cfg.feeMode.isSome := by
  refine ⟨_, _, rfl, ?_, by simp [Config.feesAsFn, Config.withFees, Config.split]⟩
  intro sym fill n side
  have e : ∀ fill n, calculateFees { cfg with cash := N * cfg.cash } sym fill n side =
      calculateFees cfg sym fill n side := fun _ _ => rfl
  rw [e]
  have hn : (N : ℚ) * ((N : ℚ)⁻¹ * n) = n := nat_cancel hN n
  have hp := proportional_fees h sym fill ((N : ℚ)⁻¹ * n) side
  rw [hn] at hp
  rcases hm : cfg.feeMode with _ | m
  · simp [calculateFees, Config.feesAsFn, Config.withFees, Config.split, hm]
  · rw [hp]
    simp [calculateFees, Config.feesAsFn, Config.withFees, Config.split, hm, FeeMode.split,
      FeeMode.units, feeUnits, money, splitFactor, nat_cancel hN]

theorem neverCut_fees {cfg : Config} {ops : List Op} (h : NeverCut cfg ops) :
    NeverCut cfg.feesAsFn ops := by
  have h1 : ∀ ops, run cfg.feesAsFn ops = run cfg ops := run_fees (feesAsFn_fees cfg) (feesAsFn_some cfg)
  have h2 : buy cfg.feesAsFn = buy cfg := buy_fees (feesAsFn_fees cfg) (feesAsFn_some cfg)
  have h3 : sell cfg.feesAsFn = sell cfg := sell_fees (feesAsFn_fees cfg) (feesAsFn_some cfg)
  intro pre op post s he hr
  rw [h1] at hr
  have := h pre op post s he hr
  cases op <;> simp only [h2, h3] at this ⊢ <;> exact this

/-- **C172 (part).**  In an account with `N` times the cash, in which every order is for `N` times the
shares at the same prices, if `N` times the shares cost `N` times the fee and no order of the history is
cut to the buying power, nothing raises and everything is `N` times as large: cash, the portfolio table,
orders, trades and positions, with the same prices, returns and stops. -/
theorem larger_account_partial {N : ℕ} (hN : 0 < N) {cfg : Config}
    (hf : ProportionalFees N cfg) {ops : List Op} {s : Portfolio}
    (hfit : ∀ op ∈ ops, op.Fit) (hfresh : FreshIds ops) (hcut : NeverCut cfg ops)
    (h : run cfg ops = .ok s) :
    ∃ s', run { cfg with cash := N * cfg.cash } (ops.map (larger N)) = .ok s' ∧
      s'.cash = N * s.cash ∧ s'.equity = N * s.equity ∧ s'.marketValue = N * s.marketValue ∧
      s'.margin = N * s.margin ∧ s'.fees = N * s.fees ∧ s'.pnl = N * s.pnl ∧ s'.wins = s.wins ∧
      List.Forall₂ (LargerBar N) s.metrics s'.metrics ∧
      List.Forall₂ (LargerTrade N) s.trades s'.trades ∧
      List.Forall₂ (LargerOrder N) s.orders s'.orders ∧
      List.Forall₂ (LargerHolding N) s.longs s'.longs ∧
      List.Forall₂ (LargerHolding N) s.shorts s'.shorts := by
  have hq : (0 : ℚ) < N := by exact_mod_cast hN
  have h0 : run cfg.feesAsFn ops = .ok s := by
    rw [← h]
    exact run_fees (feesAsFn_fees cfg) (feesAsFn_some cfg) ops
  have hs := run_stockSplit (N := fun _ => N) (fun _ => hN)
    (fun a ha => by
      simp only [Config.feesAsFn, Config.withFees, Option.map_eq_some_iff] at ha
      obtain ⟨_, _, rfl⟩ := ha
      simp) ops s hfit hfresh (neverCut_fees hcut) h0
  have hu := run_units hq (cfg.feesAsFn.split (splitFactor fun _ => N))
    (ops.map (Op.split (splitFactor fun _ => N)))
  rw [hs, List.map_map] at hu
  obtain ⟨m, a, hcfg, hfees, hsome⟩ := larger_fees hN hf
  have hops : ops.map (Op.units (N : ℚ) ∘ Op.split (splitFactor fun _ => N)) =
      ops.map (larger N) := List.map_congr_left (fun op _ => op_larger hN op)
  rw [hcfg, hops, run_fees hfees hsome] at hu
  have hpos : ∀ ps : List Position, List.Forall₂ (LargerHolding N) ps
      ((ps.map (Position.split (splitFactor fun _ => N))).map (Position.units (N : ℚ))) := fun ps => by
    rw [List.map_map, List.forall₂_map_right_iff]
    refine List.forall₂_same.2 (fun p _ => ⟨rfl, rfl, ?_, ?_, rfl, rfl, rfl, rfl⟩)
    · simp [Position.split, Position.units, splitFactor]
    · simp [Position.split, Position.units, splitFactor, nat_cancel hN]
  refine ⟨_, hu, rfl, rfl, rfl, rfl, rfl, rfl, rfl, ?_, ?_, ?_, hpos _, hpos _⟩
  · show List.Forall₂ _ _ (s.metrics.map _)
    rw [List.forall₂_map_right_iff]
    exact List.forall₂_same.2 (fun b _ => ⟨rfl, rfl, rfl, rfl, rfl, rfl, rfl, rfl, rfl, rfl, rfl⟩)
  · show List.Forall₂ _ _ ((s.trades.map _).map _)
    rw [List.map_map, List.forall₂_map_right_iff]
    refine List.forall₂_same.2 (fun t _ => ⟨rfl, rfl, rfl, rfl, ?_, ?_, ?_, rfl, rfl, rfl, rfl, rfl,
      ?_, ?_, rfl⟩) <;>
      simp [Trade.split, Trade.units, splitFactor, nat_cancel hN]
  · show List.Forall₂ _ _ ((s.orders.map _).map _)
    rw [List.map_map, List.forall₂_map_right_iff]
    refine List.forall₂_same.2 (fun t _ => ⟨rfl, rfl, rfl, rfl, rfl, rfl, ?_, ?_, ?_, rfl⟩) <;>
      simp [Order.split, Order.units, splitFactor, nat_cancel hN, money_cancel hN]

/-! ## A history that meets the hypotheses -/

/-- `Demo.cfg` without its fee per order. -/
def Demo.capCfg : Config := { Demo.cfg with feeMode := some .orderPercent, feeAmount := some 1 }

example : (∀ op ∈ Demo.ops, op.Fit) ∧ FreshIds Demo.ops ∧ NeverCut Demo.capCfg Demo.ops ∧
    run Demo.capCfg Demo.ops =
      .ok (Demo.okD (Portfolio.init Demo.capCfg) (run Demo.capCfg Demo.ops)) ∧
    (Demo.okD (Portfolio.init Demo.capCfg) (run Demo.capCfg Demo.ops)).trades.length = 4 ∧
    0 < (Demo.okD (Portfolio.init Demo.capCfg) (run Demo.capCfg Demo.ops)).fees := by
  refine ⟨?_, ?_, Demo.inFull_neverCut (by decide +kernel), Demo.ok_okD (by decide +kernel),
    by decide +kernel, by decide +kernel⟩
  · simp [Demo.ops, Demo.bar1, Demo.bar2, Demo.bar3, Op.Fit, Demo.lossStop, Demo.trailStop, Demo.barStop]
  · simp [FreshIds, Demo.ops, Demo.bar1, Demo.bar2, Demo.bar3, stopsOf, Demo.lossStop, Demo.trailStop,
      Demo.barStop]

/-- Which fees are proportional. -/
example : ProportionalFees 3 Demo.capCfg ∧
    ProportionalFees 3 { cash := 1, feeMode := some .perShare, feeAmount := some 2 } ∧
    ProportionalFees 3 { cash := 1, feeMode := some (.custom fun i => i.shares / 2), feeAmount := some 0 } := by
  refine ⟨trivial, trivial, fun _ _ _ _ => ?_⟩
  show _ = _ * _
  push_cast
  ring

/-- Fees per share and three times the capital. -/
example :
    let cfg : Config := { Demo.cfg with feeMode := some .perShare, feeAmount := some (1/100) }
    (run { cfg with cash := 3 * cfg.cash } (Demo.ops.map (larger 3))).toOption.map
      (fun s => (s.cash, s.pnl, s.fees)) =
    (run cfg Demo.ops).toOption.map (fun s => (3 * s.cash, 3 * s.pnl, 3 * s.fees)) ∧
    (run cfg Demo.ops).toOption.any (fun s => 0 < s.fees) = true := by
  decide +kernel

/-- The same history with three times the capital. -/
example : (run { Demo.capCfg with cash := 3 * Demo.capCfg.cash } (Demo.ops.map (larger 3))).toOption.map
      (fun s => (s.cash, s.pnl, s.fees)) =
    (run Demo.capCfg Demo.ops).toOption.map (fun s => (3 * s.cash, 3 * s.pnl, 3 * s.fees)) := by
  decide +kernel

/-! ## Where the code falls short -/

/-- **C172, where the code falls short (1).**  An order that is cut to the cash is cut to whole shares:
with 100 in cash a buy of 4 shares at 40 buys 2, and with 200 a buy of 8 buys 5. -/
theorem cut_order_larger_differs :
    let op : Op := .buy { date := 1, symbol := "AAA", shares := 4, fill := 40 }
    (run { cash := 100 } [op]).toOption.map (fun s => (s.cash, s.orders.map Order.shares)) =
      some (20, [2]) ∧
    (run { cash := 200 } [larger 2 op]).toOption.map (fun s => (s.cash, s.orders.map Order.shares)) =
      some (0, [5]) := by
  decide +kernel

/-- **C172, where the code falls short (2).**  A fee per order does not grow with the order. -/
theorem fee_per_order_larger_differs :
    let cfg : Config := { cash := 1000, feeMode := some .perOrder, feeAmount := some 5 }
    let op : Op := .buy { date := 1, symbol := "AAA", shares := 4, fill := 40 }
    (run cfg [op]).toOption.map (fun s => (s.fees, s.cash)) = some (5, 835) ∧
    (run { cfg with cash := 2000 } [larger 2 op]).toOption.map (fun s => (s.fees, s.cash)) =
      some (5, 1675) := by
  decide +kernel

end PyBroker
