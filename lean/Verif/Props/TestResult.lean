import Mathlib.Tactic.NormNum
import Mathlib.Tactic.Linarith
import Verif.Eval.TestResult
import Verif.Props.Drive
import Verif.Props.EvalTrades
import Verif.Props.PositionBars

/-!
# Whole shares (C112) and the tables of a result (C113)
-/

namespace PyBroker

open PyBroker.Spec

/-! ## C112: whole shares -/

/-- Every share count in a portfolio is a whole number. -/
structure Spec.WholeShares (pf : Portfolio) : Prop where
  orders : ∀ o ∈ pf.orders, Whole o.shares
  trades : ∀ t ∈ pf.trades, Whole t.shares
  held : ∀ p ∈ pf.longs ++ pf.shorts, Whole p.shares ∧ ∀ e ∈ p.entries, Whole e.shares

/-- **C112.** Without fractional shares, a history of calls that asks for whole numbers of shares
leaves whole numbers of shares everywhere, whatever the buying power, caps, fees and stops. -/
theorem history_whole_shares {cfg : Config} {ops : List Op} {s : Portfolio}
    (hf : cfg.fractional = false) (hfit : ∀ o ∈ ops, o.Fit)
    (hbuy : ∀ r, Op.buy r ∈ ops → Whole r.shares) (hsell : ∀ r, Op.sell r ∈ ops → Whole r.shares)
    (h : run cfg ops = .ok s) : WholeShares s := by
  have hw := run_whole hf hfit (fun o ho => by
    cases o with
    | buy r => exact hbuy r ho
    | sell r => exact hsell r ho
    | _ => trivial) h
  have hg := (run_good hfit h).1
  have key : ∀ pt, ∀ p ∈ s.book pt, Whole p.shares ∧ ∀ e ∈ p.entries, Whole e.shares := by
    intro pt p hp
    refine ⟨?_, hw.entries pt p hp⟩
    rw [(hg.wf.pos pt p hp).shares]
    refine Spec.Whole.sum ?_
    intro x hx
    obtain ⟨e, he, rfl⟩ := List.mem_map.1 hx
    exact hw.entries pt p hp e he
  refine ⟨hw.orders, hw.trades, ?_⟩
  intro p hp
  rcases List.mem_append.1 hp with hp | hp
  · exact key .long p hp
  · exact key .short p hp

/-- **C112.** In every run without fractional shares, all orders, trades and positions have whole
numbers of shares, whatever the strategy asked for. -/
theorem run_whole_shares {x : RunSetup} (hok : SetupOK x) {st : RunSetup.State}
    (h : x.run = .ok st) (hres : ResultsOK st.results) (hf : x.cfg.fractional = false) :
    WholeShares st.loop.pf := by
  obtain ⟨ops, hrun, hfit, _, _, hwh⟩ := run_history hok h hres
  exact history_whole_shares hf hfit (fun r hr => hwh hf _ hr) (fun r hr => hwh hf _ hr) hrun

example := run_whole_shares Demo.drRun_ok Demo.drRun_run Demo.drRun_results rfl

namespace Demo

/-- Half a share asked for: a portfolio alone would take it. -/
def halfShare : Op := .buy { date := 1, symbol := "AAA", shares := 5 / 2, fill := 10 }

end Demo

/-- A portfolio called directly does not truncate the request, so wholeness of the requests is
needed in `history_whole_shares`. -/
theorem portfolio_keeps_fractions : ∃ (cfg : Config) (s : Portfolio), cfg.fractional = false ∧
    run cfg [Demo.halfShare] = .ok s ∧ ¬ WholeShares s := by
  have hk : (run { cash := 1000 } [Demo.halfShare]).map (fun s => s.orders.map Order.shares) =
      .ok [5 / 2] := by decide +kernel
  obtain ⟨s, hs, ho⟩ := map_okE hk
  refine ⟨{ cash := 1000 }, s, rfl, hs, ?_⟩
  intro h
  have hm : (5 / 2 : ℚ) ∈ s.orders.map Order.shares := by rw [← ho]; exact List.mem_cons_self
  obtain ⟨o, hmem, he⟩ := List.mem_map.1 hm
  obtain ⟨k, hk⟩ := h.orders o hmem
  have h2 : ((5 : ℤ) : ℚ) = ((2 * k : ℤ) : ℚ) := by push_cast; linarith
  have := Int.cast_injective h2
  omega

/-! ## C113: the tables of a result -/

/-- `y` is `x` rounded to the nearest cent, halves away from zero. -/
structure Spec.NearestCent (x y : ℚ) : Prop where
  cents : ∃ k : ℤ, y = k / 100
  near : |y - x| ≤ 1 / 200
  tie : |y - x| = 1 / 200 → |x| < |y|

/-- How a recorded number is reported. -/
def Spec.Reported (rd : Bool) (x y : ℚ) : Prop :=
  (rd = true → NearestCent x y) ∧ (rd = false → y = x)

/-- The report of a recorded bar. -/
structure Spec.BarReport (rd : Bool) (b r : PortfolioBar) : Prop where
  date : r.date = b.date
  cash : Reported rd b.cash r.cash
  equity : Reported rd b.equity r.equity
  notional : Reported rd b.notional r.notional
  margin : Reported rd b.margin r.margin
  marginLoan : Reported rd b.marginLoan r.marginLoan
  netCash : Reported rd b.netCashBalance r.netCashBalance
  marketValue : Reported rd b.marketValue r.marketValue
  pnl : Reported rd b.pnl r.pnl
  unrealized : Reported rd b.unrealizedPnl r.unrealizedPnl
  fees : Reported rd b.fees r.fees

/-- The report of an order: only its prices and fees are rounded. -/
structure Spec.OrderReport (rd : Bool) (o r : Order) : Prop where
  id : r.id = o.id
  side : r.side = o.side
  symbol : r.symbol = o.symbol
  date : r.date = o.date
  created : r.created = o.created
  type : r.orderType = o.orderType
  intent : r.intent = o.intent
  shares : r.shares = o.shares
  noLimit : r.limitPrice = none ↔ o.limitPrice = none
  limit : ∀ l, o.limitPrice = some l → ∃ l', r.limitPrice = some l' ∧ Reported rd l l'
  market : Reported rd o.marketPrice r.marketPrice
  fill : Reported rd o.fillPrice r.fillPrice
  fees : Reported rd o.fees r.fees

/-- The report of a trade: only its amounts are rounded. -/
structure Spec.TradeReport (rd : Bool) (t r : Trade) : Prop where
  id : r.id = t.id
  type : r.type = t.type
  symbol : r.symbol = t.symbol
  entryDate : r.entryDate = t.entryDate
  exitDate : r.exitDate = t.exitDate
  shares : r.shares = t.shares
  bars : r.bars = t.bars
  stop : r.stop = t.stop
  entry : Reported rd t.entry r.entry
  exit : Reported rd t.exit r.exit
  pnl : Reported rd t.pnl r.pnl
  pct : Reported rd t.returnPct r.returnPct
  aggPnl : Reported rd t.aggPnl r.aggPnl
  perBar : Reported rd t.pnlPerBar r.pnlPerBar
  mae : Reported rd t.mae r.mae
  mfe : Reported rd t.mfe r.mfe

theorem roundCents_nearest (x : ℚ) : NearestCent x (roundCents x) := by
  refine ⟨roundCents_cents x, roundCents_near x, ?_⟩
  have key : ∀ x : ℚ, 0 ≤ x → |roundCents x - x| = 1 / 200 → |x| < |roundCents x| := by
    intro x hx ht
    rw [roundCents_nonneg_eq hx] at ht ⊢
    have h1 := Int.floor_le (x * 100 + 1 / 2)
    have h2 := Int.lt_floor_add_one (x * 100 + 1 / 2)
    have h0 : (0 : ℤ) ≤ ⌊x * 100 + 1 / 2⌋ := Int.floor_nonneg.2 (by linarith)
    generalize ⌊x * 100 + 1 / 2⌋ = k at h1 h2 h0 ht ⊢
    have h0' : (0 : ℚ) ≤ (k : ℚ) := by exact_mod_cast h0
    rcases abs_choice ((k : ℚ) / 100 - x) with h | h
    · rw [h] at ht
      rw [abs_of_nonneg hx, abs_of_nonneg (by positivity)]
      linarith
    · rw [h] at ht; linarith
  rcases le_or_gt 0 x with hx | hx
  · exact key x hx
  · intro ht
    have h := key (-x) (by linarith) (by
      rw [roundCents_neg, ← abs_neg]
      rw [← ht]
      congr 1
      ring)
    rwa [roundCents_neg, abs_neg, abs_neg] at h

/-- The nearest cent is determined. -/
theorem nearestCent_unique {x y z : ℚ} (hy : NearestCent x y) (hz : NearestCent x z) : y = z := by
  obtain ⟨⟨a, rfl⟩, h1, h2⟩ := hy
  obtain ⟨⟨b, rfl⟩, h3, h4⟩ := hz
  by_contra hne
  have hab : a ≠ b := fun h => hne (by rw [h])
  have key : ∀ c d : ℤ, c < d → |(c : ℚ) / 100 - x| ≤ 1 / 200 → |(d : ℚ) / 100 - x| ≤ 1 / 200 →
      (|(c : ℚ) / 100 - x| = 1 / 200 → |x| < |(c : ℚ) / 100|) →
      (|(d : ℚ) / 100 - x| = 1 / 200 → |x| < |(d : ℚ) / 100|) → False := by
    intro c d hcd k1 k2 k3 k4
    have hcd' : (c : ℚ) + 1 ≤ d := by exact_mod_cast hcd
    rw [abs_le] at k1 k2
    have e1 : (c : ℚ) / 100 - x = -(1 / 200) := by linarith [k1.1, k2.2]
    have e2 : (d : ℚ) / 100 - x = 1 / 200 := by linarith [k1.1, k2.2]
    have t1 := k3 (by rw [e1]; norm_num)
    have t2 := k4 (by rw [e2]; norm_num)
    have e4 : (d : ℚ) = c + 1 := by linarith
    have hdc : d = c + 1 := by exact_mod_cast e4
    rcases lt_or_ge c 0 with hc | hc
    · have hc' : (c : ℚ) + 1 ≤ 0 := by exact_mod_cast hc
      rw [abs_of_nonpos (by linarith), abs_of_nonpos (by linarith)] at t2
      linarith
    · have hc' : (0 : ℚ) ≤ c := by exact_mod_cast hc
      rw [abs_of_nonneg (by linarith), abs_of_nonneg (by linarith)] at t1
      linarith
  rcases lt_or_gt_of_ne hab with h | h
  · exact key a b h h1 h3 h2 h4
  · exact key b a h h3 h1 h4 h2

theorem quantize_reported (rd : Bool) (x : ℚ) : Reported rd x (quantizeVal rd x) := by
  refine ⟨?_, ?_⟩
  · rintro rfl; exact roundCents_nearest x
  · rintro rfl; rfl

theorem castShares_whole {fr : Bool} {x : ℚ} (h : fr = false → Whole x) : castShares fr x = x := by
  unfold castShares
  split
  · rfl
  · rename_i hf
    obtain ⟨k, rfl⟩ := h (by simpa using hf)
    unfold truncQ
    split <;> simp

theorem forall₂_map {α : Type} {R : α → α → Prop} {f : α → α} {l : List α}
    (h : ∀ a ∈ l, R a (f a)) : List.Forall₂ R l (l.map f) := by
  induction l with
  | nil => exact .nil
  | cons a l ih =>
    exact .cons (h a List.mem_cons_self) (ih (fun b hb => h b (List.mem_cons_of_mem _ hb)))

/-- **C113.** The tables of a run's result list its recorded bars, its orders and its trades, one
row each and in order.  With `round_test_result` amounts are rounded to the nearest cent, without
it they are as recorded; everything else, share counts included, is as recorded. -/
theorem result_tables {x : RunSetup} (hok : SetupOK x) {st : RunSetup.State}
    (h : x.run = .ok st) (hres : ResultsOK st.results) (F : Fns ℚ) (rd : Bool)
    (pos : List PositionBar) :
    List.Forall₂ (BarReport rd) st.loop.pf.metrics
      (toTestResult F rd x.cfg.fractional false st.loop.pf pos).portfolio ∧
    List.Forall₂ (OrderReport rd) st.loop.pf.orders
      (toTestResult F rd x.cfg.fractional false st.loop.pf pos).orders ∧
    List.Forall₂ (TradeReport rd) st.loop.pf.trades
      (toTestResult F rd x.cfg.fractional false st.loop.pf pos).trades := by
  have hw : x.cfg.fractional = false → WholeShares st.loop.pf := run_whole_shares hok h hres
  refine ⟨forall₂_map ?_, forall₂_map ?_, forall₂_map ?_⟩
  · intro b _
    exact ⟨rfl, quantize_reported _ _, quantize_reported _ _, quantize_reported _ _,
      quantize_reported _ _, quantize_reported _ _, quantize_reported _ _, quantize_reported _ _,
      quantize_reported _ _, quantize_reported _ _, quantize_reported _ _⟩
  · intro o ho
    refine ⟨rfl, rfl, rfl, rfl, rfl, rfl, rfl, castShares_whole (fun hf => (hw hf).orders o ho), ?_,
      ?_, quantize_reported _ _, quantize_reported _ _, quantize_reported _ _⟩
    · simp [orderRow]
    · intro l hl
      exact ⟨quantizeVal rd l, by simp [orderRow, hl], quantize_reported _ _⟩
  · intro t ht
    exact ⟨rfl, rfl, rfl, rfl, rfl, castShares_whole (fun hf => (hw hf).trades t ht), rfl, rfl,
      quantize_reported _ _, quantize_reported _ _, quantize_reported _ _, quantize_reported _ _,
      quantize_reported _ _, quantize_reported _ _, quantize_reported _ _, quantize_reported _ _⟩

/-- The report of a position's row. -/
structure Spec.PositionReport (rd : Bool) (p r : PositionBar) : Prop where
  symbol : r.symbol = p.symbol
  date : r.date = p.date
  long : r.longShares = p.longShares
  short : r.shortShares = p.shortShares
  close : Reported rd p.close r.close
  equity : Reported rd p.equity r.equity
  marketValue : Reported rd p.marketValue r.marketValue
  margin : Reported rd p.margin r.margin
  unrealized : Reported rd p.unrealizedPnl r.unrealizedPnl

theorem recorded_whole {cfg : Config} (hf : cfg.fractional = false) :
    ∀ (ops : List Op) {s : Portfolio} {rows : List PositionBar}, (∀ o ∈ ops, o.Fit) →
    (∀ o ∈ ops, o.Whole) → runRec cfg ops = .ok (s, rows) →
    ∀ r ∈ rows, Whole r.longShares ∧ Whole r.shortShares := by
  intro ops
  induction ops using List.reverseRecOn with
  | nil =>
    intro s rows _ _ h
    cases h
    intro r hr
    cases hr
  | append_singleton ops op ih =>
    intro s rows hfit hwh h r hr
    have hfit' : ∀ o ∈ ops, o.Fit := fun o ho => hfit o (List.mem_append_left _ ho)
    have hwh' : ∀ o ∈ ops, o.Whole := fun o ho => hwh o (List.mem_append_left _ ho)
    obtain ⟨s0, rows0, new, h0, hrun, he, hno, hcap⟩ := position_rows hfit' h
    rw [he] at hr
    rcases List.mem_append.1 hr with hr | hr
    · exact ih hfit' hwh' h0 r hr
    · have hw := run_whole hf hfit' hwh' hrun
      have key : ∀ pt sym, Whole (sharesHeld (s0.book pt) sym) := by
        intro pt sym
        unfold sharesHeld lotsOf
        refine Spec.Whole.sum ?_
        intro x hx
        obtain ⟨e, he, rfl⟩ := List.mem_map.1 hx
        obtain ⟨p, hp, hep⟩ := List.mem_flatMap.1 he
        exact hw.entries pt p (List.mem_filter.1 hp).1 e hep
      by_cases hop : ∃ date quote, op = .captureBar date quote
      · obtain ⟨date, quote, rfl⟩ := hop
        have hr := ((hcap date quote rfl).2 r).1 hr
        rw [hr.long, hr.short]
        exact ⟨key .long _, key .short _⟩
      · rw [hno (fun d q h => hop ⟨d, q, h⟩)] at hr
        cases hr

/-- **C113.** The positions table lists the recorded rows in the same way.  `ops` are the calls of
the run on its portfolio and `rows` the rows those calls record. -/
theorem result_positions {x : RunSetup} (hok : SetupOK x) {st : RunSetup.State}
    (h : x.run = .ok st) (hres : ResultsOK st.results) (F : Fns ℚ) (rd : Bool) :
    ∃ ops, run x.cfg ops = .ok st.loop.pf ∧
      ∃ rows, runRec x.cfg ops = .ok (st.loop.pf, rows) ∧
      List.Forall₂ (PositionReport rd) rows
        (toTestResult F rd x.cfg.fractional false st.loop.pf rows).positions := by
  obtain ⟨ops, hrun, hfit, _, _, hwh⟩ := run_history hok h hres
  refine ⟨ops, hrun, ?_⟩
  have he := recording_is_silent x.cfg ops
  rw [hrun] at he
  obtain ⟨⟨s, rows⟩, hr, e⟩ := map_okE he
  simp only at e
  subst e
  refine ⟨rows, hr, forall₂_map ?_⟩
  intro r hmem
  have hw := fun hf => recorded_whole hf ops hfit (hwh hf) hr r hmem
  exact ⟨rfl, rfl, castShares_whole (fun hf => (hw hf).1), castShares_whole (fun hf => (hw hf).2),
    quantize_reported _ _, quantize_reported _ _, quantize_reported _ _, quantize_reported _ _,
    quantize_reported _ _⟩

example := result_positions Demo.drRun_ok Demo.drRun_run Demo.drRun_results

example := result_tables Demo.drRun_ok Demo.drRun_run Demo.drRun_results

/-! ### The metrics of a result -/

/-- The most an amount moves when it is reported. -/
def Spec.slack (rd : Bool) : ℚ := if rd then 1 / 200 else 0

theorem Spec.Reported.slack {rd : Bool} {x y : ℚ} (h : Reported rd x y) : |y - x| ≤ slack rd := by
  unfold Spec.slack
  cases rd
  · rw [h.2 rfl]; simp
  · exact (h.1 rfl).near

theorem reported_sum {α : Type} (rd : Bool) (f g : α → ℚ) (l : List α)
    (h : ∀ a ∈ l, |g a - f a| ≤ slack rd) :
    |(l.map g).sum - (l.map f).sum| ≤ l.length * slack rd := by
  induction l with
  | nil => simp
  | cons a l ih =>
    have h1 := h a List.mem_cons_self
    have h2 := ih (fun b hb => h b (List.mem_cons_of_mem _ hb))
    simp only [List.map_cons, List.sum_cons, List.length_cons]
    push_cast
    rw [abs_le] at h1 h2 ⊢
    constructor <;> linarith [h1.1, h1.2, h2.1, h2.2]

theorem evaluateTables_some {F : Fns ℚ} {bars : List PortfolioBar} {trades : List Trade}
    {m : Metrics ℚ} (h : (evaluateTables F bars trades).2 = some m) :
    evalMetrics F (bars.map PortfolioBar.marketValue) (bars.map PortfolioBar.fees)
      (trades.map evalRow) = some m ∧
    (evaluateTables F bars trades).1 = tradeStats (trades.map evalRow) := by
  unfold evaluateTables at h ⊢
  split at h
  · cases h
  · rename_i m' he
    cases h
    rw [he]
    exact ⟨rfl, rfl⟩

/-- **C113.** A result has metrics exactly when the run recorded at least two bars. -/
theorem result_has_metrics (F : Fns ℚ) (rd fr : Bool) (pf : Portfolio)
    (pos : List PositionBar) :
    (toTestResult F rd fr false pf pos).metrics.isSome ↔ 2 ≤ pf.metrics.length := by
  have h := metrics_exist F ((pf.metrics.map (barRow rd)).map PortfolioBar.marketValue)
    ((pf.metrics.map (barRow rd)).map PortfolioBar.fees)
    ((pf.trades.map (tradeRow rd fr)).map evalRow)
  simp only [List.length_map] at h
  rw [← h]
  show (evaluateTables _ _ _).2.isSome ↔ _
  unfold evaluateTables
  split
  · rename_i he; rw [he]
  · rename_i he; rw [he]

/-- **C113.** Without rounding the initial and final values and the total PnL of a result are those
of the recorded bars and trades.  With rounding each value is off by at most half a cent and the
total PnL by at most half a cent per trade. -/
theorem result_totals (F : Fns ℚ) (rd fr : Bool) (pf : Portfolio) (pos : List PositionBar) (m : Metrics ℚ)
    (h : (toTestResult F rd fr false pf pos).metrics = some m) :
    ∃ first last, pf.metrics.head? = some first ∧ pf.metrics.getLast? = some last ∧
      |m.initialValue - first.marketValue| ≤ slack rd ∧
      |m.endValue - last.marketValue| ≤ slack rd ∧
      |m.totalPnl - (pf.trades.map Trade.pnl).sum| ≤ pf.trades.length * slack rd := by
  obtain ⟨he, _⟩ := evaluateTables_some h
  obtain ⟨h1, h2, h3, _⟩ := metrics_identity _ _ _ _ _ he
  rw [List.map_map, List.head?_map] at h1
  rw [List.map_map, List.getLast?_map] at h2
  cases hf : pf.metrics.head? with
  | none => rw [hf] at h1; cases h1
  | some first =>
    cases hl : pf.metrics.getLast? with
    | none => rw [hl] at h2; cases h2
    | some last =>
      rw [hf] at h1
      rw [hl] at h2
      refine ⟨first, last, rfl, rfl, ?_, ?_, ?_⟩
      · rw [Option.some.inj h1]; exact (quantize_reported rd _).slack
      · rw [Option.some.inj h2]; exact (quantize_reported rd _).slack
      · rw [h3, List.map_map, List.map_map]
        exact reported_sum rd _ _ _ (fun t _ => (quantize_reported rd t.pnl).slack)

/-- **C113.** The reported drawdown is the largest fall of the recorded market values, up to a cent
when rounding. -/
theorem result_drawdown (F : Fns ℚ) (rd fr : Bool) (pf : Portfolio) (pos : List PositionBar) (m : Metrics ℚ)
    (h : (toTestResult F rd fr false pf pos).metrics = some m) (d : ℚ)
    (hd : ∃ i j : Nat, i ≤ j ∧ ∃ a b : PortfolioBar, pf.metrics[i]? = some a ∧ pf.metrics[j]? = some b ∧
      d = b.marketValue - a.marketValue)
    (hmin : ∀ (i j : Nat) (a b : PortfolioBar), i ≤ j → pf.metrics[i]? = some a → pf.metrics[j]? = some b →
      d ≤ b.marketValue - a.marketValue) :
    |m.maxDrawdown - d| ≤ 2 * slack rd := by
  obtain ⟨he, _⟩ := evaluateTables_some h
  obtain ⟨⟨i, j, hij, hj, e⟩, hall⟩ := mv_drawdown _ _ _ _ _ he
  simp only [List.length_map] at hj hall
  have key : ∀ (k : Nat) (a : PortfolioBar), pf.metrics[k]? = some a →
      |((pf.metrics.map (barRow rd)).map PortfolioBar.marketValue).getD k 0 - a.marketValue|
        ≤ slack rd := by
    intro k a hk
    have : ((pf.metrics.map (barRow rd)).map PortfolioBar.marketValue).getD k 0 =
        quantizeVal rd a.marketValue := by
      simp [List.getD_eq_getElem?_getD, hk, barRow]
    rw [this]
    exact (quantize_reported rd _).slack
  have get : ∀ k, k < pf.metrics.length → ∃ a, pf.metrics[k]? = some a := fun k hk =>
    ⟨_, List.getElem?_eq_getElem hk⟩
  obtain ⟨i', j', hij', a', b', ha', hb', ed⟩ := hd
  obtain ⟨a, ha⟩ := get i (by omega)
  obtain ⟨b, hb⟩ := get j hj
  have lt : ∀ k (c : PortfolioBar), pf.metrics[k]? = some c → k < pf.metrics.length := fun k c hk =>
    (List.getElem?_eq_some_iff.1 hk).1
  have h1 := hall i' j' hij' (lt _ _ hb')
  have h2 := hmin i j a b hij ha hb
  have k1 := key i a ha
  have k2 := key j b hb
  have k3 := key i' a' ha'
  have k4 := key j' b' hb'
  rw [abs_le] at k1 k2 k3 k4 ⊢
  constructor <;> linarith [k1.1, k1.2, k2.1, k2.2, k3.1, k3.2, k4.1, k4.2]

/-- **C113.** Without rounding the trade statistics of a result are those of the recorded trades. -/
theorem result_stats (F : Fns ℚ) (fr : Bool) (pf : Portfolio) (pos : List PositionBar)
    (hb : 2 ≤ pf.metrics.length) :
    (toTestResult F false fr false pf pos).stats =
      tradeStats (pf.trades.map (fun t => ⟨t.pnl, t.returnPct, t.bars⟩)) := by
  obtain ⟨m, hm⟩ := Option.isSome_iff_exists.1 ((result_has_metrics F false fr pf pos).2 hb)
  obtain ⟨_, he⟩ := evaluateTables_some hm
  have : (toTestResult F false fr false pf pos).stats = _ := he
  rw [this, List.map_map]
  rfl

namespace Demo

/-- Ten shares bought at 10 and sold a fraction of a cent higher, over three bars. -/
def trTiny : List Op :=
  [ .captureBar 1 (fun _ => ⟨none, none, none⟩),
    .buy { date := 1, symbol := "AAA", shares := 1, fill := 10 },
    .captureBar 2 (fun _ => ⟨some 10, some 10, some 10⟩),
    .sell { date := 2, symbol := "AAA", shares := 1, fill := 10 + 1 / 1000 },
    .captureBar 3 (fun _ => ⟨some 10, some 10, some 10⟩) ]

end Demo

/-- That history has metrics, so the theorems above apply to it. -/
example : ∃ s, run { cash := 1000 } Demo.trTiny = .ok s ∧ ∀ F rd,
    (toTestResult F rd false false s []).metrics.isSome := by
  have hk : (run { cash := 1000 } Demo.trTiny).map (fun s => s.metrics.length) = .ok 3 := by
    decide +kernel
  obtain ⟨s, hs, he⟩ := map_okE hk
  exact ⟨s, hs, fun F rd => (result_has_metrics F rd false s []).2 (by omega)⟩

/-- The metrics are computed from the rounded tables: a trade that gains less than half a cent is
not counted as a winner. -/
theorem rounding_hides_winners : ∃ (cfg : Config) (ops : List Op) (s : Portfolio),
    run cfg ops = .ok s ∧ (∃ t ∈ s.trades, 0 < t.pnl) ∧
    ∀ F : Fns ℚ, (toTestResult F false false false s []).stats.winners = 1 ∧
      (toTestResult F true false false s []).stats.winners = 0 := by
  have hk : (run { cash := 1000 } Demo.trTiny).map
      (fun s => (s.metrics.length, s.trades.map (fun t => (t.pnl, t.returnPct, t.bars)))) =
      .ok (3, [(1 / 1000, 1 / 100, 0)]) := by decide +kernel
  obtain ⟨s, hs, he⟩ := map_okE hk
  obtain ⟨h1, h2⟩ := Prod.mk.inj he
  refine ⟨_, _, s, hs, ?_, ?_⟩
  · have : ((1 / 1000, 1 / 100, 0) : ℚ × ℚ × Nat) ∈
        s.trades.map (fun t => (t.pnl, t.returnPct, t.bars)) := by
      rw [← h2]; exact List.mem_cons_self
    obtain ⟨t, ht, e⟩ := List.mem_map.1 this
    refine ⟨t, ht, ?_⟩
    have : t.pnl = 1 / 1000 := congrArg Prod.fst e
    rw [this]; norm_num
  · intro F
    have key : ∀ rd, (toTestResult F rd false false s []).stats =
        tradeStats ([((1 / 1000, 1 / 100, 0) : ℚ × ℚ × Nat)].map
          (fun t => ⟨quantizeVal rd t.1, quantizeVal rd t.2.1, t.2.2⟩)) := by
      intro rd
      obtain ⟨m, hm⟩ := Option.isSome_iff_exists.1
        ((result_has_metrics F rd false s []).2 (by rw [← h1]; decide))
      obtain ⟨_, he⟩ := evaluateTables_some hm
      have e : (toTestResult F rd false false s []).stats = _ := he
      rw [e, h2, List.map_map, List.map_map]
      rfl
    rw [key, key]
    constructor <;> decide +kernel

end PyBroker
