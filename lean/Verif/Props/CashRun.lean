import Verif.Props.Cash
import Verif.Props.Priced
import Mathlib.Data.List.Induction

/-!
# C122 for whole runs

A run whose bars have positive prices meets the hypotheses of the theorems of `Props/Cash.lean`.
-/

namespace PyBroker

open Spec

namespace Spec

/-- Every bar has a range above zero, also in cents if prices are rounded. -/
structure PositiveBars (round : Bool) (cols : List String) (rows : List DRow) : Prop
    extends SaneBars cols rows where
  positive : ∀ r ∈ rows, ∀ l, r.val "low" = some l → 0 < if round then roundCents l else l

/-- The recorded bar of a portfolio that owes nothing. -/
def SolventBar (bar : PortfolioBar) : Prop :=
  0 ≤ bar.cash ∧ bar.cash ≤ bar.marketValue ∧ bar.equity = bar.marketValue ∧ bar.marginLoan = 0

end Spec

theorem store_metrics (s : Portfolio) (pt : PosType) (p : Position) :
    (s.store pt p).metrics = s.metrics := by
  cases pt <;> rfl

theorem removeStopData_metrics (s : Portfolio) (l : List Stop) :
    (s.removeStopData l).metrics = s.metrics := by
  obtain ⟨sd, ac, h⟩ := removeStopData_frame l s
  rw [h]

theorem prim_metrics {cfg : Config} {Q : Guard} {s t : Portfolio} (hp : Prim cfg Q s t) :
    t.metrics = s.metrics := by
  cases hp with
  | exit => rw [store_metrics]; rfl
  | drop => rw [store_metrics, removeStopData_metrics]
  | @close _ _ pt => cases pt <;> rfl
  | @opened _ sd => cases sd <;> rfl
  | order => rfl
  | caches => rfl
  | stopValue => rfl
  | incr => rfl
  | removeStop id =>
    unfold PyBroker.removeStop
    split
    · rfl
    · simp only
      split
      · rfl
      · split <;> rfl
  | @clearStops _ _ _ e => exact (removeStopData_metrics s e.stops)

/-- **C122, every recorded bar.** -/
theorem long_only_bars {cfg : Config} (hl : cfg.leverage ≤ 1) (hm : cfg.positionMode = .longOnly)
    (hfee : cfg.feeMode = none) (hc : 0 ≤ cfg.cash) (ops : List Op) :
    ∀ {s : Portfolio}, (∀ op ∈ ops, op.Fit) → (∀ op ∈ ops, op.PositivePrices) →
      (∀ op ∈ ops, PositiveCloses op) → run cfg ops = .ok s → ∀ bar ∈ s.metrics, SolventBar bar := by
  induction ops using List.reverseRecOn with
  | nil =>
    intro s _ _ _ h
    have : s = Portfolio.init cfg := (Except.ok.inj h).symm
    subst this
    intro bar hb
    cases hb
  | append_singleton ops op ih =>
    intro s' hfit hpos hq h
    have hfit' : ∀ o ∈ ops, o.Fit := fun o ho => hfit o (List.mem_append_left _ ho)
    have hpos' : ∀ o ∈ ops, o.PositivePrices := fun o ho => hpos o (List.mem_append_left _ ho)
    have hq' : ∀ o ∈ ops, PositiveCloses o := fun o ho => hq o (List.mem_append_left _ ho)
    have hop : op ∈ ops ++ [op] := List.mem_append_right _ List.mem_cons_self
    obtain ⟨s, hs, hstep⟩ := run_snoc h
    have hi := ih hfit' hpos' hq' hs
    obtain ⟨hg, hsf⟩ := run_good hfit' hs
    rcases step_steps hg hsf (hfit op hop) op.fills_true hstep with hst | ⟨d, quote, rfl, _⟩
    · have : s'.metrics = s.metrics :=
        hst.2.inv (P := fun t => t.metrics = s.metrics) (fun _ _ hp ht => (prim_metrics hp).trans ht) rfl
      rw [this]; exact hi
    · obtain ⟨s0, bar, hs0, hmet, _, h1, h2, h3, h4⟩ :=
        long_only_solvent hfit' hpos' h hl hm hfee hc (hq _ hop)
      have : s0 = s := Except.ok.inj (hs0.symm.trans hs)
      subst this
      intro b hb
      rw [hmet] at hb
      rcases List.mem_append.1 hb with hb | hb
      · exact hi b hb
      · rw [List.mem_singleton.1 hb]; exact ⟨h1, h2, h3, h4⟩

/-! ## The calls of a run -/

/-- A price the loop reads comes from a row. -/
theorem priceAt_row {x : RunSetup} (hu : UniqueBars x.rows) (window : List Date)
    (selected : List Sym) (d : Date) (sym : Sym) :
    (∃ r ∈ x.rows, ∀ t y,
      x.priceAt (x.store window) (x.idxOn window selected d) sym (.price t) = some y ↔
        PriceOn x r (.price t) y) ∨
    ∀ t, x.priceAt (x.store window) (x.idxOn window selected d) sym (.price t) = none := by
  set idx := x.idxOn window selected d with hidx
  set l := (symRows x.rows sym).filter (fun r => r.date ∈ window) with hl
  have hnone : (∀ c, barCell (x.store window) sym (idx sym) c = none) →
      ∀ t, x.priceAt (x.store window) idx sym (.price t) = none := by
    intro hc t
    have hg := (fetchPriceType_good (emptyScope_ok (x.store window) idx x.round) sym t).1
    simp only at hg
    have hp : Spec.price (barCell (x.store window) sym (idx sym)) t = none := by
      cases t <;> simp [Spec.price, hc]
    rw [hp] at hg
    unfold RunSetup.priceAt RunSetup.fillPrice PriceScope.fetchFloat
    simp only
    rcases hf : PriceScope.fetchPriceType
      { store := x.store window, endIndex := idx, round := x.round } sym t with ⟨q, s'⟩
    rw [hf] at hg
    simp only at hg
    subst hg
    rfl
  by_cases hn : 0 < idx sym
  · rcases slice_arrays hu x.cols window sym with ⟨_, h2⟩ | ⟨_, a, ha, h3, h4⟩
    · refine Or.inr (hnone (fun c => ?_))
      unfold barCell
      rw [show (x.store window).arrays sym = none from h2]
      rfl
    · have hle : idx sym ≤ l.length := by
        rw [hidx, RunSetup.idxOn_eq hu]
        split
        · refine List.countP_le_length.trans ?_
          unfold RunSetup.barsOn
          rw [List.length_map]
        · exact Nat.zero_le _
      obtain ⟨r, hr⟩ : ∃ r, l[idx sym - 1]? = some r :=
        ⟨l[idx sym - 1]'(by omega), List.getElem?_eq_getElem (by omega)⟩
      have hmem := symRows_row (List.mem_filter.1 (List.mem_of_getElem? hr)).1
      exact Or.inl ⟨r, hmem.1, fun t y => priceAt_type ha ⟨h3, h4⟩ hn hr t y⟩
  · refine Or.inr (hnone (fun c => ?_))
    unfold barCell
    rw [show idx sym = 0 by omega]
    simp

theorem positive_range {x : RunSetup} (hp : PositiveBars x.round x.cols x.rows) {r : DRow}
    (hr : r ∈ x.rows) {t : PriceType} {y : ℚ} (h : PriceOn x r (.price t) y) : 0 < y := by
  obtain ⟨l, _, hl, _, h1, _⟩ := priceOn_range hp.toSaneBars hr ⟨t, rfl⟩ h
  exact (hp.positive r hr l hl).trans_le h1

theorem roundCents_pos {v : ℚ} (h : 0 < roundCents v) : 0 < v := by
  by_contra hn
  have := roundCents_mono (not_lt.1 hn)
  have h0 : roundCents 0 = 0 := by decide +kernel
  rw [h0] at this
  linarith

theorem low_positive {round : Bool} {cols : List String} {rows : List DRow}
    (hp : PositiveBars round cols rows) {r : DRow} (hr : r ∈ rows) {l : ℚ}
    (h : r.val "low" = some l) : 0 < l := by
  have := hp.positive r hr l h
  cases round
  · exact this
  · exact roundCents_pos this

/-- The stop checks of a run read sane prices, and its bars have positive closes. -/
theorem run_positive {x : RunSetup} (hu : UniqueBars x.rows)
    (hp : PositiveBars x.round x.cols x.rows) (k : Nat) (window : List Date) (selected : List Sym)
    (d : Date) :
    (x.barEnv k (x.store window) (x.idxOn window selected d) d).stop.Positive ∧
    ∀ sym c, ((x.barEnv k (x.store window) (x.idxOn window selected d) d).quote sym).close = some c →
      0 < c := by
  constructor
  · intro sym
    have hf : ∀ t, (x.barEnv k (x.store window) (x.idxOn window selected d) d).stop.fetchFloat sym t =
        x.priceAt (x.store window) (x.idxOn window selected d) sym (.price t) := fun _ => rfl
    simp only [hf]
    rcases priceAt_row hu window selected d sym with ⟨r, hr, h⟩ | h
    · refine ⟨fun t y hy => positive_range hp hr ((h t y).1 hy), fun hlow => ?_⟩
      obtain ⟨l, hi, hl, _⟩ := hp.range r hr
      have := (h .low (shown x l)).2 (.type (by
        show rowCell x r "low" = _
        unfold rowCell; rw [if_pos hp.low, hl]))
      rw [hlow] at this
      cases this
    · simp [h]
  · intro sym c hc
    set idx := x.idxOn window selected d with hidx
    have hc : (if (PriceScope.barOhlcRaw ⟨x.store window, idx, x.round, [], [], []⟩ sym d).1 = none then
        (⟨none, none, none⟩ : BarQuote) else
        ⟨(PriceScope.barOhlcRaw ⟨x.store window, idx, x.round, [], [], []⟩ sym d).1,
         (PriceScope.barOhlcRaw ⟨x.store window, idx, x.round, [], [], []⟩ sym d).2.1,
         (PriceScope.barOhlcRaw ⟨x.store window, idx, x.round, [], [], []⟩ sym d).2.2⟩).close = some c := hc
    have hc : (PriceScope.barOhlcRaw ⟨x.store window, idx, x.round, [], [], []⟩ sym d).1 = some c := by
      split at hc
      · cases hc
      · exact hc
    unfold PriceScope.barOhlcRaw at hc
    simp only at hc
    split at hc
    · cases hc
    · rcases slice_arrays hu x.cols window sym with ⟨_, h2⟩ | ⟨_, a, ha, h3, h4⟩
      · rw [show (x.store window).arrays sym = none from h2] at hc
        cases hc
      · rw [show (x.store window).arrays sym = some a from ha] at hc
        simp only at hc
        generalize (if idx sym > a.dates.length then a.dates.length else idx sym) = e at hc
        split at hc
        · cases hc
        · simp only [h4] at hc
          split at hc
          · rw [Option.bind_some, List.getElem?_map, Option.join_eq_some_iff,
              Option.map_eq_some_iff] at hc
            obtain ⟨r, hr, hv⟩ := hc
            have hmem := symRows_row (List.mem_filter.1 (List.mem_of_getElem? hr)).1
            obtain ⟨l, hi, hl, _, _, _, hcl⟩ := hp.range r hmem.1
            exact (low_positive hp hmem.1 hl).trans_le (hcl c hv).1
          · cases hc

/-- The calls a run makes on its portfolio, with the prices they use. -/
theorem run_calls {x : RunSetup} (hok : SetupOK x) {st : RunSetup.State} (h : x.run = .ok st)
    (hres : ResultsOK st.results) (hp : PositiveBars x.round x.cols x.rows) :
    ∃ ops, run x.cfg ops = .ok st.loop.pf ∧ (∀ op ∈ ops, op.Fit) ∧
      (∀ op ∈ ops, op.PositivePrices) ∧ ∀ op ∈ ops, PositiveCloses op := by
  obtain ⟨wins, ws, hw, hf, hrun, _, hresults⟩ := RunSetup.run_made h
  have hr := RunSetup.run_ok hok hw (List.Sublist.refl _) hf
  rw [hresults] at hres
  obtain ⟨hfit, hfresh⟩ := results_signals hres
  obtain ⟨hist, hcalls, hrun', hfit', _, _⟩ := backtest_history hr hfit hfresh hrun
  have key : ∀ op ∈ allCalls hist, op.PositivePrices ∧ PositiveCloses op := by
    intro op hop
    unfold allCalls at hop
    obtain ⟨y, hy, hop⟩ := List.mem_flatMap.1 hop
    obtain ⟨wb, hwb, hwc⟩ := RunSetup.forall₂_mem hcalls hy
    obtain ⟨kw, hkw, ⟨es, hes, hwin, hbars⟩⟩ := RunSetup.forall₂_mem hf hwb
    rcases List.mem_append.1 hop with hop | hop
    · obtain ⟨b, hb, sym, bar, rfl, _, _⟩ := hwc.1 op hop
      exact ⟨trivial, trivial⟩
    · obtain ⟨calls, hcm, hop⟩ := List.mem_flatten.1 hop
      obtain ⟨b, hb, orders, cancels, rfl, ho, hcan⟩ := RunSetup.forall₂_mem hwc.2 hcm
      obtain ⟨d, hd, hmade⟩ := RunSetup.forall₂_mem hbars hb
      obtain ⟨h1, h2⟩ := run_positive hok.unique hp kw.2 (x.testDates kw.1) (selectedSymbols es) d
      rcases List.mem_cons.1 hop with rfl | hop
      · refine ⟨?_, trivial⟩
        show b.env.stop.Positive
        rw [hmade.env]; exact h1
      · rcases List.mem_append.1 hop with hop | hop
        · have := ho op hop
          cases op <;> first
            | exact ⟨trivial, trivial⟩
            | exact this.elim
        · rcases List.mem_cons.1 hop with rfl | hop
          · refine ⟨trivial, ?_⟩
            show ∀ sym c, (b.env.quote sym).close = some c → 0 < c
            rw [hmade.env]; exact h2
          · rcases List.mem_append.1 hop with hop | hop
            · have := hcan op hop
              cases op <;> first
                | exact ⟨trivial, trivial⟩
                | exact this.elim
            · rcases List.mem_append.1 hop with hop | hop
              · obtain ⟨e, _, rfl⟩ := List.mem_map.1 hop
                exact ⟨trivial, trivial⟩
              · rw [List.mem_singleton.1 hop]
                exact ⟨trivial, trivial⟩
  exact ⟨allCalls hist, hrun', hfit', fun op hop => (key op hop).1, fun op hop => (key op hop).2⟩

/-- **C122, for runs.** -/
theorem run_cash_floor {x : RunSetup} (hok : SetupOK x) {st : RunSetup.State} (h : x.run = .ok st)
    (hres : ResultsOK st.results) (hp : PositiveBars x.round x.cols x.rows)
    (hl : x.cfg.leverage ≤ 1) (hc : 0 ≤ x.cfg.cash) (hfees : ∀ o ∈ st.loop.pf.orders, 0 ≤ o.fees) :
    0 ≤ st.loop.pf.cash + feesCharged st.loop.pf + shortLosses st.loop.pf := by
  obtain ⟨ops, hrun, hfit, hpos, _⟩ := run_calls hok h hres hp
  exact cash_floor hfit hpos hrun hl hc hfees

/-- **C122, for long-only runs.** -/
theorem run_solvent {x : RunSetup} (hok : SetupOK x) {st : RunSetup.State} (h : x.run = .ok st)
    (hres : ResultsOK st.results) (hp : PositiveBars x.round x.cols x.rows)
    (hl : x.cfg.leverage ≤ 1) (hm : x.cfg.positionMode = .longOnly) (hfee : x.cfg.feeMode = none)
    (hc : 0 ≤ x.cfg.cash) :
    0 ≤ st.loop.pf.cash ∧ st.loop.pf.accrued = 0 ∧ ∀ bar ∈ st.loop.pf.metrics, SolventBar bar := by
  obtain ⟨ops, hrun, hfit, hpos, hq⟩ := run_calls hok h hres hp
  obtain ⟨h1, h2⟩ := long_only_no_debt hfit hpos hrun hl hm hfee hc
  exact ⟨h1, h2, long_only_bars hl hm hfee hc ops hfit hpos hq hrun⟩

theorem Spec.PositiveBars.call {s : StrategyObj} {u : UserCode} {c : RunCall} {set : OwnSettings}
    {x : RunSetup}
    (hp : PositiveBars s.config.roundFill u.cols
      (sourceRows s.source (StrategySymbols s) s.start s.stop))
    (has : RunsAs s u c set x)
    (hmem : ∀ r ∈ x.rows, r ∈ sourceRows s.source (StrategySymbols s) s.start s.stop) :
    PositiveBars x.round x.cols x.rows := by
  refine ⟨⟨by rw [has.cols]; exact hp.low, by rw [has.cols]; exact hp.high,
    fun r hr => hp.range r (hmem r hr)⟩, fun r hr l hl => ?_⟩
  rw [has.round]
  exact hp.positive r (hmem r hr) l hl

/-- **C122, for calls.**  A long-only strategy without leverage and fees on bars with positive prices
has, on every bar of its result, cash that is not negative and not more than its market value. -/
theorem call_solvent {s : StrategyObj} (hb : Built s) (hsrc : Answers s.source) {u : UserCode}
    {c : RunCall} (hord : OrdersOf u c) (hsize : c.trainSize ≤ 1) {st : RunSetup.State}
    (h : s.walkforward u c = .ok st) (hres : ResultsOK st.results)
    (hp : PositiveBars s.config.roundFill u.cols
      (sourceRows s.source (StrategySymbols s) s.start s.stop))
    (hl : s.config.leverage ≤ 1) (hm : s.config.positionMode = .longOnly)
    (hfee : s.config.feeMode = none) :
    0 ≤ st.loop.pf.cash ∧ st.loop.pf.accrued = 0 ∧ ∀ bar ∈ st.loop.pf.metrics, SolventBar bar := by
  obtain ⟨set, x, _, has, hrows, hok, hx⟩ := call_runs hb hsrc hord hsize h
  exact run_solvent hok hx hres (hp.call has (fun r hr => by rw [hrows] at hr; exact (List.mem_filter.1 hr).1)) (by rw [has.leverage]; exact hl)
    (by rw [has.mode]; exact hm) (by rw [has.feeMode]; exact hfee)
    (by rw [has.cash]; exact (built_valid hb).1.cash.le)

/-- **C122, for calls.**  Without leverage, and unless fees come from a function, cash falls below
zero by at most the fees charged and the losses of short trades. -/
theorem call_cash_floor {s : StrategyObj} (hb : Built s) (hsrc : Answers s.source) {u : UserCode}
    {c : RunCall} (hord : OrdersOf u c) (hsize : c.trainSize ≤ 1) {st : RunSetup.State}
    (h : s.walkforward u c = .ok st) (hres : ResultsOK st.results)
    (hp : PositiveBars s.config.roundFill u.cols
      (sourceRows s.source (StrategySymbols s) s.start s.stop))
    (hl : s.config.leverage ≤ 1) (hfn : ∀ f, s.config.feeMode ≠ some (.custom f)) :
    0 ≤ st.loop.pf.cash + feesCharged st.loop.pf + shortLosses st.loop.pf := by
  obtain ⟨set, x, _, has, hrows, hok, hx⟩ := call_runs hb hsrc hord hsize h
  have hp' : PositiveBars x.round x.cols x.rows := hp.call has (fun r hr => by rw [hrows] at hr; exact (List.mem_filter.1 hr).1)
  have hcfg := (built_valid hb).1
  obtain ⟨ops, hrun, hfit, hpos, _⟩ := run_calls hok hx hres hp'
  refine run_cash_floor hok hx hres hp' (by rw [has.leverage]; exact hl)
    (by rw [has.cash]; exact hcfg.cash.le) (fun o ho => ?_)
  obtain ⟨h1, h2⟩ := (logs_consecutive hfit hpos hrun).2.2.1 o ho
  obtain ⟨_, hby, hno⟩ := order_fees_partial hfit hrun
  have hf := (run_log hfit hrun).orderFees o ho
  rcases hm : x.cfg.feeMode with _ | mode
  · exact (hno hm o ho).ge
  rcases ha : x.cfg.feeAmount with _ | amount
  · rw [hf]
    unfold calculateFees
    rw [hm, ha]
  · rw [hby mode amount hm ha o ho]
    have h0 : 0 ≤ amount := hcfg.fee amount (by rw [← has.feeAmount]; exact ha)
    cases mode with
    | orderPercent => exact mul_nonneg (mul_nonneg h1.le h2.le) (by positivity)
    | perOrder => exact h0
    | perShare => exact mul_nonneg h1.le h0
    | custom f => exact absurd (has.feeMode.symm.trans hm) (hfn f)

/-! ## Non-vacuity -/

namespace Demo

theorem drRows_positive : PositiveBars true ["open", "high", "low", "close"] drRows := by
  have hall : ∀ r ∈ drRows, ∃ sym d p, r = drRow sym d p ∧ 1 ≤ p := by
    intro r hr
    simp only [drRows, List.mem_cons, List.not_mem_nil, or_false] at hr
    rcases hr with h | h | h | h | h | h | h | h | h | h | h <;>
      exact ⟨_, _, _, h, by norm_num⟩
  refine ⟨⟨by decide, by decide, fun r hr => ?_⟩, fun r hr l hl => ?_⟩
  · obtain ⟨sym, d, p, rfl, _⟩ := hall r hr
    refine ⟨p, p, rfl, rfl, le_rfl, fun v hv => ?_, fun v hv => ?_⟩ <;>
    · have hv : p = v := Option.some.inj hv
      exact hv ▸ ⟨le_rfl, le_rfl⟩
  · obtain ⟨sym, d, p, rfl, h1⟩ := hall r hr
    have hl : p = l := Option.some.inj hl
    subst hl
    have := roundCents_mono h1
    have h0 : roundCents 1 = 1 := by decide +kernel
    rw [if_pos rfl]
    linarith

/-- The strategy of the demo, long only, without leverage and fees. -/
def csConfig : StratConfig :=
  { initialCash := 300, positionMode := .longOnly, exitOnLast := true }

def csStrategy : StrategyObj :=
  { source := enSource, start := 1, stop := 6, config := csConfig
    execs := [⟨1, .fixed ["AAA", "BBB"]⟩] }

theorem csConfig_ok : verifyConfig csConfig = .ok () := by decide +kernel

theorem csStrategy_built : Built csStrategy := by
  have h1 : Built { source := enSource, start := 1, stop := 6, config := csConfig } :=
    .new (src := enSource) (a := 1) (b := 6) (c := some csConfig) (by
      unfold StrategyObj.new
      rw [if_neg (by decide)]
      simp only
      rw [csConfig_ok])
  exact h1.execution ⟨1, .fixed ["AAA", "BBB"]⟩

def csEnd : RunSetup.State :=
  match csStrategy.walkforward enCode enCall with
  | .ok st => st
  | .error _ => { loop := { pf := Portfolio.init { cash := 0 } } }

theorem csWalk : csStrategy.walkforward enCode enCall = .ok csEnd := by
  have h : isOkA (csStrategy.walkforward enCode enCall) = true := by decide +kernel
  unfold csEnd
  rcases hx : csStrategy.walkforward enCode enCall with e | st
  · rw [hx] at h; cases h
  · rfl

theorem csResults : ResultsOK csEnd.results := by
  have h : (∀ r ∈ csEnd.results, (∀ st ∈ r.longStops, st.posType = .long ∧ st.symbol = r.symbol) ∧
      ∀ st ∈ r.shortStops, st.posType = .short ∧ st.symbol = r.symbol) ∧
      (∀ r ∈ csEnd.results, r.buyShares = none ∨ r.sellShares = none) ∧
      ((csEnd.results.flatMap (fun r => r.longStops ++ r.shortStops)).map Stop.id).Nodup := by
    decide +kernel
  exact ⟨h.1, h.2.1, h.2.2⟩

end Demo

example := call_solvent Demo.csStrategy_built trivial Demo.enOrders (by norm_num [Demo.enCall])
  Demo.csWalk Demo.csResults Demo.drRows_positive le_rfl rfl rfl
example := call_cash_floor Demo.csStrategy_built trivial Demo.enOrders (by norm_num [Demo.enCall])
  Demo.csWalk Demo.csResults Demo.drRows_positive le_rfl (fun _ h => by cases h)
example : Demo.csEnd.loop.pf.metrics.map (fun b => (b.date, b.cash, b.marketValue)) =
    [(1, 300, 300), (2, 98, 300), (3, 98, 302), (4, 98, 304), (5, 98, 306), (6, 98, 308)] := by
  decide +kernel

end PyBroker
