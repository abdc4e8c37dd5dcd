import Verif.Backtest.Given
import Verif.Props.Drive
import Verif.Props.Account
import Verif.Props.Ledger
import Verif.Props.Books

/-!
# C159, C160: runs on a portfolio of the caller, and runs that only train
-/

namespace PyBroker

open PyBroker.Spec

namespace Spec

/-- The portfolio `pf` is that of runs with trading rules one after the other, each but the first
given the portfolio of the one before; `l` are the runs with their ends. -/
inductive RunsOn (cfg : Config) : List (RunSetup × RunSetup.State) → Portfolio → Prop
  | new : RunsOn cfg [] (Portfolio.init cfg)
  | next {l : List (RunSetup × RunSetup.State)} {pf : Portfolio} {x : RunSetup}
      {st : RunSetup.State} : RunsOn cfg l pf → x.cfg = cfg →
      x.runGiven false (some pf) = .ok st → RunsOn cfg (l ++ [(x, st)]) st.loop.pf

/-- Nothing in the strategy trades: no function before or after the executions, none of an
execution, and no rotation. -/
structure NoRules (r : Rules) : Prop where
  before : r.before = false
  after : r.after = false
  sizer : r.sizer = false
  worst : r.worst = none
  fns : ∀ f ∈ r.fns, f = false

/-- The dates of the bars of a run: those of the test data of its windows. -/
def runDates (x : RunSetup) (wins : List WFWindow) : List Date :=
  wins.flatMap (fun w => x.calendar w)

end Spec

namespace RunSetup

variable {x : RunSetup}

/-- Without a portfolio of the caller, and with a new one, the run is that of the other theorems. -/
theorem run_given_none : x.runGiven false none = x.run ∧
    x.runGiven false (some (Portfolio.init x.cfg)) = x.run := ⟨rfl, rfl⟩

/-- A run on a portfolio is a run of the loop over the windows and bars made for it. -/
theorem given_made {pf : Portfolio} {st : State} (h : x.runGiven false (some pf) = .ok st) :
    ∃ wins ws, walkforwardSplit x.dates x.windows x.lookahead x.trainSize x.shuffle = .ok wins ∧
      List.Forall₂ (MadeWindow x) wins.zipIdx ws ∧
      foldB (runWindow x.cfg) { pf := pf } ws = .ok st.loop ∧
      st.results = ws.flatMap (fun y => y.2.flatMap BarIn.results) := by
  unfold runGiven at h
  split at h
  · cases h
  · rename_i wins hw
    obtain ⟨ws, hf, hfold, _, hr⟩ := windows_made h
    exact ⟨wins, ws, hw, hf, hfold, by simpa using hr⟩

end RunSetup

/-- **C159.**  A run on a portfolio that is the result of calls continues them: its own calls come
after, and what the theorems about portfolios ask of the calls holds of all of them.  Its orders are
of symbols in play on their date in this run, and created before it. -/
theorem given_history {x : RunSetup} (hok : SetupOK x) {pf : Portfolio} {st : RunSetup.State}
    (h : x.runGiven false (some pf) = .ok st) {ops : List Op} (hrun : run x.cfg ops = .ok pf)
    (hfit : ∀ o ∈ ops, o.Fit) (hwhole : x.cfg.fractional = false → ∀ o ∈ ops, o.Whole)
    (hres : ResultsOK st.results)
    (hids : (((ops.flatMap stopsOf) ++
      st.results.flatMap (fun r => r.longStops ++ r.shortStops)).map Stop.id).Nodup) :
    ∃ more wins, walkforwardSplit x.dates x.windows x.lookahead x.trainSize x.shuffle = .ok wins ∧
      run x.cfg (ops ++ more) = .ok st.loop.pf ∧ (∀ o ∈ ops ++ more, o.Fit) ∧
      (∀ i ∈ (more.flatMap stopsOf).map Stop.id,
        i ∈ (st.results.flatMap (fun r => r.longStops ++ r.shortStops)).map Stop.id) ∧
      FreshIds (ops ++ more) ∧ (x.cfg.fractional = false → ∀ o ∈ ops ++ more, o.Whole) ∧
      more.filterMap capDate = runDates x wins ∧
      ∀ r, (Op.buy r ∈ more ∨ Op.sell r ∈ more) →
        InPlay x r.symbol r.date ∧ ∃ c, r.created = some c ∧ c < r.date := by
  obtain ⟨wins, ws, hw, hf, hfold, hresults⟩ := RunSetup.given_made h
  have hr := RunSetup.run_ok hok hw (List.Sublist.refl _) hf
  have hsig := results_signals (by rw [← hresults]; exact hres)
  have hsubids : (stopIds ((signals ws).flatMap orderStops)).Subperm
      ((st.results.flatMap (fun r => r.longStops ++ r.shortStops)).map Stop.id) := by
    rw [hresults] at hres ⊢
    obtain ⟨l, hp, hs⟩ := signals_sub hres.one
    have hp' : (((signals ws).flatMap orderStops).map Stop.id).Perm
        ((l.flatMap orderStops).map Stop.id) := (hp.flatMap_right orderStops).map _
    refine ⟨_, hp'.symm, (flatMap_sub (fun r => ?_) hs).map _⟩
    unfold orderStops
    split
    · exact List.sublist_append_left _ _
    · exact List.sublist_append_right _ _
  have hn : (stopIds (ops.flatMap stopsOf) ++ stopIds ((signals ws).flatMap orderStops)).Nodup := by
    rw [List.map_append] at hids
    refine List.nodup_append.2 ⟨(List.nodup_append.1 hids).1, hsig.2, ?_⟩
    intro a ha b hb
    exact (List.nodup_append.1 hids).2.2 a ha b (hsubids.subset hb)
  obtain ⟨d, hd⟩ := exists_after (barDates ws)
  obtain ⟨D0, _, hD0⟩ := start_before hr hd
  have hinit : Hist (AskedIn ws) x.cfg (stopIds (ops.flatMap stopsOf)) ops { pf := pf } := by
    refine ⟨hrun, hfit, fun _ h => (nomatch h), ?_, ?_, hwhole, fun _ h => (nomatch h)⟩
    · show (stopIds (ops.flatMap stopsOf) ++ []).Nodup
      rw [List.append_nil]
      exact (List.nodup_append.1 hn).1
    · intro i hi
      have hi : i ∈ stopIds (ops.flatMap stopsOf) ++ [] := hi
      rwa [List.append_nil] at hi
  have hli : LoopInv (InPlay x) D0 { pf := pf } ({} : PendingMap) :=
    ⟨Refines.init, Track.init _ D0, ⟨(fun e he => nomatch he), List.nodup_nil⟩⟩
  obtain ⟨_, _, hist, _, _, hcalls, hh, _⟩ := windows_hist hr.window hr.bar
    (List.pairwise_cons.2 ⟨hD0, hr.forward⟩) hli hinit (fun _ h => (nomatch h)) hsig.1
    (fun y hy b hb r hr p hp => ⟨y, hy, b, hb, r, mem_signalsOf hr, hp⟩) hn hfold
  have hall := List.Sublist.nodup (List.sublist_append_left _ _) hh.nodup
  refine ⟨allCalls hist, wins, hw, hh.run, hh.fit, ?_, hall, hh.whole, ?_, ?_⟩
  · intro i hi
    have h1 : i ∈ stopIds (ops.flatMap stopsOf) ++ stopIds ((signals ws).flatMap orderStops) := by
      refine hh.used i (List.mem_append_left _ ?_)
      unfold stopIds
      rw [List.flatMap_append, List.map_append]
      exact List.mem_append_right _ hi
    rcases List.mem_append.1 h1 with h2 | h2
    · exfalso
      unfold stopIds at hall
      rw [List.flatMap_append, List.map_append] at hall
      exact (List.nodup_append.1 hall).2.2 i h2 i hi rfl
    · exact hsubids.subset h2
  · rw [allCalls_dates hcalls, RunSetup.windows_dates hf]
    unfold runDates
    rw [← List.flatMap_map]
    congr 1
    exact List.zipIdx_map_fst 0 wins
  · have key : ∀ r o, (o = Op.buy r ∨ o = Op.sell r) → o ∈ allCalls hist →
        InPlay x r.symbol r.date ∧ ∃ c, r.created = some c ∧ c < r.date := by
      intro r o ho hm
      obtain ⟨y, hy, b, hb, hi⟩ := windows_order hcalls hm ⟨r, ho, rfl⟩
      have hi' : r.date = b.env.date ∧ r.created.elim False (· < b.env.date) ∧
          b.env.hasBarOn r.symbol = true := by
        rcases ho with rfl | rfl
        · exact ⟨hi.1, hi.2.1, hi.2.2.1⟩
        · exact ⟨hi.1, hi.2.1, hi.2.2.1⟩
      obtain ⟨h1, h2, h3⟩ := hi'
      rw [h1]
      refine ⟨((hr.bar y hy b hb).bars _).1 h3, ?_⟩
      rcases hc : r.created with _ | c
      · rw [hc] at h2; exact h2.elim
      · rw [hc] at h2; exact ⟨c, rfl, h2⟩
    intro r hor
    rcases hor with hm | hm
    · exact key r _ (Or.inl rfl) hm
    · exact key r _ (Or.inr rfl) hm

theorem Spec.ResultsOK.left {a b : List ExecResult} (h : ResultsOK (a ++ b)) : ResultsOK a :=
  ⟨fun r hr => h.fit r (List.mem_append_left _ hr), fun r hr => h.one r (List.mem_append_left _ hr),
    List.Sublist.nodup (by
      rw [List.flatMap_append, List.map_append]
      exact List.sublist_append_left _ _) h.fresh⟩

theorem Spec.ResultsOK.right {a b : List ExecResult} (h : ResultsOK (a ++ b)) : ResultsOK b :=
  ⟨fun r hr => h.fit r (List.mem_append_right _ hr), fun r hr => h.one r (List.mem_append_right _ hr),
    List.Sublist.nodup (by
      rw [List.flatMap_append, List.map_append]
      exact List.sublist_append_right _ _) h.fresh⟩

theorem chain_calls {cfg : Config} {l : List (RunSetup × RunSetup.State)} {pf : Portfolio}
    (h : RunsOn cfg l pf) (hok : ∀ y ∈ l, SetupOK y.1)
    (hres : ResultsOK (l.flatMap (fun y => y.2.results))) :
    ∃ ops, run cfg ops = .ok pf ∧ (∀ o ∈ ops, o.Fit) ∧ FreshIds ops ∧
      (cfg.fractional = false → ∀ o ∈ ops, o.Whole) ∧
      ∀ i ∈ (ops.flatMap stopsOf).map Stop.id,
        i ∈ ((l.flatMap (fun y => y.2.results)).flatMap (fun r => r.longStops ++ r.shortStops)).map
          Stop.id := by
  induction h with
  | new => exact ⟨[], rfl, fun _ h => (nomatch h), List.nodup_nil, fun _ _ h => (nomatch h),
      fun _ h => (nomatch h)⟩
  | @next l pf x st _ hcfg hrun ih =>
    subst hcfg
    rw [List.flatMap_append, List.flatMap_singleton] at hres
    obtain ⟨ops, h1, h2, h3, h4, h5⟩ := ih (fun y hy => hok y (List.mem_append_left _ hy)) hres.left
    have hids : (((ops.flatMap stopsOf) ++
        st.results.flatMap (fun r => r.longStops ++ r.shortStops)).map Stop.id).Nodup := by
      have hf := hres.fresh
      rw [List.flatMap_append, List.map_append] at hf
      rw [List.map_append]
      refine List.nodup_append.2 ⟨h3, (List.nodup_append.1 hf).2.1, ?_⟩
      intro a ha b hb
      exact (List.nodup_append.1 hf).2.2 a (h5 a ha) b hb
    obtain ⟨more, wins, _, g1, g2, g3, g4, g5, _, _⟩ :=
      given_history (hok (x, st) (by simp)) hrun h1 h2 h4 hres.right hids
    refine ⟨ops ++ more, g1, g2, g4, g5, ?_⟩
    intro i hi
    rw [List.flatMap_append, List.map_append] at hi
    rw [List.flatMap_append, List.flatMap_append, List.map_append, List.flatMap_singleton]
    rcases List.mem_append.1 hi with hi | hi
    · exact List.mem_append_left _ (h5 i hi)
    · exact List.mem_append_right _ (g3 i hi)

/-- **C159.**  The portfolio of any chain of runs is the result of calls that the portfolio theorems
cover. -/
theorem chain_history {cfg : Config} {l : List (RunSetup × RunSetup.State)} {pf : Portfolio}
    (h : RunsOn cfg l pf) (hok : ∀ y ∈ l, SetupOK y.1)
    (hres : ResultsOK (l.flatMap (fun y => y.2.results))) :
    ∃ ops, run cfg ops = .ok pf ∧ (∀ o ∈ ops, o.Fit) ∧ FreshIds ops ∧
      (cfg.fractional = false → ∀ o ∈ ops, o.Whole) := by
  obtain ⟨ops, h1, h2, h3, h4, _⟩ := chain_calls h hok hres
  exact ⟨ops, h1, h2, h3, h4⟩

/-- **C159.**  A run keeps what the runs before it recorded and adds to it: the orders, trades and
portfolio bars of the earlier runs come first and are unchanged, and the run adds one portfolio bar
for each bar of its test data, in order. -/
theorem chain_records {cfg : Config} {l : List (RunSetup × RunSetup.State)} {pf : Portfolio}
    {x : RunSetup} {st : RunSetup.State} (h : RunsOn cfg l pf) (hcfg : x.cfg = cfg)
    (hrun : x.runGiven false (some pf) = .ok st) (hok : ∀ y ∈ l ++ [(x, st)], SetupOK y.1)
    (hres : ResultsOK ((l ++ [(x, st)]).flatMap (fun y => y.2.results))) :
    pf.orders <+: st.loop.pf.orders ∧ pf.trades <+: st.loop.pf.trades ∧
      pf.metrics <+: st.loop.pf.metrics ∧
      ∃ wins, walkforwardSplit x.dates x.windows x.lookahead x.trainSize x.shuffle = .ok wins ∧
        st.loop.pf.metrics.map PortfolioBar.date =
          pf.metrics.map PortfolioBar.date ++ runDates x wins := by
  subst hcfg
  rw [List.flatMap_append, List.flatMap_singleton] at hres
  obtain ⟨ops, h1, h2, h3, h4, h5⟩ := chain_calls h (fun y hy => hok y (List.mem_append_left _ hy)) hres.left
  have hids : (((ops.flatMap stopsOf) ++
      st.results.flatMap (fun r => r.longStops ++ r.shortStops)).map Stop.id).Nodup := by
    have hf := hres.fresh
    rw [List.flatMap_append, List.map_append] at hf
    rw [List.map_append]
    refine List.nodup_append.2 ⟨h3, (List.nodup_append.1 hf).2.1, ?_⟩
    intro a ha b hb
    exact (List.nodup_append.1 hf).2.2 a (h5 a ha) b hb
  obtain ⟨more, wins, hw, g1, g2, _, _, _, g6, _⟩ :=
    given_history (hok (x, st) (by simp)) hrun h1 h2 h4 hres.right hids
  obtain ⟨r1, r2, r3, r4⟩ := run_grows g2 h1 g1
  exact ⟨r1, r2, r3, wins, hw, by rw [r4, g6]⟩

theorem interestPaid_zero {cfg : Config} (h : cfg.interestRate = 0) :
    ∀ (ops : List Op) (s : Portfolio), interestPaid cfg s ops = 0 := by
  intro ops
  induction ops with
  | nil => intro s; rfl
  | cons op ops ih =>
    intro s
    have h1 : ∀ q, perBarInterest cfg q = 0 := by
      intro q
      unfold perBarInterest
      cases cfg.barsPerYear <;> simp [h]
    simp only [interestPaid, h1]
    cases step cfg s op <;> cases op <;> simp [ih]

/-- **C159.**  The books of a portfolio after any chain of runs: what is held is the net of all
orders, no symbol is long and short, the position limits hold, and without interest the cash is the
initial cash with all profit realised and all fees charged since the first run. -/
theorem chain_books {cfg : Config} {l : List (RunSetup × RunSetup.State)} {pf : Portfolio}
    (h : RunsOn cfg l pf) (hok : ∀ y ∈ l, SetupOK y.1)
    (hres : ResultsOK (l.flatMap (fun y => y.2.results))) :
    (∀ sym, held pf.longs sym - held pf.shorts sym = netOrdered pf sym) ∧
      (∀ p ∈ pf.longs, ∀ q ∈ pf.shorts, p.symbol ≠ q.symbol) ∧
      (∀ m, cfg.maxLong = some m → pf.longs.length ≤ m) ∧
      (∀ m, cfg.maxShort = some m → pf.shorts.length ≤ m) ∧
      (cfg.interestRate = 0 →
        pf.cash + openCost pf / lev cfg - pf.accrued = cfg.cash + realised pf - feesCharged pf) := by
  obtain ⟨ops, h1, h2, _, _⟩ := chain_history h hok hres
  refine ⟨holdings_net_of_orders h2 h1, never_long_and_short h2 h1, (position_caps h2 h1).1,
    (position_caps h2 h1).2, fun hi => ?_⟩
  have := cash_ledger h2 h1
  rw [interestPaid_zero hi, add_zero] at this
  exact this

/-! ## C160: runs that only train -/

theorem trainOnly_iff {r : Rules} : r.trainOnly = true ↔ NoRules r := by
  unfold Rules.trainOnly
  simp only [Bool.and_eq_true, Bool.not_eq_true', Option.isNone_iff_eq_none, List.all_eq_true]
  constructor
  · rintro ⟨⟨⟨⟨h1, h2⟩, h3⟩, h4⟩, h5⟩
    exact ⟨h1, h2, h3, h4, h5⟩
  · rintro ⟨h1, h2, h3, h4, h5⟩
    exact ⟨⟨⟨⟨h1, h2⟩, h3⟩, h4⟩, h5⟩

/-- A window closes nothing if what is held is selected and nothing is pending. -/
theorem startWindow_selected {x : RunSetup} (hiter : ∀ l, (x.iter l).Perm l) {pf : Portfolio}
    {k : Nat} {win : WFWindow} {selected : List Sym} {store : Store}
    (hs : ∀ p ∈ pf.longs ++ pf.shorts, p.symbol ∈ selected) :
    x.droppable pf (x.boundary k selected win) (storeOf x.cols (x.rowsAt win.test))
        (storeOf x.cols x.rows) = true ∧
      startWindow x.cfg { pf := pf } (x.window k selected win store) = .ok { pf := pf } := by
  have h0 : droppedSyms pf selected = [] := by
    unfold droppedSyms
    rw [List.filter_eq_nil_iff]
    intro s hsym
    rw [List.mem_dedup, ← List.map_append] at hsym
    obtain ⟨p, hp, rfl⟩ := List.mem_map.1 hsym
    simpa using hs p hp
  have hnil : x.iter [] = [] := List.perm_nil.1 (hiter [])
  constructor
  · unfold RunSetup.droppable
    show (droppedSyms pf selected).all _ = true
    rw [h0]
    rfl
  · unfold startWindow RunSetup.window
    show liquidateDropped x.cfg { pf := pf } (x.boundary k selected win) = _
    unfold liquidateDropped
    have e1 : droppedSyms pf (x.boundary k selected win).selected = [] := h0
    have e2 : (x.boundary k selected win).iter [] = [] := hnil
    simp only [e1, e2]
    have e3 : (x.boundary k selected win).iter
        ([].filter (fun s => !((dropExits (testExitBar (x.boundary k selected win)) []).map
          Prod.fst).contains s)) = [] := hnil
    simp only [e3]
    rfl

theorem trains_from {x : RunSetup} (hiter : ∀ l, (x.iter l).Perm l) {pf : Portfolio} :
    ∀ {kws : List (WFWindow × Nat)},
    (∀ kw ∈ kws, ∀ es, windowExecutions (fun d : List DRow => (d.map DRow.symbol).dedup)
      List.isEmpty x.execs (x.rowsAt kw.1.train) = .ok es →
      ∀ p ∈ pf.longs ++ pf.shorts, p.symbol ∈ selectedSymbols es) →
    RunSetup.each x.trainOne { loop := { pf := pf } } kws = .ok { loop := { pf := pf } } ∨
      ∃ kw ∈ kws, ∃ e, windowExecutions (fun d : List DRow => (d.map DRow.symbol).dedup)
        List.isEmpty x.execs (x.rowsAt kw.1.train) = .error e ∧
        RunSetup.each x.trainOne { loop := { pf := pf } } kws = .error (.select e) := by
  intro kws
  induction kws with
  | nil => intro _; exact Or.inl rfl
  | cons kw kws ih =>
    intro hs
    cases hes : windowExecutions (fun d : List DRow => (d.map DRow.symbol).dedup) List.isEmpty
        x.execs (x.rowsAt kw.1.train) with
    | error e =>
      right
      refine ⟨kw, List.mem_cons_self, e, hes, ?_⟩
      unfold RunSetup.each RunSetup.trainOne
      simp only [hes]
    | ok es =>
      obtain ⟨h1, h2⟩ := startWindow_selected (x := x) hiter (k := kw.2) (win := kw.1)
        (store := (storeOf x.cols x.rows).slice (datesOfRows x.dates kw.1.test))
        (hs kw List.mem_cons_self es hes)
      have hone : x.trainOne { loop := { pf := pf } } kw = .ok { loop := { pf := pf } } := by
        unfold RunSetup.trainOne
        simp only [hes, h1, h2, if_true]
      have hstep : RunSetup.each x.trainOne { loop := { pf := pf } } (kw :: kws) =
          RunSetup.each x.trainOne { loop := { pf := pf } } kws := by
        rw [RunSetup.each]
        simp only [hone]
      rw [hstep]
      rcases ih (fun kw' h => hs kw' (List.mem_cons_of_mem _ h)) with h | ⟨kw', hm, e, he, h⟩
      · exact Or.inl h
      · exact Or.inr ⟨kw', List.mem_cons_of_mem _ hm, e, he, h⟩

/-- **C160.**  A strategy without trading rules only trains: on a new portfolio, or one that holds
symbols of every window only, the run calls nothing, places no order and leaves the portfolio as it
is, and its result has empty tables.  It raises only what the split of the data or a symbol selector
raises.  Missing: a portfolio that holds other symbols, see `train_only_sells`. -/
theorem train_only_partial {x : RunSetup} (hiter : ∀ l, (x.iter l).Perm l) {r : Rules}
    (hr : NoRules r) (F : Fns ℚ) (rd : Bool) {pf : Portfolio} {given : Option Portfolio}
    (hg : given = some pf ∨ given = none ∧ pf = Portfolio.init x.cfg)
    (hs : ∀ k win selected, Trades x k win selected →
      ∀ p ∈ pf.longs ++ pf.shorts, p.symbol ∈ selected) :
    (∃ st res, x.runRules F rd r given = .ok (st, res) ∧ st.loop.pf = pf ∧ st.turns = [] ∧
        st.results = [] ∧ st.loop.attempts = [] ∧ res.orders = [] ∧ res.trades = [] ∧
        res.portfolio = [] ∧ res.positions = [] ∧ res.metrics = none) ∨
      (∃ e, x.runRules F rd r given = .error (.split e)) ∨
      ∃ e, x.runRules F rd r given = .error (.select e) := by
  have hpf : given.getD (Portfolio.init x.cfg) = pf := by
    rcases hg with rfl | ⟨rfl, rfl⟩ <;> rfl
  unfold RunSetup.runRules RunSetup.runGiven
  rw [trainOnly_iff.2 hr, hpf]
  cases hw : walkforwardSplit x.dates x.windows x.lookahead x.trainSize x.shuffle with
  | error e => exact Or.inr (Or.inl ⟨e, rfl⟩)
  | ok wins =>
    simp only [if_true]
    rcases trains_from (x := x) hiter (pf := pf) (kws := wins.zipIdx) (fun kw hkw es hes =>
      hs kw.2 kw.1 _ ⟨wins, es, hw, RunSetup.mem_zip hkw, hes, rfl⟩) with h | ⟨kw, _, e, _, h⟩
    · left
      rw [h]
      exact ⟨_, _, rfl, rfl, rfl, rfl, rfl, rfl, rfl, rfl, rfl, rfl⟩
    · right; right
      rw [h]
      exact ⟨e, rfl⟩

/-- **C160.**  With any trading rule the run is the one of the other theorems. -/
theorem rules_run {x : RunSetup} {r : Rules} (hr : ¬ NoRules r) (F : Fns ℚ) (rd : Bool) :
    x.runRules F rd r none = match x.run with
      | .error e => .error e
      | .ok st => .ok (st, toTestResult F rd x.cfg.fractional false st.loop.pf []) := by
  have h : r.trainOnly = false := by
    rw [← Bool.not_eq_true, trainOnly_iff]
    exact hr
  unfold RunSetup.runRules
  rw [h, RunSetup.run_given_none.1]
  cases x.run <;> rfl

/-! ## Concrete runs -/

namespace Demo

/-- Buys `AAA` on date 1 and keeps it. -/
def gvFirst : RunSetup := { drRun with exitOnLast := false, windows := 1 }

/-- Then sells `BBB` short. -/
def gvThen : RunSetup :=
  { gvFirst with
    act := fun _ d _ _ _ => ([], fun s =>
      if s = "BBB" ∧ d = 2 then some { symbol := s, date := d, sellShares := some 5 } else none) }

def gvEnd1 : RunSetup.State := drEnd gvFirst

def gvEnd2 : RunSetup.State :=
  okR { loop := { pf := Portfolio.init gvThen.cfg } } (gvThen.runGiven false (some gvEnd1.loop.pf))

theorem gvFirst_ok : SetupOK gvFirst where
  unique := by show UniqueBars drRows; unfold UniqueBars drRows; decide +kernel
  buyDelay := le_refl 1
  sellDelay := le_refl 1
  size := by norm_num [gvFirst, drRun]
  iter := fun l => List.Perm.refl l
  shuffle := fun l => List.Perm.refl l

theorem gvThen_ok : SetupOK gvThen where
  unique := by show UniqueBars drRows; unfold UniqueBars drRows; decide +kernel
  buyDelay := le_refl 1
  sellDelay := le_refl 1
  size := by norm_num [gvThen, gvFirst, drRun]
  iter := fun l => List.Perm.refl l
  shuffle := fun l => List.Perm.refl l

theorem gvFirst_run : gvFirst.runGiven false (some (Portfolio.init gvFirst.cfg)) = .ok gvEnd1 :=
  ok_okR (by decide +kernel)

theorem gvThen_run : gvThen.runGiven false (some gvEnd1.loop.pf) = .ok gvEnd2 :=
  ok_okR (by decide +kernel)

theorem gvChain1 : RunsOn gvFirst.cfg [(gvFirst, gvEnd1)] gvEnd1.loop.pf := .next .new rfl gvFirst_run

theorem gvResults : ResultsOK (gvEnd1.results ++ gvEnd2.results) := by
  have h : (∀ r ∈ gvEnd1.results ++ gvEnd2.results,
      (∀ st ∈ r.longStops, st.posType = .long ∧ st.symbol = r.symbol) ∧
      ∀ st ∈ r.shortStops, st.posType = .short ∧ st.symbol = r.symbol) ∧
      (∀ r ∈ gvEnd1.results ++ gvEnd2.results, r.buyShares = none ∨ r.sellShares = none) ∧
      (((gvEnd1.results ++ gvEnd2.results).flatMap (fun r => r.longStops ++ r.shortStops)).map
        Stop.id).Nodup := by
    decide +kernel
  exact ⟨h.1, h.2.1, h.2.2⟩

theorem gvCfg : gvThen.cfg = gvFirst.cfg := rfl

theorem gvAll : ∀ y ∈ [(gvFirst, gvEnd1)] ++ [(gvThen, gvEnd2)], SetupOK y.1 := by
  intro y hy
  rcases List.mem_append.1 hy with hy | hy
  · rw [List.mem_singleton.1 hy]; exact gvFirst_ok
  · rw [List.mem_singleton.1 hy]; exact gvThen_ok

theorem gvAllResults : ResultsOK (([(gvFirst, gvEnd1)] ++ [(gvThen, gvEnd2)]).flatMap
    (fun y => y.2.results)) := by
  rw [List.flatMap_append, List.flatMap_singleton, List.flatMap_singleton]
  exact gvResults

/-- A strategy that only trains, on `BBB`. -/
def gvTrain : RunSetup := { gvFirst with execs := [⟨1, .fixed ["BBB"]⟩] }

def gvEnd3 : RunSetup.State :=
  okR { loop := { pf := Portfolio.init gvTrain.cfg } } (gvTrain.runGiven true (some gvEnd1.loop.pf))

theorem gvTrain_run : gvTrain.runGiven true (some gvEnd1.loop.pf) = .ok gvEnd3 :=
  ok_okR (by decide +kernel)

theorem gvTrain_ok : SetupOK gvTrain where
  unique := by show UniqueBars drRows; unfold UniqueBars drRows; decide +kernel
  buyDelay := le_refl 1
  sellDelay := le_refl 1
  size := by norm_num [gvTrain, gvFirst, drRun]
  iter := fun l => List.Perm.refl l
  shuffle := fun l => List.Perm.refl l

theorem gvRuleless : NoRules { fns := [false] } := ⟨rfl, rfl, rfl, rfl, by simp⟩

theorem gvTrain_cfg : gvFirst.cfg = gvTrain.cfg := rfl

theorem gvTrain_sold : gvEnd1.loop.pf.longs.map (fun p => (p.symbol, p.shares)) = [("AAA", 10)] ∧
    gvEnd3.loop.pf.longs = [] ∧
    gvEnd3.loop.pf.orders.length = gvEnd1.loop.pf.orders.length + 1 := by decide +kernel

end Demo

/-- The second run adds its order to that of the first. -/
example : Demo.gvEnd1.loop.pf.orders.map (fun o => (o.id, o.date, o.symbol, o.shares)) =
      [(1, 2, "AAA", 10)] ∧
    Demo.gvEnd2.loop.pf.orders.map (fun o => (o.id, o.date, o.symbol, o.shares)) =
      [(1, 2, "AAA", 10), (2, 3, "BBB", 5)] := by decide +kernel

example := chain_records Demo.gvChain1 Demo.gvCfg Demo.gvThen_run Demo.gvAll Demo.gvAllResults

example := chain_books (Demo.gvChain1.next Demo.gvCfg Demo.gvThen_run) Demo.gvAll Demo.gvAllResults

/-- A new portfolio. -/
example (F : Fns ℚ) := train_only_partial (x := Demo.gvTrain) (fun l => List.Perm.refl l)
  Demo.gvRuleless F true (Or.inr ⟨rfl, rfl⟩)
  (fun _ _ _ _ _ hp => by cases hp)

/-- The portfolio of the first run, with a position in `AAA`, for a strategy on both symbols. -/
example (F : Fns ℚ) := train_only_partial (x := Demo.gvThen) (fun l => List.Perm.refl l)
  Demo.gvRuleless F true (Or.inl rfl : some Demo.gvEnd1.loop.pf = some Demo.gvEnd1.loop.pf ∨ _)
  (fun k win selected h p hp => by
    obtain ⟨wins, es, _, _, hes, rfl⟩ := h
    have h0 : windowExecutions (fun d : List DRow => (d.map DRow.symbol).dedup) List.isEmpty
        Demo.gvThen.execs (Demo.gvThen.rowsAt win.train) = .ok Demo.gvThen.execs := by
      generalize Demo.gvThen.rowsAt win.train = rows
      cases rows <;> rfl
    rw [h0] at hes
    have h1 : es = Demo.gvThen.execs := (Except.ok.inj hes).symm
    subst h1
    have h2 : ∀ p ∈ Demo.gvEnd1.loop.pf.longs ++ Demo.gvEnd1.loop.pf.shorts,
        p.symbol ∈ selectedSymbols Demo.gvThen.execs := by decide +kernel
    exact h2 p hp)

example : ¬ NoRules { fns := [false, true] } := fun h => by
  have := h.fns true (by simp)
  cases this

/-- **C160.**  The full claim is false: a run of a strategy without trading rules closes the
positions of the portfolio it is given in symbols the strategy does not have, and its result does
not show it. -/
theorem train_only_sells (F : Fns ℚ) : ∃ (x : RunSetup) (r : Rules) (pf : Portfolio)
    (st : RunSetup.State) (res : TestResult), SetupOK x ∧ NoRules r ∧
      RunsOn x.cfg [(Demo.gvFirst, Demo.gvEnd1)] pf ∧ x.runRules F true r (some pf) = .ok (st, res) ∧
      pf.longs.map (fun p => (p.symbol, p.shares)) = [("AAA", 10)] ∧ st.loop.pf.longs = [] ∧
      st.loop.pf.orders.length = pf.orders.length + 1 ∧ res.orders = [] := by
  refine ⟨Demo.gvTrain, { fns := [false] }, Demo.gvEnd1.loop.pf, Demo.gvEnd3,
    toTestResult F true Demo.gvTrain.cfg.fractional true Demo.gvEnd3.loop.pf [], Demo.gvTrain_ok,
    Demo.gvRuleless, ?_, ?_, Demo.gvTrain_sold.1, Demo.gvTrain_sold.2.1, Demo.gvTrain_sold.2.2, rfl⟩
  · rw [← Demo.gvTrain_cfg]
    exact Demo.gvChain1
  · unfold RunSetup.runRules
    rw [trainOnly_iff.2 Demo.gvRuleless, Demo.gvTrain_run]

end PyBroker
