import Verif.Portfolio.Explained
import Verif.Props.Drive
import Verif.Props.Entry

/-!
# C116: trades are explained by orders, orders by bars

Each trade in the log has the order that opened it and, later in the log, the order that closed it,
with its prices, dates and side; each order of a run is on a bar of its symbol.
-/

namespace PyBroker

namespace Spec

/-- The data have a bar of the symbol on the date. -/
def OnBar (x : RunSetup) (sym : Sym) (d : Date) : Prop :=
  ∃ r ∈ x.rows, r.symbol = sym ∧ r.date = d

/-- The symbol is traded at some time, but some window does not trade it. -/
def Unselected (x : RunSetup) (sym : Sym) : Prop :=
  (∃ d, InPlay x sym d) ∧ ∃ k win selected, Trades x k win selected ∧ sym ∉ selected

end Spec

open PyBroker.Spec

/-- **C116.**  After every history of calls, each trade has an opening order and a later closing
order in the log, and each entry still open has its opening order. -/
theorem trades_explained {cfg : Config} {ops : List Op} {s : Portfolio} (hfit : ∀ op ∈ ops, op.Fit)
    (h : run cfg ops = .ok s) :
    (∀ t ∈ s.trades, Spec.Explained s.orders t) ∧
    ∀ pt, ∀ p ∈ s.book pt, ∀ e ∈ p.entries, ∃ o ∈ s.orders, o.side = openingSide pt ∧
      o.symbol = p.symbol ∧ o.date = e.date ∧ o.fillPrice = e.price ∧ e.shares ≤ o.shares := by
  have ht := run_told (P := fun _ _ => True) hfit (fun op _ => by cases op <;> simp [Op.On]) h
  exact ⟨ht.trades, ht.entries⟩

theorem mem_dropBars {x : RunSetup} {rows : List DRow} {sym : Sym} {b : DropBar}
    (h : b ∈ x.dropBars (storeOf x.cols rows) sym) : ∃ r ∈ rows, r.symbol = sym ∧ r.date = b.date := by
  unfold RunSetup.dropBars at h
  have hd := RunSetup.storeOf_dates x.cols rows sym
  split at h
  · cases h
  · rename_i a ha
    rw [ha] at hd
    simp only [Option.map_some, Option.getD_some] at hd
    obtain ⟨⟨d, i⟩, hdi, rfl⟩ := List.mem_map.1 h
    have hm : d ∈ a.dates := by
      have := List.mem_zipIdx_iff_getElem?.1 hdi
      exact List.mem_of_getElem? this
    rw [hd] at hm
    obtain ⟨r, hr, rfl⟩ := List.mem_map.1 hm
    obtain ⟨h1, h2⟩ := List.mem_filter.1 ((symRows_perm rows sym).mem_iff.1 hr)
    exact ⟨r, h1, by simpa using h2, rfl⟩

theorem inPlay_onBar {x : RunSetup} {sym : Sym} {d : Date} (h : InPlay x sym d) : OnBar x sym d := by
  obtain ⟨_, _, _, _, _, _, _, r, hr, h1, h2⟩ := h
  exact ⟨r, List.mem_of_getElem? hr, h1, h2⟩

/-- The calls of a run are for symbols on their bars. -/
theorem calls_on {A : PendingOrder → Prop} {cfg : Config} {x : RunSetup} (hok : SetupOK x) {wins : List WFWindow}
    {ws : List (Window × List BarIn)}
    (hw : walkforwardSplit x.dates x.windows x.lookahead x.trainSize x.shuffle = .ok wins)
    (hf : List.Forall₂ (RunSetup.MadeWindow x) wins.zipIdx ws)
    {hist : List (List Op × List (List Op))} 
    (hcalls : List.Forall₂ (WindowCalls A cfg) ws hist) :
    ∀ op ∈ allCalls hist,
      op.On (fun sym d => OnBar x sym d ∧ (InPlay x sym d ∨ Unselected x sym)) := by
  have hr := RunSetup.run_ok hok hw (List.Sublist.refl _) hf
  intro op hop
  unfold allCalls at hop
  obtain ⟨y, hy, hop⟩ := List.mem_flatMap.1 hop
  obtain ⟨wb, hwb, hwc⟩ := RunSetup.forall₂_mem hcalls hy
  obtain ⟨kw, hkw, ⟨es, hes, hwin, hbars⟩⟩ := RunSetup.forall₂_mem hf hwb
  have hk := RunSetup.mem_zip hkw
  rcases List.mem_append.1 hop with hop | hop
  · obtain ⟨b, hb, sym, bar, rfl, hns, hbar⟩ := hwc.1 op hop
    rw [hwin] at hb
    have hb := Option.some.inj hb
    subst hb
    rintro ⟨d', _, hd'⟩
    have hplay : ∃ d, InPlay x sym d := by
      rcases hd' with hd' | hd'
      · exact ⟨d', hd'⟩
      · exact hd'.1
    refine ⟨?_, Or.inr ⟨hplay, kw.2, kw.1, _, ⟨wins, es, hw, hk, hes, rfl⟩, hns⟩⟩
    rcases hbar with hbar | hbar
    · obtain ⟨r, hr, h1, h2⟩ := mem_dropBars hbar
      obtain ⟨i, _, hi⟩ := RunSetup.mem_rowsAt.1 hr
      exact ⟨r, List.mem_of_getElem? hi, h1, h2⟩
    · exact mem_dropBars hbar
  · obtain ⟨calls, hcm, hop⟩ := List.mem_flatten.1 hop
    obtain ⟨b, hb, orders, cancels, rfl, ho, hcan⟩ := RunSetup.forall₂_mem hwc.2 hcm
    obtain ⟨d, hd, hmade⟩ := RunSetup.forall₂_mem hbars hb
    have play : ∀ sym, b.env.hasBarOn sym = true →
        OnBar x sym b.env.date ∧ (InPlay x sym b.env.date ∨ Unselected x sym) := by
      intro sym hs
      have hp := ((hr.bar wb hwb b hb).bars sym).1 hs
      exact ⟨inPlay_onBar hp, Or.inl hp⟩
    simp only [List.mem_cons, List.mem_append, List.mem_map] at hop
    rcases hop with rfl | hop | rfl | hop | ⟨e, he, rfl⟩ | hop
    · intro sym hs
      apply play
      rw [hmade.env] at hs ⊢
      unfold RunSetup.barEnv at hs ⊢
      simp only [Bool.and_eq_true] at hs ⊢
      exact hs.1
    · have hio := ho op hop
      cases op with
      | buy r =>
        show OnBar x r.symbol r.date ∧ _
        rw [hio.1]
        exact play _ hio.2.2.1
      | sell r =>
        show OnBar x r.symbol r.date ∧ _
        rw [hio.1]
        exact play _ hio.2.2.1
      | _ => exact hio.elim
    · trivial
    · have hic := hcan op hop
      cases op with
      | removeStop id => trivial
      | removeStopsSym sym t => trivial
      | removeStopsEntry id t => trivial
      | _ => exact hic.elim
    · have hes' : e.symbol ∈ b.exits.map ForcedExit.symbol := List.mem_map_of_mem he
      rw [hmade.exits] at hes'
      have hready := (List.mem_filter.1 hes').1
      have hact := (List.mem_filter.1 hready).1
      have hin := (RunSetup.mem_active hok.unique (RunSetup.mem_window_calendar hd)).1 hact
      have hdt := (RunSetup.mem_calendar' hok.unique).1 hd
      have hp : InPlay x e.symbol d := (RunSetup.inPlay_iff hok hw hk hes hdt).2 hin
      intro _
      rw [hmade.date]
      exact ⟨inPlay_onBar hp, Or.inl hp⟩
    · rcases hop with rfl | hop
      · trivial
      · cases hop

/-- **C116.**  In a run, each trade has its opening and closing order in the log, each order is on a
bar of its symbol, and this is a bar of a window that trades the symbol, unless the symbol is also
dropped. -/
theorem run_explained {x : RunSetup} (hok : SetupOK x) {st : RunSetup.State} (h : x.run = .ok st)
    (hres : ResultsOK st.results) :
    (∀ t ∈ st.loop.pf.trades, Spec.Explained st.loop.pf.orders t) ∧
    ∀ o ∈ st.loop.pf.orders, OnBar x o.symbol o.date ∧
      (InPlay x o.symbol o.date ∨ Unselected x o.symbol) := by
  obtain ⟨wins, ws, hw, hf, hrun, _, hresults⟩ := RunSetup.run_made h
  have hr := RunSetup.run_ok hok hw (List.Sublist.refl _) hf
  rw [hresults] at hres
  obtain ⟨hfit, hfresh⟩ := results_signals hres
  obtain ⟨hist, hcalls, hrun', hfit', _, _⟩ := backtest_history hr hfit hfresh hrun
  have ht := run_told hfit' (calls_on hok hw hf hcalls) hrun'
  exact ⟨ht.trades, ht.orders⟩

/-- **C116.**  When no symbols are selected by functions, every order is on a bar of a window that
trades its symbol. -/
theorem fixed_symbols_in_play {x : RunSetup} (hok : SetupOK x) {st : RunSetup.State}
    (h : x.run = .ok st) (hres : ResultsOK st.results)
    (hfix : ∀ e ∈ x.execs, ∃ l, e.symbols = .fixed l) :
    ∀ o ∈ st.loop.pf.orders, InPlay x o.symbol o.date := by
  have hsel : x.execs.any (fun e => e.symbols.isSelector) = false := by
    rw [List.any_eq_false]
    intro e he
    obtain ⟨l, hl⟩ := hfix e he
    rw [hl]
    exact Bool.false_ne_true
  have same : ∀ {k win selected}, Trades x k win selected → selected = selectedSymbols x.execs := by
    rintro k win selected ⟨wins, es, _, _, hes, rfl⟩
    unfold windowExecutions selectionDf at hes
    rw [hsel] at hes
    split at hes
    · cases hes
    · simp only [Bool.false_eq_true, if_false] at hes
      cases hes
      rfl
  intro o ho
  rcases ((run_explained hok h hres).2 o ho).2 with hp | ⟨⟨d, k, win, sel, ht, hs, _⟩, k', win', sel', ht', hs'⟩
  · exact hp
  · rw [same ht] at hs
    rw [same ht'] at hs'
    exact absurd hs hs'

open Classical in
/-- **C116.**  The same for a call: each order is on a bar of its symbol that the data source has
and the call asks for. -/
theorem call_explained {s : StrategyObj} (hb : Built s) (hsrc : Answers s.source) {u : UserCode}
    {c : RunCall} (hord : OrdersOf u c) (hsize : c.trainSize ≤ 1) {st : RunSetup.State}
    (h : s.walkforward u c = .ok st) (hres : ResultsOK st.results) :
    (∀ t ∈ st.loop.pf.trades, Spec.Explained st.loop.pf.orders t) ∧
    ∀ o ∈ st.loop.pf.orders, ∃ r ∈ sourceRows s.source (StrategySymbols s) s.start s.stop,
      CallRow s c r ∧ r.symbol = o.symbol ∧ r.date = o.date := by
  obtain ⟨set, x, _, _, hrows, hok, hx⟩ := call_runs hb hsrc hord hsize h
  obtain ⟨h1, h2⟩ := run_explained hok hx hres
  refine ⟨h1, fun o ho => ?_⟩
  obtain ⟨⟨r, hr, e1, e2⟩, _⟩ := h2 o ho
  rw [hrows] at hr
  obtain ⟨hr, hc⟩ := List.mem_filter.1 hr
  exact ⟨r, hr, by simpa using hc, e1, e2⟩

/-! ## Non-vacuity -/

/-- Two buys, and a sale that closes both and goes short. -/
def Demo.xpOps : List Op :=
  [.buy { date := 1, symbol := "AAA", shares := 10, fill := 20 },
   .buy { date := 2, symbol := "AAA", shares := 5, fill := 22 },
   .sell { date := 3, symbol := "AAA", shares := 18, fill := 25 }]

example : ∃ s, run { cash := 1000 } Demo.xpOps = .ok s ∧ (∀ op ∈ Demo.xpOps, op.Fit) ∧
    s.trades.map (fun t => (t.entryDate, t.exitDate, t.shares)) = [(1, 3, 10), (2, 3, 5)] := by
  have hk : (run { cash := 1000 } Demo.xpOps).map
      (fun s => s.trades.map (fun t => (t.entryDate, t.exitDate, t.shares))) =
      .ok [(1, 3, 10), (2, 3, 5)] := by decide +kernel
  rcases h : run { cash := 1000 } Demo.xpOps with e | s
  · rw [h] at hk; cases hk
  · rw [h] at hk
    refine ⟨s, rfl, ?_, Except.ok.inj hk⟩
    intro op hop
    simp only [Demo.xpOps, List.mem_cons, List.not_mem_nil, or_false] at hop
    rcases hop with rfl | rfl | rfl <;> intro st hst <;> cases hst

example := run_explained Demo.drRun_ok Demo.drRun_run Demo.drRun_results

example := fixed_symbols_in_play Demo.drRun_ok Demo.drRun_run Demo.drRun_results
  (by
    intro e he
    simp only [Demo.drRun, List.mem_singleton] at he
    subst he
    exact ⟨_, rfl⟩)

example := call_explained Demo.enStrategy_built trivial Demo.enOrders (by norm_num [Demo.enCall])
  Demo.enRun Demo.enResults

/-- The run has trades, with their orders. -/
example : (Demo.enEnd.loop.pf.trades.map (fun t => (t.symbol, t.entryDate, t.exitDate))) =
    [("BBB", 5, 5), ("AAA", 2, 6)] := by decide +kernel

end PyBroker
