import Verif.Context.Account
import Verif.Props.Backtest
import Verif.Props.Books
import Verif.Props.Logs
import Verif.Props.Capture
import Verif.Props.Leverage
import Verif.Backtest.Held
import Verif.Props.EvalTrades

/-!
# C140: what a function reads of its portfolio
-/

namespace PyBroker

open Spec

namespace Spec

/-- A position without the stops attached to it. -/
def bare (p : Position) : Position :=
  { p with entries := p.entries.map (fun e => { e with stops := [] }) }

/-- A row of the portfolio table shows the numbers of an account. -/
structure Shows (row : PortfolioBar) (a : Account) : Prop where
  cash : row.cash = a.cash
  equity : row.equity = a.totalEquity
  margin : row.margin = a.totalMargin
  marginLoan : row.marginLoan = a.marginLoan
  netCashBalance : row.netCashBalance = a.netCashBalance
  marketValue : row.marketValue = a.totalMarketValue

/-- The number of bars of the windows. -/
def barCount (ws : List (Window × List BarIn)) : Nat := (ws.map (fun x => x.2.length)).sum

/-- The fees of orders. -/
def feesOf (l : List Order) : ℚ := (l.map Order.fees).sum

end Spec

/-! ### Cancelling stops changes nothing that is read -/

/-- Only stops differ. -/
def Calm (s t : Portfolio) : Prop :=
  ∃ l sh sd ac, t = { s with longs := l, shorts := sh, stopData := sd, active := ac } ∧
    l.map bare = s.longs.map bare ∧ sh.map bare = s.shorts.map bare

theorem Calm.refl (s : Portfolio) : Calm s s :=
  ⟨s.longs, s.shorts, s.stopData, s.active, rfl, rfl, rfl⟩

theorem Calm.trans {s t u : Portfolio} (h : Calm s t) (h' : Calm t u) : Calm s u := by
  obtain ⟨l, sh, sd, ac, rfl, hl, hs⟩ := h
  obtain ⟨l', sh', sd', ac', rfl, hl', hs'⟩ := h'
  exact ⟨l', sh', sd', ac', rfl, hl'.trans hl, hs'.trans hs⟩

theorem modEntry_bare {id : Nat} {f : Entry → Entry}
    (hf : ∀ e, { f e with stops := [] } = { e with stops := [] }) (es : List Entry) :
    (modEntry id f es).map (fun e => { e with stops := [] }) =
      es.map (fun e => { e with stops := [] }) := by
  induction es with
  | nil => rfl
  | cons e es ih =>
    unfold modEntry
    split
    · rw [List.map_cons, List.map_cons, hf]
    · rw [List.map_cons, List.map_cons, ih]

theorem modEntryBook_bare {id : Nat} {f : Entry → Entry}
    (hf : ∀ e, { f e with stops := [] } = { e with stops := [] }) (ps : List Position) :
    (modEntryBook id f ps).map bare = ps.map bare := by
  unfold modEntryBook
  rw [List.map_map]
  refine List.map_congr_left fun p _ => ?_
  show ({ p with entries := (modEntry id f p.entries).map _ } : Position) = _
  rw [modEntry_bare hf]
  rfl

theorem dropStopEntries_bare (id : Nat) (es : List Entry) :
    (dropStopEntries id es).1.map (fun e => { e with stops := [] }) =
      es.map (fun e => { e with stops := [] }) := by
  induction es with
  | nil => rfl
  | cons e es ih =>
    unfold dropStopEntries
    split
    · rfl
    · rw [List.map_cons, ih, List.map_cons]

theorem dropStopBook_bare (id : Nat) (ps : List Position) :
    (dropStopBook id ps).1.map bare = ps.map bare := by
  induction ps with
  | nil => rfl
  | cons p ps ih =>
    unfold dropStopBook
    simp only
    split
    · rw [List.map_cons, List.map_cons]
      congr 1
      show ({ p with entries := (dropStopEntries id p.entries).1.map _ } : Position) = _
      rw [dropStopEntries_bare]
      rfl
    · rw [List.map_cons, List.map_cons, ih]

theorem removeStop_calm (s : Portfolio) (id : Nat) : Calm s (removeStop s id).2 := by
  unfold removeStop
  split
  · refine ⟨_, _, _, _, rfl, ?_, ?_⟩
    · apply modEntryBook_bare
      intro _
      rfl
    · apply modEntryBook_bare
      intro _
      rfl
  · simp only
    split
    · exact ⟨_, _, _, _, rfl, dropStopBook_bare _ _, rfl⟩
    · split
      · exact ⟨_, _, _, _, rfl, rfl, dropStopBook_bare _ _⟩
      · exact Calm.refl s

theorem removeStopData_calm (s : Portfolio) (l : List Stop) : Calm s (s.removeStopData l) := by
  obtain ⟨sd, ac, h⟩ := removeStopData_frame l s
  exact ⟨s.longs, s.shorts, sd, ac, h, rfl, rfl⟩

theorem removeEntryStops_calm (s : Portfolio) (e : Entry) (t : Option StopType) :
    Calm s (removeEntryStops s e t) := by
  unfold removeEntryStops
  split
  · refine (removeStopData_calm s e.stops).trans ?_
    refine ⟨_, _, _, _, rfl, ?_, ?_⟩
    · apply modEntryBook_bare
      intro _
      rfl
    · apply modEntryBook_bare
      intro _
      rfl
  · split
    · exact Calm.refl s
    · exact removeStop_calm s _

theorem removeStopsEntry_calm (s : Portfolio) (id : Nat) (t : Option StopType) :
    Calm s (removeStopsEntry s id t) := by
  unfold removeStopsEntry
  split
  · exact Calm.refl s
  · exact removeEntryStops_calm s _ t

theorem removePositionStops_calm (s : Portfolio) (p : Position) (t : Option StopType) :
    Calm s (removePositionStops s p t) := by
  unfold removePositionStops
  generalize p.entries = es
  induction es generalizing s with
  | nil => exact Calm.refl s
  | cons e es ih => exact (removeStopsEntry_calm s e.id t).trans (ih _)

theorem removeStopsSym_calm (s : Portfolio) (sym : Sym) (t : Option StopType) :
    Calm s (removeStopsSym s sym t) := by
  unfold removeStopsSym
  simp only
  have h1 : Calm s (match lookupPos s.longs sym with
    | none => s
    | some p => removePositionStops s p t) := by
    split
    · exact Calm.refl s
    · exact removePositionStops_calm s _ t
  split
  · exact h1
  · exact h1.trans (removePositionStops_calm _ _ t)

theorem userStep_calm (s : Loop) (u : UserOp) : Calm s.pf (userStep s u).pf := by
  cases u with
  | cancelPending id => exact Calm.refl _
  | cancelAllPending sym => exact Calm.refl _
  | cancelStop id => exact removeStop_calm _ _
  | cancelStopsSym sym t => exact removeStopsSym_calm _ _ _
  | cancelStopsEntry id t => exact removeStopsEntry_calm _ _ _

theorem userSteps_calm (us : List UserOp) : ∀ s : Loop, Calm s.pf (us.foldl userStep s).pf := by
  induction us with
  | nil => intro s; exact Calm.refl _
  | cons u us ih => intro s; exact (userStep_calm s u).trans (ih _)

theorem sumMarked_bare {l l' : List Position} (h : l.map bare = l'.map bare) :
    sumMarked l = sumMarked l' := by
  have key : ∀ l : List Position, sumMarked l = ((l.map bare).map Position.markedValue).sum := by
    intro l
    unfold sumMarked
    rw [List.map_map]
    rfl
  rw [key, key, h]

theorem account_calm {cfg : Config} {s t : Portfolio} (h : Calm s t) :
    t.account cfg = s.account cfg := by
  obtain ⟨l, sh, sd, ac, rfl, hl, hs⟩ := h
  have e1 := sumMarked_bare hl
  have e2 := sumMarked_bare hs
  have hb : (Portfolio.availableBuyingPower cfg
      { s with longs := l, shorts := sh, stopData := sd, active := ac }).1 =
      (s.availableBuyingPower cfg).1 := by
    rcases hc : s.cachedLongMv with _ | c <;> rcases hd : s.cachedShortMv with _ | d <;>
      by_cases hl : cfg.leverage ≤ 1 <;>
      simp [Portfolio.availableBuyingPower, Portfolio.liveMarketValue, Portfolio.longMarketValue,
        Portfolio.shortMarketValue, Portfolio.marginLoan, hc, hd, hl, e1, e2]
  unfold Portfolio.account
  rw [hb]
  rfl

/-! ### Histories only add to the logs -/

theorem Prim.metrics {cfg : Config} {Q : Guard} {s t : Portfolio} (hp : Prim cfg Q s t) :
    t.metrics = s.metrics := by
  have hstore : ∀ (s : Portfolio) (pt : PosType) (p : Position),
      (s.store pt p).metrics = s.metrics := by
    intro s pt p
    cases pt <;> rfl
  have hset : ∀ (s : Portfolio) (pt : PosType) (l : List Position),
      (s.setBook pt l).metrics = s.metrics := by
    intro s pt p
    cases pt <;> rfl
  cases hp with
  | exit => rw [hstore]; rfl
  | drop =>
    rename_i e _ _ _ _
    obtain ⟨sd, ac, h⟩ := removeStopData_frame e.stops s
    rw [hstore, h]
  | close => exact hset _ _ _
  | opened => rfl
  | order => rfl
  | caches => rfl
  | stopValue => rfl
  | incr => rfl
  | removeStop id hw =>
    obtain ⟨l, sh, sd, ac, h, _⟩ := removeStop_calm s id
    rw [h]
  | clearStops =>
    rename_i e _ _ _
    obtain ⟨l, sh, sd, ac, h, _⟩ := removeEntryStops_calm s e none
    rw [h]

/-- The date of a bar that is captured. -/
def capDate : Op → Option Date
  | .captureBar d _ => some d
  | _ => none

theorem run_grows {cfg : Config} : ∀ {more ops : List Op} {s s' : Portfolio},
    (∀ op ∈ ops ++ more, op.Fit) → run cfg ops = .ok s → run cfg (ops ++ more) = .ok s' →
    s.orders <+: s'.orders ∧ s.trades <+: s'.trades ∧ s.metrics <+: s'.metrics ∧
      s'.metrics.map PortfolioBar.date =
        s.metrics.map PortfolioBar.date ++ more.filterMap capDate := by
  intro more
  induction more with
  | nil =>
    intro ops s s' _ h h'
    rw [List.append_nil, h] at h'
    cases h'
    exact ⟨List.prefix_rfl, List.prefix_rfl, List.prefix_rfl, by simp⟩
  | cons op more ih =>
    intro ops s s' hfit h h'
    have e : ops ++ op :: more = (ops ++ [op]) ++ more := by simp
    rw [e] at h' hfit
    obtain ⟨s1, h1⟩ := run_split h'
    obtain ⟨s0, h0, hs⟩ := run_snoc h1
    rw [h] at h0
    cases h0
    obtain ⟨o, t, m, hd⟩ := ih hfit h1 h'
    have hfit1 : ∀ op ∈ ops, op.Fit := fun x hx => hfit x (by simp [hx])
    obtain ⟨hg, hf⟩ := run_good hfit1 h
    have key : s.orders <+: s1.orders ∧ s.trades <+: s1.trades ∧ s.metrics <+: s1.metrics ∧
        s1.metrics.map PortfolioBar.date =
          s.metrics.map PortfolioBar.date ++ (capDate op).toList := by
      rcases step_steps hg hf (hfit op (by simp)) (Op.fills_true op) hs with ⟨hne, hst⟩ | ⟨d, q, rfl, rfl⟩
      · have hm := hst.inv (P := fun t => t.metrics = s.metrics)
          (fun a b hp ha => hp.metrics.trans ha) rfl
        have hl := hst.inv (P := fun t => s.orders <+: t.orders ∧ s.trades <+: t.trades)
          (fun a b hp ha => ⟨ha.1.trans (log_prefix hp).1, ha.2.trans (log_prefix hp).2⟩)
          ⟨List.prefix_rfl, List.prefix_rfl⟩
        have hc : capDate op = none := by
          cases op with
          | captureBar d q => exact absurd rfl (hne d q)
          | _ => rfl
        rw [hm, hc]
        exact ⟨hl.1, hl.2, List.prefix_rfl, by simp⟩
      · rw [(log_capture cfg s d q).1, (log_capture cfg s d q).2, capture_metrics]
        refine ⟨List.prefix_rfl, List.prefix_rfl, List.prefix_append _ _, ?_⟩
        rw [List.map_append]
        rfl
    refine ⟨key.1.trans o, key.2.1.trans t, key.2.2.1.trans m, ?_⟩
    rw [hd, key.2.2.2]
    cases hc : capDate op with
    | none => rw [List.filterMap_cons_none hc]; simp
    | some x => rw [List.filterMap_cons_some hc]; simp

/-! ### One row of the portfolio table for every bar -/

theorem isOrder_noCap {A : PendingOrder → Prop} {cfg : Config} {env : BarEnv} {op : Op}
    (h : IsOrder A cfg env op) : capDate op = none := by
  cases op with
  | captureBar d q => exact h.elim
  | _ => rfl

theorem isCancel_noCap {op : Op} (h : IsCancel op) : capDate op = none := by
  cases op with
  | captureBar d q => exact h.elim
  | _ => rfl

theorem barCalls_dates {A : PendingOrder → Prop} {cfg : Config} {b : BarIn} {calls : List Op}
    (h : BarCalls A cfg b calls) : calls.filterMap capDate = [b.env.date] := by
  obtain ⟨orders, cancels, rfl, ho, hc⟩ := h
  have h1 : orders.filterMap capDate = [] :=
    List.filterMap_eq_nil_iff.2 fun op hop => isOrder_noCap (ho op hop)
  have h2 : cancels.filterMap capDate = [] :=
    List.filterMap_eq_nil_iff.2 fun op hop => isCancel_noCap (hc op hop)
  have h3 : ∀ l : List ForcedExit, (l.map (fun x => Op.exitPosition b.env.date x.symbol x.buyFill
      x.sellFill b.env.stop.slip)).filterMap capDate = [] := by
    intro l
    induction l with
    | nil => rfl
    | cons x l ih => rw [List.map_cons, List.filterMap_cons_none rfl, ih]
  rw [List.filterMap_cons_none rfl, List.filterMap_append, h1,
    List.filterMap_cons_some (show capDate (.captureBar b.env.date b.env.quote) = some b.env.date from rfl),
    List.filterMap_append, h2, List.filterMap_append, h3]
  rfl

theorem windowCalls_dates {A : PendingOrder → Prop} {cfg : Config} {x : Window × List BarIn}
    {y : List Op × List (List Op)} (h : WindowCalls A cfg x y) :
    (y.1 ++ y.2.flatten).filterMap capDate = x.2.map (fun b => b.env.date) := by
  obtain ⟨h1, h2⟩ := h
  have e1 : y.1.filterMap capDate = [] := List.filterMap_eq_nil_iff.2 fun op hop => by
    obtain ⟨b, _, sym, bar, rfl, _⟩ := h1 op hop
    rfl
  rw [List.filterMap_append, e1, List.nil_append]
  generalize x.2 = bs at h2
  generalize y.2 = cs at h2
  induction h2 with
  | nil => rfl
  | cons hb _ ih => rw [List.flatten_cons, List.filterMap_append, barCalls_dates hb, ih]; rfl

theorem allCalls_dates {A : PendingOrder → Prop} {cfg : Config} {ws : List (Window × List BarIn)}
    {hist : List (List Op × List (List Op))} (h : List.Forall₂ (WindowCalls A cfg) ws hist) :
    (allCalls hist).filterMap capDate = barDates ws := by
  induction h with
  | nil => rfl
  | cons hx _ ih =>
    unfold allCalls barDates at *
    rw [List.flatMap_cons, List.flatMap_cons, List.filterMap_append, windowCalls_dates hx, ih]

/-- **C140.**  The portfolio table of a run has one row for every bar, in order. -/
theorem portfolio_row_per_bar {HB : Sym → Date → Prop} {cfg : Config}
    {ws : List (Window × List BarIn)} (hr : RunOK HB ws)
    (hfit : ∀ r ∈ signals ws, ResultFit r) (hfresh : FreshStops ws) {s : Loop}
    (h : runWindows cfg ws = .ok s) :
    s.pf.metrics.map PortfolioBar.date = barDates ws := by
  obtain ⟨hist, hf, hrun, hfit', _⟩ := backtest_history hr hfit hfresh h
  have := (run_grows (ops := []) (s := Portfolio.init cfg) hfit' rfl hrun).2.2.2
  exact this.trans (congrArg _ (allCalls_dates hf))

/-! ### What a function sees on a bar -/

/-- The state in which user code runs, in the history of the whole run. -/
theorem seen_hist {HB : Sym → Date → Prop} {cfg : Config} {ws ws' : List (Window × List BarIn)}
    {w : Window} {bs bs' : List BarIn} {b : BarIn}
    (hr : RunOK HB (ws ++ (w, bs ++ b :: bs') :: ws'))
    (hfit : ∀ r ∈ signals (ws ++ (w, bs ++ b :: bs') :: ws'), ResultFit r)
    (hfresh : FreshStops (ws ++ (w, bs ++ b :: bs') :: ws')) {R : Loop}
    (h : runWindows cfg (ws ++ (w, bs ++ b :: bs') :: ws') = .ok R) :
    ∃ s s1 s2 used ops more, runWindows cfg ws = .ok s ∧ runWindow cfg s (w, bs) = .ok s1 ∧
      barOrders cfg b.env s1 = .ok s2 ∧ Hist (fun _ => True) cfg used ops s2 ∧
      run cfg (ops ++ .captureBar b.env.date b.env.quote :: more) = .ok R.pf ∧
      (∀ op ∈ ops ++ .captureBar b.env.date b.env.quote :: more, op.Fit) ∧
      ops.filterMap capDate = barDates ws ++ bs.map (fun b => b.env.date) := by
  obtain ⟨d, hd⟩ := exists_after (barDates (ws ++ (w, bs ++ b :: bs') :: ws'))
  obtain ⟨D0, _, hD0⟩ := start_before hr hd
  have hinit : Hist (fun _ => True) cfg [] [] { pf := Portfolio.init cfg } :=
    ⟨rfl, fun _ h => (nomatch h), fun _ h => (nomatch h), List.nodup_nil, fun _ h => (nomatch h),
      fun _ _ h => (nomatch h), fun _ h => (nomatch h)⟩
  obtain ⟨s, hs, h⟩ := foldB_split h
  unfold foldB at h
  split at h
  · cases h
  rename_i r1 hr1
  obtain ⟨s0, h0, hbars⟩ := runWindow_start hr1
  obtain ⟨t1, ht1, hbars⟩ := foldB_split hbars
  unfold foldB at hbars
  split at hbars
  · cases hbars
  rename_i t2 ht2
  have hwin : runWindow cfg s (w, bs) = .ok t1 := by
    unfold runWindow startWindow
    rcases h0 with ⟨hb, rfl⟩ | ⟨bd, hb, hl⟩
    · rw [hb]; exact ht1
    · rw [hb]
      show (liquidateDropped cfg s bd >>= _) = _
      rw [hl]
      exact ht1
  obtain ⟨s2, hs2, hsig⟩ := bind_ok ht2
  -- dates
  have hp : (D0 :: barDates (ws ++ (w, bs ++ b :: bs') :: ws')).Pairwise (· < ·) :=
    List.pairwise_cons.2 ⟨hD0, hr.forward⟩
  have edates : barDates (ws ++ (w, bs ++ b :: bs') :: ws') =
      barDates ws ++ (bs.map (fun b => b.env.date) ++ (b.env.date ::
        (bs'.map (fun b => b.env.date) ++ barDates ws'))) := by
    simp [barDates, List.flatMap_append, List.flatMap_cons, List.append_assoc]
  have esig : signals (ws ++ (w, bs ++ b :: bs') :: ws') =
      signals ws ++ (bs.flatMap signalsOf ++ (signalsOf b ++
        (bs'.flatMap signalsOf ++ signals ws'))) := by
    simp [signals, List.flatMap_append, List.flatMap_cons, List.append_assoc]
  have eids : stopIds ((signals (ws ++ (w, bs ++ b :: bs') :: ws')).flatMap orderStops) =
      (((([] ++ stopIds ((signals ws).flatMap orderStops)) ++
        stopIds ((bs.flatMap signalsOf).flatMap orderStops)) ++
        stopIds ((signalsOf b).flatMap orderStops)) ++
        stopIds ((bs'.flatMap signalsOf).flatMap orderStops)) ++
        stopIds ((signals ws').flatMap orderStops) := by
    rw [esig]
    simp only [stopIds, List.flatMap_append, List.map_append, List.append_assoc, List.nil_append]
  have hn5 : (stopIds ((signals (ws ++ (w, bs ++ b :: bs') :: ws')).flatMap orderStops)).Nodup :=
    hfresh
  rw [eids] at hn5
  have hn4 := List.Sublist.nodup (List.sublist_append_left _ _) hn5
  have hn3 := List.Sublist.nodup (List.sublist_append_left _ _) hn4
  have hn2 := List.Sublist.nodup (List.sublist_append_left _ _) hn3
  have hn1 := List.Sublist.nodup (List.sublist_append_left _ _) hn2
  rw [esig] at hfit
  simp only [List.mem_append] at hfit
  rw [edates] at hp
  rw [← List.cons_append, List.pairwise_append] at hp
  obtain ⟨hp1, hp2, hp3⟩ := hp
  have hw : ∀ x ∈ ws, WindowOK HB x.1 := fun x hx => hr.window x (List.mem_append_left _ hx)
  have hb : ∀ x ∈ ws, ∀ b ∈ x.2, BarOK HB x.1 b := fun x hx =>
    hr.bar x (List.mem_append_left _ hx)
  have hw0 : WindowOK HB w := hr.window (w, bs ++ b :: bs') (by simp)
  have hb0 : ∀ c ∈ bs ++ b :: bs', BarOK HB w c := fun c hc =>
    hr.bar (w, bs ++ b :: bs') (by simp) c hc
  -- the windows before
  obtain ⟨D1, m1, hist1, i1, hD1, hf1, g1, born1⟩ := windows_hist hw hb hp1
    (LoopInv.init HB cfg D0) hinit (fun _ h => (nomatch h)) (fun r hr => hfit r (.inl hr))
    (fun _ _ _ _ _ _ _ _ => trivial) hn1 hs
  -- the start of the window
  obtain ⟨m2, i2⟩ := start_inv i1 h0
  have g2 : ∃ pre, BoundaryCalls w pre ∧
      Hist (fun _ => True) cfg ([] ++ stopIds ((signals ws).flatMap orderStops))
        ([] ++ allCalls hist1 ++ pre) s0 ∧ s0.pend.orders.Sublist s.pend.orders := by
    rcases h0 with ⟨_, rfl⟩ | ⟨bd, hbd, hl⟩
    · exact ⟨[], fun _ h => (nomatch h), by simpa using g1, List.Sublist.refl _⟩
    · obtain ⟨exits, he, hh, hsub⟩ := liquidate_hist (hw0.boundary bd hbd) g1 hl
      refine ⟨_, ?_, hh, hsub⟩
      intro op hop
      obtain ⟨e, hem, rfl⟩ := List.mem_map.1 hop
      exact ⟨bd, hbd, _, _, rfl, dropped_not_selected (he e hem).1, (he e hem).2⟩
  obtain ⟨pre, hpre, g2, hsub⟩ := g2
  -- the bars before
  rw [List.pairwise_append] at hp2
  obtain ⟨hp4, hp5, hp6⟩ := hp2
  have hD1' : ∀ x ∈ bs.map (fun b => b.env.date) ++ (b.env.date ::
      (bs'.map (fun b => b.env.date) ++ barDates ws')), D1 < x := fun x hx =>
    hD1 x fun y hy => hp3 y hy x hx
  obtain ⟨D2, m3, hist2, i3, hD2, hf2, g3, born3⟩ := bars_hist hw0
    (fun c hc => hb0 c (List.mem_append_left _ hc))
    (List.pairwise_cons.2 ⟨fun x hx => hD1' x (List.mem_append_left _ hx), hp4⟩)
    i2.reset (g2.shrink rfl (List.Sublist.refl _))
    (fun p hp => born1 p (hsub.subset hp)) (fun r hr => hfit r (.inr (.inl hr)))
    (fun _ _ _ _ _ _ => trivial) hn2 ht1
  -- the bar
  have hD2' : D2 < b.env.date := hD2 _ (by
    intro x hx
    rcases List.mem_cons.1 hx with rfl | hx
    · exact hD1' _ (by simp)
    · exact hp6 x hx _ List.mem_cons_self)
  have hbar : BarOK HB w b := hb0 b (by simp)
  have hbef : Before b.env.date t1 := fun p hp => lt_of_le_of_lt (born3 p hp) hD2'
  obtain ⟨m4, i4⟩ := barStep_inv hw0 hbar hD2' i3 ht2
  obtain ⟨_, _, _, hshr⟩ := barOrders_inv hbar.bars i3 hD2' hs2
  obtain ⟨orders, ho, g4⟩ := barOrders_hist hbar.bars i3 hD2' g3 hbef hs2
  obtain ⟨cancels, hc, g5, born5⟩ := barSignals_hist g4
    (fun p hp => le_of_lt (hbef p (hshr.2.subset hp))) (fun r hr => hfit r (.inr (.inr (.inl hr))))
    (fun _ _ _ _ => trivial) hn3 hsig
  -- the bars after
  rw [List.pairwise_cons, List.pairwise_append] at hp5
  obtain ⟨hp7, hp8, hp9, hp10⟩ := hp5
  obtain ⟨D3, m5, hist3, i5, hD3, hf3, g6, born6⟩ := bars_hist hw0
    (fun c hc => hb0 c (List.mem_append_right _ (List.mem_cons_of_mem _ hc)))
    (List.pairwise_cons.2 ⟨fun x hx => hp7 x (List.mem_append_left _ hx), hp8⟩) i4 g5 born5
    (fun r hr => hfit r (.inr (.inr (.inr (.inl hr))))) (fun _ _ _ _ _ _ => trivial) hn4 hbars
  -- the windows after
  obtain ⟨_, _, hist4, _, _, _, g7, _⟩ := windows_hist
    (fun x hx => hr.window x (List.mem_append_right _ (List.mem_cons_of_mem _ hx)))
    (fun x hx => hr.bar x (List.mem_append_right _ (List.mem_cons_of_mem _ hx)))
    (List.pairwise_cons.2 ⟨fun x hx => hD3 x (by
      intro y hy
      rcases List.mem_cons.1 hy with rfl | hy
      · exact hp7 x (List.mem_append_right _ hx)
      · exact hp10 y hy x hx), hp9⟩) i5 g6 born6
    (fun r hr => hfit r (.inr (.inr (.inr (.inr hr))))) (fun _ _ _ _ _ _ _ _ => trivial) hn5 h
  refine ⟨s, t1, s2, _, _, cancels ++ (b.exits.map (fun x => .exitPosition b.env.date x.symbol
    x.buyFill x.sellFill b.env.stop.slip) ++ [.incrBars b.env.hasBarOn]) ++ hist3.flatten ++
    allCalls hist4, hs, hwin, hs2, g4, ?_, ?_, ?_⟩
  · have := g7.run
    simpa [List.append_assoc] using this
  · have := g7.fit
    simpa [List.append_assoc] using this
  · have hwc : WindowCalls (fun _ => True) cfg (w, bs) (pre, hist2) := ⟨hpre, hf2⟩
    have e1 := windowCalls_dates hwc
    have e2 : orders.filterMap capDate = [] :=
      List.filterMap_eq_nil_iff.2 fun op hop => isOrder_noCap (ho op hop)
    simp only [List.nil_append, List.filterMap_append, allCalls_dates hf1, e2, List.append_nil]
    rw [List.filterMap_append] at e1
    simp only [List.append_assoc, e1]
    simp [capDate]

theorem seenOn_eq {cfg : Config} {ws : List (Window × List BarIn)} {w : Window} {bs : List BarIn}
    {b : BarIn} {s s1 s2 : Loop} (hs : runWindows cfg ws = .ok s)
    (h1 : runWindow cfg s (w, bs) = .ok s1) (h2 : barOrders cfg b.env s1 = .ok s2)
    (us : List UserOp) :
    seenOn cfg ws w bs b us = .ok (us.foldl userStep
      { s2 with pf := captureBar cfg s2.pf b.env.date b.env.quote }) := by
  unfold seenOn
  rw [hs]
  show (runWindow cfg s (w, bs) >>= _) = _
  rw [h1]
  show (barOrders cfg b.env s1 >>= _) = _
  rw [h2]
  rfl

/-- **C140.**  On every bar of a completed run, whatever functions called before on the bar have
cancelled, the numbers a context shows are those of the row that the portfolio table of the result
has for the bar, and the orders and trades it shows are the first ones of the result. -/
theorem account_seen {HB : Sym → Date → Prop} {cfg : Config} {ws ws' : List (Window × List BarIn)}
    {w : Window} {bs bs' : List BarIn} {b : BarIn}
    (hr : RunOK HB (ws ++ (w, bs ++ b :: bs') :: ws'))
    (hfit : ∀ r ∈ signals (ws ++ (w, bs ++ b :: bs') :: ws'), ResultFit r)
    (hfresh : FreshStops (ws ++ (w, bs ++ b :: bs') :: ws')) {R : Loop}
    (h : runWindows cfg (ws ++ (w, bs ++ b :: bs') :: ws') = .ok R) (us : List UserOp) :
    ∃ v row, seenOn cfg ws w bs b us = .ok v ∧
      R.pf.metrics[barCount ws + bs.length]? = some row ∧ row.date = b.env.date ∧
      Shows row (v.pf.account cfg) ∧
      row.pnl = (v.pf.account cfg).totalEquity - cfg.cash ∧
      row.unrealizedPnl = (v.pf.account cfg).totalMarketValue - (v.pf.account cfg).totalEquity ∧
      row.fees = feesOf v.pf.orders ∧
      v.pf.orders <+: R.pf.orders ∧ v.pf.trades <+: R.pf.trades := by
  obtain ⟨s, s1, s2, used, ops, more, hs, h1, h2, hh, hrun, hfit', hd⟩ := seen_hist hr hfit hfresh h
  have hcap : run cfg (ops ++ [.captureBar b.env.date b.env.quote]) =
      .ok (captureBar cfg s2.pf b.env.date b.env.quote) := run_append hh.run rfl
  have e : ops ++ Op.captureBar b.env.date b.env.quote :: more =
      (ops ++ [.captureBar b.env.date b.env.quote]) ++ more := by simp
  rw [e] at hrun hfit'
  obtain ⟨ho, ht, hm, _⟩ := run_grows hfit' hcap hrun
  have hlen : s2.pf.metrics.length = barCount ws + bs.length := by
    have := (run_grows (ops := []) (s := Portfolio.init cfg) (more := ops)
      (fun op hop => hfit' op (by simp only [List.nil_append] at hop; simp [hop])) rfl
      (by simpa using hh.run)).2.2.2
    rw [hd] at this
    have := congrArg List.length this
    simp only [List.length_map, List.length_append, barDates, List.length_flatMap] at this
    rw [this]
    simp [Portfolio.init, barCount]
  have hlog : (captureBar cfg s2.pf b.env.date b.env.quote).fees =
      feesOf (captureBar cfg s2.pf b.env.date b.env.quote).orders :=
    (run_log (fun op hop => hfit' op (List.mem_append_left _ hop)) hcap).fees
  have hc := userSteps_calm us { s2 with pf := captureBar cfg s2.pf b.env.date b.env.quote }
  refine ⟨_, captureRecord cfg (captureTotals (captureAcc cfg s2.pf b.env.quote)) b.env.date
    (captureAcc cfg s2.pf b.env.quote).longValue, seenOn_eq hs h1 h2 us, ?_, rfl, ?_⟩
  · obtain ⟨rest, hrest⟩ := hm
    rw [← hrest, capture_metrics, ← hlen]
    simp
  · rw [account_calm hc]
    obtain ⟨l, sh, sd, ac, he, _, _⟩ := hc
    rw [he]
    exact ⟨⟨rfl, rfl, rfl, rfl, rfl, rfl⟩, rfl, rfl, hlog, ho, ht⟩

/-- **C140.**  All functions called on a bar are shown the same numbers, orders, trades and
positions (up to the stops on them), whatever the functions before cancelled. -/
theorem account_shared {cfg : Config} {ws : List (Window × List BarIn)} {w : Window}
    {bs : List BarIn} {b : BarIn} {us us' : List UserOp} {v v' : Loop}
    (h : seenOn cfg ws w bs b us = .ok v) (h' : seenOn cfg ws w bs b us' = .ok v') :
    v.pf.account cfg = v'.pf.account cfg ∧ v.pf.orders = v'.pf.orders ∧
      v.pf.trades = v'.pf.trades ∧ v.pf.longs.map bare = v'.pf.longs.map bare ∧
      v.pf.shorts.map bare = v'.pf.shorts.map bare := by
  obtain ⟨s, hs, h⟩ := bind_ok h
  obtain ⟨s1, h1, h⟩ := bind_ok h
  obtain ⟨s2, h2, h⟩ := bind_ok h
  rw [seenOn_eq hs h1 h2] at h'
  have e := Except.ok.inj h
  have e' := Except.ok.inj h'
  subst e e'
  have hc := userSteps_calm us { s2 with pf := captureBar cfg s2.pf b.env.date b.env.quote }
  have hc' := userSteps_calm us' { s2 with pf := captureBar cfg s2.pf b.env.date b.env.quote }
  refine ⟨(account_calm hc).trans (account_calm hc').symm, ?_⟩
  obtain ⟨l, sh, sd, ac, he, hl, hs⟩ := hc
  obtain ⟨l', sh', sd', ac', he', hl', hs'⟩ := hc'
  rw [he, he']
  exact ⟨rfl, rfl, hl.trans hl'.symm, hs.trans hs'.symm⟩

/-- A state in which user code runs is the result of a history of calls. -/
theorem seen_run {HB : Sym → Date → Prop} {cfg : Config} {ws ws' : List (Window × List BarIn)}
    {w : Window} {bs bs' : List BarIn} {b : BarIn}
    (hr : RunOK HB (ws ++ (w, bs ++ b :: bs') :: ws'))
    (hfit : ∀ r ∈ signals (ws ++ (w, bs ++ b :: bs') :: ws'), ResultFit r)
    (hfresh : FreshStops (ws ++ (w, bs ++ b :: bs') :: ws')) {R : Loop}
    (h : runWindows cfg (ws ++ (w, bs ++ b :: bs') :: ws') = .ok R) {us : List UserOp} {v : Loop}
    (hv : seenOn cfg ws w bs b us = .ok v) :
    ∃ ops, run cfg ops = .ok v.pf ∧ ∀ op ∈ ops, op.Fit := by
  obtain ⟨s, s1, s2, used, ops, more, hs, h1, h2, hh, _⟩ := seen_hist hr hfit hfresh h
  rw [seenOn_eq hs h1 h2] at hv
  have e := Except.ok.inj hv
  subst e
  have g1 : Hist (fun _ => True) cfg used (ops ++ [.captureBar b.env.date b.env.quote])
      { s2 with pf := captureBar cfg s2.pf b.env.date b.env.quote } :=
    hh.call (op := .captureBar b.env.date b.env.quote) rfl trivial rfl (List.Sublist.refl _)
  obtain ⟨l, _, g2, _⟩ := userSteps_hist us g1
  exact ⟨_, g2.run, g2.fit⟩

/-- **C140.**  The win and loss rates are those of the trades shown, and the buying power is the
cash without leverage, and with leverage what leverage allows beyond the positions held. -/
theorem rates_seen {HB : Sym → Date → Prop} {cfg : Config} {ws ws' : List (Window × List BarIn)}
    {w : Window} {bs bs' : List BarIn} {b : BarIn}
    (hr : RunOK HB (ws ++ (w, bs ++ b :: bs') :: ws'))
    (hfit : ∀ r ∈ signals (ws ++ (w, bs ++ b :: bs') :: ws'), ResultFit r)
    (hfresh : FreshStops (ws ++ (w, bs ++ b :: bs') :: ws')) {R : Loop}
    (h : runWindows cfg (ws ++ (w, bs ++ b :: bs') :: ws') = .ok R) {us : List UserOp} {v : Loop}
    (hv : seenOn cfg ws w bs b us = .ok v) :
    (v.pf.trades = [] → (v.pf.account cfg).winRate = 0 ∧ (v.pf.account cfg).lossRate = 0) ∧
    (v.pf.trades ≠ [] →
      (v.pf.account cfg).winRate =
        (v.pf.trades.countP (fun t => decide (0 < t.pnl)) : ℚ) / v.pf.trades.length ∧
      (v.pf.account cfg).winRate + (v.pf.account cfg).lossRate = 1) ∧
    (v.pf.account cfg).buyingPower =
      if cfg.leverage ≤ 1 then max (v.pf.account cfg).cash 0
      else max (liveValue cfg v.pf * cfg.leverage - gross v.pf) 0 := by
  obtain ⟨ops, hrun, hf⟩ := seen_run hr hfit hfresh h hv
  refine ⟨?_, (realised_pnl_and_win_rate hf hrun).2.2.2,
    buyingPower_spec (run_good hf hrun).1.wf (run_marks hf hrun)⟩
  intro ht
  simp [Portfolio.account, Portfolio.winRate, Portfolio.lossRate, ht]

/-! ### Positions -/

namespace Spec

/-- The positions a call of `positions` asks for. -/
def Matching (sym : Option Sym) (t : Option String) (p : Position) : Prop :=
  (sym = none ∨ sym = some p.symbol) ∧ (t = some "long" → p.type = .long) ∧
    (t = some "short" → p.type = .short)

instance (sym : Option Sym) (t : Option String) (p : Position) : Decidable (Matching sym t p) := by
  unfold Matching
  infer_instance

/-- Shares of a position that may not be there. -/
def sharesIn (p : Option Position) : ℚ := (p.map Position.shares).getD 0

end Spec

theorem filter_sym {ps : List Position} (hn : (ps.map Position.symbol).Nodup) (sym : Sym) :
    ps.filter (fun p => decide (p.symbol = sym)) = (lookupPos ps sym).toList := by
  induction ps with
  | nil => rfl
  | cons p ps ih =>
    rw [List.map_cons, List.nodup_cons] at hn
    unfold lookupPos
    by_cases hp : p.symbol = sym
    · rw [List.filter_cons_of_pos (by simpa using hp), if_pos hp]
      have : ps.filter (fun p => decide (p.symbol = sym)) = [] := by
        rw [List.filter_eq_nil_iff]
        intro q hq hqs
        exact hn.1 (List.mem_map.2 ⟨q, hq, by rw [of_decide_eq_true hqs, hp]⟩)
      rw [this]
      rfl
    · rw [List.filter_cons_of_neg (by simpa using hp), if_neg hp, ih hn.2]

/-- The positions of a context, for any portfolio that is the result of a history of calls. -/
theorem positions_of_run {cfg : Config} {ops : List Op} {s : Portfolio}
    (hf : ∀ op ∈ ops, op.Fit) (h : run cfg ops = .ok s) :
    (∀ sym t, t = none ∨ t = some "long" ∨ t = some "short" →
      s.positionsOf sym t = .ok ((s.longs ++ s.shorts).filter (fun p => decide (Matching sym t p)))) ∧
    (∀ sym t, t ≠ "long" → t ≠ "short" →
      s.posOf sym t = .error .unknownType ∧ ∀ x, s.positionsOf x (some t) = .error .unknownType) ∧
    (∀ sym, ∃ l r, s.posOf sym "long" = .ok l ∧ s.posOf sym "short" = .ok r ∧
      s.positionsOf (some sym) (some "long") = .ok l.toList ∧
      s.positionsOf (some sym) (some "short") = .ok r.toList ∧
      (∀ own, s.longPos own (some sym) = .ok l ∧ s.shortPos own (some sym) = .ok r ∧
        s.longPos (some sym) none = .ok l ∧ s.shortPos (some sym) none = .ok r) ∧
      (l = none ∨ r = none) ∧ (∀ p, l = some p ∨ r = some p → p.symbol = sym ∧ 0 < p.shares) ∧
      sharesIn l - sharesIn r =
        ((s.orders.filter (fun o => o.symbol = sym)).map signed).sum) ∧
    (s.hasLong = true ↔ ∃ p ∈ s.longs ++ s.shorts, p.type = .long) ∧
    (s.hasShort = true ↔ ∃ p ∈ s.longs ++ s.shorts, p.type = .short) ∧
    s.longPos none none = .error .noSymbol ∧ s.shortPos none none = .error .noSymbol := by
  obtain ⟨hpos, hL, hS, _, hnl, hns⟩ := books_well_formed hf h
  have hw := (run_good hf h).1.wf
  refine ⟨?_, ?_, ?_, ?_, ?_, rfl, rfl⟩
  · have e1 : ∀ (sym : Option Sym) (t : Option String), t ≠ some "short" →
        s.longs.filter (fun p => decide (Matching sym t p)) =
          (match sym with | none => s.longs | some x => (lookupPos s.longs x).toList) := by
      intro sym t ht
      have : s.longs.filter (fun p => decide (Matching sym t p)) =
          s.longs.filter (fun p => decide (sym = none ∨ sym = some p.symbol)) := by
        refine List.filter_congr fun p hp => decide_eq_decide.2 ?_
        exact ⟨fun h => h.1, fun h => ⟨h, fun _ => hL p hp, fun e => absurd e ht⟩⟩
      rw [this]
      cases sym with
      | none => exact List.filter_eq_self.2 fun p hp => decide_eq_true (.inl rfl)
      | some x =>
        refine Eq.trans ?_ (filter_sym hnl x)
        refine List.filter_congr fun p _ => decide_eq_decide.2 ⟨?_, fun h => .inr (by rw [h])⟩
        rintro (h | h)
        · cases h
        · exact (Option.some.inj h).symm
    have e2 : ∀ (sym : Option Sym) (t : Option String), t ≠ some "long" →
        s.shorts.filter (fun p => decide (Matching sym t p)) =
          (match sym with | none => s.shorts | some x => (lookupPos s.shorts x).toList) := by
      intro sym t ht
      have : s.shorts.filter (fun p => decide (Matching sym t p)) =
          s.shorts.filter (fun p => decide (sym = none ∨ sym = some p.symbol)) := by
        refine List.filter_congr fun p hp => decide_eq_decide.2 ?_
        exact ⟨fun h => h.1, fun h => ⟨h, fun e => absurd e ht, fun _ => hS p hp⟩⟩
      rw [this]
      cases sym with
      | none => exact List.filter_eq_self.2 fun p hp => decide_eq_true (.inl rfl)
      | some x =>
        refine Eq.trans ?_ (filter_sym hns x)
        refine List.filter_congr fun p _ => decide_eq_decide.2 ⟨?_, fun h => .inr (by rw [h])⟩
        rintro (h | h)
        · cases h
        · exact (Option.some.inj h).symm
    have e3 : ∀ sym : Option Sym,
        s.longs.filter (fun p => decide (Matching sym (some "short") p)) = [] := by
      intro sym
      rw [List.filter_eq_nil_iff]
      intro p hp hm
      have := (of_decide_eq_true hm).2.2 rfl
      rw [hL p hp] at this
      cases this
    have e4 : ∀ sym : Option Sym,
        s.shorts.filter (fun p => decide (Matching sym (some "long") p)) = [] := by
      intro sym
      rw [List.filter_eq_nil_iff]
      intro p hp hm
      have := (of_decide_eq_true hm).2.1 rfl
      rw [hS p hp] at this
      cases this
    intro sym t ht
    rw [List.filter_append]
    rcases ht with rfl | rfl | rfl
    · rw [e1 sym none (by simp), e2 sym none (by simp)]
      cases sym <;> rfl
    · rw [e1 sym (some "long") (by simp), e4]
      cases sym <;> rfl
    · rw [e2 sym (some "short") (by simp), e3]
      cases sym <;> rfl
  · intro sym t h1 h2
    have hv : verifyPosType t = .error .unknownType := by
      unfold verifyPosType
      rw [if_pos ⟨h2, h1⟩]
    unfold Portfolio.posOf Portfolio.positionsOf
    simp only [hv]
    exact ⟨rfl, fun _ => rfl⟩
  · intro sym
    have hp1 : s.posOf sym "long" = .ok (lookupPos s.longs sym) := by
      unfold Portfolio.posOf
      cases hl : lookupPos s.longs sym <;> rfl
    have hp2 : s.posOf sym "short" = .ok (lookupPos s.shorts sym) := by
      unfold Portfolio.posOf
      cases hl : lookupPos s.shorts sym <;> rfl
    refine ⟨lookupPos s.longs sym, lookupPos s.shorts sym, hp1, hp2, ?_, ?_,
      fun _ => ⟨rfl, rfl, rfl, rfl⟩, ?_, ?_, ?_⟩
    · show Except.ok ((lookupPos s.longs sym).toList ++ []) = _
      rw [List.append_nil]
    · rfl
    · cases hl : lookupPos s.longs sym with
      | none => exact .inl rfl
      | some p =>
        cases hr : lookupPos s.shorts sym with
        | none => exact .inr rfl
        | some q =>
          have h1 := lookupPos_some hl
          have h2 := lookupPos_some hr
          exact absurd (h1.2.trans h2.2.symm) (hw.disj .long .short (by simp) p h1.1 q h2.1)
    · have pos : ∀ p ∈ s.longs ++ s.shorts, 0 < p.shares := by
        intro p hp
        obtain ⟨hne, he, hsh, _⟩ := hpos p hp
        rw [hsh]
        cases hes : p.entries with
        | nil => exact absurd hes hne
        | cons e es =>
          rw [List.map_cons, List.sum_cons]
          have h0 : 0 ≤ (es.map Entry.shares).sum := List.sum_nonneg (by
            intro x hx
            obtain ⟨e', he', rfl⟩ := List.mem_map.1 hx
            exact le_of_lt (he e' (by rw [hes]; exact List.mem_cons_of_mem _ he')).1)
          have := (he e (by rw [hes]; exact List.mem_cons_self)).1
          linarith
      rintro p (hp | hp)
      · have h1 := lookupPos_some hp
        exact ⟨h1.2, pos p (List.mem_append_left _ h1.1)⟩
      · have h1 := lookupPos_some hp
        exact ⟨h1.2, pos p (List.mem_append_right _ h1.1)⟩
    · have hnet := holdings_net_of_orders hf h sym
      rw [held_eq hnl, held_eq hns] at hnet
      unfold sharesOf netOrdered at hnet
      rw [← hnet]
      unfold sharesIn
      cases lookupPos s.longs sym <;> cases lookupPos s.shorts sym <;> rfl
  · unfold Portfolio.hasLong
    constructor
    · intro hl
      cases hls : s.longs with
      | nil => rw [hls] at hl; cases hl
      | cons p ps =>
        exact ⟨p, by simp, hL p (by rw [hls]; exact List.mem_cons_self)⟩
    · rintro ⟨p, hp, ht⟩
      rcases List.mem_append.1 hp with hp | hp
      · cases hls : s.longs with
        | nil => rw [hls] at hp; cases hp
        | cons p ps => rfl
      · rw [hS p hp] at ht
        cases ht
  · unfold Portfolio.hasShort
    constructor
    · intro hl
      cases hls : s.shorts with
      | nil => rw [hls] at hl; cases hl
      | cons p ps =>
        exact ⟨p, by simp, hS p (by rw [hls]; exact List.mem_cons_self)⟩
    · rintro ⟨p, hp, ht⟩
      rcases List.mem_append.1 hp with hp | hp
      · rw [hL p hp] at ht
        cases ht
      · cases hls : s.shorts with
        | nil => rw [hls] at hp; cases hp
        | cons p ps => rfl

/-- **C140.**  The positions shown on a bar.  A call of `positions` lists the positions held that it
asks for; `pos`, `long_pos` and `short_pos` give the one of the symbol that is in that list; a type
other than long and short is refused; no symbol is held on both sides, a position has a positive
number of shares, and the shares held are what the orders shown add up to. -/
theorem positions_seen {HB : Sym → Date → Prop} {cfg : Config}
    {ws ws' : List (Window × List BarIn)} {w : Window} {bs bs' : List BarIn} {b : BarIn}
    (hr : RunOK HB (ws ++ (w, bs ++ b :: bs') :: ws'))
    (hfit : ∀ r ∈ signals (ws ++ (w, bs ++ b :: bs') :: ws'), ResultFit r)
    (hfresh : FreshStops (ws ++ (w, bs ++ b :: bs') :: ws')) {R : Loop}
    (h : runWindows cfg (ws ++ (w, bs ++ b :: bs') :: ws') = .ok R) {us : List UserOp} {v : Loop}
    (hv : seenOn cfg ws w bs b us = .ok v) :
    (∀ sym t, t = none ∨ t = some "long" ∨ t = some "short" →
      v.pf.positionsOf sym t =
        .ok ((v.pf.longs ++ v.pf.shorts).filter (fun p => decide (Matching sym t p)))) ∧
    (∀ sym t, t ≠ "long" → t ≠ "short" →
      v.pf.posOf sym t = .error .unknownType ∧
      ∀ x, v.pf.positionsOf x (some t) = .error .unknownType) ∧
    (∀ sym, ∃ l r, v.pf.posOf sym "long" = .ok l ∧ v.pf.posOf sym "short" = .ok r ∧
      v.pf.positionsOf (some sym) (some "long") = .ok l.toList ∧
      v.pf.positionsOf (some sym) (some "short") = .ok r.toList ∧
      (∀ own, v.pf.longPos own (some sym) = .ok l ∧ v.pf.shortPos own (some sym) = .ok r ∧
        v.pf.longPos (some sym) none = .ok l ∧ v.pf.shortPos (some sym) none = .ok r) ∧
      (l = none ∨ r = none) ∧ (∀ p, l = some p ∨ r = some p → p.symbol = sym ∧ 0 < p.shares) ∧
      sharesIn l - sharesIn r =
        ((v.pf.orders.filter (fun o => o.symbol = sym)).map signed).sum) ∧
    (v.pf.hasLong = true ↔ ∃ p ∈ v.pf.longs ++ v.pf.shorts, p.type = .long) ∧
    (v.pf.hasShort = true ↔ ∃ p ∈ v.pf.longs ++ v.pf.shorts, p.type = .short) ∧
    v.pf.longPos none none = .error .noSymbol ∧ v.pf.shortPos none none = .error .noSymbol := by
  obtain ⟨ops, hrun, hf⟩ := seen_run hr hfit hfresh h hv
  exact positions_of_run hf hrun

/-! ### On the run of C72

On the third bar of the first window, the ten shares of AAA bought on the second bar have been sold;
on the second they are held. -/

namespace Demo

theorem btWs_split : btWs = [] ++ (btW1, [{ env := btEnv 1 1, results := [btBuy, btSell] }] ++
    { env := btEnv 2 2, results := [btExit] } :: [{ env := btEnv 3 3, results := [btLate] }]) ::
      [(btW2, btDays2)] := rfl

theorem btWs_fit : ∀ r ∈ signals btWs, ResultFit r := by
  unfold ResultFit
  decide

theorem btWs_fresh : FreshStops btWs := by
  unfold FreshStops
  decide

/-- What is seen on the second bar, after the stop of AAA is cancelled. -/
def btSeen : Loop := okB { pf := Portfolio.init btCfg } (seenOn btCfg [] btW1
  [{ env := btEnv 1 1, results := [btBuy, btSell] }] { env := btEnv 2 2, results := [btExit] }
  [.cancelStop 7])

theorem bt_seen : seenOn btCfg [] btW1 [{ env := btEnv 1 1, results := [btBuy, btSell] }]
    { env := btEnv 2 2, results := [btExit] } [.cancelStop 7] = .ok btSeen :=
  ok_okB (by decide +kernel)

end Demo

example := portfolio_row_per_bar Demo.btWs_ok Demo.btWs_fit Demo.btWs_fresh Demo.run_bt

example := account_seen (Demo.btWs_split ▸ Demo.btWs_ok) (Demo.btWs_split ▸ Demo.btWs_fit)
  (Demo.btWs_split ▸ Demo.btWs_fresh) (Demo.btWs_split ▸ Demo.run_bt) [.cancelStop 7]

example := account_shared Demo.bt_seen Demo.bt_seen

example := rates_seen (Demo.btWs_split ▸ Demo.btWs_ok) (Demo.btWs_split ▸ Demo.btWs_fit)
  (Demo.btWs_split ▸ Demo.btWs_fresh) (Demo.btWs_split ▸ Demo.run_bt) Demo.bt_seen

example := positions_seen (Demo.btWs_split ▸ Demo.btWs_ok) (Demo.btWs_split ▸ Demo.btWs_fit)
  (Demo.btWs_split ▸ Demo.btWs_fresh) (Demo.btWs_split ▸ Demo.run_bt) Demo.bt_seen

/-- The ten shares are shown, the cash is what they leave, and the second row of the table has
it. -/
example : Demo.btSeen.pf.longPos (some "AAA") none = .ok (lookupPos Demo.btSeen.pf.longs "AAA") ∧
    (lookupPos Demo.btSeen.pf.longs "AAA").map Position.shares = some 10 ∧
    (Demo.btSeen.pf.account Demo.btCfg).cash = 9000 ∧
    Demo.bt.pf.metrics.map PortfolioBar.cash = [10000, 9000, 10000, 9700, 9700] :=
  ⟨rfl, by decide +kernel⟩

/-! ## C141: the end of the table and the end of the run -/

theorem schedFold_pf {rs : List ExecResult} {f : Loop → ExecResult → Except BErr Loop}
    (hf : ∀ s r s', f s r = .ok s' → s'.pf = s.pf) {s s' : Loop}
    (h : foldB f s rs = .ok s') : s'.pf = s.pf :=
  foldB_inv (I := fun t => t.pf = s.pf) (fun b a b' _ hb hs => (hf b a b' hs).trans hb) rfl h

/-- After user code, a bar only closes positions by force and counts bars. -/
theorem barSignals_pf {cfg : Config} {w : Window} {b : BarIn} {s s' : Loop}
    (h : barSignals cfg w b s = .ok s') :
    ∃ t t', t.pf = (b.user.foldl userStep
        { s with pf := captureBar cfg s.pf b.env.date b.env.quote }).pf ∧
      foldB (exitStep cfg b.env) t b.exits = .ok t' ∧ s'.pf = incrBars t'.pf b.env.hasBarOn := by
  unfold barSignals at h
  simp only at h
  obtain ⟨s3, h3, h⟩ := bind_ok h
  obtain ⟨s4, h4, h⟩ := bind_ok h
  obtain ⟨s5, h5, h⟩ := bind_ok h
  obtain ⟨s6, h6, h⟩ := bind_ok h
  have he := Except.ok.inj h
  subst he
  refine ⟨s5, s6, ?_, h6, rfl⟩
  rw [schedFold_pf (fun s r s' hs => by
      obtain ⟨x, _, rfl⟩ := map_ok hs; rfl) h5,
    schedFold_pf (fun s r s' hs => by
      obtain ⟨x, _, rfl⟩ := map_ok hs; rfl) h4,
    schedFold_pf (fun s r s' hs => by
      obtain ⟨x, _, rfl⟩ := map_ok hs; rfl) h3]

theorem table_length {HB : Sym → Date → Prop} {cfg : Config} {ws : List (Window × List BarIn)}
    {w : Window} {bs : List BarIn} {b : BarIn} (hr : RunOK HB (ws ++ [(w, bs ++ [b])]))
    (hfit : ∀ r ∈ signals (ws ++ [(w, bs ++ [b])]), ResultFit r)
    (hfresh : FreshStops (ws ++ [(w, bs ++ [b])])) {R : Loop}
    (h : runWindows cfg (ws ++ [(w, bs ++ [b])]) = .ok R) :
    R.pf.metrics.length = barCount ws + bs.length + 1 := by
  have := congrArg List.length (portfolio_row_per_bar hr hfit hfresh h)
  simp only [List.length_map, barDates, List.length_flatMap, List.map_append, List.sum_append] at this
  rw [this]
  simp [barCount]
  omega

/-- The last step of a run. -/
theorem run_last {cfg : Config} {ws : List (Window × List BarIn)} {w : Window} {bs : List BarIn}
    {b : BarIn} {s s1 s2 R : Loop} (hs : runWindows cfg ws = .ok s)
    (h1 : runWindow cfg s (w, bs) = .ok s1) (h2 : barOrders cfg b.env s1 = .ok s2)
    (h : runWindows cfg (ws ++ [(w, bs ++ [b])]) = .ok R) : barSignals cfg w b s2 = .ok R := by
  obtain ⟨t, ht, h⟩ := foldB_split h
  have := Except.ok.inj (hs.symm.trans ht)
  subst this
  unfold foldB at h
  split at h
  · cases h
  rename_i r1 hr1
  have := Except.ok.inj h
  subst this
  obtain ⟨s0, h0, hbars⟩ := runWindow_start hr1
  obtain ⟨t1, ht1, hbars⟩ := foldB_split hbars
  unfold foldB at hbars
  split at hbars
  · cases hbars
  rename_i t2 ht2
  have := Except.ok.inj hbars
  subst this
  have hwin : runWindow cfg s (w, bs) = .ok t1 := by
    unfold runWindow startWindow
    rcases h0 with ⟨hb, rfl⟩ | ⟨bd, hb, hl⟩
    · rw [hb]; exact ht1
    · rw [hb]
      show (liquidateDropped cfg s bd >>= _) = _
      rw [hl]
      exact ht1
  have := Except.ok.inj (h1.symm.trans hwin)
  subst this
  obtain ⟨s2', hs2, hsig⟩ := bind_ok ht2
  have := Except.ok.inj (h2.symm.trans hs2)
  subst this
  exact hsig

/-- **C141.**  The last row of the portfolio table has the fees of the orders that were there when
the functions ran on the last bar; the orders of the result after those are charged beside it. -/
theorem last_row_fees {HB : Sym → Date → Prop} {cfg : Config} {ws : List (Window × List BarIn)}
    {w : Window} {bs : List BarIn} {b : BarIn} (hr : RunOK HB (ws ++ [(w, bs ++ [b])]))
    (hfit : ∀ r ∈ signals (ws ++ [(w, bs ++ [b])]), ResultFit r)
    (hfresh : FreshStops (ws ++ [(w, bs ++ [b])])) {R : Loop}
    (h : runWindows cfg (ws ++ [(w, bs ++ [b])]) = .ok R) :
    ∃ v row later, seenOn cfg ws w bs b b.user = .ok v ∧ R.pf.metrics.getLast? = some row ∧
      R.pf.orders = v.pf.orders ++ later ∧ row.fees = feesOf v.pf.orders ∧
      feesOf R.pf.orders = row.fees + feesOf later ∧ R.pf.fees = feesOf R.pf.orders := by
  obtain ⟨v, row, hv, hrow, _, _, _, _, hfee, ⟨later, ho⟩, _⟩ :=
    account_seen (ws' := []) (bs' := []) hr hfit hfresh h b.user
  obtain ⟨hist, hf, hrun, hfit', _⟩ := backtest_history hr hfit hfresh h
  refine ⟨v, row, later, hv, ?_, ho.symm, hfee, ?_, (run_log hfit' hrun).fees⟩
  · rw [← hrow, List.getLast?_eq_getElem?, table_length hr hfit hfresh h]
    rfl
  · rw [← ho, hfee]
    simp [feesOf]

/-- **C141.**  The total fees among the metrics of a run are short of the fees charged by those of
the orders filled after the functions ran on the last bar. -/
theorem total_fees_metric {HB : Sym → Date → Prop} {cfg : Config}
    {ws : List (Window × List BarIn)} {w : Window} {bs : List BarIn} {b : BarIn}
    (hr : RunOK HB (ws ++ [(w, bs ++ [b])]))
    (hfit : ∀ r ∈ signals (ws ++ [(w, bs ++ [b])]), ResultFit r)
    (hfresh : FreshStops (ws ++ [(w, bs ++ [b])])) {R : Loop}
    (h : runWindows cfg (ws ++ [(w, bs ++ [b])]) = .ok R) (F : Fns ℚ) (ts : List (TRow ℚ))
    (m : Metrics ℚ)
    (hm : evalMetrics F (R.pf.metrics.map PortfolioBar.marketValue)
      (R.pf.metrics.map PortfolioBar.fees) ts = some m) :
    ∃ v later, seenOn cfg ws w bs b b.user = .ok v ∧ R.pf.orders = v.pf.orders ++ later ∧
      m.totalFees = feesOf R.pf.orders - feesOf later := by
  obtain ⟨v, row, later, hv, hrow, ho, _, hl, _⟩ := last_row_fees hr hfit hfresh h
  refine ⟨v, later, hv, ho, ?_⟩
  have ht : m.totalFees = (R.pf.metrics.map PortfolioBar.fees).getLastD 0 := by
    unfold evalMetrics at hm
    split at hm
    · split at hm
      · cases hm
      · rw [← Option.some.inj hm]
    · cases hm
  rw [ht, hl, List.getLastD_eq_getLast?, List.getLast?_map, hrow]
  show row.fees = _
  ring

theorem shows_incr {row : PortfolioBar} {cfg : Config} {pf : Portfolio} {hasBar : Sym → Bool}
    (h : Shows row (pf.account cfg)) : Shows row ((incrBars pf hasBar).account cfg) :=
  ⟨h.1, h.2, h.3, h.4, h.5, h.6⟩

/-- **C141** (part).  When no position is closed by force on the last bar, the last row of the
portfolio table is the account the run ends with.  Missing: with `exit_on_last_bar` this is false,
see `table_ends_before_run`. -/
theorem table_ends_run_partial {HB : Sym → Date → Prop} {cfg : Config}
    {ws : List (Window × List BarIn)} {w : Window} {bs : List BarIn} {b : BarIn}
    (hr : RunOK HB (ws ++ [(w, bs ++ [b])]))
    (hfit : ∀ r ∈ signals (ws ++ [(w, bs ++ [b])]), ResultFit r)
    (hfresh : FreshStops (ws ++ [(w, bs ++ [b])])) {R : Loop}
    (h : runWindows cfg (ws ++ [(w, bs ++ [b])]) = .ok R) (hx : b.exits = []) :
    ∃ row, R.pf.metrics.getLast? = some row ∧ row.date = b.env.date ∧
      Shows row (R.pf.account cfg) ∧
      row.unrealizedPnl = (R.pf.account cfg).totalMarketValue - (R.pf.account cfg).totalEquity ∧
      row.fees = feesOf R.pf.orders := by
  obtain ⟨v, row, hv, hrow, hd, hsh, _, hu, hfee, _⟩ :=
    account_seen (ws' := []) (bs' := []) hr hfit hfresh h b.user
  have hlast : R.pf = incrBars v.pf b.env.hasBarOn := by
    obtain ⟨s, s1, s2, used, ops, more, hs, h1, h2, _⟩ := seen_hist hr hfit hfresh h
    have hveq := Except.ok.inj (hv.symm.trans (seenOn_eq hs h1 h2 b.user))
    have hstep := run_last hs h1 h2 h
    obtain ⟨t, t', ht, hex, hR⟩ := barSignals_pf hstep
    rw [hx] at hex
    have := Except.ok.inj hex
    subst this
    rw [hR, ht, hveq]
  refine ⟨row, ?_, hd, ?_, ?_, ?_⟩
  · rw [← hrow, List.getLast?_eq_getElem?, table_length hr hfit hfresh h]
    rfl
  · rw [hlast]; exact shows_incr hsh
  · rw [hlast]; exact hu
  · rw [hlast]; exact hfee

namespace Demo

/-- The run of `bt` with a dollar charged for each order. -/
def feeCfg : Config := { btCfg with feeMode := some .perOrder, feeAmount := some 1 }

def feeRun : Loop := okB { pf := Portfolio.init feeCfg } (runWindows feeCfg btWs)

theorem run_fee : runWindows feeCfg btWs = .ok feeRun := ok_okB (by decide +kernel)

end Demo

/-- The exit forced on the last bar is not in the row of that bar: the table ends with three shares
held and one fee fewer than the orders were charged, while the run ends with nothing held. -/
theorem table_ends_before_run : runWindows Demo.feeCfg Demo.btWs = .ok Demo.feeRun ∧
    Demo.feeRun.pf.metrics.map PortfolioBar.cash = [10000, 8999, 9998, 9697, 9697] ∧
    Demo.feeRun.pf.cash = 9996 ∧
    Demo.feeRun.pf.longs = [] ∧ Demo.feeRun.pf.shorts = [] ∧
    Demo.feeRun.pf.metrics.map PortfolioBar.fees = [0, 1, 2, 3, 3] ∧
    feesOf Demo.feeRun.pf.orders = 4 :=
  ⟨Demo.run_fee, by decide +kernel⟩

/-- The total fees among the metrics of that run are 3, of 4 charged. -/
theorem total_fees_short (F : Fns ℚ) (ts : List (TRow ℚ)) :
    ∃ m, evalMetrics F (Demo.feeRun.pf.metrics.map PortfolioBar.marketValue)
        (Demo.feeRun.pf.metrics.map PortfolioBar.fees) ts = some m ∧
      m.totalFees = 3 ∧ feesOf Demo.feeRun.pf.orders = 4 := by
  have h1 : Demo.feeRun.pf.metrics.map PortfolioBar.marketValue =
      [10000, 10039, 9998, 10009, 10009] := by decide +kernel
  have h2 : Demo.feeRun.pf.metrics.map PortfolioBar.fees = [0, 1, 2, 3, 3] := by decide +kernel
  rw [h1, h2]
  refine ⟨_, rfl, rfl, by decide +kernel⟩

theorem Demo.btWs_ends : Demo.btWs =
    [(Demo.btW1, Demo.btDays1)] ++
      [(Demo.btW2, [{ env := Demo.btEnv 4 1 }] ++
        [{ env := Demo.btEnv 5 2, exits := [⟨"AAA", 100, 100⟩] }])] := rfl

example := last_row_fees (Demo.btWs_ends ▸ Demo.btWs_ok) (Demo.btWs_ends ▸ Demo.btWs_fit)
  (Demo.btWs_ends ▸ Demo.btWs_fresh) (Demo.btWs_ends ▸ Demo.run_fee)

example := total_fees_metric (Demo.btWs_ends ▸ Demo.btWs_ok) (Demo.btWs_ends ▸ Demo.btWs_fit)
  (Demo.btWs_ends ▸ Demo.btWs_fresh) (Demo.btWs_ends ▸ Demo.run_fee)

theorem Demo.btWs1_ends : Demo.btWs1 =
    [] ++ [(Demo.btW1, [{ env := Demo.btEnv 1 1, results := [Demo.btBuy, Demo.btSell] },
        { env := Demo.btEnv 2 2, results := [Demo.btExit] }] ++
        [{ env := Demo.btEnv 3 3, results := [Demo.btLate] }])] := rfl

theorem Demo.btWs1_fit : ∀ r ∈ signals Demo.btWs1, ResultFit r := by
  unfold ResultFit
  decide

theorem Demo.btWs1_fresh : FreshStops Demo.btWs1 := by
  unfold FreshStops
  decide

example := table_ends_run_partial (Demo.btWs1_ends ▸ Demo.btWs1_ok)
  (Demo.btWs1_ends ▸ Demo.btWs1_fit) (Demo.btWs1_ends ▸ Demo.btWs1_fresh)
  (Demo.btWs1_ends ▸ Demo.run_bt1) rfl

end PyBroker
