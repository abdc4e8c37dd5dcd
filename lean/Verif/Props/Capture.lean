import Verif.Props.Ledger

/-!
# C73: the fields of a recorded bar

Line numbers refer to `/repo/src/pybroker/portfolio.py`, `PortfolioBar`, 382-415.
-/

namespace PyBroker

open Spec

/-- A part of the recorded totals that is a sum over positions. -/
def partOf (f : Position → ℚ) (ps : List Position) (sym : Sym) : ℚ :=
  match lookupPos ps sym with
  | none => 0
  | some p => f p

theorem captureFold_part {F : CaptureAcc → ℚ} {f g : Position → ℚ} {quote : Sym → BarQuote}
    (hstep : ∀ acc sym, F (captureSym quote acc sym) =
      F acc + (partOf f acc.pf.longs sym + partOf g acc.pf.shorts sym)) (syms : List Sym) :
    ∀ acc : CaptureAcc, syms.Nodup → F (syms.foldl (captureSym quote) acc) = F acc +
      (syms.map (fun sym => partOf f acc.pf.longs sym + partOf g acc.pf.shorts sym)).sum := by
  induction syms with
  | nil => intro acc _; simp
  | cons sym syms ih =>
    intro acc hn
    obtain ⟨hni, hn⟩ := List.nodup_cons.1 hn
    rw [List.foldl_cons, ih _ hn, List.map_cons, List.sum_cons, hstep, add_assoc]
    congr 2
    congr 1
    refine List.map_congr_left (fun x hx => ?_)
    have hne : sym ≠ x := fun e => hni (e ▸ hx)
    have hl : lookupPos (captureSym quote acc sym).pf.longs x = lookupPos acc.pf.longs x :=
      (captureShort_lookup_ne (quote sym) (captureLong (quote sym) acc sym) hne .long).trans
        (captureLong_lookup_ne (quote sym) acc hne .long)
    have hs : lookupPos (captureSym quote acc sym).pf.shorts x = lookupPos acc.pf.shorts x :=
      (captureShort_lookup_ne (quote sym) (captureLong (quote sym) acc sym) hne .short).trans
        (captureLong_lookup_ne (quote sym) acc hne .short)
    unfold partOf
    rw [hl, hs]

theorem captureAcc_part {F : CaptureAcc → ℚ} {f g : Position → ℚ} {quote : Sym → BarQuote}
    (hstep : ∀ acc sym, F (captureSym quote acc sym) =
      F acc + (partOf f acc.pf.longs sym + partOf g acc.pf.shorts sym))
    {cfg : Config} {s : Portfolio} (hw : WF [] s) :
    F (captureAcc cfg s quote) =
      F { pf := s.applyInterest cfg, equity := (s.applyInterest cfg).netCash cfg,
          marketValue := (s.applyInterest cfg).netCash cfg, margin := 0, longValue := 0 } +
        ((s.longs.map f).sum + (s.shorts.map g).sum) := by
  have hw1 : WF [] (s.applyInterest cfg) := hw.same (applyInterest_same cfg s)
  obtain ⟨c, a, hf⟩ := applyInterest_frame cfg s
  have hL : (s.applyInterest cfg).longs = s.longs := by rw [hf]
  have hS : (s.applyInterest cfg).shorts = s.shorts := by rw [hf]
  have hperm := List.perm_insertionSort (fun a b : Sym => a ≤ b) (s.applyInterest cfg).symbols
  have hnd : ((s.applyInterest cfg).symbols.insertionSort (fun a b => a ≤ b)).Nodup :=
    hperm.nodup_iff.2 hw1.symsNodup
  have hmem : ∀ pt, ∀ p ∈ s.book pt,
      p.symbol ∈ (s.applyInterest cfg).symbols.insertionSort (fun a b => a ≤ b) := by
    intro pt p hp
    refine hperm.mem_iff.2 ((hw1.syms p.symbol).2 ⟨pt, List.mem_map.2 ⟨p, ?_, rfl⟩⟩)
    rw [applyInterest_book]; exact hp
  unfold captureAcc
  simp only
  rw [captureFold_part hstep _ _ hnd, List.sum_map_add]
  simp only [hL, hS]
  have e1 := sum_lookup f hnd (hw.nodup .long) (hmem .long)
  have e2 := sum_lookup g hnd (hw.nodup .short) (hmem .short)
  change _ + ((List.map (partOf f (s.book .long)) _).sum +
    (List.map (partOf g (s.book .short)) _).sum) = _
  have f1 : (((s.applyInterest cfg).symbols.insertionSort (fun a b => a ≤ b)).map
      (partOf f (s.book .long))).sum = ((s.book .long).map f).sum := e1
  have f2 : (((s.applyInterest cfg).symbols.insertionSort (fun a b => a ≤ b)).map
      (partOf g (s.book .short))).sum = ((s.book .short).map g).sum := e2
  rw [f1, f2]
  rfl

/-- The margin `capture_bar` books for a short position. -/
def marginPart (quote : Sym → BarQuote) (p : Position) : ℚ :=
  match (quote p.symbol).close with
  | some c => c * p.shares
  | none => p.margin

theorem equity_step (quote : Sym → BarQuote) (acc : CaptureAcc) (sym : Sym) :
    (captureSym quote acc sym).equity = acc.equity +
      (partOf (quoted quote) acc.pf.longs sym +
        partOf Position.entryNotional acc.pf.shorts sym) := by
  unfold captureSym
  have h1 : (captureLong (quote sym) acc sym).equity =
      acc.equity + partOf (quoted quote) acc.pf.longs sym := by
    unfold captureLong partOf
    rcases Option.eq_none_or_eq_some (lookupPos acc.pf.longs sym) with hp | ⟨p, hp⟩
    · rw [hp]; simp
    · rw [hp]
      simp only
      unfold quoted
      rw [(lookupPos_some hp).2]
      cases (quote sym).close <;> rfl
  rw [← add_assoc, ← h1, ← captureLong_shorts (quote sym) acc sym]
  generalize captureLong (quote sym) acc sym = acc
  unfold captureShort partOf
  rcases Option.eq_none_or_eq_some (lookupPos acc.pf.shorts sym) with hp | ⟨p, hp⟩
  · rw [hp]; simp
  · rw [hp]
    simp only
    cases (quote sym).close <;> rfl

theorem longValue_step (quote : Sym → BarQuote) (acc : CaptureAcc) (sym : Sym) :
    (captureSym quote acc sym).longValue = acc.longValue +
      (partOf (quoted quote) acc.pf.longs sym + partOf (fun _ => 0) acc.pf.shorts sym) := by
  have h0 : partOf (fun _ => 0) acc.pf.shorts sym = 0 := by unfold partOf; split <;> rfl
  have h1 : (captureLong (quote sym) acc sym).longValue =
      acc.longValue + partOf (quoted quote) acc.pf.longs sym := by
    unfold captureLong partOf
    rcases Option.eq_none_or_eq_some (lookupPos acc.pf.longs sym) with hp | ⟨p, hp⟩
    · rw [hp]; simp
    · rw [hp]
      simp only
      unfold quoted
      rw [(lookupPos_some hp).2]
      cases (quote sym).close <;> rfl
  rw [h0, add_zero, ← h1]
  unfold captureSym captureShort
  split
  · rfl
  · split <;> rfl

theorem margin_step (quote : Sym → BarQuote) (acc : CaptureAcc) (sym : Sym) :
    (captureSym quote acc sym).margin = acc.margin +
      (partOf (fun _ => 0) acc.pf.longs sym + partOf (marginPart quote) acc.pf.shorts sym) := by
  have h0 : partOf (fun _ => 0) acc.pf.longs sym = 0 := by unfold partOf; split <;> rfl
  have h1 : (captureLong (quote sym) acc sym).margin = acc.margin := by
    unfold captureLong
    split
    · rfl
    · split <;> rfl
  unfold captureSym
  rw [h0, zero_add, ← h1, ← captureLong_shorts (quote sym) acc sym]
  generalize captureLong (quote sym) acc sym = acc
  unfold captureShort partOf
  rcases Option.eq_none_or_eq_some (lookupPos acc.pf.shorts sym) with hp | ⟨p, hp⟩
  · rw [hp]; simp
  · rw [hp]
    simp only
    unfold marginPart
    rw [(lookupPos_some hp).2]
    cases (quote sym).close <;> rfl

theorem capture_metrics (cfg : Config) (s : Portfolio) (date : Date) (quote : Sym → BarQuote) :
    (captureBar cfg s date quote).metrics = s.metrics ++
      [captureRecord cfg (captureTotals (captureAcc cfg s quote)) date
        (captureAcc cfg s quote).longValue] := by
  obtain ⟨c, a, hf⟩ := applyInterest_frame cfg s
  have hfold : ∀ (syms : List Sym) (acc : CaptureAcc),
      (syms.foldl (captureSym quote) acc).pf.metrics = acc.pf.metrics := by
    intro syms
    induction syms with
    | nil => intro acc; rfl
    | cons x xs ih =>
      intro acc
      rw [List.foldl_cons, ih]
      unfold captureSym captureShort captureLong
      repeat' split
      all_goals rfl
  have h2 : (captureAcc cfg s quote).pf.metrics = s.metrics := by
    unfold captureAcc
    simp only
    rw [hfold, hf]
  unfold captureBar
  simp only
  congr 1

theorem sum_zero {α : Type} (l : List α) : (l.map (fun _ => (0 : ℚ))).sum = 0 := by
  induction l with
  | nil => rfl
  | cons a l ih => rw [List.map_cons, List.sum_cons, ih, add_zero]

/-- Value of a position on a bar: at the close, or at its last mark without one. -/
def Spec.barValue (quote : Sym → BarQuote) (p : Position) : ℚ :=
  match (quote p.symbol).close with
  | some c => (p.entries.map Entry.shares).sum * c
  | none => heldMark p

/-- C73.  The bar recorded after any history: cash, fees and margin loan are those
of the portfolio; market value exceeds equity by the unrealised profit of the open
shorts, which is what `unrealized_pnl` reports; `pnl` is equity less initial cash,
so it includes the unrealised profit of longs; exposure is longs at mark plus the
short margin, which is the shorts at their closes when all have one. -/
theorem recorded_bar {cfg : Config} {ops : List Op} {s' : Portfolio} {date : Date}
    {quote : Sym → BarQuote} (hfit : ∀ op ∈ ops, op.Fit)
    (h : run cfg (ops ++ [.captureBar date quote]) = .ok s') :
    ∃ s bar, run cfg ops = .ok s ∧ s'.metrics = s.metrics ++ [bar] ∧ bar.date = date ∧
      bar.cash = s'.cash ∧ bar.fees = feesCharged s' ∧
      bar.marginLoan = openCost s' - openCost s' / lev cfg + s'.accrued ∧
      bar.netCashBalance = bar.cash - bar.marginLoan ∧
      bar.equity = cfg.cash + realised s' - feesCharged s' +
        interestPaid cfg (Portfolio.init cfg) (ops ++ [.captureBar date quote]) +
        (s.longs.map (posGain quote)).sum ∧
      bar.marketValue = bar.equity + (s.shorts.map (posGain quote)).sum ∧
      bar.unrealizedPnl = (s.shorts.map (posGain quote)).sum ∧
      bar.pnl = bar.equity - cfg.cash ∧
      bar.notional = (s.longs.map (barValue quote)).sum + bar.margin ∧
      ((∀ p ∈ s.shorts, (quote p.symbol).close ≠ none) →
        bar.margin = (s.shorts.map (barValue quote)).sum) := by
  obtain ⟨s, hs, hstep⟩ := run_snoc h
  have hs' : s' = captureBar cfg s date quote := by
    simp only [step] at hstep; exact (Except.ok.inj hstep).symm
  have hfit' : ∀ op ∈ ops ++ [Op.captureBar date quote], op.Fit := by
    intro op hop
    rcases List.mem_append.1 hop with h | h
    · exact hfit op h
    · rw [List.mem_singleton.1 h]; trivial
  obtain ⟨s0, bar, hs0, hm0, hd0, hmv⟩ := recorded_market_value hfit h
  have hss : s0 = s := Except.ok.inj (hs0.symm.trans hs)
  subst hss
  have hg := (run_good hfit hs).1
  have hmk := run_marks hfit hs
  have hlog := run_log hfit' h
  have hmet := capture_metrics cfg s0 date quote
  have hbar : bar = captureRecord cfg (captureTotals (captureAcc cfg s0 quote)) date
      (captureAcc cfg s0 quote).longValue := by
    rw [← hs', hm0] at hmet
    exact List.head_eq_of_cons_eq (List.append_cancel_left hmet)
  have e1 := captureAcc_part (F := CaptureAcc.equity) (equity_step quote) (cfg := cfg) hg.wf
  have e2 := captureAcc_part (F := CaptureAcc.longValue) (longValue_step quote) (cfg := cfg) hg.wf
  have e3 := captureAcc_part (F := CaptureAcc.margin) (margin_step quote) (cfg := cfg) hg.wf
  have e4 := captureBar_mv (cfg := cfg) date quote hg.wf
  rw [sum_zero, add_zero, zero_add] at e2
  rw [sum_zero, zero_add, zero_add] at e3
  have hmvb : bar.marketValue = (captureBar cfg s0 date quote).marketValue := by rw [hbar]; rfl
  have heqb : bar.equity = (captureAcc cfg s0 quote).equity := by rw [hbar]; rfl
  have hunr : bar.unrealizedPnl = bar.marketValue - bar.equity := by rw [hbar]; rfl
  have hS : (s0.shorts.map (posGain quote)).sum =
      (s0.shorts.map (fun p => 2 * p.entryNotional - quoted quote p)).sum -
        (s0.shorts.map Position.entryNotional).sum := by
    have : s0.shorts.map (posGain quote) = s0.shorts.map (fun p =>
        (2 * p.entryNotional - quoted quote p) - p.entryNotional) :=
      List.map_congr_left fun p hp => by
        rw [posGain_short (hg.wf.pos .short p hp) (hmk.pos .short p hp)]; ring
    rw [this]
    exact sum_map_sub (fun p => 2 * p.entryNotional - quoted quote p) Position.entryNotional
      s0.shorts
  have hgap : bar.marketValue = bar.equity + (s0.shorts.map (posGain quote)).sum := by
    rw [hmvb, heqb, e4, e1, hS]
    ring
  have hval : ∀ pt, ∀ p ∈ s0.book pt, quoted quote p = barValue quote p := by
    intro pt p hp
    unfold quoted barValue
    have hpw := hg.wf.pos pt p hp
    cases (quote p.symbol).close with
    | none => exact marked_spec hpw (hmk.pos pt p hp)
    | some c => simp only; rw [hpw.shares]
  have hloan := (margin_loan_nonneg hfit' h).1
  refine ⟨s0, bar, hs, hm0, hd0, ?_, ?_, ?_, ?_, ?_, hgap, ?_, ?_, ?_, ?_⟩
  · rw [hbar, hs']; rfl
  · unfold feesCharged
    rw [← hlog.fees, hbar, hs']
    rfl
  · rw [← hloan, hbar, hs']; rfl
  · rw [hbar]; rfl
  · rw [List.map_append, List.sum_append] at hmv
    linarith
  · rw [hunr, hgap]; ring
  · rw [hbar]; rfl
  · have h1 : bar.notional = (captureAcc cfg s0 quote).longValue + bar.margin := by rw [hbar]; rfl
    have h2 : s0.longs.map (quoted quote) = s0.longs.map (barValue quote) :=
      List.map_congr_left (hval .long)
    rw [h1, e2, h2]
  · intro hall
    have h1 : bar.margin = (captureAcc cfg s0 quote).margin := by rw [hbar]; rfl
    rw [h1, e3]
    congr 1
    refine List.map_congr_left (fun p hp => ?_)
    obtain ⟨c, hc⟩ := Option.ne_none_iff_exists'.1 (hall p hp)
    unfold marginPart barValue
    rw [hc]
    simp only
    rw [(hg.wf.pos .short p hp).shares, mul_comm]

example := recorded_bar Demo.fit2 (cfg := Demo.cfg) (date := 2) (quote := Demo.quote)
  (Demo.ok_okD (d := Demo.s1) (by decide +kernel))

/-- The shorts of that history have an unrealised loss, so the sums are not zero. -/
example : (Demo.s2.shorts.map (posGain Demo.quote)).sum = -50 := by decide +kernel

/-- The margin of a short that was partly covered on a bar without a close is not
reduced: 50 shares at 21 stay booked although 10 were covered. -/
def Demo.staleOps : List Op :=
  [ .sell { date := 1, symbol := "BBB", shares := 50, fill := 20 },
    .captureBar 1 Demo.quote,
    .buy { date := 2, symbol := "BBB", shares := 10, fill := 21 },
    .captureBar 2 (fun _ => ⟨none, none, none⟩) ]

theorem margin_stale_without_close :
    ∃ s, run Demo.cfg Demo.staleOps = .ok s ∧ held s.shorts "BBB" = 40 ∧
      s.metrics.getLast?.map PortfolioBar.margin = some (50 * 21) := by
  refine ⟨_, Demo.ok_okD (d := Demo.s1) (by decide +kernel), ?_⟩
  decide +kernel

end PyBroker
