import Verif.Portfolio.Ledger
import Verif.Props.Demo

/-!
# C01, C02, C15, C16: cash, market value, margin loan and interest

`run cfg ops = .ok s`: the calls `ops` on a new portfolio all returned, and
left `s`.  `Op.Fit`: the stops passed to a buy are long stops of the symbol
bought, those passed to a sell short stops of the symbol sold.
-/

namespace PyBroker

open Spec

/-- C01. -/
theorem cash_ledger {cfg : Config} {ops : List Op} {s : Portfolio} (hfit : ∀ op ∈ ops, op.Fit)
    (h : run cfg ops = .ok s) :
    s.cash + openCost s / lev cfg - s.accrued =
      cfg.cash + realised s - feesCharged s + interestPaid cfg (Portfolio.init cfg) ops := by
  have hl := ledger_run hfit h
  have hg := run_log hfit h
  rw [openCost_eq (run_good hfit h).1.wf, lev_eq]
  unfold ledger at hl
  unfold realised feesCharged
  rw [← hg.pnl, ← hg.fees]
  linarith

theorem marked_spec {pt : PosType} {p : Position} (hw : PosWF pt [] p) (hm : MarkOK p) :
    p.markedValue = heldMark p := by
  unfold Position.markedValue heldMark cost
  by_cases hc : p.close ≤ 0
  · rw [if_pos hc, if_neg (not_lt.2 hc), hw.notional]
  · rw [if_neg hc, if_pos (not_le.1 hc)]
    simp only
    split
    · have : p.shares - p.unmarkedShares = 0 := by linarith [hm.le]
      rw [this]; ring
    · rfl

theorem posGain_long {quote : Sym → BarQuote} {p : Position} (hw : PosWF .long [] p)
    (hm : MarkOK p) : posGain quote p = quoted quote p - p.entryNotional := by
  unfold posGain quoted
  cases (quote p.symbol).close with
  | none =>
    simp only [hw.type]
    rw [marked_spec hw hm, hw.notional]; rfl
  | some c =>
    simp only
    have hu : p.entries.map (fun e => unrealised e c) = p.entries.map (Entry.pnlAt .long c) := by
      apply List.map_congr_left
      intro e he
      unfold unrealised Entry.pnlAt
      rw [(hw.entries e he).type]
      ring
    rw [hu, sum_pnlAt_long, hw.shares, hw.notional]

theorem posGain_short {quote : Sym → BarQuote} {p : Position} (hw : PosWF .short [] p)
    (hm : MarkOK p) : posGain quote p = p.entryNotional - quoted quote p := by
  unfold posGain quoted
  cases (quote p.symbol).close with
  | none =>
    simp only [hw.type]
    rw [marked_spec hw hm, hw.notional]; rfl
  | some c =>
    simp only
    have hu : p.entries.map (fun e => unrealised e c) = p.entries.map (Entry.pnlAt .short c) := by
      apply List.map_congr_left
      intro e he
      unfold unrealised Entry.pnlAt
      rw [(hw.entries e he).type]
      ring
    rw [hu, sum_pnlAt_short, hw.shares, hw.notional]

theorem sum_map_sub {α : Type} (f g : α → ℚ) (l : List α) :
    (l.map (fun a => f a - g a)).sum = (l.map f).sum - (l.map g).sum := by
  induction l with
  | nil => simp
  | cons a l ih => simp only [List.map_cons, List.sum_cons, ih]; ring

theorem run_snoc {cfg : Config} {ops : List Op} {op : Op} {s' : Portfolio}
    (h : run cfg (ops ++ [op]) = .ok s') :
    ∃ s, run cfg ops = .ok s ∧ step cfg s op = .ok s' := by
  unfold run runFrom at h ⊢
  rw [foldE_append] at h
  cases hr : foldE (step cfg) (Portfolio.init cfg) ops with
  | error e => rw [hr] at h; cases h
  | ok s =>
    rw [hr] at h
    refine ⟨s, rfl, ?_⟩
    simp only [foldE] at h
    cases hs : step cfg s op with
    | error e => rw [hs] at h; cases h
    | ok t => rw [hs] at h; exact h

theorem sum_posGain {cfg : Config} {s : Portfolio} (hg : Good s) (hm : MarksInv s)
    (quote : Sym → BarQuote) (date : Date) :
    (captureBar cfg s date quote).marketValue = (s.applyInterest cfg).netCash cfg +
      s.longNotional + s.shortNotional + ((s.longs ++ s.shorts).map (posGain quote)).sum := by
  rw [captureBar_mv date quote hg.wf, List.map_append, List.sum_append]
  have hL : s.longs.map (posGain quote) =
      s.longs.map (fun p => quoted quote p - p.entryNotional) :=
    List.map_congr_left fun p hp => posGain_long (hg.wf.pos .long p hp) (hm.pos .long p hp)
  have hS : s.shorts.map (posGain quote) =
      s.shorts.map (fun p => (2 * p.entryNotional - quoted quote p) - p.entryNotional) :=
    List.map_congr_left fun p hp => by
      rw [posGain_short (hg.wf.pos .short p hp) (hm.pos .short p hp)]; ring
  have hL2 := sum_map_sub (quoted quote) Position.entryNotional s.longs
  have hS2 := sum_map_sub (fun p => 2 * p.entryNotional - quoted quote p)
    Position.entryNotional s.shorts
  rw [← hL] at hL2
  rw [← hS] at hS2
  have h1 : s.longNotional = (s.longs.map Position.entryNotional).sum := hg.wf.notional .long
  have h2 : s.shortNotional = (s.shorts.map Position.entryNotional).sum := hg.wf.notional .short
  rw [h1, h2]; linarith

/-- C02.  The bar recorded by `capture_bar` after any history. -/
theorem recorded_market_value {cfg : Config} {ops : List Op} {s' : Portfolio} {date : Date}
    {quote : Sym → BarQuote} (hfit : ∀ op ∈ ops, op.Fit)
    (h : run cfg (ops ++ [.captureBar date quote]) = .ok s') :
    ∃ s bar, run cfg ops = .ok s ∧ s'.metrics = s.metrics ++ [bar] ∧ bar.date = date ∧
      bar.marketValue = cfg.cash + realised s' - feesCharged s' +
        interestPaid cfg (Portfolio.init cfg) (ops ++ [.captureBar date quote]) +
        ((s.longs ++ s.shorts).map (posGain quote)).sum := by
  obtain ⟨s, hs, hstep⟩ := run_snoc h
  have hs' : s' = captureBar cfg s date quote := by
    simp only [step] at hstep; exact (Except.ok.inj hstep).symm
  have hfit' : ∀ op ∈ ops ++ [Op.captureBar date quote], op.Fit := by
    intro op hop
    rcases List.mem_append.1 hop with h | h
    · exact hfit op h
    · rw [List.mem_singleton.1 h]; trivial
  have hgood := (run_good hfit hs).1
  have hm := run_marks hfit hs
  have hl := ledger_run hfit' h
  have hlog := run_log hfit' h
  have hlogs := run_log hfit hs
  have hcap := ledger_capture cfg s date quote
  have hint := applyInterest_netCash cfg s
  have hnet := netCash_ledger cfg s
  have hmv := sum_posGain (cfg := cfg) hgood hm quote date
  have hsl := sameLog_capture cfg s date quote
  obtain ⟨c, a, hf⟩ := applyInterest_frame cfg s
  have hmet : s'.metrics = s.metrics ++
      [captureRecord cfg (captureTotals (captureAcc cfg s quote)) date
        (captureAcc cfg s quote).longValue] := by
    have : ∀ (syms : List Sym) (acc : CaptureAcc),
        (syms.foldl (captureSym quote) acc).pf.metrics = acc.pf.metrics := by
      intro syms
      induction syms with
      | nil => intro acc; rfl
      | cons x xs ih =>
        intro acc
        rw [List.foldl_cons, ih]
        unfold captureSym captureShort captureLong
        repeat' split
        all_goals rfl
    rw [hs']
    unfold captureBar
    simp only
    congr 1
    have h2 : (captureAcc cfg s quote).pf.metrics = s.metrics := by
      unfold captureAcc
      simp only
      rw [this, hf]
    exact h2
  refine ⟨s, _, hs, hmet, rfl, ?_⟩
  have hb : (captureRecord cfg (captureTotals (captureAcc cfg s quote)) date
      (captureAcc cfg s quote).longValue).marketValue = (captureBar cfg s date quote).marketValue :=
    rfl
  rw [hb, hmv, hint, hnet]
  unfold realised feesCharged
  rw [hs', hcap] at hl
  have e1 : s'.pnl = s.pnl := by rw [hs', hsl.pnl, hf]
  have e2 : s'.fees = s.fees := by rw [hs', hsl.fees, hf]
  rw [← hlog.pnl, ← hlog.fees, e1, e2]
  linarith

/-- C15. -/
theorem margin_loan_nonneg {cfg : Config} {ops : List Op} {s : Portfolio}
    (hfit : ∀ op ∈ ops, op.Fit) (h : run cfg ops = .ok s) :
    s.marginLoan cfg = openCost s - openCost s / lev cfg + s.accrued ∧
      0 ≤ s.accrued ∧ 0 ≤ s.marginLoan cfg ∧
      (cfg.leverage ≤ 1 → s.accrued = 0 → s.marginLoan cfg = 0) := by
  have hg := (run_good hfit h).1
  have hacc : 0 ≤ s.accrued :=
    run_inv (P := fun s => 0 ≤ s.accrued) hfit h
      (fun s t hp hs => by rw [accrued_prim hp]; exact hs)
      (fun s date quote _ hs => by
        rw [(sameLog_capture cfg s date quote).accrued]; exact applyInterest_accrued hs)
      (le_refl _)
  have hcost : 0 ≤ openCost s := by
    unfold openCost
    apply List.sum_nonneg
    intro x hx
    obtain ⟨e, he, rfl⟩ := List.mem_map.1 hx
    unfold openEntries at he
    obtain ⟨p, hp, hep⟩ := List.mem_flatMap.1 he
    have : ∃ pt, p ∈ s.book pt := by
      rcases List.mem_append.1 hp with h | h
      · exact ⟨.long, h⟩
      · exact ⟨.short, h⟩
    obtain ⟨pt, hpt⟩ := this
    have ho := (hg.wf.pos pt p hpt).entries e hep
    rcases ho.shares with h | h
    · rw [h.2]; simp
    · exact (mul_pos h.2 ho.price).le
  have heq : s.marginLoan cfg = openCost s - openCost s / lev cfg + s.accrued := by
    have := netBalance_eq (cfg := cfg) hg.wf
    unfold netBalance Portfolio.netCash at this
    linarith
  have hlev : 1 ≤ lev cfg := by unfold lev; split <;> linarith
  have hdiv : openCost s / lev cfg ≤ openCost s := div_le_self hcost hlev
  refine ⟨heq, hacc, by rw [heq]; linarith, fun h1 h0 => ?_⟩
  rw [heq, h0]
  unfold lev
  rw [if_neg (not_lt.2 h1)]
  simp

theorem applyInterest_cash_nonneg {cfg : Config} {s : Portfolio} (h : 0 ≤ s.cash) :
    0 ≤ (s.applyInterest cfg).cash := by
  have hsweep : 0 ≤ s.sweepAccrued.cash := by
    unfold Portfolio.sweepAccrued
    split
    · exact h
    · simp only
      have := min_le_left s.cash s.accrued
      linarith
  unfold Portfolio.applyInterest
  split
  · exact h
  · rename_i n _
    split
    · exact h
    · rename_i hr
      simp only
      split
      · exact hsweep
      · split
        · exact hsweep
        · simp only
          have : 0 ≤ |s.sweepAccrued.netCash cfg| * (cfg.interestRate / 100 / n) := by
            have := not_le.1 hr
            positivity
          linarith

/-- C16.  Capturing a bar moves the net balance by one bar's interest on it;
neither cash nor the interest debt is made negative, and positions are not
touched. -/
theorem interest_step {cfg : Config} {ops : List Op} {s : Portfolio} (hfit : ∀ op ∈ ops, op.Fit)
    (h : run cfg ops = .ok s) (date : Date) (quote : Sym → BarQuote) :
    let s' := captureBar cfg s date quote
    netBalance cfg s' = netBalance cfg s + perBarInterest cfg (netBalance cfg s) ∧
      0 ≤ s'.accrued ∧ (0 ≤ s.cash → 0 ≤ s'.cash) ∧
      openCost s' = openCost s := by
  intro s'
  have hg := (run_good hfit h).1
  have hsl := sameLog_capture cfg s date quote
  have hg' : Good s' := hg.same (captureBar_same cfg s date quote)
  have hn : s'.netCash cfg = (s.applyInterest cfg).netCash cfg := by
    unfold Portfolio.netCash Portfolio.marginLoan
    rw [hsl.cash, hsl.accrued, hsl.longNotional, hsl.shortNotional]
  obtain ⟨c, a, hf⟩ := applyInterest_frame cfg s
  refine ⟨?_, ?_, ?_, ?_⟩
  · rw [netBalance_eq hg'.wf, hn, applyInterest_netCash, perBarInterest_eq hg.wf,
      netBalance_eq hg.wf]
  · rw [hsl.accrued]; exact applyInterest_accrued (margin_loan_nonneg hfit h).2.1
  · intro hc; rw [hsl.cash]; exact applyInterest_cash_nonneg hc
  · rw [openCost_eq hg'.wf, openCost_eq hg.wf, hsl.longNotional, hsl.shortNotional, hf]

/-! ### The hypotheses are met -/

example : Demo.final.cash + openCost Demo.final / lev Demo.cfg - Demo.final.accrued =
    Demo.cfg.cash + realised Demo.final - feesCharged Demo.final +
      interestPaid Demo.cfg (Portfolio.init Demo.cfg) Demo.ops :=
  cash_ledger Demo.fit Demo.run_final

/-- The sums are not trivially zero. -/
example : realised Demo.final = 60 ∧ feesCharged Demo.final = 7 ∧ openCost Demo.s2 = 3040 ∧
    0 < interestPaid Demo.cfg (Portfolio.init Demo.cfg) Demo.ops := by decide +kernel

example := recorded_market_value Demo.fit2 (cfg := Demo.cfg) (date := 2) (quote := Demo.quote)
  (Demo.ok_okD (d := Demo.s1) (by decide +kernel))

/-- With leverage 2 the loan is positive while positions are open. -/
example : 0 < Demo.s2.marginLoan Demo.cfg := by decide +kernel
example := margin_loan_nonneg Demo.fit2 Demo.run_s2
example := interest_step Demo.fit2 Demo.run_s2 3 Demo.quote

end PyBroker
