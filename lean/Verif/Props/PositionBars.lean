import Verif.Portfolio.PositionBars
import Verif.Props.Capture
import Mathlib.Data.List.Sort
import Mathlib.Data.String.Basic

/-!
# The positions table (C114)
-/

namespace PyBroker

open PyBroker.Spec

namespace Spec

/-- The entries a book holds of a symbol. -/
def lotsOf (ps : List Position) (sym : Sym) : List Entry :=
  (ps.filter (fun p => p.symbol = sym)).flatMap Position.entries

/-- The shares held of a symbol. -/
def sharesHeld (ps : List Position) (sym : Sym) : ℚ := ((lotsOf ps sym).map Entry.shares).sum

/-- What the shares held of a symbol were opened for. -/
def costHeld (ps : List Position) (sym : Sym) : ℚ :=
  ((lotsOf ps sym).map (fun e => e.shares * e.price)).sum

/-- The row of a position on a bar. -/
structure PositionRow (s : Portfolio) (date : Date) (quote : Sym → BarQuote) (r : PositionBar) :
    Prop where
  held : ∃ p ∈ s.longs ++ s.shorts, p.symbol = r.symbol
  date : r.date = date
  close : (quote r.symbol).close = some r.close
  long : r.longShares = sharesHeld s.longs r.symbol
  short : r.shortShares = sharesHeld s.shorts r.symbol
  margin : r.margin = r.shortShares * r.close
  unrealized : r.unrealizedPnl = (r.longShares * r.close - costHeld s.longs r.symbol) +
    (costHeld s.shorts r.symbol - r.shortShares * r.close)
  equity : r.equity = r.longShares * r.close +
    (costHeld s.shorts r.symbol + (costHeld s.shorts r.symbol - r.shortShares * r.close))
  marketValue : r.marketValue = r.longShares * r.close + costHeld s.shorts r.symbol

end Spec

theorem filter_lookup {ps : List Position} (hn : (ps.map Position.symbol).Nodup) (sym : Sym) :
    ps.filter (fun p => p.symbol = sym) = (lookupPos ps sym).toList := by
  induction ps with
  | nil => rfl
  | cons p ps ih =>
    obtain ⟨hp, hn⟩ := List.nodup_cons.1 hn
    unfold lookupPos
    by_cases h : p.symbol = sym
    · rw [if_pos h, List.filter_cons_of_pos (by simpa using h), ih hn]
      have : lookupPos ps sym = none := lookupPos_none'.2 (h ▸ hp)
      rw [this]
      rfl
    · rw [if_neg h, List.filter_cons_of_neg (by simpa using h), ih hn]

theorem held_none {ps : List Position} (hn : (ps.map Position.symbol).Nodup) {sym : Sym}
    (h : lookupPos ps sym = none) : sharesHeld ps sym = 0 ∧ costHeld ps sym = 0 := by
  unfold sharesHeld costHeld lotsOf
  rw [filter_lookup hn, h]
  exact ⟨rfl, rfl⟩

theorem held_some {ps : List Position} (hn : (ps.map Position.symbol).Nodup) {sym : Sym}
    {p : Position} {pt : PosType} {Z : List Nat} (hp : PosWF pt Z p)
    (h : lookupPos ps sym = some p) :
    sharesHeld ps sym = p.shares ∧ costHeld ps sym = p.entryNotional := by
  unfold sharesHeld costHeld lotsOf
  rw [filter_lookup hn, h, hp.notional]
  simp [hp.shares]

/-- The row of a symbol, in terms of the entries held. -/
theorem posBar_spec {s : Portfolio} (hw : WF [] s) (date : Date) (quote : Sym → BarQuote)
    (sym : Sym) (r : PositionBar) :
    posBar date (quote sym) s sym = some r ↔ r.symbol = sym ∧ r.date = date ∧
      (quote sym).close = some r.close ∧ r.longShares = sharesHeld s.longs sym ∧
      r.shortShares = sharesHeld s.shorts sym ∧ r.margin = r.shortShares * r.close ∧
      r.unrealizedPnl = (r.longShares * r.close - costHeld s.longs sym) +
        (costHeld s.shorts sym - r.shortShares * r.close) ∧
      r.equity = r.longShares * r.close +
        (costHeld s.shorts sym + (costHeld s.shorts sym - r.shortShares * r.close)) ∧
      r.marketValue = r.longShares * r.close + costHeld s.shorts sym := by
  unfold posBar
  cases hc : (quote sym).close with
  | none =>
    simp only
    constructor
    · intro h; cases h
    · rintro ⟨_, _, h, _⟩; cases h
  | some c =>
    simp only
    have hL : ∃ l : Option Position, lookupPos s.longs sym = l ∧
        (l.map (fun p => p.markLong c (quote sym).low (quote sym).high)).elim 0 Position.shares =
          sharesHeld s.longs sym ∧
        (l.map (fun p => p.markLong c (quote sym).low (quote sym).high)).elim 0 Position.equity =
          sharesHeld s.longs sym * c ∧
        (l.map (fun p => p.markLong c (quote sym).low (quote sym).high)).elim 0
          Position.marketValue = sharesHeld s.longs sym * c ∧
        (l.map (fun p => p.markLong c (quote sym).low (quote sym).high)).elim 0 Position.pnl =
          sharesHeld s.longs sym * c - costHeld s.longs sym := by
      rcases Option.eq_none_or_eq_some (lookupPos s.longs sym) with h | ⟨p, h⟩
      · obtain ⟨e1, e2⟩ := held_none (ps := s.longs) (hw.nodup .long) h
        refine ⟨none, h, ?_⟩
        rw [e1, e2]
        simp
      · have hp := hw.pos .long p (lookupPos_some h).1
        obtain ⟨e1, e2⟩ := held_some (ps := s.longs) (hw.nodup .long) hp h
        refine ⟨some p, h, ?_⟩
        rw [e1, e2]
        refine ⟨rfl, rfl, rfl, ?_⟩
        show (p.entries.map (Entry.pnlAt p.type c)).sum = _
        rw [hp.type, sum_pnlAt_long, hp.notional, hp.shares]
    have hS : ∃ l : Option Position, lookupPos s.shorts sym = l ∧
        (l.map (fun p => (p.entryNotional,
          p.markShort c (quote sym).low (quote sym).high))).elim 0 (fun x => x.2.shares) =
          sharesHeld s.shorts sym ∧
        (l.map (fun p => (p.entryNotional,
          p.markShort c (quote sym).low (quote sym).high))).elim 0 (fun x => x.1 + x.2.pnl) =
          costHeld s.shorts sym + (costHeld s.shorts sym - sharesHeld s.shorts sym * c) ∧
        (l.map (fun p => (p.entryNotional,
          p.markShort c (quote sym).low (quote sym).high))).elim 0 (fun x => x.2.marketValue) =
          costHeld s.shorts sym ∧
        (l.map (fun p => (p.entryNotional,
          p.markShort c (quote sym).low (quote sym).high))).elim 0 (fun x => x.2.margin) =
          sharesHeld s.shorts sym * c ∧
        (l.map (fun p => (p.entryNotional,
          p.markShort c (quote sym).low (quote sym).high))).elim 0 (fun x => x.2.pnl) =
          costHeld s.shorts sym - sharesHeld s.shorts sym * c := by
      rcases Option.eq_none_or_eq_some (lookupPos s.shorts sym) with h | ⟨p, h⟩
      · obtain ⟨e1, e2⟩ := held_none (ps := s.shorts) (hw.nodup .short) h
        refine ⟨none, h, ?_⟩
        rw [e1, e2]
        simp
      · have hp := hw.pos .short p (lookupPos_some h).1
        obtain ⟨e1, e2⟩ := held_some (ps := s.shorts) (hw.nodup .short) hp h
        have hpnl : (p.markShort c (quote sym).low (quote sym).high).pnl =
            p.entryNotional - p.shares * c := by
          show (p.entries.map (Entry.pnlAt p.type c)).sum = _
          rw [hp.type, sum_pnlAt_short, hp.notional, hp.shares]
        refine ⟨some p, h, ?_⟩
        rw [e1, e2]
        refine ⟨rfl, ?_, ?_, ?_, hpnl⟩
        · show p.entryNotional + (p.markShort c (quote sym).low (quote sym).high).pnl = _
          rw [hpnl]
        · show c * p.shares + (p.markShort c (quote sym).low (quote sym).high).pnl = _
          rw [hpnl]; ring
        · show c * p.shares = _
          ring
    obtain ⟨l, hl, l1, l2, l3, l4⟩ := hL
    obtain ⟨sh, hs, s1, s2, s3, s4, s5⟩ := hS
    rw [hl, hs, l1, l2, l3, l4, s1, s2, s3, s4, s5]
    constructor
    · intro h
      cases h
      exact ⟨rfl, rfl, rfl, rfl, rfl, rfl, rfl, rfl, rfl⟩
    · rintro ⟨h1, h2, h3, h4, h5, h6, h7, h8, h9⟩
      cases h3
      rcases r with ⟨a1, a2, a3, a4, a5, a6, a7, a8, a9⟩
      simp only at h1 h2 h4 h5 h6 h7 h8 h9
      subst h1 h2 h4 h5 h6 h7 h8 h9
      rfl

theorem mem_capturedRows (cfg : Config) {s : Portfolio} (hw : WF [] s) (date : Date)
    (quote : Sym → BarQuote) (r : PositionBar) :
    r ∈ capturedRows cfg s date quote ↔ PositionRow s date quote r := by
  have hperm := List.perm_insertionSort (fun a b : Sym => a ≤ b) s.symbols
  have hsym : ∀ sym, sym ∈ s.symbols ↔ ∃ p ∈ s.longs ++ s.shorts, p.symbol = sym := by
    intro sym
    rw [hw.syms]
    constructor
    · rintro ⟨pt, h⟩
      obtain ⟨p, hp, he⟩ := List.mem_map.1 h
      refine ⟨p, ?_, he⟩
      cases pt
      · exact List.mem_append_left _ hp
      · exact List.mem_append_right _ hp
    · rintro ⟨p, hp, he⟩
      rcases List.mem_append.1 hp with h | h
      · exact ⟨.long, List.mem_map.2 ⟨p, h, he⟩⟩
      · exact ⟨.short, List.mem_map.2 ⟨p, h, he⟩⟩
  rw [capturedRows_eq cfg hw, List.mem_flatMap]
  constructor
  · rintro ⟨sym, hs, hr⟩
    have hr := Option.mem_toList.1 hr
    obtain ⟨h1, h2, h3, h4, h5, h6, h7, h8, h9⟩ := (posBar_spec hw date quote sym r).1 hr
    subst h1
    exact ⟨(hsym _).1 (hperm.mem_iff.1 hs), h2, h3, h4, h5, h6, h7, h8, h9⟩
  · rintro ⟨h1, h2, h3, h4, h5, h6, h7, h8, h9⟩
    refine ⟨r.symbol, hperm.mem_iff.2 ((hsym _).2 h1), Option.mem_toList.2 ?_⟩
    exact (posBar_spec hw date quote _ r).2 ⟨rfl, h2, h3, h4, h5, h6, h7, h8, h9⟩

theorem sorted_capturedRows (cfg : Config) {s : Portfolio} (hw : WF [] s) (date : Date)
    (quote : Sym → BarQuote) :
    (capturedRows cfg s date quote).Pairwise (fun a b => a.symbol < b.symbol) := by
  rw [capturedRows_eq cfg hw]
  have hperm := List.perm_insertionSort (fun a b : Sym => a ≤ b) s.symbols
  have hnd : (s.symbols.insertionSort (fun a b => a ≤ b)).Nodup :=
    hperm.nodup_iff.2 hw.symsNodup
  have hsort : (s.symbols.insertionSort (fun a b => a ≤ b)).Pairwise (fun a b => a ≤ b) :=
    List.pairwise_insertionSort _ _
  have hlt : (s.symbols.insertionSort (fun a b => a ≤ b)).Pairwise (fun a b => a < b) :=
    (hsort.and hnd).imp (fun h => lt_of_le_of_ne h.1 h.2)
  generalize s.symbols.insertionSort (fun a b => a ≤ b) = syms at hlt
  have hsy : ∀ sym r, r ∈ (posBar date (quote sym) s sym).toList → r.symbol = sym := fun sym r hr =>
    ((posBar_spec hw date quote sym r).1 (Option.mem_toList.1 hr)).1
  induction syms with
  | nil => exact .nil
  | cons a syms ih =>
    obtain ⟨h1, h2⟩ := List.pairwise_cons.1 hlt
    rw [List.flatMap_cons, List.pairwise_append]
    refine ⟨?_, ih h2, ?_⟩
    · cases posBar date (quote a) s a <;> simp
    · intro x hx y hy
      obtain ⟨b, hb, hy⟩ := List.mem_flatMap.1 hy
      rw [hsy _ _ hx, hsy _ _ hy]
      exact h1 b hb

theorem runRec_ok {cfg : Config} {ops : List Op} {x : Portfolio × List PositionBar}
    (h : runRec cfg ops = .ok x) : run cfg ops = .ok x.1 := by
  have := runRec_run cfg ops (Portfolio.init cfg, [])
  unfold runRec at h
  rw [h] at this
  exact this.symm

theorem runRec_snoc {cfg : Config} {ops : List Op} {op : Op} {x' : Portfolio × List PositionBar}
    (h : runRec cfg (ops ++ [op]) = .ok x') :
    ∃ x, runRec cfg ops = .ok x ∧ step cfg x.1 op = .ok x'.1 ∧ x'.2 = x.2 ++ op.rows cfg x.1 := by
  unfold runRec at h ⊢
  rw [foldE_append] at h
  cases hr : foldE (stepRec cfg) (Portfolio.init cfg, []) ops with
  | error e => rw [hr] at h; cases h
  | ok x =>
    rw [hr] at h
    refine ⟨x, rfl, ?_⟩
    simp only [foldE, stepRec] at h
    cases hs : step cfg x.1 op with
    | error e => rw [hs] at h; cases h
    | ok t =>
      rw [hs] at h
      cases h
      exact ⟨rfl, rfl⟩

/-- **C114.** After any history a captured bar adds one row for every symbol held that has a close on
it, in the order of their names, and nothing else adds rows.  The row states the shares held, their
value at the close and their gain over what they were opened for. -/
theorem position_rows {cfg : Config} {ops : List Op} {op : Op}
    {s' : Portfolio} {rows' : List PositionBar} (hfit : ∀ o ∈ ops, o.Fit)
    (h : runRec cfg (ops ++ [op]) = .ok (s', rows')) :
    ∃ s rows new, runRec cfg ops = .ok (s, rows) ∧ run cfg ops = .ok s ∧ rows' = rows ++ new ∧
      ((∀ date quote, op ≠ .captureBar date quote) → new = []) ∧
      ∀ date quote, op = .captureBar date quote →
        new.Pairwise (fun a b => a.symbol < b.symbol) ∧
        ∀ r, r ∈ new ↔ PositionRow s date quote r := by
  obtain ⟨x, hx, _, he⟩ := runRec_snoc h
  have hrun := runRec_ok hx
  have hg := (run_good hfit hrun).1
  refine ⟨x.1, x.2, op.rows cfg x.1, hx, hrun, he, ?_, ?_⟩
  · intro hne
    cases op with
    | captureBar date quote => exact absurd rfl (hne date quote)
    | _ => rfl
  · rintro date quote rfl
    exact ⟨sorted_capturedRows cfg hg.wf date quote, mem_capturedRows cfg hg.wf date quote⟩

/-- **C114.** Recording position bars does not change what the portfolio does. -/
theorem recording_is_silent (cfg : Config) (ops : List Op) :
    (runRec cfg ops).map Prod.fst = run cfg ops :=
  runRec_run cfg ops (Portfolio.init cfg, [])

/-! ## The rows and the portfolio's own bar -/

theorem part_cost {s : Portfolio} (hw : WF [] s) (pt : PosType) (sym : Sym) :
    partOf Position.entryNotional (s.book pt) sym = costHeld (s.book pt) sym := by
  unfold partOf
  rcases Option.eq_none_or_eq_some (lookupPos (s.book pt) sym) with h | ⟨p, h⟩
  · rw [h, (held_none (hw.nodup pt) h).2]
  · rw [h, (held_some (hw.nodup pt) (hw.pos pt p (lookupPos_some h).1) h).2]

theorem part_quoted {s : Portfolio} (hw : WF [] s) (pt : PosType) {quote : Sym → BarQuote}
    {sym : Sym} {c : ℚ} (hc : (quote sym).close = some c) :
    partOf (quoted quote) (s.book pt) sym = sharesHeld (s.book pt) sym * c := by
  unfold partOf
  rcases Option.eq_none_or_eq_some (lookupPos (s.book pt) sym) with h | ⟨p, h⟩
  · rw [h, (held_none (hw.nodup pt) h).1]; simp
  · rw [h, (held_some (hw.nodup pt) (hw.pos pt p (lookupPos_some h).1) h).1]
    simp only
    unfold quoted
    rw [(lookupPos_some h).2, hc]

theorem rows_sum (cfg : Config) {s : Portfolio} (hw : WF [] s) (date : Date)
    {quote : Sym → BarQuote} (hq : ∀ p ∈ s.longs ++ s.shorts, (quote p.symbol).close ≠ none)
    (g : PositionBar → ℚ) (f1 f2 : Position → ℚ)
    (hg : ∀ sym r, posBar date (quote sym) s sym = some r →
      g r = partOf f1 s.longs sym + partOf f2 s.shorts sym) :
    ((capturedRows cfg s date quote).map g).sum = (s.longs.map f1).sum + (s.shorts.map f2).sum := by
  rw [capturedRows_eq cfg hw]
  have hperm := List.perm_insertionSort (fun a b : Sym => a ≤ b) s.symbols
  have hnd : (s.symbols.insertionSort (fun a b => a ≤ b)).Nodup := hperm.nodup_iff.2 hw.symsNodup
  have hin : ∀ pt, ∀ p ∈ s.book pt, p.symbol ∈ s.symbols.insertionSort (fun a b => a ≤ b) :=
    fun pt p hp => hperm.mem_iff.2 ((hw.syms _).2 ⟨pt, List.mem_map.2 ⟨p, hp, rfl⟩⟩)
  have hcl : ∀ sym ∈ s.symbols.insertionSort (fun a b => a ≤ b), (quote sym).close ≠ none := by
    intro sym hs
    obtain ⟨pt, h⟩ := (hw.syms sym).1 (hperm.mem_iff.1 hs)
    obtain ⟨p, hp, rfl⟩ := List.mem_map.1 h
    refine hq p ?_
    cases pt
    · exact List.mem_append_left _ hp
    · exact List.mem_append_right _ hp
  have e1 := sum_lookup f1 hnd (hw.nodup .long) (hin .long)
  have e2 := sum_lookup f2 hnd (hw.nodup .short) (hin .short)
  change _ = ((s.book .long).map f1).sum + ((s.book .short).map f2).sum
  rw [← e1, ← e2, ← List.sum_map_add]
  generalize s.symbols.insertionSort (fun a b => a ≤ b) = syms at hcl
  clear e1 e2 hin hnd hperm
  induction syms with
  | nil => rfl
  | cons a syms ih =>
    rw [List.flatMap_cons, List.map_append, List.sum_append, List.map_cons, List.sum_cons,
      ih (fun x hx => hcl x (List.mem_cons_of_mem _ hx))]
    congr 1
    cases hr : posBar date (quote a) s a with
    | none =>
      exfalso
      obtain ⟨c, hc⟩ := Option.ne_none_iff_exists'.1 (hcl a List.mem_cons_self)
      unfold posBar at hr
      rw [hc] at hr
      cases hr
    | some r =>
      simp only [Option.toList_some, List.map_cons, List.map_nil, List.sum_cons, List.sum_nil,
        add_zero]
      exact hg a r hr

/-- **C114.** On a bar where every symbol held has a close, the rows account for the portfolio's own
bar: net cash and the rows' equity make its market value, net cash and the rows' market value make
its equity, and the rows' margin is its margin. -/
theorem rows_reconcile {cfg : Config} {ops : List Op} {date : Date} {quote : Sym → BarQuote}
    {s' : Portfolio} {rows' : List PositionBar} (hfit : ∀ o ∈ ops, o.Fit)
    (h : runRec cfg (ops ++ [.captureBar date quote]) = .ok (s', rows')) :
    ∃ s rows new bar, runRec cfg ops = .ok (s, rows) ∧ rows' = rows ++ new ∧
      s'.metrics = s.metrics ++ [bar] ∧
      ((∀ p ∈ s.longs ++ s.shorts, (quote p.symbol).close ≠ none) →
        bar.marketValue = bar.netCashBalance + (new.map PositionBar.equity).sum ∧
        bar.equity = bar.netCashBalance + (new.map PositionBar.marketValue).sum ∧
        bar.margin = (new.map PositionBar.margin).sum) := by
  obtain ⟨x, hx, hstep, he⟩ := runRec_snoc h
  have hrun := runRec_ok hx
  have hw := (run_good hfit hrun).1.wf
  have hs' : s' = captureBar cfg x.1 date quote := by
    simp only [step] at hstep; exact (Except.ok.inj hstep).symm
  refine ⟨x.1, x.2, capturedRows cfg x.1 date quote,
    captureRecord cfg (captureTotals (captureAcc cfg x.1 quote)) date
      (captureAcc cfg x.1 quote).longValue, hx, he, ?_, ?_⟩
  · rw [hs']; exact capture_metrics cfg x.1 date quote
  intro hq
  have hsl := sameLog_capture cfg x.1 date quote
  have hn : (captureBar cfg x.1 date quote).netCash cfg = (x.1.applyInterest cfg).netCash cfg := by
    unfold Portfolio.netCash Portfolio.marginLoan
    rw [hsl.cash, hsl.accrued, hsl.longNotional, hsl.shortNotional]
  have e1 := captureAcc_part (F := CaptureAcc.equity) (equity_step quote) (cfg := cfg) hw
  have e3 := captureAcc_part (F := CaptureAcc.margin) (margin_step quote) (cfg := cfg) hw
  have e4 := captureBar_mv (cfg := cfg) date quote hw
  rw [sum_zero, zero_add, zero_add] at e3
  have row : ∀ sym r, posBar date (quote sym) x.1 sym = some r →
      (quote sym).close = some r.close ∧
      partOf (quoted quote) x.1.longs sym = r.longShares * r.close ∧
      partOf (quoted quote) x.1.shorts sym = r.shortShares * r.close ∧
      partOf Position.entryNotional x.1.shorts sym = costHeld x.1.shorts sym := by
    intro sym r hr
    obtain ⟨_, _, hc, hl, hsh, _⟩ := (posBar_spec hw date quote sym r).1 hr
    refine ⟨hc, ?_, ?_, part_cost hw .short sym⟩
    · rw [hl]; exact part_quoted hw .long hc
    · rw [hsh]; exact part_quoted hw .short hc
  refine ⟨?_, ?_, ?_⟩
  · rw [rows_sum cfg hw date hq PositionBar.equity (quoted quote)
      (fun p => 2 * p.entryNotional - quoted quote p)]
    · show (captureBar cfg x.1 date quote).marketValue =
        (captureBar cfg x.1 date quote).netCash cfg + _
      rw [hn, e4]; ring
    · intro sym r hr
      obtain ⟨hc, hl, hsh, hcost⟩ := row sym r hr
      obtain ⟨_, _, _, _, _, _, _, heq, _⟩ := (posBar_spec hw date quote sym r).1 hr
      have : partOf (fun p => 2 * p.entryNotional - quoted quote p) x.1.shorts sym =
          2 * partOf Position.entryNotional x.1.shorts sym -
            partOf (quoted quote) x.1.shorts sym := by
        unfold partOf; split <;> simp
      rw [heq, hl, this, hsh, hcost]; ring
  · rw [rows_sum cfg hw date hq PositionBar.marketValue (quoted quote) Position.entryNotional]
    · show (captureAcc cfg x.1 quote).equity = (captureBar cfg x.1 date quote).netCash cfg + _
      rw [hn, e1]
    · intro sym r hr
      obtain ⟨hc, hl, hsh, hcost⟩ := row sym r hr
      obtain ⟨_, _, _, _, _, _, _, _, hmv⟩ := (posBar_spec hw date quote sym r).1 hr
      rw [hmv, hl, hcost]
  · rw [rows_sum cfg hw date hq PositionBar.margin (fun _ => 0) (quoted quote)]
    · show (captureAcc cfg x.1 quote).margin = _
      rw [e3, sum_zero, zero_add]
      congr 1
      refine List.map_congr_left (fun p hp => ?_)
      obtain ⟨c, hc⟩ := Option.ne_none_iff_exists'.1 (hq p (List.mem_append_right _ hp))
      unfold marginPart quoted
      rw [hc]
      simp only
      ring
    · intro sym r hr
      obtain ⟨hc, hl, hsh, hcost⟩ := row sym r hr
      obtain ⟨_, _, _, _, _, hm, _⟩ := (posBar_spec hw date quote sym r).1 hr
      have : partOf (fun _ => 0) x.1.longs sym = 0 := by unfold partOf; split <;> rfl
      rw [hm, this, hsh, zero_add]

namespace Demo

/-- A short of 50 shares sold at 20 and marked at 21, beside a long. -/
def pbOps : List Op :=
  [ .sell { date := 1, symbol := "BBB", shares := 50, fill := 20 },
    .buy { date := 1, symbol := "AAA", shares := 10, fill := 10 } ]

def pbQuote : Sym → BarQuote := fun s =>
  if s = "AAA" then ⟨some 11, some 10, some 11⟩ else ⟨some 21, some 20, some 21⟩

end Demo

/-- The two value columns mean the opposite of what they mean in the portfolio's own table: there
`equity` holds shorts at cost and `market_value` at the close, in the positions table it is the
other way round.  So net cash and the `market_value` of all positions do not add up to the
`market_value` of the portfolio. -/
theorem position_market_value_differs :
    ∃ s rows bar, runRec { cash := 5000 } (Demo.pbOps ++ [.captureBar 2 Demo.pbQuote]) =
        .ok (s, rows) ∧
      s.metrics = [bar] ∧ bar.marketValue ≠ bar.netCashBalance +
        (rows.map PositionBar.marketValue).sum ∧
      rows.map (fun r => (r.symbol, r.equity, r.marketValue)) =
        [("AAA", 110, 110), ("BBB", 950, 1000)] := by
  have hk : (runRec { cash := 5000 } (Demo.pbOps ++ [.captureBar 2 Demo.pbQuote])).map
      (fun x => (x.1.metrics.map (fun b => (b.marketValue, b.netCashBalance)),
        x.2.map (fun r => (r.symbol, r.equity, r.marketValue)))) =
      .ok ([(4960, 3900)], [("AAA", 110, 110), ("BBB", 950, 1000)]) := by decide +kernel
  obtain ⟨⟨s, rows⟩, hs, he⟩ := map_okE hk
  obtain ⟨h1, h2⟩ := Prod.mk.inj he
  simp only at h1 h2
  cases hm : s.metrics with
  | nil => rw [hm] at h1; cases h1
  | cons bar rest =>
    rw [hm] at h1
    simp only [List.map_cons, List.cons.injEq, Prod.mk.injEq] at h1
    obtain ⟨⟨e1, e2⟩, h3⟩ := h1
    have hr : rest = [] := List.map_eq_nil_iff.1 h3.symm
    refine ⟨s, rows, bar, hs, by rw [hm, hr], ?_, h2.symm⟩
    have : rows.map PositionBar.marketValue =
        (rows.map (fun r => (r.symbol, r.equity, r.marketValue))).map (fun x => x.2.2) := by
      rw [List.map_map]; rfl
    rw [this, ← h2, ← e1, ← e2]
    norm_num

end PyBroker
