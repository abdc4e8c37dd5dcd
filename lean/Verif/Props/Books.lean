import Verif.Portfolio.Holdings
import Verif.Portfolio.Marks
import Verif.Props.Demo

/-!
# C03, C04, C05, C10, C11: holdings, books, position caps and position mode
-/

namespace PyBroker

open Spec

/-- C03. -/
theorem holdings_net_of_orders {cfg : Config} {ops : List Op} {s : Portfolio}
    (hfit : ∀ op ∈ ops, op.Fit) (h : run cfg ops = .ok s) (sym : Sym) :
    held s.longs sym - held s.shorts sym = netOrdered s sym := by
  have hw := (run_good hfit h).1.wf
  rw [held_eq (ps := s.longs) (hw.nodup .long), held_eq (ps := s.shorts) (hw.nodup .short)]
  have := run_hold hfit h sym
  unfold drift at this
  linarith

/-- C04. -/
theorem books_well_formed {cfg : Config} {ops : List Op} {s : Portfolio}
    (hfit : ∀ op ∈ ops, op.Fit) (h : run cfg ops = .ok s) :
    (∀ p ∈ s.longs ++ s.shorts,
      p.entries ≠ [] ∧
      (∀ e ∈ p.entries, 0 < e.shares ∧ 0 < e.price ∧ e.symbol = p.symbol ∧ e.type = p.type) ∧
      p.shares = (p.entries.map Entry.shares).sum ∧
      p.entryNotional = (p.entries.map (fun e => e.shares * e.price)).sum) ∧
    (∀ p ∈ s.longs, p.type = .long) ∧ (∀ p ∈ s.shorts, p.type = .short) ∧
    (∀ sym, sym ∈ s.symbols ↔ ∃ p ∈ s.longs ++ s.shorts, p.symbol = sym) ∧
    (s.longs.map Position.symbol).Nodup ∧ (s.shorts.map Position.symbol).Nodup := by
  obtain ⟨hw, hne⟩ := (run_good hfit h).1
  have key : ∀ pt, ∀ p ∈ s.book pt,
      p.entries ≠ [] ∧
      (∀ e ∈ p.entries, 0 < e.shares ∧ 0 < e.price ∧ e.symbol = p.symbol ∧ e.type = p.type) ∧
      p.shares = (p.entries.map Entry.shares).sum ∧
      p.entryNotional = (p.entries.map (fun e => e.shares * e.price)).sum := by
    intro pt p hp
    have hpw := hw.pos pt p hp
    refine ⟨hne pt p hp, fun e he => ?_, hpw.shares, hpw.notional⟩
    have ho := hpw.entries e he
    refine ⟨?_, ho.price, ho.symbol, ho.type.trans hpw.type.symm⟩
    rcases ho.shares with h | h
    · exact absurd h.1 (by simp)
    · exact h.2
  refine ⟨?_, fun p hp => (hw.pos .long p hp).type, fun p hp => (hw.pos .short p hp).type, ?_,
    hw.nodup .long, hw.nodup .short⟩
  · intro p hp
    rcases List.mem_append.1 hp with h | h
    · exact key .long p h
    · exact key .short p h
  · intro sym
    rw [hw.syms sym]
    constructor
    · rintro ⟨pt, h⟩
      obtain ⟨p, hp, rfl⟩ := List.mem_map.1 h
      cases pt
      · exact ⟨p, List.mem_append.2 (Or.inl hp), rfl⟩
      · exact ⟨p, List.mem_append.2 (Or.inr hp), rfl⟩
    · rintro ⟨p, hp, rfl⟩
      rcases List.mem_append.1 hp with h | h
      · exact ⟨.long, List.mem_map.2 ⟨p, h, rfl⟩⟩
      · exact ⟨.short, List.mem_map.2 ⟨p, h, rfl⟩⟩

/-- C05. -/
theorem never_long_and_short {cfg : Config} {ops : List Op} {s : Portfolio}
    (hfit : ∀ op ∈ ops, op.Fit) (h : run cfg ops = .ok s) :
    ∀ p ∈ s.longs, ∀ q ∈ s.shorts, p.symbol ≠ q.symbol :=
  (run_good hfit h).1.wf.disj .long .short (by decide)

theorem run_limits {cfg : Config} {ops : List Op} {s : Portfolio}
    (hfit : ∀ op ∈ ops, op.Fit) (h : run cfg ops = .ok s) : LimitsInv cfg s :=
  run_inv hfit h (fun _ _ hp hs => hs.prim hp) (fun _ date quote _ hs => hs.capture date quote)
    (LimitsInv.init cfg)

/-- C10. -/
theorem position_caps {cfg : Config} {ops : List Op} {s : Portfolio}
    (hfit : ∀ op ∈ ops, op.Fit) (h : run cfg ops = .ok s) :
    (∀ m, cfg.maxLong = some m → s.longs.length ≤ m) ∧
      (∀ m, cfg.maxShort = some m → s.shorts.length ≤ m) :=
  ⟨fun m hm => (run_limits hfit h).cap .long m hm, fun m hm => (run_limits hfit h).cap .short m hm⟩

/-- C11. -/
theorem position_mode {cfg : Config} {ops : List Op} {s : Portfolio}
    (hfit : ∀ op ∈ ops, op.Fit) (h : run cfg ops = .ok s) :
    (cfg.positionMode = .longOnly → s.shorts = []) ∧
      (cfg.positionMode = .shortOnly → s.longs = []) :=
  ⟨fun hm => (run_limits hfit h).mode .short (fun ha => ha hm),
    fun hm => (run_limits hfit h).mode .long (fun ha => ha hm)⟩

/-! ### The hypotheses are met -/

example := holdings_net_of_orders Demo.fit Demo.run_final "BBB"
example : held Demo.s2.longs "AAA" = 20 ∧ held Demo.s2.shorts "BBB" = 50 ∧
    netOrdered Demo.s2 "AAA" = 20 ∧ netOrdered Demo.s2 "BBB" = -50 ∧
    netOrdered Demo.final "BBB" = 20 := by decide +kernel
example := books_well_formed Demo.fit1 Demo.run_s1
example : Demo.s1.symbols = ["AAA", "BBB"] ∧
    (Demo.s1.longs.map (fun p => p.entries.length)) = [2] := by decide +kernel
example := never_long_and_short Demo.fit1 Demo.run_s1

/-- A history in which the cap of one long position and the long-only mode both
turn orders away. -/
def capDemo : Config := { cash := 1000, maxLong := some 1, positionMode := .longOnly }
def capOps : List Op :=
  [ .buy { date := 1, symbol := "AAA", shares := 1, fill := 10 },
    .buy { date := 1, symbol := "BBB", shares := 1, fill := 10 },
    .sell { date := 1, symbol := "AAA", shares := 3, fill := 10 },
    .buy { date := 1, symbol := "CCC", shares := 1, fill := 10 },
    .sell { date := 1, symbol := "BBB", shares := 1, fill := 10 } ]
theorem capFit : ∀ op ∈ capOps, op.Fit := by simp [capOps, Op.Fit]
theorem capRun : run capDemo capOps =
    .ok (Demo.okD (Portfolio.init capDemo) (run capDemo capOps)) :=
  Demo.ok_okD (by decide +kernel)
example := position_caps capFit capRun
example := position_mode capFit capRun
example : (Demo.okD (Portfolio.init capDemo) (run capDemo capOps)).longs.length = 1 ∧
    (Demo.okD (Portfolio.init capDemo) (run capDemo capOps)).orders.length = 3 := by
  decide +kernel

end PyBroker
