import Verif.Portfolio.Ledger

/-!
# Position bars

The rows `capture_bar` appends to `Portfolio.position_bars` when `record_position_bars` is set.  They
never feed back into the portfolio, so they are modelled beside `captureBar`.
-/

namespace PyBroker

/-- `PositionBar`, portfolio.py:418-441. -/
structure PositionBar where
  symbol : Sym
  date : Date
  longShares : ℚ
  shortShares : ℚ
  close : ℚ
  equity : ℚ
  marketValue : ℚ
  margin : ℚ
  unrealizedPnl : ℚ
  deriving DecidableEq, Repr

/-- The row of one symbol, portfolio.py:1526-1531, 1543-1546, 1576-1580 and 1591-1604.  `pf` is the
portfolio before the symbol is marked. -/
def posBar (date : Date) (q : BarQuote) (pf : Portfolio) (sym : Sym) : Option PositionBar :=
  match q.close with
  | none => none
  | some c =>
    let l := (lookupPos pf.longs sym).map (fun p => p.markLong c q.low q.high)
    let sh := (lookupPos pf.shorts sym).map
      (fun p => (p.entryNotional, p.markShort c q.low q.high))
    some {
      symbol := sym
      date := date
      longShares := l.elim 0 Position.shares
      shortShares := sh.elim 0 (fun x => x.2.shares)
      close := c
      equity := l.elim 0 Position.equity + sh.elim 0 (fun x => x.1 + x.2.pnl)
      marketValue := l.elim 0 Position.marketValue + sh.elim 0 (fun x => x.2.marketValue)
      margin := sh.elim 0 (fun x => x.2.margin)
      unrealizedPnl := l.elim 0 Position.pnl + sh.elim 0 (fun x => x.2.pnl) }

/-- The loop body of `capture_bar` with its row, portfolio.py:1496-1604. -/
def captureSymRec (date : Date) (quote : Sym → BarQuote) (x : CaptureAcc × List PositionBar)
    (sym : Sym) : CaptureAcc × List PositionBar :=
  (captureSym quote x.1 sym, x.2 ++ (posBar date (quote sym) x.1.pf sym).toList)

/-- The rows a `capture_bar` appends, portfolio.py:1479-1604. -/
def capturedRows (cfg : Config) (s : Portfolio) (date : Date) (quote : Sym → BarQuote) :
    List PositionBar :=
  let s1 := s.applyInterest cfg
  let netCash := s1.netCash cfg
  ((s1.symbols.insertionSort (fun a b => a ≤ b)).foldl (captureSymRec date quote)
    ({ pf := s1, equity := netCash, marketValue := netCash, margin := 0, longValue := 0 }, [])).2

/-- The rows a call appends: only `capture_bar` does. -/
def Op.rows (cfg : Config) (s : Portfolio) : Op → List PositionBar
  | .captureBar date quote => capturedRows cfg s date quote
  | _ => []

/-- A call on a portfolio that records position bars. -/
def stepRec (cfg : Config) (x : Portfolio × List PositionBar) (op : Op) :
    Except Err (Portfolio × List PositionBar) :=
  (step cfg x.1 op).map (fun s => (s, x.2 ++ op.rows cfg x.1))

/-- A history of calls on a new portfolio that records position bars. -/
def runRec (cfg : Config) (ops : List Op) : Except Err (Portfolio × List PositionBar) :=
  foldE (stepRec cfg) (Portfolio.init cfg, []) ops

/-! ## The loop -/

theorem posBar_congr (date : Date) (q : BarQuote) {s t : Portfolio} {sym : Sym}
    (hl : lookupPos s.longs sym = lookupPos t.longs sym)
    (hs : lookupPos s.shorts sym = lookupPos t.shorts sym) :
    posBar date q s sym = posBar date q t sym := by
  unfold posBar
  rw [hl, hs]

theorem captureRec_rows (date : Date) (quote : Sym → BarQuote) (syms : List Sym) :
    ∀ (acc : CaptureAcc) (rows : List PositionBar), syms.Nodup →
    (syms.foldl (captureSymRec date quote) (acc, rows)).2 =
      rows ++ syms.flatMap (fun sym => (posBar date (quote sym) acc.pf sym).toList) := by
  induction syms with
  | nil => intro acc rows _; simp
  | cons sym syms ih =>
    intro acc rows hn
    obtain ⟨hni, hn⟩ := List.nodup_cons.1 hn
    rw [List.foldl_cons]
    show (syms.foldl _ (captureSym quote acc sym, _)).2 = _
    rw [ih _ _ hn, List.flatMap_cons, List.append_assoc]
    congr 2
    rw [List.flatMap_def, List.flatMap_def]
    congr 1
    refine List.map_congr_left (fun x hx => ?_)
    have hne : sym ≠ x := fun e => hni (e ▸ hx)
    rw [posBar_congr (t := acc.pf)]
    · exact (captureShort_lookup_ne (quote sym) (captureLong (quote sym) acc sym) hne .long).trans
        (captureLong_lookup_ne (quote sym) acc hne .long)
    · exact (captureShort_lookup_ne (quote sym) (captureLong (quote sym) acc sym) hne .short).trans
        (captureLong_lookup_ne (quote sym) acc hne .short)

theorem capturedRows_eq (cfg : Config) {s : Portfolio} (hw : WF [] s) (date : Date)
    (quote : Sym → BarQuote) :
    capturedRows cfg s date quote = (s.symbols.insertionSort (fun a b => a ≤ b)).flatMap
      (fun sym => (posBar date (quote sym) s sym).toList) := by
  obtain ⟨c, a, hf⟩ := applyInterest_frame cfg s
  have hperm := List.perm_insertionSort (fun a b : Sym => a ≤ b) s.symbols
  have hnd : (s.symbols.insertionSort (fun a b => a ≤ b)).Nodup :=
    hperm.nodup_iff.2 hw.symsNodup
  unfold capturedRows
  simp only
  have hS : (s.applyInterest cfg).symbols = s.symbols := by rw [hf]
  rw [hS, captureRec_rows date quote _ _ _ hnd, List.nil_append, List.flatMap_def, List.flatMap_def]
  congr 1
  refine List.map_congr_left (fun x _ => ?_)
  rw [posBar_congr (t := s)]
  · show lookupPos (s.applyInterest cfg).longs x = _
    rw [hf]
  · show lookupPos (s.applyInterest cfg).shorts x = _
    rw [hf]

theorem map_okE {ε α β : Type} {x : Except ε α} {f : α → β} {b : β} (h : x.map f = .ok b) :
    ∃ a, x = .ok a ∧ b = f a := by
  cases x with
  | error e => cases h
  | ok a => exact ⟨a, rfl, (Except.ok.inj h).symm⟩

/-- Recording does not change the portfolio. -/
theorem runRec_run (cfg : Config) (ops : List Op) :
    ∀ x : Portfolio × List PositionBar,
    (foldE (stepRec cfg) x ops).map Prod.fst = runFrom cfg x.1 ops := by
  induction ops with
  | nil => intro x; rfl
  | cons op ops ih =>
    intro x
    unfold runFrom foldE stepRec
    cases h : step cfg x.1 op with
    | error e => rfl
    | ok s => exact ih (s, _)

end PyBroker
