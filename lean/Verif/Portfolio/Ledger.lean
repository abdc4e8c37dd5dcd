import Verif.Portfolio.Marks
import Verif.Spec.Portfolio

/-!
# Cash ledger, recorded market value and net holdings

Lemmas connecting the model with the notions of `Verif.Spec.Portfolio`.
-/

namespace PyBroker

open Spec

/-! ## Cost of the open entries -/

theorem sum_map_flatMap {α β : Type} (f : β → ℚ) (g : α → List β) (l : List α) :
    ((l.flatMap g).map f).sum = (l.map (fun a => ((g a).map f).sum)).sum := by
  induction l with
  | nil => rfl
  | cons a l ih => simp [List.flatMap_cons, ih]

theorem openCost_eq {Z : List Nat} {s : Portfolio} (h : WF Z s) :
    openCost s = s.longNotional + s.shortNotional := by
  have h1 := h.notional .long
  have h2 := h.notional .short
  have key : ∀ pt, ((s.book pt).map Position.entryNotional).sum =
      ((s.book pt).map (fun p => (p.entries.map (fun e => e.shares * e.price)).sum)).sum := by
    intro pt
    congr 1
    exact List.map_congr_left (fun p hp => (h.pos pt p hp).notional)
  rw [key] at h1 h2
  unfold openCost openEntries
  rw [sum_map_flatMap, List.map_append, List.sum_append]
  exact congrArg₂ (· + ·) h1.symm h2.symm

theorem lev_eq (cfg : Config) : lev cfg = levOf cfg := rfl

theorem netBalance_eq {Z : List Nat} {cfg : Config} {s : Portfolio} (h : WF Z s) :
    netBalance cfg s = s.netCash cfg := by
  unfold netBalance Portfolio.netCash Portfolio.marginLoan
  rw [openCost_eq h, lev_eq]
  unfold levOf
  by_cases hl : cfg.leverage ≤ 1
  · rw [if_pos hl, if_neg (by simpa using hl)]
    ring
  · rw [if_neg hl, if_pos (by simpa using hl)]
    ring

theorem perBarInterest_eq {Z : List Nat} {cfg : Config} {s : Portfolio} (h : WF Z s) :
    perBarInterest cfg (netBalance cfg s) = barInterest cfg s := by
  unfold perBarInterest barInterest
  rw [netBalance_eq h]
  cases cfg.barsPerYear with
  | none => rfl
  | some n =>
    simp only
    by_cases hr : cfg.interestRate ≤ 0
    · rw [if_pos hr, if_neg (not_lt.2 hr)]
    · rw [if_neg hr, if_pos (not_le.1 hr)]

theorem ledger_runFrom {cfg : Config} {ops : List Op} : ∀ {s s' : Portfolio},
    (∀ op ∈ ops, op.Fit) → Good s → StopsFit s → runFrom cfg s ops = .ok s' →
    ledger cfg s' = ledger cfg s + interestPaid cfg s ops := by
  induction ops with
  | nil =>
    intro s s' _ _ _ h
    unfold runFrom foldE at h
    injection h with h
    subst h
    simp [interestPaid]
  | cons op ops ih =>
    intro s s' hfit hg hf h
    unfold runFrom foldE at h
    rcases hs : step cfg s op with e | s1
    · rw [hs] at h; simp at h
    · rw [hs] at h
      simp only at h
      obtain ⟨hg1, hf1⟩ := step_good hg hf (hfit op (by simp)) hs
      rw [ih (fun o ho => hfit o (by simp [ho])) hg1 hf1 h]
      conv_rhs => unfold interestPaid
      rw [hs]
      simp only
      rcases step_steps (Q := Guard.any) hg hf (hfit op (by simp)) (Op.fills_true op) hs with
        ⟨hne, hst⟩ | ⟨d, quote, rfl, rfl⟩
      · have : ledger cfg s1 = ledger cfg s :=
          hst.inv (P := fun t => ledger cfg t = ledger cfg s)
            (fun a b hp ha => (ledger_prim hp).trans ha) rfl
        rw [this]
        cases op with
        | captureBar d quote => exact absurd rfl (hne d quote)
        | _ => simp
      · rw [ledger_capture, perBarInterest_eq hg.wf]
        simp only
        ring

theorem ledger_run {cfg : Config} {ops : List Op} {s : Portfolio} (hfit : ∀ op ∈ ops, op.Fit)
    (h : run cfg ops = .ok s) :
    ledger cfg s = cfg.cash + interestPaid cfg (Portfolio.init cfg) ops := by
  have := ledger_runFrom hfit (Good.init cfg) (StopsFit.init cfg) h
  rw [this]
  simp [ledger, Portfolio.init]

theorem run_log {cfg : Config} {ops : List Op} {s : Portfolio} (hfit : ∀ op ∈ ops, op.Fit)
    (h : run cfg ops = .ok s) : LogInv cfg (fun _ => True) s :=
  run_inv (P := LogInv cfg (fun _ => True)) hfit h (fun _ _ hp hs => LogInv.prim hp hs)
    (fun _ d q _ hs => LogInv.capture d q hs) (LogInv.init cfg _)

theorem run_marks {cfg : Config} {ops : List Op} {s : Portfolio} (hfit : ∀ op ∈ ops, op.Fit)
    (h : run cfg ops = .ok s) : MarksInv s :=
  run_inv hfit h (fun _ _ hp hs => MarksInv.prim hp hs)
    (fun _ d q hw hs => MarksInv.capture d q hw hs) (MarksInv.init cfg)

/-! ## The recorded bar -/

/-- Value of a position on a bar: shares at the close, or its held mark. -/
def quoted (quote : Sym → BarQuote) (p : Position) : ℚ :=
  match (quote p.symbol).close with
  | some c => p.shares * c
  | none => p.markedValue

def longPart (quote : Sym → BarQuote) (ps : List Position) (sym : Sym) : ℚ :=
  match lookupPos ps sym with
  | none => 0
  | some p => quoted quote p

def shortPart (quote : Sym → BarQuote) (ps : List Position) (sym : Sym) : ℚ :=
  match lookupPos ps sym with
  | none => 0
  | some p => 2 * p.entryNotional - quoted quote p

theorem sum_pnlAt_long (c : ℚ) (es : List Entry) :
    (es.map (Entry.pnlAt .long c)).sum =
      (es.map Entry.shares).sum * c - (es.map (fun e => e.shares * e.price)).sum := by
  induction es with
  | nil => simp
  | cons e es ih => simp only [List.map_cons, List.sum_cons, ih, Entry.pnlAt]; ring

theorem sum_pnlAt_short (c : ℚ) (es : List Entry) :
    (es.map (Entry.pnlAt .short c)).sum =
      (es.map (fun e => e.shares * e.price)).sum - (es.map Entry.shares).sum * c := by
  induction es with
  | nil => simp
  | cons e es ih => simp only [List.map_cons, List.sum_cons, ih, Entry.pnlAt]; ring

theorem captureLong_lookup_ne (q : BarQuote) (acc : CaptureAcc) {sym sym' : Sym}
    (h : sym ≠ sym') (pt : PosType) :
    lookupPos ((captureLong q acc sym).pf.book pt) sym' = lookupPos (acc.pf.book pt) sym' := by
  unfold captureLong
  split
  · rfl
  · rename_i p hp
    split
    · cases pt
      · exact lookupPos_replacePos_ne (q := p.markLong _ q.low q.high)
          (by show p.symbol ≠ sym'; rw [(lookupPos_some hp).2]; exact h)
      · rfl
    · rfl

theorem captureShort_lookup_ne (q : BarQuote) (acc : CaptureAcc) {sym sym' : Sym}
    (h : sym ≠ sym') (pt : PosType) :
    lookupPos ((captureShort q acc sym).pf.book pt) sym' = lookupPos (acc.pf.book pt) sym' := by
  unfold captureShort
  split
  · rfl
  · rename_i p hp
    split
    · cases pt
      · rfl
      · exact lookupPos_replacePos_ne (q := p.markShort _ q.low q.high)
          (by show p.symbol ≠ sym'; rw [(lookupPos_some hp).2]; exact h)
    · rfl

theorem captureLong_shorts (q : BarQuote) (acc : CaptureAcc) (sym : Sym) :
    (captureLong q acc sym).pf.shorts = acc.pf.shorts := by
  unfold captureLong
  split
  · rfl
  · split <;> rfl

theorem captureLong_mv (quote : Sym → BarQuote) (acc : CaptureAcc) (sym : Sym) :
    (captureLong (quote sym) acc sym).marketValue =
      acc.marketValue + longPart quote acc.pf.longs sym := by
  unfold captureLong longPart
  rcases Option.eq_none_or_eq_some (lookupPos acc.pf.longs sym) with hp | ⟨p, hp⟩
  · rw [hp]; simp
  · rw [hp]
    simp only
    unfold quoted
    rw [(lookupPos_some hp).2]
    cases (quote sym).close with
    | none => rfl
    | some c => rfl

theorem captureShort_mv {Z : List Nat} (quote : Sym → BarQuote) (acc : CaptureAcc) (sym : Sym)
    (hw : WF Z acc.pf) :
    (captureShort (quote sym) acc sym).marketValue =
      acc.marketValue + shortPart quote acc.pf.shorts sym := by
  unfold captureShort shortPart
  rcases Option.eq_none_or_eq_some (lookupPos acc.pf.shorts sym) with hp | ⟨p, hp⟩
  · rw [hp]; simp
  · rw [hp]
    simp only
    have hpw := hw.pos .short p (lookupPos_some hp).1
    unfold quoted
    rw [(lookupPos_some hp).2]
    cases (quote sym).close with
    | none => rfl
    | some c =>
      have : (p.markShort c (quote sym).low (quote sym).high).pnl =
          p.entryNotional - p.shares * c := by
        show (p.entries.map (Entry.pnlAt p.type c)).sum = _
        rw [hpw.type, sum_pnlAt_short, hpw.notional, hpw.shares]
      simp only
      rw [this]
      ring

theorem captureFold_mv (quote : Sym → BarQuote) (syms : List Sym) :
    ∀ (acc : CaptureAcc), syms.Nodup → WF [] acc.pf →
    (syms.foldl (captureSym quote) acc).marketValue = acc.marketValue +
      (syms.map (fun sym => longPart quote acc.pf.longs sym +
        shortPart quote acc.pf.shorts sym)).sum := by
  induction syms with
  | nil => intro acc _ _; simp
  | cons sym syms ih =>
    intro acc hn hw
    obtain ⟨hni, hn⟩ := List.nodup_cons.1 hn
    have hw1 : WF [] (captureLong (quote sym) acc sym).pf := hw.same (captureLong_same _ _ _)
    have hw2 : WF [] (captureSym quote acc sym).pf := hw1.same (captureShort_same _ _ _)
    rw [List.foldl_cons, ih _ hn hw2, List.map_cons, List.sum_cons]
    have hmv : (captureSym quote acc sym).marketValue = acc.marketValue +
        (longPart quote acc.pf.longs sym + shortPart quote acc.pf.shorts sym) := by
      unfold captureSym
      rw [captureShort_mv quote _ sym hw1, captureLong_mv, captureLong_shorts]
      ring
    rw [hmv, add_assoc]
    congr 2
    congr 1
    refine List.map_congr_left (fun x hx => ?_)
    have hne : sym ≠ x := fun e => hni (e ▸ hx)
    have hl : lookupPos (captureSym quote acc sym).pf.longs x = lookupPos acc.pf.longs x := by
      have := (captureShort_lookup_ne (quote sym) (captureLong (quote sym) acc sym) hne .long).trans
        (captureLong_lookup_ne (quote sym) acc hne .long)
      exact this
    have hs : lookupPos (captureSym quote acc sym).pf.shorts x = lookupPos acc.pf.shorts x := by
      have := (captureShort_lookup_ne (quote sym) (captureLong (quote sym) acc sym) hne .short).trans
        (captureLong_lookup_ne (quote sym) acc hne .short)
      exact this
    unfold longPart shortPart
    rw [hl, hs]

theorem sum_ite_eq {syms : List Sym} (hn : syms.Nodup) {x : Sym} (hx : x ∈ syms) (v : ℚ) :
    (syms.map (fun y => if x = y then v else 0)).sum = v := by
  induction syms with
  | nil => simp at hx
  | cons y ys ih =>
    obtain ⟨hy, hn⟩ := List.nodup_cons.1 hn
    rw [List.map_cons, List.sum_cons]
    by_cases hxy : x = y
    · subst hxy
      rw [if_pos rfl]
      have : (ys.map (fun y => if x = y then v else 0)) = ys.map (fun _ => (0 : ℚ)) :=
        List.map_congr_left (fun y hyy => if_neg (fun e : x = y => hy (by rw [e]; exact hyy)))
      rw [this]
      simp
    · rw [if_neg hxy, zero_add]
      exact ih hn ((List.mem_cons.1 hx).resolve_left hxy)

/-- Summing over the symbols is summing over the book. -/
theorem sum_lookup (f : Position → ℚ) {ps : List Position} {syms : List Sym} (hn : syms.Nodup)
    (hb : (ps.map Position.symbol).Nodup) (hsub : ∀ p ∈ ps, p.symbol ∈ syms) :
    (syms.map (fun sym => match lookupPos ps sym with
      | none => 0
      | some p => f p)).sum = (ps.map f).sum := by
  induction ps with
  | nil => simp [lookupPos]
  | cons p ps ih =>
    rw [List.map_cons] at hb
    obtain ⟨hp, hb⟩ := List.nodup_cons.1 hb
    have hsplit : (syms.map (fun sym => match lookupPos (p :: ps) sym with
        | none => 0
        | some p => f p)) = syms.map (fun sym => (if p.symbol = sym then f p else 0) +
          (match lookupPos ps sym with
          | none => 0
          | some p => f p)) := by
      refine List.map_congr_left (fun sym _ => ?_)
      have hc : lookupPos (p :: ps) sym =
          if p.symbol = sym then some p else lookupPos ps sym := rfl
      rw [hc]
      by_cases hs : p.symbol = sym
      · have : lookupPos ps sym = none := lookupPos_none'.2 (hs ▸ hp)
        rw [if_pos hs, if_pos hs, this]
        simp
      · rw [if_neg hs, if_neg hs, zero_add]
    rw [hsplit, List.sum_map_add, sum_ite_eq hn (hsub p (by simp)),
      ih hb (fun q hq => hsub q (by simp [hq]))]
    rfl

/-- The market value recorded by a captured bar. -/
theorem captureBar_mv {cfg : Config} {s : Portfolio} (date : Date) (quote : Sym → BarQuote)
    (hw : WF [] s) :
    (captureBar cfg s date quote).marketValue = (s.applyInterest cfg).netCash cfg +
      (s.longs.map (quoted quote)).sum +
      (s.shorts.map (fun p => 2 * p.entryNotional - quoted quote p)).sum := by
  have hw1 : WF [] (s.applyInterest cfg) := hw.same (applyInterest_same cfg s)
  obtain ⟨c, a, hf⟩ := applyInterest_frame cfg s
  have hL : (s.applyInterest cfg).longs = s.longs := by rw [hf]
  have hS : (s.applyInterest cfg).shorts = s.shorts := by rw [hf]
  have hperm := List.perm_insertionSort (fun a b : Sym => a ≤ b) (s.applyInterest cfg).symbols
  have hnd : ((s.applyInterest cfg).symbols.insertionSort (fun a b => a ≤ b)).Nodup :=
    hperm.nodup_iff.2 hw1.symsNodup
  have := captureFold_mv quote ((s.applyInterest cfg).symbols.insertionSort (fun a b => a ≤ b))
    { pf := s.applyInterest cfg, equity := (s.applyInterest cfg).netCash cfg,
      marketValue := (s.applyInterest cfg).netCash cfg, margin := 0, longValue := 0 } hnd hw1
  have hmv : (captureBar cfg s date quote).marketValue =
      (((s.applyInterest cfg).symbols.insertionSort (fun a b => a ≤ b)).foldl (captureSym quote)
        { pf := s.applyInterest cfg, equity := (s.applyInterest cfg).netCash cfg,
          marketValue := (s.applyInterest cfg).netCash cfg, margin := 0,
          longValue := 0 }).marketValue := rfl
  rw [hmv, this, List.sum_map_add]
  simp only [hL, hS]
  have hmem : ∀ pt, ∀ p ∈ s.book pt,
      p.symbol ∈ (s.applyInterest cfg).symbols.insertionSort (fun a b => a ≤ b) := by
    intro pt p hp
    refine hperm.mem_iff.2 ((hw1.syms p.symbol).2 ⟨pt, List.mem_map.2 ⟨p, ?_, rfl⟩⟩)
    rw [applyInterest_book]; exact hp
  have e1 := sum_lookup (quoted quote) hnd (hw.nodup .long) (hmem .long)
  have e2 := sum_lookup (fun p => 2 * p.entryNotional - quoted quote p) hnd (hw.nodup .short)
    (hmem .short)
  have f1 : (((s.applyInterest cfg).symbols.insertionSort (fun a b => a ≤ b)).map
      (fun sym => longPart quote s.longs sym)).sum = (s.longs.map (quoted quote)).sum := e1
  have f2 : (((s.applyInterest cfg).symbols.insertionSort (fun a b => a ≤ b)).map
      (fun sym => shortPart quote s.shorts sym)).sum =
      (s.shorts.map (fun p => 2 * p.entryNotional - quoted quote p)).sum := e2
  rw [f1, f2, add_assoc]

/-- Net cash is the ledger less the cost of longs plus... : the identity behind
the recorded market value. -/
theorem netCash_ledger (cfg : Config) (s : Portfolio) :
    s.netCash cfg = ledger cfg s + s.pnl - s.fees - s.longNotional - s.shortNotional := by
  unfold Portfolio.netCash Portfolio.marginLoan ledger levOf
  by_cases hl : cfg.leverage ≤ 1
  · rw [if_pos hl, if_neg (by simpa using hl)]; ring
  · rw [if_neg hl, if_pos (by simpa using hl)]; ring

end PyBroker
