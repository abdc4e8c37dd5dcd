import Verif.Props.Orders
import Verif.Portfolio.Check

/-!
# Helper lemmas: what a call does to the bar counts and excursions of entries
-/

namespace PyBroker

open Spec

/-- What calls other than capturing and counting bars leave alone. -/
def Entry.core (e : Entry) : Nat × Date × Sym × ℚ × PosType × Nat × Nat × ℚ × ℚ :=
  (e.id, e.date, e.symbol, e.price, e.type, e.bars, e.symBars, e.mae, e.mfe)

/-- The entries of `t` were entries of `s0`, apart from shares and stops. -/
def Kept (s0 t : Portfolio) : Prop :=
  AllEntries (fun pt sym e => ∃ e0 ∈ entriesOf (s0.book pt) sym, e.core = e0.core) t

/-- A trade records the excursions of the entry and of the exit. -/
def TradeOf (e : Entry) (t : Trade) : Prop :=
  t.type = e.type ∧ t.symbol = e.symbol ∧ t.entryDate = e.date ∧ t.entry = e.price ∧
    t.bars = e.bars ∧ t.mae = exitMae (unitGain e.type e.price t.exit) e.mae ∧
    t.mfe = exitMfe (unitGain e.type e.price t.exit) e.mfe ∧
    t.returnPct = exitReturn e.type e.price t.exit ∧
    t.pnl = gain e.type t.shares e.price t.exit ∧
    t.pnlPerBar = if e.bars = 0 then t.pnl else t.pnl / e.bars

structure Frozen (s0 t : Portfolio) : Prop where
  kept : Kept s0 t
  trades : ∃ new, t.trades = s0.trades ++ new ∧
    ∀ tr ∈ new, ∃ pt sym, ∃ e ∈ entriesOf (s0.book pt) sym, TradeOf e tr
  entryId : t.entryId = s0.entryId

theorem TradeOf.core {e e' : Entry} {t : Trade} (h : e.core = e'.core) (ht : TradeOf e t) :
    TradeOf e' t := by
  simp only [Entry.core, Prod.mk.injEq] at h
  obtain ⟨h1, h2, h3, h4, h5, h6, h7, h8, h9⟩ := h
  unfold TradeOf at ht ⊢
  rw [← h2, ← h3, ← h4, ← h5, ← h6, ← h8, ← h9]
  exact ht

def still : Guard := ⟨fun _ => True, fun _ => False, True, False⟩

theorem kept_rules (s0 : Portfolio) :
    PrimRules still (fun pt sym e => ∃ e0 ∈ entriesOf (s0.book pt) sym, e.core = e0.core) where
  take := fun _ _ _ _ _ h => h
  new := by
    rintro s pt date sym n fill es h0 hf hfit ⟨stops, hS, _⟩
    exact hS.elim
  incr := fun h => h.elim
  stops := fun _ _ _ _ _ h => h

theorem Frozen.refl (s : Portfolio) : Frozen s s :=
  ⟨fun _ p hp e he => ⟨e, mem_entriesOf.2 ⟨p, hp, rfl, he⟩, rfl⟩, ⟨[], by simp, by simp⟩, rfl⟩

theorem Frozen.prim {cfg : Config} {s0 s t : Portfolio} (hp : Prim cfg still s t)
    (h : Frozen s0 s) : Frozen s0 t := by
  have hk := AllEntries.prim (kept_rules s0) hp h.kept
  have hsame : t.trades = s.trades → t.entryId = s.entryId → Frozen s0 t := by
    intro h1 h2
    exact ⟨hk, by rw [h1]; exact h.trades, h2.trans h.entryId⟩
  cases hp with
  | @exit Z _ pt p e sh fill date st hw hp he hz h0 hle hQ =>
    obtain ⟨hpm, _⟩ := lookupPos_some hp
    obtain ⟨hem, _⟩ := findEntry_some he
    obtain ⟨e0, he0, hcore⟩ := h.kept pt p hpm e hem
    obtain ⟨new, hn, hall⟩ := h.trades
    refine ⟨hk, ⟨new ++ [exitTrade s pt e sh fill date st], ?_, ?_⟩, ?_⟩
    · have : ((exitPf cfg s pt e sh fill date st).store pt (p.takeShares e sh)).trades =
          s.trades ++ [exitTrade s pt e sh fill date st] := by cases pt <;> rfl
      rw [this, hn, List.append_assoc]
    · intro tr htr
      rcases List.mem_append.1 htr with htr | htr
      · exact hall tr htr
      · rw [List.mem_singleton] at htr
        subst htr
        refine ⟨pt, p.symbol, e0, he0, TradeOf.core hcore ?_⟩
        have hty := ((hw.pos pt p hpm).entries e hem).type
        unfold TradeOf exitTrade
        rw [hty]
        exact ⟨rfl, rfl, rfl, rfl, rfl, rfl, rfl, rfl, rfl, rfl⟩
    · rw [← h.entryId]; cases pt <;> rfl
  | @drop Z _ pt p e hw hp he hz =>
    have hl := removeStopData_logs s e.stops
    refine hsame ?_ ?_
    · have : ((s.removeStopData e.stops).store pt
          { p with entries := eraseEntry p.entries e.id }).trades =
          (s.removeStopData e.stops).trades := by cases pt <;> rfl
      rw [this]; exact hl.1
    · have : ((s.removeStopData e.stops).store pt
          { p with entries := eraseEntry p.entries e.id }).entryId =
          (s.removeStopData e.stops).entryId := by cases pt <;> rfl
      rw [this, removeStopData_entryId]
  | @close Z _ pt p hw hp hnil => exact hsame (by cases pt <;> rfl) (by cases pt <;> rfl)
  | opened hw h0 hf hno hclamp hnm hcap hmode hfit hS hadd => exact hS.elim
  | order h0 hlim hQ => exact hsame rfl rfl
  | caches hm => exact hsame rfl rfl
  | stopValue id v hL => exact hsame rfl rfl
  | incr hasBar hB => exact hB.elim
  | removeStop id hw =>
    refine hsame ?_ (removeStop_same s id).entryId
    unfold PyBroker.removeStop
    split
    · rfl
    · simp only
      split
      · rfl
      · split <;> rfl
  | @clearStops _ pt p e hw hp he =>
    refine hsame ?_ (removeEntryStops_same s e none).entryId
    exact (removeStopData_logs s e.stops).1

theorem Frozen.steps {cfg : Config} {s t : Portfolio} (h : Steps cfg still s t) : Frozen s t :=
  h.inv (P := Frozen s) (fun _ _ hp hs => hs.prim hp) (Frozen.refl s)

/-! ## Capturing a bar -/

/-- What capturing a bar does to an entry. -/
def markEntry (pt : PosType) (q : BarQuote) (e : Entry) : Entry :=
  match q.close with
  | some _ => e.excursion pt q.low q.high
  | none => e

def markPos (q : BarQuote) (pt : PosType) (p : Position) : Position :=
  match q.close with
  | some c => match pt with
    | .long => p.markLong c q.low q.high
    | .short => p.markShort c q.low q.high
  | none => p

theorem captureLong_lookup (q : BarQuote) (acc : CaptureAcc) (sym : Sym) :
    lookupPos (captureLong q acc sym).pf.longs sym =
      (lookupPos acc.pf.longs sym).map (markPos q .long) := by
  unfold captureLong
  cases hp : lookupPos acc.pf.longs sym with
  | none => simpa using hp
  | some p =>
    cases hc : q.close with
    | none => simp only [Option.map_some, markPos, hc]; exact hp
    | some c =>
      simp only [Option.map_some, markPos, hc]
      obtain ⟨hm, hs⟩ := lookupPos_some hp
      have := lookupPos_replacePos_self (ps := acc.pf.longs) (q := p.markLong c q.low q.high)
        (List.mem_map.2 ⟨p, hm, rfl⟩)
      rw [show (p.markLong c q.low q.high).symbol = sym from hs] at this
      exact this

theorem captureShort_lookup (q : BarQuote) (acc : CaptureAcc) (sym : Sym) :
    lookupPos (captureShort q acc sym).pf.shorts sym =
      (lookupPos acc.pf.shorts sym).map (markPos q .short) := by
  unfold captureShort
  cases hp : lookupPos acc.pf.shorts sym with
  | none => simpa using hp
  | some p =>
    cases hc : q.close with
    | none => simp only [Option.map_some, markPos, hc]; exact hp
    | some c =>
      simp only [Option.map_some, markPos, hc]
      obtain ⟨hm, hs⟩ := lookupPos_some hp
      have := lookupPos_replacePos_self (ps := acc.pf.shorts) (q := p.markShort c q.low q.high)
        (List.mem_map.2 ⟨p, hm, rfl⟩)
      rw [show (p.markShort c q.low q.high).symbol = sym from hs] at this
      exact this

theorem captureShort_longs (q : BarQuote) (acc : CaptureAcc) (sym : Sym) :
    (captureShort q acc sym).pf.longs = acc.pf.longs := by
  unfold captureShort
  split
  · rfl
  · split <;> rfl

theorem captureSym_lookup (quote : Sym → BarQuote) (acc : CaptureAcc) (sym : Sym) (pt : PosType) :
    lookupPos ((captureSym quote acc sym).pf.book pt) sym =
      (lookupPos (acc.pf.book pt) sym).map (markPos (quote sym) pt) := by
  unfold captureSym
  cases pt with
  | long =>
    show lookupPos (captureShort _ _ _).pf.longs _ = _
    rw [captureShort_longs]
    exact captureLong_lookup _ _ _
  | short =>
    show lookupPos (captureShort _ _ _).pf.shorts _ = _
    rw [captureShort_lookup, captureLong_shorts]
    rfl

theorem captureSym_lookup_ne (quote : Sym → BarQuote) (acc : CaptureAcc) {sym sym' : Sym}
    (h : sym ≠ sym') (pt : PosType) :
    lookupPos ((captureSym quote acc sym).pf.book pt) sym' = lookupPos (acc.pf.book pt) sym' := by
  unfold captureSym
  rw [captureShort_lookup_ne _ _ h, captureLong_lookup_ne _ _ h]

theorem captureFold_lookup (quote : Sym → BarQuote) (syms : List Sym) :
    ∀ (acc : CaptureAcc), syms.Nodup → ∀ pt sym,
      lookupPos ((syms.foldl (captureSym quote) acc).pf.book pt) sym =
        if sym ∈ syms then (lookupPos (acc.pf.book pt) sym).map (markPos (quote sym) pt)
        else lookupPos (acc.pf.book pt) sym := by
  induction syms with
  | nil => intro acc _ pt sym; simp
  | cons x xs ih =>
    intro acc hn pt sym
    obtain ⟨hx, hn⟩ := List.nodup_cons.1 hn
    rw [List.foldl_cons, ih _ hn]
    by_cases hs : x = sym
    · subst hs
      rw [if_neg hx, if_pos List.mem_cons_self, captureSym_lookup]
    · rw [captureSym_lookup_ne _ _ hs]
      have : sym ∈ x :: xs ↔ sym ∈ xs := by
        rw [List.mem_cons]; exact ⟨fun h => h.resolve_left (fun e => hs e.symm), Or.inr⟩
      simp only [this]

theorem captureBar_lookup {cfg : Config} {s : Portfolio} (date : Date) (quote : Sym → BarQuote)
    (hw : WF [] s) (pt : PosType) (sym : Sym) :
    lookupPos ((captureBar cfg s date quote).book pt) sym =
      (lookupPos (s.book pt) sym).map (markPos (quote sym) pt) := by
  have hb : (captureBar cfg s date quote).book pt = (captureAcc cfg s quote).pf.book pt := by
    cases pt <;> rfl
  rw [hb]
  unfold captureAcc
  simp only
  rw [captureFold_lookup, applyInterest_book]
  · split
    · rfl
    · rename_i hno
      cases hl : lookupPos (s.book pt) sym with
      | none => rfl
      | some p =>
        exfalso
        apply hno
        rw [List.mem_insertionSort, (applyInterest_same cfg s).symbols]
        obtain ⟨hm, hs⟩ := lookupPos_some hl
        exact (hw.syms sym).2 ⟨pt, List.mem_map.2 ⟨p, hm, hs⟩⟩
  · have hp := List.perm_insertionSort (fun a b => a ≤ b) (s.applyInterest cfg).symbols
    rw [hp.nodup_iff, (applyInterest_same cfg s).symbols]
    exact hw.symsNodup

theorem captureBar_entries {cfg : Config} {s : Portfolio} (date : Date) (quote : Sym → BarQuote)
    (hg : Good s) (pt : PosType) (sym : Sym) :
    entriesOf ((captureBar cfg s date quote).book pt) sym =
      (entriesOf (s.book pt) sym).map (markEntry pt (quote sym)) := by
  have hw' : WF [] (captureBar cfg s date quote) := hg.wf.same (captureBar_same cfg s date quote)
  rw [entriesOf_eq (hw'.nodup pt), entriesOf_eq (hg.wf.nodup pt), captureBar_lookup date quote hg.wf]
  cases hl : lookupPos (s.book pt) sym with
  | none => rfl
  | some p =>
    obtain ⟨hm, hs⟩ := lookupPos_some hl
    have ht := (hg.wf.pos pt p hm).type
    simp only [Option.map_some]
    unfold markPos
    cases hc : (quote sym).close with
    | none =>
      have : markEntry pt (quote sym) = id := by
        funext e; simp [markEntry, hc]
      rw [this, List.map_id]
    | some c =>
      have : markEntry pt (quote sym) = Entry.excursion pt (quote sym).low (quote sym).high := by
        funext e; simp [markEntry, hc]
      rw [this]
      cases pt with
      | long => simp only; rw [markLong_entries, ht]
      | short => simp only; rw [markShort_entries, ht]

theorem captureBar_trades (cfg : Config) (s : Portfolio) (date : Date) (quote : Sym → BarQuote) :
    (captureBar cfg s date quote).trades = s.trades := by
  have h : ∀ (syms : List Sym) (acc : CaptureAcc),
      (syms.foldl (captureSym quote) acc).pf.trades = acc.pf.trades := by
    intro syms
    induction syms with
    | nil => intro acc; rfl
    | cons x xs ih =>
      intro acc
      rw [List.foldl_cons, ih]
      unfold captureSym captureShort captureLong
      split <;> (try split) <;> (try split) <;> (try split) <;> rfl
  show (captureAcc cfg s quote).pf.trades = _
  unfold captureAcc
  simp only
  rw [h]
  obtain ⟨c, a, hf⟩ := applyInterest_frame cfg s
  rw [hf]

/-! ## One call -/

/-- What a call does to an entry that stays open. -/
def advance (pt : PosType) (sym : Sym) : Op → Entry → Entry
  | .captureBar _ quote, e => markEntry pt (quote sym) e
  | .incrBars hasBar, e =>
    { e with bars := e.bars + 1, symBars := if hasBar sym then e.symBars + 1 else e.symBars }
  | _, e => e

/-- A call that opens an entry on a side. -/
def Opens (op : Op) (pt : PosType) (r : OrderReq) : Prop :=
  (op = .buy r ∧ pt = .long) ∨ (op = .sell r ∧ pt = .short)

structure StepFacts (s : Portfolio) (op : Op) (s' : Portfolio) : Prop where
  entries : ∀ pt sym, ∀ e' ∈ entriesOf (s'.book pt) sym,
    (∃ e ∈ entriesOf (s.book pt) sym, e'.core = (advance pt sym op e).core) ∨
      ∃ r n stops, Opens op pt r ∧ r.symbol = sym ∧ 0 < n ∧
        e' = newEntry s pt r.date sym n r.fill stops
  trades : ∃ new, s'.trades = s.trades ++ new ∧
    ∀ tr ∈ new, ∃ pt sym, ∃ e ∈ entriesOf (s.book pt) sym, TradeOf e tr

theorem Frozen.entriesOf {s t : Portfolio} (h : Frozen s t) {pt : PosType} {sym : Sym} {e : Entry}
    (he : e ∈ Spec.entriesOf (t.book pt) sym) :
    ∃ e0 ∈ Spec.entriesOf (s.book pt) sym, e.core = e0.core := by
  obtain ⟨p, hp, rfl, hep⟩ := mem_entriesOf.1 he
  exact h.kept pt p hp e hep

theorem Frozen.facts {s s' : Portfolio} {op : Op} (h : Frozen s s')
    (hop : ∀ pt sym e, advance pt sym op e = e) : StepFacts s op s' := by
  refine ⟨fun pt sym e' he' => Or.inl ?_, h.trades⟩
  obtain ⟨e, he, hc⟩ := h.entriesOf he'
  exact ⟨e, he, by rw [hop]; exact hc⟩

theorem openedPf_entries {cfg : Config} {s : Portfolio} {pt : PosType} {date : Date} {sym : Sym}
    {n fill : ℚ} {es : List Stop} {sda : List StopData} {ac : List (Sym × List Nat)}
    (hw : WF [] s) {pt' : PosType} {sym' : Sym} {e : Entry}
    (he : e ∈ entriesOf ((openedPf cfg s pt date sym n fill es sda ac).book pt') sym') :
    e ∈ entriesOf (s.book pt') sym' ∨
      (pt' = pt ∧ sym' = sym ∧ e = newEntry s pt date sym n fill es) := by
  obtain ⟨q, hq, hqs, heq⟩ := mem_entriesOf.1 he
  by_cases hpt : pt = pt'
  · subst hpt
    rw [openedPf_book] at hq
    unfold openedBook at hq
    split at hq
    · rcases List.mem_append.1 hq with hq | hq
      · exact Or.inl (mem_entriesOf.2 ⟨q, hq, hqs, heq⟩)
      · rw [List.mem_singleton] at hq
        subst hq
        simp only [openedPos, List.mem_singleton] at heq hqs
        exact Or.inr ⟨rfl, hqs.symm, heq⟩
    · rename_i p hp
      obtain ⟨hpm, hps⟩ := lookupPos_some hp
      rcases mem_replacePos (hw.nodup _) hq with rfl | ⟨hq, _⟩
      · simp only [openedPos, List.mem_append, List.mem_singleton] at heq hqs
        rcases heq with heq | heq
        · exact Or.inl (mem_entriesOf.2 ⟨p, hpm, hqs, heq⟩)
        · exact Or.inr ⟨rfl, hqs ▸ hps, heq⟩
      · exact Or.inl (mem_entriesOf.2 ⟨q, hq, hqs, heq⟩)
  · rw [openedPf_book_ne _ _ _ _ _ _ _ _ _ _ hpt] at hq
    exact Or.inl (mem_entriesOf.2 ⟨q, hq, hqs, heq⟩)

theorem placeOrder_facts {cfg : Config} {sd : Side} {s s' : Portfolio} {r : OrderReq}
    {o : Option Order} (hg : Good s) (h : placeOrder cfg sd s r = .ok (o, s')) :
    (Frozen s s') ∨ ((∃ new, s'.trades = s.trades ++ new ∧
        ∀ tr ∈ new, ∃ pt sym, ∃ e ∈ entriesOf (s.book pt) sym, TradeOf e tr) ∧
      (∃ c n, c = closeShares cfg sd.closes s r.date r.symbol r.shares r.fill ∧ 0 < n ∧ n ≤ c.rem ∧
      ∀ pt sym, ∀ e' ∈ entriesOf (s'.book pt) sym,
        (∃ e ∈ entriesOf (s.book pt) sym, e'.core = e.core) ∨
          ∃ stops, pt = sd.opens ∧ sym = r.symbol ∧
            e' = newEntry s pt r.date sym n r.fill stops)) := by
  have hclose : Frozen s (closeShares cfg sd.closes s r.date r.symbol r.shares r.fill).pf :=
    Frozen.steps (closeShares_steps (cfg := cfg) (Q := still) trivial hg.wf)
  cases placeOrder_effect hg h with
  | nothing a b _ =>
    left
    have := Frozen.refl s
    exact ⟨this.kept.frame (fun pt => by cases pt <;> rfl), this.trades, this.entryId⟩
  | closed c a b hc _ _ _ =>
    left
    subst hc
    exact ⟨hclose.kept.frame (fun pt => by cases pt <;> rfl), hclose.trades, hclose.entryId⟩
  | opened c n es sda ac hc hn hle _ _ _ _ hstops =>
    right
    subst hc
    refine ⟨hclose.trades, _, n, rfl, hn, hle, ?_⟩
    obtain ⟨_, _, _, hcase⟩ := placeOrder_cases h
    have hpos : 0 < r.shares := by
      rcases hcase with ⟨hnone, _⟩ | ⟨_, hpos, _⟩
      · cases hnone
      · exact hpos
    have cf := closeShares_facts (cfg := cfg) (pt := sd.closes) (date := r.date) (sym := r.symbol)
      (fill := r.fill) hg.wf hg.ne hpos
    intro pt sym e' he'
    have he2 : e' ∈ entriesOf ((openedPf cfg
        (closeShares cfg sd.closes s r.date r.symbol r.shares r.fill).pf sd.opens r.date r.symbol n
        r.fill es sda ac).book pt) sym := by cases pt <;> exact he'
    rcases openedPf_entries cf.wf he2 with h1 | ⟨h1, h2, h3⟩
    · exact Or.inl (hclose.entriesOf h1)
    · refine Or.inr ⟨es, h1, h2, ?_⟩
      rw [h3, h1, h2]
      unfold newEntry
      rw [hclose.entryId]

theorem closeShares_all {cfg : Config} {pt : PosType} {s : Portfolio} {date : Date} {sym : Sym}
    {fill : ℚ} {p : Position} (hg : Good s) (hp : lookupPos (s.book pt) sym = some p) :
    (closeShares cfg pt s date sym p.shares fill).rem = 0 := by
  obtain ⟨hmem, hsym⟩ := lookupPos_some hp
  have hpw := hg.wf.pos _ p hmem
  have hsh : 0 < p.shares := hpw.shares_pos (hg.ne _ p hmem)
  have hpos : ∀ e ∈ p.entries, 0 < e.shares := fun e he => by
    rcases (hpw.entries e he).shares with h | h
    · exact absurd h.1 (by simp)
    · exact h.2
  have hff := closeShares_fifo (cfg := cfg) (pt := pt) (date := date)
    (sym := sym) (fill := fill) hg.wf hsh.le
  have hes : entriesOf (s.book pt) sym = p.entries := by
    rw [entriesOf_eq (hg.wf.nodup _), hp]
  simp only [hes] at hff
  rw [hff.1, sum_fifo (fun x hx => by
      obtain ⟨e, he, rfl⟩ := List.mem_map.1 hx
      exact hpos e he) hsh.le, ← hpw.shares, min_self, sub_self]

theorem placeOrder_frozen {cfg : Config} {sd : Side} {s s' : Portfolio} {r : OrderReq}
    {o : Option Order} {p : Position} (hg : Good s)
    (hp : lookupPos (s.book sd.closes) r.symbol = some p) (hr : r.shares = p.shares)
    (h : placeOrder cfg sd s r = .ok (o, s')) : Frozen s s' := by
  rcases placeOrder_facts hg h with h1 | ⟨_, c, n, hc, hn, hle, _⟩
  · exact h1
  · rw [hc, hr, closeShares_all hg hp] at hle
    exact absurd hn (not_lt.2 hle)

theorem Frozen.trans {s t u : Portfolio} (h : Frozen s t) (h' : Frozen t u) : Frozen s u := by
  refine ⟨?_, ?_, h'.entryId.trans h.entryId⟩
  · intro pt p hp e he
    obtain ⟨e1, he1, hc1⟩ := h'.kept pt p hp e he
    obtain ⟨e0, he0, hc0⟩ := h.entriesOf he1
    exact ⟨e0, he0, hc1.trans hc0⟩
  · obtain ⟨n1, h1, a1⟩ := h.trades
    obtain ⟨n2, h2, a2⟩ := h'.trades
    refine ⟨n1 ++ n2, by rw [h2, h1, List.append_assoc], ?_⟩
    intro tr htr
    rcases List.mem_append.1 htr with htr | htr
    · exact a1 tr htr
    · obtain ⟨pt, sym, e, he, hT⟩ := a2 tr htr
      obtain ⟨e0, he0, hc⟩ := h.entriesOf he
      exact ⟨pt, sym, e0, he0, hT.core hc⟩

theorem step_facts {cfg : Config} {s s' : Portfolio} {op : Op} (hg : Good s) (hf : StopsFit s)
    (hfit : op.Fit) (h : step cfg s op = .ok s') : StepFacts s op s' := by
  have hrest : (∀ r, op ≠ .buy r) → (∀ r, op ≠ .sell r) →
      (∀ d sym b sf slip, op ≠ .exitPosition d sym b sf slip) → (∀ hb, op ≠ .incrBars hb) →
      (∀ d quote, op ≠ .captureBar d quote) → Frozen s s' := by
    intro h1 h2 h3 h4 h5
    have hQ : op.Fills still := by
      cases op with
      | buy r => exact absurd rfl (h1 r)
      | sell r => exact absurd rfl (h2 r)
      | exitPosition => exact absurd rfl (h3 _ _ _ _ _)
      | incrBars => exact absurd rfl (h4 _)
      | captureBar => exact absurd rfl (h5 _ _)
      | checkStops => exact ⟨fun _ _ _ _ _ _ => trivial, trivial⟩
      | _ => exact trivial
    rcases step_steps hg hf hfit hQ h with h1 | ⟨d, quote, he, _⟩
    · exact Frozen.steps h1.2
    · exact absurd he (h5 _ _)
  cases op with
  | buy r =>
    simp only [step] at h
    cases hb : buy cfg s r with
    | error e => rw [hb] at h; cases h
    | ok x =>
      rw [hb] at h
      cases h
      rcases placeOrder_facts (sd := .buy) hg hb with hfr | ⟨ht, c, n, _, hn, _, he⟩
      · exact hfr.facts (fun _ _ _ => rfl)
      · refine ⟨fun pt sym e' he' => ?_, ht⟩
        rcases he pt sym e' he' with h1 | ⟨stops, h1, h2, h3⟩
        · exact Or.inl h1
        · exact Or.inr ⟨r, n, stops, Or.inl ⟨rfl, h1⟩, h2.symm, hn, h3⟩
  | sell r =>
    simp only [step] at h
    cases hb : sell cfg s r with
    | error e => rw [hb] at h; cases h
    | ok x =>
      rw [hb] at h
      cases h
      rcases placeOrder_facts (sd := .sell) hg hb with hfr | ⟨ht, c, n, _, hn, _, he⟩
      · exact hfr.facts (fun _ _ _ => rfl)
      · refine ⟨fun pt sym e' he' => ?_, ht⟩
        rcases he pt sym e' he' with h1 | ⟨stops, h1, h2, h3⟩
        · exact Or.inl h1
        · exact Or.inr ⟨r, n, stops, Or.inr ⟨rfl, h1⟩, h2.symm, hn, h3⟩
  | exitPosition d sym b sf slip =>
    simp only [step] at h
    refine Frozen.facts ?_ (fun _ _ _ => rfl)
    obtain ⟨s1, h1, h2⟩ := exitPosition_cases h
    have hf1 : Frozen s s1 ∧ Good s1 := by
      rcases h1 with ⟨_, rfl⟩ | ⟨p, o, hp, hpl⟩
      · exact ⟨Frozen.refl _, hg⟩
      · exact ⟨placeOrder_frozen (sd := .sell) (p := p) hg (by exact hp) rfl hpl, placeOrder_good hg hpl⟩
    refine hf1.1.trans ?_
    rcases h2 with ⟨_, rfl⟩ | ⟨p, o, hp, hpl⟩
    · exact Frozen.refl _
    · exact placeOrder_frozen (sd := .buy) (p := p) hf1.2 (by exact hp) rfl hpl
  | incrBars hb =>
    simp only [step] at h
    have he := Except.ok.inj h
    subst he
    refine ⟨fun pt sym e' he' => Or.inl ?_, [], by simp [incrBars], by simp⟩
    obtain ⟨q, hq, hqs, heq⟩ := mem_entriesOf.1 he'
    have hq2 : q ∈ (s.book pt).map (Position.incrBars hb) := by cases pt <;> exact hq
    obtain ⟨p, hp, rfl⟩ := List.mem_map.1 hq2
    obtain ⟨e0, he0, rfl⟩ := List.mem_map.1 heq
    refine ⟨e0, mem_entriesOf.2 ⟨p, hp, hqs, he0⟩, ?_⟩
    have hs : p.symbol = sym := hqs
    simp only [advance, hs]
  | captureBar d quote =>
    simp only [step] at h
    have he := Except.ok.inj h
    subst he
    refine ⟨fun pt sym e' he' => Or.inl ?_, [], by simp [captureBar_trades], by simp⟩
    rw [captureBar_entries d quote hg] at he'
    obtain ⟨e, he, rfl⟩ := List.mem_map.1 he'
    exact ⟨e, he, rfl⟩
  | checkStops => exact (hrest (by simp) (by simp) (by simp) (by simp) (by simp)).facts (fun _ _ _ => rfl)
  | removeStop => exact (hrest (by simp) (by simp) (by simp) (by simp) (by simp)).facts (fun _ _ _ => rfl)
  | removeStopsSym => exact (hrest (by simp) (by simp) (by simp) (by simp) (by simp)).facts (fun _ _ _ => rfl)
  | removeStopsEntry => exact (hrest (by simp) (by simp) (by simp) (by simp) (by simp)).facts (fun _ _ _ => rfl)

end PyBroker
