import Verif.Portfolio.Fifo
import Verif.Portfolio.Holdings
import Verif.Portfolio.Ledger
import Verif.Props.Ledger
import Verif.Props.Demo

/-!
# C06, C12, C13, C17: what buy, sell and exit_position do
-/

namespace PyBroker

open Spec

/-! ## Helpers -/

theorem observed_eq (s : Portfolio) (a b : Option ℚ) :
    observed { s with cachedLongMv := a, cachedShortMv := b } = observed s := rfl

theorem placeOrder_none {cfg : Config} {sd : Side} {s s' : Portfolio} {r : OrderReq} (hg : Good s)
    (h : placeOrder cfg sd s r = .ok (none, s')) : observed s' = observed s := by
  generalize ho : (none : Option Order) = o at h
  cases placeOrder_effect hg h with
  | nothing a b _ => rfl
  | closed c a b _ _ _ _ => cases ho
  | opened => cases ho

theorem exitLoop_book_update {cfg : Config} {s : Portfolio} {pt : PosType} {date : Date}
    {sym : Sym} {shares fill : ℚ} (hwf : WF [] s) (h0 : 0 < shares) {p : Position}
    (hp : lookupPos (s.book pt) sym = some p) (hle : p.shares ≤ shares) :
    (closeShares cfg pt s date sym shares fill).pf.book pt = erasePos (s.book pt) sym := by
  obtain ⟨hmem, hsym⟩ := lookupPos_some hp
  have hf := exitLoop_facts (cfg := cfg) (date := date) (fill := fill) hwf hmem h0
  simp only at hf
  obtain ⟨hb, hs, hw, hr, hsh, _⟩ := hf
  have hpos : ∀ e ∈ p.entries, 0 < e.shares := fun e he => by
    rcases ((hwf.pos pt p hmem).entries e he).shares with h | h
    · exact absurd h.1 (by simp)
    · exact h.2
  have hfi := exitLoop_fifo cfg pt date fill p.entries shares s p rfl
    (fun e he => ⟨hpos e he, ((hwf.pos pt p hmem).entries e he).type⟩) h0.le
  have hnil : (exitLoop cfg pt date fill p.entries shares s p).pos.entries = [] := by
    rw [hfi.2.1]
    have key : ∀ (es : List Entry) (n : ℚ), (∀ e ∈ es, 0 < e.shares) →
        (es.map Entry.shares).sum ≤ n → leftOpen es n = [] := by
      intro es
      induction es with
      | nil => intro n _ _; rfl
      | cons e es ih =>
        intro n he hn
        have hx := he e (by simp)
        have hsum : 0 ≤ (es.map Entry.shares).sum :=
          List.sum_nonneg (fun y hy => by
            obtain ⟨f, hf, rfl⟩ := List.mem_map.1 hy
            exact (he f (by simp [hf])).le)
        simp only [List.map_cons, List.sum_cons] at hn
        have hmin : min e.shares n = e.shares := min_eq_left (by linarith)
        unfold leftOpen
        rw [exits_cons, hmin, List.filter_cons]
        simp only [lt_irrefl, decide_false, Bool.false_eq_true, if_false]
        exact ih (n - e.shares) (fun f hf => he f (by simp [hf])) (by linarith)
    exact key _ _ hpos (by rw [← (hwf.pos pt p hmem).shares]; exact hle)
  unfold closeShares
  rw [hp]
  simp only
  have hin : (exitLoop cfg pt date fill p.entries shares s p).pos.symbol ∈
      ((exitLoop cfg pt date fill p.entries shares s p).pf.book pt).map Position.symbol := by
    rw [hb, hs]; exact List.mem_map.2 ⟨p, hmem, rfl⟩
  rcases updatePosition_cases hin hw with ⟨hne, _⟩ | ⟨_, he⟩
  · exact absurd hnil hne
  · rw [he, hb, hs, hsym]
    cases pt <;> rfl

/-- The entry an order opens. -/
def opensEntry (e : Entry) (pt : PosType) (r : OrderReq) (n : ℚ) : Prop :=
  e.type = pt ∧ e.symbol = r.symbol ∧ e.date = r.date ∧ e.shares = n ∧ e.price = r.fill ∧
    e.bars = 0 ∧ e.symBars = 0 ∧ e.mae = 0 ∧ e.mfe = 0

theorem entriesOf_opened {cfg : Config} {s : Portfolio} {pt : PosType} {date : Date} {sym : Sym}
    {n fill : ℚ} {es : List Stop} {sd : List StopData} {ac : List (Sym × List Nat)}
    (hw : WF [] s) (hw' : WF [] (openedPf cfg s pt date sym n fill es sd ac)) :
    entriesOf ((openedPf cfg s pt date sym n fill es sd ac).book pt) sym =
      entriesOf (s.book pt) sym ++ [newEntry s pt date sym n fill es] := by
  have hb : (openedPf cfg s pt date sym n fill es sd ac).book pt =
      openedBook s pt date sym n fill es := by cases pt <;> rfl
  rw [entriesOf_eq (hw'.nodup pt), entriesOf_eq (hw.nodup pt), hb]
  unfold openedBook
  rcases Option.eq_none_or_eq_some (lookupPos (s.book pt) sym) with hn | ⟨p, hp⟩
  · rw [hn]
    simp only
    have hl : lookupPos (s.book pt ++ [openedPos s pt date sym n fill es none]) sym =
        some (openedPos s pt date sym n fill es none) := by
      have key : ∀ ps : List Position, lookupPos ps sym = none → ∀ q : Position, q.symbol = sym →
          lookupPos (ps ++ [q]) sym = some q := by
        intro ps
        induction ps with
        | nil => intro _ q hq; simp [lookupPos, hq]
        | cons x xs ih =>
          intro hx q hq
          unfold lookupPos at hx
          split at hx
          · cases hx
          · rename_i hne
            rw [List.cons_append]
            have hc : lookupPos (x :: (xs ++ [q])) sym =
              if x.symbol = sym then some x else lookupPos (xs ++ [q]) sym := rfl
            rw [hc, if_neg hne]
            exact ih hx q hq
      exact key _ hn _ rfl
    rw [hl]; rfl
  · rw [hp]
    simp only
    obtain ⟨hmem, hsym⟩ := lookupPos_some hp
    have hin : (openedPos s pt date sym n fill es (some p)).symbol ∈
        (s.book pt).map Position.symbol := List.mem_map.2 ⟨p, hmem, rfl⟩
    have hm := mem_replacePos_self hin
    have hnd : ((replacePos (s.book pt) (openedPos s pt date sym n fill es (some p))).map
        Position.symbol).Nodup := by
      have := hw'.nodup pt
      rw [hb] at this
      unfold openedBook at this
      rw [hp] at this
      exact this
    have hl := lookupPos_of_mem hnd hm
    have hs2 : (openedPos s pt date sym n fill es (some p)).symbol = sym := hsym
    rw [hs2] at hl
    rw [hl]; rfl

theorem placeOrder_fifo {cfg : Config} {sd : Side} {s s' : Portfolio} {r : OrderReq} {o : Order}
    (hg : Good s) (h : placeOrder cfg sd s r = .ok (some o, s')) :
    let es := entriesOf (s.book sd.closes) r.symbol
    let closed := (fifo (es.map Entry.shares) r.shares).sum
    ∃ opened newTrades newEntries,
      s'.trades = s.trades ++ newTrades ∧
      newTrades.map TradeFacts.of = fifoTrades r.date r.fill es r.shares ∧
      entriesOf (s'.book sd.closes) r.symbol = leftOpen es r.shares ∧
      0 ≤ opened ∧ opened ≤ r.shares - closed ∧
      entriesOf (s'.book sd.opens) r.symbol =
        entriesOf (s.book sd.opens) r.symbol ++ newEntries ∧
      ((opened = 0 ∧ newEntries = []) ∨
        (0 < opened ∧ ∃ e, newEntries = [e] ∧ opensEntry e sd.opens r opened)) ∧
      o.shares = closed + opened ∧ o.side = sd ∧ o.symbol = r.symbol ∧ o.fillPrice = r.fill ∧
      o.date = r.date ∧ o.limitPrice = r.limit ∧ s'.orders = s.orders ++ [o] := by
  have hpc := placeOrder_cases h
  have hsh0 := hpc.1
  have hfill := hpc.2.1
  intro es closed
  have hno := (Side.closes_ne_opens sd)
  generalize ho : some o = oo at h
  cases placeOrder_effect hg h with
  | nothing a b _ => cases ho
  | closed c a b hc hfi hlim hm =>
    cases ho
    have hsh : 0 < r.shares := by
      by_contra hneg
      have h0 : r.shares = 0 := le_antisymm (not_lt.1 hneg) hsh0
      have hff := closeShares_fifo (cfg := cfg) (pt := sd.closes) (date := r.date)
        (sym := r.symbol) (fill := r.fill) hg.wf hsh0
      simp only at hff
      rw [← hc, h0] at hff
      have hpos : ∀ x ∈ (entriesOf (s.book sd.closes) r.symbol).map Entry.shares, 0 < x := by
        intro x hx
        obtain ⟨e, he, rfl⟩ := List.mem_map.1 hx
        unfold entriesOf at he
        obtain ⟨p, hp, hep⟩ := List.mem_flatMap.1 he
        have hp' := (List.mem_filter.1 hp).1
        rcases ((hg.wf.pos _ p hp').entries e hep).shares with h | h
        · exact absurd h.1 (by simp)
        · exact h.2
      rw [sum_fifo_zero hpos] at hff
      have : c.filled = r.shares - c.rem := by rw [hc]; unfold closeShares; split <;> simp
      rw [h0, hff.1] at this
      linarith
    have hcf := closeShares_facts (cfg := cfg) (pt := sd.closes) (date := r.date)
      (sym := r.symbol) (fill := r.fill) hg.wf hg.ne hsh
    have hff := closeShares_fifo (cfg := cfg) (pt := sd.closes) (date := r.date)
      (sym := r.symbol) (fill := r.fill) hg.wf hsh0
    have hord := closeShares_orders cfg sd.closes s r.date r.symbol r.shares r.fill
    simp only at hff
    rw [← hc] at hcf hff hord
    obtain ⟨hrem, hleft, new, htr, hnew⟩ := hff
    refine ⟨0, new, [], htr, hnew, ?_, le_refl _, ?_, ?_, Or.inl ⟨rfl, rfl⟩, ?_, rfl, rfl, rfl,
      rfl, rfl, ?_⟩
    · rw [← hleft]; cases sd <;> rfl
    · have := hcf.rem_nonneg
      rw [hrem] at this; exact this
    · rw [List.append_nil, ← hcf.otherSide _ hno]; cases sd <;> rfl
    · show c.filled = closed + 0
      rw [hcf.filled, hrem]; ring
    · show c.pf.orders ++ _ = _
      rw [hord]; rfl
  | opened c n sts sda ac hc hn hle hlim hclamp hcap hmode hstops =>
    cases ho
    have hsh : 0 < r.shares := by
      have : c.rem ≤ r.shares := by
        have hff := closeShares_fifo (cfg := cfg) (pt := sd.closes) (date := r.date)
          (sym := r.symbol) (fill := r.fill) hg.wf hsh0
        simp only at hff
        rw [← hc] at hff
        have hpos : ∀ x ∈ (entriesOf (s.book sd.closes) r.symbol).map Entry.shares, 0 < x := by
          intro x hx
          obtain ⟨e, he, rfl⟩ := List.mem_map.1 hx
          unfold entriesOf at he
          obtain ⟨p, hp, hep⟩ := List.mem_flatMap.1 he
          have hp' := (List.mem_filter.1 hp).1
          rcases ((hg.wf.pos _ p hp').entries e hep).shares with h | h
          · exact absurd h.1 (by simp)
          · exact h.2
        rw [hff.1, sum_fifo hpos hsh0]
        have : 0 ≤ min ((entriesOf (s.book sd.closes) r.symbol).map Entry.shares).sum r.shares :=
          le_min (List.sum_nonneg (fun x hx => (hpos x hx).le)) hsh0
        linarith
      linarith
    have hcf := closeShares_facts (cfg := cfg) (pt := sd.closes) (date := r.date)
      (sym := r.symbol) (fill := r.fill) hg.wf hg.ne hsh
    have hff := closeShares_fifo (cfg := cfg) (pt := sd.closes) (date := r.date)
      (sym := r.symbol) (fill := r.fill) hg.wf hsh0
    have hord := closeShares_orders cfg sd.closes s r.date r.symbol r.shares r.fill
    simp only at hff
    rw [← hc] at hcf hff hord
    obtain ⟨hrem, hleft, new, htr, hnew⟩ := hff
    have hgone : ∀ pt', sd.opens ≠ pt' → lookupPos (c.pf.book pt') r.symbol = none := by
      intro pt' hne
      have : pt' = sd.closes := (posType_ne hne (Side.closes_ne_opens sd).symm)
      rw [this]
      exact hcf.gone (lt_of_lt_of_le hn hle)
    have hw' := WF.opened (cfg := cfg) (date := r.date) (es := sts) (sd := sda) (ac := ac) hcf.wf
      hn hfill hgone
    refine ⟨n, new, [newEntry c.pf sd.opens r.date r.symbol n r.fill sts], htr, hnew, ?_, hn.le, ?_,
      ?_, Or.inr ⟨hn, _, rfl, ⟨rfl, rfl, rfl, rfl, rfl, rfl, rfl, rfl, rfl⟩⟩, ?_, rfl, rfl, rfl, rfl,
      rfl, ?_⟩
    · rw [← hleft]
      have : (openedPf cfg c.pf sd.opens r.date r.symbol n r.fill sts sda ac).book sd.closes =
          c.pf.book sd.closes := openedPf_book_ne _ _ _ _ _ _ _ _ _ _ hno.symm
      rw [← this]; cases sd <;> rfl
    · rw [hrem] at hle; exact hle
    · rw [← hcf.otherSide _ hno, ← entriesOf_opened hcf.wf hw']
      cases sd <;> rfl
    · show c.filled + n = closed + n
      rw [hcf.filled, hrem]; ring
    · show c.pf.orders ++ _ = _
      rw [hord]; rfl

/-! ## C06 -/

/-- C06, sells: entries of the long position close oldest first, one trade per
entry that gives up shares; only the remainder may open a short entry. -/
theorem sell_fifo {cfg : Config} {ops : List Op} {s s' : Portfolio} {r : OrderReq} {o : Order}
    (hfit : ∀ op ∈ ops, op.Fit) (h : run cfg ops = .ok s)
    (hs : sell cfg s r = .ok (some o, s')) :
    let es := entriesOf s.longs r.symbol
    let closed := (fifo (es.map Entry.shares) r.shares).sum
    ∃ opened newTrades newEntries,
      s'.trades = s.trades ++ newTrades ∧
      newTrades.map TradeFacts.of = fifoTrades r.date r.fill es r.shares ∧
      entriesOf s'.longs r.symbol = leftOpen es r.shares ∧
      0 ≤ opened ∧ opened ≤ r.shares - closed ∧
      entriesOf s'.shorts r.symbol = entriesOf s.shorts r.symbol ++ newEntries ∧
      ((opened = 0 ∧ newEntries = []) ∨
        (0 < opened ∧ ∃ e, newEntries = [e] ∧ opensEntry e .short r opened)) ∧
      o.shares = closed + opened ∧ o.side = .sell ∧ o.symbol = r.symbol ∧ o.fillPrice = r.fill ∧
      o.date = r.date ∧ o.limitPrice = r.limit ∧ s'.orders = s.orders ++ [o] :=
  placeOrder_fifo (sd := .sell) (run_good hfit h).1 hs

/-- C06, buys: likewise for the short position. -/
theorem buy_fifo {cfg : Config} {ops : List Op} {s s' : Portfolio} {r : OrderReq} {o : Order}
    (hfit : ∀ op ∈ ops, op.Fit) (h : run cfg ops = .ok s)
    (hs : buy cfg s r = .ok (some o, s')) :
    let es := entriesOf s.shorts r.symbol
    let closed := (fifo (es.map Entry.shares) r.shares).sum
    ∃ opened newTrades newEntries,
      s'.trades = s.trades ++ newTrades ∧
      newTrades.map TradeFacts.of = fifoTrades r.date r.fill es r.shares ∧
      entriesOf s'.shorts r.symbol = leftOpen es r.shares ∧
      0 ≤ opened ∧ opened ≤ r.shares - closed ∧
      entriesOf s'.longs r.symbol = entriesOf s.longs r.symbol ++ newEntries ∧
      ((opened = 0 ∧ newEntries = []) ∨
        (0 < opened ∧ ∃ e, newEntries = [e] ∧ opensEntry e .long r opened)) ∧
      o.shares = closed + opened ∧ o.side = .buy ∧ o.symbol = r.symbol ∧ o.fillPrice = r.fill ∧
      o.date = r.date ∧ o.limitPrice = r.limit ∧ s'.orders = s.orders ++ [o] :=
  placeOrder_fifo (sd := .buy) (run_good hfit h).1 hs

/-! ## C12 -/

/-- C12: an order that is not filled leaves everything observable as it was. -/
theorem unfilled_changes_nothing {cfg : Config} {ops : List Op} {s s' : Portfolio} {r : OrderReq}
    (hfit : ∀ op ∈ ops, op.Fit) (h : run cfg ops = .ok s) :
    (buy cfg s r = .ok (none, s') → observed s' = observed s) ∧
      (sell cfg s r = .ok (none, s') → observed s' = observed s) :=
  ⟨fun hb => placeOrder_none (sd := .buy) (run_good hfit h).1 hb,
    fun hb => placeOrder_none (sd := .sell) (run_good hfit h).1 hb⟩

theorem addStopStep_error {eid : Nat} {pr : ℚ} {acc : List Stop × Portfolio} {st : Stop} {er : Err}
    (h : addStopStep eid pr acc st = .error er) : er = .duplicateStopId ∨ er = .stopAmountNotSet := by
  unfold addStopStep at h
  split at h
  · cases h; exact Or.inl rfl
  · split at h
    · cases h
    · split at h
      · rename_i h4
        cases h
        unfold stopAmount at h4
        split at h4
        · cases h4
        · split at h4
          · cases h4
          · cases h4; exact Or.inr rfl
      · cases h

theorem addStops_error {eid : Nat} {pr : ℚ} {er : Err} : ∀ {l : List Stop}
    {acc : List Stop × Portfolio}, foldE (addStopStep eid pr) acc l = .error er →
    er = .duplicateStopId ∨ er = .stopAmountNotSet := by
  intro l
  induction l with
  | nil => intro acc h; cases h
  | cons st l ih =>
    intro acc h
    unfold foldE at h
    split at h
    · rename_i e3 h3
      cases h
      exact addStopStep_error h3
    · exact ih h

theorem openShares_error {cfg : Config} {pt : PosType} {s : Portfolio} {date : Date} {sym : Sym}
    {n fill : ℚ} {stops : List Stop} {er : Err}
    (h : openShares cfg pt s date sym n fill stops = .error er) :
    er = .duplicateStopId ∨ er = .stopAmountNotSet := by
  unfold openShares at h
  simp only at h
  split at h
  · rename_i e' ha
    cases h
    exact addStops_error ha
  · cases h

theorem openLong_error {cfg : Config} {s : Portfolio} {date : Date} {sym : Sym}
    {n fill : ℚ} {stops : List Stop} {er : Err}
    (h : openLong cfg s date sym n fill stops = .error er) :
    er = .duplicateStopId ∨ er = .stopAmountNotSet := by
  unfold openLong at h
  split at h
  · cases h
  · simp only at h
    generalize (if (s.clampShares cfg sym fill n .buy).1 < n then
      (s.clampShares cfg sym fill n .buy).1 else n) = m at h
    split at h
    · cases h
    · split at h
      · cases h
      · exact openShares_error h

/-- C12: bad input is refused whatever the state, before anything else is
looked at. -/
theorem bad_input_refused (cfg : Config) (s : Portfolio) (r : OrderReq) :
    (r.shares < 0 ∨ r.fill ≤ 0 ∨ ∃ l, r.limit = some l ∧ l ≤ 0) ↔
      ∃ e ∈ [Err.negativeShares, .badFillPrice, .badLimitPrice],
        (∀ t, buy cfg t r = .error e) ∧ ∀ t, sell cfg t r = .error e := by
  have hv : (r.shares < 0 ∨ r.fill ≤ 0 ∨ ∃ l, r.limit = some l ∧ l ≤ 0) ↔
      ∃ e ∈ [Err.negativeShares, .badFillPrice, .badLimitPrice],
        verifyInput r.shares r.fill r.limit = .error e := by
    unfold verifyInput
    by_cases h1 : r.shares < 0
    · simp [h1]
    · by_cases h2 : r.fill ≤ 0
      · simp [h1, h2]
      · cases hl : r.limit with
        | none => simp [h1, h2]
        | some l =>
          by_cases h3 : l ≤ 0
          · simp [h1, h2, h3]
          · simp [h1, h2, h3]
  rw [hv]
  constructor
  · rintro ⟨e, he, hve⟩
    refine ⟨e, he, fun t => ?_, fun t => ?_⟩
    · unfold buy; rw [hve]
    · unfold sell; rw [hve]
  · rintro ⟨e, he, hb, _⟩
    refine ⟨e, he, ?_⟩
    by_contra hne
    -- with valid input, buying zero shares succeeds in some state; use the given one
    have hok : verifyInput r.shares r.fill r.limit = .ok () := by
      cases hv' : verifyInput r.shares r.fill r.limit with
      | ok u => rfl
      | error e' =>
        have := hb s
        unfold buy at this
        rw [hv'] at this
        exact absurd (hv'.trans (congrArg Except.error (Except.error.inj this))) hne
    have := hb s
    unfold buy at this
    rw [hok] at this
    simp only at this
    split at this
    · cases this
    · split at this
      · cases this
      · split at this
        · rename_i e' ho
          cases this
          rcases openLong_error ho with rfl | rfl <;> simp at he
        · split at this <;> cases this

/-! ## C13 -/

theorem held_entries {pt : PosType} {s : Portfolio} (hw : WF [] s) (sym : Sym) :
    held (s.book pt) sym = ((entriesOf (s.book pt) sym).map Entry.shares).sum := by
  rw [held_eq (hw.nodup pt), entriesOf_eq (hw.nodup pt)]
  unfold sharesOf
  rcases Option.eq_none_or_eq_some (lookupPos (s.book pt) sym) with hn | ⟨p, hp⟩
  · rw [hn]; rfl
  · rw [hp]; exact (hw.pos pt p (lookupPos_some hp).1).shares

theorem sum_leftOpen {es : List Entry} : ∀ {n : ℚ}, (∀ e ∈ es, 0 < e.shares) → 0 ≤ n →
    ((leftOpen es n).map Entry.shares).sum =
      (es.map Entry.shares).sum - (fifo (es.map Entry.shares) n).sum := by
  induction es with
  | nil => intro n _ _; simp [leftOpen, exits, fifo]
  | cons e es ih =>
    intro n he hn
    have hx := he e (by simp)
    have hrec := ih (n := n - min e.shares n) (fun f hf => he f (by simp [hf]))
      (by have := min_le_right e.shares n; linarith)
    unfold leftOpen at hrec ⊢
    rw [exits_cons, List.filter_cons]
    simp only [List.map_cons, fifo, List.sum_cons]
    by_cases hlt : min e.shares n < e.shares
    · simp only [hlt, decide_true, if_true, List.map_cons, List.sum_cons]
      rw [hrec]; ring
    · simp only [hlt, decide_false, Bool.false_eq_true, if_false]
      have : min e.shares n = e.shares := le_antisymm (min_le_left _ _) (not_lt.1 hlt)
      rw [hrec, this]; ring

theorem placeOrder_fill {cfg : Config} {sd : Side} {s s' : Portfolio} {r : OrderReq} {o : Order}
    (hg : Good s) (h : placeOrder cfg sd s r = .ok (some o, s')) :
    o.shares = (held (s.book sd.closes) r.symbol - held (s'.book sd.closes) r.symbol) +
        (held (s'.book sd.opens) r.symbol - held (s.book sd.opens) r.symbol) ∧
      0 ≤ held (s.book sd.closes) r.symbol - held (s'.book sd.closes) r.symbol ∧
      0 ≤ held (s'.book sd.opens) r.symbol - held (s.book sd.opens) r.symbol ∧
      0 < o.shares ∧ o.shares ≤ r.shares := by
  have hg' := placeOrder_good hg h
  have hsh0 := (placeOrder_cases h).1
  obtain ⟨opened, nt, ne, _, _, hleft, hop0, hop1, hnew, hopen, hosh, _, _, _, _, _, hord⟩ :=
    placeOrder_fifo hg h
  have hpos : ∀ e ∈ entriesOf (s.book sd.closes) r.symbol, 0 < e.shares := by
    intro e he
    unfold entriesOf at he
    obtain ⟨p, hp, hep⟩ := List.mem_flatMap.1 he
    have hp' := (List.mem_filter.1 hp).1
    rcases ((hg.wf.pos _ p hp').entries e hep).shares with h | h
    · exact absurd h.1 (by simp)
    · exact h.2
  have hpos' : ∀ x ∈ (entriesOf (s.book sd.closes) r.symbol).map Entry.shares, 0 < x := by
    intro x hx
    obtain ⟨e, he, rfl⟩ := List.mem_map.1 hx
    exact hpos e he
  have h1 : held (s.book sd.closes) r.symbol - held (s'.book sd.closes) r.symbol =
      (fifo ((entriesOf (s.book sd.closes) r.symbol).map Entry.shares) r.shares).sum := by
    rw [held_entries hg.wf, held_entries hg'.wf, hleft, sum_leftOpen hpos hsh0]; ring
  have h2 : held (s'.book sd.opens) r.symbol - held (s.book sd.opens) r.symbol = opened := by
    rw [held_entries hg.wf, held_entries hg'.wf, hnew, List.map_append, List.sum_append]
    rcases hopen with ⟨h0, h1⟩ | ⟨_, e, h1, h3⟩
    · rw [h0, h1]; simp
    · rw [h1]; simp [h3.2.2.2.1]
  rw [h1, h2]
  have hc0 : 0 ≤ (fifo ((entriesOf (s.book sd.closes) r.symbol).map Entry.shares) r.shares).sum := by
    rw [sum_fifo hpos' hsh0]
    exact le_min (List.sum_nonneg (fun x hx => (hpos' x hx).le)) hsh0
  refine ⟨hosh, hc0, hop0, ?_, by rw [hosh]; linarith⟩
  generalize ho : some o = oo at h
  cases placeOrder_effect hg h with
  | nothing a b _ => cases ho
  | closed c a b hc hfi hlim hm => cases ho; exact hfi
  | opened c n sts sda ac hc hn hle hlim hclamp hcap hmode hstops =>
    cases ho
    have h3 : 0 ≤ c.filled := by
      have hff := closeShares_fifo (cfg := cfg) (pt := sd.closes) (date := r.date)
        (sym := r.symbol) (fill := r.fill) hg.wf hsh0
      simp only at hff
      rw [← hc] at hff
      have : c.filled = r.shares - c.rem := by rw [hc]; unfold closeShares; split <;> simp
      rw [this, hff.1]
      linarith
    show 0 < c.filled + n
    linarith

/-- C13: a recorded buy is the shares covered plus the shares bought to open,
is positive, and is at most what was asked for; likewise for a sell. -/
theorem fill_at_most_request {cfg : Config} {ops : List Op} {s s' : Portfolio} {r : OrderReq}
    {o : Order} (hfit : ∀ op ∈ ops, op.Fit) (h : run cfg ops = .ok s) :
    (buy cfg s r = .ok (some o, s') →
      o.shares = (held s.shorts r.symbol - held s'.shorts r.symbol) +
        (held s'.longs r.symbol - held s.longs r.symbol) ∧
      0 ≤ held s.shorts r.symbol - held s'.shorts r.symbol ∧
      0 ≤ held s'.longs r.symbol - held s.longs r.symbol ∧
      0 < o.shares ∧ o.shares ≤ r.shares) ∧
    (sell cfg s r = .ok (some o, s') →
      o.shares = (held s.longs r.symbol - held s'.longs r.symbol) +
        (held s'.shorts r.symbol - held s.shorts r.symbol) ∧
      0 ≤ held s.longs r.symbol - held s'.longs r.symbol ∧
      0 ≤ held s'.shorts r.symbol - held s.shorts r.symbol ∧
      0 < o.shares ∧ o.shares ≤ r.shares) :=
  ⟨fun hb => placeOrder_fill (sd := .buy) (run_good hfit h).1 hb,
    fun hb => placeOrder_fill (sd := .sell) (run_good hfit h).1 hb⟩

/-! ## C17 -/

theorem erasePos_filter {ps : List Position} (hn : (ps.map Position.symbol).Nodup) (sym : Sym) :
    erasePos ps sym = ps.filter (fun p => decide (p.symbol ≠ sym)) := by
  induction ps with
  | nil => rfl
  | cons p ps ih =>
    rw [List.map_cons, List.nodup_cons] at hn
    have hc : erasePos (p :: ps) sym = if p.symbol = sym then ps else p :: erasePos ps sym := rfl
    rw [hc]
    by_cases h : p.symbol = sym
    · rw [if_pos h, List.filter_cons]
      simp only [h, ne_eq, not_true, decide_false, Bool.false_eq_true, if_false]
      symm
      rw [List.filter_eq_self]
      intro q hq
      simp only [decide_eq_true_eq]
      intro he
      exact hn.1 (h ▸ he ▸ List.mem_map.2 ⟨q, hq, rfl⟩)
    · rw [if_neg h, List.filter_cons]
      simp [h, ih hn.2]

theorem fifoTrades_all {date : Date} {fill : ℚ} : ∀ {es : List Entry} {n : ℚ},
    (∀ e ∈ es, 0 < e.shares) → (es.map Entry.shares).sum ≤ n →
    fifoTrades date fill es n = es.map (fun e => tradeFor date fill none e e.shares) := by
  intro es
  induction es with
  | nil => intro n _ _; rfl
  | cons e es ih =>
    intro n he hn
    have hx := he e (by simp)
    have hsum : 0 ≤ (es.map Entry.shares).sum :=
      List.sum_nonneg (fun y hy => by
        obtain ⟨f, hf, rfl⟩ := List.mem_map.1 hy
        exact (he f (by simp [hf])).le)
    simp only [List.map_cons, List.sum_cons] at hn
    have hmin : min e.shares n = e.shares := min_eq_left (by linarith)
    have hrec := ih (n := n - e.shares) (fun f hf => he f (by simp [hf])) (by linarith)
    unfold fifoTrades at hrec ⊢
    rw [exits_cons, hmin, List.filter_cons]
    simp only [hx, decide_true, if_true, List.map_cons, hrec]

/-- Closing a whole position by an order of its size and no limit. -/
theorem placeOrder_flat {cfg : Config} {sd : Side} {s s' : Portfolio} {date : Date} {sym : Sym}
    {fill : ℚ} {mp : Option ℚ} {p : Position} {o : Option Order} (hg : Good s)
    (hp : lookupPos (s.book sd.closes) sym = some p)
    (h : placeOrder cfg sd s (OrderReq.mk date sym p.shares fill none [] none .market mp) =
      .ok (o, s')) :
    s'.book sd.closes = (s.book sd.closes).filter (fun q => decide (q.symbol ≠ sym)) ∧
      s'.book sd.opens = s.book sd.opens ∧
      ∃ new, s'.trades = s.trades ++ new ∧
        new.map TradeFacts.of = p.entries.map (fun e => tradeFor date fill none e e.shares) := by
  obtain ⟨hmem, hsym⟩ := lookupPos_some hp
  have hpw := hg.wf.pos _ p hmem
  have hsh : 0 < p.shares := hpw.shares_pos (hg.ne _ p hmem)
  have hpos : ∀ e ∈ p.entries, 0 < e.shares := fun e he => by
    rcases (hpw.entries e he).shares with h | h
    · exact absurd h.1 (by simp)
    · exact h.2
  have hcf := closeShares_facts (cfg := cfg) (pt := sd.closes) (date := date)
    (sym := sym) (fill := fill) hg.wf hg.ne hsh
  have hff := closeShares_fifo (cfg := cfg) (pt := sd.closes) (date := date)
    (sym := sym) (fill := fill) hg.wf hsh.le
  have hbk := exitLoop_book_update (cfg := cfg) (date := date) (fill := fill) hg.wf hsh hp (le_refl _)
  have hes : entriesOf (s.book sd.closes) sym = p.entries := by
    rw [entriesOf_eq (hg.wf.nodup _), hp]
  simp only [hes] at hff
  obtain ⟨hrem, hleft, new, htr, hnew⟩ := hff
  have hsum : (fifo (p.entries.map Entry.shares) p.shares).sum = p.shares := by
    rw [sum_fifo (fun x hx => by
      obtain ⟨e, he, rfl⟩ := List.mem_map.1 hx
      exact hpos e he) hsh.le, ← hpw.shares, min_self]
  rw [hsum, sub_self] at hrem
  rw [fifoTrades_all hpos (by rw [← hpw.shares])] at hnew
  have hno := Side.closes_ne_opens sd
  cases placeOrder_effect hg h with
  | nothing a b hm =>
    exfalso
    obtain ⟨_, _, _, hcase⟩ := placeOrder_cases h
    rcases hcase with ⟨_, _, hl | h0⟩ | ⟨_, _, n, s2, _, ⟨_, _, hz, _⟩ | ⟨_, hpair⟩⟩
    · cases sd <;> cases hl
    · simp only at h0; linarith
    · have := hcf.filled
      rw [hz, hrem] at this
      linarith
    · exact absurd (congrArg Prod.fst hpair) (by simp)
  | closed c a b hc hfi hlim hm =>
    subst hc
    refine ⟨?_, ?_, new, ?_, hnew⟩
    · rw [← erasePos_filter (hg.wf.nodup _), ← hbk]; cases sd <;> rfl
    · rw [← hcf.otherSide _ hno]; cases sd <;> rfl
    · rw [← htr]; rfl
  | opened c n sts sda ac hc hn hle hlim hclamp hcap hmode hstops =>
    subst hc
    simp only at hle
    rw [hrem] at hle
    exact absurd hn (not_lt.2 hle)

theorem filter_none {ps : List Position} {sym : Sym} (h : lookupPos ps sym = none) :
    ps.filter (fun p => decide (p.symbol ≠ sym)) = ps := by
  rw [List.filter_eq_self]
  intro q hq
  simpa using lookupPos_none.1 h q hq

/-- C17: `exit_position` leaves exactly the positions in other symbols, as they
were, and turns every entry of the symbol into one trade of all its shares, at
the given price moved by the slippage for the whole position. -/
theorem exit_position_flattens {cfg : Config} {ops : List Op} {s s' : Portfolio} {date : Date}
    {sym : Sym} {buyFill sellFill : ℚ} {slip : Option SlipFn} (hfit : ∀ op ∈ ops, op.Fit)
    (h : run cfg ops = .ok s) (hx : exitPosition cfg s date sym buyFill sellFill slip = .ok s') :
    s'.longs = s.longs.filter (fun p => decide (p.symbol ≠ sym)) ∧
    s'.shorts = s.shorts.filter (fun p => decide (p.symbol ≠ sym)) ∧
    ∃ new, s'.trades = s.trades ++ new ∧
      new.map TradeFacts.of =
        (entriesOf s.longs sym).map (fun e => tradeFor date
          (slipPrice slip .sell sym (held s.longs sym) sellFill) none e e.shares) ++
        (entriesOf s.shorts sym).map (fun e => tradeFor date
          (slipPrice slip .buy sym (held s.shorts sym) buyFill) none e e.shares) := by
  have hg := (run_good hfit h).1
  obtain ⟨s1, h1, h2⟩ := exitPosition_cases hx
  have hdisj := hg.wf.disj .long .short (by decide)
  have hnil : ∀ pt, lookupPos (s.book pt) sym = none → entriesOf (s.book pt) sym = [] := by
    intro pt hn
    rw [entriesOf_eq (hg.wf.nodup pt), hn]
  have hsome : ∀ pt p, lookupPos (s.book pt) sym = some p →
      entriesOf (s.book pt) sym = p.entries ∧ held (s.book pt) sym = p.shares := by
    intro pt p hp
    rw [entriesOf_eq (hg.wf.nodup pt), held_eq (hg.wf.nodup pt)]
    unfold sharesOf
    rw [hp]
    exact ⟨rfl, rfl⟩
  rcases h1 with ⟨hn, rfl⟩ | ⟨p, o, hp, hpl⟩
  · have he1 : entriesOf s1.longs sym = [] := hnil .long hn
    rcases h2 with ⟨hn2, rfl⟩ | ⟨p, o, hp, hpl⟩
    · have he2 : entriesOf s'.shorts sym = [] := hnil .short hn2
      refine ⟨(filter_none hn).symm, (filter_none hn2).symm, [], by simp, ?_⟩
      rw [he1, he2]; rfl
    · obtain ⟨hb1, hb2, new, htr, hnew⟩ := placeOrder_flat (sd := .buy) hg hp hpl
      have he2 : entriesOf s1.shorts sym = p.entries ∧ held s1.shorts sym = p.shares :=
        hsome .short p hp
      refine ⟨?_, hb1, new, htr, ?_⟩
      · rw [filter_none hn]; exact hb2
      · rw [he1, he2.1, he2.2]; exact hnew
  · obtain ⟨hb1, hb2, new, htr, hnew⟩ := placeOrder_flat (sd := .sell) hg hp hpl
    have he1 : entriesOf s.longs sym = p.entries ∧ held s.longs sym = p.shares :=
      hsome .long p hp
    have hnos : lookupPos s.shorts sym = none := by
      rw [lookupPos_none]
      intro q hq he
      obtain ⟨hm, hs⟩ := lookupPos_some hp
      exact hdisj p hm q hq (hs.trans he.symm)
    have he2 : entriesOf s.shorts sym = [] := hnil .short hnos
    have hb2' : s1.shorts = s.shorts := hb2
    rcases h2 with ⟨hn2, rfl⟩ | ⟨p2, o2, hp2, hpl2⟩
    · refine ⟨hb1, ?_, new, htr, ?_⟩
      · rw [filter_none hnos]; exact hb2
      · rw [he1.1, he1.2, he2, List.map_nil, List.append_nil]; exact hnew
    · rw [hb2', hnos] at hp2; cases hp2

/-! ### The hypotheses are met -/

/-- Selling 15 of 10 + 20 closes the first entry and 5 of the second. -/
example : (Demo.okD (none, Demo.s1) (sell Demo.cfg Demo.s1
      { date := 2, symbol := "AAA", shares := 15, fill := 105 })).2.trades.map TradeFacts.of =
    [⟨.long, "AAA", 1, 2, 100, 105, 10, 50, none⟩, ⟨.long, "AAA", 1, 2, 102, 105, 5, 15, none⟩] := by
  decide +kernel

/-- Buying 70 against a short of 50 covers 50 and opens 20. -/
example : ((Demo.okD (none, Demo.s2) (buy Demo.cfg Demo.s2
      { date := 3, symbol := "BBB", shares := 70, fill := 19 })).1.map Order.shares = some 70) ∧
    (entriesOf (Demo.okD (none, Demo.s2) (buy Demo.cfg Demo.s2
      { date := 3, symbol := "BBB", shares := 70, fill := 19 })).2.longs "BBB").map Entry.shares =
        [20] := by
  decide +kernel

/-- Selling 15 of the 30 long shares, covering a short of 50 with 70, a buy its
limit blocks, and leaving AAA. -/
example := sell_fifo Demo.fit1 Demo.run_s1 (Demo.filled_eq
  (x := sell Demo.cfg Demo.s1 { date := 2, symbol := "AAA", shares := 15, fill := 105 })
  (by decide +kernel))
example := buy_fifo Demo.fit2 Demo.run_s2 (Demo.filled_eq
  (x := buy Demo.cfg Demo.s2 { date := 3, symbol := "BBB", shares := 70, fill := 19 })
  (by decide +kernel))
example := (unfilled_changes_nothing Demo.fit2 Demo.run_s2).1 (Demo.unfilled_eq
  (x := buy Demo.cfg Demo.s2
    { date := 3, symbol := "BBB", shares := 70, fill := 19, limit := some 18 }) (by decide +kernel))
example := (fill_at_most_request Demo.fit2 Demo.run_s2).1 (Demo.filled_eq
  (x := buy Demo.cfg Demo.s2 { date := 3, symbol := "BBB", shares := 70, fill := 19 })
  (by decide +kernel))
example := exit_position_flattens Demo.fit2 Demo.run_s2 (Demo.ok_okD (d := Demo.s2)
  (x := exitPosition Demo.cfg Demo.s2 3 "AAA" 101 103 none) (by decide +kernel))

end PyBroker
