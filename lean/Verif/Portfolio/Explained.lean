import Verif.Portfolio.Check
import Verif.Props.Orders

/-!
# Every trade has an opening and a closing order

The invariant behind C116: each open entry has the order that opened it in the log, and each trade
has an opening and, later, a closing order.
-/

namespace PyBroker

namespace Spec

/-- The side of the orders that open a position of this type. -/
def openingSide : PosType → Side
  | .long => .buy
  | .short => .sell

/-- The side of the orders that close one. -/
def closingSide : PosType → Side
  | .long => .sell
  | .short => .buy

/-- The order opened what the trade closed. -/
structure OpensTrade (o : Order) (t : Trade) : Prop where
  side : o.side = openingSide t.type
  symbol : o.symbol = t.symbol
  date : o.date = t.entryDate
  price : o.fillPrice = t.entry
  shares : t.shares ≤ o.shares

/-- The order made the trade. -/
structure ClosesTrade (o : Order) (t : Trade) : Prop where
  side : o.side = closingSide t.type
  symbol : o.symbol = t.symbol
  date : o.date = t.exitDate
  price : o.fillPrice = t.exit
  shares : t.shares ≤ o.shares

/-- The log of orders has an order that opened what the trade closed and, after it, one that made
the trade. -/
def Explained (orders : List Order) (t : Trade) : Prop :=
  ∃ (i j : Nat) (a b : Order), i < j ∧ orders[i]? = some a ∧ orders[j]? = some b ∧
    OpensTrade a t ∧ ClosesTrade b t

end Spec

open PyBroker.Spec

/-- The log has the order that opened an entry. -/
def Origin (os : List Order) (pt : PosType) (sym : Sym) (e : Entry) : Prop :=
  ∃ o ∈ os, o.side = openingSide pt ∧ o.symbol = sym ∧ o.date = e.date ∧ o.fillPrice = e.price ∧
    e.shares ≤ o.shares

theorem Origin.mono {os os' : List Order} {pt : PosType} {sym : Sym} {e : Entry}
    (h : Origin os pt sym e) (hs : ∀ o ∈ os, o ∈ os') : Origin os' pt sym e := by
  obtain ⟨o, ho, h⟩ := h
  exact ⟨o, hs o ho, h⟩

theorem AllEntries.mono {R R' : PosType → Sym → Entry → Prop} {s : Portfolio} (h : AllEntries R s)
    (hr : ∀ pt sym e, R pt sym e → R' pt sym e) : AllEntries R' s :=
  fun pt p hp e he => hr _ _ _ (h pt p hp e he)

theorem Explained.append {os l : List Order} {t : Trade} (h : Spec.Explained os t) :
    Spec.Explained (os ++ l) t := by
  obtain ⟨i, j, a, b, hij, hi, hj, h⟩ := h
  refine ⟨i, j, a, b, hij, ?_, ?_, h⟩
  · rw [List.getElem?_append_left (List.getElem?_eq_some_iff.1 hi).1]; exact hi
  · rw [List.getElem?_append_left (List.getElem?_eq_some_iff.1 hj).1]; exact hj

/-- Changes other than openings. -/
def noOpen : Guard := ⟨fun _ => True, fun _ => False, True, True⟩

/-- Changes without fills. -/
def noFill : Guard := ⟨fun _ => False, fun _ => False, True, True⟩

theorem origin_rules (os : List Order) : PrimRules noOpen (Origin os) where
  take := by
    rintro pt sym e sh hsh ⟨o, ho, h1, h2, h3, h4, h5⟩
    exact ⟨o, ho, h1, h2, h3, h4, by simp only; linarith⟩
  new := by
    rintro s pt date sym n fill es _ _ _ ⟨_, hf, _⟩
    exact hf.elim
  incr := fun _ _ _ _ _ h => h
  stops := fun _ _ _ _ _ h => h

theorem origin_rules' (os : List Order) : EntryRules noOpen (Origin os) where
  toPrimRules := origin_rules os
  excursion := fun _ _ _ _ _ h => h

theorem noFill_logs {cfg : Config} {s t : Portfolio} (h : Prim cfg noFill s t) :
    t.orders = s.orders ∧ t.trades = s.trades := by
  cases h with
  | exit hw hp he hz h0 hle hQ => exact hQ.elim
  | drop hw hp he hz =>
    refine ⟨?_, ?_⟩
    · rw [(sameLog_store _ _ _).orders, (sameLog_removeStopData _ _).orders]
    · rw [(sameLog_store _ _ _).trades, (sameLog_removeStopData _ _).trades]
  | close hw hp hnil => rename_i pt p; cases pt <;> exact ⟨rfl, rfl⟩
  | opened hw h0 hf hno hclamp hnm hcap hmode hfit hS hadd => exact hS.elim
  | order h0 hlim hQ => exact hQ.elim
  | caches hm => exact ⟨rfl, rfl⟩
  | stopValue id v => exact ⟨rfl, rfl⟩
  | incr hasBar hB => exact ⟨rfl, rfl⟩
  | removeStop id hw =>
    exact ⟨(sameLog_removeStop s id).orders, (sameLog_removeStop s id).trades⟩
  | @clearStops _ pt p e hw hp he =>
    exact ⟨(sameLog_removeStopData s e.stops).orders, (sameLog_removeStopData s e.stops).trades⟩

theorem noFill_steps {cfg : Config} {s t : Portfolio} (h : Steps cfg noFill s t) :
    t.orders = s.orders ∧ t.trades = s.trades :=
  h.inv (P := fun x => x.orders = s.orders ∧ x.trades = s.trades)
    (fun _ _ hp hx => ⟨(noFill_logs hp).1.trans hx.1, (noFill_logs hp).2.trans hx.2⟩) ⟨rfl, rfl⟩

/-- The invariant: openings and closings are in the log of orders, and every order satisfies `P`. -/
structure Told (P : Sym → Date → Prop) (s : Portfolio) : Prop where
  entries : AllEntries (Origin s.orders) s
  trades : ∀ t ∈ s.trades, Spec.Explained s.orders t
  orders : ∀ o ∈ s.orders, P o.symbol o.date

theorem Told.same {P : Sym → Date → Prop} {s t : Portfolio} (h : Told P s)
    (ho : t.orders = s.orders) (ht : t.trades = s.trades) (he : AllEntries (Origin s.orders) t) :
    Told P t :=
  ⟨by rw [ho]; exact he, by rw [ho, ht]; exact h.trades, by rw [ho]; exact h.orders⟩

/-- A new order that closes some entries. -/
theorem Told.snoc {P : Sym → Date → Prop} {s t : Portfolio} {o : Order} {new : List Trade}
    (h : Told P s) (ho : t.orders = s.orders ++ [o]) (ht : t.trades = s.trades ++ new)
    (hP : P o.symbol o.date)
    (hn : ∀ x ∈ new, ∃ pt sym e, Origin s.orders pt sym e ∧ x.type = pt ∧ x.symbol = sym ∧
      x.entryDate = e.date ∧ x.entry = e.price ∧ x.shares ≤ e.shares ∧ ClosesTrade o x)
    (he : AllEntries (Origin (s.orders ++ [o])) t) : Told P t := by
  refine ⟨by rw [ho]; exact he, ?_, ?_⟩
  · intro x hx
    rw [ht, List.mem_append] at hx
    rw [ho]
    rcases hx with hx | hx
    · exact Explained.append (h.trades x hx)
    · obtain ⟨pt, sym, e, ⟨a, ha, h1, h2, h3, h4, h5⟩, e1, e2, e3, e4, e5, hc⟩ := hn x hx
      obtain ⟨i, hi⟩ := List.mem_iff_getElem?.1 ha
      have hlt := (List.getElem?_eq_some_iff.1 hi).1
      refine ⟨i, s.orders.length, a, o, hlt, ?_, by simp, ?_, hc⟩
      · rw [List.getElem?_append_left hlt]; exact hi
      · exact ⟨by rw [h1, e1], by rw [h2, e2], by rw [h3, e3], by rw [h4, e4], by linarith⟩
  · intro x hx
    rw [ho, List.mem_append, List.mem_singleton] at hx
    rcases hx with hx | rfl
    · exact h.orders x hx
    · exact hP

theorem mem_fifo {xs : List ℚ} : ∀ {n : ℚ}, (∀ x ∈ xs, 0 < x) → 0 ≤ n →
    ∀ y ∈ fifo xs n, 0 ≤ y := by
  induction xs with
  | nil => intro n _ _ y hy; simp [fifo] at hy
  | cons x xs ih =>
    intro n hx hn y hy
    unfold fifo at hy
    rcases List.mem_cons.1 hy with rfl | hy
    · exact le_min (hx x (by simp)).le hn
    · exact ih (fun z hz => hx z (by simp [hz])) (by linarith [min_le_right x n]) y hy

theorem exits_le : ∀ {es : List Entry} {n : ℚ} {x : Entry × ℚ}, x ∈ exits es n →
    x.1 ∈ es ∧ x.2 ≤ x.1.shares ∧ x.2 ∈ fifo (es.map Entry.shares) n := by
  intro es
  induction es with
  | nil => intro n x hx; simp [exits, fifo] at hx
  | cons e es ih =>
    intro n x hx
    have : exits (e :: es) n = (e, min e.shares n) :: exits es (n - min e.shares n) := rfl
    rw [this, List.mem_cons] at hx
    have hf : fifo ((e :: es).map Entry.shares) n =
        min e.shares n :: fifo (es.map Entry.shares) (n - min e.shares n) := rfl
    rw [hf]
    rcases hx with rfl | hx
    · exact ⟨by simp, min_le_left _ _, by simp⟩
    · obtain ⟨h1, h2, h3⟩ := ih hx
      exact ⟨by simp [h1], h2, by simp [h3]⟩

theorem closingSide_closes (sd : Side) : closingSide sd.closes = sd := by cases sd <;> rfl
theorem openingSide_opens (sd : Side) : openingSide sd.opens = sd := by cases sd <;> rfl

/-- The trades of closing shares. -/
theorem closeShares_told {cfg : Config} {sd : Side} {s : Portfolio} {date : Date} {sym : Sym}
    {shares fill : ℚ} (hg : Good s) (h0 : 0 < shares) (he : AllEntries (Origin s.orders) s)
    {c : OrderResult} (hc : c = closeShares cfg sd.closes s date sym shares fill) :
    AllEntries (Origin s.orders) c.pf ∧ c.pf.orders = s.orders ∧
    ∃ new, c.pf.trades = s.trades ++ new ∧
      ∀ (o : Order), o.side = sd → o.symbol = sym → o.date = date → o.fillPrice = fill →
        c.filled ≤ o.shares →
        ∀ x ∈ new, ∃ pt sym e, Origin s.orders pt sym e ∧ x.type = pt ∧ x.symbol = sym ∧
          x.entryDate = e.date ∧ x.entry = e.price ∧ x.shares ≤ e.shares ∧ ClosesTrade o x := by
  have hst : Steps cfg noOpen s c.pf := by rw [hc]; exact closeShares_steps trivial hg.wf
  have hord : c.pf.orders = s.orders := by rw [hc]; exact closeShares_orders ..
  have cf := closeShares_facts (cfg := cfg) (pt := sd.closes) (date := date) (sym := sym)
    (fill := fill) hg.wf hg.ne h0
  obtain ⟨hrem, _, new, hnew, hfacts⟩ := closeShares_fifo (cfg := cfg) (pt := sd.closes)
    (date := date) (sym := sym) (fill := fill) hg.wf h0.le
  rw [← hc] at cf hrem hnew
  refine ⟨hst.inv (fun _ _ hp h => AllEntries.prim (origin_rules s.orders) hp h) he, hord, new,
    hnew, ?_⟩
  intro o o1 o2 o3 o4 o5 x hx
  have hmem : TradeFacts.of x ∈ fifoTrades date fill (entriesOf (s.book sd.closes) sym) shares := by
    rw [← hfacts]; exact List.mem_map_of_mem hx
  unfold fifoTrades at hmem
  obtain ⟨⟨e, n⟩, hen, hxe⟩ := List.mem_map.1 hmem
  obtain ⟨hen, _⟩ := List.mem_filter.1 hen
  obtain ⟨hem, hle, hfn⟩ := exits_le hen
  unfold entriesOf at hem
  obtain ⟨p, hp, hep⟩ := List.mem_flatMap.1 hem
  obtain ⟨hp, hps⟩ := List.mem_filter.1 hp
  simp only [decide_eq_true_eq] at hps
  have hok := (hg.wf.pos _ p hp).entries e hep
  simp only [TradeFacts.of, tradeFor, TradeFacts.mk.injEq] at hxe
  obtain ⟨x1, x2, x3, x4, x5, x6, x7, _, _⟩ := hxe
  have hpos : ∀ y ∈ (entriesOf (s.book sd.closes) sym).map Entry.shares, (0 : ℚ) < y := by
    intro y hy
    obtain ⟨e', he', rfl⟩ := List.mem_map.1 hy
    unfold entriesOf at he'
    obtain ⟨q, hq, heq⟩ := List.mem_flatMap.1 he'
    obtain ⟨hq, _⟩ := List.mem_filter.1 hq
    rcases ((hg.wf.pos _ q hq).entries e' heq).shares with h | h
    · exact absurd h.1 (by simp)
    · exact h.2
  have hns : n ≤ (fifo ((entriesOf (s.book sd.closes) sym).map Entry.shares) shares).sum :=
    List.single_le_sum (mem_fifo hpos h0.le) _ hfn
  have hfill : n ≤ c.filled := by rw [cf.filled, hrem]; linarith
  have htype : e.type = sd.closes := hok.type
  have hsym : e.symbol = p.symbol := hok.symbol
  refine ⟨sd.closes, p.symbol, e, he _ p hp e hep, ?_, ?_, x3.symm, x5.symm, ?_, ?_, ?_, ?_, ?_, ?_⟩
  · rw [← x1]; exact htype
  · rw [← x2]; exact hsym
  · rw [← x7]; exact hle
  · rw [o1, ← x1, htype, closingSide_closes]
  · rw [o2, ← x2, hsym, hps]
  · rw [o3, ← x4]
  · rw [o4, ← x6]
  · rw [← x7]; linarith

theorem placeOrder_told {cfg : Config} {P : Sym → Date → Prop} {sd : Side} {s s' : Portfolio}
    {r : OrderReq} {o : Option Order} (hg : Good s) (ht : Told P s) (hP : P r.symbol r.date)
    (h : placeOrder cfg sd s r = .ok (o, s')) : Told P s' := by
  obtain ⟨hsh, hfl, _, _⟩ := placeOrder_cases h
  cases placeOrder_effect hg h with
  | nothing a b hm =>
    exact ht.same rfl rfl (ht.entries.frame (fun pt => by cases pt <;> rfl))
  | closed c a b hc hf hlim hm =>
    have h0 : 0 < r.shares := by
      rcases lt_or_eq_of_le hsh with h0 | h0
      · exact h0
      · exfalso
        have : c.filled = 0 := by
          rw [hc, ← h0]
          unfold closeShares
          split
          · rfl
          · rename_i p hp
            cases p.entries <;> simp [exitLoop]
        linarith
    obtain ⟨h1, h2, new, h3, h4⟩ := closeShares_told hg h0 ht.entries hc
    refine ht.snoc (o := (({ c.pf with cachedLongMv := a, cachedShortMv := b } :
      Portfolio).addOrder cfg r.date r.symbol sd r.created r.orderType (intentOf sd 0) c.filled
        r.limit r.marketPrice r.fill).1) (new := new) ?_ h3 hP ?_ ?_
    · show c.pf.orders ++ [_] = _
      rw [h2]
      rfl
    · exact h4 _ rfl rfl rfl rfl le_rfl
    · exact (h1.mono (fun pt sym e h => h.mono (fun o ho => by simp [ho]))).frame
        (fun pt => by cases pt <;> rfl)
  | opened c n es sda ac hc hn hle hlim hcl hcap hmode hadd =>
    have h0 : 0 < r.shares := by
      rcases lt_or_eq_of_le hsh with h0 | h0
      · exact h0
      · exfalso
        have : c.rem = 0 := by
          rw [hc, ← h0]
          unfold closeShares
          split
          · rfl
          · rename_i p hp
            cases p.entries <;> simp [exitLoop]
        linarith
    have cf := closeShares_facts (cfg := cfg) (pt := sd.closes) (date := r.date)
      (sym := r.symbol) (fill := r.fill) hg.wf hg.ne h0
    rw [← hc] at cf
    obtain ⟨h1, h2, new, h3, h4⟩ := closeShares_told hg h0 ht.entries hc
    have hfn := cf.filled_nonneg
    set ord := ((openedPf cfg c.pf sd.opens r.date r.symbol n r.fill es sda ac).addOrder cfg r.date
          r.symbol sd r.created r.orderType (intentOf sd n) (c.filled + n) r.limit r.marketPrice
          r.fill).1 with hord
    refine ht.snoc (o := ord) (new := new) ?_ h3 hP ?_ ?_
    · show c.pf.orders ++ [_] = _
      rw [h2]
      rfl
    · exact h4 _ rfl rfl rfl rfl (by show c.filled ≤ c.filled + n; linarith)
    · have hnew : Origin (s.orders ++ [ord]) sd.opens r.symbol
          (newEntry c.pf sd.opens r.date r.symbol n r.fill es) := by
        refine ⟨ord, by simp, ?_, rfl, rfl, rfl, ?_⟩
        · rw [openingSide_opens]; rfl
        · show n ≤ c.filled + n
          linarith
      have h1' : AllEntries (Origin (s.orders ++ [ord])) c.pf :=
        h1.mono (fun pt sym e h => h.mono (fun o ho => by simp [ho]))
      have key : AllEntries (Origin (s.orders ++ [ord]))
          (openedPf cfg c.pf sd.opens r.date r.symbol n r.fill es sda ac) := by
        intro pt' q hq
        by_cases hpt : sd.opens = pt'
        · subst hpt
          rw [openedPf_book] at hq
          unfold openedBook at hq
          split at hq
          · rcases List.mem_append.1 hq with hq | hq
            · exact h1' _ q hq
            · rw [List.mem_singleton] at hq
              subst hq
              intro e he
              simp only [openedPos, List.mem_singleton] at he ⊢
              rw [he]; exact hnew
          · rename_i p hp
            obtain ⟨hpm, hps⟩ := lookupPos_some hp
            rcases mem_replacePos (cf.wf.nodup _) hq with rfl | ⟨hq, _⟩
            · intro e he
              simp only [openedPos, List.mem_append, List.mem_singleton] at he ⊢
              rcases he with he | rfl
              · exact h1' _ p hpm e he
              · rw [hps]; exact hnew
            · exact h1' _ q hq
        · rw [openedPf_book_ne _ _ _ _ _ _ _ _ _ _ hpt] at hq
          exact h1' _ q hq
      exact key.frame (fun pt => by cases pt <;> rfl)

theorem checkOne_told {cfg : Config} {P : Sym → Date → Prop} {env : StopEnv} {date : Date}
    {acc acc' : Portfolio × List StopCheck} {c : StopCheck} (h : CheckInv acc)
    (ht : Told P acc.1) (hP : P c.symbol date)
    (hc : c.stop.posType = c.posType) (hs : checkOne cfg env date acc c = .ok acc') :
    Told P acc'.1 := by
  have hst : Steps cfg noOpen acc.1 acc'.1 := h.steps (by intro; simp [noOpen]) trivial hc hs
  have hall : AllEntries (Origin acc.1.orders) acc'.1 :=
    hst.inv (fun _ _ hp h => AllEntries.prim (origin_rules acc.1.orders) hp h) ht.entries
  rcases checkOne_cases hs with ⟨_, sd, h1⟩ | ⟨_, hni, p, e, market, sd, hp, he, _, _, h1⟩
  · rw [h1] at hall ⊢
    exact ht.same rfl rfl hall
  · obtain ⟨hpm, hps⟩ := lookupPos_some hp
    obtain ⟨hem, heid⟩ := findEntry_some he
    have hok := (h.wf.pos _ p hpm).entries e hem
    have hpt : p.type = c.posType := (h.wf.pos _ p hpm).type
    have ho : ∃ o : Order, acc'.1.orders = acc.1.orders ++ [o] ∧ o.symbol = p.symbol ∧
        o.side = c.stop.exitSide ∧ o.shares = e.shares ∧ o.date = date ∧
        o.fillPrice = slipStopFill env c.stop e.shares market := by
      rw [h1]
      unfold stopExited
      cases p.type <;> exact ⟨_, rfl, rfl, rfl, rfl, rfl, rfl⟩
    have htr : acc'.1.trades = acc.1.trades ++ [exitTrade { acc.1 with stopData := sd }
        c.stop.posType e e.shares (slipStopFill env c.stop e.shares market) date
        (some c.stop.stopType)] := by
      rw [h1]
      unfold stopExited
      cases p.type <;> rfl
    obtain ⟨o, ho, o1, o2, o3, o4, o5⟩ := ho
    refine ht.snoc ho htr (by rw [o1, o4, hps]; exact hP) ?_
      (hall.mono (fun pt sym e h => h.mono (fun o ho => by simp [ho])))
    intro x hx
    rw [List.mem_singleton] at hx
    subst hx
    have htype : e.type = c.posType := hok.type
    have hsym : e.symbol = p.symbol := hok.symbol
    refine ⟨c.posType, p.symbol, e, ht.entries _ p hpm e hem, htype, hsym, rfl, rfl, le_rfl,
      ?_, ?_, ?_, ?_, ?_⟩
    · rw [o2]
      show _ = closingSide e.type
      rw [htype]
      unfold Stop.exitSide
      rw [hc]
      cases c.posType <;> rfl
    · rw [o1]; exact hsym.symm
    · exact o4
    · exact o5
    · rw [o3]; exact le_rfl

theorem priceChecks_sym {env : StopEnv} {s : Portfolio} {c : StopCheck}
    (hc : c ∈ priceChecks env s) : env.canPrice c.symbol = true := by
  unfold priceChecks at hc
  simp only [List.mem_flatMap] at hc
  obtain ⟨⟨sym, ids⟩, _, hc⟩ := hc
  simp only at hc
  split at hc
  · rename_i hcan
    simp only [List.mem_filterMap, Option.map_eq_some_iff] at hc
    obtain ⟨id, _, d, _, rfl⟩ := hc
    exact hcan
  · simp at hc

theorem barChecks_sym {env : StopEnv} {s : Portfolio} {c : StopCheck}
    (hc : c ∈ barChecks env s) : env.canPrice c.symbol = true := by
  unfold barChecks at hc
  simp only [List.mem_flatMap] at hc
  obtain ⟨p, hp, hc⟩ := hc
  split at hc
  · rename_i hcan
    simp only [List.mem_flatMap, List.mem_map, List.mem_filter] at hc
    obtain ⟨e, he, st, _, rfl⟩ := hc
    exact hcan
  · simp at hc

theorem checkStops_told {cfg : Config} {P : Sym → Date → Prop} {env : StopEnv} {date : Date}
    {s s' : Portfolio} (hg : Good s) (hf : StopsFit s) (ht : Told P s)
    (hP : ∀ sym, env.canPrice sym = true → P sym date)
    (h : checkStops cfg s date env = .ok s') : Told P s' := by
  have hall : ∀ os, AllEntries (Origin os) s → AllEntries (Origin os) s' := fun os =>
    (checkStops_steps (Q := noOpen) (by intro; simp [noOpen]) trivial hg hf h).inv
      (fun _ _ hp h => AllEntries.prim (origin_rules os) hp h)
  obtain ⟨acc, acc2, h1, h2, rfl⟩ := checkStops_cases h
  have hi0 : CheckInv (s, []) := ⟨hg.wf, hg.ne, by simp, by simp⟩
  have k1 : (CheckInv acc ∧ SubIds acc.1 s) ∧ Told P acc.1 := by
    refine foldE_inv_mem (f := checkOne cfg env date)
      (fun a => (CheckInv a ∧ SubIds a.1 s) ∧ Told P a.1) (priceChecks env s) ?_ (s, []) acc
      ⟨⟨hi0, SubIds.refl s⟩, ht⟩ h1
    rintro a c a' hc ⟨⟨ha, hsub⟩, hst⟩ hs
    obtain ⟨h3, h4⟩ := ha.step (priceChecks_fit env s c hc) hs
    exact ⟨⟨h3, h4.trans hsub⟩, checkOne_told ha hst (hP _ (priceChecks_sym hc))
      (priceChecks_fit env s c hc) hs⟩
  have k2 : (CheckInv acc2 ∧ SubIds acc2.1 s) ∧ Told P acc2.1 := by
    refine foldE_inv_mem (f := checkOne cfg env date)
      (fun a => (CheckInv a ∧ SubIds a.1 s) ∧ Told P a.1) (barChecks env acc.1) ?_ acc acc2
      k1 h2
    rintro a c a' hc ⟨⟨ha, hsub⟩, hst⟩ hs
    have hfit := barChecks_fit k1.1.1.wf (k1.1.2.fit hf) c hc
    obtain ⟨h3, h4⟩ := ha.step hfit hs
    exact ⟨⟨h3, h4.trans hsub⟩, checkOne_told ha hst (hP _ (barChecks_sym hc)) hfit hs⟩
  refine k2.2.same (finishAll_logs _ _).2 (finishAll_logs _ _).1 ?_
  exact (finishAll_steps (cfg := cfg) (Q := noOpen) acc2.2 acc2.1 k2.1.1.wf k2.1.1.ne
    k2.1.1.loc).inv (fun _ _ hp h => AllEntries.prim (origin_rules _) hp h) k2.2.entries

/-- The orders a call can make are for symbols and dates in `P`; an exit makes orders only for a
symbol that has one already. -/
def Op.On (P : Sym → Date → Prop) : Op → Prop
  | .buy r => P r.symbol r.date
  | .sell r => P r.symbol r.date
  | .exitPosition d sym _ _ _ => (∃ d', P sym d') → P sym d
  | .checkStops d env => ∀ sym, env.canPrice sym = true → P sym d
  | _ => True

theorem step_told {cfg : Config} {P : Sym → Date → Prop} {s s' : Portfolio} {op : Op}
    (hg : Good s) (hf : StopsFit s) (hP : op.On P) (ht : Told P s)
    (h : step cfg s op = .ok s') : Told P s' := by
  have quiet : Steps cfg noFill s s' → Steps cfg noOpen s s' → Told P s' := fun h1 h2 =>
    ht.same (noFill_steps h1).1 (noFill_steps h1).2
      (h2.inv (fun _ _ hp h => AllEntries.prim (origin_rules _) hp h) ht.entries)
  cases op with
  | buy r =>
    simp only [step] at h
    rcases hb : buy cfg s r with e | ⟨o, t⟩
    · rw [hb] at h; cases h
    · rw [hb] at h; cases h
      exact placeOrder_told (sd := .buy) hg ht hP hb
  | sell r =>
    simp only [step] at h
    rcases hb : sell cfg s r with e | ⟨o, t⟩
    · rw [hb] at h; cases h
    · rw [hb] at h; cases h
      exact placeOrder_told (sd := .sell) hg ht hP hb
  | exitPosition d sym b q slip =>
    obtain ⟨s1, h1, h2⟩ := exitPosition_cases h
    have held : ∀ {t : Portfolio} {pt : PosType} {p : Position}, Told P t → Good t →
        lookupPos (t.book pt) sym = some p → P sym d := by
      intro t pt p ht hg hp
      obtain ⟨hpm, hps⟩ := lookupPos_some hp
      obtain ⟨e, he⟩ := List.exists_mem_of_ne_nil _ (hg.ne pt p hpm)
      obtain ⟨o, ho, _, h2, _⟩ := ht.entries pt p hpm e he
      refine hP ⟨o.date, ?_⟩
      have := ht.orders o ho
      rw [h2, hps] at this
      exact this
    have k1 : Told P s1 ∧ Good s1 := by
      rcases h1 with ⟨_, rfl⟩ | ⟨p, o, hp, hs⟩
      · exact ⟨ht, hg⟩
      · refine ⟨placeOrder_told hg ht ?_ hs, placeOrder_good hg hs⟩
        exact held (pt := .long) ht hg hp
    rcases h2 with ⟨_, rfl⟩ | ⟨p, o, hp, hs⟩
    · exact k1.1
    · refine placeOrder_told k1.2 k1.1 ?_ hs
      exact held (pt := .short) k1.1 k1.2 hp
  | captureBar d quote =>
    cases h
    have hl := sameLog_capture cfg s d quote
    obtain ⟨a, b, hi⟩ := applyInterest_frame cfg s
    exact ht.same (by rw [hl.orders, hi]) (by rw [hl.trades, hi])
      (AllEntries.captureBar (origin_rules' s.orders) d quote hg.wf.typed ht.entries)
  | incrBars hb =>
    cases h
    exact quiet (Steps.one (Prim.incr hb trivial)) (Steps.one (Prim.incr hb trivial))
  | checkStops d env => exact checkStops_told hg hf ht hP h
  | removeStop id =>
    cases h
    exact quiet (Steps.one (Prim.removeStop id hg.wf)) (Steps.one (Prim.removeStop id hg.wf))
  | removeStopsSym sym t =>
    cases h
    exact quiet (removeStopsSym_steps hg sym t) (removeStopsSym_steps hg sym t)
  | removeStopsEntry id t =>
    cases h
    exact quiet (removeStopsEntry_steps hg id t) (removeStopsEntry_steps hg id t)

theorem Told.init (P : Sym → Date → Prop) (cfg : Config) : Told P (Portfolio.init cfg) :=
  ⟨by intro pt p hp; cases pt <;> simp [Portfolio.init, Portfolio.book] at hp,
    by intro t ht; simp [Portfolio.init] at ht, by intro t ht; simp [Portfolio.init] at ht⟩

theorem run_told {cfg : Config} {P : Sym → Date → Prop} {s : Portfolio} {ops : List Op}
    (hfit : ∀ op ∈ ops, op.Fit) (hP : ∀ op ∈ ops, op.On P) (h : run cfg ops = .ok s) :
    Told P s := by
  have := foldE_inv_mem (f := step cfg) (fun t => (Good t ∧ StopsFit t) ∧ Told P t) ops ?_
    (Portfolio.init cfg) s ⟨⟨Good.init cfg, StopsFit.init cfg⟩, Told.init P cfg⟩ h
  · exact this.2
  · rintro b a b' ha ⟨⟨h1, h2⟩, h3⟩ hs
    exact ⟨step_good h1 h2 (hfit a ha) hs, step_told h1 h2 (hP a ha) h3 hs⟩

end PyBroker
