import Mathlib.Logic.Relation
import Verif.Portfolio.StopsHist

/-!
# Helper lemmas: every portfolio call is a chain of elementary changes

`Prim` lists the elementary changes; `Steps` is its reflexive transitive
closure.  An invariant of every elementary change is an invariant of every
call.
-/

namespace PyBroker

/-- Restrictions on the prices of exits and orders and on the stops of new
entries; whether stop levels may move (and stops may exit entries other than the
oldest) and whether bars may be counted. -/
structure Guard where
  price : ℚ → Prop
  stops : List Stop → Prop
  level : Prop
  bar : Prop

/-- No restriction. -/
def Guard.any : Guard := ⟨fun _ => True, fun _ => True, True, True⟩

/-- Elementary changes of a portfolio other than capturing a bar, as far as `Q`
allows them. -/
inductive Prim (cfg : Config) (Q : Guard) : Portfolio → Portfolio → Prop
  | exit {Z : List Nat} {s : Portfolio} {pt : PosType} {p : Position} {e : Entry} {sh fill : ℚ}
      {date : Date} {st : Option StopType} (hw : WF Z s)
      (hp : lookupPos (s.book pt) p.symbol = some p) (he : findEntry p.entries e.id = some e)
      (hz : e.id ∉ Z) (h0 : 0 < sh) (hle : sh ≤ e.shares) (hQ : Q.price fill)
      (hF : (∃ es, p.entries = e :: es) ∨ Q.level) :
      Prim cfg Q s ((exitPf cfg s pt e sh fill date st).store pt (p.takeShares e sh))
  | drop {Z : List Nat} {s : Portfolio} {pt : PosType} {p : Position} {e : Entry} (hw : WF Z s)
      (hp : lookupPos (s.book pt) p.symbol = some p) (he : findEntry p.entries e.id = some e)
      (hz : e.shares = 0) :
      Prim cfg Q s ((s.removeStopData e.stops).store pt
        { p with entries := eraseEntry p.entries e.id })
  | close {Z : List Nat} {s : Portfolio} {pt : PosType} {p : Position} (hw : WF Z s)
      (hp : lookupPos (s.book pt) p.symbol = some p) (hnil : p.entries = []) :
      Prim cfg Q s { s.setBook pt (erasePos (s.book pt) p.symbol) with
        symbols := s.symbols.erase p.symbol }
  | opened {s : Portfolio} {sd : Side} {date : Date} {sym : Sym} {n m fill : ℚ}
      {stops es : List Stop} {sda : List StopData} {ac : List (Sym × List Nat)} (hw : WF [] s)
      (h0 : 0 < n) (hf : 0 < fill)
      (hno : lookupPos (s.book sd.closes) sym = none)
      (hclamp : n ≤ (s.clampShares cfg sym fill m sd).1) (hnm : n ≤ m)
      (hcap : capReached (cfg.cap sd.opens) (s.book sd.opens) sym = false)
      (hmode : cfg.allows sd.opens)
      (hfit : ∀ st ∈ stops, st.posType = sd.opens ∧ st.symbol = sym)
      (hS : Q.stops stops)
      (hadd : addStops
        { s with
          cash := s.cash - n * fill / levOf cfg, cachedLongMv := none,
          cachedShortMv := none, entryId := s.entryId + 1 }
        (s.entryId + 1) fill stops =
        .ok (es, { s with
          cash := s.cash - n * fill / levOf cfg, cachedLongMv := none,
          cachedShortMv := none, entryId := s.entryId + 1, stopData := sda,
          active := ac })) :
      Prim cfg Q s (openedPf cfg s sd.opens date sym n fill es sda ac)
  | order {s : Portfolio} {date : Date} {sym : Sym} {sd : Side} {created : Option Date}
      {ot : OrderType} {intent : Intent} {sh : ℚ} {limit mp : Option ℚ} {fill : ℚ}
      (h0 : 0 < sh) (hlim : limitBlocks sd limit fill = false) (hQ : Q.price fill) :
      Prim cfg Q s (s.addOrder cfg date sym sd created ot intent sh limit mp fill).2
  | caches {s : Portfolio} {a b : Option ℚ} (hm : Memo s a b) :
      Prim cfg Q s { s with cachedLongMv := a, cachedShortMv := b }
  | stopValue {s : Portfolio} (id : Nat) (v : Option ℚ) (hL : Q.level) :
      Prim cfg Q s { s with stopData := setStopValue s.stopData id v }
  | incr {s : Portfolio} (hasBar : Sym → Bool) (hB : Q.bar) : Prim cfg Q s (incrBars s hasBar)
  | removeStop {s : Portfolio} (id : Nat) (hw : WF [] s) :
      Prim cfg Q s (PyBroker.removeStop s id).2
  | clearStops {s : Portfolio} {pt : PosType} {p : Position} {e : Entry} (hw : WF [] s)
      (hp : p ∈ s.book pt) (he : e ∈ p.entries) :
      Prim cfg Q s (removeEntryStops s e none)

/-- Chains of elementary changes. -/
def Steps (cfg : Config) (Q : Guard) : Portfolio → Portfolio → Prop :=
  Relation.ReflTransGen (Prim cfg Q)

theorem Steps.refl {cfg : Config} {Q : Guard} (s : Portfolio) : Steps cfg Q s s :=
  Relation.ReflTransGen.refl

theorem Steps.trans {cfg : Config} {Q : Guard} {s t u : Portfolio} (h : Steps cfg Q s t)
    (h' : Steps cfg Q t u) : Steps cfg Q s u := Relation.ReflTransGen.trans h h'

theorem Steps.snoc {cfg : Config} {Q : Guard} {s t u : Portfolio} (h : Steps cfg Q s t)
    (h' : Prim cfg Q t u) : Steps cfg Q s u := Relation.ReflTransGen.tail h h'

theorem Steps.one {cfg : Config} {Q : Guard} {s t : Portfolio} (h : Prim cfg Q s t) :
    Steps cfg Q s t := Relation.ReflTransGen.single h

theorem Steps.inv {cfg : Config} {Q : Guard} {P : Portfolio → Prop}
    (hp : ∀ s t, Prim cfg Q s t → P s → P t) {s t : Portfolio} (h : Steps cfg Q s t)
    (hs : P s) : P t := by
  induction h with
  | refl => exact hs
  | tail _ h2 ih => exact hp _ _ h2 ih

/-! ## The exit loop -/

theorem exitPf_store (cfg : Config) (s : Portfolio) (pt pt' : PosType) (p : Position) (e : Entry)
    (sh fill : ℚ) (date : Date) (st : Option StopType) :
    exitPf cfg (s.store pt p) pt' e sh fill date st =
      (exitPf cfg s pt' e sh fill date st).store pt p := by
  cases pt <;> rfl

theorem store_store (s : Portfolio) (pt : PosType) (p q : Position) (h : p.symbol = q.symbol) :
    (s.store pt p).store pt q = s.store pt q := by
  unfold Portfolio.store
  simp [replacePos_replacePos _ _ _ h]

theorem removeStopData_store (l : List Stop) (s : Portfolio) (pt : PosType) (p : Position) :
    (s.store pt p).removeStopData l = (s.removeStopData l).store pt p := by
  induction l generalizing s with
  | nil => rfl
  | cons st l ih =>
    have hsd : (s.store pt p).stopData = s.stopData := by cases pt <;> rfl
    unfold Portfolio.removeStopData
    rw [hsd]
    split
    · exact ih s
    · rw [← ih]
      cases pt <;> rfl

theorem eraseEntry_head (e : Entry) (es : List Entry) : eraseEntry (e :: es) e.id = es := by
  simp [eraseEntry]

theorem WF.exitPrim {Z : List Nat} {cfg : Config} {s : Portfolio} {pt : PosType} {p : Position}
    {e : Entry} {sh fill : ℚ} {date : Date} {st : Option StopType} (h : WF Z s)
    (hp : lookupPos (s.book pt) p.symbol = some p) (he : findEntry p.entries e.id = some e)
    (h0 : 0 < sh) (hle : sh ≤ e.shares) :
    WF (if sh = e.shares then e.id :: Z else Z)
      ((exitPf cfg s pt e sh fill date st).store pt (p.takeShares e sh)) := by
  obtain ⟨hpm, hps⟩ := lookupPos_some hp
  have hpw := h.pos pt p hpm
  obtain ⟨hem, _⟩ := findEntry_some he
  have h1 := hpw.take he h0 hle
  have hmap : (p.takeShares e sh).entries.map Entry.id = p.entries.map Entry.id := by
    rw [takeShares_entries, map_id_modEntry _ _ (by intro e; rfl)]
  have hidmem : ∀ x ∈ (p.takeShares e sh).entries, ∃ e0 ∈ p.entries, e0.id = x.id := by
    intro x hx
    have : x.id ∈ p.entries.map Entry.id := hmap ▸ List.mem_map_of_mem hx
    simpa using this
  refine h.replace (pt := pt) (p := p) (q := p.takeShares e sh)
    (by rw [takeShares_symbol]; exact hp) h1 ?_ ?_ ?_ ?_ ?_ ?_ ?_ ?_ ?_
  · intro pt' r hr hne
    refine (h.pos pt' r hr).congrZ ?_
    intro x hx
    split
    · rw [List.mem_cons]
      constructor
      · exact Or.inr
      · rintro (h2 | h2)
        · exfalso
          apply hne
          rw [takeShares_symbol]
          exact h.owner pt' pt r hr p hpm x hx e hem h2
        · exact h2
    · exact Iff.rfl
  · intro x hx; exact Or.inl (hidmem x hx)
  · intro x hx
    obtain ⟨e0, he0, h0⟩ := hidmem x hx
    rw [store_entryId, exitPf_entryId, ← h0]
    exact h.idle pt p hpm e0 he0
  · simp
  · simp
  · intro pt' hne
    rw [store_book_ne _ _ hne, exitPf_book]
  · simp
  · rw [store_notional, exitPf_notional, if_pos rfl, takeShares_notional]; ring
  · intro pt' hne
    rw [store_notional, exitPf_notional, if_neg hne]; ring

theorem exitLoop_steps {cfg : Config} {Q : Guard} {pt : PosType} {date : Date}
    {fill shares : ℚ} {s : Portfolio} {p : Position} (hQ : Q.price fill) (hwf : WF [] s)
    (hp : p ∈ s.book pt) :
    let r := exitLoop cfg pt date fill p.entries shares s p
    (∀ pt', r.pf.book pt' = s.book pt') ∧ r.pos.symbol = p.symbol ∧
      WF [] (r.pf.store pt r.pos) ∧ Steps cfg Q s (r.pf.store pt r.pos) := by
  intro r
  have hin : p.symbol ∈ (s.book pt).map Position.symbol := List.mem_map_of_mem hp
  have key := exitLoop_inv cfg pt date fill
    (fun rem s' p' => (∀ pt', s'.book pt' = s.book pt') ∧ p'.symbol = p.symbol ∧
      WF [] (s'.store pt p') ∧ Steps cfg Q s (s'.store pt p'))
    ?_ ?_ p.entries shares s p rfl ?_
  · exact key
  · rintro rem s' p' e es hes hrem hge ⟨hb, hsym, hw, hst⟩
    have hin' : p'.symbol ∈ (s'.book pt).map Position.symbol := by rw [hb, hsym]; exact hin
    have hlook : lookupPos ((s'.store pt p').book pt) p'.symbol = some p' := by
      rw [store_book]; exact lookupPos_replacePos_self hin'
    have hep : 0 < e.shares := by
      rcases ((hw.pos pt p' (lookupPos_some hlook).1).entries e
        (by rw [hes]; exact List.mem_cons_self)).shares with h1 | h1
      · simp at h1
      · exact h1.2
    have hfe : findEntry p'.entries e.id = some e := by rw [hes]; exact findEntry_cons_self e es
    refine ⟨by simp [hb], by simp [hsym], hw.exitFull hin' hes, ?_⟩
    have s1 := hst.snoc (Prim.exit (date := date) (st := none) hw hlook hfe (by simp) hep le_rfl hQ
      (Or.inl ⟨es, hes⟩))
    have hw1 := hw.exitPrim (cfg := cfg) (fill := fill) (date := date) (st := none) hlook hfe
      hep le_rfl
    rw [if_pos rfl] at hw1
    set S1 := (exitPf cfg (s'.store pt p') pt e e.shares fill date none).store pt
      (p'.takeShares e e.shares) with hS1
    have hent : (p'.takeShares e e.shares).entries =
        { e with shares := e.shares - e.shares } :: es := by
      rw [takeShares_entries, hes, modEntry_cons_self]
    have hlook1 : lookupPos (S1.book pt) (p'.takeShares e e.shares).symbol =
        some (p'.takeShares e e.shares) := by
      rw [hS1, store_book]
      refine lookupPos_replacePos_self ?_
      rw [exitPf_book, store_book, replacePos_symbols, takeShares_symbol]
      exact hin'
    have s2 := s1.snoc (Prim.drop (e := { e with shares := e.shares - e.shares }) hw1 hlook1
      (by rw [hent]; exact findEntry_cons_self _ es) (by simp))
    have heq : (S1.removeStopData e.stops).store pt
        { p'.takeShares e e.shares with
          entries := eraseEntry (p'.takeShares e e.shares).entries e.id } =
        ((exitPf cfg s' pt e e.shares fill date none).removeStopData e.stops).store pt
          { p'.takeShares e e.shares with entries := es } := by
      rw [hent]
      have := eraseEntry_head { e with shares := e.shares - e.shares } es
      rw [this, hS1]
      have hq : ({ p'.takeShares e e.shares with entries := es } : Position).symbol =
          p'.symbol := by simp
      generalize ({ p'.takeShares e e.shares with entries := es } : Position) = q at hq
      rw [removeStopData_store, store_store _ _ _ q (by simp [hq]), exitPf_store,
        removeStopData_store, store_store _ _ _ q hq.symm]
    rw [← heq]
    exact s2
  · rintro rem s' p' e es hes hrem hlt ⟨hb, hsym, hw, hst⟩
    have hin' : p'.symbol ∈ (s'.book pt).map Position.symbol := by rw [hb, hsym]; exact hin
    have hlook : lookupPos ((s'.store pt p').book pt) p'.symbol = some p' := by
      rw [store_book]; exact lookupPos_replacePos_self hin'
    have hfe : findEntry p'.entries e.id = some e := by rw [hes]; exact findEntry_cons_self e es
    refine ⟨by simp [hb], by simp [hsym], hw.exitPart hin' hes hrem hlt, ?_⟩
    have s1 := hst.snoc (Prim.exit (date := date) (st := none) hw hlook hfe (by simp) hrem hlt.le hQ
      (Or.inl ⟨es, hes⟩))
    rw [exitPf_store, store_store _ _ _ _ (by simp)] at s1
    exact s1
  · have : s.store pt p = s := by
      unfold Portfolio.store
      rw [replacePos_self (lookupPos_of_mem (hwf.nodup pt) hp), setBook_book]
    refine ⟨fun _ => rfl, rfl, ?_, ?_⟩
    · rw [this]; exact hwf
    · rw [this]; exact Steps.refl s

/-- Storing a position back, or dropping it when it has no entries. -/
theorem update_steps {cfg : Config} {Q : Guard} {Z : List Nat} {s : Portfolio} {pt : PosType}
    {p : Position} (hin : p.symbol ∈ (s.book pt).map Position.symbol)
    (h : WF Z (s.store pt p)) : Steps cfg Q (s.store pt p) (s.updatePosition p) := by
  rcases updatePosition_cases hin h with ⟨_, heq⟩ | ⟨hnil, heq⟩
  · rw [heq]; exact Steps.refl _
  · rw [heq]
    have := Prim.close (cfg := cfg) (Q := Q) h
      (by rw [store_book]; exact lookupPos_replacePos_self hin) hnil
    rw [store_book, erasePos_replacePos] at this
    have h2 : (s.store pt p).setBook pt (erasePos (s.book pt) p.symbol) =
        s.setBook pt (erasePos (s.book pt) p.symbol) := by simp [Portfolio.store]
    rw [h2] at this
    rw [store_symbols] at this
    exact Steps.one this

theorem closeShares_steps {cfg : Config} {Q : Guard} {pt : PosType} {s : Portfolio}
    {date : Date} {sym : Sym} {shares fill : ℚ} (hQ : Q.price fill) (hwf : WF [] s) :
    Steps cfg Q s (closeShares cfg pt s date sym shares fill).pf := by
  unfold closeShares
  split
  · exact Steps.refl s
  · rename_i p hp
    obtain ⟨hpm, _⟩ := lookupPos_some hp
    obtain ⟨hb, hsym, hw, hst⟩ := exitLoop_steps (cfg := cfg) (date := date) (shares := shares) hQ hwf hpm
    refine hst.trans (update_steps ?_ hw)
    rw [hb, hsym]
    exact List.mem_map_of_mem hpm

/-! ## Orders -/

theorem placeOrder_steps {cfg : Config} {Q : Guard} {sd : Side} {s : Portfolio} {r : OrderReq}
    {o : Option Order} {s' : Portfolio} (hQ : ∀ x, 0 < x → Q.price x) (hS : Q.stops r.stops)
    (hfit : ∀ st ∈ r.stops, st.posType = sd.opens ∧ st.symbol = r.symbol) (hg : Good s)
    (h : placeOrder cfg sd s r = .ok (o, s')) : Steps cfg Q s s' := by
  obtain ⟨h1, h2, _, _⟩ := placeOrder_cases h
  have hq := hQ _ h2
  cases placeOrder_effect hg h with
  | nothing a b hm => exact Steps.one (Prim.caches hm)
  | closed c a b hc hf hlim hm =>
    refine (hc ▸ closeShares_steps hq hg.wf : Steps cfg Q s c.pf).trans ?_
    exact (Steps.one (Prim.caches hm)).snoc (Prim.order hf hlim hq)
  | opened c n es sda ac hc hn hle hlim hcl hcap hmode hadd =>
    have h0 : 0 < r.shares := by
      rcases lt_or_eq_of_le h1 with h0 | h0
      · exact h0
      · exfalso
        have : c.rem = 0 := by
          rw [hc, ← h0]
          unfold closeShares
          split
          · rfl
          · rename_i p hp
            cases p.entries <;> simp [exitLoop]
        linarith
    have cf := closeShares_facts (cfg := cfg) (pt := sd.closes) (date := r.date)
      (sym := r.symbol) (fill := r.fill) hg.wf hg.ne h0
    rw [← hc] at cf
    refine (hc ▸ closeShares_steps hq hg.wf : Steps cfg Q s c.pf).trans ?_
    refine (Steps.one (Prim.opened cf.wf hn h2 (cf.gone (by linarith)) hcl hle hcap hmode
      hfit hS hadd)).snoc (Prim.order ?_ hlim hq)
    linarith [cf.filled_nonneg]

theorem exitPosition_steps {cfg : Config} {Q : Guard} {s s' : Portfolio} {date : Date}
    {sym : Sym} {bf sf : ℚ} {slip : Option SlipFn} (hQ : ∀ x, 0 < x → Q.price x) (hS : Q.stops [])
    (hg : Good s) (h : exitPosition cfg s date sym bf sf slip = .ok s') : Steps cfg Q s s' := by
  obtain ⟨s1, h1, h2⟩ := exitPosition_cases h
  have k1 : Steps cfg Q s s1 ∧ Good s1 := by
    rcases h1 with ⟨_, rfl⟩ | ⟨p, o, _, hs⟩
    · exact ⟨Steps.refl _, hg⟩
    · exact ⟨placeOrder_steps hQ hS (by simp) hg hs, placeOrder_good hg hs⟩
  rcases h2 with ⟨_, rfl⟩ | ⟨p, o, _, hs⟩
  · exact k1.1
  · exact k1.1.trans (placeOrder_steps hQ hS (by simp) k1.2 hs)

/-! ## Stops -/

theorem stopFill_value {env : StopEnv} {s : Portfolio} {e : Entry} {st : Stop}
    {f : Option ℚ} {s1 : Portfolio} (h : stopFill env s e st = .ok (f, s1)) :
    s1 = s ∨ ∃ id v, s1 = { s with stopData := setStopValue s.stopData id v } := by
  unfold stopFill at h
  split at h
  · split at h
    · cases h
    · cases h; exact Or.inl rfl
  · split at h
    · cases h; exact Or.inl rfl
    · cases h; exact Or.inl rfl
  · split at h
    · cases h; exact Or.inl rfl
    · cases h; exact Or.inl rfl
  · split at h
    · cases h; exact Or.inl rfl
    · split at h
      · cases h
      · cases h; exact Or.inr ⟨_, _, rfl⟩

theorem stopFill_steps {cfg : Config} {Q : Guard} {env : StopEnv} {s : Portfolio} {e : Entry}
    {st : Stop} {f : Option ℚ} {s1 : Portfolio} (hL : Q.level)
    (h : stopFill env s e st = .ok (f, s1)) : Steps cfg Q s s1 := by
  rcases stopFill_value h with rfl | ⟨id, v, rfl⟩
  · exact Steps.refl _
  · exact Steps.one (Prim.stopValue id v hL)

/-- A check that does not execute only moves a trailing level. -/
theorem checkOne_idle {cfg : Config} {Q : Guard} {env : StopEnv} {date : Date}
    {acc acc' : Portfolio × List StopCheck} {c : StopCheck} (hL : Q.level)
    (h : checkOne cfg env date acc c = .ok acc') (h2 : acc'.2 = acc.2) :
    Steps cfg Q acc.1 acc'.1 := by
  unfold checkOne at h
  split at h
  · cases h; exact Steps.refl _
  · split at h
    · cases h; exact Steps.refl _
    · rename_i p hp
      split at h
      · cases h; exact Steps.refl _
      · rename_i e he
        split at h
        · cases h
        · cases h; simp at h2
        · rename_i s1 ht
          cases h
          simp only
          unfold triggerStop at ht
          split at ht
          · cases ht; exact Steps.refl _
          · split at ht
            · cases ht
            · rename_i s2 hf
              cases ht
              exact stopFill_steps hL hf
            · rename_i market s2 hf
              by_cases hl : stopLimitBlocks c.stop (slipStopFill env c.stop e.shares market) = true
              · rw [if_pos hl] at ht
                cases ht
                exact stopFill_steps hL hf
              · rw [if_neg hl] at ht
                simp at ht

theorem exitSide_limit {st : Stop} {fill : ℚ} (h : stopLimitBlocks st fill = false) :
    limitBlocks st.exitSide st.limitPrice fill = false := by
  unfold stopLimitBlocks at h
  unfold Stop.exitSide limitBlocks buyLimitBlocks sellLimitBlocks
  cases hl : st.limitPrice with
  | none => cases st.posType <;> rfl
  | some l =>
    rw [hl] at h
    cases hp : st.posType <;> rw [hp] at h <;> simpa using h

/-- The price at which a stop may exit in this environment satisfies `Q`. -/
def StopEnv.Fills (Q : ℚ → Prop) (env : StopEnv) : Prop :=
  ∀ s e st market s1, stopFill env s e st = .ok (some market, s1) →
    Q (slipStopFill env st e.shares market)

theorem CheckInv.steps {cfg : Config} {Q : Guard} {env : StopEnv} {date : Date}
    {acc acc' : Portfolio × List StopCheck} {c : StopCheck} (hQ : env.Fills Q.price)
    (hL : Q.level) (h : CheckInv acc) (hc : c.stop.posType = c.posType)
    (hs : checkOne cfg env date acc c = .ok acc') : Steps cfg Q acc.1 acc'.1 := by
  rcases checkOne_cases hs with ⟨h2, _⟩ | ⟨h2, hnin, p, e, market, sd, hp, he, hfill, hlim, h1⟩
  · exact checkOne_idle hL hs h2
  · obtain ⟨hem, heid⟩ := findEntry_some he
    have hwf := h.wf.stopData sd
    have hp' : lookupPos (({ acc.1 with stopData := sd } : Portfolio).book c.posType) c.symbol =
        some p := by rw [stopData_book]; exact hp
    obtain ⟨hpm, hps⟩ := lookupPos_some hp'
    have hpw := hwf.pos _ p hpm
    have hpos : 0 < e.shares := by
      rcases (hpw.entries e hem).shares with h1 | h1
      · exact absurd (heid ▸ h1.1) hnin
      · exact h1.2
    have hq := hQ _ _ _ _ _ hfill
    refine (stopFill_steps hL hfill).trans ?_
    rw [h1]
    have k1 := Prim.exit (cfg := cfg) (Q := Q) (date := date) (st := some c.stop.stopType)
      (sh := e.shares) hwf
      (by rw [hps]; exact hp') (by rw [heid]; exact he) (by rw [heid]; exact hnin) hpos le_rfl hq
      (Or.inr hL)
    refine (Steps.one k1).snoc ?_
    have k2 := Prim.order (cfg := cfg) (Q := Q) (date := date) (sym := p.symbol)
      (sd := c.stop.exitSide) (created := none) (ot := stopOrderType c.stop.stopType)
      (intent := c.stop.exitIntent) (sh := e.shares) (limit := c.stop.limitPrice)
      (mp := some market) (s := (exitPf cfg { acc.1 with stopData := sd } c.posType e e.shares
        (slipStopFill env c.stop e.shares market) date (some c.stop.stopType)).store c.posType
          (p.takeShares e e.shares)) hpos (exitSide_limit hlim) hq
    have heq : stopExited cfg env date { acc.1 with stopData := sd } p e c.stop market =
        (((exitPf cfg { acc.1 with stopData := sd } c.posType e e.shares
          (slipStopFill env c.stop e.shares market) date (some c.stop.stopType)).store c.posType
          (p.takeShares e e.shares)).addOrder cfg date p.symbol c.stop.exitSide none
          (stopOrderType c.stop.stopType) c.stop.exitIntent e.shares c.stop.limitPrice
          (some market) (slipStopFill env c.stop e.shares market)).2 := by
      unfold stopExited
      rw [hpw.type, hc]
      unfold Portfolio.store
      rw [exitPf_book]
    rw [heq]
    exact k2

theorem finish_steps {cfg : Config} {Q : Guard} {s : Portfolio} {c : StopCheck}
    {cs : List StopCheck} (h : WF ((c :: cs).map StopCheck.entryId) s) :
    Steps cfg Q s (finishStop s c) := by
  unfold finishStop
  split
  · exact Steps.refl s
  · rename_i p hp
    obtain ⟨hpm, hps⟩ := lookupPos_some hp
    split
    · exact Steps.refl s
    · rename_i e he
      obtain ⟨hem, heid⟩ := findEntry_some he
      have hpw := h.pos c.posType p hpm
      have hzero : e.shares = 0 := by
        rcases (hpw.entries e hem).shares with h1 | h1
        · exact h1.2
        · exact absurd (by rw [heid]; simp) h1.1
      have k1 := Prim.drop (cfg := cfg) (Q := Q) h (by rw [hps]; exact hp)
        (by rw [heid]; exact he) hzero
      rw [heid] at k1
      refine (Steps.one k1).trans ?_
      have hin : p.symbol ∈ ((s.removeStopData e.stops).book c.posType).map Position.symbol := by
        rw [removeStopData_book]
        exact List.mem_map_of_mem hpm
      have hw : WF ((c :: cs).map StopCheck.entryId)
          ((s.removeStopData e.stops).store c.posType
            { p with entries := eraseEntry p.entries c.entryId }) := by
        have hsub := eraseEntry_sublist p.entries c.entryId
        refine h.replace (pt := c.posType) (p := p)
          (q := { p with entries := eraseEntry p.entries c.entryId })
          (by rw [show ({ p with entries := eraseEntry p.entries c.entryId } : Position).symbol
                = c.symbol from hps]; exact hp)
          (hpw.drop he hzero) ?_ ?_ ?_ ?_ ?_ ?_ ?_ ?_ ?_
        · intro pt' r hr _; exact h.pos pt' r hr
        · intro x hx; exact Or.inl ⟨x, hsub.subset hx, rfl⟩
        · intro x hx
          have := h.idle c.posType p hpm x (hsub.subset hx)
          simpa using this
        · simp
        · simp
        · intro pt' hne'; rw [store_book_ne _ _ hne']; simp
        · simp
        · simp
        · intro pt' _; simp
      exact update_steps hin hw

theorem finishAll_steps {cfg : Config} {Q : Guard} (cs : List StopCheck) (s : Portfolio)
    (h : WF (cs.map StopCheck.entryId) s) (hne : NE s) (hloc : ∀ c' ∈ cs, Located s c') :
    Steps cfg Q s (cs.foldl finishStop s) := by
  induction cs generalizing s with
  | nil => exact Steps.refl s
  | cons c cs ih =>
    obtain ⟨h1, h2, h3⟩ := finish_good h hne hloc
    exact (finish_steps h).trans (ih (finishStop s c) h1 h2
      (fun c' hc' => h3.located (hloc c' (List.mem_cons_of_mem _ hc'))))

theorem checkStops_steps {cfg : Config} {Q : Guard} {env : StopEnv} {date : Date}
    {s s' : Portfolio} (hQ : env.Fills Q.price) (hL : Q.level) (hg : Good s) (hf : StopsFit s)
    (h : checkStops cfg s date env = .ok s') : Steps cfg Q s s' := by
  obtain ⟨acc, acc2, h1, h2, rfl⟩ := checkStops_cases h
  have hi0 : CheckInv (s, []) := ⟨hg.wf, hg.ne, by simp, by simp⟩
  have k1 : (CheckInv acc ∧ SubIds acc.1 s) ∧ Steps cfg Q s acc.1 := by
    refine foldE_inv_mem (f := checkOne cfg env date)
      (fun a => (CheckInv a ∧ SubIds a.1 s) ∧ Steps cfg Q s a.1) (priceChecks env s) ?_ (s, []) acc
      ⟨⟨hi0, SubIds.refl s⟩, Steps.refl s⟩ h1
    rintro a c a' hc ⟨⟨ha, hsub⟩, hst⟩ hs
    obtain ⟨h3, h4⟩ := ha.step (priceChecks_fit env s c hc) hs
    exact ⟨⟨h3, h4.trans hsub⟩, hst.trans (ha.steps hQ hL (priceChecks_fit env s c hc) hs)⟩
  have k2 : (CheckInv acc2 ∧ SubIds acc2.1 s) ∧ Steps cfg Q s acc2.1 := by
    refine foldE_inv_mem (f := checkOne cfg env date)
      (fun a => (CheckInv a ∧ SubIds a.1 s) ∧ Steps cfg Q s a.1) (barChecks env acc.1) ?_ acc acc2
      k1 h2
    rintro a c a' hc ⟨⟨ha, hsub⟩, hst⟩ hs
    have hfit := barChecks_fit k1.1.1.wf (k1.1.2.fit hf) c hc
    obtain ⟨h3, h4⟩ := ha.step hfit hs
    exact ⟨⟨h3, h4.trans hsub⟩, hst.trans (ha.steps hQ hL hfit hs)⟩
  exact k2.2.trans (finishAll_steps acc2.2 acc2.1 k2.1.1.wf k2.1.1.ne k2.1.1.loc)

/-! ## Removing stops -/

theorem Good.removeStop {s : Portfolio} (h : Good s) (id : Nat) : Good (PyBroker.removeStop s id).2 :=
  h.same (removeStop_same s id)

/-- The ids of the entries are not changed. -/
theorem removeEntryStops_steps {cfg : Config} {Q : Guard} {s : Portfolio} {e : Entry}
    {t : Option StopType} (hg : Good s)
    (he : t = none → ∃ pt, ∃ p ∈ s.book pt, e ∈ p.entries) :
    Steps cfg Q s (removeEntryStops s e t) := by
  cases t with
  | none =>
    obtain ⟨pt, p, hp, hep⟩ := he rfl
    exact Steps.one (Prim.clearStops hg.wf hp hep)
  | some t =>
    simp only [removeEntryStops]
    split
    · exact Steps.refl s
    · exact Steps.one (Prim.removeStop _ hg.wf)

end PyBroker
