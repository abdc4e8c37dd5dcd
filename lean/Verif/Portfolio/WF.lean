import Verif.Portfolio.Basic

/-!
# Helper lemmas: well-formed books and the primitive transitions on them
-/

namespace PyBroker

/-! ## Exits as record updates -/

/-- Divisor of posted collateral: the leverage when it is above one. -/
def levOf (cfg : Config) : ℚ := if cfg.leverage > 1 then cfg.leverage else 1

theorem levOf_pos (cfg : Config) : 0 < levOf cfg := by
  unfold levOf
  split
  · linarith
  · norm_num

/-- Realised gain of `shares` entered at `entry` and exited at `fill`. -/
def gain (pt : PosType) (shares entry fill : ℚ) : ℚ :=
  match pt with
  | .long => shares * fill - shares * entry
  | .short => shares * entry - shares * fill

/-- Running cost basis of a side. -/
def Portfolio.notional (s : Portfolio) : PosType → ℚ
  | .long => s.longNotional
  | .short => s.shortNotional

/-- Per share gain, used for MAE/MFE at exit. -/
def unitGain (pt : PosType) (entry fill : ℚ) : ℚ :=
  match pt with
  | .long => fill - entry
  | .short => entry - fill

/-- Percentage return of an exit. -/
def exitReturn (pt : PosType) (entry fill : ℚ) : ℚ :=
  match pt with
  | .long => (fill / entry - 1) * 100
  | .short => (entry / fill - 1) * 100

/-- The trade booked by an exit. -/
def exitTrade (s : Portfolio) (pt : PosType) (e : Entry) (shares fill : ℚ) (date : Date)
    (st : Option StopType) : Trade :=
  { id := s.tradeId + 1, type := e.type, symbol := e.symbol, entryDate := e.date,
    exitDate := date, entry := e.price, exit := fill, shares := shares,
    pnl := gain pt shares e.price fill, returnPct := exitReturn pt e.price fill,
    aggPnl := s.pnl + gain pt shares e.price fill, bars := e.bars,
    pnlPerBar := if e.bars = 0 then gain pt shares e.price fill
      else gain pt shares e.price fill / e.bars,
    stop := st, mae := exitMae (unitGain pt e.price fill) e.mae,
    mfe := exitMfe (unitGain pt e.price fill) e.mfe }

/-- The portfolio after an exit. -/
def exitPf (cfg : Config) (s : Portfolio) (pt : PosType) (e : Entry) (shares fill : ℚ)
    (date : Date) (st : Option StopType) : Portfolio :=
  { s with
    pnl := s.pnl + gain pt shares e.price fill
    cash := s.cash + (shares * e.price / levOf cfg + gain pt shares e.price fill)
    longNotional := s.longNotional - (if pt = .long then shares * e.price else 0)
    shortNotional := s.shortNotional - (if pt = .short then shares * e.price else 0)
    tradeId := s.tradeId + 1
    trades := s.trades ++ [exitTrade s pt e shares fill date st]
    wins := if gain pt shares e.price fill > 0 then s.wins + 1 else s.wins
    cachedLongMv := none
    cachedShortMv := none }

theorem exitEntry_pf (cfg : Config) (pt : PosType) (s : Portfolio) (p : Position) (e : Entry)
    (shares fill : ℚ) (date : Date) (st : Option StopType) :
    (exitEntry cfg pt s p e shares fill date st).1 = exitPf cfg s pt e shares fill date st := by
  cases pt <;>
    by_cases h : cfg.leverage > 1 <;>
    simp [exitEntry, exitLong, exitShort, exitPf, Portfolio.releaseCollateral,
      Portfolio.addTrade, Portfolio.invalidate, levOf, h, gain, exitTrade, unitGain, exitReturn]

theorem exitEntry_pos (cfg : Config) (pt : PosType) (s : Portfolio) (p : Position) (e : Entry)
    (shares fill : ℚ) (date : Date) (st : Option StopType) :
    (exitEntry cfg pt s p e shares fill date st).2 = p.takeShares e shares := by
  cases pt <;> rfl

theorem clampUnmarked_frame (p : Position) :
    ∃ u v, p.clampUnmarked = { p with unmarkedShares := u, unmarkedNotional := v } := by
  unfold Position.clampUnmarked
  split
  · exact ⟨p.unmarkedShares, p.unmarkedNotional, rfl⟩
  · split
    · exact ⟨_, _, rfl⟩
    · split
      · exact ⟨_, _, rfl⟩
      · exact ⟨p.unmarkedShares, p.unmarkedNotional, rfl⟩

theorem takeShares_frame (p : Position) (e : Entry) (sh : ℚ) :
    ∃ u v, p.takeShares e sh =
      { p with shares := p.shares - sh,
               entries := modEntry e.id (fun e' => { e' with shares := e'.shares - sh }) p.entries,
               entryNotional := p.entryNotional - sh * e.price,
               unmarkedShares := u, unmarkedNotional := v } := by
  unfold Position.takeShares
  obtain ⟨u, v, h⟩ := clampUnmarked_frame
    { p with shares := p.shares - sh,
             entries := modEntry e.id (fun e' => { e' with shares := e'.shares - sh }) p.entries,
             entryNotional := p.entryNotional - sh * e.price }
  exact ⟨u, v, h⟩

section
variable (p : Position) (e : Entry) (sh : ℚ)
@[simp] theorem takeShares_symbol : (p.takeShares e sh).symbol = p.symbol := by
  obtain ⟨u, v, h⟩ := takeShares_frame p e sh; rw [h]
@[simp] theorem takeShares_type : (p.takeShares e sh).type = p.type := by
  obtain ⟨u, v, h⟩ := takeShares_frame p e sh; rw [h]
@[simp] theorem takeShares_shares : (p.takeShares e sh).shares = p.shares - sh := by
  obtain ⟨u, v, h⟩ := takeShares_frame p e sh; rw [h]
@[simp] theorem takeShares_close : (p.takeShares e sh).close = p.close := by
  obtain ⟨u, v, h⟩ := takeShares_frame p e sh; rw [h]
@[simp] theorem takeShares_entries : (p.takeShares e sh).entries =
    modEntry e.id (fun e' => { e' with shares := e'.shares - sh }) p.entries := by
  obtain ⟨u, v, h⟩ := takeShares_frame p e sh; rw [h]
@[simp] theorem takeShares_notional : (p.takeShares e sh).entryNotional =
    p.entryNotional - sh * e.price := by
  obtain ⟨u, v, h⟩ := takeShares_frame p e sh; rw [h]
end

/-! ## Entry lists -/

theorem findEntry_some {es : List Entry} {id : Nat} {e : Entry} (h : findEntry es id = some e) :
    e ∈ es ∧ e.id = id := by
  unfold findEntry at h
  exact ⟨List.mem_of_find?_eq_some h, by simpa using List.find?_some h⟩

theorem findEntry_none {es : List Entry} {id : Nat} :
    findEntry es id = none ↔ ∀ e ∈ es, e.id ≠ id := by
  simp [findEntry]

@[simp] theorem findEntry_cons_self (e : Entry) (es : List Entry) :
    findEntry (e :: es) e.id = some e := by simp [findEntry]

theorem modEntry_cons_self (e : Entry) (es : List Entry) (f : Entry → Entry) :
    modEntry e.id f (e :: es) = f e :: es := by simp [modEntry]

theorem sum_modEntry (f : Entry → ℚ) (g : Entry → Entry) {es : List Entry} {id : Nat} {e : Entry}
    (h : findEntry es id = some e) :
    ((modEntry id g es).map f).sum = (es.map f).sum - f e + f (g e) := by
  induction es with
  | nil => simp [findEntry] at h
  | cons a es ih =>
    by_cases ha : a.id = id
    · simp [findEntry, ha] at h
      subst h
      simp [modEntry, ha]
      ring
    · have h' : findEntry es id = some e := by simpa [findEntry, ha] using h
      simp only [modEntry, if_neg ha, List.map_cons, List.sum_cons, ih h']
      ring

theorem sum_eraseEntry (f : Entry → ℚ) {es : List Entry} {id : Nat} {e : Entry}
    (h : findEntry es id = some e) :
    ((eraseEntry es id).map f).sum = (es.map f).sum - f e := by
  induction es with
  | nil => simp [findEntry] at h
  | cons a es ih =>
    by_cases ha : a.id = id
    · simp [findEntry, ha] at h
      subst h
      simp [eraseEntry, ha]
    · have h' : findEntry es id = some e := by simpa [findEntry, ha] using h
      simp only [eraseEntry, if_neg ha, List.map_cons, List.sum_cons, ih h']
      ring

theorem map_id_modEntry (id : Nat) (g : Entry → Entry) (hg : ∀ e, (g e).id = e.id)
    (es : List Entry) : (modEntry id g es).map Entry.id = es.map Entry.id := by
  induction es with
  | nil => rfl
  | cons a es ih =>
    by_cases ha : a.id = id
    · simp [modEntry, ha, hg]
    · simp [modEntry, ha, ih]

theorem mem_modEntry {id : Nat} {g : Entry → Entry} {es : List Entry} {x : Entry}
    (hn : (es.map Entry.id).Nodup)
    (h : x ∈ modEntry id g es) : (x ∈ es ∧ x.id ≠ id) ∨ ∃ e, findEntry es id = some e ∧ x = g e := by
  induction es with
  | nil => simp [modEntry] at h
  | cons a es ih =>
    rw [List.map_cons, List.nodup_cons] at hn
    by_cases ha : a.id = id
    · simp only [modEntry, if_pos ha, List.mem_cons] at h
      rcases h with h | h
      · exact Or.inr ⟨a, by simp [findEntry, ha], h⟩
      · left
        refine ⟨List.mem_cons_of_mem _ h, ?_⟩
        intro hx
        exact hn.1 (ha ▸ hx ▸ List.mem_map_of_mem h)
    · simp only [modEntry, if_neg ha, List.mem_cons] at h
      rcases h with h | h
      · left; subst h; exact ⟨List.mem_cons_self, ha⟩
      · rcases ih hn.2 h with h | ⟨e, he, hx⟩
        · left; exact ⟨List.mem_cons_of_mem _ h.1, h.2⟩
        · right; exact ⟨e, by simpa [findEntry, ha] using he, hx⟩

theorem eraseEntry_sublist (es : List Entry) (id : Nat) : (eraseEntry es id).Sublist es := by
  induction es with
  | nil => exact List.Sublist.refl _
  | cons a es ih =>
    unfold eraseEntry
    split
    · exact List.sublist_cons_self _ _
    · exact ih.cons_cons _

theorem not_mem_eraseEntry {es : List Entry} {id : Nat} (hn : (es.map Entry.id).Nodup) :
    ∀ x ∈ eraseEntry es id, x.id ≠ id := by
  induction es with
  | nil => simp [eraseEntry]
  | cons a es ih =>
    rw [List.map_cons, List.nodup_cons] at hn
    by_cases ha : a.id = id
    · simp only [eraseEntry, if_pos ha]
      intro x hx he
      exact hn.1 (ha ▸ he ▸ List.mem_map_of_mem hx)
    · simp only [eraseEntry, if_neg ha, List.mem_cons]
      rintro x (rfl | hx)
      · exact ha
      · exact ih hn.2 x hx

theorem pairwise_nodup {l : List Nat} (h : l.Pairwise (· < ·)) : l.Nodup :=
  h.imp (fun hab => Nat.ne_of_lt hab)

/-! ## Well-formed positions -/

/-- An entry of a position on side `pt` in `sym`; ids in `Z` are entries that a
stop has just closed and that are about to be removed. -/
structure EntryOK (pt : PosType) (sym : Sym) (Z : List Nat) (e : Entry) : Prop where
  type : e.type = pt
  symbol : e.symbol = sym
  price : 0 < e.price
  shares : (e.id ∈ Z ∧ e.shares = 0) ∨ (e.id ∉ Z ∧ 0 < e.shares)

/-- A position agrees with its entries. -/
structure PosWF (pt : PosType) (Z : List Nat) (p : Position) : Prop where
  type : p.type = pt
  entries : ∀ e ∈ p.entries, EntryOK pt p.symbol Z e
  shares : p.shares = (p.entries.map Entry.shares).sum
  notional : p.entryNotional = (p.entries.map (fun e => e.shares * e.price)).sum
  ids : (p.entries.map Entry.id).Pairwise (· < ·)

/-- The fields of an entry that well-formedness reads. -/
def coreE (e : Entry) : Nat × Sym × ℚ × ℚ × PosType :=
  (e.id, e.symbol, e.shares, e.price, e.type)

/-- The fields of a position that well-formedness reads. -/
def coreP (p : Position) : Sym × ℚ × PosType × ℚ × List (Nat × Sym × ℚ × ℚ × PosType) :=
  (p.symbol, p.shares, p.type, p.entryNotional, p.entries.map coreE)

theorem map_of_coreE {es fs : List Entry} (h : es.map coreE = fs.map coreE) {α : Type}
    (g : Nat × Sym × ℚ × ℚ × PosType → α) :
    es.map (fun e => g (coreE e)) = fs.map (fun e => g (coreE e)) := by
  have := congrArg (List.map g) h
  simpa [List.map_map, Function.comp_def] using this

theorem mem_of_coreE {es fs : List Entry} (h : es.map coreE = fs.map coreE) {f : Entry}
    (hf : f ∈ fs) : ∃ e ∈ es, coreE e = coreE f := by
  have : coreE f ∈ es.map coreE := h ▸ List.mem_map_of_mem hf
  simpa using this

theorem EntryOK.congr {pt : PosType} {sym : Sym} {Z : List Nat} {e f : Entry}
    (h : EntryOK pt sym Z e) (hc : coreE e = coreE f) : EntryOK pt sym Z f := by
  simp only [coreE, Prod.mk.injEq] at hc
  obtain ⟨h1, h2, h3, h4, h5⟩ := hc
  exact ⟨h5 ▸ h.type, h2 ▸ h.symbol, h4 ▸ h.price, h1 ▸ h3 ▸ h.shares⟩

theorem PosWF.congr {pt : PosType} {Z : List Nat} {p q : Position} (h : PosWF pt Z p)
    (hc : coreP p = coreP q) : PosWF pt Z q := by
  simp only [coreP, Prod.mk.injEq] at hc
  obtain ⟨h1, h2, h3, h4, h5⟩ := hc
  refine ⟨h3 ▸ h.type, ?_, ?_, ?_, ?_⟩
  · intro f hf
    obtain ⟨e, he, hef⟩ := mem_of_coreE h5 hf
    exact h1 ▸ (h.entries e he).congr hef
  · rw [← h2, h.shares]
    exact congrArg List.sum (map_of_coreE h5 (fun c => c.2.2.1))
  · rw [← h4, h.notional]
    exact congrArg List.sum (map_of_coreE h5 (fun c => c.2.2.1 * c.2.2.2.1))
  · have := map_of_coreE h5 (fun c => c.1)
    simp only [coreE] at this
    have h6 := h.ids
    rw [show p.entries.map Entry.id = q.entries.map Entry.id from this] at h6
    exact h6

theorem PosWF.congrZ {pt : PosType} {Z Z' : List Nat} {p : Position} (h : PosWF pt Z p)
    (hz : ∀ e ∈ p.entries, (e.id ∈ Z ↔ e.id ∈ Z')) : PosWF pt Z' p := by
  refine ⟨h.type, ?_, h.shares, h.notional, h.ids⟩
  intro e he
  have := h.entries e he
  exact ⟨this.type, this.symbol, this.price, by rw [← hz e he]; exact this.shares⟩

theorem PosWF.nodup {pt : PosType} {Z : List Nat} {p : Position} (h : PosWF pt Z p) :
    (p.entries.map Entry.id).Nodup := pairwise_nodup h.ids

/-- Taking part or all of an entry's shares. -/
theorem PosWF.take {pt : PosType} {Z : List Nat} {p : Position} (h : PosWF pt Z p) {e : Entry}
    (he : findEntry p.entries e.id = some e) {sh : ℚ} (h0 : 0 < sh) (h1 : sh ≤ e.shares) :
    PosWF pt (if sh = e.shares then e.id :: Z else Z) (p.takeShares e sh) := by
  have hmem := (findEntry_some he).1
  have hok := h.entries e hmem
  have hnz : e.id ∉ Z := by
    rcases hok.shares with h2 | h2
    · linarith [h2.2]
    · exact h2.1
  refine ⟨by simp [h.type], ?_, ?_, ?_, ?_⟩
  · intro x hx
    rw [takeShares_entries] at hx
    rw [takeShares_symbol]
    rcases mem_modEntry h.nodup hx with ⟨hx, hne⟩ | ⟨e', he', rfl⟩
    · have hxo := h.entries x hx
      refine ⟨hxo.type, hxo.symbol, hxo.price, ?_⟩
      split
      · simpa [hne] using hxo.shares
      · exact hxo.shares
    · rw [he] at he'
      cases he'
      refine ⟨hok.type, hok.symbol, hok.price, ?_⟩
      split
      · rename_i hs
        left
        exact ⟨by simp, by simp [hs]⟩
      · rename_i hs
        right
        refine ⟨hnz, ?_⟩
        have : sh < e.shares := lt_of_le_of_ne h1 hs
        simp only
        linarith
  · rw [takeShares_shares, takeShares_entries, sum_modEntry _ _ he, h.shares]
    ring
  · rw [takeShares_notional, takeShares_entries,
      sum_modEntry (fun e => e.shares * e.price) _ he, h.notional]
    ring
  · rw [takeShares_entries, map_id_modEntry _ _ (by intro e; rfl)]
    exact h.ids

/-- Removing an entry whose shares are zero. -/
theorem PosWF.drop {pt : PosType} {Z : List Nat} {p : Position} (h : PosWF pt Z p) {id : Nat}
    {e : Entry} (he : findEntry p.entries id = some e) (hz : e.shares = 0) :
    PosWF pt Z { p with entries := eraseEntry p.entries id } := by
  have hsub := eraseEntry_sublist p.entries id
  refine ⟨h.type, fun x hx => h.entries x (hsub.subset hx), ?_, ?_, ?_⟩
  · simp only
    rw [sum_eraseEntry _ he, h.shares, hz]; ring
  · simp only
    rw [sum_eraseEntry (fun e => e.shares * e.price) he, h.notional, hz]; ring
  · exact h.ids.sublist (hsub.map _)

/-! ## Well-formed portfolios -/

/-- Everything the books, the symbol set and the running notionals agree on.
`Z` is as in `EntryOK`. -/
structure WF (Z : List Nat) (s : Portfolio) : Prop where
  pos : ∀ pt, ∀ p ∈ s.book pt, PosWF pt Z p
  nodup : ∀ pt, ((s.book pt).map Position.symbol).Nodup
  disj : ∀ pt pt', pt ≠ pt' → ∀ p ∈ s.book pt, ∀ q ∈ s.book pt', p.symbol ≠ q.symbol
  syms : ∀ sym, sym ∈ s.symbols ↔ ∃ pt, sym ∈ (s.book pt).map Position.symbol
  symsNodup : s.symbols.Nodup
  notional : ∀ pt, s.notional pt = ((s.book pt).map Position.entryNotional).sum
  idle : ∀ pt, ∀ p ∈ s.book pt, ∀ e ∈ p.entries, e.id ≤ s.entryId
  owner : ∀ pt pt', ∀ p ∈ s.book pt, ∀ q ∈ s.book pt', ∀ e ∈ p.entries, ∀ f ∈ q.entries,
    e.id = f.id → p.symbol = q.symbol

theorem WF.init (cfg : Config) : WF [] (Portfolio.init cfg) := by
  have hb : ∀ pt, (Portfolio.init cfg).book pt = [] := by intro pt; cases pt <;> rfl
  constructor
  · simp [hb]
  · simp [hb]
  · simp [hb]
  · intro sym
    simp only [hb]
    simp [Portfolio.init]
  · simp [Portfolio.init]
  · intro pt; cases pt <;> simp [Portfolio.init, Portfolio.book, Portfolio.notional]
  · simp [hb]
  · simp [hb]

theorem mem_of_coreP {ps qs : List Position} (h : ps.map coreP = qs.map coreP) {q : Position}
    (hq : q ∈ qs) : ∃ p ∈ ps, coreP p = coreP q := by
  have : coreP q ∈ ps.map coreP := h ▸ List.mem_map_of_mem hq
  simpa using this

theorem map_of_coreP {ps qs : List Position} (h : ps.map coreP = qs.map coreP) {α : Type}
    (g : Sym × ℚ × PosType × ℚ × List (Nat × Sym × ℚ × ℚ × PosType) → α) :
    ps.map (fun e => g (coreP e)) = qs.map (fun e => g (coreP e)) := by
  have := congrArg (List.map g) h
  simpa [List.map_map, Function.comp_def] using this

theorem coreP_symbol {p q : Position} (h : coreP p = coreP q) : p.symbol = q.symbol := by
  simp only [coreP, Prod.mk.injEq] at h; exact h.1

theorem coreP_entry {p q : Position} (h : coreP p = coreP q) {f : Entry} (hf : f ∈ q.entries) :
    ∃ e ∈ p.entries, coreE e = coreE f := by
  simp only [coreP, Prod.mk.injEq] at h
  exact mem_of_coreE h.2.2.2.2 hf

theorem coreE_id {e f : Entry} (h : coreE e = coreE f) : e.id = f.id := by
  simp only [coreE, Prod.mk.injEq] at h; exact h.1

/-- Well-formedness only reads the core fields. -/
theorem WF.congr {Z : List Nat} {s t : Portfolio} (h : WF Z s)
    (hb : ∀ pt, (s.book pt).map coreP = (t.book pt).map coreP)
    (hs : t.symbols = s.symbols) (hn : ∀ pt, t.notional pt = s.notional pt)
    (hi : t.entryId = s.entryId) : WF Z t := by
  have hsym : ∀ pt, (t.book pt).map Position.symbol = (s.book pt).map Position.symbol :=
    fun pt => (map_of_coreP (hb pt) (fun c => c.1)).symm
  constructor
  · intro pt q hq
    obtain ⟨p, hp, hc⟩ := mem_of_coreP (hb pt) hq
    exact (h.pos pt p hp).congr hc
  · intro pt
    rw [hsym]; exact h.nodup pt
  · intro pt pt' hne p hp q hq
    obtain ⟨p', hp', hc⟩ := mem_of_coreP (hb pt) hp
    obtain ⟨q', hq', hc'⟩ := mem_of_coreP (hb pt') hq
    rw [← coreP_symbol hc, ← coreP_symbol hc']
    exact h.disj pt pt' hne p' hp' q' hq'
  · intro sym
    rw [hs, h.syms]
    simp only [hsym]
  · rw [hs]; exact h.symsNodup
  · intro pt
    rw [hn, h.notional]
    exact congrArg List.sum (map_of_coreP (hb pt) (fun c => c.2.2.2.1))
  · intro pt q hq f hf
    obtain ⟨p, hp, hc⟩ := mem_of_coreP (hb pt) hq
    obtain ⟨e, he, hec⟩ := coreP_entry hc hf
    rw [hi, ← coreE_id hec]
    exact h.idle pt p hp e he
  · intro pt pt' p hp q hq e he f hf hid
    obtain ⟨p', hp', hc⟩ := mem_of_coreP (hb pt) hp
    obtain ⟨q', hq', hc'⟩ := mem_of_coreP (hb pt') hq
    obtain ⟨e', he', hec⟩ := coreP_entry hc he
    obtain ⟨f', hf', hfc⟩ := coreP_entry hc' hf
    rw [← coreP_symbol hc, ← coreP_symbol hc']
    exact h.owner pt pt' p' hp' q' hq' e' he' f' hf'
      ((coreE_id hec).trans (hid.trans (coreE_id hfc).symm))

/-- Replacing one position. -/
theorem WF.replace {Z Z' : List Nat} {s t : Portfolio} (h : WF Z s) {pt : PosType}
    {p q : Position} (hp : lookupPos (s.book pt) q.symbol = some p)
    (hq : PosWF pt Z' q)
    (hother : ∀ pt', ∀ r ∈ s.book pt', r.symbol ≠ q.symbol → PosWF pt' Z' r)
    (hids : ∀ e ∈ q.entries, (∃ e0 ∈ p.entries, e0.id = e.id) ∨ s.entryId < e.id)
    (hids' : ∀ e ∈ q.entries, e.id ≤ t.entryId)
    (hmono : s.entryId ≤ t.entryId)
    (hb : t.book pt = replacePos (s.book pt) q)
    (hb' : ∀ pt', pt ≠ pt' → t.book pt' = s.book pt')
    (hs : t.symbols = s.symbols)
    (hn : t.notional pt = s.notional pt - p.entryNotional + q.entryNotional)
    (hn' : ∀ pt', pt ≠ pt' → t.notional pt' = s.notional pt') : WF Z' t := by
  have hpm := lookupPos_some hp
  have hsym : ∀ pt', (t.book pt').map Position.symbol = (s.book pt').map Position.symbol := by
    intro pt'
    by_cases hpt : pt = pt'
    · subst hpt; rw [hb]; simp
    · rw [hb' pt' hpt]
  -- every position of `t` is `q` on side `pt`, or an old one with another symbol
  have hmem : ∀ pt', ∀ r ∈ t.book pt',
      (r = q ∧ pt' = pt) ∨ (r ∈ s.book pt' ∧ r.symbol ≠ q.symbol) := by
    intro pt' r hr
    by_cases hpt : pt = pt'
    · subst hpt
      rw [hb] at hr
      rcases mem_replacePos (h.nodup pt) hr with h1 | h1
      · exact Or.inl ⟨h1, rfl⟩
      · exact Or.inr h1
    · rw [hb' pt' hpt] at hr
      refine Or.inr ⟨hr, ?_⟩
      rw [← hpm.2]
      exact fun he => h.disj pt pt' hpt p hpm.1 r hr he.symm
  constructor
  · intro pt' r hr
    rcases hmem pt' r hr with ⟨rfl, rfl⟩ | ⟨hr, hne⟩
    · exact hq
    · exact hother pt' r hr hne
  · intro pt'
    rw [hsym]; exact h.nodup pt'
  · intro a b hab x hx y hy
    have hx' : x.symbol ∈ (s.book a).map Position.symbol := hsym a ▸ List.mem_map_of_mem hx
    have hy' : y.symbol ∈ (s.book b).map Position.symbol := hsym b ▸ List.mem_map_of_mem hy
    obtain ⟨x', hx', hxe⟩ := List.mem_map.1 hx'
    obtain ⟨y', hy', hye⟩ := List.mem_map.1 hy'
    rw [← hxe, ← hye]
    exact h.disj a b hab x' hx' y' hy'
  · intro sym
    rw [hs, h.syms]
    simp only [hsym]
  · rw [hs]; exact h.symsNodup
  · intro pt'
    by_cases hpt : pt = pt'
    · subst hpt
      rw [hn, hb, sum_replacePos _ hp, h.notional]
    · rw [hn' pt' hpt, hb' pt' hpt, h.notional]
  · intro pt' r hr e he
    rcases hmem pt' r hr with ⟨rfl, rfl⟩ | ⟨hr, hne⟩
    · exact hids' e he
    · exact le_trans (h.idle pt' r hr e he) hmono
  · intro a b x hx y hy e he f hf hid
    rcases hmem a x hx with ⟨rfl, rfl⟩ | ⟨hx, hxne⟩
    · rcases hmem b y hy with ⟨rfl, rfl⟩ | ⟨hy, hyne⟩
      · rfl
      · rcases hids e he with ⟨e0, he0, h0⟩ | hlt
        · rw [← hpm.2]
          exact h.owner a b p hpm.1 y hy e0 he0 f hf (h0.trans hid)
        · have := h.idle b y hy f hf
          omega
    · rcases hmem b y hy with ⟨rfl, rfl⟩ | ⟨hy, hyne⟩
      · rcases hids f hf with ⟨e0, he0, h0⟩ | hlt
        · rw [← hpm.2]
          exact h.owner a b x hx p hpm.1 e he e0 he0 (hid.trans h0.symm)
        · have := h.idle a x hx e he
          omega
      · exact h.owner a b x hx y hy e he f hf hid

/-- Deleting a position that holds nothing. -/
theorem WF.erase {Z : List Nat} {s t : Portfolio} (h : WF Z s) {pt : PosType}
    {p : Position} {sym : Sym} (hp : lookupPos (s.book pt) sym = some p)
    (hz : p.entryNotional = 0)
    (hb : t.book pt = erasePos (s.book pt) sym)
    (hb' : ∀ pt', pt ≠ pt' → t.book pt' = s.book pt')
    (hs : t.symbols = s.symbols.erase sym)
    (hn : ∀ pt', t.notional pt' = s.notional pt')
    (hi : t.entryId = s.entryId) : WF Z t := by
  have hpm := lookupPos_some hp
  have hmem : ∀ pt', ∀ r ∈ t.book pt', r ∈ s.book pt' ∧ r.symbol ≠ sym := by
    intro pt' r hr
    by_cases hpt : pt = pt'
    · subst hpt
      rw [hb] at hr
      exact (mem_erasePos (h.nodup pt)).1 hr
    · rw [hb' pt' hpt] at hr
      refine ⟨hr, ?_⟩
      rw [← hpm.2]
      exact fun he => h.disj pt pt' hpt p hpm.1 r hr he.symm
  have hmem' : ∀ pt', ∀ r ∈ s.book pt', r.symbol ≠ sym → r ∈ t.book pt' := by
    intro pt' r hr hne
    by_cases hpt : pt = pt'
    · subst hpt
      rw [hb]
      exact (mem_erasePos (h.nodup pt)).2 ⟨hr, hne⟩
    · rw [hb' pt' hpt]; exact hr
  constructor
  · intro pt' r hr
    exact h.pos pt' r (hmem pt' r hr).1
  · intro pt'
    by_cases hpt : pt = pt'
    · subst hpt
      rw [hb]
      exact (h.nodup pt).sublist ((erasePos_sublist _ _).map _)
    · rw [hb' pt' hpt]; exact h.nodup pt'
  · intro a b hab x hx y hy
    exact h.disj a b hab x (hmem a x hx).1 y (hmem b y hy).1
  · intro sy
    rw [hs, h.symsNodup.mem_erase_iff, h.syms]
    constructor
    · rintro ⟨hne, pt', hm⟩
      obtain ⟨r, hr, hre⟩ := List.mem_map.1 hm
      exact ⟨pt', List.mem_map.2 ⟨r, hmem' pt' r hr (hre ▸ hne), hre⟩⟩
    · rintro ⟨pt', hm⟩
      obtain ⟨r, hr, hre⟩ := List.mem_map.1 hm
      have := hmem pt' r hr
      exact ⟨hre ▸ this.2, pt', List.mem_map.2 ⟨r, this.1, hre⟩⟩
  · rw [hs]; exact h.symsNodup.erase _
  · intro pt'
    by_cases hpt : pt = pt'
    · subst hpt
      rw [hn, hb, sum_erasePos _ hp, h.notional, hz]; ring
    · rw [hn, hb' pt' hpt, h.notional]
  · intro pt' r hr e he
    rw [hi]
    exact h.idle pt' r (hmem pt' r hr).1 e he
  · intro a b x hx y hy
    exact h.owner a b x (hmem a x hx).1 y (hmem b y hy).1

/-- Adding a position in a symbol that has none. -/
theorem WF.append {Z : List Nat} {s t : Portfolio} (h : WF Z s) {pt : PosType}
    {q : Position} (hnew : ∀ pt', q.symbol ∉ (s.book pt').map Position.symbol)
    (hq : PosWF pt Z q)
    (hids : ∀ e ∈ q.entries, s.entryId < e.id)
    (hids' : ∀ e ∈ q.entries, e.id ≤ t.entryId)
    (hmono : s.entryId ≤ t.entryId)
    (hb : t.book pt = s.book pt ++ [q])
    (hb' : ∀ pt', pt ≠ pt' → t.book pt' = s.book pt')
    (hs : t.symbols = addSym s.symbols q.symbol)
    (hn : t.notional pt = s.notional pt + q.entryNotional)
    (hn' : ∀ pt', pt ≠ pt' → t.notional pt' = s.notional pt') : WF Z t := by
  have hmem : ∀ pt', ∀ r ∈ t.book pt', (r = q ∧ pt' = pt) ∨ r ∈ s.book pt' := by
    intro pt' r hr
    by_cases hpt : pt = pt'
    · subst hpt
      rw [hb, List.mem_append, List.mem_singleton] at hr
      rcases hr with hr | hr
      · exact Or.inr hr
      · exact Or.inl ⟨hr, rfl⟩
    · rw [hb' pt' hpt] at hr
      exact Or.inr hr
  have hne : ∀ pt', ∀ r ∈ s.book pt', r.symbol ≠ q.symbol := by
    intro pt' r hr he
    exact hnew pt' (he ▸ List.mem_map_of_mem hr)
  constructor
  · intro pt' r hr
    rcases hmem pt' r hr with ⟨rfl, rfl⟩ | hr
    · exact hq
    · exact h.pos pt' r hr
  · intro pt'
    by_cases hpt : pt = pt'
    · subst hpt
      rw [hb, List.map_append, List.nodup_append]
      refine ⟨h.nodup pt, by simp, ?_⟩
      intro a ha b hb2
      simp only [List.map_cons, List.map_nil, List.mem_singleton] at hb2
      subst hb2
      exact fun he => hnew pt (he ▸ ha)
    · rw [hb' pt' hpt]; exact h.nodup pt'
  · intro a b hab x hx y hy
    rcases hmem a x hx with ⟨rfl, rfl⟩ | hx
    · rcases hmem b y hy with ⟨rfl, rfl⟩ | hy
      · exact absurd rfl hab
      · exact (hne b y hy).symm
    · rcases hmem b y hy with ⟨rfl, rfl⟩ | hy
      · exact hne a x hx
      · exact h.disj a b hab x hx y hy
  · intro sy
    have hadd : sy ∈ addSym s.symbols q.symbol ↔ sy ∈ s.symbols ∨ sy = q.symbol := by
      unfold addSym
      split
      · rename_i hin
        constructor
        · exact Or.inl
        · rintro (h1 | h1)
          · exact h1
          · exact h1 ▸ hin
      · simp
    rw [hs, hadd, h.syms]
    constructor
    · rintro (⟨pt', hm⟩ | rfl)
      · refine ⟨pt', ?_⟩
        by_cases hpt : pt = pt'
        · subst hpt
          rw [hb, List.map_append]
          exact List.mem_append_left _ hm
        · rw [hb' pt' hpt]; exact hm
      · refine ⟨pt, ?_⟩
        rw [hb, List.map_append]
        exact List.mem_append_right _ (by simp)
    · rintro ⟨pt', hm⟩
      obtain ⟨r, hr, hre⟩ := List.mem_map.1 hm
      rcases hmem pt' r hr with ⟨rfl, rfl⟩ | hr
      · exact Or.inr hre.symm
      · exact Or.inl ⟨pt', List.mem_map.2 ⟨r, hr, hre⟩⟩
  · rw [hs]
    unfold addSym
    split
    · exact h.symsNodup
    · rename_i hnin
      rw [List.nodup_append]
      refine ⟨h.symsNodup, by simp, ?_⟩
      intro a ha b hb2
      rw [List.mem_singleton] at hb2
      subst hb2
      exact fun he => hnin (he ▸ ha)
  · intro pt'
    by_cases hpt : pt = pt'
    · subst hpt
      rw [hn, hb, List.map_append, List.sum_append, h.notional]; simp
    · rw [hn' pt' hpt, hb' pt' hpt, h.notional]
  · intro pt' r hr e he
    rcases hmem pt' r hr with ⟨rfl, rfl⟩ | hr
    · exact hids' e he
    · exact le_trans (h.idle pt' r hr e he) hmono
  · intro a b x hx y hy e he f hf hid
    rcases hmem a x hx with ⟨rfl, rfl⟩ | hx
    · rcases hmem b y hy with ⟨rfl, rfl⟩ | hy
      · rfl
      · have := h.idle b y hy f hf
        have := hids e he
        omega
    · rcases hmem b y hy with ⟨rfl, rfl⟩ | hy
      · have := h.idle a x hx e he
        have := hids f hf
        omega
      · exact h.owner a b x hx y hy e he f hf hid

end PyBroker
