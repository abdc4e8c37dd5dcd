import Verif.Portfolio.WF
import Mathlib.Algebra.Order.BigOperators.Group.List

/-!
# Helper lemmas: how the public operations decompose, and that they keep books
well-formed
-/

namespace PyBroker

/-- Every open position has an entry. -/
def NE (s : Portfolio) : Prop := ∀ pt, ∀ p ∈ s.book pt, p.entries ≠ []

/-- Shares held in a book under a symbol. -/
def sharesOf (ps : List Position) (sym : Sym) : ℚ :=
  match lookupPos ps sym with
  | none => 0
  | some p => p.shares

/-- A position object mutated in place. -/
def Portfolio.store (s : Portfolio) (pt : PosType) (p : Position) : Portfolio :=
  s.setBook pt (replacePos (s.book pt) p)

@[simp] theorem store_book (s : Portfolio) (pt : PosType) (p : Position) :
    (s.store pt p).book pt = replacePos (s.book pt) p := by simp [Portfolio.store]

theorem store_book_ne (s : Portfolio) {pt pt' : PosType} (p : Position) (h : pt ≠ pt') :
    (s.store pt p).book pt' = s.book pt' := by simp [Portfolio.store, book_setBook_ne _ _ h]

@[simp] theorem setBook_symbols (s : Portfolio) (pt : PosType) (ps : List Position) :
    (s.setBook pt ps).symbols = s.symbols := by cases pt <;> rfl
@[simp] theorem setBook_entryId (s : Portfolio) (pt : PosType) (ps : List Position) :
    (s.setBook pt ps).entryId = s.entryId := by cases pt <;> rfl
@[simp] theorem setBook_notional (s : Portfolio) (pt pt' : PosType) (ps : List Position) :
    (s.setBook pt ps).notional pt' = s.notional pt' := by cases pt <;> cases pt' <;> rfl
@[simp] theorem store_symbols (s : Portfolio) (pt : PosType) (p : Position) :
    (s.store pt p).symbols = s.symbols := by simp [Portfolio.store]
@[simp] theorem store_entryId (s : Portfolio) (pt : PosType) (p : Position) :
    (s.store pt p).entryId = s.entryId := by simp [Portfolio.store]
@[simp] theorem store_notional (s : Portfolio) (pt pt' : PosType) (p : Position) :
    (s.store pt p).notional pt' = s.notional pt' := by simp [Portfolio.store]

theorem posType_ne {a b c : PosType} (h : a ≠ b) (h' : a ≠ c) : b = c := by
  cases a <;> cases b <;> cases c <;> simp_all

/-! ## The exit primitive -/

section
variable (cfg : Config) (s : Portfolio) (pt pt' : PosType) (e : Entry) (sh fill : ℚ) (date : Date)
  (st : Option StopType)
@[simp] theorem exitPf_book : (exitPf cfg s pt e sh fill date st).book pt' = s.book pt' := by
  cases pt' <;> rfl
@[simp] theorem exitPf_symbols : (exitPf cfg s pt e sh fill date st).symbols = s.symbols := rfl
@[simp] theorem exitPf_entryId : (exitPf cfg s pt e sh fill date st).entryId = s.entryId := rfl
theorem exitPf_notional : (exitPf cfg s pt e sh fill date st).notional pt' =
    s.notional pt' - (if pt = pt' then sh * e.price else 0) := by
  cases pt <;> cases pt' <;> simp [exitPf, Portfolio.notional]
end

section
variable (s : Portfolio) (l : List Stop) (pt : PosType)
@[simp] theorem removeStopData_book : (s.removeStopData l).book pt = s.book pt := by
  obtain ⟨a, b, h⟩ := removeStopData_frame l s; rw [h]; cases pt <;> rfl
@[simp] theorem removeStopData_symbols : (s.removeStopData l).symbols = s.symbols := by
  obtain ⟨a, b, h⟩ := removeStopData_frame l s; rw [h]
@[simp] theorem removeStopData_entryId : (s.removeStopData l).entryId = s.entryId := by
  obtain ⟨a, b, h⟩ := removeStopData_frame l s; rw [h]
@[simp] theorem removeStopData_notional : (s.removeStopData l).notional pt = s.notional pt := by
  obtain ⟨a, b, h⟩ := removeStopData_frame l s; rw [h]; cases pt <;> rfl
end

/-- Invariant rule for the first-in first-out loop. -/
theorem exitLoop_inv (cfg : Config) (pt : PosType) (date : Date) (fill : ℚ)
    (P : ℚ → Portfolio → Position → Prop)
    (hfull : ∀ rem s p e es, p.entries = e :: es → 0 < rem → e.shares ≤ rem → P rem s p →
      P (rem - e.shares) ((exitPf cfg s pt e e.shares fill date none).removeStopData e.stops)
        { p.takeShares e e.shares with entries := es })
    (hpart : ∀ rem s p e es, p.entries = e :: es → 0 < rem → rem < e.shares → P rem s p →
      P 0 (exitPf cfg s pt e rem fill date none) (p.takeShares e rem)) :
    ∀ es rem s p, p.entries = es → P rem s p →
      P (exitLoop cfg pt date fill es rem s p).rem (exitLoop cfg pt date fill es rem s p).pf
        (exitLoop cfg pt date fill es rem s p).pos := by
  intro es
  induction es with
  | nil => intro rem s p _ hP; exact hP
  | cons e es ih =>
    intro rem s p hes hP
    unfold exitLoop
    split
    · rename_i hrem
      split
      · rename_i hge
        simp only [exitEntry_pf, exitEntry_pos]
        have htail : (p.takeShares e e.shares).entries.tail = es := by
          rw [takeShares_entries, hes, modEntry_cons_self]; rfl
        rw [htail]
        exact ih _ _ _ rfl (hfull rem s p e es hes hrem hge hP)
      · rename_i hlt
        simp only [exitEntry_pf, exitEntry_pos]
        exact hpart rem s p e es hes hrem (not_le.1 hlt) hP
    · exact hP

/-- The loop stops with nothing left to fill or with no entry left. -/
theorem exitLoop_done (cfg : Config) (pt : PosType) (date : Date) (fill : ℚ) :
    ∀ es rem s p, p.entries = es →
      (exitLoop cfg pt date fill es rem s p).rem ≤ 0 ∨
        (exitLoop cfg pt date fill es rem s p).pos.entries = [] := by
  intro es
  induction es with
  | nil => intro rem s p h; exact Or.inr h
  | cons e es ih =>
    intro rem s p hes
    unfold exitLoop
    split
    · split
      · simp only [exitEntry_pf, exitEntry_pos]
        have htail : (p.takeShares e e.shares).entries.tail = es := by
          rw [takeShares_entries, hes, modEntry_cons_self]; rfl
        rw [htail]
        exact ih _ _ _ rfl
      · left; exact le_refl 0
    · rename_i h
      left; exact not_lt.1 h

/-- Well-formedness inside the loop: the position being exited is stored. -/
theorem WF.exitFull {cfg : Config} {pt : PosType} {s : Portfolio} {p : Position} {e : Entry}
    {es : List Entry} {fill : ℚ} {date : Date}
    (hin : p.symbol ∈ (s.book pt).map Position.symbol) (h : WF [] (s.store pt p))
    (hes : p.entries = e :: es) :
    WF [] (((exitPf cfg s pt e e.shares fill date none).removeStopData e.stops).store pt
      { p.takeShares e e.shares with entries := es }) := by
  have hlook : lookupPos ((s.store pt p).book pt) p.symbol = some p := by
    rw [store_book]; exact lookupPos_replacePos_self hin
  have hpw : PosWF pt [] p := h.pos pt p (lookupPos_some hlook).1
  have heok := hpw.entries e (by rw [hes]; exact List.mem_cons_self)
  have hpos : 0 < e.shares := by
    rcases heok.shares with h1 | h1
    · simp at h1
    · exact h1.2
  have hfind : findEntry p.entries e.id = some e := by rw [hes]; simp
  have h1 := hpw.take hfind hpos le_rfl
  rw [if_pos rfl] at h1
  have hent : (p.takeShares e e.shares).entries = { e with shares := e.shares - e.shares } :: es := by
    rw [takeShares_entries, hes, modEntry_cons_self]
  have h2 := h1.drop (id := e.id) (e := { e with shares := e.shares - e.shares })
    (by rw [hent]; simp [findEntry]) (by simp)
  have herase : eraseEntry (p.takeShares e e.shares).entries e.id = es := by
    rw [hent]; simp [eraseEntry]
  rw [herase] at h2
  have hnd := hpw.nodup
  rw [hes, List.map_cons, List.nodup_cons] at hnd
  have h3 : PosWF pt [] { p.takeShares e e.shares with entries := es } := by
    refine h2.congrZ ?_
    intro x hx
    simp only [List.mem_singleton, List.not_mem_nil, iff_false]
    intro hxe
    exact hnd.1 (hxe ▸ List.mem_map_of_mem hx)
  refine h.replace (pt := pt) (p := p) (q := { p.takeShares e e.shares with entries := es })
    (by simpa using hlook) h3 (fun pt' r hr _ => h.pos pt' r hr) ?_ ?_ ?_ ?_ ?_ ?_ ?_ ?_
  · intro x hx
    left
    exact ⟨x, by rw [hes]; exact List.mem_cons_of_mem _ hx, rfl⟩
  · intro x hx
    have := h.idle pt p (lookupPos_some hlook).1 x (by rw [hes]; exact List.mem_cons_of_mem _ hx)
    simpa using this
  · simp
  · rw [store_book, store_book, replacePos_replacePos _ _ _ (by simp)]
    simp
  · intro pt' hne
    rw [store_book_ne _ _ hne, store_book_ne _ _ hne]
    simp
  · simp
  · simp [exitPf_notional]
  · intro pt' hne
    simp [exitPf_notional, hne]

theorem WF.exitPart {cfg : Config} {pt : PosType} {s : Portfolio} {p : Position} {e : Entry}
    {es : List Entry} {fill sh : ℚ} {date : Date}
    (hin : p.symbol ∈ (s.book pt).map Position.symbol) (h : WF [] (s.store pt p))
    (hes : p.entries = e :: es) (h0 : 0 < sh) (hlt : sh < e.shares) :
    WF [] ((exitPf cfg s pt e sh fill date none).store pt (p.takeShares e sh)) := by
  have hlook : lookupPos ((s.store pt p).book pt) p.symbol = some p := by
    rw [store_book]; exact lookupPos_replacePos_self hin
  have hpw : PosWF pt [] p := h.pos pt p (lookupPos_some hlook).1
  have hfind : findEntry p.entries e.id = some e := by rw [hes]; simp
  have h1 := hpw.take hfind h0 hlt.le
  rw [if_neg hlt.ne] at h1
  have hmap : (p.takeShares e sh).entries.map Entry.id = p.entries.map Entry.id := by
    rw [takeShares_entries, map_id_modEntry _ _ (by intro e; rfl)]
  have hidmem : ∀ x ∈ (p.takeShares e sh).entries, ∃ e0 ∈ p.entries, e0.id = x.id := by
    intro x hx
    have : x.id ∈ p.entries.map Entry.id := hmap ▸ List.mem_map_of_mem hx
    simpa using this
  refine h.replace (pt := pt) (p := p) (q := p.takeShares e sh)
    (by simpa using hlook) h1 (fun pt' r hr _ => h.pos pt' r hr) ?_ ?_ ?_ ?_ ?_ ?_ ?_ ?_
  · intro x hx
    left
    exact hidmem x hx
  · intro x hx
    obtain ⟨e0, he0, h0⟩ := hidmem x hx
    have := h.idle pt p (lookupPos_some hlook).1 e0 he0
    rw [← h0]
    simpa using this
  · simp
  · rw [store_book, store_book, replacePos_replacePos _ _ _ (by simp)]
    simp
  · intro pt' hne
    rw [store_book_ne _ _ hne, store_book_ne _ _ hne]
    simp
  · simp
  · simp [exitPf_notional]
  · intro pt' hne
    simp [exitPf_notional, hne]

/-! ## updatePosition -/

theorem updatePosition_cases {Z : List Nat} {s : Portfolio} {pt : PosType} {p : Position}
    (hin : p.symbol ∈ (s.book pt).map Position.symbol) (h : WF Z (s.store pt p)) :
    (p.entries ≠ [] ∧ s.updatePosition p = s.store pt p) ∨
    (p.entries = [] ∧ s.updatePosition p =
      { s.setBook pt (erasePos (s.book pt) p.symbol) with
        symbols := s.symbols.erase p.symbol }) := by
  have hlook : lookupPos ((s.store pt p).book pt) p.symbol = some p := by
    rw [store_book]; exact lookupPos_replacePos_self hin
  have hpw := h.pos pt p (lookupPos_some hlook).1
  have hty := hpw.type
  unfold Portfolio.updatePosition
  by_cases hes : p.entries = []
  · right
    refine ⟨hes, ?_⟩
    rw [if_neg (by simpa using hes)]
    have hsym : p.symbol ∈ s.symbols := by
      have := (h.syms p.symbol).2 ⟨pt, by rw [store_book, replacePos_symbols]; exact hin⟩
      simpa using this
    have hnd : ((s.book pt).map Position.symbol).Nodup := by
      have := h.nodup pt
      rwa [store_book, replacePos_symbols] at this
    have hnone : ∀ pt', lookupPos ((s.setBook pt (erasePos (s.book pt) p.symbol)).book pt')
        p.symbol = none := by
      intro pt'
      by_cases hpt : pt = pt'
      · subst hpt
        rw [book_setBook]
        exact lookupPos_erasePos_self hnd _
      · rw [book_setBook_ne _ _ hpt, lookupPos_none]
        intro q hq
        have hq' : q ∈ (s.store pt p).book pt' := by rw [store_book_ne _ _ hpt]; exact hq
        exact fun he => h.disj pt pt' hpt p (lookupPos_some hlook).1 q hq' he.symm
    rw [hty]
    rw [if_pos]
    · simp
    · refine ⟨by simpa using hsym, ?_, ?_⟩
      · exact hnone .long
      · exact hnone .short
  · left
    refine ⟨hes, ?_⟩
    rw [if_pos hes, hty]
    rfl

theorem WF.update {Z : List Nat} {s : Portfolio} {pt : PosType} {p : Position}
    (hin : p.symbol ∈ (s.book pt).map Position.symbol) (h : WF Z (s.store pt p)) :
    WF Z (s.updatePosition p) := by
  have hlook : lookupPos ((s.store pt p).book pt) p.symbol = some p := by
    rw [store_book]; exact lookupPos_replacePos_self hin
  have hpw := h.pos pt p (lookupPos_some hlook).1
  rcases updatePosition_cases hin h with ⟨_, he⟩ | ⟨hes, he⟩
  · rw [he]; exact h
  · rw [he]
    refine h.erase (pt := pt) (p := p) (sym := p.symbol) hlook ?_ ?_ ?_ ?_ ?_ ?_
    · rw [hpw.notional, hes]; rfl
    · rw [store_book, erasePos_replacePos]; cases pt <;> rfl
    · intro pt' hne
      rw [store_book_ne _ _ hne]
      cases pt <;> cases pt' <;> first | rfl | exact absurd rfl hne
    · simp
    · intro pt'
      cases pt <;> cases pt' <;> rfl
    · cases pt <;> rfl

theorem NE.update {Z : List Nat} {s : Portfolio} {pt : PosType} {p : Position}
    (hne : NE s) (hin : p.symbol ∈ (s.book pt).map Position.symbol) (h : WF Z (s.store pt p)) :
    NE (s.updatePosition p) := by
  have hnd : ((s.book pt).map Position.symbol).Nodup := by
    have := h.nodup pt
    rwa [store_book, replacePos_symbols] at this
  rcases updatePosition_cases hin h with ⟨hes, he⟩ | ⟨hes, he⟩
  · rw [he]
    intro pt' q hq
    by_cases hpt : pt = pt'
    · subst hpt
      rw [store_book] at hq
      rcases mem_replacePos hnd hq with rfl | hq
      · exact hes
      · exact hne pt q hq.1
    · rw [store_book_ne _ _ hpt] at hq
      exact hne pt' q hq
  · rw [he]
    intro pt' q hq
    by_cases hpt : pt = pt'
    · subst hpt
      have hq' : q ∈ erasePos (s.book pt) p.symbol := by cases pt <;> exact hq
      exact hne pt q ((erasePos_sublist _ _).subset hq')
    · have hq' : q ∈ s.book pt' := by
        cases pt <;> cases pt' <;> first | exact hq | exact absurd rfl hpt
      exact hne pt' q hq'

/-! ## Closing shares -/

/-- `_cover` and `_sell_existing` for a positive share count. -/
def closeShares (cfg : Config) (pt : PosType) (s : Portfolio) (date : Date) (sym : Sym)
    (shares fill : ℚ) : OrderResult :=
  match lookupPos (s.book pt) sym with
  | none => ⟨0, shares, s⟩
  | some p =>
    let r := exitLoop cfg pt date fill p.entries shares s p
    ⟨shares - r.rem, r.rem, r.pf.updatePosition r.pos⟩

theorem cover_eq {cfg : Config} {s : Portfolio} {date : Date} {sym : Sym} {shares fill : ℚ}
    (h : 0 < shares) : cover cfg s date sym shares fill =
      closeShares cfg .short s date sym shares fill := by
  unfold cover closeShares
  simp only [Portfolio.book]
  cases lookupPos s.shorts sym with
  | none => rfl
  | some p => simp only [if_neg (not_le.2 h)]

theorem sellExisting_eq {cfg : Config} {s : Portfolio} {date : Date} {sym : Sym}
    {shares fill : ℚ} : sellExisting cfg s date sym shares fill =
      closeShares cfg .long s date sym shares fill := rfl

/-- What the loop keeps: books, symbol of the position, and the share balance. -/
theorem exitLoop_facts {cfg : Config} {pt : PosType} {date : Date} {fill shares : ℚ}
    {s : Portfolio} {p : Position} (hwf : WF [] s) (hp : p ∈ s.book pt) (h0 : 0 < shares) :
    let r := exitLoop cfg pt date fill p.entries shares s p
    (∀ pt', r.pf.book pt' = s.book pt') ∧ r.pos.symbol = p.symbol ∧
      WF [] (r.pf.store pt r.pos) ∧ 0 ≤ r.rem ∧ p.shares - r.pos.shares = shares - r.rem ∧
      (r.rem < shares ∨ (r.rem = shares ∧ r.pos.entries = p.entries)) := by
  intro r
  have hin : p.symbol ∈ (s.book pt).map Position.symbol := List.mem_map_of_mem hp
  have key := exitLoop_inv cfg pt date fill
    (fun rem s' p' => (∀ pt', s'.book pt' = s.book pt') ∧ p'.symbol = p.symbol ∧
      WF [] (s'.store pt p') ∧ 0 ≤ rem ∧ p.shares - p'.shares = shares - rem ∧
      (rem < shares ∨ (rem = shares ∧ p'.entries = p.entries)))
    ?_ ?_ p.entries shares s p rfl ?_
  · exact key
  · rintro rem s' p' e es hes hrem hge ⟨hb, hsym, hw, hr, hbal, hlt⟩
    have hin' : p'.symbol ∈ (s'.book pt).map Position.symbol := by rw [hb, hsym]; exact hin
    have hep : 0 < e.shares := by
      have hm : p' ∈ (s'.store pt p').book pt := by
        rw [store_book]; exact mem_replacePos_self hin'
      rcases ((hw.pos pt p' hm).entries e (by rw [hes]; exact List.mem_cons_self)).shares with h1 | h1
      · simp at h1
      · exact h1.2
    refine ⟨by simp [hb], by simp [hsym], hw.exitFull hin' hes, by linarith, ?_, ?_⟩
    · simp; linarith
    · left
      rcases hlt with h | h
      · linarith
      · linarith [h.1]
  · rintro rem s' p' e es hes hrem hlt ⟨hb, hsym, hw, hr, hbal, _⟩
    refine ⟨by simp [hb], by simp [hsym], ?_, le_rfl, ?_, Or.inl h0⟩
    · exact hw.exitPart (by rw [hb, hsym]; exact hin) hes hrem hlt
    · simp; linarith
  · refine ⟨fun _ => rfl, rfl, ?_, h0.le, by ring, Or.inr ⟨rfl, rfl⟩⟩
    have : s.store pt p = s := by
      unfold Portfolio.store
      rw [replacePos_self (lookupPos_of_mem (hwf.nodup pt) hp), setBook_book]
    rw [this]; exact hwf

/-- The result of closing shares. -/
structure CloseFacts (cfg : Config) (pt : PosType) (s : Portfolio) (sym : Sym) (shares : ℚ)
    (c : OrderResult) : Prop where
  wf : WF [] c.pf
  ne : NE c.pf
  filled : c.filled = shares - c.rem
  rem_nonneg : 0 ≤ c.rem
  filled_nonneg : 0 ≤ c.filled
  held : sharesOf (c.pf.book pt) sym = sharesOf (s.book pt) sym - c.filled
  other : ∀ sym', sym' ≠ sym → lookupPos (c.pf.book pt) sym' = lookupPos (s.book pt) sym'
  otherSide : ∀ pt', pt ≠ pt' → c.pf.book pt' = s.book pt'
  gone : 0 < c.rem → lookupPos (c.pf.book pt) sym = none
  zero : c.filled = 0 → c.pf = s
  length : (c.pf.book pt).length ≤ (s.book pt).length

theorem PosWF.shares_nonneg {pt : PosType} {Z : List Nat} {p : Position} (h : PosWF pt Z p) :
    0 ≤ p.shares := by
  rw [h.shares]
  apply List.sum_nonneg
  intro x hx
  obtain ⟨e, he, rfl⟩ := List.mem_map.1 hx
  rcases (h.entries e he).shares with h1 | h1
  · rw [h1.2]
  · exact h1.2.le

theorem PosWF.shares_pos {pt : PosType} {p : Position} (h : PosWF pt [] p)
    (hne : p.entries ≠ []) : 0 < p.shares := by
  rw [h.shares]
  cases hes : p.entries with
  | nil => exact absurd hes hne
  | cons e es =>
    rw [List.map_cons, List.sum_cons]
    have h1 : 0 < e.shares := by
      rcases (h.entries e (by rw [hes]; exact List.mem_cons_self)).shares with h1 | h1
      · simp at h1
      · exact h1.2
    have h2 : 0 ≤ (es.map Entry.shares).sum := by
      apply List.sum_nonneg
      intro x hx
      obtain ⟨f, hf, rfl⟩ := List.mem_map.1 hx
      rcases (h.entries f (by rw [hes]; exact List.mem_cons_of_mem _ hf)).shares with h1 | h1
      · rw [h1.2]
      · exact h1.2.le
    linarith

theorem closeShares_facts {cfg : Config} {pt : PosType} {s : Portfolio} {date : Date} {sym : Sym}
    {shares fill : ℚ} (hwf : WF [] s) (hne : NE s) (h0 : 0 < shares) :
    CloseFacts cfg pt s sym shares (closeShares cfg pt s date sym shares fill) := by
  unfold closeShares
  split
  · rename_i hnone
    exact ⟨hwf, hne, by simp, h0.le, le_rfl, by simp, fun _ _ => rfl, fun _ _ => rfl,
      fun _ => hnone, fun _ => rfl, le_rfl⟩
  · rename_i p hp
    obtain ⟨hpm, hps⟩ := lookupPos_some hp
    obtain ⟨hb, hsym, hw, hr, hbal, hlt⟩ :=
      exitLoop_facts (cfg := cfg) (date := date) (fill := fill) hwf hpm h0
    have hdone := exitLoop_done cfg pt date fill p.entries shares s p rfl
    have hpos : 0 < p.shares := (hwf.pos pt p hpm).shares_pos (hne pt p hpm)
    set r := exitLoop cfg pt date fill p.entries shares s p with hrdef
    have hin : r.pos.symbol ∈ (r.pf.book pt).map Position.symbol := by
      rw [hb, hsym]; exact List.mem_map_of_mem hpm
    have hlook : lookupPos ((r.pf.store pt r.pos).book pt) r.pos.symbol = some r.pos := by
      rw [store_book]; exact lookupPos_replacePos_self hin
    have hrw := hw.pos pt r.pos (lookupPos_some hlook).1
    have hs' : r.pos.symbol = sym := hsym.trans hps
    have hnepf : NE r.pf := by intro pt' q hq; rw [hb] at hq; exact hne pt' q hq
    have hheld : sharesOf (s.book pt) sym = p.shares := by simp [sharesOf, hp]
    have hnd : ((r.pf.book pt).map Position.symbol).Nodup := by rw [hb]; exact hwf.nodup pt
    have hrem : r.rem < shares := by
      rcases hlt with h | ⟨h1, h2⟩
      · exact h
      · rcases hdone with h | h
        · linarith
        · exact absurd (h2 ▸ h) (hne pt p hpm)
    have hcase := updatePosition_cases hin hw
    refine ⟨hw.update hin, hnepf.update hin hw, rfl, hr, by simp only; linarith, ?_, ?_, ?_, ?_, ?_, ?_⟩
    · simp only
      rw [hheld, ← hs']
      rcases hcase with ⟨_, he⟩ | ⟨hes, he⟩
      · rw [he]
        unfold sharesOf
        rw [hlook]
        simp only
        linarith
      · have hz : r.pos.shares = 0 := by rw [hrw.shares, hes]; rfl
        rw [he]
        have : lookupPos (Portfolio.book { r.pf.setBook pt (erasePos (r.pf.book pt) r.pos.symbol) with
            symbols := r.pf.symbols.erase r.pos.symbol } pt) r.pos.symbol = none := by
          have h2 := lookupPos_erasePos_self hnd r.pos.symbol
          cases pt <;> exact h2
        unfold sharesOf
        rw [this]
        simp only
        linarith
    · intro sym' hne'
      simp only
      rcases hcase with ⟨_, he⟩ | ⟨hes, he⟩
      · rw [he, store_book, lookupPos_replacePos_ne (by rw [hs']; exact hne'.symm), hb]
      · rw [he]
        have h2 := lookupPos_erasePos_ne (ps := r.pf.book pt) (s1 := r.pos.symbol) (sym := sym')
          (by rw [hs']; exact hne'.symm)
        rw [← hb pt, ← h2]
        cases pt <;> rfl
    · intro pt' hpt
      simp only
      rcases hcase with ⟨_, he⟩ | ⟨hes, he⟩
      · rw [he, store_book_ne _ _ hpt, hb]
      · rw [he, ← hb pt']
        cases pt <;> cases pt' <;> first | rfl | exact absurd rfl hpt
    · intro hpos'
      simp only at hpos' ⊢
      have hes : r.pos.entries = [] := by
        rcases hdone with h | h
        · linarith
        · exact h
      rcases hcase with ⟨h, _⟩ | ⟨_, he⟩
      · exact absurd hes h
      · rw [he, ← hs']
        have h2 := lookupPos_erasePos_self hnd r.pos.symbol
        cases pt <;> exact h2
    · intro h
      simp only at h
      linarith
    · simp only
      rcases hcase with ⟨_, he⟩ | ⟨_, he⟩
      · rw [he, store_book, replacePos_length, hb]
      · rw [he, ← hb pt]
        have h2 := (erasePos_sublist (r.pf.book pt) r.pos.symbol).length_le
        cases pt <;> exact h2

/-! ## Opening shares -/

@[simp] theorem postCollateral_book (cfg : Config) (s : Portfolio) (n : ℚ) (pt : PosType) :
    (s.postCollateral cfg n).book pt = s.book pt := by
  unfold Portfolio.postCollateral; split <;> cases pt <;> rfl

/-- Cash after posting collateral. -/
theorem postCollateral_eq (cfg : Config) (s : Portfolio) (n : ℚ) :
    s.postCollateral cfg n =
      { s with cash := s.cash - n / levOf cfg, cachedLongMv := none, cachedShortMv := none } := by
  unfold Portfolio.postCollateral levOf
  split <;> simp [Portfolio.invalidate]

/-- The entry created by an opening fill. -/
def newEntry (s : Portfolio) (pt : PosType) (date : Date) (sym : Sym) (shares fill : ℚ)
    (stops : List Stop) : Entry :=
  { id := s.entryId + 1, date := date, symbol := sym, shares := shares, price := fill,
    type := pt, stops := stops }

/-- The position object after an opening fill, from the position before (if any). -/
def openedPos (s : Portfolio) (pt : PosType) (date : Date) (sym : Sym) (shares fill : ℚ)
    (stops : List Stop) : Option Position → Position
  | none =>
    { symbol := sym, shares := shares, type := pt, unmarkedShares := 0 + shares,
      unmarkedNotional := 0 + shares * fill,
      entries := [newEntry s pt date sym shares fill stops],
      entryNotional := 0 + shares * fill }
  | some p =>
    { p with
      shares := p.shares + shares
      unmarkedShares := p.unmarkedShares + shares
      unmarkedNotional := p.unmarkedNotional + shares * fill
      entries := p.entries ++ [newEntry s pt date sym shares fill stops]
      entryNotional := p.entryNotional + shares * fill }

/-- The book of a side after an opening fill. -/
def openedBook (s : Portfolio) (pt : PosType) (date : Date) (sym : Sym) (shares fill : ℚ)
    (stops : List Stop) : List Position :=
  match lookupPos (s.book pt) sym with
  | none => s.book pt ++ [openedPos s pt date sym shares fill stops none]
  | some p => replacePos (s.book pt) (openedPos s pt date sym shares fill stops (some p))

/-- The portfolio after an opening fill, up to the stop registry. -/
def openedPf (cfg : Config) (s : Portfolio) (pt : PosType) (date : Date) (sym : Sym)
    (shares fill : ℚ) (entryStops : List Stop) (sd : List StopData)
    (ac : List (Sym × List Nat)) : Portfolio :=
  { s with
    cash := s.cash - shares * fill / levOf cfg
    cachedLongMv := none
    cachedShortMv := none
    entryId := s.entryId + 1
    stopData := sd
    active := ac
    longs := if pt = .long then openedBook s pt date sym shares fill entryStops else s.longs
    shorts := if pt = .short then openedBook s pt date sym shares fill entryStops else s.shorts
    symbols := if lookupPos (s.book pt) sym = none then addSym s.symbols sym else s.symbols
    longNotional := s.longNotional + (if pt = .long then shares * fill else 0)
    shortNotional := s.shortNotional + (if pt = .short then shares * fill else 0) }

/-- `openShares` as one record update. -/
theorem openShares_ok {cfg : Config} {pt : PosType} {s : Portfolio} {date : Date} {sym : Sym}
    {shares fill : ℚ} {stops : List Stop} {n : ℚ} {s' : Portfolio}
    (h : openShares cfg pt s date sym shares fill stops = .ok (n, s')) :
    n = shares ∧ ∃ es sd ac, s' = openedPf cfg s pt date sym shares fill es sd ac ∧
      addStops { s with cash := s.cash - shares * fill / levOf cfg, cachedLongMv := none,
                        cachedShortMv := none, entryId := s.entryId + 1 }
        (s.entryId + 1) fill stops =
      .ok (es, { s with cash := s.cash - shares * fill / levOf cfg, cachedLongMv := none,
                        cachedShortMv := none, entryId := s.entryId + 1,
                        stopData := sd, active := ac }) := by
  unfold openShares at h
  rw [postCollateral_eq] at h
  simp only at h
  split at h
  · cases h
  · rename_i es s3 hadd
    obtain ⟨sd, ac, hs3⟩ := addStops_frame hadd
    subst hs3
    simp only [Except.ok.injEq, Prod.mk.injEq] at h
    refine ⟨h.1.symm, es, sd, ac, ?_, hadd⟩
    rw [← h.2]
    cases pt
    · simp only [openedPf, openedBook, Portfolio.book]
      rcases Option.eq_none_or_eq_some (lookupPos s.longs sym) with hl | ⟨p, hl⟩ <;>
        simp [hl, Portfolio.setBook, Portfolio.invalidate, openedPos,
          Position.addUnmarked, newEntry]
    · simp only [openedPf, openedBook, Portfolio.book]
      rcases Option.eq_none_or_eq_some (lookupPos s.shorts sym) with hl | ⟨p, hl⟩ <;>
        simp [hl, Portfolio.setBook, Portfolio.invalidate, openedPos,
          Position.addUnmarked, newEntry]

section
variable (cfg : Config) (s : Portfolio) (pt : PosType) (date : Date) (sym : Sym) (shares fill : ℚ)
  (es : List Stop) (sd : List StopData) (ac : List (Sym × List Nat))
@[simp] theorem openedPf_book : (openedPf cfg s pt date sym shares fill es sd ac).book pt =
    openedBook s pt date sym shares fill es := by cases pt <;> simp [openedPf, Portfolio.book]
theorem openedPf_book_ne {pt' : PosType} (h : pt ≠ pt') :
    (openedPf cfg s pt date sym shares fill es sd ac).book pt' = s.book pt' := by
  cases pt <;> cases pt' <;> first | (simp [openedPf, Portfolio.book]; done) | exact absurd rfl h
theorem openedPf_notional (pt' : PosType) :
    (openedPf cfg s pt date sym shares fill es sd ac).notional pt' =
      s.notional pt' + (if pt = pt' then shares * fill else 0) := by
  cases pt <;> cases pt' <;> simp [openedPf, Portfolio.notional]
@[simp] theorem openedPf_entryId :
    (openedPf cfg s pt date sym shares fill es sd ac).entryId = s.entryId + 1 := rfl
@[simp] theorem openedPos_symbol (o : Option Position) (h : ∀ p, o = some p → p.symbol = sym) :
    (openedPos s pt date sym shares fill es o).symbol = sym := by
  cases o with
  | none => rfl
  | some p => exact h p rfl
end

theorem WF.opened {cfg : Config} {s : Portfolio} {pt : PosType} {date : Date} {sym : Sym}
    {shares fill : ℚ} {es : List Stop} {sd : List StopData} {ac : List (Sym × List Nat)}
    (h : WF [] s) (h0 : 0 < shares) (hf : 0 < fill)
    (hno : ∀ pt', pt ≠ pt' → lookupPos (s.book pt') sym = none) :
    WF [] (openedPf cfg s pt date sym shares fill es sd ac) := by
  have hnewE : EntryOK pt sym [] (newEntry s pt date sym shares fill es) :=
    ⟨rfl, rfl, hf, Or.inr ⟨by simp, h0⟩⟩
  cases hl : lookupPos (s.book pt) sym with
  | none =>
    have hnew : ∀ pt', sym ∉ (s.book pt').map Position.symbol := by
      intro pt'
      rw [← lookupPos_none']
      by_cases hpt : pt = pt'
      · exact hpt ▸ hl
      · exact hno pt' hpt
    refine h.append (pt := pt) (q := openedPos s pt date sym shares fill es none) hnew ?_ ?_ ?_ ?_ ?_
      ?_ ?_ ?_ ?_
    · refine ⟨rfl, ?_, ?_, ?_, ?_⟩
      · intro e he
        simp only [openedPos, List.mem_singleton] at he
        subst he; exact hnewE
      · simp [openedPos, newEntry]
      · simp [openedPos, newEntry]
      · simp [openedPos]
    · intro e he
      simp only [openedPos, List.mem_singleton] at he
      subst he; simp [newEntry]
    · intro e he
      simp only [openedPos, List.mem_singleton] at he
      subst he; simp [newEntry]
    · simp
    · rw [openedPf_book, openedBook, hl]
    · intro pt' hne
      exact openedPf_book_ne _ _ _ _ _ _ _ _ _ _ hne
    · simp [openedPf, hl, openedPos]
    · rw [openedPf_notional]; simp [openedPos]
    · intro pt' hne
      rw [openedPf_notional]; simp [hne]
  | some p =>
    obtain ⟨hpm, hps⟩ := lookupPos_some hl
    have hpw := h.pos pt p hpm
    have hqs : (openedPos s pt date sym shares fill es (some p)).symbol = sym := hps
    refine h.replace (pt := pt) (p := p) (q := openedPos s pt date sym shares fill es (some p))
      (by rw [hqs]; exact hl) ?_ (fun pt' r hr _ => h.pos pt' r hr) ?_ ?_ ?_ ?_ ?_ ?_ ?_ ?_
    · refine ⟨hpw.type, ?_, ?_, ?_, ?_⟩
      · intro e he
        simp only [openedPos, List.mem_append, List.mem_singleton] at he
        rcases he with he | he
        · exact hpw.entries e he
        · subst he
          rw [hqs]; exact hnewE
      · simp [openedPos, newEntry, hpw.shares]
      · simp [openedPos, newEntry, hpw.notional]
      · simp only [openedPos, List.map_append, List.map_cons, List.map_nil]
        rw [List.pairwise_append]
        refine ⟨hpw.ids, by simp, ?_⟩
        intro a ha b hb
        obtain ⟨e, he, rfl⟩ := List.mem_map.1 ha
        simp only [List.mem_singleton] at hb
        subst hb
        have := h.idle pt p hpm e he
        simp [newEntry]; omega
    · intro e he
      simp only [openedPos, List.mem_append, List.mem_singleton] at he
      rcases he with he | he
      · exact Or.inl ⟨e, he, rfl⟩
      · subst he; right; simp [newEntry]
    · intro e he
      simp only [openedPos, List.mem_append, List.mem_singleton] at he
      rcases he with he | he
      · have := h.idle pt p hpm e he
        simp; omega
      · subst he; simp [newEntry]
    · simp
    · rw [openedPf_book, openedBook, hl]
    · intro pt' hne
      exact openedPf_book_ne _ _ _ _ _ _ _ _ _ _ hne
    · simp [openedPf, hl]
    · rw [openedPf_notional]; simp [openedPos]; ring
    · intro pt' hne
      rw [openedPf_notional]; simp [hne]

theorem NE.opened {cfg : Config} {s : Portfolio} {pt : PosType} {date : Date} {sym : Sym}
    {shares fill : ℚ} {es : List Stop} {sd : List StopData} {ac : List (Sym × List Nat)}
    (h : WF [] s) (hne : NE s) :
    NE (openedPf cfg s pt date sym shares fill es sd ac) := by
  intro pt' q hq
  by_cases hpt : pt = pt'
  · subst hpt
    rw [openedPf_book] at hq
    unfold openedBook at hq
    split at hq
    · rw [List.mem_append, List.mem_singleton] at hq
      rcases hq with hq | hq
      · exact hne pt q hq
      · subst hq; simp [openedPos]
    · rcases mem_replacePos (h.nodup pt) hq with hq | hq
      · subst hq; simp [openedPos]
      · exact hne pt q hq.1
  · rw [openedPf_book_ne _ _ _ _ _ _ _ _ _ _ hpt] at hq
    exact hne pt' q hq

theorem sharesOf_opened {cfg : Config} {s : Portfolio} {pt : PosType} {date : Date} {sym : Sym}
    {shares fill : ℚ} {es : List Stop} {sd : List StopData} {ac : List (Sym × List Nat)} :
    sharesOf ((openedPf cfg s pt date sym shares fill es sd ac).book pt) sym =
      sharesOf (s.book pt) sym + shares := by
  rw [openedPf_book]
  unfold openedBook
  cases hl : lookupPos (s.book pt) sym with
  | none =>
    have happ : ∀ (ps : List Position) (q : Position), lookupPos ps q.symbol = none →
        lookupPos (ps ++ [q]) q.symbol = some q := by
      intro ps q
      induction ps with
      | nil => simp [lookupPos]
      | cons a ps ih =>
        intro h1
        by_cases ha : a.symbol = q.symbol
        · simp [lookupPos, ha] at h1
        · simp [lookupPos, ha] at h1 ⊢
          exact ih h1
    have h3 : lookupPos (s.book pt ++ [openedPos s pt date sym shares fill es none]) sym =
      some (openedPos s pt date sym shares fill es none) := happ _ _ hl
    simp only [sharesOf, hl, h3]
    simp [openedPos]
  | some p =>
    obtain ⟨hpm, hps⟩ := lookupPos_some hl
    have h3 : lookupPos (replacePos (s.book pt) (openedPos s pt date sym shares fill es (some p)))
        sym = some (openedPos s pt date sym shares fill es (some p)) := by
      have := lookupPos_replacePos_self (ps := s.book pt)
        (q := openedPos s pt date sym shares fill es (some p)) (by
          rw [show (openedPos s pt date sym shares fill es (some p)).symbol = p.symbol from rfl]
          exact List.mem_map_of_mem hpm)
      rwa [show (openedPos s pt date sym shares fill es (some p)).symbol = sym from hps] at this
    simp only [sharesOf, hl, h3]
    simp [openedPos]

theorem lookupPos_opened_ne {cfg : Config} {s : Portfolio} {pt : PosType} {date : Date} {sym : Sym}
    {shares fill : ℚ} {es : List Stop} {sd : List StopData} {ac : List (Sym × List Nat)}
    {sym' : Sym} (h : sym' ≠ sym) :
    lookupPos ((openedPf cfg s pt date sym shares fill es sd ac).book pt) sym' =
      lookupPos (s.book pt) sym' := by
  rw [openedPf_book]
  unfold openedBook
  cases hl : lookupPos (s.book pt) sym with
  | none =>
    simp only
    have happ : ∀ (ps : List Position) (q : Position), q.symbol ≠ sym' →
        lookupPos (ps ++ [q]) sym' = lookupPos ps sym' := by
      intro ps q hq
      induction ps with
      | nil => simp [lookupPos, hq]
      | cons a ps ih => simp [lookupPos, ih]
    exact happ _ _ (by simpa [openedPos] using h.symm)
  | some p =>
    obtain ⟨hpm, hps⟩ := lookupPos_some hl
    apply lookupPos_replacePos_ne
    simp only [openedPos]
    rw [hps]; exact h.symm

/-! ## `_long` and `_short` -/

/-- The side an order opens: a buy opens longs, a sell opens shorts. -/
def Side.opens : Side → PosType
  | .buy => .long
  | .sell => .short

/-- The side an order closes: a buy closes shorts, a sell closes longs. -/
def Side.closes : Side → PosType
  | .buy => .short
  | .sell => .long

theorem Side.closes_ne_opens (sd : Side) : sd.closes ≠ sd.opens := by cases sd <;> decide

/-- `_long` for a buy, `_short` for a sell. -/
def openSide (cfg : Config) (sd : Side) (s : Portfolio) (date : Date) (sym : Sym)
    (shares fill : ℚ) (stops : List Stop) : Except Err (ℚ × Portfolio) :=
  match sd with
  | .buy => openLong cfg s date sym shares fill stops
  | .sell => openShort cfg s date sym shares fill stops

/-- The configured cap of the side an order opens. -/
def Config.cap (cfg : Config) : PosType → Option Nat
  | .long => cfg.maxLong
  | .short => cfg.maxShort

/-- Whether the position mode lets an order open its side. -/
def Config.allows (cfg : Config) : PosType → Prop
  | .long => cfg.positionMode ≠ .shortOnly
  | .short => cfg.positionMode ≠ .longOnly

/-- `_long`/`_short` either change nothing but the memo, or open `n` shares. -/
theorem openSide_cases {cfg : Config} {sd : Side} {s : Portfolio} {date : Date} {sym : Sym}
    {shares fill : ℚ} {stops : List Stop} {n : ℚ} {s' : Portfolio}
    (h : openSide cfg sd s date sym shares fill stops = .ok (n, s')) :
    ∃ a b, Memo s a b ∧ ((n = 0 ∧ s' = { s with cachedLongMv := a, cachedShortMv := b }) ∨
      (0 < n ∧ n ≤ shares ∧ n ≤ (s.clampShares cfg sym fill shares sd).1 ∧
        capReached (cfg.cap sd.opens) (s.book sd.opens) sym = false ∧ cfg.allows sd.opens ∧
        openShares cfg sd.opens { s with cachedLongMv := a, cachedShortMv := b } date sym n fill
          stops = .ok (n, s'))) := by
  have hcl : ∀ c : ℚ, (if c < shares then c else shares) ≤ shares ∧
      (if c < shares then c else shares) ≤ c := by
    intro c
    split
    · rename_i h; exact ⟨h.le, le_rfl⟩
    · rename_i h; exact ⟨le_rfl, not_lt.1 h⟩
  cases sd
  · unfold openSide openLong at h
    simp only at h
    split at h
    · cases h; exact ⟨s.cachedLongMv, s.cachedShortMv, Memo.refl s, Or.inl ⟨rfl, rfl⟩⟩
    · rename_i hmode
      obtain ⟨a, b, hm, hf⟩ := clampShares_frame cfg s sym fill shares .buy
      rw [hf] at h
      refine ⟨a, b, hm, ?_⟩
      obtain ⟨hc1, hc2⟩ := hcl (s.clampShares cfg sym fill shares .buy).1
      generalize (if (s.clampShares cfg sym fill shares .buy).1 < shares then
        (s.clampShares cfg sym fill shares .buy).1 else shares) = m at h hc1 hc2
      split at h
      · cases h; exact Or.inl ⟨rfl, rfl⟩
      · rename_i hpos
        split at h
        · cases h; exact Or.inl ⟨rfl, rfl⟩
        · rename_i hcap
          obtain ⟨hn, _⟩ := openShares_ok h
          subst hn
          exact Or.inr ⟨not_le.1 hpos, hc1, hc2, (by
            simpa [Config.cap, Side.opens, Portfolio.book] using hcap), hmode, h⟩
  · unfold openSide openShort at h
    simp only at h
    split at h
    · cases h; exact ⟨s.cachedLongMv, s.cachedShortMv, Memo.refl s, Or.inl ⟨rfl, rfl⟩⟩
    · split at h
      · cases h; exact ⟨s.cachedLongMv, s.cachedShortMv, Memo.refl s, Or.inl ⟨rfl, rfl⟩⟩
      · rename_i hcap
        split at h
        · cases h; exact ⟨s.cachedLongMv, s.cachedShortMv, Memo.refl s, Or.inl ⟨rfl, rfl⟩⟩
        · rename_i hmode
          obtain ⟨a, b, hm, hf⟩ := clampShares_frame cfg s sym fill shares .sell
          rw [hf] at h
          refine ⟨a, b, hm, ?_⟩
          obtain ⟨hc1, hc2⟩ := hcl (s.clampShares cfg sym fill shares .sell).1
          generalize (if (s.clampShares cfg sym fill shares .sell).1 < shares then
            (s.clampShares cfg sym fill shares .sell).1 else shares) = m at h hc1 hc2
          split at h
          · cases h; exact Or.inl ⟨rfl, rfl⟩
          · rename_i hpos
            obtain ⟨hn, _⟩ := openShares_ok h
            subst hn
            exact Or.inr ⟨not_le.1 hpos, hc1, hc2, (by
              simpa [Config.cap, Side.opens, Portfolio.book] using hcap), hmode, h⟩

/-! ## `buy` and `sell` -/

/-- `buy` or `sell`. -/
def placeOrder (cfg : Config) (sd : Side) (s : Portfolio) (r : OrderReq) :
    Except Err (Option Order × Portfolio) :=
  match sd with
  | .buy => buy cfg s r
  | .sell => sell cfg s r

/-- Whether a limit price blocks a fill. -/
def limitBlocks : Side → Option ℚ → ℚ → Bool
  | .buy, l, f => buyLimitBlocks l f
  | .sell, l, f => sellLimitBlocks l f

/-- The recorded intent of an order that opened `n` shares. -/
def intentOf (sd : Side) (n : ℚ) : Intent :=
  match sd with
  | .buy => if n ≠ 0 then .buyToOpen else .buyToClose
  | .sell => if n ≠ 0 then .sellToOpen else .sellToClose

theorem verifyInput_ok {shares fill : ℚ} {limit : Option ℚ}
    (h : verifyInput shares fill limit = .ok ()) :
    0 ≤ shares ∧ 0 < fill ∧ ∀ l, limit = some l → 0 < l := by
  unfold verifyInput at h
  split at h
  · cases h
  · rename_i h1
    split at h
    · cases h
    · rename_i h2
      refine ⟨not_lt.1 h1, not_le.1 h2, ?_⟩
      intro l hl
      subst hl
      simp only at h
      split at h
      · cases h
      · rename_i h3; exact not_le.1 h3

/-- An order call either did nothing, or closed and opened shares and was
recorded. -/
theorem placeOrder_cases {cfg : Config} {sd : Side} {s : Portfolio} {r : OrderReq}
    {o : Option Order} {s' : Portfolio} (h : placeOrder cfg sd s r = .ok (o, s')) :
    0 ≤ r.shares ∧ 0 < r.fill ∧ (∀ l, r.limit = some l → 0 < l) ∧
    ((o = none ∧ s' = s ∧ (limitBlocks sd r.limit r.fill = true ∨ r.shares = 0)) ∨
     (limitBlocks sd r.limit r.fill = false ∧ 0 < r.shares ∧
      ∃ n s2, openSide cfg sd (closeShares cfg sd.closes s r.date r.symbol r.shares r.fill).pf
          r.date r.symbol (closeShares cfg sd.closes s r.date r.symbol r.shares r.fill).rem
          r.fill r.stops = .ok (n, s2) ∧
        ((o = none ∧ s' = s2 ∧
            (closeShares cfg sd.closes s r.date r.symbol r.shares r.fill).filled = 0 ∧ n = 0) ∨
         (¬((closeShares cfg sd.closes s r.date r.symbol r.shares r.fill).filled = 0 ∧ n = 0) ∧
          (o, s') =
            (let x := s2.addOrder cfg r.date r.symbol sd r.created r.orderType (intentOf sd n)
              ((closeShares cfg sd.closes s r.date r.symbol r.shares r.fill).filled + n)
              r.limit r.marketPrice r.fill
             (some x.1, x.2)))))) := by
  cases sd
  · simp only [placeOrder, buy] at h
    split at h
    · cases h
    · rename_i hv
      obtain ⟨h1, h2, h3⟩ := verifyInput_ok hv
      refine ⟨h1, h2, h3, ?_⟩
      split at h
      · rename_i hl; cases h; exact Or.inl ⟨rfl, rfl, Or.inl hl⟩
      · rename_i hl
        split at h
        · rename_i hz; cases h; exact Or.inl ⟨rfl, rfl, Or.inr hz⟩
        · rename_i hz
          have hpos : 0 < r.shares := lt_of_le_of_ne h1 (Ne.symm hz)
          right
          refine ⟨by simpa [limitBlocks] using hl, hpos, ?_⟩
          rw [cover_eq hpos] at h
          split at h
          · cases h
          · rename_i n s2 ho
            refine ⟨n, s2, ho, ?_⟩
            split at h
            · rename_i hz2; cases h; exact Or.inl ⟨rfl, rfl, hz2.1, hz2.2⟩
            · rename_i hz2
              right
              refine ⟨hz2, ?_⟩
              simp only [Except.ok.injEq] at h
              exact h.symm
  · simp only [placeOrder, sell] at h
    split at h
    · cases h
    · rename_i hv
      obtain ⟨h1, h2, h3⟩ := verifyInput_ok hv
      refine ⟨h1, h2, h3, ?_⟩
      split at h
      · rename_i hl; cases h; exact Or.inl ⟨rfl, rfl, Or.inl hl⟩
      · rename_i hl
        split at h
        · rename_i hz; cases h; exact Or.inl ⟨rfl, rfl, Or.inr hz⟩
        · rename_i hz
          have hpos : 0 < r.shares := lt_of_le_of_ne h1 (Ne.symm hz)
          right
          refine ⟨by simpa [limitBlocks] using hl, hpos, ?_⟩
          rw [sellExisting_eq] at h
          split at h
          · cases h
          · rename_i n s2 ho
            refine ⟨n, s2, ho, ?_⟩
            split at h
            · rename_i hz2; cases h; exact Or.inl ⟨rfl, rfl, hz2.1, hz2.2⟩
            · rename_i hz2
              right
              refine ⟨hz2, ?_⟩
              simp only [Except.ok.injEq] at h
              exact h.symm

end PyBroker
