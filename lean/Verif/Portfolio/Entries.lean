import Verif.Portfolio.Steps

/-!
# Helper lemmas: properties of all open entries, and histories of calls
-/

namespace PyBroker

/-- A property of every open entry, its position's side and symbol. -/
def AllEntries (R : PosType → Sym → Entry → Prop) (s : Portfolio) : Prop :=
  ∀ pt, ∀ p ∈ s.book pt, ∀ e ∈ p.entries, R pt p.symbol e

/-- Closure conditions under which `AllEntries R` is an invariant. -/
structure PrimRules (Q : Guard) (R : PosType → Sym → Entry → Prop) : Prop where
  take : ∀ pt sym e sh, 0 < sh → R pt sym e → R pt sym { e with shares := e.shares - sh }
  new : ∀ (s : Portfolio) (pt : PosType) (date : Date) (sym : Sym) (n fill : ℚ) (es : List Stop),
    0 < n → 0 < fill → (∀ st ∈ es, st.posType = pt ∧ st.symbol = sym) →
    (∃ stops, Q.stops stops ∧ es = stops.insertionSort (fun a b => a.id ≤ b.id)) →
    R pt sym (newEntry s pt date sym n fill es)
  incr : Q.bar → ∀ pt sym e (b : Bool), R pt sym e →
    R pt sym { e with bars := e.bars + 1, symBars := if b then e.symBars + 1 else e.symBars }
  stops : ∀ pt sym (e : Entry) l, l.Sublist e.stops → R pt sym e → R pt sym { e with stops := l }

/-- The same for histories that also capture bars. -/
structure EntryRules (Q : Guard) (R : PosType → Sym → Entry → Prop) : Prop
    extends PrimRules Q R where
  excursion : ∀ pt sym e l h, R pt sym e → R pt sym (e.excursion pt l h)

theorem mem_modEntry' {id : Nat} {g : Entry → Entry} {es : List Entry} {x : Entry}
    (h : x ∈ modEntry id g es) : x ∈ es ∨ ∃ e ∈ es, x = g e := by
  induction es with
  | nil => simp [modEntry] at h
  | cons a es ih =>
    by_cases ha : a.id = id
    · simp only [modEntry, if_pos ha, List.mem_cons] at h
      rcases h with h | h
      · exact Or.inr ⟨a, List.mem_cons_self, h⟩
      · exact Or.inl (List.mem_cons_of_mem _ h)
    · simp only [modEntry, if_neg ha, List.mem_cons] at h
      rcases h with h | h
      · exact Or.inl (h ▸ List.mem_cons_self)
      · rcases ih h with h1 | ⟨e, he, h1⟩
        · exact Or.inl (List.mem_cons_of_mem _ h1)
        · exact Or.inr ⟨e, List.mem_cons_of_mem _ he, h1⟩

theorem AllEntries.frame {R : PosType → Sym → Entry → Prop} {s t : Portfolio}
    (h : AllEntries R s) (hb : ∀ pt, t.book pt = s.book pt) : AllEntries R t := by
  intro pt p hp; rw [hb] at hp; exact h pt p hp

/-- Replacing a position by one whose entries satisfy the property. -/
theorem AllEntries.replace {R : PosType → Sym → Entry → Prop} {s t : Portfolio} {pt : PosType}
    {q : Position} (h : AllEntries R s) (hn : ((s.book pt).map Position.symbol).Nodup)
    (hq : ∀ e ∈ q.entries, R pt q.symbol e)
    (hb : t.book pt = replacePos (s.book pt) q)
    (hb' : ∀ pt', pt ≠ pt' → t.book pt' = s.book pt') : AllEntries R t := by
  intro pt' p hp
  by_cases hpt : pt = pt'
  · subst hpt
    rw [hb] at hp
    rcases mem_replacePos hn hp with rfl | ⟨hp, _⟩
    · exact hq
    · exact h pt p hp
  · rw [hb' pt' hpt] at hp; exact h pt' p hp

theorem addStops_stops {s : Portfolio} {eid : Nat} {price : ℚ} {stops es : List Stop}
    {s' : Portfolio} (h : addStops s eid price stops = .ok (es, s')) :
    es = stops.insertionSort (fun a b => a.id ≤ b.id) := by
  unfold addStops at h
  generalize stops.insertionSort (fun a b => a.id ≤ b.id) = l at h
  have key : ∀ (l : List Stop) (acc acc' : List Stop × Portfolio),
      foldE (addStopStep eid price) acc l = .ok acc' → acc'.1 = acc.1 ++ l := by
    intro l
    induction l with
    | nil => intro acc acc' h; cases h; simp
    | cons st l ih =>
      intro acc acc' h
      unfold foldE at h
      split at h
      · cases h
      · rename_i acc1 h1
        rw [ih acc1 acc' h]
        unfold addStopStep at h1
        split at h1
        · cases h1
        · split at h1
          · cases h1; simp
          · split at h1
            · cases h1
            · cases h1; simp
  simpa using key l ([], s) (es, s') h

theorem addStops_subset {s : Portfolio} {eid : Nat} {price : ℚ} {stops es : List Stop}
    {s' : Portfolio} (h : addStops s eid price stops = .ok (es, s')) : ∀ st ∈ es, st ∈ stops := by
  intro st hst
  rw [addStops_stops h] at hst
  exact (List.perm_insertionSort _ _).subset hst

theorem markLong_entries (p : Position) (c : ℚ) (l h : Option ℚ) :
    (p.markLong c l h).entries = p.entries.map (Entry.excursion p.type l h) := rfl

theorem markShort_entries (p : Position) (c : ℚ) (l h : Option ℚ) :
    (p.markShort c l h).entries = p.entries.map (Entry.excursion p.type l h) := rfl

/-- The part of well-formedness that marking positions needs and keeps. -/
def TypedBooks (s : Portfolio) : Prop :=
  ∀ pt, (∀ p ∈ s.book pt, p.type = pt) ∧ ((s.book pt).map Position.symbol).Nodup

theorem WF.typed {Z : List Nat} {s : Portfolio} (h : WF Z s) : TypedBooks s :=
  fun pt => ⟨fun p hp => (h.pos pt p hp).type, h.nodup pt⟩

theorem TypedBooks.same {s t : Portfolio} (h : TypedBooks s) (hc : SameCore s t) :
    TypedBooks t := by
  intro pt
  constructor
  · intro q hq
    obtain ⟨p, hp, hpq⟩ := mem_of_coreP (hc.books pt) hq
    have : p.type = q.type := by
      have := congrArg (fun x => x.2.2.1) hpq
      exact this
    rw [← this]
    exact (h pt).1 p hp
  · have := map_of_coreP (hc.books pt) (fun x => x.1)
    have h2 : (s.book pt).map Position.symbol = (t.book pt).map Position.symbol := this
    rw [← h2]
    exact (h pt).2

theorem AllEntries.captureLong {Q : Guard} {R : PosType → Sym → Entry → Prop} (hr : EntryRules Q R)
    {acc : CaptureAcc} (q : BarQuote) (sym : Sym) (ht : TypedBooks acc.pf)
    (h : AllEntries R acc.pf) : AllEntries R (captureLong q acc sym).pf := by
  unfold PyBroker.captureLong
  split
  · exact h
  · rename_i p hp
    obtain ⟨hpm, hps⟩ := lookupPos_some hp
    split
    · rename_i c hc
      refine h.replace (pt := .long) (q := p.markLong c q.low q.high) (ht .long).2 ?_ rfl ?_
      · intro e he
        rw [markLong_entries, (ht .long).1 p hpm] at he
        obtain ⟨e0, he0, rfl⟩ := List.mem_map.1 he
        exact hr.excursion _ _ _ _ _ (h .long p hpm e0 he0)
      · intro pt' hne; cases pt'
        · exact absurd rfl hne
        · rfl
    · exact h

theorem AllEntries.captureShort {Q : Guard} {R : PosType → Sym → Entry → Prop} (hr : EntryRules Q R)
    {acc : CaptureAcc} (q : BarQuote) (sym : Sym) (ht : TypedBooks acc.pf)
    (h : AllEntries R acc.pf) : AllEntries R (captureShort q acc sym).pf := by
  unfold PyBroker.captureShort
  split
  · exact h
  · rename_i p hp
    obtain ⟨hpm, hps⟩ := lookupPos_some hp
    split
    · rename_i c hc
      refine h.replace (pt := .short) (q := p.markShort c q.low q.high) (ht .short).2 ?_ rfl ?_
      · intro e he
        rw [markShort_entries, (ht .short).1 p hpm] at he
        obtain ⟨e0, he0, rfl⟩ := List.mem_map.1 he
        exact hr.excursion _ _ _ _ _ (h .short p hpm e0 he0)
      · intro pt' hne; cases pt'
        · rfl
        · exact absurd rfl hne
    · exact h

theorem AllEntries.captureFold {Q : Guard} {R : PosType → Sym → Entry → Prop} (hr : EntryRules Q R)
    (quote : Sym → BarQuote) (syms : List Sym) (acc : CaptureAcc) (ht : TypedBooks acc.pf)
    (h : AllEntries R acc.pf) : AllEntries R (syms.foldl (captureSym quote) acc).pf := by
  induction syms generalizing acc with
  | nil => exact h
  | cons sym syms ih =>
    have h1 := captureLong_same (quote sym) acc sym
    have h2 := captureShort_same (quote sym) (PyBroker.captureLong (quote sym) acc sym) sym
    exact ih _ (ht.same (h1.trans h2))
      (AllEntries.captureShort hr _ _ (ht.same h1) (AllEntries.captureLong hr _ _ ht h))

theorem AllEntries.captureBar {Q : Guard} {R : PosType → Sym → Entry → Prop} (hr : EntryRules Q R)
    {cfg : Config} {s : Portfolio} (date : Date) (quote : Sym → BarQuote) (ht : TypedBooks s)
    (h : AllEntries R s) : AllEntries R (captureBar cfg s date quote) := by
  obtain ⟨c, a, hf⟩ := applyInterest_frame cfg s
  have hb : ∀ pt, (s.applyInterest cfg).book pt = s.book pt := by
    intro pt; rw [hf]; cases pt <;> rfl
  have ht' : TypedBooks (s.applyInterest cfg) := by
    intro pt; rw [hb]; exact ht pt
  have k := AllEntries.captureFold hr quote
      ((s.applyInterest cfg).symbols.insertionSort (fun a b => a ≤ b))
      { pf := s.applyInterest cfg, equity := (s.applyInterest cfg).netCash cfg,
        marketValue := (s.applyInterest cfg).netCash cfg, margin := 0, longValue := 0 }
      ht' (h.frame hb)
  exact k.frame (fun pt => by cases pt <;> rfl)

theorem AllEntries.modBook {R : PosType → Sym → Entry → Prop} {s t : Portfolio}
    (h : AllEntries R s) (id : Nat) (g : Entry → Entry)
    (hg : ∀ pt sym e, R pt sym e → R pt sym (g e))
    (hb : ∀ pt, t.book pt = modEntryBook id g (s.book pt)) : AllEntries R t := by
  intro pt p hp e he
  rw [hb] at hp
  obtain ⟨p0, hp0, rfl⟩ := List.mem_map.1 hp
  rcases mem_modEntry' he with he | ⟨e0, he0, rfl⟩
  · exact h pt p0 hp0 e he
  · exact hg _ _ _ (h pt p0 hp0 e0 he0)

theorem mem_dropStopEntries {id : Nat} {es : List Entry} {x : Entry}
    (h : x ∈ (dropStopEntries id es).1) :
    ∃ e ∈ es, ∃ l, l.Sublist e.stops ∧ x = { e with stops := l } := by
  induction es with
  | nil => simp [dropStopEntries] at h
  | cons a es ih =>
    unfold dropStopEntries at h
    split at h
    · rcases List.mem_cons.1 h with rfl | h
      · exact ⟨a, List.mem_cons_self, _, List.eraseP_sublist, rfl⟩
      · exact ⟨x, List.mem_cons_of_mem _ h, x.stops, List.Sublist.refl _, rfl⟩
    · rcases List.mem_cons.1 h with rfl | h
      · exact ⟨x, List.mem_cons_self, x.stops, List.Sublist.refl _, rfl⟩
      · obtain ⟨e, he, hl⟩ := ih h
        exact ⟨e, List.mem_cons_of_mem _ he, hl⟩

theorem mem_dropStopBook {id : Nat} {ps : List Position} {q : Position}
    (h : q ∈ (dropStopBook id ps).1) :
    ∃ p ∈ ps, q = { p with entries := q.entries } ∧ ∀ x ∈ q.entries,
      ∃ e ∈ p.entries, ∃ l, l.Sublist e.stops ∧ x = { e with stops := l } := by
  have self : ∀ p : Position, ∀ x ∈ p.entries,
      ∃ e ∈ p.entries, ∃ l, l.Sublist e.stops ∧ x = { e with stops := l } :=
    fun p x hx => ⟨x, hx, x.stops, List.Sublist.refl _, rfl⟩
  induction ps with
  | nil => simp [dropStopBook] at h
  | cons a ps ih =>
    unfold dropStopBook at h
    simp only at h
    split at h
    · rcases List.mem_cons.1 h with rfl | h
      · exact ⟨a, List.mem_cons_self, rfl, fun x hx => mem_dropStopEntries hx⟩
      · exact ⟨q, List.mem_cons_of_mem _ h, rfl, self q⟩
    · rcases List.mem_cons.1 h with rfl | h
      · exact ⟨q, List.mem_cons_self, rfl, self q⟩
      · obtain ⟨p, hp, hl⟩ := ih h
        exact ⟨p, List.mem_cons_of_mem _ hp, hl⟩

theorem AllEntries.dropStop {Q : Guard} {R : PosType → Sym → Entry → Prop} (hr : PrimRules Q R) {id : Nat}
    {pt : PosType} {ps : List Position} (h : ∀ p ∈ ps, ∀ e ∈ p.entries, R pt p.symbol e) :
    ∀ p ∈ (dropStopBook id ps).1, ∀ e ∈ p.entries, R pt p.symbol e := by
  intro q hq e he
  obtain ⟨p, hp, hqp, hl⟩ := mem_dropStopBook hq
  obtain ⟨e0, he0, l, hsub, rfl⟩ := hl e he
  have : q.symbol = p.symbol := by rw [hqp]
  rw [this]
  exact hr.stops _ _ _ _ hsub (h p hp e0 he0)

theorem AllEntries.removeStop {Q : Guard} {R : PosType → Sym → Entry → Prop} (hr : PrimRules Q R)
    {s : Portfolio} (id : Nat) (h : AllEntries R s) : AllEntries R (removeStop s id).2 := by
  unfold PyBroker.removeStop
  split
  · rename_i d hd
    refine h.modBook d.entryId (fun e => { e with stops := e.stops.erase d.stop }) ?_ ?_
    · intro pt sym e he; exact hr.stops _ _ _ _ List.erase_sublist he
    · intro pt; cases pt <;> rfl
  · simp only
    split
    · intro pt; cases pt
      · exact AllEntries.dropStop hr (h .long)
      · exact h .short
    · split
      · intro pt; cases pt
        · exact h .long
        · exact AllEntries.dropStop hr (h .short)
      · exact h

theorem AllEntries.prim {R : PosType → Sym → Entry → Prop} {Q : Guard} (hr : PrimRules Q R)
    {cfg : Config} {s t : Portfolio} (hp : Prim cfg Q s t) (h : AllEntries R s) :
    AllEntries R t := by
  cases hp with
  | @exit Z _ pt p e sh fill date st hw hp he hz h0 hle hQ =>
    obtain ⟨hpm, hps⟩ := lookupPos_some hp
    refine h.replace (pt := pt) (q := p.takeShares e sh) (hw.nodup pt) ?_ ?_ ?_
    · intro x hx
      rw [takeShares_entries] at hx
      rw [takeShares_symbol]
      rcases mem_modEntry' hx with hx | ⟨e0, he0, rfl⟩
      · exact h pt p hpm x hx
      · exact hr.take _ _ _ _ h0 (h pt p hpm e0 he0)
    · rw [store_book, exitPf_book]
    · intro pt' hne; rw [store_book_ne _ _ hne, exitPf_book]
  | @drop Z _ pt p e hw hp he hz =>
    obtain ⟨hpm, hps⟩ := lookupPos_some hp
    refine h.replace (pt := pt) (q := { p with entries := eraseEntry p.entries e.id })
      (hw.nodup pt) ?_ ?_ ?_
    · intro x hx
      exact h pt p hpm x ((eraseEntry_sublist _ _).subset hx)
    · rw [store_book, removeStopData_book]
    · intro pt' hne; rw [store_book_ne _ _ hne, removeStopData_book]
  | @close Z _ pt p hw hp hnil =>
    intro pt' q hq
    have hq2 : q ∈ (s.setBook pt (erasePos (s.book pt) p.symbol)).book pt' := by
      cases pt' <;> exact hq
    by_cases hpt : pt = pt'
    · subst hpt
      rw [book_setBook] at hq2
      exact h pt q ((erasePos_sublist _ _).subset hq2)
    · rw [book_setBook_ne _ _ hpt] at hq2
      exact h pt' q hq2
  | @opened _ sd date sym n m fill stops es sda ac hw h0 hf hno hclamp hnm hcap hmode hfit hS hadd =>
    have hnew : R sd.opens sym (newEntry s sd.opens date sym n fill es) :=
      hr.new _ _ _ _ _ _ _ h0 hf (fun st hst => hfit st (addStops_subset hadd st hst))
        ⟨stops, hS, addStops_stops hadd⟩
    intro pt' q hq
    by_cases hpt : sd.opens = pt'
    · subst hpt
      rw [openedPf_book] at hq
      unfold openedBook at hq
      split at hq
      · rcases List.mem_append.1 hq with hq | hq
        · exact h _ q hq
        · rw [List.mem_singleton] at hq
          subst hq
          intro e he
          simp only [openedPos, List.mem_singleton] at he ⊢
          rw [he]; exact hnew
      · rename_i p hp
        obtain ⟨hpm, hps⟩ := lookupPos_some hp
        rcases mem_replacePos (hw.nodup _) hq with rfl | ⟨hq, _⟩
        · intro e he
          simp only [openedPos, List.mem_append, List.mem_singleton] at he ⊢
          rcases he with he | rfl
          · exact h _ p hpm e he
          · rw [hps]; exact hnew
        · exact h _ q hq
    · rw [openedPf_book_ne _ _ _ _ _ _ _ _ _ _ hpt] at hq
      exact h _ q hq
  | order h0 hlim hQ => exact h.frame (fun pt => by simp)
  | caches hm => exact h.frame (fun pt => by cases pt <;> rfl)
  | stopValue id v => exact h.frame (fun pt => by cases pt <;> rfl)
  | incr hasBar hB =>
    intro pt q hq e he
    have hq2 : q ∈ (s.book pt).map (Position.incrBars hasBar) := by cases pt <;> exact hq
    obtain ⟨p, hp, rfl⟩ := List.mem_map.1 hq2
    obtain ⟨e0, he0, rfl⟩ := List.mem_map.1 he
    exact hr.incr hB _ _ _ _ (h pt p hp e0 he0)
  | removeStop id hw => exact AllEntries.removeStop hr id h
  | @clearStops _ pt p e hw hp he =>
    refine h.modBook e.id (fun e' => { e' with stops := [] }) ?_ ?_
    · intro pt sym e he; exact hr.stops _ _ _ _ (by simp) he
    · intro pt; cases pt
      · exact congrArg (modEntryBook e.id _) (removeStopData_book s e.stops .long)
      · exact congrArg (modEntryBook e.id _) (removeStopData_book s e.stops .short)

theorem stopsFit_rules (Q : Guard) :
    EntryRules Q (fun pt sym e => ∀ st ∈ e.stops, st.posType = pt ∧ st.symbol = sym) where
  take := fun _ _ _ _ _ h => h
  new := fun _ _ _ _ _ _ _ _ _ h _ => h
  excursion := fun _ _ _ _ _ h => h
  incr := fun _ _ _ _ _ h => h
  stops := fun _ _ _ _ hl h st hst => h st (hl.subset hst)

theorem StopsFit.prim {cfg : Config} {Q : Guard} {s t : Portfolio} (hp : Prim cfg Q s t)
    (h : StopsFit s) : StopsFit t :=
  ⟨AllEntries.prim (stopsFit_rules Q).toPrimRules hp h.entries⟩

theorem StopsFit.capture {cfg : Config} {s : Portfolio} (date : Date) (quote : Sym → BarQuote)
    (hw : WF [] s) (h : StopsFit s) : StopsFit (captureBar cfg s date quote) :=
  ⟨AllEntries.captureBar (stopsFit_rules Guard.any) date quote hw.typed h.entries⟩

/-! ## Histories -/

/-- The stops given to a buy are stops on long positions of its symbol, those
given to a sell on short positions of its symbol. -/
def Op.Fit : Op → Prop
  | .buy r => ∀ st ∈ r.stops, st.posType = .long ∧ st.symbol = r.symbol
  | .sell r => ∀ st ∈ r.stops, st.posType = .short ∧ st.symbol = r.symbol
  | _ => True

/-- The fill prices and the stops the call can use satisfy `Q`. -/
def Op.Fills (Q : Guard) : Op → Prop
  | .buy r => (∀ x, 0 < x → Q.price x) ∧ Q.stops r.stops
  | .sell r => (∀ x, 0 < x → Q.price x) ∧ Q.stops r.stops
  | .exitPosition .. => (∀ x, 0 < x → Q.price x) ∧ Q.stops []
  | .checkStops _ env => env.Fills Q.price ∧ Q.level
  | .incrBars _ => Q.bar
  | _ => True

theorem findEntryAll_mem {s : Portfolio} {id : Nat} {e : Entry} (h : findEntryAll s id = some e) :
    (∃ pt, ∃ p ∈ s.book pt, e ∈ p.entries) ∧ e.id = id := by
  obtain ⟨h1, h2⟩ := findEntry_some h
  refine ⟨?_, h2⟩
  obtain ⟨p, hp, he⟩ := List.mem_flatMap.1 h1
  rcases List.mem_append.1 hp with hp | hp
  · exact ⟨.long, p, hp, he⟩
  · exact ⟨.short, p, hp, he⟩

theorem removeStopsEntry_steps {cfg : Config} {Q : Guard} {s : Portfolio} (hg : Good s)
    (id : Nat) (t : Option StopType) : Steps cfg Q s (removeStopsEntry s id t) := by
  unfold removeStopsEntry
  split
  · exact Steps.refl s
  · rename_i e he
    exact removeEntryStops_steps hg (fun _ => (findEntryAll_mem he).1)

theorem removePositionStops_steps {cfg : Config} {Q : Guard} {s : Portfolio} (hg : Good s)
    (p : Position) (t : Option StopType) : Steps cfg Q s (removePositionStops s p t) := by
  unfold removePositionStops
  generalize p.entries = es
  induction es generalizing s with
  | nil => exact Steps.refl s
  | cons e es ih =>
    exact (removeStopsEntry_steps hg e.id t).trans
      (ih (hg.same (removeStopsEntry_same s e.id t)))

theorem removeStopsSym_steps {cfg : Config} {Q : Guard} {s : Portfolio} (hg : Good s)
    (sym : Sym) (t : Option StopType) : Steps cfg Q s (removeStopsSym s sym t) := by
  unfold removeStopsSym
  simp only
  have h1 : Steps cfg Q s (match lookupPos s.longs sym with
      | none => s
      | some p => removePositionStops s p t) ∧ Good (match lookupPos s.longs sym with
      | none => s
      | some p => removePositionStops s p t) := by
    split
    · exact ⟨Steps.refl _, hg⟩
    · rename_i p _
      exact ⟨removePositionStops_steps hg _ _, hg.same (removePositionStops_same s p t)⟩
  split
  · exact h1.1
  · exact h1.1.trans (removePositionStops_steps h1.2 _ _)

/-- A successful call is a chain of elementary changes, or captures a bar. -/
theorem step_steps {cfg : Config} {Q : Guard} {s s' : Portfolio} {op : Op} (hg : Good s)
    (hf : StopsFit s) (hfit : op.Fit) (hQ : op.Fills Q) (h : step cfg s op = .ok s') :
    ((∀ d quote, op ≠ .captureBar d quote) ∧ Steps cfg Q s s') ∨
      ∃ d quote, op = .captureBar d quote ∧ s' = captureBar cfg s d quote := by
  cases op with
  | buy r =>
    refine Or.inl ⟨by simp, ?_⟩
    simp only [step] at h
    cases hb : buy cfg s r with
    | error e => rw [hb] at h; cases h
    | ok x =>
      rw [hb] at h; cases h
      exact placeOrder_steps (sd := .buy) hQ.1 hQ.2 hfit hg hb
  | sell r =>
    refine Or.inl ⟨by simp, ?_⟩
    simp only [step] at h
    cases hb : sell cfg s r with
    | error e => rw [hb] at h; cases h
    | ok x =>
      rw [hb] at h; cases h
      exact placeOrder_steps (sd := .sell) hQ.1 hQ.2 hfit hg hb
  | exitPosition d sym b q slip => exact Or.inl ⟨by simp, exitPosition_steps hQ.1 hQ.2 hg h⟩
  | captureBar d quote => cases h; exact Or.inr ⟨d, quote, rfl, rfl⟩
  | incrBars hb => cases h; exact Or.inl ⟨by simp, Steps.one (Prim.incr hb hQ)⟩
  | checkStops d env => exact Or.inl ⟨by simp, checkStops_steps hQ.1 hQ.2 hg hf h⟩
  | removeStop id => cases h; exact Or.inl ⟨by simp, Steps.one (Prim.removeStop id hg.wf)⟩
  | removeStopsSym sym t => cases h; exact Or.inl ⟨by simp, removeStopsSym_steps hg sym t⟩
  | removeStopsEntry id t => cases h; exact Or.inl ⟨by simp, removeStopsEntry_steps hg id t⟩

theorem Op.fills_true (op : Op) : op.Fills Guard.any := by
  cases op <;> simp [Op.Fills, StopEnv.Fills, Guard.any]

theorem step_good {cfg : Config} {s s' : Portfolio} {op : Op} (hg : Good s) (hf : StopsFit s)
    (hfit : op.Fit) (h : step cfg s op = .ok s') : Good s' ∧ StopsFit s' := by
  refine ⟨?_, ?_⟩
  · cases op with
    | buy r =>
      simp only [step] at h
      cases hb : buy cfg s r with
      | error e => rw [hb] at h; cases h
      | ok x => rw [hb] at h; cases h; exact placeOrder_good (sd := .buy) hg hb
    | sell r =>
      simp only [step] at h
      cases hb : sell cfg s r with
      | error e => rw [hb] at h; cases h
      | ok x => rw [hb] at h; cases h; exact placeOrder_good (sd := .sell) hg hb
    | exitPosition d sym b q slip => exact exitPosition_good hg h
    | captureBar d quote => cases h; exact hg.same (captureBar_same cfg s d quote)
    | incrBars hb => cases h; exact hg.same (incrBars_same s hb)
    | checkStops d env => exact (checkStops_good hg hf h).1
    | removeStop id => cases h; exact hg.same (removeStop_same s id)
    | removeStopsSym sym t => cases h; exact hg.same (removeStopsSym_same s sym t)
    | removeStopsEntry id t => cases h; exact hg.same (removeStopsEntry_same s id t)
  · rcases step_steps (Q := Guard.any) hg hf hfit op.fills_true h with h1 | ⟨d, quote, _, rfl⟩
    · exact h1.2.inv (fun _ _ hp hs => hs.prim hp) hf
    · exact hf.capture d quote hg.wf

theorem StopsFit.init (cfg : Config) : StopsFit (Portfolio.init cfg) :=
  ⟨by intro pt p hp; cases pt <;> simp [Portfolio.init, Portfolio.book] at hp⟩

/-- The base invariant along a history. -/
theorem runFrom_good {cfg : Config} {s s' : Portfolio} {ops : List Op}
    (hfit : ∀ op ∈ ops, op.Fit) (hg : Good s) (hf : StopsFit s)
    (h : runFrom cfg s ops = .ok s') : Good s' ∧ StopsFit s' := by
  refine foldE_inv_mem (f := step cfg) (fun s => Good s ∧ StopsFit s) ops ?_ s s' ⟨hg, hf⟩ h
  rintro b a b' ha ⟨h1, h2⟩ hs
  exact step_good h1 h2 (hfit a ha) hs

theorem run_good {cfg : Config} {s : Portfolio} {ops : List Op} (hfit : ∀ op ∈ ops, op.Fit)
    (h : run cfg ops = .ok s) : Good s ∧ StopsFit s :=
  runFrom_good hfit (Good.init cfg) (StopsFit.init cfg) h

/-- An invariant of every elementary change and of capturing a bar is kept by
every history. -/
theorem runFrom_inv {cfg : Config} {Q : Guard} {P : Portfolio → Prop} {s s' : Portfolio}
    {ops : List Op} (hfit : ∀ op ∈ ops, op.Fit) (hQ : ∀ op ∈ ops, op.Fills Q) (hg : Good s)
    (hf : StopsFit s) (h : runFrom cfg s ops = .ok s')
    (hp : ∀ s t, Prim cfg Q s t → P s → P t)
    (hc : ∀ s date quote, WF [] s → P s → P (captureBar cfg s date quote)) (h0 : P s) : P s' := by
  have := foldE_inv_mem (f := step cfg) (fun t => (Good t ∧ StopsFit t) ∧ P t) ops ?_ s s'
    ⟨⟨hg, hf⟩, h0⟩ h
  · exact this.2
  · rintro b a b' ha ⟨⟨h1, h2⟩, h3⟩ hs
    refine ⟨step_good h1 h2 (hfit a ha) hs, ?_⟩
    rcases step_steps h1 h2 (hfit a ha) (hQ a ha) hs with hst | ⟨d, quote, _, rfl⟩
    · exact hst.2.inv hp h3
    · exact hc _ d quote h1.wf h3

/-- An invariant of every elementary change and of capturing a bar holds after
every history. -/
theorem run_inv {cfg : Config} {P : Portfolio → Prop} {s : Portfolio} {ops : List Op}
    (hfit : ∀ op ∈ ops, op.Fit) (h : run cfg ops = .ok s)
    (hp : ∀ s t, Prim cfg Guard.any s t → P s → P t)
    (hc : ∀ s date quote, WF [] s → P s → P (captureBar cfg s date quote))
    (h0 : P (Portfolio.init cfg)) : P s :=
  runFrom_inv hfit (fun op _ => op.fills_true) (Good.init cfg) (StopsFit.init cfg) h hp hc h0

end PyBroker
