import Verif.Portfolio.Hist

/-!
# Helper lemmas: `check_stops` decomposes into exits and keeps books well-formed
-/

namespace PyBroker

/-- Every stop attached to an open entry is for that entry's symbol and side,
and so is every armed stop. -/
structure StopsFit (s : Portfolio) : Prop where
  entries : ∀ pt, ∀ p ∈ s.book pt, ∀ e ∈ p.entries, ∀ st ∈ e.stops,
    st.posType = pt ∧ st.symbol = p.symbol

theorem stopFill_frame {env : StopEnv} {s : Portfolio} {e : Entry} {st : Stop}
    {f : Option ℚ} {s1 : Portfolio} (h : stopFill env s e st = .ok (f, s1)) :
    ∃ sd, s1 = { s with stopData := sd } := by
  unfold stopFill at h
  split at h
  · split at h
    · cases h
    · cases h; exact ⟨_, rfl⟩
  · split at h
    · cases h; exact ⟨_, rfl⟩
    · cases h; exact ⟨_, rfl⟩
  · split at h
    · cases h; exact ⟨_, rfl⟩
    · cases h; exact ⟨_, rfl⟩
  · split at h
    · cases h; exact ⟨_, rfl⟩
    · split at h
      · cases h
      · cases h; exact ⟨_, rfl⟩

/-- The portfolio after a stop has exited the entry `e` of `p`. -/
def stopExited (cfg : Config) (env : StopEnv) (date : Date) (s : Portfolio) (p : Position)
    (e : Entry) (st : Stop) (market : ℚ) : Portfolio :=
  (((exitPf cfg s st.posType e e.shares (slipStopFill env st e.shares market) date
      (some st.stopType)).setBook p.type
      (replacePos (s.book p.type) (p.takeShares e e.shares))).addOrder cfg date p.symbol st.exitSide
        none (stopOrderType st.stopType) st.exitIntent e.shares st.limitPrice (some market)
        (slipStopFill env st e.shares market)).2

theorem triggerStop_cases {cfg : Config} {env : StopEnv} {date : Date} {s : Portfolio}
    {p : Position} {e : Entry} {st : Stop} {b : Bool} {s' : Portfolio}
    (h : triggerStop cfg env date s p e st = .ok (b, s')) :
    (b = false ∧ ∃ sd, s' = { s with stopData := sd }) ∨
    (b = true ∧ ∃ market sd, stopFill env s e st = .ok (some market, { s with stopData := sd }) ∧
      stopLimitBlocks st (slipStopFill env st e.shares market) = false ∧
      s' = stopExited cfg env date { s with stopData := sd } p e st market) := by
  unfold triggerStop at h
  split at h
  · cases h; exact Or.inl ⟨rfl, _, rfl⟩
  · split at h
    · cases h
    · rename_i s1 hf
      cases h
      exact Or.inl ⟨rfl, stopFill_frame hf⟩
    · rename_i market s1 hf
      obtain ⟨sd, hs1⟩ := stopFill_frame hf
      by_cases hlim : stopLimitBlocks st (slipStopFill env st e.shares market) = true
      · rw [if_pos hlim] at h
        cases h; exact Or.inl ⟨rfl, sd, hs1⟩
      · rw [if_neg hlim] at h
        right
        simp only [Except.ok.injEq, Prod.mk.injEq] at h
        refine ⟨h.1.symm, market, sd, hs1 ▸ hf, by simpa using hlim, ?_⟩
        rw [← h.2, hs1, exitEntry_pf, exitEntry_pos]
        unfold stopExited
        rw [exitPf_book]

theorem checkOne_cases {cfg : Config} {env : StopEnv} {date : Date}
    {acc acc' : Portfolio × List StopCheck} {c : StopCheck}
    (h : checkOne cfg env date acc c = .ok acc') :
    (acc'.2 = acc.2 ∧ ∃ sd, acc'.1 = { acc.1 with stopData := sd }) ∨
    (acc'.2 = acc.2 ++ [c] ∧ c.entryId ∉ acc.2.map StopCheck.entryId ∧
      ∃ p e market sd, lookupPos (acc.1.book c.posType) c.symbol = some p ∧
        findEntry p.entries c.entryId = some e ∧
        stopFill env acc.1 e c.stop = .ok (some market, { acc.1 with stopData := sd }) ∧
        stopLimitBlocks c.stop (slipStopFill env c.stop e.shares market) = false ∧
        acc'.1 = stopExited cfg env date { acc.1 with stopData := sd } p e c.stop market) := by
  unfold checkOne at h
  split at h
  · cases h; exact Or.inl ⟨rfl, _, rfl⟩
  · rename_i hnin
    split at h
    · cases h; exact Or.inl ⟨rfl, _, rfl⟩
    · rename_i p hp
      split at h
      · cases h; exact Or.inl ⟨rfl, _, rfl⟩
      · rename_i e he
        split at h
        · cases h
        · rename_i s1 ht
          cases h
          rcases triggerStop_cases ht with ⟨hb, _⟩ | ⟨_, market, sd, h1, h2, h3⟩
          · cases hb
          · exact Or.inr ⟨rfl, hnin, p, e, market, sd, hp, he, h1, h2, h3⟩
        · rename_i s1 ht
          cases h
          rcases triggerStop_cases ht with ⟨_, sd, h1⟩ | ⟨hb, _⟩
          · exact Or.inl ⟨rfl, sd, h1⟩
          · cases hb

/-- An entry with the id of an executed check sits in the checked position. -/
def Located (s : Portfolio) (c : StopCheck) : Prop :=
  ∀ pt, ∀ p ∈ s.book pt, ∀ e ∈ p.entries, e.id = c.entryId → pt = c.posType ∧ p.symbol = c.symbol

/-- The invariant of the two loops of `check_stops`. -/
structure CheckInv (acc : Portfolio × List StopCheck) : Prop where
  wf : WF (acc.2.map StopCheck.entryId) acc.1
  ne : NE acc.1
  loc : ∀ c ∈ acc.2, Located acc.1 c
  nodup : (acc.2.map StopCheck.entryId).Nodup

theorem WF.congrZ {Z Z' : List Nat} {s : Portfolio} (h : WF Z s)
    (hz : ∀ pt, ∀ p ∈ s.book pt, ∀ e ∈ p.entries, (e.id ∈ Z ↔ e.id ∈ Z')) : WF Z' s :=
  ⟨fun pt p hp => (h.pos pt p hp).congrZ (hz pt p hp), h.nodup, h.disj, h.syms, h.symsNodup,
    h.notional, h.idle, h.owner⟩

theorem WF.frame {Z : List Nat} {s t : Portfolio} (h : WF Z s)
    (hb : ∀ pt, t.book pt = s.book pt) (hs : t.symbols = s.symbols)
    (hn : ∀ pt, t.notional pt = s.notional pt) (hi : t.entryId = s.entryId) : WF Z t :=
  h.congr (fun pt => by rw [hb]) hs hn hi

theorem stopExited_book (cfg : Config) (env : StopEnv) (date : Date) (s : Portfolio) (p : Position)
    (e : Entry) (st : Stop) (market : ℚ) :
    (stopExited cfg env date s p e st market).book p.type =
      replacePos (s.book p.type) (p.takeShares e e.shares) := by
  unfold stopExited
  rw [addOrder_book, book_setBook]

theorem stopExited_book_ne (cfg : Config) (env : StopEnv) (date : Date) (s : Portfolio)
    (p : Position) (e : Entry) (st : Stop) (market : ℚ) {pt : PosType} (h : p.type ≠ pt) :
    (stopExited cfg env date s p e st market).book pt = s.book pt := by
  unfold stopExited
  rw [addOrder_book, book_setBook_ne _ _ h, exitPf_book]

theorem stopExited_notional (cfg : Config) (env : StopEnv) (date : Date) (s : Portfolio)
    (p : Position) (e : Entry) (st : Stop) (market : ℚ) (pt : PosType) :
    (stopExited cfg env date s p e st market).notional pt =
      s.notional pt - (if st.posType = pt then e.shares * e.price else 0) := by
  unfold stopExited
  rw [addOrder_notional, setBook_notional, exitPf_notional]

theorem stopExited_symbols (cfg : Config) (env : StopEnv) (date : Date) (s : Portfolio)
    (p : Position) (e : Entry) (st : Stop) (market : ℚ) :
    (stopExited cfg env date s p e st market).symbols = s.symbols := by
  unfold stopExited
  cases p.type <;> rfl

theorem stopExited_entryId (cfg : Config) (env : StopEnv) (date : Date) (s : Portfolio)
    (p : Position) (e : Entry) (st : Stop) (market : ℚ) :
    (stopExited cfg env date s p e st market).entryId = s.entryId := by
  unfold stopExited
  cases p.type <;> rfl

/-- An executed check closes a live entry, which joins the dead ones. -/
theorem WF.stopExit {Z : List Nat} {cfg : Config} {env : StopEnv} {date : Date} {s : Portfolio}
    {pt : PosType} {sym : Sym} {p : Position} {e : Entry} {st : Stop} {market : ℚ}
    (h : WF Z s) (hp : lookupPos (s.book pt) sym = some p)
    (he : findEntry p.entries e.id = some e) (hz : e.id ∉ Z) (hst : st.posType = pt) :
    WF (e.id :: Z) (stopExited cfg env date s p e st market) := by
  obtain ⟨hpm, hps⟩ := lookupPos_some hp
  have hpw := h.pos pt p hpm
  obtain ⟨hem, _⟩ := findEntry_some he
  have hpos : 0 < e.shares := by
    rcases (hpw.entries e hem).shares with h1 | h1
    · exact absurd h1.1 hz
    · exact h1.2
  have h1 := hpw.take he hpos le_rfl
  rw [if_pos rfl] at h1
  have hty : p.type = pt := hpw.type
  have hmap : (p.takeShares e e.shares).entries.map Entry.id = p.entries.map Entry.id := by
    rw [takeShares_entries, map_id_modEntry _ _ (by intro e; rfl)]
  have hidmem : ∀ x ∈ (p.takeShares e e.shares).entries, ∃ e0 ∈ p.entries, e0.id = x.id := by
    intro x hx
    have : x.id ∈ p.entries.map Entry.id := hmap ▸ List.mem_map_of_mem hx
    simpa using this
  refine h.replace (pt := pt) (p := p) (q := p.takeShares e e.shares)
    (by rw [takeShares_symbol, hps]; exact hp) h1 ?_ ?_ ?_ ?_ ?_ ?_ ?_ ?_ ?_
  · intro pt' r hr hne
    refine (h.pos pt' r hr).congrZ ?_
    intro x hx
    rw [List.mem_cons]
    constructor
    · exact Or.inr
    · rintro (h2 | h2)
      · exfalso
        apply hne
        rw [takeShares_symbol]
        exact h.owner pt' pt r hr p hpm x hx e hem h2
      · exact h2
  · intro x hx; exact Or.inl (hidmem x hx)
  · intro x hx
    obtain ⟨e0, he0, h0⟩ := hidmem x hx
    rw [stopExited_entryId, ← h0]
    exact h.idle pt p hpm e0 he0
  · rw [stopExited_entryId]
  · rw [← hty]; exact stopExited_book _ _ _ _ _ _ _ _
  · intro pt' hne
    exact stopExited_book_ne _ _ _ _ _ _ _ _ (by rw [hty]; exact hne)
  · exact stopExited_symbols _ _ _ _ _ _ _ _
  · rw [stopExited_notional, hst, if_pos rfl, takeShares_notional]; ring
  · intro pt' hne
    rw [stopExited_notional, hst, if_neg hne]; ring

/-- Every entry of the later portfolio was in the same position before. -/
def SubIds (t s : Portfolio) : Prop :=
  ∀ pt, ∀ q ∈ t.book pt, ∀ e ∈ q.entries,
    ∃ p ∈ s.book pt, p.symbol = q.symbol ∧ ∃ f ∈ p.entries, f.id = e.id ∧ e.stops ⊆ f.stops

theorem SubIds.refl (s : Portfolio) : SubIds s s :=
  fun _ q hq e he => ⟨q, hq, rfl, e, he, rfl, fun _ h => h⟩

theorem SubIds.trans {s t u : Portfolio} (h : SubIds u t) (h' : SubIds t s) : SubIds u s := by
  intro pt q hq e he
  obtain ⟨p, hp, hps, f, hf, hfe, hfs⟩ := h pt q hq e he
  obtain ⟨p', hp', hps', f', hf', hfe', hfs'⟩ := h' pt p hp f hf
  exact ⟨p', hp', hps'.trans hps, f', hf', hfe'.trans hfe, fun _ h => hfs' (hfs h)⟩

theorem SubIds.located {s t : Portfolio} (h : SubIds t s) {c : StopCheck} (hl : Located s c) :
    Located t c := by
  intro pt q hq e he hid
  obtain ⟨p, hp, hps, f, hf, hfe, _⟩ := h pt q hq e he
  obtain ⟨h1, h2⟩ := hl pt p hp f hf (hfe.trans hid)
  exact ⟨h1, hps ▸ h2⟩

theorem SubIds.fit {s t : Portfolio} (h : SubIds t s) (hl : StopsFit s) : StopsFit t := by
  constructor
  intro pt q hq e he st hst
  obtain ⟨p, hp, hps, f, hf, _, hfs⟩ := h pt q hq e he
  rw [← hps]
  exact hl.entries pt p hp f hf st (hfs hst)

theorem mem_modEntry_stops {id : Nat} {sh : ℚ} {es : List Entry} {x : Entry}
    (h : x ∈ modEntry id (fun e' => { e' with shares := e'.shares - sh }) es) :
    ∃ f ∈ es, f.id = x.id ∧ x.stops ⊆ f.stops := by
  induction es with
  | nil => simp [modEntry] at h
  | cons a es ih =>
    by_cases ha : a.id = id
    · simp only [modEntry, if_pos ha, List.mem_cons] at h
      rcases h with h | h
      · subst h; exact ⟨a, List.mem_cons_self, rfl, fun _ h => h⟩
      · exact ⟨x, List.mem_cons_of_mem _ h, rfl, fun _ h => h⟩
    · simp only [modEntry, if_neg ha, List.mem_cons] at h
      rcases h with h | h
      · subst h; exact ⟨x, List.mem_cons_self, rfl, fun _ h => h⟩
      · obtain ⟨f, hf, h1⟩ := ih h
        exact ⟨f, List.mem_cons_of_mem _ hf, h1⟩

theorem SubIds.stopExit {Z : List Nat} {cfg : Config} {env : StopEnv} {date : Date} {s : Portfolio}
    {pt : PosType} {sym : Sym} {p : Position} {e : Entry} {st : Stop} {market : ℚ}
    (h : WF Z s) (hp : lookupPos (s.book pt) sym = some p) :
    SubIds (stopExited cfg env date s p e st market) s := by
  obtain ⟨hpm, hps⟩ := lookupPos_some hp
  have hty : p.type = pt := (h.pos pt p hpm).type
  intro pt' q hq x hx
  by_cases hpt : p.type = pt'
  · subst hpt
    rw [stopExited_book] at hq
    rw [← hty] at hpm
    rcases mem_replacePos (h.nodup _) hq with rfl | ⟨hq, _⟩
    · rw [takeShares_entries] at hx
      obtain ⟨f, hf, h1⟩ := mem_modEntry_stops hx
      exact ⟨p, hpm, by simp, f, hf, h1⟩
    · exact ⟨q, hq, rfl, x, hx, rfl, fun _ h => h⟩
  · rw [stopExited_book_ne _ _ _ _ _ _ _ _ hpt] at hq
    exact ⟨q, hq, rfl, x, hx, rfl, fun _ h => h⟩

theorem NE.stopExit {Z : List Nat} {cfg : Config} {env : StopEnv} {date : Date} {s : Portfolio}
    {pt : PosType} {sym : Sym} {p : Position} {e : Entry} {st : Stop} {market : ℚ}
    (h : WF Z s) (hne : NE s) (hp : lookupPos (s.book pt) sym = some p) :
    NE (stopExited cfg env date s p e st market) := by
  obtain ⟨hpm, hps⟩ := lookupPos_some hp
  have hty : p.type = pt := (h.pos pt p hpm).type
  intro pt' q hq
  by_cases hpt : p.type = pt'
  · subst hpt
    rw [stopExited_book] at hq
    rcases mem_replacePos (h.nodup _) hq with rfl | ⟨hq, _⟩
    · intro he
      have hmap : (p.takeShares e e.shares).entries.map Entry.id = p.entries.map Entry.id := by
        rw [takeShares_entries, map_id_modEntry _ _ (by intro e; rfl)]
      rw [he] at hmap
      exact hne pt p hpm (by simpa using hmap.symm)
    · exact hne _ q hq
  · rw [stopExited_book_ne _ _ _ _ _ _ _ _ hpt] at hq
    exact hne _ q hq

theorem stopData_book (s : Portfolio) (sd : List StopData) (pt : PosType) :
    ({ s with stopData := sd } : Portfolio).book pt = s.book pt := by cases pt <;> rfl

theorem WF.stopData {Z : List Nat} {s : Portfolio} (h : WF Z s) (sd : List StopData) :
    WF Z { s with stopData := sd } :=
  h.frame (fun pt => stopData_book s sd pt) rfl (fun pt => by cases pt <;> rfl) rfl

/-- One check keeps the invariant, provided its stop is for the side it names. -/
theorem CheckInv.step {cfg : Config} {env : StopEnv} {date : Date}
    {acc acc' : Portfolio × List StopCheck} {c : StopCheck} (h : CheckInv acc)
    (hc : c.stop.posType = c.posType) (hs : checkOne cfg env date acc c = .ok acc') :
    CheckInv acc' ∧ SubIds acc'.1 acc.1 := by
  rcases checkOne_cases hs with ⟨h2, sd, h1⟩ | ⟨h2, hnin, p, e, market, sd, hp, he, _, _, h1⟩
  · have hsub : SubIds acc'.1 acc.1 := by
      intro pt q hq x hx
      rw [h1, stopData_book] at hq
      exact ⟨q, hq, rfl, x, hx, rfl, fun _ h => h⟩
    refine ⟨⟨?_, ?_, ?_, ?_⟩, hsub⟩
    · rw [h2, h1]; exact h.wf.stopData sd
    · rw [h1]; intro pt q hq; rw [stopData_book] at hq; exact h.ne pt q hq
    · intro c' hc'; rw [h2] at hc'; exact hsub.located (h.loc c' hc')
    · rw [h2]; exact h.nodup
  · have hwf := h.wf.stopData sd
    have heid := (findEntry_some he).2
    have hem := (findEntry_some he).1
    have hp' : lookupPos (({ acc.1 with stopData := sd } : Portfolio).book c.posType) c.symbol =
        some p := by rw [stopData_book]; exact hp
    have hsub : SubIds acc'.1 acc.1 := by
      rw [h1]
      have := SubIds.stopExit (cfg := cfg) (env := env) (date := date) (e := e) (st := c.stop)
        (market := market) hwf hp'
      intro pt q hq x hx
      obtain ⟨p', hp', hrest⟩ := this pt q hq x hx
      rw [stopData_book] at hp'
      exact ⟨p', hp', hrest⟩
    refine ⟨⟨?_, ?_, ?_, ?_⟩, hsub⟩
    · rw [h2, h1]
      have hw := hwf.stopExit (cfg := cfg) (env := env) (date := date) (market := market)
        (e := e) (st := c.stop) hp' (by rw [heid]; exact he) (by rw [heid]; exact hnin) hc
      refine hw.congrZ ?_
      intro pt q hq x hx
      rw [heid]
      simp [or_comm]
    · rw [h1]
      refine NE.stopExit hwf ?_ hp'
      intro pt q hq; rw [stopData_book] at hq; exact h.ne pt q hq
    · intro c' hc'
      rw [h2, List.mem_append, List.mem_singleton] at hc'
      rcases hc' with hc' | rfl
      · exact hsub.located (h.loc c' hc')
      · refine hsub.located ?_
        intro pt q hq x hx hid
        obtain ⟨hpm, hps⟩ := lookupPos_some hp
        have hsym : q.symbol = p.symbol :=
          h.wf.owner pt c'.posType q hq p hpm x hx e hem (hid.trans heid.symm)
        refine ⟨?_, hsym.trans hps⟩
        by_contra hne
        exact h.wf.disj pt c'.posType hne q hq p hpm hsym
    · rw [h2, List.map_append, List.nodup_append]
      refine ⟨h.nodup, by simp, ?_⟩
      intro a ha b hb
      simp only [List.map_cons, List.map_nil, List.mem_singleton] at hb
      subst hb
      exact fun hab => hnin (hab ▸ ha)

/-- The final loop removes the dead entries one at a time. -/
theorem finish_good {s : Portfolio} {c : StopCheck} {cs : List StopCheck}
    (h : WF ((c :: cs).map StopCheck.entryId) s) (hne : NE s)
    (hloc : ∀ c' ∈ c :: cs, Located s c') :
    WF (cs.map StopCheck.entryId) (finishStop s c) ∧ NE (finishStop s c) ∧
      SubIds (finishStop s c) s := by
  have hl := hloc c List.mem_cons_self
  unfold finishStop
  split
  · rename_i hnone
    refine ⟨h.congrZ ?_, hne, SubIds.refl s⟩
    intro pt p hp e he
    simp only [List.map_cons, List.mem_cons]
    constructor
    · rintro (h1 | h1)
      · obtain ⟨h2, h3⟩ := hl pt p hp e he h1
        subst h2
        rw [lookupPos_none] at hnone
        exact absurd h3 (hnone p hp)
      · exact h1
    · exact Or.inr
  · rename_i p hp
    obtain ⟨hpm, hps⟩ := lookupPos_some hp
    split
    · rename_i hnone
      refine ⟨h.congrZ ?_, hne, SubIds.refl s⟩
      intro pt q hq e he
      simp only [List.map_cons, List.mem_cons]
      constructor
      · rintro (h1 | h1)
        · obtain ⟨h2, h3⟩ := hl pt q hq e he h1
          subst h2
          have : q = p := by
            have h4 := lookupPos_of_mem (h.nodup _) hq
            rw [h3, hp] at h4
            exact (Option.some.inj h4).symm
          subst this
          rw [findEntry_none] at hnone
          exact absurd h1 (hnone e he)
        · exact h1
      · exact Or.inr
    · rename_i e he
      obtain ⟨hem, heid⟩ := findEntry_some he
      have hpw := h.pos c.posType p hpm
      have hzero : e.shares = 0 := by
        rcases (hpw.entries e hem).shares with h1 | h1
        · exact h1.2
        · exact absurd (by rw [heid]; simp) h1.1
      set q : Position := { p with entries := eraseEntry p.entries c.entryId } with hq
      have hsub := eraseEntry_sublist p.entries c.entryId
      have hqw : PosWF c.posType (cs.map StopCheck.entryId) q := by
        refine (hpw.drop he hzero).congrZ ?_
        intro x hx
        have := not_mem_eraseEntry hpw.nodup x hx
        simp [this]
      have hin : q.symbol ∈ ((s.removeStopData e.stops).book c.posType).map Position.symbol := by
        rw [removeStopData_book]
        exact List.mem_map.2 ⟨p, hpm, rfl⟩
      have hstore : WF (cs.map StopCheck.entryId)
          ((s.removeStopData e.stops).store c.posType q) := by
        refine h.replace (pt := c.posType) (p := p) (q := q) (by rw [show q.symbol = c.symbol from hps]; exact hp)
          hqw ?_ ?_ ?_ ?_ ?_ ?_ ?_ ?_ ?_
        · intro pt' r hr hner
          refine (h.pos pt' r hr).congrZ ?_
          intro x hx
          simp only [List.map_cons, List.mem_cons]
          constructor
          · rintro (h1 | h1)
            · obtain ⟨_, h3⟩ := hl pt' r hr x hx h1
              exact absurd (h3.trans hps.symm) hner
            · exact h1
          · exact Or.inr
        · intro x hx
          exact Or.inl ⟨x, hsub.subset hx, rfl⟩
        · intro x hx
          have := h.idle c.posType p hpm x (hsub.subset hx)
          simpa using this
        · simp
        · simp
        · intro pt' hne'
          rw [store_book_ne _ _ hne']; simp
        · simp
        · simp [hq]
        · intro pt' _; simp
      have hne' : NE (s.removeStopData e.stops) := by
        intro pt' r hr; rw [removeStopData_book] at hr; exact hne pt' r hr
      refine ⟨hstore.update hin, hne'.update hin hstore, ?_⟩
      rcases updatePosition_cases hin hstore with ⟨_, heq⟩ | ⟨_, heq⟩
      · intro pt' r hr x hx
        rw [heq] at hr
        by_cases hpt : c.posType = pt'
        · subst hpt
          rw [store_book, removeStopData_book] at hr
          rcases mem_replacePos (h.nodup _) hr with rfl | ⟨hr, _⟩
          · exact ⟨p, hpm, rfl, x, hsub.subset hx, rfl, fun _ h => h⟩
          · exact ⟨r, hr, rfl, x, hx, rfl, fun _ h => h⟩
        · rw [store_book_ne _ _ hpt, removeStopData_book] at hr
          exact ⟨r, hr, rfl, x, hx, rfl, fun _ h => h⟩
      · intro pt' r hr x hx
        rw [heq] at hr
        have hr2 : r ∈ ((s.removeStopData e.stops).setBook c.posType
          (erasePos ((s.removeStopData e.stops).book c.posType) q.symbol)).book pt' := by
          cases pt' <;> exact hr
        by_cases hpt : c.posType = pt'
        · subst hpt
          rw [book_setBook, removeStopData_book] at hr2
          exact ⟨r, (erasePos_sublist _ _).subset hr2, rfl, x, hx, rfl, fun _ h => h⟩
        · rw [book_setBook_ne _ _ hpt, removeStopData_book] at hr2
          exact ⟨r, hr2, rfl, x, hx, rfl, fun _ h => h⟩

theorem finishAll_good (cs : List StopCheck) (s : Portfolio)
    (h : WF (cs.map StopCheck.entryId) s) (hne : NE s) (hloc : ∀ c' ∈ cs, Located s c') :
    Good (cs.foldl finishStop s) ∧ SubIds (cs.foldl finishStop s) s := by
  induction cs generalizing s with
  | nil => exact ⟨⟨h, hne⟩, SubIds.refl s⟩
  | cons c cs ih =>
    obtain ⟨h1, h2, h3⟩ := finish_good h hne hloc
    obtain ⟨h4, h5⟩ := ih (finishStop s c) h1 h2
      (fun c' hc' => h3.located (hloc c' (List.mem_cons_of_mem _ hc')))
    exact ⟨h4, h5.trans h3⟩

/-- Invariant rule for the loops of `check_stops`: it may use membership. -/
theorem foldE_inv_mem {α β : Type} {f : β → α → Except Err β} (P : β → Prop) (as : List α)
    (hstep : ∀ b a b', a ∈ as → P b → f b a = .ok b' → P b') :
    ∀ (b b' : β), P b → foldE f b as = .ok b' → P b' := by
  induction as with
  | nil => intro b b' hb h; cases h; exact hb
  | cons a as ih =>
    intro b b' hb h
    unfold foldE at h
    split at h
    · cases h
    · rename_i b1 hb1
      exact ih (fun b a b' ha => hstep b a b' (List.mem_cons_of_mem _ ha)) b1 b'
        (hstep b a b1 List.mem_cons_self hb hb1) h

theorem priceChecks_fit (env : StopEnv) (s : Portfolio) :
    ∀ c ∈ priceChecks env s, c.stop.posType = c.posType := by
  intro c hc
  unfold priceChecks at hc
  simp only [List.mem_flatMap] at hc
  obtain ⟨⟨sym, ids⟩, _, hc⟩ := hc
  simp only at hc
  split at hc
  · simp only [List.mem_filterMap, Option.map_eq_some_iff] at hc
    obtain ⟨id, _, d, _, rfl⟩ := hc
    rfl
  · simp at hc

theorem barChecks_fit {env : StopEnv} {Z : List Nat} {s : Portfolio} (hw : WF Z s)
    (hf : StopsFit s) : ∀ c ∈ barChecks env s, c.stop.posType = c.posType := by
  intro c hc
  unfold barChecks at hc
  simp only [List.mem_flatMap] at hc
  obtain ⟨p, hp, hc⟩ := hc
  split at hc
  · simp only [List.mem_flatMap, List.mem_map, List.mem_filter] at hc
    obtain ⟨e, he, st, ⟨hst, _⟩, rfl⟩ := hc
    simp only
    rcases List.mem_append.1 hp with hp | hp
    · rw [(hf.entries .long p hp e he st hst).1, (hw.pos .long p hp).type]
    · rw [(hf.entries .short p hp e he st hst).1, (hw.pos .short p hp).type]
  · simp at hc

/-- `check_stops` as two loops and a clean-up, with the loop invariant. -/
theorem checkStops_cases {cfg : Config} {env : StopEnv} {date : Date} {s s' : Portfolio}
    (h : checkStops cfg s date env = .ok s') :
    ∃ acc acc2, foldE (checkOne cfg env date) (s, []) (priceChecks env s) = .ok acc ∧
      foldE (checkOne cfg env date) acc (barChecks env acc.1) = .ok acc2 ∧
      s' = acc2.2.foldl finishStop acc2.1 := by
  unfold checkStops at h
  split at h
  · cases h
  · rename_i acc h1
    split at h
    · cases h
    · rename_i acc2 h2
      cases h
      exact ⟨acc, acc2, h1, h2, rfl⟩

theorem checkLoops_inv {cfg : Config} {env : StopEnv} {date : Date} {s : Portfolio}
    {acc acc2 : Portfolio × List StopCheck} (hg : Good s) (hf : StopsFit s)
    (h1 : foldE (checkOne cfg env date) (s, []) (priceChecks env s) = .ok acc)
    (h2 : foldE (checkOne cfg env date) acc (barChecks env acc.1) = .ok acc2) :
    (CheckInv acc ∧ SubIds acc.1 s) ∧ CheckInv acc2 ∧ SubIds acc2.1 s := by
  have hi0 : CheckInv (s, []) := ⟨hg.wf, hg.ne, by simp, by simp⟩
  have k1 : CheckInv acc ∧ SubIds acc.1 s := by
    refine foldE_inv_mem (f := checkOne cfg env date)
      (fun a => CheckInv a ∧ SubIds a.1 s) (priceChecks env s) ?_ (s, []) acc
      ⟨hi0, SubIds.refl s⟩ h1
    rintro a c a' hc ⟨ha, hsub⟩ hs
    obtain ⟨h3, h4⟩ := ha.step (priceChecks_fit env s c hc) hs
    exact ⟨h3, h4.trans hsub⟩
  refine ⟨k1, ?_⟩
  refine foldE_inv_mem (f := checkOne cfg env date)
    (fun a => CheckInv a ∧ SubIds a.1 s) (barChecks env acc.1) ?_ acc acc2 k1 h2
  rintro a c a' hc ⟨ha, hsub⟩ hs
  obtain ⟨h3, h4⟩ := ha.step (barChecks_fit k1.1.wf (k1.2.fit hf) c hc) hs
  exact ⟨h3, h4.trans hsub⟩

theorem checkStops_good {cfg : Config} {env : StopEnv} {date : Date} {s s' : Portfolio}
    (hg : Good s) (hf : StopsFit s) (h : checkStops cfg s date env = .ok s') :
    Good s' ∧ SubIds s' s := by
  obtain ⟨acc, acc2, h1, h2, rfl⟩ := checkStops_cases h
  obtain ⟨_, hi, hsub⟩ := checkLoops_inv hg hf h1 h2
  obtain ⟨h3, h4⟩ := finishAll_good acc2.2 acc2.1 hi.wf hi.ne hi.loc
  exact ⟨h3, h4.trans hsub⟩

end PyBroker
