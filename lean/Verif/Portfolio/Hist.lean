import Verif.Portfolio.Ops

/-!
# Helper lemmas: every operation keeps the books well-formed
-/

namespace PyBroker

/-- Well-formed books with no dead entries and no empty positions. -/
structure Good (s : Portfolio) : Prop where
  wf : WF [] s
  ne : NE s

theorem Good.init (cfg : Config) : Good (Portfolio.init cfg) :=
  ⟨WF.init cfg, by intro pt p hp; cases pt <;> simp [Portfolio.init, Portfolio.book] at hp⟩

/-- `Good` only reads the books' core fields, symbols, notionals and entry id. -/
theorem Good.congr {s t : Portfolio} (h : Good s)
    (hb : ∀ pt, (s.book pt).map coreP = (t.book pt).map coreP)
    (hs : t.symbols = s.symbols) (hn : ∀ pt, t.notional pt = s.notional pt)
    (hi : t.entryId = s.entryId) : Good t := by
  refine ⟨h.wf.congr hb hs hn hi, ?_⟩
  intro pt q hq
  obtain ⟨p, hp, hc⟩ := mem_of_coreP (hb pt) hq
  have := h.ne pt p hp
  simp only [coreP, Prod.mk.injEq] at hc
  have h5 := congrArg List.length hc.2.2.2.2
  simp only [List.length_map] at h5
  intro he
  rw [he] at h5
  exact this (List.length_eq_zero_iff.1 (by simpa using h5))

theorem Good.frame {s t : Portfolio} (h : Good s) (hb : ∀ pt, t.book pt = s.book pt)
    (hs : t.symbols = s.symbols) (hn : ∀ pt, t.notional pt = s.notional pt)
    (hi : t.entryId = s.entryId) : Good t :=
  h.congr (fun pt => by rw [hb]) hs hn hi

theorem Good.caches {s : Portfolio} (h : Good s) (a b : Option ℚ) :
    Good { s with cachedLongMv := a, cachedShortMv := b } :=
  h.frame (fun pt => by cases pt <;> rfl) rfl (fun pt => by cases pt <;> rfl) rfl

section
variable (cfg : Config) (s : Portfolio) (date : Date) (sym : Sym) (side : Side)
    (created : Option Date) (ot : OrderType) (intent : Intent) (shares : ℚ)
    (limit mp : Option ℚ) (fill : ℚ) (pt : PosType)
@[simp] theorem addOrder_book :
    (s.addOrder cfg date sym side created ot intent shares limit mp fill).2.book pt = s.book pt := by
  cases pt <;> rfl
@[simp] theorem addOrder_notional :
    (s.addOrder cfg date sym side created ot intent shares limit mp fill).2.notional pt =
      s.notional pt := by
  cases pt <;> rfl
theorem Good.addOrder {s : Portfolio} (h : Good s) :
    Good (s.addOrder cfg date sym side created ot intent shares limit mp fill).2 :=
  h.frame (fun pt => by simp) rfl (fun pt => by simp) rfl
end

/-! ## Orders -/

/-- What an order call did to a well-formed portfolio. -/
inductive OrderEffect (cfg : Config) (sd : Side) (s : Portfolio) (r : OrderReq) :
    Option Order → Portfolio → Prop
  | nothing (a b : Option ℚ) (hm : Memo s a b) :
      OrderEffect cfg sd s r none { s with cachedLongMv := a, cachedShortMv := b }
  | closed (c : OrderResult) (a b : Option ℚ)
      (hc : c = closeShares cfg sd.closes s r.date r.symbol r.shares r.fill)
      (hfill : 0 < c.filled) (hlim : limitBlocks sd r.limit r.fill = false) (hm : Memo c.pf a b) :
      OrderEffect cfg sd s r
        (some (({ c.pf with cachedLongMv := a, cachedShortMv := b } : Portfolio).addOrder cfg r.date
          r.symbol sd r.created r.orderType (intentOf sd 0) c.filled r.limit r.marketPrice r.fill).1)
        (({ c.pf with cachedLongMv := a, cachedShortMv := b } : Portfolio).addOrder cfg r.date
          r.symbol sd r.created r.orderType (intentOf sd 0) c.filled r.limit r.marketPrice r.fill).2
  | opened (c : OrderResult) (n : ℚ) (es : List Stop) (sda : List StopData)
      (ac : List (Sym × List Nat))
      (hc : c = closeShares cfg sd.closes s r.date r.symbol r.shares r.fill)
      (hn : 0 < n) (hle : n ≤ c.rem) (hlim : limitBlocks sd r.limit r.fill = false)
      (hclamp : n ≤ (c.pf.clampShares cfg r.symbol r.fill c.rem sd).1)
      (hcap : capReached (cfg.cap sd.opens) (c.pf.book sd.opens) r.symbol = false)
      (hmode : cfg.allows sd.opens)
      (hstops : addStops
        { c.pf with
          cash := c.pf.cash - n * r.fill / levOf cfg, cachedLongMv := none,
          cachedShortMv := none, entryId := c.pf.entryId + 1 }
        (c.pf.entryId + 1) r.fill r.stops =
        .ok (es, { c.pf with
          cash := c.pf.cash - n * r.fill / levOf cfg, cachedLongMv := none,
          cachedShortMv := none, entryId := c.pf.entryId + 1, stopData := sda,
          active := ac })) :
      OrderEffect cfg sd s r
        (some ((openedPf cfg c.pf sd.opens r.date r.symbol n r.fill es sda ac).addOrder cfg r.date
          r.symbol sd r.created r.orderType (intentOf sd n) (c.filled + n) r.limit r.marketPrice
          r.fill).1)
        ((openedPf cfg c.pf sd.opens r.date r.symbol n r.fill es sda ac).addOrder cfg r.date
          r.symbol sd r.created r.orderType (intentOf sd n) (c.filled + n) r.limit r.marketPrice
          r.fill).2

theorem placeOrder_effect {cfg : Config} {sd : Side} {s : Portfolio} {r : OrderReq}
    {o : Option Order} {s' : Portfolio} (hg : Good s)
    (h : placeOrder cfg sd s r = .ok (o, s')) : OrderEffect cfg sd s r o s' := by
  obtain ⟨_, _, _, hcase⟩ := placeOrder_cases h
  rcases hcase with ⟨rfl, rfl, _⟩ | ⟨hlim, hpos, n, s2, ho, hrest⟩
  · exact OrderEffect.nothing s'.cachedLongMv s'.cachedShortMv (Memo.refl _)
  · have cf := closeShares_facts (cfg := cfg) (pt := sd.closes) (date := r.date) (sym := r.symbol)
      (fill := r.fill) hg.wf hg.ne hpos
    obtain ⟨a, b, hm, hoc⟩ := openSide_cases ho
    rcases hrest with ⟨rfl, rfl, hf, rfl⟩ | ⟨hnz, heq⟩
    · rcases hoc with ⟨_, hs⟩ | ⟨hn, _⟩
      · rw [cf.zero hf] at hs hm
        rw [hs]
        exact OrderEffect.nothing a b hm
      · exact absurd hn (lt_irrefl _)
    · obtain ⟨rfl, rfl⟩ := Prod.mk.inj heq
      rcases hoc with ⟨rfl, hs⟩ | ⟨hn, hle, hcl, hcap, hmode, hop⟩
      · rw [hs]
        have hfp : 0 < (closeShares cfg sd.closes s r.date r.symbol r.shares r.fill).filled :=
          lt_of_le_of_ne cf.filled_nonneg (fun h0 => hnz ⟨h0.symm, rfl⟩)
        simp only [add_zero]
        exact OrderEffect.closed _ a b rfl hfp hlim hm
      · obtain ⟨_, es, sda, ac, hs2, hadd⟩ := openShares_ok hop
        have hs2' : s2 = openedPf cfg (closeShares cfg sd.closes s r.date r.symbol r.shares
            r.fill).pf sd.opens r.date r.symbol n r.fill es sda ac := by
          rw [hs2]
          cases sd <;> rfl
        rw [hs2']
        exact OrderEffect.opened _ n es sda ac rfl hn hle hlim hcl hcap hmode hadd

theorem OrderEffect.good {cfg : Config} {sd : Side} {s : Portfolio} {r : OrderReq}
    {o : Option Order} {s' : Portfolio} (hg : Good s) (hpos : 0 ≤ r.shares) (hfill : 0 < r.fill)
    (h : OrderEffect cfg sd s r o s') : Good s' := by
  cases h with
  | nothing a b _ => exact hg.caches a b
  | closed c a b hc hf hlim hm =>
    rcases lt_or_eq_of_le hpos with h0 | h0
    · have cf := closeShares_facts (cfg := cfg) (pt := sd.closes) (date := r.date)
        (sym := r.symbol) (fill := r.fill) hg.wf hg.ne h0
      rw [← hc] at cf
      exact Good.addOrder _ _ _ _ _ _ _ _ _ _ _ (Good.caches ⟨cf.wf, cf.ne⟩ a b)
    · exfalso
      have : c.filled ≤ 0 := by
        rw [hc]
        unfold closeShares
        split
        · exact le_rfl
        · rename_i p hp
          have hd : ∀ es s' (p' : Position), (exitLoop cfg sd.closes r.date r.fill es 0 s' p').rem = 0 := by
            intro es s' p'
            cases es <;> simp [exitLoop]
          simp only
          rw [← h0, hd]
          simp
      linarith
  | opened c n es sda ac hc hn hle hlim hcl hcap hmode hadd =>
    have h0 : 0 < r.shares := by
      rcases lt_or_eq_of_le hpos with h0 | h0
      · exact h0
      · exfalso
        have : c.rem = 0 := by
          rw [hc, ← h0]
          unfold closeShares
          split
          · rfl
          · rename_i p hp
            cases p.entries <;> simp [exitLoop]
        linarith
    have cf := closeShares_facts (cfg := cfg) (pt := sd.closes) (date := r.date)
      (sym := r.symbol) (fill := r.fill) hg.wf hg.ne h0
    rw [← hc] at cf
    refine Good.addOrder _ _ _ _ _ _ _ _ _ _ _ ⟨?_, NE.opened cf.wf cf.ne⟩
    refine cf.wf.opened hn hfill ?_
    intro pt' hne
    have : pt' = sd.closes := (posType_ne hne (Side.closes_ne_opens sd).symm)
    rw [this]
    exact cf.gone (by linarith)

theorem placeOrder_good {cfg : Config} {sd : Side} {s : Portfolio} {r : OrderReq}
    {o : Option Order} {s' : Portfolio} (hg : Good s)
    (h : placeOrder cfg sd s r = .ok (o, s')) : Good s' := by
  obtain ⟨h1, h2, _⟩ := placeOrder_cases h
  exact (placeOrder_effect hg h).good hg h1 h2

/-- `exit_position` is at most one sell and then at most one buy. -/
theorem exitPosition_cases {cfg : Config} {s s' : Portfolio} {date : Date} {sym : Sym}
    {bf sf : ℚ} {slip : Option SlipFn}
    (h : exitPosition cfg s date sym bf sf slip = .ok s') :
    ∃ s1, ((lookupPos s.longs sym = none ∧ s1 = s) ∨
        ∃ p o, lookupPos s.longs sym = some p ∧
          placeOrder cfg .sell s {
            date := date, symbol := sym, shares := p.shares,
            fill := slipPrice slip .sell sym p.shares sf, marketPrice := some sf } = .ok (o, s1)) ∧
      ((lookupPos s1.shorts sym = none ∧ s' = s1) ∨
        ∃ p o, lookupPos s1.shorts sym = some p ∧
          placeOrder cfg .buy s1 {
            date := date, symbol := sym, shares := p.shares,
            fill := slipPrice slip .buy sym p.shares bf, marketPrice := some bf } = .ok (o, s')) := by
  unfold exitPosition at h
  simp only at h
  split at h
  · cases h
  · rename_i s1 h1
    refine ⟨s1, ?_, ?_⟩
    · split at h1
      · rename_i hn; cases h1; exact Or.inl ⟨hn, rfl⟩
      · rename_i p hp
        split at h1
        · cases h1
        · rename_i o s1' ho
          cases h1
          exact Or.inr ⟨p, o, hp, ho⟩
    · split at h
      · rename_i hn; cases h; exact Or.inl ⟨hn, rfl⟩
      · rename_i p hp
        split at h
        · cases h
        · rename_i o s1' ho
          cases h
          exact Or.inr ⟨p, o, hp, ho⟩

theorem exitPosition_good {cfg : Config} {s s' : Portfolio} {date : Date} {sym : Sym}
    {bf sf : ℚ} {slip : Option SlipFn} (hg : Good s)
    (h : exitPosition cfg s date sym bf sf slip = .ok s') : Good s' := by
  obtain ⟨s1, h1, h2⟩ := exitPosition_cases h
  have hg1 : Good s1 := by
    rcases h1 with ⟨_, rfl⟩ | ⟨p, o, _, ho⟩
    · exact hg
    · exact placeOrder_good hg ho
  rcases h2 with ⟨_, rfl⟩ | ⟨p, o, _, ho⟩
  · exact hg1
  · exact placeOrder_good hg1 ho

/-! ## capture_bar, incr_bars, stop removal -/

theorem map_coreP_replace {ps : List Position} {p q : Position}
    (hl : lookupPos ps q.symbol = some p) (hc : coreP p = coreP q) :
    (replacePos ps q).map coreP = ps.map coreP := by
  induction ps with
  | nil => rfl
  | cons a ps ih =>
    by_cases ha : a.symbol = q.symbol
    · simp [lookupPos, ha] at hl
      subst hl
      simp [replacePos, ha, hc]
    · simp [lookupPos, ha] at hl
      simp [replacePos, ha, ih hl]

theorem map_coreE_of {g : Entry → Entry} (hg : ∀ e, coreE (g e) = coreE e) (es : List Entry) :
    (es.map g).map coreE = es.map coreE := by
  simp [List.map_map, Function.comp_def, hg]

theorem coreE_excursion (pt : PosType) (l h : Option ℚ) (e : Entry) :
    coreE (e.excursion pt l h) = coreE e := rfl

theorem coreP_markLong (p : Position) (c : ℚ) (l h : Option ℚ) :
    coreP (p.markLong c l h) = coreP p := by
  simp only [coreP, Position.markLong, Position.calcPnl, Position.clearUnmarked]
  rw [map_coreE_of (coreE_excursion _ _ _)]

theorem coreP_markShort (p : Position) (c : ℚ) (l h : Option ℚ) :
    coreP (p.markShort c l h) = coreP p := by
  simp only [coreP, Position.markShort, Position.calcPnl, Position.clearUnmarked]
  rw [map_coreE_of (coreE_excursion _ _ _)]

/-- The parts of a portfolio that marking leaves alone. -/
structure SameCore (s t : Portfolio) : Prop where
  books : ∀ pt, (s.book pt).map coreP = (t.book pt).map coreP
  symbols : t.symbols = s.symbols
  notional : ∀ pt, t.notional pt = s.notional pt
  entryId : t.entryId = s.entryId

theorem SameCore.refl (s : Portfolio) : SameCore s s := ⟨fun _ => rfl, rfl, fun _ => rfl, rfl⟩

theorem SameCore.trans {s t u : Portfolio} (h : SameCore s t) (h' : SameCore t u) :
    SameCore s u :=
  ⟨fun pt => (h.books pt).trans (h'.books pt), h'.symbols.trans h.symbols,
    fun pt => (h'.notional pt).trans (h.notional pt), h'.entryId.trans h.entryId⟩

theorem Good.same {s t : Portfolio} (h : Good s) (hc : SameCore s t) : Good t :=
  h.congr hc.books hc.symbols hc.notional hc.entryId

theorem captureLong_same (q : BarQuote) (acc : CaptureAcc) (sym : Sym) :
    SameCore acc.pf (captureLong q acc sym).pf := by
  unfold captureLong
  split
  · exact SameCore.refl _
  · rename_i p hp
    obtain ⟨_, hs⟩ := lookupPos_some hp
    split
    · rename_i c hc
      refine ⟨?_, rfl, fun pt => by cases pt <;> rfl, rfl⟩
      intro pt
      cases pt
      · refine (map_coreP_replace (p := p) ?_ (coreP_markLong p c q.low q.high).symm).symm
        rw [show (p.markLong c q.low q.high).symbol = sym from hs]; exact hp
      · rfl
    · exact SameCore.refl _

theorem captureShort_same (q : BarQuote) (acc : CaptureAcc) (sym : Sym) :
    SameCore acc.pf (captureShort q acc sym).pf := by
  unfold captureShort
  split
  · exact SameCore.refl _
  · rename_i p hp
    obtain ⟨_, hs⟩ := lookupPos_some hp
    split
    · rename_i c hc
      refine ⟨?_, rfl, fun pt => by cases pt <;> rfl, rfl⟩
      intro pt
      cases pt
      · rfl
      · refine (map_coreP_replace (p := p) ?_ (coreP_markShort p c q.low q.high).symm).symm
        rw [show (p.markShort c q.low q.high).symbol = sym from hs]; exact hp
    · exact SameCore.refl _

theorem captureFold_same (quote : Sym → BarQuote) (syms : List Sym) (acc : CaptureAcc) :
    SameCore acc.pf (syms.foldl (captureSym quote) acc).pf := by
  induction syms generalizing acc with
  | nil => exact SameCore.refl _
  | cons sym syms ih =>
    exact ((captureLong_same (quote sym) acc sym).trans
      (captureShort_same (quote sym) _ sym)).trans (ih _)

theorem applyInterest_frame (cfg : Config) (s : Portfolio) :
    ∃ c a, s.applyInterest cfg = { s with cash := c, accrued := a } := by
  have hs : ∃ c a, s.sweepAccrued = { s with cash := c, accrued := a } := by
    unfold Portfolio.sweepAccrued
    split
    · exact ⟨s.cash, s.accrued, rfl⟩
    · exact ⟨_, _, rfl⟩
  obtain ⟨c, a, hs⟩ := hs
  unfold Portfolio.applyInterest
  split
  · exact ⟨s.cash, s.accrued, rfl⟩
  · split
    · exact ⟨s.cash, s.accrued, rfl⟩
    · simp only
      rw [hs]
      split
      · exact ⟨_, _, rfl⟩
      · split
        · exact ⟨_, _, rfl⟩
        · exact ⟨_, _, rfl⟩

theorem captureBar_same (cfg : Config) (s : Portfolio) (date : Date) (quote : Sym → BarQuote) :
    SameCore s (captureBar cfg s date quote) := by
  obtain ⟨c, a, hs⟩ := applyInterest_frame cfg s
  have h0 : SameCore s (s.applyInterest cfg) := by
    rw [hs]
    exact ⟨fun pt => by cases pt <;> rfl, rfl, fun pt => by cases pt <;> rfl, rfl⟩
  have h1 : SameCore s (captureAcc cfg s quote).pf := by
    refine h0.trans ?_
    have := captureFold_same quote
      ((s.applyInterest cfg).symbols.insertionSort (fun a b => a ≤ b))
      { pf := s.applyInterest cfg, equity := (s.applyInterest cfg).netCash cfg,
        marketValue := (s.applyInterest cfg).netCash cfg, margin := 0, longValue := 0 }
    exact this
  refine h1.trans ?_
  exact ⟨fun pt => by cases pt <;> rfl, rfl, fun pt => by cases pt <;> rfl, rfl⟩

theorem coreP_incrBars (h : Sym → Bool) (p : Position) : coreP (p.incrBars h) = coreP p := by
  simp only [coreP, Position.incrBars]
  rw [map_coreE_of]
  intro e; rfl

theorem incrBars_same (s : Portfolio) (h : Sym → Bool) : SameCore s (incrBars s h) := by
  refine ⟨?_, rfl, fun pt => by cases pt <;> rfl, rfl⟩
  intro pt
  cases pt <;>
    simp [incrBars, Portfolio.book, List.map_map, Function.comp_def, coreP_incrBars]

theorem map_coreE_modEntry {g : Entry → Entry} (hg : ∀ e, coreE (g e) = coreE e) (id : Nat)
    (es : List Entry) : (modEntry id g es).map coreE = es.map coreE := by
  induction es with
  | nil => rfl
  | cons a es ih =>
    by_cases ha : a.id = id
    · simp [modEntry, ha, hg]
    · simp [modEntry, ha, ih]

theorem map_coreP_modEntryBook {g : Entry → Entry} (hg : ∀ e, coreE (g e) = coreE e) (id : Nat)
    (ps : List Position) : (modEntryBook id g ps).map coreP = ps.map coreP := by
  simp [modEntryBook, List.map_map, Function.comp_def, coreP, map_coreE_modEntry hg]

theorem map_coreE_dropStop (id : Nat) (es : List Entry) :
    (dropStopEntries id es).1.map coreE = es.map coreE := by
  induction es with
  | nil => rfl
  | cons a es ih =>
    unfold dropStopEntries
    split
    · rfl
    · simp [ih]

theorem map_coreP_dropStop (id : Nat) (ps : List Position) :
    (dropStopBook id ps).1.map coreP = ps.map coreP := by
  induction ps with
  | nil => rfl
  | cons a ps ih =>
    unfold dropStopBook
    simp only
    split
    · simp [coreP, map_coreE_dropStop]
    · simp [ih]

theorem removeStop_same (s : Portfolio) (id : Nat) : SameCore s (removeStop s id).2 := by
  unfold removeStop
  split
  · refine ⟨?_, rfl, fun pt => by cases pt <;> rfl, rfl⟩
    intro pt
    cases pt
    · exact (map_coreP_modEntryBook (by intro e; rfl) _ _).symm
    · exact (map_coreP_modEntryBook (by intro e; rfl) _ _).symm
  · simp only
    split
    · refine ⟨?_, rfl, fun pt => by cases pt <;> rfl, rfl⟩
      intro pt
      cases pt
      · exact (map_coreP_dropStop _ _).symm
      · rfl
    · split
      · refine ⟨?_, rfl, fun pt => by cases pt <;> rfl, rfl⟩
        intro pt
        cases pt
        · rfl
        · exact (map_coreP_dropStop _ _).symm
      · exact SameCore.refl _

theorem removeEntryStops_same (s : Portfolio) (e : Entry) (t : Option StopType) :
    SameCore s (removeEntryStops s e t) := by
  unfold removeEntryStops
  split
  · refine ⟨?_, by simp, ?_, by simp⟩
    · intro pt
      cases pt
      · refine Eq.symm ((map_coreP_modEntryBook (by intro e; rfl) _ _).trans ?_)
        have := removeStopData_book s e.stops .long
        exact congrArg (List.map coreP) this
      · refine Eq.symm ((map_coreP_modEntryBook (by intro e; rfl) _ _).trans ?_)
        have := removeStopData_book s e.stops .short
        exact congrArg (List.map coreP) this
    · intro pt
      have := removeStopData_notional s e.stops pt
      cases pt <;> exact this
  · split
    · exact SameCore.refl _
    · exact removeStop_same _ _

theorem removeStopsEntry_same (s : Portfolio) (id : Nat) (t : Option StopType) :
    SameCore s (removeStopsEntry s id t) := by
  unfold removeStopsEntry
  split
  · exact SameCore.refl _
  · exact removeEntryStops_same _ _ _

theorem removePositionStops_same (s : Portfolio) (p : Position) (t : Option StopType) :
    SameCore s (removePositionStops s p t) := by
  unfold removePositionStops
  generalize p.entries = es
  induction es generalizing s with
  | nil => exact SameCore.refl _
  | cons e es ih => exact (removeStopsEntry_same s e.id t).trans (ih _)

theorem removeStopsSym_same (s : Portfolio) (sym : Sym) (t : Option StopType) :
    SameCore s (removeStopsSym s sym t) := by
  unfold removeStopsSym
  simp only
  have h1 : SameCore s (match lookupPos s.longs sym with
      | none => s
      | some p => removePositionStops s p t) := by
    split
    · exact SameCore.refl _
    · exact removePositionStops_same _ _ _
  split
  · exact h1
  · exact h1.trans (removePositionStops_same _ _ _)

end PyBroker
