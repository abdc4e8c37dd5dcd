import Verif.Portfolio.Inv

/-!
# Helper lemmas: properties of all positions, caps, modes, marks and memos
-/

namespace PyBroker

/-- A property of every position and its side. -/
def AllPos (R : PosType → Position → Prop) (s : Portfolio) : Prop := ∀ pt, ∀ p ∈ s.book pt, R pt p

/-- Closure conditions under which `AllPos R` is an invariant. -/
structure PosRules (R : PosType → Position → Prop) : Prop where
  take : ∀ (pt : PosType) (Z : List Nat) (p : Position) (e : Entry) (sh : ℚ), PosWF pt Z p →
    findEntry p.entries e.id = some e → 0 < sh → sh ≤ e.shares → R pt p → R pt (p.takeShares e sh)
  entries : ∀ (pt : PosType) (p : Position) (es : List Entry), R pt p →
    R pt { p with entries := es }
  new : ∀ (s : Portfolio) (pt : PosType) (date : Date) (sym : Sym) (n fill : ℚ) (es : List Stop),
    0 < n → 0 < fill → R pt (openedPos s pt date sym n fill es none)
  add : ∀ (s : Portfolio) (pt : PosType) (date : Date) (sym : Sym) (n fill : ℚ) (es : List Stop)
    (p : Position), 0 < n → 0 < fill → R pt p → R pt (openedPos s pt date sym n fill es (some p))
  markLong : ∀ (p : Position) (c : ℚ) (l h : Option ℚ) (Z : List Nat), PosWF .long Z p →
    R .long p → R .long (p.markLong c l h)
  markShort : ∀ (p : Position) (c : ℚ) (l h : Option ℚ) (Z : List Nat), PosWF .short Z p →
    R .short p → R .short (p.markShort c l h)
  bars : ∀ (pt : PosType) (p : Position) (b : Nat), R pt p → R pt { p with bars := b }

theorem AllPos.frame {R : PosType → Position → Prop} {s t : Portfolio}
    (h : AllPos R s) (hb : ∀ pt, t.book pt = s.book pt) : AllPos R t := by
  intro pt p hp; rw [hb] at hp; exact h pt p hp

theorem AllPos.replace {R : PosType → Position → Prop} {s t : Portfolio} {pt : PosType}
    {q : Position} (h : AllPos R s) (hn : ((s.book pt).map Position.symbol).Nodup)
    (hq : R pt q) (hb : t.book pt = replacePos (s.book pt) q)
    (hb' : ∀ pt', pt ≠ pt' → t.book pt' = s.book pt') : AllPos R t := by
  intro pt' p hp
  by_cases hpt : pt = pt'
  · subst hpt
    rw [hb] at hp
    rcases mem_replacePos hn hp with rfl | ⟨hp, _⟩
    · exact hq
    · exact h pt p hp
  · rw [hb' pt' hpt] at hp; exact h pt' p hp

theorem AllPos.captureLong {R : PosType → Position → Prop} (hr : PosRules R)
    {acc : CaptureAcc} (q : BarQuote) (sym : Sym) (ht : WF [] acc.pf)
    (h : AllPos R acc.pf) : AllPos R (captureLong q acc sym).pf := by
  unfold PyBroker.captureLong
  split
  · exact h
  · rename_i p hp
    obtain ⟨hpm, hps⟩ := lookupPos_some hp
    split
    · rename_i c hc
      refine h.replace (pt := .long) (q := p.markLong c q.low q.high) (ht.nodup .long)
        (hr.markLong _ _ _ _ _ (ht.pos .long p hpm) (h .long p hpm)) rfl ?_
      intro pt' hne; cases pt'
      · exact absurd rfl hne
      · rfl
    · exact h

theorem AllPos.captureShort {R : PosType → Position → Prop} (hr : PosRules R)
    {acc : CaptureAcc} (q : BarQuote) (sym : Sym) (ht : WF [] acc.pf)
    (h : AllPos R acc.pf) : AllPos R (captureShort q acc sym).pf := by
  unfold PyBroker.captureShort
  split
  · exact h
  · rename_i p hp
    obtain ⟨hpm, hps⟩ := lookupPos_some hp
    split
    · rename_i c hc
      refine h.replace (pt := .short) (q := p.markShort c q.low q.high) (ht.nodup .short)
        (hr.markShort _ _ _ _ _ (ht.pos .short p hpm) (h .short p hpm)) rfl ?_
      intro pt' hne; cases pt'
      · rfl
      · exact absurd rfl hne
    · exact h

theorem WF.same {Z : List Nat} {s t : Portfolio} (h : WF Z s) (hc : SameCore s t) : WF Z t :=
  h.congr hc.books hc.symbols hc.notional hc.entryId

theorem AllPos.captureFold {R : PosType → Position → Prop} (hr : PosRules R)
    (quote : Sym → BarQuote) (syms : List Sym) (acc : CaptureAcc) (ht : WF [] acc.pf)
    (h : AllPos R acc.pf) : AllPos R (syms.foldl (captureSym quote) acc).pf := by
  induction syms generalizing acc with
  | nil => exact h
  | cons sym syms ih =>
    have h1 := captureLong_same (quote sym) acc sym
    have h2 := captureShort_same (quote sym) (PyBroker.captureLong (quote sym) acc sym) sym
    exact ih _ (ht.same (h1.trans h2))
      (AllPos.captureShort hr _ _ (ht.same h1) (AllPos.captureLong hr _ _ ht h))

theorem applyInterest_book (cfg : Config) (s : Portfolio) (pt : PosType) :
    (s.applyInterest cfg).book pt = s.book pt := by
  obtain ⟨c, a, hf⟩ := applyInterest_frame cfg s
  rw [hf]; cases pt <;> rfl

theorem applyInterest_same (cfg : Config) (s : Portfolio) : SameCore s (s.applyInterest cfg) := by
  obtain ⟨c, a, hf⟩ := applyInterest_frame cfg s
  refine ⟨fun pt => by rw [applyInterest_book], by rw [hf], fun pt => ?_, by rw [hf]⟩
  rw [hf]; cases pt <;> rfl

theorem AllPos.captureBar {R : PosType → Position → Prop} (hr : PosRules R)
    {cfg : Config} {s : Portfolio} (date : Date) (quote : Sym → BarQuote) (ht : WF [] s)
    (h : AllPos R s) : AllPos R (captureBar cfg s date quote) := by
  have k := AllPos.captureFold hr quote
      ((s.applyInterest cfg).symbols.insertionSort (fun a b => a ≤ b))
      { pf := s.applyInterest cfg, equity := (s.applyInterest cfg).netCash cfg,
        marketValue := (s.applyInterest cfg).netCash cfg, margin := 0, longValue := 0 }
      (ht.same (applyInterest_same cfg s)) (h.frame (applyInterest_book cfg s))
  exact k.frame (fun pt => by cases pt <;> rfl)

theorem AllPos.modBook {R : PosType → Position → Prop} (hr : PosRules R) {s t : Portfolio}
    (h : AllPos R s) (id : Nat) (g : Entry → Entry)
    (hb : ∀ pt, t.book pt = modEntryBook id g (s.book pt)) : AllPos R t := by
  intro pt p hp
  rw [hb] at hp
  obtain ⟨p0, hp0, rfl⟩ := List.mem_map.1 hp
  exact hr.entries _ _ _ (h pt p0 hp0)

theorem AllPos.dropStop {R : PosType → Position → Prop} (hr : PosRules R) {id : Nat}
    {pt : PosType} {ps : List Position} (h : ∀ p ∈ ps, R pt p) :
    ∀ p ∈ (dropStopBook id ps).1, R pt p := by
  intro q hq
  obtain ⟨p, hp, hqp, hl⟩ := mem_dropStopBook hq
  rw [hqp]
  exact hr.entries _ _ _ (h p hp)

theorem AllPos.removeStop {R : PosType → Position → Prop} (hr : PosRules R)
    {s : Portfolio} (id : Nat) (h : AllPos R s) : AllPos R (removeStop s id).2 := by
  unfold PyBroker.removeStop
  split
  · rename_i d hd
    refine h.modBook hr d.entryId (fun e => { e with stops := e.stops.erase d.stop }) ?_
    intro pt; cases pt <;> rfl
  · simp only
    split
    · intro pt; cases pt
      · exact AllPos.dropStop hr (h .long)
      · exact h .short
    · split
      · intro pt; cases pt
        · exact h .long
        · exact AllPos.dropStop hr (h .short)
      · exact h

theorem AllPos.prim {R : PosType → Position → Prop} (hr : PosRules R) {cfg : Config}
    {Q : Guard} {s t : Portfolio} (hp : Prim cfg Q s t) (h : AllPos R s) :
    AllPos R t := by
  cases hp with
  | @exit Z _ pt p e sh fill date st hw hp he hz h0 hle hQ =>
    obtain ⟨hpm, hps⟩ := lookupPos_some hp
    refine h.replace (pt := pt) (q := p.takeShares e sh) (hw.nodup pt)
      (hr.take pt Z p e sh (hw.pos pt p hpm) he h0 hle (h pt p hpm)) ?_ ?_
    · rw [store_book, exitPf_book]
    · intro pt' hne; rw [store_book_ne _ _ hne, exitPf_book]
  | @drop Z _ pt p e hw hp he hz =>
    obtain ⟨hpm, hps⟩ := lookupPos_some hp
    refine h.replace (pt := pt) (q := { p with entries := eraseEntry p.entries e.id })
      (hw.nodup pt) (hr.entries _ _ _ (h pt p hpm)) ?_ ?_
    · rw [store_book, removeStopData_book]
    · intro pt' hne; rw [store_book_ne _ _ hne, removeStopData_book]
  | @close Z _ pt p hw hp hnil =>
    intro pt' q hq
    have hq2 : q ∈ (s.setBook pt (erasePos (s.book pt) p.symbol)).book pt' := by
      cases pt' <;> exact hq
    by_cases hpt : pt = pt'
    · subst hpt
      rw [book_setBook] at hq2
      exact h pt q ((erasePos_sublist _ _).subset hq2)
    · rw [book_setBook_ne _ _ hpt] at hq2
      exact h pt' q hq2
  | @opened _ sd date sym n m fill stops es sda ac hw h0 hf hno hclamp hnm hcap hmode hfit hS hadd =>
    intro pt' q hq
    by_cases hpt : sd.opens = pt'
    · subst hpt
      rw [openedPf_book] at hq
      unfold openedBook at hq
      split at hq
      · rcases List.mem_append.1 hq with hq | hq
        · exact h _ q hq
        · rw [List.mem_singleton] at hq
          subst hq
          exact hr.new _ _ _ _ _ _ _ h0 hf
      · rename_i p hp
        obtain ⟨hpm, hps⟩ := lookupPos_some hp
        rcases mem_replacePos (hw.nodup _) hq with rfl | ⟨hq, _⟩
        · exact hr.add _ _ _ _ _ _ _ _ h0 hf (h _ p hpm)
        · exact h _ q hq
    · rw [openedPf_book_ne _ _ _ _ _ _ _ _ _ _ hpt] at hq
      exact h _ q hq
  | order h0 hlim hQ => exact h.frame (fun pt => by simp)
  | caches hm => exact h.frame (fun pt => by cases pt <;> rfl)
  | stopValue id v => exact h.frame (fun pt => by cases pt <;> rfl)
  | incr hasBar =>
    intro pt q hq
    have hq2 : q ∈ (s.book pt).map (Position.incrBars hasBar) := by cases pt <;> exact hq
    obtain ⟨p, hp, rfl⟩ := List.mem_map.1 hq2
    exact hr.entries pt { p with bars := p.bars + 1 } _ (hr.bars _ _ _ (h pt p hp))
  | removeStop id hw => exact AllPos.removeStop hr id h
  | @clearStops _ pt p e hw hp he =>
    refine h.modBook hr e.id (fun e' => { e' with stops := [] }) ?_
    intro pt; cases pt
    · exact congrArg (modEntryBook e.id _) (removeStopData_book s e.stops .long)
    · exact congrArg (modEntryBook e.id _) (removeStopData_book s e.stops .short)

/-! ## Marks -/

/-- Unmarked shares are between zero and the shares held. -/
structure MarkOK (p : Position) : Prop where
  nonneg : 0 ≤ p.unmarkedShares
  le : p.unmarkedShares ≤ p.shares
  zero : p.unmarkedShares = 0 → p.unmarkedNotional = 0

theorem markOK_rules : PosRules (fun _ p => MarkOK p) where
  take := by
    intro pt Z p e sh hw he h0 hle ⟨h1, h2, h3⟩
    obtain ⟨hem, _⟩ := findEntry_some he
    have hs : sh ≤ p.shares := by
      have hsum := hw.shares
      have : e.shares ≤ (p.entries.map Entry.shares).sum := by
        refine List.single_le_sum ?_ _ (List.mem_map_of_mem hem)
        intro x hx
        obtain ⟨f, hf, rfl⟩ := List.mem_map.1 hx
        rcases (hw.entries f hf).shares with h | h
        · rw [h.2]
        · exact h.2.le
      linarith
    unfold Position.takeShares Position.clampUnmarked
    simp only
    split
    · rename_i h
      have : p.unmarkedShares = 0 := le_antisymm h h1
      exact ⟨h1, by simp only; linarith, h3⟩
    · split
      · refine ⟨le_refl _, ?_, fun _ => rfl⟩; simp only; linarith
      · split
        · refine ⟨?_, le_refl _, ?_⟩
          · simp only; linarith
          · simp only; intro h; rename_i hc _; exact absurd (le_of_eq h) hc
        · rename_i hle'
          exact ⟨h1, not_lt.1 hle', h3⟩
  entries := fun _ _ _ h => ⟨h.nonneg, h.le, h.zero⟩
  new := by
    intro s pt date sym n fill es h0 hf
    refine ⟨?_, ?_, ?_⟩ <;> simp [openedPos] <;> intros <;> linarith
  add := by
    intro s pt date sym n fill es p h0 hf ⟨h1, h2, h3⟩
    refine ⟨?_, ?_, ?_⟩ <;> simp only [openedPos]
    · linarith
    · linarith
    · intro h; linarith
  markLong := by
    intro p c l h Z hw hm
    exact ⟨le_refl _, hm.nonneg.trans hm.le, fun _ => rfl⟩
  markShort := by
    intro p c l h Z hw hm
    exact ⟨le_refl _, hm.nonneg.trans hm.le, fun _ => rfl⟩
  bars := fun _ _ _ h => ⟨h.nonneg, h.le, h.zero⟩

/-- A position with no entries has no value. -/
theorem markedValue_nil {pt : PosType} {Z : List Nat} {p : Position} (hw : PosWF pt Z p)
    (hm : MarkOK p) (hnil : p.entries = []) : p.markedValue = 0 := by
  have h1 : p.shares = 0 := by rw [hw.shares, hnil]; rfl
  have h2 : p.entryNotional = 0 := by rw [hw.notional, hnil]; rfl
  have h3 : p.unmarkedShares = 0 := le_antisymm (by rw [← h1]; exact hm.le) hm.nonneg
  have h4 := hm.zero h3
  unfold Position.markedValue
  split
  · exact h2
  · simp [h1, h3, h4]

/-- The memoised market values are either absent or current. -/
structure CacheOK (s : Portfolio) : Prop where
  long : s.cachedLongMv = none ∨ s.cachedLongMv = some (sumMarked s.longs)
  short : s.cachedShortMv = none ∨ s.cachedShortMv = some (sumMarked s.shorts)

theorem sumMarked_congr {ps qs : List Position}
    (h : ps.map Position.markedValue = qs.map Position.markedValue) :
    sumMarked ps = sumMarked qs := by unfold sumMarked; rw [h]

theorem map_marked_modEntryBook (id : Nat) (g : Entry → Entry) (ps : List Position) :
    (modEntryBook id g ps).map Position.markedValue = ps.map Position.markedValue := by
  unfold modEntryBook
  rw [List.map_map]
  rfl

theorem map_marked_dropStopBook (id : Nat) (ps : List Position) :
    (dropStopBook id ps).1.map Position.markedValue = ps.map Position.markedValue := by
  induction ps with
  | nil => rfl
  | cons p ps ih =>
    unfold dropStopBook
    simp only
    split
    · rfl
    · simp only [List.map_cons, ih]

theorem map_marked_replacePos {ps : List Position} {p q : Position}
    (hp : lookupPos ps q.symbol = some p) (hq : q.markedValue = p.markedValue) :
    (replacePos ps q).map Position.markedValue = ps.map Position.markedValue := by
  induction ps with
  | nil => rfl
  | cons a ps ih =>
    unfold lookupPos at hp
    unfold replacePos
    by_cases h : a.symbol = q.symbol
    · rw [if_pos h] at hp ⊢
      cases hp
      simp [hq]
    · rw [if_neg h] at hp ⊢
      simp [ih hp]

theorem CacheOK.same {s t : Portfolio} (h : CacheOK s) (h1 : t.cachedLongMv = s.cachedLongMv)
    (h2 : t.cachedShortMv = s.cachedShortMv)
    (hb : ∀ pt, (t.book pt).map Position.markedValue = (s.book pt).map Position.markedValue) :
    CacheOK t := by
  have e1 : sumMarked t.longs = sumMarked s.longs := sumMarked_congr (hb .long)
  have e2 : sumMarked t.shorts = sumMarked s.shorts := sumMarked_congr (hb .short)
  exact ⟨by rw [h1, e1]; exact h.long, by rw [h2, e2]; exact h.short⟩

/-- Marks and memos together. -/
structure MarksInv (s : Portfolio) : Prop where
  pos : AllPos (fun _ p => MarkOK p) s
  cache : CacheOK s

theorem MarksInv.prim {cfg : Config} {Q : Guard} {s t : Portfolio} (hp : Prim cfg Q s t)
    (h : MarksInv s) : MarksInv t := by
  refine ⟨AllPos.prim markOK_rules hp h.pos, ?_⟩
  cases hp with
  | @exit Z _ pt p e sh fill date st hw hp he hz h0 hle hQ =>
    constructor <;> left <;> cases pt <;> rfl
  | @drop Z _ pt p e hw hp he hz =>
    obtain ⟨sd, ac, hf⟩ := removeStopData_frame e.stops s
    refine h.cache.same ?_ ?_ ?_
    · rw [hf]; cases pt <;> rfl
    · rw [hf]; cases pt <;> rfl
    · intro pt'
      by_cases hpt : pt = pt'
      · subst hpt
        rw [store_book, removeStopData_book]
        exact map_marked_replacePos (p := p) hp rfl
      · rw [store_book_ne _ _ hpt, removeStopData_book]
  | @close Z _ pt p hw hp hnil =>
    obtain ⟨hpm, hps⟩ := lookupPos_some hp
    have hv := markedValue_nil (hw.pos pt p hpm) (h.pos pt p hpm) hnil
    have hsum : sumMarked (erasePos (s.book pt) p.symbol) = sumMarked (s.book pt) := by
      unfold sumMarked
      rw [sum_erasePos Position.markedValue hp, hv]; ring
    cases pt
    · refine ⟨?_, h.cache.short⟩
      have := h.cache.long
      rw [show s.longs = s.book .long from rfl, ← hsum] at this
      exact this
    · refine ⟨h.cache.long, ?_⟩
      have := h.cache.short
      rw [show s.shorts = s.book .short from rfl, ← hsum] at this
      exact this
  | @opened _ sd date sym n m fill stops es sda ac hw h0 hf hno hclamp hnm hcap hmode hfit hS hadd =>
    exact ⟨Or.inl rfl, Or.inl rfl⟩
  | order h0 hlim hQ => exact h.cache.same rfl rfl (fun pt => by simp)
  | caches hm =>
    constructor
    · rcases hm.1 with h1 | h1
      · simp only [h1]; exact h.cache.long
      · right; exact h1
    · rcases hm.2 with h1 | h1
      · simp only [h1]; exact h.cache.short
      · right; exact h1
  | stopValue id v => exact h.cache.same rfl rfl (fun pt => by cases pt <;> rfl)
  | incr hasBar =>
    refine h.cache.same rfl rfl (fun pt => ?_)
    have : (incrBars s hasBar).book pt = (s.book pt).map (Position.incrBars hasBar) := by
      cases pt <;> rfl
    rw [this, List.map_map]
    rfl
  | removeStop id hw =>
    unfold PyBroker.removeStop
    split
    · refine h.cache.same rfl rfl (fun pt => ?_)
      cases pt <;> exact map_marked_modEntryBook _ _ _
    · simp only
      split
      · refine h.cache.same rfl rfl (fun pt => ?_)
        cases pt
        · exact map_marked_dropStopBook _ _
        · rfl
      · split
        · refine h.cache.same rfl rfl (fun pt => ?_)
          cases pt
          · rfl
          · exact map_marked_dropStopBook _ _
        · exact h.cache
  | @clearStops _ pt p e hw hp he =>
    obtain ⟨sd, ac, hf⟩ := removeStopData_frame e.stops s
    unfold removeEntryStops
    simp only [hf]
    refine h.cache.same rfl rfl (fun pt => ?_)
    cases pt <;> exact map_marked_modEntryBook _ _ _

theorem MarksInv.capture {cfg : Config} {s : Portfolio} (date : Date) (quote : Sym → BarQuote)
    (hw : WF [] s) (h : MarksInv s) : MarksInv (captureBar cfg s date quote) :=
  ⟨AllPos.captureBar markOK_rules date quote hw h.pos, ⟨Or.inl rfl, Or.inl rfl⟩⟩

theorem MarksInv.init (cfg : Config) : MarksInv (Portfolio.init cfg) := by
  refine ⟨?_, ⟨Or.inl rfl, Or.inl rfl⟩⟩
  intro pt p hp
  cases pt <;> simp [Portfolio.init, Portfolio.book] at hp

/-- Exact values read through the memos. -/
theorem CacheOK.longMv {s : Portfolio} (h : CacheOK s) :
    s.longMarketValue.1 = sumMarked s.longs := by
  unfold Portfolio.longMarketValue
  rcases h.long with h1 | h1 <;> rw [h1]

theorem CacheOK.shortMv {s : Portfolio} (h : CacheOK s) :
    s.shortMarketValue.1 = sumMarked s.shorts := by
  unfold Portfolio.shortMarketValue
  rcases h.short with h1 | h1 <;> rw [h1]

/-! ## Caps and modes -/

/-- The caps and the position mode. -/
structure LimitsInv (cfg : Config) (s : Portfolio) : Prop where
  cap : ∀ pt m, cfg.cap pt = some m → (s.book pt).length ≤ m
  mode : ∀ pt, ¬ cfg.allows pt → s.book pt = []

theorem LimitsInv.shrink {cfg : Config} {s t : Portfolio} (h : LimitsInv cfg s)
    (hl : ∀ pt, (t.book pt).length ≤ (s.book pt).length) : LimitsInv cfg t := by
  constructor
  · intro pt m hm; exact (hl pt).trans (h.cap pt m hm)
  · intro pt hm
    have := hl pt
    rw [h.mode pt hm] at this
    exact List.length_eq_zero_iff.1 (by simpa using this)

theorem length_of_core {s t : Portfolio} (h : SameCore s t) (pt : PosType) :
    (t.book pt).length ≤ (s.book pt).length := by
  have := congrArg List.length (h.books pt)
  simp at this
  omega

theorem length_replacePos (ps : List Position) (q : Position) :
    (replacePos ps q).length = ps.length := by
  induction ps with
  | nil => rfl
  | cons p ps ih => unfold replacePos; split <;> simp [ih]

theorem LimitsInv.prim {cfg : Config} {Q : Guard} {s t : Portfolio} (hp : Prim cfg Q s t)
    (h : LimitsInv cfg s) : LimitsInv cfg t := by
  cases hp with
  | @exit Z _ pt p e sh fill date st hw hp he hz h0 hle hQ =>
    refine h.shrink (fun pt' => ?_)
    by_cases hpt : pt = pt'
    · subst hpt; rw [store_book, exitPf_book, length_replacePos]
    · rw [store_book_ne _ _ hpt, exitPf_book]
  | @drop Z _ pt p e hw hp he hz =>
    refine h.shrink (fun pt' => ?_)
    by_cases hpt : pt = pt'
    · subst hpt; rw [store_book, removeStopData_book, length_replacePos]
    · rw [store_book_ne _ _ hpt, removeStopData_book]
  | @close Z _ pt p hw hp hnil =>
    refine h.shrink (fun pt' => ?_)
    have : ({ s.setBook pt (erasePos (s.book pt) p.symbol) with
        symbols := s.symbols.erase p.symbol } : Portfolio).book pt' =
        (s.setBook pt (erasePos (s.book pt) p.symbol)).book pt' := by cases pt' <;> rfl
    rw [this]
    by_cases hpt : pt = pt'
    · subst hpt; rw [book_setBook]; exact (erasePos_sublist _ _).length_le
    · rw [book_setBook_ne _ _ hpt]
  | @opened _ sd date sym n m fill stops es sda ac hw h0 hf hno hclamp hnm hcap hmode hfit hS hadd =>
    constructor
    · intro pt m hm
      by_cases hpt : sd.opens = pt
      · subst hpt
        rw [openedPf_book]
        unfold openedBook
        split
        · rename_i hnone
          unfold capReached at hcap
          rw [hm] at hcap
          simp only [hnone, Option.isNone_none, Bool.true_and, decide_eq_false_iff_not, not_le] at hcap
          simp only [List.length_append, List.length_singleton]
          omega
        · rw [length_replacePos]; exact h.cap _ m hm
      · rw [openedPf_book_ne _ _ _ _ _ _ _ _ _ _ hpt]; exact h.cap pt m hm
    · intro pt hm
      by_cases hpt : sd.opens = pt
      · subst hpt; exact absurd hmode hm
      · rw [openedPf_book_ne _ _ _ _ _ _ _ _ _ _ hpt]; exact h.mode pt hm
  | order h0 hlim hQ => exact h.shrink (fun pt => by simp)
  | caches hm => exact h.shrink (fun pt => by cases pt <;> exact le_refl _)
  | stopValue id v => exact h.shrink (fun pt => by cases pt <;> exact le_refl _)
  | incr hasBar => exact h.shrink (length_of_core (incrBars_same s hasBar))
  | removeStop id hw => exact h.shrink (length_of_core (removeStop_same s id))
  | @clearStops _ pt p e hw hp he => exact h.shrink (length_of_core (removeEntryStops_same s e none))

theorem LimitsInv.capture {cfg : Config} {s : Portfolio} (date : Date) (quote : Sym → BarQuote)
    (h : LimitsInv cfg s) : LimitsInv cfg (captureBar cfg s date quote) :=
  h.shrink (length_of_core (captureBar_same cfg s date quote))

theorem LimitsInv.init (cfg : Config) : LimitsInv cfg (Portfolio.init cfg) := by
  constructor <;> intro pt <;> cases pt <;> simp [Portfolio.init, Portfolio.book]

/-! ## Debt -/

theorem sweep_nonneg {s : Portfolio} (h : 0 ≤ s.accrued) : 0 ≤ s.sweepAccrued.accrued := by
  unfold Portfolio.sweepAccrued
  split
  · exact h
  · simp only
    have := min_le_right s.cash s.accrued
    linarith

theorem applyInterest_accrued {cfg : Config} {s : Portfolio} (h : 0 ≤ s.accrued) :
    0 ≤ (s.applyInterest cfg).accrued := by
  unfold Portfolio.applyInterest
  split
  · exact h
  · rename_i n _
    split
    · exact h
    · rename_i hr
      have h1 := sweep_nonneg h
      simp only
      split
      · exact h1
      · split
        · simp only
          have : 0 ≤ cfg.interestRate / 100 / n := by
            have := not_le.1 hr
            positivity
          have := mul_nonneg (abs_nonneg (s.sweepAccrued.netCash cfg)) this
          linarith
        · exact h1

theorem accrued_prim {cfg : Config} {Q : Guard} {s t : Portfolio} (hp : Prim cfg Q s t) :
    t.accrued = s.accrued := by
  rcases hp.log with hs | ⟨pt, e, sh, fill, date, st, h0, hle, hprice, htype, hQ, hs⟩ |
    ⟨pt, n, fill, h0, hf, hs⟩ |
    ⟨date, sym, sd, created, ot, intent, sh, limit, mp, fill, h0, hlim, hQ, hs⟩ <;>
  exact hs.accrued

end PyBroker
