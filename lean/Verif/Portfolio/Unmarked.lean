import Verif.Portfolio.History

/-!
# Helper lemmas: shares filled since a position was last marked
-/

namespace PyBroker

open Spec

/-- The unmarked shares and their cost are those of the entries with an id
above `m`. -/
structure UnmarkedOK (m : Nat) (p : Position) : Prop where
  shares : p.unmarkedShares = ((p.entries.filter (fun e => m < e.id)).map Entry.shares).sum
  notional : p.unmarkedNotional =
    ((p.entries.filter (fun e => m < e.id)).map (fun e => e.shares * e.price)).sum

/-- What `UnmarkedOK` reads. -/
def coreU (p : Position) : Sym × ℚ × ℚ × List (Nat × Sym × ℚ × ℚ × PosType) :=
  (p.symbol, p.unmarkedShares, p.unmarkedNotional, p.entries.map coreE)

theorem filter_core_sum {es fs : List Entry} (h : es.map coreE = fs.map coreE) (m : Nat) :
    ((es.filter (fun e => m < e.id)).map Entry.shares).sum =
      ((fs.filter (fun e => m < e.id)).map Entry.shares).sum ∧
    ((es.filter (fun e => m < e.id)).map (fun e => e.shares * e.price)).sum =
      ((fs.filter (fun e => m < e.id)).map (fun e => e.shares * e.price)).sum := by
  induction es generalizing fs with
  | nil =>
    cases fs with
    | nil => exact ⟨rfl, rfl⟩
    | cons f fs => simp at h
  | cons a es ih =>
    cases fs with
    | nil => simp at h
    | cons f fs =>
      rw [List.map_cons, List.map_cons, List.cons.injEq] at h
      obtain ⟨h1, h2⟩ := ih h.2
      have h3 := h.1
      simp only [coreE, Prod.mk.injEq] at h3
      obtain ⟨c1, _, c3, c4, _⟩ := h3
      by_cases hm : m < f.id
      · have hm' : m < a.id := by rw [c1]; exact hm
        simp [hm, hm', h1, h2, c3, c4]
      · have hm' : ¬ m < a.id := by rw [c1]; exact hm
        simp [hm, hm', h1, h2]

theorem UnmarkedOK.core {m : Nat} {p q : Position} (h : UnmarkedOK m p) (hc : coreU q = coreU p) :
    UnmarkedOK m q := by
  simp only [coreU, Prod.mk.injEq] at hc
  obtain ⟨_, h2, h3, h4⟩ := hc
  obtain ⟨k1, k2⟩ := filter_core_sum h4 m
  exact ⟨by rw [h2, k1, h.shares], by rw [h3, k2, h.notional]⟩

/-- All positions in `sym`. -/
def UInv (m : Nat) (sym : Sym) (s : Portfolio) : Prop :=
  m ≤ s.entryId ∧ ∀ pt, ∀ p ∈ s.book pt, p.symbol = sym → UnmarkedOK m p

theorem UInv.same {m : Nat} {sym : Sym} {s t : Portfolio} (h : UInv m sym s)
    (hid : t.entryId = s.entryId)
    (hb : ∀ pt, (t.book pt).map coreU = (s.book pt).map coreU) : UInv m sym t := by
  refine ⟨by rw [hid]; exact h.1, ?_⟩
  intro pt q hq hs
  have : coreU q ∈ (s.book pt).map coreU := by rw [← hb]; exact List.mem_map_of_mem hq
  obtain ⟨p, hp, he⟩ := List.mem_map.1 this
  refine (h.2 pt p hp ?_).core he.symm
  have := congrArg Prod.fst he
  simp only [coreU] at this
  rw [this, hs]

theorem UInv.replace {m : Nat} {sym : Sym} {s t : Portfolio} {pt : PosType} {q : Position}
    (h : UInv m sym s) (hid : s.entryId ≤ t.entryId)
    (hn : ((s.book pt).map Position.symbol).Nodup)
    (hq : q.symbol = sym → UnmarkedOK m q) (hb : t.book pt = replacePos (s.book pt) q)
    (hb' : ∀ pt', pt ≠ pt' → t.book pt' = s.book pt') : UInv m sym t := by
  refine ⟨h.1.trans hid, ?_⟩
  intro pt' p hp
  by_cases hpt : pt = pt'
  · subst hpt
    rw [hb] at hp
    rcases mem_replacePos hn hp with rfl | ⟨hp, _⟩
    · exact hq
    · exact h.2 pt p hp
  · rw [hb' pt' hpt] at hp; exact h.2 pt' p hp

theorem newestNotional_all (es : List Entry) (h : ∀ e ∈ es, 0 ≤ e.shares) :
    newestNotional es ((es.map Entry.shares).sum) = (es.map (fun e => e.shares * e.price)).sum := by
  induction es with
  | nil => rfl
  | cons e es ih =>
    have h0 := h e List.mem_cons_self
    have hrest : 0 ≤ (es.map Entry.shares).sum := List.sum_nonneg (by
      intro x hx
      obtain ⟨f, hf, rfl⟩ := List.mem_map.1 hx
      exact h f (List.mem_cons_of_mem _ hf))
    have ih' := ih (fun f hf => h f (List.mem_cons_of_mem _ hf))
    unfold newestNotional
    simp only [List.map_cons, List.sum_cons]
    split
    · rename_i hle
      have he : e.shares = 0 := by linarith
      have hz : (es.map Entry.shares).sum = 0 := by linarith
      rw [he, zero_mul, zero_add, ← ih', hz]
      cases es with
      | nil => rfl
      | cons f fs => unfold newestNotional; rw [if_pos (le_refl _)]
    · rw [min_eq_right (by linarith)]
      rw [show e.shares + (es.map Entry.shares).sum - e.shares = (es.map Entry.shares).sum by ring,
        ih']

theorem sum_shares_cost_zero {es : List Entry} (h : ∀ e ∈ es, 0 ≤ e.shares)
    (hz : (es.map Entry.shares).sum ≤ 0) : (es.map (fun e => e.shares * e.price)).sum = 0 := by
  induction es with
  | nil => rfl
  | cons e es ih =>
    have h0 := h e List.mem_cons_self
    have hrest : 0 ≤ (es.map Entry.shares).sum := List.sum_nonneg (by
      intro x hx
      obtain ⟨f, hf, rfl⟩ := List.mem_map.1 hx
      exact h f (List.mem_cons_of_mem _ hf))
    rw [List.map_cons, List.sum_cons] at hz ⊢
    have he : e.shares = 0 := by linarith
    rw [he, zero_mul, zero_add]
    exact ih (fun f hf => h f (List.mem_cons_of_mem _ hf)) (by linarith)

/-- A first-in first-out exit keeps the unmarked shares right. -/
theorem UnmarkedOK.take {m : Nat} {pt : PosType} {Z : List Nat} {p : Position} {e : Entry}
    {es : List Entry} {sh : ℚ} (h : UnmarkedOK m p) (hw : PosWF pt Z p) (hes : p.entries = e :: es)
    (h0 : 0 < sh) (hle : sh ≤ e.shares) : UnmarkedOK m (p.takeShares e sh) := by
  have hnn : ∀ f ∈ p.entries, 0 ≤ f.shares := by
    intro f hf
    rcases (hw.entries f hf).shares with h | h
    · rw [h.2]
    · exact h.2.le
  have hnn' : ∀ f ∈ es, 0 ≤ f.shares := fun f hf => hnn f (by rw [hes]; exact List.mem_cons_of_mem _ hf)
  have hsum : p.shares = e.shares + (es.map Entry.shares).sum := by
    rw [hw.shares, hes, List.map_cons, List.sum_cons]
  have hfil : 0 ≤ ((es.filter (fun f => m < f.id)).map Entry.shares).sum := List.sum_nonneg (by
    intro x hx
    obtain ⟨f, hf, rfl⟩ := List.mem_map.1 hx
    exact hnn' f (List.mem_filter.1 hf).1)
  have hr : 0 ≤ (es.map Entry.shares).sum := List.sum_nonneg (by
    intro x hx
    obtain ⟨f, hf, rfl⟩ := List.mem_map.1 hx
    exact hnn' f hf)
  have hent : (p.takeShares e sh).entries = { e with shares := e.shares - sh } :: es := by
    rw [takeShares_entries, hes, modEntry_cons_self]
  have hids := hw.ids
  rw [hes, List.map_cons, List.pairwise_cons] at hids
  obtain ⟨hs, hn⟩ := h
  rw [hes] at hs hn
  by_cases hm : m < e.id
  · -- everything is unmarked
    have hall : es.filter (fun f => m < f.id) = es := by
      rw [List.filter_eq_self]
      intro f hf
      have := hids.1 f.id (List.mem_map_of_mem hf)
      simpa using hm.trans this
    have hall' : ∀ x : ℚ, (({ e with shares := x } : Entry) :: es).filter (fun f => m < f.id) =
        { e with shares := x } :: es := by
      intro x
      rw [List.filter_cons_of_pos (by simpa using hm), hall]
    rw [List.filter_cons_of_pos (by simpa using hm), hall, List.map_cons, List.sum_cons] at hs hn
    have hu : p.unmarkedShares = p.shares := by rw [hs, hsum]
    refine ⟨?_, ?_⟩
    · rw [hent, hall', List.map_cons, List.sum_cons]
      unfold Position.takeShares Position.clampUnmarked
      simp only
      have hpos : 0 < p.unmarkedShares := by rw [hu, hsum]; linarith
      rw [if_neg (not_le.2 hpos)]
      split
      · rename_i hz
        simp only
        linarith
      · rw [if_pos (by rw [hu]; linarith)]
        simp only
        linarith
    · rw [hent, hall', List.map_cons, List.sum_cons]
      unfold Position.takeShares Position.clampUnmarked
      simp only
      have hpos : 0 < p.unmarkedShares := by rw [hu, hsum]; linarith
      rw [if_neg (not_le.2 hpos)]
      split
      · rename_i hz
        simp only
        have he : e.shares - sh = 0 := by linarith
        rw [he, zero_mul, zero_add, sum_shares_cost_zero hnn' (by linarith)]
      · rw [if_pos (by rw [hu]; linarith)]
        simp only
        have hrev := newestNotional_all
          (modEntry e.id (fun e' => { e' with shares := e'.shares - sh }) p.entries).reverse (by
            intro f hf
            rw [List.mem_reverse, hes, modEntry_cons_self] at hf
            rcases List.mem_cons.1 hf with rfl | hf
            · simp only; linarith
            · exact hnn' f hf)
        rw [List.map_reverse, List.map_reverse, List.sum_reverse, List.sum_reverse] at hrev
        rw [hes, modEntry_cons_self, List.map_cons, List.sum_cons, List.map_cons, List.sum_cons]
          at hrev
        rw [hes, modEntry_cons_self]
        rw [show p.shares - sh = e.shares - sh + (es.map Entry.shares).sum by linarith]
        simpa using hrev
  · have hm' : ∀ x : ℚ, (({ e with shares := x } : Entry) :: es).filter (fun f => m < f.id) =
        es.filter (fun f => m < f.id) := by
      intro x
      rw [List.filter_cons_of_neg (by simpa using hm)]
    rw [List.filter_cons_of_neg (by simpa using hm)] at hs hn
    have hle' : ((es.filter (fun f => m < f.id)).map Entry.shares).sum ≤ (es.map Entry.shares).sum := by
      refine List.Sublist.sum_le_sum (List.Sublist.map _ List.filter_sublist) ?_
      intro x hx
      obtain ⟨f, hf, rfl⟩ := List.mem_map.1 hx
      exact hnn' f hf
    have hkeep : (p.takeShares e sh).unmarkedShares = p.unmarkedShares ∧
        (p.takeShares e sh).unmarkedNotional = p.unmarkedNotional := by
      unfold Position.takeShares Position.clampUnmarked
      simp only
      split
      · exact ⟨rfl, rfl⟩
      · rename_i hp
        rw [if_neg (by linarith), if_neg (by linarith)]
        exact ⟨rfl, rfl⟩
    exact ⟨by rw [hent, hm', hkeep.1, hs], by rw [hent, hm', hkeep.2, hn]⟩

/-- Dropping an entry without shares keeps the unmarked shares right. -/
theorem UnmarkedOK.drop {m : Nat} {p : Position} {e : Entry} (h : UnmarkedOK m p)
    (he : findEntry p.entries e.id = some e) (hz : e.shares = 0) :
    UnmarkedOK m { p with entries := eraseEntry p.entries e.id } := by
  have key : ∀ (es : List Entry), findEntry es e.id = some e →
      (((eraseEntry es e.id).filter (fun f => m < f.id)).map Entry.shares).sum =
        ((es.filter (fun f => m < f.id)).map Entry.shares).sum ∧
      (((eraseEntry es e.id).filter (fun f => m < f.id)).map (fun f => f.shares * f.price)).sum =
        ((es.filter (fun f => m < f.id)).map (fun f => f.shares * f.price)).sum := by
    intro es
    induction es with
    | nil => intro h; cases h
    | cons a es ih =>
      intro hf
      by_cases ha : a.id = e.id
      · have : a = e := by
          unfold findEntry at hf
          rw [List.find?_cons_of_pos (by simpa using ha)] at hf
          exact Option.some.inj hf
        subst this
        rw [eraseEntry_head]
        by_cases hm : m < a.id <;> simp [hm, hz]
      · have hf' : findEntry es e.id = some e := by
          unfold findEntry at hf ⊢
          rw [List.find?_cons_of_neg (by simpa using ha)] at hf
          exact hf
        obtain ⟨h1, h2⟩ := ih hf'
        have her : eraseEntry (a :: es) e.id = a :: eraseEntry es e.id := by
          rw [eraseEntry, if_neg ha]
        rw [her]
        by_cases hm : m < a.id <;> simp [hm, h1, h2]
  obtain ⟨h1, h2⟩ := key p.entries he
  exact ⟨by rw [h1]; exact h.shares, by rw [h2]; exact h.notional⟩

/-! ## Every change but a mark -/

theorem map_coreU_modEntryBook {g : Entry → Entry} (hg : ∀ e, coreE (g e) = coreE e) (id : Nat)
    (ps : List Position) : (modEntryBook id g ps).map coreU = ps.map coreU := by
  simp [modEntryBook, List.map_map, Function.comp_def, coreU, map_coreE_modEntry hg]

theorem map_coreU_dropStop (id : Nat) (ps : List Position) :
    (dropStopBook id ps).1.map coreU = ps.map coreU := by
  induction ps with
  | nil => rfl
  | cons a ps ih =>
    unfold dropStopBook
    simp only
    split
    · simp [coreU, map_coreE_dropStop]
    · simp [ih]

theorem removeStop_coreU (s : Portfolio) (id : Nat) (pt : PosType) :
    ((removeStop s id).2.book pt).map coreU = (s.book pt).map coreU := by
  unfold PyBroker.removeStop
  split
  · cases pt
    · exact map_coreU_modEntryBook (by intro e; rfl) _ _
    · exact map_coreU_modEntryBook (by intro e; rfl) _ _
  · simp only
    split
    · cases pt
      · exact map_coreU_dropStop _ _
      · rfl
    · split
      · cases pt
        · rfl
        · exact map_coreU_dropStop _ _
      · rfl

/-- Exits are first in, first out. -/
def fifoOnly : Guard := ⟨fun _ => True, fun _ => True, False, True⟩

theorem UInv.prim {m : Nat} {sym : Sym} {cfg : Config} {s t : Portfolio}
    (hp : Prim cfg fifoOnly s t) (h : UInv m sym s) : UInv m sym t := by
  cases hp with
  | @exit Z _ pt p e sh fill date st hw hp he hz h0 hle hQ hF =>
    obtain ⟨hpm, hps⟩ := lookupPos_some hp
    obtain ⟨es, hes⟩ := hF.resolve_right (fun x => x)
    refine h.replace (pt := pt) (q := p.takeShares e sh) (le_of_eq ?_) (hw.nodup pt) ?_ ?_ ?_
    · cases pt <;> rfl
    · intro hs
      exact (h.2 pt p hpm (by rw [← hs, takeShares_symbol])).take (hw.pos pt p hpm) hes h0 hle
    · rw [store_book, exitPf_book]
    · intro pt' hne; rw [store_book_ne _ _ hne, exitPf_book]
  | @drop Z _ pt p e hw hp he hz =>
    obtain ⟨hpm, hps⟩ := lookupPos_some hp
    refine h.replace (pt := pt) (q := { p with entries := eraseEntry p.entries e.id })
      (le_of_eq ?_) (hw.nodup pt) (fun hs => (h.2 pt p hpm hs).drop he hz) ?_ ?_
    · cases pt <;> simp [Portfolio.store, Portfolio.setBook]
    · rw [store_book, removeStopData_book]
    · intro pt' hne; rw [store_book_ne _ _ hne, removeStopData_book]
  | @close Z _ pt p hw hp hnil =>
    refine ⟨by cases pt <;> exact h.1, ?_⟩
    intro pt' q hq
    have hq2 : q ∈ (s.setBook pt (erasePos (s.book pt) p.symbol)).book pt' := by
      cases pt' <;> exact hq
    by_cases hpt : pt = pt'
    · subst hpt
      rw [book_setBook] at hq2
      exact h.2 pt q ((erasePos_sublist _ _).subset hq2)
    · rw [book_setBook_ne _ _ hpt] at hq2
      exact h.2 pt' q hq2
  | @opened _ sd date sym' n m' fill stops es sda ac hw h0 hf hno hclamp hnm hcap hmode hfit hS hadd =>
    have hid : (openedPf cfg s sd.opens date sym' n fill es sda ac).entryId = s.entryId + 1 := by
      cases sd <;> rfl
    have hnew : m < (newEntry s sd.opens date sym' n fill es).id := Nat.lt_succ_of_le h.1
    have hfil : [newEntry s sd.opens date sym' n fill es].filter (fun e => m < e.id) =
        [newEntry s sd.opens date sym' n fill es] := by
      rw [List.filter_eq_self]
      intro e he
      rw [List.mem_singleton] at he
      subst he
      exact decide_eq_true hnew
    refine ⟨by rw [hid]; exact Nat.le_succ_of_le h.1, ?_⟩
    intro pt' q hq
    by_cases hpt : sd.opens = pt'
    · subst hpt
      rw [openedPf_book] at hq
      unfold openedBook at hq
      split at hq
      · rcases List.mem_append.1 hq with hq | hq
        · exact h.2 _ q hq
        · rw [List.mem_singleton] at hq
          subst hq
          intro _
          refine ⟨?_, ?_⟩
          · simp only [openedPos]
            rw [hfil]
            simp [newEntry]
          · simp only [openedPos]
            rw [hfil]
            simp [newEntry]
      · rename_i p hp
        obtain ⟨hpm, hps⟩ := lookupPos_some hp
        rcases mem_replacePos (hw.nodup _) hq with rfl | ⟨hq, _⟩
        · intro hs
          have hk := h.2 _ p hpm hs
          refine ⟨?_, ?_⟩
          · simp only [openedPos, List.filter_append, List.map_append, List.sum_append]
            rw [hfil, hk.shares]
            simp [newEntry]
          · simp only [openedPos, List.filter_append, List.map_append, List.sum_append]
            rw [hfil, hk.notional]
            simp [newEntry]
        · exact h.2 _ q hq
    · rw [openedPf_book_ne _ _ _ _ _ _ _ _ _ _ hpt] at hq
      exact h.2 _ q hq
  | order h0 hlim hQ => exact h.same rfl (fun pt => by simp)
  | caches hm => exact h.same rfl (fun pt => by cases pt <;> rfl)
  | stopValue id v hL => exact hL.elim
  | incr hasBar =>
    refine h.same rfl (fun pt => ?_)
    have : (incrBars s hasBar).book pt = (s.book pt).map (Position.incrBars hasBar) := by
      cases pt <;> rfl
    rw [this, List.map_map]
    refine List.map_congr_left (fun p _ => ?_)
    simp only [Function.comp_apply, coreU, Position.incrBars]
    rw [map_coreE_of]
    intro e; rfl
  | removeStop id hw =>
    exact h.same (removeStop_same s id).entryId (fun pt => removeStop_coreU s id pt)
  | @clearStops _ pt p e hw hp he =>
    refine h.same (removeEntryStops_same s e none).entryId (fun pt => ?_)
    cases pt
    · exact (map_coreU_modEntryBook (by intro e; rfl) _ _).trans
        (congrArg (List.map coreU) (removeStopData_book s e.stops .long))
    · exact (map_coreU_modEntryBook (by intro e; rfl) _ _).trans
        (congrArg (List.map coreU) (removeStopData_book s e.stops .short))

/-- A bar without a close for the symbol leaves its positions unmarked. -/
theorem UInv.capture {m : Nat} {sym : Sym} {cfg : Config} {s : Portfolio} (hw : WF [] s)
    (h : UInv m sym s) (date : Date) (quote : Sym → BarQuote) (hq : (quote sym).close = none) :
    UInv m sym (captureBar cfg s date quote) := by
  have hs := captureBar_same cfg s date quote
  refine ⟨by rw [hs.entryId]; exact h.1, ?_⟩
  intro pt p hp hps
  have hw' : WF [] (captureBar cfg s date quote) := hw.same hs
  have hl := lookupPos_of_mem (hw'.nodup pt) hp
  rw [hps, captureBar_lookup date quote hw pt sym] at hl
  obtain ⟨p0, hp0, hpe⟩ := Option.map_eq_some_iff.1 hl
  obtain ⟨hpm, hps0⟩ := lookupPos_some hp0
  unfold markPos at hpe
  rw [hq] at hpe
  subst hpe
  exact h.2 pt p0 hpm hps0

end PyBroker
