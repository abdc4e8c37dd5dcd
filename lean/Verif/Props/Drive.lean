import Verif.Backtest.Drive
import Verif.Props.Backtest
import Verif.Props.Liquidate
import Verif.Backtest.Held
import Verif.Props.Prices
import Verif.Props.Train
import Mathlib.Data.String.Basic

/-!
# Whole runs (C97 to C99)
-/

namespace PyBroker

namespace Spec

/-- Window `k` of a run has the rows `win` and trades the symbols `selected`. -/
def Trades (x : RunSetup) (k : Nat) (win : WFWindow) (selected : List Sym) : Prop :=
  ∃ wins es, walkforwardSplit x.dates x.windows x.lookahead x.trainSize x.shuffle = .ok wins ∧
    wins[k]? = some win ∧
    windowExecutions (fun d : List DRow => (d.map DRow.symbol).dedup) List.isEmpty x.execs
      (x.rowsAt win.train) = .ok es ∧ selected = selectedSymbols es

/-- The dates of the bars of a symbol in the test data of window `k`, in order, if the window
trades it; otherwise none. -/
def Bars (x : RunSetup) (k : Nat) (sym : Sym) (ds : List Date) : Prop :=
  ds.Pairwise (· < ·) ∧ ∀ d, d ∈ ds ↔ ∃ win selected, Trades x k win selected ∧ sym ∈ selected ∧
    ∃ i ∈ win.test, ∃ r, x.rows[i]? = some r ∧ r.symbol = sym ∧ r.date = d

/-- The symbol is traded on this date: some window trades it, and has a bar of it in its test
data. -/
def InPlay (x : RunSetup) (sym : Sym) (d : Date) : Prop :=
  ∃ k win selected, Trades x k win selected ∧ sym ∈ selected ∧
    ∃ i ∈ win.test, ∃ r, x.rows[i]? = some r ∧ r.symbol = sym ∧ r.date = d

/-- What is asked of a run: no symbol has two bars on one date, orders are delayed, the size
of the training data is a fraction, and sets are iterated and rows are shuffled in some order. -/
structure SetupOK (x : RunSetup) : Prop where
  unique : UniqueBars x.rows
  buyDelay : 1 ≤ x.buyDelay
  sellDelay : 1 ≤ x.sellDelay
  size : 0 ≤ x.trainSize ∧ x.trainSize ≤ 1
  iter : ∀ l, (x.iter l).Perm l
  shuffle : ∀ l, (x.shuffle l).Perm l

end Spec

open PyBroker.Spec

/-! ## Test rows of windows -/

theorem flatMap_sub {α β : Type} {f g : α → List β} (h : ∀ a, (f a).Sublist (g a)) :
    ∀ {l l' : List α}, l.Sublist l' → (l.flatMap f).Sublist (l'.flatMap g) := by
  intro l l' hl
  induction hl with
  | slnil => exact List.Sublist.refl _
  | cons a _ ih =>
    rw [List.flatMap_cons]
    exact ih.trans (List.sublist_append_right _ _)
  | cons_cons a _ ih =>
    rw [List.flatMap_cons, List.flatMap_cons]
    exact (h a).append ih

/-- One length for the test data of all windows, and they end at the last date. -/
theorem test_blocks {rows : List Date} {w la : Int} {ts : ℚ} {shuffle : List Nat → List Nat}
    (hs : ∀ l, (shuffle l).Perm l) (h0 : 0 ≤ ts) (h1 : ts ≤ 1) {ws : List WFWindow}
    (h : walkforwardSplit rows w la ts shuffle = .ok ws) :
    ∃ te : Nat, (ws.length : Int) * te ≤ nDates rows ∧
      ∀ (k : Nat) win, ws[k]? = some win →
        RowsIn rows win.test (nDates rows - (ws.length - k) * te)
          (nDates rows - (ws.length - k) * te + te) := by
  by_cases hts : ts = 0 ∨ ts = 1
  · have hw : 0 < w := by
      by_contra hc
      rw [walkforwardSplit, if_pos (not_lt.1 hc)] at h
      cases h
    have hla : 0 < la := by
      by_contra hc
      rw [walkforwardSplit, if_neg (not_le.2 hw), if_pos (not_lt.1 hc)] at h
      cases h
    have hr : rows ≠ [] := by
      intro hc
      rw [walkforwardSplit, if_neg (not_le.2 hw), if_neg (not_le.2 hla), if_neg (not_lt.2 h0),
        if_pos hc] at h
      cases h
    rcases split_whole hs hw hla hr hts with ⟨_, e⟩ | ⟨hn, ws', e, hlen, hall⟩
    · rw [e] at h; cases h
    · rw [e] at h
      have := Except.ok.inj h
      subst this
      by_cases h00 : ts = 0
      · refine ⟨nDates rows / w.toNat, ?_, ?_⟩
        · rw [hlen, Int.natCast_ediv, Int.toNat_of_nonneg hw.le]
          exact Int.mul_ediv_self_le (ne_of_gt hw)
        · intro k win hk
          have := (hall k win hk).2
          rw [if_pos h00] at this
          rw [hlen, Int.natCast_ediv, Int.toNat_of_nonneg hw.le]
          exact this
      · refine ⟨0, by simp, ?_⟩
        intro k win hk
        have := (hall k win hk).1
        rw [if_neg h00] at this
        rw [this]
        intro i
        constructor
        · intro hi; cases hi
        · rintro ⟨d, _, h2, h3⟩
          omega
  · have h0' : 0 < ts := lt_of_le_of_ne h0 (fun e => hts (Or.inl e.symm))
    have h1' : ts < 1 := lt_of_le_of_ne h1 (fun e => hts (Or.inr e))
    rcases split_blocks_or (rows := rows) (w := w) (la := la) hs h0' h1' with
      e | ⟨ws', tl, te, e, hla, hb⟩
    · rw [e] at h; cases h
    · rw [e] at h
      have := Except.ok.inj h
      subst this
      obtain ⟨_, hlen, hfit, hb⟩ := hb
      refine ⟨te, by rw [hlen]; omega, ?_⟩
      intro k win hk
      rw [hlen]
      exact (hb k win hk).1

namespace RunSetup

variable {x : RunSetup}

theorem mem_rowsAt {idx : List Nat} {r : DRow} :
    r ∈ x.rowsAt idx ↔ ∃ i ∈ idx, x.rows[i]? = some r := by
  unfold rowsAt
  rw [List.mem_filterMap]

theorem dates_get {i : Nat} {d : Date} :
    x.dates[i]? = some d ↔ ∃ r, x.rows[i]? = some r ∧ r.date = d := by
  unfold dates
  rw [List.getElem?_map, Option.map_eq_some_iff]

/-- The dates a window is tested on. -/
abbrev testDates (x : RunSetup) (win : WFWindow) : List Date := datesOfRows x.dates win.test

theorem mem_testDates {win : WFWindow} {d : Date} :
    d ∈ x.testDates win ↔ ∃ i ∈ win.test, ∃ r, x.rows[i]? = some r ∧ r.date = d := by
  rw [testDates, mem_datesOfRows]
  exact exists_congr (fun i => and_congr_right (fun _ => dates_get))

/-- A window tests all rows of its dates. -/
theorem tested_row {wins : List WFWindow} (hok : SetupOK x)
    (hw : walkforwardSplit x.dates x.windows x.lookahead x.trainSize x.shuffle = .ok wins)
    {k : Nat} {win : WFWindow} (hk : wins[k]? = some win) {r : DRow} (hr : r ∈ x.rows)
    (hd : r.date ∈ x.testDates win) : ∃ i ∈ win.test, x.rows[i]? = some r := by
  obtain ⟨te, _, hb⟩ := test_blocks hok.shuffle hok.size.1 hok.size.2 hw
  have hb := hb k win hk
  obtain ⟨i, hi⟩ := List.mem_iff_getElem?.1 hr
  have hdi : x.dates[i]? = some r.date := dates_get.2 ⟨r, hi, rfl⟩
  have hmem : r.date ∈ x.dates := List.mem_of_getElem? hdi
  obtain ⟨h1, h2⟩ := (mem_datesIn hb hmem).1 hd
  exact ⟨i, (hb i).2 ⟨r.date, hdi, h1, h2⟩, hi⟩

/-! ## The bars of a window -/

/-- The bars of a symbol on given dates. -/
def barsOn (x : RunSetup) (window : List Date) (sym : Sym) : List Date :=
  ((symRows x.rows sym).filter (fun r => r.date ∈ window)).map DRow.date

theorem barsOn_sorted (hu : UniqueBars x.rows) (window : List Date) (sym : Sym) :
    (x.barsOn window sym).Pairwise (· < ·) :=
  List.pairwise_map.2 ((symRows_sorted hu sym).filter _)

theorem mem_barsOn {window : List Date} {sym : Sym} {d : Date} :
    d ∈ x.barsOn window sym ↔ d ∈ window ∧ ∃ r ∈ x.rows, r.symbol = sym ∧ r.date = d := by
  unfold barsOn
  rw [List.mem_map]
  constructor
  · rintro ⟨r, hr, rfl⟩
    obtain ⟨h1, h2⟩ := List.mem_filter.1 hr
    obtain ⟨h3, h4⟩ := List.mem_filter.1 ((symRows_perm x.rows sym).mem_iff.1 h1)
    exact ⟨by simpa using h2, r, h3, by simpa using h4, rfl⟩
  · rintro ⟨hd, r, hr, hs, rfl⟩
    exact ⟨r, List.mem_filter.2 ⟨(symRows_perm x.rows sym).mem_iff.2
      (List.mem_filter.2 ⟨hr, by simpa using hs⟩), by simpa using hd⟩, rfl⟩

/-- The store of a window. -/
abbrev store (x : RunSetup) (window : List Date) : Store := (storeOf x.cols x.rows).slice window

/-- The dates of a symbol in the store of a window. -/
theorem store_dates (hu : UniqueBars x.rows) (window : List Date) (sym : Sym) :
    (((x.store window).arrays sym).map SymArrays.dates).getD [] = x.barsOn window sym := by
  rcases slice_arrays hu x.cols window sym with ⟨h1, h2⟩ | ⟨_, a, h2, h3, _⟩
  · rw [store, h2, barsOn, h1]; rfl
  · rw [store, h2, barsOn, ← h3]; rfl

theorem store_arrays (hu : UniqueBars x.rows) (window : List Date) (sym : Sym) :
    (x.barsOn window sym = [] ∧ (x.store window).arrays sym = none) ∨
    (x.barsOn window sym ≠ [] ∧ ∃ a, (x.store window).arrays sym = some a ∧
      a.dates = x.barsOn window sym) := by
  rcases slice_arrays hu x.cols window sym with ⟨h1, h2⟩ | ⟨h1, a, h2, h3, _⟩
  · exact Or.inl ⟨by rw [barsOn, h1]; rfl, h2⟩
  · refine Or.inr ⟨?_, a, h2, h3⟩
    unfold barsOn
    simpa using h1

theorem uniqueDates_sorted (s : Store) : s.uniqueDates.Pairwise (· < ·) := by
  have h1 : s.uniqueDates.Pairwise (· ≤ ·) := List.pairwise_insertionSort _ _
  exact (h1.and (uniqueDates_nodup s)).imp (fun h => lt_of_le_of_ne h.1 h.2)

/-- The bars of a window are its dates with a row. -/
theorem mem_calendar (hu : UniqueBars x.rows) {window : List Date} {d : Date} :
    d ∈ (x.store window).uniqueDates ↔ d ∈ window ∧ ∃ r ∈ x.rows, r.date = d := by
  constructor
  · intro h
    unfold Store.uniqueDates at h
    have h := List.mem_dedup.1 ((List.perm_insertionSort _ _).mem_iff.1 h)
    obtain ⟨sym, _, hd⟩ := List.mem_flatMap.1 h
    rw [store_dates hu] at hd
    obtain ⟨h1, r, hr, _, h2⟩ := mem_barsOn.1 hd
    exact ⟨h1, r, hr, h2⟩
  · rintro ⟨h1, r, hr, h2⟩
    have hd : d ∈ x.barsOn window r.symbol := mem_barsOn.2 ⟨h1, r, hr, rfl, h2⟩
    rcases store_arrays hu window r.symbol with ⟨h, _⟩ | ⟨_, a, ha, hda⟩
    · rw [h] at hd; cases hd
    · exact uniqueDates_mem (store_symbols_mem ha) ha (by rw [hda]; exact hd)

theorem mem_sd (hu : UniqueBars x.rows) {window : List Date} {selected : List Sym} {sym : Sym}
    {ds : List Date} :
    (sym, ds) ∈ symExecDates (x.store window) selected ↔
      sym ∈ selected ∧ ds = x.barsOn window sym ∧ ds ≠ [] := by
  constructor
  · intro h
    unfold symExecDates at h
    obtain ⟨y, hy, e⟩ := List.mem_filterMap.1 h
    obtain ⟨_, h2⟩ := List.mem_filter.1 hy
    rcases store_arrays hu window y with ⟨_, hn⟩ | ⟨hne, a, ha, hda⟩
    · rw [hn] at e; cases e
    · rw [ha] at e
      have e := Option.some.inj e
      cases e
      exact ⟨by simpa using h2, hda, by rw [hda]; exact hne⟩
  · rintro ⟨h1, rfl, h3⟩
    rcases store_arrays hu window sym with ⟨h, _⟩ | ⟨_, a, ha, hda⟩
    · exact absurd h h3
    · rw [← hda]
      exact symExecDates_mem (store_symbols_mem ha) h1 ha

/-- The active symbols of a date: those traded with a bar on it. -/
theorem mem_active (hu : UniqueBars x.rows) {window : List Date} {selected : List Sym} {d : Date}
    (hd : d ∈ (x.store window).uniqueDates) {sym : Sym} :
    sym ∈ activeSyms (symExecDates (x.store window) selected) (x.store window).uniqueDates d ↔
      sym ∈ selected ∧ d ∈ x.barsOn window sym := by
  rw [active_exact hd, List.mem_map]
  constructor
  · rintro ⟨⟨y, ds⟩, hp, rfl⟩
    obtain ⟨h1, h2⟩ := List.mem_filter.1 hp
    obtain ⟨h3, h4, _⟩ := (mem_sd hu).1 h1
    refine ⟨h3, ?_⟩
    rw [← h4]
    simpa using h2
  · rintro ⟨h1, h2⟩
    refine ⟨(sym, x.barsOn window sym), List.mem_filter.2 ⟨(mem_sd hu).2 ⟨h1, rfl, ?_⟩, ?_⟩, rfl⟩
    · intro e; rw [e] at h2; cases h2
    · simpa using h2

theorem active_nodup {window : List Date} {selected : List Sym} {d : Date}
    (hd : d ∈ (x.store window).uniqueDates) :
    (activeSyms (symExecDates (x.store window) selected) (x.store window).uniqueDates d).Nodup := by
  rw [active_exact hd]
  exact (List.filter_sublist.map Prod.fst).nodup
    (symExecDates_nodup (store_symbols_nodup _ _ _) selected)

/-- `sym_end_index` on the bar dated `d`. -/
def idxOn (x : RunSetup) (window : List Date) (selected : List Sym) (d : Date) : Sym → Nat :=
  endIndexes (symExecDates (x.store window) selected) (x.store window).uniqueDates
    ((x.store window).uniqueDates.filter (· ≤ d))

theorem idxOn_eq (hu : UniqueBars x.rows) (window : List Date) (selected : List Sym) (d : Date)
    (sym : Sym) :
    x.idxOn window selected d sym =
      if sym ∈ selected then (x.barsOn window sym).countP (· ≤ d) else 0 := by
  unfold idxOn
  have hzero : (∀ ds, (sym, ds) ∉ symExecDates (x.store window) selected) →
      endIndexes (symExecDates (x.store window) selected) (x.store window).uniqueDates
        ((x.store window).uniqueDates.filter (· ≤ d)) sym = 0 := by
    intro hn
    unfold endIndexes
    rw [endIndexes_count, Nat.zero_add]
    apply List.sum_eq_zero
    intro n hn'
    obtain ⟨e, he, rfl⟩ := List.mem_map.1 hn'
    rw [List.count_eq_zero]
    intro hm
    rw [active_exact (List.mem_filter.1 he).1] at hm
    obtain ⟨⟨y, ds⟩, hp, rfl⟩ := List.mem_map.1 hm
    exact hn ds (List.mem_filter.1 hp).1
  by_cases hs : sym ∈ selected
  · rw [if_pos hs]
    by_cases hne : x.barsOn window sym = []
    · rw [hne, hzero]
      · rfl
      · intro ds hds
        obtain ⟨_, h2, h3⟩ := (mem_sd hu).1 hds
        rw [h2] at h3
        exact h3 hne
    · have hm := (mem_sd (selected := selected) hu).2 ⟨hs, rfl, hne⟩
      rw [bar_clock (symExecDates_nodup (store_symbols_nodup _ _ _) selected)
        (uniqueDates_nodup _) hm ((barsOn_sorted hu window sym).imp (fun h => ne_of_lt h)) ?_ d]
      intro e he
      obtain ⟨h1, r, hr, _, h2⟩ := mem_barsOn.1 he
      exact (mem_calendar hu).2 ⟨h1, r, hr, h2⟩
  · rw [if_neg hs, hzero]
    intro ds hds
    exact hs ((mem_sd hu).1 hds).1

theorem take_count {l : List Date} (h : l.Pairwise (· < ·)) (d : Date) :
    l.take (l.countP (· ≤ d)) = l.filter (· ≤ d) := by
  induction l with
  | nil => rfl
  | cons a l ih =>
    obtain ⟨h1, h2⟩ := List.pairwise_cons.1 h
    by_cases ha : a ≤ d
    · rw [List.countP_cons_of_pos (by simpa using ha), List.take_succ_cons, ih h2,
        List.filter_cons_of_pos (by simpa using ha)]
    · have hall : ∀ b ∈ a :: l, ¬ b ≤ d := by
        intro b hb
        rcases List.mem_cons.1 hb with rfl | hb
        · exact ha
        · exact fun hle => ha (le_trans (le_of_lt (h1 b hb)) hle)
      rw [List.countP_eq_zero.2 (fun b hb => by simpa using hall b hb), List.take_zero,
        List.filter_eq_nil_iff.2 (fun b hb => by simpa using hall b hb)]

theorem getLast_filter {l : List Date} (h : l.Pairwise (· < ·)) (d : Date) :
    (l.filter (· ≤ d)).getLast? = some d ↔ d ∈ l := by
  constructor
  · intro he
    exact (List.mem_filter.1 (List.mem_of_getLast? he)).1
  · intro hd
    obtain ⟨a, b, rfl⟩ := List.append_of_mem hd
    rw [List.pairwise_append, List.pairwise_cons] at h
    have hb : b.filter (· ≤ d) = [] :=
      List.filter_eq_nil_iff.2 (fun e he => by simpa using h.2.1.1 e he)
    rw [List.filter_append, List.filter_cons_of_pos (by simp), hb]
    simp

/-- The price scope has a bar on the date for the traded symbols with a bar on it. -/
theorem hasBar_iff (hu : UniqueBars x.rows) {window : List Date} {selected : List Sym} {d : Date}
    (k : Nat) (sym : Sym) :
    (x.barEnv k (x.store window) (x.idxOn window selected d) d).hasBarOn sym = true ↔
      sym ∈ selected ∧ d ∈ x.barsOn window sym := by
  unfold barEnv
  simp only
  rw [hasBarOnRaw_spec, decide_eq_true_iff]
  simp only [barDate]
  rw [idxOn_eq hu]
  have hs := barsOn_sorted hu window sym
  rcases store_arrays hu window sym with ⟨h1, h2⟩ | ⟨_, a, ha, hda⟩
  · rw [h2, h1]
    simp
  · rw [ha, Option.bind_some, hda]
    by_cases hsel : sym ∈ selected
    · rw [if_pos hsel, take_count hs, getLast_filter hs]
      simp [hsel]
    · rw [if_neg hsel]
      simp [hsel]

/-- A traded symbol is at its bar of the date. -/
theorem at_bar (hu : UniqueBars x.rows) {window : List Date} {selected : List Sym} {d : Date}
    {sym : Sym} (hs : sym ∈ selected) (hd : d ∈ x.barsOn window sym) :
    (x.barsOn window sym)[x.idxOn window selected d sym - 1]? = some d := by
  rw [idxOn_eq hu, if_pos hs]
  have hp := barsOn_sorted hu window sym
  have h1 := take_count hp d
  have h2 := (getLast_filter hp d).2 hd
  rw [← h1, List.getLast?_eq_getElem?, List.length_take] at h2
  have hle : (x.barsOn window sym).countP (· ≤ d) ≤ (x.barsOn window sym).length :=
    List.countP_le_length
  rw [Nat.min_eq_left hle] at h2
  rw [List.getElem?_take] at h2
  split at h2
  · exact h2
  · cases h2

/-! ## A run as windows of bars -/

/-- The symbols with a turn on a bar. -/
def readyOn (x : RunSetup) (window : List Date) (selected : List Sym) (d : Date) : List Sym :=
  (activeSyms (symExecDates (x.store window) selected) (x.store window).uniqueDates d).filter
    (fun s => x.warm (x.idxOn window selected d s))

/-- The bar the loop is given on a date of a window. -/
structure Made (x : RunSetup) (k : Nat) (window : List Date) (selected : List Sym) (d : Date)
    (b : BarIn) : Prop where
  env : b.env = x.barEnv k (x.store window) (x.idxOn window selected d) d
  results : ∀ r ∈ b.results, r.symbol ∈ x.readyOn window selected d
  exits : b.exits.map ForcedExit.symbol =
    (x.readyOn window selected d).filter (fun s => x.exitDate s = some d)
  dates : ∀ r ∈ b.results, r.date = d
  prices : ∀ e ∈ b.exits,
    e.buyFill = (x.closePrices (x.store window) (x.idxOn window selected d) e.symbol).1.getD 0 ∧
    e.sellFill = (x.closePrices (x.store window) (x.idxOn window selected d) e.symbol).2.getD 0

theorem Made.date {k : Nat} {window : List Date} {selected : List Sym} {d : Date} {b : BarIn}
    (h : Made x k window selected d b) : b.env.date = d := by rw [h.env]; rfl

theorem filter_le_append {pre rest : List Date} {d : Date}
    (h : (pre ++ d :: rest).Pairwise (· < ·)) : (pre ++ d :: rest).filter (· ≤ d) = pre ++ [d] := by
  rw [List.pairwise_append, List.pairwise_cons] at h
  have h1 : pre.filter (· ≤ d) = pre := List.filter_eq_self.2 (fun e he => by
    simpa using le_of_lt (h.2.2 e he d List.mem_cons_self))
  have h2 : rest.filter (· ≤ d) = [] :=
    List.filter_eq_nil_iff.2 (fun e he => by simpa using h.2.1.1 e he)
  rw [List.filter_append, List.filter_cons_of_pos (by simp), h1, h2]

theorem barStep_of {cfg : Config} {w : Window} {b : BarIn} {s s1 s2 : Loop}
    (h2 : barSignals cfg w b s1 = .ok s2) (h1 : barOrders cfg b.env s = .ok s1) :
    barStep cfg w s b = .ok s2 := by
  unfold barStep
  rw [h1]
  exact h2

theorem bar_made {k : Nat} {w : Window} {window : List Date} {selected : List Sym} {d : Date}
    {pre rest : List Date} (hcal : (x.store window).uniqueDates = pre ++ d :: rest)
    {st st' : State}
    (hidx : st.idx = endIndexes (symExecDates (x.store window) selected)
      (x.store window).uniqueDates pre)
    (h : x.bar k w (x.store window) (x.store window).uniqueDates
      (symExecDates (x.store window) selected) st d = .ok st') :
    ∃ b, Made x k window selected d b ∧ barStep x.cfg w st.loop b = .ok st'.loop ∧
      st'.idx = endIndexes (symExecDates (x.store window) selected)
        (x.store window).uniqueDates (pre ++ [d]) ∧
      st'.turns = st.turns ++ (x.readyOn window selected d).map (fun s => (k, d, s)) ∧
      st'.results = st.results ++ b.results := by
  have hi : bumpIndexes (activeSyms (symExecDates (x.store window) selected)
      (x.store window).uniqueDates d) st.idx = x.idxOn window selected d := by
    unfold idxOn
    rw [hidx]
    conv_rhs => rw [show (x.store window).uniqueDates.filter (· ≤ d) = pre ++ [d] by
      have := uniqueDates_sorted (x.store window)
      rw [hcal] at this ⊢
      exact filter_le_append this]
    unfold endIndexes
    rw [List.foldl_append]
    rfl
  have hi' : x.idxOn window selected d = endIndexes (symExecDates (x.store window) selected)
        (x.store window).uniqueDates (pre ++ [d]) := by
    rw [← hi, hidx]
    unfold endIndexes
    rw [List.foldl_append]
    rfl
  unfold bar at h
  simp only at h
  rw [hi] at h
  split at h
  · cases h
  · rename_i s1 h1
    split at h
    · split at h
      · cases h
      · rename_i s2 h2
        have := Except.ok.inj h
        subst this
        have hstep := barStep_of h2 h1
        refine ⟨_, ⟨rfl, ?_, ?_, ?_, ?_⟩, hstep, hi', rfl, rfl⟩
        · intro r hr
          obtain ⟨s, hs, e⟩ := List.mem_filterMap.1 hr
          obtain ⟨r', _, rfl⟩ := Option.map_eq_some_iff.1 e
          exact hs
        · rw [List.map_map]
          exact List.map_id _
        · intro r hr
          obtain ⟨s, hs, e⟩ := List.mem_filterMap.1 hr
          obtain ⟨r', _, rfl⟩ := Option.map_eq_some_iff.1 e
          rfl
        · intro e he
          obtain ⟨s, _, rfl⟩ := List.mem_map.1 he
          exact ⟨rfl, rfl⟩
    · cases h

theorem bars_made {k : Nat} {w : Window} {window : List Date} {selected : List Sym} :
    ∀ {rest pre : List Date} {st st' : State},
      (x.store window).uniqueDates = pre ++ rest →
      st.idx = endIndexes (symExecDates (x.store window) selected)
        (x.store window).uniqueDates pre →
      each (x.bar k w (x.store window) (x.store window).uniqueDates
        (symExecDates (x.store window) selected)) st rest = .ok st' →
      ∃ bars, List.Forall₂ (Made x k window selected) rest bars ∧
        foldB (barStep x.cfg w) st.loop bars = .ok st'.loop ∧
        st'.turns = st.turns ++
          rest.flatMap (fun d => (x.readyOn window selected d).map (fun s => (k, d, s))) ∧
        st'.results = st.results ++ bars.flatMap BarIn.results := by
  intro rest
  induction rest with
  | nil =>
    intro pre st st' _ _ h
    have := Except.ok.inj h
    subst this
    exact ⟨[], .nil, rfl, by simp, by simp⟩
  | cons d rest ih =>
    intro pre st st' hcal hidx h
    unfold each at h
    split at h
    · cases h
    · rename_i st1 h1
      obtain ⟨b, hb, hstep, hidx1, hturns, hres⟩ := bar_made hcal hidx h1
      obtain ⟨bars, hf, hfold, hturns', hres'⟩ := ih (pre := pre ++ [d])
        (by rw [hcal, List.append_assoc]; rfl) hidx1 h
      refine ⟨b :: bars, .cons hb hf, ?_, ?_, ?_⟩
      · unfold foldB
        rw [hstep]
        exact hfold
      · rw [hturns', hturns, List.flatMap_cons, List.append_assoc]
      · rw [hres', hres, List.flatMap_cons, List.append_assoc]

/-- The bars of a window: none without test data. -/
def calendar (x : RunSetup) (win : WFWindow) : List Date :=
  if win.test = [] then [] else (x.store (x.testDates win)).uniqueDates

/-- What the loop is given for a window. -/
structure MadeWindow (x : RunSetup) (kw : WFWindow × Nat) (y : Window × List BarIn) : Prop where
  made : ∃ es, windowExecutions (fun d : List DRow => (d.map DRow.symbol).dedup) List.isEmpty x.execs
      (x.rowsAt kw.1.train) = .ok es ∧
    y.1 = x.window kw.2 (selectedSymbols es) kw.1 (x.store (x.testDates kw.1)) ∧
    List.Forall₂ (Made x kw.2 (x.testDates kw.1) (selectedSymbols es)) (x.calendar kw.1) y.2

/-- The turns of a window. -/
def turnsIn (x : RunSetup) (kw : WFWindow × Nat) : List (Nat × Date × Sym) :=
  match windowExecutions (fun d : List DRow => (d.map DRow.symbol).dedup) List.isEmpty x.execs
      (x.rowsAt kw.1.train) with
  | .error _ => []
  | .ok es => (x.calendar kw.1).flatMap (fun d =>
      (x.readyOn (x.testDates kw.1) (selectedSymbols es) d).map (fun s => (kw.2, d, s)))

theorem window_made {kw : WFWindow × Nat} {st st' : State} (h : x.runOne st kw = .ok st') :
    ∃ y, MadeWindow x kw y ∧ runWindow x.cfg st.loop y = .ok st'.loop ∧
      st'.turns = st.turns ++ x.turnsIn kw ∧ st'.results = st.results ++ y.2.flatMap BarIn.results := by
  unfold runOne at h
  simp only at h
  split at h
  · cases h
  · rename_i es hes
    split at h
    · split at h
      · cases h
      · rename_i s1 h1
        by_cases ht : kw.1.test = []
        · rw [if_pos ht] at h
          have := Except.ok.inj h
          subst this
          refine ⟨(x.window kw.2 (selectedSymbols es) kw.1 (x.store (x.testDates kw.1)), []),
            ⟨es, hes, rfl, ?_⟩, ?_, ?_, by simp⟩
          · rw [calendar, if_pos ht]; exact .nil
          · unfold runWindow
            change Except.bind _ _ = _
            rw [h1]
            rfl
          · rw [turnsIn, hes]
            simp only
            rw [calendar, if_pos ht]
            simp
        · rw [if_neg ht] at h
          obtain ⟨bars, hf, hfold, hturns, hres⟩ := bars_made (pre := []) rfl rfl h
          refine ⟨(x.window kw.2 (selectedSymbols es) kw.1 (x.store (x.testDates kw.1)), bars),
            ⟨es, hes, rfl, ?_⟩, ?_, ?_, hres⟩
          · rw [calendar, if_neg ht]; exact hf
          · unfold runWindow
            change Except.bind _ _ = _
            rw [h1]
            exact hfold
          · rw [turnsIn, hes]
            simp only
            rw [calendar, if_neg ht]
            exact hturns
    · cases h

theorem windows_made : ∀ {kws : List (WFWindow × Nat)} {st st' : State},
    each (runOne x) st kws = .ok st' →
    ∃ ws, List.Forall₂ (MadeWindow x) kws ws ∧ foldB (runWindow x.cfg) st.loop ws = .ok st'.loop ∧
      st'.turns = st.turns ++ kws.flatMap x.turnsIn ∧
      st'.results = st.results ++ ws.flatMap (fun y => y.2.flatMap BarIn.results) := by
  intro kws
  induction kws with
  | nil =>
    intro st st' h
    have := Except.ok.inj h
    subst this
    exact ⟨[], .nil, rfl, by simp, by simp⟩
  | cons kw kws ih =>
    intro st st' h
    unfold each at h
    split at h
    · cases h
    · rename_i st1 h1
      obtain ⟨y, hy, hrun, ht, hr⟩ := window_made h1
      obtain ⟨ws, hf, hfold, ht', hr'⟩ := ih h
      refine ⟨y :: ws, .cons hy hf, ?_, ?_, ?_⟩
      · unfold foldB
        rw [hrun]
        exact hfold
      · rw [ht', ht, List.flatMap_cons, List.append_assoc]
      · rw [hr', hr, List.flatMap_cons, List.append_assoc]

/-- A run is a run of the loop over the windows and bars made for it. -/
theorem run_made {st : State} (h : x.run = .ok st) :
    ∃ wins ws, walkforwardSplit x.dates x.windows x.lookahead x.trainSize x.shuffle = .ok wins ∧
      List.Forall₂ (MadeWindow x) wins.zipIdx ws ∧ runWindows x.cfg ws = .ok st.loop ∧
      st.turns = wins.zipIdx.flatMap x.turnsIn ∧
      st.results = ws.flatMap (fun y => y.2.flatMap BarIn.results) := by
  unfold run at h
  split at h
  · cases h
  · rename_i wins hw
    obtain ⟨ws, hf, hfold, ht, hr⟩ := windows_made h
    exact ⟨wins, ws, hw, hf, hfold, by simpa using ht, by simpa using hr⟩

/-! ## A run is a well-formed backtest -/

theorem mem_zip {wins : List WFWindow} {kw : WFWindow × Nat} (h : kw ∈ wins.zipIdx) :
    wins[kw.2]? = some kw.1 := by
  obtain ⟨w, k⟩ := kw
  exact List.mem_zipIdx_iff_getElem?.1 h

/-- Test data moves forward from window to window. -/
theorem test_order (hok : SetupOK x) {wins : List WFWindow}
    (hw : walkforwardSplit x.dates x.windows x.lookahead x.trainSize x.shuffle = .ok wins)
    {k k' : Nat} {win win' : WFWindow} (hk : wins[k]? = some win) (hk' : wins[k']? = some win')
    (hlt : k < k') {d d' : Date} (hd : d ∈ x.testDates win) (hd' : d' ∈ x.testDates win') :
    d < d' := by
  obtain ⟨te, _, hb⟩ := test_blocks hok.shuffle hok.size.1 hok.size.2 hw
  obtain ⟨i, _, hi⟩ := mem_datesOfRows.1 hd
  obtain ⟨j, _, hj⟩ := mem_datesOfRows.1 hd'
  have hm := List.mem_of_getElem? hi
  have h1 := ((mem_datesIn (hb k win hk) hm).1 hd).2
  have h2 := ((mem_datesIn (hb k' win' hk') (List.mem_of_getElem? hj)).1 hd').1
  rw [← barNo_lt hm]
  have hmul : ((k : Int) + 1) * te ≤ k' * te :=
    Int.mul_le_mul_of_nonneg_right (by omega) (by omega)
  have e1 : ((wins.length : Int) - k) * te = wins.length * te - k * te := Int.sub_mul _ _ _
  have e2 : ((wins.length : Int) - k') * te = wins.length * te - k' * te := Int.sub_mul _ _ _
  have e3 : ((k : Int) + 1) * te = k * te + te := by rw [Int.add_mul, Int.one_mul]
  omega

theorem test_unique (hok : SetupOK x) {wins : List WFWindow}
    (hw : walkforwardSplit x.dates x.windows x.lookahead x.trainSize x.shuffle = .ok wins)
    {k k' : Nat} {win win' : WFWindow} (hk : wins[k]? = some win) (hk' : wins[k']? = some win')
    {d : Date} (hd : d ∈ x.testDates win) (hd' : d ∈ x.testDates win') : k = k' := by
  rcases Nat.lt_trichotomy k k' with h | h | h
  · exact absurd (test_order hok hw hk hk' h hd hd') (lt_irrefl _)
  · exact h
  · exact absurd (test_order hok hw hk' hk h hd' hd) (lt_irrefl _)

theorem mem_calendar' (hu : UniqueBars x.rows) {win : WFWindow} {d : Date} :
    d ∈ x.calendar win ↔ d ∈ x.testDates win := by
  unfold calendar
  split
  · rename_i h
    constructor
    · intro h; cases h
    · intro hd
      obtain ⟨i, hi, _⟩ := mem_testDates.1 hd
      rw [h] at hi; cases hi
  · rw [mem_calendar hu]
    constructor
    · exact And.left
    · intro hd
      obtain ⟨i, _, r, hr, h⟩ := mem_testDates.1 hd
      exact ⟨hd, r, List.mem_of_getElem? hr, h⟩

theorem calendar_sorted (win : WFWindow) : (x.calendar win).Pairwise (· < ·) := by
  unfold calendar
  split
  · exact .nil
  · exact uniqueDates_sorted _

theorem mem_window_calendar {win : WFWindow} {d : Date} (h : d ∈ x.calendar win) :
    d ∈ (x.store (x.testDates win)).uniqueDates := by
  unfold calendar at h
  split at h
  · cases h
  · exact h

/-- On a date of a window, the symbols in play are those it trades with a bar on the date. -/
theorem inPlay_iff (hok : SetupOK x) {wins : List WFWindow}
    (hw : walkforwardSplit x.dates x.windows x.lookahead x.trainSize x.shuffle = .ok wins)
    {k : Nat} {win : WFWindow} (hk : wins[k]? = some win) {es : List (Execn (List DRow))}
    (hes : windowExecutions (fun d : List DRow => (d.map DRow.symbol).dedup) List.isEmpty x.execs
      (x.rowsAt win.train) = .ok es) {d : Date} (hd : d ∈ x.testDates win) {sym : Sym} :
    InPlay x sym d ↔ sym ∈ selectedSymbols es ∧ d ∈ x.barsOn (x.testDates win) sym := by
  constructor
  · rintro ⟨k', win', selected, ⟨wins', es', hw', hk', hes', rfl⟩, hsel, i, hi, r, hr, hs, hrd⟩
    rw [hw] at hw'
    have := Except.ok.inj hw'
    subst this
    have : k = k' := test_unique hok hw hk hk' hd (mem_testDates.2 ⟨i, hi, r, hr, hrd⟩)
    subst this
    rw [hk] at hk'
    have := Option.some.inj hk'
    subst this
    rw [hes] at hes'
    have := Except.ok.inj hes'
    subst this
    exact ⟨hsel, mem_barsOn.2 ⟨hd, r, List.mem_of_getElem? hr, hs, hrd⟩⟩
  · rintro ⟨hsel, hb⟩
    obtain ⟨_, r, hr, hs, hrd⟩ := mem_barsOn.1 hb
    obtain ⟨i, hi, hir⟩ := tested_row hok hw hk hr (by rw [hrd]; exact hd)
    exact ⟨k, win, _, ⟨wins, es, hw, hk, hes, rfl⟩, hsel, i, hi, r, hir, hs, hrd⟩

theorem made_dates {k : Nat} {window : List Date} {selected : List Sym} :
    ∀ {ds : List Date} {bars : List BarIn}, List.Forall₂ (Made x k window selected) ds bars →
      bars.map (fun b => b.env.date) = ds
  | _, _, .nil => rfl
  | _, _, .cons h t => by rw [List.map_cons, h.date, made_dates t]

theorem forall₂_mem {α β : Type} {R : α → β → Prop} {l : List α} {l' : List β}
    (h : List.Forall₂ R l l') {b : β} (hb : b ∈ l') : ∃ a ∈ l, R a b := by
  induction h with
  | nil => cases hb
  | cons hab _ ih =>
    rcases List.mem_cons.1 hb with rfl | hb
    · exact ⟨_, List.mem_cons_self, hab⟩
    · obtain ⟨a, ha, hR⟩ := ih hb
      exact ⟨a, List.mem_cons_of_mem _ ha, hR⟩

theorem windows_dates : ∀ {kws : List (WFWindow × Nat)} {ws : List (Window × List BarIn)},
    List.Forall₂ (MadeWindow x) kws ws →
      barDates ws = kws.flatMap (fun kw => x.calendar kw.1)
  | _, _, .nil => rfl
  | _, _, .cons h t => by
    obtain ⟨es, _, _, hf⟩ := h.made
    have := windows_dates t
    unfold barDates at this ⊢
    rw [List.flatMap_cons, List.flatMap_cons, made_dates hf, this]

theorem zipIdx_order (wins : List WFWindow) : wins.zipIdx.Pairwise (fun a b => a.2 < b.2) := by
  rw [List.pairwise_iff_getElem]
  intro i j hi hj hij
  simpa using hij

/-- The dates of all windows together move forward. -/
theorem calendars_sorted (hok : SetupOK x) {wins : List WFWindow}
    (hw : walkforwardSplit x.dates x.windows x.lookahead x.trainSize x.shuffle = .ok wins) :
    (wins.zipIdx.flatMap (fun kw => x.calendar kw.1)).Pairwise (· < ·) := by
  rw [List.pairwise_flatMap]
  refine ⟨fun kw _ => calendar_sorted kw.1, ?_⟩
  rw [List.pairwise_iff_getElem]
  intro i j hi hj hij d hd d' hd'
  have h1 := mem_zip (List.getElem_mem hi)
  have h2 := mem_zip (List.getElem_mem hj)
  have h3 : (wins.zipIdx[i]).2 < (wins.zipIdx[j]).2 := by simpa using hij
  exact test_order hok hw h1 h2 h3 ((mem_calendar' hok.unique).1 hd) ((mem_calendar' hok.unique).1 hd')

theorem window_dates (hu : UniqueBars x.rows) (k : Nat) (selected : List Sym) (win : WFWindow)
    (sym : Sym) :
    (x.window k selected win (x.store (x.testDates win))).dates sym =
      if sym ∈ selected then x.barsOn (x.testDates win) sym else [] := by
  unfold window
  simp only
  rw [store_dates hu]

theorem storeOf_dates (cols : List String) (rows : List DRow) (sym : Sym) :
    (((storeOf cols rows).arrays sym).map SymArrays.dates).getD [] =
      (symRows rows sym).map DRow.date := by
  unfold storeOf
  simp only
  split
  · rfl
  · rename_i h
    have : symRows rows sym = [] := by
      rw [List.eq_nil_iff_forall_not_mem]
      intro r hr
      obtain ⟨h3, h4⟩ := List.mem_filter.1 ((symRows_perm rows sym).mem_iff.1 hr)
      exact h (List.mem_map.2 ⟨r, h3, by simpa using h4⟩)
    rw [this]
    rfl

/-- A run meets the conditions of the theorems about the bar loop. -/
theorem run_ok (hok : SetupOK x) {wins : List WFWindow} {kws : List (WFWindow × Nat)}
    {ws : List (Window × List BarIn)}
    (hw : walkforwardSplit x.dates x.windows x.lookahead x.trainSize x.shuffle = .ok wins)
    (hsub : kws.Sublist wins.zipIdx) (hf : List.Forall₂ (MadeWindow x) kws ws) :
    RunOK (InPlay x) ws where
  window := by
    intro y hy
    obtain ⟨kw, hkw, ⟨es, hes, hwin, _⟩⟩ := forall₂_mem hf hy
    have hk := mem_zip (hsub.subset hkw)
    rw [hwin]
    refine ⟨?_, ?_, ?_, hok.buyDelay, hok.sellDelay, ?_⟩
    · intro sym
      rw [window_dates hok.unique]
      split
      · exact barsOn_sorted hok.unique _ _
      · exact .nil
    · intro sym d hd
      rw [window_dates hok.unique] at hd
      split at hd
      · rename_i hs
        exact (inPlay_iff hok hw hk hes (mem_barsOn.1 hd).1).2 ⟨hs, hd⟩
      · cases hd
    · intro f hfe sym
      have := Option.some.inj hfe
      subst this
      simp only [storeOf_dates]
      exact List.pairwise_map.2 (symRows_sorted hok.unique sym)
    · intro b hb l
      have := Option.some.inj hb
      subst this
      exact hok.iter l
  bar := by
    intro y hy b hb
    obtain ⟨kw, hkw, ⟨es, hes, hwin, hbars⟩⟩ := forall₂_mem hf hy
    have hk := mem_zip (hsub.subset hkw)
    obtain ⟨d, hd, hmade⟩ := forall₂_mem hbars hb
    have hdt := (mem_calendar' hok.unique).1 hd
    refine ⟨?_, ?_⟩
    · intro sym
      rw [hmade.date, hmade.env, hasBar_iff hok.unique, inPlay_iff hok hw hk hes hdt]
    · intro r hr
      have hready := hmade.results r hr
      have hact := (List.mem_filter.1 hready).1
      obtain ⟨h1, h2⟩ := (mem_active hok.unique (mem_window_calendar hd)).1 hact
      rw [hwin, window_dates hok.unique, if_pos h1, hmade.date, hmade.env]
      exact at_bar hok.unique h1 h2
  forward := by
    have := windows_dates hf
    unfold barDates at this
    rw [this]
    exact (calendars_sorted hok hw).sublist (flatMap_sub (fun _ => List.Sublist.refl _) hsub)

/-! ## C97: turns -/

theorem active_sorted {window : List Date} {selected : List Sym} {d : Date}
    (hd : d ∈ (x.store window).uniqueDates) :
    (activeSyms (symExecDates (x.store window) selected)
      (x.store window).uniqueDates d).Pairwise (· < ·) := by
  rw [active_exact hd]
  refine List.Pairwise.sublist (List.filter_sublist.map Prod.fst) ?_
  unfold symExecDates
  refine List.pairwise_map.2 (List.pairwise_filterMap.2 ?_)
  have h1 : (storeOf x.cols x.rows).symbols.Pairwise (· ≤ ·) := List.pairwise_insertionSort _ _
  have h2 : (x.store window).symbols.Pairwise (· ≤ ·) := h1.filter _
  have h3 := h2.and (store_symbols_nodup x.cols x.rows window)
  refine ((h3.imp (fun h => lt_of_le_of_ne h.1 h.2)).filter _).imp ?_
  intro a b hab p hp q hq
  obtain ⟨_, _, rfl⟩ := Option.map_eq_some_iff.1 hp
  obtain ⟨_, _, rfl⟩ := Option.map_eq_some_iff.1 hq
  exact hab

theorem mem_ready (hu : UniqueBars x.rows) {window : List Date} {selected : List Sym} {d : Date}
    (hd : d ∈ (x.store window).uniqueDates) {sym : Sym} :
    sym ∈ x.readyOn window selected d ↔ sym ∈ selected ∧ d ∈ x.barsOn window sym ∧
      x.warmup.getD 0 < (x.barsOn window sym).countP (· ≤ d) := by
  unfold readyOn
  rw [List.mem_filter, mem_active hu hd, and_assoc]
  refine and_congr_right (fun hs => and_congr_right (fun hb => ?_))
  rw [idxOn_eq hu, if_pos hs]
  have hpos : 0 < (x.barsOn window sym).countP (· ≤ d) :=
    List.countP_pos_iff.2 ⟨d, hb, by simp⟩
  unfold warm
  split
  · rename_i h; rw [h]; simpa using hpos
  · rename_i m h
    rw [h, Bool.or_eq_true, decide_eq_true_eq, beq_iff_eq, Option.getD_some]
    constructor
    · rintro (rfl | h)
      · exact hpos
      · exact h
    · exact Or.inr

theorem mem_drop {l : List Date} (h : l.Pairwise (· < ·)) {n : Nat} {d : Date} :
    d ∈ l.drop n ↔ d ∈ l ∧ n < l.countP (· ≤ d) := by
  have hsp := List.take_append_drop n l
  have hcount : l.countP (· ≤ d) = (l.take n).countP (· ≤ d) + (l.drop n).countP (· ≤ d) := by
    conv_lhs => rw [← hsp]
    rw [List.countP_append]
  have hlt : ∀ a ∈ l.take n, ∀ b ∈ l.drop n, a < b := by
    rw [← hsp] at h
    exact (List.pairwise_append.1 h).2.2
  constructor
  · intro hd
    refine ⟨List.mem_of_mem_drop hd, ?_⟩
    have h1 : (l.take n).countP (· ≤ d) = (l.take n).length :=
      List.countP_eq_length.2 (fun a ha => by simpa using le_of_lt (hlt a ha d hd))
    have h2 : 0 < (l.drop n).countP (· ≤ d) := List.countP_pos_iff.2 ⟨d, hd, by simp⟩
    have h3 : 0 < (l.drop n).length := List.length_pos_of_mem hd
    rw [List.length_drop] at h3
    rw [hcount, h1, List.length_take]
    omega
  · rintro ⟨hd, hn⟩
    by_contra hc
    have hd' : d ∈ l.take n := by
      rw [← hsp] at hd
      exact (List.mem_append.1 hd).resolve_right hc
    have h2 : (l.drop n).countP (· ≤ d) = 0 :=
      List.countP_eq_zero.2 (fun b hb => by simpa using hlt d hd' b hb)
    have h3 : (l.take n).countP (· ≤ d) ≤ n :=
      le_trans List.countP_le_length (List.length_take_le n l)
    omega

theorem mem_turns {wins : List WFWindow} {k : Nat} {d : Date} {sym : Sym} :
    (k, d, sym) ∈ wins.zipIdx.flatMap x.turnsIn ↔ ∃ win es, wins[k]? = some win ∧
      windowExecutions (fun d : List DRow => (d.map DRow.symbol).dedup) List.isEmpty x.execs
        (x.rowsAt win.train) = .ok es ∧ d ∈ x.calendar win ∧
      sym ∈ x.readyOn (x.testDates win) (selectedSymbols es) d := by
  rw [List.mem_flatMap]
  constructor
  · rintro ⟨kw, hkw, h⟩
    have hk := mem_zip hkw
    unfold turnsIn at h
    split at h
    · cases h
    · rename_i es hes
      obtain ⟨d', hd, h⟩ := List.mem_flatMap.1 h
      obtain ⟨s, hs, e⟩ := List.mem_map.1 h
      cases e
      exact ⟨kw.1, es, hk, hes, hd, hs⟩
  · rintro ⟨win, es, hk, hes, hd, hs⟩
    refine ⟨(win, k), List.mem_zipIdx_iff_getElem?.2 hk, ?_⟩
    unfold turnsIn
    rw [hes]
    exact List.mem_flatMap.2 ⟨d, hd, List.mem_map.2 ⟨sym, hs, rfl⟩⟩

end RunSetup

/-- One turn comes before another: in an earlier window, or on an earlier bar of the window, or
on the same bar with an earlier symbol. -/
def Spec.TurnBefore (a b : Nat × Date × Sym) : Prop :=
  a.1 < b.1 ∨ a.1 = b.1 ∧ (a.2.1 < b.2.1 ∨ a.2.1 = b.2.1 ∧ a.2.2 < b.2.2)

namespace RunSetup

variable {x : RunSetup}

theorem turns_sorted (wins : List WFWindow) :
    (wins.zipIdx.flatMap x.turnsIn).Pairwise TurnBefore := by
  have hk : ∀ kw : WFWindow × Nat, ∀ t ∈ x.turnsIn kw, t.1 = kw.2 := by
    intro kw t ht
    unfold turnsIn at ht
    split at ht
    · cases ht
    · obtain ⟨d', hd, h⟩ := List.mem_flatMap.1 ht
      obtain ⟨s, hs, rfl⟩ := List.mem_map.1 h
      rfl
  rw [List.pairwise_flatMap]
  refine ⟨?_, (zipIdx_order wins).imp ?_⟩
  · intro kw _
    unfold turnsIn
    split
    · exact .nil
    · rename_i es _
      rw [List.pairwise_flatMap]
      refine ⟨?_, (calendar_sorted kw.1).imp ?_⟩
      · intro d hd
        rw [List.pairwise_map]
        exact ((active_sorted (mem_window_calendar hd)).filter _).imp
          (fun h => Or.inr ⟨rfl, Or.inr ⟨rfl, h⟩⟩)
      · intro d d' hlt a ha b hb
        obtain ⟨_, _, rfl⟩ := List.mem_map.1 ha
        obtain ⟨_, _, rfl⟩ := List.mem_map.1 hb
        exact Or.inr ⟨rfl, Or.inl hlt⟩
  · intro kw kw' hlt a ha b hb
    left
    rw [hk kw a ha, hk kw' b hb]
    exact hlt

end RunSetup

/-- **C97.** In every run, each symbol gets a turn on exactly the bars it has in the test data
of each window that trades it, without the first `warmup` of them, and turns are taken window by
window, bar by bar in date order, in the order of symbols. -/
theorem turns_exact {x : RunSetup} (hok : SetupOK x) {st : RunSetup.State} (h : x.run = .ok st) :
    (∀ k sym ds, Bars x k sym ds →
      (st.turns.filter (fun t => t.1 = k ∧ t.2.2 = sym)).map (fun t => t.2.1) =
        ds.drop (x.warmup.getD 0)) ∧
    st.turns.Pairwise TurnBefore := by
  obtain ⟨wins, ws, hw, hf, _, hturns, _⟩ := RunSetup.run_made h
  have hsorted : st.turns.Pairwise TurnBefore := by rw [hturns]; exact RunSetup.turns_sorted wins
  refine ⟨?_, hsorted⟩
  intro k sym ds hb
  refine sorted_ext ?_ (hb.1.sublist (List.drop_sublist _ _)) ?_
  · rw [List.pairwise_map, List.pairwise_filter]
    refine hsorted.imp ?_
    intro a b hab ha hb
    simp only [decide_eq_true_eq] at ha hb
    rcases hab with h1 | ⟨_, h2 | ⟨_, h3⟩⟩
    · rw [ha.1, hb.1] at h1
      exact absurd h1 (lt_irrefl _)
    · exact h2
    · rw [ha.2, hb.2] at h3
      exact absurd h3 (lt_irrefl _)
  · intro d
    rw [RunSetup.mem_drop hb.1]
    have e : d ∈ (st.turns.filter (fun t => t.1 = k ∧ t.2.2 = sym)).map (fun t => t.2.1) ↔
        (k, d, sym) ∈ st.turns := by
      rw [List.mem_map]
      constructor
      · rintro ⟨⟨k', d', s'⟩, ht, rfl⟩
        obtain ⟨h1, h2⟩ := List.mem_filter.1 ht
        simp only [decide_eq_true_eq] at h2
        obtain ⟨rfl, rfl⟩ := h2
        exact h1
      · intro ht
        exact ⟨(k, d, sym), List.mem_filter.2 ⟨ht, by simp⟩, rfl⟩
    rw [e, hturns, RunSetup.mem_turns]
    have hds : ∀ {win es}, wins[k]? = some win →
        windowExecutions (fun d : List DRow => (d.map DRow.symbol).dedup) List.isEmpty x.execs
          (x.rowsAt win.train) = .ok es → sym ∈ selectedSymbols es →
        ds = x.barsOn (x.testDates win) sym := by
      intro win es hk hes hsel
      refine sorted_ext hb.1 (RunSetup.barsOn_sorted hok.unique _ _) ?_
      intro d
      rw [hb.2, RunSetup.mem_barsOn]
      constructor
      · rintro ⟨win', sel, ⟨wins', es', hw', hk', hes', rfl⟩, hs, i, hi, r, hr, hrs, hrd⟩
        rw [hw] at hw'
        have := Except.ok.inj hw'
        subst this
        rw [hk] at hk'
        have := Option.some.inj hk'
        subst this
        exact ⟨RunSetup.mem_testDates.2 ⟨i, hi, r, hr, hrd⟩, r, List.mem_of_getElem? hr, hrs, hrd⟩
      · rintro ⟨hd, r, hr, hrs, hrd⟩
        obtain ⟨i, hi, hir⟩ := RunSetup.tested_row hok hw hk hr (by rw [hrd]; exact hd)
        exact ⟨win, _, ⟨wins, es, hw, hk, hes, rfl⟩, hsel, i, hi, r, hir, hrs, hrd⟩
    constructor
    · rintro ⟨win, es, hk, hes, hd, hs⟩
      obtain ⟨h1, h2, h3⟩ :=
        (RunSetup.mem_ready hok.unique (RunSetup.mem_window_calendar hd)).1 hs
      have := hds hk hes h1
      rw [this]
      exact ⟨h2, h3⟩
    · rintro ⟨h1, h2⟩
      obtain ⟨win, sel, ⟨wins', es, hw', hk, hes, rfl⟩, hs, i, hi, r, hr, hrs, hrd⟩ := (hb.2 d).1 h1
      rw [hw] at hw'
      have := Except.ok.inj hw'
      subst this
      have hd : d ∈ x.calendar win :=
        (RunSetup.mem_calendar' hok.unique).2 (RunSetup.mem_testDates.2 ⟨i, hi, r, hr, hrd⟩)
      have := hds hk hes hs
      rw [this] at h1 h2
      exact ⟨win, es, hk, hes, hd,
        (RunSetup.mem_ready hok.unique (RunSetup.mem_window_calendar hd)).2 ⟨hs, h1, h2⟩⟩

/-! ## C98: positions are closed on a symbol's last bar -/

namespace Spec

/-- The last bar of a symbol in all the data. -/
def LastBar (x : RunSetup) (sym : Sym) (d : Date) : Prop :=
  (∃ r ∈ x.rows, r.symbol = sym ∧ r.date = d) ∧ ∀ r ∈ x.rows, r.symbol = sym → r.date ≤ d

/-- Results as contexts make them: the stops of a result are of its symbol and the side it
opens, it does not both buy and sell, and no two stops share an id. -/
structure ResultsOK (rs : List ExecResult) : Prop where
  fit : ∀ r ∈ rs, ResultFit r
  one : ∀ r ∈ rs, r.buyShares = none ∨ r.sellShares = none
  fresh : ((rs.flatMap (fun r => r.longStops ++ r.shortStops)).map Stop.id).Nodup

end Spec

theorem three_filters {α : Type} {p q r : α → Bool} : ∀ (l : List α),
    (∀ a ∈ l, p a = true → q a = false) → (∀ a ∈ l, p a = true → r a = false) →
    (∀ a ∈ l, q a = true → r a = false) →
    (l.filter p ++ (l.filter q ++ l.filter r)).Perm (l.filter (fun a => p a || (q a || r a)))
  | [], _, _, _ => .nil
  | a :: l, h1, h2, h3 => by
    have ih := three_filters l (fun b hb => h1 b (List.mem_cons_of_mem _ hb))
      (fun b hb => h2 b (List.mem_cons_of_mem _ hb)) (fun b hb => h3 b (List.mem_cons_of_mem _ hb))
    have g1 := h1 a List.mem_cons_self
    have g2 := h2 a List.mem_cons_self
    have g3 := h3 a List.mem_cons_self
    rcases hp : p a with _ | _ <;> rcases hq : q a with _ | _ <;> rcases hr : r a with _ | _ <;>
      simp only [List.filter_cons, hp, hq, hr, Bool.or_false, Bool.or_true, Bool.false_or,
        Bool.true_or, if_true, Bool.false_eq_true, if_false, reduceIte]
    · exact ih
    · refine List.Perm.trans ?_ (ih.cons a)
      rw [← List.append_assoc, ← List.append_assoc]
      exact List.perm_middle
    · refine List.Perm.trans ?_ (ih.cons a)
      exact List.perm_middle
    · exact absurd (g3 hq) (by rw [hr]; decide)
    · exact ih.cons a
    · exact absurd (g2 hp) (by rw [hr]; decide)
    · exact absurd (g1 hp) (by rw [hq]; decide)
    · exact absurd (g1 hp) (by rw [hq]; decide)

/-- The signals of a run are among the results of its contexts. -/
theorem signals_sub {ws : List (Window × List BarIn)}
    (h1 : ∀ r ∈ ws.flatMap (fun y => y.2.flatMap BarIn.results),
      r.buyShares = none ∨ r.sellShares = none) :
    ∃ l, (signals ws).Perm l ∧ l.Sublist (ws.flatMap (fun y => y.2.flatMap BarIn.results)) := by
  refine ⟨ws.flatMap (fun y => y.2.flatMap (fun b => b.results.filter (fun r =>
    (r.buyShares.isSome && r.cover) || ((r.buyShares.isSome && !r.cover) || r.sellShares.isSome)))),
    ?_, flatMap_sub (fun y => flatMap_sub (fun b => List.filter_sublist) (List.Sublist.refl _))
      (List.Sublist.refl _)⟩
  unfold signals
  refine List.Perm.flatMap_left _ (fun y hy => List.Perm.flatMap_left _ (fun b hb => ?_))
  have hone : ∀ r ∈ b.results, r.buyShares = none ∨ r.sellShares = none := fun r hr =>
    h1 r (List.mem_flatMap.2 ⟨y, hy, List.mem_flatMap.2 ⟨b, hb, hr⟩⟩)
  refine three_filters _ ?_ ?_ ?_
  · intro r _ h
    rw [Bool.and_eq_true] at h
    simp [h.2]
  · intro r hr h
    rw [Bool.and_eq_true] at h
    rcases hone r hr with e | e
    · rw [e] at h; cases h.1
    · rw [e]; rfl
  · intro r hr h
    rw [Bool.and_eq_true] at h
    rcases hone r hr with e | e
    · rw [e] at h; cases h.1
    · rw [e]; rfl

theorem results_signals {ws : List (Window × List BarIn)}
    (h : ResultsOK (ws.flatMap (fun y => y.2.flatMap BarIn.results))) :
    (∀ r ∈ signals ws, ResultFit r) ∧ FreshStops ws := by
  obtain ⟨l, hp, hs⟩ := signals_sub h.one
  refine ⟨fun r hr => h.fit r (hs.subset (hp.mem_iff.1 hr)), ?_⟩
  unfold FreshStops
  have hp' : (((signals ws).flatMap orderStops).map Stop.id).Perm
      ((l.flatMap orderStops).map Stop.id) := (hp.flatMap_right orderStops).map _
  rw [hp'.nodup_iff]
  refine List.Sublist.nodup ((flatMap_sub (fun r => ?_) hs).map _) h.fresh
  unfold orderStops
  split
  · exact List.sublist_append_left _ _
  · exact List.sublist_append_right _ _

theorem forall₂_cut {α β : Type} {R : α → β → Prop} {a : List α} {b : α} {c : List α} {l : List β}
    (h : List.Forall₂ R (a ++ b :: c) l) : ∃ a' b' c', l = a' ++ b' :: c' ∧
      List.Forall₂ R a a' ∧ R b b' ∧ List.Forall₂ R c c' := by
  induction a generalizing l with
  | nil =>
    obtain ⟨_, _, h1, h2, rfl⟩ := List.forall₂_cons_left_iff.1 h
    exact ⟨[], _, _, rfl, .nil, h1, h2⟩
  | cons x a ih =>
    rw [List.cons_append] at h
    obtain ⟨y, l', h1, h2, rfl⟩ := List.forall₂_cons_left_iff.1 h
    obtain ⟨a', b', c', rfl, h3, h4, h5⟩ := ih h2
    exact ⟨y :: a', b', c', rfl, .cons h1 h3, h4, h5⟩

namespace RunSetup

variable {x : RunSetup}

/-- A date after a tested date is tested. -/
theorem tested_after (hok : SetupOK x) {wins : List WFWindow}
    (hw : walkforwardSplit x.dates x.windows x.lookahead x.trainSize x.shuffle = .ok wins)
    {k : Nat} {win : WFWindow} (hk : wins[k]? = some win) {d L : Date} (hd : d ∈ x.testDates win)
    (hdm : d ∈ x.dates) (hL : L ∈ x.dates) (hle : d ≤ L) :
    ∃ (k' : Nat) (win' : WFWindow), wins[k']? = some win' ∧ L ∈ x.testDates win' := by
  obtain ⟨te, _, hb⟩ := test_blocks hok.shuffle hok.size.1 hok.size.2 hw
  obtain ⟨h1, h2⟩ := (mem_datesIn (hb k win hk) hdm).1 hd
  have h3 := barNo_mono x.dates hle
  have h4 : barNo x.dates L < nDates x.dates := (barNo_get hL).1
  have hkl : k < wins.length := (List.getElem?_eq_some_iff.1 hk).1
  have hte : 0 < te := by omega
  -- the window counted from the last
  obtain ⟨q, hq1, hq2⟩ : ∃ q : Nat, q * te ≤ nDates x.dates - 1 - barNo x.dates L ∧
      nDates x.dates - 1 - barNo x.dates L < (q + 1) * te := by
    refine ⟨(nDates x.dates - 1 - barNo x.dates L) / te, Nat.div_mul_le_self _ _, ?_⟩
    rw [Nat.mul_comm]
    exact Nat.lt_mul_div_succ _ hte
  have hqk : q < wins.length - k := by
    by_contra hc
    have : (wins.length - k) * te ≤ q * te := Nat.mul_le_mul_right _ (not_lt.1 hc)
    have e : (((wins.length - k : Nat) : Int)) * te = ((wins.length : Int) - k) * te := by
      rw [Nat.cast_sub hkl.le]
    have : (((wins.length - k : Nat) : Int)) * te ≤ ((q * te : Nat) : Int) := by
      exact_mod_cast this
    rw [e] at this
    omega
  have hk' : wins.length - 1 - q < wins.length := by omega
  refine ⟨wins.length - 1 - q, wins[wins.length - 1 - q], List.getElem?_eq_getElem hk', ?_⟩
  rw [mem_datesIn (hb _ _ (List.getElem?_eq_getElem hk')) hL]
  have e : ((wins.length : Int) - ((wins.length - 1 - q : Nat) : Int)) = q + 1 := by omega
  rw [e]
  have e2 : ((q : Int) + 1) * te = q * te + te := by rw [Int.add_mul, Int.one_mul]
  have hq1' : (q : Int) * te ≤ ((nDates x.dates - 1 - barNo x.dates L : Nat) : Int) := by
    exact_mod_cast hq1
  have hq2' : ((nDates x.dates - 1 - barNo x.dates L : Nat) : Int) < ((q : Int) + 1) * te := by
    exact_mod_cast hq2
  omega

/-- The symbols a window trades have an exit date when the run exits on last bars. -/
theorem exitDate_eq (hx : x.exitOnLast = true) {win : WFWindow} {es : List (Execn (List DRow))}
    (hes : windowExecutions (fun d : List DRow => (d.map DRow.symbol).dedup) List.isEmpty x.execs
      (x.rowsAt win.train) = .ok es) {sym : Sym} (hs : sym ∈ selectedSymbols es) {L : Date}
    (hL : LastBar x sym L) : x.exitDate sym = some L := by
  have hsel : x.selects = true ∨ sym ∈ selectedSymbols x.execs := by
    by_cases h : x.selects = true
    · exact Or.inl h
    · right
      unfold windowExecutions at hes
      split at hes
      · cases hes
      · unfold selects at h
        rw [if_neg h] at hes
        rw [Except.ok.inj hes]
        exact hs
  unfold exitDate
  rw [if_pos (by rw [hx, Bool.true_and, Bool.or_eq_true, decide_eq_true_eq]; exact hsel)]
  rw [List.max?_eq_some_iff]
  obtain ⟨⟨r, hr, h1, h2⟩, h3⟩ := hL
  constructor
  · exact List.mem_map.2 ⟨r, List.mem_filter.2 ⟨hr, by simpa using h1⟩, h2⟩
  · intro b hb
    obtain ⟨r', hr', rfl⟩ := List.mem_map.1 hb
    obtain ⟨h4, h5⟩ := List.mem_filter.1 hr'
    exact h3 r' h4 (by simpa using h5)

theorem exitDate_last {sym : Sym} {d : Date} (h : x.exitDate sym = some d) :
    x.exitOnLast = true ∧ LastBar x sym d := by
  unfold exitDate at h
  split at h
  · rename_i hc
    rw [List.max?_eq_some_iff] at h
    obtain ⟨h1, h2⟩ := h
    obtain ⟨r, hr, rfl⟩ := List.mem_map.1 h1
    obtain ⟨h3, h4⟩ := List.mem_filter.1 hr
    refine ⟨(Bool.and_eq_true_iff.1 hc).1, ⟨r, h3, by simpa using h4, rfl⟩, ?_⟩
    intro r2 hr2 hs2
    exact h2 _ (List.mem_map.2 ⟨r2, List.mem_filter.2 ⟨hr2, by simpa using hs2⟩, rfl⟩)
  · cases h

theorem lastBar_exists {sym : Sym} {r : DRow} (hr : r ∈ x.rows) (hs : r.symbol = sym) :
    ∃ L, LastBar x sym L := by
  have hm : r.date ∈ (x.rows.filter (fun r => r.symbol = sym)).map DRow.date :=
    List.mem_map.2 ⟨r, List.mem_filter.2 ⟨hr, by simpa using hs⟩, rfl⟩
  rcases h : ((x.rows.filter (fun r => r.symbol = sym)).map DRow.date).max? with _ | L
  · rw [List.max?_eq_none_iff] at h
    rw [h] at hm; cases hm
  · obtain ⟨h1, h2⟩ := List.max?_eq_some_iff.1 h
    obtain ⟨r', hr', rfl⟩ := List.mem_map.1 h1
    obtain ⟨h3, h4⟩ := List.mem_filter.1 hr'
    refine ⟨r'.date, ⟨r', h3, by simpa using h4, rfl⟩, ?_⟩
    intro r2 hr2 hs2
    exact h2 _ (List.mem_map.2 ⟨r2, List.mem_filter.2 ⟨hr2, by simpa using hs2⟩, rfl⟩)

end RunSetup

/-- What the proof of C98 needs, for one symbol. -/
theorem not_held {x : RunSetup} (hok : SetupOK x) {st : RunSetup.State} (h : x.run = .ok st)
    (hx : x.exitOnLast = true) (hres : ResultsOK st.results)
    (hturn : ∀ sym d, InPlay x sym d → LastBar x sym d → ∃ k, (k, d, sym) ∈ st.turns) {sym : Sym} :
    ¬ Held st.loop.pf sym := by
  intro hh
  obtain ⟨wins, ws, hw, hf, hrun, hturns, hresults⟩ := RunSetup.run_made h
  have hr := RunSetup.run_ok hok hw (List.Sublist.refl _) hf
  rw [hresults] at hres
  obtain ⟨hfit, hfresh⟩ := results_signals hres
  have hu := hok.unique
  have hinit : ¬ Held (Portfolio.init x.cfg) sym := by
    rintro ⟨p, hp | hp, _⟩ <;> cases hp
  -- the symbol was in play
  have hplay : ∃ d, InPlay x sym d := by
    obtain ⟨hist, hcalls, hrun', hfit', _⟩ := backtest_history hr hfit hfresh hrun
    rcases held_since (ops := []) (cfg := x.cfg) (s := Portfolio.init x.cfg) rfl
      (by rw [List.nil_append]; exact hfit') (by rw [List.nil_append]; exact hrun') hh with
      ⟨h1, _⟩ | ⟨o, ho, hs⟩
    · exact absurd h1 hinit
    · obtain ⟨y, hy, b, hb, hbar⟩ := windows_order hcalls ho hs
      exact ⟨_, ((hr.bar y hy b hb).bars sym).1 (isOrder_bar hbar hs)⟩
  obtain ⟨d, hplay⟩ := hplay
  -- a later bar of the symbol
  have hrow : ∀ {d}, InPlay x sym d → ∃ r ∈ x.rows, r.symbol = sym ∧ r.date = d := by
    rintro d ⟨_, _, _, _, _, i, _, r, hr, h1, h2⟩
    exact ⟨r, List.mem_of_getElem? hr, h1, h2⟩
  obtain ⟨r, hrm, hrs, _⟩ := hrow hplay
  obtain ⟨L, hL⟩ := RunSetup.lastBar_exists hrm hrs
  have hmax : ∀ {d}, InPlay x sym d → d ≤ L := by
    intro d hd
    obtain ⟨r, hr, h1, h2⟩ := hrow hd
    rw [← h2]
    exact hL.2 r hr h1
  obtain ⟨rL, hrL, hrLs, hrLd⟩ := hL.1
  have hmemd : ∀ r ∈ x.rows, r.date ∈ x.dates := fun r hr => List.mem_map.2 ⟨r, hr, rfl⟩
  -- its last bar is in a window
  have htest : ∃ (k : Nat) (win : WFWindow), wins[k]? = some win ∧ L ∈ x.testDates win := by
    obtain ⟨k, win, _, ⟨wins', _, hw', hk, _⟩, _, i, hi, r, hr, h1, h2⟩ := hplay
    rw [hw] at hw'
    have := Except.ok.inj hw'
    subst this
    have hd := RunSetup.mem_testDates.2 ⟨i, hi, r, hr, h2⟩
    exact RunSetup.tested_after hok hw hk hd
      (by rw [← h2]; exact hmemd r (List.mem_of_getElem? hr)) (by rw [← hrLd]; exact hmemd rL hrL)
      (by rw [← h2]; exact hL.2 r (List.mem_of_getElem? hr) h1)
  obtain ⟨k, win, hk, hLt⟩ := htest
  obtain ⟨i, hi, hir⟩ := RunSetup.tested_row hok hw hk hrL (by rw [hrLd]; exact hLt)
  obtain ⟨z1, z2, hz⟩ := List.append_of_mem (List.mem_zipIdx_iff_getElem?.2 hk : (win, k) ∈ wins.zipIdx)
  have hzo := RunSetup.zipIdx_order wins
  rw [hz, List.pairwise_append, List.pairwise_cons] at hzo
  have hz2 : ∀ kw ∈ z2, k < kw.2 := hzo.2.1.1
  have hz2m : ∀ kw ∈ z2, kw ∈ wins.zipIdx := fun kw hkw => by
    rw [hz]; exact List.mem_append_right _ (List.mem_cons_of_mem _ hkw)
  rw [hz] at hf
  obtain ⟨ws1, y, ws2, rfl, _, hy, hf2⟩ := forall₂_cut hf
  obtain ⟨es, hes, hwin, hbars⟩ := hy.made
  simp only at hes hwin hbars
  -- no bar after the last
  have hlate : ∀ y ∈ ws2, ∀ b ∈ y.2, b.env.hasBarOn sym = true → False := by
    intro y2 hy2 b hb hbar
    obtain ⟨kw, hkw, ⟨es2, _, _, hbars2⟩⟩ := RunSetup.forall₂_mem hf2 hy2
    obtain ⟨d2, hd2, hmade⟩ := RunSetup.forall₂_mem hbars2 hb
    have hp := ((hr.bar y2 (List.mem_append_right _ (List.mem_cons_of_mem _ hy2)) b hb).bars sym).1
      hbar
    rw [hmade.date] at hp
    have := RunSetup.test_order hok hw hk (RunSetup.mem_zip (hz2m kw hkw)) (hz2 kw hkw) hLt
      ((RunSetup.mem_calendar' hu).1 hd2)
    exact absurd (hmax hp) (not_le.2 this)
  by_cases hsel : sym ∈ selectedSymbols es
  · -- the window trades the symbol: it is closed on its last bar
    have hcal : L ∈ x.calendar win := (RunSetup.mem_calendar' hu).2 hLt
    obtain ⟨c1, c2, hc⟩ := List.append_of_mem hcal
    have hcs := RunSetup.calendar_sorted (x := x) win
    rw [hc, List.pairwise_append, List.pairwise_cons] at hcs
    rw [hc] at hbars
    obtain ⟨b1, bL, b2, hy2, _, hmade, hb2⟩ := forall₂_cut hbars
    obtain ⟨w, bars⟩ := y
    simp only at hy2 hwin
    subst hy2
    have happ : b1 ++ bL :: b2 = (b1 ++ [bL]) ++ b2 := by simp
    rw [happ] at hr hfit hfresh hrun
    obtain ⟨sA, s0, opsA, pre, hist1, more, _, _, _, hcalls, hfin, hfits, hmore⟩ :=
      run_cut hr hfit hfresh hrun
    have hex : sym ∈ bL.exits.map ForcedExit.symbol := by
      rw [hmade.exits]
      refine List.mem_filter.2 ⟨?_, by simpa using RunSetup.exitDate_eq hx hes hsel hL⟩
      have hpl : InPlay x sym L := (RunSetup.inPlay_iff hok hw hk hes hLt).2
        ⟨hsel, RunSetup.mem_barsOn.2 ⟨hLt, rL, hrL, hrLs, hrLd⟩⟩
      obtain ⟨k', ht⟩ := hturn sym L hpl hL
      rw [hturns] at ht
      obtain ⟨win', es', hk', hes', hd', hs'⟩ := RunSetup.mem_turns.1 ht
      have := RunSetup.test_unique hok hw hk hk' hLt ((RunSetup.mem_calendar' hu).1 hd')
      subst this
      rw [hk] at hk'
      have := Option.some.inj hk'
      subst this
      rw [hes] at hes'
      have := Except.ok.inj hes'
      subst this
      exact hs'
    obtain ⟨h1, calls, h2, rfl, _, hcL, hnil⟩ := forall₂_cut hcalls
    cases hnil
    have e : opsA ++ pre ++ (h1 ++ [calls]).flatten = (opsA ++ pre ++ h1.flatten) ++ calls := by simp
    obtain ⟨s1, hs1⟩ := run_split hfin
    have hflat : ¬ Held s1 sym := by
      rw [e] at hs1 hfits
      exact barCalls_exits hcL (fun o ho => hfits o (List.mem_append_left _ ho)) hs1 hex
    rcases held_since hs1 hfits hfin hh with ⟨g, _⟩ | ⟨o, ho, hs⟩
    · exact hflat g
    · obtain ⟨b, hb | ⟨y2, hy2, hb⟩, hbar⟩ := hmore sym o ho hs
      · obtain ⟨d2, hd2, hmade2⟩ := RunSetup.forall₂_mem hb2 hb
        have hp := ((hr.bar (w, b1 ++ [bL] ++ b2)
          (List.mem_append_right _ List.mem_cons_self) b (List.mem_append_right _ hb)).bars sym).1 hbar
        rw [hmade2.date] at hp
        exact absurd (hmax hp) (not_le.2 (hcs.2.1.1 d2 hd2))
      · exact hlate y2 hy2 b hb hbar
  · -- the window does not trade it: it is closed at its start
    obtain ⟨w, bars⟩ := y
    simp only at hwin hbars
    obtain ⟨sA, s0, opsA, pre, hist1, more, hA, hpre, hs0, hcalls, hfin, hfits, hmore⟩ :=
      run_cut (bars1 := []) (bars2 := bars) hr hfit hfresh hrun
    cases hcalls
    rw [List.flatten_nil, List.append_nil] at hfin hfits
    have hflat : ¬ Held s0 sym := by
      intro hh0
      have hbd : w.boundary = some (x.boundary k (selectedSymbols es) win) := by rw [hwin]; rfl
      rcases hpre with ⟨hn, _⟩ | ⟨b, hb, hpre⟩
      · rw [hbd] at hn; cases hn
      · rw [hbd] at hb
        have := Option.some.inj hb
        subst this
        have hrows : rL ∈ x.rowsAt win.test := RunSetup.mem_rowsAt.2 ⟨i, hi, hir⟩
        have hbok : BoundaryOK (x.boundary k (selectedSymbols es) win) := by
          refine ⟨hok.iter, ?_⟩
          intro e
          have : rL.date ∈ (x.rowsAt win.test).map DRow.date := List.mem_map.2 ⟨rL, hrows, rfl⟩
          change (x.rowsAt win.test).map DRow.date = [] at e
          rw [e] at this
          cases this
        have hexit : ∃ bar, ExitBar (x.boundary k (selectedSymbols es) win) sym bar := by
          rcases hbar : testExitBar (x.boundary k (selectedSymbols es) win) sym with _ | bar
          · exfalso
            have he := testExit_none hbok hbar
            change x.dropBars (storeOf x.cols (x.rowsAt win.test)) sym = [] at he
            have hd := RunSetup.storeOf_dates x.cols (x.rowsAt win.test) sym
            have hm : rL.date ∈ (symRows (x.rowsAt win.test) sym).map DRow.date :=
              List.mem_map.2 ⟨rL, (symRows_perm _ sym).mem_iff.2
                (List.mem_filter.2 ⟨hrows, by simpa using hrLs⟩), rfl⟩
            rw [← hd] at hm
            unfold RunSetup.dropBars at he
            split at he
            · rename_i hn
              rw [hn] at hm
              cases hm
            · rename_i a ha
              rw [ha] at hm
              have : a.dates = [] := by simpa using he
              change rL.date ∈ a.dates at hm
              rw [this] at hm
              cases hm
          · exact ⟨bar, Or.inl (testExit_spec hbok hbar)⟩
        obtain ⟨_, _, hb3⟩ := boundaryExits_spec (pf := sA) hbok
        have hfit0 : ∀ o ∈ opsA ++ pre, o.Fit := fun o ho => hfits o (List.mem_append_left _ ho)
        rcases held_since hA hfit0 hs0 hh0 with ⟨g1, g2⟩ | ⟨o, ho, hs⟩
        · have hm := hb3 sym ⟨g1, hsel⟩ hexit
          obtain ⟨e, he, hes'⟩ := List.mem_map.1 hm
          refine g2 (Op.exitPosition e.2.date e.1 e.2.buyFill e.2.sellFill
            (x.boundary k (selectedSymbols es) win).slip) ?_ ?_
          · rw [hpre]
            exact List.mem_map.2 ⟨e, he, rfl⟩
          · rw [hes']
            exact ⟨_, _, _, _, rfl⟩
        · rw [hpre] at ho
          obtain ⟨e, _, rfl⟩ := List.mem_map.1 ho
          obtain ⟨r, hr', _⟩ := hs
          rcases hr' with hr' | hr' <;> cases hr'
    rcases held_since hs0 hfits hfin hh with ⟨g, _⟩ | ⟨o, ho, hs⟩
    · exact hflat g
    · obtain ⟨b, hb | ⟨y2, hy2, hb⟩, hbar⟩ := hmore sym o ho hs
      · obtain ⟨d2, hd2, hmade2⟩ := RunSetup.forall₂_mem hbars hb
        have hp := ((hr.bar (w, [] ++ bars)
          (List.mem_append_right _ List.mem_cons_self) b (by simpa using hb)).bars sym).1 hbar
        rw [hmade2.date] at hp
        exact hsel ((RunSetup.inPlay_iff hok hw hk hes ((RunSetup.mem_calendar' hu).1 hd2)).1 hp).1
      · exact hlate y2 hy2 b hb hbar

/-- **C98.** A run with `exit_on_last_bar` ends without positions, provided each symbol in play on
its last bar has a turn there. -/
theorem exit_on_last_bar_partial {x : RunSetup} (hok : SetupOK x) {st : RunSetup.State}
    (h : x.run = .ok st) (hx : x.exitOnLast = true) (hres : ResultsOK st.results)
    (hturn : ∀ sym d, InPlay x sym d → LastBar x sym d → ∃ k, (k, d, sym) ∈ st.turns) :
    st.loop.pf.longs = [] ∧ st.loop.pf.shorts = [] := by
  constructor
  · rw [List.eq_nil_iff_forall_not_mem]
    intro p hp
    exact not_held hok h hx hres hturn ⟨p, Or.inl hp, rfl⟩
  · rw [List.eq_nil_iff_forall_not_mem]
    intro p hp
    exact not_held hok h hx hres hturn ⟨p, Or.inr hp, rfl⟩

/-- Without warm-up, a run with `exit_on_last_bar` ends without positions. -/
theorem exit_on_last_bar {x : RunSetup} (hok : SetupOK x) {st : RunSetup.State}
    (h : x.run = .ok st) (hx : x.exitOnLast = true) (hres : ResultsOK st.results)
    (hwarm : x.warmup.getD 0 = 0) : st.loop.pf.longs = [] ∧ st.loop.pf.shorts = [] := by
  refine exit_on_last_bar_partial hok h hx hres ?_
  intro sym d hp _
  obtain ⟨wins, ws, hw, _, _, hturns, _⟩ := RunSetup.run_made h
  have hp' := hp
  obtain ⟨k, win, _, ⟨wins', es, hw', hk, hes, rfl⟩, _, i, hi, r, hr, _, h2⟩ := hp'
  rw [hw] at hw'
  have := Except.ok.inj hw'
  subst this
  have hd := RunSetup.mem_testDates.2 ⟨i, hi, r, hr, h2⟩
  obtain ⟨h3, h4⟩ := (RunSetup.inPlay_iff hok hw hk hes hd).1 hp
  have hcal := (RunSetup.mem_calendar' hok.unique).2 hd
  refine ⟨k, ?_⟩
  rw [hturns, RunSetup.mem_turns]
  refine ⟨win, es, hk, hes, hcal,
    (RunSetup.mem_ready hok.unique (RunSetup.mem_window_calendar hcal)).2 ⟨h3, h4, ?_⟩⟩
  rw [hwarm]
  exact List.countP_pos_iff.2 ⟨d, h4, by simp⟩

/-! ## C99: orders of a run -/

/-- **C99.** In every run, an order is attempted only on a later bar than the one that signalled
it, not before its execution date, and only while its symbol is in play: traded by the window of
the date, with a bar on it.  Attempts of one order are on increasing dates, all but the last
unfilled, and an order with timeout `t` is attempted on at most `t + 1` bars. -/
theorem run_attempts {x : RunSetup} (hok : SetupOK x) {st : RunSetup.State} (h : x.run = .ok st) :
    (∀ a ∈ st.loop.attempts, a.order.created < a.date ∧ a.order.execDate ≤ a.date ∧
      InPlay x a.order.symbol a.date) ∧
    st.loop.attempts.Pairwise (fun a b => a.order.id = b.order.id →
      a.order = b.order ∧ a.date < b.date ∧ a.filled = none ∧ Persistent a.order) ∧
    ∀ a ∈ st.loop.attempts, ∀ t, a.order.timeout = some t → 0 ≤ t →
      ((st.loop.attempts.countP (fun b => b.order.id = a.order.id) : Nat) : Int) ≤ t + 1 := by
  obtain ⟨wins, ws, hw, hf, hrun, _, _⟩ := RunSetup.run_made h
  have hr := RunSetup.run_ok hok hw (List.Sublist.refl _) hf
  exact ⟨attempts_after_signal hr hrun, (attempts_bounded hr hrun).1, (attempts_bounded hr hrun).2.1⟩

/-- The portfolio of every run is the result of a history of calls that the portfolio theorems
cover; its orders are of symbols in play on their date and created before it. -/
theorem run_history {x : RunSetup} (hok : SetupOK x) {st : RunSetup.State} (h : x.run = .ok st)
    (hres : ResultsOK st.results) :
    ∃ ops, run x.cfg ops = .ok st.loop.pf ∧ (∀ o ∈ ops, o.Fit) ∧ FreshIds ops ∧
      (∀ r, (Op.buy r ∈ ops ∨ Op.sell r ∈ ops) →
        InPlay x r.symbol r.date ∧ ∃ c, r.created = some c ∧ c < r.date) ∧
      (x.cfg.fractional = false → ∀ o ∈ ops, o.Whole) := by
  obtain ⟨wins, ws, hw, hf, hrun, _, hresults⟩ := RunSetup.run_made h
  have hr := RunSetup.run_ok hok hw (List.Sublist.refl _) hf
  rw [hresults] at hres
  obtain ⟨hfit, hfresh⟩ := results_signals hres
  obtain ⟨hist, hcalls, hrun', hfit', hids, hwh⟩ := backtest_history hr hfit hfresh hrun
  refine ⟨_, hrun', hfit', hids, ?_, hwh⟩
  have key : ∀ r o, (o = Op.buy r ∨ o = Op.sell r) → o ∈ allCalls hist →
      InPlay x r.symbol r.date ∧ ∃ c, r.created = some c ∧ c < r.date := by
    intro r o ho hm
    obtain ⟨y, hy, b, hb, hi⟩ := windows_order hcalls hm ⟨r, ho, rfl⟩
    have hi' : r.date = b.env.date ∧ r.created.elim False (· < b.env.date) ∧
        b.env.hasBarOn r.symbol = true := by
      rcases ho with rfl | rfl
      · exact ⟨hi.1, hi.2.1, hi.2.2.1⟩
      · exact ⟨hi.1, hi.2.1, hi.2.2.1⟩
    obtain ⟨h1, h2, h3⟩ := hi'
    rw [h1]
    refine ⟨((hr.bar y hy b hb).bars _).1 h3, ?_⟩
    rcases hc : r.created with _ | c
    · rw [hc] at h2; exact h2.elim
    · rw [hc] at h2; exact ⟨c, rfl, h2⟩
  intro r hor
  rcases hor with hm | hm
  · exact key r _ (Or.inl rfl) hm
  · exact key r _ (Or.inr rfl) hm

/-! ## A concrete run -/

namespace Demo

/-- A row whose prices are all `p`. -/
def drRow (sym : Sym) (d : Date) (p : ℚ) : DRow := ⟨sym, d, fun _ => some p⟩

/-- `AAA` has bars on dates 1 to 6, `BBB` on 1 to 5. -/
def drRows : List DRow :=
  [drRow "AAA" 1 100, drRow "BBB" 1 20, drRow "AAA" 2 101, drRow "BBB" 2 21, drRow "AAA" 3 102,
   drRow "BBB" 3 22, drRow "AAA" 4 103, drRow "BBB" 4 23, drRow "AAA" 5 104, drRow "BBB" 5 24,
   drRow "AAA" 6 105]

/-- Buys `AAA` on date 1 with a stop, sells `BBB` short on date 4. -/
def drAct (k : Nat) (d : Date) (_ : Sym → Option SymArrays) (_ : Loop) (_ : List Sym) :
    List UserOp × (Sym → Option ExecResult) :=
  ([], fun s =>
    if s = "AAA" ∧ d = 1 then
      some { symbol := s, date := d, buyShares := some 10, longStops := [{ lossStop with id := 7 }] }
    else if s = "BBB" ∧ d = 4 ∧ k = 1 then some { symbol := s, date := d, sellShares := some 5 }
    else none)

def drRun : RunSetup :=
  { cfg := { cash := 10000 }, cols := ["open", "high", "low", "close"], rows := drRows
    execs := [⟨1, .fixed ["AAA", "BBB"]⟩], windows := 2, exitOnLast := true, act := drAct }

def okR {α : Type} (d : α) : Except RunErr α → α
  | .ok a => a
  | .error _ => d

def isOkR {α : Type} : Except RunErr α → Bool
  | .ok _ => true
  | .error _ => false

theorem ok_okR {α : Type} {d : α} {e : Except RunErr α} (h : isOkR e = true) :
    e = .ok (okR d e) := by
  cases e with
  | ok a => rfl
  | error e => cases h

/-- The end of a run. -/
def drEnd (x : RunSetup) : RunSetup.State :=
  okR { loop := { pf := Portfolio.init x.cfg } } x.run

theorem drRun_ok : SetupOK drRun where
  unique := by show UniqueBars drRows; unfold UniqueBars drRows; decide +kernel
  buyDelay := le_refl 1
  sellDelay := le_refl 1
  size := by norm_num [drRun]
  iter := fun l => List.Perm.refl l
  shuffle := fun l => List.Perm.refl l

theorem drRun_run : drRun.run = .ok (drEnd drRun) := ok_okR (by decide +kernel)

theorem drRun_results : ResultsOK (drEnd drRun).results := by
  have h : (∀ r ∈ (drEnd drRun).results, (∀ st ∈ r.longStops, st.posType = .long ∧ st.symbol = r.symbol) ∧
      ∀ st ∈ r.shortStops, st.posType = .short ∧ st.symbol = r.symbol) ∧
      (∀ r ∈ (drEnd drRun).results, r.buyShares = none ∨ r.sellShares = none) ∧
      (((drEnd drRun).results.flatMap (fun r => r.longStops ++ r.shortStops)).map Stop.id).Nodup := by
    decide +kernel
  exact ⟨h.1, h.2.1, h.2.2⟩

/-- `AAA` has bars on dates 1 to 4, `BBB` on 1 to 6; one bar of warm-up. -/
def drWarm : RunSetup :=
  { drRun with
    rows := [drRow "AAA" 1 100, drRow "BBB" 1 20, drRow "AAA" 2 101, drRow "BBB" 2 21,
      drRow "AAA" 3 102, drRow "BBB" 3 22, drRow "AAA" 4 103, drRow "BBB" 4 23, drRow "BBB" 5 24,
      drRow "BBB" 6 25]
    warmup := some 1
    act := fun _ d _ _ _ => ([], fun s =>
      if s = "AAA" ∧ d = 2 then some { symbol := s, date := d, buyShares := some 10 } else none) }

end Demo

/-- The run: each symbol has a turn on its bars; the order of date 1 is filled on date 2, that of
date 4 on date 5, and both positions are closed on the last bar of their symbol. -/
example : (Demo.drEnd Demo.drRun).turns =
      [(0, 1, "AAA"), (0, 1, "BBB"), (0, 2, "AAA"), (0, 2, "BBB"), (0, 3, "AAA"), (0, 3, "BBB"),
       (1, 4, "AAA"), (1, 4, "BBB"), (1, 5, "AAA"), (1, 5, "BBB"), (1, 6, "AAA")] ∧
    (Demo.drEnd Demo.drRun).loop.pf.orders.map (fun o => (o.date, o.symbol, o.shares, o.fillPrice)) =
      [(2, "AAA", 10, 101), (5, "BBB", 5, 24), (5, "BBB", 5, 24), (6, "AAA", 10, 105)] := by
  decide +kernel

example := turns_exact Demo.drRun_ok Demo.drRun_run

/-- The bars of `BBB` in the second window. -/
example : Bars Demo.drRun 1 "BBB" [4, 5] := by
  refine ⟨by decide, ?_⟩
  have hw : walkforwardSplit Demo.drRun.dates 2 1 0 id =
      .ok [⟨[], [0, 1, 2, 3, 4, 5]⟩, ⟨[], [6, 7, 8, 9, 10]⟩] := by decide +kernel
  have hes : windowExecutions (fun d : List DRow => (d.map DRow.symbol).dedup) List.isEmpty
      Demo.drRun.execs (Demo.drRun.rowsAt []) = .ok [⟨1, .fixed ["AAA", "BBB"]⟩] := rfl
  intro d
  constructor
  · intro hd
    refine ⟨⟨[], [6, 7, 8, 9, 10]⟩, ["AAA", "BBB"],
      ⟨_, _, hw, rfl, hes, by decide +kernel⟩, by simp, ?_⟩
    simp only [List.mem_cons, List.not_mem_nil, or_false] at hd
    rcases hd with rfl | rfl
    · exact ⟨7, by simp, _, rfl, rfl, rfl⟩
    · exact ⟨9, by simp, _, rfl, rfl, rfl⟩
  · rintro ⟨win, _, ⟨wins, es, hw', hk, _, _⟩, _, i, hi, r, hr, hs, rfl⟩
    have hw'' : walkforwardSplit Demo.drRun.dates 2 1 0 id = .ok wins := hw'
    rw [hw] at hw''
    cases hw''
    cases hk
    simp only [List.mem_cons, List.not_mem_nil, or_false] at hi
    rcases hi with rfl | rfl | rfl | rfl | rfl <;> cases hr <;> revert hs <;> decide

example := exit_on_last_bar Demo.drRun_ok Demo.drRun_run rfl Demo.drRun_results rfl

/-- The full claim is false: with warm-up, a symbol whose last bar is among the first bars of a
window has no turn on it, and its position stays open although `exit_on_last_bar` is set. -/
theorem exit_on_last_bar_warmup : ¬ ∀ (x : RunSetup) (st : RunSetup.State), SetupOK x →
    x.run = .ok st → x.exitOnLast = true → ResultsOK st.results →
    st.loop.pf.longs = [] ∧ st.loop.pf.shorts = [] := by
  intro h
  have hres : (∀ r ∈ (Demo.drEnd Demo.drWarm).results,
      (∀ st ∈ r.longStops, st.posType = .long ∧ st.symbol = r.symbol) ∧
      ∀ st ∈ r.shortStops, st.posType = .short ∧ st.symbol = r.symbol) ∧
      (∀ r ∈ (Demo.drEnd Demo.drWarm).results, r.buyShares = none ∨ r.sellShares = none) ∧
      (((Demo.drEnd Demo.drWarm).results.flatMap (fun r => r.longStops ++ r.shortStops)).map
        Stop.id).Nodup := by decide +kernel
  have h1 := (h Demo.drWarm (Demo.drEnd Demo.drWarm)
    ⟨by unfold UniqueBars Demo.drWarm; decide +kernel, le_refl 1, le_refl 1,
      by norm_num [Demo.drWarm, Demo.drRun], fun l => List.Perm.refl l, fun l => List.Perm.refl l⟩
    (Demo.ok_okR (by decide +kernel)) rfl ⟨hres.1, hres.2.1, hres.2.2⟩).1
  have h2 : (Demo.drEnd Demo.drWarm).loop.pf.longs.length = 1 := by decide +kernel
  rw [h1] at h2
  cases h2

example := run_attempts Demo.drRun_ok Demo.drRun_run

example : (Demo.drEnd Demo.drRun).loop.attempts.map (fun a => (a.order.symbol, a.order.created, a.date)) =
    [("AAA", 1, 2), ("BBB", 4, 5)] := by decide +kernel

example := run_history Demo.drRun_ok Demo.drRun_run Demo.drRun_results

end PyBroker
