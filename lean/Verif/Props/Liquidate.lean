/-
C70: symbols a window no longer selects are closed at its start.
-/
import Verif.Props.Backtest
import Verif.Props.Orders
import Mathlib.Data.List.Dedup

namespace PyBroker

open PyBroker.Spec

namespace Spec

/-- The date the test data of a window starts on. -/
def Starts (b : Boundary) (d : Date) : Prop :=
  d ∈ b.testDates ∧ ∀ e ∈ b.testDates, d ≤ e

/-- The bar a dropped symbol is closed on: the first of its bars in the test
data; if it has none there, the last of its bars not after the start of the
test data. -/
def ExitBar (b : Boundary) (sym : Sym) (bar : DropBar) : Prop :=
  (bar ∈ b.test sym ∧ ∀ x ∈ b.test sym, bar.date ≤ x.date) ∨
  (b.test sym = [] ∧ ∃ d, Starts b d ∧ bar ∈ b.all sym ∧ bar.date ≤ d ∧
    ∀ x ∈ b.all sym, x.date ≤ d → x.date ≤ bar.date)

/-- A symbol is dropped: some position is open in it and it is not selected. -/
def Dropped (pf : Portfolio) (b : Boundary) (sym : Sym) : Prop :=
  (∃ p, (p ∈ pf.longs ∨ p ∈ pf.shorts) ∧ p.symbol = sym) ∧ sym ∉ b.selected

/-- The window has test data. -/
structure BoundaryOK (b : Boundary) : Prop where
  iter : ∀ l, (b.iter l).Perm l
  data : b.testDates ≠ []

end Spec

/-! ## Choosing bars -/

theorem firstBar_none {l : List DropBar} : firstBar l = none ↔ l = [] := by
  cases l with
  | nil => simp [firstBar]
  | cons b l =>
    simp only [firstBar]
    rcases firstBar l with _ | c
    · simp
    · simp only [reduceCtorEq, iff_false]
      split <;> simp

theorem firstBar_some {l : List DropBar} {b : DropBar} (h : firstBar l = some b) :
    b ∈ l ∧ ∀ x ∈ l, b.date ≤ x.date := by
  induction l generalizing b with
  | nil => simp [firstBar] at h
  | cons a l ih =>
    simp only [firstBar] at h
    rcases hl : firstBar l with _ | c
    · rw [hl] at h
      simp only [Option.some.injEq] at h
      subst h
      rw [firstBar_none] at hl
      subst hl
      simp
    · rw [hl] at h
      obtain ⟨h1, h2⟩ := ih hl
      simp only at h
      split at h
      · rename_i hle
        simp only [Option.some.injEq] at h
        subst h
        refine ⟨List.mem_cons_self, ?_⟩
        intro x hx
        rcases List.mem_cons.1 hx with rfl | hx
        · exact le_refl _
        · exact le_trans hle (h2 x hx)
      · rename_i hle
        simp only [Option.some.injEq] at h
        subst h
        refine ⟨List.mem_cons_of_mem _ h1, ?_⟩
        intro x hx
        rcases List.mem_cons.1 hx with rfl | hx
        · exact le_of_lt (not_le.1 hle)
        · exact h2 x hx

theorem lastBar_none {l : List DropBar} : lastBar l = none ↔ l = [] := by
  cases l with
  | nil => simp [lastBar]
  | cons b l =>
    simp only [lastBar]
    rcases lastBar l with _ | c
    · simp
    · simp only [reduceCtorEq, iff_false]
      split <;> simp

theorem lastBar_some {l : List DropBar} {b : DropBar} (h : lastBar l = some b) :
    b ∈ l ∧ ∀ x ∈ l, x.date ≤ b.date := by
  induction l generalizing b with
  | nil => simp [lastBar] at h
  | cons a l ih =>
    simp only [lastBar] at h
    rcases hl : lastBar l with _ | c
    · rw [hl] at h
      simp only [Option.some.injEq] at h
      subst h
      rw [lastBar_none] at hl
      subst hl
      simp
    · rw [hl] at h
      obtain ⟨h1, h2⟩ := ih hl
      simp only at h
      split at h
      · rename_i hle
        simp only [Option.some.injEq] at h
        subst h
        refine ⟨List.mem_cons_self, ?_⟩
        intro x hx
        rcases List.mem_cons.1 hx with rfl | hx
        · exact le_refl _
        · exact le_trans (h2 x hx) hle
      · rename_i hle
        simp only [Option.some.injEq] at h
        subst h
        refine ⟨List.mem_cons_of_mem _ h1, ?_⟩
        intro x hx
        rcases List.mem_cons.1 hx with rfl | hx
        · exact le_of_lt (not_le.1 hle)
        · exact h2 x hx

theorem minDate_some {l : List Date} (h : l ≠ []) :
    ∃ d, minDate l = some d ∧ d ∈ l ∧ ∀ e ∈ l, d ≤ e := by
  induction l with
  | nil => exact absurd rfl h
  | cons a l ih =>
    by_cases hl : l = []
    · subst hl; exact ⟨a, rfl, by simp, by simp⟩
    · obtain ⟨d, h1, h2, h3⟩ := ih hl
      by_cases hle : a ≤ d
      · refine ⟨a, by simp [minDate, h1, hle], List.mem_cons_self, ?_⟩
        intro e he
        rcases List.mem_cons.1 he with rfl | he
        · exact le_refl _
        · exact le_trans hle (h3 e he)
      · refine ⟨d, by simp [minDate, h1, hle], List.mem_cons_of_mem _ h2, ?_⟩
        intro e he
        rcases List.mem_cons.1 he with rfl | he
        · exact le_of_lt (not_le.1 hle)
        · exact h3 e he

/-! ## The exits -/

theorem mem_dropped {pf : Portfolio} {b : Boundary} {x : Sym} :
    x ∈ droppedSyms pf b.selected ↔ Dropped pf b x := by
  unfold droppedSyms Dropped
  simp only [List.mem_filter, List.mem_dedup, List.mem_append, List.mem_map, Bool.not_eq_true',
    List.contains_eq_mem, decide_eq_false_iff_not]
  constructor
  · rintro ⟨⟨p, hp, e⟩ | ⟨p, hp, e⟩, hs⟩
    · exact ⟨⟨p, .inl hp, e⟩, hs⟩
    · exact ⟨⟨p, .inr hp, e⟩, hs⟩
  · rintro ⟨⟨p, hp | hp, e⟩, hs⟩
    · exact ⟨.inl ⟨p, hp, e⟩, hs⟩
    · exact ⟨.inr ⟨p, hp, e⟩, hs⟩

theorem testExit_spec {b : Boundary} (hb : BoundaryOK b) {sym : Sym} {bar : DropBar}
    (h : testExitBar b sym = some bar) :
    bar ∈ b.test sym ∧ ∀ x ∈ b.test sym, bar.date ≤ x.date := by
  rw [testExitBar, if_neg hb.data] at h
  exact firstBar_some h

theorem testExit_none {b : Boundary} (hb : BoundaryOK b) {sym : Sym}
    (h : testExitBar b sym = none) : b.test sym = [] := by
  rw [testExitBar, if_neg hb.data] at h
  exact firstBar_none.1 h

theorem lateExit_spec {b : Boundary} (hb : BoundaryOK b) {sym : Sym} {bar : DropBar}
    (h : lateExitBar b sym = some bar) :
    ∃ d, Starts b d ∧ bar ∈ b.all sym ∧ bar.date ≤ d ∧
      ∀ x ∈ b.all sym, x.date ≤ d → x.date ≤ bar.date := by
  obtain ⟨d, h1, h2, h3⟩ := minDate_some hb.data
  rw [lateExitBar, h1] at h
  obtain ⟨h4, h5⟩ := lastBar_some h
  obtain ⟨h6, h7⟩ := List.mem_filter.1 h4
  refine ⟨d, ⟨h2, h3⟩, h6, by simpa using h7, ?_⟩
  intro x hx hle
  exact h5 x (List.mem_filter.2 ⟨hx, by simpa using hle⟩)

theorem lateExit_none {b : Boundary} (hb : BoundaryOK b) {sym : Sym}
    (h : lateExitBar b sym = none) : ∀ d, Starts b d → ∀ x ∈ b.all sym, ¬ x.date ≤ d := by
  obtain ⟨d, h1, h2, h3⟩ := minDate_some hb.data
  rw [lateExitBar, h1] at h
  have h4 := lastBar_none.1 h
  intro e he x hx hle
  have hed : e ≤ d := he.2 d h2
  have : x ∈ (b.all sym).filter (fun x => decide (x.date ≤ d)) :=
    List.mem_filter.2 ⟨hx, by simpa using le_trans hle hed⟩
  rw [h4] at this
  cases this

theorem dropExits_fst {pick : Sym → Option DropBar} {syms : List Sym} {x : Sym} :
    x ∈ (dropExits pick syms).map Prod.fst ↔ x ∈ syms ∧ (pick x).isSome := by
  constructor
  · intro h
    obtain ⟨y, hy, rfl⟩ := List.mem_map.1 h
    obtain ⟨h1, h2⟩ := dropExits_mem hy
    exact ⟨h1, by rw [h2]; rfl⟩
  · rintro ⟨h1, h2⟩
    obtain ⟨bar, hb⟩ := Option.isSome_iff_exists.1 h2
    refine List.mem_map.2 ⟨(x, bar), List.mem_filterMap.2 ⟨x, h1, by rw [hb]; rfl⟩, rfl⟩

theorem dropExits_nodup {pick : Sym → Option DropBar} {syms : List Sym} (h : syms.Nodup) :
    ((dropExits pick syms).map Prod.fst).Nodup := by
  have : ((dropExits pick syms).map Prod.fst).Sublist syms := by
    induction syms with
    | nil => exact List.Sublist.refl _
    | cons x l ih =>
      rw [List.nodup_cons] at h
      have e : dropExits pick (x :: l) = (match pick x with
          | none => []
          | some bar => [(x, bar)]) ++ dropExits pick l := by
        unfold dropExits
        rw [List.filterMap_cons]
        cases pick x <;> rfl
      rw [e]
      cases pick x with
      | none => exact (ih h.2).cons _
      | some bar => exact (ih h.2).cons_cons _
  exact this.nodup h

theorem boundaryExits_spec {pf : Portfolio} {b : Boundary} (hb : BoundaryOK b) :
    ((boundaryExits pf b).map Prod.fst).Nodup ∧
    (∀ x ∈ boundaryExits pf b, Dropped pf b x.1 ∧ ExitBar b x.1 x.2) ∧
    ∀ sym, Dropped pf b sym → (∃ bar, ExitBar b sym bar) →
      sym ∈ (boundaryExits pf b).map Prod.fst := by
  have hnd : (droppedSyms pf b.selected).Nodup := (List.nodup_dedup _).filter _
  have hnd1 := (hb.iter (droppedSyms pf b.selected)).nodup_iff.2 hnd
  unfold boundaryExits
  set l1 := b.iter (droppedSyms pf b.selected) with hl1
  set e1 := dropExits (testExitBar b) l1 with he1
  have hm2 : ∀ x, x ∈ b.iter (l1.filter (fun x => !(e1.map Prod.fst).contains x)) ↔
      x ∈ l1 ∧ x ∉ e1.map Prod.fst := by
    intro x
    rw [(hb.iter _).mem_iff, List.mem_filter]
    simp only [Bool.not_eq_true', List.contains_eq_mem, decide_eq_false_iff_not]
  have hm1 : ∀ x, x ∈ l1 ↔ Dropped pf b x := fun x => (hb.iter _).mem_iff.trans mem_dropped
  have hempty : ∀ x, x ∈ l1 → x ∉ e1.map Prod.fst → b.test x = [] := by
    intro x h1 h2
    apply testExit_none hb
    by_contra hn
    exact h2 (dropExits_fst.2 ⟨h1, Option.isSome_iff_ne_none.2 hn⟩)
  refine ⟨?_, ?_, ?_⟩
  · rw [List.map_append]
    refine List.nodup_append.2 ⟨dropExits_nodup hnd1,
      dropExits_nodup ((hb.iter _).nodup_iff.2 (hnd1.filter _)), ?_⟩
    intro x hx y hy e
    subst e
    have := (dropExits_fst.1 hy).1
    exact ((hm2 x).1 this).2 hx
  · intro x hx
    rcases List.mem_append.1 hx with hx | hx
    · obtain ⟨h1, h2⟩ := dropExits_mem hx
      exact ⟨(hm1 _).1 h1, .inl (testExit_spec hb h2)⟩
    · obtain ⟨h1, h2⟩ := dropExits_mem hx
      obtain ⟨h3, h4⟩ := (hm2 _).1 h1
      exact ⟨(hm1 _).1 h3, .inr ⟨hempty _ h3 h4, lateExit_spec hb h2⟩⟩
  · intro sym hd ⟨bar, hbar⟩
    have h1 := (hm1 sym).2 hd
    rw [List.map_append]
    by_cases h2 : sym ∈ e1.map Prod.fst
    · exact List.mem_append_left _ h2
    · refine List.mem_append_right _ (dropExits_fst.2 ⟨(hm2 sym).2 ⟨h1, h2⟩, ?_⟩)
      have he := hempty sym h1 h2
      rcases hbar with ⟨h3, _⟩ | ⟨_, d, h3, h4, h5, _⟩
      · rw [he] at h3; cases h3
      · rw [Option.isSome_iff_ne_none]
        intro hn
        exact lateExit_none hb hn d h3 bar h4 h5

/-! ## The registry -/

theorem cancelStale_orders {HB : Sym → Date → Prop} {D : Date} {s : Loop} {m : PendingMap}
    (h : LoopInv HB D s m) (selected : List Sym) :
    (cancelStale s.pend selected).orders =
      s.pend.orders.filter (fun p => decide (p.symbol ∈ selected)) := by
  have key : ∀ (syms : List Sym) (p : PendingScope) (m : PendingMap),
      Refines p m → m.Ordered →
      (syms.foldl (fun p x => p.removeAll (some x)) p).orders =
        p.orders.filter (fun o => decide (o.symbol ∉ syms)) := by
    intro syms
    induction syms with
    | nil => intro p m _ _; simp
    | cons x syms ih =>
      intro p m hr ho
      have hr1 := hr.removeAll ho (some x)
      have ho1 := ho.keep (fun o => o.symbol ≠ x)
      rw [List.foldl_cons, ih _ _ hr1 ho1, hr1.orders]
      have e : (p.orders.filter (fun o => decide (o.symbol ≠ x))) =
          (m.live.filter (fun y => decide (y.order.symbol ≠ x))).map Live.order := by
        rw [hr.orders, List.filter_map]; rfl
      have e2 : (m.call (.removeAll (some x))).2.live.map Live.order =
          p.orders.filter (fun o => decide (o.symbol ≠ x)) := by
        rw [e]; rfl
      rw [e2, List.filter_filter]
      apply List.filter_congr
      intro o _
      simp only [List.mem_cons, not_or, ne_eq, Bool.decide_and]
      rw [Bool.and_comm]
  rw [cancelStale, key _ _ _ h.ref h.track.ordered]
  apply List.filter_congr
  intro o ho
  simp only [List.mem_filter, List.mem_map, Bool.not_eq_true', List.contains_eq_mem,
    decide_eq_false_iff_not, not_and, not_not]
  have : ∃ a ∈ s.pend.orders, a.symbol = o.symbol := ⟨o, ho, rfl⟩
  simp only [this, true_implies]

/-! ## The portfolio -/

theorem entriesOf_filter (ps : List Position) (sym y : Sym) (h : sym ≠ y) :
    entriesOf (ps.filter (fun p => decide (p.symbol ≠ y))) sym = entriesOf ps sym := by
  unfold entriesOf
  rw [List.filter_filter]
  congr 1
  apply List.filter_congr
  intro p _
  by_cases hp : p.symbol = sym
  · simp [hp, h]
  · simp [hp]

theorem held_filter (ps : List Position) (sym y : Sym) (h : sym ≠ y) :
    held (ps.filter (fun p => decide (p.symbol ≠ y))) sym = held ps sym := by
  unfold held
  rw [List.filter_filter]
  congr 2
  apply List.filter_congr
  intro p _
  by_cases hp : p.symbol = sym
  · simp [hp, h]
  · simp [hp]

/-- The trades that close all positions of a symbol on a bar. -/
def Spec.closingTrades (pf : Portfolio) (slip : Option SlipFn) (x : Sym × DropBar) :
    List TradeFacts :=
  (entriesOf pf.longs x.1).map (fun e => tradeFor x.2.date
    (slipPrice slip .sell x.1 (held pf.longs x.1) x.2.sellFill) none e e.shares) ++
  (entriesOf pf.shorts x.1).map (fun e => tradeFor x.2.date
    (slipPrice slip .buy x.1 (held pf.shorts x.1) x.2.buyFill) none e e.shares)

theorem dropSteps_flatten {cfg : Config} {slip : Option SlipFn} :
    ∀ {l : List (Sym × DropBar)} {ops : List Op} {s s' : Loop},
      (∀ op ∈ ops, op.Fit) → run cfg ops = .ok s.pf → (l.map Prod.fst).Nodup →
      foldB (dropStep cfg slip) s l = .ok s' →
      s'.pf.longs = s.pf.longs.filter (fun p => decide (p.symbol ∉ l.map Prod.fst)) ∧
      s'.pf.shorts = s.pf.shorts.filter (fun p => decide (p.symbol ∉ l.map Prod.fst)) ∧
      ∃ new, s'.pf.trades = s.pf.trades ++ new ∧
        new.map TradeFacts.of = l.flatMap (closingTrades s.pf slip) := by
  intro l
  induction l with
  | nil =>
    intro ops s s' _ _ _ hs
    have he := Except.ok.inj hs
    subst he
    exact ⟨by simp, by simp, [], by simp, by simp⟩
  | cons x l ih =>
    intro ops s s' hfit hrun hnd hs
    unfold foldB at hs
    split at hs
    · cases hs
    · rename_i s1 h1
      obtain ⟨pf, hpf, rfl⟩ := map_ok h1
      have hpf' : exitPosition cfg s.pf x.2.date x.1 x.2.buyFill x.2.sellFill slip = .ok pf := by
        unfold liftE at hpf
        split at hpf
        · rename_i a ha
          rw [ha, Except.ok.inj hpf]
        · cases hpf
      rw [List.map_cons, List.nodup_cons] at hnd
      obtain ⟨a1, a2, n1, a3, a4⟩ := exit_position_flattens hfit hrun hpf'
      have hfit' : ∀ op ∈ ops ++ [Op.exitPosition x.2.date x.1 x.2.buyFill x.2.sellFill slip],
          op.Fit := by
        intro op hop
        rcases List.mem_append.1 hop with hop | hop
        · exact hfit op hop
        · rw [List.mem_singleton] at hop; subst hop; exact trivial
      obtain ⟨b1, b2, n2, b3, b4⟩ := ih (s := { s with pf := pf }) hfit'
        (run_append hrun (op := .exitPosition x.2.date x.1 x.2.buyFill x.2.sellFill slip) hpf')
        hnd.2 hs
      simp only at b1 b2 b3 b4
      refine ⟨?_, ?_, n1 ++ n2, ?_, ?_⟩
      · rw [b1, a1, List.filter_filter]
        apply List.filter_congr
        intro p _
        simp only [List.map_cons, List.mem_cons, not_or, ne_eq, Bool.decide_and]
        rw [Bool.and_comm]
      · rw [b2, a2, List.filter_filter]
        apply List.filter_congr
        intro p _
        simp only [List.map_cons, List.mem_cons, not_or, ne_eq, Bool.decide_and]
        rw [Bool.and_comm]
      · rw [b3, a3, List.append_assoc]
      · rw [List.map_append, a4, b4, List.flatMap_cons]
        congr 1
        have hc : ∀ y ∈ l, closingTrades pf slip y = closingTrades s.pf slip y := by
          intro y hy
          have hne : y.1 ≠ x.1 := fun e => hnd.1 (e ▸ List.mem_map_of_mem hy)
          unfold closingTrades
          rw [a1, a2, entriesOf_filter _ _ _ hne, entriesOf_filter _ _ _ hne,
            held_filter _ _ _ hne, held_filter _ _ _ hne]
        exact List.flatMap_congr hc

/-- `liquidateDropped` by itself. -/
theorem liquidateDropped_spec {HB : Sym → Date → Prop} {cfg : Config}
    {ws : List (Window × List BarIn)} (hr : RunOK HB ws)
    (hfit : ∀ r ∈ signals ws, ResultFit r) (hfresh : FreshStops ws) {s s' : Loop}
    (h : runWindows cfg ws = .ok s) {b : Boundary} (hb : BoundaryOK b)
    (hs : liquidateDropped cfg s b = .ok s') :
    s'.pend.orders = s.pend.orders.filter (fun p => decide (p.symbol ∈ b.selected)) ∧
    (∀ p, p ∈ s'.pf.longs ↔ p ∈ s.pf.longs ∧
      (p.symbol ∈ b.selected ∨ ¬ ∃ bar, ExitBar b p.symbol bar)) ∧
    (∀ p, p ∈ s'.pf.shorts ↔ p ∈ s.pf.shorts ∧
      (p.symbol ∈ b.selected ∨ ¬ ∃ bar, ExitBar b p.symbol bar)) ∧
    ∃ (exits : List (Sym × DropBar)) (new : List Trade),
      (exits.map Prod.fst).Nodup ∧
      (∀ x ∈ exits, Dropped s.pf b x.1 ∧ ExitBar b x.1 x.2) ∧
      (∀ sym, Dropped s.pf b sym → (∃ bar, ExitBar b sym bar) → sym ∈ exits.map Prod.fst) ∧
      s'.pf.trades = s.pf.trades ++ new ∧
      new.map TradeFacts.of = exits.flatMap (closingTrades s.pf b.slip) := by
  obtain ⟨hist, _, hrun, hfit', _⟩ := backtest_history hr hfit hfresh h
  obtain ⟨d, hd⟩ := exists_after (barDates ws)
  obtain ⟨D, m, _, hi⟩ := run_loopInv hr h hd
  obtain ⟨e1, e2, e3⟩ := boundaryExits_spec (pf := s.pf) hb
  have hl := liquidate_eq hs
  obtain ⟨f1, f2, new, f3, f4⟩ := dropSteps_flatten
    (s := { s with pend := cancelStale s.pend b.selected }) hfit' hrun e1 hl
  simp only at f1 f2 f3 f4
  have hpend : s'.pend = cancelStale s.pend b.selected := by
    have : ∀ (l : List (Sym × DropBar)) (t t' : Loop),
        foldB (dropStep cfg b.slip) t l = .ok t' → t'.pend = t.pend := by
      intro l
      induction l with
      | nil => intro t t' ht; have := Except.ok.inj ht; subst this; rfl
      | cons x l ih =>
        intro t t' ht
        unfold foldB at ht
        split at ht
        · cases ht
        · rename_i t1 h1
          obtain ⟨pf, _, rfl⟩ := map_ok h1
          exact ih { t with pf := pf } t' ht
    exact this _ _ _ hl
  have hkeep : ∀ p, (p ∈ s.pf.longs ∨ p ∈ s.pf.shorts) →
      (p.symbol ∉ (boundaryExits s.pf b).map Prod.fst ↔
        (p.symbol ∈ b.selected ∨ ¬ ∃ bar, ExitBar b p.symbol bar)) := by
    intro p hp
    constructor
    · intro hn
      by_contra hc
      rw [not_or, not_not] at hc
      exact hn (e3 _ ⟨⟨p, hp, rfl⟩, hc.1⟩ hc.2)
    · intro hor hm
      obtain ⟨x, hx, he⟩ := List.mem_map.1 hm
      obtain ⟨g1, g2⟩ := e2 x hx
      rw [he] at g1 g2
      rcases hor with hor | hor
      · exact g1.2 hor
      · exact hor ⟨_, g2⟩
  refine ⟨by rw [hpend]; exact cancelStale_orders hi b.selected, ?_, ?_,
    boundaryExits s.pf b, new, e1, e2, e3, f3, f4⟩
  · intro p
    rw [f1, List.mem_filter]
    constructor
    · rintro ⟨h1, h2⟩
      exact ⟨h1, (hkeep p (.inl h1)).1 (by simpa using h2)⟩
    · rintro ⟨h1, h2⟩
      exact ⟨h1, by simpa using (hkeep p (.inl h1)).2 h2⟩
  · intro p
    rw [f2, List.mem_filter]
    constructor
    · rintro ⟨h1, h2⟩
      exact ⟨h1, (hkeep p (.inr h1)).1 (by simpa using h2)⟩
    · rintro ⟨h1, h2⟩
      exact ⟨h1, by simpa using (hkeep p (.inr h1)).2 h2⟩

theorem foldB_append_error {α : Type} {f : Loop → α → Except BErr Loop} {s s1 : Loop}
    {l l' : List α} {e : BErr} (h1 : foldB f s l = .ok s1) (h2 : foldB f s1 l' = .error e) :
    foldB f s (l ++ l') = .error e := by
  induction l generalizing s with
  | nil => have := Except.ok.inj h1; subst this; exact h2
  | cons x l ih =>
    unfold foldB at h1
    split at h1
    · cases h1
    · rename_i s0 h0
      rw [List.cons_append, foldB, h0]
      exact ih h1

/-- **C70.** After any backtest so far, at the start of a window with test data:
every pending order of a symbol that is not selected is cancelled and no other;
every position in such a symbol is closed, unless the symbol has no bar to close
it on, and no other position changes; each of its entries becomes one trade of
all its shares, on the symbol's first bar of the window, or, if it has none, on
its last bar before: never on a later bar. -/
theorem dropped_liquidated {HB : Sym → Date → Prop} {cfg : Config}
    {ws : List (Window × List BarIn)} (hr : RunOK HB ws)
    (hfit : ∀ r ∈ signals ws, ResultFit r) (hfresh : FreshStops ws) {s s' : Loop}
    (h : runWindows cfg ws = .ok s) {w : Window} {b : Boundary} (hw : w.boundary = some b)
    (hb : BoundaryOK b) (hs : runWindows cfg (ws ++ [(w, [])]) = .ok s') :
    s'.pend.orders = s.pend.orders.filter (fun p => decide (p.symbol ∈ b.selected)) ∧
    (∀ p, p ∈ s'.pf.longs ↔ p ∈ s.pf.longs ∧
      (p.symbol ∈ b.selected ∨ ¬ ∃ bar, ExitBar b p.symbol bar)) ∧
    (∀ p, p ∈ s'.pf.shorts ↔ p ∈ s.pf.shorts ∧
      (p.symbol ∈ b.selected ∨ ¬ ∃ bar, ExitBar b p.symbol bar)) ∧
    ∃ (exits : List (Sym × DropBar)) (new : List Trade),
      (exits.map Prod.fst).Nodup ∧
      (∀ x ∈ exits, Dropped s.pf b x.1 ∧ ExitBar b x.1 x.2) ∧
      (∀ sym, Dropped s.pf b sym → (∃ bar, ExitBar b sym bar) → sym ∈ exits.map Prod.fst) ∧
      s'.pf.trades = s.pf.trades ++ new ∧
      new.map TradeFacts.of = exits.flatMap (closingTrades s.pf b.slip) := by
  unfold runWindows at h hs
  have h1 : foldB (runWindow cfg) s [(w, [])] = .ok s' := by
    rcases hf : foldB (runWindow cfg) s [(w, [])] with e | s2
    · rw [foldB_append_error h hf] at hs; cases hs
    · rw [foldB_append h hf] at hs; exact hs
  unfold foldB at h1
  split at h1
  · cases h1
  · rename_i s1 h2
    have he := Except.ok.inj h1
    subst he
    obtain ⟨s2, h3, h4⟩ := bind_ok h2
    have he := Except.ok.inj h4
    subst he
    simp only [startWindow, hw] at h3
    have := liquidateDropped_spec hr hfit hfresh h hb h3
    exact this

/-! ## A concrete boundary -/

namespace Demo

/-- Long `AAA`, short `BBB`, and a limit order of each pending. -/
def lqDays : List BarIn :=
  [ { env := btEnv 1 1
      results := [{ symbol := "AAA", date := 1, buyShares := some 10 },
                  { symbol := "BBB", date := 1, sellShares := some 5 }] },
    { env := btEnv 2 2 },
    { env := btEnv 3 3
      results := [{ symbol := "AAA", date := 3, buyShares := some 3 },
                  { symbol := "BBB", date := 3, sellShares := some 2 }] } ]

def lqWs : List (Window × List BarIn) := [(btW1, lqDays)]

def lq : Loop := okB { pf := Portfolio.init btCfg } (runWindows btCfg lqWs)

/-- The next window selects `BBB`; `AAA` has no bar in it, only earlier and later ones. -/
def lqB : Boundary :=
  { selected := ["BBB"]
    test := fun sym => if sym = "BBB" then [⟨5, 21, 21⟩, ⟨4, 20, 20⟩] else []
    testDates := [5, 4]
    all := fun sym => if sym = "AAA" then [⟨2, 100, 100⟩, ⟨3, 110, 109⟩, ⟨9, 1, 1⟩] else [] }

/-- The next window selects nothing. -/
def lqN : Boundary := { lqB with selected := [], iter := List.reverse }

def lqW (b : Boundary) : Window := { btW2 with boundary := some b }

def lqOut : Loop := okB lq (runWindows btCfg (lqWs ++ [(lqW lqB, [])]))
def lqOutN : Loop := okB lq (runWindows btCfg (lqWs ++ [(lqW lqN, [])]))

theorem run_lq : runWindows btCfg lqWs = .ok lq := ok_okB (by decide +kernel)

theorem lqWs_ok : RunOK btBars lqWs where
  window x hx := by fin_cases hx; exact btW1_ok
  bar x hx := by
    fin_cases hx
    intro b hb
    fin_cases hb <;> exact ⟨fun sym => btHas_iff _ sym, by decide⟩
  forward := by decide

end Demo

example := dropped_liquidated Demo.lqWs_ok (by unfold ResultFit; decide)
  (by unfold FreshStops; decide) Demo.run_lq (w := Demo.lqW Demo.lqB) rfl
  ⟨fun _ => List.Perm.refl _, by decide⟩ (Demo.ok_okB (d := Demo.lq) (by decide +kernel))

example := dropped_liquidated Demo.lqWs_ok (by unfold ResultFit; decide)
  (by unfold FreshStops; decide) Demo.run_lq (w := Demo.lqW Demo.lqN) rfl
  ⟨fun l => List.reverse_perm l, by decide⟩ (Demo.ok_okB (d := Demo.lq) (by decide +kernel))

/-- Before: long `AAA`, short `BBB`, an order of each pending. -/
example : Demo.lq.pf.longs.map (fun p => (p.symbol, p.shares)) = [("AAA", 10)] ∧
    Demo.lq.pf.shorts.map (fun p => (p.symbol, p.shares)) = [("BBB", 5)] ∧
    Demo.lq.pend.orders.map PendingOrder.symbol = ["AAA", "BBB"] := by decide +kernel

/-- `AAA` is sold on its last bar before the window, `BBB` is untouched. -/
example : Demo.lqOut.pf.trades.map (fun t => (t.symbol, t.exitDate, t.shares, t.exit)) =
      [("AAA", 3, 10, 109)] ∧
    Demo.lqOut.pf.longs = [] ∧ Demo.lqOut.pf.shorts = Demo.lq.pf.shorts ∧
    Demo.lqOut.pend.orders.map PendingOrder.symbol = ["BBB"] := by decide +kernel

/-- Both are closed: `BBB` on its first bar of the window. -/
example : Demo.lqOutN.pf.trades.map (fun t => (t.symbol, t.exitDate, t.shares, t.exit)) =
      [("BBB", 4, 5, 20), ("AAA", 3, 10, 109)] ∧
    Demo.lqOutN.pf.longs = [] ∧ Demo.lqOutN.pf.shorts = [] ∧
    Demo.lqOutN.pend.orders = [] := by decide +kernel

/-- The boundary is part of a run: the next window starts with it. -/
example : (Demo.okB Demo.lq (runWindows Demo.btCfg
      (Demo.lqWs ++ [(Demo.lqW Demo.lqN, Demo.btDays2)]))).pf.trades.map
      (fun t => (t.symbol, t.exitDate)) = [("BBB", 4), ("AAA", 3)] := by decide +kernel

end PyBroker
