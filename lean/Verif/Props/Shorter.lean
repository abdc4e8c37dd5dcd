import Verif.Props.Lookahead

/-!
# A backtest on shorter data (C131)
-/

namespace PyBroker

namespace Spec

/-- The same backtest on the rows up to a date. -/
def cutAt (x : RunSetup) (t : Date) : RunSetup :=
  { x with rows := x.rows.filter (fun r => r.date ≤ t) }

/-- A backtest: no training data, one window, the symbols are given, and positions stay open at the
end. -/
structure Backtest (x : RunSetup) : Prop where
  windows : x.windows = 1
  trainSize : x.trainSize = 0
  fixed : x.selects = false
  open_end : x.exitOnLast = false

/-- Every symbol has a bar up to `t`. -/
def Started (x : RunSetup) (t : Date) : Prop :=
  ∀ r ∈ x.rows, ∃ r' ∈ x.rows, r'.symbol = r.symbol ∧ r'.date ≤ t

/-- The rows of a symbol after `a` and up to `b`. -/
def rowsBetween (x : RunSetup) (sym : Sym) (a b : Date) : List DRow :=
  x.rows.filter (fun r => decide (r.symbol = sym ∧ a < r.date ∧ r.date ≤ b))

/-- Every order created before `u` is due by `t`: after each bar before `u` the symbol has as many
bars up to `t` as the delays, or it has no bars after `t` at all. -/
def DueBy (x : RunSetup) (t u : Date) : Prop :=
  ∀ r ∈ x.rows, r.date < u →
    (x.buyDelay ≤ (rowsBetween x r.symbol r.date t).length ∧
      x.sellDelay ≤ (rowsBetween x r.symbol r.date t).length) ∨
    ∀ r' ∈ x.rows, r'.symbol = r.symbol → r'.date ≤ t

end Spec

open PyBroker.Spec

/-! ## Scheduling -/

theorem request_ok {r : ExecResult} {c c' d d' : Date} {i i' : Nat} {q : PendingReq}
    (h : r.request c d i = .ok q) : ∃ q', r.request c' d' i' = .ok q' := by
  unfold ExecResult.request at h ⊢
  split at h
  · exact ⟨_, rfl⟩
  · exact ⟨_, rfl⟩
  · cases h

theorem scheduleOrder_later {w w' : Window} {endIndex : Sym → Nat} {created : Date} {delay delay' : Nat}
    {pend pend' : PendingScope} {sched sched' : Sched} {r : ExecResult} {out : PendingScope × Sched}
    (hs : ∀ e, execDate (w'.dates r.symbol) (w'.master.map (fun m => m r.symbol)) (endIndex r.symbol)
        delay' = some e →
      (execDate (w.dates r.symbol) (w.master.map (fun m => m r.symbol)) (endIndex r.symbol)
        delay).isSome)
    (h : scheduleOrder w endIndex created delay pend sched r = .ok out) :
    ∃ out', scheduleOrder w' endIndex created delay' pend' sched' r = .ok out' := by
  unfold scheduleOrder at h ⊢
  rcases he' : execDate (w'.dates r.symbol) (w'.master.map (fun m => m r.symbol)) (endIndex r.symbol)
      delay' with _ | ⟨d', i'⟩
  · simp only [he']
    exact ⟨(pend', sched'), rfl⟩
  · have := hs _ he'
    rcases he : execDate (w.dates r.symbol) (w.master.map (fun m => m r.symbol)) (endIndex r.symbol)
        delay with _ | ⟨d, i⟩
    · rw [he] at this; cases this
    · rw [he] at h
      simp only at h ⊢
      split at h
      · cases h
      rename_i q hq
      obtain ⟨q', hq'⟩ := request_ok (c' := created) (d' := d') (i' := endIndex r.symbol + delay') hq
      simp only [he', hq']
      exact ⟨_, rfl⟩

/-- A step of scheduling: its portfolio is the one before. -/
structure SchedStep (f : Loop → ExecResult → Except BErr Loop) : Prop where
  pf : ∀ s r s1, f s r = .ok s1 → s1.pf = s.pf

theorem sched_cover (w : Window) (env : BarEnv) : SchedStep (schedCover w env) where
  pf := by
    intro s r s1 h
    obtain ⟨o, _, rfl⟩ := map_ok h
    rfl

theorem sched_buy (w : Window) (env : BarEnv) : SchedStep (schedBuy w env) where
  pf := by
    intro s r s1 h
    obtain ⟨o, _, rfl⟩ := map_ok h
    rfl

theorem sched_sell (w : Window) (env : BarEnv) : SchedStep (schedSell w env) where
  pf := by
    intro s r s1 h
    obtain ⟨o, _, rfl⟩ := map_ok h
    rfl

theorem sched_fold_later {f f' : Loop → ExecResult → Except BErr Loop} (hf : SchedStep f)
    (hf' : SchedStep f') : ∀ {l : List ExecResult}
      (_ : ∀ r ∈ l, ∀ s s' s1, f s r = .ok s1 → ∃ s1', f' s' r = .ok s1') {s s' s1 : Loop},
      foldB f s l = .ok s1 → ∃ s1', foldB f' s' l = .ok s1' ∧ s1.pf = s.pf ∧ s1'.pf = s'.pf
  | [], _, s, s', s1, h => by
    cases h
    exact ⟨s', rfl, rfl, rfl⟩
  | r :: l, hl, s, s', s1, h => by
    unfold foldB at h
    split at h
    · cases h
    rename_i s2 h2
    obtain ⟨s2', h2'⟩ := hl r (by simp) s s' s2 h2
    obtain ⟨s1', h1', e1, e2⟩ := sched_fold_later hf hf'
      (fun r hr => hl r (List.mem_cons_of_mem _ hr)) (s' := s2') h
    refine ⟨s1', ?_, ?_, ?_⟩
    · unfold foldB
      rw [h2']
      exact h1'
    · rw [e1, hf.pf _ _ _ h2]
    · rw [e2, hf'.pf _ _ _ h2']

theorem foldB_congr {α β : Type} {f g : β → α → Except BErr β} : ∀ {l : List α}
    (_ : ∀ a ∈ l, ∀ b, f b a = g b a) (b : β), foldB f b l = foldB g b l
  | [], _, _ => rfl
  | a :: l, h, b => by
    unfold foldB
    rw [h a (by simp) b]
    split
    · rfl
    · exact foldB_congr (fun a ha => h a (List.mem_cons_of_mem _ ha)) _

/-- The date an order is due, in two windows. -/
abbrev dueIn (w : Window) (idx : Sym → Nat) (sym : Sym) (delay : Nat) : Option (Date × Bool) :=
  execDate (w.dates sym) (w.master.map (fun m => m sym)) (idx sym) delay

theorem barSignals_same {cfg : Config} {w w' : Window} {b : BarIn} (hb : w'.buyDelay = w.buyDelay)
    (hs : w'.sellDelay = w.sellDelay)
    (hd : ∀ r ∈ b.results, dueIn w' b.env.endIndex r.symbol w.buyDelay =
        dueIn w b.env.endIndex r.symbol w.buyDelay ∧
      dueIn w' b.env.endIndex r.symbol w.sellDelay = dueIn w b.env.endIndex r.symbol w.sellDelay)
    (s : Loop) : barSignals cfg w' b s = barSignals cfg w b s := by
  unfold barSignals
  have h1 : ∀ r ∈ coverResults b.results, ∀ s, schedCover w' b.env s r = schedCover w b.env s r := by
    intro r hr s
    have := (hd r (List.mem_filter.1 hr).1).1
    unfold dueIn at this
    unfold schedCover scheduleOrder
    rw [hb, this]
  have h2 : ∀ r ∈ buyResults b.results, ∀ s, schedBuy w' b.env s r = schedBuy w b.env s r := by
    intro r hr s
    have := (hd r (List.mem_filter.1 hr).1).1
    unfold dueIn at this
    unfold schedBuy scheduleOrder
    rw [hb, this]
  have h3 : ∀ r ∈ sellResults b.results, ∀ s, schedSell w' b.env s r = schedSell w b.env s r := by
    intro r hr s
    have := (hd r (List.mem_filter.1 hr).1).2
    unfold dueIn at this
    unfold schedSell scheduleOrder
    rw [hs, this]
  simp only [foldB_congr h1, foldB_congr h2, foldB_congr h3]

theorem barSignals_later {cfg : Config} {w w' : Window} {b : BarIn} (hb : w'.buyDelay = w.buyDelay)
    (hs : w'.sellDelay = w.sellDelay) (hx : b.exits = [])
    (hd : ∀ r ∈ b.results, ∀ delay e, dueIn w' b.env.endIndex r.symbol delay = some e →
      (dueIn w b.env.endIndex r.symbol delay).isSome)
    {s s1 : Loop} (h : barSignals cfg w b s = .ok s1) :
    ∃ s1', barSignals cfg w' b s = .ok s1' ∧ s1'.pf = s1.pf := by
  unfold barSignals at h ⊢
  rw [hx] at h ⊢
  obtain ⟨a3, h3, h⟩ := bind_ok h
  obtain ⟨a4, h4, h⟩ := bind_ok h
  obtain ⟨a5, h5, h⟩ := bind_ok h
  obtain ⟨a6, h6, h⟩ := bind_ok h
  cases h6
  cases h
  obtain ⟨a3', h3', e3, e3'⟩ := sched_fold_later (sched_cover w b.env) (sched_cover w' b.env)
    (s' := b.user.foldl userStep { s with pf := captureBar cfg s.pf b.env.date b.env.quote })
    (by
      intro r hr s s' s1 hok
      obtain ⟨o, ho, _⟩ := map_ok hok
      obtain ⟨o', ho'⟩ := scheduleOrder_later (pend' := s'.pend) (sched' := s'.covers)
        (fun e he => hd r (List.mem_filter.1 hr).1 w.buyDelay e he) ho
      refine ⟨{ s' with pend := o'.1, covers := o'.2 }, ?_⟩
      unfold schedCover
      rw [hb, ho']
      rfl) h3
  obtain ⟨a4', h4', e4, e4'⟩ := sched_fold_later (sched_buy w b.env) (sched_buy w' b.env) (s' := a3')
    (by
      intro r hr s s' s1 hok
      obtain ⟨o, ho, _⟩ := map_ok hok
      obtain ⟨o', ho'⟩ := scheduleOrder_later (pend' := s'.pend) (sched' := s'.buys)
        (fun e he => hd r (List.mem_filter.1 hr).1 w.buyDelay e he) ho
      refine ⟨{ s' with pend := o'.1, buys := o'.2 }, ?_⟩
      unfold schedBuy
      rw [hb, ho']
      rfl) h4
  obtain ⟨a5', h5', e5, e5'⟩ := sched_fold_later (sched_sell w b.env) (sched_sell w' b.env) (s' := a4')
    (by
      intro r hr s s' s1 hok
      obtain ⟨o, ho, _⟩ := map_ok hok
      obtain ⟨o', ho'⟩ := scheduleOrder_later (pend' := s'.pend) (sched' := s'.sells)
        (fun e he => hd r (List.mem_filter.1 hr).1 w.sellDelay e he) ho
      refine ⟨{ s' with pend := o'.1, sells := o'.2 }, ?_⟩
      unfold schedSell
      rw [hs, ho']
      rfl) h5
  refine ⟨{ a5' with pf := incrBars a5'.pf b.env.hasBarOn }, ?_, ?_⟩
  · simp only [h3', h4', h5', bind, Except.bind, foldB]
  · simp only [e5', e4', e3', e5, e4, e3]

/-! ## When an order is due -/

theorem takeWhile_index {l : List Date} (h : l.Pairwise (· < ·)) {i : Nat} {d : Date}
    (hi : l[i]? = some d) : (l.takeWhile (fun e => decide (e < d))).length = i := by
  induction l generalizing i with
  | nil => cases hi
  | cons a l ih =>
    obtain ⟨h1, h2⟩ := List.pairwise_cons.1 h
    cases i with
    | zero =>
      have e : a = d := Option.some.inj hi
      subst e
      rw [List.takeWhile_cons_of_neg (by simp)]
      rfl
    | succ i =>
      have hi' : l[i]? = some d := hi
      have : a < d := h1 d (List.mem_of_getElem? hi')
      rw [List.takeWhile_cons_of_pos (by simpa using this), List.length_cons, ih h2 hi']

/-- Within one window of all dates an order is due on the symbol's bar `delay` bars later. -/
theorem execDate_whole {l : List Date} (h : l.Pairwise (· < ·)) (i delay : Nat) :
    execDate l (some l) i delay = (l[i - 1 + delay]?).map (fun d => (d, true)) := by
  unfold execDate
  rcases hd : l[i - 1 + delay]? with _ | d
  · simp only [Option.map_none]
    rcases hc : l[i - 1]? with _ | c
    · rfl
    · simp only
      unfold nextMasterDate
      simp only
      rw [takeWhile_index h hc, hd]
      split <;> rfl
  · rfl

namespace RunSetup

variable {x : RunSetup} {t : Date}

/-! ## The shorter data -/

theorem cut_unique (hu : UniqueBars x.rows) : UniqueBars (cutAt x t).rows :=
  List.Pairwise.sublist List.filter_sublist hu

theorem symRows_cut (hu : UniqueBars x.rows) (sym : Sym) :
    symRows (cutAt x t).rows sym = (symRows x.rows sym).filter (fun r => decide (r.date ≤ t)) := by
  refine List.Perm.eq_of_pairwise (le := fun a b : DRow => a.date < b.date)
    (fun _ _ _ _ hab hba => absurd hab (lt_asymm hba))
    (symRows_sorted (cut_unique hu) sym) ((symRows_sorted hu sym).filter _) ?_
  refine (symRows_perm _ sym).trans ?_
  refine List.Perm.trans ?_ ((symRows_perm x.rows sym).filter _).symm
  unfold cutAt
  rw [List.filter_filter, List.filter_filter]
  refine List.Perm.of_eq ?_
  congr 1
  funext r
  rw [Bool.and_comm]

/-- All bars of a symbol. -/
def allBars (x : RunSetup) (sym : Sym) : List Date := (symRows x.rows sym).map DRow.date

theorem allBars_sorted (hu : UniqueBars x.rows) (sym : Sym) : (x.allBars sym).Pairwise (· < ·) :=
  List.pairwise_map.2 (symRows_sorted hu sym)

theorem mem_symRows {rows : List DRow} {sym : Sym} {r : DRow} :
    r ∈ symRows rows sym ↔ r ∈ rows ∧ r.symbol = sym := by
  rw [(symRows_perm rows sym).mem_iff, List.mem_filter]
  simp

theorem filter_dates {W : List Date} (hW : ∀ r ∈ x.rows, r.date ∈ W) (sym : Sym) :
    (symRows x.rows sym).filter (fun r => decide (r.date ∈ W)) = symRows x.rows sym :=
  List.filter_eq_self.2 (fun r hr => by simpa using hW r (mem_symRows.1 hr).1)

theorem barsOn_all {W : List Date} (hW : ∀ r ∈ x.rows, r.date ∈ W) (sym : Sym) :
    x.barsOn W sym = x.allBars sym := by
  unfold barsOn allBars
  rw [filter_dates hW]

theorem allBars_cut (hu : UniqueBars x.rows) (sym : Sym) :
    (cutAt x t).allBars sym = (x.allBars sym).filter (fun d => decide (d ≤ t)) := by
  unfold allBars
  rw [symRows_cut hu, List.filter_map]
  rfl

theorem allBars_take (hu : UniqueBars x.rows) (sym : Sym) :
    (cutAt x t).allBars sym = (x.allBars sym).take ((x.allBars sym).countP (· ≤ t)) := by
  rw [allBars_cut hu, take_count (allBars_sorted hu sym)]

section

variable {W W' : List Date} {selected : List Sym}

theorem calendar_cut (hu : UniqueBars x.rows) (hW : ∀ r ∈ x.rows, r.date ∈ W)
    (hW' : ∀ r ∈ (cutAt x t).rows, r.date ∈ W') :
    ((cutAt x t).store W').uniqueDates =
      (x.store W).uniqueDates.filter (fun d => decide (d ≤ t)) := by
  refine sorted_ext (uniqueDates_sorted _) ((uniqueDates_sorted _).filter _) ?_
  intro d
  rw [List.mem_filter, mem_calendar hu, mem_calendar (cut_unique hu)]
  constructor
  · rintro ⟨_, r, hr, rfl⟩
    obtain ⟨h1, h2⟩ := List.mem_filter.1 hr
    exact ⟨⟨hW r h1, r, h1, rfl⟩, h2⟩
  · rintro ⟨⟨_, r, hr, rfl⟩, h2⟩
    have : r ∈ (cutAt x t).rows := List.mem_filter.2 ⟨hr, h2⟩
    exact ⟨hW' r this, r, this, rfl⟩

theorem active_strict {d : Date} (hd : d ∈ (x.store W).uniqueDates) :
    (activeSyms (symExecDates (x.store W) selected) (x.store W).uniqueDates d).Pairwise (· < ·) := by
  have h1 : (activeSyms (symExecDates (x.store W) selected) (x.store W).uniqueDates d).Sublist
      (x.store W).symbols := by
    rw [active_exact hd]
    refine (List.filter_sublist.map Prod.fst).trans ?_
    unfold symExecDates
    refine List.Sublist.trans ?_ (List.filter_sublist (p := fun y => decide (y ∈ selected)))
    generalize (x.store W).symbols.filter (fun y => decide (y ∈ selected)) = l
    induction l with
    | nil => exact List.Sublist.refl _
    | cons y l ih =>
      rw [List.filterMap_cons]
      rcases (x.store W).arrays y with _ | a
      · exact ih.trans (List.sublist_cons_self _ _)
      · exact ih.cons_cons _
  have h2 : (x.store W).symbols.Sublist (storeOf x.cols x.rows).symbols := List.filter_sublist
  have h3 : (storeOf x.cols x.rows).symbols.Pairwise (· ≤ ·) := List.pairwise_insertionSort _ _
  have h4 : (storeOf x.cols x.rows).symbols.Nodup :=
    ((List.perm_insertionSort _ _).nodup_iff).2 (List.nodup_dedup _)
  exact ((h3.and h4).imp (fun h => lt_of_le_of_ne h.1 h.2)).sublist (h1.trans h2)

theorem sym_ext {l l' : List Sym} (h : l.Pairwise (· < ·)) (h' : l'.Pairwise (· < ·))
    (hm : ∀ d, d ∈ l ↔ d ∈ l') : l = l' := by
  have hn : l.Nodup := h.imp (fun h => ne_of_lt h)
  have hn' : l'.Nodup := h'.imp (fun h => ne_of_lt h)
  exact List.Perm.eq_of_pairwise (le := fun a b : Sym => a < b)
    (fun a b _ _ h h' => absurd h (lt_asymm h')) h h' ((List.perm_ext_iff_of_nodup hn hn').2 hm)

theorem active_cut (hu : UniqueBars x.rows) (hW : ∀ r ∈ x.rows, r.date ∈ W)
    (hW' : ∀ r ∈ (cutAt x t).rows, r.date ∈ W') {d : Date} (hd : d ∈ (x.store W).uniqueDates)
    (ht : d ≤ t) :
    activeSyms (symExecDates ((cutAt x t).store W') selected) ((cutAt x t).store W').uniqueDates d =
      activeSyms (symExecDates (x.store W) selected) (x.store W).uniqueDates d := by
  have hd' : d ∈ ((cutAt x t).store W').uniqueDates := by
    rw [calendar_cut hu hW hW', List.mem_filter]
    exact ⟨hd, by simpa using ht⟩
  refine sym_ext (active_strict hd') (active_strict hd) ?_
  intro s
  rw [mem_active hu hd, mem_active (cut_unique hu) hd', barsOn_all hW, barsOn_all hW', allBars_cut hu,
    List.mem_filter]
  simp [ht]

theorem idxOn_all (hu : UniqueBars x.rows) (hW : ∀ r ∈ x.rows, r.date ∈ W) (d : Date) (sym : Sym) :
    x.idxOn W selected d sym = if sym ∈ selected then (x.allBars sym).countP (· ≤ d) else 0 := by
  rw [idxOn_eq hu, barsOn_all hW]

/-- The bars so far are the same. -/
theorem bars_cut (hu : UniqueBars x.rows) (hst : Started x t) (hW : ∀ r ∈ x.rows, r.date ∈ W)
    (hW' : ∀ r ∈ (cutAt x t).rows, r.date ∈ W') {d : Date} (ht : d ≤ t) :
    SameBars (x.store W) ((cutAt x t).store W') (x.idxOn W selected d) := by
  intro sym
  have htake : ((symRows x.rows sym).filter (fun r => decide (r.date ≤ t))).take
      (x.idxOn W selected d sym) = (symRows x.rows sym).take (x.idxOn W selected d sym) := by
    rw [idxOn_all hu hW]
    split
    · rw [← take_count_filter (symRows_sorted hu sym) t, List.take_take, min_eq_left]
      unfold allBars
      apply List.countP_mono_left
      intro e _ he
      simp only [decide_eq_true_eq] at he ⊢
      exact le_trans he ht
    · simp
  have e1 := slice_arrays hu x.cols W sym
  have e2 := slice_arrays (cut_unique (t := t) hu) x.cols W' sym
  rw [filter_dates hW] at e1
  rw [filter_dates hW', symRows_cut hu] at e2
  have hnil : (symRows x.rows sym).filter (fun r => decide (r.date ≤ t)) = [] →
      symRows x.rows sym = [] := by
    intro h
    by_contra hne
    obtain ⟨r, hr⟩ := List.exists_mem_of_ne_nil _ hne
    obtain ⟨h1, h2⟩ := mem_symRows.1 hr
    obtain ⟨r', h3, h4, h5⟩ := hst r h1
    have : r' ∈ (symRows x.rows sym).filter (fun r => decide (r.date ≤ t)) :=
      List.mem_filter.2 ⟨mem_symRows.2 ⟨h3, h4.trans h2⟩, by simpa using h5⟩
    rw [h] at this
    cases this
  have hcols : (cutAt x t).cols = x.cols := rfl
  rcases e1 with ⟨n1, a1⟩ | ⟨n1, a, a1, a2, a3⟩ <;> rcases e2 with ⟨n2, b1⟩ | ⟨n2, b, b1, b2, b3⟩
  · rw [SameAt, store, a1, store, hcols, b1]
  · rw [n1] at n2
    exact absurd rfl n2
  · exact absurd (hnil n2) n1
  · rw [SameAt, store, a1, store, hcols, b1]
    simp only [Option.map_some, Option.some.injEq]
    unfold SymArrays.upTo
    have h1 : a.dates.take (x.idxOn W selected d sym) = b.dates.take (x.idxOn W selected d sym) := by
      rw [a2, b2, ← List.map_take, ← List.map_take, htake]
    have h2 : ∀ c, (a.col c).map (List.take (x.idxOn W selected d sym)) =
        (b.col c).map (List.take (x.idxOn W selected d sym)) := by
      intro c
      rw [a3, b3]
      split
      · simp only [Option.map_some]
        rw [← List.map_take, ← List.map_take, htake]
      · rfl
    rw [h1]
    simp only [h2]

end

/-! ## One bar -/

theorem bar_cut {k : Nat} {w w' : Window} {s s' : Store} {cal cal' : List Date}
    {sd sd' : List (Sym × List Date)} {st st' st1 : State} {d : Date} {R : Loop → Loop → Prop}
    (hact : activeSyms sd' cal' d = activeSyms sd cal d) (hi : st'.idx = st.idx)
    (hl : st'.loop = st.loop) (hsame : SameBars s s' (bumpIndexes (activeSyms sd cal d) st.idx))
    (hex : x.exitOnLast = false)
    (hsig : ∀ (b : BarIn) (s1 s2 : Loop), b.exits = [] →
      b.env.endIndex = bumpIndexes (activeSyms sd cal d) st.idx →
      (∀ r ∈ b.results, r.symbol ∈ activeSyms sd cal d) → barSignals x.cfg w b s1 = .ok s2 →
      ∃ s2', barSignals x.cfg w' b s1 = .ok s2' ∧ R s2 s2')
    (h : x.bar k w s cal sd st d = .ok st1) :
    ∃ st1', (cutAt x t).bar k w' s' cal' sd' st' d = .ok st1' ∧ R st1.loop st1'.loop ∧
      st1'.idx = st1.idx := by
  have hclose : x.closePrices s (bumpIndexes (activeSyms sd cal d) st.idx) =
      (cutAt x t).closePrices s' (bumpIndexes (activeSyms sd cal d) st.idx) :=
    funext (fun _ => closePrices_same (rows' := (cutAt x t).rows) (act' := x.act)
      (orderSlip' := x.orderSlip) (exitSlip' := x.exitSlip) (hsame _))
  have henv : x.barEnv k s (bumpIndexes (activeSyms sd cal d) st.idx) d =
      (cutAt x t).barEnv k s' (bumpIndexes (activeSyms sd cal d) st.idx) d :=
    barEnv_same (rows' := (cutAt x t).rows) (act' := x.act) (orderSlip' := x.orderSlip)
      (exitSlip' := x.exitSlip) hsame rfl rfl
  have hview : (fun y => (s'.arrays y).map
      (fun a => a.upTo (bumpIndexes (activeSyms sd cal d) st.idx y))) = (fun y => (s.arrays y).map
      (fun a => a.upTo (bumpIndexes (activeSyms sd cal d) st.idx y))) := by
    funext y
    exact (hsame y).symm
  have hnone : x.exitDate = fun _ => none := by
    funext y
    unfold exitDate
    rw [hex]
    rfl
  have hnone' : (cutAt x t).exitDate = fun _ => none := by
    funext y
    unfold exitDate
    rw [show (cutAt x t).exitOnLast = false from hex]
    rfl
  have hfil : ∀ l : List Sym, l.filter (fun _ => decide ((none : Option Date) = some d)) = [] :=
    fun l => List.filter_eq_nil_iff.2 (fun _ _ => by simp)
  unfold bar at h ⊢
  simp only [hnone, hnone', hfil, List.all_nil, if_true, List.map_nil] at h ⊢
  rw [hact, hi, hl, ← henv, hview]
  have hcfg : (cutAt x t).cfg = x.cfg := rfl
  have hactf : (cutAt x t).act = x.act := rfl
  have hwarm : (cutAt x t).warm = x.warm := rfl
  rw [hcfg, hactf, hwarm]
  split at h
  · cases h
  rename_i s1 e1
  split at h
  · cases h
  rename_i s2 e2
  cases h
  obtain ⟨s2', e2', hR⟩ := hsig _ s1 s2 (by rfl) (by rfl) (by
    intro r hr
    simp only at hr
    obtain ⟨y, hy, e⟩ := List.mem_filterMap.1 hr
    obtain ⟨r0, _, rfl⟩ := Option.map_eq_some_iff.1 e
    exact (List.mem_filter.1 hy).1) e2
  rw [e2']
  exact ⟨_, rfl, hR, rfl⟩

/-! ## When an order is due in the shorter data -/

/-- A window over all dates. -/
structure WholeWindow (x : RunSetup) (selected : List Sym) (w : Window) : Prop where
  dates : ∀ sym, w.dates sym = if sym ∈ selected then x.allBars sym else []
  master : w.master = some x.allBars
  buyDelay : w.buyDelay = x.buyDelay
  sellDelay : w.sellDelay = x.sellDelay

theorem due_whole (hu : UniqueBars x.rows) {selected : List Sym} {w : Window}
    (hw : WholeWindow x selected w) {sym : Sym} (hs : sym ∈ selected) (idx : Sym → Nat) (delay : Nat) :
    dueIn w idx sym delay = ((x.allBars sym)[idx sym - 1 + delay]?).map (fun d => (d, true)) := by
  unfold dueIn
  rw [hw.dates, if_pos hs, hw.master]
  exact execDate_whole (allBars_sorted hu sym) _ _

theorem due_cut_some (hu : UniqueBars x.rows) {selected : List Sym} {w w' : Window}
    (hw : WholeWindow x selected w) (hw' : WholeWindow (cutAt x t) selected w') {sym : Sym}
    (hs : sym ∈ selected) (idx : Sym → Nat) (delay : Nat) {e : Date × Bool}
    (h : dueIn w' idx sym delay = some e) : (dueIn w idx sym delay).isSome := by
  rw [due_whole (cut_unique hu) hw' hs, allBars_take hu, List.getElem?_take] at h
  rw [due_whole hu hw hs]
  split at h
  · rw [h]; rfl
  · cases h

theorem between_count (x : RunSetup) (sym : Sym) (d t : Date) (h : d ≤ t) :
    (x.allBars sym).countP (· ≤ t) =
      (x.allBars sym).countP (· ≤ d) + (rowsBetween x sym d t).length := by
  have h1 : (rowsBetween x sym d t).length =
      (x.allBars sym).countP (fun e => decide (d < e ∧ e ≤ t)) := by
    unfold rowsBetween allBars
    rw [List.countP_map, List.countP_eq_length_filter]
    have hp := ((symRows_perm x.rows sym).filter (fun r => decide (d < r.date ∧ r.date ≤ t))).length_eq
    rw [List.filter_filter] at hp
    refine Eq.trans ?_ hp.symm
    congr 2
    funext r
    rw [Bool.eq_iff_iff]
    simp only [Bool.and_eq_true, decide_eq_true_eq]
    tauto
  rw [h1]
  generalize x.allBars sym = l
  induction l with
  | nil => rfl
  | cons a l ih =>
    simp only [List.countP_cons, decide_eq_true_eq]
    rw [ih]
    rcases lt_or_ge d a with h2 | h2
    · by_cases h3 : a ≤ t
      · rw [if_pos h3, if_neg (not_le.2 h2), if_pos ⟨h2, h3⟩]; omega
      · rw [if_neg h3, if_neg (not_le.2 h2), if_neg (fun h => h3 h.2)]; omega
    · rw [if_pos (le_trans h2 h), if_pos h2, if_neg (fun h => absurd h.1 (not_lt.2 h2))]; omega

theorem due_cut (hu : UniqueBars x.rows) {selected : List Sym} {w w' : Window}
    (hw : WholeWindow x selected w) (hw' : WholeWindow (cutAt x t) selected w') {u d : Date}
    (hut : u ≤ t) (hdue : DueBy x t u) (hd : d < u) {idx : Sym → Nat} {r : DRow} (hr : r ∈ x.rows)
    (hrd : r.date = d) (hs : r.symbol ∈ selected)
    (hi : idx r.symbol = (x.allBars r.symbol).countP (· ≤ d)) {delay : Nat}
    (hdel : delay = x.buyDelay ∨ delay = x.sellDelay) :
    dueIn w' idx r.symbol delay = dueIn w idx r.symbol delay := by
  have hdt : d ≤ t := le_trans hd.le hut
  rw [due_whole (cut_unique hu) hw' hs, due_whole hu hw hs, allBars_take hu, List.getElem?_take]
  have hmem : d ∈ x.allBars r.symbol := List.mem_map.2 ⟨r, mem_symRows.2 ⟨hr, rfl⟩, hrd⟩
  have hpos : 0 < (x.allBars r.symbol).countP (· ≤ d) :=
    List.countP_pos_iff.2 ⟨d, hmem, by simp⟩
  have hcount := between_count x r.symbol d t hdt
  split
  · rfl
  · rename_i hn
    rcases hdue r hr (by rw [hrd]; exact hd) with ⟨h1, h2⟩ | h1
    · rw [hrd] at h1 h2
      rcases hdel with e | e <;> omega
    · have hall : (x.allBars r.symbol).countP (· ≤ t) = (x.allBars r.symbol).length := by
        rw [List.countP_eq_length]
        intro e he
        obtain ⟨r', hr', rfl⟩ := List.mem_map.1 he
        obtain ⟨h2, h3⟩ := mem_symRows.1 hr'
        simpa using h1 r' h2 h3
      rw [List.getElem?_eq_none (by omega)]

/-! ## The bars -/

theorem each_one {α β : Type} (f : β → α → Except RunErr β) (b : β) (a : α) : each f b [a] = f b a := by
  simp only [each]
  split
  · rename_i h; exact h.symm
  · rename_i h; exact h.symm

theorem each_split {α β : Type} {f : β → α → Except RunErr β} : ∀ {l l' : List α} {b b2 : β},
    each f b (l ++ l') = .ok b2 ↔ ∃ b1, each f b l = .ok b1 ∧ each f b1 l' = .ok b2 := by
  intro l
  induction l with
  | nil => intro l' b b2; simp [each]
  | cons a l ih =>
    intro l' b b2
    rw [List.cons_append]
    simp only [each]
    split
    · simp
    · exact ih

section

variable {W W' : List Date} {selected : List Sym} {w w' : Window} {k : Nat}

/-- The bar of a date up to `t` in both runs, from the same state. -/
theorem bar_step (hu : UniqueBars x.rows) (hst : Started x t) (hb : Backtest x)
    (hW : ∀ r ∈ x.rows, r.date ∈ W) (hW' : ∀ r ∈ (cutAt x t).rows, r.date ∈ W')
    (hw : WholeWindow x selected w) (hw' : WholeWindow (cutAt x t) selected w') {u : Date}
    (hut : u ≤ t) (hdue : DueBy x t u) {d : Date} (hd : d ∈ (x.store W).uniqueDates) (hdt : d ≤ t)
    {st st' st1 : State}
    (hidx : bumpIndexes (activeSyms (symExecDates (x.store W) selected) (x.store W).uniqueDates d)
      st.idx = x.idxOn W selected d)
    (hi : st'.idx = st.idx) (hl : st'.loop = st.loop)
    (h : x.bar k w (x.store W) (x.store W).uniqueDates (symExecDates (x.store W) selected) st d =
      .ok st1) :
    ∃ st1', (cutAt x t).bar k w' ((cutAt x t).store W') ((cutAt x t).store W').uniqueDates
        (symExecDates ((cutAt x t).store W') selected) st' d = .ok st1' ∧
      st1'.loop.pf = st1.loop.pf ∧ (d < u → st1'.loop = st1.loop) ∧ st1'.idx = st1.idx := by
  have hsame := bars_cut (selected := selected) hu hst hW hW' hdt
  rw [← hidx] at hsame
  have hactive : ∀ y ∈ activeSyms (symExecDates (x.store W) selected) (x.store W).uniqueDates d,
      y ∈ selected ∧ (∃ r ∈ x.rows, r.symbol = y ∧ r.date = d) ∧
        x.idxOn W selected d y = (x.allBars y).countP (· ≤ d) := by
    intro y hy
    obtain ⟨h1, h2⟩ := (mem_active hu hd).1 hy
    rw [barsOn_all hW] at h2
    obtain ⟨r, hr, hrd⟩ := List.mem_map.1 h2
    obtain ⟨h3, h4⟩ := mem_symRows.1 hr
    refine ⟨h1, ⟨r, h3, h4, hrd⟩, ?_⟩
    rw [idxOn_all hu hW, if_pos h1]
  obtain ⟨st1', e, ⟨h1, h2⟩, h3⟩ := bar_cut (t := t) (w' := w')
    (R := fun s s' => s'.pf = s.pf ∧ (d < u → s' = s))
    (active_cut hu hW hW' hd hdt) hi hl hsame hb.open_end (by
      intro b s1 s2 hx hend hres hok
      rw [hidx] at hend
      by_cases hdu : d < u
      · refine ⟨s2, ?_, rfl, fun _ => rfl⟩
        rw [barSignals_same (hw'.buyDelay.trans hw.buyDelay.symm)
          (hw'.sellDelay.trans hw.sellDelay.symm) ?_]
        · exact hok
        · intro r hr
          obtain ⟨h1, ⟨row, h2, h3, h4⟩, h5⟩ := hactive _ (hres r hr)
          rw [hend, hw.buyDelay, hw.sellDelay, ← h3]
          rw [← h3] at h1 h5
          exact ⟨due_cut hu hw hw' hut hdue hdu h2 h4 h1 h5 (Or.inl rfl),
            due_cut hu hw hw' hut hdue hdu h2 h4 h1 h5 (Or.inr rfl)⟩
      · obtain ⟨s2', e1, e2⟩ := barSignals_later (hw'.buyDelay.trans hw.buyDelay.symm)
          (hw'.sellDelay.trans hw.sellDelay.symm) hx (fun r hr delay e he =>
            due_cut_some hu hw hw' (hactive _ (hres r hr)).1 _ _ he) hok
        exact ⟨s2', e1, e2, fun h => absurd h hdu⟩) h
  exact ⟨st1', e, h1, h2, h3⟩

theorem bump_next (hcal : (x.store W).uniqueDates = pre ++ d :: rest) {st : State}
    (hidx : st.idx = endIndexes (symExecDates (x.store W) selected) (x.store W).uniqueDates pre) :
    bumpIndexes (activeSyms (symExecDates (x.store W) selected) (x.store W).uniqueDates d) st.idx =
      x.idxOn W selected d := by
  have hsorted := uniqueDates_sorted (x.store W)
  rw [hcal] at hsorted
  unfold idxOn
  rw [hidx]
  conv_rhs => rw [show (x.store W).uniqueDates.filter (· ≤ d) = pre ++ [d] by
    rw [hcal]
    exact filter_le_append hsorted]
  unfold endIndexes
  rw [List.foldl_append]
  rfl

/-- The bars before `u` in both runs. -/
theorem bars_step (hu : UniqueBars x.rows) (hst : Started x t) (hb : Backtest x)
    (hW : ∀ r ∈ x.rows, r.date ∈ W) (hW' : ∀ r ∈ (cutAt x t).rows, r.date ∈ W')
    (hw : WholeWindow x selected w) (hw' : WholeWindow (cutAt x t) selected w') {u : Date}
    (hut : u ≤ t) (hdue : DueBy x t u) : ∀ {ds pre rest : List Date} {st st' st1 : State},
      (x.store W).uniqueDates = pre ++ (ds ++ rest) → (∀ d ∈ ds, d < u) →
      st.idx = endIndexes (symExecDates (x.store W) selected) (x.store W).uniqueDates pre →
      st'.idx = st.idx → st'.loop = st.loop → st'.trace = st.trace →
      each (x.bar k w (x.store W) (x.store W).uniqueDates (symExecDates (x.store W) selected)) st ds =
        .ok st1 →
      ∃ st1', each ((cutAt x t).bar k w' ((cutAt x t).store W') ((cutAt x t).store W').uniqueDates
          (symExecDates ((cutAt x t).store W') selected)) st' ds = .ok st1' ∧
        st1'.idx = st1.idx ∧ st1'.loop = st1.loop ∧ st1'.trace = st1.trace ∧
        st1.idx = endIndexes (symExecDates (x.store W) selected) (x.store W).uniqueDates (pre ++ ds) := by
  intro ds
  induction ds with
  | nil =>
    intro pre rest st st' st1 _ _ hidx hi hl ht h
    cases h
    exact ⟨st', rfl, hi, hl, ht, by rw [List.append_nil]; exact hidx⟩
  | cons d ds ih =>
    intro pre rest st st' st1 hcal hlt hidx hi hl ht h
    unfold each at h
    split at h
    · cases h
    rename_i s1 e1
    have hdu := hlt d List.mem_cons_self
    have hmem : d ∈ (x.store W).uniqueDates := by rw [hcal]; simp
    obtain ⟨s1', e1', h1, h2, h3⟩ := bar_step hu hst hb hW hW' hw hw' hut hdue hmem
      (le_trans hdu.le hut) (bump_next hcal hidx) hi hl e1
    obtain ⟨st1', h4, h5, h6, h7, h8⟩ := ih (pre := pre ++ [d]) (rest := rest) (st := s1) (st' := s1')
      (by rw [hcal]; simp) (fun e he => hlt e (List.mem_cons_of_mem _ he))
      (by
        rw [bar_idx e1, hidx]
        unfold endIndexes
        rw [List.foldl_append]
        rfl) h3 (h2 hdu) (by rw [bar_trace e1, bar_trace e1', ht, h2 hdu]) h
    refine ⟨st1', ?_, h5, h6, h7, by rw [h8, List.append_assoc]; rfl⟩
    unfold each
    rw [e1']
    exact h4

end

/-! ## The run -/

theorem barNo_total {dates : List Date} {d : Date} (h : d ∈ dates) : barNo dates d < nDates dates := by
  unfold barNo nDates
  exact (List.length_filter_lt_length_iff_exists).2 ⟨d, List.mem_dedup.2 h, by simp⟩

/-- With one window and no training data the window tests all rows. -/
theorem split_backtest (hok : SetupOK x) (hb : Backtest x) (hla : 0 < x.lookahead)
    (hne : x.rows ≠ []) :
    ∃ win, walkforwardSplit x.dates x.windows x.lookahead x.trainSize x.shuffle = .ok [win] ∧
      win.train = [] ∧ win.test ≠ [] ∧ ∀ r ∈ x.rows, r.date ∈ x.testDates win := by
  have hdne : x.dates ≠ [] := by
    unfold dates
    simpa using hne
  rcases split_whole (rows := x.dates) (w := x.windows) (la := x.lookahead) (ts := x.trainSize)
      hok.shuffle (by rw [hb.windows]; norm_num) hla hdne (Or.inl hb.trainSize) with
    ⟨h, _⟩ | ⟨h, ws, e, hlen, hall⟩
  · rw [hb.windows] at h
    obtain ⟨d, hd⟩ := List.exists_mem_of_ne_nil _ hdne
    have := barNo_total hd
    omega
  · rw [hb.windows] at hlen
    obtain ⟨win, rfl⟩ : ∃ win, ws = [win] := List.length_eq_one_iff.1 (by omega)
    obtain ⟨h1, h2⟩ := hall 0 win rfl
    rw [if_pos hb.trainSize] at h1 h2
    rw [hb.windows] at h2
    have hmem : ∀ r ∈ x.rows, r.date ∈ x.testDates win := by
      intro r hr
      have hd : r.date ∈ x.dates := List.mem_map.2 ⟨r, hr, rfl⟩
      have := barNo_total hd
      refine (mem_datesIn h2 hd).2 ⟨?_, ?_⟩ <;> simp <;> omega
    refine ⟨win, e, h1, ?_, hmem⟩
    obtain ⟨r, hr⟩ := List.exists_mem_of_ne_nil _ hne
    obtain ⟨i, hi, _⟩ := mem_testDates.1 (hmem r hr)
    intro hn
    rw [hn] at hi
    cases hi

theorem start_fresh (hok : SetupOK x) (k : Nat) (selected : List Sym) (win : WFWindow) (s : Store) :
    startWindow x.cfg { pf := Portfolio.init x.cfg } (x.window k selected win s) =
      .ok { pf := Portfolio.init x.cfg } := by
  have hiter : x.iter [] = [] := List.perm_nil.1 (hok.iter [])
  unfold startWindow window
  simp only
  unfold liquidateDropped
  have hd : droppedSyms (Portfolio.init x.cfg) selected = [] := rfl
  simp only [boundary, hd, hiter, dropExits, List.filterMap_nil, List.filter_nil]
  rfl

theorem whole_window (hu : UniqueBars x.rows) {win : WFWindow} (hW : ∀ r ∈ x.rows, r.date ∈ x.testDates win)
    (k : Nat) (selected : List Sym) :
    WholeWindow x selected (x.window k selected win (x.store (x.testDates win))) where
  dates := by
    intro sym
    rw [window_dates hu, barsOn_all hW]
  master := by
    unfold window
    simp only [storeOf_dates]
    rfl
  buyDelay := rfl
  sellDelay := rfl

/-- A backtest is the loop over its dates. -/
theorem run_backtest (hok : SetupOK x) (hb : Backtest x) (hla : 0 < x.lookahead) (hne : x.rows ≠ []) :
    ∃ win, (∀ r ∈ x.rows, r.date ∈ x.testDates win) ∧
      x.run = each (x.bar 0 (x.window 0 (selectedSymbols x.execs) win (x.store (x.testDates win)))
        (x.store (x.testDates win)) (x.store (x.testDates win)).uniqueDates
        (symExecDates (x.store (x.testDates win)) (selectedSymbols x.execs)))
        { loop := { pf := Portfolio.init x.cfg } } (x.store (x.testDates win)).uniqueDates := by
  obtain ⟨win, e, h1, h2, h3⟩ := split_backtest hok hb hla hne
  refine ⟨win, h3, ?_⟩
  have hsel : (x.execs.any fun e => e.symbols.isSelector) = false := hb.fixed
  have hwin : windowExecutions (fun d : List DRow => (d.map DRow.symbol).dedup) List.isEmpty x.execs
      (x.rowsAt win.train) = .ok x.execs := by
    unfold windowExecutions selectionDf
    rw [h1, hsel]
    rfl
  unfold run
  rw [e]
  simp only [List.zipIdx_singleton]
  have hone : x.runOne { loop := { pf := Portfolio.init x.cfg } } (win, 0) =
      each (x.bar 0 (x.window 0 (selectedSymbols x.execs) win (x.store (x.testDates win)))
        (x.store (x.testDates win)) (x.store (x.testDates win)).uniqueDates
        (symExecDates (x.store (x.testDates win)) (selectedSymbols x.execs)))
        { loop := { pf := Portfolio.init x.cfg } } (x.store (x.testDates win)).uniqueDates := by
    unfold runOne
    simp only [hwin]
    have hdr : x.droppable (Portfolio.init x.cfg) (x.boundary 0 (selectedSymbols x.execs) win)
        (storeOf x.cols (x.rowsAt win.test)) (storeOf x.cols x.rows) = true := rfl
    rw [if_pos hdr, start_fresh hok]
    simp only
    rw [if_neg h2]
  rw [← hone, each_one]

theorem run_ready {st : State} (h : x.run = .ok st) (hb : Backtest x) : 0 < x.lookahead ∧ x.rows ≠ [] := by
  unfold run at h
  split at h
  · cases h
  rename_i wins hw
  unfold walkforwardSplit at hw
  rw [hb.windows, hb.trainSize] at hw
  simp only [show ¬ ((1 : Int) ≤ 0) by norm_num, if_false] at hw
  split at hw
  · cases hw
  rename_i hla
  refine ⟨by omega, ?_⟩
  intro hn
  have hd : x.dates = [] := by unfold dates; rw [hn]; rfl
  simp only [hd, lt_self_iff_false, if_false, if_true] at hw
  cases hw

theorem cut_ok (hok : SetupOK x) : SetupOK (cutAt x t) where
  unique := cut_unique hok.unique
  buyDelay := hok.buyDelay
  sellDelay := hok.sellDelay
  size := hok.size
  iter := hok.iter
  shuffle := hok.shuffle

theorem cut_backtest (hb : Backtest x) : Backtest (cutAt x t) where
  windows := hb.windows
  trainSize := hb.trainSize
  fixed := hb.fixed
  open_end := hb.open_end

theorem cut_rows (hst : Started x t) (hne : x.rows ≠ []) : (cutAt x t).rows ≠ [] := by
  obtain ⟨r, hr⟩ := List.exists_mem_of_ne_nil _ hne
  obtain ⟨r', h1, _, h2⟩ := hst r hr
  intro hn
  have : r' ∈ (cutAt x t).rows := List.mem_filter.2 ⟨h1, by simpa using h2⟩
  rw [hn] at this
  cases this

/-- A sorted calendar around `u`. -/
theorem split_at (u : Date) : ∀ {l : List Date}, l.Pairwise (· < ·) →
    ∃ pre rest, l = pre ++ rest ∧ (∀ d ∈ pre, d < u) ∧
      ((∀ d ∈ rest, u < d) ∨ ∃ rest', rest = u :: rest' ∧ ∀ d ∈ rest', u < d) := by
  intro l
  induction l with
  | nil => exact fun _ => ⟨[], [], rfl, by simp, Or.inl (by simp)⟩
  | cons a l ih =>
    intro h
    obtain ⟨h1, h2⟩ := List.pairwise_cons.1 h
    rcases lt_trichotomy a u with hlt | rfl | hgt
    · obtain ⟨pre, rest, e, h3, h4⟩ := ih h2
      refine ⟨a :: pre, rest, by rw [e]; rfl, ?_, h4⟩
      intro d hd
      rcases List.mem_cons.1 hd with rfl | hd
      · exact hlt
      · exact h3 d hd
    · exact ⟨[], a :: l, rfl, by simp, Or.inr ⟨l, rfl, h1⟩⟩
    · refine ⟨[], a :: l, rfl, by simp, Or.inl ?_⟩
      intro d hd
      rcases List.mem_cons.1 hd with rfl | hd
      · exact hgt
      · exact lt_trans hgt (h1 d hd)

theorem trace_cut {p : Date → Bool} {tr more : List (Date × Loop)} {pre rest : List Date}
    (htr : tr.map Prod.fst = pre) (hmore : more.map Prod.fst = rest) (hp : ∀ d ∈ pre, p d = true)
    (hr : ∀ d ∈ rest, p d = false) : (tr ++ more).filter (fun e => p e.1) = tr := by
  rw [List.filter_append, List.filter_eq_self.2, List.filter_eq_nil_iff.2, List.append_nil]
  · intro e he
    have := hr e.1 (by rw [← hmore]; exact List.mem_map.2 ⟨e, he, rfl⟩)
    simp [this]
  · intro e he
    exact hp e.1 (by rw [← htr]; exact List.mem_map.2 ⟨e, he, rfl⟩)

theorem each_cons {α β : Type} {f : β → α → Except RunErr β} {a : α} {l : List α} {b b2 : β} :
    each f b (a :: l) = .ok b2 ↔ ∃ b1, f b a = .ok b1 ∧ each f b1 l = .ok b2 := by
  rw [← List.singleton_append, each_split]
  simp only [each_one]

theorem bars_last {k : Nat} {w : Window} {store : Store} {cal : List Date}
    {sd : List (Sym × List Date)} {ds : List Date} {st st1 : State} (hne : ds ≠ [])
    (h : each (x.bar k w store cal sd) st ds = .ok st1) :
    ∃ d, st1.trace.getLast? = some (d, st1.loop) := by
  rcases List.eq_nil_or_concat ds with rfl | ⟨l, d, rfl⟩
  · exact absurd rfl hne
  · rw [List.concat_eq_append, each_split] at h
    obtain ⟨s, _, h⟩ := h
    rw [each_one] at h
    exact ⟨d, by rw [bar_trace h]; simp⟩

/-- The state of the portfolio after each bar. -/
def pfs (tr : List (Date × Loop)) : List (Date × Portfolio) := tr.map (fun e => (e.1, e.2.pf))

theorem run_shorter (hok : SetupOK x) (hb : Backtest x) {u : Date} (hut : u ≤ t) (hst : Started x t)
    (hdue : DueBy x t u) {st : State} (h : x.run = .ok st) :
    (∀ st', (cutAt x t).run = .ok st' →
      st'.trace.filter (fun e => decide (e.1 < u)) = st.trace.filter (fun e => decide (e.1 < u)) ∧
      pfs (st'.trace.filter (fun e => decide (e.1 ≤ u))) =
        pfs (st.trace.filter (fun e => decide (e.1 ≤ u)))) ∧
    (u = t → ∃ st', (cutAt x t).run = .ok st') := by
  obtain ⟨hla, hne⟩ := run_ready h hb
  obtain ⟨win, hW, e⟩ := run_backtest hok hb hla hne
  obtain ⟨win', hW', e'⟩ := run_backtest (cut_ok (t := t) hok) (cut_backtest hb) hla (cut_rows hst hne)
  rw [e] at h
  have hu := hok.unique
  have hcal := calendar_cut hu hW hW'
  obtain ⟨pre, rest, hpr, hpre, hrest⟩ := split_at u (uniqueDates_sorted (x.store (x.testDates win)))
  have hw := whole_window hu hW 0 (selectedSymbols x.execs)
  have hw' := whole_window (cut_unique hu) hW' 0 (selectedSymbols x.execs)
  have hcal' : ((cutAt x t).store ((cutAt x t).testDates win')).uniqueDates =
      pre ++ rest.filter (fun d => decide (d ≤ t)) := by
    rw [hcal, hpr, List.filter_append, List.filter_eq_self.2]
    intro d hd
    simpa using le_trans (hpre d hd).le hut
  have hlist : ∀ {l l' : List Date} {f : State → Date → Except RunErr State} {s s1 : State}, l = l' →
      each f s l = .ok s1 → each f s l' = .ok s1 := by
    intro l l' f s s1 hl hh
    rw [← hl]
    exact hh
  obtain ⟨st0, h0, h1⟩ := each_split.1 (hlist hpr h)
  obtain ⟨st0', h0', hi0, hl0, ht0, hx0⟩ := bars_step (k := 0) hu hst hb hW hW' hw hw' hut hdue
    (ds := pre) (pre := []) (rest := rest) (st := { loop := { pf := Portfolio.init x.cfg } })
    (st' := { loop := { pf := Portfolio.init x.cfg } }) hpr hpre rfl rfl rfl rfl h0
  rw [e']
  obtain ⟨tr, htr, htrd⟩ := bars_trace h0
  have htr' : st0.trace = tr := by simpa using htr
  have hlow : ∀ {p : Date → Bool}, (∀ d, d < u → p d = true) → ∀ d ∈ pre, p d = true :=
    fun hp d hd => hp d (hpre d hd)
  rcases hrest with hlate | ⟨more, rfl, hlate⟩
  · refine ⟨?_, ?_⟩
    · intro st' h'
      obtain ⟨s0, g0, g1⟩ := each_split.1 (hlist hcal' h')
      have : s0 = st0' := Except.ok.inj (g0.symm.trans h0')
      subst this
      obtain ⟨m, hm, hmd⟩ := bars_trace h1
      obtain ⟨m', hm', hmd'⟩ := bars_trace g1
      rw [hm, hm', ht0, htr']
      have hl1 : ∀ d ∈ rest, decide (d < u) = false := fun d hd => by
        simpa using (hlate d hd).le
      have hl2 : ∀ d ∈ rest, decide (d ≤ u) = false := fun d hd => by
        simpa using (hlate d hd)
      have sub : ∀ {p : Date → Bool}, (∀ d ∈ rest, p d = false) →
          ∀ d ∈ rest.filter (fun d => decide (d ≤ t)), p d = false :=
        fun hp d hd => hp d (List.mem_filter.1 hd).1
      rw [trace_cut (p := fun d => decide (d < u)) htrd hmd (hlow (fun d hd => by simpa using hd)) hl1,
        trace_cut (p := fun d => decide (d < u)) htrd hmd' (hlow (fun d hd => by simpa using hd))
          (sub hl1),
        trace_cut (p := fun d => decide (d ≤ u)) htrd hmd
          (hlow (fun d hd => by simpa using hd.le)) hl2,
        trace_cut (p := fun d => decide (d ≤ u)) htrd hmd'
          (hlow (fun d hd => by simpa using hd.le)) (sub hl2)]
      exact ⟨rfl, rfl⟩
    · rintro rfl
      refine ⟨st0', hlist hcal'.symm ?_⟩
      rw [List.filter_eq_nil_iff.2 (fun d hd => by simpa using hlate d hd), List.append_nil]
      exact h0'
  · obtain ⟨st1, h2, h3⟩ := each_cons.1 h1
    have hmem : u ∈ (x.store (x.testDates win)).uniqueDates := by rw [hpr]; simp
    obtain ⟨st1', h2', hpf, _, _⟩ := bar_step hu hst hb hW hW' hw hw' hut hdue hmem hut
      (bump_next hpr hx0) hi0 hl0 h2
    have hfil : (u :: more).filter (fun d => decide (d ≤ t)) =
        u :: more.filter (fun d => decide (d ≤ t)) := by
      rw [List.filter_cons_of_pos (by simpa using hut)]
    refine ⟨?_, ?_⟩
    · intro st' h'
      obtain ⟨s0, g0, g1⟩ := each_split.1 (hlist hcal' h')
      have : s0 = st0' := Except.ok.inj (g0.symm.trans h0')
      subst this
      obtain ⟨s1, g2, g3⟩ := each_cons.1 (hlist hfil g1)
      have : s1 = st1' := Except.ok.inj (g2.symm.trans h2')
      subst this
      obtain ⟨m, hm, hmd⟩ := bars_trace h3
      obtain ⟨m', hm', hmd'⟩ := bars_trace g3
      have t1 : st1.trace = tr ++ [(u, st1.loop)] := by rw [bar_trace h2, htr']
      have t1' : s1.trace = tr ++ [(u, s1.loop)] := by rw [bar_trace g2, ht0, htr']
      rw [hm, hm', t1, t1']
      have hl1 : ∀ d ∈ u :: more, decide (d < u) = false := fun d hd => by
        rcases List.mem_cons.1 hd with rfl | hd
        · simp
        · simpa using (hlate d hd).le
      have hl2 : ∀ d ∈ more, decide (d ≤ u) = false := fun d hd => by
        simpa using (hlate d hd)
      have hp2 : ∀ d ∈ pre ++ [u], decide (d ≤ u) = true := by
        intro d hd
        rcases List.mem_append.1 hd with hd | hd
        · simpa using (hpre d hd).le
        · rw [List.mem_singleton] at hd
          simp [hd]
      rw [trace_cut (p := fun d => decide (d ≤ u)) (pre := pre ++ [u]) (by simp [htrd]) hmd hp2 hl2,
        trace_cut (p := fun d => decide (d ≤ u)) (pre := pre ++ [u]) (by simp [htrd]) hmd' hp2
          (fun d hd => hl2 d (List.mem_filter.1 hd).1)]
      rw [List.append_assoc, List.append_assoc,
        trace_cut (p := fun d => decide (d < u)) (rest := u :: more.filter (fun d => decide (d ≤ t)))
          htrd (by rw [List.map_append, hmd']; rfl) (hlow (fun d hd => by simpa using hd))
          (fun d hd => hl1 d (by
            rcases List.mem_cons.1 hd with rfl | hd
            · simp
            · exact List.mem_cons_of_mem _ (List.mem_filter.1 hd).1)),
        trace_cut (p := fun d => decide (d < u)) (rest := u :: more) htrd
          (by rw [List.map_append, hmd]; rfl) (hlow (fun d hd => by simpa using hd)) hl1]
      refine ⟨rfl, ?_⟩
      unfold pfs
      rw [List.map_append, List.map_append]
      simp [hpf]
    · rintro rfl
      refine ⟨st1', hlist hcal'.symm ?_⟩
      rw [hfil, List.filter_eq_nil_iff.2 (fun d hd => by simpa using hlate d hd)]
      exact each_split.2 ⟨st0', h0', by rw [each_one]; exact h2'⟩

theorem run_last (hok : SetupOK x) (hb : Backtest x) {st : State} (h : x.run = .ok st) :
    ∃ d, st.trace.getLast? = some (d, st.loop) ∧ ∀ e ∈ st.trace, ∃ r ∈ x.rows, r.date = e.1 := by
  obtain ⟨hla, hne⟩ := run_ready h hb
  obtain ⟨win, hW, e⟩ := run_backtest hok hb hla hne
  rw [e] at h
  obtain ⟨r, hr⟩ := List.exists_mem_of_ne_nil _ hne
  obtain ⟨d, hd⟩ := bars_last (by
    intro hn
    have : r.date ∈ (x.store (x.testDates win)).uniqueDates :=
      (mem_calendar hok.unique).2 ⟨hW r hr, r, hr, rfl⟩
    rw [hn] at this
    cases this) h
  refine ⟨d, hd, ?_⟩
  intro e he
  obtain ⟨m, hm, hmd⟩ := bars_trace h
  rw [hm] at he
  have : e.1 ∈ (x.store (x.testDates win)).uniqueDates := by
    rw [← hmd]
    exact List.mem_map.2 ⟨e, by simpa using he, rfl⟩
  exact ((mem_calendar hok.unique).1 this).2

end RunSetup

open RunSetup

/-- **C131** (part).  The backtest on the rows up to `t` succeeds if the one on all rows does, when
every order created before `t` is due by `t`.  Up to `t` it is the same backtest: before `t` the
states after each bar are equal, up to and including `t` the portfolios after each bar are, and so
the portfolio it ends with is the one the longer backtest had then. -/
theorem shorter_data_partial {x : RunSetup} (hok : SetupOK x) (hb : Backtest x) {t : Date}
    (hst : Started x t) (hdue : DueBy x t t) {st : RunSetup.State} (h : x.run = .ok st) :
    ∃ st', (cutAt x t).run = .ok st' ∧
      st'.trace.filter (fun e => decide (e.1 < t)) = st.trace.filter (fun e => decide (e.1 < t)) ∧
      st'.trace.map (fun e => (e.1, e.2.pf)) =
        (st.trace.filter (fun e => decide (e.1 ≤ t))).map (fun e => (e.1, e.2.pf)) ∧
      ∃ d l, (st.trace.filter (fun e => decide (e.1 ≤ t))).getLast? = some (d, l) ∧
        st'.loop.pf = l.pf := by
  obtain ⟨h1, h2⟩ := run_shorter hok hb (le_refl t) hst hdue h
  obtain ⟨st', h'⟩ := h2 rfl
  obtain ⟨h3, h4⟩ := h1 st' h'
  obtain ⟨d, h5, h6⟩ := run_last (cut_ok hok) (cut_backtest hb) h'
  have hall : st'.trace.filter (fun e => decide (e.1 ≤ t)) = st'.trace := by
    refine List.filter_eq_self.2 (fun e he => ?_)
    obtain ⟨r, hr, hrd⟩ := h6 e he
    rw [← hrd]
    exact (List.mem_filter.1 hr).2
  rw [hall] at h4
  refine ⟨st', h', h3, h4, ?_⟩
  unfold pfs at h4
  have h7 := congrArg List.getLast? h4
  rw [List.getLast?_map, List.getLast?_map, h5] at h7
  rcases hg : (st.trace.filter (fun e => decide (e.1 ≤ t))).getLast? with _ | ⟨d', l⟩
  · rw [hg] at h7; cases h7
  · rw [hg] at h7
    simp only [Option.map_some, Option.some.injEq, Prod.mk.injEq] at h7
    exact ⟨d', l, hg, h7.2⟩

/-- **C131** (part).  When both backtests succeed, they agree up to any date `u` such that every order
created before `u` is due by the end of the shorter data. -/
theorem shorter_prefix_partial {x : RunSetup} (hok : SetupOK x) (hb : Backtest x) {t u : Date}
    (hut : u ≤ t) (hst : Started x t) (hdue : DueBy x t u) {st st' : RunSetup.State}
    (h : x.run = .ok st) (h' : (cutAt x t).run = .ok st') :
    st'.trace.filter (fun e => decide (e.1 < u)) = st.trace.filter (fun e => decide (e.1 < u)) ∧
    (st'.trace.filter (fun e => decide (e.1 ≤ u))).map (fun e => (e.1, e.2.pf)) =
      (st.trace.filter (fun e => decide (e.1 ≤ u))).map (fun e => (e.1, e.2.pf)) :=
  (run_shorter hok hb hut hst hdue h).1 st' h'

/-- Orders on the next bar are due by `t` when each symbol with later bars has one on `t`. -/
theorem due_next {x : RunSetup} {t : Date} (hd : x.buyDelay = 1 ∧ x.sellDelay = 1)
    (h : ∀ r ∈ x.rows, t < r.date → ∃ r' ∈ x.rows, r'.symbol = r.symbol ∧ r'.date = t) :
    DueBy x t t := by
  intro r hr hlt
  by_cases hlate : ∃ r' ∈ x.rows, r'.symbol = r.symbol ∧ t < r'.date
  · left
    obtain ⟨r', hr', hs, hgt⟩ := hlate
    obtain ⟨r0, h0, h1, h2⟩ := h r' hr' hgt
    have : r0 ∈ rowsBetween x r.symbol r.date t := by
      unfold rowsBetween
      rw [List.mem_filter]
      exact ⟨h0, by simp only [decide_eq_true_eq]; exact ⟨h1.trans hs, by rw [h2]; exact hlt, h2.le⟩⟩
    have := List.length_pos_of_mem this
    rw [hd.1, hd.2]
    omega
  · right
    intro r' hr' hs
    by_contra hn
    exact hlate ⟨r', hr', hs, not_le.1 hn⟩

/-! ## Examples -/

namespace Demo

/-- Buys `AAA` on date 1 with a stop and sells `BBB` short on date 4. -/
def shRun : RunSetup :=
  { drRun with
    windows := 1
    exitOnLast := false
    act := fun _ d _ _ _ => ([], fun s =>
      if s = "AAA" ∧ d = 1 then
        some { symbol := s, date := d, buyShares := some 10, longStops := [{ lossStop with id := 7 }] }
      else if s = "BBB" ∧ d = 4 then some { symbol := s, date := d, sellShares := some 5 }
      else none) }

theorem shRun_ok : SetupOK shRun where
  unique := drRun_ok.unique
  buyDelay := le_refl 1
  sellDelay := le_refl 1
  size := by norm_num [shRun, drRun]
  iter := fun l => List.Perm.refl l
  shuffle := fun l => List.Perm.refl l

theorem shRun_backtest : Backtest shRun where
  windows := rfl
  trainSize := rfl
  fixed := rfl
  open_end := rfl

/-- Buys `AAA` for three bars later on date 2, and sells it short on date 3 if an order is pending. -/
def shLate : RunSetup :=
  { shRun with
    rows := [drRow "AAA" 1 100, drRow "AAA" 2 101, drRow "AAA" 3 102, drRow "AAA" 4 103,
      drRow "AAA" 5 104]
    execs := [⟨1, .fixed ["AAA"]⟩]
    buyDelay := 3
    act := fun _ d _ s _ => ([], fun y =>
      if d = 2 then some { symbol := y, date := d, buyShares := some 10 }
      else if d = 3 ∧ s.pend.orders ≠ [] then some { symbol := y, date := d, sellShares := some 5 }
      else none) }

theorem shLate_ok : SetupOK shLate where
  unique := by unfold UniqueBars; decide +kernel
  buyDelay := by decide
  sellDelay := le_refl 1
  size := by norm_num [shLate, shRun, drRun]
  iter := fun l => List.Perm.refl l
  shuffle := fun l => List.Perm.refl l

theorem shLate_backtest : Backtest shLate where
  windows := rfl
  trainSize := rfl
  fixed := rfl
  open_end := rfl

end Demo

/-- The hypotheses hold of a backtest with a long and a short position that is cut on date 5. -/
example := shorter_data_partial Demo.shRun_ok Demo.shRun_backtest (t := 5)
  (by unfold Started; decide +kernel) (due_next ⟨rfl, rfl⟩ (by decide +kernel))
  (Demo.ok_okR (d := Demo.drEnd Demo.shRun) (by decide +kernel))

example : (Demo.drEnd (cutAt Demo.shRun 5)).loop.pf.shorts ≠ [] ∧
    (Demo.drEnd (cutAt Demo.shRun 5)).loop.pf.longs ≠ [] ∧
    ((Demo.drEnd (cutAt Demo.shRun 5)).trace.map Prod.fst, (Demo.drEnd Demo.shRun).trace.map Prod.fst) =
      ([1, 2, 3, 4, 5], [1, 2, 3, 4, 5, 6]) := by decide +kernel

/-- Orders three bars later: the runs on dates up to 4 and 5 agree up to date 2. -/
example := shorter_prefix_partial Demo.shLate_ok Demo.shLate_backtest (t := 4) (u := 2) (by decide)
  (by unfold Started; decide +kernel)
  (by unfold DueBy rowsBetween; decide +kernel)
  (Demo.ok_okR (d := Demo.drEnd Demo.shLate) (by decide +kernel))
  (Demo.ok_okR (d := Demo.drEnd (cutAt Demo.shLate 4)) (by decide +kernel))

/-- The full claim is false: an order is only made known as pending when the data have the bar it is
due on, so a function that looks at its pending orders learns whether that bar exists. -/
theorem pending_shows_next_bar : ¬ ∀ (x : RunSetup) (t : Date) (st st' : RunSetup.State), SetupOK x →
    Backtest x → Started x t → x.run = .ok st → (cutAt x t).run = .ok st' →
    st'.trace.map (fun e => (e.1, e.2.pf)) =
      (st.trace.filter (fun e => decide (e.1 ≤ t))).map (fun e => (e.1, e.2.pf)) := by
  intro h
  have h1 := h Demo.shLate 4 (Demo.drEnd Demo.shLate) (Demo.drEnd (cutAt Demo.shLate 4)) Demo.shLate_ok
    Demo.shLate_backtest (by unfold Started; decide +kernel) (Demo.ok_okR (by decide +kernel))
    (Demo.ok_okR (by decide +kernel))
  have h2 := congrArg (List.map (fun e : Date × Portfolio => e.2.shorts.length)) h1
  revert h2
  decide +kernel

end PyBroker
