import Verif.Backtest.Hist
import Verif.Props.Leverage
import Mathlib.Tactic.FinCases

/-!
# Scheduling, attempting and expiring orders in a backtest (C28 to C31, C35, C72)
-/

namespace PyBroker

open PyBroker.Spec

/-! ## C28: delay -/

/-- `d` is the `delay`-th date of the calendar after `curr`. -/
def Spec.DatesAfter (calendar : List Date) (curr : Date) (delay : Nat) (d : Date) : Prop :=
  ∃ before after, calendar = before ++ curr :: after ∧ after[delay - 1]? = some d

theorem takeWhile_lt {l : List Date} (hs : l.Pairwise (· < ·)) {before after : List Date}
    {c : Date} (h : l = before ++ c :: after) :
    l.takeWhile (fun d => d < c) = before := by
  subst h
  rw [List.pairwise_append] at hs
  rw [List.takeWhile_append_of_pos (fun a ha => by
    simpa using hs.2.2 a ha c List.mem_cons_self)]
  rw [List.takeWhile_cons]
  simp

theorem nextMasterDate_iff {ms : List Date} (hs : ms.Pairwise (· < ·)) {curr d : Date}
    {delay : Nat} (hd : 1 ≤ delay) :
    nextMasterDate ms curr delay = some d ↔ DatesAfter ms curr delay d := by
  constructor
  · intro h
    unfold nextMasterDate at h
    simp only at h
    split at h
    · cases h
    · rename_i hloc
      have hloc := not_not.1 hloc
      obtain ⟨h1, e1⟩ := List.getElem?_eq_some_iff.1 hloc
      refine ⟨ms.take (ms.takeWhile (fun d => d < curr)).length,
        ms.drop ((ms.takeWhile (fun d => d < curr)).length + 1), ?_, ?_⟩
      · conv_lhs => rw [← List.take_append_drop (ms.takeWhile (fun d => d < curr)).length ms]
        rw [List.drop_eq_getElem_cons h1, e1]
      · rw [List.getElem?_drop, ← h]
        congr 1
        omega
  · rintro ⟨before, after, rfl, h⟩
    unfold nextMasterDate
    rw [takeWhile_lt hs rfl]
    simp only
    rw [if_neg (by simp)]
    rw [List.getElem?_append_right (by omega)]
    rw [show before.length + delay - before.length = (delay - 1) + 1 by omega,
      List.getElem?_cons_succ]
    exact h

/-- An order signalled on bar `i` (counted from zero) of its symbol is registered
for the symbol's own bar `i + delay` if the window has it, otherwise for the
`delay`-th date after the signal in the master calendar, otherwise dropped; the
execution date is always after the signal. -/
theorem order_delay {HB : Sym → Date → Prop} {w : Window} (hw : WindowOK HB w)
    {endIndex : Sym → Nat} {now : Date} {delay : Nat} (hd : 1 ≤ delay) {r : ExecResult}
    {i : Nat} (hi : endIndex r.symbol = i + 1) (hnow : (w.dates r.symbol)[i]? = some now)
    {pend pend' : PendingScope} {sched sched' : Sched}
    (h : scheduleOrder w endIndex now delay pend sched r = .ok (pend', sched')) :
    (∃ d p, (w.dates r.symbol)[i + delay]? = some d ∧ now < d ∧
      pend'.orders = pend.orders ++ [p] ∧ p.created = now ∧ p.execDate = d ∧
      p.symbol = r.symbol ∧ sched' = sched ++ [(d, { r with pendingId := some p.id })]) ∨
    ((w.dates r.symbol)[i + delay]? = none ∧
      ∃ calendar d p, w.master = some calendar ∧ DatesAfter (calendar r.symbol) now delay d ∧
        now < d ∧ pend'.orders = pend.orders ++ [p] ∧ p.created = now ∧ p.execDate = d ∧
        p.symbol = r.symbol ∧ sched' = sched) ∨
    ((w.dates r.symbol)[i + delay]? = none ∧
      (∀ calendar, w.master = some calendar → ∀ d,
        ¬ DatesAfter (calendar r.symbol) now delay d) ∧ pend' = pend ∧ sched' = sched) := by
  have hnow' : (w.dates r.symbol)[endIndex r.symbol - 1]? = some now := by rw [hi]; exact hnow
  have hms : ∀ ms, w.master.map (fun m => m r.symbol) = some ms → ms.Pairwise (· < ·) := by
    intro ms hms
    cases hm : w.master with
    | none => rw [hm] at hms; cases hms
    | some f =>
      rw [hm] at hms
      have := Option.some.inj hms
      subst this
      exact hw.master f hm _
  have hidx : endIndex r.symbol - 1 + delay = i + delay := by omega
  rcases scheduleOrder_cases h with ⟨h1, h2, h3⟩ | ⟨d, inW, q, h1, h2, h3, h4⟩
  · right; right
    unfold execDate at h3
    rw [hidx, hnow'] at h3
    split at h3
    · cases h3
    · rename_i hnone
      refine ⟨hnone, ?_, h1, h2⟩
      intro cal hcal d hda
      rw [hcal] at h3
      simp only [Option.map_some] at h3
      rw [(nextMasterDate_iff (hw.master cal hcal _) hd).2 hda] at h3
      cases h3
  · obtain ⟨q1, q2, q3⟩ := request_facts h2
    have hlt : now < d := execDate_later (hw.sorted _) hms hd hnow' h1
    have hord : pend'.orders = pend.orders ++ [q.order (pend.nextId + 1)] := by rw [h3]; rfl
    cases inW with
    | true =>
      left
      refine ⟨d, q.order (pend.nextId + 1), ?_, hlt, hord, q2, q3, q1, h4⟩
      rw [← hidx]
      exact execDate_window h1
    | false =>
      right; left
      unfold execDate at h1
      rw [hidx, hnow'] at h1
      split at h1
      · cases h1
      · rename_i hnone
        refine ⟨hnone, ?_⟩
        cases hm : w.master with
        | none => rw [hm] at h1; cases h1
        | some cal =>
          rw [hm] at h1
          simp only [Option.map_some] at h1
          rcases Option.eq_none_or_eq_some (nextMasterDate (cal r.symbol) now delay) with
            h0 | ⟨x, hx⟩
          · rw [h0] at h1; cases h1
          · rw [hx] at h1
            have := (Prod.mk.inj (Option.some.inj h1)).1
            subst this
            exact ⟨cal, x, _, rfl, (nextMasterDate_iff (hw.master cal hm _) hd).1 hx, hlt, hord,
              q2, q3, q1, h4⟩

/-! ## Runs -/

/-- `d` is the date an order of `sym` signalled on the bar `now` of a window is due
on: `delay` bars later in the window if there is such a bar, else `delay` dates
later in the symbol's whole calendar. -/
def Spec.DueOn (w : Window) (sym : Sym) (now : Date) (delay : Nat) (d : Date) : Prop :=
  ∃ i : Nat, (w.dates sym)[i]? = some now ∧
    ((w.dates sym)[i + delay]? = some d ∨
      ((w.dates sym)[i + delay]? = none ∧
        ∃ calendar, w.master = some calendar ∧ DatesAfter (calendar sym) now delay d))

/-- `p` is the order the signal `r` of the bar `now` asks for. -/
def Spec.Becomes (w : Window) (now : Date) (r : ExecResult) (p : PendingOrder) : Prop :=
  p.symbol = r.symbol ∧ p.created = now ∧ p.exitPos = r.exitPos ∧
    ((r.buyShares = some p.shares ∧ p.side = .buy ∧ p.limit = r.buyLimit ∧ p.fill = r.buyFill ∧
        p.timeout = r.buyTimeout ∧ p.stops = r.longStops ∧
        DueOn w r.symbol now w.buyDelay p.execDate) ∨
      (r.sellShares = some p.shares ∧ p.side = .sell ∧ p.limit = r.sellLimit ∧
        p.fill = r.sellFill ∧ p.timeout = r.sellTimeout ∧ p.stops = r.shortStops ∧
        DueOn w r.symbol now w.sellDelay p.execDate))

theorem dueOn_iff {HB : Sym → Date → Prop} {w : Window} (hw : WindowOK HB w) {sym : Sym} {e : Nat}
    {now : Date} (hnow : (w.dates sym)[e - 1]? = some now) {delay : Nat} (hd : 1 ≤ delay)
    (d : Date) :
    DueOn w sym now delay d ↔
      ∃ b, execDate (w.dates sym) (w.master.map (fun m => m sym)) e delay = some (d, b) := by
  have huniq : ∀ i : Nat, (w.dates sym)[i]? = some now → i = e - 1 := by
    intro i hi
    exact (List.getElem?_inj (List.getElem?_eq_some_iff.1 hi).1
      ((hw.sorted sym).imp (fun h => ne_of_lt h))).1 (hi.trans hnow.symm)
  have key : DueOn w sym now delay d ↔ ((w.dates sym)[e - 1 + delay]? = some d ∨
      ((w.dates sym)[e - 1 + delay]? = none ∧
        ∃ calendar, w.master = some calendar ∧ DatesAfter (calendar sym) now delay d)) := by
    constructor
    · rintro ⟨i, hi, h⟩
      rw [huniq i hi] at h
      exact h
    · intro h
      exact ⟨e - 1, hnow, h⟩
  rw [key]
  unfold execDate
  rw [hnow]
  cases hx : (w.dates sym)[e - 1 + delay]? with
  | some d' =>
    constructor
    · rintro (h | ⟨h, _⟩)
      · exact ⟨true, by rw [Option.some.inj h]⟩
      · cases h
    · rintro ⟨b, h⟩
      exact Or.inl (congrArg some (Prod.mk.inj (Option.some.inj h)).1)
  | none =>
    cases hm : w.master with
    | none =>
      constructor
      · rintro (h | ⟨_, _, h, _⟩)
        · cases h
        · cases h
      · rintro ⟨b, h⟩
        cases h
    | some cal =>
      simp only [Option.map_some]
      constructor
      · rintro (h | ⟨_, c, hc, h⟩)
        · cases h
        · have := Option.some.inj hc
          subst this
          exact ⟨false, by rw [(nextMasterDate_iff (hw.master cal hm sym) hd).2 h]; rfl⟩
      · rintro ⟨b, h⟩
        rcases Option.eq_none_or_eq_some (nextMasterDate (cal sym) now delay) with h0 | ⟨x, hx⟩
        · rw [h0] at h; cases h
        · rw [hx] at h
          have := (Prod.mk.inj (Option.some.inj h)).1
          subst this
          exact Or.inr ⟨trivial, cal, rfl, (nextMasterDate_iff (hw.master cal hm sym) hd).1 hx⟩

/-- The orders a list of signals added to the registry. -/
structure Adds (w : Window) (now : Date) (rs : List ExecResult) (delay : ExecResult → Nat)
    (pend pend' : PendingScope) (new : List PendingOrder) : Prop where
  orders : pend'.orders = pend.orders ++ new
  sound : ∀ p ∈ new, ∃ r ∈ rs, Becomes w now r p
  complete : ∀ r ∈ rs, (∃ d, DueOn w r.symbol now (delay r) d) → ∃ p ∈ new, Becomes w now r p

theorem schedule_adds {HB : Sym → Date → Prop} {w : Window} (hw : WindowOK HB w)
    {endIndex : Sym → Nat} {now : Date} {delay : Nat} {r : ExecResult}
    (hnow : (w.dates r.symbol)[endIndex r.symbol - 1]? = some now)
    (hside : (r.buyShares ≠ none ∧ delay = w.buyDelay) ∨
      (r.buyShares = none ∧ r.sellShares ≠ none ∧ delay = w.sellDelay))
    {pend pend' : PendingScope} {sched sched' : Sched}
    (h : scheduleOrder w endIndex now delay pend sched r = .ok (pend', sched')) :
    ∃ new, Adds w now [r] (fun _ => delay) pend pend' new := by
  have hd : 1 ≤ delay := by
    rcases hside with ⟨_, h⟩ | ⟨_, _, h⟩
    · rw [h]; exact hw.buyDelay
    · rw [h]; exact hw.sellDelay
  rcases scheduleOrder_cases h with ⟨h1, _, h3⟩ | ⟨d, inW, q, h1, h2, h3, _⟩
  · refine ⟨[], by rw [h1, List.append_nil], (fun p hp => nomatch hp), ?_⟩
    intro r' hr' ⟨d, hdue⟩
    have := List.mem_singleton.1 hr'
    subst this
    obtain ⟨b, hb⟩ := (dueOn_iff hw hnow hd d).1 hdue
    rw [h3] at hb
    cases hb
  · have hdue : DueOn w r.symbol now delay d := (dueOn_iff hw hnow hd d).2 ⟨inW, h1⟩
    have hbec : Becomes w now r (q.order (pend.nextId + 1)) := by
      rcases hside with ⟨hb, he⟩ | ⟨hb, hs, he⟩
      · obtain ⟨n, hn⟩ := Option.ne_none_iff_exists'.1 hb
        unfold ExecResult.request at h2
        rw [hn] at h2
        have := Except.ok.inj h2
        subst this
        rw [he] at hdue
        exact ⟨rfl, rfl, rfl, Or.inl ⟨hn, rfl, rfl, rfl, rfl, rfl, hdue⟩⟩
      · obtain ⟨n, hn⟩ := Option.ne_none_iff_exists'.1 hs
        unfold ExecResult.request at h2
        rw [hb, hn] at h2
        have := Except.ok.inj h2
        subst this
        rw [he] at hdue
        exact ⟨rfl, rfl, rfl, Or.inr ⟨hn, rfl, rfl, rfl, rfl, rfl, hdue⟩⟩
    refine ⟨[q.order (pend.nextId + 1)], by rw [h3]; rfl, ?_, ?_⟩
    · intro p hp
      rw [List.mem_singleton.1 hp]
      exact ⟨r, List.mem_singleton_self _, hbec⟩
    · intro r' hr' _
      rw [List.mem_singleton.1 hr']
      exact ⟨_, List.mem_singleton_self _, hbec⟩

theorem fold_adds {w : Window} {now : Date} {delay : ExecResult → Nat}
    {f : Loop → ExecResult → Except BErr Loop} : ∀ {rs : List ExecResult} {s s' : Loop},
    (∀ r ∈ rs, ∀ x x', f x r = .ok x' → ∃ new, Adds w now [r] delay x.pend x'.pend new) →
    foldB f s rs = .ok s' → ∃ new, Adds w now rs delay s.pend s'.pend new := by
  intro rs
  induction rs with
  | nil =>
    intro s s' _ h
    have he := Except.ok.inj h
    subst he
    exact ⟨[], by rw [List.append_nil], (fun _ h => nomatch h), (fun _ h => nomatch h)⟩
  | cons r rs ih =>
    intro s s' hf h
    unfold foldB at h
    split at h
    · cases h
    · rename_i s1 h1
      obtain ⟨n1, a1⟩ := hf r List.mem_cons_self _ _ h1
      obtain ⟨n2, a2⟩ := ih (fun r' hr' => hf r' (List.mem_cons_of_mem _ hr')) h
      refine ⟨n1 ++ n2, by rw [a2.orders, a1.orders, List.append_assoc], ?_, ?_⟩
      · intro p hp
        rcases List.mem_append.1 hp with hp | hp
        · obtain ⟨r', hr', hb⟩ := a1.sound p hp
          rw [List.mem_singleton.1 hr'] at hb
          exact ⟨r, List.mem_cons_self, hb⟩
        · obtain ⟨r', hr', hb⟩ := a2.sound p hp
          exact ⟨r', List.mem_cons_of_mem _ hr', hb⟩
      · intro r' hr' hdue
        rcases List.mem_cons.1 hr' with rfl | hr'
        · obtain ⟨p, hp, hb⟩ := a1.complete r' List.mem_cons_self hdue
          exact ⟨p, List.mem_append_left _ hp, hb⟩
        · obtain ⟨p, hp, hb⟩ := a2.complete r' hr' hdue
          exact ⟨p, List.mem_append_right _ hp, hb⟩

theorem userSteps_shrink (us : List UserOp) : ∀ s : Loop,
    Shrinks s.pend (us.foldl userStep s).pend := by
  induction us with
  | nil => intro s; exact Shrinks.refl _
  | cons u us ih =>
    intro s
    refine Shrinks.trans ?_ (ih (userStep s u))
    cases u with
    | cancelPending id => exact remove_shrinks _ _
    | cancelAllPending sym =>
      change Shrinks s.pend (s.pend.removeAll sym)
      unfold PendingScope.removeAll
      split
      · exact removeIds_shrinks _ _
      · split
        · exact Shrinks.refl _
        · exact removeIds_shrinks _ _
    | cancelStop id => exact Shrinks.refl _
    | cancelStopsSym sym t => exact Shrinks.refl _
    | cancelStopsEntry id t => exact Shrinks.refl _

/-- After the signals of a bar the registry holds the orders that were not cancelled
and, for each signal that has a due date, the order it asks for, with the delay of
its own side; a signal without a due date is dropped. -/
theorem signals_become_orders {HB : Sym → Date → Prop} {cfg : Config} {w : Window} {b : BarIn}
    {s s' : Loop} (hw : WindowOK HB w) (hb : BarOK HB w b)
    (hone : ∀ r ∈ b.results, r.buyShares = none ∨ r.sellShares = none)
    (h : barSignals cfg w b s = .ok s') :
    ∃ kept new, s'.pend.orders = kept ++ new ∧ kept.Sublist s.pend.orders ∧
      (b.user = [] → kept = s.pend.orders) ∧
      (∀ p ∈ new, ∃ r ∈ b.results, Becomes w b.env.date r p) ∧
      (∀ r ∈ b.results,
        (r.buyShares ≠ none ∧ ∃ d, DueOn w r.symbol b.env.date w.buyDelay d) ∨
        (r.sellShares ≠ none ∧ ∃ d, DueOn w r.symbol b.env.date w.sellDelay d) →
        ∃ p ∈ new, Becomes w b.env.date r p) := by
  unfold barSignals at h
  simp only at h
  obtain ⟨s3, h3, h⟩ := bind_ok h
  obtain ⟨s4, h4, h⟩ := bind_ok h
  obtain ⟨s5, h5, h⟩ := bind_ok h
  obtain ⟨s6, h6, h⟩ := bind_ok h
  have he := Except.ok.inj h
  subst he
  have hs6 : s6.pend = s5.pend := by
    have := foldB_inv (I := fun x : Loop => x.pend = s5.pend)
      (fun x r x' hr hx hs => by
        obtain ⟨pf, _, rfl⟩ := map_ok hs
        exact hx) rfl h6
    exact this
  have hu := userSteps_shrink b.user { s with pf := captureBar cfg s.pf b.env.date b.env.quote }
  obtain ⟨n3, a3⟩ := fold_adds (w := w) (now := b.env.date) (delay := fun _ => w.buyDelay)
    (fun r hr x x' hx => by
      obtain ⟨y, hy, rfl⟩ := map_ok hx
      have hm := List.mem_filter.1 hr
      have hbs := (Bool.and_eq_true_iff.1 hm.2).1
      exact schedule_adds hw (hb.now r hm.1)
        (Or.inl ⟨Option.isSome_iff_ne_none.1 hbs, rfl⟩) hy) h3
  obtain ⟨n4, a4⟩ := fold_adds (w := w) (now := b.env.date) (delay := fun _ => w.buyDelay)
    (fun r hr x x' hx => by
      obtain ⟨y, hy, rfl⟩ := map_ok hx
      have hm := List.mem_filter.1 hr
      have hbs := (Bool.and_eq_true_iff.1 hm.2).1
      exact schedule_adds hw (hb.now r hm.1)
        (Or.inl ⟨Option.isSome_iff_ne_none.1 hbs, rfl⟩) hy) h4
  obtain ⟨n5, a5⟩ := fold_adds (w := w) (now := b.env.date) (delay := fun _ => w.sellDelay)
    (fun r hr x x' hx => by
      obtain ⟨y, hy, rfl⟩ := map_ok hx
      have hm := List.mem_filter.1 hr
      have hss := Option.isSome_iff_ne_none.1 hm.2
      have hbn : r.buyShares = none := by
        rcases hone r hm.1 with h | h
        · exact h
        · exact absurd h hss
      exact schedule_adds hw (hb.now r hm.1) (Or.inr ⟨hbn, hss, rfl⟩) hy) h5
  refine ⟨_, n3 ++ n4 ++ n5, ?_, hu.2, ?_, ?_, ?_⟩
  · change s6.pend.orders = _
    rw [hs6, a5.orders, a4.orders, a3.orders, List.append_assoc, List.append_assoc,
      List.append_assoc]
  · intro hn
    rw [hn]
    rfl
  · intro p hp
    rcases List.mem_append.1 hp with hp | hp
    · rcases List.mem_append.1 hp with hp | hp
      · obtain ⟨r, hr, h⟩ := a3.sound p hp
        exact ⟨r, List.mem_of_mem_filter hr, h⟩
      · obtain ⟨r, hr, h⟩ := a4.sound p hp
        exact ⟨r, List.mem_of_mem_filter hr, h⟩
    · obtain ⟨r, hr, h⟩ := a5.sound p hp
      exact ⟨r, List.mem_of_mem_filter hr, h⟩
  · rintro r hr (⟨hbs, hdue⟩ | ⟨hss, hdue⟩)
    · have hbs' := Option.isSome_iff_ne_none.2 hbs
      cases hc : r.cover with
      | true =>
        obtain ⟨p, hp, h⟩ := a3.complete r (List.mem_filter.2 ⟨hr, by simp [hbs', hc]⟩) hdue
        exact ⟨p, List.mem_append_left _ (List.mem_append_left _ hp), h⟩
      | false =>
        obtain ⟨p, hp, h⟩ := a4.complete r (List.mem_filter.2 ⟨hr, by simp [hbs', hc]⟩) hdue
        exact ⟨p, List.mem_append_left _ (List.mem_append_right _ hp), h⟩
    · obtain ⟨p, hp, h⟩ := a5.complete r
        (List.mem_filter.2 ⟨hr, Option.isSome_iff_ne_none.2 hss⟩) hdue
      exact ⟨p, List.mem_append_right _ hp, h⟩

/-- The dates of the bars of a run. -/
def Spec.barDates (ws : List (Window × List BarIn)) : List Date :=
  ws.flatMap (fun x => x.2.map (fun b => b.env.date))

theorem start_before {HB : Sym → Date → Prop} {ws : List (Window × List BarIn)}
    (hr : RunOK HB ws) {d : Date} (hd : ∀ x ∈ barDates ws, x < d) :
    ∃ D0 : Date, D0 < d ∧ ∀ x ∈ barDates ws, D0 < x := by
  cases hl : barDates ws with
  | nil => exact ⟨d - 1, Int.sub_one_lt_of_le (le_refl _), by simp⟩
  | cons a l =>
    have hp := hr.forward
    change (barDates ws).Pairwise (· < ·) at hp
    rw [hl, List.pairwise_cons] at hp
    have ha := hd a (by rw [hl]; exact List.mem_cons_self)
    refine ⟨a - 1, lt_trans (Int.sub_one_lt_of_le (le_refl _)) ha, ?_⟩
    intro x hx
    rcases List.mem_cons.1 hx with rfl | hx
    · exact Int.sub_one_lt_of_le (le_refl _)
    · exact lt_trans (Int.sub_one_lt_of_le (le_refl a)) (hp.1 x hx)

theorem LoopInv.init (HB : Sym → Date → Prop) (cfg : Config) (D : Date) :
    LoopInv HB D { pf := Portfolio.init cfg } ({} : PendingMap) :=
  ⟨Refines.init, Track.init HB D, ⟨(fun e he => nomatch he), List.nodup_nil⟩⟩

theorem run_loopInv {HB : Sym → Date → Prop} {cfg : Config} {ws : List (Window × List BarIn)}
    (hr : RunOK HB ws) {s : Loop} (h : runWindows cfg ws = .ok s) {d : Date}
    (hd : ∀ x ∈ barDates ws, x < d) : ∃ D m, D < d ∧ LoopInv HB D s m := by
  obtain ⟨D0, h0, hD0⟩ := start_before hr hd
  obtain ⟨D', m', i', hD'⟩ := windows_inv hr.window hr.bar
    (List.pairwise_cons.2 ⟨hD0, hr.forward⟩) (LoopInv.init HB cfg D0) h
  refine ⟨D', m', hD' d ?_, i'⟩
  intro x hx
  rcases List.mem_cons.1 hx with rfl | hx
  · exact h0
  · exact hd x hx

theorem exists_after (l : List Date) : ∃ d : Date, ∀ x ∈ l, x < d := by
  induction l with
  | nil => exact ⟨0, by simp⟩
  | cons a l ih =>
    obtain ⟨d, hd⟩ := ih
    refine ⟨max (a + 1) d, ?_⟩
    intro x hx
    rcases List.mem_cons.1 hx with rfl | hx
    · exact lt_of_lt_of_le (Int.lt_succ_self _) (le_max_left _ _)
    · exact lt_of_lt_of_le (hd x hx) (le_max_right _ _)

/-- In every run, an order is attempted only after the bar that signalled it, not
before its execution date, and only on bars of its symbol. -/
theorem attempts_after_signal {HB : Sym → Date → Prop} {cfg : Config}
    {ws : List (Window × List BarIn)} (hr : RunOK HB ws) {s : Loop}
    (h : runWindows cfg ws = .ok s) :
    ∀ a ∈ s.attempts, a.order.created < a.date ∧ a.order.execDate ≤ a.date ∧
      HB a.order.symbol a.date := by
  obtain ⟨d, hd⟩ := exists_after (barDates ws)
  obtain ⟨D, m, _, hi⟩ := run_loopInv hr h hd
  intro a ha
  obtain ⟨_, h2, h3, _, h5⟩ := hi.track.bound a ha
  exact ⟨lt_of_lt_of_le h2 h3, h3, h5⟩

/-! ## C29: attempts, retries and expiry -/

/-- A limit order with a timeout. -/
def Spec.Persistent (p : PendingOrder) : Prop := p.limit ≠ none ∧ p.timeout ≠ none

theorem persistent_iff (p : PendingOrder) : p.persistent = true ↔ Persistent p := by
  unfold PendingOrder.persistent Persistent
  rw [Bool.and_eq_true, Option.isSome_iff_ne_none, Option.isSome_iff_ne_none]

/-- Over a whole run: attempts of one order are on increasing dates (so at most
one per bar), every attempt but the last was unfilled, only limit orders with a
timeout are attempted again, and an order with timeout `t >= 0` is attempted at
most `t + 1` times, that is retried on at most `t` bars.  An attempted order that
is still pending is a limit order with a timeout that was never filled. -/
theorem attempts_bounded {HB : Sym → Date → Prop} {cfg : Config}
    {ws : List (Window × List BarIn)} (hr : RunOK HB ws) {s : Loop}
    (h : runWindows cfg ws = .ok s) :
    s.attempts.Pairwise (fun a b => a.order.id = b.order.id →
      a.order = b.order ∧ a.date < b.date ∧ a.filled = none ∧ Persistent a.order) ∧
    (∀ a ∈ s.attempts, ∀ t, a.order.timeout = some t → 0 ≤ t →
      ((s.attempts.countP (fun b => b.order.id = a.order.id) : Nat) : Int) ≤ t + 1) ∧
    (∀ a ∈ s.attempts, ∀ p ∈ s.pend.orders, a.order.id = p.id →
      a.order = p ∧ Persistent p ∧ a.filled = none) := by
  obtain ⟨d, hd⟩ := exists_after (barDates ws)
  obtain ⟨D, m, _, hi⟩ := run_loopInv hr h hd
  refine ⟨?_, ?_, ?_⟩
  · refine hi.track.once.imp ?_
    intro a b hab e
    obtain ⟨h1, h2, h3, h4⟩ := hab e
    exact ⟨h1, h2, h3, (persistent_iff _).1 h4⟩
  · intro a ha t ht h0
    rw [List.countP_eq_length_filter]
    exact hi.track.limit a ha t ht h0
  · intro a ha p hp hid
    rw [hi.ref.orders] at hp
    obtain ⟨x, hx, rfl⟩ := List.mem_map.1 hp
    obtain ⟨h1, h2⟩ := hi.track.same a ha x hx hid
    refine ⟨h1, ?_, h2⟩
    cases hxa : x.attempted with
    | true => exact (persistent_iff _).1 (hi.track.tried x hx hxa).1
    | false =>
      have h3 := (hi.track.fresh x hx hxa).2
      have : a ∈ attemptsOf x.order.id s.attempts :=
        List.mem_filter.2 ⟨ha, by simpa using hid⟩
      rw [h3] at this
      cases this

/-- On the next bar of a run every pending order that is due and whose symbol has
a bar is attempted on that very bar, unless it has been attempted on
`timeout + 1` bars, in which case it is removed.  Filled orders and orders that
are not limit orders with a timeout are gone after their attempt. -/
theorem due_orders_attempted {HB : Sym → Date → Prop} {cfg : Config}
    {ws : List (Window × List BarIn)} (hr : RunOK HB ws) {s s' : Loop}
    (h : runWindows cfg ws = .ok s) {env : BarEnv}
    (hb : ∀ sym, env.hasBarOn sym = true ↔ HB sym env.date)
    (hd : ∀ x ∈ barDates ws, x < env.date) (hs : barOrders cfg env s = .ok s') :
    (∀ p ∈ s.pend.orders, p.execDate ≤ env.date → HB p.symbol env.date →
      (∃ a ∈ s'.attempts, a.order = p ∧ a.date = env.date) ∨
      (∃ t, p.timeout = some t ∧
        ((s'.attempts.countP (fun b => b.order.id = p.id) : Nat) : Int) = t + 1 ∧
        ∀ q ∈ s'.pend.orders, q.id ≠ p.id)) ∧
    (∀ a ∈ s'.attempts, a.filled ≠ none ∨ ¬ Persistent a.order →
      ∀ q ∈ s'.pend.orders, q.id ≠ a.order.id) ∧
    (∀ q ∈ s'.pend.orders, q ∈ s.pend.orders) := by
  obtain ⟨D, m, hD, hi⟩ := run_loopInv hr h hd
  obtain ⟨m', hi', hdealt, hshr⟩ := barOrders_inv hb hi hD hs
  refine ⟨?_, ?_, fun q hq => hshr.2.subset hq⟩
  · intro p hp hex hbar
    rcases hdealt p hp with h1 | h1 | h1 | ⟨t, h1, h2, h3⟩
    · exact absurd h1 (not_lt.2 hex)
    · exact absurd hbar h1
    · exact Or.inl h1
    · right
      refine ⟨t, h1, ?_, ?_⟩
      · rw [List.countP_eq_length_filter]; exact h2
      · intro q hq
        rw [hi'.ref.orders] at hq
        obtain ⟨x, hx, rfl⟩ := List.mem_map.1 hq
        exact h3 x hx
  · intro a ha hor q hq hid
    rw [hi'.ref.orders] at hq
    obtain ⟨x, hx, rfl⟩ := List.mem_map.1 hq
    obtain ⟨h1, h2⟩ := hi'.track.same a ha x hx hid.symm
    rcases hor with h3 | h3
    · exact h3 h2
    · apply h3
      rw [h1]
      cases hxa : x.attempted with
      | true => exact (persistent_iff _).1 (hi'.track.tried x hx hxa).1
      | false =>
        have h4 := (hi'.track.fresh x hx hxa).2
        have : a ∈ attemptsOf x.order.id s'.attempts :=
          List.mem_filter.2 ⟨ha, by simpa using hid.symm⟩
        rw [h4] at this
        cases this

/-! ## C30: priority of pending orders -/

/-- The turn of an order: exits of short positions, then sells, then other buys. -/
def Spec.turn (p : PendingOrder) : Nat :=
  if p.side = .buy ∧ p.exitPos = some .short then 0 else if p.side = .sell then 1 else 2

/-- `p` is processed before `q`. -/
def Spec.Precedes (p q : PendingOrder) : Prop :=
  turn p < turn q ∨ (turn p = turn q ∧ p.id ≤ q.id)

theorem priority_eq (p : PendingOrder) : p.priority = (turn p, p.id) := by
  unfold PendingOrder.priority turn
  cases h : p.side with
  | buy =>
    by_cases h2 : p.exitPos = some .short <;> simp [h2]
  | sell => simp

theorem sortPending_spec (l : List PendingOrder) :
    (sortPending l).Perm l ∧ (sortPending l).Pairwise Precedes := by
  have hr : (fun a b : PendingOrder => a.priority.1 < b.priority.1 ∨
      (a.priority.1 = b.priority.1 ∧ a.priority.2 ≤ b.priority.2)) = Precedes := by
    funext a b
    rw [priority_eq, priority_eq]
    rfl
  refine ⟨List.perm_insertionSort _ l, ?_⟩
  unfold sortPending
  have : Std.Total (α := PendingOrder) (fun a b : PendingOrder => a.priority.1 < b.priority.1 ∨
      (a.priority.1 = b.priority.1 ∧ a.priority.2 ≤ b.priority.2)) := ⟨by
    intro a b
    omega⟩
  have : IsTrans PendingOrder (fun a b : PendingOrder => a.priority.1 < b.priority.1 ∨
      (a.priority.1 = b.priority.1 ∧ a.priority.2 ≤ b.priority.2)) := ⟨by
    intro a b c
    omega⟩
  have h := List.pairwise_insertionSort (fun a b : PendingOrder => a.priority.1 < b.priority.1 ∨
      (a.priority.1 = b.priority.1 ∧ a.priority.2 ≤ b.priority.2)) l
  exact h.imp (fun {a b} hab => by
    have := congrFun (congrFun hr a) b
    exact this ▸ hab)

theorem processOne_attempts {cfg : Config} {env : BarEnv} {s s' : Loop} {p : PendingOrder}
    (h : processOne cfg env s p = .ok s') :
    s'.attempts = s.attempts ∨ ∃ o, s'.attempts = s.attempts ++ [⟨p, env.date, o⟩] := by
  unfold processOne at h
  simp only at h
  split at h
  · have he := Except.ok.inj h; subst he; exact Or.inl rfl
  · split at h
    · have he := Except.ok.inj h; subst he; exact Or.inl rfl
    · split at h
      · have he := Except.ok.inj h; subst he; exact Or.inl rfl
      · split at h
        · obtain ⟨o, _, h2, _⟩ := attemptStep_facts h
          exact Or.inr ⟨o, h2⟩
        · split at h
          · have he := Except.ok.inj h; subst he; exact Or.inl rfl
          · split at h
            · have he := Except.ok.inj h; subst he; exact Or.inl rfl
            · obtain ⟨o, _, h2, _⟩ := attemptStep_facts h
              exact Or.inr ⟨o, h2⟩

theorem foldOne_attempts {cfg : Config} {env : BarEnv} : ∀ {l : List PendingOrder} {s s' : Loop},
    foldB (processOne cfg env) s l = .ok s' →
    ∃ new, s'.attempts = s.attempts ++ new ∧ (new.map Attempt.order).Sublist l := by
  intro l
  induction l with
  | nil =>
    intro s s' h
    have he := Except.ok.inj h
    subst he
    exact ⟨[], by simp, List.Sublist.refl _⟩
  | cons p l ih =>
    intro s s' h
    unfold foldB at h
    split at h
    · cases h
    · rename_i s1 h1
      obtain ⟨new, h2, h3⟩ := ih h
      rcases processOne_attempts h1 with h4 | ⟨o, h4⟩
      · exact ⟨new, by rw [h2, h4], h3.cons _⟩
      · refine ⟨⟨p, env.date, o⟩ :: new, ?_, ?_⟩
        · rw [h2, h4]; simp
        · rw [List.map_cons]; exact h3.cons_cons _

/-- The orders attempted from the registry on a bar are attempted in this order,
whatever order they were created in: exits of short positions, then sells, then
other buys, and by creation id within each.  Missing: covers other than
`cover_all_shares`, see `cover_flag_lost` and `cover_retry_after_sell`. -/
theorem pending_priority_partial {cfg : Config} {env : BarEnv} {s s' : Loop}
    (h : processPersistent cfg env s = .ok s') :
    ∃ new, s'.attempts = s.attempts ++ new ∧ (new.map Attempt.order).Pairwise Precedes ∧
      ∀ a ∈ new, a.order ∈ s.pend.orders := by
  unfold processPersistent at h
  obtain ⟨new, h1, h2⟩ := foldOne_attempts h
  obtain ⟨h3, h4⟩ := sortPending_spec s.pend.orders
  refine ⟨new, h1, h4.sublist h2, ?_⟩
  intro a ha
  exact h3.mem_iff.1 (h2.subset (List.mem_map.2 ⟨a, ha, rfl⟩))

/-- The registry does not know that a buy is a cover: the request of a result with
the cover flag is that of the same result without it. -/
theorem cover_flag_lost (r : ExecResult) (b : Bool) (created exec : Date) (n : Nat) :
    ({ r with cover := b } : ExecResult).request created exec n = r.request created exec n := rfl

/-! ## C31: exit orders -/

theorem exitClamp_facts {pf : Portfolio} {p : PendingOrder} {t : PosType} {shares : ℚ}
    (hn : (pf.book t).map Position.symbol |>.Nodup) (ht : p.exitPos = some t) :
    (∀ n, exitClamp pf p shares = some n →
      0 < n ∧ n ≤ shares ∧ n ≤ held (pf.book t) p.symbol) ∧
    (held (pf.book t) p.symbol ≤ 0 → exitClamp pf p shares = none) := by
  have hh : ((lookupPos (pf.book t) p.symbol).map Position.shares).getD 0 =
      held (pf.book t) p.symbol := by
    rw [held_eq hn]
    unfold sharesOf
    cases lookupPos (pf.book t) p.symbol <;> rfl
  unfold exitClamp
  rw [ht]
  simp only
  rw [hh]
  generalize held (pf.book t) p.symbol = k
  by_cases h1 : k < shares
  · simp only [h1, if_true]
    refine ⟨?_, fun h0 => by rw [if_pos h0]⟩
    intro n h
    split at h
    · cases h
    · rename_i h0
      have := Option.some.inj h
      subst this
      exact ⟨not_le.1 h0, le_of_lt h1, le_refl _⟩
  · simp only [h1, if_false]
    refine ⟨?_, fun h0 => by rw [if_pos (le_trans (not_lt.1 h1) h0)]⟩
    intro n h
    split at h
    · cases h
    · rename_i h0
      have := Option.some.inj h
      subst this
      exact ⟨not_le.1 h0, le_refl _, not_lt.1 h1⟩

theorem slipOrder_shares {cfg : Config} {slip : Option SlipModel} {p : PendingOrder}
    {n fill n' price : ℚ} (h : slipOrder cfg slip p n fill = .ok (n', price)) : n' ≤ n := by
  unfold slipOrder at h
  split at h
  · have he := Prod.mk.inj (Except.ok.inj h); exact le_of_eq he.1.symm
  · have he := Prod.mk.inj (Except.ok.inj h); exact le_of_eq he.1.symm
  · have he := Prod.mk.inj (Except.ok.inj h); exact le_of_eq he.1.symm
  · simp only at h
    split at h
    · cases h
    · rename_i f hx
      have he := Prod.mk.inj (Except.ok.inj h)
      rw [← he.1]
      have h0 : 0 ≤ (f p.side p.symbol n fill).1 := not_lt.1 (fun hc => hx (Or.inl hc))
      have h1 : (f p.side p.symbol n fill).1 ≤ n := not_lt.1 (fun hc => hx (Or.inr hc))
      unfold getShares
      split
      · exact h1
      · exact le_trans (truncQ_le h0) h1

/-- An order of a side that closes `sd.closes` for no more than is held opens
nothing. -/
theorem placeOrder_no_open {cfg : Config} {sd : Side} {s s' : Portfolio} {r : OrderReq} {o : Order}
    (hg : Good s) (h : placeOrder cfg sd s r = .ok (some o, s'))
    (hle : r.shares ≤ held (s.book sd.closes) r.symbol) :
    entriesOf (s'.book sd.opens) r.symbol = entriesOf (s.book sd.opens) r.symbol ∧
      o.shares = r.shares ∧
      held (s'.book sd.closes) r.symbol = held (s.book sd.closes) r.symbol - o.shares := by
  have hg' := placeOrder_good hg h
  have hsh0 := (placeOrder_cases h).1
  obtain ⟨opened, nt, ne, _, _, hleft, hop0, hop1, hnew, hopen, hosh, _, _, _, _, _, hord⟩ :=
    placeOrder_fifo hg h
  have hpos : ∀ e ∈ entriesOf (s.book sd.closes) r.symbol, 0 < e.shares := by
    intro e he
    unfold entriesOf at he
    obtain ⟨p, hp, hep⟩ := List.mem_flatMap.1 he
    have hp' := (List.mem_filter.1 hp).1
    rcases ((hg.wf.pos _ p hp').entries e hep).shares with h | h
    · exact absurd h.1 (by simp)
    · exact h.2
  have hpos' : ∀ x ∈ (entriesOf (s.book sd.closes) r.symbol).map Entry.shares, 0 < x := by
    intro x hx
    obtain ⟨e, he, rfl⟩ := List.mem_map.1 hx
    exact hpos e he
  rw [held_entries hg.wf] at hle
  have hsum : (fifo ((entriesOf (s.book sd.closes) r.symbol).map Entry.shares) r.shares).sum =
      r.shares := by
    rw [sum_fifo hpos' hsh0, min_eq_right hle]
  rw [hsum] at hop1 hosh
  have h0 : opened = 0 := le_antisymm (by linarith) hop0
  have hne : ne = [] := by
    rcases hopen with ⟨_, h1⟩ | ⟨h1, _⟩
    · exact h1
    · exact absurd h0 (ne_of_gt h1)
  refine ⟨by rw [hnew, hne, List.append_nil], by rw [hosh, h0]; ring, ?_⟩
  rw [held_entries hg.wf, held_entries hg'.wf, hleft, sum_leftOpen hpos hsh0, hsum, hosh, h0]
  ring

theorem attempt_exit {cfg : Config} {ops : List Op} {pf pf' : Portfolio} {env : BarEnv}
    {p : PendingOrder} {o : Option Order} (hfit : ∀ op ∈ ops, op.Fit) (h : run cfg ops = .ok pf)
    (hexit : p.exitPos = some p.side.closes)
    (ha : attemptOrder cfg env pf p = .ok (o, pf')) :
    entriesOf (pf'.book p.side.opens) p.symbol = entriesOf (pf.book p.side.opens) p.symbol ∧
    (∀ x, o = some x → 0 < x.shares ∧ x.shares ≤ held (pf.book p.side.closes) p.symbol ∧
      held (pf'.book p.side.closes) p.symbol =
        held (pf.book p.side.closes) p.symbol - x.shares) ∧
    (held (pf.book p.side.closes) p.symbol = 0 → o = none ∧ pf' = pf) := by
  have hg := (run_good hfit h).1
  obtain ⟨hc1, hc2⟩ := exitClamp_facts (shares := getShares cfg p.shares)
    (hg.wf.nodup p.side.closes) hexit
  unfold attemptOrder at ha
  simp only at ha
  split at ha
  · have he := Prod.mk.inj (Except.ok.inj ha)
    rw [← he.1, ← he.2]
    exact ⟨rfl, (fun x hx => nomatch hx), fun _ => ⟨rfl, rfl⟩⟩
  · rename_i fill hf
    rcases Option.eq_none_or_eq_some (exitClamp pf p (getShares cfg p.shares)) with hn | ⟨n, hn⟩
    · rw [hn] at ha
      have he := Prod.mk.inj (Except.ok.inj ha)
      rw [← he.1, ← he.2]
      exact ⟨rfl, (fun x hx => nomatch hx), fun _ => ⟨rfl, rfl⟩⟩
    · rw [hn] at ha
      simp only at ha
      obtain ⟨hn0, _, hnh⟩ := hc1 n hn
      split at ha
      · cases ha
      · rename_i n' price hs
        have hle := slipOrder_shares hs
        have hpl : placeOrder cfg p.side pf (p.req env.date n' price fill) = .ok (o, pf') := by
          have hl : ∀ {x : Except Err (Option Order × Portfolio)}, liftE x = .ok (o, pf') →
              x = .ok (o, pf') := by
            intro x hx
            cases x with
            | error e => cases hx
            | ok a => rw [Except.ok.inj hx]
          unfold placeOrder
          cases hside : p.side with
          | buy => rw [hside] at ha; exact hl ha
          | sell => rw [hside] at ha; exact hl ha
        refine ⟨?_, ?_, ?_⟩
        · cases o with
          | none =>
            have := placeOrder_none hg hpl
            have hb : ∀ t, pf'.book t = pf.book t := by
              intro t
              cases t with
              | long => exact (congrArg Portfolio.longs this : (observed pf').longs = (observed pf).longs)
              | short => exact (congrArg Portfolio.shorts this : (observed pf').shorts = (observed pf).shorts)
            rw [hb]
          | some x => exact (placeOrder_no_open hg hpl (le_trans hle hnh)).1
        · intro x hx
          subst hx
          obtain ⟨_, h2, h3⟩ := placeOrder_no_open hg hpl (le_trans hle hnh)
          obtain ⟨_, _, _, h4, _⟩ := placeOrder_fill hg hpl
          refine ⟨h4, ?_, h3⟩
          rw [h2]
          exact le_trans hle hnh
        · intro h0
          rw [h0] at hnh
          exact absurd hn0 (not_lt.2 hnh)

/-- An exit of a long position sells at most what is held when it executes, opens
no short entry, and does nothing at all when nothing is held. -/
theorem exit_long_never_shorts {cfg : Config} {ops : List Op} {pf pf' : Portfolio} {env : BarEnv}
    {p : PendingOrder} {o : Option Order} (hfit : ∀ op ∈ ops, op.Fit) (h : run cfg ops = .ok pf)
    (hside : p.side = .sell) (hexit : p.exitPos = some .long)
    (ha : attemptOrder cfg env pf p = .ok (o, pf')) :
    entriesOf pf'.shorts p.symbol = entriesOf pf.shorts p.symbol ∧
    (∀ x, o = some x → 0 < x.shares ∧ x.shares ≤ held pf.longs p.symbol ∧
      held pf'.longs p.symbol = held pf.longs p.symbol - x.shares) ∧
    (held pf.longs p.symbol = 0 → o = none ∧ pf' = pf) := by
  have := attempt_exit hfit h (by rw [hside]; exact hexit) ha
  rw [hside] at this
  exact this

/-- An exit of a short position buys at most what is held when it executes, opens
no long entry, and does nothing at all when nothing is held. -/
theorem exit_short_never_buys {cfg : Config} {ops : List Op} {pf pf' : Portfolio} {env : BarEnv}
    {p : PendingOrder} {o : Option Order} (hfit : ∀ op ∈ ops, op.Fit) (h : run cfg ops = .ok pf)
    (hside : p.side = .buy) (hexit : p.exitPos = some .short)
    (ha : attemptOrder cfg env pf p = .ok (o, pf')) :
    entriesOf pf'.longs p.symbol = entriesOf pf.longs p.symbol ∧
    (∀ x, o = some x → 0 < x.shares ∧ x.shares ≤ held pf.shorts p.symbol ∧
      held pf'.shorts p.symbol = held pf.shorts p.symbol - x.shares) ∧
    (held pf.shorts p.symbol = 0 → o = none ∧ pf' = pf) := by
  have := attempt_exit hfit h (by rw [hside]; exact hexit) ha
  rw [hside] at this
  exact this

/-! ## C35: execution in score order -/

/-- The score a bar's buys are ordered by: the long score if set, else the score;
NaN below everything, nothing set as zero. -/
def Spec.buyScore (r : ExecResult) : WithBot ℚ :=
  match r.longScore, r.score with
  | some (some q), _ => q
  | some none, _ => ⊥
  | none, some (some q) => q
  | none, some none => ⊥
  | none, none => (0 : ℚ)

/-- The score a bar's sells are ordered by. -/
def Spec.sellScore (r : ExecResult) : WithBot ℚ :=
  match r.shortScore, r.score with
  | some (some q), _ => q
  | some none, _ => ⊥
  | none, some (some q) => q
  | none, some none => ⊥
  | none, none => (0 : ℚ)

theorem buyKey_eq : ExecResult.buyKey = buyScore := by
  funext r
  unfold ExecResult.buyKey buyScore sortScore
  rcases r.longScore with _ | _ | q <;> rcases r.score with _ | _ | q' <;> rfl

theorem sellKey_eq : ExecResult.sellKey = sellScore := by
  funext r
  unfold ExecResult.sellKey sellScore sortScore
  rcases r.shortScore with _ | _ | q <;> rcases r.score with _ | _ | q' <;> rfl

theorem filter_insertionSort {key : ExecResult → WithBot ℚ} (k : WithBot ℚ) :
    ∀ l : List ExecResult, (l.insertionSort (fun a b => key b ≤ key a)).filter
      (fun r => key r = k) = l.filter (fun r => key r = k) := by
  have hins : ∀ (a : ExecResult) (l : List ExecResult),
      (l.orderedInsert (fun a b => key b ≤ key a) a).filter (fun r => key r = k) =
        (a :: l).filter (fun r => key r = k) := by
    intro a l
    induction l with
    | nil => rfl
    | cons b l ih =>
      rw [List.orderedInsert_cons]
      split
      · rfl
      · rename_i hab
        have hlt : key a < key b := not_le.1 hab
        by_cases hb : key b = k
        · rw [List.filter_cons_of_pos (by simpa using hb), ih]
          have ha : key a ≠ k := by rw [← hb]; exact ne_of_lt hlt
          rw [List.filter_cons_of_neg (by simpa using ha),
            List.filter_cons_of_neg (by simpa using ha),
            List.filter_cons_of_pos (by simpa using hb)]
        · rw [List.filter_cons_of_neg (by simpa using hb), ih]
          by_cases ha : key a = k
          · rw [List.filter_cons_of_pos (by simpa using ha),
              List.filter_cons_of_pos (by simpa using ha),
              List.filter_cons_of_neg (by simpa using hb)]
          · rw [List.filter_cons_of_neg (by simpa using ha),
              List.filter_cons_of_neg (by simpa using ha),
              List.filter_cons_of_neg (by simpa using hb)]
  intro l
  induction l with
  | nil => rfl
  | cons a l ih =>
    rw [List.insertionSort_cons, hins]
    by_cases ha : key a = k
    · rw [List.filter_cons_of_pos (by simpa using ha), ih,
        List.filter_cons_of_pos (by simpa using ha)]
    · rw [List.filter_cons_of_neg (by simpa using ha), ih,
        List.filter_cons_of_neg (by simpa using ha)]

theorem sortDesc_spec (key : ExecResult → WithBot ℚ) (l : List ExecResult) :
    (sortDesc key l).Perm l ∧ (sortDesc key l).Pairwise (fun a b => key b ≤ key a) ∧
      ∀ k, (sortDesc key l).filter (fun r => key r = k) = l.filter (fun r => key r = k) := by
  have : Std.Total (α := ExecResult) (fun a b => key b ≤ key a) := ⟨fun a b => le_total (key b) (key a)⟩
  have : IsTrans ExecResult (fun a b => key b ≤ key a) := ⟨fun a b c h1 h2 => le_trans h2 h1⟩
  exact ⟨List.perm_insertionSort _ l, List.pairwise_insertionSort _ l,
    fun k => filter_insertionSort k l⟩

/-- With a position limit set, the results of a bar are placed by non-increasing
score, every result once, those of equal score in signal order; without one they
are placed in signal order.  A NaN score ranks below every number. -/
theorem score_order (limit : Option Nat) (l : List ExecResult) :
    (limit = none → placeOrderOf limit ExecResult.buyKey l = l ∧
      placeOrderOf limit ExecResult.sellKey l = l) ∧
    (limit ≠ none →
      ((placeOrderOf limit ExecResult.buyKey l).Perm l ∧
        (placeOrderOf limit ExecResult.buyKey l).Pairwise (fun a b => buyScore b ≤ buyScore a) ∧
        ∀ k, (placeOrderOf limit ExecResult.buyKey l).filter (fun r => buyScore r = k) =
          l.filter (fun r => buyScore r = k)) ∧
      ((placeOrderOf limit ExecResult.sellKey l).Perm l ∧
        (placeOrderOf limit ExecResult.sellKey l).Pairwise
          (fun a b => sellScore b ≤ sellScore a) ∧
        ∀ k, (placeOrderOf limit ExecResult.sellKey l).filter (fun r => sellScore r = k) =
          l.filter (fun r => sellScore r = k))) := by
  refine ⟨?_, ?_⟩
  · rintro rfl; exact ⟨rfl, rfl⟩
  · intro h
    cases limit with
    | none => exact absurd rfl h
    | some n =>
      refine ⟨?_, ?_⟩
      · rw [buyKey_eq]; exact sortDesc_spec buyScore l
      · rw [sellKey_eq]; exact sortDesc_spec sellScore l

/-- `l` is the list `rs` in placing order: as it is without a position limit, and with
one by non-increasing score, ties in signal order. -/
def Spec.PlacingOrder (limit : Option Nat) (score : ExecResult → WithBot ℚ) (rs l : List ExecResult) :
    Prop :=
  l.Perm rs ∧ (limit = none → l = rs) ∧
    (limit ≠ none → l.Pairwise (fun a b => score b ≤ score a) ∧
      ∀ k, l.filter (fun r => score r = k) = rs.filter (fun r => score r = k))

/-- On a bar the stops are checked first; then the scheduled covers are placed one after
the other, then the sells, then the buys, each by its own score (buy score for covers
and buys, sell score for sells); the orders waiting from earlier bars come last. -/
theorem bar_execution_order {cfg : Config} {env : BarEnv} {s s' : Loop}
    (h : barOrders cfg env s = .ok s') :
    ∃ pf s1 s2 s3 covers sells buys, checkStops cfg s.pf env.date env.stop = .ok pf ∧
      PlacingOrder cfg.maxLong buyScore (s.covers.on env.date) covers ∧
      foldB (placeBuy cfg env) { s with pf := pf } covers = .ok s1 ∧
      PlacingOrder cfg.maxShort sellScore (s1.sells.on env.date) sells ∧
      foldB (placeSell cfg env) { s1 with covers := s1.covers.drop env.date } sells = .ok s2 ∧
      PlacingOrder cfg.maxLong buyScore (s2.buys.on env.date) buys ∧
      foldB (placeBuy cfg env) { s2 with sells := s2.sells.drop env.date } buys = .ok s3 ∧
      processPersistent cfg env { s3 with buys := s3.buys.drop env.date } = .ok s' := by
  have ord : ∀ (limit : Option Nat) (l : List ExecResult),
      PlacingOrder limit buyScore l (placeOrderOf limit ExecResult.buyKey l) ∧
      PlacingOrder limit sellScore l (placeOrderOf limit ExecResult.sellKey l) := by
    intro limit l
    obtain ⟨h1, h2⟩ := score_order limit l
    rcases hl : limit with _ | n
    · obtain ⟨e1, e2⟩ := h1 hl
      rw [hl] at e1 e2
      rw [e1, e2]
      exact ⟨⟨List.Perm.refl _, fun _ => rfl, fun h => absurd rfl h⟩,
        ⟨List.Perm.refl _, fun _ => rfl, fun h => absurd rfl h⟩⟩
    · obtain ⟨e1, e2⟩ := h2 (by rw [hl]; simp)
      rw [hl] at e1 e2
      exact ⟨⟨e1.1, fun h => (nomatch h), fun _ => e1.2⟩, ⟨e2.1, fun h => (nomatch h), fun _ => e2.2⟩⟩
  unfold barOrders at h
  simp only [bind, Except.bind] at h
  rcases h1 : checkStops cfg s.pf env.date env.stop with e | pf
  · rw [h1] at h; cases h
  rw [h1] at h
  simp only [liftE] at h
  rcases h2 : foldB (placeBuy cfg env) { s with pf := pf }
      (placeOrderOf cfg.maxLong ExecResult.buyKey (s.covers.on env.date)) with e | s1
  · simp only [placeCovers, h2, Except.map] at h; cases h
  simp only [placeCovers, h2, Except.map] at h
  rcases h3 : foldB (placeSell cfg env) { s1 with covers := s1.covers.drop env.date }
      (placeOrderOf cfg.maxShort ExecResult.sellKey (s1.sells.on env.date)) with e | s2
  · simp only [placeSells, h3, Except.map] at h; cases h
  simp only [placeSells, h3, Except.map] at h
  rcases h4 : foldB (placeBuy cfg env) { s2 with sells := s2.sells.drop env.date }
      (placeOrderOf cfg.maxLong ExecResult.buyKey (s2.buys.on env.date)) with e | s3
  · simp only [placeBuys, h4, Except.map] at h; cases h
  simp only [placeBuys, h4, Except.map] at h
  exact ⟨pf, s1, s2, s3, _, _, _, rfl, (ord _ _).1, h2, (ord _ _).2, h3, (ord _ _).1, h4, h⟩

/-! ## C72: a backtest as a history of calls -/

theorem mem_signalsOf {b : BarIn} {r : ExecResult} (h : r ∈ signalsOf b) : r ∈ b.results := by
  unfold signalsOf coverResults buyResults sellResults at h
  simp only [List.mem_append] at h
  rcases h with h | h | h
  all_goals exact List.mem_of_mem_filter h

/-- The portfolio of a backtest is the result of one history of calls: before the
bars of a window, positions in symbols it does not select are closed; then bar by
bar: stops, orders dated on the bar, created before it and of a symbol with a bar
on it, each carrying out what a result asked for, capture, cancellations, forced exits, bar counts.  The history meets the hypotheses of the portfolio
theorems, so they hold of every backtest.  Without fractional shares all its orders ask for whole
numbers of shares. -/
theorem backtest_history {HB : Sym → Date → Prop} {cfg : Config}
    {ws : List (Window × List BarIn)} (hr : RunOK HB ws)
    (hfit : ∀ r ∈ signals ws, ResultFit r) (hfresh : FreshStops ws) {s : Loop}
    (h : runWindows cfg ws = .ok s) :
    ∃ hist, List.Forall₂ (WindowCalls (AskedIn ws) cfg) ws hist ∧
      run cfg (allCalls hist) = .ok s.pf ∧ (∀ op ∈ allCalls hist, op.Fit) ∧
      FreshIds (allCalls hist) ∧ (cfg.fractional = false → ∀ op ∈ allCalls hist, op.Whole) := by
  obtain ⟨d, hd⟩ := exists_after (barDates ws)
  obtain ⟨D0, _, hD0⟩ := start_before hr hd
  have hinit : Hist (AskedIn ws) cfg [] [] { pf := Portfolio.init cfg } :=
    ⟨rfl, fun _ h => (nomatch h), fun _ h => (nomatch h), List.nodup_nil, fun _ h => (nomatch h),
      fun _ _ h => (nomatch h), fun _ h => (nomatch h)⟩
  obtain ⟨_, _, hist, _, _, hf, hh, _⟩ := windows_hist hr.window hr.bar
    (List.pairwise_cons.2 ⟨hD0, hr.forward⟩) (LoopInv.init HB cfg D0) hinit
    (fun _ h => (nomatch h)) hfit (fun x hx b hb r hr p hp => ⟨x, hx, b, hb, r, mem_signalsOf hr, hp⟩)
    (by
      rw [List.nil_append]
      exact hfresh) h
  rw [List.nil_append] at hh
  refine ⟨hist, hf, hh.run, hh.fit, ?_, hh.whole⟩
  exact List.Sublist.nodup (List.sublist_append_left _ _) hh.nodup

/-! ## A concrete run

Two symbols with bars on the dates 1 to 5, in two windows.  AAA is bought on bar 2
and sold out by an exit for more than is held; a limit sale of BBB with timeout 1
is attempted on bars 2 and 3 and expires on bar 4; a buy signalled on the last bar
of the first window executes in the second. -/

namespace Demo

/-- Both symbols have a bar on every date from 1 to 5. -/
def btBars (sym : Sym) (d : Date) : Prop := (sym = "AAA" ∨ sym = "BBB") ∧ 1 ≤ d ∧ d ≤ 5

def btHas (d : Date) (sym : Sym) : Bool := (sym == "AAA" || sym == "BBB") && (1 ≤ d && d ≤ 5)

def btCfg : Config := { cash := 10000, maxLong := some 2 }

def btW1 : Window :=
  { dates := fun sym => if sym = "AAA" ∨ sym = "BBB" then [1, 2, 3] else []
    master := some (fun sym => if sym = "AAA" ∨ sym = "BBB" then [1, 2, 3, 4, 5] else [])
    buyDelay := 1, sellDelay := 1 }

def btW2 : Window :=
  { dates := fun sym => if sym = "AAA" ∨ sym = "BBB" then [4, 5] else []
    master := some (fun sym => if sym = "AAA" ∨ sym = "BBB" then [1, 2, 3, 4, 5] else [])
    buyDelay := 1, sellDelay := 1 }

def btEnv (d : Date) (i : Nat) : BarEnv :=
  { date := d, endIndex := fun _ => i, hasBarOn := btHas d,
    fetch := fun sym _ => if sym = "AAA" then some 100 else some 20
    stop := { canPrice := fun _ => true, fetchFloat := fun _ _ => some 100,
              fetch := fun _ _ => some 100 }
    quote := quote }

def btStop : Stop := { lossStop with id := 7 }

def btBuy : ExecResult :=
  { symbol := "AAA", date := 1, buyShares := some 10, longStops := [btStop] }

def btSell : ExecResult :=
  { symbol := "BBB", date := 1, sellShares := some 5, sellLimit := some 30, sellTimeout := some 1 }

def btExit : ExecResult :=
  { symbol := "AAA", date := 2, sellShares := some 50, exitPos := some .long }

def btLate : ExecResult := { symbol := "AAA", date := 3, buyShares := some 3 }

def btDays1 : List BarIn :=
  [ { env := btEnv 1 1, results := [btBuy, btSell] },
    { env := btEnv 2 2, results := [btExit] },
    { env := btEnv 3 3, results := [btLate] } ]

def btDays2 : List BarIn :=
  [ { env := btEnv 4 1 }, { env := btEnv 5 2, exits := [⟨"AAA", 100, 100⟩] } ]

def btWs1 : List (Window × List BarIn) := [(btW1, btDays1)]
def btWs : List (Window × List BarIn) := [(btW1, btDays1), (btW2, btDays2)]

def okB {α : Type} (d : α) : Except BErr α → α
  | .ok a => a
  | .error _ => d

def isOkB {α : Type} : Except BErr α → Bool
  | .ok _ => true
  | .error _ => false

theorem ok_okB {α : Type} {d : α} {x : Except BErr α} (h : isOkB x = true) :
    x = .ok (okB d x) := by
  cases x with
  | ok a => rfl
  | error e => cases h

def bt1 : Loop := okB { pf := Portfolio.init btCfg } (runWindows btCfg btWs1)
def bt : Loop := okB { pf := Portfolio.init btCfg } (runWindows btCfg btWs)
def bt4 : Loop := okB { pf := Portfolio.init btCfg } (barOrders btCfg (btEnv 4 1) bt1)

theorem run_bt1 : runWindows btCfg btWs1 = .ok bt1 := ok_okB (by decide +kernel)
theorem run_bt : runWindows btCfg btWs = .ok bt := ok_okB (by decide +kernel)
theorem run_bt4 : barOrders btCfg (btEnv 4 1) bt1 = .ok bt4 := ok_okB (by decide +kernel)

theorem btHas_iff (d : Date) (sym : Sym) : btHas d sym = true ↔ btBars sym d := by
  simp [btHas, btBars]

theorem btW1_ok : WindowOK btBars btW1 where
  sorted sym := by unfold btW1; dsimp only; split <;> decide
  bars sym d hd := by
    unfold btW1 at hd
    dsimp only at hd
    split at hd
    · rename_i h
      refine ⟨h, ?_⟩
      fin_cases hd <;> decide
    · cases hd
  master f hf sym := by
    have := Option.some.inj hf
    subst this
    dsimp only
    split <;> decide
  boundary := fun _ h => (nomatch h)
  buyDelay := by decide
  sellDelay := by decide

theorem btW2_ok : WindowOK btBars btW2 where
  sorted sym := by unfold btW2; dsimp only; split <;> decide
  bars sym d hd := by
    unfold btW2 at hd
    dsimp only at hd
    split at hd
    · rename_i h
      refine ⟨h, ?_⟩
      fin_cases hd <;> decide
    · cases hd
  master f hf sym := by
    have := Option.some.inj hf
    subst this
    dsimp only
    split <;> decide
  boundary := fun _ h => (nomatch h)
  buyDelay := by decide
  sellDelay := by decide

theorem btDays1_ok : ∀ b ∈ btDays1, BarOK btBars btW1 b := by
  intro b hb
  fin_cases hb <;> exact ⟨fun sym => btHas_iff _ sym, by decide⟩

theorem btDays2_ok : ∀ b ∈ btDays2, BarOK btBars btW2 b := by
  intro b hb
  fin_cases hb <;> exact ⟨fun sym => btHas_iff _ sym, by decide⟩

theorem btWs1_ok : RunOK btBars btWs1 where
  window x hx := by fin_cases hx; exact btW1_ok
  bar x hx := by fin_cases hx; exact btDays1_ok
  forward := by decide

theorem btWs_ok : RunOK btBars btWs where
  window x hx := by
    fin_cases hx
    · exact btW1_ok
    · exact btW2_ok
  bar x hx := by
    fin_cases hx
    · exact btDays1_ok
    · exact btDays2_ok
  forward := by decide

end Demo

/-! ### The theorems on the concrete run -/

/-- Attempts of the run: id, side, date, shares filled. -/
example : Demo.bt.attempts.map (fun a => (a.order.id, a.order.side, a.date,
    a.filled.map Order.shares)) =
    [(2, .sell, 2, none), (1, .buy, 2, some 10), (3, .sell, 3, some 10), (2, .sell, 3, none),
     (4, .buy, 4, some 3)] := by decide +kernel

example := order_delay Demo.btW1_ok (endIndex := fun _ => 3) (now := 3) (delay := 1)
  (le_refl 1) (r := Demo.btLate) (i := 2) rfl rfl (pend := {}) (sched := []) rfl

example := signals_become_orders (cfg := Demo.btCfg) (s := Demo.bt1) Demo.btW1_ok
  (b := { env := Demo.btEnv 1 1, results := [Demo.btBuy, Demo.btSell] })
  (Demo.btDays1_ok _ (by simp [Demo.btDays1])) (by decide)
  (Demo.ok_okB (d := Demo.bt1) (by decide +kernel))

example := attempts_after_signal Demo.btWs_ok Demo.run_bt

example := attempts_bounded Demo.btWs_ok Demo.run_bt

example := due_orders_attempted Demo.btWs1_ok Demo.run_bt1 (env := Demo.btEnv 4 1)
  (Demo.btHas_iff 4) (by decide) Demo.run_bt4

/-- Before bar 4 the limit sale and the late buy are pending, after it neither is. -/
example : Demo.bt1.pend.orders.map PendingOrder.id = [2, 4] ∧ Demo.bt4.pend.orders = [] := by
  decide +kernel

/-- Two pending orders are processed sell first although the buy was created first. -/
def Demo.btPend : Loop :=
  let q : PendingReq :=
    { side := .buy, symbol := "AAA", created := 1, execDate := 2, shares := 1, limit := some 50,
      fill := .price .middle, execBar := 2, timeout := some 3, stops := [], exitPos := none }
  { pf := Portfolio.init Demo.btCfg
    pend := ((({} : PendingScope).add q).2.add
      { q with side := .sell, symbol := "BBB", limit := some 30 }).2 }

example := pending_priority_partial (cfg := Demo.btCfg) (env := Demo.btEnv 2 2) (s := Demo.btPend)
  (Demo.ok_okB (d := Demo.btPend) (by decide +kernel))

example : (Demo.okB Demo.btPend (processPersistent Demo.btCfg (Demo.btEnv 2 2) Demo.btPend)).attempts.map
    (fun a => a.order.id) = [2, 1] := by decide +kernel

/-- A partial cover (`cover_shares`) is a cover when it is scheduled, but once it is
retried it comes after a sell that was created later: the priority of the English
property, and of the docstring of the code, is lost. -/
def Demo.coverWs : List (Window × List BarIn) :=
  [(Demo.btW1,
    [ { env := Demo.btEnv 1 1
        results := [{ symbol := "BBB", date := 1, sellShares := some 20 }] },
      { env := Demo.btEnv 2 2
        results := [{ symbol := "BBB", date := 2, buyShares := some 5, buyLimit := some 10,
                      buyTimeout := some 3, cover := true },
                    { symbol := "AAA", date := 2, sellShares := some 1, sellLimit := some 200,
                      sellTimeout := some 3 }] },
      { env := Demo.btEnv 3 3 } ]),
   (Demo.btW2, [ { env := Demo.btEnv 4 1 } ])]

theorem cover_retry_after_sell :
    (Demo.okB Demo.bt (runWindows Demo.btCfg Demo.coverWs)).attempts.map
      (fun a => (a.date, a.order.id, a.order.side)) =
      [(2, 1, .sell), (3, 2, .buy), (3, 3, .sell), (4, 3, .sell), (4, 2, .buy)] := by
  decide +kernel

/-- The exit of the concrete run asks for 50 shares and sells the 10 held. -/
def Demo.btHist : List Op := [.buy { date := 2, symbol := "AAA", shares := 10, fill := 100 }]
def Demo.btHeld : Portfolio := Demo.okD (Portfolio.init Demo.btCfg) (run Demo.btCfg Demo.btHist)
def Demo.btOrder : PendingOrder :=
  { id := 3, side := .sell, symbol := "AAA", created := 2, execDate := 3, shares := 50,
    limit := none, fill := .price .middle, execBar := 3, timeout := none, stops := [],
    exitPos := some .long }
def Demo.btOut : Option Order × Portfolio :=
  Demo.okB (none, Demo.btHeld) (attemptOrder Demo.btCfg (Demo.btEnv 3 3) Demo.btHeld Demo.btOrder)

example := exit_long_never_shorts (cfg := Demo.btCfg) (ops := Demo.btHist) (pf := Demo.btHeld)
  (pf' := Demo.btOut.2) (o := Demo.btOut.1) (env := Demo.btEnv 3 3) (p := Demo.btOrder)
  (by simp [Demo.btHist, Op.Fit]) (Demo.ok_okD (by decide +kernel)) rfl rfl
  (Demo.ok_okB (by decide +kernel))

example : Demo.btOut.1.map Order.shares = some 10 := by decide +kernel

def Demo.btHist2 : List Op := [.sell { date := 2, symbol := "AAA", shares := 10, fill := 100 }]
def Demo.btHeld2 : Portfolio := Demo.okD (Portfolio.init Demo.btCfg) (run Demo.btCfg Demo.btHist2)
def Demo.btOrder2 : PendingOrder := { Demo.btOrder with side := .buy, exitPos := some .short }
def Demo.btOut2 : Option Order × Portfolio :=
  Demo.okB (none, Demo.btHeld2)
    (attemptOrder Demo.btCfg (Demo.btEnv 3 3) Demo.btHeld2 Demo.btOrder2)

example := exit_short_never_buys (cfg := Demo.btCfg) (ops := Demo.btHist2) (pf := Demo.btHeld2)
  (pf' := Demo.btOut2.2) (o := Demo.btOut2.1) (env := Demo.btEnv 3 3) (p := Demo.btOrder2)
  (by simp [Demo.btHist2, Op.Fit]) (Demo.ok_okD (by decide +kernel)) rfl rfl
  (Demo.ok_okB (by decide +kernel))

example : Demo.btOut2.1.map Order.shares = some 10 := by decide +kernel

/-- Four results: NaN goes last, an unset score counts as zero, ties keep their order. -/
example : (placeOrderOf (some 1) ExecResult.buyKey
    [ { symbol := "A", date := 1, score := some none },
      { symbol := "B", date := 1 },
      { symbol := "C", date := 1, score := some (some 2) },
      { symbol := "D", date := 1, longScore := some (some 0), score := some (some 9) } ]).map
        ExecResult.symbol = ["C", "B", "D", "A"] := by decide +kernel

example := backtest_history Demo.btWs_ok
  (by unfold ResultFit; decide) (by unfold FreshStops; decide) Demo.run_bt

end PyBroker
