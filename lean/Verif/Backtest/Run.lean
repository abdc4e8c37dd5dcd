import Verif.Backtest.Loop
import Verif.Spec.Backtest

/-!
# Attempts of a whole run (helper lemmas)
-/

namespace PyBroker

open PyBroker.Spec

/-! ## Scheduling -/

theorem execDate_window {dates : List Date} {master : Option (List Date)} {endIndex delay : Nat}
    {d : Date} (h : execDate dates master endIndex delay = some (d, true)) :
    dates[endIndex - 1 + delay]? = some d := by
  unfold execDate at h
  split at h
  · rename_i d' hd
    have := (Prod.mk.inj (Option.some.inj h)).1
    rw [hd, this]
  · split at h
    · rcases Option.eq_none_or_eq_some (nextMasterDate _ _ delay) with h0 | ⟨x, hx⟩
      · rw [h0] at h; cases h
      · rw [hx] at h
        cases h
    · cases h

theorem nextMaster_later {ms : List Date} (hs : ms.Pairwise (· < ·)) {curr : Date} {delay : Nat}
    (hd : 1 ≤ delay) {d : Date} (h : nextMasterDate ms curr delay = some d) : curr < d := by
  unfold nextMasterDate at h
  simp only at h
  split at h
  · cases h
  · rename_i hloc
    have hloc := not_not.1 hloc
    obtain ⟨h1, e1⟩ := List.getElem?_eq_some_iff.1 hloc
    obtain ⟨h2, e2⟩ := List.getElem?_eq_some_iff.1 h
    rw [← e1, ← e2]
    exact List.pairwise_iff_getElem.1 hs _ _ h1 h2 (by omega)

theorem execDate_later {dates : List Date} {master : Option (List Date)} {endIndex delay : Nat}
    (hs : dates.Pairwise (· < ·)) (hm : ∀ ms, master = some ms → ms.Pairwise (· < ·))
    (hd : 1 ≤ delay) {curr d : Date} {w : Bool} (hc : dates[endIndex - 1]? = some curr)
    (h : execDate dates master endIndex delay = some (d, w)) : curr < d := by
  unfold execDate at h
  split at h
  · rename_i d' hd'
    have := (Prod.mk.inj (Option.some.inj h)).1
    subst this
    obtain ⟨h1, e1⟩ := List.getElem?_eq_some_iff.1 hc
    obtain ⟨h2, e2⟩ := List.getElem?_eq_some_iff.1 hd'
    rw [← e1, ← e2]
    exact List.pairwise_iff_getElem.1 hs _ _ h1 h2 (by omega)
  · split at h
    · rename_i ms curr' hc'
      rw [hc] at hc'
      have := Option.some.inj hc'
      subst this
      rcases Option.eq_none_or_eq_some (nextMasterDate ms curr delay) with h0 | ⟨x, hx⟩
      · rw [h0] at h; cases h
      · rw [hx] at h
        have := (Prod.mk.inj (Option.some.inj h)).1
        subst this
        exact nextMaster_later (hm _ rfl) hd hx
    · cases h

theorem request_facts {r : ExecResult} {created exec : Date} {n : Nat} {q : PendingReq}
    (h : r.request created exec n = .ok q) :
    q.symbol = r.symbol ∧ q.created = created ∧ q.execDate = exec := by
  unfold ExecResult.request at h
  split at h
  · have he := Except.ok.inj h; subst he; exact ⟨rfl, rfl, rfl⟩
  · have he := Except.ok.inj h; subst he; exact ⟨rfl, rfl, rfl⟩
  · cases h

/-- What `_schedule_order` did. -/
theorem scheduleOrder_cases {w : Window} {endIndex : Sym → Nat} {created : Date} {delay : Nat}
    {pend pend' : PendingScope} {sched sched' : Sched} {r : ExecResult}
    (h : scheduleOrder w endIndex created delay pend sched r = .ok (pend', sched')) :
    (pend' = pend ∧ sched' = sched ∧ execDate (w.dates r.symbol)
      (w.master.map (fun m => m r.symbol)) (endIndex r.symbol) delay = none) ∨
    ∃ d inW q, execDate (w.dates r.symbol) (w.master.map (fun m => m r.symbol))
        (endIndex r.symbol) delay = some (d, inW) ∧
      r.request created d (endIndex r.symbol + delay) = .ok q ∧
      pend' = (pend.add q).2 ∧
      sched' = if inW then sched ++ [(d, { r with pendingId := some (pend.add q).1 })]
        else sched := by
  unfold scheduleOrder at h
  split at h
  · rename_i h0
    have he := Except.ok.inj h
    left
    exact ⟨(Prod.mk.inj he).1.symm, (Prod.mk.inj he).2.symm, h0⟩
  · rename_i d inW h0
    split at h
    · cases h
    · rename_i q hq
      have he := Except.ok.inj h
      right
      exact ⟨d, inW, q, h0, hq, (Prod.mk.inj he).1.symm, (Prod.mk.inj he).2.symm⟩

/-! ## The invariant between bars -/

/-- The schedules agree with the registry. -/
structure SchedOK (HB : Sym → Date → Prop) (m : PendingMap) (l : Sched) : Prop where
  entry : ∀ e ∈ l, ∃ id, e.2.pendingId = some id ∧ id ≤ m.created ∧
    ∀ x ∈ m.live, x.order.id = id → x.order.execDate = e.1 ∧ HB x.order.symbol e.1
  nodup : (l.map (fun e => e.2.pendingId)).Nodup

/-- The invariant between bars. -/
structure LoopInv (HB : Sym → Date → Prop) (D : Date) (s : Loop) (m : PendingMap) : Prop where
  ref : Refines s.pend m
  track : Track HB D m s.attempts
  sched : SchedOK HB m (s.covers ++ (s.sells ++ s.buys))

theorem SchedOK.sub {HB : Sym → Date → Prop} {m m' : PendingMap} {l : Sched}
    (h : SchedOK HB m l) (hc : m.created ≤ m'.created)
    (hm : ∀ y ∈ m'.live, y.order.id ≤ m.created → ∃ z ∈ m.live, z.order = y.order) :
    SchedOK HB m' l := by
  refine ⟨?_, h.nodup⟩
  intro e he
  obtain ⟨id, h1, h2, h3⟩ := h.entry e he
  refine ⟨id, h1, le_trans h2 hc, ?_⟩
  intro y hy hid
  obtain ⟨z, hz, hzo⟩ := hm y hy (by omega)
  rw [← hzo] at hid ⊢
  exact h3 z hz hid

theorem SchedOK.sublist {HB : Sym → Date → Prop} {m : PendingMap} {l l' : Sched}
    (h : SchedOK HB m l) (hl : l'.Sublist l) : SchedOK HB m l' :=
  ⟨fun e he => h.entry e (hl.subset he), (hl.map _).nodup h.nodup⟩

theorem SchedOK.perm {HB : Sym → Date → Prop} {m : PendingMap} {l l' : Sched}
    (h : SchedOK HB m l) (hl : l.Perm l') : SchedOK HB m l' :=
  ⟨fun e he => h.entry e (hl.mem_iff.2 he), (hl.map _).nodup_iff.1 h.nodup⟩

/-- The results scheduled for a date meet the placement invariant. -/
theorem LoopInv.placing {HB : Sym → Date → Prop} {D D' : Date} {s : Loop} {m : PendingMap}
    (h : LoopInv HB D s m) (hd : D < D') :
    Placing HB D' s.pend.orders (s.covers.on D' ++ (s.sells.on D' ++ s.buys.on D')) s m := by
  have hon : s.covers.on D' ++ (s.sells.on D' ++ s.buys.on D') =
      Sched.on (s.covers ++ (s.sells ++ s.buys)) D' := by
    unfold Sched.on
    simp [List.filter_append]
  have hold : ∀ a ∈ s.attempts, a.date < D' :=
    fun a ha => lt_of_le_of_lt (h.track.bound a ha).2.2.2.1 hd
  refine ⟨h.ref, h.track.mono (le_of_lt hd), ?_, ?_, ?_, ?_⟩
  · intro a ha e
    exact absurd e (ne_of_lt (hold a ha))
  · rw [hon]
    intro r hr
    obtain ⟨e, he, rfl⟩ := List.mem_map.1 hr
    obtain ⟨he1, he2⟩ := List.mem_filter.1 he
    have he2 : e.1 = D' := by simpa using he2
    obtain ⟨id, h1, h2, h3⟩ := h.sched.entry e he1
    refine ⟨id, h1, h2, fun a ha _ => hold a ha, ?_⟩
    rw [he2] at h3
    exact h3
  · rw [hon]
    have : (Sched.on (s.covers ++ (s.sells ++ s.buys)) D').map ExecResult.pendingId =
        ((s.covers ++ (s.sells ++ s.buys)).filter (fun x => x.1 = D')).map
          (fun e => e.2.pendingId) := by
      unfold Sched.on
      rw [List.map_map]
      rfl
    rw [this]
    exact (List.filter_sublist.map _).nodup h.sched.nodup
  · intro p hp
    left
    rw [h.ref.orders] at hp
    obtain ⟨x, hx, rfl⟩ := List.mem_map.1 hp
    exact ⟨x, hx, rfl⟩

theorem map_ok {α β : Type} {x : Except BErr α} {f : α → β} {b : β} (h : x.map f = .ok b) :
    ∃ a, x = .ok a ∧ b = f a := by
  cases x with
  | error e => cases h
  | ok a => exact ⟨a, rfl, (Except.ok.inj h).symm⟩

theorem bind_ok {α β : Type} {x : Except BErr α} {f : α → Except BErr β} {b : β}
    (h : x >>= f = .ok b) : ∃ a, x = .ok a ∧ f a = .ok b := by
  cases x with
  | error e => cases h
  | ok a => exact ⟨a, rfl, h⟩

/-- Changing what the placement invariant does not read. -/
theorem Placing.change {HB : Sym → Date → Prop} {D' : Date} {start : List PendingOrder}
    {rem : List ExecResult} {s s' : Loop} {m : PendingMap} (h : Placing HB D' start rem s m)
    (h1 : s'.pend = s.pend) (h2 : s'.attempts = s.attempts) : Placing HB D' start rem s' m :=
  ⟨by rw [h1]; exact h.ref, by rw [h2]; exact h.track, by rw [h2]; exact h.hist,
    by rw [h2]; exact h.todo, h.nodup, by rw [h2]; exact h.kept⟩

/-! ### How the registry shrinks -/

/-- The pending orders of `s'` are some of those of `s`, and no id was handed out. -/
def Shrinks (s s' : PendingScope) : Prop :=
  s'.nextId = s.nextId ∧ s'.orders.Sublist s.orders

theorem Shrinks.refl (s : PendingScope) : Shrinks s s := ⟨rfl, List.Sublist.refl _⟩

theorem Shrinks.trans {a b c : PendingScope} (h1 : Shrinks a b) (h2 : Shrinks b c) :
    Shrinks a c := ⟨h2.1.trans h1.1, h2.2.trans h1.2⟩

theorem remove_shrinks (s : PendingScope) (id : Nat) : Shrinks s (s.remove id).2 := by
  unfold PendingScope.remove
  split
  · exact Shrinks.refl s
  · exact ⟨rfl, List.filter_sublist⟩

theorem mark_shrinks (s : PendingScope) (id : Nat) : Shrinks s (s.markAttempted id) := by
  unfold PendingScope.markAttempted
  exact ⟨rfl, List.Sublist.refl _⟩

theorem advance_shrinks (s : PendingScope) (id : Nat) : Shrinks s (s.advanceRetry id) := by
  unfold PendingScope.advanceRetry
  split
  · exact ⟨rfl, List.Sublist.refl _⟩
  · exact Shrinks.refl s

theorem removeIds_shrinks (ids : List Nat) : ∀ s : PendingScope, Shrinks s (s.removeIds ids) := by
  induction ids with
  | nil => intro s; exact Shrinks.refl s
  | cons id ids ih =>
    intro s
    exact (remove_shrinks s id).trans (ih _)

theorem attemptStep_shrinks {cfg : Config} {env : BarEnv} {s s' : Loop} {p : PendingOrder}
    (h : attemptStep cfg env s p = .ok s') : Shrinks s.pend s'.pend := by
  obtain ⟨o, _, _, _, _, _, h6⟩ := attemptStep_facts h
  rw [h6]
  split
  · exact (mark_shrinks _ _).trans (remove_shrinks _ _)
  · exact mark_shrinks _ _

theorem placeBuy_shrinks {cfg : Config} {env : BarEnv} {s s' : Loop} {r : ExecResult}
    (h : placeBuy cfg env s r = .ok s') : Shrinks s.pend s'.pend := by
  unfold placeBuy at h
  split at h
  · have he := Except.ok.inj h; subst he; exact Shrinks.refl _
  · split at h
    · have he := Except.ok.inj h; subst he; exact Shrinks.refl _
    · split at h
      · have he := Except.ok.inj h; subst he; exact Shrinks.refl _
      · exact attemptStep_shrinks h

theorem placeSell_shrinks {cfg : Config} {env : BarEnv} {s s' : Loop} {r : ExecResult}
    (h : placeSell cfg env s r = .ok s') : Shrinks s.pend s'.pend := by
  unfold placeSell at h
  split at h
  · have he := Except.ok.inj h; subst he; exact Shrinks.refl _
  · split at h
    · have he := Except.ok.inj h; subst he; exact Shrinks.refl _
    · split at h
      · have he := Except.ok.inj h; subst he; exact Shrinks.refl _
      · exact attemptStep_shrinks h

theorem processOne_shrinks {cfg : Config} {env : BarEnv} {s s' : Loop} {p : PendingOrder}
    (h : processOne cfg env s p = .ok s') : Shrinks s.pend s'.pend := by
  unfold processOne at h
  simp only at h
  split at h
  · have he := Except.ok.inj h; subst he; exact Shrinks.refl _
  · split at h
    · have he := Except.ok.inj h; subst he; exact Shrinks.refl _
    · split at h
      · have he := Except.ok.inj h; subst he; exact Shrinks.refl _
      · split at h
        · exact attemptStep_shrinks h
        · split at h
          · have he := Except.ok.inj h; subst he; exact Shrinks.refl _
          · split at h
            · have he := Except.ok.inj h; subst he
              exact (advance_shrinks _ _).trans (remove_shrinks _ _)
            · exact (advance_shrinks _ _).trans (attemptStep_shrinks h)

theorem foldB_shrinks {α : Type} {f : Loop → α → Except BErr Loop}
    (hf : ∀ s a s', f s a = .ok s' → Shrinks s.pend s'.pend) {l : List α} {s s' : Loop}
    (h : foldB f s l = .ok s') : Shrinks s.pend s'.pend :=
  foldB_inv (I := fun t => Shrinks s.pend t.pend) (fun b a b' _ hb hs => hb.trans (hf b a b' hs))
    (Shrinks.refl _) h

/-- The schedules stay consistent when the registry shrinks and entries go. -/
theorem SchedOK.shrink {HB : Sym → Date → Prop} {s s' : PendingScope} {m m' : PendingMap}
    {l l' : Sched} (h : SchedOK HB m l) (hr : Refines s m) (hr' : Refines s' m')
    (hs : Shrinks s s') (hl : l'.Sublist l) : SchedOK HB m' l' := by
  refine (h.sub (m' := m') (le_of_eq ?_) ?_).sublist hl
  · rw [← hr.next, ← hr'.next, hs.1]
  · intro y hy _
    have := hs.2.subset (a := y.order) (by rw [hr'.orders]; exact List.mem_map.2 ⟨y, hy, rfl⟩)
    rw [hr.orders] at this
    obtain ⟨z, hz, hzo⟩ := List.mem_map.1 this
    exact ⟨z, hz, hzo⟩

/-! ### The orders of a bar -/

/-- The scheduled phase and the persistent phase of a bar. -/
theorem barOrders_inv {HB : Sym → Date → Prop} {cfg : Config} {env : BarEnv} {D : Date}
    {s s' : Loop} {m : PendingMap}
    (hHB : ∀ sym, env.hasBarOn sym = true ↔ HB sym env.date)
    (h : LoopInv HB D s m) (hd : D < env.date) (hs : barOrders cfg env s = .ok s') :
    ∃ m', LoopInv HB env.date s' m' ∧
      (∀ p ∈ s.pend.orders, Dealt HB env.date s' m' p) ∧ Shrinks s.pend s'.pend := by
  unfold barOrders at hs
  obtain ⟨pf, hpf, hs⟩ := bind_ok hs
  obtain ⟨s1, h1, hs⟩ := bind_ok hs
  obtain ⟨s2, h2, hs⟩ := bind_ok hs
  obtain ⟨s3, h3, hs⟩ := bind_ok hs
  have p0 : Placing HB env.date s.pend.orders
      (s.covers.on env.date ++ (s.sells.on env.date ++ s.buys.on env.date))
      { s with pf := pf } m := (h.placing hd).change rfl rfl
  -- covers
  obtain ⟨t1, ht1, rfl⟩ := map_ok h1
  have c1 := foldB_sched (fun s a s' hs => placeBuy_sched hs) ht1
  have k1 := foldB_shrinks (fun s a s' hs => placeBuy_shrinks hs) ht1
  obtain ⟨m1, p1⟩ := foldPlacing (f := placeBuy cfg env) placeBuy_placing
    (s.sells.on env.date ++ s.buys.on env.date)
    (p0.perm (List.Perm.append_right _
      (placeOrderOf_perm cfg.maxLong ExecResult.buyKey (s.covers.on env.date)).symm)) ht1
  -- sells
  obtain ⟨t2, ht2, rfl⟩ := map_ok h2
  have c2 := foldB_sched (fun s a s' hs => placeSell_sched hs) ht2
  have k2 := foldB_shrinks (fun s a s' hs => placeSell_shrinks hs) ht2
  have p1' : Placing HB env.date s.pend.orders (s.sells.on env.date ++ s.buys.on env.date)
      { t1 with covers := t1.covers.drop env.date } m1 := p1.change rfl rfl
  have e1 : t1.sells = s.sells := c1.2.2
  rw [show ({ t1 with covers := t1.covers.drop env.date } : Loop).sells.on env.date =
    s.sells.on env.date by rw [← e1]] at ht2
  obtain ⟨m2, p2⟩ := foldPlacing (f := placeSell cfg env) placeSell_placing
    (s.buys.on env.date)
    (p1'.perm (List.Perm.append_right _
      (placeOrderOf_perm cfg.maxShort ExecResult.sellKey (s.sells.on env.date)).symm)) ht2
  -- buys
  obtain ⟨t3, ht3, rfl⟩ := map_ok h3
  have c3 := foldB_sched (fun s a s' hs => placeBuy_sched hs) ht3
  have k3 := foldB_shrinks (fun s a s' hs => placeBuy_shrinks hs) ht3
  have p2' : Placing HB env.date s.pend.orders (s.buys.on env.date ++ [])
      { t2 with sells := t2.sells.drop env.date } m2 := by
    rw [List.append_nil]; exact p2.change rfl rfl
  have hb : t2.buys = s.buys := c2.2.1.trans c1.2.1
  rw [show ({ t2 with sells := t2.sells.drop env.date } : Loop).buys.on env.date =
    s.buys.on env.date by rw [← hb]] at ht3
  obtain ⟨m3, p3⟩ := foldPlacing (f := placeBuy cfg env) placeBuy_placing []
    (p2'.perm (List.Perm.append_right _
      (placeOrderOf_perm cfg.maxLong ExecResult.buyKey (s.buys.on env.date)).symm)) ht3
  -- persistent orders
  unfold processPersistent at hs
  have hperm : (sortPending t3.pend.orders).Perm t3.pend.orders := by
    unfold sortPending
    exact List.perm_insertionSort _ _
  have hq : Persisting HB env.date s.pend.orders (sortPending t3.pend.orders)
      { t3 with buys := t3.buys.drop env.date } m3 := by
    refine ⟨p3.ref, p3.track, fun a ha e => Or.inl (p3.hist a ha e), ?_, ?_, ?_⟩
    · intro p hp
      have := hperm.mem_iff.1 hp
      rw [p3.ref.orders] at this
      obtain ⟨x, hx, hxo⟩ := List.mem_map.1 this
      exact ⟨x, hx, hxo⟩
    · rw [(hperm.map _).nodup_iff, p3.ref.orders, List.Nodup, List.map_map, List.pairwise_map]
      exact p3.track.ordered.sorted.imp (fun hab => Nat.ne_of_lt hab)
    · intro p hp
      rcases p3.kept p hp with ⟨x, hx, rfl⟩ | ha
      · left
        rw [hperm.mem_iff, p3.ref.orders]
        exact List.mem_map.2 ⟨x, hx, rfl⟩
      · exact Or.inr (Or.inr (Or.inr (Or.inl ha)))
  have c4 := foldB_sched (fun s a s' hs => processOne_sched hs) hs
  have k4 := foldB_shrinks (fun s a s' hs => processOne_shrinks hs) hs
  obtain ⟨m4, q4⟩ := foldPersisting hHB hq hs
  have hshr : Shrinks s.pend s'.pend := ((Shrinks.trans k1 k2).trans k3).trans k4
  refine ⟨m4, ⟨q4.ref, q4.track, ?_⟩, ?_, hshr⟩
  · refine h.sched.shrink h.ref q4.ref hshr ?_
    have e1 : s'.covers = s.covers.drop env.date := by
      rw [c4.1]
      change t3.covers = _
      rw [c3.1]
      change t2.covers = _
      rw [c2.1]
      change t1.covers.drop _ = _
      rw [c1.1]
    have e2 : s'.sells = s.sells.drop env.date := by
      rw [c4.2.2]
      change t3.sells = _
      rw [c3.2.2]
      change t2.sells.drop _ = _
      rw [c2.2.2]
      change t1.sells.drop _ = _
      rw [c1.2.2]
    have e3 : s'.buys = s.buys.drop env.date := by
      rw [c4.2.1]
      change t3.buys.drop _ = _
      rw [c3.2.1]
      change t2.buys.drop _ = _
      rw [hb]
    rw [e1, e2, e3]
    unfold Sched.drop
    exact List.filter_sublist.append (List.filter_sublist.append List.filter_sublist)
  · intro p hp
    rcases q4.dealt p hp with h' | h'
    · cases h'
    · exact h'

/-! ### The rest of a bar -/

theorem LoopInv.change {HB : Sym → Date → Prop} {D : Date} {s s' : Loop} {m : PendingMap}
    (h : LoopInv HB D s m) (h1 : s'.pend = s.pend) (h2 : s'.attempts = s.attempts)
    (h3 : SameSched s s') : LoopInv HB D s' m :=
  ⟨by rw [h1]; exact h.ref, by rw [h2]; exact h.track,
    by rw [h3.1, h3.2.1, h3.2.2]; exact h.sched⟩

theorem keep_sub (m : PendingMap) (f : PendingOrder → Bool) :
    ∀ y ∈ (m.keep f).live, y.order.id ≤ m.created → ∃ z ∈ m.live, z.order = y.order :=
  fun y hy _ => ⟨y, List.mem_of_mem_filter hy, rfl⟩

theorem userStep_inv {HB : Sym → Date → Prop} {D : Date} {s : Loop} {m : PendingMap}
    (h : LoopInv HB D s m) (op : UserOp) : ∃ m', LoopInv HB D (userStep s op) m' := by
  cases op with
  | cancelPending id =>
    refine ⟨_, (h.ref.remove h.track.ordered id).2, h.track.keep _, h.sched.sub (le_refl _)
      (keep_sub m _)⟩
  | cancelAllPending sym =>
    refine ⟨_, h.ref.removeAll h.track.ordered sym, ?_, ?_⟩
    · cases sym with
      | none => exact h.track.keep (fun _ => false)
      | some sym => exact h.track.keep (fun o => o.symbol ≠ sym)
    · cases sym with
      | none => exact h.sched.sub (le_refl _) (keep_sub m _)
      | some sym => exact h.sched.sub (le_refl _) (keep_sub m _)
  | cancelStop id => exact ⟨m, h.change rfl rfl ⟨rfl, rfl, rfl⟩⟩
  | cancelStopsSym sym t => exact ⟨m, h.change rfl rfl ⟨rfl, rfl, rfl⟩⟩
  | cancelStopsEntry id t => exact ⟨m, h.change rfl rfl ⟨rfl, rfl, rfl⟩⟩

theorem userSteps_inv {HB : Sym → Date → Prop} {D : Date} (ops : List UserOp) :
    ∀ {s : Loop} {m : PendingMap}, LoopInv HB D s m →
      ∃ m', LoopInv HB D (ops.foldl userStep s) m' := by
  induction ops with
  | nil => intro s m h; exact ⟨m, h⟩
  | cons op ops ih =>
    intro s m h
    obtain ⟨m1, h1⟩ := userStep_inv h op
    exact ih h1

/-- A new schedule entry and its order. -/
theorem LoopInv.schedule {HB : Sym → Date → Prop} {D : Date} {s : Loop} {m : PendingMap}
    (h : LoopInv HB D s m) (q : PendingReq) (hq : q.created < q.execDate) (e : Date × ExecResult)
    (he : e.2.pendingId = some (s.pend.add q).1)
    (hex : q.execDate = e.1) (hb : HB q.symbol e.1) :
    Refines (s.pend.add q).2 (m.call (.add q)).2 ∧ Track HB D (m.call (.add q)).2 s.attempts ∧
      SchedOK HB (m.call (.add q)).2 (s.covers ++ (s.sells ++ s.buys)) ∧
      SchedOK HB (m.call (.add q)).2 (e :: (s.covers ++ (s.sells ++ s.buys))) := by
  have hc := h.ref.call h.track.ordered (.add q) (fun id e => by cases e)
  have hid : (s.pend.add q).1 = m.created + 1 := by
    have := hc.1
    simp only [PendingScope.call, PendingMap.call] at this
    injection this
  have hsub : SchedOK HB (m.call (.add q)).2 (s.covers ++ (s.sells ++ s.buys)) := by
    refine h.sched.sub (Nat.le_succ _) ?_
    intro y hy hle
    rcases List.mem_append.1 hy with hy | hy
    · exact ⟨y, hy, rfl⟩
    · rw [List.mem_singleton] at hy
      subst hy
      have : m.created + 1 ≤ m.created := hle
      omega
  refine ⟨hc.2, h.track.add q hq, hsub, ?_, ?_⟩
  · intro e' he'
    rcases List.mem_cons.1 he' with rfl | he'
    · refine ⟨m.created + 1, by rw [he, hid], le_refl _, ?_⟩
      intro x hx hxid
      rcases List.mem_append.1 hx with hx | hx
      · have := (h.track.ordered.bound x hx).2
        omega
      · rw [List.mem_singleton] at hx
        subst hx
        exact ⟨hex, hb⟩
    · exact hsub.entry e' he'
  · rw [List.map_cons, List.nodup_cons]
    refine ⟨?_, h.sched.nodup⟩
    intro hc'
    obtain ⟨e', he', heq⟩ := List.mem_map.1 hc'
    obtain ⟨id, h1, h2, _⟩ := h.sched.entry e' he'
    rw [heq, he, hid] at h1
    have := Option.some.inj h1
    omega

/-- An order that is only registered. -/
theorem LoopInv.register {HB : Sym → Date → Prop} {D : Date} {s : Loop} {m : PendingMap}
    (h : LoopInv HB D s m) (q : PendingReq) (hq : q.created < q.execDate) :
    LoopInv HB D { s with pend := (s.pend.add q).2 } (m.call (.add q)).2 := by
  have hc := h.ref.call h.track.ordered (.add q) (fun id e => by cases e)
  refine ⟨hc.2, h.track.add q hq, h.sched.sub (Nat.le_succ _) ?_⟩
  intro y hy hle
  rcases List.mem_append.1 hy with hy | hy
  · exact ⟨y, hy, rfl⟩
  · rw [List.mem_singleton] at hy
    subst hy
    have : m.created + 1 ≤ m.created := hle
    omega

/-- A step that schedules a result on one of the three schedules. -/
theorem scheduleOrder_inv {HB : Sym → Date → Prop} {D : Date} {w : Window} {endIndex : Sym → Nat}
    {created : Date} {delay : Nat} {s : Loop} {m : PendingMap} {r : ExecResult}
    (hw : WindowOK HB w) (hd : 1 ≤ delay)
    (hnow : (w.dates r.symbol)[endIndex r.symbol - 1]? = some created)
    (h : LoopInv HB D s m) {sched sched' : Sched} {pend' : PendingScope}
    (hs : scheduleOrder w endIndex created delay s.pend sched r = .ok (pend', sched')) :
    (pend' = s.pend ∧ sched' = sched) ∨
      (∃ q : PendingReq, sched' = sched ∧ pend' = (s.pend.add q).2 ∧ q.created < q.execDate) ∨
      (∃ (q : PendingReq) (e : Date × ExecResult), sched' = sched ++ [e] ∧
        pend' = (s.pend.add q).2 ∧ q.created < q.execDate ∧
        e.2.pendingId = some (s.pend.add q).1 ∧ q.execDate = e.1 ∧ HB q.symbol e.1) := by
  rcases scheduleOrder_cases hs with ⟨h1, h2, _⟩ | ⟨d, inW, q, h1, h2, h3, h4⟩
  · exact Or.inl ⟨h1, h2⟩
  · obtain ⟨q1, q2, q3⟩ := request_facts h2
    have hlt : q.created < q.execDate := by
      rw [q2, q3]
      refine execDate_later (hw.sorted _) ?_ hd hnow h1
      intro ms hms
      cases hm : w.master with
      | none => rw [hm] at hms; cases hms
      | some f =>
        rw [hm] at hms
        have := Option.some.inj hms
        subst this
        exact hw.master f hm _
    right
    cases inW with
    | false => exact Or.inl ⟨q, h4, h3, hlt⟩
    | true =>
      right
      refine ⟨q, _, h4, h3, hlt, rfl, q3, ?_⟩
      have hin := execDate_window h1
      have hmem : d ∈ w.dates r.symbol := List.mem_of_getElem? hin
      rw [q1]
      exact hw.bars _ _ hmem

theorem schedCover_inv {HB : Sym → Date → Prop} {D : Date} {w : Window} {env : BarEnv}
    {s s' : Loop} {m : PendingMap} {r : ExecResult} (hw : WindowOK HB w)
    (hnow : (w.dates r.symbol)[env.endIndex r.symbol - 1]? = some env.date)
    (h : LoopInv HB D s m) (hs : schedCover w env s r = .ok s') :
    ∃ m', LoopInv HB D s' m' := by
  obtain ⟨⟨pend', sched'⟩, h1, rfl⟩ := map_ok hs
  rcases scheduleOrder_inv hw hw.buyDelay hnow h h1 with ⟨h2, h3⟩ | ⟨q, h2, h3, h4⟩ |
    ⟨q, e, h2, h3, h4, h5, h6, h7⟩
  · exact ⟨m, h.change h2 rfl ⟨h3, rfl, rfl⟩⟩
  · exact ⟨_, (h.register q h4).change h3 rfl ⟨h2, rfl, rfl⟩⟩
  · obtain ⟨a1, a2, _, a4⟩ := h.schedule q h4 e h5 h6 h7
    refine ⟨_, by rw [h3]; exact a1, a2, a4.perm ?_⟩
    change (e :: (s.covers ++ (s.sells ++ s.buys))).Perm (sched' ++ (s.sells ++ s.buys))
    rw [h2]
    simp only [List.append_assoc, List.singleton_append]
    exact List.perm_middle.symm

theorem schedBuy_inv {HB : Sym → Date → Prop} {D : Date} {w : Window} {env : BarEnv}
    {s s' : Loop} {m : PendingMap} {r : ExecResult} (hw : WindowOK HB w)
    (hnow : (w.dates r.symbol)[env.endIndex r.symbol - 1]? = some env.date)
    (h : LoopInv HB D s m) (hs : schedBuy w env s r = .ok s') :
    ∃ m', LoopInv HB D s' m' := by
  obtain ⟨⟨pend', sched'⟩, h1, rfl⟩ := map_ok hs
  rcases scheduleOrder_inv hw hw.buyDelay hnow h h1 with ⟨h2, h3⟩ | ⟨q, h2, h3, h4⟩ |
    ⟨q, e, h2, h3, h4, h5, h6, h7⟩
  · exact ⟨m, h.change h2 rfl ⟨rfl, h3, rfl⟩⟩
  · exact ⟨_, (h.register q h4).change h3 rfl ⟨rfl, h2, rfl⟩⟩
  · obtain ⟨a1, a2, _, a4⟩ := h.schedule q h4 e h5 h6 h7
    refine ⟨_, by rw [h3]; exact a1, a2, a4.perm ?_⟩
    change (e :: (s.covers ++ (s.sells ++ s.buys))).Perm (s.covers ++ (s.sells ++ sched'))
    have e1 : s.covers ++ (s.sells ++ sched') = (s.covers ++ (s.sells ++ s.buys)) ++ [e] := by
      rw [h2]; simp
    rw [e1]
    exact (List.perm_append_singleton e _).symm

theorem schedSell_inv {HB : Sym → Date → Prop} {D : Date} {w : Window} {env : BarEnv}
    {s s' : Loop} {m : PendingMap} {r : ExecResult} (hw : WindowOK HB w)
    (hnow : (w.dates r.symbol)[env.endIndex r.symbol - 1]? = some env.date)
    (h : LoopInv HB D s m) (hs : schedSell w env s r = .ok s') :
    ∃ m', LoopInv HB D s' m' := by
  obtain ⟨⟨pend', sched'⟩, h1, rfl⟩ := map_ok hs
  rcases scheduleOrder_inv hw hw.sellDelay hnow h h1 with ⟨h2, h3⟩ | ⟨q, h2, h3, h4⟩ |
    ⟨q, e, h2, h3, h4, h5, h6, h7⟩
  · exact ⟨m, h.change h2 rfl ⟨rfl, rfl, h3⟩⟩
  · exact ⟨_, (h.register q h4).change h3 rfl ⟨rfl, rfl, h2⟩⟩
  · obtain ⟨a1, a2, _, a4⟩ := h.schedule q h4 e h5 h6 h7
    refine ⟨_, by rw [h3]; exact a1, a2, a4.perm ?_⟩
    change (e :: (s.covers ++ (s.sells ++ s.buys))).Perm (s.covers ++ (sched' ++ s.buys))
    rw [h2]
    simp only [List.append_assoc, List.singleton_append]
    rw [← List.append_assoc, ← List.append_assoc]
    exact List.perm_middle.symm

theorem barSignals_inv {HB : Sym → Date → Prop} {cfg : Config} {w : Window} {b : BarIn} {D : Date}
    {s s' : Loop} {m : PendingMap} (hw : WindowOK HB w) (hb : BarOK HB w b)
    (h : LoopInv HB D s m) (hs : barSignals cfg w b s = .ok s') : ∃ m', LoopInv HB D s' m' := by
  unfold barSignals at hs
  simp only at hs
  obtain ⟨s3, h3, hs⟩ := bind_ok hs
  obtain ⟨s4, h4, hs⟩ := bind_ok hs
  obtain ⟨s5, h5, hs⟩ := bind_ok hs
  obtain ⟨s6, h6, hs⟩ := bind_ok hs
  have he := Except.ok.inj hs
  subst he
  obtain ⟨m2, i2⟩ := userSteps_inv b.user
    (h.change (s' := { s with pf := captureBar cfg s.pf b.env.date b.env.quote }) rfl rfl
      ⟨rfl, rfl, rfl⟩)
  have i3 := foldB_inv (I := fun s => ∃ m, LoopInv HB D s m)
    (fun x r x' hr hx hs => by
      obtain ⟨mx, hx⟩ := hx
      exact schedCover_inv hw (hb.now r (List.mem_of_mem_filter hr)) hx hs) ⟨m2, i2⟩ h3
  have i4 := foldB_inv (I := fun s => ∃ m, LoopInv HB D s m)
    (fun x r x' hr hx hs => by
      obtain ⟨mx, hx⟩ := hx
      exact schedBuy_inv hw (hb.now r (List.mem_of_mem_filter hr)) hx hs) i3 h4
  have i5 := foldB_inv (I := fun s => ∃ m, LoopInv HB D s m)
    (fun x r x' hr hx hs => by
      obtain ⟨mx, hx⟩ := hx
      exact schedSell_inv hw (hb.now r (List.mem_of_mem_filter hr)) hx hs) i4 h5
  obtain ⟨m6, i6⟩ := foldB_inv (I := fun s => ∃ m, LoopInv HB D s m)
    (fun x r x' hr hx hs => by
      obtain ⟨mx, hx⟩ := hx
      obtain ⟨pf, _, rfl⟩ := map_ok hs
      exact ⟨mx, hx.change rfl rfl ⟨rfl, rfl, rfl⟩⟩) i5 h6
  exact ⟨m6, i6.change rfl rfl ⟨rfl, rfl, rfl⟩⟩

theorem barStep_inv {HB : Sym → Date → Prop} {cfg : Config} {w : Window} {b : BarIn} {D : Date}
    {s s' : Loop} {m : PendingMap} (hw : WindowOK HB w) (hb : BarOK HB w b) (hd : D < b.env.date)
    (h : LoopInv HB D s m) (hs : barStep cfg w s b = .ok s') :
    ∃ m', LoopInv HB b.env.date s' m' := by
  unfold barStep at hs
  obtain ⟨s1, h1, hs⟩ := bind_ok hs
  obtain ⟨m1, i1, _⟩ := barOrders_inv hb.bars h hd h1
  exact barSignals_inv hw hb i1 hs

/-- Bars of one window, from any date before the first of them. -/
theorem bars_inv {HB : Sym → Date → Prop} {cfg : Config} {w : Window} (hw : WindowOK HB w) :
    ∀ {bars : List BarIn} {D : Date} {s s' : Loop} {m : PendingMap},
      (∀ b ∈ bars, BarOK HB w b) → (D :: bars.map (fun b => b.env.date)).Pairwise (· < ·) →
      LoopInv HB D s m → foldB (barStep cfg w) s bars = .ok s' →
      ∃ D' m', LoopInv HB D' s' m' ∧ (∀ d, (∀ x ∈ D :: bars.map (fun b => b.env.date), x < d) →
        D' < d) := by
  intro bars
  induction bars with
  | nil =>
    intro D s s' m _ _ h hs
    have he := Except.ok.inj hs
    subst he
    exact ⟨D, m, h, fun d hd => hd D List.mem_cons_self⟩
  | cons b bars ih =>
    intro D s s' m hb hp h hs
    unfold foldB at hs
    split at hs
    · cases hs
    · rename_i s1 h1
      rw [List.map_cons, List.pairwise_cons] at hp
      obtain ⟨m1, i1⟩ := barStep_inv hw (hb b List.mem_cons_self)
        (hp.1 _ List.mem_cons_self) h h1
      obtain ⟨D', m', i', hD'⟩ := ih (fun b hb' => hb b (List.mem_cons_of_mem _ hb')) hp.2 i1 hs
      exact ⟨D', m', i', fun d hd => hD' d (fun x hx => hd x (List.mem_cons_of_mem _ hx))⟩

theorem LoopInv.reset {HB : Sym → Date → Prop} {D : Date} {s : Loop} {m : PendingMap}
    (h : LoopInv HB D s m) :
    LoopInv HB D { s with covers := [], buys := [], sells := [] } m :=
  ⟨h.ref, h.track, ⟨(fun e he => nomatch he), List.nodup_nil⟩⟩

theorem cancelAll_inv {HB : Sym → Date → Prop} {D : Date} {s : Loop} (syms : List Sym) :
    ∀ {p : PendingScope}, (∃ m, LoopInv HB D { s with pend := p } m) →
      ∃ m', LoopInv HB D
        { s with pend := syms.foldl (fun p x => p.removeAll (some x)) p } m' := by
  induction syms with
  | nil => intro p h; exact h
  | cons x syms ih =>
    intro p ⟨m, h⟩
    exact ih (userStep_inv h (.cancelAllPending (some x)))

/-- Closing dropped symbols keeps track of attempts. -/
theorem liquidate_inv {HB : Sym → Date → Prop} {cfg : Config} {D : Date} {s s' : Loop}
    {m : PendingMap} {b : Boundary} (h : LoopInv HB D s m)
    (hs : liquidateDropped cfg s b = .ok s') : ∃ m', LoopInv HB D s' m' := by
  unfold liquidateDropped at hs
  simp only at hs
  obtain ⟨s1, h1, hs⟩ := bind_ok hs
  have hc : ∃ m', LoopInv HB D { s with pend := cancelStale s.pend b.selected } m' :=
    cancelAll_inv (s := s) _ ⟨m, h⟩
  have step : ∀ (x : Loop) (e : Sym × DropBar) (x' : Loop),
      (∃ m, LoopInv HB D x m) → dropStep cfg b.slip x e = .ok x' → ∃ m, LoopInv HB D x' m := by
    intro x e x' ⟨mx, hx⟩ hst
    obtain ⟨pf, _, rfl⟩ := map_ok hst
    exact ⟨mx, hx.change rfl rfl ⟨rfl, rfl, rfl⟩⟩
  have i1 := foldB_inv (I := fun s => ∃ m, LoopInv HB D s m)
    (fun x r x' _ hx hs => step x r x' hx hs) hc h1
  exact foldB_inv (I := fun s => ∃ m, LoopInv HB D s m)
    (fun x r x' _ hx hs => step x r x' hx hs) i1 hs

/-- The first step of a window. -/
theorem runWindow_start {cfg : Config} {s s' : Loop} {x : Window × List BarIn}
    (h : runWindow cfg s x = .ok s') :
    ∃ s1, ((x.1.boundary = none ∧ s1 = s) ∨
        ∃ b, x.1.boundary = some b ∧ liquidateDropped cfg s b = .ok s1) ∧
      foldB (barStep cfg x.1) { s1 with covers := [], buys := [], sells := [] } x.2 = .ok s' := by
  unfold runWindow at h
  obtain ⟨s1, h1, h2⟩ := bind_ok h
  refine ⟨s1, ?_, h2⟩
  unfold startWindow at h1
  rcases hb : x.1.boundary with _ | b
  · rw [hb] at h1
    exact .inl ⟨rfl, (Except.ok.inj h1).symm⟩
  · rw [hb] at h1
    exact .inr ⟨b, rfl, h1⟩

theorem start_inv {HB : Sym → Date → Prop} {cfg : Config} {D : Date} {s s1 : Loop}
    {m : PendingMap} {w : Window} (h : LoopInv HB D s m)
    (h1 : (w.boundary = none ∧ s1 = s) ∨
        ∃ b, w.boundary = some b ∧ liquidateDropped cfg s b = .ok s1) :
    ∃ m', LoopInv HB D s1 m' := by
  rcases h1 with ⟨_, rfl⟩ | ⟨b, _, h1⟩
  · exact ⟨m, h⟩
  · exact liquidate_inv h h1

theorem windows_inv {HB : Sym → Date → Prop} {cfg : Config} :
    ∀ {ws : List (Window × List BarIn)} {D : Date} {s s' : Loop} {m : PendingMap},
      (∀ x ∈ ws, WindowOK HB x.1) → (∀ x ∈ ws, ∀ b ∈ x.2, BarOK HB x.1 b) →
      (D :: ws.flatMap (fun x => x.2.map (fun b => b.env.date))).Pairwise (· < ·) →
      LoopInv HB D s m → foldB (runWindow cfg) s ws = .ok s' →
      ∃ D' m', LoopInv HB D' s' m' ∧
        (∀ d, (∀ x ∈ D :: ws.flatMap (fun x => x.2.map (fun b => b.env.date)), x < d) →
          D' < d) := by
  intro ws
  induction ws with
  | nil =>
    intro D s s' m _ _ _ h hs
    have he := Except.ok.inj hs
    subst he
    exact ⟨D, m, h, fun d hd => hd D List.mem_cons_self⟩
  | cons x ws ih =>
    intro D s s' m hw hb hp h hs
    unfold foldB at hs
    split at hs
    · cases hs
    · rename_i s1 h1
      rw [List.flatMap_cons, ← List.cons_append, List.pairwise_append] at hp
      obtain ⟨hp1, hp2, hp3⟩ := hp
      obtain ⟨s0, h0, h1⟩ := runWindow_start h1
      obtain ⟨m0, i0⟩ := start_inv h h0
      obtain ⟨D1, m1, i1, hD1⟩ := bars_inv (hw x List.mem_cons_self) (hb x List.mem_cons_self) hp1
        i0.reset h1
      obtain ⟨D', m', i', hD'⟩ := ih (fun y hy => hw y (List.mem_cons_of_mem _ hy))
        (fun y hy => hb y (List.mem_cons_of_mem _ hy))
        (List.pairwise_cons.2 ⟨fun d hd => hD1 d (fun y hy => hp3 y hy d hd), hp2⟩) i1 hs
      refine ⟨D', m', i', fun d hd => hD' d ?_⟩
      intro y hy
      rcases List.mem_cons.1 hy with rfl | hy
      · exact hD1 d (fun z hz => hd z (by
          rw [List.flatMap_cons, ← List.cons_append]
          exact List.mem_append_left _ hz))
      · exact hd y (by
          rw [List.flatMap_cons, ← List.cons_append]
          exact List.mem_append_right _ hy)

end PyBroker
