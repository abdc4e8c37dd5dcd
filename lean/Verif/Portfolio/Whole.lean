import Verif.Portfolio.Holdings

/-!
# Helper lemmas: whole share counts
-/

namespace PyBroker

/-- A whole number. -/
def Spec.Whole (x : ℚ) : Prop := ∃ k : ℤ, x = k

open PyBroker.Spec

theorem whole_zero : Whole 0 := ⟨0, by simp⟩

theorem Spec.Whole.sub {x y : ℚ} (hx : Whole x) (hy : Whole y) : Whole (x - y) := by
  obtain ⟨a, rfl⟩ := hx
  obtain ⟨b, rfl⟩ := hy
  exact ⟨a - b, by push_cast; rfl⟩

theorem Spec.Whole.add {x y : ℚ} (hx : Whole x) (hy : Whole y) : Whole (x + y) := by
  obtain ⟨a, rfl⟩ := hx
  obtain ⟨b, rfl⟩ := hy
  exact ⟨a + b, by push_cast; rfl⟩

theorem Spec.Whole.min {x y : ℚ} (hx : Whole x) (hy : Whole y) : Whole (min x y) := by
  rcases min_choice x y with h | h <;> rw [h] <;> assumption

theorem Spec.Whole.sum {l : List ℚ} (h : ∀ x ∈ l, Whole x) : Whole l.sum := by
  induction l with
  | nil => exact whole_zero
  | cons a l ih =>
    rw [List.sum_cons]
    exact (h a List.mem_cons_self).add (ih (fun x hx => h x (List.mem_cons_of_mem _ hx)))

/-- All share counts of a portfolio are whole: open entries, orders and trades. -/
structure WholePf (s : Portfolio) : Prop where
  entries : AllEntries (fun _ _ e => Whole e.shares) s
  orders : ∀ o ∈ s.orders, Whole o.shares
  trades : ∀ t ∈ s.trades, Whole t.shares

/-- The shares a call asks for, if it asks for any, are whole. -/
def Op.Whole : Op → Prop
  | .buy r => Spec.Whole r.shares
  | .sell r => Spec.Whole r.shares
  | _ => True

theorem WholePf.frame {s t : Portfolio} (h : WholePf s) (hb : ∀ pt, t.book pt = s.book pt)
    (ho : t.orders = s.orders) (ht : t.trades = s.trades) : WholePf t :=
  ⟨h.entries.frame hb, by rw [ho]; exact h.orders, by rw [ht]; exact h.trades⟩

theorem WholePf.same {s t : Portfolio} (h : WholePf s) (hc : SameCore s t)
    (ho : t.orders = s.orders) (ht : t.trades = s.trades) : WholePf t := by
  refine ⟨?_, by rw [ho]; exact h.orders, by rw [ht]; exact h.trades⟩
  intro pt q hq e he
  obtain ⟨p, hp, hpq⟩ := mem_of_coreP (hc.books pt) hq
  simp only [coreP, Prod.mk.injEq] at hpq
  obtain ⟨e0, he0, hee⟩ := mem_of_coreE hpq.2.2.2.2 he
  simp only [coreE, Prod.mk.injEq] at hee
  rw [← hee.2.2.1]
  exact h.entries pt p hp e0 he0

/-! ## Closing -/

theorem WholePf.update {s : Portfolio} {q : Position} (h : WholePf s)
    (hn : ((s.book q.type).map Position.symbol).Nodup) (hq : ∀ e ∈ q.entries, Whole e.shares) :
    WholePf (s.updatePosition q) := by
  obtain ⟨ho, ht⟩ := updatePosition_orders s q
  refine ⟨?_, by rw [ho]; exact h.orders, by rw [ht]; exact h.trades⟩
  unfold Portfolio.updatePosition
  split
  · refine h.entries.replace (pt := q.type) hn hq (by rw [book_setBook]) ?_
    intro pt' hne
    rw [book_setBook_ne _ _ hne]
  · have hk : AllEntries (fun _ _ e => Whole e.shares)
        (s.setBook q.type (erasePos (s.book q.type) q.symbol)) := by
      intro pt' p hp
      by_cases hpt : q.type = pt'
      · rw [← hpt, book_setBook] at hp
        rw [← hpt]
        exact h.entries q.type p ((erasePos_sublist _ _).subset hp)
      · rw [book_setBook_ne _ _ hpt] at hp
        exact h.entries pt' p hp
    simp only
    split
    · exact hk.frame (fun pt => by cases pt <;> rfl)
    · exact hk

theorem exitPf_whole {cfg : Config} {s : Portfolio} {pt : PosType} {e : Entry} {sh fill : ℚ}
    {date : Date} {st : Option StopType} (hs : Whole sh) (h : ∀ t ∈ s.trades, Whole t.shares) :
    ∀ t ∈ (exitPf cfg s pt e sh fill date st).trades, Whole t.shares := by
  intro t ht
  rcases List.mem_append.1 ht with ht | ht
  · exact h t ht
  · rw [List.mem_singleton] at ht
    subst ht
    exact hs

theorem take_whole {p : Position} {e : Entry} {sh : ℚ} (hs : Whole sh)
    (h : ∀ x ∈ p.entries, Whole x.shares) : ∀ x ∈ (p.takeShares e sh).entries, Whole x.shares := by
  intro x hx
  rw [takeShares_entries] at hx
  rcases mem_modEntry' hx with hx | ⟨e0, he0, rfl⟩
  · exact h x hx
  · exact (h e0 he0).sub hs

theorem closeShares_whole {cfg : Config} {pt : PosType} {s : Portfolio} {date : Date} {sym : Sym}
    {shares fill : ℚ} (hg : Good s) (h : WholePf s) (hs : Whole shares) :
    WholePf (closeShares cfg pt s date sym shares fill).pf ∧
      Whole (closeShares cfg pt s date sym shares fill).rem ∧
      Whole (closeShares cfg pt s date sym shares fill).filled := by
  unfold closeShares
  split
  · exact ⟨h, hs, whole_zero⟩
  · rename_i p hp
    obtain ⟨hpm, _⟩ := lookupPos_some hp
    have key := exitLoop_inv cfg pt date fill
      (fun rem t q => Whole rem ∧ (∀ pt', t.book pt' = s.book pt') ∧ t.orders = s.orders ∧
        (∀ x ∈ t.trades, Whole x.shares) ∧ (∀ x ∈ q.entries, Whole x.shares))
      ?_ ?_ p.entries shares s p rfl
      ⟨hs, fun _ => rfl, rfl, h.trades, h.entries pt p hpm⟩
    · obtain ⟨k1, k2, k3, k4, k5⟩ := key
      have hw : WholePf (exitLoop cfg pt date fill p.entries shares s p).pf :=
        ⟨h.entries.frame k2, by rw [k3]; exact h.orders, k4⟩
      exact ⟨hw.update (by rw [k2]; exact hg.wf.nodup _) k5, k1, hs.sub k1⟩
    · rintro rem t q e es hes _ _ ⟨k1, k2, k3, k4, k5⟩
      have he := k5 e (by rw [hes]; exact List.mem_cons_self)
      obtain ⟨sd, ac, hr⟩ := removeStopData_frame e.stops (exitPf cfg t pt e e.shares fill date none)
      refine ⟨k1.sub he, fun pt' => by rw [removeStopData_book, exitPf_book, k2], ?_, ?_, ?_⟩
      · rw [hr]; exact k3
      · rw [hr]; exact exitPf_whole (cfg := cfg) he k4
      · intro x hx
        exact k5 x (by rw [hes]; exact List.mem_cons_of_mem _ hx)
    · rintro rem t q e es hes _ _ ⟨k1, k2, k3, k4, k5⟩
      exact ⟨whole_zero, fun pt' => by rw [exitPf_book, k2], k3, exitPf_whole k1 k4,
        take_whole k1 k5⟩

/-! ## Opening -/

theorem clampShares_whole {cfg : Config} {s : Portfolio} {sym : Sym} {fill shares : ℚ} {side : Side}
    (hf : cfg.fractional = false) (hs : Whole shares) :
    Whole (s.clampShares cfg sym fill shares side).1 := by
  have hm : ∀ bp : ℚ, Whole (maxShares cfg bp fill) := by
    intro bp
    unfold maxShares
    rw [if_neg (by simp [hf])]
    exact ⟨_, rfl⟩
  unfold Portfolio.clampShares
  simp only
  split
  · exact whole_zero
  · split
    · split
      · split
        · exact whole_zero
        · exact hs.min (hm _)
      · exact hs.min (hm _)
    · exact hs.min (hm _)

theorem openSide_whole {cfg : Config} {sd : Side} {s : Portfolio} {date : Date} {sym : Sym}
    {shares fill : ℚ} {stops : List Stop} {n : ℚ} {s' : Portfolio} (hg : WF [] s)
    (hf : cfg.fractional = false) (hs : Whole shares) (hw : WholePf s)
    (h : openSide cfg sd s date sym shares fill stops = .ok (n, s')) : WholePf s' ∧ Whole n := by
  have hc : Whole (if (s.clampShares cfg sym fill shares sd).1 < shares then
      (s.clampShares cfg sym fill shares sd).1 else shares) := by
    split
    · exact clampShares_whole hf hs
    · exact hs
  have hopen : ∀ (t : Portfolio) (m : ℚ), (∀ pt, ((t.book pt).map Position.symbol).Nodup) → WholePf t → Whole m →
      openShares cfg sd.opens t date sym m fill stops = .ok (n, s') → WholePf s' ∧ Whole n := by
    intro t m ht hwt hm ho
    obtain ⟨rfl, es, sda, ac, rfl, hadd⟩ := openShares_ok ho
    refine ⟨⟨?_, ?_, ?_⟩, hm⟩
    · intro pt' q hq
      by_cases hpt : sd.opens = pt'
      · subst hpt
        rw [openedPf_book] at hq
        unfold openedBook at hq
        split at hq
        · rcases List.mem_append.1 hq with hq | hq
          · exact hwt.entries _ q hq
          · rw [List.mem_singleton] at hq
            subst hq
            intro e he
            simp only [openedPos, List.mem_singleton] at he
            rw [he]; exact hm
        · rename_i p hp
          obtain ⟨hpm, hps⟩ := lookupPos_some hp
          rcases mem_replacePos (ht _) hq with rfl | ⟨hq, _⟩
          · intro e he
            simp only [openedPos, List.mem_append, List.mem_singleton] at he
            rcases he with he | rfl
            · exact hwt.entries _ p hpm e he
            · exact hm
          · exact hwt.entries _ q hq
      · rw [openedPf_book_ne _ _ _ _ _ _ _ _ _ _ hpt] at hq
        exact hwt.entries _ q hq
    · intro o ho'
      exact hwt.orders o (by cases hsd : sd.opens <;> rw [hsd] at ho' <;> exact ho')
    · intro t' ht'
      exact hwt.trades t' (by cases hsd : sd.opens <;> rw [hsd] at ht' <;> exact ht')
  have hmemo : ∀ a b, WholePf { s with cachedLongMv := a, cachedShortMv := b } := fun a b =>
    hw.frame (fun pt => by cases pt <;> rfl) rfl rfl
  have hnd : ∀ a b pt, ((({ s with cachedLongMv := a, cachedShortMv := b } : Portfolio).book pt).map
      Position.symbol).Nodup := by
    intro a b pt
    have := hg.nodup pt
    cases pt <;> exact this
  cases sd
  · unfold openSide openLong at h
    simp only at h
    obtain ⟨a, b, hm, hfr⟩ := clampShares_frame cfg s sym fill shares .buy
    split at h
    · cases h; exact ⟨hw, whole_zero⟩
    · rw [hfr] at h
      generalize (if (s.clampShares cfg sym fill shares .buy).1 < shares then
        (s.clampShares cfg sym fill shares .buy).1 else shares) = m at h hc
      split at h
      · cases h; exact ⟨hmemo a b, whole_zero⟩
      · split at h
        · cases h; exact ⟨hmemo a b, whole_zero⟩
        · exact hopen _ m (hnd a b) (hmemo a b) hc h
  · unfold openSide openShort at h
    simp only at h
    obtain ⟨a, b, hm, hfr⟩ := clampShares_frame cfg s sym fill shares .sell
    split at h
    · cases h; exact ⟨hw, whole_zero⟩
    · split at h
      · cases h; exact ⟨hw, whole_zero⟩
      · split at h
        · cases h; exact ⟨hw, whole_zero⟩
        · rw [hfr] at h
          generalize (if (s.clampShares cfg sym fill shares .sell).1 < shares then
            (s.clampShares cfg sym fill shares .sell).1 else shares) = m at h hc
          split at h
          · cases h; exact ⟨hmemo a b, whole_zero⟩
          · exact hopen _ m (hnd a b) (hmemo a b) hc h

theorem addOrder_whole {cfg : Config} {s : Portfolio} {date : Date} {sym : Sym} {sd : Side}
    {created : Option Date} {ot : OrderType} {intent : Intent} {sh : ℚ} {limit mp : Option ℚ}
    {fill : ℚ} (h : WholePf s) (hs : Whole sh) :
    WholePf (s.addOrder cfg date sym sd created ot intent sh limit mp fill).2 := by
  refine ⟨h.entries.frame (fun pt => by simp), ?_, h.trades⟩
  intro o ho
  rcases List.mem_append.1 ho with ho | ho
  · exact h.orders o ho
  · rw [List.mem_singleton] at ho
    subst ho
    exact hs

theorem placeOrder_whole {cfg : Config} {sd : Side} {s : Portfolio} {r : OrderReq}
    {o : Option Order} {s' : Portfolio} (hf : cfg.fractional = false) (hg : Good s) (hw : WholePf s)
    (hr : Whole r.shares) (h : placeOrder cfg sd s r = .ok (o, s')) : WholePf s' := by
  obtain ⟨_, _, _, ⟨_, rfl, _⟩ | ⟨_, h0, n, s2, hopen, hres⟩⟩ := placeOrder_cases h
  · exact hw
  · obtain ⟨c1, c2, c3⟩ := closeShares_whole (cfg := cfg) (pt := sd.closes) (date := r.date)
      (sym := r.symbol) (fill := r.fill) hg hw hr
    have cf := closeShares_facts (cfg := cfg) (pt := sd.closes) (date := r.date)
      (sym := r.symbol) (fill := r.fill) hg.wf hg.ne h0
    obtain ⟨o1, o2⟩ := openSide_whole cf.wf hf c2 c1 hopen
    rcases hres with ⟨_, rfl, _⟩ | ⟨_, he⟩
    · exact o1
    · rw [(Prod.mk.inj he).2]
      exact addOrder_whole o1 (c3.add o2)

theorem exitPosition_whole {cfg : Config} {s s' : Portfolio} {date : Date} {sym : Sym}
    {bf sf : ℚ} {slip : Option SlipFn} (hf : cfg.fractional = false) (hg : Good s) (hw : WholePf s)
    (h : exitPosition cfg s date sym bf sf slip = .ok s') : WholePf s' := by
  have hheld : ∀ (t : Portfolio) (pt : PosType) (p : Position), Good t → WholePf t →
      lookupPos (t.book pt) sym = some p → Whole p.shares := by
    intro t pt p ht hwt hp
    obtain ⟨hpm, _⟩ := lookupPos_some hp
    rw [(ht.wf.pos pt p hpm).shares]
    refine Whole.sum ?_
    intro x hx
    obtain ⟨e, he, rfl⟩ := List.mem_map.1 hx
    exact hwt.entries pt p hpm e he
  obtain ⟨s1, h1, h2⟩ := exitPosition_cases h
  have k1 : WholePf s1 ∧ Good s1 := by
    rcases h1 with ⟨_, rfl⟩ | ⟨p, o, hp, hs⟩
    · exact ⟨hw, hg⟩
    · exact ⟨placeOrder_whole hf hg hw (hheld s .long p hg hw hp) hs, placeOrder_good hg hs⟩
  rcases h2 with ⟨_, rfl⟩ | ⟨p, o, hp, hs⟩
  · exact k1.1
  · exact placeOrder_whole hf k1.2 k1.1 (hheld s1 .short p k1.2 k1.1 hp) hs

/-! ## Stops -/

theorem checkOne_whole {cfg : Config} {env : StopEnv} {date : Date}
    {acc acc' : Portfolio × List StopCheck} {c : StopCheck} (h : CheckInv acc)
    (hw : WholePf acc.1) (hs : checkOne cfg env date acc c = .ok acc') : WholePf acc'.1 := by
  rcases checkOne_cases hs with ⟨_, sd, h1⟩ | ⟨_, hni, p, e, market, sd, hp, he, _, _, h1⟩
  · rw [h1]
    exact hw.frame (fun pt => by cases pt <;> rfl) rfl rfl
  · obtain ⟨hpm, _⟩ := lookupPos_some hp
    obtain ⟨hem, _⟩ := findEntry_some he
    have hwe := hw.entries _ p hpm e hem
    rw [h1]
    unfold stopExited
    refine addOrder_whole ⟨?_, ?_, ?_⟩ hwe
    · have h0 : AllEntries (fun _ _ e => Whole e.shares)
          (exitPf cfg { acc.1 with stopData := sd } c.stop.posType e e.shares
            (slipStopFill env c.stop e.shares market) date (some c.stop.stopType)) :=
        hw.entries.frame (fun pt => by rw [exitPf_book]; cases pt <;> rfl)
      refine h0.replace (pt := p.type) (q := p.takeShares e e.shares) ?_
        (take_whole hwe (hw.entries _ p hpm)) ?_ ?_
      · rw [exitPf_book, stopData_book]
        exact h.wf.nodup _
      · rw [book_setBook, exitPf_book]
      · intro pt' hne
        rw [book_setBook_ne _ _ hne]
    · intro o ho
      exact hw.orders o (by cases hpt : p.type <;> rw [hpt] at ho <;> exact ho)
    · intro t ht
      refine exitPf_whole (cfg := cfg) (s := { acc.1 with stopData := sd }) (pt := c.stop.posType)
        (e := e) (fill := slipStopFill env c.stop e.shares market) (date := date)
        (st := some c.stop.stopType) hwe hw.trades t ?_
      cases hpt : p.type <;> rw [hpt] at ht <;> exact ht

theorem finishAll_whole (cs : List StopCheck) (s : Portfolio) (h : WF (cs.map StopCheck.entryId) s)
    (hne : NE s) (hloc : ∀ c' ∈ cs, Located s c') (hw : WholePf s) :
    WholePf (cs.foldl finishStop s) := by
  induction cs generalizing s with
  | nil => exact hw
  | cons c cs ih =>
    obtain ⟨h1, h2, h3⟩ := finish_good h hne hloc
    refine ih (finishStop s c) h1 h2
      (fun c' hc' => h3.located (hloc c' (List.mem_cons_of_mem _ hc'))) ?_
    unfold finishStop
    split
    · exact hw
    · rename_i p hp
      obtain ⟨hpm, _⟩ := lookupPos_some hp
      split
      · exact hw
      · rename_i e he
        obtain ⟨sda, ac, hr⟩ := removeStopData_frame e.stops s
        refine WholePf.update (hw.frame (fun pt => removeStopData_book _ _ _) (by rw [hr])
          (by rw [hr])) ?_ ?_
        · rw [removeStopData_book]
          exact h.nodup _
        · intro x hx
          exact hw.entries _ p hpm x ((eraseEntry_sublist _ _).subset hx)

theorem checkStops_whole {cfg : Config} {env : StopEnv} {date : Date} {s s' : Portfolio}
    (hg : Good s) (hf : StopsFit s) (hw : WholePf s) (h : checkStops cfg s date env = .ok s') :
    WholePf s' := by
  obtain ⟨acc, acc2, h1, h2, rfl⟩ := checkStops_cases h
  have hi0 : CheckInv (s, []) := ⟨hg.wf, hg.ne, by simp, by simp⟩
  have k1 : (CheckInv acc ∧ SubIds acc.1 s) ∧ WholePf acc.1 := by
    refine foldE_inv_mem (f := checkOne cfg env date)
      (fun a => (CheckInv a ∧ SubIds a.1 s) ∧ WholePf a.1) (priceChecks env s) ?_ (s, []) acc
      ⟨⟨hi0, SubIds.refl s⟩, hw⟩ h1
    rintro a c a' hc ⟨⟨ha, hsub⟩, hst⟩ hs
    obtain ⟨h3, h4⟩ := ha.step (priceChecks_fit env s c hc) hs
    exact ⟨⟨h3, h4.trans hsub⟩, checkOne_whole ha hst hs⟩
  have k2 : (CheckInv acc2 ∧ SubIds acc2.1 s) ∧ WholePf acc2.1 := by
    refine foldE_inv_mem (f := checkOne cfg env date)
      (fun a => (CheckInv a ∧ SubIds a.1 s) ∧ WholePf a.1) (barChecks env acc.1) ?_ acc acc2 k1 h2
    rintro a c a' hc ⟨⟨ha, hsub⟩, hst⟩ hs
    obtain ⟨h3, h4⟩ := ha.step (barChecks_fit k1.1.1.wf (k1.1.2.fit hf) c hc) hs
    exact ⟨⟨h3, h4.trans hsub⟩, checkOne_whole ha hst hs⟩
  exact finishAll_whole acc2.2 acc2.1 k2.1.1.wf k2.1.1.ne k2.1.1.loc k2.2

/-! ## Histories -/

theorem removeStopsEntry_trades (s : Portfolio) (id : Nat) (t : Option StopType) :
    (removeStopsEntry s id t).trades = s.trades := by
  unfold removeStopsEntry
  split
  · rfl
  · unfold removeEntryStops
    split
    · exact (sameLog_removeStopData s _).trades
    · split
      · rfl
      · exact (sameLog_removeStop s _).trades

theorem removeStopsSym_trades (s : Portfolio) (sym : Sym) (t : Option StopType) :
    (removeStopsSym s sym t).trades = s.trades := by
  have h2 : ∀ s p, (removePositionStops s p t).trades = s.trades := by
    intro s p
    unfold removePositionStops
    generalize p.entries = es
    induction es generalizing s with
    | nil => rfl
    | cons e es ih => rw [List.foldl_cons, ih, removeStopsEntry_trades]
  unfold removeStopsSym
  simp only
  rcases Option.eq_none_or_eq_some (lookupPos s.longs sym) with hp | ⟨p, hp⟩
  · rw [hp]
    simp only
    split
    · rfl
    · exact h2 _ _
  · rw [hp]
    simp only
    split
    · exact h2 _ _
    · rw [h2, h2]

theorem step_whole {cfg : Config} {s s' : Portfolio} {op : Op} (hf : cfg.fractional = false)
    (hg : Good s) (hfit : StopsFit s) (ho : op.Whole) (hw : WholePf s)
    (h : step cfg s op = .ok s') : WholePf s' := by
  cases op with
  | buy r =>
    simp only [step] at h
    cases hb : buy cfg s r with
    | error e => rw [hb] at h; cases h
    | ok x => rw [hb] at h; cases h; exact placeOrder_whole (sd := .buy) hf hg hw ho hb
  | sell r =>
    simp only [step] at h
    cases hb : sell cfg s r with
    | error e => rw [hb] at h; cases h
    | ok x => rw [hb] at h; cases h; exact placeOrder_whole (sd := .sell) hf hg hw ho hb
  | exitPosition d sym b q slip => exact exitPosition_whole hf hg hw h
  | captureBar d quote =>
    cases h
    exact hw.same (captureBar_same cfg s d quote) (log_capture cfg s d quote).1
      (log_capture cfg s d quote).2
  | incrBars hb => cases h; exact hw.same (incrBars_same s hb) rfl rfl
  | checkStops d env => exact checkStops_whole hg hfit hw h
  | removeStop id =>
    cases h
    exact hw.same (removeStop_same s id) (sameLog_removeStop s id).orders
      (sameLog_removeStop s id).trades
  | removeStopsSym sym t =>
    cases h
    exact hw.same (removeStopsSym_same s sym t) (removeStopsSym_log s sym t)
      (removeStopsSym_trades s sym t)
  | removeStopsEntry id t =>
    cases h
    exact hw.same (removeStopsEntry_same s id t) (removeStopsEntry_log s id t)
      (removeStopsEntry_trades s id t)

theorem WholePf.init (cfg : Config) : WholePf (Portfolio.init cfg) :=
  ⟨by intro pt p hp; cases pt <;> simp [Portfolio.init, Portfolio.book] at hp,
    by simp [Portfolio.init], by simp [Portfolio.init]⟩

theorem run_whole {cfg : Config} {s : Portfolio} {ops : List Op} (hf : cfg.fractional = false)
    (hfit : ∀ op ∈ ops, op.Fit) (hwh : ∀ op ∈ ops, op.Whole) (h : run cfg ops = .ok s) :
    WholePf s := by
  have := foldE_inv_mem (f := step cfg) (fun t => (Good t ∧ StopsFit t) ∧ WholePf t) ops ?_ _ s
    ⟨⟨Good.init cfg, StopsFit.init cfg⟩, WholePf.init cfg⟩ h
  · exact this.2
  · rintro b a b' ha ⟨⟨h1, h2⟩, h3⟩ hs
    exact ⟨step_good h1 h2 (hfit a ha) hs, step_whole hf h1 h2 (hwh a ha) h3 hs⟩

end PyBroker
