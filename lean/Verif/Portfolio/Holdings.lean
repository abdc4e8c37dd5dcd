import Verif.Portfolio.Ledger

/-!
# Net holdings and the order log; first-in first-out matching
-/

namespace PyBroker

open Spec

/-! ## Holdings -/

/-- Long less short shares held, less net shares ordered. -/
def drift (s : Portfolio) (sym : Sym) : ℚ :=
  sharesOf s.longs sym - sharesOf s.shorts sym - netOrdered s sym

theorem held_eq {ps : List Position} (hn : (ps.map Position.symbol).Nodup) (sym : Sym) :
    held ps sym = sharesOf ps sym := by
  unfold held sharesOf
  induction ps with
  | nil => rfl
  | cons p ps ih =>
    rw [List.map_cons] at hn
    obtain ⟨hp, hn⟩ := List.nodup_cons.1 hn
    have hc : lookupPos (p :: ps) sym =
        if p.symbol = sym then some p else lookupPos ps sym := rfl
    rw [hc]
    by_cases hs : p.symbol = sym
    · have : ps.filter (fun p => decide (p.symbol = sym)) = [] := by
        rw [List.filter_eq_nil_iff]
        intro q hq
        simp only [decide_eq_true_eq]
        intro e
        exact hp (by rw [hs]; exact List.mem_map.2 ⟨q, hq, e⟩)
      rw [if_pos hs, List.filter_cons_of_pos (by simpa using hs), this]
      simp
    · rw [if_neg hs, List.filter_cons_of_neg (by simpa using hs)]
      exact ih hn

theorem sharesOf_core {ps qs : List Position} (h : ps.map coreP = qs.map coreP) (sym : Sym) :
    sharesOf ps sym = sharesOf qs sym := by
  unfold sharesOf
  induction ps generalizing qs with
  | nil =>
    cases qs with
    | nil => rfl
    | cons q qs => simp at h
  | cons p ps ih =>
    cases qs with
    | nil => simp at h
    | cons q qs =>
      simp only [List.map_cons, List.cons.injEq] at h
      have h1 : p.symbol = q.symbol := coreP_symbol h.1
      have h2 : p.shares = q.shares := by
        have := h.1; simp only [coreP, Prod.mk.injEq] at this; exact this.2.1
      have hc : ∀ (p : Position) ps, lookupPos (p :: ps) sym =
        if p.symbol = sym then some p else lookupPos ps sym := fun _ _ => rfl
      rw [hc, hc, h1]
      by_cases hs : q.symbol = sym
      · rw [if_pos hs, if_pos hs]; exact h2
      · rw [if_neg hs, if_neg hs]; exact ih h.2

theorem drift_same {s t : Portfolio} (h : SameCore s t) (ho : t.orders = s.orders) (sym : Sym) :
    drift t sym = drift s sym := by
  unfold drift netOrdered
  rw [ho]
  have h1 := sharesOf_core (h.books .long) sym
  have h2 := sharesOf_core (h.books .short) sym
  simp only [Portfolio.book] at h1 h2
  rw [h1, h2]

theorem netOrdered_snoc (s t : Portfolio) (o : Order) (h : t.orders = s.orders ++ [o])
    (sym : Sym) :
    netOrdered t sym = netOrdered s sym + (if o.symbol = sym then signed o else 0) := by
  unfold netOrdered
  rw [h, List.filter_append, List.map_append, List.sum_append]
  by_cases hs : o.symbol = sym
  · rw [if_pos hs, List.filter_cons_of_pos (by simpa using hs)]; simp
  · rw [if_neg hs, List.filter_cons_of_neg (by simpa using hs)]; simp

theorem exitLoop_orders (cfg : Config) (pt : PosType) (date : Date) (fill : ℚ)
    (es : List Entry) (rem : ℚ) (s : Portfolio) (p : Position) (h : p.entries = es) :
    (exitLoop cfg pt date fill es rem s p).pf.orders = s.orders := by
  refine exitLoop_inv cfg pt date fill (fun _ t _ => t.orders = s.orders) ?_ ?_ es rem s p h rfl
  · intro rem t p e es _ _ _ ht
    obtain ⟨sd, ac, hr⟩ := removeStopData_frame e.stops
      (exitPf cfg t pt e e.shares fill date none)
    rw [hr]; exact ht
  · intro rem t p e es _ _ _ ht
    exact ht

theorem updatePosition_orders (s : Portfolio) (p : Position) :
    (s.updatePosition p).orders = s.orders ∧ (s.updatePosition p).trades = s.trades := by
  unfold Portfolio.updatePosition
  have : ∀ pt ps, (s.setBook pt ps).orders = s.orders ∧ (s.setBook pt ps).trades = s.trades := by
    intro pt ps; cases pt <;> exact ⟨rfl, rfl⟩
  split
  · exact this _ _
  · simp only
    split
    · exact this _ _
    · exact this _ _

theorem closeShares_orders (cfg : Config) (pt : PosType) (s : Portfolio) (date : Date)
    (sym : Sym) (shares fill : ℚ) :
    (closeShares cfg pt s date sym shares fill).pf.orders = s.orders := by
  unfold closeShares
  split
  · rfl
  · simp only
    rw [(updatePosition_orders _ _).1]
    exact exitLoop_orders cfg pt date fill _ _ _ _ rfl

theorem sharesOf_lookup {ps qs : List Position} {sym : Sym}
    (h : lookupPos ps sym = lookupPos qs sym) : sharesOf ps sym = sharesOf qs sym := by
  unfold sharesOf; rw [h]

/-- How an order changes the books: `n` opened, `c.filled` closed. -/
theorem placeOrder_hold {cfg : Config} {sd : Side} {s : Portfolio} {r : OrderReq}
    {o : Option Order} {s' : Portfolio} (hg : Good s)
    (h : placeOrder cfg sd s r = .ok (o, s')) (sym : Sym) : drift s' sym = drift s sym := by
  have hpos := (placeOrder_cases h).1
  have he := placeOrder_effect hg h
  cases he with
  | nothing a b hm => rfl
  | closed c a b hc hfill hlim hm =>
    have h0 : 0 < r.shares := by
      rcases hpos.lt_or_eq with h | h
      · exact h
      · exfalso
        have : c.filled = 0 := by
          rw [hc]
          unfold closeShares
          split
          · rfl
          · rename_i p hp
            simp only
            rw [← h]
            have : (exitLoop cfg sd.closes r.date r.fill p.entries 0 s p).rem = 0 := by
              cases p.entries with
              | nil => rfl
              | cons e es => unfold exitLoop; simp
            rw [this]; ring
        exact absurd this hfill.ne'
    have cf := hc ▸ closeShares_facts (cfg := cfg) (pt := sd.closes) (date := r.date)
      (sym := r.symbol) (fill := r.fill) hg.wf hg.ne h0
    have hord : c.pf.orders = s.orders := by rw [hc]; exact closeShares_orders ..
    unfold drift
    rw [netOrdered_snoc s _ _ (congrArg (· ++ [_]) hord)]
    by_cases hs : r.symbol = sym
    · subst hs
      have h1 := cf.held
      cases sd with
      | buy =>
        have h2 := cf.otherSide .long (by simp [Side.closes])
        simp only [Side.closes, Portfolio.book] at h1 h2
        simp only [Portfolio.addOrder, if_true, signed]
        rw [h1, h2]; ring
      | sell =>
        have h2 := cf.otherSide .short (by simp [Side.closes])
        simp only [Side.closes, Portfolio.book] at h1 h2
        simp only [Portfolio.addOrder, if_true, signed]
        rw [h1, h2]; ring
    · have h1 : ∀ pt, sharesOf (c.pf.book pt) sym = sharesOf (s.book pt) sym := by
        intro pt
        by_cases hpt : sd.closes = pt
        · subst hpt; exact sharesOf_lookup (cf.other sym (Ne.symm hs))
        · rw [cf.otherSide pt hpt]
      have hl := h1 .long
      have hsh := h1 .short
      simp only [Portfolio.book] at hl hsh
      simp only [Portfolio.addOrder, if_neg hs]
      rw [hl, hsh]; ring
  | opened c n es sda ac hc hn hle hlim hclamp hcap hmode hstops =>
    have h0 : 0 < r.shares := by
      have hle' : c.rem ≤ r.shares := by
        rcases hpos.lt_or_eq with h | h
        · have cf := hc ▸ closeShares_facts (cfg := cfg) (pt := sd.closes) (date := r.date)
            (sym := r.symbol) (fill := r.fill) hg.wf hg.ne h
          have h1 := cf.filled
          have h2 := cf.filled_nonneg
          linarith
        · rw [hc]
          unfold closeShares
          split
          · exact le_refl _
          · rename_i p hp
            simp only
            rw [← h]
            have : (exitLoop cfg sd.closes r.date r.fill p.entries 0 s p).rem = 0 := by
              cases p.entries with
              | nil => rfl
              | cons e es => unfold exitLoop; simp
            rw [this]
      linarith
    have cf := hc ▸ closeShares_facts (cfg := cfg) (pt := sd.closes) (date := r.date)
      (sym := r.symbol) (fill := r.fill) hg.wf hg.ne h0
    have hord : c.pf.orders = s.orders := by rw [hc]; exact closeShares_orders ..
    unfold drift
    rw [netOrdered_snoc s _ _ (congrArg (· ++ [_]) hord)]
    have hbk : ∀ pt, (((openedPf cfg c.pf sd.opens r.date r.symbol n r.fill es sda ac).addOrder cfg
        r.date r.symbol sd r.created r.orderType (intentOf sd n) (c.filled + n) r.limit
        r.marketPrice r.fill).2).book pt =
        (openedPf cfg c.pf sd.opens r.date r.symbol n r.fill es sda ac).book pt := by
      intro pt; cases pt <;> rfl
    have hL := hbk .long
    have hS := hbk .short
    simp only [Portfolio.book] at hL hS
    rw [hL, hS]
    by_cases hs : r.symbol = sym
    · subst hs
      have h1 := cf.held
      have h3 := sharesOf_opened (cfg := cfg) (s := c.pf) (pt := sd.opens) (date := r.date)
        (sym := r.symbol) (shares := n) (fill := r.fill) (es := es) (sd := sda) (ac := ac)
      have h4 := openedPf_book_ne cfg c.pf sd.opens r.date r.symbol n r.fill es sda ac
        (pt' := sd.closes) (Ne.symm sd.closes_ne_opens)
      cases sd with
      | buy =>
        have h2 := cf.otherSide .long (by simp [Side.closes])
        simp only [Side.closes, Side.opens, Portfolio.book] at h1 h2 h3 h4
        simp only [if_true, signed, Side.opens]
        rw [h3, h4, h1, h2]; ring
      | sell =>
        have h2 := cf.otherSide .short (by simp [Side.closes])
        simp only [Side.closes, Side.opens, Portfolio.book] at h1 h2 h3 h4
        simp only [if_true, signed, Side.opens]
        rw [h3, h4, h1, h2]; ring
    · have h1 : ∀ pt, sharesOf ((openedPf cfg c.pf sd.opens r.date r.symbol n r.fill es sda
          ac).book pt) sym = sharesOf (s.book pt) sym := by
        intro pt
        have h2 : sharesOf (c.pf.book pt) sym = sharesOf (s.book pt) sym := by
          by_cases hpt : sd.closes = pt
          · subst hpt; exact sharesOf_lookup (cf.other sym (Ne.symm hs))
          · rw [cf.otherSide pt hpt]
        rw [← h2]
        by_cases hpt : sd.opens = pt
        · subst hpt; exact sharesOf_lookup (lookupPos_opened_ne (Ne.symm hs))
        · rw [openedPf_book_ne _ _ _ _ _ _ _ _ _ _ hpt]
      have hl := h1 .long
      have hsh := h1 .short
      simp only [Portfolio.book] at hl hsh
      rw [hl, hsh, if_neg (by simpa [Portfolio.addOrder] using hs)]
      ring

theorem stopExited_orders (cfg : Config) (env : StopEnv) (date : Date) (s : Portfolio)
    (p : Position) (e : Entry) (st : Stop) (market : ℚ) :
    ∃ o : Order, (stopExited cfg env date s p e st market).orders = s.orders ++ [o] ∧
      o.symbol = p.symbol ∧ o.side = st.exitSide ∧ o.shares = e.shares := by
  unfold stopExited
  cases p.type <;> exact ⟨_, rfl, rfl, rfl, rfl⟩

theorem sharesOf_replace {ps : List Position} {q : Position} {sym : Sym}
    (h : q.symbol ∈ ps.map Position.symbol) :
    sharesOf (replacePos ps q) sym = if q.symbol = sym then q.shares else sharesOf ps sym := by
  by_cases hs : q.symbol = sym
  · rw [if_pos hs]
    unfold sharesOf
    rw [← hs, lookupPos_replacePos_self h]
  · rw [if_neg hs]
    exact sharesOf_lookup (lookupPos_replacePos_ne hs)

theorem checkOne_hold {cfg : Config} {env : StopEnv} {date : Date}
    {acc acc' : Portfolio × List StopCheck} {c : StopCheck} (h : CheckInv acc)
    (hc : c.stop.posType = c.posType) (hs : checkOne cfg env date acc c = .ok acc') (sym : Sym) :
    drift acc'.1 sym = drift acc.1 sym := by
  rcases checkOne_cases hs with ⟨_, sd, h1⟩ | ⟨_, hni, p, e, market, sd, hp, he, _, _, h1⟩
  · rw [h1]; rfl
  · rw [h1]
    obtain ⟨hpm, hps⟩ := lookupPos_some hp
    have hpt : p.type = c.posType := (h.wf.pos _ p hpm).type
    obtain ⟨o, ho, o1, o2, o3⟩ := stopExited_orders cfg env date { acc.1 with stopData := sd } p e
      c.stop market
    unfold drift
    rw [netOrdered_snoc _ _ o ho]
    have hnet : netOrdered { acc.1 with stopData := sd } sym = netOrdered acc.1 sym := rfl
    rw [hnet]
    have hb := stopExited_book cfg env date { acc.1 with stopData := sd } p e c.stop market
    have hb' := fun pt h => stopExited_book_ne cfg env date { acc.1 with stopData := sd } p e
      c.stop market (pt := pt) h
    have hin : (p.takeShares e e.shares).symbol ∈ (acc.1.book c.posType).map Position.symbol := by
      rw [takeShares_symbol]; exact List.mem_map.2 ⟨p, hpm, rfl⟩
    have hsh : (p.takeShares e e.shares).shares = p.shares - e.shares := takeShares_shares ..
    have hold : p.symbol = sym → sharesOf (acc.1.book c.posType) sym = p.shares := by
      intro e0; unfold sharesOf; rw [← e0, hps, hp]
    have key : ∀ x : ℚ, sharesOf (replacePos (acc.1.book c.posType) (p.takeShares e e.shares)) sym =
        sharesOf (acc.1.book c.posType) sym - (if p.symbol = sym then e.shares else 0) := by
      intro _
      rw [sharesOf_replace hin, takeShares_symbol]
      by_cases hps' : p.symbol = sym
      · rw [if_pos hps', if_pos hps', hold hps', hsh]
      · rw [if_neg hps', if_neg hps', sub_zero]
    have key := key 0
    rw [o1]
    simp only [stopData_book] at hb hb'
    cases hcp : c.posType with
    | long =>
      rw [hpt, hcp] at hb hb'
      rw [hcp] at key
      have h2 := hb' .short (by simp)
      simp only [Portfolio.book] at hb h2 key
      rw [hb, h2, key]
      have : o.side = .sell := by rw [o2]; unfold Stop.exitSide; rw [hc, hcp]
      by_cases hps' : p.symbol = sym
      · simp only [if_pos hps', signed, this, o3]; ring
      · simp only [if_neg hps']; ring
    | short =>
      rw [hpt, hcp] at hb hb'
      rw [hcp] at key
      have h2 := hb' .long (by simp)
      simp only [Portfolio.book] at hb h2 key
      rw [hb, h2, key]
      have : o.side = .buy := by rw [o2]; unfold Stop.exitSide; rw [hc, hcp]
      by_cases hps' : p.symbol = sym
      · simp only [if_pos hps', signed, this, o3]; ring
      · simp only [if_neg hps']; ring

theorem finish_hold {s : Portfolio} {c : StopCheck} {cs : List StopCheck}
    (h : WF ((c :: cs).map StopCheck.entryId) s) (sym : Sym) :
    drift (finishStop s c) sym = drift s sym := by
  unfold finishStop
  rcases Option.eq_none_or_eq_some (lookupPos (s.book c.posType) c.symbol) with hp | ⟨p, hp⟩
  · rw [hp]
  rw [hp]
  simp only
  rcases Option.eq_none_or_eq_some (findEntry p.entries c.entryId) with he | ⟨e, he⟩
  · rw [he]
  rw [he]
  simp only
  obtain ⟨hpm, hps⟩ := lookupPos_some hp
  obtain ⟨hem, hei⟩ := findEntry_some he
  have hpw := h.pos _ p hpm
  have hz : e.shares = 0 := by
    rcases (hpw.entries e hem).shares with h1 | h1
    · exact h1.2
    · exact absurd (by rw [hei]; simp) h1.1
  obtain ⟨sd, ac, hr⟩ := removeStopData_frame e.stops s
  have hdrop := hpw.drop he hz
  generalize hq : ({ p with entries := eraseEntry p.entries c.entryId } : Position) = q at hdrop ⊢
  have hqs : q.symbol = p.symbol := by rw [← hq]
  have hqsh : q.shares = p.shares := by rw [← hq]
  have hqt : q.type = c.posType := by rw [← hq]; exact hpw.type
  have hin : q.symbol ∈ (s.book c.posType).map Position.symbol := by
    rw [hqs]; exact List.mem_map.2 ⟨p, hpm, rfl⟩
  have ho := (updatePosition_orders (s.removeStopData e.stops) q).1
  have hbook : ∀ pt, sharesOf (((s.removeStopData e.stops).updatePosition q).book pt) sym =
      sharesOf (s.book pt) sym := by
    intro pt
    have hcases : ((s.removeStopData e.stops).updatePosition q).book pt =
        if c.posType = pt then (if q.entries ≠ [] then replacePos (s.book pt) q
          else erasePos (s.book pt) q.symbol) else s.book pt := by
      unfold Portfolio.updatePosition
      rw [hqt]
      have e1 : ∀ ps, ((s.removeStopData e.stops).setBook c.posType ps).book pt =
          if c.posType = pt then ps else s.book pt := by
        intro ps
        by_cases hpt : c.posType = pt
        · rw [if_pos hpt, ← hpt, book_setBook]
        · rw [if_neg hpt, book_setBook_ne _ _ hpt, removeStopData_book]
      by_cases hne : q.entries ≠ []
      · rw [if_pos hne, if_pos hne, e1]
        by_cases hpt : c.posType = pt
        · rw [if_pos hpt, if_pos hpt, removeStopData_book, hpt]
        · rw [if_neg hpt, if_neg hpt]
      · rw [if_neg hne, if_neg hne]
        simp only
        have e2 : ∀ (t : Portfolio) l, ({ t with symbols := l } : Portfolio).book pt = t.book pt := by
          intro t l; cases pt <;> rfl
        split
        · rw [e2, e1]
          by_cases hpt : c.posType = pt
          · rw [if_pos hpt, if_pos hpt, removeStopData_book, hpt]
          · rw [if_neg hpt, if_neg hpt]
        · rw [e1]
          by_cases hpt : c.posType = pt
          · rw [if_pos hpt, if_pos hpt, removeStopData_book, hpt]
          · rw [if_neg hpt, if_neg hpt]
    rw [hcases]
    by_cases hpt : c.posType = pt
    · subst hpt
      rw [if_pos rfl]
      by_cases hne : q.entries ≠ []
      · rw [if_pos hne, sharesOf_replace hin]
        by_cases hs : q.symbol = sym
        · rw [if_pos hs]
          unfold sharesOf
          rw [← hs, hqs, hps, hp]
          exact hqsh
        · rw [if_neg hs]
      · rw [if_neg hne]
        by_cases hs : q.symbol = sym
        · have h0 : q.shares = 0 := by rw [hdrop.shares, not_not.1 hne]; simp
          unfold sharesOf
          rw [← hs, lookupPos_erasePos_self (h.nodup _), hqs, hps, hp]
          simp only
          rw [← hqsh, h0]
        · exact sharesOf_lookup (lookupPos_erasePos_ne hs)
    · rw [if_neg hpt]
  unfold drift netOrdered
  rw [ho]
  have h1 := hbook .long
  have h2 := hbook .short
  simp only [Portfolio.book] at h1 h2
  rw [h1, h2, hr]

theorem finishAll_hold (cs : List StopCheck) (s : Portfolio)
    (h : WF (cs.map StopCheck.entryId) s) (hne : NE s) (hloc : ∀ c' ∈ cs, Located s c')
    (sym : Sym) : drift (cs.foldl finishStop s) sym = drift s sym := by
  induction cs generalizing s with
  | nil => rfl
  | cons c cs ih =>
    obtain ⟨h1, h2, h3⟩ := finish_good h hne hloc
    rw [List.foldl_cons, ih _ h1 h2 (fun c' hc' => h3.located (hloc c' (by simp [hc'])))]
    exact finish_hold h sym

theorem checkStops_hold {cfg : Config} {env : StopEnv} {date : Date} {s s' : Portfolio}
    (hg : Good s) (hf : StopsFit s) (h : checkStops cfg s date env = .ok s') (sym : Sym) :
    drift s' sym = drift s sym := by
  obtain ⟨acc, acc2, h1, h2, rfl⟩ := checkStops_cases h
  obtain ⟨⟨i1, sub1⟩, i2, sub2⟩ := checkLoops_inv hg hf h1 h2
  rw [finishAll_hold acc2.2 acc2.1 i2.wf i2.ne i2.loc]
  have i0 : CheckInv (s, []) := ⟨hg.wf, hg.ne, by simp, by simp⟩
  have a1 : CheckInv acc ∧ drift acc.1 sym = drift s sym :=
    foldE_inv_mem (fun b => CheckInv b ∧ drift b.1 sym = drift s sym) (priceChecks env s)
      (fun b a b' ha hb hs => ⟨(hb.1.step (priceChecks_fit env s a ha) hs).1,
        (checkOne_hold hb.1 (priceChecks_fit env s a ha) hs sym).trans hb.2⟩) _ _
      ⟨i0, rfl⟩ h1
  have hfit := barChecks_fit (env := env) i1.wf (sub1.fit hf)
  have a2 : CheckInv acc2 ∧ drift acc2.1 sym = drift s sym :=
    foldE_inv_mem (fun b => CheckInv b ∧ drift b.1 sym = drift s sym) (barChecks env acc.1)
      (fun b a b' ha hb hs => ⟨(hb.1.step (hfit a ha) hs).1,
        (checkOne_hold hb.1 (hfit a ha) hs sym).trans hb.2⟩) _ _ a1 h2
  exact a2.2

theorem exitPosition_hold {cfg : Config} {s s' : Portfolio} {date : Date} {sym0 : Sym}
    {bf sf : ℚ} {slip : Option SlipFn} (hg : Good s)
    (h : exitPosition cfg s date sym0 bf sf slip = .ok s') (sym : Sym) :
    drift s' sym = drift s sym := by
  obtain ⟨s1, h1, h2⟩ := exitPosition_cases h
  have g1 : Good s1 ∧ drift s1 sym = drift s sym := by
    rcases h1 with ⟨_, rfl⟩ | ⟨p, o, _, h1⟩
    · exact ⟨hg, rfl⟩
    · exact ⟨placeOrder_good hg h1, placeOrder_hold hg h1 sym⟩
  rcases h2 with ⟨_, rfl⟩ | ⟨p, o, _, h2⟩
  · exact g1.2
  · exact (placeOrder_hold g1.1 h2 sym).trans g1.2

theorem removeStopsSym_log (s : Portfolio) (sym : Sym) (t : Option StopType) :
    (removeStopsSym s sym t).orders = s.orders := by
  have h1 : ∀ s id, (removeStopsEntry s id t).orders = s.orders := by
    intro s id
    unfold removeStopsEntry
    split
    · rfl
    · unfold removeEntryStops
      split
      · exact (sameLog_removeStopData s _).orders
      · split
        · rfl
        · exact (sameLog_removeStop s _).orders
  have h2 : ∀ s p, (removePositionStops s p t).orders = s.orders := by
    intro s p
    unfold removePositionStops
    generalize p.entries = es
    induction es generalizing s with
    | nil => rfl
    | cons e es ih => rw [List.foldl_cons, ih, h1]
  unfold removeStopsSym
  simp only
  rcases Option.eq_none_or_eq_some (lookupPos s.longs sym) with hp | ⟨p, hp⟩
  · rw [hp]
    simp only
    split
    · rfl
    · exact h2 _ _
  · rw [hp]
    simp only
    split
    · exact h2 _ _
    · rw [h2, h2]

theorem removeStopsEntry_log (s : Portfolio) (id : Nat) (t : Option StopType) :
    (removeStopsEntry s id t).orders = s.orders := by
  unfold removeStopsEntry
  split
  · rfl
  · unfold removeEntryStops
    split
    · exact (sameLog_removeStopData s _).orders
    · split
      · rfl
      · exact (sameLog_removeStop s _).orders

theorem step_hold {cfg : Config} {s s' : Portfolio} {op : Op} (hg : Good s) (hf : StopsFit s)
    (h : step cfg s op = .ok s') (sym : Sym) : drift s' sym = drift s sym := by
  have hpo : ∀ (sd : Side) r, (placeOrder cfg sd s r).map Prod.snd = .ok s' →
      drift s' sym = drift s sym := by
    intro sd r h
    rcases hb : placeOrder cfg sd s r with e | ⟨o, t⟩
    · rw [hb] at h; simp [Except.map] at h
    · rw [hb] at h
      simp only [Except.map, Except.ok.injEq] at h
      subst h
      exact placeOrder_hold hg hb sym
  cases op with
  | buy r => exact hpo .buy r h
  | sell r => exact hpo .sell r h
  | exitPosition d sym' b q slip => exact exitPosition_hold hg h sym
  | captureBar d quote =>
    simp only [step, Except.ok.injEq] at h
    subst h
    exact drift_same (captureBar_same cfg s d quote) (log_capture cfg s d quote).1 sym
  | incrBars hb =>
    simp only [step, Except.ok.injEq] at h
    subst h
    exact drift_same (incrBars_same s hb) rfl sym
  | checkStops d env => exact checkStops_hold hg hf h sym
  | removeStop id =>
    simp only [step, Except.ok.injEq] at h
    subst h
    exact drift_same (removeStop_same s id) (sameLog_removeStop s id).orders sym
  | removeStopsSym sy t =>
    simp only [step, Except.ok.injEq] at h
    subst h
    exact drift_same (removeStopsSym_same s sy t) (removeStopsSym_log s sy t) sym
  | removeStopsEntry id t =>
    simp only [step, Except.ok.injEq] at h
    subst h
    exact drift_same (removeStopsEntry_same s id t) (removeStopsEntry_log s id t) sym

theorem run_hold {cfg : Config} {ops : List Op} {s : Portfolio} (hfit : ∀ op ∈ ops, op.Fit)
    (h : run cfg ops = .ok s) (sym : Sym) : drift s sym = 0 := by
  have := foldE_inv_mem (fun b => (Good b ∧ StopsFit b) ∧ drift b sym = 0) ops
    (fun b op b' hop hb hs => ⟨step_good hb.1.1 hb.1.2 (hfit op hop) hs,
      (step_hold hb.1.1 hb.1.2 hs sym).trans hb.2⟩) _ _
    ⟨⟨Good.init cfg, StopsFit.init cfg⟩, by simp [drift, netOrdered, Portfolio.init, sharesOf,
      lookupPos]⟩ h
  exact this.2

end PyBroker
