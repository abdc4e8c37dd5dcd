import Verif.Props.Orders

/-!
# C14: buying power

The cap is proved for orders that do not first close an opposite position, with
fees, and for every opening order with fees apart.  `leverage_cap_flip_fails`
shows that an order that covers and then opens can break the cap once fees are
counted: only the fees of the opened part are reserved.
-/

namespace PyBroker

open Spec

/-! ## Helpers -/

theorem truncQ_le {x : ℚ} (h : 0 ≤ x) : (truncQ x : ℚ) ≤ x := by
  unfold truncQ
  rw [if_neg (not_lt.2 h)]
  exact Int.floor_le x

theorem truncNano_le {x : ℚ} (h : 0 ≤ x) : truncNano x ≤ x := by
  unfold truncNano
  have := truncQ_le (x := x * 1000000000) (by positivity)
  rw [div_le_iff₀ (by norm_num)]
  exact this

theorem maxShares_le {cfg : Config} {bp fill : ℚ} (hb : 0 ≤ bp) (hf : 0 < fill) :
    maxShares cfg bp fill ≤ bp / fill := by
  unfold maxShares
  have h := div_nonneg hb hf.le
  split
  · exact truncNano_le h
  · exact truncQ_le h

/-- What may be opened within the buying power. -/
theorem clamp_afford {cfg : Config} {s : Portfolio} {sym : Sym} {fill m n : ℚ} {sd : Side}
    (hf : 0 < fill) (hn : 0 < n) (h : n ≤ (s.clampShares cfg sym fill m sd).1) :
    n * fill ≤ (s.availableBuyingPower cfg).1 ∧
      (1 < cfg.leverage → MonotoneFees cfg → n * fill +
        calculateFees cfg sym fill n sd * cfg.leverage ≤ (s.availableBuyingPower cfg).1) := by
  have hb : 0 ≤ (s.availableBuyingPower cfg).1 := by
    unfold Portfolio.availableBuyingPower
    split
    · exact le_max_right _ _
    · exact le_max_right _ _
  unfold Portfolio.clampShares at h
  simp only at h
  generalize (s.availableBuyingPower cfg).1 = bp at *
  generalize (s.availableBuyingPower cfg).2 = s1 at *
  by_cases h1 : cfg.leverage ≤ 1 ∧ s.cash < 0
  · rw [if_pos h1] at h
    exact absurd hn (not_lt.2 h)
  · rw [if_neg h1] at h
    have hmul : ∀ b, 0 ≤ b → n ≤ min m (maxShares cfg b fill) → n ≤ m ∧ n * fill ≤ b := by
      intro b hb h
      refine ⟨h.trans (min_le_left _ _), ?_⟩
      have := (h.trans (min_le_right _ _)).trans (maxShares_le hb hf)
      rwa [le_div_iff₀ hf] at this
    by_cases hl : cfg.leverage > 1
    · rw [if_pos hl] at h
      by_cases hfee : calculateFees cfg sym fill (min m (bp / fill)) sd > 0
      · rw [if_pos hfee] at h
        by_cases hbp : bp - calculateFees cfg sym fill (min m (bp / fill)) sd * cfg.leverage ≤ 0
        · rw [if_pos hbp] at h
          exact absurd hn (not_lt.2 h)
        · rw [if_neg hbp] at h
          obtain ⟨hm, hle⟩ := hmul _ (not_le.1 hbp).le h
          have hpos : 0 < calculateFees cfg sym fill (min m (bp / fill)) sd * cfg.leverage :=
            mul_pos hfee (by linarith)
          refine ⟨by linarith, fun _ hmono => ?_⟩
          have hna : n ≤ min m (bp / fill) := le_min hm (by
            rw [le_div_iff₀ hf]; linarith)
          have := hmono sym fill sd n _ hn.le hna hf
          have := mul_le_mul_of_nonneg_right this (by linarith : (0 : ℚ) ≤ cfg.leverage)
          linarith
      · rw [if_neg hfee] at h
        obtain ⟨hm, hle⟩ := hmul _ hb h
        refine ⟨hle, fun _ hmono => ?_⟩
        have hna : n ≤ min m (bp / fill) := le_min hm (by rw [le_div_iff₀ hf]; exact hle)
        have := hmono sym fill sd n _ hn.le hna hf
        have : calculateFees cfg sym fill n sd * cfg.leverage ≤ 0 :=
          mul_nonpos_of_nonpos_of_nonneg (this.trans (not_lt.1 hfee)) (by linarith)
        linarith
    · rw [if_neg hl] at h
      exact ⟨(hmul _ hb h).2, fun hl' => absurd hl' hl⟩

/-- The marked value of a book and what it cost. -/
def bookMark (s : Portfolio) (pt : PosType) : ℚ := ((s.book pt).map heldMark).sum
def bookCost (s : Portfolio) (pt : PosType) : ℚ := ((s.book pt).map cost).sum

theorem gross_eq (s : Portfolio) : gross s = bookMark s .long + bookMark s .short := by
  unfold gross bookMark
  rw [List.map_append, List.sum_append]; rfl

theorem openCost_books (s : Portfolio) : openCost s = bookCost s .long + bookCost s .short := by
  unfold openCost openEntries bookCost
  rw [sum_map_flatMap, List.map_append, List.sum_append]; rfl

theorem liveValue_eq (cfg : Config) (s : Portfolio) : liveValue cfg s =
    netBalance cfg s + bookMark s .long + (2 * bookCost s .short - bookMark s .short) := by
  have key : ∀ ps : List Position, (ps.map (fun p => 2 * cost p - heldMark p)).sum =
      2 * (ps.map cost).sum - (ps.map heldMark).sum := by
    intro ps
    induction ps with
    | nil => simp
    | cons p ps ih => simp only [List.map_cons, List.sum_cons, ih]; ring
  unfold liveValue bookMark bookCost
  rw [key]; rfl

theorem bookMark_marked {s : Portfolio} (hw : WF [] s) (hm : MarksInv s) (pt : PosType) :
    bookMark s pt = sumMarked (s.book pt) := by
  unfold bookMark sumMarked
  congr 1
  apply List.map_congr_left
  intro p hp
  exact (marked_spec (hw.pos pt p hp) (hm.pos pt p hp)).symm

theorem bookCost_notional {s : Portfolio} (hw : WF [] s) (pt : PosType) :
    bookCost s pt = s.notional pt := by
  unfold bookCost
  rw [hw.notional pt]
  congr 1
  apply List.map_congr_left
  intro p hp
  exact ((hw.pos pt p hp).notional).symm

theorem cacheOK_after (s : Portfolio) (h : CacheOK s) :
    s.longMarketValue.2.shortMarketValue.1 = sumMarked s.shorts ∧
    CacheOK s.longMarketValue.2.shortMarketValue.2 ∧
    s.longMarketValue.2.shortMarketValue.2.longs = s.longs ∧
    s.longMarketValue.2.shortMarketValue.2.shorts = s.shorts ∧
    s.longMarketValue.2.shortMarketValue.2.cash = s.cash ∧
    s.longMarketValue.2.shortMarketValue.2.accrued = s.accrued ∧
    s.longMarketValue.2.shortMarketValue.2.longNotional = s.longNotional ∧
    s.longMarketValue.2.shortMarketValue.2.shortNotional = s.shortNotional := by
  have h1 : CacheOK s.longMarketValue.2 ∧ s.longMarketValue.2.shorts = s.shorts ∧
      s.longMarketValue.2.longs = s.longs ∧ s.longMarketValue.2.cash = s.cash ∧
      s.longMarketValue.2.accrued = s.accrued ∧
      s.longMarketValue.2.longNotional = s.longNotional ∧
      s.longMarketValue.2.shortNotional = s.shortNotional := by
    unfold Portfolio.longMarketValue
    split
    · exact ⟨h, rfl, rfl, rfl, rfl, rfl, rfl⟩
    · exact ⟨⟨Or.inr rfl, h.short⟩, rfl, rfl, rfl, rfl, rfl, rfl⟩
  obtain ⟨hc, e1, e2, e3, e4, e5, e6⟩ := h1
  generalize s.longMarketValue.2 = t at *
  have h2 : CacheOK t.shortMarketValue.2 ∧ t.shortMarketValue.2.shorts = t.shorts ∧
      t.shortMarketValue.2.longs = t.longs ∧ t.shortMarketValue.2.cash = t.cash ∧
      t.shortMarketValue.2.accrued = t.accrued ∧
      t.shortMarketValue.2.longNotional = t.longNotional ∧
      t.shortMarketValue.2.shortNotional = t.shortNotional := by
    unfold Portfolio.shortMarketValue
    split
    · exact ⟨hc, rfl, rfl, rfl, rfl, rfl, rfl⟩
    · exact ⟨⟨hc.long, Or.inr rfl⟩, rfl, rfl, rfl, rfl, rfl, rfl⟩
  obtain ⟨hc2, f1, f2, f3, f4, f5, f6⟩ := h2
  exact ⟨by rw [hc.shortMv, e1], hc2, by rw [f2, e2], by rw [f1, e1], by rw [f3, e3],
    by rw [f4, e4], by rw [f5, e5], by rw [f6, e6]⟩

theorem live_spec {cfg : Config} {s : Portfolio} (hw : WF [] s) (hm : MarksInv s) :
    (s.liveMarketValue cfg).1 = liveValue cfg s := by
  have ha := cacheOK_after s hm.cache
  unfold Portfolio.liveMarketValue
  simp only
  rw [liveValue_eq, netBalance_eq hw, bookMark_marked hw hm, bookMark_marked hw hm,
    bookCost_notional hw, ha.1, hm.cache.longMv]
  unfold Portfolio.netCash
  show _ = s.cash - s.marginLoan cfg + sumMarked s.longs +
    (2 * s.shortNotional - sumMarked s.shorts)
  ring

/-- Buying power in terms of the specification. -/
theorem buyingPower_spec {cfg : Config} {s : Portfolio} (hw : WF [] s) (hm : MarksInv s) :
    (s.availableBuyingPower cfg).1 =
      if cfg.leverage ≤ 1 then max s.cash 0
      else max (liveValue cfg s * cfg.leverage - gross s) 0 := by
  unfold Portfolio.availableBuyingPower
  by_cases hl : cfg.leverage ≤ 1
  · rw [if_pos hl, if_pos hl]
  · rw [if_neg hl, if_neg hl]
    simp only
    have ha := cacheOK_after s hm.cache
    obtain ⟨h1, hc, e2, e3, e4, e5, e6, e7⟩ := ha
    rw [h1, hm.cache.longMv, gross_eq, bookMark_marked hw hm, bookMark_marked hw hm]
    have hlive : (s.longMarketValue.2.shortMarketValue.2.liveMarketValue cfg).1 =
        liveValue cfg s := by
      rw [← live_spec hw hm]
      have hb := cacheOK_after _ hc
      have ha := cacheOK_after s hm.cache
      unfold Portfolio.liveMarketValue
      simp only
      rw [hb.1, hc.longMv, ha.1, hm.cache.longMv, e2, e3, e4, e7]
      unfold Portfolio.marginLoan
      rw [e5, e6, e7]
    rw [hlive]
    rfl

theorem cost_opened (s : Portfolio) (pt : PosType) (date : Date) (sym : Sym) (n fill : ℚ)
    (es : List Stop) (p : Position) :
    cost (openedPos s pt date sym n fill es (some p)) = cost p + n * fill := by
  unfold cost
  show ((p.entries ++ [newEntry s pt date sym n fill es]).map _).sum = _
  rw [List.map_append, List.sum_append]
  simp [newEntry]

theorem heldMark_opened (s : Portfolio) (pt : PosType) (date : Date) (sym : Sym) (n fill : ℚ)
    (es : List Stop) (p : Position) :
    heldMark (openedPos s pt date sym n fill es (some p)) = heldMark p + n * fill := by
  unfold heldMark
  rw [cost_opened]
  show (if 0 < p.close then (p.shares + n - (p.unmarkedShares + n)) * p.close +
    (p.unmarkedNotional + n * fill) else _) = _
  split <;> ring

theorem cost_new (s : Portfolio) (pt : PosType) (date : Date) (sym : Sym) (n fill : ℚ)
    (es : List Stop) : cost (openedPos s pt date sym n fill es none) = n * fill := by
  simp [cost, openedPos, newEntry]

theorem heldMark_new (s : Portfolio) (pt : PosType) (date : Date) (sym : Sym) (n fill : ℚ)
    (es : List Stop) : heldMark (openedPos s pt date sym n fill es none) = n * fill := by
  unfold heldMark
  rw [cost_new]
  show (if (0 : ℚ) < 0 then _ else _) = _
  simp

theorem sum_openedBook (f : Position → ℚ) {s : Portfolio} {pt : PosType} {date : Date} {sym : Sym}
    {n fill : ℚ} {es : List Stop}
    (hnew : f (openedPos s pt date sym n fill es none) = n * fill)
    (hadd : ∀ p, f (openedPos s pt date sym n fill es (some p)) = f p + n * fill) :
    ((openedBook s pt date sym n fill es).map f).sum = ((s.book pt).map f).sum + n * fill := by
  unfold openedBook
  rcases Option.eq_none_or_eq_some (lookupPos (s.book pt) sym) with hn | ⟨p, hp⟩
  · rw [hn]
    simp only [List.map_append, List.sum_append, List.map_cons, List.map_nil, List.sum_cons,
      List.sum_nil, hnew, add_zero]
  · rw [hp]
    simp only
    obtain ⟨_, hsym⟩ := lookupPos_some hp
    rw [sum_replacePos f (p := p) (by
      show lookupPos (s.book pt) p.symbol = some p
      rw [hsym]; exact hp), hadd]
    ring

/-- The effect of opening `n` shares on exposure, live value and cash. -/
theorem opened_values {cfg : Config} {s : Portfolio} {pt : PosType} {date : Date} {sym : Sym}
    {n fill : ℚ} {es : List Stop} {sd : List StopData} {ac : List (Sym × List Nat)} :
    gross (openedPf cfg s pt date sym n fill es sd ac) = gross s + n * fill ∧
    liveValue cfg (openedPf cfg s pt date sym n fill es sd ac) = liveValue cfg s := by
  have hcost : ∀ t : Portfolio, t.book pt = openedBook s pt date sym n fill es →
      bookCost t pt = bookCost s pt + n * fill := by
    intro t ht
    unfold bookCost
    rw [ht]
    exact sum_openedBook cost (cost_new ..) (fun p => cost_opened ..)
  have hmark : ∀ t : Portfolio, t.book pt = openedBook s pt date sym n fill es →
      bookMark t pt = bookMark s pt + n * fill := by
    intro t ht
    unfold bookMark
    rw [ht]
    exact sum_openedBook heldMark (heldMark_new ..) (fun p => heldMark_opened ..)
  have hl := (lev_eq cfg)
  have hlp := levOf_pos cfg
  rw [gross_eq, gross_eq, liveValue_eq, liveValue_eq]
  unfold netBalance
  rw [openCost_books, openCost_books, hl]
  cases pt with
  | long =>
    have h1 := hcost (openedPf cfg s .long date sym n fill es sd ac) rfl
    have h2 := hmark (openedPf cfg s .long date sym n fill es sd ac) rfl
    have h3 : bookCost (openedPf cfg s .long date sym n fill es sd ac) .short =
      bookCost s .short := rfl
    have h4 : bookMark (openedPf cfg s .long date sym n fill es sd ac) .short =
      bookMark s .short := rfl
    rw [h1, h2, h3, h4]
    refine ⟨by ring, ?_⟩
    show s.cash - n * fill / levOf cfg - _ - s.accrued + _ + _ = _
    field_simp
    ring
  | short =>
    have h1 := hcost (openedPf cfg s .short date sym n fill es sd ac) rfl
    have h2 := hmark (openedPf cfg s .short date sym n fill es sd ac) rfl
    have h3 : bookCost (openedPf cfg s .short date sym n fill es sd ac) .long =
      bookCost s .long := rfl
    have h4 : bookMark (openedPf cfg s .short date sym n fill es sd ac) .long =
      bookMark s .long := rfl
    rw [h1, h2, h3, h4]
    refine ⟨by ring, ?_⟩
    show s.cash - n * fill / levOf cfg - _ - s.accrued + _ + _ = _
    field_simp
    ring

theorem fees_zero {cfg : Config} (h : cfg.feeMode.isSome = false) (sym : Sym) (fill n : ℚ)
    (sd : Side) : calculateFees cfg sym fill n sd = 0 := by
  unfold calculateFees
  cases hm : cfg.feeMode with
  | none => rfl
  | some m => rw [hm] at h; cases h

theorem addOrder_cash (cfg : Config) (s : Portfolio) (date : Date) (sym : Sym) (sd : Side)
    (created : Option Date) (ot : OrderType) (intent : Intent) (sh : ℚ) (limit mp : Option ℚ)
    (fill : ℚ) :
    (s.addOrder cfg date sym sd created ot intent sh limit mp fill).2.cash =
      s.cash - calculateFees cfg sym fill sh sd := by
  unfold Portfolio.addOrder
  simp only
  cases h : cfg.feeMode.isSome with
  | true => rfl
  | false => rw [fees_zero h]; simp

theorem addOrder_values (cfg : Config) (s : Portfolio) (date : Date) (sym : Sym) (sd : Side)
    (created : Option Date) (ot : OrderType) (intent : Intent) (sh : ℚ) (limit mp : Option ℚ)
    (fill : ℚ) :
    gross (s.addOrder cfg date sym sd created ot intent sh limit mp fill).2 = gross s ∧
    liveValue cfg (s.addOrder cfg date sym sd created ot intent sh limit mp fill).2 =
      liveValue cfg s - calculateFees cfg sym fill sh sd := by
  refine ⟨rfl, ?_⟩
  have hc := addOrder_cash cfg s date sym sd created ot intent sh limit mp fill
  have h1 : ∀ t : Portfolio, t.longs = s.longs → t.shorts = s.shorts → t.accrued = s.accrued →
      t.cash = s.cash - calculateFees cfg sym fill sh sd →
      liveValue cfg t = liveValue cfg s - calculateFees cfg sym fill sh sd := by
    intro t e1 e2 e3 e4
    unfold liveValue netBalance openCost openEntries
    rw [e1, e2, e3, e4]; ring
  exact h1 _ rfl rfl rfl hc

theorem placeOrder_cap {cfg : Config} {sd : Side} {s s' : Portfolio} {r : OrderReq} {o : Order}
    (hg : Good s) (hmk : MarksInv s) (h : placeOrder cfg sd s r = .ok (some o, s'))
    (hopen : held (s.book sd.opens) r.symbol < held (s'.book sd.opens) r.symbol) :
    (1 < cfg.leverage → gross s' ≤ cfg.leverage * (liveValue cfg s' + o.fees)) ∧
    (1 < cfg.leverage → MonotoneFees cfg → held (s.book sd.closes) r.symbol = 0 →
      gross s' ≤ cfg.leverage * liveValue cfg s') ∧
    (cfg.leverage ≤ 1 → 0 ≤ s'.cash + o.fees) := by
  have hfill := (placeOrder_cases h).2.1
  have hsh0 := (placeOrder_cases h).1
  have hnd : ∀ t : Portfolio, Good t → ((t.book sd.opens).map Position.symbol).Nodup :=
    fun t ht => ht.wf.nodup _
  have hg' := placeOrder_good hg h
  generalize ho : some o = oo at h
  cases placeOrder_effect hg h with
  | nothing a b _ => cases ho
  | closed c a b hc hfi hlim hm =>
    exfalso
    by_cases hsh : 0 < r.shares
    · have hcf := closeShares_facts (cfg := cfg) (pt := sd.closes) (date := r.date)
        (sym := r.symbol) (fill := r.fill) hg.wf hg.ne hsh
      rw [← hc] at hcf
      have hb := hcf.otherSide _ (Side.closes_ne_opens sd)
      have he : ∀ t : Portfolio, t.book sd.opens = c.pf.book sd.opens →
          held (t.book sd.opens) r.symbol = held (s.book sd.opens) r.symbol := by
        intro t ht
        rw [ht, hb]
      refine absurd (hopen.trans_eq (he _ ?_)) (lt_irrefl _)
      cases sd <;> rfl
    · have h0 : r.shares = 0 := le_antisymm (not_lt.1 hsh) hsh0
      obtain ⟨_, _, _, hcase⟩ := placeOrder_cases h
      rcases hcase with ⟨h1, _⟩ | ⟨_, hpos, _⟩
      · cases h1
      · exact absurd hpos hsh
  | opened c n sts sda ac hc hn hle hlim hclamp hcap hmode hstops =>
    cases ho
    have hsh : 0 < r.shares := by
      obtain ⟨_, _, _, hcase⟩ := placeOrder_cases h
      rcases hcase with ⟨h1, _⟩ | ⟨_, hpos, _⟩
      · cases h1
      · exact hpos
    have hcf := closeShares_facts (cfg := cfg) (pt := sd.closes) (date := r.date)
      (sym := r.symbol) (fill := r.fill) hg.wf hg.ne hsh
    have hst := closeShares_steps (cfg := cfg) (Q := Guard.any) (pt := sd.closes) (date := r.date)
      (sym := r.symbol) (shares := r.shares) (fill := r.fill) trivial hg.wf
    rw [← hc] at hcf hst
    have hcm : MarksInv c.pf := hst.inv (fun s t hp hs => MarksInv.prim hp hs) hmk
    have haff := clamp_afford hfill hn hclamp
    rw [buyingPower_spec hcf.wf hcm] at haff
    have hv := opened_values (cfg := cfg) (s := c.pf) (pt := sd.opens) (date := r.date)
      (sym := r.symbol) (n := n) (fill := r.fill) (es := sts) (sd := sda) (ac := ac)
    have hav := addOrder_values cfg (openedPf cfg c.pf sd.opens r.date r.symbol n r.fill sts sda ac)
      r.date r.symbol sd r.created r.orderType (intentOf sd n) (c.filled + n) r.limit
      r.marketPrice r.fill
    have hac := addOrder_cash cfg (openedPf cfg c.pf sd.opens r.date r.symbol n r.fill sts sda ac)
      r.date r.symbol sd r.created r.orderType (intentOf sd n) (c.filled + n) r.limit
      r.marketPrice r.fill
    rw [hav.1, hav.2, hac, hv.1, hv.2]
    have hnf : 0 < n * r.fill := mul_pos hn hfill
    refine ⟨fun hl => ?_, fun hl hmono hzero => ?_, fun hl => ?_⟩
    · rw [if_neg (not_le.2 hl)] at haff
      have h1 := haff.1
      rcases le_max_iff.1 h1 with h2 | h2
      · show _ ≤ cfg.leverage * (liveValue cfg c.pf - calculateFees cfg r.symbol r.fill
          (c.filled + n) sd + calculateFees cfg r.symbol r.fill (c.filled + n) sd)
        linarith
      · linarith
    · rw [if_neg (not_le.2 hl)] at haff
      have hz : c.filled = 0 := by
        have h1 := hcf.held
        rw [held_eq (hg.wf.nodup _)] at hzero
        rw [hzero] at h1
        have h2 : 0 ≤ sharesOf (c.pf.book sd.closes) r.symbol := by
          unfold sharesOf
          split
          · exact le_refl _
          · rename_i p hp
            exact (hcf.wf.pos _ _ (lookupPos_some hp).1).shares_nonneg
        have h3 := hcf.filled_nonneg
        linarith
      have h1 := haff.2 hl hmono
      rw [hz, zero_add]
      rcases le_max_iff.1 h1 with h2 | h2
      · linarith
      · rcases le_max_iff.1 haff.1 with h3 | h3
        · by_cases hp : liveValue cfg c.pf * cfg.leverage - gross c.pf ≤ 0
          · linarith
          · have : max (liveValue cfg c.pf * cfg.leverage - gross c.pf) 0 =
              liveValue cfg c.pf * cfg.leverage - gross c.pf := max_eq_left (not_le.1 hp).le
            rw [this] at h1
            linarith
        · linarith
    · rw [if_pos hl] at haff
      have h1 := haff.1
      have hlev : levOf cfg = 1 := by unfold levOf; rw [if_neg (not_lt.2 hl)]
      show 0 ≤ c.pf.cash - n * r.fill / levOf cfg - calculateFees cfg r.symbol r.fill
          (c.filled + n) sd + calculateFees cfg r.symbol r.fill (c.filled + n) sd
      rw [hlev, div_one]
      rcases le_max_iff.1 h1 with h2 | h2
      · linarith
      · linarith

/-! ## C14 -/

/-- C14, buys.  An order that opens exposure keeps gross exposure at mark within
leverage times live value: with fees when no short is covered first, and apart
from its own fees in any case.  At leverage 1 it does not spend more than the
cash, its own fees apart. -/
theorem buy_leverage_cap_partial {cfg : Config} {ops : List Op} {s s' : Portfolio} {r : OrderReq}
    {o : Order} (hfit : ∀ op ∈ ops, op.Fit) (h : run cfg ops = .ok s)
    (hb : buy cfg s r = .ok (some o, s')) (hopen : held s.longs r.symbol < held s'.longs r.symbol) :
    (1 < cfg.leverage → gross s' ≤ cfg.leverage * (liveValue cfg s' + o.fees)) ∧
    (1 < cfg.leverage → MonotoneFees cfg → held s.shorts r.symbol = 0 →
      gross s' ≤ cfg.leverage * liveValue cfg s') ∧
    (cfg.leverage ≤ 1 → 0 ≤ s'.cash + o.fees) :=
  placeOrder_cap (sd := .buy) (run_good hfit h).1 (run_marks hfit h) hb hopen

/-- C14, sells. -/
theorem sell_leverage_cap_partial {cfg : Config} {ops : List Op} {s s' : Portfolio} {r : OrderReq}
    {o : Order} (hfit : ∀ op ∈ ops, op.Fit) (h : run cfg ops = .ok s)
    (hb : sell cfg s r = .ok (some o, s'))
    (hopen : held s.shorts r.symbol < held s'.shorts r.symbol) :
    (1 < cfg.leverage → gross s' ≤ cfg.leverage * (liveValue cfg s' + o.fees)) ∧
    (1 < cfg.leverage → MonotoneFees cfg → held s.longs r.symbol = 0 →
      gross s' ≤ cfg.leverage * liveValue cfg s') ∧
    (cfg.leverage ≤ 1 → 0 ≤ s'.cash + o.fees) :=
  placeOrder_cap (sd := .sell) (run_good hfit h).1 (run_marks hfit h) hb hopen

/-! ### Why the cap is only partial -/

namespace Flip

def cfg : Config :=
  { cash := 1000, leverage := 2, feeMode := some .perShare, feeAmount := some 1 }

def s : Portfolio := Demo.okD (Portfolio.init cfg)
  (run cfg [.sell { date := 1, symbol := "A", shares := 100, fill := 10 }])

def flip : OrderReq := { date := 2, symbol := "A", shares := 500, fill := 10 }

end Flip

/-- Covering a short of 100 and opening a long breaks the cap: the fee of the
covered shares is not reserved. -/
theorem leverage_cap_flip_fails :
    ∃ (cfg : Config) (ops : List Op) (s s' : Portfolio) (r : OrderReq) (o : Order),
      (∀ op ∈ ops, op.Fit) ∧ run cfg ops = .ok s ∧ MonotoneFees cfg ∧ 1 < cfg.leverage ∧
      buy cfg s r = .ok (some o, s') ∧ held s.longs r.symbol < held s'.longs r.symbol ∧
      cfg.leverage * liveValue cfg s' < gross s' := by
  refine ⟨Flip.cfg, [.sell { date := 1, symbol := "A", shares := 100, fill := 10 }], Flip.s,
    Demo.pfD (buy Flip.cfg Flip.s Flip.flip), Flip.flip, Demo.orderD (buy Flip.cfg Flip.s Flip.flip),
    ?_, Demo.ok_okD (by decide +kernel), ?_, by decide +kernel, Demo.filled_eq (by decide +kernel),
    by decide +kernel, by decide +kernel⟩
  · simp [Op.Fit]
  · intro sym fill side a b _ hab _
    show 1 * a ≤ 1 * b
    linarith

/-! ### The hypotheses are met -/

/-- A leveraged purchase with a fee per share uses the buying power up. -/
example : (Demo.orderD (buy Flip.cfg (Portfolio.init Flip.cfg) Flip.flip)).shares = 160 ∧
    gross (Demo.pfD (buy Flip.cfg (Portfolio.init Flip.cfg) Flip.flip)) = 1600 ∧
    liveValue Flip.cfg (Demo.pfD (buy Flip.cfg (Portfolio.init Flip.cfg) Flip.flip)) = 840 := by
  decide +kernel

example := buy_leverage_cap_partial (cfg := Flip.cfg) (ops := []) (by simp) rfl
  (Demo.filled_eq (x := buy Flip.cfg (Portfolio.init Flip.cfg) Flip.flip) (by decide +kernel))
  (by decide +kernel)

end PyBroker
