import Verif.Props.Capture
import Verif.Props.Leverage
import Verif.Props.Logs
import Verif.Props.Books

/-!
# C121 and C122: fees follow the schedule, and cash is not overdrawn

Without leverage an order only spends cash that is there.  Cash can fall below zero only by the
fees charged and by what shorts have lost; without these it never does.
-/

namespace PyBroker

open Spec

namespace Spec

/-- What short trades have lost. -/
def shortLosses (s : Portfolio) : ℚ :=
  ((s.trades.filter (fun t => decide (t.type = .short))).map (fun t => max (-t.pnl) 0)).sum

/-- The fee of an order by a schedule: a percentage of what is traded, an amount for each order or
each share, or what a function gives for the order. -/
def feeBy (mode : FeeMode) (amount : ℚ) (o : Order) : ℚ :=
  match mode with
  | .orderPercent => o.shares * o.fillPrice * (amount / 100)
  | .perOrder => amount
  | .perShare => o.shares * amount
  | .custom f => f { symbol := o.symbol, shares := o.shares, fillPrice := o.fillPrice, side := o.side }

/-- The closes of captured bars are positive. -/
def PositiveCloses (op : Op) : Prop :=
  match op with
  | .captureBar _ quote => ∀ sym c, (quote sym).close = some c → 0 < c
  | _ => True

end Spec

/-! ## C121 -/

/-- **C121, partial.**  Every order of a history is charged what the fee schedule says, and nothing
without one.  Missing: a fee function without an amount, see `fee_function_ignored`. -/
theorem order_fees_partial {cfg : Config} {ops : List Op} {s : Portfolio} (hfit : ∀ op ∈ ops, op.Fit)
    (h : run cfg ops = .ok s) :
    s.fees = (s.orders.map Order.fees).sum ∧
    (∀ mode amount, cfg.feeMode = some mode → cfg.feeAmount = some amount →
      ∀ o ∈ s.orders, o.fees = feeBy mode amount o) ∧
    (cfg.feeMode = none → ∀ o ∈ s.orders, o.fees = 0) := by
  have hl := run_log hfit h
  refine ⟨hl.fees, fun mode amount hm ha o ho => ?_, fun hm o ho => ?_⟩
  · rw [hl.orderFees o ho]
    unfold calculateFees feeBy
    rw [hm, ha]
    cases mode <;> simp only <;> ring
  · rw [hl.orderFees o ho]
    unfold calculateFees
    rw [hm]

/-- C121 falls short: without a fee amount a fee function is never called. -/
theorem fee_function_ignored (cash : ℚ) (f : FeeInfo → ℚ) {ops : List Op} {s : Portfolio}
    (hfit : ∀ op ∈ ops, op.Fit)
    (h : run { cash := cash, feeMode := some (.custom f) } ops = .ok s) :
    ∀ o ∈ s.orders, o.fees = 0 := by
  intro o ho
  rw [(run_log hfit h).orderFees o ho]
  rfl

/-! ## C122 -/

/-- The invariant of C122. -/
def Floor (s : Portfolio) : Prop :=
  (∀ o ∈ s.orders, 0 ≤ o.fees) → 0 ≤ s.cash + feesCharged s + shortLosses s

theorem shortLosses_nonneg (s : Portfolio) : 0 ≤ shortLosses s := by
  unfold shortLosses
  apply List.sum_nonneg
  intro x hx
  obtain ⟨t, _, rfl⟩ := List.mem_map.1 hx
  exact le_max_right _ _

theorem feesCharged_nonneg {s : Portfolio} (h : ∀ o ∈ s.orders, 0 ≤ o.fees) :
    0 ≤ feesCharged s := by
  unfold feesCharged
  apply List.sum_nonneg
  intro x hx
  obtain ⟨o, ho, rfl⟩ := List.mem_map.1 hx
  exact h o ho

theorem Floor.same {s t : Portfolio} (h : Floor s) (hs : SameLog s t) : Floor t := by
  unfold Floor shortLosses feesCharged at *
  rw [hs.orders, hs.trades, hs.cash]
  exact h

theorem Floor.prim {cfg : Config} (hl : cfg.leverage ≤ 1) {Q : Guard} (hQ : ∀ x, Q.price x → 0 < x)
    {s t : Portfolio} (hp : Prim cfg Q s t) (h : Floor s) : Floor t := by
  have hlev : levOf cfg = 1 := by unfold levOf; rw [if_neg (not_lt.2 hl)]
  cases hp with
  | @exit Z _ pt p e sh fill date st hw hp he hz h0 hle hq =>
    refine Floor.same ?_ (sameLog_store _ _ _)
    have hem := (hw.pos pt p (lookupPos_some hp).1).entries e (findEntry_some he).1
    intro hfees
    have h1 := h hfees
    have hpay : 0 ≤ sh * e.price := mul_nonneg h0.le hem.price.le
    have hgot : 0 ≤ sh * fill := mul_nonneg h0.le (hQ _ hq).le
    have hc : (exitPf cfg s pt e sh fill date st).cash =
        s.cash + (sh * e.price + gain pt sh e.price fill) := by
      unfold exitPf
      simp only
      rw [hlev, div_one]
    have hf : feesCharged (exitPf cfg s pt e sh fill date st) = feesCharged s := rfl
    have hs : shortLosses (exitPf cfg s pt e sh fill date st) =
        shortLosses s + if pt = .short then max (-gain pt sh e.price fill) 0 else 0 := by
      unfold shortLosses exitPf
      simp only [List.filter_append, List.map_append, List.sum_append]
      congr 1
      have ht : (exitTrade s pt e sh fill date st).type = pt := hem.type
      have hg : (exitTrade s pt e sh fill date st).pnl = gain pt sh e.price fill := rfl
      by_cases hpt : pt = .short
      · rw [if_pos hpt, List.filter_cons_of_pos (by rw [ht, hpt]; rfl)]
        simp [hg]
      · rw [if_neg hpt, List.filter_cons_of_neg (by rw [ht]; simpa using hpt)]
        simp
    rw [hc, hf, hs]
    cases pt with
    | long =>
      rw [if_neg (by simp)]
      unfold gain
      simp only
      linarith
    | short =>
      rw [if_pos rfl]
      have := le_max_left (-gain .short sh e.price fill) 0
      linarith
  | drop hw hp he hz => exact h.same ((sameLog_removeStopData _ _).trans (sameLog_store _ _ _))
  | close hw hp hnil =>
    rename_i pt p
    refine h.same ?_
    cases pt <;> (constructor <;> rfl)
  | @opened _ sd date sym n m fill stops es sda ac hw h0 hf hno hclamp hnm hcap hmode hfit hS hadd =>
    intro hfees
    have hfees : ∀ o ∈ s.orders, 0 ≤ o.fees := hfees
    have ha := (clamp_afford hf h0 hclamp).1
    unfold Portfolio.availableBuyingPower at ha
    rw [if_pos hl] at ha
    have hpos : 0 < n * fill := mul_pos h0 hf
    have hcash : n * fill ≤ s.cash := by
      rcases le_max_iff.1 ha with h1 | h1
      · exact h1
      · linarith
    have hc : (openedPf cfg s sd.opens date sym n fill es sda ac).cash = s.cash - n * fill := by
      show s.cash - n * fill / levOf cfg = _
      rw [hlev, div_one]
    have h1 : feesCharged (openedPf cfg s sd.opens date sym n fill es sda ac) = feesCharged s := rfl
    have h2 : shortLosses (openedPf cfg s sd.opens date sym n fill es sda ac) = shortLosses s := rfl
    rw [hc, h1, h2]
    have := feesCharged_nonneg hfees
    have := shortLosses_nonneg s
    linarith
  | @order _ date sym sd created ot intent sh limit mp fill h0 hlim hq =>
    intro hfees
    have hs : ∀ o ∈ s.orders, 0 ≤ o.fees := fun o ho =>
      hfees o (List.mem_append_left _ ho)
    have h1 := h hs
    have hc := addOrder_cash cfg s date sym sd created ot intent sh limit mp fill
    have h2 : shortLosses (s.addOrder cfg date sym sd created ot intent sh limit mp fill).2 =
        shortLosses s := rfl
    have h3 : feesCharged (s.addOrder cfg date sym sd created ot intent sh limit mp fill).2 =
        feesCharged s + calculateFees cfg sym fill sh sd := by
      unfold feesCharged Portfolio.addOrder
      simp
    rw [hc, h2, h3]
    linarith
  | caches hm => refine h.same ?_; constructor <;> rfl
  | stopValue id v => refine h.same ?_; constructor <;> rfl
  | incr hasBar => refine h.same ?_; constructor <;> rfl
  | removeStop id hw => exact h.same (sameLog_removeStop _ _)
  | clearStops hw hp he =>
    rename_i pt p e
    refine h.same ((sameLog_removeStopData s e.stops).trans ?_)
    constructor <;> rfl

/-- Interest takes no more than the cash there is. -/
theorem interest_cash (cfg : Config) (s : Portfolio) :
    (s.applyInterest cfg).orders = s.orders ∧ (s.applyInterest cfg).trades = s.trades ∧
      (0 ≤ (s.applyInterest cfg).cash ∨ s.cash ≤ (s.applyInterest cfg).cash) := by
  obtain ⟨c, a, hf⟩ := applyInterest_frame cfg s
  refine ⟨by rw [hf], by rw [hf], ?_⟩
  unfold Portfolio.applyInterest
  rcases hb : cfg.barsPerYear with _ | bpy
  · exact Or.inr le_rfl
  · simp only
    by_cases hr : cfg.interestRate ≤ 0
    · rw [if_pos hr]; exact Or.inr le_rfl
    · rw [if_neg hr]
      have hsw : 0 ≤ s.sweepAccrued.cash ∨ s.cash ≤ s.sweepAccrued.cash := by
        unfold Portfolio.sweepAccrued
        split
        · exact Or.inr le_rfl
        · rename_i hx
          left
          simp only
          have := min_le_left s.cash s.accrued
          linarith
      have hge : ∀ x : ℚ, s.sweepAccrued.cash ≤ x → 0 ≤ x ∨ s.cash ≤ x := by
        intro x hx
        rcases hsw with h1 | h1
        · exact Or.inl (h1.trans hx)
        · exact Or.inr (h1.trans hx)
      split
      · exact hge _ le_rfl
      · split
        · exact hge _ le_rfl
        · apply hge
          simp only
          have hrate : 0 ≤ cfg.interestRate / 100 / (bpy : ℚ) := by
            have := (not_le.1 hr).le
            positivity
          have := mul_nonneg (abs_nonneg (s.sweepAccrued.netCash cfg)) hrate
          linarith

theorem Floor.capture {cfg : Config} {s : Portfolio} (date : Date) (quote : Sym → BarQuote)
    (h : Floor s) : Floor (captureBar cfg s date quote) := by
  refine Floor.same ?_ (sameLog_capture cfg s date quote)
  obtain ⟨h1, h2, h3⟩ := interest_cash cfg s
  unfold Floor feesCharged shortLosses
  rw [h1, h2]
  intro hfees
  have h4 := h hfees
  have h5 := feesCharged_nonneg hfees
  have h6 := shortLosses_nonneg s
  unfold feesCharged at h4 h5
  unfold shortLosses at h4 h6
  rcases h3 with h3 | h3 <;> linarith

theorem positive_fills {ops : List Op} (hpos : ∀ op ∈ ops, op.PositivePrices) :
    ∀ op ∈ ops, op.Fills ⟨fun x => 0 < x, fun _ => True, True, True⟩ := by
  intro op hop
  have hp := hpos op hop
  cases op <;> first
    | exact ⟨fun _ h => h, trivial⟩
    | exact trivial
    | exact ⟨StopEnv.Positive.fills hp, trivial⟩

/-- **C122.**  Without leverage, and unless a fee is negative, cash falls below zero by at most the
fees charged and the losses of short trades. -/
theorem cash_floor {cfg : Config} {ops : List Op} {s : Portfolio} (hfit : ∀ op ∈ ops, op.Fit)
    (hpos : ∀ op ∈ ops, op.PositivePrices) (h : run cfg ops = .ok s) (hl : cfg.leverage ≤ 1)
    (hc : 0 ≤ cfg.cash) (hfees : ∀ o ∈ s.orders, 0 ≤ o.fees) :
    0 ≤ s.cash + feesCharged s + shortLosses s := by
  have : Floor s :=
    runFrom_inv (Q := ⟨fun x => 0 < x, fun _ => True, True, True⟩) hfit (positive_fills hpos)
      (Good.init cfg) (StopsFit.init cfg) h
      (fun _ _ hp hs => Floor.prim hl (fun _ h => h) hp hs) (fun _ date quote _ hs => hs.capture date quote)
      (by intro _; simp [Portfolio.init, feesCharged, shortLosses, hc])
  exact this hfees

/-! ### Long only -/

/-- The invariant of a long-only portfolio without leverage and fees. -/
structure NoDebt (cfg : Config) (s : Portfolio) : Prop where
  limits : LimitsInv cfg s
  cash : 0 ≤ s.cash
  accrued : s.accrued = 0

theorem NoDebt.same {cfg : Config} {s t : Portfolio} (h : NoDebt cfg s) (ht : LimitsInv cfg t)
    (hs : SameLog s t) : NoDebt cfg t :=
  ⟨ht, by rw [hs.cash]; exact h.cash, by rw [hs.accrued]; exact h.accrued⟩

theorem NoDebt.prim {cfg : Config} (hl : cfg.leverage ≤ 1) (hm : cfg.positionMode = .longOnly)
    (hfee : cfg.feeMode = none) {Q : Guard} (hQ : ∀ x, Q.price x → 0 < x) {s t : Portfolio}
    (hp : Prim cfg Q s t) (h : NoDebt cfg s) : NoDebt cfg t := by
  have hlev : levOf cfg = 1 := by unfold levOf; rw [if_neg (not_lt.2 hl)]
  have ht : LimitsInv cfg t := LimitsInv.prim hp h.limits
  have hshort : s.shorts = [] := h.limits.mode .short (fun ha => ha hm)
  cases hp with
  | @exit Z _ pt p e sh fill date st hw hp he hz h0 hle hq =>
    refine NoDebt.same (s := exitPf cfg s pt e sh fill date st) ?_ ht (sameLog_store _ _ _)
    refine ⟨h.limits.shrink (fun pt' => by rw [exitPf_book]), ?_, h.accrued⟩
    have hgot : 0 ≤ sh * fill := mul_nonneg h0.le (hQ _ hq).le
    cases pt with
    | long =>
      show 0 ≤ s.cash + (sh * e.price / levOf cfg + gain .long sh e.price fill)
      rw [hlev, div_one]
      unfold gain
      simp only
      linarith [h.cash]
    | short =>
      have hp : lookupPos s.shorts p.symbol = some p := hp
      rw [hshort] at hp
      cases hp
  | drop hw hp he hz => exact h.same ht ((sameLog_removeStopData _ _).trans (sameLog_store _ _ _))
  | close hw hp hnil =>
    rename_i pt p
    refine h.same ht ?_
    cases pt <;> (constructor <;> rfl)
  | @opened _ sd date sym n m fill stops es sda ac hw h0 hf hno hclamp hnm hcap hmode hfit hS hadd =>
    refine ⟨ht, ?_, h.accrued⟩
    have ha := (clamp_afford hf h0 hclamp).1
    unfold Portfolio.availableBuyingPower at ha
    rw [if_pos hl] at ha
    have hpos : 0 < n * fill := mul_pos h0 hf
    show 0 ≤ s.cash - n * fill / levOf cfg
    rw [hlev, div_one]
    rcases le_max_iff.1 ha with h1 | h1 <;> linarith
  | @order _ date sym sd created ot intent sh limit mp fill h0 hlim hq =>
    refine ⟨ht, ?_, h.accrued⟩
    rw [addOrder_cash, fees_zero (by rw [hfee]; rfl)]
    linarith [h.cash]
  | caches hm => refine h.same ht ?_; constructor <;> rfl
  | stopValue id v => refine h.same ht ?_; constructor <;> rfl
  | incr hasBar => refine h.same ht ?_; constructor <;> rfl
  | removeStop id hw => exact h.same ht (sameLog_removeStop _ _)
  | clearStops hw hp he =>
    rename_i pt p e
    refine h.same ht ((sameLog_removeStopData s e.stops).trans ?_)
    constructor <;> rfl

theorem NoDebt.netCash {cfg : Config} (hl : cfg.leverage ≤ 1) {s : Portfolio} (h : NoDebt cfg s) :
    s.netCash cfg = s.cash := by
  unfold Portfolio.netCash Portfolio.marginLoan
  rw [if_pos hl, h.accrued]
  ring

theorem NoDebt.interest {cfg : Config} (hl : cfg.leverage ≤ 1) {s : Portfolio} (h : NoDebt cfg s) :
    NoDebt cfg (s.applyInterest cfg) := by
  refine ⟨h.limits.shrink (fun pt => by rw [applyInterest_book]), ?_, ?_⟩
  · rcases (interest_cash cfg s).2.2 with h1 | h1
    · exact h1
    · exact h.cash.trans h1
  · have hsw : s.sweepAccrued = s := by
      unfold Portfolio.sweepAccrued
      rw [if_pos (Or.inl h.accrued.le)]
    unfold Portfolio.applyInterest
    rcases hb : cfg.barsPerYear with _ | bpy
    · exact h.accrued
    · simp only [hsw, h.netCash hl]
      split
      · exact h.accrued
      · split
        · exact h.accrued
        · rw [if_neg (not_lt.2 h.cash)]
          exact h.accrued

/-- **C122, long only.**  Without leverage and fees a long-only portfolio never owes anything. -/
theorem long_only_no_debt {cfg : Config} {ops : List Op} {s : Portfolio} (hfit : ∀ op ∈ ops, op.Fit)
    (hpos : ∀ op ∈ ops, op.PositivePrices) (h : run cfg ops = .ok s) (hl : cfg.leverage ≤ 1)
    (hm : cfg.positionMode = .longOnly) (hfee : cfg.feeMode = none) (hc : 0 ≤ cfg.cash) :
    0 ≤ s.cash ∧ s.accrued = 0 := by
  have : NoDebt cfg s :=
    runFrom_inv (Q := ⟨fun x => 0 < x, fun _ => True, True, True⟩) hfit (positive_fills hpos)
      (Good.init cfg) (StopsFit.init cfg) h
      (fun _ _ hp hs => NoDebt.prim hl hm hfee (fun _ h => h) hp hs)
      (fun s date quote _ hs => (hs.interest hl).same (hs.limits.capture date quote)
        (sameLog_capture cfg s date quote))
      ⟨LimitsInv.init cfg, hc, rfl⟩
  exact ⟨this.cash, this.accrued⟩

theorem newestNotional_nonneg : ∀ (es : List Entry) (rem : ℚ),
    (∀ e ∈ es, 0 ≤ e.shares ∧ 0 ≤ e.price) → 0 ≤ newestNotional es rem
  | [], _, _ => le_rfl
  | e :: es, rem, h => by
    unfold newestNotional
    split
    · exact le_rfl
    · rename_i hr
      have h1 := h e List.mem_cons_self
      have h2 := newestNotional_nonneg es (rem - min e.shares rem) (fun x hx => h x (List.mem_cons_of_mem _ hx))
      have h3 : 0 ≤ min e.shares rem := le_min h1.1 (not_le.1 hr).le
      have := mul_nonneg h3 h1.2
      simp only
      rw [min_comm]
      linarith

/-- The cost of fills since the last mark is not negative. -/
theorem unmarkedNotional_rules : PosRules (fun _ p => 0 ≤ p.unmarkedNotional) where
  take := by
    intro pt Z p e sh hw he h0 hle h
    unfold Position.takeShares Position.clampUnmarked
    simp only
    split
    · exact h
    · split
      · exact le_rfl
      · split
        · apply newestNotional_nonneg
          intro x hx
          rw [List.mem_reverse] at hx
          obtain ⟨hem, _⟩ := findEntry_some he
          have key : ∀ (l : List Entry), (∀ y ∈ l, 0 ≤ y.shares ∧ 0 ≤ y.price) →
              (∀ y ∈ l, y.id = e.id → sh ≤ y.shares) →
              ∀ y ∈ modEntry e.id (fun e => { e with shares := e.shares - sh }) l,
                0 ≤ y.shares ∧ 0 ≤ y.price := by
            intro l
            induction l with
            | nil => intro _ _ y hy; cases hy
            | cons a l ih =>
              intro h1 h2 y hy
              unfold modEntry at hy
              split at hy
              · rename_i ha
                rcases List.mem_cons.1 hy with rfl | hy
                · have := h2 a List.mem_cons_self ha
                  exact ⟨by simp only; linarith, (h1 a List.mem_cons_self).2⟩
                · exact h1 y (List.mem_cons_of_mem _ hy)
              · rcases List.mem_cons.1 hy with rfl | hy
                · exact h1 _ List.mem_cons_self
                · exact ih (fun z hz => h1 z (List.mem_cons_of_mem _ hz))
                    (fun z hz => h2 z (List.mem_cons_of_mem _ hz)) y hy
          refine key p.entries (fun y hy => ?_) (fun y hy hid => ?_) x hx
          · have := hw.entries y hy
            refine ⟨?_, this.price.le⟩
            rcases this.shares with h | h
            · exact h.2.ge
            · exact h.2.le
          · have : y = e := by
              have hnd : (p.entries.map Entry.id).Nodup := hw.ids.imp (fun h => ne_of_lt h)
              exact List.inj_on_of_nodup_map hnd hy hem hid
            rw [this]; exact hle
        · exact h
  entries := fun _ _ _ h => h
  new := by
    intro s pt date sym n fill es h0 hf
    show 0 ≤ _
    have := mul_nonneg h0.le hf.le
    simp only [openedPos]
    linarith
  add := by
    intro s pt date sym n fill es p h0 hf h
    have := mul_nonneg h0.le hf.le
    simp only [openedPos]
    linarith
  markLong := fun _ _ _ _ _ _ _ => le_rfl
  markShort := fun _ _ _ _ _ _ _ => le_rfl
  bars := fun _ _ _ h => h

theorem run_unmarked {cfg : Config} {ops : List Op} {s : Portfolio} (hfit : ∀ op ∈ ops, op.Fit)
    (h : run cfg ops = .ok s) : AllPos (fun _ p => 0 ≤ p.unmarkedNotional) s :=
  run_inv hfit h (fun _ _ hp hs => AllPos.prim unmarkedNotional_rules hp hs)
    (fun _ d q hw hs => AllPos.captureBar unmarkedNotional_rules d q hw hs)
    (by intro pt p hp; cases pt <;> cases hp)

/-- A position is worth something. -/
theorem quoted_nonneg {pt : PosType} {p : Position} {quote : Sym → BarQuote} (hw : PosWF pt [] p)
    (hm : MarkOK p) (hu : 0 ≤ p.unmarkedNotional)
    (hq : ∀ sym c, (quote sym).close = some c → 0 < c) : 0 ≤ quoted quote p := by
  have hs : 0 ≤ p.shares := hm.nonneg.trans hm.le
  unfold quoted
  rcases hc : (quote p.symbol).close with _ | c
  · simp only
    rw [marked_spec hw hm]
    unfold heldMark cost
    split
    · rename_i h0
      have := mul_nonneg (sub_nonneg.2 hm.le) h0.le
      linarith
    · apply List.sum_nonneg
      intro x hx
      obtain ⟨e, he, rfl⟩ := List.mem_map.1 hx
      have := hw.entries e he
      have h1 : 0 ≤ e.shares := by
        rcases this.shares with h | h
        · exact h.2.ge
        · exact h.2.le
      exact mul_nonneg h1 this.price.le
  · exact mul_nonneg hs (hq _ _ hc).le

/-- **C122, the recorded bar.**  Without leverage and fees the market value of a long-only portfolio
is never below its cash, which is never below zero. -/
theorem long_only_solvent {cfg : Config} {ops : List Op} {s' : Portfolio} {date : Date}
    {quote : Sym → BarQuote} (hfit : ∀ op ∈ ops, op.Fit) (hpos : ∀ op ∈ ops, op.PositivePrices)
    (h : run cfg (ops ++ [.captureBar date quote]) = .ok s') (hl : cfg.leverage ≤ 1)
    (hm : cfg.positionMode = .longOnly) (hfee : cfg.feeMode = none) (hc : 0 ≤ cfg.cash)
    (hq : ∀ sym c, (quote sym).close = some c → 0 < c) :
    ∃ s bar, run cfg ops = .ok s ∧ s'.metrics = s.metrics ++ [bar] ∧ bar.date = date ∧
      0 ≤ bar.cash ∧ bar.cash ≤ bar.marketValue ∧ bar.equity = bar.marketValue ∧
      bar.marginLoan = 0 := by
  obtain ⟨s, bar, hs, hmet, hd, hcash, _, hloan, _, _, hmv, _⟩ := recorded_bar hfit h
  have hfit' : ∀ op ∈ ops ++ [Op.captureBar date quote], op.Fit := by
    intro op hop
    rcases List.mem_append.1 hop with h | h
    · exact hfit op h
    · rw [List.mem_singleton.1 h]; trivial
  have hpos' : ∀ op ∈ ops ++ [Op.captureBar date quote], op.PositivePrices := by
    intro op hop
    rcases List.mem_append.1 hop with h | h
    · exact hpos op h
    · rw [List.mem_singleton.1 h]; trivial
  have hnd := long_only_no_debt hfit' hpos' h hl hm hfee hc
  obtain ⟨s0, hs0, hstep⟩ := run_snoc h
  have : s0 = s := Except.ok.inj (hs0.symm.trans hs)
  subst this
  have hs' : s' = captureBar cfg s0 date quote := by
    simp only [step] at hstep; exact (Except.ok.inj hstep).symm
  have hmet2 := capture_metrics cfg s0 date quote
  have hbar : bar = captureRecord cfg (captureTotals (captureAcc cfg s0 quote)) date
      (captureAcc cfg s0 quote).longValue := by
    rw [← hs', hmet] at hmet2
    exact List.head_eq_of_cons_eq (List.append_cancel_left hmet2)
  have hmvb : bar.marketValue = s'.marketValue := by rw [hbar, hs']; rfl
  have hg := (run_good hfit hs).1
  have hshort : s0.shorts = [] := (position_mode hfit hs).1 hm
  have hv := captureBar_mv (cfg := cfg) date quote hg.wf
  rw [← hs', hshort] at hv
  have hnd0 := long_only_no_debt hfit hpos hs hl hm hfee hc
  have h1 := NoDebt.interest hl (s := s0) ⟨run_limits hfit hs, hnd0.1, hnd0.2⟩
  rw [h1.netCash hl, ← (sameLog_capture cfg s0 date quote).cash, ← hs'] at hv
  have hlev : lev cfg = 1 := by unfold lev; rw [if_neg (not_lt.2 hl)]
  have hsum : 0 ≤ (s0.longs.map (quoted quote)).sum := by
    apply List.sum_nonneg
    intro x hx
    obtain ⟨p, hp, rfl⟩ := List.mem_map.1 hx
    exact quoted_nonneg (hg.wf.pos .long p hp) ((run_marks hfit hs).pos .long p hp)
      (run_unmarked hfit hs .long p hp) hq
  simp only [List.map_nil, List.sum_nil, add_zero] at hv
  refine ⟨s0, bar, hs, hmet, hd, ?_, ?_, ?_, ?_⟩
  · rw [hcash]; exact hnd.1
  · rw [hcash, hmvb, hv]; linarith
  · rw [hshort] at hmv
    simp at hmv
    exact hmv.symm
  · rw [hloan, hlev, hnd.2]; ring

/-! ### Where cash is overdrawn -/

/-- C122 falls short: a buy with all cash does not leave the fee, and cash is overdrawn. -/
theorem fees_overdraw :
    ∃ s, run { cash := 1000, positionMode := .longOnly, feeMode := some .perOrder, feeAmount := some 5 }
      [.buy { date := 1, symbol := "AAA", shares := 10, fill := 100 }] = .ok s ∧
      s.cash = -5 ∧ s.orders.map Order.shares = [10] := by
  refine ⟨Demo.okD (Portfolio.init { cash := 0 }) _, Demo.ok_okD (by decide +kernel), ?_⟩
  decide +kernel

/-- C122 falls short: a short that loses more than its entry value overdraws cash. -/
theorem shorts_overdraw :
    ∃ s, run { cash := 1000 }
      [.sell { date := 1, symbol := "AAA", shares := 10, fill := 100 },
       .buy { date := 2, symbol := "AAA", shares := 10, fill := 300 }] = .ok s ∧
      s.cash = -1000 ∧ s.trades.map Trade.pnl = [-2000] := by
  refine ⟨Demo.okD (Portfolio.init { cash := 0 }) _, Demo.ok_okD (by decide +kernel), ?_⟩
  decide +kernel

/-! ### Non-vacuity -/

namespace Demo

/-- A long-only history: a buy of more than cash allows, a bar, a partial sale and a bar. -/
def csOps : List Op :=
  [.buy { date := 1, symbol := "AAA", shares := 30, fill := 40 },
   .captureBar 1 (fun _ => ⟨some 41, some 39, some 42⟩),
   .sell { date := 2, symbol := "AAA", shares := 10, fill := 38 },
   .buy { date := 2, symbol := "BBB", shares := 3, fill := 7 }]

def csCfg : Config := { cash := 1000, positionMode := .longOnly }

theorem csFit : ∀ op ∈ csOps, op.Fit := by simp [csOps, Op.Fit]

theorem csPos : ∀ op ∈ csOps, op.PositivePrices := by simp [csOps, Op.PositivePrices]

def csQuote (_ : Sym) : BarQuote := ⟨some 36, some 35, some 37⟩

theorem csRun : run csCfg (csOps ++ [.captureBar 2 csQuote]) =
    .ok (okD (Portfolio.init csCfg) (run csCfg (csOps ++ [.captureBar 2 csQuote]))) :=
  ok_okD (by decide +kernel)

theorem csRun0 : run csCfg csOps = .ok (okD (Portfolio.init csCfg) (run csCfg csOps)) :=
  ok_okD (by decide +kernel)

/-- Fees by the percentage of the order. -/
def csFees : Config := { cash := 1000, feeMode := some .orderPercent, feeAmount := some 1 }

theorem csRun1 : run csFees csOps = .ok (okD (Portfolio.init csFees) (run csFees csOps)) :=
  ok_okD (by decide +kernel)

end Demo

example := (order_fees_partial Demo.csFit Demo.csRun1).2.1 _ _ rfl rfl
example : (Demo.okD (Portfolio.init Demo.csFees) (run Demo.csFees Demo.csOps)).orders.map Order.fees =
    [10, 19 / 5, 21 / 100] := by decide +kernel
example := (order_fees_partial Demo.csFit Demo.csRun0).2.2 rfl
example := cash_floor Demo.csFit Demo.csPos Demo.csRun1 (by norm_num [Demo.csFees])
  (by norm_num [Demo.csFees]) (by decide +kernel)
example := long_only_no_debt Demo.csFit Demo.csPos Demo.csRun0 (by norm_num [Demo.csCfg]) rfl rfl
  (by norm_num [Demo.csCfg])
example := long_only_solvent Demo.csFit Demo.csPos Demo.csRun (by norm_num [Demo.csCfg]) rfl rfl
  (by norm_num [Demo.csCfg]) (fun _ c h => by
    have h : (36 : ℚ) = c := Option.some.inj h
    rw [← h]; norm_num)
example : (Demo.okD (Portfolio.init Demo.csCfg)
    (run Demo.csCfg (Demo.csOps ++ [.captureBar 2 Demo.csQuote]))).metrics.map
      (fun b => (b.cash, b.marketValue)) = [(0, 1025), (359, 1007)] := by decide +kernel

end PyBroker
