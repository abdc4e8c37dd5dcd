import Verif.Portfolio.Entries

/-!
# Helper lemmas: invariants of the logs, the ledger, caps, modes and marks
-/

namespace PyBroker

/-! ## Fields untouched by bookkeeping -/

/-- The fields of the cash ledger and of the logs. -/
structure SameLog (s t : Portfolio) : Prop where
  cash : t.cash = s.cash
  fees : t.fees = s.fees
  accrued : t.accrued = s.accrued
  pnl : t.pnl = s.pnl
  orders : t.orders = s.orders
  trades : t.trades = s.trades
  wins : t.wins = s.wins
  orderId : t.orderId = s.orderId
  tradeId : t.tradeId = s.tradeId
  longNotional : t.longNotional = s.longNotional
  shortNotional : t.shortNotional = s.shortNotional

theorem SameLog.refl (s : Portfolio) : SameLog s s := by constructor <;> rfl

theorem SameLog.trans {s t u : Portfolio} (h : SameLog s t) (h' : SameLog t u) : SameLog s u := by
  constructor
  · exact h'.cash.trans h.cash
  · exact h'.fees.trans h.fees
  · exact h'.accrued.trans h.accrued
  · exact h'.pnl.trans h.pnl
  · exact h'.orders.trans h.orders
  · exact h'.trades.trans h.trades
  · exact h'.wins.trans h.wins
  · exact h'.orderId.trans h.orderId
  · exact h'.tradeId.trans h.tradeId
  · exact h'.longNotional.trans h.longNotional
  · exact h'.shortNotional.trans h.shortNotional

theorem sameLog_store (s : Portfolio) (pt : PosType) (p : Position) : SameLog s (s.store pt p) := by
  cases pt <;> (constructor <;> rfl)

theorem sameLog_setBook (s : Portfolio) (pt : PosType) (ps : List Position) :
    SameLog s (s.setBook pt ps) := by
  cases pt <;> (constructor <;> rfl)

theorem sameLog_removeStopData (s : Portfolio) (l : List Stop) :
    SameLog s (s.removeStopData l) := by
  obtain ⟨sd, ac, h⟩ := removeStopData_frame l s
  rw [h]; constructor <;> rfl

theorem sameLog_removeStop (s : Portfolio) (id : Nat) : SameLog s (removeStop s id).2 := by
  unfold removeStop
  split
  · constructor <;> rfl
  · simp only
    split
    · constructor <;> rfl
    · split
      · constructor <;> rfl
      · exact SameLog.refl s

theorem sameLog_captureLong (q : BarQuote) (acc : CaptureAcc) (sym : Sym) :
    SameLog acc.pf (captureLong q acc sym).pf := by
  unfold captureLong
  split
  · exact SameLog.refl _
  · split
    · constructor <;> rfl
    · exact SameLog.refl _

theorem sameLog_captureShort (q : BarQuote) (acc : CaptureAcc) (sym : Sym) :
    SameLog acc.pf (captureShort q acc sym).pf := by
  unfold captureShort
  split
  · exact SameLog.refl _
  · split
    · constructor <;> rfl
    · exact SameLog.refl _

theorem sameLog_captureFold (quote : Sym → BarQuote) (syms : List Sym) (acc : CaptureAcc) :
    SameLog acc.pf (syms.foldl (captureSym quote) acc).pf := by
  induction syms generalizing acc with
  | nil => exact SameLog.refl _
  | cons sym syms ih =>
    exact ((sameLog_captureLong _ _ _).trans (sameLog_captureShort _ _ _)).trans (ih _)

theorem sameLog_capture (cfg : Config) (s : Portfolio) (date : Date) (quote : Sym → BarQuote) :
    SameLog (s.applyInterest cfg) (captureBar cfg s date quote) := by
  have h := sameLog_captureFold quote
      ((s.applyInterest cfg).symbols.insertionSort (fun a b => a ≤ b))
      { pf := s.applyInterest cfg, equity := (s.applyInterest cfg).netCash cfg,
        marketValue := (s.applyInterest cfg).netCash cfg, margin := 0, longValue := 0 }
  refine h.trans ?_
  constructor <;> rfl

/-- How an elementary change acts on the ledger and the logs. -/
inductive LogStep (cfg : Config) (Q : ℚ → Prop) (s t : Portfolio) : Prop
  | same (h : SameLog s t)
  | exit (pt : PosType) (e : Entry) (sh fill : ℚ) (date : Date) (st : Option StopType)
      (h0 : 0 < sh) (hle : sh ≤ e.shares) (hprice : 0 < e.price) (htype : e.type = pt) (hQ : Q fill)
      (h : SameLog (exitPf cfg s pt e sh fill date st) t)
  | opened (pt : PosType) (n fill : ℚ) (h0 : 0 < n) (hf : 0 < fill)
      (h : SameLog { s with
        cash := s.cash - n * fill / levOf cfg
        longNotional := s.longNotional + (if pt = .long then n * fill else 0)
        shortNotional := s.shortNotional + (if pt = .short then n * fill else 0) } t)
  | order (date : Date) (sym : Sym) (sd : Side) (created : Option Date) (ot : OrderType)
      (intent : Intent) (sh : ℚ) (limit mp : Option ℚ) (fill : ℚ) (h0 : 0 < sh)
      (hlim : limitBlocks sd limit fill = false) (hQ : Q fill)
      (h : SameLog (s.addOrder cfg date sym sd created ot intent sh limit mp fill).2 t)

theorem Prim.log {cfg : Config} {Q : Guard} {s t : Portfolio} (hp : Prim cfg Q s t) :
    LogStep cfg Q.price s t := by
  cases hp with
  | @exit Z _ pt p e sh fill date st hw hp he hz h0 hle hQ =>
    have hem := ((hw.pos pt p (lookupPos_some hp).1).entries e (findEntry_some he).1)
    exact .exit pt e sh fill date st h0 hle hem.price hem.type hQ (sameLog_store _ _ _)
  | drop hw hp he hz => exact .same ((sameLog_removeStopData _ _).trans (sameLog_store _ _ _))
  | close hw hp hnil =>
    rename_i pt p
    refine .same ?_
    cases pt <;> (constructor <;> rfl)
  | @opened _ sd date sym n m fill stops es sda ac hw h0 hf hno hclamp hnm hcap hmode hfit hS hadd =>
    refine .opened sd.opens n fill h0 hf ?_
    constructor <;> rfl
  | order h0 hlim hQ => exact .order _ _ _ _ _ _ _ _ _ _ h0 hlim hQ (SameLog.refl _)
  | caches hm => refine .same ?_; constructor <;> rfl
  | stopValue id v => refine .same ?_; constructor <;> rfl
  | incr hasBar => refine .same ?_; constructor <;> rfl
  | removeStop id hw => exact .same (sameLog_removeStop _ _)
  | clearStops hw hp he =>
    rename_i pt p e
    refine .same ((sameLog_removeStopData s e.stops).trans ?_)
    constructor <;> rfl

/-! ## The logs -/

/-- The order and trade logs are numbered, and the running totals follow from
them. -/
structure LogInv (cfg : Config) (Q : ℚ → Prop) (s : Portfolio) : Prop where
  orderIds : s.orders.map Order.id = (List.range s.orders.length).map (· + 1)
  orderId : s.orderId = s.orders.length
  tradeIds : s.trades.map Trade.id = (List.range s.trades.length).map (· + 1)
  tradeId : s.tradeId = s.trades.length
  fees : s.fees = (s.orders.map Order.fees).sum
  orderFees : ∀ o ∈ s.orders, o.fees = calculateFees cfg o.symbol o.fillPrice o.shares o.side
  orderShares : ∀ o ∈ s.orders, 0 < o.shares
  orderFill : ∀ o ∈ s.orders, Q o.fillPrice
  orderLimit : ∀ o ∈ s.orders, limitBlocks o.side o.limitPrice o.fillPrice = false
  pnl : s.pnl = (s.trades.map Trade.pnl).sum
  agg : ∀ l1 t l2, s.trades = l1 ++ t :: l2 → t.aggPnl = (l1.map Trade.pnl).sum + t.pnl
  tradePnl : ∀ t ∈ s.trades, t.pnl = gain t.type t.shares t.entry t.exit
  tradeShares : ∀ t ∈ s.trades, 0 < t.shares ∧ 0 < t.entry ∧ Q t.exit
  wins : s.wins = s.trades.countP (fun t => decide (0 < t.pnl))

theorem LogInv.same {cfg : Config} {Q : ℚ → Prop} {s t : Portfolio} (h : LogInv cfg Q s)
    (hs : SameLog s t) : LogInv cfg Q t := by
  obtain ⟨h1, h2, h3, h4, h5, h6, h7, h8, h9, h10, h11, h12, h13, h14⟩ := h
  constructor <;> simp only [hs.orders, hs.trades, hs.fees, hs.orderId, hs.tradeId, hs.pnl, hs.wins] <;>
    assumption

theorem LogInv.init (cfg : Config) (Q : ℚ → Prop) : LogInv cfg Q (Portfolio.init cfg) := by
  constructor <;> simp [Portfolio.init]

theorem LogInv.exit {cfg : Config} {Q : ℚ → Prop} {s : Portfolio} (h : LogInv cfg Q s)
    (pt : PosType) (e : Entry) (sh fill : ℚ) (date : Date) (st : Option StopType) (h0 : 0 < sh)
    (hprice : 0 < e.price) (htype : e.type = pt) (hQ : Q fill) :
    LogInv cfg Q (exitPf cfg s pt e sh fill date st) where
  orderIds := h.orderIds
  orderId := h.orderId
  tradeIds := by
    simp only [exitPf, List.map_append, List.map_cons, List.map_nil, List.length_append,
      List.length_singleton, List.range_succ, h.tradeIds]
    simp [exitTrade, h.tradeId]
  tradeId := by simp [exitPf, h.tradeId]
  fees := h.fees
  orderFees := h.orderFees
  orderShares := h.orderShares
  orderFill := h.orderFill
  orderLimit := h.orderLimit
  pnl := by simp [exitPf, exitTrade, h.pnl]
  agg := by
    intro l1 t l2 heq
    simp only [exitPf] at heq
    rcases List.eq_nil_or_concat l2 with rfl | ⟨l2', t', rfl⟩
    · have := List.append_inj' heq (by simp)
      obtain ⟨h1, h2⟩ := this
      simp only [List.cons.injEq, and_true] at h2
      rw [← h1, ← h2]
      simp [exitTrade, h.pnl]
    · have : s.trades ++ [exitTrade s pt e sh fill date st] = (l1 ++ t :: l2') ++ [t'] := by
        rw [heq]; simp
      have := (List.append_inj' this (by simp)).1
      exact h.agg l1 t l2' this
  tradePnl := by
    intro t ht
    simp only [exitPf, List.mem_append, List.mem_singleton] at ht
    rcases ht with ht | rfl
    · exact h.tradePnl t ht
    · simp [exitTrade, htype]
  tradeShares := by
    intro t ht
    simp only [exitPf, List.mem_append, List.mem_singleton] at ht
    rcases ht with ht | rfl
    · exact h.tradeShares t ht
    · exact ⟨h0, hprice, hQ⟩
  wins := by
    simp only [exitPf, List.countP_append, h.wins]
    split <;> rename_i hg
    · simp [exitTrade, hg]
    · simp [exitTrade, hg]

theorem LogInv.addOrder {cfg : Config} {Q : ℚ → Prop} {s : Portfolio} (h : LogInv cfg Q s)
    (date : Date) (sym : Sym) (sd : Side) (created : Option Date) (ot : OrderType)
    (intent : Intent) (sh : ℚ) (limit mp : Option ℚ) (fill : ℚ) (h0 : 0 < sh)
    (hlim : limitBlocks sd limit fill = false) (hQ : Q fill) :
    LogInv cfg Q (s.addOrder cfg date sym sd created ot intent sh limit mp fill).2 where
  orderIds := by
    simp only [Portfolio.addOrder, List.map_append, List.map_cons, List.map_nil,
      List.length_append, List.length_singleton, List.range_succ, h.orderIds]
    simp [h.orderId]
  orderId := by simp [Portfolio.addOrder, h.orderId]
  tradeIds := h.tradeIds
  tradeId := h.tradeId
  fees := by simp [Portfolio.addOrder, h.fees]
  orderFees := by
    intro o ho
    simp only [Portfolio.addOrder, List.mem_append, List.mem_singleton] at ho
    rcases ho with ho | rfl
    · exact h.orderFees o ho
    · rfl
  orderShares := by
    intro o ho
    simp only [Portfolio.addOrder, List.mem_append, List.mem_singleton] at ho
    rcases ho with ho | rfl
    · exact h.orderShares o ho
    · exact h0
  orderFill := by
    intro o ho
    simp only [Portfolio.addOrder, List.mem_append, List.mem_singleton] at ho
    rcases ho with ho | rfl
    · exact h.orderFill o ho
    · exact hQ
  orderLimit := by
    intro o ho
    simp only [Portfolio.addOrder, List.mem_append, List.mem_singleton] at ho
    rcases ho with ho | rfl
    · exact h.orderLimit o ho
    · exact hlim
  pnl := h.pnl
  agg := h.agg
  tradePnl := h.tradePnl
  tradeShares := h.tradeShares
  wins := h.wins

/-- Interest changes neither log. -/
theorem LogInv.interest {cfg : Config} {Q : ℚ → Prop} {s : Portfolio} (h : LogInv cfg Q s) :
    LogInv cfg Q (s.applyInterest cfg) := by
  obtain ⟨c, a, hf⟩ := applyInterest_frame cfg s
  rw [hf]
  obtain ⟨h1, h2, h3, h4, h5, h6, h7, h8, h9, h10, h11, h12, h13, h14⟩ := h
  constructor <;> assumption

theorem LogInv.prim {cfg : Config} {Q : Guard} {s t : Portfolio} (hp : Prim cfg Q s t)
    (h : LogInv cfg Q.price s) : LogInv cfg Q.price t := by
  rcases hp.log with hs | ⟨pt, e, sh, fill, date, st, h0, hle, hprice, htype, hQ, hs⟩ |
    ⟨pt, n, fill, h0, hf, hs⟩ |
    ⟨date, sym, sd, created, ot, intent, sh, limit, mp, fill, h0, hlim, hQ, hs⟩
  · exact h.same hs
  · exact (h.exit pt e sh fill date st h0 hprice htype hQ).same hs
  · refine LogInv.same ?_ hs
    obtain ⟨h1, h2, h3, h4, h5, h6, h7, h8, h9, h10, h11, h12, h13, h14⟩ := h
    constructor <;> assumption
  · exact (h.addOrder date sym sd created ot intent sh limit mp fill h0 hlim hQ).same hs

theorem LogInv.capture {cfg : Config} {Q : ℚ → Prop} {s : Portfolio} (date : Date)
    (quote : Sym → BarQuote) (h : LogInv cfg Q s) : LogInv cfg Q (captureBar cfg s date quote) :=
  h.interest.same (sameLog_capture cfg s date quote)

/-- The logs only grow. -/
theorem log_prefix {cfg : Config} {Q : Guard} {s t : Portfolio} (hp : Prim cfg Q s t) :
    s.orders <+: t.orders ∧ s.trades <+: t.trades := by
  rcases hp.log with hs | ⟨pt, e, sh, fill, date, st, h0, hle, hprice, htype, hQ, hs⟩ |
    ⟨pt, n, fill, h0, hf, hs⟩ |
    ⟨date, sym, sd, created, ot, intent, sh, limit, mp, fill, h0, hlim, hQ, hs⟩
  · rw [hs.orders, hs.trades]; exact ⟨List.prefix_refl _, List.prefix_refl _⟩
  · rw [hs.orders, hs.trades]; exact ⟨List.prefix_refl _, List.prefix_append _ _⟩
  · rw [hs.orders, hs.trades]; exact ⟨List.prefix_refl _, List.prefix_refl _⟩
  · rw [hs.orders, hs.trades]; exact ⟨List.prefix_append _ _, List.prefix_refl _⟩

theorem log_capture (cfg : Config) (s : Portfolio) (date : Date) (quote : Sym → BarQuote) :
    (captureBar cfg s date quote).orders = s.orders ∧
      (captureBar cfg s date quote).trades = s.trades := by
  have h := sameLog_capture cfg s date quote
  obtain ⟨c, a, hf⟩ := applyInterest_frame cfg s
  rw [h.orders, h.trades, hf]
  exact ⟨rfl, rfl⟩

/-! ## The cash ledger -/

/-- Cash plus posted collateral minus interest debt, net of realised profit and
fees. -/
def ledger (cfg : Config) (s : Portfolio) : ℚ :=
  s.cash + (s.longNotional + s.shortNotional) / levOf cfg - s.accrued - s.pnl + s.fees

theorem ledger_same {cfg : Config} {s t : Portfolio} (h : SameLog s t) :
    ledger cfg t = ledger cfg s := by
  unfold ledger
  rw [h.cash, h.longNotional, h.shortNotional, h.accrued, h.pnl, h.fees]

theorem ledger_exit (cfg : Config) (s : Portfolio) (pt : PosType) (e : Entry) (sh fill : ℚ)
    (date : Date) (st : Option StopType) :
    ledger cfg (exitPf cfg s pt e sh fill date st) = ledger cfg s := by
  have := (levOf_pos cfg).ne'
  unfold ledger exitPf
  cases pt <;> simp <;> field_simp <;> ring

theorem calculateFees_none {cfg : Config} (h : cfg.feeMode.isSome = false) (sym : Sym)
    (fill shares : ℚ) (side : Side) : calculateFees cfg sym fill shares side = 0 := by
  unfold calculateFees
  cases hm : cfg.feeMode with
  | none => rfl
  | some m => rw [hm] at h; simp at h

theorem ledger_addOrder (cfg : Config) (s : Portfolio) (date : Date) (sym : Sym) (sd : Side)
    (created : Option Date) (ot : OrderType) (intent : Intent) (sh : ℚ) (limit mp : Option ℚ)
    (fill : ℚ) :
    ledger cfg (s.addOrder cfg date sym sd created ot intent sh limit mp fill).2 =
      ledger cfg s := by
  unfold ledger Portfolio.addOrder
  simp only
  split
  · ring
  · rename_i hm
    rw [calculateFees_none (by simpa using hm)]
    ring

/-- The interest one captured bar applies: net cash times the per-bar rate. -/
def barInterest (cfg : Config) (s : Portfolio) : ℚ :=
  match cfg.barsPerYear with
  | none => 0
  | some n => if cfg.interestRate ≤ 0 then 0 else s.netCash cfg * (cfg.interestRate / 100 / n)

theorem sweep_netCash (cfg : Config) (s : Portfolio) : s.sweepAccrued.netCash cfg = s.netCash cfg := by
  unfold Portfolio.sweepAccrued
  split
  · rfl
  · unfold Portfolio.netCash Portfolio.marginLoan
    simp only
    split <;> ring

theorem sweep_ledger (cfg : Config) (s : Portfolio) : ledger cfg s.sweepAccrued = ledger cfg s := by
  unfold Portfolio.sweepAccrued
  split
  · rfl
  · unfold ledger
    simp only
    ring

theorem applyInterest_ledger (cfg : Config) (s : Portfolio) :
    ledger cfg (s.applyInterest cfg) = ledger cfg s + barInterest cfg s := by
  unfold Portfolio.applyInterest barInterest
  cases cfg.barsPerYear with
  | none => simp
  | some bpy =>
    simp only
    split
    · simp
    · rw [sweep_netCash]
      split
      · rename_i h0; rw [h0, sweep_ledger]; simp
      · split
        · rename_i hneg
          rw [abs_of_neg hneg]
          have := sweep_ledger cfg s
          unfold ledger at this ⊢
          simp only
          linarith
        · rename_i hneg
          rw [abs_of_nonneg (not_lt.1 hneg)]
          have := sweep_ledger cfg s
          unfold ledger at this ⊢
          simp only
          linarith

theorem applyInterest_netCash (cfg : Config) (s : Portfolio) :
    (s.applyInterest cfg).netCash cfg = s.netCash cfg + barInterest cfg s := by
  unfold Portfolio.applyInterest barInterest
  cases cfg.barsPerYear with
  | none => simp
  | some bpy =>
    simp only
    split
    · simp
    · rw [sweep_netCash]
      split
      · rename_i h0; rw [sweep_netCash, h0]; simp
      · split
        · rename_i hneg
          rw [abs_of_neg hneg]
          have := sweep_netCash cfg s
          unfold Portfolio.netCash Portfolio.marginLoan at this ⊢
          simp only at this ⊢
          split <;> rename_i hl <;> simp only [hl, if_true, if_false] at this ⊢ <;> linarith
        · rename_i hneg
          rw [abs_of_nonneg (not_lt.1 hneg)]
          have := sweep_netCash cfg s
          unfold Portfolio.netCash Portfolio.marginLoan at this ⊢
          simp only at this ⊢
          split <;> rename_i hl <;> simp only [hl, if_true, if_false] at this ⊢ <;> linarith

/-- Changes other than capturing a bar keep the ledger. -/
theorem ledger_prim {cfg : Config} {Q : Guard} {s t : Portfolio} (hp : Prim cfg Q s t) :
    ledger cfg t = ledger cfg s := by
  rcases hp.log with hs | ⟨pt, e, sh, fill, date, st, h0, hle, hprice, htype, hQ, hs⟩ |
    ⟨pt, n, fill, h0, hf, hs⟩ |
    ⟨date, sym, sd, created, ot, intent, sh, limit, mp, fill, h0, hlim, hQ, hs⟩
  · exact ledger_same hs
  · rw [ledger_same hs, ledger_exit]
  · rw [ledger_same hs]
    unfold ledger
    cases pt <;> simp <;> ring
  · rw [ledger_same hs, ledger_addOrder]

theorem ledger_capture (cfg : Config) (s : Portfolio) (date : Date) (quote : Sym → BarQuote) :
    ledger cfg (captureBar cfg s date quote) = ledger cfg s + barInterest cfg s := by
  rw [ledger_same (sameLog_capture _ _ _ _), applyInterest_ledger]

end PyBroker
