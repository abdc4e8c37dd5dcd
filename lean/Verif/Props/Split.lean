import Verif.Portfolio.Split
import Verif.Props.Demo

/-!
# A stock split does not matter (C164)

After an `N`-for-1 split of a symbol a share is worth an `N`-th of what it was and there are `N`
times as many of them.  `Verif/Portfolio/Split.lean` says what each record of the books and each
call is then: prices of the symbol are divided by `N`, shares are multiplied by it, amounts of
money stay.
-/

namespace PyBroker

/-! ## Specification -/

/-- What the price of a share is multiplied by in an `N`-for-1 split. -/
def Spec.splitFactor (N : Sym → ℕ) (sym : Sym) : ℚ := (N sym : ℚ)⁻¹

/-- The rules of the strategy keep an order from opening a position: the position mode forbids the
side, or there are as many positions of the side as allowed and none of the symbol. -/
def Spec.MayNotOpen (cfg : Config) (s : Portfolio) (sym : Sym) : Side → Prop
  | .buy => cfg.positionMode = .shortOnly ∨
      ∃ n, cfg.maxLong = some n ∧ n ≤ s.longs.length ∧ ∀ p ∈ s.longs, p.symbol ≠ sym
  | .sell => cfg.positionMode = .longOnly ∨
      ∃ n, cfg.maxShort = some n ∧ n ≤ s.shorts.length ∧ ∀ p ∈ s.shorts, p.symbol ≠ sym

/-- The limit of the order is not met. -/
def Spec.LimitMissed (r : OrderReq) : Side → Prop
  | .buy => ∃ l, r.limit = some l ∧ l < r.fill
  | .sell => ∃ l, r.limit = some l ∧ r.fill < l

/-- The order was not cut: it fills all the shares it asks for, or it asks for none, misses its limit
or may not open a position. -/
def Spec.NotCut (cfg : Config) (s : Portfolio) (sd : Side) (r : OrderReq) (o : Option Order) : Prop :=
  r.shares = 0 ∨ Spec.LimitMissed r sd ∨ Spec.MayNotOpen cfg s r.symbol sd ∨
    ∃ x, o = some x ∧ x.shares = r.shares

/-- No order of the history is cut. -/
def Spec.NeverCut (cfg : Config) (ops : List Op) : Prop :=
  ∀ pre op post s, ops = pre ++ op :: post → run cfg pre = .ok s →
    match op with
    | .buy r => ∀ o s', buy cfg s r = .ok (o, s') → Spec.NotCut cfg s .buy r o
    | .sell r => ∀ o s', sell cfg s r = .ok (o, s') → Spec.NotCut cfg s .sell r o
    | _ => True

/-- The same trade in shares of which there are `N` times as many. -/
def Spec.SameTrade (N : Sym → ℕ) (t t' : Trade) : Prop :=
  t'.symbol = t.symbol ∧ t'.type = t.type ∧ t'.entryDate = t.entryDate ∧ t'.exitDate = t.exitDate ∧
    t'.shares = N t.symbol * t.shares ∧ t'.entry = t.entry / N t.symbol ∧
    t'.exit = t.exit / N t.symbol ∧ t'.pnl = t.pnl ∧ t'.returnPct = t.returnPct ∧
    t'.aggPnl = t.aggPnl ∧ t'.bars = t.bars ∧ t'.pnlPerBar = t.pnlPerBar ∧ t'.stop = t.stop

/-- The same order in shares of which there are `N` times as many. -/
def Spec.SameOrder (N : Sym → ℕ) (o o' : Order) : Prop :=
  o'.id = o.id ∧ o'.symbol = o.symbol ∧ o'.side = o.side ∧ o'.date = o.date ∧ o'.intent = o.intent ∧
    o'.orderType = o.orderType ∧ o'.shares = N o.symbol * o.shares ∧
    o'.fillPrice = o.fillPrice / N o.symbol ∧ o'.fees = o.fees

/-- The same position in shares of which there are `N` times as many. -/
def Spec.SameHolding (N : Sym → ℕ) (p p' : Position) : Prop :=
  p'.symbol = p.symbol ∧ p'.type = p.type ∧ p'.shares = N p.symbol * p.shares ∧
    p'.equity = p.equity ∧ p'.marketValue = p.marketValue ∧ p'.margin = p.margin ∧ p'.pnl = p.pnl

open PyBroker.Spec

/-! ## Orders that are not cut -/

theorem openShares_fst {cfg : Config} {pt : PosType} {s s' : Portfolio} {date : Date} {sym : Sym}
    {n fill b : ℚ} {stops : List Stop} (h : openShares cfg pt s date sym n fill stops = .ok (b, s')) :
    b = n := by
  unfold openShares at h
  dsimp only at h
  split at h
  · cases h
  · simp only [Except.ok.injEq, Prod.mk.injEq] at h
    exact h.1.symm

theorem openLong_full {cfg : Config} {s s' : Portfolio} {date : Date} {sym : Sym}
    {n fill : ℚ} {stops : List Stop} (h : openLong cfg s date sym n fill stops = .ok (n, s')) :
    Uncut cfg s sym fill n .buy := by
  intro hn _
  by_contra hc
  have hc := not_le.1 hc
  unfold openLong at h
  split at h
  · simp only [Except.ok.injEq, Prod.mk.injEq] at h; linarith [h.1]
  · simp only [if_pos hc] at h
    split at h
    · simp only [Except.ok.injEq, Prod.mk.injEq] at h; linarith [h.1]
    · split at h
      · simp only [Except.ok.injEq, Prod.mk.injEq] at h; linarith [h.1]
      · linarith [openShares_fst h]

theorem openShort_full {cfg : Config} {s s' : Portfolio} {date : Date} {sym : Sym}
    {n fill : ℚ} {stops : List Stop} (h : openShort cfg s date sym n fill stops = .ok (n, s')) :
    Uncut cfg s sym fill n .sell := by
  intro hn _
  by_contra hc
  have hc := not_le.1 hc
  unfold openShort at h
  rw [if_neg (not_le.2 hn)] at h
  split at h
  · simp only [Except.ok.injEq, Prod.mk.injEq] at h; linarith [h.1]
  · split at h
    · simp only [Except.ok.injEq, Prod.mk.injEq] at h; linarith [h.1]
    · simp only [if_pos hc] at h
      split at h
      · simp only [Except.ok.injEq, Prod.mk.injEq] at h; linarith [h.1]
      · linarith [openShares_fst h]

theorem capReached_of {cap : Option Nat} {ps : List Position} {sym : Sym}
    (h : ∃ n, cap = some n ∧ n ≤ ps.length ∧ ∀ p ∈ ps, p.symbol ≠ sym) :
    capReached cap ps sym = true := by
  obtain ⟨n, rfl, hn, hp⟩ := h
  have : lookupPos ps sym = none := by
    cases hl : lookupPos ps sym with
    | none => rfl
    | some p =>
      obtain ⟨h1, h2⟩ := lookupPos_some hl
      exact absurd h2 (hp p h1)
  simp [capReached, this, hn]

theorem buy_notCut {cfg : Config} {s s' : Portfolio} {r : OrderReq} {o : Option Order} (hg : Good s)
    (h : buy cfg s r = .ok (o, s')) (hn : NotCut cfg s .buy r o) : UncutOp cfg s (.buy r) := by
  intro hlim h0 hfill
  rcases hn with hn | ⟨l, hl, hlt⟩ | hn | ⟨x, rfl, hx⟩
  · exact absurd hn h0
  · simp [buyLimitBlocks, hl, hlt] at hlim
  · simp only [UncutOrder]
    intro _ hb
    refine absurd ?_ hb
    have hpos : 0 < r.shares := by
      have := (placeOrder_cases (sd := .buy) h).1
      exact lt_of_le_of_ne this (Ne.symm h0)
    have hlongs : (cover cfg s r.date r.symbol r.shares r.fill).pf.longs = s.longs := by
      rw [cover_eq hpos]
      exact (closeShares_facts (pt := .short) hg.wf hg.ne hpos).otherSide .long (by decide)
    rcases hn with hn | hn
    · exact Or.inl hn
    · exact Or.inr (by rw [hlongs]; exact capReached_of hn)
  · unfold buy at h
    have hpos : 0 < r.shares := by
      have := (placeOrder_cases (sd := .buy) h).1
      exact lt_of_le_of_ne this (Ne.symm h0)
    split at h
    · cases h
    · rw [if_neg hlim, if_neg h0] at h
      dsimp only at h
      split at h
      · cases h
      · rename_i b s2 ho
        split at h
        · cases h
        · simp only [Except.ok.injEq, Prod.mk.injEq, Option.some.injEq] at h
          have hsh : (cover cfg s r.date r.symbol r.shares r.fill).filled + b = r.shares := by
            rw [← h.1] at hx; exact hx
          have hfl := (closeShares_facts (cfg := cfg) (pt := .short) (date := r.date) (sym := r.symbol)
            (fill := r.fill) hg.wf hg.ne hpos).filled
          rw [← cover_eq hpos] at hfl
          have hb : b = (cover cfg s r.date r.symbol r.shares r.fill).rem := by linarith
          rw [hb] at ho
          exact openLong_full ho

theorem sell_notCut {cfg : Config} {s s' : Portfolio} {r : OrderReq} {o : Option Order} (hg : Good s)
    (h : sell cfg s r = .ok (o, s')) (hn : NotCut cfg s .sell r o) : UncutOp cfg s (.sell r) := by
  intro hlim h0 hfill
  have hpos : 0 < r.shares := by
    have := (placeOrder_cases (sd := .sell) h).1
    exact lt_of_le_of_ne this (Ne.symm h0)
  rcases hn with hn | ⟨l, hl, hlt⟩ | hn | ⟨x, rfl, hx⟩
  · exact absurd hn h0
  · simp [sellLimitBlocks, hl, hlt] at hlim
  · simp only [UncutOrder]
    intro _ hb
    refine absurd ?_ hb
    have hshorts : (sellExisting cfg s r.date r.symbol r.shares r.fill).pf.shorts = s.shorts := by
      rw [sellExisting_eq]
      exact (closeShares_facts (pt := .long) hg.wf hg.ne hpos).otherSide .short (by decide)
    rcases hn with hn | hn
    · exact Or.inl hn
    · exact Or.inr (by rw [hshorts]; exact capReached_of hn)
  · unfold sell at h
    split at h
    · cases h
    · rw [if_neg hlim, if_neg h0] at h
      dsimp only at h
      split at h
      · cases h
      · rename_i b s2 ho
        split at h
        · cases h
        · simp only [Except.ok.injEq, Prod.mk.injEq, Option.some.injEq] at h
          have hsh : (sellExisting cfg s r.date r.symbol r.shares r.fill).filled + b = r.shares := by
            rw [← h.1] at hx; exact hx
          have hfl := (closeShares_facts (cfg := cfg) (pt := .long) (date := r.date) (sym := r.symbol)
            (fill := r.fill) hg.wf hg.ne hpos).filled
          rw [← sellExisting_eq] at hfl
          have hb : b = (sellExisting cfg s r.date r.symbol r.shares r.fill).rem := by linarith
          rw [hb] at ho
          exact openShort_full ho

/-! ## Histories -/

theorem splitFactor_pos {N : Sym → ℕ} (hN : ∀ s, 0 < N s) (sym : Sym) : 0 < splitFactor N sym :=
  inv_pos.2 (by exact_mod_cast hN sym)

theorem run_concat {cfg : Config} {pre : List Op} {op : Op} {s' : Portfolio}
    (h : run cfg (pre ++ [op]) = .ok s') : ∃ s, run cfg pre = .ok s ∧ step cfg s op = .ok s' := by
  unfold run runFrom at h ⊢
  rw [foldE_append] at h
  cases hr : foldE (step cfg) (Portfolio.init cfg) pre with
  | error e => rw [hr] at h; cases h
  | ok s =>
    rw [hr] at h
    refine ⟨s, rfl, ?_⟩
    simp only [foldE] at h
    cases hs : step cfg s op with
    | error e => simp [hs] at h
    | ok t => simpa [hs] using h

theorem run_stockSplit {N : Sym → ℕ} (hN : ∀ s, 0 < N s) {cfg : Config}
    (hf : ∀ a, cfg.feeMode = some a → a ≠ .perShare) (ops : List Op) (s : Portfolio)
    (hfit : ∀ op ∈ ops, op.Fit) (hfresh : FreshIds ops) (hcut : NeverCut cfg ops)
    (h : run cfg ops = .ok s) :
    run (cfg.split (splitFactor N)) (ops.map (Op.split (splitFactor N))) =
      .ok (s.split (splitFactor N)) := by
  have hm := splitFactor_pos hN
  have hi : ∀ s, ∃ n : ℕ, (splitFactor N s)⁻¹ = n := fun s => ⟨N s, by simp [splitFactor]⟩
  induction ops using List.reverseRecOn generalizing s with
  | nil =>
    cases h
    rfl
  | append_singleton pre op ih =>
    obtain ⟨s0, h0, hs⟩ := run_concat h
    have hfit0 : ∀ op ∈ pre, op.Fit := fun o ho => hfit o (List.mem_append_left _ ho)
    have hfresh0 : FreshIds pre := by
      unfold FreshIds at hfresh ⊢
      rw [List.flatMap_append, List.map_append] at hfresh
      exact (List.nodup_append.1 hfresh).1
    have h1 := ih s0 hfit0 hfresh0 (fun a b c t e => hcut a b (c ++ [op]) t (by rw [e]; simp)) h0
    obtain ⟨hg, hsf⟩ := run_good hfit0 h0
    have hreg := run_reg hfit0 hfresh0 h0
    have hu : UncutOp cfg s0 op := by
      have hc := hcut pre op [] s0 rfl h0
      cases op with
      | buy r =>
        simp only [step] at hs
        cases hb : buy cfg s0 r with
        | error e => rw [hb] at hs; cases hs
        | ok x => exact buy_notCut hg hb (hc _ _ hb)
      | sell r =>
        simp only [step] at hs
        cases hb : sell cfg s0 r with
        | error e => rw [hb] at hs; cases hs
        | ok x => exact sell_notCut hg hb (hc _ _ hb)
      | _ => trivial
    have h2 := step_split hm hi cfg hf s0 hg hsf hreg.index op (hfit op (by simp)) hu
    rw [hs] at h2
    unfold run runFrom at h1 ⊢
    rw [List.map_append, foldE_append, h1]
    simp only [List.map_cons, List.map_nil, foldE, h2, Except.map]

/-- **C164 (part).**  Split the shares of each symbol `N`-for-1: on the same history with every price
divided by `N` and every number of shares multiplied by it, if no order of the history is cut to the
buying power and fees are not per share, nothing raises, cash, fees and the whole portfolio table
are the same, and trades, orders and positions are the same in shares `N` times as many. -/
theorem stock_split_partial {N : Sym → ℕ} (hN : ∀ s, 0 < N s) {cfg : Config}
    (hf : ∀ a, cfg.feeMode = some a → a ≠ .perShare) {ops : List Op} {s : Portfolio}
    (hfit : ∀ op ∈ ops, op.Fit) (hfresh : FreshIds ops) (hcut : NeverCut cfg ops)
    (h : run cfg ops = .ok s) :
    ∃ s', run (cfg.split (splitFactor N)) (ops.map (Op.split (splitFactor N))) = .ok s' ∧
      s'.cash = s.cash ∧ s'.equity = s.equity ∧ s'.marketValue = s.marketValue ∧
      s'.margin = s.margin ∧ s'.fees = s.fees ∧ s'.pnl = s.pnl ∧ s'.wins = s.wins ∧
      s'.metrics = s.metrics ∧
      List.Forall₂ (SameTrade N) s.trades s'.trades ∧
      List.Forall₂ (SameOrder N) s.orders s'.orders ∧
      List.Forall₂ (SameHolding N) s.longs s'.longs ∧
      List.Forall₂ (SameHolding N) s.shorts s'.shorts := by
  have hdiv : ∀ (sym : Sym) (x : ℚ), splitFactor N sym * x = x / N sym := fun sym x => by
    simp only [splitFactor]; ring
  have hmul : ∀ (sym : Sym) (x : ℚ), (splitFactor N sym)⁻¹ * x = N sym * x := fun sym x => by
    simp [splitFactor]
  have hpos : ∀ ps : List Position,
      List.Forall₂ (SameHolding N) ps (ps.map (Position.split (splitFactor N))) := fun ps => by
    rw [List.forall₂_map_right_iff]
    exact List.forall₂_same.2 (fun p _ => ⟨rfl, rfl, hmul _ _, rfl, rfl, rfl, rfl⟩)
  refine ⟨_, run_stockSplit hN hf ops s hfit hfresh hcut h, rfl, rfl, rfl, rfl, rfl, rfl, rfl, rfl,
    ?_, ?_, hpos _, hpos _⟩
  · show List.Forall₂ _ _ (s.trades.map _)
    rw [List.forall₂_map_right_iff]
    exact List.forall₂_same.2 (fun t _ => ⟨rfl, rfl, rfl, rfl, hmul _ _, hdiv _ _, hdiv _ _, rfl, rfl,
      rfl, rfl, rfl, rfl⟩)
  · show List.Forall₂ _ _ (s.orders.map _)
    rw [List.forall₂_map_right_iff]
    exact List.forall₂_same.2 (fun t _ => ⟨rfl, rfl, rfl, rfl, rfl, rfl, hmul _ _, hdiv _ _, rfl⟩)

/-! ## A history that meets the hypotheses -/

/-- Each order of the history is filled in full. -/
def Demo.inFull (cfg : Config) : Portfolio → List Op → Bool
  | _, [] => true
  | s, op :: ops =>
    (match op with
      | .buy r => (match buy cfg s r with
        | .ok (some x, _) => decide (x.shares = r.shares)
        | .ok (none, _) => false
        | .error _ => true)
      | .sell r => (match sell cfg s r with
        | .ok (some x, _) => decide (x.shares = r.shares)
        | .ok (none, _) => false
        | .error _ => true)
      | _ => true) &&
    (match step cfg s op with
      | .ok s' => Demo.inFull cfg s' ops
      | .error _ => true)

theorem Demo.inFull_spec {cfg : Config} (ops : List Op) : ∀ s, Demo.inFull cfg s ops = true →
    ∀ pre op post t, ops = pre ++ op :: post → runFrom cfg s pre = .ok t →
    match op with
    | .buy r => ∀ o s', buy cfg t r = .ok (o, s') → Spec.NotCut cfg t .buy r o
    | .sell r => ∀ o s', sell cfg t r = .ok (o, s') → Spec.NotCut cfg t .sell r o
    | _ => True := by
  induction ops with
  | nil => intro s _ pre op post t h; simp at h
  | cons a ops ih =>
    intro s hw pre op post t heq hr
    simp only [Demo.inFull, Bool.and_eq_true] at hw
    cases pre with
    | nil =>
      simp only [List.nil_append, List.cons.injEq] at heq
      obtain ⟨rfl, rfl⟩ := heq
      cases hr
      cases a with
      | buy r =>
        intro o s' hb
        simp only [hb] at hw
        cases o with
        | none => simp at hw
        | some x => exact Or.inr (Or.inr (Or.inr ⟨x, rfl, by simpa using hw.1⟩))
      | sell r =>
        intro o s' hb
        simp only [hb] at hw
        cases o with
        | none => simp at hw
        | some x => exact Or.inr (Or.inr (Or.inr ⟨x, rfl, by simpa using hw.1⟩))
      | _ => trivial
    | cons b pre =>
      simp only [List.cons_append, List.cons.injEq] at heq
      obtain ⟨rfl, rfl⟩ := heq
      simp only [runFrom, foldE] at hr
      cases hs : step cfg s a with
      | error e => rw [hs] at hr; cases hr
      | ok s1 =>
        rw [hs] at hr
        simp only [hs] at hw
        exact ih s1 hw.2 pre op post t rfl hr

theorem Demo.inFull_neverCut {cfg : Config} {ops : List Op}
    (h : Demo.inFull cfg (Portfolio.init cfg) ops = true) : Spec.NeverCut cfg ops :=
  fun pre op post s he hr => Demo.inFull_spec ops _ h pre op post s he hr

/-- AAA is split 4-for-1, BBB 10-for-1 and everything else stays. -/
def Demo.splits (sym : Sym) : ℕ := if sym = "AAA" then 4 else if sym = "BBB" then 10 else 1

example : (∀ s, 0 < Demo.splits s) ∧ (∀ a, Demo.cfg.feeMode = some a → a ≠ .perShare) ∧
    (∀ op ∈ Demo.ops, op.Fit) ∧ FreshIds Demo.ops ∧ NeverCut Demo.cfg Demo.ops ∧
    run Demo.cfg Demo.ops = .ok (Demo.okD (Portfolio.init Demo.cfg) (run Demo.cfg Demo.ops)) ∧
    (Demo.okD (Portfolio.init Demo.cfg) (run Demo.cfg Demo.ops)).trades.length = 4 := by
  refine ⟨?_, by simp [Demo.cfg], ?_, ?_, Demo.inFull_neverCut (by decide +kernel),
    Demo.ok_okD (by decide +kernel), by decide +kernel⟩
  · intro s
    unfold Demo.splits
    split_ifs <;> norm_num
  · simp [Demo.ops, Demo.bar1, Demo.bar2, Demo.bar3, Op.Fit, Demo.lossStop, Demo.trailStop, Demo.barStop]
  · simp [FreshIds, Demo.ops, Demo.bar1, Demo.bar2, Demo.bar3, stopsOf, Demo.lossStop, Demo.trailStop,
      Demo.barStop]

/-! ## Where the code falls short -/

/-- **C164, where the code falls short (1).**  An order that is cut to the cash is cut to whole shares,
and whole shares of the split stock are finer: with 100 in cash, a buy of 4 shares at 40 buys 2 and
keeps 20, and after a 2-for-1 split the buy of 8 shares at 20 buys 5 and keeps nothing. -/
theorem cut_order_split_differs :
    let cfg : Config := { cash := 100 }
    let op : Op := .buy { date := 1, symbol := "AAA", shares := 4, fill := 40 }
    (run cfg [op]).toOption.map (fun s => (s.cash, s.orders.map Order.shares)) = some (20, [2]) ∧
    (run (cfg.split (splitFactor fun _ => 2)) ([op].map (Op.split (splitFactor fun _ => 2)))).toOption.map
      (fun s => (s.cash, s.orders.map Order.shares)) = some (0, [5]) := by
  decide +kernel

/-- **C164, where the code falls short (2).**  A fee per share is charged on the shares after the split. -/
theorem fee_per_share_split_differs :
    let cfg : Config := { cash := 1000, feeMode := some .perShare, feeAmount := some 1 }
    let op : Op := .buy { date := 1, symbol := "AAA", shares := 4, fill := 40 }
    (run cfg [op]).toOption.map (fun s => (s.fees, s.cash)) = some (4, 836) ∧
    (run (cfg.split (splitFactor fun _ => 2)) ([op].map (Op.split (splitFactor fun _ => 2)))).toOption.map
      (fun s => (s.fees, s.cash)) = some (8, 832) := by
  decide +kernel

end PyBroker
