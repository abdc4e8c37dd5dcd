import Verif.Props.StopRecords
import Verif.Portfolio.Explained
import Mathlib.Data.List.Induction

/-!
# Which call made an order, and at what price

The lemma behind C119: each order of the log was made by one call of the history, with the
symbol, date, limit and prices that call was given.
-/

namespace PyBroker

namespace Spec

/-- The order fills a request for shares. -/
structure Fills (r : OrderReq) (o : Order) : Prop where
  symbol : o.symbol = r.symbol
  date : o.date = r.date
  created : o.created = r.created
  limit : o.limitPrice = r.limit
  type : o.orderType = r.orderType
  pos : 0 < o.shares
  shares : o.shares ≤ r.shares
  market : o.marketPrice = r.marketPrice.getD r.fill
  fill : o.fillPrice = r.fill
  fillPos : 0 < o.fillPrice
  allowed : ∀ l, r.limit = some l → if o.side = .buy then o.fillPrice ≤ l else l ≤ o.fillPrice

/-- The order was made by closing a position: at this price, moved by the slippage model. -/
structure ClosesOut (d : Date) (sym : Sym) (price : ℚ) (slip : Option SlipFn) (o : Order) :
    Prop where
  symbol : o.symbol = sym
  date : o.date = d
  created : o.created = none
  limit : o.limitPrice = none
  type : o.orderType = .market
  pos : 0 < o.shares
  market : o.marketPrice = price
  fill : ∃ n, o.fillPrice = slipPrice slip o.side sym n price
  fillPos : 0 < o.fillPrice

/-- The order was made by a stop among `U` of an entry of its symbol. -/
def StopsOut (U : List Stop) (d : Date) (env : StopEnv) (o : Order) : Prop :=
  ∃ e st m level, st ∈ U ∧ st.symbol = e.symbol ∧ env.canPrice e.symbol = true ∧
    FiresAt env st level e.symBars m ∧ LimitAllows st (exitPaid env ⟨e, st, m⟩) ∧
    OrderFacts.of o = stopOrder env d ⟨e, st, m⟩

/-- The call made the order. -/
def Makes (U : List Stop) (o : Order) : Op → Prop
  | .buy r => o.side = .buy ∧ Fills r o
  | .sell r => o.side = .sell ∧ Fills r o
  | .exitPosition d sym bf sf slip =>
      ClosesOut d sym (match o.side with | .buy => bf | .sell => sf) slip o
  | .checkStops d env => StopsOut U d env o
  | _ => False

end Spec

open PyBroker.Spec

theorem Makes.mono {U V : List Stop} {o : Order} {op : Op} (h : Makes U o op)
    (hs : ∀ st ∈ U, st ∈ V) : Makes V o op := by
  cases op <;> try exact h
  obtain ⟨e, st, m, level, hst, h⟩ := h
  exact ⟨e, st, m, level, hs st hst, h⟩

theorem placeOrder_fills {cfg : Config} {sd : Side} {s s' : Portfolio} {r : OrderReq}
    {o : Option Order} (hg : Good s) (h : placeOrder cfg sd s r = .ok (o, s')) :
    s'.orders = s.orders ∨ ∃ y, s'.orders = s.orders ++ [y] ∧ y.side = sd ∧ Fills r y := by
  obtain ⟨hsh, hfl, _, _⟩ := placeOrder_cases h
  have hallow : limitBlocks sd r.limit r.fill = false →
      ∀ l, r.limit = some l → if sd = .buy then r.fill ≤ l else l ≤ r.fill := by
    intro hb l hl
    rw [hl] at hb
    cases sd
    · simp only [limitBlocks, buyLimitBlocks, decide_eq_false_iff_not, not_lt] at hb
      simpa using hb
    · simp only [limitBlocks, sellLimitBlocks, decide_eq_false_iff_not, not_lt] at hb
      simpa using hb
  cases placeOrder_effect hg h with
  | nothing a b hm => exact Or.inl rfl
  | closed c a b hc hf hlim hm =>
    have h0 : 0 < r.shares := by
      rcases lt_or_eq_of_le hsh with h0 | h0
      · exact h0
      · exfalso
        have : c.filled = 0 := by
          rw [hc, ← h0]
          unfold closeShares
          split
          · rfl
          · rename_i p hp
            cases p.entries <;> simp [exitLoop]
        linarith
    have cf := closeShares_facts (cfg := cfg) (pt := sd.closes) (date := r.date)
      (sym := r.symbol) (fill := r.fill) hg.wf hg.ne h0
    rw [← hc] at cf
    have hord : c.pf.orders = s.orders := by rw [hc]; exact closeShares_orders ..
    right
    refine ⟨(({ c.pf with cachedLongMv := a, cachedShortMv := b } :
      Portfolio).addOrder cfg r.date r.symbol sd r.created r.orderType (intentOf sd 0) c.filled
        r.limit r.marketPrice r.fill).1, ?_, rfl, ?_⟩
    · show c.pf.orders ++ [_] = _
      rw [hord]
      rfl
    · refine ⟨rfl, rfl, rfl, rfl, rfl, hf, ?_, rfl, rfl, hfl, hallow hlim⟩
      show c.filled ≤ r.shares
      have := cf.filled
      have := cf.rem_nonneg
      linarith
  | opened c n es sda ac hc hn hle hlim hcl hcap hmode hadd =>
    have h0 : 0 < r.shares := by
      rcases lt_or_eq_of_le hsh with h0 | h0
      · exact h0
      · exfalso
        have : c.rem = 0 := by
          rw [hc, ← h0]
          unfold closeShares
          split
          · rfl
          · rename_i p hp
            cases p.entries <;> simp [exitLoop]
        linarith
    have cf := closeShares_facts (cfg := cfg) (pt := sd.closes) (date := r.date)
      (sym := r.symbol) (fill := r.fill) hg.wf hg.ne h0
    rw [← hc] at cf
    have hord : c.pf.orders = s.orders := by rw [hc]; exact closeShares_orders ..
    have hfn := cf.filled_nonneg
    right
    refine ⟨((openedPf cfg c.pf sd.opens r.date r.symbol n r.fill es sda ac).addOrder cfg r.date
          r.symbol sd r.created r.orderType (intentOf sd n) (c.filled + n) r.limit r.marketPrice
          r.fill).1, ?_, rfl, ?_⟩
    · show c.pf.orders ++ [_] = _
      rw [hord]
      rfl
    · refine ⟨rfl, rfl, rfl, rfl, rfl, ?_, ?_, rfl, rfl, hfl, hallow hlim⟩
      · show 0 < c.filled + n
        linarith
      · show c.filled + n ≤ r.shares
        have := cf.filled
        linarith

theorem Fills.closesOut {d : Date} {sym : Sym} {n price : ℚ} {slip : Option SlipFn} {sd : Side}
    {y : Order} (hs : y.side = sd)
    (h : Fills {
      date := d, symbol := sym, shares := n,
      fill := slipPrice slip sd sym n price, marketPrice := some price } y) :
    ClosesOut d sym price slip y :=
  ⟨h.symbol, h.date, h.created, h.limit, h.type, h.pos, h.market,
    ⟨n, by rw [h.fill, hs]⟩, h.fillPos⟩

/-- One call: each order it adds, it makes. -/
theorem step_makes {cfg : Config} {ops : List Op} {op : Op} {s s' : Portfolio}
    (hfit : ∀ op ∈ ops, op.Fit) (hfresh : FreshIds ops) (hrun : run cfg ops = .ok s)
    (h : step cfg s op = .ok s') :
    ∃ new, s'.orders = s.orders ++ new ∧ ∀ o ∈ new, Makes (ops.flatMap stopsOf) o op := by
  obtain ⟨hg, hf⟩ := run_good hfit hrun
  have quiet : Steps cfg noFill s s' → ∃ new, s'.orders = s.orders ++ new ∧
      ∀ o ∈ new, Makes (ops.flatMap stopsOf) o op := fun h1 =>
    ⟨[], by rw [(noFill_steps h1).1, List.append_nil], by simp⟩
  cases op with
  | buy r =>
    simp only [step] at h
    rcases hb : buy cfg s r with e | ⟨o, t⟩
    · rw [hb] at h; cases h
    · rw [hb] at h; cases h
      rcases placeOrder_fills (sd := .buy) hg hb with h1 | ⟨y, h1, h2, h3⟩
      · exact ⟨[], by rw [h1, List.append_nil], by simp⟩
      · refine ⟨[y], h1, fun o ho => ?_⟩
        rw [List.mem_singleton] at ho
        subst ho
        exact ⟨h2, h3⟩
  | sell r =>
    simp only [step] at h
    rcases hb : sell cfg s r with e | ⟨o, t⟩
    · rw [hb] at h; cases h
    · rw [hb] at h; cases h
      rcases placeOrder_fills (sd := .sell) hg hb with h1 | ⟨y, h1, h2, h3⟩
      · exact ⟨[], by rw [h1, List.append_nil], by simp⟩
      · refine ⟨[y], h1, fun o ho => ?_⟩
        rw [List.mem_singleton] at ho
        subst ho
        exact ⟨h2, h3⟩
  | exitPosition d sym b q slip =>
    obtain ⟨s1, h1, h2⟩ := exitPosition_cases h
    have k1 : Good s1 ∧ ∃ new, s1.orders = s.orders ++ new ∧
        ∀ o ∈ new, Makes (ops.flatMap stopsOf) o (.exitPosition d sym b q slip) := by
      rcases h1 with ⟨_, rfl⟩ | ⟨p, o, hp, hs⟩
      · exact ⟨hg, [], by simp, by simp⟩
      · refine ⟨placeOrder_good hg hs, ?_⟩
        rcases placeOrder_fills hg hs with k | ⟨y, k, k2, k3⟩
        · exact ⟨[], by rw [k, List.append_nil], by simp⟩
        · refine ⟨[y], k, fun o ho => ?_⟩
          rw [List.mem_singleton] at ho
          subst ho
          have := Fills.closesOut k2 k3
          simp only [Makes, k2]
          exact this
    obtain ⟨hg1, new, e1, e2⟩ := k1
    rcases h2 with ⟨_, rfl⟩ | ⟨p, o, hp, hs⟩
    · exact ⟨new, e1, e2⟩
    · rcases placeOrder_fills hg1 hs with k | ⟨y, k, k2, k3⟩
      · exact ⟨new, by rw [k, e1], e2⟩
      · refine ⟨new ++ [y], by rw [k, e1, List.append_assoc], fun o ho => ?_⟩
        rcases List.mem_append.1 ho with ho | ho
        · exact e2 o ho
        · rw [List.mem_singleton] at ho
          subst ho
          have := Fills.closesOut k2 k3
          simp only [Makes, k2]
          exact this
  | captureBar d quote =>
    cases h
    have hl := sameLog_capture cfg s d quote
    obtain ⟨a, b, hi⟩ := applyInterest_frame cfg s
    exact ⟨[], by rw [hl.orders, hi, List.append_nil], by simp⟩
  | incrBars hb =>
    cases h
    exact quiet (Steps.one (Prim.incr hb trivial))
  | checkStops d env =>
    have hr := run_reg hfit hfresh hrun
    obtain ⟨xs, _, _, ⟨new, h1, h2⟩, h3⟩ := first_stop_exits hfit hfresh hrun h
    refine ⟨new, h1, fun o ho => ?_⟩
    have : OrderFacts.of o ∈ xs.map (stopOrder env d) := by
      rw [← h2]; exact List.mem_map_of_mem ho
    obtain ⟨⟨e, st, m⟩, hx, hxo⟩ := List.mem_map.1 this
    obtain ⟨⟨pt, sym, hin, hcan⟩, hst, hfire, hlim, _⟩ := (h3 e st m).1 hx
    obtain ⟨p, hp, hps, hep⟩ := mem_entriesOf.1 hin
    have hesym : e.symbol = p.symbol := ((hg.wf.pos _ p hp).entries e hep).symbol
    refine ⟨e, st, m, _, (hr.univ pt p hp e hep).1 st hst, ?_, ?_, hfire, hlim, hxo.symm⟩
    · rw [hesym]; exact (hf.entries pt p hp e hep st hst).2
    · rw [hesym, hps]; exact hcan
  | removeStop id =>
    cases h
    exact quiet (Steps.one (Prim.removeStop id hg.wf))
  | removeStopsSym sym t =>
    cases h
    exact quiet (removeStopsSym_steps hg sym t)
  | removeStopsEntry id t =>
    cases h
    exact quiet (removeStopsEntry_steps hg id t)

/-- Every order of a history was made by one of its calls. -/
theorem run_makes {cfg : Config} {ops : List Op} (hfit : ∀ op ∈ ops, op.Fit)
    (hfresh : FreshIds ops) : ∀ {s : Portfolio}, run cfg ops = .ok s →
    ∀ o ∈ s.orders, ∃ op ∈ ops, Makes (ops.flatMap stopsOf) o op := by
  induction ops using List.reverseRecOn with
  | nil =>
    intro s h o ho
    cases h
    simp [Portfolio.init] at ho
  | append_singleton ops op ih =>
    intro s' h o ho
    obtain ⟨s, h1, h2⟩ := run_snoc h
    have hfit' : ∀ op ∈ ops, op.Fit := fun x hx => hfit x (List.mem_append_left _ hx)
    have hfresh' : FreshIds ops := by
      unfold FreshIds at hfresh ⊢
      rw [List.flatMap_append, List.map_append] at hfresh
      exact (List.nodup_append.1 hfresh).1
    obtain ⟨new, e1, e2⟩ := step_makes hfit' hfresh' h1 h2
    rw [e1, List.mem_append] at ho
    rcases ho with ho | ho
    · obtain ⟨x, hx, hm⟩ := ih hfit' hfresh' h1 o ho
      exact ⟨x, List.mem_append_left _ hx, Makes.mono hm (by simp +contextual)⟩
    · exact ⟨op, by simp, Makes.mono (e2 o ho) (by simp +contextual)⟩

end PyBroker
