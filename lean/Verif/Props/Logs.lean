import Verif.Portfolio.Ledger
import Verif.Portfolio.Fifo
import Verif.Props.Demo

/-!
# C07, C08, C09: order log, trade log and limit prices
-/

namespace PyBroker

open Spec

/-- C07. -/
theorem realised_pnl_and_win_rate {cfg : Config} {ops : List Op} {s : Portfolio}
    (hfit : ∀ op ∈ ops, op.Fit) (h : run cfg ops = .ok s) :
    s.pnl = realised s ∧
    (∀ before t after, s.trades = before ++ t :: after →
      t.aggPnl = ((before ++ [t]).map Trade.pnl).sum) ∧
    (∀ t ∈ s.trades, t.pnl = profit t.type t.shares t.entry t.exit) ∧
    (s.trades ≠ [] →
      s.winRate = (s.trades.countP (fun t => decide (0 < t.pnl)) : ℚ) / s.trades.length ∧
      s.winRate + s.lossRate = 1) := by
  have hl := run_log hfit h
  refine ⟨hl.pnl, ?_, ?_, ?_⟩
  · intro b t a hb
    rw [hl.agg b t a hb, List.map_append, List.sum_append]
    simp
  · intro t ht
    rw [hl.tradePnl t ht, gain_profit]
  · intro hne
    unfold Portfolio.winRate Portfolio.lossRate Portfolio.winRate
    rw [if_neg hne, if_neg hne, hl.wins]
    exact ⟨rfl, by ring⟩

/-- The price reads of a stop check are sane: prices are positive, and a bar
with a high also has a low. -/
def StopEnv.Positive (env : StopEnv) : Prop :=
  ∀ sym, (∀ pt x, env.fetchFloat sym pt = some x → 0 < x) ∧
    (env.fetchFloat sym .low = none → env.fetchFloat sym .high = none)

def Op.PositivePrices : Op → Prop
  | .checkStops _ env => env.Positive
  | _ => True

theorem leN_some {a b : Option ℚ} (h : leN a b = true) : ∃ x y, a = some x ∧ b = some y ∧ x ≤ y := by
  cases a with
  | none => cases h
  | some x =>
    cases b with
    | none => cases h
    | some y => exact ⟨x, y, rfl, rfl, by simpa [leN] using h⟩

theorem triggerProfitLoss_pos {env : StopEnv} (he : env.Positive) {st : Stop} {v : Option ℚ}
    {m : ℚ} (h : triggerProfitLoss env st v = some m) : 0 < m := by
  unfold triggerProfitLoss at h
  split at h
  · split at h
    · simp only at h
      split at h
      · exact (he st.symbol).1 _ _ h
      · cases h
    · split at h
      · rename_i hle
        obtain ⟨x, y, hx, hy, hxy⟩ := leN_some hle
        have hx0 := (he st.symbol).1 _ _ hx
        unfold pyMin at h
        split at h
        · exact (he st.symbol).1 _ _ h
        · rw [hy] at h
          have := Option.some.inj h
          linarith
      · cases h
  · split at h
    · simp only at h
      split at h
      · exact (he st.symbol).1 _ _ h
      · cases h
    · split at h
      · rename_i hle
        obtain ⟨x, y, hx, hy, hxy⟩ := leN_some hle
        unfold pyMax at h
        split at h
        · exact (he st.symbol).1 _ _ h
        · rename_i hlt
          rcases Option.eq_none_or_eq_some (env.fetchFloat st.symbol .low) with hn | ⟨l, hl⟩
          · rw [(he st.symbol).2 hn] at hy; cases hy
          · have hl0 := (he st.symbol).1 _ _ hl
            rw [hl, hx] at hlt
            have : ¬ x < l := by simpa [ltN] using hlt
            rw [hx] at h
            have := Option.some.inj h
            linarith
      · cases h

theorem StopEnv.Positive.fills {env : StopEnv} (he : env.Positive) : env.Fills (fun x => 0 < x) := by
  intro s e st market s1 h
  have hm : 0 < market := by
    unfold stopFill at h
    have price : ∀ v, triggerProfitLoss env st v = some market → 0 < market :=
      fun v hv => triggerProfitLoss_pos he hv
    split at h
    · split at h
      · cases h
      · rename_i f hf
        cases h
        unfold triggerBar at hf
        split at hf
        · cases hf
        · split at hf
          · split at hf
            · cases hf
            · split at hf
              · cases hf
              · rename_i hx
                cases hf
                exact not_le.1 hx
          · cases hf
    · split at h
      · cases h
      · rename_i d _; exact price d.value (congrArg Prod.fst (Except.ok.inj h))
    · split at h
      · cases h
      · rename_i d _; exact price d.value (congrArg Prod.fst (Except.ok.inj h))
    · split at h
      · cases h
      · split at h
        · cases h
        · rename_i hh
          cases h
          unfold triggerTrailing at hh
          split at hh
          · rename_i hp; cases hh; exact price _ hp
          · split at hh <;> cases hh
  unfold slipStopFill
  split
  · exact hm
  · rename_i f _
    have key : ∀ x : ℚ, 0 < if x ≤ 0 then market else x := by
      intro x
      split
      · exact hm
      · rename_i hx; exact not_le.1 hx
    exact key _

/-- C08, one call: the logs only grow. -/
theorem logs_append_only {cfg : Config} {ops : List Op} {s s' : Portfolio} {op : Op}
    (hfit : ∀ op ∈ ops, op.Fit) (h : run cfg ops = .ok s) (hop : op.Fit)
    (hs : step cfg s op = .ok s') :
    (∃ newOrders, s'.orders = s.orders ++ newOrders) ∧
      ∃ newTrades, s'.trades = s.trades ++ newTrades := by
  obtain ⟨hg, hf⟩ := run_good hfit h
  have key : s.orders <+: s'.orders ∧ s.trades <+: s'.trades := by
    rcases step_steps hg hf hop (Op.fills_true op) hs with ⟨_, hst⟩ | ⟨d, q, _, rfl⟩
    · exact hst.inv (P := fun t => s.orders <+: t.orders ∧ s.trades <+: t.trades)
        (fun a b hp ha => ⟨ha.1.trans (log_prefix hp).1, ha.2.trans (log_prefix hp).2⟩)
        ⟨List.prefix_rfl, List.prefix_rfl⟩
    · rw [(log_capture cfg s d q).1, (log_capture cfg s d q).2]
      exact ⟨List.prefix_rfl, List.prefix_rfl⟩
  obtain ⟨⟨a, ha⟩, b, hb⟩ := key
  exact ⟨⟨a, ha.symm⟩, b, hb.symm⟩

/-- C08, the contents of the logs. -/
theorem logs_consecutive {cfg : Config} {ops : List Op} {s : Portfolio}
    (hfit : ∀ op ∈ ops, op.Fit) (hpos : ∀ op ∈ ops, op.PositivePrices)
    (h : run cfg ops = .ok s) :
    s.orders.map Order.id = (List.range s.orders.length).map (· + 1) ∧
    s.trades.map Trade.id = (List.range s.trades.length).map (· + 1) ∧
    (∀ o ∈ s.orders, 0 < o.shares ∧ 0 < o.fillPrice) ∧
    (∀ t ∈ s.trades, 0 < t.shares ∧ 0 < t.entry ∧ 0 < t.exit) ∧
    s.fees = feesCharged s := by
  have hQ : ∀ op ∈ ops, op.Fills ⟨fun x => 0 < x, fun _ => True, True, True⟩ := by
    intro op hop
    have hp := hpos op hop
    cases op <;> first
      | exact ⟨fun _ h => h, trivial⟩
      | exact trivial
      | exact ⟨StopEnv.Positive.fills hp, trivial⟩
  have hl : LogInv cfg (fun x => 0 < x) s :=
    runFrom_inv (Q := ⟨fun x => 0 < x, fun _ => True, True, True⟩) hfit hQ (Good.init cfg) (StopsFit.init cfg) h
      (fun _ _ hp hs => hs.prim hp) (fun _ date quote _ hs => hs.capture date quote)
      (LogInv.init cfg _)
  exact ⟨hl.orderIds, hl.tradeIds, fun o ho => ⟨hl.orderShares o ho, hl.orderFill o ho⟩,
    hl.tradeShares, hl.fees⟩

/-- C09. -/
theorem limits_honoured {cfg : Config} {ops : List Op} {s : Portfolio}
    (hfit : ∀ op ∈ ops, op.Fit) (h : run cfg ops = .ok s) :
    ∀ o ∈ s.orders, withinLimit o.side o.limitPrice o.fillPrice := by
  intro o ho l hl
  have := (run_log hfit h).orderLimit o ho
  rw [hl] at this
  cases hsd : o.side <;> rw [hsd] at this <;>
    simpa [limitBlocks, buyLimitBlocks, sellLimitBlocks] using this

/-! ### The hypotheses are met -/

theorem Demo.positive : ∀ op ∈ Demo.ops, op.PositivePrices := by
  have he : Demo.env.Positive := by
    intro sym
    unfold Demo.env
    by_cases h : sym = "AAA"
    · simp only [h, if_true]
      refine ⟨fun pt x hx => ?_, by simp⟩
      cases pt <;> simp at hx <;> rw [← hx] <;> norm_num
    · simp only [h, if_false]
      refine ⟨fun pt x hx => ?_, by simp⟩
      simp at hx
      rw [← hx]; norm_num
  simp [Demo.ops, Demo.bar1, Demo.bar2, Demo.bar3, Op.PositivePrices, he]

example := realised_pnl_and_win_rate Demo.fit Demo.run_final
example : Demo.final.winRate = 3 / 4 ∧ Demo.final.trades.map Trade.aggPnl = [20, -10, 40, 60] := by
  decide +kernel
example := logs_consecutive Demo.fit Demo.positive Demo.run_final
example : Demo.final.orders.map Order.id = [1, 2, 3, 4, 5, 6, 7] := by decide +kernel
example := limits_honoured Demo.fit Demo.run_final
/-- A limit order and a stop with a limit price both filled. -/
example : Demo.final.orders.filterMap Order.limitPrice = [104, 90] := by decide +kernel
example := logs_append_only (op := .removeStop 1) Demo.fit2 Demo.run_s2 trivial rfl

end PyBroker
