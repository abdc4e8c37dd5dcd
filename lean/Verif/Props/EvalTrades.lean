import Verif.Props.Eval

/-!
# Trade statistics and the accounting of a result (C55, C56, C80)
-/

namespace PyBroker

variable {K : Type} [Field K] [LinearOrder K]

namespace Spec

/-- The winning trades, in order. -/
def winners (ts : List (TRow K)) : List (TRow K) := ts.filter (fun t => decide (t.pnl > 0))

/-- The losing trades, in order. -/
def losers (ts : List (TRow K)) : List (TRow K) := ts.filter (fun t => decide (t.pnl < 0))

/-- The average of a field over some trades; zero when there are none. -/
def avgOf (f : TRow K → K) (ts : List (TRow K)) : K :=
  if ts = [] then 0 else (ts.map f).sum / ts.length

/-- `(v, pct, bars)` are the data of the first of the most profitable winners; zeros when there
is no winner. -/
def IsLargestWin (ts : List (TRow K)) (v pct : K) (bars : Nat) : Prop :=
  (winners ts = [] ∧ v = 0 ∧ pct = 0 ∧ bars = 0) ∨
    ∃ pre t post, ts = pre ++ t :: post ∧ 0 < t.pnl ∧ v = t.pnl ∧ pct = t.pct ∧ bars = t.bars ∧
      (∀ u ∈ pre, u.pnl < t.pnl) ∧ ∀ u ∈ post, u.pnl ≤ t.pnl

/-- The same for the most negative loser. -/
def IsLargestLoss (ts : List (TRow K)) (v pct : K) (bars : Nat) : Prop :=
  (losers ts = [] ∧ v = 0 ∧ pct = 0 ∧ bars = 0) ∨
    ∃ pre t post, ts = pre ++ t :: post ∧ t.pnl < 0 ∧ v = t.pnl ∧ pct = t.pct ∧ bars = t.bars ∧
      (∀ u ∈ pre, t.pnl < u.pnl) ∧ ∀ u ∈ post, t.pnl ≤ u.pnl

end Spec

open Spec

/-! ## Runs -/

/-- `m` is the longest run and `c` the longest run at the end. -/
def RunInv {α : Type} (p : α → Prop) (l : List α) (m c : Nat) : Prop :=
  IsLongestRun p l m ∧ (∃ run, run <:+ l ∧ (∀ t ∈ run, p t) ∧ run.length = c) ∧
    ∀ run, run <:+ l → (∀ t ∈ run, p t) → run.length ≤ c

theorem runInv_nil {α : Type} (p : α → Prop) : RunInv p [] 0 0 := by
  refine ⟨⟨⟨[], by simp, by simp, rfl⟩, ?_⟩, ⟨[], by simp, by simp, rfl⟩, ?_⟩
  · intro run h _
    simp [List.infix_nil.mp h]
  · intro run h _
    simp [List.suffix_nil.mp h]

theorem runInv_step {α : Type} (p : α → Prop) [DecidablePred p] (l : List α) (x : α) (m c : Nat)
    (h : RunInv p l m c) :
    RunInv p (l ++ [x]) (if p x then max m (c + 1) else m) (if p x then c + 1 else 0) := by
  obtain ⟨⟨⟨r1, h1, h1p, h1l⟩, hm⟩, ⟨r2, h2, h2p, h2l⟩, hc⟩ := h
  have hext : r1 <:+: l ++ [x] := h1.trans (List.infix_append' [] l [x])
  by_cases hx : p x
  · simp only [if_pos hx]
    have hsuf : r2 ++ [x] <:+ l ++ [x] := by
      obtain ⟨a, ha⟩ := h2
      exact ⟨a, by rw [← ha]; simp⟩
    have hsp : ∀ t ∈ r2 ++ [x], p t := by
      intro t ht
      rcases List.mem_append.mp ht with ht | ht
      · exact h2p t ht
      · rw [List.mem_singleton.mp ht]; exact hx
    have hc' : ∀ run, run <:+ l ++ [x] → (∀ t ∈ run, p t) → run.length ≤ c + 1 := by
      intro run hr hrp
      rcases List.suffix_concat_iff.mp hr with rfl | ⟨t, rfl, ht⟩
      · simp
      · have := hc t ht (fun u hu => hrp u (by simp [hu]))
        simp
        omega
    refine ⟨⟨?_, ?_⟩, ⟨r2 ++ [x], hsuf, hsp, by simp [h2l]⟩, hc'⟩
    · rcases le_total m (c + 1) with h | h
      · exact ⟨r2 ++ [x], hsuf.isInfix, hsp, by rw [max_eq_right h]; simp [h2l]⟩
      · exact ⟨r1, hext, h1p, by rw [max_eq_left h]; exact h1l⟩
    · intro run hr hrp
      rcases List.infix_concat_iff.mp hr with h | h
      · exact le_trans (hc' run h hrp) (le_max_right _ _)
      · exact le_trans (hm run h hrp) (le_max_left _ _)
  · simp only [if_neg hx]
    have hnone : ∀ run, run <:+ l ++ [x] → (∀ t ∈ run, p t) → run = [] := by
      intro run hr hrp
      rcases List.suffix_concat_iff.mp hr with rfl | ⟨t, rfl, ht⟩
      · rfl
      · exact absurd (hrp x (by simp)) hx
    refine ⟨⟨⟨r1, hext, h1p, h1l⟩, ?_⟩, ⟨[], List.nil_suffix, by simp, rfl⟩, ?_⟩
    · intro run hr hrp
      rcases List.infix_concat_iff.mp hr with h | h
      · rw [hnone run h hrp]; simp
      · exact hm run h hrp
    · intro run hr hrp
      rw [hnone run hr hrp]; simp

/-! ## Invariant of the one-pass loop -/

/-- What `_trade_stats` has summed after each prefix. -/
structure TradeSumInv (l : List (TRow K)) (s : TSt K) : Prop where
  pnlSum : s.pnlSum = (l.map TRow.pnl).sum
  pctSum : s.pctSum = (l.map TRow.pct).sum
  barsSum : s.barsSum = (l.map TRow.bars).sum
  totalProfit : s.totalProfit = ((winners l).map TRow.pnl).sum
  totalLoss : s.totalLoss = ((losers l).map TRow.pnl).sum
  profitPct : s.profitPct = ((winners l).map TRow.pct).sum
  lossPct : s.lossPct = ((losers l).map TRow.pct).sum
  winBars : s.winBars = ((winners l).map TRow.bars).sum
  lossBars : s.lossBars = ((losers l).map TRow.bars).sum
  profitCount : s.profitCount = (winners l).length
  lossCount : s.lossCount = (losers l).length
  wins : s.wins = (winners l).length
  losses : s.losses = (losers l).length
  nonzero : s.nonzero = (winners l).length + (losers l).length

omit [Field K] [LinearOrder K] in
theorem winners_append [Field K] [LinearOrder K] (l : List (TRow K)) (t : TRow K) :
    winners (l ++ [t]) = if t.pnl > 0 then winners l ++ [t] else winners l := by
  unfold winners
  by_cases h : t.pnl > 0 <;> simp [List.filter_append, h]

theorem losers_append (l : List (TRow K)) (t : TRow K) :
    losers (l ++ [t]) = if t.pnl < 0 then losers l ++ [t] else losers l := by
  unfold losers
  by_cases h : t.pnl < 0 <;> simp [List.filter_append, h]

theorem tradeSumInv_all (ts : List (TRow K)) : TradeSumInv ts (ts.foldl tradeStep TSt.init) := by
  refine foldl_prefix tradeStep TradeSumInv _ ?_ ?_ ts
  · constructor <;> simp [TSt.init, winners, losers]
  · intro l t s h
    constructor
    · rw [step_pnlSum, h.pnlSum]; simp
    · rw [step_pctSum, h.pctSum]; simp
    · rw [step_barsSum, h.barsSum]; simp
    · rw [step_totalProfit, h.totalProfit, winners_append]; split <;> simp
    · rw [step_totalLoss, h.totalLoss, losers_append]; split <;> simp
    · rw [step_profitPct, h.profitPct, winners_append]; split <;> simp
    · rw [step_lossPct, h.lossPct, losers_append]; split <;> simp
    · rw [step_winBars, h.winBars, winners_append]; split <;> simp
    · rw [step_lossBars, h.lossBars, losers_append]; split <;> simp
    · rw [step_profitCount, h.profitCount, winners_append]; split <;> simp
    · rw [step_lossCount, h.lossCount, losers_append]; split <;> simp
    · rw [step_wins, h.wins, winners_append]; split <;> simp
    · rw [step_losses, h.losses, losers_append]; split <;> simp
    · rw [step_nonzero, h.nonzero, winners_append, losers_append]
      rcases lt_trichotomy t.pnl 0 with h | h | h
      · simp [h, ne_of_lt h, not_lt.mpr (le_of_lt h)]; omega
      · simp [h]
      · simp [h, ne_of_gt h, not_lt.mpr (le_of_lt h)]; omega

theorem runs_all (ts : List (TRow K)) :
    IsLongestRun (fun t : TRow K => t.pnl > 0) ts (ts.foldl tradeStep TSt.init).maxWins ∧
      IsLongestRun (fun t : TRow K => t.pnl < 0) ts (ts.foldl tradeStep TSt.init).maxLosses := by
  have := foldl_prefix tradeStep (fun l s =>
    RunInv (fun t : TRow K => t.pnl > 0) l s.maxWins s.curWins ∧
      RunInv (fun t : TRow K => t.pnl < 0) l s.maxLosses s.curLosses) TSt.init
    ⟨runInv_nil _, runInv_nil _⟩ ?_ ts
  · exact ⟨this.1.1, this.2.1⟩
  · rintro l t s ⟨h1, h2⟩
    rw [step_maxWins, step_curWins, step_maxLosses, step_curLosses]
    exact ⟨runInv_step _ l t _ _ h1, runInv_step _ l t _ _ h2⟩

theorem largest_all (ts : List (TRow K)) :
    IsLargestWin ts (ts.foldl tradeStep TSt.init).largestWin
        (ts.foldl tradeStep TSt.init).largestWinPct (ts.foldl tradeStep TSt.init).largestWinBars ∧
      IsLargestLoss ts (ts.foldl tradeStep TSt.init).largestLoss
        (ts.foldl tradeStep TSt.init).largestLossPct
        (ts.foldl tradeStep TSt.init).largestLossBars := by
  refine foldl_prefix tradeStep (fun l s =>
    IsLargestWin l s.largestWin s.largestWinPct s.largestWinBars ∧
      IsLargestLoss l s.largestLoss s.largestLossPct s.largestLossBars) TSt.init ?_ ?_ ts
  · exact ⟨Or.inl ⟨rfl, rfl, rfl, rfl⟩, Or.inl ⟨rfl, rfl, rfl, rfl⟩⟩
  · rintro l t s ⟨hw, hl⟩
    constructor
    · have e := step_largestWin s t
      by_cases hc : t.pnl > 0 ∧ t.pnl > s.largestWin
      · rw [if_pos hc, Prod.mk.injEq, Prod.mk.injEq] at e
        refine Or.inr ⟨l, t, [], rfl, hc.1, e.1, e.2.1, e.2.2, ?_, by simp⟩
        intro u hu
        rcases hw with ⟨hnone, _⟩ | ⟨pre, w, post, rfl, _, hv, _, _, hpre, hpost⟩
        · have : ¬ u.pnl > 0 := by
            intro hpos
            have : u ∈ winners l := List.mem_filter.mpr ⟨hu, by simpa using hpos⟩
            rw [hnone] at this
            cases this
          exact lt_of_le_of_lt (not_lt.mp this) hc.1
        · rw [hv] at hc
          rcases List.mem_append.mp hu with h | h
          · exact lt_trans (hpre u h) hc.2
          · rcases List.mem_cons.mp h with h | h
            · rw [h]; exact hc.2
            · exact lt_of_le_of_lt (hpost u h) hc.2
      · rw [if_neg hc, Prod.mk.injEq, Prod.mk.injEq] at e
        rw [e.1, e.2.1, e.2.2]
        rcases hw with ⟨hnone, hv, hp, hb⟩ | ⟨pre, w, post, rfl, hpos, hv, hp, hb, hpre, hpost⟩
        · refine Or.inl ⟨?_, hv, hp, hb⟩
          rw [winners_append, if_neg, hnone]
          intro hpos
          exact hc ⟨hpos, by rw [hv]; exact hpos⟩
        · refine Or.inr ⟨pre, w, post ++ [t], by simp, hpos, hv, hp, hb, hpre, ?_⟩
          intro u hu
          rcases List.mem_append.mp hu with h | h
          · exact hpost u h
          · rw [List.mem_singleton.mp h]
            by_contra hgt
            rw [not_le] at hgt
            exact hc ⟨lt_trans hpos hgt, by rw [hv]; exact hgt⟩
    · have e := step_largestLoss s t
      by_cases hc : t.pnl < 0 ∧ t.pnl < s.largestLoss
      · rw [if_pos hc, Prod.mk.injEq, Prod.mk.injEq] at e
        refine Or.inr ⟨l, t, [], rfl, hc.1, e.1, e.2.1, e.2.2, ?_, by simp⟩
        intro u hu
        rcases hl with ⟨hnone, _⟩ | ⟨pre, w, post, rfl, _, hv, _, _, hpre, hpost⟩
        · have : ¬ u.pnl < 0 := by
            intro hneg
            have : u ∈ losers l := List.mem_filter.mpr ⟨hu, by simpa using hneg⟩
            rw [hnone] at this
            cases this
          exact lt_of_lt_of_le hc.1 (not_lt.mp this)
        · rw [hv] at hc
          rcases List.mem_append.mp hu with h | h
          · exact lt_trans hc.2 (hpre u h)
          · rcases List.mem_cons.mp h with h | h
            · rw [h]; exact hc.2
            · exact lt_of_lt_of_le hc.2 (hpost u h)
      · rw [if_neg hc, Prod.mk.injEq, Prod.mk.injEq] at e
        rw [e.1, e.2.1, e.2.2]
        rcases hl with ⟨hnone, hv, hp, hb⟩ | ⟨pre, w, post, rfl, hpos, hv, hp, hb, hpre, hpost⟩
        · refine Or.inl ⟨?_, hv, hp, hb⟩
          rw [losers_append, if_neg, hnone]
          intro hneg
          exact hc ⟨hneg, by rw [hv]; exact hneg⟩
        · refine Or.inr ⟨pre, w, post ++ [t], by simp, hpos, hv, hp, hb, hpre, ?_⟩
          intro u hu
          rcases List.mem_append.mp hu with h | h
          · exact hpost u h
          · rw [List.mem_singleton.mp h]
            by_contra hgt
            rw [not_le] at hgt
            exact hc ⟨lt_trans hgt hpos, by rw [hv]; exact hgt⟩

theorem overCount_avg (f : TRow K → K) (ts : List (TRow K)) :
    overCount (ts.map f).sum ts.length = avgOf f ts := by
  unfold overCount avgOf
  by_cases h : ts = []
  · simp [h]
  · rw [if_neg (by simpa using h), if_neg h]

theorem cast_bars (ts : List (TRow K)) :
    (((ts.map TRow.bars).sum : Nat) : K) = (ts.map (fun t => (t.bars : K))).sum := by
  induction ts with
  | nil => simp
  | cons t rest ih => simp [ih]

/-- **C55** (sums).  The counts, totals and averages of the trade statistics are those of the
trades, of the winners and of the losers. -/
theorem trade_sums (ts : List (TRow K)) :
    (tradeStats ts).count = ts.length ∧
      (tradeStats ts).winners = (winners ts).length ∧
      (tradeStats ts).losers = (losers ts).length ∧
      (tradeStats ts).totalPnl = (ts.map TRow.pnl).sum ∧
      (tradeStats ts).totalProfit = ((winners ts).map TRow.pnl).sum ∧
      (tradeStats ts).totalLoss = ((losers ts).map TRow.pnl).sum ∧
      (tradeStats ts).avgPnl = avgOf TRow.pnl ts ∧
      (tradeStats ts).avgPct = avgOf TRow.pct ts ∧
      (tradeStats ts).avgBars = avgOf (fun t => (t.bars : K)) ts ∧
      (tradeStats ts).avgProfit = avgOf TRow.pnl (winners ts) ∧
      (tradeStats ts).avgLoss = avgOf TRow.pnl (losers ts) ∧
      (tradeStats ts).avgProfitPct = avgOf TRow.pct (winners ts) ∧
      (tradeStats ts).avgLossPct = avgOf TRow.pct (losers ts) ∧
      (tradeStats ts).avgWinBars = avgOf (fun t => (t.bars : K)) (winners ts) ∧
      (tradeStats ts).avgLossBars = avgOf (fun t => (t.bars : K)) (losers ts) := by
  by_cases h0 : ts = []
  · subst h0
    simp [tradeStats, winners, losers, avgOf]
  · have hl : ts.length ≠ 0 := by simpa using h0
    have h := tradeSumInv_all ts
    unfold tradeStats
    simp only [if_neg hl]
    refine ⟨trivial, h.wins, h.losses, h.pnlSum, h.totalProfit, h.totalLoss, ?_, ?_, ?_, ?_, ?_, ?_, ?_,
      ?_, ?_⟩
    · rw [h.pnlSum, avgOf, if_neg h0]
    · rw [h.pctSum, avgOf, if_neg h0]
    · rw [h.barsSum, avgOf, if_neg h0, cast_bars]
    · rw [h.totalProfit, h.profitCount, overCount_avg]
    · rw [h.totalLoss, h.lossCount, overCount_avg]
    · rw [h.profitPct, h.profitCount, overCount_avg]
    · rw [h.lossPct, h.lossCount, overCount_avg]
    · rw [h.winBars, h.profitCount, cast_bars, overCount_avg]
    · rw [h.lossBars, h.lossCount, cast_bars, overCount_avg]

/-- **C55** (extremes).  The largest win and loss carry the data of the first such trade, and the
streaks are the longest runs of winners and of losers. -/
theorem trade_extremes (ts : List (TRow K)) :
    IsLargestWin ts (tradeStats ts).largestWin (tradeStats ts).largestWinPct
        (tradeStats ts).largestWinBars ∧
      IsLargestLoss ts (tradeStats ts).largestLoss (tradeStats ts).largestLossPct
        (tradeStats ts).largestLossBars ∧
      IsLongestRun (fun t : TRow K => t.pnl > 0) ts (tradeStats ts).maxWins ∧
      IsLongestRun (fun t : TRow K => t.pnl < 0) ts (tradeStats ts).maxLosses := by
  by_cases h0 : ts = []
  · subst h0
    exact ⟨Or.inl ⟨rfl, rfl, rfl, rfl⟩, Or.inl ⟨rfl, rfl, rfl, rfl⟩, (runInv_nil _).1,
      (runInv_nil _).1⟩
  · have hl : ts.length ≠ 0 := by simpa using h0
    unfold tradeStats
    simp only [if_neg hl]
    exact ⟨(largest_all ts).1, (largest_all ts).2, (runs_all ts).1, (runs_all ts).2⟩

variable [IsStrictOrderedRing K]

/-- **C55** (rates).  The win and loss rates are the shares of winners and losers among the
trades that won or lost, in percent; they add up to 100 unless there is no such trade, and then
both are zero. -/
theorem trade_rates (ts : List (TRow K)) :
    ((winners ts = [] ∧ losers ts = []) →
      (tradeStats ts).winRate = 0 ∧ (tradeStats ts).lossRate = 0) ∧
    (¬ (winners ts = [] ∧ losers ts = []) →
      (tradeStats ts).winRate
        = 100 * (winners ts).length / ((winners ts).length + (losers ts).length) ∧
      (tradeStats ts).winRate + (tradeStats ts).lossRate = 100) := by
  by_cases h0 : ts = []
  · subst h0
    simp [tradeStats, winners, losers]
  · have hl : ts.length ≠ 0 := by simpa using h0
    have h := tradeSumInv_all ts
    unfold tradeStats
    simp only [if_neg hl, h.nonzero, h.wins, h.losses]
    constructor
    · rintro ⟨hw, hlo⟩
      simp [hw, hlo]
    · intro hn
      have hpos : (winners ts).length + (losers ts).length ≠ 0 := by
        intro hz
        apply hn
        constructor
        · exact List.length_eq_zero_iff.mp (by omega)
        · exact List.length_eq_zero_iff.mp (by omega)
      have hposK : ((winners ts).length : K) + ((losers ts).length : K) ≠ 0 := by
        exact_mod_cast hpos
      simp only [if_neg hpos]
      push_cast
      refine ⟨?_, ?_⟩
      · field_simp
      · field_simp

/-- The statistics of five trades: two winners in a row, a flat one, a loser, a winner. -/
def fiveTrades : List (TRow ℚ) := [⟨3, 1, 2⟩, ⟨5, 2, 4⟩, ⟨0, 0, 1⟩, ⟨-4, -2, 3⟩, ⟨5, 7, 9⟩]

example : (tradeStats fiveTrades).winRate = 75 ∧ (tradeStats fiveTrades).maxWins = 2 ∧
    (tradeStats fiveTrades).largestWinBars = 4 ∧ (tradeStats fiveTrades).avgLoss = -4 ∧
    ¬ (winners fiveTrades = [] ∧ losers fiveTrades = []) := by decide +kernel

theorem nonzero_length (ts : List (TRow K)) :
    ((ts.map TRow.pnl).filter (fun x => decide (x ≠ 0))).length
      = (winners ts).length + (losers ts).length := by
  induction ts with
  | nil => rfl
  | cons t rest ih =>
    unfold winners losers at *
    rcases lt_trichotomy t.pnl 0 with h | h | h
    · simp [List.filter_cons, h, ne_of_lt h, not_lt.mpr (le_of_lt h)]
      simp at ih
      omega
    · simp [List.filter_cons, h]
      simpa using ih
    · simp [List.filter_cons, h, ne_of_gt h, not_lt.mpr (le_of_lt h)]
      simp at ih
      omega

/-- **C55** (stand-alone functions).  `win_loss_rate`, `winning_losing_trades`,
`total_profit_loss` and `avg_profit_loss` agree with the one-pass statistics. -/
theorem standalone_agree (ts : List (TRow K)) :
    winningLosing (ts.map TRow.pnl) = ((tradeStats ts).winners, (tradeStats ts).losers) ∧
      totalProfitLoss (ts.map TRow.pnl) = ((tradeStats ts).totalProfit, (tradeStats ts).totalLoss) ∧
      avgProfitLoss (ts.map TRow.pnl) = ((tradeStats ts).avgProfit, (tradeStats ts).avgLoss) ∧
      winLossRate (ts.map TRow.pnl) = ((tradeStats ts).winRate, (tradeStats ts).lossRate) := by
  obtain ⟨_, hw, hl, _, htp, htl, _, _, _, hap, hal, _⟩ := trade_sums ts
  have hfw : ((ts.map TRow.pnl).filter (fun x => decide (x > 0))) = (winners ts).map TRow.pnl := by
    rw [List.filter_map]; rfl
  have hfl : ((ts.map TRow.pnl).filter (fun x => decide (x < 0))) = (losers ts).map TRow.pnl := by
    rw [List.filter_map]; rfl
  have hfw2 : (((ts.map TRow.pnl).filter (fun x => decide (x ≠ 0))).filter
      (fun x => decide (x > 0))) = (winners ts).map TRow.pnl := by
    rw [List.filter_filter, ← hfw]
    apply List.filter_congr
    intro x _
    by_cases h : x > 0
    · simp [h, ne_of_gt h]
    · simp [h]
  have hfl2 : (((ts.map TRow.pnl).filter (fun x => decide (x ≠ 0))).filter
      (fun x => decide (x < 0))) = (losers ts).map TRow.pnl := by
    rw [List.filter_filter, ← hfl]
    apply List.filter_congr
    intro x _
    by_cases h : x < 0
    · simp [h, ne_of_lt h]
    · simp [h]
  have hnz := nonzero_length ts
  refine ⟨?_, ?_, ?_, ?_⟩
  · unfold winningLosing
    simp only [hnz, hfw2, hfl2, List.length_map, hw, hl]
    split
    · rw [Prod.mk.injEq]; omega
    · rfl
  · unfold totalProfitLoss
    rw [hfw, hfl, htp, htl]
  · unfold avgProfitLoss
    simp only [hfw, hfl, List.length_map, overCount_avg, hap, hal]
  · unfold winLossRate
    simp only [hnz, hfw2, hfl2, List.length_map]
    unfold tradeStats
    by_cases h0 : ts = []
    · subst h0
      simp [winners, losers]
    · have hl : ts.length ≠ 0 := by simpa using h0
      have h := tradeSumInv_all ts
      simp only [if_neg hl, h.nonzero, h.wins, h.losses]
      split <;> simp

omit [IsStrictOrderedRing K] in
/-- **C55** (stand-alone streaks).  `max_wins_losses` gives the longest runs too. -/
theorem standalone_streaks (pnls : List K) :
    IsLongestRun (fun x : K => x > 0) pnls (maxWinsLosses pnls).1 ∧
      IsLongestRun (fun x : K => x < 0) pnls (maxWinsLosses pnls).2 := by
  have := foldl_prefix streakStep (fun l s =>
    RunInv (fun x : K => x > 0) l s.1 s.2.2.1 ∧ RunInv (fun x : K => x < 0) l s.2.1 s.2.2.2)
    (0, 0, 0, 0) ⟨runInv_nil _, runInv_nil _⟩ ?_ pnls
  · exact ⟨this.1.1, this.2.1⟩
  · rintro l t s ⟨h1, h2⟩
    exact ⟨runInv_step _ l t _ _ h1, runInv_step _ l t _ _ h2⟩

/-! ## C56: the accounting of the metrics -/

/-- **C56** (totals).  Total profit and total loss add up to the total PnL, profits are not
negative and losses not positive. -/
theorem profit_loss_total (ts : List (TRow K)) :
    (tradeStats ts).totalProfit + (tradeStats ts).totalLoss = (tradeStats ts).totalPnl ∧
      0 ≤ (tradeStats ts).totalProfit ∧ (tradeStats ts).totalLoss ≤ 0 := by
  obtain ⟨_, _, _, h1, h2, h3, _⟩ := trade_sums ts
  rw [h1, h2, h3]
  have hfw : (winners ts).map TRow.pnl = ((ts.map TRow.pnl).filter (fun x => decide (x > 0))) := by
    rw [List.filter_map]; rfl
  have hfl : (losers ts).map TRow.pnl = ((ts.map TRow.pnl).filter (fun x => decide (x < 0))) := by
    rw [List.filter_map]; rfl
  rw [hfw, hfl]
  exact ⟨sum_split _, sum_filter_pos _, sum_filter_neg _⟩

omit [IsStrictOrderedRing K] in
/-- **C56** (market value).  Realized plus unrealized PnL is the change of market value over the
run plus the fees charged over it. -/
theorem metrics_identity (F : Fns K) (mv fees : List K) (ts : List (TRow K)) (m : Metrics K)
    (h : evalMetrics F mv fees ts = some m) :
    some m.initialValue = mv.head? ∧ some m.endValue = mv.getLast? ∧
      m.totalPnl = (ts.map TRow.pnl).sum ∧
      m.totalPnl + m.unrealizedPnl
        = (m.endValue - m.initialValue) + (m.totalFees - fees.headD 0) := by
  unfold evalMetrics at h
  rcases Option.eq_none_or_eq_some mv.head? with h1 | ⟨a, h1⟩
  · simp [h1] at h
  rcases Option.eq_none_or_eq_some mv.getLast? with h2 | ⟨b, h2⟩
  · simp [h1, h2] at h
  simp only [h1, h2] at h
  split at h
  · cases h
  · cases h
    refine ⟨by rw [h1], by rw [h2], (trade_sums ts).2.2.2.1, ?_⟩
    simp only
    ring

/-- **C56** (return).  The total return is the realized PnL as a percentage of the initial market
value, and 0 when that is 0. -/
theorem metrics_return (F : Fns K) (mv fees : List K) (ts : List (TRow K)) (m : Metrics K)
    (h : evalMetrics F mv fees ts = some m) :
    (m.initialValue ≠ 0 → m.totalReturnPct = 100 * m.totalPnl / m.initialValue) ∧
      (m.initialValue = 0 → m.totalReturnPct = 0) := by
  unfold evalMetrics at h
  rcases Option.eq_none_or_eq_some mv.head? with h1 | ⟨a, h1⟩
  · simp [h1] at h
  rcases Option.eq_none_or_eq_some mv.getLast? with h2 | ⟨b, h2⟩
  · simp [h1, h2] at h
  simp only [h1, h2] at h
  split at h
  · cases h
  · cases h
    simp only [totalReturnPct]
    constructor
    · intro hne
      rw [if_neg hne]
      field_simp
      ring
    · intro he
      rw [if_pos he]

/-- **C56** (when there are metrics).  A run with at least two bars has metrics. -/
theorem metrics_exist (F : Fns K) (mv fees : List K) (ts : List (TRow K)) :
    (evalMetrics F mv fees ts).isSome ↔ 2 ≤ mv.length := by
  cases mv with
  | nil => simp [evalMetrics]
  | cons a rest =>
    cases rest with
    | nil => simp [evalMetrics, barChanges]
    | cons b rest =>
      unfold evalMetrics
      simp [barChanges, List.getLast?_cons]

/-! ## C80: drawdown of the market values -/

/-- **C80** (cash).  The reported drawdown is the largest fall of the market value from a bar to
a later one. -/
theorem mv_drawdown (F : Fns K) (mv fees : List K) (ts : List (TRow K)) (m : Metrics K)
    (h : evalMetrics F mv fees ts = some m) :
    (∃ i j, i ≤ j ∧ j < mv.length ∧ m.maxDrawdown = mv.getD j 0 - mv.getD i 0) ∧
      ∀ i j, i ≤ j → j < mv.length → m.maxDrawdown ≤ mv.getD j 0 - mv.getD i 0 := by
  have hlen : 2 ≤ mv.length := (metrics_exist F mv fees ts).mp (by rw [h]; rfl)
  have hm : m.maxDrawdown = maxDrawdown (barChanges mv) := by
    unfold evalMetrics at h
    rcases Option.eq_none_or_eq_some mv.head? with h1 | ⟨a, h1⟩
    · simp [h1] at h
    rcases Option.eq_none_or_eq_some mv.getLast? with h2 | ⟨b, h2⟩
    · simp [h1, h2] at h
    simp only [h1, h2] at h
    split at h
    · cases h
    · cases h; rfl
  obtain ⟨_, ⟨i, j, hij, hj, he⟩, hall⟩ := max_drawdown_spec (barChanges mv)
  rw [length_barChanges] at hj hall
  have hc := cumAt_barChanges mv
  rw [hm]
  refine ⟨⟨i, j, hij, by omega, ?_⟩, fun a b hab hb => ?_⟩
  · rw [he, hc i (by omega), hc j (by omega)]; ring
  · have := hall a b hab (by omega)
    rw [hc a (by omega), hc b (by omega)] at this
    linarith

/-- **C80** (percent).  When the market value stays positive, the reported percentage is the
largest relative fall from a bar to a later one, and the reported index points at the first bar
whose value is that far below an earlier one: index `k` is bar `k + 1`. -/
theorem mv_drawdown_pct (F : Fns K) (mv fees : List K) (ts : List (TRow K)) (m : Metrics K)
    (h : evalMetrics F mv fees ts = some m) (hpos : ∀ i < mv.length, 0 < mv.getD i 0) :
    (∀ i j, i ≤ j → j < mv.length →
      m.maxDrawdownPct ≤ (mv.getD j 0 / mv.getD i 0 - 1) * 100) ∧
    (m.maxDrawdownIndex = none → m.maxDrawdownPct = 0) ∧
    ∀ k, m.maxDrawdownIndex = some k → k + 1 < mv.length ∧
      (∃ i ≤ k, m.maxDrawdownPct = (mv.getD (k + 1) 0 / mv.getD i 0 - 1) * 100) ∧
      ∀ i j, i ≤ j → j ≤ k → m.maxDrawdownPct < (mv.getD j 0 / mv.getD i 0 - 1) * 100 := by
  have hlen : 2 ≤ mv.length := (metrics_exist F mv fees ts).mp (by rw [h]; rfl)
  have hm : m.maxDrawdownPct = (maxDrawdownPct (barReturns mv)).1 ∧
      m.maxDrawdownIndex = (maxDrawdownPct (barReturns mv)).2 := by
    unfold evalMetrics at h
    rcases Option.eq_none_or_eq_some mv.head? with h1 | ⟨a, h1⟩
    · simp [h1] at h
    rcases Option.eq_none_or_eq_some mv.getLast? with h2 | ⟨b, h2⟩
    · simp [h1, h2] at h
    simp only [h1, h2] at h
    split at h
    · cases h
    · cases h; exact ⟨rfl, rfl⟩
  obtain ⟨h1, h2, h3⟩ := max_drawdown_pct_spec (barReturns mv)
  rw [length_barReturns] at h1 h3
  have h0 := hpos 0 (by omega)
  have hg : ∀ i < mv.length, growAt (barReturns mv) i = mv.getD i 0 / mv.getD 0 0 := by
    intro i hi
    rw [← growAt_barReturns mv i hi (fun j hj => ne_of_gt (hpos j (by omega)))]
    rw [mul_div_cancel_left₀ _ (ne_of_gt h0)]
  -- a running peak exists at every bar and is some earlier market value
  have hpeak : ∀ j, j < mv.length → ∃ i ≤ j, IsPeak (growAt (barReturns mv)) j
      (mv.getD i 0 / mv.getD 0 0) ∧ ∀ a ≤ j, mv.getD a 0 ≤ mv.getD i 0 := by
    intro j
    induction j with
    | zero =>
      intro hj
      refine ⟨0, le_refl _, ⟨⟨0, le_refl _, hg 0 hj⟩, ?_⟩, ?_⟩
      · intro i hi
        rw [Nat.le_zero.mp hi, hg 0 hj]
      · intro a ha
        rw [Nat.le_zero.mp ha]
    | succ j ih =>
      intro hj
      obtain ⟨i, hi, hp, ha⟩ := ih (by omega)
      have := isPeak_succ hp
      rw [hg (j + 1) hj] at this
      by_cases hc : mv.getD (j + 1) 0 / mv.getD 0 0 > mv.getD i 0 / mv.getD 0 0
      · rw [if_pos hc] at this
        refine ⟨j + 1, le_refl _, this, ?_⟩
        intro a haj
        have hlt : mv.getD i 0 < mv.getD (j + 1) 0 := (div_lt_div_iff_of_pos_right h0).mp hc
        rcases Nat.lt_or_ge j a with h | h
        · have : a = j + 1 := by omega
          rw [this]
        · exact le_trans (ha a h) (le_of_lt hlt)
      · rw [if_neg hc] at this
        refine ⟨i, by omega, this, ?_⟩
        intro a haj
        have hle : mv.getD (j + 1) 0 ≤ mv.getD i 0 :=
          (div_le_div_iff_of_pos_right h0).mp (not_lt.mp hc)
        rcases Nat.lt_or_ge j a with h | h
        · have : a = j + 1 := by omega
          rw [this]; exact hle
        · exact ha a h
  have hloss : ∀ i j, j < mv.length → i ≤ j →
      lossPct (growAt (barReturns mv)) j (mv.getD i 0 / mv.getD 0 0)
        = (mv.getD j 0 / mv.getD i 0 - 1) * 100 := by
    intro i j hj hij
    unfold lossPct
    rw [hg j hj, div_div_div_cancel_right₀ (ne_of_gt h0)]
  have hbelow : ∀ i j p, i ≤ j → j < mv.length →
      (∀ a ≤ j, mv.getD a 0 ≤ mv.getD p 0) → p ≤ j →
      (mv.getD j 0 / mv.getD p 0 - 1) * 100 ≤ (mv.getD j 0 / mv.getD i 0 - 1) * 100 := by
    intro i j p hij hj hmax hp
    have : mv.getD j 0 / mv.getD p 0 ≤ mv.getD j 0 / mv.getD i 0 :=
      div_le_div_of_nonneg_left (le_of_lt (hpos j hj)) (hpos i (by omega)) (hmax i hij)
    linarith
  rw [hm.1, hm.2]
  refine ⟨?_, h2, ?_⟩
  · intro i j hij hj
    obtain ⟨p, hp, hpk, hmax⟩ := hpeak j hj
    have := h1 j (by omega) _ hpk
    rw [hloss p j hj hp] at this
    exact le_trans this (hbelow i j p hij hj hmax hp)
  · intro k hk
    obtain ⟨hk1, hneg, ⟨q, hq, hv⟩, hfirst⟩ := h3 k hk
    obtain ⟨p, hp, hpk, hmax⟩ := hpeak (k + 1) (by omega)
    rw [isPeak_unique hq hpk, hloss p (k + 1) (by omega) hp] at hv
    refine ⟨by omega, ⟨p, ?_, hv⟩, ?_⟩
    · rcases Nat.lt_or_ge k p with h | h
      · exfalso
        have : p = k + 1 := by omega
        rw [this, div_self (ne_of_gt (hpos (k + 1) (by omega)))] at hv
        rw [hv] at hneg
        simp at hneg
      · exact h
    · intro i j hij hj
      obtain ⟨p', hp', hpk', hmax'⟩ := hpeak j (by omega)
      have := hfirst j hj _ hpk'
      rw [hloss p' j (by omega) hp'] at this
      exact lt_of_lt_of_le this (hbelow i j p' hij (by omega) hmax' hp')

/-- A run of five bars with a drawdown from 120 to 90. -/
example : ∃ m, evalMetrics (K := ℚ) ⟨id, id, id, id, fun _ => 0⟩ [100, 120, 90, 110, 130]
    [0, 1, 1, 2, 2] [⟨20, 10, 3⟩, ⟨-5, -2, 1⟩] = some m ∧ m.maxDrawdown = -30 ∧
      m.maxDrawdownPct = -25 ∧ m.maxDrawdownIndex = some 1 ∧ m.totalPnl = 15 ∧
      m.unrealizedPnl = 17 ∧ m.initialValue ≠ 0 ∧ m.totalReturnPct = 15 := ⟨_, rfl, by decide +kernel⟩

end PyBroker
