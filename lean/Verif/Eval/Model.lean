import Verif.Vect.Indicators
import Mathlib.Data.Rat.Floor
import Mathlib.Data.List.Sort
import Mathlib.Algebra.BigOperators.Group.Finset.Basic

/-!
# Evaluation metrics

`/repo/src/pybroker/eval.py`, over any ordered field; `np.log` and `np.sqrt` are fields of
`Fns` and arbitrary here.

Simplifications, for the whole file: arithmetic is exact and arrays hold no NaN or
infinity.  The random draws of the bootstrap are an arbitrary table of indexes.
-/

namespace PyBroker

variable {K : Type} [Field K] [LinearOrder K]

/-! ## Profit factor -/

/-- `win_sum` and `loss_sum`: eval.py:339-349, 82-87, 108-113. -/
def winLoss (x : List K) : K × K :=
  x.foldl (fun s v => if v > 0 then (s.1 + v, s.2) else if v < 0 then (s.1, s.2 + v) else s) (0, 0)

/-- The quotient and its logarithm: eval.py:352-356, 121-126. -/
def pfOf (F : Fns K) (useLog : Bool) (w l : K) : K :=
  if useLog then F.log ((tiny 10 + w) / (tiny 10 - l)) else (tiny 10 + w) / (tiny 10 - l)

/-- `profit_factor`, eval.py:326-356; `log_profit_factor` 360-367 is `useLog = true`. -/
def profitFactor (F : Fns K) (useLog : Bool) (x : List K) : K :=
  if x.any (fun v => decide (v > 0) || decide (v < 0)) then pfOf F useLog (winLoss x).1 (winLoss x).2
  else 0

/-- `_jackknife_profit_factor`, eval.py:101-127; `_jackknife_log_profit_factor` 75-98 is
`useLog = true`. -/
def jackPf (F : Fns K) (useLog : Bool) (x : List K) : List K :=
  x.map (fun v => pfOf F useLog
    (if v > 0 then (winLoss x).1 - v else (winLoss x).1)
    (if v > 0 then (winLoss x).2 else if v < 0 then (winLoss x).2 - v else (winLoss x).2))

/-! ## Sharpe and Sortino -/

/-- `np.mean`. -/
def mean (x : List K) : K := x.sum / x.length

/-- `np.std`: the population standard deviation. -/
def std (F : Fns K) (x : List K) : K :=
  F.sqrt (mean (x.map (fun v => (v - mean x) * (v - mean x))))

/-- `sharpe_ratio`, eval.py:371-393. -/
def sharpe (F : Fns K) (x : List K) (obs : Option Nat) : K :=
  if x.length = 0 then 0
  else if std F x = 0 then 0
  else
    let sr := mean x / std F x
    match obs with
    | some n => sr * F.sqrt n
    | none => sr

/-- `_jackknife_sharpe`, eval.py:130-149. -/
def jackSharpe (F : Fns K) (x : List K) : List K :=
  if x.length ≤ 1 then x.map (fun _ => 0)
  else
    let total := x.sum
    let totalSq := (x.map (fun v => v * v)).sum
    let m : K := (x.length : K) - 1
    x.map (fun v =>
      let mu := (total - v) / m
      let var := (totalSq - v * v) / m - mu * mu
      if var ≤ 0 then 0 else mu / F.sqrt var)

/-- `downside_deviation`, eval.py:397-414. -/
def downside (F : Fns K) (x : List K) : K :=
  if x.length = 0 then 0
  else F.sqrt ((x.foldl (fun s r => if r < 0 then s + r * r else s) 0) / x.length)

/-- A ratio that may be infinite. -/
inductive Ratio (K : Type)
  | val (q : K)
  | inf
  deriving DecidableEq

/-- `sortino_ratio`, eval.py:418-456. -/
def sortino (F : Fns K) (x : List K) (obs : Option Nat) : Ratio K :=
  if x.length = 0 then .val 0
  else
    let dd := downside F x
    if dd = 0 then (if mean x ≤ 0 then .val 0 else .inf)
    else match obs with
      | some n => .val (mean x / dd * F.sqrt n)
      | none => .val (mean x / dd)

/-! ## Drawdown -/

/-- The loop variables of `max_drawdown`. -/
structure DdSt (K : Type) where
  cum : K
  peak : K
  dd : K

/-- One pass of the loop, eval.py:503-510. -/
def ddStep (s : DdSt K) (change : K) : DdSt K :=
  let cum := s.cum + change
  if cum > s.peak then { s with cum := cum, peak := cum }
  else
    let loss := s.peak - cum
    { s with cum := cum, dd := if loss > s.dd then loss else s.dd }

/-- `max_drawdown`, eval.py:490-511. -/
def maxDrawdown (changes : List K) : K := -(changes.foldl ddStep ⟨0, 0, 0⟩).dd

/-- The loop variables of `max_drawdown_percent`; `i` is the loop index. -/
structure PctSt (K : Type) where
  i : Nat
  cum : K
  peak : K
  dd : K
  index : Option Nat

/-- One pass of the loop, eval.py:567-575. -/
def pctStep (s : PctSt K) (r : K) : PctSt K :=
  let cum := s.cum * (r + 1)
  if cum > s.peak then { s with i := s.i + 1, cum := cum, peak := cum }
  else if s.peak > 0 then
    let loss := (cum / s.peak - 1) * 100
    if loss < s.dd then { s with i := s.i + 1, cum := cum, dd := loss, index := some s.i }
    else { s with i := s.i + 1, cum := cum }
  else { s with i := s.i + 1, cum := cum }

/-- `max_drawdown_percent`, eval.py:548-576. -/
def maxDrawdownPct (returns : List K) : K × Option Nat :=
  let s := returns.foldl pctStep ⟨0, 1, 1, 0, none⟩
  (s.dd, s.index)

/-- `calmar_ratio`, eval.py:513-545; `pow growth e` is `growth ** e`. -/
def calmar (pow : K → K → K) (returns : List K) (barsPerYear : Nat) : Ratio K :=
  if returns.length = 0 then .val 0
  else
    let growth := (returns.map (fun r => 1 + r)).prod
    let maxDd := |(maxDrawdownPct returns).1| / 100
    if maxDd = 0 then (if growth ≤ 1 then .val 0 else .inf)
    else
      let cagr := if growth ≤ 0 then -1 else pow growth ((barsPerYear : K) / returns.length) - 1
      .val (cagr / maxDd)

/-! ## Bootstrap -/

/-- `array.sort()`. -/
def sortK (x : List K) : List K := x.insertionSort (· ≤ ·)

/-- The index of `_dd_conf`, eval.py:581-582: `int` truncates. -/
def ddIndex (q : ℚ) (n : Nat) : Int :=
  let k := if 0 ≤ q * ((n : ℚ) + 1) - 1 then ⌊q * ((n : ℚ) + 1) - 1⌋ else ⌈q * ((n : ℚ) + 1) - 1⌉
  max k 0

/-- `_dd_conf`, eval.py:579-583; `none` is a read out of bounds. -/
def ddConf (q : ℚ) (boot : List K) : Option K := boot[(ddIndex q boot.length).toNat]?

/-- `DrawdownConfs`, eval.py:586-599. -/
structure DdConfs (K : Type) where
  q001 : K
  q01 : K
  q05 : K
  q10 : K

/-- `_dd_confs`, eval.py:616-624. -/
def ddConfs (boot : List K) : Option (DdConfs K) :=
  match ddConf (1 / 1000) (sortK boot), ddConf (1 / 100) (sortK boot), ddConf (5 / 100) (sortK boot),
      ddConf (1 / 10) (sortK boot) with
  | some a, some b, some c, some d => some ⟨a, b, c, d⟩
  | _, _, _, _ => none

/-- A replicate: `x[idx[j]]` for a row of random indexes, eval.py:217-219, 660-663. -/
def resample (x : List K) (idx : List Nat) : List K := idx.filterMap (fun j => x[j]?)

/-- `drawdown_conf`, eval.py:628-669, for the rows of indexes drawn.  `none` is the
`ValueError`. -/
def drawdownConf (changes returns : List K) (draws : List (List Nat)) :
    Option (DdConfs K × DdConfs K) :=
  if draws = [] ∨ changes.length ≠ returns.length then none
  else if changes = [] then some (⟨0, 0, 0, 0⟩, ⟨0, 0, 0, 0⟩)
  else
    match ddConfs (draws.map (fun d => maxDrawdown (resample changes d))),
      ddConfs (draws.map (fun d => (maxDrawdownPct (resample returns d)).1)) with
    | some a, some b => some (a, b)
    | _, _ => none

/-- `_bca_clamp`, eval.py:69-71. -/
def bcaClamp (k : Int) (n : Nat) : Int := min (max k 0) ((n : Int) - 1)

/-- `inverse_normal_cdf` (vect.py:273-283) and `int`, arbitrary here. -/
structure BcaFns (K : Type) where
  inv : K → K
  toInt : K → Int

/-- `accel`, eval.py:163-173; `np.power(x, 3)` is a product. -/
def bcaAccel (F : Fns K) (jack : List K) : K :=
  let dot := jack.sum / jack.length
  let denom := F.sqrt (jack.map (fun j => (dot - j) * (dot - j))).sum
  (jack.map (fun j => (dot - j) * (dot - j) * (dot - j))).sum / (6 * (denom * denom * denom) + tiny 60)

/-- `alo` and `ahi`, eval.py:177-178. -/
def bcaLevel (F : Fns K) (z0 accel z : K) : K := F.cdf (z0 + (z0 + z) / (1 - accel * (z0 + z)))

/-- `z0_count` after the two clamps, eval.py:159-160. -/
def z0Clamp (z0 : Nat) (n : Nat) : Int := max (min (z0 : Int) ((n : Int) - 1)) 1

/-- One interval at level `q`, eval.py:175-182, 183-190, 191-198; `boot` is sorted.  `none` is a
read out of bounds. -/
def bcaPair (F : Fns K) (B : BcaFns K) (boot : List K) (z0 accel q : K) : Option (K × K) :=
  let n := boot.length
  let alo := bcaLevel F z0 accel (B.inv q)
  let ahi := bcaLevel F z0 accel (B.inv (1 - q))
  match boot[(bcaClamp (B.toInt (alo * ((n : K) + 1)) - 1) n).toNat]?,
      boot[((n : Int) - 1 - bcaClamp (B.toInt ((1 - ahi) * ((n : K) + 1)) - 1) n).toNat]? with
  | some lo, some hi => some (lo, hi)
  | _, _ => none

/-- `BootConfIntervals`, eval.py:21-40. -/
structure Intervals (K : Type) where
  low2p5 : K
  high2p5 : K
  low5 : K
  high5 : K
  low10 : K
  high10 : K

/-- `_bca_intervals_from_boot`, eval.py:152-199. -/
def bcaIntervals (F : Fns K) (B : BcaFns K) (boot : List K) (z0Count : Nat) (jack : List K) :
    Option (Intervals K) :=
  let z0 := B.inv ((z0Clamp z0Count boot.length : K) / (boot.length : K))
  let accel := bcaAccel F jack
  match bcaPair F B (sortK boot) z0 accel (25 / 1000), bcaPair F B (sortK boot) z0 accel (5 / 100),
      bcaPair F B (sortK boot) z0 accel (1 / 10) with
  | some a, some b, some c => some ⟨a.1, a.2, b.1, b.2, c.1, c.2⟩
  | _, _, _ => none

/-- The scratch buffer of `_bca_boot_conf_generic` for index `i`, eval.py:287-290: positions
`0 … i-1` from `x[j]`, then `j - 1` from `x[j]` for `j` after `i`. -/
def leaveOut (x : List K) (i : Nat) : List K :=
  (List.range i).filterMap (fun j => x[j]?) ++
    (List.range' (i + 1) (x.length - (i + 1))).filterMap (fun j => x[j]?)

/-- `_bca_boot_conf_generic`'s jackknife, eval.py:277-291. -/
def jackGeneric (fn : List K → K) (x : List K) : List K :=
  if x.length > 1 then (List.range x.length).map (fun i => fn (leaveOut x i)) else x.map (fun _ => 0)

/-- `_bca_boot_conf_pf`, `_bca_boot_conf_sharpe` and `_bca_boot_conf_generic`, eval.py:202-292,
with the statistic and its jackknife; `none` is the `ValueError`. -/
def bcaBootConf (F : Fns K) (B : BcaFns K) (fn : List K → K) (jack : List K → List K) (x : List K)
    (draws : List (List Nat)) : Option (Intervals K) :=
  if draws = [] then none
  else if x = [] then some ⟨0, 0, 0, 0, 0, 0⟩
  else
    let boot := draws.map (fun d => fn (resample x d))
    bcaIntervals F B boot (boot.filter (fun p => decide (p < fn x))).length (jack x)

/-! ## Trades -/

/-- A trade's row: `pnl`, `return_pct`, `bars`. -/
structure TRow (K : Type) where
  pnl : K
  pct : K
  bars : Nat

/-- The loop variables of `_trade_stats`, eval.py:1151-1165. -/
structure TSt (K : Type) where
  nonzero : Nat
  wins : Nat
  losses : Nat
  totalProfit : K
  totalLoss : K
  profitCount : Nat
  lossCount : Nat
  profitPct : K
  lossPct : K
  winBars : Nat
  lossBars : Nat
  largestWin : K
  largestLoss : K
  largestWinPct : K
  largestLossPct : K
  largestWinBars : Nat
  largestLossBars : Nat
  pnlSum : K
  pctSum : K
  barsSum : Nat
  maxWins : Nat
  maxLosses : Nat
  curWins : Nat
  curLosses : Nat

/-- The initial values, eval.py:1151-1165. -/
def TSt.init : TSt K := ⟨0, 0, 0, 0, 0, 0, 0, 0, 0, 0, 0, 0, 0, 0, 0, 0, 0, 0, 0, 0, 0, 0, 0, 0⟩

/-- eval.py:1168-1170 -/
def TSt.addSums (s : TSt K) (t : TRow K) : TSt K :=
  { s with pnlSum := s.pnlSum + t.pnl, pctSum := s.pctSum + t.pct, barsSum := s.barsSum + t.bars }

/-- The branch of a winner, eval.py:1172-1184. -/
def TSt.win (s : TSt K) (t : TRow K) : TSt K :=
  let s1 : TSt K := { s with
    curWins := s.curWins + 1, curLosses := 0
    maxWins := if s.curWins + 1 > s.maxWins then s.curWins + 1 else s.maxWins
    totalProfit := s.totalProfit + t.pnl, profitCount := s.profitCount + 1
    profitPct := s.profitPct + t.pct, winBars := s.winBars + t.bars }
  if t.pnl > s.largestWin then
    { s1 with largestWin := t.pnl, largestWinPct := t.pct, largestWinBars := t.bars }
  else s1

/-- The branch of a loser, eval.py:1186-1198. -/
def TSt.loss (s : TSt K) (t : TRow K) : TSt K :=
  let s1 : TSt K := { s with
    curLosses := s.curLosses + 1, curWins := 0
    maxLosses := if s.curLosses + 1 > s.maxLosses then s.curLosses + 1 else s.maxLosses
    totalLoss := s.totalLoss + t.pnl, lossCount := s.lossCount + 1
    lossPct := s.lossPct + t.pct, lossBars := s.lossBars + t.bars }
  if t.pnl < s.largestLoss then
    { s1 with largestLoss := t.pnl, largestLossPct := t.pct, largestLossBars := t.bars }
  else s1

/-- eval.py:1202-1207 -/
def TSt.count (s : TSt K) (t : TRow K) : TSt K :=
  if t.pnl ≠ 0 then
    if t.pnl > 0 then { s with nonzero := s.nonzero + 1, wins := s.wins + 1 }
    else { s with nonzero := s.nonzero + 1, losses := s.losses + 1 }
  else s

/-- One pass of the loop, eval.py:1166-1207. -/
def tradeStep (s : TSt K) (t : TRow K) : TSt K :=
  let s := s.addSums t
  let s :=
    if t.pnl > 0 then s.win t
    else if t.pnl < 0 then s.loss t
    else { s with curWins := 0, curLosses := 0 }
  s.count t

/-- `TradeStats`, eval.py:1090-1114. -/
structure TradeStats (K : Type) where
  count : Nat
  winRate : K
  lossRate : K
  winners : Nat
  losers : Nat
  totalProfit : K
  totalLoss : K
  avgProfit : K
  avgLoss : K
  avgProfitPct : K
  avgLossPct : K
  largestWin : K
  largestLoss : K
  largestWinPct : K
  largestLossPct : K
  largestWinBars : Nat
  largestLossBars : Nat
  maxWins : Nat
  maxLosses : Nat
  avgPnl : K
  avgPct : K
  avgBars : K
  avgWinBars : K
  avgLossBars : K
  totalPnl : K

/-- `a / b if b else 0.0`. -/
def overCount (a : K) (n : Nat) : K := if n = 0 then 0 else a / n

/-- `_trade_stats`, eval.py:1117-1233. -/
def tradeStats (ts : List (TRow K)) : TradeStats K :=
  if ts.length = 0 then
    ⟨0, 0, 0, 0, 0, 0, 0, 0, 0, 0, 0, 0, 0, 0, 0, 0, 0, 0, 0, 0, 0, 0, 0, 0, 0⟩
  else
    let s := ts.foldl tradeStep TSt.init
    { count := ts.length
      winRate := if s.nonzero = 0 then 0 else (s.wins : K) / s.nonzero * 100
      lossRate := if s.nonzero = 0 then 0 else (s.losses : K) / s.nonzero * 100
      winners := s.wins
      losers := s.losses
      totalProfit := s.totalProfit
      totalLoss := s.totalLoss
      avgProfit := overCount s.totalProfit s.profitCount
      avgLoss := overCount s.totalLoss s.lossCount
      avgProfitPct := overCount s.profitPct s.profitCount
      avgLossPct := overCount s.lossPct s.lossCount
      largestWin := s.largestWin
      largestLoss := s.largestLoss
      largestWinPct := s.largestWinPct
      largestLossPct := s.largestLossPct
      largestWinBars := s.largestWinBars
      largestLossBars := s.largestLossBars
      maxWins := s.maxWins
      maxLosses := s.maxLosses
      avgPnl := s.pnlSum / ts.length
      avgPct := s.pctSum / ts.length
      avgBars := (s.barsSum : K) / ts.length
      avgWinBars := overCount (s.winBars : K) s.profitCount
      avgLossBars := overCount (s.lossBars : K) s.lossCount
      totalPnl := s.pnlSum }

/-- `win_loss_rate`, eval.py:922-937. -/
def winLossRate (pnls : List K) : K × K :=
  let p := pnls.filter (fun x => decide (x ≠ 0))
  if p.length = 0 then (0, 0)
  else (((p.filter (fun x => decide (x > 0))).length : K) / p.length * 100,
        ((p.filter (fun x => decide (x < 0))).length : K) / p.length * 100)

/-- `winning_losing_trades`, eval.py:940-952. -/
def winningLosing (pnls : List K) : Nat × Nat :=
  let p := pnls.filter (fun x => decide (x ≠ 0))
  if p.length = 0 then (0, 0)
  else ((p.filter (fun x => decide (x > 0))).length, (p.filter (fun x => decide (x < 0))).length)

/-- `total_profit_loss`, eval.py:955-969. -/
def totalProfitLoss (pnls : List K) : K × K :=
  ((pnls.filter (fun x => decide (x > 0))).sum, (pnls.filter (fun x => decide (x < 0))).sum)

/-- `avg_profit_loss`, eval.py:972-987. -/
def avgProfitLoss (pnls : List K) : K × K :=
  let p := pnls.filter (fun x => decide (x > 0))
  let l := pnls.filter (fun x => decide (x < 0))
  (overCount p.sum p.length, overCount l.sum l.length)

/-- The loop of `max_wins_losses`, eval.py:1017-1028: `(max_wins, max_losses, wins, losses)`. -/
def streakStep (s : Nat × Nat × Nat × Nat) (pnl : K) : Nat × Nat × Nat × Nat :=
  let w := if pnl > 0 then s.2.2.1 + 1 else 0
  let mw := if pnl > 0 then max s.1 (s.2.2.1 + 1) else s.1
  let l := if pnl < 0 then s.2.2.2 + 1 else 0
  let ml := if pnl < 0 then max s.2.1 (s.2.2.2 + 1) else s.2.1
  (mw, ml, w, l)

/-- `max_wins_losses`, eval.py:1007-1029. -/
def maxWinsLosses (pnls : List K) : Nat × Nat :=
  let s := pnls.foldl streakStep (0, 0, 0, 0)
  (s.1, s.2.1)

/-! ## Bars -/

/-- `_bar_returns_and_changes`, eval.py:1236-1260: `changes`. -/
def barChanges : List K → List K
  | a :: b :: rest => (b - a) :: barChanges (b :: rest)
  | _ => []

/-- `_bar_returns_and_changes`, eval.py:1236-1260: `returns`. -/
def barReturns : List K → List K
  | a :: b :: rest => (if a = 0 then 0 else (b - a) / a) :: barReturns (b :: rest)
  | _ => []

/-- `total_return_percent`, eval.py:1032-1041. -/
def totalReturnPct (initial pnl : K) : K :=
  if initial = 0 then 0 else ((pnl + initial) / initial - 1) * 100

/-- The metrics of `_calc_eval_metrics` (eval.py:1573-1675) that are not copied from the trade
statistics or modelled above. -/
structure Metrics (K : Type) where
  initialValue : K
  endValue : K
  totalPnl : K
  unrealizedPnl : K
  totalReturnPct : K
  totalFees : K
  maxDrawdown : K
  maxDrawdownPct : K
  maxDrawdownIndex : Option Nat
  profitFactor : K

/-- `evaluate` and `_calc_eval_metrics`, eval.py:1478-1491 and 1583-1617: `none` when there are
fewer than two bars (empty metrics). -/
def evalMetrics (F : Fns K) (mv fees : List K) (ts : List (TRow K)) : Option (Metrics K) :=
  match mv.head?, mv.getLast? with
  | some first, some last =>
    if barChanges mv = [] then none
    else
      let total := (tradeStats ts).totalPnl
      some {
        initialValue := first
        endValue := last
        totalPnl := total
        unrealizedPnl := last - first - total + (fees.getLastD 0 - fees.headD 0)
        totalReturnPct := PyBroker.totalReturnPct first total
        totalFees := fees.getLastD 0
        maxDrawdown := PyBroker.maxDrawdown (barChanges mv)
        maxDrawdownPct := (PyBroker.maxDrawdownPct (barReturns mv)).1
        maxDrawdownIndex := (PyBroker.maxDrawdownPct (barReturns mv)).2
        profitFactor := PyBroker.profitFactor F false (barChanges mv) }
  | _, _ => none

/-! ## Ulcer index, quartiles, entropy -/

/-- The loop of `ulcer_index` without a period, eval.py:827-834: peak and drawdowns. -/
def ulcerStep (s : K × List K) (v : K) : K × List K :=
  let peak := if v > s.1 then v else s.1
  (peak, s.2 ++ [if peak = 0 then 0 else (v - peak) / peak * 100])

/-- `ulcer_index(values)`, eval.py:808-835. -/
def ulcerIndex (F : Fns K) (values : List K) : K :=
  match values with
  | [] => 0
  | v :: _ => F.sqrt (mean ((values.foldl ulcerStep (v, [])).2.map (fun d => d * d)))

/-- `_percentile_midpoint` at 25 and 75, eval.py:784-794: `q = 1/4` or `3/4`. -/
def percentileMid (sorted : List K) (q : ℚ) : K :=
  if sorted.length = 0 then 0
  else
    let rank := q * ((sorted.length : ℚ) - 1)
    let lo := (⌊rank⌋).toNat
    let hi := (⌈rank⌉).toNat
    if lo = hi then sorted.getD lo 0 else 1 / 2 * (sorted.getD lo 0 + sorted.getD hi 0)

/-- `_iqr`, eval.py:797-805. -/
def iqr (values : List K) : K :=
  if values.length = 0 then 0
  else percentileMid (sortK values) (75 / 100) - percentileMid (sortK values) (25 / 100)

/-- `n_bins`, eval.py:753-759. -/
def entropyBins (n : Nat) : Nat :=
  if n ≥ 10000 then 20 else if n ≥ 1000 then 10 else if n ≥ 100 then 5 else 3

/-- The bin of a value, eval.py:762-769; `toInt` is `int`. -/
def entropyBin (toInt : K → Int) (lo hi v : K) (bins : Nat) : Nat :=
  let factor := ((bins : K) - tiny 10) / (hi - lo + tiny 60)
  let k := toInt (factor * (v - lo))
  if k < 0 then 0 else if k ≥ bins then bins - 1 else k.toNat

/-- `count`, eval.py:763-770. -/
def entropyCounts (toInt : K → Int) (lo hi : K) (bins : Nat) (x : List K) : List Nat :=
  x.foldl (fun count v => count.modify (entropyBin toInt lo hi v bins) (· + 1))
    (List.replicate bins 0)

/-- `-x` -/
def neg (x : K) : K := -x

/-- `relative_entropy` of finite values, eval.py:738-776. -/
def relativeEntropy (F : Fns K) (toInt : K → Int) (x : List K) : K :=
  match x with
  | [] => 0
  | v :: rest =>
    let n := x.length
    let bins := entropyBins n
    let lo := rest.foldl min v
    let hi := rest.foldl max v
    let count := entropyCounts toInt lo hi bins x
    let total := (count.map (fun c : Nat => if c = 0 then (0 : K) else (c : K) / n * F.log ((c : K) / n))).sum
    neg total / F.log bins

/-- The last test of `upi`, eval.py:893-897: a value below the one before it. -/
def everFalls : List K → Bool
  | a :: b :: rest => decide (b < a) || everFalls (b :: rest)
  | _ => false

/-- `upi(values, ui=ui, bars_per_year=n)` of finite values, eval.py:849-919; `pow` is `**`. -/
def upi (pow : K → K → K) (values : List K) (ui : K) (barsPerYear : Option Nat) : Ratio K :=
  if values.length ≤ 1 then .val 0
  else
    let first := values.headD 0
    let last := values.getLastD 0
    if ui = 0 then
      if last ≤ first then .val 0
      else if everFalls values then .val 0
      else .inf
    else match barsPerYear with
      | some b =>
        if first = 0 then .val 0
        else
          let ratio := last / first
          let cagr := if ratio ≤ 0 then -100
            else (pow ratio ((b : K) / ((values.length : K) - 1)) - 1) * 100
          .val (cagr / ui)
      | none => .val (mean ((barReturns values).map (fun r => r * 100)) / ui)

/-- `r_squared`, eval.py:1067-1087: the least-squares line of `np.polyfit(x, values, 1)` in
closed form. -/
def rSquared (n : Nat) (v : Nat → K) : K :=
  if n = 0 then 0
  else
    let xm := (∑ i ∈ Finset.range n, (i : K)) / n
    let ym := (∑ i ∈ Finset.range n, v i) / n
    let sxx := ∑ i ∈ Finset.range n, ((i : K) - xm) * ((i : K) - xm)
    let sxy := ∑ i ∈ Finset.range n, ((i : K) - xm) * (v i - ym)
    let slope := sxy / sxx
    let ssres := ∑ i ∈ Finset.range n,
      (v i - (ym + slope * ((i : K) - xm))) * (v i - (ym + slope * ((i : K) - xm)))
    let sstot := ∑ i ∈ Finset.range n, (v i - ym) * (v i - ym)
    if sstot = 0 then 0 else 1 - ssres / sstot

end PyBroker
