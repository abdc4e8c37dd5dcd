import Verif.Eval.Full
import Verif.Eval.BootRun
import Verif.Props.Units
import Verif.Props.Eval
import Verif.Props.NormalCdf
import Verif.Props.BootRun
import Mathlib.Analysis.SpecialFunctions.Pow.Real

/-!
# The metrics in another unit of money (C145)
-/

namespace PyBroker

variable {K : Type} [Field K] [LinearOrder K]

/-! ## Specification -/

/-- The same trade with its PnL in another unit. -/
def Spec.tradeIn (k : K) (t : TRow K) : TRow K := ⟨k * t.pnl, t.pct, t.bars⟩

/-- The trade statistics `s'` are `s` in another unit: amounts times `k`; counts, rates,
percentages and numbers of bars the same. -/
structure Spec.StatsInUnit (k : K) (s s' : TradeStats K) : Prop where
  amounts : s'.totalProfit = k * s.totalProfit ∧ s'.totalLoss = k * s.totalLoss ∧
    s'.avgProfit = k * s.avgProfit ∧ s'.avgLoss = k * s.avgLoss ∧ s'.largestWin = k * s.largestWin ∧
    s'.largestLoss = k * s.largestLoss ∧ s'.avgPnl = k * s.avgPnl ∧ s'.totalPnl = k * s.totalPnl
  counts : s'.count = s.count ∧ s'.winners = s.winners ∧ s'.losers = s.losers ∧
    s'.maxWins = s.maxWins ∧ s'.maxLosses = s.maxLosses
  rates : s'.winRate = s.winRate ∧ s'.lossRate = s.lossRate
  percents : s'.avgProfitPct = s.avgProfitPct ∧ s'.avgLossPct = s.avgLossPct ∧
    s'.largestWinPct = s.largestWinPct ∧ s'.largestLossPct = s.largestLossPct ∧ s'.avgPct = s.avgPct
  bars : s'.largestWinBars = s.largestWinBars ∧ s'.largestLossBars = s.largestLossBars ∧
    s'.avgBars = s.avgBars ∧ s'.avgWinBars = s.avgWinBars ∧ s'.avgLossBars = s.avgLossBars

/-- The metrics `m'` are `m` in another unit, but for the profit factor: amounts times `k`;
everything else the same. -/
structure Spec.MetricsInUnit (k : K) (m m' : AllMetrics K) : Prop where
  stats : Spec.StatsInUnit k m.stats m'.stats
  amounts : m'.base.initialValue = k * m.base.initialValue ∧ m'.base.endValue = k * m.base.endValue ∧
    m'.base.totalPnl = k * m.base.totalPnl ∧ m'.base.unrealizedPnl = k * m.base.unrealizedPnl ∧
    m'.base.totalFees = k * m.base.totalFees ∧ m'.base.maxDrawdown = k * m.base.maxDrawdown ∧
    m'.stdError = k * m.stdError ∧ m'.annualStdError = m.annualStdError.map (k * ·)
  percents : m'.base.totalReturnPct = m.base.totalReturnPct ∧
    m'.base.maxDrawdownPct = m.base.maxDrawdownPct ∧ m'.annualReturnPct = m.annualReturnPct ∧
    m'.annualVolatilityPct = m.annualVolatilityPct
  date : m'.base.maxDrawdownIndex = m.base.maxDrawdownIndex ∧ m'.maxDrawdownDate = m.maxDrawdownDate
  ratios : m'.sharpe = m.sharpe ∧ m'.sortino = m.sortino ∧ m'.calmar = m.calmar ∧
    m'.equityR2 = m.equityR2 ∧ m'.ulcerIndex = m.ulcerIndex ∧ m'.upi = m.upi

open PyBroker.Spec

/-! ## Trades -/

/-- The loop variables in another unit. -/
def TSt.units (k : K) (s : TSt K) : TSt K :=
  { s with
    totalProfit := k * s.totalProfit
    totalLoss := k * s.totalLoss
    largestWin := k * s.largestWin
    largestLoss := k * s.largestLoss
    pnlSum := k * s.pnlSum }

variable [IsStrictOrderedRing K] {k : K}

set_option linter.unusedSectionVars false

theorem gt_units (hk : 0 < k) (a b : K) : (k * a > k * b) = (a > b) :=
  propext (mul_lt_mul_iff_right₀ hk)

theorem pos_units (hk : 0 < k) (a : K) : (k * a > 0) = (a > 0) := by
  rw [← gt_units hk a 0, mul_zero]

theorem neg_units (hk : 0 < k) (a : K) : (k * a < 0) = (a < 0) := by
  have := gt_units hk 0 a
  rwa [mul_zero] at this

theorem zero_units (hk : 0 < k) (a : K) : (k * a = 0) = (a = 0) :=
  propext (by simp [hk.ne'])

theorem le_units (hk : 0 < k) (a b : K) : (k * a ≤ k * b) = (a ≤ b) :=
  propext (mul_le_mul_iff_right₀ hk)

theorem tradeStep_units (hk : 0 < k) (s : TSt K) (t : TRow K) :
    tradeStep (s.units k) (tradeIn k t) = (tradeStep s t).units k := by
  obtain ⟨p, c, b⟩ := t
  unfold tradeStep TSt.addSums TSt.win TSt.loss TSt.count TSt.units tradeIn
  simp only [pos_units hk, neg_units hk, zero_units hk, gt_units hk, ne_eq,
    show ∀ a : K, (k * p < k * a) = (p < a) from fun a => gt_units hk a p]
  by_cases h1 : p > 0 <;> by_cases h2 : p < 0 <;> by_cases h3 : p = 0 <;>
    by_cases h4 : p > s.largestWin <;> by_cases h5 : p < s.largestLoss <;>
    simp [h1, h2, h3, h4, h5, mul_add]

theorem tradeFold_units (hk : 0 < k) (ts : List (TRow K)) (s : TSt K) :
    (ts.map (tradeIn k)).foldl tradeStep (s.units k) = (ts.foldl tradeStep s).units k := by
  induction ts generalizing s with
  | nil => rfl
  | cons t ts ih => simp only [List.map_cons, List.foldl_cons, tradeStep_units hk, ih]

theorem overCount_units (a : K) (n : Nat) : overCount (k * a) n = k * overCount a n := by
  unfold overCount
  split
  · simp
  · rw [mul_div_assoc]

/-- **C145** (trades).  Trade statistics of trades in another unit. -/
theorem trade_stats_in_unit (hk : 0 < k) (ts : List (TRow K)) :
    StatsInUnit k (tradeStats ts) (tradeStats (ts.map (tradeIn k))) := by
  have h0 : (TSt.init : TSt K) = TSt.init.units k := by simp [TSt.init, TSt.units]
  unfold tradeStats
  rw [List.length_map]
  split
  · constructor <;> simp
  · rw [h0, tradeFold_units hk, ← h0]
    refine ⟨?_, ⟨rfl, rfl, rfl, rfl, rfl⟩, ⟨rfl, rfl⟩, ⟨rfl, rfl, rfl, rfl, rfl⟩, ⟨rfl, rfl, rfl, rfl, rfl⟩⟩
    simp [TSt.units, overCount_units, mul_div_assoc]

/-! ## Bars -/

theorem changes_units (mv : List K) : barChanges (mv.map (k * ·)) = (barChanges mv).map (k * ·) := by
  induction mv with
  | nil => rfl
  | cons a rest ih =>
    cases rest with
    | nil => rfl
    | cons b rest =>
      simp only [List.map_cons, barChanges] at ih ⊢
      rw [ih, mul_sub]

theorem returns_units (hk : 0 < k) (mv : List K) : barReturns (mv.map (k * ·)) = barReturns mv := by
  induction mv with
  | nil => rfl
  | cons a rest ih =>
    cases rest with
    | nil => rfl
    | cons b rest =>
      simp only [List.map_cons, barReturns] at ih ⊢
      rw [ih]
      congr 1
      simp only [zero_units hk, ← mul_sub]
      rw [mul_div_mul_left _ _ hk.ne']

theorem maxDrawdown_units (hk : 0 < k) (c : List K) : maxDrawdown (c.map (k * ·)) = k * maxDrawdown c := by
  have : ∀ (c : List K) (a p d : K), (c.map (k * ·)).foldl ddStep ⟨k * a, k * p, k * d⟩ =
      ⟨k * (c.foldl ddStep ⟨a, p, d⟩).cum, k * (c.foldl ddStep ⟨a, p, d⟩).peak,
        k * (c.foldl ddStep ⟨a, p, d⟩).dd⟩ := by
    intro c
    induction c with
    | nil => intros; rfl
    | cons v c ih =>
      intro a p d
      have : ddStep ⟨k * a, k * p, k * d⟩ (k * v) =
          ⟨k * (ddStep ⟨a, p, d⟩ v).cum, k * (ddStep ⟨a, p, d⟩ v).peak, k * (ddStep ⟨a, p, d⟩ v).dd⟩ := by
        unfold ddStep
        simp only [← mul_add, ← mul_sub, gt_units hk]
        by_cases h1 : a + v > p <;> by_cases h2 : p - (a + v) > d <;> simp [h1, h2]
      rw [List.map_cons, List.foldl_cons, this, ih, List.foldl_cons]
  have h := this c 0 0 0
  rw [mul_zero] at h
  unfold maxDrawdown
  rw [h]
  ring

theorem sum_units (x : List K) : (x.map (k * ·)).sum = k * x.sum := by
  induction x with
  | nil => simp
  | cons a x ih => simp only [List.map_cons, List.sum_cons, ih, mul_add]

theorem mean_units (x : List K) : mean (x.map (k * ·)) = k * mean x := by
  unfold mean
  rw [sum_units, List.length_map, mul_div_assoc]

theorem mean_nonneg_of (x : List K) (h : ∀ v ∈ x, 0 ≤ v) : 0 ≤ mean x :=
  div_nonneg (List.sum_nonneg h) (Nat.cast_nonneg _)

theorem std_units {F : Fns K} (hF : ∀ x, 0 ≤ x → F.sqrt (k * k * x) = k * F.sqrt x) (x : List K) :
    std F (x.map (k * ·)) = k * std F x := by
  unfold std
  rw [mean_units, List.map_map, ← hF]
  · congr 1
    have : ∀ (l : List K), k * k * mean l = mean (l.map (fun v => k * k * v)) := fun l =>
      (mean_units (k := k * k) l).symm
    rw [this, List.map_map]
    congr 1
    apply List.map_congr_left
    intro v _
    simp only [Function.comp]
    ring
  · apply mean_nonneg_of
    intro v hv
    obtain ⟨u, _, rfl⟩ := List.mem_map.mp hv
    exact mul_self_nonneg _

theorem totalReturnPct_units (hk : 0 < k) (i p : K) : totalReturnPct (k * i) (k * p) = totalReturnPct i p := by
  unfold totalReturnPct
  simp only [zero_units hk, ← mul_add]
  rw [mul_div_mul_left _ _ hk.ne']

theorem annualReturnPct_units (hk : 0 < k) (pow : K → K → Option K) (i p : K) (n m : Nat) :
    annualReturnPct pow (k * i) (k * p) n m = annualReturnPct pow i p n m := by
  unfold annualReturnPct
  simp only [zero_units hk, ← mul_add]
  rw [mul_div_mul_left _ _ hk.ne']

theorem rSquared_units (hk : 0 < k) (n : Nat) (v w : Nat → K) (h : ∀ i < n, w i = k * v i) :
    rSquared n w = rSquared n v := by
  have hsum : ∀ f g : Nat → K, (∀ i < n, g i = k * f i) →
      ∑ i ∈ Finset.range n, g i = k * ∑ i ∈ Finset.range n, f i := fun f g hfg => by
    rw [Finset.mul_sum]
    exact Finset.sum_congr rfl (fun i hi => hfg i (Finset.mem_range.mp hi))
  have hsum2 : ∀ f g : Nat → K, (∀ i < n, g i = k * k * f i) →
      ∑ i ∈ Finset.range n, g i = k * k * ∑ i ∈ Finset.range n, f i := fun f g hfg => by
    rw [Finset.mul_sum]
    exact Finset.sum_congr rfl (fun i hi => hfg i (Finset.mem_range.mp hi))
  unfold rSquared
  split
  · rfl
  · simp only
    rw [hsum v w h, mul_div_assoc]
    generalize hym : (∑ i ∈ Finset.range n, v i) / (n : K) = ym
    generalize hxm : (∑ i ∈ Finset.range n, (i : K)) / (n : K) = xm
    rw [hsum (fun i => ((i : K) - xm) * (v i - ym)) (fun i => ((i : K) - xm) * (w i - k * ym))
      (fun i hi => by rw [h i hi]; ring)]
    rw [mul_div_assoc]
    generalize (∑ i ∈ Finset.range n, ((i : K) - xm) * (v i - ym)) /
      (∑ i ∈ Finset.range n, ((i : K) - xm) * ((i : K) - xm)) = sl
    rw [hsum2 (fun i => (v i - (ym + sl * ((i : K) - xm))) * (v i - (ym + sl * ((i : K) - xm))))
      (fun i => (w i - (k * ym + k * sl * ((i : K) - xm))) * (w i - (k * ym + k * sl * ((i : K) - xm))))
      (fun i hi => by rw [h i hi]; ring),
      hsum2 (fun i => (v i - ym) * (v i - ym)) (fun i => (w i - k * ym) * (w i - k * ym))
      (fun i hi => by rw [h i hi]; ring)]
    have hkk : 0 < k * k := mul_pos hk hk
    simp only [zero_units hkk]
    rw [mul_div_mul_left _ _ hkk.ne']

theorem ulcerFold_units (hk : 0 < k) (x : List K) (p : K) (l : List K) :
    (x.map (k * ·)).foldl ulcerStep (k * p, l) =
      (k * (x.foldl ulcerStep (p, l)).1, (x.foldl ulcerStep (p, l)).2) := by
  induction x generalizing p l with
  | nil => rfl
  | cons v x ih =>
    have : ulcerStep (k * p, l) (k * v) = (k * (ulcerStep (p, l) v).1, (ulcerStep (p, l) v).2) := by
      unfold ulcerStep
      simp only [gt_units hk]
      have hp : (if v > p then k * v else k * p) = k * (if v > p then v else p) := by split <;> rfl
      rw [hp]
      simp only [zero_units hk, ← mul_sub]
      rw [mul_div_mul_left _ _ hk.ne']
    rw [List.map_cons, List.foldl_cons, this, ih]
    rfl

theorem ulcer_units (hk : 0 < k) (F : Fns K) (x : List K) : ulcerIndex F (x.map (k * ·)) = ulcerIndex F x := by
  unfold ulcerIndex
  cases x with
  | nil => rfl
  | cons v x =>
    simp only [List.map_cons]
    rw [← List.map_cons (f := (k * ·)), ulcerFold_units hk]

theorem everFalls_units (hk : 0 < k) (x : List K) : everFalls (x.map (k * ·)) = everFalls x := by
  induction x with
  | nil => rfl
  | cons a x ih =>
    cases x with
    | nil => rfl
    | cons b x =>
      simp only [List.map_cons, everFalls] at ih ⊢
      rw [ih]
      congr 1
      have := gt_units hk a b
      exact decide_eq_decide.mpr (iff_of_eq this)

theorem headD_units (x : List K) : (x.map (k * ·)).headD 0 = k * x.headD 0 := by
  cases x <;> simp

theorem getLastD_units (x : List K) : (x.map (k * ·)).getLastD 0 = k * x.getLastD 0 := by
  rw [List.getLastD_eq_getLast?, List.getLastD_eq_getLast?, List.getLast?_map]
  cases x.getLast? <;> simp

theorem upi_units (hk : 0 < k) (pow : K → K → K) (x : List K) (ui : K) (n : Option Nat) :
    upi pow (x.map (k * ·)) ui n = upi pow x ui n := by
  unfold upi
  simp only [List.length_map, headD_units, getLastD_units, everFalls_units hk, returns_units hk,
    le_units hk, zero_units hk]
  rw [mul_div_mul_left _ _ hk.ne']

/-! ## All metrics -/

/-- **C145**.  The metrics of the same market values, fees and trades in another unit: whether
there are any is the same, amounts are `k` times as large, and percentages, ratios, counts and the
date of the drawdown are the same.  Partial: the profit factor is not covered, see
`profit_factor_depends_on_unit`. -/
theorem metrics_in_unit_partial (hk : 0 < k) {F : Fns K}
    (hF : ∀ x, 0 ≤ x → F.sqrt (k * k * x) = k * F.sqrt x) (pow : K → K → Option K) (bars : Option Nat)
    (dates : List Date) (mv fees : List K) (ts : List (TRow K)) :
    SameOpt (MetricsInUnit k) (calcEvalMetrics F pow bars dates mv fees ts)
      (calcEvalMetrics F pow bars dates (mv.map (k * ·)) (fees.map (k * ·)) (ts.map (tradeIn k))) := by
  have hst := trade_stats_in_unit hk ts
  obtain ⟨_, _, _, _, _, _, _, htot⟩ := hst.amounts
  have hr2 : rSquared (mv.map (k * ·)).length (fun i => (mv.map (k * ·)).getD i 0) =
      rSquared mv.length (fun i => mv.getD i 0) := by
    rw [List.length_map]
    apply rSquared_units hk
    intro i hi
    simp [List.getD, hi]
  unfold calcEvalMetrics evalMetrics
  rw [List.head?_map, List.getLast?_map]
  cases hh : mv.head? with
  | none => trivial
  | some first =>
    cases hl : mv.getLast? with
    | none => trivial
    | some last =>
      simp only [Option.map_some, changes_units, List.map_eq_nil_iff]
      by_cases hc : barChanges mv = []
      · simp only [hc, if_true]; trivial
      · simp only [hc, if_false, Option.map_some]
        refine ⟨hst, ⟨rfl, rfl, htot, ?_, ?_, maxDrawdown_units hk _, std_units hF _, ?_⟩,
          ⟨?_, ?_, ?_, ?_⟩, ⟨?_, ?_⟩, ?_, ?_, ?_, hr2, ulcer_units hk F mv, ?_⟩
        · simp only [htot, headD_units, getLastD_units]; ring
        · simp only [getLastD_units]
        · cases bars with
          | none => rfl
          | some n => 
            have hs := std_units hF mv
            exact congrArg some (show std F (mv.map (k * ·)) * F.sqrt n = k * (std F mv * F.sqrt n) by
              rw [hs, mul_assoc])
        · simp only [htot, totalReturnPct_units hk]
        · simp only [returns_units hk]
        · simp only [htot, annualReturnPct_units hk, List.length_map]
        · simp only [returns_units hk]
        · simp only [returns_units hk]
        · simp only [returns_units hk]
        · simp only [returns_units hk]
        · simp only [returns_units hk]
        · simp only [returns_units hk]
        · simp only [ulcer_units hk, upi_units hk]

/-! ## The profit factor -/

/-- **C145** (profit factor).  In every unit the profit factor is 0 for the same curves, above 1
for the same and below 1 for the same; its value is another one in general, see
`profit_factor_depends_on_unit`. -/
theorem profit_factor_side (hk : 0 < k) (F : Fns K) (mv : List K) :
    (1 < profitFactor F false (barChanges (mv.map (k * ·))) ↔ 1 < profitFactor F false (barChanges mv)) ∧
    (profitFactor F false (barChanges (mv.map (k * ·))) = 0 ↔ profitFactor F false (barChanges mv) = 0) ∧
    (profitFactor F false (barChanges (mv.map (k * ·))) < 1 ↔ profitFactor F false (barChanges mv) < 1) := by
  rw [changes_units]
  generalize barChanges mv = x
  obtain ⟨h1, h2⟩ := profit_factor_sign F x
  obtain ⟨g1, g2⟩ := profit_factor_sign F (x.map (k * ·))
  rw [sum_units] at g2
  by_cases h : ∀ v ∈ x, v = 0
  · rw [h1 h, g1 (fun v hv => by
      obtain ⟨u, hu, rfl⟩ := List.mem_map.mp hv
      rw [h u hu, mul_zero])]
    exact ⟨Iff.rfl, Iff.rfl, Iff.rfl⟩
  · push Not at h
    obtain ⟨p1, p2, p3⟩ := h2 h
    obtain ⟨v, hv, hv0⟩ := h
    obtain ⟨q1, q2, q3⟩ := g2 ⟨k * v, List.mem_map.mpr ⟨v, hv, rfl⟩, mul_ne_zero hk.ne' hv0⟩
    refine ⟨?_, ⟨fun e => absurd e q1.ne', fun e => absurd e p1.ne'⟩, ?_⟩
    · rw [q2, p2]; exact iff_of_eq (pos_units hk _)
    · rw [q3, p3]; exact iff_of_eq (neg_units hk _)

/-- **C145, where the code falls short.**  The profit factor of a result depends on the unit of
money: a curve that gains 2 and loses 1 has another profit factor than one that gains 4 and loses
2, because both sums are increased by `1e-10`. -/
theorem profit_factor_depends_on_unit (F : Fns ℚ) :
    profitFactor F false (barChanges [10, 12, 11]) ≠
      profitFactor F false (barChanges (([10, 12, 11] : List ℚ).map (2 * ·))) := by
  simp only [barChanges, profitFactor, pfOf, winLoss, tiny, List.map_cons, List.map_nil]
  norm_num

/-! ## The bootstrap -/

theorem resample_units (x : List K) (idx : List Nat) :
    resample (x.map (k * ·)) idx = (resample x idx).map (k * ·) := by
  unfold resample
  rw [List.map_filterMap]
  congr 1
  funext j
  rw [List.getElem?_map]

theorem ddConfs_units (hk : 0 < k) (boot : List K) :
    ddConfs (boot.map (k * ·)) =
      (ddConfs boot).map (fun c => ⟨k * c.q001, k * c.q01, k * c.q05, k * c.q10⟩) := by
  have hs : sortK (boot.map (k * ·)) = (sortK boot).map (k * ·) := by
    unfold sortK
    exact (List.map_insertionSort (· ≤ ·) (· ≤ ·) (k * ·) boot
      (fun a _ b _ => (iff_of_eq (le_units hk a b)).symm)).symm
  have hc : ∀ q, ddConf q ((sortK boot).map (k * ·)) = (ddConf q (sortK boot)).map (k * ·) := fun q => by
    unfold ddConf
    rw [List.length_map, List.getElem?_map]
  unfold ddConfs
  rw [hs]
  simp only [hc]
  cases ddConf (1 / 1000) (sortK boot) <;> cases ddConf (1 / 100) (sortK boot) <;>
    cases ddConf (5 / 100) (sortK boot) <;> cases ddConf (1 / 10) (sortK boot) <;> rfl

theorem bootLoop_units {S : Type} (hk : 0 < k) (F : Fns K) (R : Rng S) (changes returns : List K) (n : Nat)
    (a b : BootAcc K S) (h : b.rng = a.rng ∧ b.sharpe = a.sharpe ∧ b.dd = a.dd.map (k * ·) ∧
      b.ddPct = a.ddPct ∧ b.z0Sharpe = a.z0Sharpe) :
    let r := bootLoop F R changes returns n a
    let r' := bootLoop F R (changes.map (k * ·)) returns n b
    r'.rng = r.rng ∧ r'.sharpe = r.sharpe ∧ r'.dd = r.dd.map (k * ·) ∧ r'.ddPct = r.ddPct ∧
      r'.z0Sharpe = r.z0Sharpe := by
  induction n generalizing a b with
  | zero => exact h
  | succ n ih =>
    obtain ⟨h1, h2, h3, h4, h5⟩ := h
    apply ih
    refine ⟨?_, ?_, ?_, ?_, ?_⟩ <;>
      simp only [bootPass, List.length_map, h1, h2, h3, h4, h5, resample_units, maxDrawdown_units hk,
        List.map_append, List.map_cons, List.map_nil]

/-- **C145** (bootstrap).  With the same seed, the bootstrap of the same market values in another
unit gives the same intervals of the Sharpe ratio, the same drawdowns in percent and `k` times the
drawdowns in cash, and leaves the same random state.  Partial: not the intervals of the profit
factor. -/
theorem bootstrap_in_unit_partial {S : Type} (hk : 0 < k) (F : Fns K) (B : BcaFns K) (R : Rng S)
    (samples : Int) (bars seed : Option Nat) (mv : List K) (s s1 s2 : S) (b b' : BootResult K)
    (h : evalBootstrap F B R true samples bars seed mv s = .ok (some b, s1))
    (h' : evalBootstrap F B R true samples bars seed (mv.map (k * ·)) s = .ok (some b', s2)) :
    b'.sharpe = b.sharpe ∧
      b'.drawdown.1.fields = b.drawdown.1.fields.map (k * ·) ∧
      b'.drawdown.2.fields = b.drawdown.2.fields ∧ s2 = s1 := by
  unfold evalBootstrap at h h'
  simp only [changes_units, returns_units hk, List.length_map] at h h'
  split at h
  · simp at h
  · rename_i hne
    rw [if_neg hne] at h'
    simp only [Bool.not_true, Bool.false_eq_true, if_false] at h h'
    generalize R.start seed s = s0 at h h'
    unfold bootstrapEvalAll at h h'
    simp only [List.length_map] at h h'
    split at h
    · rename_i hx; split at hx <;> simp_all
    · rename_i hx
      split at h'
      · simp at h'
      · rename_i hx'
        split at hx
        · simp at hx
        · split at hx
          · simp at hx
          · split at hx
            · rename_i h0
              exact absurd (Or.inr (Or.inr h0)) hne
            · rename_i g1 g2 g3
              rw [if_neg g1, if_neg g2, if_neg g3] at hx'
              obtain ⟨e1, e2, e3, e4, e5⟩ := bootLoop_units hk F R (barChanges mv) (barReturns mv)
                samples.toNat ⟨s0, [], [], [], [], 0, 0⟩ ⟨s0, [], [], [], [], 0, 0⟩ ⟨rfl, rfl, rfl, rfl, rfl⟩
              simp only [e1, e2, e3, e4, e5, ddConfs_units hk] at hx'
              split at hx
              · rename_i pf sh cash pct i1 i2 i3 i4
                simp only [i2, i3, i4, Option.map_some] at hx'
                split at hx'
                · rename_i j1 j2 j3 j4
                  simp only [Option.some.injEq] at j2 j3 j4
                  subst j2 j3 j4
                  simp only [Except.ok.injEq, Prod.mk.injEq] at hx hx'
                  obtain ⟨⟨k1, k2, k3⟩, k4⟩ := hx
                  obtain ⟨⟨l1, l2, l3⟩, l4⟩ := hx'
                  simp only [Except.ok.injEq, Prod.mk.injEq, Option.some.injEq] at h h'
                  obtain ⟨rfl, rfl⟩ := h
                  obtain ⟨rfl, rfl⟩ := h'
                  subst k2 l2 k3 l3 k4 l4
                  exact ⟨rfl, rfl, rfl, rfl⟩
                · simp at hx'
              · simp at hx

/-! ## A run -/

/-- `x ** e` and `np.power(x, e)` of floats: not a number for a negative base with an exponent that
is not whole. -/
noncomputable def realPow (x e : ℝ) : Option ℝ :=
  open Classical in if x < 0 ∧ ∀ n : Int, e ≠ n then none else some (x ^ e)

/-- The metrics of a result: those of its tables, as real numbers. -/
noncomputable def TestResult.allMetrics (r : TestResult) (bars : Option Nat) : Option (AllMetrics ℝ) :=
  calcEvalMetrics realFns realPow bars (r.portfolio.map PortfolioBar.date)
    (r.portfolio.map (fun b => (b.marketValue : ℝ))) (r.portfolio.map (fun b => (b.fees : ℝ)))
    (r.trades.map (fun t => ⟨t.pnl, t.returnPct, t.bars⟩))

theorem sqrt_units {k : ℝ} (hk : 0 < k) (x : ℝ) (_ : 0 ≤ x) :
    realFns.sqrt (k * k * x) = k * realFns.sqrt x := by
  show Real.sqrt _ = k * Real.sqrt x
  rw [Real.sqrt_mul (mul_self_nonneg k), Real.sqrt_mul_self hk.le]

theorem barRow_false (b : PortfolioBar) : barRow false b = b := rfl

/-- **C145, the metrics of a run (partial: without rounding of prices and of the result, and not
the profit factor).**  A run that ends in one unit of money ends in the other, and its metrics are
the same but for amounts, which are `k` times as large. -/
theorem RunSetup.metrics_in_unit_partial {k : ℚ} {priced : String → Bool} {x y : RunSetup} (hk : 0 < k)
    (h : InUnit k priced x y) (hr : x.round = false) {s : State} (hx : x.run = .ok s) (F : Fns ℚ)
    (fractional : Bool) (bars : Option Nat) (pos pos' : List PositionBar) :
    ∃ t, y.run = .ok t ∧
      SameOpt (MetricsInUnit (k : ℝ))
        ((toTestResult F false fractional false s.loop.pf pos).allMetrics bars)
        ((toTestResult F false fractional false t.loop.pf pos').allMetrics bars) := by
  refine ⟨s.units k, ?_, ?_⟩
  · rw [run_in_unit_partial hk h hr, hx]; rfl
  · have hk' : (0 : ℝ) < (k : ℝ) := by exact_mod_cast hk
    have hm := PyBroker.metrics_in_unit_partial hk' (sqrt_units hk') realPow bars
      (s.loop.pf.metrics.map PortfolioBar.date) (s.loop.pf.metrics.map (fun b => (b.marketValue : ℝ)))
      (s.loop.pf.metrics.map (fun b => (b.fees : ℝ)))
      (s.loop.pf.trades.map (fun t => (⟨t.pnl, t.returnPct, t.bars⟩ : TRow ℝ)))
    unfold TestResult.allMetrics toTestResult
    simp only [Bool.false_eq_true, if_false, List.map_map, Function.comp_def] at hm ⊢
    simp only [barRow, tradeRow, quantizeVal, Bool.false_eq_true, if_false]
    simp only [State.units, Loop.units, Portfolio.units, List.map_map, Function.comp_def]
    simp only [PortfolioBar.units, Trade.units, Rat.cast_mul]
    exact hm

/-! ## Cases -/

namespace Demo

/-- Trades: a win, a loss and one without either. -/
def muTrades : List (TRow ℚ) := [⟨50, 5, 3⟩, ⟨-20, -2, 4⟩, ⟨0, 0, 1⟩]

example : let s := tradeStats muTrades
    let s' := tradeStats (muTrades.map (tradeIn 100))
    (s.totalPnl, s.avgPnl, s.winRate, s.largestLoss) = (30, 10, 50, -20) ∧
      (s'.totalPnl, s'.avgPnl, s'.winRate, s'.largestLoss) = (3000, 1000, 50, -2000) := by decide +kernel

/-- Market values that fall and rise have metrics in both units, with square roots of real
numbers. -/
example : (calcEvalMetrics realFns realPow (some 252) [1, 2, 3] [100, 110, 99] [0, 1, 2]
    [⟨50, 5, 3⟩]).isSome = true := by
  simp [calcEvalMetrics, evalMetrics, barChanges]

/-- The bootstrap of the hypotheses of `bootstrap_in_unit_partial` is there in both units. -/
example : (∃ b s, evalBootstrap bootFns bootBca counter true 2 (some 4) (some 7) [100, 110, 99, 120] 0 =
      .ok (some b, s)) ∧
    (∃ b s, evalBootstrap bootFns bootBca counter true 2 (some 4) (some 7)
      (([100, 110, 99, 120] : List ℚ).map (100 * ·)) 0 = .ok (some b, s)) := by
  have key : ∀ r : Except BootErr (Option (BootResult ℚ) × Nat), (r.toOption.bind (·.1)).isSome = true →
      ∃ b s, r = .ok (some b, s) := by
    intro r h
    match r, h with
    | .ok (some b, s), _ => exact ⟨b, s, rfl⟩
  exact ⟨key _ (by decide +kernel), key _ (by decide +kernel)⟩

/-- The run of C144, in dollars and in cents, has metrics. -/
example : ∃ t, (unRun 100 false).run = .ok t ∧
    SameOpt (MetricsInUnit ((100 : ℚ) : ℝ))
      ((toTestResult bootFns false true false (drEnd (unRun 1 false)).loop.pf []).allMetrics (some 252))
      ((toTestResult bootFns false true false t.loop.pf []).allMetrics (some 252)) :=
  RunSetup.metrics_in_unit_partial (k := 100) (by norm_num) (un_inUnit (by norm_num) false) rfl
    (ok_okR (d := { loop := { pf := Portfolio.init (unRun 1 false).cfg } }) (by decide +kernel)) _ _ _ _ _

example : (drEnd (unRun 1 false)).loop.pf.metrics.length > 1 := by decide +kernel

end Demo

/-- Rounding the result to cents, which is the default, also makes it depend on the unit. -/
theorem cents_depend_on_unit : quantizeVal true ((1 / 100) * (1 / 4)) ≠ 1 / 100 * quantizeVal true (1 / 4) := by
  decide +kernel

end PyBroker
