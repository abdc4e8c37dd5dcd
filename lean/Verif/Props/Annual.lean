import Verif.Props.MetricUnits
import Verif.Props.EvalTrades
import Verif.Props.Scores

/-!
# Annualised metrics (C146)
-/

namespace PyBroker

open PyBroker.Spec

/-- A ratio times a number; infinity stays. -/
noncomputable def Spec.timesRatio (c : ℝ) : Ratio ℝ → Ratio ℝ
  | .val q => .val (q * c)
  | .inf => .inf

/-- What `bars_per_year` does to the metrics: `m` is without it, `m'` with it.  Metrics that need it
are missing in `m` and there in `m'`; the Sharpe and Sortino ratio and the standard error are
multiplied by the square root of the number of bars; all others but UPI are the same. -/
structure Spec.Annualised (n : Nat) (m m' : AllMetrics ℝ) : Prop where
  missing : m.annualReturnPct = none ∧ m.annualStdError = none ∧ m.annualVolatilityPct = none ∧
    m.calmar = none
  there : m'.annualReturnPct.isSome ∧ m'.annualStdError.isSome ∧ m'.annualVolatilityPct.isSome ∧
    m'.calmar.isSome
  sharpe : m'.sharpe = m.sharpe * Real.sqrt n
  sortino : m'.sortino = Spec.timesRatio (Real.sqrt n) m.sortino
  stdError : m'.annualStdError = some (m.stdError * Real.sqrt n)
  same : m'.stats = m.stats ∧ m'.base = m.base ∧ m'.maxDrawdownDate = m.maxDrawdownDate ∧
    m'.equityR2 = m.equityR2 ∧ m'.ulcerIndex = m.ulcerIndex ∧ m'.stdError = m.stdError

/-- **C146** (what `bars_per_year` changes).  Setting it adds the annual metrics, scales Sharpe and
Sortino, and leaves the others. -/
theorem annualised (n : Nat) (dates : List Date) (mv fees : List ℝ) (ts : List (TRow ℝ)) :
    SameOpt (Annualised n) (calcEvalMetrics realFns realPow none dates mv fees ts)
      (calcEvalMetrics realFns realPow (some n) dates mv fees ts) := by
  unfold calcEvalMetrics
  cases evalMetrics realFns mv fees ts with
  | none => trivial
  | some m =>
    simp only [Option.map_some]
    refine ⟨⟨rfl, rfl, rfl, rfl⟩, ⟨rfl, rfl, rfl, rfl⟩, ?_, ?_, rfl, ⟨rfl, rfl, rfl, rfl, rfl, rfl⟩⟩
    · show sharpe realFns (barReturns mv) (some n) = sharpe realFns (barReturns mv) none * _
      unfold sharpe
      split
      · simp
      · split
        · simp
        · rfl
    · show sortino realFns (barReturns mv) (some n) = timesRatio _ (sortino realFns (barReturns mv) none)
      unfold sortino
      split
      · simp [timesRatio]
      · simp only
        split
        · split <;> simp [timesRatio]
        · rfl

/-- **C146** (annual return).  Unless the initial market value is zero or the realised loss is the
initial market value or more, compounding the annual return over the run, which spans one bar less
than it has, gives the total return: `(1 + annual/100) ^ ((bars - 1) / n) = 1 + total/100`. Partial:
for a larger loss see `annual_return_nan`. -/
theorem annual_return_partial (initial pnl : ℝ) (n bars : Nat) (hn : 0 < n) (hb : 1 < bars)
    (hi : 0 < initial) (hp : -initial < pnl) :
    ∃ a, annualReturnPct realPow initial pnl n bars = some a ∧
      (1 + a / 100) ^ (((bars : ℝ) - 1) / n) = 1 + totalReturnPct initial pnl / 100 := by
  have hpos : 0 < (pnl + initial) / initial := div_pos (by linarith) hi
  have hb' : (0 : ℝ) < (bars : ℝ) - 1 := by
    have : (1 : ℝ) < bars := by exact_mod_cast hb
    linarith
  have hn' : (0 : ℝ) < n := by exact_mod_cast hn
  refine ⟨(((pnl + initial) / initial) ^ ((n : ℝ) / ((bars : ℝ) - 1)) - 1) * 100, ?_, ?_⟩
  · unfold annualReturnPct realPow
    rw [if_neg (by
      intro h
      rcases h with h | h
      · exact hi.ne' h
      · omega), if_neg (fun h => absurd h.1 (not_lt.mpr hpos.le))]
    rfl
  · unfold totalReturnPct
    rw [if_neg hi.ne']
    have e1 : 1 + (((pnl + initial) / initial) ^ ((n : ℝ) / ((bars : ℝ) - 1)) - 1) * 100 / 100 =
        ((pnl + initial) / initial) ^ ((n : ℝ) / ((bars : ℝ) - 1)) := by ring
    rw [e1, ← Real.rpow_mul hpos.le]
    have e2 : (n : ℝ) / ((bars : ℝ) - 1) * (((bars : ℝ) - 1) / n) = 1 := by
      field_simp
    rw [e2, Real.rpow_one]
    ring

/-- **C146, where the code falls short.**  The annual return is not a number when the run realised a
loss of more than the initial market value, as it can with leverage or short positions, and
`bars_per_year` is not a multiple of the number of intervals; the Calmar ratio and UPI guard against
this and the annual return does not. -/
theorem annual_return_nan (initial pnl : ℝ) (n bars : Nat) (hi : 0 < initial) (hb : 1 < bars) :
    annualReturnPct realPow initial pnl n bars = none ↔ pnl < -initial ∧ ¬ (bars - 1) ∣ n := by
  have hb' : (0 : ℝ) < (bars : ℝ) - 1 := by
    have : (1 : ℝ) < bars := by exact_mod_cast hb
    linarith
  have hlt : (pnl + initial) / initial < 0 ↔ pnl < -initial := by
    rw [div_neg_iff]
    constructor
    · rintro (⟨_, h⟩ | ⟨h, _⟩) <;> linarith
    · intro h; exact Or.inr ⟨by linarith, hi⟩
  have hint : (∀ m : Int, (n : ℝ) / ((bars : ℝ) - 1) ≠ m) ↔ ¬ (bars - 1) ∣ n := by
    have hc : ((bars - 1 : Nat) : ℝ) = (bars : ℝ) - 1 := by
      rw [Nat.cast_sub (by omega)]; simp
    constructor
    · rintro h ⟨c, hc'⟩
      refine h c ?_
      rw [hc', ← hc, Nat.cast_mul, mul_div_cancel_left₀]
      · simp
      · rw [hc]; exact hb'.ne'
    · intro h m hm
      apply h
      rw [div_eq_iff hb'.ne', ← hc] at hm
      have hm' : (n : Int) = m * ((bars - 1 : Nat) : Int) := by exact_mod_cast hm
      exact Int.natCast_dvd_natCast.mp ⟨m, by rw [hm', mul_comm]⟩
  unfold annualReturnPct realPow
  rw [if_neg (by
      intro h
      rcases h with h | h
      · exact hi.ne' h
      · omega), Option.map_eq_none_iff, ← hlt, ← hint]
  split
  · rename_i h; simp [h]
  · rename_i h; simp only [reduceCtorEq, false_iff]; exact h

/-- A run of six bars that realises a loss of 150 on 100, with 252 bars a year: 252 is no multiple of
5. -/
example : annualReturnPct realPow 100 (-150) 252 6 = none :=
  (annual_return_nan 100 (-150) 252 6 (by norm_num) (by norm_num)).mpr ⟨by norm_num, by decide⟩

/-- A run of 505 bars, two years, that gains 21 on 100. -/
example : ∃ a, annualReturnPct realPow 100 21 252 505 = some a ∧
    (1 + a / 100) ^ (((505 : Nat) - 1 : ℝ) / (252 : Nat)) = 1 + totalReturnPct 100 21 / 100 :=
  annual_return_partial 100 21 252 505 (by norm_num) (by norm_num) (by norm_num) (by norm_num)

/-- **C146** (volatility).  The Sharpe ratio times the annual volatility is the mean return of a bar
in percent times the number of bars of a year. -/
theorem sharpe_volatility (n : Nat) (dates : List Date) (mv fees : List ℝ) (ts : List (TRow ℝ))
    (m : AllMetrics ℝ) (v : ℝ) (h : calcEvalMetrics realFns realPow (some n) dates mv fees ts = some m)
    (hv : m.annualVolatilityPct = some v) (h0 : v ≠ 0) :
    m.sharpe * v = (barReturns mv).sum / (barReturns mv).length * 100 * n := by
  unfold calcEvalMetrics at h
  obtain ⟨b, _, rfl⟩ := Option.map_eq_some_iff.mp h
  simp only [Option.map_some, Option.some.injEq] at hv ⊢
  have hs : std realFns ((barReturns mv).map (fun r => r * 100)) = 100 * std realFns (barReturns mv) := by
    rw [← std_units (k := (100 : ℝ)) (sqrt_units (by norm_num))]
    congr 1
    apply List.map_congr_left
    intro r _
    ring
  rw [hs] at hv
  change 100 * std realFns (barReturns mv) * Real.sqrt n = v at hv
  subst hv
  have hstd : std realFns (barReturns mv) ≠ 0 := fun e => h0 (by rw [e]; ring)
  have hlen : (barReturns mv).length ≠ 0 := by
    intro e
    rw [List.length_eq_zero_iff] at e
    apply hstd
    rw [e]
    show Real.sqrt (mean _) = 0
    simp [mean]
  unfold sharpe
  rw [if_neg hlen, if_neg hstd]
  show mean (barReturns mv) / std realFns (barReturns mv) * Real.sqrt n *
    (100 * std realFns (barReturns mv) * Real.sqrt n) = mean (barReturns mv) * 100 * n
  have hn : Real.sqrt n * Real.sqrt n = n := Real.mul_self_sqrt (Nat.cast_nonneg n)
  generalize std realFns (barReturns mv) = sd at hstd ⊢
  generalize Real.sqrt n = r at hn ⊢
  rw [← hn]
  field_simp

/-- Market values that gain 10% and lose 10% have a volatility that is not zero. -/
example : std realFns (barReturns [(100 : ℝ), 110, 99]) ≠ 0 := by
  show Real.sqrt (mean _) ≠ 0
  rw [Real.sqrt_ne_zero']
  norm_num [mean, barReturns]

/-! ## What the result reports -/

/-- **C146** (reported annual return).  Compounding the reported annual return over the run gives the
reported total return. -/
theorem reported_annual_return_partial (n : Nat) (dates : List Date) (mv fees : List ℝ)
    (ts : List (TRow ℝ)) (m : AllMetrics ℝ)
    (h : calcEvalMetrics realFns realPow (some n) dates mv fees ts = some m) (hn : 0 < n)
    (hi : 0 < mv.headD 0) (hp : -mv.headD 0 < m.base.totalPnl) :
    ∃ a, m.annualReturnPct = some (some a) ∧
      (1 + a / 100) ^ (((mv.length : ℝ) - 1) / n) = 1 + m.base.totalReturnPct / 100 := by
  unfold calcEvalMetrics at h
  obtain ⟨b, hb, rfl⟩ := Option.map_eq_some_iff.mp h
  clear h
  rcases mv with _ | ⟨v, _ | ⟨w, mv⟩⟩
  · simp [evalMetrics] at hb
  · simp [evalMetrics, barChanges] at hb
  · simp only [evalMetrics, List.head?_cons, List.getLast?_cons_cons, barChanges] at hb
    split at hb
    · rename_i e1 e2
      cases e1
      simp only [reduceCtorEq, if_false, Option.some.injEq] at hb
      subst hb
      simp only [List.headD_cons] at hi hp ⊢
      obtain ⟨a, h1, h2⟩ := annual_return_partial v (tradeStats ts).totalPnl n (v :: w :: mv).length hn
        (by simp) hi hp
      exact ⟨a, congrArg some h1, h2⟩
    · cases hb

theorem getD_get (l : List ℝ) {i : Nat} (h : i < l.length) : l.getD i 0 = l[i] := by
  rw [List.getD_eq_getElem?_getD, List.getElem?_eq_getElem h]
  rfl

theorem never_falls_getD (mv : List ℝ) : mv.Pairwise (· ≤ ·) ↔
    ∀ i j, i ≤ j → j < mv.length → mv.getD i 0 ≤ mv.getD j 0 := by
  rw [List.pairwise_iff_getElem]
  constructor
  · intro h i j hij hj
    rw [getD_get _ (by omega), getD_get _ hj]
    rcases Nat.lt_or_eq_of_le hij with hlt | rfl
    · exact h i j (by omega) hj hlt
    · exact le_refl _
  · intro h i j hi hj hij
    have := h i j hij.le hj
    rwa [getD_get _ hi, getD_get _ hj] at this

theorem returns_nonneg : ∀ (mv : List ℝ), (∀ v ∈ mv, 0 < v) →
    ((∀ r ∈ barReturns mv, 0 ≤ r) ↔ mv.Pairwise (· ≤ ·))
  | [], _ => by simp [barReturns]
  | [_], _ => by simp [barReturns]
  | a :: b :: rest, hpos => by
    have ha : 0 < a := hpos a (by simp)
    have ih := returns_nonneg (b :: rest) (fun v hv => hpos v (by simp [hv]))
    rw [barReturns, if_neg ha.ne', List.forall_mem_cons, ih, List.pairwise_cons (a := a)]
    constructor
    · rintro ⟨h1, h2⟩
      have hab : a ≤ b := by
        rcases le_or_gt a b with h | h
        · exact h
        · exact absurd h1 (not_le.2 (div_neg_of_neg_of_pos (by linarith) ha))
      refine ⟨?_, h2⟩
      intro v hv
      rcases List.mem_cons.1 hv with rfl | hv
      · exact hab
      · exact hab.trans ((List.pairwise_cons.1 h2).1 v hv)
    · rintro ⟨h1, h2⟩
      exact ⟨div_nonneg (by linarith [h1 b (by simp)]) ha.le, h2⟩

theorem returns_rise : ∀ (mv : List ℝ), (∀ v ∈ mv, 0 < v) → mv.Pairwise (· ≤ ·) →
    ((∃ r ∈ barReturns mv, 0 < r) ↔ mv.headD 0 < mv.getLastD 0)
  | [], _, _ => by simp [barReturns]
  | [_], _, _ => by simp [barReturns]
  | a :: b :: rest, hpos, hp => by
    have ha : 0 < a := hpos a (by simp)
    have hp' := (List.pairwise_cons.1 hp)
    have ih := returns_rise (b :: rest) (fun v hv => hpos v (by simp [hv])) hp'.2
    have hab := hp'.1 b (by simp)
    have hlast : b ≤ (b :: rest).getLastD 0 := by
      rw [List.getLastD_eq_getLast?, List.getLast?_eq_some_getLast (by simp)]
      rcases List.mem_cons.1 (List.getLast_mem (show b :: rest ≠ [] by simp)) with h | h
      · simp [h]
      · exact (List.pairwise_cons.1 hp'.2).1 _ h
    have hl : (a :: b :: rest).getLastD 0 = (b :: rest).getLastD 0 := by simp
    rw [barReturns, if_neg ha.ne', hl]
    simp only [List.headD_cons] at ih ⊢
    simp only [List.mem_cons, exists_eq_or_imp, ih]
    constructor
    · rintro (h | h)
      · have : 0 < b - a := by
          rcases div_pos_iff.1 h with ⟨h1, _⟩ | ⟨_, h2⟩
          · exact h1
          · linarith
        linarith
      · linarith
    · intro h
      rcases lt_or_eq_of_le hab with h1 | h1
      · exact .inl (div_pos (by linarith) ha)
      · exact .inr (h1 ▸ h)

/-- **C81, C82** (reported scores).  When the recorded market values are positive: the Ulcer Index is
zero exactly when they never fall, R² is in [0, 1], and the Sortino, Calmar and Ulcer Performance
Index are infinite in the same case: the values never fall and end above their start. -/
theorem reported_scores (n : Nat) (dates : List Date) (mv fees : List ℝ) (ts : List (TRow ℝ))
    (m : AllMetrics ℝ) (h : calcEvalMetrics realFns realPow (some n) dates mv fees ts = some m)
    (hpos : ∀ v ∈ mv, 0 < v) :
    (m.ulcerIndex = 0 ↔ mv.Pairwise (· ≤ ·)) ∧ (0 ≤ m.equityR2 ∧ m.equityR2 ≤ 1) ∧
    (m.sortino = .inf ↔ mv.Pairwise (· ≤ ·) ∧ mv.headD 0 < mv.getLastD 0) ∧
    (m.calmar = some .inf ↔ mv.Pairwise (· ≤ ·) ∧ mv.headD 0 < mv.getLastD 0) ∧
    (m.upi = .inf ↔ mv.Pairwise (· ≤ ·) ∧ mv.headD 0 < mv.getLastD 0) := by
  unfold calcEvalMetrics at h
  obtain ⟨b, hb, rfl⟩ := Option.map_eq_some_iff.mp h
  have hne : mv ≠ [] := by
    rintro rfl
    simp [evalMetrics] at hb
  have hsqrt : ∀ v, realFns.sqrt v = 0 ↔ v ≤ 0 := fun v => Real.sqrt_eq_zero'
  have hu := ulcer_zero realFns hsqrt mv hpos hne
  obtain ⟨r1, r2, _⟩ := r_squared_range mv.length (fun i => mv.getD i 0)
  refine ⟨hu, ⟨r1, r2⟩, ?_, ?_, ?_⟩
  · rw [sortino_inf realFns hsqrt, returns_nonneg mv hpos]
    exact and_congr_right (returns_rise mv hpos)
  · simp only [Option.map_some, Option.some.injEq]
    rw [(calmar_inf _ _ _).1]
    have hlen := List.length_pos_of_ne_nil hne
    have hp : ∀ i < mv.length, 0 < mv.getD i 0 := fun i hi => by
      rw [getD_get _ hi]
      exact hpos _ (List.getElem_mem hi)
    have h0 := hp 0 hlen
    have hg : ∀ i < mv.length, growAt (barReturns mv) i = mv.getD i 0 / mv.getD 0 0 := by
      intro i hi
      rw [← growAt_barReturns mv i hi (fun j hj => ne_of_gt (hp j (by omega)))]
      field_simp
    have hhead : mv.headD 0 = mv.getD 0 0 := by
      cases mv <;> rfl
    have hlast : mv.getLastD 0 = mv.getD (mv.length - 1) 0 := by
      rw [List.getLastD_eq_getLast?, List.getLast?_eq_getElem?, List.getD_eq_getElem?_getD]
    rw [length_barReturns, hg _ (by omega), one_lt_div h0, hhead, hlast, never_falls_getD]
    apply and_congr_left
    intro _
    constructor
    · intro h i j hij hj
      have := h i j hij (by omega)
      rwa [hg i (by omega), hg j hj, div_le_div_iff_of_pos_right h0] at this
    · intro h i j hij hj
      rw [hg i (by omega), hg j (by omega), div_le_div_iff_of_pos_right h0]
      exact h i j hij (by omega)
  · rw [upi_inf, hu]
    tauto

/-- Three bars that rise, and three that do not. -/
example : (∃ m, calcEvalMetrics realFns realPow (some 252) [1, 2, 3] [100, 100, 110] [0, 0, 0] [] = some m ∧
      m.upi = .inf ∧ m.ulcerIndex = 0) ∧
    ∃ m, calcEvalMetrics realFns realPow (some 252) [1, 2, 3] [100, 90, 110] [0, 0, 0] [] = some m ∧
      m.upi ≠ .inf ∧ m.ulcerIndex ≠ 0 := by
  constructor
  · refine ⟨_, rfl, ?_⟩
    obtain ⟨h1, _, _, _, h5⟩ := reported_scores 252 [1, 2, 3] [100, 100, 110] [0, 0, 0] [] _ rfl
      (by norm_num)
    exact ⟨h5.2 (by norm_num), h1.2 (by norm_num)⟩
  · refine ⟨_, rfl, ?_⟩
    obtain ⟨h1, _, _, _, h5⟩ := reported_scores 252 [1, 2, 3] [100, 90, 110] [0, 0, 0] [] _ rfl
      (by norm_num)
    exact ⟨fun h => absurd (h5.1 h) (by norm_num), fun h => absurd (h1.1 h) (by norm_num)⟩

/-! ## C80: the date of the drawdown -/

/-- **C80** (date).  When the market value stays positive, the reported date is that of the first
recorded bar whose value is the reported percentage below that of an earlier bar; without a date
there is no fall. -/
theorem drawdown_date {K : Type} [Field K] [LinearOrder K] [IsStrictOrderedRing K] (F : Fns K)
    (pow : K → K → Option K) (n : Option Nat)
    (dates : List Date) (mv fees : List K) (ts : List (TRow K)) (m : AllMetrics K)
    (h : calcEvalMetrics F pow n dates mv fees ts = some m) (hlen : dates.length = mv.length)
    (hpos : ∀ i < mv.length, 0 < mv.getD i 0) :
    (m.maxDrawdownDate = none → m.base.maxDrawdownPct = 0) ∧
    ∀ d, m.maxDrawdownDate = some d → ∃ b, dates[b]? = some d ∧
      (∃ a < b, m.base.maxDrawdownPct = (mv.getD b 0 / mv.getD a 0 - 1) * 100) ∧
      ∀ i j, i ≤ j → j < b → m.base.maxDrawdownPct < (mv.getD j 0 / mv.getD i 0 - 1) * 100 := by
  unfold calcEvalMetrics at h
  obtain ⟨b, hb, rfl⟩ := Option.map_eq_some_iff.mp h
  obtain ⟨_, h1, h2⟩ := mv_drawdown_pct F mv fees ts b hb hpos
  simp only
  constructor
  · intro e
    rcases hi : b.maxDrawdownIndex with _ | k
    · exact h1 hi
    · obtain ⟨h3, _⟩ := h2 k hi
      rw [hi, Option.bind_some, List.getElem?_eq_none_iff, List.length_tail] at e
      omega
  · intro d e
    obtain ⟨k, hk, hd⟩ := Option.bind_eq_some_iff.mp e
    obtain ⟨_, ⟨i, hi, h4⟩, h5⟩ := h2 k hk
    rw [List.getElem?_tail] at hd
    exact ⟨k + 1, hd, ⟨i, by omega, h4⟩, fun i j hij hj => h5 i j hij (by omega)⟩

/-- Four bars; the value falls furthest, by a quarter, on the third. -/
example : (calcEvalMetrics (K := ℚ) ⟨id, id, id, id, fun _ => 0⟩ (fun x _ => some x) none [10, 20, 30, 40]
    [100, 120, 90, 130] [0, 0, 0, 0] []).map (fun m => (m.maxDrawdownDate, m.base.maxDrawdownPct)) =
    some (some 30, -25) := by
  decide +kernel

end PyBroker
