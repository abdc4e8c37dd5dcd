import Verif.Eval.BootRun
import Verif.Props.Bootstrap
import Verif.Props.Eval

/-!
# C139: the bootstrap of a result

A result's bootstrap is reproducible from its seed; it is what the public functions
`conf_profit_factor`, `conf_sharpe_ratio` and `drawdown_conf` give for the run's bars and that
seed; every end of its intervals is the metric of a resample of the run's bars; and its tables hold
those numbers under their names.
-/

namespace PyBroker

variable {K : Type} [Field K] [LinearOrder K]

/-! ## Specification -/

namespace Spec

/-- `np.random.randint(0, n)` is below `n`. -/
def Draws {S : Type} (R : Rng S) : Prop := ∀ s n, 0 < n → (R.randint s n).1 < n

/-- `y` is a resample of `x` with replacement by the positions `d`: as many values, each of `x`. -/
def Resampled (x y : List K) (d : List Nat) : Prop :=
  d.length = x.length ∧ y.length = x.length ∧ ∀ j : Nat, j < x.length →
    ∃ k, d[j]? = some k ∧ k < x.length ∧ y[j]? = x[k]?

/-- The three intervals, low end first. -/
def ends (c : Intervals K) : List K := [c.low2p5, c.high2p5, c.low5, c.high5, c.low10, c.high10]

/-- What the two tables of a bootstrap hold. -/
structure Tables (b : BootResult K) : Prop where
  intervals : b.confIntervals =
    [⟨"Profit Factor", "97.5%", b.profitFactor.low2p5, b.profitFactor.high2p5⟩,
      ⟨"Profit Factor", "95%", b.profitFactor.low5, b.profitFactor.high5⟩,
      ⟨"Profit Factor", "90%", b.profitFactor.low10, b.profitFactor.high10⟩,
      ⟨"Sharpe Ratio", "97.5%", b.sharpe.low2p5, b.sharpe.high2p5⟩,
      ⟨"Sharpe Ratio", "95%", b.sharpe.low5, b.sharpe.high5⟩,
      ⟨"Sharpe Ratio", "90%", b.sharpe.low10, b.sharpe.high10⟩]
  drawdowns : b.drawdownConf =
    [("99.9%", b.drawdown.1.q001, b.drawdown.2.q001), ("99%", b.drawdown.1.q01, b.drawdown.2.q01),
      ("95%", b.drawdown.1.q05, b.drawdown.2.q05), ("90%", b.drawdown.1.q10, b.drawdown.2.q10)]

end Spec
open Spec

/-! ## The draws -/

theorem length_drawRow {S : Type} (R : Rng S) (n : Nat) : ∀ k s, (drawRow R n k s).1.length = k
  | 0, _ => rfl
  | k + 1, s => by simp only [drawRow, List.length_cons, length_drawRow R n k]

theorem drawRow_lt {S : Type} {R : Rng S} (h : Draws R) {n : Nat} (hn : 0 < n) :
    ∀ k s, ∀ i ∈ (drawRow R n k s).1, i < n
  | 0, _, _, hi => by cases hi
  | k + 1, s, i, hi => by
    simp only [drawRow, List.mem_cons] at hi
    rcases hi with rfl | hi
    · exact h _ _ hn
    · exact drawRow_lt h hn k _ i hi

theorem length_drawRows {S : Type} (R : Rng S) (n : Nat) : ∀ k s, (drawRows R n k s).1.length = k
  | 0, _ => rfl
  | k + 1, s => by simp only [drawRows, List.length_cons, length_drawRows R n k]

theorem drawRows_mem {S : Type} {R : Rng S} (h : Draws R) {n : Nat} (hn : 0 < n) :
    ∀ k s, ∀ d ∈ (drawRows R n k s).1, d.length = n ∧ ∀ i ∈ d, i < n
  | 0, _, _, hi => by cases hi
  | k + 1, s, d, hd => by
    simp only [drawRows, List.mem_cons] at hd
    rcases hd with rfl | hd
    · exact ⟨length_drawRow R n n s, drawRow_lt h hn n s⟩
    · exact drawRows_mem h hn k _ d hd

omit [Field K] [LinearOrder K] in
theorem resample_getElem? (x : List K) : ∀ d : List Nat, (∀ i ∈ d, i < x.length) →
    (resample x d).length = d.length ∧ ∀ j k : Nat, d[j]? = some k → (resample x d)[j]? = x[k]?
  | [], _ => ⟨rfl, fun j k h => by simp at h⟩
  | a :: d, h => by
    have ha : a < x.length := h a (by simp)
    obtain ⟨i1, i2⟩ := resample_getElem? x d (fun i hi => h i (List.mem_cons_of_mem _ hi))
    have e : resample x (a :: d) = x[a] :: resample x d := by
      unfold resample
      rw [List.filterMap_cons, List.getElem?_eq_getElem ha]
    rw [e]
    refine ⟨by simp only [List.length_cons, i1], ?_⟩
    intro j k hk
    cases j with
    | zero =>
      simp only [List.getElem?_cons_zero, Option.some.injEq] at hk
      subst hk
      rw [List.getElem?_cons_zero, List.getElem?_eq_getElem ha]
    | succ j =>
      rw [List.getElem?_cons_succ] at hk ⊢
      exact i2 j k hk

omit [Field K] [LinearOrder K] in
theorem resampled_of (x : List K) (d : List Nat) (hl : d.length = x.length)
    (h : ∀ i ∈ d, i < x.length) : Resampled x (resample x d) d := by
  obtain ⟨h1, h2⟩ := resample_getElem? x d h
  refine ⟨hl, h1.trans hl, ?_⟩
  intro j hj
  have hj' : j < d.length := hl ▸ hj
  exact ⟨d[j], List.getElem?_eq_getElem hj', h _ (List.getElem_mem hj'),
    h2 j _ (List.getElem?_eq_getElem hj')⟩

/-! ## The shared pass -/

/-- The loop fills its arrays with the metrics of the rows it draws, in order. -/
theorem bootLoop_eq {S : Type} (F : Fns K) (R : Rng S) (changes returns : List K) :
    ∀ (k : Nat) (a : BootAcc K S),
      let D := (drawRows R changes.length k a.rng)
      bootLoop F R changes returns k a =
        { rng := D.2
          logPf := a.logPf ++ D.1.map (fun d => profitFactor F true (resample changes d))
          sharpe := a.sharpe ++ D.1.map (fun d => sharpe F (resample returns d) none)
          dd := a.dd ++ D.1.map (fun d => maxDrawdown (resample changes d))
          ddPct := a.ddPct ++ D.1.map (fun d => (maxDrawdownPct (resample returns d)).1)
          z0Pf := a.z0Pf + ((D.1.map (fun d => profitFactor F true (resample changes d))).filter
            (fun p => decide (p < profitFactor F true changes))).length
          z0Sharpe := a.z0Sharpe + ((D.1.map (fun d => sharpe F (resample returns d) none)).filter
            (fun p => decide (p < sharpe F returns none))).length }
  | 0, a => by simp [bootLoop, drawRows]
  | k + 1, a => by
    simp only [bootLoop]
    rw [bootLoop_eq F R changes returns k]
    simp only [bootPass, drawRows, List.map_cons, List.filter_cons, List.append_assoc,
      List.singleton_append, decide_eq_true_eq]
    congr 1
    · split
      · simp only [List.length_cons]; omega
      · rfl
    · split
      · simp only [List.length_cons]; omega
      · rfl

variable [IsStrictOrderedRing K]

/-- **C139** (one pass).  The pass `bootstrap_eval_all` makes gives the numbers the three separate
functions give when each starts from the same random state. -/
theorem bootstrap_all_separate {S : Type} (F : Fns K) (B : BcaFns K) (R : Rng S)
    (changes returns : List K) (nBoot : Int) (bpy : Nat) (s : S) (hb : 0 < nBoot)
    (hl : changes.length = returns.length) (hne : changes ≠ []) :
    ∃ lp sh dd s', bootstrapEvalAll F B R changes returns nBoot bpy s = .ok ((lp, sh, dd), s') ∧
      confProfitFactor F B R changes nBoot s = some (lp.exp F) ∧
      confSharpeRatio F B R returns nBoot (if bpy > 0 then some bpy else none) s = some sh ∧
      confDrawdown R changes returns nBoot s = some dd := by
  obtain ⟨m, rfl⟩ : ∃ m : Nat, nBoot = ((m + 1 : Nat) : Int) :=
    ⟨nBoot.toNat - 1, by omega⟩
  have hD : (drawRows R changes.length (m + 1) s).1 ≠ [] := by
    intro h
    have := length_drawRows R changes.length (m + 1) s
    rw [h] at this
    simp at this
  have hr : returns ≠ [] := by
    intro h
    rw [h] at hl
    exact hne (List.length_eq_zero_iff.mp hl)
  have hc0 : changes.length ≠ 0 := fun h => hne (List.length_eq_zero_iff.mp h)
  obtain ⟨pf, e1, _⟩ := bca_ends F B (profitFactor F true) (jackPf F true) changes _ hD hne
  obtain ⟨sh, e2, _⟩ := bca_ends F B (fun y => sharpe F y none) (jackSharpe F) returns _ hD hr
  obtain ⟨cash, pct, e3, _⟩ := drawdown_bounds changes returns _ hD hl hne
  have e3' := e3
  unfold bcaBootConf at e1 e2
  rw [if_neg hD, if_neg hne] at e1
  rw [if_neg hD, if_neg hr] at e2
  unfold drawdownConf at e3
  rw [if_neg (by rintro (h | h); exacts [hD h, h hl]), if_neg hne] at e3
  obtain ⟨c1, h1, _⟩ := ddConfs_ok (boots := (drawRows R changes.length (m + 1) s).1.map
    (fun d => maxDrawdown (resample changes d))) (by simpa using hD)
  obtain ⟨c2, h2, _⟩ := ddConfs_ok (boots := (drawRows R changes.length (m + 1) s).1.map
    (fun d => (maxDrawdownPct (resample returns d)).1)) (by simpa using hD)
  rw [h1, h2] at e3
  simp only [Option.some.injEq, Prod.mk.injEq] at e3
  obtain ⟨rfl, rfl⟩ := e3
  refine ⟨pf, if bpy > 0 then sh.scale (F.sqrt bpy) else sh, (c1, c2),
    (drawRows R changes.length (m + 1) s).2, ?_, ?_, ?_, e3'⟩
  · unfold bootstrapEvalAll
    rw [if_neg (by omega), if_neg (by simpa using hl), if_neg hc0, Int.toNat_natCast]
    simp only [bootLoop_eq, List.nil_append, Nat.zero_add]
    simp only at e1 e2
    rw [e1, e2, h1, h2]
  · unfold confProfitFactor bcaBootConf
    rw [Int.toNat_natCast, if_neg hD, if_neg hne]
    simp only at e1 ⊢
    rw [e1]
    rfl
  · unfold confSharpeRatio bcaBootConf
    rw [Int.toNat_natCast, ← hl, if_neg hD, if_neg hr]
    simp only at e2 ⊢
    rw [e2]
    by_cases hp : bpy > 0
    · simp only [if_pos hp, Option.map_some]
    · simp only [if_neg hp]

/-! ## The result -/

theorem noBars_iff (mv : List K) : (mv.length = 0 ∨ (barReturns mv).length = 0 ∨
    (barChanges mv).length = 0) ↔ mv.length < 2 := by
  rw [length_barReturns, length_barChanges]
  omega

/-- **C139** (when).  A result has no bootstrap exactly when none was asked for or there are fewer
than two bars, and then the random state is left alone.  Otherwise it fails only for a number of
samples that is not positive. -/
theorem bootstrap_when {S : Type} (F : Fns K) (B : BcaFns K) (R : Rng S) (calc_ : Bool)
    (samples : Int) (bpy : Option Nat) (seed : Option Nat) (mv : List K) (s : S) :
    ((calc_ = false ∨ mv.length < 2) →
        evalBootstrap F B R calc_ samples bpy seed mv s = .ok (none, s)) ∧
      (calc_ = true → 2 ≤ mv.length → samples ≤ 0 →
        evalBootstrap F B R calc_ samples bpy seed mv s = .error .samples) ∧
      (calc_ = true → 2 ≤ mv.length → 0 < samples →
        ∃ b s', evalBootstrap F B R calc_ samples bpy seed mv s = .ok (some b, s')) := by
  refine ⟨?_, ?_, ?_⟩
  · intro h
    unfold evalBootstrap
    simp only [noBars_iff]
    split
    · rfl
    · rcases h with rfl | h
      · rfl
      · contradiction
  · rintro rfl h2 hs
    unfold evalBootstrap
    simp only [noBars_iff]
    rw [if_neg (by omega)]
    simp only [Bool.not_true, Bool.false_eq_true, if_false]
    unfold bootstrapEvalAll
    rw [if_pos hs]
  · rintro rfl h2 hs
    unfold evalBootstrap
    simp only [noBars_iff]
    rw [if_neg (by omega)]
    simp only [Bool.not_true, Bool.false_eq_true, if_false]
    have hne : barChanges mv ≠ [] := by
      intro h
      have := length_barChanges mv
      rw [h] at this
      simp at this
      omega
    obtain ⟨lp, sh, dd, s', e, _⟩ := bootstrap_all_separate F B R (barChanges mv) (barReturns mv)
      samples (bpy.getD 0) (R.start seed s) hs
      (by rw [length_barChanges, length_barReturns]) hne
    rw [e]
    exact ⟨_, _, rfl⟩

omit [IsStrictOrderedRing K] in
/-- **C139** (seed).  With a seed the bootstrap does not depend on what was drawn before: for any
two random states the result and, when there is one, the state left behind are the same. -/
theorem bootstrap_seeded {S : Type} (F : Fns K) (B : BcaFns K) (R : Rng S) (calc_ : Bool)
    (samples : Int) (bpy : Option Nat) (seed : Nat) (mv : List K) (s s' : S) :
    (evalBootstrap F B R calc_ samples bpy (some seed) mv s).map Prod.fst =
        (evalBootstrap F B R calc_ samples bpy (some seed) mv s').map Prod.fst ∧
      ∀ b t, evalBootstrap F B R calc_ samples bpy (some seed) mv s = .ok (some b, t) →
        evalBootstrap F B R calc_ samples bpy (some seed) mv s' = .ok (some b, t) := by
  unfold evalBootstrap
  simp only
  split
  · exact ⟨rfl, fun b t h => by cases h⟩
  · split
    · exact ⟨rfl, fun b t h => by cases h⟩
    · exact ⟨rfl, fun b t h => h⟩

/-- **C139** (separate).  The intervals and drawdowns of a result are those of
`conf_profit_factor` of the changes of its market value, of `conf_sharpe_ratio` of its returns with
`bars_per_year` observations and of `drawdown_conf` of both, each called with a random state just
seeded as the result's was; and its two tables hold them under their names. -/
theorem bootstrap_separate {S : Type} (F : Fns K) (B : BcaFns K) (R : Rng S) (samples : Int)
    (bpy : Option Nat) (hbpy : bpy ≠ some 0) (seed : Nat) (mv : List K) (s t : S)
    (b : BootResult K)
    (h : evalBootstrap F B R true samples bpy (some seed) mv s = .ok (some b, t)) :
    confProfitFactor F B R (barChanges mv) samples (R.seed seed) = some b.profitFactor ∧
      confSharpeRatio F B R (barReturns mv) samples bpy (R.seed seed) = some b.sharpe ∧
      confDrawdown R (barChanges mv) (barReturns mv) samples (R.seed seed) = some b.drawdown ∧
      Tables b := by
  have h2 : 2 ≤ mv.length := by
    by_contra hc
    rw [(bootstrap_when F B R true samples bpy (some seed) mv s).1 (Or.inr (by omega))] at h
    cases h
  have hs : 0 < samples := by
    by_contra hc
    rw [(bootstrap_when F B R true samples bpy (some seed) mv s).2.1 rfl h2 (by omega)] at h
    cases h
  have hne : barChanges mv ≠ [] := by
    intro h
    have := length_barChanges mv
    rw [h] at this
    simp at this
    omega
  obtain ⟨lp, sh, dd, s', e, e1, e2, e3⟩ := bootstrap_all_separate F B R (barChanges mv)
    (barReturns mv) samples (bpy.getD 0) (R.seed seed) hs
    (by rw [length_barChanges, length_barReturns]) hne
  unfold evalBootstrap at h
  simp only [noBars_iff] at h
  rw [if_neg (by omega)] at h
  simp only [Bool.not_true, Bool.false_eq_true, if_false] at h
  rw [show R.start (some seed) s = R.seed seed from rfl, e] at h
  simp only [Except.ok.injEq, Prod.mk.injEq, Option.some.injEq] at h
  obtain ⟨rfl, _⟩ := h
  have hobs : (if bpy.getD 0 > 0 then some (bpy.getD 0) else none) = bpy := by
    rcases bpy with _ | n
    · rfl
    · have : n ≠ 0 := fun h => hbpy (by rw [h])
      simp only [Option.getD_some]
      rw [if_pos (by omega)]
  rw [hobs] at e2
  exact ⟨e1, e2, e3, rfl, rfl⟩

omit [IsStrictOrderedRing K] in
theorem sharpe_scale (F : Fns K) (x : List K) (n : Nat) :
    sharpe F x none * F.sqrt n = sharpe F x (some n) := by
  unfold sharpe
  split
  · simp
  · split
    · simp
    · rfl

theorem sum_nonpos' : ∀ l : List K, (∀ v ∈ l, v ≤ 0) → l.sum ≤ 0
  | [], _ => by simp
  | a :: l, h => by
    rw [List.sum_cons]
    have h1 := h a (by simp)
    have h2 := sum_nonpos' l (fun v hv => h v (List.mem_cons_of_mem _ hv))
    linarith

/-- **C139** (ends).  Every end of a result's intervals is a metric of a resample of the run's bars:
an end for the profit factor is the profit factor of a resample of its changes, or 1 when the
resample has no change at all; an end for the Sharpe ratio is the Sharpe ratio, annualised as the
run's is, of a resample of its returns; and the drawdown bounds are quantiles of the drawdowns of
resamples. -/
theorem bootstrap_ends {S : Type} (F : Fns K) (B : BcaFns K) (R : Rng S) (hR : Draws R)
    (hexp : ∀ v, 0 < v → F.exp (F.log v) = v) (hexp0 : F.exp 0 = 1) (samples : Int)
    (bpy : Option Nat) (hbpy : bpy ≠ some 0) (seed : Nat) (mv : List K) (s t : S)
    (b : BootResult K)
    (h : evalBootstrap F B R true samples bpy (some seed) mv s = .ok (some b, t)) :
    (∀ v ∈ ends b.profitFactor, ∃ d y, Resampled (barChanges mv) y d ∧
        (((∃ c ∈ y, c ≠ 0) ∧ v = profitFactor F false y) ∨ ((∀ c ∈ y, c = 0) ∧ v = 1))) ∧
      (∀ v ∈ ends b.sharpe, ∃ d y, Resampled (barReturns mv) y d ∧ v = sharpe F y bpy) ∧
      ∃ draws : List (List Nat), (draws.length : Int) = samples ∧
        (∀ d ∈ draws, Resampled (barChanges mv) (resample (barChanges mv) d) d ∧
          Resampled (barReturns mv) (resample (barReturns mv) d) d) ∧
        BoundsOk (draws.map (fun d => maxDrawdown (resample (barChanges mv) d))) b.drawdown.1 ∧
        BoundsOk (draws.map (fun d => (maxDrawdownPct (resample (barReturns mv) d)).1))
          b.drawdown.2 := by
  have h2 : 2 ≤ mv.length := by
    by_contra hc
    rw [(bootstrap_when F B R true samples bpy (some seed) mv s).1 (Or.inr (by omega))] at h
    cases h
  have hs : 0 < samples := by
    by_contra hc
    rw [(bootstrap_when F B R true samples bpy (some seed) mv s).2.1 rfl h2 (by omega)] at h
    cases h
  obtain ⟨e1, e2, e3, _⟩ := bootstrap_separate F B R samples bpy hbpy seed mv s t b h
  have hlen : (barReturns mv).length = (barChanges mv).length := by
    rw [length_barChanges, length_barReturns]
  have hpos : 0 < (barChanges mv).length := by rw [length_barChanges]; omega
  have hne : barChanges mv ≠ [] := List.ne_nil_of_length_pos hpos
  have hne' : barReturns mv ≠ [] := List.ne_nil_of_length_pos (hlen ▸ hpos)
  unfold confProfitFactor at e1
  unfold confSharpeRatio at e2
  unfold confDrawdown at e3
  rw [hlen] at e2
  have hm := drawRows_mem hR hpos samples.toNat (R.seed seed)
  have hn := length_drawRows R (barChanges mv).length samples.toNat (R.seed seed)
  generalize hDD : (drawRows R (barChanges mv).length samples.toNat (R.seed seed)).1 = D at *
  have hD : D ≠ [] := by
    intro h0
    rw [h0] at hn
    simp at hn
    omega
  obtain ⟨pf, f1, g1⟩ := bca_ends F B (profitFactor F true) (jackPf F true) (barChanges mv) D hD hne
  obtain ⟨sh, f2, g2⟩ := bca_ends F B (fun y => sharpe F y none) (jackSharpe F) (barReturns mv) D hD
    hne'
  obtain ⟨cash, pct, f3, g3, g4, _⟩ := drawdown_bounds (barChanges mv) (barReturns mv) D hD hlen.symm hne
  rw [f1] at e1
  rw [f2] at e2
  rw [f3] at e3
  simp only [Option.map_some, Option.some.injEq] at e1 e3
  have res : ∀ d ∈ D, Resampled (barChanges mv) (resample (barChanges mv) d) d ∧
      Resampled (barReturns mv) (resample (barReturns mv) d) d := fun d hd =>
    ⟨resampled_of _ d (hm d hd).1 (hm d hd).2,
      resampled_of _ d ((hm d hd).1.trans hlen.symm) (hlen ▸ (hm d hd).2)⟩
  refine ⟨?_, ?_, D, by omega, res, ?_, ?_⟩
  · have hends : ends b.profitFactor = (ends pf).map F.exp := by
      rw [← e1]
      rfl
    rw [hends]
    intro v hv
    obtain ⟨w, hw, rfl⟩ := List.mem_map.mp hv
    obtain ⟨d, hd, rfl⟩ := g1 w hw
    refine ⟨d, _, (res d hd).1, ?_⟩
    generalize resample (barChanges mv) d = y
    by_cases hy : ∃ c ∈ y, c ≠ 0
    · refine Or.inl ⟨hy, ?_⟩
      rw [profitFactor_formula F true y hy, profitFactor_formula F false y hy]
      unfold Spec.pfFormula
      simp only [if_true, Bool.false_eq_true, if_false]
      apply hexp
      have p1 : 0 ≤ (y.filter (fun v => decide (v > 0))).sum :=
        List.sum_nonneg (fun v hv => by simpa using le_of_lt (of_decide_eq_true (List.mem_filter.mp hv).2))
      have p2 : (y.filter (fun v => decide (v < 0))).sum ≤ 0 :=
        sum_nonpos' _ (fun v hv => by simpa using le_of_lt (of_decide_eq_true (List.mem_filter.mp hv).2))
      have p3 : (0 : K) < 1 / 10 ^ 10 := by positivity
      exact div_pos (by linarith) (by linarith)
    · push Not at hy
      refine Or.inr ⟨hy, ?_⟩
      have hany : ¬ (y.any (fun v => decide (v > 0) || decide (v < 0)) = true) := by
        rw [List.any_eq_true]
        rintro ⟨c, hc, hc0⟩
        rw [hy c hc] at hc0
        simp at hc0
      unfold profitFactor
      rw [if_neg hany]
      exact hexp0
  · intro v hv
    rcases bpy with _ | n
    · simp only [Option.some.injEq] at e2
      rw [← e2] at hv
      obtain ⟨d, hd, rfl⟩ := g2 v hv
      exact ⟨d, _, (res d hd).2, rfl⟩
    · simp only [Option.map_some, Option.some.injEq] at e2
      have hends : ends b.sharpe = (ends sh).map (fun w => w * F.sqrt n) := by
        rw [← e2]
        rfl
      rw [hends] at hv
      obtain ⟨w, hw, rfl⟩ := List.mem_map.mp hv
      obtain ⟨d, hd, rfl⟩ := g2 w hw
      exact ⟨d, _, (res d hd).2, sharpe_scale F _ n⟩
  · rw [← e3]
    exact g3
  · rw [← e3]
    exact g4

/-! ## Where the bootstrap falls short -/

/-- The market value of a run that never changes. -/
theorem barChanges_flat (v : K) : ∀ n : Nat, ∀ c ∈ barChanges (List.replicate n v), c = 0
  | 0, c, h => by cases h
  | 1, c, h => by cases h
  | n + 2, c, h => by
    rw [List.replicate_succ, List.replicate_succ, barChanges, List.mem_cons] at h
    rcases h with rfl | h
    · exact sub_self v
    · rw [← List.replicate_succ] at h
      exact barChanges_flat v (n + 1) c h

/-- **C139** (flat runs).  A run whose market value never changes has the profit factor 0, and every
end of its bootstrapped profit factor is 1: the intervals do not contain the metric. -/
theorem bootstrap_flat_run {S : Type} (F : Fns K) (B : BcaFns K) (R : Rng S) (hR : Draws R)
    (hexp : ∀ v, 0 < v → F.exp (F.log v) = v) (hexp0 : F.exp 0 = 1) (samples : Int)
    (bpy : Option Nat) (hbpy : bpy ≠ some 0) (seed : Nat) (v : K) (n : Nat) (s t : S)
    (b : BootResult K)
    (h : evalBootstrap F B R true samples bpy (some seed) (List.replicate n v) s
      = .ok (some b, t)) :
    profitFactor F false (barChanges (List.replicate n v)) = 0 ∧
      ∀ e ∈ ends b.profitFactor, e = 1 := by
  have hz := barChanges_flat v n
  refine ⟨?_, ?_⟩
  · unfold profitFactor
    rw [if_neg]
    rw [List.any_eq_true]
    rintro ⟨c, hc, h⟩
    rw [hz c hc] at h
    simp at h
  · intro e he
    obtain ⟨d, y, hy, hv⟩ := (bootstrap_ends F B R hR hexp hexp0 samples bpy hbpy seed _ s t b h).1 e he
    rcases hv with ⟨⟨c, hc, hne⟩, _⟩ | ⟨_, h1⟩
    · exfalso
      obtain ⟨j, hj, he⟩ := List.getElem_of_mem hc
      obtain ⟨k, _, hk, hjk⟩ := hy.2.2 j (hy.2.1 ▸ hj)
      rw [List.getElem?_eq_getElem hj, List.getElem?_eq_getElem hk] at hjk
      exact hne (by rw [← he, Option.some.inj hjk]; exact hz _ (List.getElem_mem hk))
    · exact h1

/-- **C139** (labels).  The interval labelled `97.5%` is cut at the levels 0.025 and 0.975, `95%` at
0.05 and 0.95 and `90%` at 0.1 and 0.9: with no bias and no acceleration, an interval at level `q`
leaves out `⌊q (n + 1)⌋ - 1` of the `n` sorted replicates below and as many above, so it holds about
`1 - 2 q` of them, and not the `1 - q` of its label. -/
theorem interval_label [FloorRing K] (F : Fns K) (B : BcaFns K)
    (hint : ∀ v : K, 0 ≤ v → B.toInt v = ⌊v⌋) (hcdf : ∀ p : K, 0 < p → p < 1 → F.cdf (B.inv p) = p)
    (boot : List K) (q : K) (hq : 0 < q) (hq1 : q ≤ 1 / 2)
    (hn : 1 ≤ q * ((boot.length : K) + 1)) (p : K × K)
    (hp : bcaPair F B boot 0 0 q = some p) :
    ∃ k : Nat, (k : Int) = ⌊q * ((boot.length : K) + 1)⌋ - 1 ∧ boot[k]? = some p.1 ∧
      k < boot.length ∧ boot[boot.length - 1 - k]? = some p.2 := by
  have hlev : ∀ r : K, 0 < r → r < 1 → bcaLevel F 0 0 (B.inv r) = r := by
    intro r h0 h1
    unfold bcaLevel
    simp only [zero_add, zero_mul, sub_zero, div_one]
    exact hcdf r h0 h1
  unfold bcaPair at hp
  simp only at hp
  rw [hlev q hq (by linarith), hlev (1 - q) (by linarith) (by linarith),
    show (1 : K) - (1 - q) = q by ring, hint _ (by linarith)] at hp
  have f0 : 1 ≤ ⌊q * ((boot.length : K) + 1)⌋ := by
    rw [Int.le_floor]
    exact_mod_cast hn
  have f1 : ⌊q * ((boot.length : K) + 1)⌋ < (boot.length : Int) + 1 := by
    rw [Int.floor_lt]
    push_cast
    have : (0 : K) ≤ boot.length := by positivity
    nlinarith
  generalize ⌊q * ((boot.length : K) + 1)⌋ = a at *
  have e : bcaClamp (a - 1) boot.length = a - 1 := by
    unfold bcaClamp
    omega
  rw [e] at hp
  have e2 : ((boot.length : Int) - 1 - (a - 1)).toNat = boot.length - 1 - (a - 1).toNat := by omega
  rw [e2] at hp
  refine ⟨(a - 1).toNat, by omega, ?_, by omega, ?_⟩
  · split at hp
    · next h1 h2 => cases hp; exact h1
    · cases hp
  · split at hp
    · next h1 h2 => cases hp; exact h2
    · cases hp

/-- **C139** (labels, a case).  Of 999 replicates the interval labelled `97.5%` leaves out 24 on each
side: it spans 951 of them, 95.2%. -/
theorem interval_label_999 [FloorRing K] (F : Fns K) (B : BcaFns K)
    (hint : ∀ v : K, 0 ≤ v → B.toInt v = ⌊v⌋) (hcdf : ∀ p : K, 0 < p → p < 1 → F.cdf (B.inv p) = p)
    (boot : List K) (hn : boot.length = 999) (p : K × K)
    (hp : bcaPair F B boot 0 0 (25 / 1000) = some p) :
    boot[24]? = some p.1 ∧ boot[974]? = some p.2 := by
  obtain ⟨k, hk, h1, _, h2⟩ := interval_label F B hint hcdf boot (25 / 1000) (by norm_num)
    (by norm_num) (by rw [hn]; norm_num) p hp
  have : ⌊(25 / 1000 : K) * ((boot.length : K) + 1)⌋ = 25 := by
    rw [hn, Int.floor_eq_iff]
    norm_num
  rw [this] at hk
  have hk' : k = 24 := by omega
  rw [hk', hn] at h2
  rw [hk'] at h1
  exact ⟨h1, h2⟩

/-! ## A case -/

namespace Demo

/-- A generator: a counter, read modulo `n`. -/
def counter : Rng Nat where
  seed := fun k => k
  randint := fun s n => (s % n, s + 1)

def bootFns : Fns ℚ where
  log := fun x => x
  sqrt := fun x => x
  exp := fun x => x
  cdf := fun x => x
  toNat := fun _ => 0

def bootBca : BcaFns ℚ where
  inv := fun x => x
  toInt := fun x => ⌊x⌋

end Demo

theorem counter_draws : Draws Demo.counter := fun s n hn => Nat.mod_lt s hn

/-- Four bars, two replicates: a seeded bootstrap, the same from two states; without a seed the
states give different ones. -/
example : (evalBootstrap Demo.bootFns Demo.bootBca Demo.counter true 2 (some 4) (some 7)
      [100, 110, 99, 120] 0).toOption.bind (fun r => r.1.map (fun b => (b.drawdown.1.q10, b.drawdownConf.length)))
    = some (-11, 4) := by decide +kernel

example : drawRows Demo.counter 3 2 (Demo.counter.seed 7) = ([[1, 2, 0], [1, 2, 0]], 13) := by
  decide +kernel

example : drawRows Demo.counter 3 2 0 = ([[0, 1, 2], [0, 1, 2]], 6) := by decide +kernel

/-- The functions of `bootstrap_ends` exist: the real ones. -/
example : (∀ v : ℝ, 0 < v → realFns.exp (realFns.log v) = v) ∧ realFns.exp 0 = 1 :=
  ⟨fun _ h => Real.exp_log h, Real.exp_zero⟩

/-- And so do those of `interval_label`. -/
example : ∀ p : ℚ, 0 < p → p < 1 → Demo.bootFns.cdf (Demo.bootBca.inv p) = p := fun _ _ _ => rfl

end PyBroker
