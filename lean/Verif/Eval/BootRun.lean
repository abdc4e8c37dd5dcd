import Verif.Eval.Model

/-!
# The bootstrap of a result

`/repo/src/pybroker/eval.py`: the random state the bootstrap draws from, the pass that resamples
once for every metric, and the tables `evaluate` makes of it.

Simplifications: as in `Verif.Eval.Model`; `bars_per_year` and seeds are not negative.
-/

namespace PyBroker

variable {K : Type} [Field K] [LinearOrder K]

/-- Numba's random state: `np.random.seed(seed)` and `np.random.randint(0, n)` in compiled code,
eval.py:44-66; the generator itself is arbitrary. -/
structure Rng (S : Type) where
  seed : Nat → S
  randint : S → Nat → Nat × S

/-- `for j in range(k): idx[j] = np.random.randint(0, n)`. -/
def drawRow {S : Type} (R : Rng S) (n : Nat) : Nat → S → List Nat × S
  | 0, s => ([], s)
  | k + 1, s =>
    let d := R.randint s n
    let r := drawRow R n k d.2
    (d.1 :: r.1, r.2)

/-- `_fill_bootstrap_row`, eval.py:44-55: it overwrites all of `idx`. -/
def fillRow {S : Type} (R : Rng S) (n : Nat) (s : S) : List Nat × S := drawRow R n n s

/-- The rows drawn by `for i in range(n_boot): _fill_bootstrap_row(idx, n)`. -/
def drawRows {S : Type} (R : Rng S) (n : Nat) : Nat → S → List (List Nat) × S
  | 0, s => ([], s)
  | k + 1, s =>
    let d := fillRow R n s
    let r := drawRows R n k d.2
    (d.1 :: r.1, r.2)

/-- `np.exp` of every end, eval.py:461-468, 1540-1547. -/
def Intervals.exp (F : Fns K) (c : Intervals K) : Intervals K where
  low2p5 := F.exp c.low2p5
  high2p5 := F.exp c.high2p5
  low5 := F.exp c.low5
  high5 := F.exp c.high5
  low10 := F.exp c.low10
  high10 := F.exp c.high10

/-- Every end times `factor`, eval.py:477-486, 735-744. -/
def Intervals.scale (c : Intervals K) (factor : K) : Intervals K where
  low2p5 := c.low2p5 * factor
  high2p5 := c.high2p5 * factor
  low5 := c.low5 * factor
  high5 := c.high5 * factor
  low10 := c.low10 * factor
  high10 := c.high10 * factor

/-- `conf_profit_factor`, eval.py:456-468, with `_bca_boot_conf_pf` 202-225; `none` is the
`ValueError`. -/
def confProfitFactor {S : Type} (F : Fns K) (B : BcaFns K) (R : Rng S) (x : List K) (nBoot : Int)
    (s : S) : Option (Intervals K) :=
  (bcaBootConf F B (profitFactor F true) (jackPf F true) x
    (drawRows R x.length nBoot.toNat s).1).map (Intervals.exp F)

/-- `conf_sharpe_ratio`, eval.py:471-487, with `_bca_boot_conf_sharpe` 228-251. -/
def confSharpeRatio {S : Type} (F : Fns K) (B : BcaFns K) (R : Rng S) (x : List K) (nBoot : Int)
    (obs : Option Nat) (s : S) : Option (Intervals K) :=
  let c := bcaBootConf F B (fun y => sharpe F y none) (jackSharpe F) x
    (drawRows R x.length nBoot.toNat s).1
  match obs with
  | some n => c.map (fun i => i.scale (F.sqrt n))
  | none => c

/-- `drawdown_conf`, eval.py:628-666, with its draws. -/
def confDrawdown {S : Type} (R : Rng S) (changes returns : List K) (nBoot : Int) (s : S) :
    Option (DdConfs K × DdConfs K) :=
  drawdownConf changes returns (drawRows R changes.length nBoot.toNat s).1

/-- The arrays and counters `bootstrap_eval_all` fills, and the random state. -/
structure BootAcc (K S : Type) where
  rng : S
  logPf : List K
  sharpe : List K
  dd : List K
  ddPct : List K
  z0Pf : Nat
  z0Sharpe : Nat

/-- One pass of the loop, eval.py:705-720. -/
def bootPass {S : Type} (F : Fns K) (R : Rng S) (changes returns : List K) (a : BootAcc K S) :
    BootAcc K S :=
  let d := fillRow R changes.length a.rng
  let cs := resample changes d.1
  let rs := resample returns d.1
  let lp := profitFactor F true cs
  let sh := sharpe F rs none
  { rng := d.2
    logPf := a.logPf ++ [lp]
    sharpe := a.sharpe ++ [sh]
    dd := a.dd ++ [maxDrawdown cs]
    ddPct := a.ddPct ++ [(maxDrawdownPct rs).1]
    z0Pf := if lp < profitFactor F true changes then a.z0Pf + 1 else a.z0Pf
    z0Sharpe := if sh < sharpe F returns none then a.z0Sharpe + 1 else a.z0Sharpe }

/-- `for i in range(n_boot)`, eval.py:705-720. -/
def bootLoop {S : Type} (F : Fns K) (R : Rng S) (changes returns : List K) :
    Nat → BootAcc K S → BootAcc K S
  | 0, a => a
  | k + 1, a => bootLoop F R changes returns k (bootPass F R changes returns a)

/-- What the bootstrap can raise, eval.py:678-682. -/
inductive BootErr
  | samples
  | lengths
  | outOfBounds
  deriving DecidableEq

/-- `bootstrap_eval_all`, eval.py:670-746: the intervals of the logarithm of the profit factor, of
the Sharpe ratio, and the drawdowns; with the random state it leaves. -/
def bootstrapEvalAll {S : Type} (F : Fns K) (B : BcaFns K) (R : Rng S) (changes returns : List K)
    (nBoot : Int) (barsPerYear : Nat) (s : S) :
    Except BootErr ((Intervals K × Intervals K × (DdConfs K × DdConfs K)) × S) :=
  if nBoot ≤ 0 then .error .samples
  else if changes.length ≠ returns.length then .error .lengths
  else if changes.length = 0 then
    .ok ((⟨0, 0, 0, 0, 0, 0⟩, ⟨0, 0, 0, 0, 0, 0⟩, ⟨0, 0, 0, 0⟩, ⟨0, 0, 0, 0⟩), s)
  else
    let a := bootLoop F R changes returns nBoot.toNat ⟨s, [], [], [], [], 0, 0⟩
    match bcaIntervals F B a.logPf a.z0Pf (jackPf F true changes),
        bcaIntervals F B a.sharpe a.z0Sharpe (jackSharpe F returns), ddConfs a.dd,
        ddConfs a.ddPct with
    | some pf, some sh, some cash, some pct =>
      .ok ((pf, if barsPerYear > 0 then sh.scale (F.sqrt barsPerYear) else sh, cash, pct), a.rng)
    | _, _, _, _ => .error .outOfBounds

/-- `ConfInterval`, eval.py:1416-1430: a row of the table of intervals. -/
structure ConfRow (K : Type) where
  name : String
  conf : String
  lower : K
  upper : K
  deriving DecidableEq

/-- `BootstrapResult`, eval.py:1260-1290. -/
structure BootResult (K : Type) where
  confIntervals : List (ConfRow K)
  drawdownConf : List (String × K × K)
  profitFactor : Intervals K
  sharpe : Intervals K
  drawdown : DdConfs K × DdConfs K

/-- `_to_conf_intervals`, eval.py:1677-1686. -/
def toConfIntervals (name : String) (c : Intervals K) : List (ConfRow K) :=
  [⟨name, "97.5%", c.low2p5, c.high2p5⟩, ⟨name, "95%", c.low5, c.high5⟩,
    ⟨name, "90%", c.low10, c.high10⟩]

/-- The fields of `DrawdownConfs` in order. -/
def DdConfs.fields (c : DdConfs K) : List K := [c.q001, c.q01, c.q05, c.q10]

/-- `zip(("99.9%", "99%", "95%", "90%"), *dd_metrics)`, eval.py:1554-1558. -/
def drawdownRows (d : DdConfs K × DdConfs K) : List (String × K × K) :=
  ["99.9%", "99%", "95%", "90%"].zip (d.1.fields.zip d.2.fields)

/-- `if seed is not None: _seed_bootstrap(seed)`, eval.py:58-66, 1535-1536. -/
def Rng.start {S : Type} (R : Rng S) (seed : Option Nat) (s : S) : S :=
  match seed with
  | some k => R.seed k
  | none => s

/-- `evaluate`'s bootstrap, eval.py:1474-1484 and 1529-1571: `.ok none` is a result without one. -/
def evalBootstrap {S : Type} (F : Fns K) (B : BcaFns K) (R : Rng S) (calcBootstrap : Bool)
    (samples : Int) (barsPerYear : Option Nat) (seed : Option Nat) (mv : List K) (s : S) :
    Except BootErr (Option (BootResult K) × S) :=
  let returns := barReturns mv
  let changes := barChanges mv
  if mv.length = 0 ∨ returns.length = 0 ∨ changes.length = 0 then .ok (none, s)
  else if !calcBootstrap then .ok (none, s)
  else
    match bootstrapEvalAll F B R changes returns samples (barsPerYear.getD 0) (R.start seed s) with
    | .error e => .error e
    | .ok ((lp, sh, dd), s2) =>
      let pf := lp.exp F
      .ok (some
        { confIntervals := toConfIntervals "Profit Factor" pf ++ toConfIntervals "Sharpe Ratio" sh
          drawdownConf := drawdownRows dd
          profitFactor := pf
          sharpe := sh
          drawdown := dd }, s2)

end PyBroker
