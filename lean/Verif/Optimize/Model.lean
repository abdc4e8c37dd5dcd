/-
Hyperparameters and the search over them: `/repo/src/pybroker/optimize.py`.

Simplifications, for the whole file: numbers are finite and arithmetic is exact.
A float stands for the decimal number `str` prints for it, which is what the code
computes with (`Decimal(str(x))`); turning a `Decimal` back into a float is an
arbitrary function.  Optuna and joblib are not part of the repository: a grid
sampler is the list of its points, a random sampler the sequence of its draws, a
pool evaluates its tasks and returns their results in order.
-/
import Mathlib.Data.Rat.Floor
import Mathlib.Algebra.Order.Floor.Ring

namespace PyBroker

/-- A number given to `Hyperparam`, by its Python type. -/
inductive HNum
  | int (i : Int)
  | float (q : ℚ)
  | bool (b : Bool)
  | other
  deriving DecidableEq, Repr

/-- The value of an `int` or `float`. -/
def HNum.val : HNum → ℚ
  | .int i => i
  | .float q => q
  | _ => 0

/-- `isinstance(value, bool) or not isinstance(value, (int, float))`, 91. -/
def HNum.bad : HNum → Bool
  | .int _ => false
  | .float _ => false
  | _ => true

def HNum.isInt : HNum → Bool
  | .int _ => true
  | _ => false

def HNum.isFloat : HNum → Bool
  | .float _ => true
  | _ => false

/-- `Hyperparam`, optimize.py:53-82. -/
structure Hyper where
  name : String
  default : HNum
  low : HNum
  high : HNum
  step : HNum
  deriving DecidableEq, Repr

/-- The exceptions raised. -/
inductive HErr
  | type
  | value
  | key
  deriving DecidableEq, Repr

/-- `%` of non-negative decimals. -/
def decMod (a b : ℚ) : ℚ := a - b * ⌊a / b⌋

/-- `Hyperparam.__post_init__`, optimize.py:84-123. -/
def Hyper.check (h : Hyper) : Except HErr Unit :=
  if h.default.bad || h.low.bad || h.high.bad || h.step.bad then .error .type
  else if !(h.default.isInt && h.low.isInt && h.high.isInt && h.step.isInt) &&
      !(h.default.isFloat && h.low.isFloat && h.high.isFloat && h.step.isFloat) then .error .type
  else if h.step.val ≤ 0 then .error .value
  else if h.low.val > h.high.val then .error .value
  else if h.low.val ≠ h.high.val ∧ decMod (h.high.val - h.low.val) h.step.val ≠ 0 then
    .error .value
  else .ok ()

/-- `_lattice_count` and `__len__`, optimize.py:151-163 and 190-191. -/
def Hyper.count (h : Hyper) : Except HErr Int :=
  if h.low.val = h.high.val then .error .type
  else
    match h.low, h.high, h.step with
    | .int l, .int u, .int s => .ok ((u - l) / s + 1)
    | _, _, _ => .ok (⌊(h.high.val - h.low.val) / h.step.val⌋ + 1)

/-- The `while` loops of `_lattice_values`, optimize.py:176-187; `none` is running
out of fuel. -/
def latticeLoop {R : Type} [Add R] [LE R] [DecidableLE R] :
    Nat → R → R → R → Option (List R)
  | 0, _, _, _ => none
  | fuel + 1, val, high, step =>
    if val ≤ high then (latticeLoop fuel (val + step) high step).map (val :: ·)
    else some []

/-- `_lattice_values` and `__iter__`, optimize.py:165-188, with the conversion of a
`Decimal` to a float; `none` is running out of fuel. -/
def Hyper.values (toFloat : ℚ → ℚ) (fuel : Nat) (h : Hyper) : Except HErr (Option (List HNum)) :=
  match h.count with
  | .error e => .error e
  | .ok n =>
    if n = 0 then .error .value
    else
      match h.low, h.high, h.step with
      | .int l, .int u, .int s => .ok ((latticeLoop fuel l u s).map (fun vs => vs.map .int))
      | _, _, _ =>
        .ok ((latticeLoop fuel h.low.val h.high.val h.step.val).map
          (fun vs => vs.map (fun q => .float (toFloat q))))

/-! ## The values of a run -/

/-- A Python `dict` with string keys: its items in insertion order. -/
abbrev SDict (V : Type) := List (String × V)

/-- `d.get(k)`. -/
def SDict.get {V : Type} (d : SDict V) (k : String) : Option V :=
  (d.find? (fun e => e.1 == k)).map (·.2)

/-- `d[k] = v`. -/
def SDict.put {V : Type} : SDict V → String → V → SDict V
  | [], k, v => [(k, v)]
  | (k', v') :: rest, k, v =>
    if k' == k then (k', v) :: rest else (k', v') :: SDict.put rest k v

/-- `build_run_hyperparams`, optimize.py:291-313.  `overrides` without a value is
`None`. -/
def buildRun (specs : SDict Hyper) (overrides : Option (SDict HNum)) : Except HErr (SDict HNum) :=
  (overrides.getD []).foldl
    (fun acc o =>
      match acc with
      | .error e => .error e
      | .ok r => if (specs.get o.1).isNone then .error .value else .ok (SDict.put r o.1 o.2))
    (.ok (specs.map (fun s => (s.1, s.2.default))))

/-- A keyword argument of an indicator: a hyperparameter or another value. -/
inductive HArg (V : Type)
  | hp (h : Hyper)
  | plain (v : V)

/-- A resolved argument. -/
inductive RArg (V : Type)
  | num (n : HNum)
  | plain (v : V)

/-- `_resolve_hyperparams`, optimize.py:231-257. -/
def resolveArgs {V : Type} (params : SDict HNum) : SDict (HArg V) → Except HErr (SDict (RArg V))
  | [] => .ok []
  | (k, a) :: rest =>
    match a with
    | .plain v =>
      match resolveArgs params rest with
      | .error e => .error e
      | .ok out => .ok ((k, .plain v) :: out)
    | .hp h =>
      match params.get h.name with
      | none => .error .key
      | some n =>
        match resolveArgs params rest with
        | .error e => .error e
        | .ok out => .ok ((k, .num n) :: out)

/-- `_search_space_from_specs`, optimize.py:476-481. -/
def searchable (specs : SDict Hyper) : SDict Hyper :=
  specs.filter (fun s => decide (s.2.low.val < s.2.high.val))

/-- `SearchSpace.grid_size`, optimize.py:283-288. -/
def gridSize : SDict Hyper → Except HErr Int
  | [] => .ok 1
  | s :: rest =>
    match s.2.count with
    | .error e => .error e
    | .ok n =>
      match gridSize rest with
      | .error e => .error e
      | .ok m => .ok (n * m)

/-- The candidate lists handed to the grid sampler, optimize.py:597-601; the names
are in the order of `specs` (the code sorts them). -/
def gridLists (toFloat : ℚ → ℚ) (fuel : Nat) : SDict Hyper → Except HErr (Option (SDict (List HNum)))
  | [] => .ok (some [])
  | s :: rest =>
    match s.2.values toFloat fuel with
    | .error e => .error e
    | .ok none => .ok none
    | .ok (some vs) =>
      match gridLists toFloat fuel rest with
      | .error e => .error e
      | .ok none => .ok none
      | .ok (some out) => .ok (some ((s.1, vs) :: out))

/-! ## Running a study -/

/-- A score: a number or something `_is_failed_score` (optimize.py:1076-1090)
reports, such as NaN or `None`. -/
abbrev TrialScore := Option ℚ

/-- A recorded trial: its parameters and its value, `none` for a failed trial. -/
structure Trial (P : Type) where
  params : P
  value : TrialScore
  deriving DecidableEq, Repr

/-- The grid branch of `_run_study` with several workers, optimize.py:977-1017:
`grid` are the sampler's points in the order it visits them. -/
def runGrid {P : Type} (grid : List P) (score : P → TrialScore) (study : List (Trial P))
    (nTrials : Nat) : List (Trial P) :=
  let combos := (grid.drop study.length).take nTrials
  let scores := combos.map score
  study ++ (combos.zip scores).map (fun x => ⟨x.1, x.2⟩)

/-- The batch loop of `_run_study`, optimize.py:1018-1055, for a sampler whose
draws do not depend on the results: `draw k` are the parameters of trial number
`k`.  The stop flag, which random samplers never set, is left out. -/
def runBatches {P : Type} (draw : Nat → P) (score : P → TrialScore) (workers : Nat) :
    Nat → List (Trial P) → Nat → Option (List (Trial P))
  | _, study, 0 => some study
  | 0, _, _ + 1 => none
  | fuel + 1, study, remaining =>
    let size := min workers remaining
    let overrides := (List.range size).map (fun i => draw (study.length + i))
    let scores := overrides.map score
    runBatches draw score workers fuel
      (study ++ (overrides.zip scores).map (fun x => ⟨x.1, x.2⟩)) (remaining - size)

/-- `_resolve_n_trials`, optimize.py:666-675; `grid` is whether the sampler is a
grid sampler. -/
def resolveTrials (nTrials : Option Nat) (grid : Bool) (size : Nat) : Except HErr Nat :=
  match nTrials with
  | some n => .ok n
  | none => if grid then .ok size else .error .value

end PyBroker
