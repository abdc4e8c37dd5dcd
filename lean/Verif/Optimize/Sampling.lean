/-
Choosing the candidates of an optimisation: `/repo/src/pybroker/optimize.py`, 508-675 and
906-1052.

Simplifications, for the whole file: Optuna is not part of the repository.  What it does
is a structure `Optuna` of arbitrary functions (drawing a value, seeding a generator,
shuffling a grid); what its documentation promises about them is a hypothesis of the
theorems.  A sampler is a tree of its delegated inner samplers that share nothing; a score
function does not raise.  A search space is the list of its items, in the order in which
Python happens to iterate over the set of its names.
-/
import Verif.Optimize.Model
import Mathlib.Data.List.Sort
import Mathlib.Data.String.Basic

namespace PyBroker

/-- The kind of a sampler: `GridSampler` with the names and the points in the order in
which it visits them (`_param_names` and `_all_grids`, optimize.py:922-923), `RandomSampler`,
or another class. -/
inductive SKind
  | grid (names : List String) (points : List (List HNum))
  | random
  | other (label : String)
  deriving DecidableEq, Repr

/-- A sampler: its kind, the state of its generator if it exposes one (`_rng`,
optimize.py:552), and the samplers it delegates to (`_random_sampler`,
`_independent_sampler` and `_base_sampler`, 560-562). -/
inductive Sampler (G : Type)
  | node (kind : SKind) (rng : Option G) (random indep base : Option (Sampler G))

def Sampler.kind {G : Type} : Sampler G → SKind
  | .node k _ _ _ _ => k

def Sampler.rng {G : Type} : Sampler G → Option G
  | .node _ g _ _ _ => g

/-- The recorded trials of a study, with their values by name. -/
abbrev TrialLog := List (Trial (SDict HNum))

/-- What Optuna does. -/
structure Optuna (G : Type) where
  /-- `np.random.RandomState(seed)` -/
  seeded : Int → G
  /-- `TPESampler(seed=seed)` -/
  tpe : Option Int → Sampler G
  /-- `RandomSampler(seed=seed)` -/
  random : Option Int → Sampler G
  /-- The order in which `GridSampler` visits its points, and the state of its generator. -/
  shuffle : Int → List (List HNum) → List (List HNum)
  gridRng : Int → G
  /-- `sampler.reseed_rng()` -/
  entropy : Sampler G → Sampler G
  /-- `trial.suggest_float` or `trial.suggest_int`: the sampler, the trials so far, the
  values of this trial so far; the name, whether it is a float, low, high and step. -/
  suggest : Sampler G → TrialLog → SDict HNum → String → Bool → HNum → HNum → HNum →
    HNum × Sampler G

/-- The exceptions raised; `fuel` is none of them: the model ran out of steps. -/
inductive SErr
  | value
  | type
  | fuel
  deriving DecidableEq, Repr

/-- `_reseed_sampler`, optimize.py:533-564, with `4 - _depth` for the first argument. -/
def Sampler.reseed {G : Type} (seeded : Int → G) : Nat → Int → Sampler G → Sampler G
  | 0, _, s => s
  | d + 1, seed, .node k g r i b =>
    .node k (g.map (fun _ => seeded seed))
      (r.map (Sampler.reseed seeded d (seed + 1000003 * (0 + 1))))
      (i.map (Sampler.reseed seeded d (seed + 1000003 * (1 + 1))))
      (b.map (Sampler.reseed seeded d (seed + 1000003 * (2 + 1))))

/-- `sorted(search_space.hyperparams)` with the hyperparameters, optimize.py:528-529 and
597-600. -/
def sortedSpace (space : SDict Hyper) : SDict Hyper :=
  space.insertionSort (fun a b => a.1 ≤ b.1)

/-- `itertools.product`, with which `GridSampler` lists its points. -/
def productOf : List (List HNum) → List (List HNum)
  | [] => [[]]
  | vs :: rest => vs.flatMap (fun v => (productOf rest).map (v :: ·))

/-- The `sampler` argument: a name or an instance. -/
inductive SamplerArg (G : Type)
  | name (s : String)
  | inst (s : Sampler G)

section
variable {G : Type} (lib : Optuna G) (toFloat : ℚ → ℚ) (fuel : Nat)

/-- The sampler of `'grid'`, optimize.py:596-603; Optuna takes `seed or 0`. -/
def gridSampler (space : SDict Hyper) (seed : Option Int) : Except SErr (Sampler G) :=
  match gridLists toFloat fuel (sortedSpace space) with
  | .error .type => .error .type
  | .error _ => .error .value
  | .ok none => .error .fuel
  | .ok (some lists) =>
    .ok (.node (.grid (lists.map Prod.fst) (lib.shuffle (seed.getD 0) (productOf (lists.map Prod.snd))))
      (some (lib.gridRng (seed.getD 0))) none none none)

/-- `_build_sampler`, optimize.py:567-612.  The copy of an instance has its state. -/
def buildSampler (arg : SamplerArg G) (space : SDict Hyper) (seed : Option Int) :
    Except SErr (Sampler G) :=
  match arg with
  | .inst s =>
    match seed with
    | some n => .ok (s.reseed lib.seeded 4 n)
    | none => .ok (lib.entropy s)
  | .name s =>
    if s == "grid" then gridSampler lib toFloat fuel space seed
    else if s == "tpe" then .ok (lib.tpe seed)
    else if s == "random" then .ok (lib.random seed)
    else .error .value

/-- `_validate_grid_sampler`, optimize.py:615-629. -/
def validateGrid (s : Sampler G) (space : SDict Hyper) : Except SErr Unit :=
  match s.kind with
  | .grid names _ =>
    if names.any (fun n => !(space.map Prod.fst).contains n) then .error .value else .ok ()
  | _ => .ok ()

/-- `_suggest_from_spec`, optimize.py:508-517. -/
def suggestSpec (hist : TrialLog) (s : Sampler G) (sofar : SDict HNum) (h : Hyper) :
    HNum × Sampler G :=
  if h.default.isFloat then lib.suggest s hist sofar h.name true h.low h.high h.step
  else lib.suggest s hist sofar h.name false h.low h.high h.step

/-- `_trial_params`, optimize.py:520-530, over the sorted names. -/
def trialParams (hist : TrialLog) : SDict Hyper → Sampler G → SDict HNum → SDict HNum × Sampler G
  | [], s, acc => (acc, s)
  | x :: rest, s, acc =>
    trialParams hist rest (suggestSpec lib hist s acc x.2).2
      (acc ++ [(x.1, (suggestSpec lib hist s acc x.2).1)])

/-- `GridSampler` stops a study once all its points have been visited. -/
def Sampler.exhausted (s : Sampler G) (hist : TrialLog) : Bool :=
  match s.kind with
  | .grid _ points => decide (points.length ≤ hist.length)
  | _ => false

/-- `study.optimize(objective, n_trials)` with the objective of `make_objective`,
optimize.py:1171-1172. -/
def seqStudy (score : SDict HNum → TrialScore) (space : SDict Hyper) :
    Nat → Sampler G → TrialLog → TrialLog
  | 0, _, hist => hist
  | n + 1, s, hist =>
    if s.exhausted hist then hist
    else
      seqStudy score space n (trialParams lib hist (sortedSpace space) s []).2
        (hist ++ [⟨(trialParams lib hist (sortedSpace space) s []).1,
          score (trialParams lib hist (sortedSpace space) s []).1⟩])

/-- The trials of a batch: `study.ask()` and `_trial_params`, optimize.py:1022-1025. -/
def askBatch (hist : TrialLog) (space : SDict Hyper) : Nat → Sampler G → List (SDict HNum) × Sampler G
  | 0, s => ([], s)
  | n + 1, s =>
    ((trialParams lib hist (sortedSpace space) s []).1 ::
        (askBatch hist space n (trialParams lib hist (sortedSpace space) s []).2).1,
      (askBatch hist space n (trialParams lib hist (sortedSpace space) s []).2).2)

/-- The batch loop, optimize.py:1018-1052.  A random sampler never sets the stop flag. -/
def batchStudy (score : SDict HNum → TrialScore) (space : SDict Hyper) (workers : Nat) :
    Nat → Nat → Sampler G → TrialLog → Except SErr TrialLog
  | _, 0, _, hist => .ok hist
  | 0, _ + 1, _, _ => .error .fuel
  | steps + 1, remaining, s, hist =>
    batchStudy score space workers steps (remaining - min workers remaining)
      (askBatch lib hist space (min workers remaining) s).2
      (hist ++ (askBatch lib hist space (min workers remaining) s).1.map (fun p => ⟨p, score p⟩))

/-- `_run_study`, optimize.py:930-1052. -/
def runStudy (score : SDict HNum → TrialScore) (space : SDict Hyper) (workers nTrials : Nat)
    (s : Sampler G) (hist : TrialLog) : Except SErr TrialLog :=
  match s.kind with
  | .grid names points =>
    if (space.map Prod.fst).any (fun n => !names.contains n) then .error .value
    else if workers ≤ 1 then .ok (seqStudy lib score space nTrials s hist)
    else .ok (runGrid (points.map names.zip) score hist nTrials)
  | .random =>
    if workers ≤ 1 then .ok (seqStudy lib score space nTrials s hist)
    else batchStudy lib score space workers nTrials nTrials s hist
  | .other _ => .ok (seqStudy lib score space nTrials s hist)

/-- `_resolve_n_trials`, optimize.py:666-675. -/
def budget (nTrials : Option Nat) (s : Sampler G) (space : SDict Hyper) : Except SErr Nat :=
  match nTrials with
  | some n => .ok n
  | none =>
    match s.kind with
    | .grid _ _ =>
      match gridSize space with
      | .ok n => .ok n.toNat
      | .error _ => .error .type
    | _ => .error .value

/-- The search of `optimize` without `windows` and `study`, optimize.py:1830-1845. -/
def searchOnce (score : SDict HNum → TrialScore) (space : SDict Hyper) (workers : Nat)
    (arg : SamplerArg G) (seed : Option Int) (nTrials : Option Nat) : Except SErr TrialLog :=
  match buildSampler lib toFloat fuel arg space seed with
  | .error e => .error e
  | .ok s =>
    match validateGrid s space with
    | .error e => .error e
    | .ok () =>
      match budget nTrials s space with
      | .error e => .error e
      | .ok n => runStudy lib score space workers n s []

/-- The search of `optimize` in a given study, optimize.py:632-649 and 1836-1845: the study's sampler
is used; `norm` is `strip().lower()` and `direction` that of the study. -/
def searchStudy (norm : String → String) (score : SDict HNum → TrialScore) (space : SDict Hyper)
    (workers : Nat) (s : Sampler G) (direction : String) (hist : TrialLog) (asked : String)
    (nTrials : Option Nat) : Except SErr TrialLog :=
  if norm asked ≠ "minimize" ∧ norm asked ≠ "maximize" then .error .value
  else if norm direction ≠ norm asked then .error .value
  else
    match validateGrid s space with
    | .error e => .error e
    | .ok () =>
      match budget nTrials s space with
      | .error e => .error e
      | .ok n => runStudy lib score space workers n s hist

/-- The studies of the windows from number `k` on, optimize.py:2049-2146: each builds its
own sampler, with the seed plus the number of the window (2046-2047); `score` and `workers`
are those of a window. -/
def windowStudies (score : Nat → SDict HNum → TrialScore) (space : SDict Hyper)
    (workers : Nat → Nat) (arg : SamplerArg G) (seed : Option Int) (n : Nat) :
    Nat → Nat → Except SErr (List TrialLog)
  | _, 0 => .ok []
  | k, m + 1 =>
    match buildSampler lib toFloat fuel arg space (seed.map (· + k)) with
    | .error e => .error e
    | .ok s =>
      match runStudy lib (score k) space (workers k) n s [] with
      | .error e => .error e
      | .ok log =>
        match windowStudies score space workers arg seed n (k + 1) m with
        | .error e => .error e
        | .ok logs => .ok (log :: logs)

/-- The searches of `optimize` with `windows`, optimize.py:2030-2177: the number of trials
comes from a sampler that is thrown away. -/
def searchWindows (score : Nat → SDict HNum → TrialScore) (space : SDict Hyper)
    (workers : Nat → Nat) (arg : SamplerArg G) (seed : Option Int) (nTrials : Option Nat)
    (windows : Nat) : Except SErr (List TrialLog) :=
  match buildSampler lib toFloat fuel arg space seed with
  | .error e => .error e
  | .ok s =>
    match validateGrid s space with
    | .error e => .error e
    | .ok () =>
      match budget nTrials s space with
      | .error e => .error e
      | .ok n => windowStudies lib toFloat fuel score space workers arg seed n 0 windows

end

end PyBroker
