import Verif.Indicator.Model

/-!
# The indicators of an optimisation

`/repo/src/pybroker/optimize.py`: the indicators without hyperparameters are computed once for a
window, the others for each trial; `/repo/src/pybroker/strategy.py`, `_indicator_syms`.

The backtests of the trials are not part of this file.  A failing trial ends the optimisation.
-/

namespace PyBroker

/-- An execution, as far as its indicators go, strategy.py:607-641. -/
structure IndExec where
  symbols : List Sym
  inds : List Str
  models : List Str

/-- The name under which a model's indicator is computed, strategy.py:3378-3387. -/
def modelIndName (model ind : Str) : Str :=
  match (parseName model).2 with
  | none => ind
  | some iv => (intervalName ind iv).getD []

/-- `_indicator_syms`, strategy.py:3360-3390; `modelInds` are the indicators registered for a model
(its name without interval). -/
def indSyms (modelInds : Str → List Str) (execs : List IndExec) : List IndSym :=
  (execs.flatMap (fun e => e.symbols.flatMap (fun s =>
    (e.models.flatMap (fun m =>
      (modelInds (parseName m).1).map (fun i => ⟨modelIndName m i, s⟩))) ++
    e.inds.map (fun i => ⟨i, s⟩)))).dedup

/-- `_partition_indicator_syms`, optimize.py:1457-1478: the pairs without and with
hyperparameters. -/
def splitTuned {V : Type} (reg : IndReg V) : List IndSym → Except IErr (List IndSym × List IndSym)
  | [] => .ok ([], [])
  | p :: rest =>
    match reg.ind (parseName p.name).1 with
    | none => .error .notRegistered
    | some d =>
      match splitTuned reg rest with
      | .error e => .error e
      | .ok (invariant, tuned) =>
        if d.hyperNames ≠ [] then .ok (invariant, p :: tuned) else .ok (p :: invariant, tuned)

/-- `{**a, **b}`. -/
def mergeInds (a b : List (IndSym × Series)) : List (IndSym × Series) :=
  b.foldl (fun out e => assocPut out e.1 e.2) a

/-- `_compute_invariant_indicators`, optimize.py:1480-1500. -/
def invariantInds {V : Type} (reg : IndReg V) (x : IndData) (f : DateFields) (syms : List IndSym)
    (st : IndState) : Except IErr (List (IndSym × Series) × IndState) :=
  match splitTuned reg syms with
  | .error e => .error e
  | .ok (invariant, _) =>
    if invariant = [] then .ok ([], st)
    else computeIndicators reg x invariant (some f) none st

/-- The tuned indicators for some values, optimize.py:1362-1375, 1783-1798, 1909-1923. -/
def tunedInds {V : Type} (reg : IndReg V) (x : IndData) (fields : Option DateFields)
    (syms : List IndSym) (values : SDict HNum) (st : IndState) :
    Except IErr (List (IndSym × Series) × IndState) :=
  match splitTuned reg syms with
  | .error e => .error e
  | .ok (_, tuned) =>
    if tuned = [] then .ok ([], st)
    else computeIndicators reg x tuned fields (some values) st

/-- The indicators of a trial or of a test: `{**invariant_indicator_data, **trial_indicators}`,
optimize.py:1362-1376, 1909-1924. -/
def trialInds {V : Type} (reg : IndReg V) (x : IndData) (fields : Option DateFields)
    (syms : List IndSym) (inv : List (IndSym × Series)) (values : SDict HNum) (st : IndState) :
    Except IErr (List (IndSym × Series) × IndState) :=
  match tunedInds reg x fields syms values st with
  | .error e => .error e
  | .ok (tuned, st') => .ok (mergeInds inv tuned, st')

/-- The trials one after the other; they are not entered in the indicator cache
(`cache_date_fields=None`, optimize.py:1365). -/
def runTrials {V : Type} (reg : IndReg V) (x : IndData) (syms : List IndSym)
    (inv : List (IndSym × Series)) :
    List (SDict HNum) → IndState → Except IErr (List (List (IndSym × Series)) × IndState)
  | [], st => .ok ([], st)
  | v :: vs, st =>
    match trialInds reg x none syms inv v st with
    | .error e => .error e
    | .ok (d, st1) =>
      match runTrials reg x syms inv vs st1 with
      | .error e => .error e
      | .ok (ds, st2) => .ok (d :: ds, st2)

/-- What a window of an optimisation computes: the indicators with which models are loaded, those of
each trial and those of the test. -/
structure TunedWindow where
  loaded : List (IndSym × Series)
  trials : List (List (IndSym × Series))
  test : List (IndSym × Series)

/-- The indicators that models are loaded with, optimize.py:1780-1798: `{**invariant_data,
**load_indicators}`; without models only the first. -/
def loadInds {V : Type} (reg : IndReg V) (x : IndData) (f : DateFields) (syms : List IndSym)
    (inv : List (IndSym × Series)) (needsModels : Bool) (defaults : SDict HNum) (st : IndState) :
    Except IErr (List (IndSym × Series) × IndState) :=
  if needsModels then trialInds reg x (some f) syms inv defaults st else .ok (inv, st)

/-- A single split, optimize.py:1771-1866, and `_run_optimize_test` 1905-1924; a window of a
walkforward up to the test, 2075-2130. -/
def tuneWindow {V : Type} (reg : IndReg V) (x : IndData) (f : DateFields) (syms : List IndSym)
    (needsModels : Bool) (defaults : SDict HNum) (values : List (SDict HNum)) (best : SDict HNum)
    (st : IndState) : Except IErr (TunedWindow × IndState) :=
  match invariantInds reg x f syms st with
  | .error e => .error e
  | .ok (inv, st1) =>
    match loadInds reg x f syms inv needsModels defaults st1 with
    | .error e => .error e
    | .ok (loaded, st2) =>
      match runTrials reg x syms inv values st2 with
      | .error e => .error e
      | .ok (trials, st3) =>
        match trialInds reg x (some f) syms inv best st3 with
        | .error e => .error e
        | .ok (test, st4) => .ok (⟨loaded, trials, test⟩, st4)

/-- The window replayed with its values, optimize.py:2240-2257: the invariant ones and all of
them. -/
def replayInds {V : Type} (reg : IndReg V) (x : IndData) (f : DateFields) (syms : List IndSym)
    (best : SDict HNum) (st : IndState) : Except IErr (List (IndSym × Series) × IndState) :=
  match invariantInds reg x f syms st with
  | .error e => .error e
  | .ok (inv, st1) =>
    match computeIndicators reg x syms (some f) (some best) st1 with
    | .error e => .error e
    | .ok (all, st2) => .ok (mergeInds inv all, st2)

end PyBroker
