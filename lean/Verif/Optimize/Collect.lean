import Verif.Optimize.Model
import Verif.Scope.Interval
import Mathlib.Data.List.Sort
import Mathlib.Data.String.Basic

/-!
# The hyperparameters of a run

`/repo/src/pybroker/optimize.py`, `collect_hyperparams`.
-/

namespace PyBroker

/-- What is registered in the `StaticScope`, as far as `collect_hyperparams` reads it: the
hyperparameters, the arguments of each indicator, and for each model its indicators and its
arguments.  Names map to the last one registered (optimize.py:194-218, scope.py:180-220, 357-370). -/
structure HpScope (V : Type) where
  hypers : SDict Hyper
  inds : SDict (SDict (HArg V))
  models : SDict (List String × SDict (HArg V))

/-- An execution, strategy.py:607-641; names of indicators and models may carry an interval. -/
structure HpExec where
  id : Nat
  inds : List String
  models : List String
  hps : List String
  deriving DecidableEq, Repr

inductive CollectErr where
  | noHyperparam
  | noIndicator
  | noModel
  | modelArgs
  deriving DecidableEq, Repr

/-- The registered name, `parse_indicator_interval_name(name)[0]`. -/
def baseName (name : String) : String := String.ofList (parseName name.toList).1

/-- `_find_hyperparam_names`, optimize.py:225-228. -/
def hyperNames {V : Type} (args : SDict (HArg V)) : List String :=
  args.filterMap (fun a => match a.2 with | .hp h => some h.name | .plain _ => none)

variable {V : Type}

/-- Adding a name, optimize.py:409-415, 425-430, 448-452.  The set of names is the keys of the
result. -/
def HpScope.need (s : HpScope V) (acc : SDict Hyper) (name : String) :
    Except CollectErr (SDict Hyper) :=
  match s.hypers.get name with
  | none => .error .noHyperparam
  | some h => .ok (acc.put name h)

/-- `add_indicator_hyperparams`, optimize.py:417-430. -/
def HpScope.needInd (s : HpScope V) (acc : SDict Hyper) (ind : String) :
    Except CollectErr (SDict Hyper) :=
  match s.inds.get (baseName ind) with
  | none => .error .noIndicator
  | some args => (hyperNames args).foldlM s.need acc

/-- The indicators of a model, optimize.py:442-445. -/
def HpScope.needModel (s : HpScope V) (acc : SDict Hyper) (model : String) :
    Except CollectErr (SDict Hyper) :=
  match s.models.get (baseName model) with
  | none => .error .noModel
  | some src => src.1.foldlM s.needInd acc

/-- The arguments of a model, optimize.py:453-460. -/
def HpScope.checkModel (s : HpScope V) (acc : SDict Hyper) (model : String) :
    Except CollectErr (SDict Hyper) :=
  match s.models.get (baseName model) with
  | none => .error .noModel
  | some src => if hyperNames src.2 ≠ [] then .error .modelArgs else .ok acc

/-- One execution, optimize.py:434-460. -/
def HpScope.collectExec (s : HpScope V) (acc : SDict Hyper) (e : HpExec) :
    Except CollectErr (SDict Hyper) := do
  let acc ← (e.inds.insertionSort (· ≤ ·)).foldlM s.needInd acc
  let acc ← (e.models.insertionSort (· ≤ ·)).foldlM s.needModel acc
  let acc ← (e.hps.insertionSort (· ≤ ·)).foldlM s.need acc
  (e.models.insertionSort (· ≤ ·)).foldlM s.checkModel acc

/-- `collect_hyperparams`, optimize.py:398-473, without the warnings.  `settings` are the names of the
hyperparameters among `max_long_positions`, `max_short_positions` and `worst_rank_held`.  The last
check (470) never fails: names and specs get the same keys. -/
def HpScope.collect (s : HpScope V) (settings : List String) (execs : List HpExec) :
    Except CollectErr (SDict Hyper) := do
  let acc ← settings.foldlM s.need []
  (execs.insertionSort (fun a b => a.id ≤ b.id)).foldlM s.collectExec acc

/-- The name under which an indicator of a model is computed, strategy.py:3375-3388: on the interval
of the model, if it has one. -/
def onInterval (model ind : String) : String :=
  match (parseName model.toList).2 with
  | none => ind
  | some iv => boundName ind iv

/-- The indicators computed for a run, `_indicator_syms`, strategy.py:3360-3391, without the symbols:
those of the executions and those of their models. -/
def HpScope.computed (s : HpScope V) (execs : List HpExec) : List String :=
  execs.flatMap (fun e => e.inds ++ e.models.flatMap (fun m =>
    match s.models.get (baseName m) with
    | none => []
    | some src => src.1.map (onInterval m)))

end PyBroker
