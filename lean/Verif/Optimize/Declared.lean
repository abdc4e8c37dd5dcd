import Verif.Optimize.Collect

/-!
# Declared hyperparameters and global parameters

`/repo/src/pybroker/scope.py` (`param`, `clear_params`, `set_hyperparam`, `get_hyperparam`),
`optimize.py` (`hyperparam`), `strategy.py` (`add_execution`) and `context.py` (`hyperparam`).
-/

namespace PyBroker

/-- What a program can do to hyperparameters, executions and global parameters before a run.
Hyperparameters are Python objects, named by the order in which they were made: two with equal fields
are different objects. -/
inductive HpAct (V : Type) where
  /-- `Hyperparam(...)`, which registers nothing, optimize.py:53-123. -/
  | make (h : Hyper)
  /-- `hyperparam(...)`, optimize.py:194-218. -/
  | declare (h : Hyper)
  /-- `add_execution(..., indicators, models, hyperparams)`. -/
  | attach (inds models : List String) (hps : List Nat)
  /-- `param(name, value)`; no value is `None`. -/
  | setParam (name : String) (value : Option V)
  /-- `param(name)`. -/
  | getParam (name : String)
  /-- `clear_params()`. -/
  | clearParams

/-- The state: the objects made, in order; the registered one of each name (`_hyperparams`); the
executions; the number of the last execution; the global parameters (`_params`). -/
structure HpWorld (V : Type) where
  objects : List Hyper := []
  registered : SDict Nat := []
  execs : List HpExec := []
  lastId : Nat := 0
  params : SDict (Option V) := []

/-- Why an action or a read raises. -/
inductive HpErr where
  /-- The numbers of the hyperparameter are refused. -/
  | check (e : HErr)
  /-- `TypeError`: what is attached is not a `Hyperparam`. -/
  | notHyperparam
  /-- `ValueError`: it was not registered. -/
  | notRegistered
  /-- `ValueError`: another one was registered under its name. -/
  | replaced
  /-- `ValueError`: it is not attached to the execution. -/
  | notAttached
  /-- `KeyError`: the run has no value of it. -/
  | noValue
  deriving DecidableEq

variable {V : Type}

/-- The check of one attached hyperparameter, strategy.py:2472-2483; its name. -/
def HpWorld.attachOne (w : HpWorld V) (i : Nat) : Except HpErr String :=
  match w.objects[i]? with
  | none => .error .notHyperparam
  | some h =>
    match w.registered.get h.name with
    | none => .error .notRegistered
    | some j => if j ≠ i then .error .replaced else .ok h.name

/-- One action and what it answers: the value of a parameter, or nothing.  `add_execution`,
strategy.py:2470-2511, only as far as hyperparameters go; its other checks come first and raise before
anything changes. -/
def HpWorld.act (w : HpWorld V) : HpAct V → Except HpErr (HpWorld V × Option V)
  | .make h =>
    match h.check with
    | .error e => .error (.check e)
    | .ok () => .ok ({ w with objects := w.objects ++ [h] }, none)
  | .declare h =>
    match h.check with
    | .error e => .error (.check e)
    | .ok () => .ok ({ w with objects := w.objects ++ [h],
                              registered := w.registered.put h.name w.objects.length }, none)
  | .attach inds models hps =>
    match hps.mapM w.attachOne with
    | .error e => .error e
    | .ok names => .ok ({ w with lastId := w.lastId + 1,
                                 execs := w.execs ++ [⟨w.lastId + 1, inds, models, names⟩] }, none)
  -- scope.py:344-351
  | .setParam n v => .ok ({ w with params := w.params.put n v }, v)
  | .getParam n => .ok (w, (w.params.get n).join)
  -- scope.py:353-355
  | .clearParams => .ok ({ w with params := [] }, none)

/-- An action of a program: one that raises changes nothing, and the program goes on. -/
def HpWorld.step (w : HpWorld V) (a : HpAct V) : HpWorld V :=
  match w.act a with
  | .error _ => w
  | .ok r => r.1

/-- A program. -/
def HpWorld.program (w : HpWorld V) (acts : List (HpAct V)) : HpWorld V := acts.foldl HpWorld.step w

/-- The hyperparameters by name, as a run finds them: `get_hyperparam`, scope.py:365-369. -/
def HpWorld.hypers (w : HpWorld V) : SDict Hyper :=
  w.registered.filterMap (fun r => (w.objects[r.2]?).map (fun h => (r.1, h)))

/-- `ctx.hyperparam(name)`, context.py:1037-1051. -/
def ctxHyperparam (allowed : List String) (run : SDict HNum) (name : String) : Except HpErr HNum :=
  if name ∉ allowed then .error .notAttached
  else
    match run.get name with
    | none => .error .noValue
    | some v => .ok v

end PyBroker
