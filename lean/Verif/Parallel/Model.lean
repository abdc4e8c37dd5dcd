import Mathlib.Data.Rat.Defs
import Mathlib.Data.List.Dedup

/-!
# Work in several processes or threads

`/repo/src/pybroker/parallel.py`, `run_with_scope` and `StaticScope.__getstate__` of
`/repo/src/pybroker/scope.py`, `Logger._suppress` of `/repo/src/pybroker/log.py`, and the five
places that hand work to a pool: `_run_indicators` (indicator.py:618-629),
`_run_model_trainers` (model.py:2325-2344), `_run_study` (optimize.py:992-1019 and 1026-1050) and
`walkforward_optimize` (optimize.py:2170-2183).

`joblib` is not part of the repository.  A pool runs every task once, on some worker, in some
order (a schedule); `return_as` says how it hands the results over.  When tasks raise, the pool
raises the error of the first of them to finish.  A task is one step of its worker: with threads,
tasks that write the scope they share at the same time are not modelled.
-/

namespace PyBroker.Par

/-! ## The configuration -/

/-- `return_as` of a `joblib.Parallel`. -/
inductive ReturnAs
  | list | generator | unordered
  deriving DecidableEq, Repr

/-- A `joblib.Parallel`: its jobs and how it returns results. -/
structure Pool where
  nJobs : Option Int
  returnAs : ReturnAs := .list
  deriving DecidableEq, Repr

/-- `ParallelConfig`, parallel.py:19-45. -/
structure PConfig where
  nJobs : Option Int := some (-1)
  backend : Option String := some "loky"
  parallel : Option Pool := none
  deriving DecidableEq, Repr

/-- The arguments of a call of `set_parallel`. -/
structure Call where
  nJobs : Option Int := none
  backend : Option String := none
  parallel : Option Pool := none
  deriving DecidableEq, Repr

/-- The errors of `set_parallel`. -/
inductive PErr
  | exclusive | order | multiprocessing | unknownBackend
  deriving DecidableEq, Repr

/-- `set_parallel`, parallel.py:51-124.  `registered` are the backends joblib knows. -/
def setParallel (registered : List String) (cfg : PConfig) (c : Call) : Except PErr PConfig :=
  match c.parallel with
  | some p =>
    if c.nJobs.isSome || c.backend.isSome then .error .exclusive
    else if p.returnAs = .unordered then .error .order
    else .ok { parallel := some p }
  | none =>
    match c.backend with
    | some b =>
      if b = "multiprocessing" then .error .multiprocessing
      else if b ∉ registered then .error .unknownBackend
      else .ok { nJobs := if c.nJobs.isNone then cfg.nJobs else c.nJobs
                 backend := some b
                 parallel := none }
    | none =>
      .ok { nJobs := if c.nJobs.isNone then cfg.nJobs else c.nJobs
            backend := cfg.backend
            parallel := none }

/-- The configuration after a call: a call that raises leaves it as it is. -/
def afterCall (registered : List String) (cfg : PConfig) (c : Call) : PConfig :=
  match setParallel registered cfg c with
  | .ok cfg' => cfg'
  | .error _ => cfg

/-- The configuration of a process after some calls of `set_parallel`, parallel.py:48. -/
def afterCalls (registered : List String) (cs : List Call) : PConfig :=
  cs.foldl (afterCall registered) {}

/-- `parallel()`, parallel.py:156-173: the pool for the work at hand; `nested`: this is a worker
(`_is_nested`, 176-183). -/
def poolOf (nested : Bool) (cfg : PConfig) : Pool :=
  if nested then { nJobs := some 1 }
  else
    match cfg.parallel with
    | some p => p
    | none => { nJobs := cfg.nJobs }

/-- `_effective_n_jobs`, parallel.py:186-199; `eff` is `joblib.effective_n_jobs`. -/
def effectiveJobs (eff : Option Int → Int) (nested : Bool) (cfg : PConfig) : Int :=
  if nested then 1
  else
    max 1 (eff (match cfg.parallel with
      | some p => p.nJobs
      | none => cfg.nJobs))

/-! ## Scopes and workers -/

/-- A `StaticScope`: what is registered in it (indicators, model sources, params, columns, …) and
the open caches. -/
structure Scope (R C : Type) where
  reg : R
  caches : Option C := none
  deriving DecidableEq, Repr

/-- `StaticScope.__getstate__`, scope.py:375-384: a scope on its way to another process. -/
def pickle {R C : Type} (s : Scope R C) : Scope R C := { s with caches := none }

section
variable {R C A B E : Type}

/-- A task: it reads the installed scope, and may write it or raise. -/
abbrev Task (R C A B E : Type) := Scope R C → A → Scope R C × Except E B

/-- `StaticScope.set_instance`, scope.py:394-404: the scope of a worker, whatever it was. -/
def setInstance (_installed : Option (Scope R C)) (scope : Scope R C) : Scope R C := scope

/-- `run_with_scope`, scope.py:407-420, on a worker with a scope of its own, if any. -/
def runWithScope (installed : Option (Scope R C)) (scope : Scope R C) (task : Task R C A B E) (a : A) :
    Scope R C × Except E B :=
  task (setInstance installed scope) a

/-- The state of a pool of processes: the scopes of its workers and the results, in the order in
which the tasks finished. -/
structure Procs (R C B E : Type) where
  scopes : Nat → Option (Scope R C)
  done : List (Nat × Except E B) := []

/-- A worker process runs a task with the scope it was sent. -/
def procStep (scope : Scope R C) (task : Task R C A B E) (tasks : List A) (s : Procs R C B E)
    (ev : Nat × Nat) : Procs R C B E :=
  match tasks[ev.2]? with
  | none => s
  | some a =>
    let r := runWithScope (s.scopes ev.1) (pickle scope) task a
    { scopes := Function.update s.scopes ev.1 (some r.1)
      done := s.done ++ [(ev.2, r.2)] }

/-- The state of a pool of threads: the scope they share. -/
structure Threads (R C B E : Type) where
  scope : Scope R C
  done : List (Nat × Except E B) := []

/-- A thread runs a task with the scope of its process: the one it was sent. -/
def threadStep (task : Task R C A B E) (tasks : List A) (s : Threads R C B E) (i : Nat) :
    Threads R C B E :=
  match tasks[i]? with
  | none => s
  | some a =>
    let r := runWithScope (some s.scope) s.scope task a
    { scope := r.1
      done := s.done ++ [(i, r.2)] }

/-- The first error among results. -/
def firstError : List (Nat × Except E B) → Option E
  | [] => none
  | (_, .error e) :: _ => some e
  | (_, .ok _) :: rest => firstError rest

/-- The value of a task among results. -/
def valueOf (done : List (Nat × Except E B)) (i : Nat) : Option B :=
  match done.find? (fun x => x.1 = i) with
  | some (_, .ok b) => some b
  | _ => none

/-- What a pool returns: a list, or a generator of the same values. -/
inductive Out (B : Type)
  | list (l : List B)
  | generator (l : List B)
  deriving DecidableEq, Repr

/-- The call of a pool, when its tasks have finished. -/
def collect (r : ReturnAs) (n : Nat) (done : List (Nat × Except E B)) : Except E (Out B) :=
  match firstError done with
  | some e => .error e
  | none =>
    match r with
    | .list => .ok (.list ((List.range n).filterMap (valueOf done)))
    | .generator => .ok (.generator ((List.range n).filterMap (valueOf done)))
    | .unordered => .ok (.generator ((done.map Prod.fst).filterMap (valueOf done)))

/-- Where the tasks run. -/
inductive Workers
  | processes | threads
  deriving DecidableEq, Repr

/-- A pool at work: `scopes` is what is left in its worker processes, `schedule` which worker
finishes which task, in time. -/
def dispatch (kind : Workers) (p : Pool) (scope : Scope R C) (task : Task R C A B E) (tasks : List A)
    (scopes : Nat → Option (Scope R C)) (schedule : List (Nat × Nat)) : Except E (Out B) :=
  match kind with
  | .processes =>
    collect p.returnAs tasks.length (schedule.foldl (procStep scope task tasks) { scopes := scopes }).done
  | .threads =>
    collect p.returnAs tasks.length
      ((schedule.map Prod.snd).foldl (threadStep task tasks) { scope := scope }).done

/-- The tasks one after the other in this process: the scope and the values, up to the first
error. -/
def inTurn (task : Task R C A B E) : Scope R C → List A → Except E (List B)
  | _, [] => .ok []
  | s, a :: rest =>
    match task s a with
    | (_, .error e) => .error e
    | (s', .ok b) =>
      match inTurn task s' rest with
      | .error e => .error e
      | .ok l => .ok (b :: l)

end

/-! ## The places that use a pool -/

/-- Iterating over what a pool returned. -/
def Out.iter {B : Type} : Out B → List B
  | .list l => l
  | .generator l => l

/-- The errors of a place that uses a pool: that of a task, or Python's. -/
inductive SiteErr (E : Type)
  | task (e : E)
  | notSubscriptable
  | empty
  deriving DecidableEq, Repr

section
variable {R C A B E : Type}

/-- What the caller's process is like while it hands out work. -/
structure Site (R C : Type) where
  cfg : PConfig
  nested : Bool := false
  jobs : Int
  kind : Workers := .processes
  scope : Scope R C
  scopes : Nat → Option (Scope R C) := fun _ => none
  schedule : List (Nat × Nat)

/-- The call of `parallel()`'s pool. -/
def Site.pool (x : Site R C) (task : Task R C A B E) (tasks : List A) : Except (SiteErr E) (Out B) :=
  match dispatch x.kind (poolOf x.nested x.cfg) x.scope task tasks x.scopes x.schedule with
  | .error e => .error (.task e)
  | .ok o => .ok o

/-- The loop in the caller's process. -/
def Site.loop (x : Site R C) (task : Task R C A B E) (tasks : List A) : Except (SiteErr E) (List B) :=
  match inTurn task x.scope tasks with
  | .error e => .error (.task e)
  | .ok l => .ok l

/-- `_run_model_trainers`, model.py:2325-2344, with the `zip` of tasks and results in `train_models`. -/
def Site.trainers (x : Site R C) (parallelModels : Bool) (task : Task R C A B E) (tasks : List A) :
    Except (SiteErr E) (List (A × B)) :=
  if parallelModels && decide (tasks.length > 1) && decide (x.jobs > 1) then
    (x.pool task tasks).map (fun o => tasks.zip o.iter)
  else (x.loop task tasks).map (fun l => tasks.zip l)

/-- `_run_indicators`, indicator.py:576-629: a batch of series for each symbol. -/
def Site.indicators (x : Site R C) (parallelIndicators : Bool) (task : Task R C A (List B) E)
    (symbols : List A) : Except (SiteErr E) (List B) :=
  if !parallelIndicators || decide (symbols.length = 1) then
    (x.loop task symbols).map List.flatten
  else (x.pool task symbols).map (fun o => o.iter.flatten)

/-- The trials of `_run_study`, optimize.py:992-1019 and 1026-1050: each point with its score. -/
def Site.trials (x : Site R C) (task : Task R C A B E) (points : List A) :
    Except (SiteErr E) (List (A × B)) :=
  if x.jobs ≤ 1 then (x.loop task points).map (fun l => points.zip l)
  else (x.pool task points).map (fun o => points.zip o.iter)

/-- The windows of `walkforward_optimize`, optimize.py:2170-2190: `window_results[0]` is read
first. -/
def Site.windows (x : Site R C) (task : Task R C A B E) (windows : List A) :
    Except (SiteErr E) (B × List B) :=
  match x.pool task windows with
  | .error e => .error e
  | .ok (.generator _) => .error .notSubscriptable
  | .ok (.list []) => .error .empty
  | .ok (.list (b :: l)) => .ok (b, b :: l)

end

/-! ## Suppressed logging -/

/-- A `Logger`, log.py:30-110: the flag of `disable` and `enable`, and for each thread the count
of `_suppress_local` and the values of `previous` of its open contexts. -/
structure Log where
  disabled : Bool := false
  count : Nat → Nat := fun _ => 0
  previous : Nat → List Nat := fun _ => []

/-- What threads do with a `Logger`. -/
inductive LogOp
  | enter (t : Nat)
  | exit (t : Nat)
  | disable
  | enable
  deriving DecidableEq, Repr

/-- `disable`, `enable` (log.py:84-90) and the two halves of `_suppress` (92-107). -/
def logStep (l : Log) : LogOp → Log
  | .disable => { l with disabled := true }
  | .enable => { l with disabled := false }
  | .enter t =>
    { l with
      count := Function.update l.count t (l.count t + 1)
      previous := Function.update l.previous t (l.count t :: l.previous t) }
  | .exit t =>
    match l.previous t with
    | [] => l
    | n :: rest =>
      { l with
        count := Function.update l.count t n
        previous := Function.update l.previous t rest }

/-- `_is_disabled`, log.py:109-110, in a thread. -/
def Log.isDisabled (l : Log) (t : Nat) : Bool := l.disabled || decide (l.count t > 0)

end PyBroker.Par
