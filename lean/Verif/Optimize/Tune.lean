import Verif.Backtest.Drive
import Verif.Optimize.Model

/-!
# Optimizing a strategy

`OptimizeMixin.optimize` with a single split, `_optimize_walkforward`, `_run_optimize_trial` and
`_run_optimize_test` of `/repo/src/pybroker/optimize.py`, and `_resolve_backtest_settings` of
`/repo/src/pybroker/strategy.py`.

`P` is the type of hyperparameter values of a trial.  Optuna is not part of the repository: a
sampler gives the values of the next trial from those recorded so far, or stops; the best trial
of a study is the first with the best value, as its in-memory storage has it.  Workers do not
change what is searched (`Verif/Props/Optimize.lean`), so trials are run in turn here.  Scores
are finite.  As in `Verif/Backtest/Drive.lean` user code is an arbitrary function, now also of the
values it is given and of those of the windows replayed before (which its sessions may have
kept); state that it keeps elsewhere, indicators and models are left out.
-/

namespace PyBroker

/-- What is raised: by a run, by the split or a selector, by `_resolve_backtest_settings`, or by
`_require_completed_trials` (optimize.py:722-736); `empty`: `window_results[0]` of no windows. -/
inductive TuneErr
  | run (e : RunErr)
  | settings
  | noTrials
  | empty
  deriving DecidableEq, Repr

/-- `BacktestSettings`, strategy.py:2078-2082, before its numbers are checked: the values of
`set_max_long_positions`, `set_max_short_positions` and `enable_rotation` under the
hyperparameter values of a run. -/
structure OwnSettings where
  maxLong : Option Int := none
  maxShort : Option Int := none
  worst : Option Int := none
  deriving DecidableEq, Repr

/-- `_validate_worst_rank_held`, strategy.py:275-297: whether nothing is raised. -/
def worstOk (worst : Int) (maxLong maxShort : Option Int) : Bool :=
  if maxLong = none ∧ maxShort = none then false
  else if maxLong.any (fun m => worst < m) then false
  else !(maxShort.any (fun m => worst < m))

/-- A limit, strategy.py:2047-2065: the strategy's own, or that of the configuration. -/
def ownLimit (conf own : Option Int) : Option Int :=
  match conf with
  | none => own
  | some c =>
    match own with
    | some m => some m
    | none => some c

/-- `_resolve_backtest_settings`, strategy.py:2034-2082: the strategy's own limits come before
those of the configuration. -/
def resolveSettings (sizer : Bool) (conf : Option Int × Option Int) (own : OwnSettings) :
    Option OwnSettings :=
  let maxLong := ownLimit conf.1 own.maxLong
  let maxShort := ownLimit conf.2 own.maxShort
  if maxLong.any (fun m => m ≤ 0) then none
  else if maxShort.any (fun m => m ≤ 0) then none
  else if sizer && own.worst.isNone then none
  else if own.worst.any (fun w => !worstOk w maxLong maxShort) then none
  else some ⟨maxLong, maxShort, own.worst⟩

/-- What `optimize` is given.  `base` has the frame and the settings that do not depend on
hyperparameters; its functions are not used, and the limits of its configuration are those of
`StrategyConfig`.  `next k` is the sampler of window `k`, which is seeded by `k`. -/
structure Tuning (P : Type) where
  base : RunSetup
  sizer : Bool := false
  own : P → OwnSettings := fun _ => {}
  act : List P → P → Nat → Date → (Sym → Option SymArrays) → Loop → List Sym →
    List UserOp × (Sym → Option ExecResult)
  orderSlip : List P → P → Nat → Date → Option SlipModel := fun _ _ _ _ => none
  exitSlip : List P → P → Nat → Date → Option SlipFn := fun _ _ _ _ => none
  score : List DRow → Portfolio → TrialScore
  maximize : Bool := true
  trials : Nat
  next : Nat → List (Trial P) → Option P

/-- What a window's study gives: `WindowOptimizeResult`, optimize.py:2157-2176. -/
structure Tuned (P : Type) where
  params : P
  score : ℚ
  trials : List (Trial P)

namespace Tuning

variable {P : Type}

/-- The settings of a run with these values. -/
def settings (T : Tuning P) (p : P) : Option OwnSettings :=
  resolveSettings T.sizer (T.base.cfg.maxLong.map Int.ofNat, T.base.cfg.maxShort.map Int.ofNat)
    (T.own p)

/-- A run with these values, after windows replayed with the values `hist`: the effective
configuration (strategy.py:2084-2089) has the limits of the settings.  `walkforward_split` is
not asked to shuffle. -/
def setup (T : Tuning P) (hist : List P) (p : P) : RunSetup :=
  { T.base with
    cfg := match T.settings p with
      | none => T.base.cfg
      | some s => { T.base.cfg with
          maxLong := s.maxLong.map Int.toNat, maxShort := s.maxShort.map Int.toNat }
    act := T.act hist p
    orderSlip := T.orderSlip hist p
    exitSlip := T.exitSlip hist p
    shuffle := id }

end Tuning

/-- `backtest_executions` on given rows with a new portfolio, optimize.py:1375-1433 (a trial, on
training rows) and 1915-1983 (the test of a single split).  Last bars are those of the given
rows; the dates of the whole frame (`master_col_scope`) are used to date orders. -/
def RunSetup.runOn (x : RunSetup) (k : Nat) (selected : List Sym) (rows : List Nat) :
    Except RunErr RunSetup.State :=
  let store := (storeOf x.cols x.rows).slice (datesOfRows x.dates rows)
  let w := { x.window k selected ⟨[], rows⟩ store with boundary := none }
  RunSetup.each
    (({ x with rows := x.rowsAt rows } : RunSetup).bar k w store store.uniqueDates
      (symExecDates store selected))
    { loop := { pf := Portfolio.init x.cfg } } store.uniqueDates

namespace Tuning

variable {P : Type}

/-- The symbols a window trades, optimize.py:2058-2066. -/
def select (T : Tuning P) (win : WFWindow) : Except TuneErr (List Sym) :=
  match windowExecutions (fun d : List DRow => (d.map DRow.symbol).dedup) List.isEmpty T.base.execs
      (T.base.rowsAt win.train) with
  | .error e => .error (.run (.select e))
  | .ok es => .ok (selectedSymbols es)

/-- `score_overrides`, optimize.py:1142-1163, with `_run_optimize_trial`, 1340-1456. -/
def trial (T : Tuning P) (k : Nat) (selected : List Sym) (train : List Nat) (p : P) :
    Except TuneErr TrialScore :=
  match T.settings p with
  | none => .error .settings
  | some _ =>
    match (T.setup [] p).runOn k selected train with
    | .error e => .error (.run e)
    | .ok st => .ok (T.score (T.base.rowsAt train) st.loop.pf)

/-- `study.optimize`, optimize.py:974: so many trials more, one after the other; an exception
ends it. -/
def study (T : Tuning P) (k : Nat) (score : P → Except TuneErr TrialScore) :
    Nat → List (Trial P) → Except TuneErr (List (Trial P))
  | 0, h => .ok h
  | n + 1, h =>
    match T.next k h with
    | none => .ok h
    | some p =>
      match score p with
      | .error e => .error e
      | .ok v => T.study k score n (h ++ [⟨p, v⟩])

/-- Whether a score is better than another, by the direction. -/
def better (T : Tuning P) (a b : ℚ) : Bool := if T.maximize then b < a else a < b

/-- `study.best_trial`: the first trial with the best value, if one has a value. -/
def best (T : Tuning P) : List (Trial P) → Option (P × ℚ)
  | [] => none
  | tr :: rest =>
    match tr.value with
    | none => T.best rest
    | some v =>
      match T.best rest with
      | none => some (tr.params, v)
      | some b => if T.better b.2 v then some b else some (tr.params, v)

/-- `run_window_study`, optimize.py:2040-2176, and the study of a single split, 1838-1847, which
may begin with trials of a study the caller supplied. -/
def windowStudy (T : Tuning P) (prior : List (Trial P)) (kw : WFWindow × Nat) :
    Except TuneErr (Tuned P) :=
  match T.select kw.1 with
  | .error e => .error e
  | .ok selected =>
    match T.study kw.2 (T.trial kw.2 selected kw.1.train) T.trials prior with
    | .error e => .error e
    | .ok h =>
      match T.best h with
      | none => .error .noTrials
      | some b => .ok ⟨b.1, b.2, h⟩

/-- The studies of all windows, optimize.py:2178-2185. -/
def tuneAll (T : Tuning P) : List (WFWindow × Nat) → Except TuneErr (List (Tuned P))
  | [] => .ok []
  | kw :: kws =>
    match T.windowStudy [] kw with
    | .error e => .error e
    | .ok r =>
      match T.tuneAll kws with
      | .error e => .error e
      | .ok rs => .ok (r :: rs)

/-- The runs of the windows, each with its own values. -/
def plan (T : Tuning P) : List P → List ((WFWindow × Nat) × P) → List (RunSetup × WFWindow × Nat)
  | _, [] => []
  | hist, (kw, p) :: rest => (T.setup hist p, kw) :: T.plan (hist ++ [p]) rest

/-- The stitched replay, optimize.py:2187-2335: one portfolio, and one list of orders, through
the test data of all windows.  Selectors give here what they gave to the study. -/
def replay (T : Tuning P) (plan : List (RunSetup × WFWindow × Nat)) : Except RunErr RunSetup.State :=
  RunSetup.each (fun st (y : RunSetup × WFWindow × Nat) => y.1.runOne st y.2)
    { loop := { pf := Portfolio.init T.base.cfg } } plan

/-- `_optimize_walkforward`, optimize.py:1996-2364: each window's values and trials, and the
stitched run.  The values of the result are those of the last window. -/
def optimizeWalk (T : Tuning P) : Except TuneErr (List (Tuned P) × RunSetup.State) :=
  match walkforwardSplit T.base.dates T.base.windows T.base.lookahead T.base.trainSize id with
  | .error e => .error (.run (.split e))
  | .ok wins =>
    match T.tuneAll wins.zipIdx with
    | .error e => .error e
    | .ok rs =>
      if rs = [] then .error .empty
      else
        match T.replay (T.plan [] (wins.zipIdx.zip (rs.map Tuned.params))) with
        | .error e => .error (.run e)
        | .ok st => .ok (rs, st)

/-- `optimize` with a single split, optimize.py:1749-1872: the best values of the study are
tested on the test rows, with a new portfolio. -/
def optimizeOnce (T : Tuning P) (prior : List (Trial P)) : Except TuneErr (Tuned P × RunSetup.State) :=
  match walkforwardSplit T.base.dates 1 T.base.lookahead T.base.trainSize id with
  | .error e => .error (.run (.split e))
  | .ok [] => .error .empty
  | .ok (win :: _) =>
    match T.windowStudy prior (win, 0) with
    | .error e => .error e
    | .ok r =>
      match T.settings r.params with
      | none => .error .settings
      | some _ =>
        match T.select win with
        | .error e => .error e
        | .ok selected =>
          match (T.setup [] r.params).runOn 0 selected win.test with
          | .error e => .error (.run e)
          | .ok st => .ok (r, st)

end Tuning

end PyBroker
