import Verif.Optimize.Tune
import Verif.Optimize.Collect
import Verif.Backtest.Learn

/-!
# Pretrained models in an optimization

`_validate_optimize_models`, `_load_pretrained_models` and the model side of `_run_optimize_trial`,
`_run_optimize_test` and the stitched replay of `/repo/src/pybroker/optimize.py`, put together with the
optimization of `Verif/Optimize/Tune.lean`.  A trial is a backtest on the training rows: its models read
the training rows, and their lag features reach back no further than the window.

Left out: the cache of models (C92) and the pooling of pretrained models, which the code ignores.
-/

namespace PyBroker

/-- `_validate_optimize_models`, optimize.py:489-505: the names in the `ValueError`, or `none` when
`optimize` goes on.  `execs` are the models of each execution, `trainable` is
`_is_trainable_model_source` of the registered model, 394-395. -/
def refusedModels (trainable : String → Bool) (execs : List (List String)) : Option (List String) :=
  let names := (execs.flatten.map baseName).filter trainable
  if names = [] then none else some (names.dedup.insertionSort (· ≤ ·))

/-- A strategy with pretrained models that is optimized.  `tuning` is all but its functions; `ind p`
are the indicators with the hyperparameter values `p`; `source`, `lagCols` and `perBar` the registered
models; `load` is `load_fn` (model.py:1296-1366), which is given the model, the symbol and the first and
last dates of the training window, and gives the model and its input columns; `predict` and `user` are
as in `Learner`, with the values of the windows before and of this one. -/
structure Preloaded (M P : Type) where
  tuning : Tuning P
  ordered : List String
  ind : P → String → List DRow → List Cell
  source : String → Option InSource
  lagCols : String → List String := fun _ => []
  perBar : String → Bool := fun _ => false
  junk : LagMat := fun _ _ => none
  load : String → Sym → Date → Date → M × Option (List String)
  predict : String → M → LagInput → List Cell
  user : List P → P → Nat → Date → (String → Sym → Option (List Cell)) → (Sym → Option SymArrays) →
    Loop → List Sym → List UserOp × (Sym → Option ExecResult)

namespace Preloaded

variable {M P : Type}

/-- What the strategy with the values `p` has in common with one that trains its models: the data,
the indicators, and how predictions are read. -/
def learner (X : Preloaded M P) (p : P) : Learner M where
  setup := X.tuning.base
  ordered := X.ordered
  ind := X.ind p
  source := X.source
  lagCols := X.lagCols
  perBar := X.perBar
  junk := X.junk
  fit := fun _ _ _ _ _ => none
  predict := X.predict
  user := fun _ _ _ _ _ _ => ([], fun _ => none)

/-- `_load_pretrained_models`, optimize.py:1264-1338, with the loaders of `train_models`,
model.py:2271-2310: a model for each symbol with a bar in the training data. -/
def loaded (X : Preloaded M P) (win : WFWindow) (name : String) (sym : Sym) : Option (M × InModel) :=
  match X.source name with
  | none => none
  | some src =>
    if sym ∈ (X.tuning.base.rowsAt win.train).map DRow.symbol then
      let dates := datesOfRows X.tuning.base.dates win.train
      let r := X.load name sym (dates.headD 0) (dates.getLastD 0)
      some (r.1, ⟨r.2, if src.lags.isSome ∧ X.lagCols name ≠ [] then some (X.lagCols name) else none⟩)
    else none

/-- The `ModelInputScope` of a backtest, strategy.py:774-788: on the bars of `st`, with lags from
`hist`. -/
def scope (X : Preloaded M P) (p : P) (win : WFWindow) (st hist : Store) (window : List Date) :
    InScope where
  store := st
  history := some hist
  ordered := X.ordered
  sources := X.source
  models := fun name sym => (X.loaded win name sym).map Prod.snd
  ind :=
    { data := fun i sym => (X.learner p).series sym i
      bound := fun _ => false
      filterDates := window }

/-- `sym_end_index[symbol]`, strategy.py:795 and 871: the number of the symbol's bars that have been
given.  It is not more than the number of its bars up to the date (`seen_given`). -/
def seen (st : Store) (given : Sym → Option SymArrays) (d : Date) (sym : Sym) : Nat :=
  min (((given sym).map (fun a => a.dates.length)).getD 0)
    (((st.arrays sym).map (fun a => (a.dates.filter (· ≤ d)).length)).getD 0)

/-- `ExecContext.preds` on a bar of a backtest; `none`: it raises. -/
def read (X : Preloaded M P) (p : P) (win : WFWindow) (st hist : Store) (window : List Date)
    (given : Sym → Option SymArrays) (d : Date) (name : String) (sym : Sym) : Option (List Cell) :=
  match X.loaded win name sym with
  | none => none
  | some m =>
    match ((X.scope p win st hist window).fetch X.junk sym name none).1 with
    | .error _ => none
    | .ok x => (X.learner p).predictions name m.1 x (seen st given d sym)

/-- In a trial, optimize.py:1394-1431: both the bars and the history are those of the training rows. -/
def readTrial (X : Preloaded M P) (p : P) (win : WFWindow) (given : Sym → Option SymArrays) (d : Date)
    (name : String) (sym : Sym) : Option (List Cell) :=
  let s := windowStores (storeOf X.tuning.base.cols X.tuning.base.rows) X.tuning.base.dates ⟨win.train, []⟩
  match s.train with
  | none => none
  | some st => X.read p win st st (datesOfRows X.tuning.base.dates win.train) given d name sym

/-- In the test of a window, optimize.py:1943-1980 and 2259-2320. -/
def readTest (X : Preloaded M P) (p : P) (win : WFWindow) (given : Sym → Option SymArrays) (d : Date)
    (name : String) (sym : Sym) : Option (List Cell) :=
  let s := windowStores (storeOf X.tuning.base.cols X.tuning.base.rows) X.tuning.base.dates win
  match s.test with
  | none => none
  | some st =>
    X.read p win st (s.history.getD st) (datesOfRows X.tuning.base.dates win.test) given d name sym

/-- The predictions a function can read on a bar: in a window, a training date is a date of a trial and a
test date one of the test. -/
def preds (X : Preloaded M P) (p : P) (k : Nat) (d : Date) (given : Sym → Option SymArrays)
    (name : String) (sym : Sym) : Option (List Cell) :=
  match walkforwardSplit X.tuning.base.dates X.tuning.base.windows X.tuning.base.lookahead
      X.tuning.base.trainSize id with
  | .error _ => none
  | .ok wins =>
    match wins[k]? with
    | none => none
    | some win =>
      if d ∈ datesOfRows X.tuning.base.dates win.train then X.readTrial p win given d name sym
      else if d ∈ datesOfRows X.tuning.base.dates win.test then X.readTest p win given d name sym
      else none

/-- The optimization of a strategy with pretrained models. -/
def toTuning (X : Preloaded M P) : Tuning P :=
  { X.tuning with act := fun hist p k d given => X.user hist p k d (X.preds p k d given) given }

/-- The same strategy on other data. -/
def on (X : Preloaded M P) (rows : List DRow) : Preloaded M P :=
  { X with tuning := { X.tuning with base := { X.tuning.base with rows := rows } } }

end Preloaded

end PyBroker
