import Verif.Backtest.Drive
import Verif.Scope.Input
import Verif.Lags.Pooled

/-!
# A run with models

The part of `Strategy._run_walkforward` of `/repo/src/pybroker/strategy.py` that trains models
before each window's backtest, and `ExecContext.preds`, put together with the run of
`Verif/Backtest/Drive.lean`: the functions of the executions are given the bars so far and the
predictions.  The pieces are those of `Verif/Lags/Train.lean`, `Verif/Lags/Pooled.lean` and
`Verif/Scope/Input.lean`.

Left out: pretrained models, models on longer intervals, and the caches of models, inputs and
predictions (C92, C94 and C42 show that they do not change what is read).
-/

namespace PyBroker

/-- A strategy with models.  `setup` is all but its functions.  `ind` are the registered
indicators, `source`, `lagCols` and `perBar` the registered models.  `fit` is a model's training
function with `_parse_model_result` (model.py:1856-1893): it is given the window, the symbol, the
training input and the test input, and gives the model and its input columns.  `models` are the models
of an execution, by its id; `fitPool` is the training function of a pooled model with
`_parse_model_result` (model.py:1896-1917), which is given the sorted symbols of its group.  `predict` is
`_run_predict` (scope.py:2155-2190); `user` the functions of the executions, as in `RunSetup`, given
the predictions besides the bars. -/
structure Learner (M : Type) where
  setup : RunSetup
  ordered : List String
  ind : String → List DRow → List Cell
  source : String → Option InSource
  lagCols : String → List String := fun _ => []
  perBar : String → Bool := fun _ => false
  junk : LagMat := fun _ _ => none
  fit : Nat → String → Sym → LagInput → LagInput → Option (M × Option (List String))
  models : Nat → List String := fun _ => []
  fitPool : Nat → String → List Sym → LagInput → LagInput → Option (M × Option (List String)) :=
    fun _ _ _ _ _ => none
  predict : String → M → LagInput → List Cell
  user : Nat → Date → (String → Sym → Option (List Cell)) → (Sym → Option SymArrays) → Loop →
    List Sym → List UserOp × (Sym → Option ExecResult)

namespace Learner

variable {M : Type}

/-- An indicator's data: computed from the symbol's bars of the whole frame, strategy.py:2805
and 3107 (`_fetch_indicators`). -/
def series (L : Learner M) (sym : Sym) (name : String) : Option Series :=
  some (((symRows L.setup.rows sym).map DRow.date).zip (L.ind name (symRows L.setup.rows sym)))

/-- The stores of a window, strategy.py:3133-3140. -/
def stores (L : Learner M) (win : WFWindow) : WindowStores :=
  windowStores (storeOf L.setup.cols L.setup.rows) L.setup.dates win

/-- The test input of a model of a symbol, model.py:2146-2154. -/
def testInput (L : Learner M) (win : WFWindow) (src : InSource) (sym : Sym) : Option LagInput :=
  match (L.stores win).test with
  | none => some { dates := [], symbols := none, columns := [], features := none }
  | some st => symbolInput st sym L.ordered src.indicators (L.series sym)

/-- Lag features and trimming, model.py:2155-2188, with an empty lag cache (`training_lags` shows
that earlier uses do not matter). -/
def lagged (L : Learner M) (win : WFWindow) (name : String) (src : InSource) (sym : Sym)
    (x y : LagInput) : Option (LagInput × LagInput × Option (List String)) :=
  match src.lags with
  | none => some (x, y, none)
  | some n =>
    match lagFeatureCols (x.columns.map Prod.fst) L.ordered src.indicators src.pooled (L.lagCols name),
        (L.stores win).history with
    | some lc, some h =>
      match lagInputs L.junk h sym lc n src.indicators (L.series sym) x y (fun _ => none) with
      | .error _ => none
      | .ok (x', y', _) => some (x', y', some lc)
    | _, _ => none

/-- The input of a training and the lagged columns, strategy.py:3141-3152 and model.py:2123-2188.
`none`: the symbol has no training data, or preparing it raises (then the run does). -/
def inputs (L : Learner M) (win : WFWindow) (name : String) (src : InSource) (sym : Sym) :
    Option (LagInput × LagInput × Option (List String)) :=
  match (L.stores win).train with
  | none => none
  | some st =>
    match symbolInput st sym L.ordered src.indicators (L.series sym), L.testInput win src sym with
    | some x, some y => if x.dates = [] then none else L.lagged win name src sym x y
    | _, _ => none

/-- A window's own model of a symbol, and what is recorded of its input: `TrainedModel`,
model.py:2251-2270. -/
def fittedOne (L : Learner M) (k : Nat) (win : WFWindow) (name : String) (src : InSource) (sym : Sym) :
    Option (M × InModel) :=
  match L.inputs win name src sym with
  | none => none
  | some i => (L.fit k name sym i.1 i.2.1).map (fun r => (r.1, ⟨r.2, i.2.2⟩))

/-- The symbols a pooled model of a symbol is trained on, strategy.py:3148-3163: those of the
execution that have training data; `[]`: no execution with the symbol has the model.  A `frozenset` is a
list without duplicates; the order does not matter (`pooled_training_rows`). -/
def group (L : Learner M) (win : WFWindow) (name : String) (sym : Sym) : List Sym :=
  match windowExecutions (fun d : List DRow => (d.map DRow.symbol).dedup) List.isEmpty
      L.setup.execs (L.setup.rowsAt win.train) with
  | .error _ => []
  | .ok es =>
    match es.find? (fun e => decide (name ∈ L.models e.id) && decide (sym ∈ e.symbols.static)) with
    | none => []
    | some e => (e.symbols.static.filter
        (fun s => decide (s ∈ (L.setup.rowsAt win.train).map DRow.symbol))).dedup

/-- The pooled test input, model.py:2368-2375. -/
def testPool (L : Learner M) (win : WFWindow) (src : InSource) (g : List Sym) : Option LagInput :=
  match (L.stores win).test with
  | none => some { dates := [], symbols := some [], columns := [], features := none }
  | some st => pooledInput st g L.ordered src.indicators L.series

/-- Lag features and trimming of a pooled model, model.py:2376-2407, with an empty lag cache. -/
def laggedPool (L : Learner M) (win : WFWindow) (name : String) (src : InSource) (g : List Sym)
    (x y : LagInput) : Option (LagInput × LagInput × Option (List String)) :=
  match src.lags with
  | none => some (x, y, none)
  | some n =>
    match lagFeatureCols (x.columns.map Prod.fst) L.ordered src.indicators true (L.lagCols name),
        (L.stores win).history with
    | some lc, some h =>
      match lagInputsPooled L.junk h g lc n src.indicators L.series x y (fun _ => none)
          (fun _ => none) with
      | .error _ => none
      | .ok (x', y', _, _) => some (x', y', some lc)
    | _, _ => none

/-- The input of a pooled training and the lagged columns, `_prepare_pooled_data`,
model.py:2345-2408. -/
def inputsPool (L : Learner M) (win : WFWindow) (name : String) (src : InSource) (g : List Sym) :
    Option (LagInput × LagInput × Option (List String)) :=
  match (L.stores win).train with
  | none => none
  | some st =>
    match pooledInput st g L.ordered src.indicators L.series, L.testPool win src g with
    | some x, some y => L.laggedPool win name src g x y
    | _, _ => none

/-- A window's pooled model, recorded for each symbol of the group, model.py:2045-2109 and
2222-2249. -/
def fittedPool (L : Learner M) (k : Nat) (win : WFWindow) (name : String) (src : InSource)
    (sym : Sym) : Option (M × InModel) :=
  if sym ∈ L.group win name sym then
    match L.inputsPool win name src (L.group win name sym) with
    | none => none
    | some i => (L.fitPool k name ((L.group win name sym).insertionSort (· ≤ ·)) i.1 i.2.1).map
        (fun r => (r.1, ⟨r.2, i.2.2⟩))
  else none

/-- A window's model of a symbol. -/
def fitted (L : Learner M) (k : Nat) (win : WFWindow) (name : String) (sym : Sym) :
    Option (M × InModel) :=
  match L.source name with
  | none => none
  | some src => if src.pooled then L.fittedPool k win name src sym else L.fittedOne k win name src sym

/-- The `ModelInputScope` of a window's backtest, strategy.py:774-788 and 3187-3193. -/
def scope (L : Learner M) (k : Nat) (win : WFWindow) (st : Store) : InScope where
  store := st
  history := some ((L.stores win).history.getD st)
  ordered := L.ordered
  sources := L.source
  models := fun name sym => (L.fitted k win name sym).map Prod.snd
  ind :=
    { data := fun i sym => L.series sym i
      bound := fun _ => false
      filterDates := datesOfRows L.setup.dates win.test }

/-- `_run_predict_scalar`, scope.py:2192-2216, on the predictions for `rows` rows. -/
def lastPrediction (flat : List Cell) (rows : Nat) : Option Cell :=
  if flat.length = 1 ∨ flat.length = rows then flat.getLast? else none

/-- The predictions read when `n` bars of the window have been seen, from the input for the whole
window: `PredictionScope.fetch`, scope.py:2080-2153. -/
def predictions (L : Learner M) (name : String) (m : M) (x : LagInput) (n : Nat) : Option (List Cell) :=
  if L.perBar name then
    (List.range n).mapM (fun j : Nat => lastPrediction (L.predict name m (x.slice (some ((j : Int) + 1)))) (j + 1))
  else if (L.predict name m x).length = x.dates.length then some ((L.predict name m x).take n)
  else none

/-- `ExecContext.preds` on the bar of a date: the counter of the symbol's bars, and the predictions
up to it; `none`: it raises. -/
def read (L : Learner M) (k : Nat) (win : WFWindow) (execs : List Sym) (d : Date) (name : String)
    (sym : Sym) : Option (List Cell) :=
  match (L.stores win).test, L.fitted k win name sym with
  | some st, some m =>
    match ((L.scope k win st).fetch L.junk sym name none).1 with
    | .error _ => none
    | .ok x => L.predictions name m.1 x
        (endIndexes (symExecDates st execs) st.uniqueDates (st.uniqueDates.filter (· ≤ d)) sym)
  | _, _ => none

/-- The predictions a function can read on a bar of a window. -/
def preds (L : Learner M) (k : Nat) (d : Date) (name : String) (sym : Sym) : Option (List Cell) :=
  match walkforwardSplit L.setup.dates L.setup.windows L.setup.lookahead L.setup.trainSize
      L.setup.shuffle with
  | .error _ => none
  | .ok wins =>
    match wins[k]? with
    | none => none
    | some win =>
      if d ∈ datesOfRows L.setup.dates win.test then
        match windowExecutions (fun d : List DRow => (d.map DRow.symbol).dedup) List.isEmpty
            L.setup.execs (L.setup.rowsAt win.train) with
        | .error _ => none
        | .ok es => L.read k win (selectedSymbols es) d name sym
      else none

/-- The run of a strategy with models. -/
def toRun (L : Learner M) : RunSetup := { L.setup with act := fun k d => L.user k d (L.preds k d) }

/-- The same strategy on other data. -/
def on (L : Learner M) (rows : List DRow) : Learner M := { L with setup := { L.setup with rows := rows } }

end Learner

end PyBroker
