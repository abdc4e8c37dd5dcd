import Verif.Backtest.Drive
import Verif.Indicator.Model
import Verif.Text.Model

/-!
# Registered names and the signals of a run

`StaticScope.ordered_data_cols`, `StaticScope.validate_registered_names` and `get_signals` of
`/repo/src/pybroker/scope.py`, and the part of `Strategy._run_walkforward` and
`BacktestMixin.backtest_executions` of `/repo/src/pybroker/strategy.py` that collects signals.
-/

namespace PyBroker

/-- `default_data_cols` in the order of `_build_ordered_data_cols`, scope.py:142-152, 255-266. -/
def defaultCols : List String := ["date", "open", "high", "low", "close", "volume", "vwap"]

/-- `ordered_data_cols`, scope.py:243-266. -/
def orderedCols (custom : List String) : List String :=
  defaultCols ++ custom.insertionSort (· ≤ ·)

/-- The column of the predictions of a model, scope.py:2677. -/
def predName (m : String) : String := m ++ "_pred"

/-- The column of one component of the predictions of a model, scope.py:2684. -/
def predNameAt (m : String) (i : Nat) : String := m ++ "_pred_" ++ String.ofList (showNat i)

/-- `str.isdigit`, on ASCII. -/
def isDigits (s : List Char) : Bool := s ≠ [] && s.all isDig

/-- Whether the name is reserved for the predictions of a model, scope.py:328-337. -/
def reserved (m : String) (name : String) : Bool :=
  name == predName m ||
    ((predName m ++ "_").toList.isPrefixOf name.toList &&
      isDigits (name.toList.drop ((predName m).length + 1)))

/-- What `validate_registered_names` raises, with the names it lists. -/
inductive NameErr
  | indicators (l : List String)
  | predictions (l : List String)
  deriving DecidableEq, Repr

/-- `validate_registered_names`, scope.py:293-342. -/
def validateNames (custom inds models : List String) : Except NameErr Unit :=
  let cols := defaultCols ++ custom
  let bad := (inds.dedup.filter (fun i => i ∈ cols)).insertionSort (· ≤ ·)
  if bad ≠ [] then .error (.indicators bad)
  else
    let taken := (cols ++ inds).dedup
    let bad := (taken.filter (fun e => models.any (fun m => reserved m e))).insertionSort (· ≤ ·)
    if bad ≠ [] then .error (.predictions bad) else .ok ()

/-- The names of an execution: `indicator_names` and `model_names`, strategy.py:611-640.  Interval
bindings are left out: the names of bound sources hold an `@`. -/
structure ExecNames where
  inds : List String := []
  models : List String := []
  deriving DecidableEq, Repr

/-- The check of a run, strategy.py:2740-2744. -/
def checkNames (custom : List String) (es : List ExecNames) : Except NameErr Unit :=
  validateNames custom (es.flatMap ExecNames.inds) (es.flatMap ExecNames.models)

/-- The indicators computed for a run, `_indicator_syms`, strategy.py:3360-3390: also those that its
models were registered with, `get_indicator_names`. -/
def computedInds (modelInds : String → List String) (es : List ExecNames) : List String :=
  (es.flatMap (fun e => e.models.flatMap modelInds ++ e.inds)).dedup

/-! ## Signals -/

/-- What `PredictionScope.fetch` returns: one number for each row of the window, or several, here
flattened (scope.py:2676-2684). -/
inductive Preds
  | one (l : List Cell)
  | many (rows : List (List Cell))

/-- A data frame of signals. -/
structure SigFrame where
  rows : Nat
  cols : List (String × List Cell)
  deriving DecidableEq, Repr

/-- What signals are made of: the registered columns, indicators and models, and the indicators and
predictions of each window; `none`: `fetch` raises a `ValueError`. -/
structure SignalSetup where
  custom : List String := []
  inds : List String := []
  models : List String := []
  bound : String → Bool := fun _ => false
  ind : Nat → String → Sym → Option Series := fun _ _ _ => none
  pred : Nat → Sym → String → Option Preds := fun _ _ _ => none

/-- What is raised: by the split or a selector, or by `pandas.DataFrame` for columns of different
lengths. -/
inductive SigErr
  | split (e : WErr)
  | select (e : XErr)
  | lengths
  deriving DecidableEq, Repr

/-- The columns of a model, scope.py:2671-2684. -/
def predCols (m : String) : Preds → List (String × List Cell)
  | .one l => [(predName m, l)]
  | .many rows => (List.range ((rows.head?.map List.length).getD 0)).map
      (fun i => (predNameAt m i, rows.map (fun r => (r[i]?).getD none)))

/-- The entries of `data` for a symbol with the arrays `a`, in the order they are set,
scope.py:2663-2684.  A registered column that the data do not have is `None`. -/
def sigEntries (g : SignalSetup) (k : Nat) (a : SymArrays) (dates : List Date) (sym : Sym) :
    List (String × List Cell) :=
  ("date", a.dates.map (fun d => some ((d : Int) : ℚ))) ::
    ((orderedCols g.custom).filter (fun c => c ≠ "date")).map
      (fun c => (c, (a.col c).getD (List.replicate a.dates.length none))) ++
    g.inds.filterMap (fun i =>
      match (IndScope.fetch { data := g.ind k, bound := g.bound, filterDates := dates } sym i none).1 with
      | .error _ => none
      | .ok l => some (i, l)) ++
    g.models.flatMap (fun m => ((g.pred k sym m).map (predCols m)).getD [])

/-- `pd.DataFrame(data)`, scope.py:2685: the columns must have one length. -/
def toFrame (entries : List (String × List Cell)) : Except SigErr SigFrame :=
  let data := entries.foldl (fun d e => assocPut d e.1 e.2) []
  let n := (data.head?.map (fun e => e.2.length)).getD 0
  if data.all (fun e => e.2.length == n) then .ok { rows := n, cols := data } else .error .lengths

/-- `pd.concat(frames, ignore_index=True)`: the columns of all frames, in the order they first
appear; a frame without a column has no values in it. -/
def concatSignals (fs : List SigFrame) : SigFrame where
  rows := (fs.map SigFrame.rows).sum
  cols := (fs.flatMap (fun f => f.cols.map Prod.fst)).eraseDups.map
    (fun c => (c, fs.flatMap (fun f => (cacheGet f.cols c).getD (List.replicate f.rows none))))

/-- The frame of a symbol, strategy.py:3234-3239. -/
def joinFrames : List SigFrame → SigFrame
  | [f] => f
  | fs => concatSignals fs

/-- The results of a function on a list, up to the first error. -/
def collectE {α β : Type} (f : α → Except SigErr β) : List α → Except SigErr (List β)
  | [] => .ok []
  | a :: as =>
    match f a with
    | .error e => .error e
    | .ok b =>
      match collectE f as with
      | .error e => .error e
      | .ok bs => .ok (b :: bs)

namespace RunSetup

/-- `get_signals` for a window, strategy.py:763-773, 1048-1052 and scope.py:2646-2687: one frame for
each symbol of the test data with an execution.  A window without test data has none
(strategy.py:3184-3187). -/
def windowSignals (x : RunSetup) (g : SignalSetup) (kw : WFWindow × Nat) :
    Except SigErr (List (Sym × SigFrame)) :=
  let win := kw.1
  match windowExecutions (fun d : List DRow => (d.map DRow.symbol).dedup) List.isEmpty x.execs
      (x.rowsAt win.train) with
  | .error e => .error (.select e)
  | .ok es =>
    if win.test = [] then .ok []
    else
      let store := (storeOf x.cols x.rows).slice (datesOfRows x.dates win.test)
      let syms := (store.symbols.insertionSort (· ≤ ·)).filter (fun s => s ∈ selectedSymbols es)
      collectE (fun s =>
        match store.arrays s with
        | none => .ok (s, { rows := 0, cols := [] })
        | some a =>
          match toFrame (sigEntries g kw.2 a store.uniqueDates s) with
          | .error e => .error e
          | .ok f => .ok (s, f)) syms

/-- The signals of a run, strategy.py:3076-3077, 3220-3221 and 3234-3240. -/
def signals (x : RunSetup) (g : SignalSetup) : Except SigErr (List (Sym × SigFrame)) :=
  match walkforwardSplit x.dates x.windows x.lookahead x.trainSize x.shuffle with
  | .error e => .error (.split e)
  | .ok wins =>
    match collectE (x.windowSignals g) wins.zipIdx with
    | .error e => .error e
    | .ok ws => .ok ((ws.flatten.map Prod.fst).eraseDups.map
        (fun s => (s, joinFrames (ws.filterMap (fun w => cacheGet w s)))))

end RunSetup

end PyBroker
