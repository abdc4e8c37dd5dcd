/-
Which symbols an execution trades: `add_execution` (strategy.py:2335-2352),
`_resolve_execution_symbols`, `_resolve_executions`, `_selected_symbols` and
`_selection_df` (common.py:680-800).
-/
import Verif.Portfolio.Model

namespace PyBroker

/-- The errors raised, by exception type. -/
inductive XErr
  | value
  | type
  deriving DecidableEq, Repr

/-- What a `SymbolSelector` returned: a sequence of symbols, or something
`_selected_symbol_list` (common.py:680-697) rejects. -/
inductive Selected
  | syms (l : List Sym)
  | notSymbols
  deriving DecidableEq, Repr

/-- `Execution.symbols`: a fixed set, or a selector run on the frame it selects
from.  `D` is the type of data frames. -/
inductive ExecSyms (D : Type)
  | fixed (l : List Sym)
  | selector (f : D → Selected)

/-- An execution (strategy.py:608-641), reduced to its id and symbols. -/
structure Execn (D : Type) where
  id : Nat
  symbols : ExecSyms D

/-- `_static_symbols`, common.py:659-668. -/
def ExecSyms.static {D : Type} : ExecSyms D → List Sym
  | .fixed l => l
  | .selector _ => []

/-- `_is_symbol_selector`, common.py:652-656. -/
def ExecSyms.isSelector {D : Type} : ExecSyms D → Bool
  | .fixed _ => false
  | .selector _ => true

/-- The executions of a strategy and its id counter, strategy.py:1966-1967. -/
structure ExecStore (D : Type) where
  nextId : Nat := 0
  executions : List (Execn D) := []

/-- `add_execution`, strategy.py:2335-2352 and 2494-2507.  Simplified: models,
indicators, hyperparameters and intervals are left out; they raise before the
id is taken. -/
def addExecution {D : Type} (s : ExecStore D) (symbols : ExecSyms D) :
    Except XErr (ExecStore D) :=
  let add : ExecStore D :=
    { nextId := s.nextId + 1, executions := s.executions ++ [⟨s.nextId + 1, symbols⟩] }
  match symbols with
  | .selector _ => .ok add
  | .fixed l =>
    if l = [] then .error .value
    else if l.any (fun x => s.executions.any (fun e => e.symbols.static.contains x)) then
      .error .value
    else .ok add

/-- `clear_executions`, strategy.py:2533-2535: the id counter stays. -/
def clearExecutions {D : Type} (s : ExecStore D) : ExecStore D :=
  { s with executions := [] }

/-- `_resolve_execution_symbols`, common.py:699-727; `loaded` are the symbols of
a frame. -/
def resolveSymbols {D : Type} (loaded : D → List Sym) (d : D) (e : Execn D) :
    Except XErr (List Sym) :=
  match e.symbols with
  | .fixed l => .ok l
  | .selector f =>
    match f d with
    | .notSymbols => .error .type
    | .syms l =>
      if l = [] then .error .value
      else if ¬ l.Nodup then .error .value
      else if l.any (fun x => !(loaded d).contains x) then .error .value
      else .ok l

/-- The loop of `_resolve_executions`, common.py:738-747. -/
def resolveLoop {D : Type} (loaded : D → List Sym) (d : D) :
    List (Execn D) → List Sym → Except XErr (List (Execn D))
  | [], _ => .ok []
  | e :: rest, seen =>
    match resolveSymbols loaded d e with
    | .error x => .error x
    | .ok syms =>
      if syms.any (fun x => seen.contains x) then .error .value
      else
        match resolveLoop loaded d rest (seen ++ syms) with
        | .error x => .error x
        | .ok out => .ok (⟨e.id, .fixed syms⟩ :: out)

/-- `_resolve_executions`, common.py:729-748. -/
def resolveExecutions {D : Type} (loaded : D → List Sym) (d : D) (es : List (Execn D)) :
    Except XErr (List (Execn D)) :=
  resolveLoop loaded d es []

/-- `_selected_symbols`, common.py:750-769; the warning is left out. -/
def selectedSymbols {D : Type} (es : List (Execn D)) : List Sym :=
  es.flatMap (fun e => e.symbols.static)

/-- `_selection_df`, common.py:772-794.  A frame is empty when `empty` says so. -/
def selectionDf {D : Type} (empty : D → Bool) (es : List (Execn D)) (train : D) :
    Except XErr D :=
  if empty train = false then .ok train
  else if es.any (fun e => e.symbols.isSelector) then .error .value
  else .ok train

/-- The executions of one walkforward window, strategy.py:3098-3121: resolved
when some execution has a selector, otherwise as they are. -/
def windowExecutions {D : Type} (loaded : D → List Sym) (empty : D → Bool)
    (es : List (Execn D)) (train : D) : Except XErr (List (Execn D)) :=
  match selectionDf empty es train with
  | .error x => .error x
  | .ok d =>
    if es.any (fun e => e.symbols.isSelector) then resolveExecutions loaded d es else .ok es

end PyBroker
