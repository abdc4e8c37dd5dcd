import Verif.Lags.Train

/-!
# The history of models trained by a direct call

`ModelsMixin.train_models` of `/repo/src/pybroker/model.py` called without
`history_store`: the history that the lags are read from is the concatenation of the
training and the test data, `merge_symbol_array_stores` of
`/repo/src/pybroker/scope.py`.
-/

namespace PyBroker

/-- The parts of one column, scope.py 925-933. -/
def mergeCol (l r : Option (List Cell)) : Option (List Cell) :=
  match l, r with
  | some a, some b => some (a ++ b)
  | some a, none => some a
  | none, r => r

/-- One symbol of `merge_symbol_array_stores`, scope.py 916-933.  The date column is in
the arrays of every symbol of a store. -/
def mergeArrays (l r : Option SymArrays) : Option SymArrays :=
  match l, r with
  | some a, some b =>
    some { dates := a.dates ++ b.dates, col := fun c => mergeCol (a.col c) (b.col c) }
  | some a, none => some a
  | none, r => r

/-- `merge_symbol_array_stores`, scope.py 910-934. -/
def Store.merge (l r : Store) : Store where
  symbols := (l.symbols ++ r.symbols).dedup.insertionSort (· ≤ ·)
  arrays x := mergeArrays (l.arrays x) (r.arrays x)

/-- `_history_store`, model.py 1119-1151.  Both frames have the columns `cols`. -/
def historyStore (cols : List String) (train test : List DRow) (trainStore testStore : Option Store) :
    Store :=
  match trainStore, testStore with
  | some a, some b =>
    if train.isEmpty then b else if test.isEmpty then a else a.merge b
  | some a, none => if test.isEmpty then a else a.merge (storeOf cols test)
  | none, some b => if train.isEmpty then b else (storeOf cols train).merge b
  | none, none =>
    if train.isEmpty then storeOf cols test
    else if test.isEmpty then storeOf cols train
    else (storeOf cols train).merge (storeOf cols test)

/-- What `train_models` prepares for a model of one symbol from two frames alone: the
stores of 1995-1998 and the history of 1999-2016, then 2135-2188.  An empty frame has no
store; its input is the empty one (`_symbol_model_input`, 2148-2151). -/
def directInputs (junk : LagMat) (cols : List String) (train test : List DRow) (sym : Sym)
    (ordered columns : List String) (lags : Nat) (inds : List String)
    (data : String → Option Series) (cache : LagCache) :
    Option (Except LagErr (LagInput × LagInput × LagCache)) :=
  let trainStore := if train.isEmpty then none else some (storeOf cols train)
  let testStore := if test.isEmpty then none else some (storeOf cols test)
  let history := historyStore cols train test trainStore testStore
  match symbolInput (storeOf cols train) sym ordered inds data,
      symbolInput (storeOf cols test) sym ordered inds data with
  | some x, some y => some (lagInputs junk history sym columns lags inds data x y cache)
  | _, _ => none

end PyBroker
