import Mathlib.Data.List.Sort
import Mathlib.Data.List.Dedup
import Mathlib.Data.String.Basic

/-!
# Registered data columns

`/repo/src/pybroker/scope.py`, `StaticScope`: the columns that users register and that a run fixes
while it lasts.
-/

namespace PyBroker

/-- `default_data_cols` in the order of `_build_ordered_data_cols`, scope.py:160-170, 261-271. -/
def stdCols : List String := ["date", "open", "high", "low", "close", "volume", "vwap"]

/-- The columns of a `StaticScope`, scope.py:172-176.  `custom` is a set; `ordered` is the copy that
is kept while frozen (the copies of the same set under other names are left out). -/
structure ColState where
  custom : List String := []
  frozen : Bool := false
  ordered : Option (List String) := none
  deriving DecidableEq, Repr

/-- `_build_ordered_data_cols`, scope.py:261-271. -/
def ColState.build (s : ColState) : List String := stdCols ++ s.custom.insertionSort (· ≤ ·)

/-- `ordered_data_cols`, scope.py:250-259. -/
def ColState.cols (s : ColState) : List String :=
  match s.ordered with
  | some l => l
  | none => s.build

/-- What is done to the scope: `register_columns`, `unregister_columns`, a read of the columns, the
start of `walkforward`, `backtest` or `optimize` and its end (the `finally` block, so the end comes
however the run ends), strategy.py:2738-2740, 2874; optimize.py:1658, 1874. -/
inductive ColOp where
  | register (names : List String)
  | unregister (names : List String)
  | look
  | start
  | stop
  deriving DecidableEq, Repr

/-- What the caller sees. -/
inductive ColRes where
  | done
  | refused
  | saw (cols : List String)
  deriving DecidableEq, Repr

/-- `register_custom_cols` 216-224, `unregister_custom_cols` 226-233, `ordered_data_cols` 250-259,
`freeze_data_cols` 277-282, `unfreeze_data_cols` 284-291; `_verify_unfrozen_cols` 273-275 raises. -/
def ColState.step (s : ColState) : ColOp → ColState × ColRes
  | .register names =>
    if s.frozen then (s, .refused)
    else ({ s with custom := (s.custom ++ names.filter (fun c => c ∉ stdCols)).dedup }, .done)
  | .unregister names =>
    if s.frozen then (s, .refused)
    else ({ s with custom := s.custom.filter (fun c => c ∉ names) }, .done)
  | .look => (s, .saw s.cols)
  | .start => ({ s with frozen := true, ordered := some s.build }, .done)
  | .stop => ({ s with frozen := false, ordered := none }, .done)

/-- The operations one after the other. -/
def ColState.trace (s : ColState) : List ColOp → ColState × List ColRes
  | [] => (s, [])
  | op :: ops =>
    let r := s.step op
    let t := r.1.trace ops
    (t.1, r.2 :: t.2)

end PyBroker
