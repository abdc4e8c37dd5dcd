import Verif.Lags.Train
import Mathlib.Data.String.Basic

/-!
# The data a pooled model is trained on

`_pooled_model_input_from_store`, `apply_lags_to_model_input_pooled` and
`ModelsMixin._prepare_pooled_data` of `/repo/src/pybroker/model.py`.

A `frozenset` of symbols is a list in the order it is iterated.
-/

namespace PyBroker

/-- The symbols with rows and their arrays, in iteration order, model.py 1004-1010. -/
def poolParts (store : Store) (symbols : List Sym) : List (Sym × SymArrays) :=
  symbols.filterMap (fun s => (store.arrays s).bind (fun a =>
    if a.dates = [] then none else some (s, a)))

/-- `np.concatenate(col_parts[col])`, model.py 1015-1023; `none`: an indicator has no data
(`KeyError`).  A symbol without the column adds nothing. -/
def poolColumn (inds : List String) (data : Sym → String → Option Series) (c : String) :
    List (Sym × SymArrays) → Option (List Cell)
  | [] => some []
  | (s, a) :: rest =>
    match poolColumn inds data c rest with
    | none => none
    | some l =>
      match a.col c with
      | some v => some (v ++ l)
      | none =>
        if c ∈ inds then (data s c).map (fun ser => valuesForDates ser a.dates ++ l) else some l

/-- The order of symbol and date. -/
def poolLE (a b : Sym × Date) : Prop := a.1 < b.1 ∨ (a.1 = b.1 ∧ a.2 ≤ b.2)

instance (a b : Sym × Date) : Decidable (poolLE a b) := by unfold poolLE; infer_instance

/-- `np.lexsort((dates, sym_vals))`, model.py 1029: a stable sort by symbol, then date. -/
def lexOrder (syms : List Sym) (dates : List Date) : List Nat :=
  (List.range syms.length).insertionSort
    (fun i j => poolLE (syms.getD i "", dates.getD i 0) (syms.getD j "", dates.getD j 0))

/-- `values[order]`; `none`: an index is out of range (`IndexError`). -/
def pickRows {α : Type} (order : List Nat) (l : List α) : Option (List α) :=
  order.mapM (fun i => l[i]?)

/-- `_pooled_model_input_from_store`, model.py 982-1035.  `none`: it raises.  The columns of
an input without rows are not modelled. -/
def pooledInput (store : Store) (symbols : List Sym) (ordered inds : List String)
    (data : Sym → String → Option Series) : Option LagInput :=
  let parts := poolParts store symbols
  if parts.isEmpty then some { dates := [], symbols := some [], columns := [], features := none }
  else
    let available := fun c => symbols.any (fun s => (store.arrays s).any (fun a => (a.col c).isSome))
    let syms := parts.flatMap (fun p => List.replicate p.2.dates.length p.1)
    let dates := parts.flatMap (fun p => p.2.dates)
    let order := lexOrder syms dates
    match (modelInputCols ordered inds available).mapM
        (fun c => ((poolColumn inds data c parts).bind (pickRows order)).map (fun l => (c, l))),
      pickRows order syms, pickRows order dates with
    | some cols, some ss, some ds =>
      some { dates := ds, symbols := some ss, columns := cols, features := none }
    | _, _, _ => none

/-- `merge_lag_series_cache_from_store`, model.py 477-520: the cache and `history_dates`. -/
def mergePool (history : Store) (columns : List String) (lags : Nat) (inds : List String)
    (data : Sym → String → Option Series) : List Sym → LagCache → (Sym → Option (List Date)) →
      Except LagErr (LagCache × (Sym → Option (List Date)))
  | [], c, h => .ok (c, h)
  | s :: rest, c, h =>
    match mergeFromStore history s columns lags inds (data s) c with
    | .error e => .error e
    | .ok (c', none) => mergePool history columns lags inds data rest c' h
    | .ok (c', some d) =>
      mergePool history columns lags inds data rest c' (fun s' => if s' = s then some d else h s')

/-- `apply_lags_to_model_input_pooled`, model.py 809-839. -/
def applyLagsPooled (junk : LagMat) (x : LagInput) (columns : List String) (lags : Nat)
    (cache : LagCache) (history : Sym → Option (List Date)) (symbols : List Sym)
    (interval : Option String) : Except LagErr LagInput :=
  if x.dates = [] then .ok { x with features := some [] }
  else
    match lagMatrixPooled junk (x.symbols.getD []) columns lags x.dates history cache symbols
        interval with
    | .error e => .error e
    | .ok m => .ok { x with features := some (matRows m x.dates.length (columns.length * (lags + 1))) }

/-- The lag features of the training and test input of a pooled model, `_prepare_pooled_data`,
model.py 2380-2413. -/
def lagInputsPooled (junk : LagMat) (history : Store) (symbols : List Sym) (columns : List String)
    (lags : Nat) (inds : List String) (data : Sym → String → Option Series) (train test : LagInput)
    (cache : LagCache) (dates : Sym → Option (List Date)) :
    Except LagErr (LagInput × LagInput × LagCache × (Sym → Option (List Date))) :=
  match mergePool history columns lags inds data symbols cache dates with
  | .error e => .error e
  | .ok (c, h) =>
    match applyLagsPooled junk train columns lags c h symbols none with
    | .error e => .error e
    | .ok tr =>
      match applyLagsPooled junk test columns lags c h symbols none with
      | .error e => .error e
      | .ok te =>
        match tr.dropWarmup with
        | .error e => .error e
        | .ok tr' => .ok (tr', te, c, h)

end PyBroker
