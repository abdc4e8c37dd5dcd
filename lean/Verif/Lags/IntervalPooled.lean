import Verif.Lags.IntervalTrain
import Verif.Lags.Pooled

/-!
# The data a pooled model is trained on, on an interval

`ModelsMixin._prepare_pooled_interval_data` of `/repo/src/pybroker/model.py`.

A `frozenset` of symbols is a list in the order it is iterated.  The column of symbols is
`LagInput.symbols`.  The warning about a training window left empty is not part of this file.
-/

namespace PyBroker

/-- What the loop over the symbols makes of one, model.py 2435-2484. -/
structure IvPart where
  symbol : Sym
  names : List String
  arrays : String → Option (List Cell)
  data : IvSymData
  train : LagInput
  test : LagInput

/-- The loop over the symbols, model.py 2435-2472. -/
def intervalPart (compressed : Sym → Iv → Option IvSymData) (registered : List String)
    (data : String → Sym → Option Series) (iv : Iv) (inds : List String)
    (trainDates testDates : List Date) (lookahead : Int) (sym : Sym) : Except IvErr IvPart :=
  match compressed sym iv with
  | none => .error .noData
  | some d =>
    if inds.any (fun i => (data (boundName i iv) sym).isNone) then .error (.input .indicatorMissing)
    else
      let names := d.trainNames registered inds
      let arrays := d.trainArray sym iv registered inds data
      let dates := d.data.bars.map IBar.date
      let kept := (lookaheadTrainDates dates trainDates testDates lookahead).1
      .ok { symbol := sym
            names := names
            arrays := arrays
            data := d
            train := inputOnDates names arrays dates kept
            test := inputOnDates names arrays dates testDates }

/-- `_concat_pooled`, model.py 2486-2498, of the parts that have rows (2473-2484).  A column that
some part lacks is too short for the order: `IndexError`.  A column of `names` that no part has is
missing: `KeyError`. -/
def concatPooled (names : List String) (parts : List (Sym × LagInput)) : Except IvErr LagInput :=
  let parts := parts.filter (fun p => decide (p.2.dates ≠ []))
  if parts = [] then .ok { dates := [], symbols := some [], columns := [], features := none }
  else
    let syms := parts.flatMap (fun p => List.replicate p.2.dates.length p.1)
    let dates := parts.flatMap (fun p => p.2.dates)
    let order := lexOrder syms dates
    let column (c : String) : List Cell := parts.flatMap (fun p => (cacheGet p.2.columns c).getD [])
    let there := parts.flatMap (fun p => p.2.columns.map Prod.fst)
    if there.any (fun c => (pickRows order (column c)).isNone) then .error (.input .misaligned)
    else if names.any (fun c => decide (c ∉ there)) then .error (.input .missingCol)
    else
      match pickRows order syms, pickRows order dates with
      | some ss, some ds =>
        .ok { dates := ds
              symbols := some ss
              columns := names.map (fun c => (c, (pickRows order (column c)).getD []))
              features := none }
      | _, _ => .error (.input .misaligned)

/-- `merge_interval_lag_series_cache`, model.py 569-612, over the symbols of a pool. -/
def mergeParts (iv : Iv) (lc : List String) (n : Nat) : List IvPart → LagCache → Except LagErr LagCache
  | [], c => .ok c
  | p :: rest, c =>
    match LagCache.merge p.symbol n (lagInterval iv)
        (fun col => match p.arrays col with
          | some l => some l
          | none => p.data.column col)
        (lc.filter (fun c => c ≠ "date")) c with
    | .error e => .error e
    | .ok c => mergeParts iv lc n rest c

/-- `history_dates`, model.py 2451. -/
def partDates (parts : List IvPart) (sym : Sym) : Option (List Date) :=
  (parts.find? (fun p => p.symbol = sym)).map (fun p => p.data.data.bars.map IBar.date)

/-- `_prepare_pooled_interval_data`, model.py 2415-2555: the training input, the test input and the
cache. -/
def preparePooledInterval (junk : LagMat) (compressed : Sym → Iv → Option IvSymData)
    (registered dataCols : List String) (data : String → Sym → Option Series) (symbols : List Sym)
    (iv : Iv) (src : TrainSource) (trainDates testDates : List Date) (lookahead : Int)
    (cache : LagCache) : Except IvErr (LagInput × LagInput × LagCache) :=
  match symbols.mapM (intervalPart compressed registered data iv src.indicators trainDates testDates
      lookahead) with
  | .error e => .error e
  | .ok parts =>
    let names := (parts.getLast?.map IvPart.names).getD []
    match concatPooled names (parts.map (fun p => (p.symbol, p.train))) with
    | .error e => .error e
    | .ok train =>
      match concatPooled names (parts.map (fun p => (p.symbol, p.test))) with
      | .error e => .error e
      | .ok test =>
        match src.lags with
        | none => .ok (train, test, cache)
        | some n =>
          let shown := if train.dates = [] then [] else names ++ ["symbol"]
          match lagFeatureCols shown dataCols src.indicators true src.lagCols with
          | none => .error (.input .missingLagCol)
          | some lc =>
            match mergeParts iv lc n parts cache with
            | .error e => .error (.input (.lag e))
            | .ok cache =>
              match applyLagsPooled junk train lc n cache (partDates parts) symbols (lagInterval iv) with
              | .error e => .error (.input (.lag e))
              | .ok train =>
                match applyLagsPooled junk test lc n cache (partDates parts) symbols (lagInterval iv) with
                | .error e => .error (.input (.lag e))
                | .ok test =>
                  match train.dropWarmup with
                  | .error e => .error (.input (.lag e))
                  | .ok train => .ok (train, test, cache)

end PyBroker
