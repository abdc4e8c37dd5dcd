import Verif.Scope.Interval

/-!
# The data a model is trained on, on an interval

`build_compressed_symbol_arrays` and `slice_arrays_by_dates` of
`/repo/src/pybroker/interval.py` and `ModelsMixin._prepare_interval_symbol_data` of
`/repo/src/pybroker/model.py`.

The warning about a training window left empty is not part of this file.
-/

namespace PyBroker

/-- The names of `build_compressed_symbol_arrays`, interval.py 554-587. -/
def IvSymData.trainNames (d : IvSymData) (registered inds : List String) : List String :=
  ["date", "open", "high", "low", "close", "volume"] ++ (if d.hasVwap then ["vwap"] else []) ++
    registered.filter (fun c => c ∈ d.custom) ++ inds

/-- `arrays.get` of `build_compressed_symbol_arrays`, interval.py 562-588: an indicator replaces
a data column of its name.  `data` are the computed indicators. -/
def IvSymData.trainArray (d : IvSymData) (sym : Sym) (iv : Iv) (registered inds : List String)
    (data : String → Sym → Option Series) (c : String) : Option (List Cell) :=
  if c ∈ inds then (data (boundName c iv) sym).map (fun ser => ser.map Prod.snd)
  else if c = "date" then some (d.data.bars.map (fun b => some ((b.date : Int) : ℚ)))
  else if c ∈ ["open", "high", "low", "close", "volume", "vwap"] then d.column c
  else if c ∈ registered ∧ c ∈ d.custom then some (d.data.bars.map (fun b => b.custom c))
  else none

/-- `slice_arrays_by_dates`, interval.py 592-607, with `model_input_from_arrays`, model.py
426-432. -/
def inputOnDates (names : List String) (arrays : String → Option (List Cell)) (dates selected : List Date) :
    LagInput :=
  let mask := dates.map (fun t => decide (t ∈ selected))
  { dates := maskRows mask dates
    symbols := none
    columns := names.filterMap (fun c => (arrays c).map (fun l => (c, maskRows mask l)))
    features := none }

/-- The part of a `ModelSource` that training uses, model.py 1188-1210. -/
structure TrainSource where
  indicators : List String
  lags : Option Nat
  lagCols : List String

/-- The lag features of the training and the test input, model.py 2608-2653. -/
def IvSymData.lagTrainInputs (junk : LagMat) (d : IvSymData) (sym : Sym) (iv : Iv) (names : List String)
    (arrays : String → Option (List Cell)) (dataCols : List String) (src : TrainSource) (n : Nat)
    (train test : LagInput) (cache : LagCache) : Except IvErr (LagInput × LagInput × LagCache) :=
  match lagFeatureCols names dataCols src.indicators false src.lagCols with
  | none => .error (.input .missingLagCol)
  | some lc =>
    let column (c : String) : Option (List Cell) :=
      match arrays c with
      | some l => some l
      | none => d.column c
    let dates := d.data.bars.map IBar.date
    match LagCache.merge sym n (lagInterval iv) column (lc.filter (fun c => c ≠ "date")) cache with
    | .error e => .error (.input (.lag e))
    | .ok cache =>
      match applyLags junk train lc n cache sym dates (lagInterval iv) with
      | .error e => .error (.input (.lag e))
      | .ok train =>
        match applyLags junk test lc n cache sym dates (lagInterval iv) with
        | .error e => .error (.input (.lag e))
        | .ok test =>
          match train.dropWarmup with
          | .error e => .error (.input (.lag e))
          | .ok train => .ok (train, test, cache)

/-- `_prepare_interval_symbol_data`, model.py 2557-2658: the training input, the test input and
the cache. -/
def prepareIntervalInput (junk : LagMat) (compressed : Sym → Iv → Option IvSymData)
    (registered dataCols : List String) (data : String → Sym → Option Series) (sym : Sym) (iv : Iv)
    (src : TrainSource) (trainDates testDates : List Date) (lookahead : Int) (cache : LagCache) :
    Except IvErr (LagInput × LagInput × LagCache) :=
  match compressed sym iv with
  | none => .error .noData
  | some d =>
    if src.indicators.any (fun i => (data (boundName i iv) sym).isNone) then
      .error (.input .indicatorMissing)
    else
      let names := d.trainNames registered src.indicators
      let arrays := d.trainArray sym iv registered src.indicators data
      let dates := d.data.bars.map IBar.date
      let kept := (lookaheadTrainDates dates trainDates testDates lookahead).1
      let train := inputOnDates names arrays dates kept
      let test := inputOnDates names arrays dates testDates
      match src.lags with
      | none => .ok (train, test, cache)
      | some n => d.lagTrainInputs junk sym iv names arrays dataCols src n train test cache

end PyBroker
