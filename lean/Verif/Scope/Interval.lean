import Verif.Scope.Input
import Verif.Scope.Prices
import Verif.Interval.Model
import Verif.Text.Model

/-!
# Models and indicators on an interval

`IntervalScope` of `/repo/src/pybroker/scope.py`, with `merge_interval_lag_series_cache` and
`ModelInput.slice_range` of `/repo/src/pybroker/model.py`.

The user's prediction function does not raise.  `_bar_cache` only avoids looking a column up
twice and is left out.
-/

namespace PyBroker

/-- `indicator_interval_name` and `model_interval_name`, interval.py 320-322, 341, of an interval
that is accepted. -/
def boundName (base : String) (iv : Iv) : String :=
  String.ofList ((intervalName base.toList iv).getD [])

/-- `CompressedSymbolData`, interval.py 142-148: whether its bars have a vwap, and their custom
columns. -/
structure IvSymData where
  data : Compressed
  hasVwap : Bool
  custom : List String

/-- `_bars_column_array`, model.py 384-399. -/
def IvSymData.column (d : IvSymData) (c : String) : Option (List Cell) :=
  if c = "open" then some (d.data.bars.map IBar.opn)
  else if c = "high" then some (d.data.bars.map IBar.high)
  else if c = "low" then some (d.data.bars.map IBar.low)
  else if c = "close" then some (d.data.bars.map IBar.close)
  else if c = "volume" then some (d.data.bars.map IBar.volume)
  else if c = "vwap" then (if d.hasVwap then some (d.data.bars.map IBar.vwap) else none)
  else if c ∈ d.custom then some (d.data.bars.map (fun b => b.custom c))
  else none

/-- What a prediction function is given: a data frame, or the lag features. -/
inductive PredArg
  | frame (columns : List (String × List Cell))
  | lags (rows : List (List Cell))

/-- The choice of `_run_predict`, scope.py 2162-2168. -/
def LagInput.shown (x : LagInput) : PredArg :=
  match x.features with
  | some f => .lags f
  | none => .frame x.columns

/-- `TrainedModel`, common.py 106-133, with its prediction function. -/
structure IvModel where
  info : InModel
  perBar : Bool
  predict : PredArg → List Cell

/-- The errors of `IntervalScope`. -/
inductive IvErr
  | badInterval | noData | noInput | wrongLength | noPredictions | read (e : ReadErr)
  | input (e : InputErr)
  deriving DecidableEq, Repr

/-- `IntervalScope`, scope.py 1350-1380.  `registered` are the registered columns in order,
`dataCols` all data columns. -/
structure IvScope where
  compressed : Sym → Iv → Option IvSymData
  registered : List String
  dataCols : List String
  sources : String → Option InSource
  models : String → Sym → Option IvModel
  ind : IndScope
  lagCache : LagCache := fun _ => none
  lagKeys : List (Sym × Option Str × List String × Nat) := []
  inputs : List ((String × Sym) × LagInput) := []
  warmups : List ((String × Sym) × Nat) := []
  preds : List ((String × Sym) × List Cell) := []
  perBar : List ((String × Sym) × PerBar) := []

/-- `window_len`, scope.py 1425-1446. -/
def Compressed.windowLen (c : Compressed) : Nat :=
  if c.completed.length = 0 then 0
  else
    let last := c.completed.getLastD (-1)
    if last < 0 then 0 else min (last + 1).toNat c.bars.length

/-- The indicators of `_build_compressed_model_input`, scope.py 1778-1781. -/
def readBound (sym : Sym) (iv : Iv) (cap : Nat) : List String → IndScope →
    List (String × List Cell) → Except IvErr (List (String × List Cell)) × IndScope
  | [], ind, d => (.ok d, ind)
  | i :: rest, ind, d =>
    match ind.fetch sym (boundName i iv) none with
    | (.error e, ind') => (.error (.read e), ind')
    | (.ok l, ind') => readBound sym iv cap rest ind' (assocPut d i (l.take cap))

/-- The data columns of `_build_compressed_model_input`, scope.py 1764-1777. -/
def IvSymData.dataColumns (d : IvSymData) (registered : List String) (cap : Nat) :
    List (String × List Cell) :=
  let bars := d.data.bars.take cap
  let base := [("date", bars.map (fun b => some ((b.date : Int) : ℚ))), ("open", bars.map IBar.opn),
    ("high", bars.map IBar.high), ("low", bars.map IBar.low), ("close", bars.map IBar.close),
    ("volume", bars.map IBar.volume)]
  let vwap := if d.hasVwap then assocPut base "vwap" (bars.map IBar.vwap) else base
  (registered.filter (fun c => c ∈ d.custom)).foldl
    (fun a c => assocPut a c (bars.map (fun b => b.custom c))) vwap

/-- `_build_compressed_model_input`, scope.py 1744-1783. -/
def IvScope.buildInput (s : IvScope) (d : IvSymData) (sym : Sym) (iv : Iv) (src : InSource) :
    Except IvErr LagInput × IvScope :=
  let cap := d.data.windowLen
  match readBound sym iv cap src.indicators s.ind (d.dataColumns s.registered cap) with
  | (.error e, ind') => (.error e, { s with ind := ind' })
  | (.ok cols, ind') =>
    (.ok { dates := (d.data.bars.take cap).map IBar.date, symbols := none, columns := cols,
           features := none },
      { s with ind := ind' })

/-- `arrays_by_symbol` of `_ensure_lag_cache`, scope.py 1402-1411. -/
def readLagArrays (sym : Sym) (iv : Iv) : List String → IndScope →
    List (String × List Cell) → Except IvErr (List (String × List Cell)) × IndScope
  | [], ind, d => (.ok d, ind)
  | c :: rest, ind, d =>
    if (ind.data (boundName c iv) sym).isSome then
      match ind.fetch sym (boundName c iv) none with
      | (.error e, ind') => (.error (.read e), ind')
      | (.ok l, ind') => readLagArrays sym iv rest ind' (assocPut d c l)
    else readLagArrays sym iv rest ind d

/-- `format_interval` of an accepted interval, as the interval of a lag key. -/
def lagInterval (iv : Iv) : Option String := (formatIv iv).map String.ofList

/-- `_ensure_lag_cache`, scope.py 1382-1423, with `merge_interval_lag_series_cache`, model.py
569-610. -/
def IvScope.ensureLags (s : IvScope) (d : IvSymData) (sym : Sym) (iv : Iv) (columns : List String)
    (lags : Nat) : Except IvErr Unit × IvScope :=
  let key := (sym, formatIv iv, columns, lags)
  if key ∈ s.lagKeys then (.ok (), s)
  else
    match readLagArrays sym iv columns s.ind [] with
    | (.error e, ind') => (.error e, { s with ind := ind' })
    | (.ok arrays, ind') =>
      let column (c : String) : Option (List Cell) :=
        match cacheGet arrays c with
        | some l => some l
        | none => d.column c
      match LagCache.merge sym lags (lagInterval iv) column (columns.filter (fun c => c ≠ "date"))
          s.lagCache with
      | .error e => (.error (.input (.lag e)), { s with ind := ind' })
      | .ok c => (.ok (), { s with ind := ind', lagCache := c, lagKeys := key :: s.lagKeys })

/-- Attaching the lag features, scope.py 1706-1727. -/
def IvScope.addLags (junk : LagMat) (s : IvScope) (d : IvSymData) (sym : Sym) (iv : Iv)
    (x : LagInput) (lags : Option Nat) (lagCols : Option (List String)) :
    Except IvErr LagInput × IvScope :=
  match lagCols, lags with
  | some lc, some n =>
    if lc.all (fun c => c ∈ x.columns.map Prod.fst) then
      match s.ensureLags d sym iv lc n with
      | (.error e, s') => (.error e, s')
      | (.ok (), s') =>
        match applyLags junk x lc n s'.lagCache sym
            ((d.data.bars.map IBar.date).take d.data.windowLen) (lagInterval iv) with
        | .error e => (.error (.input (.lag e)), s')
        | .ok y => (.ok y, s')
    else (.error (.input .missingLagCol), s)
  | _, _ => (.ok x, s)

/-- `_prepare_full_input`, scope.py 1687-1742.  `iv` is normalised. -/
def IvScope.prepare (junk : LagMat) (s : IvScope) (sym : Sym) (iv : Iv) (base : String) :
    Except IvErr LagInput × IvScope :=
  match cacheGet s.inputs (boundName base iv, sym) with
  | some x => (.ok x, s)
  | none =>
    match s.sources base with
    | none => (.error (.input .modelNotFound), s)
    | some src =>
      match s.compressed sym iv with
      | none => (.error .noData, s)
      | some d =>
        match s.buildInput d sym iv src with
        | (.error e, s') => (.error e, s')
        | (.ok x, s') =>
          match s'.models (boundName base iv) sym with
          | none => (.error (.input .notTrained), s')
          | some tm =>
            match resolveLagCols s'.dataCols src tm.info (some (x.columns.map Prod.fst)) with
            | .error e => (.error (.input e), s')
            | .ok lagCols =>
              match s'.addLags junk d sym iv x src.lags lagCols with
              | (.error e, s'') => (.error e, s'')
              | (.ok y, s'') =>
                match finishInput src tm.info y with
                | .error e => (.error (.input e), s'')
                | .ok z =>
                  (.ok z, { s'' with
                    warmups := ((boundName base iv, sym), z.warmupLen) :: s''.warmups
                    inputs := ((boundName base iv, sym), z) :: s''.inputs })

/-- `completed_index`, scope.py 1462-1478, of a symbol and interval. -/
def IvScope.completedIndex (s : IvScope) (sym : Sym) (iv : Iv) (e : Int) : Except IvErr Int :=
  match s.compressed sym iv with
  | none => .error .noData
  | some d => .ok (d.data.completedIndex e)

/-- `fetch_indicator`, scope.py 1527-1540. -/
def IvScope.fetchIndicator (s : IvScope) (sym : Sym) (iv : Iv) (base : String) (e : Int) :
    Except IvErr (List Cell) × IvScope :=
  match normalizeIv iv with
  | none => (.error .badInterval, s)
  | some iv =>
    match s.ind.fetch sym (boundName base iv) none with
    | (.error r, ind') => (.error (.read r), { s with ind := ind' })
    | (.ok l, ind') =>
      match s.completedIndex sym iv e with
      | .error r => (.error r, { s with ind := ind' })
      | .ok idx => (.ok (if idx < 0 then [] else l.take (idx + 1).toNat), { s with ind := ind' })

/-- `fetch_input`, scope.py 1542-1556. -/
def IvScope.fetchInput (junk : LagMat) (s : IvScope) (sym : Sym) (iv : Iv) (base : String) (e : Int) :
    Except IvErr LagInput × IvScope :=
  match normalizeIv iv with
  | none => (.error .badInterval, s)
  | some iv =>
    match s.completedIndex sym iv e with
    | .error r => (.error r, s)
    | .ok idx =>
      match s.prepare junk sym iv base with
      | (.error r, s') => (.error r, s')
      | (.ok x, s') => (.ok (if idx < 0 then x.slice (some 0) else x.slice (some (idx + 1))), s')

/-- `ModelInput.slice_range`, model.py 132-161, for a start and an end in the input. -/
def LagInput.sliceRange (x : LagInput) (start : Nat) (stop : Option Nat) : LagInput :=
  if start = 0 then x.slice (stop.map (fun n => (n : Int)))
  else
    let cut {α : Type} (l : List α) : List α :=
      match stop with
      | some n => (l.take n).drop start
      | none => l.drop start
    { dates := cut x.dates
      symbols := x.symbols.map (fun l => cut l)
      columns := x.columns.map (fun p => (p.1, cut p.2))
      features := x.features.map (fun f => cut f) }

/-- The predictions of a whole window, scope.py 1583-1629. -/
def windowPreds (predict : PredArg → List Cell) (x : LagInput) (warmup : Nat) :
    Except IvErr (List Cell) :=
  if x.dates = [] ∨ x.columns = [] then .error .noInput
  else if warmup ≥ x.dates.length then .ok (List.replicate x.dates.length none)
  else if warmup ≠ 0 then
    let tail := predict (x.sliceRange warmup none).shown
    if tail.length ≠ x.dates.length - warmup then .error .wrongLength
    else .ok (List.replicate warmup none ++ tail)
  else
    let pred := predict x.shown
    if pred.length ≠ x.dates.length then .error .wrongLength else .ok pred

/-- `_run_predict_scalar`, scope.py 2192-2216, of an input. -/
def scalarPred (predict : PredArg → List Cell) (x : LagInput) : Except IvErr Cell :=
  let flat := predict x.shown
  match flat.getLast? with
  | none => .error .noPredictions
  | some v =>
    if flat.length ≠ 1 ∧ flat.length ≠ x.dates.length then .error .wrongLength else .ok v

/-- The loop of `_fetch_preds_per_bar`, scope.py 1658-1668, with the number of rounds left as
fuel. -/
def fillInterval (pjunk : Nat → Cell) (predict : PredArg → List Cell) (x : LagInput) (warmup : Nat) :
    Nat → PerBar → Option IvErr × PerBar
  | 0, p => (none, p)
  | n + 1, p =>
    if p.filled < warmup then fillInterval pjunk predict x warmup n (p.append pjunk none)
    else
      match scalarPred predict (x.sliceRange warmup (some (p.filled + 1))) with
      | .error e => (some e, p)
      | .ok v => fillInterval pjunk predict x warmup n (p.append pjunk v)

/-- `_fetch_preds_per_bar`, scope.py 1634-1669. -/
def IvScope.fetchPerBar (junk : LagMat) (pjunk : Nat → Cell) (s : IvScope) (sym : Sym) (iv : Iv)
    (base : String) (tm : IvModel) (e : Int) : Except IvErr (List Cell) × IvScope :=
  let key := (boundName base iv, sym)
  let preds := (cacheGet s.perBar key).getD {}
  let s := { s with perBar := (key, preds) :: s.perBar }
  match s.completedIndex sym iv e with
  | .error r => (.error r, s)
  | .ok idx =>
    let target := idx + 1
    if target ≤ 0 then (.ok [], s)
    else if (preds.filled : Int) ≥ target then (.ok (preds.values target), s)
    else
      match s.prepare junk sym iv base with
      | (.error r, s') => (.error r, s')
      | (.ok x, s') =>
        let warmup := (cacheGet s'.warmups key).getD 0
        match fillInterval pjunk tm.predict x warmup (target - preds.filled).toNat preds with
        | (some r, p) => (.error r, { s' with perBar := (key, p) :: s'.perBar })
        | (none, p) => (.ok (p.values target), { s' with perBar := (key, p) :: s'.perBar })

/-- `fetch_preds`, scope.py 1558-1632. -/
def IvScope.fetchPreds (junk : LagMat) (pjunk : Nat → Cell) (s : IvScope) (sym : Sym) (iv : Iv)
    (base : String) (e : Int) : Except IvErr (List Cell) × IvScope :=
  match normalizeIv iv with
  | none => (.error .badInterval, s)
  | some iv =>
    let key := (boundName base iv, sym)
    match s.models key.1 sym with
    | none => (.error (.input .notTrained), s)
    | some tm =>
      if tm.perBar then s.fetchPerBar junk pjunk sym iv base tm e
      else
        match s.completedIndex sym iv e with
        | .error r => (.error r, s)
        | .ok idx =>
          if idx < 0 then (.ok [], s)
          else
            match cacheGet s.preds key with
            | some pred => (.ok (pred.take (idx + 1).toNat), s)
            | none =>
              match s.prepare junk sym iv base with
              | (.error r, s') => (.error r, s')
              | (.ok x, s') =>
                match windowPreds tm.predict x ((cacheGet s'.warmups key).getD 0) with
                | .error r => (.error r, s')
                | .ok pred =>
                  (.ok (pred.take (idx + 1).toNat), { s' with preds := (key, pred) :: s'.preds })

/-- What can be read of an interval. -/
inductive IvKind
  | indicator | input | preds
  deriving DecidableEq, Repr

/-- A read: the uninitialised memory it may allocate, what is read, the symbol, the interval,
the name and the end index. -/
structure IvRead where
  junk : LagMat
  pjunk : Nat → Cell
  kind : IvKind
  symbol : Sym
  interval : Iv
  name : String
  stop : Int

/-- The scope after a read. -/
def IvScope.after (s : IvScope) (r : IvRead) : IvScope :=
  match r.kind with
  | .indicator => (s.fetchIndicator r.symbol r.interval r.name r.stop).2
  | .input => (s.fetchInput r.junk r.symbol r.interval r.name r.stop).2
  | .preds => (s.fetchPreds r.junk r.pjunk r.symbol r.interval r.name r.stop).2

/-- A sequence of reads. -/
def IvScope.run (s : IvScope) (reads : List IvRead) : IvScope := reads.foldl IvScope.after s

end PyBroker
