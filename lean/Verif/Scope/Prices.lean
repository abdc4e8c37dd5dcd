import Verif.Scope.Store

/-!
# Bar prices and predictions

`PriceScope` and `PredictionScope` of `/repo/src/pybroker/scope.py`.
-/

namespace PyBroker

/-! ## Prices -/

inductive PriceErr where
  | notFound
  deriving DecidableEq, Repr

/-- `PriceScope`, scope.py:2219-2236.  The end indexes are shared with the bar loop
(`sym_end_index`). -/
structure PriceScope where
  store : Store
  endIndex : Sym → Nat
  round : Bool
  barCache : List ((Sym × PriceType) × Cell) := []
  hasBarCache : List ((Sym × Date) × Bool) := []
  ohlcCache : List ((Sym × Date) × (Cell × Cell × Cell)) := []

/-- `reset_bar`, scope.py:2238-2242. -/
def PriceScope.resetBar (s : PriceScope) : PriceScope :=
  { s with barCache := [], hasBarCache := [], ohlcCache := [] }

/-- The bar loop's `sym_end_index[sym] += 1`, strategy.py:871. -/
def PriceScope.advance (s : PriceScope) (active : List Sym) : PriceScope :=
  { s with endIndex := bumpIndexes active s.endIndex }

/-- `_column_value`, scope.py:2285-2295.  A missing symbol (`KeyError`) and an empty
array (`IndexError`) are `notFound` too. -/
def PriceScope.columnValue (s : PriceScope) (sym : Sym) (col : String) : Except PriceErr Cell :=
  let e := s.endIndex sym
  if e ≤ 0 then .error .notFound
  else match (s.store.arrays sym).bind (fun a => a.col col) with
    | none => .error .notFound
    | some arr =>
      let e := if e > arr.length then arr.length else e
      match arr[e - 1]? with
      | none => .error .notFound
      | some v => .ok v

/-- Float arithmetic on cells: NaN propagates. -/
def cell2 (f : ℚ → ℚ → ℚ) : Cell → Cell → Cell
  | some a, some b => some (f a b)
  | _, _ => none

/-- A read through the price cache, scope.py:2311-2314, 2335: on a miss `compute`
gives the value and the scope after its own nested reads. -/
def PriceScope.cached (s : PriceScope) (sym : Sym) (p : PriceType)
    (compute : PriceScope → Except PriceErr Cell × PriceScope) :
    Except PriceErr Cell × PriceScope :=
  match cacheGet s.barCache (sym, p) with
  | some v => (.ok v, s)
  | none =>
    match compute s with
    | (.error x, s') => (.error x, s')
    | (.ok v, s') => (.ok v, { s' with barCache := ((sym, p), v) :: s'.barCache })

/-- `_fetch_price_type` for a column price, scope.py:2315-2322. -/
def PriceScope.fetchCol (s : PriceScope) (sym : Sym) (p : PriceType) (col : String) :
    Except PriceErr Cell × PriceScope :=
  s.cached sym p (fun s => (s.columnValue sym col, s))

/-- `_fetch_price_type`, scope.py:2310-2336. -/
def PriceScope.fetchPriceType (s : PriceScope) (sym : Sym) :
    PriceType → Except PriceErr Cell × PriceScope
  | .open => s.fetchCol sym .open "open"
  | .high => s.fetchCol sym .high "high"
  | .low => s.fetchCol sym .low "low"
  | .close => s.fetchCol sym .close "close"
  | .middle => s.cached sym .middle (fun s =>
      match s.fetchCol sym .low "low" with
      | (.error x, s) => (.error x, s)
      | (.ok low, s) =>
        match s.fetchCol sym .high "high" with
        | (.error x, s) => (.error x, s)
        | (.ok high, s) => (.ok (cell2 (fun l h => l + (h - l) / 2) low high), s))
  | .average => s.cached sym .average (fun s =>
      match s.fetchCol sym .open "open" with
      | (.error x, s) => (.error x, s)
      | (.ok opn, s) =>
        match s.fetchCol sym .low "low" with
        | (.error x, s) => (.error x, s)
        | (.ok low, s) =>
          match s.fetchCol sym .high "high" with
          | (.error x, s) => (.error x, s)
          | (.ok high, s) =>
            match s.fetchCol sym .close "close" with
            | (.error x, s) => (.error x, s)
            | (.ok close, s) =>
              (.ok (cell2 (fun a b => (a + b) / 4) (cell2 (· + ·) opn low)
                (cell2 (· + ·) high close)), s))

/-- `_round_float`, scope.py:2306-2308: to cents, halves away from zero. -/
def roundCents (p : ℚ) : ℚ :=
  if 0 ≤ p then (truncQ (p * 100 + 1 / 2) : ℚ) / 100
  else -((truncQ (-p * 100 + 1 / 2) : ℚ) / 100)

/-- `_round_float`, scope.py:2297-2308: NaN passes through. -/
def PriceScope.roundFloat (s : PriceScope) (p : Cell) : Cell :=
  if s.round then p.map roundCents else p

/-- The fill prices of `fetch_float`, scope.py:2338-2362: a price type, a number, or
a function of the symbol and its bars so far. -/
inductive FillPrice where
  | type (p : PriceType)
  | value (v : ℚ)
  | fn (f : Sym → Option SymArrays → Cell)

/-- `bar_data_from_data_columns(symbol, end_index)`, scope.py: the arrays cut at the
end index. -/
def SymArrays.upTo (a : SymArrays) (n : Nat) : SymArrays where
  dates := a.dates.take n
  col c := (a.col c).map (List.take n)

/-- `fetch_float`, scope.py:2338-2362. -/
def PriceScope.fetchFloat (s : PriceScope) (sym : Sym) :
    FillPrice → Except PriceErr Cell × PriceScope
  | .type p =>
    match s.fetchPriceType sym p with
    | (.error x, s') => (.error x, s')
    | (.ok v, s') => (.ok (s.roundFloat v), s')
  | .value v => (.ok (s.roundFloat (some v)), s)
  | .fn f => (.ok (s.roundFloat (f sym ((s.store.arrays sym).map (fun a => a.upTo (s.endIndex sym))))), s)

/-- `_has_bar_on`, scope.py:2274-2283. -/
def PriceScope.hasBarOnRaw (s : PriceScope) (sym : Sym) (date : Date) : Bool :=
  let e := s.endIndex sym
  if e ≤ 0 then false
  else match s.store.arrays sym with
    | none => false
    | some a =>
      let e := if e > a.dates.length then a.dates.length else e
      (a.dates[e - 1]?) == some date

/-- `has_bar_on`, scope.py:2253-2272. -/
def PriceScope.hasBarOn (s : PriceScope) (sym : Sym) (date : Date) : Bool × PriceScope :=
  match cacheGet s.hasBarCache (sym, date) with
  | some b => (b, s)
  | none =>
    (s.hasBarOnRaw sym date,
      { s with hasBarCache := ((sym, date), s.hasBarOnRaw sym date) :: s.hasBarCache })

/-- `_fetch_bar_ohlc`, scope.py:2384-2411: close, low and high of the bar of the
date.  A missing column and NaN are both `none`. -/
def PriceScope.barOhlcRaw (s : PriceScope) (sym : Sym) (date : Date) : Cell × Cell × Cell :=
  let e := s.endIndex sym
  if e ≤ 0 then (none, none, none)
  else match s.store.arrays sym with
    | none => (none, none, none)
    | some a =>
      let e := if e > a.dates.length then a.dates.length else e
      if a.dates[e - 1]? ≠ some date then (none, none, none)
      else
        let at_ := fun c => ((a.col c).bind (fun arr => arr[e - 1]?)).join
        (at_ "close", at_ "low", at_ "high")

/-- `fetch_bar_ohlc`, scope.py:2364-2382. -/
def PriceScope.barOhlc (s : PriceScope) (sym : Sym) (date : Date) :
    (Cell × Cell × Cell) × PriceScope :=
  match cacheGet s.ohlcCache (sym, date) with
  | some b => (b, s)
  | none =>
    (s.barOhlcRaw sym date,
      { s with ohlcCache := ((sym, date), s.barOhlcRaw sym date) :: s.ohlcCache })

/-! ## Predictions -/

inductive PredErr where
  | noInput | wrongLength | noPredictions
  deriving DecidableEq, Repr

/-- `PredictionScope.fetch` of a model that is not per bar, scope.py:2102-2124:
`input` is the model's input for the whole window, `cache` the predictions kept for
the model and symbol. -/
def fetchPreds {α : Type} (predict : List α → List Cell) (input : List α)
    (cache : Option (List Cell)) (endIndex : Option Int) :
    Except PredErr (List Cell) × Option (List Cell) :=
  match cache with
  | some preds => (.ok (sliceTo preds endIndex), cache)
  | none =>
    if input = [] then (.error .noInput, none)
    else
      let pred := predict input
      if pred.length ≠ input.length then (.error .wrongLength, none)
      else (.ok (sliceTo pred endIndex), some pred)

/-- `_run_predict_scalar`, scope.py:2192-2216. -/
def predictScalar {α : Type} (predict : List α → List Cell) (input : List α) :
    Except PredErr Cell :=
  let flat := predict input
  match flat.getLast? with
  | none => .error .noPredictions
  | some v => if flat.length ≠ 1 ∧ flat.length ≠ input.length then .error .wrongLength else .ok v

/-- The loop `while preds.filled < target_len` of `_fetch_per_bar`, scope.py:2142-2148,
with the number of rounds left as fuel. -/
def fillPerBar {α : Type} (junk : Nat → Cell) (predict : List α → List Cell) (input : List α) :
    Nat → PerBar → Option PredErr × PerBar
  | 0, p => (none, p)
  | n + 1, p =>
    match predictScalar predict (input.take (p.filled + 1)) with
    | .error x => (some x, p)
    | .ok v => fillPerBar junk predict input n (p.append junk v)

/-- `_fetch_per_bar`, scope.py:2126-2153. -/
def fetchPerBar {α : Type} (junk : Nat → Cell) (predict : List α → List Cell) (input : List α)
    (p : PerBar) (endIndex : Option Int) : Except PredErr (List Cell) × PerBar :=
  let target : Int := endIndex.getD input.length
  match fillPerBar junk predict input (target - p.filled).toNat p with
  | (some x, p) => (.error x, p)
  | (none, p) => (.ok (sliceTo (p.values p.filled) endIndex), p)

end PyBroker
