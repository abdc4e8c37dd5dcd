import Verif.Scope.Store
import Verif.Optimize.Model
import Verif.Cache.Query
import Verif.Text.Model

/-!
# Computing indicators

`Indicator.__call__`, `IndicatorsMixin` and `IndicatorSet` of
`/repo/src/pybroker/indicator.py`.

The function of an indicator is an arbitrary function of the bars and its arguments.
The process pool evaluates its tasks and returns their results in order, so that the
parallel and the serial branch of `_run_indicators` are one.  Logging is left out, and
which of several errors is raised first is not modelled.
-/

namespace PyBroker

/-- `IndicatorSymbol`, common.py:82-91. -/
structure IndSym where
  name : Str
  symbol : Sym
  deriving DecidableEq, Repr

/-- `Indicator`, 90-111: the keyword arguments and the function. -/
structure IndDef (V : Type) where
  kwargs : SDict (HArg V)
  fn : SymArrays → SDict (RArg V) → List Cell

/-- The errors raised. -/
inductive IErr
  | notRegistered | noSymbol | noInterval | missingHyper | badLength | noIndicators
  deriving DecidableEq, Repr

/-- The hyperparameters among the keyword arguments. -/
def IndDef.hypers {V : Type} (d : IndDef V) : List Hyper :=
  d.kwargs.filterMap (fun e => match e.2 with
    | .hp h => some h
    | .plain _ => none)

/-- `_find_hyperparam_names`, optimize.py:225-228, as a sorted list. -/
def IndDef.hyperNames {V : Type} (d : IndDef V) : List String :=
  ((d.hypers.map Hyper.name).dedup).insertionSort (· ≤ ·)

/-- `_hyperparam_specs_from_kwargs`, optimize.py:258-265: of two hyperparameters of one
name the last is used. -/
def IndDef.specs {V : Type} (d : IndDef V) : SDict Hyper :=
  d.hypers.foldl (fun acc h => SDict.put acc h.name h) []

/-- The hyperparameters a call uses, 181-190: those given, or else the defaults. -/
def IndDef.effective {V : Type} (d : IndDef V) (hyper : Option (SDict HNum)) :
    Except IErr (SDict HNum) :=
  match hyper with
  | some h => .ok h
  | none =>
    match buildRun d.specs none with
    | .error _ => .error .missingHyper
    | .ok r => .ok r

/-- The arguments the function is called with, 181-195. -/
def IndDef.args {V : Type} (d : IndDef V) (hyper : Option (SDict HNum)) :
    Except IErr (SDict (RArg V)) :=
  match d.effective hyper with
  | .error e => .error e
  | .ok params =>
    match resolveArgs params d.kwargs with
    | .error _ => .error .missingHyper
    | .ok a => .ok a

/-- `Indicator.__call__`, 173-201.  A series has one value per date, or its
construction raises. -/
def IndDef.call {V : Type} (d : IndDef V) (hyper : Option (SDict HNum)) (bars : SymArrays) :
    Except IErr Series :=
  match d.args hyper with
  | .error e => .error e
  | .ok a =>
    let values := d.fn bars a
    if values.length = bars.dates.length then .ok (bars.dates.zip values) else .error .badLength

/-- The registered indicators by base name and the registered data columns:
`StaticScope`. -/
structure IndReg (V : Type) where
  ind : Str → Option (IndDef V)
  cols : List String

/-- The data indicators are computed on: the arrays of the symbols and the compressed
bars by symbol and interval. -/
structure IndData where
  store : Store
  compressed : Sym → Iv → Option SymArrays

/-- `_indicator_args`, 232-271, with `sym_data_from_store` (scope.py:841-849): the bars
of the symbol, or of its interval. -/
def IndData.bars (x : IndData) (cols : List String) (sym : Sym) (iv : Option Iv) :
    Except IErr SymArrays :=
  match iv with
  | some i =>
    match x.compressed sym i with
    | none => .error .noInterval
    | some b => .ok b
  | none =>
    match x.store.arrays sym with
    | none => .error .noSymbol
    | some a => .ok { dates := a.dates, col := fun c => if c ∈ cols then a.col c else none }

/-- `fns[ind_name](**_indicator_args(...))`, 291-312 and 315-346. -/
def runIndicator {V : Type} (reg : IndReg V) (x : IndData) (hyper : Option (SDict HNum))
    (p : IndSym) : Except IErr Series :=
  match reg.ind (parseName p.name).1 with
  | none => .error .notRegistered
  | some d =>
    match x.bars reg.cols p.symbol (parseName p.name).2 with
    | .error e => .error e
    | .ok b => d.call hyper b

/-! ## Caches -/

/-- `IndicatorCacheKey`, cache.py:209-219. -/
structure IndKey where
  symbol : Sym
  tfSeconds : Nat
  start : Int
  stop : Int
  betweenTime : Option (String × String)
  days : Option (List Nat)
  name : Str
  deriving DecidableEq

/-- `IndicatorCacheKey.from_date_fields`, cache.py:221-237. -/
def indKey (f : DateFields) (p : IndSym) : IndKey :=
  ⟨p.symbol, f.tfSeconds, f.start, f.stop, f.betweenTime, f.days, p.name⟩

/-- The indicator cache. -/
abbrev IndCache := IndKey → Option Series

/-- A key of `_indicator_memo`, 383-403: name, symbol and sorted hyperparameters.  Values
are compared with their type; Python compares `1` and `1.0` as equal. -/
structure MemoKey where
  name : Str
  symbol : Sym
  params : List (String × HNum)
  deriving DecidableEq

/-- `{n: hyperparams[n] for n in names}`, 398. -/
def subsetOf (params : SDict HNum) : List String → Except IErr (List (String × HNum))
  | [] => .ok []
  | n :: rest =>
    match params.get n with
    | none => .error .missingHyper
    | some v =>
      match subsetOf params rest with
      | .error e => .error e
      | .ok l => .ok ((n, v) :: l)

/-- `_memo_key`, 383-403: no key for an indicator without hyperparameters. -/
def memoKey {V : Type} (reg : IndReg V) (p : IndSym) (hyper : Option (SDict HNum)) :
    Except IErr (Option MemoKey) :=
  match reg.ind (parseName p.name).1 with
  | none => .error .notRegistered
  | some d =>
    if d.hyperNames = [] then .ok none
    else
      match d.effective hyper with
      | .error e => .error e
      | .ok params =>
        match subsetOf params d.hyperNames with
        | .error e => .error e
        | .ok l => .ok (some ⟨p.name, p.symbol, l⟩)

/-- The caches of an `IndicatorsMixin`: the indicator cache, if enabled, and the memo in
insertion order. -/
structure IndState where
  cache : Option IndCache
  memo : List (MemoKey × Series)
  memoMax : Nat

/-- `d[k] = v` for a dict in insertion order. -/
def assocPut {K V : Type} [DecidableEq K] : List (K × V) → K → V → List (K × V)
  | [], k, v => [(k, v)]
  | (k', v') :: rest, k, v => if k' = k then (k', v) :: rest else (k', v') :: assocPut rest k v

/-- `_get_memoized_indicator`, 405-415. -/
def IndState.getMemo {V : Type} (st : IndState) (reg : IndReg V) (p : IndSym)
    (hyper : Option (SDict HNum)) : Except IErr (Option Series) :=
  if st.memoMax = 0 then .ok none
  else
    match memoKey reg p hyper with
    | .error e => .error e
    | .ok none => .ok none
    | .ok (some k) => .ok (cacheGet st.memo k)

/-- `_set_memoized_indicator`, 417-436: the oldest entry makes room. -/
def IndState.setMemo {V : Type} (st : IndState) (reg : IndReg V) (p : IndSym) (s : Series)
    (hyper : Option (SDict HNum)) : Except IErr IndState :=
  if st.memoMax = 0 then .ok st
  else
    match memoKey reg p hyper with
    | .error e => .error e
    | .ok none => .ok st
    | .ok (some k) =>
      let memo := if st.memo.length ≥ st.memoMax then st.memo.tail else st.memo
      .ok { st with memo := assocPut memo k s }

/-- `_set_cached_indicator`, 553-574. -/
def IndState.setCached {V : Type} (st : IndState) (reg : IndReg V) (p : IndSym) (s : Series)
    (fields : Option DateFields) : Except IErr IndState :=
  match fields, st.cache with
  | some f, some c =>
    match reg.ind (parseName p.name).1 with
    | none => .error .notRegistered
    | some d =>
      if d.hyperNames ≠ [] then .ok st
      else .ok { st with cache := some (fun k => if k = indKey f p then some s else c k) }
  | _, _ => .ok st

/-- The loop of `_get_cached_indicators`, 534-551: the series found and the pairs left. -/
def splitCached {V : Type} (reg : IndReg V) (c : IndCache) (f : DateFields) :
    List IndSym → Except IErr (List (IndSym × Series) × List IndSym)
  | [] => .ok ([], [])
  | p :: rest =>
    match reg.ind (parseName p.name).1 with
    | none => .error .notRegistered
    | some d =>
      match splitCached reg c f rest with
      | .error e => .error e
      | .ok (found, left) =>
        if d.hyperNames ≠ [] then .ok (found, p :: left)
        else
          match c (indKey f p) with
          | some s => .ok ((p, s) :: found, left)
          | none => .ok (found, p :: left)

/-- `_get_cached_indicators`, 521-551. -/
def getCachedInds {V : Type} (reg : IndReg V) (st : IndState) (fields : Option DateFields)
    (syms : List IndSym) : Except IErr (List (IndSym × Series) × List IndSym) :=
  match fields, st.cache with
  | some f, some c => splitCached reg c f syms
  | _, _ => .ok ([], syms)

/-- The loop over the memo of `compute_indicators`, 480-489. -/
def splitMemo {V : Type} (reg : IndReg V) (st : IndState) (hyper : Option (SDict HNum)) :
    List IndSym → Except IErr (List (IndSym × Series) × List IndSym)
  | [] => .ok ([], [])
  | p :: rest =>
    match st.getMemo reg p hyper with
    | .error e => .error e
    | .ok hit =>
      match splitMemo reg st hyper rest with
      | .error e => .error e
      | .ok (found, left) =>
        match hit with
        | some s => .ok ((p, s) :: found, left)
        | none => .ok (found, p :: left)

/-- The pairs in the order they are computed, 592-595 and 612-616: symbol by symbol. -/
def bySymbol (syms : List IndSym) : List IndSym :=
  ((syms.map IndSym.symbol).eraseDups).flatMap (fun s => syms.filter (fun p => p.symbol = s))

/-- `_run_indicators`, 576-629. -/
def runIndicators {V : Type} (reg : IndReg V) (x : IndData) (hyper : Option (SDict HNum)) :
    List IndSym → Except IErr (List (IndSym × Series))
  | [] => .ok []
  | p :: rest =>
    match runIndicator reg x hyper p with
    | .error e => .error e
    | .ok s =>
      match runIndicators reg x hyper rest with
      | .error e => .error e
      | .ok l => .ok ((p, s) :: l)

/-- The last loop of `compute_indicators`, 504-519: results are entered in the answer, the
memo and the cache. -/
def enterResults {V : Type} (reg : IndReg V) (fields : Option DateFields)
    (hyper : Option (SDict HNum)) :
    List (IndSym × Series) → List (IndSym × Series) → IndState →
      Except IErr (List (IndSym × Series) × IndState)
  | [], out, st => .ok (out, st)
  | (p, s) :: rest, out, st =>
    match st.setMemo reg p s hyper with
    | .error e => .error e
    | .ok st1 =>
      match st1.setCached reg p s fields with
      | .error e => .error e
      | .ok st2 => enterResults reg fields hyper rest (assocPut out p s) st2

/-- `compute_indicators`, 438-519: the answer, a dict in insertion order, and the caches.
The pairs are sorted (527); a frame without rows is a store without symbols. -/
def computeIndicators {V : Type} (reg : IndReg V) (x : IndData) (syms : List IndSym)
    (fields : Option DateFields) (hyper : Option (SDict HNum)) (st : IndState) :
    Except IErr (List (IndSym × Series) × IndState) :=
  if syms = [] ∨ x.store.symbols = [] then .ok ([], st)
  else
    let sorted := syms.insertionSort (fun a b => a.name < b.name ∨ (a.name = b.name ∧ a.symbol ≤ b.symbol))
    match getCachedInds reg st fields sorted with
    | .error e => .error e
    | .ok (found, left) =>
      let d0 := found.foldl (fun out e => assocPut out e.1 e.2) []
      match splitMemo reg st hyper left with
      | .error e => .error e
      | .ok (hits, left') =>
        let d1 := hits.foldl (fun out e => assocPut out e.1 e.2) d0
        match runIndicators reg x hyper (bySymbol left') with
        | .error e => .error e
        | .ok results => enterResults reg fields hyper results d1 st

/-! ## Indicator sets -/

/-- A row of the frame an `IndicatorSet` returns. -/
structure IndRow where
  symbol : Sym
  date : Date
  val : Str → Cell

/-- The values of an indicator in a symbol's block, 722-735: NaN unless the answer has the
pair. -/
def blockVal (answer : List (IndSym × Series)) (sym : Sym) (i : Nat) (name : Str) : Cell :=
  match cacheGet answer ⟨name, sym⟩ with
  | none => none
  | some s => (s[i]?).bind Prod.snd

/-- `IndicatorSet.__call__`, 677-747, on the rows of a frame with columns `frameCols`;
`names` are the added indicators.  The output arrays are the blocks of the symbols one
after the other. -/
def indicatorSet {V : Type} (reg : IndReg V) (frameCols : List String) (names : List Str)
    (rows : List DRow) : Except IErr (List IndRow) :=
  if names = [] then .error .noIndicators
  else if rows = [] then .ok []
  else
    let syms := (rows.map DRow.symbol).eraseDups
    let pairs := names.flatMap (fun n => syms.map (fun s => (⟨n, s⟩ : IndSym)))
    let store := storeOf frameCols rows
    match computeIndicators reg ⟨store, fun _ _ => none⟩ pairs none none ⟨none, [], 0⟩ with
    | .error e => .error e
    | .ok (answer, _) =>
      let blocks := ((answer.map (fun e => e.1.symbol)).eraseDups).insertionSort (· ≤ ·)
      .ok (blocks.flatMap (fun s =>
        match store.arrays s with
        | none => []
        | some a => a.dates.zipIdx.map (fun di =>
            { symbol := s, date := di.1, val := blockVal answer s di.2 })))

end PyBroker
