import Verif.Scope.Store
import Verif.Scope.Columns

/-!
# What a function reads through its context

`/repo/src/pybroker/context.py`, the data side of `ExecContext`: its columns, `foreign`,
`indicator` and `bars`, with the copies that are kept from one read to the next, and
`/repo/src/pybroker/strategy.py`, 795 and 857-881: the bar counters and the contexts that are
refreshed on a bar.

Model inputs and predictions, interval views and hyperparameters are left out.
-/

namespace PyBroker

/-- `BarData`, common.py: the dates and the other columns.  A standard column that the data does
not have is `none`. -/
structure FBars where
  dates : List Date
  cols : List (String × Option (List Cell))
  deriving DecidableEq

/-- `ColumnScope.bar_data_from_data_columns`, scope.py:1067-1108, for the registered columns `cols`
(the dates are always there). -/
def Store.barData (s : Store) (cols : List String) (sym : Sym) (n : Nat) :
    Except ReadErr FBars :=
  match s.arrays sym with
  | none => .error .symbolNotFound
  | some a => .ok
    { dates := a.dates.take n
      cols := (cols.filter (fun c => c ≠ "date")).filterMap (fun c =>
        match a.col c with
        | some l => some (c, some (l.take n))
        | none => if c ∈ stdCols then some (c, none) else none) }

/-- A window of a run: its data, the symbols with an execution, the warm-up (0: none) and the
registered columns. -/
structure ReadEnv where
  store : Store
  execs : List Sym
  warmup : Nat
  cols : List String

/-- `sym_end_index`, a `defaultdict(int)` (strategy.py:795), as the keys it has; `_foreign` of each
context (context.py:446); the indicator scope with its cache. -/
structure ReadState where
  ends : Sym → Option Nat
  memo : Sym → List (Sym × FBars)
  ind : IndScope

/-- The state before the first bar of the window. -/
def ReadState.start (ind : IndScope) : ReadState where
  ends := fun _ => none
  memo := fun _ => []
  ind := ind

/-- `sym_end_index[sym]`: the value.  -/
def ReadState.endOf (st : ReadState) (sym : Sym) : Nat := (st.ends sym).getD 0

/-- `sym_end_index[sym]`: a key that is missing is added with value 0. -/
def ReadState.touch (st : ReadState) (sym : Sym) : ReadState :=
  { st with ends := fun x => if x = sym then some (st.endOf sym) else st.ends x }

/-- What user code asks its context for: `ctx.foreign(s)` and `ctx.foreign(s, col)` 911-941,
`ctx.indicator(name, s)` 1053-1070, `ctx.close` and the other columns 722-785, 1725-1732,
`ctx.close_value` … 704-706, 787-826 (read as `float`), `ctx.bars` 708-711. -/
inductive CtxRead where
  | foreign (sym : Sym)
  | foreignCol (sym : Sym) (col : String)
  | indicator (name : String) (sym : Sym)
  | col (col : String)
  | value (col : String)
  | bars
  deriving DecidableEq

/-- What comes back. -/
inductive Got where
  | data (b : FBars)
  | column (l : Option (List Cell))
  | values (l : List Cell)
  | cell (c : Option Cell)
  | count (n : Nat)
  deriving DecidableEq

/-- A read by the context of symbol `me`. -/
def ReadEnv.read (env : ReadEnv) (st : ReadState) (me : Sym) :
    CtxRead → Except ReadErr Got × ReadState
  | .foreign s =>
    match cacheGet (st.memo me) s with
    | some b => (.ok (.data b), st)
    | none =>
      match st.ends s with
      | none => (.error .symbolNotFound, st)
      | some n =>
        match env.store.barData env.cols s n with
        | .error e => (.error e, st)
        | .ok b =>
          (.ok (.data b),
            { st with memo := fun x => if x = me then (s, b) :: st.memo me else st.memo x })
  | .foreignCol s c =>
    match st.ends s with
    | none => (.error .symbolNotFound, st)
    | some n => ((env.store.fetch s c (some (n : Int))).map .column, st)
  | .indicator name s =>
    let st' := st.touch s
    let r := st.ind.fetch s name (some (st.endOf s : Int))
    (r.1.map .values, { st' with ind := r.2 })
  | .col c => ((env.store.fetch me c (some (st.endOf me : Int))).map .column, st.touch me)
  | .value c => ((env.store.fetchValue me c (st.endOf me : Int)).map .cell, st.touch me)
  | .bars => (.ok (.count (st.endOf me)), st.touch me)

/-- The symbols that get a bar on a date, strategy.py:861-870. -/
def ReadEnv.active (env : ReadEnv) (d : Date) : List Sym :=
  activeSyms (symExecDates env.store env.execs) env.store.uniqueDates d

/-- The start of a bar, strategy.py:870-875: the counters of the active symbols go up; the contexts
past the warm-up are refreshed, `set_exec_ctx_data`, context.py:1758-1771, which empties `_foreign`. -/
def ReadEnv.enter (env : ReadEnv) (st : ReadState) (d : Date) : ReadState :=
  let act := env.active d
  let ends := fun x => if x ∈ act then some (st.endOf x + act.count x) else st.ends x
  { st with
    ends := ends
    memo := fun x =>
      if x ∈ act ∧ ¬ (env.warmup ≠ 0 ∧ (ends x).getD 0 ≤ env.warmup) then [] else st.memo x }

/-- What happens during a bar: reads by contexts, and lookups `sym_end_index[sym]` made elsewhere:
scope.py:2286, 2357, 2389; slippage.py:253, 387; strategy.py:1095, 1136. -/
inductive BarEvent where
  | read (me : Sym) (r : CtxRead)
  | lookup (sym : Sym)

/-- One of them. -/
def ReadEnv.during (env : ReadEnv) (st : ReadState) : BarEvent → ReadState
  | .read me r => (env.read st me r).2
  | .lookup s => st.touch s

/-- The bars of a window with what happens during each. -/
def ReadEnv.play (env : ReadEnv) (st : ReadState) (h : List (Date × List BarEvent)) : ReadState :=
  h.foldl (fun st b => b.2.foldl env.during (env.enter st b.1)) st

end PyBroker
