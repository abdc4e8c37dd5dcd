import Verif.Backtest.Learn

/-!
# State that user code keeps

`/repo/src/pybroker/strategy.py`: the contexts' `session` (strategy.py:824, 3071 and 3199), on top of
the run of `Verif/Backtest/Drive.lean`.  There user code is a function of the bar.  Here it also has a
state, which it is given on each bar as it left it on the bar before, in whichever window; it stands
for `ctx.session` and for whatever else the functions of a strategy remember.
-/

namespace PyBroker

/-- What user code is given on a bar: the window, the date, the bars so far, the loop and the
symbols with a context, strategy.py:952-965. -/
structure Given where
  window : Nat
  date : Date
  bars : Sym → Option SymArrays
  loop : Loop
  ready : List Sym

/-- What `RunSetup.bar` gives to user code, strategy.py:857-957; `none`: placing orders raises. -/
def RunSetup.given (x : RunSetup) (k : Nat) (store : Store) (cal : List Date)
    (sd : List (Sym × List Date)) (st : RunSetup.State) (d : Date) : Option Given :=
  let active := activeSyms sd cal d
  let idx := bumpIndexes active st.idx
  let env := x.barEnv k store idx d
  match barOrders x.cfg env st.loop with
  | .error _ => none
  | .ok s1 =>
    some
      { window := k
        date := d
        bars := fun s => (store.arrays s).map (fun a => a.upTo (idx s))
        loop := { s1 with pf := captureBar x.cfg s1.pf d env.quote }
        ready := active.filter (fun s => x.warm (idx s)) }

/-- A strategy whose functions keep state: `setup` is all but its functions, `start` the state that a
run begins with. -/
structure Stateful (σ : Type) where
  setup : RunSetup
  start : σ
  user : Given → σ → (List UserOp × (Sym → Option ExecResult)) × σ

namespace Stateful

variable {σ : Type}

/-- The run, the state of user code, and (a record the code does not keep) what user code was given
on each bar, with its state. -/
structure State (σ : Type) where
  run : RunSetup.State
  mem : σ
  log : List (Given × σ) := []

/-- The strategy while its state is `m`. -/
def on (X : Stateful σ) (m : σ) : RunSetup :=
  { X.setup with act := fun k d b l r => (X.user ⟨k, d, b, l, r⟩ m).1 }

/-- One bar, strategy.py:857-1047. -/
def bar (X : Stateful σ) (k : Nat) (w : Window) (store : Store) (cal : List Date)
    (sd : List (Sym × List Date)) (s : State σ) (d : Date) : Except RunErr (State σ) :=
  match (X.on s.mem).bar k w store cal sd s.run d with
  | .error e => .error e
  | .ok st =>
    .ok
      { run := st
        mem := ((X.setup.given k store cal sd s.run d).map (fun g => (X.user g s.mem).2)).getD s.mem
        log := s.log ++ ((X.setup.given k store cal sd s.run d).map (fun g => (g, s.mem))).toList }

/-- One window, strategy.py:3082-3222, as `RunSetup.runOne`: the state is handed on. -/
def runOne (X : Stateful σ) (s : State σ) (kw : WFWindow × Nat) : Except RunErr (State σ) :=
  let x := X.setup
  let win := kw.1
  match windowExecutions (fun d : List DRow => (d.map DRow.symbol).dedup) List.isEmpty x.execs
      (x.rowsAt win.train) with
  | .error e => .error (.select e)
  | .ok es =>
    let selected := selectedSymbols es
    let store := (storeOf x.cols x.rows).slice (datesOfRows x.dates win.test)
    let w := x.window kw.2 selected win store
    if x.droppable s.run.loop.pf (x.boundary kw.2 selected win) (storeOf x.cols (x.rowsAt win.test))
        (storeOf x.cols x.rows) then
      match startWindow x.cfg s.run.loop w with
      | .error e => .error (.loop e)
      | .ok s1 =>
        let s2 : RunSetup.State :=
          { loop := { s1 with covers := [], buys := [], sells := [] }, idx := fun _ => 0,
            turns := s.run.turns, results := s.run.results, trace := s.run.trace }
        if win.test = [] then .ok { s with run := s2 }
        else RunSetup.each (X.bar kw.2 w store store.uniqueDates (symExecDates store selected))
          { s with run := s2 } store.uniqueDates
    else .error .price

/-- `_run_walkforward`, strategy.py:3037-3240: the state lives as long as the run. -/
def run (X : Stateful σ) : Except RunErr (State σ) :=
  match walkforwardSplit X.setup.dates X.setup.windows X.setup.lookahead X.setup.trainSize
      X.setup.shuffle with
  | .error e => .error (.split e)
  | .ok wins =>
    RunSetup.each X.runOne { run := { loop := { pf := Portfolio.init X.setup.cfg } }, mem := X.start }
      wins.zipIdx

end Stateful

/-- A strategy with models whose functions keep state: they are given the predictions too. -/
def Learner.withState {M σ : Type} (L : Learner M) (start : σ)
    (user : Given → (String → Sym → Option (List Cell)) → σ →
      (List UserOp × (Sym → Option ExecResult)) × σ) : Stateful σ where
  setup := L.setup
  start := start
  user := fun g m => user g (L.preds g.window g.date) m

/-! ## Sessions -/

/-- Who looks at a session on a bar. -/
inductive Visitor | before | fn | after
  deriving DecidableEq, Repr

/-- A look at a symbol's session: what was found and what was left. -/
structure Visit (S : Type) where
  window : Nat
  date : Date
  symbol : Sym
  who : Visitor
  found : S
  left : S

/-- `sessions`, strategy.py:3071, and a record of the looks at them. -/
structure Sessions (S : Type) where
  data : Sym → S
  visits : List (Visit S) := []

/-- A strategy whose functions use sessions.  `before` and `after`: what `before_exec_fn` and
`after_exec_fn` do to the session of a symbol (they have all contexts, so they see all sessions);
`fn`: what the function of a symbol's execution, if it has one, does to the session of its context;
`act`: the orders, from what is found. -/
structure SessionFns (S : Type) where
  setup : RunSetup
  empty : S
  before : Option (Given → (Sym → S) → Sym → S) := none
  fn : Sym → Option (Given → S → S)
  after : Option (Given → (Sym → S) → Sym → S) := none
  act : Given → (Sym → S) → List UserOp × (Sym → Option ExecResult)

namespace SessionFns

variable {S : Type}

/-- A look at the session of a symbol. -/
def look (g : Given) (who : Visitor) (f : S → S) (m : Sessions S) (sym : Sym) : Sessions S :=
  { data := fun s => if s = sym then f (m.data sym) else m.data s
    visits := m.visits ++ [⟨g.window, g.date, sym, who, m.data sym, f (m.data sym)⟩] }

/-- `before_exec_fn(active_ctxs)` or `after_exec_fn(active_ctxs)`, strategy.py:952-953 and 961-962. -/
def hook (g : Given) (who : Visitor) (h : Option (Given → (Sym → S) → Sym → S)) (m : Sessions S) :
    Sessions S :=
  match h with
  | none => m
  | some h => g.ready.foldl (fun m' s => look g who (fun _ => h g m.data s) m' s) m

/-- The functions of the executions, strategy.py:954-960. -/
def calls (F : SessionFns S) (g : Given) (m : Sessions S) : Sessions S :=
  g.ready.foldl (fun m s =>
    match F.fn s with
    | none => m
    | some f => look g .fn (f g) m s) m

/-- The strategy, with its sessions as state. -/
def toStateful (F : SessionFns S) : Stateful (Sessions S) where
  setup := F.setup
  start := { data := fun _ => F.empty }
  user := fun g m => (F.act g m.data, hook g .after F.after (F.calls g (hook g .before F.before m)))

end SessionFns

end PyBroker
