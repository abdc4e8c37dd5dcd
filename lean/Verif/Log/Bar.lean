import Mathlib.Data.List.Basic
import Mathlib.Logic.Function.Basic

/-!
# Progress bars

`log.py`: `Logger._start_progress_bar` and `_update_progress_bar`, with the two places that call
them: the loop of a backtest over its dates (`strategy.py`) and the loop over computed indicators
(`indicator.py`).  A `ProgressBar` of `progressbar2` is its `max_value`.  The text of the messages
is a string.
-/

namespace PyBroker.Log

/-- What decides whether a `Logger` shows something in a thread, log.py:38-40: the flag of
`disable`, the flag of `disable_progress_bar`, and the count of open `_suppress` contexts of the
thread. -/
structure Flags where
  disabled : Bool := false
  barOff : Bool := false
  count : Nat := 0
  deriving DecidableEq, Repr

/-- `_is_disabled`, log.py:110-111. -/
def Flags.silent (f : Flags) : Bool := f.disabled || decide (f.count > 0)

/-- What is shown: a printed line, a bar drawn at a count of its total, and the end of a bar. -/
inductive Shown
  | text (m : String)
  | draw (total count : Nat)
  | finish (total : Nat)
  deriving DecidableEq, Repr

/-- `_start_progress_bar`, log.py:61-69: the new bar of the logger, and what is shown.  `bar` is
the total of the bar the logger holds. -/
def startBar (f : Flags) (bar : Option Nat) (m : String) (total : Nat) :
    Option Nat × List Shown :=
  if f.silent then (bar, [])
  else if f.barOff then (bar, [.text m])
  else (some total, [.text m, .draw total 0])

/-- `_update_progress_bar`, log.py:71-82. -/
def updateBar (f : Flags) (bar : Option Nat) (count : Nat) : Option Nat × List Shown :=
  match bar with
  | none => (none, [])
  | some total =>
    if f.silent || f.barOff then (some total, [])
    else if count = total then (none, [.draw total count, .finish total, .text ""])
    else (some total, [.draw total count])

/-- A loop that calls `_update_progress_bar(i + 1)` at the steps `l`.  `fs i` are the flags at
step `i`: the code that runs in the loop may change them. -/
def updates (fs : Nat → Flags) (bar : Option Nat) : List Nat → Option Nat × List Shown
  | [] => (bar, [])
  | i :: l =>
    let r := updateBar (fs i) bar (i + 1)
    let q := updates fs r.1 l
    (q.1, r.2 ++ q.2)

/-- A loop with a bar: the bar is started with flags `f`, then the loop runs. -/
def barLoop (f : Flags) (fs : Nat → Flags) (bar : Option Nat) (m : String) (total : Nat)
    (l : List Nat) : Option Nat × List Shown :=
  let r := startBar f bar m total
  let q := updates fs r.1 l
  (q.1, r.2 ++ q.2)

/-- The steps at which a backtest of `n` dates updates its bar, strategy.py:1046-1047. -/
def backtestSteps (n : Nat) : List Nat :=
  (List.range n).filter (fun i => decide (i % 10 = 0 ∨ i = n - 1))

/-- The bar of a backtest: `backtest_executions_start` (log.py:284-291), which returns when there
are no dates, and the calls of strategy.py:1046-1047. -/
def backtestBar (f : Flags) (fs : Nat → Flags) (bar : Option Nat) (m : String) (n : Nat) :
    Option Nat × List Shown :=
  if n = 0 then updates fs bar (backtestSteps n)
  else barLoop f fs bar m n (backtestSteps n)

/-- The bar of computing `n` indicators, indicator.py:490-518 with log.py:187-188: without
indicators a line is printed instead (log.py:195-196). -/
def indicatorBar (f : Flags) (fs : Nat → Flags) (bar : Option Nat) (n : Nat) :
    Option Nat × List Shown :=
  if n = 0 then (bar, if f.silent then [] else [.text "Loaded cached indicator data.\n"])
  else barLoop f fs bar "Computing indicators..." n (List.range n)

/-! ## Threads

The same two functions, one read or write of `self._progress_bar` at a time. -/

/-- A call of a function of the logger. -/
inductive BarOp
  | start (total : Nat)
  | update (count : Nat)
  deriving DecidableEq, Repr

/-- Where in a call a thread is. -/
inductive Pc
  /-- Between calls. -/
  | idle
  /-- Before `self._progress_bar.update(0)`, log.py:69. -/
  | started
  /-- Before `self._progress_bar.update(count)`, log.py:78. -/
  | checked (count : Nat)
  /-- Before the comparison of log.py:79. -/
  | drawn (count : Nat)
  /-- Before `self._progress_bar.finish()`, log.py:80. -/
  | finishing
  /-- Before `self._progress_bar = None`, log.py:81. -/
  | clearing
  /-- `AttributeError`: `None` has no such attribute. -/
  | crashed
  deriving DecidableEq, Repr

/-- A thread: where it is, and the calls it has still to make. -/
structure Thr where
  pc : Pc := .idle
  todo : List BarOp := []

/-- The threads and the bar they share. -/
structure Sys where
  bar : Option Nat := none
  thr : Nat → Thr

/-- The next step of a thread, log.py:61-82; `silent` and `barOff` as in `startBar`, fixed. -/
def Sys.step (silent : Nat → Bool) (barOff : Bool) (s : Sys) (t : Nat) : Sys :=
  let go (bar : Option Nat) (pc : Pc) (todo : List BarOp) : Sys :=
    { bar := bar, thr := Function.update s.thr t { pc := pc, todo := todo } }
  match (s.thr t).pc, (s.thr t).todo, s.bar with
  | .idle, [], _ => s
  | .idle, .start n :: r, b =>
    if silent t || barOff then go b .idle r else go (some n) .started r
  | .idle, .update c :: r, b =>
    if b.isNone || silent t || barOff then go b .idle r else go b (.checked c) r
  | .started, r, some n => go (some n) .idle r
  | .checked c, r, some n => go (some n) (.drawn c) r
  | .drawn c, r, some n => if c = n then go (some n) .finishing r else go (some n) .idle r
  | .finishing, r, some n => go (some n) .clearing r
  | .clearing, r, _ => go none .idle r
  | .crashed, _, _ => s
  | .started, r, none => go none .crashed r
  | .checked _, r, none => go none .crashed r
  | .drawn _, r, none => go none .crashed r
  | .finishing, r, none => go none .crashed r

end PyBroker.Log
