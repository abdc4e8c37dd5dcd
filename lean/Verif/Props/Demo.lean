import Verif.Portfolio.Entries

/-!
# A concrete history used to show that the theorems' hypotheses are met

Leverage 2, a fee of 1 per order and 5% interest.  Two longs with stops, a
short, a bar, a partial first-in first-out sale, a stopped-out long, a cover
that flips to a long, and removal of stops.
-/

namespace PyBroker.Demo

def cfg : Config :=
  { cash := 10000, feeMode := some .perOrder, feeAmount := some 1, leverage := 2,
    interestRate := 5, barsPerYear := some 250, maxLong := some 3 }

def lossStop : Stop :=
  { id := 1, symbol := "AAA", stopType := .loss, posType := .long, percent := some 10,
    points := none, bars := none, fillPrice := none, limitPrice := none, exitPrice := none }

def trailStop : Stop :=
  { id := 2, symbol := "AAA", stopType := .trailing, posType := .long, percent := none,
    points := some 5, bars := none, fillPrice := none, limitPrice := some 90, exitPrice := none }

def barStop : Stop :=
  { id := 3, symbol := "BBB", stopType := .bar, posType := .short, percent := none,
    points := none, bars := some 3, fillPrice := none, limitPrice := none, exitPrice := none }

def quote (sym : Sym) : BarQuote :=
  if sym = "AAA" then ⟨some 104, some 99, some 106⟩
  else if sym = "BBB" then ⟨some 21, some 19, some 22⟩
  else ⟨none, none, none⟩

/-- A bar on which AAA falls from 106 to 95. -/
def env : StopEnv :=
  { canPrice := fun _ => true
    fetchFloat := fun sym pt =>
      if sym = "AAA" then (match pt with
        | .low => some 95
        | .high => some 106
        | _ => some 100) else some 20
    fetch := fun _ _ => some 20 }

def bar1 : List Op :=
  [ .buy { date := 1, symbol := "AAA", shares := 10, fill := 100, stops := [trailStop] },
    .buy { date := 1, symbol := "AAA", shares := 20, fill := 102, stops := [lossStop] },
    .sell { date := 1, symbol := "BBB", shares := 50, fill := 20, stops := [barStop] },
    .captureBar 1 quote,
    .incrBars (fun _ => true) ]

def bar2 : List Op :=
  [ .sell { date := 2, symbol := "AAA", shares := 4, fill := 105, limit := some 104 },
    .checkStops 2 env,
    .captureBar 2 quote,
    .incrBars (fun sym => sym = "BBB") ]

def bar3 : List Op :=
  [ .buy { date := 3, symbol := "BBB", shares := 70, fill := 19 },
    .removeStop 1,
    .captureBar 3 quote,
    .exitPosition 3 "AAA" 101 103 none ]

def ops : List Op := bar1 ++ bar2 ++ bar3

/-- The result of a call that did not raise. -/
def okD {α : Type} (d : α) : Except Err α → α
  | .ok a => a
  | .error _ => d

def isOk {α : Type} : Except Err α → Bool
  | .ok _ => true
  | .error _ => false

theorem ok_okD {α : Type} {d : α} {x : Except Err α} (h : isOk x = true) : x = .ok (okD d x) := by
  cases x with
  | ok a => rfl
  | error e => cases h

/-- The recorded order and the new portfolio of a filled call. -/
def orderD (x : Except Err (Option Order × Portfolio)) : Order :=
  ((okD (none, Portfolio.init cfg) x).1).getD
    ⟨0, .buy, "", 0, none, .market, .buyToOpen, 0, none, 0, 0, 0⟩

def pfD (x : Except Err (Option Order × Portfolio)) : Portfolio :=
  (okD (none, Portfolio.init cfg) x).2

def isFilled : Except Err (Option Order × Portfolio) → Bool
  | .ok (some _, _) => true
  | _ => false

def isUnfilled : Except Err (Option Order × Portfolio) → Bool
  | .ok (none, _) => true
  | _ => false

theorem filled_eq {x : Except Err (Option Order × Portfolio)} (h : isFilled x = true) :
    x = .ok (some (orderD x), pfD x) := by
  rcases x with e | ⟨_ | o, s⟩
  · cases h
  · cases h
  · rfl

theorem unfilled_eq {x : Except Err (Option Order × Portfolio)} (h : isUnfilled x = true) :
    x = .ok (none, pfD x) := by
  rcases x with e | ⟨_ | o, s⟩
  · cases h
  · rfl
  · cases h

/-- The portfolio after the first bar, the first two bars and the whole history. -/
def s1 : Portfolio := okD (Portfolio.init cfg) (run cfg bar1)
def s2 : Portfolio := okD (Portfolio.init cfg) (run cfg (bar1 ++ bar2))
def final : Portfolio := okD (Portfolio.init cfg) (run cfg ops)

theorem run_s1 : run cfg bar1 = .ok s1 := ok_okD (by decide +kernel)
theorem run_s2 : run cfg (bar1 ++ bar2) = .ok s2 := ok_okD (by decide +kernel)
theorem run_final : run cfg ops = .ok final := ok_okD (by decide +kernel)

theorem fit : ∀ op ∈ ops, op.Fit := by
  simp [ops, bar1, bar2, bar3, Op.Fit, lossStop, trailStop, barStop]

theorem fit1 : ∀ op ∈ bar1, op.Fit := fun op h => fit op (by
  simp only [ops, List.mem_append]; exact Or.inl (Or.inl h))
theorem fit2 : ∀ op ∈ bar1 ++ bar2, op.Fit := fun op h => fit op (by
  simp only [ops, List.mem_append] at h ⊢; exact Or.inl h)

end PyBroker.Demo
