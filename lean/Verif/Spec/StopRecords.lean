import Verif.Portfolio.StopRecords

/-!
# Specification: which stop exits an entry, and the table of stops
-/

namespace PyBroker.Spec

/-- The stop fires on this bar at a price its limit allows. -/
def WouldExit (env : StopEnv) (s : Portfolio) (e : Entry) (st : Stop) : Prop :=
  ∃ m, FiresAt env st (levelOf s st) e.symBars m ∧ LimitAllows st (exitPaid env ⟨e, st, m⟩)

/-- The entry is open and its symbol has a usable bar. -/
def CheckedEntry (env : StopEnv) (s : Portfolio) (e : Entry) : Prop :=
  ∃ pt sym, e ∈ entriesOf (s.book pt) sym ∧ env.canPrice sym = true

/-- What the row of a stop of an entry must say. -/
structure IsStopRow (env : StopEnv) (date : Date) (s : Portfolio) (e : Entry) (st : Stop)
    (r : StopRecord) : Prop where
  date : r.date = date
  symbol : r.symbol = e.symbol
  posType : r.posType = e.type
  stopId : r.stopId = st.id
  stopType : r.stopType = st.stopType
  percent : r.percent = st.percent
  points : r.points = st.points
  bars : r.bars = st.bars
  limitPrice : r.limitPrice = st.limitPrice
  exitPrice : r.exitPrice = st.exitPrice
  /-- Bars are reported for bar stops only. -/
  currBars : r.currBars = if st.stopType = .bar then some e.symBars else none
  /-- Levels are reported for price stops only; those of loss and profit stops never move. -/
  noLevel : st.stopType = .bar → r.currValue = none
  fixed : st.stopType = .loss ∨ st.stopType = .profit → r.currValue = some (levelOf s st)
  /-- The level of a trailing stop is reported after the bar has moved it. -/
  trailing : st.stopType = .trailing → ∀ l, levelOf s st = some l →
    env.fetchFloat st.symbol (if st.posType = .long then .high else .low) ≠ none →
    ((∃ m, FiresAt env st (some l) e.symBars m) → r.currValue = some (some l)) ∧
    ((∀ m, ¬ FiresAt env st (some l) e.symBars m) → r.currValue = some (some (tighten st l env)))
  /-- The fill price is there iff the bar reached the stop, and includes slippage. -/
  fill : ∀ y, r.fillPrice = some y ↔
    ∃ m, FiresAt env st (levelOf s st) e.symBars m ∧ y = exitPaid env ⟨e, st, m⟩

/-- The row's limit price allows its fill price. -/
def RowAllows (r : StopRecord) (price : ℚ) : Prop :=
  ∀ l, r.limitPrice = some l → if r.posType = .long then l ≤ price else price ≤ l

end PyBroker.Spec
