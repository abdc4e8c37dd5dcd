import Verif.Interval.Model

/-!
# Compressed bars restricted to dates

`CompressedBars` and `CompressedBars.slice_by_dates` of `src/pybroker/interval.py`, array by array.
-/

namespace PyBroker

/-- `CompressedBars`, interval.py:93-104.  `custom` is a dict in its order, and its keys are unique in
Python; nothing here needs that.  `np.datetime64` values are dates of the model. -/
structure CBars where
  opn : List Cell
  high : List Cell
  low : List Cell
  close : List Cell
  volume : List Cell
  dates : List Date
  custom : List (String × List Cell) := []
  vwap : Option (List Cell) := none
  deriving DecidableEq

/-- `np.isin(dates, target)`, interval.py:124. -/
def isinMask (dates target : List Date) : List Bool := dates.map (fun d => decide (d ∈ target))

/-- `values[mask]`, interval.py:125-134.  NumPy raises if the lengths differ; the arrays of compressed
bars have one length (`Spec.AlignedBars`), so here the longer one is cut. -/
def maskCells {α : Type} (mask : List Bool) (values : List α) : List α :=
  ((mask.zip values).filter Prod.fst).map Prod.snd

/-- `CompressedBars.slice_by_dates`, interval.py:106-135. -/
def CBars.sliceByDates (b : CBars) (target : List Date) : CBars :=
  if b.dates.length = 0 then b
  else if target.length = 0 then
    { opn := [], high := [], low := [], close := [], volume := [], dates := [] }
  else
    let mask := isinMask b.dates target
    { opn := maskCells mask b.opn
      high := maskCells mask b.high
      low := maskCells mask b.low
      close := maskCells mask b.close
      volume := maskCells mask b.volume
      dates := maskCells mask b.dates
      custom := b.custom.map (fun c => (c.1, maskCells mask c.2))
      vwap := b.vwap.map (maskCells mask) }

/-- The arrays `compress` builds from its bars, interval.py:1218-1227 (and 1157-1164 without bars, where
the custom columns and the VWAP are left out).  The bars are those of `Verif/Interval/Model.lean`. -/
def CBars.ofBars (customs : List String) (hasVwap : Bool) (bars : List IBar) : CBars :=
  { opn := bars.map IBar.opn
    high := bars.map IBar.high
    low := bars.map IBar.low
    close := bars.map IBar.close
    volume := bars.map IBar.volume
    dates := bars.map IBar.date
    custom := if bars.isEmpty then [] else customs.map (fun c => (c, bars.map (fun x => x.custom c)))
    vwap := if bars.isEmpty || !hasVwap then none else some (bars.map IBar.vwap) }

end PyBroker
