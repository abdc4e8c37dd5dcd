import Verif.Eval.Model

/-!
# The Ulcer Index over a period

`ulcer_index` of `/repo/src/pybroker/eval.py` with a period.
-/

namespace PyBroker

variable {K : Type} [Field K] [LinearOrder K]

/-- `dd[i - start]`, eval.py:841-844. -/
def ulcerDrop (values : List K) (period i : Nat) : K :=
  let high := highAt values period i
  if high = 0 then 0 else (rd values i - high) / high * 100

/-- `ulcer_index(values, period)`, eval.py:808-845; `none` is the `AssertionError` of
`highv`. -/
def ulcerPeriod (F : Fns K) (values : List K) (period : Nat) : Option K :=
  if values.length ≤ period then some 0
  else if period = 0 then none
  else some (F.sqrt (mean (((List.range' (period - 1) (values.length - (period - 1))).map
    (ulcerDrop values period)).map (fun d => d * d))))

end PyBroker
