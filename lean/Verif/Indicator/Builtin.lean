import Verif.Vect.Indicators

/-!
# The built-in indicators

`indicator.py`: the functions that make an `Indicator` of a function of `vect.py`, from `highest` to
`laguerre_rsi`.  Arrays are exact and without NaN; `F` are the functions `log`, `exp`, `sqrt`, the
normal distribution and the cut to an integer.
-/

namespace PyBroker

/-- The numbers of a bar. -/
structure PBar where
  opn : ℚ
  high : ℚ
  low : ℚ
  close : ℚ
  volume : ℚ := 0
  vwap : ℚ := 0
  extra : String → ℚ := fun _ => 0

/-- `BarData`, common.py:280-319: the arrays are the columns of the bars.  Whether there are volumes
and VWAPs, and the names of the custom columns, are kept beside them. -/
structure PBars where
  bars : List PBar
  hasVolume : Bool := true
  hasVwap : Bool := false
  custom : List String := []

/-- `getattr(data, field)`, with `BarData.__getattr__` (common.py:316-319).  `none` when there is no
such array: for `volume` and `vwap` the attribute is then `None`, which every function refuses.
`date` is not a column of numbers. -/
def PBars.field (d : PBars) (f : String) : Option (List ℚ) :=
  if f = "open" then some (d.bars.map PBar.opn)
  else if f = "high" then some (d.bars.map PBar.high)
  else if f = "low" then some (d.bars.map PBar.low)
  else if f = "close" then some (d.bars.map PBar.close)
  else if f = "volume" then
    if d.hasVolume then some (d.bars.map PBar.volume) else none
  else if f = "vwap" then
    if d.hasVwap then some (d.bars.map PBar.vwap) else none
  else if f ∈ d.custom then some (d.bars.map (fun b => b.extra f))
  else none

/-- `assert data.volume is not None`. -/
def PBars.volumes (d : PBars) : Option (List ℚ) :=
  if d.hasVolume then some (d.bars.map PBar.volume) else none

/-- A call of one of the functions, indicator.py:750-1575, with the defaults of its arguments. -/
inductive Builtin
  | highest (field : String) (period : Nat)
  | lowest (field : String) (period : Nat)
  | returns (field : String) (period : Nat := 1)
  | detrendedRsi (field : String) (short long reg : Nat)
  | macd (short long : Nat) (smoothing : ℚ := 0) (scale : ℚ := 1)
  | stochastic (lookback : Nat) (smoothing : Nat := 0)
  | stochasticRsi (field : String) (rsiLookback stoLookback : Nat) (smoothing : ℚ := 0)
  | trend (d : Degree) (field : String) (lookback atrLength : Nat) (scale : ℚ := 1)
  | atr (lookback : Nat)
  | adx (lookback : Nat)
  | aroonUp (lookback : Nat)
  | aroonDown (lookback : Nat)
  | aroonDiff (lookback : Nat)
  | closeMinusMa (lookback atrLength : Nat) (scale : ℚ := 1)
  | deviation (d : Degree) (field : String) (lookback : Nat) (scale : ℚ := 6 / 10)
  | priceIntensity (smoothing : ℚ := 0) (scale : ℚ := 8 / 10)
  | priceChangeOscillator (short multiplier : Nat) (scale : ℚ := 4)
  | intradayIntensity (lookback : Nat) (smoothing : ℚ := 0)
  | moneyFlow (lookback : Nat) (smoothing : ℚ := 0)
  | reactivity (lookback : Nat) (smoothing : ℚ := 1) (scale : ℚ := 6 / 10)
  | priceVolumeFit (lookback : Nat) (scale : ℚ := 9)
  | volumeWeightedMaRatio (lookback : Nat) (scale : ℚ := 1)
  | normalizedObv (lookback : Nat) (scale : ℚ := 6 / 10)
  | deltaObv (lookback : Nat) (delta : Nat := 0) (scale : ℚ := 6 / 10)
  | normalizedPvi (lookback : Nat) (scale : ℚ := 5 / 10)
  | normalizedNvi (lookback : Nat) (scale : ℚ := 5 / 10)
  | volumeMomentum (short : Nat) (multiplier : Nat := 2) (scale : ℚ := 3)
  | laguerreRsi (feLength : Nat := 13)

/-- An array without NaN, as an array with. -/
def full (l : Option (List ℚ)) : Option (List (Option ℚ)) := l.map (fun l => l.map some)

/-- The values of the indicator, indicator.py:750-1575.  `none` is an exception. -/
def Builtin.compute (F : Fns ℚ) (d : PBars) : Builtin → Option (List (Option ℚ))
  | .highest f n => (d.field f).bind (fun v => highv (v.map some) n)
  | .lowest f n => (d.field f).bind (fun v => lowv (v.map some) n)
  | .returns f n => (d.field f).bind (fun v => returnv (v.map some) n)
  | .detrendedRsi f s l r => (d.field f).bind (fun v => full (PyBroker.detrendedRsi F v s l r))
  | .macd s l sm sc => full (PyBroker.macd F (d.bars.map PBar.high) (d.bars.map PBar.low)
      (d.bars.map PBar.close) s l sm sc)
  | .stochastic n sm => full (PyBroker.stochastic (d.bars.map PBar.high) (d.bars.map PBar.low)
      (d.bars.map PBar.close) n sm)
  | .stochasticRsi f r s sm => (d.field f).bind (fun v => full (PyBroker.stochasticRsi v r s sm))
  | .trend g f n a sc => (d.field f).bind (fun v => full (PyBroker.trend F v (d.bars.map PBar.high)
      (d.bars.map PBar.low) (d.bars.map PBar.close) g n a sc))
  | .atr n => PyBroker.atr F (d.bars.map PBar.high) (d.bars.map PBar.low) (d.bars.map PBar.close) n
  | .adx n => full (PyBroker.adx (d.bars.map PBar.high) (d.bars.map PBar.low)
      (d.bars.map PBar.close) n)
  | .aroonUp n => full (PyBroker.aroonUp (d.bars.map PBar.high) (d.bars.map PBar.low) n)
  | .aroonDown n => full (PyBroker.aroonDown (d.bars.map PBar.high) (d.bars.map PBar.low) n)
  | .aroonDiff n => full (PyBroker.aroonDiff (d.bars.map PBar.high) (d.bars.map PBar.low) n)
  | .closeMinusMa n a sc => full (PyBroker.closeMinusMa F (d.bars.map PBar.high)
      (d.bars.map PBar.low) (d.bars.map PBar.close) n a sc)
  | .deviation g f n sc => (d.field f).bind (fun v => full (PyBroker.deviation F v g n sc))
  | .priceIntensity sm sc => full (PyBroker.priceIntensity F (d.bars.map PBar.opn)
      (d.bars.map PBar.high) (d.bars.map PBar.low) (d.bars.map PBar.close) sm sc)
  | .priceChangeOscillator s m sc => full (PyBroker.priceChangeOscillator F (d.bars.map PBar.high)
      (d.bars.map PBar.low) (d.bars.map PBar.close) s m sc)
  | .intradayIntensity n sm => d.volumes.bind (fun v => full (flow (d.bars.map PBar.high)
      (d.bars.map PBar.low) (d.bars.map PBar.close) v n sm false))
  | .moneyFlow n sm => d.volumes.bind (fun v => full (flow (d.bars.map PBar.high)
      (d.bars.map PBar.low) (d.bars.map PBar.close) v n sm true))
  | .reactivity n sm sc => d.volumes.bind (fun v => full (PyBroker.reactivity F
      (d.bars.map PBar.high) (d.bars.map PBar.low) (d.bars.map PBar.close) v n sm sc))
  | .priceVolumeFit n sc => d.volumes.bind (fun v => full (PyBroker.priceVolumeFit F
      (d.bars.map PBar.close) v n sc))
  | .volumeWeightedMaRatio n sc => d.volumes.bind (fun v => full (PyBroker.volumeWeightedMaRatio F
      (d.bars.map PBar.close) v n sc))
  | .normalizedObv n sc => d.volumes.bind (fun v => full (PyBroker.normalizedObv F
      (d.bars.map PBar.close) v n sc))
  | .deltaObv n g sc => d.volumes.bind (fun v => full (PyBroker.deltaObv F
      (d.bars.map PBar.close) v n g sc))
  | .normalizedPvi n sc => d.volumes.bind (fun v => full (normalizedVolumeIndex F
      (d.bars.map PBar.close) v n sc true))
  | .normalizedNvi n sc => d.volumes.bind (fun v => full (normalizedVolumeIndex F
      (d.bars.map PBar.close) v n sc false))
  | .volumeMomentum s m sc => d.volumes.bind (fun v => full (PyBroker.volumeMomentum F v s m sc))
  | .laguerreRsi n => full (PyBroker.laguerreRsi F (d.bars.map PBar.opn) (d.bars.map PBar.high)
      (d.bars.map PBar.low) (d.bars.map PBar.close) n)

end PyBroker
