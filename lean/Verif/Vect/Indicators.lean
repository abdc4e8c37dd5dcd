import Verif.Vect.Rolling
import Mathlib.Algebra.Order.Field.Basic
import Mathlib.Data.Rat.Cast.Defs

/-!
# Indicators

The indicator functions of `/repo/src/pybroker/vect.py` from `_atr` on, over any
ordered field `K`.  `np.log`, `np.sqrt`, `np.exp`, `normal_cdf` and the `int` of a float are
the fields of `Fns`; nothing is assumed about them here.

Simplifications, for the whole file: arithmetic is exact; inputs have no NaN; a
division by zero is 0 in the model where the compiled code raises or gives an
infinity; an index below zero never occurs (each loop's bounds exclude it).  A bar's
value is written once per bar by the code, so an indicator is a function of the bar,
and `series` makes the array of it.  `none` is an `AssertionError`.
-/

namespace PyBroker

variable {K : Type} [Field K] [LinearOrder K]

/-- The numerical functions the indicators call. -/
structure Fns (K : Type) where
  log : K → K
  sqrt : K → K
  exp : K → K
  /-- `normal_cdf`, vect.py:259-270. -/
  cdf : K → K
  /-- `int(x)` of a non-negative float. -/
  toNat : K → Nat

/-- `for j in range(a, b): s = f(s, j)`. -/
def loop {S : Type} (a b : Nat) (f : S → Nat → S) (s : S) : S := (List.range' a (b - a)).foldl f s

/-- `total = 0.0; for j in range(a, b): total += f(j)`. -/
def sumIn (a b : Nat) (f : Nat → K) : K := loop a b (fun s j => s + f j) 0

/-- Reading `array[i]`. -/
def rd (a : List K) : Nat → K := fun i => a.getD i 0

/-- The output array from the value of each bar. -/
def series {α : Type} (n : Nat) (f : Nat → α) : List α := (List.range n).map f

/-- A literal such as `1.0e-60`. -/
def tiny (k : Nat) : K := 1 / 10 ^ k

/-! ## Average true range -/

/-- The true range of bar `i`: vect.py:323-329 (and 942-946, 970-974, 994-998). -/
def trueRange (h l c : Nat → K) (i : Nat) : K :=
  let t := h i - l i
  let t := if h i - c (i - 1) > t then h i - c (i - 1) else t
  if c (i - 1) - l i > t then c (i - 1) - l i else t

/-- The ratio under the log in `_atr` with `use_log`: vect.py:315-320. -/
def ratioRange (h l c : Nat → K) (i : Nat) : K :=
  let t := h i / l i
  let t := if h i / c (i - 1) > t then h i / c (i - 1) else t
  if c (i - 1) / l i > t then c (i - 1) / l i else t

/-- `_atr`, vect.py:286-330. -/
def atrAt (F : Fns K) (h l c : Nat → K) (useLog : Bool) (lookback i : Nat) : K :=
  if lookback = 0 then
    if useLog then F.log (h i / l i) else h i - l i
  else
    sumIn (i + 1 - lookback) (i + 1)
      (fun j => if useLog then F.log (ratioRange h l c j) else trueRange h l c j) / lookback

/-- `atr`, vect.py:333-363. -/
def atr (F : Fns K) (high low close : List K) (lookback : Nat) : Option (List (Option K)) :=
  if high.length = low.length ∧ high.length = close.length then
    verified close.length lookback
      (series close.length (fun i =>
        if i < lookback then none else some (atrAt F (rd high) (rd low) (rd close) false lookback i)))
  else none

/-- `_variance`, vect.py:366-389. -/
def varianceAt (F : Fns K) (useChange : Bool) (length : Nat) (p : Nat → K) (i : Nat) : K :=
  let term := fun j => if useChange then F.log (p j / p (j - 1)) else F.log (p j)
  let mean := sumIn (i + 1 - length) (i + 1) term / length
  sumIn (i + 1 - length) (i + 1) (fun j => (term j - mean) * (term j - mean)) / length

/-! ## RSI -/

/-- The running averages. -/
structure RsiSt (K : Type) where
  up : K
  dn : K

/-- vect.py:425-433, 449-457, 629-637. -/
def rsiInit (v : Nat → K) (len : Nat) : RsiSt K :=
  let s := loop 1 len (fun (s : RsiSt K) i =>
    let diff := v i - v (i - 1)
    if diff > 0 then { s with up := s.up + diff } else { s with dn := s.dn - diff })
    { up := tiny 60, dn := tiny 60 }
  { up := s.up / ((len : K) - 1), dn := s.dn / ((len : K) - 1) }

/-- vect.py:435-441, 459-465, 640-646. -/
def rsiStep (v : Nat → K) (len : Nat) (s : RsiSt K) (i : Nat) : RsiSt K :=
  let diff := v i - v (i - 1)
  if diff > 0 then
    { up := (((len : K) - 1) * s.up + diff) / len, dn := s.dn * (((len : K) - 1) / len) }
  else
    { dn := (((len : K) - 1) * s.dn - diff) / len, up := s.up * (((len : K) - 1) / len) }

/-- The averages after bar `i ≥ len`. -/
def rsiSt (v : Nat → K) (len i : Nat) : RsiSt K := loop len (i + 1) (rsiStep v len) (rsiInit v len)

/-- vect.py:442, 466, 647. -/
def rsiAt (v : Nat → K) (len i : Nat) : K :=
  100 * (rsiSt v len i).up / ((rsiSt v len i).up + (rsiSt v len i).dn)

/-- `work1` of `detrended_rsi`: vect.py:422-446. -/
def detWork1 (F : Fns K) (v : Nat → K) (short i : Nat) : K :=
  if i < short then 10 ^ 90
  else if short = 2 then
    -10 * F.log (2 / (1 + 999 / 100000 * (2 * rsiAt v short i - 100)) - 1)
  else rsiAt v short i

/-- `work2`: vect.py:447-466. -/
def detWork2 (v : Nat → K) (long i : Nat) : K :=
  if i < long then -10 ^ 90 else rsiAt v long i

/-- vect.py:467-484. -/
def detrendedAt (F : Fns K) (v : Nat → K) (short long reg i : Nat) : K :=
  let x := fun k => detWork2 v long k
  let y := fun k => detWork1 F v short k
  let xMean := sumIn 0 reg (fun j => x (i - j)) / reg
  let yMean := sumIn 0 reg (fun j => y (i - j)) / reg
  let xss := sumIn 0 reg (fun j => (x (i - j) - xMean) * (x (i - j) - xMean))
  let xy := sumIn 0 reg (fun j => (x (i - j) - xMean) * (y (i - j) - yMean))
  let coef := xy / (xss + tiny 60)
  (y i - yMean) - coef * (x i - xMean)

/-- `detrended_rsi`, vect.py:392-485. -/
def detrendedRsi (F : Fns K) (values : List K) (short long reg : Nat) : Option (List K) :=
  if short > 0 ∧ short ≤ long ∧ short > 1 ∧ long > 1 ∧ reg ≥ 1 then
    some (series values.length (fun i =>
      if i < long + reg - 1 then 0 else detrendedAt F (rd values) short long reg i))
  else none

/-! ## MACD -/

/-- vect.py:521-524: the two moving averages after bar `i`. -/
def macdSums (c : Nat → K) (short long i : Nat) : K × K :=
  let longAlpha := 2 / ((long : K) + 1)
  let shortAlpha := 2 / ((short : K) + 1)
  loop 1 (i + 1) (fun (s : K × K) j =>
    (longAlpha * c j + (1 - longAlpha) * s.1, shortAlpha * c j + (1 - shortAlpha) * s.2)) (c 0, c 0)

/-- vect.py:525-533: a bar before smoothing. -/
def macdRaw (F : Fns K) (h l c : Nat → K) (short long : Nat) (smoothing scale : K) (i : Nat) : K :=
  if i = 0 then 0
  else
    let s := macdSums c short long i
    let diff := 1 / 2 * ((long : K) - 1) - 1 / 2 * ((short : K) - 1)
    let k := F.toNat (long + smoothing)
    let k := if k > i then i else k
    let denom := F.sqrt |diff| * atrAt F h l c false k i
    100 * F.cdf (scale * ((s.2 - s.1) / (denom + tiny 15))) - 50

/-- An exponential average of `x` from bar `start`: the loops `smoothed = alpha * x[i] +
(1 - alpha) * smoothed` at vect.py:535-538, 661-665, 1348-1352. -/
def emaFrom (x : Nat → K) (alpha : K) (start i : Nat) : K :=
  loop (start + 1) (i + 1) (fun s j => alpha * x j + (1 - alpha) * s) (x start)

/-- `macd`, vect.py:488-540. -/
def macd (F : Fns K) (high low close : List K) (short long : Nat) (smoothing scale : K) :
    Option (List K) :=
  if high.length = low.length ∧ high.length = close.length ∧ short > 0 ∧ short ≤ long ∧
      smoothing ≥ 0 ∧ scale > 0 then
    let raw := macdRaw F (rd high) (rd low) (rd close) short long smoothing scale
    some (series close.length (fun i =>
      if smoothing > 1 ∧ i ≥ 1 then raw i - emaFrom raw (2 / (smoothing + 1)) 0 i else raw i))
  else none

/-! ## Stochastic -/

/-- `lowv(low, lookback)[i]`. -/
def lowAt (a : List K) (lookback i : Nat) : K :=
  (((lowv (a.map some) lookback).bind (fun out => out[i]?)).join).getD 0

/-- `highv(high, lookback)[i]`. -/
def highAt (a : List K) (lookback i : Nat) : K :=
  (((highv (a.map some) lookback).bind (fun out => out[i]?)).join).getD 0

/-- vect.py:575-577. -/
def sto0 (high low close : List K) (lookback i : Nat) : K :=
  (rd close i - lowAt low lookback i) / (highAt high lookback i - lowAt low lookback i + tiny 60)

/-- `sto_1` at bar `i ≥ front_bad`: vect.py:581-585. -/
def sto1 (high low close : List K) (lookback i : Nat) : K :=
  loop lookback (i + 1) (fun s j =>
    33333333 / 100000000 * sto0 high low close lookback j + 66666667 / 100000000 * s)
    (sto0 high low close lookback (lookback - 1))

/-- `sto_2` at bar `i > front_bad`: vect.py:589-594. -/
def sto2 (high low close : List K) (lookback i : Nat) : K :=
  loop (lookback + 1) (i + 1) (fun s j =>
    33333333 / 100000000 * sto1 high low close lookback j + 66666667 / 100000000 * s)
    (sto1 high low close lookback lookback)

/-- `stochastic`, vect.py:544-595. -/
def stochastic (high low close : List K) (lookback smoothing : Nat) : Option (List K) :=
  if high.length = low.length ∧ high.length = close.length ∧ lookback > 0 ∧
      (smoothing = 0 ∨ smoothing = 1 ∨ smoothing = 2) then
    some (series close.length (fun i =>
      if lookback > close.length then 0
      else if i < lookback - 1 then 0
      else if smoothing = 0 then 100 * sto0 high low close lookback i - 50
      else if i = lookback - 1 then 100 * sto0 high low close lookback i - 50
      else if smoothing = 1 then 100 * sto1 high low close lookback i - 50
      else if i = lookback then 100 * sto1 high low close lookback i - 50
      else 100 * sto2 high low close lookback i - 50))
  else none

/-- vect.py:649-658: the stochastic of the RSI at bar `i`. -/
def stoRsiRaw (v : Nat → K) (rsiLen stoLen i : Nat) : K :=
  let w := fun k => if k < rsiLen then 0 else rsiAt v rsiLen k
  let m := loop 0 stoLen (fun (s : K × K) j =>
    (if w (i - j) < s.1 then w (i - j) else s.1, if w (i - j) > s.2 then w (i - j) else s.2))
    (10 ^ 60, -10 ^ 60)
  100 * (w i - m.1) / (m.2 - m.1 + tiny 60) - 50

/-- `stochastic_rsi`, vect.py:599-666. -/
def stochasticRsi (values : List K) (rsiLen stoLen : Nat) (smoothing : K) : Option (List K) :=
  if rsiLen > 0 ∧ stoLen > 0 ∧ smoothing ≥ 0 then
    let raw := stoRsiRaw (rd values) rsiLen stoLen
    let front := rsiLen + stoLen - 1
    some (series values.length (fun i =>
      if rsiLen ≥ values.length then 0
      else if i < front then 0
      else if smoothing > 1 ∧ i > front then emaFrom raw (2 / (smoothing + 1)) front i
      else raw i))
  else none

/-! ## Trends -/

/-- `_legendre_1`, vect.py:670-679. -/
def leg1 (F : Fns K) (n i : Nat) : K :=
  let c := fun (k : Nat) => 2 * (k : K) / ((n : K) - 1) - 1
  c i / F.sqrt (sumIn 0 n (fun k => c k * c k))

/-- Subtract the mean and divide by the norm: vect.py:687-698, 716-728. -/
def center (F : Fns K) (n : Nat) (x : Nat → K) (i : Nat) : K :=
  let mean := sumIn 0 n x / n
  (x i - mean) / F.sqrt (sumIn 0 n (fun k => (x k - mean) * (x k - mean)))

/-- The second array of `_legendre_2`, vect.py:683-699. -/
def leg2 (F : Fns K) (n : Nat) : Nat → K := center F n (fun k => leg1 F n k * leg1 F n k)

/-- The third array of `_legendre_3`, vect.py:702-738. -/
def leg3 (F : Fns K) (n i : Nat) : K :=
  let c3 := center F n (fun k => leg1 F n k * leg1 F n k * leg1 F n k)
  let proj := sumIn 0 n (fun k => leg1 F n k * c3 k)
  let d := fun k => c3 k - proj * leg1 F n k
  d i / F.sqrt (sumIn 0 n (fun k => d k * d k))

/-- The degree of the fit. -/
inductive Degree
  | linear
  | quadratic
  | cubic
  deriving DecidableEq

/-- The lookback in force: vect.py:764-769. -/
def trendLen (d : Degree) (lookback : Nat) : Nat :=
  match d with
  | .quadratic => if lookback < 4 then 4 else lookback
  | .cubic => if lookback < 5 then 5 else lookback
  | .linear => if lookback < 2 then 2 else lookback

/-- `dptr`: vect.py:778-783. -/
def legOf (F : Fns K) (d : Degree) (n : Nat) : Nat → K :=
  match d with
  | .linear => leg1 F n
  | .quadratic => leg2 F n
  | .cubic => leg3 F n

/-- A bar of `_trend`: vect.py:777-816. -/
def trendAt (F : Fns K) (v h l c : Nat → K) (d : Degree) (lookback atrLen : Nat) (scale : K)
    (i : Nat) : K :=
  let a := i + 1 - lookback
  let p := legOf F d lookback
  let dot := sumIn a (i + 1) (fun j => F.log (v j) * p (j - a))
  let mean := sumIn a (i + 1) (fun j => F.log (v j)) / lookback
  let k := if lookback = 2 then 2 else lookback - 1
  let denom := atrAt F h l c true atrLen i * (k : K)
  let out := dot * 2 / (denom + tiny 60)
  let yss := sumIn a (i + 1) (fun j => (F.log (v j) - mean) * (F.log (v j) - mean))
  let rss := sumIn a (i + 1) (fun j =>
    (F.log (v j) - mean - dot * p (j - a)) * (F.log (v j) - mean - dot * p (j - a)))
  let rsq := 1 - rss / (yss + tiny 60)
  let rsq := if rsq < 0 then 0 else rsq
  100 * F.cdf (scale * (out * rsq)) - 50

/-- `_trend`, vect.py:742-818; `linear_trend` 821, `quadratic_trend` 848, `cubic_trend` 876. -/
def trend (F : Fns K) (values high low close : List K) (d : Degree) (lookback atrLen : Nat)
    (scale : K) : Option (List K) :=
  if values.length = high.length ∧ values.length = low.length ∧ values.length = close.length ∧
      lookback > 0 ∧ atrLen > 0 ∧ scale > 0 then
    let len := trendLen d lookback
    let front := if len - 1 > atrLen then len - 1 else atrLen
    some (series values.length (fun i => if i < front then 0
      else trendAt F (rd values) (rd high) (rd low) (rd close) d len atrLen scale i))
  else none

/-! ## ADX -/

/-- The loop variables of `adx`, vect.py:934. -/
structure AdxSt (K : Type) where
  dmsPlus : K
  dmsMinus : K
  atr : K
  adx : K

/-- vect.py:936-943: the up move, if it counts. -/
def dmPlus (h l : Nat → K) (i : Nat) : K :=
  let up := h i - h (i - 1)
  let down := l (i - 1) - l i
  if up > down ∧ up > 0 then up else 0

/-- The down move, if it counts. -/
def dmMinus (h l : Nat → K) (i : Nat) : K :=
  let up := h i - h (i - 1)
  let down := l (i - 1) - l i
  if down > up ∧ down > 0 then down else 0

/-- vect.py:954-956: the directional index of the sums. -/
def dirIndex (s : AdxSt K) : K :=
  let p := s.dmsPlus / (s.atr + tiny 10)
  let m := s.dmsMinus / (s.atr + tiny 10)
  |p - m| / (p + m + tiny 10)

/-- The first loop, vect.py:935-957. -/
def adxStep1 (h l c : Nat → K) (s : AdxSt K) (i : Nat) : AdxSt K :=
  let s' : AdxSt K := { dmsPlus := s.dmsPlus + dmPlus h l i
                        dmsMinus := s.dmsMinus + dmMinus h l i
                        atr := s.atr + trueRange h l c i
                        adx := s.adx }
  { s' with adx := dirIndex s' }

/-- The decayed sums of the second and third loop, vect.py:968-976, 992-1000. -/
def adxDecay (h l c : Nat → K) (lb : Nat) (s : AdxSt K) (i : Nat) : AdxSt K :=
  let r := ((lb : K) - 1) / lb
  { dmsPlus := r * s.dmsPlus + dmPlus h l i
    dmsMinus := r * s.dmsMinus + dmMinus h l i
    atr := r * s.atr + trueRange h l c i
    adx := s.adx }

/-- The second loop, vect.py:958-980. -/
def adxStep2 (h l c : Nat → K) (lb : Nat) (s : AdxSt K) (i : Nat) : AdxSt K :=
  let s' := adxDecay h l c lb s i
  { s' with adx := s.adx + dirIndex s' }

/-- The third loop, vect.py:982-1005. -/
def adxStep3 (h l c : Nat → K) (lb : Nat) (s : AdxSt K) (i : Nat) : AdxSt K :=
  let s' := adxDecay h l c lb s i
  { s' with adx := ((lb : K) - 1) / lb * s.adx + dirIndex s' / lb }

/-- A bar of `adx` when there are at least `2 * lookback` bars. -/
def adxAt (h l c : Nat → K) (lb i : Nat) : K :=
  if i = 0 then 0
  else if i ≤ lb then 100 * (loop 1 (i + 1) (adxStep1 h l c) ⟨0, 0, 0, 0⟩).adx
  else
    let s1 := loop 1 (lb + 1) (adxStep1 h l c) ⟨0, 0, 0, 0⟩
    if i < 2 * lb then
      100 * (loop (lb + 1) (i + 1) (adxStep2 h l c lb) s1).adx / ((i : K) - lb + 1)
    else
      let s2 := loop (lb + 1) (2 * lb) (adxStep2 h l c lb) s1
      100 * (loop (2 * lb) (i + 1) (adxStep3 h l c lb) { s2 with adx := s2.adx / lb }).adx

/-- `adx`, vect.py:906-1006. -/
def adx (high low close : List K) (lookback : Nat) : Option (List K) :=
  if high.length = low.length ∧ high.length = close.length ∧ lookback > 0 then
    some (series close.length (fun i => if close.length < 2 * lookback then 0
      else adxAt (rd high) (rd low) (rd close) lookback i))
  else none

/-! ## Aroon -/

/-- The scan of vect.py:1032-1037 and 1041-1046: the latest index of an extreme of the last
`lookback + 1` bars. -/
def aroonScan (better : K → K → Bool) (x : Nat → K) (lookback i : Nat) : Nat :=
  loop 1 (lookback + 1) (fun best d => if d ≤ i ∧ better (x (i - d)) (x best) then i - d else best) i

/-- vect.py:1048, 1050, 1052-1053. -/
def aroonVal (lookback i best : Nat) : K := 100 * ((lookback : K) - ((i : K) - best)) / lookback

/-- `aroon_up`, vect.py:1059, with `_aroon` 1010-1055. -/
def aroonUp (high low : List K) (lookback : Nat) : Option (List K) :=
  if high.length = low.length ∧ lookback > 0 then
    some (series high.length (fun i => if i = 0 then 50
      else aroonVal lookback i (aroonScan (fun a b => decide (a > b)) (rd high) lookback i)))
  else none

/-- `aroon_down`, vect.py:1077. -/
def aroonDown (high low : List K) (lookback : Nat) : Option (List K) :=
  if high.length = low.length ∧ lookback > 0 then
    some (series high.length (fun i => if i = 0 then 50
      else aroonVal lookback i (aroonScan (fun a b => decide (a < b)) (rd low) lookback i)))
  else none

/-- `aroon_diff`, vect.py:1095. -/
def aroonDiff (high low : List K) (lookback : Nat) : Option (List K) :=
  if high.length = low.length ∧ lookback > 0 then
    some (series high.length (fun i => if i = 0 then 0
      else aroonVal lookback i (aroonScan (fun a b => decide (a > b)) (rd high) lookback i) -
        aroonVal lookback i (aroonScan (fun a b => decide (a < b)) (rd low) lookback i)))
  else none

/-! ## Price indicators -/

/-- `close_minus_ma`, vect.py:1116-1160. -/
def closeMinusMa (F : Fns K) (high low close : List K) (lookback atrLen : Nat) (scale : K) :
    Option (List K) :=
  if high.length = low.length ∧ high.length = close.length ∧ lookback > 0 ∧ atrLen > 0 ∧
      scale > 0 then
    some (series close.length (fun i =>
      if i < max lookback atrLen then 0
      else
        let total := sumIn (i - lookback) i (fun j => F.log (rd close j)) / lookback
        let denom := atrAt F (rd high) (rd low) (rd close) true atrLen i
        if denom > 0 then
          100 * F.cdf (scale * ((F.log (rd close i) - total) / (denom * F.sqrt ((lookback : K) + 1)))) - 50
        else 0))
  else none

/-- The lookback in force: vect.py:1174-1179. -/
def devLen (d : Degree) (lookback : Nat) : Nat :=
  match d with
  | .linear => if lookback < 3 then 3 else lookback
  | .quadratic => if lookback < 4 then 4 else lookback
  | .cubic => if lookback < 5 then 5 else lookback

/-- A bar of `_deviation`: vect.py:1188-1236. -/
def deviationAt (F : Fns K) (v : Nat → K) (d : Degree) (lb : Nat) (scale : K) (i : Nat) : K :=
  let a := i + 1 - lb
  let coef := fun (w : Nat → K) => sumIn a (i + 1) (fun j => F.log (v j) * w (j - a))
  let c0 := sumIn a (i + 1) (fun j => F.log (v j)) / lb
  let c1 := coef (leg1 F lb)
  let c2 := if d = .linear then 0 else coef (leg2 F lb)
  let c3 := if d = .cubic then coef (leg3 F lb) else 0
  let pred := fun j => c0 + c1 * leg1 F lb j + c2 * leg2 F lb j + c3 * leg3 F lb j
  let total := sumIn a (i + 1) (fun k => (F.log (v k) - pred (k - a)) * (F.log (v k) - pred (k - a)))
  let denom := F.sqrt (total / lb)
  if denom > tiny 12 * (1 + |c0|) then
    100 * F.cdf (scale * ((F.log (v i) - pred (lb - 1)) / denom)) - 50
  else 0

/-- `_deviation`, vect.py:1164-1238. -/
def deviation (F : Fns K) (values : List K) (d : Degree) (lookback : Nat) (scale : K) :
    Option (List K) :=
  if lookback > 0 ∧ scale > 0 then
    some (series values.length (fun i => if i < devLen d lookback - 1 then 0
      else deviationAt F (rd values) d (devLen d lookback) scale i))
  else none

/-- vect.py:1334-1346: a bar before smoothing. -/
def intensityRaw (o h l c : Nat → K) (i : Nat) : K :=
  let denom := if i = 0 then h 0 - l 0 else trueRange h l c i
  (c i - o i) / (if denom < tiny 60 then tiny 60 else denom)

/-- `price_intensity`, vect.py:1301-1357. -/
def priceIntensity (F : Fns K) (opn high low close : List K) (smoothing scale : K) :
    Option (List K) :=
  if opn.length = high.length ∧ opn.length = low.length ∧ opn.length = close.length ∧
      smoothing ≥ 0 ∧ scale > 0 then
    let sm := if smoothing < 1 then 1 else smoothing
    let raw := intensityRaw (rd opn) (rd high) (rd low) (rd close)
    some (series close.length (fun i =>
      100 * F.cdf (scale * F.sqrt sm *
        (if sm > 1 then emaFrom raw (2 / (sm + 1)) 0 i else raw i)) - 50))
  else none

/-- A bar of `price_change_oscillator`: vect.py:1397-1419. -/
def oscillatorAt (F : Fns K) (h l c : Nat → K) (short mult : Nat) (scale : K) (i : Nat) : K :=
  let long := short * mult
  let move := fun j => |F.log (c j / c (j - 1))|
  let shortSum := sumIn (i + 1 - short) (i + 1) move
  let longSum := loop (i + 1 - long) (i + 1 - short) (fun s j => s + move j) shortSum
  let v := F.log (1 / 2 * (mult : K)) / (1609 / 1000)
  let denom := (36 / 100 + 1 / (short : K) + 7 / 10 * v) * atrAt F h l c true long i
  if denom > tiny 20 then
    100 * F.cdf (scale * ((shortSum / short - longSum / long) / denom)) - 50
  else 0

/-- `price_change_oscillator`, vect.py:1361-1420. -/
def priceChangeOscillator (F : Fns K) (high low close : List K) (short mult : Nat) (scale : K) :
    Option (List K) :=
  if high.length = low.length ∧ high.length = close.length ∧ short > 0 ∧ mult > 0 ∧ scale > 0 then
    let m := if mult < 2 then 2 else mult
    some (series close.length (fun i => if i < short * m then 0
      else oscillatorAt F (rd high) (rd low) (rd close) short m scale i))
  else none

/-! ## Volume indicators -/

/-- `for first_volume in range(n): if volume[first_volume] > 0: break`: the first index with
volume, or the last index: vect.py:1441-1443 and the same loops below. -/
def firstVolume : List K → Nat
  | [] => 0
  | [_] => 0
  | v :: w :: vs => if v > 0 then 0 else firstVolume (w :: vs) + 1

/-- vect.py:1448-1457. -/
def flowRaw (h l c v : Nat → K) (fv i : Nat) : K :=
  if i < fv then 0
  else if h i > l i then 100 * (2 * c i - h i - l i) / (h i - l i) * v i
  else 0

/-- vect.py:1458-1463. -/
def flowAvg (h l c v : Nat → K) (fv lb i : Nat) : K :=
  if lb > 1 then sumIn 0 lb (fun j => flowRaw h l c v fv (i - j)) / lb else flowRaw h l c v fv i

/-- vect.py:1475-1478. -/
def flowSmooth (v : Nat → K) (alpha : K) (fv i : Nat) : K :=
  loop fv (i + 1) (fun s j => alpha * v j + (1 - alpha) * s) (v fv)

/-- `_flow`, vect.py:1424-1486; `intraday_intensity` (`money = false`) 1489 and `money_flow` 1514.
The loop at 1475-1482 also divides the bars before `front_bad`; those are zeroed by 1483-1484. -/
def flow (high low close volume : List K) (lookback : Nat) (smoothing : K) (money : Bool) :
    Option (List K) :=
  if high.length = low.length ∧ high.length = close.length ∧ high.length = volume.length ∧
      lookback > 0 ∧ smoothing ≥ 0 then
    let fv := firstVolume volume
    let v := rd volume
    some (series close.length (fun i =>
      if i < lookback - 1 + fv then 0
      else
        let out := flowAvg (rd high) (rd low) (rd close) v fv lookback i
        if money then
          let total := sumIn 0 lookback (fun j => v (i - j)) / lookback
          if total > 0 then out / total else 0
        else if smoothing > 1 then
          let s := flowSmooth v (2 / (smoothing + 1)) fv i
          if s > 0 then out / s else 0
        else out))
  else none

/-- The loop variables of `reactivity`. -/
structure ReactSt (K : Type) where
  lowest : K
  highest : K
  range : K
  volume : K

/-- vect.py:1597-1606. -/
def reactWarm (h l v : Nat → K) (alpha : K) (s : ReactSt K) (i : Nat) : ReactSt K :=
  let highest := if h i > s.highest then h i else s.highest
  let lowest := if l i < s.lowest then l i else s.lowest
  { lowest := lowest, highest := highest
    range := alpha * (highest - lowest) + (1 - alpha) * s.range
    volume := alpha * v i + (1 - alpha) * s.volume }

/-- vect.py:1607-1619. -/
def reactStep (h l v : Nat → K) (alpha : K) (lb : Nat) (s : ReactSt K) (i : Nat) : ReactSt K :=
  let m := loop 1 (lb + 1) (fun (m : K × K) j =>
    (if l (i - j) < m.1 then l (i - j) else m.1, if h (i - j) > m.2 then h (i - j) else m.2)) (l i, h i)
  { lowest := m.1, highest := m.2
    range := alpha * (m.2 - m.1) + (1 - alpha) * s.range
    volume := alpha * v i + (1 - alpha) * s.volume }

/-- A bar `i ≥ front_bad` of `reactivity`: vect.py:1597-1628. -/
def reactAt (F : Fns K) (h l c v : Nat → K) (fv lb : Nat) (alpha scale : K) (i : Nat) : K :=
  let s0 : ReactSt K := ⟨l fv, h fv, h fv - l fv, v fv⟩
  let s1 := loop (fv + 1) (fv + lb) (reactWarm h l v alpha) s0
  let s := loop (fv + lb) (i + 1) (reactStep h l v alpha lb) s1
  let aspect := (s.highest - s.lowest) / s.range
  let aspect := if v i > 0 ∧ s.volume > 0 then aspect / (v i / s.volume) else 1
  100 * F.cdf (scale * (aspect * (c i - c (i - lb)) / s.range)) - 50

/-- `reactivity`, vect.py:1540-1626. -/
def reactivity (F : Fns K) (high low close volume : List K) (lookback : Nat) (smoothing scale : K) :
    Option (List K) :=
  if high.length = low.length ∧ high.length = close.length ∧ high.length = volume.length ∧
      lookback > 0 ∧ smoothing ≥ 0 ∧ scale > 0 then
    let fv := firstVolume volume
    let a := 2 / ((lookback : K) * smoothing + 1)
    let alpha := if a > 1 then 1 else a
    some (series close.length (fun i =>
      if rd high fv - rd low fv = 0 then 0
      else if fv + 1 ≥ close.length ∨ fv + lookback ≥ close.length then 0
      else if i < lookback + fv then 0
      else reactAt F (rd high) (rd low) (rd close) (rd volume) fv lookback alpha scale i))
  else none

/-- A bar of `price_volume_fit`: vect.py:1661-1676. -/
def fitAt (F : Fns K) (c v : Nat → K) (lb : Nat) (scale : K) (i : Nat) : K :=
  let x := fun k => F.log (v k + 1)
  let y := fun k => F.log (c k)
  let xMean := sumIn 0 lb (fun j => x (i - j)) / lb
  let yMean := sumIn 0 lb (fun j => y (i - j)) / lb
  let xss := sumIn 0 lb (fun j => (x (i - j) - xMean) * (x (i - j) - xMean))
  let xy := sumIn 0 lb (fun j => (x (i - j) - xMean) * (y (i - j) - yMean))
  100 * F.cdf (scale * (xy / (xss + tiny 30))) - 50

/-- `price_volume_fit`, vect.py:1630-1677. -/
def priceVolumeFit (F : Fns K) (close volume : List K) (lookback : Nat) (scale : K) :
    Option (List K) :=
  if close.length = volume.length ∧ lookback > 0 ∧ scale > 0 then
    some (series close.length (fun i => if i < lookback - 1 + firstVolume volume then 0
      else fitAt F (rd close) (rd volume) lookback scale i))
  else none

/-- A bar of `volume_weighted_ma_ratio`: vect.py:1711-1725. -/
def vwmaAt (F : Fns K) (c v : Nat → K) (lb : Nat) (scale : K) (i : Nat) : K :=
  let a := i + 1 - lb
  let numer := sumIn a (i + 1) (fun j => v j * c j)
  let denom := sumIn a (i + 1) c
  let total := sumIn a (i + 1) v
  if total > 0 then
    100 * F.cdf (scale * (1000 * F.log (lb * numer / (total * denom)) / F.sqrt lb)) - 50
  else 0

/-- `volume_weighted_ma_ratio`, vect.py:1681-1726. -/
def volumeWeightedMaRatio (F : Fns K) (close volume : List K) (lookback : Nat) (scale : K) :
    Option (List K) :=
  if close.length = volume.length ∧ lookback > 0 ∧ scale > 0 then
    some (series close.length (fun i => if i < lookback - 1 + firstVolume volume then 0
      else vwmaAt F (rd close) (rd volume) lookback scale i))
  else none

/-- A bar of `_on_balance_volume` before differencing: vect.py:1752-1766. -/
def obvAt (F : Fns K) (c v : Nat → K) (lb : Nat) (scale : K) (i : Nat) : K :=
  let signed := sumIn 0 lb (fun j =>
    if c (i - j) > c (i - j - 1) then v (i - j)
    else if c (i - j) < c (i - j - 1) then - v (i - j) else 0)
  let total := sumIn 0 lb (fun j => v (i - j))
  if total ≤ 0 then 0 else 100 * F.cdf (scale * (signed / total * F.sqrt lb)) - 50

/-- `normalized_on_balance_volume`, vect.py:1784-1803, with `_on_balance_volume` 1730-1780. -/
def normalizedObv (F : Fns K) (close volume : List K) (lookback : Nat) (scale : K) :
    Option (List K) :=
  if close.length = volume.length ∧ lookback > 0 ∧ scale > 0 then
    some (series close.length (fun i => if i < lookback + firstVolume volume then 0
      else obvAt F (rd close) (rd volume) lookback scale i))
  else none

/-- `delta_on_balance_volume`, vect.py:1806-1828, with 1767-1779. -/
def deltaObv (F : Fns K) (close volume : List K) (lookback delta : Nat) (scale : K) :
    Option (List K) :=
  if close.length = volume.length ∧ lookback > 0 ∧ scale > 0 then
    let d := if delta < 1 then 1 else delta
    some (series close.length (fun i => if i < lookback + firstVolume volume + d then 0
      else obvAt F (rd close) (rd volume) lookback scale i -
        obvAt F (rd close) (rd volume) lookback scale (i - d)))
  else none

/-- A bar of `_normalized_volume_index`: vect.py:1853-1878.  The NaN case does not
occur without NaN. -/
def nviAt (F : Fns K) (c v : Nat → K) (lb vol : Nat) (scale : K) (positive : Bool) (i : Nat) : K :=
  let total := sumIn 0 lb (fun j =>
    if (if positive then v (i - j) > v (i - j - 1) else v (i - j) < v (i - j - 1)) then
      F.log (c (i - j) / c (i - j - 1)) else 0) / F.sqrt lb
  let denom := F.sqrt (varianceAt F true vol c i)
  if denom > 0 then 100 * F.cdf (scale * (total / denom)) - 50 else 0

/-- `_normalized_volume_index`, vect.py:1830-1879. -/
def normalizedVolumeIndex (F : Fns K) (close volume : List K) (lookback : Nat) (scale : K)
    (positive : Bool) : Option (List K) :=
  if close.length = volume.length ∧ lookback > 0 ∧ scale > 0 then
    let vol := if 2 * lookback < 250 then 250 else 2 * lookback
    some (series close.length (fun i => if i < vol + firstVolume volume then 0
      else nviAt F (rd close) (rd volume) lookback vol scale positive i))
  else none

/-- A bar of `volume_momentum`: vect.py:1955-1969. -/
def momentumAt (F : Fns K) (v : Nat → K) (short mult : Nat) (scale : K) (i : Nat) : K :=
  let long := short * mult
  let shortSum := sumIn (i + 1 - short) (i + 1) v
  let longSum := loop (i + 1 - long) (i + 1 - short) (fun s j => s + v j) shortSum
  if longSum / long > 0 ∧ shortSum / short > 0 then
    100 * F.cdf (scale * (F.log (shortSum / short / (longSum / long)) / F.exp (F.log mult / 3))) - 50
  else 0

/-- `volume_momentum`, vect.py:1922-1970. -/
def volumeMomentum (F : Fns K) (volume : List K) (short mult : Nat) (scale : K) : Option (List K) :=
  if short > 0 ∧ mult ≥ 1 ∧ scale > 0 then
    let m := if mult < 2 then 2 else mult
    some (series volume.length (fun i => if i < short * m - 1 + firstVolume volume then 0
      else momentumAt F (rd volume) short m scale i))
  else none

/-! ## Laguerre RSI -/

/-- The filter state and the last output. -/
structure LagSt (K : Type) where
  l0 : K
  l1 : K
  l2 : K
  l3 : K
  out : K

/-- `max(x[a:b])`. -/
def maxIn (x : Nat → K) (a b : Nat) : K := loop (a + 1) b (fun m j => if x j > m then x j else m) (x a)
/-- `min(x[a:b])`. -/
def minIn (x : Nat → K) (a b : Nat) : K := loop (a + 1) b (fun m j => if x j < m then x j else m) (x a)

/-- The filter and the output: vect.py:2026-2045. -/
def lagFilter (F : Fns K) (fe : Nat) (s : LagSt K) (src sum : K) : LagSt K :=
  let al := if sum > 0 then F.log sum / F.log fe else 0
  let l0 := al * src + (1 - al) * s.l0
  let l1 := -(1 - al) * l0 + s.l0 + (1 - al) * s.l1
  let l2 := -(1 - al) * l1 + s.l1 + (1 - al) * s.l2
  let l3 := -(1 - al) * l2 + s.l2 + (1 - al) * s.l3
  let cu := (if l0 ≥ l1 then l0 - l1 else 0) + (if l1 ≥ l2 then l1 - l2 else 0) +
    (if l2 ≥ l3 then l2 - l3 else 0)
  let cd := (if l0 ≥ l1 then 0 else l1 - l0) + (if l1 ≥ l2 then 0 else l2 - l1) +
    (if l2 ≥ l3 then 0 else l3 - l2)
  { l0 := l0, l1 := l1, l2 := l2, l3 := l3
    out := (if cu + cd ≠ 0 then cu / (cu + cd) else 0) * 100 }

/-- The sum of the bars' ranges: vect.py:2016-2025. -/
def lagSum (h l c : Nat → K) (fe : Nat) (denom : K) (i : Nat) : K :=
  sumIn 0 fe (fun j => (max (h (i - j)) (c (i - j - 1)) - min (l (i - j)) (c (i - j - 1))) / denom)

/-- One bar of `laguerre_rsi`: vect.py:2005-2045. -/
def lagStep (F : Fns K) (o h l c : Nat → K) (fe : Nat) (s : LagSt K) (i : Nat) : LagSt K :=
  let oc := (o i + c (i - 1)) / 2
  let hc := max (h i) (c (i - 1))
  let lc := min (l i) (c (i - 1))
  let src := (oc + hc + lc + c i) / 4
  let denom := maxIn h (i + 1 - fe) (i + 1) - minIn l (i + 1 - fe) (i + 1)
  if denom = 0 then { s with out := 0 } else lagFilter F fe s src (lagSum h l c fe denom i)

/-- `laguerre_rsi`, vect.py:1974-2046. -/
def laguerreRsi (F : Fns K) (opn high low close : List K) (fe : Nat) : Option (List K) :=
  if opn.length = high.length ∧ opn.length = low.length ∧ opn.length = close.length ∧ fe > 0 then
    some (series close.length (fun i =>
      if close.length ≤ fe ∨ fe = 1 ∨ i < fe then 0
      else (loop fe (i + 1) (lagStep F (rd opn) (rd high) (rd low) (rd close) fe) ⟨0, 0, 0, 0, 0⟩).out))
  else none

end PyBroker
