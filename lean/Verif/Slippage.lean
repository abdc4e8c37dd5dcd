import Verif.Portfolio.Stops

/-!
# Model of `pybroker/slippage.py` and of the average true range of `vect.py`

Line numbers refer to `/repo/src/pybroker/slippage.py` unless another file is
named.  `Decimal` and float arithmetic is exact (ℚ); a float that may be NaN is
an `Option ℚ`.  The warnings are not modelled.
-/

namespace PyBroker.Slippage

open PyBroker

/-- The bars `SlippageContext` gives access to, at the fill bar
(slippage.py:35-73): `endIndex` is `sym_end_index[symbol]`, `cols` the high, low
and close columns up to the fill bar (`none` if `fetch_dict` raises or a column
is missing), `volume` the result of `_fetch_scalar` (slippage.py:84-101). -/
structure Bars where
  endIndex : Nat
  cols : Option (List (Option ℚ) × List (Option ℚ) × List (Option ℚ))
  volume : Option ℚ

/-- `SlippageContext`, slippage.py:35-73.  `bars = none` stands for a missing
`col_scope` or `sym_end_index`. -/
structure Ctx where
  side : Side
  shares : ℚ
  fill : ℚ
  bars : Option Bars
  fractional : Bool := true

/-- `_adverse_price`, slippage.py:76-82. -/
def adversePrice (side : Side) (base amount : ℚ) : ℚ :=
  match side with
  | .buy => base + amount
  | .sell => base - amount

/-! ## FixedSlippageModel -/

/-- `FixedSlippageModel.__init__`, slippage.py:182-200: `none` if it raises,
else the configured `bps`. -/
def fixedInit (bps : ℚ) : Option ℚ :=
  if bps < 0 then none
  else if bps ≥ 10000 then none
  else some bps

/-- `_buy_multiplier` and `_sell_multiplier`, slippage.py:193-199. -/
def fixedMultiplier (bps : ℚ) (side : Side) : ℚ :=
  if bps = 0 then 1
  else
    match side with
    | .buy => 1 + bps / 10000
    | .sell => 1 - bps / 10000

/-- `FixedSlippageModel.adjust_fill_price`, slippage.py:206-214. -/
def fixedAdjust (bps : ℚ) (side : Side) (fill : ℚ) : ℚ :=
  if bps = 0 then fill else fill * fixedMultiplier bps side

/-- `FixedSlippageModel.apply_slippage`, slippage.py:216-220, and `adjust_fill`
(slippage.py:140-176), which skips a no-op model. -/
def fixedApply (bps : ℚ) (c : Ctx) : ℚ × ℚ := (c.shares, fixedAdjust bps c.side c.fill)

/-! ## VolatilitySlippageModel -/

/-- The true range of one bar, vect.py:325-331, with float comparisons. -/
def trueRange (prevClose high low : Option ℚ) : Option ℚ :=
  let t0 := subN high low
  let t1 := if ltN t0 (subN high prevClose) then subN high prevClose else t0
  if ltN t1 (subN prevClose low) then subN prevClose low else t1

/-- The loop of `_atr` (vect.py:318-332, `use_log = False`) over the bars after
the first, given the previous close. -/
def atrTotal : Option ℚ → Option ℚ → List (Option ℚ × Option ℚ × Option ℚ) → Option ℚ
  | total, _, [] => total
  | total, prev, (h, l, c) :: rest => atrTotal (addN total (trueRange prev h l)) c rest

/-- The last value of `atr(high[-window:], low[-window:], close[-window:],
lookback)` with `window = lookback + 1`, vect.py:337-366: an average over all
bars but the first. -/
def lastAtr (lookback : Nat) (bars : List (Option ℚ × Option ℚ × Option ℚ)) : Option ℚ :=
  match bars with
  | [] => none
  | (_, _, c) :: rest => (atrTotal (some 0) c rest).map (fun t => t / lookback)

/-- `values[-n:]`. -/
def lastN {α : Type} (n : Nat) (l : List α) : List α := l.drop (l.length - n)

/-- The parameters of `VolatilitySlippageModel`, slippage.py:237-249: `none` if
the constructor raises. -/
def volatilityInit (atrPeriod : Int) (scale : ℚ) : Option (Nat × ℚ) :=
  if atrPeriod < 1 then none
  else if scale < 0 then none
  else some (atrPeriod.toNat, scale)

/-- The ATR at the fill bar, slippage.py:258-287: `none` where the model leaves
the fill unadjusted. -/
def fillAtr (atrPeriod : Nat) (b : Bars) : Option ℚ :=
  let window := atrPeriod + 1
  if b.endIndex < window then none
  else
    match b.cols with
    | none => none
    | some (high, low, close) =>
      if high.length < window ∨ low.length < window ∨ close.length < window then none
      else
        lastAtr atrPeriod
          ((lastN window high).zip ((lastN window low).zip (lastN window close)))

/-- `VolatilitySlippageModel.apply_slippage`, slippage.py:255-296. -/
def volatilityApply (atrPeriod : Nat) (scale : ℚ) (c : Ctx) : ℚ × ℚ :=
  if scale = 0 then (c.shares, c.fill)
  else
    match c.bars with
    | none => (c.shares, c.fill)
    | some b =>
      match fillAtr atrPeriod b with
      | none => (c.shares, c.fill)
      | some a =>
        let price := adversePrice c.side c.fill (scale * a)
        let floor := c.fill * (1 / 100)
        (c.shares, if price < floor then floor else price)

/-! ## VolumeSlippageModel -/

/-- The parameters of `VolumeSlippageModel`, slippage.py:337-358. -/
structure VolumeParams where
  impact : ℚ
  limit : Option ℚ

/-- `VolumeSlippageModel.__init__`, slippage.py:337-346: `none` if it raises. -/
def volumeInit (impact : ℚ) (limit : Option ℚ) : Option VolumeParams :=
  if impact < 0 then none
  else
    match limit with
    | some l => if l < 0 then none else some ⟨impact, limit⟩
    | none => some ⟨impact, limit⟩

/-- `self._volume_limit_dec` if `self._cap_enabled`, slippage.py:349-354. -/
def VolumeParams.cap (p : VolumeParams) : Option ℚ :=
  match p.limit with
  | some l => if l > 0 then some l else none
  | none => none

/-- Shares after the participation cap, slippage.py:407-414. -/
def cappedShares (p : VolumeParams) (c : Ctx) (volume : ℚ) : ℚ :=
  match p.cap with
  | none => c.shares
  | some l =>
    let maxShares := l * volume
    if maxShares < c.shares then
      (if c.fractional then maxShares else (truncQ maxShares : ℚ))
    else c.shares

/-- The price after impact, slippage.py:416-433. -/
def impactPrice (p : VolumeParams) (c : Ctx) (volume shares : ℚ) : ℚ :=
  if p.impact > 0 ∧ shares > 0 then
    let ratio := shares / volume
    let impact := p.impact * ratio * ratio
    match c.side with
    | .buy => c.fill * (1 + impact)
    | .sell =>
      let price := c.fill * (1 - impact)
      let floor := c.fill * (1 / 100)
      if price < floor then floor else price
  else c.fill

/-- `VolumeSlippageModel.apply_slippage`, slippage.py:384-435. -/
def volumeApply (p : VolumeParams) (c : Ctx) : ℚ × ℚ :=
  if p.cap = none ∧ ¬ p.impact > 0 then (c.shares, c.fill)
  else
    match c.bars with
    | none => (c.shares, c.fill)
    | some b =>
      match b.volume with
      | none => (c.shares, c.fill)
      | some v =>
        if v ≤ 0 then
          (if p.cap ≠ none then (0, c.fill) else (c.shares, c.fill))
        else
          let shares := cappedShares p c v
          (shares, impactPrice p c v shares)

end PyBroker.Slippage
