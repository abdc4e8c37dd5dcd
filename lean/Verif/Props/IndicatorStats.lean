import Verif.Props.LeastSquares
import Mathlib.Data.Sign.Basic

/-!
# Indicators are the statistics they are named after (C157)

`price_volume_fit`, `detrended_rsi`, `volume_weighted_ma_ratio`, `normalized_on_balance_volume`,
`delta_on_balance_volume`, `volume_momentum`, `normalized_positive_volume_index`,
`normalized_negative_volume_index`, `close_minus_ma` and `price_change_oscillator` of
`/repo/src/pybroker/vect.py`, from means, fitted lines and signs over the last bars.
-/

namespace PyBroker

open Finset

/-! ## Specification -/

section
variable {K : Type} [Field K] [LinearOrder K]

/-- The last `n` of the values up to index `i`, the oldest first. -/
def Spec.lastOf (f : Nat → K) (i n : Nat) : Nat → K := fun k => f (i + 1 - n + k)

/-- The line `α + β x` is fitted by least squares. -/
def Spec.BestLine (n : Nat) (x y : Nat → K) (α β : K) : Prop :=
  ∀ a b : K, ∑ k ∈ range n, (y k - (α + β * x k)) ^ 2 ≤ ∑ k ∈ range n, (y k - (a + b * x k)) ^ 2

/-- The sum of the squared distances from the mean. -/
def Spec.spread (n : Nat) (x : Nat → K) : K := ∑ k ∈ range n, (x k - Spec.meanOf n x) ^ 2

/-- Wilder's average of `g`: a mean over the bars 1 to `len - 1`, started just above 0, and then a new
value in place of an average one on each of `m` bars. -/
def Spec.wilder (g : Nat → K) (len : Nat) : Nat → K
  | 0 => (1 / 10 ^ 60 + ∑ k ∈ range (len - 1), g (k + 1)) / ((len : K) - 1)
  | m + 1 => (((len : K) - 1) * Spec.wilder g len m + g (len + m)) / len

/-- The relative strength index of bar `i`: the share of the ups. -/
def Spec.rsi (v : Nat → K) (len i : Nat) : K :=
  let ups := Spec.wilder (fun k => max (v k - v (k - 1)) 0) len (i + 1 - len)
  let downs := Spec.wilder (fun k => max (v (k - 1) - v k) 0) len (i + 1 - len)
  100 * ups / (ups + downs)

/-- The change of the log of bar `k`. -/
def Spec.change (F : Fns K) (v : Nat → K) (k : Nat) : K := F.log (v k / v (k - 1))

/-- The map of an indicator to between -50 and 50. -/
def Spec.squash (F : Fns K) (x : K) : K := 100 * F.cdf x - 50

end

open PyBroker.Spec

variable {K : Type} [Field K] [LinearOrder K] [IsStrictOrderedRing K]

/-! ## Sums -/

theorem sumIn_window {n i : Nat} (h : n ≤ i + 1) (f : Nat → K) :
    sumIn (i + 1 - n) (i + 1) f = ∑ k ∈ range n, lastOf f i n k := by
  have := sumIn_shift (i + 1 - n) n f
  rw [show i + 1 - n + n = i + 1 by omega] at this
  exact this

theorem sumIn_back {n i : Nat} (h : n ≤ i + 1) (f : Nat → K) :
    sumIn 0 n (fun j => f (i - j)) = ∑ k ∈ range n, lastOf f i n k := by
  rw [sumIn_zero, ← sum_range_reflect]
  refine sum_congr rfl (fun k hk => ?_)
  have := mem_range.1 hk
  unfold lastOf
  congr 1
  omega

theorem loop_split {a b c : Nat} (hab : a ≤ b) (hbc : b ≤ c) (f : Nat → K) :
    loop a b (fun s j => s + f j) (sumIn b c f) = sumIn a c f := by
  have h : ∀ (l : List Nat) (s : K), l.foldl (fun s j => s + f j) s = s + l.foldl (fun s j => s + f j) 0 := by
    intro l
    induction l with
    | nil => intro s; simp
    | cons x l ih =>
      intro s
      simp only [List.foldl_cons]
      rw [ih, ih (0 + f x)]
      ring
  unfold sumIn loop
  rw [h]
  have e : List.range' a (c - a) = List.range' a (b - a) ++ List.range' b (c - b) := by
    have := List.range'_append (s := a) (m := b - a) (n := c - b) (step := 1)
    rw [show a + 1 * (b - a) = b by omega, show b - a + (c - b) = c - a by omega] at this
    exact this.symm
  rw [e, List.foldl_append, h _ (List.foldl _ _ _)]
  ring

/-! ## Lines -/

/-- What a fitted line leaves is orthogonal. -/
theorem bestLine_orth {n : Nat} {x y : Nat → K} {α β : K} (h : BestLine n x y α β) (u w : K) :
    ∑ k ∈ range n, (y k - (α + β * x k)) * (u + w * x k) = 0 := by
  generalize hR : ∑ k ∈ range n, (y k - (α + β * x k)) * (u + w * x k) = R
  generalize hW : ∑ k ∈ range n, (u + w * x k) ^ 2 = W
  have hW0 : 0 ≤ W := hW ▸ sum_nonneg (fun _ _ => sq_nonneg _)
  have key : ∀ t : K, 2 * t * R ≤ t ^ 2 * W := by
    intro t
    have := h (α + t * u) (β + t * w)
    have e : ∀ k ∈ range n, (y k - (α + t * u + (β + t * w) * x k)) ^ 2 =
        (y k - (α + β * x k)) ^ 2 - 2 * t * ((y k - (α + β * x k)) * (u + w * x k)) +
          t ^ 2 * (u + w * x k) ^ 2 := fun k _ => by ring
    rw [sum_congr rfl e, sum_add_distrib, sum_sub_distrib, ← mul_sum, ← mul_sum, hR, hW] at this
    linarith
  by_contra hne
  have hR2 : 0 < R ^ 2 := by positivity
  have hp : 0 < W + 1 := by linarith
  have h1 := key (R / (W + 1))
  rw [div_pow, show 2 * (R / (W + 1)) * R = 2 * R ^ 2 / (W + 1) by ring,
    show R ^ 2 / (W + 1) ^ 2 * W = R ^ 2 * W / (W + 1) / (W + 1) by field_simp] at h1
  rw [div_le_div_iff_of_pos_right hp, le_div_iff₀ hp] at h1
  nlinarith

/-- The slope from the products of the distances from the means. -/
theorem bestLine_slope {n : Nat} {x y : Nat → K} {α β : K} (h : BestLine n x y α β) :
    ∑ k ∈ range n, (x k - meanOf n x) * (y k - meanOf n y) = β * spread n x := by
  rcases Nat.eq_zero_or_pos n with rfl | hn
  · simp [spread]
  have hn0 : (n : K) ≠ 0 := by exact_mod_cast hn.ne'
  have h1 := bestLine_orth h 1 0
  have h2 := bestLine_orth h (- meanOf n x) 1
  simp only [zero_mul, add_zero, mul_one] at h1
  have hx : ∑ k ∈ range n, (x k - meanOf n x) = 0 := by
    rw [sum_sub_distrib, sum_const, card_range, nsmul_eq_mul]
    unfold meanOf
    field_simp
    ring
  have hm : meanOf n y = α + β * meanOf n x := by
    rw [sum_sub_distrib, sum_add_distrib, sum_const, card_range, nsmul_eq_mul, ← mul_sum] at h1
    unfold meanOf
    field_simp
    linear_combination h1
  have e : ∀ k ∈ range n, (x k - meanOf n x) * (y k - meanOf n y) =
      (y k - (α + β * x k)) * (-meanOf n x + 1 * x k) + β * (x k - meanOf n x) ^ 2 +
        0 * (x k - meanOf n x) := by
    intro k _
    rw [hm]
    ring
  rw [sum_congr rfl e, sum_add_distrib, sum_add_distrib, h2, ← mul_sum, ← mul_sum]
  unfold spread
  ring

/-- Each window has a line fitted by least squares. -/
theorem bestLine_exists (n : Nat) (x y : Nat → K) : ∃ α β, BestLine n x y α β := by
  rcases Nat.eq_zero_or_pos n with rfl | hn
  · exact ⟨0, 0, fun a b => by simp⟩
  have hn0 : (n : K) ≠ 0 := by exact_mod_cast hn.ne'
  have hx : ∀ x : Nat → K, ∑ k ∈ range n, (x k - meanOf n x) = 0 := by
    intro x
    rw [sum_sub_distrib, sum_const, card_range, nsmul_eq_mul]
    unfold meanOf
    field_simp
    ring
  generalize hS : ∑ k ∈ range n, (x k - meanOf n x) * (y k - meanOf n y) = S
  have hβ : S / spread n x * spread n x = S := by
    by_cases h0 : spread n x = 0
    · have h1 := h0
      unfold spread at h1
      rw [sum_eq_zero_iff_of_nonneg (fun _ _ => sq_nonneg _)] at h1
      have : S = 0 := by
        rw [← hS]
        exact sum_eq_zero (fun k hk => by rw [pow_eq_zero_iff (two_ne_zero) |>.1 (h1 k hk), zero_mul])
      rw [h0, this]
      simp
    · exact div_mul_cancel₀ _ h0
  generalize S / spread n x = β at hβ
  have orth1 : ∑ k ∈ range n, (y k - (meanOf n y - β * meanOf n x + β * x k)) = 0 := by
    have e : ∀ k ∈ range n, y k - (meanOf n y - β * meanOf n x + β * x k) =
        (y k - meanOf n y) - β * (x k - meanOf n x) := fun k _ => by ring
    rw [sum_congr rfl e, sum_sub_distrib, ← mul_sum, hx, hx]
    ring
  have orth2 : ∑ k ∈ range n, (y k - (meanOf n y - β * meanOf n x + β * x k)) * (x k - meanOf n x) = 0 := by
    have e : ∀ k ∈ range n, (y k - (meanOf n y - β * meanOf n x + β * x k)) * (x k - meanOf n x) =
        (x k - meanOf n x) * (y k - meanOf n y) - β * (x k - meanOf n x) ^ 2 := fun k _ => by ring
    rw [sum_congr rfl e, sum_sub_distrib, ← mul_sum, hS]
    have : ∑ k ∈ range n, (x k - meanOf n x) ^ 2 = spread n x := rfl
    rw [this, hβ, sub_self]
  refine ⟨meanOf n y - β * meanOf n x, β, fun a b => ?_⟩
  generalize hα : meanOf n y - β * meanOf n x = α at orth1 orth2
  have e : ∀ k ∈ range n, (y k - (a + b * x k)) ^ 2 = (y k - (α + β * x k)) ^ 2 +
      (α + β * x k - (a + b * x k)) ^ 2 +
      2 * (α - a + (β - b) * meanOf n x) * (y k - (α + β * x k)) +
      2 * (β - b) * ((y k - (α + β * x k)) * (x k - meanOf n x)) := fun k _ => by ring
  rw [sum_congr rfl e, sum_add_distrib, sum_add_distrib, sum_add_distrib, ← mul_sum, ← mul_sum, orth1, orth2]
  have : 0 ≤ ∑ k ∈ range n, (α + β * x k - (a + b * x k)) ^ 2 := sum_nonneg (fun _ _ => sq_nonneg _)
  linarith

/-! ## Indicators with volume -/

theorem firstVolume_le {v : List K} {j : Nat} (hj : j < v.length) (h : 0 < v.getD j 0) : firstVolume v ≤ j :=
  (firstVolume_pos (v := v) (v' := v) (t := j) rfl hj hj ⟨j, le_refl _, h⟩).2

/-- **C157: `price_volume_fit`** is the slope of the line fitted to log prices over log volumes. -/
theorem price_volume_slope {F : Fns K} {close volume out : List K} {n : Nat} {scale : K}
    (h : priceVolumeFit F close volume n scale = some out) {i j : Nat} (hi : i < close.length)
    (hj : j + n ≤ i + 1) (hv : 0 < volume.getD j 0) {α β : K}
    (hb : BestLine n (lastOf (fun k => F.log (volume.getD k 0 + 1)) i n)
      (lastOf (fun k => F.log (close.getD k 0)) i n) α β) :
    out[i]? = some (
      let s := spread n (lastOf (fun k => F.log (volume.getD k 0 + 1)) i n)
      squash F (scale * (β * s / (s + 1 / 10 ^ 30)))) := by
  unfold priceVolumeFit at h
  split at h
  · rename_i hc
    cases h
    have := firstVolume_le (v := volume) (by omega) hv
    rw [series_get _ hi, if_neg (by omega)]
    simp only
    rw [← bestLine_slope hb]
    have hs := fun f : Nat → K => sumIn_back (K := K) (n := n) (i := i) (by omega) f
    have e : fitAt F (rd close) (rd volume) n scale i =
        let x := fun k => F.log (rd volume k + 1)
        let y := fun k => F.log (rd close k)
        let xm := (∑ k ∈ range n, lastOf x i n k) / n
        let ym := (∑ k ∈ range n, lastOf y i n k) / n
        100 * F.cdf (scale * ((∑ k ∈ range n, lastOf (fun j => (x j - xm) * (y j - ym)) i n k) /
          ((∑ k ∈ range n, lastOf (fun j => (x j - xm) * (x j - xm)) i n k) + tiny 30))) - 50 := by
      simp only [fitAt, ← hs]
    rw [e]
    simp only [spread, pow_two]
    rfl
  · cases h

/-- **C157: `volume_weighted_ma_ratio`** is the log of the mean price weighted by volume over the mean
price, per thousand and over the root of the length. -/
theorem vwma_ratio {F : Fns K} {close volume out : List K} {n : Nat} {scale : K}
    (h : volumeWeightedMaRatio F close volume n scale = some out) {i j : Nat} (hi : i < close.length)
    (hj : j + n ≤ i + 1) (hv : 0 < volume.getD j 0) :
    out[i]? = some (
      let c := lastOf (fun k => close.getD k 0) i n
      let v := lastOf (fun k => volume.getD k 0) i n
      if 0 < ∑ k ∈ range n, v k then
        squash F (scale * (1000 * F.log (((∑ k ∈ range n, v k * c k) / ∑ k ∈ range n, v k) / meanOf n c) /
          F.sqrt n))
      else 0) := by
  unfold volumeWeightedMaRatio at h
  split at h
  · rename_i hc
    cases h
    have := firstVolume_le (v := volume) (by omega) hv
    have hn0 : (n : K) ≠ 0 := by
      have : n ≠ 0 := by omega
      exact_mod_cast this
    rw [series_get _ hi, if_neg (by omega)]
    simp only [vwmaAt, sumIn_window (K := K) (n := n) (i := i) (by omega), gt_iff_lt, squash, meanOf]
    rw [show ∀ a b c : K, (n : K) * a / (b * c) = a / b / (c / n) from fun a b c => by
      rw [div_div_div_eq]; ring]
    rfl
  · cases h

/-- **C157: `normalized_on_balance_volume`** is the share of the volume with rising prices less that
with falling prices, times the root of the length. -/
theorem on_balance_volume {F : Fns K} {close volume out : List K} {n : Nat} {scale : K}
    (h : normalizedObv F close volume n scale = some out) {i j : Nat} (hi : i < close.length)
    (hj : j + n ≤ i) (hv : 0 < volume.getD j 0) :
    out[i]? = some (
      let v := lastOf (fun k => volume.getD k 0) i n
      let signed := lastOf (fun k => SignType.sign (close.getD k 0 - close.getD (k - 1) 0) * volume.getD k 0) i n
      if 0 < ∑ k ∈ range n, v k then
        squash F (scale * ((∑ k ∈ range n, signed k) / (∑ k ∈ range n, v k) * F.sqrt n))
      else 0) := by
  unfold normalizedObv at h
  split at h
  · rename_i hc
    cases h
    have := firstVolume_le (v := volume) (by omega) hv
    rw [series_get _ hi, if_neg (by omega)]
    have hs := fun f : Nat → K => sumIn_back (K := K) (n := n) (i := i) (by omega) f
    have hsign : ∀ k : Nat, (if rd close k > rd close (k - 1) then rd volume k
        else if rd close k < rd close (k - 1) then - rd volume k else 0) =
        SignType.sign (close.getD k 0 - close.getD (k - 1) 0) * volume.getD k 0 := by
      intro k
      unfold rd
      rcases lt_trichotomy (close.getD k 0) (close.getD (k - 1) 0) with h | h | h
      · rw [if_neg (not_lt.2 h.le), if_pos h, sign_neg (by linarith)]; simp
      · rw [if_neg (not_lt.2 h.le), if_neg (not_lt.2 h.ge), h, sub_self, sign_zero]; simp
      · rw [if_pos h, sign_pos (by linarith)]; simp
    have e : obvAt F (rd close) (rd volume) n scale i =
        if (∑ k ∈ range n, lastOf (rd volume) i n k) ≤ 0 then 0
        else 100 * F.cdf (scale * ((∑ k ∈ range n, lastOf (fun k => if rd close k > rd close (k - 1) then rd volume k
          else if rd close k < rd close (k - 1) then - rd volume k else 0) i n k) /
            (∑ k ∈ range n, lastOf (rd volume) i n k) * F.sqrt n)) - 50 := by
      simp only [obvAt, ← hs]
    rw [e]
    simp only [hsign]
    split
    · rename_i h0
      exact congrArg some (if_neg (not_lt.2 h0)).symm
    · rename_i h0
      exact congrArg some (if_pos (not_le.1 h0)).symm
  · cases h

/-- **C157: `delta_on_balance_volume`** is the change of `normalized_on_balance_volume` over `delta`
bars. -/
theorem delta_on_balance_volume {F : Fns K} {close volume out obv : List K} {n delta : Nat} {scale : K}
    (h : deltaObv F close volume n delta scale = some out)
    (ho : normalizedObv F close volume n scale = some obv) {i j : Nat} (hi : i < close.length)
    (hd : 1 ≤ delta) (hj : j + n + delta ≤ i) (hv : 0 < volume.getD j 0) :
    out.getD i 0 = obv.getD i 0 - obv.getD (i - delta) 0 := by
  unfold deltaObv at h
  unfold normalizedObv at ho
  split at h
  · rename_i hc
    rw [if_pos hc] at ho
    cases h
    cases ho
    have := firstVolume_le (v := volume) (by omega) hv
    simp only [List.getD_eq_getElem?_getD]
    rw [if_neg (show ¬ delta < 1 by omega), series_get _ hi, series_get _ hi,
      series_get _ (show i - delta < close.length by omega), if_neg (by omega), if_neg (by omega), if_neg (by omega)]
    rfl
  · cases h

/-- **C157: `volume_momentum`** is the log of the mean volume of the short window over that of the long
window, over the cube root of the ratio of the lengths. -/
theorem volume_momentum {F : Fns K} {volume out : List K} {n mult : Nat} {scale : K}
    (h : volumeMomentum F volume n mult scale = some out) {i j : Nat} (hi : i < volume.length)
    (hm : 2 ≤ mult) (hj : j + n * mult ≤ i + 1) (hv : 0 < volume.getD j 0) :
    out[i]? = some (
      let short := meanOf n (lastOf (fun k => volume.getD k 0) i n)
      let long := meanOf (n * mult) (lastOf (fun k => volume.getD k 0) i (n * mult))
      if 0 < long ∧ 0 < short then squash F (scale * (F.log (short / long) / F.exp (F.log mult / 3))) else 0) := by
  unfold volumeMomentum at h
  split at h
  · rename_i hc
    cases h
    have := firstVolume_le (v := volume) (j := j) (by
      have : 1 ≤ n * mult := Nat.mul_pos hc.1 (by omega)
      omega) hv
    have hnm : n ≤ n * mult := Nat.le_mul_of_pos_right n (by omega)
    rw [if_neg (show ¬ mult < 2 by omega), series_get _ hi, if_neg (by omega)]
    simp only [momentumAt]
    rw [loop_split (by omega) (by omega), sumIn_window (by omega), sumIn_window (by omega)]
    simp only [meanOf, squash, gt_iff_lt]
    rfl
  · cases h

/-- **C157: `normalized_positive_volume_index` and `normalized_negative_volume_index`** are the sum of
the log changes of the price on bars whose volume rose (fell), over the root of the length and the
standard deviation of the log changes of the longer window. -/
theorem volume_index {F : Fns K} {close volume out : List K} {n : Nat} {scale : K} {positive : Bool}
    (h : normalizedVolumeIndex F close volume n scale positive = some out) {i j m : Nat} (hi : i < close.length)
    (hm : m = max (2 * n) 250) (hj : j + m ≤ i) (hv : 0 < volume.getD j 0) :
    out[i]? = some (
      let moves := lastOf (fun k =>
        if (if positive then volume.getD k 0 > volume.getD (k - 1) 0 else volume.getD k 0 < volume.getD (k - 1) 0)
        then change F (fun k => close.getD k 0) k else 0) i n
      let sd := F.sqrt (spread m (lastOf (change F (fun k => close.getD k 0)) i m) / m)
      if 0 < sd then squash F (scale * ((∑ k ∈ range n, moves k) / F.sqrt n / sd)) else 0) := by
  unfold normalizedVolumeIndex at h
  split at h
  · rename_i hc
    cases h
    have := firstVolume_le (v := volume) (by omega) hv
    have hm' : (if 2 * n < 250 then 250 else 2 * n) = m := by subst hm; split <;> omega
    rw [hm', series_get _ hi, if_neg (by omega)]
    have hs := fun f : Nat → K => sumIn_back (K := K) (n := n) (i := i) (by omega) f
    have hvar : varianceAt F true m (rd close) i =
        spread m (lastOf (change F (fun k => close.getD k 0)) i m) / m := by
      unfold varianceAt
      simp only [sumIn_window (K := K) (n := m) (i := i) (by omega), spread, pow_two]
      rfl
    have e : nviAt F (rd close) (rd volume) n m scale positive i =
        if F.sqrt (varianceAt F true m (rd close) i) > 0 then
          100 * F.cdf (scale * ((∑ k ∈ range n, lastOf (fun k =>
            if (if positive then rd volume k > rd volume (k - 1) else rd volume k < rd volume (k - 1)) then
              F.log (rd close k / rd close (k - 1)) else 0) i n k) / F.sqrt n /
                F.sqrt (varianceAt F true m (rd close) i))) - 50
        else 0 := by
      simp only [nviAt, ← hs]
    rw [e, hvar]
    rfl
  · cases h

/-! ## Indicators of prices -/

theorem log_range {F : Fns K} {high low close : List K} {m i : Nat} (hm : 0 < m) (h : m ≤ i + 1) :
    atrAt F (rd high) (rd low) (rd close) true m i = logRange F high low close m i := by
  unfold atrAt logRange meanOf
  rw [if_neg (by omega), sumIn_window h]
  have : ∀ k, ratioRange (rd high) (rd low) (rd close) k =
      max (max (high.getD k 0 / low.getD k 0) (high.getD k 0 / close.getD (k - 1) 0))
        (close.getD (k - 1) 0 / low.getD k 0) := by
    intro k
    have hm : ∀ x y : K, (if x > y then x else y) = max y x := by
      intro x y
      split
      · rename_i hh; exact (max_eq_right hh.le).symm
      · rename_i hh; exact (max_eq_left (not_lt.1 hh)).symm
    simp only [ratioRange, hm]
    rfl
  simp only [this]
  rfl

/-- **C157: `close_minus_ma`** is the distance of the log price from the mean of the log prices of the
bars before, over the mean log true range and the root of one more than the length. -/
theorem close_minus_ma {F : Fns K} {high low close out : List K} {n m : Nat} {scale : K}
    (h : closeMinusMa F high low close n m scale = some out) {i : Nat} (hi : i < close.length)
    (hn : n ≤ i) (hm : m ≤ i) :
    out[i]? = some (
      let before := meanOf n (fun k => F.log (close.getD (i - n + k) 0))
      let range := logRange F high low close m i
      if 0 < range then
        squash F (scale * ((F.log (close.getD i 0) - before) / (range * F.sqrt ((n : K) + 1)))) else 0) := by
  unfold closeMinusMa at h
  split at h
  · rename_i hc
    cases h
    rw [series_get _ hi, if_neg (by omega)]
    simp only
    rw [log_range (by omega) (by omega)]
    have := sumIn_shift (K := K) (i - n) n (fun j => F.log (rd close j))
    rw [show i - n + n = i by omega] at this
    rw [this]
    rfl
  · cases h

/-- **C157: `price_change_oscillator`** is the mean absolute log change of the price in the short window
less that in the long window, over the mean log true range of the long window times a factor of the
lengths. -/
theorem price_change_oscillator {F : Fns K} {high low close out : List K} {n mult : Nat} {scale : K}
    (h : priceChangeOscillator F high low close n mult scale = some out) {i : Nat} (hi : i < close.length)
    (hm : 2 ≤ mult) (hn : n * mult ≤ i) :
    out[i]? = some (
      let moves := fun m => meanOf m (lastOf (fun k => |change F (fun k => close.getD k 0) k|) i m)
      let unit := (0.36 + 1 / (n : K) + 0.7 * (F.log (0.5 * (mult : K)) / 1.609)) *
        logRange F high low close (n * mult) i
      if 1 / 10 ^ 20 < unit then squash F (scale * ((moves n - moves (n * mult)) / unit)) else 0) := by
  unfold priceChangeOscillator at h
  split at h
  · rename_i hc
    cases h
    have hnm : n ≤ n * mult := Nat.le_mul_of_pos_right n (by omega)
    rw [if_neg (show ¬ mult < 2 by omega), series_get _ hi, if_neg (by omega)]
    simp only [oscillatorAt]
    rw [loop_split (by omega) (by omega), sumIn_window (by omega), sumIn_window (by omega),
      log_range (by omega) (by omega)]
    rw [show (0.36 : K) = 36 / 100 by norm_num, show (0.7 : K) = 7 / 10 by norm_num,
      show (0.5 : K) = 1 / 2 by norm_num, show (1.609 : K) = 1609 / 1000 by norm_num]
    simp only [meanOf, squash, tiny, Nat.cast_mul, gt_iff_lt]
    rfl
  · cases h

/-! ## Detrended RSI -/

theorem loop_append {S : Type} {a b : Nat} (h : a ≤ b) (f : S → Nat → S) (s : S) :
    loop a (b + 1) f s = f (loop a b f s) b := by
  unfold loop
  rw [show b + 1 - a = (b - a) + 1 by omega, List.range'_concat, List.foldl_append]
  simp only [List.foldl_cons, List.foldl_nil, Nat.one_mul]
  rw [show a + (b - a) = b by omega]

theorem rsiInit_wilder (v : Nat → K) {len : Nat} (hl : 1 < len) :
    (rsiInit v len).up = wilder (fun k => max (v k - v (k - 1)) 0) len 0 ∧
      (rsiInit v len).dn = wilder (fun k => max (v (k - 1) - v k) 0) len 0 := by
  have key : ∀ m, let s := (loop 1 (m + 1) (fun (s : RsiSt K) i =>
        let diff := v i - v (i - 1)
        if diff > 0 then { s with up := s.up + diff } else { s with dn := s.dn - diff })
        ({ up := tiny 60, dn := tiny 60 } : RsiSt K))
      s.up = tiny 60 + ∑ k ∈ range m, max (v (k + 1) - v (k + 1 - 1)) 0 ∧
        s.dn = tiny 60 + ∑ k ∈ range m, max (v (k + 1 - 1) - v (k + 1)) 0 := by
    intro m
    induction m with
    | zero => simp [loop]
    | succ m ih =>
      simp only at ih ⊢
      rw [loop_append (by omega), sum_range_succ, sum_range_succ]
      split
      · rename_i hd
        refine ⟨?_, ?_⟩
        · simp only [ih.1]
          rw [max_eq_left (show 0 ≤ v (m + 1) - v (m + 1 - 1) from hd.le)]
          ring
        · simp only [ih.2]
          rw [max_eq_right (show v (m + 1 - 1) - v (m + 1) ≤ 0 by linarith)]
          ring
      · rename_i hd
        have hd := not_lt.1 hd
        refine ⟨?_, ?_⟩
        · simp only [ih.1]
          rw [max_eq_right (show v (m + 1) - v (m + 1 - 1) ≤ 0 from hd)]
          ring
        · simp only [ih.2]
          rw [max_eq_left (show 0 ≤ v (m + 1 - 1) - v (m + 1) by linarith)]
          ring
  have k := key (len - 1)
  simp only at k
  rw [show len - 1 + 1 = len by omega] at k
  unfold rsiInit
  simp only [wilder]
  rw [k.1, k.2]
  exact ⟨rfl, rfl⟩

theorem rsiSt_wilder (v : Nat → K) {len : Nat} (hl : 1 < len) (m : Nat) :
    (loop len (len + m) (rsiStep v len) (rsiInit v len)).up = wilder (fun k => max (v k - v (k - 1)) 0) len m ∧
      (loop len (len + m) (rsiStep v len) (rsiInit v len)).dn =
        wilder (fun k => max (v (k - 1) - v k) 0) len m := by
  have hl0 : (len : K) ≠ 0 := by
    have : len ≠ 0 := by omega
    exact_mod_cast this
  induction m with
  | zero =>
    have : loop len (len + 0) (rsiStep v len) (rsiInit v len) = rsiInit v len := by simp [loop]
    rw [this]
    exact rsiInit_wilder v hl
  | succ m ih =>
    rw [← Nat.add_assoc, loop_append (by omega)]
    simp only [rsiStep, wilder]
    rw [← ih.1, ← ih.2]
    split
    · rename_i hd
      refine ⟨?_, ?_⟩
      · simp only
        rw [max_eq_left (show 0 ≤ v (len + m) - v (len + m - 1) from hd.le)]
      · simp only
        rw [max_eq_right (show v (len + m - 1) - v (len + m) ≤ 0 by linarith)]
        ring
    · rename_i hd
      have hd := not_lt.1 hd
      refine ⟨?_, ?_⟩
      · simp only
        rw [max_eq_right (show v (len + m) - v (len + m - 1) ≤ 0 from hd)]
        ring
      · simp only
        rw [max_eq_left (show 0 ≤ v (len + m - 1) - v (len + m) by linarith)]
        ring

theorem rsiAt_eq (v : Nat → K) {len i : Nat} (hl : 1 < len) (hi : len ≤ i) : rsiAt v len i = rsi v len i := by
  have := rsiSt_wilder v hl (i + 1 - len)
  rw [show len + (i + 1 - len) = i + 1 by omega] at this
  unfold rsiAt rsiSt rsi
  rw [this.1, this.2]

/-- The RSI that `detrended_rsi` detrends.  An RSI of length 2 is mostly near 0 or 100: it is spread by
the inverse of the logistic curve. -/
def Spec.shortRsi (F : Fns K) (v : Nat → K) (n i : Nat) : K :=
  if n = 2 then -10 * F.log (2 / (1 + 999 / 100000 * (2 * rsi v n i - 100)) - 1) else rsi v n i

/-- **C157: `detrended_rsi`** is what the line fitted to the short RSI over the long RSI leaves of the
short RSI: its distance from its mean less the slope times that of the long RSI. -/
theorem detrended_rsi {F : Fns K} {values out : List K} {short long n : Nat}
    (h : detrendedRsi F values short long n = some out) {i : Nat} (hi : i < values.length)
    (hw : long + n ≤ i + 1) {α β : K}
    (hb : BestLine n (lastOf (rsi (fun k => values.getD k 0) long) i n)
      (lastOf (shortRsi F (fun k => values.getD k 0) short) i n) α β) :
    out[i]? = some (
      let x := rsi (fun k => values.getD k 0) long
      let y := shortRsi F (fun k => values.getD k 0) short
      let s := spread n (lastOf x i n)
      (y i - meanOf n (lastOf y i n)) - β * s / (s + 1 / 10 ^ 60) * (x i - meanOf n (lastOf x i n))) := by
  unfold detrendedRsi at h
  split at h
  · rename_i hc
    cases h
    rw [series_get _ hi, if_neg (by omega)]
    simp only
    rw [← bestLine_slope hb]
    have hx : ∀ k, long ≤ k → detWork2 (rd values) long k = rsi (fun k => values.getD k 0) long k := by
      intro k hk
      unfold detWork2
      rw [if_neg (by omega)]
      exact rsiAt_eq _ (by omega) hk
    have hy : ∀ k, long ≤ k → detWork1 F (rd values) short k = shortRsi F (fun k => values.getD k 0) short k := by
      intro k hk
      unfold detWork1
      rw [if_neg (by omega), rsiAt_eq _ (by omega) (by omega)]
      rfl
    have hback := fun f : Nat → K => sumIn_back (K := K) (n := n) (i := i) (by omega) f
    have e : detrendedAt F (rd values) short long n i =
        let x := detWork2 (rd values) long
        let y := detWork1 F (rd values) short
        let xm := meanOf n (lastOf x i n)
        let ym := meanOf n (lastOf y i n)
        (y i - ym) - (∑ k ∈ range n, lastOf (fun j => (x j - xm) * (y j - ym)) i n k) /
          ((∑ k ∈ range n, lastOf (fun j => (x j - xm) * (x j - xm)) i n k) + tiny 60) * (x i - xm) := by
      simp only [detrendedAt, meanOf, ← hback]
    have hxs : ∀ k ∈ range n, lastOf (detWork2 (rd values) long) i n k =
        lastOf (rsi (fun k => values.getD k 0) long) i n k := fun k _ => hx _ (by omega)
    have hys : ∀ k ∈ range n, lastOf (detWork1 F (rd values) short) i n k =
        lastOf (shortRsi F (fun k => values.getD k 0) short) i n k := fun k _ => hy _ (by omega)
    have hxm : meanOf n (lastOf (detWork2 (rd values) long) i n) =
        meanOf n (lastOf (rsi (fun k => values.getD k 0) long) i n) := by
      unfold meanOf
      rw [sum_congr rfl hxs]
    have hym : meanOf n (lastOf (detWork1 F (rd values) short) i n) =
        meanOf n (lastOf (shortRsi F (fun k => values.getD k 0) short) i n) := by
      unfold meanOf
      rw [sum_congr rfl hys]
    rw [e]
    simp only
    rw [hxm, hym, hx i (by omega), hy i (by omega)]
    have h1 : ∑ k ∈ range n, lastOf (fun j => (detWork2 (rd values) long j -
          meanOf n (lastOf (rsi (fun k => values.getD k 0) long) i n)) *
          (detWork1 F (rd values) short j - meanOf n (lastOf (shortRsi F (fun k => values.getD k 0) short) i n))) i n k =
        ∑ k ∈ range n, (lastOf (rsi (fun k => values.getD k 0) long) i n k -
          meanOf n (lastOf (rsi (fun k => values.getD k 0) long) i n)) *
          (lastOf (shortRsi F (fun k => values.getD k 0) short) i n k -
            meanOf n (lastOf (shortRsi F (fun k => values.getD k 0) short) i n)) :=
      sum_congr rfl (fun k hk => by rw [← hxs k hk, ← hys k hk]; rfl)
    have h2 : ∑ k ∈ range n, lastOf (fun j => (detWork2 (rd values) long j -
          meanOf n (lastOf (rsi (fun k => values.getD k 0) long) i n)) *
          (detWork2 (rd values) long j - meanOf n (lastOf (rsi (fun k => values.getD k 0) long) i n))) i n k =
        spread n (lastOf (rsi (fun k => values.getD k 0) long) i n) := by
      unfold spread
      exact sum_congr rfl (fun k hk => by rw [← hxs k hk, pow_two]; rfl)
    rw [h1, h2]
    rfl
  · cases h

/-! ## Bars -/

namespace Demo

/-- The functions cut down to rational ones. -/
def isF : Fns ℚ := ⟨fun x => x, fun x => x, fun x => x, fun x => x, fun _ => 0⟩

def isC : List ℚ := [4, 5, 6, 5, 4, 6, 8]
def isV : List ℚ := [0, 1, 2, 3, 1, 2, 4]

/-- Log prices 0 and 1 over log volumes 1 and 2 are on the line with slope 1. -/
example : BestLine 2 (fun k => (k : ℚ) + 1) (fun k => (k : ℚ)) (-1) 1 := by
  intro a b
  have : ∑ k ∈ range 2, ((k : ℚ) - (-1 + 1 * ((k : ℚ) + 1))) ^ 2 = 0 := by
    simp [sum_range_succ]
  rw [this]
  exact sum_nonneg (fun _ _ => sq_nonneg _)

example : (priceVolumeFit isF isC isV 3 1).isSome ∧ (1 : Nat) + 3 ≤ 4 + 1 ∧ 0 < isV.getD 1 0 := by decide +kernel

/-- Prices 6, 5, 4 with volumes 2, 3, 1: the weighted mean is 31/6, the mean is 5. -/
example : ∃ out, volumeWeightedMaRatio isF isC isV 3 1 = some out ∧
    out[4]? = some (squash isF (1 * (1000 * (31 / 6 / 5) / 3))) := by
  refine ⟨_, rfl, ?_⟩
  decide +kernel

/-- Up, down, down with volumes 2, 3, 1: a third of the volume fell more than rose. -/
example : ∃ out, normalizedObv isF isC isV 3 1 = some out ∧ out[4]? = some (squash isF (1 * ((2 - 3 - 1) / 6 * 3))) := by
  refine ⟨_, rfl, ?_⟩
  decide +kernel

example : (deltaObv isF isC isV 3 1 1).isSome ∧ (normalizedObv isF isC isV 3 1).isSome ∧
    1 + 3 + 1 ≤ 5 ∧ 0 < isV.getD 1 0 := by decide +kernel

/-- Mean volumes 3/2 of two bars and 2 of four bars. -/
example : ∃ out, volumeMomentum isF isV 2 2 1 = some out ∧ out[5]? = some (squash isF (1 * (3 / 2 / 2 / (2 / 3)))) := by
  refine ⟨_, rfl, ?_⟩
  decide +kernel

example : (closeMinusMa isF isC isC isC 3 2 1).isSome ∧ (priceChangeOscillator isF isC isC isC 2 2 1).isSome ∧
    (normalizedVolumeIndex isF isC isV 3 1 true).isSome ∧ (detrendedRsi isF isC 3 3 3).isSome := by
  decide +kernel

/-- The mean log true range of two equal bars. -/
example : ∃ out, closeMinusMa isF isC isC isC 3 1 1 = some out ∧
    out[3]? = some (squash isF (1 * ((5 - 5) / (6 / 5 * (3 + 1))))) := by
  refine ⟨_, rfl, ?_⟩
  decide +kernel

/-- Ups 1, 1, 0 and downs 0, 0, 1: means of two, then a third of the new one. -/
example : rsi (fun k => isC.getD k 0) 3 3 =
    100 * ((2 * ((1 / 10 ^ 60 + 2) / 2) + 0) / 3) /
      ((2 * ((1 / 10 ^ 60 + 2) / 2) + 0) / 3 + (2 * ((1 / 10 ^ 60 + 0) / 2) + 1) / 3) := by
  decide +kernel

end Demo

end PyBroker
