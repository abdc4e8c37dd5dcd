import Verif.Props.Bounds
import Mathlib.Analysis.Real.Pi.Bounds
import Mathlib.Analysis.SpecialFunctions.Log.Basic
import Mathlib.Algebra.Order.Floor.Semiring
import Mathlib.Tactic.Linarith
import Mathlib.Tactic.Positivity

/-!
# The indicators over the reals

`normal_cdf` as the code computes it, and the documented ranges with it.
-/

namespace PyBroker

open Spec

/-- vect.py:264-268: the polynomial in `t`. -/
noncomputable def cdfPoly (t : ℝ) : ℝ :=
  ((((1.330274429 * t - 1.821255978) * t + 1.781477937) * t - 0.356563782) * t + 0.319381530) * t

/-- vect.py:262: `pdf`. -/
noncomputable def cdfPdf (zz : ℝ) : ℝ := Real.exp (-0.5 * zz * zz) / Real.sqrt (2 * Real.pi)

/-- `normal_cdf`, vect.py:259-270. -/
noncomputable def normalCdf (z : ℝ) : ℝ :=
  let zz := |z|
  let t := 1 / (1 + zz * 0.2316419)
  if z > 0 then 1 - cdfPdf zz * cdfPoly t else cdfPdf zz * cdfPoly t

/-- The real functions the indicators call. -/
noncomputable def realFns : Fns ℝ where
  log := Real.log
  sqrt := Real.sqrt
  exp := Real.exp
  cdf := normalCdf
  toNat := fun x => ⌊x⌋₊

theorem cdfPoly_range {t : ℝ} (h0 : 0 ≤ t) (h1 : t ≤ 1) : 0 ≤ cdfPoly t ∧ cdfPoly t ≤ 2.2 := by
  unfold cdfPoly
  constructor
  · apply mul_nonneg _ h0
    nlinarith [sq_nonneg (t - 0.6845), sq_nonneg (t - 0.154), mul_nonneg h0 h0, sq_nonneg (t * (t - 0.6845))]
  · have e : ((((1.330274429 * t - 1.821255978) * t + 1.781477937) * t - 0.356563782) * t + 0.319381530) * t
        = 0.319381530 * t - 0.356563782 * t ^ 2 + 1.781477937 * t ^ 3 - t ^ 4 * (1.821255978 - 1.330274429 * t) := by
      ring
    rw [e]
    have a1 : 0 ≤ t ^ 4 * (1.821255978 - 1.330274429 * t) := mul_nonneg (by positivity) (by linarith)
    have a2 : t ^ 3 ≤ 1 := pow_le_one₀ h0 h1
    have a3 : 0 ≤ t ^ 2 := by positivity
    linarith

theorem sqrt_two_pi : 2.5 ≤ Real.sqrt (2 * Real.pi) := by
  apply Real.le_sqrt_of_sq_le
  have := Real.pi_gt_d2
  linarith

theorem cdfPdf_range (z : ℝ) : 0 ≤ cdfPdf z ∧ cdfPdf z ≤ 0.4 * Real.exp (-0.5 * z * z) := by
  unfold cdfPdf
  have h := sqrt_two_pi
  have hp := (Real.exp_pos (-0.5 * z * z)).le
  constructor
  · exact div_nonneg hp (by linarith)
  · rw [div_le_iff₀ (by linarith)]
    nlinarith

theorem t_range (z : ℝ) : 0 ≤ 1 / (1 + |z| * 0.2316419) ∧ 1 / (1 + |z| * 0.2316419) ≤ (1 : ℝ) := by
  have : 0 ≤ |z| := abs_nonneg z
  have h : (1 : ℝ) ≤ 1 + |z| * 0.2316419 := by linarith
  constructor
  · exact div_nonneg (by norm_num) (by linarith)
  · rw [div_le_one (by linarith)]
    exact h

/-- The tail `normal_cdf` adds or removes is at most `0.88 * exp(-z²/2)`. -/
theorem cdf_tail (z : ℝ) : 0 ≤ cdfPdf |z| * cdfPoly (1 / (1 + |z| * 0.2316419)) ∧
    cdfPdf |z| * cdfPoly (1 / (1 + |z| * 0.2316419)) ≤ 0.88 * Real.exp (-0.5 * z * z) := by
  obtain ⟨a1, a2⟩ := cdfPdf_range |z|
  obtain ⟨b1, b2⟩ := cdfPoly_range (t_range z).1 (t_range z).2
  have e : -0.5 * |z| * |z| = -0.5 * z * z := by rw [mul_assoc, abs_mul_abs_self, mul_assoc]
  rw [e] at a2
  refine ⟨mul_nonneg a1 b1, ?_⟩
  calc cdfPdf |z| * cdfPoly (1 / (1 + |z| * 0.2316419)) ≤ cdfPdf |z| * 2.2 :=
        mul_le_mul_of_nonneg_left b2 a1
    _ ≤ 0.4 * Real.exp (-0.5 * z * z) * 2.2 := mul_le_mul_of_nonneg_right a2 (by norm_num)
    _ = 0.88 * Real.exp (-0.5 * z * z) := by ring

/-- C77.  `normal_cdf` is a number in [0, 1] for every argument. -/
theorem normalCdf_range (z : ℝ) : 0 ≤ normalCdf z ∧ normalCdf z ≤ 1 := by
  obtain ⟨h1, h2⟩ := cdf_tail z
  have he : Real.exp (-0.5 * z * z) ≤ 1 := by
    rw [Real.exp_le_one_iff]
    have := mul_self_nonneg z
    nlinarith
  unfold normalCdf
  simp only
  split <;> constructor <;> linarith

/-- C77.  `normal_cdf` is symmetric: `cdf(-z) = 1 - cdf(z)` for `z > 0`. -/
theorem normalCdf_symm {z : ℝ} (h : 0 < z) : normalCdf (-z) = 1 - normalCdf z := by
  unfold normalCdf
  simp only [abs_neg]
  rw [if_neg (by linarith), if_pos h]
  ring

theorem realFns_ok : CdfOk realFns := normalCdf_range

theorem exp_small : Real.exp (-50) ≤ 1 / 51 := by
  have h := Real.add_one_le_exp (50 : ℝ)
  rw [Real.exp_neg, ← one_div]
  exact one_div_le_one_div_of_le (by norm_num) (by linarith)

theorem exp_tail {z : ℝ} (h : 10 ≤ |z|) : Real.exp (-0.5 * z * z) ≤ 1 / 51 := by
  refine le_trans (Real.exp_le_exp.2 ?_) exp_small
  have : (100 : ℝ) ≤ z * z := by
    rw [← abs_mul_abs_self]
    nlinarith
  nlinarith

theorem cdf_high {z : ℝ} (h : 10 ≤ z) : 0.98 ≤ normalCdf z := by
  have h1 := (cdf_tail z).2
  have h2 := exp_tail (z := z) (le_trans h (le_abs_self z))
  unfold normalCdf
  simp only
  rw [if_pos (by linarith)]
  linarith

theorem cdf_low {z : ℝ} (h : z ≤ -10) : normalCdf z ≤ 0.02 := by
  have h1 := (cdf_tail z).2
  have h2 := exp_tail (z := z) (by rw [abs_of_neg (by linarith)]; linarith)
  unfold normalCdf
  simp only
  rw [if_neg (by linarith)]
  linarith

/-! ## The documented ranges, for the functions as computed -/

/-- C77.  The indicators documented to range over [-50, 50] that do, for every input. -/
theorem documented_ranges {v o high low close vol out : List ℝ} {d : Degree} {lb al mult : Nat}
    {sm sc : ℝ} {pos : Bool} :
    (trend realFns v high low close d lb al sc = some out → In50 out) ∧
    (closeMinusMa realFns high low close lb al sc = some out → In50 out) ∧
    (deviation realFns v d lb sc = some out → In50 out) ∧
    (priceIntensity realFns o high low close sm sc = some out → In50 out) ∧
    (priceChangeOscillator realFns high low close lb mult sc = some out → In50 out) ∧
    (reactivity realFns high low close vol lb sm sc = some out → In50 out) ∧
    (priceVolumeFit realFns close vol lb sc = some out → In50 out) ∧
    (volumeWeightedMaRatio realFns close vol lb sc = some out → In50 out) ∧
    (normalizedObv realFns close vol lb sc = some out → In50 out) ∧
    (normalizedVolumeIndex realFns close vol lb sc pos = some out → In50 out) ∧
    (volumeMomentum realFns vol lb mult sc = some out → In50 out) ∧
    (macd realFns high low close lb mult 0 sc = some out → In50 out) := by
  have ok := realFns_ok
  refine ⟨trend_range ok, closeMinusMa_range ok, deviation_range ok, priceIntensity_range ok,
    priceChangeOscillator_range ok, reactivity_range ok, priceVolumeFit_range ok, vwma_range ok,
    normalizedObv_range ok, volumeIndex_range ok, volumeMomentum_range ok, fun h => ?_⟩
  exact (macd_range_partial ok h).1 (by norm_num)

/-! ## Two indicators that leave the documented range -/

/-- Finding.  `delta_on_balance_volume` is documented to range over [-50, 50]; a rise then a
fall takes it below -90. -/
theorem deltaObv_leaves_range : ∃ out x, deltaObv realFns [1, 2, 1] [1, 1, 1] 1 1 10 = some out ∧
    x ∈ out ∧ x < -90 := by
  refine ⟨_, obvAt realFns (rd [1, 2, 1]) (rd [1, 1, 1]) 1 10 2 -
    obvAt realFns (rd [1, 2, 1]) (rd [1, 1, 1]) 1 10 1,
    if_pos ⟨rfl, by norm_num, by norm_num⟩, ?_, ?_⟩
  · rw [mem_series]
    refine ⟨2, by norm_num, ?_⟩
    have : firstVolume ([1, 1, 1] : List ℝ) = 0 := by
      simp [firstVolume]
    rw [this]
    norm_num
  · have e1 : obvAt realFns (rd [1, 2, 1]) (rd [1, 1, 1]) 1 10 2 = 100 * normalCdf (-10) - 50 := by
      simp [obvAt, sumIn, loop, rd, realFns]
    have e2 : obvAt realFns (rd [1, 2, 1]) (rd [1, 1, 1]) 1 10 1 = 100 * normalCdf 10 - 50 := by
      simp [obvAt, sumIn, loop, rd, realFns]
    rw [e1, e2]
    have := cdf_low (le_refl (-10))
    have := cdf_high (le_refl 10)
    linarith

theorem macd_arg {n D : ℝ} (hD : 0 ≤ D) (hD2 : D ≤ 50) :
    (n ≤ -1 → 1000 * (n / (Real.sqrt |1 / 2 * ((2 : ℕ) - 1) - 1 / 2 * ((1 : ℕ) - 1)| * D + tiny 15)) ≤ -10) ∧
    (1 ≤ n → 10 ≤ 1000 * (n / (Real.sqrt |1 / 2 * ((2 : ℕ) - 1) - 1 / 2 * ((1 : ℕ) - 1)| * D + tiny 15))) := by
  have h0 := Real.sqrt_nonneg |1 / 2 * (((2 : ℕ) : ℝ) - 1) - 1 / 2 * (((1 : ℕ) : ℝ) - 1)|
  have h1 : Real.sqrt |1 / 2 * (((2 : ℕ) : ℝ) - 1) - 1 / 2 * (((1 : ℕ) : ℝ) - 1)| ≤ 1 := by
    rw [Real.sqrt_le_one]
    norm_num [abs_of_pos]
  generalize Real.sqrt |1 / 2 * (((2 : ℕ) : ℝ) - 1) - 1 / 2 * (((1 : ℕ) : ℝ) - 1)| = r at *
  have t0 := tiny_pos (K := ℝ) 15
  have t1 : tiny 15 ≤ (1 : ℝ) := by unfold tiny; norm_num
  have d0 : 0 < r * D + tiny 15 := by nlinarith
  have d1 : r * D + tiny 15 ≤ 51 := by nlinarith
  constructor
  · intro hn
    rw [← mul_div_assoc, div_le_iff₀ d0]
    linarith
  · intro hn
    rw [← mul_div_assoc, le_div_iff₀ d0]
    linarith

/-- Finding.  `macd` is documented to range over [-50, 50]; with smoothing it is a difference of two
such values, and a fall followed by a jump takes it above 50. -/
theorem macd_leaves_range : ∃ out x,
    macd realFns [16, 8, 4, 2, 100] [16, 8, 4, 2, 100] [16, 8, 4, 2, 100] 1 2 4 1000 = some out ∧
    x ∈ out ∧ 50 < x := by
  let p : List ℝ := [16, 8, 4, 2, 100]
  let raw := macdRaw realFns (rd p) (rd p) (rd p) 1 2 4 1000
  have hk : realFns.toNat (((2 : ℕ) : ℝ) + 4) = 6 := by
    have : (((2 : ℕ) : ℝ) + 4) = ((6 : ℕ) : ℝ) := by norm_num
    rw [this]
    exact Nat.floor_natCast 6
  have hraw : ∀ i, i ≠ 0 → i ≤ 6 → raw i = 100 * normalCdf (1000 *
      (((macdSums (rd p) 1 2 i).2 - (macdSums (rd p) 1 2 i).1) /
        (Real.sqrt |1 / 2 * ((2 : ℕ) - 1) - 1 / 2 * ((1 : ℕ) - 1)| *
          atrAt realFns (rd p) (rd p) (rd p) false i i + tiny 15))) - 50 := by
    intro i h0 h6
    show macdRaw realFns (rd p) (rd p) (rd p) 1 2 4 1000 i = _
    unfold macdRaw
    rw [if_neg h0]
    simp only [hk]
    have : (if 6 > i then i else 6) = i := by split <;> omega
    rw [this]
    rfl
  have r1 : raw 1 ≤ -48 := by
    rw [hraw 1 (by norm_num) (by norm_num)]
    have := cdf_low ((macd_arg (n := (macdSums (rd p) 1 2 1).2 - (macdSums (rd p) 1 2 1).1)
      (D := atrAt realFns (rd p) (rd p) (rd p) false 1 1) (by
        norm_num [atrAt, sumIn, loop, trueRange, rd, p]) (by
        norm_num [atrAt, sumIn, loop, trueRange, rd, p])).1
      (by norm_num [macdSums, loop, rd, p]))
    linarith
  have r2 : raw 2 ≤ -48 := by
    rw [hraw 2 (by norm_num) (by norm_num)]
    have := cdf_low ((macd_arg (n := (macdSums (rd p) 1 2 2).2 - (macdSums (rd p) 1 2 2).1)
      (D := atrAt realFns (rd p) (rd p) (rd p) false 2 2) (by
        norm_num [atrAt, sumIn, loop, trueRange, rd, p, List.range']) (by
        norm_num [atrAt, sumIn, loop, trueRange, rd, p, List.range'])).1
      (by norm_num [macdSums, loop, rd, p, List.range']))
    linarith
  have r3 : raw 3 ≤ -48 := by
    rw [hraw 3 (by norm_num) (by norm_num)]
    have := cdf_low ((macd_arg (n := (macdSums (rd p) 1 2 3).2 - (macdSums (rd p) 1 2 3).1)
      (D := atrAt realFns (rd p) (rd p) (rd p) false 3 3) (by
        norm_num [atrAt, sumIn, loop, trueRange, rd, p, List.range']) (by
        norm_num [atrAt, sumIn, loop, trueRange, rd, p, List.range'])).1
      (by norm_num [macdSums, loop, rd, p, List.range']))
    linarith
  have r4 : 48 ≤ raw 4 := by
    rw [hraw 4 (by norm_num) (by norm_num)]
    have := cdf_high ((macd_arg (n := (macdSums (rd p) 1 2 4).2 - (macdSums (rd p) 1 2 4).1)
      (D := atrAt realFns (rd p) (rd p) (rd p) false 4 4) (by
        norm_num [atrAt, sumIn, loop, trueRange, rd, p, List.range']) (by
        norm_num [atrAt, sumIn, loop, trueRange, rd, p, List.range'])).2
      (by norm_num [macdSums, loop, rd, p, List.range']))
    linarith
  refine ⟨_, raw 4 - emaFrom raw (2 / (4 + 1)) 0 4,
    if_pos ⟨rfl, rfl, by norm_num, by norm_num, by norm_num, by norm_num⟩, ?_, ?_⟩
  · rw [mem_series]
    refine ⟨4, by norm_num, ?_⟩
    rw [if_pos (by norm_num)]
  · have e : emaFrom raw (2 / (4 + 1)) 0 4 = 2 / 5 * raw 4 + 3 / 5 * (2 / 5 * raw 3 +
        3 / 5 * (2 / 5 * raw 2 + 3 / 5 * (2 / 5 * raw 1 + 3 / 5 * raw 0))) := by
      simp only [emaFrom, loop, List.range', List.foldl]
      norm_num
    have r0 : raw 0 = 0 := rfl
    rw [e, r0]
    linarith

end PyBroker
