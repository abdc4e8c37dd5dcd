import Verif.Eval.Quantile
import Verif.Props.Bootstrap
import Mathlib.Analysis.Calculus.Deriv.MeanValue
import Mathlib.Analysis.Calculus.Deriv.Pow
import Mathlib.Analysis.SpecialFunctions.Log.Deriv
import Mathlib.Analysis.Complex.ExponentialBounds

/-!
# Quantiles and nested confidence intervals (C166, C167)
-/

namespace PyBroker

open Spec

/-! ## `inverse_normal_cdf` -/

theorem quantileDen_pos {t : ℝ} (h : 0 ≤ t) :
    0 < ((0.001308 * t + 0.189269) * t + 1.432788) * t + 1 := by positivity

theorem quantileAt_lt {s t : ℝ} (h0 : 0 ≤ s) (h : s < t) : quantileAt s < quantileAt t := by
  obtain ⟨d, hd, rfl⟩ : ∃ d, 0 ≤ d ∧ t = s + d := ⟨t - s, by linarith, by ring⟩
  have hle : ((0.010328 * (s + d) + 0.802853) * (s + d) + 2.515517) /
      (((0.001308 * (s + d) + 0.189269) * (s + d) + 1.432788) * (s + d) + 1) ≤
      ((0.010328 * s + 0.802853) * s + 2.515517) /
      (((0.001308 * s + 0.189269) * s + 1.432788) * s + 1) := by
    rw [div_le_div_iff₀ (quantileDen_pos (by linarith)) (quantileDen_pos h0), ← sub_nonneg]
    ring_nf
    positivity
  unfold quantileAt
  linarith

theorem quantileAt_le {s t : ℝ} (h0 : 0 ≤ s) (h : s ≤ t) : quantileAt s ≤ quantileAt t := by
  rcases h.eq_or_lt with rfl | h
  · exact le_refl _
  · exact (quantileAt_lt h0 h).le

theorem quantileArg_lt {p q : ℝ} (h0 : 0 < p) (h : p < q) (h1 : q ≤ 1) :
    quantileArg q < quantileArg p := by
  unfold quantileArg
  have hq : 0 < q := h0.trans h
  have hqq : q * q ≤ 1 := by nlinarith
  refine Real.sqrt_lt_sqrt (Real.log_nonneg ?_) (Real.log_lt_log (by positivity) ?_)
  · rw [le_div_iff₀ (by positivity)]; linarith
  · exact one_div_lt_one_div_of_lt (by positivity) (by nlinarith)

theorem invCdf_low {p : ℝ} (h0 : 0 < p) (h : p ≤ 1 / 2) :
    inverseNormalCdf p = -quantileAt (quantileArg p) := by
  unfold inverseNormalCdf
  have : p ≤ 0.5 := by linarith
  simp only [if_pos this, if_neg h0.ne']

theorem invCdf_high {p : ℝ} (h : 1 / 2 < p) (h1 : p < 1) :
    inverseNormalCdf p = quantileAt (quantileArg (1 - p)) := by
  unfold inverseNormalCdf
  have h2 : ¬ p ≤ 0.5 := by linarith
  have h3 : (1 - p) ≠ 0 := by linarith
  simp only [if_neg h2, if_neg h3]

/-- **C167.** The quantiles of `p` and `1 - p` are opposite. -/
theorem quantile_symm {p : ℝ} (h : p ≠ 1 / 2) : inverseNormalCdf (1 - p) = -inverseNormalCdf p := by
  unfold inverseNormalCdf
  rcases lt_or_gt_of_ne h with h | h
  · have h1 : p ≤ 0.5 := by linarith
    have h2 : ¬ 1 - p ≤ 0.5 := by linarith
    simp only [if_pos h1, if_neg h2, sub_sub_cancel, neg_neg]
  · have h1 : ¬ p ≤ 0.5 := by linarith
    have h2 : 1 - p ≤ 0.5 := by linarith
    simp only [if_neg h1, if_pos h2]

theorem invCdf_lt_low {p q : ℝ} (h0 : 0 < p) (h : p < q) (h1 : q ≤ 1 / 2) :
    inverseNormalCdf p < inverseNormalCdf q := by
  rw [invCdf_low h0 (by linarith), invCdf_low (h0.trans h) h1]
  exact neg_lt_neg (quantileAt_lt (Real.sqrt_nonneg _) (quantileArg_lt h0 h (by linarith)))

theorem invCdf_lt_high {p q : ℝ} (h0 : 1 / 2 < p) (h : p < q) (h1 : q < 1) :
    inverseNormalCdf p < inverseNormalCdf q := by
  rw [invCdf_high h0 (by linarith), invCdf_high (h0.trans h) h1]
  exact quantileAt_lt (Real.sqrt_nonneg _) (quantileArg_lt (by linarith) (by linarith) (by linarith))

theorem quantileAt_bound {t u v : ℝ} (h0 : 0 ≤ t) (h : t ≤ u)
    (hu : u * (((0.001308 * u + 0.189269) * u + 1.432788) * u + 1) -
      ((0.010328 * u + 0.802853) * u + 2.515517) ≤
        v * (((0.001308 * u + 0.189269) * u + 1.432788) * u + 1)) : quantileAt t ≤ v := by
  refine (quantileAt_le h0 h).trans ?_
  unfold quantileAt
  have hp := quantileDen_pos (h0.trans h)
  rw [sub_le_iff_le_add, ← sub_le_iff_le_add', le_div_iff₀ hp]
  linarith

theorem quantileAt_lower {t u v : ℝ} (h0 : 0 ≤ u) (h : u ≤ t)
    (hu : v * (((0.001308 * u + 0.189269) * u + 1.432788) * u + 1) ≤
      u * (((0.001308 * u + 0.189269) * u + 1.432788) * u + 1) -
      ((0.010328 * u + 0.802853) * u + 2.515517)) : v ≤ quantileAt t := by
  refine le_trans ?_ (quantileAt_le h0 h)
  unfold quantileAt
  have hp := quantileDen_pos h0
  rw [le_sub_iff_add_le, ← le_sub_iff_add_le', div_le_iff₀ hp]
  linarith

theorem quantileArg_half : quantileArg (1 / 2) = Real.sqrt (2 * Real.log 2) := by
  unfold quantileArg
  rw [show (1 : ℝ) / (1 / 2 * (1 / 2)) = 2 ^ 2 by norm_num, Real.log_pow]
  norm_num

/-- The approximation is not 0 at the median, but within `1.2e-7` of it, on the wrong side. -/
theorem quantile_half : -1.2e-7 ≤ quantileAt (quantileArg (1 / 2)) ∧
    quantileAt (quantileArg (1 / 2)) ≤ -1.0e-7 := by
  have h1 := Real.log_two_gt_d9
  have h2 := Real.log_two_lt_d9
  rw [quantileArg_half]
  constructor
  · refine quantileAt_lower (u := 1.1774100220) (by norm_num) ?_ (by norm_num)
    apply Real.le_sqrt_of_sq_le
    norm_num at h1 ⊢
    linarith
  · refine quantileAt_bound (u := 1.1774100228) (Real.sqrt_nonneg _) ?_ (by norm_num)
    apply Real.sqrt_le_iff.2
    norm_num at h2 ⊢
    linarith

/-- **C167.** `inverse_normal_cdf` is strictly increasing on each side of the median. Across
the median it is increasing up to an error of `2.4e-7`. -/
theorem quantile_increasing_partial {p q : ℝ} (h0 : 0 < p) (h : p < q) (h1 : q < 1) :
    inverseNormalCdf p < inverseNormalCdf q + 2.4e-7 ∧
    (q ≤ 1 / 2 ∨ 1 / 2 < p → inverseNormalCdf p < inverseNormalCdf q) := by
  obtain ⟨hl, hu⟩ := quantile_half
  have hmono : q ≤ 1 / 2 ∨ 1 / 2 < p → inverseNormalCdf p < inverseNormalCdf q := by
    rintro (h2 | h2)
    · exact invCdf_lt_low h0 h h2
    · exact invCdf_lt_high h2 h h1
  refine ⟨?_, hmono⟩
  by_cases h2 : q ≤ 1 / 2
  · have := hmono (.inl h2)
    norm_num at this ⊢
    linarith
  by_cases h3 : 1 / 2 < p
  · have := hmono (.inr h3)
    norm_num at this ⊢
    linarith
  have a1 : inverseNormalCdf p ≤ 1.2e-7 := by
    rcases (not_lt.1 h3).eq_or_lt with h4 | h4
    · rw [h4, invCdf_low (by norm_num) (le_refl _)]
      norm_num at hl ⊢
      linarith
    · refine (invCdf_lt_low h0 h4 (le_refl _)).le.trans ?_
      rw [invCdf_low (by norm_num) (le_refl _)]
      norm_num at hl ⊢
      linarith
  have a2 : -1.2e-7 < inverseNormalCdf q := by
    rw [invCdf_high (not_le.1 h2) h1]
    refine lt_of_le_of_lt hl (quantileAt_lt (Real.sqrt_nonneg _) (quantileArg_lt ?_ ?_ ?_)) <;> linarith
  norm_num at a1 a2 ⊢
  linarith

/-- It is not increasing at the median: the quantile of 0.50000001 is less than that of 0.5. -/
theorem quantile_median_inverted : inverseNormalCdf 0.50000001 < inverseNormalCdf 0.5 := by
  have e1 : inverseNormalCdf 0.5 = -quantileAt (quantileArg (1 / 2)) := by
    rw [show (0.5 : ℝ) = 1 / 2 by norm_num]
    exact invCdf_low (by norm_num) (le_refl _)
  rw [e1, invCdf_high (by norm_num) (by norm_num)]
  have hu := quantile_half.2
  have h2 := Real.log_two_lt_d9
  have h3 : quantileAt (quantileArg (1 - 0.50000001)) ≤ -1.0e-8 := by
    refine quantileAt_bound (u := 1.17741005) (Real.sqrt_nonneg _) ?_ (by norm_num)
    unfold quantileArg
    apply Real.sqrt_le_iff.2
    refine ⟨by norm_num, ?_⟩
    have e : (1 : ℝ) / ((1 - 0.50000001) * (1 - 0.50000001)) = (2 * (1 / 0.99999998)) ^ 2 := by norm_num
    rw [e, Real.log_pow, Real.log_mul (by norm_num) (by norm_num)]
    have := Real.log_le_sub_one_of_pos (show (0 : ℝ) < 1 / 0.99999998 by norm_num)
    norm_num at this h2 ⊢
    linarith
  norm_num at hu h3 ⊢
  linarith

/-- Nor is it at 0, which stands for `1e-10`: the quantile of `1e-11` is less than that of 0. -/
theorem quantile_zero_inverted : inverseNormalCdf 1.0e-11 < inverseNormalCdf 0 := by
  have e : inverseNormalCdf 0 = inverseNormalCdf 1.0e-10 := by
    unfold inverseNormalCdf
    have h1 : (0 : ℝ) ≤ 0.5 := by norm_num
    have h2 : (1.0e-10 : ℝ) ≤ 0.5 := by norm_num
    have h3 : ¬ (1.0e-10 : ℝ) = 0 := by norm_num
    simp only [if_pos h1, if_pos h2, if_neg h3, if_true]
  rw [e]
  exact invCdf_lt_low (by norm_num) (by norm_num) (by norm_num)

example : (0 : ℝ) < 1 / 40 ∧ (1 / 40 : ℝ) < 39 / 40 ∧ (39 / 40 : ℝ) < 1 := by norm_num

/-! ## `normal_cdf` is increasing -/

theorem cdfPoly_strictMono : StrictMono cdfPoly := by
  apply strictMono_of_deriv_pos
  intro t
  have h : HasDerivAt cdfPoly (5 * 1.330274429 * t ^ 4 - 4 * 1.821255978 * t ^ 3 +
      3 * 1.781477937 * t ^ 2 - 2 * 0.356563782 * t + 0.319381530) t := by
    have e : cdfPoly = fun t : ℝ => 1.330274429 * t ^ 5 - 1.821255978 * t ^ 4 + 1.781477937 * t ^ 3 -
        0.356563782 * t ^ 2 + 0.319381530 * t ^ 1 := by
      funext t
      unfold cdfPoly
      ring
    rw [e]
    have := (((((hasDerivAt_pow 5 t).const_mul (1.330274429 : ℝ)).sub
      ((hasDerivAt_pow 4 t).const_mul (1.821255978 : ℝ))).add
      ((hasDerivAt_pow 3 t).const_mul (1.781477937 : ℝ))).sub
      ((hasDerivAt_pow 2 t).const_mul (0.356563782 : ℝ))).add
      ((hasDerivAt_pow 1 t).const_mul (0.319381530 : ℝ))
    refine HasDerivAt.congr_deriv (f := fun t : ℝ => 1.330274429 * t ^ 5 - 1.821255978 * t ^ 4 +
      1.781477937 * t ^ 3 - 0.356563782 * t ^ 2 + 0.319381530 * t ^ 1) this ?_
    norm_num
    ring
  rw [h.deriv]
  nlinarith [sq_nonneg (t * (t - 0.5477)), sq_nonneg (t - 0.108), sq_nonneg t]

/-- What `normal_cdf` gives below 0 and takes from 1 above. -/
noncomputable def cdfTail (z : ℝ) : ℝ := cdfPdf z * cdfPoly (1 / (1 + z * 0.2316419))

theorem normalCdf_tail (z : ℝ) : normalCdf z = if z > 0 then 1 - cdfTail |z| else cdfTail |z| := rfl

theorem cdfPdf_pos (z : ℝ) : 0 < cdfPdf z := by
  unfold cdfPdf
  have := sqrt_two_pi
  exact div_pos (Real.exp_pos _) (by linarith)

theorem cdfPoly_pos {t : ℝ} (h : 0 < t) : 0 < cdfPoly t := by
  have := cdfPoly_strictMono h
  rwa [show cdfPoly 0 = 0 by unfold cdfPoly; ring] at this

theorem cdfTail_pos {z : ℝ} (h : 0 ≤ z) : 0 < cdfTail z :=
  mul_pos (cdfPdf_pos z) (cdfPoly_pos (by positivity))

theorem cdfTail_le {y z : ℝ} (h0 : 0 ≤ y) (h : y ≤ z) : cdfTail z ≤ cdfTail y := by
  unfold cdfTail
  have h1 : cdfPdf z ≤ cdfPdf y := by
    unfold cdfPdf
    have := sqrt_two_pi
    refine div_le_div_of_nonneg_right (Real.exp_le_exp.2 ?_) (by linarith)
    nlinarith
  have h2 : (1 : ℝ) / (1 + z * 0.2316419) ≤ 1 / (1 + y * 0.2316419) :=
    one_div_le_one_div_of_le (by positivity) (by nlinarith)
  exact mul_le_mul h1 (cdfPoly_strictMono.monotone h2)
    (cdfPoly_pos (by have := h0.trans h; positivity)).le (cdfPdf_pos y).le

theorem cdfTail_half {z : ℝ} (h : 0 ≤ z) : cdfTail z ≤ 1 / 2 := by
  refine (cdfTail_le (le_refl 0) h).trans ?_
  unfold cdfTail cdfPdf cdfPoly
  have hpi := Real.pi_gt_d20
  have hs : (2.506628274 : ℝ) ≤ Real.sqrt (2 * Real.pi) := by
    apply Real.le_sqrt_of_sq_le
    norm_num at hpi ⊢
    linarith
  generalize Real.sqrt (2 * Real.pi) = r at hs
  have hr : 0 < r := by linarith
  rw [show (-0.5 : ℝ) * 0 * 0 = 0 by ring, Real.exp_zero, one_div_mul_eq_div, div_le_iff₀ hr]
  norm_num at hs ⊢
  linarith

/-- **C166.** `normal_cdf` is increasing, and strictly between 0 and 1. -/
theorem normalCdf_mono : Monotone normalCdf := by
  intro y z h
  rw [normalCdf_tail, normalCdf_tail]
  by_cases hz : z > 0
  · rw [if_pos hz]
    by_cases hy : y > 0
    · rw [if_pos hy, abs_of_pos hy, abs_of_pos hz]
      have := cdfTail_le hy.le h
      linarith
    · rw [if_neg hy]
      have a := cdfTail_half (abs_nonneg y)
      have b := cdfTail_half (abs_nonneg z)
      linarith
  · rw [if_neg hz, if_neg (by linarith), abs_of_nonpos (by linarith), abs_of_nonpos (by linarith)]
    exact cdfTail_le (by linarith) (by linarith)

theorem normalCdf_inner (z : ℝ) : 0 < normalCdf z ∧ normalCdf z < 1 := by
  rw [normalCdf_tail]
  have a := cdfTail_half (abs_nonneg z)
  have b := cdfTail_pos (abs_nonneg z)
  split <;> constructor <;> linarith

/-! ## The acceleration is at most a sixth -/

theorem sum_cubes (l : List ℝ) :
    |(l.map (fun d => d * d * d)).sum| ≤ (Real.sqrt (l.map (fun d => d * d)).sum) ^ 3 := by
  have hnn : ∀ l : List ℝ, 0 ≤ (l.map (fun d => d * d)).sum := by
    intro l
    exact List.sum_nonneg (by
      intro x hx
      obtain ⟨d, _, rfl⟩ := List.mem_map.1 hx
      exact mul_self_nonneg d)
  have key : ∀ (m : ℝ) (l : List ℝ), (∀ d ∈ l, |d| ≤ m) →
      |(l.map (fun d => d * d * d)).sum| ≤ m * (l.map (fun d => d * d)).sum := by
    intro m l
    induction l with
    | nil => simp
    | cons a l ih =>
      intro h
      simp only [List.map_cons, List.sum_cons]
      have h1 := ih (fun d hd => h d (by simp [hd]))
      have h2 : |a * a * a| ≤ m * (a * a) := by
        rw [abs_mul, abs_mul_self, mul_comm]
        exact mul_le_mul_of_nonneg_right (h a (by simp)) (mul_self_nonneg a)
      calc |a * a * a + (l.map (fun d => d * d * d)).sum|
          ≤ |a * a * a| + |(l.map (fun d => d * d * d)).sum| := abs_add_le _ _
        _ ≤ m * (a * a) + m * (l.map (fun d => d * d)).sum := add_le_add h2 h1
        _ = _ := by ring
  have hm : ∀ d ∈ l, |d| ≤ Real.sqrt (l.map (fun d => d * d)).sum := by
    intro d hd
    apply Real.abs_le_sqrt
    rw [pow_two]
    exact List.single_le_sum (by
      intro x hx
      obtain ⟨e, _, rfl⟩ := List.mem_map.1 hx
      exact mul_self_nonneg e) _ (List.mem_map.2 ⟨d, hd, rfl⟩)
  refine (key _ l hm).trans (le_of_eq ?_)
  nth_rewrite 2 [← Real.sq_sqrt (hnn l)]
  ring

theorem accel_le (jack : List ℝ) : |bcaAccel realFns jack| ≤ 1 / 6 := by
  unfold bcaAccel
  simp only
  generalize jack.sum / jack.length = dot
  have h := sum_cubes (jack.map (fun j => dot - j))
  rw [List.map_map, List.map_map] at h
  simp only [Function.comp_def] at h
  change |(jack.map (fun j => (dot - j) * (dot - j) * (dot - j))).sum /
    (6 * (Real.sqrt (jack.map (fun j => (dot - j) * (dot - j))).sum *
      Real.sqrt (jack.map (fun j => (dot - j) * (dot - j))).sum *
      Real.sqrt (jack.map (fun j => (dot - j) * (dot - j))).sum) + tiny 60)| ≤ 1 / 6
  generalize Real.sqrt (jack.map (fun j => (dot - j) * (dot - j))).sum = r at h
  generalize (jack.map (fun j => (dot - j) * (dot - j) * (dot - j))).sum = c at h
  have hr : 0 ≤ r ^ 3 := (abs_nonneg c).trans h
  have ht : (0 : ℝ) < tiny 60 := by unfold tiny; positivity
  rw [abs_div, abs_of_pos (by nlinarith : 0 < 6 * (r * r * r) + tiny 60), div_le_iff₀ (by nlinarith)]
  nlinarith

/-! ## The levels of the intervals -/

theorem level_le {z0 a z z' : ℝ} (ha : |a| ≤ 1 / 6) (h : z ≤ z') (h1 : |z0 + z| < 6)
    (h2 : |z0 + z'| < 6) : bcaLevel realFns z0 a z ≤ bcaLevel realFns z0 a z' := by
  have hpos : ∀ w : ℝ, |w| < 6 → 0 < 1 - a * w := by
    intro w hw
    have : |a * w| < 1 := by
      rw [abs_mul]
      have := abs_nonneg w
      nlinarith [abs_nonneg a]
    linarith [(abs_lt.1 this).2]
  apply normalCdf_mono
  refine add_le_add_right ?_ _
  rw [div_le_div_iff₀ (hpos _ h1) (hpos _ h2)]
  nlinarith

theorem level_inner (z0 a z : ℝ) : 0 < bcaLevel realFns z0 a z ∧ bcaLevel realFns z0 a z < 1 :=
  normalCdf_inner _

/-- The ends of two intervals whose levels are in order. -/
theorem pair_nested {boot : List ℝ} (hs : boot.Pairwise (· ≤ ·)) {z0 a q q' : ℝ} {p p' : ℝ × ℝ}
    (hlo : bcaLevel realFns z0 a (realBca.inv q) ≤ bcaLevel realFns z0 a (realBca.inv q'))
    (hhi : bcaLevel realFns z0 a (realBca.inv (1 - q')) ≤ bcaLevel realFns z0 a (realBca.inv (1 - q)))
    (hp : bcaPair realFns realBca boot z0 a q = some p)
    (hp' : bcaPair realFns realBca boot z0 a q' = some p') : p.1 ≤ p'.1 ∧ p'.2 ≤ p.2 := by
  unfold bcaPair at hp hp'
  simp only at hp hp'
  have i1 := level_inner z0 a (realBca.inv q)
  have i2 := level_inner z0 a (realBca.inv q')
  have i3 := level_inner z0 a (realBca.inv (1 - q))
  have i4 := level_inner z0 a (realBca.inv (1 - q'))
  generalize bcaLevel realFns z0 a (realBca.inv q) = alo at *
  generalize bcaLevel realFns z0 a (realBca.inv q') = alo' at *
  generalize bcaLevel realFns z0 a (realBca.inv (1 - q)) = ahi at *
  generalize bcaLevel realFns z0 a (realBca.inv (1 - q')) = ahi' at *
  have hn : (0 : ℝ) ≤ (boot.length : ℝ) + 1 := by positivity
  have hint : ∀ v : ℝ, 0 ≤ v → realBca.toInt v = ⌊v⌋ := fun v hv => if_pos hv
  rw [hint _ (mul_nonneg i1.1.le hn), hint _ (mul_nonneg (by linarith) hn)] at hp
  rw [hint _ (mul_nonneg i2.1.le hn), hint _ (mul_nonneg (by linarith) hn)] at hp'
  have f1 : ⌊alo * ((boot.length : ℝ) + 1)⌋ ≤ ⌊alo' * ((boot.length : ℝ) + 1)⌋ :=
    Int.floor_le_floor (mul_le_mul_of_nonneg_right hlo hn)
  have f2 : ⌊(1 - ahi) * ((boot.length : ℝ) + 1)⌋ ≤ ⌊(1 - ahi') * ((boot.length : ℝ) + 1)⌋ :=
    Int.floor_le_floor (mul_le_mul_of_nonneg_right (by linarith) hn)
  generalize ⌊alo * ((boot.length : ℝ) + 1)⌋ = b1 at *
  generalize ⌊alo' * ((boot.length : ℝ) + 1)⌋ = b2 at *
  generalize ⌊(1 - ahi) * ((boot.length : ℝ) + 1)⌋ = b3 at *
  generalize ⌊(1 - ahi') * ((boot.length : ℝ) + 1)⌋ = b4 at *
  rcases hu1 : boot[(bcaClamp (b1 - 1) boot.length).toNat]? with _ | u
  · simp [hu1] at hp
  rcases hu2 : boot[((boot.length : Int) - 1 - bcaClamp (b3 - 1) boot.length).toNat]? with _ | w
  · simp [hu1, hu2] at hp
  rcases hv1 : boot[(bcaClamp (b2 - 1) boot.length).toNat]? with _ | u'
  · simp [hv1] at hp'
  rcases hv2 : boot[((boot.length : Int) - 1 - bcaClamp (b4 - 1) boot.length).toNat]? with _ | w'
  · simp [hv1, hv2] at hp'
  simp only [hu1, hu2] at hp
  simp only [hv1, hv2] at hp'
  cases hp
  cases hp'
  refine ⟨sorted_get hs ?_ hu1 hv1, sorted_get hs ?_ hv2 hu2⟩
  · unfold bcaClamp; omega
  · unfold bcaClamp; omega

theorem arg_le {p u c : ℝ} (hu : 0 ≤ u) (h : Real.log (1 / (p * p)) ≤ c) (hc : c ≤ u ^ 2) :
    quantileArg p ≤ u := by
  unfold quantileArg
  exact Real.sqrt_le_iff.2 ⟨hu, h.trans hc⟩

theorem quantile_40 : quantileAt (quantileArg (1 / 40)) ≤ 1.97 := by
  have h2 := Real.log_two_lt_d9
  refine quantileAt_bound (u := 2.7214) (Real.sqrt_nonneg _) ?_ (by norm_num)
  refine arg_le (c := 11 * 0.6931471808 - 0.21875) (by norm_num) ?_ (by norm_num)
  rw [show (1 : ℝ) / (1 / 40 * (1 / 40)) = 2 ^ 11 * (1 / 1.28) by norm_num,
    Real.log_mul (by norm_num) (by norm_num), Real.log_pow]
  have := Real.log_le_sub_one_of_pos (show (0 : ℝ) < 1 / 1.28 by norm_num)
  norm_num at this h2 ⊢
  linarith

theorem quantile_10 : 0 ≤ quantileAt (quantileArg (1 / 10)) := by
  have h2 := Real.log_two_gt_d9
  refine quantileAt_lower (u := 1.66) (by norm_num) ?_ (by norm_num)
  unfold quantileArg
  apply Real.le_sqrt_of_sq_le
  have : Real.log (2 ^ 4) ≤ Real.log (1 / (1 / 10 * (1 / 10))) :=
    Real.log_le_log (by norm_num) (by norm_num)
  rw [Real.log_pow] at this
  norm_num at this h2 ⊢
  linarith

theorem quantile_samples {p : ℝ} (h : 1 / 32768 ≤ p) : |quantileAt (quantileArg p)| ≤ 4.01 := by
  have h2 := Real.log_two_lt_d9
  have hp : 0 < p := lt_of_lt_of_le (by norm_num) h
  rw [abs_le]
  constructor
  · exact quantileAt_lower (u := 0) (le_refl _) (Real.sqrt_nonneg _) (by norm_num)
  · refine quantileAt_bound (u := 4.5601) (Real.sqrt_nonneg _) ?_ (by norm_num)
    refine arg_le (c := 30 * 0.6931471808) (by norm_num) ?_ (by norm_num)
    have : Real.log (1 / (p * p)) ≤ Real.log (2 ^ 30) := by
      refine Real.log_le_log (by positivity) ?_
      rw [div_le_iff₀ (by positivity)]
      nlinarith
    rw [Real.log_pow] at this
    norm_num at this h2 ⊢
    linarith

theorem invCdf_samples {p : ℝ} (h : 1 / 32768 ≤ p) (h' : p ≤ 1 - 1 / 32768) :
    |inverseNormalCdf p| ≤ 4.01 := by
  by_cases hp : p ≤ 1 / 2
  · rw [invCdf_low (by linarith) hp, abs_neg]
    exact quantile_samples h
  · rw [invCdf_high (not_le.1 hp) (by linarith)]
    exact quantile_samples (by linarith)

/-- **C166.** The three confidence intervals of a bootstrap with at most 32768 samples (the default
is 10000) are not inverted, and the wider contain the narrower, whatever the statistic, its
jackknife, the data and the samples drawn. -/
theorem intervals_nested_partial (fn : List ℝ → ℝ) (jack : List ℝ → List ℝ) (x : List ℝ)
    (draws : List (List Nat)) (hd : draws ≠ []) (hn : draws.length ≤ 32768) :
    ∃ ci, bcaBootConf realFns realBca fn jack x draws = some ci ∧
      ci.low2p5 ≤ ci.low5 ∧ ci.low5 ≤ ci.low10 ∧ ci.low10 ≤ ci.high10 ∧
      ci.high10 ≤ ci.high5 ∧ ci.high5 ≤ ci.high2p5 := by
  unfold bcaBootConf
  rw [if_neg hd]
  by_cases hx : x = []
  · rw [if_pos hx]
    exact ⟨_, rfl, le_refl _, le_refl _, le_refl _, le_refl _, le_refl _⟩
  rw [if_neg hx]
  simp only [bcaIntervals]
  generalize hb : draws.map (fun d => fn (resample x d)) = boot
  have hlen : boot.length = draws.length := by rw [← hb, List.length_map]
  have hne : sortK boot ≠ [] := by
    intro h
    have := length_sortK boot
    rw [h, hlen] at this
    exact hd (List.length_eq_zero_iff.mp (by simpa using this.symm))
  have hs : (sortK boot).Pairwise (· ≤ ·) := sortK_sorted boot
  generalize hz0 : realBca.inv _ = z0
  have ha := accel_le (jack x)
  generalize bcaAccel realFns (jack x) = a at ha
  obtain ⟨p, e1, m1, m1'⟩ := bcaPair_mem realFns realBca (sortK boot) z0 a (25 / 1000) hne
  obtain ⟨q, e2, m2, m2'⟩ := bcaPair_mem realFns realBca (sortK boot) z0 a (5 / 100) hne
  obtain ⟨r, e3, m3, m3'⟩ := bcaPair_mem realFns realBca (sortK boot) z0 a (1 / 10) hne
  rw [e1, e2, e3]
  refine ⟨_, rfl, ?_⟩
  simp only
  by_cases h1 : boot.length = 1
  · obtain ⟨b, hb1⟩ := List.length_eq_one_iff.1 ((length_sortK boot).trans h1)
    rw [hb1, List.mem_singleton] at m1 m1' m2 m2' m3 m3'
    rw [m1, m1', m2, m2', m3, m3']
    exact ⟨le_refl _, le_refl _, le_refl _, le_refl _, le_refl _⟩
  have hpos : 0 < boot.length := by rw [hlen]; exact List.length_pos_of_ne_nil hd
  have hz : |z0| ≤ 4.01 := by
    rw [← hz0]
    generalize List.length (List.filter _ boot) = z
    have c1 : (1 : Int) ≤ z0Clamp z boot.length := by unfold z0Clamp; omega
    have c2 : z0Clamp z boot.length ≤ boot.length - 1 := by unfold z0Clamp; omega
    have c1' : (1 : ℝ) ≤ (z0Clamp z boot.length : ℝ) := by exact_mod_cast c1
    have c2' : (z0Clamp z boot.length : ℝ) ≤ (boot.length : ℝ) - 1 := by exact_mod_cast c2
    have hn' : (boot.length : ℝ) ≤ 32768 := by rw [hlen]; exact_mod_cast hn
    have hp' : (0 : ℝ) < boot.length := by exact_mod_cast hpos
    refine invCdf_samples ?_ ?_
    · rw [div_le_div_iff₀ (by norm_num) hp']
      linarith
    · rw [div_le_iff₀ hp']
      linarith
  -- the six quantiles
  have k0 : 0 ≤ quantileAt (quantileArg (1 / 10)) := quantile_10
  have k1 : quantileAt (quantileArg (1 / 10)) < quantileAt (quantileArg (1 / 20)) :=
    quantileAt_lt (Real.sqrt_nonneg _) (quantileArg_lt (by norm_num) (by norm_num) (by norm_num))
  have k2 : quantileAt (quantileArg (1 / 20)) < quantileAt (quantileArg (1 / 40)) :=
    quantileAt_lt (Real.sqrt_nonneg _) (quantileArg_lt (by norm_num) (by norm_num) (by norm_num))
  have k3 := quantile_40
  have l1 : realBca.inv (25 / 1000) = -quantileAt (quantileArg (1 / 40)) := by
    rw [show (25 / 1000 : ℝ) = 1 / 40 by norm_num]
    exact invCdf_low (by norm_num) (by norm_num)
  have l2 : realBca.inv (5 / 100) = -quantileAt (quantileArg (1 / 20)) := by
    rw [show (5 / 100 : ℝ) = 1 / 20 by norm_num]
    exact invCdf_low (by norm_num) (by norm_num)
  have l3 : realBca.inv (1 / 10) = -quantileAt (quantileArg (1 / 10)) :=
    invCdf_low (by norm_num) (by norm_num)
  have u1 : realBca.inv (1 - 25 / 1000) = quantileAt (quantileArg (1 / 40)) := by
    rw [show (1 / 40 : ℝ) = 1 - (1 - 25 / 1000) by norm_num]
    exact invCdf_high (by norm_num) (by norm_num)
  have u2 : realBca.inv (1 - 5 / 100) = quantileAt (quantileArg (1 / 20)) := by
    rw [show (1 / 20 : ℝ) = 1 - (1 - 5 / 100) by norm_num]
    exact invCdf_high (by norm_num) (by norm_num)
  have u3 : realBca.inv (1 - 1 / 10) = quantileAt (quantileArg (1 / 10)) := by
    conv_rhs => rw [show (1 / 10 : ℝ) = 1 - (1 - 1 / 10) by norm_num]
    exact invCdf_high (by norm_num) (by norm_num)
  have hw : ∀ v : ℝ, |v| ≤ 1.97 → |z0 + v| < 6 := by
    intro v hv
    refine lt_of_le_of_lt (abs_add_le _ _) ?_
    norm_num at hz hv ⊢
    linarith
  generalize quantileAt (quantileArg (1 / 10)) = x10 at *
  generalize quantileAt (quantileArg (1 / 20)) = x20 at *
  generalize quantileAt (quantileArg (1 / 40)) = x40 at *
  have n1 : |-x40| ≤ 1.97 := by rw [abs_neg, abs_of_nonneg (by linarith)]; exact k3
  have n2 : |-x20| ≤ 1.97 := by rw [abs_neg, abs_of_nonneg (by linarith)]; linarith
  have n3 : |-x10| ≤ 1.97 := by rw [abs_neg, abs_of_nonneg (by linarith)]; linarith
  have w1 := hw _ n1
  have w2 := hw _ n2
  have w3 := hw _ n3
  have w1' := hw x40 (by rwa [abs_neg] at n1)
  have w2' := hw x20 (by rwa [abs_neg] at n2)
  have w3' := hw x10 (by rwa [abs_neg] at n3)
  obtain ⟨a1, a2⟩ := pair_nested hs (by rw [l1, l2]; exact level_le ha (by linarith) w1 w2)
    (by rw [u1, u2]; exact level_le ha (by linarith) w2' w1') e1 e2
  obtain ⟨b1, b2⟩ := pair_nested hs (by rw [l2, l3]; exact level_le ha (by linarith) w2 w3)
    (by rw [u2, u3]; exact level_le ha (by linarith) w3' w2') e2 e3
  refine ⟨a1, b1, ?_, b2, a2⟩
  exact bca_ordered realFns realBca (sortK boot) z0 a (1 / 10) hs (fun v hv => if_pos hv)
    (level_inner _ _ _).1.le (level_inner _ _ _).2 (level_inner _ _ _).1 (level_inner _ _ _).2.le
    (by rw [l3, u3]; exact level_le ha (by linarith) w3 w3') r e3

/-- The default number of samples. -/
example : (List.replicate 10000 [0, 1, 1]).length ≤ 32768 ∧ List.replicate 10000 [0, 1, 1] ≠ [] := by
  refine ⟨by rw [List.length_replicate]; norm_num, ?_⟩
  intro h
  have := congrArg List.length h
  rw [List.length_replicate] at this
  norm_num at this

/-! ## More samples -/

theorem normalCdf_low {z : ℝ} (h : z ≤ 0) : normalCdf z ≤ 1 / 2 := by
  rw [normalCdf_tail, if_neg (by linarith)]
  exact cdfTail_half (abs_nonneg z)

theorem normalCdf_far {z : ℝ} (h : 6.5 ≤ z) : 1 - 1 / 2 ^ 21 ≤ normalCdf z := by
  have hz : z > 0 := by linarith
  have ht := (cdf_tail z).2
  rw [normalCdf_tail, if_pos hz]
  change cdfTail |z| ≤ _ at ht
  have h1 : Real.exp (-0.5 * z * z) ≤ Real.exp (-21) := Real.exp_le_exp.2 (by nlinarith)
  have h2 : Real.exp (-21) ≤ 1 / 2 ^ 21 := by
    rw [Real.exp_neg, ← one_div]
    apply one_div_le_one_div_of_le (by norm_num)
    have h3 : (2 : ℝ) ≤ Real.exp 1 := by
      have := Real.add_one_le_exp (1 : ℝ)
      linarith
    have h4 : Real.exp 21 = Real.exp 1 ^ 21 := by rw [← Real.exp_nat_mul]; norm_num
    rw [h4]
    exact pow_le_pow_left₀ (by norm_num) h3 21
  nlinarith [Real.exp_pos (-0.5 * z * z)]

namespace Demo

/-- One gain and `M` bars without. -/
def oneGain (M : Nat) : List ℝ := 1 :: List.replicate M 0

/-- `N + 1` samples: all but one miss the gain, the other draws nothing else. -/
def oneGainDraws (M N : Nat) : List (List Nat) :=
  List.replicate N (List.replicate (M + 1) 1) ++ [List.replicate (M + 1) 0]

theorem oneGain_jack {M : Nat} (hM : 0 < M) :
    jackGeneric List.sum (oneGain M) = 0 :: List.replicate M 1 := by
  have hl : (oneGain M).length = M + 1 := by simp [oneGain]
  rw [jackknife_generic _ _ (by omega)]
  have h : ∀ i ∈ List.range (oneGain M).length, ((oneGain M).eraseIdx i).sum =
      (fun i => if i = 0 then (0 : ℝ) else 1) i := by
    intro i hi
    rw [hl, List.mem_range] at hi
    cases i with
    | zero => simp [oneGain]
    | succ i =>
      simp only [oneGain, List.eraseIdx_cons_succ, List.sum_cons, List.eraseIdx_replicate,
        if_pos (show i < M by omega), List.sum_replicate]
      simp
  rw [List.map_congr_left (g := fun i : Nat => if i = 0 then (0 : ℝ) else 1) h, hl, List.range_succ_eq_map, List.map_cons, List.map_map]
  refine congrArg₂ List.cons (if_pos rfl) (List.eq_replicate_iff.2 ⟨by simp, ?_⟩)
  intro b hb
  obtain ⟨k, _, rfl⟩ := List.mem_map.1 hb
  show (if Nat.succ k = 0 then (0 : ℝ) else 1) = 1
  rw [if_neg (Nat.succ_ne_zero k)]

theorem oneGain_boot {M : Nat} (hM : 0 < M) (N : Nat) :
    (oneGainDraws M N).map (fun d => (resample (oneGain M) d).sum) =
      List.replicate N 0 ++ [(M : ℝ) + 1] := by
  unfold oneGainDraws
  rw [List.map_append, List.map_replicate]
  have h1 : resample (oneGain M) (List.replicate (M + 1) 1) = List.replicate (M + 1) 0 := by
    unfold resample
    rw [List.filterMap_replicate_of_some (b := 0) (by simp [oneGain, hM])]
  have h2 : resample (oneGain M) (List.replicate (M + 1) 0) = List.replicate (M + 1) 1 := by
    unfold resample
    rw [List.filterMap_replicate_of_some (b := 1) (by simp [oneGain])]
  simp only [List.map_cons, List.map_nil]
  rw [h1, h2, List.sum_replicate, List.sum_replicate]
  simp

theorem oneGain_accel {M : Nat} (hM : M = 100) :
    0 ≤ bcaAccel realFns (0 :: List.replicate M 1) ∧
    ∀ w, 6.17 ≤ w → 1 < bcaAccel realFns (0 :: List.replicate M 1) * w := by
  have hd : (0 :: List.replicate M (1 : ℝ)).sum / ((0 :: List.replicate M (1 : ℝ)).length : ℝ) =
      100 / 101 := by
    rw [List.sum_cons, List.sum_replicate, List.length_cons, List.length_replicate, hM]
    norm_num
  have h2 : ((0 :: List.replicate M (1 : ℝ)).map (fun j => (100 / 101 - j) * (100 / 101 - j))).sum =
      100 / 101 := by
    rw [List.map_cons, List.map_replicate, List.sum_cons, List.sum_replicate, hM]
    norm_num
  have h3 : ((0 :: List.replicate M (1 : ℝ)).map
      (fun j => (100 / 101 - j) * (100 / 101 - j) * (100 / 101 - j))).sum = 9900 / 10201 := by
    rw [List.map_cons, List.map_replicate, List.sum_cons, List.sum_replicate, hM]
    norm_num
  have e : bcaAccel realFns (0 :: List.replicate M 1) =
      9900 / 10201 / (6 * (Real.sqrt (100 / 101) * Real.sqrt (100 / 101) * Real.sqrt (100 / 101)) +
        tiny 60) := by
    unfold bcaAccel
    simp only [hd, h2, h3]
    rfl
  rw [e]
  have hsq : Real.sqrt (100 / 101) * Real.sqrt (100 / 101) = 100 / 101 :=
    Real.mul_self_sqrt (by norm_num)
  have hr : Real.sqrt (100 / 101) ≤ 0.9951 := Real.sqrt_le_iff.2 ⟨by norm_num, by norm_num⟩
  have hr0 := Real.sqrt_nonneg (100 / 101)
  rw [hsq]
  generalize Real.sqrt (100 / 101) = r at *
  have ht : (0 : ℝ) < tiny 60 := by unfold tiny; positivity
  have ht' : (tiny 60 : ℝ) ≤ 0.001 := by unfold tiny; norm_num
  have hpos : 0 < 6 * (100 / 101 * r) + tiny 60 := by positivity
  refine ⟨by positivity, fun w hw => ?_⟩
  rw [div_mul_eq_mul_div, lt_div_iff₀ hpos]
  norm_num at hr ht' hw ⊢
  linarith

end Demo

theorem inverted_aux {M N : Nat} (hM : M = 100) (hN : N = 131071) :
    ∃ ci, bcaBootConf realFns realBca List.sum (jackGeneric List.sum)
      (Demo.oneGain M) (Demo.oneGainDraws M N) = some ci ∧ ci.low2p5 = 101 ∧ ci.high2p5 = 0 := by
  have hM0 : 0 < M := by omega
  have hx : Demo.oneGain M ≠ [] := by simp [Demo.oneGain]
  have hd : Demo.oneGainDraws M N ≠ [] := by simp [Demo.oneGainDraws]
  unfold bcaBootConf
  rw [if_neg hd, if_neg hx]
  simp only [bcaIntervals]
  rw [Demo.oneGain_boot hM0, Demo.oneGain_jack hM0]
  have hsum : (Demo.oneGain M).sum = 1 := by simp [Demo.oneGain]
  rw [hsum]
  have hMr : (M : ℝ) + 1 = 101 := by rw [hM]; norm_num
  rw [hMr]
  have hcount : ((List.replicate N (0 : ℝ) ++ [101]).filter (fun p => decide (p < 1))).length = N := by
    rw [List.filter_append, List.filter_eq_self.2 (by
      intro v hv
      rw [List.eq_of_mem_replicate hv]
      simp)]
    simp
  have hlen : (List.replicate N (0 : ℝ) ++ [101]).length = N + 1 := by simp
  have hsort : sortK (List.replicate N (0 : ℝ) ++ [101]) = List.replicate N 0 ++ [101] := by
    unfold sortK
    apply List.Pairwise.insertionSort_eq
    refine List.pairwise_append.2 ⟨List.pairwise_replicate.2 (.inr (le_refl _)), by simp, ?_⟩
    intro a ha b hb
    rw [List.eq_of_mem_replicate ha, List.mem_singleton.1 hb]
    norm_num
  have hnr : ((N + 1 : Nat) : ℝ) = 131072 := by rw [hN]; norm_num
  rw [hcount, hlen, hsort]
  have hcl : z0Clamp N (N + 1) = N := by unfold z0Clamp; omega
  rw [hcl]
  -- the bias
  obtain ⟨z0, hz0⟩ : ∃ z0, z0 = realBca.inv (((N : Int) : ℝ) / ((N + 1 : Nat) : ℝ)) := ⟨_, rfl⟩
  rw [← hz0]
  have hl1 := Real.log_two_gt_d9
  have hl2 := Real.log_two_lt_d9
  have hz : z0 = quantileAt (quantileArg (1 / 131072)) := by
    rw [hz0, hnr, hN, show (1 / 131072 : ℝ) = 1 - (((131071 : Nat) : Int) : ℝ) / 131072 by norm_num]
    exact invCdf_high (by norm_num) (by norm_num)
  have harg : quantileArg (1 / 131072) = Real.sqrt (34 * Real.log 2) := by
    unfold quantileArg
    rw [show (1 : ℝ) / (1 / 131072 * (1 / 131072)) = 2 ^ 34 by norm_num, Real.log_pow]
    norm_num
  have hzlo : 4.32 ≤ z0 := by
    rw [hz, harg]
    refine quantileAt_lower (u := 4.8545) (by norm_num) ?_ (by norm_num)
    apply Real.le_sqrt_of_sq_le
    norm_num at hl1 ⊢
    linarith
  have hzhi : z0 ≤ 5 := by
    rw [hz, harg]
    refine quantileAt_bound (u := 5) (Real.sqrt_nonneg _) ?_ (by norm_num)
    apply Real.sqrt_le_iff.2
    norm_num at hl2 ⊢
    linarith
  have hxlo : 1.86 ≤ quantileAt (quantileArg (1 / 40)) := by
    refine quantileAt_lower (u := 2.6327) (by norm_num) ?_ (by norm_num)
    unfold quantileArg
    apply Real.le_sqrt_of_sq_le
    have : Real.log (2 ^ 10) ≤ Real.log (1 / (1 / 40 * (1 / 40))) :=
      Real.log_le_log (by norm_num) (by norm_num)
    rw [Real.log_pow] at this
    norm_num at this hl1 ⊢
    linarith
  have hxhi := quantile_40
  have l1 : realBca.inv (25 / 1000) = -quantileAt (quantileArg (1 / 40)) := by
    rw [show (25 / 1000 : ℝ) = 1 / 40 by norm_num]
    exact invCdf_low (by norm_num) (by norm_num)
  have u1 : realBca.inv (1 - 25 / 1000) = quantileAt (quantileArg (1 / 40)) := by
    rw [show (1 / 40 : ℝ) = 1 - (1 - 25 / 1000) by norm_num]
    exact invCdf_high (by norm_num) (by norm_num)
  obtain ⟨ha0, haw⟩ := Demo.oneGain_accel hM
  have ha6 := accel_le (0 :: List.replicate M 1)
  generalize bcaAccel realFns (0 :: List.replicate M 1) = a at *
  rw [abs_of_nonneg ha0] at ha6
  generalize quantileAt (quantileArg (1 / 40)) = y at *
  norm_num at hzlo hzhi hxlo hxhi
  -- the two levels
  have hhi : bcaLevel realFns z0 a (realBca.inv (1 - 25 / 1000)) ≤ 1 / 2 := by
    rw [u1]
    apply normalCdf_low
    have hw := haw (z0 + y) (by norm_num; linarith)
    have hle : a * (z0 + y) ≤ 2 := by nlinarith
    have hneg : 1 - a * (z0 + y) < 0 := by linarith
    have : (z0 + y) / (1 - a * (z0 + y)) ≤ -(z0 + y) := by
      rw [div_le_iff_of_neg hneg]
      nlinarith
    linarith
  have hlo : 1 - 1 / 2 ^ 21 ≤ bcaLevel realFns z0 a (realBca.inv (25 / 1000)) := by
    rw [l1]
    apply normalCdf_far
    have hpos : 0 < 1 - a * (z0 + -y) := by nlinarith
    have : z0 + -y ≤ (z0 + -y) / (1 - a * (z0 + -y)) := by
      rw [le_div_iff₀ hpos]
      nlinarith [mul_nonneg ha0 (show 0 ≤ z0 + -y by linarith)]
    norm_num
    linarith
  obtain ⟨p, e1, m1, m1'⟩ := bcaPair_mem realFns realBca (List.replicate N (0 : ℝ) ++ [101]) z0 a
    (25 / 1000) (by simp)
  obtain ⟨q, e2, _, _⟩ := bcaPair_mem realFns realBca (List.replicate N (0 : ℝ) ++ [101]) z0 a
    (5 / 100) (by simp)
  obtain ⟨r, e3, _, _⟩ := bcaPair_mem realFns realBca (List.replicate N (0 : ℝ) ++ [101]) z0 a
    (1 / 10) (by simp)
  rw [e1, e2, e3]
  refine ⟨_, rfl, ?_⟩
  simp only
  unfold bcaPair at e1
  simp only [hlen] at e1
  have i1 := level_inner z0 a (realBca.inv (25 / 1000))
  have i2 := level_inner z0 a (realBca.inv (1 - 25 / 1000))
  generalize bcaLevel realFns z0 a (realBca.inv (25 / 1000)) = alo at *
  generalize bcaLevel realFns z0 a (realBca.inv (1 - 25 / 1000)) = ahi at *
  rw [hnr] at e1
  have hint : ∀ v : ℝ, 0 ≤ v → realBca.toInt v = ⌊v⌋ := fun v hv => if_pos hv
  rw [hint _ (by nlinarith), hint _ (by nlinarith)] at e1
  have f1 : (131072 : Int) ≤ ⌊alo * (131072 + 1)⌋ := by
    rw [Int.le_floor]
    norm_num at hlo ⊢
    linarith
  have f2 : (2 : Int) ≤ ⌊(1 - ahi) * (131072 + 1)⌋ := by
    rw [Int.le_floor]
    norm_num
    linarith
  have g1 : (bcaClamp (⌊alo * (131072 + 1)⌋ - 1) (N + 1)).toNat = N := by unfold bcaClamp; omega
  have g2 : (((N + 1 : Nat) : Int) - 1 - bcaClamp (⌊(1 - ahi) * (131072 + 1)⌋ - 1) (N + 1)).toNat < N := by
    unfold bcaClamp; omega
  rw [g1] at e1
  generalize (((N + 1 : Nat) : Int) - 1 - bcaClamp (⌊(1 - ahi) * (131072 + 1)⌋ - 1) (N + 1)).toNat = k at *
  rw [List.getElem?_append_right (by simp), List.getElem?_append_left (by simpa using g2),
    List.getElem?_replicate, if_pos g2] at e1
  simp at e1
  rw [← e1]
  exact ⟨rfl, rfl⟩

/-- With more samples the claim is false: on one gain and 100 bars without, with 131072 samples of
which one draws the gain only and the others miss it, the low end of the widest interval of the sum
is above its high end. -/
theorem many_samples_inverted : ∃ ci, bcaBootConf realFns realBca List.sum (jackGeneric List.sum)
    (Demo.oneGain 100) (Demo.oneGainDraws 100 131071) = some ci ∧
    ci.low2p5 = 101 ∧ ci.high2p5 = 0 := inverted_aux rfl rfl

end PyBroker
