import Verif.Vect.Legendre
import Verif.Props.NormalCdf
import Verif.Props.Causal

/-!
# Deviations are from the least-squares polynomial (C156)

`linear_deviation`, `quadratic_deviation` and `cubic_deviation` of `/repo/src/pybroker/vect.py`
measure how far the last log price of a window is from the polynomial fitted to the log prices of
the window by least squares, in units of the fit's root mean square error; `linear_trend` is the
slope of the fitted line over the average true range, times the fit's R².
-/

namespace PyBroker

open Finset Polynomial

/-! ## Specification -/

section
variable {K : Type} [Field K] [LinearOrder K]

/-- The degree of the polynomials. -/
def Degree.no : Degree → Nat
  | .linear => 1
  | .quadratic => 2
  | .cubic => 3

/-- The sum of the squared distances of `y 0`, ..., `y (n - 1)` from a polynomial. -/
noncomputable def Spec.sse (n : Nat) (y : Nat → K) (p : K[X]) : K :=
  ∑ k ∈ range n, (y k - p.eval (k : K)) ^ 2

/-- The polynomial is fitted by least squares: no polynomial up to the degree is closer. -/
structure Spec.BestFit (deg n : Nat) (y : Nat → K) (p : K[X]) : Prop where
  degree : p.natDegree ≤ deg
  best : ∀ q : K[X], q.natDegree ≤ deg → Spec.sse n y p ≤ Spec.sse n y q

/-- The mean. -/
def Spec.meanOf (n : Nat) (y : Nat → K) : K := (∑ k ∈ range n, y k) / n

/-- The logs of the last `n` of the values up to index `i`. -/
def Spec.logsOf (F : Fns K) (values : List K) (i n : Nat) : Nat → K :=
  fun k => F.log (values.getD (i + 1 - n + k) 0)

/-- The mean of the logs of the true ranges, as ratios, of the last `m` bars up to index `i`. -/
def Spec.logRange (F : Fns K) (high low close : List K) (m i : Nat) : K :=
  Spec.meanOf m (fun k =>
    let j := i + 1 - m + k
    F.log (max (max (high.getD j 0 / low.getD j 0) (high.getD j 0 / close.getD (j - 1) 0))
      (close.getD (j - 1) 0 / low.getD j 0)))

end

open PyBroker.Spec

variable {K : Type} [Field K] [LinearOrder K] [IsStrictOrderedRing K]

/-! ## The fit -/

/-- The fitted values. -/
def fitPoint (F : Fns K) (d : Degree) (n : Nat) (y : Nat → K) (k : Nat) : K :=
  (∑ k ∈ range n, y k) / n + (∑ k ∈ range n, y k * leg1 F n k) * leg1 F n k +
    (if d = .linear then 0 else ∑ k ∈ range n, y k * leg2 F n k) * leg2 F n k +
    (if d = .cubic then ∑ k ∈ range n, y k * leg3 F n k else 0) * leg3 F n k

section
variable {F : Fns K} (hF : SqrtOk F) {n : Nat} {d : Degree} (hn : d.no + 1 ≤ n)
include hF hn

theorem two_le_of_no : 2 ≤ n := by cases d <;> simp only [Degree.no] at hn <;> omega

/-- The fitted values are those of a polynomial. -/
theorem fit_poly (y : Nat → K) : ∃ p : K[X], p.natDegree ≤ d.no ∧
    ∀ k : Nat, p.eval (k : K) = fitPoint F d n y k := by
  have h2 := two_le_of_no hF hn
  obtain ⟨a, ha, hk⟩ := leg1_span hF h2
  let p1 : K[X] := C (1 / a) * (X - C (((n : K) - 1) / 2))
  have d1 : p1.natDegree ≤ 1 := (natDegree_C_mul_le _ _).trans (natDegree_X_sub_C_le _)
  have e1 : ∀ k : Nat, p1.eval (k : K) = leg1 F n k := by
    intro k
    simp only [p1, eval_mul, eval_C, eval_sub, eval_X]
    rw [hk k]
    field_simp
    ring
  have d11 : (p1 * p1).natDegree ≤ 2 := natDegree_mul_le.trans (by omega)
  have d111 : (p1 * p1 * p1).natDegree ≤ 3 := natDegree_mul_le.trans (by omega)
  have hc : ∀ c : K, ∀ m, (C c : K[X]).natDegree ≤ m := fun c m => by rw [natDegree_C]; exact Nat.zero_le _
  have hadd : ∀ {p q : K[X]} {m : Nat}, p.natDegree ≤ m → q.natDegree ≤ m → (p + q).natDegree ≤ m :=
    fun hp hq => (natDegree_add_le _ _).trans (max_le hp hq)
  have hsub : ∀ {p q : K[X]} {m : Nat}, p.natDegree ≤ m → q.natDegree ≤ m → (p - q).natDegree ≤ m :=
    fun hp hq => (natDegree_sub_le _ _).trans (max_le hp hq)
  have hmul : ∀ {p : K[X]} {m : Nat} (c : K), p.natDegree ≤ m → (C c * p).natDegree ≤ m :=
    fun c hp => (natDegree_C_mul_le _ _).trans hp
  unfold fitPoint
  cases d with
  | linear =>
    refine ⟨C ((∑ k ∈ range n, y k) / n) + C (∑ k ∈ range n, y k * leg1 F n k) * p1,
      hadd (hc _ _) (hmul _ d1), fun k => ?_⟩
    simp only [eval_add, eval_mul, eval_C, e1]
    simp
  | quadratic =>
    obtain ⟨_, s, m, hs, h11⟩ := leg2_facts hF (n := n) (by simpa [Degree.no] using hn)
    refine ⟨C ((∑ k ∈ range n, y k) / n) + C (∑ k ∈ range n, y k * leg1 F n k) * p1 +
      C (∑ k ∈ range n, y k * leg2 F n k) * (C (1 / s) * (p1 * p1 - C m)),
      hadd (hadd (hc _ _) (hmul _ (d1.trans (by decide)))) (hmul _ (hmul _ (hsub d11 (hc _ _)))), fun k => ?_⟩
    simp only [eval_add, eval_mul, eval_sub, eval_C, e1, h11]
    rw [show 1 / s * (s * leg2 F n k + m - m) = leg2 F n k by field_simp; ring]
    simp
  | cubic =>
    obtain ⟨_, s, m, hs, h11⟩ := leg2_facts hF (n := n) (by simp only [Degree.no] at hn; omega)
    obtain ⟨_, t, b, m3, ht, h111⟩ := leg3_facts hF (n := n) (by simpa [Degree.no] using hn)
    refine ⟨C ((∑ k ∈ range n, y k) / n) + C (∑ k ∈ range n, y k * leg1 F n k) * p1 +
      C (∑ k ∈ range n, y k * leg2 F n k) * (C (1 / s) * (p1 * p1 - C m)) +
      C (∑ k ∈ range n, y k * leg3 F n k) * (C (1 / t) * (p1 * p1 * p1 - C b * p1 - C m3)),
      hadd (hadd (hadd (hc _ _) (hmul _ (d1.trans (by decide))))
        (hmul _ (hmul _ (hsub (d11.trans (by decide)) (hc _ _)))))
        (hmul _ (hmul _ (hsub (hsub d111 (hmul _ (d1.trans (by decide)))) (hc _ _)))), fun k => ?_⟩
    simp only [eval_add, eval_mul, eval_sub, eval_C, e1]
    rw [h111 k, h11 k]
    rw [show 1 / s * (s * leg2 F n k + m - m) = leg2 F n k by field_simp; ring,
      show 1 / t * (t * leg3 F n k + b * leg1 F n k + m3 - b * leg1 F n k - m3) = leg3 F n k by
        field_simp; ring]
    simp

/-- A polynomial on the positions of the window, in the weights. -/
theorem poly_weights {q : K[X]} (hq : q.natDegree ≤ d.no) :
    ∃ b0 b1 b2 b3 : K, (d = .linear → b2 = 0) ∧ (d ≠ .cubic → b3 = 0) ∧
      ∀ k : Nat, q.eval (k : K) = b0 + b1 * leg1 F n k + b2 * leg2 F n k + b3 * leg3 F n k := by
  have h2 := two_le_of_no hF hn
  obtain ⟨a, ha, hk⟩ := leg1_span hF h2
  generalize hm : ((n : K) - 1) / 2 = m at hk
  have hev := fun k : Nat => eval_eq_sum_range' (Nat.lt_succ_of_le hq) (k : K)
  cases d with
  | linear =>
    refine ⟨q.coeff 0 + q.coeff 1 * m, q.coeff 1 * a, 0, 0, fun _ => rfl, fun _ => rfl, fun k => ?_⟩
    rw [hev, hk k]
    simp only [Degree.no, sum_range_succ, sum_range_zero]
    ring
  | quadratic =>
    obtain ⟨_, s, m2, hs, h11⟩ := leg2_facts hF (n := n) (by simpa [Degree.no] using hn)
    refine ⟨q.coeff 0 + q.coeff 1 * m + q.coeff 2 * m ^ 2 + q.coeff 2 * a ^ 2 * m2,
      q.coeff 1 * a + 2 * q.coeff 2 * a * m, q.coeff 2 * a ^ 2 * s, 0, fun h => (by cases h),
      fun _ => rfl, fun k => ?_⟩
    rw [hev, hk k]
    simp only [Degree.no, sum_range_succ, sum_range_zero]
    linear_combination (q.coeff 2 * a ^ 2) * h11 k
  | cubic =>
    obtain ⟨_, s, m2, hs, h11⟩ := leg2_facts hF (n := n) (by simp only [Degree.no] at hn; omega)
    obtain ⟨_, t, b, m3, ht, h111⟩ := leg3_facts hF (n := n) (by simpa [Degree.no] using hn)
    refine ⟨q.coeff 0 + q.coeff 1 * m + q.coeff 2 * m ^ 2 + q.coeff 3 * m ^ 3 +
        (q.coeff 2 * a ^ 2 + 3 * q.coeff 3 * a ^ 2 * m) * m2 + q.coeff 3 * a ^ 3 * m3,
      q.coeff 1 * a + 2 * q.coeff 2 * a * m + 3 * q.coeff 3 * a * m ^ 2 + q.coeff 3 * a ^ 3 * b,
      (q.coeff 2 * a ^ 2 + 3 * q.coeff 3 * a ^ 2 * m) * s, q.coeff 3 * a ^ 3 * t,
      fun h => (by cases h), fun h => absurd rfl h, fun k => ?_⟩
    rw [hev, hk k]
    simp only [Degree.no, sum_range_succ, sum_range_zero]
    linear_combination (q.coeff 2 * a ^ 2 + 3 * q.coeff 3 * a ^ 2 * m) * h11 k +
      (q.coeff 3 * a ^ 3) * h111 k

/-- What the fit leaves is orthogonal to the polynomials. -/
theorem fit_orth (y : Nat → K) {q : K[X]} (hq : q.natDegree ≤ d.no) :
    ∑ k ∈ range n, (y k - fitPoint F d n y k) * q.eval (k : K) = 0 := by
  have h2 := two_le_of_no hF hn
  obtain ⟨b0, b1, b2, b3, hb2, hb3, hev⟩ := poly_weights hF hn hq
  obtain ⟨s1, s2, s3⟩ := leg_sums hF h2
  obtain ⟨o12, o23, o13⟩ := leg_orth hF h2
  have n1 := leg1_norm hF h2
  have hn0 : (n : K) ≠ 0 := by
    have : (2 : K) ≤ n := by exact_mod_cast h2
    linarith
  generalize hc0 : (∑ k ∈ range n, y k) / n = c0
  generalize hc1 : ∑ k ∈ range n, y k * leg1 F n k = c1
  generalize hc2 : (if d = .linear then 0 else ∑ k ∈ range n, y k * leg2 F n k) = c2
  generalize hc3 : (if d = .cubic then ∑ k ∈ range n, y k * leg3 F n k else 0) = c3
  have hr : ∀ w : Nat → K, ∑ k ∈ range n, (y k - fitPoint F d n y k) * w k =
      ∑ k ∈ range n, y k * w k - c0 * ∑ k ∈ range n, w k - c1 * ∑ k ∈ range n, leg1 F n k * w k -
        c2 * ∑ k ∈ range n, leg2 F n k * w k - c3 * ∑ k ∈ range n, leg3 F n k * w k := by
    intro w
    simp only [mul_sum, ← sum_sub_distrib]
    refine sum_congr rfl (fun k _ => ?_)
    unfold fitPoint
    rw [hc0, hc1, hc2, hc3]
    ring
  have r0 : ∑ k ∈ range n, (y k - fitPoint F d n y k) = 0 := by
    have := hr (fun _ => 1)
    simp only [mul_one, s1, s2, s3, sum_const, card_range, nsmul_eq_mul] at this
    rw [this, ← hc0]
    field_simp
    ring
  have r1 : ∑ k ∈ range n, (y k - fitPoint F d n y k) * leg1 F n k = 0 := by
    rw [hr, s1, n1, hc1, sum_congr rfl (fun k _ => mul_comm (leg2 F n k) (leg1 F n k)), o12,
      sum_congr rfl (fun k _ => mul_comm (leg3 F n k) (leg1 F n k)), o13]
    ring
  have r2 : b2 * ∑ k ∈ range n, (y k - fitPoint F d n y k) * leg2 F n k = 0 := by
    by_cases hl : d = .linear
    · rw [hb2 hl, zero_mul]
    · have hn3 : 3 ≤ n := by cases d <;> simp only [Degree.no] at hn <;> first | omega | exact absurd rfl hl
      rw [if_neg hl] at hc2
      rw [hr, s2, o12, (leg2_facts hF hn3).1, hc2,
        sum_congr rfl (fun k _ => mul_comm (leg3 F n k) (leg2 F n k)), o23]
      ring
  have r3 : b3 * ∑ k ∈ range n, (y k - fitPoint F d n y k) * leg3 F n k = 0 := by
    by_cases hl : d = .cubic
    · subst hl
      rw [if_pos rfl] at hc3
      rw [hr, s3, o13, o23, (leg3_facts hF (by simpa [Degree.no] using hn)).1, hc3]
      ring
    · rw [hb3 hl, zero_mul]
  have : ∀ k ∈ range n, (y k - fitPoint F d n y k) * q.eval (k : K) =
      b0 * (y k - fitPoint F d n y k) + b1 * ((y k - fitPoint F d n y k) * leg1 F n k) +
        b2 * ((y k - fitPoint F d n y k) * leg2 F n k) + b3 * ((y k - fitPoint F d n y k) * leg3 F n k) := by
    intro k _
    rw [hev]
    ring
  rw [sum_congr rfl this, sum_add_distrib, sum_add_distrib, sum_add_distrib, ← mul_sum, ← mul_sum,
    ← mul_sum, ← mul_sum, r0, r1, r2, r3]
  ring

/-- The distance of a polynomial is that of the fit and its distance from the fit. -/
theorem fit_split (y : Nat → K) {q : K[X]} (hq : q.natDegree ≤ d.no) :
    sse n y q = ∑ k ∈ range n, (y k - fitPoint F d n y k) ^ 2 +
      ∑ k ∈ range n, (fitPoint F d n y k - q.eval (k : K)) ^ 2 := by
  obtain ⟨p, hp, he⟩ := fit_poly hF hn y
  have h1 := fit_orth hF hn y hp
  have h2 := fit_orth hF hn y hq
  have : ∀ k ∈ range n, (y k - q.eval (k : K)) ^ 2 = (y k - fitPoint F d n y k) ^ 2 +
      (fitPoint F d n y k - q.eval (k : K)) ^ 2 + 2 * ((y k - fitPoint F d n y k) * p.eval (k : K)) -
        2 * ((y k - fitPoint F d n y k) * q.eval (k : K)) := by
    intro k _
    rw [he]
    ring
  unfold sse
  rw [sum_congr rfl this, sum_sub_distrib, sum_add_distrib, sum_add_distrib, ← mul_sum, ← mul_sum, h1, h2]
  ring

/-- The fit is by least squares, and there is no other. -/
theorem bestFit_iff (y : Nat → K) {p : K[X]} :
    BestFit d.no n y p ↔ p.natDegree ≤ d.no ∧ ∀ k < n, p.eval (k : K) = fitPoint F d n y k := by
  constructor
  · intro h
    refine ⟨h.degree, ?_⟩
    obtain ⟨q, hq, he⟩ := fit_poly hF hn y
    have hb := h.best q hq
    rw [fit_split hF hn y h.degree, fit_split hF hn y hq] at hb
    have hz : ∑ k ∈ range n, (fitPoint F d n y k - q.eval (k : K)) ^ 2 = 0 := by
      simp [he]
    rw [hz, add_zero] at hb
    have h0 : ∑ k ∈ range n, (fitPoint F d n y k - p.eval (k : K)) ^ 2 = 0 :=
      le_antisymm (by linarith) (sum_nonneg (fun _ _ => sq_nonneg _))
    rw [sum_eq_zero_iff_of_nonneg (fun _ _ => sq_nonneg _)] at h0
    intro k hk
    have := pow_eq_zero_iff (two_ne_zero) |>.1 (h0 k (mem_range.2 hk))
    linear_combination -this
  · rintro ⟨hd, he⟩
    refine ⟨hd, fun q hq => ?_⟩
    rw [fit_split hF hn y hd, fit_split hF hn y hq]
    have hz : ∑ k ∈ range n, (fitPoint F d n y k - p.eval (k : K)) ^ 2 = 0 :=
      sum_eq_zero (fun k hk => by rw [he k (mem_range.1 hk)]; ring)
    rw [hz, add_zero]
    exact le_add_of_nonneg_right (sum_nonneg (fun _ _ => sq_nonneg _))

/-- A window longer than the degree has a polynomial fitted by least squares. -/
theorem bestFit_exists (y : Nat → K) : ∃ p, BestFit d.no n y p := by
  obtain ⟨p, hp, he⟩ := fit_poly hF hn y
  exact ⟨p, (bestFit_iff hF hn y).2 ⟨hp, fun k _ => he k⟩⟩

end

/-- **C156: deviations.**  On each bar with a whole window, `linear_deviation`, `quadratic_deviation`
and `cubic_deviation` are the distance of the last log price from the polynomial fitted to the log
prices of the window by least squares, over the root mean square error of the fit, through
`normal_cdf`; 0 when the error is negligible. -/
theorem deviation_best_fit {F : Fns K} (hF : SqrtOk F) {values out : List K} {d : Degree} {lookback : Nat}
    {scale : K} (h : deviation F values d lookback scale = some out) {n i : Nat}
    (hlen : n = max lookback (d.no + 2)) (hi : i < values.length) (hw : n ≤ i + 1) {p : K[X]}
    (hp : BestFit d.no n (logsOf F values i n) p) :
    out[i]? = some (
      let rms := F.sqrt (sse n (logsOf F values i n) p / n)
      if rms > 1 / 10 ^ 12 * (1 + |meanOf n (logsOf F values i n)|) then
        100 * F.cdf (scale * ((F.log (values.getD i 0) - p.eval ((n : K) - 1)) / rms)) - 50
      else 0) := by
  have hdl : devLen d lookback = n := by
    subst hlen
    cases d <;> simp only [devLen, Degree.no] <;> split <;> omega
  have hn : d.no + 1 ≤ n := by omega
  have h2 : 2 ≤ n := two_le_of_no hF hn
  unfold deviation at h
  split at h
  · cases h
    rw [hdl, series_get _ hi, if_neg (by omega)]
    obtain ⟨hdeg, hev⟩ := (bestFit_iff hF hn _).1 hp
    have ha : i + 1 - n + n = i + 1 := by omega
    have hsum : ∀ f : Nat → K, sumIn (i + 1 - n) (i + 1) f = ∑ k ∈ range n, f (i + 1 - n + k) := by
      intro f
      have := sumIn_shift (i + 1 - n) n f
      rw [ha] at this
      exact this
    have hlast : (((n - 1 : Nat) : K)) = (n : K) - 1 := by rw [Nat.cast_sub (by omega)]; simp
    have hpl := hev (n - 1) (by omega)
    rw [hlast] at hpl
    have hsse : sse n (logsOf F values i n) p =
        ∑ k ∈ range n, (logsOf F values i n k - fitPoint F d n (logsOf F values i n) k) *
          (logsOf F values i n k - fitPoint F d n (logsOf F values i n) k) := by
      unfold sse
      exact sum_congr rfl (fun k hk => by rw [hev k (mem_range.1 hk)]; ring)
    have hd : deviationAt F (rd values) d n scale i =
        if F.sqrt ((∑ k ∈ range n, (logsOf F values i n k - fitPoint F d n (logsOf F values i n) k) *
          (logsOf F values i n k - fitPoint F d n (logsOf F values i n) k)) / n) >
          tiny 12 * (1 + |(∑ k ∈ range n, logsOf F values i n k) / n|) then
          100 * F.cdf (scale * ((F.log (rd values i) - fitPoint F d n (logsOf F values i n) (n - 1)) /
            F.sqrt ((∑ k ∈ range n, (logsOf F values i n k - fitPoint F d n (logsOf F values i n) k) *
          (logsOf F values i n k - fitPoint F d n (logsOf F values i n) k)) / n))) - 50
        else 0 := by
      simp only [deviationAt, hsum, Nat.add_sub_cancel_left]
      rfl
    rw [hd, hsse, hpl]
    rfl
  · cases h

/-! ## Trends -/

/-- **C156: the weights of trends.**  The weights of `linear_trend`, `quadratic_trend` and
`cubic_trend` have norm 1 and ignore polynomials of a lower degree. -/
theorem trend_weights {F : Fns K} (hF : SqrtOk F) {d : Degree} {n : Nat} (hn : d.no + 1 ≤ n) :
    ∑ k ∈ range n, legOf F d n k ^ 2 = 1 ∧
      ∀ q : K[X], q.natDegree < d.no → ∑ k ∈ range n, legOf F d n k * q.eval (k : K) = 0 := by
  have h2 := two_le_of_no hF hn
  obtain ⟨s1, s2, s3⟩ := leg_sums hF h2
  obtain ⟨o12, o23, o13⟩ := leg_orth hF h2
  cases d with
  | linear =>
    refine ⟨by simp only [legOf, pow_two]; exact leg1_norm hF h2, fun q hq => ?_⟩
    have hq : q.natDegree = 0 := by simp only [Degree.no] at hq; omega
    rw [eq_C_of_natDegree_eq_zero hq]
    simp only [legOf, eval_C, ← sum_mul, s1, zero_mul]
  | quadratic =>
    refine ⟨by simp only [legOf, pow_two]; exact (leg2_facts hF (by simpa [Degree.no] using hn)).1, fun q hq => ?_⟩
    obtain ⟨b0, b1, b2, b3, hb2, hb3, hev⟩ := poly_weights (d := .linear) hF (n := n)
      (by simp only [Degree.no] at hn ⊢; omega) (q := q) (by simp only [Degree.no] at hq ⊢; omega)
    simp only [legOf, hev, hb2 rfl, hb3 (by decide)]
    have : ∀ k ∈ range n, leg2 F n k * (b0 + b1 * leg1 F n k + 0 * leg2 F n k + 0 * leg3 F n k) =
        b0 * leg2 F n k + b1 * (leg1 F n k * leg2 F n k) := fun k _ => by ring
    rw [sum_congr rfl this, sum_add_distrib, ← mul_sum, ← mul_sum, s2, o12]
    ring
  | cubic =>
    refine ⟨by simp only [legOf, pow_two]; exact (leg3_facts hF (by simpa [Degree.no] using hn)).1, fun q hq => ?_⟩
    obtain ⟨b0, b1, b2, b3, _, hb3, hev⟩ := poly_weights (d := .quadratic) hF (n := n)
      (by simp only [Degree.no] at hn ⊢; omega) (q := q) (by simp only [Degree.no] at hq ⊢; omega)
    simp only [legOf, hev, hb3 (by decide)]
    have : ∀ k ∈ range n, leg3 F n k * (b0 + b1 * leg1 F n k + b2 * leg2 F n k + 0 * leg3 F n k) =
        b0 * leg3 F n k + b1 * (leg1 F n k * leg3 F n k) + b2 * (leg2 F n k * leg3 F n k) :=
      fun k _ => by ring
    rw [sum_congr rfl this, sum_add_distrib, sum_add_distrib, ← mul_sum, ← mul_sum, ← mul_sum, s3, o13, o23]
    ring

/-- The constant fitted by least squares is the mean. -/
theorem bestFit_const {n : Nat} (hn : 0 < n) {y : Nat → K} {q : K[X]} (hq : BestFit 0 n y q) (x : K) :
    q.eval x = meanOf n y := by
  have hn0 : (0 : K) < n := by exact_mod_cast hn
  obtain ⟨c, rfl⟩ : ∃ c, q = C c := ⟨_, eq_C_of_natDegree_eq_zero (Nat.le_zero.1 hq.degree)⟩
  have hb := hq.best (C (meanOf n y)) (by rw [natDegree_C])
  have hm : ∑ k ∈ range n, y k = n * meanOf n y := by
    unfold meanOf
    field_simp
  have h : ∀ c : K, sse n y (C c) = ∑ k ∈ range n, (y k) ^ 2 - 2 * c * (n * meanOf n y) + n * c ^ 2 := by
    intro c
    unfold sse
    rw [← hm, mul_sum, ← sum_sub_distrib]
    have : (n : K) * c ^ 2 = ∑ _k ∈ range n, c ^ 2 := by simp
    rw [this, ← sum_add_distrib]
    exact sum_congr rfl (fun k _ => by rw [eval_C]; ring)
  rw [h, h] at hb
  have h0 : (n : K) * (c - meanOf n y) ^ 2 ≤ 0 := by linarith
  have h1 : (c - meanOf n y) ^ 2 ≤ 0 := by
    by_contra hc
    have := mul_pos hn0 (lt_of_not_ge hc)
    linarith
  rw [eval_C]
  have := pow_eq_zero_iff (two_ne_zero) |>.1 (le_antisymm h1 (sq_nonneg _))
  linear_combination this

section
variable {F : Fns K} (hF : SqrtOk F) {n : Nat} {d : Degree} (hn : d.no + 1 ≤ n)
include hF hn

/-- The fit and the fit of a lower degree differ by the trend. -/
theorem fit_lower (y : Nat → K) {q : K[X]} (hq : BestFit (d.no - 1) n y q) {k : Nat} (hk : k < n) :
    fitPoint F d n y k - q.eval (k : K) = (∑ k ∈ range n, y k * legOf F d n k) * legOf F d n k := by
  cases d with
  | linear =>
    rw [bestFit_const (by omega) hq]
    simp [fitPoint, meanOf, legOf]
  | quadratic =>
    have h := (bestFit_iff (d := .linear) hF (by simp only [Degree.no] at hn ⊢; omega) y).1 hq
    rw [h.2 k hk]
    simp [fitPoint, legOf]
  | cubic =>
    have h := (bestFit_iff (d := .quadratic) hF (by simp only [Degree.no] at hn ⊢; omega) y).1 hq
    rw [h.2 k hk]
    simp [fitPoint, legOf]

/-- The product of the weights and the logs, squared, is what the degree gains. -/
theorem dot_gain {y : Nat → K} {p q : K[X]} (hp : BestFit d.no n y p) (hq : BestFit (d.no - 1) n y q) :
    (∑ k ∈ range n, y k * legOf F d n k) ^ 2 = sse n y q - sse n y p := by
  rw [fit_split hF hn y hp.degree, fit_split hF hn y (hq.degree.trans (Nat.sub_le _ _))]
  have h0 : ∑ k ∈ range n, (fitPoint F d n y k - p.eval (k : K)) ^ 2 = 0 :=
    sum_eq_zero (fun k hk => by rw [((bestFit_iff hF hn y).1 hp).2 k (mem_range.1 hk)]; ring)
  have h1 : ∑ k ∈ range n, (fitPoint F d n y k - q.eval (k : K)) ^ 2 =
      (∑ k ∈ range n, y k * legOf F d n k) ^ 2 := by
    rw [sum_congr rfl (fun k hk => by rw [fit_lower hF hn y hq (mem_range.1 hk), mul_pow]), ← mul_sum,
      (trend_weights hF hn).1, mul_one]
  rw [h0, h1]
  ring

/-- The weights follow the leading power. -/
theorem weights_power : 0 < ∑ k ∈ range n, legOf F d n k * (k : K) ^ d.no := by
  have h2 := two_le_of_no hF hn
  obtain ⟨a, ha, hk⟩ := leg1_span hF h2
  generalize ((n : K) - 1) / 2 = m at hk
  obtain ⟨s1, s2, s3⟩ := leg_sums hF h2
  obtain ⟨o12, o23, o13⟩ := leg_orth hF h2
  cases d with
  | linear =>
    have : ∀ k ∈ range n, legOf F .linear n k * (k : K) ^ Degree.linear.no =
        a * (leg1 F n k * leg1 F n k) + m * leg1 F n k := by
      intro k _
      simp only [legOf, Degree.no]
      rw [hk k]
      ring
    rw [sum_congr rfl this, sum_add_distrib, ← mul_sum, ← mul_sum, leg1_norm hF h2, s1]
    linarith
  | quadratic =>
    obtain ⟨n2, s, m2, hs, h11⟩ := leg2_facts hF (n := n) (by simpa [Degree.no] using hn)
    have : ∀ k ∈ range n, legOf F .quadratic n k * (k : K) ^ Degree.quadratic.no =
        a ^ 2 * s * (leg2 F n k * leg2 F n k) + (a ^ 2 * m2 + m ^ 2) * leg2 F n k +
          2 * a * m * (leg1 F n k * leg2 F n k) := by
      intro k _
      simp only [legOf, Degree.no]
      rw [hk k]
      linear_combination (leg2 F n k * a ^ 2) * h11 k
    rw [sum_congr rfl this, sum_add_distrib, sum_add_distrib, ← mul_sum, ← mul_sum, ← mul_sum, n2, s2, o12]
    have := mul_pos (pow_pos ha 2) hs
    linarith
  | cubic =>
    obtain ⟨_, s, m2, hs, h11⟩ := leg2_facts hF (n := n) (by simp only [Degree.no] at hn; omega)
    obtain ⟨n3, t, b, m3, ht, h111⟩ := leg3_facts hF (n := n) (by simpa [Degree.no] using hn)
    have : ∀ k ∈ range n, legOf F .cubic n k * (k : K) ^ Degree.cubic.no =
        a ^ 3 * t * (leg3 F n k * leg3 F n k) + (a ^ 3 * m3 + 3 * a ^ 2 * m * m2 + m ^ 3) * leg3 F n k +
          (a ^ 3 * b + 3 * a * m ^ 2) * (leg1 F n k * leg3 F n k) +
          3 * a ^ 2 * m * s * (leg2 F n k * leg3 F n k) := by
      intro k _
      simp only [legOf, Degree.no]
      rw [hk k]
      linear_combination (leg3 F n k * a ^ 3) * h111 k + (3 * leg3 F n k * a ^ 2 * m) * h11 k
    rw [sum_congr rfl this, sum_add_distrib, sum_add_distrib, sum_add_distrib, ← mul_sum, ← mul_sum,
      ← mul_sum, ← mul_sum, n3, s3, o13, o23]
    have := mul_pos (pow_pos ha 3) ht
    linarith

/-- The product of the weights and the logs has the sign of the leading coefficient. -/
theorem dot_sign {y : Nat → K} {p : K[X]} (hp : BestFit d.no n y p) :
    ∑ k ∈ range n, y k * legOf F d n k =
      p.coeff d.no * ∑ k ∈ range n, legOf F d n k * (k : K) ^ d.no := by
  have hev := fun k : Nat => eval_eq_sum_range' (Nat.lt_succ_of_le hp.degree) (k : K)
  have hw : ∃ w : K[X], w.natDegree ≤ d.no ∧ ∀ k : Nat, k < n → w.eval (k : K) = legOf F d n k := by
    obtain ⟨w, hw, he⟩ := fit_poly hF hn (legOf F d n)
    refine ⟨w, hw, fun k _ => ?_⟩
    rw [he]
    have h2 := two_le_of_no hF hn
    obtain ⟨s1, s2, s3⟩ := leg_sums hF h2
    obtain ⟨o12, o23, o13⟩ := leg_orth hF h2
    have n1 := (trend_weights hF hn).1
    simp only [pow_two] at n1
    have c21 := sum_congr (s₁ := range n) rfl (fun k _ => mul_comm (leg2 F n k) (leg1 F n k))
    have c31 := sum_congr (s₁ := range n) rfl (fun k _ => mul_comm (leg3 F n k) (leg1 F n k))
    have c32 := sum_congr (s₁ := range n) rfl (fun k _ => mul_comm (leg3 F n k) (leg2 F n k))
    cases d <;> simp only [fitPoint, legOf] at n1 ⊢
    · simp [s1, n1]
    · simp [s2, n1, c21, o12]
    · simp [s3, n1, c31, o13, c32, o23]
  obtain ⟨w, hwd, hwe⟩ := hw
  have h := fit_orth hF hn y hwd
  have h1 : ∑ k ∈ range n, y k * legOf F d n k = ∑ k ∈ range n, p.eval (k : K) * legOf F d n k := by
    rw [← sub_eq_zero, ← sum_sub_distrib, ← h]
    refine sum_congr rfl (fun k hk => ?_)
    have hk := mem_range.1 hk
    rw [((bestFit_iff hF hn y).1 hp).2 k hk, hwe k hk]
    ring
  rw [h1]
  have hlow := (trend_weights hF hn).2 (p.erase d.no) (by
    by_cases h0 : p.erase d.no = 0
    · rw [h0, natDegree_zero]
      cases d <;> decide
    · refine lt_of_le_of_ne (natDegree_le_iff_coeff_eq_zero.2 (fun m hm => ?_)) (fun e => ?_)
      · rw [coeff_erase]
        split
        · rfl
        · exact coeff_eq_zero_of_natDegree_lt (lt_of_le_of_lt hp.degree hm)
      · have hc : (p.erase d.no).coeff d.no = 0 := by rw [coeff_erase, if_pos rfl]
        rw [← e] at hc
        exact h0 (leadingCoeff_eq_zero.1 (by rw [leadingCoeff, e]; rw [e] at hc; exact hc)))
  have hsplit : ∀ k : Nat, p.eval (k : K) = p.coeff d.no * (k : K) ^ d.no + (p.erase d.no).eval (k : K) := by
    intro k
    have := congrArg (eval (k : K)) (monomial_add_erase p d.no)
    rw [eval_add, eval_monomial] at this
    exact this.symm
  have : ∀ k ∈ range n, p.eval (k : K) * legOf F d n k =
      p.coeff d.no * (legOf F d n k * (k : K) ^ d.no) + legOf F d n k * (p.erase d.no).eval (k : K) := by
    intro k _
    rw [hsplit]
    ring
  rw [sum_congr rfl this, sum_add_distrib, hlow, ← mul_sum, add_zero]

/-- What the trend leaves of the distances from the mean. -/
theorem trend_rest (y : Nat → K) :
    ∑ k ∈ range n, (y k - meanOf n y - (∑ k ∈ range n, y k * legOf F d n k) * legOf F d n k) *
      (y k - meanOf n y - (∑ k ∈ range n, y k * legOf F d n k) * legOf F d n k) =
    ∑ k ∈ range n, (y k - meanOf n y) ^ 2 - (∑ k ∈ range n, y k * legOf F d n k) ^ 2 := by
  have n1 := (trend_weights hF hn).1
  have h0 : ∑ k ∈ range n, legOf F d n k = 0 := by
    have := (trend_weights hF hn).2 1 (by rw [natDegree_one]; cases d <;> decide)
    simpa using this
  generalize hc : ∑ k ∈ range n, y k * legOf F d n k = c
  have : ∀ k ∈ range n, (y k - meanOf n y - c * legOf F d n k) * (y k - meanOf n y - c * legOf F d n k) =
      (y k - meanOf n y) ^ 2 - 2 * c * (y k * legOf F d n k) + 2 * c * meanOf n y * legOf F d n k +
        c ^ 2 * legOf F d n k ^ 2 := fun k _ => by ring
  rw [sum_congr rfl this, sum_add_distrib, sum_add_distrib, sum_sub_distrib, ← mul_sum, ← mul_sum, ← mul_sum,
    hc, h0, n1]
  ring

end

/-- **C156: trends.**  On each bar with whole windows, the trend is, through `normal_cdf`, the signed
root of what its degree gains over the degree below in the sum of squared distances, twice, over the
mean log true range times the length, times the share of the variation that is gained. -/
theorem trend_best_fit {F : Fns K} (hF : SqrtOk F) {values high low close out : List K} {d : Degree}
    {lookback atrLen : Nat} {scale : K} (h : trend F values high low close d lookback atrLen scale = some out)
    {n i : Nat} (hlen : n = max lookback (if d = .linear then 2 else d.no + 2)) (hi : i < values.length)
    (hw : n ≤ i + 1) (ha : atrLen ≤ i) {p q : K[X]} (hp : BestFit d.no n (logsOf F values i n) p)
    (hq : BestFit (d.no - 1) n (logsOf F values i n) q) :
    ∃ t : K, t ^ 2 = sse n (logsOf F values i n) q - sse n (logsOf F values i n) p ∧
      0 ≤ t * p.coeff d.no ∧
      out[i]? = some (
        let y := logsOf F values i n
        let total := ∑ k ∈ range n, (y k - meanOf n y) ^ 2
        let len : K := if n = 2 then 2 else n - 1
        100 * F.cdf (scale * (2 * t / (logRange F high low close atrLen i * len + 1 / 10 ^ 60) *
          ((t ^ 2 + 1 / 10 ^ 60) / (total + 1 / 10 ^ 60)))) - 50) := by
  have hdl : trendLen d lookback = n := by
    subst hlen
    cases d <;> simp [trendLen, Degree.no] <;> split <;> omega
  have hn : d.no + 1 ≤ n := by
    subst hlen
    cases d <;> simp [Degree.no]
  have h2 : 2 ≤ n := two_le_of_no hF hn
  refine ⟨_, dot_gain hF hn hp hq, ?_, ?_⟩
  · rw [dot_sign hF hn hp]
    have := mul_nonneg (mul_self_nonneg (p.coeff d.no)) (weights_power hF hn).le
    linarith
  · unfold trend at h
    split at h
    · rename_i hc
      cases h
      rw [hdl, series_get _ hi]
      have hfr : ¬ i < (if n - 1 > atrLen then n - 1 else atrLen) := by split <;> omega
      rw [if_neg hfr]
      have hsum : ∀ m, m ≤ i + 1 → ∀ f : Nat → K,
          sumIn (i + 1 - m) (i + 1) f = ∑ k ∈ range m, f (i + 1 - m + k) := by
        intro m hm f
        have := sumIn_shift (i + 1 - m) m f
        rw [show i + 1 - m + m = i + 1 by omega] at this
        exact this
      have hatr : atrAt F (rd high) (rd low) (rd close) true atrLen i = logRange F high low close atrLen i := by
        unfold atrAt logRange meanOf
        rw [if_neg (by omega), hsum _ (by omega)]
        have : ∀ k, ratioRange (rd high) (rd low) (rd close) k =
            max (max (high.getD k 0 / low.getD k 0) (high.getD k 0 / close.getD (k - 1) 0))
              (close.getD (k - 1) 0 / low.getD k 0) := by
          intro k
          have hm : ∀ x y : K, (if x > y then x else y) = max y x := by
            intro x y
            split
            · rename_i hh; exact (max_eq_right hh.le).symm
            · rename_i hh; exact (max_eq_left (not_lt.1 hh)).symm
          simp only [ratioRange, hm]
          rfl
        simp only [this]
        rfl
      have hk : (((if n = 2 then 2 else n - 1 : Nat)) : K) = if n = 2 then 2 else (n : K) - 1 := by
        split
        · simp
        · rw [Nat.cast_sub (by omega)]; simp
      have ht : trendAt F (rd values) (rd high) (rd low) (rd close) d n atrLen scale i =
          let y := logsOf F values i n
          let dot := ∑ k ∈ range n, y k * legOf F d n k
          let rsq := 1 - (∑ k ∈ range n, (y k - meanOf n y - dot * legOf F d n k) *
              (y k - meanOf n y - dot * legOf F d n k)) /
            (∑ k ∈ range n, (y k - meanOf n y) * (y k - meanOf n y) + tiny 60)
          100 * F.cdf (scale * (dot * 2 / (atrAt F (rd high) (rd low) (rd close) true atrLen i *
            (((if n = 2 then 2 else n - 1 : Nat)) : K) + tiny 60) * (if rsq < 0 then 0 else rsq))) - 50 := by
        simp only [trendAt, hsum _ hw, Nat.add_sub_cancel_left]
        rfl
      rw [ht, hatr, hk]
      simp only
      rw [trend_rest hF hn]
      have hsq : ∑ k ∈ range n, (logsOf F values i n k - meanOf n (logsOf F values i n)) *
          (logsOf F values i n k - meanOf n (logsOf F values i n)) =
          ∑ k ∈ range n, (logsOf F values i n k - meanOf n (logsOf F values i n)) ^ 2 :=
        sum_congr rfl (fun k _ => by ring)
      rw [hsq]
      generalize hT : ∑ k ∈ range n, (logsOf F values i n k - meanOf n (logsOf F values i n)) ^ 2 = T
      generalize ∑ k ∈ range n, logsOf F values i n k * legOf F d n k = t
      have hT0 : 0 ≤ T := hT ▸ sum_nonneg (fun _ _ => sq_nonneg _)
      have he : (0 : K) < tiny 60 := by unfold tiny; positivity
      have hpos : (0 : K) < T + tiny 60 := by linarith
      have hr : 1 - (T - t ^ 2) / (T + tiny 60) = (t ^ 2 + tiny 60) / (T + tiny 60) := by
        field_simp
        ring
      rw [hr, if_neg (not_lt.2 (div_nonneg (by positivity) hpos.le))]
      simp only [tiny, mul_comm t 2]
    · cases h

/-! ## The functions of the library -/

/-- The square root of `Fns ℝ` is one. -/
theorem realFns_sqrt : SqrtOk realFns := fun x hx => ⟨Real.sqrt_nonneg x, Real.mul_self_sqrt hx⟩

/-! ## A window

Prices 1, 1 and `e` have logs 0, 0 and 1; the line fitted to them is `k / 2 - 1 / 6`. -/

namespace Demo

noncomputable def lsValues : List ℝ := [1, 1, Real.exp 1]

noncomputable def lsLine : ℝ[X] := C (1 / 2) * X - C (1 / 6)

theorem lsLogs : logsOf realFns lsValues 2 3 0 = 0 ∧ logsOf realFns lsValues 2 3 1 = 0 ∧
    logsOf realFns lsValues 2 3 2 = 1 := by
  simp [logsOf, realFns, lsValues]

theorem lsSse : sse 3 (logsOf realFns lsValues 2 3) lsLine = 1 / 6 := by
  obtain ⟨h0, h1, h2⟩ := lsLogs
  simp only [sse, sum_range_succ, sum_range_zero, h0, h1, h2, lsLine, eval_sub, eval_mul, eval_C, eval_X]
  norm_num

theorem lsBest : BestFit Degree.linear.no 3 (logsOf realFns lsValues 2 3) lsLine := by
  obtain ⟨h0, h1, h2⟩ := lsLogs
  refine ⟨?_, fun q hq => ?_⟩
  · exact (natDegree_sub_le _ _).trans (max_le ((natDegree_C_mul_le _ _).trans natDegree_X_le)
      (by rw [natDegree_C]; exact Nat.zero_le _))
  · rw [lsSse]
    have hev := fun x : ℝ => eval_eq_sum_range' (Nat.lt_succ_of_le hq) x
    simp only [sse, sum_range_succ, sum_range_zero, h0, h1, h2, hev, Degree.no, Nat.succ_eq_add_one]
    nlinarith [sq_nonneg (q.coeff 0 + 1 / 6), sq_nonneg (q.coeff 0 + q.coeff 1 - 1 / 3),
      sq_nonneg (q.coeff 0 + 2 * q.coeff 1 - 5 / 6)]

theorem lsMean : BestFit (Degree.linear.no - 1) 3 (logsOf realFns lsValues 2 3) (C (1 / 3)) := by
  obtain ⟨h0, h1, h2⟩ := lsLogs
  refine ⟨by rw [natDegree_C]; exact Nat.zero_le _, fun q hq => ?_⟩
  have hev := fun x : ℝ => eval_eq_sum_range' (Nat.lt_succ_of_le hq) x
  simp only [sse, sum_range_succ, sum_range_zero, h0, h1, h2, hev, Degree.no, Nat.succ_eq_add_one, eval_C]
  nlinarith [sq_nonneg (q.coeff 0 - 1 / 3)]

/-- The last log price is 1/6 above the line. -/
example : ∃ out, deviation realFns lsValues .linear 3 1 = some out ∧
    out[2]? = some (100 * normalCdf ((1 - 5 / 6) / Real.sqrt (1 / 18)) - 50) := by
  refine ⟨_, if_pos ⟨by decide, by norm_num⟩, ?_⟩
  rw [deviation_best_fit realFns_sqrt (if_pos ⟨by decide, by norm_num⟩) (n := 3) (by rfl)
    (by simp [lsValues]) (by decide) lsBest, lsSse]
  obtain ⟨h0, h1, h2⟩ := lsLogs
  have hm : meanOf 3 (logsOf realFns lsValues 2 3) = 1 / 3 := by
    simp [meanOf, sum_range_succ, h0, h1, h2]
  have hr : (1 : ℝ) / 18 = 1 / 6 / ((3 : Nat) : ℝ) := by norm_num
  have hs : (1 : ℝ) / 10 ≤ Real.sqrt (1 / 18) := Real.le_sqrt_of_sq_le (by norm_num)
  simp only [hm, ← hr]
  have hl : (realFns : Fns ℝ).log (lsValues.getD 2 0) = 1 := by simp [realFns, lsValues]
  rw [if_pos (by
    refine lt_of_lt_of_le ?_ hs
    rw [abs_of_pos (by norm_num)]
    norm_num), hl]
  simp only [lsLine, eval_sub, eval_mul, eval_C, eval_X, one_mul]
  congr 3
  show normalCdf ((1 - (1 / 2 * (((3 : Nat) : ℝ) - 1) - 1 / 6)) / Real.sqrt (1 / 18)) = _
  rw [show (1 : ℝ) / 2 * (((3 : Nat) : ℝ) - 1) - 1 / 6 = 5 / 6 by norm_num]

/-- The line gains 1/2 over the mean, so the trend is up. -/
example : ∃ out t : _, trend realFns lsValues lsValues lsValues lsValues .linear 3 1 1 = some out ∧
    t ^ 2 = sse 3 (logsOf realFns lsValues 2 3) (C (1 / 3)) - 1 / 6 ∧ 0 ≤ t * (1 / 2 : ℝ) := by
  obtain ⟨t, h1, h2, _⟩ := trend_best_fit realFns_sqrt (values := lsValues) (high := lsValues) (low := lsValues)
    (close := lsValues) (d := .linear) (lookback := 3) (atrLen := 1) (scale := 1)
    (if_pos ⟨rfl, rfl, rfl, by decide, by decide, by norm_num⟩) (n := 3) (i := 2) (by rfl) (by simp [lsValues])
    (by decide) (by decide) lsBest lsMean
  rw [lsSse] at h1
  refine ⟨_, t, if_pos ⟨rfl, rfl, rfl, by decide, by decide, by norm_num⟩, h1, ?_⟩
  have hc : lsLine.coeff Degree.linear.no = 1 / 2 := by
    simp [lsLine, Degree.no, coeff_C]
  rwa [hc] at h2

end Demo

end PyBroker
