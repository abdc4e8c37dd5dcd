import Verif.Vect.Indicators
import Mathlib.Algebra.Polynomial.Eval.Degree
import Mathlib.Algebra.Polynomial.Degree.Lemmas
import Mathlib.Algebra.BigOperators.Field
import Mathlib.Algebra.BigOperators.Intervals
import Mathlib.Algebra.Order.BigOperators.Ring.Finset
import Mathlib.Tactic.Ring
import Mathlib.Tactic.LinearCombination
import Mathlib.Tactic.FieldSimp
import Mathlib.Tactic.Linarith

/-!
# The weights of the trend and deviation indicators (helper lemmas)

`leg1`, `leg2` and `leg3` are orthonormal, sum to zero, and together with the constants span the
polynomials of degree 1, 2 and 3 on the positions of a window.
-/

namespace PyBroker

open Finset Polynomial

variable {K : Type} [Field K] [LinearOrder K]

theorem sumIn_shift (a n : Nat) (f : Nat → K) : sumIn a (a + n) f = ∑ k ∈ range n, f (a + k) := by
  unfold sumIn loop
  rw [Nat.add_sub_cancel_left]
  have key : ∀ (n a : Nat) (s : K), (List.range' a n).foldl (fun s j => s + f j) s =
      s + ∑ k ∈ range n, f (a + k) := by
    intro n
    induction n with
    | zero => intro a s; simp
    | succ n ih =>
      intro a s
      rw [List.range'_succ, List.foldl_cons, ih, sum_range_succ']
      have : ∀ k, f (a + 1 + k) = f (a + (k + 1)) := fun k => by congr 1; omega
      simp only [this, Nat.add_zero]
      ring
  rw [key, zero_add]

theorem sumIn_zero (n : Nat) (f : Nat → K) : sumIn 0 n f = ∑ k ∈ range n, f k := by
  have := sumIn_shift 0 n f
  simpa using this

variable [IsStrictOrderedRing K]

/-- The square root is one. -/
def SqrtOk (F : Fns K) : Prop := ∀ x, 0 ≤ x → 0 ≤ F.sqrt x ∧ F.sqrt x * F.sqrt x = x

theorem sqrt_ne {F : Fns K} (hF : SqrtOk F) {x : K} (h : 0 < x) : F.sqrt x ≠ 0 := by
  intro e
  have := (hF x h.le).2
  rw [e] at this
  simp at this
  exact h.ne this

theorem root_pos {F : Fns K} (hF : SqrtOk F) {x : K} (h : 0 < x) : 0 < F.sqrt x :=
  lt_of_le_of_ne (hF x h.le).1 (sqrt_ne hF h).symm

/-! ## Odd and even weights -/

theorem sum_odd {n : Nat} {f : Nat → K} (h : ∀ k < n, f (n - 1 - k) = - f k) : ∑ k ∈ range n, f k = 0 := by
  have h1 := sum_range_reflect f n
  rw [sum_congr rfl (fun k hk => h k (mem_range.1 hk)), sum_neg_distrib] at h1
  linarith

/-- The position of a bar in `[-1, 1]`. -/
def pos (n k : Nat) : K := 2 * (k : K) / ((n : K) - 1) - 1

variable {n : Nat}

theorem pos_den (hn : 2 ≤ n) : (n : K) - 1 ≠ 0 := by
  have : (2 : K) ≤ n := by exact_mod_cast hn
  linarith

theorem pos_odd (hn : 2 ≤ n) {k : Nat} (hk : k < n) : (pos n (n - 1 - k) : K) = - pos n k := by
  have hd := pos_den (K := K) hn
  unfold pos
  rw [Nat.cast_sub (by omega), Nat.cast_sub (by omega)]
  push_cast
  field_simp
  ring

theorem pos_zero (n : Nat) : (pos n 0 : K) = -1 := by simp [pos]

theorem sumSq_pos {n : Nat} {f : Nat → K} {k : Nat} (hk : k < n) (h : f k ≠ 0) :
    0 < ∑ k ∈ range n, f k * f k := by
  refine sum_pos' (fun i _ => mul_self_nonneg _) ⟨k, mem_range.2 hk, ?_⟩
  exact mul_self_pos.2 h

section
variable {F : Fns K} (hF : SqrtOk F)
include hF

/-- Weights divided by their norm. -/
theorem norm_one {f : Nat → K} {k : Nat} (hk : k < n) (h : f k ≠ 0) :
    ∑ k ∈ range n, (f k / F.sqrt (∑ k ∈ range n, f k * f k)) * (f k / F.sqrt (∑ k ∈ range n, f k * f k)) = 1 := by
  have hp := sumSq_pos hk h
  have hne := sqrt_ne hF hp
  have hs := (hF _ hp.le).2
  generalize F.sqrt (∑ k ∈ range n, f k * f k) = s at hne hs ⊢
  rw [sum_congr rfl (fun i _ => show f i / s * (f i / s) = f i * f i / (s * s) by field_simp), ← sum_div, hs]
  exact div_self hp.ne'

theorem leg1_eq (n k : Nat) : leg1 F n k = pos n k / F.sqrt (∑ k ∈ range n, pos n k * pos n k) := by
  simp only [leg1, sumIn_zero]
  rfl

theorem leg1_norm (hn : 2 ≤ n) : ∑ k ∈ range n, leg1 F n k * leg1 F n k = 1 := by
  simp only [leg1_eq hF]
  exact norm_one hF (k := 0) (by omega) (by rw [pos_zero]; norm_num)

theorem leg1_odd (hn : 2 ≤ n) {k : Nat} (hk : k < n) : leg1 F n (n - 1 - k) = - leg1 F n k := by
  rw [leg1_eq hF, leg1_eq hF, pos_odd hn hk, neg_div]

/-- Positions from weights. -/
theorem leg1_span (hn : 2 ≤ n) : ∃ a : K, 0 < a ∧ ∀ k : Nat, (k : K) = a * leg1 F n k + ((n : K) - 1) / 2 := by
  have hd := pos_den (K := K) hn
  have hd' : (0 : K) < (n : K) - 1 := by
    have : (2 : K) ≤ n := by exact_mod_cast hn
    linarith
  have hp := sumSq_pos (f := fun k => (pos n k : K)) (n := n) (k := 0) (by omega) (by
    simp only [pos_zero]; norm_num)
  have hne := sqrt_ne hF hp
  refine ⟨((n : K) - 1) / 2 * F.sqrt (∑ k ∈ range n, pos n k * pos n k),
    mul_pos (div_pos hd' two_pos) (root_pos hF hp), fun k => ?_⟩
  rw [leg1_eq hF]
  generalize F.sqrt (∑ k ∈ range n, pos n k * pos n k) = s at hne ⊢
  unfold pos
  field_simp
  ring

theorem center_eq (n : Nat) (x : Nat → K) (k : Nat) : center F n x k =
    (x k - (∑ k ∈ range n, x k) / n) / F.sqrt (∑ k ∈ range n, (x k - (∑ k ∈ range n, x k) / n) *
      (x k - (∑ k ∈ range n, x k) / n)) := by
  simp only [center, sumIn_zero]

theorem center_sum (h0 : 0 < n) (x : Nat → K) : ∑ k ∈ range n, center F n x k = 0 := by
  simp only [center_eq hF]
  rw [← sum_div, sum_sub_distrib, sum_const, card_range, nsmul_eq_mul]
  have : (n : K) ≠ 0 := by exact_mod_cast h0.ne'
  rw [mul_div_cancel₀ _ this, sub_self, zero_div]

theorem center_norm {x : Nat → K} {i j : Nat} (hi : i < n) (hj : j < n) (h : x i ≠ x j) :
    ∑ k ∈ range n, center F n x k * center F n x k = 1 ∧
      ∃ s m : K, 0 < s ∧ ∀ k, x k = s * center F n x k + m := by
  have hk : ∃ k < n, x k - (∑ k ∈ range n, x k) / n ≠ 0 := by
    by_contra hc
    push Not at hc
    have h1 := hc i hi
    have h2 := hc j hj
    exact h (by linear_combination h1 - h2)
  obtain ⟨k, hk, hne⟩ := hk
  refine ⟨?_, ?_⟩
  · simp only [center_eq hF]
    exact norm_one hF (f := fun k => x k - (∑ k ∈ range n, x k) / n) hk hne
  · have hs := root_pos hF (sumSq_pos (f := fun k => x k - (∑ k ∈ range n, x k) / n) hk hne)
    refine ⟨_, (∑ k ∈ range n, x k) / n, hs, fun k => ?_⟩
    rw [center_eq hF]
    rw [mul_div_cancel₀ _ hs.ne']
    ring

theorem center_even {x : Nat → K} (h : ∀ k < n, x (n - 1 - k) = x k) {k : Nat} (hk : k < n) :
    center F n x (n - 1 - k) = center F n x k := by
  rw [center_eq hF, center_eq hF, h k hk]

theorem center_odd {x : Nat → K} (h : ∀ k < n, x (n - 1 - k) = - x k) {k : Nat} (hk : k < n) :
    center F n x (n - 1 - k) = - center F n x k := by
  rw [center_eq hF, center_eq hF, h k hk, sum_odd h]
  ring

/-! ## The second weights -/

theorem pos_one_sq (hn : 3 ≤ n) : (pos n 1 : K) * pos n 1 ≠ pos n 0 * pos n 0 := by
  have hd := pos_den (K := K) (n := n) (by omega)
  have h3 : (3 : K) ≤ n := by exact_mod_cast hn
  rw [pos_zero]
  unfold pos
  push_cast
  intro e
  have : (2 : K) / ((n : K) - 1) * (2 / ((n : K) - 1) - 2) = 0 := by linear_combination e
  rcases mul_eq_zero.1 this with h | h
  · exact absurd h (div_ne_zero two_ne_zero hd)
  · have : (2 : K) = 2 * ((n : K) - 1) := by field_simp at h; linear_combination h
    linarith

theorem leg1_ne {i j : Nat} (hn : 2 ≤ n) (g : K → K) (hg : ∀ a b s : K, s ≠ 0 → g (a / s) = g (b / s) → g a = g b)
    (h : g (pos n i) ≠ g (pos n j)) : g (leg1 F n i) ≠ g (leg1 F n j) := by
  have hne := sqrt_ne hF (sumSq_pos (f := fun k => (pos n k : K)) (n := n) (k := 0) (by omega) (by
    simp only [pos_zero]; norm_num))
  rw [leg1_eq hF, leg1_eq hF]
  exact fun e => h (hg _ _ _ hne e)

theorem leg2_facts (hn : 3 ≤ n) :
    ∑ k ∈ range n, leg2 F n k * leg2 F n k = 1 ∧
      ∃ s m : K, 0 < s ∧ ∀ k, leg1 F n k * leg1 F n k = s * leg2 F n k + m :=
  center_norm hF (x := fun k => leg1 F n k * leg1 F n k) (i := 1) (j := 0) (by omega) (by omega)
    (leg1_ne hF (by omega) (fun a => a * a) (by
      intro a b s hs e
      field_simp at e
      linear_combination e) (pos_one_sq hF hn))

theorem leg2_even (hn : 2 ≤ n) {k : Nat} (hk : k < n) : leg2 F n (n - 1 - k) = leg2 F n k :=
  center_even hF (x := fun k => leg1 F n k * leg1 F n k) (fun k hk => by
    simp only [leg1_odd hF hn hk]; ring) hk

/-! ## The third weights -/

/-- The third weights before they lose their linear part. -/
def cube (F : Fns K) (n : Nat) : Nat → K := center F n (fun k => leg1 F n k * leg1 F n k * leg1 F n k)

/-- The third weights before they are divided by their norm. -/
def cubeRest (F : Fns K) (n k : Nat) : K :=
  cube F n k - (∑ k ∈ range n, leg1 F n k * cube F n k) * leg1 F n k

theorem leg3_eq (n k : Nat) : leg3 F n k =
    cubeRest F n k / F.sqrt (∑ k ∈ range n, cubeRest F n k * cubeRest F n k) := by
  simp only [leg3, sumIn_zero]
  rfl

theorem cube_odd (hn : 2 ≤ n) {k : Nat} (hk : k < n) : cube F n (n - 1 - k) = - cube F n k :=
  center_odd hF (x := fun k => leg1 F n k * leg1 F n k * leg1 F n k) (fun k hk => by
    simp only [leg1_odd hF hn hk]; ring) hk

theorem cubeRest_odd (hn : 2 ≤ n) {k : Nat} (hk : k < n) : cubeRest F n (n - 1 - k) = - cubeRest F n k := by
  unfold cubeRest
  rw [cube_odd hF hn hk, leg1_odd hF hn hk]
  ring

theorem leg3_odd (hn : 2 ≤ n) {k : Nat} (hk : k < n) : leg3 F n (n - 1 - k) = - leg3 F n k := by
  rw [leg3_eq hF, leg3_eq hF, cubeRest_odd hF hn hk]
  ring

theorem cube_span (hn : 2 ≤ n) : ∃ s m : K, 0 < s ∧
    ∀ k, leg1 F n k * leg1 F n k * leg1 F n k = s * cube F n k + m := by
  refine (center_norm hF (x := fun k => leg1 F n k * leg1 F n k * leg1 F n k) (i := 0) (j := n - 1)
    (by omega) (by omega) ?_).2
  have h0 : leg1 F n (n - 1) = - leg1 F n 0 := leg1_odd hF hn (k := 0) (by omega)
  have hne : leg1 F n 0 ≠ 0 := by
    rw [leg1_eq hF, pos_zero]
    refine div_ne_zero (by norm_num) (sqrt_ne hF (sumSq_pos (f := fun k => (pos n k : K)) (k := 0) (by omega) (by
      simp only [pos_zero]; norm_num)))
  rw [h0]
  intro e
  have : 2 * (leg1 F n 0 * leg1 F n 0 * leg1 F n 0) = 0 := by linear_combination e
  have := (mul_eq_zero.1 this).resolve_left two_ne_zero
  exact mul_ne_zero (mul_ne_zero hne hne) hne this

theorem cubeRest_ne (hn : 4 ≤ n) : ∃ k < n, cubeRest F n k ≠ 0 := by
  by_contra hc
  push Not at hc
  obtain ⟨s, m, hs, hsp⟩ := cube_span hF (n := n) (by omega)
  have hne0 := sqrt_ne hF (sumSq_pos (f := fun k => (pos n k : K)) (n := n) (k := 0) (by omega) (by
      simp only [pos_zero]; norm_num))
  have key : ∀ k < n, leg1 F n k * leg1 F n k * leg1 F n k =
      s * (∑ k ∈ range n, leg1 F n k * cube F n k) * leg1 F n k + m := by
    intro k hk
    have h1 := hc k hk
    unfold cubeRest at h1
    rw [hsp k]
    linear_combination s * h1
  generalize s * (∑ k ∈ range n, leg1 F n k * cube F n k) = a at key
  have e0 := key 0 (by omega)
  have e1 := key (n - 1) (by omega)
  have e2 := key 1 (by omega)
  rw [show leg1 F n (n - 1) = - leg1 F n 0 from leg1_odd hF (by omega) (k := 0) (by omega)] at e1
  have hm : m = 0 := by linear_combination (-(1 : K) / 2) * (e0 + e1)
  subst hm
  rw [leg1_eq hF, pos_zero] at e0
  rw [leg1_eq hF] at e2
  generalize F.sqrt (∑ k ∈ range n, pos n k * pos n k) = t at hne0 e0 e2
  have ha : a * (t * t) = 1 := by
    field_simp at e0
    linear_combination e0
  have hq : (pos n 1 : K) * (pos n 1 * pos n 1 - 1) = 0 := by
    field_simp at e2
    linear_combination e2 + pos n 1 * ha
  rcases mul_eq_zero.1 hq with h | h
  · have h4 : (4 : K) ≤ n := by exact_mod_cast hn
    have hd := pos_den (K := K) (n := n) (by omega)
    unfold pos at h
    push_cast at h
    have : (2 : K) = (n : K) - 1 := by field_simp at h; linear_combination h
    linarith
  · refine pos_one_sq hF (K := K) (n := n) (by omega) ?_
    rw [pos_zero]
    linear_combination h

theorem leg3_facts (hn : 4 ≤ n) :
    ∑ k ∈ range n, leg3 F n k * leg3 F n k = 1 ∧
      ∃ s b m : K, 0 < s ∧ ∀ k, leg1 F n k * leg1 F n k * leg1 F n k = s * leg3 F n k + b * leg1 F n k + m := by
  obtain ⟨k, hk, hne⟩ := cubeRest_ne hF hn
  refine ⟨?_, ?_⟩
  · simp only [leg3_eq hF]
    exact norm_one hF (f := cubeRest F n) hk hne
  · obtain ⟨s, m, hs, hsp⟩ := cube_span hF (n := n) (by omega)
    have ht := sqrt_ne hF (sumSq_pos (f := cubeRest F n) hk hne)
    refine ⟨s * F.sqrt (∑ k ∈ range n, cubeRest F n k * cubeRest F n k),
      s * (∑ k ∈ range n, leg1 F n k * cube F n k), m,
      mul_pos hs (root_pos hF (sumSq_pos (f := cubeRest F n) hk hne)), fun k => ?_⟩
    rw [hsp k, leg3_eq hF]
    generalize F.sqrt (∑ k ∈ range n, cubeRest F n k * cubeRest F n k) = t at ht ⊢
    unfold cubeRest
    field_simp
    ring

/-! ## Orthogonality -/

theorem leg_sums (hn : 2 ≤ n) : ∑ k ∈ range n, leg1 F n k = 0 ∧ ∑ k ∈ range n, leg2 F n k = 0 ∧
    ∑ k ∈ range n, leg3 F n k = 0 :=
  ⟨sum_odd (fun _ hk => leg1_odd hF hn hk), center_sum hF (by omega) _,
    sum_odd (fun _ hk => leg3_odd hF hn hk)⟩

theorem leg_orth (hn : 2 ≤ n) : ∑ k ∈ range n, leg1 F n k * leg2 F n k = 0 ∧
    ∑ k ∈ range n, leg2 F n k * leg3 F n k = 0 ∧ ∑ k ∈ range n, leg1 F n k * leg3 F n k = 0 := by
  refine ⟨sum_odd (fun _ hk => ?_), sum_odd (fun _ hk => ?_), ?_⟩
  · rw [leg1_odd hF hn hk, leg2_even hF hn hk]; ring
  · rw [leg3_odd hF hn hk, leg2_even hF hn hk]; ring
  · simp only [leg3_eq hF, cubeRest]
    rw [sum_congr rfl (fun k _ => mul_div_assoc' _ _ _), ← sum_div]
    have : ∑ k ∈ range n, leg1 F n k * (cube F n k - (∑ k ∈ range n, leg1 F n k * cube F n k) * leg1 F n k) = 0 := by
      generalize hp : ∑ k ∈ range n, leg1 F n k * cube F n k = p
      have h1 : ∀ k ∈ range n, leg1 F n k * (cube F n k - p * leg1 F n k) =
          leg1 F n k * cube F n k - p * (leg1 F n k * leg1 F n k) := fun k _ => by ring
      rw [sum_congr rfl h1, sum_sub_distrib, ← mul_sum, leg1_norm hF hn, hp]
      ring
    rw [this, zero_div]

end

end PyBroker
