import Verif.Props.UnitFree

/-!
# Indicators that depend on the unit, but little (C170)

`adx` and `stochastic` of `/repo/src/pybroker/vect.py` add `1e-10` and `1e-60` to a difference of prices.
How much their values on prices in another unit differ is bounded by that number over the least range.
-/

namespace PyBroker

open PyBroker.Spec

variable {K : Type} [Field K] [LinearOrder K] [IsStrictOrderedRing K] {k : K}

/-- Two loops side by side. -/
theorem loop_rel {S : Type} {R : Nat → S → S → Prop} {f f' : S → Nat → S} {a b : Nat} {s s' : S} (hab : a ≤ b)
    (h0 : R a s s') (hs : ∀ s s' j, a ≤ j → j < b → R j s s' → R (j + 1) (f s j) (f' s' j)) :
    R b (loop a b f s) (loop a b f' s') := by
  obtain ⟨n, rfl⟩ := Nat.exists_eq_add_of_le hab
  unfold loop
  rw [Nat.add_sub_cancel_left]
  clear hab
  induction n generalizing a s s' with
  | zero => exact h0
  | succ n ih =>
    rw [List.range'_succ, List.foldl_cons, List.foldl_cons, show a + (n + 1) = a + 1 + n by omega]
    exact ih (hs s s' a le_rfl (by omega) h0) (fun s s' j h1 h2 h => hs s s' j (by omega) (by omega) h)

/-- A small change of a divisor. -/
theorem frac_close {N X Y Y0 : K} (hN : 0 ≤ N) (hX : N ≤ X) (hX0 : 0 < X) (hY0 : 0 < Y0) (hY : Y0 ≤ Y) :
    |N / Y - N / X| ≤ |X - Y| / Y0 := by
  have hYp : 0 < Y := lt_of_lt_of_le hY0 hY
  have e : N / Y - N / X = N / X * ((X - Y) / Y) := by field_simp
  rw [e, abs_mul, abs_div (X - Y), abs_of_pos hYp, abs_of_nonneg (div_nonneg hN hX0.le)]
  have h1 : N / X ≤ 1 := (div_le_one hX0).2 hX
  have h2 : |X - Y| / Y ≤ |X - Y| / Y0 := div_le_div_of_nonneg_left (abs_nonneg _) hY0 hY
  calc N / X * (|X - Y| / Y) ≤ 1 * (|X - Y| / Y) :=
        mul_le_mul_of_nonneg_right h1 (div_nonneg (abs_nonneg _) hYp.le)
    _ ≤ |X - Y| / Y0 := by rw [one_mul]; exact h2

/-! ## ADX -/

/-- Sums in another unit. -/
def InUnit (k : K) (s s' : AdxSt K) : Prop :=
  s'.dmsPlus = k * s.dmsPlus ∧ s'.dmsMinus = k * s.dmsMinus ∧ s'.atr = k * s.atr

theorem dirIndex_eq {s : AdxSt K} (h : AdxOk s) :
    dirIndex s = |s.dmsPlus - s.dmsMinus| / (s.dmsPlus + s.dmsMinus + tiny 10 * (s.atr + tiny 10)) := by
  obtain ⟨h1, h2, h3⟩ := h
  have ht := tiny_pos (K := K) 10
  unfold dirIndex
  simp only
  generalize (tiny 10 : K) = e at ht ⊢
  have hd : 0 < s.atr + e := by linarith
  rw [← sub_div, abs_div, abs_of_pos hd]
  have hs : 0 < s.dmsPlus + s.dmsMinus + e * (s.atr + e) := by
    have := mul_pos ht hd
    linarith
  field_simp

theorem dir_close (hk : 0 < k) {δ : K} (hδ : 0 < δ) {s s' : AdxSt K} (h : AdxOk s) (hu : InUnit k s s')
    (ha : δ ≤ s.atr) : |dirIndex s' - dirIndex s| ≤ tiny 10 * |1 - 1 / k| / δ := by
  obtain ⟨u1, u2, u3⟩ := hu
  have h' : AdxOk s' := by
    obtain ⟨h1, h2, h3⟩ := h
    refine ⟨?_, ?_, ?_⟩
    · rw [u1]; exact mul_nonneg hk.le h1
    · rw [u2]; exact mul_nonneg hk.le h2
    · rw [u3]; exact mul_nonneg hk.le h3
  rw [dirIndex_eq h, dirIndex_eq h', u1, u2, u3]
  obtain ⟨h1, h2, h3⟩ := h
  have ht := tiny_pos (K := K) 10
  generalize (tiny 10 : K) = e at ht ⊢
  have e1 : |k * s.dmsPlus - k * s.dmsMinus| / (k * s.dmsPlus + k * s.dmsMinus + e * (k * s.atr + e)) =
      |s.dmsPlus - s.dmsMinus| / (s.dmsPlus + s.dmsMinus + e * (s.atr + e / k)) := by
    rw [← mul_sub, abs_mul, abs_of_pos hk]
    rw [show k * s.dmsPlus + k * s.dmsMinus + e * (k * s.atr + e) =
      k * (s.dmsPlus + s.dmsMinus + e * (s.atr + e / k)) by field_simp, mul_div_mul_left _ _ hk.ne']
  rw [e1]
  have hS : |s.dmsPlus - s.dmsMinus| ≤ s.dmsPlus + s.dmsMinus := abs_le.2 ⟨by linarith, by linarith⟩
  have hek : 0 < e / k := div_pos ht hk
  have hp : 0 < e * (s.atr + e) := mul_pos ht (by linarith)
  have hb := frac_close (N := |s.dmsPlus - s.dmsMinus|) (X := s.dmsPlus + s.dmsMinus + e * (s.atr + e))
    (Y := s.dmsPlus + s.dmsMinus + e * (s.atr + e / k)) (Y0 := e * δ) (abs_nonneg _) (by linarith) (by linarith)
    (mul_pos ht hδ) (by
      have : e * δ ≤ e * (s.atr + e / k) := mul_le_mul_of_nonneg_left (by linarith) ht.le
      linarith)
  refine hb.trans (le_of_eq ?_)
  rw [show s.dmsPlus + s.dmsMinus + e * (s.atr + e) - (s.dmsPlus + s.dmsMinus + e * (s.atr + e / k)) =
    e * (e * (1 - 1 / k)) by field_simp; ring, abs_mul, abs_mul, abs_of_pos ht, mul_div_mul_left _ _ ht.ne']

theorem dm_units (hk : 0 < k) (h l : Nat → K) (i : Nat) :
    dmPlus (fun i => k * h i) (fun i => k * l i) i = k * dmPlus h l i ∧
    dmMinus (fun i => k * h i) (fun i => k * l i) i = k * dmMinus h l i := by
  unfold dmPlus dmMinus
  simp only [← mul_sub, gt_iff_lt, mul_lt_mul_iff_right₀ hk, mul_pos_iff_of_pos_left hk]
  constructor <;> split_ifs <;> simp

section
variable (hk : 0 < k) {δ : K} (hδ : 0 < δ) {h l c : Nat → K}
include hk hδ

/-- The sums after each bar, side by side. -/
def Near (k δ B w : K) (s s' : AdxSt K) : Prop :=
  InUnit k s s' ∧ AdxOk s ∧ δ ≤ s.atr ∧ |s'.adx - s.adx| ≤ B * w

theorem decay_near {lb : Nat} (hlb : 0 < lb) {j : Nat} (hj : δ ≤ h j - l j) {s s' : AdxSt K} (hu : InUnit k s s')
    (hs : AdxOk s) :
    InUnit k (adxDecay h l c lb s j)
      (adxDecay (fun i => k * h i) (fun i => k * l i) (fun i => k * c i) lb s' j) ∧
    AdxOk (adxDecay h l c lb s j) ∧ δ ≤ (adxDecay h l c lb s j).atr := by
  obtain ⟨u1, u2, u3⟩ := hu
  have hlb1 : (1 : K) ≤ lb := by exact_mod_cast hlb
  refine ⟨?_, adxDecay_ok hlb (by linarith) hs, ?_⟩
  · unfold InUnit adxDecay
    simp only [u1, u2, u3, (dm_units hk h l j).1, (dm_units hk h l j).2, trueRange_units hk]
    refine ⟨by ring, by ring, by ring⟩
  · unfold adxDecay
    simp only
    have h1 := trueRange_ge h l c j
    have h2 : 0 ≤ ((lb : K) - 1) / lb * s.atr := mul_nonneg (div_nonneg (by linarith) (by linarith)) hs.2.2
    linarith

theorem step1_near {j : Nat} (hj : δ ≤ h j - l j) {s s' : AdxSt K} (hu : InUnit k s s') (hs : AdxOk s) :
    Near k δ (tiny 10 * |1 - 1 / k| / δ) 1 (adxStep1 h l c s j)
      (adxStep1 (fun i => k * h i) (fun i => k * l i) (fun i => k * c i) s' j) := by
  obtain ⟨u1, u2, u3⟩ := hu
  obtain ⟨d1, d2⟩ := dm_nonneg h l j
  have ht := trueRange_ge h l c j
  obtain ⟨s1, s2, s3⟩ := hs
  let t : AdxSt K := ⟨s.dmsPlus + dmPlus h l j, s.dmsMinus + dmMinus h l j, s.atr + trueRange h l c j, s.adx⟩
  let t' : AdxSt K := ⟨k * t.dmsPlus, k * t.dmsMinus, k * t.atr, s'.adx⟩
  have hok : AdxOk t := ⟨add_nonneg s1 d1, add_nonneg s2 d2, add_nonneg s3 (by linarith)⟩
  have hat : δ ≤ t.atr := by show δ ≤ s.atr + trueRange h l c j; linarith
  have e' : adxStep1 (fun i => k * h i) (fun i => k * l i) (fun i => k * c i) s' j = { t' with adx := dirIndex t' } := by
    unfold adxStep1
    simp only [u1, u2, u3, (dm_units hk h l j).1, (dm_units hk h l j).2, trueRange_units hk, ← mul_add]
    rfl
  have e : adxStep1 h l c s j = { t with adx := dirIndex t } := rfl
  rw [e, e']
  refine ⟨⟨rfl, rfl, rfl⟩, hok, hat, ?_⟩
  rw [mul_one]
  exact dir_close hk hδ hok ⟨rfl, rfl, rfl⟩ hat

theorem step2_near {lb : Nat} (hlb : 0 < lb) {j : Nat} (hj : δ ≤ h j - l j) {s s' : AdxSt K} {w : K}
    (hn : Near k δ (tiny 10 * |1 - 1 / k| / δ) w s s') :
    Near k δ (tiny 10 * |1 - 1 / k| / δ) (w + 1) (adxStep2 h l c lb s j)
      (adxStep2 (fun i => k * h i) (fun i => k * l i) (fun i => k * c i) lb s' j) := by
  obtain ⟨n1, n2, n3, n4⟩ := hn
  obtain ⟨m1, m2, m3⟩ := decay_near hk hδ (c := c) hlb hj n1 n2
  have hd := dir_close hk hδ m2 m1 m3
  refine ⟨m1, m2, m3, ?_⟩
  unfold adxStep2
  simp only
  rw [mul_add, mul_one]
  refine le_trans ?_ (add_le_add n4 hd)
  rw [add_sub_add_comm]
  exact abs_add_le _ _

theorem step3_near {lb : Nat} (hlb : 0 < lb) {j : Nat} (hj : δ ≤ h j - l j) {s s' : AdxSt K}
    (hn : Near k δ (tiny 10 * |1 - 1 / k| / δ) 1 s s') :
    Near k δ (tiny 10 * |1 - 1 / k| / δ) 1 (adxStep3 h l c lb s j)
      (adxStep3 (fun i => k * h i) (fun i => k * l i) (fun i => k * c i) lb s' j) := by
  obtain ⟨n1, n2, n3, n4⟩ := hn
  obtain ⟨m1, m2, m3⟩ := decay_near hk hδ (c := c) hlb hj n1 n2
  have hd := dir_close hk hδ m2 m1 m3
  have hlb1 : (1 : K) ≤ lb := by exact_mod_cast hlb
  have hr : 0 ≤ ((lb : K) - 1) / lb := div_nonneg (by linarith) (by linarith)
  refine ⟨m1, m2, m3, ?_⟩
  unfold adxStep3
  simp only
  rw [mul_one] at n4 ⊢
  generalize tiny 10 * |1 - 1 / k| / δ = B at n4 hd ⊢
  generalize dirIndex (adxDecay h l c lb s j) = x at hd ⊢
  generalize dirIndex (adxDecay (fun i => k * h i) (fun i => k * l i) (fun i => k * c i) lb s' j) = y at hd ⊢
  rw [show ((lb : K) - 1) / lb * s'.adx + y / lb - (((lb : K) - 1) / lb * s.adx + x / lb) =
    ((lb : K) - 1) / lb * (s'.adx - s.adx) + (y - x) / lb by ring]
  refine (abs_add_le _ _).trans ?_
  rw [abs_mul, abs_of_nonneg hr, abs_div, abs_of_pos (show (0 : K) < lb by linarith)]
  have hl : (lb : K) ≠ 0 := by linarith
  calc ((lb : K) - 1) / lb * |s'.adx - s.adx| + |y - x| / lb ≤ ((lb : K) - 1) / lb * B + B / lb :=
        add_le_add (mul_le_mul_of_nonneg_left n4 hr) (div_le_div_of_nonneg_right hd (by linarith))
    _ = B := by field_simp; ring

theorem loop1_near {n : Nat} (hr : ∀ j < n, δ ≤ h j - l j) {i : Nat} (h1 : 1 ≤ i) (hi : i < n) :
    Near k δ (tiny 10 * |1 - 1 / k| / δ) 1 (loop 1 (i + 1) (adxStep1 h l c) ⟨0, 0, 0, 0⟩)
      (loop 1 (i + 1) (adxStep1 (fun i => k * h i) (fun i => k * l i) (fun i => k * c i)) ⟨0, 0, 0, 0⟩) := by
  have := loop_rel (R := fun j s s' => InUnit k s s' ∧ AdxOk s ∧
      (1 < j → Near k δ (tiny 10 * |1 - 1 / k| / δ) 1 s s')) (a := 1) (b := i + 1) (f := adxStep1 h l c)
    (f' := adxStep1 (fun i => k * h i) (fun i => k * l i) (fun i => k * c i)) (s := ⟨0, 0, 0, 0⟩) (s' := ⟨0, 0, 0, 0⟩)
    (by omega) ⟨by simp [InUnit], ⟨le_rfl, le_rfl, le_rfl⟩, fun h => absurd h (lt_irrefl _)⟩
    (fun s s' j _ hj hR => by
      have hn := step1_near hk hδ (c := c) (hr j (by omega)) hR.1 hR.2.1
      exact ⟨hn.1, hn.2.1, fun _ => hn⟩)
  exact this.2.2 (by omega)

theorem loop2_near {n lb : Nat} (hlb : 0 < lb) (hr : ∀ j < n, δ ≤ h j - l j) {i : Nat} (h1 : lb ≤ i) (hi : i < n) :
    Near k δ (tiny 10 * |1 - 1 / k| / δ) ((i : K) - lb + 1)
      (loop (lb + 1) (i + 1) (adxStep2 h l c lb) (loop 1 (lb + 1) (adxStep1 h l c) ⟨0, 0, 0, 0⟩))
      (loop (lb + 1) (i + 1) (adxStep2 (fun i => k * h i) (fun i => k * l i) (fun i => k * c i) lb)
        (loop 1 (lb + 1) (adxStep1 (fun i => k * h i) (fun i => k * l i) (fun i => k * c i)) ⟨0, 0, 0, 0⟩)) := by
  have h0 := loop1_near hk hδ (c := c) hr (i := lb) hlb (by omega)
  have := loop_rel (R := fun j s s' => Near k δ (tiny 10 * |1 - 1 / k| / δ) ((j : K) - lb) s s')
    (a := lb + 1) (b := i + 1) (f := adxStep2 h l c lb)
    (f' := adxStep2 (fun i => k * h i) (fun i => k * l i) (fun i => k * c i) lb)
    (by omega) (by
      rw [show (((lb + 1 : Nat) : K) - lb) = 1 by push_cast; ring]
      exact h0)
    (fun s s' j _ hj hR => by
      rw [show (((j + 1 : Nat) : K) - lb) = (j : K) - lb + 1 by push_cast; ring]
      exact step2_near hk hδ hlb (hr j (by omega)) hR)
  rwa [show (((i + 1 : Nat) : K) - lb) = (i : K) - lb + 1 by push_cast; ring] at this

theorem adxAt_near {n lb : Nat} (hlb : 0 < lb) (hn : 2 * lb ≤ n) (hr : ∀ j < n, δ ≤ h j - l j) {i : Nat} (hi : i < n) :
    |adxAt (fun i => k * h i) (fun i => k * l i) (fun i => k * c i) lb i - adxAt h l c lb i| ≤
      100 * (tiny 10 * |1 - 1 / k| / δ) := by
  have hB : 0 ≤ tiny 10 * |1 - 1 / k| / δ := div_nonneg (mul_nonneg (tiny_pos 10).le (abs_nonneg _)) hδ.le
  have hlb1 : (1 : K) ≤ lb := by exact_mod_cast hlb
  have out : ∀ x y : K, |y - x| ≤ tiny 10 * |1 - 1 / k| / δ → |100 * y - 100 * x| ≤ 100 * (tiny 10 * |1 - 1 / k| / δ) := by
    intro x y hxy
    rw [← mul_sub, abs_mul, abs_of_pos (by norm_num : (0 : K) < 100)]
    exact mul_le_mul_of_nonneg_left hxy (by norm_num)
  unfold adxAt
  by_cases h0 : i = 0
  · simp only [if_pos h0, sub_self, abs_zero]
    exact mul_nonneg (by norm_num) hB
  simp only [if_neg h0]
  by_cases h1 : i ≤ lb
  · simp only [if_pos h1]
    have := (loop1_near hk hδ (c := c) hr (i := i) (by omega) hi).2.2.2
    rw [mul_one] at this
    exact out _ _ this
  simp only [if_neg h1]
  by_cases h2 : i < 2 * lb
  · simp only [if_pos h2]
    have := (loop2_near hk hδ (c := c) hlb hr (i := i) (by omega) hi).2.2.2
    have hw : (0 : K) < (i : K) - lb + 1 := by
      have : ((lb : Nat) : K) < i := by exact_mod_cast (by omega : lb < i)
      linarith
    rw [mul_div_assoc, mul_div_assoc]
    refine out _ _ ?_
    rw [← sub_div, abs_div, abs_of_pos hw, div_le_iff₀ hw]
    exact this
  · simp only [if_neg h2]
    have hs := loop2_near hk hδ (c := c) hlb hr (i := 2 * lb - 1) (by omega) (by omega)
    rw [show 2 * lb - 1 + 1 = 2 * lb by omega, show (((2 * lb - 1 : Nat) : K) - lb + 1) = lb by
      rw [Nat.cast_sub (by omega)]; push_cast; ring] at hs
    obtain ⟨n1, n2, n3, n4⟩ := hs
    have := loop_rel (R := fun _ s s' => Near k δ (tiny 10 * |1 - 1 / k| / δ) 1 s s')
      (a := 2 * lb) (b := i + 1) (f := adxStep3 h l c lb)
      (f' := adxStep3 (fun i => k * h i) (fun i => k * l i) (fun i => k * c i) lb)
      (s := { loop (lb + 1) (2 * lb) (adxStep2 h l c lb) (loop 1 (lb + 1) (adxStep1 h l c) ⟨0, 0, 0, 0⟩) with
        adx := (loop (lb + 1) (2 * lb) (adxStep2 h l c lb) (loop 1 (lb + 1) (adxStep1 h l c) ⟨0, 0, 0, 0⟩)).adx / lb })
      (s' := { loop (lb + 1) (2 * lb) (adxStep2 (fun i => k * h i) (fun i => k * l i) (fun i => k * c i) lb)
          (loop 1 (lb + 1) (adxStep1 (fun i => k * h i) (fun i => k * l i) (fun i => k * c i)) ⟨0, 0, 0, 0⟩) with
        adx := (loop (lb + 1) (2 * lb) (adxStep2 (fun i => k * h i) (fun i => k * l i) (fun i => k * c i) lb)
          (loop 1 (lb + 1) (adxStep1 (fun i => k * h i) (fun i => k * l i) (fun i => k * c i)) ⟨0, 0, 0, 0⟩)).adx / lb })
      (by omega)
      (by
        refine ⟨n1, n2, n3, ?_⟩
        simp only
        rw [← sub_div, abs_div, abs_of_pos (by linarith : (0 : K) < lb), div_le_iff₀ (by linarith), mul_one]
        exact n4)
      (fun s s' j _ hj hR => step3_near hk hδ hlb (hr j (by omega)) hR)
    have h4 := this.2.2.2
    rw [mul_one] at h4
    exact out _ _ h4

end

/-! ## Stochastic -/

theorem some_units (k : K) (a : List K) : (inUnits k a).map some = cellsInUnits k (a.map some) := by
  unfold inUnits cellsInUnits
  rw [List.map_map, List.map_map]
  rfl

theorem lowAt_units (hk : 0 < k) (a : List K) (n i : Nat) : lowAt (inUnits k a) n i = k * lowAt a n i := by
  unfold lowAt
  rw [some_units, lowv_units hk]
  rcases lowv (a.map some) n with _ | o
  · simp
  · simp only [Option.map_some, Option.bind_some, cellsInUnits, List.getElem?_map]
    rcases o[i]? with _ | _ | x <;> simp

theorem highAt_units (hk : 0 < k) (a : List K) (n i : Nat) : highAt (inUnits k a) n i = k * highAt a n i := by
  unfold highAt
  rw [some_units, highv_units hk]
  rcases highv (a.map some) n with _ | o
  · simp
  · simp only [Option.map_some, Option.bind_some, cellsInUnits, List.getElem?_map]
    rcases o[i]? with _ | _ | x <;> simp

section
variable (hk : 0 < k) {δ : K} (hδ : 0 < δ) {high low close : List K} (hw : WellFormed high low close)
  (eh : high.length = close.length) (el : low.length = close.length)
  (hr : ∀ i < close.length, δ ≤ rd high i - rd low i)
include hk hδ hw eh el hr

theorem sto0_near {lb i : Nat} (h0 : 0 < lb) (hlb : lb ≤ i + 1) (hi : i < close.length) :
    |sto0 (inUnits k high) (inUnits k low) (inUnits k close) lb i - sto0 high low close lb i| ≤
      tiny 60 * |1 - 1 / k| / δ := by
  have h1 := (lowAt_spec (a := low) h0 hlb (by omega)).2 i (le_refl i) (by omega)
  have h2 := (highAt_spec (a := high) h0 hlb (by omega)).2 i (le_refl i) (by omega)
  obtain ⟨w1, w2⟩ := hw i hi
  have h3 := hr i hi
  have ht := tiny_pos (K := K) 60
  unfold sto0
  rw [lowAt_units hk, highAt_units hk, rd_units]
  generalize (tiny 60 : K) = e at ht ⊢
  simp only [← mul_sub]
  generalize lowAt low lb i = L at h1 ⊢
  generalize highAt high lb i = H at h2 ⊢
  have hek : 0 < e / k := div_pos ht hk
  rw [show k * (H - L) + e = k * (H - L + e / k) by field_simp, mul_div_mul_left _ _ hk.ne']
  refine (frac_close (N := rd close i - L) (X := H - L + e) (Y := H - L + e / k) (Y0 := δ) (by linarith) (by linarith)
    (by linarith) hδ (by linarith)).trans (le_of_eq ?_)
  rw [show H - L + e - (H - L + e / k) = e * (1 - 1 / k) by field_simp; ring, abs_mul, abs_of_pos ht]

/-- Averages of numbers that are near are near. -/
theorem average_near {B a b x y : K} (h1 : |y - x| ≤ B) (h2 : |b - a| ≤ B) :
    |33333333 / 100000000 * y + 66666667 / 100000000 * b - (33333333 / 100000000 * x + 66666667 / 100000000 * a)| ≤ B := by
  rw [abs_le] at h1 h2 ⊢
  constructor <;> linarith [h1.1, h1.2, h2.1, h2.2]

theorem sto1_near {lb i : Nat} (h0 : 0 < lb) (hlb : lb ≤ i) (hi : i < close.length) :
    |sto1 (inUnits k high) (inUnits k low) (inUnits k close) lb i - sto1 high low close lb i| ≤
      tiny 60 * |1 - 1 / k| / δ := by
  unfold sto1
  exact loop_rel (R := fun _ s s' => |s' - s| ≤ tiny 60 * |1 - 1 / k| / δ) (by omega)
    (sto0_near hk hδ hw eh el hr h0 (by omega) (by omega))
    (fun s s' j hj1 hj2 hs => average_near hk hδ hw eh el hr
      (sto0_near hk hδ hw eh el hr h0 (by omega) (by omega)) hs)

theorem sto2_near {lb i : Nat} (h0 : 0 < lb) (hlb : lb < i) (hi : i < close.length) :
    |sto2 (inUnits k high) (inUnits k low) (inUnits k close) lb i - sto2 high low close lb i| ≤
      tiny 60 * |1 - 1 / k| / δ := by
  unfold sto2
  exact loop_rel (R := fun _ s s' => |s' - s| ≤ tiny 60 * |1 - 1 / k| / δ) (by omega)
    (sto1_near hk hδ hw eh el hr h0 le_rfl (by omega))
    (fun s s' j hj1 hj2 hs => average_near hk hδ hw eh el hr
      (sto1_near hk hδ hw eh el hr h0 (by omega) (by omega)) hs)

end

/-! ## The property -/

/-- C170.  `adx` in another unit of money differs by at most `1e-8 * |1 - 1/k|` over the least range of a
bar, and is refused for the same arguments. -/
theorem adx_unit_close (hk : 0 < k) {δ : K} (hδ : 0 < δ) {high low close : List K} {n : Nat}
    (hr : ∀ i < close.length, δ ≤ rd high i - rd low i) :
    (adx (inUnits k high) (inUnits k low) (inUnits k close) n = none ↔ adx high low close n = none) ∧
    ∀ o o', adx high low close n = some o → adx (inUnits k high) (inUnits k low) (inUnits k close) n = some o' →
      o'.length = o.length ∧ ∀ i, |rd o' i - rd o i| ≤ 100 * (1 / 10 ^ 10 * |1 - 1 / k| / δ) := by
  have hB : 0 ≤ 100 * (1 / 10 ^ 10 * |1 - 1 / k| / δ) :=
    mul_nonneg (by norm_num) (div_nonneg (mul_nonneg (by positivity) (abs_nonneg _)) hδ.le)
  unfold adx
  simp only [length_units, rd_units]
  refine ⟨by split_ifs <;> simp, fun o o' h h' => ?_⟩
  obtain ⟨⟨_, _, hlb⟩, rfl⟩ := ite_some h
  obtain ⟨_, rfl⟩ := ite_some h'
  refine ⟨by simp [series], fun i => ?_⟩
  by_cases hi : i < close.length
  · unfold rd
    rw [List.getD_eq_getElem?_getD, List.getD_eq_getElem?_getD, series_get _ hi, series_get _ hi]
    simp only [Option.getD_some]
    by_cases hl : close.length < 2 * n
    · simp only [if_pos hl, sub_self, abs_zero]; exact hB
    · simp only [if_neg hl]
      exact adxAt_near hk hδ hlb (by omega) hr hi
  · unfold rd
    rw [List.getD_eq_getElem?_getD, List.getD_eq_getElem?_getD, List.getElem?_eq_none (by simp [series]; omega),
      List.getElem?_eq_none (by simp [series]; omega)]
    simpa using hB

/-- C170.  `stochastic` in another unit of money differs by at most `1e-58 * |1 - 1/k|` over the least range
of a bar, with any smoothing, and is refused for the same arguments. -/
theorem stochastic_unit_close (hk : 0 < k) {δ : K} (hδ : 0 < δ) {high low close : List K} {n sm : Nat}
    (hw : WellFormed high low close) (hr : ∀ i < close.length, δ ≤ rd high i - rd low i) :
    (stochastic (inUnits k high) (inUnits k low) (inUnits k close) n sm = none ↔ stochastic high low close n sm = none) ∧
    ∀ o o', stochastic high low close n sm = some o →
      stochastic (inUnits k high) (inUnits k low) (inUnits k close) n sm = some o' →
      o'.length = o.length ∧ ∀ i, |rd o' i - rd o i| ≤ 100 * (1 / 10 ^ 60 * |1 - 1 / k| / δ) := by
  have hB : 0 ≤ 100 * (1 / 10 ^ 60 * |1 - 1 / k| / δ) :=
    mul_nonneg (by norm_num) (div_nonneg (mul_nonneg (by positivity) (abs_nonneg _)) hδ.le)
  have out : ∀ x y : K, |y - x| ≤ tiny 60 * |1 - 1 / k| / δ →
      |100 * y - 50 - (100 * x - 50)| ≤ 100 * (1 / 10 ^ 60 * |1 - 1 / k| / δ) := by
    intro x y hxy
    rw [show 100 * y - 50 - (100 * x - 50) = 100 * (y - x) by ring, abs_mul, abs_of_pos (by norm_num : (0 : K) < 100)]
    exact mul_le_mul_of_nonneg_left hxy (by norm_num)
  unfold stochastic
  simp only [length_units]
  refine ⟨by split_ifs <;> simp, fun o o' h h' => ?_⟩
  obtain ⟨⟨e1, e2, hn, _⟩, rfl⟩ := ite_some h
  obtain ⟨_, rfl⟩ := ite_some h'
  refine ⟨by simp [series], fun i => ?_⟩
  by_cases hi : i < close.length
  · unfold rd
    rw [List.getD_eq_getElem?_getD, List.getD_eq_getElem?_getD, series_get _ hi, series_get _ hi]
    simp only [Option.getD_some]
    by_cases c1 : n > close.length
    · simp only [if_pos c1, sub_self, abs_zero]; exact hB
    by_cases c2 : i < n - 1
    · simp only [if_neg c1, if_pos c2, sub_self, abs_zero]; exact hB
    have s0 := sto0_near hk hδ hw e2 (by omega) hr hn (i := i) (by omega) hi
    by_cases c3 : sm = 0
    · simp only [if_neg c1, if_neg c2, if_pos c3]; exact out _ _ s0
    by_cases c4 : i = n - 1
    · simp only [if_neg c1, if_neg c2, if_neg c3, if_pos c4]; exact out _ _ s0
    have s1 := sto1_near hk hδ hw e2 (by omega) hr hn (i := i) (by omega) hi
    by_cases c5 : sm = 1
    · simp only [if_neg c1, if_neg c2, if_neg c3, if_neg c4, if_pos c5]; exact out _ _ s1
    by_cases c6 : i = n
    · simp only [if_neg c1, if_neg c2, if_neg c3, if_neg c4, if_neg c5, if_pos c6]; exact out _ _ s1
    simp only [if_neg c1, if_neg c2, if_neg c3, if_neg c4, if_neg c5, if_neg c6]
    exact out _ _ (sto2_near hk hδ hw e2 (by omega) hr hn (by omega) hi)
  · unfold rd
    rw [List.getD_eq_getElem?_getD, List.getD_eq_getElem?_getD, List.getElem?_eq_none (by simp [series]; omega),
      List.getElem?_eq_none (by simp [series]; omega)]
    simpa using hB

/-- Bars of a range of at least 1, in cents: the stochastic is the same up to `1e-58`. -/
example (i : Nat) (o o' : List ℚ) (h : stochastic [(2 : ℚ), 4, 5] [1, 2, 3] [2, 3, 4] 2 1 = some o)
    (h' : stochastic (inUnits 100 [(2 : ℚ), 4, 5]) (inUnits 100 [1, 2, 3]) (inUnits 100 [2, 3, 4]) 2 1 = some o') :
    |rd o' i - rd o i| ≤ 1 / 10 ^ 58 := by
  have := ((stochastic_unit_close (k := (100 : ℚ)) (by norm_num) (δ := 1) (by norm_num) (high := [2, 4, 5])
    (low := [1, 2, 3]) (close := [2, 3, 4]) (n := 2) (sm := 1) (by unfold WellFormed; decide +kernel)
    (by decide +kernel)).2 o o' h h').2 i
  refine this.trans ?_
  norm_num [abs_of_pos]

/-- The same bars for `adx`, which is not 0 on them. -/
example (i : Nat) (o o' : List ℚ) (h : adx [(2 : ℚ), 4, 5] [1, 2, 3] [2, 3, 4] 1 = some o)
    (h' : adx (inUnits 100 [(2 : ℚ), 4, 5]) (inUnits 100 [1, 2, 3]) (inUnits 100 [2, 3, 4]) 1 = some o') :
    |rd o' i - rd o i| ≤ 1 / 10 ^ 8 := by
  have := ((adx_unit_close (k := (100 : ℚ)) (by norm_num) (δ := 1) (by norm_num) (high := [2, 4, 5])
    (low := [1, 2, 3]) (close := [2, 3, 4]) (n := 1) (by decide +kernel)).2 o o' h h').2 i
  refine this.trans ?_
  norm_num [abs_of_pos]

example : (adx [(2 : ℚ), 4, 5] [1, 2, 3] [2, 3, 4] 1).isSome ∧
    (stochastic [(2 : ℚ), 4, 5] [1, 2, 3] [2, 3, 4] 2 1).isSome := by decide +kernel

end PyBroker
