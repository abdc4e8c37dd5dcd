import Verif.Props.IndicatorStats

/-!
# Averaged indicators in closed form (C158)

`adx`, `stochastic`, `stochastic_rsi`, `macd`, `price_intensity`, `money_flow` and `intraday_intensity` of
`/repo/src/pybroker/vect.py`: the code updates running averages bar by bar; here they are sums with
weights that fade with age.
-/

namespace PyBroker

open Finset

/-! ## Specification -/

section
variable {K : Type} [Field K] [LinearOrder K]

/-- The sum of the values of the bars from `a` to `i`, where each bar after `b` multiplies the sum by
`r`. -/
def Spec.fading (r : K) (x : Nat → K) (a b i : Nat) : K := ∑ j ∈ Icc a i, r ^ (i - max j b) * x j

/-- The exponential average from bar `s`: the value of a bar has the weight `α` on its own bar and
`1 - α` times the last weight on each bar after it; the first bar starts with the weight 1. -/
def Spec.ema (α : K) (x : Nat → K) (s i : Nat) : K :=
  (1 - α) ^ (i - s) * x s + ∑ j ∈ Ioc s i, α * (1 - α) ^ (i - j) * x j

/-- The true range of bar `i`. -/
def Spec.rangeOf (high low close : List K) (i : Nat) : K :=
  max (max (high.getD i 0 - low.getD i 0) (high.getD i 0 - close.getD (i - 1) 0))
    (close.getD (i - 1) 0 - low.getD i 0)

/-- The directional move of bar `i`: of the rise of the high and the fall of the low the larger, if
positive, signed. -/
def Spec.moveUp (high low : List K) (i : Nat) : K :=
  let up := high.getD i 0 - high.getD (i - 1) 0
  let down := low.getD (i - 1) 0 - low.getD i 0
  if 0 < up ∧ down < up then up else 0

/-- The same, down. -/
def Spec.moveDown (high low : List K) (i : Nat) : K :=
  let up := high.getD i 0 - high.getD (i - 1) 0
  let down := low.getD (i - 1) 0 - low.getD i 0
  if 0 < down ∧ up < down then down else 0

/-- Wilder's directional index of bar `i`. -/
def Spec.directional (high low close : List K) (n i : Nat) : K :=
  let sum := fun x => Spec.fading (1 - 1 / (n : K)) x 1 n i
  let range := sum (Spec.rangeOf high low close) + 1 / 10 ^ 10
  let p := sum (Spec.moveUp high low) / range
  let m := sum (Spec.moveDown high low) / range
  |p - m| / (p + m + 1 / 10 ^ 10)

/-- The smallest of the values of the last `n` bars up to `i`. -/
def Spec.IsLow (x : Nat → K) (n i : Nat) (m : K) : Prop :=
  (∃ j, j ≤ i ∧ i < j + n ∧ x j = m) ∧ ∀ j, j ≤ i → i < j + n → m ≤ x j

/-- The largest of the values of the last `n` bars up to `i`. -/
def Spec.IsHigh (x : Nat → K) (n i : Nat) (m : K) : Prop :=
  (∃ j, j ≤ i ∧ i < j + n ∧ x j = m) ∧ ∀ j, j ≤ i → i < j + n → x j ≤ m

end

open PyBroker.Spec

variable {K : Type} [Field K] [LinearOrder K] [IsStrictOrderedRing K]

/-! ## Fading sums -/

theorem fading_one (r : K) (x : Nat → K) {a b : Nat} (h : a ≤ b) : fading r x a b a = x a := by
  unfold fading
  rw [Icc_self, sum_singleton, show a - max a b = 0 by omega]
  simp

theorem fading_none (r : K) (x : Nat → K) {a b i : Nat} (h : i < a) : fading r x a b i = 0 := by
  unfold fading
  rw [Icc_eq_empty (by omega), sum_empty]

theorem fading_step (r : K) (x : Nat → K) {a b i : Nat} (h : a ≤ i + 1) :
    fading r x a b (i + 1) = (if b ≤ i then r else 1) * fading r x a b i + x (i + 1) := by
  unfold fading
  have e : Icc a (i + 1) = insert (i + 1) (Icc a i) := by
    ext j
    simp only [mem_Icc, mem_insert]
    omega
  rw [e, sum_insert (by simp), mul_sum, add_comm]
  congr 1
  · refine sum_congr rfl (fun j hj => ?_)
    have hj := (mem_Icc.1 hj).2
    by_cases hb : b ≤ i
    · rw [if_pos hb, show i + 1 - max j b = (i - max j b) + 1 by omega, pow_succ]
      ring
    · rw [if_neg hb, show i + 1 - max j b = 0 by omega, show i - max j b = 0 by omega]
      ring
  · rw [show i + 1 - max (i + 1) b = 0 by omega]
    simp

theorem ema_step (α : K) (x : Nat → K) {s i : Nat} (h : s ≤ i) :
    ema α x s (i + 1) = α * x (i + 1) + (1 - α) * ema α x s i := by
  unfold ema
  have e : Ioc s (i + 1) = insert (i + 1) (Ioc s i) := by
    ext j
    simp only [mem_Ioc, mem_insert]
    omega
  rw [e, sum_insert (by simp), mul_add, mul_sum]
  rw [show i + 1 - s = (i - s) + 1 by omega, pow_succ, Nat.sub_self, pow_zero]
  have : ∀ j ∈ Ioc s i, α * (1 - α) ^ (i + 1 - j) * x j = (1 - α) * (α * (1 - α) ^ (i - j) * x j) := by
    intro j hj
    have := (mem_Ioc.1 hj).2
    rw [show i + 1 - j = (i - j) + 1 by omega, pow_succ]
    ring
  rw [sum_congr rfl this]
  ring

theorem ema_start (α : K) (x : Nat → K) (s : Nat) : ema α x s s = x s := by
  unfold ema
  simp

theorem loop_ema (α : K) (x : Nat → K) {s i : Nat} (h : s ≤ i) :
    loop (s + 1) (i + 1) (fun a j => α * x j + (1 - α) * a) (x s) = ema α x s i := by
  induction i, h using Nat.le_induction with
  | base =>
    rw [ema_start]
    simp [loop]
  | succ i hi ih => rw [loop_append (by omega), ih, ema_step α x hi]

theorem emaFrom_ema (α : K) (x : Nat → K) {s i : Nat} (h : s ≤ i) : emaFrom x α s i = ema α x s i :=
  loop_ema α x h

theorem loop_append_add {S : Type} {a b c : Nat} (h : a ≤ b) (h' : b ≤ c) (f : S → Nat → S) (s : S) :
    loop a c f s = loop b c f (loop a b f s) := by
  unfold loop
  rw [← List.foldl_append]
  have e : List.range' a (c - a) = List.range' a (b - a) ++ List.range' b (c - b) := by
    have := List.range'_append (s := a) (m := b - a) (n := c - b) (step := 1)
    rw [show a + 1 * (b - a) = b by omega, show b - a + (c - b) = c - a by omega] at this
    exact this.symm
  rw [e]

theorem trueRange_max (high low close : List K) (i : Nat) :
    trueRange (rd high) (rd low) (rd close) i = rangeOf high low close i := by
  have hm : ∀ x y : K, (if x > y then x else y) = max y x := by
    intro x y
    split
    · rename_i hh; exact (max_eq_right hh.le).symm
    · rename_i hh; exact (max_eq_left (not_lt.1 hh)).symm
  simp only [trueRange, hm]
  rfl

/-! ## ADX -/

section
variable (high low close : List K) (n : Nat)

/-- The sums of the state after bar `i`. -/
def AdxSums (s : AdxSt K) (i : Nat) : Prop :=
  s.dmsPlus = fading (1 - 1 / (n : K)) (moveUp high low) 1 n i ∧
    s.dmsMinus = fading (1 - 1 / (n : K)) (moveDown high low) 1 n i ∧
    s.atr = fading (1 - 1 / (n : K)) (rangeOf high low close) 1 n i

variable {high low close n}

theorem AdxSums.index {s : AdxSt K} {i : Nat} (h : AdxSums high low close n s i) :
    dirIndex s = directional high low close n i := by
  unfold dirIndex directional
  rw [h.1, h.2.1, h.2.2]
  rfl

theorem dmPlus_move (i : Nat) : dmPlus (rd high) (rd low) i = moveUp high low i := by
  unfold dmPlus moveUp rd
  simp only [gt_iff_lt, and_comm]

theorem dmMinus_move (i : Nat) : dmMinus (rd high) (rd low) i = moveDown high low i := by
  unfold dmMinus moveDown rd
  simp only [gt_iff_lt, and_comm]

theorem adx_loop1 {i : Nat} (hi : i ≤ n) :
    AdxSums high low close n (loop 1 (i + 1) (adxStep1 (rd high) (rd low) (rd close)) ⟨0, 0, 0, 0⟩) i ∧
      (1 ≤ i → (loop 1 (i + 1) (adxStep1 (rd high) (rd low) (rd close)) ⟨0, 0, 0, 0⟩).adx =
        directional high low close n i) := by
  induction i with
  | zero =>
    refine ⟨?_, fun h => by omega⟩
    simp only [AdxSums, fading_none _ _ (Nat.zero_lt_one)]
    simp [loop]
  | succ i ih =>
    have ih := (ih (by omega)).1
    rw [loop_append (by omega)]
    generalize loop 1 (i + 1) (adxStep1 (rd high) (rd low) (rd close)) ⟨0, 0, 0, 0⟩ = s at ih
    have hk : AdxSums high low close n (adxStep1 (rd high) (rd low) (rd close) s (i + 1)) (i + 1) := by
      unfold AdxSums
      simp only [fading_step _ _ (show 1 ≤ i + 1 by omega), if_neg (show ¬ n ≤ i by omega), one_mul]
      simp only [adxStep1, ih.1, ih.2.1, ih.2.2, dmPlus_move, dmMinus_move, trueRange_max, and_self]
    exact ⟨hk, fun _ => hk.index⟩

theorem adxDecay_sums {s : AdxSt K} {i : Nat} (hn0 : 0 < n) (hi : n ≤ i) (h : AdxSums high low close n s i) :
    AdxSums high low close n (adxDecay (rd high) (rd low) (rd close) n s (i + 1)) (i + 1) := by
  have hn : (n : K) ≠ 0 := by exact_mod_cast hn0.ne'
  have hr : ((n : K) - 1) / n = 1 - 1 / n := by field_simp
  unfold AdxSums
  simp only [fading_step _ _ (show 1 ≤ i + 1 by omega), if_pos hi]
  simp only [adxDecay, h.1, h.2.1, h.2.2, dmPlus_move, dmMinus_move, trueRange_max, hr, and_self]

theorem adx_loop2 (hn0 : 0 < n) {i : Nat} (hi : n ≤ i) (hi2 : i < 2 * n) :
    let s := loop (n + 1) (i + 1) (adxStep2 (rd high) (rd low) (rd close) n)
      (loop 1 (n + 1) (adxStep1 (rd high) (rd low) (rd close)) ⟨0, 0, 0, 0⟩)
    AdxSums high low close n s i ∧
      s.adx = fading (1 - 1 / (n : K)) (directional high low close n) n (2 * n - 1) i := by
  induction i, hi using Nat.le_induction with
  | base =>
    have h := adx_loop1 (high := high) (low := low) (close := close) (le_refl n)
    simp only
    rw [fading_one _ _ (by omega)]
    have e : ∀ s, loop (n + 1) (n + 1) (adxStep2 (rd high) (rd low) (rd close) n) s = s := by
      intro s; simp [loop]
    rw [e]
    exact ⟨h.1, h.2 hn0⟩
  | succ i hi ih =>
    have ih := ih (by omega)
    simp only at ih ⊢
    rw [loop_append (by omega)]
    generalize loop (n + 1) (i + 1) (adxStep2 (rd high) (rd low) (rd close) n)
      (loop 1 (n + 1) (adxStep1 (rd high) (rd low) (rd close)) ⟨0, 0, 0, 0⟩) = s at ih
    have hd := adxDecay_sums hn0 hi ih.1
    refine ⟨hd, ?_⟩
    rw [fading_step _ _ (by omega), if_neg (by omega), one_mul, ← hd.index]
    simp only [adxStep2, ih.2]

theorem adx_loop3 (hn0 : 0 < n) {i : Nat} (hi : 2 * n ≤ i + 1) :
    let s2 := loop (n + 1) (2 * n) (adxStep2 (rd high) (rd low) (rd close) n)
      (loop 1 (n + 1) (adxStep1 (rd high) (rd low) (rd close)) ⟨0, 0, 0, 0⟩)
    let s := loop (2 * n) (i + 1) (adxStep3 (rd high) (rd low) (rd close) n) { s2 with adx := s2.adx / n }
    AdxSums high low close n s i ∧
      s.adx = fading (1 - 1 / (n : K)) (directional high low close n) n (2 * n - 1) i / n := by
  have hn : (n : K) ≠ 0 := by exact_mod_cast hn0.ne'
  obtain ⟨m, rfl⟩ : ∃ m, i = 2 * n - 1 + m := ⟨i - (2 * n - 1), by omega⟩
  clear hi
  induction m with
  | zero =>
    have h := adx_loop2 (high := high) (low := low) (close := close) hn0 (i := 2 * n - 1) (by omega) (by omega)
    simp only at h ⊢
    rw [show 2 * n - 1 + 1 = 2 * n by omega] at h
    rw [show 2 * n - 1 + 0 + 1 = 2 * n by omega, Nat.add_zero]
    have e : ∀ s, loop (2 * n) (2 * n) (adxStep3 (rd high) (rd low) (rd close) n) s = s := by
      intro s; simp [loop]
    rw [e]
    refine ⟨h.1, ?_⟩
    simp only [Nat.add_zero]
    rw [h.2]
  | succ m ih =>
    simp only at ih ⊢
    rw [show 2 * n - 1 + (m + 1) = 2 * n - 1 + m + 1 by omega]
    rw [loop_append (by omega)]
    generalize loop (2 * n) (2 * n - 1 + m + 1) (adxStep3 (rd high) (rd low) (rd close) n) _ = s at ih
    have hd := adxDecay_sums hn0 (i := 2 * n - 1 + m) (by omega) ih.1
    refine ⟨hd, ?_⟩
    rw [fading_step _ _ (by omega), if_pos (by omega), ← hd.index]
    simp only [adxStep3, ih.2]
    field_simp

end

/-- **C158: `adx`** is Wilder's average of the directional index: the index itself on the first `n` bars,
its mean since bar `n` on the next ones, and then the average in which a new bar replaces one `n`th. -/
theorem adx_average {high low close out : List K} {n : Nat} (h : adx high low close n = some out) {i : Nat}
    (hi : i < close.length) (hl : 2 * n ≤ close.length) (h0 : 0 < i) :
    out[i]? = some (100 * (
      if i ≤ n then directional high low close n i
      else if i < 2 * n then (∑ j ∈ Icc n i, directional high low close n j) / ((i : K) - n + 1)
      else fading (1 - 1 / (n : K)) (directional high low close n) n (2 * n - 1) i / n)) := by
  unfold adx at h
  split at h
  · rename_i hc
    cases h
    rw [series_get _ hi, if_neg (by omega)]
    unfold adxAt
    rw [if_neg (by omega)]
    by_cases h1 : i ≤ n
    · rw [if_pos h1, if_pos h1, (adx_loop1 h1).2 h0]
    · rw [if_neg h1, if_neg h1]
      by_cases h2 : i < 2 * n
      · have := adx_loop2 (high := high) (low := low) (close := close) hc.2.2 (i := i) (by omega) h2
        simp only at this ⊢
        rw [if_pos h2, if_pos h2, this.2, mul_div_assoc]
        unfold fading
        rw [sum_congr rfl (fun j hj => by
          rw [show i - max j (2 * n - 1) = 0 by omega, pow_zero, one_mul])]
      · have := adx_loop3 (high := high) (low := low) (close := close) hc.2.2 (i := i) (by omega)
        simp only at this ⊢
        rw [if_neg h2, if_neg h2, this.2]
  · cases h

/-! ## Stochastic -/

theorem lowAt_low {a : List K} {n i : Nat} {m : K} (hn : 0 < n) (h : n ≤ i + 1) (hi : i < a.length)
    (hm : IsLow (fun k => a.getD k 0) n i m) : lowAt a n i = m := by
  obtain ⟨⟨j, h1, h2, h3⟩, h4⟩ := lowAt_spec hn h hi
  obtain ⟨⟨k, g1, g2, g3⟩, g4⟩ := hm
  refine le_antisymm ?_ ?_
  · rw [← g3]
    exact h4 k g1 g2
  · rw [← h3]
    exact g4 j h1 h2

theorem highAt_high {a : List K} {n i : Nat} {m : K} (hn : 0 < n) (h : n ≤ i + 1) (hi : i < a.length)
    (hm : IsHigh (fun k => a.getD k 0) n i m) : highAt a n i = m := by
  obtain ⟨⟨j, h1, h2, h3⟩, h4⟩ := highAt_spec hn h hi
  obtain ⟨⟨k, g1, g2, g3⟩, g4⟩ := hm
  refine le_antisymm ?_ ?_
  · rw [← h3]
    exact g4 j h1 h2
  · rw [← g3]
    exact h4 k g1 g2

/-- **C158: `stochastic`** is where the close is between the lowest low and the highest high of the
window, smoothed as often as asked. -/
theorem stochastic_position {high low close out : List K} {n times : Nat}
    (h : stochastic high low close n times = some out) {raw : Nat → K}
    (hraw : ∀ i, n ≤ i + 1 → i < close.length → ∃ lo hi, IsLow (fun k => low.getD k 0) n i lo ∧
      IsHigh (fun k => high.getD k 0) n i hi ∧ raw i = (close.getD i 0 - lo) / (hi - lo + 1 / 10 ^ 60))
    {i : Nat} (hi : i < close.length) (hw : n ≤ i + 1) :
    out[i]? = some (100 * (
      let once := ema 0.33333333 raw (n - 1)
      if times = 0 then raw i
      else if times = 1 ∨ i = n - 1 then once i
      else ema 0.33333333 once n i) - 50) := by
  unfold stochastic at h
  split at h
  · rename_i hc
    obtain ⟨e1, e2, hn, ht⟩ := hc
    cases h
    rw [series_get _ hi, if_neg (by omega), if_neg (by omega)]
    have h0 : ∀ j, n ≤ j + 1 → j < close.length → sto0 high low close n j = raw j := by
      intro j hj hjl
      obtain ⟨lo, hi, h1, h2, h3⟩ := hraw j hj hjl
      unfold sto0
      rw [lowAt_low hn hj (by omega) h1, highAt_high hn hj (by omega) h2, h3]
      rfl
    have hα : ∀ a b : K, 33333333 / 100000000 * a + 66666667 / 100000000 * b =
        0.33333333 * a + (1 - 0.33333333) * b := by
      intro a b
      norm_num
    have hcongr : ∀ (f g : K → Nat → K) (a b : Nat) (s : K), (∀ s, ∀ j, a ≤ j → j < b → f s j = g s j) →
        loop a b f s = loop a b g s := by
      intro f g a b s hfg
      unfold loop
      refine List.foldl_ext _ _ _ (fun s j hj => ?_)
      have := List.mem_range'_1.1 hj
      exact hfg s j this.1 (by omega)
    have h1 : ∀ j, n ≤ j + 1 → j < close.length → sto1 high low close n j = ema 0.33333333 raw (n - 1) j := by
      intro j hj hjl
      rw [← loop_ema _ _ (by omega)]
      unfold sto1
      rw [show n - 1 + 1 = n by omega, h0 (n - 1) (by omega) (by omega)]
      exact hcongr _ _ _ _ _ (fun s k hk1 hk2 => by rw [hα, h0 k (by omega) (by omega)])
    by_cases t0 : times = 0
    · rw [if_pos t0, h0 i hw hi]
      simp only [if_pos t0]
    · rw [if_neg t0]
      simp only [if_neg t0]
      by_cases hi1 : i = n - 1
      · rw [if_pos hi1, if_pos (Or.inr hi1), h0 i hw hi, hi1, ema_start]
      · rw [if_neg hi1]
        by_cases t1 : times = 1
        · rw [if_pos t1, if_pos (Or.inl t1), h1 i hw hi]
        · rw [if_neg t1, if_neg (show ¬ (times = 1 ∨ i = n - 1) from fun h => h.elim t1 hi1)]
          by_cases hin : i = n
          · rw [if_pos hin, h1 i hw hi, hin, ema_start]
          · rw [if_neg hin, ← loop_ema _ _ (by omega)]
            unfold sto2
            rw [h1 n (by omega) (by omega)]
            congr 3
            exact hcongr _ _ _ _ _ (fun s k hk1 hk2 => by rw [hα, h1 k (by omega) (by omega)])
  · cases h

/-! ## Stochastic RSI -/

theorem extremes (w : Nat → K) (lo hi : K) : ∀ (n i : Nat), 0 < n → n ≤ i + 1 →
    (∀ j, j ≤ i → i < j + n → w j ≤ lo ∧ hi ≤ w j) →
    let m := loop 0 n (fun (s : K × K) j =>
      (if w (i - j) < s.1 then w (i - j) else s.1, if w (i - j) > s.2 then w (i - j) else s.2)) (lo, hi)
    IsLow w n i m.1 ∧ IsHigh w n i m.2 := by
  intro n i hn
  induction n, hn using Nat.le_induction with
  | base =>
    intro h hb
    have h1 := hb i (le_refl _) (by omega)
    have e : (loop 0 1 (fun (s : K × K) j =>
        (if w (i - j) < s.1 then w (i - j) else s.1, if w (i - j) > s.2 then w (i - j) else s.2)) (lo, hi)) =
        (w i, w i) := by
      simp only [loop, List.range'_one, Nat.sub_zero, List.foldl_cons, List.foldl_nil]
      refine Prod.ext ?_ ?_
      · simp only
        split
        · rfl
        · rename_i h; exact le_antisymm (not_lt.1 h) h1.1
      · simp only
        split
        · rfl
        · rename_i h; exact le_antisymm h1.2 (not_lt.1 h)
    simp only [e]
    refine ⟨⟨⟨i, le_refl _, by omega, rfl⟩, fun j h1 h2 => ?_⟩, ⟨⟨i, le_refl _, by omega, rfl⟩, fun j h1 h2 => ?_⟩⟩
    · rw [show j = i by omega]
    · rw [show j = i by omega]
  | succ n hn ih =>
    intro h hb
    have ih := ih (by omega) (fun j h1 h2 => hb j h1 (by omega))
    simp only at ih ⊢
    rw [loop_append (by omega)]
    generalize loop 0 n (fun (s : K × K) j =>
      (if w (i - j) < s.1 then w (i - j) else s.1, if w (i - j) > s.2 then w (i - j) else s.2)) (lo, hi) = m at ih
    obtain ⟨⟨⟨a, a1, a2, a3⟩, a4⟩, ⟨⟨b, b1, b2, b3⟩, b4⟩⟩ := ih
    refine ⟨⟨?_, fun j h1 h2 => ?_⟩, ⟨?_, fun j h1 h2 => ?_⟩⟩
    · simp only
      split
      · exact ⟨i - n, by omega, by omega, rfl⟩
      · exact ⟨a, a1, by omega, a3⟩
    · simp only
      by_cases hj : i < j + n
      · split
        · rename_i hlt; exact hlt.le.trans (a4 j h1 hj)
        · exact a4 j h1 hj
      · rw [show j = i - n by omega]
        split
        · exact le_refl _
        · rename_i hlt; exact not_lt.1 hlt
    · simp only
      split
      · exact ⟨i - n, by omega, by omega, rfl⟩
      · exact ⟨b, b1, by omega, b3⟩
    · simp only
      by_cases hj : i < j + n
      · split
        · rename_i hlt; exact (b4 j h1 hj).trans hlt.le
        · exact b4 j h1 hj
      · rw [show j = i - n by omega]
        split
        · exact le_refl _
        · rename_i hlt; exact not_lt.1 hlt

theorem isLow_unique {x : Nat → K} {n i : Nat} {a b : K} (ha : IsLow x n i a) (hb : IsLow x n i b) : a = b := by
  obtain ⟨⟨j, h1, h2, h3⟩, h4⟩ := ha
  obtain ⟨⟨k, g1, g2, g3⟩, g4⟩ := hb
  exact le_antisymm (g3 ▸ h4 k g1 g2) (h3 ▸ g4 j h1 h2)

theorem isHigh_unique {x : Nat → K} {n i : Nat} {a b : K} (ha : IsHigh x n i a) (hb : IsHigh x n i b) : a = b := by
  obtain ⟨⟨j, h1, h2, h3⟩, h4⟩ := ha
  obtain ⟨⟨k, g1, g2, g3⟩, g4⟩ := hb
  exact le_antisymm (h3 ▸ g4 j h1 h2) (g3 ▸ h4 k g1 g2)

theorem isLow_congr {x y : Nat → K} {n i : Nat} {a : K} (h : ∀ j, j ≤ i → i < j + n → x j = y j)
    (hx : IsLow x n i a) : IsLow y n i a := by
  obtain ⟨⟨j, h1, h2, h3⟩, h4⟩ := hx
  exact ⟨⟨j, h1, h2, (h j h1 h2) ▸ h3⟩, fun j h1 h2 => (h j h1 h2) ▸ h4 j h1 h2⟩

theorem isHigh_congr {x y : Nat → K} {n i : Nat} {a : K} (h : ∀ j, j ≤ i → i < j + n → x j = y j)
    (hx : IsHigh x n i a) : IsHigh y n i a := by
  obtain ⟨⟨j, h1, h2, h3⟩, h4⟩ := hx
  exact ⟨⟨j, h1, h2, (h j h1 h2) ▸ h3⟩, fun j h1 h2 => (h j h1 h2) ▸ h4 j h1 h2⟩

/-- **C158: `stochastic_rsi`** is where the RSI is between its lowest and highest value in the window,
averaged exponentially when smoothed. -/
theorem stochastic_rsi_position {values out : List K} {n m : Nat} {smoothing : K}
    (h : stochasticRsi values n m smoothing = some out) (hn : 1 < n) {raw : Nat → K}
    (hraw : ∀ i, n + m ≤ i + 1 → ∃ lo hi, IsLow (rsi (fun k => values.getD k 0) n) m i lo ∧
      IsHigh (rsi (fun k => values.getD k 0) n) m i hi ∧
      raw i = 100 * (rsi (fun k => values.getD k 0) n i - lo) / (hi - lo + 1 / 10 ^ 60) - 50)
    {i : Nat} (hi : i < values.length) (hw : n + m ≤ i + 1) :
    out[i]? = some (if smoothing > 1 then ema (2 / (smoothing + 1)) raw (n + m - 1) i else raw i) := by
  unfold stochasticRsi at h
  split at h
  · rename_i hc
    obtain ⟨_, hm, _⟩ := hc
    cases h
    rw [series_get _ hi, if_neg (by omega), if_neg (by omega)]
    have hr : ∀ i, n + m ≤ i + 1 → stoRsiRaw (rd values) n m i = raw i := by
      intro i hi
      obtain ⟨lo, hi', h1, h2, h3⟩ := hraw i hi
      have hrs : ∀ j, n ≤ j → rsiAt (rd values) n j = rsi (fun k => values.getD k 0) n j :=
        fun j hj => rsiAt_eq _ hn hj
      have hww : ∀ j, j ≤ i → i < j + m → (if j < n then 0 else rsiAt (rd values) n j) =
          rsi (fun k => values.getD k 0) n j := fun j _ h2 => by rw [if_neg (by omega), hrs j (by omega)]
      have hb : ∀ j, j ≤ i → i < j + m → (if j < n then 0 else rsiAt (rd values) n j) ≤ (10 : K) ^ 60 ∧
          -(10 : K) ^ 60 ≤ (if j < n then 0 else rsiAt (rd values) n j) := by
        intro j _ h2
        rw [if_neg (by omega)]
        have := rsi_range (rd values) n j (by omega)
        have h6 : (100 : K) ≤ 10 ^ 60 := by norm_num
        constructor <;> linarith
      have ex := extremes (fun j => if j < n then 0 else rsiAt (rd values) n j) (10 ^ 60) (-10 ^ 60) m i hm
        (by omega) hb
      simp only at ex
      have e1 := isLow_unique (isLow_congr hww ex.1) h1
      have e2 := isHigh_unique (isHigh_congr hww ex.2) h2
      unfold stoRsiRaw
      simp only
      rw [e1, e2, h3, hww i (le_refl _) (by omega)]
      rfl
    by_cases hs : smoothing > 1
    · by_cases hf : i > n + m - 1
      · rw [if_pos ⟨hs, hf⟩, if_pos hs, ← loop_ema _ _ (by omega)]
        unfold emaFrom loop
        rw [hr _ (by omega)]
        refine congrArg some (List.foldl_ext _ _ _ (fun s j hj => ?_))
        have := List.mem_range'_1.1 hj
        rw [hr j (by omega)]
      · rw [if_neg (fun h => hf h.2), if_pos hs, hr i hw, show i = n + m - 1 by omega, ema_start]
    · rw [if_neg (fun h => hs h.1), if_neg hs, hr i hw]
  · cases h

/-! ## MACD and intensity -/

theorem macdSums_ema (c : Nat → K) (short long i : Nat) :
    macdSums c short long i = (ema (2 / ((long : K) + 1)) c 0 i, ema (2 / ((short : K) + 1)) c 0 i) := by
  induction i with
  | zero =>
    rw [ema_start, ema_start]
    simp [macdSums, loop]
  | succ i ih =>
    unfold macdSums at ih ⊢
    simp only at ih ⊢
    rw [loop_append (by omega), ih, ema_step _ _ (Nat.zero_le _), ema_step _ _ (Nat.zero_le _)]

/-- The mean of the true ranges of the last `m` bars. -/
def Spec.meanRange (high low close : List K) (m i : Nat) : K := meanOf m (lastOf (rangeOf high low close) i m)

theorem mean_range {F : Fns K} {high low close : List K} {m i : Nat} (hm : 0 < m) (h : m ≤ i + 1) :
    atrAt F (rd high) (rd low) (rd close) false m i = meanRange high low close m i := by
  unfold atrAt meanRange meanOf
  rw [if_neg (by omega), sumIn_window h]
  simp only [trueRange_max, Bool.false_eq_true, if_false]

/-- **C158: `macd`** is the difference of the exponential averages of the close, over the root of half
the difference of their lengths and the mean true range, less its own average when smoothed. -/
theorem macd_averages {F : Fns K} {high low close out : List K} {short long : Nat} {smoothing scale : K}
    (h : macd F high low close short long smoothing scale = some out)
    (hF : ∀ x : K, 1 ≤ x → 1 ≤ F.toNat x) {i : Nat} (hi : i < close.length) :
    let raw := fun i => if i = 0 then 0 else
      squash F (scale * ((ema (2 / ((short : K) + 1)) (fun k => close.getD k 0) 0 i -
        ema (2 / ((long : K) + 1)) (fun k => close.getD k 0) 0 i) /
        (F.sqrt (((long : K) - short) / 2) *
          meanRange high low close (min (F.toNat (long + smoothing)) i) i + 1 / 10 ^ 15)))
    out[i]? = some (if smoothing > 1 then raw i - ema (2 / (smoothing + 1)) raw 0 i else raw i) := by
  unfold macd at h
  split at h
  · rename_i hc
    obtain ⟨_, _, h1, h2, h3, _⟩ := hc
    cases h
    intro raw
    rw [series_get _ hi]
    have hr : macdRaw F (rd high) (rd low) (rd close) short long smoothing scale = raw := by
      funext i
      unfold macdRaw
      by_cases h0 : i = 0
      · simp only [raw, if_pos h0]
      · simp only [raw, if_neg h0]
        have hl : (1 : K) ≤ long + smoothing := by
          have : (1 : K) ≤ long := by
            have : 1 ≤ long := by omega
            exact_mod_cast this
          linarith
        have ht := hF _ hl
        have hk : (if F.toNat ((long : K) + smoothing) > i then i else F.toNat ((long : K) + smoothing)) =
            min (F.toNat ((long : K) + smoothing)) i := by split <;> omega
        have hd : |1 / 2 * ((long : K) - 1) - 1 / 2 * ((short : K) - 1)| = ((long : K) - short) / 2 := by
          have : (short : K) ≤ long := by exact_mod_cast h2
          rw [abs_of_nonneg (by linarith)]
          ring
        rw [hk, hd, mean_range (by omega) (by omega), macdSums_ema]
        rfl
    rw [hr]
    by_cases hs : smoothing > 1
    · rw [if_pos hs]
      by_cases h0 : i ≥ 1
      · rw [if_pos ⟨hs, h0⟩, emaFrom_ema _ _ (by omega)]
      · rw [if_neg (fun h => h0 h.2), show i = 0 by omega, ema_start]
        simp [raw]
    · rw [if_neg hs, if_neg (fun h => hs h.1)]
  · cases h

/-- **C158: `price_intensity`** is the exponential average of the move from open to close over the true
range, times the root of the smoothing. -/
theorem price_intensity {F : Fns K} {opn high low close out : List K} {smoothing scale : K}
    (h : priceIntensity F opn high low close smoothing scale = some out) {i : Nat} (hi : i < close.length) :
    let raw := fun i => (close.getD i 0 - opn.getD i 0) /
      max (if i = 0 then high.getD 0 0 - low.getD 0 0 else rangeOf high low close i) (1 / 10 ^ 60)
    let s := max smoothing 1
    out[i]? = some (squash F (scale * F.sqrt s * (if s > 1 then ema (2 / (s + 1)) raw 0 i else raw i))) := by
  unfold priceIntensity at h
  split at h
  · cases h
    intro raw s
    rw [series_get _ hi]
    have hs : (if smoothing < 1 then 1 else smoothing) = s := by
      simp only [s]
      split
      · rename_i h; exact (max_eq_right h.le).symm
      · rename_i h; exact (max_eq_left (not_lt.1 h)).symm
    have hr : intensityRaw (rd opn) (rd high) (rd low) (rd close) = raw := by
      funext i
      unfold intensityRaw
      have hm : ∀ x y : K, (if x < y then y else x) = max x y := by
        intro x y
        split
        · rename_i h; exact (max_eq_right h.le).symm
        · rename_i h; exact (max_eq_left (not_lt.1 h)).symm
      simp only [raw, trueRange_max, hm]
      rfl
    rw [hs, hr, emaFrom_ema _ _ (Nat.zero_le _)]
    rfl
  · cases h

/-! ## Flows -/

theorem firstVolume_first : ∀ {v : List K} {j : Nat}, j < v.length → 0 < v.getD j 0 →
    (∀ k < j, ¬ 0 < v.getD k 0) → firstVolume v = j
  | [], j, hj, _, _ => by simp at hj
  | [a], j, hj, _, _ => by
    simp only [List.length_singleton, Nat.lt_one_iff] at hj
    subst hj
    rfl
  | a :: b :: v, 0, _, hv, _ => by
    simp only [firstVolume]
    exact if_pos hv
  | a :: b :: v, j + 1, hj, hv, hb => by
    simp only [firstVolume]
    have h0 : ¬ a > 0 := hb 0 (by omega)
    rw [if_neg h0, firstVolume_first (v := b :: v) (j := j) (by simpa using hj) hv
      (fun k hk => hb (k + 1) (by omega))]

/-- **C158: `money_flow` and `intraday_intensity`.**  A bar's flow is its volume times where the close is
in the range, from -100 at the low to 100 at the high.  `money_flow` is the sum of the flows of the window
over the sum of its volumes; `intraday_intensity` is the mean flow, over the exponential average of the
volume since the first when smoothed. -/
theorem flow_window {high low close volume out : List K} {n : Nat} {smoothing : K} {money : Bool}
    (h : flow high low close volume n smoothing money = some out) {i j : Nat} (hi : i < close.length)
    (hj : j + n ≤ i + 1) (hv : 0 < volume.getD j 0) (hb : ∀ k < j, ¬ 0 < volume.getD k 0) :
    let flow := fun k => if high.getD k 0 > low.getD k 0 then
      (100 * ((close.getD k 0 - low.getD k 0) - (high.getD k 0 - close.getD k 0)) /
        (high.getD k 0 - low.getD k 0)) * volume.getD k 0 else 0
    let flows := ∑ k ∈ range n, lastOf flow i n k
    let volumes := ∑ k ∈ range n, lastOf (fun k => volume.getD k 0) i n k
    out[i]? = some (
      if money then (if 0 < volumes then flows / volumes else 0)
      else if smoothing > 1 then
        let v := ema (2 / (smoothing + 1)) (fun k => volume.getD k 0) j i
        if 0 < v then flows / n / v else 0
      else flows / n) := by
  unfold PyBroker.flow at h
  split at h
  · rename_i hc
    obtain ⟨_, _, hlv, hn, _⟩ := hc
    cases h
    intro flow flows volumes
    have hfv : firstVolume volume = j := firstVolume_first (by omega) hv hb
    have hn0 : (n : K) ≠ 0 := by exact_mod_cast hn.ne'
    have hback := fun f : Nat → K => sumIn_back (K := K) (n := n) (i := i) (by omega) f
    rw [series_get _ hi, hfv, if_neg (by omega)]
    have hraw : ∀ k, j ≤ k → flowRaw (rd high) (rd low) (rd close) (rd volume) j k = flow k := by
      intro k hk
      unfold flowRaw
      rw [if_neg (by omega)]
      simp only [flow, rd]
      rw [show 2 * close.getD k 0 - high.getD k 0 - low.getD k 0 =
        (close.getD k 0 - low.getD k 0) - (high.getD k 0 - close.getD k 0) by ring]
      rfl
    have havg : flowAvg (rd high) (rd low) (rd close) (rd volume) j n i = flows / n := by
      unfold flowAvg
      have hsum : ∑ k ∈ range n, lastOf (flowRaw (rd high) (rd low) (rd close) (rd volume) j) i n k = flows :=
        sum_congr rfl (fun k _ => hraw _ (by omega))
      split
      · rw [hback, hsum]
      · have : n = 1 := by omega
        subst this
        rw [← hsum]
        simp [lastOf]
    have hvol : sumIn 0 n (fun j => rd volume (i - j)) = volumes := hback (rd volume)
    have hsm : flowSmooth (rd volume) (2 / (smoothing + 1)) j i =
        ema (2 / (smoothing + 1)) (fun k => volume.getD k 0) j i := by
      unfold flowSmooth
      rw [← loop_ema _ _ (by omega), loop_append_add (show j ≤ j + 1 by omega) (by omega)]
      congr 1
      have : loop j (j + 1) (fun s j => 2 / (smoothing + 1) * rd volume j + (1 - 2 / (smoothing + 1)) * s)
          (rd volume j) = rd volume j := by
        rw [loop_append (le_refl _)]
        simp only [loop, Nat.sub_self, List.range'_zero, List.foldl_nil]
        ring
      exact this
    simp only [havg, hvol, hsm]
    cases money with
    | true =>
      simp only [if_true]
      have hnp : (0 : K) < n := by exact_mod_cast hn
      by_cases h0 : 0 < volumes
      · rw [if_pos h0, if_pos (div_pos h0 hnp), div_div_div_cancel_right₀ hn0]
      · rw [if_neg h0, if_neg (not_lt.2 (div_nonpos_of_nonpos_of_nonneg (not_lt.1 h0) hnp.le))]
    | false =>
      simp only [Bool.false_eq_true, if_false]
  · cases h

/-! ## Bars -/

namespace Demo

def ifH : List ℚ := [5, 6, 8, 7, 6, 8, 9]
def ifL : List ℚ := [3, 4, 5, 4, 3, 5, 7]

/-- Moves up 1, 2 and down 1: with `n = 2` the third bar's sums are half the sums plus its own. -/
example : fading (1 - 1 / (2 : ℚ)) (moveUp ifH ifL) 1 2 3 = 1 / 2 * (1 + 2) + 0 ∧
    fading (1 - 1 / (2 : ℚ)) (moveDown ifH ifL) 1 2 3 = 1 / 2 * 0 + 1 := by decide +kernel

example : ∃ out, adx ifH ifL isC 2 = some out ∧ 2 * 2 ≤ isC.length ∧
    out[5]? = some (100 * (fading (1 - 1 / (2 : ℚ)) (directional ifH ifL isC 2) 2 3 5 / 2)) := by
  refine ⟨_, rfl, by decide, ?_⟩
  decide +kernel

/-- The lowest of the lows 5, 4, 3 and the highest of the highs 8, 7, 6. -/
example : IsLow (fun k => ifL.getD k 0) 3 4 (3 : ℚ) ∧ IsHigh (fun k => ifH.getD k 0) 3 4 (8 : ℚ) := by
  refine ⟨⟨⟨4, by decide, by decide, by decide +kernel⟩, fun j h1 h2 => ?_⟩,
    ⟨⟨2, by decide, by decide, by decide +kernel⟩, fun j h1 h2 => ?_⟩⟩
  · obtain rfl | rfl | rfl : j = 2 ∨ j = 3 ∨ j = 4 := by omega
    all_goals decide +kernel
  · obtain rfl | rfl | rfl : j = 2 ∨ j = 3 ∨ j = 4 := by omega
    all_goals decide +kernel

example : ∃ out, stochastic ifH ifL isC 3 0 = some out ∧
    out[4]? = some (100 * ((4 - 3) / (8 - 3 + 1 / 10 ^ 60)) - 50) := by
  refine ⟨_, rfl, ?_⟩
  decide +kernel

example : (stochastic ifH ifL isC 3 2).isSome ∧ (stochasticRsi isC 2 2 3).isSome ∧
    (macd isF ifH ifL isC 2 3 2 1).isSome ∧ (priceIntensity isF isC ifH ifL isC 2 1).isSome := by
  decide +kernel

/-- The weights 4/9, 2/9 and 1/3 of an average with the factor 1/3. -/
example : ema (1 / 3 : ℚ) (fun k => isC.getD k 0) 0 2 = 4 / 9 * 4 + 2 / 9 * 5 + 1 / 3 * 6 := by
  decide +kernel

/-- Flows of -100/3 per share. -/
example : ∃ out : List ℚ, flow ifH ifL isC isV 3 0 true = some out ∧
    out[4]? = some (((-100 / 3 * 2 + -100 / 3 * 3 + -100 / 3 * 1) / 6 : ℚ)) := by
  refine ⟨_, rfl, ?_⟩
  decide +kernel

end Demo

end PyBroker
