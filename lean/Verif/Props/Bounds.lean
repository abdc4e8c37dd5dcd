import Verif.Props.Causal
import Mathlib.Tactic.Linarith
import Mathlib.Tactic.Positivity
import Mathlib.Tactic.FieldSimp

/-!
# Indicator ranges and values (C52, C77, C78, C79)
-/

namespace PyBroker

open PyBroker.Spec

variable {K : Type} [Field K] [LinearOrder K]

/-- The bars are well formed: low ≤ close ≤ high on each. -/
def Spec.WellFormed (high low close : List K) : Prop :=
  ∀ i, i < close.length → rd low i ≤ rd close i ∧ rd close i ≤ rd high i

/-- The true range of bar `i`: the greatest of high − low and the distances of high
and low from the previous close. -/
def Spec.IsTrueRange (high low close : List K) (i : Nat) (r : K) : Prop :=
  r = max (rd high i - rd low i)
    (max |rd high i - rd close (i - 1)| |rd low i - rd close (i - 1)|)

variable [IsStrictOrderedRing K]

/-! ## Loops -/

omit [Field K] [LinearOrder K] [IsStrictOrderedRing K] in
theorem loop_idx {S : Type} {P : Nat → S → Prop} {f : S → Nat → S} {a b : Nat} {s : S} (hab : a ≤ b)
    (h0 : P a s) (hs : ∀ s j, a ≤ j → j < b → P j s → P (j + 1) (f s j)) : P b (loop a b f s) := by
  unfold loop
  have : ∀ (k a : Nat) (s : S), P a s → (∀ s j, a ≤ j → j < a + k → P j s → P (j + 1) (f s j)) →
      P (a + k) ((List.range' a k).foldl f s) := by
    intro k
    induction k with
    | zero => intro a s h _; simpa using h
    | succ k ih =>
      intro a s h hs
      rw [List.range'_succ, List.foldl_cons]
      have := ih (a + 1) (f s a) (hs s a (le_refl a) (by omega) h)
        (fun s j h1 h2 h3 => hs s j (by omega) (by omega) h3)
      rw [show a + (k + 1) = a + 1 + k by omega]
      exact this
  have := this (b - a) a s h0 (fun s j h1 h2 h3 => hs s j h1 (by omega) h3)
  rwa [show a + (b - a) = b by omega] at this

omit [Field K] [LinearOrder K] [IsStrictOrderedRing K] in
theorem loop_empty {S : Type} {f : S → Nat → S} {a b : Nat} {s : S} (hab : b ≤ a) :
    loop a b f s = s := by
  unfold loop
  rw [Nat.sub_eq_zero_of_le hab]
  rfl

omit [Field K] [LinearOrder K] [IsStrictOrderedRing K] in
theorem loop_inv {S : Type} {P : S → Prop} {f : S → Nat → S} {a b : Nat} {s : S}
    (h0 : P s) (hs : ∀ s j, a ≤ j → j < b → P s → P (f s j)) : P (loop a b f s) := by
  by_cases hab : a ≤ b
  · exact loop_idx (P := fun _ s => P s) hab h0 hs
  · rw [loop_empty (by omega)]
    exact h0

theorem tiny_pos (k : Nat) : (0 : K) < tiny k := by
  unfold tiny
  positivity

theorem sumIn_nonneg {a b : Nat} {f : Nat → K} (h : ∀ j, a ≤ j → j < b → 0 ≤ f j) :
    0 ≤ sumIn a b f := by
  unfold sumIn
  exact loop_inv (P := fun s => 0 ≤ s) (le_refl 0) (fun s j h1 h2 hs => add_nonneg hs (h j h1 h2))

theorem sumIn_le {a b : Nat} {f g : Nat → K} (h : ∀ j, a ≤ j → j < b → f j ≤ g j) :
    sumIn a b f ≤ sumIn a b g := by
  unfold sumIn
  by_cases hab : a ≤ b
  · have key : ∀ (l : List Nat) (s t : K), (∀ j ∈ l, f j ≤ g j) → s ≤ t →
        l.foldl (fun s j => s + f j) s ≤ l.foldl (fun s j => s + g j) t := by
      intro l
      induction l with
      | nil => intro s t _ h; exact h
      | cons x l ih =>
        intro s t hl hst
        rw [List.foldl_cons, List.foldl_cons]
        exact ih _ _ (fun j hj => hl j (List.mem_cons_of_mem _ hj))
          (add_le_add hst (hl x List.mem_cons_self))
    refine key _ 0 0 (fun j hj => ?_) (le_refl 0)
    rw [List.mem_range'_1] at hj
    exact h j hj.1 (by omega)
  · rw [loop_empty (by omega), loop_empty (by omega)]

omit [LinearOrder K] [IsStrictOrderedRing K] in
theorem sumIn_mul {a b : Nat} {f : Nat → K} (c : K) :
    sumIn a b (fun j => c * f j) = c * sumIn a b f := by
  unfold sumIn loop
  have key : ∀ (l : List Nat) (s : K),
      l.foldl (fun s j => s + c * f j) (c * s) = c * l.foldl (fun s j => s + f j) s := by
    intro l
    induction l with
    | nil => intro s; rfl
    | cons x l ih =>
      intro s
      rw [List.foldl_cons, List.foldl_cons, ← mul_add]
      exact ih _
  have := key (List.range' a (b - a)) 0
  rwa [mul_zero] at this

/-! ## Aroon -/

/-- The scan finds the latest highest of the last `lookback + 1` bars. -/
theorem aroonScan_spec (x : Nat → K) (lb i : Nat) :
    let best := aroonScan (fun a b => decide (a > b)) x lb i
    best ≤ i ∧ i ≤ best + lb ∧ (∀ j, j ≤ i → i ≤ j + lb → x j ≤ x best) ∧
    (∀ j, best < j → j ≤ i → x j < x best) := by
  have := loop_idx (P := fun d best => best ≤ i ∧ i ≤ best + (d - 1) ∧
      (∀ j, j ≤ i → i < j + d → x j ≤ x best) ∧ (∀ j, best < j → j ≤ i → x j < x best))
    (f := fun best d => if d ≤ i ∧ (decide (x (i - d) > x best)) = true then i - d else best)
    (a := 1) (b := lb + 1) (s := i) (by omega)
    ⟨le_refl i, by omega, fun j h1 h2 => by
      have : j = i := by omega
      rw [this], fun j h1 h2 => by omega⟩
    (by
      intro best d hd1 hd2 ⟨b1, b2, b3, b4⟩
      by_cases hc : d ≤ i ∧ (decide (x (i - d) > x best)) = true
      · rw [if_pos hc]
        obtain ⟨hdi, hgt⟩ := hc
        rw [decide_eq_true_eq] at hgt
        have hge : ∀ j, i - d < j → j ≤ i → x j ≤ x best := fun j h1 h2 => b3 j h2 (by omega)
        refine ⟨Nat.sub_le _ _, by omega, ?_, ?_⟩
        · intro j hj1 hj2
          by_cases hjd : j = i - d
          · rw [hjd]
          · exact le_of_lt (lt_of_le_of_lt (hge j (by omega) hj1) hgt)
        · intro j hj1 hj2
          exact lt_of_le_of_lt (hge j hj1 hj2) hgt
      · rw [if_neg hc]
        refine ⟨b1, by omega, ?_, b4⟩
        intro j hj1 hj2
        by_cases hjd : i < j + d
        · exact b3 j hj1 hjd
        · have hj : j = i - d := by omega
          have : ¬ x (i - d) > x best := fun h => hc ⟨by omega, by rw [decide_eq_true_eq]; exact h⟩
          rw [hj]
          exact not_lt.1 this)
  intro best
  change (fun d best => best ≤ i ∧ i ≤ best + (d - 1) ∧
      (∀ j, j ≤ i → i < j + d → x j ≤ x best) ∧ (∀ j, best < j → j ≤ i → x j < x best)) (lb + 1) best
    at this
  obtain ⟨h1, h2, h3, h4⟩ := this
  exact ⟨h1, by omega, fun j hj1 hj2 => h3 j hj1 (by omega), h4⟩

/-- The scan for a low is the scan for a high of the negated values. -/
theorem aroonScan_neg (x : Nat → K) (lb i : Nat) :
    aroonScan (fun a b => decide (a < b)) x lb i =
    aroonScan (fun a b => decide (a > b)) (fun j => - x j) lb i := by
  unfold aroonScan
  refine loop_congr (fun s j _ _ => ?_)
  simp only [gt_iff_lt, neg_lt_neg_iff]

theorem aroonVal_range {lb i best : Nat} (h1 : best ≤ i) (h2 : i ≤ best + lb) (h0 : 0 < lb) :
    (0 : K) ≤ aroonVal lb i best ∧ (aroonVal lb i best : K) ≤ 100 := by
  unfold aroonVal
  have hlb : (0 : K) < lb := by exact_mod_cast h0
  have a1 : (best : K) ≤ i := by exact_mod_cast h1
  have a2 : (i : K) ≤ best + lb := by exact_mod_cast h2
  constructor
  · apply div_nonneg _ hlb.le
    apply mul_nonneg (by norm_num)
    linarith
  · rw [div_le_iff₀ hlb]
    apply mul_le_mul_of_nonneg_left _ (by norm_num)
    linarith

/-- C52.  `aroon_up` and `aroon_down` lie in [0, 100], `aroon_diff` in [-100, 100]. -/
theorem aroon_range {high low up dn df : List K} {lb : Nat} (h1 : aroonUp high low lb = some up)
    (h2 : aroonDown high low lb = some dn) (h3 : aroonDiff high low lb = some df) :
    (∀ v ∈ up, 0 ≤ v ∧ v ≤ 100) ∧ (∀ v ∈ dn, 0 ≤ v ∧ v ≤ 100) ∧ (∀ v ∈ df, -100 ≤ v ∧ v ≤ 100) := by
  obtain ⟨⟨_, hlb⟩, rfl⟩ := ite_some h1
  obtain ⟨-, rfl⟩ := ite_some h2
  obtain ⟨-, rfl⟩ := ite_some h3
  have a := fun i => aroonScan_spec (rd high) lb i
  have b := fun i => aroonScan_spec (fun j => - rd low j) lb i
  have ra := fun i => aroonVal_range (K := K) (a i).1 (a i).2.1 hlb
  have rb := fun i => aroonVal_range (K := K) (b i).1 (b i).2.1 hlb
  simp only [← aroonScan_neg] at rb
  refine ⟨?_, ?_, ?_⟩
  · intro v hv
    obtain ⟨i, hi, rfl⟩ := mem_series.1 hv
    by_cases h : i = 0
    · rw [if_pos h]; constructor <;> norm_num
    · rw [if_neg h]; exact ra i
  · intro v hv
    obtain ⟨i, hi, rfl⟩ := mem_series.1 hv
    by_cases h : i = 0
    · rw [if_pos h]; constructor <;> norm_num
    · rw [if_neg h]; exact rb i
  · intro v hv
    obtain ⟨i, hi, rfl⟩ := mem_series.1 hv
    by_cases h : i = 0
    · rw [if_pos h]; constructor <;> norm_num
    · rw [if_neg h]
      have := ra i
      have := rb i
      constructor <;> linarith

/-- C52.  Past the first bar, `aroon_up` is `100 * (lookback - k) / lookback` where `k` is
the number of bars since the latest highest high of the last `lookback + 1` bars, and
`aroon_down` the same with the lowest low. -/
theorem aroon_value {high low up dn : List K} {lb i : Nat} (h1 : aroonUp high low lb = some up)
    (h2 : aroonDown high low lb = some dn) (hi0 : 0 < i) (hi : i < high.length) :
    (∃ k, k ≤ i ∧ k ≤ lb ∧ (∀ d, d ≤ i → d ≤ lb → rd high (i - d) ≤ rd high (i - k)) ∧
      (∀ d, d < k → rd high (i - d) < rd high (i - k)) ∧
      up[i]? = some (100 * ((lb : K) - k) / lb)) ∧
    (∃ k, k ≤ i ∧ k ≤ lb ∧ (∀ d, d ≤ i → d ≤ lb → rd low (i - k) ≤ rd low (i - d)) ∧
      (∀ d, d < k → rd low (i - k) < rd low (i - d)) ∧
      dn[i]? = some (100 * ((lb : K) - k) / lb)) := by
  obtain ⟨⟨_, hlb⟩, rfl⟩ := ite_some h1
  obtain ⟨-, rfl⟩ := ite_some h2
  rw [series_get _ hi, series_get _ hi, if_neg (by omega), if_neg (by omega)]
  have a := aroonScan_spec (rd high) lb i
  have b := aroonScan_spec (fun j => - rd low j) lb i
  simp only [← aroonScan_neg] at b
  generalize aroonScan (fun a b => decide (a > b)) (rd high) lb i = p at a
  generalize aroonScan (fun a b => decide (a < b)) (rd low) lb i = q at b
  obtain ⟨a1, a2, a3, a4⟩ := a
  obtain ⟨b1, b2, b3, b4⟩ := b
  constructor
  · refine ⟨i - p, Nat.sub_le _ _, by omega, ?_, ?_, ?_⟩
    · intro d h1 h2
      rw [show i - (i - p) = p by omega]
      exact a3 _ (Nat.sub_le _ _) (by omega)
    · intro d hd
      rw [show i - (i - p) = p by omega]
      exact a4 _ (by omega) (Nat.sub_le _ _)
    · unfold aroonVal
      rw [Nat.cast_sub a1]
  · refine ⟨i - q, Nat.sub_le _ _, by omega, ?_, ?_, ?_⟩
    · intro d h1 h2
      rw [show i - (i - q) = q by omega]
      exact neg_le_neg_iff.1 (b3 _ (Nat.sub_le _ _) (by omega))
    · intro d hd
      rw [show i - (i - q) = q by omega]
      exact neg_lt_neg_iff.1 (b4 _ (by omega) (Nat.sub_le _ _))
    · unfold aroonVal
      rw [Nat.cast_sub b1]

/-! ## Stochastic -/

theorem convex_range {a b x y w : K} (hw0 : 0 ≤ w) (hw1 : w ≤ 1) (hx : a ≤ x ∧ x ≤ b)
    (hy : a ≤ y ∧ y ≤ b) : a ≤ w * x + (1 - w) * y ∧ w * x + (1 - w) * y ≤ b := by
  have h1 := mul_nonneg hw0 (sub_nonneg.2 hx.1)
  have h2 := mul_nonneg (sub_nonneg.2 hw1) (sub_nonneg.2 hy.1)
  have h3 := mul_nonneg hw0 (sub_nonneg.2 hx.2)
  have h4 := mul_nonneg (sub_nonneg.2 hw1) (sub_nonneg.2 hy.2)
  constructor
  · linarith [mul_sub w x a, mul_sub (1 - w) y a]
  · linarith [mul_sub w b x, mul_sub (1 - w) b y]

theorem sto0_range {high low close : List K} {lb i : Nat} (hw : WellFormed high low close)
    (h0 : 0 < lb) (hlb : lb ≤ i + 1) (hi : i < close.length) (eh : high.length = close.length)
    (el : low.length = close.length) :
    0 ≤ sto0 high low close lb i ∧ sto0 high low close lb i ≤ 1 := by
  have h1 := (lowAt_spec (a := low) h0 hlb (by omega)).2 i (le_refl i) (by omega)
  have h2 := (highAt_spec (a := high) h0 hlb (by omega)).2 i (le_refl i) (by omega)
  obtain ⟨w1, w2⟩ := hw i hi
  have ht := tiny_pos (K := K) 60
  have hd : 0 < highAt high lb i - lowAt low lb i + tiny 60 := by linarith
  unfold sto0
  constructor
  · exact div_nonneg (by linarith) hd.le
  · rw [div_le_one hd]
    linarith

/-- C52.  On well-formed bars `stochastic` lies in [-50, 50], with any smoothing. -/
theorem stochastic_range {high low close out : List K} {lb sm : Nat} (hw : WellFormed high low close)
    (h : stochastic high low close lb sm = some out) : ∀ v ∈ out, -50 ≤ v ∧ v ≤ 50 := by
  obtain ⟨⟨e1, e2, hlb, _⟩, rfl⟩ := ite_some h
  have s0 : ∀ k, lb ≤ k + 1 → k < close.length →
      0 ≤ sto0 high low close lb k ∧ sto0 high low close lb k ≤ 1 :=
    fun k h1 h2 => sto0_range hw hlb h1 h2 (by omega) (by omega)
  have c3 : (66666667 : K) / 100000000 = 1 - 33333333 / 100000000 := by norm_num
  have s1 : ∀ k, lb ≤ k + 1 → k < close.length →
      0 ≤ sto1 high low close lb k ∧ sto1 high low close lb k ≤ 1 := by
    intro k h1 h2
    unfold sto1
    refine loop_inv (P := fun s => 0 ≤ s ∧ s ≤ 1) (s0 _ (by omega) (by omega)) ?_
    intro s j hj1 hj2 hs
    rw [c3]
    exact convex_range (by norm_num) (by norm_num) (s0 j (by omega) (by omega)) hs
  have s2 : ∀ k, lb < k → k < close.length →
      0 ≤ sto2 high low close lb k ∧ sto2 high low close lb k ≤ 1 := by
    intro k h1 h2
    unfold sto2
    refine loop_inv (P := fun s => 0 ≤ s ∧ s ≤ 1) (s1 _ (by omega) (by omega)) ?_
    intro s j hj1 hj2 hs
    rw [c3]
    exact convex_range (by norm_num) (by norm_num) (s1 j (by omega) (by omega)) hs
  have fin : ∀ s : K, 0 ≤ s ∧ s ≤ 1 → -50 ≤ 100 * s - 50 ∧ 100 * s - 50 ≤ 50 := by
    intro s hs
    constructor <;> linarith [hs.1, hs.2]
  have z : (-50 : K) ≤ 0 ∧ (0 : K) ≤ 50 := by constructor <;> norm_num
  intro v hv
  obtain ⟨i, hi, rfl⟩ := mem_series.1 hv
  split
  · exact z
  · split
    · exact z
    · split
      · exact fin _ (s0 i (by omega) hi)
      · split
        · exact fin _ (s0 i (by omega) hi)
        · split
          · exact fin _ (s1 i (by omega) hi)
          · split
            · exact fin _ (s1 i (by omega) hi)
            · exact fin _ (s2 i (by omega) hi)

/-! ## Stochastic RSI -/

theorem rsi_state (v : Nat → K) (len i : Nat) (hlen : 2 ≤ len) :
    0 ≤ (rsiSt v len i).up ∧ 0 ≤ (rsiSt v len i).dn := by
  have hl : (0 : K) ≤ (len : K) - 1 := by
    have : (2 : K) ≤ len := by exact_mod_cast hlen
    linarith
  have hl2 : (0 : K) ≤ len := by positivity
  unfold rsiSt
  refine loop_inv (P := fun s : RsiSt K => 0 ≤ s.up ∧ 0 ≤ s.dn) ?_ ?_
  · have := loop_inv (P := fun s : RsiSt K => 0 ≤ s.up ∧ 0 ≤ s.dn) (a := 1) (b := len)
      (f := fun (s : RsiSt K) i =>
        if v i - v (i - 1) > 0 then { s with up := s.up + (v i - v (i - 1)) }
        else { s with dn := s.dn - (v i - v (i - 1)) })
      (s := { up := tiny 60, dn := tiny 60 }) ⟨(tiny_pos 60).le, (tiny_pos 60).le⟩
      (by
        intro s j _ _ hs
        by_cases hd : v j - v (j - 1) > 0
        · rw [if_pos hd]
          exact ⟨by simp only; linarith [hs.1], hs.2⟩
        · rw [if_neg hd]
          exact ⟨hs.1, by simp only; linarith [hs.2]⟩)
    exact ⟨div_nonneg this.1 hl, div_nonneg this.2 hl⟩
  · intro s j _ _ hs
    unfold rsiStep
    simp only
    by_cases hd : v j - v (j - 1) > 0
    · rw [if_pos hd]
      exact ⟨div_nonneg (add_nonneg (mul_nonneg hl hs.1) hd.le) hl2,
        mul_nonneg hs.2 (div_nonneg hl hl2)⟩
    · rw [if_neg hd]
      refine ⟨mul_nonneg hs.1 (div_nonneg hl hl2), div_nonneg ?_ hl2⟩
      have := mul_nonneg hl hs.2
      linarith

/-- C52.  The RSI lies in [0, 100]. -/
theorem rsi_range (v : Nat → K) (len i : Nat) (hlen : 2 ≤ len) :
    0 ≤ rsiAt v len i ∧ rsiAt v len i ≤ 100 := by
  obtain ⟨h1, h2⟩ := rsi_state v len i hlen
  unfold rsiAt
  generalize (rsiSt v len i).up = u at *
  generalize (rsiSt v len i).dn = d at *
  constructor
  · exact div_nonneg (by linarith) (by linarith)
  · by_cases h : u + d = 0
    · rw [h, div_zero]; norm_num
    · have : 0 < u + d := lt_of_le_of_ne (by linarith) (Ne.symm h)
      rw [div_le_iff₀ this]
      linarith

/-- C52.  `stochastic_rsi` lies in [-50, 50] (for `rsi_lookback` of at least 2; with 1 the
code divides by zero). -/
theorem stochasticRsi_range {v out : List K} {rl sl : Nat} {sm : K} (hrl : 2 ≤ rl)
    (h : stochasticRsi v rl sl sm = some out) : ∀ x ∈ out, -50 ≤ x ∧ x ≤ 50 := by
  obtain ⟨⟨_, hsl, hsm⟩, rfl⟩ := ite_some h
  have hraw : ∀ i, -50 ≤ stoRsiRaw (rd v) rl sl i ∧ stoRsiRaw (rd v) rl sl i ≤ 50 := by
    intro i
    unfold stoRsiRaw
    simp only
    generalize hw : (fun k => if k < rl then 0 else rsiAt (rd v) rl k) = w
    have hwr : ∀ k, 0 ≤ w k ∧ w k ≤ 100 := by
      intro k
      rw [← hw]
      simp only
      split
      · constructor <;> norm_num
      · exact rsi_range _ _ _ hrl
    have hwk : ∀ k, (if k < rl then 0 else rsiAt (rd v) rl k) = w k := fun k => congrFun hw k
    simp only [hwk]
    generalize hm : loop 0 sl (fun (s : K × K) j =>
      (if w (i - j) < s.1 then w (i - j) else s.1, if w (i - j) > s.2 then w (i - j) else s.2))
      ((10 : K) ^ 60, -(10 : K) ^ 60) = m
    have hmm := loop_idx (P := fun d (s : K × K) => ∀ j, j < d → s.1 ≤ w (i - j) ∧ w (i - j) ≤ s.2)
      (a := 0) (b := sl) (f := fun (s : K × K) j =>
        (if w (i - j) < s.1 then w (i - j) else s.1, if w (i - j) > s.2 then w (i - j) else s.2))
      (s := ((10 : K) ^ 60, -(10 : K) ^ 60)) (Nat.zero_le _) (fun j hj => absurd hj (by omega))
      (by
        intro s d _ _ hs j hj
        simp only
        by_cases hjd : j = d
        · subst hjd
          constructor
          · split
            · exact le_refl _
            · exact not_lt.1 (by assumption)
          · split
            · exact le_refl _
            · exact not_lt.1 (by assumption)
        · have := hs j (by omega)
          constructor
          · split
            · exact le_trans (le_of_lt (by assumption)) this.1
            · exact this.1
          · split
            · exact le_trans this.2 (le_of_lt (by assumption))
            · exact this.2)
    rw [hm] at hmm
    have h0 := hmm 0 hsl
    rw [Nat.sub_zero] at h0
    have ht := tiny_pos (K := K) 60
    have hd : 0 < m.2 - m.1 + tiny 60 := by linarith [h0.1, h0.2]
    have q1 : 0 ≤ 100 * (w i - m.1) / (m.2 - m.1 + tiny 60) :=
      div_nonneg (by linarith [h0.1]) hd.le
    have q2 : 100 * (w i - m.1) / (m.2 - m.1 + tiny 60) ≤ 100 := by
      rw [div_le_iff₀ hd]
      nlinarith [h0.2]
    constructor <;> linarith
  intro x hx
  obtain ⟨i, hi, rfl⟩ := mem_series.1 hx
  have z : (-50 : K) ≤ 0 ∧ (0 : K) ≤ 50 := by constructor <;> norm_num
  split
  · exact z
  · split
    · exact z
    · split
      · rename_i hs
        unfold emaFrom
        refine loop_inv (P := fun s => -50 ≤ s ∧ s ≤ 50) (hraw _) ?_
        intro s j _ _ hs2
        have h1 : (0 : K) < sm + 1 := by linarith [hs.1]
        refine convex_range ?_ ?_ (hraw j) hs2
        · exact div_nonneg (by norm_num) h1.le
        · rw [div_le_one h1]
          linarith [hs.1]
      · exact hraw i

/-! ## Laguerre RSI -/

theorem lagFilter_range (F : Fns K) (fe : Nat) (s : LagSt K) (src sum : K) :
    0 ≤ (lagFilter F fe s src sum).out ∧ (lagFilter F fe s src sum).out ≤ 100 := by
  unfold lagFilter
  simp only
  generalize hl0 : (if sum > 0 then F.log sum / F.log fe else 0) * src +
    (1 - (if sum > 0 then F.log sum / F.log fe else 0)) * s.l0 = l0
  generalize hl1 : -(1 - (if sum > 0 then F.log sum / F.log fe else 0)) * l0 + s.l0 +
    (1 - (if sum > 0 then F.log sum / F.log fe else 0)) * s.l1 = l1
  generalize hl2 : -(1 - (if sum > 0 then F.log sum / F.log fe else 0)) * l1 + s.l1 +
    (1 - (if sum > 0 then F.log sum / F.log fe else 0)) * s.l2 = l2
  generalize hl3 : -(1 - (if sum > 0 then F.log sum / F.log fe else 0)) * l2 + s.l2 +
    (1 - (if sum > 0 then F.log sum / F.log fe else 0)) * s.l3 = l3
  have up : ∀ a b : K, 0 ≤ (if a ≥ b then a - b else 0) := by
    intro a b; split
    · rename_i h; linarith
    · exact le_refl _
  have dn : ∀ a b : K, 0 ≤ (if a ≥ b then 0 else b - a) := by
    intro a b; split
    · exact le_refl _
    · rename_i h; have := not_le.1 h; linarith
  have hcu := add_nonneg (add_nonneg (up l0 l1) (up l1 l2)) (up l2 l3)
  have hcd := add_nonneg (add_nonneg (dn l0 l1) (dn l1 l2)) (dn l2 l3)
  generalize (if l0 ≥ l1 then l0 - l1 else 0) + (if l1 ≥ l2 then l1 - l2 else 0) +
    (if l2 ≥ l3 then l2 - l3 else 0) = cu at *
  generalize (if l0 ≥ l1 then 0 else l1 - l0) + (if l1 ≥ l2 then 0 else l2 - l1) +
    (if l2 ≥ l3 then 0 else l3 - l2) = cd at *
  split
  · rename_i hne
    have hpos : 0 < cu + cd := lt_of_le_of_ne (by linarith) (Ne.symm hne)
    have q1 : 0 ≤ cu / (cu + cd) := div_nonneg hcu hpos.le
    have q2 : cu / (cu + cd) ≤ 1 := by rw [div_le_one hpos]; linarith
    constructor <;> linarith
  · constructor <;> norm_num

/-- C52.  `laguerre_rsi` lies in [0, 100], whatever the bars. -/
theorem laguerreRsi_range (F : Fns K) {o high low close out : List K} {fe : Nat}
    (h : laguerreRsi F o high low close fe = some out) : ∀ v ∈ out, 0 ≤ v ∧ v ≤ 100 := by
  obtain ⟨-, rfl⟩ := ite_some h
  have z : (0 : K) ≤ 0 ∧ (0 : K) ≤ 100 := by constructor <;> norm_num
  intro v hv
  obtain ⟨i, hi, rfl⟩ := mem_series.1 hv
  split
  · exact z
  · refine loop_inv (P := fun s : LagSt K => 0 ≤ s.out ∧ s.out ≤ 100) z ?_
    intro s j _ _ hs
    unfold lagStep
    simp only
    split
    · exact z
    · exact lagFilter_range _ _ _ _ _

/-! ## ADX -/

omit [IsStrictOrderedRing K] in
theorem trueRange_ge (h l c : Nat → K) (i : Nat) : h i - l i ≤ trueRange h l c i := by
  unfold trueRange
  simp only
  have hm : h i - l i ≤ (if h i - c (i - 1) > h i - l i then h i - c (i - 1) else h i - l i) := by
    split
    · exact le_of_lt (by assumption)
    · exact le_refl _
  generalize (if h i - c (i - 1) > h i - l i then h i - c (i - 1) else h i - l i) = t at *
  split
  · exact le_trans hm (le_of_lt (by assumption))
  · exact hm

/-- Non-negative sums. -/
def AdxOk (s : AdxSt K) : Prop := 0 ≤ s.dmsPlus ∧ 0 ≤ s.dmsMinus ∧ 0 ≤ s.atr

theorem dirIndex_range {s : AdxSt K} (h : AdxOk s) : 0 ≤ dirIndex s ∧ dirIndex s ≤ 1 := by
  obtain ⟨h1, h2, h3⟩ := h
  have ht := tiny_pos (K := K) 10
  have hd : 0 < s.atr + tiny 10 := by linarith
  unfold dirIndex
  simp only
  have p1 : 0 ≤ s.dmsPlus / (s.atr + tiny 10) := div_nonneg h1 hd.le
  have p2 : 0 ≤ s.dmsMinus / (s.atr + tiny 10) := div_nonneg h2 hd.le
  generalize s.dmsPlus / (s.atr + tiny 10) = p at *
  generalize s.dmsMinus / (s.atr + tiny 10) = m at *
  have hpm : 0 < p + m + tiny 10 := by linarith
  constructor
  · exact div_nonneg (abs_nonneg _) hpm.le
  · rw [div_le_one hpm, abs_le]
    constructor <;> linarith

omit [IsStrictOrderedRing K] in
theorem dm_nonneg (h l : Nat → K) (i : Nat) : 0 ≤ dmPlus h l i ∧ 0 ≤ dmMinus h l i := by
  unfold dmPlus dmMinus
  simp only
  constructor
  · split
    · rename_i h; exact h.2.le
    · exact le_refl _
  · split
    · rename_i h; exact h.2.le
    · exact le_refl _

theorem adxDecay_ok {h l c : Nat → K} {lb j : Nat} {s : AdxSt K} (hlb : 0 < lb)
    (hw : l j ≤ h j) (hs : AdxOk s) : AdxOk (adxDecay h l c lb s j) := by
  have hlb1 : (1 : K) ≤ lb := by exact_mod_cast hlb
  have hr : 0 ≤ ((lb : K) - 1) / lb := div_nonneg (by linarith) (by linarith)
  obtain ⟨h1, h2, h3⟩ := hs
  obtain ⟨d1, d2⟩ := dm_nonneg h l j
  have := trueRange_ge h l c j
  exact ⟨add_nonneg (mul_nonneg hr h1) d1, add_nonneg (mul_nonneg hr h2) d2,
    add_nonneg (mul_nonneg hr h3) (by linarith)⟩

/-- C52.  On well-formed bars `adx` lies in [0, 100]. -/
theorem adx_range {high low close out : List K} {lb : Nat} (hw : WellFormed high low close)
    (h : adx high low close lb = some out) : ∀ v ∈ out, 0 ≤ v ∧ v ≤ 100 := by
  obtain ⟨⟨_, _, hlb⟩, rfl⟩ := ite_some h
  have z : (0 : K) ≤ 0 ∧ (0 : K) ≤ 100 := by constructor <;> norm_num
  have hlb1 : (1 : K) ≤ lb := by exact_mod_cast hlb
  have hlb0 : (0 : K) < lb := by linarith
  intro v hv
  obtain ⟨i, hi, rfl⟩ := mem_series.1 hv
  by_cases hn : close.length < 2 * lb
  · rw [if_pos hn]; exact z
  rw [if_neg hn]
  have hwf : ∀ j, j < close.length → rd low j ≤ rd high j :=
    fun j hj => le_trans (hw j hj).1 (hw j hj).2
  have l1 : ∀ b, b ≤ close.length →
      AdxOk (loop 1 b (adxStep1 (rd high) (rd low) (rd close)) (⟨0, 0, 0, 0⟩ : AdxSt K)) ∧
      0 ≤ (loop 1 b (adxStep1 (rd high) (rd low) (rd close)) (⟨0, 0, 0, 0⟩ : AdxSt K)).adx ∧
      (loop 1 b (adxStep1 (rd high) (rd low) (rd close)) (⟨0, 0, 0, 0⟩ : AdxSt K)).adx ≤ 1 := by
    intro b hb
    refine loop_inv (P := fun s : AdxSt K => AdxOk s ∧ 0 ≤ s.adx ∧ s.adx ≤ 1)
      ⟨⟨le_refl 0, le_refl 0, le_refl 0⟩, le_refl 0, by norm_num⟩ ?_
    intro s j hj1 hj2 ⟨⟨h1, h2, h3⟩, _, _⟩
    unfold adxStep1
    simp only
    obtain ⟨d1, d2⟩ := dm_nonneg (rd high) (rd low) j
    have t1 := trueRange_ge (rd high) (rd low) (rd close) j
    have t2 := hwf j (by omega)
    have ok : AdxOk (⟨s.dmsPlus + dmPlus (rd high) (rd low) j, s.dmsMinus + dmMinus (rd high) (rd low) j,
      s.atr + trueRange (rd high) (rd low) (rd close) j, s.adx⟩ : AdxSt K) :=
      ⟨add_nonneg h1 d1, add_nonneg h2 d2, add_nonneg h3 (by linarith)⟩
    have := dirIndex_range ok
    exact ⟨ok, this⟩
  have l2 : ∀ b, lb + 1 ≤ b → b ≤ close.length →
      AdxOk (loop (lb + 1) b (adxStep2 (rd high) (rd low) (rd close) lb)
        (loop 1 (lb + 1) (adxStep1 (rd high) (rd low) (rd close)) (⟨0, 0, 0, 0⟩ : AdxSt K))) ∧
      0 ≤ (loop (lb + 1) b (adxStep2 (rd high) (rd low) (rd close) lb)
        (loop 1 (lb + 1) (adxStep1 (rd high) (rd low) (rd close)) (⟨0, 0, 0, 0⟩ : AdxSt K))).adx ∧
      (loop (lb + 1) b (adxStep2 (rd high) (rd low) (rd close) lb)
        (loop 1 (lb + 1) (adxStep1 (rd high) (rd low) (rd close)) (⟨0, 0, 0, 0⟩ : AdxSt K))).adx ≤
        (b : K) - lb := by
    intro b hb1 hb2
    refine loop_idx (P := fun d (s : AdxSt K) => AdxOk s ∧ 0 ≤ s.adx ∧ s.adx ≤ (d : K) - lb) hb1 ?_ ?_
    · obtain ⟨a1, a2, a3⟩ := l1 (lb + 1) (by omega)
      refine ⟨a1, a2, ?_⟩
      push_cast
      linarith
    · intro s j hj1 hj2 ⟨ok, a2, a3⟩
      have ok' := adxDecay_ok (c := rd close) hlb (hwf j (by omega)) ok
      have := dirIndex_range ok'
      unfold adxStep2
      simp only
      refine ⟨ok', by linarith [this.1], ?_⟩
      push_cast
      linarith [this.2]
  unfold adxAt
  by_cases h0 : i = 0
  · rw [if_pos h0]; exact z
  rw [if_neg h0]
  by_cases h1 : i ≤ lb
  · rw [if_pos h1]
    obtain ⟨_, a2, a3⟩ := l1 (i + 1) (by omega)
    constructor <;> linarith
  rw [if_neg h1]
  simp only
  by_cases h2 : i < 2 * lb
  · rw [if_pos h2]
    obtain ⟨_, a2, a3⟩ := l2 (i + 1) (by omega) (by omega)
    have hd : (0 : K) < (i : K) - lb + 1 := by
      have : (lb : K) ≤ i := by exact_mod_cast (by omega : lb ≤ i)
      linarith
    push_cast at a3
    constructor
    · exact div_nonneg (by linarith) hd.le
    · rw [div_le_iff₀ hd]
      linarith
  · rw [if_neg h2]
    by_cases hlb2 : lb + 1 ≤ 2 * lb
    · obtain ⟨ok, a2, a3⟩ := l2 (2 * lb) (by omega) (by omega)
      generalize loop (lb + 1) (2 * lb) (adxStep2 (rd high) (rd low) (rd close) lb)
        (loop 1 (lb + 1) (adxStep1 (rd high) (rd low) (rd close)) (⟨0, 0, 0, 0⟩ : AdxSt K)) = s2 at *
      have key := loop_inv (P := fun s : AdxSt K => AdxOk s ∧ 0 ≤ s.adx ∧ s.adx ≤ 1)
        (a := 2 * lb) (b := i + 1) (f := adxStep3 (rd high) (rd low) (rd close) lb)
        (s := { s2 with adx := s2.adx / lb })
        ⟨ok, div_nonneg a2 hlb0.le, by
          rw [div_le_one hlb0]
          push_cast at a3
          linarith⟩
        (by
          intro s j hj1 hj2 ⟨ok, b2, b3⟩
          have ok' := adxDecay_ok (c := rd close) hlb (hwf j (by omega)) ok
          have := dirIndex_range ok'
          unfold adxStep3
          simp only
          refine ⟨ok', ?_⟩
          have hw1 : (1 : K) / lb ≤ 1 := by rw [div_le_one hlb0]; exact hlb1
          have := convex_range (a := 0) (b := 1) (w := 1 / (lb : K)) (by positivity) hw1 this ⟨b2, b3⟩
          have e : ((lb : K) - 1) / lb * s.adx + dirIndex (adxDecay (rd high) (rd low) (rd close) lb s j) / lb =
              1 / (lb : K) * dirIndex (adxDecay (rd high) (rd low) (rd close) lb s j) +
              (1 - 1 / (lb : K)) * s.adx := by
            field_simp
            ring
          rw [e]
          exact this)
      obtain ⟨_, k1, k2⟩ := key
      constructor <;> linarith
    · omega

/-! ## C77: documented ranges -/

/-- `normal_cdf` is a probability. -/
def Spec.CdfOk (F : Fns K) : Prop := ∀ z, 0 ≤ F.cdf z ∧ F.cdf z ≤ 1

/-- Every value lies in [-50, 50]. -/
def Spec.In50 (out : List K) : Prop := ∀ v ∈ out, -50 ≤ v ∧ v ≤ 50

theorem cdf50 {F : Fns K} (hF : CdfOk F) (z : K) :
    -50 ≤ 100 * F.cdf z - 50 ∧ 100 * F.cdf z - 50 ≤ 50 := by
  have := hF z
  constructor <;> linarith [this.1, this.2]

theorem zero50 : (-50 : K) ≤ 0 ∧ (0 : K) ≤ 50 := by constructor <;> norm_num

omit [Field K] [IsStrictOrderedRing K] in
theorem ite50 {c : Prop} [Decidable c] {a b lo hi : K} (ha : lo ≤ a ∧ a ≤ hi) (hb : lo ≤ b ∧ b ≤ hi) :
    lo ≤ (if c then a else b) ∧ (if c then a else b) ≤ hi := by
  split
  · exact ha
  · exact hb

/-- C77: the trends. -/
theorem trend_range {F : Fns K} (hF : CdfOk F) {v high low close out : List K} {d : Degree} {lb al : Nat}
    {sc : K} (h : trend F v high low close d lb al sc = some out) : In50 out := by
  obtain ⟨-, rfl⟩ := ite_some h
  intro x hx
  obtain ⟨i, hi, rfl⟩ := mem_series.1 hx
  refine ite50 ?_ ?_
  · exact zero50
  · exact cdf50 hF _

/-- C77: `close_minus_ma`. -/
theorem closeMinusMa_range {F : Fns K} (hF : CdfOk F) {high low close out : List K} {lb al : Nat}
    {sc : K} (h : closeMinusMa F high low close lb al sc = some out) : In50 out := by
  obtain ⟨-, rfl⟩ := ite_some h
  intro x hx
  obtain ⟨i, hi, rfl⟩ := mem_series.1 hx
  refine ite50 ?_ ?_
  · exact zero50
  · simp only
    refine ite50 ?_ ?_
    · exact cdf50 hF _
    · exact zero50

/-- C77: the deviations. -/
theorem deviation_range {F : Fns K} (hF : CdfOk F) {v out : List K} {d : Degree} {lb : Nat} {sc : K}
    (h : deviation F v d lb sc = some out) : In50 out := by
  obtain ⟨-, rfl⟩ := ite_some h
  intro x hx
  obtain ⟨i, hi, rfl⟩ := mem_series.1 hx
  refine ite50 ?_ ?_
  · exact zero50
  · unfold deviationAt
    simp only
    refine ite50 ?_ ?_
    · exact cdf50 hF _
    · exact zero50

/-- C77: `price_intensity`. -/
theorem priceIntensity_range {F : Fns K} (hF : CdfOk F) {o high low close out : List K} {sm sc : K}
    (h : priceIntensity F o high low close sm sc = some out) : In50 out := by
  obtain ⟨-, rfl⟩ := ite_some h
  intro x hx
  obtain ⟨i, hi, rfl⟩ := mem_series.1 hx
  exact cdf50 hF _

/-- C77: `price_change_oscillator`. -/
theorem priceChangeOscillator_range {F : Fns K} (hF : CdfOk F) {high low close out : List K}
    {short mult : Nat} {sc : K} (h : priceChangeOscillator F high low close short mult sc = some out) :
    In50 out := by
  obtain ⟨-, rfl⟩ := ite_some h
  intro x hx
  obtain ⟨i, hi, rfl⟩ := mem_series.1 hx
  refine ite50 ?_ ?_
  · exact zero50
  · unfold oscillatorAt
    simp only
    refine ite50 ?_ ?_
    · exact cdf50 hF _
    · exact zero50

/-- C77: `reactivity`. -/
theorem reactivity_range {F : Fns K} (hF : CdfOk F) {high low close vol out : List K} {lb : Nat}
    {sm sc : K} (h : reactivity F high low close vol lb sm sc = some out) : In50 out := by
  obtain ⟨-, rfl⟩ := ite_some h
  intro x hx
  obtain ⟨i, hi, rfl⟩ := mem_series.1 hx
  refine ite50 ?_ ?_
  · exact zero50
  · refine ite50 ?_ ?_
    · exact zero50
    · refine ite50 ?_ ?_
      · exact zero50
      · exact cdf50 hF _

/-- C77: `price_volume_fit`. -/
theorem priceVolumeFit_range {F : Fns K} (hF : CdfOk F) {close vol out : List K} {lb : Nat} {sc : K}
    (h : priceVolumeFit F close vol lb sc = some out) : In50 out := by
  obtain ⟨-, rfl⟩ := ite_some h
  intro x hx
  obtain ⟨i, hi, rfl⟩ := mem_series.1 hx
  refine ite50 ?_ ?_
  · exact zero50
  · exact cdf50 hF _

/-- C77: `volume_weighted_ma_ratio`. -/
theorem vwma_range {F : Fns K} (hF : CdfOk F) {close vol out : List K} {lb : Nat} {sc : K}
    (h : volumeWeightedMaRatio F close vol lb sc = some out) : In50 out := by
  obtain ⟨-, rfl⟩ := ite_some h
  intro x hx
  obtain ⟨i, hi, rfl⟩ := mem_series.1 hx
  refine ite50 ?_ ?_
  · exact zero50
  · unfold vwmaAt
    simp only
    refine ite50 ?_ ?_
    · exact cdf50 hF _
    · exact zero50

theorem obvAt_range {F : Fns K} (hF : CdfOk F) (c v : Nat → K) (lb : Nat) (sc : K) (i : Nat) :
    -50 ≤ obvAt F c v lb sc i ∧ obvAt F c v lb sc i ≤ 50 := by
  unfold obvAt
  simp only
  refine ite50 ?_ ?_
  · exact zero50
  · exact cdf50 hF _

/-- C77: `normalized_on_balance_volume`. -/
theorem normalizedObv_range {F : Fns K} (hF : CdfOk F) {close vol out : List K} {lb : Nat} {sc : K}
    (h : normalizedObv F close vol lb sc = some out) : In50 out := by
  obtain ⟨-, rfl⟩ := ite_some h
  intro x hx
  obtain ⟨i, hi, rfl⟩ := mem_series.1 hx
  refine ite50 ?_ ?_
  · exact zero50
  · exact obvAt_range hF _ _ _ _ _

/-- C77: the volume indexes. -/
theorem volumeIndex_range {F : Fns K} (hF : CdfOk F) {close vol out : List K} {lb : Nat} {sc : K}
    {pos : Bool} (h : normalizedVolumeIndex F close vol lb sc pos = some out) : In50 out := by
  obtain ⟨-, rfl⟩ := ite_some h
  intro x hx
  obtain ⟨i, hi, rfl⟩ := mem_series.1 hx
  refine ite50 ?_ ?_
  · exact zero50
  · unfold nviAt
    simp only
    refine ite50 ?_ ?_
    · exact cdf50 hF _
    · exact zero50

/-- C77: `volume_momentum`. -/
theorem volumeMomentum_range {F : Fns K} (hF : CdfOk F) {vol out : List K} {short mult : Nat} {sc : K}
    (h : volumeMomentum F vol short mult sc = some out) : In50 out := by
  obtain ⟨-, rfl⟩ := ite_some h
  intro x hx
  obtain ⟨i, hi, rfl⟩ := mem_series.1 hx
  refine ite50 ?_ ?_
  · exact zero50
  · unfold momentumAt
    simp only
    refine ite50 ?_ ?_
    · exact cdf50 hF _
    · exact zero50

theorem macdRaw_range {F : Fns K} (hF : CdfOk F) (h l c : Nat → K) (short long : Nat) (sm sc : K) (i : Nat) :
    -50 ≤ macdRaw F h l c short long sm sc i ∧ macdRaw F h l c short long sm sc i ≤ 50 := by
  unfold macdRaw
  split
  · exact zero50
  · exact cdf50 hF _

/-- C77, partial: `macd` lies in the documented [-50, 50] without smoothing, and in
[-100, 100] with it.  Missing: [-50, 50] with smoothing, which is false
(`macd_leaves_range`). -/
theorem macd_range_partial {F : Fns K} (hF : CdfOk F) {high low close out : List K} {short long : Nat}
    {sm sc : K} (h : macd F high low close short long sm sc = some out) :
    (sm ≤ 1 → In50 out) ∧ (∀ v ∈ out, -100 ≤ v ∧ v ≤ 100) := by
  obtain ⟨-, rfl⟩ := ite_some h
  have hr := macdRaw_range hF (rd high) (rd low) (rd close) short long sm sc
  constructor
  · intro hsm x hx
    obtain ⟨i, hi, rfl⟩ := mem_series.1 hx
    rw [if_neg (by rintro ⟨h, _⟩; exact absurd h (not_lt.2 hsm))]
    exact hr i
  · intro x hx
    obtain ⟨i, hi, rfl⟩ := mem_series.1 hx
    split
    · rename_i hc
      have h1 : (0 : K) < sm + 1 := by linarith [hc.1]
      have := loop_inv (P := fun s => -50 ≤ s ∧ s ≤ 50) (a := 0 + 1) (b := i + 1)
        (f := fun s j => 2 / (sm + 1) * macdRaw F (rd high) (rd low) (rd close) short long sm sc j +
          (1 - 2 / (sm + 1)) * s) (hr 0) (by
          intro s j _ _ hs
          refine convex_range ?_ ?_ (hr j) hs
          · exact div_nonneg (by norm_num) h1.le
          · rw [div_le_one h1]
            linarith [hc.1])
      have e : emaFrom (macdRaw F (rd high) (rd low) (rd close) short long sm sc) (2 / (sm + 1)) 0 i =
          loop (0 + 1) (i + 1) (fun s j =>
            2 / (sm + 1) * macdRaw F (rd high) (rd low) (rd close) short long sm sc j +
            (1 - 2 / (sm + 1)) * s) (macdRaw F (rd high) (rd low) (rd close) short long sm sc 0) := rfl
      rw [e]
      have := hr i
      constructor <;> linarith [this.1, this.2]
    · have := hr i
      constructor <;> linarith [this.1, this.2]

/-- C77, partial: `delta_on_balance_volume` lies in [-100, 100].  Missing: the documented
[-50, 50], which is false (`deltaObv_leaves_range`). -/
theorem deltaObv_range_partial {F : Fns K} (hF : CdfOk F) {close vol out : List K} {lb d : Nat} {sc : K}
    (h : deltaObv F close vol lb d sc = some out) : ∀ v ∈ out, -100 ≤ v ∧ v ≤ 100 := by
  obtain ⟨-, rfl⟩ := ite_some h
  intro x hx
  obtain ⟨i, hi, rfl⟩ := mem_series.1 hx
  refine ite50 ?_ ?_
  · constructor <;> norm_num
  · have a := obvAt_range hF (rd close) (rd vol) lb sc i
    have b := obvAt_range hF (rd close) (rd vol) lb sc (i - if d < 1 then 1 else d)
    constructor <;> linarith [a.1, a.2, b.1, b.2]

/-! ## C79: money flow -/

/-- C79.  On well-formed bars with non-negative volume `money_flow` lies in [-100, 100]. -/
theorem moneyFlow_range {high low close vol out : List K} {lb : Nat} {sm : K}
    (hw : WellFormed high low close) (hv : ∀ i, 0 ≤ rd vol i)
    (h : flow high low close vol lb sm true = some out) : ∀ v ∈ out, -100 ≤ v ∧ v ≤ 100 := by
  obtain ⟨⟨e1, e2, e3, hlb, _⟩, rfl⟩ := ite_some h
  have hlb0 : (0 : K) < lb := by exact_mod_cast hlb
  have hraw : ∀ j, j < close.length → -100 * rd vol j ≤
      flowRaw (rd high) (rd low) (rd close) (rd vol) (firstVolume vol) j ∧
      flowRaw (rd high) (rd low) (rd close) (rd vol) (firstVolume vol) j ≤ 100 * rd vol j := by
    intro j hj
    have hvj := hv j
    unfold flowRaw
    split
    · constructor <;> linarith
    · split
      · rename_i hhl
        obtain ⟨w1, w2⟩ := hw j hj
        have hd : 0 < rd high j - rd low j := by linarith
        have q1 : -100 ≤ 100 * (2 * rd close j - rd high j - rd low j) / (rd high j - rd low j) := by
          rw [le_div_iff₀ hd]; linarith
        have q2 : 100 * (2 * rd close j - rd high j - rd low j) / (rd high j - rd low j) ≤ 100 := by
          rw [div_le_iff₀ hd]; linarith
        exact ⟨mul_le_mul_of_nonneg_right q1 hvj, mul_le_mul_of_nonneg_right q2 hvj⟩
      · constructor <;> linarith
  have havg : ∀ i, i < close.length → lb - 1 + firstVolume vol ≤ i →
      -100 * (sumIn 0 lb (fun j => rd vol (i - j)) / lb) ≤
        flowAvg (rd high) (rd low) (rd close) (rd vol) (firstVolume vol) lb i ∧
      flowAvg (rd high) (rd low) (rd close) (rd vol) (firstVolume vol) lb i ≤
        100 * (sumIn 0 lb (fun j => rd vol (i - j)) / lb) := by
    intro i hi hfi
    unfold flowAvg
    split
    · have s1 := sumIn_le (a := 0) (b := lb) (fun j _ _ => (hraw (i - j) (by omega)).1)
      have s2 := sumIn_le (a := 0) (b := lb) (fun j _ _ => (hraw (i - j) (by omega)).2)
      rw [sumIn_mul] at s1 s2
      rw [← mul_div_assoc, ← mul_div_assoc]
      exact ⟨(div_le_div_iff_of_pos_right hlb0).2 s1, (div_le_div_iff_of_pos_right hlb0).2 s2⟩
    · have : lb = 1 := by omega
      subst this
      have := hraw i hi
      have e : sumIn 0 1 (fun j => rd vol (i - j)) = rd vol i := by
        simp [sumIn, loop, List.range']
      rw [e]
      simpa using this
  intro x hx
  obtain ⟨i, hi, rfl⟩ := mem_series.1 hx
  have z : (-100 : K) ≤ 0 ∧ (0 : K) ≤ 100 := by constructor <;> norm_num
  split
  · exact z
  · rename_i hf
    simp only [if_true]
    split
    · rename_i hpos
      have := havg i hi (by omega)
      rw [le_div_iff₀ hpos, div_le_iff₀ hpos]
      exact this
    · exact z

/-! ## C78: ATR -/

/-- C78.  On bars with low ≤ high, `atr` is NaN on the first `lookback` bars and afterwards the
mean of the true ranges of the last `lookback` bars. -/
theorem atr_mean {F : Fns K} {high low close : List K} {lb : Nat} {out : List (Option K)}
    (hw : ∀ i, i < close.length → rd low i ≤ rd high i)
    (h : atr F high low close lb = some out) :
    out.length = close.length ∧ ∀ i < close.length,
      (i < lb → out[i]? = some none) ∧
      (lb ≤ i → ∃ tr : List K, tr.length = lb ∧
        (∀ k, k < lb → ∃ r, tr[k]? = some r ∧ IsTrueRange high low close (i - lb + 1 + k) r) ∧
        out[i]? = some (some (tr.sum / lb))) := by
  unfold atr at h
  split at h
  · rename_i hlen
    obtain ⟨rfl, hn⟩ := verified_some h (series_length _ _)
    refine ⟨series_length _ _, fun i hi => ?_⟩
    rw [series_get _ hi]
    refine ⟨fun hlt => by rw [if_pos hlt], fun hle => ?_⟩
    rw [if_neg (by omega)]
    have hlb := (hn (by omega)).1
    have htr : ∀ j, j < close.length → IsTrueRange high low close j
        (trueRange (rd high) (rd low) (rd close) j) := by
      intro j hj
      have := hw j hj
      unfold IsTrueRange trueRange
      simp only
      generalize rd high j = hh at *
      generalize rd low j = ll at *
      generalize rd close (j - 1) = cc at *
      rcases le_or_gt cc ll with c1 | c1
      · -- the previous close is below the low
        rw [abs_of_nonneg (by linarith), abs_of_nonneg (by linarith)]
        rw [max_eq_left (a := hh - cc) (by linarith), max_eq_right (by linarith)]
        split <;> split <;> linarith
      · rcases le_or_gt hh cc with c2 | c2
        · rw [abs_of_nonpos (by linarith), abs_of_nonpos (by linarith)]
          rw [max_eq_right (a := -(hh - cc)) (by linarith), max_eq_right (by linarith)]
          split <;> split <;> linarith
        · rw [abs_of_nonneg (a := hh - cc) (by linarith), abs_of_nonpos (by linarith)]
          rw [max_eq_left (a := hh - ll) (max_le (by linarith) (by linarith))]
          split <;> split <;> linarith
    refine ⟨(List.range' (i + 1 - lb) lb).map (trueRange (rd high) (rd low) (rd close)),
      by simp, ?_, ?_⟩
    · intro k hk
      refine ⟨trueRange (rd high) (rd low) (rd close) (i - lb + 1 + k), ?_, htr _ (by omega)⟩
      rw [List.getElem?_map, List.getElem?_range' (by omega)]
      simp only [Option.map_some]
      congr 2
      omega
    · unfold atrAt
      rw [if_neg (by omega)]
      simp only [Bool.false_eq_true, if_false]
      congr 3
      unfold sumIn loop
      rw [show i + 1 - (i + 1 - lb) = lb by omega]
      have : ∀ (l : List Nat) (s : K),
          l.foldl (fun s j => s + trueRange (rd high) (rd low) (rd close) j) s =
          s + (l.map (trueRange (rd high) (rd low) (rd close))).sum := by
        intro l
        induction l with
        | nil => intro s; simp
        | cons x l ih => intro s; rw [List.foldl_cons, ih, List.map_cons, List.sum_cons, add_assoc]
      rw [this, zero_add]
  · cases h

/-! ## Concrete bars -/

example : WellFormed (K := ℚ) [3, 4, 6, 5] [1, 2, 3, 4] [2, 3, 5, 4] := by
  intro i hi
  match i, hi with
  | 0, _ => decide +kernel
  | 1, _ => decide +kernel
  | 2, _ => decide +kernel
  | 3, _ => decide +kernel
example : (stochastic (K := ℚ) [3, 4, 6, 5] [1, 2, 3, 4] [2, 3, 5, 4] 2 1).isSome = true := by decide +kernel
example : (adx (K := ℚ) [3, 4, 6, 5] [1, 2, 3, 4] [2, 3, 5, 4] 2).isSome = true := by decide +kernel
example : flow (K := ℚ) [3, 4, 6, 5] [1, 2, 3, 4] [2, 3, 5, 4] [1, 2, 1, 0] 2 0 true =
    some [0, 0, 100 / 9, 100 / 3] := by decide +kernel
example : CdfOk demoFns := by
  intro z
  simp only [demoFns]
  split <;> constructor <;> norm_num

end PyBroker
