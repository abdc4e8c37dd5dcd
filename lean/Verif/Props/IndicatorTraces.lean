import Verif.Props.IndicatorForms

/-!
# Indicators that carry a state (C161)

`reactivity`, `laguerre_rsi` and the Aroon indicators of `/repo/src/pybroker/vect.py`: what the state of
the loop is after each bar, in terms of the series.
-/

namespace PyBroker

open Finset

/-! ## Specification -/

section
variable {K : Type} [Field K] [LinearOrder K]

/-- The largest value of the bars `i - n` to `i` that are not before `s`. -/
def Spec.HighSince (x : Nat → K) (s n i : Nat) (m : K) : Prop :=
  (∃ j, s ≤ j ∧ j ≤ i ∧ i ≤ j + n ∧ x j = m) ∧ ∀ j, s ≤ j → j ≤ i → i ≤ j + n → x j ≤ m

/-- The smallest. -/
def Spec.LowSince (x : Nat → K) (s n i : Nat) (m : K) : Prop :=
  (∃ j, s ≤ j ∧ j ≤ i ∧ i ≤ j + n ∧ x j = m) ∧ ∀ j, s ≤ j → j ≤ i → i ≤ j + n → m ≤ x j

/-- Reactivity of bar `i`, from the range `w` of the window, its average `W` and the average `V` of the
volume `v`: the move, over the average range, times how wide the range is for the volume. -/
def Spec.reaction (w W v V move : K) : K :=
  (if 0 < v ∧ 0 < V then (w / W) / (v / V) else 1) * move / W

/-- A Laguerre filter: from bar `s`, level 0 is the average of the source with the weight `a k` on bar
`k`; each further level is the level before it passed through the all-pass step.  Bars that do not `move`
keep the levels; before bar `s` they are 0. -/
structure Spec.Laguerre (a src : Nat → K) (move : Nat → Prop) (s : Nat) (L : Nat → Nat → K) : Prop where
  zero : ∀ m k, k < s → L m k = 0
  first : ∀ k, s ≤ k → move k → L 0 k = a k * src k + (1 - a k) * L 0 (k - 1)
  next : ∀ m k, m < 3 → s ≤ k → move k →
    L (m + 1) k = L m (k - 1) - (1 - a k) * L m k + (1 - a k) * L (m + 1) (k - 1)
  still : ∀ m k, m < 4 → s ≤ k → ¬ move k → L m k = L m (k - 1)

/-- The source of the filter: the mean of the mid price, the extremes and the close of a bar that starts
at the last close. -/
def Spec.lagSource (opn high low close : List K) (k : Nat) : K :=
  ((opn.getD k 0 + close.getD (k - 1) 0) / 2 + max (high.getD k 0) (close.getD (k - 1) 0) +
    min (low.getD k 0) (close.getD (k - 1) 0) + close.getD k 0) / 4

/-- The fractal energy of the last `n` bars up to `k`: the logarithm to the base `n` of the path of the bars
over their common range `w`. -/
def Spec.energy (log : K → K) (high low close : List K) (n k : Nat) (w : K) : K :=
  let path := ∑ j ∈ range n, (max (high.getD (k - j) 0) (close.getD (k - j - 1) 0) -
    min (low.getD (k - j) 0) (close.getD (k - j - 1) 0))
  if 0 < path / w then log (path / w) / log n else 0

end

open PyBroker.Spec

variable {K : Type} [Field K] [LinearOrder K] [IsStrictOrderedRing K]

/-! ## Reactivity -/

theorem highSince_unique {x : Nat → K} {s n i : Nat} {a b : K} (ha : HighSince x s n i a)
    (hb : HighSince x s n i b) : a = b := by
  obtain ⟨⟨j, a1, a2, a3, rfl⟩, a4⟩ := ha
  obtain ⟨⟨k, b1, b2, b3, rfl⟩, b4⟩ := hb
  exact le_antisymm (b4 _ a1 a2 a3) (a4 _ b1 b2 b3)

theorem lowSince_unique {x : Nat → K} {s n i : Nat} {a b : K} (ha : LowSince x s n i a)
    (hb : LowSince x s n i b) : a = b := by
  obtain ⟨⟨j, a1, a2, a3, rfl⟩, a4⟩ := ha
  obtain ⟨⟨k, b1, b2, b3, rfl⟩, b4⟩ := hb
  exact le_antisymm (a4 _ b1 b2 b3) (b4 _ a1 a2 a3)

theorem high_warm {x : Nat → K} {s n i : Nat} {m : K} (h : HighSince x s n i m) (hi : i + 1 ≤ s + n) :
    HighSince x s n (i + 1) (if x (i + 1) > m then x (i + 1) else m) := by
  obtain ⟨⟨j, h1, h2, h3, h4⟩, h5⟩ := h
  constructor
  · split
    · exact ⟨i + 1, by omega, le_refl _, by omega, rfl⟩
    · exact ⟨j, h1, by omega, by omega, h4⟩
  · intro k k1 k2 k3
    by_cases hk : k = i + 1
    · subst hk
      split
      · exact le_refl _
      · rename_i h; exact not_lt.1 h
    · have := h5 k k1 (by omega) (by omega)
      split
      · rename_i h; exact this.trans h.le
      · exact this

theorem low_warm {x : Nat → K} {s n i : Nat} {m : K} (h : LowSince x s n i m) (hi : i + 1 ≤ s + n) :
    LowSince x s n (i + 1) (if x (i + 1) < m then x (i + 1) else m) := by
  obtain ⟨⟨j, h1, h2, h3, h4⟩, h5⟩ := h
  constructor
  · split
    · exact ⟨i + 1, by omega, le_refl _, by omega, rfl⟩
    · exact ⟨j, h1, by omega, by omega, h4⟩
  · intro k k1 k2 k3
    by_cases hk : k = i + 1
    · subst hk
      split
      · exact le_refl _
      · rename_i h; exact not_lt.1 h
    · have := h5 k k1 (by omega) (by omega)
      split
      · rename_i h; exact h.le.trans this
      · exact this

theorem since_scan (h l : Nat → K) (s i : Nat) : ∀ n, s + n ≤ i →
    let m := loop 1 (n + 1) (fun (m : K × K) j =>
      (if l (i - j) < m.1 then l (i - j) else m.1, if h (i - j) > m.2 then h (i - j) else m.2)) (l i, h i)
    LowSince l s n i m.1 ∧ HighSince h s n i m.2 := by
  intro n
  induction n with
  | zero =>
    intro hn
    simp only [loop, Nat.sub_self, List.range'_zero, List.foldl_nil]
    refine ⟨⟨⟨i, by omega, le_refl _, by omega, rfl⟩, fun j _ h1 h2 => ?_⟩,
      ⟨⟨i, by omega, le_refl _, by omega, rfl⟩, fun j _ h1 h2 => ?_⟩⟩
    · rw [show j = i by omega]
    · rw [show j = i by omega]
  | succ n ih =>
    intro hn
    have ih := ih (by omega)
    simp only at ih ⊢
    rw [loop_append (by omega)]
    generalize loop 1 (n + 1) (fun (m : K × K) j =>
      (if l (i - j) < m.1 then l (i - j) else m.1, if h (i - j) > m.2 then h (i - j) else m.2)) (l i, h i) = m at ih
    obtain ⟨⟨⟨a, a0, a1, a2, a3⟩, a4⟩, ⟨⟨b, b0, b1, b2, b3⟩, b4⟩⟩ := ih
    refine ⟨⟨?_, fun j h0 h1 h2 => ?_⟩, ⟨?_, fun j h0 h1 h2 => ?_⟩⟩
    · simp only
      split
      · exact ⟨i - (n + 1), by omega, by omega, by omega, rfl⟩
      · exact ⟨a, a0, a1, by omega, a3⟩
    · simp only
      by_cases hj : i ≤ j + n
      · have := a4 j h0 h1 hj
        split
        · rename_i hlt; exact hlt.le.trans this
        · exact this
      · rw [show j = i - (n + 1) by omega]
        split
        · exact le_refl _
        · rename_i hlt; exact not_lt.1 hlt
    · simp only
      split
      · exact ⟨i - (n + 1), by omega, by omega, by omega, rfl⟩
      · exact ⟨b, b0, b1, by omega, b3⟩
    · simp only
      by_cases hj : i ≤ j + n
      · have := b4 j h0 h1 hj
        split
        · rename_i hlt; exact this.trans hlt.le
        · exact this
      · rw [show j = i - (n + 1) by omega]
        split
        · exact le_refl _
        · rename_i hlt; exact not_lt.1 hlt

/-- The state of the loop after bar `i`. -/
def ReactOk (h l v hi lo : Nat → K) (α : K) (s n i : Nat) (st : ReactSt K) : Prop :=
  HighSince h s n i st.highest ∧ LowSince l s n i st.lowest ∧
    st.range = ema α (fun k => hi k - lo k) s i ∧ st.volume = ema α v s i

theorem react_warm {h l v hi lo : Nat → K} {α : K} {s n t : Nat}
    (hh : ∀ k, s ≤ k → k ≤ t → HighSince h s n k (hi k)) (hl : ∀ k, s ≤ k → k ≤ t → LowSince l s n k (lo k)) :
    ∀ i, s ≤ i → i ≤ t → i + 1 ≤ s + n → ReactOk h l v hi lo α s n i
      (loop (s + 1) (i + 1) (reactWarm h l v α) ⟨l s, h s, h s - l s, v s⟩) := by
  intro i hi'
  induction i, hi' using Nat.le_induction with
  | base =>
    intro ht hn
    simp only [loop, Nat.sub_self, List.range'_zero, List.foldl_nil]
    have e1 : HighSince h s n s (h s) :=
      ⟨⟨s, le_refl _, le_refl _, by omega, rfl⟩, fun j a b _ => by rw [show j = s by omega]⟩
    have e2 : LowSince l s n s (l s) :=
      ⟨⟨s, le_refl _, le_refl _, by omega, rfl⟩, fun j a b _ => by rw [show j = s by omega]⟩
    refine ⟨e1, e2, ?_, ?_⟩
    · rw [ema_start, highSince_unique (hh s (le_refl _) ht) e1, lowSince_unique (hl s (le_refl _) ht) e2]
    · rw [ema_start]
  | succ i hsi ih =>
    intro ht hn
    obtain ⟨a, b, c, d⟩ := ih (by omega) (by omega)
    rw [loop_append (by omega)]
    have e1 := high_warm a (by omega)
    have e2 := low_warm b (by omega)
    refine ⟨e1, e2, ?_, ?_⟩
    · rw [ema_step _ _ hsi, ← c, highSince_unique (hh (i + 1) (by omega) ht) e1,
        lowSince_unique (hl (i + 1) (by omega) ht) e2]
      rfl
    · rw [ema_step _ _ hsi, ← d]
      rfl

theorem react_bar {h l v hi lo : Nat → K} {α : K} {s n t : Nat} (hs : s + n ≤ t)
    (hh : ∀ k, s ≤ k → k ≤ t → HighSince h s n k (hi k)) (hl : ∀ k, s ≤ k → k ≤ t → LowSince l s n k (lo k))
    {i : Nat} (ht : i + 1 ≤ t) (hsi : s ≤ i) {st : ReactSt K} (hst : ReactOk h l v hi lo α s n i st)
    (hn : s + n ≤ i + 1) : ReactOk h l v hi lo α s n (i + 1) (reactStep h l v α n st (i + 1)) := by
  obtain ⟨a, b, c, d⟩ := hst
  have e := since_scan h l s (i + 1) n hn
  simp only at e
  refine ⟨e.2, e.1, ?_, ?_⟩
  · rw [ema_step _ _ hsi, ← c, highSince_unique (hh (i + 1) (by omega) ht) e.2,
      lowSince_unique (hl (i + 1) (by omega) ht) e.1]
    rfl
  · rw [ema_step _ _ hsi, ← d]
    rfl

theorem react_state {h l v hi lo : Nat → K} {α : K} {s n t : Nat} (hn : 0 < n) (hs : s + n ≤ t)
    (hh : ∀ k, s ≤ k → k ≤ t → HighSince h s n k (hi k)) (hl : ∀ k, s ≤ k → k ≤ t → LowSince l s n k (lo k)) :
    ReactOk h l v hi lo α s n t (loop (s + n) (t + 1) (reactStep h l v α n)
      (loop (s + 1) (s + n) (reactWarm h l v α) ⟨l s, h s, h s - l s, v s⟩)) := by
  have hw := react_warm (v := v) (α := α) hh hl (s + n - 1) (by omega) (by omega) (by omega)
  rw [show s + n - 1 + 1 = s + n by omega] at hw
  have key : ∀ i, s + n ≤ i → i ≤ t → ReactOk h l v hi lo α s n i (loop (s + n) (i + 1) (reactStep h l v α n)
      (loop (s + 1) (s + n) (reactWarm h l v α) ⟨l s, h s, h s - l s, v s⟩)) := by
    intro i hi'
    induction i, hi' using Nat.le_induction with
    | base =>
      intro ht
      rw [loop_append (le_refl _)]
      have := react_bar hs hh hl (i := s + n - 1) (by omega) (by omega) hw (by omega)
      rw [show s + n - 1 + 1 = s + n by omega] at this
      simp only [loop, Nat.sub_self, List.range'_zero, List.foldl_nil] at this ⊢
      exact this
    | succ i hsi ih =>
      intro ht
      rw [loop_append (by omega)]
      exact react_bar hs hh hl ht (by omega) (ih (by omega)) (by omega)
  exact key t hs (le_refl _)

/-- **C161: `reactivity`.**  From the first bar with volume on, the range is that of the last `n + 1` bars;
the range and the volume are averaged exponentially with the factor `2 / (n * smoothing + 1)`, at most 1.
The value of a bar is the squashed reaction of its window; the first `n` bars have 0. -/
theorem reactivity_state {F : Fns K} {high low close volume out : List K} {n : Nat} {smoothing scale : K}
    (h : reactivity F high low close volume n smoothing scale = some out) {i s : Nat}
    (hi : i < close.length) (hsl : s < close.length) (hv : 0 < volume.getD s 0)
    (hb : ∀ k < s, ¬ 0 < volume.getD k 0) (hr : high.getD s 0 ≠ low.getD s 0) {top bottom : Nat → K}
    (ht : ∀ k, s ≤ k → k ≤ i → HighSince (fun k => high.getD k 0) s n k (top k))
    (hl : ∀ k, s ≤ k → k ≤ i → LowSince (fun k => low.getD k 0) s n k (bottom k)) :
    let α := min (2 / ((n : K) * smoothing + 1)) 1
    out[i]? = some (if i < s + n then 0 else
      squash F (scale * reaction (top i - bottom i) (ema α (fun k => top k - bottom k) s i)
        (volume.getD i 0) (ema α (fun k => volume.getD k 0) s i)
        (close.getD i 0 - close.getD (i - n) 0))) := by
  unfold reactivity at h
  split at h
  · rename_i hc
    obtain ⟨h1, h2, h3, hn, h4, h5⟩ := hc
    cases h
    intro α
    have hfv : firstVolume volume = s := firstVolume_first (by omega) hv hb
    rw [series_get _ hi, hfv, if_neg (show rd high s - rd low s ≠ 0 from sub_ne_zero.2 hr)]
    have hα : (if 2 / ((n : K) * smoothing + 1) > 1 then 1 else 2 / ((n : K) * smoothing + 1)) = α := by
      simp only [α]
      split
      · rename_i h; exact (min_eq_right h.le).symm
      · rename_i h; exact (min_eq_left (not_lt.1 h)).symm
    simp only [hα]
    by_cases hin : i < s + n
    · rw [if_pos hin]
      split
      · rfl
      · rw [if_pos (by omega)]
    · rw [if_neg hin, if_neg (by omega), if_neg (by omega)]
      obtain ⟨a, b, c, d⟩ := react_state (h := rd high) (l := rd low) (v := rd volume) (hi := top) (lo := bottom)
        (α := α) hn (by omega) ht hl
      unfold reactAt
      simp only
      rw [c, d, highSince_unique a (ht i (by omega) (le_refl _)), lowSince_unique b (hl i (by omega) (le_refl _))]
      unfold squash reaction rd
      rfl
  · cases h

/-- C161: with no range on the first bar with volume, `reactivity` is 0 on every bar. -/
theorem reactivity_flat {F : Fns K} {high low close volume out : List K} {n : Nat} {smoothing scale : K}
    (h : reactivity F high low close volume n smoothing scale = some out) {s : Nat}
    (hsl : s < close.length) (hv : 0 < volume.getD s 0)
    (hb : ∀ k < s, ¬ 0 < volume.getD k 0) (hr : high.getD s 0 = low.getD s 0) {i : Nat}
    (hi : i < close.length) : out[i]? = some 0 := by
  unfold reactivity at h
  split at h
  · cases h
    have hfv : firstVolume volume = s := firstVolume_first (by omega) hv hb
    rw [series_get _ hi, hfv, if_pos (show rd high s - rd low s = 0 from sub_eq_zero.2 hr)]
  · cases h

/-! ## Laguerre RSI -/

theorem maxIn_high {x : Nat → K} {n i : Nat} (hn : 0 < n) (h : n ≤ i + 1) :
    IsHigh x n i (maxIn x (i + 1 - n) (i + 1)) := by
  have key : ∀ m, ∀ a, a + m = i → (∃ j, a ≤ j ∧ j ≤ i ∧ x j = maxIn x a (i + 1)) ∧
      ∀ j, a ≤ j → j ≤ i → x j ≤ maxIn x a (i + 1) := by
    intro m a ha
    subst ha
    clear h
    induction m with
    | zero =>
      have : maxIn x a (a + 0 + 1) = x a := by simp [maxIn, loop]
      rw [this]
      exact ⟨⟨a, le_refl _, by omega, rfl⟩, fun j h1 h2 => by rw [show j = a by omega]⟩
    | succ m ih =>
      obtain ⟨⟨j, j1, j2, j3⟩, j4⟩ := ih
      have e : maxIn x a (a + (m + 1) + 1) = if x (a + m + 1) > maxIn x a (a + m + 1) then x (a + m + 1)
          else maxIn x a (a + m + 1) := by
        unfold maxIn
        rw [show a + (m + 1) + 1 = (a + m + 1) + 1 by omega, loop_append (by omega)]
      rw [e]
      constructor
      · split
        · exact ⟨a + m + 1, by omega, by omega, rfl⟩
        · exact ⟨j, j1, by omega, j3⟩
      · intro k k1 k2
        by_cases hk : k = a + m + 1
        · subst hk
          split
          · exact le_refl _
          · rename_i h; exact not_lt.1 h
        · have := j4 k k1 (by omega)
          split
          · rename_i h; exact this.trans h.le
          · exact this
  obtain ⟨⟨j, j1, j2, j3⟩, j4⟩ := key (n - 1) (i + 1 - n) (by omega)
  exact ⟨⟨j, j2, by omega, j3⟩, fun k k1 k2 => j4 k (by omega) k1⟩

theorem minIn_neg (x : Nat → K) (a b : Nat) : minIn x a b = - maxIn (fun j => - x j) a b := by
  unfold minIn maxIn loop
  simp only
  generalize List.range' (a + 1) (b - (a + 1)) = l
  generalize x a = m
  induction l generalizing m with
  | nil => simp
  | cons j l ih =>
    simp only [List.foldl_cons]
    rw [ih]
    congr 2
    by_cases hj : x j < m
    · rw [if_pos hj, if_pos (by simpa using hj)]
    · rw [if_neg hj, if_neg (by simpa using hj)]

theorem minIn_low {x : Nat → K} {n i : Nat} (hn : 0 < n) (h : n ≤ i + 1) :
    IsLow x n i (minIn x (i + 1 - n) (i + 1)) := by
  obtain ⟨⟨j, j1, j2, j3⟩, j4⟩ := maxIn_high (x := fun j => - x j) hn h
  rw [minIn_neg]
  refine ⟨⟨j, j1, j2, by rw [← j3]; ring⟩, fun k k1 k2 => ?_⟩
  have := j4 k k1 k2
  linarith

theorem lagSum_path (h l c : List K) (n : Nat) (w : K) (i : Nat) :
    lagSum (rd h) (rd l) (rd c) n w i = (∑ j ∈ range n, (max (h.getD (i - j) 0) (c.getD (i - j - 1) 0) -
      min (l.getD (i - j) 0) (c.getD (i - j - 1) 0))) / w := by
  unfold lagSum
  rw [sumIn_zero, sum_div]
  rfl

/-- The levels of the filter in the state of the loop. -/
def lagLevel (s : LagSt K) : Nat → K
  | 0 => s.l0
  | 1 => s.l1
  | 2 => s.l2
  | 3 => s.l3
  | _ => 0

theorem pos_part (a b : K) : (if a ≥ b then a - b else 0) = max (a - b) 0 := by
  split
  · rename_i h; exact (max_eq_left (sub_nonneg.2 h)).symm
  · rename_i h; exact (max_eq_right (by have := not_le.1 h; linarith)).symm

theorem both_parts (a b : K) : (if a ≥ b then a - b else 0) + (if a ≥ b then 0 else b - a) = |a - b| := by
  split
  · rename_i h; rw [abs_of_nonneg (sub_nonneg.2 h), add_zero]
  · rename_i h; rw [abs_of_nonpos (by have := not_le.1 h; linarith)]; ring

/-- **C161: `laguerre_rsi`.**  There are levels of a four-element Laguerre filter, run from bar `n` over the
mean price with the fractal energy of the last `n` bars as its weight, such that the value of a bar is the
share of the falls from level to level in all differences between them, from 0 to 100. -/
theorem laguerre_filter {F : Fns K} {opn high low close out : List K} {n : Nat}
    (h : laguerreRsi F opn high low close n = some out) (hn : n ≠ 1) {top bottom : Nat → K}
    (ht : ∀ k, n ≤ k → IsHigh (fun k => high.getD k 0) n k (top k))
    (hl : ∀ k, n ≤ k → IsLow (fun k => low.getD k 0) n k (bottom k)) :
    ∃ L, Laguerre (fun k => energy F.log high low close n k (top k - bottom k))
        (lagSource opn high low close) (fun k => top k ≠ bottom k) n L ∧
      ∀ i, i < close.length → out[i]? = some (
        if i < n ∨ top i = bottom i then 0
        else if ∑ m ∈ range 3, |L m i - L (m + 1) i| = 0 then 0
        else 100 * (∑ m ∈ range 3, max (L m i - L (m + 1) i) 0) / ∑ m ∈ range 3, |L m i - L (m + 1) i|) := by
  unfold laguerreRsi at h
  split at h
  · rename_i hc
    obtain ⟨_, _, _, hn0⟩ := hc
    cases h
    have hd : ∀ k, n ≤ k → maxIn (rd high) (k + 1 - n) (k + 1) - minIn (rd low) (k + 1 - n) (k + 1) =
        top k - bottom k := by
      intro k hk
      rw [isHigh_unique (maxIn_high (x := rd high) hn0 (by omega)) (ht k hk),
        isLow_unique (minIn_low (x := rd low) hn0 (by omega)) (hl k hk)]
    let S := fun k => loop n (k + 1) (lagStep F (rd opn) (rd high) (rd low) (rd close) n) ⟨0, 0, 0, 0, 0⟩
    have S0 : ∀ k, k < n → S k = ⟨0, 0, 0, 0, 0⟩ := by
      intro k hk
      simp only [S, loop, show k + 1 - n = 0 by omega, List.range'_zero, List.foldl_nil]
    have S1 : ∀ k, n ≤ k → S k = lagStep F (rd opn) (rd high) (rd low) (rd close) n (S (k - 1)) k := by
      intro k hk
      simp only [S]
      rw [loop_append hk, show k - 1 + 1 = k by omega]
    have Sm : ∀ k, n ≤ k → top k ≠ bottom k → S k = lagFilter F n (S (k - 1)) (lagSource opn high low close k)
        (lagSum (rd high) (rd low) (rd close) n (top k - bottom k) k) := by
      intro k hk hm
      rw [S1 k hk]
      unfold lagStep
      simp only [hd k hk]
      rw [if_neg (sub_ne_zero.2 hm)]
      rfl
    have Ss : ∀ k, n ≤ k → top k = bottom k → S k = { S (k - 1) with out := 0 } := by
      intro k hk hm
      rw [S1 k hk]
      unfold lagStep
      simp only [hd k hk]
      rw [if_pos (sub_eq_zero.2 hm)]
    have he : ∀ k, (if lagSum (rd high) (rd low) (rd close) n (top k - bottom k) k > 0 then
        F.log (lagSum (rd high) (rd low) (rd close) n (top k - bottom k) k) / F.log n else 0) =
        energy F.log high low close n k (top k - bottom k) := by
      intro k
      rw [lagSum_path]
      rfl
    refine ⟨fun m k => lagLevel (S k) m, ⟨?_, ?_, ?_, ?_⟩, ?_⟩
    · intro m k hk
      beta_reduce
      rw [S0 k hk]
      match m with
      | 0 | 1 | 2 | 3 => rfl
      | _ + 4 => rfl
    · intro k hk hm
      beta_reduce
      rw [Sm k hk hm]
      simp only [lagFilter, lagLevel, he]
    · intro m k hm3 hk hm
      beta_reduce
      rw [Sm k hk hm]
      match m, hm3 with
      | 0, _ => simp only [lagFilter, lagLevel, he]; ring
      | 1, _ => simp only [lagFilter, lagLevel, he]; ring
      | 2, _ => simp only [lagFilter, lagLevel, he]; ring
    · intro m k hm4 hk hm
      beta_reduce
      rw [Ss k hk (not_not.1 hm)]
      match m, hm4 with
      | 0, _ => rfl
      | 1, _ => rfl
      | 2, _ => rfl
      | 3, _ => rfl
    · intro i hi
      rw [series_get _ hi]
      by_cases hin : i < n
      · rw [if_pos (Or.inr (Or.inr hin)), if_pos (Or.inl hin)]
      · rw [if_neg (by omega)]
        change some (S i).out = _
        by_cases hm : top i = bottom i
        · rw [if_pos (Or.inr hm), Ss i (by omega) hm]
        · rw [if_neg (by tauto)]
          beta_reduce
          rw [Sm i (by omega) hm]
          simp only [lagFilter, lagLevel, sum_range_succ, sum_range_zero, zero_add, he]
          generalize energy F.log high low close n i (top i - bottom i) = a
          generalize a * lagSource opn high low close i + (1 - a) * (S (i - 1)).l0 = l0
          generalize -(1 - a) * l0 + (S (i - 1)).l0 + (1 - a) * (S (i - 1)).l1 = l1
          generalize -(1 - a) * l1 + (S (i - 1)).l1 + (1 - a) * (S (i - 1)).l2 = l2
          generalize -(1 - a) * l2 + (S (i - 1)).l2 + (1 - a) * (S (i - 1)).l3 = l3
          simp only [← both_parts, ← pos_part]
          generalize (if l0 ≥ l1 then l0 - l1 else 0) = u0
          generalize (if l1 ≥ l2 then l1 - l2 else 0) = u1
          generalize (if l2 ≥ l3 then l2 - l3 else 0) = u2
          generalize (if l0 ≥ l1 then 0 else l1 - l0) = d0
          generalize (if l1 ≥ l2 then 0 else l2 - l1) = d1
          generalize (if l2 ≥ l3 then 0 else l3 - l2) = d2
          rw [show u0 + u1 + u2 + (d0 + d1 + d2) = u0 + d0 + (u1 + d1) + (u2 + d2) by ring]
          by_cases h0 : u0 + d0 + (u1 + d1) + (u2 + d2) = 0
          · rw [if_neg (not_not.2 h0), if_pos h0, zero_mul]
          · rw [if_pos h0, if_neg h0]
            congr 1
            ring
  · cases h

/-! ## Aroon -/

/-- **C161: `aroon_diff`** is `aroon_up` less `aroon_down`: how many bars longer ago the latest low of the
window is than its latest high, in hundredths of its length. -/
theorem aroon_difference {high low df : List K} {n i : Nat} (h : aroonDiff high low n = some df) (hi0 : 0 < i)
    (hi : i < high.length) :
    ∃ a b, (a ≤ i ∧ a ≤ n ∧ (∀ d, d ≤ i → d ≤ n → high.getD (i - d) 0 ≤ high.getD (i - a) 0) ∧
        ∀ d, d < a → high.getD (i - d) 0 < high.getD (i - a) 0) ∧
      (b ≤ i ∧ b ≤ n ∧ (∀ d, d ≤ i → d ≤ n → low.getD (i - b) 0 ≤ low.getD (i - d) 0) ∧
        ∀ d, d < b → low.getD (i - b) 0 < low.getD (i - d) 0) ∧
      df[i]? = some (100 * ((b : K) - a) / n) := by
  obtain ⟨hc, rfl⟩ := ite_some h
  obtain ⟨⟨a, a1, a2, a3, a4, a5⟩, ⟨b, b1, b2, b3, b4, b5⟩⟩ :=
    aroon_value (high := high) (low := low) (lb := n) (if_pos hc) (if_pos hc) hi0 hi
  refine ⟨a, b, ⟨a1, a2, a3, a4⟩, ⟨b1, b2, b3, b4⟩, ?_⟩
  rw [series_get _ hi, if_neg (by omega)] at a5 b5 ⊢
  rw [Option.some.inj a5, Option.some.inj b5]
  congr 1
  ring

/-! ## Bars -/

namespace Demo

/-- The highest of the highs 8, 7 and 6 since bar 1 and the lowest of the lows 5, 4 and 3. -/
example : HighSince (fun k => ifH.getD k 0) 1 2 4 (8 : ℚ) ∧ LowSince (fun k => ifL.getD k 0) 1 2 4 (3 : ℚ) := by
  refine ⟨⟨⟨2, by decide, by decide, by decide, by decide +kernel⟩, fun j h0 h1 h2 => ?_⟩,
    ⟨⟨4, by decide, by decide, by decide, by decide +kernel⟩, fun j h0 h1 h2 => ?_⟩⟩
  · obtain rfl | rfl | rfl : j = 2 ∨ j = 3 ∨ j = 4 := by omega
    all_goals decide +kernel
  · obtain rfl | rfl | rfl : j = 2 ∨ j = 3 ∨ j = 4 := by omega
    all_goals decide +kernel

/-- Ranges 2, 4, 4 and 5 of the window with the factor 2/3, on a demo scale that squashes nothing. -/
example : ∃ out : List ℚ, reactivity isF ifH ifL isC isV 2 1 1 = some out ∧ out[1]? = some 0 ∧
    out[3]? = some (squash isF (reaction (8 - 4)
      (ema (2 / 3) (fun k => [2, 3, 5, 4].getD k 0) 0 3) (isV.getD 3 0) (ema (2 / 3) (fun k => isV.getD k 0) 0 3)
      (isC.getD 3 0 - isC.getD 1 0))) := by
  refine ⟨_, rfl, ?_, ?_⟩ <;> decide +kernel

/-- Every series has the extremes that the theorems speak of. -/
example : (∃ top : Nat → ℚ, ∀ k, 3 ≤ k → IsHigh (fun k => ifH.getD k 0) 3 k (top k)) ∧
    ∃ bottom : Nat → ℚ, ∀ k, 3 ≤ k → IsLow (fun k => ifL.getD k 0) 3 k (bottom k) :=
  ⟨⟨_, fun k hk => maxIn_high (by decide) (by omega)⟩, ⟨_, fun k hk => minIn_low (by decide) (by omega)⟩⟩

example : (laguerreRsi isF isC ifH ifL isC 3).isSome ∧ (aroonDiff ifH ifL 3).isSome := by decide +kernel

/-- The latest high of the last four bars up to bar 4 is two bars old, the latest low is its own. -/
example : ∃ out : List ℚ, aroonDiff ifH ifL 3 = some out ∧ out[4]? = some (100 * (0 - 2) / 3) := by
  refine ⟨_, rfl, ?_⟩
  decide +kernel

end Demo

end PyBroker
