import Verif.Eval.Ulcer
import Verif.Props.Scores
import Verif.Props.IndicatorForms
import Verif.Props.NormalCdf
import Verif.Props.IndicatorStats

/-!
# The Ulcer Index is the root mean square of the drawdowns (C168)
-/

namespace PyBroker

open Spec

variable {K : Type} [Field K] [LinearOrder K] [IsStrictOrderedRing K]

namespace Spec

/-- `m` is the highest of the values from number `j` to number `i`. -/
def Peak (values : List K) (j i : Nat) (m : K) : Prop :=
  (∃ k, j ≤ k ∧ k ≤ i ∧ values[k]? = some m) ∧ ∀ k v, j ≤ k → k ≤ i → values[k]? = some v → v ≤ m

/-- How far a value is below a high, in percent of the high; 0 for a high of 0. -/
def dropPct (v high : K) : K := if high = 0 then 0 else (v - high) / high * 100

/-- The mean of the squares of `d j, …, d (n - 1)`. -/
def meanSquare (j n : Nat) (d : Nat → K) : K :=
  ((List.range' j (n - j)).map (fun i => d i ^ 2)).sum / ((n - j : Nat) : K)

end Spec

theorem peak_unique {values : List K} {j i : Nat} {a b : K} (ha : Peak values j i a)
    (hb : Peak values j i b) : a = b := by
  obtain ⟨⟨k, h1, h2, h3⟩, h4⟩ := ha
  obtain ⟨⟨k', h1', h2', h3'⟩, h4'⟩ := hb
  exact le_antisymm (h4' k a h1 h2 h3) (h4 k' b h1' h2' h3')

/-- **C168.** Without a period: the root of the mean of the squares of the drops from the
running peak. -/
theorem ulcer_drops (F : Fns K) {values : List K} (hne : values ≠ []) {peak : Nat → K}
    (hp : ∀ i, i < values.length → Peak values 0 i (peak i)) :
    ulcerIndex F values =
      F.sqrt (meanSquare 0 values.length (fun i => dropPct (values.getD i 0) (peak i))) := by
  cases values with
  | nil => exact absurd rfl hne
  | cons v0 rest =>
    have key : ∀ l : List K, l <+: v0 :: rest →
        let s := l.foldl ulcerStep (v0, [])
        (l = [] → s.1 = v0) ∧ (l ≠ [] → s.1 = peak (l.length - 1)) ∧
        s.2 = (List.range l.length).map (fun i => dropPct ((v0 :: rest).getD i 0) (peak i)) := by
      intro l
      induction l using List.reverseRecOn with
      | nil => intro _; exact ⟨fun _ => rfl, fun h => absurd rfl h, rfl⟩
      | append_singleton l x ih =>
        intro hl
        obtain ⟨i1, i2, i3⟩ := ih ((List.prefix_append l [x]).trans hl)
        obtain ⟨t, ht⟩ := hl
        have hget : ∀ k, k < l.length → (v0 :: rest)[k]? = l[k]? := by
          intro k hk
          rw [← ht, List.append_assoc, List.getElem?_append_left hk]
        have hx : (v0 :: rest)[l.length]? = some x := by
          rw [← ht, List.append_assoc, List.getElem?_append_right (le_refl _), Nat.sub_self]
          rfl
        have hlt : l.length < (v0 :: rest).length := (List.getElem?_eq_some_iff.1 hx).1
        rw [List.foldl_append]
        simp only [List.foldl_cons, List.foldl_nil]
        generalize hs : l.foldl ulcerStep (v0, []) = s at i1 i2 i3
        have hpeak : (if x > s.1 then x else s.1) = peak l.length := by
          refine peak_unique ?_ (hp l.length hlt)
          by_cases hl0 : l = []
          · subst hl0
            have hx0 : v0 = x := by simpa using hx
            have : (if x > s.1 then x else s.1) = x := by rw [i1 rfl, hx0, if_neg (lt_irrefl _)]
            rw [this]
            refine ⟨⟨0, le_refl _, Nat.zero_le _, hx⟩, ?_⟩
            intro k v _ hk hv
            rw [Nat.le_zero.1 hk] at hv
            rw [show ([] : List K).length = 0 from rfl] at hx
            rw [hx] at hv
            cases hv
            exact le_refl _
          · have hpos : 0 < l.length := List.length_pos_of_ne_nil hl0
            obtain ⟨⟨k, _, hk2, hk3⟩, hall⟩ := hp (l.length - 1) (by omega)
            rw [i2 hl0]
            constructor
            · by_cases hc : x > peak (l.length - 1)
              · rw [if_pos hc]; exact ⟨l.length, Nat.zero_le _, le_refl _, hx⟩
              · rw [if_neg hc]; exact ⟨k, Nat.zero_le _, by omega, hk3⟩
            · intro k v _ hk hv
              have hmax : x ≤ (if x > peak (l.length - 1) then x else peak (l.length - 1)) ∧
                  peak (l.length - 1) ≤ (if x > peak (l.length - 1) then x else peak (l.length - 1)) := by
                split
                · rename_i h; exact ⟨le_refl _, h.le⟩
                · rename_i h; exact ⟨not_lt.1 h, le_refl _⟩
              rcases Nat.lt_or_ge k l.length with h | h
              · exact (hall k v (Nat.zero_le _) (by omega) hv).trans hmax.2
              · have : k = l.length := by omega
                rw [this, hx] at hv
                cases hv
                exact hmax.1
        refine ⟨fun h => absurd h (by simp), fun _ => ?_, ?_⟩
        · simp only [ulcerStep, List.length_append, List.length_singleton, Nat.add_sub_cancel]
          exact hpeak
        · simp only [ulcerStep, hpeak, List.length_append, List.length_singleton]
          rw [i3, List.range_succ, List.map_append]
          congr 1
          simp only [List.map_cons, List.map_nil, dropPct]
          rw [List.getD_eq_getElem?_getD, hx]
          rfl
    obtain ⟨_, _, h3⟩ := key (v0 :: rest) (List.prefix_refl _)
    unfold ulcerIndex
    simp only
    rw [h3]
    unfold mean meanSquare
    rw [List.map_map, List.range_eq_range', List.length_map, List.length_range']
    congr 2
    · congr 1
      apply List.map_congr_left
      intro i _
      simp only [Function.comp]
      ring

theorem highAt_peak {values : List K} {period i : Nat} (h0 : 0 < period) (h : period ≤ i + 1)
    (hi : i < values.length) : Peak values (i + 1 - period) i (highAt values period i) := by
  obtain ⟨⟨j, h1, h2, h3⟩, h4⟩ := highAt_spec h0 h hi
  constructor
  · refine ⟨j, by omega, h1, ?_⟩
    rw [← h3]
    unfold rd
    rw [List.getD_eq_getElem?_getD, List.getElem?_eq_getElem (by omega)]
    rfl
  · intro k v hk1 hk2 hv
    have := h4 k hk2 (by omega)
    unfold rd at this
    rw [List.getD_eq_getElem?_getD, hv] at this
    exact this

/-- **C168.** With a period: the same for the highs of the last `period` values, from the first
value with that many on; 0 for no more values than the period. -/
theorem ulcer_period_drops (F : Fns K) {values : List K} {period : Nat} (h0 : 0 < period)
    {high : Nat → K} (hp : ∀ i, period ≤ i + 1 → i < values.length →
      Peak values (i + 1 - period) i (high i)) :
    ulcerPeriod F values period = some (if values.length ≤ period then 0 else
      F.sqrt (meanSquare (period - 1) values.length (fun i => dropPct (values.getD i 0) (high i)))) := by
  unfold ulcerPeriod
  by_cases hl : values.length ≤ period
  · rw [if_pos hl, if_pos hl]
  · rw [if_neg hl, if_neg hl, if_neg (by omega)]
    unfold mean meanSquare
    rw [List.map_map, List.length_map, List.length_range']
    congr 3
    · congr 1
      apply List.map_congr_left
      intro i hi
      rw [List.mem_range'_1] at hi
      have e := peak_unique (highAt_peak h0 (by omega) (by omega)) (hp i (by omega) (by omega))
      simp only [Function.comp, ulcerDrop, dropPct]
      rw [e]
      unfold rd
      ring

theorem dropPct_range {v high : K} (h0 : 0 ≤ v) (h : v ≤ high) : -100 ≤ dropPct v high ∧ dropPct v high ≤ 0 := by
  unfold dropPct
  split
  · constructor <;> norm_num
  · rename_i hne
    have hpos : 0 < high := lt_of_le_of_ne (h0.trans h) (Ne.symm hne)
    have h1 : -1 ≤ (v - high) / high := by rw [le_div_iff₀ hpos]; linarith
    have h2 : (v - high) / high ≤ 0 := div_nonpos_of_nonpos_of_nonneg (by linarith) hpos.le
    constructor <;> linarith

theorem meanSquare_range {j n : Nat} {d : Nat → K} (hd : ∀ i, j ≤ i → i < n → -100 ≤ d i ∧ d i ≤ 0) :
    0 ≤ meanSquare j n d ∧ meanSquare j n d ≤ 100 ^ 2 := by
  unfold meanSquare
  have key : ∀ (m j : Nat), (∀ i, j ≤ i → i < j + m → -100 ≤ d i ∧ d i ≤ 0) →
      0 ≤ ((List.range' j m).map (fun i => d i ^ 2)).sum ∧
      ((List.range' j m).map (fun i => d i ^ 2)).sum ≤ 100 ^ 2 * m := by
    intro m
    induction m with
    | zero => intro j _; simp
    | succ m ih =>
      intro j h
      obtain ⟨h1, h2⟩ := ih (j + 1) (fun i a b => h i (by omega) (by omega))
      obtain ⟨g1, g2⟩ := h j (le_refl _) (by omega)
      rw [List.range'_succ, List.map_cons, List.sum_cons]
      have : d j ^ 2 ≤ 100 ^ 2 := by nlinarith
      push_cast
      constructor
      · positivity
      · linarith
  obtain ⟨h1, h2⟩ := key (n - j) j (fun i a b => hd i a (by omega))
  refine ⟨div_nonneg h1 (by positivity), ?_⟩
  rcases Nat.eq_zero_or_pos (n - j) with h | h
  · rw [h]; simp
  · rw [div_le_iff₀ (by exact_mod_cast h)]
    exact h2

theorem exists_peak (values : List K) {j i : Nat} (hj : j ≤ i) (hi : i < values.length) :
    ∃ m, Peak values j i m := by
  have := highAt_peak (values := values) (period := i + 1 - j) (i := i) (by omega) (by omega) hi
  rw [show i + 1 - (i + 1 - j) = j by omega] at this
  exact ⟨_, this⟩

theorem root_range {x : ℝ} (h : 0 ≤ x ∧ x ≤ 100 ^ 2) : 0 ≤ Real.sqrt x ∧ Real.sqrt x ≤ 100 :=
  ⟨Real.sqrt_nonneg _, Real.sqrt_le_iff.2 ⟨by norm_num, h.2⟩⟩

/-- **C168.** For values that are not negative the index is between 0 and 100, with or without a
period. -/
theorem ulcer_range {values : List ℝ} (hv : ∀ v ∈ values, 0 ≤ v) :
    (0 ≤ ulcerIndex realFns values ∧ ulcerIndex realFns values ≤ 100) ∧
    ∀ period, 0 < period → ∃ u, ulcerPeriod realFns values period = some u ∧ 0 ≤ u ∧ u ≤ 100 := by
  have hg : ∀ i, i < values.length → 0 ≤ values.getD i 0 ∧
      values[i]? = some (values.getD i 0) := by
    intro i hi
    rw [List.getD_eq_getElem?_getD, List.getElem?_eq_getElem hi]
    exact ⟨hv _ (List.getElem_mem hi), rfl⟩
  have hdrop : ∀ j i m, j ≤ i → i < values.length → Peak values j i m →
      -100 ≤ dropPct (values.getD i 0) m ∧ dropPct (values.getD i 0) m ≤ 0 := by
    intro j i m hj hi hp
    exact dropPct_range (hg i hi).1 (hp.2 i _ hj (le_refl _) (hg i hi).2)
  constructor
  · by_cases hne : values = []
    · subst hne; simp [ulcerIndex]
    · obtain ⟨peak, hp⟩ : ∃ peak : Nat → ℝ, ∀ i, i < values.length → Peak values 0 i (peak i) := by
        refine ⟨fun i => highAt values (i + 1) i, fun i hi => ?_⟩
        have := highAt_peak (values := values) (period := i + 1) (by omega) (le_refl _) hi
        rwa [Nat.sub_self] at this
      rw [ulcer_drops realFns hne hp]
      exact root_range (meanSquare_range (fun i _ h2 => hdrop 0 i _ (Nat.zero_le _) h2 (hp i h2)))
  · intro period h0
    have hp : ∀ i, period ≤ i + 1 → i < values.length →
        Peak values (i + 1 - period) i (highAt values period i) :=
      fun i h1 h2 => highAt_peak h0 h1 h2
    refine ⟨_, ulcer_period_drops realFns h0 hp, ?_⟩
    split
    · constructor <;> norm_num
    · exact root_range (meanSquare_range (fun i h1 h2 =>
        hdrop _ i _ (by omega) h2 (hp i (by omega) h2)))

/-- With as many values as the period the index is 0, although the values fall. -/
theorem ulcer_full_window_zero :
    ulcerPeriod Demo.isF [100, 50] 2 = some 0 ∧ ulcerIndex Demo.isF [100, 50] = 1250 ∧
    ulcerPeriod Demo.isF [100, 50, 50] 2 = some 1250 := by
  decide +kernel

/-! Cases that meet the hypotheses: peaks exist for every curve, and the formulas give a score that
is not 0. -/

example (values : List ℚ) (i : Nat) (hi : i < values.length) : ∃ m, Peak values 0 i m :=
  exists_peak values (Nat.zero_le i) hi

example : ulcerIndex Demo.isF [100, 80, 120, 60] = 725 := by decide +kernel

example : ulcerIndex Demo.isF [100, 80, 120, 60] =
    meanSquare 0 4 (fun i => dropPct (([100, 80, 120, 60] : List ℚ).getD i 0)
      (([100, 100, 120, 120] : List ℚ).getD i 0)) := by decide +kernel

example : ulcerPeriod Demo.isF [100, 80, 120, 60, 60] 2 = some (meanSquare 1 5
    (fun i => dropPct (([100, 80, 120, 60, 60] : List ℚ).getD i 0)
      (([0, 100, 120, 120, 60] : List ℚ).getD i 0))) := by decide +kernel

example : ulcerPeriod Demo.isF [100, 80, 120, 60, 60] 0 = none := by decide +kernel

end PyBroker
