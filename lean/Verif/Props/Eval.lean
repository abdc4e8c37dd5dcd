import Verif.Eval.Model
import Verif.Props.Bounds
import Mathlib.Tactic.Linarith
import Mathlib.Tactic.Ring
import Mathlib.Tactic.FieldSimp
import Mathlib.Tactic.NormNum
import Mathlib.Tactic.Positivity

/-!
# Drawdown, trade statistics and accounting identities (C54, C55, C56)
-/

namespace PyBroker

variable {K : Type} [Field K] [LinearOrder K]

namespace Spec

/-- The path of summed changes: its value after `i` of them. -/
def cumAt (x : List K) (i : Nat) : K := (x.take i).sum

/-- The path of compounded returns: its value after `i` of them. -/
def growAt (r : List K) (i : Nat) : K := ((r.take i).map (fun v => 1 + v)).prod

/-- `p` is the highest value of the path `g` up to position `j`. -/
def IsPeak (g : Nat → K) (j : Nat) (p : K) : Prop := (∃ i ≤ j, g i = p) ∧ ∀ i ≤ j, g i ≤ p

/-- The loss at `j` from the running peak `p`, in percent. -/
def lossPct (g : Nat → K) (j : Nat) (p : K) : K := (g j / p - 1) * 100

/-- `m` is the length of the longest run of `l` whose elements all satisfy `p`. -/
def IsLongestRun {α : Type} (p : α → Prop) (l : List α) (m : Nat) : Prop :=
  (∃ run, run <:+: l ∧ (∀ t ∈ run, p t) ∧ run.length = m) ∧
    ∀ run, run <:+: l → (∀ t ∈ run, p t) → run.length ≤ m

end Spec

open Spec

/-- A property of every prefix and the state after it. -/
theorem foldl_prefix {S A : Type} (f : S → A → S) (P : List A → S → Prop) (s0 : S) (h0 : P [] s0)
    (hs : ∀ pre x s, P pre s → P (pre ++ [x]) (f s x)) (l : List A) : P l (l.foldl f s0) := by
  induction l using List.reverseRecOn with
  | nil => exact h0
  | append_singleton pre x ih =>
    rw [List.foldl_append]
    exact hs pre x _ ih

theorem cumAt_left (l : List K) (x : K) {i : Nat} (h : i ≤ l.length) :
    cumAt (l ++ [x]) i = cumAt l i := by
  unfold cumAt
  rw [List.take_append_of_le_length h]

theorem cumAt_full (l : List K) (x : K) : cumAt (l ++ [x]) (l.length + 1) = cumAt l l.length + x := by
  unfold cumAt
  simp

theorem growAt_left (l : List K) (x : K) {i : Nat} (h : i ≤ l.length) :
    growAt (l ++ [x]) i = growAt l i := by
  unfold growAt
  rw [List.take_append_of_le_length h]

theorem growAt_full (l : List K) (x : K) :
    growAt (l ++ [x]) (l.length + 1) = growAt l l.length * (x + 1) := by
  unfold growAt
  simp [add_comm]

theorem isPeak_congr {g g' : Nat → K} {j : Nat} {p : K} (h : ∀ i ≤ j, g i = g' i)
    (hp : IsPeak g j p) : IsPeak g' j p := by
  obtain ⟨⟨i, hi, rfl⟩, hall⟩ := hp
  exact ⟨⟨i, hi, (h i hi).symm⟩, fun k hk => h k hk ▸ hall k hk⟩

theorem isPeak_unique {g : Nat → K} {j : Nat} {p q : K} (hp : IsPeak g j p) (hq : IsPeak g j q) :
    p = q := by
  obtain ⟨⟨i, hi, rfl⟩, h1⟩ := hp
  obtain ⟨⟨k, hk, rfl⟩, h2⟩ := hq
  exact le_antisymm (h2 i hi) (h1 k hk)

theorem isPeak_succ {g : Nat → K} {j : Nat} {p : K} (hp : IsPeak g j p) :
    IsPeak g (j + 1) (if g (j + 1) > p then g (j + 1) else p) := by
  obtain ⟨⟨i, hi, rfl⟩, h1⟩ := hp
  split
  next h =>
    refine ⟨⟨j + 1, le_refl _, rfl⟩, fun k hk => ?_⟩
    rcases Nat.lt_or_ge j k with hk' | hk'
    · have : k = j + 1 := by omega
      rw [this]
    · exact le_trans (h1 k hk') (le_of_lt h)
  next h =>
    refine ⟨⟨i, by omega, rfl⟩, fun k hk => ?_⟩
    rcases Nat.lt_or_ge j k with hk' | hk'
    · have : k = j + 1 := by omega
      rw [this]
      exact le_of_not_gt h
    · exact h1 k hk'

variable [IsStrictOrderedRing K]

/-! ## C54: drawdown -/

/-- What the loop of `max_drawdown` knows after each prefix. -/
def DdInv (l : List K) (s : DdSt K) : Prop :=
  s.cum = cumAt l l.length ∧ IsPeak (cumAt l) l.length s.peak ∧ 0 ≤ s.dd ∧
    (∃ i j, i ≤ j ∧ j ≤ l.length ∧ s.dd = cumAt l i - cumAt l j) ∧
    ∀ i j, i ≤ j → j ≤ l.length → cumAt l i - cumAt l j ≤ s.dd

theorem ddInv_step (l : List K) (x : K) (s : DdSt K) (h : DdInv l s) :
    DdInv (l ++ [x]) (ddStep s x) := by
  obtain ⟨hc, hp, h0, ⟨a, b, hab, hb, hd⟩, hall⟩ := h
  have hn : (l ++ [x]).length = l.length + 1 := by simp
  have hg : ∀ i ≤ l.length, cumAt l i = cumAt (l ++ [x]) i := fun i hi => (cumAt_left l x hi).symm
  have hlast : cumAt (l ++ [x]) (l.length + 1) = s.cum + x := by rw [cumAt_full, hc]
  have hp' := isPeak_succ (isPeak_congr hg hp)
  rw [hlast] at hp'
  unfold DdInv
  rw [hn, hlast]
  have hold : ∀ i j, i ≤ j → j ≤ l.length → cumAt (l ++ [x]) i - cumAt (l ++ [x]) j ≤ s.dd := by
    intro i j hij hj
    rw [cumAt_left l x hj, cumAt_left l x (le_trans hij hj)]
    exact hall i j hij hj
  have hd' : s.dd = cumAt (l ++ [x]) a - cumAt (l ++ [x]) b := by
    rw [cumAt_left l x hb, cumAt_left l x (le_trans hab hb)]
    exact hd
  unfold ddStep
  simp only
  by_cases hgt : s.cum + x > s.peak
  · rw [if_pos hgt] at hp' ⊢
    refine ⟨rfl, hp', h0, ⟨a, b, hab, by omega, hd'⟩, ?_⟩
    intro i j hij hj
    rcases Nat.lt_or_ge l.length j with hj' | hj'
    · have hjj : j = l.length + 1 := by omega
      rw [hjj, hlast]
      have := hp'.2 i (by omega)
      linarith
    · exact hold i j hij hj'
  · rw [if_neg hgt] at hp' ⊢
    by_cases hl : s.peak - (s.cum + x) > s.dd
    · simp only [if_pos hl]
      obtain ⟨⟨k, hk, hkp⟩, hmax⟩ := hp'
      refine ⟨trivial, ⟨⟨k, hk, hkp⟩, hmax⟩, by linarith, ⟨k, l.length + 1, hk, le_refl _, ?_⟩, ?_⟩
      · rw [hkp, hlast]
      · intro i j hij hj
        rcases Nat.lt_or_ge l.length j with hj' | hj'
        · have hjj : j = l.length + 1 := by omega
          rw [hjj, hlast]
          have := hmax i (by omega)
          linarith
        · exact le_trans (hold i j hij hj') (le_of_lt hl)
    · simp only [if_neg hl]
      refine ⟨trivial, hp', h0, ⟨a, b, hab, by omega, hd'⟩, ?_⟩
      intro i j hij hj
      rcases Nat.lt_or_ge l.length j with hj' | hj'
      · have hjj : j = l.length + 1 := by omega
        rw [hjj, hlast]
        have := hp'.2 i (by omega)
        have := not_lt.mp hl
        linarith
      · exact hold i j hij hj'

theorem ddInv_all (x : List K) : DdInv x (x.foldl ddStep ⟨0, 0, 0⟩) := by
  refine foldl_prefix ddStep DdInv _ ?_ ddInv_step x
  refine ⟨by simp [cumAt], ⟨⟨0, le_refl _, by simp [cumAt]⟩, ?_⟩, le_refl _,
    ⟨0, 0, le_refl _, le_refl _, by simp⟩, ?_⟩
  · intro i _
    simp [cumAt]
  · intro i j _ _
    simp [cumAt]

/-- **C54** (cash).  `max_drawdown` is never positive, is the fall of the summed changes from
some position (the start included) to a later one, and no fall is larger. -/
theorem max_drawdown_spec (x : List K) :
    maxDrawdown x ≤ 0 ∧
      (∃ i j, i ≤ j ∧ j ≤ x.length ∧ maxDrawdown x = cumAt x j - cumAt x i) ∧
      ∀ i j, i ≤ j → j ≤ x.length → maxDrawdown x ≤ cumAt x j - cumAt x i := by
  obtain ⟨_, _, h0, ⟨i, j, hij, hj, hd⟩, hall⟩ := ddInv_all x
  unfold maxDrawdown
  refine ⟨by linarith, ⟨i, j, hij, hj, by rw [hd]; ring⟩, fun a b hab hb => ?_⟩
  have := hall a b hab hb
  linarith

example : maxDrawdown [5, -3, -4, 6, -1] = (-7 : ℚ) := by decide +kernel

/-- What the loop of `max_drawdown_percent` knows after each prefix. -/
def PctInv (l : List K) (s : PctSt K) : Prop :=
  s.i = l.length ∧ s.cum = growAt l l.length ∧ IsPeak (growAt l) l.length s.peak ∧
    (s.index = none → s.dd = 0) ∧
    (∀ k, s.index = some k → k < l.length ∧ s.dd < 0 ∧
      (∃ p, IsPeak (growAt l) (k + 1) p ∧ s.dd = lossPct (growAt l) (k + 1) p) ∧
      ∀ j ≤ k, ∀ p, IsPeak (growAt l) j p → s.dd < lossPct (growAt l) j p) ∧
    ∀ j ≤ l.length, ∀ p, IsPeak (growAt l) j p → s.dd ≤ lossPct (growAt l) j p

theorem growAt_zero (l : List K) : growAt l 0 = 1 := by simp [growAt]

theorem peak_pos {l : List K} {j : Nat} {p : K} (h : IsPeak (growAt l) j p) : 0 < p := by
  have := h.2 0 (Nat.zero_le _)
  rw [growAt_zero] at this
  exact lt_of_lt_of_le zero_lt_one this

theorem lossPct_peak {g : Nat → K} {j : Nat} (h : g j ≠ 0) : lossPct g j (g j) = 0 := by
  unfold lossPct
  rw [div_self h]
  ring

theorem pctInv_step (l : List K) (x : K) (s : PctSt K) (h : PctInv l s) :
    PctInv (l ++ [x]) (pctStep s x) := by
  obtain ⟨hi, hc, hp, hnone, hsome, hall⟩ := h
  have hn : (l ++ [x]).length = l.length + 1 := by simp
  have hg : ∀ i ≤ l.length, growAt l i = growAt (l ++ [x]) i := fun i hi => (growAt_left l x hi).symm
  have hlast : growAt (l ++ [x]) (l.length + 1) = s.cum * (x + 1) := by rw [growAt_full, hc]
  have hp' := isPeak_succ (isPeak_congr hg hp)
  rw [hlast] at hp'
  have hpk : 0 < s.peak := peak_pos hp
  have hback : ∀ j ≤ l.length, ∀ p, IsPeak (growAt (l ++ [x])) j p →
      IsPeak (growAt l) j p ∧ lossPct (growAt (l ++ [x])) j p = lossPct (growAt l) j p := by
    intro j hj p hpj
    refine ⟨isPeak_congr (fun i hi => (hg i (le_trans hi hj)).symm) hpj, ?_⟩
    unfold lossPct
    rw [growAt_left l x hj]
  have hfwd : ∀ j ≤ l.length, ∀ p, IsPeak (growAt l) j p →
      IsPeak (growAt (l ++ [x])) j p := by
    intro j hj p hpj
    exact isPeak_congr (fun i hi => hg i (le_trans hi hj)) hpj
  -- the old facts, read on the longer list
  have hsome' : ∀ k, s.index = some k → k < l.length ∧ s.dd < 0 ∧
      (∃ p, IsPeak (growAt (l ++ [x])) (k + 1) p ∧
        s.dd = lossPct (growAt (l ++ [x])) (k + 1) p) ∧
      ∀ j ≤ k, ∀ p, IsPeak (growAt (l ++ [x])) j p → s.dd < lossPct (growAt (l ++ [x])) j p := by
    intro k hk
    obtain ⟨h1, h2, ⟨p, h3, h4⟩, h5⟩ := hsome k hk
    refine ⟨h1, h2, ⟨p, hfwd _ (by omega) p h3, ?_⟩, ?_⟩
    · rw [(hback (k + 1) (by omega) p (hfwd _ (by omega) p h3)).2]
      exact h4
    · intro j hj q hq
      have := hback j (by omega) q hq
      rw [this.2]
      exact h5 j hj q this.1
  have hall' : ∀ j ≤ l.length, ∀ p, IsPeak (growAt (l ++ [x])) j p →
      s.dd ≤ lossPct (growAt (l ++ [x])) j p := by
    intro j hj p hpj
    have := hback j hj p hpj
    rw [this.2]
    exact hall j hj p this.1
  have hdd0 : s.dd ≤ 0 := by
    rcases Option.eq_none_or_eq_some s.index with h | ⟨k, h⟩
    · rw [hnone h]
    · exact le_of_lt (hsome k h).2.1
  unfold PctInv
  rw [hn, hlast]
  unfold pctStep
  simp only
  by_cases hgt : s.cum * (x + 1) > s.peak
  · rw [if_pos hgt] at hp' ⊢
    refine ⟨by simp [hi], rfl, hp', hnone, ?_, ?_⟩
    · intro k hk
      obtain ⟨h1, h2⟩ := hsome' k hk
      exact ⟨by omega, h2⟩
    · intro j hj p hpj
      rcases Nat.lt_or_ge l.length j with hj' | hj'
      · have hjj : j = l.length + 1 := by omega
        subst hjj
        rw [isPeak_unique hpj hp', ← hlast, lossPct_peak]
        · exact hdd0
        · rw [hlast]
          exact ne_of_gt (lt_trans hpk hgt)
      · exact hall' j hj' p hpj
  · rw [if_neg hgt] at hp' ⊢
    rw [if_pos hpk]
    by_cases hl : (s.cum * (x + 1) / s.peak - 1) * 100 < s.dd
    · simp only [if_pos hl]
      have hval : (s.cum * (x + 1) / s.peak - 1) * 100
          = lossPct (growAt (l ++ [x])) (l.length + 1) s.peak := by
        unfold lossPct
        rw [hlast]
      refine ⟨by rw [hi], trivial, hp', by simp, ?_, ?_⟩
      · intro k hk
        have hk' : l.length = k := by
          rw [hi] at hk
          exact Option.some.inj hk
        subst hk'
        refine ⟨by omega, lt_of_lt_of_le hl hdd0, ⟨s.peak, hp', hval⟩, ?_⟩
        intro j hj p hpj
        exact lt_of_lt_of_le hl (hall' j hj p hpj)
      · intro j hj p hpj
        rcases Nat.lt_or_ge l.length j with hj' | hj'
        · have hjj : j = l.length + 1 := by omega
          subst hjj
          rw [isPeak_unique hpj hp', hval]
        · exact le_trans (le_of_lt hl) (hall' j hj' p hpj)
    · simp only [if_neg hl]
      refine ⟨by simp [hi], trivial, hp', hnone, ?_, ?_⟩
      · intro k hk
        obtain ⟨h1, h2⟩ := hsome' k hk
        exact ⟨by omega, h2⟩
      · intro j hj p hpj
        rcases Nat.lt_or_ge l.length j with hj' | hj'
        · have hjj : j = l.length + 1 := by omega
          subst hjj
          rw [isPeak_unique hpj hp']
          unfold lossPct
          rw [hlast]
          exact not_lt.mp hl
        · exact hall' j hj' p hpj

theorem pctInv_all (r : List K) : PctInv r (r.foldl pctStep ⟨0, 1, 1, 0, none⟩) := by
  refine foldl_prefix pctStep PctInv _ ?_ pctInv_step r
  refine ⟨rfl, by simp [growAt], ⟨⟨0, le_refl _, by simp [growAt]⟩, ?_⟩, fun _ => rfl, ?_, ?_⟩
  · intro i _
    simp [growAt]
  · intro k hk
    cases hk
  · intro j hj p hp
    obtain ⟨⟨i, hi, rfl⟩, _⟩ := hp
    simp [lossPct, growAt]

/-- **C54** (percent).  `max_drawdown_percent` is the lowest of the losses from the running peak
of the compounded returns (the start included).  Without an index it is zero; with index `k` it
is the loss after return `k`, and every loss before that is smaller. -/
theorem max_drawdown_pct_spec (r : List K) :
    (∀ j ≤ r.length, ∀ p, IsPeak (growAt r) j p → (maxDrawdownPct r).1 ≤ lossPct (growAt r) j p) ∧
      ((maxDrawdownPct r).2 = none → (maxDrawdownPct r).1 = 0) ∧
      ∀ k, (maxDrawdownPct r).2 = some k → k < r.length ∧ (maxDrawdownPct r).1 < 0 ∧
        (∃ p, IsPeak (growAt r) (k + 1) p ∧ (maxDrawdownPct r).1 = lossPct (growAt r) (k + 1) p) ∧
        ∀ j ≤ k, ∀ p, IsPeak (growAt r) j p → (maxDrawdownPct r).1 < lossPct (growAt r) j p := by
  obtain ⟨_, _, _, h1, h2, h3⟩ := pctInv_all r
  exact ⟨h3, h1, h2⟩

example : maxDrawdownPct [1, -1/2, -1/2, 3, -3/4] = ((-75 : ℚ), some 2) := by decide +kernel

/-- **C54** (percent, bounds).  It is never positive, and at least -100 unless some return is
below -1. -/
theorem max_drawdown_pct_bounds (r : List K) :
    (maxDrawdownPct r).1 ≤ 0 ∧ ((∀ v ∈ r, -1 ≤ v) → -100 ≤ (maxDrawdownPct r).1) := by
  obtain ⟨_, h1, h2⟩ := max_drawdown_pct_spec r
  rcases Option.eq_none_or_eq_some (maxDrawdownPct r).2 with h | ⟨k, h⟩
  · rw [h1 h]
    exact ⟨le_refl _, fun _ => by norm_num⟩
  · obtain ⟨_, h3, ⟨p, hp, hv⟩, _⟩ := h2 k h
    refine ⟨le_of_lt h3, fun hr => ?_⟩
    rw [hv]
    unfold lossPct
    have hg : 0 ≤ growAt r (k + 1) := by
      unfold growAt
      refine List.prod_induction (fun a : K => 0 ≤ a) (fun a b => mul_nonneg) zero_le_one ?_
      intro a ha
      obtain ⟨v, hv, rfl⟩ := List.mem_map.mp ha
      have := hr v (List.mem_of_mem_take hv)
      linarith
    have : 0 ≤ growAt r (k + 1) / p := div_nonneg hg (le_of_lt (peak_pos hp))
    linarith

/-! ## C56: bar changes -/

theorem cumAt_barChanges (mv : List K) :
    ∀ i, i < mv.length → cumAt (barChanges mv) i = mv.getD i 0 - mv.getD 0 0 := by
  induction mv with
  | nil => intro i h; simp at h
  | cons a rest ih =>
    intro i hi
    cases rest with
    | nil =>
      have : i = 0 := by simpa using hi
      subst this
      simp [cumAt]
    | cons b rest =>
      cases i with
      | zero => simp [cumAt]
      | succ i =>
        have := ih i (by simpa using hi)
        simp only [barChanges, cumAt, List.take_succ_cons, List.sum_cons] at *
        rw [this]
        simp

theorem length_barChanges (mv : List K) : (barChanges mv).length = mv.length - 1 := by
  induction mv with
  | nil => rfl
  | cons a rest ih =>
    cases rest with
    | nil => rfl
    | cons b rest => simp only [barChanges, List.length_cons] at *; omega

theorem length_barReturns (mv : List K) : (barReturns mv).length = mv.length - 1 := by
  induction mv with
  | nil => rfl
  | cons a rest ih =>
    cases rest with
    | nil => rfl
    | cons b rest => simp only [barReturns, List.length_cons] at *; omega

/-- A path of market values, zero at most at the end, is its start times the compounded
returns. -/
theorem growAt_barReturns (mv : List K) :
    ∀ i, i < mv.length → (∀ j < i, mv.getD j 0 ≠ 0) →
      mv.getD 0 0 * growAt (barReturns mv) i = mv.getD i 0 := by
  induction mv with
  | nil => intro i h; simp at h
  | cons a rest ih =>
    intro i hi hnz
    cases rest with
    | nil =>
      have : i = 0 := by simpa using hi
      subst this
      simp [growAt]
    | cons b rest =>
      cases i with
      | zero => simp [growAt]
      | succ i =>
        have h0 : a ≠ 0 := by simpa using hnz 0 (by omega)
        have := ih i (by simpa using hi) (fun j hj => by simpa using hnz (j + 1) (by omega))
        simp only [barReturns, growAt, List.take_succ_cons, List.map_cons, List.prod_cons,
          if_neg h0] at *
        simp only [List.getD_cons_zero, List.getD_cons_succ] at *
        rw [← this]
        have : a * ((1 + (b - a) / a)) = b := by field_simp; ring
        rw [← mul_assoc, this]

/-- **C56** (changes).  The bar changes of a market value series sum to its total change. -/
theorem changes_sum (mv : List K) (h : mv ≠ []) :
    (barChanges mv).sum = mv.getLast h - mv.head h := by
  have hl : 0 < mv.length := List.length_pos_of_ne_nil h
  have := cumAt_barChanges mv (mv.length - 1) (by omega)
  unfold cumAt at this
  rw [← length_barChanges, List.take_length, length_barChanges] at this
  rw [this, List.getLast_eq_getElem, List.head_eq_getElem]
  congr 1 <;> simp [List.getD_eq_getElem?_getD, List.getElem?_eq_getElem, hl]

/-! ## C56: profit factor -/

theorem winLoss_eq (x : List K) :
    winLoss x = ((x.filter (fun v => decide (v > 0))).sum, (x.filter (fun v => decide (v < 0))).sum) := by
  refine foldl_prefix _ (fun l s => s = ((l.filter (fun v => decide (v > 0))).sum,
    (l.filter (fun v => decide (v < 0))).sum)) _ (by simp) ?_ x
  intro pre v s hs
  subst hs
  rcases lt_trichotomy v 0 with h | h | h
  · simp [List.filter_append, h, not_lt.mpr (le_of_lt h)]
  · simp [List.filter_append, h]
  · simp [List.filter_append, h, not_lt.mpr (le_of_lt h)]

theorem sum_filter_pos (x : List K) : 0 ≤ (x.filter (fun v => decide (v > 0))).sum := by
  apply List.sum_nonneg
  intro a ha
  have := (List.mem_filter.mp ha).2
  exact le_of_lt (by simpa using this)

theorem sum_filter_neg (x : List K) : (x.filter (fun v => decide (v < 0))).sum ≤ 0 := by
  induction x with
  | nil => simp
  | cons a rest ih =>
    simp only [List.filter_cons]
    split
    next h =>
      have : a < 0 := by simpa using h
      simp only [List.sum_cons]
      linarith
    next h => exact ih

theorem sum_split (x : List K) :
    (x.filter (fun v => decide (v > 0))).sum + (x.filter (fun v => decide (v < 0))).sum = x.sum := by
  induction x with
  | nil => simp
  | cons a rest ih =>
    rcases lt_trichotomy a 0 with h | h | h
    · simp only [List.filter_cons, decide_eq_true h, decide_eq_false (not_lt.mpr (le_of_lt h)),
        if_true, List.sum_cons]
      simp only [Bool.false_eq_true, if_false]
      linarith
    · subst h
      simpa [List.filter_cons] using ih
    · simp only [List.filter_cons, decide_eq_true h, decide_eq_false (not_lt.mpr (le_of_lt h)),
        if_true, List.sum_cons]
      simp only [Bool.false_eq_true, if_false]
      linarith

/-- **C56** (profit factor).  Without a nonzero change it is zero.  With one it is positive, and
it is above one exactly when the changes sum to a gain and below one when they sum to a loss. -/
theorem profit_factor_sign (F : Fns K) (x : List K) :
    ((∀ v ∈ x, v = 0) → profitFactor F false x = 0) ∧
      ((∃ v ∈ x, v ≠ 0) → 0 < profitFactor F false x ∧
        (1 < profitFactor F false x ↔ 0 < x.sum) ∧ (profitFactor F false x < 1 ↔ x.sum < 0)) := by
  constructor
  · intro h
    unfold profitFactor
    rw [if_neg]
    rw [Bool.not_eq_true, List.any_eq_false]
    intro v hv
    rw [h v hv]
    simp
  · rintro ⟨v, hv, hne⟩
    have hany : x.any (fun v => decide (v > 0) || decide (v < 0)) = true := by
      rw [List.any_eq_true]
      refine ⟨v, hv, ?_⟩
      rcases lt_or_gt_of_ne hne with h | h
      · simp [h]
      · simp [h]
    unfold profitFactor pfOf
    rw [if_pos hany, if_neg (by simp), winLoss_eq]
    simp only
    have hw := sum_filter_pos x
    have hl := sum_filter_neg x
    have hs := sum_split x
    have ht : (0 : K) < tiny 10 := tiny_pos 10
    have hd : 0 < tiny 10 - (x.filter (fun v => decide (v < 0))).sum := by linarith
    refine ⟨div_pos (by linarith) hd, ?_, ?_⟩
    · rw [lt_div_iff₀ hd]
      constructor <;> intro h <;> linarith
    · rw [div_lt_iff₀ hd]
      constructor <;> intro h <;> linarith

example : ∃ v ∈ ([3, -1, 0] : List ℚ), v ≠ 0 := ⟨3, by simp, by norm_num⟩

/-! ## C55: trade statistics -/

section Steps

omit [IsStrictOrderedRing K]

variable (s : TSt K) (t : TRow K)

macro "stepField" s:term "," t:term : tactic => `(tactic| (
  rcases lt_trichotomy (TRow.pnl $t) 0 with h | h | h
  · by_cases h2 : TRow.pnl $t < TSt.largestLoss $s <;>
    simp [tradeStep, TSt.addSums, TSt.win, TSt.loss, TSt.count, h, h2, ne_of_lt h,
      not_lt.mpr (le_of_lt h)] <;> (try split) <;> (try simp only [Nat.max_def]) <;> (try split) <;> omega
  · simp [tradeStep, TSt.addSums, TSt.win, TSt.loss, TSt.count, h]
  · by_cases h2 : TRow.pnl $t > TSt.largestWin $s <;>
    simp [tradeStep, TSt.addSums, TSt.win, TSt.loss, TSt.count, h, h2, ne_of_gt h,
      not_lt.mpr (le_of_lt h)] <;> (try split) <;> (try simp only [Nat.max_def]) <;> (try split) <;> omega))

theorem step_pnlSum : (tradeStep s t).pnlSum = s.pnlSum + t.pnl := by stepField s, t
theorem step_pctSum : (tradeStep s t).pctSum = s.pctSum + t.pct := by stepField s, t
theorem step_barsSum : (tradeStep s t).barsSum = s.barsSum + t.bars := by stepField s, t
theorem step_totalProfit :
    (tradeStep s t).totalProfit = if t.pnl > 0 then s.totalProfit + t.pnl else s.totalProfit := by
  stepField s, t
theorem step_totalLoss :
    (tradeStep s t).totalLoss = if t.pnl < 0 then s.totalLoss + t.pnl else s.totalLoss := by
  stepField s, t
theorem step_profitPct :
    (tradeStep s t).profitPct = if t.pnl > 0 then s.profitPct + t.pct else s.profitPct := by
  stepField s, t
theorem step_lossPct :
    (tradeStep s t).lossPct = if t.pnl < 0 then s.lossPct + t.pct else s.lossPct := by
  stepField s, t
theorem step_winBars :
    (tradeStep s t).winBars = if t.pnl > 0 then s.winBars + t.bars else s.winBars := by
  stepField s, t
theorem step_lossBars :
    (tradeStep s t).lossBars = if t.pnl < 0 then s.lossBars + t.bars else s.lossBars := by
  stepField s, t
theorem step_profitCount :
    (tradeStep s t).profitCount = if t.pnl > 0 then s.profitCount + 1 else s.profitCount := by
  stepField s, t
theorem step_lossCount :
    (tradeStep s t).lossCount = if t.pnl < 0 then s.lossCount + 1 else s.lossCount := by
  stepField s, t
theorem step_wins : (tradeStep s t).wins = if t.pnl > 0 then s.wins + 1 else s.wins := by
  stepField s, t
theorem step_losses : (tradeStep s t).losses = if t.pnl < 0 then s.losses + 1 else s.losses := by
  stepField s, t
theorem step_nonzero : (tradeStep s t).nonzero = if t.pnl ≠ 0 then s.nonzero + 1 else s.nonzero := by
  stepField s, t
theorem step_curWins : (tradeStep s t).curWins = if t.pnl > 0 then s.curWins + 1 else 0 := by
  stepField s, t
theorem step_curLosses : (tradeStep s t).curLosses = if t.pnl < 0 then s.curLosses + 1 else 0 := by
  stepField s, t
theorem step_maxWins :
    (tradeStep s t).maxWins = if t.pnl > 0 then max s.maxWins (s.curWins + 1) else s.maxWins := by
  stepField s, t
theorem step_maxLosses :
    (tradeStep s t).maxLosses
      = if t.pnl < 0 then max s.maxLosses (s.curLosses + 1) else s.maxLosses := by
  stepField s, t
theorem step_largestWin :
    ((tradeStep s t).largestWin, (tradeStep s t).largestWinPct, (tradeStep s t).largestWinBars)
      = if t.pnl > 0 ∧ t.pnl > s.largestWin then (t.pnl, t.pct, t.bars)
        else (s.largestWin, s.largestWinPct, s.largestWinBars) := by
  stepField s, t
theorem step_largestLoss :
    ((tradeStep s t).largestLoss, (tradeStep s t).largestLossPct, (tradeStep s t).largestLossBars)
      = if t.pnl < 0 ∧ t.pnl < s.largestLoss then (t.pnl, t.pct, t.bars)
        else (s.largestLoss, s.largestLossPct, s.largestLossBars) := by
  stepField s, t

end Steps

end PyBroker
