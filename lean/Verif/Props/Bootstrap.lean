import Verif.Props.Eval
import Verif.Props.NormalCdf
import Mathlib.Algebra.Order.Floor.Ring

/-!
# Bootstrap bounds and jackknives (C57, C58)
-/

namespace PyBroker

variable {K : Type} [Field K] [LinearOrder K]

namespace Spec

/-- `v` is the `q` quantile of `boots`: one of them, with at most about a share `q` of them below
it and at least about a share `q` at or below it. -/
def IsQuantile (q : ℚ) (boots : List K) (v : K) : Prop :=
  v ∈ boots ∧
    ((boots.filter (fun b => decide (b < v))).length : ℚ) ≤ max (q * (boots.length + 1) - 1) 0 ∧
    q * (boots.length + 1) - 1 < (boots.filter (fun b => decide (b ≤ v))).length

end Spec

open Spec

/-! ## Sorted lists -/

theorem sortK_perm (x : List K) : (sortK x).Perm x := List.perm_insertionSort _ x

theorem sortK_sorted (x : List K) : (sortK x).Pairwise (· ≤ ·) :=
  List.pairwise_insertionSort (r := (· ≤ ·)) x

theorem length_sortK (x : List K) : (sortK x).length = x.length := (sortK_perm x).length_eq

theorem mem_sortK {x : List K} {v : K} (h : v ∈ sortK x) : v ∈ x := (sortK_perm x).mem_iff.mp h

theorem sorted_get {l : List K} (hs : l.Pairwise (· ≤ ·)) {i j : Nat} {a b : K} (hij : i ≤ j)
    (hi : l[i]? = some a) (hj : l[j]? = some b) : a ≤ b := by
  obtain ⟨hi', rfl⟩ := List.getElem?_eq_some_iff.mp hi
  obtain ⟨hj', rfl⟩ := List.getElem?_eq_some_iff.mp hj
  rcases Nat.eq_or_lt_of_le hij with rfl | h
  · exact le_refl _
  · exact List.pairwise_iff_getElem.mp hs i j hi' hj' h

/-- In a sorted list at most `k` elements are below the element at `k` and at least `k + 1` are
at or below it. -/
theorem sorted_counts {l : List K} (hs : l.Pairwise (· ≤ ·)) {k : Nat} {v : K}
    (hk : l[k]? = some v) :
    (l.filter (fun b => decide (b < v))).length ≤ k ∧
      k + 1 ≤ (l.filter (fun b => decide (b ≤ v))).length := by
  have hlt : k < l.length := (List.getElem?_eq_some_iff.mp hk).1
  constructor
  · conv_lhs => rw [← List.take_append_drop k l]
    rw [List.filter_append, List.length_append]
    have h1 : (List.filter (fun b => decide (b < v)) (l.drop k)).length = 0 := by
      rw [List.length_eq_zero_iff, List.filter_eq_nil_iff]
      intro a ha
      obtain ⟨i, hi⟩ := List.mem_iff_getElem?.mp ha
      rw [List.getElem?_drop] at hi
      have := sorted_get hs (Nat.le_add_right k i) hk hi
      simpa using this
    rw [h1]
    have := List.length_filter_le (fun b => decide (b < v)) (l.take k)
    rw [List.length_take] at this
    omega
  · conv_rhs => rw [← List.take_append_drop (k + 1) l]
    rw [List.filter_append, List.length_append]
    have h1 : List.filter (fun b => decide (b ≤ v)) (l.take (k + 1)) = l.take (k + 1) := by
      rw [List.filter_eq_self]
      intro a ha
      obtain ⟨i, hi⟩ := List.mem_iff_getElem?.mp ha
      obtain ⟨hi', rfl⟩ := List.getElem?_eq_some_iff.mp hi
      rw [List.length_take] at hi'
      have := sorted_get hs (show i ≤ k by omega)
        (List.getElem?_eq_getElem (show i < l.length by omega)) hk
      simpa using this
    rw [h1, List.length_take]
    omega

/-! ## C57: drawdown bounds -/

theorem ddIndex_spec {q : ℚ} (hq : q < 1) {n : Nat} (hn : 0 < n) :
    (ddIndex q n).toNat < n ∧ ((ddIndex q n).toNat : ℚ) ≤ max (q * (n + 1) - 1) 0 ∧
      q * (n + 1) - 1 < ((ddIndex q n).toNat : ℚ) + 1 := by
  unfold ddIndex
  simp only
  have hn1 : (1 : ℚ) ≤ n := by exact_mod_cast hn
  split
  next h =>
    have hfl := Int.floor_nonneg.mpr h
    rw [max_eq_left hfl]
    have hcast : ((⌊q * ((n : ℚ) + 1) - 1⌋.toNat : Nat) : ℚ) = (⌊q * ((n : ℚ) + 1) - 1⌋ : ℚ) := by
      have : ((⌊q * ((n : ℚ) + 1) - 1⌋.toNat : Nat) : ℤ) = ⌊q * ((n : ℚ) + 1) - 1⌋ :=
        Int.toNat_of_nonneg hfl
      exact_mod_cast this
    have h1 := Int.floor_le (q * ((n : ℚ) + 1) - 1)
    have h2 := Int.lt_floor_add_one (q * ((n : ℚ) + 1) - 1)
    refine ⟨?_, ?_, ?_⟩
    · have : ((⌊q * ((n : ℚ) + 1) - 1⌋.toNat : Nat) : ℚ) < n := by
        rw [hcast]
        nlinarith
      exact_mod_cast this
    · rw [hcast]
      exact le_trans h1 (le_max_left _ _)
    · rw [hcast]
      exact h2
  next h =>
    rw [not_le] at h
    have hc : ⌈q * ((n : ℚ) + 1) - 1⌉ ≤ 0 := Int.ceil_le.mpr (by simpa using le_of_lt h)
    rw [max_eq_right hc]
    refine ⟨by simpa using hn, by simp, ?_⟩
    simp
    linarith

theorem ddConf_quantile {q : ℚ} (hq : q < 1) {boots : List K} (h : boots ≠ []) :
    ∃ v, ddConf q (sortK boots) = some v ∧ IsQuantile q boots v ∧
      (sortK boots)[(ddIndex q boots.length).toNat]? = some v := by
  have hn : 0 < boots.length := List.length_pos_of_ne_nil h
  obtain ⟨h1, h2, h3⟩ := ddIndex_spec hq hn
  have hlt : (ddIndex q boots.length).toNat < (sortK boots).length := by
    rw [length_sortK]; exact h1
  have hg : (sortK boots)[(ddIndex q boots.length).toNat]? = some ((sortK boots)[(ddIndex q boots.length).toNat]) :=
    List.getElem?_eq_getElem hlt
  refine ⟨_, ?_, ?_, hg⟩
  · unfold ddConf
    rw [length_sortK]
    exact hg
  · obtain ⟨c1, c2⟩ := sorted_counts (sortK_sorted boots) hg
    rw [((sortK_perm boots).filter _).length_eq] at c1 c2
    refine ⟨mem_sortK (List.getElem_mem hlt), ?_, ?_⟩
    · exact le_trans (by exact_mod_cast c1) h2
    · refine lt_of_lt_of_le h3 ?_
      exact_mod_cast c2

theorem ddIndex_mono {q q' : ℚ} (h : q ≤ q') (n : Nat) : ddIndex q n ≤ ddIndex q' n := by
  unfold ddIndex
  simp only
  have hle : q * ((n : ℚ) + 1) - 1 ≤ q' * ((n : ℚ) + 1) - 1 := by
    have : (0 : ℚ) ≤ n := by positivity
    nlinarith
  split
  next h0 =>
    rw [if_pos (le_trans h0 hle)]
    exact max_le_max (Int.floor_le_floor hle) (le_refl _)
  next h0 =>
    rw [not_le] at h0
    have hc : ⌈q * ((n : ℚ) + 1) - 1⌉ ≤ 0 := Int.ceil_le.mpr (by simpa using le_of_lt h0)
    rw [max_eq_right hc]
    exact le_max_right _ _

/-- What four drawdown bounds taken from replicates guarantee. -/
def Spec.BoundsOk (boots : List K) (c : DdConfs K) : Prop :=
  IsQuantile (1 / 1000) boots c.q001 ∧ IsQuantile (1 / 100) boots c.q01 ∧
    IsQuantile (5 / 100) boots c.q05 ∧ IsQuantile (1 / 10) boots c.q10 ∧
    c.q001 ≤ c.q01 ∧ c.q01 ≤ c.q05 ∧ c.q05 ≤ c.q10

theorem ddConfs_ok {boots : List K} (h : boots ≠ []) :
    ∃ c, ddConfs boots = some c ∧ BoundsOk boots c := by
  obtain ⟨a, ha, qa, ga⟩ := ddConf_quantile (q := 1 / 1000) (by norm_num) h
  obtain ⟨b, hb, qb, gb⟩ := ddConf_quantile (q := 1 / 100) (by norm_num) h
  obtain ⟨c, hc, qc, gc⟩ := ddConf_quantile (q := 5 / 100) (by norm_num) h
  obtain ⟨d, hd, qd, gd⟩ := ddConf_quantile (q := 1 / 10) (by norm_num) h
  refine ⟨⟨a, b, c, d⟩, ?_, qa, qb, qc, qd, ?_, ?_, ?_⟩
  · unfold ddConfs
    rw [ha, hb, hc, hd]
  · exact sorted_get (sortK_sorted boots)
      (Int.toNat_le_toNat (ddIndex_mono (by norm_num) _)) ga gb
  · exact sorted_get (sortK_sorted boots)
      (Int.toNat_le_toNat (ddIndex_mono (by norm_num) _)) gb gc
  · exact sorted_get (sortK_sorted boots)
      (Int.toNat_le_toNat (ddIndex_mono (by norm_num) _)) gc gd

variable [IsStrictOrderedRing K]

/-- **C57** (drawdown).  For every sample, every number of replicates and every draw of indexes,
the four bounds in cash and in percent exist, each is the matching quantile of the replicates'
drawdowns, they get no deeper from 99.9% to 90%, and none is positive. -/
theorem drawdown_bounds (changes returns : List K) (draws : List (List Nat)) (hd : draws ≠ [])
    (hl : changes.length = returns.length) (hne : changes ≠ []) :
    ∃ cash pct, drawdownConf changes returns draws = some (cash, pct) ∧
      BoundsOk (draws.map (fun d => maxDrawdown (resample changes d))) cash ∧
      BoundsOk (draws.map (fun d => (maxDrawdownPct (resample returns d)).1)) pct ∧
      cash.q10 ≤ 0 ∧ pct.q10 ≤ 0 := by
  obtain ⟨a, ha, ka⟩ := ddConfs_ok
    (boots := draws.map (fun d => maxDrawdown (resample changes d))) (by simpa using hd)
  obtain ⟨b, hb, kb⟩ := ddConfs_ok
    (boots := draws.map (fun d => (maxDrawdownPct (resample returns d)).1)) (by simpa using hd)
  refine ⟨a, b, ?_, ka, kb, ?_, ?_⟩
  · unfold drawdownConf
    rw [if_neg (by rintro (h | h); exacts [hd h, h hl]), if_neg hne, ha, hb]
  · obtain ⟨d, _, hd'⟩ := List.mem_map.mp ka.2.2.2.1.1
    rw [← hd']
    exact (max_drawdown_spec _).1
  · obtain ⟨d, _, hd'⟩ := List.mem_map.mp kb.2.2.2.1.1
    rw [← hd']
    exact (max_drawdown_pct_bounds _).1

/-- **C57** (no data, bad arguments). -/
theorem drawdown_degenerate (changes returns : List K) (draws : List (List Nat)) :
    ((draws = [] ∨ changes.length ≠ returns.length) ↔ drawdownConf changes returns draws = none) ∧
      (draws ≠ [] → drawdownConf ([] : List K) [] draws = some (⟨0, 0, 0, 0⟩, ⟨0, 0, 0, 0⟩)) := by
  constructor
  · constructor
    · intro h
      unfold drawdownConf
      rw [if_pos h]
    · intro h
      by_contra hn
      rw [not_or, not_not] at hn
      by_cases hc : changes = []
      · unfold drawdownConf at h
        rw [if_neg (by rintro (h | h); exacts [hn.1 h, h hn.2]), if_pos hc] at h
        cases h
      · obtain ⟨a, b, he, _⟩ := drawdown_bounds changes returns draws hn.1 hn.2 hc
        rw [he] at h
        cases h
  · intro h
    unfold drawdownConf
    simp [h]

example : (drawdownConf ([3, -2] : List ℚ) [1 / 10, -1 / 5] [[0, 1], [1, 1], [1, 0]]).map
    (fun p => (p.1.q001, p.1.q10, p.2.q001, p.2.q10)) = some (-4, -4, -36, -36) := by
  decide +kernel

/-! ## C57: BCa ends -/

theorem bcaClamp_range (k : Int) {n : Nat} (h : 0 < n) : 0 ≤ bcaClamp k n ∧ bcaClamp k n < n := by
  unfold bcaClamp
  omega

omit [IsStrictOrderedRing K] in
theorem bcaPair_mem (F : Fns K) (B : BcaFns K) (boot : List K) (z0 accel q : K) (h : boot ≠ []) :
    ∃ p, bcaPair F B boot z0 accel q = some p ∧ p.1 ∈ boot ∧ p.2 ∈ boot := by
  have hn : 0 < boot.length := List.length_pos_of_ne_nil h
  unfold bcaPair
  simp only
  generalize B.toInt (bcaLevel F z0 accel (B.inv q) * ((boot.length : K) + 1)) - 1 = lo
  generalize B.toInt ((1 - bcaLevel F z0 accel (B.inv (1 - q))) * ((boot.length : K) + 1)) - 1 = hi
  have h1 := bcaClamp_range lo hn
  have h2 := bcaClamp_range hi hn
  have g1 : (bcaClamp lo boot.length).toNat < boot.length := by omega
  have g2 : ((boot.length : Int) - 1 - bcaClamp hi boot.length).toNat < boot.length := by omega
  rw [List.getElem?_eq_getElem g1, List.getElem?_eq_getElem g2]
  exact ⟨_, rfl, List.getElem_mem g1, List.getElem_mem g2⟩

omit [IsStrictOrderedRing K] in
/-- **C57** (BCa).  Whatever the statistic, its jackknife, the normal distribution's
approximations and the truncation to integers give, every end of the three intervals is the value
of the statistic on one of the replicates. -/
theorem bca_ends (F : Fns K) (B : BcaFns K) (fn : List K → K) (jack : List K → List K) (x : List K)
    (draws : List (List Nat)) (hd : draws ≠ []) (hx : x ≠ []) :
    ∃ ci, bcaBootConf F B fn jack x draws = some ci ∧
      ∀ v ∈ [ci.low2p5, ci.high2p5, ci.low5, ci.high5, ci.low10, ci.high10],
        ∃ d ∈ draws, v = fn (resample x d) := by
  unfold bcaBootConf
  rw [if_neg hd, if_neg hx]
  simp only [bcaIntervals]
  generalize hb : draws.map (fun d => fn (resample x d)) = boot
  have hne : sortK boot ≠ [] := by
    intro h
    have := length_sortK boot
    rw [h, ← hb] at this
    exact hd (List.length_eq_zero_iff.mp (by simpa using this.symm))
  generalize bcaAccel F (jack x) = acc
  generalize B.inv _ = z0
  obtain ⟨p, e1, m1, m1'⟩ := bcaPair_mem F B (sortK boot) z0 acc (25 / 1000) hne
  obtain ⟨q, e2, m2, m2'⟩ := bcaPair_mem F B (sortK boot) z0 acc (5 / 100) hne
  obtain ⟨r, e3, m3, m3'⟩ := bcaPair_mem F B (sortK boot) z0 acc (1 / 10) hne
  rw [e1, e2, e3]
  refine ⟨_, rfl, ?_⟩
  have key : ∀ v, v ∈ sortK boot → ∃ d ∈ draws, v = fn (resample x d) := by
    intro v hv
    have := mem_sortK hv
    rw [← hb] at this
    obtain ⟨d, hd, he⟩ := List.mem_map.mp this
    exact ⟨d, hd, he.symm⟩
  intro v hv
  simp only [List.mem_cons, List.not_mem_nil, or_false] at hv
  rcases hv with rfl | rfl | rfl | rfl | rfl | rfl
  exacts [key _ m1, key _ m1', key _ m2, key _ m2', key _ m3, key _ m3']

/-- **C57** (bias).  With two replicates or more the bias correction never asks for the quantile of
0 or 1, even when every replicate is below the statistic or none is: the intervals are the same for
any two inverses that agree strictly between 0 and 1. -/
theorem bca_inner (F : Fns K) (B B' : BcaFns K) (fn : List K → K) (jack : List K → List K)
    (x : List K) (draws : List (List Nat)) (hd : 2 ≤ draws.length)
    (hinv : ∀ p, 0 < p → p < 1 → B.inv p = B'.inv p) (hint : B.toInt = B'.toInt) :
    bcaBootConf F B fn jack x draws = bcaBootConf F B' fn jack x draws := by
  have hpair : ∀ boot z0 acc (q : K), 0 < q → q < 1 →
      bcaPair F B boot z0 acc q = bcaPair F B' boot z0 acc q := by
    intro boot z0 acc q h0 h1
    unfold bcaPair
    rw [hinv q h0 h1, hinv (1 - q) (by linarith) (by linarith), hint]
  unfold bcaBootConf
  split
  · rfl
  split
  · rfl
  simp only [bcaIntervals]
  generalize hn : List.length (draws.map (fun d => fn (resample x d))) = n
  have hn2 : 2 ≤ n := by rw [← hn, List.length_map]; exact hd
  generalize List.length (List.filter _ (draws.map (fun d => fn (resample x d)))) = z
  have hz1 : (1 : Int) ≤ z0Clamp z n := by unfold z0Clamp; omega
  have hz2 : z0Clamp z n < n := by unfold z0Clamp; omega
  have hnK : (0 : K) < n := by
    have : 0 < n := by omega
    exact_mod_cast this
  have e1 : (1 : K) ≤ (z0Clamp z n : K) := by exact_mod_cast hz1
  have e2 : (z0Clamp z n : K) < (n : K) := by exact_mod_cast hz2
  rw [hinv _ (div_pos (by linarith) hnK) ((div_lt_one hnK).2 e2),
    hpair _ _ _ (25 / 1000) (by norm_num) (by norm_num), hpair _ _ _ (5 / 100) (by norm_num)
    (by norm_num), hpair _ _ _ (1 / 10) (by norm_num) (by norm_num)]

/-- Two inverses that differ at 0 and 1 only, and a sample all of whose replicates are below its
statistic. -/
example : ∀ p : ℚ, 0 < p → p < 1 → (fun p => if p ≤ 0 ∨ 1 ≤ p then 7 else p) p = id p := by
  intro p h0 h1
  simp [not_le.2 h0, not_le.2 h1]

example : ([[0, 0], [0, 1]].map (fun d => (resample ([1, 2] : List ℚ) d).sum)).all (· < 4) = true := by
  decide +kernel

/-- **C57** (order).  An interval is not inverted when its two levels are in order: with `int`
rounding down and `0 ≤ alo ≤ ahi ≤ 1`, `alo < 1` and `0 < ahi`, the low end is at most the
high end. -/
theorem bca_ordered [FloorRing K] (F : Fns K) (B : BcaFns K) (boot : List K) (z0 accel q : K)
    (hs : boot.Pairwise (· ≤ ·)) (hint : ∀ v : K, 0 ≤ v → B.toInt v = ⌊v⌋)
    (h0 : 0 ≤ bcaLevel F z0 accel (B.inv q)) (h1 : bcaLevel F z0 accel (B.inv q) < 1)
    (h2 : 0 < bcaLevel F z0 accel (B.inv (1 - q))) (h3 : bcaLevel F z0 accel (B.inv (1 - q)) ≤ 1)
    (hle : bcaLevel F z0 accel (B.inv q) ≤ bcaLevel F z0 accel (B.inv (1 - q))) (p : K × K)
    (hp : bcaPair F B boot z0 accel q = some p) : p.1 ≤ p.2 := by
  unfold bcaPair at hp
  simp only at hp
  generalize bcaLevel F z0 accel (B.inv q) = alo at *
  generalize bcaLevel F z0 accel (B.inv (1 - q)) = ahi at *
  have hn : (0 : K) ≤ boot.length := by positivity
  rw [hint _ (mul_nonneg h0 (by linarith)), hint _ (mul_nonneg (by linarith) (by linarith))] at hp
  have f1 : ⌊alo * ((boot.length : K) + 1)⌋ ≤ boot.length := by
    have : ⌊alo * ((boot.length : K) + 1)⌋ < (boot.length : Int) + 1 := by
      rw [Int.floor_lt]
      push_cast
      nlinarith
    omega
  have f2 : ⌊(1 - ahi) * ((boot.length : K) + 1)⌋ ≤ boot.length := by
    have : ⌊(1 - ahi) * ((boot.length : K) + 1)⌋ < (boot.length : Int) + 1 := by
      rw [Int.floor_lt]
      push_cast
      nlinarith
    omega
  have f3 : ⌊alo * ((boot.length : K) + 1)⌋ + ⌊(1 - ahi) * ((boot.length : K) + 1)⌋
      ≤ boot.length + 1 := by
    have a1 := Int.floor_le (alo * ((boot.length : K) + 1))
    have a2 := Int.floor_le ((1 - ahi) * ((boot.length : K) + 1))
    have : ((⌊alo * ((boot.length : K) + 1)⌋ + ⌊(1 - ahi) * ((boot.length : K) + 1)⌋ : Int) : K)
        ≤ ((boot.length + 1 : Int) : K) := by
      push_cast
      nlinarith
    exact_mod_cast this
  generalize ⌊alo * ((boot.length : K) + 1)⌋ = a at *
  generalize ⌊(1 - ahi) * ((boot.length : K) + 1)⌋ = b at *
  rcases Option.eq_none_or_eq_some boot[(bcaClamp (a - 1) boot.length).toNat]? with h | ⟨u, hu⟩
  · simp [h] at hp
  rcases Option.eq_none_or_eq_some
    boot[((boot.length : Int) - 1 - bcaClamp (b - 1) boot.length).toNat]? with h | ⟨w, hw⟩
  · simp [hu, h] at hp
  simp only [hu, hw] at hp
  cases hp
  have hlen : 0 < boot.length := lt_of_le_of_lt (Nat.zero_le _) (List.getElem?_eq_some_iff.mp hu).1
  refine sorted_get hs ?_ hu hw
  unfold bcaClamp
  omega

/-! ## C58: jackknives -/

omit [IsStrictOrderedRing K] [LinearOrder K] [Field K] in
theorem filterMap_range_take (x : List K) (i : Nat) (h : i ≤ x.length) :
    (List.range i).filterMap (fun j => x[j]?) = x.take i := by
  induction i with
  | zero => simp
  | succ i ih =>
    rw [List.range_succ, List.filterMap_append, ih (by omega), List.take_add_one]
    simp [List.getElem?_eq_getElem (show i < x.length by omega)]

omit [IsStrictOrderedRing K] [LinearOrder K] [Field K] in
theorem filterMap_range'_drop (x : List K) : ∀ n i : Nat, i + n = x.length →
    (List.range' i n).filterMap (fun j => x[j]?) = x.drop i := by
  intro n
  induction n with
  | zero =>
    intro i h
    simp [List.drop_eq_nil_of_le (show x.length ≤ i by omega)]
  | succ n ih =>
    intro i h
    rw [List.range'_succ, List.filterMap_cons, List.getElem?_eq_getElem (show i < x.length by omega),
      List.drop_eq_getElem_cons (show i < x.length by omega)]
    simp only
    rw [ih (i + 1) (by omega)]

omit [IsStrictOrderedRing K] in
/-- **C58** (generic).  The generic jackknife evaluates the statistic on the sample without
element `i`, in the original order, for every sample of more than one element. -/
theorem jackknife_generic (fn : List K → K) (x : List K) (h : 1 < x.length) :
    jackGeneric fn x = (List.range x.length).map (fun i => fn (x.eraseIdx i)) := by
  unfold jackGeneric
  rw [if_pos h]
  apply List.map_congr_left
  intro i hi
  have hi' : i < x.length := List.mem_range.mp hi
  unfold leaveOut
  rw [filterMap_range_take x i (by omega), filterMap_range'_drop x _ (i + 1) (by omega),
    List.eraseIdx_eq_take_drop_succ]

omit [IsStrictOrderedRing K] in
theorem map_range_getElem {α β : Type} (x : List α) (f : α → β) (g : Nat → β)
    (h : ∀ i (hi : i < x.length), f x[i] = g i) : x.map f = (List.range x.length).map g := by
  apply List.ext_getElem
  · simp
  · intro i h1 h2
    simp only [List.getElem_map, List.getElem_range]
    exact h i (by simpa using h1)

theorem sum_eraseIdx (x : List K) (i : Nat) (h : i < x.length) (f : K → K) :
    ((x.eraseIdx i).map f).sum = (x.map f).sum - f x[i] := by
  have e : (x.map f).sum = ((x.take i ++ x[i] :: x.drop (i + 1)).map f).sum := by
    rw [← List.drop_eq_getElem_cons h, List.take_append_drop]
  rw [List.eraseIdx_eq_take_drop_succ, e]
  simp only [List.map_append, List.map_cons, List.sum_append, List.sum_cons]
  ring

theorem filter_sum (p : K → Bool) (x : List K) :
    (x.filter p).sum = (x.map (fun v => if p v then v else 0)).sum := by
  induction x with
  | nil => rfl
  | cons a rest ih =>
    rw [List.filter_cons]
    split
    next h => simp [h, ih]
    next h => simp [h, ih]

/-- The profit factor's quotient (or its logarithm) of the gains and losses of a sample. -/
def Spec.pfFormula (F : Fns K) (useLog : Bool) (x : List K) : K :=
  let q := (1 / 10 ^ 10 + (x.filter (fun v => decide (v > 0))).sum) /
    (1 / 10 ^ 10 - (x.filter (fun v => decide (v < 0))).sum)
  if useLog then F.log q else q

/-- **C58** (profit factor).  The fast jackknife returns for each `i` the profit factor formula of
the sample without element `i`. -/
theorem jackknife_pf (F : Fns K) (useLog : Bool) (x : List K) :
    jackPf F useLog x = (List.range x.length).map (fun i => pfFormula F useLog (x.eraseIdx i)) := by
  unfold jackPf
  apply map_range_getElem
  intro i hi
  have hw : ((x.eraseIdx i).filter (fun v => decide (v > 0))).sum
      = if x[i] > 0 then (winLoss x).1 - x[i] else (winLoss x).1 := by
    rw [filter_sum, sum_eraseIdx x i hi, winLoss_eq, filter_sum]
    by_cases h : x[i] > 0 <;> simp [h]
  have hl : ((x.eraseIdx i).filter (fun v => decide (v < 0))).sum
      = if x[i] > 0 then (winLoss x).2
        else if x[i] < 0 then (winLoss x).2 - x[i] else (winLoss x).2 := by
    rw [filter_sum, sum_eraseIdx x i hi, winLoss_eq, filter_sum]
    rcases lt_trichotomy x[i] 0 with h | h | h
    · simp [h, not_lt.mpr (le_of_lt h), filter_sum]
    · simp [h, filter_sum]
    · simp [h, not_lt.mpr (le_of_lt h), filter_sum]
  unfold pfFormula pfOf tiny
  simp only [hw, hl]

theorem profitFactor_formula (F : Fns K) (useLog : Bool) (x : List K) (h : ∃ v ∈ x, v ≠ 0) :
    profitFactor F useLog x = pfFormula F useLog x := by
  obtain ⟨v, hv, hne⟩ := h
  have hany : x.any (fun v => decide (v > 0) || decide (v < 0)) = true := by
    rw [List.any_eq_true]
    refine ⟨v, hv, ?_⟩
    rcases lt_or_gt_of_ne hne with h | h
    · simp [h]
    · simp [h]
  unfold profitFactor
  rw [if_pos hany, winLoss_eq]
  rfl

/-- **C58** (`log_profit_factor`).  With `log 1 = 0` the fast jackknife of the log profit factor
is `log_profit_factor` of the samples without one element, also when nothing is left in them. -/
theorem jackknife_log_pf (F : Fns K) (hlog : F.log 1 = 0) (x : List K) :
    jackPf F true x = (List.range x.length).map (fun i => profitFactor F true (x.eraseIdx i)) := by
  rw [jackknife_pf]
  apply List.map_congr_left
  intro i _
  by_cases h : ∃ v ∈ x.eraseIdx i, v ≠ 0
  · rw [profitFactor_formula F true _ h]
  · have h' : ∀ v ∈ x.eraseIdx i, v = 0 := by
      intro v hv
      by_contra hne
      exact h ⟨v, hv, hne⟩
    have e1 : (x.eraseIdx i).filter (fun v => decide (v > 0)) = [] := by
      rw [List.filter_eq_nil_iff]
      intro v hv
      rw [h' v hv]; simp
    have e2 : (x.eraseIdx i).filter (fun v => decide (v < 0)) = [] := by
      rw [List.filter_eq_nil_iff]
      intro v hv
      rw [h' v hv]; simp
    have e3 : (x.eraseIdx i).any (fun v => decide (v > 0) || decide (v < 0)) = false := by
      rw [List.any_eq_false]
      intro v hv
      rw [h' v hv]; simp
    unfold pfFormula profitFactor
    simp only [e1, e2, e3]
    simp [hlog]

/-- **C58** (where they differ).  For the plain profit factor the shortcut gives 1 for a sample
whose only change is left out, where `profit_factor` gives 0. -/
theorem jackknife_pf_differs (F : Fns K) :
    jackPf F false [5, 0] ≠ (List.range 2).map (fun i => profitFactor F false (([5, 0] : List K).eraseIdx i)) := by
  rw [jackknife_pf]
  intro h
  have h0 := congrArg List.head? h
  simp [List.range_succ, pfFormula, profitFactor] at h0

theorem mean_sq_dev (x : List K) (hn : (x.length : K) ≠ 0) :
    mean (x.map (fun v => (v - mean x) * (v - mean x)))
      = (x.map (fun v => v * v)).sum / x.length - mean x * mean x := by
  have key : ∀ c : K, (x.map (fun v => (v - c) * (v - c))).sum
      = (x.map (fun v => v * v)).sum - 2 * c * x.sum + x.length * (c * c) := by
    intro c
    clear hn
    induction x with
    | nil => simp
    | cons a rest ih =>
      simp only [List.map_cons, List.sum_cons, ih, List.length_cons]
      push_cast
      ring
  unfold mean
  rw [List.length_map, key]
  field_simp
  ring

/-- **C58** (Sharpe).  With a square root that is zero exactly at the numbers that are not
positive, the fast jackknife of the Sharpe ratio is `sharpe_ratio` of the samples without one
element. -/
theorem jackknife_sharpe (F : Fns K) (hsqrt : ∀ v, F.sqrt v = 0 ↔ v ≤ 0) (x : List K) :
    jackSharpe F x = (List.range x.length).map (fun i => sharpe F (x.eraseIdx i) none) := by
  unfold jackSharpe
  by_cases h1 : x.length ≤ 1
  · rw [if_pos h1]
    apply map_range_getElem
    intro i hi
    have : (x.eraseIdx i).length = 0 := by rw [List.length_eraseIdx_of_lt hi]; omega
    unfold sharpe
    rw [if_pos this]
  · rw [if_neg h1]
    simp only
    apply map_range_getElem
    intro i hi
    have hlen : (x.eraseIdx i).length = x.length - 1 := List.length_eraseIdx_of_lt hi
    have hcast : ((x.eraseIdx i).length : K) = (x.length : K) - 1 := by
      rw [hlen, Nat.cast_sub (by omega)]
      simp
    have hne : ((x.eraseIdx i).length : K) ≠ 0 := by
      rw [Nat.cast_ne_zero]; omega
    have hsum : (x.eraseIdx i).sum = x.sum - x[i] := by
      have := sum_eraseIdx x i hi id
      simpa using this
    have hsq : ((x.eraseIdx i).map (fun v => v * v)).sum
        = (x.map (fun v => v * v)).sum - x[i] * x[i] := sum_eraseIdx x i hi _
    have hmean : mean (x.eraseIdx i) = (x.sum - x[i]) / ((x.length : K) - 1) := by
      unfold mean
      rw [hsum, hcast]
    have hstd : std F (x.eraseIdx i) = F.sqrt (((x.map (fun v => v * v)).sum - x[i] * x[i]) /
        ((x.length : K) - 1) - (x.sum - x[i]) / ((x.length : K) - 1) *
          ((x.sum - x[i]) / ((x.length : K) - 1))) := by
      unfold std
      rw [mean_sq_dev _ hne, hsq, hmean, hcast]
    unfold sharpe
    rw [if_neg (show ¬ (x.eraseIdx i).length = 0 by omega), hstd, hmean]
    by_cases hv : ((x.map (fun v => v * v)).sum - x[i] * x[i]) / ((x.length : K) - 1) -
        (x.sum - x[i]) / ((x.length : K) - 1) * ((x.sum - x[i]) / ((x.length : K) - 1)) ≤ 0
    · rw [if_pos hv, if_pos ((hsqrt _).mpr hv)]
    · rw [if_neg hv, if_neg (fun h => hv ((hsqrt _).mp h))]

/-- **C58** (real numbers).  With the real logarithm and square root both fast jackknives are the
statistics of the samples without one element. -/
theorem jackknives_real (x : List ℝ) :
    jackPf realFns true x
        = (List.range x.length).map (fun i => profitFactor realFns true (x.eraseIdx i)) ∧
      jackSharpe realFns x
        = (List.range x.length).map (fun i => sharpe realFns (x.eraseIdx i) none) := by
  refine ⟨jackknife_log_pf realFns Real.log_one x, jackknife_sharpe realFns ?_ x⟩
  intro v
  exact Real.sqrt_eq_zero'

/-- **C58** (acceleration).  The BCa acceleration of a real jackknife is at most 1/6. -/
theorem bca_accel_bound (jack : List ℝ) : |bcaAccel realFns jack| ≤ 1 / 6 := by
  unfold bcaAccel
  simp only
  generalize jack.sum / (jack.length : ℝ) = dot
  have hs : ∀ l : List ℝ, 0 ≤ (l.map (fun j => (dot - j) * (dot - j))).sum := by
    intro l
    apply List.sum_nonneg
    intro a ha
    obtain ⟨j, _, rfl⟩ := List.mem_map.mp ha
    exact mul_self_nonneg _
  change |_ / (6 * (√_ * √_ * √_) + tiny 60)| ≤ _
  generalize hS : (jack.map (fun j => (dot - j) * (dot - j))).sum = S
  have hS0 : 0 ≤ S := hS ▸ hs jack
  have hr := Real.sqrt_nonneg S
  have hrr := Real.mul_self_sqrt hS0
  have hd : ∀ j ∈ jack, |dot - j| ≤ √S := by
    intro j hj
    apply Real.abs_le_sqrt
    rw [pow_two, ← hS]
    exact List.single_le_sum (by
      intro a ha
      obtain ⟨k, _, rfl⟩ := List.mem_map.mp ha
      exact mul_self_nonneg _) _ (List.mem_map.mpr ⟨j, hj, rfl⟩)
  have hnum : ∀ l : List ℝ, (∀ j ∈ l, |dot - j| ≤ √S) →
      |(l.map (fun j => (dot - j) * (dot - j) * (dot - j))).sum|
        ≤ √S * (l.map (fun j => (dot - j) * (dot - j))).sum := by
    intro l
    induction l with
    | nil => intro _; simp
    | cons a rest ih =>
      intro h
      have h1 := ih (fun j hj => h j (by simp [hj]))
      have h2 := h a (by simp)
      simp only [List.map_cons, List.sum_cons]
      refine le_trans (abs_add_le _ _) ?_
      rw [mul_add]
      refine add_le_add ?_ h1
      rw [abs_mul, abs_mul_self, mul_comm]
      exact mul_le_mul_of_nonneg_right h2 (mul_self_nonneg _)
  have hn := hnum jack hd
  rw [hS] at hn
  have ht : (0 : ℝ) < tiny 60 := tiny_pos 60
  have hden : 0 < 6 * (√S * √S * √S) + tiny 60 := by positivity
  rw [abs_div, abs_of_pos hden, div_le_iff₀ hden]
  have : √S * S = √S * √S * √S := by
    rw [hrr, mul_comm]
  linarith

end PyBroker
