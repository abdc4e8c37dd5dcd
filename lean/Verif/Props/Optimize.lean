/-
C67: hyperparameter candidates.  C84: the values of a run.  C85: the trials of a study.
-/
import Verif.Optimize.Model
import Mathlib.Algebra.Order.Floor.Ring
import Mathlib.Data.List.Nodup
import Mathlib.Tactic.Linarith
import Mathlib.Tactic.Ring
import Mathlib.Tactic.FieldSimp
import Mathlib.Tactic.NormNum

namespace PyBroker

namespace Spec

/-- Evenly spaced numbers: from `low`, each `step` more than the one before, to `high`. -/
structure Lattice (low step high : ℚ) (pts : List ℚ) : Prop where
  first : pts.head? = some low
  last : pts.getLast? = some high
  spaced : ∀ i a b, pts[i]? = some a → pts[i + 1]? = some b → b = a + step

/-- All four numbers are integers, or all four are floats. -/
def OneType (h : Hyper) : Prop :=
  (∃ d l u s, h.default = .int d ∧ h.low = .int l ∧ h.high = .int u ∧ h.step = .int s) ∨
  ∃ d l u s, h.default = .float d ∧ h.low = .float l ∧ h.high = .float u ∧ h.step = .float s

/-- The assignments of one of its candidates to each name. -/
def points {V : Type} : SDict (List V) → List (SDict V)
  | [] => [[]]
  | (k, vs) :: rest => vs.flatMap (fun v => (points rest).map ((k, v) :: ·))

end Spec

open Spec

/-! ## The lattice -/

theorem lattice_loop {R : Type} [CommRing R] [LinearOrder R] [IsStrictOrderedRing R]
    (k : Nat) (v s : R) (hs : 0 < s) (fuel : Nat) (hf : k + 1 < fuel) :
    latticeLoop fuel v (v + k * s) s = some ((List.range (k + 1)).map (fun i : Nat => v + i * s)) := by
  induction k generalizing v fuel with
  | zero =>
    obtain ⟨f, rfl⟩ : ∃ f, fuel = f + 2 := ⟨fuel - 2, by omega⟩
    have h1 : v ≤ v + ((0 : Nat) : R) * s := by simp
    have h2 : ¬ v + s ≤ v + ((0 : Nat) : R) * s := by simpa using hs
    rw [latticeLoop, if_pos h1, latticeLoop, if_neg h2]
    simp
  | succ k ih =>
    obtain ⟨f, rfl⟩ : ∃ f, fuel = f + 1 := ⟨fuel - 1, by omega⟩
    have h1 : v ≤ v + ((k + 1 : Nat) : R) * s := by
      have : (0 : R) ≤ ((k + 1 : Nat) : R) * s := mul_nonneg (Nat.cast_nonneg _) hs.le
      linarith
    have h2 : v + ((k + 1 : Nat) : R) * s = (v + s) + (k : R) * s := by push_cast; ring
    rw [latticeLoop, if_pos h1, h2, ih (v + s) f (by omega)]
    rw [Option.map_some, List.range_succ_eq_map (n := k + 1), List.map_cons, List.map_map]
    congr 1
    simp only [Nat.cast_zero, zero_mul, add_zero, List.cons.injEq, true_and]
    apply List.map_congr_left
    intro i _
    simp only [Function.comp_apply]
    push_cast
    ring

/-- The points `low, low + step, …`. -/
def latticePts (low step : ℚ) (k : Nat) : List ℚ := (List.range (k + 1)).map (fun i : Nat => low + i * step)

theorem latticePts_lattice (low step : ℚ) (k : Nat) :
    Lattice low step (low + k * step) (latticePts low step k) where
  first := by
    unfold latticePts
    rw [List.range_succ_eq_map]
    simp
  last := by
    unfold latticePts
    rw [List.range_succ, List.map_append, List.map_singleton, List.getLast?_concat]
  spaced i a b ha hb := by
    unfold latticePts at ha hb
    rw [List.getElem?_map] at ha hb
    rcases h1 : (List.range (k + 1))[i]? with _ | x
    · rw [h1] at ha; cases ha
    rcases h2 : (List.range (k + 1))[i + 1]? with _ | y
    · rw [h2] at hb; cases hb
    rw [h1] at ha; rw [h2] at hb
    have hx := (List.getElem?_eq_some_iff.1 h1).2
    have hy := (List.getElem?_eq_some_iff.1 h2).2
    rw [List.getElem_range] at hx hy
    subst hx hy
    have ha := Option.some.inj ha
    have hb := Option.some.inj hb
    rw [← ha, ← hb]
    push_cast
    ring

theorem decMod_zero {a b : ℚ} (ha : 0 ≤ a) (hb : 0 < b) :
    decMod a b = 0 ↔ ∃ k : Nat, a = k * b := by
  unfold decMod
  constructor
  · intro h
    have hf : 0 ≤ ⌊a / b⌋ := Int.floor_nonneg.2 (div_nonneg ha hb.le)
    refine ⟨⌊a / b⌋.toNat, ?_⟩
    have : ((⌊a / b⌋.toNat : Nat) : ℚ) = (⌊a / b⌋ : ℚ) := by
      have := Int.toNat_of_nonneg hf
      exact_mod_cast this
    rw [this]
    linarith
  · rintro ⟨k, rfl⟩
    have : (k : ℚ) * b / b = ((k : Int) : ℚ) := by
      rw [mul_div_assoc, div_self hb.ne', mul_one]; rfl
    rw [this, Int.floor_intCast]
    push_cast
    ring

theorem oneType_iff (h : Hyper) : OneType h ↔
    ¬ ((h.default.bad || h.low.bad || h.high.bad || h.step.bad) = true) ∧
    ¬ ((!(h.default.isInt && h.low.isInt && h.high.isInt && h.step.isInt) &&
      !(h.default.isFloat && h.low.isFloat && h.high.isFloat && h.step.isFloat)) = true) := by
  obtain ⟨n, d, l, u, s⟩ := h
  unfold OneType
  cases d <;> cases l <;> cases u <;> cases s <;> simp [HNum.bad, HNum.isInt, HNum.isFloat]

/-- **C67.** A hyperparameter is accepted exactly when its numbers are of one type,
the step is positive and `high` is `low` plus a number of steps. -/
theorem hyper_accepted (h : Hyper) : h.check = .ok () ↔
    OneType h ∧ 0 < h.step.val ∧ ∃ k : Nat, h.high.val = h.low.val + k * h.step.val := by
  rw [oneType_iff]
  unfold Hyper.check
  split
  · rename_i h1
    simp only [reduceCtorEq, false_iff, not_and]
    intro hc; exact absurd h1 hc.1
  rename_i h1
  split
  · rename_i h2
    simp only [reduceCtorEq, false_iff, not_and]
    intro hc; exact absurd h2 hc.2
  rename_i h2
  split
  · rename_i h3
    simp only [reduceCtorEq, false_iff, not_and]
    intro _ h4; exact absurd h4 (not_lt.2 h3)
  rename_i h3
  rw [not_le] at h3
  split
  · rename_i h4
    simp only [reduceCtorEq, false_iff, not_and]
    rintro _ _ ⟨k, hk⟩
    have : (0 : ℚ) ≤ k * h.step.val := mul_nonneg (Nat.cast_nonneg _) h3.le
    linarith
  rename_i h4
  rw [not_lt] at h4
  have hz := decMod_zero (sub_nonneg.2 h4) h3
  split
  · rename_i h5
    simp only [reduceCtorEq, false_iff, not_and]
    rintro _ _ ⟨k, hk⟩
    exact h5.2 (hz.2 ⟨k, by linarith⟩)
  · rename_i h5
    simp only [true_iff]
    refine ⟨⟨h1, h2⟩, h3, ?_⟩
    by_cases he : h.low.val = h.high.val
    · exact ⟨0, by simp [he]⟩
    · have : decMod (h.high.val - h.low.val) h.step.val = 0 := by
        by_contra hc; exact h5 ⟨he, hc⟩
      obtain ⟨k, hk⟩ := hz.1 this
      exact ⟨k, by linarith⟩

/-- What a candidate is turned into when it is given out: integers stay, a float is
converted back from a decimal. -/
def Spec.given (toFloat : ℚ → ℚ) (h : Hyper) (q : ℚ) : ℚ := if h.low.isInt then q else toFloat q

theorem lattice_steps {h : Hyper} (hc : h.check = .ok ()) (hne : h.low.val ≠ h.high.val) :
    ∃ k : Nat, 0 < k ∧ 0 < h.step.val ∧ h.high.val = h.low.val + k * h.step.val := by
  obtain ⟨_, h1, k, hk⟩ := (hyper_accepted h).1 hc
  refine ⟨k, ?_, h1, hk⟩
  rcases Nat.eq_zero_or_pos k with rfl | hp
  · simp at hk; exact absurd hk.symm hne
  · exact hp

theorem hyper_count {h : Hyper} (hc : h.check = .ok ()) (hne : h.low.val ≠ h.high.val) {k : Nat}
    (hk : h.high.val = h.low.val + k * h.step.val) : h.count = .ok ((k + 1 : Nat) : Int) := by
  obtain ⟨ht, h1, _⟩ := (hyper_accepted h).1 hc
  unfold Hyper.count
  rw [if_neg hne]
  obtain ⟨n, d, l, u, s⟩ := h
  simp only at *
  rcases ht with ⟨d, l, u, s, rfl, rfl, rfl, rfl⟩ | ⟨d, l, u, s, rfl, rfl, rfl, rfl⟩
  · simp only [HNum.val] at *
    have hs : 0 < s := by exact_mod_cast h1
    have hu : u = l + k * s := by exact_mod_cast hk
    have : (u - l) / s = k := by
      rw [hu, add_sub_cancel_left, Int.mul_ediv_cancel _ hs.ne']
    simp only [this]
    push_cast
    rfl
  · simp only [HNum.val] at *
    have : (u - l) / s = ((k : Int) : ℚ) := by
      rw [hk, add_sub_cancel_left, mul_div_assoc, div_self h1.ne', mul_one]; rfl
    rw [this, Int.floor_intCast]
    push_cast
    rfl

theorem hyper_values {h : Hyper} (hc : h.check = .ok ()) (hne : h.low.val ≠ h.high.val) {k : Nat}
    (hk : h.high.val = h.low.val + k * h.step.val) (toFloat : ℚ → ℚ) {fuel : Nat}
    (hf : k + 1 < fuel) :
    ∃ vs, h.values toFloat fuel = .ok (some vs) ∧
      vs.map HNum.val = (latticePts h.low.val h.step.val k).map (given toFloat h) ∧
      ∀ v ∈ vs, (v.isInt ↔ h.low.isInt) ∧ v.bad = false := by
  have hcount := hyper_count hc hne hk
  obtain ⟨ht, h1, _⟩ := (hyper_accepted h).1 hc
  have hn : ¬ (((k + 1 : Nat) : Int) = 0) := by omega
  unfold Hyper.values
  rw [hcount]
  simp only [hn, if_false]
  obtain ⟨n, d, l, u, s⟩ := h
  simp only at *
  rcases ht with ⟨d, l, u, s, rfl, rfl, rfl, rfl⟩ | ⟨d, l, u, s, rfl, rfl, rfl, rfl⟩
  · simp only [HNum.val] at *
    have hs : 0 < s := by exact_mod_cast h1
    have hu : u = l + k * s := by exact_mod_cast hk
    subst hu
    rw [lattice_loop k l s hs fuel hf]
    refine ⟨_, rfl, ?_, ?_⟩
    · unfold latticePts given
      simp only [List.map_map]
      apply List.map_congr_left
      intro i _
      simp [HNum.val, HNum.isInt]
    · intro v hv
      simp only [List.mem_map] at hv
      obtain ⟨x, _, rfl⟩ := hv
      simp [HNum.isInt, HNum.bad]
  · simp only [HNum.val] at *
    subst hk
    rw [lattice_loop k l s h1 fuel hf]
    refine ⟨_, rfl, ?_, ?_⟩
    · unfold latticePts given
      simp only [List.map_map]
      apply List.map_congr_left
      intro i _
      simp [HNum.val, HNum.isInt]
    · intro v hv
      simp only [List.mem_map] at hv
      obtain ⟨x, _, rfl⟩ := hv
      simp [HNum.isInt, HNum.bad]

/-- **C67.** The candidates of an accepted hyperparameter that is not fixed are `low`,
`low + step`, …, `high`, strictly increasing and within the bounds; `len()` is their
number; iterating gives each of them once, in this order and of the declared type. -/
theorem lattice_exact {h : Hyper} (hc : h.check = .ok ()) (hne : h.low.val ≠ h.high.val) :
    ∃ pts, Lattice h.low.val h.step.val h.high.val pts ∧
      pts.Pairwise (· < ·) ∧ (∀ q ∈ pts, h.low.val ≤ q ∧ q ≤ h.high.val) ∧
      h.count = .ok (pts.length : Int) ∧
      ∀ (toFloat : ℚ → ℚ) (fuel : Nat), pts.length < fuel →
        ∃ vs, h.values toFloat fuel = .ok (some vs) ∧
          vs.map HNum.val = pts.map (given toFloat h) ∧
          ∀ v ∈ vs, (v.isInt ↔ h.low.isInt) ∧ v.bad = false := by
  obtain ⟨k, hk0, hs, hk⟩ := lattice_steps hc hne
  have hlen : (latticePts h.low.val h.step.val k).length = k + 1 := by
    simp [latticePts]
  refine ⟨latticePts h.low.val h.step.val k, ?_, ?_, ?_, ?_, ?_⟩
  · rw [hk]; exact latticePts_lattice _ _ _
  · unfold latticePts
    rw [List.pairwise_map]
    refine List.pairwise_lt_range.imp ?_
    intro a b hab
    have : (a : ℚ) < b := by exact_mod_cast hab
    have := mul_lt_mul_of_pos_right this hs
    linarith
  · intro q hq
    unfold latticePts at hq
    obtain ⟨i, hi, rfl⟩ := List.mem_map.1 hq
    rw [List.mem_range] at hi
    have h0 : (0 : ℚ) ≤ i * h.step.val := mul_nonneg (Nat.cast_nonneg _) hs.le
    have h1 : (i : ℚ) ≤ k := by exact_mod_cast Nat.lt_succ_iff.1 hi
    have h2 := mul_le_mul_of_nonneg_right h1 hs.le
    constructor <;> linarith
  · rw [hlen]; exact hyper_count hc hne hk
  · intro toFloat fuel hf
    rw [hlen] at hf
    exact hyper_values hc hne hk toFloat hf

/-- A fixed hyperparameter has no candidates to search. -/
theorem fixed_undefined (h : Hyper) (he : h.low.val = h.high.val) (toFloat : ℚ → ℚ) (fuel : Nat) :
    h.count = .error .type ∧ h.values toFloat fuel = .error .type := by
  have : h.count = .error .type := by unfold Hyper.count; rw [if_pos he]
  exact ⟨this, by unfold Hyper.values; rw [this]⟩

/-- The default is not checked against the bounds. -/
theorem default_unchecked : (⟨"n", .int 100, .int 1, .int 10, .int 1⟩ : Hyper).check = .ok () := by
  decide +kernel

/-- Candidates closer together than floats are given out more than once: 21
candidates between 1.0 and the next float. -/
theorem lattice_duplicates :
    let h : Hyper := ⟨"x", .float 1, .float 1, .float (10000000000000002 / 10000000000000000),
      .float (1 / 100000000000000000)⟩
    let toFloat : ℚ → ℚ := fun q => if q ≤ 10000000000000001 / 10000000000000000 then 1
      else 10000000000000002 / 10000000000000000
    h.check = .ok () ∧ h.count = .ok 21 ∧
      ∃ vs, h.values toFloat 30 = .ok (some vs) ∧ vs.length = 21 ∧
        ∀ v ∈ vs, v = h.low ∨ v = h.high := by
  refine ⟨by decide +kernel, by decide +kernel, ?_⟩
  refine ⟨List.replicate 11 (.float 1) ++
    List.replicate 10 (.float (10000000000000002 / 10000000000000000)), by decide +kernel, by simp, ?_⟩
  intro v hv
  simp only [List.mem_append, List.mem_replicate] at hv
  tauto

/-! ## The grid -/

theorem points_length {V : Type} (l : SDict (List V)) :
    (points l).length = (l.map (fun x => x.2.length)).prod := by
  induction l with
  | nil => rfl
  | cons x l ih =>
    obtain ⟨k, vs⟩ := x
    rw [points, List.length_flatMap]
    simp only [List.length_map, ih, List.map_cons, List.prod_cons]
    simp [List.sum_replicate]

theorem mem_points {V : Type} (l : SDict (List V)) (p : SDict V) :
    p ∈ points l ↔ List.Forall₂ (fun x y => y.1 = x.1 ∧ y.2 ∈ x.2) l p := by
  induction l generalizing p with
  | nil => simp [points]
  | cons x l ih =>
    obtain ⟨k, vs⟩ := x
    simp only [points, List.mem_flatMap, List.mem_map]
    constructor
    · rintro ⟨v, hv, q, hq, rfl⟩
      exact .cons ⟨rfl, hv⟩ ((ih q).1 hq)
    · intro h
      cases h with
      | cons h1 h2 =>
        rename_i y q
        refine ⟨y.2, h1.2, q, (ih q).2 h2, ?_⟩
        have := h1.1
        simp only at this
        rw [← this]

/-- **C67.** The grid of the hyperparameters that are not fixed has exactly
`grid_size()` points: the assignments of one of its candidates to each name. -/
theorem grid_exact (specs : SDict Hyper) (hc : ∀ s ∈ specs, s.2.check = .ok ()) (toFloat : ℚ → ℚ) :
    ∃ n : Nat, 1 ≤ n ∧ gridSize (searchable specs) = .ok (n : Int) ∧
      ∀ fuel, n < fuel → ∃ lists,
        gridLists toFloat fuel (searchable specs) = .ok (some lists) ∧
        (points lists).length = n ∧
        List.Forall₂ (fun s x => x.1 = s.1 ∧ s.2.values toFloat fuel = .ok (some x.2))
          (searchable specs) lists := by
  have hs : ∀ s ∈ searchable specs, s.2.check = .ok () ∧ s.2.low.val ≠ s.2.high.val := by
    intro s h
    obtain ⟨h1, h2⟩ := List.mem_filter.1 h
    exact ⟨hc s h1, ne_of_lt (by simpa using h2)⟩
  generalize searchable specs = sp at hs
  induction sp with
  | nil =>
    exact ⟨1, le_refl _, rfl, fun fuel _ => ⟨[], rfl, rfl, .nil⟩⟩
  | cons s sp ih =>
    obtain ⟨n, h1, h2, h3⟩ := ih (fun x hx => hs x (List.mem_cons_of_mem _ hx))
    obtain ⟨h4, h5⟩ := hs s List.mem_cons_self
    obtain ⟨k, _, _, hk⟩ := lattice_steps h4 h5
    have hle : k + 1 ≤ (k + 1) * n := Nat.le_mul_of_pos_right _ h1
    have hle2 : n ≤ (k + 1) * n := Nat.le_mul_of_pos_left _ (Nat.succ_pos k)
    refine ⟨(k + 1) * n, le_trans h1 hle2, ?_, ?_⟩
    · simp only [gridSize, hyper_count h4 h5 hk, h2]
      push_cast
      rfl
    · intro fuel hf
      obtain ⟨lists, g1, g2, g3⟩ := h3 fuel (lt_of_le_of_lt hle2 hf)
      obtain ⟨vs, v1, v2, _⟩ := hyper_values h4 h5 hk toFloat (lt_of_le_of_lt hle hf)
      have hlen : vs.length = k + 1 := by
        have := congrArg List.length v2
        simpa [latticePts] using this
      refine ⟨(s.1, vs) :: lists, ?_, ?_, .cons ⟨rfl, v1⟩ g3⟩
      · simp only [gridLists, v1, g1]
      · rw [points_length] at g2 ⊢
        rw [List.map_cons, List.prod_cons, g2, hlen]

/-! ## The values of a run -/

theorem SDict.get_put {V : Type} (d : SDict V) (k : String) (v : V) (x : String) :
    SDict.get (SDict.put d k v) x = if x = k then some v else SDict.get d x := by
  induction d with
  | nil =>
    by_cases h : x = k
    · subst h; simp [SDict.put, SDict.get]
    · simp [SDict.put, SDict.get, h, Ne.symm h]
  | cons e d ih =>
    obtain ⟨k', v'⟩ := e
    simp only [SDict.put]
    by_cases hk : k' = k
    · subst hk
      simp only [beq_self_eq_true, if_true]
      by_cases h : x = k'
      · subst h; simp [SDict.get]
      · simp [SDict.get, h, Ne.symm h]
    · have hk' : (k' == k) = false := by simpa using hk
      simp only [hk', Bool.false_eq_true, if_false]
      by_cases h : k' = x
      · subst h; simp [SDict.get, hk]
      · have h1 : (k' == x) = false := by simpa using h
        unfold SDict.get at ih ⊢
        simp only [List.find?_cons, h1]
        exact ih

theorem SDict.put_keys {V : Type} (d : SDict V) (k : String) (v : V) (h : k ∈ d.map Prod.fst) :
    (SDict.put d k v).map Prod.fst = d.map Prod.fst := by
  induction d with
  | nil => cases h
  | cons e d ih =>
    obtain ⟨k', v'⟩ := e
    simp only [SDict.put]
    by_cases hk : k' = k
    · subst hk; simp
    · have hk' : (k' == k) = false := by simpa using hk
      simp only [hk', Bool.false_eq_true, if_false, List.map_cons]
      rw [ih (by
        rcases List.mem_cons.1 h with h | h
        · exact absurd h.symm hk
        · exact h)]

theorem SDict.get_none {V : Type} (d : SDict V) (k : String) :
    SDict.get d k = none ↔ k ∉ d.map Prod.fst := by
  unfold SDict.get
  rw [Option.map_eq_none_iff, List.find?_eq_none]
  simp only [beq_iff_eq, List.mem_map, not_exists, not_and]

theorem SDict.get_map {V W : Type} (d : SDict V) (f : V → W) (k : String) :
    SDict.get (d.map (fun s => (s.1, f s.2))) k = (SDict.get d k).map f := by
  induction d with
  | nil => rfl
  | cons e d ih =>
    unfold SDict.get at ih ⊢
    simp only [List.map_cons, List.find?_cons]
    split
    · rfl
    · exact ih

/-- **C84.** A run has exactly the declared hyperparameters: each the value it is
overridden with, or its default.  An override of a name that is not declared is
rejected. -/
theorem run_hyperparams (specs : SDict Hyper) (ov : SDict HNum)
    (hov : (ov.map Prod.fst).Nodup) :
    (∀ r, buildRun specs (some ov) = .ok r →
      (∀ o ∈ ov, o.1 ∈ specs.map Prod.fst) ∧
      r.map Prod.fst = specs.map Prod.fst ∧
      ∀ k, r.get k = (specs.get k).map (fun h => (ov.get k).getD h.default)) ∧
    ((∃ r, buildRun specs (some ov) = .ok r) ↔ ∀ o ∈ ov, o.1 ∈ specs.map Prod.fst) := by
  have key : ∀ (l : SDict HNum) (r0 : SDict HNum), (l.map Prod.fst).Nodup →
      r0.map Prod.fst = specs.map Prod.fst →
      let out := l.foldl (fun acc o =>
        match acc with
        | .error e => .error e
        | .ok r => if (specs.get o.1).isNone then .error .value else .ok (SDict.put r o.1 o.2))
        (Except.ok r0 : Except HErr (SDict HNum))
      (∀ r, out = .ok r → (∀ o ∈ l, o.1 ∈ specs.map Prod.fst) ∧
        r.map Prod.fst = specs.map Prod.fst ∧
        ∀ k, r.get k = if (l.get k).isSome then l.get k else r0.get k) ∧
      ((∃ r, out = .ok r) ↔ ∀ o ∈ l, o.1 ∈ specs.map Prod.fst) := by
    intro l
    induction l with
    | nil =>
      intro r0 _ h0
      simp only [List.foldl_nil]
      refine ⟨?_, ?_⟩
      · intro r hr
        have := Except.ok.inj hr
        subst this
        exact ⟨by simp, h0, fun k => by simp [SDict.get]⟩
      · simp
    | cons o l ih =>
      intro r0 hnd h0
      rw [List.map_cons, List.nodup_cons] at hnd
      simp only [List.foldl_cons]
      by_cases hm : o.1 ∈ specs.map Prod.fst
      · have hg : (specs.get o.1).isNone = false := by
          rw [Option.isNone_eq_false_iff, Option.isSome_iff_ne_none, ne_eq, SDict.get_none]
          exact not_not.2 hm
        simp only [hg, Bool.false_eq_true, if_false]
        obtain ⟨i1, i2⟩ := ih (SDict.put r0 o.1 o.2) hnd.2
          (by rw [SDict.put_keys _ _ _ (h0 ▸ hm), h0])
        refine ⟨?_, ?_⟩
        · intro r hr
          obtain ⟨a, b, c⟩ := i1 r hr
          refine ⟨?_, b, ?_⟩
          · intro x hx
            rcases List.mem_cons.1 hx with rfl | hx
            · exact hm
            · exact a x hx
          · intro k
            rw [c k, SDict.get_put]
            by_cases hk : k = o.1
            · subst hk
              have hn : SDict.get l o.1 = none := (SDict.get_none l o.1).2 hnd.1
              have h2 : SDict.get (o :: l) o.1 = some o.2 := by simp [SDict.get]
              rw [hn, h2]
              simp
            · have hk' : (o.1 == k) = false := by simpa using Ne.symm hk
              have : SDict.get (o :: l) k = SDict.get l k := by
                unfold SDict.get; simp only [List.find?_cons, hk']
              rw [this, if_neg hk]
        · rw [i2]
          constructor
          · intro h x hx
            rcases List.mem_cons.1 hx with rfl | hx
            · exact hm
            · exact h x hx
          · intro h x hx; exact h x (List.mem_cons_of_mem _ hx)
      · have hg : (specs.get o.1).isNone = true := by
          rw [Option.isNone_iff_eq_none, SDict.get_none]; exact hm
        simp only [hg, if_true]
        have herr : l.foldl (fun acc o =>
            match acc with
            | .error e => .error e
            | .ok r => if (specs.get o.1).isNone then .error .value else .ok (SDict.put r o.1 o.2))
            (Except.error HErr.value : Except HErr (SDict HNum)) = .error .value := by
          clear ih hnd
          induction l with
          | nil => rfl
          | cons x l ih => rw [List.foldl_cons]; exact ih
        rw [herr]
        refine ⟨fun r hr => (nomatch hr), ?_⟩
        constructor
        · rintro ⟨r, hr⟩; cases hr
        · intro h; exact absurd (h o List.mem_cons_self) hm
  obtain ⟨k1, k2⟩ := key ov (specs.map (fun s => (s.1, s.2.default))) hov (by simp)
  refine ⟨?_, k2⟩
  intro r hr
  obtain ⟨a, b, c⟩ := k1 r hr
  refine ⟨a, b, ?_⟩
  intro k
  rw [c k, SDict.get_map]
  rcases h1 : SDict.get ov k with _ | v
  · simp
  · have hm : k ∈ ov.map Prod.fst := by
      by_contra hn
      rw [(SDict.get_none ov k).2 hn] at h1
      cases h1
    obtain ⟨o, ho, rfl⟩ := List.mem_map.1 hm
    have h2 := a o ho
    rcases h3 : SDict.get specs o.1 with _ | h
    · exact absurd h2 ((SDict.get_none specs o.1).1 h3)
    · simp

/-- **C84.** Every hyperparameter among the arguments is replaced by the value of the
run; other arguments stay; a hyperparameter without a value is an error. -/
theorem resolve_args {V : Type} (params : SDict HNum) (args : SDict (HArg V))
    (out : SDict (RArg V)) :
    resolveArgs params args = .ok out ↔
      List.Forall₂ (fun a b => b.1 = a.1 ∧
        match a.2 with
        | .plain v => b.2 = .plain v
        | .hp h => ∃ n, params.get h.name = some n ∧ b.2 = .num n) args out := by
  induction args generalizing out with
  | nil =>
    simp only [resolveArgs, Except.ok.injEq, List.forall₂_nil_left_iff]
    exact eq_comm
  | cons x rest ih =>
    obtain ⟨k, a⟩ := x
    cases a with
    | plain v =>
      simp only [resolveArgs]
      rcases hr : resolveArgs params rest with e | o
      · constructor
        · intro h; cases h
        · intro h
          cases h with
          | cons h1 h2 => rw [(ih _).2 h2] at hr; cases hr
      · constructor
        · intro h
          have := Except.ok.inj h
          subst this
          exact .cons ⟨rfl, rfl⟩ ((ih o).1 hr)
        · intro h
          cases h with
          | cons h1 h2 =>
            rename_i y q
            rw [(ih _).2 h2] at hr
            have := Except.ok.inj hr
            subst this
            obtain ⟨g1, g2⟩ := h1
            obtain ⟨y1, y2⟩ := y
            simp only at g1 g2
            rw [g1, g2]
    | hp h =>
      simp only [resolveArgs]
      rcases hg : SDict.get params h.name with _ | n
      · constructor
        · intro h; cases h
        · intro hf
          cases hf with
          | cons h1 h2 =>
            obtain ⟨_, n, g, _⟩ := h1
            rw [hg] at g; cases g
      · simp only
        rcases hr : resolveArgs params rest with e | o
        · constructor
          · intro h; cases h
          · intro h
            cases h with
            | cons h1 h2 => rw [(ih _).2 h2] at hr; cases hr
        · constructor
          · intro hh
            have := Except.ok.inj hh
            subst this
            exact .cons ⟨rfl, n, hg, rfl⟩ ((ih o).1 hr)
          · intro hf
            cases hf with
            | cons h1 h2 =>
              rename_i y q
              rw [(ih _).2 h2] at hr
              have := Except.ok.inj hr
              subst this
              obtain ⟨g1, n', g2, g3⟩ := h1
              obtain ⟨y1, y2⟩ := y
              simp only at g1 g2 g3
              rw [hg] at g2
              have := Option.some.inj g2
              subst this
              rw [g1, g3]

/-! ## The trials of a study -/

theorem zip_map_self {P : Type} (l : List P) (score : P → TrialScore) :
    (l.zip (l.map score)).map (fun x => (⟨x.1, x.2⟩ : Trial P)) = l.map (fun p => ⟨p, score p⟩) := by
  induction l with
  | nil => rfl
  | cons a l ih => simp [ih]

/-- **C85.** However a grid search is split into runs that continue the same study,
the study holds the points of the grid from the first on, each once and with its own
score, until all are done. -/
theorem grid_resumed {P : Type} (grid : List P) (score : P → TrialScore) (runs : List Nat) :
    runs.foldl (runGrid grid score) [] = (grid.take runs.sum).map (fun p => ⟨p, score p⟩) := by
  have key : ∀ (runs : List Nat) (k : Nat),
      runs.foldl (runGrid grid score) ((grid.take k).map (fun p => ⟨p, score p⟩)) =
        (grid.take (k + runs.sum)).map (fun p => ⟨p, score p⟩) := by
    intro runs
    induction runs with
    | nil => intro k; simp
    | cons n runs ih =>
      intro k
      rw [List.foldl_cons, List.sum_cons, ← Nat.add_assoc, ← ih (k + n)]
      congr 1
      unfold runGrid
      simp only [zip_map_self, List.length_map, List.length_take]
      rw [List.take_add, List.map_append]
      congr 2
      rcases Nat.le_total k grid.length with h | h
      · rw [Nat.min_eq_left h]
      · rw [Nat.min_eq_right h, List.drop_length, List.drop_eq_nil_of_le h]
  have := key runs 0
  simpa using this

/-- **C85.** A random search of `n` trials draws the same points in the same order and
records the same scores with any number of workers, and ends. -/
theorem batches_exact {P : Type} (draw : Nat → P) (score : P → TrialScore) (workers : Nat)
    (hw : 1 ≤ workers) (n fuel : Nat) (hf : n ≤ fuel) (study : List (Trial P)) :
    runBatches draw score workers fuel study n =
      some (study ++ (List.range n).map
        (fun i => ⟨draw (study.length + i), score (draw (study.length + i))⟩)) := by
  induction fuel generalizing n study with
  | zero =>
    have : n = 0 := by omega
    subst this
    simp [runBatches]
  | succ fuel ih =>
    cases n with
    | zero => simp [runBatches]
    | succ n =>
      simp only [runBatches, zip_map_self]
      have hsz : 1 ≤ min workers (n + 1) := by omega
      have hle : min workers (n + 1) ≤ n + 1 := Nat.min_le_right _ _
      generalize min workers (n + 1) = size at hsz hle
      rw [ih _ (by omega)]
      congr 1
      rw [List.append_assoc]
      congr 1
      simp only [List.map_map, List.length_append, List.length_map, List.length_range]
      have : n + 1 = size + (n + 1 - size) := by omega
      rw [show List.range (n + 1) = List.range (size + (n + 1 - size)) by rw [← this]]
      rw [List.range_add, List.map_append, List.map_map]
      congr 1
      apply List.map_congr_left
      intro i _
      simp only [Function.comp_apply, Nat.add_assoc]

/-- **C85.** The number of trials asked for is used; without one a grid search runs
its whole grid, and any other search is rejected. -/
theorem trials_resolved (n : Option Nat) (grid : Bool) (size m : Nat) :
    resolveTrials n grid size = .ok m ↔ n = some m ∨ (n = none ∧ grid = true ∧ m = size) := by
  unfold resolveTrials
  cases n <;> cases grid <;> simp [eq_comm]

/-! ## Examples -/

namespace Demo

/-- Four integers from 10 to 40. -/
def hpN : Hyper := ⟨"n", .int 20, .int 10, .int 40, .int 10⟩
/-- Three floats from 0.5 to 1.5. -/
def hpX : Hyper := ⟨"x", .float (1 / 2), .float (1 / 2), .float (3 / 2), .float (1 / 2)⟩
/-- A fixed integer. -/
def hpF : Hyper := ⟨"f", .int 7, .int 7, .int 7, .int 1⟩
/-- All three. -/
def hpAll : SDict Hyper := [("n", hpN), ("f", hpF), ("x", hpX)]

example : hpN.check = .ok () ∧ hpN.low.val ≠ hpN.high.val ∧ hpN.count = .ok 4 ∧
    hpN.values id 9 = .ok (some [.int 10, .int 20, .int 30, .int 40]) := by decide +kernel
example : hpX.check = .ok () ∧ hpX.low.val ≠ hpX.high.val ∧ hpX.count = .ok 3 ∧
    hpX.values id 9 = .ok (some [.float (1 / 2), .float 1, .float (3 / 2)]) := by decide +kernel
example : (⟨"n", .int 20, .int 10, .int 45, .int 10⟩ : Hyper).check ≠ .ok () ∧
    (⟨"n", .int 20, .int 10, .float 40, .int 10⟩ : Hyper).check ≠ .ok () ∧
    (⟨"n", .int 20, .int 10, .int 40, .int 0⟩ : Hyper).check ≠ .ok () ∧
    (⟨"n", .int 20, .int 50, .int 40, .int 10⟩ : Hyper).check ≠ .ok () := by decide +kernel
example : hpF.check = .ok () ∧ hpF.low.val = hpF.high.val := by decide +kernel
example : (∀ s ∈ hpAll, s.2.check = .ok ()) ∧ gridSize (searchable hpAll) = .ok 12 := by
  decide +kernel
example : buildRun hpAll (some [("x", .float 1)]) =
    .ok [("n", .int 20), ("f", .int 7), ("x", .float 1)] := by decide +kernel
example : buildRun hpAll none =
    .ok [("n", .int 20), ("f", .int 7), ("x", .float (1 / 2))] := by decide +kernel
example : buildRun hpAll (some [("y", .float 1)]) = .error .value := by decide +kernel
example : runGrid [1, 2, 3, 4, 5] (fun p => if p = 2 then none else some p) [] 3 =
    [⟨1, some 1⟩, ⟨2, none⟩, ⟨3, some 3⟩] := by decide +kernel
example : [3, 1, 4].foldl (runGrid [1, 2, 3, 4, 5] (fun p => some (p : Nat))) [] =
    [1, 2, 3, 4, 5].map (fun p => ⟨p, some (p : Nat)⟩) := by decide +kernel
example : runBatches (fun k => k * k) (fun p => some (p : Nat)) 2 3 [] 3 =
    some [⟨0, some 0⟩, ⟨1, some 1⟩, ⟨4, some 4⟩] := by decide +kernel

end Demo

end PyBroker
