import Verif.Interval.Build
import Verif.Props.Interval
import Verif.Props.Text
import Verif.Props.IntervalPooled
import Mathlib.Data.Rat.Floor
import Mathlib.Algebra.Order.Floor.Ring

/-!
# The compressed data of a run and the spacing of its bars (C127, C128)
-/

namespace PyBroker

/-! ## Specification -/

namespace Spec

/-- Days of a calendar interval. -/
def days : Calendar → Nat
  | .daily => 1
  | .weekly => 7
  | .monthly => 28
  | .quarterly => 90
  | .yearly => 365

/-- Names of the calendar intervals. -/
def calendarName : Calendar → String
  | .daily => "daily"
  | .weekly => "weekly"
  | .monthly => "monthly"
  | .quarterly => "quarterly"
  | .yearly => "yearly"

/-- The interval is longer than a bar of `base` seconds. -/
inductive Coarser (base : Nat) : Iv → Prop where
  | bars {n : Int} (h : 2 ≤ n) : Coarser base (.num n)
  | calendar (c : Calendar) (h : base < days c * 86400) : Coarser base (.str (calendarName c).toList)
  | duration {s d : Str} {n : Nat} (hs : normalizeDuration s = some d) (hd : toSeconds d = some n)
      (h : base < n) : Coarser base (.str s)

/-- Some execution that has the interval names the symbol or has a selector. -/
def WantsIv (execs : List ExecIvs) (sym : Sym) (iv : Iv) : Prop :=
  ∃ e ∈ execs, iv ∈ e.intervals ∧ ∀ syms, e.symbols = some syms → sym ∈ syms

/-- `a` and `b` are neighbouring dates of the list. -/
structure Neighbours (dates : List Date) (a b : Date) : Prop where
  left : a ∈ dates
  right : b ∈ dates
  lt : a < b
  next : ∀ d ∈ dates, d ≤ a ∨ b ≤ d

/-- Seconds between two dates. -/
def gap (a b : Date) : ℚ := ((b - a : Int) : ℚ) / 1000000000

/-- The tolerance, in seconds: one second, and one hour more for bars of a day or longer. -/
def tolerance (base : Nat) : ℚ := if 86400 ≤ base then 3601 else 1

/-- Among the whole multiples of the bar length, from one bar on, the `n`-th is nearest. -/
structure Nearest (base : Nat) (g : ℚ) (n : Nat) : Prop where
  pos : 1 ≤ n
  near : ∀ k : Nat, 1 ≤ k → |g - n * base| ≤ |g - k * base|

end Spec

open PyBroker.Spec

/-! ## C128: intervals and spacing -/

theorem calendarOf_name (c : Calendar) : calendarOf (calendarName c).toList = some c := by
  cases c <;> decide +kernel

theorem calendarSeconds_eq (c : Calendar) : calendarSeconds c = days c * 86400 := by
  cases c <;> decide

theorem calendarOf_some {s : Str} {c : Calendar} (h : calendarOf s = some c) :
    s = (calendarName c).toList := by
  unfold calendarOf at h
  split at h
  · rename_i e; cases h; exact e
  split at h
  · rename_i e; cases h; exact e
  split at h
  · rename_i e; cases h; exact e
  split at h
  · rename_i e; cases h; exact e
  split at h
  · rename_i e; cases h; exact e
  cases h

theorem calendarNames_eq : calendarNames =
    ["daily".toList, "weekly".toList, "monthly".toList, "quarterly".toList, "yearly".toList] := by
  decide +kernel

theorem mem_calendarNames {s : Str} : s ∈ calendarNames ↔ ∃ c, s = (calendarName c).toList := by
  rw [calendarNames_eq]
  constructor
  · intro h
    simp only [List.mem_cons, List.not_mem_nil, or_false] at h
    rcases h with h | h | h | h | h
    · exact ⟨.daily, h⟩
    · exact ⟨.weekly, h⟩
    · exact ⟨.monthly, h⟩
    · exact ⟨.quarterly, h⟩
    · exact ⟨.yearly, h⟩
  · rintro ⟨c, rfl⟩
    cases c <;> simp [calendarName]

/-- **C128.**  An interval is accepted for bars of `base` seconds exactly when it is a valid interval
longer than a bar. -/
theorem interval_accepted_iff (iv : Iv) (base : Nat) :
    validateIv iv base = .ok () ↔ Coarser base iv := by
  cases iv with
  | num n =>
    unfold validateIv
    simp only [normalizeIv]
    by_cases hn : n ≤ 1
    · rw [if_pos hn]
      refine ⟨fun h => (nomatch h), fun h => ?_⟩
      cases h with
      | bars h => omega
    · rw [if_neg hn]
      exact ⟨fun _ => .bars (by omega), fun _ => rfl⟩
  | str s =>
    unfold validateIv
    simp only [normalizeIv]
    by_cases hc : s ∈ calendarNames
    · rw [if_pos hc]
      obtain ⟨c, rfl⟩ := mem_calendarNames.1 hc
      simp only [coarserSeconds, calendarOf_name, calendarSeconds_eq]
      constructor
      · intro h
        refine .calendar c ?_
        by_contra hlt
        rw [if_pos (by omega)] at h
        cases h
      · intro h
        have hlt : base < days c * 86400 := by
          generalize he : Iv.str (calendarName c).toList = w at h
          cases h with
          | bars h => cases he
          | calendar c' h =>
            have e := Iv.str.inj he
            have : calendarOf (calendarName c).toList = calendarOf (calendarName c').toList := by rw [e]
            rw [calendarOf_name, calendarOf_name] at this
            cases this
            exact h
          | duration hs hd h =>
            have e := Iv.str.inj he
            rw [← e] at hs
            have hnone : normalizeDuration (calendarName c).toList = none := by
              cases c <;> decide +kernel
            rw [hnone] at hs
            cases hs
        rw [if_neg (by omega)]
    · rw [if_neg hc]
      have hnc : ∀ c, s ≠ (calendarName c).toList := fun c e => hc (mem_calendarNames.2 ⟨c, e⟩)
      rcases hd : normalizeDuration s with _ | d
      · simp only [Option.map_none]
        refine ⟨fun h => (nomatch h), fun h => ?_⟩
        cases h with
        | calendar c h => exact absurd rfl (hnc c)
        | duration hs _ _ => rw [hd] at hs; cases hs
      · simp only [Option.map_some]
        obtain ⟨n, u, -, -, rfl⟩ := normalizeDuration_form hd
        have hcal : calendarOf (showNat n ++ [u]) = none := by
          rcases h : calendarOf (showNat n ++ [u]) with _ | c
          · rfl
          · exact absurd (mem_calendarNames.2 ⟨c, calendarOf_some h⟩) canonical_not_calendar
        simp only [coarserSeconds, hcal]
        rcases hsec : toSeconds (showNat n ++ [u]) with _ | k
        · simp only
          refine ⟨fun h => (nomatch h), fun h => ?_⟩
          cases h with
          | calendar c h => exact absurd rfl (hnc c)
          | duration hs h2 _ =>
            rw [hd] at hs
            rw [← Option.some.inj hs, hsec] at h2
            cases h2
        · simp only
          constructor
          · intro h
            refine .duration hd hsec ?_
            by_contra hlt
            rw [if_pos (by omega)] at h
            cases h
          · intro h
            cases h with
            | calendar c h => exact absurd rfl (hnc c)
            | duration hs h2 hlt =>
              rw [hd] at hs
              rw [← Option.some.inj hs, hsec] at h2
              cases h2
              rw [if_neg (by omega)]

/-! ### Rounding -/

theorem roundEven_near (q : ℚ) : |q - roundEven q| ≤ 1 / 2 := by
  have h1 := Int.floor_le q
  have h2 := Int.lt_floor_add_one q
  unfold roundEven
  simp only
  split
  · rw [abs_le]; constructor <;> linarith
  split
  · rw [abs_le]; push_cast; constructor <;> linarith
  split
  · rw [abs_le]; constructor <;> linarith
  · rw [abs_le]; push_cast; constructor <;> linarith

theorem roundEven_int (n : Int) : roundEven (n : ℚ) = n := by
  unfold roundEven
  simp

theorem tolerance_eq (base : Nat) : spacingTol base = tolerance base := by
  unfold spacingTol tolerance
  by_cases h : 86400 ≤ base
  · rw [if_pos h, if_pos h]; norm_num
  · rw [if_neg h, if_neg h]

theorem tolerance_pos (base : Nat) : 1 ≤ tolerance base := by
  unfold tolerance
  split <;> norm_num

/-- The multiple a gap is compared with. -/
theorem multiple_nearest {base : Nat} (hb : 0 < base) (g : ℚ) :
    ∃ n : Nat, max (roundEven (g / base) : ℚ) 1 = n ∧ Nearest base g n := by
  have hbq : (0 : ℚ) < base := by exact_mod_cast hb
  have hnear := roundEven_near (g / base)
  obtain ⟨m, hm⟩ : ∃ m : Nat, max (roundEven (g / base)) 1 = (m : Int) :=
    ⟨(max (roundEven (g / base)) 1).toNat, by omega⟩
  have hmq : max (roundEven (g / base) : ℚ) 1 = (m : ℚ) := by
    have := congrArg (fun z : Int => (z : ℚ)) hm
    simpa using this
  refine ⟨m, hmq, by omega, ?_⟩
  intro k hk
  have scale : ∀ j : ℚ, |g - j * base| = base * |g / base - j| := by
    intro j
    rw [← abs_of_pos hbq, ← abs_mul, abs_of_pos hbq]
    congr 1
    field_simp
  rw [scale, scale]
  refine mul_le_mul_of_nonneg_left ?_ hbq.le
  set q := g / base with hq
  have hk1 : (1 : ℚ) ≤ k := by exact_mod_cast hk
  by_cases h1 : roundEven q < 1
  · -- below one bar: the first multiple
    have : max (roundEven q) 1 = 1 := by omega
    have hm1 : m = 1 := by omega
    subst hm1
    have hr : (roundEven q : ℚ) ≤ 0 := by exact_mod_cast (by omega : roundEven q ≤ 0)
    have hq1 : q ≤ 1 / 2 := by have := (abs_le.1 hnear).2; linarith
    rw [abs_of_nonpos (by push_cast; linarith), abs_of_nonpos (by linarith)]
    push_cast
    linarith
  · have hmr : (m : Int) = roundEven q := by omega
    have hmr' : (m : ℚ) = (roundEven q : ℚ) := by exact_mod_cast hmr
    rw [hmr']
    rcases lt_trichotomy (k : Int) (roundEven q) with h | h | h
    · have : (k : ℚ) + 1 ≤ roundEven q := by exact_mod_cast h
      have := (abs_le.1 hnear).1
      calc |q - roundEven q| ≤ 1 / 2 := hnear
        _ ≤ q - k := by linarith
        _ ≤ |q - k| := le_abs_self _
    · have : (k : ℚ) = roundEven q := by exact_mod_cast h
      rw [this]
    · have : (roundEven q : ℚ) + 1 ≤ k := by exact_mod_cast h
      have := (abs_le.1 hnear).2
      calc |q - roundEven q| ≤ 1 / 2 := hnear
        _ ≤ -(q - k) := by linarith
        _ ≤ |q - k| := neg_le_abs _

/-- A gap is accepted when the multiple nearest to it fits. -/
theorem gapOk_iff {base : Nat} (hb : 0 < base) (ns : Int) :
    ∃ n : Nat, Nearest base ((ns : ℚ) / 1000000000) n ∧
      (gapOk base ns = true ↔ |(ns : ℚ) / 1000000000 - n * base| ≤ n * tolerance base) := by
  obtain ⟨n, hn, hnear⟩ := multiple_nearest hb ((ns : ℚ) / 1000000000)
  refine ⟨n, hnear, ?_⟩
  unfold gapOk
  simp only
  rw [hn, tolerance_eq, Bool.not_eq_true', decide_eq_false_iff_not, not_lt, mul_comm (tolerance base)]

/-! ### Neighbouring dates -/

theorem diffs_mem : ∀ {l : List Date}, l.Pairwise (· < ·) → ∀ {x : Int},
    x ∈ diffs l ↔ ∃ a b, Neighbours l a b ∧ x = b - a
  | [], _, x => by
    simp only [diffs, List.not_mem_nil, false_iff]
    rintro ⟨a, b, h, _⟩
    exact absurd h.left (by simp)
  | [c], _, x => by
    simp only [diffs, List.not_mem_nil, false_iff]
    rintro ⟨a, b, h, _⟩
    have h1 := List.mem_singleton.1 h.left
    have h2 := List.mem_singleton.1 h.right
    have := h.lt
    rw [h1, h2] at this
    exact lt_irrefl _ this
  | c :: d :: rest, hp, x => by
    have hp' := List.pairwise_cons.1 hp
    have hcd := hp'.1 d (by simp)
    have hd := List.pairwise_cons.1 hp'.2
    rw [diffs, List.mem_cons, diffs_mem hp'.2]
    constructor
    · rintro (rfl | ⟨a, b, h, rfl⟩)
      · refine ⟨c, d, ⟨by simp, by simp, hcd, ?_⟩, rfl⟩
        intro y hy
        rcases List.mem_cons.1 hy with rfl | hy
        · exact .inl le_rfl
        rcases List.mem_cons.1 hy with rfl | hy
        · exact .inr le_rfl
        · exact .inr (hd.1 y hy).le
      · refine ⟨a, b, ⟨List.mem_cons_of_mem _ h.left, List.mem_cons_of_mem _ h.right, h.lt, ?_⟩, rfl⟩
        intro y hy
        rcases List.mem_cons.1 hy with rfl | hy
        · exact .inl (hp'.1 a h.left).le
        · exact h.next y hy
    · rintro ⟨a, b, h, rfl⟩
      have hb : b ∈ d :: rest := by
        rcases List.mem_cons.1 h.right with rfl | hb
        · exfalso
          rcases List.mem_cons.1 h.left with rfl | ha
          · exact lt_irrefl _ h.lt
          · exact lt_irrefl _ (lt_trans h.lt (hp'.1 a ha))
        · exact hb
      rcases List.mem_cons.1 h.left with rfl | ha
      · left
        have : b = d := by
          apply le_antisymm
          · rcases h.next d (by simp) with h' | h'
            · exact absurd hcd (not_lt.2 h')
            · exact h'
          · rcases List.mem_cons.1 hb with rfl | hb
            · exact le_rfl
            · exact (hd.1 b hb).le
        rw [this]
      · right
        exact ⟨a, b, ⟨ha, hb, h.lt, fun y hy => h.next y (List.mem_cons_of_mem _ hy)⟩, rfl⟩

theorem unique_sorted (dates : List Date) : (dates.dedup.insertionSort (· ≤ ·)).Pairwise (· < ·) := by
  have h1 := List.pairwise_insertionSort (· ≤ ·) dates.dedup
  have h2 : (dates.dedup.insertionSort (· ≤ ·)).Nodup :=
    (List.perm_insertionSort _ _).nodup_iff.2 dates.nodup_dedup
  exact (h1.and h2).imp (fun h => lt_of_le_of_ne h.1 h.2)

/-- The spacing check looks at the gap of each two neighbouring dates. -/
theorem spacingOk_iff (base : Nat) (dates : List Date) :
    spacingOk base dates = true ↔ ∀ a b, Neighbours dates a b → gapOk base (b - a) = true := by
  have hmem : ∀ d, d ∈ dates.dedup.insertionSort (· ≤ ·) ↔ d ∈ dates := by
    intro d
    rw [(List.perm_insertionSort _ _).mem_iff, List.mem_dedup]
  have hnb : ∀ a b, Neighbours (dates.dedup.insertionSort (· ≤ ·)) a b ↔ Neighbours dates a b := by
    intro a b
    constructor
    · rintro ⟨h1, h2, h3, h4⟩
      exact ⟨(hmem a).1 h1, (hmem b).1 h2, h3, fun d hd => h4 d ((hmem d).2 hd)⟩
    · rintro ⟨h1, h2, h3, h4⟩
      exact ⟨(hmem a).2 h1, (hmem b).2 h2, h3, fun d hd => h4 d ((hmem d).1 hd)⟩
  unfold spacingOk
  rw [List.all_eq_true]
  constructor
  · intro h a b hn
    exact h _ ((diffs_mem (unique_sorted dates)).2 ⟨a, b, (hnb a b).2 hn, rfl⟩)
  · intro h x hx
    obtain ⟨a, b, hn, rfl⟩ := (diffs_mem (unique_sorted dates)).1 hx
    exact h a b ((hnb a b).1 hn)

/-- **C128.**  Bars are accepted for a timeframe of `base` seconds only if each gap between
neighbouring dates is, up to the tolerance per bar, the whole multiple of the timeframe nearest to
it; in particular no gap is shorter than the timeframe by more than the tolerance.  What is missing
from "gaps are whole multiples" is that the tolerance is per bar of the gap
(`long_gaps_accepted`). -/
theorem spacing_sound_partial {base : Nat} (hb : 0 < base) {dates : List Date}
    (h : spacingOk base dates = true) {a b : Date} (hn : Neighbours dates a b) :
    (∃ n, Nearest base (gap a b) n ∧ |gap a b - n * base| ≤ n * tolerance base) ∧
    (tolerance base ≤ base → base - tolerance base ≤ gap a b) := by
  obtain ⟨n, hnear, hiff⟩ := gapOk_iff hb (b - a)
  have hfit := hiff.1 ((spacingOk_iff base dates).1 h a b hn)
  refine ⟨⟨n, hnear, hfit⟩, ?_⟩
  intro htol
  have h1 := (abs_le.1 hfit).1
  have hn1 : (1 : ℚ) ≤ n := by exact_mod_cast hnear.pos
  have : (base : ℚ) - tolerance base ≤ n * (base - tolerance base) := by
    have h0 : 0 ≤ (base : ℚ) - tolerance base := by linarith
    nlinarith
  unfold gap
  linarith

/-- **C128.**  Bars are accepted when each gap between neighbouring dates is within the tolerance
per bar of whichever multiple is nearest to it.  So bars on whole multiples of the timeframe are
accepted, whatever is missing between them. -/
theorem spacing_complete {base : Nat} (hb : 0 < base) {dates : List Date}
    (h : ∀ a b, Neighbours dates a b → ∀ n, Nearest base (gap a b) n →
      |gap a b - n * base| ≤ n * tolerance base) :
    spacingOk base dates = true := by
  rw [spacingOk_iff]
  intro a b hn
  obtain ⟨n, hnear, hiff⟩ := gapOk_iff hb (b - a)
  exact hiff.2 (h a b hn n hnear)

/-- **C128.**  Whole multiples of the timeframe are accepted. -/
theorem whole_multiples_accepted {base : Nat} (hb : 0 < base) {dates : List Date}
    (h : ∀ a b, Neighbours dates a b → ∃ n : Nat, gap a b = n * base) :
    spacingOk base dates = true := by
  apply spacing_complete hb
  intro a b hn n hnear
  obtain ⟨k, hk⟩ := h a b hn
  have hk1 : 1 ≤ k := by
    rcases Nat.eq_zero_or_pos k with rfl | h0
    · exfalso
      unfold gap at hk
      have hlt : (0 : ℚ) < ((b - a : Int) : ℚ) := by exact_mod_cast sub_pos.2 hn.lt
      have : ((b - a : Int) : ℚ) / 1000000000 = 0 := by rw [hk]; push_cast; ring
      have : (0 : ℚ) < ((b - a : Int) : ℚ) / 1000000000 := by positivity
      linarith
    · exact h0
  have h1 := hnear.near k hk1
  rw [hk] at h1 ⊢
  rw [sub_self, abs_zero] at h1
  have hn0 : (0 : ℚ) ≤ n := by positivity
  have := tolerance_pos base
  exact le_trans h1 (by positivity)

/-- A bar starts at each date: the check does not depend on the order of the rows. -/
theorem spacing_any_order {base : Nat} {dates dates' : List Date} (h : ∀ d, d ∈ dates ↔ d ∈ dates') :
    spacingOk base dates = spacingOk base dates' := by
  rw [Bool.eq_iff_iff, spacingOk_iff, spacingOk_iff]
  have : ∀ a b, Neighbours dates a b ↔ Neighbours dates' a b := by
    intro a b
    constructor
    · rintro ⟨h1, h2, h3, h4⟩
      exact ⟨(h a).1 h1, (h b).1 h2, h3, fun d hd => h4 d ((h d).2 hd)⟩
    · rintro ⟨h1, h2, h3, h4⟩
      exact ⟨(h a).2 h1, (h b).2 h2, h3, fun d hd => h4 d ((h d).1 hd)⟩
  constructor
  · intro h' a b hn; exact h' a b ((this a b).2 hn)
  · intro h' a b hn; exact h' a b ((this a b).1 hn)

/-- What C128 misses: a gap of enough bars is accepted whatever it is, because the tolerance grows
with the number of bars. -/
theorem long_gaps_accepted {base : Nat} (hb : 0 < base) {dates : List Date}
    (h : ∀ a b, Neighbours dates a b →
      (base : ℚ) * base ≤ 2 * tolerance base * (gap a b - base / 2)) :
    spacingOk base dates = true := by
  have hbq : (0 : ℚ) < base := by exact_mod_cast hb
  apply spacing_complete hb
  intro a b hn n hnear
  have ht := tolerance_pos base
  have hl := h a b hn
  set g := gap a b with hg
  have hn1 : (1 : ℚ) ≤ n := by exact_mod_cast hnear.pos
  have hgb : (base : ℚ) / 2 ≤ g := by
    by_contra hlt
    have : 2 * tolerance base * (g - base / 2) < 0 := by
      apply mul_neg_of_pos_of_neg <;> linarith
    nlinarith
  -- the nearest multiple is at most half a bar away
  have hhalf : |g - n * base| ≤ base / 2 := by
    obtain ⟨m, hm, hm'⟩ := multiple_nearest hb g
    refine le_trans (hnear.near m hm'.pos) ?_
    have hr := roundEven_near (g / base)
    have scale : ∀ j : ℚ, |g - j * base| = base * |g / base - j| := by
      intro j
      rw [← abs_of_pos hbq, ← abs_mul, abs_of_pos hbq]
      congr 1
      field_simp
    rw [← hm, scale]
    have hq : 1 / 2 ≤ g / base := by rw [le_div_iff₀ hbq]; linarith
    have : |g / base - max (roundEven (g / base) : ℚ) 1| ≤ 1 / 2 := by
      rcases max_cases (roundEven (g / base) : ℚ) 1 with ⟨h1, _⟩ | ⟨h1, h2⟩
      · rw [h1]; exact hr
      · rw [h1]
        have h3 := (abs_le.1 hr).2
        have h4 : (roundEven (g / base) : ℚ) ≤ 0 := by
          have : roundEven (g / base) < 1 := by exact_mod_cast h2
          exact_mod_cast (by omega : roundEven (g / base) ≤ 0)
        rw [abs_le]
        constructor <;> linarith
    nlinarith
  refine le_trans hhalf ?_
  have h5 := (abs_le.1 hhalf).2
  have h6 : g - base / 2 ≤ n * base := by linarith
  have h7 : (base : ℚ) * base ≤ 2 * tolerance base * (n * base) :=
    le_trans hl (mul_le_mul_of_nonneg_left h6 (by linarith))
  have h8 : (base : ℚ) * base ≤ (2 * tolerance base * n) * base := by linarith
  have := le_of_mul_le_mul_right h8 hbq
  linarith

/-! ## C127: the compressed data -/

theorem bind_okI {ε α β : Type} {x : Except ε α} {f : α → Except ε β} {b : β} :
    (x >>= f) = .ok b ↔ ∃ a, x = .ok a ∧ f a = .ok b := by
  cases x with
  | error e => exact ⟨fun h => (nomatch h), fun ⟨_, h, _⟩ => (nomatch h)⟩
  | ok a =>
    constructor
    · intro h; exact ⟨a, rfl, h⟩
    · rintro ⟨a', h, h'⟩; cases h; exact h'

theorem mapM_okE {α β ε : Type} {f : α → Except ε β} : ∀ {l : List α} {r : List β},
    l.mapM f = .ok r → List.Forall₂ (fun a b => f a = .ok b) l r
  | [], r, h => by
    rw [List.mapM_nil] at h
    cases h
    exact .nil
  | a :: l, r, h => by
    rw [List.mapM_cons] at h
    obtain ⟨b, hb, h⟩ := bind_okI.1 h
    obtain ⟨r', hr, h⟩ := bind_okI.1 h
    cases h
    exact .cons hb (mapM_okE hr)

theorem mapM_total {α β ε : Type} {f : α → Except ε β} : ∀ {l : List α},
    (∀ a ∈ l, ∃ b, f a = .ok b) → ∃ r, l.mapM f = .ok r
  | [], _ => ⟨[], rfl⟩
  | a :: l, h => by
    obtain ⟨b, hb⟩ := h a (by simp)
    obtain ⟨r, hr⟩ := mapM_total (l := l) (fun x hx => h x (List.mem_cons_of_mem _ hx))
    refine ⟨b :: r, ?_⟩
    rw [List.mapM_cons, hb]
    simp only [bind, Except.bind]
    rw [hr]
    rfl

theorem forM_ok {α ε : Type} {f : α → Except ε Unit} : ∀ {l : List α},
    l.forM f = .ok () ↔ ∀ a ∈ l, f a = .ok ()
  | [] => by simp [List.forM_nil, pure, Except.pure]
  | a :: l => by
    have hc : (a :: l).forM f = (f a >>= fun _ => l.forM f) := rfl
    rw [hc, bind_okI]
    constructor
    · rintro ⟨_, h1, h2⟩ x hx
      rcases List.mem_cons.1 hx with rfl | hx
      · exact h1
      · exact forM_ok.1 h2 x hx
    · intro h
      exact ⟨(), h a (by simp), forM_ok.2 (fun x hx => h x (List.mem_cons_of_mem _ hx))⟩

theorem symbolIntervals_iff {execs : List ExecIvs} {rows : List DRow} {sym : Sym}
    (hs : sym ∈ rows.map DRow.symbol) {iv : Iv} :
    iv ∈ symbolIntervals execs rows sym ↔ WantsIv execs sym iv := by
  unfold symbolIntervals
  rw [List.mem_dedup, if_pos hs, List.mem_append, List.mem_flatMap, List.mem_flatMap]
  constructor
  · rintro (⟨e, he, h⟩ | ⟨e, he, h⟩)
    · rcases hes : e.symbols with _ | syms
      · simp [hes] at h
      · simp only [hes] at h
        split at h
        · rename_i hm
          exact ⟨e, he, h, fun s hs' => by rw [hes] at hs'; cases hs'; exact hm⟩
        · simp at h
    · rcases hes : e.symbols with _ | syms
      · simp only [hes] at h
        exact ⟨e, he, h, fun s hs' => by rw [hes] at hs'; cases hs'⟩
      · simp [hes] at h
  · rintro ⟨e, he, hiv, hsym⟩
    rcases hes : e.symbols with _ | syms
    · exact .inr ⟨e, he, by simp only [hes]; exact hiv⟩
    · exact .inl ⟨e, he, by simp only [hes]; rw [if_pos (hsym syms hes)]; exact hiv⟩

theorem mem_rowGroups {rows : List DRow} {g : Sym × List DRow} :
    g ∈ rowGroups rows ↔ g.1 ∈ rows.map DRow.symbol ∧ g.2 = rows.filter (fun r => r.symbol = g.1) := by
  unfold rowGroups
  rw [List.mem_map]
  constructor
  · rintro ⟨s, hs, rfl⟩
    rw [(List.perm_insertionSort _ _).mem_iff, List.mem_dedup] at hs
    exact ⟨hs, rfl⟩
  · rintro ⟨h1, h2⟩
    refine ⟨g.1, ?_, ?_⟩
    · rw [(List.perm_insertionSort _ _).mem_iff, List.mem_dedup]
      exact h1
    · rw [← h2]

/-- The dates of a symbol's rows. -/
def datesOf (rows : List DRow) (sym : Sym) : List Date :=
  (rows.filter (fun r => r.symbol = sym)).map DRow.date

theorem compressSymbol_ok {mo ye : Date → Int} {cols customs : List String} {base : Nat} {sym : Sym}
    {rows : List DRow} {ivs : List Iv} {out : List ((Sym × Iv) × IvSymData)} :
    compressSymbol mo ye cols customs base sym rows ivs = .ok out ↔
      spacingOk base (rows.map DRow.date) = true ∧ (∀ iv ∈ ivs, validateIv iv base = .ok ()) ∧
      out = ivs.map (fun iv => ((sym, iv), symDataOf mo ye cols customs iv rows)) := by
  unfold compressSymbol
  rcases hsp : spacingOk base (rows.map DRow.date) with _ | _
  · rw [if_pos rfl]
    simp
  · rw [if_neg (by simp)]
    simp only [true_and]
    induction ivs generalizing out with
    | nil =>
      rw [List.mapM_nil]
      constructor
      · intro h; cases h; simp
      · rintro ⟨_, rfl⟩; rfl
    | cons iv ivs ih =>
      rw [List.mapM_cons, bind_okI]
      constructor
      · rintro ⟨b, hb, h⟩
        obtain ⟨⟨⟩, hv, hb⟩ := bind_okI.1 hb
        cases hb
        obtain ⟨r, hr, h⟩ := bind_okI.1 h
        cases h
        obtain ⟨h1, rfl⟩ := ih.1 hr
        refine ⟨?_, rfl⟩
        intro x hx
        rcases List.mem_cons.1 hx with rfl | hx
        · exact hv
        · exact h1 x hx
      · rintro ⟨h, rfl⟩
        refine ⟨((sym, iv), symDataOf mo ye cols customs iv rows), ?_, ?_⟩
        · exact bind_okI.2 ⟨(), h iv (by simp), rfl⟩
        · exact bind_okI.2 ⟨_, ih.2 ⟨fun x hx => h x (List.mem_cons_of_mem _ hx), rfl⟩, rfl⟩

/-- The parts of the compressed data of a frame. -/
theorem compressFrame_ok {mo ye : Date → Int} {cols customs : List String} {base : Nat}
    {ivsOf : Sym → List Iv} {rows : List DRow} {out : List ((Sym × Iv) × IvSymData)} :
    compressFrame mo ye cols customs base ivsOf rows = .ok out ↔
      (∀ sym ∈ rows.map DRow.symbol, ivsOf sym ≠ [] →
        spacingOk base (datesOf rows sym) = true ∧ ∀ iv ∈ ivsOf sym, validateIv iv base = .ok ()) ∧
      out = (rowGroups rows).flatMap (fun g => (ivsOf g.1).map
        (fun iv => ((g.1, iv), symDataOf mo ye cols customs iv g.2))) := by
  unfold compressFrame
  have step : ∀ g ∈ rowGroups rows, ∀ part,
      (if ivsOf g.1 = [] then (.ok [] : Except IvDataErr _)
        else compressSymbol mo ye cols customs base g.1 g.2 (ivsOf g.1)) = .ok part ↔
      (ivsOf g.1 ≠ [] → spacingOk base (datesOf rows g.1) = true ∧
        ∀ iv ∈ ivsOf g.1, validateIv iv base = .ok ()) ∧
      part = (ivsOf g.1).map (fun iv => ((g.1, iv), symDataOf mo ye cols customs iv g.2)) := by
    intro g hg part
    have hrows := (mem_rowGroups.1 hg).2
    by_cases he : ivsOf g.1 = []
    · rw [if_pos he, he]
      constructor
      · intro h; cases h; simp
      · rintro ⟨_, rfl⟩; rfl
    · rw [if_neg he, compressSymbol_ok]
      unfold datesOf
      rw [hrows]
      constructor
      · rintro ⟨h1, h2, h3⟩; exact ⟨fun _ => ⟨h1, h2⟩, h3⟩
      · rintro ⟨h1, h3⟩; exact ⟨(h1 he).1, (h1 he).2, h3⟩
  constructor
  · intro h
    obtain ⟨parts, hp, h⟩ := bind_okI.1 h
    cases h
    have hf := mapM_okE hp
    have hparts : ∀ (gs : List (Sym × List DRow)) (ps : List (List ((Sym × Iv) × IvSymData))),
        (∀ g ∈ gs, g ∈ rowGroups rows) →
        List.Forall₂ (fun g part => (if ivsOf g.1 = [] then (.ok [] : Except IvDataErr _)
          else compressSymbol mo ye cols customs base g.1 g.2 (ivsOf g.1)) = .ok part) gs ps →
        (∀ g ∈ gs, ivsOf g.1 ≠ [] → spacingOk base (datesOf rows g.1) = true ∧
          ∀ iv ∈ ivsOf g.1, validateIv iv base = .ok ()) ∧
        ps.flatten = gs.flatMap (fun g => (ivsOf g.1).map
          (fun iv => ((g.1, iv), symDataOf mo ye cols customs iv g.2))) := by
      intro gs ps hgs hfa
      induction hfa with
      | nil => simp
      | @cons g p gs ps h1 _ ih =>
        obtain ⟨h2, h3⟩ := (step g (hgs g (by simp)) p).1 h1
        obtain ⟨h4, h5⟩ := ih (fun x hx => hgs x (List.mem_cons_of_mem _ hx))
        refine ⟨?_, ?_⟩
        · intro x hx
          rcases List.mem_cons.1 hx with rfl | hx
          · exact h2
          · exact h4 x hx
        · rw [List.flatten_cons, List.flatMap_cons, h3, h5]
    obtain ⟨h1, h2⟩ := hparts _ _ (fun _ h => h) hf
    refine ⟨?_, h2⟩
    intro sym hs
    exact h1 (sym, rows.filter (fun r => r.symbol = sym)) (mem_rowGroups.2 ⟨hs, rfl⟩)
  · rintro ⟨h1, rfl⟩
    have hall : ∀ (gs : List (Sym × List DRow)), (∀ g ∈ gs, g ∈ rowGroups rows) →
        gs.mapM (fun g => if ivsOf g.1 = [] then (.ok [] : Except IvDataErr _)
          else compressSymbol mo ye cols customs base g.1 g.2 (ivsOf g.1)) =
        .ok (gs.map (fun g => (ivsOf g.1).map
          (fun iv => ((g.1, iv), symDataOf mo ye cols customs iv g.2)))) := by
      intro gs hgs
      induction gs with
      | nil => rfl
      | cons g gs ih =>
        have hg := (step g (hgs g (by simp)) _).2
          ⟨h1 g.1 (mem_rowGroups.1 (hgs g (by simp))).1, rfl⟩
        rw [List.mapM_cons, hg]
        simp only [bind, Except.bind]
        rw [ih (fun x hx => hgs x (List.mem_cons_of_mem _ hx))]
        rfl
    refine bind_okI.2 ⟨_, hall _ (fun _ h => h), ?_⟩
    rw [List.flatMap_def]
    rfl

theorem mem_allIntervals {execs : List ExecIvs} {iv : Iv} :
    iv ∈ allIntervals execs ↔ ∃ e ∈ execs, iv ∈ e.intervals := by
  unfold allIntervals
  rw [List.mem_dedup, List.mem_flatMap]

theorem baseSeconds_ok {tf : Str} {b : Nat} :
    baseSeconds tf = .ok b ↔ stripWs tf ≠ [] ∧ toSeconds tf = some b ∧ 0 < b := by
  unfold baseSeconds
  by_cases h : stripWs tf = []
  · rw [if_pos h]
    exact ⟨fun h' => (nomatch h'), fun h' => absurd h h'.1⟩
  · rw [if_neg h]
    rcases toSeconds tf with _ | n
    · exact ⟨fun h' => (nomatch h'), fun h' => (nomatch h'.2.1)⟩
    · simp only
      by_cases hn : n ≤ 0
      · rw [if_pos hn]
        refine ⟨fun h' => (nomatch h'), fun h' => ?_⟩
        cases h'.2.1
        omega
      · rw [if_neg hn]
        constructor
        · intro h'; cases h'; exact ⟨h, rfl, by omega⟩
        · rintro ⟨_, h1, _⟩; cases h1; rfl

/-- What the outcome of building the data is. -/
theorem buildData_ok {mo ye : Date → Int} {cols customs : List String} {execs : List ExecIvs}
    {tf : Str} {rows : List DRow} {out : List ((Sym × Iv) × IvSymData)} :
    buildIntervalData mo ye cols customs execs tf rows = .ok out ↔
      ((∀ e ∈ execs, e.intervals = []) ∧ out = []) ∨
      ((∃ e ∈ execs, e.intervals ≠ []) ∧ ∃ base, baseSeconds tf = .ok base ∧
        (∀ e ∈ execs, ∀ iv ∈ e.intervals, validateIv iv base = .ok ()) ∧
        (∀ sym ∈ rows.map DRow.symbol, (∃ iv, WantsIv execs sym iv) →
          spacingOk base (datesOf rows sym) = true) ∧
        out = (rowGroups rows).flatMap (fun g => (symbolIntervals execs rows g.1).map
          (fun iv => ((g.1, iv), symDataOf mo ye cols customs iv g.2)))) := by
  have hnone : allIntervals execs = [] ↔ ∀ e ∈ execs, e.intervals = [] := by
    rw [List.eq_nil_iff_forall_not_mem]
    constructor
    · intro h e he
      rw [List.eq_nil_iff_forall_not_mem]
      exact fun iv hiv => h iv (mem_allIntervals.2 ⟨e, he, hiv⟩)
    · intro h iv hiv
      obtain ⟨e, he, hiv⟩ := mem_allIntervals.1 hiv
      rw [h e he] at hiv
      cases hiv
  unfold buildIntervalData
  by_cases h0 : allIntervals execs = []
  · rw [if_pos h0]
    constructor
    · intro h; cases h; exact .inl ⟨hnone.1 h0, rfl⟩
    · rintro (⟨_, rfl⟩ | ⟨⟨e, he, hne⟩, _⟩)
      · rfl
      · exact absurd (hnone.1 h0 e he) hne
  · rw [if_neg h0]
    have hsome : ∃ e ∈ execs, e.intervals ≠ [] := by
      by_contra hc
      exact h0 (hnone.2 (fun e he => by by_contra hne; exact hc ⟨e, he, hne⟩))
    have hne : ∀ sym ∈ rows.map DRow.symbol,
        symbolIntervals execs rows sym ≠ [] ↔ ∃ iv, WantsIv execs sym iv := by
      intro sym hs
      constructor
      · intro h
        obtain ⟨iv, hiv⟩ := List.exists_mem_of_ne_nil _ h
        exact ⟨iv, (symbolIntervals_iff hs).1 hiv⟩
      · rintro ⟨iv, hiv⟩
        exact List.ne_nil_of_mem ((symbolIntervals_iff hs).2 hiv)
    constructor
    · intro h
      obtain ⟨base, hb, h⟩ := bind_okI.1 h
      obtain ⟨⟨⟩, hv, h⟩ := bind_okI.1 h
      obtain ⟨h1, h2⟩ := compressFrame_ok.1 h
      refine .inr ⟨hsome, base, hb, ?_, ?_, h2⟩
      · intro e he iv hiv
        exact forM_ok.1 hv iv (mem_allIntervals.2 ⟨e, he, hiv⟩)
      · intro sym hs hw
        exact (h1 sym hs ((hne sym hs).2 hw)).1
    · rintro (⟨hall, _⟩ | ⟨_, base, hb, hv, hsp, rfl⟩)
      · exact absurd (hnone.2 hall) h0
      · refine bind_okI.2 ⟨base, hb, bind_okI.2 ⟨(), ?_, ?_⟩⟩
        · refine forM_ok.2 (fun iv hiv => ?_)
          obtain ⟨e, he, hiv⟩ := mem_allIntervals.1 hiv
          exact hv e he iv hiv
        · refine compressFrame_ok.2 ⟨?_, rfl⟩
          intro sym hs hne'
          refine ⟨hsp sym hs ((hne sym hs).1 hne'), ?_⟩
          intro iv hiv
          obtain ⟨e, he, hiv, _⟩ := (symbolIntervals_iff hs).1 hiv
          exact hv e he iv hiv

/-- **C127.**  The data of a run are compressed, and nothing is raised, exactly when no execution has
an interval, or: the timeframe is a positive number of seconds; every interval of an execution is
longer than that, even if none of the execution's symbols has rows; and the dates of every symbol
that an execution with intervals names, or may select, are spaced by the timeframe. -/
theorem interval_data_ok_iff (mo ye : Date → Int) (cols customs : List String)
    (execs : List ExecIvs) (tf : Str) (rows : List DRow) :
    (∃ out, buildIntervalData mo ye cols customs execs tf rows = .ok out) ↔
      (∀ e ∈ execs, e.intervals = []) ∨
      ∃ base, stripWs tf ≠ [] ∧ toSeconds tf = some base ∧ 0 < base ∧
        (∀ e ∈ execs, ∀ iv ∈ e.intervals, Coarser base iv) ∧
        (∀ sym iv, sym ∈ rows.map DRow.symbol → WantsIv execs sym iv →
          spacingOk base (datesOf rows sym) = true) := by
  constructor
  · rintro ⟨out, h⟩
    rcases buildData_ok.1 h with ⟨h1, _⟩ | ⟨_, base, hb, hv, hsp, _⟩
    · exact .inl h1
    · obtain ⟨b1, b2, b3⟩ := baseSeconds_ok.1 hb
      exact .inr ⟨base, b1, b2, b3, fun e he iv hiv => (interval_accepted_iff iv base).1 (hv e he iv hiv),
        fun sym iv hs hw => hsp sym hs ⟨iv, hw⟩⟩
  · by_cases h0 : ∀ e ∈ execs, e.intervals = []
    · exact fun _ => ⟨[], buildData_ok.2 (.inl ⟨h0, rfl⟩)⟩
    · rintro (h | ⟨base, b1, b2, b3, hv, hsp⟩)
      · exact absurd h h0
      · refine ⟨_, buildData_ok.2 (.inr ⟨?_, base, baseSeconds_ok.2 ⟨b1, b2, b3⟩,
          fun e he iv hiv => (interval_accepted_iff iv base).2 (hv e he iv hiv),
          fun sym hs ⟨iv, hw⟩ => hsp sym iv hs hw, rfl⟩)⟩
        by_contra hc
        exact h0 (fun e he => by by_contra hne; exact hc ⟨e, he, hne⟩)

/-- The data of a run hold one entry for each symbol with rows and each interval that an execution
wants for it, made from the symbol's rows in the order of the frame. -/
theorem build_entries {mo ye : Date → Int} {cols customs : List String} {execs : List ExecIvs}
    {tf : Str} {rows : List DRow} {out : List ((Sym × Iv) × IvSymData)}
    (h : buildIntervalData mo ye cols customs execs tf rows = .ok out) :
    (out.map Prod.fst).Nodup ∧
    ∀ sym iv x, ((sym, iv), x) ∈ out ↔ sym ∈ rows.map DRow.symbol ∧ WantsIv execs sym iv ∧
      x = symDataOf mo ye cols customs iv (rows.filter (fun r => r.symbol = sym)) := by
  rcases buildData_ok.1 h with ⟨h0, rfl⟩ | ⟨_, base, hb, hv, hsp, rfl⟩
  · refine ⟨by simp, ?_⟩
    intro sym iv x
    simp only [List.not_mem_nil, false_iff]
    rintro ⟨_, ⟨e, he, hiv, _⟩, _⟩
    rw [h0 e he] at hiv
    cases hiv
  · constructor
    · have hfst : ((rowGroups rows).flatMap (fun g => (symbolIntervals execs rows g.1).map
          (fun iv => ((g.1, iv), symDataOf mo ye cols customs iv g.2)))).map Prod.fst =
          ((rowGroups rows).map Prod.fst).flatMap (fun s => (symbolIntervals execs rows s).map
            (fun iv => (s, iv))) := by
        rw [List.map_flatMap, List.flatMap_map]
        apply List.flatMap_congr
        intro g _
        rw [List.map_map]
        rfl
      rw [hfst, List.nodup_flatMap]
      have hg : (rowGroups rows).map Prod.fst = (rows.map DRow.symbol).dedup.insertionSort (· ≤ ·) := by
        unfold rowGroups
        rw [List.map_map]
        exact List.map_id _
      constructor
      · intro s _
        refine List.Nodup.map (fun a b hab => (Prod.mk.inj hab).2) ?_
        exact List.nodup_dedup _
      · rw [hg]
        have hnd : ((rows.map DRow.symbol).dedup.insertionSort (· ≤ ·)).Nodup :=
          (List.perm_insertionSort _ _).nodup_iff.2 (List.nodup_dedup _)
        refine hnd.imp ?_
        intro a b hab p hpa hpb
        obtain ⟨_, _, rfl⟩ := List.mem_map.1 hpa
        obtain ⟨_, _, e⟩ := List.mem_map.1 hpb
        exact hab (Prod.mk.inj e).1.symm
    · intro sym iv x
      rw [List.mem_flatMap]
      constructor
      · rintro ⟨g, hg, hm⟩
        obtain ⟨h1, h2⟩ := mem_rowGroups.1 hg
        obtain ⟨iv', hiv', e⟩ := List.mem_map.1 hm
        cases e
        exact ⟨h1, (symbolIntervals_iff h1).1 hiv', by rw [h2]⟩
      · rintro ⟨h1, h2, rfl⟩
        exact ⟨(sym, rows.filter (fun r => r.symbol = sym)), mem_rowGroups.2 ⟨h1, rfl⟩,
          List.mem_map.2 ⟨iv, (symbolIntervals_iff h1).2 h2, rfl⟩⟩

/-- The bar that a row of data stands for: its own prices, its volume if the data has volumes and 0 if
not, its volume-weighted price if the data has one, and the registered columns that the data has. -/
def Spec.rowBar (cols customs : List String) (r : DRow) : IBar :=
  { date := r.date,
    opn := r.val "open",
    high := r.val "high",
    low := r.val "low",
    close := r.val "close",
    volume := if "volume" ∈ cols then r.val "volume" else some 0,
    vwap := if "vwap" ∈ cols then r.val "vwap" else none,
    custom := fun c => if c ∈ customs ∧ c ∈ cols then r.val c else none }

theorem barOf_rowBar (cols customs : List String) : barOf cols customs = rowBar cols customs := rfl

/-- The compressed bars of rows, stated by groups: each group of base bars of the interval gives one
compressed bar. -/
structure Spec.CompressedOf (mo ye : Date → Int) (cols customs : List String) (iv : Iv)
    (rows : List DRow) (x : IvSymData) : Prop where
  dates : x.data.baseDates = rows.map DRow.date
  counted : ∀ n, iv = .num n → ∃ groups, CountGroups n.toNat (rows.map (rowBar cols customs)) groups ∧
    List.Forall₂ Compresses groups x.data.bars
  calendar : ∀ c, iv = .str (calendarName c).toList →
    ∃ groups, BinGroups (calendarBin mo ye c) (rows.map (rowBar cols customs)) groups ∧
      List.Forall₂ Compresses groups x.data.bars
  duration : ∀ s n, iv = .str s → (∀ c, s ≠ (calendarName c).toList) → toSeconds s = some n →
    ∃ groups, BinGroups (durationBin n) (rows.map (rowBar cols customs)) groups ∧
      List.Forall₂ Compresses groups x.data.bars
  aligned : x.data.completed.length = rows.length

theorem symDataOf_compressed {mo ye : Date → Int} {cols customs : List String} {iv : Iv} {base : Nat}
    (hiv : Coarser base iv) (rows : List DRow) :
    CompressedOf mo ye cols customs iv rows (symDataOf mo ye cols customs iv rows) where
  dates := by
    unfold symDataOf
    simp only [List.map_map]
    rfl
  counted := by
    rw [← barOf_rowBar]
    rintro n rfl
    cases hiv with
    | bars hn =>
      obtain ⟨groups, h1, h2, _⟩ := count_compress (k := n.toNat) (by omega) (rows.map (barOf cols customs))
      exact ⟨groups, h1, h2⟩
  calendar := by
    rw [← barOf_rowBar]
    rintro c rfl
    obtain ⟨groups, h1, h2, _⟩ := calendar_compress (calendarBin mo ye c) (rows.map (barOf cols customs))
    refine ⟨groups, h1, ?_⟩
    have : binOf mo ye (calendarName c).toList = calendarBin mo ye c := by
      funext d
      unfold binOf
      rw [calendarOf_name]
    unfold symDataOf compressIv
    simp only [this]
    exact h2
  duration := by
    rw [← barOf_rowBar]
    rintro s n rfl hs hn
    obtain ⟨groups, h1, h2, _⟩ := calendar_compress (durationBin n) (rows.map (barOf cols customs))
    refine ⟨groups, h1, ?_⟩
    have : binOf mo ye s = durationBin n := by
      funext d
      unfold binOf
      rcases hc : calendarOf s with _ | c
      · simp only [hn, Option.getD_some]
      · exact absurd (calendarOf_some hc) (hs c)
    unfold symDataOf compressIv
    simp only [this]
    exact h2
  aligned := by
    unfold symDataOf compressIv
    cases iv with
    | num n => simp [compressEveryN, everyNCompleted]
    | str s => simp [compressBins, computeCompleted]

/-- **C127.**  A run holds compressed data for a symbol and an interval exactly when the symbol has
rows and an execution that has the interval names the symbol or has a selector; there is one entry
for each.  If the symbol's rows come in date order, the entry is compressed from the symbol's bars in
date order, which are those that the run sees.  What is missing: rows in any order
(`rows_out_of_order`). -/
theorem interval_data_partial {mo ye : Date → Int} {cols customs : List String}
    {execs : List ExecIvs} {tf : Str} {rows : List DRow} {out : List ((Sym × Iv) × IvSymData)}
    (h : buildIntervalData mo ye cols customs execs tf rows = .ok out) :
    (out.map Prod.fst).Nodup ∧
    (∀ sym iv, (∃ x, ((sym, iv), x) ∈ out) ↔ sym ∈ rows.map DRow.symbol ∧ WantsIv execs sym iv) ∧
    ∀ sym iv x, ((sym, iv), x) ∈ out → (datesOf rows sym).Pairwise (· ≤ ·) →
      CompressedOf mo ye cols customs iv (symRows rows sym) x := by
  obtain ⟨h1, h2⟩ := build_entries h
  refine ⟨h1, ?_, ?_⟩
  · intro sym iv
    constructor
    · rintro ⟨x, hx⟩
      obtain ⟨h3, h4, _⟩ := (h2 sym iv x).1 hx
      exact ⟨h3, h4⟩
    · rintro ⟨h3, h4⟩
      exact ⟨_, (h2 sym iv _).2 ⟨h3, h4, rfl⟩⟩
  · intro sym iv x hx hd
    obtain ⟨h3, ⟨e, he, hiv, _⟩, rfl⟩ := (h2 sym iv x).1 hx
    have hsort : symRows rows sym = rows.filter (fun r => r.symbol = sym) := by
      unfold symRows
      apply List.Pairwise.insertionSort_eq
      exact List.pairwise_map.1 hd
    rw [hsort]
    rcases buildData_ok.1 h with ⟨h0, _⟩ | ⟨_, base, _, hv, _, _⟩
    · rw [h0 e he] at hiv
      cases hiv
    · exact symDataOf_compressed ((interval_accepted_iff iv base).1 (hv e he iv hiv)) _

/-! ## Cases -/

/-- A row of day `d`. -/
def Demo.dayRow (sym : Sym) (d : Int) (p : ℚ) : DRow where
  symbol := sym
  date := d * 86400000000000
  val := fun c => if c = "open" ∨ c = "high" ∨ c = "low" ∨ c = "close" then some p else none

/-- Bars of four days, and the same bars in another order. -/
def Demo.dayRows : List DRow :=
  [Demo.dayRow "A" 0 10, Demo.dayRow "A" 1 11, Demo.dayRow "A" 2 12, Demo.dayRow "A" 3 13]

def Demo.dayRows' : List DRow :=
  [Demo.dayRow "A" 0 10, Demo.dayRow "A" 3 13, Demo.dayRow "A" 1 11, Demo.dayRow "A" 2 12]

def Demo.dayExecs : List ExecIvs := [⟨some ["A"], [.num 2]⟩]

theorem seconds_day : toSeconds "1d".toList = some 86400 := by
  have h := canonical_seconds (n := 1) (u := 'd') (v := .day) (by decide) (by unfold spells; decide)
  have e : showNat 1 ++ ['d'] = "1d".toList := by
    unfold showNat
    rfl
  rw [e] at h
  exact h

theorem strip_day : stripWs "1d".toList ≠ [] := by decide +kernel

/-- Both frames are accepted: they hold the same dates. -/
theorem dayRows_ok : ∀ rows ∈ [Demo.dayRows, Demo.dayRows'],
    ∃ out, buildIntervalData id id [] [] Demo.dayExecs "1d".toList rows = .ok out := by
  intro rows hrows
  refine (interval_data_ok_iff id id [] [] _ _ rows).2 (.inr ⟨86400, strip_day, seconds_day, by decide,
    ?_, ?_⟩)
  · intro e he iv hiv
    simp only [Demo.dayExecs, List.mem_singleton] at he
    subst he
    rw [List.mem_singleton] at hiv
    subst hiv
    exact .bars (by decide)
  · intro sym iv hs hw
    have hA : sym = "A" := by
      obtain ⟨e, he, _, h⟩ := hw
      simp only [Demo.dayExecs, List.mem_singleton] at he
      subst he
      simpa using h _ rfl
    subst hA
    simp only [List.mem_cons, List.not_mem_nil, or_false] at hrows
    rcases hrows with rfl | rfl <;> decide +kernel

/-- What C127 misses.  The same bars in another order are accepted too, and their compressed bars are
not the same: those of the second frame begin with a bar of days 0 and 3, and that bar is the
completed one on day 1. -/
theorem rows_out_of_order : Demo.dayRows.Perm Demo.dayRows' ∧
    ∃ out out' x x', buildIntervalData id id [] [] Demo.dayExecs "1d".toList Demo.dayRows = .ok out ∧
      buildIntervalData id id [] [] Demo.dayExecs "1d".toList Demo.dayRows' = .ok out' ∧
      (("A", .num 2), x) ∈ out ∧ (("A", .num 2), x') ∈ out' ∧
      x.data.bars.map IBar.high = [some 11, some 13] ∧
      x'.data.bars.map IBar.high = [some 13, some 12] ∧
      x'.data.baseDates[2]? = some 86400000000000 ∧ x'.data.completed[2]? = some 0 ∧
      (x'.data.bars.map IBar.date)[0]? = some (3 * 86400000000000) := by
  refine ⟨?_, ?_⟩
  · refine List.Perm.cons _ ?_
    exact (List.perm_append_comm (l₁ := [Demo.dayRow "A" 1 11, Demo.dayRow "A" 2 12])
      (l₂ := [Demo.dayRow "A" 3 13]))
  · obtain ⟨out, h⟩ := dayRows_ok Demo.dayRows (by simp)
    obtain ⟨out', h'⟩ := dayRows_ok Demo.dayRows' (by simp)
    have hw : WantsIv Demo.dayExecs "A" (.num 2) :=
      ⟨⟨some ["A"], [.num 2]⟩, by simp [Demo.dayExecs], by simp, by simp⟩
    refine ⟨out, out', _, _, h, h', ((build_entries h).2 "A" (.num 2) _).2 ⟨by decide +kernel, hw, rfl⟩,
      ((build_entries h').2 "A" (.num 2) _).2 ⟨by decide +kernel, hw, rfl⟩, ?_, ?_, ?_, ?_, ?_⟩ <;>
      decide +kernel

example : ∃ out x, buildIntervalData id id [] [] Demo.dayExecs "1d".toList Demo.dayRows = .ok out ∧
    (("A", .num 2), x) ∈ out ∧ CompressedOf id id [] [] (.num 2) (symRows Demo.dayRows "A") x := by
  obtain ⟨out, h⟩ := dayRows_ok Demo.dayRows (by simp)
  obtain ⟨_, h2, h3⟩ := interval_data_partial h
  obtain ⟨x, hx⟩ := (h2 "A" (.num 2)).2 ⟨by decide +kernel,
    ⟨some ["A"], [.num 2]⟩, by simp [Demo.dayExecs], by simp, by simp⟩
  exact ⟨out, x, h, hx, h3 "A" (.num 2) x hx (by decide +kernel)⟩

/-- Daily bars cannot be compressed to days, and an interval that no symbol needs is refused too. -/
example : ¬ ∃ out, buildIntervalData id id [] [] [⟨some ["B"], [.str "daily".toList]⟩] "1d".toList
    Demo.dayRows = .ok out := by
  rw [interval_data_ok_iff]
  rintro (h | ⟨base, _, h1, _, h2, _⟩)
  · exact absurd (h _ List.mem_cons_self) (by simp)
  · rw [seconds_day] at h1
    cases h1
    have := (interval_accepted_iff (.str "daily".toList) 86400).2 (h2 _ List.mem_cons_self _ List.mem_cons_self)
    exact absurd this (by decide +kernel)

/-- What C128 misses: minute bars half an hour and a half minute apart are accepted, and so are bars
of one second a nanosecond apart. -/
theorem uneven_gaps_accepted :
    (spacingOk 60 [0, 60000000000, 1950000000000] = true ∧
      gap 60000000000 1950000000000 = 31 * 60 + 30) ∧
    (spacingOk 1 [0, 1] = true ∧ gap 0 1 = 1 / 1000000000) := by
  refine ⟨⟨by decide +kernel, ?_⟩, by decide +kernel, ?_⟩ <;> norm_num [gap]

/-- Half a minute between minute bars is refused, a weekend between days is not. -/
example : spacingOk 60 [0, 30000000000] = false := by decide +kernel
example : spacingOk 60 [0, 90000000000] = false := by decide +kernel
example : spacingOk 86400 [0, 3 * 86400000000000, 4 * 86400000000000 + 3600000000000] = true := by
  decide +kernel
example : Neighbours [0, 60000000000, 1950000000000] (60000000000 : Int) 1950000000000 :=
  ⟨by simp, by simp, by decide, by decide⟩
example := spacing_sound_partial (base := 60) (by decide) uneven_gaps_accepted.1.1
  (a := 60000000000) (b := 1950000000000) ⟨by simp, by simp, by decide, by decide⟩
example : spacingOk 60 [0, 60000000000, 300000000000] = true := by
  refine whole_multiples_accepted (by decide) ?_
  rintro a b ⟨h1, h2, h3, h4⟩
  simp only [List.mem_cons, List.not_mem_nil, or_false] at h1 h2
  rcases h1 with rfl | rfl | rfl <;> rcases h2 with rfl | rfl | rfl
  · exact absurd h3 (by decide)
  · exact ⟨1, by norm_num [gap]⟩
  · exact absurd (h4 60000000000 (by simp)) (by decide)
  · exact absurd h3 (by decide)
  · exact absurd h3 (by decide)
  · exact ⟨4, by norm_num [gap]⟩
  · exact absurd h3 (by decide)
  · exact absurd h3 (by decide)
  · exact absurd h3 (by decide)
example : Coarser 3600 (.str "daily".toList) := .calendar .daily (by decide)
example : ¬ Coarser 86400 (.str "daily".toList) := by
  rw [← interval_accepted_iff]
  decide +kernel

end PyBroker
