import Verif.Props.Interval

/-!
# The bins of calendar and duration intervals (C45, C46)

Which bars are compressed together: bars whose dates lie in one span of time.
-/

namespace PyBroker

namespace Spec

/-- Both numbers lie in one of the spans of length `len` that follow each other from `start`. -/
def SameSpan (start len a b : Int) : Prop :=
  ∃ k : Int, (start + k * len ≤ a ∧ a < start + (k + 1) * len) ∧
    (start + k * len ≤ b ∧ b < start + (k + 1) * len)

/-- Nanoseconds of a second. -/
def second : Int := 1000000000

/-- Two dates belong to the same day, week, month, quarter or year.  Dates count nanoseconds from
1 January 1970, a Thursday, so that weeks begin four days later, on Monday.  Months are numbered from
January 1970. -/
def SameCalendar (monthOf yearOf : Date → Int) (c : Calendar) (d d' : Date) : Prop :=
  match c with
  | .daily => SameSpan 0 (24 * 60 * 60 * second) d d'
  | .weekly => SameSpan (4 * (24 * 60 * 60 * second)) (7 * (24 * 60 * 60 * second)) d d'
  | .monthly => monthOf d = monthOf d'
  | .quarterly => SameSpan 0 3 (monthOf d) (monthOf d')
  | .yearly => yearOf d = yearOf d'

end Spec

open Spec

theorem fdiv_span {len : Int} (hl : 0 < len) (a b : Int) :
    Int.fdiv a len = Int.fdiv b len ↔ SameSpan 0 len a b := by
  rw [Int.fdiv_eq_ediv_of_nonneg _ hl.le, Int.fdiv_eq_ediv_of_nonneg _ hl.le]
  have key : ∀ x k : Int, x / len = k ↔ (0 + k * len ≤ x ∧ x < 0 + (k + 1) * len) := by
    intro x k
    rw [zero_add, zero_add]
    constructor
    · rintro rfl
      exact ⟨Int.ediv_mul_le _ hl.ne', Int.lt_ediv_add_one_mul_self _ hl⟩
    · rintro ⟨h1, h2⟩
      have e1 := (Int.le_ediv_iff_mul_le hl).2 h1
      have e2 := (Int.ediv_lt_iff_lt_mul hl).2 h2
      omega
  constructor
  · intro h
    exact ⟨a / len, (key a _).1 rfl, (key b _).1 h.symm⟩
  · rintro ⟨k, h1, h2⟩
    rw [(key a k).2 h1, (key b k).2 h2]

/-- **C45**: on a duration interval two bars have one bin iff their dates lie in one of the spans of that
many seconds counted from the epoch. -/
theorem duration_spans {seconds : Nat} (hs : 0 < seconds) (d d' : Date) :
    durationBin seconds d = durationBin seconds d' ↔ SameSpan 0 (seconds * second) d d' :=
  fdiv_span (by omega) d d'

/-- **C45**: on a calendar interval two bars have one bin iff they are of the same day, week (from
Monday), month, quarter or year. -/
theorem calendar_spans (monthOf yearOf : Date → Int) (c : Calendar) (d d' : Date) :
    calendarBin monthOf yearOf c d = calendarBin monthOf yearOf c d' ↔
      SameCalendar monthOf yearOf c d d' := by
  cases c with
  | daily => exact fdiv_span (by decide) d d'
  | weekly =>
    unfold calendarBin SameCalendar SameSpan second
    simp only
    rw [Int.fdiv_eq_ediv_of_nonneg _ (by decide), Int.fdiv_eq_ediv_of_nonneg _ (by decide),
      Int.fdiv_eq_ediv_of_nonneg _ (by decide), Int.fdiv_eq_ediv_of_nonneg _ (by decide)]
    unfold dayNs
    constructor
    · intro h
      exact ⟨(d / (86400 * 1000000000) + 3) / 7 - 1, by omega, by omega⟩
    · rintro ⟨k, h1, h2⟩
      omega
  | monthly => exact Iff.rfl
  | quarterly => exact fdiv_span (by decide) _ _
  | yearly => exact Iff.rfl

/-- Two bars of one hour, and one of the next. -/
example : SameSpan 0 ((3600 : Nat) * second) 0 (3599 * second) ∧
    ¬ SameSpan 0 ((3600 : Nat) * second) 0 (3600 * second) := by
  rw [← duration_spans (by decide), ← duration_spans (by decide)]
  decide +kernel

/-- Sunday 4 January 1970 and Monday 5 January 1970 are of different weeks; Monday and the Sunday after it
are of one. -/
example : ¬ SameCalendar id id .weekly (3 * dayNs) (4 * dayNs) ∧
    SameCalendar id id .weekly (4 * dayNs) (10 * dayNs) := by
  rw [← calendar_spans, ← calendar_spans]
  decide +kernel

end PyBroker
