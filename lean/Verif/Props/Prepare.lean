import Verif.Data.Prepare
import Verif.Props.Scope
import Mathlib.Tactic.Linarith

/-!
# The bars a run is given (C95, C96)
-/

namespace PyBroker

/-! ## Specification -/

namespace Spec

/-- Nanoseconds of 24 hours. -/
def oneDay : Int := 24 * 60 * 60 * 1000 * 1000 * 1000

/-- The date lies `w` days after a Monday midnight; 5 January 1970, four days after
the epoch, was a Monday. -/
def OnWeekday (w : Nat) (d : Date) : Prop :=
  w < 7 ∧ ∃ week : Int, (4 + 7 * week + w) * oneDay ≤ d ∧ d < (4 + 7 * week + w + 1) * oneDay

/-- The time of day of the date lies in the range, ends included; a range that
starts after it ends passes midnight. -/
def InTimeRange (start stop : Int) (d : Date) : Prop :=
  ∃ midnight t : Int, d = midnight * oneDay + t ∧ 0 ≤ t ∧ t < oneDay ∧
    (start ≤ stop → start ≤ t ∧ t ≤ stop) ∧ (stop < start → start ≤ t ∨ t ≤ stop)

/-- The names of the days, Monday first. -/
def dayName : Nat → String
  | 0 => "MON"
  | 1 => "TUES"
  | 2 => "WEDS"
  | 3 => "THURS"
  | 4 => "FRI"
  | 5 => "SAT"
  | 6 => "SUN"
  | _ => ""

/-- What a day argument says: a `Day`, or a name in any case. -/
def Names : DayArg → Nat → Prop
  | .day n, w => w = n
  | .name s, w => w < 7 ∧ s.map Char.toUpper = (dayName w).toList

/-- A row the executions can trade. -/
def Traded (execs : List ExecSymbols) (r : DRow) : Prop :=
  none ∈ execs ∨ ∃ l, some l ∈ execs ∧ r.symbol ∈ l

/-- A row the call asks for, between the dates `lo` and `hi`. -/
def Wanted (execs : List ExecSymbols) (lo hi : Date) (c : RunDates) (r : DRow) : Prop :=
  Traded execs r ∧ lo ≤ r.date ∧ r.date ≤ hi ∧
    (∀ l, c.days = some l → ∃ a ∈ l, ∃ w, Names a w ∧ OnWeekday w r.date) ∧
    (∀ a b, c.times = some (a, b) → InTimeRange a b r.date)

/-- The rows of a source for a strategy. -/
def sourceRows (src : BarSource) (execs : List ExecSymbols) (lo hi : Date) : List DRow :=
  match src with
  | .frame f => f.rows
  | .source query => (query (execs.flatMap (fun e => e.getD [])) lo hi).rows

/-- A `DataSource` answers with rows of the symbols and dates it was asked for. -/
def Answers (src : BarSource) : Prop :=
  match src with
  | .frame _ => True
  | .source query => ∀ syms lo hi, ∀ r ∈ (query syms lo hi).rows,
      r.symbol ∈ syms ∧ lo ≤ r.date ∧ r.date ≤ hi

end Spec

open PyBroker.Spec

/-! ## Days and times -/

theorem weekday_int (w : Nat) (x : Int) :
    ((x / 86400000000000 + 3) % 7).toNat = w ↔
      w < 7 ∧ ∃ week : Int, (4 + 7 * week + w) * 86400000000000 ≤ x ∧
        x < (4 + 7 * week + w + 1) * 86400000000000 := by
  obtain ⟨n, hn⟩ : ∃ n, n = x / 86400000000000 := ⟨_, rfl⟩
  rw [← hn]
  have h1 : n * 86400000000000 ≤ x := by omega
  have h2 : x < (n + 1) * 86400000000000 := by omega
  constructor
  · intro h
    exact ⟨by omega, (n + 3) / 7 - 1, by omega, by omega⟩
  · rintro ⟨h7, k, h3, h4⟩
    have h5 : n = 4 + 7 * k + w := by omega
    omega

theorem weekday_spec (w : Nat) (d : Date) : weekday d = w ↔ OnWeekday w d := by
  unfold weekday OnWeekday oneDay nsOfDay
  rw [show (86400 * 1000000000 : Int) = 86400000000000 by norm_num,
    show (24 * 60 * 60 * 1000 * 1000 * 1000 : Int) = 86400000000000 by norm_num]
  exact weekday_int w d

theorem inTimes_int (a b x : Int) :
    (if a ≤ b then decide (a ≤ x % 86400000000000) && decide (x % 86400000000000 ≤ b)
      else decide (a ≤ x % 86400000000000) || decide (x % 86400000000000 ≤ b)) = true ↔
    ∃ midnight t : Int, x = midnight * 86400000000000 + t ∧ 0 ≤ t ∧ t < 86400000000000 ∧
      (a ≤ b → a ≤ t ∧ t ≤ b) ∧ (b < a → a ≤ t ∨ t ≤ b) := by
  constructor
  · intro h
    refine ⟨x / 86400000000000, x % 86400000000000, by omega, by omega, by omega, ?_, ?_⟩
    · intro hab
      rw [if_pos hab] at h
      simpa using h
    · intro hab
      rw [if_neg (by omega)] at h
      simpa using h
  · rintro ⟨m, t, h, h0, h1, h2, h3⟩
    have ht : x % 86400000000000 = t := by omega
    rw [ht]
    split
    · rename_i hab
      simpa using h2 hab
    · rename_i hab
      simpa using h3 (by omega)

theorem inTimes_spec (a b : Int) (d : Date) : inTimes a b d = true ↔ InTimeRange a b d := by
  unfold inTimes InTimeRange timeOfDay oneDay nsOfDay
  rw [show (86400 * 1000000000 : Int) = 86400000000000 by norm_num,
    show (24 * 60 * 60 * 1000 * 1000 * 1000 : Int) = 86400000000000 by norm_num]
  exact inTimes_int a b d

theorem dayValue_spec (s : Str) :
    (∃ n, dayValue s = .ok n ∧ n < 7 ∧ s = (dayName n).toList) ∨
    (dayValue s = .error .unknownDay ∧ ∀ n < 7, s ≠ (dayName n).toList) := by
  unfold dayValue
  rcases h : dayMembers.idxOf? s with _ | n
  · right
    refine ⟨rfl, ?_⟩
    intro n hn e
    rw [List.idxOf?_eq_none_iff] at h
    apply h
    subst e
    have : ∀ n < 7, (dayName n).toList ∈ dayMembers := by decide
    exact this n hn
  · left
    refine ⟨n, rfl, ?_⟩
    rw [List.idxOf?, List.findIdx?_eq_some_iff_getElem] at h
    obtain ⟨h1, h2, _⟩ := h
    have h3 : dayMembers[n] = s := by simpa using h2
    have : ∀ n (h : n < dayMembers.length), n < 7 ∧ dayMembers[n] = (dayName n).toList := by decide
    exact ⟨(this n h1).1, by rw [← h3]; exact (this n h1).2⟩

theorem dayName_inj : ∀ n < 7, ∀ m < 7, (dayName n).toList = (dayName m).toList → n = m := by
  decide

theorem value_spec (a : DayArg) :
    (∃ n, a.value = .ok n ∧ ∀ w, Names a w ↔ w = n) ∨
    (a.value = .error .unknownDay ∧ ∀ w, ¬ Names a w) := by
  cases a with
  | day n => exact .inl ⟨n, rfl, fun w => Iff.rfl⟩
  | name s =>
    rcases dayValue_spec (s.map Char.toUpper) with ⟨n, h1, h2, h3⟩ | ⟨h1, h2⟩
    · refine .inl ⟨n, h1, fun w => ⟨?_, ?_⟩⟩
      · rintro ⟨hw, e⟩
        exact dayName_inj w hw n h2 (by rw [← e, h3])
      · rintro rfl
        exact ⟨h2, h3⟩
    · exact .inr ⟨h1, fun w hw => h2 w hw.1 hw.2⟩

theorem dayValues_spec (l : List DayArg) :
    (∃ ns, dayValues l = .ok ns ∧ (∀ w, w ∈ ns ↔ ∃ a ∈ l, Names a w) ∧
      ∀ a ∈ l, ∃ w, Names a w) ∨
    (dayValues l = .error .unknownDay ∧ ∃ a ∈ l, ∀ w, ¬ Names a w) := by
  induction l with
  | nil => exact .inl ⟨[], rfl, by simp, by simp⟩
  | cons a l ih =>
    unfold dayValues
    rcases value_spec a with ⟨n, h1, h2⟩ | ⟨h1, h2⟩
    · rw [h1]
      rcases ih with ⟨ns, h3, h4, h5⟩ | ⟨h3, b, hb, h4⟩
      · rw [h3]
        refine .inl ⟨n :: ns, rfl, ?_, ?_⟩
        · intro w
          rw [List.mem_cons, h4, ← h2 w]
          simp
        · intro b hb
          rcases List.mem_cons.1 hb with rfl | hb
          · exact ⟨n, (h2 n).2 rfl⟩
          · exact h5 b hb
      · rw [h3]
        exact .inr ⟨rfl, b, List.mem_cons_of_mem _ hb, h4⟩
    · rw [h1]
      exact .inr ⟨rfl, a, List.mem_cons_self, h2⟩

theorem toDayIds_spec (days : Option (List DayArg)) :
    (∃ ids, toDayIds days = .ok ids ∧ (days = none ∧ ids = none ∨
      ∃ l ns, days = some l ∧ ids = some ns ∧ (∀ w, w ∈ ns ↔ ∃ a ∈ l, Names a w) ∧
        ∀ a ∈ l, ∃ w, Names a w)) ∨
    (toDayIds days = .error .unknownDay ∧ ∃ l, days = some l ∧ ∃ a ∈ l, ∀ w, ¬ Names a w) := by
  unfold toDayIds
  cases days with
  | none => exact .inl ⟨none, rfl, .inl ⟨rfl, rfl⟩⟩
  | some l =>
    rcases dayValues_spec l.dedup with ⟨ns, h1, h2, h3⟩ | ⟨h1, a, ha, h2⟩
    · left
      simp only [h1]
      refine ⟨_, rfl, .inr ⟨l, _, rfl, rfl, ?_, ?_⟩⟩
      · intro w
        rw [(List.perm_insertionSort _ _).mem_iff, h2]
        simp only [List.mem_dedup]
      · intro a ha
        exact h3 a (List.mem_dedup.2 ha)
    · right
      simp only [h1]
      exact ⟨trivial, l, rfl, a, List.mem_dedup.1 ha, h2⟩

/-! ## The rows -/

theorem hasDuplicates_iff (l : List DRow) : hasDuplicates l = false ↔ UniqueBars l := by
  unfold UniqueBars
  induction l with
  | nil => simp [hasDuplicates]
  | cons r l ih =>
    rw [hasDuplicates, Bool.or_eq_false_iff, ih, List.pairwise_cons]
    refine and_congr_left (fun _ => ?_)
    rw [List.any_eq_false]
    refine forall_congr' fun s => forall_congr' fun _ => ?_
    simp only [Bool.and_eq_true, beq_iff_eq, not_and_or]
    exact ⟨fun h => h.imp Ne.symm Ne.symm, fun h => h.imp Ne.symm Ne.symm⟩

theorem between_rows (f : BarFrame) (a b : Date) : (f.between a b).rows =
    f.rows.filter (fun r => decide (a ≤ r.date) && decide (r.date ≤ b)) := by
  unfold BarFrame.between
  split
  · rename_i h
    rw [h]; rfl
  · simp only
    split
    · rename_i h
      exact (List.filter_eq_self.2 (List.length_filter_eq_length_iff.1 h)).symm
    · rfl

theorem ensureRange_rows (f : BarFrame) : f.ensureRange.rows = f.rows := by
  unfold BarFrame.ensureRange
  split <;> rfl

theorem mem_staticSyms {execs : List ExecSymbols} {x : Sym} :
    x ∈ staticSyms execs ↔ ∃ l, some l ∈ execs ∧ x ∈ l := by
  unfold staticSyms
  rw [List.mem_flatMap]
  constructor
  · rintro ⟨e, he, hx⟩
    cases e with
    | none => simp at hx
    | some l => exact ⟨l, he, hx⟩
  · rintro ⟨l, hl, hx⟩
    exact ⟨some l, hl, hx⟩

theorem hasSelector_iff {execs : List ExecSymbols} : hasSelector execs = true ↔ none ∈ execs := by
  unfold hasSelector
  rw [List.any_eq_true]
  constructor
  · rintro ⟨e, he, h⟩
    cases e with
    | none => exact he
    | some l => cases h
  · intro h
    exact ⟨none, h, rfl⟩

open Classical in
/-- The rows a strategy reads from its source. -/
theorem fetchData_spec {src : BarSource} (hs : Answers src) (execs : List ExecSymbols)
    (lo hi : Date) :
    let want := (sourceRows src execs lo hi).filter
      (fun r => decide (Traded execs r ∧ lo ≤ r.date ∧ r.date ≤ hi))
    (((∃ q, src = .source q) ∧ none ∈ execs) ∧ fetchData src execs lo hi = .error .selectorSource) ∨
    (¬ ((∃ q, src = .source q) ∧ none ∈ execs) ∧
      ((want = [] ∧ fetchData src execs lo hi = .error .emptySource) ∨
       (want ≠ [] ∧ ¬ UniqueBars want ∧ fetchData src execs lo hi = .error .duplicateBars) ∨
       (want ≠ [] ∧ UniqueBars want ∧ ∃ df, fetchData src execs lo hi = .ok df ∧
         df.rows = want))) := by
  intro want
  have fin : ∀ df : BarFrame, df.rows = want →
      ((want = [] ∧ (if df.rows = [] then (.error .emptySource : Except PrepErr BarFrame)
          else if hasDuplicates df.rows then .error .duplicateBars else .ok df.ensureRange) =
            .error .emptySource) ∨
       (want ≠ [] ∧ ¬ UniqueBars want ∧
         (if df.rows = [] then (.error .emptySource : Except PrepErr BarFrame)
          else if hasDuplicates df.rows then .error .duplicateBars else .ok df.ensureRange) =
            .error .duplicateBars) ∨
       (want ≠ [] ∧ UniqueBars want ∧ ∃ df', (if df.rows = [] then
          (.error .emptySource : Except PrepErr BarFrame)
          else if hasDuplicates df.rows then .error .duplicateBars else .ok df.ensureRange) =
            .ok df' ∧ df'.rows = want)) := by
    intro df e
    rw [e]
    by_cases h : want = []
    · exact .inl ⟨h, if_pos h⟩
    · right
      rw [if_neg h]
      rcases hd : hasDuplicates want with _ | _
      · exact .inr ⟨h, (hasDuplicates_iff _).1 hd, _, rfl, by rw [ensureRange_rows, e]⟩
      · refine .inl ⟨h, ?_, rfl⟩
        intro hc
        rw [(hasDuplicates_iff _).2 hc] at hd
        cases hd
  cases src with
  | source q =>
    unfold fetchData
    simp only
    rcases hsel : hasSelector execs with _ | _
    · right
      have hn : none ∉ execs := fun h => by rw [hasSelector_iff.2 h] at hsel; cases hsel
      refine ⟨fun h => hn h.2, ?_⟩
      simp only [Bool.false_eq_true, if_false]
      apply fin
      symm
      apply List.filter_eq_self.2
      intro r hr
      have := hs (staticSyms execs) lo hi r hr
      rw [decide_eq_true_eq]
      exact ⟨.inr (mem_staticSyms.1 this.1), this.2⟩
    · left
      exact ⟨⟨⟨q, rfl⟩, hasSelector_iff.1 hsel⟩, by simp⟩
  | frame f =>
    right
    refine ⟨(fun h => by obtain ⟨⟨q, hq⟩, _⟩ := h; cases hq), ?_⟩
    unfold fetchData
    simp only
    apply fin
    change _ = f.rows.filter _
    rcases hsel : hasSelector execs with _ | _
    · have hn : none ∉ execs := fun h => by rw [hasSelector_iff.2 h] at hsel; cases hsel
      simp only [Bool.false_eq_true, if_false]
      unfold BarFrame.isin
      simp only
      rw [between_rows, List.filter_filter]
      apply List.filter_congr
      intro r _
      rw [Bool.eq_iff_iff]
      simp only [Bool.and_eq_true, decide_eq_true_eq, mem_staticSyms]
      unfold Traded
      simp only [hn, false_or]
    · rw [if_pos rfl, between_rows]
      apply List.filter_congr
      intro r _
      rw [Bool.eq_iff_iff]
      simp only [Bool.and_eq_true, decide_eq_true_eq]
      unfold Traded
      simp only [hasSelector_iff.1 hsel, true_or, true_and]

theorem filterDates_mem {f : BarFrame} {s0 s1 a b : Date} (hr : ∀ r ∈ f.rows, s0 ≤ r.date ∧ r.date ≤ s1)
    (times : Option (Int × Int)) (days : Option (List Nat)) :
    (filterDates f s0 s1 a b times days).1 = f.rows.filter (fun r =>
      (decide (a ≤ r.date) && decide (r.date ≤ b)) &&
      ((days.elim true (fun ids => decide (weekday r.date ∈ ids))) &&
        times.elim true (fun p => inTimes p.1 p.2 r.date))) := by
  unfold filterDates
  simp only
  have h1 : (if a ≠ s0 ∨ b ≠ s1 then (f.between a b).ensureRange else f).rows =
      f.rows.filter (fun r => decide (a ≤ r.date) && decide (r.date ≤ b)) := by
    split
    · rw [ensureRange_rows, between_rows]
    · rename_i h
      rw [not_or, not_ne_iff, not_ne_iff] at h
      obtain ⟨rfl, rfl⟩ := h
      symm
      apply List.filter_eq_self.2
      intro r hr'
      simpa using hr r hr'
  rw [h1]
  cases days <;> cases times <;>
    simp only [Option.elim, Bool.and_true, Bool.true_and, List.filter_filter]
  · apply List.filter_congr; intro r _; rw [Bool.and_comm]
  · apply List.filter_congr; intro r _; rw [Bool.and_comm]
  · apply List.filter_congr
    intro r _
    cases inTimes _ _ r.date <;> simp [Bool.and_comm]

/-! ## C95 -/

open Classical in
/-- **C95.** A run works on exactly the rows of its data source that its executions
can trade, dated from the start to the end of the run, on one of the days and within
the times of day it was given, in the order of the source; no two of them share
symbol and date. -/
theorem run_bars {src : BarSource} (hs : Answers src) {execs : List ExecSymbols} {s0 s1 : Date}
    {c : RunDates} {rows : List DRow} {m : Bool}
    (h : prepareBars src execs s0 s1 c = .ok (rows, m)) :
    s0 ≤ c.start.getD s0 ∧ c.start.getD s0 ≤ c.stop.getD s1 ∧ c.stop.getD s1 ≤ s1 ∧
    rows = (sourceRows src execs s0 s1).filter
      (fun r => decide (Wanted execs (c.start.getD s0) (c.stop.getD s1) c r)) ∧
    UniqueBars rows := by
  unfold prepareBars at h
  simp only at h
  split at h
  · cases h
  rename_i h1
  split at h
  · cases h
  rename_i h2
  split at h
  · cases h
  rename_i h3
  rw [not_or, not_lt, not_lt] at h1 h2
  rw [not_lt] at h3
  refine ⟨h1.1, h3, h2.2, ?_⟩
  rcases fetchData_spec hs execs s0 s1 with ⟨_, e⟩ | ⟨_, ⟨_, e⟩ | ⟨_, _, e⟩ | ⟨_, hu, df, e, hdf⟩⟩
  · rw [e] at h; cases h
  · rw [e] at h; cases h
  · rw [e] at h; cases h
  rw [e] at h
  simp only at h
  have hin : ∀ r ∈ df.rows, s0 ≤ r.date ∧ r.date ≤ s1 := by
    intro r hr
    rw [hdf] at hr
    exact (of_decide_eq_true (List.mem_filter.1 hr).2).2
  rcases toDayIds_spec c.days with ⟨ids, hids, hd⟩ | ⟨hids, _⟩
  · rw [hids] at h
    have h := congrArg Prod.fst (Except.ok.inj h)
    rw [filterDates_mem hin] at h
    simp only at h
    have hrows : rows = (sourceRows src execs s0 s1).filter
        (fun r => decide (Wanted execs (c.start.getD s0) (c.stop.getD s1) c r)) := by
      rw [← h, hdf, List.filter_filter]
      apply List.filter_congr
      intro r _
      have ht : c.times.elim true (fun p => inTimes p.1 p.2 r.date) = true ↔
          ∀ a b, c.times = some (a, b) → InTimeRange a b r.date := by
        rcases c.times with _ | ⟨a, b⟩
        · simp
        · simp only [Option.elim, inTimes_spec, Option.some.injEq, Prod.mk.injEq]
          exact ⟨fun h x y e => by rw [← e.1, ← e.2]; exact h, fun h => h a b ⟨rfl, rfl⟩⟩
      have hday : ids.elim true (fun ids => decide (weekday r.date ∈ ids)) = true ↔
          ∀ l, c.days = some l → ∃ a ∈ l, ∃ w, Names a w ∧ OnWeekday w r.date := by
        rcases hd with ⟨e1, e2⟩ | ⟨l, ns, e1, e2, hm, _⟩
        · rw [e1, e2]; simp
        · rw [e1, e2]
          simp only [Option.elim, decide_eq_true_eq, Option.some.injEq, forall_eq', hm]
          constructor
          · rintro ⟨a, ha, hn⟩
            exact ⟨a, ha, _, hn, (weekday_spec _ _).1 rfl⟩
          · rintro ⟨a, ha, w, hn, hw⟩
            exact ⟨a, ha, by rw [(weekday_spec _ _).2 hw]; exact hn⟩
      rw [Bool.eq_iff_iff]
      simp only [Bool.and_eq_true, ht, hday, decide_eq_true_eq]
      unfold Wanted
      constructor
      · rintro ⟨⟨⟨a1, a2⟩, a3, a4⟩, a5, _⟩
        exact ⟨a5, a1, a2, a3, a4⟩
      · rintro ⟨a5, a1, a2, a3, a4⟩
        exact ⟨⟨⟨a1, a2⟩, a3, a4⟩, a5, le_trans h1.1 a1, le_trans a2 h2.2⟩
    refine ⟨hrows, ?_⟩
    rw [← h, hdf]
    exact hu.filter _
  · rw [hids] at h; cases h

open Classical in
/-- **C95.** A run is refused exactly when its dates leave the strategy's or are
reversed, a selector is used with a `DataSource`, there are no bars, two bars share
symbol and date, or a day name is unknown. -/
theorem run_accepted {src : BarSource} (hs : Answers src) (execs : List ExecSymbols)
    (s0 s1 : Date) (c : RunDates) :
    (∃ out, prepareBars src execs s0 s1 c = .ok out) ↔
      (s0 ≤ c.start.getD s0 ∧ c.start.getD s0 ≤ c.stop.getD s1 ∧ c.stop.getD s1 ≤ s1) ∧
      ¬ ((∃ q, src = .source q) ∧ none ∈ execs) ∧
      (let bars := (sourceRows src execs s0 s1).filter
        (fun r => decide (Traded execs r ∧ s0 ≤ r.date ∧ r.date ≤ s1))
       bars ≠ [] ∧ UniqueBars bars) ∧
      ∀ l, c.days = some l → ∀ a ∈ l, ∃ w, Names a w := by
  constructor
  · rintro ⟨⟨rows, m⟩, h⟩
    obtain ⟨a1, a2, a3, _, _⟩ := run_bars hs h
    refine ⟨⟨a1, a2, a3⟩, ?_⟩
    unfold prepareBars at h
    simp only at h
    split at h; · cases h
    split at h; · cases h
    split at h; · cases h
    rcases fetchData_spec hs execs s0 s1 with ⟨_, e⟩ | ⟨hq, ⟨_, e⟩ | ⟨_, _, e⟩ | ⟨hne, hu, df, e, hdf⟩⟩
    · rw [e] at h; cases h
    · rw [e] at h; cases h
    · rw [e] at h; cases h
    rw [e] at h
    simp only at h
    refine ⟨hq, ⟨hne, hu⟩, ?_⟩
    rcases toDayIds_spec c.days with ⟨ids, hids, hd⟩ | ⟨hids, _⟩
    · intro l hl
      rcases hd with ⟨e1, _⟩ | ⟨l', ns, e1, _, _, hk⟩
      · rw [e1] at hl; cases hl
      · rw [e1] at hl
        cases hl
        exact hk
    · rw [hids] at h; cases h
  · rintro ⟨⟨a1, a2, a3⟩, hq, ⟨hne, hu⟩, hk⟩
    unfold prepareBars
    simp only
    rw [if_neg (by rw [not_or, not_lt, not_lt]; exact ⟨a1, le_trans a2 a3⟩),
      if_neg (by rw [not_or, not_lt, not_lt]; exact ⟨le_trans a1 a2, a3⟩), if_neg (not_lt.2 a2)]
    rcases fetchData_spec hs execs s0 s1 with ⟨e, _⟩ | ⟨_, ⟨e, _⟩ | ⟨_, e, _⟩ | ⟨_, _, df, e, hdf⟩⟩
    · exact absurd e hq
    · exact absurd e hne
    · exact absurd hu e
    rw [e]
    simp only
    rcases toDayIds_spec c.days with ⟨ids, hids, hd⟩ | ⟨hids, l, hl, a, ha, hn⟩
    · rw [hids]
      exact ⟨_, rfl⟩
    · obtain ⟨w, hw⟩ := hk l hl a ha
      exact absurd hw (hn w)

/-! ## C96 -/

/-- **C96, in part.** Preparing a run leaves the caller's frame as it was, if no
execution uses a selector or the dates carry no time zone.  Missing: with a selector
over a frame with time zone aware dates, see `caller_frame_stripped`. -/
theorem caller_frame_kept_partial {src : BarSource} {execs : List ExecSymbols} {s0 s1 : Date}
    {c : RunDates} {rows : List DRow} {m : Bool}
    (hsrc : ∀ q, src = .source q → ∀ x y z, (q x y z).own = false)
    (hc : none ∉ execs ∨ ∀ f, src = .frame f → f.tz = false)
    (h : prepareBars src execs s0 s1 c = .ok (rows, m)) : m = false := by
  unfold prepareBars at h
  simp only at h
  split at h; · cases h
  split at h; · cases h
  split at h; · cases h
  have hb : ∀ (f : BarFrame) a b, ((f.between a b).own = true → f.own = true) ∧
      (f.between a b).tz = f.tz := by
    intro f a b
    unfold BarFrame.between
    split
    · exact ⟨id, rfl⟩
    · simp only
      split
      · exact ⟨id, rfl⟩
      · exact ⟨(fun h => nomatch h), rfl⟩
  have he : ∀ f : BarFrame, (f.ensureRange.own = true → f.own = true) ∧ f.ensureRange.tz = f.tz := by
    intro f
    unfold BarFrame.ensureRange
    split
    · exact ⟨id, rfl⟩
    · exact ⟨(fun h => nomatch h), rfl⟩
  rcases hf : fetchData src execs s0 s1 with e | df
  · rw [hf] at h; cases h
  have key : (df.tz && df.own) = false := by
    unfold fetchData at hf
    simp only at hf
    split at hf
    · cases hf
    · rename_i x hx
      split at hf; · cases hf
      split at hf; · cases hf
      have hdf := (Except.ok.inj hf).symm
      subst hdf
      rw [(he _).2]
      cases src with
      | source q =>
        simp only at hx
        split at hx
        · cases hx
        · cases hx
          rw [Bool.and_eq_false_iff]
          right
          rw [Bool.eq_false_iff]
          intro hc
          have := (he _).1 hc
          rw [hsrc q rfl] at this
          cases this
      | frame f =>
        simp only at hx
        cases hx
        rcases hc with hc | hc
        · rw [if_neg (fun h => hc (hasSelector_iff.1 h))]
          rw [Bool.and_eq_false_iff]
          right
          rw [Bool.eq_false_iff]
          intro hc
          exact nomatch (he _).1 hc
        · have : (if hasSelector execs then f.between s0 s1
              else (f.between s0 s1).isin (staticSyms execs)).tz = false := by
            split
            · rw [(hb _ _ _).2]; exact hc f rfl
            · change (f.between s0 s1).tz = false
              rw [(hb _ _ _).2]; exact hc f rfl
          rw [this]; rfl
  rw [hf] at h
  simp only at h
  split at h
  · cases h
  · have hm := congrArg Prod.snd (Except.ok.inj h)
    unfold filterDates at hm
    simp only at hm
    rw [← hm]
    split
    · rw [Bool.and_eq_false_iff] at key ⊢
      rw [(he _).2, (hb _ _ _).2]
      refine key.imp id (fun k => ?_)
      rw [Bool.eq_false_iff] at k ⊢
      exact fun hc => k ((hb _ _ _).1 ((he _).1 hc))
    · exact key

/-- What C96 misses: with a selector, a frame whose dates carry a time zone and all
lie in the strategy's range is stripped of its time zone. -/
theorem caller_frame_stripped : ∃ (f : BarFrame), f.own = true ∧
    (prepareBars (.frame f) [none] 0 10 {}).map Prod.snd = .ok true := by
  refine ⟨{ rows := [{ symbol := "A", date := 5, val := fun _ => none }], tz := true, own := true },
    rfl, ?_⟩
  decide +kernel

/-! ## Examples -/

namespace Demo

/-- 2024-01-05 was a Friday: bars at 15:00 and 21:00 that day, and the days after. -/
def prepRows : List DRow :=
  [ { symbol := "A", date := 1704466800000000000, val := fun _ => some 1 },
    { symbol := "B", date := 1704466800000000000, val := fun _ => some 2 },
    { symbol := "A", date := 1704488400000000000, val := fun _ => some 3 },
    { symbol := "C", date := 1704466800000000000, val := fun _ => some 4 },
    { symbol := "A", date := 1704726000000000000, val := fun _ => some 5 } ]

def prepSrc : BarSource := .frame { rows := prepRows }

/-- Fridays from 22:00 to 16:00 the next morning. -/
def prepCall : RunDates :=
  { times := some (22 * 3600 * 1000000000, 16 * 3600 * 1000000000),
    days := some [.name "fri".toList, .day 5], start := some 1704300000000000000 }

end Demo

example : ∃ rows m, prepareBars Demo.prepSrc [some ["A"], some ["B"]] 1704200000000000000
    1704800000000000000 Demo.prepCall = .ok (rows, m) ∧ rows.map DRow.symbol = ["A", "B"] :=
  ⟨_, _, rfl, by decide +kernel⟩

example : ∀ rows m, prepareBars Demo.prepSrc [some ["A"], some ["B"]] 1704200000000000000
    1704800000000000000 Demo.prepCall = .ok (rows, m) → UniqueBars rows :=
  fun _ _ h => (run_bars (src := Demo.prepSrc) trivial h).2.2.2.2

example : OnWeekday 4 1704466800000000000 := (weekday_spec _ _).1 (by decide +kernel)

/-- Duplicates and unknown days are refused. -/
example : (prepareBars (.frame { rows := Demo.prepRows ++ Demo.prepRows }) [some ["A"]]
    1704200000000000000 1704800000000000000 {}).map (fun _ => ()) = .error .duplicateBars ∧
    (prepareBars Demo.prepSrc [some ["A"]] 1704200000000000000 1704800000000000000
      { days := some [.name "friday".toList] }).map (fun _ => ()) = .error .unknownDay := by
  decide +kernel

example : ∃ out, prepareBars Demo.prepSrc [none] 1704200000000000000 1704800000000000000
    Demo.prepCall = .ok out := ⟨_, rfl⟩

example := run_accepted (src := Demo.prepSrc) trivial [none] 1704200000000000000
  1704800000000000000 Demo.prepCall

example : ∀ rows m, prepareBars Demo.prepSrc [some ["A"]] 1704200000000000000
    1704800000000000000 Demo.prepCall = .ok (rows, m) → m = false :=
  fun _ _ h => caller_frame_kept_partial (fun _ e => by cases e) (.inl (by decide)) h

end PyBroker
