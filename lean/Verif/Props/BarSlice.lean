import Verif.Interval.Slice
import Mathlib.Data.List.Basic

/-!
# Compressed bars restricted to dates (C174)

`CompressedBars.slice_by_dates` keeps the bars of the dates it is given, whole and in their order.
-/

namespace PyBroker

namespace Spec

/-- All arrays of the bars have one cell per bar. -/
structure AlignedBars (b : CBars) : Prop where
  opn : b.opn.length = b.dates.length
  high : b.high.length = b.dates.length
  low : b.low.length = b.dates.length
  close : b.close.length = b.dates.length
  volume : b.volume.length = b.dates.length
  custom : ∀ c ∈ b.custom, c.2.length = b.dates.length
  vwap : ∀ v, b.vwap = some v → v.length = b.dates.length

/-- One compressed bar with everything that is recorded of it. -/
structure WholeBar where
  date : Option Date
  opn : Option Cell
  high : Option Cell
  low : Option Cell
  close : Option Cell
  volume : Option Cell
  custom : List (String × Option Cell)
  vwap : Option (Option Cell)
  deriving DecidableEq

/-- Bar number `i`: the cells number `i` of the arrays. -/
def wholeBar (b : CBars) (i : Nat) : WholeBar where
  date := b.dates[i]?
  opn := b.opn[i]?
  high := b.high[i]?
  low := b.low[i]?
  close := b.close[i]?
  volume := b.volume[i]?
  custom := b.custom.map (fun c => (c.1, c.2[i]?))
  vwap := b.vwap.map (fun v => v[i]?)

/-- The bars in their order. -/
def wholeBars (b : CBars) : List WholeBar := (List.range b.dates.length).map (wholeBar b)

/-- A compressed bar with the custom columns and VWAP that were asked for. -/
def barCells (customs : List String) (hasVwap : Bool) (x : IBar) : WholeBar where
  date := some x.date
  opn := some x.opn
  high := some x.high
  low := some x.low
  close := some x.close
  volume := some x.volume
  custom := customs.map (fun c => (c, some (x.custom c)))
  vwap := if hasVwap then some (some x.vwap) else none

/-- The bar is one of the given dates. -/
def dated (target : List Date) (x : WholeBar) : Bool := target.any (fun d => x.date = some d)

end Spec

open Spec

/-- Numbers of the bars that are kept. -/
def keptRows (dates target : List Date) : List Nat :=
  (List.range dates.length).filter (fun i => target.any (fun d => dates[i]? = some d))

theorem maskCells_getElem {α : Type} (target : List Date) : ∀ (dates : List Date) (values : List α),
    values.length = dates.length →
    (maskCells (isinMask dates target) values).map some =
      (keptRows dates target).map (fun i => values[i]?) := by
  intro dates
  induction dates with
  | nil =>
    intro values h
    rfl
  | cons d ds ih =>
    intro values h
    rcases values with _ | ⟨v, vs⟩
    · simp at h
    · have hk : keptRows (d :: ds) target =
          (if d ∈ target then [0] else []) ++ (keptRows ds target).map Nat.succ := by
        unfold keptRows
        rw [List.length_cons, List.range_succ_eq_map, List.filter_cons, List.filter_map]
        by_cases hd : d ∈ target
        · rw [if_pos hd, if_pos (by simpa using hd)]
          rfl
        · rw [if_neg hd, if_neg (by simpa using hd)]
          rfl
      have := ih vs (by simpa using h)
      rw [hk, List.map_append, List.map_map]
      unfold maskCells isinMask at this ⊢
      rw [List.map_cons, List.zip_cons_cons, List.filter_cons]
      by_cases hd : d ∈ target
      · rw [if_pos (by simpa using hd), if_pos hd, List.map_cons, List.map_cons, this]
        rfl
      · rw [if_neg (by simpa using hd), if_neg hd, this]
        rfl

theorem maskCells_length {α : Type} {target dates : List Date} {values : List α}
    (h : values.length = dates.length) :
    (maskCells (isinMask dates target) values).length = (keptRows dates target).length := by
  have := congrArg List.length (maskCells_getElem target dates values h)
  simpa using this

theorem maskCells_at {α : Type} {target dates : List Date} {values : List α}
    (h : values.length = dates.length) {j i : Nat} (hj : (keptRows dates target)[j]? = some i)
    (hi : i < dates.length) :
    (maskCells (isinMask dates target) values)[j]? = values[i]? := by
  have := congrArg (fun l => l[j]?) (maskCells_getElem target dates values h)
  simp only [List.getElem?_map, hj, Option.map_some] at this
  have hv : values[i]? = some (values[i]'(by omega)) := List.getElem?_eq_getElem _
  rw [hv] at this ⊢
  rcases hm : (maskCells (isinMask dates target) values)[j]? with _ | v
  · rw [hm] at this
    simp at this
  · rw [hm] at this
    simpa using this

theorem slice_aligned {b : CBars} (ha : AlignedBars b) (target : List Date) :
    AlignedBars (b.sliceByDates target) := by
  unfold CBars.sliceByDates
  split
  · exact ha
  · split
    · exact ⟨rfl, rfl, rfl, rfl, rfl, by simp, by simp⟩
    · have hl : ∀ {α : Type} (l : List α), l.length = b.dates.length →
          (maskCells (isinMask b.dates target) l).length =
            (maskCells (isinMask b.dates target) b.dates).length := by
        intro α l h
        rw [maskCells_length h, maskCells_length rfl]
      refine ⟨hl _ ha.opn, hl _ ha.high, hl _ ha.low, hl _ ha.close, hl _ ha.volume, ?_, ?_⟩
      · intro c hc
        obtain ⟨c', hc', rfl⟩ := List.mem_map.1 hc
        exact hl _ (ha.custom c' hc')
      · intro v hv
        obtain ⟨v', hv', rfl⟩ := Option.map_eq_some_iff.1 hv
        exact hl _ (ha.vwap v' hv')

/-- **C174**: restricting compressed bars to dates keeps exactly the bars of those dates, in their
order, each with all of its cells: prices, volume, VWAP and custom columns.  The arrays still have one
length. -/
theorem slice_keeps_bars {b : CBars} (ha : AlignedBars b) (target : List Date) :
    wholeBars (b.sliceByDates target) = (wholeBars b).filter (dated target) ∧
    AlignedBars (b.sliceByDates target) := by
  refine ⟨?_, slice_aligned ha target⟩
  have hf : (wholeBars b).filter (dated target) = (keptRows b.dates target).map (wholeBar b) := by
    unfold wholeBars keptRows
    rw [List.filter_map]
    rfl
  rw [hf]
  unfold CBars.sliceByDates
  split
  · rename_i h0
    have : b.dates = [] := List.length_eq_zero_iff.1 h0
    unfold wholeBars keptRows
    rw [this]
    rfl
  · split
    · rename_i h0
      have : target = [] := List.length_eq_zero_iff.1 h0
      subst this
      unfold keptRows
      simp [wholeBars]
    · unfold wholeBars
      simp only
      rw [maskCells_length rfl]
      apply List.ext_getElem (by simp)
      intro j h1 h2
      simp only [List.length_map] at h2
      simp only [List.getElem_map, List.getElem_range]
      have hj : (keptRows b.dates target)[j]? = some (keptRows b.dates target)[j] :=
        List.getElem?_eq_getElem h2
      have hi : (keptRows b.dates target)[j] < b.dates.length := by
        have hm : (keptRows b.dates target)[j] ∈ keptRows b.dates target := List.getElem_mem h2
        have := (List.mem_filter.1 hm).1
        exact List.mem_range.1 this
      have hat : ∀ {α : Type} (l : List α), l.length = b.dates.length →
          (maskCells (isinMask b.dates target) l)[j]? = l[(keptRows b.dates target)[j]]? :=
        fun l h => maskCells_at h hj hi
      unfold wholeBar
      simp only [WholeBar.mk.injEq]
      refine ⟨hat _ rfl, hat _ ha.opn, hat _ ha.high, hat _ ha.low, hat _ ha.close, hat _ ha.volume,
        ?_, ?_⟩
      · rw [List.map_map]
        exact List.map_congr_left (fun c hc => by
          simp only [Function.comp_apply]
          rw [hat _ (ha.custom c hc)])
      · rw [Option.map_map]
        exact Option.map_congr (fun v hv => hat v (ha.vwap v hv))

/-- The arrays of compressed bars have one length. -/
theorem compressed_aligned (customs : List String) (hasVwap : Bool) (bars : List IBar) :
    AlignedBars (CBars.ofBars customs hasVwap bars) := by
  refine ⟨by simp [CBars.ofBars], by simp [CBars.ofBars], by simp [CBars.ofBars],
    by simp [CBars.ofBars], by simp [CBars.ofBars], ?_, ?_⟩
  · intro c hc
    simp only [CBars.ofBars] at hc ⊢
    split at hc
    · exact (List.not_mem_nil hc).elim
    · obtain ⟨n, _, rfl⟩ := List.mem_map.1 hc
      simp
  · intro v hv
    simp only [CBars.ofBars] at hv ⊢
    split at hv
    · exact (nomatch hv)
    · obtain rfl := Option.some.inj hv
      simp

/-- **C174**: the arrays of compressed bars show the bars. -/
theorem compressed_bars (customs : List String) (hasVwap : Bool) (bars : List IBar) :
    wholeBars (CBars.ofBars customs hasVwap bars) = bars.map (barCells customs hasVwap) := by
  apply List.ext_getElem (by simp [wholeBars, CBars.ofBars])
  intro i h1 h2
  have hi : i < bars.length := by simpa using h2
  have hne : bars.isEmpty = false := by
    cases bars with
    | nil => simp at hi
    | cons _ _ => rfl
  simp only [wholeBars, List.getElem_map, List.getElem_range, wholeBar, CBars.ofBars, hne, barCells,
    List.getElem?_map, List.getElem?_eq_getElem hi, Option.map_some, Bool.false_eq_true, if_false,
    Bool.false_or, List.map_map, WholeBar.mk.injEq, true_and]
  refine ⟨?_, ?_⟩
  · exact List.map_congr_left (fun c _ => by simp [List.getElem?_eq_getElem hi])
  · cases hasVwap
    · rfl
    · simp [List.getElem?_eq_getElem hi]

/-- **C174**: restricting the compressed bars of a symbol to dates gives the compressed bars of those
dates, with all of their cells. -/
theorem slice_compressed (customs : List String) (hasVwap : Bool) (bars : List IBar)
    (target : List Date) :
    wholeBars ((CBars.ofBars customs hasVwap bars).sliceByDates target) =
      (bars.filter (fun x => target.contains x.date)).map (barCells customs hasVwap) := by
  rw [(slice_keeps_bars (compressed_aligned customs hasVwap bars) target).1, compressed_bars,
    List.filter_map]
  congr 1
  apply List.filter_congr
  intro x _
  simp only [Function.comp_apply, dated, barCells, List.contains_eq_any_beq]
  congr 1
  funext d
  simp [beq_eq_decide]

/-- **C174**: restricting twice keeps the bars of the dates that are in both lists. -/
theorem slice_twice {b : CBars} (ha : AlignedBars b) (s t : List Date) :
    wholeBars ((b.sliceByDates s).sliceByDates t) =
      (wholeBars b).filter (fun x => dated s x && dated t x) := by
  rw [(slice_keeps_bars (slice_aligned ha s) t).1, (slice_keeps_bars ha s).1, List.filter_filter]
  exact List.filter_congr (fun x _ => Bool.and_comm _ _)

/-- **C174** (partial): the columns are those of the bars, whatever is kept, if any date is given.
Without the condition it is false: `slice_by_no_date_loses_columns`. -/
theorem slice_columns_partial (b : CBars) {target : List Date} (ht : target ≠ []) :
    (b.sliceByDates target).custom.map Prod.fst = b.custom.map Prod.fst ∧
    ((b.sliceByDates target).vwap.isSome = b.vwap.isSome) := by
  unfold CBars.sliceByDates
  split
  · exact ⟨rfl, rfl⟩
  · rw [if_neg (by simpa using ht)]
    exact ⟨by simp only [List.map_map]; rfl, by simp⟩

namespace Demo

/-- Three bars with a VWAP and a custom column. -/
def threeBars : CBars where
  opn := [some 1, some 2, some 3]
  high := [some 5, some 6, some 7]
  low := [some 1, some 1, some 2]
  close := [some 4, none, some 6]
  volume := [some 10, some 20, some 30]
  dates := [100, 200, 300]
  custom := [("rsi", [none, some 50, some 60])]
  vwap := some [some 3, some 4, some 5]

end Demo

/-- The code falls short: restricted to no date, the bars lose their VWAP and custom columns, while
restricted to a date they do not have they keep them (without rows). -/
theorem slice_by_no_date_loses_columns :
    (Demo.threeBars.sliceByDates []).custom = [] ∧ (Demo.threeBars.sliceByDates []).vwap = none ∧
    (Demo.threeBars.sliceByDates [999]).custom = [("rsi", [])] ∧
    (Demo.threeBars.sliceByDates [999]).vwap = some [] := by
  decide +kernel

example : AlignedBars Demo.threeBars :=
  ⟨rfl, rfl, rfl, rfl, rfl, by simp [Demo.threeBars], by simp [Demo.threeBars]⟩

/-- The first and the last bar; the order and repetition of the dates do not matter. -/
example : Demo.threeBars.sliceByDates [300, 100, 300, 999] =
    { opn := [some 1, some 3], high := [some 5, some 7], low := [some 1, some 2],
      close := [some 4, some 6], volume := [some 10, some 30], dates := [100, 300],
      custom := [("rsi", [none, some 60])], vwap := some [some 3, some 5] } := by
  decide +kernel

example : (wholeBars ((Demo.threeBars.sliceByDates [100, 300]).sliceByDates [300, 200])).map
    WholeBar.date = [some 300] := by
  decide +kernel

end PyBroker
