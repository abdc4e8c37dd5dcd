import Verif.Interval.Public
import Verif.Props.IntervalData

/-!
# Compressing bars with `compress_bars` (C137, C138)
-/

namespace PyBroker

/-! ## Specification -/

namespace Spec

/-- `groups` cuts the bars into the groups of an interval: so many bars each, or the bars of one
calendar bin, or those of one bin of so many seconds. -/
inductive GroupsOf (mo ye : Date → Int) (bars : List IBar) : Iv → List (List IBar) → Prop where
  | count {n : Int} {groups : List (List IBar)} (h : CountGroups n.toNat bars groups) :
      GroupsOf mo ye bars (.num n) groups
  | calendar {c : Calendar} {groups : List (List IBar)}
      (h : BinGroups (calendarBin mo ye c) bars groups) :
      GroupsOf mo ye bars (.str (calendarName c).toList) groups
  | duration {s d : Str} {n : Nat} {groups : List (List IBar)} (hs : normalizeDuration s = some d)
      (hd : toSeconds d = some n) (h : BinGroups (durationBin n) bars groups) :
      GroupsOf mo ye bars (.str s) groups

/-- A product that is NaN when a factor is. -/
def cellMul (a b : Cell) : Cell := a.bind (fun x => b.map (fun y => x * y))

/-- The volume-weighted price of bars: weighted by volume, or the plain mean when the total volume is
not known to be positive. -/
def vwapOf (g : List IBar) : Cell :=
  match cellSum (g.map IBar.volume) with
  | some v =>
    if 0 < v then (cellSum (g.map (fun b => cellMul b.vwap b.volume))).map (fun w => w / v)
    else (cellSum (g.map IBar.vwap)).map (fun w => w / g.length)
  | none => (cellSum (g.map IBar.vwap)).map (fun w => w / g.length)

/-- `c` is the compressed bar of `g`, its volume-weighted price included. -/
def CompressesTo (g : List IBar) (c : IBar) : Prop := Compresses g c ∧ c.vwap = vwapOf g

/-- A bar with only some of its custom columns. -/
def onlyCols (customs : List String) (b : IBar) : IBar :=
  { b with custom := fun c => if c ∈ customs then b.custom c else none }

/-- The columns of a frame that are not among those of every frame. -/
def ownCols (cols : List String) : List String :=
  cols.filter (fun c =>
    decide (c ∉ ["date", "open", "high", "low", "close", "volume", "vwap", "symbol"]))

/-- The bars that are compressed, with volume 0 if there are no volumes. -/
def givenBars : BarsIn → List IBar
  | .data t => t.bars.map (fun b =>
      { onlyCols t.custom b with
        volume := if t.hasVolume then b.volume else some 0
        vwap := if t.hasVwap then b.vwap else none })
  | .frame cols rows => rows.map (rowBar cols (ownCols cols))

/-- Whether there are volume-weighted prices. -/
def givenVwap : BarsIn → Prop
  | .data t => t.hasVwap = true
  | .frame cols _ => "vwap" ∈ cols

/-- The custom columns. -/
def givenCols : BarsIn → List String
  | .data t => t.custom
  | .frame cols _ => ownCols cols

/-- A frame is of one symbol and its bars have the spacing of the timeframe. -/
def FrameFits (base : Nat) (inp : BarsIn) : Prop :=
  ∀ cols rows, inp = .frame cols rows →
    ("symbol" ∈ cols → ∀ r ∈ rows, ∀ r' ∈ rows, r.symbol = r'.symbol) ∧
    spacingOk base (rows.map DRow.date) = true

end Spec

open PyBroker.Spec

/-! ## Acceptance -/

theorem coarser_normalized {iv : Iv} {base : Nat} :
    Coarser base iv ↔ ∃ n, normalizeIv iv = some n ∧ validateIv n base = .ok () := by
  rw [← interval_accepted_iff]
  constructor
  · intro h
    rcases hn : normalizeIv iv with _ | n
    · unfold validateIv at h
      rw [hn] at h
      cases h
    · refine ⟨n, rfl, ?_⟩
      unfold validateIv at h ⊢
      rw [normalize_idempotent hn]
      rw [hn] at h
      exact h
  · rintro ⟨n, hn, h⟩
    unfold validateIv at h ⊢
    rw [hn]
    rw [normalize_idempotent hn] at h
    exact h

theorem compressBars_ok {mo ye : Date → Int} {inp : BarsIn} {iv : Iv} {tf : Str} {t : BarTable} :
    compressBars mo ye inp iv tf = .ok t ↔ ∃ base n, stripWs tf ≠ [] ∧ toSeconds tf = some base ∧
      0 < base ∧ normalizeIv iv = some n ∧ validateIv n base = .ok () ∧
      compressInput mo ye n base inp = .ok t := by
  unfold compressBars
  constructor
  · intro h
    split at h
    · cases h
    · rename_i base hb
      obtain ⟨h1, h2, h3⟩ := baseSeconds_ok.1 hb
      split at h
      · cases h
      · rename_i n hn
        split at h
        · cases h
        · rename_i u hu
          exact ⟨base, n, h1, h2, h3, hn, hu, h⟩
  · rintro ⟨base, n, h1, h2, h3, hn, hu, h⟩
    rw [baseSeconds_ok.2 ⟨h1, h2, h3⟩]
    simp only [hn, hu]
    exact h

theorem dedup_one {l : List Sym} : ¬ 1 < l.dedup.length ↔ ∀ a ∈ l, ∀ b ∈ l, a = b := by
  constructor
  · intro h a ha b hb
    have ha' := List.mem_dedup.2 ha
    have hb' := List.mem_dedup.2 hb
    rcases hl : l.dedup with _ | ⟨x, _ | ⟨y, r⟩⟩
    · rw [hl] at ha'
      cases ha'
    · rw [hl] at ha' hb'
      rw [List.mem_singleton.1 ha', List.mem_singleton.1 hb']
    · rw [hl] at h
      simp at h
  · intro h hlt
    have hnd := l.nodup_dedup
    rcases hl : l.dedup with _ | ⟨x, _ | ⟨y, r⟩⟩
    · rw [hl] at hlt
      simp at hlt
    · rw [hl] at hlt
      simp at hlt
    · have hx : x ∈ l := List.mem_dedup.1 (by rw [hl]; simp)
      have hy : y ∈ l := List.mem_dedup.1 (by rw [hl]; simp)
      rw [hl] at hnd
      have e := h x hx y hy
      subst e
      simp at hnd

theorem arrays_given (t : BarTable) : t.arrays = givenBars (.data t) := rfl

/-- What is compressed once it is accepted. -/
theorem compressInput_ok {mo ye : Date → Int} {n : Iv} {base : Nat} {inp : BarsIn} {t : BarTable} :
    compressInput mo ye n base inp = .ok t ↔ FrameFits base inp ∧
      t = { bars := (compressIv mo ye n (givenBars inp)).1
            hasVolume := true
            hasVwap := !(givenBars inp).isEmpty && (match inp with
              | .data t => t.hasVwap
              | .frame cols _ => decide ("vwap" ∈ cols))
            custom := if (givenBars inp).isEmpty then [] else givenCols inp } := by
  cases inp with
  | data b =>
    unfold compressInput
    rw [Except.ok.injEq]
    constructor
    · rintro rfl
      refine ⟨fun _ _ h => (nomatch h), ?_⟩
      rfl
    · rintro ⟨_, h⟩
      exact h.symm
  | frame cols rows =>
    simp only [compressInput]
    by_cases h0 : rows = []
    · rw [if_pos h0, Except.ok.injEq]
      subst h0
      constructor
      · rintro rfl
        refine ⟨?_, rfl⟩
        intro _ _ e
        cases e
        exact ⟨fun _ r hr => absurd hr (by simp), by simp [spacingOk, diffs]⟩
      · rintro ⟨_, h⟩
        exact h.symm
    · rw [if_neg h0]
      by_cases h1 : "symbol" ∈ cols ∧ 1 < (rows.map DRow.symbol).dedup.length
      · rw [if_pos h1]
        refine ⟨fun h => (nomatch h), fun h => absurd h1.2 (dedup_one.2 ?_)⟩
        intro a ha b hb
        obtain ⟨r, hr, rfl⟩ := List.mem_map.1 ha
        obtain ⟨r', hr', rfl⟩ := List.mem_map.1 hb
        exact (h.1 cols rows rfl).1 h1.1 r hr r' hr'
      · rw [if_neg h1]
        by_cases h2 : spacingOk base (rows.map DRow.date) = false
        · rw [if_pos h2]
          refine ⟨fun h => (nomatch h), fun h => ?_⟩
          have := (h.1 cols rows rfl).2
          rw [h2] at this
          cases this
        · rw [if_neg h2]
          simp only [Except.ok.injEq]
          constructor
          · rintro rfl
            refine ⟨?_, ?_⟩
            · intro _ _ e
              cases e
              refine ⟨fun hs r hr r' hr' => ?_, by simpa using h2⟩
              exact dedup_one.1 (fun h => h1 ⟨hs, h⟩) _ (List.mem_map_of_mem hr) _
                (List.mem_map_of_mem hr')
            · rfl
          · rintro ⟨_, h⟩
            exact h.symm

/-- **C137.**  Bars are compressed exactly when the timeframe is a positive number of seconds, the
interval is longer than it, and, for a frame, the rows are of one symbol and fit the timeframe. -/
theorem compress_bars_ok_iff {mo ye : Date → Int} {inp : BarsIn} {iv : Iv} {tf : Str} :
    (∃ t, compressBars mo ye inp iv tf = .ok t) ↔ ∃ base, stripWs tf ≠ [] ∧
      toSeconds tf = some base ∧ 0 < base ∧ Coarser base iv ∧ FrameFits base inp := by
  constructor
  · rintro ⟨t, h⟩
    obtain ⟨base, n, h1, h2, h3, h4, h5, h6⟩ := compressBars_ok.1 h
    exact ⟨base, h1, h2, h3, coarser_normalized.2 ⟨n, h4, h5⟩, (compressInput_ok.1 h6).1⟩
  · rintro ⟨base, h1, h2, h3, h4, h5⟩
    obtain ⟨n, h6, h7⟩ := coarser_normalized.1 h4
    exact ⟨_, compressBars_ok.2 ⟨base, n, h1, h2, h3, h6, h7, compressInput_ok.2 ⟨h5, rfl⟩⟩⟩

/-- **C137.**  `is_valid_interval` tells whether the interval is longer than a bar. -/
theorem is_valid_interval_iff (iv : Iv) (base : Nat) :
    isValidInterval iv base = true ↔ Coarser base iv := by
  rw [← interval_accepted_iff]
  unfold isValidInterval
  rcases validateIv iv base with e | u
  · exact ⟨fun h => (nomatch h), fun h => (nomatch h)⟩
  · exact ⟨fun _ => rfl, fun _ => rfl⟩

/-! ## The compressed bars -/

theorem cell2_mul (a b : Cell) : aggVwap.cell2' (· * ·) a b = cellMul a b := by
  cases a <;> cases b <;> rfl

theorem aggVwap_eq (g : List IBar) : aggVwap g = vwapOf g := by
  unfold aggVwap vwapOf
  simp only [fold_sum_map, cell2_mul]
  rfl

theorem aggOf_to {g : List IBar} (hg : g ≠ []) : ∃ c, aggOf g = some c ∧ CompressesTo g c := by
  obtain ⟨c, h1, h2⟩ := aggOf_some hg
  refine ⟨c, h1, h2, ?_⟩
  have hlen : 0 < g.length := List.length_pos_of_ne_nil hg
  have e0 : g[0]? = some (g[0]'hlen) := List.getElem?_eq_getElem hlen
  have e1 : g[g.length - 1]? = some (g[g.length - 1]'(by omega)) :=
    List.getElem?_eq_getElem (by omega)
  have e4 : segment g (0, g.length - 1) = g := by
    unfold segment
    simp only
    rw [List.drop_zero, List.take_of_length_le (by omega)]
  unfold aggOf aggBin at h1
  simp only [e0, e1, e4] at h1
  cases h1
  exact aggVwap_eq g

theorem agg_forall_to : ∀ {groups : List (List IBar)}, (∀ g ∈ groups, g ≠ []) →
    List.Forall₂ CompressesTo groups (groups.filterMap aggOf) := by
  intro groups
  induction groups with
  | nil => intro _; exact List.Forall₂.nil
  | cons g gs ih =>
    intro hne
    obtain ⟨c, hc, hcc⟩ := aggOf_to (hne g List.mem_cons_self)
    rw [List.filterMap_cons, hc]
    exact List.Forall₂.cons hcc (ih (fun x hx => hne x (List.mem_cons_of_mem _ hx)))

theorem GroupsOf_nonempty {mo ye : Date → Int} {bars : List IBar} {iv : Iv}
    {groups : List (List IBar)} (h : GroupsOf mo ye bars iv groups) : ∀ g ∈ groups, g ≠ [] := by
  cases h with
  | count h => exact h.nonempty
  | calendar h => exact h.nonempty
  | duration _ _ h => exact h.nonempty

theorem GroupsOf_flat {mo ye : Date → Int} {bars : List IBar} {iv : Iv}
    {groups : List (List IBar)} (h : GroupsOf mo ye bars iv groups) : groups.flatten = bars := by
  cases h with
  | count h => exact h.flat
  | calendar h => exact h.flat
  | duration _ _ h => exact h.flat

theorem binOf_calendar (mo ye : Date → Int) (c : Calendar) :
    binOf mo ye (calendarName c).toList = calendarBin mo ye c := by
  funext d
  unfold binOf
  rw [calendarOf_name]

theorem calendarOf_duration {s d : Str} (h : normalizeDuration s = some d) : calendarOf d = none := by
  obtain ⟨n, u, -, -, rfl⟩ := normalizeDuration_form h
  rcases h : calendarOf (showNat n ++ [u]) with _ | c
  · rfl
  · exact absurd (mem_calendarNames.2 ⟨c, calendarOf_some h⟩) canonical_not_calendar

theorem binOf_duration {mo ye : Date → Int} {s d : Str} {n : Nat} (h : normalizeDuration s = some d)
    (hn : toSeconds d = some n) : binOf mo ye d = durationBin n := by
  funext x
  unfold binOf
  rw [calendarOf_duration h]
  simp only [hn, Option.getD_some]

/-- The compressed bars are the aggregates of the groups of the interval. -/
theorem compressIv_groups {mo ye : Date → Int} {iv n : Iv} {base : Nat} (hn : normalizeIv iv = some n)
    (hv : validateIv n base = .ok ()) (bars : List IBar) :
    ∃ groups, GroupsOf mo ye bars iv groups ∧
      (compressIv mo ye n bars).1 = groups.filterMap aggOf := by
  have hc := coarser_normalized.2 ⟨n, hn, hv⟩
  cases hc with
  | bars h =>
    rename_i k
    have e : n = .num k := by
      unfold normalizeIv at hn
      simp only at hn
      rw [if_neg (by omega)] at hn
      exact (Option.some.inj hn).symm
    subst e
    have hk : 0 < k.toNat := by omega
    exact ⟨chunks k.toNat bars, .count (chunks_groups hk bars), compressEveryN_eq hk bars⟩
  | calendar c h =>
    have e : n = .str (calendarName c).toList := by
      unfold normalizeIv at hn
      simp only at hn
      rw [if_pos (mem_calendarNames.2 ⟨c, rfl⟩)] at hn
      exact (Option.some.inj hn).symm
    subst e
    refine ⟨runs (calendarBin mo ye c) bars, .calendar (runs_groups _ bars), ?_⟩
    unfold compressIv
    simp only [binOf_calendar, compressBins_eq]
  | duration hs hd h =>
    rename_i s d k
    have e : n = .str d := by
      unfold normalizeIv at hn
      simp only at hn
      rw [if_neg, hs] at hn
      · exact (Option.some.inj hn).symm
      · intro hm
        obtain ⟨c, rfl⟩ := mem_calendarNames.1 hm
        have hnone : normalizeDuration (calendarName c).toList = none := by
          cases c <;> decide +kernel
        rw [hnone] at hs
        cases hs
    subst e
    refine ⟨runs (durationBin k) bars, .duration hs hd (runs_groups _ bars), ?_⟩
    unfold compressIv
    simp only [binOf_duration hs hd, compressBins_eq]

/-- **C137.**  The bars that are returned are the compressions of the groups of the interval, in order:
each has the first open, the last close, date and custom values, the highest known high, the lowest
known low, the total volume and the volume-weighted price of its group.  Volumes are always there; the
volume-weighted prices and custom columns are those given, or none if there are no bars. -/
theorem compress_bars_groups {mo ye : Date → Int} {inp : BarsIn} {iv : Iv} {tf : Str} {t : BarTable}
    (h : compressBars mo ye inp iv tf = .ok t) :
    (∃ groups, GroupsOf mo ye (givenBars inp) iv groups ∧
      List.Forall₂ CompressesTo groups t.bars) ∧
    t.hasVolume = true ∧ (t.hasVwap = true ↔ givenBars inp ≠ [] ∧ givenVwap inp) ∧
    (givenBars inp ≠ [] → t.custom = givenCols inp) ∧ (givenBars inp = [] → t.custom = []) := by
  obtain ⟨base, n, _, _, _, hn, hv, hi⟩ := compressBars_ok.1 h
  obtain ⟨_, rfl⟩ := compressInput_ok.1 hi
  refine ⟨?_, rfl, ?_, ?_, ?_⟩
  · obtain ⟨groups, h1, h2⟩ := compressIv_groups (mo := mo) (ye := ye) hn hv (givenBars inp)
    refine ⟨groups, h1, ?_⟩
    simp only [h2]
    exact agg_forall_to (GroupsOf_nonempty h1)
  · cases inp <;> simp [givenVwap]
  · intro hne
    simp [hne]
  · intro he
    simp [he]

/-! ## The bars of a run -/

/-- Compression does not look at custom columns. -/
theorem aggBin_only (customs : List String) (bars : List IBar) (p : Nat × Nat) :
    aggBin (bars.map (onlyCols customs)) p = (aggBin bars p).map (onlyCols customs) := by
  unfold aggBin segment aggVwap
  rw [List.getElem?_map, List.getElem?_map]
  rcases bars[p.1]? with _ | s
  · rfl
  · rcases bars[p.2]? with _ | e
    · rfl
    · simp only [Option.map_some, ← List.map_drop, ← List.map_take, List.foldl_map, List.length_map]
      rfl

theorem filterMap_aggBin_only (customs : List String) (bars : List IBar) (l : List (Nat × Nat)) :
    l.filterMap (aggBin (bars.map (onlyCols customs))) =
      (l.filterMap (aggBin bars)).map (onlyCols customs) := by
  rw [List.map_filterMap]
  congr 1
  funext p
  exact aggBin_only customs bars p

theorem compressIv_only (mo ye : Date → Int) (iv : Iv) (customs : List String) (bars : List IBar) :
    (compressIv mo ye iv (bars.map (onlyCols customs))).1 =
      (compressIv mo ye iv bars).1.map (onlyCols customs) := by
  unfold compressIv
  cases iv with
  | num n =>
    simp only [compressEveryN, List.length_map]
    exact filterMap_aggBin_only _ _ _
  | str s =>
    simp only [compressBins, List.map_map]
    exact filterMap_aggBin_only _ _ _

/-- **C137.**  What a run shows of an interval is what `compress_bars` returns for the symbol's rows,
with the run's registered columns. -/
theorem compress_bars_run {mo ye : Date → Int} {cols customs : List String} {execs : List ExecIvs}
    {tf : Str} {rows : List DRow} {out : List ((Sym × Iv) × IvSymData)}
    (h : buildIntervalData mo ye cols customs execs tf rows = .ok out)
    {sym : Sym} {iv : Iv} {x : IvSymData} (hx : ((sym, iv), x) ∈ out)
    (hiv : normalizeIv iv = some iv) (hc : ∀ c ∈ customs, c ∈ cols → c ∈ ownCols cols) :
    ∃ t, compressBars mo ye (.frame cols (rows.filter (fun r => r.symbol = sym))) iv tf = .ok t ∧
      x.data.bars = t.bars.map (onlyCols customs) := by
  obtain ⟨h1, ⟨e, he, hie, hse⟩, rfl⟩ := ((build_entries h).2 sym iv x).1 hx
  rcases (interval_data_ok_iff mo ye cols customs execs tf rows).1 ⟨out, h⟩ with h0 | ⟨base, b1, b2, b3, hv, hsp⟩
  · rw [h0 e he] at hie
    cases hie
  · have hfit : FrameFits base (.frame cols (rows.filter (fun r => r.symbol = sym))) := by
      intro _ _ eq
      cases eq
      refine ⟨fun _ r hr r' hr' => ?_, hsp sym iv h1 ⟨e, he, hie, hse⟩⟩
      have := (List.mem_filter.1 hr).2
      have := (List.mem_filter.1 hr').2
      simp_all
    refine ⟨_, compressBars_ok.2 ⟨base, iv, b1, b2, b3, hiv,
      (interval_accepted_iff iv base).2 (hv e he iv hie), compressInput_ok.2 ⟨hfit, rfl⟩⟩, ?_⟩
    simp only
    rw [← compressIv_only]
    unfold symDataOf
    simp only
    congr 2
    unfold givenBars
    simp only [List.map_map]
    apply List.map_congr_left
    intro r _
    rw [barOf_rowBar]
    unfold rowBar onlyCols
    simp only [Function.comp]
    congr 1
    funext c
    by_cases hcc : c ∈ customs
    · by_cases hcl : c ∈ cols
      · simp [hcc, hcl, hc c hcc hcl]
      · simp [hcl]
    · simp [hcc]

/-! ## Cases -/

/-- Days of one symbol are compressed to pairs of days. -/
theorem dayRows_compressed : ∃ t, compressBars id id (.frame ["symbol", "date", "open", "high", "low",
    "close"] Demo.dayRows) (.num 2) "1d".toList = .ok t := by
  refine compress_bars_ok_iff.2 ⟨86400, strip_day, seconds_day, by decide, .bars (by decide), ?_⟩
  intro cols rows e
  cases e
  refine ⟨fun _ => ?_, by decide +kernel⟩
  have : ∀ r ∈ Demo.dayRows, r.symbol = "A" := by
    intro r hr
    simp only [Demo.dayRows, List.mem_cons, List.not_mem_nil, or_false] at hr
    rcases hr with rfl | rfl | rfl | rfl <;> rfl
  intro r hr r' hr'
  rw [this r hr, this r' hr']

example : ∃ t groups, compressBars id id (.frame ["symbol", "date", "open", "high", "low", "close"]
    Demo.dayRows) (.num 2) "1d".toList = .ok t ∧
    CountGroups 2 (Demo.dayRows.map (rowBar ["symbol", "date", "open", "high", "low", "close"] []))
      groups ∧ List.Forall₂ CompressesTo groups t.bars := by
  obtain ⟨t, h⟩ := dayRows_compressed
  obtain ⟨⟨groups, hg, hf⟩, _⟩ := compress_bars_groups h
  cases hg with
  | count hg => exact ⟨t, groups, h, hg, hf⟩

/-- Two symbols are refused. -/
example : ¬ ∃ t, compressBars id id (.frame ["symbol", "date"] [Demo.dayRow "A" 0 10, Demo.dayRow "B" 1 11])
    (.num 2) "1d".toList = .ok t := by
  rw [compress_bars_ok_iff]
  rintro ⟨base, _, _, _, _, h⟩
  have := (h _ _ rfl).1 (by simp) (Demo.dayRow "A" 0 10) (by simp) (Demo.dayRow "B" 1 11) (by simp)
  exact absurd this (by decide)

/-- The run of `Demo.dayExecs` shows what `compress_bars` returns. -/
example : ∃ out x t, buildIntervalData id id [] [] Demo.dayExecs "1d".toList Demo.dayRows = .ok out ∧
    (("A", .num 2), x) ∈ out ∧ compressBars id id (.frame [] (Demo.dayRows.filter
      (fun r => r.symbol = "A"))) (.num 2) "1d".toList = .ok t ∧
    x.data.bars = t.bars.map (onlyCols []) := by
  obtain ⟨out, h⟩ := dayRows_ok Demo.dayRows (by simp)
  obtain ⟨x, hx⟩ := ((interval_data_partial h).2.1 "A" (.num 2)).2 ⟨by decide +kernel,
    ⟨some ["A"], [.num 2]⟩, by simp [Demo.dayExecs], by simp, by simp⟩
  obtain ⟨t, h1, h2⟩ := compress_bars_run h hx (by decide +kernel) (by simp)
  exact ⟨out, x, t, h, hx, h1, h2⟩

example : isValidInterval (.str "weekly".toList) 86400 = true := by decide +kernel

/-- A bar of `BarData`. -/
def Demo.tbar (date : Int) (p : ℚ) (vol : Cell) : IBar := ⟨date, some p, some p, some p, some p, vol, some p,
  fun _ => none⟩

/-- What is not asked: the spacing of the bars of a `BarData` is not looked at, and neither is the order
of the rows of a frame.  Bars a second apart are compressed as days, and the same rows in another order
give other bars. -/
theorem spacing_and_order_unchecked :
    (∃ t, compressBars id id (.data ⟨[Demo.tbar 0 1 (some 1), Demo.tbar 1000000000 2 (some 1)], true,
      true, []⟩) (.num 2) "1d".toList = .ok t ∧ spacingOk 86400 [0, 1000000000] = false) ∧
    Demo.dayRows.Perm Demo.dayRows' ∧
    ∃ t t', compressBars id id (.frame [] Demo.dayRows) (.num 2) "1d".toList = .ok t ∧
      compressBars id id (.frame [] Demo.dayRows') (.num 2) "1d".toList = .ok t' ∧
      t.bars.map IBar.high = [some 11, some 13] ∧ t'.bars.map IBar.high = [some 13, some 12] := by
  have hv : validateIv (.num 2) 86400 = .ok () := (interval_accepted_iff _ _).2 (.bars (by decide))
  have hn : normalizeIv (.num 2) = some (.num 2) := by decide +kernel
  have hfit : ∀ rows : List DRow, spacingOk 86400 (rows.map DRow.date) = true →
      FrameFits 86400 (.frame [] rows) := by
    intro rows h _ _ e
    cases e
    exact ⟨fun h => absurd h (by simp), h⟩
  refine ⟨⟨_, compressBars_ok.2 ⟨86400, .num 2, strip_day, seconds_day, by decide, hn, hv,
    compressInput_ok.2 ⟨fun _ _ h => (nomatch h), rfl⟩⟩, by decide +kernel⟩, rows_out_of_order.1, _, _,
    compressBars_ok.2 ⟨86400, .num 2, strip_day, seconds_day, by decide, hn, hv,
      compressInput_ok.2 ⟨hfit _ (by decide +kernel), rfl⟩⟩,
    compressBars_ok.2 ⟨86400, .num 2, strip_day, seconds_day, by decide, hn, hv,
      compressInput_ok.2 ⟨hfit _ (by decide +kernel), rfl⟩⟩, ?_, ?_⟩ <;> decide +kernel

end PyBroker
