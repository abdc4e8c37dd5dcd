import Verif.Context.Reads
import Verif.Props.Drive
import Verif.Props.Train

/-!
# What functions read on a bar (C132)
-/

namespace PyBroker

/-! ## Specification -/

namespace Spec

/-- A window of a run: the rows and the columns of the data, the dates of the window, the symbols
with an execution, the warm-up (0: none), the registered columns and the indicators. -/
structure ReadWindow where
  rows : List DRow
  columns : List String
  window : List Date
  execs : List Sym
  warmup : Nat
  registered : List String
  ind : IndScope

namespace ReadWindow

variable (w : ReadWindow)

/-- The bars of the window: its dates on which some symbol has a row. -/
def bars : List Date :=
  ((w.rows.map DRow.date).filter (fun d => d ∈ w.window)).dedup.insertionSort (· ≤ ·)

/-- The rows of a symbol with an execution up to the date `d`. -/
def seen (s : Sym) (d : Date) : List DRow :=
  if s ∈ w.execs then barsTo w.rows w.window s d else []

/-- The function of `me` is called on the bar `d`: the symbol has an execution, a row on the date
and more rows than the warm-up. -/
def Called (me : Sym) (d : Date) : Prop :=
  me ∈ w.execs ∧ d ∈ w.window ∧ (∃ r ∈ w.rows, r.symbol = me ∧ r.date = d) ∧
    w.warmup < (w.seen me d).length

/-- The values of a column in some rows, if the data has it. -/
def values (rs : List DRow) (c : String) : Option (List Cell) :=
  if c ∈ w.columns then some (rs.map (fun r => r.val c)) else none

/-- What a read gives on the bar `d`, from the rows of the symbol up to `d` alone. -/
def answer (me : Sym) (d : Date) : CtxRead → Except ReadErr Got
  | .foreign s => .ok (.data
      { dates := (w.seen s d).map DRow.date
        cols := (w.registered.filter (fun c => c ≠ "date" ∧ (c ∈ w.columns ∨ c ∈ stdCols))).map
          (fun c => (c, w.values (w.seen s d) c)) })
  | .foreignCol s c => .ok (.column (w.values (w.seen s d) c))
  | .indicator name s =>
    if w.ind.bound name then .error .intervalBound
    else match w.ind.data name s with
      | none => .error .indicatorNotFound
      | some ser => .ok (.values ((ser.filter (fun p => p.1 ∈ w.window ∧ p.1 ≤ d)).map Prod.snd))
  | .col c => .ok (.column (w.values (w.seen me d) c))
  | .value c => .ok (.cell (if c ∈ w.columns then (w.seen me d).getLast?.map (fun r => r.val c)
      else none))
  | .bars => .ok (.count (w.seen me d).length)

/-- The rows are well-formed: one row per symbol and date; the window's dates mask the indicators;
an indicator's series has a value per row of its symbol; nothing is cached at the start. -/
structure Ok : Prop where
  unique : UniqueBars w.rows
  mask : ∀ d, d ∈ w.ind.filterDates ↔ d ∈ w.bars
  series : ∀ name s ser, w.ind.data name s = some ser →
    ser.map Prod.fst = (symRows w.rows s).map DRow.date
  fresh : w.ind.cache = []

/-- The environment of the window's functions. -/
def env : ReadEnv where
  store := (storeOf w.columns w.rows).slice w.window
  execs := w.execs
  warmup := w.warmup
  cols := w.registered

/-- A history of the bars up to `d`: any reads, by contexts whose function is called on the bar,
and any lookups. -/
def History (h : List (Date × List BarEvent)) (d : Date) : Prop :=
  d ∈ w.bars ∧ h.map Prod.fst = w.bars.filter (· ≤ d) ∧
    ∀ b ∈ h, ∀ me r, BarEvent.read me r ∈ b.2 → w.Called me b.1

end ReadWindow

/-- The symbol a read is about. -/
def _root_.PyBroker.CtxRead.about (me : Sym) : CtxRead → Sym
  | .foreign s => s
  | .foreignCol s _ => s
  | .indicator _ s => s
  | _ => me

/-- Holds no value of any bar. -/
def _root_.PyBroker.Got.NoData : Got → Prop
  | .data b => b.dates = [] ∧ ∀ c l, (c, some l) ∈ b.cols → l = []
  | .column l => ∀ v, l = some v → v = []
  | .values l => l = []
  | .cell c => c = none
  | .count n => n = 0

end Spec

open PyBroker.Spec

namespace Spec.ReadWindow

variable {w : ReadWindow}

/-- The window as a run. -/
def setup (w : ReadWindow) : RunSetup where
  cfg := { cash := 0 }
  cols := w.columns
  rows := w.rows
  execs := []
  act := fun _ _ _ _ _ => ([], fun _ => none)

theorem bars_eq (hu : UniqueBars w.rows) : w.bars = w.env.store.uniqueDates := by
  refine sorted_ext ?_ (RunSetup.uniqueDates_sorted _) ?_
  · have h1 : w.bars.Pairwise (· ≤ ·) := List.pairwise_insertionSort _ _
    have h2 : w.bars.Nodup := ((List.perm_insertionSort _ _).nodup_iff).2 (List.nodup_dedup _)
    exact (h1.and h2).imp (fun h => lt_of_le_of_ne h.1 h.2)
  · intro d
    have := RunSetup.mem_calendar (x := w.setup) hu (window := w.window) (d := d)
    refine Iff.trans ?_ this.symm
    unfold bars
    rw [(List.perm_insertionSort _ _).mem_iff, List.mem_dedup, List.mem_filter, List.mem_map]
    constructor
    · rintro ⟨⟨r, hr, rfl⟩, h⟩
      exact ⟨by simpa using h, r, hr, rfl⟩
    · rintro ⟨h, r, hr, rfl⟩
      exact ⟨⟨r, hr, rfl⟩, by simpa using h⟩

/-- The counter of a symbol once the bars of `D` have been entered. -/
def idx (w : ReadWindow) (D : List Date) (s : Sym) : Nat :=
  endIndexes (symExecDates w.env.store w.execs) w.env.store.uniqueDates D s

theorem idx_snoc (D : List Date) (d : Date) (s : Sym) :
    w.idx (D ++ [d]) s = w.idx D s + (w.env.active d).count s := by
  unfold idx endIndexes
  rw [List.foldl_append]
  rfl

/-! ## Counters and caches -/

/-- The counters and the indicator scope are as after the bars `D`. -/
structure Base (w : ReadWindow) (D : List Date) (st : ReadState) : Prop where
  ends : ∀ s, st.endOf s = w.idx D s
  coherent : st.ind.Coherent
  data : st.ind.data = w.ind.data
  bound : st.ind.bound = w.ind.bound
  mask : st.ind.filterDates = w.ind.filterDates

theorem touch_endOf (st : ReadState) (s x : Sym) : (st.touch s).endOf x = st.endOf x := by
  unfold ReadState.touch ReadState.endOf
  by_cases h : x = s
  · simp [h]
  · simp [h]

theorem Base.touch {D : List Date} {st : ReadState} (h : Base w D st) (s : Sym) :
    Base w D (st.touch s) :=
  ⟨fun x => by rw [touch_endOf]; exact h.ends x, h.coherent, h.data, h.bound, h.mask⟩

theorem Base.read {D : List Date} {st : ReadState} (h : Base w D st) (me : Sym) (r : CtxRead) :
    Base w D (w.env.read st me r).2 := by
  cases r with
  | foreign s =>
    simp only [ReadEnv.read]
    split
    · exact h
    · split
      · exact h
      · split
        · exact h
        · exact ⟨h.ends, h.coherent, h.data, h.bound, h.mask⟩
  | foreignCol s c =>
    simp only [ReadEnv.read]
    split
    · exact h
    · exact h
  | indicator name s =>
    simp only [ReadEnv.read]
    have hf := fetch_coherent h.coherent s name (some (st.endOf s : Int))
    exact ⟨(h.touch s).ends, hf.2.1, hf.2.2.1.trans h.data, hf.2.2.2.1.trans h.bound,
      hf.2.2.2.2.trans h.mask⟩
  | col c => exact h.touch me
  | value c => exact h.touch me
  | bars => exact h.touch me

theorem Base.during {D : List Date} {st : ReadState} (h : Base w D st) (e : BarEvent) :
    Base w D (w.env.during st e) := by
  cases e with
  | read me r => exact h.read me r
  | lookup s => exact h.touch s

theorem Base.fold {D : List Date} : ∀ (evs : List BarEvent) {st : ReadState}, Base w D st →
    Base w D (evs.foldl w.env.during st)
  | [], _, h => h
  | e :: evs, _, h => Base.fold evs (h.during e)

theorem enter_endOf (st : ReadState) (d : Date) (s : Sym) :
    (w.env.enter st d).endOf s = st.endOf s + (w.env.active d).count s := by
  unfold ReadEnv.enter
  simp only [ReadState.endOf]
  by_cases h : s ∈ w.env.active d
  · rw [if_pos h]; rfl
  · rw [if_neg h, List.count_eq_zero.2 h]; rfl

theorem Base.enter {D : List Date} {st : ReadState} (h : Base w D st) (d : Date) :
    Base w (D ++ [d]) (w.env.enter st d) :=
  ⟨fun s => by rw [enter_endOf, idx_snoc, h.ends], h.coherent, h.data, h.bound, h.mask⟩

theorem base_start (hw : w.Ok) : Base w [] (ReadState.start w.ind) := by
  refine ⟨fun s => rfl, ?_, rfl, rfl, rfl⟩
  intro name sym l hl
  have : w.ind.cache = [] := hw.fresh
  simp only [ReadState.start] at hl
  rw [this] at hl
  cases hl

theorem base_play (hw : w.Ok) (h : List (Date × List BarEvent)) :
    Base w (h.map Prod.fst) (w.env.play (ReadState.start w.ind) h) := by
  induction h using List.reverseRecOn with
  | nil => exact base_start hw
  | append_singleton h b ih =>
    unfold ReadEnv.play at ih ⊢
    rw [List.foldl_append, List.map_append]
    exact Base.fold b.2 (ih.enter b.1)

/-! ## The kept copies -/

/-- What a context called on the bar `d` keeps is what it would read again. -/
def Kept (w : ReadWindow) (D : List Date) (d : Date) (st : ReadState) : Prop :=
  ∀ me, w.Called me d → ∀ s b, cacheGet (st.memo me) s = some b →
    w.env.store.barData w.registered s (w.idx D s) = .ok b

theorem Kept.read {D : List Date} {d : Date} {st : ReadState} (h : Base w D st)
    (hk : Kept w D d st) (me : Sym) (r : CtxRead) : Kept w D d (w.env.read st me r).2 := by
  cases r with
  | foreign s =>
    simp only [ReadEnv.read]
    split
    · exact hk
    · split
      · exact hk
      · rename_i n hn
        split
        · exact hk
        · rename_i b hb
          intro me' hc s' b' hg
          simp only at hg
          split at hg
          · rename_i e
            subst e
            simp only [cacheGet] at hg
            split at hg
            · rename_i e
              subst e
              have : w.idx D s = n := by rw [← h.ends s, ReadState.endOf, hn]; rfl
              rw [this, ← Option.some.inj hg]
              exact hb
            · exact hk _ hc s' b' hg
          · exact hk _ hc s' b' hg
  | foreignCol s c =>
    simp only [ReadEnv.read]
    split <;> exact hk
  | indicator name s => exact hk
  | col c => exact hk
  | value c => exact hk
  | bars => exact hk

theorem kept_fold {D : List Date} {d : Date} : ∀ (evs : List BarEvent) {st : ReadState},
    Base w D st → Kept w D d st → Kept w D d (evs.foldl w.env.during st)
  | [], _, _, hk => hk
  | e :: evs, st, h, hk => by
    refine kept_fold evs (h.during e) ?_
    cases e with
    | read me r => exact Kept.read h hk me r
    | lookup s => exact hk

/-! ## Counters and rows -/

theorem idx_eq (hw : w.Ok) (d : Date) (s : Sym) :
    w.idx (w.bars.filter (· ≤ d)) s = (w.seen s d).length := by
  have h := RunSetup.idxOn_eq (x := w.setup) hw.unique w.window w.execs d s
  rw [bars_eq hw.unique]
  refine Eq.trans h ?_
  unfold seen
  split
  · rw [barsTo_eq hw.unique]
    unfold RunSetup.barsOn
    rw [List.countP_map, List.countP_eq_length_filter, List.filter_filter]
    congr 1
    apply List.filter_congr
    intro r _
    simp [and_comm]
  · rfl

theorem called_active (hw : w.Ok) {me : Sym} {d : Date} (hd : d ∈ w.bars) (h : w.Called me d) :
    me ∈ w.env.active d := by
  refine (RunSetup.mem_active (x := w.setup) hw.unique ?_).2 ⟨h.1, ?_⟩
  · rw [bars_eq hw.unique] at hd
    exact hd
  · exact RunSetup.mem_barsOn.2 ⟨h.2.1, h.2.2.1⟩

theorem history_last (hw : w.Ok) {h : List (Date × List BarEvent)} {d : Date}
    (hh : w.History h d) : ∃ pre evs, h = pre ++ [(d, evs)] := by
  rcases List.eq_nil_or_concat h with rfl | ⟨pre, ⟨d', evs⟩, rfl⟩
  · have := hh.2.1
    have hm : d ∈ w.bars.filter (· ≤ d) := List.mem_filter.2 ⟨hh.1, by simp⟩
    rw [← this] at hm
    cases hm
  · refine ⟨pre, evs, ?_⟩
    have he := hh.2.1
    rw [List.concat_eq_append, List.map_append] at he
    have hs : (w.bars.filter (· ≤ d)).Pairwise (· < ·) := by
      rw [bars_eq hw.unique]
      exact (RunSetup.uniqueDates_sorted _).filter _
    have hm : d ∈ w.bars.filter (· ≤ d) := List.mem_filter.2 ⟨hh.1, by simp⟩
    have hm' : d' ∈ w.bars.filter (· ≤ d) := by rw [← he]; simp
    have hle : d' ≤ d := by simpa using (List.mem_filter.1 hm').2
    rw [← he] at hm hs
    rcases List.mem_append.1 hm with h1 | h1
    · have := (List.pairwise_append.1 hs).2.2 d h1 d' (by simp)
      exact absurd hle (not_le.2 this)
    · have : d = d' := by simpa using h1
      rw [List.concat_eq_append, this]

/-- The state in the middle of bar `d`. -/
theorem state_on (hw : w.Ok) {h : List (Date × List BarEvent)} {d : Date}
    (hh : w.History h d) :
    Base w (w.bars.filter (· ≤ d)) (w.env.play (ReadState.start w.ind) h) ∧
    Kept w (w.bars.filter (· ≤ d)) d (w.env.play (ReadState.start w.ind) h) := by
  refine ⟨hh.2.1 ▸ base_play hw h, ?_⟩
  obtain ⟨pre, evs, rfl⟩ := history_last hw hh
  have hb := base_play hw pre
  have he := hb.enter d
  have hD : pre.map Prod.fst ++ [d] = w.bars.filter (· ≤ d) := by
    rw [← hh.2.1, List.map_append]; rfl
  rw [hD] at he
  unfold ReadEnv.play at hb he ⊢
  rw [List.foldl_append]
  refine kept_fold evs he ?_
  intro me hc s b hg
  exfalso
  have hact := called_active hw hh.1 hc
  have hend := he.ends me
  rw [idx_eq hw] at hend
  have hlt := hc.2.2.2
  unfold ReadEnv.enter at hg
  simp only at hg
  rw [if_pos] at hg
  · cases hg
  · refine ⟨hact, ?_⟩
    unfold ReadEnv.enter at hend
    simp only [ReadState.endOf] at hend
    rintro ⟨_, h2⟩
    simp only [ReadState.endOf] at h2
    rw [hend] at h2
    exact absurd h2 (not_le.2 hlt)

/-! ## Answers -/

theorem take_seen (hw : w.Ok) (s : Sym) (d : Date) :
    ((symRows w.rows s).filter (fun r => r.date ∈ w.window)).take (w.seen s d).length =
      w.seen s d := by
  unfold seen
  split
  · have hp : barsTo w.rows w.window s d <+:
        (symRows w.rows s).filter (fun r => r.date ∈ w.window) := by
      have := take_count_filter
        ((symRows_sorted hw.unique s).filter (fun r => decide (r.date ∈ w.window))) d
      have e : barsTo w.rows w.window s d =
          ((symRows w.rows s).filter (fun r => r.date ∈ w.window)).filter
            (fun r => r.date ≤ d) := by
        rw [barsTo_eq hw.unique, List.filter_filter]
        apply List.filter_congr
        intro r _
        simp [and_comm]
      rw [e, ← this]
      exact List.take_prefix _ _
    exact (List.prefix_iff_eq_take.1 hp).symm
  · rfl

theorem barData_seen (hw : w.Ok) (me s : Sym) (d : Date) :
    (w.env.store.barData w.registered s (w.seen s d).length).map .data =
        w.answer me d (.foreign s) ∨
      (w.env.store.barData w.registered s (w.seen s d).length = .error .symbolNotFound ∧
        w.seen s d = []) := by
  have ht := take_seen hw s d
  rcases slice_arrays hw.unique w.columns w.window s with ⟨h1, h2⟩ | ⟨_, a, ha, hda, hca⟩
  · right
    rw [h1] at ht
    refine ⟨?_, by rw [← ht]; simp⟩
    unfold Store.barData
    rw [show w.env.store.arrays s = none from h2]
  · left
    unfold Store.barData
    rw [show w.env.store.arrays s = some a from ha]
    simp only [answer, Except.map]
    rw [hda, ← List.map_take, ht]
    congr 3
    induction w.registered with
    | nil => rfl
    | cons c cs ih =>
      by_cases hc : c = "date"
      · simpa [hc] using ih
      · rw [List.filter_cons_of_pos (by simpa using hc), List.filterMap_cons, hca]
        by_cases hm : c ∈ w.columns
        · rw [if_pos hm, List.filter_cons_of_pos (by simp [hc, hm])]
          simp only [List.map_cons]
          rw [ih, ← List.map_take, ht]
          simp [values, hm]
        · rw [if_neg hm]
          by_cases hs : c ∈ stdCols
          · rw [List.filter_cons_of_pos (by simp [hc, hs])]
            simp only [List.map_cons, if_pos hs]
            rw [ih]
            simp [values, hm]
          · rw [List.filter_cons_of_neg (by simp [hm, hs])]
            simp only [if_neg hs]
            exact ih

theorem fetch_seen (hw : w.Ok) (s : Sym) (d : Date) (c : String) :
    w.env.store.fetch s c (some ((w.seen s d).length : Int)) = .ok (w.values (w.seen s d) c) ∨
      (w.env.store.fetch s c (some ((w.seen s d).length : Int)) = .error .symbolNotFound ∧
        w.seen s d = []) := by
  have ht := take_seen hw s d
  rcases slice_arrays hw.unique w.columns w.window s with ⟨h1, h2⟩ | ⟨_, a, ha, hda, hca⟩
  · right
    rw [h1] at ht
    refine ⟨?_, by rw [← ht]; simp⟩
    unfold Store.fetch
    rw [show w.env.store.arrays s = none from h2]
  · left
    unfold Store.fetch
    rw [show w.env.store.arrays s = some a from ha]
    simp only
    rw [hca]
    by_cases hm : c ∈ w.columns
    · rw [if_pos hm]
      simp only [sliceTo]
      rw [if_neg (by omega), Int.toNat_natCast, ← List.map_take, ht]
      simp [values, hm]
    · rw [if_neg hm]
      simp [values, hm]

theorem value_seen (hw : w.Ok) (s : Sym) (d : Date) (c : String) (hne : w.seen s d ≠ []) :
    w.env.store.fetchValue s c ((w.seen s d).length : Int) =
      .ok (if c ∈ w.columns then (w.seen s d).getLast?.map (fun r => r.val c) else none) := by
  have hf := (fetch_seen hw s d c).resolve_right (fun h => hne h.2)
  have hv := column_value w.env.store s c ((w.seen s d).length : Int)
  by_cases hm : c ∈ w.columns
  · rw [if_pos hm]
    have e : (w.seen s d).getLast? = some ((w.seen s d).getLast hne) :=
      List.getLast?_eq_some_getLast hne
    rw [e]
    refine (hv.1 _).2 ⟨?_, _, hf.trans (by rw [values, if_pos hm]), ?_⟩
    · have := List.length_pos_of_ne_nil hne
      omega
    · rw [List.getLast?_map, e]
      rfl
  · rw [if_neg hm]
    exact hv.2.1.2 (hf.trans (by rw [values, if_neg hm]))

theorem take_series : ∀ {l : Series}, l.Pairwise (fun a b => a.1 < b.1) → ∀ t : Date,
    l.take ((l.map Prod.fst).countP (· ≤ t)) = l.filter (fun p => p.1 ≤ t) := by
  intro l
  induction l with
  | nil => intro _ t; rfl
  | cons r l ih =>
    intro hp t
    obtain ⟨h1, h2⟩ := List.pairwise_cons.1 hp
    rw [List.map_cons]
    by_cases h : r.1 ≤ t
    · rw [List.countP_cons_of_pos (by simpa using h), List.take_succ_cons, ih h2 t,
        List.filter_cons_of_pos (by simpa using h)]
    · have hall : ∀ y ∈ l, ¬ y.1 ≤ t := fun y hy hc => h (le_trans (le_of_lt (h1 y hy)) hc)
      rw [List.countP_cons_of_neg (by simpa using h), List.filter_cons_of_neg (by simpa using h),
        List.countP_eq_zero.2, List.take_zero, List.filter_eq_nil_iff.2]
      · intro y hy
        simpa using hall y hy
      · intro x hx
        obtain ⟨y, hy, rfl⟩ := List.mem_map.1 hx
        simpa using hall y hy

theorem served_seen (hw : w.Ok) {s : Sym} {d : Date} {name : String} {ser : Series}
    (hd : w.ind.data name s = some ser) (hb : w.ind.bound name = false) (hs : s ∈ w.execs) :
    (w.ind.served name ser).take (w.seen s d).length =
      (ser.filter (fun p => p.1 ∈ w.window ∧ p.1 ≤ d)).map Prod.snd := by
  have hser := hw.series name s ser hd
  have hmask : ser.filter (fun p => p.1 ∈ w.ind.filterDates) =
      ser.filter (fun p => p.1 ∈ w.window) := by
    apply List.filter_congr
    intro p hp
    have hp1 : p.1 ∈ (symRows w.rows s).map DRow.date := by
      rw [← hser]; exact List.mem_map.2 ⟨p, hp, rfl⟩
    obtain ⟨r, hr, hr1⟩ := List.mem_map.1 hp1
    have hrr : r ∈ w.rows := (List.mem_filter.1 ((symRows_perm w.rows s).mem_iff.1 hr)).1
    have : p.1 ∈ w.ind.filterDates ↔ p.1 ∈ w.window := by
      rw [hw.mask, bars, (List.perm_insertionSort _ _).mem_iff, List.mem_dedup, List.mem_filter]
      constructor
      · rintro ⟨_, h⟩
        simpa using h
      · intro h
        exact ⟨List.mem_map.2 ⟨r, hrr, hr1⟩, by simpa using h⟩
    simp only [this]
  have hsort : (ser.filter (fun p => p.1 ∈ w.window)).Pairwise (fun a b => a.1 < b.1) := by
    refine List.Pairwise.filter _ ?_
    have := List.pairwise_map.2 (symRows_sorted hw.unique s)
    rw [← hser] at this
    exact List.pairwise_map.1 this
  have hlen : (w.seen s d).length =
      ((ser.filter (fun p => p.1 ∈ w.window)).map Prod.fst).countP (· ≤ d) := by
    have e1 : (ser.filter (fun p => p.1 ∈ w.window)).map Prod.fst =
        ((symRows w.rows s).map DRow.date).filter (fun x => x ∈ w.window) := by
      rw [← hser, List.filter_map]
      rfl
    rw [e1, seen, if_pos hs, barsTo_eq hw.unique, List.countP_eq_length_filter,
      List.filter_filter, List.filter_map, List.length_map]
    congr 1
    apply List.filter_congr
    intro r _
    simp [and_comm]
  unfold IndScope.served
  rw [if_neg (by rw [hb]; simp), hmask, ← List.map_take, hlen, take_series hsort,
    List.filter_filter]
  congr 1
  apply List.filter_congr
  intro p _
  simp [and_comm]

theorem pos_ends {D : List Date} {st : ReadState} (h : Base w D st) {s : Sym}
    (hp : 0 < w.idx D s) : st.ends s = some (w.idx D s) := by
  have := h.ends s
  unfold ReadState.endOf at this
  cases he : st.ends s with
  | none => rw [he] at this; simp at this; omega
  | some n => rw [he] at this; simp at this; rw [this]

end Spec.ReadWindow

open Spec.ReadWindow

/-- **C132.**  On the bar `d`, after any reads and lookups on it and on the bars before it, a read
through a context whose function is called on the bar, about a symbol that has traded in the window,
gives what the rows of that symbol up to `d` say: all registered columns, one column, the indicator's
values on the dates of the window up to `d`, the last value, the number of bars.  Missing: symbols
that have not traded (`context_read_no_data`, `foreign_depends_on_reads`) and contexts read on bars
on which their function is not called (`kept_context_is_stale`). -/
theorem context_read_partial {w : ReadWindow} (hw : w.Ok) {h : List (Date × List BarEvent)}
    {d : Date} (hh : w.History h d) {me : Sym} (hc : w.Called me d) (r : CtxRead)
    (hs : w.seen (r.about me) d ≠ []) :
    (w.env.read (w.env.play (ReadState.start w.ind) h) me r).1 = w.answer me d r := by
  obtain ⟨hb, hk⟩ := state_on hw hh
  generalize w.env.play (ReadState.start w.ind) h = st at hb hk ⊢
  have hidx : ∀ s, w.idx (w.bars.filter (· ≤ d)) s = (w.seen s d).length := idx_eq hw d
  have hends : ∀ s, w.seen s d ≠ [] → st.ends s = some (w.seen s d).length := by
    intro s hs
    rw [← hidx]
    exact pos_ends hb (by rw [hidx]; exact List.length_pos_of_ne_nil hs)
  have hendOf : ∀ s, st.endOf s = (w.seen s d).length := fun s => by rw [hb.ends, hidx]
  cases r with
  | foreign s =>
    have hbd := (barData_seen hw me s d).resolve_right (fun h => hs h.2)
    simp only [ReadEnv.read]
    split
    · rename_i b hg
      have := hk me hc s b hg
      rw [hidx] at this
      rw [this] at hbd
      exact hbd
    · rw [hends s hs]
      simp only
      change (match w.env.store.barData w.registered s (w.seen s d).length with
        | .error e => ((Except.error e : Except ReadErr Got), st)
        | .ok b => (.ok (.data b), _)).1 = _
      cases hx : w.env.store.barData w.registered s (w.seen s d).length with
      | error e => rw [hx] at hbd; exact hbd
      | ok b => rw [hx] at hbd; exact hbd
  | foreignCol s c =>
    simp only [ReadEnv.read]
    rw [hends s hs]
    simp only
    rw [(fetch_seen hw s d c).resolve_right (fun h => hs h.2)]
    rfl
  | indicator name s =>
    simp only [ReadEnv.read]
    rw [(fetch_coherent hb.coherent s name _).1, hendOf]
    unfold indRead
    rw [hb.bound, hb.data]
    simp only [ReadWindow.answer]
    by_cases hbd : w.ind.bound name = true
    · rw [if_pos ⟨hbd, rfl⟩, if_pos hbd]
      rfl
    · rw [if_neg (fun h => hbd h.1), if_neg hbd]
      cases hd : w.ind.data name s with
      | none => rfl
      | some ser =>
        simp only [Except.map, sliceTo]
        rw [if_neg (by omega), Int.toNat_natCast]
        have hse : s ∈ w.execs := by
          by_contra hn
          exact hs (by simp [CtxRead.about, seen, hn])
        have e := served_seen hw (d := d) hd (by simpa using hbd) hse
        have e2 : st.ind.served name ser = w.ind.served name ser := by
          unfold IndScope.served
          rw [hb.bound, hb.mask]
        rw [e2, e]
  | col c =>
    simp only [ReadEnv.read]
    rw [hendOf, (fetch_seen hw me d c).resolve_right (fun h => hs h.2)]
    rfl
  | value c =>
    simp only [ReadEnv.read]
    rw [hendOf, value_seen hw me d c hs]
    rfl
  | bars =>
    simp only [ReadEnv.read]
    rw [hendOf]
    rfl

/-- **C132.**  A read about a symbol without an execution, or one that has not traded in the window
yet, raises or holds no value. -/
theorem context_read_no_data {w : ReadWindow} (hw : w.Ok) {h : List (Date × List BarEvent)}
    {d : Date} (hh : w.History h d) {me : Sym} (hc : w.Called me d) (r : CtxRead)
    (hs : w.seen (r.about me) d = []) {g : Got}
    (hg : (w.env.read (w.env.play (ReadState.start w.ind) h) me r).1 = .ok g) : g.NoData := by
  obtain ⟨hb, hk⟩ := state_on hw hh
  generalize w.env.play (ReadState.start w.ind) h = st at hb hk hg
  have hidx : ∀ s, w.idx (w.bars.filter (· ≤ d)) s = (w.seen s d).length := idx_eq hw d
  have hendOf : ∀ s, st.endOf s = (w.seen s d).length := fun s => by rw [hb.ends, hidx]
  have hme : w.seen me d ≠ [] := by
    intro h
    have := hc.2.2.2
    rw [h] at this
    simp at this
  have hdata : ∀ s b, w.seen s d = [] →
      w.env.store.barData w.registered s (w.seen s d).length = .ok b →
      Got.NoData (.data b) := by
    intro s b hs hx
    rcases barData_seen hw me s d with h | ⟨h, _⟩
    · rw [hx] at h
      simp only [Except.map, ReadWindow.answer] at h
      have h := Got.data.inj (Except.ok.inj h)
      subst h
      rw [hs]
      refine ⟨rfl, ?_⟩
      intro c l hl
      obtain ⟨c', _, e⟩ := List.mem_map.1 hl
      have e := (Prod.mk.inj e).2
      unfold values at e
      split at e
      · exact (Option.some.inj e).symm
      · cases e
    · rw [hx] at h; cases h
  have hcol : ∀ s c l, w.seen s d = [] →
      w.env.store.fetch s c (some ((w.seen s d).length : Int)) = .ok l → Got.NoData (.column l) := by
    intro s c l hs hx v hv
    rcases fetch_seen hw s d c with h | ⟨h, _⟩
    · rw [hx] at h
      have h := Except.ok.inj h
      rw [hv] at h
      unfold values at h
      rw [hs] at h
      split at h
      · exact Option.some.inj h
      · cases h
    · rw [hx] at h; cases h
  cases r with
  | foreign s =>
    simp only [ReadEnv.read] at hg
    split at hg
    · rename_i b hgt
      have := hk me hc s b hgt
      rw [hidx] at this
      rw [← Except.ok.inj hg]
      exact hdata s b hs this
    · split at hg
      · cases hg
      · rename_i n hn
        have hn' : n = (w.seen s d).length := by
          rw [← hendOf, ReadState.endOf, hn]; rfl
        subst hn'
        split at hg
        · cases hg
        · rename_i b hx
          rw [← Except.ok.inj hg]
          exact hdata s b hs hx
  | foreignCol s c =>
    simp only [ReadEnv.read] at hg
    split at hg
    · cases hg
    · rename_i n hn
      have hn' : n = (w.seen s d).length := by
        rw [← hendOf, ReadState.endOf, hn]; rfl
      subst hn'
      simp only at hg
      cases hx : w.env.store.fetch s c (some ((w.seen s d).length : Int)) with
      | error e => rw [hx] at hg; cases hg
      | ok l =>
        rw [hx] at hg
        rw [← Except.ok.inj hg]
        exact hcol s c l hs hx
  | indicator name s =>
    simp only [ReadEnv.read] at hg
    rw [(fetch_coherent hb.coherent s name _).1, hendOf,
      show w.seen s d = [] from hs] at hg
    unfold indRead at hg
    split at hg
    · cases hg
    · split at hg
      · cases hg
      · simp only [Except.map, sliceTo] at hg
        rw [← Except.ok.inj hg]
        rfl
  | col c => exact absurd hs hme
  | value c => exact absurd hs hme
  | bars => exact absurd hs hme

/-! ## A case, and where the reads fall short -/

namespace Demo

/-- Rows of `A` on days 1, 2, 4 and of `B` on days 2, 3, 4. -/
def readRows : List DRow :=
  [⟨"A", 1, fun _ => some 10⟩, ⟨"A", 2, fun _ => some 11⟩, ⟨"A", 4, fun _ => some 12⟩,
   ⟨"B", 2, fun _ => some 20⟩, ⟨"B", 3, fun _ => some 21⟩, ⟨"B", 4, fun _ => some 22⟩]

/-- Both are traded; one indicator. -/
def readWindow : ReadWindow where
  rows := readRows
  columns := ["close"]
  window := [1, 2, 3, 4]
  execs := ["A", "B"]
  warmup := 0
  registered := ["date", "close", "volume", "mine"]
  ind :=
    { data := fun name s =>
        if name = "i" then
          some (if s = "A" then [(1, some 1), (2, some 2), (4, some 4)]
            else if s = "B" then [(2, some 2), (3, some 3), (4, some 4)] else [])
        else none
      bound := fun _ => false
      filterDates := [1, 2, 3, 4] }

theorem readWindow_ok : readWindow.Ok where
  unique := by
    unfold UniqueBars readWindow readRows
    simp
  mask := by
    have : readWindow.bars = [1, 2, 3, 4] := by decide +kernel
    intro d
    rw [this]
    rfl
  series := by
    intro name s ser h
    unfold readWindow at h
    simp only at h
    split at h
    · have h := Option.some.inj h
      subst h
      by_cases hA : s = "A"
      · subst hA
        decide +kernel
      · by_cases hB : s = "B"
        · subst hB
          decide +kernel
        · simp [hA, hB, symRows, readWindow, readRows, Ne.symm hA, Ne.symm hB]
    · cases h
  fresh := rfl

/-- On day 2 `A` reads `B`'s data, an indicator and itself; on day 3 `B` reads; on day 4 `A` again. -/
def readHistory : List (Date × List BarEvent) :=
  [(1, [.read "A" (.indicator "i" "B")]),
   (2, [.read "A" (.foreign "B"), .read "A" .bars, .lookup "C"]),
   (3, [.read "B" (.foreign "A"), .read "B" (.foreign "A")]),
   (4, [.read "B" (.col "close"), .read "A" (.foreign "B")])]

theorem called_iff (me : Sym) (d : Date) : readWindow.Called me d ↔
    me ∈ ["A", "B"] ∧ d ∈ ([1, 2, 3, 4] : List Date) ∧
      (readRows.any (fun r => r.symbol = me ∧ r.date = d)) ∧ 0 < (readWindow.seen me d).length := by
  unfold ReadWindow.Called
  simp [readWindow, List.any_eq_true]

theorem readHistory_ok : readWindow.History readHistory 4 := by
  refine ⟨by decide +kernel, by decide +kernel, ?_⟩
  intro b hb me r hr
  rw [called_iff]
  simp only [readHistory, List.mem_cons, List.not_mem_nil, or_false] at hb
  rcases hb with rfl | rfl | rfl | rfl <;>
    simp only [List.mem_cons, List.not_mem_nil, or_false, BarEvent.read.injEq, reduceCtorEq] at hr
  · obtain ⟨rfl, _⟩ := hr
    decide +kernel
  · rcases hr with ⟨rfl, _⟩ | ⟨rfl, _⟩ <;> decide +kernel
  · rcases hr with ⟨rfl, _⟩ | ⟨rfl, _⟩ <;> decide +kernel
  · rcases hr with ⟨rfl, _⟩ | ⟨rfl, _⟩ <;> decide +kernel

end Demo

/-- The hypotheses of `context_read_partial` are met, and the data kept on day 2 is not what `A`
reads on day 4. -/
example : (Demo.readWindow.env.read (Demo.readWindow.env.play (ReadState.start Demo.readWindow.ind)
    Demo.readHistory) "A" (.foreign "B")).1 = .ok (.data
      { dates := [2, 3, 4]
        cols := [("close", some [some 20, some 21, some 22]), ("volume", none)] }) := by
  rw [context_read_partial Demo.readWindow_ok Demo.readHistory_ok
    ((Demo.called_iff _ _).2 (by decide +kernel)) (.foreign "B") (by decide +kernel)]
  decide +kernel

/-- The hypotheses of `context_read_no_data` are met. -/
example : Demo.readWindow.seen "C" 4 = [] ∧ Demo.readWindow.Called "A" 4 :=
  ⟨by decide +kernel, (Demo.called_iff _ _).2 (by decide +kernel)⟩

/-- **C132, where the code falls short.**  Whether `foreign` of a symbol that has not traded yet
raises depends on what was read before: on day 1 `ctx.foreign("B")` raises, but after
`ctx.indicator("i", "B")` it gives data without bars. -/
theorem foreign_depends_on_reads :
    ∃ (w : ReadWindow) (h h' : List (Date × List BarEvent)) (d : Date), w.Ok ∧ w.History h d ∧
      w.History h' d ∧ w.Called "A" d ∧
      (w.env.read (w.env.play (ReadState.start w.ind) h) "A" (.foreign "B")).1 =
        .error .symbolNotFound ∧
      ∃ g, (w.env.read (w.env.play (ReadState.start w.ind) h') "A" (.foreign "B")).1 = .ok g := by
  have hc : Demo.readWindow.Called "A" 1 := (Demo.called_iff _ _).2 (by decide +kernel)
  refine ⟨Demo.readWindow, [(1, [])], [(1, [.read "A" (.indicator "i" "B")])], 1,
    Demo.readWindow_ok, ⟨by decide +kernel, by decide +kernel, ?_⟩,
    ⟨by decide +kernel, by decide +kernel, ?_⟩, hc, by decide +kernel,
    .data { dates := [], cols := [("close", some []), ("volume", none)] }, by decide +kernel⟩
  · intro b hb me r hr
    simp only [List.mem_cons, List.not_mem_nil, or_false] at hb
    subst hb
    cases hr
  · intro b hb me r hr
    simp only [List.mem_cons, List.not_mem_nil, or_false] at hb
    subst hb
    simp only [List.mem_cons, List.not_mem_nil, or_false, BarEvent.read.injEq] at hr
    rw [hr.1]
    exact hc

/-- **C132, where the code falls short.**  A context that user code keeps and reads on a bar on which
its symbol has no row gives the bars of another symbol as they were when it last read them: on day 3
`B` has a new row, which `A`'s context does not show. -/
theorem kept_context_is_stale :
    ∃ (w : ReadWindow) (h : List (Date × List BarEvent)), w.Ok ∧ w.History h 3 ∧
      ¬ w.Called "A" 3 ∧ w.Called "B" 3 ∧
      (w.env.read (w.env.play (ReadState.start w.ind) h) "A" (.foreign "B")).1 =
        w.answer "A" 2 (.foreign "B") ∧
      w.answer "A" 2 (.foreign "B") ≠ w.answer "A" 3 (.foreign "B") := by
  have hc : Demo.readWindow.Called "A" 2 := (Demo.called_iff _ _).2 (by decide +kernel)
  refine ⟨Demo.readWindow, [(1, []), (2, [.read "A" (.foreign "B")]), (3, [])],
    Demo.readWindow_ok, ⟨by decide +kernel, by decide +kernel, ?_⟩,
    by rw [Demo.called_iff]; decide +kernel, (Demo.called_iff _ _).2 (by decide +kernel),
    by decide +kernel, by decide +kernel⟩
  intro b hb me r hr
  simp only [List.mem_cons, List.not_mem_nil, or_false] at hb
  rcases hb with rfl | rfl | rfl
  · cases hr
  · simp only [List.mem_cons, List.not_mem_nil, or_false, BarEvent.read.injEq] at hr
    rw [hr.1]
    exact hc
  · cases hr

end PyBroker
