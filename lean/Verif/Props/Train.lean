import Verif.Lags.Train
import Verif.Props.Lags
import Verif.Props.Scope
import Verif.Props.Walkforward
import Mathlib.Data.List.Induction

/-!
# The data a model is trained on (C69, C88)
-/

namespace PyBroker

namespace Spec

/-- The bars of a symbol with bar numbers from `a` up to, not including, `b`, in date
order. -/
def barsNo (rows : List DRow) (sym : Sym) (a b : Int) : List DRow :=
  (rows.filter (fun r => r.symbol = sym ∧ a ≤ barNo (rows.map DRow.date) r.date ∧
    (barNo (rows.map DRow.date) r.date : Int) < b)).insertionSort (fun r r' => r.date ≤ r'.date)

/-- The value of a series on a date, NaN when it has none. -/
def onDate (ser : Series) (d : Date) : Cell := ((ser.find? (fun p => p.1 = d)).map Prod.snd).join

/-- The value of a model input column on a bar: the bar's own, or that of the indicator
of this name. -/
def cellOf (cols : List String) (data : String → Option Series) (r : DRow) (c : String) : Cell :=
  if c ∈ cols then r.val c else (data c).bind (fun ser => onDate ser r.date)

/-- Every indicator has a series with increasing dates. -/
def HasData (inds : List String) (data : String → Option Series) : Prop :=
  ∀ i ∈ inds, ∃ ser, data i = some ser ∧ (ser.map Prod.fst).Pairwise (· < ·)

/-- Model input of one symbol: one row per bar, with the data columns of the frame and
the indicators. -/
structure InputOf (cols ordered inds : List String) (data : String → Option Series)
    (bars : List DRow) (x : LagInput) : Prop where
  dates : x.dates = bars.map DRow.date
  values : ∀ p ∈ x.columns, p.2 = bars.map (fun r => cellOf cols data r p.1)
  names : bars ≠ [] → (x.columns.map Prod.fst).Nodup ∧
    ∀ c, c ∈ x.columns.map Prod.fst ↔ (c ∈ ordered ∧ c ∈ cols) ∨ c ∈ inds
  symbols : x.symbols = none
  features : x.features = none

end Spec

open PyBroker.Spec

theorem bars_filter {rows : List DRow} (hu : UniqueBars rows) (sym : Sym) (p : DRow → Bool) :
    (rows.filter (fun r => decide (r.symbol = sym) && p r)).insertionSort
      (fun r r' => r.date ≤ r'.date) = (symRows rows sym).filter p := by
  have hu' : UniqueBars (rows.filter p) := hu.filter _
  have e : (rows.filter (fun r => decide (r.symbol = sym) && p r)).insertionSort
      (fun r r' => r.date ≤ r'.date) = symRows (rows.filter p) sym := by
    unfold symRows
    rw [List.filter_filter]
  rw [e]
  refine List.Perm.eq_of_pairwise (le := fun a b : DRow => a.date < b.date)
    (fun a b _ _ h h' => absurd h (lt_asymm h')) (symRows_sorted hu' sym)
    ((symRows_sorted hu sym).filter _) ?_
  refine (symRows_perm _ _).trans ?_
  refine List.Perm.trans ?_ ((symRows_perm rows sym).filter _).symm
  rw [List.filter_filter, List.filter_filter]
  apply List.Perm.of_eq
  apply List.filter_congr
  intro r _
  exact Bool.and_comm _ _

theorem barsNo_eq {rows : List DRow} (hu : UniqueBars rows) (sym : Sym) (a b : Int) :
    barsNo rows sym a b = (symRows rows sym).filter (fun r =>
      decide (a ≤ barNo (rows.map DRow.date) r.date ∧
        (barNo (rows.map DRow.date) r.date : Int) < b)) := by
  rw [← bars_filter hu]
  unfold barsNo
  congr 1
  apply List.filter_congr
  intro r _
  simp

theorem barsNo_sorted {rows : List DRow} (hu : UniqueBars rows) (sym : Sym) (a b : Int) :
    (barsNo rows sym a b).Pairwise (fun r r' => r.date < r'.date) := by
  rw [barsNo_eq hu]
  exact (symRows_sorted hu sym).filter _

theorem mem_barsNo {rows : List DRow} {sym : Sym} {a b : Int} {r : DRow} :
    r ∈ barsNo rows sym a b ↔ r ∈ rows ∧ r.symbol = sym ∧
      a ≤ barNo (rows.map DRow.date) r.date ∧ (barNo (rows.map DRow.date) r.date : Int) < b := by
  unfold barsNo
  rw [List.mem_insertionSort, List.mem_filter]
  simp

theorem mem_windowDates {l : List Date} {d : Date} : d ∈ windowDates l ↔ d ∈ l := by
  rw [(windowDates_perm l).mem_iff, List.mem_dedup]

theorem mem_datesOfRows {dates : List Date} {idx : List Nat} {d : Date} :
    d ∈ datesOfRows dates idx ↔ ∃ i ∈ idx, dates[i]? = some d := by
  unfold datesOfRows
  rw [mem_windowDates, List.mem_filterMap]

theorem mem_datesIn {dates : List Date} {idx : List Nat} {a b : Int} (h : RowsIn dates idx a b)
    {d : Date} (hd : d ∈ dates) :
    d ∈ datesOfRows dates idx ↔ a ≤ barNo dates d ∧ (barNo dates d : Int) < b := by
  rw [mem_datesOfRows]
  constructor
  · rintro ⟨i, hi, e⟩
    obtain ⟨d', e', h1, h2⟩ := (h i).1 hi
    rw [e] at e'
    cases e'
    exact ⟨h1, h2⟩
  · rintro ⟨h1, h2⟩
    obtain ⟨i, hi⟩ := List.mem_iff_getElem?.1 hd
    exact ⟨i, (h i).2 ⟨d, hi, h1, h2⟩, hi⟩

/-- The arrays of a store cut to bars with the numbers `a .. b`. -/
theorem slice_bars {rows : List DRow} (hu : UniqueBars rows) (cols : List String) (sym : Sym)
    {window : List Date} {a b : Int}
    (hw : ∀ d ∈ rows.map DRow.date, d ∈ window ↔ a ≤ barNo (rows.map DRow.date) d ∧
      (barNo (rows.map DRow.date) d : Int) < b) :
    (barsNo rows sym a b = [] ∧ ((storeOf cols rows).slice window).arrays sym = none) ∨
    (barsNo rows sym a b ≠ [] ∧ ∃ x, ((storeOf cols rows).slice window).arrays sym = some x ∧
      x.dates = (barsNo rows sym a b).map DRow.date ∧
      ∀ c, x.col c = if c ∈ cols then some ((barsNo rows sym a b).map (fun r => r.val c))
        else none) := by
  have e : (symRows rows sym).filter (fun r => decide (r.date ∈ window)) = barsNo rows sym a b := by
    rw [barsNo_eq hu]
    apply List.filter_congr
    intro r hr
    have hm : r ∈ rows := List.mem_of_mem_filter ((symRows_perm rows sym).mem_iff.1 hr)
    exact decide_eq_decide.2 (hw r.date (List.mem_map.2 ⟨r, hm, rfl⟩))
  have := slice_arrays hu cols window sym
  rw [e] at this
  exact this

theorem onDate_eq {ser : Series} (hs : (ser.map Prod.fst).Pairwise (· < ·)) (dates : List Date) :
    valuesForDates ser dates = dates.map (onDate ser) := by
  apply List.ext_getElem?
  intro k
  obtain ⟨h1, h2, h3⟩ := aligned_values hs dates k
  rw [List.getElem?_map]
  rcases hk : dates[k]? with _ | d
  · rw [Option.map_none, List.getElem?_eq_none_iff, h3]
    exact List.getElem?_eq_none_iff.1 hk
  · rw [Option.map_some]
    rcases hf : ser.find? (fun p => p.1 = d) with _ | p
    · rw [h2 d hk ?_]
      · unfold onDate; rw [hf]; rfl
      · intro hm
        obtain ⟨p, hp, e⟩ := List.mem_map.1 hm
        exact absurd e (by simpa using List.find?_eq_none.1 hf p hp)
    · have hp := List.mem_of_find?_eq_some hf
      have he : p.1 = d := by simpa using List.find?_some hf
      rw [h1 d p.2 hk (by rw [← he]; exact hp)]
      unfold onDate; rw [hf]; rfl

/-- A column of the input is the list of its cells. -/
theorem inputColumn_eq {x : SymArrays} {bars : List DRow} {cols inds : List String}
    {data : String → Option Series} (hd : HasData inds data)
    (h1 : x.dates = bars.map DRow.date)
    (h2 : ∀ c, x.col c = if c ∈ cols then some (bars.map (fun r => r.val c)) else none) (c : String) :
    (c ∈ cols ∨ c ∈ inds → inputColumn x inds data c = some (bars.map (fun r => cellOf cols data r c))) ∧
    (¬ (c ∈ cols ∨ c ∈ inds) → inputColumn x inds data c = none) := by
  unfold inputColumn
  rw [h2 c]
  by_cases hc : c ∈ cols
  · rw [if_pos hc]
    refine ⟨fun _ => ?_, fun h => absurd (.inl hc) h⟩
    simp only [Option.some.injEq]
    apply List.map_congr_left
    intro r _
    unfold cellOf
    rw [if_pos hc]
  · rw [if_neg hc]
    simp only
    by_cases hi : c ∈ inds
    · rw [if_pos hi]
      refine ⟨fun _ => ?_, fun h => absurd (.inr hi) h⟩
      obtain ⟨ser, e, hs⟩ := hd c hi
      rw [e, Option.map_some, onDate_eq hs, h1, List.map_map]
      congr 1
      apply List.map_congr_left
      intro r _
      simp [cellOf, if_neg hc, e]
    · rw [if_neg hi]
      exact ⟨fun h => absurd h (not_or.2 ⟨hc, hi⟩), fun _ => rfl⟩

theorem mapM_pairs {f : String → Option (List Cell)} {g : String → List Cell} : ∀ {l : List String},
    (∀ c ∈ l, f c = some (g c)) →
    l.mapM (fun c => (f c).map (fun v => (c, v))) = some (l.map (fun c => (c, g c))) := by
  intro l
  induction l with
  | nil => intro _; rfl
  | cons c l ih =>
    intro h
    rw [List.mapM_cons, h c (by simp), ih (fun c' hc' => h c' (by simp [hc']))]
    rfl

theorem mem_modelInputCols {ordered inds : List String} {av : String → Bool} {c : String} :
    c ∈ modelInputCols ordered inds av ↔ (c ∈ ordered ∧ av c = true) ∨ c ∈ inds := by
  unfold modelInputCols
  rw [List.mem_eraseDups, List.mem_append, List.mem_filter]

theorem nodup_eraseDups (l : List String) : l.eraseDups.Nodup := by
  induction hn : l.length using Nat.strong_induction_on generalizing l with
  | _ n ih =>
    cases l with
    | nil => simp
    | cons a l =>
      rw [List.eraseDups_cons, List.nodup_cons]
      refine ⟨by simp [List.mem_eraseDups], ih _ ?_ _ rfl⟩
      rw [← hn, List.length_cons]
      exact Nat.lt_succ_of_le (List.length_filter_le _ _)

/-- The input of a symbol with the given bars. -/
theorem symbolInput_bars {rows : List DRow} (hu : UniqueBars rows) {cols inds ordered : List String}
    {data : String → Option Series} (hd : HasData inds data) (sym : Sym) {window : List Date}
    {a b : Int}
    (hw : ∀ d ∈ rows.map DRow.date, d ∈ window ↔ a ≤ barNo (rows.map DRow.date) d ∧
      (barNo (rows.map DRow.date) d : Int) < b) :
    ∃ x, symbolInput ((storeOf cols rows).slice window) sym ordered inds data = some x ∧
      InputOf cols ordered inds data (barsNo rows sym a b) x := by
  unfold symbolInput
  rcases slice_bars hu cols sym hw with ⟨h0, h⟩ | ⟨h0, s, h, h1, h2⟩
  · rw [h, h0]
    exact ⟨_, rfl, rfl, by simp, fun h => absurd rfl h, rfl, rfl⟩
  · rw [h]
    simp only
    have hne : s.dates ≠ [] := by
      rw [h1]; simpa using h0
    rw [if_neg hne]
    have hav : ∀ c, (s.col c).isSome = true ↔ c ∈ cols := by
      intro c
      rw [h2 c]
      split <;> simp [*]
    have hcol : ∀ c ∈ modelInputCols ordered inds (fun c => (s.col c).isSome),
        inputColumn s inds data c = some ((barsNo rows sym a b).map (fun r => cellOf cols data r c)) := by
      intro c hc
      refine (inputColumn_eq hd h1 h2 c).1 ?_
      rcases mem_modelInputCols.1 hc with ⟨_, h⟩ | h
      · exact .inl ((hav c).1 h)
      · exact .inr h
    rw [mapM_pairs hcol]
    refine ⟨_, rfl, h1, ?_, fun _ => ⟨?_, ?_⟩, rfl, rfl⟩
    · intro p hp
      obtain ⟨c, _, rfl⟩ := List.mem_map.1 hp
      rfl
    · simp only [List.map_map]
      rw [show (Prod.fst ∘ fun c => (c, (barsNo rows sym a b).map (fun r => cellOf cols data r c))) =
        (id : String → String) from rfl, List.map_id]
      unfold modelInputCols
      exact nodup_eraseDups _
    · intro c
      simp only [List.map_map]
      rw [show (Prod.fst ∘ fun c => (c, (barsNo rows sym a b).map (fun r => cellOf cols data r c))) =
        (id : String → String) from rfl, List.map_id, mem_modelInputCols]
      simp only [hav]

/-! ## The rows of a window -/

theorem windowStores_train (master : Store) (dates : List Date) (w : WFWindow) :
    (windowStores master dates w).train =
      if w.train = [] then none else some (master.slice (datesOfRows dates w.train)) := by
  unfold windowStores
  simp only
  split <;> rfl

theorem windowStores_test (master : Store) (dates : List Date) (w : WFWindow) :
    (windowStores master dates w).test =
      if w.test = [] then none else some (master.slice (datesOfRows dates w.test)) := by
  unfold windowStores
  simp only
  split <;> rfl

/-- **C88.** Window number `k` of an accepted split, with `tl` training and `te` test
bars per window.  A model of a symbol is trained on exactly the symbol's bars with the
`tl` bar numbers that end `lookahead - 1` bars before the window's first test bar, in
date order, and is given as test data exactly its bars of the window's `te` test bar
numbers: each bar with its own data and the indicators' values on its date. -/
theorem training_rows {rows : List DRow} (hu : UniqueBars rows) {w la : Int} {ts : ℚ}
    {shuffle : List Nat → List Nat} (hs : ∀ l, (shuffle l).Perm l) (h0 : 0 < ts) (h1 : ts < 1)
    {ws : List WFWindow} (h : walkforwardSplit (rows.map DRow.date) w la ts shuffle = .ok ws)
    (cols : List String) :
    ∃ tl te : Nat, 0 < tl + te ∧ (ws.length : Int) = w ∧
      ∀ (k : Nat) (win : WFWindow) (first : Int), ws[k]? = some win →
        first = nDates (rows.map DRow.date) - (w - k) * te →
        ∀ (sym : Sym) (ordered inds : List String) (data : String → Option Series),
          HasData inds data →
          (∀ st, (windowStores (storeOf cols rows) (rows.map DRow.date) win).train = some st →
            ∃ x, symbolInput st sym ordered inds data = some x ∧
              InputOf cols ordered inds data
                (barsNo rows sym (first - (la - 1) - tl) (first - (la - 1))) x) ∧
          (∀ st, (windowStores (storeOf cols rows) (rows.map DRow.date) win).test = some st →
            ∃ x, symbolInput st sym ordered inds data = some x ∧
              InputOf cols ordered inds data (barsNo rows sym first (first + te)) x) := by
  obtain ⟨tl, te, hpos, hlen, hfit, hb⟩ := split_blocks hs h0 h1 h
  refine ⟨tl, te, hpos, hlen, ?_⟩
  intro k win first hk hfirst sym ordered inds data hd
  subst hfirst
  obtain ⟨htest, htrain⟩ := hb k win hk
  constructor
  · intro st hst
    rw [windowStores_train] at hst
    split at hst
    · cases hst
    · cases hst
      exact symbolInput_bars hu hd sym (fun d hd' => mem_datesIn htrain hd')
  · intro st hst
    rw [windowStores_test] at hst
    split at hst
    · cases hst
    · cases hst
      exact symbolInput_bars hu hd sym (fun d hd' => mem_datesIn htest hd')

/-! ## Shuffling -/

theorem sorted_ext {l l' : List Date} (h : l.Pairwise (· < ·)) (h' : l'.Pairwise (· < ·))
    (hm : ∀ d, d ∈ l ↔ d ∈ l') : l = l' := by
  have hn : l.Nodup := h.imp (fun h => ne_of_lt h)
  have hn' : l'.Nodup := h'.imp (fun h => ne_of_lt h)
  exact List.Perm.eq_of_pairwise (le := fun a b : Date => a < b)
    (fun a b _ _ h h' => absurd h (lt_asymm h')) h h' ((List.perm_ext_iff_of_nodup hn hn').2 hm)

theorem datesOfRows_perm {dates : List Date} {l l' : List Nat} (h : l.Perm l') :
    datesOfRows dates l = datesOfRows dates l' :=
  sorted_ext (windowDates_sorted _) (windowDates_sorted _)
    (fun d => by simp only [mem_datesOfRows, h.mem_iff])

/-- The windows of a split with shuffling and of one without. -/
inductive SameUpToOrder : List WFWindow → List WFWindow → Prop
  | nil : SameUpToOrder [] []
  | cons {a b as bs} : a.train.Perm b.train → a.test = b.test → SameUpToOrder as bs →
      SameUpToOrder (a :: as) (b :: bs)

theorem collect_order {f g : α → Except WErr WFWindow}
    (hfg : ∀ a x, f a = .ok x → ∃ y, g a = .ok y ∧ x.train.Perm y.train ∧ x.test = y.test) :
    ∀ {l : List α} {ws : List WFWindow}, collect (l.map f) = .ok ws →
      ∃ ws', collect (l.map g) = .ok ws' ∧ SameUpToOrder ws ws' := by
  intro l
  induction l with
  | nil => intro ws h; cases h; exact ⟨[], rfl, .nil⟩
  | cons a l ih =>
    intro ws h
    rw [List.map_cons] at h ⊢
    rcases hfa : f a with e | x
    · rw [hfa] at h; cases h
    · rw [hfa] at h
      simp only [collect] at h
      rcases hr : collect (l.map f) with e | as
      · rw [hr] at h; cases h
      · rw [hr] at h
        cases h
        obtain ⟨y, hy, h1, h2⟩ := hfg a x hfa
        obtain ⟨ws', h3, h4⟩ := ih hr
        exact ⟨y :: ws', by simp only [hy, collect, h3], .cons h1 h2 h4⟩

theorem windowAt_order {rows dates : List Date} {sh : List Nat → List Nat}
    (hs : ∀ l, (sh l).Perm l) {a b c d : Int} {fl : Bool} {x : WFWindow}
    (h : windowAt rows dates sh a b c d fl = .ok x) :
    ∃ y, windowAt rows dates id a b c d fl = .ok y ∧ x.train.Perm y.train ∧ x.test = y.test := by
  unfold windowAt at h ⊢
  rcases h1 : maskAt rows dates a b fl with e | tr
  · rw [h1] at h; cases h
  · rw [h1] at h
    simp only at h ⊢
    rcases h2 : maskAt rows dates c d fl with e | te
    · rw [h2] at h; cases h
    · rw [h2] at h
      cases h
      exact ⟨_, rfl, hs tr, rfl⟩

theorem split_order {rows : List Date} {w la : Int} {ts : ℚ} {sh : List Nat → List Nat}
    (hs : ∀ l, (sh l).Perm l) {ws : List WFWindow} (h : walkforwardSplit rows w la ts sh = .ok ws) :
    ∃ ws', walkforwardSplit rows w la ts id = .ok ws' ∧ SameUpToOrder ws ws' := by
  unfold walkforwardSplit at h ⊢
  split at h; · cases h
  split at h; · cases h
  split at h; · cases h
  split at h; · cases h
  rename_i c1 c2 c3 c4
  rw [if_neg c1, if_neg c2, if_neg c3, if_neg c4]
  split at h
  · rename_i c5
    rw [if_pos c5]
    unfold splitWhole at h ⊢
    simp only at h ⊢
    split at h; · cases h
    rename_i c6
    rw [if_neg c6]
    refine collect_order ?_ h
    intro i x hx
    split at hx
    · cases hx
    · cases hx
      rename_i l _
      refine ⟨_, rfl, ?_, ?_⟩
      · split
        · exact List.Perm.refl _
        · exact hs l
      · split <;> rfl
  · rename_i c5
    rw [if_neg c5]
    split at h
    · rename_i c6
      rw [if_pos c6]
      unfold splitOne at h ⊢
      simp only at h ⊢
      split at h; · cases h
      rename_i c7
      rw [if_neg c7]
      split at h; · cases h
      rename_i c8
      rw [if_neg c8]
      exact collect_order (l := [()])
        (f := fun _ => windowAt rows (windowDates rows) sh _ _ _ _)
        (g := fun _ => windowAt rows (windowDates rows) id _ _ _ _)
        (fun _ x hx => windowAt_order hs hx) h
    · rename_i c6
      rw [if_neg c6]
      unfold splitMany at h ⊢
      simp only at h ⊢
      split at h; · cases h
      rename_i c7
      rw [if_neg c7]
      split at h; · cases h
      split at h; · cases h
      rename_i c8
      rw [if_neg c8]
      exact collect_order (fun _ x hx => windowAt_order hs hx) h

theorem windowStores_order {master : Store} {dates : List Date} {a b : WFWindow}
    (h1 : a.train.Perm b.train) (h2 : a.test = b.test) :
    windowStores master dates a = windowStores master dates b := by
  unfold windowStores
  have e : a.train = [] ↔ b.train = [] := by
    constructor
    · intro e; rw [e] at h1; exact List.nil_perm.1 h1
    · intro e; rw [e] at h1; exact List.perm_nil.1 h1
  simp only [h2, datesOfRows_perm h1, e]

/-- **C88.** `shuffle=True` changes nothing about the data models are trained and
tested on: whatever the order the training rows are shuffled into, each window gives
the same training, test and history data as without shuffling. -/
theorem shuffle_no_effect {rows : List Date} {w la : Int} {ts : ℚ} {shuffle : List Nat → List Nat}
    (hs : ∀ l, (shuffle l).Perm l) (master : Store) {ws : List WFWindow}
    (h : walkforwardSplit rows w la ts shuffle = .ok ws) :
    ∃ ws', walkforwardSplit rows w la ts = .ok ws' ∧
      ws.map (windowStores master rows) = ws'.map (windowStores master rows) := by
  obtain ⟨ws', h', ho⟩ := split_order hs h
  refine ⟨ws', h', ?_⟩
  clear h h'
  induction ho with
  | nil => rfl
  | cons h1 h2 _ ih =>
    rw [List.map_cons, List.map_cons, ih, windowStores_order h1 h2]

/-! ## Lag features of a window -/

theorem barNo_mono (dates : List Date) {x y : Date} (h : x ≤ y) : barNo dates x ≤ barNo dates y := by
  rw [barNo_eq, barNo_eq]
  apply List.countP_mono_left
  intro z _ hz
  have hz' : z < x := by simpa using hz
  simpa using lt_of_lt_of_le hz' h

theorem barNo_lt {dates : List Date} {x y : Date} (hx : x ∈ dates) :
    barNo dates x < barNo dates y ↔ x < y := by
  constructor
  · intro h
    by_contra hc
    exact absurd (barNo_mono dates (not_lt.1 hc)) (not_le.2 h)
  · intro h
    rw [barNo_eq, barNo_eq]
    have hx' : x ∈ windowDates dates := mem_windowDates.2 hx
    obtain ⟨j, hj⟩ := List.mem_iff_getElem?.1 hx'
    have hj' := (List.getElem?_eq_some_iff.1 hj).1
    have e := List.take_append_drop (j + 1) (windowDates dates)
    have hall : ∀ z ∈ (windowDates dates).take (j + 1), z < y := by
      intro z hz
      obtain ⟨i, hi⟩ := List.mem_iff_getElem?.1 hz
      rw [List.getElem?_take] at hi
      split at hi
      · rename_i hlt
        rcases Nat.lt_or_ge i j with hij | hij
        · have := List.pairwise_iff_getElem.1 (windowDates_sorted dates) i j
            (by omega) hj' hij
          rw [List.getElem?_eq_getElem (by omega)] at hi hj
          cases hi; cases hj
          exact lt_trans this h
        · have : i = j := by omega
          subst this
          rw [hj] at hi
          cases hi
          exact h
      · cases hi
    rw [sorted_count (windowDates_sorted dates) hj]
    have h2 : ((windowDates dates).take (j + 1)).countP (fun z => decide (z < y)) = j + 1 := by
      rw [List.countP_eq_length.2 (by simpa using hall), List.length_take]
      omega
    have h3 := congrArg (List.countP (fun z => decide (z < y))) e
    rw [List.countP_append, h2] at h3
    omega

theorem bars_nodup {rows : List DRow} (hu : UniqueBars rows) (sym : Sym) (a b : Int) :
    (barsNo rows sym a b).Nodup :=
  (barsNo_sorted hu sym a b).imp (fun h e => by rw [e] at h; exact lt_irrefl _ h)

theorem bars_append {rows : List DRow} (hu : UniqueBars rows) (sym : Sym) {a b e : Int}
    (hab : a ≤ b) (hbe : b ≤ e) :
    barsNo rows sym a e = barsNo rows sym a b ++ barsNo rows sym b e := by
  have hlt : ∀ x ∈ barsNo rows sym a b, ∀ y ∈ barsNo rows sym b e, x.date < y.date := by
    intro x hx y hy
    obtain ⟨h1, _, _, h2⟩ := mem_barsNo.1 hx
    obtain ⟨_, _, h3, _⟩ := mem_barsNo.1 hy
    exact (barNo_lt (List.mem_map.2 ⟨x, h1, rfl⟩)).1 (by omega)
  refine List.Perm.eq_of_pairwise (le := fun a b : DRow => a.date < b.date)
    (fun a b _ _ h h' => absurd h (lt_asymm h')) (barsNo_sorted hu sym a e)
    (List.pairwise_append.2 ⟨barsNo_sorted hu sym a b, barsNo_sorted hu sym b e, hlt⟩) ?_
  refine (List.perm_ext_iff_of_nodup (bars_nodup hu sym a e) (List.nodup_append.2
    ⟨bars_nodup hu sym a b, bars_nodup hu sym b e, ?_⟩)).2 ?_
  · intro x hx y hy e
    have := hlt x hx y hy
    rw [e] at this
    exact lt_irrefl _ this
  · intro r
    rw [List.mem_append, mem_barsNo, mem_barsNo, mem_barsNo]
    constructor
    · rintro ⟨h1, h2, h3, h4⟩
      by_cases h : (barNo (rows.map DRow.date) r.date : Int) < b
      · exact .inl ⟨h1, h2, h3, h⟩
      · exact .inr ⟨h1, h2, by omega, h4⟩
    · rintro (⟨h1, h2, h3, h4⟩ | ⟨h1, h2, h3, h4⟩)
      · exact ⟨h1, h2, h3, by omega⟩
      · exact ⟨h1, h2, by omega, h4⟩

/-- The dates of the history of a window. -/
theorem mem_history {dates : List Date} {tr te : List Nat} {a b c e : Int}
    (htr : RowsIn dates tr a b) (hte : RowsIn dates te c e) (h1 : tr ≠ []) (h2 : te ≠ [])
    (ha : 0 ≤ a) (he : e ≤ nDates dates) {d : Date} (hd : d ∈ dates) :
    d ∈ windowDates (dates.filter (fun d => decide ((datesOfRows dates tr).headD 0 ≤ d ∧
      d ≤ (datesOfRows dates te).getLastD 0))) ↔ a ≤ barNo dates d ∧ (barNo dates d : Int) < e := by
  rw [mem_windowDates, List.mem_filter]
  simp only [hd, true_and, decide_eq_true_eq]
  have hne : ∀ {l : List Nat} {a b : Int}, RowsIn dates l a b → l ≠ [] → datesOfRows dates l ≠ [] := by
    intro l a b h hl hnil
    obtain ⟨i, hi⟩ := List.exists_mem_of_ne_nil _ hl
    obtain ⟨x, hx, _⟩ := (h i).1 hi
    have : x ∈ datesOfRows dates l := mem_datesOfRows.2 ⟨i, hi, hx⟩
    rw [hnil] at this
    cases this
  have hsub : ∀ {l : List Nat} {x : Date}, x ∈ datesOfRows dates l → x ∈ dates := by
    intro l x hx
    obtain ⟨i, _, h⟩ := mem_datesOfRows.1 hx
    exact List.mem_of_getElem? h
  -- the first training date
  obtain ⟨m, hm, hmin⟩ : ∃ m, (datesOfRows dates tr).headD 0 = m ∧ m ∈ datesOfRows dates tr ∧
      ∀ x ∈ datesOfRows dates tr, m ≤ x := by
    have hsrt : (datesOfRows dates tr).Pairwise (· < ·) := windowDates_sorted _
    rcases hl : datesOfRows dates tr with _ | ⟨m, l⟩
    · exact absurd hl (hne htr h1)
    · refine ⟨m, rfl, by simp, ?_⟩
      rw [hl] at hsrt
      intro x hx
      rcases List.mem_cons.1 hx with rfl | hx
      · exact le_refl _
      · exact le_of_lt ((List.pairwise_cons.1 hsrt).1 x hx)
  obtain ⟨z, hz, hmax⟩ : ∃ z, (datesOfRows dates te).getLastD 0 = z ∧ z ∈ datesOfRows dates te ∧
      ∀ x ∈ datesOfRows dates te, x ≤ z := by
    have hsrt : (datesOfRows dates te).Pairwise (· < ·) := windowDates_sorted _
    have hn := hne hte h2
    generalize datesOfRows dates te = l at hsrt hn
    induction l using List.reverseRecOn with
    | nil => exact absurd rfl hn
    | append_singleton l z _ =>
      refine ⟨z, by simp, by simp, ?_⟩
      intro x hx
      rcases List.mem_append.1 hx with hx | hx
      · exact le_of_lt ((List.pairwise_append.1 hsrt).2.2 x hx z (by simp))
      · simp at hx; rw [hx]
  rw [hm, hz]
  have hmb := (mem_datesIn htr (hsub hmin.1)).1 hmin.1
  have hzb := (mem_datesIn hte (hsub hmax.1)).1 hmax.1
  have hma : (barNo dates m : Int) = a := by
    obtain ⟨i, x, hi, hx⟩ := barNo_surj (rows := dates) (j := a.toNat) (by
      have := (barNo_get (hsub hmin.1)).1
      omega)
    have hxd := List.mem_of_getElem? hi
    have := barNo_mono dates (hmin.2 x ((mem_datesIn htr hxd).2 (by omega)))
    omega
  have hze : (barNo dates z : Int) = e - 1 := by
    obtain ⟨i, x, hi, hx⟩ := barNo_surj (rows := dates) (j := (e - 1).toNat) (by
      have := (barNo_get (hsub hmax.1)).1
      omega)
    have hxd := List.mem_of_getElem? hi
    have := barNo_mono dates (hmax.2 x ((mem_datesIn hte hxd).2 (by omega)))
    omega
  constructor
  · rintro ⟨h3, h4⟩
    have h5 := barNo_mono dates h3
    have h6 := barNo_mono dates h4
    omega
  · rintro ⟨h3, h4⟩
    constructor
    · by_contra hc
      have := (barNo_lt (y := m) hd).2 (not_le.1 hc)
      omega
    · by_contra hc
      have := (barNo_lt (y := d) (hsub hmax.1)).2 (not_le.1 hc)
      omega

theorem matRows_get (m : LagMat) {n width r c : Nat} (hr : r < n) (hc : c < width) :
    ((matRows m n width)[r]?).bind (fun row => row[c]?) = some (m r c) := by
  unfold matRows
  rw [List.getElem?_map, List.getElem?_range hr]
  simp [List.getElem?_range hc]

theorem matRows_length (m : LagMat) (n width : Nat) : (matRows m n width).length = n := by
  simp [matRows]

theorem matRows_all (m : LagMat) {n lags r : Nat} {columns : List String} (hr : r < n) :
    (∀ row, (matRows m n (columns.length * (lags + 1)))[r]? = some row → ∀ v ∈ row, v ≠ none) ↔
      ∀ j k, j < columns.length → k ≤ lags → m r (j * (lags + 1) + k) ≠ none := by
  unfold matRows
  rw [List.getElem?_map, List.getElem?_range hr]
  simp only [Option.map_some, Option.some.injEq, forall_eq', List.mem_map, List.mem_range,
    forall_exists_index, and_imp]
  constructor
  · intro h j k hj hk
    refine h _ (j * (lags + 1) + k) ?_ rfl
    calc j * (lags + 1) + k < j * (lags + 1) + (lags + 1) := by omega
      _ = (j + 1) * (lags + 1) := by ring
      _ ≤ columns.length * (lags + 1) := Nat.mul_le_mul_right _ hj
  · intro h v f hf hv
    have h1 : f / (lags + 1) < columns.length :=
      Nat.div_lt_of_lt_mul (by rw [Nat.mul_comm]; exact hf)
    have h2 := Nat.mod_lt f (show 0 < lags + 1 by omega)
    have := h (f / (lags + 1)) (f % (lags + 1)) h1 (by omega)
    rw [Nat.mul_comm, Nat.div_add_mod] at this
    rw [← hv]
    exact this

theorem pick_drop {α : Type} (l : List α) (o : Nat) {idx : List Nat} (hs : idx.Pairwise (· < ·))
    (h : ∀ i, i ∈ idx ↔ i < l.length ∧ o ≤ i) : pick idx l = l.drop o := by
  have e : idx = List.range' o (l.length - o) := by
    refine List.Perm.eq_of_pairwise (le := fun a b : Nat => a < b)
      (fun a b _ _ h h' => absurd h (lt_asymm h')) hs List.pairwise_lt_range' ?_
    refine (List.perm_ext_iff_of_nodup (hs.imp (fun h => ne_of_lt h)) List.nodup_range').2 ?_
    intro i
    rw [h i, List.mem_range'_1]
    omega
  unfold pick
  rcases Nat.le_total o l.length with ho | ho
  · rw [e, filterMap_range' (l.length - o) o l (by omega), List.take_of_length_le (by simp)]
  · rw [e, Nat.sub_eq_zero_of_le ho, List.drop_eq_nil_of_le ho]
    rfl

namespace Spec

/-- The column's value `k` bars before bar number `p` of a list of bars, NaN when there
is no such bar. -/
def cellBefore (cols : List String) (data : String → Option Series) (bars : List DRow) (p k : Nat)
    (c : String) : Cell :=
  if k ≤ p then (bars[p - k]?).bind (fun r => cellOf cols data r c) else none

/-- Row `r` of the lag features holds, for every column in turn, the values of the bar
number `p` of `bars` and of the `lags` bars before it. -/
def LagRow (cols : List String) (data : String → Option Series) (columns : List String) (lags : Nat)
    (bars : List DRow) (features : Option (List (List Cell))) (r p : Nat) : Prop :=
  ∃ f row, features = some f ∧ f[r]? = some row ∧ row.length = columns.length * (lags + 1) ∧
    ∀ j k c, columns[j]? = some c → k ≤ lags →
      row[j * (lags + 1) + k]? = some (cellBefore cols data bars p k c)

/-- Of these bars the ones on which all the columns have a value are those from number
`n` on: `n` is the warm-up of the columns. -/
def WarmUp (cols : List String) (data : String → Option Series) (columns : List String)
    (bars : List DRow) (n : Nat) : Prop :=
  ∀ i r, bars[i]? = some r → ((∀ c ∈ columns, cellOf cols data r c ≠ none) ↔ n ≤ i)

end Spec

theorem lagged_cell (cols : List String) (data : String → Option Series) (bars : List DRow)
    (p k : Nat) (c : String) :
    lagged (bars.map (fun r => cellOf cols data r c)) p k = cellBefore cols data bars p k c := by
  unfold lagged cellBefore
  split
  · rw [List.getElem?_map]
    cases bars[p - k]? <;> rfl
  · rfl

/-- The lag features of a run of the history's bars. -/
theorem applyLags_bars {cols : List String} {data : String → Option Series}
    {P R Q : List DRow} (hsorted : (P ++ R ++ Q).Pairwise (fun a b => a.date < b.date))
    {x : LagInput} (hx : x.dates = R.map DRow.date) {series : String → List Cell}
    {cache : LagCache} {sym : Sym} (hsv : Serves series cache sym none)
    {columns : List String} {lags : Nat} (junk : LagMat)
    (hcol : ∀ c ∈ columns, series c = (P ++ R ++ Q).map (fun r => cellOf cols data r c) ∧
      ∃ st, cache.cached sym c lags none = some st) :
    ∃ m, applyLags junk x columns lags cache sym ((P ++ R ++ Q).map DRow.date) none =
        .ok { x with features := some (matRows m R.length (columns.length * (lags + 1))) } ∧
      ∀ r j k c, r < R.length → columns[j]? = some c → k ≤ lags →
        m r (j * (lags + 1) + k) = cellBefore cols data (P ++ R ++ Q) (P.length + r) k c := by
  unfold applyLags
  by_cases hR : R = []
  · rw [if_pos (by rw [hx, hR]; rfl)]
    refine ⟨junk, by rw [hR]; rfl, ?_⟩
    intro r j k c hr
    rw [hR] at hr
    simp at hr
  · have hne : x.dates ≠ [] := by rw [hx]; simpa using hR
    rw [if_neg hne]
    have hs : ((P ++ R ++ Q).map DRow.date).Pairwise (· < ·) :=
      List.pairwise_map.2 (hsorted.imp (fun h => h))
    have hlen : x.dates.length = R.length := by rw [hx, List.length_map]
    obtain ⟨h1, h2⟩ := lag_matrix hsv junk columns lags x.dates _ hs hne
    obtain ⟨m, hm⟩ := h1.2 ⟨P.length, by
        rw [hlen, hx, List.append_assoc, List.map_append,
          show P.length = (P.map DRow.date).length by simp, List.drop_left, List.map_append,
          show R.length = (R.map DRow.date).length by simp, List.take_left],
      fun c hc => ⟨(hcol c hc).2, by rw [(hcol c hc).1, hlen]; simp⟩⟩
    rw [hm]
    refine ⟨m, by simp only [hlen], ?_⟩
    intro r j k c hr hj hk
    have hr1 : x.dates[r]? = some (R[r].date) := by
      rw [hx, List.getElem?_map, List.getElem?_eq_getElem hr]; rfl
    have hr2 : ((P ++ R ++ Q).map DRow.date)[P.length + r]? = some (R[r].date) := by
      rw [List.getElem?_map, List.append_assoc, List.getElem?_append_right (by omega),
        Nat.add_sub_cancel_left, List.getElem?_append_left hr, List.getElem?_eq_getElem hr]
      rfl
    rw [h2 m hm r (P.length + r) j _ c k hr1 hr2 hj hk, (hcol c (List.mem_of_getElem? hj)).1,
      lagged_cell]

/-- Trimming the lag features of the first bars of a history. -/
theorem trim_bars {cols : List String} {data : String → Option Series} {R Q : List DRow}
    {x : LagInput} (hx : x.dates = R.map DRow.date) (hsym : x.symbols = none)
    (hval : ∀ p ∈ x.columns, p.2.length = R.length) {columns : List String} {lags n : Nat}
    (hne : columns ≠ []) (hR : R ≠ []) (hn : WarmUp cols data columns R n) {m : LagMat}
    (hm : ∀ r j k c, r < R.length → columns[j]? = some c → k ≤ lags →
        m r (j * (lags + 1) + k) = cellBefore cols data (R ++ Q) r k c) :
    (R.length ≤ n + lags → LagInput.dropWarmup
      { x with features := some (matRows m R.length (columns.length * (lags + 1))) } =
        .error .nothingLeft) ∧
    (n + lags < R.length → LagInput.dropWarmup
      { x with features := some (matRows m R.length (columns.length * (lags + 1))) } =
        .ok { dates := (R.drop (n + lags)).map DRow.date
              symbols := none
              columns := x.columns.map (fun p => (p.1, p.2.drop (n + lags)))
              features := some ((matRows m R.length (columns.length * (lags + 1))).drop (n + lags)) }) := by
  have hlen : x.dates.length = R.length := by rw [hx, List.length_map]
  generalize hX : ({ x with features := some (matRows m R.length (columns.length * (lags + 1))) } :
    LagInput) = X
  have hXd : X.dates = x.dates := by rw [← hX]
  have hXs : X.symbols = none := by rw [← hX]; exact hsym
  have hXc : X.columns = x.columns := by rw [← hX]
  have hXf : X.features = some (matRows m R.length (columns.length * (lags + 1))) := by rw [← hX]
  have hal : Aligned X := by
    refine ⟨fun s h => ?_, fun c h => ?_, fun f h => ?_⟩
    · rw [hXs] at h; cases h
    · rw [hXc] at h; rw [hXd, hlen]; exact hval c h
    · rw [hXf] at h
      cases h
      rw [matRows_length, hXd, hlen]
  -- the rows with all features
  have hdef : ∀ i, Defined X i ↔ i < R.length ∧ n + lags ≤ i := by
    intro i
    unfold Defined
    constructor
    · rintro ⟨f, row, hf, hrow, hv⟩
      rw [hXf] at hf
      cases hf
      have hi : i < R.length := by
        have := (List.getElem?_eq_some_iff.1 hrow).1
        rwa [matRows_length] at this
      refine ⟨hi, ?_⟩
      have hall := (matRows_all m hi).1 (fun row' hrow' => by
        rw [hrow] at hrow'; cases hrow'; exact hv)
      have hcell : ∀ c ∈ columns, ∀ k ≤ lags, cellBefore cols data (R ++ Q) i k c ≠ none := by
        intro c hc k hk
        obtain ⟨j, hj⟩ := List.mem_iff_getElem?.1 hc
        rw [← hm i j k c hi hj hk]
        exact hall j k (List.getElem?_eq_some_iff.1 hj).1 hk
      obtain ⟨c0, hc0⟩ := List.exists_mem_of_ne_nil _ hne
      have hli : lags ≤ i := by
        by_contra h
        have := hcell c0 hc0 lags (le_refl _)
        unfold cellBefore at this
        rw [if_neg h] at this
        exact this rfl
      have hd := (hn (i - lags) _ (List.getElem?_eq_getElem (by omega))).1 (by
        intro c hc
        have := hcell c hc lags (le_refl _)
        unfold cellBefore at this
        rw [if_pos hli, List.getElem?_append_left (by omega),
          List.getElem?_eq_getElem (show i - lags < R.length by omega)] at this
        exact this)
      omega
    · rintro ⟨hi, hni⟩
      refine ⟨_, _, hXf, List.getElem?_eq_getElem (by rw [matRows_length]; exact hi), ?_⟩
      refine (matRows_all m hi).2 ?_ _ (List.getElem?_eq_getElem _)
      intro j k hj hk
      rw [hm i j k _ hi (List.getElem?_eq_getElem hj) hk]
      unfold cellBefore
      rw [if_pos (show k ≤ i by omega), List.getElem?_append_left (show i - k < R.length by omega),
        List.getElem?_eq_getElem (show i - k < R.length by omega)]
      exact (hn (i - k) _ (List.getElem?_eq_getElem (by omega))).2 (by omega) _
        (List.getElem_mem hj)
  have hpast : ∀ i, i < R.length → (PastWarmup X i ↔ n + lags ≤ i) := by
    intro i hi
    constructor
    · rintro ⟨j, hj, hd, _⟩
      have := ((hdef j).1 hd).2
      omega
    · intro h
      exact ⟨i, le_refl _, (hdef i).2 ⟨hi, h⟩, fun m _ _ s hs => by rw [hXs] at hs; cases hs⟩
  obtain ⟨herr, hok⟩ := drop_warmup X hal (by rw [hXf]; exact Option.some_ne_none _)
  have hdne : X.dates ≠ [] := by rw [hXd, hx]; simpa using hR
  constructor
  · intro h
    obtain ⟨e, he⟩ := herr.2 ⟨hdne, fun i hd => by have := (hdef i).1 hd; omega⟩
    rw [he]
    -- the only error is this one
    unfold LagInput.dropWarmup at he
    rw [hXf] at he
    simp only at he
    split at he
    · cases he
    · split at he
      · cases he
      · split at he
        · cases he; rfl
        · split at he <;> cases he
  · intro h
    rcases hd : X.dropWarmup with e | y
    · exact absurd ((hdef (n + lags)).2 ⟨h, le_refl _⟩) ((herr.1 ⟨e, hd⟩).2 _)
    · obtain ⟨idx, h1, h2, h3, h4, h5, h6⟩ := hok y hd
      have hp : ∀ {α : Type} (l : List α), l.length = R.length → pick idx l = l.drop (n + lags) := by
        intro α l hl
        refine pick_drop l (n + lags) h1 (fun i => ?_)
        rw [h2 i, hXd, hlen, hl]
        constructor
        · rintro ⟨ha, hb⟩
          exact ⟨ha, (hpast i ha).1 hb⟩
        · rintro ⟨ha, hb⟩
          exact ⟨ha, (hpast i ha).2 hb⟩
      rw [hXd, hx, hp _ (by simp), ← List.map_drop] at h3
      rw [hXs] at h4
      rw [hXc] at h5
      rw [hXf, Option.map_some, hp _ (matRows_length _ _ _)] at h6
      have h5' : y.columns = x.columns.map (fun p => (p.1, p.2.drop (n + lags))) := by
        rw [h5]
        apply List.map_congr_left
        intro p hp'
        rw [hp _ (hval p hp')]
      cases y
      simp only at h3 h4 h5' h6
      subst h3 h4 h5' h6
      rfl

theorem merge_ok {sym : Sym} {lags : Nat} {i : Option String} {arrays : String → Option (List Cell)} :
    ∀ {columns : List String} (c : LagCache), (∀ col ∈ columns, ∃ v, arrays col = some v) →
      ∃ c', LagCache.merge sym lags i arrays columns c = .ok c' := by
  intro columns
  induction columns with
  | nil => intro c _; exact ⟨c, rfl⟩
  | cons col columns ih =>
    intro c h
    obtain ⟨v, hv⟩ := h col (by simp)
    simp only [LagCache.merge, hv]
    exact ih _ (fun col' h' => h col' (by simp [h']))

theorem runMerges_snoc {calls : List MergeCall} {m : MergeCall} {c c' : LagCache} :
    ∀ {c0 : LagCache}, runMerges calls c0 = .ok c →
      LagCache.merge m.symbol m.lags m.interval m.arrays m.columns c = .ok c' →
      runMerges (calls ++ [m]) c0 = .ok c' := by
  induction calls with
  | nil => intro c0 h hm; cases h; simp only [List.nil_append, runMerges, hm]
  | cons a calls ih =>
    intro c0 h hm
    simp only [runMerges, List.cons_append] at h ⊢
    rcases ha : LagCache.merge a.symbol a.lags a.interval a.arrays a.columns c0 with e | c1
    · rw [ha] at h; cases h
    · rw [ha] at h
      simp only at h ⊢
      exact ih h hm

theorem lagRow_intro {cols : List String} {data : String → Option Series} {columns : List String}
    {lags : Nat} {bars : List DRow} {m : LagMat} {n o r p : Nat} (hr : o + r < n)
    (hm : ∀ j k c, columns[j]? = some c → k ≤ lags →
      m (o + r) (j * (lags + 1) + k) = cellBefore cols data bars p k c) :
    LagRow cols data columns lags bars
      (some ((matRows m n (columns.length * (lags + 1))).drop o)) r p := by
  refine ⟨_, (List.range (columns.length * (lags + 1))).map (m (o + r)), rfl, ?_, by simp, ?_⟩
  · rw [List.getElem?_drop]
    unfold matRows
    rw [List.getElem?_map, List.getElem?_range hr]
    rfl
  · intro j k c hj hk
    have hlt : j * (lags + 1) + k < columns.length * (lags + 1) := by
      have hj' := (List.getElem?_eq_some_iff.1 hj).1
      calc j * (lags + 1) + k < j * (lags + 1) + (lags + 1) := by omega
        _ = (j + 1) * (lags + 1) := by ring
        _ ≤ columns.length * (lags + 1) := Nat.mul_le_mul_right _ hj'
    rw [List.getElem?_map, List.getElem?_range hlt, Option.map_some, hm j k c hj hk]

/-- **C69, C88.** With `lags`, for a symbol with bars in the training window: when `n`
is the warm-up of the lagged columns in the window, training drops the first `n + lags`
bars of the symbol, and fails when none is left.  Every bar left carries the values of
the lagged columns on it and on each of the `lags` bars of the symbol before it, all
inside the training window.  Test rows are never dropped; they carry the same for the
bars from the first training bar on, the `lookahead` gap included. -/
theorem training_lags {rows : List DRow} (hu : UniqueBars rows) {w la : Int} {ts : ℚ}
    {shuffle : List Nat → List Nat} (hs : ∀ l, (shuffle l).Perm l) (h0 : 0 < ts) (h1 : ts < 1)
    {ws : List WFWindow} (h : walkforwardSplit (rows.map DRow.date) w la ts shuffle = .ok ws)
    (cols : List String) :
    ∃ tl te : Nat, 0 < tl + te ∧ (ws.length : Int) = w ∧
      ∀ (k : Nat) (win : WFWindow) (first : Int) (st se sh : Store), ws[k]? = some win →
        first = nDates (rows.map DRow.date) - (w - k) * te →
        (windowStores (storeOf cols rows) (rows.map DRow.date) win) =
          { train := some st, test := some se, history := some sh } →
        ∀ (sym : Sym) (ordered inds : List String) (data : String → Option Series)
          (T E H : List DRow) (x y : LagInput), HasData inds data →
          T = barsNo rows sym (first - (la - 1) - tl) (first - (la - 1)) → T ≠ [] →
          E = barsNo rows sym first (first + te) →
          H = barsNo rows sym (first - (la - 1) - tl) (first + te) →
          symbolInput st sym ordered inds data = some x →
          symbolInput se sym ordered inds data = some y →
          ∀ (columns : List String) (lags n : Nat), columns ≠ [] →
            (∀ c ∈ columns, c ∈ cols ∨ c ∈ inds) → WarmUp cols data columns T n →
            ∀ (series : Sym → String → Option String → List Cell) (calls : List MergeCall)
              (cache : LagCache) (junk : LagMat), (∀ m ∈ calls, Passes series m) →
              runMerges calls (fun _ => none) = .ok cache →
              (∀ c, c ∈ cols ∨ c ∈ inds →
                series sym c none = H.map (fun r => cellOf cols data r c)) →
              (T.length ≤ n + lags →
                lagInputs junk sh sym columns lags inds data x y cache = .error .nothingLeft) ∧
              (n + lags < T.length → ∃ x' y' cache',
                lagInputs junk sh sym columns lags inds data x y cache = .ok (x', y', cache') ∧
                x'.dates = (T.drop (n + lags)).map DRow.date ∧
                x'.columns.map Prod.fst = x.columns.map Prod.fst ∧
                (∀ p ∈ x'.columns, p.2 = (T.drop (n + lags)).map (fun r => cellOf cols data r p.1)) ∧
                (∀ r, n + lags + r < T.length →
                  LagRow cols data columns lags T x'.features r (n + lags + r)) ∧
                y'.dates = E.map DRow.date ∧ y'.columns = y.columns ∧
                ∀ r p b, E[r]? = some b → H[p]? = some b →
                  LagRow cols data columns lags H y'.features r p) := by
  obtain ⟨tl, te, hpos, hlen, hfit, hb⟩ := split_blocks hs h0 h1 h
  have hla : 1 ≤ la := by
    by_contra hc
    unfold walkforwardSplit at h
    split at h; · cases h
    rw [if_pos (show la ≤ 0 by omega)] at h
    cases h
  refine ⟨tl, te, hpos, hlen, ?_⟩
  intro k win first st se sh hk hfirst hst sym ordered inds data T E H x y hd hT hTne hE hH hx hy
    columns lags n hcne hcols hn series calls cache junk hpass hrun hser
  obtain ⟨htest, htrain⟩ := hb k win hk
  rw [← hfirst] at htest htrain
  have htr := congrArg WindowStores.train hst
  have hte := congrArg WindowStores.test hst
  have hhi := congrArg WindowStores.history hst
  simp only at htr hte hhi
  rw [windowStores_train] at htr
  rw [windowStores_test] at hte
  split at htr; · cases htr
  split at hte; · cases hte
  rename_i htrne htene
  have hhist : (windowStores (storeOf cols rows) (rows.map DRow.date) win).history =
      some ((storeOf cols rows).slice (windowDates ((rows.map DRow.date).filter (fun d =>
        decide ((datesOfRows (rows.map DRow.date) win.train).headD 0 ≤ d ∧
          d ≤ (datesOfRows (rows.map DRow.date) win.test).getLastD 0))))) := by
    unfold windowStores
    simp only [if_neg htrne, if_neg htene]
  rw [hhist] at hhi
  have hst' := Option.some.inj htr
  have hse' := Option.some.inj hte
  have hsh' := Option.some.inj hhi
  subst hst' hse' hsh'
  -- bounds of the window
  have hkw : (k : Int) < w := by
    have := (List.getElem?_eq_some_iff.1 hk).1
    omega
  have hmul : (w - k) * (te : Int) ≤ w * te := mul_le_mul_of_nonneg_right (by omega) (by omega)
  have hmul2 : (te : Int) ≤ (w - k) * te := by
    have : (1 : Int) * te ≤ (w - k) * te := mul_le_mul_of_nonneg_right (by omega) (by omega)
    omega
  have ha : 0 ≤ first - (la - 1) - tl := by rw [hfirst]; omega
  have he : first + te ≤ nDates (rows.map DRow.date) := by rw [hfirst]; omega
  have hmem := fun d hd' => mem_history htrain htest htrne htene ha he (d := d) hd'
  -- the inputs
  obtain ⟨x1, hx1, hxi⟩ := symbolInput_bars hu (cols := cols) (ordered := ordered) hd sym
    (fun d hd' => mem_datesIn htrain hd')
  rw [hx] at hx1
  cases hx1
  obtain ⟨y1, hy1, hyi⟩ := symbolInput_bars hu (cols := cols) (ordered := ordered) hd sym
    (fun d hd' => mem_datesIn htest hd')
  rw [hy] at hy1
  cases hy1
  rw [← hT] at hxi
  rw [← hE] at hyi
  -- the history's bars
  have hHT : H = [] ++ T ++ barsNo rows sym (first - (la - 1)) (first + te) := by
    rw [hH, hT, List.nil_append]
    exact bars_append hu sym (by omega) (by omega)
  have hHE : H = barsNo rows sym (first - (la - 1) - tl) first ++ E ++ [] := by
    rw [hH, hE, List.append_nil]
    exact bars_append hu sym (by omega) (by omega)
  have hHs : H.Pairwise (fun a b => a.date < b.date) := by rw [hH]; exact barsNo_sorted hu sym _ _
  have hHne : H ≠ [] := by
    rw [hHT]
    simp [hTne]
  rcases slice_bars hu cols sym hmem with ⟨hnil, _⟩ | ⟨_, s, hs1, hs2, hs3⟩
  · rw [← hH] at hnil; exact absurd hnil hHne
  rw [← hH] at hs2 hs3
  have hsne : s.dates ≠ [] := by rw [hs2]; simpa using hHne
  have hic := inputColumn_eq (x := s) hd hs2 hs3
  obtain ⟨cache', hmerge⟩ := merge_ok (sym := sym) (lags := lags) (i := none)
    (arrays := inputColumn s inds data) cache (fun c hc => ⟨_, (hic c).1 (hcols c hc)⟩)
  have hmfs : mergeFromStore ((storeOf cols rows).slice (windowDates ((rows.map DRow.date).filter
      (fun d => decide ((datesOfRows (rows.map DRow.date) win.train).headD 0 ≤ d ∧
          d ≤ (datesOfRows (rows.map DRow.date) win.test).getLastD 0))))) sym columns lags inds data
      cache = .ok (cache', some (H.map DRow.date)) := by
    unfold mergeFromStore
    rw [hs1]
    dsimp only
    rw [if_neg hsne, hmerge]
    dsimp only
    rw [hs2]
  have hrun' := runMerges_snoc (m := ⟨sym, none, lags, columns, inputColumn s inds data⟩) hrun hmerge
  have hpass' : ∀ m ∈ calls ++ [⟨sym, none, lags, columns, inputColumn s inds data⟩],
      Passes series m := by
    intro m hm
    rcases List.mem_append.1 hm with hm | hm
    · exact hpass m hm
    · rw [List.mem_singleton] at hm
      subst hm
      intro c v hv
      simp only at hv ⊢
      by_cases hc : c ∈ cols ∨ c ∈ inds
      · rw [(hic c).1 hc] at hv
        cases hv
        exact (hser c hc).symm
      · rw [(hic c).2 hc] at hv
        cases hv
  have hsv := run_serves hpass' hrun' sym none
  have hcol' : ∀ c ∈ columns, series sym c none = H.map (fun r => cellOf cols data r c) ∧
      ∃ st, LagCache.cached cache' sym c lags none = some st := by
    intro c hc
    refine ⟨hser c (hcols c hc), ?_⟩
    exact (cached_lags hpass' hrun' sym c none lags).1.2
      ⟨_, List.mem_append_right _ (List.mem_singleton_self _), rfl, rfl, hc, le_refl _⟩
  obtain ⟨m, hm1, hm2⟩ := applyLags_bars (P := []) (R := T)
    (Q := barsNo rows sym (first - (la - 1)) (first + te)) (by rw [← hHT]; exact hHs) hxi.dates hsv
    (columns := columns) (lags := lags) junk (by rw [← hHT]; exact hcol')
  obtain ⟨m', hm1', hm2'⟩ := applyLags_bars (P := barsNo rows sym (first - (la - 1) - tl) first)
    (R := E) (Q := []) (by rw [← hHE]; exact hHs) hyi.dates hsv
    (columns := columns) (lags := lags) junk (by rw [← hHE]; exact hcol')
  rw [← hHT] at hm1 hm2
  rw [← hHE] at hm1' hm2'
  have hval : ∀ p ∈ x.columns, p.2.length = T.length := by
    intro p hp
    rw [hxi.values p hp, List.length_map]
  obtain ⟨ht1, ht2⟩ := trim_bars (Q := barsNo rows sym (first - (la - 1)) (first + te)) hxi.dates
    hxi.symbols hval (lags := lags) hcne hTne hn (m := m) (by
      intro r j k c hr hj hk
      have := hm2 r j k c hr hj hk
      rw [hHT] at this
      simpa using this)
  unfold lagInputs
  rw [hmfs]
  simp only [hm1, hm1']
  constructor
  · intro hle
    rw [ht1 hle]
  · intro hlt
    rw [ht2 hlt]
    refine ⟨_, _, _, rfl, rfl, ?_, ?_, ?_, hyi.dates, rfl, ?_⟩
    · simp only [List.map_map]
      rfl
    · intro p hp
      obtain ⟨q, hq, rfl⟩ := List.mem_map.1 hp
      simp only
      rw [hxi.values q hq, List.map_drop]
    · intro r hr
      refine lagRow_intro hr ?_
      intro j k c hj hk
      rw [hm2 (n + lags + r) j k c hr hj hk]
      unfold cellBefore
      simp only [List.length_nil, Nat.zero_add]
      by_cases hkk : k ≤ n + lags + r
      · rw [if_pos hkk, if_pos hkk, hHT, List.nil_append,
          List.getElem?_append_left (show n + lags + r - k < T.length by omega)]
      · rw [if_neg hkk, if_neg hkk]
    · intro r p b hr hp
      have hrl := (List.getElem?_eq_some_iff.1 hr).1
      have hp' : p = (barsNo rows sym (first - (la - 1) - tl) first).length + r := by
        have hq : H[(barsNo rows sym (first - (la - 1) - tl) first).length + r]? = some b := by
          rw [hHE, List.append_nil, List.getElem?_append_right (by omega), Nat.add_sub_cancel_left]
          exact hr
        have hnd : H.Nodup := by rw [hH]; exact bars_nodup hu sym _ _
        have hpl := (List.getElem?_eq_some_iff.1 hp).1
        exact (List.getElem?_inj hpl hnd).1 (hp.trans hq.symm)
      have := lagRow_intro (o := 0) (r := r) (p := p) (m := m') (n := E.length) (cols := cols)
        (data := data) (columns := columns) (lags := lags) (bars := H) (by omega) (by
          intro j k c hj hk
          rw [Nat.zero_add, hm2' r j k c hrl hj hk, hp'])
      simpa using this

/-! ## Models on intervals -/

theorem filter_pick {α : Type} (p : α → Bool) (l : List α) :
    l.filter p = pick ((List.range l.length).filter (fun i => (l[i]?).any p)) l := by
  have := maskRows_pick (fun i => (l[i]?).any p) l
  rw [← this]
  clear this
  unfold maskRows
  have e : (List.range l.length).map (fun i => (l[i]?).any p) = l.map p := by
    apply List.ext_getElem?
    intro i
    rw [List.getElem?_map, List.getElem?_map]
    rcases Nat.lt_or_ge i l.length with h | h
    · rw [List.getElem?_range h, List.getElem?_eq_getElem h]
      simp [List.getElem?_eq_getElem h]
    · rw [List.getElem?_eq_none (by simpa using h), List.getElem?_eq_none h]
      rfl
  rw [e]
  clear e
  induction l with
  | nil => rfl
  | cons a l ih =>
    rw [List.map_cons, List.zip_cons_cons, List.filter_cons, List.filter_cons]
    by_cases h : p a = true
    · rw [if_pos h, if_pos h, List.map_cons, ih]
    · rw [if_neg h, if_neg h, ih]

/-- The bars of an interval whose date is kept for training. -/
theorem kept_places {α : Type} (bars : List (Date × α))
    (hs : (bars.map Prod.fst).Pairwise (· < ·)) (train test : List Date)
    (hlt : ∀ d ∈ train, ∀ d' ∈ test, d < d') {la : Int} (hla : 1 ≤ la) (i : Nat) :
    i ∈ (List.range bars.length).filter (fun i => (bars[i]?).any (fun b : Date × α =>
        decide (b.1 ∈ (lookaheadTrainDates (bars.map Prod.fst) train test la).1))) ↔
      ∃ b, bars[i]? = some b ∧ b.1 ∈ train ∧
        ∀ (j : Nat) b', bars[j]? = some b' → b'.1 ∈ test → (i : Int) + la ≤ j := by
  have hget : ∀ j, j < bars.length → ∀ b, bars[j]? = some b → (bars.map Prod.fst).getD j 0 = b.1 := by
    intro j hj b hb
    rw [List.getD_eq_getElem?_getD, List.getElem?_map, hb]
    rfl
  have hlti : ∀ (i j : Nat) (b b' : Date × α), bars[i]? = some b → bars[j]? = some b' → b.1 < b'.1 → i < j := by
    intro i j b b' hb hb' h
    by_contra hc
    obtain ⟨hi, e⟩ := List.getElem?_eq_some_iff.1 hb
    obtain ⟨hj, e'⟩ := List.getElem?_eq_some_iff.1 hb'
    rcases Nat.lt_or_ge j i with hji | hji
    · have := List.pairwise_iff_getElem.1 hs j i (by simpa) (by simpa) hji
      simp only [List.getElem_map, e, e'] at this
      exact lt_asymm this h
    · have : i = j := by omega
      subst this
      rw [hb] at hb'
      cases hb'
      exact lt_irrefl _ h
  have hinj : ∀ (i j : Nat) (b b' : Date × α), bars[i]? = some b → bars[j]? = some b' → b.1 = b'.1 → i = j := by
    intro i j b b' hb hb' h
    obtain ⟨hi, e⟩ := List.getElem?_eq_some_iff.1 hb
    obtain ⟨hj, e'⟩ := List.getElem?_eq_some_iff.1 hb'
    rcases Nat.lt_trichotomy i j with hij | hij | hij
    · have := List.pairwise_iff_getElem.1 hs i j (by simpa) (by simpa) hij
      simp only [List.getElem_map, e, e', h] at this
      exact absurd this (lt_irrefl _)
    · exact hij
    · have := List.pairwise_iff_getElem.1 hs j i (by simpa) (by simpa) hij
      simp only [List.getElem_map, e, e', h] at this
      exact absurd this (lt_irrefl _)
  rw [List.mem_filter, List.mem_range]
  rcases Nat.lt_or_ge i bars.length with hi | hi
  swap
  · constructor
    · intro h; omega
    · rintro ⟨b, hb, _⟩
      have := (List.getElem?_eq_some_iff.1 hb).1
      omega
  have hbi := List.getElem?_eq_getElem hi
  generalize bars[i] = b at hbi
  simp only [hi, true_and, hbi, Option.any_some, decide_eq_true_eq, Option.some.injEq,
    exists_eq_left']
  unfold lookaheadTrainDates
  by_cases hc : la ≤ 1 ∨ bars.map Prod.fst = []
  · rw [if_pos hc]
    simp only
    constructor
    · intro h
      refine ⟨h, fun j b' hb' ht => ?_⟩
      have := hlti i j b b' hbi hb' (hlt _ h _ ht)
      rcases hc with hc | hc
      · omega
      · rw [List.map_eq_nil_iff] at hc
        rw [hc] at hi
        simp at hi
    · exact fun h => h.1
  · rw [if_neg hc]
    simp only
    generalize hti : (List.range (bars.map Prod.fst).length).filter
      (fun i => decide ((bars.map Prod.fst).getD i 0 ∈ train)) = trainIdx
    generalize hte : (List.range (bars.map Prod.fst).length).filter
      (fun i => decide ((bars.map Prod.fst).getD i 0 ∈ test)) = testIdx
    have hmt : ∀ j : Nat, j ∈ trainIdx ↔ ∃ b', bars[j]? = some b' ∧ b'.1 ∈ train := by
      intro j
      rw [← hti, List.mem_filter, List.mem_range, List.length_map, decide_eq_true_eq]
      constructor
      · rintro ⟨hj, h⟩
        exact ⟨_, List.getElem?_eq_getElem hj, by
          rw [← hget j hj _ (List.getElem?_eq_getElem hj)]; exact h⟩
      · rintro ⟨b', hb', h⟩
        have hj := (List.getElem?_eq_some_iff.1 hb').1
        exact ⟨hj, by rw [hget j hj b' hb']; exact h⟩
    have hme : ∀ j : Nat, j ∈ testIdx ↔ ∃ b', bars[j]? = some b' ∧ b'.1 ∈ test := by
      intro j
      rw [← hte, List.mem_filter, List.mem_range, List.length_map, decide_eq_true_eq]
      constructor
      · rintro ⟨hj, h⟩
        exact ⟨_, List.getElem?_eq_getElem hj, by
          rw [← hget j hj _ (List.getElem?_eq_getElem hj)]; exact h⟩
      · rintro ⟨b', hb', h⟩
        have hj := (List.getElem?_eq_some_iff.1 hb').1
        exact ⟨hj, by rw [hget j hj b' hb']; exact h⟩
    have hmap : ∀ l : List Nat, (∀ j ∈ l, j ∈ trainIdx) →
        (b.1 ∈ l.map (fun j => (bars.map Prod.fst).getD j 0) ↔ i ∈ l) := by
      intro l hl
      rw [List.mem_map]
      constructor
      · rintro ⟨j, hj, e⟩
        obtain ⟨b', hb', _⟩ := (hmt j).1 (hl j hj)
        rw [hget j (List.getElem?_eq_some_iff.1 hb').1 b' hb'] at e
        rw [hinj i j b b' hbi hb' e.symm]
        exact hj
      · intro h
        exact ⟨i, h, hget i hi b hbi⟩
    have hsorted : testIdx.Pairwise (· < ·) := by
      rw [← hte]
      exact List.pairwise_lt_range.filter _
    clear hti hte
    rcases trainIdx with _ | ⟨a, tr⟩
    · simp only [List.not_mem_nil, false_iff, not_and]
      intro h
      exact absurd ((hmt i).2 ⟨b, hbi, h⟩) (by simp)
    rcases testIdx with _ | ⟨t, te⟩
    · simp only
      rw [hmap _ (fun j h => h), hmt i]
      constructor
      · rintro ⟨b', hb', h⟩
        rw [hbi] at hb'
        cases hb'
        exact ⟨h, fun j b' hb' ht => absurd ((hme j).2 ⟨b', hb', ht⟩) (by simp)⟩
      · rintro ⟨h, _⟩
        exact ⟨b, hbi, h⟩
    · simp only
      rw [hmap _ (fun j h => List.mem_of_mem_filter h), List.mem_filter, hmt i, decide_eq_true_eq]
      constructor
      · rintro ⟨⟨b', hb', h⟩, hle⟩
        rw [hbi] at hb'
        cases hb'
        refine ⟨h, fun j b' hb' ht => ?_⟩
        rcases List.mem_cons.1 ((hme j).2 ⟨b', hb', ht⟩) with rfl | hj
        · omega
        · have := (List.pairwise_cons.1 hsorted).1 j hj
          omega
      · rintro ⟨h, hall⟩
        obtain ⟨b', hb', ht⟩ := (hme t).1 (by simp)
        have := hall t b' hb' ht
        exact ⟨⟨b, hbi, h⟩, by omega⟩

/-- **C88.** A model on a longer interval holds out `lookahead` bars of that interval: it
is trained, in order, on exactly the interval's bars dated in the training window that
are at least `lookahead` of its bars before every one dated in the test window. -/
theorem interval_training_rows {α : Type} (bars : List (Date × α))
    (hs : (bars.map Prod.fst).Pairwise (· < ·)) (train test : List Date)
    (hlt : ∀ d ∈ train, ∀ d' ∈ test, d < d') {la : Int} (hla : 1 ≤ la) :
    ∃ idx : List Nat, idx.Pairwise (· < ·) ∧
      (∀ i, i ∈ idx ↔ ∃ b, bars[i]? = some b ∧ b.1 ∈ train ∧
        ∀ (j : Nat) b', bars[j]? = some b' → b'.1 ∈ test → (i : Int) + la ≤ j) ∧
      rowsInDates bars (lookaheadTrainDates (bars.map Prod.fst) train test la).1 = pick idx bars := by
  exact ⟨_, List.pairwise_lt_range.filter _, kept_places bars hs train test hlt hla, filter_pick _ _⟩

/-! ## Examples -/

namespace Demo

/-- Bars of two symbols; `B` misses two dates. -/
def trainFrame : List DRow :=
  ([1, 2, 3, 4, 5, 6, 7, 8, 9, 10].map (fun d : Int => (⟨"A", d, fun _ => some (d * 10)⟩ : DRow))) ++
  ([1, 2, 3, 5, 6, 7, 8, 10].map (fun d : Int => (⟨"B", d, fun _ => some (d * 100)⟩ : DRow)))

theorem trainFrame_unique : UniqueBars trainFrame := by unfold UniqueBars trainFrame; decide +kernel

/-- An indicator without a value on its first two dates. -/
def trainInd : Series := [(1, none), (2, none), (3, some 3), (4, some 4), (5, some 5), (6, some 6),
  (7, some 7), (8, some 8), (9, some 9), (10, some 10)]

def trainData (c : String) : Option Series := if c = "ind" then some trainInd else none

theorem train_hasData : HasData ["ind"] trainData := by
  intro i hi
  rw [List.mem_singleton] at hi
  subst hi
  exact ⟨trainInd, rfl, by decide +kernel⟩

/-- A window: training bars 1 to 5, two bars of look-ahead, test bars 7 to 9. -/
def trainWin : WFWindow := { train := [14, 13, 12, 11, 5, 4, 3, 2, 1], test := [7, 8, 9, 16, 17] }

/-- It is the window of a split with the training rows reversed. -/
theorem train_split : walkforwardSplit (trainFrame.map DRow.date) 1 2 (5/8) List.reverse =
    .ok [trainWin] := by decide +kernel

example : ∀ l : List Nat, l.reverse.Perm l := List.reverse_perm

def trainStores : WindowStores :=
  windowStores (storeOf ["close"] trainFrame) (trainFrame.map DRow.date) trainWin

/-- The training input of `B`: in date order, with the indicator's values on its dates. -/
example : (trainStores.train.bind (fun st => symbolInput st "B" ["open", "close"] ["ind"] trainData)) =
    some { dates := [2, 3, 5, 6], symbols := none,
           columns := [("close", [some 200, some 300, some 500, some 600]),
             ("ind", [none, some 3, some 5, some 6])], features := none } := by decide +kernel

example : (trainStores.test.bind (fun st => symbolInput st "B" ["open", "close"] ["ind"] trainData)).map
    LagInput.dates = some [8, 10] := by decide +kernel

example : (barsNo trainFrame "B" 1 6).map DRow.date = [2, 3, 5, 6] ∧
    (barsNo trainFrame "B" 7 10).map DRow.date = [8, 10] ∧
    (barsNo trainFrame "B" 1 10).map DRow.date = [2, 3, 5, 6, 7, 8, 10] := by decide +kernel

/-- The columns have a value from the second training bar of `B` on. -/
example : WarmUp ["close"] trainData ["close", "ind"] (barsNo trainFrame "B" 1 6) 1 := by
  intro i r h
  rw [show barsNo trainFrame "B" 1 6 = [2, 3, 5, 6].map
    (fun d : Int => (⟨"B", d, fun _ => some (d * 100)⟩ : DRow)) from rfl] at h
  match i, h with
  | 0, h => cases h; decide +kernel
  | 1, h => cases h; decide +kernel
  | 2, h => cases h; decide +kernel
  | 3, h => cases h; decide +kernel
  | i + 4, h => simp at h

def trainLagged : Option (LagInput × LagInput) :=
  trainStores.train.bind (fun st => trainStores.test.bind (fun se =>
    trainStores.history.bind (fun sh =>
      (symbolInput st "B" ["close"] ["ind"] trainData).bind (fun x =>
        (symbolInput se "B" ["close"] ["ind"] trainData).bind (fun y =>
          (lagInputs (fun _ _ => some 99) sh "B" ["close", "ind"] 1 ["ind"] trainData x y
            (fun _ => none)).toOption.map (fun r => (r.1, r.2.1)))))))

/-- With one lag, training drops two bars of `B`; the lag of its bar of date 5 is its bar
of date 3. -/
example : trainLagged.map Prod.fst = some
    { dates := [5, 6], symbols := none,
      columns := [("close", [some 500, some 600]), ("ind", [some 5, some 6])],
      features := some [[some 500, some 300, some 5, some 3], [some 600, some 500, some 6, some 5]] } := by
  decide +kernel

/-- The lag of its first test bar is its bar of date 7, in the gap. -/
example : trainLagged.map (fun p => p.2.features) = some (some
    [[some 800, some 700, some 8, some 7], [some 1000, some 800, some 10, some 8]]) := by
  decide +kernel

/-- With three lags nothing of `B` is left to train on. -/
example : (trainStores.train.bind (fun st => trainStores.history.bind (fun sh =>
      (symbolInput st "B" ["close"] ["ind"] trainData).map (fun x =>
          match lagInputs (fun _ _ => some 99) sh "B" ["close", "ind"] 3 ["ind"] trainData x
            { x with dates := [], columns := [] } (fun _ => none) with
          | .error e => e == .nothingLeft
          | .ok _ => false)))) = some true := by
  decide +kernel

/-- Weekly bars 10, 20, 30 in training and 40 in test: with a look-ahead of two the last
training bar is held out. -/
example : rowsInDates [(10, "a"), (20, "b"), (30, "c"), (40, "d")]
    (lookaheadTrainDates [10, 20, 30, 40] [10, 15, 20, 25, 30] [35, 40] 2).1 =
      [(10, "a"), (20, "b")] := by decide +kernel

end Demo

end PyBroker
