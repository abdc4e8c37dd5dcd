import Verif.Scope.Input
import Verif.Props.Train

/-!
# The input a model is given on a bar (C94, and the lag features of C40)
-/

namespace PyBroker

/-! ## Specification -/

namespace Spec

/-- The rows of a symbol that belong to the window, in date order. -/
def windowBars (rows : List DRow) (window : List Date) (sym : Sym) : List DRow :=
  (rows.filter (fun r => r.symbol = sym ∧ r.date ∈ window)).insertionSort
    (fun a b => a.date ≤ b.date)

/-- The value of an input column on a bar: the bar's date, its own value, or that of the
indicator of this name. -/
def inputCell (cols : List String) (data : String → Option Series) (r : DRow) (c : String) : Cell :=
  if c = "date" then some ((r.date : Int) : ℚ) else cellOf cols data r c

/-- The lag features of a bar: for each column its value on the bar, one bar before, and so
on up to `lags` bars before; NaN where there is no such bar. -/
def pastRow (cols : List String) (data : String → Option Series) (columns : List String)
    (lags : Nat) (history : List DRow) (b : DRow) : List Cell :=
  columns.flatMap (fun c => (List.range (lags + 1)).map (fun k =>
    ((history.filter (fun r => r.date ≤ b.date)).reverse[k]?).bind (fun r => inputCell cols data r c)))

/-- The scope of a backtest over the window `win` of the frame `rows`, whose lag history is
the window `hwin`: no bar has been read yet. -/
structure InBacktest (rows : List DRow) (cols : List String) (win hwin : List Date) (s : InScope) :
    Prop where
  unique : UniqueBars rows
  store : s.store = (storeOf cols rows).slice win
  history : s.history = some ((storeOf cols rows).slice hwin)
  within : ∀ r ∈ rows, r.date ∈ win → r.date ∈ hwin
  no_gap : ∀ a ∈ rows, ∀ b ∈ rows, a.symbol = b.symbol → a.date ∈ win → a.date ≤ b.date →
    b.date ∈ hwin → b.date ∈ win
  ordered : s.ordered.Nodup
  sorted : ∀ i sym ser, s.ind.data i sym = some ser → (ser.map Prod.fst).Pairwise (· < ·)
  series : ∀ i sym ser, s.ind.bound i = false → s.ind.data i sym = some ser → ∀ d,
    d ∈ ser.map Prod.fst ↔ ∃ r ∈ rows, r.symbol = sym ∧ r.date = d
  mask : ∀ r ∈ rows, r.date ∈ s.ind.filterDates ↔ r.date ∈ win
  names : ∀ name src, s.sources name = some src → ∀ i ∈ src.indicators,
    s.ind.bound i = false ∧ i ∉ cols ∧ i ≠ "date"
  lagged : ∀ name sym tm l, s.models name sym = some tm → tm.lagColumns = some l →
    l ≠ [] ∧ "date" ∉ l
  fresh : s.ind.cache = [] ∧ s.lagCache = (fun _ => none) ∧ s.historyDates = (fun _ => none) ∧
    s.depth = (fun _ _ => none) ∧ s.inputs = []

/-- The input of a model for a symbol, without caches: the columns read, the lag features,
then the model's own selection and preparation. -/
def modelInput (rows : List DRow) (cols : List String) (win hwin : List Date) (s : InScope)
    (sym : Sym) (name : String) : Except InputErr LagInput :=
  let bars := windowBars rows win sym
  let data := fun i => s.ind.data i sym
  if bars = [] then .error .symbolNotFound
  else match s.sources name, s.models name sym with
    | none, _ => .error .modelNotFound
    | some _, none => .error .notTrained
    | some src, some tm =>
      let defer : Bool := src.lags.isSome && tm.lagColumns.isNone && tm.inputCols.isNone
      match if defer then .ok none else resolveLagCols s.ordered src tm none with
      | .error e => .error e
      | .ok early =>
        if src.indicators.any (fun i => (data i).isNone) then .error (.read .indicatorNotFound)
        else
          let names := (neededCols s.ordered src tm early).filter (fun c => c = "date" ∨ c ∈ cols) ++
            src.indicators.eraseDups
          match if defer then resolveLagCols s.ordered src tm (some names) else .ok early with
          | .error e => .error e
          | .ok lagCols =>
            let x : LagInput := {
              dates := bars.map DRow.date
              symbols := none
              columns := names.map (fun c => (c, bars.map (fun r => inputCell cols data r c)))
              features := none }
            match lagCols, src.lags with
            | some lc, some n =>
              if lc.all (fun c => c ∈ names) then
                let f := bars.map (pastRow cols data lc n (windowBars rows hwin sym))
                finishInput src tm { x with features := some f }
              else .error .missingLagCol
            | _, _ => finishInput src tm x

end Spec

open Spec

/-! ## Bars of a window -/

theorem windowBars_eq {rows : List DRow} (hu : UniqueBars rows) (window : List Date) (sym : Sym) :
    windowBars rows window sym = (symRows rows sym).filter (fun r => r.date ∈ window) := by
  have hu' : UniqueBars (rows.filter (fun r => decide (r.date ∈ window))) := hu.filter _
  have e : windowBars rows window sym = symRows (rows.filter (fun r => decide (r.date ∈ window))) sym := by
    unfold windowBars symRows
    rw [List.filter_filter]
    congr 1
    apply List.filter_congr
    intro r _
    simp
  rw [e]
  refine List.Perm.eq_of_pairwise (le := fun a b : DRow => a.date < b.date)
    (fun a b _ _ h h' => absurd h (lt_asymm h')) (symRows_sorted hu' sym)
    ((symRows_sorted hu sym).filter _) ?_
  refine (symRows_perm _ _).trans ?_
  refine List.Perm.trans ?_ ((symRows_perm rows sym).filter _).symm
  rw [List.filter_filter, List.filter_filter]
  apply List.Perm.of_eq
  apply List.filter_congr
  intro r _
  exact Bool.and_comm _ _

theorem windowBars_mem {rows : List DRow} {window : List Date} {sym : Sym} {r : DRow} :
    r ∈ windowBars rows window sym ↔ r ∈ rows ∧ r.symbol = sym ∧ r.date ∈ window := by
  unfold windowBars
  rw [(List.perm_insertionSort _ _).mem_iff, List.mem_filter]
  simp

theorem windowBars_sorted {rows : List DRow} (hu : UniqueBars rows) (window : List Date) (sym : Sym) :
    (windowBars rows window sym).Pairwise (fun a b => a.date < b.date) := by
  rw [windowBars_eq hu]
  exact (symRows_sorted hu sym).filter _

/-- The bars of a window of the history, cut at one of its dates. -/
theorem barsTo_window {rows : List DRow} (hu : UniqueBars rows) (window : List Date) (sym : Sym)
    (t : Date) : barsTo rows window sym t =
      (windowBars rows window sym).filter (fun r => r.date ≤ t) := by
  rw [barsTo_eq hu, windowBars_eq hu, List.filter_filter]
  apply List.filter_congr
  intro r _
  by_cases h1 : r.date ∈ window <;> by_cases h2 : r.date ≤ t <;> simp [h1, h2]

theorem split_tail {l : List DRow} (hs : l.Pairwise (fun a b => a.date < b.date)) (p : DRow → Bool)
    (hp : ∀ a ∈ l, ∀ b ∈ l, a.date ≤ b.date → p a = true → p b = true) :
    l = l.filter (fun a => !p a) ++ l.filter p := by
  induction l with
  | nil => rfl
  | cons a l ih =>
    rw [List.pairwise_cons] at hs
    by_cases ha : p a = true
    · have hall : ∀ b ∈ a :: l, p b = true := by
        intro b hb
        refine hp a (by simp) b hb ?_ ha
        rcases List.mem_cons.1 hb with rfl | hb
        · exact le_refl _
        · exact (hs.1 b hb).le
      rw [List.filter_eq_self.2 hall, List.filter_eq_nil_iff.2 (fun b hb => by simp [hall b hb])]
      rfl
    · rw [List.filter_cons_of_neg ha, List.filter_cons_of_pos (by simpa using ha), List.cons_append,
        ← ih hs.2 (fun a ha b hb => hp a (by simp [ha]) b (by simp [hb]))]

theorem Spec.InBacktest.suffix {rows : List DRow} {cols : List String} {win hwin : List Date} {s : InScope}
    (h : InBacktest rows cols win hwin s) (sym : Sym) :
    ∃ P, windowBars rows hwin sym = P ++ windowBars rows win sym := by
  have hs := windowBars_sorted h.unique hwin sym
  refine ⟨_, (split_tail hs (fun r => decide (r.date ∈ win)) ?_).trans (congrArg _ ?_)⟩
  · intro a ha b hb hab hw
    rw [windowBars_mem] at ha hb
    exact decide_eq_true (h.no_gap a ha.1 b hb.1 (ha.2.1.trans hb.2.1.symm) (by simpa using hw) hab hb.2.2)
  · rw [windowBars_eq h.unique, windowBars_eq h.unique, List.filter_filter]
    apply List.filter_congr
    intro r hr
    have hm : r ∈ rows := (List.mem_filter.1 ((symRows_perm rows sym).mem_iff.1 hr)).1
    by_cases h1 : r.date ∈ win
    · simp [h1, h.within r hm h1]
    · simp [h1]

/-- The arrays of a symbol in a window. -/
theorem slice_window {rows : List DRow} (hu : UniqueBars rows) (cols : List String)
    (window : List Date) (sym : Sym) :
    (windowBars rows window sym = [] ∧ ((storeOf cols rows).slice window).arrays sym = none) ∨
    (windowBars rows window sym ≠ [] ∧ ∃ a, ((storeOf cols rows).slice window).arrays sym = some a ∧
      a.dates = (windowBars rows window sym).map DRow.date ∧
      ∀ c, a.colOf c = if c = "date" ∨ c ∈ cols then
        some ((windowBars rows window sym).map (fun r => inputCell cols (fun _ => none) r c)) else none) := by
  have h := slice_arrays hu cols window sym
  rw [← windowBars_eq hu] at h
  rcases h with h | ⟨h1, a, ha, hda, hca⟩
  · exact .inl h
  · refine .inr ⟨h1, a, ha, hda, fun c => ?_⟩
    unfold SymArrays.colOf
    by_cases hc : c = "date"
    · rw [if_pos hc, if_pos (.inl hc), hda, List.map_map]
      congr 1
      apply List.map_congr_left
      intro r _
      simp [inputCell, hc]
    · rw [if_neg hc, hca]
      by_cases hm : c ∈ cols
      · rw [if_pos hm, if_pos (.inr hm)]
        congr 1
        apply List.map_congr_left
        intro r _
        simp [inputCell, hc, cellOf, hm]
      · rw [if_neg hm, if_neg (by simp [hc, hm])]

theorem inputCell_data {cols : List String} {data data' : String → Option Series} {r : DRow}
    {c : String} (h : c = "date" ∨ c ∈ cols) : inputCell cols data r c = inputCell cols data' r c := by
  unfold inputCell cellOf
  rcases h with h | h
  · rw [if_pos h, if_pos h]
  · rw [if_pos h, if_pos h]

/-- The column merged into the lag cache. -/
theorem historyColumn_eq {rows : List DRow} {cols : List String} {win hwin : List Date} {s0 s : InScope}
    (h : InBacktest rows cols win hwin s0) (hd : s.ind.data = s0.ind.data) {sym : Sym}
    (hne : windowBars rows hwin sym ≠ []) (c : String) :
    s.historyColumn ((storeOf cols rows).slice hwin) sym
      ((windowBars rows hwin sym).map DRow.date) c =
      if c = "date" ∨ c ∈ cols ∨ (s0.ind.data c sym).isSome then
        some ((windowBars rows hwin sym).map (fun r => inputCell cols (fun i => s0.ind.data i sym) r c))
      else none := by
  unfold InScope.historyColumn
  rcases slice_window h.unique cols hwin sym with ⟨h0, _⟩ | ⟨_, a, ha, _, hca⟩
  · exact absurd h0 hne
  · rw [ha, Option.bind_some, hca, hd]
    by_cases hc : c = "date" ∨ c ∈ cols
    · rw [if_pos hc, if_pos (by tauto)]
      simp only
      congr 1
      exact List.map_congr_left (fun r _ => inputCell_data hc)
    · rw [if_neg hc]
      rw [not_or] at hc
      simp only
      rcases hs : s0.ind.data c sym with _ | ser
      · rw [if_neg (by simp [hc])]; rfl
      · rw [if_pos (by simp), Option.map_some, onDate_eq (h.sorted c sym ser hs), List.map_map]
        congr 1
        apply List.map_congr_left
        intro r _
        simp [inputCell, cellOf, hc, hs]

/-- The values served of an indicator. -/
theorem served_bars {rows : List DRow} {cols : List String} {win hwin : List Date} {s : InScope}
    (h : InBacktest rows cols win hwin s) {i : String} {sym : Sym} {ser : Series}
    (hb : s.ind.bound i = false) (hc : i ∉ cols) (hi : i ≠ "date")
    (hs : s.ind.data i sym = some ser) :
    s.ind.served i ser = (windowBars rows win sym).map
      (fun r => inputCell cols (fun i => s.ind.data i sym) r i) := by
  have hso := h.sorted i sym ser hs
  have hdates : ser.map Prod.fst = (symRows rows sym).map DRow.date := by
    have h2 : ((symRows rows sym).map DRow.date).Pairwise (· < ·) :=
      List.pairwise_map.2 (symRows_sorted h.unique sym)
    refine List.Perm.eq_of_pairwise (le := fun a b : Date => a < b)
      (fun a b _ _ h h' => absurd h (lt_asymm h')) hso h2 ?_
    rw [List.perm_ext_iff_of_nodup (hso.imp ne_of_lt) (h2.imp ne_of_lt)]
    intro d
    rw [h.series i sym ser hb hs, List.mem_map]
    constructor
    · rintro ⟨r, hr, h1, h2⟩
      exact ⟨r, (symRows_perm rows sym).mem_iff.2 (List.mem_filter.2 ⟨hr, by simpa using h1⟩), h2⟩
    · rintro ⟨r, hr, h2⟩
      have := List.mem_filter.1 ((symRows_perm rows sym).mem_iff.1 hr)
      exact ⟨r, this.1, by simpa using this.2, h2⟩
  have hval : ser = (symRows rows sym).map (fun r => (r.date, onDate ser r.date)) := by
    have hv := onDate_eq hso (ser.map Prod.fst)
    have key : ∀ p ∈ ser, onDate ser p.1 = p.2 := by
      intro p hp
      obtain ⟨k, hk⟩ := List.mem_iff_getElem?.1 hp
      have h1 := (aligned_values hso (ser.map Prod.fst) k).1 p.1 p.2
        (by rw [List.getElem?_map, hk]; rfl) hp
      rw [hv, List.getElem?_map, List.getElem?_map, hk] at h1
      simpa using h1
    calc ser = ser.map (fun p => (p.1, onDate ser p.1)) := by
          conv_lhs => rw [← List.map_id ser]
          apply List.map_congr_left
          intro p hp
          rw [key p hp]; rfl
      _ = (ser.map Prod.fst).map (fun d => (d, onDate ser d)) := by rw [List.map_map]; rfl
      _ = _ := by rw [hdates, List.map_map]; rfl
  unfold IndScope.served
  rw [if_neg (by rw [hb]; simp)]
  conv_lhs => rw [hval]
  rw [List.filter_map, List.map_map, windowBars_eq h.unique]
  have hf : (symRows rows sym).filter ((fun p : Date × Cell => decide (p.1 ∈ s.ind.filterDates)) ∘
      (fun r => (r.date, onDate ser r.date))) =
      (symRows rows sym).filter (fun r => decide (r.date ∈ win)) := by
    apply List.filter_congr
    intro r hr
    have hm : r ∈ rows := (List.mem_filter.1 ((symRows_perm rows sym).mem_iff.1 hr)).1
    simp only [Function.comp_apply]
    exact decide_eq_decide.2 (h.mask r hm)
  rw [hf]
  apply List.map_congr_left
  intro r _
  simp [inputCell, cellOf, hc, hi, hs]

/-! ## The lag features of a window -/

theorem flat_range {α : Type} {n : Nat} {f : String → Nat → α} : ∀ (lc : List String) (g : Nat → α),
    (∀ j k c, lc[j]? = some c → k ≤ n → g (j * (n + 1) + k) = f c k) →
    (List.range (lc.length * (n + 1))).map g =
      lc.flatMap (fun c => (List.range (n + 1)).map (f c)) := by
  intro lc
  induction lc with
  | nil => intro g _; simp
  | cons c lc ih =>
    intro g h
    rw [List.length_cons, Nat.add_mul, Nat.one_mul, Nat.add_comm, List.range_add, List.map_append,
      List.flatMap_cons, List.map_map]
    congr 1
    · apply List.map_congr_left
      intro k hk
      rw [List.mem_range] at hk
      have := h 0 k c rfl (by omega)
      simpa using this
    · apply ih
      intro j k c' hj hk
      have := h (j + 1) k c' hj hk
      rw [← this]
      simp only [Function.comp_apply]
      congr 1
      ring

theorem take_to {l : List DRow} (hs : l.Pairwise (fun a b => a.date < b.date)) {p : Nat} {b : DRow}
    (hb : l[p]? = some b) : l.filter (fun r => r.date ≤ b.date) = l.take (p + 1) := by
  induction l generalizing p with
  | nil => simp at hb
  | cons a l ih =>
    rw [List.pairwise_cons] at hs
    rcases p with _ | p
    · simp only [List.getElem?_cons_zero, Option.some.injEq] at hb
      subst hb
      rw [List.filter_cons_of_pos (by simp), List.filter_eq_nil_iff.2]
      · rfl
      · intro r hr
        simpa using hs.1 r hr
    · rw [List.getElem?_cons_succ] at hb
      rw [List.filter_cons_of_pos (by simpa using (hs.1 b (List.mem_of_getElem? hb)).le), ih hs.2 hb]
      rfl

theorem reverse_take {l : List DRow} {p k : Nat} (hp : p < l.length) :
    (l.take (p + 1)).reverse[k]? = if k ≤ p then l[p - k]? else none := by
  have hlen : (l.take (p + 1)).length = p + 1 := by rw [List.length_take]; omega
  by_cases hk : k ≤ p
  · rw [if_pos hk, List.getElem?_reverse (by omega), hlen, List.getElem?_take, if_pos (by omega)]
    rfl
  · rw [if_neg hk, List.getElem?_eq_none_iff, List.length_reverse]
    omega

/-- The lag features of the bars of a window. -/
theorem features_eq {rows : List DRow} {cols : List String} {win hwin : List Date} {s : InScope}
    (h : InBacktest rows cols win hwin s) (sym : Sym) {x : LagInput}
    (hx : x.dates = (windowBars rows win sym).map DRow.date) {series : String → List Cell}
    {cache : LagCache} (hsv : Serves series cache sym none) {columns : List String} {lags : Nat}
    (junk : LagMat) (hdate : "date" ∉ columns)
    (hcol : ∀ c ∈ columns, series c =
        (windowBars rows hwin sym).map (fun r => inputCell cols (fun i => s.ind.data i sym) r c) ∧
      ∃ st, cache.cached sym c lags none = some st) :
    applyLags junk x columns lags cache sym ((windowBars rows hwin sym).map DRow.date) none =
      .ok { x with features := some ((windowBars rows win sym).map (pastRow cols
        (fun i => s.ind.data i sym) columns lags (windowBars rows hwin sym))) } := by
  obtain ⟨P, hP⟩ := h.suffix sym
  have hs := windowBars_sorted h.unique hwin sym
  generalize hH : windowBars rows hwin sym = H at *
  generalize hR : windowBars rows win sym = R at *
  generalize hD : (fun i => s.ind.data i sym) = data at *
  have hHe : H = P ++ R ++ [] := by rw [hP, List.append_nil]
  have hs' := hs
  rw [hHe] at hs' hcol
  obtain ⟨m, hm, hval⟩ := applyLags_bars (cols := cols) (data := data) hs' hx hsv junk
    (columns := columns) (lags := lags) (by
      intro c hc
      refine ⟨?_, (hcol c hc).2⟩
      rw [(hcol c hc).1]
      apply List.map_congr_left
      intro r _
      have : c ≠ "date" := fun e => hdate (e ▸ hc)
      simp [inputCell, this])
  rw [← hHe] at hm
  rw [hm]
  congr 3
  apply List.ext_getElem?
  intro r
  rw [List.getElem?_map]
  unfold matRows
  rw [List.getElem?_map]
  rcases Nat.lt_or_ge r R.length with hr | hr
  · rw [List.getElem?_range hr, List.getElem?_eq_getElem hr, Option.map_some, Option.map_some]
    congr 1
    unfold pastRow
    apply flat_range
    intro j k c hj hk
    have hp : H[P.length + r]? = some R[r] := by
      rw [hP, List.getElem?_append_right (by omega), Nat.add_sub_cancel_left,
        List.getElem?_eq_getElem hr]
    have hlt : P.length + r < H.length := by
      rw [hP, List.length_append]; omega
    rw [hval r j k c hr hj hk, ← hHe, take_to hs hp, reverse_take hlt]
    unfold cellBefore
    have hc : c ≠ "date" := fun e => hdate (e ▸ List.mem_of_getElem? hj)
    split
    · congr 1
      funext r
      simp [inputCell, hc]
    · rfl
  · rw [List.getElem?_eq_none_iff.2 (by simpa using hr), List.getElem?_eq_none_iff.2 hr]
    rfl

/-! ## The state between reads -/

/-- What the caches of a scope hold after any reads. -/
structure InInv (rows : List DRow) (cols : List String) (win hwin : List Date) (s0 s : InScope) :
    Prop where
  store : s.store = s0.store
  history : s.history = s0.history
  ordered : s.ordered = s0.ordered
  sources : s.sources = s0.sources
  models : s.models = s0.models
  data : s.ind.data = s0.ind.data
  bound : s.ind.bound = s0.ind.bound
  mask : s.ind.filterDates = s0.ind.filterDates
  coherent : s.ind.Coherent
  dates : ∀ sym h, s.historyDates sym = some h → h = (windowBars rows hwin sym).map DRow.date
  merges : ∃ calls, (∀ m ∈ calls, Passes (fun sym c _ =>
      (windowBars rows hwin sym).map (fun r => inputCell cols (fun i => s0.ind.data i sym) r c)) m) ∧
    runMerges calls (fun _ => none) = .ok s.lagCache ∧
    ∀ sym c n, s.depth sym c = some n → s.historyDates sym ≠ none ∧
      ∃ m ∈ calls, m.symbol = sym ∧ m.interval = none ∧ c ∈ m.columns ∧ n ≤ m.lags
  inputs : ∀ name sym x, cacheGet s.inputs (name, sym) = some x →
    modelInput rows cols win hwin s0 sym name = .ok x

theorem Spec.InBacktest.inv {rows : List DRow} {cols : List String} {win hwin : List Date} {s : InScope}
    (h : InBacktest rows cols win hwin s) : InInv rows cols win hwin s s := by
  obtain ⟨h1, h2, h3, h4, h5⟩ := h.fresh
  refine ⟨rfl, rfl, rfl, rfl, rfl, rfl, rfl, rfl, ?_, ?_, ⟨[], by simp, by rw [h2]; rfl, ?_⟩, ?_⟩
  · intro name sym l hl; rw [h1] at hl; simp [cacheGet] at hl
  · intro sym d hd; rw [h3] at hd; simp at hd
  · intro sym c n hd; rw [h4] at hd; simp at hd
  · intro name sym x hx; rw [h5] at hx; simp [cacheGet] at hx

/-- `_merge_lag_cache` on columns the history has. -/
theorem mergeLags_ok {rows : List DRow} {cols : List String} {win hwin : List Date} {s0 s : InScope}
    (h : InBacktest rows cols win hwin s0) (hi : InInv rows cols win hwin s0 s) {sym : Sym}
    (hne : windowBars rows hwin sym ≠ []) {columns : List String} (lags : Nat)
    (hd : s.historyDates sym ≠ none)
    (hc : ∀ c ∈ columns, c = "date" ∨ c ∈ cols ∨ (s0.ind.data c sym).isSome) :
    ∃ s', s.mergeLags ((storeOf cols rows).slice hwin) sym columns lags
        ((windowBars rows hwin sym).map DRow.date) = (.ok (), s') ∧
      InInv rows cols win hwin s0 s' ∧ s'.historyDates = s.historyDates ∧
      (∀ c ∈ columns, ∃ n, s'.depth sym c = some n ∧ lags ≤ n) ∧
      ∀ c n, s.depth sym c = some n → ∃ n', s'.depth sym c = some n' ∧ n ≤ n' := by
  have hcol := fun c => historyColumn_eq h hi.data hne c (sym := sym)
  unfold InScope.mergeLags
  rw [if_neg (by
    rw [Bool.not_eq_true, List.any_eq_false]
    intro c hm
    rw [hcol c, if_pos (hc c hm)]
    simp)]
  obtain ⟨calls, hp, hr, hdep⟩ := hi.merges
  obtain ⟨cache, hm⟩ := merge_ok (sym := sym) (lags := lags) (i := none)
    (arrays := s.historyColumn ((storeOf cols rows).slice hwin) sym
      ((windowBars rows hwin sym).map DRow.date)) (columns := columns) s.lagCache
    (fun c hm => ⟨_, by rw [hcol c, if_pos (hc c hm)]⟩)
  rw [hm]
  refine ⟨_, rfl, ?_, rfl, ?_, ?_⟩
  · refine { hi with merges := ?_ }
    refine ⟨calls ++ [⟨sym, none, lags, columns, _⟩], ?_, runMerges_snoc hr hm, ?_⟩
    · intro m hm
      rcases List.mem_append.1 hm with hm | hm
      · exact hp m hm
      · rw [List.mem_singleton] at hm
        subst hm
        intro c v hv
        have hv' := (hcol c).symm.trans hv
        clear hv
        rename' hv' => hv
        split at hv
        · cases hv; rfl
        · cases hv
    · intro sym' c n hn
      simp only at hn ⊢
      by_cases hin : sym' = sym ∧ c ∈ columns
      · rw [if_pos hin] at hn
        obtain ⟨rfl, hin⟩ := hin
        refine ⟨hd, ?_⟩
        rcases hold : s.depth sym' c with _ | o
        · rw [hold] at hn
          refine ⟨_, List.mem_append_right _ (List.mem_singleton.2 rfl), rfl, rfl, hin, ?_⟩
          simp at hn
          exact hn.ge
        · rw [hold] at hn
          simp only [Option.getD_some, Option.some.injEq] at hn
          rcases Nat.le_total o lags with ho | ho
          · refine ⟨_, List.mem_append_right _ (List.mem_singleton.2 rfl), rfl, rfl, hin, ?_⟩
            simp only
            omega
          · obtain ⟨_, m, hm, h1, h2, h3, h4⟩ := hdep sym' c o hold
            exact ⟨m, List.mem_append_left _ hm, h1, h2, h3, by omega⟩
      · rw [if_neg hin] at hn
        obtain ⟨h0, m, hm, h1⟩ := hdep sym' c n hn
        exact ⟨h0, m, List.mem_append_left _ hm, h1⟩
  · intro c hm
    exact ⟨_, if_pos ⟨rfl, hm⟩, Nat.le_max_right _ _⟩
  · intro c n hn
    simp only
    by_cases hin : c ∈ columns
    · exact ⟨_, if_pos ⟨trivial, hin⟩, by rw [hn]; exact Nat.le_max_left _ _⟩
    · exact ⟨n, by rw [if_neg (by simp [hin])]; exact hn, le_refl _⟩

/-- `_ensure_lag_cache` on columns the history has. -/
theorem ensureLags_ok {rows : List DRow} {cols : List String} {win hwin : List Date} {s0 s : InScope}
    (h : InBacktest rows cols win hwin s0) (hi : InInv rows cols win hwin s0 s) {sym : Sym}
    (hne : windowBars rows hwin sym ≠ []) {columns : List String} (hcne : columns ≠ []) (lags : Nat)
    (hc : ∀ c ∈ columns, c = "date" ∨ c ∈ cols ∨ (s0.ind.data c sym).isSome) :
    ∃ s', s.ensureLags sym columns lags = (.ok (), s') ∧ InInv rows cols win hwin s0 s' ∧
      s'.historyDates sym = some ((windowBars rows hwin sym).map DRow.date) ∧
      ∀ c ∈ columns, ∃ n, s'.depth sym c = some n ∧ lags ≤ n := by
  unfold InScope.ensureLags
  simp only
  generalize hmiss : columns.filter (fun c => (s.depth sym c).all (fun n => decide (n < lags))) = missing
  have hdeep : ∀ c ∈ columns, c ∉ missing → ∃ n, s.depth sym c = some n ∧ lags ≤ n := by
    intro c hcm hn
    rw [← hmiss, List.mem_filter] at hn
    rcases hd : s.depth sym c with _ | n
    · exact absurd ⟨hcm, by rw [hd]; rfl⟩ hn
    · refine ⟨n, rfl, ?_⟩
      by_contra hlt
      exact hn ⟨hcm, by rw [hd]; simpa using hlt⟩
  have hmc : ∀ c ∈ missing, c = "date" ∨ c ∈ cols ∨ (s0.ind.data c sym).isSome := by
    intro c hm
    rw [← hmiss] at hm
    exact hc c (List.mem_filter.1 hm).1
  by_cases h0 : missing = []
  · rw [if_pos h0]
    have hd : ∀ c ∈ columns, ∃ n, s.depth sym c = some n ∧ lags ≤ n :=
      fun c hcm => hdeep c hcm (by simp [h0])
    refine ⟨s, rfl, hi, ?_, hd⟩
    obtain ⟨c, hcm⟩ := List.exists_mem_of_ne_nil _ hcne
    obtain ⟨n, hn, _⟩ := hd c hcm
    obtain ⟨_, _, _, hdep⟩ := hi.merges
    rcases hdt : s.historyDates sym with _ | d
    · exact absurd hdt (hdep sym c n hn).1
    · rw [hi.dates sym d hdt]
  · rw [if_neg h0]
    have hhist := hi.history.trans h.history
    rcases hh : s.history with _ | hist
    · rw [hh] at hhist; cases hhist
    rw [hh] at hhist
    cases hhist
    simp only
    -- the state in which the missing columns are merged
    have key : ∀ s1 : InScope, InInv rows cols win hwin s0 s1 → s1.depth = s.depth →
        s1.historyDates sym = some ((windowBars rows hwin sym).map DRow.date) →
        ∃ s', s1.mergeLags ((storeOf cols rows).slice hwin) sym missing lags
            ((windowBars rows hwin sym).map DRow.date) = (.ok (), s') ∧
          InInv rows cols win hwin s0 s' ∧
          s'.historyDates sym = some ((windowBars rows hwin sym).map DRow.date) ∧
          ∀ c ∈ columns, ∃ n, s'.depth sym c = some n ∧ lags ≤ n := by
      intro s1 hi1 hde hdt
      obtain ⟨s', h1, h2, h3, h4, h5⟩ := mergeLags_ok h hi1 hne lags (by rw [hdt]; simp) hmc
      refine ⟨s', h1, h2, by rw [h3, hdt], ?_⟩
      intro c hcm
      by_cases hm : c ∈ missing
      · exact h4 c hm
      · obtain ⟨n, hn, hl⟩ := hdeep c hcm hm
        obtain ⟨n', hn', hl'⟩ := h5 c n (by rw [hde]; exact hn)
        exact ⟨n', hn', by omega⟩
    rcases hdt : s.historyDates sym with _ | d
    · simp only
      rcases slice_window h.unique cols hwin sym with ⟨h0, _⟩ | ⟨_, a, ha, hda, _⟩
      · exact absurd h0 hne
      · rw [ha]
        simp only
        rw [hda]
        refine key _ ?_ rfl (by simp)
        refine { hi with history := h.history.symm, dates := ?_, merges := ?_ }
        · intro sym' d hd
          simp only at hd
          split at hd
          · rename_i e
            cases hd
            rw [e]
          · exact hi.dates sym' d hd
        · obtain ⟨calls, hp, hr, hdep⟩ := hi.merges
          refine ⟨calls, hp, hr, ?_⟩
          intro sym' c n hn
          refine ⟨?_, (hdep sym' c n hn).2⟩
          simp only
          split
          · simp
          · exact (hdep sym' c n hn).1
    · simp only
      have := hi.dates sym d hdt
      subst this
      exact key s hi rfl hdt

/-! ## Reading the columns -/

theorem assocPut_map {V : Type} (g : String → V) (i : String) : ∀ L : List String,
    assocPut (L.map (fun c => (c, g c))) i (g i) =
      (if i ∈ L then L else L ++ [i]).map (fun c => (c, g c)) := by
  intro L
  induction L with
  | nil => rfl
  | cons a L ih =>
    rw [List.map_cons]
    unfold assocPut
    by_cases h : a = i
    · subst h
      rw [if_pos rfl, if_pos (by simp)]
      rfl
    · rw [if_neg h, ih]
      by_cases hm : i ∈ L
      · rw [if_pos hm, if_pos (by simp [hm])]; rfl
      · rw [if_neg hm, if_neg (by simp [hm, Ne.symm h])]; rfl

theorem fold_eraseDups : ∀ (l B : List String),
    l.foldl (fun B i => if i ∈ B then B else B ++ [i]) B =
      B ++ (l.filter (fun i => decide (i ∉ B))).eraseDups := by
  intro l
  induction l with
  | nil => intro B; simp
  | cons i l ih =>
    intro B
    rw [List.foldl_cons]
    by_cases h : i ∈ B
    · rw [if_pos h, ih, List.filter_cons_of_neg (by simpa using h)]
    · rw [if_neg h, ih, List.filter_cons_of_pos (by simpa using h), List.eraseDups_cons,
        List.append_assoc, List.singleton_append, List.filter_filter]
      congr 4
      funext j
      by_cases h1 : j = i <;> by_cases h2 : j ∈ B <;> simp [h1, h2]

/-- Reading the indicators. -/
theorem readInds_spec {rows : List DRow} {cols : List String} {win hwin : List Date} {s0 : InScope}
    (h : InBacktest rows cols win hwin s0) (sym : Sym) : ∀ (inds : List String) (ind : IndScope)
      (L : List String), (∀ i ∈ inds, s0.ind.bound i = false ∧ i ∉ cols ∧ i ≠ "date") →
    ind.Coherent → ind.data = s0.ind.data → ind.bound = s0.ind.bound →
    ind.filterDates = s0.ind.filterDates →
    let g := fun c => (windowBars rows win sym).map
      (fun r => inputCell cols (fun i => s0.ind.data i sym) r c)
    (readInds sym inds ind (L.map (fun c => (c, g c)))).1 =
      (if inds.any (fun i => (s0.ind.data i sym).isNone) then .error (.read .indicatorNotFound)
        else .ok ((inds.foldl (fun B i => if i ∈ B then B else B ++ [i]) L).map (fun c => (c, g c)))) ∧
    (readInds sym inds ind (L.map (fun c => (c, g c)))).2.Coherent ∧
    (readInds sym inds ind (L.map (fun c => (c, g c)))).2.data = s0.ind.data ∧
    (readInds sym inds ind (L.map (fun c => (c, g c)))).2.bound = s0.ind.bound ∧
    (readInds sym inds ind (L.map (fun c => (c, g c)))).2.filterDates = s0.ind.filterDates := by
  intro inds
  induction inds with
  | nil => intro ind L _ h1 h2 h3 h4; exact ⟨rfl, h1, h2, h3, h4⟩
  | cons i inds ih =>
    intro ind L hin h1 h2 h3 h4
    obtain ⟨hb, hc, hd⟩ := hin i (by simp)
    obtain ⟨f1, f2, f3, f4, f5⟩ := fetch_coherent h1 sym i none
    unfold readInds
    simp only
    rcases hf : ind.fetch sym i none with ⟨res, ind'⟩
    rw [hf] at f1 f2 f3 f4 f5
    simp only at f1 f2 f3 f4 f5
    have hr : indRead ind sym i none = match s0.ind.data i sym with
        | none => .error .indicatorNotFound
        | some ser => .ok (s0.ind.served i ser) := by
      unfold indRead
      rw [if_neg (by simp), h2]
      rcases s0.ind.data i sym with _ | ser
      · rfl
      · simp only [sliceTo]
        unfold IndScope.served
        rw [h3, h4]
    rw [hr] at f1
    rcases hs : s0.ind.data i sym with _ | ser
    · rw [hs] at f1
      simp only at f1
      rw [f1]
      refine ⟨?_, f2, f3.trans h2, f4.trans h3, f5.trans h4⟩
      rw [if_pos (by simp [hs])]
    · rw [hs] at f1
      simp only at f1
      rw [f1]
      simp only
      rw [served_bars h hb hc hd hs, assocPut_map]
      have := ih ind' (if i ∈ L then L else L ++ [i]) (fun j hj => hin j (by simp [hj])) f2
        (f3.trans h2) (f4.trans h3) (f5.trans h4)
      simp only at this
      rw [List.foldl_cons, List.any_cons, hs]
      simpa using this

theorem filterMap_cols {a : SymArrays} {cols : List String} {bars : List DRow}
    {data : String → Option Series}
    (ha : ∀ c, a.colOf c = if c = "date" ∨ c ∈ cols then
      some (bars.map (fun r => inputCell cols (fun _ => none) r c)) else none) (L : List String) :
    L.filterMap (fun c => (a.colOf c).map (fun l => (c, l))) =
      (L.filter (fun c => c = "date" ∨ c ∈ cols)).map
        (fun c => (c, bars.map (fun r => inputCell cols data r c))) := by
  induction L with
  | nil => rfl
  | cons c L ih =>
    by_cases hc : c = "date" ∨ c ∈ cols
    · rw [List.filterMap_cons_some (b := (c, bars.map (fun r => inputCell cols data r c))),
        List.filter_cons_of_pos (by simpa using hc), List.map_cons, ih]
      rw [ha, if_pos hc, Option.map_some]
      congr 2
      exact List.map_congr_left (fun r _ => inputCell_data hc)
    · rw [List.filterMap_cons_none, List.filter_cons_of_neg (by simpa using hc), ih]
      rw [ha, if_neg hc]; rfl

theorem resolve_lag_cols {dataCols : List String} {src : InSource} {tm : InModel}
    {names : Option (List String)} {lc : List String}
    (htm : ∀ l, tm.lagColumns = some l → l ≠ [] ∧ "date" ∉ l)
    (h : resolveLagCols dataCols src tm names = .ok (some lc)) : lc ≠ [] ∧ "date" ∉ lc := by
  unfold resolveLagCols at h
  rcases hlag : src.lags with _ | n
  · rw [hlag] at h; cases h
  · rw [hlag] at h
    simp only at h
    have hreq : ∀ l : List String, "date" ∉ l → requireLagCols l = .ok (some lc) →
        lc ≠ [] ∧ "date" ∉ lc := by
      intro l hl h
      unfold requireLagCols at h
      split at h
      · cases h
      · cases h
        exact ⟨by assumption, hl⟩
    rcases hl : tm.lagColumns with _ | l
    · rw [hl] at h
      simp only at h
      rcases names with _ | ns
      · simp only at h
        rcases hic : tm.inputCols with _ | ic
        · rw [hic] at h; cases h
        · rw [hic] at h
          exact hreq _ (by simp) h
      · simp only at h
        exact hreq _ (by simp [lagFeatureCols]) h
    · rw [hl] at h
      cases h
      exact htm _ hl

/-- The step that attaches the lag features. -/
def attachLags (names : List String) (row : List String → Nat → List (List Cell)) (x : LagInput) :
    Option (List String) → Option Nat → Except InputErr LagInput
  | some lc, some n =>
    if lc.all (fun c => c ∈ names) then .ok { x with features := some (row lc n) }
    else .error .missingLagCol
  | _, _ => .ok x

/-- The input built equals the specification, whatever was read before. -/
theorem build_spec {rows : List DRow} {cols : List String} {win hwin : List Date} {s0 s : InScope}
    (h : InBacktest rows cols win hwin s0) (hi : InInv rows cols win hwin s0 s) (junk : LagMat)
    (sym : Sym) (name : String) :
    (s.build junk sym name).1 = modelInput rows cols win hwin s0 sym name ∧
      InInv rows cols win hwin s0 (s.build junk sym name).2 := by
  unfold InScope.build
  have hspec : modelInput rows cols win hwin s0 sym name = modelInput rows cols win hwin s0 sym name := rfl
  conv at hspec => rhs; unfold modelInput
  simp only at hspec
  rw [← hi.ordered] at hspec
  have hord : s.ordered.Nodup := by rw [hi.ordered]; exact h.ordered
  rcases slice_window h.unique cols win sym with ⟨h0, h1⟩ | ⟨hne, a, ha, hda, hca⟩
  · rw [if_pos h0] at hspec
    rw [show s.store.arrays sym = none by rw [hi.store, h.store]; exact h1, hspec]
    exact ⟨rfl, hi⟩
  rw [if_neg hne] at hspec
  rw [show s.store.arrays sym = some a by rw [hi.store, h.store]; exact ha]
  rcases hsrc : s0.sources name with _ | src
  · rw [hsrc] at hspec
    rw [show s.sources name = none by rw [hi.sources]; exact hsrc, hspec]
    exact ⟨rfl, hi⟩
  rw [show s.sources name = some src by rw [hi.sources]; exact hsrc]
  rcases htm : s0.models name sym with _ | tm
  · rw [hsrc, htm] at hspec
    rw [show s.models name sym = none by rw [hi.models]; exact htm, hspec]
    exact ⟨rfl, hi⟩
  rw [hsrc, htm] at hspec
  rw [show s.models name sym = some tm by rw [hi.models]; exact htm]
  simp only at hspec ⊢
  generalize hdf : (src.lags.isSome && tm.lagColumns.isNone && tm.inputCols.isNone) = defer at hspec ⊢
  rcases hE : (if defer = true then (Except.ok none : Except InputErr (Option (List String)))
      else resolveLagCols s.ordered src tm none) with e | early
  · rw [hE] at hspec
    rw [hspec]
    exact ⟨rfl, hi⟩
  rw [hE] at hspec
  simp only at hspec ⊢
  -- the columns read
  have hL : ((neededCols s.ordered src tm early).filter (fun c => c = "date" ∨ c ∈ cols)).Nodup := by
    refine List.Nodup.filter _ ?_
    unfold neededCols
    split
    · exact nodup_eraseDups _
    · exact hord
  rw [filterMap_cols (data := fun i => s0.ind.data i sym) hca]
  have hnm := h.names name src hsrc
  obtain ⟨r1, r2, r3, r4, r5⟩ := readInds_spec h sym src.indicators s.ind
    ((neededCols s.ordered src tm early).filter (fun c => c = "date" ∨ c ∈ cols)) hnm
    hi.coherent hi.data hi.bound hi.mask
  have hfold : src.indicators.foldl (fun B i => if i ∈ B then B else B ++ [i])
      ((neededCols s.ordered src tm early).filter (fun c => c = "date" ∨ c ∈ cols)) =
      (neededCols s.ordered src tm early).filter (fun c => c = "date" ∨ c ∈ cols) ++
        src.indicators.eraseDups := by
    rw [fold_eraseDups]
    congr 2
    rw [List.filter_eq_self]
    intro i hin
    obtain ⟨_, h1, h2⟩ := hnm i hin
    simp [h1, h2]
  rw [hfold] at r1
  generalize hnames : (neededCols s.ordered src tm early).filter (fun c => c = "date" ∨ c ∈ cols) ++
    src.indicators.eraseDups = names at hspec r1
  rcases hrd : readInds sym src.indicators s.ind
    (((neededCols s.ordered src tm early).filter (fun c => c = "date" ∨ c ∈ cols)).map (fun c =>
      (c, (windowBars rows win sym).map (fun r => inputCell cols (fun i => s0.ind.data i sym) r c))))
    with ⟨res, ind'⟩
  rw [hrd] at r1 r2 r3 r4 r5
  simp only at r1 r2 r3 r4 r5
  have hi' : InInv rows cols win hwin s0 { s with ind := ind' } :=
    { hi with data := r3, bound := r4, mask := r5, coherent := r2 }
  by_cases hany : src.indicators.any (fun i => (s0.ind.data i sym).isNone) = true
  · rw [if_pos hany] at r1 hspec
    rw [r1, hspec]
    exact ⟨rfl, hi'⟩
  rw [if_neg hany] at r1 hspec
  rw [r1]
  have hkeys : (names.map (fun c => (c, (windowBars rows win sym).map
      (fun r => inputCell cols (fun i => s0.ind.data i sym) r c)))).map Prod.fst = names := by
    rw [List.map_map]
    exact (List.map_congr_left (fun _ _ => rfl)).trans (List.map_id names)
  simp only
  rw [hkeys]
  rcases hE2 : (if defer = true then resolveLagCols s.ordered src tm (some names)
      else (Except.ok early : Except InputErr (Option (List String)))) with e | lagCols
  · rw [hE2] at hspec
    rw [hspec]
    exact ⟨rfl, hi'⟩
  rw [hE2] at hspec
  simp only at hspec ⊢
  -- the lag features
  have hadd : ∀ x, x.dates = a.dates → x.columns = names.map (fun c => (c, (windowBars rows win sym).map
      (fun r => inputCell cols (fun i => s0.ind.data i sym) r c))) →
      ∃ s', InInv rows cols win hwin s0 s' ∧
      InScope.addLags junk { s with ind := ind' } sym x src.lags lagCols =
        (attachLags names (fun lc n => (windowBars rows win sym).map (pastRow cols
          (fun i => s0.ind.data i sym) lc n (windowBars rows hwin sym))) x lagCols src.lags, s') := by
    intro x hx1 hx2
    unfold InScope.addLags attachLags
    rcases lagCols with _ | lc
    · exact ⟨_, hi', rfl⟩
    rcases hlag : src.lags with _ | n
    · exact ⟨_, hi', rfl⟩
    simp only
    rw [hx2, hkeys]
    by_cases hall : lc.all (fun c => decide (c ∈ names)) = true
    · rw [if_pos hall, if_pos hall]
      have hlc : lc ≠ [] ∧ "date" ∉ lc := by
        have htl := fun l hl => h.lagged name sym tm l htm hl
        by_cases hd : defer = true
        · rw [if_pos hd] at hE2
          exact resolve_lag_cols htl hE2
        · rw [if_neg hd] at hE2 hE
          cases hE2
          exact resolve_lag_cols htl hE
      have hHne : windowBars rows hwin sym ≠ [] := by
        obtain ⟨P, hP⟩ := h.suffix sym
        rw [hP]
        simp [hne]
      have hav : ∀ c ∈ lc, c = "date" ∨ c ∈ cols ∨ (s0.ind.data c sym).isSome := by
        intro c hc
        have := List.all_eq_true.1 hall c hc
        rw [decide_eq_true_eq, ← hnames, List.mem_append, List.mem_filter, List.mem_eraseDups] at this
        rcases this with ⟨_, h1⟩ | h1
        · have : c = "date" ∨ c ∈ cols := by simpa using h1
          tauto
        · refine .inr (.inr ?_)
          rw [List.any_eq_true] at hany
          by_contra hno
          exact hany ⟨c, h1, by simpa using hno⟩
      obtain ⟨s', e1, e2, e3, e4⟩ := ensureLags_ok h hi' hHne hlc.1 n hav
      rw [e1]
      simp only
      rw [e3]
      simp only
      obtain ⟨calls, m1, m2, m3⟩ := e2.merges
      rw [features_eq h sym (hx1.trans hda) (run_serves m1 m2 sym none) junk hlc.2 (by
        intro c hc
        refine ⟨rfl, ?_⟩
        obtain ⟨n', hn', hle⟩ := e4 c hc
        obtain ⟨_, m, hm, q1, q2, q3, q4⟩ := m3 sym c n' hn'
        exact ((cached_lags m1 m2 sym c none n).1).2 ⟨m, hm, q1, q2, q3, by omega⟩)]
      exact ⟨s', e2, by rw [hx2]⟩
    · rw [if_neg hall, if_neg hall]
      exact ⟨_, hi', rfl⟩
  obtain ⟨s', hs', haddEq⟩ := hadd { dates := a.dates, symbols := none, columns := _, features := none }
    rfl rfl
  rw [haddEq]
  -- the last step
  have hlast : ∀ res : Except InputErr LagInput,
      modelInput rows cols win hwin s0 sym name = (match res with
        | .error e => .error e
        | .ok y => finishInput src tm y) →
      (match ((res, s') : Except InputErr LagInput × InScope) with
        | (.error e, s') => ((.error e, s') : Except InputErr LagInput × InScope)
        | (.ok y, s') =>
          match finishInput src tm y with
          | .error e => (.error e, s')
          | .ok z => (.ok z, { s' with inputs := ((name, sym), z) :: s'.inputs })).1 =
        modelInput rows cols win hwin s0 sym name ∧
      InInv rows cols win hwin s0 (match ((res, s') : Except InputErr LagInput × InScope) with
        | (.error e, s') => ((.error e, s') : Except InputErr LagInput × InScope)
        | (.ok y, s') =>
          match finishInput src tm y with
          | .error e => (.error e, s')
          | .ok z => (.ok z, { s' with inputs := ((name, sym), z) :: s'.inputs })).2 := by
    intro res hres
    rcases res with e | y
    · exact ⟨hres.symm, hs'⟩
    · simp only at hres ⊢
      rcases hf : finishInput src tm y with e | z
      · rw [hf] at hres
        exact ⟨hres.symm, hs'⟩
      · rw [hf] at hres
        refine ⟨hres.symm, { hs' with inputs := ?_ }⟩
        intro name' sym' x hx
        simp only [cacheGet] at hx
        split at hx
        · rename_i e
          rw [Prod.mk.injEq] at e
          obtain ⟨rfl, rfl⟩ := e
          cases hx
          exact hres
        · exact hs'.inputs name' sym' x hx
  refine hlast _ ?_
  rw [hspec, hda]
  clear hspec haddEq hadd hlast hE2 hE hdf
  unfold attachLags
  rcases lagCols with _ | lc
  · rfl
  · rcases src.lags with _ | n
    · rfl
    · simp only
      split <;> rfl

/-- A read, whatever was read before. -/
theorem fetch_spec {rows : List DRow} {cols : List String} {win hwin : List Date} {s0 s : InScope}
    (h : InBacktest rows cols win hwin s0) (hi : InInv rows cols win hwin s0 s) (junk : LagMat)
    (sym : Sym) (name : String) (e : Option Int) :
    (s.fetch junk sym name e).1 =
        (modelInput rows cols win hwin s0 sym name).map (fun x => x.slice e) ∧
      InInv rows cols win hwin s0 (s.fetch junk sym name e).2 := by
  unfold InScope.fetch
  rcases hc : cacheGet s.inputs (name, sym) with _ | x
  · simp only
    obtain ⟨h1, h2⟩ := build_spec h hi junk sym name
    rcases hb : s.build junk sym name with ⟨res, s'⟩
    rw [hb] at h1 h2
    simp only at h1 h2
    rw [← h1]
    rcases res with err | x
    · exact ⟨rfl, h2⟩
    · exact ⟨rfl, h2⟩
  · rw [hi.inputs name sym x hc]
    exact ⟨rfl, hi⟩

theorem reads_inv {rows : List DRow} {cols : List String} {win hwin : List Date} {s0 : InScope}
    (h : InBacktest rows cols win hwin s0) : ∀ (reads : List InputRead) (s : InScope),
    InInv rows cols win hwin s0 s → InInv rows cols win hwin s0 (s.run reads) := by
  intro reads
  induction reads with
  | nil => intro s hi; exact hi
  | cons r reads ih =>
    intro s hi
    exact ih _ (fetch_spec h hi r.junk r.symbol r.model r.stop).2

/-- **C94.** Every read of a model's input gives what a scope without caches would give, an
error or the input cut at the end index: the reads before it, of whatever symbols, models
and end indexes, and the memory the lag matrix is built in, have no effect. -/
theorem model_input_cached {rows : List DRow} {cols : List String} {win hwin : List Date}
    {s : InScope} (h : InBacktest rows cols win hwin s) (reads : List InputRead) (junk : LagMat)
    (sym : Sym) (name : String) (e : Option Int) :
    ((s.run reads).fetch junk sym name e).1 =
      (modelInput rows cols win hwin s sym name).map (fun x => x.slice e) :=
  (fetch_spec h (reads_inv h reads s h.inv) junk sym name e).1

/-! ## The input of a bar -/

namespace Spec

/-- A model without an input function of its own: its input columns are those it was trained
with, or its indicators when none were declared. -/
def InputCols (src : InSource) (tm : InModel) (ic : List String) : Prop :=
  src.inputFn = none ∧ ic ≠ [] ∧ ic.Nodup ∧
    (tm.inputCols = some ic ∨ tm.inputCols = none ∧ ic = src.indicators)

/-- The lagged columns: those the model was trained with, or else its input columns other
than the date and the indicators. -/
def LagCols (src : InSource) (tm : InModel) (lc : List String) : Prop :=
  tm.lagColumns = some lc ∨
    tm.lagColumns = none ∧ ∃ ic, tm.inputCols = some ic ∧
      lc = ic.filter (fun c => c ≠ "date" ∧ c ∉ src.indicators)

end Spec

theorem cacheGet_map {V : Type} (g : String → V) {c : String} : ∀ {L : List String}, c ∈ L →
    cacheGet (L.map (fun c => (c, g c))) c = some (g c) := by
  intro L
  induction L with
  | nil => intro h; cases h
  | cons a L ih =>
    intro h
    rw [List.map_cons]
    unfold cacheGet
    by_cases e : a = c
    · rw [if_pos e, e]
    · rw [if_neg e]
      exact ih ((List.mem_cons.1 h).resolve_left (Ne.symm e))

theorem filterMap_get {V : Type} (g : String → V) {L : List String} : ∀ {ic : List String},
    (∀ c ∈ ic, c ∈ L) →
    ic.filterMap (fun c => (cacheGet (L.map (fun c => (c, g c))) c).map (fun l => (c, l))) =
      ic.map (fun c => (c, g c)) := by
  intro ic
  induction ic with
  | nil => intro _; rfl
  | cons c ic ih =>
    intro h
    rw [List.filterMap_cons_some (b := (c, g c)), ih (fun c hc => h c (by simp [hc])), List.map_cons]
    rw [cacheGet_map g (h c (by simp))]
    rfl

theorem eraseDups_nodup : ∀ {l : List String}, l.Nodup → l.eraseDups = l := by
  intro l
  induction l with
  | nil => intro _; rfl
  | cons a l ih =>
    intro h
    rw [List.nodup_cons] at h
    rw [List.eraseDups_cons, List.filter_eq_self.2, ih h.2]
    intro b hb
    have : b ≠ a := fun e => h.1 (e ▸ hb)
    simpa using this

/-- The input of a model over the whole window. -/
theorem input_window {rows : List DRow} {cols : List String} {win hwin : List Date} {s : InScope}
    {sym : Sym} {name : String} {src : InSource} {tm : InModel}
    (hne : windowBars rows win sym ≠ [])
    (hsrc : s.sources name = some src) (htm : s.models name sym = some tm) {ic lc : List String}
    (hic : InputCols src tm ic) (hav : ∀ c ∈ ic, c = "date" ∨ c ∈ cols ∨ c ∈ src.indicators)
    (hdata : ∀ i ∈ src.indicators, (s.ind.data i sym).isSome)
    (hlc : src.lags ≠ none → lc ≠ [] ∧ LagCols src tm lc ∧ (∀ c ∈ lc, c ∈ cols ∨ c ∈ src.indicators) ∧
      (tm.inputCols = none → ∀ c ∈ lc, c ∈ s.ordered ∨ c ∈ src.indicators)) :
    modelInput rows cols win hwin s sym name = .ok {
      dates := (windowBars rows win sym).map DRow.date
      symbols := none
      columns := ic.map (fun c => (c, (windowBars rows win sym).map
        (fun r => inputCell cols (fun i => s.ind.data i sym) r c)))
      features := src.lags.map (fun n => (windowBars rows win sym).map
        (pastRow cols (fun i => s.ind.data i sym) lc n (windowBars rows hwin sym))) } := by
  obtain ⟨hfn, hicne, hnd, hcols⟩ := hic
  generalize hb : windowBars rows win sym = bars at *
  generalize hH : windowBars rows hwin sym = H
  -- the last step
  have hfin : ∀ (names : List String) (f : Option (List (List Cell))),
      (∀ c ∈ ic, c ∈ names) →
      finishInput src tm {
        dates := bars.map DRow.date
        symbols := none
        columns := names.map (fun c => (c, bars.map
          (fun r => inputCell cols (fun i => s.ind.data i sym) r c)))
        features := f } = .ok {
        dates := bars.map DRow.date
        symbols := none
        columns := ic.map (fun c => (c, bars.map
          (fun r => inputCell cols (fun i => s.ind.data i sym) r c)))
        features := f } := by
    intro names f hin
    have hkeys : (names.map (fun c => (c, bars.map
        (fun r => inputCell cols (fun i => s.ind.data i sym) r c)))).map Prod.fst = names := by
      rw [List.map_map]
      exact (List.map_congr_left (fun _ _ => rfl)).trans (List.map_id names)
    unfold finishInput
    rcases hcols with hc | ⟨hc, hi⟩
    · rw [hc]
      simp only
      rw [hkeys, if_pos (by simpa using hin), if_neg (by simp [hicne, hfn]), eraseDups_nodup hnd,
        filterMap_get _ hin]
    · rw [hc]
      simp only
      unfold LagInput.prepared InSource.prepare
      simp only
      rw [if_neg, hfn]
      · simp only
        rw [hkeys, ← hi, if_pos (by simpa using hin), filterMap_get _ hin]
        simp only
        rw [if_neg (by simp), if_neg]
        simp only [List.all_eq_true, List.mem_map, decide_eq_true_eq, forall_exists_index, and_imp,
          forall_apply_eq_imp_iff₂, not_forall]
        obtain ⟨c, hcm⟩ := List.exists_mem_of_ne_nil _ hicne
        exact ⟨c, hcm, by simpa using hne⟩
      · simp only [List.all_eq_true, List.mem_map, decide_eq_true_eq, forall_exists_index, and_imp,
          forall_apply_eq_imp_iff₂, not_forall]
        obtain ⟨c, hcm⟩ := List.exists_mem_of_ne_nil _ hicne
        exact ⟨c, hin c hcm, by simpa using hne⟩
  have hany : ¬ (src.indicators.any (fun i => (s.ind.data i sym).isNone) = true) := by
    rw [List.any_eq_true]
    rintro ⟨i, hi, hno⟩
    have := hdata i hi
    rw [Option.isNone_iff_eq_none] at hno
    rw [hno] at this
    cases this
  unfold modelInput
  simp only
  rw [hb, hH, if_neg hne, hsrc, htm]
  simp only
  -- the input columns are read
  have hread : ∀ early, ∀ c ∈ ic, c ∈ (neededCols s.ordered src tm early).filter
      (fun c => decide (c = "date" ∨ c ∈ cols)) ++ src.indicators.eraseDups := by
    intro early c hcm
    rw [List.mem_append, List.mem_eraseDups, List.mem_filter]
    rcases hcols with hc | ⟨hc, hi⟩
    · by_cases hi : c ∈ src.indicators
      · exact .inr hi
      · refine .inl ⟨?_, ?_⟩
        · unfold neededCols
          rw [hc, hfn]
          simp only
          rw [List.mem_eraseDups]
          simp [hcm]
        · have := hav c hcm
          simp only [hi, or_false] at this
          simpa using this
    · rw [hi] at hcm
      exact .inr hcm
  rcases hlag : src.lags with _ | n
  · simp only [Option.isSome_none, Bool.false_and, Bool.false_eq_true, if_false]
    have hres : ∀ ns, resolveLagCols s.ordered src tm ns = .ok none := by
      intro ns
      unfold resolveLagCols
      rw [hlag]
    rw [hres]
    simp only
    rw [if_neg hany]
    exact hfin _ none (hread none)
  · obtain ⟨hlcne, hlce, hlcav, hlcord⟩ := hlc (by rw [hlag]; simp)
    have hdefer : ((some n).isSome && tm.lagColumns.isNone && tm.inputCols.isNone) = false := by
      rcases hlce with h | ⟨_, ic', h, _⟩
      · rw [h]; simp
      · rw [h]; simp
    have hres : resolveLagCols s.ordered src tm none = .ok (some lc) := by
      unfold resolveLagCols
      rw [hlag]
      rcases hlce with h | ⟨h1, ic', h2, h3⟩
      · rw [h]
      · rw [h1, h2]
        simp only
        rw [← h3]
        unfold requireLagCols
        rw [if_neg hlcne]
    simp only [hdefer, Bool.false_eq_true, if_false]
    rw [hres]
    simp only
    rw [if_neg hany]
    rw [if_pos]
    · exact hfin _ _ (hread (some lc))
    · rw [List.all_eq_true]
      intro c hcm
      rw [decide_eq_true_eq, List.mem_append, List.mem_eraseDups, List.mem_filter]
      rcases hlcav c hcm with h1 | h1
      · by_cases hi : c ∈ src.indicators
        · exact .inr hi
        · refine .inl ⟨?_, by simp [h1]⟩
          unfold neededCols
          rcases hcols with hc | ⟨hc, _⟩
          · rw [hc, hfn]
            simp only
            rw [List.mem_eraseDups]
            simp [hcm]
          · rw [hc]
            simp only
            exact (hlcord hc c hcm).resolve_right hi
      · exact .inr h1

/-- **C94, C40.** What a model is given on the bar dated `t`, whatever was read before: the
symbol's bars of the window up to `t`, one row each; the model's input columns, in the
order it was trained with, holding the bars' own values; and, with lags, each bar's values
of the lagged columns on it and on the bars of the symbol before it, which may lie before
the window. -/
theorem model_input_on_bar {rows : List DRow} {cols : List String} {win hwin : List Date}
    {s : InScope} (h : InBacktest rows cols win hwin s) (reads : List InputRead) (junk : LagMat)
    {execs : List Sym} {sym : Sym} (he : sym ∈ execs) {t : Date} (hb : barsTo rows win sym t ≠ [])
    {name : String} {src : InSource} {tm : InModel}
    (hsrc : s.sources name = some src) (htm : s.models name sym = some tm) {ic lc : List String}
    (hic : InputCols src tm ic) (hav : ∀ c ∈ ic, c = "date" ∨ c ∈ cols ∨ c ∈ src.indicators)
    (hdata : ∀ i ∈ src.indicators, (s.ind.data i sym).isSome)
    (hlc : src.lags ≠ none → lc ≠ [] ∧ LagCols src tm lc ∧ (∀ c ∈ lc, c ∈ cols ∨ c ∈ src.indicators) ∧
      (tm.inputCols = none → ∀ c ∈ lc, c ∈ s.ordered ∨ c ∈ src.indicators)) :
    ((s.run reads).fetch junk sym name (some (barIndex cols rows win execs t sym : Int))).1 = .ok {
      dates := (barsTo rows win sym t).map DRow.date
      symbols := none
      columns := ic.map (fun c => (c, (barsTo rows win sym t).map
        (fun r => inputCell cols (fun i => s.ind.data i sym) r c)))
      features := src.lags.map (fun n => (barsTo rows win sym t).map
        (pastRow cols (fun i => s.ind.data i sym) lc n (barsTo rows hwin sym t))) } := by
  have hwt := barsTo_window h.unique win sym t
  have hht := barsTo_window h.unique hwin sym t
  have hne : windowBars rows win sym ≠ [] := by
    intro e
    rw [hwt, e] at hb
    exact hb rfl
  rw [model_input_cached h, input_window hne hsrc htm hic hav hdata hlc]
  have hcut : ∀ {α : Type} (f : DRow → α),
      sliceTo ((windowBars rows win sym).map f) (some (barIndex cols rows win execs t sym : Int)) =
        (barsTo rows win sym t).map f := by
    intro α f
    rcases slice_window h.unique cols win sym with ⟨h0, _⟩ | ⟨_, a, ha, hda, _⟩
    · exact absurd h0 hne
    · rw [windowBars_eq h.unique] at hda
      rw [bar_index h.unique cols win he t ha hda, ← windowBars_eq h.unique]
      unfold sliceTo
      simp only
      rw [if_neg (by omega), Int.toNat_natCast, ← List.map_take,
        take_count_filter (windowBars_sorted h.unique win sym), ← hwt]
  simp only [Except.map, LagInput.slice, Except.ok.injEq, LagInput.mk.injEq, Option.map_none, true_and]
  refine ⟨hcut _, ?_, ?_⟩
  · rw [List.map_map]
    apply List.map_congr_left
    intro c _
    simp only [Function.comp_apply, hcut]
  · rcases src.lags with _ | n
    · rfl
    · simp only [Option.map_some, hcut, Option.some.injEq]
      apply List.map_congr_left
      intro b hbm
      have hbt : b.date ≤ t := by
        rw [hwt] at hbm
        simpa using (List.mem_filter.1 hbm).2
      unfold pastRow
      have : (barsTo rows hwin sym t).filter (fun r => r.date ≤ b.date) =
          (windowBars rows hwin sym).filter (fun r => r.date ≤ b.date) := by
        rw [hht, List.filter_filter]
        apply List.filter_congr
        intro r _
        by_cases h1 : r.date ≤ b.date
        · simp [h1, le_trans h1 hbt]
        · simp [h1]
      rw [this]

/-! ## No look-ahead -/

theorem symRows_to {rows rows' : List DRow} (hu : UniqueBars rows) (hu' : UniqueBars rows') (sym : Sym)
    {t : Date} (hr : rows.filter (fun r => r.date ≤ t) = rows'.filter (fun r => r.date ≤ t)) :
    (symRows rows sym).filter (fun r => r.date ≤ t) =
      (symRows rows' sym).filter (fun r => r.date ≤ t) := by
  have key : ∀ {l : List DRow}, UniqueBars l → ∀ W : List Date, (∀ r ∈ l, r.date ∈ W) →
      barsTo l W sym t = (symRows l sym).filter (fun r => r.date ≤ t) := by
    intro l hl W hW
    rw [barsTo_eq hl]
    apply List.filter_congr
    intro r hm
    have : r.date ∈ W := hW r (List.mem_filter.1 ((symRows_perm l sym).mem_iff.1 hm)).1
    simp [this]
  have e := barsTo_congr (rows := rows) (rows' := rows')
    (window := rows.map DRow.date ++ rows'.map DRow.date)
    (window' := rows.map DRow.date ++ rows'.map DRow.date) sym hr (fun _ _ => Iff.rfl)
  rw [key hu _ (fun r hm => List.mem_append_left _ (List.mem_map.2 ⟨r, hm, rfl⟩)),
    key hu' _ (fun r hm => List.mem_append_right _ (List.mem_map.2 ⟨r, hm, rfl⟩))] at e
  exact e

/-- The value of a causal indicator on a date is settled by the bars up to it. -/
theorem onDate_causal {rows : List DRow} (hu : UniqueBars rows) {ind : List DRow → List Cell}
    (hi : CausalInd ind) (sym : Sym) {t d : Date} (hd : d ≤ t) :
    onDate (seriesOf ind rows sym) d =
      onDate ((((symRows rows sym).filter (fun r => r.date ≤ t)).map DRow.date).zip
        (ind ((symRows rows sym).filter (fun r => r.date ≤ t)))) d := by
  have hs := symRows_sorted hu sym
  unfold seriesOf
  generalize symRows rows sym = R at hs
  have htk := take_count_filter hs t
  generalize (R.map DRow.date).countP (fun x => decide (x ≤ t)) = k at htk
  rw [← htk]
  have hsplit : (R.map DRow.date).zip (ind R) =
      ((R.take k).map DRow.date).zip (ind (R.take k)) ++ ((R.drop k).map DRow.date).zip ((ind R).drop k) := by
    rw [hi.2, ← List.zip_append (by simp [hi.1]), ← List.map_append, List.take_append_drop,
      List.take_append_drop]
  rw [hsplit]
  unfold onDate
  rw [List.find?_append]
  have hnone : (((R.drop k).map DRow.date).zip ((ind R).drop k)).find? (fun p => decide (p.1 = d)) = none := by
    rw [List.find?_eq_none]
    intro p hp
    obtain ⟨r, hr, hrd⟩ := List.mem_map.1 (List.of_mem_zip (show (p.1, p.2) ∈ _ from hp)).1
    have hnot : ¬ r.date ≤ t := by
      intro hle
      have hmem : r ∈ R.take k := by
        rw [htk]
        exact List.mem_filter.2 ⟨List.mem_of_mem_drop hr, by simpa using hle⟩
      have hnd : (R.take k ++ R.drop k).Nodup := by
        rw [List.take_append_drop]
        exact hs.imp (fun h e => by rw [e] at h; exact lt_irrefl _ h)
      exact (List.nodup_append.1 hnd).2.2 r hmem r hr rfl
    simp only [decide_eq_true_eq]
    intro e
    rw [← e, ← hrd] at hd
    exact hnot hd
  rw [hnone, Option.or_none]

/-- **C94, C40.** No look-ahead: on the bar dated `t` a model with causal indicators is given
the same input, lag features included, for any two data sets and windows that agree up to
`t`, after any reads in either. -/
theorem model_input_no_future {rows rows' : List DRow} {cols : List String}
    {win win' hwin hwin' : List Date} {s s' : InScope} (h : InBacktest rows cols win hwin s)
    (h' : InBacktest rows' cols win' hwin' s') (reads reads' : List InputRead) (junk junk' : LagMat)
    {execs : List Sym} {sym : Sym} (he : sym ∈ execs) {t : Date} (hb : barsTo rows win sym t ≠ [])
    (hr : rows.filter (fun r => r.date ≤ t) = rows'.filter (fun r => r.date ≤ t))
    (hw : ∀ d ≤ t, d ∈ win ↔ d ∈ win') (hh : ∀ d ≤ t, d ∈ hwin ↔ d ∈ hwin')
    {name : String} {src : InSource} {tm : InModel} (ho : s'.ordered = s.ordered)
    (hsrc : s.sources name = some src) (htm : s.models name sym = some tm)
    (hsrc' : s'.sources name = some src) (htm' : s'.models name sym = some tm) {ic lc : List String}
    (hic : InputCols src tm ic) (hav : ∀ c ∈ ic, c = "date" ∨ c ∈ cols ∨ c ∈ src.indicators)
    (hlc : src.lags ≠ none → lc ≠ [] ∧ LagCols src tm lc ∧ (∀ c ∈ lc, c ∈ cols ∨ c ∈ src.indicators) ∧
      (tm.inputCols = none → ∀ c ∈ lc, c ∈ s.ordered ∨ c ∈ src.indicators))
    {ind : String → List DRow → List Cell}
    (hind : ∀ i ∈ src.indicators, CausalInd (ind i) ∧
      s.ind.data i sym = some (seriesOf (ind i) rows sym) ∧
      s'.ind.data i sym = some (seriesOf (ind i) rows' sym)) :
    ((s.run reads).fetch junk sym name (some (barIndex cols rows win execs t sym : Int))).1 =
      ((s'.run reads').fetch junk' sym name (some (barIndex cols rows' win' execs t sym : Int))).1 := by
  have e1 := barsTo_congr (rows := rows) (rows' := rows') sym hr hw
  have e2 := barsTo_congr (rows := rows) (rows' := rows') sym hr hh
  rw [model_input_on_bar h reads junk he hb hsrc htm hic hav
      (fun i hi => by rw [(hind i hi).2.1]; rfl) hlc,
    model_input_on_bar h' reads' junk' he (e1 ▸ hb) hsrc' htm' hic hav
      (fun i hi => by rw [(hind i hi).2.2]; rfl) (by rw [ho]; exact hlc), ← e1, ← e2]
  have hto := symRows_to h.unique h'.unique sym hr
  have hcell : ∀ c, c = "date" ∨ c ∈ cols ∨ c ∈ src.indicators → ∀ r : DRow, r.date ≤ t →
      inputCell cols (fun i => s.ind.data i sym) r c = inputCell cols (fun i => s'.ind.data i sym) r c := by
    intro c hc r hrt
    by_cases hc' : c = "date" ∨ c ∈ cols
    · exact inputCell_data hc'
    · have hi : c ∈ src.indicators := by tauto
      obtain ⟨g1, g2, g3⟩ := hind c hi
      unfold inputCell cellOf
      rw [not_or] at hc'
      rw [if_neg hc'.1, if_neg hc'.1, if_neg hc'.2, if_neg hc'.2]
      simp only
      rw [g2, g3, Option.bind_some, Option.bind_some, onDate_causal h.unique g1 sym hrt,
        onDate_causal h'.unique g1 sym hrt, hto]
  have hle : ∀ (w : List Date) (r : DRow), r ∈ barsTo rows w sym t → r.date ≤ t := by
    intro w r hm
    rw [barsTo_eq h.unique] at hm
    have := (List.mem_filter.1 hm).2
    simp only [decide_eq_true_eq] at this
    exact this.2
  have hcols : ic.map (fun c => (c, (barsTo rows win sym t).map
        (fun r => inputCell cols (fun i => s.ind.data i sym) r c))) =
      ic.map (fun c => (c, (barsTo rows win sym t).map
        (fun r => inputCell cols (fun i => s'.ind.data i sym) r c))) := by
    apply List.map_congr_left
    intro c hc
    rw [List.map_congr_left (fun r hm => hcell c (hav c hc) r (hle win r hm))]
  rw [hcols]
  rcases hlag : src.lags with _ | n
  · rfl
  · have hl := hlc (by rw [hlag]; simp)
    simp only [Option.map_some]
    congr 3
    apply List.map_congr_left
    intro b _
    unfold pastRow
    rw [List.flatMap_congr]
    intro c hc
    apply List.map_congr_left
    intro k _
    rcases hg : ((barsTo rows hwin sym t).filter (fun r => decide (r.date ≤ b.date))).reverse[k]? with _ | r
    · rw [hg]; rfl
    · rw [hg]
      have hm := List.mem_reverse.1 (List.mem_of_getElem? hg)
      exact hcell c (.inr (hl.2.2.1 c hc)) r (hle hwin r (List.mem_filter.1 hm).1)

/-! ## The windows of a walk-forward run -/

/-- **C94.** The test data and the history of every window of an accepted split meet the
conditions on windows above: the test window is the end of the history. -/
theorem window_history {rows : List DRow} {w la : Int} {ts : ℚ}
    {shuffle : List Nat → List Nat} (hs : ∀ l, (shuffle l).Perm l) (h0 : 0 < ts) (h1 : ts < 1)
    {ws : List WFWindow} (h : walkforwardSplit (rows.map DRow.date) w la ts shuffle = .ok ws)
    (cols : List String) {wf : WFWindow} (hwf : wf ∈ ws) (hne : wf.test ≠ []) :
    ∃ win hwin, (windowStores (storeOf cols rows) (rows.map DRow.date) wf).test =
        some ((storeOf cols rows).slice win) ∧
      (windowStores (storeOf cols rows) (rows.map DRow.date) wf).history =
        some ((storeOf cols rows).slice hwin) ∧
      (∀ d, d ∈ win ↔ ∃ i ∈ wf.test, (rows.map DRow.date)[i]? = some d) ∧
      (∀ r ∈ rows, r.date ∈ win → r.date ∈ hwin) ∧
      (∀ a ∈ rows, ∀ b ∈ rows, a.symbol = b.symbol → a.date ∈ win → a.date ≤ b.date →
        b.date ∈ hwin → b.date ∈ win) ∧
      ∀ r ∈ rows, ∀ i ∈ wf.train, (rows.map DRow.date)[i]? = some r.date → r.date ∈ hwin := by
  obtain ⟨tl, te, hpos, hlen, hfit, hb⟩ := split_blocks hs h0 h1 h
  have hla : 1 ≤ la := by
    by_contra hc
    unfold walkforwardSplit at h
    split at h; · cases h
    rw [if_pos (show la ≤ 0 by omega)] at h
    cases h
  obtain ⟨k, hk⟩ := List.mem_iff_getElem?.1 hwf
  obtain ⟨htest, htrain⟩ := hb k wf hk
  have hmem : ∀ r ∈ rows, r.date ∈ rows.map DRow.date := fun r hr => List.mem_map.2 ⟨r, hr, rfl⟩
  by_cases htr : wf.train = []
  · refine ⟨datesOfRows (rows.map DRow.date) wf.test, datesOfRows (rows.map DRow.date) wf.test, ?_, ?_,
      fun d => mem_datesOfRows, fun _ _ h => h, fun _ _ _ _ _ _ _ h => h, ?_⟩
    · rw [windowStores_test, if_neg hne]
    · unfold windowStores
      simp only [if_pos htr, if_neg hne]
    · intro r _ i hi
      rw [htr] at hi
      cases hi
  · have hkw : (k : Int) < w := by
      have := (List.getElem?_eq_some_iff.1 hk).1
      omega
    have hmul : (w - k) * (te : Int) ≤ w * te := mul_le_mul_of_nonneg_right (by omega) (by omega)
    have hmul2 : (te : Int) ≤ (w - k) * te := by
      have : (1 : Int) * te ≤ (w - k) * te := mul_le_mul_of_nonneg_right (by omega) (by omega)
      omega
    have hM := fun d hd' => mem_history htrain htest htr hne (by omega) (by omega) (d := d) hd'
    have hT := fun d hd' => mem_datesIn htest (d := d) hd'
    have hR := fun d hd' => mem_datesIn htrain (d := d) hd'
    refine ⟨datesOfRows (rows.map DRow.date) wf.test, windowDates ((rows.map DRow.date).filter
      (fun d => decide ((datesOfRows (rows.map DRow.date) wf.train).headD 0 ≤ d ∧
        d ≤ (datesOfRows (rows.map DRow.date) wf.test).getLastD 0))), ?_, ?_,
      fun d => mem_datesOfRows, ?_, ?_, ?_⟩
    · rw [windowStores_test, if_neg hne]
    · unfold windowStores
      simp only [if_neg htr, if_neg hne]
    · intro r hr h2
      rw [hT _ (hmem r hr)] at h2
      rw [hM _ (hmem r hr)]
      omega
    · intro a ha b hb' _ h2 hab h3
      rw [hT _ (hmem a ha)] at h2
      rw [hM _ (hmem b hb')] at h3
      rw [hT _ (hmem b hb')]
      have := barNo_mono (rows.map DRow.date) hab
      omega
    · intro r hr i hi hir
      have := (hR _ (hmem r hr)).1 (mem_datesOfRows.2 ⟨i, hi, hir⟩)
      rw [hM _ (hmem r hr)]
      omega

/-! ## A concrete case -/

namespace Demo

/-- The indicator of the frame's two symbols, on the dates each of them has. -/
def inputSeries (name : String) (sym : Sym) : Option Series :=
  if name = "ind" ∧ sym = "A" then some trainInd
  else if name = "ind" ∧ sym = "B" then
    some [(1, none), (2, none), (3, some 3), (5, some 5), (6, some 6), (7, some 7), (8, some 8),
      (10, some 10)]
  else none

/-- A model with lags on a data column and an indicator, and one without lags. -/
def inputSource (name : String) : Option InSource :=
  if name = "lagged" then some { indicators := ["ind"], lags := some 2, pooled := false, inputFn := none }
  else if name = "plain" then some { indicators := ["ind"], lags := none, pooled := false, inputFn := none }
  else none

def inputModel (name : String) (_ : Sym) : Option InModel :=
  if name = "lagged" then
    some { inputCols := some ["close", "ind"], lagColumns := some ["close", "ind"] }
  else if name = "plain" then some { inputCols := none, lagColumns := none }
  else none

/-- The scope of the test window of `trainWin`. -/
def inputScope : InScope where
  store := (storeOf ["close"] trainFrame).slice [8, 9, 10]
  history := some ((storeOf ["close"] trainFrame).slice [2, 3, 4, 5, 6, 7, 8, 9, 10])
  ordered := ["date", "close"]
  sources := inputSource
  models := inputModel
  ind := { data := inputSeries, bound := fun _ => false, filterDates := [8, 9, 10] }

theorem inputSeries_cases {P : Sym → Series → Prop} (hA : P "A" trainInd)
    (hB : P "B" [(1, none), (2, none), (3, some 3), (5, some 5), (6, some 6), (7, some 7), (8, some 8),
      (10, some 10)]) : ∀ i sym ser, inputSeries i sym = some ser → P sym ser := by
  intro i sym ser h
  unfold inputSeries at h
  split at h
  · rename_i e
    cases h
    rw [e.2]
    exact hA
  · split at h
    · rename_i e
      cases h
      rw [e.2]
      exact hB
    · cases h

theorem input_backtest :
    InBacktest trainFrame ["close"] [8, 9, 10] [2, 3, 4, 5, 6, 7, 8, 9, 10] inputScope where
  unique := trainFrame_unique
  store := rfl
  history := rfl
  within := by decide +kernel
  no_gap := by decide +kernel
  ordered := by decide +kernel
  sorted := inputSeries_cases (by decide +kernel) (by decide +kernel)
  series := by
    intro i sym ser _ h
    refine inputSeries_cases (P := fun sym ser => ∀ d, d ∈ ser.map Prod.fst ↔
      ∃ r ∈ trainFrame, r.symbol = sym ∧ r.date = d) ?_ ?_ i sym ser h
    · intro d
      have : (∃ r ∈ trainFrame, r.symbol = "A" ∧ r.date = d) ↔
          d ∈ (trainFrame.filter (fun r => r.symbol = "A")).map DRow.date := by
        simp [and_assoc]
      rw [this]
      rfl
    · intro d
      have : (∃ r ∈ trainFrame, r.symbol = "B" ∧ r.date = d) ↔
          d ∈ (trainFrame.filter (fun r => r.symbol = "B")).map DRow.date := by
        simp [and_assoc]
      rw [this]
      rfl
  mask := by decide +kernel
  names := by
    intro name src h i hi
    unfold inputScope inputSource at h
    simp only at h
    split at h
    · cases h
      rw [List.mem_singleton.1 hi]
      decide +kernel
    · split at h
      · cases h
        rw [List.mem_singleton.1 hi]
        decide +kernel
      · cases h
  lagged := by
    intro name sym tm l h hl
    unfold inputScope inputModel at h
    simp only at h
    split at h
    · cases h
      cases hl
      decide +kernel
    · split at h
      · cases h
        cases hl
      · cases h
  fresh := ⟨rfl, rfl, rfl, rfl, rfl⟩

/-- The window of a split meets the conditions of `window_history`. -/
example : trainWin ∈ [trainWin] ∧ trainWin.test ≠ [] := by decide +kernel

example : barsTo trainFrame [8, 9, 10] "B" 9 ≠ [] := by
  intro h
  have := congrArg (List.map DRow.date) h
  revert this
  decide +kernel

example : InputCols { indicators := ["ind"], lags := some 2, pooled := false, inputFn := none }
    { inputCols := some ["close", "ind"], lagColumns := some ["close", "ind"] } ["close", "ind"] :=
  ⟨rfl, by decide, by decide, .inl rfl⟩

example : LagCols { indicators := ["ind"], lags := some 2, pooled := false, inputFn := none }
    { inputCols := some ["close", "ind"], lagColumns := some ["close", "ind"] } ["close", "ind"] := .inl rfl

def junkMat : LagMat := fun r c => some (r + c)

/-- On date 9 the model sees `B`'s only bar of the window so far, and the two bars before
it, which are training bars; reads of other models and symbols change nothing. -/
example : ((inputScope.run [⟨junkMat, "A", "lagged", none⟩, ⟨junkMat, "B", "plain", some 1⟩,
      ⟨junkMat, "B", "lagged", some 2⟩, ⟨junkMat, "C", "lagged", none⟩]).fetch junkMat "B" "lagged"
      (some (barIndex ["close"] trainFrame [8, 9, 10] ["A", "B"] 9 "B" : Int))).1 =
    .ok { dates := [8], symbols := none, columns := [("close", [some 800]), ("ind", [some 8])],
          features := some [[some 800, some 700, some 600, some 8, some 7, some 6]] } := by
  decide +kernel

/-- The whole window of `B`. -/
example : (inputScope.fetch junkMat "B" "lagged" none).1 =
    .ok { dates := [8, 10], symbols := none,
          columns := [("close", [some 800, some 1000]), ("ind", [some 8, some 10])],
          features := some [[some 800, some 700, some 600, some 8, some 7, some 6],
            [some 1000, some 800, some 700, some 10, some 8, some 7]] } := by
  decide +kernel

/-- Without declared input columns the input is the indicators. -/
example : (inputScope.fetch junkMat "B" "plain" none).1 =
    .ok { dates := [8, 10], symbols := none, columns := [("ind", [some 8, some 10])],
          features := none } := by
  decide +kernel

example : (inputScope.fetch junkMat "C" "plain" none).1 = .error .symbolNotFound := by decide +kernel

example : (inputScope.fetch junkMat "B" "other" none).1 = .error .modelNotFound := by decide +kernel

/-- The same frame with the bars after date 9 altered. -/
def inputFrame' : List DRow :=
  (trainFrame.filter (fun r => r.date ≤ 9)) ++ [⟨"B", 10, fun _ => some 7⟩, ⟨"B", 11, fun _ => some 9⟩]

example : inputFrame'.filter (fun r => r.date ≤ 9) = trainFrame.filter (fun r => r.date ≤ 9) := by
  unfold inputFrame'
  rw [List.filter_append, List.filter_filter]
  simp

end Demo

end PyBroker
