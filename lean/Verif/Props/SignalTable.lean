import Verif.Props.Signals

/-!
# The tables of signals (C125)
-/

namespace PyBroker

namespace Spec

/-- The number of rows that predictions are for. -/
def predRows : Preds → Nat
  | .one l => l.length
  | .many rows => rows.length

/-- What is asked of the sources of signals: columns, indicators and models are registered once, with
names that the check accepts; a series has a value for each bar of its symbol, and predictions for
each bar of their window. -/
structure SignalsOK (x : RunSetup) (g : SignalSetup) : Prop where
  custom : g.custom.Nodup ∧ ∀ c ∈ g.custom, c ∉ ["date", "open", "high", "low", "close", "volume", "vwap"]
  inds : g.inds.Nodup
  models : g.models.Nodup
  base : ∀ i ∈ g.inds, g.bound i = false
  names : ∃ inds models, validateNames g.custom inds models = .ok () ∧
    (∀ i ∈ g.inds, ∀ k sym, g.ind k i sym ≠ none → i ∈ inds) ∧
    ∀ m ∈ g.models, ∀ k sym, g.pred k sym m ≠ none → m ∈ models
  series : ∀ k i sym ser, g.ind k i sym = some ser → (ser.map Prod.fst).Pairwise (· < ·) ∧
    ∀ d, d ∈ ser.map Prod.fst ↔ ∃ r ∈ x.rows, r.symbol = sym ∧ r.date = d
  preds : ∀ k sym m p ds, g.pred k sym m = some p → Bars x k sym ds → predRows p = ds.length
  widths : ∀ k sym m rows, g.pred k sym m = some (.many rows) →
    ∀ r ∈ rows, ∀ r' ∈ rows, r.length = r'.length

/-- The value that a source has for a symbol on a date of window `k`. -/
inductive Signal (x : RunSetup) (g : SignalSetup) (k : Nat) (sym : Sym) (d : Date) :
    String → Cell → Prop
  | column {c : String} {r : DRow} (hc : IsColumn g.custom c) (hd : c ≠ "date") (hr : r ∈ x.rows)
      (hs : r.symbol = sym) (hrd : r.date = d) :
      Signal x g k sym d c (if c ∈ x.cols then r.val c else none)
  | indicator {i : String} {ser : Series} {v : Cell} (hi : i ∈ g.inds) (hs : g.ind k i sym = some ser)
      (hv : (d, v) ∈ ser) : Signal x g k sym d i v
  | prediction {m : String} {l : List Cell} {ds : List Date} {j : Nat} {v : Cell} (hm : m ∈ g.models)
      (hp : g.pred k sym m = some (.one l)) (hds : Bars x k sym ds) (hj : ds[j]? = some d)
      (hv : l[j]? = some v) : Signal x g k sym d (m ++ "_pred") v
  | component {m : String} {rows : List (List Cell)} {row : List Cell} {ds : List Date} {j n : Nat}
      {v : Cell} (hm : m ∈ g.models) (hp : g.pred k sym m = some (.many rows))
      (hds : Bars x k sym ds) (hj : ds[j]? = some d) (hr : rows[j]? = some row)
      (hv : row[n]? = some v) : Signal x g k sym d (m ++ "_pred_" ++ toString n) v

/-- Row `i` of a table holds `v` in the column `c`. -/
def HoldsAt (f : SigFrame) (i : Nat) (c : String) (v : Cell) : Prop :=
  ∃ l, (c, l) ∈ f.cols ∧ l[i]? = some v

/-- A table: columns with different names and one length. -/
structure IsTable (f : SigFrame) : Prop where
  names : (f.cols.map Prod.fst).Nodup
  lengths : ∀ e ∈ f.cols, e.2.length = f.rows

end Spec

open PyBroker.Spec

/-! ## Columns -/

theorem assocPut_fresh {K V : Type} [DecidableEq K] {l : List (K × V)} {k : K} {v : V}
    (h : k ∉ l.map Prod.fst) : assocPut l k v = l ++ [(k, v)] := by
  induction l with
  | nil => rfl
  | cons a l ih =>
    obtain ⟨k', v'⟩ := a
    rw [List.map_cons, List.mem_cons, not_or] at h
    unfold assocPut
    rw [if_neg (Ne.symm h.1), ih h.2]
    rfl

theorem fold_fresh {V : Type} : ∀ (l acc : List (String × V)), ((acc ++ l).map Prod.fst).Nodup →
    l.foldl (fun d e => assocPut d e.1 e.2) acc = acc ++ l := by
  intro l
  induction l with
  | nil => intro acc _; simp
  | cons a l ih =>
    intro acc h
    rw [List.foldl_cons]
    have hf : a.1 ∉ acc.map Prod.fst := by
      rw [List.map_append, List.map_cons] at h
      exact fun hm => (List.nodup_append.1 h).2.2 _ hm _ (List.mem_cons_self) rfl
    rw [assocPut_fresh hf, ih _ (by simpa using h)]
    simp

theorem toFrame_fresh {l : List (String × List Cell)} (hn : (l.map Prod.fst).Nodup) {n : Nat}
    (hl : ∀ e ∈ l, e.2.length = n) (hne : l ≠ []) : toFrame l = .ok { rows := n, cols := l } := by
  unfold toFrame
  simp only
  rw [fold_fresh l [] (by simpa using hn)]
  rw [List.nil_append]
  have h1 : (l.head?.map (fun e => e.2.length)).getD 0 = n := by
    cases l with
    | nil => exact absurd rfl hne
    | cons a l => exact hl a (List.mem_cons_self)
  rw [h1, if_pos (List.all_eq_true.2 (fun e he => by simpa using hl e he))]

/-! ## Joining tables -/

theorem holds_unique {f : SigFrame} (hf : IsTable f) {i : Nat} {c : String} {v w : Cell}
    (h : HoldsAt f i c v) (h' : HoldsAt f i c w) : v = w := by
  obtain ⟨l, h1, h2⟩ := h
  obtain ⟨l', h1', h2'⟩ := h'
  have e1 := cacheGet_of_mem hf.names h1
  have e2 := cacheGet_of_mem hf.names h1'
  rw [e1] at e2
  have := Option.some.inj e2
  subst this
  rw [h2] at h2'
  exact Option.some.inj h2'

theorem cacheGet_none {K V : Type} [DecidableEq K] {l : List (K × V)} {k : K}
    (h : k ∉ l.map Prod.fst) : cacheGet l k = none := by
  induction l with
  | nil => rfl
  | cons a l ih =>
    obtain ⟨k', v'⟩ := a
    rw [List.map_cons, List.mem_cons, not_or] at h
    unfold cacheGet
    rw [if_neg (Ne.symm h.1), ih h.2]

/-- The part of a column that a table gives. -/
theorem part_length {f : SigFrame} (hf : IsTable f) (c : String) :
    ((cacheGet f.cols c).getD (List.replicate f.rows none)).length = f.rows := by
  cases h : cacheGet f.cols c with
  | none => simp
  | some l => exact hf.lengths _ (cacheGet_mem h)

theorem concat_table {fs : List SigFrame} (hf : ∀ f ∈ fs, IsTable f) : IsTable (concatSignals fs) := by
  unfold concatSignals
  constructor
  · simp only [List.map_map]
    have : (Prod.fst ∘ fun c => (c, fs.flatMap (fun f => (cacheGet f.cols c).getD
        (List.replicate f.rows none)))) = id := rfl
    rw [this, List.map_id]
    exact nodup_eraseDups _
  · intro e he
    obtain ⟨c, hc, rfl⟩ := List.mem_map.1 he
    simp only
    clear he hc
    induction fs with
    | nil => rfl
    | cons f fs ih =>
      rw [List.flatMap_cons, List.length_append, part_length (hf f List.mem_cons_self),
        ih (fun g hg => hf g (List.mem_cons_of_mem _ hg)), List.map_cons, List.sum_cons]

theorem flatMap_get {α β : Type} {g : α → List β} {n : α → Nat} {pre post : List α} {a : α}
    (hg : ∀ b ∈ pre, (g b).length = n b) {j : Nat} (hj : j < (g a).length) :
    ((pre ++ a :: post).flatMap g)[(pre.map n).sum + j]? = (g a)[j]? := by
  have hl : (pre.flatMap g).length = (pre.map n).sum := by
    clear hj
    induction pre with
    | nil => rfl
    | cons b pre ih =>
      rw [List.flatMap_cons, List.length_append, hg b List.mem_cons_self,
        ih (fun c hc => hg c (List.mem_cons_of_mem _ hc)), List.map_cons, List.sum_cons]
  rw [List.flatMap_append, List.flatMap_cons, ← hl,
    List.getElem?_append_right (Nat.le_add_right _ _), Nat.add_sub_cancel_left,
    List.getElem?_append_left hj]

/-- A row of the joined table is a row of one of the tables, with nothing in the columns this one
does not have. -/
theorem concat_holds {pre post : List SigFrame} {f : SigFrame}
    (hf : ∀ g ∈ pre ++ f :: post, IsTable g) {j : Nat} (hj : j < f.rows) {c : String} :
    (∀ v, HoldsAt f j c v →
      HoldsAt (concatSignals (pre ++ f :: post)) ((pre.map SigFrame.rows).sum + j) c v) ∧
    ∀ v, HoldsAt (concatSignals (pre ++ f :: post)) ((pre.map SigFrame.rows).sum + j) c (some v) →
      HoldsAt f j c (some v) := by
  have hfm : f ∈ pre ++ f :: post := by simp
  have get : ((pre ++ f :: post).flatMap
      (fun f => (cacheGet f.cols c).getD (List.replicate f.rows none)))[(pre.map SigFrame.rows).sum + j]? =
      ((cacheGet f.cols c).getD (List.replicate f.rows none))[j]? :=
    flatMap_get (fun b hb => part_length (hf b (List.mem_append_left _ hb)) c)
      (by rw [part_length (hf f hfm)]; exact hj)
  constructor
  · rintro v ⟨l, hl, hv⟩
    refine ⟨_, List.mem_map.2 ⟨c, ?_, rfl⟩, ?_⟩
    · rw [List.mem_eraseDups]
      exact List.mem_flatMap.2 ⟨f, hfm, List.mem_map.2 ⟨_, hl, rfl⟩⟩
    · rw [get, cacheGet_of_mem (hf f hfm).names hl]
      exact hv
  · rintro v ⟨l, hl, hv⟩
    obtain ⟨c', _, he⟩ := List.mem_map.1 hl
    cases he
    rw [get] at hv
    cases h : cacheGet f.cols c with
    | none =>
      rw [h] at hv
      simp only [Option.getD_none, List.getElem?_replicate] at hv
      split at hv
      · cases hv
      · cases hv
    | some l =>
      rw [h] at hv
      exact ⟨l, cacheGet_mem h, hv⟩

theorem nodup_eraseDups_eq : ∀ {l : List String}, l.Nodup → l.eraseDups = l := by
  intro l
  induction l with
  | nil => intro _; rfl
  | cons a l ih =>
    intro h
    rw [List.nodup_cons] at h
    rw [List.eraseDups_cons, List.filter_eq_self.2, ih h.2]
    intro b hb
    have : b ≠ a := fun e => h.1 (e ▸ hb)
    simpa using this

theorem concat_one {f : SigFrame} (hf : IsTable f) : concatSignals [f] = f := by
  unfold concatSignals
  have h1 : ([f].flatMap (fun f => f.cols.map Prod.fst)).eraseDups = f.cols.map Prod.fst := by
    rw [List.flatMap_singleton, nodup_eraseDups_eq hf.names]
  rw [h1]
  obtain ⟨rows, cols⟩ := f
  have h2 : ([(⟨rows, cols⟩ : SigFrame)].map SigFrame.rows).sum = rows := by simp
  rw [h2]
  congr 1
  · simp only [List.flatMap_singleton]
    rw [List.map_map]
    conv_rhs => rw [← List.map_id cols]
    apply List.map_congr_left
    intro e he
    obtain ⟨c, l⟩ := e
    have := cacheGet_of_mem hf.names he
    simp only at this
    simp [this]

theorem join_concat {fs : List SigFrame} (hf : ∀ f ∈ fs, IsTable f) : joinFrames fs = concatSignals fs := by
  unfold joinFrames
  split
  · rename_i f
    rw [concat_one (hf f (by simp))]
  · rfl

/-! ## The table of a window -/

/-- What the columns of a table are named after. -/
def signalSources (g : SignalSetup) (k : Nat) (sym : Sym) : List SigSource :=
  SigSource.column "date" :: ((orderedCols g.custom).filter (fun c => c ≠ "date")).map .column ++
    g.inds.filterMap (fun i => (g.ind k i sym).map (fun _ => .indicator i)) ++
    g.models.flatMap (fun m => match g.pred k sym m with
      | none => []
      | some (.one _) => [.prediction m]
      | some (.many rows) =>
        (List.range ((rows.head?.map List.length).getD 0)).map (fun n => .component m n))

theorem fetch_signal (g : SignalSetup) (k : Nat) (cal : List Date) (sym : Sym) (i : String) :
    (match (IndScope.fetch { data := g.ind k, bound := g.bound, filterDates := cal } sym i none).1 with
      | .error _ => none
      | .ok l => some (i, l)) =
    (g.ind k i sym).map (fun ser => (i,
      (IndScope.served { data := g.ind k, bound := g.bound, filterDates := cal } i ser))) := by
  unfold IndScope.fetch
  simp only [Option.isSome_none, Bool.and_false, Bool.false_eq_true, if_false, cacheGet]
  cases g.ind k i sym with
  | none => rfl
  | some ser => rfl

theorem entries_eq (g : SignalSetup) (k : Nat) (a : SymArrays) (cal : List Date) (sym : Sym) :
    sigEntries g k a cal sym =
      ("date", a.dates.map (fun d => some ((d : Int) : ℚ))) ::
      ((orderedCols g.custom).filter (fun c => c ≠ "date")).map
        (fun c => (c, (a.col c).getD (List.replicate a.dates.length none))) ++
      g.inds.filterMap (fun i => (g.ind k i sym).map (fun ser => (i,
        (IndScope.served { data := g.ind k, bound := g.bound, filterDates := cal } i ser)))) ++
      g.models.flatMap (fun m => ((g.pred k sym m).map (predCols m)).getD []) := by
  unfold sigEntries
  congr 2
  apply List.filterMap_congr
  intro i _
  exact fetch_signal g k cal sym i

theorem entries_names (g : SignalSetup) (k : Nat) (a : SymArrays) (cal : List Date) (sym : Sym) :
    (sigEntries g k a cal sym).map Prod.fst = (signalSources g k sym).map SigSource.name := by
  rw [entries_eq]
  unfold signalSources
  simp only [List.map_append, List.map_cons, List.map_map, List.map_filterMap, List.map_flatMap]
  congr 1
  · congr 1
    apply List.filterMap_congr
    intro i _
    cases g.ind k i sym <;> rfl
  · congr 1
    funext m
    cases h : g.pred k sym m with
    | none => rfl
    | some p =>
      cases p with
      | one l => rfl
      | many rows =>
        simp only [Option.map_some, Option.getD_some, predCols, List.map_map]
        apply List.map_congr_left
        intro n _
        exact predNameAt_eq m n

theorem orderedCols_mem {custom : List String} {c : String} :
    c ∈ orderedCols custom ↔ IsColumn custom c := by
  unfold orderedCols
  rw [isColumn_iff, List.mem_append, List.mem_append, mem_sort]

theorem entries_nodup {x : RunSetup} {g : SignalSetup} (hg : SignalsOK x g) (k : Nat) (a : SymArrays)
    (cal : List Date) (sym : Sym) : ((sigEntries g k a cal sym).map Prod.fst).Nodup := by
  rw [entries_names]
  obtain ⟨inds, models, hv, hi, hm⟩ := hg.names
  have hof : ∀ s ∈ signalSources g k sym, s.Of g.custom inds models := by
    intro s hs
    unfold signalSources at hs
    rcases List.mem_append.1 hs with hs | hs
    · rcases List.mem_append.1 hs with hs | hs
      · rcases List.mem_cons.1 hs with rfl | hs
        · exact Or.inl (by simp)
        · obtain ⟨c, hc, rfl⟩ := List.mem_map.1 hs
          exact orderedCols_mem.1 (List.mem_filter.1 hc).1
      · obtain ⟨i, him, he⟩ := List.mem_filterMap.1 hs
        obtain ⟨ser, hser, rfl⟩ := Option.map_eq_some_iff.1 he
        exact hi i him k sym (by rw [hser]; simp)
    · obtain ⟨m, hmm, hs⟩ := List.mem_flatMap.1 hs
      split at hs
      · cases hs
      · rename_i l hp
        have := List.mem_singleton.1 hs
        subst this
        exact hm m hmm k sym (by rw [hp]; simp)
      · rename_i rows hp
        obtain ⟨n, _, rfl⟩ := List.mem_map.1 hs
        exact hm m hmm k sym (by rw [hp]; simp)
  refine List.Nodup.map_on (fun s hs t ht e => names_unambiguous hv (hof s hs) (hof t ht) e) ?_
  unfold signalSources
  have hcols : (orderedCols g.custom).Nodup := by
    unfold orderedCols
    refine List.nodup_append.2 ⟨by decide, (List.perm_insertionSort _ _).nodup_iff.2 hg.custom.1, ?_⟩
    intro c hc c' hc' e
    subst e
    exact hg.custom.2 c (mem_sort.1 hc') hc
  refine List.nodup_append.2 ⟨List.nodup_append.2 ⟨List.nodup_cons.2 ⟨?_, ?_⟩, ?_, ?_⟩, ?_, ?_⟩
  · intro h
    obtain ⟨c, hc, e⟩ := List.mem_map.1 h
    have := (List.mem_filter.1 hc).2
    cases e
    simp at this
  · exact (hcols.filter _).map (fun a b e => by cases e; rfl)
  · refine hg.inds.filterMap ?_
    intro i i' b hb hb'
    obtain ⟨_, _, e⟩ := Option.map_eq_some_iff.1 (Option.mem_def.1 hb)
    obtain ⟨_, _, e'⟩ := Option.map_eq_some_iff.1 (Option.mem_def.1 hb')
    rw [← e] at e'
    cases e'
    rfl
  · intro s hs t ht e
    subst e
    obtain ⟨i, _, he⟩ := List.mem_filterMap.1 ht
    obtain ⟨_, _, e⟩ := Option.map_eq_some_iff.1 he
    subst e
    rcases List.mem_cons.1 hs with h | h
    · cases h
    · obtain ⟨_, _, e⟩ := List.mem_map.1 h
      cases e
  · rw [List.nodup_flatMap]
    constructor
    · intro m _
      split
      · exact List.nodup_nil
      · simp
      · exact (List.nodup_range).map (fun a b e => by cases e; rfl)
    · refine hg.models.imp ?_
      intro m m' hne s hs ht
      have key : ∀ m s, s ∈ (match g.pred k sym m with
          | none => []
          | some (.one _) => [SigSource.prediction m]
          | some (.many rows) =>
            (List.range ((rows.head?.map List.length).getD 0)).map (fun n => .component m n)) →
          s = .prediction m ∨ ∃ n, s = .component m n := by
        intro m s hs
        split at hs
        · cases hs
        · exact Or.inl (List.mem_singleton.1 hs)
        · obtain ⟨n, _, rfl⟩ := List.mem_map.1 hs
          exact Or.inr ⟨n, rfl⟩
      rcases key m s hs with rfl | ⟨n, rfl⟩
      · rcases key m' _ ht with e | ⟨_, e⟩
        · cases e; exact hne rfl
        · cases e
      · rcases key m' _ ht with e | ⟨_, e⟩
        · cases e
        · cases e; exact hne rfl
  · intro s hs t ht e
    subst e
    obtain ⟨m, _, ht⟩ := List.mem_flatMap.1 ht
    have hs' : (∃ c, s = .column c) ∨ ∃ i, s = .indicator i := by
      rcases List.mem_append.1 hs with hs | hs
      · rcases List.mem_cons.1 hs with rfl | hs
        · exact Or.inl ⟨_, rfl⟩
        · obtain ⟨c, _, rfl⟩ := List.mem_map.1 hs
          exact Or.inl ⟨_, rfl⟩
      · obtain ⟨i, _, he⟩ := List.mem_filterMap.1 hs
        obtain ⟨_, _, rfl⟩ := Option.map_eq_some_iff.1 he
        exact Or.inr ⟨_, rfl⟩
    split at ht
    · cases ht
    · have := List.mem_singleton.1 ht
      subst this
      rcases hs' with ⟨_, e⟩ | ⟨_, e⟩ <;> cases e
    · obtain ⟨n, _, rfl⟩ := List.mem_map.1 ht
      rcases hs' with ⟨_, e⟩ | ⟨_, e⟩ <;> cases e

/-- The dates of two increasing lists with the same members are the same. -/
theorem sorted_unique {l l' : List Date} (h : l.Pairwise (· < ·)) (h' : l'.Pairwise (· < ·))
    (hm : ∀ d, d ∈ l ↔ d ∈ l') : l = l' := by
  refine List.Perm.eq_of_pairwise (fun a b _ _ h1 h2 => absurd h1 (lt_asymm h2)) h h' ?_
  exact (List.perm_ext_iff_of_nodup (h.imp ne_of_lt) (h'.imp ne_of_lt)).2 hm

theorem get_inj {l : List Date} (h : l.Pairwise (· < ·)) {d : Date} {i j : Nat} (hi : l[i]? = some d)
    (hj : l[j]? = some d) : i = j := by
  have hn : l.Nodup := h.imp ne_of_lt
  obtain ⟨h1, e1⟩ := List.getElem?_eq_some_iff.1 hi
  obtain ⟨h2, e2⟩ := List.getElem?_eq_some_iff.1 hj
  exact (List.Nodup.getElem_inj_iff hn).1 (e1.trans e2.symm)

/-- What the table of a window has to hold for a symbol. -/
structure TableFor (x : RunSetup) (g : SignalSetup) (k : Nat) (sym : Sym) (ds : List Date)
    (f : SigFrame) : Prop where
  table : IsTable f
  rows : f.rows = ds.length
  dates : ("date", ds.map (fun d => some ((d : Int) : ℚ))) ∈ f.cols
  holds : ∀ j d, ds[j]? = some d → ∀ c v, Signal x g k sym d c v → HoldsAt f j c v
  only : ∀ j d, ds[j]? = some d → ∀ c v, HoldsAt f j c (some v) →
    c = "date" ∨ Signal x g k sym d c (some v)

namespace RunSetup

variable {x : RunSetup}

theorem bars_eq (hok : SetupOK x) {wins : List WFWindow}
    (hw : walkforwardSplit x.dates x.windows x.lookahead x.trainSize x.shuffle = .ok wins)
    {k : Nat} {win : WFWindow} (hk : wins[k]? = some win) {es : List (Execn (List DRow))}
    (hes : windowExecutions (fun d : List DRow => (d.map DRow.symbol).dedup) List.isEmpty x.execs
      (x.rowsAt win.train) = .ok es) {sym : Sym} (hsel : sym ∈ selectedSymbols es) :
    Bars x k sym (x.barsOn (x.testDates win) sym) := by
  refine ⟨barsOn_sorted hok.unique _ _, ?_⟩
  intro d
  constructor
  · intro hd
    obtain ⟨hw', r, hr, hs, hrd⟩ := mem_barsOn.1 hd
    obtain ⟨i, hi, hir⟩ := tested_row hok hw hk hr (by rw [hrd]; exact hw')
    exact ⟨win, _, ⟨wins, es, hw, hk, hes, rfl⟩, hsel, i, hi, r, hir, hs, hrd⟩
  · rintro ⟨win', selected, ⟨wins', es', hw', hk', _⟩, _, i, hi, r, hr, hs, hrd⟩
    rw [hw] at hw'
    have := Except.ok.inj hw'
    subst this
    rw [hk] at hk'
    have := Option.some.inj hk'
    subst this
    exact mem_barsOn.2 ⟨mem_testDates.2 ⟨i, hi, r, hr, hrd⟩, r, List.mem_of_getElem? hr, hs, hrd⟩

theorem bars_unique {k : Nat} {sym : Sym} {ds ds' : List Date} (h : Bars x k sym ds)
    (h' : Bars x k sym ds') : ds = ds' :=
  sorted_unique h.1 h'.1 (fun d => (h.2 d).trans (h'.2 d).symm)

/-- The series served in a window: its values on the bars of the window. -/
theorem served_series (hu : UniqueBars x.rows) {g : SignalSetup} (hg : SignalsOK x g) {k : Nat}
    {i : String} {sym : Sym} {ser : Series} (hi : i ∈ g.inds) (hs : g.ind k i sym = some ser)
    (window : List Date) :
    IndScope.served { data := g.ind k, bound := g.bound, filterDates := (x.store window).uniqueDates }
        i ser =
      (ser.filter (fun p => p.1 ∈ (x.store window).uniqueDates)).map Prod.snd ∧
    (ser.filter (fun p => p.1 ∈ (x.store window).uniqueDates)).map Prod.fst = x.barsOn window sym := by
  constructor
  · unfold IndScope.served
    simp only [hg.base i hi, Bool.false_eq_true, if_false]
  · obtain ⟨h1, h2⟩ := hg.series k i sym ser hs
    refine sorted_unique ?_ (barsOn_sorted hu _ _) ?_
    · exact h1.sublist ((List.filter_sublist).map _)
    · intro d
      rw [mem_barsOn, List.mem_map]
      constructor
      · rintro ⟨p, hp, rfl⟩
        obtain ⟨hp1, hp2⟩ := List.mem_filter.1 hp
        obtain ⟨hw, _⟩ := (mem_calendar hu).1 (by simpa using hp2)
        exact ⟨hw, (h2 p.1).1 (List.mem_map.2 ⟨p, hp1, rfl⟩)⟩
      · rintro ⟨hw, r, hr, hs', hrd⟩
        obtain ⟨p, hp, rfl⟩ := List.mem_map.1 ((h2 d).2 ⟨r, hr, hs', hrd⟩)
        exact ⟨p, List.mem_filter.2 ⟨hp, by simpa using (mem_calendar hu).2 ⟨hw, r, hr, hrd⟩⟩, rfl⟩

/-- The table of a window. -/
theorem window_table (hok : SetupOK x) {g : SignalSetup} (hg : SignalsOK x g) {wins : List WFWindow}
    (hw : walkforwardSplit x.dates x.windows x.lookahead x.trainSize x.shuffle = .ok wins)
    {k : Nat} {win : WFWindow} (hk : wins[k]? = some win) {es : List (Execn (List DRow))}
    (hes : windowExecutions (fun d : List DRow => (d.map DRow.symbol).dedup) List.isEmpty x.execs
      (x.rowsAt win.train) = .ok es) {sym : Sym} (hsel : sym ∈ selectedSymbols es) {a : SymArrays}
    (ha : (x.store (x.testDates win)).arrays sym = some a) :
    ∃ f, toFrame (sigEntries g k a (x.store (x.testDates win)).uniqueDates sym) = .ok f ∧
      TableFor x g k sym (x.barsOn (x.testDates win) sym) f := by
  have hbars := bars_eq hok hw hk hes hsel
  set window := x.testDates win with hwin
  set R := (symRows x.rows sym).filter (fun r => r.date ∈ window) with hR
  obtain ⟨hne, had, hcol⟩ : R ≠ [] ∧ a.dates = R.map DRow.date ∧ ∀ c, a.col c =
      if c ∈ x.cols then some (R.map (fun r => r.val c)) else none := by
    rcases slice_arrays hok.unique x.cols window sym with ⟨_, h2⟩ | ⟨h1, a', h2, h3, h4⟩
    · rw [ha] at h2; cases h2
    · rw [ha] at h2
      have := Option.some.inj h2
      subst this
      exact ⟨h1, h3, h4⟩
  have hbd : x.barsOn window sym = R.map DRow.date := rfl
  have hRmem : ∀ r ∈ R, r ∈ x.rows ∧ r.symbol = sym := by
    intro r hr
    obtain ⟨h1, _⟩ := List.mem_filter.1 hr
    obtain ⟨h3, h4⟩ := List.mem_filter.1 ((symRows_perm x.rows sym).mem_iff.1 h1)
    exact ⟨h3, by simpa using h4⟩
  set cal := (x.store window).uniqueDates with hcal
  have hcolv : ∀ c, (a.col c).getD (List.replicate a.dates.length none) =
      R.map (fun r => if c ∈ x.cols then r.val c else none) := by
    intro c
    rw [hcol c, had]
    by_cases hc : c ∈ x.cols
    · simp [hc]
    · simp [hc]
  -- the entries
  have hent : ∀ c l, (c, l) ∈ sigEntries g k a cal sym ↔
      (c = "date" ∧ l = a.dates.map (fun d => some ((d : Int) : ℚ))) ∨
      (IsColumn g.custom c ∧ c ≠ "date" ∧ l = R.map (fun r => if c ∈ x.cols then r.val c else none)) ∨
      (∃ ser, c ∈ g.inds ∧ g.ind k c sym = some ser ∧
        l = (ser.filter (fun p => p.1 ∈ cal)).map Prod.snd) ∨
      ∃ m ∈ g.models, ∃ p, g.pred k sym m = some p ∧ (c, l) ∈ predCols m p := by
    intro c l
    rw [entries_eq, List.mem_append, List.mem_append, List.mem_cons]
    rw [or_assoc, or_assoc]
    refine or_congr (by rw [Prod.mk.injEq]) (or_congr ?_ (or_congr ?_ ?_))
    · rw [List.mem_map]
      constructor
      · rintro ⟨c', hc', e⟩
        obtain ⟨h1, h2⟩ := List.mem_filter.1 hc'
        cases e
        exact ⟨orderedCols_mem.1 h1, by simpa using h2, hcolv c⟩
      · rintro ⟨h1, h2, rfl⟩
        exact ⟨c, List.mem_filter.2 ⟨orderedCols_mem.2 h1, by simpa using h2⟩, by rw [hcolv]⟩
    · rw [List.mem_filterMap]
      constructor
      · rintro ⟨i, hi, e⟩
        obtain ⟨ser, hser, e⟩ := Option.map_eq_some_iff.1 e
        cases e
        exact ⟨ser, hi, hser, (served_series hok.unique hg hi hser window).1⟩
      · rintro ⟨ser, hi, hser, rfl⟩
        exact ⟨c, hi, by rw [hser, Option.map_some, (served_series hok.unique hg hi hser window).1]⟩
    · rw [List.mem_flatMap]
      refine exists_congr (fun m => and_congr_right (fun _ => ?_))
      cases g.pred k sym m with
      | none => simp
      | some p => simp
  -- lengths
  have hlen : ∀ e ∈ sigEntries g k a cal sym, e.2.length = (x.barsOn window sym).length := by
    rintro ⟨c, l⟩ he
    rcases (hent c l).1 he with ⟨_, rfl⟩ | ⟨_, _, rfl⟩ | ⟨ser, hi, hser, rfl⟩ | ⟨m, hm, p, hp, hl⟩
    · rw [had, hbd]; simp
    · rw [hbd]; simp
    · rw [← (served_series hok.unique hg hi hser window).2]
      simp
      rfl
    · have := hg.preds k sym m p _ hp hbars
      rw [← this]
      cases p with
      | one l' =>
        have := List.mem_singleton.1 hl
        cases this
        rfl
      | many rows =>
        obtain ⟨n, _, e⟩ := List.mem_map.1 hl
        cases e
        simp [predRows]
  have hnodup := entries_nodup hg k a cal sym
  have hnil : sigEntries g k a cal sym ≠ [] := by
    rw [entries_eq]; simp
  refine ⟨_, toFrame_fresh hnodup hlen hnil, ⟨hnodup, hlen⟩, rfl, ?_, ?_, ?_⟩
  · exact (hent _ _).2 (Or.inl ⟨rfl, by rw [had, hbd]⟩)
  · intro j d hj c v hsig
    cases hsig with
    | @column c r hc hd hr hs hrd =>
      refine ⟨_, (hent _ _).2 (Or.inr (Or.inl ⟨hc, hd, rfl⟩)), ?_⟩
      rw [hbd, List.getElem?_map] at hj
      obtain ⟨r', hr', he⟩ := Option.map_eq_some_iff.1 hj
      rw [List.getElem?_map, hr']
      have hm := hRmem r' (List.mem_of_getElem? hr')
      have : r' = r := by
        by_contra hne'
        have : Std.Symm (fun a b : DRow => a.symbol ≠ b.symbol ∨ a.date ≠ b.date) :=
          ⟨fun a b h => h.imp Ne.symm Ne.symm⟩
        have := List.Pairwise.forall hok.unique hm.1 hr hne'
        rcases this with h | h
        · exact h (hm.2.trans hs.symm)
        · exact h (he.trans hrd.symm)
      rw [this]
      rfl
    | @indicator i ser v hi hs hv =>
      refine ⟨_, (hent _ _).2 (Or.inr (Or.inr (Or.inl ⟨ser, hi, hs, rfl⟩))), ?_⟩
      have h2 := (served_series hok.unique hg hi hs window).2
      rw [← h2, List.getElem?_map] at hj
      obtain ⟨p, hp, he⟩ := Option.map_eq_some_iff.1 hj
      rw [List.getElem?_map, hp]
      have hpm := List.mem_of_getElem? hp
      obtain ⟨hp1, hp2⟩ := List.mem_filter.1 hpm
      have hq : p = (d, v) := by
        have hnd : (ser.map Prod.fst).Nodup := (hg.series _ _ _ _ hs).1.imp ne_of_lt
        exact List.inj_on_of_nodup_map hnd hp1 hv he
      rw [hq]
      rfl
    | @prediction m l ds' j' v hm hp hds hj' hv =>
      have := bars_unique hds hbars
      subst this
      have := get_inj hbars.1 hj hj'
      subst this
      exact ⟨l, (hent _ _).2 (Or.inr (Or.inr (Or.inr ⟨m, hm, _, hp, List.mem_singleton.2 rfl⟩))), hv⟩
    | @component m rows row ds' j' n v hm hp hds hj' hr hv =>
      have := bars_unique hds hbars
      subst this
      have := get_inj hbars.1 hj hj'
      subst this
      refine ⟨rows.map (fun r => (r[n]?).getD none),
        (hent _ _).2 (Or.inr (Or.inr (Or.inr ⟨m, hm, _, hp, ?_⟩))), ?_⟩
      · refine List.mem_map.2 ⟨n, List.mem_range.2 ?_, by rw [predNameAt_eq]; rfl⟩
        have hrow := List.mem_of_getElem? hr
        have hn := (List.getElem?_eq_some_iff.1 hv).1
        cases rows with
        | nil => cases hrow
        | cons q rows =>
          show n < q.length
          rw [hg.widths k sym m _ hp q List.mem_cons_self row hrow]
          exact hn
      · rw [List.getElem?_map, hr, Option.map_some, hv, Option.getD_some]
  · rintro j d hj c v ⟨l, hl, hv⟩
    rcases (hent c l).1 hl with ⟨hc, _⟩ | ⟨hc, hd, rfl⟩ | ⟨ser, hi, hser, rfl⟩ | ⟨m, hm, p, hp, hl⟩
    · exact Or.inl hc
    · right
      rw [hbd, List.getElem?_map] at hj
      obtain ⟨r, hr, rfl⟩ := Option.map_eq_some_iff.1 hj
      rw [List.getElem?_map, hr, Option.map_some] at hv
      have hm := hRmem r (List.mem_of_getElem? hr)
      rw [← Option.some.inj hv]
      exact .column hc hd hm.1 hm.2 rfl
    · right
      have h2 := (served_series hok.unique hg hi hser window).2
      rw [← h2, List.getElem?_map] at hj
      obtain ⟨p, hp, he⟩ := Option.map_eq_some_iff.1 hj
      rw [List.getElem?_map, hp, Option.map_some] at hv
      refine .indicator hi hser ?_
      have := (List.mem_filter.1 (List.mem_of_getElem? hp)).1
      rw [← he, ← Option.some.inj hv]
      exact this
    · right
      cases p with
      | one l' =>
        have := List.mem_singleton.1 hl
        cases this
        exact .prediction hm hp hbars hj hv
      | many rows =>
        obtain ⟨n, hn, e⟩ := List.mem_map.1 hl
        cases e
        rw [List.getElem?_map] at hv
        obtain ⟨row, hrow, he⟩ := Option.map_eq_some_iff.1 hv
        rw [predNameAt_eq]
        refine .component hm hp hbars hj hrow ?_
        cases hrn : row[n]? with
        | none => rw [hrn] at he; cases he
        | some w => rw [hrn] at he; rw [← he]; rfl

theorem collectE_ok {α β : Type} {f : α → Except SigErr β} {R : α → β → Prop} : ∀ {l : List α},
    (∀ a ∈ l, ∃ b, f a = .ok b ∧ R a b) → ∃ bs, collectE f l = .ok bs ∧ List.Forall₂ R l bs := by
  intro l
  induction l with
  | nil => intro _; exact ⟨[], rfl, .nil⟩
  | cons a l ih =>
    intro h
    obtain ⟨b, hb, hr⟩ := h a List.mem_cons_self
    obtain ⟨bs, hbs, hf⟩ := ih (fun a ha => h a (List.mem_cons_of_mem _ ha))
    refine ⟨b :: bs, ?_, .cons hr hf⟩
    unfold collectE
    rw [hb]
    simp only
    rw [hbs]

/-- What the signals of a window have to be. -/
structure WindowTables (x : RunSetup) (g : SignalSetup) (kw : WFWindow × Nat)
    (w : List (Sym × SigFrame)) : Prop where
  keys : (w.map Prod.fst).Nodup
  mem : ∀ sym, sym ∈ w.map Prod.fst ↔ ∃ d ∈ x.testDates kw.1, InPlay x sym d
  tables : ∀ sym f, (sym, f) ∈ w → Bars x kw.2 sym (x.barsOn (x.testDates kw.1) sym) ∧
    TableFor x g kw.2 sym (x.barsOn (x.testDates kw.1) sym) f

theorem window_tables (hok : SetupOK x) {g : SignalSetup} (hg : SignalsOK x g) {wins : List WFWindow}
    (hw : walkforwardSplit x.dates x.windows x.lookahead x.trainSize x.shuffle = .ok wins)
    {kw : WFWindow × Nat} (hk : wins[kw.2]? = some kw.1) {es : List (Execn (List DRow))}
    (hes : windowExecutions (fun d : List DRow => (d.map DRow.symbol).dedup) List.isEmpty x.execs
      (x.rowsAt kw.1.train) = .ok es) :
    ∃ w, x.windowSignals g kw = .ok w ∧ WindowTables x g kw w := by
  unfold windowSignals
  simp only
  rw [hes]
  simp only
  by_cases ht : kw.1.test = []
  · rw [if_pos ht]
    refine ⟨[], rfl, List.nodup_nil, ?_, ?_⟩
    · intro sym
      refine iff_of_false (by simp) ?_
      rintro ⟨d, hd, _⟩
      obtain ⟨i, hi, _⟩ := mem_testDates.1 hd
      rw [ht] at hi
      cases hi
    · intro sym f h; cases h
  · rw [if_neg ht]
    set st := x.store (x.testDates kw.1) with hst
    set syms := (st.symbols.insertionSort (· ≤ ·)).filter (fun s => s ∈ selectedSymbols es) with hsyms
    have hmem : ∀ s, s ∈ syms ↔ s ∈ selectedSymbols es ∧ x.barsOn (x.testDates kw.1) s ≠ [] := by
      intro s
      rw [hsyms, List.mem_filter, mem_sort, decide_eq_true_iff, and_comm]
      refine and_congr_right (fun _ => ?_)
      constructor
      · intro h
        rcases store_arrays hok.unique (x.testDates kw.1) s with ⟨_, hn⟩ | ⟨hne, _⟩
        · exfalso
          have h : s ∈ ((storeOf x.cols x.rows).symbols.filter (fun y =>
            (((storeOf x.cols x.rows).arrays y).bind (sliceArrays (x.testDates kw.1))).isSome)) := h
          have h := (List.mem_filter.1 h).2
          have hn : ((storeOf x.cols x.rows).arrays s).bind (sliceArrays (x.testDates kw.1)) = none := hn
          rw [hn] at h
          cases h
        · exact hne
      · intro h
        rcases store_arrays hok.unique (x.testDates kw.1) s with ⟨hn, _⟩ | ⟨_, a, ha, _⟩
        · exact absurd hn h
        · exact store_symbols_mem ha
    have hnd : syms.Nodup := by
      rw [hsyms]
      refine List.Nodup.filter _ ((List.perm_insertionSort _ _).nodup_iff.2 ?_)
      exact List.Nodup.filter _ ((List.perm_insertionSort _ _).nodup_iff.2 (List.nodup_dedup _))
    obtain ⟨w, hcw, hf⟩ := collectE_ok (l := syms) (R := fun s e => e.1 = s ∧
        TableFor x g kw.2 s (x.barsOn (x.testDates kw.1) s) e.2)
      (f := fun s => match st.arrays s with
        | none => .ok (s, { rows := 0, cols := [] })
        | some a =>
          match toFrame (sigEntries g kw.2 a st.uniqueDates s) with
          | .error e => .error e
          | .ok f => .ok (s, f)) (by
        intro s hs
        obtain ⟨h1, h2⟩ := (hmem s).1 hs
        rcases store_arrays hok.unique (x.testDates kw.1) s with ⟨hn, _⟩ | ⟨_, a, ha, _⟩
        · exact absurd hn h2
        · obtain ⟨f, hf, ht⟩ := window_table hok hg hw hk hes h1 ha
          refine ⟨(s, f), ?_, rfl, ht⟩
          have ha' : st.arrays s = some a := ha
          simp only [ha']
          rw [hf])
    refine ⟨w, hcw, ?_, ?_, ?_⟩
    · have : w.map Prod.fst = syms := by
        clear hcw hmem hnd hsyms
        generalize syms = L at hf
        induction hf with
        | nil => rfl
        | cons h _ ih => rw [List.map_cons, ih, h.1]
      rw [this]
      exact hnd
    · intro sym
      have hkeys : sym ∈ w.map Prod.fst ↔ sym ∈ syms := by
        have : w.map Prod.fst = syms := by
          clear hcw hmem hnd hsyms
          generalize syms = L at hf
          induction hf with
          | nil => rfl
          | cons h _ ih => rw [List.map_cons, ih, h.1]
        rw [this]
      rw [hkeys, hmem]
      constructor
      · rintro ⟨h1, h2⟩
        obtain ⟨d, hd⟩ := List.exists_mem_of_ne_nil _ h2
        have hd' := (mem_barsOn.1 hd).1
        exact ⟨d, hd', (inPlay_iff hok hw hk hes hd').2 ⟨h1, hd⟩⟩
      · rintro ⟨d, hd, hp⟩
        obtain ⟨h1, h2⟩ := (inPlay_iff hok hw hk hes hd).1 hp
        exact ⟨h1, List.ne_nil_of_mem h2⟩
    · intro sym f hm
      obtain ⟨s, hs, he, ht⟩ : ∃ s ∈ syms, sym = s ∧
          TableFor x g kw.2 s (x.barsOn (x.testDates kw.1) s) f := by
        clear hcw hmem hnd hsyms
        generalize syms = L at hf
        induction hf with
        | nil => cases hm
        | @cons a b l l' h _ ih =>
          rcases List.mem_cons.1 hm with rfl | hm
          · exact ⟨a, List.mem_cons_self, h.1, h.2⟩
          · obtain ⟨s, hs, h⟩ := ih hm
            exact ⟨s, List.mem_cons_of_mem _ hs, h⟩
      subst he
      exact ⟨bars_eq hok hw hk hes ((hmem sym).1 hs).1, ht⟩

theorem flatMap_index {α β : Type} {g : α → List β} : ∀ {l : List α} {i : Nat} {b : β},
    (l.flatMap g)[i]? = some b → ∃ pre a post j, l = pre ++ a :: post ∧ (g a)[j]? = some b ∧
      i = (pre.map (fun a => (g a).length)).sum + j := by
  intro l
  induction l with
  | nil => intro i b h; cases h
  | cons a l ih =>
    intro i b h
    rw [List.flatMap_cons] at h
    by_cases hi : i < (g a).length
    · rw [List.getElem?_append_left hi] at h
      exact ⟨[], a, l, i, rfl, h, by simp⟩
    · rw [List.getElem?_append_right (Nat.le_of_not_lt hi)] at h
      obtain ⟨pre, a', post, j, rfl, hj, he⟩ := ih h
      refine ⟨a :: pre, a', post, j, rfl, hj, ?_⟩
      rw [List.map_cons, List.sum_cons]
      omega

end RunSetup

theorem RunSetup.inPlay_window {x : RunSetup} {wins : List WFWindow}
    (hw : walkforwardSplit x.dates x.windows x.lookahead x.trainSize x.shuffle = .ok wins)
    {sym : Sym} {d : Date} (h : InPlay x sym d) : ∃ kw ∈ wins.zipIdx, d ∈ x.testDates kw.1 := by
  obtain ⟨k, win, sel, ⟨wins', es', hw', hk', _⟩, _, i, hi, r, hr, _, hrd⟩ := h
  rw [hw] at hw'
  have := Except.ok.inj hw'
  subst this
  exact ⟨(win, k), List.mem_zipIdx_iff_getElem?.2 hk', RunSetup.mem_testDates.2 ⟨i, hi, r, hr, hrd⟩⟩

open RunSetup in
/-- **C125.**  A run returns one table of signals for each symbol it trades.  The rows of a table are
the dates that its symbol is in play on, in order.  A row holds what the sources have for the symbol
on its date, and nothing else: the values of the data, those of the indicators, and the predictions
that the model of the date's window made for this bar. -/
theorem signals_table {x : RunSetup} (hok : SetupOK x) {g : SignalSetup} (hg : SignalsOK x g)
    {st : RunSetup.State} (h : x.run = .ok st) :
    ∃ tables, x.signals g = .ok tables ∧ (tables.map Prod.fst).Nodup ∧
      (∀ sym, sym ∈ tables.map Prod.fst ↔ ∃ d, InPlay x sym d) ∧
      ∀ sym f, (sym, f) ∈ tables → IsTable f ∧ ∃ ds : List Date, ds.Pairwise (· < ·) ∧
        (∀ d, d ∈ ds ↔ InPlay x sym d) ∧ f.rows = ds.length ∧
        ("date", ds.map (fun d => some ((d : Int) : ℚ))) ∈ f.cols ∧
        ∀ i d, ds[i]? = some d → ∀ k wds, Bars x k sym wds → d ∈ wds →
          (∀ c v, Signal x g k sym d c v → HoldsAt f i c v) ∧
          ∀ c v, c ≠ "date" → HoldsAt f i c (some v) → Signal x g k sym d c (some v) := by
  obtain ⟨wins, bs, hw, hmade, _⟩ := run_made h
  have hsel : ∀ kw ∈ wins.zipIdx, ∃ es, windowExecutions (fun d : List DRow => (d.map DRow.symbol).dedup)
      List.isEmpty x.execs (x.rowsAt kw.1.train) = .ok es := by
    intro kw hkw
    obtain ⟨y, _, hy⟩ := forall₂_mem hmade.flip hkw
    obtain ⟨es, hes, _⟩ := hy.made
    exact ⟨es, hes⟩
  obtain ⟨ws, hws, hf⟩ := collectE_ok (f := x.windowSignals g) (R := WindowTables x g)
    (l := wins.zipIdx) (by
      intro kw hkw
      obtain ⟨es, hes⟩ := hsel kw hkw
      exact window_tables hok hg hw (mem_zip hkw) hes)
  refine ⟨(ws.flatten.map Prod.fst).eraseDups.map
        (fun s => (s, joinFrames (ws.filterMap (fun w => cacheGet w s)))), ?_, ?_, ?_, ?_⟩
  · unfold RunSetup.signals
    rw [hw]
    simp only
    rw [hws]
  · rw [List.map_map]
    have : (Prod.fst ∘ fun s => (s, joinFrames (ws.filterMap (fun w => cacheGet w s)))) = id := rfl
    rw [this, List.map_id]
    exact nodup_eraseDups _
  · intro sym
    rw [List.map_map]
    have : (Prod.fst ∘ fun s => (s, joinFrames (ws.filterMap (fun w => cacheGet w s)))) = id := rfl
    rw [this, List.map_id, List.mem_eraseDups, List.mem_map]
    constructor
    · rintro ⟨e, he, rfl⟩
      obtain ⟨w, hwm, hew⟩ := List.mem_flatten.1 he
      obtain ⟨kw, _, ht⟩ := forall₂_mem hf hwm
      obtain ⟨d, _, hd⟩ := (ht.mem e.1).1 (List.mem_map.2 ⟨e, hew, rfl⟩)
      exact ⟨d, hd⟩
    · rintro ⟨d, hd⟩
      obtain ⟨kw, hkw, hdt⟩ := inPlay_window hw hd
      obtain ⟨w, hwm, ht⟩ := forall₂_mem hf.flip hkw
      obtain ⟨e, he, rfl⟩ := List.mem_map.1 ((ht.mem sym).2 ⟨d, hdt, hd⟩)
      exact ⟨e, List.mem_flatten.2 ⟨w, hwm, he⟩, rfl⟩
  · intro sym f hm
    obtain ⟨s, hs, e⟩ := List.mem_map.1 hm
    cases e
    -- the parts of the table
    have hlen : ws.length = wins.zipIdx.length := hf.length_eq.symm
    set Z := wins.zipIdx.zip ws with hZ
    have hZ1 : Z.map Prod.fst = wins.zipIdx := List.map_fst_zip (le_of_eq hlen.symm)
    have hZ2 : Z.map Prod.snd = ws := List.map_snd_zip (le_of_eq hlen)
    have hZm : ∀ p ∈ Z, p.1 ∈ wins.zipIdx ∧ WindowTables x g p.1 p.2 := by
      intro p hp
      exact ⟨by rw [← hZ1]; exact List.mem_map.2 ⟨p, hp, rfl⟩, List.forall₂_zip hf hp⟩
    set parts := Z.filterMap (fun p => (cacheGet p.2 sym).map (fun f => (p.1, f))) with hparts
    have hframes : ws.filterMap (fun w => cacheGet w sym) = parts.map Prod.snd := by
      rw [← hZ2, hparts, List.filterMap_map, List.map_filterMap]
      apply List.filterMap_congr
      intro p _
      show cacheGet p.2 sym = _
      cases cacheGet p.2 sym <;> rfl
    have hpm : ∀ p ∈ parts, p.1 ∈ wins.zipIdx ∧
        Bars x p.1.2 sym (x.barsOn (x.testDates p.1.1) sym) ∧
        TableFor x g p.1.2 sym (x.barsOn (x.testDates p.1.1) sym) p.2 := by
      intro p hp
      obtain ⟨q, hq, he⟩ := List.mem_filterMap.1 hp
      obtain ⟨f, hf', rfl⟩ := Option.map_eq_some_iff.1 he
      obtain ⟨h1, h2⟩ := hZm q hq
      exact ⟨h1, h2.tables sym f (cacheGet_mem hf')⟩
    have hin : ∀ kw ∈ wins.zipIdx, ∀ d ∈ x.testDates kw.1, InPlay x sym d →
        ∃ f, (kw, f) ∈ parts := by
      intro kw hkw d hd hp
      rw [← hZ1] at hkw
      obtain ⟨q, hq, rfl⟩ := List.mem_map.1 hkw
      have ht := (hZm q hq).2
      obtain ⟨e, he, hes⟩ := List.mem_map.1 ((ht.mem sym).2 ⟨d, hd, hp⟩)
      obtain ⟨s', f⟩ := e
      simp only at hes
      subst hes
      exact ⟨f, List.mem_filterMap.2 ⟨q, hq, by rw [cacheGet_of_mem ht.keys he]; rfl⟩⟩
    have hord : parts.Pairwise (fun a b => a.1.2 < b.1.2) := by
      rw [hparts, List.pairwise_filterMap]
      have h1 : Z.Pairwise (fun a b => a.1.2 < b.1.2) := by
        have := zipIdx_order wins
        rw [← hZ1, List.pairwise_map] at this
        exact this
      refine h1.imp ?_
      intro a b hab y hy z hz
      obtain ⟨_, _, rfl⟩ := Option.map_eq_some_iff.1 hy
      obtain ⟨_, _, rfl⟩ := Option.map_eq_some_iff.1 hz
      exact hab
    have htab : ∀ f ∈ parts.map Prod.snd, IsTable f := by
      intro f hf'
      obtain ⟨p, hp, rfl⟩ := List.mem_map.1 hf'
      exact (hpm p hp).2.2.table
    have hwinp : ∀ p ∈ parts, ∀ d ∈ x.barsOn (x.testDates p.1.1) sym, InPlay x sym d := by
      intro p hp d hd
      obtain ⟨win, sel, hT, hsel', i, hi, r, hr⟩ := ((hpm p hp).2.1.2 d).1 hd
      exact ⟨p.1.2, win, sel, hT, hsel', i, hi, r, hr⟩
    rw [hframes, join_concat htab]
    refine ⟨concat_table htab, parts.flatMap (fun p => x.barsOn (x.testDates p.1.1) sym), ?_, ?_, ?_, ?_,
      ?_⟩
    · rw [List.pairwise_flatMap]
      refine ⟨fun p _ => barsOn_sorted hok.unique _ _, ?_⟩
      refine List.Pairwise.imp_of_mem ?_ hord
      intro a b ha hb hab d hd d' hd'
      exact test_order hok hw (mem_zip (hpm a ha).1) (mem_zip (hpm b hb).1) hab (mem_barsOn.1 hd).1
        (mem_barsOn.1 hd').1
    · intro d
      rw [List.mem_flatMap]
      constructor
      · rintro ⟨p, hp, hd⟩
        exact hwinp p hp d hd
      · intro hd
        obtain ⟨kw, hkw, hdt⟩ := inPlay_window hw hd
        obtain ⟨f, hp⟩ := hin kw hkw d hdt hd
        refine ⟨_, hp, ?_⟩
        obtain ⟨es, hes⟩ := hsel kw hkw
        exact ((inPlay_iff hok hw (mem_zip hkw) hes hdt).1 hd).2
    · show ((parts.map Prod.snd).map SigFrame.rows).sum = _
      rw [List.map_map, List.length_flatMap]
      congr 1
      apply List.map_congr_left
      intro p hp
      exact (hpm p hp).2.2.rows
    · have hne : ∃ p, p ∈ parts := by
        obtain ⟨e, he, hes⟩ := List.mem_map.1 (List.mem_eraseDups.1 hs)
        obtain ⟨w, hwm, hew⟩ := List.mem_flatten.1 he
        obtain ⟨kw, hkw, ht⟩ := forall₂_mem hf hwm
        obtain ⟨d, hd, hp⟩ := (ht.mem e.1).1 (List.mem_map.2 ⟨e, hew, rfl⟩)
        rw [hes] at hp
        obtain ⟨f, hf'⟩ := hin kw hkw d hd hp
        exact ⟨_, hf'⟩
      obtain ⟨p, hp⟩ := hne
      refine List.mem_map.2 ⟨"date", ?_, ?_⟩
      · rw [List.mem_eraseDups]
        exact List.mem_flatMap.2 ⟨p.2, List.mem_map.2 ⟨p, hp, rfl⟩,
          List.mem_map.2 ⟨_, (hpm p hp).2.2.dates, rfl⟩⟩
      · rw [Prod.mk.injEq]
        refine ⟨rfl, ?_⟩
        rw [List.flatMap_map, List.map_flatMap]
        apply List.flatMap_congr
        intro q hq
        have ht := (hpm q hq).2.2
        rw [cacheGet_of_mem ht.table.names ht.dates]
        rfl
    · intro i d hi k wds hb hd
      obtain ⟨pre, p, post, j, hsplit, hj, rfl⟩ := flatMap_index hi
      have hp : p ∈ parts := by rw [hsplit]; simp
      obtain ⟨hpz, hpb, ht⟩ := hpm p hp
      have hk : p.1.2 = k := by
        obtain ⟨win, sel, ⟨wins', es', hw', hk', _⟩, _, i, hi, r, hr, _, hrd⟩ := (hb.2 d).1 hd
        rw [hw] at hw'
        have := Except.ok.inj hw'
        subst this
        exact test_unique hok hw (mem_zip hpz) hk' (mem_barsOn.1 (List.mem_of_getElem? hj)).1
          (mem_testDates.2 ⟨i, hi, r, hr, hrd⟩)
      subst hk
      have hsum : (pre.map (fun a => (x.barsOn (x.testDates a.1.1) sym).length)).sum =
          ((pre.map Prod.snd).map SigFrame.rows).sum := by
        rw [List.map_map]
        congr 1
        apply List.map_congr_left
        intro q hq
        exact ((hpm q (by rw [hsplit]; exact List.mem_append_left _ hq)).2.2.rows).symm
      have hjr : j < p.2.rows := by
        rw [ht.rows]
        exact (List.getElem?_eq_some_iff.1 hj).1
      have hsp : parts.map Prod.snd = pre.map Prod.snd ++ p.2 :: post.map Prod.snd := by
        rw [hsplit, List.map_append, List.map_cons]
      rw [hsum, hsp]
      rw [hsp] at htab
      constructor
      · intro c v hv
        exact (concat_holds htab hjr).1 v (ht.holds j d hj c v hv)
      · intro c v hc hv
        rcases ht.only j d hj c v ((concat_holds htab hjr).2 v hv) with h | h
        · exact absurd h hc
        · exact h

/-! ## A concrete table -/

namespace Demo

/-- A registered column that the data do not have, an indicator that doubles the close, a model with
one prediction for `BBB` in the second window and one with two for `AAA` in the first. -/
def stSources : SignalSetup where
  custom := ["rating"]
  inds := ["twice"]
  models := ["svm", "rf"]
  ind _ i sym := if i = "twice" then
    some ((symRows drRows sym).map (fun r => (r.date, (r.val "close").map (2 * ·)))) else none
  pred k sym m :=
    if k = 1 ∧ sym = "BBB" ∧ m = "svm" then some (.one [some 7, some 8])
    else if k = 0 ∧ sym = "AAA" ∧ m = "rf" then
      some (.many [[some 1, some 2], [some 3, some 4], [some 5, some 6]])
    else none

theorem stBars {k : Nat} {sym : Sym} {ds : List Date} (h : Bars drRun k sym ds) :
    (k = 1 ∧ sym = "BBB" → ds.length = 2) ∧ (k = 0 ∧ sym = "AAA" → ds.length = 3) := by
  have hw : walkforwardSplit drRun.dates drRun.windows drRun.lookahead drRun.trainSize drRun.shuffle =
      .ok [⟨[], [0, 1, 2, 3, 4, 5]⟩, ⟨[], [6, 7, 8, 9, 10]⟩] := by decide +kernel
  have hes : windowExecutions (fun d : List DRow => (d.map DRow.symbol).dedup) List.isEmpty
      drRun.execs (drRun.rowsAt []) = .ok [⟨1, .fixed ["AAA", "BBB"]⟩] := rfl
  constructor
  · rintro ⟨rfl, rfl⟩
    rw [RunSetup.bars_unique h (RunSetup.bars_eq drRun_ok hw (k := 1) rfl hes (by decide +kernel))]
    decide +kernel
  · rintro ⟨rfl, rfl⟩
    rw [RunSetup.bars_unique h (RunSetup.bars_eq drRun_ok hw (k := 0) rfl hes (by decide +kernel))]
    decide +kernel

theorem stSources_ok : SignalsOK drRun stSources where
  custom := by decide
  inds := by decide
  models := by decide
  base := fun _ _ => rfl
  names := ⟨["twice"], ["svm", "rf"], by decide +kernel, fun i hi _ _ _ => hi, fun m hm _ _ _ => hm⟩
  series := by
    intro k i sym ser h
    simp only [stSources] at h
    split at h
    · have := Option.some.inj h
      subst this
      rw [List.map_map]
      have he : (Prod.fst ∘ fun r : DRow => (r.date, (r.val "close").map (2 * ·))) = DRow.date := rfl
      rw [he]
      refine ⟨List.pairwise_map.2 (symRows_sorted drRun_ok.unique sym), ?_⟩
      intro d
      rw [List.mem_map]
      constructor
      · rintro ⟨r, hr, rfl⟩
        obtain ⟨h1, h2⟩ := List.mem_filter.1 ((symRows_perm drRows sym).mem_iff.1 hr)
        exact ⟨r, h1, by simpa using h2, rfl⟩
      · rintro ⟨r, hr, hs, rfl⟩
        exact ⟨r, (symRows_perm drRows sym).mem_iff.2 (List.mem_filter.2 ⟨hr, by simpa using hs⟩), rfl⟩
    · cases h
  preds := by
    intro k sym m p ds h hb
    simp only [stSources] at h
    split at h
    · rename_i hc
      cases h
      rw [(stBars hb).1 ⟨hc.1, hc.2.1⟩]
      rfl
    · split at h
      · rename_i hc
        cases h
        rw [(stBars hb).2 ⟨hc.1, hc.2.1⟩]
        rfl
      · cases h
  widths := by
    intro k sym m rows h
    simp only [stSources] at h
    split at h
    · cases h
    · split at h
      · cases h
        decide
      · cases h

end Demo

example := signals_table Demo.drRun_ok Demo.stSources_ok Demo.drRun_run

/-- The tables of the two symbols. -/
example : Demo.drRun.signals Demo.stSources = .ok
    [("AAA", { rows := 6
               cols := [("date", [some 1, some 2, some 3, some 4, some 5, some 6]),
                 ("open", [some 100, some 101, some 102, some 103, some 104, some 105]),
                 ("high", [some 100, some 101, some 102, some 103, some 104, some 105]),
                 ("low", [some 100, some 101, some 102, some 103, some 104, some 105]),
                 ("close", [some 100, some 101, some 102, some 103, some 104, some 105]),
                 ("volume", [none, none, none, none, none, none]),
                 ("vwap", [none, none, none, none, none, none]),
                 ("rating", [none, none, none, none, none, none]),
                 ("twice", [some 200, some 202, some 204, some 206, some 208, some 210]),
                 ("rf_pred_0", [some 1, some 3, some 5, none, none, none]),
                 ("rf_pred_1", [some 2, some 4, some 6, none, none, none])] }),
     ("BBB", { rows := 5
               cols := [("date", [some 1, some 2, some 3, some 4, some 5]),
                 ("open", [some 20, some 21, some 22, some 23, some 24]),
                 ("high", [some 20, some 21, some 22, some 23, some 24]),
                 ("low", [some 20, some 21, some 22, some 23, some 24]),
                 ("close", [some 20, some 21, some 22, some 23, some 24]),
                 ("volume", [none, none, none, none, none]),
                 ("vwap", [none, none, none, none, none]),
                 ("rating", [none, none, none, none, none]),
                 ("twice", [some 40, some 42, some 44, some 46, some 48]),
                 ("svm_pred", [none, none, none, some 7, some 8])] })] := by
  decide +kernel

/-- The values of a colliding name: with an indicator called `close`, which the check of a run lets
pass when only a model uses it (`model_indicators_unchecked`), the table shows the indicator in the
place of the close. -/
theorem signals_overwritten : ∃ f : SigFrame × SigFrame, Demo.drRun.signals
      { inds := ["close"]
        ind := fun _ _ sym => some ((symRows Demo.drRows sym).map (fun r => (r.date, some 0))) } =
        .ok [("AAA", f.1), ("BBB", f.2)] ∧
    ("close", [some 0, some 0, some 0, some 0, some 0]) ∈ f.2.cols := by
  have h : (match Demo.drRun.signals
      { inds := ["close"]
        ind := fun _ _ sym => some ((symRows Demo.drRows sym).map (fun r => (r.date, some 0))) } with
      | .ok [("AAA", _), ("BBB", f)] => decide (("close", [some 0, some 0, some 0, some 0, some 0]) ∈ f.cols)
      | _ => false) = true := by decide +kernel
  revert h
  split
  · rename_i f f' he
    intro h
    exact ⟨(f, f'), he, of_decide_eq_true h⟩
  · intro h; cases h

end PyBroker
