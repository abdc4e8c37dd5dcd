import Verif.Props.Learn
import Verif.Props.Executions

/-!
# Which symbols share a pooled model (C163)
-/

namespace PyBroker

open PyBroker.Spec

namespace Spec

/-- The symbol has a bar in the window's training data. -/
def Trained {M : Type} (L : Learner M) (win : WFWindow) (s : Sym) : Prop :=
  ∃ r ∈ L.setup.rowsAt win.train, r.symbol = s

/-- The executions of a window. -/
def Runs {M : Type} (L : Learner M) (win : WFWindow) (es : List (Execn (List DRow))) : Prop :=
  windowExecutions (fun d : List DRow => (d.map DRow.symbol).dedup) List.isEmpty L.setup.execs
    (L.setup.rowsAt win.train) = .ok es

end Spec

namespace Learner

variable {M : Type} {L : Learner M}

theorem disjoint_unique : ∀ {es : List (Execn (List DRow))}, NoOverlap (es.map symsOf) →
    ∀ {e e' : Execn (List DRow)}, e ∈ es → e' ∈ es → ∀ {s : Sym}, s ∈ symsOf e → s ∈ symsOf e' → e = e' := by
  intro es hd e e' he he' s hs hs'
  unfold NoOverlap at hd
  rw [List.pairwise_map, List.pairwise_iff_getElem] at hd
  obtain ⟨i, hi, rfl⟩ := List.mem_iff_getElem.1 he
  obtain ⟨j, hj, rfl⟩ := List.mem_iff_getElem.1 he'
  rcases Nat.lt_trichotomy i j with h | h | h
  · exact absurd hs' (hd i j hi hj h s hs)
  · subst h; rfl
  · exact absurd hs (hd j i hj hi h s hs')

/-- The group of a symbol of an execution with the model. -/
theorem group_of {win : WFWindow} {es : List (Execn (List DRow))} (hes : Runs L win es)
    (hd : NoOverlap (es.map symsOf)) {name : String} {e : Execn (List DRow)} (he : e ∈ es)
    (hm : name ∈ L.models e.id) {s : Sym} (hs : s ∈ symsOf e) :
    L.group win name s = ((symsOf e).filter
      (fun s => decide (s ∈ (L.setup.rowsAt win.train).map DRow.symbol))).dedup := by
  unfold group
  have hes' : windowExecutions (fun d : List DRow => (d.map DRow.symbol).dedup) List.isEmpty L.setup.execs
    (L.setup.rowsAt win.train) = .ok es := hes
  rw [hes']
  simp only
  rcases hf : es.find? (fun e => decide (name ∈ L.models e.id) && decide (s ∈ e.symbols.static)) with _ | e'
  · have := List.find?_eq_none.1 hf e he
    exact absurd hs (by simpa [hm, symsOf] using this)
  · have h1 := List.find?_some hf
    have h2 := List.mem_of_find?_eq_some hf
    simp only [Bool.and_eq_true, decide_eq_true_eq] at h1
    obtain rfl := disjoint_unique hd h2 he h1.2 hs
    rw [hf]
    rfl

theorem mem_group {win : WFWindow} {e : Execn (List DRow)} {s : Sym} :
    s ∈ ((symsOf e).filter
      (fun s => decide (s ∈ (L.setup.rowsAt win.train).map DRow.symbol))).dedup ↔
    s ∈ symsOf e ∧ Trained L win s := by
  rw [List.mem_dedup, List.mem_filter, decide_eq_true_eq, List.mem_map]
  rfl

/-- A symbol without training data, or of no execution with the model, is in no group. -/
theorem group_out {win : WFWindow} {es : List (Execn (List DRow))} (hes : Runs L win es) {name : String}
    {s : Sym} (h : ¬ Trained L win s ∨ ∀ e ∈ es, name ∈ L.models e.id → s ∉ symsOf e) :
    s ∉ L.group win name s := by
  intro hc
  unfold group at hc
  have hes' : windowExecutions (fun d : List DRow => (d.map DRow.symbol).dedup) List.isEmpty L.setup.execs
    (L.setup.rowsAt win.train) = .ok es := hes
  rw [hes'] at hc
  simp only at hc
  split at hc
  · cases hc
  · rename_i e hf
    have h1 := List.find?_some hf
    have h2 := List.mem_of_find?_eq_some hf
    simp only [Bool.and_eq_true, decide_eq_true_eq] at h1
    have h3 := (mem_group (L := L) (win := win) (e := e) (s := s)).1 hc
    rcases h with h | h
    · exact h h3.2
    · exact h e h2 h1.1 h1.2

end Learner

open Learner

/-- **C163.**  In a window of a strategy set up by any calls, a pooled model is one model for the symbols
of an execution that have training data.  A symbol without training data, or of no execution with
the model, has none. -/
theorem pooled_model_shared {M : Type} {L : Learner M} (ops : List (SetupOp (List DRow)))
    (hops : L.setup.execs = (setup {} ops).executions) {win : WFWindow}
    {es : List (Execn (List DRow))} (hes : Runs L win es) (k : Nat) {name : String} {src : InSource}
    (hsrc : L.source name = some src) (hpool : src.pooled = true) :
    (∀ e ∈ es, name ∈ L.models e.id → ∀ s ∈ symsOf e, ∀ s' ∈ symsOf e, Trained L win s →
      Trained L win s' → L.fitted k win name s = L.fitted k win name s') ∧
    ∀ s, (¬ Trained L win s ∨ ∀ e ∈ es, name ∈ L.models e.id → s ∉ symsOf e) →
      L.fitted k win name s = none := by
  have hd : NoOverlap (es.map symsOf) := by
    have := (window_disjoint (fun d : List DRow => (d.map DRow.symbol).dedup) List.isEmpty ops
      (L.setup.rowsAt win.train)).1 es
    rw [← hops] at this
    exact (this hes).1
  have hf : ∀ s, L.fitted k win name s = L.fittedPool k win name src s := by
    intro s
    unfold fitted
    rw [hsrc]
    simp only
    rw [if_pos hpool]
  constructor
  · intro e he hm s hs s' hs' ht ht'
    rw [hf, hf]
    unfold fittedPool
    rw [group_of hes hd he hm hs, group_of hes hd he hm hs', if_pos (mem_group.2 ⟨hs, ht⟩),
      if_pos (mem_group.2 ⟨hs', ht'⟩)]
  · intro s h
    rw [hf]
    unfold fittedPool
    rw [if_neg (group_out hes h)]

theorem pooledOf_spec (cols ordered inds : List String) (data : Sym → String → Option Series)
    (bars : List DRow) : PooledOf cols ordered inds data bars (pooledOf cols ordered inds data bars) := by
  refine ⟨pooledOf_dates .., pooledOf_symbols .., ?_, ?_, ?_⟩
  · intro p hp
    unfold pooledOf at hp
    split at hp
    · cases hp
    · obtain ⟨c, _, rfl⟩ := List.mem_map.1 hp
      rfl
  · intro hne
    rw [pooledOf_names _ _ _ _ hne]
    refine ⟨?_, fun c => ?_⟩
    · unfold modelInputCols
      exact nodup_eraseDups _
    · rw [mem_modelInputCols]
      simp
  · unfold pooledOf
    split <;> rfl

/-- **C163.**  The pooled model without lags of an execution is what its training function gives for the
sorted symbols of the execution that have training data and for the bars they have in the training
window, symbol after symbol; it is given the same of the test window. -/
theorem pooled_model_trained {M : Type} {L : Learner M} (hu : UniqueBars L.setup.rows)
    (hc : ∀ i, CausalInd (L.ind i)) (ops : List (SetupOp (List DRow)))
    (hops : L.setup.execs = (setup {} ops).executions) {win : WFWindow} (htr : win.train ≠ [])
    {es : List (Execn (List DRow))} (hes : Runs L win es) (k : Nat) {name : String} {src : InSource}
    (hsrc : L.source name = some src) (hpool : src.pooled = true) (hlag : src.lags = none)
    {e : Execn (List DRow)} (he : e ∈ es) (hm : name ∈ L.models e.id) :
    ∃ (g : List Sym) (x y : LagInput), g.Pairwise (· < ·) ∧
      (∀ s, s ∈ g ↔ s ∈ symsOf e ∧ Trained L win s) ∧
      PooledOf L.setup.cols L.ordered src.indicators L.series
        (g.flatMap (windowBars L.setup.rows (datesOfRows L.setup.dates win.train))) x ∧
      (win.test ≠ [] → PooledOf L.setup.cols L.ordered src.indicators L.series
        (g.flatMap (windowBars L.setup.rows (datesOfRows L.setup.dates win.test))) y) ∧
      ∀ s ∈ g, L.fitted k win name s =
        (L.fitPool k name g x y).map (fun r => (r.1, { inputCols := r.2, lagColumns := none })) := by
  have hd : NoOverlap (es.map symsOf) := by
    have := (window_disjoint (fun d : List DRow => (d.map DRow.symbol).dedup) List.isEmpty ops
      (L.setup.rowsAt win.train)).1 es
    rw [← hops] at this
    exact (this hes).1
  generalize hG : ((symsOf e).filter
      (fun s => decide (s ∈ (L.setup.rowsAt win.train).map DRow.symbol))).dedup = G
  have hGm : ∀ s, s ∈ G ↔ s ∈ symsOf e ∧ Trained L win s := by
    intro s
    rw [← hG]
    exact mem_group
  have hGn : G.Nodup := by rw [← hG]; exact List.nodup_dedup _
  have hdat : ∀ s ∈ G, HasData src.indicators (L.series s) :=
    fun s _ => hasData_series hu hc s src.indicators
  have hx := pooledInput_window hu (cols := L.setup.cols) (ordered := L.ordered) hGn hdat
    (datesOfRows L.setup.dates win.train)
  obtain ⟨y, hy, hyt⟩ : ∃ y, L.testPool win src G = some y ∧ (win.test ≠ [] →
      PooledOf L.setup.cols L.ordered src.indicators L.series
        (Spec.bySymbol G (windowBars L.setup.rows (datesOfRows L.setup.dates win.test))) y) := by
    unfold testPool
    by_cases hte : win.test = []
    · have : (L.stores win).test = none := by
        unfold stores
        rw [windowStores_test, if_pos hte]
      rw [this]
      exact ⟨_, rfl, fun h => absurd hte h⟩
    · rw [stores_test hte]
      simp only
      exact ⟨_, pooledInput_window hu (cols := L.setup.cols) (ordered := L.ordered) hGn hdat _,
        fun _ => pooledOf_spec _ _ _ _ _⟩
  refine ⟨G.insertionSort (· ≤ ·), _, y, ?_, ?_, pooledOf_spec _ _ _ _ _, hyt, ?_⟩
  · have h1 := List.pairwise_insertionSort (fun a b : String => a ≤ b) G
    have h2 : (G.insertionSort (fun a b : String => a ≤ b)).Nodup :=
      ((List.perm_insertionSort _ _).nodup_iff).2 hGn
    exact (h1.and h2).imp (fun {a b} h => lt_of_le_of_ne h.1 h.2)
  · intro s
    rw [List.mem_insertionSort, hGm]
  · intro s hs
    rw [List.mem_insertionSort] at hs
    obtain ⟨hs1, hs2⟩ := (hGm s).1 hs
    unfold fitted
    rw [hsrc]
    simp only
    rw [if_pos hpool]
    unfold fittedPool
    rw [group_of hes hd he hm hs1, hG, if_pos hs]
    unfold inputsPool
    rw [stores_train htr]
    simp only
    rw [hx, hy]
    simp only
    unfold laggedPool
    rw [hlag]
    rfl

/-! ## A concrete case -/

namespace Demo

/-- `AAA` and `BBB` in one execution with a pooled model, `CCC` in another; `DDD` has no bars. -/
def shPool : Learner (List Sym × Nat) where
  setup :=
    { cfg := { cash := 10000 }, cols := ["close"]
      rows := lnTwo 106 ++ [drRow "CCC" 1 10, drRow "CCC" 2 11, drRow "CCC" 5 12]
      execs := (setup {} [.add (.fixed ["BBB", "DDD", "AAA"]), .add (.fixed ["CCC"])]).executions
      trainSize := 1 / 2, act := fun _ _ _ _ _ => ([], fun _ => none) }
  ordered := ["date", "close"]
  ind _ := sum2
  source name := if name = "m" then some ⟨["sum2"], none, true, none⟩ else none
  fit _ _ _ _ _ := none
  models id := if id ≤ 2 then ["m"] else []
  fitPool _ _ g x _ := some ((g, x.dates.length), none)
  predict _ _ _ := []
  user _ _ _ _ _ _ := ([], fun _ => none)

def shWin : WFWindow := ⟨[0, 1, 2, 3, 4, 5, 12, 13], [6, 7, 8, 9, 10, 11, 14]⟩

theorem shPool_runs : Runs shPool shWin
    [⟨1, .fixed ["BBB", "DDD", "AAA"]⟩, ⟨2, .fixed ["CCC"]⟩] := rfl

/-- Each symbol's model: the symbols it was trained on and the number of rows. -/
example : ["AAA", "BBB", "CCC", "DDD"].map (fun s => (shPool.fitted 0 shWin "m" s).map (fun m => m.1)) =
    [some (["AAA", "BBB"], 6), some (["AAA", "BBB"], 6), some (["CCC"], 2), none] := by decide +kernel

example : shPool.fitted 0 shWin "m" "AAA" = shPool.fitted 0 shWin "m" "BBB" :=
  (pooled_model_shared (L := shPool) [.add (.fixed ["BBB", "DDD", "AAA"]), .add (.fixed ["CCC"])] rfl
    shPool_runs 0 (name := "m") rfl rfl).1 ⟨1, .fixed ["BBB", "DDD", "AAA"]⟩ (by simp)
    (by decide) "AAA" (by decide) "BBB" (by decide) ⟨drRow "AAA" 1 100, by
      show drRow "AAA" 1 100 ∈ [drRow "BBB" 1 210, drRow "AAA" 1 100, drRow "AAA" 2 101, drRow "BBB" 2 205,
        drRow "AAA" 3 102, drRow "BBB" 3 200, drRow "CCC" 1 10, drRow "CCC" 2 11]
      simp, rfl⟩ ⟨drRow "BBB" 1 210, by
      show drRow "BBB" 1 210 ∈ [drRow "BBB" 1 210, drRow "AAA" 1 100, drRow "AAA" 2 101, drRow "BBB" 2 205,
        drRow "AAA" 3 102, drRow "BBB" 3 200, drRow "CCC" 1 10, drRow "CCC" 2 11]
      simp, rfl⟩

example := pooled_model_trained (L := shPool) (by
    show UniqueBars (lnTwo 106 ++ [drRow "CCC" 1 10, drRow "CCC" 2 11, drRow "CCC" 5 12])
    unfold UniqueBars lnTwo
    decide +kernel) (fun _ => sum2_causal)
  [.add (.fixed ["BBB", "DDD", "AAA"]), .add (.fixed ["CCC"])] rfl (by decide : shWin.train ≠ [])
  shPool_runs 0 (name := "m") rfl rfl rfl (e := ⟨1, .fixed ["BBB", "DDD", "AAA"]⟩) (by simp) (by decide)

end Demo

end PyBroker
