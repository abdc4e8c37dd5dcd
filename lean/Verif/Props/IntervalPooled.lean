import Verif.Lags.IntervalPooled
import Verif.Props.IntervalTrain
import Verif.Props.Pooled

/-!
# Training a pooled model on an interval (C111)
-/

namespace PyBroker

/-! ## Specification -/

namespace Spec

/-- The inputs of several symbols one after the other. -/
def stack (symbols : List Sym) (names : List String) (lagged : Bool) (x : Sym → LagInput) : LagInput where
  dates := symbols.flatMap (fun t => (x t).dates)
  symbols := some (symbols.flatMap (fun t => List.replicate (x t).dates.length t))
  columns := names.map (fun c => (c, symbols.flatMap (fun t => ((x t).columns.lookup c).getD [])))
  features := if lagged then some (symbols.flatMap (fun t => (x t).features.getD [])) else none

/-- Two inputs have the same rows.  An input without rows may have no columns. -/
structure SameRows (z w : LagInput) : Prop where
  dates : z.dates = w.dates
  symbols : z.symbols = w.symbols
  columns : w.dates ≠ [] → z.columns = w.columns
  features : z.features = w.features

end Spec

open Spec

/-! ## Rows by symbol and place -/

/-- The rows of the pool, in symbol order. -/
def placesOf (order : List Sym) (idx : Sym → List Nat) : List (Sym × Nat) :=
  order.flatMap (fun t => (idx t).map (fun i => (t, i)))

/-- The input with these rows. -/
def rowsAt (date : Sym → Nat → Date) (cell : Sym → String → Nat → Cell)
    (past : Option (Sym → Nat → List Cell)) (names : List String) (V : List (Sym × Nat)) : LagInput where
  dates := V.map (fun p => date p.1 p.2)
  symbols := some (V.map Prod.fst)
  columns := names.map (fun c => (c, V.map (fun p => cell p.1 c p.2)))
  features := past.map (fun f => V.map (fun p => f p.1 p.2))

/-- The rows of one symbol. -/
def oneRows (date : Sym → Nat → Date) (cell : Sym → String → Nat → Cell)
    (past : Option (Sym → Nat → List Cell)) (names : List String) (idx : Sym → List Nat) (t : Sym) :
    LagInput where
  dates := (idx t).map (date t)
  symbols := none
  columns := names.map (fun c => (c, (idx t).map (cell t c)))
  features := past.map (fun f => (idx t).map (f t))

theorem lookup_map (names : List String) (g : String → List Cell) {c : String} (hc : c ∈ names) :
    (names.map (fun c => (c, g c))).lookup c = some (g c) := by
  induction names with
  | nil => cases hc
  | cons a names ih =>
    rw [List.map_cons, List.lookup_cons]
    by_cases h : c = a
    · subst h; simp
    · rw [beq_false_of_ne h]
      exact ih (by simpa [h] using hc)

theorem cacheGet_names (names : List String) (g : String → List Cell) {c : String} (hc : c ∈ names) :
    cacheGet (names.map (fun c => (c, g c))) c = some (g c) := by
  induction names with
  | nil => cases hc
  | cons a names ih =>
    rw [List.map_cons]
    unfold cacheGet
    by_cases h : a = c
    · subst h; rw [if_pos rfl]
    · rw [if_neg h]
      exact ih (by simpa [Ne.symm h] using hc)

theorem placesOf_map {β : Type} (order : List Sym) (idx : Sym → List Nat) (g : Sym → Nat → β) :
    (placesOf order idx).map (fun p => g p.1 p.2) = order.flatMap (fun t => (idx t).map (g t)) := by
  unfold placesOf
  rw [List.map_flatMap]
  congr 1
  funext t
  rw [List.map_map]
  rfl

theorem placesOf_fst (order : List Sym) (idx : Sym → List Nat) :
    (placesOf order idx).map Prod.fst = order.flatMap (fun t => List.replicate (idx t).length t) := by
  have := placesOf_map order idx (fun t _ => t)
  rw [show (fun p : Sym × Nat => p.1) = Prod.fst from rfl] at this
  rw [this]
  congr 1
  funext t
  rw [List.map_const']

/-- Stacking the rows of the symbols. -/
theorem stack_rowsAt (order : List Sym) (names : List String) (date : Sym → Nat → Date)
    (cell : Sym → String → Nat → Cell) (past : Option (Sym → Nat → List Cell)) (idx : Sym → List Nat)
    (x : Sym → LagInput)
    (hx : ∀ t ∈ order, x t = oneRows date cell past names idx t) :
    stack order names past.isSome x = rowsAt date cell past names (placesOf order idx) := by
  unfold stack rowsAt
  congr 1
  · rw [placesOf_map order idx date]
    apply List.flatMap_congr
    intro t ht
    rw [hx t ht]
    rfl
  · rw [placesOf_fst]
    congr 1
    apply List.flatMap_congr
    intro t ht
    rw [hx t ht]
    simp [oneRows]
  · apply List.map_congr_left
    intro c hc
    rw [placesOf_map order idx (fun t i => cell t c i)]
    congr 1
    apply List.flatMap_congr
    intro t ht
    rw [hx t ht]
    unfold oneRows
    simp only
    rw [lookup_map names (fun c => (idx t).map (cell t c)) hc]
    rfl
  · rcases past with _ | f
    · rfl
    · simp only [Option.isSome_some, if_true, Option.map_some]
      rw [placesOf_map order idx f]
      congr 1
      apply List.flatMap_congr
      intro t ht
      rw [hx t ht]
      rfl

/-! ## Joining the parts -/

theorem flatMap_filter {α β : Type} (f : α → β) {γ : Type} (g : β → List γ) (p : β → Bool) (l : List α)
    (h : ∀ t ∈ l, p (f t) = false → g (f t) = []) :
    ((l.map f).filter p).flatMap g = l.flatMap (fun t => g (f t)) := by
  induction l with
  | nil => rfl
  | cons t l ih =>
    rw [List.map_cons, List.filter_cons, List.flatMap_cons, ← ih (fun t ht => h t (by simp [ht]))]
    split
    · rw [List.flatMap_cons]
    · rename_i hp
      rw [h t (by simp) (by simpa using hp), List.nil_append]

theorem concat_rows {symbols : List Sym} (hnd : symbols.Nodup) (names : List String)
    (date : Sym → Nat → Date) (cell : Sym → String → Nat → Cell) (idx : Sym → List Nat)
    (hs : ∀ t ∈ symbols, ((idx t).map (date t)).Pairwise (· < ·)) :
    concatPooled names (symbols.map (fun t => (t, oneRows date cell none names idx t))) =
      .ok (rowsAt date cell none (if placesOf (symbols.insertionSort (· ≤ ·)) idx = [] then [] else names)
        (placesOf (symbols.insertionSort (· ≤ ·)) idx)) := by
  have hperm := List.perm_insertionSort (· ≤ ·) symbols
  have hemp : placesOf (symbols.insertionSort (· ≤ ·)) idx = [] ↔ ∀ t ∈ symbols, idx t = [] := by
    unfold placesOf
    rw [List.flatMap_eq_nil_iff]
    simp only [List.map_eq_nil_iff]
    exact ⟨fun h t ht => h t (hperm.mem_iff.2 ht), fun h t ht => h t (hperm.mem_iff.1 ht)⟩
  unfold concatPooled
  simp only
  by_cases h0 : placesOf (symbols.insertionSort (· ≤ ·)) idx = []
  · rw [if_pos, if_pos h0, h0]
    · rfl
    · rw [List.filter_eq_nil_iff]
      intro p hp
      obtain ⟨t, ht, rfl⟩ := List.mem_map.1 hp
      simp [oneRows, hemp.1 h0 t ht]
  · rw [if_neg h0]
    generalize hparts : (symbols.map (fun t => (t, oneRows date cell none names idx t))).filter
      (fun p => decide (p.2.dates ≠ [])) = parts
    have hflat : ∀ {γ : Type} (g : Sym × LagInput → List γ),
        (∀ t ∈ symbols, idx t = [] → g (t, oneRows date cell none names idx t) = []) →
        parts.flatMap g = symbols.flatMap (fun t => g (t, oneRows date cell none names idx t)) := by
      intro γ g hg
      rw [← hparts]
      apply flatMap_filter
      intro t ht hp
      apply hg t ht
      simpa [oneRows] using hp
    have hne : parts ≠ [] := by
      intro he
      apply h0
      rw [hemp]
      intro t ht
      by_contra hc
      rw [← hparts, List.filter_eq_nil_iff] at he
      have := he _ (List.mem_map_of_mem ht)
      simp [oneRows, hc] at this
    rw [if_neg hne]
    -- the bars
    let B : Sym → List DRow := fun t => (idx t).map (fun i => ⟨t, date t i, fun c => cell t c i⟩)
    have hBs : ∀ t ∈ symbols, (B t).Pairwise (fun a b => a.date < b.date) := by
      intro t ht
      have := hs t ht
      rw [List.pairwise_map] at this
      simp only [B]
      rw [List.pairwise_map]
      exact this
    have hBsym : ∀ t ∈ symbols, ∀ r ∈ B t, r.symbol = t := by
      intro t _ r hr
      obtain ⟨i, _, rfl⟩ := List.mem_map.1 hr
      rfl
    have hu : UniqueBars (Spec.bySymbol symbols B) := by
      have := bySymbol_sorted hnd hBsym hBs
      unfold UniqueBars
      refine this.imp ?_
      intro a b hab
      rcases hab with h | ⟨_, h⟩
      · exact .inl (ne_of_lt h)
      · exact .inr (ne_of_lt h)
    obtain ⟨o1, o2⟩ := lexOrder_pick hu hnd (B := B) (fun t ht r hr =>
      ⟨mem_pooled.2 ⟨t, ht, hr⟩, hBsym t ht r hr⟩) hBs
    have hsyms : parts.flatMap (fun p => List.replicate p.2.dates.length p.1) =
        (symbols.flatMap B).map DRow.symbol := by
      rw [hflat _ (by intro t _ h; simp [oneRows, h]), List.map_flatMap]
      apply List.flatMap_congr
      intro t _
      simp only [B, oneRows, List.map_map, List.length_map]
      rw [show (DRow.symbol ∘ fun i => (⟨t, date t i, fun c => cell t c i⟩ : DRow)) = fun _ => t from rfl,
        List.map_const']
    have hdates : parts.flatMap (fun p => p.2.dates) = (symbols.flatMap B).map DRow.date := by
      rw [hflat _ (by intro t _ h; simp [oneRows, h]), List.map_flatMap]
      apply List.flatMap_congr
      intro t _
      simp only [B, List.map_map]
      rfl
    have hcol : ∀ c ∈ names, parts.flatMap (fun p => (cacheGet p.2.columns c).getD []) =
        (symbols.flatMap B).map (fun r => r.val c) := by
      intro c hc
      rw [hflat _ (by
        intro t _ h
        simp only [oneRows]
        rw [cacheGet_names names (fun c => (idx t).map (cell t c)) hc, h]
        rfl), List.map_flatMap]
      apply List.flatMap_congr
      intro t _
      simp only [B, oneRows, List.map_map]
      rw [cacheGet_names names (fun c => (idx t).map (cell t c)) hc]
      rfl
    have hthere : ∀ c, c ∈ parts.flatMap (fun p => p.2.columns.map Prod.fst) ↔ c ∈ names := by
      intro c
      rw [List.mem_flatMap]
      constructor
      · rintro ⟨p, hp, hc⟩
        rw [← hparts] at hp
        obtain ⟨t, _, rfl⟩ := List.mem_map.1 (List.mem_of_mem_filter hp)
        simpa [oneRows] using hc
      · intro hc
        obtain ⟨p, ps, hpe⟩ := List.exists_cons_of_ne_nil hne
        have hp : p ∈ parts := by rw [hpe]; simp
        refine ⟨p, hp, ?_⟩
        rw [← hparts] at hp
        obtain ⟨t, _, rfl⟩ := List.mem_map.1 (List.mem_of_mem_filter hp)
        simpa [oneRows] using hc
    have hpick : ∀ {α : Type} (g : DRow → α),
        pickRows (lexOrder ((symbols.flatMap B).map DRow.symbol) ((symbols.flatMap B).map DRow.date))
          ((symbols.flatMap B).map g) = some ((Spec.bySymbol symbols B).map g) := by
      intro α g
      rw [mapM_getElem (by intro i hi; rw [List.length_map]; exact o1 i hi), pick_map, o2]
    rw [hsyms, hdates]
    rw [if_neg, if_neg, hpick, hpick]
    · simp only
      congr 1
      have hby : ∀ {α : Type} (g : DRow → α), (Spec.bySymbol symbols B).map g =
          (placesOf (symbols.insertionSort (· ≤ ·)) idx).map (fun p =>
            g ⟨p.1, date p.1 p.2, fun c => cell p.1 c p.2⟩) := by
        intro α g
        rw [placesOf_map _ _ (fun t i => g ⟨t, date t i, fun c => cell t c i⟩)]
        unfold Spec.bySymbol
        rw [List.map_flatMap]
        congr 1
        funext t
        simp only [B, List.map_map]
        rfl
      unfold rowsAt
      congr 1
      · exact hby DRow.date
      · exact congrArg some (hby DRow.symbol)
      · apply List.map_congr_left
        intro c hc
        rw [hcol c hc, hpick, Option.getD_some, hby]
    · rw [Bool.not_eq_true, List.any_eq_false]
      intro c hc
      rw [decide_eq_true_eq, not_not, hthere]
      exact hc
    · rw [Bool.not_eq_true, List.any_eq_false]
      intro c hc
      rw [hthere] at hc
      rw [hcol c hc, hpick]
      simp

/-! ## The lag features -/

theorem lag_places {symbols : List Sym} (hnd : symbols.Nodup) {idx : Sym → List Nat}
    {dates : Sym → List Date} {date : Sym → Nat → Date} (hdate : ∀ t i, date t i = (dates t).getD i 0)
    (cell : Sym → String → Nat → Cell) (names : List String)
    (hsorted : ∀ t ∈ symbols, (dates t).Pairwise (· < ·))
    (hrun : ∀ t ∈ symbols, ∃ o n, idx t = List.range' o n ∧ o + n ≤ (dates t).length)
    {series : Sym → String → List Cell} {cache : LagCache} {i : Option String}
    (hsv : ∀ t ∈ symbols, Serves (series t) cache t i) {hist : Sym → Option (List Date)}
    (hhist : ∀ t ∈ symbols, hist t = some (dates t)) (hhist' : ∀ t ∉ symbols, hist t = none)
    {lc : List String} {lags : Nat} (junk : LagMat)
    (hcol : ∀ t ∈ symbols, ∀ c ∈ lc, (series t c).length = (dates t).length ∧
      ∃ st, cache.cached t c lags i = some st) :
    applyLagsPooled junk (rowsAt date cell none names (placesOf (symbols.insertionSort (· ≤ ·)) idx)) lc lags
        cache hist symbols i =
      .ok (rowsAt date cell (some (fun t j => lc.flatMap (fun c => (List.range (lags + 1)).map
        (fun k => lagged (series t c) j k)))) names (placesOf (symbols.insertionSort (· ≤ ·)) idx)) := by
  have hperm := List.perm_insertionSort (· ≤ ·) symbols
  generalize hV : placesOf (symbols.insertionSort (· ≤ ·)) idx = V
  unfold applyLagsPooled
  by_cases h0 : V = []
  · subst h0
    rw [if_pos (show (rowsAt date cell none names []).dates = [] from rfl)]
    rfl
  rw [if_neg (by simpa [rowsAt] using h0)]
  have hmemV : ∀ t j, (t, j) ∈ V → t ∈ symbols ∧ j ∈ idx t := by
    intro t j h
    rw [← hV] at h
    unfold placesOf at h
    obtain ⟨t', ht', h⟩ := List.mem_flatMap.1 h
    obtain ⟨j', hj', e⟩ := List.mem_map.1 h
    cases e
    exact ⟨hperm.mem_iff.1 ht', hj'⟩
  have hlt : ∀ t ∈ symbols, ∀ j ∈ idx t, j < (dates t).length := by
    intro t ht j hj
    obtain ⟨o, n, e1, e2⟩ := hrun t ht
    rw [e1, List.mem_range'_1] at hj
    omega
  have hhs : ∀ s h, hist s = some h → h.Pairwise (· < ·) := by
    intro s h he
    by_cases hs : s ∈ symbols
    · rw [hhist s hs] at he
      cases he
      exact hsorted s hs
    · rw [hhist' s hs] at he
      cases he
  let B : Sym → List DRow := fun t => (idx t).map (fun i => ⟨t, date t i, fun c => cell t c i⟩)
  have hBsym : ∀ t ∈ symbols, ∀ r ∈ B t, r.symbol = t := by
    intro t _ r hr
    obtain ⟨i, _, rfl⟩ := List.mem_map.1 hr
    rfl
  have hby : ∀ {α : Type} (g : DRow → α), (Spec.bySymbol symbols B).map g =
      V.map (fun p => g ⟨p.1, date p.1 p.2, fun c => cell p.1 c p.2⟩) := by
    intro α g
    rw [← hV, placesOf_map _ _ (fun t i => g ⟨t, date t i, fun c => cell t c i⟩)]
    unfold Spec.bySymbol
    rw [List.map_flatMap]
    congr 1
    funext t
    simp only [B, List.map_map]
    rfl
  have hxs : (rowsAt date cell none names V).symbols.getD [] = (Spec.bySymbol symbols B).map DRow.symbol := by
    rw [hby]
    rfl
  have hxd : (rowsAt date cell none names V).dates = (Spec.bySymbol symbols B).map DRow.date := by
    rw [hby]
    rfl
  have hlen : (rowsAt date cell none names V).dates.length = V.length := by simp [rowsAt]
  obtain ⟨m, hm⟩ : ∃ m, lagMatrixPooled junk ((rowsAt date cell none names V).symbols.getD []) lc lags
      (rowsAt date cell none names V).dates hist cache symbols i = .ok m := by
    unfold lagMatrixPooled
    refine pooledLoop_exists _ ?_
    intro s hsm hss
    rw [List.mem_dedup] at hsm
    have hj : ∃ j, j ∈ idx s := by
      have : s ∈ V.map Prod.fst := hsm
      obtain ⟨⟨t, j⟩, hp, rfl⟩ := List.mem_map.1 this
      exact ⟨j, (hmemV t j hp).2⟩
    rw [hxs, hxd, rowsOf_dates, filter_bySymbol hnd hBsym hss]
    obtain ⟨o, n, e1, e2⟩ := hrun s hss
    have hBd : (B s).map DRow.date = ((dates s).drop o).take n := by
      rw [← pick_run _ _ _ e2, ← e1, pick_dates _ _ (hlt s hss)]
      simp only [B, List.map_map]
      apply List.map_congr_left
      intro j _
      exact hdate s j
    have hBl : ((B s).map DRow.date).length = n := by
      simp [B, e1]
    obtain ⟨sub, hsub⟩ := (lag_matrix (hsv s hss) (fun _ _ => none) lc lags ((B s).map DRow.date) (dates s)
      (hsorted s hss) (by
        obtain ⟨j, hj⟩ := hj
        intro he
        have : (B s) = [] := by simpa using he
        simp only [B, List.map_eq_nil_iff] at this
        rw [this] at hj
        cases hj)).1.2 ⟨o, by rw [hBl, hBd], fun c hc =>
          ⟨(hcol s hss c hc).2, by rw [hBl, (hcol s hss c hc).1]; exact e2⟩⟩
    exact ⟨dates s, sub, hhist s hss, hsub⟩
  rw [hm]
  simp only
  congr 1
  unfold rowsAt
  simp only [Option.map_some, Option.map_none, LagInput.mk.injEq, true_and, List.length_map]
  congr 1
  unfold matRows
  apply List.ext_getElem?
  intro r
  rw [List.getElem?_map, List.getElem?_map]
  rcases Nat.lt_or_ge r V.length with hr | hr
  · have hVr := List.getElem?_eq_getElem hr
    rw [List.getElem?_range hr, hVr, Option.map_some, Option.map_some]
    generalize V[r] = p at hVr
    obtain ⟨t, j⟩ := p
    obtain ⟨ht, hj⟩ := hmemV t j (List.mem_of_getElem? hVr)
    have hjl := hlt t ht j hj
    congr 1
    apply flat_range
    intro q k c hq hk
    exact lag_matrix_pooled hsv hhs (by rw [hlen]; simp [rowsAt]) hm r j q t (date t j) (dates t) c k ht
      (by simp [rowsAt, hVr]) (by simp [rowsAt, hVr]) (hhist t ht)
      (by rw [hdate, List.getD_eq_getElem?_getD, List.getElem?_eq_getElem hjl]; rfl) hq hk
  · rw [List.getElem?_eq_none (by simpa using hr), List.getElem?_eq_none hr]
    rfl

/-! ## Dropping the warm-up -/

theorem maskRows_append {α : Type} {k₁ k₂ : List Bool} {l₁ l₂ : List α} (h : k₁.length = l₁.length) :
    maskRows (k₁ ++ k₂) (l₁ ++ l₂) = maskRows k₁ l₁ ++ maskRows k₂ l₂ := by
  unfold maskRows
  rw [List.zip_append h, List.filter_append, List.map_append]

theorem maskRows_map {α β : Type} (k : List Bool) (l : List α) (g : α → β) :
    maskRows k (l.map g) = (maskRows k l).map g := by
  unfold maskRows
  rw [List.zip_map_right, List.filter_map, List.map_map, List.map_map]
  rfl

theorem maskRows_all {α : Type} : ∀ {k : List Bool} {l : List α}, k.length = l.length →
    k.all (fun b => b) = true → maskRows k l = l := by
  intro k
  induction k with
  | nil =>
    intro l h _
    rw [List.length_eq_zero_iff.1 h.symm]
    rfl
  | cons b k ih =>
    intro l h ha
    rcases l with _ | ⟨a, l⟩
    · simp at h
    · rw [List.all_cons, Bool.and_eq_true] at ha
      have := ih (by simpa using h) ha.2
      unfold maskRows at this ⊢
      rw [List.zip_cons_cons, List.filter_cons, if_pos (by simpa using ha.1), List.map_cons, this]

/-- Which rows are kept: in each symbol, those from the first complete one. -/
def keptMask (order : List Sym) (idx : Sym → List Nat) (w : Sym → Nat) : List Bool :=
  order.flatMap (fun t => (List.range (idx t).length).map (fun r => decide (w t ≤ r)))

theorem keptMask_length (order : List Sym) (idx : Sym → List Nat) (w : Sym → Nat) :
    (keptMask order idx w).length = (placesOf order idx).length := by
  unfold keptMask placesOf
  rw [List.length_flatMap, List.length_flatMap]
  congr 1
  apply List.map_congr_left
  intro t _
  simp

theorem maskRows_kept (order : List Sym) (idx : Sym → List Nat) (w : Sym → Nat) :
    maskRows (keptMask order idx w) (placesOf order idx) = placesOf order (fun t => (idx t).drop (w t)) := by
  induction order with
  | nil => rfl
  | cons t order ih =>
    unfold keptMask placesOf at ih ⊢
    rw [List.flatMap_cons, List.flatMap_cons, List.flatMap_cons, maskRows_append (by simp), ih]
    congr 1
    have := mask_from (w t) ((idx t).map (fun i => (t, i))).length ((idx t).map (fun i => (t, i))) rfl
    rw [List.map_drop, ← this, List.length_map]
    congr 1
    apply List.map_congr_left
    intro r hr
    rw [List.mem_range] at hr
    simp [hr]

/-- A row is kept when an earlier row of its symbol, or the row itself, is complete. -/
theorem kept_iff {idx : Sym → List Nat} (ok : Sym → Nat → Bool) :
    ∀ {order : List Sym}, order.Nodup → ∀ r, r < (placesOf order idx).length →
      ((keptMask order idx (fun t => ((idx t).map (ok t)).idxOf true))[r]? = some true ↔
        ∃ j ≤ r, ((placesOf order idx).map (fun p => ok p.1 p.2))[j]? = some true ∧
          ∀ m, j ≤ m → m ≤ r →
            ((placesOf order idx).map Prod.fst)[m]? = ((placesOf order idx).map Prod.fst)[r]?) := by
  intro order
  induction order with
  | nil => intro _ r hr; simp [placesOf] at hr
  | cons t order ih =>
    intro hnd r hr
    obtain ⟨hnt, hnd'⟩ := List.nodup_cons.1 hnd
    have hpl : placesOf (t :: order) idx = (idx t).map (fun i => (t, i)) ++ placesOf order idx := by
      unfold placesOf
      rw [List.flatMap_cons]
    have hkm : keptMask (t :: order) idx (fun t => ((idx t).map (ok t)).idxOf true) =
        (List.range (idx t).length).map (fun r => decide (((idx t).map (ok t)).idxOf true ≤ r)) ++
          keptMask order idx (fun t => ((idx t).map (ok t)).idxOf true) := by
      unfold keptMask
      rw [List.flatMap_cons]
    have hfst : ∀ m, m < (idx t).length → ((placesOf (t :: order) idx).map Prod.fst)[m]? = some t := by
      intro m hm
      rw [hpl, List.map_append, List.getElem?_append_left (by simpa using hm), List.map_map,
        List.getElem?_map, List.getElem?_eq_getElem hm]
      rfl
    have hok : ∀ m, m < (idx t).length →
        ((placesOf (t :: order) idx).map (fun p => ok p.1 p.2))[m]? = ((idx t).map (ok t))[m]? := by
      intro m hm
      rw [hpl, List.map_append, List.getElem?_append_left (by simpa using hm), List.map_map]
      rfl
    rcases Nat.lt_or_ge r (idx t).length with h | h
    · rw [hkm, List.getElem?_append_left (by simpa using h), List.getElem?_map, List.getElem?_range h,
        Option.map_some, Option.some.injEq, decide_eq_true_eq]
      constructor
      · intro hle
        have hlt : ((idx t).map (ok t)).idxOf true < ((idx t).map (ok t)).length := by
          rw [List.length_map]
          omega
        refine ⟨_, hle, ?_, ?_⟩
        · rw [hok _ (by omega), List.getElem?_eq_getElem hlt, List.getElem_idxOf hlt]
        · intro m h1 h2
          rw [hfst m (by omega), hfst r h]
      · rintro ⟨j, hj, hv, -⟩
        rw [hok j (by omega)] at hv
        obtain ⟨hjl, hje⟩ := List.getElem?_eq_some_iff.1 hv
        by_contra hc
        have hno := List.not_of_lt_findIdx (p := (· == true)) (xs := (idx t).map (ok t)) (i := j)
          (by have : ((idx t).map (ok t)).idxOf true = ((idx t).map (ok t)).findIdx (· == true) := rfl
              omega)
        rw [hje] at hno
        exact absurd hno (by decide)
    · have hr' : r - (idx t).length < (placesOf order idx).length := by
        rw [hpl, List.length_append, List.length_map] at hr
        omega
      have hright : ∀ m, (idx t).length ≤ m →
          ((placesOf (t :: order) idx).map Prod.fst)[m]? =
            ((placesOf order idx).map Prod.fst)[m - (idx t).length]? := by
        intro m hm
        rw [hpl, List.map_append, List.getElem?_append_right (by simpa using hm)]
        simp
      have hokr : ∀ m, (idx t).length ≤ m →
          ((placesOf (t :: order) idx).map (fun p => ok p.1 p.2))[m]? =
            ((placesOf order idx).map (fun p => ok p.1 p.2))[m - (idx t).length]? := by
        intro m hm
        rw [hpl, List.map_append, List.getElem?_append_right (by simpa using hm)]
        simp
      rw [hkm, List.getElem?_append_right (by simpa using h), List.length_map, List.length_range,
        ih hnd' _ hr']
      constructor
      · rintro ⟨j, hj, hv, hm⟩
        refine ⟨j + (idx t).length, by omega, ?_, ?_⟩
        · rw [hokr _ (by omega), Nat.add_sub_cancel]
          exact hv
        · intro m h1 h2
          rw [hright m (by omega), hright r h]
          exact hm _ (by omega) (by omega)
      · rintro ⟨j, hj, hv, hm⟩
        have hjl : (idx t).length ≤ j := by
          by_contra hc
          have := hm j (le_refl _) hj
          rw [hfst j (by omega), hright r h] at this
          have hmem := List.mem_of_getElem? this.symm
          obtain ⟨⟨t', i⟩, hp, e⟩ := List.mem_map.1 hmem
          simp only at e
          subst e
          unfold placesOf at hp
          obtain ⟨t'', ht'', hp⟩ := List.mem_flatMap.1 hp
          obtain ⟨_, _, e⟩ := List.mem_map.1 hp
          cases e
          exact hnt ht''
        refine ⟨j - (idx t).length, by omega, by rw [← hokr j hjl]; exact hv, ?_⟩
        intro m h1 h2
        have := hm (m + (idx t).length) (by omega) (by omega)
        rw [hright _ (by omega), hright r h, Nat.add_sub_cancel] at this
        exact this

/-- Dropping the warm-up of each symbol. -/
theorem trim_places {order : List Sym} (hnd : order.Nodup) (date : Sym → Nat → Date)
    (cell : Sym → String → Nat → Cell) (f : Sym → Nat → List Cell) (names : List String)
    (idx : Sym → List Nat) (w : Sym → Nat)
    (hw : ∀ t ∈ order, w t = ((idx t).map (f t)).findIdx (fun row => row.all Option.isSome)) :
    (rowsAt date cell (some f) names (placesOf order idx)).dropWarmup =
      if placesOf order idx ≠ [] ∧ placesOf order (fun t => (idx t).drop (w t)) = [] then .error .nothingLeft
      else .ok (rowsAt date cell (some f) names (placesOf order (fun t => (idx t).drop (w t)))) := by
  let ok : Sym → Nat → Bool := fun t i => (f t i).all Option.isSome
  have hwk : ∀ t ∈ order, w t = ((idx t).map (ok t)).idxOf true := by
    intro t ht
    rw [hw t ht, idxOf_true (ok t)]
    rw [List.findIdx_map]
    rfl
  generalize hV : placesOf order idx = V
  have hval : validRows (V.map (fun p => f p.1 p.2)) = V.map (fun p => ok p.1 p.2) := by
    unfold validRows
    rw [List.map_map]
    rfl
  have hal : Aligned (rowsAt date cell (some f) names V) := by
    refine ⟨?_, ?_, ?_⟩
    · intro s hs; cases hs; simp [rowsAt]
    · intro c hc
      simp only [rowsAt, List.mem_map] at hc
      obtain ⟨c', -, rfl⟩ := hc
      simp [rowsAt]
    · intro g hg; cases hg; simp [rowsAt]
  have hkw : keptMask order idx w = keptMask order idx (fun t => ((idx t).map (ok t)).idxOf true) := by
    unfold keptMask
    apply List.flatMap_congr
    intro t ht
    rw [hwk t ht]
  have hklen : (keptMask order idx w).length = V.length := by rw [keptMask_length, hV]
  have hkeep : (rowsAt date cell (some f) names V).keepMask (V.map (fun p => ok p.1 p.2)) =
      keptMask order idx w := by
    apply List.ext_getElem?
    intro r
    rcases Nat.lt_or_ge r V.length with hr | hr
    swap
    · rw [List.getElem?_eq_none (by simpa [LagInput.keepMask] using hr),
        List.getElem?_eq_none (by rw [hklen]; exact hr)]
    have hiff : ((rowsAt date cell (some f) names V).keepMask (V.map (fun p => ok p.1 p.2)))[r]? = some true ↔
        (keptMask order idx w)[r]? = some true := by
      rw [hkw, kept_iff ok hnd r (by rw [hV]; exact hr), hV]
      unfold LagInput.keepMask
      rw [List.getElem?_map, List.getElem?_range (by simpa using hr), Option.map_some, Option.some.injEq,
        keepLoop_iff, blocks_iff _ hal _ r (by simpa [rowsAt] using hr)]
      simp only [Bool.false_eq_true, false_or]
      constructor
      · rintro ⟨j, h1, h2, h3⟩
        exact ⟨j, h1, h2, fun m h4 h5 => h3 m h4 h5 _ rfl⟩
      · rintro ⟨j, h1, h2, h3⟩
        refine ⟨j, h1, h2, fun m h4 h5 s hs => ?_⟩
        cases hs
        exact h3 m h4 h5
    have e1 : ∃ b, ((rowsAt date cell (some f) names V).keepMask (V.map (fun p => ok p.1 p.2)))[r]? = some b :=
      ⟨_, List.getElem?_eq_getElem (by simpa [LagInput.keepMask] using hr)⟩
    have e2 : ∃ b, (keptMask order idx w)[r]? = some b :=
      ⟨_, List.getElem?_eq_getElem (by rw [hklen]; exact hr)⟩
    obtain ⟨b1, e1⟩ := e1
    obtain ⟨b2, e2⟩ := e2
    rw [e1, e2] at hiff ⊢
    cases b1 <;> cases b2 <;> simp_all
  have hV' : maskRows (keptMask order idx w) V = placesOf order (fun t => (idx t).drop (w t)) := by
    rw [← hV]
    exact maskRows_kept order idx w
  generalize placesOf order (fun t => (idx t).drop (w t)) = V' at hV' ⊢
  have hmask : ∀ {β : Type} (g : Sym × Nat → β), maskRows (keptMask order idx w) (V.map g) = V'.map g := by
    intro β g
    rw [maskRows_map, hV']
  have hallk : (keptMask order idx w).all (fun b => b) = true → V' = V := by
    intro h
    rw [← hV', maskRows_all hklen h]
  have hanyk : (keptMask order idx w).any (fun b => b) = true ↔ V' ≠ [] := by
    rw [← hV']
    have : ∀ (k : List Bool) (l : List (Sym × Nat)), k.length = l.length →
        (k.any (fun b => b) = true ↔ maskRows k l ≠ []) := by
      intro k
      induction k with
      | nil => intro l h; simp [maskRows]
      | cons b k ih =>
        intro l h
        rcases l with _ | ⟨a, l⟩
        · simp at h
        · have := ih l (by simpa using h)
          unfold maskRows at this ⊢
          rw [List.any_cons, List.zip_cons_cons, List.filter_cons]
          cases b
          · simpa using this
          · simp
    exact this _ _ hklen
  unfold LagInput.dropWarmup
  have hfe : (rowsAt date cell (some f) names V).features = some (V.map (fun p => f p.1 p.2)) := rfl
  rw [hfe]
  simp only
  rw [hval]
  by_cases h0 : V = []
  · have hd0 : (rowsAt date cell (some f) names V).dates = [] := by rw [h0]; rfl
    rw [if_pos hd0, if_neg (fun h => h.1 h0)]
    have : V' = [] := by
      rw [← hV', h0]
      unfold maskRows
      simp
    rw [this, h0]
  · have hd0 : (rowsAt date cell (some f) names V).dates ≠ [] := by simpa [rowsAt] using h0
    rw [if_neg hd0, hkeep]
    by_cases ha : (V.map (fun p => ok p.1 p.2)).all (fun b => b) = true
    · rw [if_pos ha]
      have hVV : V' = V := by
        apply hallk
        rw [List.all_eq_true]
        intro b hb
        obtain ⟨r, hr, he⟩ := List.mem_iff_getElem.1 hb
        have hrV : r < V.length := by rw [← hklen]; exact hr
        have : (keptMask order idx w)[r]? = some true := by
          rw [hkw, kept_iff ok hnd r (by rw [hV]; exact hrV), hV]
          refine ⟨r, le_refl _, ?_, ?_⟩
          · have hrl : r < (V.map (fun p => ok p.1 p.2)).length := by simpa using hrV
            rw [List.getElem?_eq_getElem hrl, List.all_eq_true.1 ha _ (List.getElem_mem hrl)]
          · intro m h1 h2
            rw [show m = r by omega]
        rw [List.getElem?_eq_getElem hr, he] at this
        exact Option.some.inj this
      rw [hVV, if_neg (fun h => h.1 h.2)]
    · rw [if_neg ha]
      by_cases hk : V' = []
      · have : (keptMask order idx w).any (fun b => b) = false := by
          rw [← Bool.not_eq_true, hanyk]
          simpa using hk
        have hif : (V ≠ [] ∧ V' = []) := ⟨h0, hk⟩
        simp only [this, if_pos hif]
        rfl
      · have hif : ¬(V ≠ [] ∧ V' = []) := fun h => hk h.2
        simp only [hanyk.2 hk, if_neg hif, Bool.not_true, Bool.false_eq_true, if_false]
        split
        · rename_i hka
          rw [hallk hka]
        · congr 1
          unfold rowsAt
          congr 1
          · exact hmask _
          · simp only [Option.map_some]
            rw [hmask]
          · rw [List.map_map]
            apply List.map_congr_left
            intro c _
            simp only [Function.comp_apply]
            rw [hmask]
          · simp only [Option.map_some]
            rw [hmask]

/-! ## The loop over the symbols -/

theorem mapM_all {α β ε : Type} {f : α → Except ε β} {g : α → β} {l : List α}
    (h : ∀ t ∈ l, f t = .ok (g t)) : l.mapM f = .ok (l.map g) := by
  induction l with
  | nil => rfl
  | cons a l ih =>
    rw [List.mapM_cons, h a (by simp), ih (fun t ht => h t (by simp [ht]))]
    rfl

theorem mergeParts_ok {iv : Iv} {lc : List String} (hdate : "date" ∉ lc) {n : Nat}
    {series : Sym → String → Option String → List Cell} :
    ∀ {parts : List IvPart}, (∀ p ∈ parts, ∀ c ∈ lc, p.arrays c = some (series p.symbol c (lagInterval iv))) →
      ∀ {calls : List MergeCall} {cache : LagCache}, (∀ m ∈ calls, Passes series m) →
        runMerges calls (fun _ => none) = .ok cache →
        ∃ calls' cache', mergeParts iv lc n parts cache = .ok cache' ∧ (∀ m ∈ calls', Passes series m) ∧
          runMerges calls' (fun _ => none) = .ok cache' ∧ (∀ m ∈ calls, m ∈ calls') ∧
          ∀ p ∈ parts, ∀ c ∈ lc, ∃ m ∈ calls', m.symbol = p.symbol ∧ m.interval = lagInterval iv ∧
            c ∈ m.columns ∧ n ≤ m.lags := by
  intro parts
  induction parts with
  | nil =>
    intro _ calls cache h1 h2
    exact ⟨calls, cache, rfl, h1, h2, fun m hm => hm, fun p hp => nomatch hp⟩
  | cons p parts ih =>
    intro harr calls cache hcalls hcache
    have hfil : lc.filter (fun c => decide (c ≠ "date")) = lc := by
      rw [List.filter_eq_self]
      intro c hc
      rw [decide_eq_true_eq]
      rintro rfl
      exact hdate hc
    let call : MergeCall := ⟨p.symbol, lagInterval iv, n, lc,
      fun c => if c ∈ lc then some (series p.symbol c (lagInterval iv)) else none⟩
    have hpass : Passes series call := by
      intro c v hv
      simp only [call] at hv ⊢
      split at hv
      · cases hv
        rfl
      · cases hv
    obtain ⟨cache', hm⟩ := merge_ok (sym := p.symbol) (lags := n) (i := lagInterval iv)
      (arrays := call.arrays) (columns := lc) cache (fun c hc => ⟨_, if_pos hc⟩)
    have hrun := runMerges_snoc (m := call) hcache hm
    have hall : ∀ m ∈ calls ++ [call], Passes series m := by
      intro m hm
      rw [List.mem_append, List.mem_singleton] at hm
      rcases hm with hm | rfl
      · exact hcalls m hm
      · exact hpass
    obtain ⟨calls', cache'', e1, e2, e3, e4, e5⟩ :=
      ih (fun p' hp' => harr p' (by simp [hp'])) hall hrun
    refine ⟨calls', cache'', ?_, e2, e3, fun m hm => e4 m (by simp [hm]), ?_⟩
    · unfold mergeParts
      rw [hfil]
      have hm' : LagCache.merge p.symbol n (lagInterval iv) (fun col => match p.arrays col with
          | some l => some l
          | none => p.data.column col) lc cache = .ok cache' := by
        rw [← hm]
        apply merge_congr
        intro c hc
        rw [harr p (by simp) c hc]
        exact (if_pos hc).symm
      erw [hm']
      exact e1
    · intro p' hp' c hc
      rcases List.mem_cons.1 hp' with rfl | hp'
      · exact ⟨call, e4 call (by simp), rfl, rfl, hc, le_refl _⟩
      · exact e5 p' hp' c hc

theorem pooled_lag_cols {names lc inds lagCols : List String} (dataCols : List String)
    (hmem : ∀ c ∈ lc, c ∈ names)
    (hwhich : lagCols ≠ [] ∧ lc = lagCols ∨ lagCols = [] ∧
      lc = names.filter (fun c => c ∈ dataCols ∧ c ≠ "date" ∧ c ≠ "symbol" ∧ c ∉ inds)) :
    lagFeatureCols (names ++ ["symbol"]) dataCols inds true lagCols = some lc := by
  unfold lagFeatureCols
  rcases hwhich with ⟨h1, h2⟩ | ⟨h1, h2⟩
  · rw [if_pos h1, ← h2, if_pos]
    rw [List.all_eq_true]
    intro c hc
    rw [decide_eq_true_eq, List.mem_append]
    exact .inl (hmem c hc)
  · rw [if_neg (by simpa using h1), h2]
    unfold inferCols
    simp only [if_true, List.filter_filter]
    congr 1
    have e2 : ∀ (p : String → Bool), p "symbol" = false →
        (names ++ ["symbol"]).filter p = names.filter p := by
      intro p hp
      rw [List.filter_append]
      simp [hp]
    rw [e2 _ (by simp)]
    apply List.filter_congr
    intro c hc
    simp only [Bool.and_eq_decide, decide_eq_decide, decide_eq_true_eq]
    tauto

/-! ## The theorem -/

namespace Spec

/-- A symbol of a pool: its compressed bars, the indicators of the model on them, windows that are
spans of them, and the columns of the model's input, the same for every symbol of the pool. -/
structure TrainsOn (s : IvScope) (iv : Iv) (compressed : Sym → Iv → Option IvSymData) (src : TrainSource)
    (train test : List Date) (names : List String)
    (series : Sym → String → Option String → List Cell) (t : Sym) (d : IvSymData) : Prop where
  bars : s.compressed t iv = some d
  given : ∃ d0, compressed t iv = some d0 ∧ d0.data.bars = d.data.bars ∧ d0.hasVwap = d.hasVwap ∧
    d0.custom = d.custom
  indicators : ∀ i ∈ src.indicators, (s.ind.data (boundName i iv) t).isSome
  train : Spans (d.data.bars.map IBar.date) train
  test : Spans (d.data.bars.map IBar.date) test
  names : names = ["date", "open", "high", "low", "close", "volume"] ++
    (if d.hasVwap then ["vwap"] else []) ++ s.registered.filter (fun c => c ∈ d.custom) ++ src.indicators
  series : ∀ c, series t c (lagInterval iv) = ivCol s d t iv c

end Spec

/-- A list of computations that runs through ran each of them. -/
theorem mapM_ran {α β ε : Type} {f : α → Except ε β} : ∀ {l : List α} {r : List β},
    l.mapM f = .ok r → ∀ t ∈ l, ∃ b, f t = .ok b
  | [], _, _, t, ht => absurd ht (by simp)
  | a :: l, r, h, t, ht => by
    rw [List.mapM_cons] at h
    rcases ha : f a with e | b
    · rw [ha] at h; cases h
    rw [ha] at h
    rcases hl : l.mapM f with e | r'
    · simp only [bind, Except.bind] at h
      rw [hl] at h
      cases h
    · rcases List.mem_cons.1 ht with rfl | ht
      · exact ⟨b, ha⟩
      · exact mapM_ran hl t ht

/-- **C111.**  No pooled input is made unless every symbol of the pool has compressed bars and each
of the model's indicators has been computed on the interval for it. -/
theorem pooled_interval_needs {junk : LagMat} {compressed : Sym → Iv → Option IvSymData}
    {registered dataCols : List String} {data : String → Sym → Option Series} {symbols : List Sym}
    {iv : Iv} {src : TrainSource} {train test : List Date} {la : Int} {cache : LagCache}
    {out : LagInput × LagInput × LagCache}
    (h : preparePooledInterval junk compressed registered dataCols data symbols iv src train test la
      cache = .ok out) :
    ∀ sym ∈ symbols, (compressed sym iv).isSome ∧
      ∀ i ∈ src.indicators, (data (boundName i iv) sym).isSome := by
  intro sym hsym
  unfold preparePooledInterval at h
  rcases hm : symbols.mapM (intervalPart compressed registered data iv src.indicators train test la)
    with e | parts
  · rw [hm] at h; cases h
  obtain ⟨b, hb⟩ := mapM_ran hm sym hsym
  unfold intervalPart at hb
  rcases hc : compressed sym iv with _ | d
  · rw [hc] at hb; cases hb
  rw [hc] at hb
  simp only at hb
  by_cases hi : src.indicators.any (fun i => (data (boundName i iv) sym).isNone) = true
  · rw [if_pos hi] at hb; cases hb
  · refine ⟨rfl, fun i him => ?_⟩
    rw [List.any_eq_true] at hi
    rcases hd : data (boundName i iv) sym with _ | v
    · exact absurd ⟨i, him, by rw [hd]; rfl⟩ hi
    · rfl

/-- **C111.** What a pooled model on an interval is trained on: the rows of its symbols, symbol
after symbol in the order of their names and not in the order they are gone through, each with
exactly the rows a model of that symbol alone would be trained on (C110).  The warm-up rows of
each symbol are left out; training fails if there are rows but every symbol's are all warm-up.
When no symbol has a training bar a model with lags is given an empty input if it does not name its
lag columns, and otherwise training fails because the empty input lacks them. -/
theorem pooled_interval_training {s : IvScope} (h : IvBacktest s) {iv : Iv}
    (hn : normalizeIv iv = some iv) {symbols : List Sym} (hnd : symbols.Nodup) (hne : symbols ≠ [])
    {compressed : Sym → Iv → Option IvSymData} {src : TrainSource} {train test : List Date}
    {names lc : List String} {series : Sym → String → Option String → List Cell} {D : Sym → IvSymData}
    (hD : ∀ t ∈ symbols, TrainsOn s iv compressed src train test names series t (D t))
    (hlt : ∀ t ∈ train, ∀ t' ∈ test, t < t') {la : Int} (hla : 1 ≤ la)
    (hlc : src.lags ≠ none → "date" ∉ lc ∧ (∀ c ∈ lc, c ∈ names) ∧
      (src.lagCols ≠ [] ∧ lc = src.lagCols ∨ src.lagCols = [] ∧
        lc = names.filter (fun c => c ∈ s.dataCols ∧ c ≠ "date" ∧ c ≠ "symbol" ∧ c ∉ src.indicators)))
    {calls : List MergeCall} {cache : LagCache}
    (hcalls : ∀ m ∈ calls, Passes series m) (hcache : runMerges calls (fun _ => none) = .ok cache)
    (junk : LagMat) :
    let x := fun t => barRows s (D t) t iv names lc src.lags
      (trainPlaces ((D t).data.bars.map IBar.date) train test la)
    let y := fun t => barRows s (D t) t iv names lc src.lags
      (testPlaces ((D t).data.bars.map IBar.date) test)
    let kept := fun t => rowsFrom (x t) (warmRows (x t))
    let order := symbols.insertionSort (· ≤ ·)
    let made := preparePooledInterval junk compressed s.registered s.dataCols s.ind.data symbols iv src
      train test la cache
    if src.lags ≠ none ∧ ∀ t ∈ symbols, (x t).dates = [] then
      if src.lagCols ≠ [] then made = .error (.input .missingLagCol)
      else ∃ tr te cache', made = .ok (tr, te, cache') ∧ tr.dates = []
    else if (∃ t ∈ symbols, (x t).dates ≠ []) ∧ ∀ t ∈ symbols, (kept t).dates = [] then
      made = .error (.input (.lag .nothingLeft))
    else ∃ tr te calls' cache', made = .ok (tr, te, cache') ∧
      SameRows tr (stack order names src.lags.isSome kept) ∧
      SameRows te (stack order names src.lags.isSome y) ∧
      (∀ m ∈ calls', Passes series m) ∧ runMerges calls' (fun _ => none) = .ok cache' := by
  intro x y kept order made
  have hmade : made = preparePooledInterval junk compressed s.registered s.dataCols s.ind.data symbols iv src
      train test la cache := rfl
  clear_value made
  have hperm : order.Perm symbols := List.perm_insertionSort (· ≤ ·) symbols
  have hndo : order.Nodup := hperm.nodup_iff.2 hnd
  let dates : Sym → List Date := fun t => (D t).data.bars.map IBar.date
  let date : Sym → Nat → Date := fun t i => (dates t).getD i 0
  let cell : Sym → String → Nat → Cell := fun t c i => ((ivCol s (D t) t iv c)[i]?).join
  let past : Option (Sym → Nat → List Cell) := src.lags.map (fun n t => ivPast s (D t) t iv lc n)
  let trp : Sym → List Nat := fun t => trainPlaces (dates t) train test la
  let tep : Sym → List Nat := fun t => testPlaces (dates t) test
  have hx : ∀ t, x t = oneRows date cell past names trp t := by
    intro t
    simp only [x, oneRows, barRows, past, Option.map_map]
    rfl
  have hy : ∀ t, y t = oneRows date cell past names tep t := by
    intro t
    simp only [y, oneRows, barRows, past, Option.map_map]
    rfl
  have hkept : ∀ t, kept t = oneRows date cell past names (fun t => (trp t).drop (warmRows (x t))) t := by
    intro t
    generalize hk : kept t = k
    simp only [kept] at hk
    subst hk
    unfold oneRows
    simp only
    generalize warmRows (x t) = w
    rw [hx t]
    unfold rowsFrom oneRows
    simp only [Option.map_none, Option.map_map, List.map_drop, List.map_map, Function.comp_def]
  have hsorted : ∀ t ∈ symbols, (dates t).Pairwise (· < ·) := fun t ht => h.sorted t iv _ (hD t ht).bars
  have hrun1 : ∀ t ∈ symbols, ∃ o n, trp t = List.range' o n ∧ o + n ≤ (dates t).length :=
    fun t ht => trainPlaces_run (hsorted t ht) (hD t ht).train test la
  have hrun2 : ∀ t ∈ symbols, ∃ o n, tep t = List.range' o n ∧ o + n ≤ (dates t).length :=
    fun t ht => testPlaces_run (hsorted t ht) (hD t ht).test
  -- the parts
  let D0 : Sym → IvSymData := fun t => (compressed t iv).getD (D t)
  have hD0 : ∀ t ∈ symbols, compressed t iv = some (D0 t) ∧ (D0 t).data.bars = (D t).data.bars ∧
      (D0 t).hasVwap = (D t).hasVwap ∧ (D0 t).custom = (D t).custom := by
    intro t ht
    obtain ⟨d0, e1, e2⟩ := (hD t ht).given
    have : D0 t = d0 := by simp only [D0, e1, Option.getD_some]
    rw [this]
    exact ⟨e1, e2⟩
  let arr : Sym → String → Option (List Cell) := fun t =>
    (D t).trainArray t iv s.registered src.indicators s.ind.data
  let part : Sym → IvPart := fun t => ⟨t, names, arr t, D0 t, oneRows date cell none names trp t,
    oneRows date cell none names tep t⟩
  have hnames : ∀ t ∈ symbols, names = (D t).trainNames s.registered src.indicators :=
    fun t ht => (hD t ht).names
  have hpart : ∀ t ∈ symbols, intervalPart compressed s.registered s.ind.data iv src.indicators train test la t =
      .ok (part t) := by
    intro t ht
    obtain ⟨e1, e2, e3, e4⟩ := hD0 t ht
    have hnone : src.indicators.any (fun i => (s.ind.data (boundName i iv) t).isNone) = false := by
      rw [List.any_eq_false]
      intro i hin
      have := (hD t ht).indicators i hin
      rw [Option.isSome_iff_ne_none] at this
      simpa using this
    have hnames' : (D0 t).trainNames s.registered src.indicators = names := by
      rw [hnames t ht]
      unfold IvSymData.trainNames
      rw [e3, e4]
    have hcol0 : (D0 t).column = (D t).column := by
      funext c
      unfold IvSymData.column
      rw [e2, e3, e4]
    have harr : (D0 t).trainArray t iv s.registered src.indicators s.ind.data = arr t := by
      funext c
      simp only [arr]
      unfold IvSymData.trainArray
      rw [e2, e4, hcol0]
    have hrtr := inputOnDates_rows h hn (hD t ht).bars (hD t ht).indicators
      (lookaheadTrainDates (dates t) train test la).1 lc (kept_trainPlaces (hsorted t ht) hlt hla)
    have hrte := inputOnDates_rows h hn (hD t ht).bars (hD t ht).indicators test lc
      (idx := testPlaces (dates t) test) rfl
    rw [← hnames t ht] at hrtr hrte
    unfold intervalPart
    rw [e1]
    simp only [hnone, Bool.false_eq_true, if_false, hnames', harr, e2]
    congr 1
    simp only [part, IvPart.mk.injEq, true_and]
    exact ⟨hrtr, hrte⟩
  have hlast : ((symbols.map part).getLast?.map IvPart.names).getD [] = names := by
    rw [List.getLast?_map, List.getLast?_eq_getLast_of_ne_nil hne]
    rfl
  have hdsorted : ∀ (idx : Sym → List Nat) (t : Sym), t ∈ symbols →
      (∃ o n, idx t = List.range' o n ∧ o + n ≤ (dates t).length) →
      ((idx t).map (date t)).Pairwise (· < ·) := by
    intro idx t ht ⟨o, n, e1, e2⟩
    have : (idx t).map (date t) = ((dates t).drop o).take n := by
      rw [← pick_run _ _ _ e2, ← e1, pick_dates]
      intro i hi
      rw [e1, List.mem_range'_1] at hi
      omega
    rw [this]
    exact ((hsorted t ht).sublist (List.drop_sublist _ _)).sublist (List.take_sublist _ _)
  have hc1 := concat_rows hnd names date cell trp (fun t ht => hdsorted trp t ht (hrun1 t ht))
  have hc2 := concat_rows hnd names date cell tep (fun t ht => hdsorted tep t ht (hrun2 t ht))
  have hm1 : (symbols.map part).map (fun p => (p.symbol, p.train)) =
      symbols.map (fun t => (t, oneRows date cell none names trp t)) := by
    rw [List.map_map]
    rfl
  have hm2 : (symbols.map part).map (fun p => (p.symbol, p.test)) =
      symbols.map (fun t => (t, oneRows date cell none names tep t)) := by
    rw [List.map_map]
    rfl
  unfold preparePooledInterval at hmade
  rw [mapM_all hpart] at hmade
  simp only [hlast, hm1, hm2, hc1, hc2] at hmade
  -- nothing in a pool
  have hplaces : ∀ idx : Sym → List Nat, placesOf order idx = [] ↔ ∀ t ∈ symbols, idx t = [] := by
    intro idx
    unfold placesOf
    rw [List.flatMap_eq_nil_iff]
    constructor
    · intro hh t ht
      simpa using hh t (hperm.mem_iff.2 ht)
    · intro hh t ht
      rw [hh t (hperm.mem_iff.1 ht)]
      rfl
  have hsame : ∀ (pa : Option (Sym → Nat → List Cell)) (nm : List String) (V : List (Sym × Nat)),
      (V ≠ [] → nm = names) → SameRows (rowsAt date cell pa nm V) (rowsAt date cell pa names V) := by
    intro pa nm V hh
    refine ⟨rfl, rfl, ?_, rfl⟩
    intro hd
    rw [hh (by
      rintro rfl
      exact hd rfl)]
  have hpi : src.lags.isSome = past.isSome := by
    simp only [past, Option.isSome_map]
  have hst1 : stack order names src.lags.isSome kept =
      rowsAt date cell past names (placesOf order (fun t => (trp t).drop (warmRows (x t)))) := by
    rw [hpi]
    exact stack_rowsAt order names date cell past _ kept (fun t _ => hkept t)
  have hst2 : stack order names src.lags.isSome y = rowsAt date cell past names (placesOf order tep) := by
    rw [hpi]
    exact stack_rowsAt order names date cell past _ y (fun t _ => hy t)
  rw [hst1, hst2]
  have hxd : ∀ t, (x t).dates = [] ↔ trp t = [] := by
    intro t
    rw [hx t]
    simp [oneRows]
  have hkd : ∀ t, (kept t).dates = [] ↔ (trp t).drop (warmRows (x t)) = [] := by
    intro t
    rw [hkept t]
    simp [oneRows]
  have hcond : ((∃ t ∈ symbols, (x t).dates ≠ []) ∧ ∀ t ∈ symbols, (kept t).dates = []) ↔
      (placesOf order trp ≠ [] ∧ placesOf order (fun t => (trp t).drop (warmRows (x t))) = []) := by
    rw [hplaces, Ne, hplaces]
    simp only [hkd, Ne, hxd]
    push Not
    rfl
  have hcond' : (src.lags ≠ none ∧ ∀ t ∈ symbols, (x t).dates = []) ↔
      (src.lags ≠ none ∧ placesOf order trp = []) := by
    rw [hplaces]
    simp only [hxd]
  rw [if_congr hcond' rfl rfl, if_congr hcond rfl rfl]
  rcases hlags : src.lags with _ | n
  · rw [hlags] at hmade
    rw [if_neg (fun hh => hh.1 rfl)]
    simp only at hmade
    have hpn : past = none := by simp only [past, hlags, Option.map_none]
    have hw : ∀ t, warmRows (x t) = 0 := by
      intro t
      rw [hx t, hpn]
      rfl
    have hdr : (fun t => (trp t).drop (warmRows (x t))) = trp := by
      funext t
      rw [hw t, List.drop_zero]
    rw [hdr, if_neg (fun hh => hh.1 hh.2), hpn]
    refine ⟨_, _, calls, cache, hmade, ?_, ?_, hcalls, hcache⟩
    · exact hsame _ _ _ (fun hh => if_neg hh)
    · exact hsame _ _ _ (fun hh => if_neg hh)
  · rw [hlags] at hmade
    simp only at hmade
    have hpn : past = some (fun t => ivPast s (D t) t iv lc n) := by simp only [past, hlags, Option.map_some]
    obtain ⟨hdate, hmem, hwhich⟩ := hlc (by rw [hlags]; simp)
    rw [show placesOf (symbols.insertionSort (· ≤ ·)) trp = placesOf order trp from rfl,
      show placesOf (symbols.insertionSort (· ≤ ·)) tep = placesOf order tep from rfl] at hmade
    have hhist : ∀ t ∈ symbols, partDates (symbols.map part) t = some (dates t) := by
      intro t ht
      unfold partDates
      rw [List.find?_map]
      rcases hf : symbols.find? ((fun p : IvPart => decide (p.symbol = t)) ∘ part) with _ | t'
      · rw [List.find?_eq_none] at hf
        exact absurd (hf t ht) (by simp [part])
      · have := List.find?_some hf
        simp only [Function.comp_apply, part, decide_eq_true_eq] at this
        subst this
        simp only [Option.map_some, part, dates]
        rw [(hD0 t' ht).2.1]
    have hhist' : ∀ t ∉ symbols, partDates (symbols.map part) t = none := by
      intro t ht
      unfold partDates
      rw [Option.map_eq_none_iff, List.find?_eq_none]
      intro p hp
      obtain ⟨t', ht', rfl⟩ := List.mem_map.1 hp
      simp only [part, decide_eq_true_eq]
      rintro rfl
      exact ht ht'
    by_cases hVne : placesOf order trp = []
    · rw [if_pos ⟨by simp, hVne⟩]
      rw [hVne, if_pos rfl, if_pos (show (rowsAt date cell none [] []).dates = [] from rfl)] at hmade
      split
      · rename_i hl
        have : lagFeatureCols [] s.dataCols src.indicators true src.lagCols = none := by
          unfold lagFeatureCols
          rw [if_pos hl, if_neg]
          rcases hc : src.lagCols with _ | ⟨c, l⟩
          · exact absurd hc hl
          · simp
        rw [this] at hmade
        exact hmade
      · rename_i hl
        have : lagFeatureCols [] s.dataCols src.indicators true src.lagCols = some [] := by
          unfold lagFeatureCols
          rw [if_neg hl]
          simp [inferCols]
        rw [this] at hmade
        obtain ⟨calls', cache', e1, e2, e3, -, -⟩ := mergeParts_ok (iv := iv) (lc := []) (by simp) (n := n)
          (series := series) (parts := symbols.map part) (fun _ _ c hc => nomatch hc) hcalls hcache
        simp only [e1] at hmade
        have a0 : applyLagsPooled junk (rowsAt date cell none [] []) [] n cache' (partDates (symbols.map part))
            symbols (lagInterval iv) = .ok { rowsAt date cell none [] [] with features := some [] } := by
          unfold applyLagsPooled
          rw [if_pos (show (rowsAt date cell none [] []).dates = [] from rfl)]
        have a2 := lag_places hnd (idx := tep) (dates := dates) (date := date) (fun _ _ => rfl) cell
          (if placesOf order tep = [] then [] else names) hsorted hrun2
          (series := fun t c => series t c (lagInterval iv)) (fun t _ => run_serves e2 e3 t (lagInterval iv))
          hhist hhist' (lc := []) (lags := n) junk (fun _ _ c hc => nomatch hc)
        rw [show symbols.insertionSort (· ≤ ·) = order from rfl] at a2
        rw [a0] at hmade
        simp only at hmade
        rw [a2] at hmade
        simp only at hmade
        have hdw : ({ rowsAt date cell none [] [] with features := some [] } : LagInput).dropWarmup =
            .ok { rowsAt date cell none [] [] with features := some [] } := by
          unfold LagInput.dropWarmup
          rfl
        rw [hdw] at hmade
        exact ⟨_, _, _, hmade, rfl⟩
    rw [if_neg (fun hh => hVne hh.2)]
    rw [if_neg hVne] at hmade
    have hshown : (if (rowsAt date cell none names (placesOf order trp)).dates = [] then []
        else names ++ ["symbol"]) = names ++ ["symbol"] := by
      rw [if_neg]
      simpa [rowsAt] using hVne
    have hlf := pooled_lag_cols s.dataCols hmem hwhich
    rw [hshown, hlf] at hmade
    simp only at hmade
    have harr' : ∀ p ∈ symbols.map part, ∀ c ∈ lc, p.arrays c = some (series p.symbol c (lagInterval iv)) := by
      intro p hp c hc
      obtain ⟨t, ht, rfl⟩ := List.mem_map.1 hp
      simp only [part, arr]
      rw [(hD t ht).series c]
      exact (trainArray_eq h hn (hD t ht).bars (hD t ht).indicators
        (by rw [← hnames t ht]; exact hmem c hc)).1
    obtain ⟨calls', cache', e1, e2, e3, -, e5⟩ := mergeParts_ok hdate (n := n) harr' hcalls hcache
    rw [e1] at hmade
    simp only at hmade
    have hcol : ∀ t ∈ symbols, ∀ c ∈ lc, (series t c (lagInterval iv)).length = (dates t).length ∧
        ∃ st, cache'.cached t c n (lagInterval iv) = some st := by
      intro t ht c hc
      refine ⟨?_, ((cached_lags e2 e3 t c (lagInterval iv) n).1).2
        (e5 (part t) (List.mem_map.2 ⟨t, ht, rfl⟩) c hc)⟩
      rw [(hD t ht).series c, (trainArray_eq h hn (hD t ht).bars (hD t ht).indicators
        (by rw [← hnames t ht]; exact hmem c hc)).2]
      simp [dates]
    have hpast : ∀ (V : List (Sym × Nat)) (nm : List String), (∀ p ∈ V, p.1 ∈ symbols) →
        rowsAt date cell (some (fun t j => lc.flatMap (fun c => (List.range (n + 1)).map
          (fun k => lagged (series t c (lagInterval iv)) j k)))) nm V = rowsAt date cell past nm V := by
      intro V nm hV
      rw [hpn]
      unfold rowsAt
      simp only [Option.map_some]
      congr 2
      apply List.map_congr_left
      intro p hp
      unfold ivPast
      congr 1
      funext c
      rw [(hD p.1 (hV p hp)).series c]
    have hVsym : ∀ idx : Sym → List Nat, ∀ p ∈ placesOf order idx, p.1 ∈ symbols := by
      intro idx p hp
      unfold placesOf at hp
      obtain ⟨t, ht, hp⟩ := List.mem_flatMap.1 hp
      obtain ⟨i, _, rfl⟩ := List.mem_map.1 hp
      exact hperm.mem_iff.1 ht
    have a1 := lag_places hnd (idx := trp) (dates := dates) (date := date) (fun _ _ => rfl) cell names hsorted hrun1
      (series := fun t c => series t c (lagInterval iv)) (fun t _ => run_serves e2 e3 t (lagInterval iv))
      hhist hhist' junk hcol
    have a2 := lag_places hnd (idx := tep) (dates := dates) (date := date) (fun _ _ => rfl) cell
      (if placesOf order tep = [] then [] else names) hsorted hrun2
      (series := fun t c => series t c (lagInterval iv)) (fun t _ => run_serves e2 e3 t (lagInterval iv))
      hhist hhist' junk hcol
    rw [show symbols.insertionSort (· ≤ ·) = order from rfl] at a1 a2
    rw [hpast _ _ (hVsym trp)] at a1
    rw [hpast _ _ (hVsym tep)] at a2
    rw [a1] at hmade
    simp only at hmade
    rw [a2] at hmade
    simp only at hmade
    have htrim := trim_places hndo date cell (fun t => ivPast s (D t) t iv lc n) names trp
      (fun t => warmRows (x t)) (by
        intro t _
        rw [hx t, hpn]
        rfl)
    rw [← hpn] at htrim
    rw [htrim] at hmade
    split
    · rename_i hc
      rw [if_pos hc] at hmade
      exact hmade
    · rename_i hc
      rw [if_neg hc] at hmade
      exact ⟨_, _, calls', cache', hmade, hsame _ _ _ (fun _ => rfl), hsame _ _ _ (fun hh => if_neg hh), e2, e3⟩

/-! ## Examples -/

namespace Demo

/-- A second symbol, with four of the six bars. -/
def ivPoolA : IvSymData where
  data := {
    bars := (compressEveryN 2 (Demo.ivBars.drop 2)).1
    completed := [-1, 0, 0, 1]
    baseDates := [2, 3, 4, 5] }
  hasVwap := true
  custom := []

def ivPoolD (t : Sym) : IvSymData := if t = "S" then ivSym else ivPoolA

def ivPool : IvScope where
  compressed sym iv := if iv = .num 2 ∧ sym ∈ ["S", "A"] then some (ivPoolD sym) else none
  registered := []
  dataCols := ["date", "open", "high", "low", "close", "volume", "vwap", "symbol"]
  sources _ := none
  models _ _ := none
  ind := {
    data := fun n sym => if n = boundName "half" (.num 2) ∧ sym ∈ ["S", "A"] then
      some (((ivPoolD sym).data.bars.map IBar.date).zip
        ((ivPoolD sym).data.bars.map (fun b => b.close.map (· / 2)))) else none
    bound := fun n => (parseName n.toList).2.isSome
    filterDates := [2, 3, 4, 5] }

theorem ivPool_data {sym : Sym} {iv : Iv} {d : IvSymData} (h : ivPool.compressed sym iv = some d) :
    d = ivPoolD sym ∧ (sym = "S" ∨ sym = "A") := by
  simp only [ivPool] at h
  split at h
  · rename_i hc
    exact ⟨(Option.some.inj h).symm, by simpa using hc.2⟩
  · cases h

theorem ivPool_backtest : IvBacktest ivPool := by
  refine ⟨fun _ => rfl, ?_, ?_, (fun _ h => nomatch h), ?_, ?_, ?_, (fun _ _ _ _ h => nomatch h),
    ⟨rfl, rfl, rfl, rfl, rfl, rfl, rfl⟩⟩
  · intro sym iv d base ser _ hd hser
    obtain ⟨rfl, _⟩ := ivPool_data hd
    simp only [ivPool] at hser
    split at hser
    · rw [← Option.some.inj hser, List.map_fst_zip (by simp)]
    · cases hser
  · intro sym iv c hn hc
    simp only [ivPool]
    rw [if_neg]
    rintro ⟨h, _⟩
    rw [(boundName_inj hn Demo.iv_two h).1] at hc
    rcases hc with hc | hc
    · revert hc
      decide
    · cases hc
  · intro sym iv d hd
    obtain ⟨rfl, rfl | rfl⟩ := ivPool_data hd <;> decide +kernel
  · intro sym iv d hd
    obtain ⟨rfl, rfl | rfl⟩ := ivPool_data hd <;> decide +kernel
  · intro sym iv d hd
    obtain ⟨rfl, rfl | rfl⟩ := ivPool_data hd <;> decide +kernel

theorem ivPool_trains (t : Sym) (ht : t ∈ ["S", "A"]) : TrainsOn ivPool (.num 2) ivPool.compressed ivTrain
    [0, 1, 2, 3] [4, 5] ["date", "open", "high", "low", "close", "volume", "vwap", "half"]
    (fun t c _ => ivCol ivPool (ivPoolD t) t (.num 2) c) t (ivPoolD t) := by
  have hb : ivPool.compressed t (.num 2) = some (ivPoolD t) := if_pos ⟨rfl, ht⟩
  have hv : (ivPoolD t).hasVwap = true := by
    unfold ivPoolD
    split <;> rfl
  refine ⟨hb, ⟨_, hb, rfl, rfl, rfl⟩, ?_, ?_, ?_, ?_, fun _ => rfl⟩
  · intro i hi
    rw [show i = "half" by simpa [ivTrain] using hi]
    simp only [ivPool]
    rw [if_pos ⟨trivial, ht⟩]
    rfl
  · refine ⟨0, 3, ?_⟩
    rcases (by simpa using ht : t = "S" ∨ t = "A") with rfl | rfl <;> decide +kernel
  · refine ⟨4, 5, ?_⟩
    rcases (by simpa using ht : t = "S" ∨ t = "A") with rfl | rfl <;> decide +kernel
  · rw [hv]
    rfl

end Demo

/-- C111: a pool of two symbols. -/
example (junk : LagMat) :=
  pooled_interval_training Demo.ivPool_backtest Demo.iv_two (symbols := ["S", "A"]) (by decide) (by simp)
    Demo.ivPool_trains (lc := ["close", "half"]) (by decide) (la := 1) (by decide)
    (fun _ => ⟨by decide, by decide, .inl ⟨by decide, rfl⟩⟩)
    (calls := []) (by simp) rfl junk

/-- `S` has two training bars, the first without a bar before it; `A` has one. -/
example : trainPlaces ((Demo.ivPoolD "S").data.bars.map IBar.date) [0, 1, 2, 3] [4, 5] 1 = [0, 1] ∧
    trainPlaces ((Demo.ivPoolD "A").data.bars.map IBar.date) [0, 1, 2, 3] [4, 5] 1 = [0] := by decide +kernel

example : let made := (preparePooledInterval (fun _ _ => some 99) Demo.ivPool.compressed []
      Demo.ivPool.dataCols Demo.ivPool.ind.data ["S", "A"] (.num 2) Demo.ivTrain [0, 1, 2, 3] [4, 5] 1
      (fun _ => none)).toOption
    made.bind (fun p => p.1.symbols) = some ["S"] ∧
    made.bind (fun p => p.1.features) = some [[some 8, some 14, some 4, some 7]] ∧
    made.bind (fun p => p.2.1.symbols) = some ["A", "S"] ∧
    made.bind (fun p => p.2.1.features) =
      some [[some 12, some 8, some 6, some 4], [some 12, some 8, some 6, some 4]] := by
  decide +kernel

/-- No symbol has a bar three compressed bars before the test window, and the model names its lag
columns: the second case of the theorem. -/
example : trainPlaces ((Demo.ivPoolD "S").data.bars.map IBar.date) [0, 1, 2, 3] [4, 5] 3 = [] ∧
    trainPlaces ((Demo.ivPoolD "A").data.bars.map IBar.date) [0, 1, 2, 3] [4, 5] 3 = [] ∧
    Demo.ivTrain.lagCols ≠ [] := by decide +kernel

example : (prepareIntervalInput (fun _ _ => some 99) Demo.ivPool.compressed [] Demo.ivPool.dataCols
      Demo.ivPool.ind.data "S" (.num 2) Demo.ivTrain [0, 1, 2, 3] [4, 5] 3 (fun _ => none)).toOption.map
        (fun p => p.1.dates.length) = some 0 ∧
    (preparePooledInterval (fun _ _ => some 99) Demo.ivPool.compressed [] Demo.ivPool.dataCols
      Demo.ivPool.ind.data ["S", "A"] (.num 2) Demo.ivTrain [0, 1, 2, 3] [4, 5] 3
      (fun _ => none)).toOption.isNone = true := by
  decide +kernel

/-- An indicator of one of the symbols was not computed. -/
example : preparePooledInterval (fun _ _ => some 99) Demo.ivPool.compressed [] []
    (fun i sym => if sym = "A" then none else Demo.ivPool.ind.data i sym) ["S", "A"] (.num 2)
    Demo.ivTrain [0, 1, 2, 3] [4, 5] 1 (fun _ => none) |>.toOption.isNone := by decide +kernel

end PyBroker
