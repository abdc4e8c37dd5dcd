import Verif.Backtest.Learn
import Verif.Props.Input
import Verif.Props.Lookahead
import Verif.Props.IntervalScope
import Verif.Props.Pooled

/-!
# No look-ahead in a run with models (C151)
-/

namespace PyBroker

open PyBroker.Spec

/-! ## Bars of windows -/

theorem windowBars_rel {t : Date} {rows rows' : List DRow} (hu : UniqueBars rows)
    (h : SameUpTo t rows rows') (window : List Date) (sym : Sym) :
    SameUpTo t (windowBars rows window sym) (windowBars rows' window sym) := by
  rw [windowBars_eq hu, windowBars_eq (same_unique h hu)]
  exact forall₂_filter (fun a b hab => by rw [hab.2.1]) (symRows_same h sym)

theorem windowBars_early {t : Date} {rows rows' : List DRow} (hu : UniqueBars rows)
    (h : SameUpTo t rows rows') {window : List Date} (hw : ∀ d ∈ window, d ≤ t) (sym : Sym) :
    windowBars rows window sym = windowBars rows' window sym :=
  RunSetup.same_all (windowBars_rel hu h window sym)
    (fun _ hr => hw _ (windowBars_mem.1 hr).2.2)

theorem same_early {t : Date} : ∀ {l l' : List DRow}, SameUpTo t l l' → ∀ {d : Date}, d ≤ t →
    l.filter (fun r => r.date ≤ d) = l'.filter (fun r => r.date ≤ d)
  | _, _, .nil, _, _ => rfl
  | a :: l, b :: l', .cons hab ht, d, hd => by
    rw [List.filter_cons, List.filter_cons, same_early ht hd, ← hab.2.1]
    by_cases hda : a.date ≤ d
    · have : a = b := by
        obtain ⟨s, da, v⟩ := a
        obtain ⟨s', da', v'⟩ := b
        obtain ⟨h1, h2, h3⟩ := hab
        simp only at h1 h2 h3 hda
        rw [h1, ← h2, h3 (le_trans hda hd)]
      rw [this]
    · simp [hda]

theorem onDate_same {t : Date} {rows rows' : List DRow} (hu : UniqueBars rows)
    (h : SameUpTo t rows rows') {ind : List DRow → List Cell} (hi : CausalInd ind) (sym : Sym)
    {d : Date} (hd : d ≤ t) : onDate (seriesOf ind rows sym) d = onDate (seriesOf ind rows' sym) d := by
  have hu' := same_unique h hu
  rw [onDate_causal hu hi sym hd, onDate_causal hu' hi sym hd,
    symRows_to hu hu' sym (same_early h (le_refl t))]

theorem seriesOf_dates {ind : List DRow → List Cell} (hi : CausalInd ind) (rows : List DRow) (sym : Sym) :
    (seriesOf ind rows sym).map Prod.fst = (symRows rows sym).map DRow.date := by
  unfold seriesOf
  rw [List.map_fst_zip]
  rw [hi.1, List.length_map]

theorem seriesOf_sorted {rows : List DRow} (hu : UniqueBars rows) {ind : List DRow → List Cell}
    (hi : CausalInd ind) (sym : Sym) :
    ((seriesOf ind rows sym).map Prod.fst).Pairwise (· < ·) := by
  rw [seriesOf_dates hi]
  exact List.pairwise_map.2 (symRows_sorted hu sym)

/-! ## Training input -/

/-- The arrays of bars. -/
def barArrays (cols : List String) (bars : List DRow) : SymArrays :=
  { dates := bars.map DRow.date
    col := fun c => if c ∈ cols then some (bars.map (fun r => r.val c)) else none }

/-- The arrays of a window of a frame. -/
theorem slice_bars_of {rows : List DRow} (hu : UniqueBars rows) (cols : List String)
    (window : List Date) (sym : Sym) :
    (windowBars rows window sym = [] ∧ ((storeOf cols rows).slice window).arrays sym = none) ∨
    (windowBars rows window sym ≠ [] ∧
      ((storeOf cols rows).slice window).arrays sym = some
        (barArrays cols (windowBars rows window sym))) := by
  have h := slice_arrays hu cols window sym
  rw [← windowBars_eq hu] at h
  rcases h with h | ⟨h1, a, ha, hda, hca⟩
  · exact .inl h
  · refine .inr ⟨h1, ?_⟩
    rw [ha]
    obtain ⟨ds, col⟩ := a
    simp only at hda hca
    rw [hda, funext hca]
    rfl

theorem cellOf_same {t : Date} {rows rows' : List DRow} (hu : UniqueBars rows)
    (h : SameUpTo t rows rows') {ind : String → List DRow → List Cell} (hi : ∀ i, CausalInd (ind i))
    (cols : List String) (sym : Sym) {r : DRow} (hr : r.date ≤ t) (c : String) :
    cellOf cols (fun i => some (seriesOf (ind i) rows sym)) r c =
      cellOf cols (fun i => some (seriesOf (ind i) rows' sym)) r c := by
  unfold cellOf
  simp only [Option.bind_some]
  rw [onDate_same hu h (hi c) sym hr]

theorem hasData_series {rows : List DRow} (hu : UniqueBars rows)
    {ind : String → List DRow → List Cell} (hi : ∀ i, CausalInd (ind i)) (sym : Sym)
    (inds : List String) : HasData inds (fun i => some (seriesOf (ind i) rows sym)) :=
  fun i _ => ⟨_, rfl, seriesOf_sorted hu (hi i) sym⟩

/-- The input from bars up to `t` is the same. -/
theorem symbolInput_same {t : Date} {rows rows' : List DRow} (hu : UniqueBars rows)
    (h : SameUpTo t rows rows') {ind : String → List DRow → List Cell} (hi : ∀ i, CausalInd (ind i))
    (cols ordered inds : List String) {window : List Date} (hw : ∀ d ∈ window, d ≤ t) (sym : Sym) :
    symbolInput ((storeOf cols rows).slice window) sym ordered inds
        (fun i => some (seriesOf (ind i) rows sym)) =
      symbolInput ((storeOf cols rows').slice window) sym ordered inds
        (fun i => some (seriesOf (ind i) rows' sym)) := by
  have hu' := same_unique h hu
  have e := windowBars_early hu h hw sym
  unfold symbolInput
  rcases slice_bars_of hu cols window sym with ⟨e1, a1⟩ | ⟨e1, a1⟩ <;>
    rcases slice_bars_of hu' cols window sym with ⟨e1', a1'⟩ | ⟨e1', a1'⟩
  · rw [a1, a1']
  · exact absurd (e ▸ e1) e1'
  · exact absurd (e ▸ e1') e1
  · rw [a1, a1', ← e]
    simp only
    have key : ∀ c, inputColumn (barArrays cols (windowBars rows window sym)) inds (fun i => some (seriesOf (ind i) rows sym)) c =
        inputColumn (barArrays cols (windowBars rows window sym)) inds (fun i => some (seriesOf (ind i) rows' sym)) c := by
      intro c
      obtain ⟨g1, g2⟩ := inputColumn_eq (cols := cols) (bars := windowBars rows window sym)
        (x := barArrays cols (windowBars rows window sym)) (hasData_series hu hi sym inds) rfl (fun _ => rfl) c
      obtain ⟨g1', g2'⟩ := inputColumn_eq (cols := cols) (bars := windowBars rows window sym)
        (x := barArrays cols (windowBars rows window sym)) (hasData_series hu' hi sym inds) rfl (fun _ => rfl) c
      by_cases hc : c ∈ cols ∨ c ∈ inds
      · rw [g1 hc, g1' hc]
        congr 1
        apply List.map_congr_left
        intro r hr
        exact cellOf_same hu h hi cols sym (hw _ (windowBars_mem.1 hr).2.2) c
      · rw [g2 hc, g2' hc]
    simp only [key]

/-- The lag features of the first bars of a history. -/
def lagTable (cols : List String) (data : String → Option Series) (columns : List String) (lags : Nat)
    (bars : List DRow) : List (List Cell) :=
  (List.range bars.length).map (fun r => (List.range (columns.length * (lags + 1))).map (fun f =>
    cellBefore cols data bars r (f % (lags + 1)) (columns.getD (f / (lags + 1)) "")))

theorem matRows_table {cols : List String} {data : String → Option Series} {columns : List String}
    {lags : Nat} {T Q : List DRow} {m : LagMat}
    (hm : ∀ r j k c, r < T.length → columns[j]? = some c → k ≤ lags →
      m r (j * (lags + 1) + k) = cellBefore cols data (T ++ Q) r k c) :
    matRows m T.length (columns.length * (lags + 1)) = lagTable cols data columns lags T := by
  unfold matRows lagTable
  apply List.map_congr_left
  intro r hr
  apply List.map_congr_left
  intro f hf
  rw [List.mem_range] at hr hf
  have h1 : f / (lags + 1) < columns.length := Nat.div_lt_of_lt_mul (by rw [Nat.mul_comm]; exact hf)
  have h2 := Nat.mod_lt f (show 0 < lags + 1 by omega)
  have hc : columns[f / (lags + 1)]? = some (columns.getD (f / (lags + 1)) "") := by
    rw [List.getD_eq_getElem?_getD, List.getElem?_eq_getElem h1]
    rfl
  have := hm r _ (f % (lags + 1)) _ hr hc (by omega)
  rw [Nat.mul_comm, Nat.div_add_mod] at this
  rw [this]
  unfold cellBefore
  by_cases hk : f % (lags + 1) ≤ r
  · rw [if_pos hk, if_pos hk, List.getElem?_append_left (by omega)]
  · rw [if_neg hk, if_neg hk]

/-- The trimmed training input with lags, from the bars of the training window alone. -/
theorem lagInputs_train {rows : List DRow} (hu : UniqueBars rows) {cols inds : List String}
    {data : String → Option Series} (hd : HasData inds data) {hw : List Date} {sym : Sym}
    {T Q P E : List DRow} (hT : windowBars rows hw sym = T ++ Q) (hE : windowBars rows hw sym = P ++ E)
    (hne : T ≠ []) {x y : LagInput} (hx : x.dates = T.map DRow.date) (hy : y.dates = E.map DRow.date)
    {columns : List String} (hcols : ∀ c ∈ columns, c ∈ cols ∨ c ∈ inds) (lags : Nat) (junk : LagMat) :
    ∃ y' c', lagInputs junk ((storeOf cols rows).slice hw) sym columns lags inds data x y (fun _ => none) =
      match LagInput.dropWarmup { x with features := some (lagTable cols data columns lags T) } with
      | .error e => .error e
      | .ok x' => .ok (x', y', c') := by
  have hHne : windowBars rows hw sym ≠ [] := by rw [hT]; simp [hne]
  have hHs := windowBars_sorted hu hw sym
  rcases slice_bars_of hu cols hw sym with ⟨e1, _⟩ | ⟨_, a1⟩
  · exact absurd e1 hHne
  generalize hH : windowBars rows hw sym = H at *
  have hic := inputColumn_eq (cols := cols) (inds := inds) (bars := H)
    (x := barArrays cols H) hd rfl (fun _ => rfl)
  have hsd : (barArrays cols H).dates = H.map DRow.date := rfl
  generalize barArrays cols H = s at *
  obtain ⟨cache, hmerge⟩ := merge_ok (sym := sym) (lags := lags) (i := none)
    (arrays := inputColumn s inds data) (fun _ => none) (fun c hc => ⟨_, (hic c).1 (hcols c hc)⟩)
  have hmfs : mergeFromStore ((storeOf cols rows).slice hw) sym columns lags inds data
      (fun _ => none) = .ok (cache, some (H.map DRow.date)) := by
    unfold mergeFromStore
    rw [a1]
    dsimp only
    rw [if_neg (by rw [hsd]; simpa using hHne), hmerge]
    dsimp only
    rw [hsd]
  have hrun : runMerges [⟨sym, none, lags, columns, inputColumn s inds data⟩] (fun _ => none) =
      .ok cache := by
    simp only [runMerges, hmerge]
  have hpass : ∀ m ∈ [(⟨sym, none, lags, columns, inputColumn s inds data⟩ : MergeCall)],
      Passes (fun _ c _ => H.map (fun r => cellOf cols data r c)) m := by
    intro m hm
    rw [List.mem_singleton] at hm
    subst hm
    intro c v hv
    simp only at hv ⊢
    by_cases hc : c ∈ cols ∨ c ∈ inds
    · rw [(hic c).1 hc] at hv
      cases hv
      rfl
    · rw [(hic c).2 hc] at hv
      cases hv
  have hsv := run_serves hpass hrun sym none
  have hcol : ∀ c ∈ columns, H.map (fun r => cellOf cols data r c) = H.map (fun r => cellOf cols data r c) ∧
      ∃ st, LagCache.cached cache sym c lags none = some st :=
    fun c hc => ⟨rfl, (cached_lags hpass hrun sym c none lags).1.2
      ⟨_, List.mem_singleton_self _, rfl, rfl, hc, le_refl _⟩⟩
  obtain ⟨m, hm1, hm2⟩ := applyLags_bars (P := []) (R := T) (Q := Q) (by
      rw [List.nil_append, ← hT]; exact hHs) hx hsv
    (columns := columns) (lags := lags) junk (by rw [List.nil_append, ← hT]; exact hcol)
  obtain ⟨m', hm1', _⟩ := applyLags_bars (P := P) (R := E) (Q := []) (by
      rw [List.append_nil, ← hE]; exact hHs) hy hsv
    (columns := columns) (lags := lags) junk (by rw [List.append_nil, ← hE]; exact hcol)
  rw [List.nil_append] at hm1 hm2
  rw [← hT] at hm1
  rw [List.append_nil, ← hE] at hm1'
  have htab := matRows_table (T := T) (Q := Q) (m := m) (columns := columns) (lags := lags)
    (cols := cols) (data := data) (by
      intro r j k c hr hj hk
      have := hm2 r j k c hr hj hk
      simpa using this)
  rw [htab] at hm1
  refine ⟨{ y with features := some (matRows m' E.length (columns.length * (lags + 1))) }, cache, ?_⟩
  unfold lagInputs
  rw [hmfs]
  simp only [hm1, hm1']
  cases LagInput.dropWarmup { x with features := some (lagTable cols data columns lags T) } <;> rfl

/-! ## Windows -/

/-- The dates of a window's history. -/
def histDates (dates : List Date) (w : WFWindow) : List Date :=
  windowDates (dates.filter (fun d => (datesOfRows dates w.train).headD 0 ≤ d ∧
    d ≤ (datesOfRows dates w.test).getLastD 0))

theorem windowStores_history (master : Store) (dates : List Date) (w : WFWindow) (h1 : w.train ≠ [])
    (h2 : w.test ≠ []) :
    (windowStores master dates w).history = some (master.slice (histDates dates w)) := by
  unfold windowStores histDates
  simp only [if_neg h1, if_neg h2]

theorem window_size {dates : List Date} {w la : Int} {ts : ℚ} {shuffle : List Nat → List Nat}
    (hs : ∀ l, (shuffle l).Perm l) (h0 : 0 ≤ ts) (h1 : ts ≤ 1) {ws : List WFWindow}
    (h : walkforwardSplit dates w la ts shuffle = .ok ws) {win : WFWindow} (hwin : win ∈ ws)
    (htr : win.train ≠ []) (hte : win.test ≠ []) (hne : dates ≠ []) : 0 < ts ∧ ts < 1 := by
  by_cases hts : ts = 0 ∨ ts = 1
  · exfalso
    have hwp : 0 < w := by
      by_contra hc
      rw [walkforwardSplit, if_pos (not_lt.1 hc)] at h
      cases h
    have hla : 0 < la := by
      by_contra hc
      rw [walkforwardSplit, if_neg (not_le.2 hwp), if_pos (not_lt.1 hc)] at h
      cases h
    obtain ⟨k, hk⟩ := List.mem_iff_getElem?.1 hwin
    rcases split_whole hs hwp hla hne hts with ⟨_, e⟩ | ⟨_, ws', e, _, hall⟩
    · rw [e] at h; cases h
    · rw [e] at h
      have := Except.ok.inj h
      subst this
      have := (hall k win hk).1
      split at this
      · exact htr this
      · exact hte this
  · rw [not_or] at hts
    exact ⟨lt_of_le_of_ne h0 (Ne.symm hts.1), lt_of_le_of_ne h1 hts.2⟩

/-- A window with training and test data: its training dates are the start and its test dates the
end of its history, and training dates are before test dates. -/
structure WindowFacts (dates : List Date) (win : WFWindow) : Prop where
  train_in : ∀ d ∈ dates, d ∈ datesOfRows dates win.train → d ∈ histDates dates win
  test_in : ∀ d ∈ dates, d ∈ datesOfRows dates win.test → d ∈ histDates dates win
  train_low : ∀ a ∈ dates, ∀ b ∈ dates, a ∈ datesOfRows dates win.train → b ≤ a →
    b ∈ histDates dates win → b ∈ datesOfRows dates win.train
  test_up : ∀ a ∈ dates, ∀ b ∈ dates, a ∈ datesOfRows dates win.test → a ≤ b →
    b ∈ histDates dates win → b ∈ datesOfRows dates win.test
  order : ∀ a ∈ datesOfRows dates win.train, ∀ b ∈ datesOfRows dates win.test, a < b

theorem window_facts {dates : List Date} {w la : Int} {ts : ℚ} {shuffle : List Nat → List Nat}
    (hs : ∀ l, (shuffle l).Perm l) (h0 : 0 ≤ ts) (h1 : ts ≤ 1) {ws : List WFWindow}
    (h : walkforwardSplit dates w la ts shuffle = .ok ws) {win : WFWindow} (hwin : win ∈ ws)
    (htr : win.train ≠ []) (hte : win.test ≠ []) (hne : dates ≠ []) : WindowFacts dates win := by
  obtain ⟨h0, h1⟩ := window_size hs h0 h1 h hwin htr hte hne
  obtain ⟨hla, hord, _⟩ := train_before_test hs h0 h1 h hwin
  obtain ⟨tl, te, hpos, hlen, hfit, hb⟩ := split_blocks hs h0 h1 h
  obtain ⟨k, hk⟩ := List.mem_iff_getElem?.1 hwin
  obtain ⟨htest, htrain⟩ := hb k win hk
  have hkw : (k : Int) < w := by
    have := (List.getElem?_eq_some_iff.1 hk).1
    omega
  have hmul : (w - k) * (te : Int) ≤ w * te := mul_le_mul_of_nonneg_right (by omega) (by omega)
  have hmul2 : (te : Int) ≤ (w - k) * te := by
    have : (1 : Int) * te ≤ (w - k) * te := mul_le_mul_of_nonneg_right (by omega) (by omega)
    omega
  have hM := fun d hd' => mem_history htrain htest htr hte (by omega) (by omega) (d := d) hd'
  have hT := fun d hd' => mem_datesIn htest (d := d) hd'
  have hR := fun d hd' => mem_datesIn htrain (d := d) hd'
  refine ⟨?_, ?_, ?_, ?_, ?_⟩
  · intro d hd h2
    rw [hR _ hd] at h2
    unfold histDates
    rw [hM _ hd]
    omega
  · intro d hd h2
    rw [hT _ hd] at h2
    unfold histDates
    rw [hM _ hd]
    omega
  · intro a ha b hb' h2 hab h3
    unfold histDates at h3
    rw [hR _ ha] at h2
    rw [hM _ hb'] at h3
    rw [hR _ hb']
    have := barNo_mono dates hab
    omega
  · intro a ha b hb' h2 hab h3
    unfold histDates at h3
    rw [hT _ ha] at h2
    rw [hM _ hb'] at h3
    rw [hT _ hb']
    have := barNo_mono dates hab
    omega
  · intro a ha b hb'
    obtain ⟨i, hi, hia⟩ := mem_datesOfRows.1 ha
    obtain ⟨j, hj, hjb⟩ := mem_datesOfRows.1 hb'
    exact (hord i hi j hj a b hia hjb).2

theorem row_date {rows : List DRow} {r : DRow} (h : r ∈ rows) : r.date ∈ rows.map DRow.date :=
  List.mem_map.2 ⟨r, h, rfl⟩

/-- The bars of a window within another. -/
theorem windowBars_within {rows : List DRow} (hu : UniqueBars rows) {win hw : List Date}
    (h : ∀ r ∈ rows, r.date ∈ win → r.date ∈ hw) (sym : Sym) :
    (windowBars rows hw sym).filter (fun r => decide (r.date ∈ win)) = windowBars rows win sym := by
  rw [windowBars_eq hu, windowBars_eq hu, List.filter_filter]
  apply List.filter_congr
  intro r hr
  have hm : r ∈ rows := (List.mem_filter.1 ((symRows_perm rows sym).mem_iff.1 hr)).1
  by_cases h1 : r.date ∈ win
  · simp [h1, h r hm h1]
  · simp [h1]

theorem history_split {rows : List DRow} (hu : UniqueBars rows) {win : WFWindow}
    (hf : WindowFacts (rows.map DRow.date) win) (sym : Sym) :
    (∃ Q, windowBars rows (histDates (rows.map DRow.date) win) sym =
      windowBars rows (datesOfRows (rows.map DRow.date) win.train) sym ++ Q) ∧
    ∃ P, windowBars rows (histDates (rows.map DRow.date) win) sym =
      P ++ windowBars rows (datesOfRows (rows.map DRow.date) win.test) sym := by
  have hs := windowBars_sorted hu (histDates (rows.map DRow.date) win) sym
  constructor
  · have := split_tail hs (fun r => !decide (r.date ∈ datesOfRows (rows.map DRow.date) win.train)) (by
      intro a ha b hb hab hn
      rw [windowBars_mem] at ha hb
      simp only [Bool.not_eq_true', decide_eq_false_iff_not] at hn ⊢
      exact fun hc => hn (hf.train_low _ (row_date hb.1) _ (row_date ha.1) hc hab ha.2.2))
    simp only [Bool.not_not] at this
    rw [windowBars_within hu (fun r hr => hf.train_in _ (row_date hr))] at this
    exact ⟨_, this⟩
  · have := split_tail hs (fun r => decide (r.date ∈ datesOfRows (rows.map DRow.date) win.test)) (by
      intro a ha b hb hab hn
      rw [windowBars_mem] at ha hb
      simp only [decide_eq_true_eq] at hn ⊢
      exact hf.test_up _ (row_date ha.1) _ (row_date hb.1) hn hab hb.2.2)
    rw [windowBars_within hu (fun r hr => hf.test_in _ (row_date hr))] at this
    exact ⟨_, this⟩

/-- The input of a symbol in a window. -/
theorem symbolInput_window {rows : List DRow} (hu : UniqueBars rows) {cols inds ordered : List String}
    {data : String → Option Series} (hd : HasData inds data) (sym : Sym) (window : List Date) :
    ∃ x, symbolInput ((storeOf cols rows).slice window) sym ordered inds data = some x ∧
      x.dates = (windowBars rows window sym).map DRow.date ∧
      x.symbols = none ∧
      (windowBars rows window sym ≠ [] → x.columns.map Prod.fst =
        modelInputCols ordered inds (fun c => decide (c ∈ cols))) ∧
      ∀ c ∈ x.columns.map Prod.fst, c ∈ cols ∨ c ∈ inds := by
  unfold symbolInput
  rcases slice_bars_of hu cols window sym with ⟨e, a⟩ | ⟨e, a⟩
  · rw [a, e]
    exact ⟨_, rfl, rfl, rfl, fun h => absurd rfl h, by simp⟩
  · rw [a]
    simp only
    have hsd : (barArrays cols (windowBars rows window sym)).dates =
        (windowBars rows window sym).map DRow.date := rfl
    rw [if_neg (by rw [hsd]; simpa using e)]
    have hav : (fun c => ((barArrays cols (windowBars rows window sym)).col c).isSome) =
        (fun c => decide (c ∈ cols)) := by
      funext c
      unfold barArrays
      simp only
      split <;> simp [*]
    rw [hav]
    have hcol : ∀ c ∈ modelInputCols ordered inds (fun c => decide (c ∈ cols)),
        inputColumn (barArrays cols (windowBars rows window sym)) inds data c =
          some ((windowBars rows window sym).map (fun r => cellOf cols data r c)) := by
      intro c hc
      refine (inputColumn_eq hd hsd (fun _ => rfl) c).1 ?_
      rcases mem_modelInputCols.1 hc with ⟨_, h⟩ | h
      · exact .inl (by simpa using h)
      · exact .inr h
    rw [mapM_pairs hcol]
    have hnames : ((modelInputCols ordered inds (fun c => decide (c ∈ cols))).map (fun c =>
        (c, (windowBars rows window sym).map (fun r => cellOf cols data r c)))).map Prod.fst =
        modelInputCols ordered inds (fun c => decide (c ∈ cols)) := by
      rw [List.map_map]
      exact (List.map_congr_left (fun _ _ => rfl)).trans (List.map_id _)
    refine ⟨_, rfl, hsd, rfl, fun _ => hnames, ?_⟩
    intro c hc
    simp only at hc
    rw [hnames] at hc
    rcases mem_modelInputCols.1 hc with ⟨_, h⟩ | h
    · exact .inl (by simpa using h)
    · exact .inr h

/-! ## Pooled training input -/

/-- The input of a pooled model from the bars of its group. -/
def pooledOf (cols ordered inds : List String) (data : Sym → String → Option Series)
    (bars : List DRow) : LagInput :=
  if bars.isEmpty then { dates := [], symbols := some [], columns := [], features := none }
  else
    { dates := bars.map DRow.date
      symbols := some (bars.map DRow.symbol)
      columns := (modelInputCols ordered inds (fun c => decide (c ∈ cols))).map
        (fun c => (c, bars.map (fun r => cellOf cols (data r.symbol) r c)))
      features := none }

theorem pooledOf_dates (cols ordered inds : List String) (data : Sym → String → Option Series)
    (bars : List DRow) : (pooledOf cols ordered inds data bars).dates = bars.map DRow.date := by
  unfold pooledOf
  cases bars <;> rfl

theorem pooledOf_symbols (cols ordered inds : List String) (data : Sym → String → Option Series)
    (bars : List DRow) : (pooledOf cols ordered inds data bars).symbols = some (bars.map DRow.symbol) := by
  unfold pooledOf
  cases bars <;> rfl

theorem pooledOf_names (cols ordered inds : List String) (data : Sym → String → Option Series)
    {bars : List DRow} (h : bars ≠ []) : (pooledOf cols ordered inds data bars).columns.map Prod.fst =
      modelInputCols ordered inds (fun c => decide (c ∈ cols)) := by
  unfold pooledOf
  rw [if_neg (by simpa using h)]
  simp only
  rw [List.map_map]
  exact (List.map_congr_left (fun _ _ => rfl)).trans (List.map_id _)

/-- The pooled input of a window. -/
theorem pooledInput_window {rows : List DRow} (hu : UniqueBars rows) {cols inds ordered : List String}
    {data : Sym → String → Option Series} {symbols : List Sym} (hn : symbols.Nodup)
    (hd : ∀ s ∈ symbols, HasData inds (data s)) (window : List Date) :
    pooledInput ((storeOf cols rows).slice window) symbols ordered inds data =
      some (pooledOf cols ordered inds data (Spec.bySymbol symbols (windowBars rows window))) := by
  have hmem : ∀ s ∈ symbols, ∀ r ∈ windowBars rows window s, r ∈ rows ∧ r.symbol = s := by
    intro s _ r hr
    have := windowBars_mem.1 hr
    exact ⟨this.1, this.2.1⟩
  have hsort : ∀ s ∈ symbols, (windowBars rows window s).Pairwise (fun a b => a.date < b.date) :=
    fun s _ => windowBars_sorted hu window s
  have hsl : ∀ s, (windowBars rows window s = [] ∧ ((storeOf cols rows).slice window).arrays s = none) ∨
      (windowBars rows window s ≠ [] ∧ ∃ x, ((storeOf cols rows).slice window).arrays s = some x ∧
        x.dates = (windowBars rows window s).map DRow.date ∧
        ∀ c, x.col c = if c ∈ cols then some ((windowBars rows window s).map (fun r => r.val c))
          else none) := by
    intro s
    rcases slice_bars_of hu cols window s with h | ⟨h1, h2⟩
    · exact .inl h
    · exact .inr ⟨h1, _, h2, rfl, fun _ => rfl⟩
  obtain ⟨p1, p2, p3, p4⟩ := poolParts_spec (B := windowBars rows window) hd
    (fun s hs r hr => (hmem s hs r hr).2) (fun s _ => hsl s)
  obtain ⟨o1, o2⟩ := lexOrder_pick hu hn hmem hsort
  have hperm : (Spec.bySymbol symbols (windowBars rows window)).Perm
      (symbols.flatMap (windowBars rows window)) :=
    (List.perm_insertionSort (· ≤ ·) symbols).flatMap_right _
  unfold pooledInput
  dsimp only
  by_cases h0 : symbols.flatMap (windowBars rows window) = []
  · rw [if_pos (p1.2 h0)]
    have hnil : Spec.bySymbol symbols (windowBars rows window) = [] := by
      rw [h0] at hperm; exact hperm.eq_nil
    rw [hnil]
    rfl
  · rw [if_neg (fun h => h0 (p1.1 h)), p2, p3]
    have hav : (fun c => symbols.any (fun s => (((storeOf cols rows).slice window).arrays s).any
        (fun x => (x.col c).isSome))) = (fun c => decide (c ∈ cols)) := by
      funext c
      rw [Bool.eq_iff_iff, List.any_eq_true, decide_eq_true_eq]
      constructor
      · rintro ⟨s, _, hs⟩
        rcases hsl s with ⟨_, h⟩ | ⟨_, x, h, _, h2⟩
        · rw [h] at hs; cases hs
        · rw [h] at hs
          simp only [Option.any_some, h2 c] at hs
          by_contra hc
          rw [if_neg hc] at hs
          cases hs
      · intro hc
        obtain ⟨r, hr⟩ := List.exists_mem_of_ne_nil _ h0
        obtain ⟨s, hs, hr⟩ := List.mem_flatMap.1 hr
        refine ⟨s, hs, ?_⟩
        rcases hsl s with ⟨h, _⟩ | ⟨_, x, h, _, h2⟩
        · rw [h] at hr; cases hr
        · rw [h]
          simp only [Option.any_some, h2 c, if_pos hc]
          rfl
    have hpk : ∀ {β : Type} (g : DRow → β), pickRows (lexOrder
        ((symbols.flatMap (windowBars rows window)).map DRow.symbol)
        ((symbols.flatMap (windowBars rows window)).map DRow.date))
        ((symbols.flatMap (windowBars rows window)).map g) =
        some ((Spec.bySymbol symbols (windowBars rows window)).map g) := by
      intro β g
      rw [mapM_getElem (fun i hi => by rw [List.length_map]; exact o1 i hi), pick_map, o2]
    rw [hpk, hpk, hav]
    have hcol : ∀ c ∈ modelInputCols ordered inds (fun c => decide (c ∈ cols)),
        (poolColumn inds data c (poolParts ((storeOf cols rows).slice window) symbols)).bind
          (pickRows (lexOrder
            ((symbols.flatMap (windowBars rows window)).map DRow.symbol)
            ((symbols.flatMap (windowBars rows window)).map DRow.date))) =
        some ((Spec.bySymbol symbols (windowBars rows window)).map
          (fun r => cellOf cols (data r.symbol) r c)) := by
      intro c hc
      rw [p4 c, Option.bind_some, hpk]
      rcases mem_modelInputCols.1 hc with ⟨_, h⟩ | h
      · exact .inl (by simpa using h)
      · exact .inr h
    rw [mapM_pairs hcol]
    have hne : Spec.bySymbol symbols (windowBars rows window) ≠ [] := by
      intro h
      rw [h] at hperm
      exact h0 hperm.nil_eq.symm
    unfold pooledOf
    rw [if_neg (by simpa using hne)]

/-- The rows of a pooled input up to `t` are the same. -/
theorem pooledOf_same {t : Date} {rows rows' : List DRow} (hu : UniqueBars rows)
    (h : SameUpTo t rows rows') {ind : String → List DRow → List Cell} (hi : ∀ i, CausalInd (ind i))
    (cols ordered inds : List String) {bars : List DRow} (hb : ∀ r ∈ bars, r.date ≤ t) :
    pooledOf cols ordered inds (fun s i => some (seriesOf (ind i) rows s)) bars =
      pooledOf cols ordered inds (fun s i => some (seriesOf (ind i) rows' s)) bars := by
  unfold pooledOf
  have key : ∀ c, bars.map (fun r => cellOf cols (fun i => some (seriesOf (ind i) rows r.symbol)) r c) =
      bars.map (fun r => cellOf cols (fun i => some (seriesOf (ind i) rows' r.symbol)) r c) :=
    fun c => List.map_congr_left (fun r hr => cellOf_same hu h hi cols r.symbol (hb r hr) c)
  simp only [key]

theorem bySymbol_congr {symbols : List Sym} {B B' : Sym → List DRow} (h : ∀ s, B s = B' s) :
    Spec.bySymbol symbols B = Spec.bySymbol symbols B' := by
  rw [funext h]

/-- What the lag features of a pooled training input are: for each bar, the values of the columns on it
and on the bars of its symbol before it in the training window. -/
def PoolLags (cols : List String) (data : Sym → String → Option Series) (columns : List String)
    (lags : Nat) (symbols : List Sym) (T : Sym → List DRow) (m : LagMat) : Prop :=
  ∀ r b p j k c, (Spec.bySymbol symbols T)[r]? = some b → (T b.symbol)[p]? = some b →
    columns[j]? = some c → k ≤ lags →
    m r (j * (lags + 1) + k) = cellBefore cols (data b.symbol) (T b.symbol) p k c

/-- The trimmed pooled training input with lags, from the bars of the training window alone. -/
theorem lagInputsPooled_train {rows : List DRow} (hu : UniqueBars rows) {cols inds : List String}
    {data : Sym → String → Option Series} {symbols : List Sym} (hn : symbols.Nodup)
    (hd : ∀ s ∈ symbols, HasData inds (data s)) {hw : List Date} {T Q P E : Sym → List DRow}
    (hT : ∀ s, windowBars rows hw s = T s ++ Q s) (hE : ∀ s, windowBars rows hw s = P s ++ E s)
    {x y : LagInput} (hx : x.dates = (Spec.bySymbol symbols T).map DRow.date)
    (hxs : x.symbols = some ((Spec.bySymbol symbols T).map DRow.symbol))
    (hy : y.dates = (Spec.bySymbol symbols E).map DRow.date)
    (hys : y.symbols = some ((Spec.bySymbol symbols E).map DRow.symbol))
    {columns : List String} (hcols : ∀ c ∈ columns, c ∈ cols ∨ c ∈ inds) (lags : Nat) (junk : LagMat) :
    ∃ m y' c' h', PoolLags cols data columns lags symbols T m ∧
      lagInputsPooled junk ((storeOf cols rows).slice hw) symbols columns lags inds data x y
        (fun _ => none) (fun _ => none) =
      match LagInput.dropWarmup { x with features := some (matRows m (Spec.bySymbol symbols T).length
          (columns.length * (lags + 1))) } with
      | .error e => .error e
      | .ok x' => .ok (x', y', c', h') := by
  have hsl : ∀ s ∈ symbols, (windowBars rows hw s = [] ∧ ((storeOf cols rows).slice hw).arrays s = none) ∨
      (windowBars rows hw s ≠ [] ∧ ∃ x, ((storeOf cols rows).slice hw).arrays s = some x ∧
        x.dates = (windowBars rows hw s).map DRow.date ∧
        ∀ c, x.col c = if c ∈ cols then some ((windowBars rows hw s).map (fun r => r.val c))
          else none) := by
    intro s _
    rcases slice_bars_of hu cols hw s with h | ⟨h1, h2⟩
    · exact .inl h
    · exact .inr ⟨h1, _, h2, rfl, fun _ => rfl⟩
  obtain ⟨cache', dates', calls', m1, m2, m3, m4, m5, m6, m7⟩ := mergePool_ok
    (H := windowBars rows hw) (lags := lags) (columns := columns)
    (series := fun s c _ => (windowBars rows hw s).map (fun r => cellOf cols (data s) r c)) hcols hd hsl
    (fun s _ c _ => rfl) [] (fun _ => none) (fun _ => none) (fun _ h => nomatch h) rfl
    (fun _ _ h => nomatch h)
  have hsv := fun s (_ : s ∈ symbols) => run_serves m2 m3 s none
  have hcol' : ∀ s ∈ symbols, windowBars rows hw s ≠ [] → ∀ c ∈ columns,
      (windowBars rows hw s).map (fun r => cellOf cols (data s) r c) =
        (windowBars rows hw s).map (fun r => cellOf cols (data s) r c) ∧
      ∃ st, LagCache.cached cache' s c lags none = some st := by
    intro s hs hne c hc
    refine ⟨rfl, ?_⟩
    obtain ⟨_, m, hm, e1, e2, e3, e4⟩ := m7 s hs hne
    exact (cached_lags m2 m3 s c none lags).1.2 ⟨m, hm, e1, e2, by rw [e3]; exact hc, by rw [e4]⟩
  have hHs := fun s => windowBars_sorted hu hw s
  have hHsym : ∀ s, ∀ r ∈ windowBars rows hw s, r.symbol = s := fun s r hr => (windowBars_mem.1 hr).2.1
  obtain ⟨m, hm1, hm2⟩ := applyLagsPooled_bars hn (P := fun _ => []) (R := T) (Q := Q)
    (fun s => by rw [List.nil_append]; exact hT s) hHs hHsym hx hxs
    (series := fun s c => (windowBars rows hw s).map (fun r => cellOf cols (data s) r c)) hsv m4
    (fun s hs hne => (m7 s hs hne).1) (columns := columns) (lags := lags) junk hcol'
  obtain ⟨m', hm1', _⟩ := applyLagsPooled_bars hn (P := P) (R := E) (Q := fun _ => [])
    (fun s => by rw [List.append_nil]; exact hE s) hHs hHsym hy hys
    (series := fun s c => (windowBars rows hw s).map (fun r => cellOf cols (data s) r c)) hsv m4
    (fun s hs hne => (m7 s hs hne).1) (columns := columns) (lags := lags) junk hcol'
  refine ⟨m, { y with features := some (matRows m' (Spec.bySymbol symbols E).length
    (columns.length * (lags + 1))) }, cache', dates', ?_, ?_⟩
  · intro r b p j k c hr hp hj hk
    have hpl := (List.getElem?_eq_some_iff.1 hp).1
    rw [hm2 r b p j k c hr (by rw [hT, List.getElem?_append_left hpl]; exact hp) hj hk]
    unfold cellBefore
    by_cases hkk : k ≤ p
    · rw [if_pos hkk, if_pos hkk, hT, List.getElem?_append_left (by omega)]
    · rw [if_neg hkk, if_neg hkk]
  · unfold lagInputsPooled
    rw [m1]
    simp only [hm1, hm1']
    cases LagInput.dropWarmup { x with features := some (matRows m (Spec.bySymbol symbols T).length
          (columns.length * (lags + 1))) } <;> rfl

/-- Pooled lag features of bars up to `t` are the same. -/
theorem poolLags_same {t : Date} {rows rows' : List DRow} (hu : UniqueBars rows)
    (h : SameUpTo t rows rows') {ind : String → List DRow → List Cell} (hi : ∀ i, CausalInd (ind i))
    {cols columns : List String} {lags : Nat} {symbols : List Sym} {T : Sym → List DRow}
    (hsym : ∀ s, ∀ r ∈ T s, r.symbol = s) (ht : ∀ s, ∀ r ∈ T s, r.date ≤ t) {m m' : LagMat}
    (hm : PoolLags cols (fun s i => some (seriesOf (ind i) rows s)) columns lags symbols T m)
    (hm' : PoolLags cols (fun s i => some (seriesOf (ind i) rows' s)) columns lags symbols T m') :
    matRows m (Spec.bySymbol symbols T).length (columns.length * (lags + 1)) =
      matRows m' (Spec.bySymbol symbols T).length (columns.length * (lags + 1)) := by
  unfold matRows
  apply List.map_congr_left
  intro r hr
  apply List.map_congr_left
  intro f hf
  rw [List.mem_range] at hr hf
  have h1 : f / (lags + 1) < columns.length := Nat.div_lt_of_lt_mul (by rw [Nat.mul_comm]; exact hf)
  have h2 := Nat.mod_lt f (show 0 < lags + 1 by omega)
  have hb := List.getElem?_eq_getElem hr
  obtain ⟨s, _, hbs⟩ := mem_pooled.1 (List.mem_of_getElem? hb)
  have hbs' := hbs
  rw [← hsym s _ hbs] at hbs'
  obtain ⟨p, hp⟩ := List.mem_iff_getElem?.1 hbs'
  have e1 := hm r _ p _ (f % (lags + 1)) _ hb hp (List.getElem?_eq_getElem h1) (by omega)
  have e2 := hm' r _ p _ (f % (lags + 1)) _ hb hp (List.getElem?_eq_getElem h1) (by omega)
  rw [Nat.mul_comm, Nat.div_add_mod] at e1 e2
  rw [e1, e2]
  unfold cellBefore
  split
  · rcases hq : (T (Spec.bySymbol symbols T)[r].symbol)[p - f % (lags + 1)]? with _ | b
    · rfl
    · rw [Option.bind_some, Option.bind_some]
      exact cellOf_same hu h hi cols _ (ht _ b (List.mem_of_getElem? hq)) _
  · rfl

/-! ## Models -/

namespace Spec

/-- An `input_data_fn` that works row by row: it keeps the number of rows, and the first rows of what
it gives depend on the first rows of what it is given. -/
def RowFn (f : List (String × List Cell) → List (String × List Cell)) : Prop :=
  ∀ (n : Nat) (df df' : List (String × List Cell)), (∀ p ∈ df, p.2.length = n) →
    (∀ p ∈ df', p.2.length = n) → (∀ p ∈ f df, p.2.length = n) ∧
    ∀ m : Nat, df.map (fun p => (p.1, p.2.take m)) = df'.map (fun p => (p.1, p.2.take m)) →
      (f df).map (fun p => (p.1, p.2.take m)) = (f df').map (fun p => (p.1, p.2.take m))

/-- What is asked of a strategy with models, besides `SetupOK`.  Indicators are causal and not
named like data columns, models prepare their input row by row, training functions do not
use the test data they are given, and a model that predicts a window at once gives one prediction for
each row that does not depend on later rows. -/
structure LearnerOK {M : Type} (L : Learner M) : Prop where
  setup : SetupOK L.setup
  ordered : L.ordered.Nodup
  data : ∃ c ∈ L.ordered, c ∈ L.setup.cols ∧ c ≠ "date" ∧ c ≠ "symbol"
  causal : ∀ i, CausalInd (L.ind i)
  plain : ∀ name src, L.source name = some src → (∀ f, src.inputFn = some f → RowFn f) ∧
    ∀ i ∈ src.indicators, i ∉ L.setup.cols ∧ i ≠ "date"
  lags : ∀ name, "date" ∉ L.lagCols name
  blind : ∀ k name sym x y y', L.fit k name sym x y = L.fit k name sym x y'
  blindPool : ∀ k name g x y y', L.fitPool k name g x y = L.fitPool k name g x y'
  rowwise : ∀ name m, L.perBar name = false → ∀ x, (L.predict name m x).length = x.dates.length ∧
    ∀ (y : LagInput) (n : Nat), x.slice (some (n : Int)) = y.slice (some (n : Int)) →
      (L.predict name m x).take n = (L.predict name m y).take n

end Spec

namespace Learner

variable {M : Type} {L : Learner M}

theorem series_eq (sym : Sym) :
    L.series sym = fun i => some (seriesOf (L.ind i) L.setup.rows sym) := rfl

theorem lagTable_same {t : Date} {rows rows' : List DRow} (hu : UniqueBars rows)
    (h : SameUpTo t rows rows') {ind : String → List DRow → List Cell} (hi : ∀ i, CausalInd (ind i))
    (cols columns : List String) (lags : Nat) (sym : Sym) {T : List DRow} (hT : ∀ r ∈ T, r.date ≤ t) :
    lagTable cols (fun i => some (seriesOf (ind i) rows sym)) columns lags T =
      lagTable cols (fun i => some (seriesOf (ind i) rows' sym)) columns lags T := by
  unfold lagTable
  apply List.map_congr_left
  intro r _
  apply List.map_congr_left
  intro f _
  unfold cellBefore
  split
  · cases hr : T[r - f % (lags + 1)]? with
    | none => rfl
    | some b =>
      rw [Option.bind_some, Option.bind_some]
      exact cellOf_same hu h hi cols sym (hT b (List.mem_of_getElem? hr)) _
  · rfl

/-- The columns to lag are columns of the input, none of them the date. -/
theorem lagFeatureCols_spec {names dataCols inds : List String} {pooled : Bool} {lagCols lc : List String}
    (h : lagFeatureCols names dataCols inds pooled lagCols = some lc) (hd : "date" ∉ lagCols) :
    (∀ c ∈ lc, c ∈ names) ∧ "date" ∉ lc ∧
    ((∃ c ∈ dataCols, c ∈ names ∧ c ∉ inds ∧ c ≠ "date" ∧ c ≠ "symbol") → lc ≠ []) := by
  unfold lagFeatureCols at h
  split at h
  · rename_i hne
    split at h
    · rename_i hall
      cases h
      rw [List.all_eq_true] at hall
      exact ⟨fun c hc => by simpa using hall c hc, hd, fun _ => hne⟩
    · cases h
  · cases h
    refine ⟨?_, ?_, ?_⟩
    · intro c hc
      have := (List.mem_filter.1 hc).1
      unfold inferCols at this
      simp only at this
      split at this
      · exact (List.mem_filter.1 (List.mem_filter.1 this).1).1
      · exact (List.mem_filter.1 this).1
    · intro hc
      have := (List.mem_filter.1 hc).2
      simp at this
    · rintro ⟨c, h1, h2, h3, h4, h5⟩ hnil
      have : c ∈ (inferCols names dataCols inds pooled).filter (fun c => c ≠ "date" ∧ c ∉ inds) := by
        refine List.mem_filter.2 ⟨?_, by simp [h3, h4]⟩
        unfold inferCols
        simp only
        split
        · exact List.mem_filter.2 ⟨List.mem_filter.2 ⟨h2, by simp [h1]⟩, by simp [h5]⟩
        · exact List.mem_filter.2 ⟨h2, by simp [h1]⟩
      rw [hnil] at this
      cases this

theorem dates_on {t : Date} {rows' : List DRow} (h : SameUpTo t L.setup.rows rows') :
    (L.on rows').setup.dates = L.setup.dates := (same_dates h).symm

/-- The training input and the lagged columns of a window are the same. -/
theorem inputs_same {t : Date} (hok : LearnerOK L) {rows' : List DRow}
    (h : SameUpTo t L.setup.rows rows') {win : WFWindow} (htr : win.train ≠ []) (hte : win.test ≠ [])
    (hf : WindowFacts L.setup.dates win) (hle : ∀ d ∈ datesOfRows L.setup.dates win.train, d ≤ t)
    {name : String} {src : InSource} (hsrc : L.source name = some src) (sym : Sym) :
    (L.inputs win name src sym).map (fun i => (i.1, i.2.2)) =
      ((L.on rows').inputs win name src sym).map (fun i => (i.1, i.2.2)) := by
  have hu := hok.setup.unique
  have hu' := same_unique h hu
  have hd := dates_on h
  have hf' : WindowFacts (rows'.map DRow.date) win := by
    have : rows'.map DRow.date = L.setup.dates := hd
    rw [this]
    exact hf
  unfold inputs testInput
  have e1 : (L.stores win).train = some ((storeOf L.setup.cols L.setup.rows).slice
      (datesOfRows L.setup.dates win.train)) := by
    unfold stores
    rw [windowStores_train, if_neg htr]
  have e1' : ((L.on rows').stores win).train = some ((storeOf L.setup.cols rows').slice
      (datesOfRows L.setup.dates win.train)) := by
    unfold stores
    rw [windowStores_train, if_neg htr, hd]
    rfl
  have e2 : (L.stores win).test = some ((storeOf L.setup.cols L.setup.rows).slice
      (datesOfRows L.setup.dates win.test)) := by
    unfold stores
    rw [windowStores_test, if_neg hte]
  have e2' : ((L.on rows').stores win).test = some ((storeOf L.setup.cols rows').slice
      (datesOfRows L.setup.dates win.test)) := by
    unfold stores
    rw [windowStores_test, if_neg hte, hd]
    rfl
  have e3 : (L.stores win).history = some ((storeOf L.setup.cols L.setup.rows).slice
      (histDates L.setup.dates win)) := by
    unfold stores
    rw [windowStores_history _ _ _ htr hte]
  have e3' : ((L.on rows').stores win).history = some ((storeOf L.setup.cols rows').slice
      (histDates L.setup.dates win)) := by
    unfold stores
    rw [windowStores_history _ _ _ htr hte, hd]
    rfl
  rw [e1, e1', e2, e2']
  simp only
  have hdat := hasData_series hu hok.causal sym src.indicators
  have hdat' := hasData_series hu' hok.causal sym src.indicators
  obtain ⟨x, hx, hxd, hxs, hxc, hxn⟩ := symbolInput_window hu (cols := L.setup.cols)
    (ordered := L.ordered) hdat sym (datesOfRows L.setup.dates win.train)
  obtain ⟨y, hy, hyd, _⟩ := symbolInput_window hu (cols := L.setup.cols)
    (ordered := L.ordered) hdat sym (datesOfRows L.setup.dates win.test)
  obtain ⟨y', hy', hyd', _⟩ := symbolInput_window hu' (cols := L.setup.cols)
    (ordered := L.ordered) hdat' sym (datesOfRows L.setup.dates win.test)
  have hx' := symbolInput_same hu h hok.causal L.setup.cols L.ordered src.indicators hle sym
  rw [hx] at hx'
  have g1 : symbolInput ((storeOf L.setup.cols L.setup.rows).slice
      (datesOfRows L.setup.dates win.train)) sym L.ordered src.indicators (L.series sym) = some x := hx
  have g1' : symbolInput ((storeOf L.setup.cols rows').slice
      (datesOfRows L.setup.dates win.train)) sym (L.on rows').ordered src.indicators
      ((L.on rows').series sym) = some x := hx'.symm
  have g2 : symbolInput ((storeOf L.setup.cols L.setup.rows).slice
      (datesOfRows L.setup.dates win.test)) sym L.ordered src.indicators (L.series sym) = some y := hy
  have g2' : symbolInput ((storeOf L.setup.cols rows').slice
      (datesOfRows L.setup.dates win.test)) sym (L.on rows').ordered src.indicators
      ((L.on rows').series sym) = some y' := hy'
  rw [g1, g1', g2, g2']
  simp only
  by_cases hxe : x.dates = []
  · rw [if_pos hxe, if_pos hxe]
  rw [if_neg hxe, if_neg hxe]
  unfold lagged
  rcases hlag : src.lags with _ | n
  · rfl
  rw [e3, e3']
  simp only
  have hlc : lagFeatureCols (x.columns.map Prod.fst) (L.on rows').ordered src.indicators src.pooled
      ((L.on rows').lagCols name) = lagFeatureCols (x.columns.map Prod.fst) L.ordered src.indicators
      src.pooled (L.lagCols name) := rfl
  rw [hlc]
  rcases hl : lagFeatureCols (x.columns.map Prod.fst) L.ordered src.indicators src.pooled
    (L.lagCols name) with _ | lc
  · rfl
  simp only
  obtain ⟨l1, _, _⟩ := lagFeatureCols_spec hl (hok.lags name)
  have hcols : ∀ c ∈ lc, c ∈ L.setup.cols ∨ c ∈ src.indicators := fun c hc => hxn c (l1 c hc)
  obtain ⟨⟨Q, hQ⟩, ⟨P, hP⟩⟩ := history_split hu (win := win) hf sym
  obtain ⟨⟨Q', hQ'⟩, ⟨P', hP'⟩⟩ := history_split hu' (win := win) hf' sym
  have hdd : rows'.map DRow.date = L.setup.dates := hd
  rw [hdd] at hQ' hP'
  have hdd0 : L.setup.rows.map DRow.date = L.setup.dates := rfl
  rw [hdd0] at hQ hP
  have hT := windowBars_early hu h hle sym
  have hTne : windowBars L.setup.rows (datesOfRows L.setup.dates win.train) sym ≠ [] := by
    intro e
    rw [e] at hxd
    exact hxe hxd
  rw [← hT] at hQ'
  obtain ⟨z, c, hz⟩ := lagInputs_train hu hdat hQ hP hTne hxd hyd hcols n L.junk
  obtain ⟨z', c', hz'⟩ := lagInputs_train hu' hdat' hQ' hP' hTne hxd hyd' hcols n L.junk
  have k1 : lagInputs L.junk ((storeOf L.setup.cols L.setup.rows).slice (histDates L.setup.dates win)) sym
      lc n src.indicators (L.series sym) x y (fun _ => none) = _ := hz
  have k2 : lagInputs (L.on rows').junk ((storeOf L.setup.cols rows').slice (histDates L.setup.dates win))
      sym lc n src.indicators ((L.on rows').series sym) x y' (fun _ => none) = _ := hz'
  rw [k1, k2, lagTable_same hu h hok.causal L.setup.cols lc n sym
    (fun r hr => hle _ (windowBars_mem.1 hr).2.2)]
  rcases LagInput.dropWarmup { x with features := some (lagTable L.setup.cols
    (fun i => some (seriesOf (L.ind i) rows' sym)) lc n
      (windowBars L.setup.rows (datesOfRows L.setup.dates win.train) sym)) } with e | v <;> rfl

/-- A window's own model of a symbol is the same. -/
theorem fittedOne_same {t : Date} (hok : LearnerOK L) {rows' : List DRow}
    (h : SameUpTo t L.setup.rows rows') {win : WFWindow} (htr : win.train ≠ []) (hte : win.test ≠ [])
    (hf : WindowFacts L.setup.dates win) (hle : ∀ d ∈ datesOfRows L.setup.dates win.train, d ≤ t)
    (k : Nat) {name : String} {src : InSource} (hsrc : L.source name = some src) (sym : Sym) :
    L.fittedOne k win name src sym = (L.on rows').fittedOne k win name src sym := by
  unfold fittedOne
  have := inputs_same hok h htr hte hf hle hsrc sym
  rcases h1 : L.inputs win name src sym with _ | ⟨x, y, l⟩ <;>
    rcases h2 : (L.on rows').inputs win name src sym with _ | ⟨x', y', l'⟩ <;>
    rw [h1, h2] at this
  · cases this
  · cases this
  · simp only [Option.map_some, Option.some.injEq, Prod.mk.injEq] at this
    obtain ⟨rfl, rfl⟩ := this
    have hb := hok.blind k name sym x y y'
    show (L.fit k name sym x y).map _ = (L.fit k name sym x y').map _
    rw [hb]

/-! ## Pooled models -/

theorem group_nodup (win : WFWindow) (name : String) (sym : Sym) : (L.group win name sym).Nodup := by
  unfold group
  split
  · exact List.nodup_nil
  · split
    · exact List.nodup_nil
    · exact List.nodup_dedup _

/-- The symbols of a group have training bars. -/
theorem group_bars {win : WFWindow} {name : String} {sym s : Sym} (h : s ∈ L.group win name sym) :
    windowBars L.setup.rows (datesOfRows L.setup.dates win.train) s ≠ [] := by
  unfold group at h
  split at h
  · cases h
  split at h
  · cases h
  rw [List.mem_dedup, List.mem_filter] at h
  obtain ⟨r, hr, hrs⟩ := List.mem_map.1 (of_decide_eq_true h.2)
  unfold RunSetup.rowsAt at hr
  obtain ⟨i, hi, hir⟩ := List.mem_filterMap.1 hr
  refine List.ne_nil_of_mem (a := r) (windowBars_mem.2 ⟨List.mem_of_getElem? hir, hrs, ?_⟩)
  refine mem_datesOfRows.2 ⟨i, hi, ?_⟩
  unfold RunSetup.dates
  rw [List.getElem?_map, hir]
  rfl

/-- The groups of a window whose training data is not after `t` are the same. -/
theorem group_same {t : Date} {rows' : List DRow} (h : SameUpTo t L.setup.rows rows') {win : WFWindow}
    (hle : ∀ d ∈ datesOfRows L.setup.dates win.train, d ≤ t) (name : String) (sym : Sym) :
    (L.on rows').group win name sym = L.group win name sym := by
  have hr : SameUpTo t (L.setup.rowsAt win.train) ((L.on rows').setup.rowsAt win.train) :=
    RunSetup.rowsAt_same (x := L.setup) (act' := L.setup.act) (orderSlip' := L.setup.orderSlip)
      (exitSlip' := L.setup.exitSlip) h win.train
  have he : L.setup.rowsAt win.train = (L.on rows').setup.rowsAt win.train := by
    refine RunSetup.same_all hr (fun r hr => hle _ ?_)
    unfold RunSetup.rowsAt at hr
    obtain ⟨i, hi, hir⟩ := List.mem_filterMap.1 hr
    refine mem_datesOfRows.2 ⟨i, hi, ?_⟩
    unfold RunSetup.dates
    rw [List.getElem?_map, hir]
    rfl
  unfold group
  rw [← he]
  rfl

/-- The training input and the lagged columns of a pooled model are the same. -/
theorem inputsPool_same {t : Date} (hok : LearnerOK L) {rows' : List DRow}
    (h : SameUpTo t L.setup.rows rows') {win : WFWindow} (htr : win.train ≠ []) (hte : win.test ≠ [])
    (hf : WindowFacts L.setup.dates win) (hle : ∀ d ∈ datesOfRows L.setup.dates win.train, d ≤ t)
    (name : String) (src : InSource) {g : List Sym} (hn : g.Nodup)
    (hg : Spec.bySymbol g (windowBars L.setup.rows (datesOfRows L.setup.dates win.train)) ≠ []) :
    (L.inputsPool win name src g).map (fun i => (i.1, i.2.2)) =
      ((L.on rows').inputsPool win name src g).map (fun i => (i.1, i.2.2)) := by
  have hu := hok.setup.unique
  have hu' := same_unique h hu
  have hd := dates_on h
  have hf' : WindowFacts (rows'.map DRow.date) win := by
    have : rows'.map DRow.date = L.setup.dates := hd
    rw [this]
    exact hf
  unfold inputsPool testPool
  have e1 : (L.stores win).train = some ((storeOf L.setup.cols L.setup.rows).slice
      (datesOfRows L.setup.dates win.train)) := by
    unfold stores
    rw [windowStores_train, if_neg htr]
  have e1' : ((L.on rows').stores win).train = some ((storeOf L.setup.cols rows').slice
      (datesOfRows L.setup.dates win.train)) := by
    unfold stores
    rw [windowStores_train, if_neg htr, hd]
    rfl
  have e2 : (L.stores win).test = some ((storeOf L.setup.cols L.setup.rows).slice
      (datesOfRows L.setup.dates win.test)) := by
    unfold stores
    rw [windowStores_test, if_neg hte]
  have e2' : ((L.on rows').stores win).test = some ((storeOf L.setup.cols rows').slice
      (datesOfRows L.setup.dates win.test)) := by
    unfold stores
    rw [windowStores_test, if_neg hte, hd]
    rfl
  have e3 : (L.stores win).history = some ((storeOf L.setup.cols L.setup.rows).slice
      (histDates L.setup.dates win)) := by
    unfold stores
    rw [windowStores_history _ _ _ htr hte]
  have e3' : ((L.on rows').stores win).history = some ((storeOf L.setup.cols rows').slice
      (histDates L.setup.dates win)) := by
    unfold stores
    rw [windowStores_history _ _ _ htr hte, hd]
    rfl
  rw [e1, e1', e2, e2']
  simp only
  have hdat : ∀ s ∈ g, HasData src.indicators (L.series s) :=
    fun s _ => hasData_series hu hok.causal s src.indicators
  have hdat' : ∀ s ∈ g, HasData src.indicators ((L.on rows').series s) :=
    fun s _ => hasData_series hu' hok.causal s src.indicators
  have hT : ∀ s, windowBars rows' (datesOfRows L.setup.dates win.train) s =
      windowBars L.setup.rows (datesOfRows L.setup.dates win.train) s :=
    fun s => (windowBars_early hu h hle s).symm
  have hTle : ∀ s, ∀ r ∈ windowBars L.setup.rows (datesOfRows L.setup.dates win.train) s, r.date ≤ t :=
    fun s r hr => hle _ (windowBars_mem.1 hr).2.2
  have g1 := pooledInput_window hu (cols := L.setup.cols) (ordered := L.ordered) hn hdat
    (datesOfRows L.setup.dates win.train)
  have g1' := pooledInput_window hu' (cols := L.setup.cols) (ordered := L.ordered) hn hdat'
    (datesOfRows L.setup.dates win.train)
  rw [bySymbol_congr hT] at g1'
  have g2 := pooledInput_window hu (cols := L.setup.cols) (ordered := L.ordered) hn hdat
    (datesOfRows L.setup.dates win.test)
  have g2' := pooledInput_window hu' (cols := L.setup.cols) (ordered := L.ordered) hn hdat'
    (datesOfRows L.setup.dates win.test)
  have hsame : pooledOf L.setup.cols L.ordered src.indicators L.series
        (Spec.bySymbol g (windowBars L.setup.rows (datesOfRows L.setup.dates win.train))) =
      pooledOf L.setup.cols L.ordered src.indicators (L.on rows').series
        (Spec.bySymbol g (windowBars L.setup.rows (datesOfRows L.setup.dates win.train))) :=
    pooledOf_same hu h hok.causal _ _ _ (fun r hr => by
      obtain ⟨s, _, hs⟩ := mem_pooled.1 hr
      exact hTle s r hs)
  rw [← hsame] at g1'
  have ho : (L.on rows').ordered = L.ordered := rfl
  rw [ho, g1, g1', g2, g2']
  simp only
  unfold laggedPool
  rcases hlag : src.lags with _ | n
  · rfl
  rw [e3, e3']
  simp only
  have hxn := pooledOf_names L.setup.cols L.ordered src.indicators L.series hg
  have hlc : ∀ x : LagInput, lagFeatureCols (x.columns.map Prod.fst) (L.on rows').ordered src.indicators
      true ((L.on rows').lagCols name) = lagFeatureCols (x.columns.map Prod.fst) L.ordered
      src.indicators true (L.lagCols name) := fun _ => rfl
  rw [hlc]
  rcases hl : lagFeatureCols ((pooledOf L.setup.cols L.ordered src.indicators L.series
        (Spec.bySymbol g (windowBars L.setup.rows (datesOfRows L.setup.dates win.train)))).columns.map Prod.fst)
      L.ordered src.indicators true (L.lagCols name) with _ | lc
  · rfl
  simp only
  obtain ⟨l1, _, _⟩ := lagFeatureCols_spec hl (hok.lags name)
  have hcols : ∀ c ∈ lc, c ∈ L.setup.cols ∨ c ∈ src.indicators := by
    intro c hc
    have := l1 c hc
    rw [hxn] at this
    rcases mem_modelInputCols.1 this with ⟨_, h⟩ | h
    · exact .inl (by simpa using h)
    · exact .inr h
  have hs := fun s => history_split hu (win := win) hf s
  have hs' := fun s => history_split hu' (win := win) hf' s
  have hdd : rows'.map DRow.date = L.setup.dates := hd
  rw [hdd] at hs'
  have hdd0 : L.setup.rows.map DRow.date = L.setup.dates := rfl
  rw [hdd0] at hs
  choose Q hQ using fun s => (hs s).1
  choose P hP using fun s => (hs s).2
  choose Q' hQ' using fun s => (hs' s).1
  choose P' hP' using fun s => (hs' s).2
  obtain ⟨m, y1, c1, d1, k1, k2⟩ := lagInputsPooled_train hu hn hdat hQ hP
    (pooledOf_dates L.setup.cols L.ordered src.indicators L.series _)
    (pooledOf_symbols L.setup.cols L.ordered src.indicators L.series _)
    (pooledOf_dates L.setup.cols L.ordered src.indicators L.series _)
    (pooledOf_symbols L.setup.cols L.ordered src.indicators L.series _) hcols n L.junk
  obtain ⟨m', y1', c1', d1', k1', k2'⟩ := lagInputsPooled_train hu' hn hdat'
    (T := windowBars L.setup.rows (datesOfRows L.setup.dates win.train))
    (fun s => by rw [← hT s]; exact hQ' s) hP'
    (pooledOf_dates L.setup.cols L.ordered src.indicators L.series _)
    (pooledOf_symbols L.setup.cols L.ordered src.indicators L.series _)
    (pooledOf_dates L.setup.cols L.ordered src.indicators (L.on rows').series _)
    (pooledOf_symbols L.setup.cols L.ordered src.indicators (L.on rows').series _) hcols n L.junk
  have hmm := poolLags_same hu h hok.causal (fun s r hr => (windowBars_mem.1 hr).2.1) hTle k1 k1'
  have hj : (L.on rows').junk = L.junk := rfl
  rw [hj, k2, k2', hmm]
  rcases LagInput.dropWarmup _ with e | v <;> rfl

/-- A window's pooled model is the same. -/
theorem fittedPool_same {t : Date} (hok : LearnerOK L) {rows' : List DRow}
    (h : SameUpTo t L.setup.rows rows') {win : WFWindow} (htr : win.train ≠ []) (hte : win.test ≠ [])
    (hf : WindowFacts L.setup.dates win) (hle : ∀ d ∈ datesOfRows L.setup.dates win.train, d ≤ t)
    (k : Nat) (name : String) (src : InSource) (sym : Sym) :
    L.fittedPool k win name src sym = (L.on rows').fittedPool k win name src sym := by
  unfold fittedPool
  rw [group_same h hle]
  by_cases hs : sym ∈ L.group win name sym
  · rw [if_pos hs, if_pos hs]
    have hne : Spec.bySymbol (L.group win name sym)
        (windowBars L.setup.rows (datesOfRows L.setup.dates win.train)) ≠ [] := by
      obtain ⟨r, hr⟩ := List.exists_mem_of_ne_nil _ (group_bars hs)
      exact List.ne_nil_of_mem (mem_pooled.2 ⟨sym, hs, hr⟩)
    have := inputsPool_same hok h htr hte hf hle name src (group_nodup win name sym) hne
    rcases h1 : L.inputsPool win name src (L.group win name sym) with _ | ⟨x, y, l⟩ <;>
      rcases h2 : (L.on rows').inputsPool win name src (L.group win name sym) with _ | ⟨x', y', l'⟩ <;>
      rw [h1, h2] at this
    · cases this
    · cases this
    · simp only [Option.map_some, Option.some.injEq, Prod.mk.injEq] at this
      obtain ⟨rfl, rfl⟩ := this
      have hb := hok.blindPool k name ((L.group win name sym).insertionSort (· ≤ ·)) x y y'
      show (L.fitPool k name _ x y).map _ = (L.fitPool k name _ x y').map _
      rw [hb]
  · rw [if_neg hs, if_neg hs]

/-- A window's model of a symbol is the same. -/
theorem fitted_same {t : Date} (hok : LearnerOK L) {rows' : List DRow}
    (h : SameUpTo t L.setup.rows rows') {win : WFWindow} (htr : win.train ≠ []) (hte : win.test ≠ [])
    (hf : WindowFacts L.setup.dates win) (hle : ∀ d ∈ datesOfRows L.setup.dates win.train, d ≤ t)
    (k : Nat) (name : String) (sym : Sym) :
    L.fitted k win name sym = (L.on rows').fitted k win name sym := by
  unfold fitted
  have hs : (L.on rows').source name = L.source name := rfl
  rw [hs]
  rcases hsrc : L.source name with _ | src
  · rfl
  simp only
  rw [fittedPool_same hok h htr hte hf hle k name src sym,
    fittedOne_same hok h htr hte hf hle k hsrc sym]

/-! ## The input of a model in a window -/

/-- What is done with the columns of an input: their names, whether it has no rows, and the function
they go through. -/
abbrev Shape := List String × Bool × Option (List (String × List Cell) → List (String × List Cell))

/-- An input of the given shape. -/
def shaped (dates : List Date) (f : String → List Cell) (F : Option (List (List Cell)))
    (q : Shape) : LagInput where
  dates := if q.2.1 || (q.2.2.isSome &&
      (q.2.2.getD id (q.1.map (fun c => (c, f c)))).all (fun p => decide (p.2 = []))) then []
    else dates
  symbols := none
  columns := q.2.2.getD id (q.1.map (fun c => (c, f c)))
  features := F

theorem shaped_none (dates : List Date) (f : String → List Cell) (F : Option (List (List Cell)))
    (names : List String) (b : Bool) : shaped dates f F (names, b, none) =
      ⟨if b then [] else dates, none, names.map (fun c => (c, f c)), F⟩ := by
  unfold shaped
  simp

theorem shaped_some (dates : List Date) (f : String → List Cell) (F : Option (List (List Cell)))
    (names : List String) (g : List (String × List Cell) → List (String × List Cell)) :
    shaped dates f F (names, false, some g) =
      ⟨if (g (names.map (fun c => (c, f c)))).all (fun p => decide (p.2 = [])) then [] else dates, none,
        g (names.map (fun c => (c, f c))), F⟩ := rfl

theorem keys_map (names : List String) (f : String → List Cell) :
    (names.map (fun c => (c, f c))).map Prod.fst = names := by
  rw [List.map_map]
  exact (List.map_congr_left (fun _ _ => rfl)).trans (List.map_id names)

theorem all_empty {dates : List Date} {f : String → List Cell} (hne : dates ≠ [])
    (hf : ∀ c, (f c).length = dates.length) (names : List String) :
    ((names.map (fun c => (c, f c))).all (fun p => decide (p.2 = [])) = true) ↔ names = [] := by
  have hfne : ∀ c, f c ≠ [] := fun c e => by
    have := hf c
    rw [e] at this
    exact hne (List.eq_nil_of_length_eq_zero this.symm)
  cases names with
  | nil => simp
  | cons c l => simp [hfne c]

theorem prepared_shape (src : InSource) (names : List String)
    (hfn : ∀ g, src.inputFn = some g → RowFn g) :
    ∃ r : Except InputErr Shape, (∀ q g, r = .ok q → q.2.2 = some g → src.inputFn = some g) ∧
      ∀ (dates : List Date) (f : String → List Cell)
      (F : Option (List (List Cell))), dates ≠ [] → (∀ c, (f c).length = dates.length) →
      (shaped dates f F (names, false, none)).prepared src = r.map (shaped dates f F) := by
  by_cases hn : names = []
  · refine ⟨.ok ([], true, none), by rintro q g h; cases h; simp, ?_⟩
    intro dates f F hne hf
    subst hn
    rw [shaped_none]
    unfold LagInput.prepared InSource.prepare
    simp [Except.map, shaped_none]
  rcases hfun : src.inputFn with _ | g
  · by_cases hi : src.indicators.all (fun i => i ∈ names) = true
    · refine ⟨.ok (src.indicators, decide (src.indicators = []), none), by rintro q g h; cases h; simp, ?_⟩
      intro dates f F hne hf
      rw [shaped_none]
      unfold LagInput.prepared InSource.prepare
      simp only [Bool.false_eq_true, if_false]
      rw [if_neg (fun h => hn ((all_empty hne hf names).1 h)), hfun]
      simp only
      rw [keys_map, if_pos hi]
      have hin : ∀ c ∈ src.indicators, c ∈ names := by simpa using hi
      rw [filterMap_get _ hin]
      simp only
      rw [if_neg (by simp [hf])]
      simp only [Except.map, shaped_none]
      by_cases he : src.indicators = []
      · rw [if_pos ((all_empty hne hf _).2 he)]
        simp [he]
      · rw [if_neg (fun h => he ((all_empty hne hf _).1 h))]
        simp [he]
    · refine ⟨.error .indicatorMissing, (by rintro q g h; cases h), ?_⟩
      intro dates f F hne hf
      rw [shaped_none]
      unfold LagInput.prepared InSource.prepare
      simp only [Bool.false_eq_true, if_false]
      rw [if_neg (fun h => hn ((all_empty hne hf names).1 h)), hfun]
      simp only
      rw [keys_map, if_neg hi]
      rfl
  · refine ⟨.ok (names, false, some g), by rintro q g' h; cases h; simp, ?_⟩
    intro dates f F hne hf
    have hall := (hfn g hfun dates.length (names.map (fun c => (c, f c)))
      (names.map (fun c => (c, f c))) (by simp [hf]) (by simp [hf])).1
    rw [shaped_none]
    unfold LagInput.prepared InSource.prepare
    simp only [Bool.false_eq_true, if_false]
    rw [if_neg (fun h => hn ((all_empty hne hf names).1 h)), hfun]
    simp only
    rw [if_neg (by
      intro hc
      obtain ⟨p, hp, hl⟩ := List.any_eq_true.1 hc
      exact (by simpa using hl : p.2.length ≠ dates.length) (hall p hp))]
    simp only [Except.map, shaped_some]

theorem finish_shape (src : InSource) (tm : InModel) (names : List String)
    (hfn : ∀ g, src.inputFn = some g → RowFn g) :
    ∃ r : Except InputErr Shape, (∀ q g, r = .ok q → q.2.2 = some g → src.inputFn = some g) ∧
      ∀ (dates : List Date) (f : String → List Cell)
      (F : Option (List (List Cell))), dates ≠ [] → (∀ c, (f c).length = dates.length) →
      finishInput src tm (shaped dates f F (names, false, none)) = r.map (shaped dates f F) := by
  unfold finishInput
  rcases tm.inputCols with _ | ic
  · exact prepared_shape src names hfn
  · by_cases hi : ic.all (fun c => c ∈ names) = true
    · have hin : ∀ c ∈ ic.eraseDups, c ∈ names := by
        intro c hc
        rw [List.mem_eraseDups] at hc
        exact (by simpa using hi : ∀ c ∈ ic, c ∈ names) c hc
      by_cases he : ic = [] ∨ src.inputFn.isSome = true
      · obtain ⟨r, hq, hr⟩ := prepared_shape src ic.eraseDups hfn
        refine ⟨r, hq, ?_⟩
        intro dates f F hne hf
        simp only
        rw [← hr dates f F hne hf, shaped_none, shaped_none]
        simp only [Bool.false_eq_true, if_false]
        rw [keys_map, if_pos hi, if_pos he, filterMap_get _ hin]
      · refine ⟨.ok (ic.eraseDups, false, none), by rintro q g h; cases h; simp, ?_⟩
        intro dates f F hne hf
        rw [shaped_none]
        simp only [Bool.false_eq_true, if_false]
        rw [keys_map, if_pos hi, if_neg he, filterMap_get _ hin]
        simp [Except.map, shaped_none]
    · refine ⟨.error .missingCol, (by rintro q g h; cases h), ?_⟩
      intro dates f F hne hf
      rw [shaped_none]
      simp only [Bool.false_eq_true, if_false]
      rw [keys_map, if_neg hi]
      rfl

/-- The input over a window with the given columns and lags. -/
def windowInput (rows : List DRow) (cols : List String) (win hwin : List Date)
    (data : String → Option Series) (sym : Sym) (q : Shape × Option (List String × Nat)) :
    LagInput :=
  shaped ((windowBars rows win sym).map DRow.date)
    (fun c => (windowBars rows win sym).map (fun r => inputCell cols data r c))
    (q.2.map (fun l => (windowBars rows win sym).map
      (pastRow cols data l.1 l.2 (windowBars rows hwin sym)))) q.1

theorem model_shape (ordered cols : List String) (src : InSource) (tm : InModel)
    (hfn : ∀ g, src.inputFn = some g → RowFn g) :
    ∃ r : Except InputErr (Shape × Option (List String × Nat)),
      (∀ q g, r = .ok q → q.1.2.2 = some g → src.inputFn = some g) ∧
      ∀ (rows : List DRow) (win hwin : List Date) (s : InScope) (sym : Sym) (name : String),
        s.ordered = ordered → s.sources name = some src → s.models name sym = some tm →
        (∀ i ∈ src.indicators, (s.ind.data i sym).isSome) → windowBars rows win sym ≠ [] →
        modelInput rows cols win hwin s sym name =
          r.map (windowInput rows cols win hwin (fun i => s.ind.data i sym) sym) := by
  have hfin := fun names => finish_shape src tm names hfn
  choose r hq hr using hfin
  have key : ∀ (bars H : List DRow) (data : String → Option Series) (names : List String)
      (lagCols : Option (List String)), bars ≠ [] →
      (match lagCols, src.lags with
        | some lc, some n =>
          if lc.all (fun c => c ∈ names) then
            finishInput src tm (shaped (bars.map DRow.date) (fun c => bars.map (fun r => inputCell cols data r c))
              (some (bars.map (pastRow cols data lc n H))) (names, false, none))
          else .error .missingLagCol
        | _, _ => finishInput src tm (shaped (bars.map DRow.date)
            (fun c => bars.map (fun r => inputCell cols data r c)) none (names, false, none))) =
      (match lagCols, src.lags with
        | some lc, some n =>
          if lc.all (fun c => c ∈ names) then (r names).map (fun q => (q, some (lc, n)))
          else .error .missingLagCol
        | _, _ => (r names).map (fun q => (q, none)) :
          Except InputErr (Shape × Option (List String × Nat))).map (fun q =>
          shaped (bars.map DRow.date) (fun c => bars.map (fun r => inputCell cols data r c))
            (q.2.map (fun l => bars.map (pastRow cols data l.1 l.2 H))) q.1) := by
    intro bars H data names lagCols hne
    have hd : bars.map DRow.date ≠ [] := by simpa using hne
    have hl : ∀ c, (bars.map (fun r => inputCell cols data r c)).length = (bars.map DRow.date).length := by
      simp
    rcases lagCols with _ | lc <;> rcases src.lags with _ | n <;> simp only
    · rw [hr names _ _ _ hd hl]
      cases r names <;> rfl
    · rw [hr names _ _ _ hd hl]
      cases r names <;> rfl
    · rw [hr names _ _ _ hd hl]
      cases r names <;> rfl
    · by_cases hc : lc.all (fun c => c ∈ names) = true
      · rw [if_pos hc, if_pos hc, hr names _ _ _ hd hl]
        cases r names <;> rfl
      · rw [if_neg hc, if_neg hc]
        rfl
  let defer : Bool := src.lags.isSome && tm.lagColumns.isNone && tm.inputCols.isNone
  let names := fun early => (neededCols ordered src tm early).filter (fun c => c = "date" ∨ c ∈ cols) ++
            src.indicators.eraseDups
  have hany : ∀ (data : String → Option Series), (∀ i ∈ src.indicators, (data i).isSome) →
      ¬ (src.indicators.any (fun i => (data i).isNone) = true) := by
    intro data hdata h
    obtain ⟨i, hi, hno⟩ := List.any_eq_true.1 h
    have := hdata i hi
    rw [Option.isNone_iff_eq_none] at hno
    rw [hno] at this
    cases this
  rcases h1 : (if defer then .ok none else resolveLagCols ordered src tm none :
      Except InputErr (Option (List String))) with e | early
  · refine ⟨.error e, (by rintro q g h; cases h), ?_⟩
    intro rows win hwin s sym name ho hsrc htm hdata hne
    unfold modelInput
    simp only
    rw [if_neg hne, hsrc, htm, ho]
    simp only [defer] at h1
    simp only
    rw [h1]
    rfl
  · rcases h2 : (if defer then resolveLagCols ordered src tm (some (names early)) else .ok early :
        Except InputErr (Option (List String))) with e | lagCols
    · refine ⟨.error e, (by rintro q g h; cases h), ?_⟩
      intro rows win hwin s sym name ho hsrc htm hdata hne
      unfold modelInput
      simp only
      rw [if_neg hne, hsrc, htm, ho]
      simp only [defer] at h1
      simp only [defer, names] at h2
      simp only
      rw [h1]
      simp only
      rw [if_neg (hany _ hdata), h2]
      rfl
    · refine ⟨match lagCols, src.lags with
        | some lc, some n =>
          if lc.all (fun c => c ∈ names early) then (r (names early)).map (fun q => (q, some (lc, n)))
          else .error .missingLagCol
        | _, _ => (r (names early)).map (fun q => (q, none)), ?_, ?_⟩
      · intro q g h hg
        have hmap : ∀ o, (r (names early)).map (fun q => (q, o)) = .ok q → src.inputFn = some g := by
          intro o ho
          rcases hrr : r (names early) with e | q'
          · rw [hrr] at ho; cases ho
          · rw [hrr] at ho
            have := Except.ok.inj ho
            subst this
            exact hq (names early) q' g hrr hg
        revert h
        rcases lagCols with _ | lc <;> rcases src.lags with _ | n <;> simp only
        · exact hmap _
        · exact hmap _
        · exact hmap _
        · split
          · exact hmap _
          · intro h; cases h
      intro rows win hwin s sym name ho hsrc htm hdata hne
      unfold modelInput
      simp only
      rw [if_neg hne, hsrc, htm, ho]
      simp only [defer] at h1
      simp only [defer, names] at h2
      simp only
      rw [h1]
      simp only
      rw [if_neg (hany _ hdata)]
      simp only [h2]
      have := key (windowBars rows win sym) (windowBars rows hwin sym) (fun i => s.ind.data i sym)
        (names early) lagCols hne
      revert this
      rcases lagCols with _ | lc <;> rcases src.lags with _ | n <;> exact fun this => this

theorem inputCell_same {t : Date} {rows rows' : List DRow} (hu : UniqueBars rows)
    (h : SameUpTo t rows rows') {ind : String → List DRow → List Cell} (hi : ∀ i, CausalInd (ind i))
    (cols : List String) (sym : Sym) {r : DRow} (hr : r.date ≤ t) (c : String) :
    inputCell cols (fun i => some (seriesOf (ind i) rows sym)) r c =
      inputCell cols (fun i => some (seriesOf (ind i) rows' sym)) r c := by
  unfold inputCell
  rw [cellOf_same hu h hi cols sym hr]

theorem pastRow_same {t : Date} {rows rows' : List DRow} (hu : UniqueBars rows)
    (h : SameUpTo t rows rows') {ind : String → List DRow → List Cell} (hi : ∀ i, CausalInd (ind i))
    (cols columns : List String) (lags : Nat) (hwin : List Date) (sym : Sym) {b : DRow} (hb : b.date ≤ t) :
    pastRow cols (fun i => some (seriesOf (ind i) rows sym)) columns lags (windowBars rows hwin sym) b =
      pastRow cols (fun i => some (seriesOf (ind i) rows' sym)) columns lags (windowBars rows' hwin sym) b := by
  unfold pastRow
  rw [same_early (windowBars_rel hu h hwin sym) hb]
  apply List.flatMap_congr
  intro c _
  apply List.map_congr_left
  intro k _
  rcases hg : ((windowBars rows' hwin sym).filter (fun r => decide (r.date ≤ b.date))).reverse[k]? with _ | r
  · rw [hg]
    rfl
  · rw [hg, Option.bind_some, Option.bind_some]
    have hm := List.mem_reverse.1 (List.mem_of_getElem? hg)
    exact inputCell_same hu h hi cols sym
      (le_trans (by simpa using (List.mem_filter.1 hm).2) hb) c

theorem all_nil_iff {n : Nat} (hn : 0 < n) {l : List (String × List Cell)}
    (h : ∀ p ∈ l, p.2.length = n) : l.all (fun p => decide (p.2 = [])) = true ↔ l = [] := by
  cases l with
  | nil => simp
  | cons a l =>
    have := h a (by simp)
    have hne : a.2 ≠ [] := by
      intro e
      rw [e] at this
      simp at this
      omega
    simp [hne]

/-- The inputs have as many rows. -/
theorem windowInput_dates {t : Date} {rows rows' : List DRow} (hu : UniqueBars rows)
    (h : SameUpTo t rows rows') (ind ind' : String → Option Series)
    (cols : List String) (win hwin : List Date) (sym : Sym) (q : Shape × Option (List String × Nat))
    (hg : ∀ g, q.1.2.2 = some g → RowFn g) :
    (windowInput rows cols win hwin ind sym q).dates = (windowInput rows' cols win hwin ind' sym q).dates := by
  have hrel := windowBars_rel hu h win sym
  have hd := same_dates hrel
  unfold windowInput shaped
  simp only
  rw [hd]
  rcases hq : q.1.2.2 with _ | g
  · simp
  · by_cases hne : windowBars rows win sym = []
    · have : windowBars rows' win sym = [] := by
        have := hrel.length_eq
        rw [hne] at this
        exact List.eq_nil_of_length_eq_zero this.symm
      rw [this]
      simp
    · have hn : 0 < (windowBars rows win sym).length := List.length_pos_iff.2 hne
      have hl := hrel.length_eq
      simp only [Option.getD_some]
      obtain ⟨k1, k2⟩ := hg g hq (windowBars rows win sym).length
        (q.1.1.map (fun c => (c, (windowBars rows win sym).map (fun r => inputCell cols ind r c))))
        (q.1.1.map (fun c => (c, (windowBars rows' win sym).map (fun r => inputCell cols ind' r c))))
        (by simp) (by simp [hl])
      obtain ⟨k3, _⟩ := hg g hq (windowBars rows win sym).length
        (q.1.1.map (fun c => (c, (windowBars rows' win sym).map (fun r => inputCell cols ind' r c))))
        (q.1.1.map (fun c => (c, (windowBars rows' win sym).map (fun r => inputCell cols ind' r c))))
        (by simp [hl]) (by simp [hl])
      have k0 := k2 0 (by simp)
      have hiff : g (q.1.1.map (fun c => (c, (windowBars rows win sym).map (fun r => inputCell cols ind r c)))) = [] ↔
          g (q.1.1.map (fun c => (c, (windowBars rows' win sym).map (fun r => inputCell cols ind' r c)))) = [] := by
        constructor
        · intro e
          rw [e] at k0
          exact List.map_eq_nil_iff.1 k0.symm
        · intro e
          rw [e] at k0
          exact List.map_eq_nil_iff.1 k0
      have hb := Bool.eq_iff_iff.2 ((all_nil_iff hn k1).trans (hiff.trans (all_nil_iff hn k3).symm))
      simp only [hb]

/-- The input up to a bar not after `t` is the same. -/
theorem windowInput_same {t : Date} {rows rows' : List DRow} (hu : UniqueBars rows)
    (h : SameUpTo t rows rows') {ind : String → List DRow → List Cell} (hi : ∀ i, CausalInd (ind i))
    (cols : List String) (win hwin : List Date) (sym : Sym)
    (q : Shape × Option (List String × Nat)) (hg : ∀ g, q.1.2.2 = some g → RowFn g) {m : Nat}
    (hm : ∀ r ∈ (windowBars rows win sym).take m, r.date ≤ t) :
    (windowInput rows cols win hwin (fun i => some (seriesOf (ind i) rows sym)) sym q).slice (some (m : Int)) =
      (windowInput rows' cols win hwin (fun i => some (seriesOf (ind i) rows' sym)) sym q).slice
        (some (m : Int)) := by
  have hrel := windowBars_rel hu h win sym
  have ht := same_take m hrel hm
  have hdates := windowInput_dates hu h (fun i => some (seriesOf (ind i) rows sym))
    (fun i => some (seriesOf (ind i) rows' sym)) cols win hwin sym q hg
  have hraw : (q.1.1.map (fun c => (c, (windowBars rows win sym).map
        (fun r => inputCell cols (fun i => some (seriesOf (ind i) rows sym)) r c)))).map
        (fun p => (p.1, p.2.take m)) =
      (q.1.1.map (fun c => (c, (windowBars rows' win sym).map
        (fun r => inputCell cols (fun i => some (seriesOf (ind i) rows' sym)) r c)))).map
        (fun p => (p.1, p.2.take m)) := by
    rw [List.map_map, List.map_map]
    apply List.map_congr_left
    intro c _
    simp only [Function.comp, Prod.mk.injEq, true_and]
    rw [← List.map_take, ← List.map_take, ← ht]
    apply List.map_congr_left
    intro r hr
    exact inputCell_same hu h hi cols sym (hm r hr) c
  have hcols : (windowInput rows cols win hwin (fun i => some (seriesOf (ind i) rows sym)) sym q).columns.map
        (fun p => (p.1, p.2.take m)) =
      (windowInput rows' cols win hwin (fun i => some (seriesOf (ind i) rows' sym)) sym q).columns.map
        (fun p => (p.1, p.2.take m)) := by
    unfold windowInput shaped
    simp only
    rcases hq : q.1.2.2 with _ | g
    · exact hraw
    · exact (hg g hq (windowBars rows win sym).length _ _ (by simp) (by
        have := hrel.length_eq
        simp [this])).2 m hraw
  have hfeat : (windowInput rows cols win hwin (fun i => some (seriesOf (ind i) rows sym)) sym q).features.map
        (fun f => f.take m) =
      (windowInput rows' cols win hwin (fun i => some (seriesOf (ind i) rows' sym)) sym q).features.map
        (fun f => f.take m) := by
    unfold windowInput shaped
    simp only
    rcases q.2 with _ | l
    · rfl
    · simp only [Option.map_some, Option.some.injEq]
      rw [← List.map_take, ← List.map_take, ← ht]
      apply List.map_congr_left
      intro r hr
      exact pastRow_same hu h hi cols l.1 l.2 hwin sym (hm r hr)
  unfold LagInput.slice
  simp only [sliceTo_nat, LagInput.mk.injEq]
  exact ⟨by rw [hdates], rfl, hcols, hfeat⟩

theorem slice_none (x : LagInput) : x.slice none = x := by
  obtain ⟨d, s, c, f⟩ := x
  unfold LagInput.slice sliceTo
  cases s <;> cases f <;> simp

/-- The predictions read on a bar are the same. -/
theorem predictions_same (hok : LearnerOK L) (name : String) (m : M) {x x' : LagInput} {n : Nat}
    (hlen : x.dates.length = x'.dates.length)
    (hs : ∀ j ≤ n, x.slice (some (j : Int)) = x'.slice (some (j : Int))) :
    L.predictions name m x n = L.predictions name m x' n := by
  unfold predictions
  by_cases hp : L.perBar name = true
  · rw [if_pos hp, if_pos hp]
    have : ∀ (l : List Nat), (∀ j ∈ l, j + 1 ≤ n) →
        l.mapM (fun j : Nat => lastPrediction (L.predict name m (x.slice (some ((j : Int) + 1)))) (j + 1)) =
        l.mapM (fun j : Nat => lastPrediction (L.predict name m (x'.slice (some ((j : Int) + 1)))) (j + 1)) := by
      intro l
      induction l with
      | nil => intro _; rfl
      | cons j l ih =>
        intro hl
        rw [List.mapM_cons, List.mapM_cons, ih (fun j hj => hl j (by simp [hj]))]
        have := hs (j + 1) (hl j (by simp))
        rw [Nat.cast_add, Nat.cast_one] at this
        rw [this]
    exact this _ (fun j hj => by rw [List.mem_range] at hj; omega)
  · have hp' : L.perBar name = false := by simpa using hp
    rw [if_neg hp, if_neg hp]
    obtain ⟨h1, h2⟩ := hok.rowwise name m hp' x
    obtain ⟨h3, _⟩ := hok.rowwise name m hp' x'
    rw [if_pos h1, if_pos h3, h2 x' n (hs n (le_refl n))]

/-! ## What is read on a bar -/

theorem stores_test {win : WFWindow} (hte : win.test ≠ []) :
    (L.stores win).test = some ((storeOf L.setup.cols L.setup.rows).slice
      (datesOfRows L.setup.dates win.test)) := by
  unfold stores
  rw [windowStores_test, if_neg hte]

theorem stores_train {win : WFWindow} (htr : win.train ≠ []) :
    (L.stores win).train = some ((storeOf L.setup.cols L.setup.rows).slice
      (datesOfRows L.setup.dates win.train)) := by
  unfold stores
  rw [windowStores_train, if_neg htr]

/-- The lagged columns of a pooled model. -/
theorem fittedPool_lagged (hok : LearnerOK L) {k : Nat} {win : WFWindow} (htr : win.train ≠ [])
    {name : String} {src : InSource} (hsrc : L.source name = some src) {sym : Sym} {m : M × InModel}
    (h : L.fittedPool k win name src sym = some m)
    {l : List String} (hl : m.2.lagColumns = some l) : l ≠ [] ∧ "date" ∉ l := by
  have hu := hok.setup.unique
  unfold fittedPool at h
  split at h
  swap
  · cases h
  rename_i hs
  split at h
  · cases h
  rename_i i hi
  obtain ⟨r, hr, rfl⟩ := Option.map_eq_some_iff.1 h
  simp only at hl
  have hne : Spec.bySymbol (L.group win name sym)
      (windowBars L.setup.rows (datesOfRows L.setup.dates win.train)) ≠ [] := by
    obtain ⟨r, hr⟩ := List.exists_mem_of_ne_nil _ (group_bars hs)
    exact List.ne_nil_of_mem (mem_pooled.2 ⟨sym, hs, hr⟩)
  have hdat : ∀ s ∈ L.group win name sym, HasData src.indicators (L.series s) :=
    fun s _ => hasData_series hu hok.causal s src.indicators
  unfold inputsPool at hi
  rw [stores_train htr] at hi
  simp only at hi
  rw [pooledInput_window hu (cols := L.setup.cols) (ordered := L.ordered) (group_nodup win name sym) hdat
    (datesOfRows L.setup.dates win.train)] at hi
  split at hi
  · rename_i x1 y1 e1 e2
    cases e1
    unfold laggedPool at hi
    split at hi
    · cases hi
      cases hl
    · split at hi
      · rename_i lc hh e3 e4
        split at hi
        · cases hi
        · cases hi
          simp only [Option.some.injEq] at hl
          subst hl
          obtain ⟨_, h2, h3⟩ := lagFeatureCols_spec e3 (hok.lags name)
          refine ⟨h3 ?_, h2⟩
          obtain ⟨c, c1, c2, c3, c4⟩ := hok.data
          refine ⟨c, c1, ?_, fun hc => ((hok.plain name src hsrc).2 c hc).1 c2, c3, c4⟩
          rw [pooledOf_names _ _ _ _ hne]
          exact mem_modelInputCols.2 (.inl ⟨c1, by simpa using c2⟩)
      · cases hi
  · cases hi

/-- The lagged columns of a model. -/
theorem fitted_lagged (hok : LearnerOK L) {k : Nat} {win : WFWindow} (htr : win.train ≠ [])
    {name : String} {sym : Sym} {m : M × InModel} (h : L.fitted k win name sym = some m)
    {l : List String} (hl : m.2.lagColumns = some l) : l ≠ [] ∧ "date" ∉ l := by
  have hu := hok.setup.unique
  unfold fitted at h
  split at h
  · cases h
  rename_i src hsrc
  split at h
  · exact fittedPool_lagged hok htr hsrc h hl
  unfold fittedOne at h
  split at h
  · cases h
  rename_i i hi
  obtain ⟨r, hr, rfl⟩ := Option.map_eq_some_iff.1 h
  simp only at hl
  unfold inputs at hi
  rw [stores_train htr] at hi
  simp only at hi
  obtain ⟨x, hx, hxd, _, hxc, _⟩ := symbolInput_window hu (cols := L.setup.cols)
    (ordered := L.ordered) (hasData_series hu hok.causal sym src.indicators) sym
    (datesOfRows L.setup.dates win.train)
  have hx' : symbolInput ((storeOf L.setup.cols L.setup.rows).slice
      (datesOfRows L.setup.dates win.train)) sym L.ordered src.indicators (L.series sym) = some x := hx
  rw [hx'] at hi
  split at hi
  · rename_i x1 y1 e1 e2
    cases e1
    split at hi
    · cases hi
    rename_i hne
    unfold lagged at hi
    split at hi
    · cases hi
      cases hl
    · split at hi
      · rename_i lc hh e3 e4
        split at hi
        · cases hi
        · cases hi
          simp only [Option.some.injEq] at hl
          subst hl
          obtain ⟨_, h2, h3⟩ := lagFeatureCols_spec e3 (hok.lags name)
          refine ⟨h3 ?_, h2⟩
          obtain ⟨c, c1, c2, c3, c4⟩ := hok.data
          refine ⟨c, c1, ?_, fun hc => ((hok.plain name src hsrc).2 c hc).1 c2, c3, c4⟩
          rw [hxc (by
            intro e
            rw [e] at hxd
            exact hne hxd)]
          exact mem_modelInputCols.2 (.inl ⟨c1, by simpa using c2⟩)
      · cases hi
  · cases hi

theorem scope_backtest (hok : LearnerOK L) {k : Nat} {win : WFWindow} (htr : win.train ≠ [])
    (hte : win.test ≠ []) (hf : WindowFacts L.setup.dates win) :
    InBacktest L.setup.rows L.setup.cols (datesOfRows L.setup.dates win.test)
      (histDates L.setup.dates win)
      (L.scope k win ((storeOf L.setup.cols L.setup.rows).slice (datesOfRows L.setup.dates win.test))) := by
  have hu := hok.setup.unique
  have hh : (L.stores win).history = some ((storeOf L.setup.cols L.setup.rows).slice
      (histDates L.setup.dates win)) := by
    unfold stores
    rw [windowStores_history _ _ _ htr hte]
  refine ⟨hu, rfl, ?_, ?_, ?_, hok.ordered, ?_, ?_, fun _ _ => Iff.rfl, ?_, ?_, ⟨rfl, rfl, rfl, rfl, rfl⟩⟩
  · unfold scope
    rw [hh]
    rfl
  · exact fun r hr => hf.test_in _ (row_date hr)
  · exact fun a ha b hb _ h1 h2 h3 => hf.test_up _ (row_date ha) _ (row_date hb) h1 h2 h3
  · intro i sym ser hser
    cases hser
    exact seriesOf_sorted hu (hok.causal i) sym
  · intro i sym ser _ hser d
    cases hser
    have := seriesOf_dates (hok.causal i) L.setup.rows sym
    unfold seriesOf at this
    rw [this, List.mem_map]
    constructor
    · rintro ⟨r, hr, rfl⟩
      have := List.mem_filter.1 ((symRows_perm L.setup.rows sym).mem_iff.1 hr)
      exact ⟨r, this.1, by simpa using this.2, rfl⟩
    · rintro ⟨r, h1, h2, rfl⟩
      exact ⟨r, (symRows_perm L.setup.rows sym).mem_iff.2 (List.mem_filter.2 ⟨h1, by simpa using h2⟩), rfl⟩
  · intro name src hsrc i hi
    exact ⟨rfl, (hok.plain name src hsrc).2 i hi⟩
  · intro name sym tm l h1 h2
    obtain ⟨m, hm, rfl⟩ := Option.map_eq_some_iff.1 h1
    exact fitted_lagged hok htr hm h2

/-- Without training data there is no model. -/
theorem fitted_none {k : Nat} {win : WFWindow} (htr : win.train = []) (name : String) (sym : Sym) :
    L.fitted k win name sym = none := by
  have : (L.stores win).train = none := by
    unfold stores
    rw [windowStores_train, if_pos htr]
  unfold fitted fittedPool fittedOne inputsPool inputs
  rw [this]
  split
  · rfl
  · simp

theorem on_ok {t : Date} (hok : LearnerOK L) {rows' : List DRow}
    (h : SameUpTo t L.setup.rows rows') : LearnerOK (L.on rows') :=
  ⟨⟨same_unique h hok.setup.unique, hok.setup.buyDelay, hok.setup.sellDelay, hok.setup.size,
    hok.setup.iter, hok.setup.shuffle⟩, hok.ordered, hok.data, hok.causal, hok.plain, hok.lags, hok.blind,
    hok.blindPool, hok.rowwise⟩

/-- The predictions read on a bar not after `t` are the same. -/
theorem read_same {t : Date} (hok : LearnerOK L) {rows' : List DRow}
    (h : SameUpTo t L.setup.rows rows') {win : WFWindow} (hte : win.test ≠ [])
    (hf : win.train ≠ [] → WindowFacts L.setup.dates win)
    (k : Nat) (execs : List Sym) {d : Date} (hd : d ∈ datesOfRows L.setup.dates win.test) (hdt : d ≤ t)
    (name : String) (sym : Sym) :
    L.read k win execs d name sym = (L.on rows').read k win execs d name sym := by
  have hu := hok.setup.unique
  have hdd := dates_on h
  by_cases htr : win.train = []
  · unfold read
    rw [fitted_none htr, fitted_none htr]
    rcases (L.stores win).test <;> rcases ((L.on rows').stores win).test <;> rfl
  have hf := hf htr
  have hf' : WindowFacts (L.on rows').setup.dates win := by rw [hdd]; exact hf
  have hle : ∀ a ∈ datesOfRows L.setup.dates win.train, a ≤ t :=
    fun a ha => le_trans (hf.order a ha d hd).le hdt
  have hok' := on_ok hok h
  have hb := scope_backtest hok (k := k) htr hte hf
  have hb' := scope_backtest hok' (k := k) htr hte hf'
  have hfit := fitted_same hok h htr hte hf hle k name sym
  have e2' := stores_test (L := L.on rows') hte
  rw [hdd] at e2' hb'
  unfold read
  rw [stores_test hte, e2', ← hfit]
  rcases hm : L.fitted k win name sym with _ | m
  · rfl
  simp only
  have r1 := model_input_cached hb [] L.junk sym name none
  have r2 := model_input_cached hb' [] L.junk sym name none
  have hsrc : ∃ src, L.source name = some src := by
    unfold fitted at hm
    split at hm
    · cases hm
    · exact ⟨_, by assumption⟩
  obtain ⟨src, hsrc⟩ := hsrc
  obtain ⟨r, hq, hr⟩ := model_shape L.ordered L.setup.cols src m.2 (hok.plain name src hsrc).1
  have hrel := windowBars_rel hu h (datesOfRows L.setup.dates win.test) sym
  have hidx : endIndexes (symExecDates ((storeOf L.setup.cols rows').slice
        (datesOfRows L.setup.dates win.test)) execs)
      ((storeOf L.setup.cols rows').slice (datesOfRows L.setup.dates win.test)).uniqueDates
      (((storeOf L.setup.cols rows').slice (datesOfRows L.setup.dates win.test)).uniqueDates.filter
        (· ≤ d)) sym = L.setup.idxOn (datesOfRows L.setup.dates win.test) execs d sym := by
    have hsh := slice_shape (storeOf_shape h L.setup.cols) (datesOfRows L.setup.dates win.test)
    unfold RunSetup.idxOn RunSetup.store
    rw [shape_uniqueDates hsh, shape_execDates hsh]
  have hearly := RunSetup.idx_early (x := L.setup) hu (datesOfRows L.setup.dates win.test) execs hdt sym
  have hbars : ∀ j ≤ L.setup.idxOn (datesOfRows L.setup.dates win.test) execs d sym,
      ∀ b ∈ (windowBars L.setup.rows (datesOfRows L.setup.dates win.test) sym).take j, b.date ≤ t := by
    intro j hj b hb
    refine hearly b.date ?_
    unfold RunSetup.barsOn
    rw [← windowBars_eq hu, ← List.map_take]
    exact List.mem_map.2 ⟨b, (List.take_prefix_take_left hj).subset hb, rfl⟩
  have n1 : ((L.scope k win ((storeOf L.setup.cols L.setup.rows).slice
      (datesOfRows L.setup.dates win.test))).fetch L.junk sym name none).1 =
      (modelInput L.setup.rows L.setup.cols (datesOfRows L.setup.dates win.test)
        (histDates L.setup.dates win) (L.scope k win ((storeOf L.setup.cols L.setup.rows).slice
          (datesOfRows L.setup.dates win.test))) sym name).map (fun x => x.slice none) := r1
  have n2 : (((L.on rows').scope k win ((storeOf L.setup.cols rows').slice
      (datesOfRows L.setup.dates win.test))).fetch (L.on rows').junk sym name none).1 =
      (modelInput rows' L.setup.cols (datesOfRows L.setup.dates win.test)
        (histDates L.setup.dates win) ((L.on rows').scope k win ((storeOf L.setup.cols rows').slice
          (datesOfRows L.setup.dates win.test))) sym name).map (fun x => x.slice none) := r2
  have hon : (storeOf (L.on rows').setup.cols (L.on rows').setup.rows).slice
      (datesOfRows L.setup.dates win.test) = (storeOf L.setup.cols rows').slice
      (datesOfRows L.setup.dates win.test) := rfl
  rw [hon, n1, n2, hidx]
  by_cases hne : windowBars L.setup.rows (datesOfRows L.setup.dates win.test) sym = []
  · have hne' : windowBars rows' (datesOfRows L.setup.dates win.test) sym = [] := by
      have := hrel.length_eq
      rw [hne] at this
      exact List.eq_nil_of_length_eq_zero this.symm
    unfold modelInput
    simp only
    rw [if_pos hne, if_pos hne']
    rfl
  · have hne' : windowBars rows' (datesOfRows L.setup.dates win.test) sym ≠ [] := by
      intro e
      have := hrel.length_eq
      rw [e] at this
      exact hne (List.eq_nil_of_length_eq_zero this)
    have m1 := hr L.setup.rows (datesOfRows L.setup.dates win.test) (histDates L.setup.dates win)
      (L.scope k win ((storeOf L.setup.cols L.setup.rows).slice (datesOfRows L.setup.dates win.test)))
      sym name rfl hsrc (by
        show (L.fitted k win name sym).map Prod.snd = _
        rw [hm]
        rfl) (fun _ _ => rfl) hne
    have m2 := hr rows' (datesOfRows L.setup.dates win.test) (histDates L.setup.dates win)
      ((L.on rows').scope k win ((storeOf L.setup.cols rows').slice (datesOfRows L.setup.dates win.test)))
      sym name rfl hsrc (by
        show ((L.on rows').fitted k win name sym).map Prod.snd = _
        rw [← hfit, hm]
        rfl) (fun _ _ => rfl) hne'
    rw [m1, m2]
    rcases r with e | q
    · rfl
    · simp only [Except.map, slice_none]
      have hrow : ∀ g, q.1.2.2 = some g → RowFn g :=
        fun g hg => (hok.plain name src hsrc).1 g (hq q g rfl hg)
      refine predictions_same hok name m.1 ?_ ?_
      · exact congrArg List.length (windowInput_dates hu h _ _ _ _ _ sym q hrow)
      · intro j hj
        exact windowInput_same hu h hok.causal L.setup.cols _ _ sym q hrow (hbars j hj)

theorem preds_same {t : Date} (hok : LearnerOK L) {rows' : List DRow}
    (h : SameUpTo t L.setup.rows rows') (k : Nat) {d : Date} (hdt : d ≤ t) :
    (L.on rows').preds k d = L.preds k d := by
  have hdd := dates_on h
  funext name sym
  unfold preds
  have hw : walkforwardSplit (L.on rows').setup.dates (L.on rows').setup.windows
      (L.on rows').setup.lookahead (L.on rows').setup.trainSize (L.on rows').setup.shuffle =
      walkforwardSplit L.setup.dates L.setup.windows L.setup.lookahead L.setup.trainSize
        L.setup.shuffle := by
    rw [hdd]
    rfl
  rw [hw, hdd]
  rcases hwins : walkforwardSplit L.setup.dates L.setup.windows L.setup.lookahead L.setup.trainSize
      L.setup.shuffle with e | wins
  · rfl
  simp only
  rcases hk : wins[k]? with _ | win
  · rfl
  simp only
  by_cases hd : d ∈ datesOfRows L.setup.dates win.test
  · rw [if_pos hd, if_pos hd]
    have hrows : (L.on rows').setup.rowsAt win.train = L.setup.rowsAt win.train :=
      RunSetup.train_same (x := L.setup) (act' := L.setup.act) (orderSlip' := L.setup.orderSlip)
        (exitSlip' := L.setup.exitSlip) hok.setup h hwins hk ⟨d, hd, hdt⟩
    have hex : (L.on rows').setup.execs = L.setup.execs := rfl
    rw [hrows, hex]
    rcases windowExecutions (fun d : List DRow => (d.map DRow.symbol).dedup) List.isEmpty
        L.setup.execs (L.setup.rowsAt win.train) with e | es
    · rfl
    simp only
    obtain ⟨i, hi, hid⟩ := mem_datesOfRows.1 hd
    have hte : win.test ≠ [] := List.ne_nil_of_mem hi
    have hne : L.setup.dates ≠ [] := List.ne_nil_of_mem (List.mem_of_getElem? hid)
    exact (read_same hok h hte (fun htr => window_facts hok.setup.shuffle hok.setup.size.1
      hok.setup.size.2 hwins (List.mem_of_getElem? hk) htr hte hne) k _ hd hdt name sym).symm
  · rw [if_neg hd, if_neg hd]

end Learner

/-- **C151** (partial: the condition of C100 on symbols that are dropped; training functions do not use
the test data they are given, see `training_sees_ahead`; input functions are row by row, see
`input_function_sees_ahead`; no pretrained models, for which see C162).  A strategy trains models in
each window, one for each symbol or one for the symbols of an execution, and its functions read bars and
predictions.  On data that differs only after `t`, it goes through the same portfolio, pending orders and attempts on
every bar up to `t`. -/
theorem no_lookahead_models_partial {M : Type} {L : Learner M} (hok : LearnerOK L) {t : Date}
    {rows' : List DRow} (hrows : SameUpTo t L.setup.rows rows') {st st' : RunSetup.State}
    (h : L.toRun.run = .ok st) (h' : (L.on rows').toRun.run = .ok st')
    (hdrop : (L.setup.selects = false ∧ ResultsOK st.results) ∨ Prompt L.setup t) :
    st.trace.filter (fun e => e.1 ≤ t) = st'.trace.filter (fun e => e.1 ≤ t) := by
  have hok' : SetupOK L.toRun :=
    ⟨hok.setup.unique, hok.setup.buyDelay, hok.setup.sellDelay, hok.setup.size, hok.setup.iter,
      hok.setup.shuffle⟩
  refine no_lookahead_partial (x := L.toRun) hok' (rows' := rows') (act' := (L.on rows').toRun.act)
    (orderSlip' := L.setup.orderSlip) (exitSlip' := L.setup.exitSlip) hrows ?_ (fun _ _ _ => rfl)
    (fun _ _ _ => rfl) h h' hdrop
  intro k d hd
  show L.user k d ((L.on rows').preds k d) = L.user k d (L.preds k d)
  rw [Learner.preds_same hok hrows k hd]

/-! ## Examples -/

namespace Demo

/-- One symbol on dates 1 to 6; the last price is `p`. -/
def lnRows (p : ℚ) : List DRow :=
  [drRow "AAA" 1 100, drRow "AAA" 2 101, drRow "AAA" 3 102, drRow "AAA" 4 104, drRow "AAA" 5 105,
   drRow "AAA" 6 p]

/-- The last close of an input. -/
def lnLast (x : LagInput) : ℚ := (((cacheGet x.columns "close").getD []).getLastD none).getD 0

/-- Predicts how far the mean of the lagged closes is above `m`, twice. -/
def lnPredict (m : ℚ) (x : LagInput) : List Cell :=
  (List.range x.dates.length).map (fun i =>
    (x.features.bind (fun f => f[i]?)).map (fun row => (row.map (fun c => c.getD 0)).sum - 2 * m))

/-- Trains on the first three dates and buys on date 4 if the model says so.  `use` picks the
number the model is made of. -/
def lnRun (use : LagInput → LagInput → ℚ) : Learner ℚ where
  setup :=
    { cfg := { cash := 10000 }, cols := ["open", "high", "low", "close"], rows := lnRows 106
      execs := [⟨1, .fixed ["AAA"]⟩], trainSize := 1 / 2, act := fun _ _ _ _ _ => ([], fun _ => none) }
  ordered := ["date", "open", "high", "low", "close"]
  ind _ := sum2
  source name := if name = "m" then some ⟨["sum2"], some 1, false, none⟩ else none
  lagCols _ := ["close"]
  fit _ _ _ x y := some (use x y, some ["close"])
  predict _ m x := lnPredict m x
  user _ d preds _ _ _ := ([], fun s =>
    match preds "m" s with
    | some l => if d = 4 ∧ 0 < (l.getLastD none).getD 0 then
        some { symbol := s, date := d, buyShares := some 10 } else none
    | none => none)

theorem lnPredict_rows (m : ℚ) (x : LagInput) : (lnPredict m x).length = x.dates.length ∧
    ∀ (y : LagInput) (n : Nat), x.slice (some (n : Int)) = y.slice (some (n : Int)) →
      (lnPredict m x).take n = (lnPredict m y).take n := by
  refine ⟨by simp [lnPredict], ?_⟩
  intro y n h
  have h1 := congrArg LagInput.dates h
  have h2 := congrArg LagInput.features h
  simp only [LagInput.slice, sliceTo_nat] at h1 h2
  have h3 := congrArg List.length h1
  rw [List.length_take, List.length_take] at h3
  unfold lnPredict
  rw [← List.map_take, ← List.map_take, List.take_range, List.take_range, h3]
  apply List.map_congr_left
  intro i hi
  have hin : i < n := lt_of_lt_of_le (List.mem_range.1 hi) (min_le_left _ _)
  congr 1
  rcases hx : x.features with _ | f <;> rcases hy : y.features with _ | g <;> rw [hx, hy] at h2
  · cases h2
  · cases h2
  · simp only [Option.map_some, Option.some.injEq] at h2
    rw [Option.bind_some, Option.bind_some, ← List.getElem?_take_of_lt hin, h2,
      List.getElem?_take_of_lt hin]

theorem lnRun_ok : LearnerOK (lnRun (fun x _ => lnLast x)) where
  setup := ⟨by show UniqueBars (lnRows 106); unfold UniqueBars lnRows; decide +kernel, le_refl 1,
    le_refl 1, by norm_num [lnRun], fun l => List.Perm.refl l, fun l => List.Perm.refl l⟩
  ordered := by show (["date", "open", "high", "low", "close"] : List String).Nodup; decide
  data := ⟨"close", by show "close" ∈ ["date", "open", "high", "low", "close"]; decide,
    by show "close" ∈ ["open", "high", "low", "close"]; decide, by decide, by decide⟩
  causal _ := sum2_causal
  plain name src h := by
    by_cases hn : name = "m"
    · simp only [lnRun, if_pos hn, Option.some.injEq] at h
      subst h
      exact ⟨(fun _ h => nomatch h), by decide⟩
    · simp only [lnRun, if_neg hn, reduceCtorEq] at h
  lags _ := by show "date" ∉ ["close"]; decide
  blind _ _ _ _ _ _ := rfl
  blindPool _ _ _ _ _ _ := rfl
  rowwise _ m _ x := lnPredict_rows m x

theorem ln_same (p : ℚ) : SameUpTo 5 (lnRows 106) (lnRows p) :=
  same_rows 5 [("AAA", 1, 100, 100), ("AAA", 2, 101, 101), ("AAA", 3, 102, 102), ("AAA", 4, 104, 104),
    ("AAA", 5, 105, 105), ("AAA", 6, 106, p)] (by
      intro e he
      simp only [List.mem_cons, List.not_mem_nil, or_false] at he
      rcases he with rfl | rfl | rfl | rfl | rfl | rfl <;> simp)

/-- The cash on the dates up to 5. -/
def lnCash (L : Learner ℚ) : List (Date × ℚ) :=
  ((drEnd L.toRun).trace.filter (fun e => e.1 ≤ 5)).map (fun e => (e.1, e.2.pf.cash))

end Demo

/-- A model trained on dates 1 to 3 predicts on date 4; the order it leads to is filled on date 5. -/
example := no_lookahead_models_partial Demo.lnRun_ok (t := 5) (rows' := Demo.lnRows 30) (Demo.ln_same 30)
  (st := Demo.drEnd (Demo.lnRun (fun x _ => Demo.lnLast x)).toRun)
  (st' := Demo.drEnd ((Demo.lnRun (fun x _ => Demo.lnLast x)).on (Demo.lnRows 30)).toRun)
  (Demo.ok_okR (by decide +kernel)) (Demo.ok_okR (by decide +kernel))
  (Or.inl ⟨rfl, by
    have : (∀ r ∈ (Demo.drEnd (Demo.lnRun (fun x _ => Demo.lnLast x)).toRun).results,
      (∀ st ∈ r.longStops, st.posType = .long ∧ st.symbol = r.symbol) ∧
      ∀ st ∈ r.shortStops, st.posType = .short ∧ st.symbol = r.symbol) ∧
      (∀ r ∈ (Demo.drEnd (Demo.lnRun (fun x _ => Demo.lnLast x)).toRun).results,
        r.buyShares = none ∨ r.sellShares = none) ∧
      (((Demo.drEnd (Demo.lnRun (fun x _ => Demo.lnLast x)).toRun).results.flatMap
        (fun r => r.longStops ++ r.shortStops)).map Stop.id).Nodup := by decide +kernel
    exact ⟨this.1, this.2.1, this.2.2⟩⟩)

example : Demo.lnCash (Demo.lnRun (fun x _ => Demo.lnLast x)) = [(4, 10000), (5, 8950)] := by
  decide +kernel

/-- **C151, where the code falls short.**  A training function is given the test data of its window
as well.  A model made from it carries prices of later bars to earlier ones: here the price of date
6 decides whether the run buys on date 5. -/
theorem training_sees_ahead :
    SameUpTo 5 (Demo.lnRun (fun _ y => Demo.lnLast y)).setup.rows (Demo.lnRows 30) ∧
    Demo.lnCash (Demo.lnRun (fun _ y => Demo.lnLast y)) = [(4, 10000), (5, 10000)] ∧
    Demo.lnCash ((Demo.lnRun (fun _ y => Demo.lnLast y)).on (Demo.lnRows 30)) =
      [(4, 10000), (5, 8950)] :=
  ⟨Demo.ln_same 30, by decide +kernel, by decide +kernel⟩

/-- A strategy whose model gives every row the last close of its input. -/
def Demo.lnWhole (perBar : Bool) : Learner ℚ :=
  { Demo.lnRun (fun x _ => Demo.lnLast x) with
    perBar := fun _ => perBar
    predict := fun _ _ x => List.replicate x.dates.length (some (103 - Demo.lnLast x)) }

/-- **C151, C42, where the code falls short.**  A model that is not `per_bar` predicts the whole test
window at once: one whose predictions are not row by row sees later bars.  With `per_bar` it does
not. -/
theorem model_window_sees_ahead :
    Demo.lnCash (Demo.lnWhole false) = [(4, 10000), (5, 10000)] ∧
    Demo.lnCash ((Demo.lnWhole false).on (Demo.lnRows 30)) = [(4, 10000), (5, 8950)] ∧
    Demo.lnCash (Demo.lnWhole true) = [(4, 10000), (5, 10000)] ∧
    Demo.lnCash ((Demo.lnWhole true).on (Demo.lnRows 30)) = [(4, 10000), (5, 10000)] := by
  decide +kernel

/-! ## Input functions -/

namespace Demo

/-- The closes of an input less `k m`. -/
def lnClose (k : ℚ → ℚ) (m : ℚ) (x : LagInput) : List Cell :=
  (List.range x.dates.length).map (fun i =>
    (((cacheGet x.columns "close").getD [])[i]?.join).map (fun c => c - k m))

/-- A strategy whose model has an `input_data_fn`. -/
def lnFn (f : List (String × List Cell) → List (String × List Cell)) (k : ℚ → ℚ) (perBar : Bool) :
    Learner ℚ :=
  { lnRun (fun x _ => lnLast x) with
    source := fun name => if name = "m" then some ⟨["sum2"], none, false, some f⟩ else none
    perBar := fun _ => perBar
    predict := fun _ m x => lnClose k m x }

/-- Doubles each cell. -/
def lnDouble (df : List (String × List Cell)) : List (String × List Cell) :=
  df.map (fun p => (p.1, p.2.map (fun c => c.map (2 * ·))))

/-- Subtracts the mean of each column. -/
def lnCentre (df : List (String × List Cell)) : List (String × List Cell) :=
  df.map (fun p => (p.1, p.2.map (fun c => c.map (· - (p.2.map (fun c => c.getD 0)).sum / p.2.length))))

theorem lnDouble_rows : RowFn lnDouble := by
  intro n df df' h h'
  refine ⟨?_, ?_⟩
  · intro p hp
    obtain ⟨q, hq, rfl⟩ := List.mem_map.1 hp
    simpa using h q hq
  · intro m hm
    have e : ∀ l : List (String × List Cell), (lnDouble l).map (fun p => (p.1, p.2.take m)) =
        lnDouble (l.map (fun p => (p.1, p.2.take m))) := by
      intro l
      unfold lnDouble
      simp [List.map_map, Function.comp_def, List.map_take]
    rw [e, e, hm]

theorem cacheGet_take (m : Nat) (c : String) (l : List (String × List Cell)) :
    ((cacheGet (l.map (fun p => (p.1, p.2.take m))) c).getD []) = ((cacheGet l c).getD []).take m := by
  induction l with
  | nil => simp [cacheGet]
  | cons a l ih =>
    rw [List.map_cons]
    simp only [cacheGet]
    by_cases h : a.1 = c
    · simp [h]
    · rw [if_neg h, if_neg h, ih]

theorem lnClose_rows (k : ℚ → ℚ) (m : ℚ) (x : LagInput) : (lnClose k m x).length = x.dates.length ∧
    ∀ (y : LagInput) (n : Nat), x.slice (some (n : Int)) = y.slice (some (n : Int)) →
      (lnClose k m x).take n = (lnClose k m y).take n := by
  refine ⟨by simp [lnClose], ?_⟩
  intro y n h
  have h1 := congrArg LagInput.dates h
  have h2 := congrArg LagInput.columns h
  simp only [LagInput.slice, sliceTo_nat] at h1 h2
  have h3 := congrArg List.length h1
  rw [List.length_take, List.length_take] at h3
  have h4 := congrArg (fun l => (cacheGet l "close").getD []) h2
  simp only [cacheGet_take] at h4
  unfold lnClose
  rw [← List.map_take, ← List.map_take, List.take_range, List.take_range, h3]
  apply List.map_congr_left
  intro i hi
  have hin : i < n := lt_of_lt_of_le (List.mem_range.1 hi) (min_le_left _ _)
  rw [← List.getElem?_take_of_lt hin, h4, List.getElem?_take_of_lt hin]

theorem lnFn_ok : LearnerOK (lnFn lnDouble (2 * ·) false) where
  setup := lnRun_ok.setup
  ordered := lnRun_ok.ordered
  data := lnRun_ok.data
  causal _ := sum2_causal
  plain name src h := by
    by_cases hn : name = "m"
    · simp only [lnFn, if_pos hn, Option.some.injEq] at h
      subst h
      refine ⟨?_, by decide⟩
      intro f hf
      cases hf
      exact lnDouble_rows
    · simp only [lnFn, if_neg hn, reduceCtorEq] at h
  lags := lnRun_ok.lags
  blind _ _ _ _ _ _ := rfl
  blindPool _ _ _ _ _ _ := rfl
  rowwise _ m _ x := lnClose_rows _ m x

end Demo

/-- A model with an input function that doubles its input. -/
example := no_lookahead_models_partial Demo.lnFn_ok (t := 5) (rows' := Demo.lnRows 30) (Demo.ln_same 30)
  (st := Demo.drEnd (Demo.lnFn Demo.lnDouble (2 * ·) false).toRun)
  (st' := Demo.drEnd ((Demo.lnFn Demo.lnDouble (2 * ·) false).on (Demo.lnRows 30)).toRun)
  (Demo.ok_okR (by decide +kernel)) (Demo.ok_okR (by decide +kernel))
  (Or.inl ⟨rfl, by
    have : (∀ r ∈ (Demo.drEnd (Demo.lnFn Demo.lnDouble (2 * ·) false).toRun).results,
      (∀ st ∈ r.longStops, st.posType = .long ∧ st.symbol = r.symbol) ∧
      ∀ st ∈ r.shortStops, st.posType = .short ∧ st.symbol = r.symbol) ∧
      (∀ r ∈ (Demo.drEnd (Demo.lnFn Demo.lnDouble (2 * ·) false).toRun).results,
        r.buyShares = none ∨ r.sellShares = none) ∧
      (((Demo.drEnd (Demo.lnFn Demo.lnDouble (2 * ·) false).toRun).results.flatMap
        (fun r => r.longStops ++ r.shortStops)).map Stop.id).Nodup := by decide +kernel
    exact ⟨this.1, this.2.1, this.2.2⟩⟩)

example : Demo.lnCash (Demo.lnFn Demo.lnDouble (2 * ·) false) = [(4, 10000), (5, 8950)] := by
  decide +kernel

/-- **C151, where the code falls short.**  An `input_data_fn` is given the whole test window, also for a
`per_bar` model.  One that is not row by row, such as one that subtracts the mean of a column, carries
prices of later bars to earlier ones: here the price of date 6 decides whether the run buys on date
5. -/
theorem input_function_sees_ahead (perBar : Bool) :
    SameUpTo 5 (Demo.lnFn Demo.lnCentre (fun _ => 0) perBar).setup.rows (Demo.lnRows 30) ∧
    Demo.lnCash (Demo.lnFn Demo.lnCentre (fun _ => 0) perBar) = [(4, 10000), (5, 10000)] ∧
    Demo.lnCash ((Demo.lnFn Demo.lnCentre (fun _ => 0) perBar).on (Demo.lnRows 30)) =
      [(4, 10000), (5, 8950)] := by
  cases perBar <;> exact ⟨Demo.ln_same 30, by decide +kernel, by decide +kernel⟩

/-! ## A pooled model -/

namespace Demo

/-- Two symbols on dates 1 to 6; the last price of `AAA` is `p`. -/
def lnTwo (p : ℚ) : List DRow :=
  [drRow "BBB" 1 210, drRow "AAA" 1 100, drRow "AAA" 2 101, drRow "BBB" 2 205, drRow "AAA" 3 102,
   drRow "BBB" 3 200, drRow "AAA" 4 104, drRow "BBB" 4 190, drRow "AAA" 5 105, drRow "BBB" 5 180,
   drRow "AAA" 6 p, drRow "BBB" 6 170]

/-- The mean close of an input. -/
def lnMean (x : LagInput) : ℚ :=
  ((((cacheGet x.columns "close").getD []).map (fun c => c.getD 0)).sum) / x.dates.length

/-- A pooled model of both symbols, trained on the first three dates. -/
def lnPool (use : LagInput → LagInput → ℚ) : Learner ℚ where
  setup :=
    { cfg := { cash := 10000 }, cols := ["open", "high", "low", "close"], rows := lnTwo 106
      execs := [⟨1, .fixed ["BBB", "AAA"]⟩], trainSize := 1 / 2
      act := fun _ _ _ _ _ => ([], fun _ => none) }
  ordered := ["date", "open", "high", "low", "close"]
  ind _ := sum2
  source name := if name = "m" then some ⟨["sum2"], some 1, true, none⟩ else none
  lagCols _ := ["close"]
  fit _ _ _ _ _ := none
  models id := if id = 1 then ["m"] else []
  fitPool _ _ _ x y := some (use x y, some ["close"])
  predict _ m x := lnPredict m x
  user _ d preds _ _ _ := ([], fun s =>
    match preds "m" s with
    | some l => if d = 4 ∧ 0 < (l.getLastD none).getD 0 then
        some { symbol := s, date := d, buyShares := some 10 } else none
    | none => none)

theorem lnPool_ok : LearnerOK (lnPool (fun x _ => lnMean x)) where
  setup := ⟨by show UniqueBars (lnTwo 106); unfold UniqueBars lnTwo; decide +kernel, le_refl 1,
    le_refl 1, by norm_num [lnPool], fun l => List.Perm.refl l, fun l => List.Perm.refl l⟩
  ordered := by show (["date", "open", "high", "low", "close"] : List String).Nodup; decide
  data := ⟨"close", by show "close" ∈ ["date", "open", "high", "low", "close"]; decide,
    by show "close" ∈ ["open", "high", "low", "close"]; decide, by decide, by decide⟩
  causal _ := sum2_causal
  plain name src h := by
    by_cases hn : name = "m"
    · simp only [lnPool, if_pos hn, Option.some.injEq] at h
      subst h
      exact ⟨(fun _ h => nomatch h), by decide⟩
    · simp only [lnPool, if_neg hn, reduceCtorEq] at h
  lags _ := by show "date" ∉ ["close"]; decide
  blind _ _ _ _ _ _ := rfl
  blindPool _ _ _ _ _ _ := rfl
  rowwise _ m _ x := lnPredict_rows m x

theorem lnTwo_same (p : ℚ) : SameUpTo 5 (lnTwo 106) (lnTwo p) :=
  same_rows 5 [("BBB", 1, 210, 210), ("AAA", 1, 100, 100), ("AAA", 2, 101, 101), ("BBB", 2, 205, 205),
    ("AAA", 3, 102, 102), ("BBB", 3, 200, 200), ("AAA", 4, 104, 104), ("BBB", 4, 190, 190),
    ("AAA", 5, 105, 105), ("BBB", 5, 180, 180), ("AAA", 6, 106, p), ("BBB", 6, 170, 170)] (by
      intro e he
      simp only [List.mem_cons, List.not_mem_nil, or_false] at he
      rcases he with rfl | rfl | rfl | rfl | rfl | rfl | rfl | rfl | rfl | rfl | rfl | rfl <;> simp)

end Demo

/-- A pooled model of two symbols, trained on dates 1 to 3, predicts on date 4: it buys `BBB`, not
`AAA`. -/
example := no_lookahead_models_partial Demo.lnPool_ok (t := 5) (rows' := Demo.lnTwo 30)
  (Demo.lnTwo_same 30)
  (st := Demo.drEnd (Demo.lnPool (fun x _ => Demo.lnMean x)).toRun)
  (st' := Demo.drEnd ((Demo.lnPool (fun x _ => Demo.lnMean x)).on (Demo.lnTwo 30)).toRun)
  (Demo.ok_okR (by decide +kernel)) (Demo.ok_okR (by decide +kernel))
  (Or.inl ⟨rfl, by
    have : (∀ r ∈ (Demo.drEnd (Demo.lnPool (fun x _ => Demo.lnMean x)).toRun).results,
      (∀ st ∈ r.longStops, st.posType = .long ∧ st.symbol = r.symbol) ∧
      ∀ st ∈ r.shortStops, st.posType = .short ∧ st.symbol = r.symbol) ∧
      (∀ r ∈ (Demo.drEnd (Demo.lnPool (fun x _ => Demo.lnMean x)).toRun).results,
        r.buyShares = none ∨ r.sellShares = none) ∧
      (((Demo.drEnd (Demo.lnPool (fun x _ => Demo.lnMean x)).toRun).results.flatMap
        (fun r => r.longStops ++ r.shortStops)).map Stop.id).Nodup := by decide +kernel
    exact ⟨this.1, this.2.1, this.2.2⟩⟩)

example : Demo.lnCash (Demo.lnPool (fun x _ => Demo.lnMean x)) = [(4, 10000), (5, 8200)] := by
  decide +kernel

/-- **C151, where the code falls short.**  So does a pooled training function: the price of `AAA` on
date 6 decides whether the run buys `BBB` on date 5. -/
theorem pooled_training_sees_ahead :
    SameUpTo 5 (Demo.lnPool (fun _ y => Demo.lnMean y)).setup.rows (Demo.lnTwo 700) ∧
    Demo.lnCash (Demo.lnPool (fun _ y => Demo.lnMean y)) = [(4, 10000), (5, 8200)] ∧
    Demo.lnCash ((Demo.lnPool (fun _ y => Demo.lnMean y)).on (Demo.lnTwo 700)) =
      [(4, 10000), (5, 10000)] :=
  ⟨Demo.lnTwo_same 700, by decide +kernel, by decide +kernel⟩

end PyBroker
