import Verif.Lags.Direct
import Verif.Props.Train
import Verif.Props.Input

/-!
# Models trained by a direct call (C165)
-/

namespace PyBroker

namespace Spec

/-- The bars of a symbol in a frame, in date order. -/
def barsOf (rows : List DRow) (sym : Sym) : List DRow :=
  (rows.filter (fun r => r.symbol = sym)).insertionSort (fun r r' => r.date ≤ r'.date)

/-- Every bar of the first frame is before every bar of the same symbol of the second. -/
def FrameBefore (A B : List DRow) : Prop :=
  ∀ a ∈ A, ∀ b ∈ B, a.symbol = b.symbol → a.date < b.date

end Spec

open Spec

theorem barsOf_append {A B : List DRow} (hu : UniqueBars (A ++ B)) (hp : FrameBefore A B) (sym : Sym) :
    symRows (A ++ B) sym = symRows A sym ++ symRows B sym := by
  have hA : UniqueBars A := (List.pairwise_append.1 hu).1
  have hB : UniqueBars B := (List.pairwise_append.1 hu).2.1
  refine List.Perm.eq_of_pairwise (le := fun a b : DRow => a.date < b.date)
    (fun a b _ _ h h' => absurd h (lt_asymm h')) (symRows_sorted hu sym) ?_ ?_
  · refine List.pairwise_append.2 ⟨symRows_sorted hA sym, symRows_sorted hB sym, ?_⟩
    intro a ha b hb
    have ha' := List.mem_filter.1 ((symRows_perm A sym).mem_iff.1 ha)
    have hb' := List.mem_filter.1 ((symRows_perm B sym).mem_iff.1 hb)
    exact hp a ha'.1 b hb'.1 ((of_decide_eq_true ha'.2).trans (of_decide_eq_true hb'.2).symm)
  · refine (symRows_perm _ _).trans ?_
    rw [List.filter_append]
    exact ((symRows_perm A sym).append (symRows_perm B sym)).symm

theorem symRows_absent {rows : List DRow} {sym : Sym} (h : sym ∉ rows.map DRow.symbol) :
    symRows rows sym = [] := by
  have := (symRows_perm rows sym).length_eq
  rw [List.filter_eq_nil_iff.2 (by
    intro r hr hd
    exact h (List.mem_map.2 ⟨r, hr, of_decide_eq_true hd⟩))] at this
  exact List.eq_nil_of_length_eq_zero this

/-- The concatenation of the stores of two frames. -/
theorem merge_stores {A B : List DRow} (hu : UniqueBars (A ++ B)) (hp : FrameBefore A B)
    (cols : List String) :
    (storeOf cols A).merge (storeOf cols B) = storeOf cols (A ++ B) := by
  have hs : ((storeOf cols A).merge (storeOf cols B)).symbols = (storeOf cols (A ++ B)).symbols := by
    show ((((A.map DRow.symbol).dedup.insertionSort (· ≤ ·)) ++
      ((B.map DRow.symbol).dedup.insertionSort (· ≤ ·))).dedup).insertionSort (· ≤ ·) =
      (((A ++ B).map DRow.symbol).dedup).insertionSort (· ≤ ·)
    refine List.Perm.eq_of_pairwise (le := fun a b : Sym => a ≤ b)
      (fun a b _ _ h h' => le_antisymm h h') (List.pairwise_insertionSort _ _)
      (List.pairwise_insertionSort _ _) ?_
    refine (List.perm_insertionSort _ _).trans (List.Perm.trans ?_ (List.perm_insertionSort _ _).symm)
    refine (List.perm_ext_iff_of_nodup (List.nodup_dedup _) (List.nodup_dedup _)).2 (fun x => ?_)
    rw [List.mem_dedup, List.mem_dedup, List.mem_append, (List.perm_insertionSort _ _).mem_iff,
      (List.perm_insertionSort _ _).mem_iff, List.mem_dedup, List.mem_dedup, List.map_append,
      List.mem_append]
  have ha : ∀ x, ((storeOf cols A).merge (storeOf cols B)).arrays x =
      (storeOf cols (A ++ B)).arrays x := by
    intro x
    show mergeArrays ((storeOf cols A).arrays x) ((storeOf cols B).arrays x) = _
    simp only [storeOf]
    rw [barsOf_append hu hp x]
    by_cases h1 : x ∈ A.map DRow.symbol <;> by_cases h2 : x ∈ B.map DRow.symbol
    · rw [if_pos h1, if_pos h2, if_pos (by rw [List.map_append, List.mem_append]; exact .inl h1)]
      simp only [mergeArrays, List.map_append]
      congr 2
      funext c
      by_cases hc : c ∈ cols <;> simp [hc, mergeCol]
    · rw [if_pos h1, if_neg h2, if_pos (by rw [List.map_append, List.mem_append]; exact .inl h1),
        symRows_absent h2, List.append_nil]
      rfl
    · rw [if_neg h1, if_pos h2, if_pos (by rw [List.map_append, List.mem_append]; exact .inr h2),
        symRows_absent h1, List.nil_append]
      rfl
    · rw [if_neg h1, if_neg h2, if_neg (by rw [List.map_append, List.mem_append]; tauto)]
      rfl
  generalize (storeOf cols A).merge (storeOf cols B) = m at hs ha
  generalize storeOf cols (A ++ B) = n at hs ha
  cases m; cases n
  simp only at hs ha
  rw [hs, funext ha]

/-- **C165.** The history of a direct call is the store of the two frames put together,
whichever of the stores are passed in. -/
theorem direct_history {A B : List DRow} (hu : UniqueBars (A ++ B)) (hp : FrameBefore A B)
    (cols : List String) {a b : Option Store} (ha : a = none ∨ a = some (storeOf cols A))
    (hb : b = none ∨ b = some (storeOf cols B)) :
    historyStore cols A B a b = storeOf cols (A ++ B) := by
  have hm := merge_stores hu hp cols
  by_cases hA : A = []
  · subst hA
    by_cases hB : B = []
    · subst hB
      rcases ha with rfl | rfl <;> rcases hb with rfl | rfl <;> simp [historyStore]
    · rcases ha with rfl | rfl <;> rcases hb with rfl | rfl <;>
        simp [historyStore, hB] <;> exact hm
  · by_cases hB : B = []
    · subst hB
      rw [List.append_nil] at hm ⊢
      rcases ha with rfl | rfl <;> rcases hb with rfl | rfl <;>
        simp [historyStore, hA] <;> exact hm
    · rcases ha with rfl | rfl <;> rcases hb with rfl | rfl <;>
        simp [historyStore, hA, hB] <;> exact hm

theorem arrays_bars {cols : List String} {rows : List DRow} {sym : Sym}
    (h : symRows rows sym ≠ []) : ∃ x, (storeOf cols rows).arrays sym = some x ∧
      x.dates = (symRows rows sym).map DRow.date ∧
      ∀ c, x.col c = if c ∈ cols then some ((symRows rows sym).map (fun r => r.val c)) else none := by
  by_cases hs : sym ∈ rows.map DRow.symbol
  · exact ⟨_, by simp only [storeOf]; rw [if_pos hs], rfl, fun c => rfl⟩
  · exact absurd (symRows_absent hs) h

theorem storeInput_bars {rows : List DRow} {cols inds ordered : List String}
    {data : String → Option Series} (hd : HasData inds data) (sym : Sym) :
    ∃ x, symbolInput (storeOf cols rows) sym ordered inds data = some x ∧
      InputOf cols ordered inds data (symRows rows sym) x := by
  unfold symbolInput
  by_cases h0 : symRows rows sym = []
  · have hn : sym ∉ rows.map DRow.symbol := by
      intro hm
      obtain ⟨r, hr, hrs⟩ := List.mem_map.1 hm
      have : r ∈ symRows rows sym :=
        (symRows_perm rows sym).mem_iff.2 (List.mem_filter.2 ⟨hr, decide_eq_true hrs⟩)
      rw [h0] at this
      simp at this
    have : (storeOf cols rows).arrays sym = none := by simp only [storeOf]; rw [if_neg hn]
    rw [this, h0]
    exact ⟨_, rfl, rfl, by simp, fun h => absurd rfl h, rfl, rfl⟩
  · obtain ⟨s, h, h1, h2⟩ := arrays_bars (cols := cols) h0
    rw [h]
    simp only
    have hne : s.dates ≠ [] := by
      rw [h1]; simpa using h0
    rw [if_neg hne]
    have hav : ∀ c, (s.col c).isSome = true ↔ c ∈ cols := by
      intro c
      rw [h2 c]
      split <;> simp [*]
    have hcol : ∀ c ∈ modelInputCols ordered inds (fun c => (s.col c).isSome),
        inputColumn s inds data c = some ((symRows rows sym).map (fun r => cellOf cols data r c)) := by
      intro c hc
      refine (inputColumn_eq hd h1 h2 c).1 ?_
      rcases mem_modelInputCols.1 hc with ⟨_, h⟩ | h
      · exact .inl ((hav c).1 h)
      · exact .inr h
    rw [mapM_pairs hcol]
    refine ⟨_, rfl, h1, ?_, fun _ => ⟨?_, ?_⟩, rfl, rfl⟩
    · intro p hp
      obtain ⟨c, _, rfl⟩ := List.mem_map.1 hp
      rfl
    · simp only [List.map_map]
      rw [show (Prod.fst ∘ fun c => (c, (symRows rows sym).map (fun r => cellOf cols data r c))) =
        (id : String → String) from rfl, List.map_id]
      unfold modelInputCols
      exact nodup_eraseDups _
    · intro c
      simp only [List.map_map]
      rw [show (Prod.fst ∘ fun c => (c, (symRows rows sym).map (fun r => cellOf cols data r c))) =
        (id : String → String) from rfl, List.map_id, mem_modelInputCols]
      simp only [hav]

/-- **C165.** Models with `lags` trained from two frames alone, the training frame before
the test frame, for a symbol with training bars: when `n` is the warm-up of the lagged
columns in its training bars, training drops its first `n + lags` bars, and fails when
none is left.  Every bar left carries the values of the lagged columns on it and on each
of the `lags` training bars before it.  Every test bar is kept, and carries the values on
it and on the `lags` bars before it in the training bars followed by the test bars. -/
theorem direct_training {A B : List DRow} (hu : UniqueBars (A ++ B)) (hp : FrameBefore A B)
    {cols ordered inds : List String} {data : String → Option Series} (hd : HasData inds data)
    {sym : Sym} {T E : List DRow} (hT : T = barsOf A sym) (hE : E = barsOf B sym) (hTne : T ≠ [])
    {columns : List String} {lags n : Nat} (hcne : columns ≠ [])
    (hcols : ∀ c ∈ columns, c ∈ cols ∨ c ∈ inds) (hn : WarmUp cols data columns T n)
    {series : Sym → String → Option String → List Cell} {calls : List MergeCall}
    {cache : LagCache} (junk : LagMat) (hpass : ∀ m ∈ calls, Passes series m)
    (hrun : runMerges calls (fun _ => none) = .ok cache)
    (hser : ∀ c, c ∈ cols ∨ c ∈ inds →
      series sym c none = (T ++ E).map (fun r => cellOf cols data r c)) :
    (T.length ≤ n + lags →
      directInputs junk cols A B sym ordered columns lags inds data cache =
        some (.error .nothingLeft)) ∧
    (n + lags < T.length → ∃ x y cache',
      directInputs junk cols A B sym ordered columns lags inds data cache =
        some (.ok (x, y, cache')) ∧
      x.dates = (T.drop (n + lags)).map DRow.date ∧
      (∀ p ∈ x.columns, p.2 = (T.drop (n + lags)).map (fun r => cellOf cols data r p.1)) ∧
      (∀ c, c ∈ x.columns.map Prod.fst ↔ (c ∈ ordered ∧ c ∈ cols) ∨ c ∈ inds) ∧
      (∀ r, n + lags + r < T.length →
        LagRow cols data columns lags T x.features r (n + lags + r)) ∧
      y.dates = E.map DRow.date ∧
      (∀ p ∈ y.columns, p.2 = E.map (fun r => cellOf cols data r p.1)) ∧
      ∀ r, r < E.length →
        LagRow cols data columns lags (T ++ E) y.features r (T.length + r)) := by
  have hT' : symRows A sym = T := hT.symm
  have hE' : symRows B sym = E := hE.symm
  have hH : symRows (A ++ B) sym = T ++ E := by rw [barsOf_append hu hp, hT', hE']
  have hHs : (T ++ E).Pairwise (fun a b => a.date < b.date) := by rw [← hH]; exact symRows_sorted hu sym
  have hHne : T ++ E ≠ [] := by simp [hTne]
  obtain ⟨x, hx, hxi⟩ := storeInput_bars (rows := A) (cols := cols) (ordered := ordered) hd sym
  obtain ⟨y, hy, hyi⟩ := storeInput_bars (rows := B) (cols := cols) (ordered := ordered) hd sym
  rw [hT'] at hxi
  rw [hE'] at hyi
  have hhist : historyStore cols A B (if A.isEmpty then none else some (storeOf cols A))
      (if B.isEmpty then none else some (storeOf cols B)) = storeOf cols (A ++ B) :=
    direct_history hu hp cols (by split <;> simp) (by split <;> simp)
  obtain ⟨s, hs1, hs2, hs3⟩ := arrays_bars (cols := cols) (rows := A ++ B) (sym := sym)
    (by rw [hH]; exact hHne)
  rw [hH] at hs2 hs3
  have hsne : s.dates ≠ [] := by rw [hs2]; simp [hTne]
  have hic := inputColumn_eq (x := s) hd hs2 hs3
  obtain ⟨cache', hmerge⟩ := merge_ok (sym := sym) (lags := lags) (i := none)
    (arrays := inputColumn s inds data) cache (fun c hc => ⟨_, (hic c).1 (hcols c hc)⟩)
  have hmfs : mergeFromStore (storeOf cols (A ++ B)) sym columns lags inds data cache =
      .ok (cache', some ((T ++ E).map DRow.date)) := by
    unfold mergeFromStore
    rw [hs1]
    dsimp only
    rw [if_neg hsne, hmerge]
    dsimp only
    rw [hs2]
  have hrun' := runMerges_snoc (m := ⟨sym, none, lags, columns, inputColumn s inds data⟩) hrun hmerge
  have hpass' : ∀ m ∈ calls ++ [⟨sym, none, lags, columns, inputColumn s inds data⟩],
      Passes series m := by
    intro m hm
    rcases List.mem_append.1 hm with hm | hm
    · exact hpass m hm
    · rw [List.mem_singleton] at hm
      subst hm
      intro c v hv
      simp only at hv ⊢
      by_cases hc : c ∈ cols ∨ c ∈ inds
      · rw [(hic c).1 hc] at hv
        cases hv
        exact (hser c hc).symm
      · rw [(hic c).2 hc] at hv
        cases hv
  have hsv := run_serves hpass' hrun' sym none
  have hcol' : ∀ c ∈ columns, series sym c none = (T ++ E).map (fun r => cellOf cols data r c) ∧
      ∃ st, LagCache.cached cache' sym c lags none = some st := by
    intro c hc
    refine ⟨hser c (hcols c hc), ?_⟩
    exact (cached_lags hpass' hrun' sym c none lags).1.2
      ⟨_, List.mem_append_right _ (List.mem_singleton_self _), rfl, rfl, hc, le_refl _⟩
  obtain ⟨m, hm1, hm2⟩ := applyLags_bars (P := []) (R := T) (Q := E) hHs hxi.dates hsv
    (columns := columns) (lags := lags) junk hcol'
  obtain ⟨m', hm1', hm2'⟩ := applyLags_bars (P := T) (R := E) (Q := [])
    (by rw [List.append_nil]; exact hHs) hyi.dates hsv
    (columns := columns) (lags := lags) junk (by rw [List.append_nil]; exact hcol')
  rw [List.nil_append] at hm1 hm2
  rw [List.append_nil] at hm1' hm2'
  have hval : ∀ p ∈ x.columns, p.2.length = T.length := by
    intro p hp
    rw [hxi.values p hp, List.length_map]
  obtain ⟨ht1, ht2⟩ := trim_bars (Q := E) hxi.dates
    hxi.symbols hval (lags := lags) hcne hTne hn (m := m) (by
      intro r j k c hr hj hk
      have := hm2 r j k c hr hj hk
      simpa using this)
  have hdir : directInputs junk cols A B sym ordered columns lags inds data cache =
      some (lagInputs junk (storeOf cols (A ++ B)) sym columns lags inds data x y cache) := by
    unfold directInputs
    simp only [hx, hy, hhist]
  rw [hdir]
  unfold lagInputs
  rw [hmfs]
  simp only [hm1, hm1']
  constructor
  · intro hle
    rw [ht1 hle]
  · intro hlt
    rw [ht2 hlt]
    refine ⟨_, _, _, rfl, rfl, ?_, ?_, ?_, hyi.dates, hyi.values, ?_⟩
    · intro p hp
      obtain ⟨q, hq, rfl⟩ := List.mem_map.1 hp
      simp only
      rw [hxi.values q hq, List.map_drop]
    · intro c
      rw [← (hxi.names hTne).2 c]
      simp only [List.map_map]
      rfl
    · intro r hr
      refine lagRow_intro hr ?_
      intro j k c hj hk
      rw [hm2 (n + lags + r) j k c hr hj hk]
      unfold cellBefore
      simp only [List.length_nil, Nat.zero_add]
      by_cases hkk : k ≤ n + lags + r
      · rw [if_pos hkk, if_pos hkk,
          List.getElem?_append_left (show n + lags + r - k < T.length by omega)]
      · rw [if_neg hkk, if_neg hkk]
    · intro r hr
      have := lagRow_intro (o := 0) (r := r) (p := T.length + r) (m := m') (n := E.length)
        (cols := cols) (data := data) (columns := columns) (lags := lags) (bars := T ++ E)
        (by omega) (by
          intro j k c hj hk
          rw [Nat.zero_add, hm2' r j k c hr hj hk])
      simpa using this

namespace Demo

/-- The frames of `trainWin`: training dates 2 to 6, test dates 8 to 10. -/
def directTrain : List DRow := trainFrame.filter (fun r => 2 ≤ r.date ∧ r.date ≤ 6)
def directTest : List DRow := trainFrame.filter (fun r => 8 ≤ r.date)

theorem direct_unique : UniqueBars (directTrain ++ directTest) := by
  unfold UniqueBars; decide +kernel

theorem direct_precedes : FrameBefore directTrain directTest := by
  unfold FrameBefore
  intro a ha b hb _
  have h1 := of_decide_eq_true (List.mem_filter.1 ha).2
  have h2 := of_decide_eq_true (List.mem_filter.1 hb).2
  exact lt_of_le_of_lt h1.2 (lt_of_lt_of_le (by decide +kernel) h2)

example : (barsOf directTrain "B").map DRow.date = [2, 3, 5, 6] ∧
    (barsOf directTest "B").map DRow.date = [8, 10] := by decide +kernel

example : WarmUp ["close"] trainData ["close", "ind"] (barsOf directTrain "B") 1 := by
  intro i r h
  rw [show barsOf directTrain "B" = [2, 3, 5, 6].map
    (fun d : Int => (⟨"B", d, fun _ => some (d * 100)⟩ : DRow)) from rfl] at h
  match i, h with
  | 0, h => cases h; decide +kernel
  | 1, h => cases h; decide +kernel
  | 2, h => cases h; decide +kernel
  | 3, h => cases h; decide +kernel
  | i + 4, h => simp at h

/-- The cache is empty at the start of a call. -/
example (series : Sym → String → Option String → List Cell) :
    (∀ m ∈ ([] : List MergeCall), Passes series m) ∧
    runMerges [] (fun _ => none) = .ok (fun _ => none) := ⟨by simp, rfl⟩

def directLagged (train test : List DRow) : Option (LagInput × LagInput) :=
  (directInputs (fun _ _ => some 99) ["close"] train test "B" ["close"] ["close", "ind"] 1 ["ind"]
    trainData (fun _ => none)).bind (fun r => r.toOption.map (fun p => (p.1, p.2.1)))

/-- The training rows are those of the strategy's window. -/
theorem direct_train_same : (directLagged directTrain directTest).map Prod.fst =
    trainLagged.map Prod.fst := by decide +kernel

end Demo

/-- The test rows are not those of a strategy's window: the history of a direct call has
no bars of the `lookahead` gap, so that the lag of the first test bar (date 8) is the last
training bar (date 6), where a strategy takes the bar in between (date 7). -/
theorem direct_gap_differs :
    (Demo.directLagged Demo.directTrain Demo.directTest).map (fun p => p.2.features) =
      some (some [[some 800, some 600, some 8, some 6], [some 1000, some 800, some 10, some 8]]) ∧
    Demo.trainLagged.map (fun p => p.2.features) =
      some (some [[some 800, some 700, some 8, some 7], [some 1000, some 800, some 10, some 8]]) := by
  decide +kernel

/-- The training frame must be the earlier one: with the frames swapped the history is not
in date order, and is not the history of the two frames put together. -/
theorem direct_order_needed :
    ¬ FrameBefore Demo.directTest Demo.directTrain ∧
    ((historyStore ["close"] Demo.directTest Demo.directTrain none none).arrays "B").map
      SymArrays.dates = some [8, 10, 2, 3, 5, 6] ∧
    ((storeOf ["close"] (Demo.directTest ++ Demo.directTrain)).arrays "B").map
      SymArrays.dates = some [2, 3, 5, 6, 8, 10] := by
  refine ⟨fun h => ?_, by decide +kernel, by decide +kernel⟩
  have := h ⟨"B", 8, fun _ => some 800⟩ (List.mem_filter.2 ⟨?_, by decide +kernel⟩)
    ⟨"B", 2, fun _ => some 200⟩ (List.mem_filter.2 ⟨?_, by decide +kernel⟩) rfl
  · exact absurd this (by decide +kernel)
  · refine List.mem_append_right _ (List.mem_map.2 ⟨8, by decide, ?_⟩)
    norm_num
  · refine List.mem_append_right _ (List.mem_map.2 ⟨2, by decide, ?_⟩)
    norm_num

end PyBroker
