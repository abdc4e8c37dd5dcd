import Verif.Scope.Store
import Mathlib.Data.List.Perm.Basic
import Mathlib.Tactic.Linarith

/-!
# What a strategy can read (C40, C41, C42, C43, C71)
-/

namespace PyBroker

/-! ## Specification -/

/-- No symbol has two rows of one date (`Strategy._reject_duplicate_bars`). -/
def Spec.UniqueBars (rows : List DRow) : Prop :=
  rows.Pairwise (fun a b => a.symbol ≠ b.symbol ∨ a.date ≠ b.date)

/-- The rows of a symbol that belong to the window and are dated at most `t`, in
date order. -/
def Spec.barsTo (rows : List DRow) (window : List Date) (sym : Sym) (t : Date) : List DRow :=
  (rows.filter (fun r => r.symbol = sym ∧ r.date ∈ window ∧ r.date ≤ t)).insertionSort
    (fun a b => a.date ≤ b.date)

open PyBroker.Spec

/-! ## Sorting helpers -/

theorem symRows_sorted {rows : List DRow} (hu : UniqueBars rows) (sym : Sym) :
    (symRows rows sym).Pairwise (fun a b => a.date < b.date) := by
  have : Std.Total (α := DRow) (fun a b => a.date ≤ b.date) := ⟨fun a b => le_total _ _⟩
  have : IsTrans DRow (fun a b => a.date ≤ b.date) := ⟨fun _ _ _ h h' => le_trans h h'⟩
  have h1 := List.pairwise_insertionSort (fun a b : DRow => a.date ≤ b.date)
    (rows.filter (fun r => r.symbol = sym))
  have hp := List.perm_insertionSort (fun a b : DRow => a.date ≤ b.date)
    (rows.filter (fun r => r.symbol = sym))
  have h2 : (rows.filter (fun r => r.symbol = sym)).Pairwise (fun a b => a.date ≠ b.date) := by
    have h3 := hu.filter (fun r => decide (r.symbol = sym))
    refine List.Pairwise.imp_of_mem ?_ h3
    intro a b ha hb h
    have ha' : a.symbol = sym := by simpa using (List.mem_filter.1 ha).2
    have hb' : b.symbol = sym := by simpa using (List.mem_filter.1 hb).2
    rcases h with h | h
    · exact absurd (ha'.trans hb'.symm) h
    · exact h
  have h4 := (hp.pairwise_iff (R := fun a b : DRow => a.date ≠ b.date)
    (fun {a b} h => Ne.symm h)).2 h2
  exact (h1.and h4).imp (fun h => lt_of_le_of_ne h.1 h.2)

theorem symRows_perm (rows : List DRow) (sym : Sym) :
    (symRows rows sym).Perm (rows.filter (fun r => r.symbol = sym)) :=
  List.perm_insertionSort _ _

theorem barsTo_eq {rows : List DRow} (hu : UniqueBars rows) (window : List Date) (sym : Sym)
    (t : Date) : barsTo rows window sym t =
      (symRows rows sym).filter (fun r => r.date ∈ window ∧ r.date ≤ t) := by
  have hu' : UniqueBars (rows.filter (fun r => decide (r.date ∈ window ∧ r.date ≤ t))) := hu.filter _
  have e : barsTo rows window sym t =
      symRows (rows.filter (fun r => decide (r.date ∈ window ∧ r.date ≤ t))) sym := by
    unfold barsTo symRows
    rw [List.filter_filter]
    congr 1
    apply List.filter_congr
    intro r _
    simp
  rw [e]
  refine List.Perm.eq_of_pairwise (le := fun a b : DRow => a.date < b.date)
    (fun a b _ _ h h' => absurd h (lt_asymm h')) (symRows_sorted hu' sym)
    ((symRows_sorted hu sym).filter _) ?_
  refine (symRows_perm _ _).trans ?_
  refine List.Perm.trans ?_ ((symRows_perm rows sym).filter _).symm
  rw [List.filter_filter, List.filter_filter]
  apply List.Perm.of_eq
  apply List.filter_congr
  intro r _
  exact Bool.and_comm _ _

/-! ## C43: alignment of dates -/

theorem isSorted_iff : ∀ l : List Date, isSorted l = true ↔ l.Pairwise (· ≤ ·)
  | [] => by simp [isSorted]
  | [a] => by simp [isSorted]
  | a :: b :: rest => by
    unfold isSorted
    rw [Bool.and_eq_true, isSorted_iff (b :: rest), decide_eq_true_eq]
    constructor
    · rintro ⟨h1, h2⟩
      refine List.pairwise_cons.2 ⟨?_, h2⟩
      intro x hx
      rcases List.mem_cons.1 hx with rfl | hx
      · exact h1
      · exact le_trans h1 ((List.pairwise_cons.1 h2).1 x hx)
    · intro h
      obtain ⟨h1, h2⟩ := List.pairwise_cons.1 h
      exact ⟨h1 b List.mem_cons_self, h2⟩

/-- The positions, counted from `i`, of the dates that are in the target. -/
def maskFrom (target : List Date) : List Date → Nat → List Nat
  | [], _ => []
  | d :: ds, i => if d ∈ target then i :: maskFrom target ds (i + 1) else maskFrom target ds (i + 1)

theorem maskFrom_congr {t t' : List Date} : ∀ {ds : List Date} {i : Nat},
    (∀ d ∈ ds, d ∈ t ↔ d ∈ t') → maskFrom t ds i = maskFrom t' ds i := by
  intro ds
  induction ds with
  | nil => intro i _; rfl
  | cons d ds ih =>
    intro i h
    unfold maskFrom
    rw [ih (fun x hx => h x (List.mem_cons_of_mem _ hx))]
    by_cases hd : d ∈ t
    · rw [if_pos hd, if_pos ((h d List.mem_cons_self).1 hd)]
    · rw [if_neg hd, if_neg (fun h' => hd ((h d List.mem_cons_self).2 h'))]

theorem sortedIndices_eq (ds ts : List Date) (i : Nat) (hd : ds.Pairwise (· < ·))
    (ht : ts.Pairwise (· ≤ ·)) : sortedIndices ds ts i = maskFrom ts ds i := by
  induction ds, ts, i using sortedIndices.induct with
  | case1 ts i => unfold sortedIndices maskFrom; rfl
  | case2 d ds i =>
    have : ∀ (l : List Date) (n : Nat), maskFrom [] l n = [] := by
      intro l
      induction l with
      | nil => intro n; rfl
      | cons a l ih => intro n; unfold maskFrom; simp [ih]
    rw [this]
    unfold sortedIndices
    rfl
  | case3 ds t ts i ih =>
    obtain ⟨hd1, hd2⟩ := List.pairwise_cons.1 hd
    unfold sortedIndices maskFrom
    rw [if_pos rfl, if_pos List.mem_cons_self, ih hd2 (List.pairwise_cons.1 ht).2]
    congr 1
    apply maskFrom_congr
    intro x hx
    rw [List.mem_cons]
    exact ⟨Or.inr, fun h => h.resolve_left (fun e => absurd (hd1 x hx) (by rw [e]; exact lt_irrefl _))⟩
  | case4 d ds t ts i hne hlt ih =>
    obtain ⟨hd1, hd2⟩ := List.pairwise_cons.1 hd
    obtain ⟨ht1, _⟩ := List.pairwise_cons.1 ht
    unfold sortedIndices maskFrom
    rw [if_neg hne, if_pos hlt, ih hd2 ht, if_neg]
    rw [List.mem_cons, not_or]
    exact ⟨hne, fun h => absurd (lt_of_lt_of_le hlt (ht1 d h)) (lt_irrefl _)⟩
  | case5 d ds t ts i hne hlt ih =>
    obtain ⟨hd1, hd2⟩ := List.pairwise_cons.1 hd
    have hgt : t < d := lt_of_le_of_ne (not_lt.1 hlt) (Ne.symm hne)
    rw [sortedIndices, if_neg hne, if_neg hlt, ih hd (List.pairwise_cons.1 ht).2]
    apply maskFrom_congr
    intro x hx
    have : t < x := by
      rcases List.mem_cons.1 hx with rfl | hx
      · exact hgt
      · exact lt_trans hgt (hd1 x hx)
    rw [List.mem_cons]
    exact ⟨Or.inr, fun h => h.resolve_left (fun e => absurd this (by rw [e]; exact lt_irrefl _))⟩

theorem maskFrom_filter (target : List Date) : ∀ (ds : List Date) (i : Nat),
    maskFrom target ds i =
      ((List.range ds.length).filter (fun k => (ds[k]?).any (fun d => d ∈ target))).map (· + i) := by
  intro ds
  induction ds with
  | nil => intro i; rfl
  | cons d ds ih =>
    intro i
    unfold maskFrom
    rw [ih (i + 1), List.length_cons, List.range_succ_eq_map, List.filter_cons]
    have hf : (List.map Nat.succ (List.range ds.length)).filter
        (fun k => ((d :: ds)[k]?).any (fun d => d ∈ target)) =
        ((List.range ds.length).filter (fun k => (ds[k]?).any (fun d => d ∈ target))).map Nat.succ := by
      rw [List.filter_map]
      congr 1
    rw [hf]
    have hm : ∀ l : List Nat, (l.map Nat.succ).map (· + i) = l.map (· + (i + 1)) := by
      intro l
      rw [List.map_map]
      apply List.map_congr_left
      intro x _
      simp only [Function.comp_apply, Nat.succ_eq_add_one]
      omega
    by_cases hd : d ∈ target
    · rw [if_pos hd, if_pos (by simpa using hd), List.map_cons, hm]
      simp
    · rw [if_neg hd, if_neg (by simpa using hd), hm]

theorem sliceIndices_eq {dates target : List Date} (hd : dates.Pairwise (· < ·)) :
    sliceIndices dates target = maskIndices dates target := by
  unfold sliceIndices
  split
  · rename_i h
    rw [Bool.and_eq_true, isSorted_iff, isSorted_iff] at h
    rw [sortedIndices_eq _ _ _ hd h.1, maskFrom_filter]
    unfold maskIndices
    simp
  · rfl

/-- C43.  The positions found by the merge are exactly those of the dates that are
in the target, in order. -/
theorem aligned_positions {dates target : List Date} (hd : dates.Pairwise (· < ·))
    (ht : target.Pairwise (· ≤ ·)) :
    (∀ i, i ∈ sortedIndices dates target 0 ↔ ∃ d, dates[i]? = some d ∧ d ∈ target) ∧
    (sortedIndices dates target 0).Pairwise (· < ·) := by
  rw [sortedIndices_eq _ _ _ hd ht, maskFrom_filter]
  simp only [Nat.add_zero, List.map_id']
  constructor
  · intro i
    rw [List.mem_filter, List.mem_range]
    constructor
    · rintro ⟨hi, h⟩
      rw [List.getElem?_eq_getElem hi] at h ⊢
      exact ⟨_, rfl, by simpa using h⟩
    · rintro ⟨d, hd, h⟩
      refine ⟨(List.getElem?_eq_some_iff.1 hd).1, ?_⟩
      rw [hd]
      simpa using h
  · exact (List.pairwise_lt_range).filter _

/-- C43.  Values aligned to dates are the value of the equal date, or NaN. -/
theorem aligned_values {ser : Series} (hs : (ser.map Prod.fst).Pairwise (· < ·))
    (dates : List Date) (k : Nat) :
    (∀ d v, dates[k]? = some d → (d, v) ∈ ser → (valuesForDates ser dates)[k]? = some v) ∧
    (∀ d, dates[k]? = some d → d ∉ ser.map Prod.fst →
      (valuesForDates ser dates)[k]? = some none) ∧
    (valuesForDates ser dates).length = dates.length := by
  have key : ∀ (ser : Series), (ser.map Prod.fst).Pairwise (· < ·) → ∀ d,
      (∀ v, (d, v) ∈ ser → ser[(ser.filter (fun p => p.1 < d)).length]? = some (d, v)) := by
    intro ser
    induction ser with
    | nil => intro _ d v h; cases h
    | cons p ser ih =>
      intro hp d v h
      rw [List.map_cons] at hp
      obtain ⟨h1, h2⟩ := List.pairwise_cons.1 hp
      rcases List.mem_cons.1 h with rfl | h
      · have : (((d, v) :: ser).filter (fun p => p.1 < d)).length = 0 := by
          rw [List.length_eq_zero_iff, List.filter_eq_nil_iff]
          intro q hq
          rcases List.mem_cons.1 hq with rfl | hq
          · simp
          · have := h1 q.1 (List.mem_map.2 ⟨q, hq, rfl⟩)
            simpa using le_of_lt this
        rw [this]
        rfl
      · have hlt : p.1 < d := h1 d (List.mem_map.2 ⟨_, h, rfl⟩)
        rw [List.filter_cons_of_pos (by simpa using hlt), List.length_cons,
          List.getElem?_cons_succ]
        exact ih h2 d v h
  refine ⟨?_, ?_, by unfold valuesForDates; rw [List.length_map]⟩
  · intro d v hd hv
    unfold valuesForDates
    rw [List.getElem?_map, hd]
    simp only [Option.map_some, key ser hs d v hv, if_true]
  · intro d hd hn
    unfold valuesForDates
    rw [List.getElem?_map, hd]
    simp only [Option.map_some]
    split
    · rfl
    · rename_i p hp
      rw [if_neg]
      intro e
      exact hn (List.mem_map.2 ⟨p, List.mem_of_getElem? hp, e⟩)

/-! ## Slicing a store by dates -/

theorem increasing_run : ∀ {l : List Nat} {a : Nat}, (a :: l).Pairwise (· < ·) →
    (a :: l).getLastD a - a + 1 = (a :: l).length → a :: l = List.range' a (a :: l).length := by
  have bound : ∀ {l : List Nat} {a : Nat}, (a :: l).Pairwise (· < ·) →
      a + l.length ≤ (a :: l).getLastD a := by
    intro l
    induction l with
    | nil => intro a _; simp
    | cons b l ih =>
      intro a h
      obtain ⟨h1, h2⟩ := List.pairwise_cons.1 h
      have := ih h2
      have hab := h1 b List.mem_cons_self
      have e : (a :: b :: l).getLastD a = (b :: l).getLastD b := by
        simp [List.getLastD]
      rw [e, List.length_cons]
      omega
  intro l
  induction l with
  | nil => intro a _ _; rfl
  | cons b l ih =>
    intro a h hlen
    obtain ⟨h1, h2⟩ := List.pairwise_cons.1 h
    have hab := h1 b List.mem_cons_self
    have e : (a :: b :: l).getLastD a = (b :: l).getLastD b := by
      simp [List.getLastD]
    have hb := bound h2
    rw [e] at hlen
    simp only [List.length_cons] at hlen hb
    have hba : b = a + 1 := by omega
    have := ih h2 (by simp only [List.length_cons]; omega)
    subst hba
    conv_lhs => rw [this]
    simp only [List.length_cons]
    rw [List.range'_succ (n := l.length + 1)]

theorem filterMap_range' {α : Type} : ∀ (n a : Nat) (arr : List α),
    a + n ≤ arr.length → (List.range' a n).filterMap (fun i => arr[i]?) = (arr.drop a).take n := by
  intro n
  induction n with
  | zero => intro a arr _; simp
  | succ n ih =>
    intro a arr h
    rw [List.range'_succ, List.filterMap_cons, List.getElem?_eq_getElem (by omega)]
    simp only
    rw [ih (a + 1) arr (by omega), List.drop_eq_getElem_cons (by omega : a < arr.length),
      List.take_succ_cons]

theorem gather_eq {α : Type} {idx : List Nat} {arr : List α} (hs : idx.Pairwise (· < ·))
    (hb : ∀ i ∈ idx, i < arr.length) : gather idx arr = idx.filterMap (fun i => arr[i]?) := by
  unfold gather
  split
  · rfl
  · rename_i a l
    simp only
    split
    · rename_i hlen
      have hr := increasing_run hs hlen
      have hmem : (a :: l).getLastD a ∈ a :: l := by
        rw [List.getLastD_cons]
        cases l with
        | nil => simp
        | cons b l =>
          apply List.mem_cons_of_mem
          rw [List.getLastD_eq_getLast?, List.getLast?_eq_some_getLast (List.cons_ne_nil _ _)]
          exact List.getLast_mem _
      have hlast := hb _ hmem
      have hge : a ≤ (a :: l).getLastD a := by
        rcases List.mem_cons.1 hmem with e | h
        · omega
        · exact le_of_lt ((List.pairwise_cons.1 hs).1 _ h)
      generalize (a :: l).getLastD a = z at *
      have hz : z + 1 - a = (a :: l).length := by omega
      rw [hz]
      conv_rhs => rw [hr]
      rw [filterMap_range' _ _ _ (by omega)]
    · rfl

theorem mask_gather {α : Type} : ∀ (ds : List Date) (arr : List α) (target : List Date),
    arr.length = ds.length →
    (maskFrom target ds 0).filterMap (fun i => arr[i]?) =
      ((ds.zip arr).filter (fun p => p.1 ∈ target)).map Prod.snd := by
  have shift : ∀ (target ds : List Date) (i : Nat),
      maskFrom target ds (i + 1) = (maskFrom target ds i).map (· + 1) := by
    intro target ds i
    rw [maskFrom_filter, maskFrom_filter, List.map_map]
    apply List.map_congr_left
    intro x _
    simp only [Function.comp_apply]
    omega
  intro ds
  induction ds with
  | nil => intro arr target _; simp [maskFrom]
  | cons d ds ih =>
    intro arr target h
    cases arr with
    | nil => simp at h
    | cons a arr =>
      have hrec : (maskFrom target ds (0 + 1)).filterMap (fun i => (a :: arr)[i]?) =
          ((ds.zip arr).filter (fun p => p.1 ∈ target)).map Prod.snd := by
        rw [shift, List.filterMap_map, ← ih arr target (by simpa using h)]
        rfl
      unfold maskFrom
      rw [List.zip_cons_cons, List.filter_cons]
      by_cases hd : d ∈ target
      · rw [if_pos hd, if_pos (by simpa using hd), List.filterMap_cons, hrec]
        rfl
      · rw [if_neg hd, if_neg (by simpa using hd), hrec]

theorem zip_map_filter {α : Type} (l : List DRow) (f : DRow → α) (target : List Date) :
    (((l.map DRow.date).zip (l.map f)).filter (fun p => p.1 ∈ target)).map Prod.snd =
      (l.filter (fun r => r.date ∈ target)).map f := by
  induction l with
  | nil => rfl
  | cons r l ih =>
    simp only [List.map_cons, List.zip_cons_cons, List.filter_cons]
    by_cases h : r.date ∈ target
    · simp only [h, decide_true, if_true, List.map_cons, ih]
    · simp only [h, decide_false, Bool.false_eq_true, if_false, ih]

theorem gather_rows {α : Type} {rows : List DRow} (hu : UniqueBars rows) (sym : Sym)
    (f : DRow → α) (target : List Date) :
    gather (sliceIndices ((symRows rows sym).map DRow.date) target) ((symRows rows sym).map f) =
      ((symRows rows sym).filter (fun r => r.date ∈ target)).map f := by
  have hs : ((symRows rows sym).map DRow.date).Pairwise (· < ·) :=
    List.pairwise_map.2 (symRows_sorted hu sym)
  have hm : maskIndices ((symRows rows sym).map DRow.date) target =
      maskFrom target ((symRows rows sym).map DRow.date) 0 := by
    rw [maskFrom_filter]
    unfold maskIndices
    simp
  rw [sliceIndices_eq hs, gather_eq]
  · rw [hm, mask_gather _ _ _ (by simp), zip_map_filter]
  · unfold maskIndices
    exact (List.pairwise_lt_range).filter _
  · intro i hi
    unfold maskIndices at hi
    have := List.mem_range.1 (List.mem_filter.1 hi).1
    simpa using this

theorem sliceIndices_nil {rows : List DRow} (hu : UniqueBars rows) (sym : Sym)
    (target : List Date) :
    sliceIndices ((symRows rows sym).map DRow.date) target = [] ↔
      (symRows rows sym).filter (fun r => r.date ∈ target) = [] := by
  have hs : ((symRows rows sym).map DRow.date).Pairwise (· < ·) :=
    List.pairwise_map.2 (symRows_sorted hu sym)
  rw [sliceIndices_eq hs]
  unfold maskIndices
  rw [List.filter_eq_nil_iff, List.filter_eq_nil_iff]
  constructor
  · intro h r hr
    obtain ⟨i, hi⟩ := List.mem_iff_getElem?.1 hr
    have hlt := (List.getElem?_eq_some_iff.1 hi).1
    have := h i (List.mem_range.2 (by simpa using hlt))
    rw [List.getElem?_map, hi] at this
    simpa using this
  · intro h i hi
    have hlt : i < (symRows rows sym).length := by simpa using List.mem_range.1 hi
    have := h _ (List.getElem_mem hlt)
    rw [List.getElem?_map, List.getElem?_eq_getElem hlt]
    simpa using this

/-- The store of a window holds, for each symbol with a bar in it, the rows of the
window in date order, and no other symbol. -/
theorem slice_arrays {rows : List DRow} (hu : UniqueBars rows) (cols : List String)
    (window : List Date) (sym : Sym) :
    ((symRows rows sym).filter (fun r => r.date ∈ window) = [] ∧
      ((storeOf cols rows).slice window).arrays sym = none) ∨
    ((symRows rows sym).filter (fun r => r.date ∈ window) ≠ [] ∧ ∃ a,
      ((storeOf cols rows).slice window).arrays sym = some a ∧
      a.dates = ((symRows rows sym).filter (fun r => r.date ∈ window)).map DRow.date ∧
      ∀ c, a.col c = if c ∈ cols then
        some (((symRows rows sym).filter (fun r => r.date ∈ window)).map (fun r => r.val c))
        else none) := by
  unfold Store.slice storeOf
  simp only
  by_cases hsym : sym ∈ rows.map DRow.symbol
  · rw [if_pos hsym]
    simp only [Option.bind_some]
    unfold sliceArrays
    simp only
    by_cases hnil : (symRows rows sym).filter (fun r => r.date ∈ window) = []
    · left
      rw [if_pos ((sliceIndices_nil hu sym window).2 hnil)]
      exact ⟨hnil, rfl⟩
    · right
      rw [if_neg (fun h => hnil ((sliceIndices_nil hu sym window).1 h))]
      refine ⟨hnil, _, rfl, gather_rows hu sym DRow.date window, ?_⟩
      intro c
      simp only
      by_cases hc : c ∈ cols
      · rw [if_pos hc, if_pos hc, Option.map_some, gather_rows hu sym (fun r => r.val c) window]
      · rw [if_neg hc, if_neg hc]
        rfl
  · left
    rw [if_neg hsym]
    refine ⟨?_, rfl⟩
    have : symRows rows sym = [] := by
      have hp := symRows_perm rows sym
      have : rows.filter (fun r => r.symbol = sym) = [] := by
        rw [List.filter_eq_nil_iff]
        intro r hr
        have : r.symbol ≠ sym := fun e => hsym (List.mem_map.2 ⟨r, hr, e⟩)
        simpa using this
      rw [this] at hp
      exact List.Perm.eq_nil hp
    rw [this]
    rfl

/-! ## C71: active symbols and the bar clock -/

/-- C71.  On a date of the calendar the active symbols are exactly those with a bar
on it, in the order of the table, whether or not the shortcut is taken. -/
theorem active_exact {sd : List (Sym × List Date)} {testDates : List Date} {date : Date}
    (hd : date ∈ testDates) :
    activeSyms sd testDates date = (sd.filter (fun p => date ∈ p.2)).map Prod.fst := by
  unfold activeSyms
  split
  · rename_i h
    unfold calendarAligned at h
    rw [List.all_eq_true] at h
    rw [List.filter_eq_self.2]
    intro p hp
    have h1 := h p hp
    unfold sameSet at h1
    rw [Bool.and_eq_true, List.all_eq_true, List.all_eq_true] at h1
    exact h1.2 date hd
  · rfl

theorem endIndexes_count (sd : List (Sym × List Date)) (testDates : List Date)
    (sym : Sym) : ∀ (dates : List Date) (f : Sym → Nat),
    (dates.foldl (fun idx d => bumpIndexes (activeSyms sd testDates d) idx) f) sym =
      f sym + (dates.map (fun d => (activeSyms sd testDates d).count sym)).sum := by
  intro dates
  induction dates with
  | nil => intro f; simp
  | cons d ds ih =>
    intro f
    rw [List.foldl_cons, ih, List.map_cons, List.sum_cons]
    unfold bumpIndexes
    omega

theorem count_active {sd : List (Sym × List Date)} (hn : (sd.map Prod.fst).Nodup)
    {sym : Sym} {ds : List Date} (hm : (sym, ds) ∈ sd) (d : Date) :
    ((sd.filter (fun p => d ∈ p.2)).map Prod.fst).count sym = if d ∈ ds then 1 else 0 := by
  have hsub : ((sd.filter (fun p => d ∈ p.2)).map Prod.fst).Nodup :=
    (List.filter_sublist.map Prod.fst).nodup hn
  by_cases h : d ∈ ds
  · rw [if_pos h]
    exact List.count_eq_one_of_mem hsub
      (List.mem_map.2 ⟨_, List.mem_filter.2 ⟨hm, by simpa using h⟩, rfl⟩)
  · rw [if_neg h, List.count_eq_zero]
    intro hmem
    obtain ⟨p, hp, e⟩ := List.mem_map.1 hmem
    obtain ⟨hp1, hp2⟩ := List.mem_filter.1 hp
    have : p = (sym, ds) := List.inj_on_of_nodup_map hn hp1 hm e
    rw [this] at hp2
    exact h (by simpa using hp2)

theorem sum_ite_count (l ds : List Date) :
    (l.map (fun d => if d ∈ ds then 1 else 0)).sum = l.countP (fun d => d ∈ ds) := by
  induction l with
  | nil => rfl
  | cons a l ih =>
    rw [List.map_cons, List.sum_cons, ih]
    by_cases h : a ∈ ds
    · rw [if_pos h, List.countP_cons_of_pos (by simpa using h)]
      omega
    · rw [if_neg h, List.countP_cons_of_neg (by simpa using h)]
      omega

/-- The bar counter of a symbol, after the bars dated at most `t`, is the number of
its bars dated at most `t`. -/
theorem bar_clock {sd : List (Sym × List Date)} (hn : (sd.map Prod.fst).Nodup)
    {testDates : List Date} (hnd : testDates.Nodup) {sym : Sym} {ds : List Date}
    (hm : (sym, ds) ∈ sd) (hds : ds.Nodup) (hsub : ∀ d ∈ ds, d ∈ testDates) (t : Date) :
    endIndexes sd testDates (testDates.filter (· ≤ t)) sym = ds.countP (· ≤ t) := by
  unfold endIndexes
  rw [endIndexes_count]
  simp only [Nat.zero_add]
  have : (testDates.filter (· ≤ t)).map (fun d => (activeSyms sd testDates d).count sym) =
      (testDates.filter (· ≤ t)).map (fun d => if d ∈ ds then 1 else 0) := by
    apply List.map_congr_left
    intro d hd
    rw [active_exact (List.mem_filter.1 hd).1, count_active hn hm]
  rw [this, sum_ite_count, List.countP_eq_length_filter, List.countP_eq_length_filter]
  apply List.Perm.length_eq
  refine (List.perm_ext_iff_of_nodup ((hnd.filter _).filter _) (hds.filter _)).2 ?_
  intro d
  simp only [List.mem_filter, decide_eq_true_eq]
  exact ⟨fun h => ⟨h.2, h.1.2⟩, fun h => ⟨⟨hsub d h.1, h.2⟩, h.1⟩⟩

/-! ## C40: columns -/

theorem take_count_filter : ∀ {l : List DRow}, l.Pairwise (fun a b => a.date < b.date) →
    ∀ t : Date, l.take ((l.map DRow.date).countP (· ≤ t)) = l.filter (fun r => r.date ≤ t) := by
  intro l
  induction l with
  | nil => intro _ t; rfl
  | cons r l ih =>
    intro hp t
    obtain ⟨h1, h2⟩ := List.pairwise_cons.1 hp
    rw [List.map_cons]
    by_cases h : r.date ≤ t
    · rw [List.countP_cons_of_pos (by simpa using h), List.take_succ_cons, ih h2 t,
        List.filter_cons_of_pos (by simpa using h)]
    · have h0 : (r :: l).filter (fun r => r.date ≤ t) = [] := by
        rw [List.filter_eq_nil_iff]
        intro x hx
        rcases List.mem_cons.1 hx with rfl | hx
        · simpa using h
        · have := lt_trans (not_le.1 h) (h1 x hx)
          simpa using this
      have h3 : (r.date :: l.map DRow.date).countP (· ≤ t) = 0 := by
        rw [List.countP_eq_zero]
        intro x hx
        rcases List.mem_cons.1 hx with rfl | hx
        · simpa using h
        · obtain ⟨y, hy, rfl⟩ := List.mem_map.1 hx
          have := lt_trans (not_le.1 h) (h1 y hy)
          simpa using this
      rw [h0, h3, List.take_zero]

theorem store_symbols_nodup (cols : List String) (rows : List DRow) (window : List Date) :
    ((storeOf cols rows).slice window).symbols.Nodup := by
  unfold Store.slice
  refine List.Nodup.filter _ ?_
  unfold storeOf
  exact ((List.perm_insertionSort _ _).nodup_iff).2 (List.nodup_dedup _)

theorem store_symbols_mem {cols : List String} {rows : List DRow} {window : List Date} {sym : Sym}
    {a : SymArrays} (h : ((storeOf cols rows).slice window).arrays sym = some a) :
    sym ∈ ((storeOf cols rows).slice window).symbols := by
  have h' := h
  unfold Store.slice at h ⊢
  simp only at h ⊢
  refine List.mem_filter.2 ⟨?_, by rw [h]; rfl⟩
  unfold storeOf at h ⊢
  simp only at h ⊢
  refine ((List.perm_insertionSort _ _).mem_iff).2 (List.mem_dedup.2 ?_)
  by_contra hc
  rw [if_neg hc] at h
  cases h

theorem symExecDates_mem {s : Store} {execs : List Sym} {sym : Sym} {a : SymArrays}
    (hs : sym ∈ s.symbols) (he : sym ∈ execs) (ha : s.arrays sym = some a) :
    (sym, a.dates) ∈ symExecDates s execs := by
  unfold symExecDates
  exact List.mem_filterMap.2 ⟨sym, List.mem_filter.2 ⟨hs, by simpa using he⟩, by rw [ha]; rfl⟩

theorem symExecDates_nodup {s : Store} (hs : s.symbols.Nodup) (execs : List Sym) :
    ((symExecDates s execs).map Prod.fst).Nodup := by
  have : ((symExecDates s execs).map Prod.fst).Sublist s.symbols := by
    unfold symExecDates
    refine List.Sublist.trans ?_ (List.filter_sublist (p := fun x => decide (x ∈ execs)))
    generalize s.symbols.filter (fun x => decide (x ∈ execs)) = l
    induction l with
    | nil => exact List.Sublist.refl _
    | cons x l ih =>
      rw [List.filterMap_cons]
      cases s.arrays x with
      | none => exact ih.cons _
      | some a => exact ih.cons_cons _
  exact this.nodup hs

/-- The bar counter of a symbol of a window, on the bar dated `t`. -/
def barIndex (cols : List String) (rows : List DRow) (window : List Date) (execs : List Sym)
    (t : Date) (sym : Sym) : Nat :=
  let s := (storeOf cols rows).slice window
  endIndexes (symExecDates s execs) s.uniqueDates (s.uniqueDates.filter (· ≤ t)) sym

theorem uniqueDates_nodup (s : Store) : s.uniqueDates.Nodup :=
  ((List.perm_insertionSort _ _).nodup_iff).2 (List.nodup_dedup _)

theorem uniqueDates_mem {s : Store} {sym : Sym} {a : SymArrays} (hs : sym ∈ s.symbols)
    (ha : s.arrays sym = some a) {d : Date} (hd : d ∈ a.dates) : d ∈ s.uniqueDates := by
  unfold Store.uniqueDates
  refine ((List.perm_insertionSort _ _).mem_iff).2 (List.mem_dedup.2 ?_)
  exact List.mem_flatMap.2 ⟨sym, hs, by rw [ha]; exact hd⟩

theorem bar_index {rows : List DRow} (hu : UniqueBars rows) (cols : List String)
    (window : List Date) {execs : List Sym} {sym : Sym} (he : sym ∈ execs) (t : Date) {a : SymArrays}
    (ha : ((storeOf cols rows).slice window).arrays sym = some a)
    (hda : a.dates = ((symRows rows sym).filter (fun r => r.date ∈ window)).map DRow.date) :
    barIndex cols rows window execs t sym =
      (((symRows rows sym).filter (fun r => r.date ∈ window)).map DRow.date).countP (· ≤ t) := by
  unfold barIndex
  simp only
  have hs := store_symbols_mem ha
  rw [bar_clock (ds := a.dates)
    (symExecDates_nodup (store_symbols_nodup cols rows window) execs) (uniqueDates_nodup _)
    (symExecDates_mem hs he ha) ?_ (fun d hd => uniqueDates_mem hs ha hd), hda]
  rw [hda]
  have := (symRows_sorted hu sym).filter (fun r => decide (r.date ∈ window))
  exact (List.pairwise_map.2 this).imp (fun h => ne_of_lt h)

/-- C40.  On the bar dated `t` a column read of a symbol that has traded in the
window gives the column's values in the symbol's rows of the window dated at most
`t`, in date order. -/
theorem column_read {rows : List DRow} (hu : UniqueBars rows) {cols : List String}
    {window : List Date} {execs : List Sym} {sym : Sym} (he : sym ∈ execs) {t : Date}
    (hb : barsTo rows window sym t ≠ []) {name : String} (hc : name ∈ cols) :
    ((storeOf cols rows).slice window).fetch sym name
      (some (barIndex cols rows window execs t sym : Int)) =
      .ok (some ((barsTo rows window sym t).map (fun r => r.val name))) := by
  rw [barsTo_eq hu] at hb ⊢
  rcases slice_arrays hu cols window sym with ⟨h, _⟩ | ⟨_, a, ha, hda, hca⟩
  · exfalso
    apply hb
    rw [List.filter_eq_nil_iff] at h ⊢
    intro r hr
    have := h r hr
    simp only [decide_eq_true_eq] at this ⊢
    exact fun hh => this hh.1
  · unfold Store.fetch
    rw [ha]
    simp only
    rw [hca, if_pos hc]
    simp only
    rw [bar_index hu cols window he t ha hda]
    unfold sliceTo
    simp only
    rw [if_neg (by omega), Int.toNat_natCast, ← List.map_take,
      take_count_filter ((symRows_sorted hu sym).filter _), List.filter_filter]
    have : ((symRows rows sym).filter (fun r => decide (r.date ≤ t) && decide (r.date ∈ window))) =
        (symRows rows sym).filter (fun r => decide (r.date ∈ window ∧ r.date ≤ t)) := by
      apply List.filter_congr
      intro r _
      simp [Bool.and_comm]
    rw [this]

theorem barsTo_congr {rows rows' : List DRow} {window window' : List Date} {t : Date} (sym : Sym)
    (hr : rows.filter (fun r => r.date ≤ t) = rows'.filter (fun r => r.date ≤ t))
    (hw : ∀ d ≤ t, d ∈ window ↔ d ∈ window') :
    barsTo rows window sym t = barsTo rows' window' sym t := by
  unfold barsTo
  congr 1
  have key : ∀ (l : List DRow) (w : List Date),
      l.filter (fun r => decide (r.symbol = sym ∧ r.date ∈ w ∧ r.date ≤ t)) =
      (l.filter (fun r => decide (r.date ≤ t))).filter
        (fun r => decide (r.symbol = sym ∧ r.date ∈ w)) := by
    intro l w
    rw [List.filter_filter]
    apply List.filter_congr
    intro r _
    by_cases h1 : r.symbol = sym <;> by_cases h2 : r.date ∈ w <;> by_cases h3 : r.date ≤ t <;>
      simp [h1, h2, h3]
  rw [key, key, hr]
  apply List.filter_congr
  intro r hmem
  have h3 : r.date ≤ t := by simpa using (List.mem_filter.1 hmem).2
  simp only [hw r.date h3]

/-- C40.  Altering, adding or removing rows dated after `t`, and dates after `t` of
the window, does not change a column read on the bar dated `t`. -/
theorem columns_no_future {rows rows' : List DRow} (hu : UniqueBars rows) (hu' : UniqueBars rows')
    {cols : List String} {window window' : List Date} {execs : List Sym} {sym : Sym}
    (he : sym ∈ execs) {t : Date}
    (hr : rows.filter (fun r => r.date ≤ t) = rows'.filter (fun r => r.date ≤ t))
    (hw : ∀ d ≤ t, d ∈ window ↔ d ∈ window')
    (hb : barsTo rows window sym t ≠ []) {name : String} (hc : name ∈ cols) :
    ((storeOf cols rows).slice window).fetch sym name
      (some (barIndex cols rows window execs t sym : Int)) =
    ((storeOf cols rows').slice window').fetch sym name
      (some (barIndex cols rows' window' execs t sym : Int)) := by
  have e := barsTo_congr (rows := rows) (rows' := rows') sym hr hw
  rw [column_read hu he hb hc, column_read hu' he (e ▸ hb) hc, e]

/-! ## C40: indicators -/

/-- The cache of a scope holds what would be computed. -/
def IndScope.Coherent (s : IndScope) : Prop :=
  ∀ name sym l, cacheGet s.cache (name, sym) = some l →
    ∃ ser, s.data name sym = some ser ∧ l = s.served name ser

/-- The result of a read without a cache. -/
def Spec.indRead (s : IndScope) (sym : Sym) (name : String) (e : Option Int) :
    Except ReadErr (List Cell) :=
  if s.bound name ∧ e.isSome then .error .intervalBound
  else match s.data name sym with
    | none => .error .indicatorNotFound
    | some ser => .ok (sliceTo (s.served name ser) e)

theorem fetch_coherent {s : IndScope} (h : s.Coherent) (sym : Sym) (name : String)
    (e : Option Int) : (s.fetch sym name e).1 = indRead s sym name e ∧
      (s.fetch sym name e).2.Coherent ∧ (s.fetch sym name e).2.data = s.data ∧
      (s.fetch sym name e).2.bound = s.bound ∧
      (s.fetch sym name e).2.filterDates = s.filterDates := by
  unfold IndScope.fetch indRead
  by_cases h0 : (s.bound name && e.isSome) = true
  · rw [if_pos h0, if_pos (by simpa using h0)]
    exact ⟨rfl, h, rfl, rfl, rfl⟩
  · rw [if_neg h0, if_neg (by simpa using h0)]
    rcases Option.eq_none_or_eq_some (cacheGet s.cache (name, sym)) with hc | ⟨l, hc⟩
    · rw [hc]
      simp only
      rcases Option.eq_none_or_eq_some (s.data name sym) with hd | ⟨ser, hd⟩
      · rw [hd]
        exact ⟨rfl, h, rfl, rfl, rfl⟩
      · rw [hd]
        refine ⟨rfl, ?_, rfl, rfl, rfl⟩
        intro name' sym' l' hl
        simp only [cacheGet] at hl
        split at hl
        · rename_i hk
          obtain ⟨rfl, rfl⟩ := Prod.mk.inj hk
          exact ⟨ser, hd, (Option.some.inj hl).symm⟩
        · exact h name' sym' l' hl
    · rw [hc]
      obtain ⟨ser, hd, hl⟩ := h name sym l hc
      rw [hd, hl]
      exact ⟨rfl, h, rfl, rfl, rfl⟩

/-- A sequence of reads of a scope. -/
def readAll (s : IndScope) : List (Sym × String × Option Int) →
    List (Except ReadErr (List Cell)) × IndScope
  | [] => ([], s)
  | (sym, name, e) :: rest =>
    let r := s.fetch sym name e
    let rs := readAll r.2 rest
    (r.1 :: rs.1, rs.2)

/-- Whatever has been read before, a read of an indicator gives what it would give
on a fresh scope. -/
theorem indicator_cache {s : IndScope} (h : s.cache = []) :
    ∀ reads, (readAll s reads).1 = reads.map (fun r => indRead s r.1 r.2.1 r.2.2) := by
  have gen : ∀ reads (s : IndScope), s.Coherent →
      (readAll s reads).1 = reads.map (fun r => indRead s r.1 r.2.1 r.2.2) := by
    intro reads
    induction reads with
    | nil => intro s _; rfl
    | cons r rest ih =>
      intro s hs
      obtain ⟨sym, name, e⟩ := r
      obtain ⟨h1, h2, h3, h4, h5⟩ := fetch_coherent hs sym name e
      unfold readAll
      simp only [List.map_cons]
      rw [h1, ih _ h2]
      congr 1
      apply List.map_congr_left
      intro r _
      unfold indRead IndScope.served
      rw [h3, h4, h5]
  intro reads
  refine gen reads s ?_
  intro name sym l hl
  rw [h] at hl
  cases hl

/-- An indicator that has no access to later bars: its values on the first `k`
bars are its values on those bars alone. -/
def Spec.CausalInd (ind : List DRow → List Cell) : Prop :=
  (∀ l, (ind l).length = l.length) ∧ ∀ l k, ind (l.take k) = (ind l).take k

/-- The series computed for a symbol: one value per bar of its whole history. -/
def Spec.seriesOf (ind : List DRow → List Cell) (rows : List DRow) (sym : Sym) : Series :=
  ((symRows rows sym).map DRow.date).zip (ind (symRows rows sym))

theorem zip_filter_take : ∀ {l : List DRow} {v : List Cell}, l.length = v.length →
    l.Pairwise (fun a b => a.date < b.date) → ∀ (window : List Date) (t : Date),
    ((((l.map DRow.date).zip v).filter (fun p => p.1 ∈ window)).map Prod.snd).take
      (((l.filter (fun r => r.date ∈ window)).map DRow.date).countP (· ≤ t)) =
    ((((l.filter (fun r => r.date ≤ t)).map DRow.date).zip
      (v.take (l.filter (fun r => r.date ≤ t)).length)).filter (fun p => p.1 ∈ window)).map
        Prod.snd := by
  intro l
  induction l with
  | nil => intro v _ _ w t; simp
  | cons r l ih =>
    intro v hv hp w t
    cases v with
    | nil => simp at hv
    | cons x v =>
      obtain ⟨h1, h2⟩ := List.pairwise_cons.1 hp
      have ih' := ih (v := v) (by simpa using hv) h2 w t
      by_cases ht : r.date ≤ t
      · rw [List.filter_cons_of_pos (l := l) (a := r) (p := fun r => decide (r.date ≤ t)) (by simpa using ht)]
        simp only [List.map_cons, List.zip_cons_cons, List.length_cons, List.take_succ_cons]
        by_cases hw : r.date ∈ w
        · rw [List.filter_cons_of_pos (by simpa using hw), List.filter_cons_of_pos (by simpa using hw),
            List.filter_cons_of_pos (by simpa using hw)]
          simp only [List.map_cons]
          rw [List.countP_cons_of_pos (by simpa using ht), List.take_succ_cons, ih']
        · rw [List.filter_cons_of_neg (by simpa using hw), List.filter_cons_of_neg (by simpa using hw),
            List.filter_cons_of_neg (by simpa using hw), ih']
      · have hall : ∀ y ∈ r :: l, ¬ y.date ≤ t := by
          intro y hy
          rcases List.mem_cons.1 hy with rfl | hy
          · exact ht
          · exact not_le.2 (lt_trans (not_le.1 ht) (h1 y hy))
        have e1 : (r :: l).filter (fun r => decide (r.date ≤ t)) = [] := by
          rw [List.filter_eq_nil_iff]
          intro y hy
          simpa using hall y hy
        have e2 : (((r :: l).filter (fun r => decide (r.date ∈ w))).map DRow.date).countP (· ≤ t) = 0 := by
          rw [List.countP_eq_zero]
          intro d hd
          obtain ⟨y, hy, rfl⟩ := List.mem_map.1 hd
          simpa using hall y (List.mem_filter.1 hy).1
        rw [e1, e2]
        simp

/-- C40.  On the bar dated `t` the values read of a causal indicator are those it
takes on the bars of the symbol dated at most `t`, restricted to the window: no
later bar has a part in them. -/
theorem indicator_read {rows : List DRow} (hu : UniqueBars rows) {cols : List String}
    {window : List Date} {execs : List Sym} {sym : Sym} (he : sym ∈ execs) {t : Date}
    (hb : barsTo rows window sym t ≠ []) {ind : List DRow → List Cell} (hi : CausalInd ind)
    {s : IndScope} {name : String} (hd : s.data name sym = some (seriesOf ind rows sym))
    (hbase : s.bound name = false)
    (hfilter : ∀ d, d ∈ s.filterDates ↔ d ∈ ((storeOf cols rows).slice window).uniqueDates) :
    indRead s sym name (some (barIndex cols rows window execs t sym : Int)) =
      .ok ((((barsTo rows (rows.map DRow.date) sym t).map DRow.date).zip
        (ind (barsTo rows (rows.map DRow.date) sym t))).filter (fun p => p.1 ∈ window) |>.map
          Prod.snd) := by
  have hall : barsTo rows (rows.map DRow.date) sym t =
      (symRows rows sym).filter (fun r => r.date ≤ t) := by
    rw [barsTo_eq hu]
    apply List.filter_congr
    intro r hr
    have : r ∈ rows := (List.mem_filter.1 ((symRows_perm rows sym).mem_iff.1 hr)).1
    have h2 : r.date ∈ rows.map DRow.date := List.mem_map.2 ⟨r, this, rfl⟩
    simp [h2]
  rcases slice_arrays hu cols window sym with ⟨h, _⟩ | ⟨_, a, ha, hda, _⟩
  · exfalso
    apply hb
    rw [barsTo_eq hu]
    rw [List.filter_eq_nil_iff] at h ⊢
    intro r hr
    have := h r hr
    simp only [decide_eq_true_eq] at this ⊢
    exact fun hh => this hh.1
  · unfold indRead
    rw [if_neg (by rw [hbase]; simp), hd]
    simp only
    rw [bar_index hu cols window he t ha hda]
    unfold IndScope.served
    rw [if_neg (by rw [hbase]; simp)]
    have hmask : (seriesOf ind rows sym).filter (fun p => decide (p.1 ∈ s.filterDates)) =
        (seriesOf ind rows sym).filter (fun p => decide (p.1 ∈ window)) := by
      apply List.filter_congr
      intro p hp
      have hp1 : p.1 ∈ (symRows rows sym).map DRow.date := by
        unfold seriesOf at hp
        exact (List.of_mem_zip hp).1
      obtain ⟨r, hr, hr1⟩ := List.mem_map.1 hp1
      have hiff : p.1 ∈ s.filterDates ↔ p.1 ∈ window := by
        rw [hfilter]
        constructor
        · intro h
          unfold Store.uniqueDates at h
          obtain ⟨x, hx, hx2⟩ := List.mem_flatMap.1
            (List.mem_dedup.1 ((List.perm_insertionSort _ _).mem_iff.1 h))
          rcases slice_arrays hu cols window x with ⟨_, hn⟩ | ⟨_, b, hbx, hdb, _⟩
          · rw [hn] at hx2; simp at hx2
          · rw [hbx] at hx2
            simp only [Option.map_some, Option.getD_some] at hx2
            rw [hdb] at hx2
            obtain ⟨y, hy, hye⟩ := List.mem_map.1 hx2
            have := (List.mem_filter.1 hy).2
            rw [← hye]
            simpa using this
        · intro h
          refine uniqueDates_mem (store_symbols_mem ha) ha ?_
          rw [hda]
          exact List.mem_map.2 ⟨r, List.mem_filter.2 ⟨hr, by rw [hr1]; simpa using h⟩, hr1⟩
      simp only [hiff]
    rw [hmask]
    unfold sliceTo
    simp only
    rw [if_neg (by omega), Int.toNat_natCast]
    unfold seriesOf
    rw [zip_filter_take (hi.1 _).symm (symRows_sorted hu sym), hall]
    congr 4
    have htk := take_count_filter (symRows_sorted hu sym) t
    have hlen : ((symRows rows sym).filter (fun r => decide (r.date ≤ t))).length =
        ((symRows rows sym).map DRow.date).countP (· ≤ t) := by
      rw [List.countP_map, List.countP_eq_length_filter]
      rfl
    rw [hlen, ← hi.2, htk]

/-! ## C41: single values -/

theorem lastAt_eq {l : List Cell} {e : Int} (he : 0 < e) {v : Cell} :
    lastAt l e = .ok v ↔ (sliceTo l (some e)).getLast? = some v := by
  unfold lastAt sliceTo
  rw [if_neg (not_le.2 he)]
  simp only
  rw [if_neg (not_lt.2 he.le), List.getLast?_eq_getElem?, List.length_take]
  have hidx : ((if (l.length : Int) < e then (l.length : Int) else e) - 1).toNat =
      min e.toNat l.length - 1 := by
    split <;> omega
  rw [hidx]
  rw [List.getElem?_take]
  by_cases hl : l.length = 0
  · have : l = [] := List.length_eq_zero_iff.1 hl
    subst this
    simp
  · rw [if_pos (by omega)]
    rcases Option.eq_none_or_eq_some (l[min e.toNat l.length - 1]?) with h | ⟨x, h⟩
    · rw [h]; simp
    · rw [h]
      constructor
      · intro h2; rw [Except.ok.inj h2]
      · intro h2; rw [Option.some.inj h2]

/-- C41.  A single value read at a positive index is the last value of the array
read at that index; an index past the end reads the last value of all; any other
index raises. -/
theorem column_value (s : Store) (sym : Sym) (name : String) (e : Int) :
    (∀ v, s.fetchValue sym name e = .ok (some v) ↔ 0 < e ∧ ∃ l,
      s.fetch sym name (some e) = .ok (some l) ∧ l.getLast? = some v) ∧
    (s.fetchValue sym name e = .ok none ↔ s.fetch sym name (some e) = .ok none) ∧
    (e ≤ 0 → ∀ l, s.fetch sym name none = .ok (some l) →
      s.fetchValue sym name e = .error .valueNotFound) ∧
    (∀ l, s.fetch sym name none = .ok (some l) → (l.length : Int) ≤ e → 0 < e →
      ∀ v, l.getLast? = some v → s.fetchValue sym name e = .ok (some v)) := by
  unfold Store.fetchValue Store.fetch
  cases s.arrays sym with
  | none => simp
  | some a =>
    simp only
    cases a.col name with
    | none => simp
    | some l =>
      simp only
      have hmap : ∀ v, (lastAt l e).map some = .ok (some v) ↔ lastAt l e = .ok v := by
        intro v
        cases lastAt l e with
        | error x => simp [Except.map]
        | ok x => simp [Except.map]
      refine ⟨?_, ?_, ?_, ?_⟩
      · intro v
        rw [hmap]
        by_cases he : 0 < e
        · rw [lastAt_eq he]
          simp [he]
        · constructor
          · intro h
            unfold lastAt at h
            rw [if_pos (not_lt.1 he)] at h
            cases h
          · rintro ⟨h, _⟩
            exact absurd h he
      · constructor
        · intro h
          cases hl : lastAt l e with
          | error x => rw [hl] at h; cases h
          | ok x => rw [hl] at h; simp [Except.map] at h
        · intro h
          simp at h
      · intro he l' _
        unfold lastAt
        rw [if_pos he]
        rfl
      · intro l' hl' hlen he v hv
        have e2 : l = l' := by
          have := Except.ok.inj hl'
          exact Option.some.inj this
        subst e2
        rw [hmap, lastAt_eq he]
        unfold sliceTo
        simp only
        rw [if_neg (not_lt.2 he.le), List.take_of_length_le (by omega)]
        exact hv

/-- C40.  On the bar dated `t` a scalar column read gives the column's value in the
symbol's last row of the window dated at most `t`. -/
theorem column_value_read {rows : List DRow} (hu : UniqueBars rows) {cols : List String}
    {window : List Date} {execs : List Sym} {sym : Sym} (he : sym ∈ execs) {t : Date}
    (hb : barsTo rows window sym t ≠ []) {name : String} (hc : name ∈ cols) :
    ((storeOf cols rows).slice window).fetchValue sym name
      (barIndex cols rows window execs t sym : Int) =
      .ok (some (((barsTo rows window sym t).getLast hb).val name)) := by
  have hr := column_read hu he hb hc
  refine ((column_value _ sym name _).1 _).2 ⟨?_, _, hr, ?_⟩
  · by_contra h0
    have hz : barIndex cols rows window execs t sym = 0 := by omega
    rw [hz] at hr
    have : (barsTo rows window sym t).map (fun r => r.val name) = [] := by
      unfold Store.fetch at hr
      split at hr
      · simp at hr
      · split at hr
        · cases hr
        · simp only [Except.ok.injEq, Option.some.injEq] at hr
          rw [← hr]
          simp [sliceTo]
    simp at this
    exact hb this
  · rw [List.getLast?_map, List.getLast?_eq_some_getLast hb]
    rfl

/-- C40.  Later rows have no part in a scalar column read. -/
theorem column_value_no_future {rows rows' : List DRow} (hu : UniqueBars rows)
    (hu' : UniqueBars rows') {cols : List String} {window window' : List Date} {execs : List Sym}
    {sym : Sym} (he : sym ∈ execs) {t : Date}
    (hr : rows.filter (fun r => r.date ≤ t) = rows'.filter (fun r => r.date ≤ t))
    (hw : ∀ d ≤ t, d ∈ window ↔ d ∈ window')
    (hb : barsTo rows window sym t ≠ []) {name : String} (hc : name ∈ cols) :
    ((storeOf cols rows).slice window).fetchValue sym name
      (barIndex cols rows window execs t sym : Int) =
    ((storeOf cols rows').slice window').fetchValue sym name
      (barIndex cols rows' window' execs t sym : Int) := by
  have e := barsTo_congr (rows := rows) (rows' := rows') sym hr hw
  have hb' : barsTo rows' window' sym t ≠ [] := e ▸ hb
  rw [column_value_read hu he hb hc, column_value_read hu' he hb' hc]
  simp only [e]

/-- C41 for indicators of the base timeframe. -/
theorem indicator_value {s : IndScope} (h : s.Coherent) (sym : Sym) (name : String)
    (hb : s.bound name = false) (e : Int) :
    (∀ v, (s.fetchValue sym name e).1 = .ok v ↔ 0 < e ∧ ∃ l,
      (s.fetch sym name (some e)).1 = .ok l ∧ l.getLast? = some v) ∧
    (e ≤ 0 → ∀ l, (s.fetch sym name none).1 = .ok l →
      (s.fetchValue sym name e).1 = .error .valueNotFound) := by
  have h1 := (fetch_coherent h sym name (some e)).1
  have h2 := (fetch_coherent h sym name none).1
  unfold IndScope.fetchValue
  rw [if_neg (by rw [hb]; simp)]
  rw [h1]
  rcases hf : s.fetch sym name none with ⟨r, s'⟩
  rw [hf] at h2
  simp only at h2
  unfold indRead at h2 ⊢
  rw [if_neg (by simp)] at h2
  rw [if_neg (by rw [hb]; simp)]
  cases hd : s.data name sym with
  | none =>
    rw [hd] at h2
    subst h2
    simp
  | some ser =>
    rw [hd] at h2
    simp only at h2
    subst h2
    simp only
    constructor
    · intro v
      by_cases he : 0 < e
      · rw [lastAt_eq he]
        simp [he, sliceTo]
      · constructor
        · intro h
          unfold lastAt at h
          rw [if_pos (not_lt.1 he)] at h
          cases h
        · rintro ⟨h, _⟩
          exact absurd h he
    · intro he l _
      unfold lastAt
      rw [if_pos he]

/-- An indicator computed on an interval cannot be read by base bar. -/
theorem interval_indicator_guarded {s : IndScope} (sym : Sym) {name : String}
    (hb : s.bound name = true) (e : Int) :
    (s.fetch sym name (some e)).1 = .error .intervalBound ∧
    (s.fetchValue sym name e).1 = .error .intervalBound := by
  unfold IndScope.fetch IndScope.fetchValue
  simp [hb]

/-! ## C42: per-bar predictions -/

/-- The filled part of the buffer is `l`. -/
def PerBar.Holds (p : PerBar) (l : List Cell) : Prop :=
  p.filled = l.length ∧ p.filled ≤ p.buf.length ∧ p.buf.take p.filled = l

theorem perBar_append {junk : Nat → Cell} {p : PerBar} {l : List Cell} (h : p.Holds l) (v : Cell) :
    (p.append junk v).Holds (l ++ [v]) := by
  obtain ⟨h1, h2, h3⟩ := h
  unfold PerBar.append
  simp only
  have key : ∀ buf : List Cell, p.filled < buf.length → buf.take p.filled = l →
      ({ buf := buf.set p.filled v, filled := p.filled + 1 } : PerBar).Holds (l ++ [v]) := by
    intro buf hlt ht
    refine ⟨by simp [h1], by simp; omega, ?_⟩
    simp only
    rw [List.take_add_one, List.take_set_of_le (le_refl _), ht]
    simp [hlt]
  split
  · rename_i he
    refine key _ ?_ ?_
    · rw [List.length_append, List.length_take, List.length_map, List.length_range]
      omega
    · rw [List.take_append_of_le_length (by rw [List.length_take]; omega), List.take_take,
        min_self]
      exact h3
  · rename_i he
    exact key _ (by omega) h3

theorem perBar_values {p : PerBar} {l : List Cell} (h : p.Holds l) (n : Int) :
    p.values n = l.take n.toNat := by
  obtain ⟨h1, h2, h3⟩ := h
  unfold PerBar.values
  rw [← h3, List.take_take]
  congr 1
  omega

/-- C42.  Whatever the spare cells of the buffer hold, after any appends the values
read are those appended, in order; and appending more does not change what an
earlier read returned. -/
theorem predictions_append_only (junk : Nat → Cell) (vs ws : List Cell) :
    let p := vs.foldl (PerBar.append junk) {}
    let q := ws.foldl (PerBar.append junk) p
    p.values p.filled = vs ∧ p.filled = vs.length ∧
    (∀ n : Int, p.values n = vs.take n.toNat) ∧
    q.values p.filled = p.values p.filled ∧ q.values q.filled = vs ++ ws := by
  have fold : ∀ (xs : List Cell) (p : PerBar) (l : List Cell), p.Holds l →
      (xs.foldl (PerBar.append junk) p).Holds (l ++ xs) := by
    intro xs
    induction xs with
    | nil => intro p l h; simpa using h
    | cons x xs ih =>
      intro p l h
      rw [List.foldl_cons]
      have := ih _ _ (perBar_append (junk := junk) h x)
      simpa using this
  have hp := fold vs {} [] ⟨rfl, le_refl _, rfl⟩
  rw [List.nil_append] at hp
  have hq := fold ws _ _ hp
  simp only
  refine ⟨?_, hp.1, fun n => perBar_values hp n, ?_, ?_⟩
  · rw [perBar_values hp, Int.toNat_natCast, hp.1, List.take_length]
  · rw [perBar_values hq, perBar_values hp, Int.toNat_natCast, hp.1, List.take_length,
      List.take_left]
  · rw [perBar_values hq, Int.toNat_natCast, hq.1, List.take_length]

/-! ## Concrete data

Two symbols; B does not trade on day 2.  On day 2 only the rows up to day 2 are
read, whatever day 3 holds. -/

def Demo.frame (x : ℚ) : List DRow :=
  [ { symbol := "A", date := 1, val := fun _ => some 10 },
    { symbol := "B", date := 1, val := fun _ => some 20 },
    { symbol := "A", date := 2, val := fun _ => some 11 },
    { symbol := "A", date := 3, val := fun _ => some x },
    { symbol := "B", date := 3, val := fun _ => some 21 } ]

theorem Demo.frame_unique (x : ℚ) : UniqueBars (Demo.frame x) := by
  unfold UniqueBars Demo.frame
  simp

theorem Demo.frame_bars : barsTo (Demo.frame 12) [1, 2, 3] "A" 2 ≠ [] := by
  have : (barsTo (Demo.frame 12) [1, 2, 3] "A" 2).length = 2 := by decide +kernel
  intro h
  rw [h] at this
  cases this

example := columns_no_future (Demo.frame_unique 12) (Demo.frame_unique 99) (cols := ["close"])
  (window := [1, 2, 3]) (window' := [1, 2, 3]) (execs := ["A", "B"]) (sym := "A") (t := 2)
  (by decide) (by rfl) (fun _ _ => Iff.rfl) Demo.frame_bars (name := "close") (by decide)

example : ((storeOf ["close"] (Demo.frame 12)).slice [1, 2, 3]).fetch "A" "close"
    (some (barIndex ["close"] (Demo.frame 12) [1, 2, 3] ["A", "B"] 2 "A" : Int)) =
    .ok (some [some 10, some 11]) := by
  rw [column_read (Demo.frame_unique 12) (by decide) Demo.frame_bars (by decide)]
  decide +kernel

example : activeSyms [("A", [1, 2, 3]), ("B", [1, 3])] [1, 2, 3] 2 = ["A"] := by decide
example : activeSyms [("A", [1, 2, 3]), ("B", [3, 1, 2])] [1, 2, 3] 2 = ["A", "B"] := by decide
example := active_exact (sd := [("A", [1, 2, 3]), ("B", [1, 3])]) (testDates := [1, 2, 3])
  (date := 2) (by decide)
example := bar_clock (sd := [("A", [1, 2, 3]), ("B", [1, 3])]) (by decide)
  (testDates := [1, 2, 3]) (by decide) (sym := "B") (ds := [1, 3]) (by decide) (by decide)
  (by decide) 2

/-- A running mean of the last two closes is causal. -/
def Demo.sum2 (l : List DRow) : List Cell :=
  (List.range l.length).map (fun i =>
    if i = 0 then none else
      match l[i]?, l[i - 1]? with
      | some a, some b => match a.val "close", b.val "close" with
        | some x, some y => some (x + y)
        | _, _ => none
      | _, _ => none)

theorem Demo.sum2_causal : CausalInd Demo.sum2 := by
  refine ⟨fun l => by simp [Demo.sum2], ?_⟩
  intro l k
  unfold Demo.sum2
  apply List.ext_getElem?
  intro i
  rw [List.getElem?_take, List.getElem?_map, List.getElem?_map]
  by_cases hi : i < k
  · rw [if_pos hi]
    by_cases hl : i < l.length
    · rw [List.getElem?_range (by rw [List.length_take]; omega), List.getElem?_range hl]
      simp only [Option.map_some]
      rw [List.getElem?_take_of_lt hi, List.getElem?_take_of_lt (by omega)]
    · have e : ∀ n, n ≤ i → (List.range n)[i]? = none := by
        intro n hn
        rw [List.getElem?_eq_none_iff, List.length_range]
        exact hn
      rw [e _ (by rw [List.length_take]; omega), e _ (by omega)]
      rfl
  · rw [if_neg hi]
    have : (List.range (l.take k).length)[i]? = none := by
      rw [List.getElem?_eq_none_iff, List.length_range, List.length_take]
      omega
    rw [this]
    rfl

def Demo.indScope : IndScope where
  data name sym := if name = "sum2" ∧ sym = "A" then
    some (seriesOf Demo.sum2 (Demo.frame 12) "A") else none
  bound _ := false
  filterDates := ((storeOf ["close"] (Demo.frame 12)).slice [1, 2, 3]).uniqueDates

example := indicator_read (Demo.frame_unique 12) (cols := ["close"]) (window := [1, 2, 3])
  (execs := ["A", "B"]) (sym := "A") (t := 2) (by decide) Demo.frame_bars Demo.sum2_causal
  (s := Demo.indScope) (name := "sum2") (by rfl) rfl (fun _ => Iff.rfl)

example := indicator_cache (s := Demo.indScope) rfl
example := aligned_positions (dates := [1, 2, 4, 7]) (target := [2, 3, 7]) (by decide) (by decide)
example : sortedIndices [1, 2, 4, 7] [2, 3, 7] 0 = [1, 3] := by decide +kernel
example : valuesForDates [(1, some 5), (3, some 6)] [1, 2, 3] = [some 5, none, some 6] := by
  decide +kernel
example := aligned_values (ser := [(1, some 5), (3, some 6)]) (by decide) [1, 2, 3] 1
example := predictions_append_only (fun _ => some 77) [some 1, none] [some 3]

end PyBroker
