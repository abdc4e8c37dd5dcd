import Verif.Interval.Model
import Mathlib.Data.List.Forall2
import Mathlib.Data.List.Chain
import Mathlib.Data.List.Flatten
import Mathlib.Data.List.Infix
import Mathlib.Tactic.Linarith
import Mathlib.Tactic.NormNum
import Mathlib.Tactic.FieldSimp

/-!
# Interval bars (C40, C45, C46, C47, C76)
-/

namespace PyBroker

/-! ## Specification -/

/-- `groups` cuts the bars, in order, into the runs of one bin: the bars of a group
have one bin and neighbouring groups have different ones. -/
structure Spec.BinGroups (bin : Date → Int) (bars : List IBar) (groups : List (List IBar)) :
    Prop where
  flat : groups.flatten = bars
  nonempty : ∀ g ∈ groups, g ≠ []
  same : ∀ g ∈ groups, ∀ a ∈ g, ∀ b ∈ g, bin a.date = bin b.date
  differ : groups.IsChain (fun g g' => ∀ a ∈ g, ∀ b ∈ g', bin a.date ≠ bin b.date)

/-- `groups` cuts the bars, in order, into groups of `k`, the last of which may be
short. -/
structure Spec.CountGroups (k : Nat) (bars : List IBar) (groups : List (List IBar)) : Prop where
  flat : groups.flatten = bars
  nonempty : ∀ g ∈ groups, g ≠ []
  full : ∀ g ∈ groups.dropLast, g.length = k
  last : ∀ g ∈ groups, g.length ≤ k

/-- `h` is the largest known value, or NaN when none is known. -/
def Spec.IsMaxKnown (l : List Cell) (h : Cell) : Prop :=
  match h with
  | none => ∀ x ∈ l, x = none
  | some h => some h ∈ l ∧ ∀ x, some x ∈ l → x ≤ h

/-- `h` is the smallest known value, or NaN when none is known. -/
def Spec.IsMinKnown (l : List Cell) (h : Cell) : Prop :=
  match h with
  | none => ∀ x ∈ l, x = none
  | some h => some h ∈ l ∧ ∀ x, some x ∈ l → h ≤ x

/-- The sum, or NaN when a value is NaN. -/
def Spec.cellSum (l : List Cell) : Cell :=
  if ∀ x ∈ l, x ≠ none then some (l.filterMap id).sum else none

/-- `c` is the compressed bar of the base bars `g`. -/
structure Spec.Compresses (g : List IBar) (c : IBar) : Prop where
  opn : g.head?.map IBar.opn = some c.opn
  close : g.getLast?.map IBar.close = some c.close
  date : g.getLast?.map IBar.date = some c.date
  custom : g.getLast?.map IBar.custom = some c.custom
  high : Spec.IsMaxKnown (g.map IBar.high) c.high
  low : Spec.IsMinKnown (g.map IBar.low) c.low
  volume : c.volume = Spec.cellSum (g.map IBar.volume)

open PyBroker.Spec

/-! ## Aggregates -/

theorem foldMax (f : IBar → Cell) : ∀ (g : List IBar) (h : Cell) (pre : List Cell),
    IsMaxKnown pre h → IsMaxKnown (pre ++ g.map f) (g.foldl (fun h b => cellMax h (f b)) h) := by
  intro g
  induction g with
  | nil => intro h pre hp; simpa using hp
  | cons b g ih =>
    intro h pre hp
    rw [List.foldl_cons, List.map_cons]
    have : IsMaxKnown (pre ++ [f b]) (cellMax h (f b)) := by
      unfold cellMax
      rcases hfb : f b with _ | x
      · cases h with
        | none =>
          intro y hy
          rcases List.mem_append.1 hy with hy | hy
          · exact hp y hy
          · simpa using hy
        | some h =>
          refine ⟨List.mem_append_left _ hp.1, ?_⟩
          intro y hy
          rcases List.mem_append.1 hy with hy | hy
          · exact hp.2 y hy
          · simp at hy
      · cases h with
        | none =>
          refine ⟨by simp, ?_⟩
          intro y hy
          rcases List.mem_append.1 hy with hy | hy
          · exact absurd (hp _ hy) (by simp)
          · have : y = x := by simpa using hy
            rw [this]
        | some h =>
          simp only
          split
          · rename_i hx
            refine ⟨by simp, ?_⟩
            intro y hy
            rcases List.mem_append.1 hy with hy | hy
            · exact le_trans (hp.2 y hy) hx.le
            · have : y = x := by simpa using hy
              rw [this]
          · rename_i hx
            refine ⟨List.mem_append_left _ hp.1, ?_⟩
            intro y hy
            rcases List.mem_append.1 hy with hy | hy
            · exact hp.2 y hy
            · have : y = x := by simpa using hy
              rw [this]
              exact not_lt.1 hx
    have h2 := ih _ _ this
    simpa using h2

theorem foldMin (f : IBar → Cell) : ∀ (g : List IBar) (h : Cell) (pre : List Cell),
    IsMinKnown pre h → IsMinKnown (pre ++ g.map f) (g.foldl (fun h b => cellMin h (f b)) h) := by
  intro g
  induction g with
  | nil => intro h pre hp; simpa using hp
  | cons b g ih =>
    intro h pre hp
    rw [List.foldl_cons, List.map_cons]
    have : IsMinKnown (pre ++ [f b]) (cellMin h (f b)) := by
      unfold cellMin
      rcases hfb : f b with _ | x
      · cases h with
        | none =>
          intro y hy
          rcases List.mem_append.1 hy with hy | hy
          · exact hp y hy
          · simpa using hy
        | some h =>
          refine ⟨List.mem_append_left _ hp.1, ?_⟩
          intro y hy
          rcases List.mem_append.1 hy with hy | hy
          · exact hp.2 y hy
          · simp at hy
      · cases h with
        | none =>
          refine ⟨by simp, ?_⟩
          intro y hy
          rcases List.mem_append.1 hy with hy | hy
          · exact absurd (hp _ hy) (by simp)
          · have : y = x := by simpa using hy
            rw [this]
        | some h =>
          simp only
          split
          · rename_i hx
            refine ⟨by simp, ?_⟩
            intro y hy
            rcases List.mem_append.1 hy with hy | hy
            · exact le_trans hx.le (hp.2 y hy)
            · have : y = x := by simpa using hy
              rw [this]
          · rename_i hx
            refine ⟨List.mem_append_left _ hp.1, ?_⟩
            intro y hy
            rcases List.mem_append.1 hy with hy | hy
            · exact hp.2 y hy
            · have : y = x := by simpa using hy
              rw [this]
              exact not_lt.1 hx
    have h2 := ih _ _ this
    simpa using h2

theorem fold_none (l : List Cell) : l.foldl cellAdd none = none := by
  induction l with
  | nil => rfl
  | cons x l ih => rw [List.foldl_cons]; exact ih

theorem fold_sum : ∀ (l : List Cell) (a : ℚ),
    l.foldl cellAdd (some a) = (cellSum l).map (a + ·) := by
  intro l
  induction l with
  | nil => intro a; simp [cellSum]
  | cons x l ih =>
    intro a
    rw [List.foldl_cons]
    cases x with
    | none =>
      have h1 : cellAdd (some a) none = none := rfl
      have h2 : cellSum (none :: l) = none := by
        unfold cellSum
        rw [if_neg]
        intro h
        exact h none List.mem_cons_self rfl
      rw [h1, fold_none, h2]
      rfl
    | some x =>
      have h1 : cellAdd (some a) (some x) = some (a + x) := rfl
      rw [h1, ih]
      unfold cellSum
      by_cases h : ∀ y ∈ l, y ≠ none
      · have h' : ∀ y ∈ some x :: l, y ≠ none := by
          intro y hy
          rcases List.mem_cons.1 hy with rfl | hy
          · simp
          · exact h y hy
        rw [if_pos h, if_pos h']
        simp [add_assoc]
      · rw [if_neg h, if_neg]
        · rfl
        · intro h'
          exact h (fun y hy => h' y (List.mem_cons_of_mem _ hy))

theorem fold_sum_map {α : Type} (f : α → Cell) (l : List α) :
    l.foldl (fun a b => cellAdd a (f b)) (some 0) = cellSum (l.map f) := by
  have h1 : l.foldl (fun a b => cellAdd a (f b)) (some 0) = (l.map f).foldl cellAdd (some 0) := by
    rw [List.foldl_map]
  rw [h1, fold_sum]
  cases cellSum (l.map f) <;> simp

/-! ## Segments -/

/-- Start and end of each group, counted from `off`. -/
def segsOf (off : Nat) : List (List IBar) → List (Nat × Nat)
  | [] => []
  | g :: gs => (off, off + g.length - 1) :: segsOf (off + g.length) gs

theorem segsOf_append (off : Nat) (a b : List (List IBar)) :
    segsOf off (a ++ b) = segsOf off a ++ segsOf (off + a.flatten.length) b := by
  induction a generalizing off with
  | nil => simp [segsOf]
  | cons g a ih =>
    simp only [List.cons_append, segsOf, ih, List.flatten_cons, List.length_append]
    rw [Nat.add_assoc]

theorem segsOf_length (off : Nat) (a : List (List IBar)) : (segsOf off a).length = a.length := by
  induction a generalizing off with
  | nil => rfl
  | cons g a ih => simp [segsOf, ih]

theorem segsOf_end {off : Nat} {a : List (List IBar)} (hne : ∀ g ∈ a, g ≠ []) :
    ∀ p ∈ segsOf off a, off ≤ p.2 ∧ p.2 < off + a.flatten.length := by
  induction a generalizing off with
  | nil => intro p hp; cases hp
  | cons g a ih =>
    intro p hp
    have hg : 0 < g.length := List.length_pos_of_ne_nil (hne g List.mem_cons_self)
    unfold segsOf at hp
    rw [List.flatten_cons, List.length_append]
    rcases List.mem_cons.1 hp with rfl | hp
    · simp only
      omega
    · have := ih (off := off + g.length) (fun x hx => hne x (List.mem_cons_of_mem _ hx)) p hp
      omega

/-- The aggregate of a group. -/
def aggOf (g : List IBar) : Option IBar := aggBin g (0, g.length - 1)

theorem aggBin_group {pre g post : List IBar} (hg : g ≠ []) :
    aggBin (pre ++ g ++ post) (pre.length, pre.length + g.length - 1) = aggOf g := by
  have hlen : 0 < g.length := List.length_pos_of_ne_nil hg
  unfold aggOf aggBin
  have h1 : (pre ++ g ++ post)[pre.length]? = g[0]? := by
    rw [List.append_assoc, List.getElem?_append_right (le_refl _), Nat.sub_self,
      List.getElem?_append_left hlen]
  have h2 : (pre ++ g ++ post)[pre.length + g.length - 1]? = g[g.length - 1]? := by
    rw [List.append_assoc, List.getElem?_append_right (by omega),
      List.getElem?_append_left (by omega)]
    congr 1
    omega
  have h3 : segment (pre ++ g ++ post) (pre.length, pre.length + g.length - 1) = g := by
    unfold segment
    simp only
    rw [List.append_assoc, List.drop_left, List.take_append_of_le_length (by omega),
      List.take_of_length_le (by omega)]
  have h4 : segment g (0, g.length - 1) = g := by
    unfold segment
    simp only
    rw [List.drop_zero, List.take_of_length_le (by omega)]
  simp only [h1, h2, h3, h4]

theorem aggOf_some {g : List IBar} (hg : g ≠ []) : ∃ c, aggOf g = some c ∧ Compresses g c := by
  have hlen : 0 < g.length := List.length_pos_of_ne_nil hg
  have h0 : g[0]? = some (g[0]'hlen) := List.getElem?_eq_getElem hlen
  have h1 : g[g.length - 1]? = some (g[g.length - 1]'(by omega)) :=
    List.getElem?_eq_getElem (by omega)
  have h4 : segment g (0, g.length - 1) = g := by
    unfold segment
    simp only
    rw [List.drop_zero, List.take_of_length_le (by omega)]
  unfold aggOf aggBin
  simp only [h0, h1, h4]
  refine ⟨_, rfl, ?_, ?_, ?_, ?_, ?_, ?_, ?_⟩
  · rw [List.head?_eq_getElem?, h0]; rfl
  · rw [List.getLast?_eq_getElem?, h1]; rfl
  · rw [List.getLast?_eq_getElem?, h1]; rfl
  · rw [List.getLast?_eq_getElem?, h1]; rfl
  · have := foldMax IBar.high g none [] (by intro x hx; cases hx)
    simpa using this
  · have := foldMin IBar.low g none [] (by intro x hx; cases hx)
    simpa using this
  · simp only
    exact fold_sum_map IBar.volume g

theorem agg_segs : ∀ (groups : List (List IBar)) (pre post : List IBar),
    (∀ g ∈ groups, g ≠ []) →
    (segsOf pre.length groups).filterMap (aggBin (pre ++ groups.flatten ++ post)) =
      groups.filterMap aggOf := by
  intro groups
  induction groups with
  | nil => intro pre post _; rfl
  | cons g gs ih =>
    intro pre post hne
    have hg := hne g List.mem_cons_self
    unfold segsOf
    rw [List.filterMap_cons, List.filterMap_cons]
    have e1 : pre ++ (g :: gs).flatten ++ post = pre ++ g ++ (gs.flatten ++ post) := by
      simp
    have e2 : pre ++ (g :: gs).flatten ++ post = (pre ++ g) ++ gs.flatten ++ post := by
      simp
    have h1 : aggBin (pre ++ (g :: gs).flatten ++ post) (pre.length, pre.length + g.length - 1) =
        aggOf g := by
      rw [e1, aggBin_group hg]
    have h2 := ih (pre ++ g) post (fun x hx => hne x (List.mem_cons_of_mem _ hx))
    rw [h1]
    rw [List.length_append, ← e2] at h2
    rw [h2]

theorem agg_forall : ∀ {groups : List (List IBar)}, (∀ g ∈ groups, g ≠ []) →
    List.Forall₂ Compresses groups (groups.filterMap aggOf) := by
  intro groups
  induction groups with
  | nil => intro _; exact List.Forall₂.nil
  | cons g gs ih =>
    intro hne
    obtain ⟨c, hc, hcc⟩ := aggOf_some (hne g List.mem_cons_self)
    rw [List.filterMap_cons, hc]
    exact List.Forall₂.cons hcc (ih (fun x hx => hne x (List.mem_cons_of_mem _ hx)))

theorem agg_take : ∀ {groups : List (List IBar)}, (∀ g ∈ groups, g ≠ []) → ∀ m,
    (groups.filterMap aggOf).take m = (groups.take m).filterMap aggOf := by
  intro groups
  induction groups with
  | nil => intro _ m; simp
  | cons g gs ih =>
    intro hne m
    obtain ⟨c, hc, _⟩ := aggOf_some (hne g List.mem_cons_self)
    cases m with
    | zero => rfl
    | succ m =>
      rw [List.filterMap_cons, hc]
      simp only [List.take_succ_cons]
      rw [List.filterMap_cons, hc]
      simp only
      rw [ih (fun x hx => hne x (List.mem_cons_of_mem _ hx))]

/-- The number of groups that have ended by bar `t`. -/
theorem ended_count {off : Nat} {groups : List (List IBar)} (hne : ∀ g ∈ groups, g ≠ [])
    (t : Nat) :
    ∃ m, ((segsOf off groups).filter (fun p => p.2 ≤ t)).length = m ∧ m ≤ groups.length ∧
      (m ≠ 0 → off + (groups.take m).flatten.length ≤ t + 1) ∧
      (m < groups.length → t + 1 < off + (groups.take (m + 1)).flatten.length) := by
  induction groups generalizing off with
  | nil => exact ⟨0, rfl, le_refl _, fun h => absurd rfl h, fun h => absurd h (by simp)⟩
  | cons g gs ih =>
    have hg : 0 < g.length := List.length_pos_of_ne_nil (hne g List.mem_cons_self)
    have hne' : ∀ x ∈ gs, x ≠ [] := fun x hx => hne x (List.mem_cons_of_mem _ hx)
    unfold segsOf
    by_cases h : off + g.length - 1 ≤ t
    · obtain ⟨m, h1, h2, h3, h4⟩ := ih (off := off + g.length) hne'
      refine ⟨m + 1, ?_, by simp; omega, ?_, ?_⟩
      · rw [List.filter_cons_of_pos (by simpa using h), List.length_cons, h1]
      · intro _
        rw [List.take_succ_cons, List.flatten_cons, List.length_append]
        by_cases hm : m = 0
        · subst hm; simp; omega
        · have := h3 hm
          omega
      · intro hm
        have := h4 (by simpa using hm)
        rw [List.take_succ_cons, List.flatten_cons, List.length_append]
        omega
    · refine ⟨0, ?_, by simp, fun h => absurd rfl h, ?_⟩
      · rw [List.length_eq_zero_iff, List.filter_eq_nil_iff]
        intro p hp
        rcases List.mem_cons.1 hp with rfl | hp
        · simpa using h
        · have := (segsOf_end hne' p hp).1
          simp only [decide_eq_true_eq]
          omega
      · intro _
        simp
        omega

/-! ## Runs of bins -/

/-- The runs of the bars, given the current run and its bin. -/
def runsFrom (bin : Date → Int) (cur : List IBar) (prev : Int) : List IBar → List (List IBar)
  | [] => [cur]
  | b :: bs =>
    if bin b.date ≠ prev then cur :: runsFrom bin [b] (bin b.date) bs
    else runsFrom bin (cur ++ [b]) (bin b.date) bs

def runs (bin : Date → Int) : List IBar → List (List IBar)
  | [] => []
  | b :: bs => runsFrom bin [b] (bin b.date) bs

theorem findBinsFrom_segs (bin : Date → Int) : ∀ (bs cur : List IBar) (prev : Int) (start : Nat),
    cur ≠ [] → findBinsFrom prev (start + cur.length) start (bs.map (fun b => bin b.date)) =
      segsOf start (runsFrom bin cur prev bs) := by
  intro bs
  induction bs with
  | nil => intro cur prev start _; rfl
  | cons b bs ih =>
    intro cur prev start hc
    rw [List.map_cons]
    unfold findBinsFrom runsFrom
    by_cases h : bin b.date ≠ prev
    · rw [if_pos h, if_pos h]
      unfold segsOf
      congr 1
      have := ih [b] (bin b.date) (start + cur.length) (by simp)
      simpa using this
    · rw [if_neg h, if_neg h]
      have := ih (cur ++ [b]) (bin b.date) start (by simp)
      rw [List.length_append, List.length_singleton, ← Nat.add_assoc] at this
      exact this

theorem findBins_segs (bin : Date → Int) (bars : List IBar) :
    findBins (bars.map (fun b => bin b.date)) = segsOf 0 (runs bin bars) := by
  cases bars with
  | nil => rfl
  | cons b bs =>
    have := findBinsFrom_segs bin bs [b] (bin b.date) 0 (by simp)
    simpa [findBins, runs] using this

theorem runsFrom_head (bin : Date → Int) : ∀ (bs cur : List IBar) (prev : Int),
    ∃ g gs, runsFrom bin cur prev bs = (cur ++ g) :: gs ∧ ∀ x ∈ g, bin x.date = prev := by
  intro bs
  induction bs with
  | nil => intro cur prev; exact ⟨[], [], by simp [runsFrom], by simp⟩
  | cons b bs ih =>
    intro cur prev
    unfold runsFrom
    by_cases h : bin b.date ≠ prev
    · rw [if_pos h]
      exact ⟨[], _, by simp; rfl, by simp⟩
    · rw [if_neg h]
      obtain ⟨g, gs, hg, hx⟩ := ih (cur ++ [b]) (bin b.date)
      refine ⟨b :: g, gs, by rw [hg]; simp, ?_⟩
      have hb : bin b.date = prev := not_not.1 h
      intro x hx'
      rcases List.mem_cons.1 hx' with rfl | hx'
      · exact hb
      · rw [hx x hx', hb]

theorem runsFrom_groups (bin : Date → Int) : ∀ (bs cur : List IBar) (prev : Int), cur ≠ [] →
    (∀ x ∈ cur, bin x.date = prev) → BinGroups bin (cur ++ bs) (runsFrom bin cur prev bs) := by
  intro bs
  induction bs with
  | nil =>
    intro cur prev hc hp
    unfold runsFrom
    exact ⟨by simp, by simpa using hc, by
      intro g hg a ha b hb
      have : g = cur := by simpa using hg
      subst this
      rw [hp a ha, hp b hb], List.isChain_singleton _⟩
  | cons b bs ih =>
    intro cur prev hc hp
    unfold runsFrom
    by_cases h : bin b.date ≠ prev
    · rw [if_pos h]
      obtain ⟨f1, f2, f3, f4⟩ := ih [b] (bin b.date) (by simp) (by simp)
      refine ⟨by rw [List.flatten_cons, f1]; simp, ?_, ?_, ?_⟩
      · intro g hg
        rcases List.mem_cons.1 hg with rfl | hg
        · exact hc
        · exact f2 g hg
      · intro g hg a ha x hx
        rcases List.mem_cons.1 hg with rfl | hg
        · rw [hp a ha, hp x hx]
        · exact f3 g hg a ha x hx
      · obtain ⟨g, gs, hg, hx⟩ := runsFrom_head bin bs [b] (bin b.date)
        rw [hg] at f4 ⊢
        refine List.IsChain.cons_cons ?_ f4
        intro a ha x hx'
        rw [hp a ha]
        have : bin x.date = bin b.date := by
          rcases List.mem_append.1 hx' with hx' | hx'
          · have : x = b := by simpa using hx'
            rw [this]
          · exact hx x hx'
        rw [this]
        exact Ne.symm h
    · rw [if_neg h]
      have hb : bin b.date = prev := not_not.1 h
      have := ih (cur ++ [b]) (bin b.date) (by simp) (by
        intro x hx
        rcases List.mem_append.1 hx with hx | hx
        · rw [hp x hx, hb]
        · have : x = b := by simpa using hx
          rw [this])
      simpa using this

theorem runs_groups (bin : Date → Int) (bars : List IBar) : BinGroups bin bars (runs bin bars) := by
  cases bars with
  | nil => exact ⟨rfl, by simp [runs], by simp [runs], List.isChain_nil⟩
  | cons b bs =>
    have := runsFrom_groups bin bs [b] (bin b.date) (by simp) (by simp)
    simpa [runs] using this

theorem compressBins_eq (bin : Date → Int) (bars : List IBar) :
    compressBins bin bars = ((runs bin bars).filterMap aggOf,
      computeCompleted bars.length (segsOf 0 (runs bin bars))) := by
  unfold compressBins
  rw [findBins_segs]
  have hg := runs_groups bin bars
  have := agg_segs (runs bin bars) [] [] hg.nonempty
  simp only [List.nil_append, List.append_nil, List.length_nil, hg.flat] at this
  simp only [this]

theorem completed_at {n t : Nat} (ht : t < n) {groups : List (List IBar)}
    (hne : groups ≠ []) (hne' : ∀ g ∈ groups, g ≠ []) :
    (computeCompleted n (segsOf 0 groups))[t]? = some
      (((min ((segsOf 0 groups).filter (fun p => p.2 ≤ t)).length (groups.length - 1) : Nat) : Int)
        - 1) := by
  unfold computeCompleted
  rw [List.getElem?_map, List.getElem?_range ht, Option.map_some]
  have hlen := segsOf_length 0 groups
  have hpos := List.length_pos_of_ne_nil hne
  have hnil : segsOf 0 groups ≠ [] := by
    intro h
    rw [h] at hlen
    simp at hlen
    omega
  rw [if_neg hnil, hlen]
  obtain ⟨m, hm, hle, _⟩ := ended_count (off := 0) hne' t
  rw [hm]
  congr 1
  split
  · rename_i h
    omega
  · rename_i h
    omega

/-- C45, C46 and C47 for calendar and duration intervals.  The base bars are cut, in
order, into the runs of one bin; each compressed bar is the compression of its run.
On base bar `t` the first `m` compressed bars are visible, where all their base bars
are at or before `t`, the last run (which may still be forming) is not among them,
and the next run, unless it is the last, ends after `t`. -/
theorem calendar_compress (bin : Date → Int) (bars : List IBar) :
    ∃ groups, BinGroups bin bars groups ∧
      List.Forall₂ Compresses groups (compressBins bin bars).1 ∧
      (compressBins bin bars).2.length = bars.length ∧
      ∀ t < bars.length, ∃ m : Nat, (compressBins bin bars).2[t]? = some ((m : Int) - 1) ∧
        m < groups.length ∧ (groups.take m).flatten.length ≤ t + 1 ∧
        (m + 1 < groups.length → t + 1 < (groups.take (m + 1)).flatten.length) := by
  have hg := runs_groups bin bars
  refine ⟨runs bin bars, hg, ?_, ?_, ?_⟩
  · rw [compressBins_eq]
    exact agg_forall hg.nonempty
  · rw [compressBins_eq]
    simp [computeCompleted]
  · intro t ht
    have hne : runs bin bars ≠ [] := by
      intro h
      have := hg.flat
      rw [h] at this
      rw [← this] at ht
      simp at ht
    have hpos := List.length_pos_of_ne_nil hne
    rw [compressBins_eq]
    simp only
    obtain ⟨c, hc, hle, h3, h4⟩ := ended_count (off := 0) hg.nonempty t
    rw [completed_at ht hne hg.nonempty, hc]
    refine ⟨min c ((runs bin bars).length - 1), rfl, by omega, ?_, ?_⟩
    · by_cases h0 : min c ((runs bin bars).length - 1) = 0
      · rw [h0]; simp
      · have h5 := h3 (by omega)
        have : ((runs bin bars).take (min c ((runs bin bars).length - 1))).flatten.length ≤
            ((runs bin bars).take c).flatten.length := by
          rw [show min c ((runs bin bars).length - 1) =
            min (min c ((runs bin bars).length - 1)) c by omega, ← List.take_take]
          apply List.Sublist.length_le
          exact (List.take_sublist _ _).flatten
        omega
    · intro h
      have : min c ((runs bin bars).length - 1) = c := by omega
      rw [this]
      have := h4 (by omega)
      omega

/-! ## Groups of `k` bars -/

/-- The groups of `k` bars. -/
def chunks (k : Nat) (bars : List IBar) : List (List IBar) :=
  (List.range (bars.length / k)).map (fun i => (bars.drop (i * k)).take k) ++
    (if bars.length / k * k < bars.length then [bars.drop (bars.length / k * k)] else [])

theorem chunks_full (k : Nat) (bars : List IBar) : ∀ q, q * k ≤ bars.length →
    ((List.range q).map (fun i => (bars.drop (i * k)).take k)).flatten = bars.take (q * k) := by
  intro q
  induction q with
  | zero => intro _; simp
  | succ q ih =>
    intro h
    have h' : q * k ≤ bars.length := le_trans (Nat.mul_le_mul_right _ (Nat.le_succ q)) h
    rw [List.range_succ, List.map_append, List.flatten_append, ih h']
    simp only [List.map_cons, List.map_nil, List.flatten_cons, List.flatten_nil, List.append_nil]
    rw [Nat.succ_mul, List.take_add]

theorem chunks_flatten (k : Nat) (bars : List IBar) : (chunks k bars).flatten = bars := by
  unfold chunks
  rw [List.flatten_append, chunks_full k bars _ (Nat.div_mul_le_self _ _)]
  split
  · rw [List.flatten_cons, List.flatten_nil, List.append_nil, List.take_append_drop]
  · rw [List.flatten_nil, List.append_nil, List.take_of_length_le (by omega)]

theorem chunk_length {k : Nat} {bars : List IBar} {i q : Nat} (hi : i < q)
    (hq : q * k ≤ bars.length) : ((bars.drop (i * k)).take k).length = k := by
  rw [List.length_take, List.length_drop]
  have : (i + 1) * k ≤ q * k := Nat.mul_le_mul_right _ hi
  rw [Nat.succ_mul] at this
  omega

theorem chunks_groups {k : Nat} (hk : 0 < k) (bars : List IBar) :
    CountGroups k bars (chunks k bars) := by
  have hq := Nat.div_mul_le_self bars.length k
  have hmod : bars.length - bars.length / k * k < k := by
    have := Nat.mod_lt bars.length hk
    have h2 := Nat.div_add_mod bars.length k
    rw [Nat.mul_comm] at h2
    omega
  have hfull : ∀ g ∈ (List.range (bars.length / k)).map (fun i => (bars.drop (i * k)).take k),
      g.length = k := by
    intro g hg
    obtain ⟨i, hi, rfl⟩ := List.mem_map.1 hg
    exact chunk_length (List.mem_range.1 hi) hq
  refine ⟨chunks_flatten k bars, ?_, ?_, ?_⟩
  · intro g hg
    unfold chunks at hg
    rcases List.mem_append.1 hg with hg | hg
    · intro h
      have := hfull g hg
      rw [h] at this
      simp at this
      omega
    · split at hg
      · have : g = bars.drop (bars.length / k * k) := by simpa using hg
        rw [this]
        intro h
        have := congrArg List.length h
        rw [List.length_drop] at this
        simp at this
        omega
      · cases hg
  · intro g hg
    unfold chunks at hg
    split at hg
    · rw [List.dropLast_concat] at hg
      exact hfull g hg
    · rw [List.append_nil] at hg
      exact hfull g (List.mem_of_mem_dropLast hg)
  · intro g hg
    unfold chunks at hg
    rcases List.mem_append.1 hg with hg | hg
    · rw [hfull g hg]
    · split at hg
      · have : g = bars.drop (bars.length / k * k) := by simpa using hg
        rw [this, List.length_drop]
        omega
      · cases hg

theorem everyNSegs_eq (k : Nat) (bars : List IBar) :
    everyNSegs k bars.length = segsOf 0 (chunks k bars) := by
  have hq := Nat.div_mul_le_self bars.length k
  have key : ∀ q, q * k ≤ bars.length →
      segsOf 0 ((List.range q).map (fun i => (bars.drop (i * k)).take k)) =
        (List.range q).map (fun i => (i * k, i * k + k - 1)) := by
    intro q
    induction q with
    | zero => intro _; rfl
    | succ q ih =>
      intro h
      have h' : q * k ≤ bars.length := le_trans (Nat.mul_le_mul_right _ (Nat.le_succ q)) h
      rw [List.range_succ, List.map_append, List.map_append, segsOf_append, ih h',
        chunks_full k bars q h', List.length_take, min_eq_left h']
      simp only [List.map_cons, List.map_nil, segsOf, Nat.zero_add]
      rw [chunk_length (Nat.lt_succ_self q) h]
  unfold everyNSegs chunks
  simp only
  rw [segsOf_append, key _ hq, chunks_full k bars _ hq, List.length_take, min_eq_left hq]
  congr 1
  split
  · simp only [segsOf, Nat.zero_add, List.length_drop]
    congr 2
    omega
  · rfl

theorem everyN_completed {k n t : Nat} (hk : 0 < k) (ht : t < n) :
    (everyNCompleted k n)[t]? = some ((((t + 1) / k : Nat) : Int) - 1) := by
  unfold everyNCompleted
  rw [List.getElem?_map, List.getElem?_range ht, Option.map_some]
  simp only
  congr 1
  have h1 := Nat.div_add_mod t k
  have hm := Nat.mod_lt t hk
  by_cases hlast : t % k = k - 1
  · have e : (t + 1) / k = t / k + 1 := by
      have : t + 1 = k * (t / k + 1) := by rw [Nat.mul_add]; omega
      rw [this, Nat.mul_div_cancel_left _ hk]
    rw [if_neg, if_pos hlast, e]
    · push_cast; omega
    · rintro ⟨hn, hd⟩
      have h2 := Nat.div_add_mod (n - 1) k
      have hm2 := Nat.mod_lt (n - 1) hk
      rw [← hd] at h2
      have : n = k * (t / k + 1) := by rw [Nat.mul_add]; omega
      rw [this, Nat.mul_mod_right] at hn
      exact hn rfl
  · have e : (t + 1) / k = t / k := by
      rw [Nat.succ_div, if_neg, Nat.add_zero]
      rintro ⟨c, hc⟩
      have : t = k * c - 1 := by omega
      have hc0 : c ≠ 0 := by rintro rfl; simp at hc
      obtain ⟨c', rfl⟩ : ∃ c', c = c' + 1 := ⟨c - 1, by omega⟩
      have : t = k * c' + (k - 1) := by rw [Nat.mul_add] at this; omega
      rw [this, Nat.mul_add_mod, Nat.mod_eq_of_lt (by omega)] at hlast
      exact hlast rfl
    rw [e, if_neg hlast]
    split
    · rename_i h
      rw [h.2]
    · rfl

theorem chunks_take {k : Nat} (hk : 0 < k) {bars : List IBar} {m : Nat}
    (hm : m * k ≤ bars.length) :
    (chunks k bars).take m = (List.range m).map (fun i => (bars.drop (i * k)).take k) := by
  have hle : m ≤ bars.length / k := (Nat.le_div_iff_mul_le hk).2 hm
  unfold chunks
  rw [List.take_append_of_le_length (by simpa using hle), ← List.map_take, List.take_range,
    min_eq_left hle]

/-- C45, C46 and C47 for an interval of `k` bars.  The base bars are cut, in order,
into groups of `k`, of which only the last may be short; each compressed bar is the
compression of its group.  On base bar `t` the first `(t + 1) / k` compressed bars
are visible: those whose `k` base bars are all at or before `t`. -/
theorem count_compress {k : Nat} (hk : 0 < k) (bars : List IBar) :
    ∃ groups, CountGroups k bars groups ∧
      List.Forall₂ Compresses groups (compressEveryN k bars).1 ∧
      (compressEveryN k bars).2.length = bars.length ∧
      ∀ t < bars.length, ∃ m : Nat, (compressEveryN k bars).2[t]? = some ((m : Int) - 1) ∧
        m = (t + 1) / k ∧ (groups.take m).flatten = bars.take (m * k) ∧ m * k ≤ t + 1 ∧
        t + 1 < (m + 1) * k := by
  have hg := chunks_groups hk bars
  refine ⟨chunks k bars, hg, ?_, ?_, ?_⟩
  · unfold compressEveryN
    rw [everyNSegs_eq k]
    have := agg_segs (chunks k bars) [] [] hg.nonempty
    simp only [List.nil_append, List.append_nil, List.length_nil, hg.flat] at this
    simp only
    rw [this]
    exact agg_forall hg.nonempty
  · simp [compressEveryN, everyNCompleted]
  · intro t ht
    have h1 : (t + 1) / k * k ≤ t + 1 := Nat.div_mul_le_self _ _
    refine ⟨(t + 1) / k, everyN_completed hk ht, rfl, ?_, h1, ?_⟩
    · rw [chunks_take hk (by omega), chunks_full k bars _ (by omega)]
    · rw [Nat.succ_mul]
      have := Nat.div_add_mod (t + 1) k
      have h2 := Nat.mod_lt (t + 1) hk
      rw [Nat.mul_comm] at this
      omega

/-! ## C47: the visible index never decreases -/

/-- C47.  Once visible, a compressed bar stays visible. -/
theorem visible_monotone (bin : Date → Int) (k : Nat) (hk : 0 < k) (bars : List IBar) :
    (compressBins bin bars).2.Pairwise (· ≤ ·) ∧ (compressEveryN k bars).2.Pairwise (· ≤ ·) := by
  constructor
  · rw [compressBins_eq]
    simp only
    have hg := runs_groups bin bars
    rw [List.pairwise_iff_getElem]
    intro i j hi hj hij
    have hn : j < bars.length := by simpa [computeCompleted] using hj
    have hne : runs bin bars ≠ [] := by
      intro h
      have := hg.flat
      rw [h] at this
      rw [← this] at hn
      simp at hn
    have h1 := completed_at (t := i) (lt_trans hij hn) hne hg.nonempty
    have h2 := completed_at (t := j) hn hne hg.nonempty
    rw [List.getElem?_eq_getElem hi] at h1
    rw [List.getElem?_eq_getElem hj] at h2
    rw [Option.some.inj h1, Option.some.inj h2]
    have : ((segsOf 0 (runs bin bars)).filter (fun p => p.2 ≤ i)).length ≤
        ((segsOf 0 (runs bin bars)).filter (fun p => p.2 ≤ j)).length := by
      apply List.Sublist.length_le
      apply List.monotone_filter_right
      intro p hp
      simp only [decide_eq_true_eq] at hp ⊢
      omega
    omega
  · unfold compressEveryN
    simp only
    rw [List.pairwise_iff_getElem]
    intro i j hi hj hij
    have hn : j < bars.length := by simpa [everyNCompleted] using hj
    have h1 := everyN_completed (t := i) hk (lt_trans hij hn)
    have h2 := everyN_completed (t := j) hk hn
    rw [List.getElem?_eq_getElem hi] at h1
    rw [List.getElem?_eq_getElem hj] at h2
    rw [Option.some.inj h1, Option.some.inj h2]
    have : (i + 1) / k ≤ (j + 1) / k := Nat.div_le_div_right (by omega)
    omega

/-! ## C40: later bars and interval bars -/

/-- The compressed bars visible on base bar `t`. -/
def visibleOn (out : List IBar × List Int) (t : Nat) : List IBar :=
  match out.2[t]? with
  | some i => out.1.take (i + 1).toNat
  | none => []

theorem compressEveryN_eq {k : Nat} (hk : 0 < k) (bars : List IBar) :
    (compressEveryN k bars).1 = (chunks k bars).filterMap aggOf := by
  unfold compressEveryN
  rw [everyNSegs_eq k]
  have hg := chunks_groups hk bars
  have := agg_segs (chunks k bars) [] [] hg.nonempty
  simp only [List.nil_append, List.append_nil, List.length_nil, hg.flat] at this
  simp only
  rw [this]

/-- C40.  With an interval of `k` bars, the compressed bars visible on base bar `t` do
not depend on the base bars after it. -/
theorem count_no_future {k : Nat} (hk : 0 < k) {bars bars' : List IBar} {t : Nat}
    (ht : t < bars.length) (ht' : t < bars'.length)
    (h : bars.take (t + 1) = bars'.take (t + 1)) :
    visibleOn (compressEveryN k bars) t = visibleOn (compressEveryN k bars') t := by
  have key : ∀ bars : List IBar, t < bars.length → visibleOn (compressEveryN k bars) t =
      ((List.range ((t + 1) / k)).map (fun i => ((bars.take (t + 1)).drop (i * k)).take k)).filterMap
        aggOf := by
    intro bars ht
    unfold visibleOn
    have h1 : (compressEveryN k bars).2[t]? = some ((((t + 1) / k : Nat) : Int) - 1) :=
      everyN_completed hk ht
    rw [h1]
    simp only
    have e : ((((t + 1) / k : Nat) : Int) - 1 + 1).toNat = (t + 1) / k := by
      rw [Int.sub_add_cancel, Int.toNat_natCast]
    have hle := Nat.div_mul_le_self (t + 1) k
    rw [e, compressEveryN_eq hk, agg_take (chunks_groups hk bars).nonempty,
      chunks_take hk (le_trans hle ht)]
    congr 1
    apply List.map_congr_left
    intro i hi
    have hi' : (i + 1) * k ≤ (t + 1) / k * k :=
      Nat.mul_le_mul_right _ (List.mem_range.1 hi)
    rw [Nat.succ_mul] at hi'
    have hlast := le_trans hi' hle
    rw [List.drop_take, List.take_take, min_eq_left (by generalize i * k = q at *; omega)]
  rw [key bars ht, key bars' ht', h]

theorem runsFrom_append (bin : Date → Int) : ∀ (a bs cur : List IBar) (prev : Int),
    cur ≠ [] → (∀ x ∈ cur, bin x.date = prev) →
    ∃ G lastg p, runsFrom bin cur prev a = G ++ [lastg] ∧
      runsFrom bin cur prev (a ++ bs) = G ++ runsFrom bin lastg p bs ∧ lastg ≠ [] ∧
      (∀ x ∈ lastg, bin x.date = p) := by
  intro a
  induction a with
  | nil =>
    intro bs cur prev hc hp
    exact ⟨[], cur, prev, rfl, rfl, hc, hp⟩
  | cons b a ih =>
    intro bs cur prev hc hp
    rw [List.cons_append]
    simp only [runsFrom]
    by_cases h : bin b.date ≠ prev
    · rw [if_pos h, if_pos h]
      obtain ⟨G, l, p, h1, h2, h3, h4⟩ := ih bs [b] (bin b.date) (by simp) (by simp)
      exact ⟨cur :: G, l, p, by rw [h1]; rfl, by rw [h2]; rfl, h3, h4⟩
    · rw [if_neg h, if_neg h]
      have hb : bin b.date = prev := not_not.1 h
      exact ih bs (cur ++ [b]) (bin b.date) (by simp) (by
        intro x hx
        rcases List.mem_append.1 hx with hx | hx
        · rw [hp x hx, hb]
        · have : x = b := by simpa using hx
          rw [this])

/-- C40, what holds for calendar and duration intervals.  The compressed bars visible
on base bar `t` are those of the base bars up to `t`, without the run `t` is in, and
with that run exactly when a next base bar exists and is in another bin.  So no later
price has a part in them; what later bars do decide is whether the run ending at `t`
is already shown. -/
theorem calendar_visible_partial (bin : Date → Int) {bars : List IBar} {t : Nat}
    (ht : t < bars.length) :
    ∃ G lastg, BinGroups bin (bars.take (t + 1)) (G ++ [lastg]) ∧
      G ++ [lastg] = runs bin (bars.take (t + 1)) ∧
      visibleOn (compressBins bin bars) t =
        if (bars[t + 1]?).any (fun b => bin b.date ≠ bin (bars[t]'ht).date)
        then (G ++ [lastg]).filterMap aggOf else G.filterMap aggOf := by
  have hsplit : bars = bars.take (t + 1) ++ bars.drop (t + 1) := (List.take_append_drop _ _).symm
  obtain ⟨b0, a, ha⟩ : ∃ b0 a, bars.take (t + 1) = b0 :: a := by
    cases h : bars.take (t + 1) with
    | nil =>
      have := congrArg List.length h
      rw [List.length_take, List.length_nil] at this
      omega
    | cons b a => exact ⟨b, a, rfl⟩
  obtain ⟨G, lastg, p, h1, h2, h3, h4⟩ := runsFrom_append bin a (bars.drop (t + 1)) [b0] (bin b0.date)
    (by simp) (by simp)
  have hr1 : runs bin (bars.take (t + 1)) = G ++ [lastg] := by rw [ha]; exact h1
  have hr2 : runs bin bars = G ++ runsFrom bin lastg p (bars.drop (t + 1)) := by
    conv_lhs => rw [hsplit, ha]
    exact h2
  have hgp := runs_groups bin (bars.take (t + 1))
  have hg := runs_groups bin bars
  refine ⟨G, lastg, hr1 ▸ hgp, hr1.symm, ?_⟩
  have hflat : G.flatten.length + lastg.length = t + 1 := by
    have := congrArg List.length hgp.flat
    rw [hr1, List.flatten_append, List.length_append, List.length_take, List.flatten_cons,
      List.flatten_nil, List.append_nil] at this
    omega
  have hlastbar : bin (bars[t]'ht).date = p := by
    have hmem : bars[t]'ht ∈ lastg := by
      have hl : (bars.take (t + 1)).getLast? = some (bars[t]'ht) := by
        rw [List.getLast?_eq_getElem?, List.length_take, List.getElem?_take,
          show min (t + 1) bars.length - 1 = t by omega, if_pos (by omega),
          List.getElem?_eq_getElem ht]
      have hf := hgp.flat
      rw [hr1, List.flatten_append] at hf
      simp only [List.flatten_cons, List.flatten_nil, List.append_nil] at hf
      rw [← hf, List.getLast?_append_of_ne_nil _ h3] at hl
      exact List.mem_of_getLast? hl
    exact h4 _ hmem
  have hne : runs bin bars ≠ [] := by
    rw [hr2]
    obtain ⟨g, gs, he, _⟩ := runsFrom_head bin (bars.drop (t + 1)) lastg p
    rw [he]
    simp
  have hGne : ∀ g ∈ G, g ≠ [] := fun g h => hgp.nonempty g (by rw [hr1]; exact List.mem_append_left _ h)
  have hcount : ((segsOf 0 (runs bin bars)).filter (fun p => p.2 ≤ t)).length =
      G.length + ((segsOf G.flatten.length (runsFrom bin lastg p (bars.drop (t + 1)))).filter
        (fun p => p.2 ≤ t)).length := by
    rw [hr2, segsOf_append, List.filter_append, List.length_append, Nat.zero_add]
    congr 1
    rw [List.filter_eq_self.2, segsOf_length]
    intro q hq
    have := (segsOf_end hGne q hq).2
    simp only [decide_eq_true_eq]
    omega
  have hvis : visibleOn (compressBins bin bars) t =
      ((runs bin bars).take (min ((segsOf 0 (runs bin bars)).filter (fun p => p.2 ≤ t)).length
        ((runs bin bars).length - 1))).filterMap aggOf := by
    unfold visibleOn
    rw [compressBins_eq]
    simp only
    rw [completed_at ht hne hg.nonempty]
    simp only
    rw [← agg_take hg.nonempty]
    congr 1
    omega
  rw [hvis, hcount]
  have hlg : 0 < lastg.length := List.length_pos_of_ne_nil h3
  rcases hd : bars.drop (t + 1) with _ | ⟨b, bs⟩
  · have hnone : bars[t + 1]? = none := by
      have := congrArg List.length hd
      rw [List.length_drop] at this
      simp at this
      rw [List.getElem?_eq_none_iff]
      omega
    rw [hnone]
    simp only [Option.any_none, Bool.false_eq_true, if_false]
    rw [hd] at hr2
    unfold runsFrom at hr2
    rw [hr2]
    congr 1
    rw [List.take_append_of_le_length (by simp), List.take_of_length_le]
    simp only [runsFrom, segsOf]
    rw [List.filter_cons_of_pos (by rw [decide_eq_true_eq]; simp only; omega)]
    simp
  · have hsome : bars[t + 1]? = some b := by
      have := congrArg List.head? hd
      rw [List.head?_drop] at this
      simpa using this
    rw [hsome]
    simp only [Option.any_some]
    rw [hd] at hr2
    by_cases hb : bin b.date ≠ p
    · rw [hlastbar, if_pos (by simpa using hb)]
      have hrf : runsFrom bin lastg p (b :: bs) = lastg :: runsFrom bin [b] (bin b.date) bs := by
        conv_lhs => unfold runsFrom
        rw [if_pos hb]
      rw [hrf] at hr2 ⊢
      obtain ⟨g, gs, he, _⟩ := runsFrom_head bin bs [b] (bin b.date)
      have hrest : 0 < (runsFrom bin [b] (bin b.date) bs).length := by rw [he]; simp
      have hc1 : ((segsOf G.flatten.length (lastg :: runsFrom bin [b] (bin b.date) bs)).filter
          (fun p => decide (p.2 ≤ t))).length = 1 := by
        unfold segsOf
        rw [List.filter_cons_of_pos (by rw [decide_eq_true_eq]; simp only; omega), List.length_cons]
        have hne3 : ∀ g ∈ runsFrom bin [b] (bin b.date) bs, g ≠ [] :=
          (runsFrom_groups bin bs [b] (bin b.date) (by simp) (by simp)).nonempty
        have : (segsOf (G.flatten.length + lastg.length) (runsFrom bin [b] (bin b.date) bs)).filter
            (fun p => decide (p.2 ≤ t)) = [] := by
          rw [List.filter_eq_nil_iff]
          intro q hq
          have := (segsOf_end hne3 q hq).1
          simp only [decide_eq_true_eq]
          omega
        rw [this]
        rfl
      rw [hc1, hr2]
      congr 1
      have hmin : min (G.length + 1) ((G ++ lastg :: runsFrom bin [b] (bin b.date) bs).length - 1) =
          G.length + 1 := by
        rw [List.length_append, List.length_cons]
        omega
      rw [hmin]
      have : G ++ lastg :: runsFrom bin [b] (bin b.date) bs =
          (G ++ [lastg]) ++ runsFrom bin [b] (bin b.date) bs := by simp
      rw [this, List.take_append_of_le_length (by simp), List.take_of_length_le (by simp)]
    · rw [hlastbar, if_neg (by simpa using hb)]
      have hrf : runsFrom bin lastg p (b :: bs) = runsFrom bin (lastg ++ [b]) (bin b.date) bs := by
        conv_lhs => unfold runsFrom
        rw [if_neg hb]
      rw [hrf] at hr2 ⊢
      have hb' : bin b.date = p := not_not.1 hb
      obtain ⟨g, gs, he, _⟩ := runsFrom_head bin bs (lastg ++ [b]) (bin b.date)
      have hne3 : ∀ x ∈ runsFrom bin (lastg ++ [b]) (bin b.date) bs, x ≠ [] :=
        (runsFrom_groups bin bs (lastg ++ [b]) (bin b.date) (by simp) (by
          intro x hx
          rcases List.mem_append.1 hx with hx | hx
          · rw [h4 x hx, hb']
          · have : x = b := by simpa using hx
            rw [this])).nonempty
      have hc0 : ((segsOf G.flatten.length (runsFrom bin (lastg ++ [b]) (bin b.date) bs)).filter
          (fun p => decide (p.2 ≤ t))).length = 0 := by
        rw [he] at hne3 ⊢
        unfold segsOf
        rw [List.filter_cons_of_neg (by
          rw [decide_eq_true_eq]; simp only [List.length_append, List.length_cons]; omega), List.length_eq_zero_iff,
          List.filter_eq_nil_iff]
        intro q hq
        have := (segsOf_end (fun x hx => hne3 x (List.mem_cons_of_mem _ hx)) q hq).1
        simp only [List.length_append, List.length_cons, List.length_nil] at this
        simp only [decide_eq_true_eq]
        omega
      rw [hc0, hr2]
      congr 1
      have hmin : min (G.length + 0)
          ((G ++ runsFrom bin (lastg ++ [b]) (bin b.date) bs).length - 1) = G.length := by
        rw [List.length_append, he, List.length_cons]
        omega
      rw [hmin, List.take_left]

/-! ## Reads through the test window -/

theorem searchLeft_get {dates : List Date} (hs : dates.Pairwise (· < ·)) {d : Date} {t : Nat}
    (h : dates[t]? = some d) : searchLeft dates d = t := by
  unfold searchLeft
  induction dates generalizing t with
  | nil => cases h
  | cons x xs ih =>
    obtain ⟨h1, h2⟩ := List.pairwise_cons.1 hs
    cases t with
    | zero =>
      have : x = d := by simpa using h
      subst this
      rw [List.length_eq_zero_iff, List.filter_eq_nil_iff]
      intro y hy
      rcases List.mem_cons.1 hy with rfl | hy
      · simp
      · simpa using (h1 y hy).le
    | succ t =>
      have h' : xs[t]? = some d := by simpa using h
      have hx := h1 d (List.mem_of_getElem? h')
      rw [List.filter_cons_of_pos (by simpa using hx), List.length_cons, ih h2 h']

/-- C47.  Reading interval bars on the `j`-th bar of a test window gives the compressed
bars visible on the base bar of the same date; past the window's last bar it keeps
giving the last bar's, and before its first bar nothing. -/
theorem interval_read {bars : List IBar} (hs : (bars.map IBar.date).Pairwise (· < ·))
    {out : List IBar × List Int} (hout : out.2.length = bars.length)
    (hge : ∀ i ∈ out.2, -1 ≤ i) {testDates : List Date} {c : Compressed}
    (hc : Compressed.sliceForTest { bars := out.1, completed := out.2, baseDates := bars.map IBar.date }
      testDates = .ok c) :
    (∀ (j : Nat) d, testDates[j]? = some d → ∃ t, (bars.map IBar.date)[t]? = some d ∧
      c.visible ((j : Int) + 1) = visibleOn out t) ∧
    (∀ e : Int, e ≤ 0 → c.visible e = []) ∧
    (∀ e : Int, (testDates.length : Int) ≤ e → testDates ≠ [] →
      c.visible e = c.visible (testDates.length : Int)) := by
  unfold Compressed.sliceForTest at hc
  simp only at hc
  split at hc
  · rename_i hidx
    have hc' := Except.ok.inj hc
    rw [List.map_map] at hidx
    have hat : ∀ d ∈ testDates, ∃ t, (bars.map IBar.date)[t]? = some d ∧
        searchLeft (bars.map IBar.date) d = t := by
      intro d hd
      have := List.map_inj_left.1 hidx d hd
      exact ⟨_, this, rfl⟩
    have hcomp : c.completed = testDates.map (fun d =>
        (out.2[searchLeft (bars.map IBar.date) d]?).getD (-1)) := by
      rw [← hc']
      simp only
      have : ∀ l : List Date, (∀ d ∈ l, ∃ t, (bars.map IBar.date)[t]? = some d ∧
          searchLeft (bars.map IBar.date) d = t) →
          (l.map (searchLeft (bars.map IBar.date))).filterMap (fun i => out.2[i]?) =
          l.map (fun d => (out.2[searchLeft (bars.map IBar.date) d]?).getD (-1)) := by
        intro l
        induction l with
        | nil => intro _; rfl
        | cons d l ih =>
          intro hl
          obtain ⟨t, ht, hst⟩ := hl d List.mem_cons_self
          rw [List.map_cons, List.map_cons, List.filterMap_cons, hst]
          have hlt : t < out.2.length := by
            rw [hout]
            have := (List.getElem?_eq_some_iff.1 ht).1
            simpa using this
          rw [List.getElem?_eq_getElem hlt]
          simp only [Option.getD_some]
          rw [ih (fun x hx => hl x (List.mem_cons_of_mem _ hx))]
      exact this testDates hat
    have hlen : c.completed.length = testDates.length := by rw [hcomp, List.length_map]
    have hbars : c.bars = out.1 := by rw [← hc']
    refine ⟨?_, ?_, ?_⟩
    · intro j d hj
      obtain ⟨t, ht, hst⟩ := hat d (List.mem_of_getElem? hj)
      refine ⟨t, ht, ?_⟩
      have hjlt := (List.getElem?_eq_some_iff.1 hj).1
      have htlt : t < out.2.length := by
        rw [hout]
        have := (List.getElem?_eq_some_iff.1 ht).1
        simpa using this
      have hci : c.completedIndex ((j : Int) + 1) = out.2[t] := by
        unfold Compressed.completedIndex
        rw [if_neg (by rw [hlen]; omega), if_neg (by rw [hlen]; omega)]
        have : ((j : Int) + 1 - 1).toNat = j := by omega
        simp only [this]
        rw [List.getD_eq_getElem?_getD, hcomp, List.getElem?_map, hj, Option.map_some, hst,
          List.getElem?_eq_getElem htlt]
        rfl
      unfold Compressed.visible visibleOn
      rw [hci, List.getElem?_eq_getElem htlt, hbars]
      simp only
      have := hge _ (List.getElem_mem htlt)
      by_cases h0 : out.2[t] < 0
      · rw [if_pos h0]
        have : (out.2[t] + 1).toNat = 0 := by omega
        rw [this, List.take_zero]
      · rw [if_neg h0]
    · intro e he
      unfold Compressed.visible Compressed.completedIndex
      rw [if_pos (Or.inl he)]
      simp
    · intro e he hne
      have hpos := List.length_pos_of_ne_nil hne
      unfold Compressed.visible
      have : c.completedIndex e = c.completedIndex (testDates.length : Int) := by
        unfold Compressed.completedIndex
        rw [hlen]
        have n1 : ¬ (e ≤ 0 ∨ testDates.length = 0) := by
          rintro (h | h)
          · have h0 : (0 : Int) < testDates.length := by exact_mod_cast hpos
            exact absurd (le_trans he h) (not_le.2 h0)
          · omega
        have n2 : ¬ ((testDates.length : Int) ≤ 0 ∨ testDates.length = 0) := by
          rintro (h | h) <;> omega
        rw [if_neg n1, if_neg n2]
        simp only [gt_iff_lt, lt_irrefl, if_false]
        by_cases hlt : (testDates.length : Int) < e
        · rw [if_pos hlt]
        · rw [if_neg hlt, le_antisymm (not_lt.1 hlt) he]
      rw [this]
  · cases hc

/-! ## C76: volume-weighted average price -/

theorem cellSum_known {l : List Cell} {v : ℚ} (h : cellSum l = some v) :
    ∃ xs : List ℚ, l = xs.map some ∧ xs.sum = v := by
  unfold cellSum at h
  split at h
  · rename_i hk
    refine ⟨l.filterMap id, ?_, Option.some.inj h⟩
    clear h
    induction l with
    | nil => rfl
    | cons x l ih =>
      cases x with
      | none => exact absurd rfl (hk none List.mem_cons_self)
      | some x =>
        have := ih (fun y hy => hk y (List.mem_cons_of_mem _ hy))
        rw [List.filterMap_cons]
        exact congrArg (some x :: ·) this
  · cases h

/-- C76.  With known prices within `[lo, hi]` and known volumes that are not negative,
the compressed VWAP is within `[lo, hi]`. -/
theorem vwap_in_range {g : List IBar} (hg : g ≠ []) {c : IBar} (hc : aggOf g = some c) {lo hi : ℚ}
    (hv : ∀ b ∈ g, ∃ v, b.volume = some v ∧ 0 ≤ v)
    (hw : ∀ b ∈ g, ∃ w, b.vwap = some w ∧ lo ≤ w ∧ w ≤ hi) :
    ∃ w, c.vwap = some w ∧ lo ≤ w ∧ w ≤ hi := by
  have hlen : 0 < g.length := List.length_pos_of_ne_nil hg
  have h0 : g[0]? = some (g[0]'hlen) := List.getElem?_eq_getElem hlen
  have h1 : g[g.length - 1]? = some (g[g.length - 1]'(by omega)) :=
    List.getElem?_eq_getElem (by omega)
  have h4 : segment g (0, g.length - 1) = g := by
    unfold segment
    simp only
    rw [List.drop_zero, List.take_of_length_le (by omega)]
  have hcv : c.vwap = aggVwap g := by
    unfold aggOf aggBin at hc
    simp only [h0, h1, h4] at hc
    rw [← Option.some.inj hc]
  rw [hcv]
  clear hcv hc
  have key : ∀ g : List IBar, (∀ b ∈ g, ∃ v, b.volume = some v ∧ 0 ≤ v) →
      (∀ b ∈ g, ∃ w, b.vwap = some w ∧ lo ≤ w ∧ w ≤ hi) →
      ∃ sw sv sp, cellSum (g.map (fun b => aggVwap.cell2' (· * ·) b.vwap b.volume)) = some sw ∧
        cellSum (g.map IBar.volume) = some sv ∧ cellSum (g.map IBar.vwap) = some sp ∧
        lo * sv ≤ sw ∧ sw ≤ hi * sv ∧ lo * g.length ≤ sp ∧ sp ≤ hi * g.length := by
    intro g
    induction g with
    | nil =>
      intro _ _
      exact ⟨0, 0, 0, rfl, rfl, rfl, by simp, by simp, by simp, by simp⟩
    | cons b g ih =>
      intro hv hw
      obtain ⟨sw, sv, sp, e1, e2, e3, b1, b2, b3, b4⟩ := ih
        (fun x hx => hv x (List.mem_cons_of_mem _ hx)) (fun x hx => hw x (List.mem_cons_of_mem _ hx))
      obtain ⟨v, hv1, hv2⟩ := hv b List.mem_cons_self
      obtain ⟨w, hw1, hw2, hw3⟩ := hw b List.mem_cons_self
      have hcons : ∀ (x : ℚ) (l : List Cell) (s : ℚ), cellSum l = some s →
          cellSum (some x :: l) = some (x + s) := by
        intro x l s hl
        obtain ⟨xs, rfl, rfl⟩ := cellSum_known hl
        unfold cellSum
        rw [if_pos]
        · simp
        · intro y hy
          rcases List.mem_cons.1 hy with rfl | hy
          · simp
          · obtain ⟨z, _, rfl⟩ := List.mem_map.1 hy
            simp
      refine ⟨w * v + sw, v + sv, w + sp, ?_, ?_, ?_, ?_, ?_, ?_, ?_⟩
      · rw [List.map_cons, hv1, hw1]; exact hcons _ _ _ e1
      · rw [List.map_cons, hv1]; exact hcons _ _ _ e2
      · rw [List.map_cons, hw1]; exact hcons _ _ _ e3
      · have := mul_le_mul_of_nonneg_right hw2 hv2
        linarith
      · have := mul_le_mul_of_nonneg_right hw3 hv2
        linarith
      · push_cast [List.length_cons]; linarith
      · push_cast [List.length_cons]; linarith
  obtain ⟨sw, sv, sp, e1, e2, e3, b1, b2, b3, b4⟩ := key g hv hw
  unfold aggVwap
  have f1 := fold_sum_map (fun b : IBar => aggVwap.cell2' (· * ·) b.vwap b.volume) g
  have f2 := fold_sum_map IBar.volume g
  have f3 := fold_sum_map IBar.vwap g
  rw [e1] at f1
  rw [e2] at f2
  rw [e3] at f3
  simp only [f1, f2, f3, Option.map_some]
  have hn : (0 : ℚ) < g.length := by exact_mod_cast hlen
  split
  · rename_i hpos
    refine ⟨_, rfl, ?_, ?_⟩
    · rw [le_div_iff₀ hpos]; exact b1
    · rw [div_le_iff₀ hpos]; exact b2
  · refine ⟨_, rfl, ?_, ?_⟩
    · rw [le_div_iff₀ hn]; exact b3
    · rw [div_le_iff₀ hn]; exact b4

/-- Weeks start on Monday: two days are in one weekly bin iff they have the same
Monday (day 4 of the epoch, 5 January 1970, is a Monday). -/
theorem weekly_bins (m y : Date → Int) (d d' : Date) :
    calendarBin m y .weekly d = calendarBin m y .weekly d' ↔
      (d.fdiv dayNs) - ((d.fdiv dayNs) - 4) % 7 = (d'.fdiv dayNs) - ((d'.fdiv dayNs) - 4) % 7 := by
  unfold calendarBin
  simp only
  generalize d.fdiv dayNs = a
  generalize d'.fdiv dayNs = b
  rw [Int.fdiv_eq_ediv_of_nonneg _ (by norm_num), Int.fdiv_eq_ediv_of_nonneg _ (by norm_num)]
  omega

/-! ## Concrete bars -/

/-- A bar of a date with given prices. -/
def Demo.ibar (d : Date) (o h l c v : ℚ) : IBar :=
  { date := d, opn := some o, high := some h, low := some l, close := some c, volume := some v,
    vwap := some ((h + l) / 2), custom := fun _ => none }

/-- Four bars in bins of two dates. -/
def Demo.ibars : List IBar :=
  [Demo.ibar 0 10 12 9 11 100, Demo.ibar 1 11 15 10 14 50, Demo.ibar 2 14 14 8 9 70,
    Demo.ibar 3 9 10 7 8 20]

/-- C40 fails for calendar intervals: on bar 1 the first two-date bin is visible when
a bar of the next bin follows, and not when bar 1 is the last bar. -/
theorem interval_shows_next_bar :
    (visibleOn (compressBins (fun d => d.fdiv 2) Demo.ibars) 1).length = 1 ∧
    (visibleOn (compressBins (fun d => d.fdiv 2) (Demo.ibars.take 2)) 1).length = 0 ∧
    Demo.ibars.take 2 = (Demo.ibars.take 2).take 2 := by
  refine ⟨by decide +kernel, by decide +kernel, rfl⟩

example : (compressBins (fun d => d.fdiv 2) Demo.ibars).2 = [-1, 0, 0, 0] := by decide +kernel
example : (compressEveryN 2 Demo.ibars).2 = [-1, 0, 0, 1] := by decide +kernel
example : (compressEveryN 3 Demo.ibars).2 = [-1, -1, 0, 0] := by decide +kernel
example : ((compressBins (fun d => d.fdiv 2) Demo.ibars).1.map (fun b => (b.opn, b.high))) =
    [(some 10, some 15), (some 14, some 14)] := by decide +kernel
example : ((compressBins (fun d => d.fdiv 2) Demo.ibars).1.map (fun b => (b.low, b.close))) =
    [(some 9, some 14), (some 7, some 8)] := by decide +kernel
example := count_no_future (k := 2) (by decide) (bars := Demo.ibars) (bars' := Demo.ibars.take 3)
  (t := 1) (by decide) (by decide) rfl
example := calendar_visible_partial (fun d => d.fdiv 2) (bars := Demo.ibars) (t := 1) (by decide)

example : ∃ c, Compressed.sliceForTest
    { bars := (compressEveryN 2 Demo.ibars).1, completed := (compressEveryN 2 Demo.ibars).2,
      baseDates := Demo.ibars.map IBar.date } [2, 3] = .ok c ∧ c.completed = [0, 1] :=
  ⟨_, rfl, by decide +kernel⟩

example : ∃ w, (aggVwap (Demo.ibars.take 2)) = some w ∧ 9 ≤ w ∧ w ≤ 15 := by
  have hc : ∃ c, aggOf (Demo.ibars.take 2) = some c ∧ c.vwap = aggVwap (Demo.ibars.take 2) :=
    ⟨_, rfl, rfl⟩
  obtain ⟨c, hc, hv⟩ := hc
  rw [← hv]
  refine vwap_in_range (by decide) hc ?_ ?_
  · intro b hb
    simp [Demo.ibars, Demo.ibar] at hb
    rcases hb with rfl | rfl <;> exact ⟨_, rfl, by norm_num⟩
  · intro b hb
    simp [Demo.ibars, Demo.ibar] at hb
    rcases hb with rfl | rfl <;> exact ⟨_, rfl, by norm_num, by norm_num⟩

end PyBroker
