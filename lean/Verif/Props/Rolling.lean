import Verif.Vect.Rolling
import Mathlib.Data.List.Basic
import Mathlib.Tactic.Linarith
import Mathlib.Tactic.Ring
import Mathlib.Tactic.Abel
import Mathlib.Tactic.NormNum

/-!
# Rolling windows (C49, C50, C51, C53)
-/

namespace PyBroker

/-! ## Specification -/

/-- The last `w` values up to and including index `i` (fewer near the start). -/
def Spec.window {α : Type} (arr : List α) (w i : Nat) : List α := (arr.take (i + 1)).drop (i + 1 - w)

/-- The best value of a window under `better`, or NaN when the window has one. -/
def Spec.IsBest {α : Type} (noWorse : α → α → Prop) (win : List (Option α)) (o : Option α) : Prop :=
  (none ∈ win → o = none) ∧
  (none ∉ win → ∃ v, o = some v ∧ some v ∈ win ∧ ∀ x, some x ∈ win → noWorse v x)

/-- Addition of floats. -/
def Spec.fadd : FVal → FVal → FVal
  | .nan, _ => .nan
  | _, .nan => .nan
  | .pinf, .ninf => .nan
  | .ninf, .pinf => .nan
  | .pinf, _ => .pinf
  | _, .pinf => .pinf
  | .ninf, _ => .ninf
  | _, .ninf => .ninf
  | .fin a, .fin b => .fin (a + b)

/-- The sum of a list of floats. -/
def Spec.fsum (l : List FVal) : FVal := l.foldr Spec.fadd (.fin 0)

/-- `a > b` of two floats: false when either is NaN. -/
def Spec.Above (x y : Option ℚ) : Prop := ∃ p q, x = some p ∧ y = some q ∧ q < p

open PyBroker.Spec

/-! ## Windows -/

theorem mem_window {α : Type} {arr : List α} {w i : Nat} {x : α} (hi : i < arr.length) :
    x ∈ window arr w i ↔ ∃ j, j ≤ i ∧ i + 1 ≤ j + w ∧ arr[j]? = some x := by
  unfold window
  rw [List.mem_iff_getElem?]
  constructor
  · rintro ⟨m, hm⟩
    rw [List.getElem?_drop, List.getElem?_take] at hm
    split at hm
    · exact ⟨_, by omega, by omega, hm⟩
    · cases hm
  · rintro ⟨j, h1, h2, h3⟩
    refine ⟨j - (i + 1 - w), ?_⟩
    rw [List.getElem?_drop, List.getElem?_take, if_pos (by omega)]
    rw [show i + 1 - w + (j - (i + 1 - w)) = j by omega]
    exact h3

/-- Sum of `f` over the first `k` elements. -/
def preSum {α β : Type} [AddCommGroup β] (f : α → β) (arr : List α) (k : Nat) : β :=
  ((arr.take k).map f).sum

/-- Sum of `f` over the last `w` of the first `k` elements. -/
def winSum {α β : Type} [AddCommGroup β] (f : α → β) (arr : List α) (w k : Nat) : β :=
  preSum f arr k - preSum f arr (k - w)

theorem preSum_succ {α β : Type} [AddCommGroup β] (f : α → β) {arr : List α} {k : Nat} {x : α}
    (h : arr[k]? = some x) : preSum f arr (k + 1) = preSum f arr k + f x := by
  unfold preSum
  rw [List.take_add_one, h]
  simp

theorem winSum_step {α β : Type} [AddCommGroup β] (f : α → β) {arr : List α} {w k : Nat} {x : α}
    (h : arr[k]? = some x) (hw : 0 < w) :
    (k < w → winSum f arr w (k + 1) = winSum f arr w k + f x) ∧
    (∀ y, w ≤ k → arr[k - w]? = some y →
      winSum f arr w (k + 1) = winSum f arr w k + f x - f y) := by
  unfold winSum
  rw [preSum_succ f h]
  constructor
  · intro hk
    rw [show k + 1 - w = 0 by omega, show k - w = 0 by omega]
    abel
  · intro y hk hy
    rw [show k + 1 - w = k - w + 1 by omega, preSum_succ f hy]
    abel

theorem winSum_window {α β : Type} [AddCommGroup β] (f : α → β) (arr : List α) (w i : Nat) :
    winSum f arr w (i + 1) = ((window arr w i).map f).sum := by
  unfold winSum preSum window
  have h : (arr.take (i + 1)) = (arr.take (i + 1 - w)) ++ (arr.take (i + 1)).drop (i + 1 - w) := by
    conv_lhs => rw [← List.take_append_drop (i + 1 - w) (arr.take (i + 1)), List.take_take,
      min_eq_left (by omega)]
  conv_lhs => rw [h]
  rw [List.map_append, List.sum_append]
  abel

/-! ## Extremes -/

/-- NaN indicator. -/
def nanInd {α : Type} (o : Option α) : Int := if o = none then 1 else 0

/-- The state between passes. -/
structure RollInv {α : Type} (beats : α → α → Bool) (arr : List (Option α)) (w k : Nat)
    (st : RollSt) : Prop where
  known : ∀ j ∈ st.deq, j < k ∧ ∃ x, arr[j]? = some (some x)
  incr : st.deq.Pairwise (fun i j => i < j ∧ ∀ x y, arr[i]? = some (some x) →
    arr[j]? = some (some y) → beats x y = false)
  cover : ∀ j, j < k → k ≤ j + w → ∀ x, arr[j]? = some (some x) →
    ∃ j' ∈ st.deq, j ≤ j' ∧ ∃ y, arr[j']? = some (some y) ∧ beats x y = true
  nans : st.nans = winSum nanInd arr w k

theorem dropStale_filter {w i : Nat} : ∀ {d : List Nat}, d.Pairwise (· < ·) →
    dropStale w i d = d.filter (fun j => i < j + w) := by
  intro d
  induction d with
  | nil => intro _; rfl
  | cons j js ih =>
    intro h
    obtain ⟨h1, h2⟩ := List.pairwise_cons.1 h
    unfold dropStale
    by_cases hj : j + w ≤ i
    · rw [if_pos hj, ih h2, List.filter_cons_of_neg (by simpa using hj)]
    · rw [if_neg hj, List.filter_cons_of_pos (by simpa using hj)]
      congr 1
      symm
      rw [List.filter_eq_self]
      intro x hx
      have := h1 x hx
      simp only [decide_eq_true_eq]
      omega

theorem dropStale_inv {α : Type} {beats : α → α → Bool} {arr : List (Option α)} {w k : Nat}
    {st : RollSt} (h : RollInv beats arr w (k + 1) st) :
    RollInv beats arr w (k + 1) { st with deq := dropStale w k st.deq } ∧
      ∀ j ∈ dropStale w k st.deq, k + 1 ≤ j + w := by
  have hs : st.deq.Pairwise (· < ·) := h.incr.imp (fun h => h.1)
  have he := dropStale_filter (w := w) (i := k) hs
  rw [he]
  refine ⟨⟨?_, ?_, ?_, h.nans⟩, ?_⟩
  · intro j hj
    exact h.known j (List.mem_of_mem_filter hj)
  · exact h.incr.sublist List.filter_sublist
  · intro j hj hw x hx
    obtain ⟨j', hj', hle, hy⟩ := h.cover j hj hw x hx
    refine ⟨j', List.mem_filter.2 ⟨hj', ?_⟩, hle, hy⟩
    simp only [decide_eq_true_eq]
    omega
  · intro j hj
    have := (List.mem_filter.1 hj).2
    simp only [decide_eq_true_eq] at this
    omega

theorem popBack_spec {α : Type} {beats : α → α → Bool}
    (htotal : ∀ a b, beats a b = true ∨ beats b a = true)
    (htrans : ∀ a b c, beats a b = true → beats b c = true → beats a c = true)
    {arr : List (Option α)} {x : α} : ∀ {r : List Nat},
    r.Pairwise (fun j i => i < j ∧ ∀ x y, arr[i]? = some (some x) →
      arr[j]? = some (some y) → beats x y = false) →
    (∀ j ∈ r, ∃ y, arr[j]? = some (some y)) →
    (popBack beats arr x r).Sublist r ∧
    (∀ j ∈ popBack beats arr x r, ∀ y, arr[j]? = some (some y) → beats y x = false) ∧
    (∀ j ∈ r, j ∉ popBack beats arr x r → ∀ y, arr[j]? = some (some y) → beats y x = true) := by
  intro r
  induction r with
  | nil =>
    intro _ _
    unfold popBack
    exact ⟨List.Sublist.refl _, by simp, by simp⟩
  | cons j js ih =>
    intro hp hk
    obtain ⟨h1, h2⟩ := List.pairwise_cons.1 hp
    obtain ⟨y, hy⟩ := hk j List.mem_cons_self
    unfold popBack
    rw [hy]
    simp only
    by_cases hb : beats y x = true
    · rw [if_pos hb]
      obtain ⟨i1, i2, i3⟩ := ih h2 (fun j hj => hk j (List.mem_cons_of_mem _ hj))
      refine ⟨i1.trans (List.sublist_cons_self _ _), i2, ?_⟩
      intro m hm hn z hz
      rcases List.mem_cons.1 hm with rfl | hm
      · rw [hy] at hz
        rw [← Option.some.inj (Option.some.inj hz)]
        exact hb
      · exact i3 m hm hn z hz
    · rw [if_neg hb]
      refine ⟨List.Sublist.refl _, ?_, fun m hm hn => absurd hm hn⟩
      intro m hm z hz
      rcases List.mem_cons.1 hm with rfl | hm
      · rw [hy] at hz
        rw [← Option.some.inj (Option.some.inj hz)]
        exact Bool.eq_false_iff.2 hb
      · rw [Bool.eq_false_iff]
        intro hzx
        have hxy : beats x y = true := (htotal y x).resolve_left hb
        have := (h1 m hm).2 z y hz hy
        rw [htrans z x y hzx hxy] at this
        cases this

theorem beats_refl {α : Type} {beats : α → α → Bool}
    (htotal : ∀ a b, beats a b = true ∨ beats b a = true) (a : α) : beats a a = true := by
  rcases htotal a a with h | h <;> exact h

/-- The queue after reading index `k`. -/
theorem roll_push {α : Type} {beats : α → α → Bool}
    (htotal : ∀ a b, beats a b = true ∨ beats b a = true)
    (htrans : ∀ a b c, beats a b = true → beats b c = true → beats a c = true)
    {arr : List (Option α)} {w k : Nat} {st : RollSt} (h : RollInv beats arr w k st)
    {x : α} (hx : arr[k]? = some (some x)) :
    let deq' := (popBack beats arr x (dropStale w k st.deq).reverse).reverse ++ [k]
    (∀ j ∈ deq', j < k + 1 ∧ ∃ x, arr[j]? = some (some x)) ∧
    deq'.Pairwise (fun i j => i < j ∧ ∀ x y, arr[i]? = some (some x) →
      arr[j]? = some (some y) → beats x y = false) ∧
    (∀ j, j < k + 1 → k + 1 ≤ j + w → ∀ x, arr[j]? = some (some x) →
      ∃ j' ∈ deq', j ≤ j' ∧ ∃ y, arr[j']? = some (some y) ∧ beats x y = true) := by
  intro deq'
  have hs : st.deq.Pairwise (· < ·) := h.incr.imp (fun h => h.1)
  have he := dropStale_filter (w := w) (i := k) hs
  have hsub : (dropStale w k st.deq).Sublist st.deq := by rw [he]; exact List.filter_sublist
  have hd := h.incr.sublist hsub
  have hdk : ∀ j ∈ dropStale w k st.deq, j < k ∧ ∃ x, arr[j]? = some (some x) :=
    fun j hj => h.known j (hsub.subset hj)
  obtain ⟨p1, p2, p3⟩ := popBack_spec htotal htrans (arr := arr) (x := x)
    (r := (dropStale w k st.deq).reverse) (List.pairwise_reverse.2 hd)
    (fun j hj => (hdk j (List.mem_reverse.1 hj)).2)
  have hmem : ∀ j ∈ (popBack beats arr x (dropStale w k st.deq).reverse).reverse,
      j ∈ dropStale w k st.deq := fun j hj =>
    List.mem_reverse.1 (p1.subset (List.mem_reverse.1 hj))
  refine ⟨?_, ?_, ?_⟩
  · intro j hj
    rcases List.mem_append.1 hj with hj | hj
    · have := hdk j (hmem j hj)
      exact ⟨by omega, this.2⟩
    · have : j = k := by simpa using hj
      subst this
      exact ⟨by omega, x, hx⟩
  · rw [List.pairwise_append]
    refine ⟨?_, List.pairwise_singleton _ _, ?_⟩
    · have := p1.reverse
      rw [List.reverse_reverse] at this
      exact hd.sublist this
    · intro a ha b hb
      have : b = k := by simpa using hb
      subst this
      refine ⟨(hdk a (hmem a ha)).1, ?_⟩
      intro u v hu hv
      rw [hx] at hv
      rw [← Option.some.inj (Option.some.inj hv)]
      exact p2 a (List.mem_reverse.1 ha) u hu
  · intro j hj hw u hu
    by_cases hjk : j = k
    · subst hjk
      rw [hx] at hu
      have := Option.some.inj (Option.some.inj hu)
      subst this
      exact ⟨j, by simp [deq'], le_refl _, x, hx, beats_refl htotal x⟩
    · obtain ⟨j', hj', hle, y, hy, hb⟩ := h.cover j (by omega) (by omega) u hu
      have hin : j' ∈ dropStale w k st.deq := by
        rw [he, List.mem_filter]
        refine ⟨hj', ?_⟩
        simp only [decide_eq_true_eq]
        omega
      by_cases hrem : j' ∈ popBack beats arr x (dropStale w k st.deq).reverse
      · exact ⟨j', List.mem_append_left _ (List.mem_reverse.2 hrem), hle, y, hy, hb⟩
      · have := p3 j' (List.mem_reverse.2 hin) hrem y hy
        exact ⟨k, by simp [deq'], by omega, x, hx, htrans _ _ _ hb this⟩

theorem winSum_nan_pos {α : Type} {arr : List (Option α)} {w i : Nat} :
    (0 < winSum nanInd arr w (i + 1) ↔ none ∈ window arr w i) := by
  rw [winSum_window]
  have key : ∀ l : List (Option α), 0 ≤ (l.map nanInd).sum ∧
      (0 < (l.map nanInd).sum ↔ none ∈ l) := by
    intro l
    induction l with
    | nil => simp
    | cons o l ih =>
      rw [List.map_cons, List.sum_cons, List.mem_cons]
      cases o with
      | none =>
        have : nanInd (none : Option α) = 1 := rfl
        rw [this]
        exact ⟨by linarith [ih.1], by constructor <;> intro _ <;> [left; linarith [ih.1]]; rfl⟩
      | some x =>
        have : nanInd (some x) = 0 := rfl
        rw [this]
        refine ⟨by linarith [ih.1], ?_⟩
        rw [zero_add, ih.2]
        simp
  exact (key _).2

theorem rollStep_spec {α : Type} {beats : α → α → Bool}
    (htotal : ∀ a b, beats a b = true ∨ beats b a = true)
    (htrans : ∀ a b c, beats a b = true → beats b c = true → beats a c = true)
    {arr : List (Option α)} {w k : Nat} (hw : 0 < w) {st : RollSt}
    (h : RollInv beats arr w k st) (hk : k < arr.length) :
    RollInv beats arr w (k + 1) (rollStep beats arr w st k).1 ∧
    (k + 1 < w → (rollStep beats arr w st k).2 = none) ∧
    (w ≤ k + 1 → IsBest (fun v x => beats x v = true) (window arr w k)
      (rollStep beats arr w st k).2) := by
  obtain ⟨o, ho⟩ : ∃ o, arr[k]? = some o := ⟨_, List.getElem?_eq_getElem hk⟩
  -- the first part of the pass
  generalize hst1 : (match arr[k]? with
    | some (some x) =>
      { st with deq := (popBack beats arr x (dropStale w k st.deq).reverse).reverse ++ [k] }
    | _ => { st with nans := st.nans + 1 } : RollSt) = st1
  have h1 : (∀ j ∈ st1.deq, j < k + 1 ∧ ∃ x, arr[j]? = some (some x)) ∧
      st1.deq.Pairwise (fun i j => i < j ∧ ∀ x y, arr[i]? = some (some x) →
        arr[j]? = some (some y) → beats x y = false) ∧
      (∀ j, j < k + 1 → k + 1 ≤ j + w → ∀ x, arr[j]? = some (some x) →
        ∃ j' ∈ st1.deq, j ≤ j' ∧ ∃ y, arr[j']? = some (some y) ∧ beats x y = true) ∧
      st1.nans = st.nans + nanInd o := by
    rw [ho] at hst1
    cases o with
    | none =>
      simp only at hst1
      subst hst1
      refine ⟨?_, h.incr, ?_, rfl⟩
      · intro j hj
        have := h.known j hj
        exact ⟨by omega, this.2⟩
      · intro j hj hjw x hx
        have hjk : j ≠ k := by
          rintro rfl
          rw [ho] at hx
          cases hx
        exact h.cover j (by omega) (by omega) x hx
    | some x =>
      simp only at hst1
      subst hst1
      obtain ⟨a, b, c⟩ := roll_push htotal htrans h ho
      exact ⟨a, b, c, by simp [nanInd]⟩
  generalize hst2 : (if w ≤ k ∧ isNanAt arr (k - w) = true then { st1 with nans := st1.nans - 1 }
    else st1 : RollSt) = st2
  have h2 : RollInv beats arr w (k + 1) st2 := by
    have hdeq : st2.deq = st1.deq := by
      rw [← hst2]
      split <;> rfl
    refine ⟨by rw [hdeq]; exact h1.1, by rw [hdeq]; exact h1.2.1, by rw [hdeq]; exact h1.2.2.1, ?_⟩
    have hws := winSum_step nanInd ho hw
    by_cases hwk : w ≤ k
    · obtain ⟨y, hy⟩ : ∃ y, arr[k - w]? = some y := ⟨_, List.getElem?_eq_getElem (by omega)⟩
      rw [hws.2 y hwk hy, ← h.nans]
      rw [← hst2]
      have hn : isNanAt arr (k - w) = decide (nanInd y = 1) := by
        unfold isNanAt
        rw [hy]
        cases y <;> rfl
      cases y with
      | none =>
        rw [if_pos ⟨hwk, by rw [hn]; rfl⟩]
        simp only
        rw [h1.2.2.2]
        rfl
      | some y =>
        rw [if_neg (by rw [hn]; rintro ⟨_, h⟩; simp [nanInd] at h)]
        rw [h1.2.2.2]
        simp [nanInd]
    · rw [hws.1 (by omega), ← h.nans, ← hst2, if_neg (fun h => hwk h.1)]
      exact h1.2.2.2
  have hstep : rollStep beats arr w st k =
      if w ≤ k + 1 then
        (match dropStale w k st2.deq with
        | [] => ({ st2 with deq := dropStale w k st2.deq }, none)
        | j :: _ => if st2.nans > 0 then ({ st2 with deq := dropStale w k st2.deq }, none)
            else ({ st2 with deq := dropStale w k st2.deq }, (arr[j]?).getD none))
      else (st2, none) := by
    unfold rollStep
    simp only
    rw [← hst2, ← hst1]
    rfl
  rw [hstep]
  by_cases hwk : w ≤ k + 1
  · rw [if_pos hwk]
    obtain ⟨h3, h4⟩ := dropStale_inv h2
    have hpos := winSum_nan_pos (arr := arr) (w := w) (i := k)
    rw [← h2.nans] at hpos
    have hstate : (match dropStale w k st2.deq with
        | [] => ({ st2 with deq := dropStale w k st2.deq }, none)
        | j :: _ => if st2.nans > 0 then ({ st2 with deq := dropStale w k st2.deq }, none)
            else ({ st2 with deq := dropStale w k st2.deq }, (arr[j]?).getD none) :
          RollSt × Option α).1 = { st2 with deq := dropStale w k st2.deq } := by
      split
      · rfl
      · split <;> rfl
    refine ⟨by rw [hstate]; exact h3, fun h => absurd h (by omega), fun _ => ?_⟩
    constructor
    · intro hnone
      split
      · rfl
      · rw [if_pos (hpos.2 hnone)]
    · intro hnone
      have hn0 : ¬ st2.nans > 0 := fun h => hnone (hpos.1 h)
      -- the last element is known
      obtain ⟨x, hx⟩ : ∃ x, arr[k]? = some (some x) := by
        cases o with
        | none =>
          exact absurd ((mem_window hk).2 ⟨k, le_refl _, by omega, ho⟩) hnone
        | some x => exact ⟨x, ho⟩
      obtain ⟨j', hj', _, _⟩ := h3.cover k (by omega) (by omega) x hx
      split
      · rename_i hnil
        simp only at hj'
        rw [hnil] at hj'
        cases hj'
      · rename_i j js hcons
        rw [if_neg hn0]
        simp only
        have hjin : j ∈ dropStale w k st2.deq := by rw [hcons]; exact List.mem_cons_self
        obtain ⟨hjlt, v, hv⟩ := h3.known j hjin
        refine ⟨v, by rw [hv]; rfl, (mem_window hk).2 ⟨j, by omega, by have := h4 j hjin; omega, hv⟩, ?_⟩
        intro u hu
        obtain ⟨m, hm1, hm2, hm3⟩ := (mem_window hk).1 hu
        obtain ⟨m', hm', _, y, hy, hb⟩ := h3.cover m (by omega) (by omega) u hm3
        simp only at hm'
        have hpw := h3.incr
        simp only at hpw
        rw [hcons] at hm' hpw
        rcases List.mem_cons.1 hm' with rfl | hm'
        · rw [hv] at hy
          rw [Option.some.inj (Option.some.inj hy)]
          exact hb
        · have := ((List.pairwise_cons.1 hpw).1 m' hm').2 v y hv hy
          have hyv : beats y v = true := (htotal y v).resolve_right (by simp [this])
          exact htrans _ _ _ hb hyv
  · rw [if_neg hwk]
    exact ⟨h2, fun _ => rfl, fun h => absurd h hwk⟩

theorem rollLoop_length {α : Type} (beats : α → α → Bool) (arr : List (Option α)) (w : Nat) :
    ∀ k i st, (rollLoop beats arr w k i st).length = k := by
  intro k
  induction k with
  | zero => intro i st; rfl
  | succ k ih => intro i st; simp [rollLoop, ih]

theorem rollLoop_spec {α : Type} {beats : α → α → Bool}
    (htotal : ∀ a b, beats a b = true ∨ beats b a = true)
    (htrans : ∀ a b c, beats a b = true → beats b c = true → beats a c = true)
    {arr : List (Option α)} {w : Nat} (hw : 0 < w) : ∀ (k i : Nat) (st : RollSt),
    i + k = arr.length → RollInv beats arr w i st → ∀ m < k,
    ∃ o, (rollLoop beats arr w k i st)[m]? = some o ∧ (i + m + 1 < w → o = none) ∧
      (w ≤ i + m + 1 → IsBest (fun v x => beats x v = true) (window arr w (i + m)) o) := by
  intro k
  induction k with
  | zero => intro i st _ _ m hm; omega
  | succ k ih =>
    intro i st hik hinv m hm
    obtain ⟨s1, s2, s3⟩ := rollStep_spec htotal htrans hw hinv (by omega)
    unfold rollLoop
    cases m with
    | zero => exact ⟨_, rfl, s2, s3⟩
    | succ m =>
      obtain ⟨o, h1, h2, h3⟩ := ih (i + 1) _ (by omega) s1 m (by omega)
      refine ⟨o, by simpa using h1, ?_, ?_⟩
      · intro h; exact h2 (by omega)
      · intro h
        have := h3 (by omega)
        rw [show i + 1 + m = i + (m + 1) by omega] at this
        exact this

theorem rollInv_init {α : Type} (beats : α → α → Bool) (arr : List (Option α)) (w : Nat) :
    RollInv beats arr w 0 {} :=
  ⟨by simp, by simp, fun j hj => absurd hj (by omega), by simp [winSum, preSum]⟩

theorem verified_some {β : Type} {len n : Nat} {out res : List β}
    (h : verified len n out = some res) (h0 : out.length = len) :
    res = out ∧ (len ≠ 0 → 0 < n ∧ n ≤ len) := by
  unfold verified at h
  split at h
  · rename_i hl
    rw [hl] at h0
    rw [List.length_eq_zero_iff.1 h0]
    exact ⟨(Option.some.inj h).symm, fun h => absurd hl h⟩
  · split at h
    · rename_i hn
      exact ⟨(Option.some.inj h).symm, fun _ => hn⟩
    · cases h

/-- C49.  `lowv` gives, at every index with a full window, the smallest of the last
`n` values (NaN when one of them is NaN), and NaN before. -/
theorem lowv_window_min {α : Type} [LinearOrder α] {arr out : List (Option α)} {n : Nat}
    (h : lowv arr n = some out) :
    out.length = arr.length ∧ ∀ i < arr.length, ∃ o, out[i]? = some o ∧
      (i + 1 < n → o = none) ∧ (n ≤ i + 1 → IsBest (· ≤ ·) (window arr n i) o) := by
  unfold lowv at h
  have hl := rollLoop_length (fun y x : α => decide (x ≤ y)) arr n arr.length 0 {}
  obtain ⟨rfl, hn⟩ := verified_some h hl
  refine ⟨hl, fun i hi => ?_⟩
  obtain ⟨o, h1, h2, h3⟩ := rollLoop_spec (beats := fun y x : α => decide (x ≤ y))
    (fun a b => by simp only [decide_eq_true_eq]; exact le_total b a)
    (fun a b c h1 h2 => by simp only [decide_eq_true_eq] at *; exact le_trans h2 h1)
    (arr := arr) (hn (by omega)).1 arr.length 0 {} (by omega) (rollInv_init _ _ _) i hi
  rw [Nat.zero_add] at h2 h3
  refine ⟨o, h1, h2, fun h => ?_⟩
  have := h3 h
  simpa only [decide_eq_true_eq] using this

/-- C49.  `highv` gives, at every index with a full window, the largest of the last
`n` values (NaN when one of them is NaN), and NaN before. -/
theorem highv_window_max {α : Type} [LinearOrder α] {arr out : List (Option α)} {n : Nat}
    (h : highv arr n = some out) :
    out.length = arr.length ∧ ∀ i < arr.length, ∃ o, out[i]? = some o ∧
      (i + 1 < n → o = none) ∧ (n ≤ i + 1 → IsBest (· ≥ ·) (window arr n i) o) := by
  unfold highv at h
  have hl := rollLoop_length (fun y x : α => decide (y ≤ x)) arr n arr.length 0 {}
  obtain ⟨rfl, hn⟩ := verified_some h hl
  refine ⟨hl, fun i hi => ?_⟩
  obtain ⟨o, h1, h2, h3⟩ := rollLoop_spec (beats := fun y x : α => decide (y ≤ x))
    (fun a b => by simp only [decide_eq_true_eq]; exact le_total a b)
    (fun a b c h1 h2 => by simp only [decide_eq_true_eq] at *; exact le_trans h1 h2)
    (arr := arr) (hn (by omega)).1 arr.length 0 {} (by omega) (rollInv_init _ _ _) i hi
  rw [Nat.zero_add] at h2 h3
  refine ⟨o, h1, h2, fun h => ?_⟩
  have := h3 h
  simpa only [decide_eq_true_eq, ge_iff_le] using this

/-- C49.  The calls are accepted exactly on an empty array or with `1 ≤ n ≤ len`. -/
theorem rolling_accepts {α : Type} [LinearOrder α] (arr : List (Option α)) (xs : List FVal) (n : Nat) :
    ((lowv arr n).isSome ↔ arr = [] ∨ (1 ≤ n ∧ n ≤ arr.length)) ∧
    ((highv arr n).isSome ↔ arr = [] ∨ (1 ≤ n ∧ n ≤ arr.length)) ∧
    ((sumv xs n).isSome ↔ xs = [] ∨ (1 ≤ n ∧ n ≤ xs.length)) := by
  have key : ∀ {β γ : Type} (a : List β) (out : List γ), (verified a.length n out).isSome ↔
      a = [] ∨ (1 ≤ n ∧ n ≤ a.length) := by
    intro β γ a out
    unfold verified
    by_cases h : a.length = 0
    · rw [if_pos h]
      simp [List.length_eq_zero_iff.1 h]
    · rw [if_neg h]
      have : a ≠ [] := fun h' => h (by rw [h']; rfl)
      by_cases hn : n > 0 ∧ n ≤ a.length
      · rw [if_pos hn]
        simp only [Option.isSome_some, true_iff]
        exact Or.inr hn
      · rw [if_neg hn]
        simp only [Option.isSome_none, Bool.false_eq_true, false_iff, this, false_or]
        exact hn
  exact ⟨key arr _, key arr _, key xs _⟩

/-! ## Sums -/

def nanI : FVal → Int | .nan => 1 | _ => 0
def pinfI : FVal → Int | .pinf => 1 | _ => 0
def ninfI : FVal → Int | .ninf => 1 | _ => 0
def finI : FVal → ℚ | .fin q => q | _ => 0

structure SumInv (arr : List FVal) (w k : Nat) (st : SumSt) : Prop where
  total : st.total = winSum finI arr w k
  comp : st.comp = 0
  nans : st.nans = winSum nanI arr w k
  pinfs : st.pinfs = winSum pinfI arr w k
  ninfs : st.ninfs = winSum ninfI arr w k

theorem push_eq (s : SumSt) (v : FVal) : (s.push v).total = s.total + finI v ∧
    (s.comp = 0 → (s.push v).comp = 0) ∧ (s.push v).nans = s.nans + nanI v ∧
    (s.push v).pinfs = s.pinfs + pinfI v ∧ (s.push v).ninfs = s.ninfs + ninfI v := by
  cases v with
  | nan => simp [SumSt.push, finI, nanI, pinfI, ninfI]
  | pinf => simp [SumSt.push, finI, nanI, pinfI, ninfI]
  | ninf => simp [SumSt.push, finI, nanI, pinfI, ninfI]
  | fin q =>
    refine ⟨rfl, ?_, by simp [SumSt.push, nanI], by simp [SumSt.push, pinfI],
      by simp [SumSt.push, ninfI]⟩
    intro h
    simp only [SumSt.push, h]
    split <;> ring

theorem drop_eq (s : SumSt) (v : FVal) : (s.drop v).total = s.total - finI v ∧
    (s.comp = 0 → (s.drop v).comp = 0) ∧ (s.drop v).nans = s.nans - nanI v ∧
    (s.drop v).pinfs = s.pinfs - pinfI v ∧ (s.drop v).ninfs = s.ninfs - ninfI v := by
  cases v with
  | nan => simp [SumSt.drop, finI, nanI, pinfI, ninfI]
  | pinf => simp [SumSt.drop, finI, nanI, pinfI, ninfI]
  | ninf => simp [SumSt.drop, finI, nanI, pinfI, ninfI]
  | fin q =>
    refine ⟨rfl, ?_, by simp [SumSt.drop, nanI], by simp [SumSt.drop, pinfI],
      by simp [SumSt.drop, ninfI]⟩
    intro h
    simp only [SumSt.drop, h]
    split <;> ring

/-- The float of counts and a finite total. -/
def outOf (nans pinfs ninfs : Int) (total : ℚ) : FVal :=
  if nans > 0 ∨ (pinfs > 0 ∧ ninfs > 0) then .nan
  else if pinfs > 0 then .pinf
  else if ninfs > 0 then .ninf
  else .fin total

theorem fsum_counts (l : List FVal) : (0 ≤ (l.map nanI).sum ∧ 0 ≤ (l.map pinfI).sum ∧
    0 ≤ (l.map ninfI).sum) ∧
    fsum l = outOf (l.map nanI).sum (l.map pinfI).sum (l.map ninfI).sum (l.map finI).sum := by
  induction l with
  | nil => simp [fsum, outOf]
  | cons v l ih =>
    obtain ⟨⟨h1, h2, h3⟩, h4⟩ := ih
    have e : fsum (v :: l) = fadd v (fsum l) := rfl
    rw [e, h4]
    simp only [List.map_cons, List.sum_cons]
    generalize (l.map nanI).sum = a at *
    generalize (l.map pinfI).sum = b at *
    generalize (l.map ninfI).sum = c at *
    generalize (l.map finI).sum = t at *
    cases v with
    | nan =>
      refine ⟨⟨by simp [nanI]; omega, by simp [pinfI]; omega, by simp [ninfI]; omega⟩, ?_⟩
      simp only [nanI, pinfI, ninfI, finI, zero_add]
      conv_rhs => unfold outOf
      rw [if_pos (Or.inl (by omega))]
      rfl
    | pinf =>
      refine ⟨⟨by simp [nanI]; omega, by simp [pinfI]; omega, by simp [ninfI]; omega⟩, ?_⟩
      simp only [nanI, pinfI, ninfI, finI, zero_add]
      unfold outOf
      by_cases ha : a > 0
      · rw [if_pos (Or.inl ha), if_pos (Or.inl ha)]; rfl
      · by_cases hc : c > 0
        · rw [if_pos (c := a > 0 ∨ (1 + b > 0 ∧ c > 0)) (Or.inr ⟨by omega, hc⟩)]
          by_cases hb : b > 0
          · rw [if_pos (Or.inr ⟨hb, hc⟩)]; rfl
          · rw [if_neg (by omega), if_neg hb, if_pos hc]; rfl
        · rw [if_neg (c := a > 0 ∨ (1 + b > 0 ∧ c > 0)) (by omega), if_pos (c := 1 + b > 0) (by omega)]
          rw [if_neg (by omega)]
          by_cases hb : b > 0
          · rw [if_pos hb]; rfl
          · rw [if_neg hb, if_neg hc]; rfl
    | ninf =>
      refine ⟨⟨by simp [nanI]; omega, by simp [pinfI]; omega, by simp [ninfI]; omega⟩, ?_⟩
      simp only [nanI, pinfI, ninfI, finI, zero_add]
      unfold outOf
      by_cases ha : a > 0
      · rw [if_pos (Or.inl ha), if_pos (Or.inl ha)]; rfl
      · by_cases hb : b > 0
        · rw [if_pos (c := a > 0 ∨ (b > 0 ∧ 1 + c > 0)) (Or.inr ⟨hb, by omega⟩)]
          by_cases hc : c > 0
          · rw [if_pos (Or.inr ⟨hb, hc⟩)]; rfl
          · rw [if_neg (by omega), if_pos hb]; rfl
        · rw [if_neg (c := a > 0 ∨ (b > 0 ∧ 1 + c > 0)) (by omega),
            if_neg (c := a > 0 ∨ (b > 0 ∧ c > 0)) (by omega), if_neg hb, if_neg hb,
            if_pos (c := 1 + c > 0) (by omega)]
          by_cases hc : c > 0
          · rw [if_pos hc]; rfl
          · rw [if_neg hc]; rfl
    | fin q =>
      refine ⟨⟨by simp [nanI]; omega, by simp [pinfI]; omega, by simp [ninfI]; omega⟩, ?_⟩
      simp only [nanI, pinfI, ninfI, finI, zero_add]
      unfold outOf
      by_cases h : a > 0 ∨ (b > 0 ∧ c > 0)
      · rw [if_pos h, if_pos h]; rfl
      · rw [if_neg h, if_neg h]
        by_cases hb : b > 0
        · rw [if_pos hb, if_pos hb]; rfl
        · rw [if_neg hb, if_neg hb]
          by_cases hc : c > 0
          · rw [if_pos hc, if_pos hc]; rfl
          · rw [if_neg hc, if_neg hc]; rfl

theorem sumStep_spec {arr : List FVal} {w k : Nat} (hw : 0 < w) {st : SumSt}
    (h : SumInv arr w k st) (hk : k < arr.length) :
    SumInv arr w (k + 1) (sumStep arr w st k).1 ∧
    (k + 1 < w → (sumStep arr w st k).2 = .nan) ∧
    (w ≤ k + 1 → (sumStep arr w st k).2 = fsum (window arr w k)) := by
  obtain ⟨v, hv⟩ : ∃ v, arr[k]? = some v := ⟨_, List.getElem?_eq_getElem hk⟩
  generalize hst2 : (if w ≤ k then
      match arr[k - w]? with
      | some u => (st.push v).drop u
      | none => st.push v
    else st.push v) = st2
  have hstep : sumStep arr w st k = if w ≤ k + 1 then (st2, st2.out) else (st2, .nan) := by
    unfold sumStep
    rw [hv, ← hst2]
    rfl
  have hinv : SumInv arr w (k + 1) st2 := by
    obtain ⟨p1, p2, p3, p4, p5⟩ := push_eq st v
    by_cases hwk : w ≤ k
    · obtain ⟨u, hu⟩ : ∃ u, arr[k - w]? = some u := ⟨_, List.getElem?_eq_getElem (by omega)⟩
      rw [if_pos hwk, hu] at hst2
      simp only at hst2
      obtain ⟨d1, d2, d3, d4, d5⟩ := drop_eq (st.push v) u
      subst hst2
      refine ⟨?_, d2 (p2 h.comp), ?_, ?_, ?_⟩
      · rw [d1, p1, h.total, (winSum_step finI hv hw).2 u hwk hu]
      · rw [d3, p3, h.nans, (winSum_step nanI hv hw).2 u hwk hu]
      · rw [d4, p4, h.pinfs, (winSum_step pinfI hv hw).2 u hwk hu]
      · rw [d5, p5, h.ninfs, (winSum_step ninfI hv hw).2 u hwk hu]
    · rw [if_neg hwk] at hst2
      subst hst2
      have hlt : k < w := by omega
      refine ⟨?_, p2 h.comp, ?_, ?_, ?_⟩
      · rw [p1, h.total, (winSum_step finI hv hw).1 hlt]
      · rw [p3, h.nans, (winSum_step nanI hv hw).1 hlt]
      · rw [p4, h.pinfs, (winSum_step pinfI hv hw).1 hlt]
      · rw [p5, h.ninfs, (winSum_step ninfI hv hw).1 hlt]
  rw [hstep]
  by_cases hwk : w ≤ k + 1
  · rw [if_pos hwk]
    refine ⟨hinv, fun h => absurd h (by omega), fun _ => ?_⟩
    rw [(fsum_counts _).2]
    unfold SumSt.out outOf
    rw [hinv.total, hinv.comp, hinv.nans, hinv.pinfs, hinv.ninfs, winSum_window, winSum_window,
      winSum_window, winSum_window, add_zero]
  · rw [if_neg hwk]
    exact ⟨hinv, fun _ => rfl, fun h => absurd h hwk⟩

theorem sumLoop_length (arr : List FVal) (w : Nat) : ∀ k i st, (sumLoop arr w k i st).length = k := by
  intro k
  induction k with
  | zero => intro i st; rfl
  | succ k ih => intro i st; simp [sumLoop, ih]

theorem sumLoop_spec {arr : List FVal} {w : Nat} (hw : 0 < w) : ∀ (k i : Nat) (st : SumSt),
    i + k = arr.length → SumInv arr w i st → ∀ m < k,
    (sumLoop arr w k i st)[m]? = some (if i + m + 1 < w then .nan else fsum (window arr w (i + m))) := by
  intro k
  induction k with
  | zero => intro i st _ _ m hm; omega
  | succ k ih =>
    intro i st hik hinv m hm
    obtain ⟨s1, s2, s3⟩ := sumStep_spec hw hinv (by omega)
    unfold sumLoop
    cases m with
    | zero =>
      simp only [List.getElem?_cons_zero, Nat.add_zero]
      congr 1
      split
      · rename_i h; exact s2 h
      · rename_i h; exact s3 (by omega)
    | succ m =>
      have := ih (i + 1) _ (by omega) s1 m (by omega)
      rw [show i + (m + 1) = i + 1 + m by omega]
      simpa using this

/-- C50.  `sumv` gives, at every index with a full window, the sum of the last `n`
values as floats add (NaN when one of them is NaN or when both infinities occur), and
NaN before.  Values outside the window have no part in it. -/
theorem sumv_window_sum {arr out : List FVal} {n : Nat} (h : sumv arr n = some out) :
    out.length = arr.length ∧ ∀ i < arr.length,
      out[i]? = some (if i + 1 < n then .nan else fsum (window arr n i)) := by
  unfold sumv at h
  have hl := sumLoop_length arr n arr.length 0 {}
  obtain ⟨rfl, hn⟩ := verified_some h hl
  refine ⟨hl, fun i hi => ?_⟩
  have := sumLoop_spec (arr := arr) (hn (by omega)).1 arr.length 0 {} (by omega)
    ⟨by simp [winSum, preSum], rfl, by simp [winSum, preSum], by simp [winSum, preSum],
      by simp [winSum, preSum]⟩ i hi
  rw [Nat.zero_add] at this
  exact this

theorem fsum_nan {l : List FVal} (h : FVal.nan ∈ l) : fsum l = .nan := by
  induction l with
  | nil => cases h
  | cons v l ih =>
    have e : fsum (v :: l) = fadd v (fsum l) := rfl
    rw [e]
    rcases List.mem_cons.1 h with rfl | h
    · rfl
    · rw [ih h]
      cases v <;> rfl

theorem fsum_fin (qs : List ℚ) : fsum (qs.map FVal.fin) = .fin qs.sum := by
  induction qs with
  | nil => rfl
  | cons q qs ih =>
    have e : fsum ((q :: qs).map FVal.fin) = fadd (.fin q) (fsum (qs.map FVal.fin)) := rfl
    rw [e, ih, List.sum_cons]
    rfl

/-- C50.  A window of numbers gives their sum; one with a NaN gives NaN. -/
theorem sumv_values {arr out : List FVal} {n i : Nat} (h : sumv arr n = some out)
    (hi : i < arr.length) (hn : n ≤ i + 1) :
    (.nan ∈ window arr n i → out[i]? = some .nan) ∧
    (∀ qs : List ℚ, window arr n i = qs.map FVal.fin → out[i]? = some (.fin qs.sum)) := by
  have := (sumv_window_sum h).2 i hi
  rw [if_neg (by omega)] at this
  refine ⟨fun hm => ?_, fun qs hq => ?_⟩
  · rw [this, fsum_nan hm]
  · rw [this, hq, fsum_fin]

/-! ## C51 -/

/-- C51.  `returnv` is the relative change over `n` bars, NaN during warm-up, with an
unknown value or with a zero base. -/
theorem returnv_change {arr out : List (Option ℚ)} {n : Nat} (h : returnv arr n = some out) :
    out.length = arr.length ∧ ∀ i < arr.length, ∃ o, out[i]? = some o ∧ (i < n → o = none) ∧
      (n ≤ i → ∀ x base, arr[i]? = some (some x) → arr[i - n]? = some (some base) →
        o = if base = 0 then none else some (x / base - 1)) ∧
      (n ≤ i → arr[i]? = some none ∨ arr[i - n]? = some none → o = none) := by
  unfold returnv at h
  obtain ⟨rfl, hn⟩ := verified_some h (by simp)
  refine ⟨by simp, fun i hi => ?_⟩
  rw [List.getElem?_map, List.getElem?_range hi, Option.map_some]
  refine ⟨_, rfl, fun h => if_pos h, ?_, ?_⟩
  · intro hni x base hx hb
    rw [if_neg (by omega), hx, hb]
    simp only
    by_cases h0 : base = 0
    · rw [if_neg (by simpa using h0), if_pos h0]
    · rw [if_pos h0, if_neg h0]
      congr 1
      rw [sub_div, div_self h0]
  · intro hni hnone
    rw [if_neg (by omega)]
    rcases hnone with h | h
    · rw [h]
    · rw [h]
      split <;> simp_all

theorem zip_get {α β : Type} {a : List α} {b : List β} {i : Nat} {x : α} {y : β}
    (hx : a[i]? = some x) (hy : b[i]? = some y) : (a.zip b)[i]? = some (x, y) :=
  List.getElem?_zip_eq_some.2 ⟨hx, hy⟩

theorem cross_cells {a b : List (Option ℚ)} {out : List Nat} (h : cross a b = some out) :
    out.length = a.length ∧ out[0]? = some 0 ∧
    ∀ i, i + 1 < a.length → ∀ x y x' y', a[i + 1]? = some x → b[i + 1]? = some y →
      a[i]? = some x' → b[i]? = some y' →
      out[i + 1]? = some (if cellGt x y = true ∧ cellGt x' y' = false then 1 else 0) := by
  unfold cross at h
  split at h
  · cases h
  · rename_i hc
    simp only [not_or, not_not, not_lt] at hc
    obtain ⟨ha, hb, hlen, h2⟩ := hc
    simp only at h
    generalize hcr : (a.zip b).map (fun p => if cellGt p.1 p.2 then 1 else 0) = crossed at h
    generalize hind : crossed.map (fun c => if c > 0 then FVal.fin 1 else FVal.fin 0) = ind at h
    obtain ⟨s, hs, rfl⟩ := Option.map_eq_some_iff.1 h
    have hcl : crossed.length = a.length := by rw [← hcr]; simp [hlen]
    have hil : ind.length = a.length := by rw [← hind]; simp [hcl]
    obtain ⟨hsl, hsv⟩ := sumv_window_sum hs
    have hcv : ∀ (i : Nat) x y, a[i]? = some x → b[i]? = some y →
        crossed[i]? = some (if cellGt x y then 1 else 0) := by
      intro i x y hx hy
      rw [← hcr, List.getElem?_map, zip_get hx hy]
      rfl
    have hiv : ∀ (i : Nat) x y, a[i]? = some x → b[i]? = some y →
        ind[i]? = some (if cellGt x y then FVal.fin 1 else FVal.fin 0) := by
      intro i x y hx hy
      rw [← hind, List.getElem?_map, hcv i x y hx hy]
      cases cellGt x y <;> simp
    refine ⟨by simp [hsl, hil, hcl], ?_, ?_⟩
    · obtain ⟨c, hc0⟩ : ∃ c, crossed[0]? = some c := ⟨_, List.getElem?_eq_getElem (by omega)⟩
      have hs0 := hsv 0 (by omega)
      rw [if_pos (by omega)] at hs0
      rw [List.getElem?_map, zip_get hs0 hc0]
      simp
    · intro i hi x y x' y' hx hy hx' hy'
      have h1 := hiv (i + 1) x y hx hy
      have h0 := hiv i x' y' hx' hy'
      have hsi := hsv (i + 1) (by omega)
      rw [if_neg (by omega)] at hsi
      have hwin : window ind 2 (i + 1) = [if cellGt x' y' then FVal.fin 1 else FVal.fin 0,
          if cellGt x y then FVal.fin 1 else FVal.fin 0] := by
        unfold window
        rw [show i + 1 + 1 - 2 = i by omega, List.take_add_one, List.take_add_one, h0, h1]
        have hti : (ind.take i).length = i := by rw [List.length_take]; omega
        rw [List.append_assoc, List.drop_append_of_le_length (by omega), List.drop_of_length_le (by omega)]
        rfl
      rw [hwin] at hsi
      rw [List.getElem?_map, zip_get hsi (hcv (i + 1) x y hx hy)]
      simp only [Option.map_some]
      cases cellGt x y <;> cases cellGt x' y' <;> simp [fsum, fadd] <;> norm_num

theorem cellGt_above (x y : Option ℚ) : cellGt x y = true ↔ Above x y := by
  unfold Above
  cases x <;> cases y <;> simp [cellGt]

/-- C51.  `cross(a, b)` is 1 at a bar exactly when `a` is above `b` there and was not
on the bar before; otherwise it is 0, and it is 0 on the first bar. -/
theorem cross_up {a b : List (Option ℚ)} {out : List Nat} (h : cross a b = some out) :
    out.length = a.length ∧ out[0]? = some 0 ∧
    ∀ i x y x' y', a[i + 1]? = some x → b[i + 1]? = some y → a[i]? = some x' → b[i]? = some y' →
      (out[i + 1]? = some 1 ∧ Above x y ∧ ¬ Above x' y') ∨
      (out[i + 1]? = some 0 ∧ ¬ (Above x y ∧ ¬ Above x' y')) := by
  obtain ⟨h1, h2, h3⟩ := cross_cells h
  refine ⟨h1, h2, fun i x y x' y' hx hy hx' hy' => ?_⟩
  obtain ⟨hi, _⟩ := List.getElem?_eq_some_iff.1 hx
  have := h3 i hi x y x' y' hx hy hx' hy'
  by_cases hc : cellGt x y = true ∧ cellGt x' y' = false
  · left
    rw [if_pos hc] at this
    refine ⟨this, (cellGt_above x y).1 hc.1, fun h => ?_⟩
    rw [(cellGt_above x' y').2 h] at hc
    cases hc.2
  · right
    rw [if_neg hc] at this
    refine ⟨this, fun h => hc ⟨(cellGt_above x y).2 h.1, ?_⟩⟩
    rw [Bool.eq_false_iff]
    exact fun h' => h.2 ((cellGt_above x' y').1 h')

/-! ## C53: later values have no part -/

theorem window_congr {α : Type} {arr arr' : List α} {w i t : Nat} (hit : i ≤ t)
    (h : arr.take (t + 1) = arr'.take (t + 1)) : window arr w i = window arr' w i := by
  unfold window
  have : arr.take (i + 1) = arr'.take (i + 1) := by
    have := congrArg (List.take (i + 1)) h
    rwa [List.take_take, List.take_take, min_eq_left (by omega)] at this
  rw [this]

theorem isBest_unique {α : Type} [PartialOrder α] {win : List (Option α)} {o o' : Option α}
    (h : IsBest (· ≤ ·) win o) (h' : IsBest (· ≤ ·) win o') : o = o' := by
  by_cases hn : none ∈ win
  · rw [h.1 hn, h'.1 hn]
  · obtain ⟨v, rfl, hv, hv2⟩ := h.2 hn
    obtain ⟨v', rfl, hv', hv2'⟩ := h'.2 hn
    rw [le_antisymm (hv2 _ hv') (hv2' _ hv)]

theorem isBest_unique' {α : Type} [PartialOrder α] {win : List (Option α)} {o o' : Option α}
    (h : IsBest (· ≥ ·) win o) (h' : IsBest (· ≥ ·) win o') : o = o' := by
  by_cases hn : none ∈ win
  · rw [h.1 hn, h'.1 hn]
  · obtain ⟨v, rfl, hv, hv2⟩ := h.2 hn
    obtain ⟨v', rfl, hv', hv2'⟩ := h'.2 hn
    rw [le_antisymm (hv2' _ hv) (hv2 _ hv')]

/-- C53.  The value of `lowv`, `highv` and `sumv` at bar `t` is the same for any two
arrays that agree up to `t`. -/
theorem rolling_causal {α : Type} [LinearOrder α] {arr arr' lo lo' hi hi' : List (Option α)}
    {xs xs' s s' : List FVal} {n t : Nat} (ht : t < arr.length) (ht' : t < arr'.length)
    (hx : t < xs.length) (hx' : t < xs'.length)
    (harr : arr.take (t + 1) = arr'.take (t + 1)) (hxs : xs.take (t + 1) = xs'.take (t + 1))
    (hlo : lowv arr n = some lo) (hlo' : lowv arr' n = some lo')
    (hhi : highv arr n = some hi) (hhi' : highv arr' n = some hi')
    (hs : sumv xs n = some s) (hs' : sumv xs' n = some s') :
    lo[t]? = lo'[t]? ∧ hi[t]? = hi'[t]? ∧ s[t]? = s'[t]? := by
  refine ⟨?_, ?_, ?_⟩
  · obtain ⟨o, h1, h2, h3⟩ := (lowv_window_min hlo).2 t ht
    obtain ⟨o', h1', h2', h3'⟩ := (lowv_window_min hlo').2 t ht'
    rw [h1, h1']
    by_cases hn : t + 1 < n
    · rw [h2 hn, h2' hn]
    · have a := h3 (by omega)
      have b := h3' (by omega)
      rw [← window_congr (le_refl t) harr] at b
      rw [isBest_unique a b]
  · obtain ⟨o, h1, h2, h3⟩ := (highv_window_max hhi).2 t ht
    obtain ⟨o', h1', h2', h3'⟩ := (highv_window_max hhi').2 t ht'
    rw [h1, h1']
    by_cases hn : t + 1 < n
    · rw [h2 hn, h2' hn]
    · have a := h3 (by omega)
      have b := h3' (by omega)
      rw [← window_congr (le_refl t) harr] at b
      rw [isBest_unique' a b]
  · rw [(sumv_window_sum hs).2 t hx, (sumv_window_sum hs').2 t hx',
      window_congr (le_refl t) hxs]

theorem take_getElem? {α : Type} {arr arr' : List α} {t i : Nat} (hi : i ≤ t)
    (h : arr.take (t + 1) = arr'.take (t + 1)) : arr[i]? = arr'[i]? := by
  have := congrArg (fun l => l[i]?) h
  simp only [List.getElem?_take] at this
  rwa [if_pos (by omega), if_pos (by omega)] at this

/-- C53.  The value of `returnv` and `cross` at bar `t` is the same for any two arrays
that agree up to `t`. -/
theorem returnv_cross_causal {arr arr' out out' b b' : List (Option ℚ)} {c c' : List Nat} {n t : Nat}
    (ht : t < arr.length) (ht' : t < arr'.length)
    (harr : arr.take (t + 1) = arr'.take (t + 1)) (hb : b.take (t + 1) = b'.take (t + 1))
    (h : returnv arr n = some out) (h' : returnv arr' n = some out')
    (hc : cross arr b = some c) (hc' : cross arr' b' = some c') :
    out[t]? = out'[t]? ∧ c[t]? = c'[t]? := by
  constructor
  · unfold returnv at h h'
    obtain ⟨rfl, _⟩ := verified_some h (by simp)
    obtain ⟨rfl, _⟩ := verified_some h' (by simp)
    rw [List.getElem?_map, List.getElem?_map, List.getElem?_range ht, List.getElem?_range ht',
      Option.map_some, Option.map_some]
    rw [take_getElem? (le_refl t) harr, take_getElem? (Nat.sub_le t n) harr]
  · obtain ⟨_, z, v⟩ := cross_cells hc
    obtain ⟨_, z', v'⟩ := cross_cells hc'
    cases t with
    | zero => rw [z, z']
    | succ t =>
      have hbl : b.length = arr.length := by
        unfold cross at hc
        split at hc
        · cases hc
        · rename_i hcc
          simp only [not_or, not_not, not_lt] at hcc
          exact hcc.2.2.1.symm
      have e1 := take_getElem? (le_refl (t + 1)) harr
      have e2 := take_getElem? (Nat.le_succ t) harr
      have e3 := take_getElem? (le_refl (t + 1)) hb
      have e4 := take_getElem? (Nat.le_succ t) hb
      have g1 := List.getElem?_eq_getElem ht
      have g2 := List.getElem?_eq_getElem (show t < arr.length by omega)
      have g3 := List.getElem?_eq_getElem (show t + 1 < b.length by omega)
      have g4 := List.getElem?_eq_getElem (show t < b.length by omega)
      rw [v t ht _ _ _ _ g1 g3 g2 g4,
        v' t ht' _ _ _ _ (e1 ▸ g1) (e3 ▸ g3) (e2 ▸ g2) (e4 ▸ g4)]

/-! ## Concrete arrays -/

example : lowv (α := ℚ) [some 3, some 1, none, some 4, some 2, some 5] 2 =
    some [none, some 1, none, none, some 2, some 2] := by decide +kernel
example : highv (α := ℚ) [some 3, some 1, none, some 4, some 2, some 5] 2 =
    some [none, some 3, none, none, some 4, some 5] := by decide +kernel
example : sumv [.fin 1, .fin 2, .nan, .fin 3, .fin 4, .pinf] 2 =
    some [.nan, .fin 3, .nan, .nan, .fin 7, .pinf] := by decide +kernel
example : returnv [some 2, some 3, some 0, some 1] 1 =
    some [none, some (1 / 2), some (-1), none] := by decide +kernel
example : cross [some 1, some 3, some 4, some 1, some 5] [some 2, some 2, some 2, some 2, none] =
    some [0, 1, 0, 0, 0] := by decide +kernel

end PyBroker
