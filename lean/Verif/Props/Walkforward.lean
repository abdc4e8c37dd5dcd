import Verif.Walkforward
import Mathlib.Tactic.Linarith
import Mathlib.Tactic.Ring
import Mathlib.Tactic.FieldSimp
import Mathlib.Tactic.Positivity
import Mathlib.Tactic.NormNum

/-!
# Walk-forward windows (C36, C37, C38, C39)
-/

namespace PyBroker

/-! ## Specification -/

/-- The number of distinct dates of a data frame. -/
def Spec.nDates (rows : List Date) : Nat := rows.dedup.length

/-- The bar number of a date: how many distinct dates are earlier. -/
def Spec.barNo (rows : List Date) (d : Date) : Nat := (rows.dedup.filter (· < d)).length

/-- `l` is exactly the rows whose bar number is at least `a` and less than `b`. -/
def Spec.RowsIn (rows : List Date) (l : List Nat) (a b : Int) : Prop :=
  ∀ i, i ∈ l ↔ ∃ d, rows[i]? = some d ∧ a ≤ barNo rows d ∧ (barNo rows d : Int) < b

open PyBroker.Spec

/-! ## Dates and masks -/

theorem windowDates_perm (rows : List Date) : (windowDates rows).Perm rows.dedup :=
  List.perm_insertionSort _ _

theorem windowDates_len (rows : List Date) : (windowDates rows).length = nDates rows :=
  (windowDates_perm rows).length_eq

theorem windowDates_sorted (rows : List Date) : (windowDates rows).Pairwise (· < ·) := by
  have h1 := List.pairwise_insertionSort (· ≤ ·) rows.dedup
  have h2 : (windowDates rows).Nodup := (windowDates_perm rows).nodup_iff.2 (List.nodup_dedup _)
  exact (h1.and h2).imp (fun h => lt_of_le_of_ne h.1 h.2)

theorem barNo_eq (rows : List Date) (d : Date) :
    barNo rows d = (windowDates rows).countP (· < d) := by
  unfold barNo
  rw [← List.countP_eq_length_filter, (windowDates_perm rows).countP_eq]

theorem sorted_count : ∀ {l : List Date}, l.Pairwise (· < ·) → ∀ {j : Nat} {a : Date},
    l[j]? = some a → l.countP (· < a) = j := by
  intro l
  induction l with
  | nil => intro _ j a h; simp at h
  | cons x l ih =>
    intro hp j a h
    obtain ⟨hx, hp⟩ := List.pairwise_cons.1 hp
    cases j with
    | zero =>
      simp only [List.getElem?_cons_zero, Option.some.injEq] at h
      subst h
      rw [List.countP_eq_zero]
      intro y hy
      rcases List.mem_cons.1 hy with rfl | hy
      · simp
      · simp [le_of_lt (hx y hy)]
    | succ j =>
      rw [List.getElem?_cons_succ] at h
      have hxa := hx a (List.mem_of_getElem? h)
      rw [List.countP_cons_of_pos (by simpa using hxa), ih hp h]

theorem barNo_get {rows : List Date} {d : Date} (hd : d ∈ rows) :
    barNo rows d < nDates rows ∧ (windowDates rows)[barNo rows d]? = some d := by
  have hm : d ∈ windowDates rows := (windowDates_perm rows).mem_iff.2 (List.mem_dedup.2 hd)
  obtain ⟨j, hj⟩ := List.mem_iff_getElem?.1 hm
  have := sorted_count (windowDates_sorted rows) hj
  rw [barNo_eq, this]
  refine ⟨?_, hj⟩
  rw [← windowDates_len]
  exact (List.getElem?_eq_some_iff.1 hj).1

theorem at_lt {rows : List Date} {j : Nat} {a d : Date} (ha : (windowDates rows)[j]? = some a)
    (hd : d ∈ rows) : a < d ↔ j < barNo rows d := by
  obtain ⟨h1, h2⟩ := barNo_get hd
  obtain ⟨hj, ha⟩ := List.getElem?_eq_some_iff.1 ha
  obtain ⟨hi, h2⟩ := List.getElem?_eq_some_iff.1 h2
  have hs := List.pairwise_iff_getElem.1 (windowDates_sorted rows)
  constructor
  · intro h
    by_contra hc
    rcases eq_or_lt_of_le (not_lt.1 hc) with e | e
    · have : a = d := by rw [← ha, ← h2]; congr 1; exact e.symm
      exact absurd h (by rw [this]; exact lt_irrefl _)
    · have := hs _ _ hi hj e
      rw [ha, h2] at this
      exact lt_asymm h this
  · intro h
    have := hs _ _ hj hi h
    rwa [ha, h2] at this

theorem at_le {rows : List Date} {j : Nat} {a d : Date} (ha : (windowDates rows)[j]? = some a)
    (hd : d ∈ rows) : (a ≤ d ↔ j ≤ barNo rows d) ∧ (d ≤ a ↔ barNo rows d ≤ j) := by
  obtain ⟨h1, h2⟩ := barNo_get hd
  have hl := at_lt ha hd
  have hinj : j = barNo rows d ↔ a = d := by
    constructor
    · intro e
      rw [← e, ha] at h2
      exact Option.some.inj h2
    · intro e
      rw [e] at ha
      rw [barNo_eq]
      exact (sorted_count (windowDates_sorted rows) ha).symm
  constructor
  · rw [le_iff_lt_or_eq, le_iff_lt_or_eq, hl, hinj]
  · rw [← not_lt, hl, not_lt]

theorem mem_rowMask {rows : List Date} {low high : Date} {b : Bool} {i : Nat} :
    i ∈ rowMask rows low high b ↔ ∃ d, rows[i]? = some d ∧ inMask low high b d = true := by
  unfold rowMask
  rw [List.mem_filter, List.mem_range]
  constructor
  · rintro ⟨hi, h⟩
    rw [List.getElem?_eq_getElem hi] at h ⊢
    exact ⟨_, rfl, by simpa using h⟩
  · rintro ⟨d, hd, h⟩
    refine ⟨(List.getElem?_eq_some_iff.1 hd).1, ?_⟩
    rw [hd]
    simpa using h

theorem pyAt_ok {l : List Date} {i : Int} (h0 : 0 ≤ i) (h1 : i < l.length) :
    ∃ d, l[i.toNat]? = some d ∧ pyAt l i = .ok d := by
  have hlt : i.toNat < l.length := by omega
  refine ⟨l[i.toNat], List.getElem?_eq_getElem hlt, ?_⟩
  unfold pyAt
  simp only [if_neg (not_lt.2 h0)]
  rw [List.getElem?_eq_getElem hlt]

theorem maskAt_ok {rows : List Date} {lo hi : Int} (hlo : 0 ≤ lo) (hlo' : lo < nDates rows)
    (hhi : 0 ≤ hi) (hhi' : hi < nDates rows) :
    ∃ l, maskAt rows (windowDates rows) lo hi = .ok l ∧ RowsIn rows l lo (hi + 1) := by
  rw [← windowDates_len] at hlo' hhi'
  obtain ⟨a, ha, ea⟩ := pyAt_ok hlo hlo'
  obtain ⟨b, hb, eb⟩ := pyAt_ok hhi hhi'
  refine ⟨rowMask rows a b, by unfold maskAt; rw [ea, eb], ?_⟩
  intro i
  rw [mem_rowMask]
  refine exists_congr (fun d => and_congr_right (fun hd => ?_))
  have hm := List.mem_of_getElem? hd
  unfold inMask
  simp only [Bool.false_eq_true, if_false, Bool.and_eq_true, decide_eq_true_eq]
  rw [(at_le ha hm).1, (at_le hb hm).2]
  omega

theorem reverse_at {l : List Date} {i : Int} {d : Date} (h1 : i < l.length)
    (h : l.reverse[i.toNat]? = some d) (h0 : 0 ≤ i) : l[(l.length - 1 - i).toNat]? = some d := by
  rw [List.getElem?_reverse (by omega)] at h
  rw [← h]
  congr 1
  omega

theorem maskAt_rev {rows : List Date} {lo hi : Int} (hlo : 0 ≤ lo) (hlo' : lo < nDates rows)
    (hhi : 0 ≤ hi) (hhi' : hi < nDates rows) :
    ∃ l, maskAt rows (windowDates rows).reverse lo hi true = .ok l ∧
      RowsIn rows l (nDates rows - lo) (nDates rows - hi) := by
  rw [← windowDates_len] at hlo' hhi' ⊢
  obtain ⟨a, ha, ea⟩ := pyAt_ok (l := (windowDates rows).reverse) hlo
    (by rw [List.length_reverse]; exact hlo')
  obtain ⟨b, hb, eb⟩ := pyAt_ok (l := (windowDates rows).reverse) hhi
    (by rw [List.length_reverse]; exact hhi')
  refine ⟨rowMask rows a b true, by unfold maskAt; rw [ea, eb], ?_⟩
  have ha := reverse_at hlo' ha hlo
  have hb := reverse_at hhi' hb hhi
  intro i
  rw [mem_rowMask]
  refine exists_congr (fun d => and_congr_right (fun hd => ?_))
  have hm := List.mem_of_getElem? hd
  unfold inMask
  simp only [if_true, Bool.and_eq_true, decide_eq_true_eq]
  rw [at_lt ha hm, (at_le hb hm).2]
  omega

theorem collect_ok {α β : Type} {P : α → β → Prop} {f : α → Except WErr β} :
    ∀ {l : List α}, (∀ x ∈ l, ∃ w, f x = .ok w ∧ P x w) →
    ∃ ws, collect (l.map f) = .ok ws ∧ ws.length = l.length ∧
      ∀ (k : Nat) x w, l[k]? = some x → ws[k]? = some w → P x w := by
  intro l
  induction l with
  | nil =>
    intro _
    exact ⟨[], rfl, rfl, fun k x w h => by simp at h⟩
  | cons a l ih =>
    intro h
    obtain ⟨w, hw, hp⟩ := h a List.mem_cons_self
    obtain ⟨ws, e, hlen, hall⟩ := ih (fun x hx => h x (List.mem_cons_of_mem _ hx))
    refine ⟨w :: ws, ?_, by simp [hlen], ?_⟩
    · rw [List.map_cons, hw]
      unfold collect
      rw [e]
    · intro k x w' hx hw'
      cases k with
      | zero =>
        simp only [List.getElem?_cons_zero, Option.some.injEq] at hx hw'
        subst hx; subst hw'
        exact hp
      | succ k =>
        rw [List.getElem?_cons_succ] at hx hw'
        exact hall k x w' hx hw'

/-! ## The loop -/

theorem trunc_nonneg {x : ℚ} (h : 0 ≤ x) : 0 ≤ truncQ x ∧ (truncQ x : ℚ) ≤ x := by
  unfold truncQ
  rw [if_neg (not_lt.2 h)]
  exact ⟨Int.floor_nonneg.2 h, Int.floor_le x⟩

theorem trunc_nonpos {x : ℚ} (h : x ≤ 0) : truncQ x ≤ 0 := by
  unfold truncQ
  rcases eq_or_lt_of_le h with e | e
  · rw [e]; simp
  · rw [if_pos e]
    exact Int.ceil_le.2 (by simpa using h)

/-- One round adds less than what is left. -/
theorem incr_lt {r w : Int} {ts : ℚ} (hr : 0 < r) (hw : 2 ≤ w) (h0 : 0 < ts) (h1 : ts < 1) :
    0 ≤ truncQ ((r : ℚ) / w * ts) ∧ 0 ≤ truncQ ((r : ℚ) / w * (1 - ts)) ∧
    truncQ ((r : ℚ) / w * ts) + truncQ ((r : ℚ) / w * (1 - ts)) * w < r := by
  have hw' : (2 : ℚ) ≤ (w : ℚ) := by exact_mod_cast hw
  have hr' : (0 : ℚ) < (r : ℚ) := by exact_mod_cast hr
  have hq : 0 < (r : ℚ) / w := div_pos hr' (by linarith)
  have hrw : (r : ℚ) / w * w = r := div_mul_cancel₀ _ (by linarith)
  obtain ⟨a0, a1⟩ := trunc_nonneg (mul_nonneg hq.le h0.le)
  obtain ⟨b0, b1⟩ := trunc_nonneg (mul_nonneg hq.le (by linarith : (0 : ℚ) ≤ 1 - ts))
  refine ⟨a0, b0, ?_⟩
  have hb : (truncQ ((r : ℚ) / w * (1 - ts)) : ℚ) * w ≤ (r : ℚ) / w * (1 - ts) * w :=
    mul_le_mul_of_nonneg_right b1 (by linarith)
  have hlt : (r : ℚ) / w * ts + (r : ℚ) / w * (1 - ts) * w < r := by
    have e : (r : ℚ) / w * (1 - ts) * w = r * (1 - ts) := by rw [mul_right_comm, hrw]
    rw [e]
    have : (r : ℚ) / w < r := div_lt_self hr' (by linarith)
    nlinarith
  have : ((truncQ ((r : ℚ) / w * ts) + truncQ ((r : ℚ) / w * (1 - ts)) * w : Int) : ℚ) < (r : ℚ) := by
    push_cast
    linarith
  exact_mod_cast this

theorem grow_ok {res w : Int} {ts : ℚ} (hw : 2 ≤ w) (h0 : 0 < ts) (h1 : ts < 1) :
    ∀ (fuel : Nat) (tl te : Int), 0 ≤ tl → 0 ≤ te → tl + te * w < res →
      res - (tl + te * w) < fuel →
      ∃ tl' te', growLengths fuel res w ts tl te = some (tl', te') ∧ tl ≤ tl' ∧ te ≤ te' ∧
        tl' + te' * w < res := by
  intro fuel
  induction fuel with
  | zero => intro tl te _ _ h h'; simp only [Nat.cast_zero] at h'; omega
  | succ fuel ih =>
    intro tl te htl hte hlt hfuel
    unfold growLengths
    simp only
    obtain ⟨a0, b0, hsum⟩ := incr_lt (r := res - (tl + te * w)) (by omega) hw h0 h1
    split
    · exact ⟨tl, te, rfl, le_refl _, le_refl _, hlt⟩
    · rename_i hne
      obtain ⟨hne1, hne2⟩ := not_or.1 hne
      generalize truncQ (((res - (tl + te * w) : Int) : ℚ) / w * ts) = a at *
      generalize truncQ (((res - (tl + te * w) : Int) : ℚ) / w * (1 - ts)) = b at *
      have hbw : 0 ≤ b * w := mul_nonneg b0 (by omega)
      have he : tl + a + (te + b) * w = tl + te * w + (a + b * w) := by ring
      obtain ⟨tl', te', h, h2, h3, h4⟩ := ih (tl + a) (te + b) (by omega) (by omega)
        (by rw [he]; omega) (by rw [he]; push_cast at hfuel; omega)
      exact ⟨tl', te', h, by omega, by omega, h4⟩

/-! ## The windows -/

/-- The shape of a walk-forward split: `tl` training dates and `te` test dates per
window; the test dates of the windows are consecutive and end at the last date, and
the training dates of a window end `la` bars before its test dates start. -/
def Spec.Blocks (rows : List Date) (windows la : Int) (tl te : Nat) (ws : List WFWindow) : Prop :=
  0 < tl + te ∧ (ws.length : Int) = windows ∧
  windows * te + tl + la - 1 ≤ nDates rows ∧
  ∀ (k : Nat) win, ws[k]? = some win →
    RowsIn rows win.test (nDates rows - (windows - k) * te)
      (nDates rows - (windows - k) * te + te) ∧
    RowsIn rows win.train (nDates rows - (windows - k) * te - (la - 1) - tl)
      (nDates rows - (windows - k) * te - (la - 1))

theorem rowsIn_perm {rows : List Date} {l l' : List Nat} {a b : Int} (h : RowsIn rows l a b)
    (hp : l'.Perm l) : RowsIn rows l' a b := fun i => (hp.mem_iff).trans (h i)

theorem splitOne_ok {rows : List Date} {la : Int} {ts : ℚ} {shuffle : List Nat → List Nat}
    (hs : ∀ l, (shuffle l).Perm l) (hla : 0 < la) (h0 : 0 < ts) (h1 : ts < 1) :
    splitOne rows la ts shuffle = .error .value ∨
    ∃ ws tl te, splitOne rows la ts shuffle = .ok ws ∧ Blocks rows 1 la tl te ws := by
  unfold splitOne
  simp only
  rw [windowDates_len]
  by_cases hr : (nDates rows : Int) - 1 - la ≤ 0
  · rw [if_pos hr]; exact Or.inl rfl
  · rw [if_neg hr]
    right
    have hr' : (0 : ℚ) ≤ (((nDates rows : Int) - 1 - la : Int) : ℚ) := by
      exact_mod_cast (not_le.1 hr).le
    obtain ⟨a0, a1⟩ := trunc_nonneg (mul_nonneg hr' h0.le)
    obtain ⟨b0, b1⟩ := trunc_nonneg (mul_nonneg hr' (by linarith : (0 : ℚ) ≤ 1 - ts))
    have hsum : truncQ ((((nDates rows : Int) - 1 - la : Int) : ℚ) * ts) +
        truncQ ((((nDates rows : Int) - 1 - la : Int) : ℚ) * (1 - ts)) ≤
        (nDates rows : Int) - 1 - la := by
      have : ((truncQ ((((nDates rows : Int) - 1 - la : Int) : ℚ) * ts) +
        truncQ ((((nDates rows : Int) - 1 - la : Int) : ℚ) * (1 - ts)) : Int) : ℚ) ≤
        (((nDates rows : Int) - 1 - la : Int) : ℚ) := by
        push_cast at a1 b1 ⊢
        linarith
      exact_mod_cast this
    generalize truncQ ((((nDates rows : Int) - 1 - la : Int) : ℚ) * ts) = A at a0 a1 hsum ⊢
    generalize truncQ ((((nDates rows : Int) - 1 - la : Int) : ℚ) * (1 - ts)) = B at b0 b1 hsum ⊢
    rw [if_neg (by omega)]
    obtain ⟨l1, e1, r1⟩ := maskAt_ok (rows := rows) (lo := nDates rows - la - A - B - 1)
      (hi := nDates rows - la - A - B - 1 + A) (by omega) (by omega) (by omega) (by omega)
    obtain ⟨l2, e2, r2⟩ := maskAt_ok (rows := rows) (lo := nDates rows - la - A - B - 1 + A + la)
      (hi := (nDates rows : Int) - 1) (by omega) (by omega) (by omega) (by omega)
    refine ⟨[{ train := shuffle l1, test := l2 }], (A + 1).toNat, (B + 1).toNat, ?_, ?_, ?_, ?_, ?_⟩
    · unfold windowAt
      rw [e1, e2]
      rfl
    · omega
    · rfl
    · omega
    · intro k win hk
      cases k with
      | succ k => simp at hk
      | zero =>
        simp only [List.getElem?_cons_zero, Option.some.injEq] at hk
        subst hk
        have eA : (((A + 1).toNat : Nat) : Int) = A + 1 := by omega
        have eB : (((B + 1).toNat : Nat) : Int) = B + 1 := by omega
        simp only [eA, eB, Nat.cast_zero, sub_zero, one_mul]
        constructor
        · convert r2 using 1 <;> omega
        · convert rowsIn_perm r1 (hs l1) using 1 <;> omega

theorem splitMany_ok {rows : List Date} {w la : Int} {ts : ℚ} {shuffle : List Nat → List Nat}
    (hs : ∀ l, (shuffle l).Perm l) (hw : 2 ≤ w) (hla : 0 < la) (h0 : 0 < ts) (h1 : ts < 1) :
    splitMany rows w la ts shuffle = .error .value ∨
    ∃ ws tl te, splitMany rows w la ts shuffle = .ok ws ∧ Blocks rows w la tl te ws := by
  unfold splitMany
  simp only
  rw [windowDates_len]
  generalize hres : (nDates rows : Int) - (la - 1) * w = res
  by_cases hpos : 0 < res
  · obtain ⟨a0, b0, hsum⟩ := incr_lt hpos hw h0 h1
    rw [if_neg (not_or.2 ⟨not_lt.2 a0, not_lt.2 b0⟩)]
    obtain ⟨tl, te, hg, htl, hte, hlt⟩ := grow_ok hw h0 h1 (res.toNat + 1) _ _ a0 b0 hsum (by
      have : 0 ≤ truncQ ((res : ℚ) / w * (1 - ts)) * w := mul_nonneg b0 (by omega)
      omega)
    rw [hg]
    simp only
    have htl0 : 0 ≤ tl := le_trans a0 htl
    have hte0 : 0 ≤ te := le_trans b0 hte
    by_cases hz : tl = 0 ∧ te = 0
    · rw [if_pos hz]; exact Or.inl rfl
    · rw [if_neg hz]
      right
      have hlaw : la - 1 ≤ (la - 1) * w := by nlinarith
      have htot : w * te + tl + (la - 1) < nDates rows := by rw [mul_comm]; omega
      obtain ⟨ws, e, hlen, hall⟩ := collect_ok
        (f := fun x : Int × Int × Int × Int => windowAt rows (windowDates rows).reverse shuffle
          x.1 x.2.1 x.2.2.1 x.2.2.2 true)
        (P := fun x win => RowsIn rows win.test (nDates rows - x.2.2.1) (nDates rows - x.2.2.2) ∧
          RowsIn rows win.train (nDates rows - x.1) (nDates rows - x.2.1))
        (l := ((List.range w.toNat).map (windowIdx tl te la)).reverse) (by
          intro x hx
          rw [List.mem_reverse, List.mem_map] at hx
          obtain ⟨i, hi, rfl⟩ := hx
          rw [List.mem_range] at hi
          unfold windowIdx
          simp only
          have hi' : ((i : Int) + 1) * te ≤ w * te :=
            mul_le_mul_of_nonneg_right (by omega) hte0
          have hi0 : 0 ≤ (i : Int) * te := mul_nonneg (by omega) hte0
          have hi2 : ((i : Int) + 1) * te = i * te + te := by ring
          obtain ⟨l1, e1, r1⟩ := maskAt_rev (rows := rows) (lo := (i : Int) * te + te + la - 1 + tl)
            (hi := (i : Int) * te + te + la - 1) (by omega) (by omega) (by omega) (by omega)
          obtain ⟨l2, e2, r2⟩ := maskAt_rev (rows := rows) (lo := (i : Int) * te + te)
            (hi := (i : Int) * te) (by omega) (by omega) (by omega) (by omega)
          refine ⟨{ train := shuffle l1, test := l2 }, ?_, r2, rowsIn_perm r1 (hs l1)⟩
          unfold windowAt
          rw [e1, e2])
      refine ⟨ws, tl.toNat, te.toNat, e, ?_, ?_, ?_, ?_⟩
      · omega
      · rw [hlen, List.length_reverse, List.length_map, List.length_range]
        omega
      · rw [Int.toNat_of_nonneg htl0, Int.toNat_of_nonneg hte0]
        omega
      · intro k win hk
        have hkl : k < w.toNat := by
          have := (List.getElem?_eq_some_iff.1 hk).1
          rwa [hlen, List.length_reverse, List.length_map, List.length_range] at this
        obtain ⟨p1, p2⟩ := hall k (windowIdx tl te la (w.toNat - 1 - k)) win (by
          rw [List.getElem?_reverse (by rw [List.length_map, List.length_range]; exact hkl),
            List.length_map, List.length_range, List.getElem?_map,
            List.getElem?_range (by omega)]
          rfl) hk
        rw [Int.toNat_of_nonneg htl0, Int.toNat_of_nonneg hte0]
        have hc : ((w.toNat - 1 - k : Nat) : Int) = w - 1 - k := by omega
        unfold windowIdx at p1 p2
        simp only [hc] at p1 p2
        have hm : (w - 1 - (k : Int)) * te = (w - k) * te - te := by ring
        rw [hm] at p1 p2
        constructor
        · convert p1 using 1 <;> omega
        · convert p2 using 1 <;> omega
  · have hle : res ≤ 0 := not_lt.1 hpos
    have hq : (res : ℚ) / w ≤ 0 := div_nonpos_of_nonpos_of_nonneg (by exact_mod_cast hle)
      (by exact_mod_cast (by omega : 0 ≤ w))
    have a0 := trunc_nonpos (mul_nonpos_of_nonpos_of_nonneg hq h0.le)
    have b0 := trunc_nonpos (mul_nonpos_of_nonpos_of_nonneg hq (by linarith : (0 : ℚ) ≤ 1 - ts))
    left
    split
    · rfl
    · rename_i hn
      obtain ⟨hn1, hn2⟩ := not_or.1 hn
      have ea : truncQ ((res : ℚ) / w * ts) = 0 := by omega
      have eb : truncQ ((res : ℚ) / w * (1 - ts)) = 0 := by omega
      rw [ea, eb]
      unfold growLengths
      simp only [zero_mul, add_zero, sub_zero]
      rw [if_pos (Or.inl ea)]
      rfl

theorem split_blocks_or {rows : List Date} {w la : Int} {ts : ℚ} {shuffle : List Nat → List Nat}
    (hs : ∀ l, (shuffle l).Perm l) (h0 : 0 < ts) (h1 : ts < 1) :
    walkforwardSplit rows w la ts shuffle = .error .value ∨
    ∃ ws tl te, walkforwardSplit rows w la ts shuffle = .ok ws ∧ 0 < la ∧
      Blocks rows w la tl te ws := by
  unfold walkforwardSplit
  by_cases hw : w ≤ 0
  · rw [if_pos hw]; exact Or.inl rfl
  rw [if_neg hw]
  by_cases hla : la ≤ 0
  · rw [if_pos hla]; exact Or.inl rfl
  rw [if_neg hla, if_neg (not_lt.2 h0.le)]
  by_cases hr : rows = []
  · rw [if_pos hr]; exact Or.inl rfl
  rw [if_neg hr, if_neg (not_or.2 ⟨h0.ne', h1.ne⟩)]
  by_cases h : w = 1
  · rw [if_pos h]
    rcases splitOne_ok (rows := rows) hs (not_le.1 hla) h0 h1 with e | ⟨ws, tl, te, e, hb⟩
    · exact Or.inl e
    · exact Or.inr ⟨ws, tl, te, e, not_le.1 hla, h ▸ hb⟩
  · rw [if_neg h]
    rcases splitMany_ok (rows := rows) (w := w) hs (by omega) (not_le.1 hla) h0 h1 with
      e | ⟨ws, tl, te, e, hb⟩
    · exact Or.inl e
    · exact Or.inr ⟨ws, tl, te, e, not_le.1 hla, hb⟩

theorem barNo_surj {rows : List Date} {j : Nat} (h : j < nDates rows) :
    ∃ (i : Nat) (d : Date), rows[i]? = some d ∧ barNo rows d = j := by
  rw [← windowDates_len] at h
  have hg := List.getElem?_eq_getElem h
  have hm : (windowDates rows)[j] ∈ rows :=
    List.mem_dedup.1 ((windowDates_perm rows).mem_iff.1 (List.getElem_mem h))
  obtain ⟨i, hi⟩ := List.mem_iff_getElem?.1 hm
  refine ⟨i, _, hi, ?_⟩
  rw [barNo_eq]
  exact sorted_count (windowDates_sorted rows) hg

/-- C36, C37.  With a train size strictly between 0 and 1 an accepted split has one
length of training dates and one of test dates for all windows, and `Blocks` says
which rows they are. -/
theorem split_blocks {rows : List Date} {w la : Int} {ts : ℚ} {shuffle : List Nat → List Nat}
    (hs : ∀ l, (shuffle l).Perm l) (h0 : 0 < ts) (h1 : ts < 1) {ws : List WFWindow}
    (h : walkforwardSplit rows w la ts shuffle = .ok ws) : ∃ tl te, Blocks rows w la tl te ws := by
  rcases split_blocks_or (rows := rows) (w := w) (la := la) hs h0 h1 with e | ⟨ws', tl, te, e, _, hb⟩
  · rw [e] at h; cases h
  · rw [e] at h
    exact ⟨tl, te, Except.ok.inj h ▸ hb⟩

/-- C36.  In every window each training date is at least `lookahead` bars before
each test date, and if the window has both, the last training date is exactly
`lookahead` bars before the first test date. -/
theorem train_before_test {rows : List Date} {w la : Int} {ts : ℚ}
    {shuffle : List Nat → List Nat} (hs : ∀ l, (shuffle l).Perm l) (h0 : 0 < ts) (h1 : ts < 1)
    {ws : List WFWindow} (h : walkforwardSplit rows w la ts shuffle = .ok ws) {win : WFWindow}
    (hwin : win ∈ ws) :
    1 ≤ la ∧
    (∀ i ∈ win.train, ∀ j ∈ win.test, ∀ d d', rows[i]? = some d → rows[j]? = some d' →
      barNo rows d + la ≤ barNo rows d' ∧ d < d') ∧
    (win.train ≠ [] → win.test ≠ [] → ∃ i ∈ win.train, ∃ j ∈ win.test, ∃ d d',
      rows[i]? = some d ∧ rows[j]? = some d' ∧ barNo rows d + la = barNo rows d') := by
  rcases split_blocks_or (rows := rows) (w := w) (la := la) hs h0 h1 with
    e | ⟨ws', tl, te, e, hla, hpos, hlen, hfit, hb⟩
  · rw [e] at h; cases h
  rw [e] at h
  have hws := Except.ok.inj h
  subst hws
  obtain ⟨k, hk⟩ := List.mem_iff_getElem?.1 hwin
  obtain ⟨ht, hr⟩ := hb k win hk
  refine ⟨by omega, ?_, ?_⟩
  · intro i hi j hj d d' hd hd'
    obtain ⟨x, hx, _, hx2⟩ := (hr i).1 hi
    obtain ⟨y, hy, hy1, _⟩ := (ht j).1 hj
    rw [hd] at hx
    rw [hd'] at hy
    cases hx; cases hy
    refine ⟨by omega, ?_⟩
    obtain ⟨_, g⟩ := barNo_get (List.mem_of_getElem? hd)
    exact (at_lt g (List.mem_of_getElem? hd')).2 (by omega)
  · intro hne1 hne2
    obtain ⟨i0, hi0⟩ := List.exists_mem_of_ne_nil _ hne1
    obtain ⟨j0, hj0⟩ := List.exists_mem_of_ne_nil _ hne2
    obtain ⟨x, hx, hx1, hx2⟩ := (hr i0).1 hi0
    obtain ⟨y, hy, hy1, hy2⟩ := (ht j0).1 hj0
    have hkw : (k : Int) < w := by
      have := (List.getElem?_eq_some_iff.1 hk).1
      omega
    have hyn := (barNo_get (List.mem_of_getElem? hy)).1
    generalize hS : (nDates rows : Int) - (w - k) * te = S at *
    have hS0 : (la - 1) + tl ≤ S := by
      have : (w - k) * (te : Int) ≤ w * te := mul_le_mul_of_nonneg_right (by omega) (by omega)
      omega
    obtain ⟨i, d, hi, hdi⟩ := barNo_surj (rows := rows) (j := (S - la).toNat) (by omega)
    obtain ⟨j, d', hj, hdj⟩ := barNo_surj (rows := rows) (j := S.toNat) (by omega)
    exact ⟨i, (hr i).2 ⟨d, hi, by omega, by omega⟩, j, (ht j).2 ⟨d', hj, by omega, by omega⟩,
      d, d', hi, hj, by omega⟩

/-- C37.  The test rows of different windows are disjoint and in date order; every
row dated between two rows tested is tested; and if any window has test rows, the
rows of the last date are test rows of the last window. -/
theorem test_windows {rows : List Date} {w la : Int} {ts : ℚ}
    {shuffle : List Nat → List Nat} (hs : ∀ l, (shuffle l).Perm l) (h0 : 0 < ts) (h1 : ts < 1)
    {ws : List WFWindow} (h : walkforwardSplit rows w la ts shuffle = .ok ws) :
    (∀ (k k' : Nat) win win', k < k' → ws[k]? = some win → ws[k']? = some win' →
      ∀ i ∈ win.test, ∀ j ∈ win'.test, ∀ d d', rows[i]? = some d → rows[j]? = some d' → d < d') ∧
    (∀ win ∈ ws, ∀ win' ∈ ws, ∀ i ∈ win.test, ∀ j ∈ win'.test, ∀ d d', rows[i]? = some d →
      rows[j]? = some d' → ∀ (m : Nat) (x : Date), rows[m]? = some x → d ≤ x → x ≤ d' →
      ∃ v ∈ ws, m ∈ v.test) ∧
    (∀ win ∈ ws, win.test ≠ [] → ∀ (m : Nat) (x : Date), rows[m]? = some x →
      (∀ y ∈ rows, y ≤ x) → ∃ v, ws.getLast? = some v ∧ m ∈ v.test) ∧
    (∃ te : Nat, ∀ (k : Nat) win, ws[k]? = some win → ∃ s : Int,
      RowsIn rows win.test s (s + te) ∧ 0 ≤ s ∧ s + te ≤ nDates rows) := by
  rcases split_blocks_or (rows := rows) (w := w) (la := la) hs h0 h1 with
    e | ⟨ws', tl, te, e, hla, hpos, hlen, hfit, hb⟩
  · rw [e] at h; cases h
  rw [e] at h
  have hws := Except.ok.inj h
  subst hws
  have hkw : ∀ (k : Nat) win, ws'[k]? = some win → (k : Int) < w := by
    intro k win hk
    have := (List.getElem?_eq_some_iff.1 hk).1
    omega
  have hno : ∀ {d d' : Date}, d ∈ rows → d' ∈ rows → barNo rows d < barNo rows d' → d < d' := by
    intro d d' hd hd' hlt
    obtain ⟨_, g⟩ := barNo_get hd
    exact (at_lt g hd').2 hlt
  have hno' : ∀ {d d' : Date}, d ∈ rows → d' ∈ rows → d ≤ d' → barNo rows d ≤ barNo rows d' := by
    intro d d' hd hd' hle
    obtain ⟨_, g⟩ := barNo_get hd
    exact ((at_le g hd').1).1 hle
  refine ⟨?_, ?_, ?_, ?_⟩
  · intro k k' win win' hlt hk hk' i hi j hj d d' hd hd'
    obtain ⟨x, hx, hx1, hx2⟩ := ((hb k win hk).1 i).1 hi
    obtain ⟨y, hy, hy1, hy2⟩ := ((hb k' win' hk').1 j).1 hj
    rw [hd] at hx
    rw [hd'] at hy
    cases hx; cases hy
    refine hno (List.mem_of_getElem? hd) (List.mem_of_getElem? hd') ?_
    have hm : (w - k') * (te : Int) + te ≤ (w - k) * te := by
      have : (w - k') * (te : Int) + te = (w - k' + 1) * te := by ring
      rw [this]
      exact mul_le_mul_of_nonneg_right (by omega) (by omega)
    omega
  · intro win hwin win' hwin' i hi j hj d d' hd hd' m x hx hdx hxd
    obtain ⟨k, hk⟩ := List.mem_iff_getElem?.1 hwin
    obtain ⟨k', hk'⟩ := List.mem_iff_getElem?.1 hwin'
    obtain ⟨u, hu, hu1, hu2⟩ := ((hb k win hk).1 i).1 hi
    obtain ⟨v, hv, hv1, hv2⟩ := ((hb k' win' hk').1 j).1 hj
    rw [hd] at hu
    rw [hd'] at hv
    cases hu; cases hv
    have hmx := List.mem_of_getElem? hx
    have b1 := hno' (List.mem_of_getElem? hd) hmx hdx
    have hxn := (barNo_get hmx).1
    have hkw1 := hkw k win hk
    -- the window of bar number b counted from the end
    have hte : 0 < te := by
      by_contra hc
      have : te = 0 := by omega
      subst this
      omega
    obtain ⟨q, hq1, hq2⟩ : ∃ q : Nat, q * te ≤ nDates rows - 1 - barNo rows x ∧
        nDates rows - 1 - barNo rows x < q * te + te := by
      refine ⟨(nDates rows - 1 - barNo rows x) / te, Nat.div_mul_le_self _ _, ?_⟩
      have := Nat.lt_div_mul_add (a := nDates rows - 1 - barNo rows x) hte
      exact this
    have hqw : (q : Int) < w := by
      have h2 : (w - k) * (te : Int) ≤ w * te := mul_le_mul_of_nonneg_right (by omega) (by omega)
      have h3 : ((q * te : Nat) : Int) < w * te := by omega
      push_cast at h3
      exact lt_of_mul_lt_mul_right h3 (by omega)
    have hidx : (w - 1 - q).toNat < ws'.length := by omega
    refine ⟨ws'[(w - 1 - q).toNat], List.getElem_mem hidx, ?_⟩
    refine ((hb _ _ (List.getElem?_eq_getElem hidx)).1 m).2 ⟨x, hx, ?_, ?_⟩
    · have : (w - (((w - 1 - q).toNat : Nat) : Int)) * (te : Int) = q * te + te := by
        have : (w - (((w - 1 - q).toNat : Nat) : Int)) = q + 1 := by omega
        rw [this]; ring
      rw [this]
      have : ((q * te : Nat) : Int) = q * te := by push_cast; rfl
      omega
    · have : (w - (((w - 1 - q).toNat : Nat) : Int)) * (te : Int) = q * te + te := by
        have : (w - (((w - 1 - q).toNat : Nat) : Int)) = q + 1 := by omega
        rw [this]; ring
      rw [this]
      have : ((q * te : Nat) : Int) = q * te := by push_cast; rfl
      omega
  · intro win hwin hne m x hx hmax
    obtain ⟨k, hk⟩ := List.mem_iff_getElem?.1 hwin
    obtain ⟨i, hi⟩ := List.exists_mem_of_ne_nil _ hne
    obtain ⟨u, hu, hu1, hu2⟩ := ((hb k win hk).1 i).1 hi
    have hte : 0 < te := by omega
    have hkw1 := hkw k win hk
    have hidx : ws'.length - 1 < ws'.length := by omega
    have hlast : barNo rows x = nDates rows - 1 := by
      have hxn := (barNo_get (List.mem_of_getElem? hx)).1
      obtain ⟨j, y, hj, hy⟩ := barNo_surj (rows := rows) (j := nDates rows - 1) (by omega)
      have := hno' (List.mem_of_getElem? hj) (List.mem_of_getElem? hx)
        (hmax y (List.mem_of_getElem? hj))
      omega
    refine ⟨ws'[ws'.length - 1], ?_, ?_⟩
    · rw [List.getLast?_eq_getElem?, List.getElem?_eq_getElem hidx]
    · refine ((hb _ _ (List.getElem?_eq_getElem hidx)).1 m).2 ⟨x, hx, ?_, ?_⟩
      · have : w - ((ws'.length - 1 : Nat) : Int) = 1 := by omega
        rw [this, one_mul]
        have hxn := (barNo_get (List.mem_of_getElem? hx)).1
        omega
      · have : w - ((ws'.length - 1 : Nat) : Int) = 1 := by omega
        rw [this, one_mul]
        have hxn := (barNo_get (List.mem_of_getElem? hx)).1
        omega
  · refine ⟨te, fun k win hk => ⟨_, (hb k win hk).1, ?_, ?_⟩⟩
    · have hk1 := hkw k win hk
      have : (w - k) * (te : Int) ≤ w * te := mul_le_mul_of_nonneg_right (by omega) (by omega)
      omega
    · have hk1 := hkw k win hk
      have : 1 * (te : Int) ≤ (w - k) * te := mul_le_mul_of_nonneg_right (by omega) (by omega)
      omega

/-! ## C39 -/

theorem splitWhole_ok {rows : List Date} {w : Int} {ts : ℚ} {shuffle : List Nat → List Nat}
    (hw : 0 < w) (hs : ∀ l, (shuffle l).Perm l) :
    (nDates rows / w.toNat = 0 ∧ splitWhole rows w ts shuffle = .error .value) ∨
    (0 < nDates rows / w.toNat ∧ ∃ ws, splitWhole rows w ts shuffle = .ok ws ∧
      (ws.length : Int) = w ∧ ∀ (k : Nat) win, ws[k]? = some win →
        let a : Int := nDates rows - (w - k) * ((nDates rows / w.toNat : Nat) : Int)
        (if ts = 0 then win.train = [] else win.test = []) ∧
        RowsIn rows (if ts = 0 then win.test else win.train) a
          (a + ((nDates rows / w.toNat : Nat) : Int))) := by
  have hl : truncQ ((nDates rows : ℚ) / w) = ((nDates rows / w.toNat : Nat) : Int) := by
    have hw' : (0 : ℚ) < w := by exact_mod_cast hw
    unfold truncQ
    rw [if_neg (not_lt.2 (div_nonneg (Nat.cast_nonneg _) hw'.le))]
    have : (w : ℚ) = ((w.toNat : Nat) : ℚ) := by
      have : ((w.toNat : Nat) : Int) = w := by omega
      exact_mod_cast this.symm
    rw [this, Rat.floor_natCast_div_natCast, Int.natCast_ediv]
  unfold splitWhole
  simp only
  rw [windowDates_len, hl]
  generalize hL : nDates rows / w.toNat = L
  have hLw : (L : Int) * w ≤ nDates rows := by
    have := Nat.div_mul_le_self (nDates rows) w.toNat
    rw [hL] at this
    have h2 : ((L * w.toNat : Nat) : Int) = L * w := by
      push_cast
      rw [Int.toNat_of_nonneg hw.le]
    omega
  by_cases h0 : L = 0
  · left
    subst h0
    exact ⟨rfl, rfl⟩
  · right
    rw [if_neg (by exact_mod_cast h0)]
    refine ⟨by omega, ?_⟩
    obtain ⟨ws, e, hlen, hall⟩ := collect_ok
      (f := fun i : Nat => match maskAt rows (windowDates rows)
          ((nDates rows : Int) - L * w + i * L) ((nDates rows : Int) - L * w + i * L + L - 1) with
        | .error e => .error e
        | .ok l => .ok (if ts = 0 then ({ train := [], test := l } : WFWindow)
          else { train := shuffle l, test := [] }))
      (P := fun (i : Nat) win => (if ts = 0 then win.train = [] else win.test = []) ∧
        RowsIn rows (if ts = 0 then win.test else win.train)
          ((nDates rows : Int) - L * w + i * L) ((nDates rows : Int) - L * w + i * L + L))
      (l := List.range w.toNat) (by
        intro i hi
        rw [List.mem_range] at hi
        have hi1 : ((i : Int) + 1) * L ≤ w * L := mul_le_mul_of_nonneg_right (by omega) (by omega)
        have hi2 : ((i : Int) + 1) * L = i * L + L := by ring
        have hi3 : (0 : Int) ≤ (i : Int) * L := mul_nonneg (by omega) (by omega)
        have hi4 : w * (L : Int) = L * w := mul_comm _ _
        obtain ⟨l, el, rl⟩ := maskAt_ok (rows := rows) (lo := (nDates rows : Int) - L * w + i * L)
          (hi := (nDates rows : Int) - L * w + i * L + L - 1) (by omega) (by omega) (by omega)
          (by omega)
        refine ⟨_, by rw [el], ?_⟩
        rw [sub_add_cancel] at rl
        by_cases hts : ts = 0
        · simp only [if_pos hts]; exact ⟨trivial, rl⟩
        · simp only [if_neg hts]; exact ⟨trivial, rowsIn_perm rl (hs l)⟩)
    refine ⟨ws, e, by rw [hlen, List.length_range]; omega, ?_⟩
    intro k win hk
    have hkl : k < w.toNat := by
      have := (List.getElem?_eq_some_iff.1 hk).1
      rwa [hlen, List.length_range] at this
    have := hall k k win (List.getElem?_range hkl) hk
    have ea : (nDates rows : Int) - (w - k) * L = (nDates rows : Int) - L * w + k * L := by ring
    rw [ea]
    exact this

/-- C39.  With a train size of 0 (1) a split has only test (training) rows; window
`k` of `windows` has the rows of `n / windows` consecutive dates, and the last
window ends at the last date.  A split fails only when there are fewer dates than
windows. -/
theorem split_whole {rows : List Date} {w la : Int} {ts : ℚ} {shuffle : List Nat → List Nat}
    (hs : ∀ l, (shuffle l).Perm l) (hw : 0 < w) (hla : 0 < la) (hrows : rows ≠ [])
    (hts : ts = 0 ∨ ts = 1) :
    ((nDates rows : Int) < w ∧ walkforwardSplit rows w la ts shuffle = .error .value) ∨
    (w ≤ nDates rows ∧ ∃ ws, walkforwardSplit rows w la ts shuffle = .ok ws ∧
      (ws.length : Int) = w ∧ ∀ (k : Nat) win, ws[k]? = some win →
        let len : Int := nDates rows / w
        let a : Int := nDates rows - (w - k) * len
        (if ts = 0 then win.train = [] else win.test = []) ∧
        RowsIn rows (if ts = 0 then win.test else win.train) a (a + len)) := by
  have hdiv : ((nDates rows / w.toNat : Nat) : Int) = (nDates rows : Int) / w := by
    rw [Int.natCast_ediv, Int.toNat_of_nonneg hw.le]
  have h0 : ¬ ts < 0 := by rcases hts with h | h <;> rw [h] <;> norm_num
  unfold walkforwardSplit
  rw [if_neg (not_le.2 hw), if_neg (not_le.2 hla), if_neg h0, if_neg hrows, if_pos hts]
  rcases splitWhole_ok (rows := rows) (ts := ts) hw hs with ⟨h, e⟩ | ⟨h, ws, e, hlen, hall⟩
  · left
    refine ⟨?_, e⟩
    have := (Nat.div_eq_zero_iff.1 h)
    omega
  · right
    refine ⟨?_, ws, e, hlen, ?_⟩
    · have := (Nat.div_pos_iff.1 h)
      omega
    · intro k win hk
      have := hall k win hk
      rw [hdiv] at this
      exact this

/-! ## C38 -/

/-- C38.  With a train size of at most 1 a split is made or a `ValueError` is
raised: no date lookup is out of range and the loop stops. -/
theorem split_total {rows : List Date} {w la : Int} {ts : ℚ} {shuffle : List Nat → List Nat}
    (hs : ∀ l, (shuffle l).Perm l) (h1 : ts ≤ 1) :
    walkforwardSplit rows w la ts shuffle = .error .value ∨
    ∃ ws, walkforwardSplit rows w la ts shuffle = .ok ws := by
  by_cases hneg : ts < 0
  · left
    unfold walkforwardSplit
    split
    · rfl
    split
    · rfl
    rfl
  by_cases hts : ts = 0 ∨ ts = 1
  · by_cases hw : w ≤ 0
    · left; unfold walkforwardSplit; rw [if_pos hw]
    by_cases hla : la ≤ 0
    · left; unfold walkforwardSplit; rw [if_neg hw, if_pos hla]
    by_cases hr : rows = []
    · left; unfold walkforwardSplit; rw [if_neg hw, if_neg hla, if_neg hneg, if_pos hr]
    rcases split_whole hs (not_le.1 hw) (not_le.1 hla) hr hts with ⟨_, e⟩ | ⟨_, ws, e, _⟩
    · exact Or.inl e
    · exact Or.inr ⟨ws, e⟩
  · obtain ⟨hn0, hn1⟩ := not_or.1 hts
    rcases split_blocks_or (rows := rows) (w := w) (la := la) hs
      (lt_of_le_of_ne (not_lt.1 hneg) (Ne.symm hn0)) (lt_of_le_of_ne h1 hn1) with
      e | ⟨ws, _, _, e, _⟩
    · exact Or.inl e
    · exact Or.inr ⟨ws, e⟩

/-- The bound on the train size is needed: it is documented but not checked, and
with one date, two windows and a train size of 2 the split raises `IndexError`. -/
theorem split_index_error : walkforwardSplit [0] 2 1 2 = .error .index := by decide +kernel

/-! ## Concrete splits -/

def Demo.wfRows : List Date := [1, 1, 2, 3, 4, 5, 6, 7, 8, 8, 9, 10]

example : walkforwardSplit Demo.wfRows 2 1 (1 / 2) =
    .ok [{ train := [2, 3, 4], test := [5, 6, 7] }, { train := [5, 6, 7], test := [8, 9, 10, 11] }] := by
  decide +kernel

example : walkforwardSplit Demo.wfRows 1 2 (1 / 2) =
    .ok [{ train := [2, 3, 4, 5], test := [7, 8, 9, 10, 11] }] := by decide +kernel

example : walkforwardSplit Demo.wfRows 3 1 0 =
    .ok [{ train := [], test := [2, 3, 4] }, { train := [], test := [5, 6, 7] },
      { train := [], test := [8, 9, 10, 11] }] := by decide +kernel

example := split_blocks (rows := Demo.wfRows) (w := 2) (la := 1) (ts := 1 / 2) (shuffle := List.reverse)
  List.reverse_perm (by norm_num) (by norm_num)
  (ws := [{ train := [4, 3, 2], test := [5, 6, 7] }, { train := [7, 6, 5], test := [8, 9, 10, 11] }])
  (by decide +kernel)

example := train_before_test (rows := Demo.wfRows) (w := 2) (la := 1) (ts := 1 / 2) (shuffle := id)
  (fun _ => List.Perm.refl _) (by norm_num) (by norm_num)
  (ws := [{ train := [2, 3, 4], test := [5, 6, 7] }, { train := [5, 6, 7], test := [8, 9, 10, 11] }])
  (by decide +kernel) (win := { train := [2, 3, 4], test := [5, 6, 7] }) (by decide)

example := test_windows (rows := Demo.wfRows) (w := 2) (la := 1) (ts := 1 / 2) (shuffle := id)
  (fun _ => List.Perm.refl _) (by norm_num) (by norm_num)
  (ws := [{ train := [2, 3, 4], test := [5, 6, 7] }, { train := [5, 6, 7], test := [8, 9, 10, 11] }])
  (by decide +kernel)

example := split_whole (rows := Demo.wfRows) (w := 3) (la := 1) (ts := 0) (shuffle := id)
  (fun _ => List.Perm.refl _) (by norm_num) (by norm_num) (by decide) (Or.inl rfl)

example := split_total (rows := Demo.wfRows) (w := 3) (la := 4) (ts := 1 / 2) (shuffle := id)
  (fun _ => List.Perm.refl _) (by norm_num)

end PyBroker
