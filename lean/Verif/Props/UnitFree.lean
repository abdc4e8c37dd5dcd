import Verif.Props.IndicatorStats

/-!
# Indicators in another unit (C170)

The indicators of `/repo/src/pybroker/vect.py` on prices in another unit of money (cents for dollars, a
split-adjusted history) and on volumes in another unit (lots for shares).
-/

namespace PyBroker

/-! ## Specification -/

/-- The array in a unit of which `k` make one of the old. -/
def Spec.inUnits {K : Type} [Mul K] (k : K) (l : List K) : List K := l.map (fun x => k * x)

/-- An array with NaN in another unit. -/
def Spec.cellsInUnits {K : Type} [Mul K] (k : K) (l : List (Option K)) : List (Option K) :=
  l.map (Option.map (fun x => k * x))

/-- The logarithm is one. -/
def Spec.LogOk {K : Type} [Field K] [LinearOrder K] (F : Fns K) : Prop :=
  ∀ x y : K, 0 < x → 0 < y → F.log (x * y) = F.log x + F.log y

open PyBroker.Spec

/-! ## Extremes and returns -/

theorem popBack_units {α : Type} {beats : α → α → Bool} {g : α → α} (hg : ∀ a b, beats (g a) (g b) = beats a b)
    (arr : List (Option α)) (x : α) : ∀ d : List Nat,
    popBack beats (arr.map (Option.map g)) (g x) d = popBack beats arr x d := by
  intro d
  induction d with
  | nil => rfl
  | cons j d ih =>
    unfold popBack
    rw [List.getElem?_map]
    rcases arr[j]? with _ | _ | y
    · rfl
    · rfl
    · simp only [Option.map_some, hg, ih]

theorem rollStep_units {α : Type} {beats : α → α → Bool} {g : α → α} (hg : ∀ a b, beats (g a) (g b) = beats a b)
    (arr : List (Option α)) (w : Nat) (st : RollSt) (i : Nat) :
    rollStep beats (arr.map (Option.map g)) w st i =
      ((rollStep beats arr w st i).1, (rollStep beats arr w st i).2.map g) := by
  have hn : ∀ k, isNanAt (arr.map (Option.map g)) k = isNanAt arr k := by
    intro k
    unfold isNanAt
    rw [List.getElem?_map]
    rcases arr[k]? with _ | _ | y <;> rfl
  have tail : ∀ s2 : RollSt,
      (if w ≤ i + 1 then
        (match dropStale w i s2.deq with
        | [] => (({ s2 with deq := dropStale w i s2.deq } : RollSt), (none : Option α))
        | j :: _ => if s2.nans > 0 then ({ s2 with deq := dropStale w i s2.deq }, none)
          else ({ s2 with deq := dropStale w i s2.deq }, ((arr.map (Option.map g))[j]?).getD none))
      else (s2, none)) =
      (fun r : RollSt × Option α => (r.1, r.2.map g))
      (if w ≤ i + 1 then
        (match dropStale w i s2.deq with
        | [] => (({ s2 with deq := dropStale w i s2.deq } : RollSt), (none : Option α))
        | j :: _ => if s2.nans > 0 then ({ s2 with deq := dropStale w i s2.deq }, none)
          else ({ s2 with deq := dropStale w i s2.deq }, (arr[j]?).getD none))
      else (s2, none)) := by
    intro s2
    by_cases hw : w ≤ i + 1
    · simp only [if_pos hw]
      rcases dropStale w i s2.deq with _ | ⟨j, d⟩
      · rfl
      · simp only
        by_cases h0 : s2.nans > 0
        · simp only [if_pos h0, Option.map_none]
        · simp only [if_neg h0, List.getElem?_map]
          rcases arr[j]? with _ | _ | y <;> rfl
    · simp only [if_neg hw, Option.map_none]
  unfold rollStep
  simp only [hn]
  have hget : (arr.map (Option.map g))[i]? = (arr[i]?).map (Option.map g) := List.getElem?_map
  rw [hget]
  rcases arr[i]? with _ | _ | x
  · exact tail _
  · exact tail _
  · simp only [Option.map_some, popBack_units hg]
    exact tail _

theorem rollLoop_units {α : Type} {beats : α → α → Bool} {g : α → α} (hg : ∀ a b, beats (g a) (g b) = beats a b)
    (arr : List (Option α)) (w : Nat) : ∀ (n i : Nat) (st : RollSt),
    rollLoop beats (arr.map (Option.map g)) w n i st = (rollLoop beats arr w n i st).map (Option.map g) := by
  intro n
  induction n with
  | zero => intro i st; rfl
  | succ n ih =>
    intro i st
    unfold rollLoop
    rw [rollStep_units hg, List.map_cons, ih]

variable {K : Type} [Field K] [LinearOrder K]

theorem verified_map {β γ : Type} (f : β → γ) (len n : Nat) (out : List β) :
    verified len n (out.map f) = (verified len n out).map (List.map f) := by
  unfold verified
  split_ifs <;> rfl

variable [IsStrictOrderedRing K] {k : K} (hk : 0 < k)
include hk

theorem lowv_units (arr : List (Option K)) (n : Nat) :
    lowv (cellsInUnits k arr) n = (lowv arr n).map (cellsInUnits k) := by
  unfold lowv rollingMin cellsInUnits
  rw [rollLoop_units (fun a b => by simp only [mul_le_mul_iff_right₀ hk]), verified_map, List.length_map]

theorem highv_units (arr : List (Option K)) (n : Nat) :
    highv (cellsInUnits k arr) n = (highv arr n).map (cellsInUnits k) := by
  unfold highv rollingMax cellsInUnits
  rw [rollLoop_units (fun a b => by simp only [mul_le_mul_iff_right₀ hk]), verified_map, List.length_map]

omit hk [IsStrictOrderedRing K] [LinearOrder K] in
theorem rd_units (k : K) (l : List K) : rd (inUnits k l) = fun i => k * rd l i := by
  funext i
  unfold rd inUnits
  rw [List.getD_eq_getElem?_getD, List.getD_eq_getElem?_getD, List.getElem?_map]
  rcases l[i]? with _ | x
  · simp
  · rfl

omit hk [LinearOrder K] [IsStrictOrderedRing K] in
theorem length_units (k : K) (l : List K) : (inUnits k l).length = l.length := by
  unfold inUnits; simp

/-! ## True ranges -/

theorem trueRange_units (h l c : Nat → K) (i : Nat) :
    trueRange (fun i => k * h i) (fun i => k * l i) (fun i => k * c i) i = k * trueRange h l c i := by
  unfold trueRange
  simp only [← mul_sub, gt_iff_lt, mul_lt_mul_iff_right₀ hk]
  by_cases h1 : h i - l i < h i - c (i - 1)
  · simp only [if_pos h1, mul_lt_mul_iff_right₀ hk]
    split_ifs <;> rfl
  · simp only [if_neg h1, mul_lt_mul_iff_right₀ hk]
    split_ifs <;> rfl

theorem ratioRange_units (h l c : Nat → K) (i : Nat) :
    ratioRange (fun i => k * h i) (fun i => k * l i) (fun i => k * c i) i = ratioRange h l c i := by
  unfold ratioRange
  simp only [mul_div_mul_left _ _ hk.ne']

theorem atrAt_units_log (F : Fns K) (h l c : Nat → K) (n i : Nat) :
    atrAt F (fun i => k * h i) (fun i => k * l i) (fun i => k * c i) true n i = atrAt F h l c true n i := by
  unfold atrAt
  simp only [ratioRange_units hk, mul_div_mul_left _ _ hk.ne', if_true]

theorem atrAt_units (F : Fns K) (h l c : Nat → K) (n i : Nat) :
    atrAt F (fun i => k * h i) (fun i => k * l i) (fun i => k * c i) false n i = k * atrAt F h l c false n i := by
  unfold atrAt
  simp only [trueRange_units hk, Bool.false_eq_true, if_false, sumIn_mul, ← mul_sub, mul_div_assoc]
  split_ifs <;> rfl

theorem atr_units (F : Fns K) (high low close : List K) (n : Nat) :
    atr F (inUnits k high) (inUnits k low) (inUnits k close) n = (atr F high low close n).map (cellsInUnits k) := by
  unfold atr
  simp only [rd_units, length_units, atrAt_units hk]
  split_ifs
  · rw [show cellsInUnits k = List.map (Option.map (fun x => k * x)) from rfl, ← verified_map]
    congr 1
    unfold series
    rw [List.map_map]
    congr 1
    funext i
    simp only [Function.comp]
    split_ifs <;> rfl
  · rfl

/-! ## Loops of scaled states -/

omit hk [Field K] [LinearOrder K] [IsStrictOrderedRing K] in
theorem loop_map {S : Type} {a b : Nat} {f f' : S → Nat → S} (g : S → S) (s : S)
    (h : ∀ s j, f' (g s) j = g (f s j)) : loop a b f' (g s) = g (loop a b f s) := by
  unfold loop
  generalize List.range' a (b - a) = l
  induction l generalizing s with
  | nil => rfl
  | cons j l ih => rw [List.foldl_cons, List.foldl_cons, h, ih]

/-! ## Aroon -/

theorem aroon_units (l : List K) (n i : Nat) :
    aroonScan (fun a b => decide (a > b)) (rd (inUnits k l)) n i = aroonScan (fun a b => decide (a > b)) (rd l) n i ∧
    aroonScan (fun a b => decide (a < b)) (rd (inUnits k l)) n i = aroonScan (fun a b => decide (a < b)) (rd l) n i := by
  unfold aroonScan
  simp only [rd_units, gt_iff_lt, mul_lt_mul_iff_right₀ hk, and_self]

/-! ## Volumes -/

theorem firstVolume_units : ∀ l : List K, firstVolume (inUnits k l) = firstVolume l := by
  intro l
  induction l with
  | nil => rfl
  | cons a l ih =>
    rcases l with _ | ⟨b, l⟩
    · rfl
    · have : inUnits k (a :: b :: l) = (k * a) :: (k * b) :: inUnits k l := rfl
      rw [this]
      unfold firstVolume
      have h2 : (k * b) :: inUnits k l = inUnits k (b :: l) := rfl
      simp only [h2, ih, gt_iff_lt, mul_pos_iff_of_pos_left hk]

theorem flowRaw_units (h l c v : Nat → K) (fv i : Nat) :
    flowRaw (fun i => k * h i) (fun i => k * l i) (fun i => k * c i) v fv i = flowRaw h l c v fv i := by
  unfold flowRaw
  simp only [gt_iff_lt, mul_lt_mul_iff_right₀ hk]
  have e : ∀ a b d : K, 100 * (2 * (k * c i) - k * h i - k * l i) / (k * h i - k * l i) =
      100 * (2 * c i - h i - l i) / (h i - l i) := by
    intro _ _ _
    rw [show 100 * (2 * (k * c i) - k * h i - k * l i) = k * (100 * (2 * c i - h i - l i)) by ring,
      ← mul_sub, mul_div_mul_left _ _ hk.ne']
  simp only [e 0 0 0]

theorem flow_units (high low close volume : List K) (n : Nat) (sm : K) (m : Bool) :
    flow (inUnits k high) (inUnits k low) (inUnits k close) volume n sm m = flow high low close volume n sm m := by
  unfold flow flowAvg
  simp only [rd_units, length_units, flowRaw_units hk]

/-! ## Reactivity -/

/-- The state with prices in another unit. -/
def ReactSt.units (k : K) (s : ReactSt K) : ReactSt K :=
  { lowest := k * s.lowest, highest := k * s.highest, range := k * s.range, volume := s.volume }

theorem reactWarm_units (h l v : Nat → K) (al : K) (s : ReactSt K) (i : Nat) :
    reactWarm (fun i => k * h i) (fun i => k * l i) v al (s.units k) i = (reactWarm h l v al s i).units k := by
  have e1 : (if k * h i > k * s.highest then k * h i else k * s.highest) = k * (if h i > s.highest then h i else s.highest) := by
    simp only [gt_iff_lt, mul_lt_mul_iff_right₀ hk]; split_ifs <;> rfl
  have e2 : (if k * l i < k * s.lowest then k * l i else k * s.lowest) = k * (if l i < s.lowest then l i else s.lowest) := by
    simp only [mul_lt_mul_iff_right₀ hk]; split_ifs <;> rfl
  unfold reactWarm ReactSt.units
  simp only [e1, e2, ReactSt.mk.injEq, true_and, and_true]
  ring

theorem reactStep_units (h l v : Nat → K) (al : K) (lb : Nat) (s : ReactSt K) (i : Nat) :
    reactStep (fun i => k * h i) (fun i => k * l i) v al lb (s.units k) i = (reactStep h l v al lb s i).units k := by
  have e := loop_map (a := 1) (b := lb + 1)
    (f := fun (m : K × K) j =>
      (if l (i - j) < m.1 then l (i - j) else m.1, if h (i - j) > m.2 then h (i - j) else m.2))
    (f' := fun (m : K × K) j =>
      (if k * l (i - j) < m.1 then k * l (i - j) else m.1, if k * h (i - j) > m.2 then k * h (i - j) else m.2))
    (fun m => (k * m.1, k * m.2)) (l i, h i) (by
      intro m j
      simp only [gt_iff_lt, mul_lt_mul_iff_right₀ hk]
      split_ifs <;> rfl)
  unfold reactStep ReactSt.units
  simp only [e, ReactSt.mk.injEq, true_and, and_true]
  ring

theorem reactAt_units (F : Fns K) (h l c v : Nat → K) (fv lb : Nat) (al sc : K) (i : Nat) :
    reactAt F (fun i => k * h i) (fun i => k * l i) (fun i => k * c i) v fv lb al sc i =
      reactAt F h l c v fv lb al sc i := by
  have e0 : (⟨k * l fv, k * h fv, k * h fv - k * l fv, v fv⟩ : ReactSt K) =
      (⟨l fv, h fv, h fv - l fv, v fv⟩ : ReactSt K).units k := by
    unfold ReactSt.units; simp only [mul_sub]
  have h1 := loop_map (a := fv + 1) (b := fv + lb) (f := reactWarm h l v al)
    (f' := reactWarm (fun i => k * h i) (fun i => k * l i) v al) (ReactSt.units k)
    ⟨l fv, h fv, h fv - l fv, v fv⟩ (reactWarm_units hk h l v al)
  have h2 := fun s => loop_map (a := fv + lb) (b := i + 1) (f := reactStep h l v al lb)
    (f' := reactStep (fun i => k * h i) (fun i => k * l i) v al lb) (ReactSt.units k)
    s (reactStep_units hk h l v al lb)
  unfold reactAt
  simp only [e0, h1, h2]
  generalize loop (fv + lb) (i + 1) (reactStep h l v al lb) _ = s
  have ea : (k * s.highest - k * s.lowest) / (k * s.range) = (s.highest - s.lowest) / s.range := by
    rw [← mul_sub, mul_div_mul_left _ _ hk.ne']
  have eb : ∀ x : K, x * (k * c i - k * c (i - lb)) / (k * s.range) = x * (c i - c (i - lb)) / s.range := by
    intro x
    rw [show x * (k * c i - k * c (i - lb)) = k * (x * (c i - c (i - lb))) by ring, mul_div_mul_left _ _ hk.ne']
  simp only [ReactSt.units, ea, eb]

theorem reactivity_units (F : Fns K) (high low close volume : List K) (n : Nat) (sm sc : K) :
    reactivity F (inUnits k high) (inUnits k low) (inUnits k close) volume n sm sc =
      reactivity F high low close volume n sm sc := by
  unfold reactivity
  simp only [rd_units, length_units, reactAt_units hk, ← mul_sub, mul_eq_zero, hk.ne', false_or]

/-! ## Laguerre -/

/-- The filter in another unit. -/
def LagSt.units (k : K) (s : LagSt K) : LagSt K :=
  { l0 := k * s.l0, l1 := k * s.l1, l2 := k * s.l2, l3 := k * s.l3, out := s.out }

theorem maxIn_units (x : Nat → K) (a b : Nat) : maxIn (fun i => k * x i) a b = k * maxIn x a b := by
  unfold maxIn
  exact loop_map (fun m => k * m) (x a) (fun s j => by
    simp only [gt_iff_lt, mul_lt_mul_iff_right₀ hk]; split_ifs <;> rfl)

theorem minIn_units (x : Nat → K) (a b : Nat) : minIn (fun i => k * x i) a b = k * minIn x a b := by
  unfold minIn
  exact loop_map (fun m => k * m) (x a) (fun s j => by
    simp only [mul_lt_mul_iff_right₀ hk]; split_ifs <;> rfl)

theorem part_units (a b : K) : (if k * a ≥ k * b then k * a - k * b else 0) = k * (if a ≥ b then a - b else 0) ∧
    (if k * a ≥ k * b then 0 else k * b - k * a) = k * (if a ≥ b then 0 else b - a) := by
  simp only [ge_iff_le, mul_le_mul_iff_right₀ hk]
  constructor <;> split_ifs <;> simp [mul_sub]

theorem lagFilter_units (F : Fns K) (fe : Nat) (s : LagSt K) (src sum : K) :
    lagFilter F fe (s.units k) (k * src) sum = (lagFilter F fe s src sum).units k := by
  unfold lagFilter LagSt.units
  simp only
  generalize (if sum > 0 then F.log sum / F.log fe else 0) = al
  have e0 : al * (k * src) + (1 - al) * (k * s.l0) = k * (al * src + (1 - al) * s.l0) := by ring
  rw [e0]
  generalize al * src + (1 - al) * s.l0 = l0
  have e1 : -(1 - al) * (k * l0) + k * s.l0 + (1 - al) * (k * s.l1) = k * (-(1 - al) * l0 + s.l0 + (1 - al) * s.l1) := by ring
  rw [e1]
  generalize -(1 - al) * l0 + s.l0 + (1 - al) * s.l1 = l1
  have e2 : -(1 - al) * (k * l1) + k * s.l1 + (1 - al) * (k * s.l2) = k * (-(1 - al) * l1 + s.l1 + (1 - al) * s.l2) := by ring
  rw [e2]
  generalize -(1 - al) * l1 + s.l1 + (1 - al) * s.l2 = l2
  have e3 : -(1 - al) * (k * l2) + k * s.l2 + (1 - al) * (k * s.l3) = k * (-(1 - al) * l2 + s.l2 + (1 - al) * s.l3) := by ring
  rw [e3]
  generalize -(1 - al) * l2 + s.l2 + (1 - al) * s.l3 = l3
  simp only [(part_units hk _ _).1, (part_units hk _ _).2, ← mul_add, mul_div_mul_left _ _ hk.ne', ne_eq, mul_eq_zero,
    hk.ne', false_or]

theorem lagStep_units (F : Fns K) (o h l c : Nat → K) (fe : Nat) (s : LagSt K) (i : Nat) :
    lagStep F (fun i => k * o i) (fun i => k * h i) (fun i => k * l i) (fun i => k * c i) fe (s.units k) i =
      (lagStep F o h l c fe s i).units k := by
  have hs : ∀ d, lagSum (fun i => k * h i) (fun i => k * l i) (fun i => k * c i) fe (k * d) i = lagSum h l c fe d i := by
    intro d
    unfold lagSum
    simp only [← mul_max_of_nonneg _ _ hk.le, ← mul_min_of_nonneg _ _ hk.le, ← mul_sub, mul_div_mul_left _ _ hk.ne']
  have e : ((k * o i + k * c (i - 1)) / 2 + k * max (h i) (c (i - 1)) + k * min (l i) (c (i - 1)) + k * c i) / 4 =
      k * (((o i + c (i - 1)) / 2 + max (h i) (c (i - 1)) + min (l i) (c (i - 1)) + c i) / 4) := by ring
  unfold lagStep
  simp only [maxIn_units hk, minIn_units hk, ← mul_sub, ← mul_max_of_nonneg _ _ hk.le,
    ← mul_min_of_nonneg _ _ hk.le, hs, e, lagFilter_units hk, mul_eq_zero, hk.ne', false_or]
  split_ifs <;> rfl

theorem laguerre_units (F : Fns K) (opn high low close : List K) (fe : Nat) :
    laguerreRsi F (inUnits k opn) (inUnits k high) (inUnits k low) (inUnits k close) fe =
      laguerreRsi F opn high low close fe := by
  have e0 : (⟨0, 0, 0, 0, 0⟩ : LagSt K) = (⟨0, 0, 0, 0, 0⟩ : LagSt K).units k := by
    unfold LagSt.units; simp only [mul_zero]
  have h := fun i => loop_map (a := fe) (b := i + 1) (f := lagStep F (rd opn) (rd high) (rd low) (rd close) fe)
    (f' := lagStep F (fun i => k * rd opn i) (fun i => k * rd high i) (fun i => k * rd low i) (fun i => k * rd close i) fe)
    (LagSt.units k) ⟨0, 0, 0, 0, 0⟩ (lagStep_units hk F _ _ _ _ fe)
  rw [← e0] at h
  unfold laguerreRsi
  simp only [rd_units, length_units, h]
  rfl

/-! ## Sums of shifted values -/

omit hk in
theorem sum_shift {n i : Nat} (hn : n ≤ i + 1) {x y : Nat → K} {L : K} (h : ∀ j, j ≤ i → y j = L + x j) :
    sumIn (i + 1 - n) (i + 1) y = n * L + sumIn (i + 1 - n) (i + 1) x := by
  rw [sumIn_window hn, sumIn_window hn]
  unfold lastOf
  rw [Finset.sum_congr rfl (fun j hj => h (i + 1 - n + j) (by have := Finset.mem_range.1 hj; omega)),
    Finset.sum_add_distrib, Finset.sum_const, Finset.card_range, nsmul_eq_mul]

omit hk in
theorem mean_shift {n i : Nat} (h0 : 0 < n) (hn : n ≤ i + 1) {x y : Nat → K} {L : K}
    (h : ∀ j, j ≤ i → y j = L + x j) :
    sumIn (i + 1 - n) (i + 1) y / n = L + sumIn (i + 1 - n) (i + 1) x / n := by
  have : (n : K) ≠ 0 := by exact_mod_cast h0.ne'
  rw [sum_shift hn h]
  field_simp

omit hk in
theorem dot_shift {n i : Nat} (hn : n ≤ i + 1) {x y p : Nat → K} {L : K} (h : ∀ j, j ≤ i → y j = L + x j)
    (hp : ∑ j ∈ Finset.range n, p j = 0) :
    sumIn (i + 1 - n) (i + 1) (fun j => y j * p (j - (i + 1 - n))) =
      sumIn (i + 1 - n) (i + 1) (fun j => x j * p (j - (i + 1 - n))) := by
  rw [sumIn_window hn, sumIn_window hn]
  unfold lastOf
  have : ∀ j ∈ Finset.range n, y (i + 1 - n + j) * p (i + 1 - n + j - (i + 1 - n)) =
      x (i + 1 - n + j) * p (i + 1 - n + j - (i + 1 - n)) + L * p j := by
    intro j hj
    have := Finset.mem_range.1 hj
    rw [h _ (by omega), Nat.add_sub_cancel_left]
    ring
  rw [Finset.sum_congr rfl this, Finset.sum_add_distrib, ← Finset.mul_sum, hp, mul_zero, add_zero]

omit hk in
theorem legOf_sum {F : Fns K} (hF : SqrtOk F) (d : Degree) {n : Nat} (hn : 2 ≤ n) :
    ∑ j ∈ Finset.range n, legOf F d n j = 0 := by
  obtain ⟨h1, h2, h3⟩ := leg_sums hF hn
  cases d
  · exact h1
  · exact h2
  · exact h3

/-! ## Trends and deviations -/

omit hk in
theorem rd_pos {l : List K} (h : ∀ x ∈ l, 0 < x) {j : Nat} (hj : j < l.length) : 0 < rd l j := by
  unfold rd
  rw [List.getD_eq_getElem?_getD, List.getElem?_eq_getElem hj]
  exact h _ (List.getElem_mem hj)

theorem trendAt_units {F : Fns K} (hS : SqrtOk F) (hL : LogOk F) {k' : K} (hk' : 0 < k') (v h l c : Nat → K)
    (d : Degree) {n : Nat} (a : Nat) (sc : K) {i : Nat} (h2 : 2 ≤ n) (hn : n ≤ i + 1) (hv : ∀ j, j ≤ i → 0 < v j) :
    trendAt F (fun i => k' * v i) (fun i => k * h i) (fun i => k * l i) (fun i => k * c i) d n a sc i =
      trendAt F v h l c d n a sc i := by
  have hx : ∀ j, j ≤ i → (fun j => F.log (k' * v j)) j = F.log k' + (fun j => F.log (v j)) j :=
    fun j hj => hL _ _ hk' (hv j hj)
  have e1 := dot_shift hn hx (legOf_sum hS d h2)
  have e2 := mean_shift (by omega) hn hx
  unfold trendAt
  simp only [e1, e2, atrAt_units_log hk]
  have e3 : ∀ m : K, sumIn (i + 1 - n) (i + 1)
      (fun j => (F.log (k' * v j) - (F.log k' + m)) * (F.log (k' * v j) - (F.log k' + m))) =
      sumIn (i + 1 - n) (i + 1) (fun j => (F.log (v j) - m) * (F.log (v j) - m)) := by
    intro m
    refine sumIn_congr (fun j _ hj => ?_)
    rw [hL _ _ hk' (hv j (by omega))]
    ring
  have e4 : ∀ (m t : K), sumIn (i + 1 - n) (i + 1)
      (fun j => (F.log (k' * v j) - (F.log k' + m) - t * legOf F d n (j - (i + 1 - n))) *
        (F.log (k' * v j) - (F.log k' + m) - t * legOf F d n (j - (i + 1 - n)))) =
      sumIn (i + 1 - n) (i + 1) (fun j => (F.log (v j) - m - t * legOf F d n (j - (i + 1 - n))) *
        (F.log (v j) - m - t * legOf F d n (j - (i + 1 - n)))) := by
    intro m t
    refine sumIn_congr (fun j _ hj => ?_)
    rw [hL _ _ hk' (hv j (by omega))]
    ring
  rw [e3, e4]

theorem trend_units {F : Fns K} (hS : SqrtOk F) (hL : LogOk F) {k' : K} (hk' : 0 < k') {values : List K}
    (hv : ∀ x ∈ values, 0 < x) (high low close : List K) (d : Degree) (n a : Nat) (sc : K) :
    trend F (inUnits k' values) (inUnits k high) (inUnits k low) (inUnits k close) d n a sc =
      trend F values high low close d n a sc := by
  have h2 : 2 ≤ trendLen d n := by unfold trendLen; cases d <;> simp only <;> split_ifs <;> omega
  unfold trend
  simp only [rd_units, length_units]
  refine ite_congr rfl (fun hg => ?_) (fun _ => rfl)
  · congr 1
    unfold series
    refine List.map_congr_left (fun i hi => ?_)
    have hi := List.mem_range.1 hi
    by_cases hf : i < (if trendLen d n - 1 > a then trendLen d n - 1 else a)
    · rw [if_pos hf, if_pos hf]
    · rw [if_neg hf, if_neg hf, trendAt_units hk hS hL hk' _ _ _ _ d a sc h2 (by split_ifs at hf <;> omega)
        (fun j hj => rd_pos hv (by omega))]

omit hk in
theorem deviationAt_units {F : Fns K} (hS : SqrtOk F) (hL : LogOk F) {k' : K} (hk' : 0 < k') (v : Nat → K)
    (d : Degree) {n : Nat} (sc : K) {i : Nat} (h2 : 2 ≤ n) (hn : n ≤ i + 1) (hv : ∀ j, j ≤ i → 0 < v j) :
    deviationAt F (fun i => k' * v i) d n sc i = deviationAt F v d n sc i ∨
    deviationAt F (fun i => k' * v i) d n sc i = 0 ∨ deviationAt F v d n sc i = 0 := by
  have hx : ∀ j, j ≤ i → (fun j => F.log (k' * v j)) j = F.log k' + (fun j => F.log (v j)) j :=
    fun j hj => hL _ _ hk' (hv j hj)
  obtain ⟨s1, s2, s3⟩ := leg_sums hS h2
  have e1 := dot_shift hn hx s1
  have e2 := dot_shift hn hx s2
  have e3 := dot_shift hn hx s3
  have e0 := mean_shift (by omega) hn hx
  unfold deviationAt
  simp only [e0, e1, e2, e3]
  generalize sumIn (i + 1 - n) (i + 1) (fun j => F.log (v j)) / (n : K) = c0
  generalize sumIn (i + 1 - n) (i + 1) (fun j => F.log (v j) * leg1 F n (j - (i + 1 - n))) = c1
  generalize (if d = Degree.linear then (0 : K) else
    sumIn (i + 1 - n) (i + 1) (fun j => F.log (v j) * leg2 F n (j - (i + 1 - n)))) = c2
  generalize (if d = Degree.cubic then
    sumIn (i + 1 - n) (i + 1) (fun j => F.log (v j) * leg3 F n (j - (i + 1 - n))) else (0 : K)) = c3
  have er : ∀ j, j ≤ i → ∀ q : Nat, F.log (k' * v j) -
      (F.log k' + c0 + c1 * leg1 F n q + c2 * leg2 F n q + c3 * leg3 F n q) =
      F.log (v j) - (c0 + c1 * leg1 F n q + c2 * leg2 F n q + c3 * leg3 F n q) := by
    intro j hj q
    rw [hL _ _ hk' (hv j hj)]
    ring
  have et : sumIn (i + 1 - n) (i + 1) (fun q => (F.log (k' * v q) -
      (F.log k' + c0 + c1 * leg1 F n (q - (i + 1 - n)) + c2 * leg2 F n (q - (i + 1 - n)) + c3 * leg3 F n (q - (i + 1 - n)))) *
      (F.log (k' * v q) -
      (F.log k' + c0 + c1 * leg1 F n (q - (i + 1 - n)) + c2 * leg2 F n (q - (i + 1 - n)) + c3 * leg3 F n (q - (i + 1 - n))))) =
      sumIn (i + 1 - n) (i + 1) (fun q => (F.log (v q) -
      (c0 + c1 * leg1 F n (q - (i + 1 - n)) + c2 * leg2 F n (q - (i + 1 - n)) + c3 * leg3 F n (q - (i + 1 - n)))) *
      (F.log (v q) -
      (c0 + c1 * leg1 F n (q - (i + 1 - n)) + c2 * leg2 F n (q - (i + 1 - n)) + c3 * leg3 F n (q - (i + 1 - n))))) :=
    sumIn_congr (fun j _ hj => by rw [er j (by omega)])
  rw [et, er i le_rfl]
  generalize F.sqrt _ = den
  by_cases ha : den > tiny 12 * (1 + |F.log k' + c0|)
  · by_cases hb : den > tiny 12 * (1 + |c0|)
    · left; rw [if_pos ha, if_pos hb]
    · right; right; rw [if_neg hb]
  · right; left; rw [if_neg ha]

omit hk in
theorem deviation_units {F : Fns K} (hS : SqrtOk F) (hL : LogOk F) {k' : K} (hk' : 0 < k') {values : List K}
    (hv : ∀ x ∈ values, 0 < x) (d : Degree) (n : Nat) (sc : K) {o o' : List K}
    (h : deviation F values d n sc = some o) (h' : deviation F (inUnits k' values) d n sc = some o') (i : Nat) :
    rd o' i = rd o i ∨ rd o' i = 0 ∨ rd o i = 0 := by
  have h2 : 2 ≤ devLen d n := by unfold devLen; cases d <;> simp only <;> split_ifs <;> omega
  unfold deviation at h h'
  simp only [rd_units, length_units] at h'
  split_ifs at h h'
  cases h
  cases h'
  by_cases hi : i < values.length
  · unfold rd
    rw [List.getD_eq_getElem?_getD, List.getD_eq_getElem?_getD, series_get _ hi, series_get _ hi]
    simp only [Option.getD_some]
    by_cases hf : i < devLen d n - 1
    · left; rw [if_pos hf, if_pos hf]
    · simp only [if_neg hf]
      exact deviationAt_units hS hL hk' _ d sc h2 (by omega) (fun j hj => rd_pos hv (by omega))
  · right; right
    unfold rd series
    rw [List.getD_eq_getElem?_getD, List.getElem?_eq_none (by simp; omega)]
    rfl

/-! ## Prices and moving averages -/

theorem closeMinusMa_units {F : Fns K} (hL : LogOk F) {close : List K} (hc : ∀ x ∈ close, 0 < x)
    (high low : List K) (n a : Nat) (sc : K) :
    closeMinusMa F (inUnits k high) (inUnits k low) (inUnits k close) n a sc = closeMinusMa F high low close n a sc := by
  unfold closeMinusMa
  simp only [rd_units, length_units, atrAt_units_log hk]
  refine ite_congr rfl (fun hg => ?_) (fun _ => rfl)
  · congr 1
    unfold series
    refine List.map_congr_left (fun i hi => ?_)
    have hi := List.mem_range.1 hi
    by_cases hf : i < max n a
    · simp only [if_pos hf]
    · simp only [if_neg hf]
      have hni : n ≤ i := by have := le_max_left n a; omega
      obtain ⟨m, rfl⟩ : ∃ m, i = m + 1 := ⟨i - 1, by omega⟩
      have e := mean_shift (x := fun j => F.log (rd close j)) (y := fun j => F.log (k * rd close j)) (L := F.log k)
        (i := m) hg.2.2.1 hni (fun j hj => hL _ _ hk (rd_pos hc (by omega)))
      rw [e, hL _ _ hk (rd_pos hc hi), add_sub_add_left_eq_sub]

theorem oscillator_units (F : Fns K) (high low close : List K) (s m : Nat) (sc : K) :
    priceChangeOscillator F (inUnits k high) (inUnits k low) (inUnits k close) s m sc =
      priceChangeOscillator F high low close s m sc := by
  unfold priceChangeOscillator oscillatorAt
  simp only [rd_units, length_units, atrAt_units_log hk, mul_div_mul_left _ _ hk.ne']

theorem intensityRaw_units (o h l c : Nat → K) (i : Nat)
    (hb : c i = o i ∨ (1 / 10 ^ 60 ≤ h i - l i ∧ 1 / 10 ^ 60 ≤ k * (h i - l i))) :
    intensityRaw (fun i => k * o i) (fun i => k * h i) (fun i => k * l i) (fun i => k * c i) i =
      intensityRaw o h l c i := by
  unfold intensityRaw
  simp only [trueRange_units hk, ← mul_sub]
  rcases hb with hb | ⟨h1, h2⟩
  · simp only [hb, sub_self, mul_zero, zero_div]
  · have ed : (if i = 0 then k * (h 0 - l 0) else k * trueRange h l c i) =
        k * (if i = 0 then h 0 - l 0 else trueRange h l c i) := by split_ifs <;> rfl
    have hd : h i - l i ≤ (if i = 0 then h 0 - l 0 else trueRange h l c i) := by
      split_ifs with h0
      · rw [h0]
      · exact trueRange_ge h l c i
    rw [ed]
    generalize (if i = 0 then h 0 - l 0 else trueRange h l c i) = den at hd
    have hd2 := mul_le_mul_of_nonneg_left hd hk.le
    rw [if_neg (by unfold tiny; linarith), if_neg (by unfold tiny; linarith), mul_div_mul_left _ _ hk.ne']

theorem priceIntensity_units (F : Fns K) (opn high low close : List K) (sm sc : K)
    (hb : ∀ i < close.length, rd close i = rd opn i ∨
      (1 / 10 ^ 60 ≤ rd high i - rd low i ∧ 1 / 10 ^ 60 ≤ k * (rd high i - rd low i))) :
    priceIntensity F (inUnits k opn) (inUnits k high) (inUnits k low) (inUnits k close) sm sc =
      priceIntensity F opn high low close sm sc := by
  unfold priceIntensity
  simp only [rd_units, length_units]
  refine ite_congr rfl (fun hg => ?_) (fun _ => rfl)
  · congr 1
    unfold series
    refine List.map_congr_left (fun i hi => ?_)
    have hi := List.mem_range.1 hi
    have e : ∀ j, j ≤ i → intensityRaw (fun i => k * rd opn i) (fun i => k * rd high i) (fun i => k * rd low i)
        (fun i => k * rd close i) j = intensityRaw (rd opn) (rd high) (rd low) (rd close) j :=
      fun j hj => intensityRaw_units hk _ _ _ _ j (hb j (by omega))
    have e2 : ∀ al : K, emaFrom (intensityRaw (fun i => k * rd opn i) (fun i => k * rd high i) (fun i => k * rd low i)
        (fun i => k * rd close i)) al 0 i = emaFrom (intensityRaw (rd opn) (rd high) (rd low) (rd close)) al 0 i := by
      intro al
      unfold emaFrom
      rw [e 0 (by omega)]
      exact loop_congr (fun s j _ hj => by rw [e j (by omega)])
    simp only [e i le_rfl, e2]

/-! ## Prices with volumes -/

theorem fit_units {F : Fns K} (hL : LogOk F) {close : List K} (hc : ∀ x ∈ close, 0 < x) (volume : List K)
    (n : Nat) (sc : K) :
    priceVolumeFit F (inUnits k close) volume n sc = priceVolumeFit F close volume n sc := by
  unfold priceVolumeFit
  simp only [rd_units, length_units]
  refine ite_congr rfl (fun hg => ?_) (fun _ => rfl)
  · congr 1
    unfold series
    refine List.map_congr_left (fun i hi => ?_)
    have hi := List.mem_range.1 hi
    by_cases hf : i < n - 1 + firstVolume volume
    · simp only [if_pos hf]
    · simp only [if_neg hf]
      have hn0 : (n : K) ≠ 0 := by exact_mod_cast hg.2.1.ne'
      have hp : ∀ j, F.log (k * rd close (i - j)) = F.log k + F.log (rd close (i - j)) :=
        fun j => hL _ _ hk (rd_pos hc (by omega))
      have e : sumIn 0 n (fun j => F.log (k * rd close (i - j))) / (n : K) =
          F.log k + sumIn 0 n (fun j => F.log (rd close (i - j))) / (n : K) := by
        simp only [hp, sumIn_zero, Finset.sum_add_distrib, Finset.sum_const, Finset.card_range, nsmul_eq_mul]
        field_simp
      unfold fitAt
      simp only [e]
      simp only [hp, add_sub_add_left_eq_sub]

theorem vwma_units (F : Fns K) (close volume : List K) (n : Nat) (sc : K) :
    volumeWeightedMaRatio F (inUnits k close) volume n sc = volumeWeightedMaRatio F close volume n sc := by
  have e : ∀ i, vwmaAt F (fun i => k * rd close i) (rd volume) n sc i = vwmaAt F (rd close) (rd volume) n sc i := by
    intro i
    have h1 : sumIn (i + 1 - n) (i + 1) (fun j => rd volume j * (k * rd close j)) =
        k * sumIn (i + 1 - n) (i + 1) (fun j => rd volume j * rd close j) := by
      rw [← sumIn_mul]; exact sumIn_congr (fun j _ _ => by ring)
    have h2 : ∀ N D T : K, (n : K) * (k * N) / (T * (k * D)) = n * N / (T * D) := by
      intro N D T
      rw [show (n : K) * (k * N) = k * (n * N) by ring, show T * (k * D) = k * (T * D) by ring,
        mul_div_mul_left _ _ hk.ne']
    unfold vwmaAt
    simp only [h1, sumIn_mul, h2]
  unfold volumeWeightedMaRatio
  simp only [rd_units, length_units, e]

theorem obvAt_units (F : Fns K) (c v : Nat → K) (n : Nat) (sc : K) (i : Nat) :
    obvAt F (fun i => k * c i) v n sc i = obvAt F c v n sc i := by
  unfold obvAt
  simp only [gt_iff_lt, mul_lt_mul_iff_right₀ hk]

theorem nviAt_units (F : Fns K) (c v : Nat → K) (n m : Nat) (sc : K) (p : Bool) (i : Nat) :
    nviAt F (fun i => k * c i) v n m sc p i = nviAt F c v n m sc p i := by
  unfold nviAt varianceAt
  simp only [mul_div_mul_left _ _ hk.ne', if_true]

/-! ## Volumes in another unit -/

theorem flowRaw_volume (h l c v : Nat → K) (fv i : Nat) :
    flowRaw h l c (fun i => k * v i) fv i = k * flowRaw h l c v fv i := by
  unfold flowRaw
  split_ifs <;> ring

theorem flowAvg_volume (h l c v : Nat → K) (fv lb i : Nat) :
    flowAvg h l c (fun i => k * v i) fv lb i = k * flowAvg h l c v fv lb i := by
  unfold flowAvg
  simp only [flowRaw_volume hk, sumIn_mul, mul_div_assoc]
  split_ifs <;> rfl

theorem flowSmooth_volume (v : Nat → K) (al : K) (fv i : Nat) :
    flowSmooth (fun i => k * v i) al fv i = k * flowSmooth v al fv i := by
  unfold flowSmooth
  exact loop_map (fun m => k * m) (v fv) (fun s j => by ring)

theorem flow_volume (high low close volume : List K) (n : Nat) (sm : K) :
    flow high low close (inUnits k volume) n sm true = flow high low close volume n sm true ∧
    (1 < sm → flow high low close (inUnits k volume) n sm false = flow high low close volume n sm false) ∧
    (sm ≤ 1 → flow high low close (inUnits k volume) n sm false =
      (flow high low close volume n sm false).map (inUnits k)) := by
  unfold flow
  simp only [rd_units, length_units, firstVolume_units hk, flowAvg_volume hk, flowSmooth_volume hk, sumIn_mul,
    mul_div_assoc, gt_iff_lt, mul_pos_iff_of_pos_left hk, mul_div_mul_left _ _ hk.ne']
  refine ⟨rfl, fun h => ?_, fun h => ?_⟩
  · simp only [if_pos h, Bool.false_eq_true, if_false]
  · simp only [if_neg (not_lt.2 h), Bool.false_eq_true, if_false]
    split_ifs
    · rw [Option.map_some]
      congr 1
      unfold series inUnits
      rw [List.map_map]
      refine List.map_congr_left (fun i _ => ?_)
      simp only [Function.comp]
      split_ifs
      · rw [mul_zero]
      · rfl
    · rfl

/-- The state with volumes in another unit. -/
def ReactSt.lots (k : K) (s : ReactSt K) : ReactSt K := { s with volume := k * s.volume }

theorem reactAt_volume (F : Fns K) (h l c v : Nat → K) (fv lb : Nat) (al sc : K) (i : Nat) :
    reactAt F h l c (fun i => k * v i) fv lb al sc i = reactAt F h l c v fv lb al sc i := by
  have h1 := loop_map (a := fv + 1) (b := fv + lb) (f := reactWarm h l v al)
    (f' := reactWarm h l (fun i => k * v i) al) (ReactSt.lots k) ⟨l fv, h fv, h fv - l fv, v fv⟩ (by
      intro s j
      unfold reactWarm ReactSt.lots
      simp only [ReactSt.mk.injEq, true_and]
      ring)
  have h2 := fun s => loop_map (a := fv + lb) (b := i + 1) (f := reactStep h l v al lb)
    (f' := reactStep h l (fun i => k * v i) al lb) (ReactSt.lots k) s (by
      intro s j
      unfold reactStep ReactSt.lots
      simp only [ReactSt.mk.injEq, true_and]
      ring)
  have e0 : (⟨l fv, h fv, h fv - l fv, k * v fv⟩ : ReactSt K) =
      (⟨l fv, h fv, h fv - l fv, v fv⟩ : ReactSt K).lots k := rfl
  unfold reactAt
  simp only [e0, h1, h2]
  generalize loop (fv + lb) (i + 1) (reactStep h l v al lb) _ = s
  simp only [ReactSt.lots, gt_iff_lt, mul_pos_iff_of_pos_left hk, mul_div_mul_left _ _ hk.ne']

theorem vwma_volume (F : Fns K) (c v : Nat → K) (n : Nat) (sc : K) (i : Nat) :
    vwmaAt F c (fun i => k * v i) n sc i = vwmaAt F c v n sc i := by
  have h2 : ∀ N D T : K, (n : K) * (k * N) / (k * T * D) = n * N / (T * D) := by
    intro N D T
    rw [show (n : K) * (k * N) = k * (n * N) by ring, mul_assoc, mul_div_mul_left _ _ hk.ne']
  unfold vwmaAt
  simp only [mul_assoc k, sumIn_mul, gt_iff_lt, mul_pos_iff_of_pos_left hk]
  simp only [← mul_assoc k, h2]

theorem obv_volume (F : Fns K) (c v : Nat → K) (n : Nat) (sc : K) (i : Nat) :
    obvAt F c (fun i => k * v i) n sc i = obvAt F c v n sc i := by
  have e : ∀ j, (if c (i - j) > c (i - j - 1) then k * v (i - j)
      else if c (i - j) < c (i - j - 1) then - (k * v (i - j)) else 0) =
      k * (if c (i - j) > c (i - j - 1) then v (i - j)
      else if c (i - j) < c (i - j - 1) then - v (i - j) else 0) := by
    intro j; split_ifs <;> ring
  unfold obvAt
  simp only [e, sumIn_mul, mul_div_mul_left _ _ hk.ne']
  congr 1
  rw [← not_lt, ← not_lt, mul_pos_iff_of_pos_left hk]

theorem nvi_volume (F : Fns K) (c v : Nat → K) (n m : Nat) (sc : K) (p : Bool) (i : Nat) :
    nviAt F c (fun i => k * v i) n m sc p i = nviAt F c v n m sc p i := by
  unfold nviAt
  simp only [gt_iff_lt, mul_lt_mul_iff_right₀ hk]

theorem momentum_volume (F : Fns K) (v : Nat → K) (s m : Nat) (sc : K) (i : Nat) :
    momentumAt F (fun i => k * v i) s m sc i = momentumAt F v s m sc i := by
  have e : ∀ a b : Nat, ∀ x : K, loop a b (fun s j => s + k * v j) (k * x) = k * loop a b (fun s j => s + v j) x :=
    fun a b x => loop_map (fun y => k * y) x (fun s j => by ring)
  unfold momentumAt
  simp only [sumIn_mul, e, mul_div_assoc, gt_iff_lt, mul_pos_iff_of_pos_left hk, mul_div_mul_left _ _ hk.ne']

/-! ## The property -/

/-- C170.  In another unit of money, `lowv`, `highv` and `atr` are the same amounts in that unit, and are
refused for the same arguments. -/
theorem indicator_amounts (F : Fns K) (arr : List (Option K)) (high low close : List K) (n : Nat) :
    lowv (cellsInUnits k arr) n = (lowv arr n).map (cellsInUnits k) ∧
    highv (cellsInUnits k arr) n = (highv arr n).map (cellsInUnits k) ∧
    atr F (inUnits k high) (inUnits k low) (inUnits k close) n = (atr F high low close n).map (cellsInUnits k) :=
  ⟨lowv_units hk arr n, highv_units hk arr n, atr_units hk F high low close n⟩

/-- C170.  In another unit of money, these indicators have the same values (or raise alike). -/
theorem indicators_unit_free_partial {F : Fns K} (hS : SqrtOk F) (hL : LogOk F) {opn high low close volume values : List K}
    (hc : ∀ x ∈ close, 0 < x) (hv : ∀ x ∈ values, 0 < x) (d : Degree) (n m : Nat) (sm sc : K) (b : Bool) :
    trend F (inUnits k values) (inUnits k high) (inUnits k low) (inUnits k close) d n m sc =
      trend F values high low close d n m sc ∧
    closeMinusMa F (inUnits k high) (inUnits k low) (inUnits k close) n m sc = closeMinusMa F high low close n m sc ∧
    priceChangeOscillator F (inUnits k high) (inUnits k low) (inUnits k close) n m sc =
      priceChangeOscillator F high low close n m sc ∧
    aroonUp (inUnits k high) (inUnits k low) n = aroonUp high low n ∧
    aroonDown (inUnits k high) (inUnits k low) n = aroonDown high low n ∧
    aroonDiff (inUnits k high) (inUnits k low) n = aroonDiff high low n ∧
    flow (inUnits k high) (inUnits k low) (inUnits k close) volume n sm b = flow high low close volume n sm b ∧
    reactivity F (inUnits k high) (inUnits k low) (inUnits k close) volume n sm sc =
      reactivity F high low close volume n sm sc ∧
    priceVolumeFit F (inUnits k close) volume n sc = priceVolumeFit F close volume n sc ∧
    volumeWeightedMaRatio F (inUnits k close) volume n sc = volumeWeightedMaRatio F close volume n sc ∧
    normalizedObv F (inUnits k close) volume n sc = normalizedObv F close volume n sc ∧
    deltaObv F (inUnits k close) volume n m sc = deltaObv F close volume n m sc ∧
    normalizedVolumeIndex F (inUnits k close) volume n sc b = normalizedVolumeIndex F close volume n sc b ∧
    laguerreRsi F (inUnits k opn) (inUnits k high) (inUnits k low) (inUnits k close) n =
      laguerreRsi F opn high low close n := by
  refine ⟨trend_units hk hS hL hk hv _ _ _ d n m sc, closeMinusMa_units hk hL hc _ _ n m sc,
    oscillator_units hk F _ _ _ n m sc, ?_, ?_, ?_, flow_units hk _ _ _ _ n sm b,
    reactivity_units hk F _ _ _ _ n sm sc, fit_units hk hL hc _ n sc, vwma_units hk F _ _ n sc, ?_, ?_, ?_,
    laguerre_units hk F _ _ _ _ n⟩
  · unfold aroonUp; simp only [length_units, (aroon_units hk _ _ _).1]
  · unfold aroonDown; simp only [length_units, (aroon_units hk _ _ _).2]
  · unfold aroonDiff; simp only [length_units, (aroon_units hk _ _ _).1, (aroon_units hk _ _ _).2]
  · unfold normalizedObv; simp only [rd_units, length_units, obvAt_units hk]
  · unfold deltaObv; simp only [rd_units, length_units, obvAt_units hk]
  · unfold normalizedVolumeIndex; simp only [rd_units, length_units, nviAt_units hk]

/-- C170.  In another unit of volume, these indicators have the same values. -/
theorem indicators_volume_free_partial (F : Fns K) (high low close volume : List K) (n m : Nat) (sm sc : K) (b : Bool) :
    flow high low close (inUnits k volume) n sm true = flow high low close volume n sm true ∧
    (1 < sm → flow high low close (inUnits k volume) n sm false = flow high low close volume n sm false) ∧
    reactivity F high low close (inUnits k volume) n sm sc = reactivity F high low close volume n sm sc ∧
    volumeWeightedMaRatio F close (inUnits k volume) n sc = volumeWeightedMaRatio F close volume n sc ∧
    normalizedObv F close (inUnits k volume) n sc = normalizedObv F close volume n sc ∧
    deltaObv F close (inUnits k volume) n m sc = deltaObv F close volume n m sc ∧
    normalizedVolumeIndex F close (inUnits k volume) n sc b = normalizedVolumeIndex F close volume n sc b ∧
    volumeMomentum F (inUnits k volume) n m sc = volumeMomentum F volume n m sc := by
  refine ⟨(flow_volume hk _ _ _ _ n sm).1, (flow_volume hk _ _ _ _ n sm).2.1, ?_, ?_, ?_, ?_, ?_, ?_⟩
  · unfold reactivity; simp only [rd_units, length_units, firstVolume_units hk, reactAt_volume hk]
  · unfold volumeWeightedMaRatio; simp only [rd_units, length_units, firstVolume_units hk, vwma_volume hk]
  · unfold normalizedObv; simp only [rd_units, length_units, firstVolume_units hk, obv_volume hk]
  · unfold deltaObv; simp only [rd_units, length_units, firstVolume_units hk, obv_volume hk]
  · unfold normalizedVolumeIndex; simp only [rd_units, length_units, firstVolume_units hk, nvi_volume hk]
  · unfold volumeMomentum; simp only [rd_units, length_units, firstVolume_units hk, momentum_volume hk]

/-- C170.  Without smoothing, `intraday_intensity` is an amount of volume. -/
theorem intensity_amount (high low close volume : List K) (n : Nat) {sm : K} (hs : sm ≤ 1) :
    flow high low close (inUnits k volume) n sm false = (flow high low close volume n sm false).map (inUnits k) :=
  (flow_volume hk high low close volume n sm).2.2 hs

/-- C170.  `price_intensity` is the same in another unit when the range of each bar that moves is more
than the code's least number in both. -/
theorem price_intensity_unit (F : Fns K) (opn high low close : List K) (sm sc : K)
    (hb : ∀ i < close.length, rd close i = rd opn i ∨
      (1 / 10 ^ 60 ≤ rd high i - rd low i ∧ 1 / 10 ^ 60 ≤ k * (rd high i - rd low i))) :
    priceIntensity F (inUnits k opn) (inUnits k high) (inUnits k low) (inUnits k close) sm sc =
      priceIntensity F opn high low close sm sc := priceIntensity_units hk F _ _ _ _ sm sc hb

/-- C170.  A deviation is the same in another unit, or one of the two is 0: the code takes a fit for exact,
and the deviation for 0, below a bound that depends on the unit. -/
theorem deviation_unit_partial {F : Fns K} (hS : SqrtOk F) (hL : LogOk F) {values : List K}
    (hv : ∀ x ∈ values, 0 < x) (d : Degree) (n : Nat) (sc : K) {o o' : List K}
    (h : deviation F values d n sc = some o) (h' : deviation F (inUnits k values) d n sc = some o') (i : Nat) :
    rd o' i = rd o i ∨ rd o' i = 0 ∨ rd o i = 0 := deviation_units hS hL hk hv d n sc h h' i

omit hk in
/-- C170.  `returnv` is the same in another unit, of any sign. -/
theorem returns_unit {k : ℚ} (hk : k ≠ 0) (arr : List (Option ℚ)) (n : Nat) :
    returnv (cellsInUnits k arr) n = returnv arr n := by
  unfold returnv cellsInUnits
  simp only [List.length_map, List.getElem?_map]
  congr 1
  refine List.map_congr_left (fun i _ => ?_)
  split_ifs
  · rfl
  · rcases arr[i]? with _ | _ | x
    · rfl
    · rfl
    · rcases arr[i - n]? with _ | _ | y
      · rfl
      · rfl
      · simp only [Option.map_some, ← mul_sub, mul_div_mul_left _ _ hk, ne_eq, mul_eq_zero, hk, false_or]

/-- C170.  The stochastic depends on the unit: the code adds `1e-60` to a range of prices. -/
theorem stochastic_unit_shown : stochastic [(2 : ℚ)] [0] [1] 1 0 ≠
    stochastic (inUnits (1 / 10 ^ 60) [2]) (inUnits (1 / 10 ^ 60) [0]) (inUnits (1 / 10 ^ 60) [1]) 1 0 := by
  decide +kernel

/-! ## Cases that meet the hypotheses -/

omit hk in
theorem realFns_log : LogOk realFns := fun _ _ hx hy => Real.log_mul hx.ne' hy.ne'

/-- Cents for dollars, with the functions of the code. -/
example (d : Degree) : trend realFns (inUnits 100 [1, 2, 3, 5, 8, 13]) (inUnits 100 [2, 3, 4, 6, 9, 14])
    (inUnits 100 [1, 1, 2, 4, 7, 12]) (inUnits 100 [1, 2, 3, 5, 8, 13]) d 3 2 1 =
    trend realFns [1, 2, 3, 5, 8, 13] [2, 3, 4, 6, 9, 14] [1, 1, 2, 4, 7, 12] [1, 2, 3, 5, 8, 13] d 3 2 1 :=
  (indicators_unit_free_partial (k := 100) (by norm_num) realFns_sqrt realFns_log (opn := []) (volume := [])
    (by simp only [List.forall_mem_cons]; norm_num) (by simp only [List.forall_mem_cons]; norm_num) d 3 2 0 1 true).1

/-- The arguments are accepted, and the values are not all 0. -/
example : (trend realFns [1, 2, 3, 5, 8, 13] [2, 3, 4, 6, 9, 14] [1, 1, 2, 4, 7, 12] [1, 2, 3, 5, 8, 13]
    .linear 3 2 1).isSome := by
  unfold trend
  norm_num

example : aroonUp (inUnits 100 [(1 : ℚ), 3, 2]) (inUnits 100 [0, 1, 1]) 2 = some [50, 100, 50] ∧
    highv (cellsInUnits 100 [some (1 : ℚ), some 3, some 2]) 2 = some [none, some 300, some 300] ∧
    flow [(2 : ℚ), 4] [1, 2] [2, 3] (inUnits 100 [5, 7]) 1 0 false = some [50000, 0] ∧
    returnv (cellsInUnits 100 [some 2, some 3]) 1 = some [none, some (1 / 2)] := by
  decide +kernel

/-- Bars of a whole unit's range, in cents. -/
example : priceIntensity realFns (inUnits 100 [1, 2]) (inUnits 100 [2, 4]) (inUnits 100 [1, 2]) (inUnits 100 [2, 3]) 0 1 =
    priceIntensity realFns [1, 2] [2, 4] [1, 2] [2, 3] 0 1 :=
  price_intensity_unit (k := 100) (by norm_num) realFns _ _ _ _ 0 1 (by
    intro i hi
    right
    have : i = 0 ∨ i = 1 := by simp at hi; omega
    rcases this with rfl | rfl <;> norm_num [rd])

end PyBroker
