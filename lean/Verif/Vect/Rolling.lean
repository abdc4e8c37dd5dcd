import Mathlib.Data.Rat.Defs
import Mathlib.Algebra.Order.Ring.Rat

/-!
# Rolling windows

`_rolling_sum_njit`, `_rolling_min_njit`, `_rolling_max_njit`, `lowv`, `highv`, `sumv`,
`returnv` and `cross` of `/repo/src/pybroker/vect.py`.

Arithmetic is exact.  `none` is NaN; the extremes are over any type with a decidable
relation, the sums over finite values and the two infinities.
-/

namespace PyBroker

/-- A `while head < tail and deq[head] <= i - window: head += 1` loop: vect.py:107-108,
115-116.  The live part `deq[head:tail]` is a list, oldest first. -/
def dropStale (w i : Nat) : List Nat → List Nat
  | [] => []
  | j :: js => if j + w ≤ i then dropStale w i js else j :: js

/-- The `while head < tail and array[deq[tail - 1]] >= array[i]: tail -= 1` loop,
vect.py:109-110 and 146-147, on the reversed list.  `beats a b` is the test that a
queued value `a` is popped for a new value `b`. -/
def popBack {α : Type} (beats : α → α → Bool) (arr : List (Option α)) (x : α) : List Nat → List Nat
  | [] => []
  | j :: js =>
    match arr[j]? with
    | some (some y) => if beats y x then popBack beats arr x js else j :: js
    | _ => j :: js

/-- The loop state: the live queue and the count of NaN in the window. -/
structure RollSt where
  deq : List Nat := []
  nans : Int := 0

/-- `np.isnan(array[i])`. -/
def isNanAt {α : Type} (arr : List (Option α)) (i : Nat) : Bool :=
  match arr[i]? with
  | some none => true
  | _ => false

/-- One pass of the loop of `_rolling_min_njit`, vect.py:101-120, and of
`_rolling_max_njit`, 138-157. -/
def rollStep {α : Type} (beats : α → α → Bool) (arr : List (Option α)) (w : Nat) (st : RollSt)
    (i : Nat) : RollSt × Option α :=
  let st1 : RollSt :=
    match arr[i]? with
    | some (some x) =>
      let d := dropStale w i st.deq
      { st with deq := (popBack beats arr x d.reverse).reverse ++ [i] }
    | _ => { st with nans := st.nans + 1 }
  let st2 : RollSt :=
    if w ≤ i ∧ isNanAt arr (i - w) = true then { st1 with nans := st1.nans - 1 } else st1
  if w ≤ i + 1 then
    let d := dropStale w i st2.deq
    let st3 : RollSt := { st2 with deq := d }
    match d with
    | [] => (st3, none)
    | j :: _ => if st2.nans > 0 then (st3, none) else (st3, (arr[j]?).getD none)
  else (st2, none)

/-- The loop from index `i` for `fuel` more elements. -/
def rollLoop {α : Type} (beats : α → α → Bool) (arr : List (Option α)) (w : Nat) :
    Nat → Nat → RollSt → List (Option α)
  | 0, _, _ => []
  | k + 1, i, st =>
    (rollStep beats arr w st i).2 :: rollLoop beats arr w k (i + 1) (rollStep beats arr w st i).1

/-- `_rolling_min_njit`, vect.py:86-121. -/
def rollingMin {α : Type} [LE α] [DecidableLE α] (arr : List (Option α)) (w : Nat) :
    List (Option α) :=
  rollLoop (fun y x => decide (x ≤ y)) arr w arr.length 0 {}

/-- `_rolling_max_njit`, vect.py:125-158. -/
def rollingMax {α : Type} [LE α] [DecidableLE α] (arr : List (Option α)) (w : Nat) :
    List (Option α) :=
  rollLoop (fun y x => decide (y ≤ x)) arr w arr.length 0 {}

/-- `_verify_input`, vect.py:16-18, after the empty-array return: `none` is the
`AssertionError`. -/
def verified {β : Type} (len n : Nat) (out : List β) : Option (List β) :=
  if len = 0 then some [] else if n > 0 ∧ n ≤ len then some out else none

/-- `lowv`, vect.py:162-177. -/
def lowv {α : Type} [LE α] [DecidableLE α] (arr : List (Option α)) (n : Nat) :
    Option (List (Option α)) := verified arr.length n (rollingMin arr n)

/-- `highv`, vect.py:180-195. -/
def highv {α : Type} [LE α] [DecidableLE α] (arr : List (Option α)) (n : Nat) :
    Option (List (Option α)) := verified arr.length n (rollingMax arr n)

/-! ## Sums -/

/-- A float: NaN, an infinity or a number. -/
inductive FVal
  | nan
  | pinf
  | ninf
  | fin (q : ℚ)
  deriving DecidableEq, Repr

/-- The loop variables of `_rolling_sum_njit`, vect.py:37-41. -/
structure SumSt where
  total : ℚ := 0
  comp : ℚ := 0
  nans : Int := 0
  pinfs : Int := 0
  ninfs : Int := 0

/-- vect.py:43-57. -/
def SumSt.push (s : SumSt) : FVal → SumSt
  | .nan => { s with nans := s.nans + 1 }
  | .pinf => { s with pinfs := s.pinfs + 1 }
  | .ninf => { s with ninfs := s.ninfs + 1 }
  | .fin value =>
    let t := s.total + value
    { s with comp := s.comp + (if |s.total| ≥ |value| then (s.total - t) + value
                                else (value - t) + s.total),
             total := t }

/-- vect.py:58-73. -/
def SumSt.drop (s : SumSt) : FVal → SumSt
  | .nan => { s with nans := s.nans - 1 }
  | .pinf => { s with pinfs := s.pinfs - 1 }
  | .ninf => { s with ninfs := s.ninfs - 1 }
  | .fin dropped =>
    let t := s.total - dropped
    { s with comp := s.comp + (if |s.total| ≥ |dropped| then (s.total - t) - dropped
                                else (-dropped - t) + s.total),
             total := t }

/-- vect.py:74-82. -/
def SumSt.out (s : SumSt) : FVal :=
  if s.nans > 0 ∨ (s.pinfs > 0 ∧ s.ninfs > 0) then .nan
  else if s.pinfs > 0 then .pinf
  else if s.ninfs > 0 then .ninf
  else .fin (s.total + s.comp)

/-- One pass of the loop, vect.py:42-82. -/
def sumStep (arr : List FVal) (w : Nat) (st : SumSt) (i : Nat) : SumSt × FVal :=
  let st1 := match arr[i]? with
    | some v => st.push v
    | none => st
  let st2 :=
    if w ≤ i then
      match arr[i - w]? with
      | some v => st1.drop v
      | none => st1
    else st1
  if w ≤ i + 1 then (st2, st2.out) else (st2, .nan)

def sumLoop (arr : List FVal) (w : Nat) : Nat → Nat → SumSt → List FVal
  | 0, _, _ => []
  | k + 1, i, st => (sumStep arr w st i).2 :: sumLoop arr w k (i + 1) (sumStep arr w st i).1

/-- `_rolling_sum_njit`, vect.py:22-83. -/
def rollingSum (arr : List FVal) (w : Nat) : List FVal := sumLoop arr w arr.length 0 {}

/-- `sumv`, vect.py:198-211. -/
def sumv (arr : List FVal) (n : Nat) : Option (List FVal) := verified arr.length n (rollingSum arr n)

/-! ## Returns and crossings -/

/-- `returnv`, vect.py:215-235. -/
def returnv (arr : List (Option ℚ)) (n : Nat) : Option (List (Option ℚ)) :=
  verified arr.length n ((List.range arr.length).map (fun i =>
    if i < n then none
    else match arr[i]?, arr[i - n]? with
      | some (some x), some (some base) => if base ≠ 0 then some ((x - base) / base) else none
      | _, _ => none))

/-- `a > b` on floats. -/
def cellGt : Option ℚ → Option ℚ → Bool
  | some a, some b => decide (b < a)
  | _, _ => false

/-- `cross`, vect.py:239-255.  `none` is an `AssertionError`. -/
def cross (a b : List (Option ℚ)) : Option (List Nat) :=
  if a = [] ∨ b = [] ∨ a.length ≠ b.length ∨ a.length < 2 then none
  else
    let crossed : List Nat := (a.zip b).map (fun p => if cellGt p.1 p.2 then 1 else 0)
    (sumv (crossed.map (fun c => if c > 0 then .fin 1 else .fin 0)) 2).map (fun s =>
      (s.zip crossed).map (fun p => (if p.1 = .fin 1 then 1 else 0) * p.2))

end PyBroker
