import Verif.Backtest.Pending

/-!
# Specification of the pending order registry: one map

An abstract registry is the number of orders ever created and the list of live
orders, oldest first, each with the number of bars it was retried on and whether
it was attempted.
-/

namespace PyBroker.Spec

/-- A live order. -/
structure Live where
  order : PendingOrder
  retries : Nat := 0
  attempted : Bool := false

/-- The abstract registry. -/
structure PendingMap where
  created : Nat := 0
  live : List Live := []

namespace PendingMap

/-- The live order with this id. -/
def lookup (m : PendingMap) (id : Nat) : Option Live := m.live.find? (fun x => x.order.id = id)

/-- Change the live order with this id. -/
def update (m : PendingMap) (id : Nat) (f : Live → Live) : PendingMap :=
  { m with live := m.live.map (fun x => if x.order.id = id then f x else x) }

/-- Keep the live orders satisfying a test. -/
def keep (m : PendingMap) (p : PendingOrder → Bool) : PendingMap :=
  { m with live := m.live.filter (fun x => p x.order) }

/-- The effect and result of a call. -/
def call (m : PendingMap) : POp → POut × PendingMap
  | .add r =>
    (.id (m.created + 1),
      { created := m.created + 1, live := m.live ++ [{ order := r.order (m.created + 1) }] })
  | .remove id => (.found (m.lookup id).isSome, m.keep (fun o => o.id ≠ id))
  | .removeAll none => (.unit, m.keep (fun _ => false))
  | .removeAll (some sym) => (.unit, m.keep (fun o => o.symbol ≠ sym))
  | .markAttempted id => (.unit, m.update id (fun x => { x with attempted := true }))
  | .advanceRetry id => (.unit, m.update id (fun x => { x with retries := x.retries + 1 }))

/-- A history of calls: the outputs and the final map. -/
def run (m : PendingMap) : List POp → List POut × PendingMap
  | [] => ([], m)
  | op :: ops =>
    let x := m.call op
    let y := x.2.run ops
    (x.1 :: y.1, y.2)

/-- Every `markAttempted` of the history names a live order. -/
def MarksLive (m : PendingMap) : List POp → Prop
  | [] => True
  | op :: ops =>
    (match op with
      | .markAttempted id => (m.lookup id).isSome
      | _ => True) ∧ (m.call op).2.MarksLive ops

end PendingMap

end PyBroker.Spec
