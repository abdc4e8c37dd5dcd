import Verif.Backtest.Registry

/-!
# The pending order registry behaves as one map (C27)
-/

namespace PyBroker

open PyBroker.Spec

/-- The ids handed out by a history, oldest first. -/
def issuedIds (outs : List POut) : List Nat :=
  outs.filterMap (fun
    | .id n => some n
    | _ => none)

/-- The number of `add` calls of a history. -/
def addCount (ops : List POp) : Nat :=
  ops.countP (fun
    | .add _ => true
    | _ => false)

/-- Every call of a history returns what the same call on one map of live orders
returns, and every query of the resulting registry answers as that map: both
indexes agree, whatever the interleaving. -/
theorem registry_is_one_map (ops : List POp) (hm : ({} : PendingMap).MarksLive ops) :
    let s := (({} : PendingScope).runOps ops).2
    let m := (({} : PendingMap).run ops).2
    (({} : PendingScope).runOps ops).1 = (({} : PendingMap).run ops).1 ∧
    (s.hasOrders = true ↔ m.live ≠ []) ∧
    (∀ id, s.get id = (m.lookup id).map Live.order) ∧
    (∀ id, s.contains id = true ↔ ∃ x ∈ m.live, x.order.id = id) ∧
    (∀ id, s.wasAttempted id = true ↔ ∃ x ∈ m.live, x.order.id = id ∧ x.attempted = true) ∧
    (∀ id, s.retryBars id = ((m.lookup id).map Live.retries).getD 0) ∧
    s.list none none = m.live.map Live.order ∧
    (∀ sym, s.list (some sym) none =
      (m.live.map Live.order).filter (fun o => o.symbol = sym)) ∧
    (∀ id, s.list none (some id) =
      (m.live.map Live.order).filter (fun o => o.id = id)) ∧
    (∀ sym id, s.list (some sym) (some id) =
      (m.live.map Live.order).filter (fun o => o.symbol = sym ∧ o.id = id)) := by
  intro s m
  obtain ⟨h1, h, ho⟩ := Refines.init.run (ops := ops)
    ⟨List.Pairwise.nil, by simp⟩ hm
  have hone : ∀ id, (m.live.map Live.order).filter (fun o => o.id = id) =
      ((m.lookup id).map Live.order).toList := by
    intro id
    rcases Option.eq_none_or_eq_some (m.lookup id) with h0 | ⟨x, hx⟩
    · rw [h0]
      simp only [Option.map_none, Option.toList_none]
      rw [List.filter_eq_nil_iff]
      intro o ho'
      obtain ⟨y, hy, rfl⟩ := List.mem_map.1 ho'
      simpa using PendingMap.lookup_none.1 h0 y hy
    · obtain ⟨h2, h3⟩ := PendingMap.lookup_some hx
      rw [hx]
      simp only [Option.map_some, Option.toList_some]
      have hn : (m.live.map (fun z : Live => z.order.id)).Nodup := by
        rw [List.Nodup, List.pairwise_map]
        exact ho.sorted.imp (fun hab => Nat.ne_of_lt hab)
      clear_value m
      clear hx ho h
      revert h2 hn
      generalize m.live = l
      intro h2 hn
      induction l with
      | nil => cases h2
      | cons y l ih =>
        simp only [List.map_cons, List.nodup_cons] at hn
        rcases List.mem_cons.1 h2 with rfl | h2'
        · rw [List.map_cons, List.filter_cons_of_pos (by simpa using h3)]
          have : (l.map Live.order).filter (fun o => o.id = id) = [] := by
            rw [List.filter_eq_nil_iff]
            intro o ho'
            obtain ⟨z, hz, rfl⟩ := List.mem_map.1 ho'
            simp only [decide_eq_true_eq]
            intro e
            exact hn.1 (List.mem_map.2 ⟨z, hz, e.trans h3.symm⟩)
          rw [this]
        · rw [List.map_cons, List.filter_cons_of_neg]
          · exact ih h2' hn.2
          · simp only [decide_eq_true_eq]
            intro e
            exact hn.1 (List.mem_map.2 ⟨x, h2', h3.trans e.symm⟩)
  refine ⟨h1, ?_, h.get, ?_, ?_, ?_, h.orders, ?_, ?_, ?_⟩
  · have ho := h.orders
    change (!(s.orders).isEmpty) = true ↔ _
    have : s.orders = m.live.map Live.order := ho
    rw [this]
    cases m.live <;> simp
  · intro id
    have := h.contains id
    change s.contains id = _ at this
    rw [this]
    unfold PendingMap.lookup
    rw [List.isSome_find?]
    simp [m]
  · intro id
    change decide (id ∈ s.attempted) = true ↔ _
    rw [decide_eq_true_eq]
    have := h.att id
    change id ∈ s.attempted ↔ _ at this
    rw [this]
    constructor
    · rintro ⟨x, hx, ha⟩
      obtain ⟨h2, h3⟩ := PendingMap.lookup_some hx
      exact ⟨x, h2, h3, ha⟩
    · rintro ⟨x, hx, rfl, ha⟩
      exact ⟨x, ho.lookup_mem hx, ha⟩
  · intro id
    change (PendingScope.retryGet s.retry id).getD 0 = _
    have := h.retry id
    change PendingScope.retryGet s.retry id = _ at this
    rw [this]
  · intro sym
    have h2 := h.sym sym
    have h3 : s.orders = m.live.map Live.order := h.orders
    change (PendingScope.symGet s.symOrders sym).getD [] =
      s.orders.filter (fun o => o.symbol = sym) at h2
    rw [h3] at h2
    exact h2
  · intro id
    rw [hone]
    have : s.get id = (m.lookup id).map Live.order := h.get id
    change (match s.get id with | some o => [o] | none => []) = _
    rw [this]
    cases m.lookup id <;> rfl
  · intro sym id
    have h2 : (m.live.map Live.order).filter (fun o => o.symbol = sym ∧ o.id = id) =
        ((m.live.map Live.order).filter (fun o => o.id = id)).filter (fun o => o.symbol = sym) := by
      rw [List.filter_filter]
      apply List.filter_congr
      intro o _
      simp
    rw [h2, hone]
    have : s.get id = (m.lookup id).map Live.order := h.get id
    change (match s.get id with
      | some o => if o.symbol = sym then [o] else []
      | none => []) = _
    rw [this]
    cases m.lookup id with
    | none => rfl
    | some x =>
      by_cases hx : x.order.symbol = sym
      · simp [hx]
      · simp [hx]

theorem run_ids (ops : List POp) : ∀ m : PendingMap,
    issuedIds (m.run ops).1 = List.range' (m.created + 1) (addCount ops) := by
  induction ops with
  | nil => intro m; rfl
  | cons op ops ih =>
    intro m
    have h := ih (m.call op).2
    cases op with
    | add r =>
      have e : addCount (POp.add r :: ops) = addCount ops + 1 := by
        simp [addCount]
      rw [e, List.range'_succ]
      change (m.created + 1) :: issuedIds ((m.call (.add r)).2.run ops).1 = _
      rw [h]
      rfl
    | remove id =>
      have e : addCount (POp.remove id :: ops) = addCount ops := by simp [addCount]
      rw [e]
      exact h
    | removeAll sym =>
      have e : addCount (POp.removeAll sym :: ops) = addCount ops := by simp [addCount]
      rw [e]
      cases sym <;> exact h
    | markAttempted id =>
      have e : addCount (POp.markAttempted id :: ops) = addCount ops := by simp [addCount]
      rw [e]
      exact h
    | advanceRetry id =>
      have e : addCount (POp.advanceRetry id :: ops) = addCount ops := by simp [addCount]
      rw [e]
      exact h

/-- Ids are never reused: the adds of a history get 1, 2, 3, … in order, whatever
was removed in between, and every listing is in creation order. -/
theorem registry_ids_fresh (ops : List POp) (hm : ({} : PendingMap).MarksLive ops) :
    issuedIds (({} : PendingScope).runOps ops).1 = List.range' 1 (addCount ops) ∧
    ((({} : PendingScope).runOps ops).2.list none none).Pairwise (fun a b => a.id < b.id) ∧
    (∀ sym, ((({} : PendingScope).runOps ops).2.list (some sym) none).Pairwise
      (fun a b => a.id < b.id)) := by
  obtain ⟨h1, h, ho⟩ := Refines.init.run (ops := ops) ⟨List.Pairwise.nil, by simp⟩ hm
  have hs : (({} : PendingScope).runOps ops).2.orders.Pairwise (fun a b => a.id < b.id) := by
    rw [h.orders, List.pairwise_map]
    exact ho.sorted
  refine ⟨?_, hs, ?_⟩
  · rw [h1, run_ids]
  · intro sym
    change List.Pairwise _ ((PendingScope.symGet _ sym).getD [])
    rw [h.sym sym]
    exact hs.filter _

/-- Two symbols, an order removed, a symbol cleared, a retry: the hypotheses hold
and the registry is what the map says. -/
def Demo.pendingReq (sym : Sym) : PendingReq :=
  { side := .buy, symbol := sym, created := 1, execDate := 2, shares := 10, limit := some 5,
    fill := .price .middle, execBar := 3, timeout := some 2, stops := [], exitPos := none }

def Demo.pendingOps : List POp :=
  [.add (Demo.pendingReq "A"), .add (Demo.pendingReq "B"), .add (Demo.pendingReq "A"),
   .markAttempted 2, .remove 1, .remove 1, .advanceRetry 2, .removeAll (some "A"),
   .add (Demo.pendingReq "A")]

example : ({} : PendingMap).MarksLive Demo.pendingOps := by
  simp [PendingMap.MarksLive, Demo.pendingOps, PendingMap.call, PendingMap.lookup,
    PendingReq.order]

example : (({} : PendingScope).runOps Demo.pendingOps).1 =
      [.id 1, .id 2, .id 3, .unit, .found true, .found false, .unit, .unit, .id 4] ∧
    ((({} : PendingScope).runOps Demo.pendingOps).2.list (some "A") none).map PendingOrder.id =
      [4] ∧
    (({} : PendingScope).runOps Demo.pendingOps).2.retryBars 2 = 1 := by decide +kernel

end PyBroker
