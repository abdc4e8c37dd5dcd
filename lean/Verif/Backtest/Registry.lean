import Verif.Spec.Pending
import Mathlib.Data.List.Induction
import Mathlib.Data.List.Basic

/-!
# The pending order registry refines one map (helper lemmas)
-/

namespace PyBroker

open PyBroker.Spec

namespace PendingScope

theorem symGet_symAdd (l : List (Sym × List PendingOrder)) (sym k : Sym) (o : PendingOrder) :
    symGet (symAdd l sym o) k =
      if k = sym then some ((symGet l sym).getD [] ++ [o]) else symGet l k := by
  induction l with
  | nil =>
    by_cases h : k = sym
    · subst h; simp [symAdd, symGet]
    · have h' : ¬ sym = k := fun e => h e.symm
      simp [symAdd, symGet, h, h']
  | cons x l ih =>
    obtain ⟨a, os⟩ := x
    by_cases ha : a = sym
    · subst ha
      by_cases hk : k = a
      · subst hk; simp [symAdd, symGet]
      · have hk' : ¬ a = k := fun e => hk e.symm
        simp [symAdd, symGet, hk, hk']
    · by_cases hk : a = k
      · subst hk; simp [symAdd, symGet, ha]
      · simp only [symAdd, ha, if_false, symGet, hk, ih]

theorem symGet_symPop (l : List (Sym × List PendingOrder)) (sym k : Sym) (id : Nat) :
    symGet (symPop l sym id) k =
      if k = sym then (symGet l sym).map (fun os => os.filter (fun o => o.id ≠ id))
      else symGet l k := by
  induction l with
  | nil => by_cases h : k = sym <;> simp [symPop, symGet]
  | cons x l ih =>
    obtain ⟨a, os⟩ := x
    by_cases ha : a = sym
    · subst ha
      by_cases hk : k = a
      · subst hk; simp [symPop, symGet]
      · have hk' : ¬ a = k := fun e => hk e.symm
        simp [symPop, symGet, hk, hk']
    · by_cases hk : a = k
      · subst hk; simp [symPop, symGet, ha]
      · simp only [symPop, ha, if_false, symGet, hk, ih]

theorem retryGet_retrySet (l : List (Nat × Nat)) (id k n : Nat) :
    retryGet (retrySet l id n) k = if k = id then some n else retryGet l k := by
  induction l with
  | nil =>
    by_cases h : k = id
    · subst h; simp [retrySet, retryGet]
    · have h' : ¬ id = k := fun e => h e.symm
      simp [retrySet, retryGet, h, h']
  | cons x l ih =>
    obtain ⟨a, m⟩ := x
    by_cases ha : a = id
    · subst ha
      by_cases hk : k = a
      · subst hk; simp [retrySet, retryGet]
      · have hk' : ¬ a = k := fun e => hk e.symm
        simp [retrySet, retryGet, hk, hk']
    · by_cases hk : a = k
      · subst hk; simp [retrySet, retryGet, ha]
      · simp only [retrySet, ha, if_false, retryGet, hk, ih]

theorem retryGet_retryPop (l : List (Nat × Nat)) (id k : Nat) :
    retryGet (retryPop l id) k = if k = id then none else retryGet l k := by
  unfold retryPop
  induction l with
  | nil => simp [retryGet]
  | cons x l ih =>
    obtain ⟨a, m⟩ := x
    by_cases ha : a = id
    · subst ha
      rw [List.filter_cons_of_neg (by simp)]
      rw [ih]
      by_cases hk : k = a
      · simp [hk]
      · have hk' : ¬ a = k := fun e => hk e.symm
        simp [retryGet, hk, hk']
    · rw [List.filter_cons_of_pos (by simpa using ha)]
      by_cases hk : a = k
      · subst hk; simp [retryGet, ha]
      · simp only [retryGet, hk, if_false, ih]

end PendingScope

/-! ## The map -/

namespace Spec.PendingMap

/-- The live orders have increasing ids, none above the number created. -/
structure Ordered (m : PendingMap) : Prop where
  sorted : m.live.Pairwise (fun x y => x.order.id < y.order.id)
  bound : ∀ x ∈ m.live, 0 < x.order.id ∧ x.order.id ≤ m.created

theorem lookup_some {m : PendingMap} {id : Nat} {x : Live} (h : m.lookup id = some x) :
    x ∈ m.live ∧ x.order.id = id :=
  ⟨List.mem_of_find?_eq_some h, by simpa using List.find?_some h⟩

theorem lookup_none {m : PendingMap} {id : Nat} :
    m.lookup id = none ↔ ∀ x ∈ m.live, x.order.id ≠ id := by
  unfold lookup
  simp [List.find?_eq_none]

theorem Ordered.unique {m : PendingMap} (h : m.Ordered) {x y : Live} (hx : x ∈ m.live)
    (hy : y ∈ m.live) (e : x.order.id = y.order.id) : x = y := by
  have hn : (m.live.map (fun z : Live => z.order.id)).Nodup := by
    rw [List.Nodup, List.pairwise_map]
    exact h.sorted.imp (fun hab => Nat.ne_of_lt hab)
  exact List.inj_on_of_nodup_map hn hx hy e

theorem Ordered.lookup_mem {m : PendingMap} (h : m.Ordered) {x : Live} (hx : x ∈ m.live) :
    m.lookup x.order.id = some x := by
  rcases Option.eq_none_or_eq_some (m.lookup x.order.id) with h0 | ⟨y, h1⟩
  · exact absurd rfl (lookup_none.1 h0 x hx)
  · obtain ⟨h2, h3⟩ := lookup_some h1
    rw [h1, h.unique h2 hx h3]

theorem Ordered.keep {m : PendingMap} (h : m.Ordered) (p : PendingOrder → Bool) :
    (m.keep p).Ordered :=
  ⟨h.sorted.filter _, fun x hx => h.bound x (List.mem_of_mem_filter hx)⟩

theorem Ordered.update {m : PendingMap} (h : m.Ordered) (id : Nat) {f : Live → Live}
    (hf : ∀ x, (f x).order = x.order) : (m.update id f).Ordered := by
  have hg : ∀ x : Live, (if x.order.id = id then f x else x).order = x.order := by
    intro x; split
    · exact hf x
    · rfl
  constructor
  · unfold PendingMap.update
    rw [List.pairwise_map]
    exact h.sorted.imp (fun {a b} hab => by rw [hg, hg]; exact hab)
  · intro x hx
    obtain ⟨y, hy, rfl⟩ := List.mem_map.1 hx
    rw [hg]
    exact h.bound y hy

theorem Ordered.call {m : PendingMap} (h : m.Ordered) (op : POp) : (m.call op).2.Ordered := by
  cases op with
  | add r =>
    refine ⟨?_, ?_⟩
    · simp only [PendingMap.call]
      rw [List.pairwise_append]
      refine ⟨h.sorted, List.pairwise_singleton _ _, ?_⟩
      intro a ha b hb
      rw [List.mem_singleton] at hb
      subst hb
      have := (h.bound a ha).2
      simp only [PendingReq.order]
      omega
    · intro x hx
      simp only [PendingMap.call] at hx ⊢
      rcases List.mem_append.1 hx with hx | hx
      · have := h.bound x hx
        omega
      · rw [List.mem_singleton] at hx
        subst hx
        simp [PendingReq.order]
  | remove id => exact h.keep (fun o => o.id ≠ id)
  | removeAll sym =>
    cases sym with
    | none => exact h.keep (fun _ => false)
    | some sym => exact h.keep (fun o => o.symbol ≠ sym)
  | markAttempted id => exact h.update id (fun _ => rfl)
  | advanceRetry id => exact h.update id (fun _ => rfl)

theorem lookup_keep {m : PendingMap} (h : m.Ordered) (p : PendingOrder → Bool) (k : Nat) :
    (m.keep p).lookup k = (m.lookup k).filter (fun x => p x.order) := by
  rcases Option.eq_none_or_eq_some (m.lookup k) with h0 | ⟨x, h1⟩
  · rw [h0]
    exact lookup_none.2 (fun x hx => lookup_none.1 h0 x (List.mem_of_mem_filter hx))
  · obtain ⟨h2, h3⟩ := lookup_some h1
    rw [h1]
    by_cases hp : p x.order = true
    · have : x ∈ (m.keep p).live := List.mem_filter.2 ⟨h2, by simpa using hp⟩
      have := (h.keep p).lookup_mem this
      rw [h3] at this
      simp [this, Option.filter, hp]
    · simp only [Option.filter, hp]
      refine lookup_none.2 ?_
      intro y hy e
      obtain ⟨hy1, hy2⟩ := List.mem_filter.1 hy
      have := h.unique hy1 h2 (e.trans h3.symm)
      subst this
      exact hp (by simpa using hy2)

theorem lookup_update {m : PendingMap} (h : m.Ordered) (id : Nat) {f : Live → Live}
    (hf : ∀ x, (f x).order = x.order) (k : Nat) :
    (m.update id f).lookup k = (m.lookup k).map (fun x => if k = id then f x else x) := by
  have hg : ∀ x : Live, (if x.order.id = id then f x else x).order = x.order := by
    intro x; split
    · exact hf x
    · rfl
  rcases Option.eq_none_or_eq_some (m.lookup k) with h0 | ⟨x, h1⟩
  · rw [h0]
    refine lookup_none.2 ?_
    intro y hy
    obtain ⟨x, hx, rfl⟩ := List.mem_map.1 hy
    rw [hg]
    exact lookup_none.1 h0 x hx
  · obtain ⟨h2, h3⟩ := lookup_some h1
    have hm : (if x.order.id = id then f x else x) ∈ (m.update id f).live :=
      List.mem_map.2 ⟨x, h2, rfl⟩
    have := (h.update id hf).lookup_mem hm
    rw [hg, h3] at this
    rw [this, h1]
    simp

end Spec.PendingMap

/-! ## The relation -/

/-- The registry and the map agree. -/
structure Refines (s : PendingScope) (m : PendingMap) : Prop where
  next : s.nextId = m.created
  orders : s.orders = m.live.map Live.order
  sym : ∀ k, (PendingScope.symGet s.symOrders k).getD [] = s.orders.filter (fun o => o.symbol = k)
  retry : ∀ k, PendingScope.retryGet s.retry k = (m.lookup k).map Live.retries
  att : ∀ k, k ∈ s.attempted ↔ ∃ x, m.lookup k = some x ∧ x.attempted = true

namespace Refines

open PendingScope

theorem get {s : PendingScope} {m : PendingMap} (h : Refines s m) (id : Nat) :
    s.get id = (m.lookup id).map Live.order := by
  unfold PendingScope.get PendingMap.lookup
  rw [h.orders, List.find?_map]
  rfl

theorem contains {s : PendingScope} {m : PendingMap} (h : Refines s m) (id : Nat) :
    s.contains id = (m.lookup id).isSome := by
  unfold PendingScope.contains PendingMap.lookup
  rw [h.orders, List.any_map, List.isSome_find?]
  rfl

theorem remove {s : PendingScope} {m : PendingMap} (h : Refines s m) (ho : m.Ordered) (id : Nat) :
    (s.remove id).1 = (m.lookup id).isSome ∧
      Refines (s.remove id).2 (m.keep (fun o => o.id ≠ id)) := by
  have hg := h.get id
  rcases Option.eq_none_or_eq_some (m.lookup id) with h0 | ⟨x, h1⟩
  · rw [h0] at hg
    unfold PendingScope.remove
    simp only [hg, Option.map_none]
    refine ⟨by rw [h0]; rfl, ?_⟩
    have hk : m.keep (fun o => o.id ≠ id) = m := by
      unfold PendingMap.keep
      rw [List.filter_eq_self.2]
      intro x hx
      simpa using PendingMap.lookup_none.1 h0 x hx
    rw [hk]
    exact h
  · rw [h1] at hg
    obtain ⟨hx, hxid⟩ := PendingMap.lookup_some h1
    unfold PendingScope.remove
    simp only [hg, Option.map_some]
    refine ⟨by rw [h1]; rfl, ?_⟩
    have hlk := PendingMap.lookup_keep ho (fun o => o.id ≠ id)
    refine ⟨h.next, ?_, ?_, ?_, ?_⟩
    · unfold PendingMap.keep
      simp only [h.orders, List.filter_map]
      rfl
    · intro k
      simp only [symGet_symPop]
      by_cases hk : k = x.order.symbol
      · subst hk
        rw [if_pos rfl]
        have := h.sym x.order.symbol
        rw [List.filter_filter]
        cases hs : symGet s.symOrders x.order.symbol with
        | none =>
          rw [hs] at this
          simp only [Option.getD_none] at this
          simp only [Option.map_none, Option.getD_none]
          symm
          rw [List.filter_eq_nil_iff] at *
          have this' := this.symm
          rw [List.filter_eq_nil_iff] at this'
          intro o ho' hc
          simp only [Bool.and_eq_true] at hc
          exact this' o ho' hc.1
        | some os =>
          rw [hs] at this
          simp only [Option.getD_some] at this
          simp only [Option.map_some, Option.getD_some, this, List.filter_filter]
          congr 1
          funext o
          rw [Bool.and_comm]
      · rw [if_neg hk, h.sym k, List.filter_filter]
        apply List.filter_congr
        intro o ho'
        by_cases hok : o.symbol = k
        · have : o.id ≠ id := by
            intro e
            rw [h.orders] at ho'
            obtain ⟨y, hy, rfl⟩ := List.mem_map.1 ho'
            have := ho.unique hy hx (e.trans hxid.symm)
            subst this
            exact hk hok.symm
          simp [hok, this]
        · simp [hok]
    · intro k
      simp only [retryGet_retryPop, hlk, h.retry k]
      by_cases hk : k = id
      · subst hk
        simp [h1, hxid, Option.filter]
      · rw [if_neg hk]
        rcases Option.eq_none_or_eq_some (m.lookup k) with h0 | ⟨y, hy⟩
        · simp [h0]
        · obtain ⟨_, hyid⟩ := PendingMap.lookup_some hy
          simp [hy, Option.filter, hyid, hk]
    · intro k
      simp only [List.mem_filter, hlk]
      by_cases hk : k = id
      · subst hk
        simp [h1, hxid, Option.filter]
      · rw [h.att k]
        rcases Option.eq_none_or_eq_some (m.lookup k) with h0 | ⟨y, hy⟩
        · simp [h0]
        · obtain ⟨_, hyid⟩ := PendingMap.lookup_some hy
          simp [hy, Option.filter, hyid, hk]

theorem removeIds {ids : List Nat} : ∀ {s : PendingScope} {m : PendingMap}, Refines s m →
    m.Ordered → Refines (s.removeIds ids) (m.keep (fun o => o.id ∉ ids)) := by
  induction ids with
  | nil =>
    intro s m h _
    have : m.keep (fun o => o.id ∉ ([] : List Nat)) = m := by
      unfold PendingMap.keep
      simp
    rw [this]
    exact h
  | cons id ids ih =>
    intro s m h ho
    have := ih (h.remove ho id).2 (ho.keep _)
    unfold PendingScope.removeIds
    have e : m.keep (fun o => o.id ∉ id :: ids) =
        (m.keep (fun o => o.id ≠ id)).keep (fun o => o.id ∉ ids) := by
      unfold PendingMap.keep
      simp only [List.filter_filter]
      congr 1
      apply List.filter_congr
      intro x _
      simp [List.mem_cons, not_or, Bool.and_comm]
    rw [e]
    exact this

theorem removeAll {s : PendingScope} {m : PendingMap} (h : Refines s m) (ho : m.Ordered)
    (sym : Option Sym) : Refines (s.removeAll sym) (m.call (.removeAll sym)).2 := by
  cases sym with
  | none =>
    have := h.removeIds ho (ids := s.orders.map PendingOrder.id)
    have e : m.keep (fun o => o.id ∉ s.orders.map PendingOrder.id) = m.keep (fun _ => false) := by
      unfold PendingMap.keep
      congr 1
      apply List.filter_congr
      intro x hx
      rw [h.orders]
      simp only [decide_eq_false_iff_not, not_not, List.map_map]
      exact List.mem_map.2 ⟨x, hx, rfl⟩
    rw [e] at this
    exact this
  | some sym =>
    have hs := h.sym sym
    unfold PendingScope.removeAll
    have key : ∀ os : List PendingOrder, os = s.orders.filter (fun o => o.symbol = sym) →
        m.keep (fun o => o.id ∉ os.map PendingOrder.id) = m.keep (fun o => o.symbol ≠ sym) := by
      intro os hos
      unfold PendingMap.keep
      congr 1
      apply List.filter_congr
      intro x hx
      rw [hos, h.orders]
      by_cases hxs : x.order.symbol = sym
      · simp only [hxs, ne_eq, not_true_eq_false, decide_false, decide_eq_false_iff_not, not_not]
        refine List.mem_map.2 ⟨x.order, List.mem_filter.2 ⟨List.mem_map.2 ⟨x, hx, rfl⟩, ?_⟩, rfl⟩
        simpa using hxs
      · simp only [ne_eq, hxs, not_false_eq_true, decide_true, decide_eq_true_eq]
        intro hc
        obtain ⟨o, ho1, ho2⟩ := List.mem_map.1 hc
        obtain ⟨ho3, ho4⟩ := List.mem_filter.1 ho1
        obtain ⟨y, hy, rfl⟩ := List.mem_map.1 ho3
        have := ho.unique hy hx ho2
        subst this
        exact hxs (by simpa using ho4)
    cases hg : symGet s.symOrders sym with
    | none =>
      rw [hg] at hs
      simp only [Option.getD_none] at hs
      have := key [] hs
      simp only [List.map_nil, List.not_mem_nil, not_false_eq_true, decide_true] at this
      simp only [PendingMap.call]
      rw [← this]
      have e : m.keep (fun _ => true) = m := by unfold PendingMap.keep; simp
      rw [e]
      simp only [hg]
      exact h
    | some os =>
      rw [hg] at hs
      simp only [Option.getD_some] at hs
      simp only [PendingMap.call, hg]
      rw [← key os hs]
      exact h.removeIds ho

theorem call {s : PendingScope} {m : PendingMap} (h : Refines s m) (ho : m.Ordered) (op : POp)
    (hm : ∀ id, op = .markAttempted id → (m.lookup id).isSome) :
    (s.call op).1 = (m.call op).1 ∧ Refines (s.call op).2 (m.call op).2 := by
  cases op with
  | add r =>
    have hfresh : m.lookup (m.created + 1) = none := by
      refine PendingMap.lookup_none.2 ?_
      intro x hx
      have := (ho.bound x hx).2
      omega
    have hlk : ∀ k, (m.call (.add r)).2.lookup k =
        if k = m.created + 1 then some { order := r.order (m.created + 1) } else m.lookup k := by
      intro k
      unfold PendingMap.lookup
      simp only [PendingMap.call, List.find?_append]
      by_cases hk : k = m.created + 1
      · subst hk
        rw [if_pos rfl]
        have h0 : List.find? (fun x : Live => decide (x.order.id = m.created + 1)) m.live = none :=
          hfresh
        rw [h0]
        simp [PendingReq.order]
      · rw [if_neg hk]
        have : List.find? (fun x : Live => decide (x.order.id = k))
            [{ order := r.order (m.created + 1) }] = none := by
          simp [PendingReq.order]
          omega
        rw [this]
        simp
    refine ⟨?_, ?_⟩
    · simp [PendingScope.call, PendingScope.add, PendingMap.call, h.next]
    · refine ⟨?_, ?_, ?_, ?_, ?_⟩
      · simp [PendingScope.call, PendingScope.add, PendingMap.call, h.next]
      · simp [PendingScope.call, PendingScope.add, PendingMap.call, h.next, h.orders]
      · intro k
        simp only [PendingScope.call, PendingScope.add, symGet_symAdd, List.filter_append]
        by_cases hk : k = r.symbol
        · subst hk
          rw [if_pos rfl, Option.getD_some, h.sym]
          simp [PendingReq.order]
        · have hk' : ¬ r.symbol = k := fun e => hk e.symm
          rw [if_neg hk, h.sym]
          simp [PendingReq.order, hk']
      · intro k
        rw [hlk k]
        simp only [PendingScope.call, PendingScope.add, retryGet_retrySet, h.next, h.retry k]
        by_cases hk : k = m.created + 1
        · rw [if_pos hk, if_pos hk]; rfl
        · rw [if_neg hk, if_neg hk]
      · intro k
        rw [hlk k]
        simp only [PendingScope.call, PendingScope.add]
        rw [h.att k]
        by_cases hk : k = m.created + 1
        · rw [if_pos hk, hk, hfresh]
          simp
        · rw [if_neg hk]
  | remove id =>
    obtain ⟨h1, h2⟩ := h.remove ho id
    refine ⟨?_, h2⟩
    simp [PendingScope.call, PendingMap.call, h1]
  | removeAll sym =>
    refine ⟨?_, h.removeAll ho sym⟩
    cases sym <;> rfl
  | markAttempted id =>
    refine ⟨rfl, ?_⟩
    have hlk := PendingMap.lookup_update ho id (f := fun x => { x with attempted := true })
      (fun _ => rfl)
    refine ⟨h.next, ?_, h.sym, ?_, ?_⟩
    · simp only [PendingScope.call, PendingScope.markAttempted, PendingMap.call, h.orders,
        PendingMap.update, List.map_map]
      apply List.map_congr_left
      intro x _
      simp only [Function.comp]
      split <;> rfl
    · intro k
      simp only [PendingScope.call, PendingScope.markAttempted, PendingMap.call, hlk, h.retry k,
        Option.map_map]
      congr 1
      funext x
      simp only [Function.comp]
      split <;> rfl
    · intro k
      simp only [PendingScope.call, PendingMap.call, hlk]
      have hmem : k ∈ (s.markAttempted id).attempted ↔ k = id ∨ k ∈ s.attempted := by
        unfold PendingScope.markAttempted
        simp only
        split
        · rename_i hin
          constructor
          · exact Or.inr
          · rintro (rfl | h')
            · exact hin
            · exact h'
        · simp
      rw [hmem, h.att k]
      obtain ⟨x, hx⟩ := Option.isSome_iff_exists.1 (hm id rfl)
      by_cases hk : k = id
      · subst hk
        simp [hx]
      · rcases Option.eq_none_or_eq_some (m.lookup k) with h0 | ⟨y, hy⟩
        · simp [h0, hk]
        · simp [hy, hk]
  | advanceRetry id =>
    refine ⟨rfl, ?_⟩
    have hlk := PendingMap.lookup_update ho id (f := fun x => { x with retries := x.retries + 1 })
      (fun _ => rfl)
    have hc := h.contains id
    simp only [PendingScope.call, PendingMap.call]
    rcases Option.eq_none_or_eq_some (m.lookup id) with h0 | ⟨x, hx⟩
    · rw [h0] at hc
      unfold PendingScope.advanceRetry
      rw [if_neg (by rw [hc]; simp)]
      have e : m.update id (fun x => { x with retries := x.retries + 1 }) = m := by
        unfold PendingMap.update
        have : m.live.map (fun x : Live => if x.order.id = id then
            { x with retries := x.retries + 1 } else x) = m.live.map (fun x => x) := by
          apply List.map_congr_left
          intro x hx
          rw [if_neg (PendingMap.lookup_none.1 h0 x hx)]
        rw [this]
        simp
      rw [e]
      exact h
    · rw [hx] at hc
      unfold PendingScope.advanceRetry
      rw [if_pos (by rw [hc]; rfl)]
      refine ⟨h.next, ?_, h.sym, ?_, ?_⟩
      · simp only [h.orders, PendingMap.update, List.map_map]
        apply List.map_congr_left
        intro x _
        simp only [Function.comp]
        split <;> rfl
      · intro k
        simp only [retryGet_retrySet, hlk, h.retry]
        by_cases hk : k = id
        · subst hk
          simp [hx]
        · simp [hk]
      · intro k
        simp only [hlk]
        rw [h.att k]
        rcases Option.eq_none_or_eq_some (m.lookup k) with h0 | ⟨y, hy⟩
        · simp [h0]
        · by_cases hk : k = id <;> simp [hy, hk]

theorem init : Refines {} {} := by
  refine ⟨rfl, rfl, ?_, ?_, ?_⟩
  · intro k; rfl
  · intro k; rfl
  · intro k; simp [PendingMap.lookup]

theorem run {ops : List POp} : ∀ {s : PendingScope} {m : PendingMap}, Refines s m → m.Ordered →
    m.MarksLive ops →
    (s.runOps ops).1 = (m.run ops).1 ∧ Refines (s.runOps ops).2 (m.run ops).2 ∧
      (m.run ops).2.Ordered := by
  induction ops with
  | nil => intro s m h ho _; exact ⟨rfl, h, ho⟩
  | cons op ops ih =>
    intro s m h ho hm
    obtain ⟨h1, h2⟩ := h.call ho op (by
      rintro id rfl
      exact hm.1)
    obtain ⟨h3, h4, h5⟩ := ih h2 (ho.call op) hm.2
    exact ⟨by simp only [PendingScope.runOps, PendingMap.run, h1, h3], h4, h5⟩

end Refines

end PyBroker
