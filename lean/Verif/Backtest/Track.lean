import Verif.Backtest.Registry
import Verif.Backtest.Model
import Mathlib.Tactic.Linarith

/-!
# Tracking the attempts of pending orders (helper lemmas)
-/

namespace PyBroker

open PyBroker.Spec

theorem foldB_inv {α β : Type} {f : β → α → Except BErr β} {I : β → Prop} {l : List α}
    (hf : ∀ b a b', a ∈ l → I b → f b a = .ok b' → I b') :
    ∀ {b b'}, I b → foldB f b l = .ok b' → I b' := by
  induction l with
  | nil =>
    intro b b' h h'
    have he := Except.ok.inj h'
    subst he
    exact h
  | cons a l ih =>
    intro b b' h h'
    unfold foldB at h'
    split at h'
    · cases h'
    · rename_i b1 h1
      exact ih (fun b a' b' ha' => hf b a' b' (List.mem_cons_of_mem _ ha'))
        (hf b a b1 List.mem_cons_self h h1) h'

/-- The attempts at an order. -/
def attemptsOf (id : Nat) (att : List Attempt) : List Attempt :=
  att.filter (fun a => a.order.id = id)

/-- Among two attempts at the same order the first failed, on an earlier bar, at
an order that persists. -/
def Retried (a b : Attempt) : Prop :=
  a.order.id = b.order.id →
    a.order = b.order ∧ a.date < b.date ∧ a.filled = none ∧ a.order.persistent = true

/-- What the registry and the attempts so far have to do with each other; `HB sym d`
says that the symbol has a bar on the date, `D` is the last date. -/
structure Track (HB : Sym → Date → Prop) (D : Date) (m : PendingMap) (att : List Attempt) :
    Prop where
  ordered : m.Ordered
  later : ∀ x ∈ m.live, x.order.created < x.order.execDate
  fresh : ∀ x ∈ m.live, x.attempted = false →
    x.retries = 0 ∧ attemptsOf x.order.id att = []
  tried : ∀ x ∈ m.live, x.attempted = true →
    x.order.persistent = true ∧ (attemptsOf x.order.id att).length = x.retries + 1 ∧
      (∀ t, x.order.timeout = some t → 0 ≤ t → (x.retries : Int) ≤ t)
  same : ∀ a ∈ att, ∀ x ∈ m.live, a.order.id = x.order.id →
    a.order = x.order ∧ a.filled = none
  bound : ∀ a ∈ att, a.order.id ≤ m.created ∧ a.order.created < a.order.execDate ∧
    a.order.execDate ≤ a.date ∧ a.date ≤ D ∧ HB a.order.symbol a.date
  limit : ∀ a ∈ att, ∀ t, a.order.timeout = some t → 0 ≤ t →
    ((attemptsOf a.order.id att).length : Int) ≤ t + 1
  once : att.Pairwise Retried

theorem Track.init (HB : Sym → Date → Prop) (D : Date) : Track HB D {} [] := by
  refine ⟨⟨List.Pairwise.nil, by simp⟩, ?_, ?_, ?_, ?_, ?_, ?_, List.Pairwise.nil⟩ <;> simp

theorem Track.mono {HB : Sym → Date → Prop} {D D' : Date} {m : PendingMap} {att : List Attempt}
    (h : Track HB D m att) (hd : D ≤ D') : Track HB D' m att := by
  refine ⟨h.ordered, h.later, h.fresh, h.tried, h.same, ?_, h.limit, h.once⟩
  intro a ha
  obtain ⟨h1, h2, h3, h4, h5⟩ := h.bound a ha
  exact ⟨h1, h2, h3, h4.trans hd, h5⟩

theorem Track.keep {HB : Sym → Date → Prop} {D : Date} {m : PendingMap} {att : List Attempt}
    (h : Track HB D m att) (p : PendingOrder → Bool) : Track HB D (m.keep p) att := by
  have hm : ∀ x, x ∈ (m.keep p).live → x ∈ m.live := fun x hx => List.mem_of_mem_filter hx
  exact ⟨h.ordered.keep p, fun x hx => h.later x (hm x hx), fun x hx => h.fresh x (hm x hx),
    fun x hx => h.tried x (hm x hx), fun a ha x hx => h.same a ha x (hm x hx), h.bound, h.limit,
    h.once⟩

theorem Track.add {HB : Sym → Date → Prop} {D : Date} {m : PendingMap} {att : List Attempt}
    (h : Track HB D m att) (r : PendingReq) (hr : r.created < r.execDate) :
    Track HB D (m.call (.add r)).2 att := by
  have hnew : ∀ a ∈ att, a.order.id ≠ m.created + 1 := by
    intro a ha
    have := (h.bound a ha).1
    omega
  have hnone : attemptsOf (m.created + 1) att = [] := by
    unfold attemptsOf
    rw [List.filter_eq_nil_iff]
    intro a ha
    simpa using hnew a ha
  have hm : ∀ x, x ∈ (m.call (.add r)).2.live → x ∈ m.live ∨
      x = { order := r.order (m.created + 1) } := by
    intro x hx
    simp only [PendingMap.call] at hx
    rcases List.mem_append.1 hx with hx | hx
    · exact Or.inl hx
    · exact Or.inr (List.mem_singleton.1 hx)
  refine ⟨h.ordered.call _, ?_, ?_, ?_, ?_, ?_, h.limit, h.once⟩
  · intro x hx
    rcases hm x hx with hx | rfl
    · exact h.later x hx
    · exact hr
  · intro x hx hf
    rcases hm x hx with hx | rfl
    · exact h.fresh x hx hf
    · exact ⟨rfl, hnone⟩
  · intro x hx hf
    rcases hm x hx with hx | rfl
    · exact h.tried x hx hf
    · cases hf
  · intro a ha x hx e
    rcases hm x hx with hx | rfl
    · exact h.same a ha x hx e
    · exact absurd e (hnew a ha)
  · intro a ha
    obtain ⟨h1, h2⟩ := h.bound a ha
    exact ⟨by simp only [PendingMap.call]; omega, h2⟩

theorem attemptsOf_append (id : Nat) (att : List Attempt) (a : Attempt) :
    attemptsOf id (att ++ [a]) =
      attemptsOf id att ++ (if a.order.id = id then [a] else []) := by
  unfold attemptsOf
  rw [List.filter_append]
  by_cases h : a.order.id = id <;> simp [h]

/-- One attempt: the registry before the attempt is `m`, with `r` the number of
retries the order will have been given. -/
theorem Track.attempt {HB : Sym → Date → Prop} {D D' : Date} {m : PendingMap}
    {att : List Attempt} (h : Track HB D m att) {x : Live} (hx : x ∈ m.live)
    (hexec : x.order.execDate ≤ D') (hd : D ≤ D') (hb : HB x.order.symbol D')
    (hnew : ∀ a ∈ att, a.order.id = x.order.id → a.date < D') (filled : Option Order)
    {r : Nat} (hr0 : x.attempted = false → r = 0)
    (hr1 : x.attempted = true → r = x.retries + 1 ∧
      ∀ t, x.order.timeout = some t → 0 ≤ t → (r : Int) ≤ t)
    {m2 : PendingMap}
    (hm2 : m2 = let m1 := m.update x.order.id (fun y => { y with attempted := true, retries := r })
      if filled.isSome ∨ x.order.persistent = false then m1.keep (fun o => o.id ≠ x.order.id)
      else m1) :
    Track HB D' m2 (att ++ [⟨x.order, D', filled⟩]) := by
  have hlen : (attemptsOf x.order.id att).length = r := by
    cases hf : x.attempted with
    | false =>
      rw [(h.fresh x hx hf).2, hr0 hf]; rfl
    | true => rw [(h.tried x hx hf).2.1, (hr1 hf).1]
  have hcond : ∀ y ∈ m2.live, (y ∈ m.live ∧ y.order.id ≠ x.order.id) ∨
      (y = { x with attempted := true, retries := r } ∧ filled = none ∧
        x.order.persistent = true) := by
    intro y hy
    rw [hm2] at hy
    have hupd : ∀ y ∈ (m.update x.order.id
        (fun y => { y with attempted := true, retries := r })).live,
        (y ∈ m.live ∧ y.order.id ≠ x.order.id) ∨ y = { x with attempted := true, retries := r } := by
      intro y hy
      obtain ⟨z, hz, rfl⟩ := List.mem_map.1 hy
      by_cases hzid : z.order.id = x.order.id
      · right
        have := h.ordered.unique hz hx hzid
        subst this
        simp
      · left
        simp only [hzid, if_false]
        exact ⟨hz, hzid⟩
    simp only at hy
    split at hy
    · obtain ⟨h1, h2⟩ := List.mem_filter.1 hy
      have h2' : y.order.id ≠ x.order.id := by simpa using h2
      rcases hupd y h1 with h3 | h3
      · exact Or.inl h3
      · subst h3
        exact absurd rfl h2'
    · rename_i hc
      rcases hupd y hy with h3 | h3
      · exact Or.inl h3
      · refine Or.inr ⟨h3, ?_, ?_⟩
        · cases filled with
          | none => rfl
          | some _ => exact absurd (Or.inl rfl) hc
        · cases hp : x.order.persistent with
          | true => rfl
          | false => exact absurd (Or.inr hp) hc
  have hord : m2.Ordered := by
    rw [hm2]
    simp only
    have hu := h.ordered.update x.order.id
      (f := fun y => { y with attempted := true, retries := r }) (fun _ => rfl)
    split
    · exact hu.keep _
    · exact hu
  have hcre : m2.created = m.created := by
    rw [hm2]
    simp only
    split <;> rfl
  have hother : ∀ id, id ≠ x.order.id →
      attemptsOf id (att ++ [⟨x.order, D', filled⟩]) = attemptsOf id att := by
    intro id hid
    rw [attemptsOf_append]
    simp [Ne.symm hid]
  have hself : (attemptsOf x.order.id (att ++ [⟨x.order, D', filled⟩])).length = r + 1 := by
    rw [attemptsOf_append]
    simp [hlen]
  refine ⟨hord, ?_, ?_, ?_, ?_, ?_, ?_, ?_⟩
  · intro y hy
    rcases hcond y hy with ⟨h1, _⟩ | ⟨rfl, _⟩
    · exact h.later y h1
    · exact h.later x hx
  · intro y hy hf
    rcases hcond y hy with ⟨h1, h2⟩ | ⟨rfl, _⟩
    · rw [hother _ h2]
      exact h.fresh y h1 hf
    · cases hf
  · intro y hy hf
    rcases hcond y hy with ⟨h1, h2⟩ | ⟨rfl, _, hp⟩
    · rw [hother _ h2]
      exact h.tried y h1 hf
    · refine ⟨hp, hself, ?_⟩
      intro t ht h0
      cases hxa : x.attempted with
      | false => rw [hr0 hxa]; simpa using h0
      | true => exact (hr1 hxa).2 t ht h0
  · intro a ha y hy e
    rcases List.mem_append.1 ha with ha | ha
    · rcases hcond y hy with ⟨h1, h2⟩ | ⟨rfl, _⟩
      · exact h.same a ha y h1 e
      · exact h.same a ha x hx e
    · rw [List.mem_singleton] at ha
      subst ha
      rcases hcond y hy with ⟨h1, h2⟩ | ⟨rfl, h2, _⟩
      · exact absurd e.symm h2
      · exact ⟨rfl, h2⟩
  · intro a ha
    rw [hcre]
    rcases List.mem_append.1 ha with ha | ha
    · obtain ⟨h1, h2, h3, h4, h5⟩ := h.bound a ha
      exact ⟨h1, h2, h3, h4.trans hd, h5⟩
    · rw [List.mem_singleton] at ha
      subst ha
      exact ⟨(h.ordered.bound x hx).2, h.later x hx, hexec, le_refl _, hb⟩
  · intro a ha t ht h0
    by_cases hid : a.order.id = x.order.id
    · rw [hid, hself]
      have hao : a.order = x.order := by
        rcases List.mem_append.1 ha with ha | ha
        · exact (h.same a ha x hx hid).1
        · rw [List.mem_singleton] at ha
          subst ha
          rfl
      rw [hao] at ht
      have : (r : Int) ≤ t := by
        cases hxa : x.attempted with
        | false => rw [hr0 hxa]; simpa using h0
        | true => exact (hr1 hxa).2 t ht h0
      push_cast
      omega
    · rw [hother _ hid]
      rcases List.mem_append.1 ha with ha | ha
      · exact h.limit a ha t ht h0
      · rw [List.mem_singleton] at ha
        subst ha
        exact absurd rfl hid
  · rw [List.pairwise_append]
    refine ⟨h.once, List.pairwise_singleton _ _, ?_⟩
    intro a ha b hb'
    rw [List.mem_singleton] at hb'
    subst hb'
    intro e
    obtain ⟨h1, h2⟩ := h.same a ha x hx e
    refine ⟨h1, hnew a ha e, h2, ?_⟩
    rw [h1]
    cases hxa : x.attempted with
    | true => exact (h.tried x hx hxa).1
    | false =>
      have : a ∈ attemptsOf x.order.id att := List.mem_filter.2 ⟨ha, by simpa using e⟩
      rw [(h.fresh x hx hxa).2] at this
      cases this

end PyBroker
