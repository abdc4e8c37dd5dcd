import Verif.Backtest.Track

/-!
# The bar loop keeps track of attempts (helper lemmas)
-/

namespace PyBroker

open PyBroker.Spec

namespace Spec.PendingMap

theorem update_congr {m : PendingMap} (ho : m.Ordered) {x : Live} (hx : x ∈ m.live)
    {f g : Live → Live} (h : f x = g x) : m.update x.order.id f = m.update x.order.id g := by
  unfold update
  congr 1
  apply List.map_congr_left
  intro y hy
  by_cases hid : y.order.id = x.order.id
  · have := ho.unique hy hx hid
    subst this
    simp [h]
  · simp [hid]

theorem update_update (m : PendingMap) (id : Nat) {f g : Live → Live}
    (hf : ∀ y, (f y).order = y.order) :
    (m.update id f).update id g = m.update id (fun y => g (f y)) := by
  unfold update
  simp only [List.map_map]
  congr 1
  apply List.map_congr_left
  intro y _
  simp only [Function.comp]
  by_cases hid : y.order.id = id
  · simp [hid, hf]
  · simp [hid]

end Spec.PendingMap

/-- The effect of one attempt on the registry. -/
theorem attemptStep_facts {cfg : Config} {env : BarEnv} {s s' : Loop} {p : PendingOrder}
    (h : attemptStep cfg env s p = .ok s') :
    ∃ o, attemptOrder cfg env s.pf p = .ok (o, s'.pf) ∧
      s'.attempts = s.attempts ++ [⟨p, env.date, o⟩] ∧
      s'.covers = s.covers ∧ s'.buys = s.buys ∧ s'.sells = s.sells ∧
      s'.pend = if o.isSome ∨ p.persistent = false then ((s.pend.markAttempted p.id).remove p.id).2
        else s.pend.markAttempted p.id := by
  unfold attemptStep at h
  simp only at h
  split at h
  · cases h
  · rename_i o pf' h1
    have he := Except.ok.inj h
    subst he
    exact ⟨o, h1, rfl, rfl, rfl, rfl, rfl⟩

theorem attemptStep_refines {cfg : Config} {env : BarEnv} {s s' : Loop} {m : PendingMap}
    {x : Live} (hr : Refines s.pend m) (ho : m.Ordered) (hx : x ∈ m.live)
    (h : attemptStep cfg env s x.order = .ok s') :
    ∃ o, attemptOrder cfg env s.pf x.order = .ok (o, s'.pf) ∧
      s'.attempts = s.attempts ++ [⟨x.order, env.date, o⟩] ∧
      s'.covers = s.covers ∧ s'.buys = s.buys ∧ s'.sells = s.sells ∧
      Refines s'.pend (let m1 := m.update x.order.id (fun y => { y with attempted := true })
        if o.isSome ∨ x.order.persistent = false then m1.keep (fun o => o.id ≠ x.order.id)
        else m1) := by
  obtain ⟨o, h1, h2, h3, h4, h5, h6⟩ := attemptStep_facts h
  refine ⟨o, h1, h2, h3, h4, h5, ?_⟩
  have hmark := (hr.call ho (.markAttempted x.order.id) (by
    intro id he
    cases he
    rw [ho.lookup_mem hx]; rfl)).2
  simp only [PendingScope.call, PendingMap.call] at hmark
  have ho1 := ho.update x.order.id (f := fun y => { y with attempted := true }) (fun _ => rfl)
  rw [h6]
  simp only
  split
  · exact (hmark.remove ho1 _).2
  · exact hmark

/-! ## The scheduled phase -/

/-- During the placement of the scheduled orders of the bar `D'`: `rem` are the
results still to be placed, `start` the orders pending when the bar began. -/
structure Placing (HB : Sym → Date → Prop) (D' : Date) (start : List PendingOrder)
    (rem : List ExecResult) (s : Loop) (m : PendingMap) : Prop where
  ref : Refines s.pend m
  track : Track HB D' m s.attempts
  hist : ∀ a ∈ s.attempts, a.date = D' → a.order.execDate = D'
  todo : ∀ r ∈ rem, ∃ id, r.pendingId = some id ∧ id ≤ m.created ∧
    (∀ a ∈ s.attempts, a.order.id = id → a.date < D') ∧
    (∀ x ∈ m.live, x.order.id = id → x.order.execDate = D' ∧ HB x.order.symbol D')
  nodup : (rem.map ExecResult.pendingId).Nodup
  kept : ∀ p ∈ start, (∃ x ∈ m.live, x.order = p) ∨ ∃ a ∈ s.attempts, a.order = p ∧ a.date = D'

/-- After the update and removal of an attempt the live orders are orders that
were live, and all others stay. -/
theorem attempt_live {m : PendingMap} {x : Live} {f : Live → Live}
    (hf : ∀ y, (f y).order = y.order) (c : Prop) [Decidable c] :
    let m2 := if c then (m.update x.order.id f).keep (fun o => o.id ≠ x.order.id)
      else m.update x.order.id f
    m2.created = m.created ∧
    (∀ y ∈ m2.live, ∃ z ∈ m.live, z.order = y.order) ∧
    (∀ y ∈ m.live, y.order.id ≠ x.order.id → ∃ z ∈ m2.live, z.order = y.order) := by
  intro m2
  have hg : ∀ y : Live, (if y.order.id = x.order.id then f y else y).order = y.order := by
    intro y; split
    · exact hf y
    · rfl
  have hu1 : ∀ y ∈ (m.update x.order.id f).live, ∃ z ∈ m.live, z.order = y.order := by
    intro y hy
    obtain ⟨z, hz, rfl⟩ := List.mem_map.1 hy
    exact ⟨z, hz, (hg z).symm⟩
  have hu2 : ∀ y ∈ m.live, (if y.order.id = x.order.id then f y else y) ∈
      (m.update x.order.id f).live := fun y hy => List.mem_map.2 ⟨y, hy, rfl⟩
  by_cases hc : c
  · have e : m2 = (m.update x.order.id f).keep (fun o => o.id ≠ x.order.id) := if_pos hc
    rw [e]
    refine ⟨rfl, fun y hy => hu1 y (List.mem_of_mem_filter hy), ?_⟩
    intro y hy hid
    refine ⟨_, List.mem_filter.2 ⟨hu2 y hy, ?_⟩, hg y⟩
    simp only [hg]
    simpa using hid
  · have e : m2 = m.update x.order.id f := if_neg hc
    rw [e]
    exact ⟨rfl, hu1, fun y hy _ => ⟨_, hu2 y hy, hg y⟩⟩

theorem Placing.attempt {HB : Sym → Date → Prop} {cfg : Config} {env : BarEnv}
    {start : List PendingOrder} {r : ExecResult} {rem : List ExecResult} {s s' : Loop}
    {m : PendingMap} (h : Placing HB env.date start (r :: rem) s m) {id : Nat}
    (hid : r.pendingId = some id) {p : PendingOrder} (hp : s.pend.get id = some p)
    (hs : attemptStep cfg env s p = .ok s') :
    ∃ m', Placing HB env.date start rem s' m' := by
  rw [h.ref.get id] at hp
  rcases Option.eq_none_or_eq_some (m.lookup id) with h0 | ⟨x, hx⟩
  · rw [h0] at hp; cases hp
  rw [hx] at hp
  have hpx : x.order = p := Option.some.inj hp
  subst hpx
  obtain ⟨hxl, hxid⟩ := PendingMap.lookup_some hx
  obtain ⟨id', hid', hcr, hatt, hlive⟩ := h.todo r List.mem_cons_self
  have : id' = id := by rw [hid] at hid'; exact (Option.some.inj hid').symm
  subst this
  obtain ⟨hex, hbx⟩ := hlive x hxl hxid
  have hnot : x.attempted = false := by
    cases hxa : x.attempted with
    | false => rfl
    | true =>
      obtain ⟨_, hlen, _⟩ := h.track.tried x hxl hxa
      have hne : attemptsOf x.order.id s.attempts ≠ [] := by
        intro e; rw [e] at hlen; simp at hlen
      obtain ⟨a, ha⟩ := List.exists_mem_of_ne_nil _ hne
      obtain ⟨ha1, ha2⟩ := List.mem_filter.1 ha
      have hai : a.order.id = x.order.id := by simpa using ha2
      have h1 := hatt a ha1 (hai.trans hxid)
      have h2 := (h.track.bound a ha1).2.2.1
      rw [(h.track.same a ha1 x hxl hai).1, hex] at h2
      exact absurd h1 (not_lt.2 h2)
  obtain ⟨o, ho1, ho2, _, _, _, ho6⟩ := attemptStep_refines h.ref h.track.ordered hxl hs
  have hup : m.update x.order.id (fun y => { y with attempted := true }) =
      m.update x.order.id (fun y => { y with attempted := true, retries := 0 }) :=
    PendingMap.update_congr h.track.ordered hxl (by
      rw [(h.track.fresh x hxl hnot).1])
  rw [hup] at ho6
  have htr := h.track.attempt (D' := env.date) hxl (le_of_eq hex) (le_refl _) (hex ▸ hbx)
    (fun a ha e => hatt a ha (e.trans hxid)) o (r := 0) (fun _ => rfl)
    (fun e => by rw [hnot] at e; cases e) rfl
  obtain ⟨l1, l2, l3⟩ := attempt_live (m := m) (x := x)
    (f := fun y => { y with attempted := true, retries := 0 }) (fun _ => rfl)
    (o.isSome = true ∨ x.order.persistent = false)
  refine ⟨_, ho6, ?_, ?_, ?_, ?_, ?_⟩
  · rw [ho2]; exact htr
  · intro a ha hd
    rw [ho2] at ha
    rcases List.mem_append.1 ha with ha | ha
    · exact h.hist a ha hd
    · rw [List.mem_singleton] at ha
      subst ha
      exact hex
  · intro r' hr'
    obtain ⟨j, hj, hjc, hja, hjl⟩ := h.todo r' (List.mem_cons_of_mem _ hr')
    have hne : j ≠ x.order.id := by
      intro e
      have hn := h.nodup
      rw [List.map_cons, List.nodup_cons] at hn
      apply hn.1
      rw [hid, ← hxid, ← e, ← hj]
      exact List.mem_map.2 ⟨r', hr', rfl⟩
    refine ⟨j, hj, by rw [l1]; exact hjc, ?_, ?_⟩
    · intro a ha e
      rw [ho2] at ha
      rcases List.mem_append.1 ha with ha | ha
      · exact hja a ha e
      · rw [List.mem_singleton] at ha
        subst ha
        exact absurd e.symm hne
    · intro y hy e
      obtain ⟨z, hz, hzo⟩ := l2 y hy
      rw [← hzo] at e ⊢
      exact hjl z hz e
  · have hn := h.nodup
    rw [List.map_cons, List.nodup_cons] at hn
    exact hn.2
  · intro p hp'
    rcases h.kept p hp' with ⟨y, hy, rfl⟩ | ⟨a, ha, hap⟩
    · by_cases hyid : y.order.id = x.order.id
      · right
        have := h.track.ordered.unique hy hxl hyid
        subst this
        refine ⟨_, by rw [ho2]; exact List.mem_append_right _ List.mem_cons_self, rfl, rfl⟩
      · left
        exact l3 y hy hyid
    · right
      exact ⟨a, by rw [ho2]; exact List.mem_append_left _ ha, hap⟩

theorem Placing.skip {HB : Sym → Date → Prop} {D' : Date} {start : List PendingOrder}
    {r : ExecResult} {rem : List ExecResult} {s : Loop} {m : PendingMap}
    (h : Placing HB D' start (r :: rem) s m) : Placing HB D' start rem s m := by
  have hn := h.nodup
  rw [List.map_cons, List.nodup_cons] at hn
  exact ⟨h.ref, h.track, h.hist, fun r hr => h.todo r (List.mem_cons_of_mem _ hr), hn.2, h.kept⟩

theorem placeBuy_placing {HB : Sym → Date → Prop} {cfg : Config} {env : BarEnv}
    {start : List PendingOrder} {r : ExecResult} {rem : List ExecResult} {s s' : Loop}
    {m : PendingMap} (h : Placing HB env.date start (r :: rem) s m)
    (hs : placeBuy cfg env s r = .ok s') : ∃ m', Placing HB env.date start rem s' m' := by
  unfold placeBuy at hs
  split at hs
  · have he := Except.ok.inj hs
    subst he
    exact ⟨m, h.skip⟩
  · split at hs
    · have he := Except.ok.inj hs
      subst he
      exact ⟨m, h.skip⟩
    · rename_i id hid
      split at hs
      · have he := Except.ok.inj hs
        subst he
        exact ⟨m, h.skip⟩
      · rename_i p hp
        exact h.attempt hid hp hs

theorem placeSell_placing {HB : Sym → Date → Prop} {cfg : Config} {env : BarEnv}
    {start : List PendingOrder} {r : ExecResult} {rem : List ExecResult} {s s' : Loop}
    {m : PendingMap} (h : Placing HB env.date start (r :: rem) s m)
    (hs : placeSell cfg env s r = .ok s') : ∃ m', Placing HB env.date start rem s' m' := by
  unfold placeSell at hs
  split at hs
  · have he := Except.ok.inj hs
    subst he
    exact ⟨m, h.skip⟩
  · split at hs
    · have he := Except.ok.inj hs
      subst he
      exact ⟨m, h.skip⟩
    · rename_i id hid
      split at hs
      · have he := Except.ok.inj hs
        subst he
        exact ⟨m, h.skip⟩
      · rename_i p hp
        exact h.attempt hid hp hs

theorem foldPlacing {HB : Sym → Date → Prop} {D' : Date} {start : List PendingOrder}
    {f : Loop → ExecResult → Except BErr Loop}
    (hf : ∀ {r rem s s' m}, Placing HB D' start (r :: rem) s m → f s r = .ok s' →
      ∃ m', Placing HB D' start rem s' m') (rem : List ExecResult) :
    ∀ {l : List ExecResult} {s s' : Loop} {m : PendingMap}, Placing HB D' start (l ++ rem) s m →
      foldB f s l = .ok s' → ∃ m', Placing HB D' start rem s' m' := by
  intro l
  induction l with
  | nil =>
    intro s s' m h hs
    have he := Except.ok.inj hs
    subst he
    exact ⟨m, h⟩
  | cons r l ih =>
    intro s s' m h hs
    unfold foldB at hs
    split at hs
    · cases hs
    · rename_i s1 h1
      obtain ⟨m1, hm1⟩ := hf (r := r) (rem := l ++ rem) h h1
      exact ih hm1 hs

theorem Placing.perm {HB : Sym → Date → Prop} {D' : Date} {start : List PendingOrder}
    {l l' : List ExecResult} {s : Loop} {m : PendingMap} (h : Placing HB D' start l s m)
    (hp : l.Perm l') : Placing HB D' start l' s m :=
  ⟨h.ref, h.track, h.hist, fun r hr => h.todo r (hp.mem_iff.2 hr),
    (hp.map _).nodup_iff.1 h.nodup, h.kept⟩

theorem placeOrderOf_perm (limit : Option Nat) (key : ExecResult → WithBot ℚ)
    (l : List ExecResult) : (placeOrderOf limit key l).Perm l := by
  cases limit with
  | none => exact List.Perm.refl _
  | some _ => exact List.perm_insertionSort _ l

/-! ## The scheduled phase leaves the schedules alone -/

/-- The schedules of two states agree. -/
def SameSched (s s' : Loop) : Prop :=
  s'.covers = s.covers ∧ s'.buys = s.buys ∧ s'.sells = s.sells

theorem attemptStep_sched {cfg : Config} {env : BarEnv} {s s' : Loop} {p : PendingOrder}
    (h : attemptStep cfg env s p = .ok s') : SameSched s s' := by
  obtain ⟨o, _, _, h3, h4, h5, _⟩ := attemptStep_facts h
  exact ⟨h3, h4, h5⟩

theorem SameSched.trans {a b c : Loop} (h1 : SameSched a b) (h2 : SameSched b c) :
    SameSched a c :=
  ⟨h2.1.trans h1.1, h2.2.1.trans h1.2.1, h2.2.2.trans h1.2.2⟩

theorem placeBuy_sched {cfg : Config} {env : BarEnv} {s s' : Loop} {r : ExecResult}
    (h : placeBuy cfg env s r = .ok s') : SameSched s s' := by
  unfold placeBuy at h
  split at h
  · have he := Except.ok.inj h; subst he; exact ⟨rfl, rfl, rfl⟩
  · split at h
    · have he := Except.ok.inj h; subst he; exact ⟨rfl, rfl, rfl⟩
    · split at h
      · have he := Except.ok.inj h; subst he; exact ⟨rfl, rfl, rfl⟩
      · exact attemptStep_sched h

theorem placeSell_sched {cfg : Config} {env : BarEnv} {s s' : Loop} {r : ExecResult}
    (h : placeSell cfg env s r = .ok s') : SameSched s s' := by
  unfold placeSell at h
  split at h
  · have he := Except.ok.inj h; subst he; exact ⟨rfl, rfl, rfl⟩
  · split at h
    · have he := Except.ok.inj h; subst he; exact ⟨rfl, rfl, rfl⟩
    · split at h
      · have he := Except.ok.inj h; subst he; exact ⟨rfl, rfl, rfl⟩
      · exact attemptStep_sched h

theorem processOne_sched {cfg : Config} {env : BarEnv} {s s' : Loop} {p : PendingOrder}
    (h : processOne cfg env s p = .ok s') : SameSched s s' := by
  unfold processOne at h
  simp only at h
  split at h
  · have he := Except.ok.inj h; subst he; exact ⟨rfl, rfl, rfl⟩
  · split at h
    · have he := Except.ok.inj h; subst he; exact ⟨rfl, rfl, rfl⟩
    · split at h
      · have he := Except.ok.inj h; subst he; exact ⟨rfl, rfl, rfl⟩
      · split at h
        · exact attemptStep_sched h
        · split at h
          · have he := Except.ok.inj h; subst he; exact ⟨rfl, rfl, rfl⟩
          · split at h
            · have he := Except.ok.inj h; subst he; exact ⟨rfl, rfl, rfl⟩
            · have := attemptStep_sched h
              exact this

theorem foldB_sched {α : Type} {f : Loop → α → Except BErr Loop}
    (hf : ∀ s a s', f s a = .ok s' → SameSched s s') {l : List α} {s s' : Loop}
    (h : foldB f s l = .ok s') : SameSched s s' :=
  foldB_inv (I := SameSched s) (fun b a b' _ hb hs => hb.trans (hf b a b' hs))
    ⟨rfl, rfl, rfl⟩ h

/-! ## The persistent phase -/

/-- An order that is not due or was dealt with on the bar `D'`. -/
def Dealt (HB : Sym → Date → Prop) (D' : Date) (s : Loop) (m : PendingMap) (p : PendingOrder) :
    Prop :=
  D' < p.execDate ∨ ¬ HB p.symbol D' ∨ (∃ a ∈ s.attempts, a.order = p ∧ a.date = D') ∨
    (∃ t, p.timeout = some t ∧ ((attemptsOf p.id s.attempts).length : Int) = t + 1 ∧
      ∀ x ∈ m.live, x.order.id ≠ p.id)

/-- During the persistent phase of the bar `D'`. -/
structure Persisting (HB : Sym → Date → Prop) (D' : Date) (start : List PendingOrder)
    (rem : List PendingOrder) (s : Loop) (m : PendingMap) : Prop where
  ref : Refines s.pend m
  track : Track HB D' m s.attempts
  hist : ∀ a ∈ s.attempts, a.date = D' → a.order.execDate = D' ∨ ∀ p ∈ rem, p.id ≠ a.order.id
  todo : ∀ p ∈ rem, ∃ x ∈ m.live, x.order = p
  nodup : (rem.map PendingOrder.id).Nodup
  dealt : ∀ p ∈ start, p ∈ rem ∨ Dealt HB D' s m p

theorem Dealt.keep {HB : Sym → Date → Prop} {D' : Date} {s s' : Loop} {m m' : PendingMap}
    {p : PendingOrder} (h : Dealt HB D' s m p) {id : Nat} (hid : p.id ≠ id)
    (ha : ∃ l : List Attempt, s'.attempts = s.attempts ++ l ∧ ∀ a ∈ l, a.order.id = id)
    (hm : ∀ y ∈ m'.live, ∃ z ∈ m.live, z.order = y.order) : Dealt HB D' s' m' p := by
  obtain ⟨l, hl, hlid⟩ := ha
  rcases h with h | h | ⟨a, ha, h1, h2⟩ | ⟨t, h1, h2, h3⟩
  · exact Or.inl h
  · exact Or.inr (Or.inl h)
  · exact Or.inr (Or.inr (Or.inl ⟨a, by rw [hl]; exact List.mem_append_left _ ha, h1, h2⟩))
  · refine Or.inr (Or.inr (Or.inr ⟨t, h1, ?_, ?_⟩))
    · have : attemptsOf p.id l = [] := by
        unfold attemptsOf
        rw [List.filter_eq_nil_iff]
        intro a ha
        rw [hlid a ha]
        simpa using Ne.symm hid
      rw [hl]
      unfold attemptsOf at *
      rw [List.filter_append, this, List.append_nil]
      exact h2
    · intro x hx
      obtain ⟨z, hz, hzo⟩ := hm x hx
      rw [← hzo]
      exact h3 z hz

theorem Persisting.skip {HB : Sym → Date → Prop} {D' : Date} {start : List PendingOrder}
    {p : PendingOrder} {rem : List PendingOrder} {s : Loop} {m : PendingMap}
    (h : Persisting HB D' start (p :: rem) s m) (hd : Dealt HB D' s m p) :
    Persisting HB D' start rem s m := by
  have hn := h.nodup
  rw [List.map_cons, List.nodup_cons] at hn
  refine ⟨h.ref, h.track, ?_, fun r hr => h.todo r (List.mem_cons_of_mem _ hr), hn.2, ?_⟩
  · intro a ha e
    rcases h.hist a ha e with h1 | h1
    · exact Or.inl h1
    · exact Or.inr (fun q hq => h1 q (List.mem_cons_of_mem _ hq))
  · intro q hq
    rcases h.dealt q hq with h1 | h1
    · rcases List.mem_cons.1 h1 with rfl | h1
      · exact Or.inr hd
      · exact Or.inl h1
    · exact Or.inr h1

/-- An attempt in the persistent phase, from the registry `m0` in which the
retry count was advanced to `r`. -/
theorem Persisting.attempt {HB : Sym → Date → Prop} {cfg : Config} {env : BarEnv}
    {start : List PendingOrder} {x : Live} {rem : List PendingOrder} {s s0 s' : Loop}
    {m m0 : PendingMap} (h : Persisting HB env.date start (x.order :: rem) s m)
    (hxl : x ∈ m.live) {r : Nat}
    (hs0 : s0.attempts = s.attempts) (hm0 : Refines s0.pend m0)
    (hm0' : m0 = m.update x.order.id (fun y => { y with retries := r }))
    (hexec : x.order.execDate ≤ env.date) (hb : HB x.order.symbol env.date)
    (hnew : ∀ a ∈ s.attempts, a.order.id = x.order.id → a.date < env.date)
    (hr0 : x.attempted = false → r = 0)
    (hr1 : x.attempted = true → r = x.retries + 1 ∧
      ∀ t, x.order.timeout = some t → 0 ≤ t → (r : Int) ≤ t)
    (hs : attemptStep cfg env s0 x.order = .ok s') :
    ∃ m', Persisting HB env.date start rem s' m' := by
  have ho0 : m0.Ordered := by
    rw [hm0']
    exact h.track.ordered.update x.order.id (f := fun y => { y with retries := r }) (fun _ => rfl)
  have hx0 : ({ x with retries := r } : Live) ∈ m0.live := by
    rw [hm0']
    exact List.mem_map.2 ⟨x, hxl, by simp⟩
  obtain ⟨o, ho1, ho2, _, _, _, ho6⟩ := attemptStep_refines (x := { x with retries := r }) hm0 ho0
    hx0 hs
  simp only at ho2 ho6
  have hup : m0.update x.order.id (fun y => { y with attempted := true }) =
      m.update x.order.id (fun y => { y with attempted := true, retries := r }) := by
    rw [hm0', PendingMap.update_update (f := fun y => { y with retries := r }) _ _ (fun _ => rfl)]
  rw [hup] at ho6
  rw [hs0] at ho2
  have htr := h.track.attempt (D' := env.date) hxl hexec (le_refl _) hb hnew o hr0 hr1 rfl
  obtain ⟨l1, l2, l3⟩ := attempt_live (m := m) (x := x)
    (f := fun y => { y with attempted := true, retries := r }) (fun _ => rfl)
    (o.isSome = true ∨ x.order.persistent = false)
  have hn := h.nodup
  rw [List.map_cons, List.nodup_cons] at hn
  have hne : ∀ q ∈ rem, q.id ≠ x.order.id := by
    intro q hq e
    exact hn.1 (List.mem_map.2 ⟨q, hq, e⟩)
  refine ⟨_, ho6, ?_, ?_, ?_, hn.2, ?_⟩
  · rw [ho2]; exact htr
  · intro a ha hd
    rw [ho2] at ha
    rcases List.mem_append.1 ha with ha | ha
    · rcases h.hist a ha hd with h1 | h1
      · exact Or.inl h1
      · exact Or.inr (fun q hq => h1 q (List.mem_cons_of_mem _ hq))
    · rw [List.mem_singleton] at ha
      subst ha
      exact Or.inr hne
  · intro q hq
    obtain ⟨y, hy, rfl⟩ := h.todo q (List.mem_cons_of_mem _ hq)
    exact l3 y hy (hne _ hq)
  · intro q hq
    rcases h.dealt q hq with h1 | h1
    · rcases List.mem_cons.1 h1 with rfl | h1
      · right; right; right; left
        exact ⟨_, by rw [ho2]; exact List.mem_append_right _ List.mem_cons_self, rfl, rfl⟩
      · exact Or.inl h1
    · right
      by_cases hqid : q.id = x.order.id
      · rcases h1 with h1 | h1 | ⟨a, ha, h2, h3⟩ | ⟨t, h2, h3, h4⟩
        · exact Or.inl h1
        · exact Or.inr (Or.inl h1)
        · exact Or.inr (Or.inr (Or.inl ⟨a, by rw [ho2]; exact List.mem_append_left _ ha, h2, h3⟩))
        · exact absurd hqid.symm (h4 x hxl)
      · exact h1.keep hqid ⟨_, ho2, by
          intro a ha
          rw [List.mem_singleton] at ha
          subst ha
          rfl⟩ l2

theorem processOne_persisting {HB : Sym → Date → Prop} {cfg : Config} {env : BarEnv}
    (hHB : ∀ sym, env.hasBarOn sym = true ↔ HB sym env.date)
    {start : List PendingOrder} {p : PendingOrder} {rem : List PendingOrder} {s s' : Loop}
    {m : PendingMap} (h : Persisting HB env.date start (p :: rem) s m)
    (hs : processOne cfg env s p = .ok s') : ∃ m', Persisting HB env.date start rem s' m' := by
  obtain ⟨x, hxl, rfl⟩ := h.todo p List.mem_cons_self
  have hwas : s.pend.wasAttempted x.order.id = x.attempted := by
    unfold PendingScope.wasAttempted
    have := h.ref.att x.order.id
    rw [h.track.ordered.lookup_mem hxl] at this
    cases hxa : x.attempted with
    | true =>
      rw [decide_eq_true_eq]
      exact this.2 ⟨x, rfl, hxa⟩
    | false =>
      rw [decide_eq_false_iff_not]
      intro hc
      obtain ⟨y, hy, hya⟩ := this.1 hc
      have := Option.some.inj hy
      subst this
      rw [hxa] at hya
      cases hya
  unfold processOne at hs
  simp only [hwas] at hs
  by_cases h1 : x.order.execDate > env.date
  · rw [if_pos h1] at hs
    have he := Except.ok.inj hs
    subst he
    exact ⟨m, h.skip (Or.inl h1)⟩
  rw [if_neg h1] at hs
  by_cases h2 : x.order.execDate = env.date ∧ (!x.attempted) = false
  · rw [if_pos h2] at hs
    have he := Except.ok.inj hs
    subst he
    refine ⟨m, h.skip (Or.inr (Or.inr (Or.inl ?_)))⟩
    have hxa : x.attempted = true := by simpa using h2.2
    obtain ⟨_, hlen, _⟩ := h.track.tried x hxl hxa
    have hne : attemptsOf x.order.id s.attempts ≠ [] := by
      intro e; rw [e] at hlen; simp at hlen
    obtain ⟨a, ha⟩ := List.exists_mem_of_ne_nil _ hne
    obtain ⟨ha1, ha2⟩ := List.mem_filter.1 ha
    have hai : a.order.id = x.order.id := by simpa using ha2
    have hao := (h.track.same a ha1 x hxl hai).1
    have hb := h.track.bound a ha1
    refine ⟨a, ha1, hao, ?_⟩
    rw [hao, h2.1] at hb
    exact le_antisymm hb.2.2.2.1 hb.2.2.1
  rw [if_neg h2] at hs
  by_cases h3 : env.hasBarOn x.order.symbol = false
  · rw [if_pos h3] at hs
    have he := Except.ok.inj hs
    subst he
    refine ⟨m, h.skip (Or.inr (Or.inl ?_))⟩
    intro hc
    rw [(hHB _).2 hc] at h3
    cases h3
  rw [if_neg h3] at hs
  have hb : HB x.order.symbol env.date := (hHB _).1 (by simpa using h3)
  have hexec : x.order.execDate ≤ env.date := not_lt.1 h1
  cases hxa : x.attempted with
  | false =>
    rw [hxa] at hs
    simp only [Bool.not_false, if_true] at hs
    refine h.attempt hxl (r := 0) rfl h.ref ?_ hexec hb ?_ (fun _ => rfl) (fun e => by
      rw [hxa] at e; cases e) hs
    · have e : m.update x.order.id (fun y => { y with retries := 0 }) =
          m.update x.order.id (fun y => y) :=
        PendingMap.update_congr h.track.ordered hxl (by
          have := (h.track.fresh x hxl hxa).1
          simp only [← this])
      rw [e]
      unfold PendingMap.update
      simp
    · intro a ha hai
      have : a ∈ attemptsOf x.order.id s.attempts := List.mem_filter.2 ⟨ha, by simpa using hai⟩
      rw [(h.track.fresh x hxl hxa).2] at this
      cases this
  | true =>
    rw [hxa] at hs
    simp only [Bool.not_true, Bool.false_eq_true, if_false] at hs
    obtain ⟨hpers, hlen, hlim⟩ := h.track.tried x hxl hxa
    have hlt : x.order.execDate < env.date := by
      rcases lt_or_eq_of_le hexec with h' | h'
      · exact h'
      · exact absurd ⟨h', by rw [hxa]; rfl⟩ h2
    have hnew : ∀ a ∈ s.attempts, a.order.id = x.order.id → a.date < env.date := by
      intro a ha hai
      have hao := (h.track.same a ha x hxl hai).1
      rcases lt_or_eq_of_le (h.track.bound a ha).2.2.2.1 with h' | h'
      · exact h'
      · rcases h.hist a ha h' with h4 | h4
        · rw [hao] at h4
          exact absurd h4 (ne_of_lt hlt)
        · exact absurd hai.symm (h4 x.order List.mem_cons_self)
    cases ht : x.order.timeout with
    | none =>
      unfold PendingOrder.persistent at hpers
      rw [ht] at hpers
      simp at hpers
    | some t =>
      rw [ht] at hs
      simp only at hs
      obtain ⟨_, href⟩ := h.ref.call h.track.ordered (.advanceRetry x.order.id)
        (fun id e => by cases e)
      simp only [PendingScope.call, PendingMap.call] at href
      have hup : m.update x.order.id (fun y => { y with retries := y.retries + 1 }) =
          m.update x.order.id (fun y => { y with retries := x.retries + 1 }) :=
        PendingMap.update_congr h.track.ordered hxl rfl
      rw [hup] at href
      have ho1 := h.track.ordered.update x.order.id
        (f := fun y => { y with retries := x.retries + 1 }) (fun _ => rfl)
      have hretry : (s.pend.advanceRetry x.order.id).retryBars x.order.id = x.retries + 1 := by
        unfold PendingScope.retryBars
        rw [href.retry, PendingMap.lookup_update
          (f := fun y => { y with retries := x.retries + 1 }) h.track.ordered x.order.id
          (fun _ => rfl),
          h.track.ordered.lookup_mem hxl]
        simp
      rw [hretry] at hs
      by_cases h4 : 0 ≤ t ∧ ((x.retries + 1 : Nat) : Int) > t
      · rw [if_pos h4] at hs
        have he := Except.ok.inj hs
        subst he
        have hrem := (href.remove ho1 x.order.id).2
        have hkeep : (m.update x.order.id (fun y => { y with retries := x.retries + 1 })).keep
            (fun o => o.id ≠ x.order.id) = m.keep (fun o => o.id ≠ x.order.id) := by
          unfold PendingMap.keep PendingMap.update
          simp only
          congr 1
          rw [List.filter_map]
          have hg : ∀ y : Live, (if y.order.id = x.order.id then
              { y with retries := x.retries + 1 } else y).order = y.order := by
            intro y; split <;> rfl
          have : (m.live.filter ((fun y : Live => decide (y.order.id ≠ x.order.id)) ∘
              (fun y => if y.order.id = x.order.id then { y with retries := x.retries + 1 }
                else y))) = m.live.filter (fun y => decide (y.order.id ≠ x.order.id)) := by
            apply List.filter_congr
            intro y _
            simp only [Function.comp, hg]
          rw [this]
          have h5 : ∀ y ∈ m.live.filter (fun y => decide (y.order.id ≠ x.order.id)),
              (if y.order.id = x.order.id then { y with retries := x.retries + 1 } else y) = y := by
            intro y hy
            have := (List.mem_filter.1 hy).2
            rw [if_neg (by simpa using this)]
          rw [List.map_congr_left h5]
          simp
        rw [hkeep] at hrem
        have hn := h.nodup
        rw [List.map_cons, List.nodup_cons] at hn
        have hne : ∀ q ∈ rem, q.id ≠ x.order.id := by
          intro q hq e
          exact hn.1 (List.mem_map.2 ⟨q, hq, e⟩)
        refine ⟨_, hrem, h.track.keep _, ?_, ?_, hn.2, ?_⟩
        · intro a ha e
          rcases h.hist a ha e with h5 | h5
          · exact Or.inl h5
          · exact Or.inr (fun q hq => h5 q (List.mem_cons_of_mem _ hq))
        · intro q hq
          obtain ⟨y, hy, rfl⟩ := h.todo q (List.mem_cons_of_mem _ hq)
          exact ⟨y, List.mem_filter.2 ⟨hy, by simpa using hne _ hq⟩, rfl⟩
        · intro q hq
          have hsub : ∀ y ∈ (m.keep (fun o => o.id ≠ x.order.id)).live,
              ∃ z ∈ m.live, z.order = y.order :=
            fun y hy => ⟨y, List.mem_of_mem_filter hy, rfl⟩
          rcases h.dealt q hq with h5 | h5
          · rcases List.mem_cons.1 h5 with rfl | h5
            · right; right; right; right
              refine ⟨t, ht, ?_, ?_⟩
              · have h6 := hlim t ht h4.1
                have h7 := h4.2
                rw [hlen]
                push_cast at h7 ⊢
                omega
              · intro y hy
                simpa using (List.mem_filter.1 hy).2
            · exact Or.inl h5
          · right
            rcases h5 with h6 | h6 | h6 | ⟨t', h6, h7, h8⟩
            · exact Or.inl h6
            · exact Or.inr (Or.inl h6)
            · exact Or.inr (Or.inr (Or.inl h6))
            · exact Or.inr (Or.inr (Or.inr ⟨t', h6, h7,
                fun y hy => h8 y (List.mem_of_mem_filter hy)⟩))
      · rw [if_neg h4] at hs
        refine h.attempt (s0 := { s with pend := s.pend.advanceRetry x.order.id }) hxl
          (r := x.retries + 1) rfl href rfl hexec hb hnew (fun e => by rw [hxa] at e; cases e)
          (fun _ => ⟨rfl, ?_⟩) hs
        intro t' ht' h0
        rw [ht] at ht'
        have := Option.some.inj ht'
        subst this
        by_contra hc
        exact h4 ⟨h0, by push_cast at hc ⊢; omega⟩

theorem foldPersisting {HB : Sym → Date → Prop} {cfg : Config} {env : BarEnv}
    (hHB : ∀ sym, env.hasBarOn sym = true ↔ HB sym env.date) {start : List PendingOrder} :
    ∀ {l : List PendingOrder} {s s' : Loop} {m : PendingMap},
      Persisting HB env.date start l s m → foldB (processOne cfg env) s l = .ok s' →
      ∃ m', Persisting HB env.date start [] s' m' := by
  intro l
  induction l with
  | nil =>
    intro s s' m h hs
    have he := Except.ok.inj hs
    subst he
    exact ⟨m, h⟩
  | cons p l ih =>
    intro s s' m h hs
    unfold foldB at hs
    split at hs
    · cases hs
    · rename_i s1 h1
      obtain ⟨m1, hm1⟩ := processOne_persisting hHB h h1
      exact ih hm1 hs

end PyBroker
