import Verif.Cache.Layered
import Mathlib.Order.Basic
import Mathlib.Tactic.FinCases

/-!
# C59: the in-memory layer never changes what is read

Stated against a cache without an in-process map: a map on disk, with reads of a
dataclass key falling back to the string form older versions used.
-/

namespace PyBroker

namespace Spec

variable {κ σ V : Type} [DecidableEq κ] [DecidableEq σ]

/-- Reading from the disk alone: the value under the key, else (for a dataclass key) the
value under its string form. -/
def diskRead (repr : κ → σ) (d : CKey κ σ → Option (Option V)) : CKey κ σ → Option V
  | .text s => (d (.text s)).join
  | .obj k => ((d (.obj k)).join).orElse fun _ => (d (.text (repr k))).join

/-- Keys removed together with a key: itself and its older string form. -/
def sameEntry (repr : κ → σ) (k x : CKey κ σ) : Prop :=
  x = k ∨ ∃ a, k = .obj a ∧ x = .text (repr a)

instance (repr : κ → σ) (k x : CKey κ σ) : Decidable (sameEntry repr k x) :=
  match k with
  | .text s => if h : x = .text s then .isTrue (.inl h)
      else .isFalse (by rintro (h' | ⟨a, ha, _⟩); exacts [h h', by cases ha])
  | .obj a => if h : x = .obj a ∨ x = .text (repr a)
      then .isTrue (h.elim .inl fun h => .inr ⟨a, rfl, h⟩)
      else .isFalse (by
        rintro (h' | ⟨b, hb, hx⟩)
        · exact h (.inl h')
        · cases hb; exact h (.inr hx))

/-- One call on a cache that is only the disk. -/
def diskStep (repr : κ → σ) (d : CKey κ σ → Option (Option V)) : COp κ σ V →
    CRes V × (CKey κ σ → Option (Option V))
  | .get k => (.value (diskRead repr d k), d)
  | .set k v .stored => (.flag true, fun x => if x = k then some v else d x)
  | .set _ _ .refused => (.flag false, d)
  | .set _ _ .raised => (.raised, d)
  | .delete k => (.flag (d k).isSome, fun x => if sameEntry repr k x then none else d x)
  | .pop k => (.value (d k).join, fun x => if sameEntry repr k x then none else d x)
  | .delitem k =>
    if (d k).isSome then (.nothing, fun x => if sameEntry repr k x then none else d x)
    else (.keyError, d)
  | .clear => (.nothing, fun _ => none)
  | .cull k => (.nothing, fun x => if x = k then none else d x)

/-- A sequence of calls on the disk alone. -/
def diskRun (repr : κ → σ) : (CKey κ σ → Option (Option V)) → List (COp κ σ V) →
    List (CRes V) × (CKey κ σ → Option (Option V))
  | d, [] => ([], d)
  | d, op :: ops =>
    let r := diskStep repr d op
    let rest := diskRun repr r.2 ops
    (r.1 :: rest.1, rest.2)

/-- Calls that write or remove by a dataclass key, as the library does, and store actual
values.  Reads may use either form; the disk loses nothing by itself. -/
def Plain : COp κ σ V → Prop
  | .set (.obj _) v _ => v ≠ none
  | .delete (.obj _) | .pop (.obj _) | .delitem (.obj _) => True
  | .get _ | .clear => True
  | _ => False

/-- As `Plain`, but `None` may be stored and the disk may drop entries at any time. -/
def Lossy : COp κ σ V → Prop
  | .set (.obj _) _ _ => True
  | .delete (.obj _) | .pop (.obj _) | .delitem (.obj _) => True
  | .get _ | .clear | .cull _ => True
  | _ => False

/-- What was last stored under a key and not removed since: no entry is ever lost.  A
removal by `del` is counted for the key itself only. -/
def stored (repr : κ → σ) (d : CKey κ σ → Option (Option V)) : List (COp κ σ V) →
    CKey κ σ → Option (Option V)
  | [], x => d x
  | .set k v .stored :: ops, x => stored repr (fun y => if y = k then some v else d y) ops x
  | .delete k :: ops, x | .pop k :: ops, x =>
    stored repr (fun y => if sameEntry repr k y then none else d y) ops x
  | .delitem k :: ops, x => stored repr (fun y => if y = k then none else d y) ops x
  | .clear :: ops, x => stored repr (fun _ => none) ops x
  | _ :: ops, x => stored repr d ops x

end Spec

section
variable {κ σ V : Type} [DecidableEq κ] [DecidableEq σ]

theorem mem_l1Drop {l : L1 κ σ V} {k : CKey κ σ} {e : CKey κ σ × Option V} :
    e ∈ l1Drop l k ↔ e ∈ l ∧ e.1 ≠ k := by
  simp [l1Drop]

theorem mem_l1Put {cap : Nat} {l : L1 κ σ V} {k : CKey κ σ} {v : Option V}
    {e : CKey κ σ × Option V} (h : e ∈ l1Put cap l k v) : e = (k, v) ∨ (e ∈ l ∧ e.1 ≠ k) := by
  have := List.mem_of_mem_drop h
  simp only [List.mem_append, List.mem_singleton, mem_l1Drop] at this
  tauto

theorem mem_l1Evict {repr : κ → σ} {l : L1 κ σ V} {k : CKey κ σ} {e : CKey κ σ × Option V}
    (h : e ∈ l1Evict repr l k) : e ∈ l ∧ ¬ Spec.sameEntry repr k e.1 := by
  cases k with
  | text s =>
    simp only [l1Evict, legacyKey, mem_l1Drop] at h
    refine ⟨h.1, ?_⟩
    rintro (h' | ⟨a, ha, _⟩)
    · exact h.2 h'
    · cases ha
  | obj a =>
    simp only [l1Evict, legacyKey, mem_l1Drop] at h
    refine ⟨h.1.1, ?_⟩
    rintro (h' | ⟨b, hb, hx⟩)
    · exact h.1.2 h'
    · cases hb; exact h.2 hx

theorem l1Find_mem {l : L1 κ σ V} {k : CKey κ σ} {v : Option V} (h : l1Find l k = some v) :
    (k, v) ∈ l := by
  simp only [l1Find, Option.map_eq_some_iff] at h
  obtain ⟨e, he, rfl⟩ := h
  have h1 := List.mem_of_find?_eq_some he
  have h2 := List.find?_some he
  simp only [decide_eq_true_eq] at h2
  rw [← h2]; exact h1

theorem l1Get_mem {l : L1 κ σ V} {k : CKey κ σ} {e : CKey κ σ × Option V}
    (h : e ∈ (l1Get l k).2) : e ∈ l := by
  unfold l1Get at h
  split at h
  · exact h
  · rename_i v hv
    simp only [List.mem_append, List.mem_singleton, mem_l1Drop] at h
    rcases h with h | h
    · exact h.1
    · rw [h]; exact l1Find_mem hv

theorem l1Get_some {l : L1 κ σ V} {k : CKey κ σ} {v : Option V}
    (h : (l1Get l k).1 = some v) : (k, v) ∈ l := by
  unfold l1Get at h
  split at h
  · cases h
  · rename_i w hw
    cases h
    exact l1Find_mem hw

/-- Every cached value satisfies `P` before and after a read, and so does the result. -/
theorem get_keeps {repr : κ → σ} {cap : Nat} {c : LCache κ σ V} {k : CKey κ σ}
    (P : CKey κ σ → Option V → Prop) (hl : ∀ e ∈ c.l1, P e.1 e.2)
    (hown : ∀ x, (c.disk k).join = some x → P k (some x))
    (hnone : (c.disk k).join = none → k.casesOn (fun _ => True) (fun _ => P k none))
    (hleg : ∀ a, k = .obj a → (c.disk k).join = none →
      (∀ v, P (.text (repr a)) v → P k v) ∧ P k (c.disk (.text (repr a))).join) :
    P k (c.get repr cap k).1 ∧ (∀ e ∈ (c.get repr cap k).2.l1, P e.1 e.2) ∧
      (c.get repr cap k).2.disk = c.disk := by
  unfold LCache.get
  rcases hg : l1Get c.l1 k with ⟨_ | v, l⟩
  · have hsub : ∀ e ∈ l, P e.1 e.2 := fun e he => hl e (l1Get_mem (k := k) (by rw [hg]; exact he))
    simp only
    rcases hd : (c.disk k).join with _ | x
    · cases k with
      | text s =>
        simp only [legacyKey]
        exact ⟨hnone hd, hsub, by trivial⟩
      | obj a =>
        obtain ⟨h1, h2⟩ := hleg a rfl hd
        simp only [legacyKey]
        rcases hg2 : l1Get l (.text (repr a)) with ⟨_ | v, l2⟩
        · have hsub2 : ∀ e ∈ l2, P e.1 e.2 :=
            fun e he => hsub e (l1Get_mem (k := .text (repr a)) (by rw [hg2]; exact he))
          simp only
          rcases hx : (c.disk (.text (repr a))).join with _ | x
          · rw [hx] at h2
            exact ⟨h2, hsub2, rfl⟩
          · rw [hx] at h2
            refine ⟨h2, ?_, rfl⟩
            intro e he
            rcases mem_l1Put he with rfl | h
            · exact h2
            · exact hsub2 e h.1
        · have hsub2 : ∀ e ∈ l2, P e.1 e.2 :=
            fun e he => hsub e (l1Get_mem (k := .text (repr a)) (by rw [hg2]; exact he))
          have hv : P (.obj a) v := h1 v (hsub _ (l1Get_some (by rw [hg2])))
          refine ⟨hv, ?_, rfl⟩
          intro e he
          rcases mem_l1Put he with rfl | h
          · exact hv
          · exact hsub2 e h.1
    · refine ⟨hown x hd, ?_, rfl⟩
      intro e he
      rcases mem_l1Put he with rfl | h
      · exact hown x hd
      · exact hsub e h.1
  · refine ⟨hl _ (l1Get_some (by rw [hg])), ?_, rfl⟩
    intro e he
    exact hl e (l1Get_mem (k := k) (by rw [hg]; exact he))

/-- Removing a key and its legacy form, as one function update. -/
theorem delLegacy_del (repr : κ → σ) (d : Disk κ σ V) (k : CKey κ σ) :
    delLegacy repr (d.del k) k = fun x => if Spec.sameEntry repr k x then none else d x := by
  funext x
  cases k with
  | text s =>
    simp only [delLegacy, legacyKey, Disk.del]
    refine if_congr ⟨fun h => .inl h, ?_⟩ rfl rfl
    rintro (h | ⟨a, ha, _⟩)
    · exact h
    · cases ha
  | obj a =>
    simp only [delLegacy, legacyKey, Disk.del]
    by_cases h : Spec.sameEntry repr (.obj a) x
    · rw [if_pos h]
      rcases h with h | ⟨b, hb, h⟩
      · split
        · rfl
        · rfl
      · cases hb; rw [if_pos h]
    · rw [if_neg h, if_neg (fun h' => h (.inr ⟨a, rfl, h'⟩)), if_neg (fun h' => h (.inl h'))]

/-- Invariant of the layered cache against the disk alone. -/
def L1Ok (repr : κ → σ) (c : LCache κ σ V) : Prop :=
  ∀ e ∈ c.l1, e.2 ≠ none ∧ Spec.diskRead repr c.disk e.1 = e.2

theorem diskRead_same {repr : κ → σ} (hinj : Function.Injective repr) {d : Disk κ σ V}
    {k x : CKey κ σ} {a : κ} (hk : k = .obj a) (hx : ¬ Spec.sameEntry repr k x) :
    Spec.diskRead repr (fun y => if Spec.sameEntry repr k y then none else d y) x =
      Spec.diskRead repr d x := by
  subst hk
  cases x with
  | text s => simp only [Spec.diskRead, if_neg hx]
  | obj b =>
    have hab : b ≠ a := fun h => hx (.inl (by rw [h]))
    have h2 : ¬ Spec.sameEntry repr (.obj a) (CKey.text (repr b)) := by
      rintro (h | ⟨a', ha', h⟩)
      · cases h
      · cases ha'; simp only [CKey.text.injEq] at h; exact hab (hinj h)
    simp only [Spec.diskRead, if_neg hx, if_neg h2]

theorem diskRead_set {repr : κ → σ} {d : Disk κ σ V} {x : CKey κ σ} {a : κ} {v : Option V}
    (hx : x ≠ .obj a) :
    Spec.diskRead repr (fun y => if y = .obj a then some v else d y) x =
      Spec.diskRead repr d x := by
  cases x with
  | text s => simp [Spec.diskRead]
  | obj b => simp [Spec.diskRead, hx]

/-- One call: same result, same disk, invariant kept. -/
theorem step_plain {repr : κ → σ} (hinj : Function.Injective repr) {cap : Nat}
    {c : LCache κ σ V} (hc : L1Ok repr c) {op : COp κ σ V} (hop : Spec.Plain op) :
    (c.step repr cap op).1 = (Spec.diskStep repr c.disk op).1 ∧
    (c.step repr cap op).2.disk = (Spec.diskStep repr c.disk op).2 ∧
    L1Ok repr (c.step repr cap op).2 := by
  have hev : ∀ a, L1Ok repr ⟨l1Evict repr c.l1 (.obj a),
      fun x => if Spec.sameEntry repr (.obj a) x then none else c.disk x⟩ := by
    intro a e he
    change e ∈ l1Evict repr c.l1 (.obj a) at he
    obtain ⟨h1, h2⟩ := mem_l1Evict he
    refine ⟨(hc e h1).1, ?_⟩
    simp only
    rw [diskRead_same hinj rfl h2]
    exact (hc e h1).2
  have hev' : ∀ k, L1Ok repr ⟨l1Evict repr c.l1 k, c.disk⟩ := by
    intro k e he
    exact hc e (mem_l1Evict he).1
  cases op with
  | get k =>
    obtain ⟨h1, h2, h3⟩ := get_keeps (repr := repr) (cap := cap) (c := c) (k := k)
      (fun x v => v = none ∧ x = k ∧ Spec.diskRead repr c.disk x = none ∨
        v ≠ none ∧ Spec.diskRead repr c.disk x = v)
      (fun e he => .inr (hc e he))
      (fun x hx => .inr ⟨by simp, by cases k <;> simp [Spec.diskRead, hx]⟩)
      (by
        intro h
        cases k with
        | obj a => trivial
        | text s => exact .inl ⟨rfl, rfl, by simp [Spec.diskRead, h]⟩)
      (by
        intro a ha h
        subst ha
        constructor
        · rintro v (⟨_, h', _⟩ | ⟨hv, h'⟩)
          · cases h'
          · refine .inr ⟨hv, ?_⟩
            simp only [Spec.diskRead] at h' ⊢
            simp [h, h']
        · rcases hx : (c.disk (.text (repr a))).join with _ | x
          · exact .inl ⟨rfl, rfl, by simp [Spec.diskRead, h, hx]⟩
          · exact .inr ⟨by simp, by simp [Spec.diskRead, h, hx]⟩)
    refine ⟨?_, h3, ?_⟩
    · simp only [LCache.step, Spec.diskStep]
      congr 1
      rcases h1 with ⟨h, _, h'⟩ | ⟨_, h⟩
      · rw [h, h']
      · exact h.symm
    · -- entries are never `None`
      intro e he
      obtain ⟨q1, q2, q3⟩ := get_keeps (repr := repr) (cap := cap) (c := c) (k := k)
        (fun x v => Spec.diskRead repr c.disk x = v)
        (fun e he => (hc e he).2)
        (fun x hx => by cases k <;> simp [Spec.diskRead, hx])
        (by
          intro h
          cases k with
          | obj a => trivial
          | text s => simp [Spec.diskRead, h])
        (by
          intro a ha h
          subst ha
          constructor
          · intro v h'
            simp only [Spec.diskRead] at h' ⊢
            simp [h, h']
          · simp [Spec.diskRead, h])
      have hq := q2 e he
      refine ⟨?_, by simp only [LCache.step]; rw [h3]; exact hq⟩
      -- a `None` would have to come from somewhere
      have hnn : ∀ e ∈ (c.get repr cap k).2.l1, e.2 ≠ none := by
        have hc' : ∀ e ∈ c.l1, e.2 ≠ none := fun e he => (hc e he).1
        unfold LCache.get
        rcases hg : l1Get c.l1 k with ⟨_ | v, l⟩
        · have hsub : ∀ e ∈ l, e.2 ≠ none :=
            fun e he => hc' e (l1Get_mem (k := k) (by rw [hg]; exact he))
          simp only
          have hput : ∀ (l : L1 κ σ V) x, (∀ e ∈ l, e.2 ≠ none) →
              ∀ e ∈ l1Put cap l k (some x), e.2 ≠ none := by
            intro l x hl e he
            rcases mem_l1Put he with rfl | h
            · simp
            · exact hl e h.1
          rcases hd : (c.disk k).join with _ | x
          · rcases hk : legacyKey repr k with _ | lk
            · exact hsub
            · simp only
              rcases hg2 : l1Get l lk with ⟨_ | v, l2⟩
              · have hsub2 : ∀ e ∈ l2, e.2 ≠ none :=
                  fun e he => hsub e (l1Get_mem (k := lk) (by rw [hg2]; exact he))
                simp only
                rcases hx : (c.disk lk).join with _ | x
                · exact hsub2
                · exact hput l2 x hsub2
              · have hsub2 : ∀ e ∈ l2, e.2 ≠ none :=
                  fun e he => hsub e (l1Get_mem (k := lk) (by rw [hg2]; exact he))
                have hv : v ≠ none := hsub (lk, v) (l1Get_some (by rw [hg2]))
                intro e he
                rcases mem_l1Put he with rfl | h
                · exact hv
                · exact hsub2 e h.1
          · exact hput l x hsub
        · intro e he
          exact hc' e (l1Get_mem (k := k) (by rw [hg]; exact he))
      exact hnn e he
  | set k v r =>
    cases k with
    | text s => cases hop
    | obj a =>
      cases r with
      | stored =>
        refine ⟨rfl, rfl, ?_⟩
        intro e he
        have hdisk : (LCache.step repr cap c (COp.set (CKey.obj a) v SetRes.stored)).2.disk =
          fun y => if y = .obj a then some v else c.disk y := rfl
        rw [hdisk]
        rcases mem_l1Put he with rfl | ⟨h1, h2⟩
        · refine ⟨hop, ?_⟩
          rcases v with _ | x
          · exact absurd rfl hop
          · simp [Spec.diskRead]
        · refine ⟨(hc e h1).1, ?_⟩
          rw [diskRead_set h2]
          exact (hc e h1).2
      | refused => exact ⟨rfl, rfl, hev' _⟩
      | raised => exact ⟨rfl, rfl, hev' _⟩
  | delete k =>
    cases k with
    | text s => cases hop
    | obj a =>
      simp only [LCache.step, LCache.delete, Spec.diskStep, delLegacy_del]
      exact ⟨trivial, trivial, hev a⟩
  | pop k =>
    cases k with
    | text s => cases hop
    | obj a =>
      simp only [LCache.step, LCache.pop, Spec.diskStep, delLegacy_del]
      exact ⟨trivial, trivial, hev a⟩
  | delitem k =>
    cases k with
    | text s => cases hop
    | obj a =>
      simp only [LCache.step, LCache.delitem, Spec.diskStep, delLegacy_del]
      rcases hd : c.disk (.obj a) with _ | x
      · exact ⟨rfl, rfl, hev' _⟩
      · exact ⟨rfl, rfl, hev a⟩
  | clear =>
    refine ⟨rfl, rfl, ?_⟩
    intro e he
    cases he
  | cull k => cases hop

/-- **C59.** For every sequence of reads, writes, removals and clears with dataclass keys
(as the library makes them), every capacity of the in-process map and every initial
content of the disk, the layered cache gives the results the disk alone would give, and
leaves the same disk.  `repr` of different keys differ. -/
theorem cache_transparent (repr : κ → σ) (hinj : Function.Injective repr) (cap : Nat)
    (disk : CKey κ σ → Option (Option V)) (ops : List (COp κ σ V))
    (hops : ∀ op ∈ ops, Spec.Plain op) :
    (LCache.run repr cap ⟨[], disk⟩ ops).1 = (Spec.diskRun repr disk ops).1 ∧
    (LCache.run repr cap ⟨[], disk⟩ ops).2.disk = (Spec.diskRun repr disk ops).2 := by
  have gen : ∀ (ops : List (COp κ σ V)) (c : LCache κ σ V), L1Ok repr c →
      (∀ op ∈ ops, Spec.Plain op) →
      (LCache.run repr cap c ops).1 = (Spec.diskRun repr c.disk ops).1 ∧
      (LCache.run repr cap c ops).2.disk = (Spec.diskRun repr c.disk ops).2 := by
    intro ops
    induction ops with
    | nil => intro c _ _; exact ⟨rfl, rfl⟩
    | cons op ops ih =>
      intro c hc h
      obtain ⟨h1, h2, h3⟩ := step_plain hinj (cap := cap) hc (h op (by simp))
      obtain ⟨i1, i2⟩ := ih _ h3 (fun o ho => h o (by simp [ho]))
      simp only [LCache.run, Spec.diskRun]
      rw [h2] at i1 i2
      exact ⟨by rw [h1, i1], i2⟩
  exact gen ops ⟨[], disk⟩ (fun e he => by cases he) hops

/-- Invariant when the disk may lose entries: nothing on disk or in memory is older than
what was last stored. -/
def LossyOk (repr : κ → σ) (d : CKey κ σ → Option (Option V)) (c : LCache κ σ V) : Prop :=
  (∀ x v, c.disk x = some v → d x = some v) ∧
  ∀ e ∈ c.l1, e.2 = none ∨ e.2 = (d e.1).join ∨
    ∃ a, e.1 = .obj a ∧ e.2 = (d (.text (repr a))).join

/-- **C59.** When the disk cache may drop entries at any moment (size limit, expiry), a
read still only answers nothing, or the value last stored under that key and not removed
since, or the one under its older string form. -/
theorem cache_fresh (repr : κ → σ) (hinj : Function.Injective repr) (cap : Nat)
    (disk : CKey κ σ → Option (Option V)) (ops : List (COp κ σ V))
    (hops : ∀ op ∈ ops, Spec.Lossy op) (k : CKey κ σ) :
    let answer := ((LCache.run repr cap ⟨[], disk⟩ ops).2.get repr cap k).1
    answer = none ∨ answer = (Spec.stored repr disk ops k).join ∨
      ∃ a, k = .obj a ∧ answer = (Spec.stored repr disk ops (.text (repr a))).join := by
  -- reads under the invariant
  have hget : ∀ (d : CKey κ σ → Option (Option V)) (c : LCache κ σ V) (k : CKey κ σ),
      LossyOk repr d c →
      (((c.get repr cap k).1 = none ∨ (c.get repr cap k).1 = (d k).join ∨
        ∃ a, k = .obj a ∧ (c.get repr cap k).1 = (d (.text (repr a))).join) ∧
      LossyOk repr d (c.get repr cap k).2) := by
    intro d c k hc
    have hjoin : ∀ x v, (c.disk x).join = some v → (d x).join = some v := by
      intro x v h
      rcases hx : c.disk x with _ | w
      · rw [hx] at h; cases h
      · rw [hx] at h; rw [hc.1 x w hx]; exact h
    obtain ⟨h1, h2, h3⟩ := get_keeps (repr := repr) (cap := cap) (c := c) (k := k)
      (fun x v => v = none ∨ v = (d x).join ∨ ∃ a, x = .obj a ∧ v = (d (.text (repr a))).join)
      hc.2
      (fun x hx => .inr (.inl (hjoin k x hx).symm))
      (by
        intro h
        cases k with
        | obj a => trivial
        | text s => exact .inl rfl)
      (by
        intro a ha h
        subst ha
        constructor
        · rintro v (hv | hv | ⟨b, hb, _⟩)
          · exact .inl hv
          · exact .inr (.inr ⟨a, rfl, hv⟩)
          · cases hb
        · rcases hx : (c.disk (.text (repr a))).join with _ | x
          · exact .inl rfl
          · exact .inr (.inr ⟨a, rfl, (hjoin _ _ hx).symm⟩))
    exact ⟨h1, by rw [LossyOk, h3]; exact ⟨hc.1, h2⟩⟩
  -- removal of a key
  have hdel : ∀ (d : CKey κ σ → Option (Option V)) (c : LCache κ σ V) (a : κ),
      LossyOk repr d c →
      LossyOk repr (fun y => if Spec.sameEntry repr (.obj a) y then none else d y)
        ⟨l1Evict repr c.l1 (.obj a), delLegacy repr (c.disk.del (.obj a)) (.obj a)⟩ := by
    intro d c a hc
    constructor
    · intro x v hv
      simp only [delLegacy_del] at hv
      by_cases hx : Spec.sameEntry repr (.obj a) x
      · rw [if_pos hx] at hv; cases hv
      · rw [if_neg hx] at hv; simp only [if_neg hx]; exact hc.1 x v hv
    · intro e he
      change e ∈ l1Evict repr c.l1 (.obj a) at he
      obtain ⟨h1, h2⟩ := mem_l1Evict he
      rcases hc.2 e h1 with h | h | ⟨b, hb, h⟩
      · exact .inl h
      · refine .inr (.inl ?_); simp only [if_neg h2]; exact h
      · refine .inr (.inr ⟨b, hb, ?_⟩)
        have : ¬ Spec.sameEntry repr (.obj a) (CKey.text (repr b)) := by
          rintro (h' | ⟨a', ha', h'⟩)
          · cases h'
          · cases ha'
            simp only [CKey.text.injEq] at h'
            exact h2 (.inl (by rw [hb, hinj h']))
        simp only [if_neg this]; exact h
  have gen : ∀ (ops : List (COp κ σ V)) (d : CKey κ σ → Option (Option V)) (c : LCache κ σ V),
      LossyOk repr d c → (∀ op ∈ ops, Spec.Lossy op) →
      LossyOk repr (Spec.stored repr d ops) (LCache.run repr cap c ops).2 := by
    intro ops
    induction ops with
    | nil => intro d c hc _; exact hc
    | cons op ops ih =>
      intro d c hc h
      have hop := h op (by simp)
      have ih' := fun d c hc => ih d c hc (fun o ho => h o (by simp [ho]))
      have hev : ∀ k, LossyOk repr d ⟨l1Evict repr c.l1 k, c.disk⟩ :=
        fun k => ⟨hc.1, fun e he => hc.2 e (mem_l1Evict he).1⟩
      cases op with
      | get k => exact ih' d _ (hget d c k hc).2
      | set k v r =>
        cases k with
        | text s => cases hop
        | obj a =>
          cases r with
          | stored =>
            refine ih' _ _ ⟨?_, ?_⟩
            · intro x w hw
              change (if x = .obj a then some v else c.disk x) = some w at hw
              by_cases hx : x = .obj a
              · rw [if_pos hx] at hw; simp only [if_pos hx]; exact hw
              · rw [if_neg hx] at hw; simp only [if_neg hx]; exact hc.1 x w hw
            · intro e he
              rcases mem_l1Put he with rfl | ⟨h1, h2⟩
              · refine .inr (.inl ?_); simp
              · rcases hc.2 e h1 with h | h | ⟨b, hb, h⟩
                · exact .inl h
                · refine .inr (.inl ?_); simp only [if_neg h2]; exact h
                · refine .inr (.inr ⟨b, hb, ?_⟩); simp only [reduceCtorEq, if_false]; exact h
          | refused => exact ih' d _ (hev _)
          | raised => exact ih' d _ (hev _)
      | delete k =>
        cases k with
        | text s => cases hop
        | obj a => exact ih' _ _ (hdel d c a hc)
      | pop k =>
        cases k with
        | text s => cases hop
        | obj a => exact ih' _ _ (hdel d c a hc)
      | delitem k =>
        cases k with
        | text s => cases hop
        | obj a =>
          refine ih' _ _ ?_
          -- only the key itself is surely gone
          have base : ∀ disk', (∀ x v, disk' x = some v → c.disk x = some v ∧ x ≠ .obj a) →
              LossyOk repr (fun y => if y = .obj a then none else d y)
                ⟨l1Evict repr c.l1 (.obj a), disk'⟩ := by
            intro disk' hd'
            constructor
            · intro x v hv
              obtain ⟨q1, q2⟩ := hd' x v hv
              simp only [if_neg q2]; exact hc.1 x v q1
            · intro e he
              change e ∈ l1Evict repr c.l1 (.obj a) at he
              obtain ⟨h1, h2⟩ := mem_l1Evict he
              have h3 : e.1 ≠ .obj a := fun h' => h2 (.inl h')
              rcases hc.2 e h1 with h | h | ⟨b, hb, h⟩
              · exact .inl h
              · refine .inr (.inl ?_); simp only [if_neg h3]; exact h
              · refine .inr (.inr ⟨b, hb, ?_⟩); simp only [reduceCtorEq, if_false]; exact h
          simp only [LCache.step, LCache.delitem]
          rcases hd : c.disk (.obj a) with _ | w
          · refine base _ (fun x v hv => ⟨hv, ?_⟩)
            rintro rfl
            rw [hd] at hv; cases hv
          · refine base _ (fun x v hv => ?_)
            rw [delLegacy_del] at hv
            by_cases hx : Spec.sameEntry repr (.obj a) x
            · simp only [if_pos hx] at hv; cases hv
            · simp only [if_neg hx] at hv
              exact ⟨hv, fun h' => hx (.inl h')⟩
      | clear =>
        refine ih' _ _ ⟨?_, ?_⟩
        · intro x v hv; cases hv
        · intro e he; cases he
      | cull k =>
        refine ih' d _ ⟨?_, hc.2⟩
        intro x v hv
        change (if x = k then none else c.disk x) = some v at hv
        split at hv
        · cases hv
        · exact hc.1 x v hv
  have hinit : LossyOk repr disk (⟨[], disk⟩ : LCache κ σ V) :=
    ⟨fun x v h => h, fun e he => by cases he⟩
  exact (hget _ _ k (gen ops disk _ hinit hops)).1

/-- **C59.** The in-process map never holds more than its capacity, and a capacity of
zero holds nothing. -/
theorem l1_bounded (repr : κ → σ) (cap : Nat) (disk : CKey κ σ → Option (Option V))
    (ops : List (COp κ σ V)) : (LCache.run repr cap ⟨[], disk⟩ ops).2.l1.length ≤ cap := by
  have hput : ∀ (l : L1 κ σ V) k v, (l1Put cap l k v).length ≤ cap := by
    intro l k v
    simp only [l1Put, List.length_drop]
    omega
  have hdrop : ∀ (l : L1 κ σ V) k, (l1Drop l k).length ≤ l.length := fun l k =>
    List.length_filter_le _ _
  have hev : ∀ (l : L1 κ σ V) k, (l1Evict repr l k).length ≤ l.length := by
    intro l k
    unfold l1Evict
    split
    · exact hdrop _ _
    · exact (hdrop _ _).trans (hdrop _ _)
  have hlt : ∀ (l : L1 κ σ V) k v, (k, v) ∈ l → (l1Drop l k).length < l.length := by
    intro l k v h
    induction l with
    | nil => cases h
    | cons e l ih =>
      simp only [l1Drop, List.filter_cons]
      by_cases he : e.1 = k
      · simp only [ne_eq, he, not_true, decide_false]
        have := hdrop l k
        simp only [l1Drop] at this
        simp only [Bool.false_eq_true, if_false, List.length_cons]
        exact Nat.lt_succ_of_le this
      · rw [if_pos (by simpa using he)]
        rcases List.mem_cons.mp h with h | h
        · exact absurd (by rw [← h]) he
        · have := ih h
          simp only [l1Drop] at this
          simp only [List.length_cons]
          omega
  have hgl : ∀ (l : L1 κ σ V) k, (l1Get l k).2.length ≤ l.length := by
    intro l k
    unfold l1Get
    split
    · exact Nat.le_refl _
    · rename_i v hv
      have := hlt l k v (l1Find_mem hv)
      simp only [List.length_append, List.length_singleton]
      omega
  have hget : ∀ (c : LCache κ σ V) k, c.l1.length ≤ cap →
      (c.get repr cap k).2.l1.length ≤ cap := by
    intro c k hc
    unfold LCache.get
    have h1 := hgl c.l1 k
    rcases hg : l1Get c.l1 k with ⟨_ | v, l⟩
    · rw [hg] at h1
      simp only at h1 ⊢
      rcases (c.disk k).join with _ | x
      · rcases legacyKey repr k with _ | lk
        · exact h1.trans hc
        · simp only
          have h2 := hgl l lk
          rcases hg2 : l1Get l lk with ⟨_ | v, l2⟩
          · rw [hg2] at h2
            simp only at h2 ⊢
            rcases (c.disk lk).join with _ | x
            · exact h2.trans (h1.trans hc)
            · exact hput _ _ _
          · exact hput _ _ _
      · exact hput _ _ _
    · rw [hg] at h1
      exact h1.trans hc
  have gen : ∀ (ops : List (COp κ σ V)) (c : LCache κ σ V), c.l1.length ≤ cap →
      (LCache.run repr cap c ops).2.l1.length ≤ cap := by
    intro ops
    induction ops with
    | nil => intro c hc; exact hc
    | cons op ops ih =>
      intro c hc
      refine ih _ ?_
      cases op with
      | get k => exact hget c k hc
      | set k v r =>
        cases r with
        | stored => exact hput _ _ _
        | refused => exact (hev _ _).trans hc
        | raised => exact (hev _ _).trans hc
      | delete k => exact (hev _ _).trans hc
      | pop k => exact (hev _ _).trans hc
      | delitem k =>
        simp only [LCache.step, LCache.delitem]
        split
        · exact (hev _ _).trans hc
        · exact (hev _ _).trans hc
      | clear => exact Nat.zero_le _
      | cull k => exact hc
  exact gen ops _ (Nat.zero_le _)

end

/-! Non-vacuity, and where the claim stops. -/

section
open COp CKey

/-- A disk holding the value `7` under the string form of key `1` only. -/
def legacyDisk : CKey Nat String → Option (Option Nat) :=
  fun x => if x = text "1" then some (some 7) else none

/-- Reads through the legacy form, a write, eviction by a capacity of one, removal. -/
example :
    let ops : List (COp Nat String Nat) :=
      [get (obj 1), set (obj 2) (some 5) .stored, get (obj 1), set (obj 1) (some 9) .stored,
       get (text "1"), get (obj 1), delete (obj 1), get (obj 1), pop (obj 2), delitem (obj 2)]
    (∀ op ∈ ops, Spec.Plain op) ∧
    (LCache.run toString 1 ⟨[], legacyDisk⟩ ops).1 =
      [.value (some 7), .flag true, .value (some 7), .flag true, .value (some 7),
       .value (some 9), .flag true, .value none, .value (some 5), .keyError] ∧
    (Spec.diskRun toString legacyDisk ops).1 = (LCache.run toString 1 ⟨[], legacyDisk⟩ ops).1 := by
  refine ⟨?_, by decide +kernel, by decide +kernel⟩
  intro op h
  fin_cases h <;> simp [Spec.Plain]

/-- Outside the claim: a write or a removal by the string form is not seen by later reads
of the dataclass key, which the in-process map still answers. -/
theorem text_write_stale :
    let ops : List (COp Nat String Nat) :=
      [get (obj 1), set (text "1") (some 8) .stored, get (obj 1), delete (text "1"), get (obj 1)]
    (LCache.run toString 4 ⟨[], legacyDisk⟩ ops).1 =
      [.value (some 7), .flag true, .value (some 7), .flag true, .value (some 7)] ∧
    (Spec.diskRun toString legacyDisk ops).1 =
      [.value (some 7), .flag true, .value (some 8), .flag true, .value none] := by
  decide +kernel

/-- Outside the claim: a stored `None` hides the older entry in memory but not on disk. -/
theorem none_write_masks :
    let ops : List (COp Nat String Nat) := [set (obj 1) none .stored, get (obj 1)]
    (LCache.run toString 4 ⟨[], legacyDisk⟩ ops).1 = [.flag true, .value none] ∧
    (Spec.diskRun toString legacyDisk ops).1 = [.flag true, .value (some 7)] := by
  decide +kernel

/-- A write does not remove the older string form: when the disk later drops the newer
entry, a read brings the older value back. -/
theorem culled_resurrects :
    let ops : List (COp Nat String Nat) :=
      [set (obj 1) (some 9) .stored, set (obj 2) (some 5) .stored, cull (obj 1), get (obj 1)]
    (∀ op ∈ ops, Spec.Lossy op) ∧
    (LCache.run toString 1 ⟨[], legacyDisk⟩ ops).1 =
      [.flag true, .flag true, .nothing, .value (some 7)] := by
  refine ⟨?_, by decide +kernel⟩
  intro op h
  fin_cases h <;> simp [Spec.Lossy]

end

end PyBroker
