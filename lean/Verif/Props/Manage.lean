import Verif.Cache.Manage
import Verif.Props.Layered

/-!
# Caches that are enabled, disabled and cleared (C147)
-/

namespace PyBroker

variable {κ σ V : Type} [DecidableEq κ] [DecidableEq σ]

/-! ## Specification -/

namespace Spec

/-- Caches without layers: what every directory holds, and which directory each cache of the running
process reads and writes, if any. -/
structure Shelf (κ σ V : Type) where
  held : Str → CKey κ σ → Option (Option V)
  opened : CacheKind → Option Str

/-- Opens or closes a cache. -/
def Shelf.aim (s : Shelf κ σ V) (kind : CacheKind) (dir : Option Str) : Shelf κ σ V :=
  { s with opened := fun k => if k = kind then dir else s.opened k }

/-- A call on the directory of a cache. -/
def Shelf.call (repr : κ → σ) (s : Shelf κ σ V) (kind : CacheKind) (op : COp κ σ V) :
    ManageRes V × Shelf κ σ V :=
  match s.opened kind with
  | none => (.off, s)
  | some d =>
    (.call (diskStep repr (s.held d) op).1,
      { s with held := fun x => if x = d then (diskStep repr (s.held d) op).2 else s.held x })

/-- Empties the directory of a cache. -/
def Shelf.empty (s : Shelf κ σ V) (kind : CacheKind) : ManageRes V × Shelf κ σ V :=
  match s.opened kind with
  | none => (.error .notEnabled, s)
  | some d => (.done, { s with held := fun x => if x = d then fun _ => none else s.held x })

/-- One operation: enabling opens `cache_dir/namespace/kind`, unless the namespace is empty; the
functions for all caches do one after the other until one raises. -/
def Shelf.step (cwd : Str) (repr : κ → σ) (s : Shelf κ σ V) : ManageOp κ σ V → ManageRes V × Shelf κ σ V
  | .enable kind ns dir _ =>
    match getCacheDir cwd dir ns kind.subDir with
    | .error e => (.error e, s)
    | .ok d => (.done, s.aim kind (some d))
  | .disable kind => (.done, s.aim kind none)
  | .clear kind => s.empty kind
  | .use kind op => s.call repr kind op
  | .enableAll ns dir _ =>
    match getCacheDir cwd dir ns CacheKind.dataSource.subDir, getCacheDir cwd dir ns CacheKind.indicator.subDir,
      getCacheDir cwd dir ns CacheKind.model.subDir with
    | .ok a, .ok b, .ok c =>
      (.done, ((s.aim .dataSource (some a)).aim .indicator (some b)).aim .model (some c))
    | _, _, _ => (.error .emptyNamespace, s)
  | .disableAll => (.done, { s with opened := fun _ => none })
  | .clearAll =>
    match s.empty .dataSource with
    | (.done, s1) =>
      match s1.empty .indicator with
      | (.done, s2) => s2.empty .model
      | r => r
    | r => r

/-- A history: a process that was not running before starts with its caches closed. -/
def Shelf.run (cwd : Str) (repr : κ → σ) : Nat → Shelf κ σ V → List (Nat × ManageOp κ σ V) →
    List (ManageRes V) × Shelf κ σ V
  | _, s, [] => ([], s)
  | cur, s, x :: xs =>
    let s := if x.1 = cur then s else { s with opened := fun _ => none }
    let r := s.step cwd repr x.2
    let rest := Shelf.run cwd repr x.1 r.2 xs
    (r.1 :: rest.1, rest.2)

/-- The processes run one after the other. -/
def InTurn (l : List (Nat × ManageOp κ σ V)) : Prop := (l.map (·.1)).Pairwise (· ≤ ·)

/-- The library's calls: as in C59. -/
def PlainOp : ManageOp κ σ V → Prop
  | .use _ op => Plain op
  | _ => True

/-- A world in which no process runs yet. -/
def quiet (held : Str → CKey κ σ → Option (Option V)) : CacheWorld κ σ V := ⟨held, fun _ _ => none⟩

end Spec

open Spec

/-! ## Directories -/

/-- What follows the last slash. -/
def lastPart (s : Str) : Str := (s.reverse.takeWhile (· ≠ '/')).reverse

theorem lastPart_join (p s : Str) (h : '/' ∉ s) : lastPart (p ++ '/' :: s) = s := by
  unfold lastPart
  have e : (p ++ '/' :: s).reverse = s.reverse ++ '/' :: p.reverse := by simp
  rw [e, List.takeWhile_append_of_pos]
  · simp
  · intro a ha
    have : a ∈ s := by simpa using ha
    simp only [ne_eq, decide_eq_true_eq]
    rintro rfl
    exact h this

theorem joinPath_rel (a b : Str) (ha : a ≠ []) (hb : ∀ r, b ≠ '/' :: r) :
    ∃ p, joinPath a b = p ++ '/' :: b ∧ (p = a ∨ a = p ++ ['/']) := by
  obtain ⟨a', c, rfl⟩ : ∃ a' c, a = a' ++ [c] := ⟨a.dropLast, a.getLast ha, (List.dropLast_append_getLast ha).symm⟩
  unfold joinPath
  split
  · rename_i r; exact absurd rfl (hb r)
  · rw [List.getLast?_append]
    simp only [List.getLast?_singleton, Option.some_or]
    split
    · rename_i h; simp at h
    · rename_i h
      simp only [Option.some.injEq] at h
      exact ⟨a', by simp [h], Or.inr (by rw [h])⟩
    · exact ⟨a' ++ [c], rfl, Or.inl rfl⟩

theorem joinPath_ne_nil (a b : Str) (hb : b ≠ []) : joinPath a b ≠ [] := by
  unfold joinPath
  split
  · exact List.cons_ne_nil _ _
  · split
    · exact hb
    · simp [hb]
    · simp

theorem subDir_plain (kind : CacheKind) : '/' ∉ kind.subDir := by cases kind <;> decide

theorem subDir_inj {a b : CacheKind} (h : a.subDir = b.subDir) : a = b := by
  cases a <;> cases b <;> first | rfl | (exact absurd h (by decide))

theorem dir_lastPart {cwd : Str} {dir : Option Str} {ns : Str} {kind : CacheKind} {d : Str}
    (h : getCacheDir cwd dir ns kind.subDir = .ok d) : lastPart d = kind.subDir := by
  unfold getCacheDir at h
  split at h
  · simp at h
  · rename_i hns
    simp only [Except.ok.injEq] at h
    obtain ⟨p, hp, _⟩ := joinPath_rel (joinPath (dir.getD (joinPath cwd ".pybrokercache".toList)) ns) kind.subDir
      (joinPath_ne_nil _ _ hns) (fun r e => subDir_plain kind (by rw [e]; exact List.mem_cons_self))
    rw [← h, hp, lastPart_join _ _ (subDir_plain kind)]

/-- **C147** (directories).  Caches of different kinds never share a directory, whatever their
namespaces and cache directories. -/
theorem kinds_apart {cwd : Str} {dir dir' : Option Str} {ns ns' : Str} {a b : CacheKind} {d : Str}
    (h : getCacheDir cwd dir ns a.subDir = .ok d) (h' : getCacheDir cwd dir' ns' b.subDir = .ok d) : a = b :=
  subDir_inj ((dir_lastPart h).symm.trans (dir_lastPart h'))

/-- **C147** (namespaces).  In one cache directory, namespaces that are plain names have different
directories. -/
theorem namespaces_apart {cwd : Str} {dir : Option Str} {ns ns' : Str} {kind : CacheKind} {d : Str}
    (hdir : dir ≠ some []) (hs : '/' ∉ ns) (hs' : '/' ∉ ns')
    (h : getCacheDir cwd dir ns kind.subDir = .ok d) (h' : getCacheDir cwd dir ns' kind.subDir = .ok d) :
    ns = ns' := by
  have hbase : dir.getD (joinPath cwd ".pybrokercache".toList) ≠ [] := by
    cases dir with
    | none => exact joinPath_ne_nil cwd ".pybrokercache".toList (by decide)
    | some x => intro e; exact hdir (by rw [show x = [] from e])
  generalize hb : dir.getD (joinPath cwd ".pybrokercache".toList) = base at hbase
  have key : ∀ n : Str, '/' ∉ n → getCacheDir cwd dir n kind.subDir = .ok d →
      ∃ p, d = (p ++ '/' :: n) ++ '/' :: kind.subDir := by
    intro n hn hd
    unfold getCacheDir at hd
    split at hd
    · simp at hd
    · rename_i hne
      simp only [Except.ok.injEq, hb] at hd
      obtain ⟨p, hp, _⟩ := joinPath_rel base n hbase (fun r e => hn (by rw [e]; exact List.mem_cons_self))
      obtain ⟨q, hq, hq'⟩ := joinPath_rel (joinPath base n) kind.subDir (joinPath_ne_nil _ _ hne)
        (fun r e => subDir_plain kind (by rw [e]; exact List.mem_cons_self))
      rw [← hd, hq]
      rcases hq' with rfl | hq'
      · exact ⟨p, by rw [hp]⟩
      · -- the joined path would end in a slash
        exfalso
        rw [hp] at hq'
        have h1 : lastPart (p ++ '/' :: n) = n := lastPart_join p n hn
        rw [hq'] at h1
        have h2 : lastPart (q ++ '/' :: []) = [] := lastPart_join q [] (by simp)
        rw [h2] at h1
        exact hne h1.symm
  obtain ⟨p, hp⟩ := key ns hs h
  obtain ⟨q, hq⟩ := key ns' hs' h'
  rw [hp] at hq
  have := List.append_cancel_right hq
  have h1 := lastPart_join p ns hs
  rw [this, lastPart_join q ns' hs'] at h1
  exact h1.symm

/-! ## Refinement -/

/-- The world and the specification agree while process `i` runs. -/
structure Agree (repr : κ → σ) (w : CacheWorld κ σ V) (i : Nat) (s : Shelf κ σ V) : Prop where
  disks : w.disks = s.held
  opened : ∀ kind, (w.procs i kind).map CacheHandle.dir = s.opened kind
  layer : ∀ kind h, w.procs i kind = some h → L1Ok repr ⟨h.l1, w.disks h.dir⟩
  ends : ∀ kind h, w.procs i kind = some h → lastPart h.dir = kind.subDir
  later : ∀ j, i < j → ∀ kind, w.procs j kind = none

variable {repr : κ → σ} {w : CacheWorld κ σ V} {i : Nat} {s : Shelf κ σ V}

theorem agree_aim (h : Agree repr w i s) (kind : CacheKind) (x : Option (CacheHandle κ σ V))
    (hx : ∀ y, x = some y → y.l1 = [] ∧ lastPart y.dir = kind.subDir) :
    Agree repr (w.setProc i ((w.procs i).put kind x)) i (s.aim kind (x.map CacheHandle.dir)) := by
  refine ⟨h.disks, ?_, ?_, ?_, ?_⟩
  · intro k
    simp only [CacheWorld.setProc, CacheProc.put, if_true, Shelf.aim]
    split
    · rfl
    · exact h.opened k
  · intro k y hy
    simp only [CacheWorld.setProc, CacheProc.put, if_true] at hy ⊢
    split at hy
    · rw [(hx y hy).1]
      intro e he
      simp at he
    · exact h.layer k y hy
  · intro k y hy
    simp only [CacheWorld.setProc, CacheProc.put, if_true] at hy
    split at hy
    · rename_i hk
      rw [hk]
      exact (hx y hy).2
    · exact h.ends k y hy
  · intro j hj k
    simp only [CacheWorld.setProc, if_neg (Nat.ne_of_gt hj)]
    exact h.later j hj k

theorem agree_enable {cwd : Str} (h : Agree repr w i s) (kind : CacheKind) (ns : Str) (dir : Option Str) (cap : Nat) :
    ((w.enable cwd i kind ns dir cap).1 = (s.step cwd repr (.enable kind ns dir cap)).1) ∧
      Agree repr (w.enable cwd i kind ns dir cap).2 i (s.step cwd repr (.enable kind ns dir cap)).2 := by
  simp only [CacheWorld.enable, Shelf.step]
  cases hd : getCacheDir cwd dir ns kind.subDir with
  | error e => exact ⟨rfl, h⟩
  | ok d =>
    refine ⟨rfl, agree_aim h kind (some ⟨d, cap, []⟩) ?_⟩
    rintro y hy
    obtain rfl := Option.some.inj hy
    exact ⟨rfl, dir_lastPart hd⟩

theorem agree_disable (h : Agree repr w i s) (kind : CacheKind) :
    Agree repr (w.disable i kind) i (s.aim kind none) := by
  exact agree_aim h kind none (fun y hy => by simp at hy)

theorem agree_use (hinj : Function.Injective repr) (h : Agree repr w i s) (kind : CacheKind)
    (op : COp κ σ V) (hop : Plain op) :
    ((w.use repr i kind op).1 = (s.call repr kind op).1) ∧
      Agree repr (w.use repr i kind op).2 i (s.call repr kind op).2 := by
  have ho := h.opened kind
  simp only [CacheWorld.use, Shelf.call]
  cases hp : w.procs i kind with
  | none =>
    rw [hp] at ho
    rw [← show none = s.opened kind from ho]
    exact ⟨rfl, h⟩
  | some y =>
    rw [hp] at ho
    rw [← show some y.dir = s.opened kind from ho]
    obtain ⟨s1, s2, s3⟩ := step_plain hinj (cap := y.cap) (h.layer kind y hp) hop
    simp only at s1 s2 s3 ⊢
    rw [h.disks] at s1 s2 s3 ⊢
    refine ⟨by rw [s1], ?_, ?_, ?_, ?_, ?_⟩
    · simp only [s2]
    · intro k
      simp only [CacheWorld.setProc, CacheProc.put, if_true]
      split
      · rename_i hk; rw [hk, ← h.opened kind, hp]; rfl
      · exact h.opened k
    · intro k x hx
      simp only [CacheWorld.setProc, CacheProc.put, if_true] at hx ⊢
      split at hx
      · obtain rfl := Option.some.inj hx
        simp only [if_true]
        exact s3
      · rename_i hk
        have hd : x.dir ≠ y.dir := by
          intro e
          apply hk
          exact subDir_inj (by rw [← h.ends k x hx, ← h.ends kind y hp, e])
        rw [if_neg hd, ← h.disks]
        exact h.layer k x hx
    · intro k x hx
      simp only [CacheWorld.setProc, CacheProc.put, if_true] at hx
      split at hx
      · rename_i hk
        obtain rfl := Option.some.inj hx
        rw [hk]
        exact h.ends kind y hp
      · exact h.ends k x hx
    · intro j hj k
      simp only [CacheWorld.setProc, if_neg (Nat.ne_of_gt hj)]
      exact h.later j hj k

theorem agree_clear (hinj : Function.Injective repr) (h : Agree repr w i s) (kind : CacheKind) :
    ((w.clear repr i kind).1 = (s.empty kind).1) ∧
      Agree repr (w.clear repr i kind).2 i (s.empty kind).2 := by
  have hu := agree_use hinj h kind .clear trivial
  have ho := h.opened kind
  simp only [CacheWorld.clear, Shelf.empty, Shelf.call] at hu ⊢
  cases hp : w.procs i kind with
  | none =>
    rw [hp] at ho
    rw [← show none = s.opened kind from ho]
    exact ⟨rfl, h⟩
  | some y =>
    rw [hp] at ho
    rw [← show some y.dir = s.opened kind from ho] at hu ⊢
    exact ⟨rfl, hu.2⟩

theorem agree_step {cwd : Str} (hinj : Function.Injective repr) (h : Agree repr w i s) (op : ManageOp κ σ V)
    (hop : PlainOp op) :
    ((w.step cwd repr i op).1 = (s.step cwd repr op).1) ∧
      Agree repr (w.step cwd repr i op).2 i (s.step cwd repr op).2 := by
  cases op with
  | enable kind ns dir cap => exact agree_enable h kind ns dir cap
  | disable kind => exact ⟨rfl, agree_disable h kind⟩
  | clear kind => exact agree_clear hinj h kind
  | use kind o => exact agree_use hinj h kind o hop
  | enableAll ns dir cap =>
    have h1 := agree_enable (cwd := cwd) h .dataSource ns dir cap
    simp only [CacheWorld.step, Shelf.step] at h1 ⊢
    by_cases hns : ns = []
    · have hd : ∀ sub, getCacheDir cwd dir ns sub = .error .emptyNamespace := fun sub => by
        simp [getCacheDir, hns]
      simp only [CacheWorld.enable, hd] at h1 ⊢
      exact ⟨trivial, h⟩
    · obtain ⟨b, hb⟩ : ∃ b, ∀ sub, getCacheDir cwd dir ns sub = .ok (joinPath b sub) :=
        ⟨_, fun sub => by simp only [getCacheDir, hns, if_false]; rfl⟩
      have h2 := agree_enable (cwd := cwd) h1.2 .indicator ns dir cap
      simp only [hb, CacheWorld.enable, Shelf.step] at h1 h2 ⊢
      have h3 := agree_enable (cwd := cwd) h2.2 .model ns dir cap
      simp only [hb, CacheWorld.enable, Shelf.step] at h3
      exact h3
  | disableAll =>
    refine ⟨rfl, ?_⟩
    have h3 := agree_disable (agree_disable (agree_disable h .dataSource) .indicator) .model
    have e : ((s.aim .dataSource none).aim .indicator none).aim .model none =
        { s with opened := fun _ => none } := by
      simp only [Shelf.aim, Shelf.mk.injEq, true_and]
      funext k
      cases k <;> simp
    rw [e] at h3
    exact h3
  | clearAll =>
    have h1 := agree_clear hinj h .dataSource
    simp only [CacheWorld.step, Shelf.step]
    rcases ha : w.clear repr i .dataSource with ⟨a, w1⟩
    rcases hb : s.empty .dataSource with ⟨b, s1⟩
    rw [ha, hb] at h1
    obtain ⟨rfl, g1⟩ := h1
    have h2 := agree_clear hinj g1 .indicator
    cases a with
    | done =>
      simp only
      rcases ha2 : w1.clear repr i .indicator with ⟨a2, w2⟩
      rcases hb2 : s1.empty .indicator with ⟨b2, s2⟩
      rw [ha2, hb2] at h2
      obtain ⟨rfl, g2⟩ := h2
      have h3 := agree_clear hinj g2 .model
      cases a2 with
      | done => exact h3
      | error e => exact ⟨rfl, g2⟩
      | off => exact ⟨rfl, g2⟩
      | call r => exact ⟨rfl, g2⟩
    | error e => exact ⟨rfl, g1⟩
    | off => exact ⟨rfl, g1⟩
    | call r => exact ⟨rfl, g1⟩

/-- **C147.**  Processes that run one after the other and enable, disable, clear and use their caches
in any order and under any namespaces see what a plain map per directory gives: the in-process layer
and its bound, and the objects that are dropped and opened again, make no difference.  `repr` gives
different keys different strings. -/
theorem caches_managed (cwd : Str) (repr : κ → σ) (hinj : Function.Injective repr)
    (held : Str → CKey κ σ → Option (Option V)) (ops : List (Nat × ManageOp κ σ V)) (ht : InTurn ops)
    (hp : ∀ x ∈ ops, PlainOp x.2) :
    ((quiet held).run cwd repr ops).1 = (Shelf.run cwd repr 0 ⟨held, fun _ => none⟩ ops).1 ∧
      ((quiet held).run cwd repr ops).2.disks = (Shelf.run cwd repr 0 ⟨held, fun _ => none⟩ ops).2.held := by
  have gen : ∀ (ops : List (Nat × ManageOp κ σ V)) (w : CacheWorld κ σ V) (i : Nat) (s : Shelf κ σ V),
      Agree repr w i s → InTurn ops → (∀ x ∈ ops, i ≤ x.1) → (∀ x ∈ ops, PlainOp x.2) →
      (w.run cwd repr ops).1 = (Shelf.run cwd repr i s ops).1 ∧
        (w.run cwd repr ops).2.disks = (Shelf.run cwd repr i s ops).2.held := by
    intro ops
    induction ops with
    | nil => intro w i s h _ _ _; exact ⟨rfl, h.disks⟩
    | cons x xs ih =>
      intro w i s h ht hle hp
      have hx : Agree repr w x.1 (if x.1 = i then s else { s with opened := fun _ => none }) := by
        by_cases hxi : x.1 = i
        · rw [if_pos hxi, hxi]; exact h
        · rw [if_neg hxi]
          have hlt : i < x.1 := lt_of_le_of_ne (hle x List.mem_cons_self) (Ne.symm hxi)
          refine ⟨h.disks, ?_, ?_, ?_, ?_⟩
          · intro kind; rw [h.later x.1 hlt kind]; rfl
          · intro kind y hy; rw [h.later x.1 hlt kind] at hy; simp at hy
          · intro kind y hy; rw [h.later x.1 hlt kind] at hy; simp at hy
          · intro j hj kind; exact h.later j (lt_trans hlt hj) kind
      have hst := agree_step (cwd := cwd) hinj hx x.2 (hp x List.mem_cons_self)
      unfold InTurn at ht
      rw [List.map_cons, List.pairwise_cons] at ht
      have := ih (w.step cwd repr x.1 x.2).2 x.1 _ hst.2 ht.2
        (fun y hy => ht.1 y.1 (List.mem_map.mpr ⟨y, hy, rfl⟩)) (fun y hy => hp y (List.mem_cons_of_mem _ hy))
      simp only [CacheWorld.run, Shelf.run]
      exact ⟨by rw [hst.1, this.1], this.2⟩
  refine gen ops (quiet held) 0 ⟨held, fun _ => none⟩ ⟨rfl, fun _ => rfl, ?_, ?_, fun _ _ _ => rfl⟩ ht
    (fun _ _ => Nat.zero_le _) hp
  · intro kind y hy; simp [quiet] at hy
  · intro kind y hy; simp [quiet] at hy

/-! ## What stays -/

/-- The operation does not open the directory. -/
def Spec.Elsewhere (cwd d : Str) : ManageOp κ σ V → Prop
  | .enable kind ns dir _ => getCacheDir cwd dir ns kind.subDir ≠ .ok d
  | .enableAll ns dir _ => ∀ kind : CacheKind, getCacheDir cwd dir ns kind.subDir ≠ .ok d
  | _ => True

theorem aim_else {d : Str} (s : Shelf κ σ V) (kind : CacheKind) (x : Option Str)
    (h : ∀ k, s.opened k ≠ some d) (hx : x ≠ some d) : ∀ k, (s.aim kind x).opened k ≠ some d := by
  intro k
  simp only [Shelf.aim]
  split
  · exact hx
  · exact h k

theorem empty_else {d : Str} (s : Shelf κ σ V) (kind : CacheKind) (h : ∀ k, s.opened k ≠ some d) :
    (s.empty kind).2.held d = s.held d ∧ ∀ k, (s.empty kind).2.opened k ≠ some d := by
  unfold Shelf.empty
  cases hk : s.opened kind with
  | none => exact ⟨rfl, h⟩
  | some e =>
    refine ⟨?_, h⟩
    have : d ≠ e := fun he => h kind (by rw [hk, he])
    simp [this]

theorem step_else {cwd d : Str} (s : Shelf κ σ V) (op : ManageOp κ σ V) (ho : Elsewhere cwd d op)
    (h : ∀ k, s.opened k ≠ some d) :
    (s.step cwd repr op).2.held d = s.held d ∧ ∀ k, (s.step cwd repr op).2.opened k ≠ some d := by
  cases op with
  | enable kind ns dir cap =>
    simp only [Shelf.step]
    cases hd : getCacheDir cwd dir ns kind.subDir with
    | error e => exact ⟨rfl, h⟩
    | ok e =>
      refine ⟨rfl, aim_else s kind _ h ?_⟩
      intro he
      obtain rfl := Option.some.inj he
      exact ho hd
  | disable kind => exact ⟨rfl, aim_else s kind _ h (by simp)⟩
  | clear kind => exact empty_else s kind h
  | use kind o =>
    simp only [Shelf.step, Shelf.call]
    cases hk : s.opened kind with
    | none => exact ⟨rfl, h⟩
    | some e =>
      refine ⟨?_, h⟩
      have : d ≠ e := fun he => h kind (by rw [hk, he])
      simp [this]
  | enableAll ns dir cap =>
    have hd := ho
    simp only [Elsewhere] at hd
    simp only [Shelf.step]
    rcases ha : getCacheDir cwd dir ns CacheKind.dataSource.subDir with e | a
    · exact ⟨rfl, h⟩
    · rcases hb : getCacheDir cwd dir ns CacheKind.indicator.subDir with e | b
      · exact ⟨rfl, h⟩
      · rcases hc : getCacheDir cwd dir ns CacheKind.model.subDir with e | c
        · exact ⟨rfl, h⟩
        · refine ⟨rfl, aim_else _ _ _ (aim_else _ _ _ (aim_else _ _ _ h ?_) ?_) ?_⟩
          · intro he; obtain rfl := Option.some.inj he; exact hd _ ha
          · intro he; obtain rfl := Option.some.inj he; exact hd _ hb
          · intro he; obtain rfl := Option.some.inj he; exact hd _ hc
  | disableAll => exact ⟨rfl, fun _ => by simp [Shelf.step]⟩
  | clearAll =>
    simp only [Shelf.step]
    have h1 := empty_else s .dataSource h
    generalize s.empty .dataSource = r at h1 ⊢
    obtain ⟨a, s1⟩ := r
    have h2 := empty_else s1 .indicator h1.2
    cases a <;> simp only at h1 ⊢ <;> try exact h1
    generalize s1.empty .indicator = r at h2 ⊢
    obtain ⟨a2, s2⟩ := r
    have h3 := empty_else s2 .model h2.2
    simp only at h2
    cases a2 <;> simp only <;>
      first
        | exact ⟨h3.1.trans (h2.1.trans h1.1), h3.2⟩
        | exact ⟨h2.1.trans h1.1, h2.2⟩

theorem run_else {cwd d : Str} (ops : List (Nat × ManageOp κ σ V)) (i : Nat) (s : Shelf κ σ V)
    (ho : ∀ x ∈ ops, Elsewhere cwd d x.2) (h : ∀ k, s.opened k ≠ some d) :
    (Shelf.run cwd repr i s ops).2.held d = s.held d := by
  induction ops generalizing i s with
  | nil => rfl
  | cons x xs ih =>
    simp only [Shelf.run]
    have h0 : ∀ k, (if x.1 = i then s else { s with opened := fun _ => none }).opened k ≠ some d := by
      split
      · exact h
      · intro k; simp
    have hh : (if x.1 = i then s else { s with opened := fun _ => none }).held = s.held := by
      split <;> rfl
    have hs := step_else (repr := repr) _ x.2 (ho x List.mem_cons_self) h0
    rw [ih _ _ (fun y hy => ho y (List.mem_cons_of_mem _ hy)) hs.2, hs.1, hh]

theorem shelf_append (cwd : Str) (i : Nat) (s : Shelf κ σ V) (a b : List (Nat × ManageOp κ σ V)) :
    ∃ j, Shelf.run cwd repr i s (a ++ b) =
      ((Shelf.run cwd repr i s a).1 ++ (Shelf.run cwd repr j (Shelf.run cwd repr i s a).2 b).1,
        (Shelf.run cwd repr j (Shelf.run cwd repr i s a).2 b).2) ∧
      (j = i ∧ a = [] ∨ ∃ x ∈ a, j = x.1) := by
  induction a generalizing i s with
  | nil => exact ⟨i, rfl, .inl ⟨rfl, rfl⟩⟩
  | cons x xs ih =>
    simp only [List.cons_append, Shelf.run]
    obtain ⟨j, hj, hj'⟩ := ih x.1 (Shelf.step cwd repr
      (if x.1 = i then s else { s with opened := fun _ => none }) x.2).2
    refine ⟨j, by rw [hj], Or.inr ?_⟩
    rcases hj' with ⟨rfl, _⟩ | ⟨y, hy, rfl⟩
    · exact ⟨x, List.mem_cons_self, rfl⟩
    · exact ⟨y, List.mem_cons_of_mem _ hy, rfl⟩

/-- **C147** (what stays).  A value that a process stored is read by a later one that enables the
same cache, whatever other processes did with other caches and namespaces in between. -/
theorem value_kept (cwd : Str) (repr : κ → σ) (hinj : Function.Injective repr)
    (held : Str → CKey κ σ → Option (Option V)) (kind : CacheKind) (ns : Str) (dir : Option Str) (d : Str)
    (hd : getCacheDir cwd dir ns kind.subDir = .ok d) (k : κ) (v : V) (i j cap cap' : Nat)
    (between : List (Nat × ManageOp κ σ V)) (hb : ∀ x ∈ between, i < x.1 ∧ x.1 < j ∧ Elsewhere cwd d x.2)
    (hp : ∀ x ∈ between, PlainOp x.2) (ht : InTurn between) (hij : i < j) :
    (((quiet held).run cwd repr
      ([(i, .enable kind ns dir cap), (i, .use kind (.set (.obj k) (some v) .stored))] ++ between ++
        [(j, .enable kind ns dir cap'), (j, .use kind (.get (.obj k)))])).1).getLast? =
      some (.call (.value (some v))) := by
  have hT : InTurn ([(i, .enable kind ns dir cap), (i, .use kind (.set (.obj k) (some v) .stored))] ++ between ++
        [(j, ManageOp.enable kind ns dir cap'), (j, .use kind (.get (.obj k)))]) := by
    unfold InTurn at ht ⊢
    simp only [List.map_append, List.map_cons, List.map_nil, List.pairwise_append, List.pairwise_cons,
      List.mem_cons, List.not_mem_nil, or_false, List.mem_append, List.mem_map]
    refine ⟨⟨by simp, ht, ?_⟩, by simp, ?_⟩
    · rintro a (rfl | rfl) b ⟨x, hx, rfl⟩ <;> exact (hb x hx).1.le
    · rintro a ((rfl | rfl) | ⟨x, hx, rfl⟩) b (rfl | rfl) <;>
        first | exact hij.le | exact (hb x hx).2.1.le
  rw [(caches_managed cwd repr hinj held _ hT (by
    intro x hx
    simp only [List.mem_append, List.mem_cons, List.not_mem_nil, or_false] at hx
    rcases hx with ((rfl | rfl) | hx) | (rfl | rfl)
    · trivial
    · simp [PlainOp, Plain]
    · exact hp x hx
    · trivial
    · trivial)).1]
  rw [List.append_assoc]
  obtain ⟨j1, e1, _⟩ := shelf_append (repr := repr) cwd 0 (⟨held, fun _ => none⟩ : Shelf κ σ V)
    [(i, .enable kind ns dir cap), (i, .use kind (.set (.obj k) (some v) .stored))]
    (between ++ [(j, .enable kind ns dir cap'), (j, .use kind (.get (.obj k)))])
  rw [e1]
  -- the first two operations
  have hs0 : (if i = 0 then (⟨held, fun _ => none⟩ : Shelf κ σ V) else ⟨held, fun _ => none⟩) =
      ⟨held, fun _ => none⟩ := by split <;> rfl
  have hfirst : (Shelf.run cwd repr 0 (⟨held, fun _ => none⟩ : Shelf κ σ V)
      [(i, .enable kind ns dir cap), (i, .use kind (.set (.obj k) (some v) .stored))]).2.held d (.obj k) =
      some (some v) := by
    simp only [Shelf.run, hs0, if_true, Shelf.step, hd, Shelf.aim, Shelf.call, diskStep]
  generalize hst : (Shelf.run cwd repr 0 (⟨held, fun _ => none⟩ : Shelf κ σ V)
      [(i, .enable kind ns dir cap), (i, .use kind (.set (.obj k) (some v) .stored))]).2 = st at hfirst ⊢
  have hj1 : j1 = i := by
    obtain ⟨_, _, h⟩ := shelf_append (repr := repr) cwd 0 (⟨held, fun _ => none⟩ : Shelf κ σ V)
      [(i, .enable kind ns dir cap), (i, .use kind (.set (.obj k) (some v) .stored))]
      (between ++ [(j, .enable kind ns dir cap'), (j, .use kind (.get (.obj k)))])
    rcases ‹j1 = 0 ∧ _ ∨ _› with ⟨_, h⟩ | ⟨x, hx, rfl⟩
    · simp at h
    · simp only [List.mem_cons, List.not_mem_nil, or_false] at hx
      rcases hx with rfl | rfl <;> rfl
  subst hj1
  obtain ⟨j2, e2, h2⟩ := shelf_append (repr := repr) cwd j1 st between
    [(j, .enable kind ns dir cap'), (j, .use kind (.get (.obj k)))]
  rw [e2]
  have hmid : (Shelf.run cwd repr j1 st between).2.held d (.obj k) = some (some v) := by
    cases between with
    | nil => exact hfirst
    | cons x xs =>
      have hx := hb x List.mem_cons_self
      simp only [Shelf.run, if_neg (Nat.ne_of_gt hx.1)]
      have hs := step_else (repr := repr) (cwd := cwd) (d := d) { st with opened := fun _ => none } x.2 hx.2.2
        (by intro k; simp)
      rw [run_else xs _ _ (fun y hy => (hb y (List.mem_cons_of_mem _ hy)).2.2) hs.2, hs.1]
      exact hfirst
  generalize (Shelf.run cwd repr j1 st between).2 = sm at hmid ⊢
  have hlast : (Shelf.run cwd repr j2 sm [(j, .enable kind ns dir cap'), (j, .use kind (.get (.obj k)))]).1 =
      [.done, .call (.value (some v))] := by
    have hh : (if j = j2 then sm else { sm with opened := fun _ => none }).held d (.obj k) = some (some v) := by
      split <;> exact hmid
    simp only [Shelf.run, if_true, Shelf.step, hd, Shelf.aim, Shelf.call, diskStep, diskRead, hh]
    rfl
  rw [hlast]
  simp

/-! ## Where the code falls short, and cases -/

namespace Demo

/-- The caches of the cases: keys and values are numbers. -/
abbrev MOp := ManageOp Nat String Nat

/-- Two processes enable one cache; the first stores a value, the second clears the cache, and then
the first reads. -/
def twoProcs : List (Nat × MOp) :=
  [(0, .enable .model "a".toList none 8), (1, .enable .model "a".toList none 8),
    (0, .use .model (.set (.obj 1) (some 7) .stored)), (1, .clear .model), (0, .use .model (.get (.obj 1)))]

/-- A session that stores, one that uses another namespace and clears it, and one that reads. -/
def threeSessions : List (Nat × MOp) :=
  [(0, .enable .indicator "a".toList none 8), (0, .use .indicator (.set (.obj 1) (some 7) .stored)),
    (1, .enableAll "b".toList none 8), (1, .use .indicator (.get (.obj 1))),
    (1, .use .indicator (.set (.obj 1) (some 9) .stored)), (1, .clearAll),
    (2, .enable .indicator "a".toList none 2), (2, .use .indicator (.get (.obj 1)))]

example : ((quiet (fun _ _ => none)).run [] toString threeSessions).1 =
    [.done, .call (.flag true), .done, .call (.value none), .call (.flag true), .done, .done,
      .call (.value (some 7))] := by decide +kernel

example : InTurn threeSessions ∧ ∀ x ∈ threeSessions, PlainOp x.2 := by
  constructor
  · unfold InTurn; decide
  · intro x hx
    simp only [threeSessions, List.mem_cons, List.not_mem_nil, or_false] at hx
    rcases hx with rfl | rfl | rfl | rfl | rfl | rfl | rfl | rfl <;> simp [PlainOp, Plain]

example : getCacheDir "/w".toList none "a".toList CacheKind.model.subDir =
    .ok "/w/.pybrokercache/a/model".toList := by decide +kernel

/-- A namespace that is an absolute path leaves the cache directory out. -/
example : getCacheDir "/w".toList (some "c".toList) "/tmp".toList CacheKind.model.subDir =
    .ok "/tmp/model".toList := by decide +kernel

end Demo

/-- **C147, where the code falls short.**  With two processes at a time, clearing a cache in one does
not reach the values that the other still holds in memory: it goes on reading them, although the
directory is empty. -/
theorem clear_unseen :
    ((quiet (fun _ _ => none)).run [] toString Demo.twoProcs).1 =
      [.done, .done, .call (.flag true), .done, .call (.value (some 7))] ∧
    (∀ k, ((quiet (fun _ _ => none)).run [] toString Demo.twoProcs).2.disks
      ".pybrokercache/a/model".toList k = none) ∧
    (Shelf.call toString (⟨fun _ _ => none, fun _ => some ".pybrokercache/a/model".toList⟩ :
      Shelf Nat String Nat) .model (.get (.obj 1))).1 = .call (.value none) := by
  refine ⟨by decide +kernel, ?_, by decide +kernel⟩
  intro k
  rfl

/-- `clear_caches` clears one cache after the other: when the second is not enabled it raises, and
the first is empty. -/
theorem clear_caches_halfway (cwd : Str) (repr : κ → σ) (w : CacheWorld κ σ V) (i : Nat)
    (y : CacheHandle κ σ V) (h1 : w.procs i .dataSource = some y) (h2 : w.procs i .indicator = none) :
    (w.step cwd repr i .clearAll).1 = .error .notEnabled ∧
      (w.step cwd repr i .clearAll).2.disks y.dir = fun _ => none := by
  simp [CacheWorld.step, CacheWorld.clear, CacheWorld.use, h1, CacheWorld.setProc, CacheProc.put, h2,
    LCache.step, LCache.clear]

end PyBroker
