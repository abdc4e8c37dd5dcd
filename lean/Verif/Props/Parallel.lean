import Verif.Parallel.Model
import Mathlib.Data.List.Forall2
import Mathlib.Data.List.Induction
import Mathlib.Data.List.Perm.Basic

/-!
# Parallel work (C148)
-/

namespace PyBroker.Par

/-! ## Specification -/

section
variable {R C A B E : Type}

/-- A complete schedule of `n` tasks: each finishes exactly once, on any worker, in any order. -/
def Spec.Complete (n : Nat) (schedule : List (Nat × Nat)) : Prop :=
  (schedule.map Prod.snd).Perm (List.range n)

/-- A task that reads the scope of its process and leaves it as it is. -/
def Spec.ReadsOnly (task : Task R C A B E) : Prop := ∀ s a, (task s a).1 = s

/-- A task that does not use the open caches. -/
def Spec.NoCaches (task : Task R C A B E) : Prop :=
  ∀ s s' a, s.reg = s'.reg → (task s a).2 = (task s' a).2

/-- Two outcomes agree: the same value, or an error of a task on both sides. -/
def Spec.Agree {X : Type} : Except (SiteErr E) X → Except (SiteErr E) X → Prop
  | .ok a, .ok b => a = b
  | .error (.task _), .error (.task _) => True
  | _, _ => False

/-- The number of jobs after some calls of `set_parallel`, the last one first: the last one given,
or all cores when none was given since the start or since a pool was set. -/
def Spec.jobs : List Call → Option Int
  | [] => some (-1)
  | c :: before =>
    if c.parallel.isSome then some (-1)
    else match c.nJobs with
      | some n => some n
      | none => Spec.jobs before

/-- The backend, likewise. -/
def Spec.backend : List Call → String
  | [] => "loky"
  | c :: before =>
    if c.parallel.isSome then "loky"
    else match c.backend with
      | some b => b
      | none => Spec.backend before

/-- How many contexts of `_suppress` a thread is in after some operations. -/
def Spec.depth (t : Nat) : List LogOp → Nat
  | [] => 0
  | .enter u :: rest => if u = t then Spec.depth t rest + 1 else Spec.depth t rest
  | .exit u :: rest => if u = t then Spec.depth t rest - 1 else Spec.depth t rest
  | _ :: rest => Spec.depth t rest

/-- Whether logging was last disabled or enabled. -/
def Spec.off : List LogOp → Bool
  | [] => false
  | .disable :: _ => true
  | .enable :: _ => false
  | _ :: rest => Spec.off rest

end

open Spec

/-! ## The configuration -/

theorem afterCall_ok {registered : List String} {cfg : PConfig} {c : Call}
    (h : ∀ p, cfg.parallel = some p → p.returnAs ≠ .unordered)
    (hb : cfg.backend = some "loky" ∨ ∃ b ∈ registered, b ≠ "multiprocessing" ∧ cfg.backend = some b) :
    (∀ p, (afterCall registered cfg c).parallel = some p → p.returnAs ≠ .unordered) ∧
    ((afterCall registered cfg c).backend = some "loky" ∨
      ∃ b ∈ registered, b ≠ "multiprocessing" ∧ (afterCall registered cfg c).backend = some b) := by
  unfold afterCall setParallel
  cases hp : c.parallel with
  | some p =>
    simp only
    by_cases h1 : (c.nJobs.isSome || c.backend.isSome) = true
    · rw [if_pos h1]; exact ⟨h, hb⟩
    · rw [if_neg h1]
      by_cases h2 : p.returnAs = .unordered
      · rw [if_pos h2]; exact ⟨h, hb⟩
      · rw [if_neg h2]
        exact ⟨fun q hq => by cases hq; exact h2, Or.inl rfl⟩
  | none =>
    simp only
    cases hbk : c.backend with
    | none => exact ⟨fun p hp => by simp at hp, hb⟩
    | some b =>
      simp only
      by_cases h1 : b = "multiprocessing"
      · rw [if_pos h1]; exact ⟨h, hb⟩
      · rw [if_neg h1]
        by_cases h2 : b ∉ registered
        · rw [if_pos h2]; exact ⟨h, hb⟩
        · rw [if_neg h2]
          exact ⟨fun p hp => by simp at hp, Or.inr ⟨b, not_not.1 h2, h1, rfl⟩⟩

/-- **C148.**  After any calls of `set_parallel`, accepted or not, the pool in use hands its results
over in the order of the tasks, and the backend is the default or a registered one other than
`multiprocessing`. -/
theorem config_valid (registered : List String) (cs : List Call) :
    (∀ nested, (poolOf nested (afterCalls registered cs)).returnAs ≠ .unordered) ∧
    ((afterCalls registered cs).backend = some "loky" ∨
      ∃ b ∈ registered, b ≠ "multiprocessing" ∧ (afterCalls registered cs).backend = some b) := by
  have key : ∀ (cs : List Call) (cfg : PConfig),
      (∀ p, cfg.parallel = some p → p.returnAs ≠ .unordered) →
      (cfg.backend = some "loky" ∨ ∃ b ∈ registered, b ≠ "multiprocessing" ∧ cfg.backend = some b) →
      (∀ p, (cs.foldl (afterCall registered) cfg).parallel = some p → p.returnAs ≠ .unordered) ∧
      ((cs.foldl (afterCall registered) cfg).backend = some "loky" ∨
        ∃ b ∈ registered, b ≠ "multiprocessing" ∧
          (cs.foldl (afterCall registered) cfg).backend = some b) := by
    intro cs
    induction cs with
    | nil => intro cfg h hb; exact ⟨h, hb⟩
    | cons c cs ih =>
      intro cfg h hb
      obtain ⟨h', hb'⟩ := afterCall_ok (c := c) h hb
      exact ih _ h' hb'
  obtain ⟨h1, h2⟩ := key cs {} (fun p hp => by simp at hp) (Or.inl rfl)
  refine ⟨fun nested => ?_, h2⟩
  unfold poolOf
  cases nested with
  | true => simp
  | false =>
    simp only [Bool.false_eq_true, if_false]
    cases hp : (afterCalls registered cs).parallel with
    | none => simp
    | some p => exact h1 p hp

/-- **C148.**  After accepted calls only, jobs and backend are the ones given last (since a pool was
set), and the pool is the one of the last call. -/
theorem config_last (registered : List String) (cs : List Call)
    (h : ∀ (pre : List Call) (c : Call) (post : List Call), cs = pre ++ c :: post →
      ∃ cfg, setParallel registered (afterCalls registered pre) c = .ok cfg) :
    (afterCalls registered cs).nJobs = Spec.jobs cs.reverse ∧
    (afterCalls registered cs).backend = some (Spec.backend cs.reverse) ∧
    (afterCalls registered cs).parallel = (cs.getLast?).bind Call.parallel := by
  induction cs using List.reverseRecOn with
  | nil => exact ⟨rfl, rfl, rfl⟩
  | append_singleton cs c ih =>
    have hpre : ∀ (pre : List Call) (c' : Call) (post : List Call), cs = pre ++ c' :: post →
        ∃ cfg, setParallel registered (afterCalls registered pre) c' = .ok cfg := by
      intro pre c' post hh
      exact h pre c' (post ++ [c]) (by rw [hh]; simp)
    obtain ⟨i1, i2, _⟩ := ih hpre
    obtain ⟨cfg, hc⟩ := h cs c [] rfl
    have hstep : afterCalls registered (cs ++ [c]) = cfg := by
      unfold afterCalls at hc ⊢
      rw [List.foldl_append]
      simp only [List.foldl_cons, List.foldl_nil, afterCall, hc]
    rw [hstep]
    simp only [List.reverse_append, List.reverse_cons, List.reverse_nil, List.nil_append,
      List.singleton_append, Spec.jobs, Spec.backend, List.getLast?_append, List.getLast?_singleton,
      Option.some_or, Option.bind_some]
    unfold setParallel at hc
    cases hp : c.parallel with
    | some p =>
      rw [hp] at hc
      simp only at hc
      split at hc
      · cases hc
      · split at hc
        · cases hc
        · cases hc; exact ⟨rfl, rfl, rfl⟩
    | none =>
      rw [hp] at hc
      simp only [Option.isSome_none, Bool.false_eq_true, if_false] at hc ⊢
      cases hb : c.backend with
      | none =>
        rw [hb] at hc
        cases hc
        refine ⟨?_, i2, rfl⟩
        cases hn : c.nJobs <;> simp [i1]
      | some b =>
        rw [hb] at hc
        simp only at hc
        split at hc
        · cases hc
        · split at hc
          · cases hc
          · cases hc
            refine ⟨?_, rfl, rfl⟩
            cases hn : c.nJobs <;> simp [i1]

/-- **C148.**  In a worker there is one job: work handed out there runs in the worker itself. -/
theorem nested_alone (eff : Option Int → Int) (cfg : PConfig) :
    effectiveJobs eff true cfg = 1 ∧ poolOf true cfg = { nJobs := some 1, returnAs := .list } ∧
    1 ≤ effectiveJobs eff false cfg := by
  refine ⟨rfl, rfl, ?_⟩
  simp only [effectiveJobs, Bool.false_eq_true, if_false]
  exact Int.le_max_left ..

/-! ## Pools -/

section
variable {R C A B E : Type}

/-- What a task gives with a scope. -/
private def res (task : Task R C A B E) (s : Scope R C) (a : A) : Except E B := (task s a).2

theorem procs_done (scope : Scope R C) (task : Task R C A B E) (tasks : List A)
    (schedule : List (Nat × Nat)) (s : Procs R C B E) :
    (schedule.foldl (procStep scope task tasks) s).done =
      s.done ++ (schedule.map Prod.snd).filterMap
        (fun i => (tasks[i]?).map (fun a => (i, (task (pickle scope) a).2))) := by
  induction schedule generalizing s with
  | nil => simp
  | cons ev l ih =>
    rw [List.foldl_cons, ih]
    simp only [List.map_cons, List.filterMap_cons, procStep]
    cases tasks[ev.2]? with
    | none => rfl
    | some a => simp [runWithScope, setInstance]

theorem threads_done {task : Task R C A B E} (hr : ReadsOnly task) (tasks : List A)
    (l : List Nat) (s : Threads R C B E) :
    (l.foldl (threadStep task tasks) s).done =
      s.done ++ l.filterMap (fun i => (tasks[i]?).map (fun a => (i, (task s.scope a).2))) := by
  induction l generalizing s with
  | nil => simp
  | cons i l ih =>
    rw [List.foldl_cons, ih]
    simp only [List.filterMap_cons, threadStep]
    cases tasks[i]? with
    | none => rfl
    | some a =>
      have : (task s.scope a).1 = s.scope := hr _ _
      simp [runWithScope, setInstance, this]

theorem firstError_none {done : List (Nat × Except E B)} :
    firstError done = none ↔ ∀ x ∈ done, ∃ b, x.2 = .ok b := by
  induction done with
  | nil => simp [firstError]
  | cons x l ih =>
    obtain ⟨i, r⟩ := x
    cases r with
    | error e => simp [firstError]
    | ok b => simp [firstError, ih]

theorem firstError_some {done : List (Nat × Except E B)} {e : E} (h : firstError done = some e) :
    ∃ x ∈ done, x.2 = .error e := by
  induction done with
  | nil => simp [firstError] at h
  | cons x l ih =>
    obtain ⟨i, r⟩ := x
    cases r with
    | error e' =>
      simp only [firstError, Option.some.injEq] at h
      subst h
      exact ⟨_, List.mem_cons_self .., rfl⟩
    | ok b =>
      obtain ⟨x, hx, hx'⟩ := ih h
      exact ⟨x, List.mem_cons_of_mem _ hx, hx'⟩

theorem range_getElem? {X : Type} (l : List X) :
    (List.range l.length).filterMap (fun i => l[i]?) = l := by
  induction l using List.reverseRecOn with
  | nil => rfl
  | append_singleton l x ih =>
    rw [List.length_append, List.length_singleton, List.range_succ, List.filterMap_append]
    congr 1
    · conv_rhs => rw [← ih]
      apply List.filterMap_congr
      intro i hi
      rw [List.getElem?_append_left (List.mem_range.1 hi)]
    · simp

theorem collect_complete {f : A → Except E B} {tasks : List A} {order : List Nat}
    (hc : order.Perm (List.range tasks.length)) {r : ReturnAs} (hr : r ≠ .unordered) :
    (∀ l, List.Forall₂ (fun a b => f a = .ok b) tasks l →
      collect r tasks.length (order.filterMap (fun i => (tasks[i]?).map (fun a => (i, f a)))) =
        .ok (if r = .list then .list l else .generator l)) ∧
    ((∃ a ∈ tasks, ∃ e, f a = .error e) →
      ∃ a ∈ tasks, ∃ e, f a = .error e ∧
        collect r tasks.length (order.filterMap (fun i => (tasks[i]?).map (fun a => (i, f a)))) =
          .error e) := by
  generalize hd : order.filterMap (fun i => (tasks[i]?).map (fun a => (i, f a))) = done
  have hmem : ∀ i v, (i, v) ∈ done ↔ ∃ a, tasks[i]? = some a ∧ v = f a := by
    intro i v
    rw [← hd, List.mem_filterMap]
    constructor
    · rintro ⟨j, _, hj⟩
      cases hj' : tasks[j]? with
      | none => simp [hj'] at hj
      | some a =>
        simp only [hj', Option.map_some, Option.some.injEq, Prod.mk.injEq] at hj
        obtain ⟨rfl, rfl⟩ := hj
        exact ⟨a, hj', rfl⟩
    · rintro ⟨a, ha, rfl⟩
      refine ⟨i, ?_, by simp [ha]⟩
      rw [hc.mem_iff, List.mem_range]
      exact (List.getElem?_eq_some_iff.1 ha).1
  constructor
  · intro l hl
    have hlen := hl.length_eq
    have hok : firstError done = none := by
      rw [firstError_none]
      rintro ⟨i, v⟩ hx
      obtain ⟨a, ha, rfl⟩ := (hmem i v).1 hx
      obtain ⟨hi, rfl⟩ := List.getElem?_eq_some_iff.1 ha
      exact ⟨l[i]'(hlen ▸ hi), (List.forall₂_iff_get.1 hl).2 i hi (hlen ▸ hi)⟩
    have hval : ∀ i ∈ List.range tasks.length, valueOf done i = l[i]? := by
      intro i hi
      have hi' := List.mem_range.1 hi
      have hb : f tasks[i] = .ok (l[i]'(hlen ▸ hi')) :=
        (List.forall₂_iff_get.1 hl).2 i hi' (hlen ▸ hi')
      unfold valueOf
      cases hfind : done.find? (fun x => x.1 = i) with
      | none =>
        have := List.find?_eq_none.1 hfind (i, f tasks[i])
          ((hmem _ _).2 ⟨_, List.getElem?_eq_getElem hi', rfl⟩)
        simp at this
      | some x =>
        obtain ⟨j, v⟩ := x
        have hj : j = i := by simpa using List.find?_some hfind
        subst hj
        obtain ⟨a, ha, rfl⟩ := (hmem _ _).1 (List.mem_of_find?_eq_some hfind)
        rw [List.getElem?_eq_getElem hi'] at ha
        cases ha
        rw [hb, List.getElem?_eq_getElem (hlen ▸ hi')]
    have hlist : (List.range tasks.length).filterMap (valueOf done) = l := by
      rw [List.filterMap_congr hval, hlen, range_getElem?]
    unfold collect
    rw [hok]
    cases r with
    | list => simp [hlist]
    | generator => simp [hlist]
    | unordered => exact absurd rfl hr
  · rintro ⟨a, ha, e, he⟩
    obtain ⟨i, hi, rfl⟩ := List.getElem_of_mem ha
    cases hfe : firstError done with
    | none =>
      obtain ⟨b, hb⟩ := firstError_none.1 hfe (i, f tasks[i])
        ((hmem _ _).2 ⟨_, List.getElem?_eq_getElem hi, rfl⟩)
      simp only [he] at hb
      cases hb
    | some e' =>
      obtain ⟨⟨j, v⟩, hx, hv⟩ := firstError_some hfe
      obtain ⟨a', ha', rfl⟩ := (hmem _ _).1 hx
      refine ⟨a', List.mem_of_getElem? ha', e', hv, ?_⟩
      unfold collect
      rw [hfe]

/-- **C148, processes.**  Whatever schedule the workers follow, and whatever scopes earlier work has
left in them, the pool gives for each task, in the order of the tasks, what the task gives with
the scope it was sent; when tasks raise, it raises the error of one of them. -/
theorem processes_any_schedule {p : Pool} (hp : p.returnAs ≠ .unordered) (scope : Scope R C)
    (task : Task R C A B E) (tasks : List A) (scopes : Nat → Option (Scope R C))
    {schedule : List (Nat × Nat)} (hc : Complete tasks.length schedule) :
    (∀ l, List.Forall₂ (fun a b => (task (pickle scope) a).2 = .ok b) tasks l →
      ∃ o, dispatch .processes p scope task tasks scopes schedule = .ok o ∧ o.iter = l) ∧
    ((∃ a ∈ tasks, ∃ e, (task (pickle scope) a).2 = .error e) →
      ∃ a ∈ tasks, ∃ e, (task (pickle scope) a).2 = .error e ∧
        dispatch .processes p scope task tasks scopes schedule = .error e) := by
  have h := collect_complete (f := fun a => (task (pickle scope) a).2) hc hp
  simp only [dispatch, procs_done, List.nil_append]
  refine ⟨fun l hl => ⟨_, h.1 l hl, ?_⟩, h.2⟩
  split <;> rfl

/-- **C148, threads.**  The same with threads, which share the scope, for tasks that do not write
it. -/
theorem threads_any_schedule {p : Pool} (hp : p.returnAs ≠ .unordered) (scope : Scope R C)
    {task : Task R C A B E} (hr : ReadsOnly task) (tasks : List A) (scopes : Nat → Option (Scope R C))
    {schedule : List (Nat × Nat)} (hc : Complete tasks.length schedule) :
    (∀ l, List.Forall₂ (fun a b => (task scope a).2 = .ok b) tasks l →
      ∃ o, dispatch .threads p scope task tasks scopes schedule = .ok o ∧ o.iter = l) ∧
    ((∃ a ∈ tasks, ∃ e, (task scope a).2 = .error e) →
      ∃ a ∈ tasks, ∃ e, (task scope a).2 = .error e ∧
        dispatch .threads p scope task tasks scopes schedule = .error e) := by
  have h := collect_complete (f := fun a => (task scope a).2) hc hp
  simp only [dispatch, threads_done hr, List.nil_append]
  refine ⟨fun l hl => ⟨_, h.1 l hl, ?_⟩, h.2⟩
  split <;> rfl

/-! ## The places that use a pool -/

theorem inTurn_readsOnly {task : Task R C A B E} (hr : ReadsOnly task) (s : Scope R C) (tasks : List A) :
    (∀ l, List.Forall₂ (fun a b => (task s a).2 = .ok b) tasks l → inTurn task s tasks = .ok l) ∧
    ((∃ a ∈ tasks, ∃ e, (task s a).2 = .error e) → ∃ e, inTurn task s tasks = .error e) := by
  induction tasks with
  | nil =>
    refine ⟨fun l hl => ?_, fun ⟨a, ha, _⟩ => by simp at ha⟩
    cases hl; rfl
  | cons a tasks ih =>
    have h1 : (task s a).1 = s := hr _ _
    constructor
    · intro l hl
      cases hl with
      | cons hb hl =>
        rename_i b l
        have : task s a = (s, .ok b) := Prod.ext h1 hb
        simp only [inTurn, this, ih.1 l hl]
    · rintro ⟨a', ha', e, he⟩
      cases hv : (task s a).2 with
      | error e' =>
        have : task s a = (s, .error e') := Prod.ext h1 hv
        exact ⟨e', by simp only [inTurn, this]⟩
      | ok b =>
        have : task s a = (s, .ok b) := Prod.ext h1 hv
        rcases List.mem_cons.1 ha' with rfl | hm
        · rw [hv] at he; cases he
        · obtain ⟨e', he'⟩ := ih.2 ⟨a', hm, e, he⟩
          exact ⟨e', by simp only [inTurn, this, he']⟩

theorem all_or_some (f : A → Except E B) (tasks : List A) :
    (∃ l, List.Forall₂ (fun a b => f a = .ok b) tasks l) ∨ ∃ a ∈ tasks, ∃ e, f a = .error e := by
  induction tasks with
  | nil => exact Or.inl ⟨[], .nil⟩
  | cons a tasks ih =>
    cases hv : f a with
    | error e => exact Or.inr ⟨a, List.mem_cons_self .., e, hv⟩
    | ok b =>
      rcases ih with ⟨l, hl⟩ | ⟨a', ha', e, he⟩
      · exact Or.inl ⟨b :: l, .cons hv hl⟩
      · exact Or.inr ⟨a', List.mem_cons_of_mem _ ha', e, he⟩

/-- The pool of a place and the loop of the caller's process agree. -/
theorem pool_loop {x : Site R C} {registered : List String} {cs : List Call}
    (hcfg : x.cfg = afterCalls registered cs) {task : Task R C A B E} (hr : ReadsOnly task)
    (hn : NoCaches task) {tasks : List A} (hc : Complete tasks.length x.schedule) :
    (∃ l o, x.loop task tasks = .ok l ∧ x.pool task tasks = .ok o ∧ o.iter = l) ∨
    (∃ e e', x.loop task tasks = .error (.task e) ∧ x.pool task tasks = .error (.task e')) := by
  have hp : (poolOf x.nested x.cfg).returnAs ≠ .unordered := by
    rw [hcfg]; exact (config_valid registered cs).1 x.nested
  have hps : ∀ a, (task (pickle x.scope) a).2 = (task x.scope a).2 := fun a => hn _ _ a rfl
  have hpool : (∀ l, List.Forall₂ (fun a b => (task x.scope a).2 = .ok b) tasks l →
      ∃ o, dispatch x.kind (poolOf x.nested x.cfg) x.scope task tasks x.scopes x.schedule = .ok o ∧
        o.iter = l) ∧
    ((∃ a ∈ tasks, ∃ e, (task x.scope a).2 = .error e) →
      ∃ e, dispatch x.kind (poolOf x.nested x.cfg) x.scope task tasks x.scopes x.schedule = .error e) := by
    cases x.kind with
    | processes =>
      have h := processes_any_schedule hp x.scope task tasks x.scopes hc
      simp only [hps] at h
      refine ⟨h.1, fun he => ?_⟩
      obtain ⟨_, _, e, _, h'⟩ := h.2 he
      exact ⟨e, h'⟩
    | threads =>
      have h := threads_any_schedule hp x.scope hr tasks x.scopes hc
      refine ⟨h.1, fun he => ?_⟩
      obtain ⟨_, _, e, _, h'⟩ := h.2 he
      exact ⟨e, h'⟩
  have hturn := inTurn_readsOnly hr x.scope tasks
  rcases all_or_some (fun a => (task x.scope a).2) tasks with ⟨l, hl⟩ | hex
  · obtain ⟨o, ho, hol⟩ := hpool.1 l hl
    exact Or.inl ⟨l, o, by simp only [Site.loop, hturn.1 l hl], by simp only [Site.pool, ho], hol⟩
  · obtain ⟨e', he'⟩ := hpool.2 hex
    obtain ⟨e, he⟩ := hturn.2 hex
    exact Or.inr ⟨e, e', by simp only [Site.loop, he], by simp only [Site.pool, he']⟩

/-- **C148.**  Training models, computing indicators and scoring trials in parallel gives what doing
so one after the other in the caller's process gives, each result with its own task, for every
configuration `set_parallel` accepts and every schedule; or both raise the error of a task.  The
tasks are those that neither write the scope nor use open caches. -/
theorem parallel_as_in_turn {x : Site R C} {registered : List String} {cs : List Call}
    (hcfg : x.cfg = afterCalls registered cs) :
    (∀ (task : Task R C A B E), ReadsOnly task → NoCaches task → ∀ tasks : List A,
      Complete tasks.length x.schedule →
      Spec.Agree (x.trainers true task tasks) ((x.loop task tasks).map (fun l => tasks.zip l)) ∧
      Spec.Agree (x.trials task tasks) ((x.loop task tasks).map (fun l => tasks.zip l))) ∧
    (∀ (task : Task R C A (List B) E), ReadsOnly task → NoCaches task → ∀ symbols : List A,
      Complete symbols.length x.schedule →
      Spec.Agree (x.indicators true task symbols) ((x.loop task symbols).map List.flatten)) := by
  have refl : ∀ {X : Type} (u : Except E X) (f : Except E X → Except (SiteErr E) X)
      (_ : ∀ a, f (.ok a) = .ok a) (_ : ∀ e, f (.error e) = .error (.task e)),
      Spec.Agree (f u) (f u) := by
    intro X u f h1 h2
    cases u with
    | ok a => rw [h1]; exact (rfl : a = a)
    | error e => rw [h2]; exact trivial
  constructor
  · intro task hr hn tasks hc
    rcases pool_loop hcfg hr hn hc with ⟨l, o, hl, ho, hol⟩ | ⟨e, e', hl, ho⟩
    · have hself : Spec.Agree (E := E) (.ok (tasks.zip l)) (.ok (tasks.zip l)) := rfl
      simp only [Site.trainers, Site.trials, hl, ho, Except.map, hol]
      refine ⟨?_, ?_⟩ <;> split <;> exact hself
    · have hself : ∀ e e' : E, Spec.Agree (E := E) (X := List (A × B)) (.error (.task e)) (.error (.task e')) :=
        fun _ _ => trivial
      simp only [Site.trainers, Site.trials, hl, ho, Except.map]
      refine ⟨?_, ?_⟩ <;> split <;> exact hself _ _
  · intro task hr hn symbols hc
    rcases pool_loop hcfg hr hn hc with ⟨l, o, hl, ho, hol⟩ | ⟨e, e', hl, ho⟩
    · have hself : Spec.Agree (E := E) (.ok l.flatten) (.ok l.flatten) := rfl
      simp only [Site.indicators, hl, ho, Except.map, hol]
      split <;> exact hself
    · have hself : ∀ e e' : E, Spec.Agree (E := E) (X := List B) (.error (.task e)) (.error (.task e')) :=
        fun _ _ => trivial
      simp only [Site.indicators, hl, ho, Except.map]
      split <;> exact hself _ _

/-- **C148, windows of an optimization (partial: pools that return lists).** -/
theorem windows_as_in_turn_partial {x : Site R C} {registered : List String} {cs : List Call}
    (hcfg : x.cfg = afterCalls registered cs) (hlist : (poolOf x.nested x.cfg).returnAs = .list)
    {task : Task R C A B E} (hr : ReadsOnly task) (hn : NoCaches task) {windows : List A}
    (hw : windows ≠ []) (hc : Complete windows.length x.schedule) :
    Spec.Agree ((x.windows task windows).map Prod.snd) (x.loop task windows) := by
  have hshape : ∀ l, x.pool task windows ≠ .ok (.generator l) := by
    intro l h
    simp only [Site.pool, dispatch] at h
    have hcol : ∀ (n : Nat) (d : List (Nat × Except E B)) (l : List B),
        collect (poolOf x.nested x.cfg).returnAs n d ≠ .ok (.generator l) := by
      intro n d l h
      rw [hlist] at h
      unfold collect at h
      cases hf : firstError d with
      | some e => rw [hf] at h; cases h
      | none => rw [hf] at h; cases h
    cases hk : x.kind with
    | processes =>
      rw [hk] at h
      simp only at h
      generalize hq : collect (poolOf x.nested x.cfg).returnAs windows.length
        (List.foldl (procStep x.scope task windows) { scopes := x.scopes } x.schedule).done = q at h
      cases q with
      | error e => cases h
      | ok o => cases h; exact hcol _ _ _ hq
    | threads =>
      rw [hk] at h
      simp only at h
      generalize hq : collect (poolOf x.nested x.cfg).returnAs windows.length
        (List.foldl (threadStep task windows) { scope := x.scope } (x.schedule.map Prod.snd)).done = q at h
      cases q with
      | error e => cases h
      | ok o => cases h; exact hcol _ _ _ hq
  rcases pool_loop hcfg hr hn hc with ⟨l, o, hl, ho, hol⟩ | ⟨e, e', hl, ho⟩
  · cases o with
    | generator l' => exact absurd ho (hshape l')
    | list l' =>
      simp only [Out.iter] at hol
      subst hol
      cases l' with
      | nil =>
        exfalso
        have hturn : inTurn task x.scope windows = .ok [] := by
          unfold Site.loop at hl
          cases hq : inTurn task x.scope windows with
          | error e => rw [hq] at hl; cases hl
          | ok l => rw [hq] at hl; cases hl; rfl
        cases windows with
        | nil => exact hw rfl
        | cons a rest =>
          unfold inTurn at hturn
          rcases htask : task x.scope a with ⟨s', v⟩
          rw [htask] at hturn
          cases v with
          | error e => cases hturn
          | ok b =>
            simp only at hturn
            cases hrest : inTurn task s' rest <;> rw [hrest] at hturn <;> cases hturn
      | cons b l =>
        simp only [Site.windows, ho, hl, Except.map]
        exact (rfl : b :: l = b :: l)
  · simp only [Site.windows, ho, hl, Except.map]
    exact trivial

end

/-! ## Suppressed logging -/

/-- A trace of operations in which no thread leaves a context it has not entered. -/
def Spec.Nested (ops : List LogOp) : Prop :=
  ∀ (t : Nat) (pre post : List LogOp), ops = pre ++ .exit t :: post → 0 < Spec.depth t pre.reverse

/-- **C148.**  However the threads of a process interleave, a thread's output is suppressed exactly
while it is in a context of its own or logging is disabled; and what `disable` and `enable` have
set is what was set last. -/
theorem suppress_any_schedule (ops : List LogOp) (h : Spec.Nested ops) (t : Nat) :
    (ops.foldl logStep {}).isDisabled t =
      (Spec.off ops.reverse || decide (0 < Spec.depth t ops.reverse)) := by
  have key : (ops.foldl logStep {}).disabled = Spec.off ops.reverse ∧
      ∀ t, (ops.foldl logStep {}).count t = Spec.depth t ops.reverse ∧
        (ops.foldl logStep {}).previous t = (List.range (Spec.depth t ops.reverse)).reverse := by
    induction ops using List.reverseRecOn with
    | nil => exact ⟨rfl, fun _ => ⟨rfl, rfl⟩⟩
    | append_singleton ops o ih =>
      have hn : Spec.Nested ops := by
        intro t pre post hh
        exact h t pre (post ++ [o]) (by rw [hh]; simp)
      obtain ⟨i1, i2⟩ := ih hn
      rw [List.foldl_append]
      simp only [List.foldl_cons, List.foldl_nil, List.reverse_append, List.reverse_cons,
        List.reverse_nil, List.nil_append, List.singleton_append]
      generalize ops.foldl logStep {} = l at i1 i2
      cases o with
      | disable => exact ⟨rfl, i2⟩
      | enable => exact ⟨rfl, i2⟩
      | enter u =>
        refine ⟨i1, fun t => ?_⟩
        simp only [logStep, Spec.depth]
        by_cases htu : u = t
        · subst htu
          simp [i2 u, List.range_succ]
        · simp only [if_neg htu]
          rw [Function.update_of_ne (fun h => htu h.symm), Function.update_of_ne (fun h => htu h.symm)]
          exact i2 t
      | exit u =>
        have hd := h u ops [] rfl
        obtain ⟨j1, j2⟩ := i2 u
        obtain ⟨m, hm⟩ : ∃ m, Spec.depth u ops.reverse = m + 1 := ⟨_, (Nat.succ_pred_eq_of_pos hd).symm⟩
        have hprev : l.previous u = m :: (List.range m).reverse := by
          rw [j2, hm, List.range_succ]; simp
        refine ⟨?_, fun t => ?_⟩
        · simp only [logStep, hprev, Spec.off]; exact i1
        · simp only [logStep, hprev, Spec.depth]
          by_cases htu : u = t
          · subst htu
            simp [hm]
          · simp only [if_neg htu]
            rw [Function.update_of_ne (fun h => htu h.symm), Function.update_of_ne (fun h => htu h.symm)]
            exact i2 t
  simp only [Log.isDisabled, key.1, (key.2 t).1, gt_iff_lt]

/-! ## Examples -/

namespace Demo

/-- A task that adds a parameter of the scope to its argument, and raises for 13. -/
def addTask : Task ℚ Nat ℚ ℚ String := fun s a =>
  (s, if a = 13 then .error "unlucky" else .ok (a + s.reg))

theorem addTask_reads : ReadsOnly addTask ∧ NoCaches addTask := by
  refine ⟨fun _ _ => rfl, fun s s' a h => ?_⟩
  simp [addTask, h]

/-- Two workers with scopes of an earlier run finish three tasks in the order 2, 0, 1. -/
def addSite (cfg : PConfig) : Site ℚ Nat :=
  { cfg := cfg
    jobs := 2
    scope := { reg := 100, caches := some 7 }
    scopes := fun w => if w < 2 then some { reg := 5 } else none
    schedule := [(1, 2), (0, 0), (0, 1)] }

theorem add_complete : Complete 3 (addSite {}).schedule := by
  unfold Complete addSite
  decide +kernel

example : Spec.Agree ((addSite (afterCalls ["loky"] [{ nJobs := some 2 }])).trainers true addTask [1, 2, 3])
    ((addSite (afterCalls ["loky"] [{ nJobs := some 2 }])).loop addTask [1, 2, 3] |>.map
      (fun l => [(1 : ℚ), 2, 3].zip l)) :=
  ((parallel_as_in_turn (x := addSite (afterCalls ["loky"] [{ nJobs := some 2 }])) (B := ℚ) rfl).1 addTask addTask_reads.1 addTask_reads.2 [1, 2, 3] add_complete).1

example : (addSite {}).trainers true addTask [1, 2, 3] = .ok [(1, 101), (2, 102), (3, 103)] := by
  decide +kernel

example : (addSite {}).trainers true addTask [1, 13, 3] = .error (.task "unlucky") := by decide +kernel

example : setParallel ["loky"] {} { parallel := some ⟨some 2, .unordered⟩ } = .error .order := by
  decide +kernel

example : afterCalls ["loky", "threading"] [{ backend := some "threading" }, { nJobs := some 3 },
    { backend := some "multiprocessing" }] = ⟨some 3, some "threading", none⟩ := by decide +kernel

example : Spec.Nested [.enter 1, .enter 2, .exit 1, .disable, .exit 2] ∧
    (([LogOp.enter 1, .enter 2, .exit 1].foldl logStep {}).isDisabled 1 = false) ∧
    (([LogOp.enter 1, .enter 2, .exit 1].foldl logStep {}).isDisabled 2 = true) := by
  refine ⟨?_, by decide +kernel, by decide +kernel⟩
  intro t pre post h
  rcases pre with _ | ⟨a, _ | ⟨b, _ | ⟨c, _ | ⟨d, _ | ⟨e, pre⟩⟩⟩⟩⟩ <;>
    simp only [List.nil_append, List.cons_append, List.cons.injEq, reduceCtorEq, false_and, and_false] at h
  · obtain ⟨rfl, rfl, h3, _⟩ := h
    cases h3
    decide
  · obtain ⟨rfl, rfl, rfl, rfl, h3, _⟩ := h
    cases h3
    decide
  · exact absurd h.2.2.2.2.2.symm (by simp)

/-- A task that stores its argument in the scope and returns what was there. -/
def storeTask : Task ℚ Nat ℚ ℚ String := fun s a => ({ s with reg := a }, .ok s.reg)

end Demo

/-- **C148, where the code falls short.**  `set_parallel` accepts a pool that returns a generator,
as documented, and `walkforward_optimize` then raises: it reads `window_results[0]`. -/
theorem generator_breaks_windows :
    ∃ cfg, setParallel ["loky"] {} { parallel := some ⟨some 2, .generator⟩ } = .ok cfg ∧
      (Demo.addSite cfg).trainers true Demo.addTask [1, 2, 3] = .ok [(1, 101), (2, 102), (3, 103)] ∧
      (Demo.addSite cfg).windows Demo.addTask [1, 2, 3] = .error .notSubscriptable := by
  refine ⟨_, rfl, ?_, ?_⟩ <;> decide +kernel

/-- **C148, where the code falls short.**  A task that writes the scope (a training function that
sets a param, say) is seen by the next task when they run one after the other, and by no other
task when they run in processes. -/
theorem writes_not_shared :
    (Demo.addSite {}).loop Demo.storeTask [1, 2, 3] = .ok [100, 1, 2] ∧
    (Demo.addSite {}).trainers true Demo.storeTask [1, 2, 3] = .ok [(1, 100), (2, 100), (3, 100)] := by
  refine ⟨?_, ?_⟩ <;> decide +kernel

/-- **C148, where the code falls short.**  Setting a pool forgets the backend: a later call that gives
the jobs alone gets the default backend, not the one configured. -/
theorem pool_forgets_backend :
    (afterCalls ["loky", "ray"] [{ backend := some "ray" }, { nJobs := some 2 }]).backend = some "ray" ∧
    (afterCalls ["loky", "ray"] [{ backend := some "ray" }, { parallel := some ⟨some 2, .list⟩ },
      { nJobs := some 2 }]).backend = some "loky" := by
  refine ⟨?_, ?_⟩ <;> decide +kernel

end PyBroker.Par
