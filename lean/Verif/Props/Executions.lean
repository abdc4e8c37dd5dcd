/-
C64: the symbols of executions never overlap.
-/
import Verif.Common.Executions
import Mathlib.Data.List.Perm.Basic
import Mathlib.Data.List.Forall2

namespace PyBroker

namespace Spec

/-- `Answer loaded d e l`: execution `e` trades exactly the symbols `l` in a
window whose training frame is `d`: its fixed symbols, or a non-empty selection
without repetition of symbols the frame has bars for. -/
inductive Answer {D : Type} (loaded : D → List Sym) (d : D) : Execn D → List Sym → Prop
  | fixed (id : Nat) (l : List Sym) : Answer loaded d ⟨id, .fixed l⟩ l
  | selected (id : Nat) (f : D → Selected) (l : List Sym) (h : f d = .syms l) (ne : l ≠ [])
      (nd : l.Nodup) (known : ∀ x ∈ l, x ∈ loaded d) : Answer loaded d ⟨id, .selector f⟩ l

/-- No symbol belongs to two of the lists. -/
def NoOverlap (ls : List (List Sym)) : Prop :=
  ls.Pairwise (fun a b => ∀ x ∈ a, x ∉ b)

/-- The symbols of an execution once it is resolved. -/
def symsOf {D : Type} (e : Execn D) : List Sym := e.symbols.static

/-- Calls a user makes to set up a strategy. -/
inductive SetupOp (D : Type)
  | add (symbols : ExecSyms D)
  | clear

/-- Performing the calls; a failing call raises and leaves the strategy as it
is. -/
def setup {D : Type} : ExecStore D → List (SetupOp D) → ExecStore D
  | s, [] => s
  | s, .clear :: ops => setup (clearExecutions s) ops
  | s, .add x :: ops =>
    match addExecution s x with
    | .ok s' => setup s' ops
    | .error _ => setup s ops

end Spec

open Spec

variable {D : Type}

theorem resolveSymbols_iff (loaded : D → List Sym) (d : D) (e : Execn D) (l : List Sym) :
    resolveSymbols loaded d e = .ok l ↔ Answer loaded d e l := by
  obtain ⟨id, s⟩ := e
  constructor
  · intro h
    cases s with
    | fixed l' =>
      simp only [resolveSymbols, Except.ok.injEq] at h
      subst h; exact .fixed id l'
    | selector f =>
      rcases hf : f d with l' | _
      · simp only [resolveSymbols, hf] at h
        by_cases h1 : l' = []
        · simp [h1] at h
        · by_cases h2 : l'.Nodup
          · by_cases h3 : l'.any (fun x => !(loaded d).contains x) = true
            · simp only [h1, h2, h3, if_false, if_true, not_true] at h; simp at h
            · simp only [h1, h2, h3, if_false, not_true, Bool.false_eq_true, Except.ok.injEq] at h
              subst h
              refine .selected id f l' hf h1 h2 ?_
              intro x hx
              by_contra hn
              exact h3 (List.any_eq_true.mpr ⟨x, hx, by simpa using hn⟩)
          · simp [h1, h2] at h
      · simp [resolveSymbols, hf] at h
  · intro h
    cases h with
    | fixed => rfl
    | selected _ f l hf h1 h2 h3 =>
      have : ¬ l.any (fun x => !(loaded d).contains x) = true := by
        rw [List.any_eq_true]
        rintro ⟨x, hx, hn⟩
        have := h3 x hx
        simp at hn
        exact hn this
      simp only [resolveSymbols, hf, h1, h2, this, if_false, not_true, Bool.false_eq_true]

theorem overlap_iff (l seen : List Sym) :
    l.any (fun x => seen.contains x) = true ↔ ∃ x ∈ l, x ∈ seen := by
  simp [List.any_eq_true]

/-- What a successful pass of the loop returned. -/
theorem resolveLoop_ok (loaded : D → List Sym) (d : D) (es : List (Execn D)) (seen : List Sym)
    (out : List (Execn D)) :
    resolveLoop loaded d es seen = .ok out ↔
      ∃ ls, List.Forall₂ (Answer loaded d) es ls ∧ NoOverlap ls ∧
        (∀ l ∈ ls, ∀ x ∈ l, x ∉ seen) ∧
        out = List.zipWith (fun e l => ⟨e.id, .fixed l⟩) es ls := by
  induction es generalizing seen out with
  | nil =>
    constructor
    · intro h
      simp only [resolveLoop, Except.ok.injEq] at h
      exact ⟨[], .nil, List.Pairwise.nil, by simp, by simp [← h]⟩
    · rintro ⟨ls, h1, _, _, h4⟩
      cases h1
      simp [resolveLoop, h4]
  | cons e es ih =>
    constructor
    · intro h
      rcases hr : resolveSymbols loaded d e with x | l
      · simp [resolveLoop, hr] at h
      · by_cases ho : l.any (fun x => seen.contains x) = true
        · simp only [resolveLoop, hr, ho, if_true] at h; simp at h
        · rcases hrest : resolveLoop loaded d es (seen ++ l) with x | out'
          · simp only [resolveLoop, hr, ho, Bool.false_eq_true, if_false, hrest] at h
            simp at h
          · simp only [resolveLoop, hr, ho, Bool.false_eq_true, if_false, hrest,
              Except.ok.injEq] at h
            obtain ⟨ls, a, b, c, e'⟩ := (ih _ _).mp hrest
            refine ⟨l :: ls, .cons ((resolveSymbols_iff ..).mp hr) a, ?_, ?_, ?_⟩
            · refine List.pairwise_cons.mpr ⟨fun l' hl' x hx hx' => ?_, b⟩
              exact c l' hl' x hx' (List.mem_append_right _ hx)
            · intro l' hl' x hx hs
              rcases List.mem_cons.mp hl' with rfl | hl'
              · exact ho ((overlap_iff ..).mpr ⟨x, hx, hs⟩)
              · exact c l' hl' x hx (List.mem_append_left _ hs)
            · simp [← h, e']
    · rintro ⟨ls, h1, h2, h3, h4⟩
      cases h1 with
      | cons ha hb =>
        rename_i l ls
        obtain ⟨p1, p2⟩ := List.pairwise_cons.mp h2
        have hr := (resolveSymbols_iff ..).mpr ha
        have ho : ¬ l.any (fun x => seen.contains x) = true := by
          rw [overlap_iff]
          rintro ⟨x, hx, hs⟩
          exact h3 l List.mem_cons_self x hx hs
        have hrest := (ih (seen ++ l)
          (List.zipWith (fun e l => ⟨e.id, .fixed l⟩) es ls)).mpr ⟨ls, hb, p2, by
            intro l' hl' x hx hs
            rcases List.mem_append.mp hs with hs | hs
            · exact h3 l' (List.mem_cons_of_mem _ hl') x hx hs
            · exact p1 l' hl' x hs hx, rfl⟩
        simp only [resolveLoop, hr, ho, Bool.false_eq_true, if_false, hrest, h4,
          List.zipWith_cons_cons]

/-- **C64.** Resolving executions succeeds exactly when every selector gives a
proper answer and no symbol is claimed twice; each execution then keeps its id
and trades exactly its answer. -/
theorem resolve_executions (loaded : D → List Sym) (d : D) (es out : List (Execn D)) :
    resolveExecutions loaded d es = .ok out ↔
      ∃ ls, List.Forall₂ (Answer loaded d) es ls ∧ NoOverlap ls ∧
        List.Forall₂ (fun e r => r = ⟨e.1.id, .fixed e.2⟩) (es.zip ls) out := by
  rw [resolveExecutions, resolveLoop_ok]
  have key : ∀ (es : List (Execn D)) (ls : List (List Sym)) (out : List (Execn D)),
      out = List.zipWith (fun e l => ⟨e.id, .fixed l⟩) es ls ↔
      List.Forall₂ (fun e r => r = (⟨e.1.id, .fixed e.2⟩ : Execn D)) (es.zip ls) out := by
    intro es
    induction es with
    | nil => intro ls out; simp
    | cons e es ih =>
      intro ls out
      cases ls with
      | nil => simp
      | cons l ls =>
        cases out with
        | nil => simp
        | cons r out => simp [ih ls out]
  constructor
  · rintro ⟨ls, a, b, _, c⟩; exact ⟨ls, a, b, (key ..).mp c⟩
  · rintro ⟨ls, a, b, c⟩; exact ⟨ls, a, b, by simp, (key ..).mpr c⟩

theorem zipWith_syms (es : List (Execn D)) (ls : List (List Sym)) (h : es.length = ls.length) :
    (List.zipWith (fun e l => (⟨e.id, .fixed l⟩ : Execn D)) es ls).map symsOf = ls := by
  induction es generalizing ls with
  | nil => cases ls <;> simp_all
  | cons e es ih =>
    cases ls with
    | nil => simp at h
    | cons l ls =>
      simp only [List.length_cons, Nat.add_right_cancel_iff] at h
      simp [ih ls h, symsOf, ExecSyms.static]

/-- **C64.** Resolved executions have pairwise disjoint symbols. -/
theorem resolved_disjoint (loaded : D → List Sym) (d : D) (es out : List (Execn D))
    (h : resolveExecutions loaded d es = .ok out) :
    NoOverlap (out.map symsOf) ∧ out.map Execn.id = es.map Execn.id := by
  rw [resolveExecutions, resolveLoop_ok] at h
  obtain ⟨ls, a, b, z, c⟩ := h
  have hl := a.length_eq
  subst c
  refine ⟨by rw [zipWith_syms es ls hl]; exact b, ?_⟩
  clear a b z
  induction es generalizing ls with
  | nil => cases ls <;> simp_all
  | cons e es ih =>
    cases ls with
    | nil => simp at hl
    | cons l ls =>
      simp only [List.length_cons, Nat.add_right_cancel_iff] at hl
      simp [ih ls hl]

theorem noOverlap_perm {l l' : List (List Sym)} (h : l.Perm l') (hn : NoOverlap l) :
    NoOverlap l' :=
  (h.pairwise_iff (fun {a b} hab x hx hx' => hab x hx' hx)).mp hn

/-- **C64.** The outcome does not depend on the order in which the set of
executions is visited: the same executions are resolved to the same symbols, or
an error is raised, whatever the order. -/
theorem resolve_order (loaded : D → List Sym) (d : D) (es es' out : List (Execn D))
    (hp : es.Perm es') (h : resolveExecutions loaded d es = .ok out) :
    ∃ out', resolveExecutions loaded d es' = .ok out' ∧ out.Perm out' := by
  rw [resolveExecutions, resolveLoop_ok] at h
  obtain ⟨ls, a, b, z, c⟩ := h
  have : ∃ ls', List.Forall₂ (Answer loaded d) es' ls' ∧ ls.Perm ls' ∧
      (List.zipWith (fun e l => (⟨e.id, .fixed l⟩ : Execn D)) es ls).Perm
        (List.zipWith (fun e l => ⟨e.id, .fixed l⟩) es' ls') := by
    clear b c z
    induction hp generalizing ls with
    | nil => cases a; exact ⟨[], .nil, .refl _, .refl _⟩
    | cons x _ ih =>
      cases a with
      | cons ha hb =>
        obtain ⟨ls', h1, h2, h3⟩ := ih _ hb
        exact ⟨_ :: ls', .cons ha h1, h2.cons _, by simpa using h3⟩
    | swap x y l =>
      cases a with
      | cons ha hb =>
        cases hb with
        | cons hb hc =>
          exact ⟨_ :: _ :: _, .cons hb (.cons ha hc), .swap _ _ _, by
            simpa using List.Perm.swap _ _ _⟩
    | trans _ _ ih1 ih2 =>
      obtain ⟨ls1, h1, h2, h3⟩ := ih1 _ a
      obtain ⟨ls2, h4, h5, h6⟩ := ih2 _ h1
      exact ⟨ls2, h4, h2.trans h5, h3.trans h6⟩
  obtain ⟨ls', h1, h2, h3⟩ := this
  refine ⟨_, (resolveLoop_ok loaded d es' [] _).mpr
    ⟨ls', h1, noOverlap_perm h2 b, by simp, rfl⟩, c ▸ h3⟩

/-! ## Setting up a strategy -/

/-- **C64.** A fixed set of symbols is accepted exactly when it is not empty and
no execution added before has one of them; an accepted execution is appended
with the next id. -/
theorem add_execution_ok (s s' : ExecStore D) (l : List Sym) :
    addExecution s (.fixed l) = .ok s' ↔
      l ≠ [] ∧ (∀ x ∈ l, ∀ e ∈ s.executions, x ∉ symsOf e) ∧
      s'.nextId = s.nextId + 1 ∧ s'.executions = s.executions ++ [⟨s.nextId + 1, .fixed l⟩] := by
  have hany : l.any (fun x => s.executions.any (fun e => e.symbols.static.contains x)) = true ↔
      ¬ (∀ x ∈ l, ∀ e ∈ s.executions, x ∉ symsOf e) := by
    simp only [List.any_eq_true, List.contains_iff_mem, not_forall, not_not, exists_prop, symsOf]
  by_cases h1 : l = []
  · simp [addExecution, h1]
  · by_cases h2 : ∀ x ∈ l, ∀ e ∈ s.executions, x ∉ symsOf e
    · have h3 : ¬ l.any (fun x => s.executions.any (fun e => e.symbols.static.contains x)) =
          true := fun h => hany.mp h h2
      simp only [addExecution, h1, h3, if_false, Bool.false_eq_true, Except.ok.injEq, ne_eq,
        not_false_eq_true, true_and]
      constructor
      · rintro rfl; exact ⟨h2, rfl, rfl⟩
      · rintro ⟨_, a, b⟩; cases s'; simp_all
    · have h3 := hany.mpr h2
      simp only [addExecution, h1, h3, if_false, if_true]
      constructor
      · intro h; cases h
      · rintro ⟨_, h, _⟩; exact absurd h h2

/-- A strategy whose executions have disjoint fixed symbols and distinct ids. -/
def ExecStore.Ok (s : ExecStore D) : Prop :=
  NoOverlap (s.executions.map symsOf) ∧
  (s.executions.map Execn.id).Pairwise (· < ·) ∧
  (∀ e ∈ s.executions, e.id ≤ s.nextId) ∧
  (∀ e ∈ s.executions, e.symbols.isSelector = false → symsOf e ≠ [])

theorem addExecution_ok {s s' : ExecStore D} {x : ExecSyms D} (hs : s.Ok)
    (h : addExecution s x = .ok s') : s'.Ok := by
  obtain ⟨h1, h2, h3, h4⟩ := hs
  have main : ∀ (y : ExecSyms D), (∀ e ∈ s.executions, ∀ z ∈ symsOf e, z ∉ y.static) →
      (y.isSelector = false → y.static ≠ []) →
      ExecStore.Ok (D := D)
        { nextId := s.nextId + 1, executions := s.executions ++ [⟨s.nextId + 1, y⟩] } := by
    intro y hy hne
    refine ⟨?_, ?_, ?_, ?_⟩
    · simp only [List.map_append, List.map_cons, List.map_nil]
      refine List.pairwise_append.mpr ⟨h1, by simp, ?_⟩
      intro a ha b hb z hz
      obtain ⟨e, he, rfl⟩ := List.mem_map.mp ha
      simp only [List.mem_singleton] at hb
      subst hb
      exact hy e he z hz
    · simp only [List.map_append, List.map_cons, List.map_nil]
      refine List.pairwise_append.mpr ⟨h2, by simp, ?_⟩
      intro a ha b hb
      obtain ⟨e, he, rfl⟩ := List.mem_map.mp ha
      simp only [List.mem_singleton] at hb
      subst hb
      exact Nat.lt_succ_of_le (h3 e he)
    · intro e he
      rcases List.mem_append.mp he with he | he
      · exact Nat.le_succ_of_le (h3 e he)
      · simp only [List.mem_singleton] at he; subst he; exact Nat.le_refl _
    · intro e he
      rcases List.mem_append.mp he with he | he
      · exact h4 e he
      · simp only [List.mem_singleton] at he; subst he; exact hne
  cases x with
  | selector f =>
    simp only [addExecution, Except.ok.injEq] at h
    subst h
    exact main (.selector f) (by simp [ExecSyms.static]) (by simp [ExecSyms.isSelector])
  | fixed l =>
    obtain ⟨a, b, c, e⟩ := (add_execution_ok ..).mp h
    have := main (.fixed l) (fun e he z hz hz' => b z hz' e he hz) (fun _ => a)
    cases s'
    simp only at c e
    subst c; subst e
    exact this

/-- **C64.** Whatever calls set a strategy up, its executions have distinct ids
and no two of them share a fixed symbol. -/
theorem setup_disjoint (ops : List (SetupOp D)) :
    NoOverlap ((setup {} ops).executions.map symsOf) ∧
    ((setup {} ops).executions.map Execn.id).Nodup := by
  have : ∀ (ops : List (SetupOp D)) (s : ExecStore D), s.Ok → (setup s ops).Ok := by
    intro ops
    induction ops with
    | nil => intro s h; exact h
    | cons o ops ih =>
      intro s h
      cases o with
      | clear =>
        refine ih _ ⟨List.Pairwise.nil, List.Pairwise.nil, ?_, ?_⟩ <;>
          simp [clearExecutions]
      | add x =>
        simp only [setup]
        rcases hx : addExecution s x with e | s'
        · exact ih _ h
        · exact ih _ (addExecution_ok h hx)
  have := this ops {} ⟨List.Pairwise.nil, List.Pairwise.nil, by simp, by simp⟩
  exact ⟨this.1, this.2.1.imp Nat.ne_of_lt⟩

/-- **C64.** In every walkforward window of a strategy set up by any calls, the
executions that run have pairwise disjoint symbols and are the ones added, by
id; with a selector and no training data the window raises instead. -/
theorem window_disjoint (loaded : D → List Sym) (empty : D → Bool) (ops : List (SetupOp D))
    (train : D) :
    (∀ out, windowExecutions loaded empty (setup {} ops).executions train = .ok out →
      NoOverlap (out.map symsOf) ∧ out.map Execn.id = (setup {} ops).executions.map Execn.id ∧
      (∀ e ∈ out, e.symbols.isSelector = false)) ∧
    ((∃ e ∈ (setup {} ops).executions, e.symbols.isSelector = true) → empty train = true →
      windowExecutions loaded empty (setup {} ops).executions train = .error .value) := by
  generalize hes : (setup {} ops).executions = es
  have hd := (setup_disjoint (D := D) ops).1
  rw [hes] at hd
  constructor
  · intro out h
    by_cases hs : es.any (fun e => e.symbols.isSelector) = true
    · by_cases he : empty train = false
      · simp only [windowExecutions, selectionDf, he, hs, if_true] at h
        obtain ⟨a, b⟩ := resolved_disjoint loaded train es out h
        refine ⟨a, b, ?_⟩
        rw [resolve_executions] at h
        obtain ⟨ls, _, _, hf⟩ := h
        intro e hm
        obtain ⟨i, hi, rfl⟩ := List.mem_iff_getElem.mp hm
        have := (List.forall₂_iff_get.mp hf).2 i (by rw [hf.length_eq]; exact hi) hi
        simp only [List.get_eq_getElem] at this
        rw [this]; rfl
      · simp only [windowExecutions, selectionDf, he, hs, if_true, if_false] at h
        simp at h
    · have hall : ∀ e ∈ es, e.symbols.isSelector = false := by
        intro e he
        by_contra hn
        exact hs (List.any_eq_true.mpr ⟨e, he, by simpa using hn⟩)
      by_cases he : empty train = false
      · simp only [windowExecutions, selectionDf, he, hs, if_true, Bool.false_eq_true, if_false,
          Except.ok.injEq] at h
        subst h
        exact ⟨hd, rfl, hall⟩
      · simp only [windowExecutions, selectionDf, if_neg he, hs, Bool.false_eq_true, if_false,
          Except.ok.injEq] at h
        subst h
        exact ⟨hd, rfl, hall⟩
  · rintro ⟨e, he, hsel⟩ hemp
    have hs : es.any (fun e => e.symbols.isSelector) = true :=
      List.any_eq_true.mpr ⟨e, he, hsel⟩
    simp [windowExecutions, selectionDf, hemp, hs]

/-! ## Examples -/

namespace Demo

/-- A frame is the list of its symbols; the selector keeps the first of them. -/
def firstSym : List Sym → Selected := fun d => .syms (d.take 1)

def exOps : List (SetupOp (List Sym)) :=
  [.add (.fixed ["A", "B"]), .add (.fixed ["B"]), .add (.selector firstSym), .add (.fixed ["C"])]

end Demo

example : (setup {} Demo.exOps).executions.map (fun e => (e.id, symsOf e)) =
    [(1, ["A", "B"]), (2, []), (3, ["C"])] := by decide +kernel

example : (windowExecutions id List.isEmpty (setup {} Demo.exOps).executions ["D", "E"]).toOption.map
    (List.map (fun e => (e.id, symsOf e))) =
    some [(1, ["A", "B"]), (2, ["D"]), (3, ["C"])] := by decide +kernel

/-- A selector that picks a symbol of another execution raises. -/
example : (windowExecutions id List.isEmpty (setup {} Demo.exOps).executions ["C", "E"]).toOption.map
    (List.map (fun e => (e.id, symsOf e))) = none := by decide +kernel

end PyBroker
