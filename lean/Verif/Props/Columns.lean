import Verif.Scope.Columns
import Mathlib.Data.List.Induction

/-!
# Columns during and between runs (C129)
-/

namespace PyBroker

/-! ## Specification -/

namespace Spec

/-- What happens outside runs, and a run with what its callbacks do, which is not another run.  A
run that raises is cut short, so its callbacks did less. -/
inductive ColEvent where
  | register (names : List String)
  | unregister (names : List String)
  | look
  | run (body : List ColOp)

/-- No run inside a run. -/
def NoRun (body : List ColOp) : Prop := ∀ op ∈ body, op ≠ .start ∧ op ≠ .stop

def ColEvent.Plain : ColEvent → Prop
  | .run body => Spec.NoRun body
  | _ => True

/-- The operations of an event. -/
def ColEvent.ops : ColEvent → List ColOp
  | .register names => [.register names]
  | .unregister names => [.unregister names]
  | .look => [.look]
  | .run body => .start :: body ++ [.stop]

/-- The column was registered outside a run and not unregistered outside a run after that. -/
def Registered (h : List ColEvent) (c : String) : Prop :=
  ∃ pre names post, h = pre ++ .register names :: post ∧ c ∈ names ∧
    ∀ l, ColEvent.unregister l ∈ post → c ∉ l

/-- What each thing done by a callback gives during a run that began with columns `cols`. -/
def during (cols : List String) : ColOp → ColRes
  | .look => .saw cols
  | .register _ => .refused
  | .unregister _ => .refused
  | .start => .done
  | .stop => .done

end Spec

open PyBroker.Spec

/-! ## Runs -/

theorem trace_append (s : ColState) (a b : List ColOp) :
    s.trace (a ++ b) = (((s.trace a).1.trace b).1, (s.trace a).2 ++ ((s.trace a).1.trace b).2) := by
  induction a generalizing s with
  | nil => rfl
  | cons op ops ih => simp only [List.cons_append, ColState.trace, ih]

theorem frozen_body {s : ColState} (hf : s.frozen = true) : ∀ {body : List ColOp}, NoRun body →
    s.trace body = (s, body.map (during s.cols))
  | [], _ => rfl
  | op :: ops, hp => by
    have hop := hp op (by simp)
    have hstep : s.step op = (s, during s.cols op) := by
      cases op with
      | register names => simp [ColState.step, hf, during]
      | unregister names => simp [ColState.step, hf, during]
      | look => rfl
      | start => exact absurd rfl hop.1
      | stop => exact absurd rfl hop.2
    simp only [ColState.trace, hstep, List.map_cons]
    rw [frozen_body hf (fun x hx => hp x (List.mem_cons_of_mem _ hx))]

/-- **C129.**  During a run every read gives the columns that were registered when it began, and
every attempt to change them is refused; when it ends, however it ends, the columns are what they
were and can be changed again. -/
theorem columns_fixed_in_run {s : ColState} (hf : s.frozen = false) (ho : s.ordered = none)
    {body : List ColOp} (hp : NoRun body) :
    s.trace (.start :: body ++ [.stop]) = (s, .done :: body.map (during s.cols) ++ [.done]) := by
  rw [trace_append]
  have hcols : ({ s with frozen := true, ordered := some s.build } : ColState).cols = s.cols := by
    simp only [ColState.cols, ho]
  have h1 : s.trace (.start :: body) =
      ({ s with frozen := true, ordered := some s.build }, .done :: body.map (during s.cols)) := by
    simp only [ColState.trace, ColState.step]
    rw [frozen_body rfl hp, hcols]
  rw [h1]
  simp only [ColState.trace, ColState.step]
  cases s
  simp only at hf ho
  subst hf ho
  rfl

/-- The state between runs. -/
structure Idle (s : ColState) : Prop where
  frozen : s.frozen = false
  ordered : s.ordered = none
  nodup : s.custom.Nodup

theorem event_state {s : ColState} (hi : Idle s) {e : ColEvent} (hp : e.Plain) :
    Idle (s.trace e.ops).1 ∧ ∀ c, c ∈ (s.trace e.ops).1.custom ↔
      match e with
      | .register names => c ∈ s.custom ∨ (c ∈ names ∧ c ∉ stdCols)
      | .unregister names => c ∈ s.custom ∧ c ∉ names
      | _ => c ∈ s.custom := by
  cases e with
  | register names =>
    simp only [ColEvent.ops, ColState.trace, ColState.step, hi.frozen, Bool.false_eq_true, if_false]
    refine ⟨⟨rfl, hi.ordered, List.nodup_dedup _⟩, ?_⟩
    intro c
    simp [List.mem_dedup]
  | unregister names =>
    simp only [ColEvent.ops, ColState.trace, ColState.step, hi.frozen, Bool.false_eq_true, if_false]
    refine ⟨⟨rfl, hi.ordered, hi.nodup.filter _⟩, ?_⟩
    intro c
    simp
  | look =>
    exact ⟨hi, fun c => Iff.rfl⟩
  | run body =>
    rw [ColEvent.ops, columns_fixed_in_run hi.frozen hi.ordered hp]
    exact ⟨hi, fun c => Iff.rfl⟩

theorem history_state (h : List ColEvent) (hp : ∀ e ∈ h, e.Plain) :
    Idle (({} : ColState).trace (h.flatMap ColEvent.ops)).1 ∧
    ∀ c, c ∈ (({} : ColState).trace (h.flatMap ColEvent.ops)).1.custom ↔
      c ∉ stdCols ∧ Registered h c := by
  induction h using List.reverseRecOn with
  | nil =>
    refine ⟨⟨rfl, rfl, List.nodup_nil⟩, ?_⟩
    intro c
    simp only [List.flatMap_nil, ColState.trace, List.not_mem_nil, false_iff]
    rintro ⟨_, pre, names, post, h, _⟩
    simp at h
  | append_singleton h e ih =>
    obtain ⟨i1, i2⟩ := ih (fun x hx => hp x (List.mem_append_left _ hx))
    have he := hp e (by simp)
    rw [List.flatMap_append, trace_append]
    simp only [List.flatMap_cons, List.flatMap_nil, List.append_nil]
    obtain ⟨h1, h2⟩ := event_state i1 he
    refine ⟨h1, ?_⟩
    intro c
    rw [h2 c]
    -- the last event decides, or else what was before
    have keep : (∀ l, e = .unregister l → c ∉ l) → Registered h c → Registered (h ++ [e]) c := by
      rintro hno ⟨pre, names, post, rfl, hc, hpost⟩
      refine ⟨pre, names, post ++ [e], by simp, hc, ?_⟩
      intro l hl
      rcases List.mem_append.1 hl with hl | hl
      · exact hpost l hl
      · exact hno l (List.mem_singleton.1 hl).symm
    have back : Registered (h ++ [e]) c →
        (∃ names, e = .register names ∧ c ∈ names) ∨
        (Registered h c ∧ ∀ l, e = .unregister l → c ∉ l) := by
      rintro ⟨pre, names, post, heq, hc, hpost⟩
      rcases List.eq_nil_or_concat post with rfl | ⟨post', e', rfl⟩
      · have := List.append_inj_right' (s₁ := h) (s₂ := pre) (t₁ := [e]) (t₂ := [.register names])
          heq rfl
        exact .inl ⟨names, (List.cons.inj this).1, hc⟩
      · rw [List.concat_eq_append] at heq hpost
        have heq' : h ++ [e] = (pre ++ .register names :: post') ++ [e'] := by
          rw [heq]; simp
        have h3 := List.append_inj_left' heq' rfl
        have h4 := (List.cons.inj (List.append_inj_right' heq' rfl)).1
        right
        refine ⟨⟨pre, names, post', h3, hc, fun l hl => hpost l (by simp [hl])⟩, ?_⟩
        intro l hl
        exact hpost l (by simp [← h4, hl])
    have new : ∀ names, e = .register names → c ∈ names → Registered (h ++ [e]) c := by
      rintro names rfl hc
      exact ⟨h, names, [], rfl, hc, by simp⟩
    cases e with
    | register names =>
      simp only
      rw [i2 c]
      constructor
      · rintro (⟨a, b⟩ | ⟨a, b⟩)
        · exact ⟨a, keep (by intro l hl; cases hl) b⟩
        · exact ⟨b, new names rfl a⟩
      · rintro ⟨a, b⟩
        rcases back b with ⟨n, hn, hc⟩ | ⟨hr, _⟩
        · cases hn
          exact .inr ⟨hc, a⟩
        · exact .inl ⟨a, hr⟩
    | unregister names =>
      simp only
      rw [i2 c]
      constructor
      · rintro ⟨⟨a, b⟩, hn⟩
        exact ⟨a, keep (by intro l hl; cases hl; exact hn) b⟩
      · rintro ⟨a, b⟩
        rcases back b with ⟨n, hn, hc⟩ | ⟨hr, hno⟩
        · cases hn
        · exact ⟨⟨a, hr⟩, hno names rfl⟩
    | look =>
      simp only
      rw [i2 c]
      constructor
      · rintro ⟨a, b⟩; exact ⟨a, keep (by intro l hl; cases hl) b⟩
      · rintro ⟨a, b⟩
        rcases back b with ⟨n, hn, hc⟩ | ⟨hr, hno⟩
        · cases hn
        · exact ⟨a, hr⟩
    | run body =>
      simp only
      rw [i2 c]
      constructor
      · rintro ⟨a, b⟩; exact ⟨a, keep (by intro l hl; cases hl) b⟩
      · rintro ⟨a, b⟩
        rcases back b with ⟨n, hn, hc⟩ | ⟨hr, hno⟩
        · cases hn
        · exact ⟨a, hr⟩

/-- **C129.**  After any history of registrations and runs the columns are the standard ones followed
by those registered outside a run and not unregistered outside a run since, in order and each once;
a standard column is never listed twice.  Missing: runs inside runs (`nested_run_unfreezes`). -/
theorem columns_of_history_partial (h : List ColEvent) (hp : ∀ e ∈ h, e.Plain) :
    ∃ custom, (({} : ColState).trace (h.flatMap ColEvent.ops)).1.cols = stdCols ++ custom ∧
      custom.Pairwise (· < ·) ∧ ∀ c, c ∈ custom ↔ c ∉ stdCols ∧ Registered h c := by
  obtain ⟨h1, h2⟩ := history_state h hp
  refine ⟨(({} : ColState).trace (h.flatMap ColEvent.ops)).1.custom.insertionSort (· ≤ ·), ?_, ?_, ?_⟩
  · simp only [ColState.cols, h1.ordered]
    rfl
  · have a := List.pairwise_insertionSort (· ≤ ·)
      (({} : ColState).trace (h.flatMap ColEvent.ops)).1.custom
    have b := (List.perm_insertionSort (· ≤ ·)
      (({} : ColState).trace (h.flatMap ColEvent.ops)).1.custom).nodup_iff.2 h1.nodup
    exact (a.and b).imp (fun h => lt_of_le_of_ne h.1 h.2)
  · intro c
    rw [(List.perm_insertionSort _ _).mem_iff]
    exact h2 c

/-- **C129.**  What any part of such a history gives: the columns a run reads are those of the
history before it. -/
theorem run_reads_history (h : List ColEvent) (hp : ∀ e ∈ h, e.Plain) {body : List ColOp}
    (hb : NoRun body) :
    let s := (({} : ColState).trace (h.flatMap ColEvent.ops)).1
    s.trace (ColEvent.run body).ops = (s, .done :: body.map (during s.cols) ++ [.done]) := by
  obtain ⟨h1, _⟩ := history_state h hp
  exact columns_fixed_in_run h1.frozen h1.ordered hb

/-- What C129 misses.  When a callback runs another strategy, the end of the inner run releases the
columns of the outer one: a column is registered during the outer run, and what it reads changes. -/
theorem nested_run_unfreezes :
    (({} : ColState).trace [.start, .look, .start, .stop, .register ["x"], .look, .stop]).2 =
      [.done, .saw stdCols, .done, .done, .done, .saw (stdCols ++ ["x"]), .done] := by
  decide +kernel

example : (({} : ColState).trace ([ColEvent.register ["b", "close", "a"],
    .run [.look, .register ["z"], .unregister ["a"], .look], .unregister ["b"], .look].flatMap
      ColEvent.ops)).2 =
    [.done, .done, .saw (stdCols ++ ["a", "b"]), .refused, .refused, .saw (stdCols ++ ["a", "b"]), .done,
      .done, .saw (stdCols ++ ["a"])] := by
  decide +kernel

example : Registered [.register ["b", "a"], .run [.register ["z"]], .unregister ["b"]] "a" :=
  ⟨[], ["b", "a"], [.run [.register ["z"]], .unregister ["b"]], rfl, by simp, by simp⟩

end PyBroker
