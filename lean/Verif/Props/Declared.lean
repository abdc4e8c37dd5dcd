import Verif.Optimize.Declared
import Verif.Props.Collect

/-!
# What a function reads of hyperparameters and global parameters (C173)
-/

namespace PyBroker

variable {V W : Type}

/-! ## Specification -/

namespace Spec

/-- `x` is the last element of the list with the property, and `before` are the elements before it. -/
def LastSuch {α : Type} (l : List α) (p : α → Prop) (before : List α) (x : α) : Prop :=
  ∃ after, l = before ++ x :: after ∧ p x ∧ ∀ y ∈ after, ¬ p y

/-- The action declares a hyperparameter of that name, and its numbers are accepted (C67). -/
def Declares (n : String) (a : HpAct V) : Prop :=
  ∃ h, a = .declare h ∧ h.check = .ok () ∧ h.name = n

/-- The hyperparameter object that an action makes, if it does. -/
def MakesHp : HpAct V → Option Hyper
  | .make h | .declare h => if h.check = .ok () then some h else none
  | _ => none

/-- `h`, the object with number `i` among those made, is the one declared last under the name. -/
def CurrentHp (acts : List (HpAct V)) (n : String) (i : Nat) (h : Hyper) : Prop :=
  ∃ before, LastSuch acts (Declares n) before (.declare h) ∧ i = (before.filterMap MakesHp).length

/-- The action sets the global parameter or clears all. -/
def TouchesParam (n : String) (a : HpAct V) : Prop := a = .clearParams ∨ ∃ v, a = .setParam n v

/-- The parameter was set to `v`, and not set or cleared after. -/
def LastParam (acts : List (HpAct V)) (n : String) (v : Option V) : Prop :=
  ∃ before, LastSuch acts (TouchesParam n) before (.setParam n v)

end Spec

open PyBroker.Spec

/-! ## Last actions -/

theorem lastSuch_nil {α : Type} {p : α → Prop} {b : List α} {x : α} : ¬ LastSuch [] p b x := by
  rintro ⟨after, h, _⟩
  simp at h

theorem lastSuch_snoc {α : Type} {p : α → Prop} {l : List α} {a : α} {b : List α} {x : α} :
    LastSuch (l ++ [a]) p b x ↔ (p a ∧ b = l ∧ x = a) ∨ (¬ p a ∧ LastSuch l p b x) := by
  constructor
  · rintro ⟨after, h, hx, hy⟩
    rcases List.eq_nil_or_concat after with rfl | ⟨as, z, rfl⟩
    · obtain ⟨h1, h2⟩ := List.append_inj' h rfl
      obtain rfl : a = x := by simpa using h2
      exact .inl ⟨hx, h1.symm, rfl⟩
    · have h' : l ++ [a] = (b ++ x :: as) ++ [z] := by simpa using h
      obtain ⟨h1, h2⟩ := List.append_inj' h' rfl
      obtain rfl : a = z := by simpa using h2
      exact .inr ⟨hy a (by simp), as, h1, hx, fun y hm => hy y (by simp [hm])⟩
  · rintro (⟨ha, rfl, rfl⟩ | ⟨ha, as, rfl, hx, hy⟩)
    · exact ⟨[], rfl, ha, by simp⟩
    · refine ⟨as ++ [a], by simp, hx, ?_⟩
      intro y hm
      rcases List.mem_append.1 hm with h | h
      · exact hy y h
      · obtain rfl : y = a := by simpa using h
        exact ha

theorem currentHp_snoc {acts : List (HpAct V)} {a : HpAct V} {n : String} {i : Nat} {h : Hyper} :
    CurrentHp (acts ++ [a]) n i h ↔
      (Declares n a ∧ a = .declare h ∧ i = (acts.filterMap MakesHp).length) ∨
      (¬ Declares n a ∧ CurrentHp acts n i h) := by
  unfold CurrentHp
  constructor
  · rintro ⟨b, hb, hi⟩
    rcases lastSuch_snoc.1 hb with ⟨h1, rfl, h2⟩ | ⟨h1, h2⟩
    · exact .inl ⟨h1, h2.symm, hi⟩
    · exact .inr ⟨h1, b, h2, hi⟩
  · rintro (⟨h1, h2, h3⟩ | ⟨h1, b, h2, h3⟩)
    · exact ⟨acts, lastSuch_snoc.2 (.inl ⟨h1, rfl, h2.symm⟩), h3⟩
    · exact ⟨b, lastSuch_snoc.2 (.inr ⟨h1, h2⟩), h3⟩

theorem lastParam_snoc {acts : List (HpAct V)} {a : HpAct V} {n : String} {v : Option V} :
    LastParam (acts ++ [a]) n v ↔
      a = .setParam n v ∨ (¬ TouchesParam n a ∧ LastParam acts n v) := by
  unfold LastParam
  constructor
  · rintro ⟨b, hb⟩
    rcases lastSuch_snoc.1 hb with ⟨h1, rfl, h2⟩ | ⟨h1, h2⟩
    · exact .inl h2.symm
    · exact .inr ⟨h1, b, h2⟩
  · rintro (h | ⟨h1, b, h2⟩)
    · exact ⟨acts, lastSuch_snoc.2 (.inl ⟨.inr ⟨v, h⟩, rfl, h.symm⟩)⟩
    · exact ⟨b, lastSuch_snoc.2 (.inr ⟨h1, h2⟩)⟩

theorem currentHp_object {acts : List (HpAct V)} {n : String} {i : Nat} {h : Hyper}
    (hc : CurrentHp acts n i h) : (acts.filterMap MakesHp)[i]? = some h ∧ h.name = n := by
  obtain ⟨b, ⟨after, rfl, ⟨h', he, hk, hn⟩, _⟩, rfl⟩ := hc
  obtain rfl : h = h' := by injection he
  refine ⟨?_, hn⟩
  rw [List.filterMap_append, List.filterMap_cons]
  simp [MakesHp, hk]

/-! ## The state after a program -/

theorem SDict.mem_put {U : Type} {d : SDict U} {k : String} {v : U} {x : String × U}
    (h : x ∈ d.put k v) : x ∈ d ∨ x.2 = v := by
  induction d with
  | nil => simp only [SDict.put, List.mem_singleton] at h; subst h; exact .inr rfl
  | cons e d ih =>
    obtain ⟨k', v'⟩ := e
    unfold SDict.put at h
    split at h
    · rcases List.mem_cons.1 h with rfl | h
      · exact .inr rfl
      · exact .inl (List.mem_cons_of_mem _ h)
    · rcases List.mem_cons.1 h with rfl | h
      · exact .inl (List.mem_cons_self)
      · rcases ih h with h | h
        · exact .inl (List.mem_cons_of_mem _ h)
        · exact .inr h

theorem mapM_except_ok {α β ε : Type} {f : α → Except ε β} : ∀ {l : List α} {r : List β},
    l.mapM f = .ok r ↔ List.Forall₂ (fun a b => f a = .ok b) l r
  | [], r => by
    constructor
    · intro h
      cases h
      exact .nil
    · intro h
      cases h
      rfl
  | a :: l, r => by
    rw [List.mapM_cons]
    rcases ha : f a with e | b
    · constructor
      · intro h; cases h
      · intro h
        cases h with
        | cons h _ => rw [ha] at h; cases h
    · rcases hl : l.mapM f with e | bs
      · constructor
        · intro h; cases h
        · intro h
          cases h with
          | cons _ h => rw [mapM_except_ok.2 h] at hl; cases hl
      · constructor
        · intro h
          cases h
          exact .cons ha (mapM_except_ok.1 hl)
        · intro h
          cases h with
          | cons h1 h2 =>
            rw [ha] at h1
            rw [mapM_except_ok.2 h2] at hl
            cases h1
            cases hl
            rfl

theorem forall₂_mem_right {α β : Type} {R : α → β → Prop} {l : List α} {r : List β}
    (h : List.Forall₂ R l r) {b : β} (hb : b ∈ r) : ∃ a ∈ l, R a b := by
  induction h with
  | nil => simp at hb
  | cons h1 _ ih =>
    rcases List.mem_cons.1 hb with rfl | hb
    · exact ⟨_, List.mem_cons_self, h1⟩
    · obtain ⟨a, h2, h3⟩ := ih hb
      exact ⟨a, List.mem_cons_of_mem _ h2, h3⟩

theorem forall₂_mem_left {α β : Type} {R : α → β → Prop} {l : List α} {r : List β}
    (h : List.Forall₂ R l r) {a : α} (ha : a ∈ l) : ∃ b ∈ r, R a b := by
  induction h with
  | nil => simp at ha
  | cons h1 _ ih =>
    rcases List.mem_cons.1 ha with rfl | ha
    · exact ⟨_, List.mem_cons_self, h1⟩
    · obtain ⟨b, h2, h3⟩ := ih ha
      exact ⟨b, List.mem_cons_of_mem _ h2, h3⟩

/-- What holds of the state after a program. -/
structure HpInv (acts : List (HpAct V)) (w : HpWorld V) : Prop where
  objects : w.objects = acts.filterMap MakesHp
  valid : ∀ r ∈ w.registered, r.2 < w.objects.length
  current : ∀ n i, w.registered.get n = some i ↔ ∃ h, CurrentHp acts n i h
  params : ∀ n v, w.params.get n = some v ↔ LastParam acts n v
  attached : ∀ e ∈ w.execs, ∀ n ∈ e.hps, ∃ i h, CurrentHp acts n i h

theorem current_kept {acts : List (HpAct V)} {a : HpAct V} {n : String}
    (h : ∃ i h, CurrentHp acts n i h) : ∃ i h, CurrentHp (acts ++ [a]) n i h := by
  by_cases hd : Declares n a
  · obtain ⟨h', rfl, hk, hn⟩ := hd
    exact ⟨_, h', currentHp_snoc.2 (.inl ⟨⟨h', rfl, hk, hn⟩, rfl, rfl⟩)⟩
  · obtain ⟨i, h', hc⟩ := h
    exact ⟨i, h', currentHp_snoc.2 (.inr ⟨hd, hc⟩)⟩

/-- An action that declares nothing and sets nothing. -/
theorem HpInv.idle {acts : List (HpAct V)} {w : HpWorld V} (hw : HpInv acts w) {a : HpAct V}
    (hm : MakesHp a = none) (hd : ∀ n, ¬ Declares n a) (hp : ∀ n, ¬ TouchesParam n a) :
    HpInv (acts ++ [a]) w where
  objects := by rw [hw.objects, List.filterMap_append]; simp [hm]
  valid := hw.valid
  current n i := by
    rw [hw.current]
    constructor
    · rintro ⟨h, hc⟩
      exact ⟨h, currentHp_snoc.2 (.inr ⟨hd n, hc⟩)⟩
    · rintro ⟨h, hc⟩
      rcases currentHp_snoc.1 hc with ⟨h1, _⟩ | ⟨_, h2⟩
      · exact absurd h1 (hd n)
      · exact ⟨h, h2⟩
  params n v := by
    rw [hw.params, lastParam_snoc]
    constructor
    · intro h
      exact .inr ⟨hp n, h⟩
    · rintro (h | h)
      · exact absurd (.inr ⟨v, h⟩) (hp n)
      · exact h.2
  attached e he n hn := current_kept (hw.attached e he n hn)

theorem attachOne_ok {acts : List (HpAct V)} {w : HpWorld V} (hw : HpInv acts w) {i : Nat} {n : String} :
    w.attachOne i = .ok n ↔ ∃ h, CurrentHp acts n i h := by
  unfold HpWorld.attachOne
  constructor
  · intro h
    rcases ho : w.objects[i]? with _ | hp
    · rw [ho] at h; cases h
    · rw [ho] at h
      rcases hr : w.registered.get hp.name with _ | j
      · simp only [hr] at h; cases h
      · simp only [hr] at h
        split at h
        · cases h
        · rename_i hj
          obtain rfl := not_not.1 hj
          have hn := Except.ok.inj h
          subst hn
          exact (hw.current _ _).1 hr
  · rintro ⟨h, hc⟩
    obtain ⟨h1, h2⟩ := currentHp_object hc
    have hr := (hw.current n i).2 ⟨h, hc⟩
    rw [hw.objects, h1]
    simp only [h2, hr, ne_eq, not_true_eq_false, if_false]

theorem hpInv_step {acts : List (HpAct V)} {w : HpWorld V} (hw : HpInv acts w) (a : HpAct V) :
    HpInv (acts ++ [a]) (w.step a) := by
  cases a with
  | make h =>
    simp only [HpWorld.step, HpWorld.act]
    rcases hk : h.check with e | u
    · exact hw.idle (by simp [MakesHp, hk]) (by rintro n ⟨_, h, _⟩; cases h)
        (by rintro n (h | ⟨_, h⟩) <;> cases h)
    · have hd : ∀ n, ¬ Declares n (HpAct.make (V := V) h) := by rintro n ⟨_, h, _⟩; cases h
      have hp : ∀ n, ¬ TouchesParam n (HpAct.make (V := V) h) := by
        rintro n (h | ⟨_, h⟩) <;> cases h
      refine ⟨?_, ?_, ?_, ?_, ?_⟩
      · simp [hw.objects, MakesHp, hk]
      · intro r hr
        have := hw.valid r hr
        simp only [List.length_append, List.length_singleton]
        omega
      · intro n i
        refine (hw.current n i).trans ⟨?_, ?_⟩
        · rintro ⟨h, hc⟩
          exact ⟨h, currentHp_snoc.2 (.inr ⟨hd n, hc⟩)⟩
        · rintro ⟨h, hc⟩
          rcases currentHp_snoc.1 hc with ⟨h1, _⟩ | ⟨_, h2⟩
          · exact absurd h1 (hd n)
          · exact ⟨h, h2⟩
      · intro n v
        refine (hw.params n v).trans ?_
        rw [lastParam_snoc]
        constructor
        · intro h
          exact .inr ⟨hp n, h⟩
        · rintro (h | h)
          · cases h
          · exact h.2
      · exact fun e he n hn => current_kept (hw.attached e he n hn)
  | declare h =>
    simp only [HpWorld.step, HpWorld.act]
    rcases hk : h.check with e | u
    · exact hw.idle (by simp [MakesHp, hk])
        (by rintro n ⟨h', he, hk', _⟩; cases he; rw [hk] at hk'; cases hk')
        (by rintro n (h | ⟨_, h⟩) <;> cases h)
    · have hp : ∀ n, ¬ TouchesParam n (HpAct.declare (V := V) h) := by
        rintro n (h | ⟨_, h⟩) <;> cases h
      refine ⟨?_, ?_, ?_, ?_, ?_⟩
      · simp [hw.objects, MakesHp, hk]
      · intro r hr
        simp only [List.length_append, List.length_singleton]
        rcases SDict.mem_put hr with hr | hr
        · have := hw.valid r hr
          omega
        · omega
      · intro n i
        show SDict.get (SDict.put _ _ _) n = some i ↔ _
        rw [SDict.get_put]
        by_cases hn : n = h.name
        · subst hn
          rw [if_pos rfl]
          constructor
          · intro hi
            exact ⟨h, currentHp_snoc.2 (.inl ⟨⟨h, rfl, hk, rfl⟩, rfl, by
              rw [← hw.objects]; exact (Option.some.inj hi).symm⟩)⟩
          · rintro ⟨h', hc⟩
            rcases currentHp_snoc.1 hc with ⟨_, _, h3⟩ | ⟨h1, _⟩
            · rw [h3, hw.objects]
            · exact absurd ⟨h, rfl, hk, rfl⟩ h1
        · rw [if_neg hn]
          refine (hw.current n i).trans ⟨?_, ?_⟩
          · rintro ⟨h', hc⟩
            refine ⟨h', currentHp_snoc.2 (.inr ⟨?_, hc⟩)⟩
            rintro ⟨h2, he, _, hn'⟩
            cases he
            exact hn hn'.symm
          · rintro ⟨h', hc⟩
            rcases currentHp_snoc.1 hc with ⟨⟨h2, he, _, hn'⟩, _⟩ | ⟨_, h2⟩
            · cases he
              exact absurd hn'.symm hn
            · exact ⟨h', h2⟩
      · intro n v
        refine (hw.params n v).trans ?_
        rw [lastParam_snoc]
        constructor
        · intro h
          exact .inr ⟨hp n, h⟩
        · rintro (h | h)
          · cases h
          · exact h.2
      · exact fun e he n hn => current_kept (hw.attached e he n hn)
  | attach inds models hps =>
    have hi := hw.idle (a := HpAct.attach inds models hps) rfl (by rintro n ⟨_, h, _⟩; cases h)
        (by rintro n (h | ⟨_, h⟩) <;> cases h)
    simp only [HpWorld.step, HpWorld.act]
    rcases hm : hps.mapM w.attachOne with e | names
    · exact hi
    · refine ⟨hi.objects, hi.valid, hi.current, hi.params, ?_⟩
      intro e he n hn
      rcases List.mem_append.1 he with he | he
      · exact hi.attached e he n hn
      · obtain rfl := List.mem_singleton.1 he
        have hf := mapM_except_ok.1 hm
        obtain ⟨i, _, hin⟩ := forall₂_mem_right hf hn
        obtain ⟨h, hc⟩ := (attachOne_ok hw).1 hin
        exact current_kept ⟨i, h, hc⟩
  | setParam m u =>
    have hd : ∀ n, ¬ Declares n (HpAct.setParam (V := V) m u) := by rintro n ⟨_, h, _⟩; cases h
    simp only [HpWorld.step, HpWorld.act]
    refine ⟨?_, hw.valid, ?_, ?_, ?_⟩
    · simp [hw.objects, MakesHp]
    · intro n i
      refine (hw.current n i).trans ⟨?_, ?_⟩
      · rintro ⟨h, hc⟩
        exact ⟨h, currentHp_snoc.2 (.inr ⟨hd n, hc⟩)⟩
      · rintro ⟨h, hc⟩
        rcases currentHp_snoc.1 hc with ⟨h1, _⟩ | ⟨_, h2⟩
        · exact absurd h1 (hd n)
        · exact ⟨h, h2⟩
    · intro n v
      show SDict.get (SDict.put _ _ _) n = some v ↔ _
      rw [SDict.get_put, lastParam_snoc]
      by_cases hn : n = m
      · subst hn
        rw [if_pos rfl]
        constructor
        · intro h
          cases h
          exact .inl rfl
        · rintro (h | ⟨h, _⟩)
          · cases h; rfl
          · exact absurd (.inr ⟨u, rfl⟩) h
      · rw [if_neg hn, hw.params]
        constructor
        · intro h
          refine .inr ⟨?_, h⟩
          rintro (h | ⟨_, h⟩)
          · cases h
          · cases h; exact hn rfl
        · rintro (h | h)
          · cases h; exact absurd rfl hn
          · exact h.2
    · exact fun e he n hn => current_kept (hw.attached e he n hn)
  | getParam m =>
    exact hw.idle rfl (by rintro n ⟨_, h, _⟩; cases h) (by rintro n (h | ⟨_, h⟩) <;> cases h)
  | clearParams =>
    have hd : ∀ n, ¬ Declares n (HpAct.clearParams (V := V)) := by rintro n ⟨_, h, _⟩; cases h
    simp only [HpWorld.step, HpWorld.act]
    refine ⟨?_, hw.valid, ?_, ?_, ?_⟩
    · simp [hw.objects, MakesHp]
    · intro n i
      refine (hw.current n i).trans ⟨?_, ?_⟩
      · rintro ⟨h, hc⟩
        exact ⟨h, currentHp_snoc.2 (.inr ⟨hd n, hc⟩)⟩
      · rintro ⟨h, hc⟩
        rcases currentHp_snoc.1 hc with ⟨h1, _⟩ | ⟨_, h2⟩
        · exact absurd h1 (hd n)
        · exact ⟨h, h2⟩
    · intro n v
      rw [lastParam_snoc]
      constructor
      · intro h; cases h
      · rintro (h | ⟨h, _⟩)
        · cases h
        · exact absurd (.inl rfl) h
    · exact fun e he n hn => current_kept (hw.attached e he n hn)

theorem hpInv_program (acts : List (HpAct V)) : HpInv acts (HpWorld.program {} acts) := by
  induction acts using List.reverseRecOn with
  | nil =>
    refine ⟨rfl, by simp [HpWorld.program], ?_, ?_, by simp [HpWorld.program]⟩
    · intro n i
      constructor
      · intro h; cases h
      · rintro ⟨_, _, h, _⟩
        exact absurd h lastSuch_nil
    · intro n v
      constructor
      · intro h; cases h
      · rintro ⟨_, h⟩
        exact absurd h lastSuch_nil
  | append_singleton acts a ih =>
    have := hpInv_step ih a
    unfold HpWorld.program at this ⊢
    rw [List.foldl_append]
    exact this

theorem hypers_get {acts : List (HpAct V)} {w : HpWorld V} (hw : HpInv acts w) {n : String} {h : Hyper}
    (hg : w.hypers.get n = some h) : ∃ i, CurrentHp acts n i h := by
  have key : ∀ reg : SDict Nat, (∀ r ∈ reg, r.2 < w.objects.length) →
      SDict.get (reg.filterMap (fun r => (w.objects[r.2]?).map (fun h => (r.1, h)))) n =
        (reg.get n).bind (fun i => w.objects[i]?) := by
    intro reg hv
    induction reg with
    | nil => rfl
    | cons r reg ih =>
      have hr := hv r List.mem_cons_self
      have ih := ih (fun r h => hv r (List.mem_cons_of_mem _ h))
      unfold SDict.get at ih ⊢
      rw [List.filterMap_cons, List.getElem?_eq_getElem hr]
      simp only [Option.map_some, List.find?_cons]
      split
      · rw [Option.map_some, Option.map_some, Option.bind_some, List.getElem?_eq_getElem hr]
      · exact ih
  unfold HpWorld.hypers at hg
  rw [key _ hw.valid] at hg
  rcases hi : w.registered.get n with _ | i
  · rw [hi] at hg; cases hg
  · rw [hi] at hg
    obtain ⟨h', hc⟩ := (hw.current n i).1 hi
    have := (currentHp_object hc).1
    rw [← hw.objects] at this
    simp only [Option.bind_some, this] at hg
    cases hg
    exact ⟨i, hc⟩

/-! ## Theorems -/

/-- **C173.**  Whatever a program did before, `add_execution` accepts hyperparameters exactly if each
is the object declared last under its name.  The execution has their names, and nothing else
changes. -/
theorem attach_hyperparams (acts : List (HpAct V)) (inds models : List String) (hps : List Nat) :
    ((∃ r, (HpWorld.program {} acts).act (.attach inds models hps) = .ok r) ↔
      ∀ i ∈ hps, ∃ n h, CurrentHp acts n i h) ∧
    ∀ w r, (HpWorld.program {} acts).act (.attach inds models hps) = .ok (w, r) →
      ∃ e, w.execs = (HpWorld.program {} acts).execs ++ [e] ∧ e.inds = inds ∧ e.models = models ∧
        (∀ n, n ∈ e.hps ↔ ∃ i ∈ hps, ∃ h, CurrentHp acts n i h) ∧
        w.objects = (HpWorld.program {} acts).objects ∧
        w.registered = (HpWorld.program {} acts).registered ∧
        w.params = (HpWorld.program {} acts).params := by
  have hw := hpInv_program acts
  have hone : ∀ i n, (HpWorld.program {} acts).attachOne i = .ok n ↔ ∃ h, CurrentHp acts n i h :=
    fun i n => attachOne_ok hw
  generalize HpWorld.program {} acts = w0 at hw hone ⊢
  have hall : (∀ i ∈ hps, ∃ n h, CurrentHp acts n i h) ↔ ∃ ns, hps.mapM w0.attachOne = .ok ns := by
    constructor
    · intro h
      induction hps with
      | nil => exact ⟨[], rfl⟩
      | cons i hps ih =>
        obtain ⟨n, hn⟩ := h i List.mem_cons_self
        obtain ⟨ns, hns⟩ := ih (fun j hj => h j (List.mem_cons_of_mem _ hj))
        exact ⟨n :: ns, mapM_except_ok.2 (.cons ((hone i n).2 hn) (mapM_except_ok.1 hns))⟩
    · rintro ⟨ns, h⟩ i hi
      have hf := mapM_except_ok.1 h
      clear h
      induction hf with
      | nil => simp at hi
      | cons h1 _ ih =>
        rcases List.mem_cons.1 hi with rfl | hi
        · exact ⟨_, (hone _ _).1 h1⟩
        · exact ih hi
  refine ⟨?_, ?_⟩
  · rw [hall]
    simp only [HpWorld.act]
    rcases hps.mapM w0.attachOne with e | ns
    · simp
    · simp
  · intro w r h
    simp only [HpWorld.act] at h
    rcases hm : hps.mapM w0.attachOne with e | ns
    · rw [hm] at h; cases h
    · rw [hm] at h
      cases h
      refine ⟨_, rfl, rfl, rfl, ?_, rfl, rfl, rfl⟩
      intro n
      have hf := mapM_except_ok.1 hm
      constructor
      · intro hn
        obtain ⟨i, h2, h3⟩ := forall₂_mem_right hf hn
        exact ⟨i, h2, (hone i n).1 h3⟩
      · rintro ⟨i, h2, h3⟩
        obtain ⟨m, h4, h5⟩ := forall₂_mem_left hf h2
        rw [(hone i n).2 h3] at h5
        exact Except.ok.inj h5 ▸ h4

/-- **C173.**  In a run that starts, `ctx.hyperparam(name)` answers exactly for the names attached to
the execution, with the value given to the run or else the default of the hyperparameter that was
declared last under the name, also if that was after it was attached. -/
theorem hyperparam_read (acts : List (HpAct V)) {s : HpScope W}
    (hs : s.hypers = (HpWorld.program {} acts).hypers) {settings : List String} {d : SDict Hyper}
    (hd : s.collect settings (HpWorld.program {} acts).execs = .ok d) {given : SDict HNum}
    (hg : (given.map Prod.fst).Nodup) {run : SDict HNum} (hr : buildRun d (some given) = .ok run)
    {e : HpExec} (he : e ∈ (HpWorld.program {} acts).execs) (name : String) :
    (name ∈ e.hps → ∃ i h, CurrentHp acts name i h ∧
      ctxHyperparam e.hps run name = .ok ((given.get name).getD h.default)) ∧
    (name ∉ e.hps → ctxHyperparam e.hps run name = .error .notAttached) := by
  have hw := hpInv_program acts
  constructor
  · intro hn
    obtain ⟨h, h1, h2⟩ := (collect_names hd name).1 (.inr (.inl ⟨e, he, hn⟩))
    obtain ⟨_, _, hget⟩ := (run_hyperparams d given hg).1 run hr
    rw [hs] at h2
    obtain ⟨i, hc⟩ := hypers_get hw h2
    refine ⟨i, h, hc, ?_⟩
    unfold ctxHyperparam
    rw [if_neg (not_not.2 hn), hget name, h1]
    rfl
  · intro hn
    unfold ctxHyperparam
    rw [if_pos hn]

/-- **C173.**  A name attached to an execution is declared for good. -/
theorem attached_declared (acts : List (HpAct V)) {e : HpExec}
    (he : e ∈ (HpWorld.program {} acts).execs) {n : String} (hn : n ∈ e.hps) :
    ∃ i h, CurrentHp acts n i h := (hpInv_program acts).attached e he n hn

/-- **C173.**  `param(name)` is the value the parameter was last set to since the parameters were last
cleared, and `None` if it was not set; reading changes nothing. -/
theorem param_read (acts : List (HpAct V)) (n : String) :
    ∃ v, (HpWorld.program {} acts).act (.getParam n) = .ok (HpWorld.program {} acts, v) ∧
      (∀ u, LastParam acts n u → v = u) ∧ ((∀ u, ¬ LastParam acts n u) → v = none) := by
  have hw := (hpInv_program acts).params n
  refine ⟨_, rfl, ?_, ?_⟩
  · intro u hu
    rw [(hw u).2 hu]
    rfl
  · intro hu
    rcases hg : (HpWorld.program {} acts).params.get n with _ | u
    · rfl
    · exact absurd ((hw u).1 hg) (hu u)

/-- Setting answers with the value set. -/
theorem param_set (acts : List (HpAct V)) (n : String) (v : Option V) :
    ∃ w, (HpWorld.program {} acts).act (.setParam n v) = .ok (w, v) ∧
      ∃ w', w.act (.getParam n) = .ok (w', v) := by
  refine ⟨_, rfl, ?_⟩
  simp only [HpWorld.act, SDict.get_put]
  exact ⟨_, rfl⟩

/-! ## Cases -/

private def period (d : Int) : Hyper := ⟨"period", .int d, .int 5, .int 50, .int 5⟩

/-- Declared, attached, declared again with another default, then run without values: the function
reads the later default, 20, and nothing else. -/
private def redeclared : List (HpAct Int) :=
  [.declare (period 10), .declare ⟨"size", .int 3, .int 1, .int 9, .int 1⟩, .attach [] [] [0],
   .setParam "a" (some 1), .setParam "a" (some 2), .declare (period 20)]

example :
    let w := HpWorld.program {} redeclared
    let s : HpScope Int := ⟨w.hypers, [], []⟩
    (∃ d run e, s.collect [] w.execs = .ok d ∧ buildRun d (some []) = .ok run ∧ e ∈ w.execs ∧
      ctxHyperparam e.hps run "period" = .ok (.int 20) ∧
      ctxHyperparam e.hps run "size" = .error .notAttached) ∧
    (w.params.get "a").join = some 2 := by
  refine ⟨⟨[("period", period 20)], [("period", .int 20)], ⟨1, [], [], ["period"]⟩, ?_⟩, ?_⟩ <;>
    decide +kernel

/-- The object declared first can no longer be attached, nor one that was not registered. -/
example :
    let w := HpWorld.program {} (redeclared ++ [.make (period 30)])
    (w.attachOne 0 = .error .replaced ∧ w.attachOne 2 = .ok "period" ∧ w.attachOne 3 = .error .replaced ∧
      w.attachOne 4 = .error .notHyperparam) := by decide +kernel

end PyBroker
