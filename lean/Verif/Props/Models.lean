/-
C92: trained models and the model cache.
-/
import Verif.Models.Cache
import Verif.Props.Indicator
import Verif.Props.Query

namespace PyBroker

namespace Spec

/-- The task that gives the model of a pair: that of its group, or its own. -/
def TaskFor (groups : MGroups) (p : MSym) (t : MTask) : Prop :=
  (∃ g ∈ groups, g.1.1 = p.model ∧ p.symbol ∈ g.2 ∧
    t = .pooled p.model (g.2.insertionSort (· ≤ ·))) ∨
  ((∀ g ∈ groups, g.1.1 = p.model → p.symbol ∉ g.2) ∧ t = .sym p)

/-- A request as the windows of a walk-forward make it: the models are registered, pretrained
ones are on the base timeframe, the pooled ones and only those are in groups, no pair is in
two groups, and the pairs of a group are requested. -/
structure ModelRequest (reg : MReg) (syms : List MSym) (groups : MGroups) : Prop where
  registered : ∀ p ∈ syms, ∃ s, reg.get p.model = some s ∧
    (s.kind = .loader → mInterval p.model = none) ∧
    (s.kind = .trainer true → ∃ g ∈ groups, g.1.1 = p.model ∧ p.symbol ∈ g.2)
  pooled : ∀ g ∈ groups, ∃ s, reg.get g.1.1 = some s ∧ s.kind = .trainer true
  disjoint : ∀ g ∈ groups, ∀ g' ∈ groups, g.1.1 = g'.1.1 → ∀ s, s ∈ g.2 → s ∈ g'.2 → g.2 = g'.2
  requested : ∀ g ∈ groups, ∀ s ∈ g.2, (⟨g.1.1, s⟩ : MSym) ∈ syms

/-- The name of the model a task trains. -/
def taskModel : MTask → String
  | .pooled n _ => n
  | .sym p => p.model

/-- A model one of whose indicators, possibly bound to an interval, has hyperparameters. -/
def TunedModel (reg : MReg) (name : String) : Prop :=
  ∃ src, reg.source (parseName name.toList).1 = some src ∧
    ∃ i ∈ src.indicators, reg.hyper (parseName i).1 = true

/-- Training on fixed data: `fit f lookahead hyper t` is the result of a task in a window
with dates and filters `f`.  On the base timeframe the training rows are those dates,
whatever the look-ahead, and hyperparameters matter to a model only through its indicators. -/
structure FixedData {M H : Type} (reg : MReg)
    (fit : DateFields → Nat → H → MTask → Except MErr (Fitted M)) : Prop where
  base : ∀ f la la' h t, mInterval (taskModel t) = none → fit f la h t = fit f la' h t
  hyper : ∀ f la h h' t, ¬ TunedModel reg (taskModel t) → fit f la h t = fit f la h' t

/-- The model cache after any history of training calls; entries may be dropped, the cache
cleared or disabled at any time. -/
inductive ModelReach {M H : Type} (reg : MReg)
    (fit : DateFields → Nat → H → MTask → Except MErr (Fitted M)) : Option (MCache M) → Prop
  | start (c : Option (MCache M)) (hc : ∀ c', c = some c' → ∀ k, c' k = none) :
      ModelReach reg fit c
  | call {c c' syms groups f la h out} : ModelReach reg fit c → ModelRequest reg syms groups →
      trainModels reg (fit f la h) syms groups f la c = .ok (out, c') → ModelReach reg fit c'
  | drop {c c'} (hc : ∀ d, c' = some d → ∀ k fd, d k = some fd → ∃ d0, c = some d0 ∧ d0 k = some fd) :
      ModelReach reg fit c → ModelReach reg fit c'

end Spec

open Spec

section
variable {M H : Type}

/-- The task of a cache entry. -/
def entryTask (p : MSym) (pooled : Option (List Sym)) : MTask :=
  match pooled with
  | none => .sym p
  | some l => .pooled p.model (l.insertionSort (· ≤ ·))

/-- The cache holds the results of its keys' tasks. -/
def ModelsGood (reg : MReg) (fit : DateFields → Nat → H → MTask → Except MErr (Fitted M))
    (cache : Option (MCache M)) : Prop :=
  ∀ c, cache = some c → ∀ f la p pooled fd, c (mKey f la p pooled) = some fd →
    reg.usesHyper p.model = false → ∀ h, fit f la h (entryTask p pooled) = .ok fd

theorem entryTask_model (p : MSym) (pooled : Option (List Sym)) :
    taskModel (entryTask p pooled) = p.model := by
  cases pooled <;> rfl

theorem not_tuned {reg : MReg} {name : String} (h : reg.usesHyper name = false) : ¬ TunedModel reg name := by
  rintro ⟨src, hs, i, hi, ht⟩
  unfold MReg.usesHyper MReg.get at h
  rw [hs] at h
  simp only [List.any_eq_false] at h
  exact h i hi ht

theorem sort_eq_of_perm {a b : List Sym} (h : a.Perm b) :
    a.insertionSort (· ≤ ·) = b.insertionSort (· ≤ ·) :=
  List.Perm.eq_of_pairwise (fun x y _ _ h1 h2 => le_antisymm h1 h2)
    (List.pairwise_insertionSort _ a) (List.pairwise_insertionSort _ b)
    ((List.perm_insertionSort _ a).trans (h.trans (List.perm_insertionSort _ b).symm))

theorem mKey_same {reg : MReg} {fit : DateFields → Nat → H → MTask → Except MErr (Fitted M)}
    (hd : FixedData reg fit) {f f' : DateFields} {la la' : Nat} {p p' : MSym}
    {pl pl' : Option (List Sym)} (h : mKey f la p pl = mKey f' la' p' pl') :
    p = p' ∧ entryTask p pl = entryTask p' pl' ∧
      ∀ hy, fit f la hy (entryTask p pl) = fit f' la' hy (entryTask p' pl') := by
  unfold mKey at h
  rw [model_keys] at h
  obtain ⟨h1, h2, h3, h4, h5⟩ := h
  obtain ⟨m, s⟩ := p
  obtain ⟨m', s'⟩ := p'
  simp only at h2 h3
  subst h1 h2 h3
  have ht : entryTask ⟨m, s⟩ pl = entryTask ⟨m, s⟩ pl' := by
    rcases h5 with ⟨rfl, rfl⟩ | ⟨a, b, rfl, rfl, hab⟩
    · rfl
    · simp only [entryTask, sort_eq_of_perm hab]
  refine ⟨rfl, ht, fun hy => ?_⟩
  rw [← ht]
  unfold cacheLookahead at h4
  dsimp only at h4
  by_cases hi : mInterval m = none
  · exact hd.base _ _ _ _ _ (by rw [entryTask_model]; exact hi)
  · rw [if_neg hi, if_neg hi] at h4
    cases h4
    rfl

/-! ### Groups -/

theorem groupOf_some {groups : MGroups}
    {p : MSym} {l : List Sym} (h : groupOf groups p = some l) :
    ∃ g ∈ groups, g.1.1 = p.model ∧ p.symbol ∈ g.2 ∧ g.2 = l := by
  unfold groupOf at h
  rw [Option.map_eq_some_iff] at h
  obtain ⟨g, hg, rfl⟩ := h
  have := List.mem_of_getLast? hg
  rw [List.mem_filter, decide_eq_true_eq] at this
  exact ⟨g, this.1, this.2.1, this.2.2, rfl⟩

theorem groupOf_none {groups : MGroups} {p : MSym} (h : groupOf groups p = none) :
    ∀ g ∈ groups, g.1.1 = p.model → p.symbol ∉ g.2 := by
  intro g hg hm hs
  unfold groupOf at h
  rw [Option.map_eq_none_iff, List.getLast?_eq_none_iff, List.filter_eq_nil_iff] at h
  exact h g hg (by simp [hm, hs])

theorem groupOf_group {reg : MReg} {syms : List MSym} {groups : MGroups} (hr : ModelRequest reg syms groups)
    {g : (String × Nat) × List Sym} (hg : g ∈ groups) {s : Sym} (hs : s ∈ g.2) :
    groupOf groups ⟨g.1.1, s⟩ = some g.2 := by
  rcases h : groupOf groups ⟨g.1.1, s⟩ with _ | l
  · exact absurd hs (groupOf_none h g hg rfl)
  · obtain ⟨g', hg', h1, h2, rfl⟩ := groupOf_some h
    rw [hr.disjoint g' hg' g hg h1 s h2 hs]

theorem taskFor_entry {groups : MGroups} (p : MSym) : TaskFor groups p (entryTask p (groupOf groups p)) := by
  rcases h : groupOf groups p with _ | l
  · exact .inr ⟨groupOf_none h, rfl⟩
  · obtain ⟨g, hg, h1, h2, rfl⟩ := groupOf_some h
    exact .inl ⟨g, hg, h1, h2, rfl⟩

theorem taskFor_unique {reg : MReg} {syms : List MSym} {groups : MGroups} (hr : ModelRequest reg syms groups)
    {p : MSym} {t t' : MTask} (h : TaskFor groups p t) (h' : TaskFor groups p t') : t = t' := by
  rcases h with ⟨g, hg, h1, h2, rfl⟩ | ⟨h1, rfl⟩ <;> rcases h' with ⟨g', hg', h1', h2', rfl⟩ | ⟨h1', rfl⟩
  · rw [hr.disjoint g hg g' hg' (h1.trans h1'.symm) p.symbol h2 h2']
  · exact absurd h2 (h1' g hg h1)
  · exact absurd h2' (h1 g' hg' h1')
  · rfl

/-! ### What an entry of the answer is -/

/-- The model of a pair as it should be. -/
def ModelOf (reg : MReg) (fit : MTask → Except MErr (Fitted M)) (groups : MGroups)
    (p : MSym) (t : Trained M) : Prop :=
  ∃ s fd, reg.get p.model = some s ∧ fit (entryTask p (groupOf groups p)) = .ok fd ∧
    t = ⟨p.model, fd, s.predict⟩

theorem load_ok {reg : MReg} {p : MSym} {fd : Fitted M} {t : Trained M} (h : reg.load p fd = .ok t) :
    ∃ s, reg.get p.model = some s ∧ t = ⟨p.model, fd, s.predict⟩ := by
  unfold MReg.load at h
  rcases hs : reg.get p.model with _ | s
  · rw [hs] at h; cases h
  · rw [hs] at h; cases h; exact ⟨s, rfl, rfl⟩

theorem loadGroup_spec {reg : MReg} {c : MCache M} {f : DateFields} {la : Nat} {name : String}
    {symbols rest : List Sym} {l : List (MSym × Trained M)}
    (h : loadGroup reg c f la name symbols rest = .ok (some l)) :
    l.map Prod.fst = rest.map (fun s => ⟨name, s⟩) ∧
    ∀ e ∈ l, ∃ fd, c (mKey f la e.1 (some symbols)) = some fd ∧ reg.load e.1 fd = .ok e.2 := by
  induction rest generalizing l with
  | nil => cases h; simp
  | cons s rest ih =>
    simp only [loadGroup] at h
    rcases hc : c (mKey f la ⟨name, s⟩ (some symbols)) with _ | fd
    · rw [hc] at h; cases h
    · rw [hc] at h
      dsimp only at h
      rcases hr : loadGroup reg c f la name symbols rest with e | _ | l'
      · rw [hr] at h; cases h
      · rw [hr] at h; cases h
      · rw [hr] at h
        dsimp only at h
        rcases hl : reg.load ⟨name, s⟩ fd with e | t
        · rw [hl] at h; cases h
        · rw [hl] at h
          cases h
          obtain ⟨i1, i2⟩ := ih hr
          refine ⟨by simp [i1], ?_⟩
          intro e he
          rcases List.mem_cons.1 he with rfl | he
          · exact ⟨fd, hc, hl⟩
          · exact i2 e he

theorem loadGroup_ok {reg : MReg} (c : MCache M) (f : DateFields) (la : Nat) {name : String}
    (symbols : List Sym) (rest : List Sym) {s : MSource} (hs : reg.get name = some s) :
    ∃ r, loadGroup reg c f la name symbols rest = .ok r := by
  induction rest with
  | nil => exact ⟨_, rfl⟩
  | cons x rest ih =>
    simp only [loadGroup]
    split
    · exact ⟨_, rfl⟩
    · obtain ⟨r, hr⟩ := ih
      rw [hr]
      rcases r with _ | l
      · exact ⟨_, rfl⟩
      · simp only [MReg.load, hs]
        exact ⟨_, rfl⟩

theorem cachedLoop_spec {reg : MReg} {fit : DateFields → Nat → H → MTask → Except MErr (Fitted M)}
    {syms : List MSym} {groups : MGroups} (hr : ModelRequest reg syms groups) {c : MCache M}
    (hg : ModelsGood reg fit (some c)) {f : DateFields} {la : Nat} (hy : H)
    {ps : List MSym} (hps : ∀ p ∈ ps, p ∈ syms ∧ reg.usesHyper p.model = false)
    {done : List (String × List Sym)} {models : List (MSym × Trained M)} {left : List MSym}
    (h : cachedLoop reg c f la groups ps done = .ok (models, left)) :
    (∀ e ∈ models, e.1 ∈ syms ∧ ModelOf reg (fit f la hy) groups e.1 e.2) ∧
    (∀ p ∈ left, p ∈ ps) ∧
    ∀ p ∈ ps, p ∈ models.map Prod.fst ∨ p ∈ left ∨ ∃ l, groupOf groups p = some l ∧
      ((p.model, l) ∈ done ∨ ∃ q ∈ left, q.model = p.model ∧ groupOf groups q = some l) := by
  induction ps generalizing done models left with
  | nil => cases h; simp
  | cons p rest ih =>
    have ihp := fun q hq => hps q (List.mem_cons_of_mem _ hq)
    obtain ⟨hp, hu⟩ := hps p List.mem_cons_self
    simp only [cachedLoop] at h
    rcases hgo : groupOf groups p with _ | l
    · rw [hgo] at h
      dsimp only at h
      rcases hc : c (mKey f la p none) with _ | fd
      · rw [hc] at h
        dsimp only at h
        rcases hl : cachedLoop reg c f la groups rest done with e | ⟨ms, lf⟩
        · rw [hl] at h; cases h
        · rw [hl] at h
          cases h
          obtain ⟨i1, i2, i3⟩ := ih ihp hl
          refine ⟨i1, ?_, ?_⟩
          · intro q hq
            rcases List.mem_cons.1 hq with rfl | hq
            · exact List.mem_cons_self
            · exact List.mem_cons_of_mem _ (i2 q hq)
          · intro q hq
            rcases List.mem_cons.1 hq with rfl | hq
            · exact .inr (.inl List.mem_cons_self)
            · rcases i3 q hq with h | h | ⟨l, h1, h2⟩
              · exact .inl h
              · exact .inr (.inl (List.mem_cons_of_mem _ h))
              · refine .inr (.inr ⟨l, h1, ?_⟩)
                rcases h2 with h2 | ⟨q', h2, h3⟩
                · exact .inl h2
                · exact .inr ⟨q', List.mem_cons_of_mem _ h2, h3⟩
      · rw [hc] at h
        dsimp only at h
        rcases hld : reg.load p fd with e | t
        · rw [hld] at h; cases h
        · rw [hld] at h
          dsimp only at h
          rcases hl : cachedLoop reg c f la groups rest done with e | ⟨ms, lf⟩
          · rw [hl] at h; cases h
          · rw [hl] at h
            cases h
            obtain ⟨i1, i2, i3⟩ := ih ihp hl
            refine ⟨?_, fun q hq => List.mem_cons_of_mem _ (i2 q hq), ?_⟩
            · intro e he
              rcases List.mem_cons.1 he with rfl | he
              · refine ⟨hp, ?_⟩
                obtain ⟨s, h1, h2⟩ := load_ok hld
                refine ⟨s, fd, h1, ?_, h2⟩
                rw [hgo]
                exact hg c rfl f la p none fd hc hu hy
              · exact i1 e he
            · intro q hq
              rcases List.mem_cons.1 hq with rfl | hq
              · exact .inl (by simp)
              · rcases i3 q hq with h | h
                · exact .inl (by rw [List.map_cons]; exact List.mem_cons_of_mem _ h)
                · exact .inr h
    · rw [hgo] at h
      dsimp only at h
      split at h
      · rename_i hd
        obtain ⟨i1, i2, i3⟩ := ih ihp h
        refine ⟨i1, fun q hq => List.mem_cons_of_mem _ (i2 q hq), ?_⟩
        intro q hq
        rcases List.mem_cons.1 hq with rfl | hq
        · exact .inr (.inr ⟨l, hgo, .inl hd⟩)
        · exact i3 q hq
      · rename_i hd
        rcases hlg : loadGroup reg c f la p.model l l with e | r
        · rw [hlg] at h; cases h
        · rw [hlg] at h
          dsimp only at h
          rcases hl : cachedLoop reg c f la groups rest ((p.model, l) :: done) with e | ⟨ms, lf⟩
          · rw [hl] at h; cases h
          · rw [hl] at h
            dsimp only at h
            obtain ⟨i1, i2, i3⟩ := ih ihp hl
            obtain ⟨g, hgm, hg1, hg2, hg3⟩ := groupOf_some hgo
            subst hg3
            rcases r with _ | l'
            · cases h
              refine ⟨i1, ?_, ?_⟩
              · intro q hq
                rcases List.mem_cons.1 hq with rfl | hq
                · exact List.mem_cons_self
                · exact List.mem_cons_of_mem _ (i2 q hq)
              · intro q hq
                rcases List.mem_cons.1 hq with rfl | hq
                · exact .inr (.inl List.mem_cons_self)
                · rcases i3 q hq with h | h | ⟨l, h1, h2⟩
                  · exact .inl h
                  · exact .inr (.inl (List.mem_cons_of_mem _ h))
                  · refine .inr (.inr ⟨l, h1, ?_⟩)
                    rcases h2 with h2 | ⟨q', h2, h3⟩
                    · rcases List.mem_cons.1 h2 with h2 | h2
                      · rw [Prod.mk.injEq] at h2
                        refine .inr ⟨p, List.mem_cons_self, h2.1.symm, ?_⟩
                        rw [h2.2]
                        exact hgo
                      · exact .inl h2
                    · exact .inr ⟨q', List.mem_cons_of_mem _ h2, h3⟩
            · cases h
              obtain ⟨k1, k2⟩ := loadGroup_spec hlg
              refine ⟨?_, fun q hq => List.mem_cons_of_mem _ (i2 q hq), ?_⟩
              · intro e he
                rcases List.mem_append.1 he with he | he
                · have hm : e.1 ∈ l'.map Prod.fst := List.mem_map.2 ⟨e, he, rfl⟩
                  rw [k1] at hm
                  obtain ⟨s, hs, hes⟩ := List.mem_map.1 hm
                  have hgs := groupOf_group hr hgm hs
                  rw [hg1, hes] at hgs
                  obtain ⟨fd, hc, hld⟩ := k2 e he
                  obtain ⟨src, h1, h2⟩ := load_ok hld
                  refine ⟨?_, src, fd, h1, ?_, h2⟩
                  · rw [← hes, ← hg1]; exact hr.requested g hgm s hs
                  · rw [hgs]
                    refine hg c rfl f la e.1 (some g.2) fd hc ?_ hy
                    rw [← hes]
                    exact hu
                · exact i1 e he
              · have hmem : ∀ q : MSym, q.model = p.model → groupOf groups q = some g.2 →
                    q ∈ (l' ++ ms).map Prod.fst := by
                  intro q h1 h2
                  rw [List.map_append, List.mem_append, k1]
                  left
                  obtain ⟨g', -, -, h5, h6⟩ := groupOf_some h2
                  refine List.mem_map.2 ⟨q.symbol, by rw [← h6]; exact h5, ?_⟩
                  rw [← h1]
                intro q hq
                rcases List.mem_cons.1 hq with rfl | hq
                · exact .inl (hmem _ rfl hgo)
                · rcases i3 q hq with h | h | ⟨l, h1, h2⟩
                  · exact .inl (by rw [List.map_append]; exact List.mem_append_right _ h)
                  · exact .inr (.inl h)
                  · rcases h2 with h2 | h2
                    · rcases List.mem_cons.1 h2 with h2 | h2
                      · rw [Prod.mk.injEq] at h2
                        exact .inl (hmem q h2.1 (by rw [h1, h2.2]))
                      · exact .inr (.inr ⟨l, h1, .inl h2⟩)
                    · exact .inr (.inr ⟨l, h1, .inr h2⟩)

theorem cachedLoop_ok {reg : MReg} {groups : MGroups} (c : MCache M) (f : DateFields) (la : Nat)
    {ps : List MSym} (hps : ∀ p ∈ ps, ∃ s, reg.get p.model = some s) (done : List (String × List Sym)) :
    ∃ r, cachedLoop reg c f la groups ps done = .ok r := by
  induction ps generalizing done with
  | nil => exact ⟨_, rfl⟩
  | cons p rest ih =>
    have ihp := ih (fun q hq => hps q (List.mem_cons_of_mem _ hq))
    obtain ⟨s, hs⟩ := hps p List.mem_cons_self
    simp only [cachedLoop]
    rcases groupOf groups p with _ | l
    · dsimp only
      obtain ⟨r, hr⟩ := ihp done
      rcases c (mKey f la p none) with _ | fd
      · dsimp only; rw [hr]; exact ⟨_, rfl⟩
      · simp only [MReg.load, hs, hr]; exact ⟨_, rfl⟩
    · dsimp only
      split
      · exact ihp done
      · obtain ⟨r, hr⟩ := ihp ((p.model, l) :: done)
        obtain ⟨r', hr'⟩ := loadGroup_ok c f la l l hs
        rw [hr', hr]
        dsimp only
        rcases r' with _ | l'
        · exact ⟨_, rfl⟩
        · exact ⟨_, rfl⟩

theorem getCachedModels_spec {reg : MReg} {fit : DateFields → Nat → H → MTask → Except MErr (Fitted M)}
    {syms : List MSym} {groups : MGroups} (hr : ModelRequest reg syms groups) {cache : Option (MCache M)}
    (hg : ModelsGood reg fit cache) {f : DateFields} {la : Nat} (hy : H)
    {models : List (MSym × Trained M)} {left : List MSym}
    (h : getCachedModels reg cache f la groups syms = .ok (models, left)) :
    (models.map Prod.fst).Nodup ∧
    (∀ e ∈ models, e.1 ∈ syms ∧ ModelOf reg (fit f la hy) groups e.1 e.2) ∧
    (∀ p ∈ left, p ∈ syms) ∧
    ∀ p ∈ syms, p ∈ models.map Prod.fst ∨ p ∈ left ∨ ∃ l, groupOf groups p = some l ∧
      ∃ q ∈ left, q.model = p.model ∧ groupOf groups q = some l := by
  unfold getCachedModels at h
  dsimp only at h
  rcases cache with _ | c
  · cases h
    refine ⟨by simp, by simp, fun p hp => (List.mem_insertionSort _).1 hp, ?_⟩
    intro p hp
    exact .inr (.inl ((List.mem_insertionSort _).2 hp))
  · dsimp only at h
    rcases hl : cachedLoop reg c f la groups ((syms.insertionSort mLE).filter
        (fun p => ! reg.usesHyper p.model)) [] with e | ⟨ms, lf⟩
    · rw [hl] at h; cases h
    · rw [hl] at h
      cases h
      obtain ⟨i1, i2, i3⟩ := cachedLoop_spec hr hg hy (by
        intro p hp
        rw [List.mem_filter, List.mem_insertionSort] at hp
        exact ⟨hp.1, by simpa using hp.2⟩) hl
      have hmem : ∀ p, p ∈ (if (syms.insertionSort mLE).filter (fun p => reg.usesHyper p.model) = [] then lf
          else (lf ++ (syms.insertionSort mLE).filter (fun p => reg.usesHyper p.model)).insertionSort mLE) ↔
          p ∈ lf ∨ (p ∈ syms ∧ reg.usesHyper p.model = true) := by
        intro p
        have hf : p ∈ (syms.insertionSort mLE).filter (fun p => reg.usesHyper p.model) ↔
            p ∈ syms ∧ reg.usesHyper p.model = true := by
          rw [List.mem_filter, List.mem_insertionSort]
        split
        · rename_i h0
          rw [h0] at hf
          rw [← hf]
          simp
        · rw [List.mem_insertionSort, List.mem_append, hf]
      refine ⟨foldPut_nodup _ (by simp), ?_, ?_, ?_⟩
      · intro e he
        rcases foldPut_mem he with he | he
        · exact i1 e he
        · cases he
      · intro p hp
        rcases (hmem p).1 hp with hp | hp
        · have := i2 p hp
          rw [List.mem_filter, List.mem_insertionSort] at this
          exact this.1
        · exact hp.1
      · intro p hp
        by_cases hu : reg.usesHyper p.model = true
        · exact .inr (.inl ((hmem p).2 (.inr ⟨hp, hu⟩)))
        · have := i3 p (by
            rw [List.mem_filter, List.mem_insertionSort]
            exact ⟨hp, by simpa using hu⟩)
          rcases this with h | h | ⟨l, h1, h2⟩
          · exact .inl ((foldPut_keys _ _ _).2 (.inl h))
          · exact .inr (.inl ((hmem p).2 (.inl h)))
          · rcases h2 with h2 | ⟨q, h2, h3⟩
            · cases h2
            · exact .inr (.inr ⟨l, h1, q, (hmem q).2 (.inl h2), h3⟩)

theorem getCachedModels_ok {reg : MReg} {syms : List MSym} {groups : MGroups} (cache : Option (MCache M))
    (f : DateFields) (la : Nat) (hps : ∀ p ∈ syms, ∃ s, reg.get p.model = some s) :
    ∃ r, getCachedModels reg cache f la groups syms = .ok r := by
  unfold getCachedModels
  dsimp only
  rcases cache with _ | c
  · exact ⟨_, rfl⟩
  · obtain ⟨r, hr⟩ := cachedLoop_ok (groups := groups) c f la
      (ps := (syms.insertionSort mLE).filter (fun p => ! reg.usesHyper p.model)) (by
        intro p hp
        rw [List.mem_filter, List.mem_insertionSort] at hp
        exact hps p hp.1) []
    dsimp only
    rw [hr]
    exact ⟨_, rfl⟩

/-! ### Tasks -/

theorem mem_groupPairs {g : (String × Nat) × List Sym} {p : MSym} :
    p ∈ groupPairs g ↔ p.model = g.1.1 ∧ p.symbol ∈ g.2 := by
  unfold groupPairs
  rw [List.mem_map]
  constructor
  · rintro ⟨s, hs, rfl⟩; exact ⟨rfl, hs⟩
  · rintro ⟨h1, h2⟩; exact ⟨p.symbol, h2, by rw [← h1]⟩

theorem groupTasks_spec {reg : MReg} {have_ left : List MSym} {groups : MGroups}
    {l : List (MTask × List MSym)} (h : groupTasks reg have_ left groups = .ok l) :
    (∀ x ∈ l, ∃ g ∈ groups, (∃ p, p ∈ groupPairs g) ∧
      x = (.pooled g.1.1 (g.2.insertionSort (· ≤ ·)), groupPairs g)) ∧
    ∀ g ∈ groups, (∀ p ∈ groupPairs g, p ∈ have_) ∨ (∀ p ∈ groupPairs g, p ∉ left) ∨
      (MTask.pooled g.1.1 (g.2.insertionSort (· ≤ ·)), groupPairs g) ∈ l := by
  induction groups generalizing l with
  | nil => cases h; simp
  | cons g rest ih =>
    simp only [groupTasks] at h
    split at h
    · rename_i ha
      obtain ⟨i1, i2⟩ := ih h
      refine ⟨fun x hx => ?_, ?_⟩
      · obtain ⟨g', hg', hx⟩ := i1 x hx; exact ⟨g', List.mem_cons_of_mem _ hg', hx⟩
      · intro g' hg'
        rcases List.mem_cons.1 hg' with rfl | hg'
        · left; simpa using ha
        · exact i2 g' hg'
    · split at h
      · rename_i ha
        obtain ⟨i1, i2⟩ := ih h
        refine ⟨fun x hx => ?_, ?_⟩
        · obtain ⟨g', hg', hx⟩ := i1 x hx; exact ⟨g', List.mem_cons_of_mem _ hg', hx⟩
        · intro g' hg'
          rcases List.mem_cons.1 hg' with rfl | hg'
          · right; left; simpa using ha
          · exact i2 g' hg'
      · rename_i hall _
        rcases hs : reg.get g.1.1 with _ | s
        · rw [hs] at h; cases h
        · rw [hs] at h
          dsimp only at h
          split at h
          · cases h
          · rcases hr : groupTasks reg have_ left rest with e | l'
            · rw [hr] at h; cases h
            · rw [hr] at h
              cases h
              obtain ⟨i1, i2⟩ := ih hr
              refine ⟨fun x hx => ?_, ?_⟩
              · rcases List.mem_cons.1 hx with rfl | hx
                · refine ⟨g, List.mem_cons_self, ?_, rfl⟩
                  rcases hgp : groupPairs g with _ | ⟨p, l⟩
                  · rw [hgp] at hall; simp at hall
                  · exact ⟨p, List.mem_cons_self⟩
                · obtain ⟨g', hg', hx⟩ := i1 x hx; exact ⟨g', List.mem_cons_of_mem _ hg', hx⟩
              · intro g' hg'
                rcases List.mem_cons.1 hg' with rfl | hg'
                · right; right; exact List.mem_cons_self
                · rcases i2 g' hg' with h | h | h
                  · exact .inl h
                  · exact .inr (.inl h)
                  · exact .inr (.inr (List.mem_cons_of_mem _ h))

theorem groupTasks_ok {reg : MReg} (have_ left : List MSym) {groups : MGroups}
    (hp : ∀ g ∈ groups, ∃ s, reg.get g.1.1 = some s ∧ s.kind = .trainer true) :
    ∃ l, groupTasks reg have_ left groups = .ok l := by
  induction groups with
  | nil => exact ⟨_, rfl⟩
  | cons g rest ih =>
    obtain ⟨l, hl⟩ := ih (fun g' hg' => hp g' (List.mem_cons_of_mem _ hg'))
    obtain ⟨s, hs, hk⟩ := hp g List.mem_cons_self
    simp only [groupTasks, hs, hl]
    split
    · exact ⟨_, rfl⟩
    · split
      · exact ⟨_, rfl⟩
      · rw [if_neg (by simp [hk])]; exact ⟨_, rfl⟩

theorem symTasks_spec {reg : MReg} {skip left tr ld : List MSym}
    (h : symTasks reg skip left = .ok (tr, ld)) :
    (∀ p ∈ tr ++ ld, p ∈ left ∧ p ∉ skip) ∧
    ∀ p ∈ left, p ∈ skip ∨ p ∈ tr ++ ld ∨ ∃ s, reg.get p.model = some s ∧ s.kind = .trainer true := by
  induction left generalizing tr ld with
  | nil => cases h; simp
  | cons p rest ih =>
    simp only [symTasks] at h
    split at h
    · rename_i hsk
      obtain ⟨i1, i2⟩ := ih h
      refine ⟨fun q hq => ⟨List.mem_cons_of_mem _ (i1 q hq).1, (i1 q hq).2⟩, ?_⟩
      intro q hq
      rcases List.mem_cons.1 hq with rfl | hq
      · exact .inl hsk
      · exact i2 q hq
    · rename_i hsk
      rcases hs : reg.get p.model with _ | s
      · rw [hs] at h; cases h
      · rw [hs] at h
        dsimp only at h
        rcases hk : s.kind with _ | pooled
        · rw [hk] at h
          dsimp only at h
          split at h
          · cases h
          · rcases hr : symTasks reg skip rest with e | ⟨tr', ld'⟩
            · rw [hr] at h; cases h
            · rw [hr] at h
              cases h
              obtain ⟨i1, i2⟩ := ih hr
              constructor
              · intro q hq
                rw [List.mem_append, List.mem_cons] at hq
                rcases hq with hq | rfl | hq
                · exact ⟨List.mem_cons_of_mem _ (i1 q (List.mem_append_left _ hq)).1,
                    (i1 q (List.mem_append_left _ hq)).2⟩
                · exact ⟨List.mem_cons_self, hsk⟩
                · exact ⟨List.mem_cons_of_mem _ (i1 q (List.mem_append_right _ hq)).1,
                    (i1 q (List.mem_append_right _ hq)).2⟩
              · intro q hq
                rcases List.mem_cons.1 hq with rfl | hq
                · exact .inr (.inl (by simp))
                · rcases i2 q hq with h | h | h
                  · exact .inl h
                  · rw [List.mem_append] at h
                    right; left
                    rw [List.mem_append, List.mem_cons]
                    tauto
                  · exact .inr (.inr h)
        · rw [hk] at h
          dsimp only at h
          split at h
          · rename_i hp
            obtain ⟨i1, i2⟩ := ih h
            refine ⟨fun q hq => ⟨List.mem_cons_of_mem _ (i1 q hq).1, (i1 q hq).2⟩, ?_⟩
            intro q hq
            rcases List.mem_cons.1 hq with rfl | hq
            · exact .inr (.inr ⟨s, hs, by rw [hk, hp.2]⟩)
            · exact i2 q hq
          · rcases hr : symTasks reg skip rest with e | ⟨tr', ld'⟩
            · rw [hr] at h; cases h
            · rw [hr] at h
              cases h
              obtain ⟨i1, i2⟩ := ih hr
              constructor
              · intro q hq
                rw [List.cons_append, List.mem_cons] at hq
                rcases hq with rfl | hq
                · exact ⟨List.mem_cons_self, hsk⟩
                · exact ⟨List.mem_cons_of_mem _ (i1 q hq).1, (i1 q hq).2⟩
              · intro q hq
                rcases List.mem_cons.1 hq with rfl | hq
                · exact .inr (.inl (by simp))
                · rcases i2 q hq with h | h | h
                  · exact .inl h
                  · right; left
                    rw [List.cons_append]
                    exact List.mem_cons_of_mem _ h
                  · exact .inr (.inr h)

theorem symTasks_ok {reg : MReg} (skip : List MSym) {left : List MSym}
    (hp : ∀ p ∈ left, ∃ s, reg.get p.model = some s ∧ (s.kind = .loader → mInterval p.model = none)) :
    ∃ r, symTasks reg skip left = .ok r := by
  induction left with
  | nil => exact ⟨_, rfl⟩
  | cons p rest ih =>
    obtain ⟨⟨tr, ld⟩, hl⟩ := ih (fun g' hg' => hp g' (List.mem_cons_of_mem _ hg'))
    obtain ⟨s, hs, hk⟩ := hp p List.mem_cons_self
    simp only [symTasks, hs, hl]
    split
    · exact ⟨_, rfl⟩
    · rcases hkk : s.kind with _ | pooled
      · dsimp only
        rw [if_neg (by simp [hk hkk])]
        exact ⟨_, rfl⟩
      · dsimp only
        split
        · exact ⟨_, rfl⟩
        · exact ⟨_, rfl⟩

theorem runTasks_spec {fit : MTask → Except MErr (Fitted M)} {ts : List (MTask × List MSym)}
    {r : List (MSym × MTask × Fitted M)} (h : runTasks fit ts = .ok r) :
    (∀ e ∈ r, ∃ x ∈ ts, x.1 = e.2.1 ∧ e.1 ∈ x.2 ∧ fit e.2.1 = .ok e.2.2) ∧
    (∀ p, p ∈ r.map Prod.fst ↔ ∃ x ∈ ts, p ∈ x.2) ∧ ∀ x ∈ ts, ∃ fd, fit x.1 = .ok fd := by
  induction ts generalizing r with
  | nil => cases h; simp
  | cons x rest ih =>
    obtain ⟨t, ps⟩ := x
    simp only [runTasks] at h
    rcases hf : fit t with e | fd
    · rw [hf] at h; cases h
    · rw [hf] at h
      dsimp only at h
      rcases hr : runTasks fit rest with e | l
      · rw [hr] at h; cases h
      · rw [hr] at h
        cases h
        obtain ⟨i1, i2, i3⟩ := ih hr
        refine ⟨?_, ?_, ?_⟩
        · intro e he
          rcases List.mem_append.1 he with he | he
          · obtain ⟨p, hp, rfl⟩ := List.mem_map.1 he
            exact ⟨(t, ps), List.mem_cons_self, rfl, hp, hf⟩
          · obtain ⟨x, hx, h1⟩ := i1 e he
            exact ⟨x, List.mem_cons_of_mem _ hx, h1⟩
        · intro p
          rw [List.map_append, List.mem_append, i2, List.map_map]
          simp only [List.mem_cons, List.mem_map, Function.comp]
          constructor
          · rintro (⟨q, hq, rfl⟩ | ⟨x, hx, hp⟩)
            · exact ⟨(t, ps), .inl rfl, hq⟩
            · exact ⟨x, .inr hx, hp⟩
          · rintro ⟨x, rfl | hx, hp⟩
            · exact .inl ⟨p, hp, rfl⟩
            · exact .inr ⟨x, hx, hp⟩
        · intro x hx
          rcases List.mem_cons.1 hx with rfl | hx
          · exact ⟨fd, hf⟩
          · exact i3 x hx

theorem runTasks_ok {fit : MTask → Except MErr (Fitted M)} {ts : List (MTask × List MSym)}
    (h : ∀ x ∈ ts, ∃ fd, fit x.1 = .ok fd) : ∃ r, runTasks fit ts = .ok r := by
  induction ts with
  | nil => exact ⟨_, rfl⟩
  | cons x rest ih =>
    obtain ⟨t, ps⟩ := x
    obtain ⟨fd, hf⟩ := h _ List.mem_cons_self
    obtain ⟨l, hl⟩ := ih (fun y hy => h y (List.mem_cons_of_mem _ hy))
    simp only at hf
    simp only [runTasks, hf, hl]
    exact ⟨_, rfl⟩

theorem setCached_good {reg : MReg} {fit : DateFields → Nat → H → MTask → Except MErr (Fitted M)}
    (hd : FixedData reg fit) {cache : Option (MCache M)} (hg : ModelsGood reg fit cache)
    {f : DateFields} {la : Nat} {hy : H} {p : MSym} {t : MTask} {fd : Fitted M}
    (ht : entryTask p t.pooledSymbols = t) (hf : fit f la hy t = .ok fd) :
    ModelsGood reg fit (setCachedModel reg f la cache p t fd) := by
  unfold setCachedModel
  rcases cache with _ | c
  · exact hg
  · dsimp only
    split
    · exact hg
    · rename_i hu
      intro c' hc' f' la' p' pl' fd' hk hu' hy'
      cases hc'
      dsimp only at hk
      split at hk
      · rename_i he
        cases hk
        obtain ⟨h1, h2, h3⟩ := mKey_same hd he
        subst h1
        rw [h3, ht]
        rw [hd.hyper f la hy' hy t (by rw [← ht, entryTask_model]; exact not_tuned hu')]
        exact hf
      · exact hg c rfl f' la' p' pl' fd' hk hu' hy'

theorem enterModels_spec {reg : MReg} {fit : DateFields → Nat → H → MTask → Except MErr (Fitted M)}
    (hd : FixedData reg fit) {f : DateFields} {la : Nat} {hy : H}
    {rs : List (MSym × MTask × Fitted M)}
    (hrs : ∀ e ∈ rs, entryTask e.1 e.2.1.pooledSymbols = e.2.1 ∧ fit f la hy e.2.1 = .ok e.2.2)
    {out out' : List (MSym × Trained M)} {cache cache' : Option (MCache M)}
    (hg : ModelsGood reg fit cache) (hn : (out.map Prod.fst).Nodup)
    (h : enterModels reg f la rs out cache = .ok (out', cache')) :
    ModelsGood reg fit cache' ∧ (out'.map Prod.fst).Nodup ∧
    (∀ p, p ∈ out'.map Prod.fst ↔ p ∈ rs.map Prod.fst ∨ p ∈ out.map Prod.fst) ∧
    ∀ e ∈ out', e ∈ out ∨ ∃ r ∈ rs, e.1 = r.1 ∧ reg.load r.1 r.2.2 = .ok e.2 := by
  induction rs generalizing out cache with
  | nil => cases h; exact ⟨hg, hn, by simp, fun e he => .inl he⟩
  | cons r rs ih =>
    obtain ⟨p, t, fd⟩ := r
    simp only [enterModels] at h
    rcases hl : reg.load p fd with e | tr
    · rw [hl] at h; cases h
    · rw [hl] at h
      dsimp only at h
      obtain ⟨h1, h2⟩ := hrs _ List.mem_cons_self
      obtain ⟨i1, i2, i3, i4⟩ := ih (fun e he => hrs e (List.mem_cons_of_mem _ he))
        (setCached_good hd hg h1 h2) (assocPut_nodup hn _ _) h
      refine ⟨i1, i2, ?_, ?_⟩
      · intro q
        rw [i3, assocPut_keys, List.map_cons, List.mem_cons]
        tauto
      · intro e he
        rcases i4 e he with he | ⟨r, hr, h3⟩
        · rcases assocPut_mem he with rfl | he
          · exact .inr ⟨_, List.mem_cons_self, rfl, hl⟩
          · exact .inl he
        · exact .inr ⟨r, List.mem_cons_of_mem _ hr, h3⟩

theorem enterModels_ok {reg : MReg} (f : DateFields) (la : Nat) {rs : List (MSym × MTask × Fitted M)}
    (hrs : ∀ e ∈ rs, ∃ s, reg.get e.1.model = some s) (out : List (MSym × Trained M))
    (cache : Option (MCache M)) : ∃ r, enterModels reg f la rs out cache = .ok r := by
  induction rs generalizing out cache with
  | nil => exact ⟨_, rfl⟩
  | cons r rs ih =>
    obtain ⟨p, t, fd⟩ := r
    obtain ⟨s, hs⟩ := hrs _ List.mem_cons_self
    simp only at hs
    simp only [enterModels, MReg.load, hs]
    exact ih (fun e he => hrs e (List.mem_cons_of_mem _ he)) _ _

/-! ### The whole call -/

/-- What the tasks of a call are. -/
theorem tasks_right {reg : MReg} {syms : List MSym} {groups : MGroups} (hr : ModelRequest reg syms groups)
    {have_ left : List MSym} (hleft : ∀ p ∈ left, p ∈ syms) {gts : List (MTask × List MSym)}
    (h1 : groupTasks reg have_ left groups = .ok gts) {tr ld : List MSym}
    (h2 : symTasks reg (have_ ++ gts.flatMap Prod.snd) left = .ok (tr, ld)) :
    ∀ x ∈ gts ++ (tr ++ ld).map (fun p => (MTask.sym p, [p])), ∀ p ∈ x.2,
      p ∈ syms ∧ entryTask p (groupOf groups p) = x.1 ∧ entryTask p x.1.pooledSymbols = x.1 := by
  obtain ⟨a1, a2⟩ := groupTasks_spec h1
  obtain ⟨b1, b2⟩ := symTasks_spec h2
  intro x hx p hp
  rcases List.mem_append.1 hx with hx | hx
  · obtain ⟨g, hg, -, rfl⟩ := a1 x hx
    rw [mem_groupPairs] at hp
    obtain ⟨m, s⟩ := p
    simp only at hp
    obtain ⟨rfl, hs⟩ := hp
    refine ⟨hr.requested g hg s hs, ?_, ?_⟩
    · rw [groupOf_group hr hg hs]; rfl
    · simp only [MTask.pooledSymbols, entryTask]
      rw [sort_eq_of_perm (List.perm_insertionSort (· ≤ ·) g.2)]
  · obtain ⟨q, hq, rfl⟩ := List.mem_map.1 hx
    simp only [List.mem_singleton] at hp
    subst hp
    obtain ⟨c1, c2⟩ := b1 p hq
    refine ⟨hleft p c1, ?_, rfl⟩
    rcases hgo : groupOf groups p with _ | l
    · rfl
    · exfalso
      obtain ⟨g, hg, g1, g2, g3⟩ := groupOf_some hgo
      have hpg : p ∈ groupPairs g := mem_groupPairs.2 ⟨g1.symm, g2⟩
      rw [List.mem_append] at c2
      rcases a2 g hg with h | h | h
      · exact c2 (.inl (h p hpg))
      · exact h p hpg c1
      · exact c2 (.inr (List.mem_flatMap.2 ⟨_, h, hpg⟩))

/-- Every pair without a cached model has a task. -/
theorem tasks_cover {reg : MReg} {syms : List MSym} {groups : MGroups} (hr : ModelRequest reg syms groups)
    {have_ left : List MSym}
    (hcov : ∀ p ∈ syms, p ∈ have_ ∨ p ∈ left ∨ ∃ l, groupOf groups p = some l ∧
      ∃ q ∈ left, q.model = p.model ∧ groupOf groups q = some l)
    {gts : List (MTask × List MSym)}
    (h1 : groupTasks reg have_ left groups = .ok gts) {tr ld : List MSym}
    (h2 : symTasks reg (have_ ++ gts.flatMap Prod.snd) left = .ok (tr, ld)) {p : MSym} (hp : p ∈ syms) :
    p ∈ have_ ∨ ∃ x ∈ gts ++ (tr ++ ld).map (fun p => (MTask.sym p, [p])), p ∈ x.2 := by
  obtain ⟨a1, a2⟩ := groupTasks_spec h1
  obtain ⟨b1, b2⟩ := symTasks_spec h2
  have viaGroup : ∀ g ∈ groups, p ∈ groupPairs g → (∃ q ∈ groupPairs g, q ∈ left) →
      p ∈ have_ ∨ ∃ x ∈ gts ++ (tr ++ ld).map (fun p => (MTask.sym p, [p])), p ∈ x.2 := by
    rintro g hg hpg ⟨q, hq, hql⟩
    rcases a2 g hg with h | h | h
    · exact .inl (h p hpg)
    · exact absurd hql (h q hq)
    · exact .inr ⟨_, List.mem_append_left _ h, hpg⟩
  rcases hcov p hp with h | h | ⟨l, hl, q, hq, hqm, hql⟩
  · exact .inl h
  · rcases b2 p h with h3 | h3 | ⟨s, hs, hk⟩
    · rw [List.mem_append] at h3
      rcases h3 with h3 | h3
      · exact .inl h3
      · obtain ⟨x, hx, hpx⟩ := List.mem_flatMap.1 h3
        exact .inr ⟨x, List.mem_append_left _ hx, hpx⟩
    · exact .inr ⟨(.sym p, [p]), List.mem_append_right _ (List.mem_map.2 ⟨p, h3, rfl⟩), by simp⟩
    · obtain ⟨s', hs', -, hg⟩ := hr.registered p hp
      rw [hs] at hs'
      cases hs'
      obtain ⟨g, hg, g1, g2⟩ := hg hk
      have hpg : p ∈ groupPairs g := mem_groupPairs.2 ⟨g1.symm, g2⟩
      exact viaGroup g hg hpg ⟨p, hpg, h⟩
  · obtain ⟨g, hg, g1, g2, rfl⟩ := groupOf_some hl
    obtain ⟨g', hg', g1', g2', g3'⟩ := groupOf_some hql
    refine viaGroup g hg (mem_groupPairs.2 ⟨g1.symm, g2⟩) ⟨q, mem_groupPairs.2 ⟨?_, ?_⟩, hq⟩
    · rw [hqm, g1]
    · rw [← g3']; exact g2'

theorem train_spec {reg : MReg} {fit : DateFields → Nat → H → MTask → Except MErr (Fitted M)}
    (hd : FixedData reg fit) {syms : List MSym} {groups : MGroups} (hr : ModelRequest reg syms groups)
    {cache cache' : Option (MCache M)} (hg : ModelsGood reg fit cache) {f : DateFields} {la : Nat} {hy : H}
    {out : List (MSym × Trained M)}
    (h : trainModels reg (fit f la hy) syms groups f la cache = .ok (out, cache')) :
    ModelsGood reg fit cache' ∧ (out.map Prod.fst).Nodup ∧ (∀ p, p ∈ out.map Prod.fst ↔ p ∈ syms) ∧
    ∀ e ∈ out, ModelOf reg (fit f la hy) groups e.1 e.2 := by
  unfold trainModels at h
  split at h
  · rename_i h0
    cases h
    refine ⟨hg, by simp, by simp [h0], by simp⟩
  · rcases hc : getCachedModels reg cache f la groups syms with e | ⟨models, left⟩
    · rw [hc] at h; cases h
    · rw [hc] at h
      dsimp only at h
      obtain ⟨a1, a2, a3, a4⟩ := getCachedModels_spec hr hg hy hc
      split at h
      · rename_i h0
        obtain ⟨rfl, h0⟩ := h0
        cases h
        refine ⟨hg, a1, ?_, fun e he => (a2 e he).2⟩
        intro p
        constructor
        · intro hp
          obtain ⟨e, he, rfl⟩ := List.mem_map.1 hp
          exact (a2 e he).1
        · intro hp
          rcases a4 p hp with h | h | ⟨l, -, q, hq, -⟩
          · exact h
          · cases h
          · cases hq
      · rcases h1 : groupTasks reg (models.map Prod.fst) left groups with e | gts
        · rw [h1] at h; cases h
        · rw [h1] at h
          dsimp only at h
          rcases h2 : symTasks reg (models.map Prod.fst ++ gts.flatMap Prod.snd) left with e | ⟨tr, ld⟩
          · rw [h2] at h; cases h
          · rw [h2] at h
            dsimp only at h
            rcases h3 : runTasks (fit f la hy) (gts ++ (tr ++ ld).map (fun p => (.sym p, [p])))
              with e | rs
            · rw [h3] at h; cases h
            · rw [h3] at h
              dsimp only at h
              obtain ⟨b1, b2, b3⟩ := runTasks_spec h3
              have hright := tasks_right hr a3 h1 h2
              obtain ⟨c1, c2, c3, c4⟩ := enterModels_spec hd (by
                intro e he
                obtain ⟨x, hx, h4, h5, h6⟩ := b1 e he
                obtain ⟨-, -, h7⟩ := hright x hx e.1 h5
                rw [h4] at h7
                exact ⟨h7, h6⟩) hg a1 h
              refine ⟨c1, c2, ?_, ?_⟩
              · intro p
                rw [c3, b2]
                constructor
                · rintro (⟨x, hx, hp⟩ | hp)
                  · exact (hright x hx p hp).1
                  · obtain ⟨e, he, rfl⟩ := List.mem_map.1 hp
                    exact (a2 e he).1
                · intro hp
                  rcases tasks_cover hr a4 h1 h2 hp with h | h
                  · exact .inr h
                  · exact .inl h
              · intro e he
                rcases c4 e he with he | ⟨r, hr', h4, h5⟩
                · exact (a2 e he).2
                · obtain ⟨x, hx, h6, h7, h8⟩ := b1 r hr'
                  obtain ⟨-, h9, -⟩ := hright x hx r.1 h7
                  obtain ⟨s, h10, h11⟩ := load_ok h5
                  rw [h4]
                  exact ⟨s, r.2.2, h10, by rw [h9, h6, h8], h11⟩

theorem model_reach_good {reg : MReg} {fit : DateFields → Nat → H → MTask → Except MErr (Fitted M)}
    (hd : FixedData reg fit) {cache : Option (MCache M)} (h : ModelReach reg fit cache) :
    ModelsGood reg fit cache := by
  induction h with
  | start c hc =>
    intro c' hc' f la p pl fd hk
    rw [hc c' hc'] at hk
    cases hk
  | call _ hr hc ih => exact (train_spec hd hr ih hc).1
  | drop hc _ ih =>
    intro c' hc' f la p pl fd hk
    obtain ⟨d0, h1, h2⟩ := hc c' hc' _ _ hk
    exact ih d0 h1 f la p pl fd h2

/-- **C92.** After any history of training calls, with or without the model cache, a call
answers with exactly the requested pairs, each with the model its own task gives in this
window: that of its group if it is in one, with this call's hyperparameters. -/
theorem models_exact {reg : MReg} {fit : DateFields → Nat → H → MTask → Except MErr (Fitted M)}
    (hd : FixedData reg fit) {cache cache' : Option (MCache M)} (h : ModelReach reg fit cache)
    {syms : List MSym} {groups : MGroups} (hr : ModelRequest reg syms groups) {f : DateFields} {la : Nat}
    {hy : H} {out : List (MSym × Trained M)}
    (hc : trainModels reg (fit f la hy) syms groups f la cache = .ok (out, cache')) :
    (out.map Prod.fst).Nodup ∧ (∀ p, p ∈ out.map Prod.fst ↔ p ∈ syms) ∧
    ∀ e ∈ out, ∃ task src fd, TaskFor groups e.1 task ∧ reg.get e.1.model = some src ∧
      fit f la hy task = .ok fd ∧ e.2 = ⟨e.1.model, fd, src.predict⟩ := by
  obtain ⟨-, h1, h2, h3⟩ := train_spec hd hr (model_reach_good hd h) hc
  refine ⟨h1, h2, fun e he => ?_⟩
  obtain ⟨s, fd, h4, h5, h6⟩ := h3 e he
  exact ⟨_, s, fd, taskFor_entry e.1, h4, h5, h6⟩

/-- **C92.** A call succeeds exactly when the task of every requested pair does. -/
theorem models_defined {reg : MReg} {fit : DateFields → Nat → H → MTask → Except MErr (Fitted M)}
    (hd : FixedData reg fit) {cache : Option (MCache M)} (h : ModelReach reg fit cache)
    {syms : List MSym} {groups : MGroups} (hr : ModelRequest reg syms groups) (f : DateFields) (la : Nat)
    (hy : H) :
    (∃ out cache', trainModels reg (fit f la hy) syms groups f la cache = .ok (out, cache')) ↔
      ∀ p ∈ syms, ∀ task, TaskFor groups p task → ∃ fd, fit f la hy task = .ok fd := by
  constructor
  · rintro ⟨out, cache', hc⟩ p hp task ht
    obtain ⟨-, h2, h3⟩ := models_exact hd h hr hc
    obtain ⟨e, he, rfl⟩ := List.mem_map.1 ((h2 p).2 hp)
    obtain ⟨task', src, fd, h4, -, h5, -⟩ := h3 e he
    rw [taskFor_unique hr ht h4]
    exact ⟨fd, h5⟩
  · intro hall
    have hreg : ∀ p ∈ syms, ∃ s, reg.get p.model = some s := fun p hp =>
      let ⟨s, hs, _⟩ := hr.registered p hp
      ⟨s, hs⟩
    have hg := model_reach_good hd h
    suffices ∃ r, trainModels reg (fit f la hy) syms groups f la cache = .ok r from
      let ⟨r, hr⟩ := this
      ⟨r.1, r.2, hr⟩
    unfold trainModels
    split
    · exact ⟨_, rfl⟩
    · obtain ⟨⟨models, left⟩, hc⟩ := getCachedModels_ok (groups := groups) cache f la hreg
      rw [hc]
      dsimp only
      obtain ⟨a1, a2, a3, a4⟩ := getCachedModels_spec hr hg hy hc
      split
      · exact ⟨_, rfl⟩
      · obtain ⟨gts, h1⟩ := groupTasks_ok (reg := reg) (models.map Prod.fst) left hr.pooled
        rw [h1]
        dsimp only
        obtain ⟨⟨tr, ld⟩, h2⟩ := symTasks_ok (reg := reg) (models.map Prod.fst ++ gts.flatMap Prod.snd)
          (left := left) (fun p hp =>
            let ⟨s, hs, hk, _⟩ := hr.registered p (a3 p hp)
            ⟨s, hs, hk⟩)
        rw [h2]
        dsimp only
        have hright := tasks_right hr a3 h1 h2
        obtain ⟨b1, b2⟩ := groupTasks_spec h1
        obtain ⟨rs, h3⟩ := runTasks_ok (fit := fit f la hy)
          (ts := gts ++ (tr ++ ld).map (fun p => (.sym p, [p]))) (by
            intro x hx
            have hne : ∃ p, p ∈ x.2 := by
              rcases List.mem_append.1 hx with hx | hx
              · obtain ⟨g, hg, hp, rfl⟩ := b1 x hx
                exact hp
              · obtain ⟨q, hq, rfl⟩ := List.mem_map.1 hx
                exact ⟨q, by simp⟩
            obtain ⟨p, hp⟩ := hne
            obtain ⟨h5, h6, -⟩ := hright x hx p hp
            rw [← h6]
            exact hall p h5 _ (taskFor_entry p))
        rw [h3]
        dsimp only
        obtain ⟨d1, d2, d3⟩ := runTasks_spec h3
        exact enterModels_ok f la (by
          intro e he
          obtain ⟨x, hx, -, h5, -⟩ := d1 e he
          exact hreg e.1 (hright x hx e.1 h5).1) _ _

end

/-! ### The request of a window -/

namespace Spec

/-- Executions as `add_execution` and the rotation of a universe leave them: no symbol is in
two executions, the models are registered, and pretrained models are not bound to intervals. -/
structure ExecsOk (reg : MReg) (execs : List MExec) : Prop where
  disjoint : ∀ a ∈ execs, ∀ b ∈ execs, ∀ s, s ∈ a.symbols → s ∈ b.symbols → a = b
  registered : ∀ e ∈ execs, ∀ m ∈ e.models, ∃ src, reg.get m = some src ∧
    (src.kind = .loader → mInterval m = none)

/-- What is trained for a model of an execution on a symbol: for a pooled model, all the
execution's symbols that have training data together; for others, the symbol alone. -/
def windowTask (pooled : Bool) (e : MExec) (train : List Sym) (m : String) (s : Sym) : MTask :=
  if pooled then .pooled m ((e.symbols.filter (fun x => x ∈ train)).insertionSort (· ≤ ·))
  else .sym ⟨m, s⟩

end Spec

theorem mem_requestPairs {execs : List MExec} {train : List Sym} {p : MSym} :
    p ∈ requestPairs execs train ↔
      p.symbol ∈ train ∧ ∃ e ∈ execs, p.symbol ∈ e.symbols ∧ p.model ∈ e.models := by
  unfold requestPairs
  rw [List.mem_dedup, List.mem_flatMap]
  constructor
  · rintro ⟨s, hs, h⟩
    rw [List.mem_flatMap] at h
    obtain ⟨e, he, h⟩ := h
    rw [List.mem_filter, decide_eq_true_eq] at he
    obtain ⟨m, hm, rfl⟩ := List.mem_map.1 h
    exact ⟨hs, e, he.1, he.2, hm⟩
  · rintro ⟨hs, e, he, h1, h2⟩
    refine ⟨p.symbol, hs, List.mem_flatMap.2 ⟨e, ?_, List.mem_map.2 ⟨p.model, h2, rfl⟩⟩⟩
    rw [List.mem_filter, decide_eq_true_eq]
    exact ⟨he, h1⟩

theorem mem_requestGroups {reg : MReg} {execs : List MExec} {train : List Sym}
    {g : (String × Nat) × List Sym} :
    g ∈ requestGroups reg execs train ↔ ∃ e ∈ execs, e.symbols.filter (fun s => s ∈ train) ≠ [] ∧
      ∃ m ∈ e.models, (∃ src, reg.get m = some src ∧ src.kind = .trainer true) ∧
        g = ((m, e.id), e.symbols.filter (fun s => s ∈ train)) := by
  unfold requestGroups
  rw [List.mem_flatMap]
  constructor
  · rintro ⟨e, he, h⟩
    dsimp only at h
    split at h
    · cases h
    · rename_i h0
      obtain ⟨m, hm, rfl⟩ := List.mem_map.1 h
      rw [List.mem_filter, List.mem_dedup] at hm
      refine ⟨e, he, h0, m, hm.1, ?_, rfl⟩
      rcases hs : reg.get m with _ | src
      · rw [hs] at hm; simp at hm
      · rw [hs] at hm
        exact ⟨src, rfl, by simpa using hm.2⟩
  · rintro ⟨e, he, h0, m, hm, ⟨src, hs, hk⟩, rfl⟩
    refine ⟨e, he, ?_⟩
    dsimp only
    rw [if_neg h0]
    refine List.mem_map.2 ⟨m, ?_, rfl⟩
    rw [List.mem_filter, List.mem_dedup]
    exact ⟨hm, by rw [hs]; simp [hk]⟩

/-- The request of a window is one the training is specified for. -/
theorem window_request {reg : MReg} {execs : List MExec} (he : ExecsOk reg execs) (train : List Sym) :
    ModelRequest reg (requestPairs execs train) (requestGroups reg execs train) := by
  constructor
  · intro p hp
    obtain ⟨hs, e, hee, h1, h2⟩ := mem_requestPairs.1 hp
    obtain ⟨src, h3, h4⟩ := he.registered e hee p.model h2
    refine ⟨src, h3, h4, fun hk => ?_⟩
    have hmem : p.symbol ∈ e.symbols.filter (fun s => s ∈ train) := by
      rw [List.mem_filter, decide_eq_true_eq]; exact ⟨h1, hs⟩
    exact ⟨((p.model, e.id), e.symbols.filter (fun s => s ∈ train)),
      mem_requestGroups.2 ⟨e, hee, List.ne_nil_of_mem hmem, p.model, h2, ⟨src, h3, hk⟩, rfl⟩,
      rfl, hmem⟩
  · intro g hg
    obtain ⟨e, -, -, m, -, h, rfl⟩ := mem_requestGroups.1 hg
    exact h
  · intro g hg g' hg' _ s hs hs'
    obtain ⟨e, hee, -, m, -, -, rfl⟩ := mem_requestGroups.1 hg
    obtain ⟨e', hee', -, m', -, -, rfl⟩ := mem_requestGroups.1 hg'
    rw [List.mem_filter] at hs hs'
    rw [he.disjoint e hee e' hee' s hs.1 hs'.1]
  · intro g hg s hs
    obtain ⟨e, hee, -, m, hm, -, rfl⟩ := mem_requestGroups.1 hg
    rw [List.mem_filter, decide_eq_true_eq] at hs
    exact mem_requestPairs.2 ⟨hs.2, e, hee, hs.1, hm⟩

/-- **C92.** In a window, after any history, each execution gets the models it named for each
of its symbols with training data, and nothing else: a pooled model is the one trained on all
the execution's symbols with training data in this window, any other the symbol's own. -/
theorem window_models {M H : Type} {reg : MReg}
    {fit : DateFields → Nat → H → MTask → Except MErr (Fitted M)}
    (hd : FixedData reg fit) {cache cache' : Option (MCache M)} (h : ModelReach reg fit cache)
    {execs : List MExec} (he : ExecsOk reg execs) {train : List Sym} {f : DateFields} {la : Nat}
    {hy : H} {out : List (MSym × Trained M)}
    (hc : trainModels reg (fit f la hy) (requestPairs execs train) (requestGroups reg execs train)
      f la cache = .ok (out, cache')) :
    (out.map Prod.fst).Nodup ∧
    ∀ m s t, ((⟨m, s⟩ : MSym), t) ∈ out ↔ s ∈ train ∧ ∃ e ∈ execs, s ∈ e.symbols ∧ m ∈ e.models ∧
      ∃ src fd, reg.get m = some src ∧
        fit f la hy (windowTask (src.kind = .trainer true) e train m s) = .ok fd ∧
        t = ⟨m, fd, src.predict⟩ := by
  obtain ⟨h1, h2, h3⟩ := models_exact hd h (window_request he train) hc
  have key : ∀ m s t, ((⟨m, s⟩ : MSym), t) ∈ out → s ∈ train ∧ ∃ e ∈ execs, s ∈ e.symbols ∧
      m ∈ e.models ∧ ∃ src fd, reg.get m = some src ∧
        fit f la hy (windowTask (src.kind = .trainer true) e train m s) = .ok fd ∧
        t = ⟨m, fd, src.predict⟩ := by
    intro m s t ht
    have hk := (h2 ⟨m, s⟩).1 (List.mem_map.2 ⟨_, ht, rfl⟩)
    obtain ⟨hs, e, hee, k1, k2⟩ := mem_requestPairs.1 hk
    simp only at hs k1 k2
    obtain ⟨task, src, fd, ht1, ht2, ht3, ht4⟩ := h3 _ ht
    simp only at ht1 ht2 ht4
    refine ⟨hs, e, hee, k1, k2, src, fd, ht2, ?_, ht4⟩
    suffices windowTask (src.kind = .trainer true) e train m s = task by rw [this]; exact ht3
    have hmem : s ∈ e.symbols.filter (fun s => s ∈ train) := by
      rw [List.mem_filter, decide_eq_true_eq]; exact ⟨k1, hs⟩
    unfold windowTask
    rcases ht1 with ⟨g, hg, g1, g2, rfl⟩ | ⟨g1, rfl⟩
    · obtain ⟨e', hee', -, m', -, ⟨src', hs', hk'⟩, rfl⟩ := mem_requestGroups.1 hg
      simp only at g1 g2
      subst g1
      rw [ht2] at hs'
      cases hs'
      rw [if_pos (by simpa using hk')]
      rw [List.mem_filter] at g2
      rw [he.disjoint e hee e' hee' s k1 g2.1]
    · rw [if_neg]
      intro hk'
      simp only [decide_eq_true_eq] at hk'
      exact g1 _ (mem_requestGroups.2 ⟨e, hee, List.ne_nil_of_mem hmem, m, k2, ⟨src, ht2, hk'⟩, rfl⟩)
        rfl hmem
  refine ⟨h1, ?_⟩
  · intro m s t
    refine ⟨key m s t, ?_⟩
    rintro ⟨hs, e, hee, k1, k2, src, fd, k3, k4, rfl⟩
    have hk := (h2 ⟨m, s⟩).2 (mem_requestPairs.2 ⟨hs, e, hee, k1, k2⟩)
    obtain ⟨⟨p, t⟩, hp, hpe⟩ := List.mem_map.1 hk
    simp only at hpe
    subst hpe
    obtain ⟨-, e', hee', l1, l2, src', fd', l3, l4, rfl⟩ := key m s t hp
    rw [k3] at l3
    cases l3
    rw [he.disjoint e hee e' hee' s k1 l1, l4] at k4
    cases k4
    exact hp

/-- **C92.** Training in a window succeeds exactly when each of those tasks does. -/
theorem window_models_defined {M H : Type} {reg : MReg}
    {fit : DateFields → Nat → H → MTask → Except MErr (Fitted M)}
    (hd : FixedData reg fit) {cache : Option (MCache M)} (h : ModelReach reg fit cache)
    {execs : List MExec} (he : ExecsOk reg execs) (train : List Sym) (f : DateFields) (la : Nat)
    (hy : H) :
    (∃ out cache', trainModels reg (fit f la hy) (requestPairs execs train)
        (requestGroups reg execs train) f la cache = .ok (out, cache')) ↔
      ∀ e ∈ execs, ∀ s ∈ e.symbols, s ∈ train → ∀ m ∈ e.models, ∀ src, reg.get m = some src →
        ∃ fd, fit f la hy (windowTask (src.kind = .trainer true) e train m s) = .ok fd := by
  constructor
  · rintro ⟨out, cache', hc⟩ e hee s hs hst m hm src hsrc
    obtain ⟨-, h2, -⟩ := models_exact hd h (window_request he train) hc
    have hk := (h2 ⟨m, s⟩).2 (mem_requestPairs.2 ⟨hst, e, hee, hs, hm⟩)
    obtain ⟨⟨p, t⟩, hp, hpe⟩ := List.mem_map.1 hk
    simp only at hpe
    subst hpe
    obtain ⟨-, e', hee', l1, l2, src', fd', l3, l4, rfl⟩ := ((window_models hd h he hc).2 m s t).1 hp
    rw [hsrc] at l3
    cases l3
    rw [he.disjoint e hee e' hee' s hs l1]
    exact ⟨fd', l4⟩
  · intro hall
    rw [models_defined hd h (window_request he train)]
    rintro ⟨m, s⟩ hp task ht
    obtain ⟨hs, e, hee, k1, k2⟩ := mem_requestPairs.1 hp
    simp only at hs k1 k2
    obtain ⟨src, k3, -⟩ := he.registered e hee m k2
    have hmem : s ∈ e.symbols.filter (fun s => s ∈ train) := by
      rw [List.mem_filter, decide_eq_true_eq]; exact ⟨k1, hs⟩
    obtain ⟨fd, hfd⟩ := hall e hee s k1 hs m k2 src k3
    refine ⟨fd, ?_⟩
    rw [← hfd]
    congr 1
    apply taskFor_unique (window_request he train) ht
    unfold windowTask
    by_cases hk : src.kind = .trainer true
    · rw [if_pos (by simpa using hk)]
      exact .inl ⟨_, mem_requestGroups.2 ⟨e, hee, List.ne_nil_of_mem hmem, m, k2, ⟨src, k3, hk⟩, rfl⟩,
        rfl, hmem, rfl⟩
    · rw [if_neg (by simpa using hk)]
      refine .inr ⟨?_, rfl⟩
      rintro g hg g1 -
      obtain ⟨e', -, -, m', -, ⟨src', hs', hk'⟩, rfl⟩ := mem_requestGroups.1 hg
      simp only at g1
      subst g1
      rw [k3] at hs'
      cases hs'
      exact hk hk'

/-! ### A concrete case -/

namespace ModelDemo

/-- A pooled model, one per symbol with a tuned indicator, and a pretrained one. -/
def reg : MReg where
  source := fun n => if n = "pool".toList then some ⟨.trainer true, [], 1⟩
    else if n = "own".toList then some ⟨.trainer false, ["ma".toList], 2⟩
    else if n = "pre".toList then some ⟨.loader, [], 3⟩ else none
  hyper := fun n => n = "ma".toList

/-- The first execution trades A and C, the second B. -/
def execs : List MExec := [⟨1, ["C", "A"], ["pool", "own"]⟩, ⟨2, ["B"], ["pool", "pre"]⟩]

/-- Training on a data set `k`: the model records it, the dates, the hyperparameter if it
matters, and the number of symbols. -/
def fit (k : Nat) (f : DateFields) (la : Nat) (h : Nat) (t : MTask) : Except MErr (Fitted (List Int)) :=
  let hv : Int := if taskModel t = "own" then h else 0
  let lv : Int := if mInterval (taskModel t) = none then 0 else la
  match t with
  | .pooled _ l => .ok ⟨[k, f.start, hv, lv, l.length], none, none⟩
  | .sym _ => .ok ⟨[k, f.start, hv, lv], none, none⟩

theorem fixed (k : Nat) : FixedData reg (fit k) := by
  constructor
  · intro f la la' h t ht
    cases t <;> simp [fit, ht]
  · intro f la h h' t ht
    have : taskModel t ≠ "own" := by
      intro e
      refine ht ⟨⟨.trainer false, ["ma".toList], 2⟩, ?_, "ma".toList, by simp, ?_⟩
      · rw [e]
        decide +kernel
      · decide +kernel
    cases t <;> simp [fit, this]

theorem execsOk : ExecsOk reg execs := by
  constructor
  · simp only [execs, List.mem_cons, List.not_mem_nil, or_false]
    rintro a (rfl | rfl) b (rfl | rfl) s h1 h2
    · rfl
    · exfalso; simp at h1 h2; subst h2; simp at h1
    · exfalso; simp at h1 h2; subst h1; simp at h2
    · rfl
  · simp only [execs, List.mem_cons, List.not_mem_nil, or_false]
    rintro a (rfl | rfl) m hm <;> simp only [List.mem_cons, List.not_mem_nil, or_false] at hm <;>
      rcases hm with rfl | rfl
    · exact ⟨⟨.trainer true, [], 1⟩, by decide +kernel, by simp⟩
    · exact ⟨⟨.trainer false, ["ma".toList], 2⟩, by decide +kernel, by simp⟩
    · exact ⟨⟨.trainer true, [], 1⟩, by decide +kernel, by simp⟩
    · exact ⟨⟨.loader, [], 3⟩, by decide +kernel, fun _ => by decide +kernel⟩

def fields (start : Date) : DateFields := ⟨start, 9, 86400, none, none⟩

/-- A window's training on the data set `k`. -/
def window (k : Nat) (start : Date) (h : Nat) (train : List Sym) (c : Option (MCache (List Int))) :
    Except MErr (List (MSym × Trained (List Int)) × Option (MCache (List Int))) :=
  trainModels reg (fit k (fields start) 1 h) (requestPairs execs train)
    (requestGroups reg execs train) (fields start) 1 c

/-- What was answered. -/
def answer (r : Except MErr (List (MSym × Trained (List Int)) × Option (MCache (List Int)))) :
    Option (List (MSym × Trained (List Int))) :=
  match r with
  | .ok r => some r.1
  | .error _ => none

/-- The cache left. -/
def next (r : Except MErr (List (MSym × Trained (List Int)) × Option (MCache (List Int)))) :
    Option (MCache (List Int)) :=
  match r with
  | .ok r => r.2
  | .error _ => none

theorem of_answer {r : Except MErr (List (MSym × Trained (List Int)) × Option (MCache (List Int)))}
    {o : List (MSym × Trained (List Int))} (h : answer r = some o) : r = .ok (o, next r) := by
  rcases r with e | ⟨o', st⟩
  · cases h
  · cases h; rfl

/-- The empty cache. -/
def empty : Option (MCache (List Int)) := some (fun _ => none)

/-- The models of the first window of data set 7. -/
def out1 : List (MSym × Trained (List Int)) :=
  [(⟨"pool", "C"⟩, ⟨"pool", ⟨[7, 3, 0, 0, 2], none, none⟩, 1⟩),
   (⟨"pool", "A"⟩, ⟨"pool", ⟨[7, 3, 0, 0, 2], none, none⟩, 1⟩),
   (⟨"pool", "B"⟩, ⟨"pool", ⟨[7, 3, 0, 0, 1], none, none⟩, 1⟩),
   (⟨"own", "A"⟩, ⟨"own", ⟨[7, 3, 5, 0], none, none⟩, 2⟩),
   (⟨"own", "C"⟩, ⟨"own", ⟨[7, 3, 5, 0], none, none⟩, 2⟩),
   (⟨"pre", "B"⟩, ⟨"pre", ⟨[7, 3, 0, 0], none, none⟩, 3⟩)]

theorem window1 : window 7 3 5 ["A", "B", "C"] empty =
    .ok (out1, next (window 7 3 5 ["A", "B", "C"] empty)) :=
  of_answer (by decide +kernel)

theorem reach1 : ModelReach reg (fit 7) (next (window 7 3 5 ["A", "B", "C"] empty)) :=
  .call (.start empty (fun c' hc' k => by cases hc'; rfl)) (window_request execsOk ["A", "B", "C"]) window1

end ModelDemo

open ModelDemo

/-- The same window again with another hyperparameter: the tuned model is trained again, the
others come from the cache. -/
example : ModelReach reg (fit 7) (next (window 7 3 5 ["A", "B", "C"] empty)) ∧
    ((answer (window 7 3 6 ["A", "B", "C"] (next (window 7 3 5 ["A", "B", "C"] empty)))).map
      (fun o => o.map (fun e => (e.1.model, e.1.symbol, e.2.fitted.model)))) =
    some [("pool", "C", [7, 3, 0, 0, 2]), ("pool", "A", [7, 3, 0, 0, 2]), ("pool", "B", [7, 3, 0, 0, 1]),
      ("pre", "B", [7, 3, 0, 0]), ("own", "A", [7, 3, 6, 0]), ("own", "C", [7, 3, 6, 0])] :=
  ⟨reach1, by decide +kernel⟩

/-- C has no data: the group is A alone, and its cached model with C is not used. -/
example : ((answer (window 7 3 5 ["A", "B"] (next (window 7 3 5 ["A", "B", "C"] empty)))).map
      (fun o => o.map (fun e => (e.1.model, e.1.symbol, e.2.fitted.model)))) =
    some [("pool", "B", [7, 3, 0, 0, 1]), ("pre", "B", [7, 3, 0, 0]),
      ("pool", "A", [7, 3, 0, 0, 1]), ("own", "A", [7, 3, 5, 0])] := by
  decide +kernel

/-- Another window. -/
example : ((answer (window 7 4 5 ["B"] (next (window 7 3 5 ["A", "B", "C"] empty)))).map
      (fun o => o.map (fun e => (e.1.model, e.1.symbol, e.2.fitted.model)))) =
    some [("pool", "B", [7, 4, 0, 0, 1]), ("pre", "B", [7, 4, 0, 0])] := by
  decide +kernel

/-- **C61 fails for models.** With the model cache enabled, training on other data of the same
dates (another data source, another setting of `adjust`, another history before the window, or
a training function registered anew under the same name) is answered with the model trained on
the first. -/
theorem model_data_not_separated : ∃ (reg : MReg)
    (fit fit' : DateFields → Nat → Nat → MTask → Except MErr (Fitted (List Int)))
    (f : DateFields) (p : MSym) (c c' : Option (MCache (List Int))) (fd fd' : Fitted (List Int))
    (src : MSource),
    FixedData reg fit ∧ FixedData reg fit' ∧ reg.get p.model = some src ∧
    trainModels reg (fit f 1 0) [p] [] f 1 (some (fun _ => none)) =
      .ok ([(p, ⟨p.model, fd, src.predict⟩)], c) ∧
    trainModels reg (fit' f 1 0) [p] [] f 1 c = .ok ([(p, ⟨p.model, fd, src.predict⟩)], c') ∧
    fit' f 1 0 (.sym p) = .ok fd' ∧ fd ≠ fd' := by
  refine ⟨reg, fit 1, fit 2, fields 3, ⟨"pre", "B"⟩, _, _, ⟨[1, 3, 0, 0], none, none⟩,
    ⟨[2, 3, 0, 0], none, none⟩, ⟨.loader, [], 3⟩, fixed 1, fixed 2, by decide +kernel,
    of_answer (by decide +kernel), of_answer (by decide +kernel), by decide +kernel, by decide +kernel⟩

end PyBroker
