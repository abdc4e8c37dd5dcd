import Verif.Optimize.Collect
import Verif.Props.Optimize
import Verif.Props.IntervalScope

/-!
# Every hyperparameter a run uses has a value (C130)
-/

namespace PyBroker

variable {V : Type}

/-! ## Specification -/

namespace Spec

/-- The run computes the indicator: it is one of an execution or of a model of one. -/
def Computes (s : HpScope V) (execs : List HpExec) (ind : String) : Prop :=
  ∃ e ∈ execs, ind ∈ e.inds ∨
    ∃ m ∈ e.models, ∃ src, s.models.get (baseName m) = some src ∧ ind ∈ src.1

/-- The run uses the hyperparameter: a setting, an execution or a computed indicator has it. -/
def Uses (s : HpScope V) (settings : List String) (execs : List HpExec) (n : String) : Prop :=
  n ∈ settings ∨ (∃ e ∈ execs, n ∈ e.hps) ∨
    ∃ ind, Computes s execs ind ∧ ∃ args, s.inds.get (baseName ind) = some args ∧
      ∃ k h, (k, HArg.hp h) ∈ args ∧ h.name = n

/-- Names are well formed: registered indicators have no interval in their name, and the intervals of
models were accepted. -/
structure GoodNames (s : HpScope V) (execs : List HpExec) : Prop where
  inds : ∀ m src, s.models.get m = some src → ∀ i ∈ src.1, validName i.toList = true
  intervals : ∀ e ∈ execs, ∀ m ∈ e.models, ∀ iv, (parseName m.toList).2 = some iv →
    normalizeIv iv = some iv

/-- All that the run uses is registered, and no model has a hyperparameter in its arguments. -/
structure AllRegistered (s : HpScope V) (settings : List String) (execs : List HpExec) : Prop where
  hypers : ∀ n, Uses s settings execs n → ∃ h, s.hypers.get n = some h
  inds : ∀ ind, Computes s execs ind → ∃ args, s.inds.get (baseName ind) = some args
  models : ∀ e ∈ execs, ∀ m ∈ e.models, ∃ src, s.models.get (baseName m) = some src ∧
    ∀ k h, (k, HArg.hp h) ∉ src.2

end Spec

open PyBroker.Spec

/-! ## Steps that add names -/

theorem mem_hpNames {args : SDict (HArg V)} {n : String} :
    n ∈ hyperNames args ↔ ∃ k h, (k, HArg.hp h) ∈ args ∧ h.name = n := by
  unfold hyperNames
  rw [List.mem_filterMap]
  constructor
  · rintro ⟨⟨k, a⟩, hm, he⟩
    cases a with
    | hp h => exact ⟨k, h, hm, Option.some.inj he⟩
    | plain v => cases he
  · rintro ⟨k, h, hm, rfl⟩
    exact ⟨(k, .hp h), hm, rfl⟩

/-- The names one after the other, with their registered definitions. -/
def addAll (hypers : SDict Hyper) (acc : SDict Hyper) (names : List String) : SDict Hyper :=
  names.foldl (fun d n => match hypers.get n with | none => d | some h => d.put n h) acc

/-- A step adds names when all is well and raises otherwise. -/
structure AddsNames (hypers : SDict Hyper) (f : SDict Hyper → Except CollectErr (SDict Hyper))
    (names : List String) (good : Prop) : Prop where
  ok : good → ∀ acc, f acc = .ok (addAll hypers acc names)
  bad : ¬ good → ∀ acc, ∃ e, f acc = .error e

theorem addAll_append (hypers acc : SDict Hyper) (a b : List String) :
    addAll hypers acc (a ++ b) = addAll hypers (addAll hypers acc a) b := by
  unfold addAll
  rw [List.foldl_append]

theorem AddsNames.bind {hypers : SDict Hyper} {f g : SDict Hyper → Except CollectErr (SDict Hyper)}
    {a b : List String} {p q : Prop} (hf : AddsNames hypers f a p) (hg : AddsNames hypers g b q) :
    AddsNames hypers (fun acc => f acc >>= g) (a ++ b) (p ∧ q) where
  ok := by
    rintro ⟨hp, hq⟩ acc
    rw [addAll_append, hf.ok hp acc]
    exact hg.ok hq _
  bad := by
    intro hn acc
    by_cases hp : p
    · have hq : ¬ q := fun hq => hn ⟨hp, hq⟩
      obtain ⟨e, he⟩ := hg.bad hq (addAll hypers acc a)
      refine ⟨e, ?_⟩
      rw [hf.ok hp acc]
      exact he
    · obtain ⟨e, he⟩ := hf.bad hp acc
      refine ⟨e, ?_⟩
      rw [he]
      rfl

theorem AddsNames.foldlM {α : Type} {hypers : SDict Hyper}
    {f : SDict Hyper → α → Except CollectErr (SDict Hyper)} {names : α → List String} {good : α → Prop}
    (h : ∀ a, AddsNames hypers (fun acc => f acc a) (names a) (good a)) : ∀ (l : List α),
    AddsNames hypers (fun acc => l.foldlM f acc) (l.flatMap names) (∀ a ∈ l, good a)
  | [] => ⟨fun _ acc => rfl, fun hn => absurd (by simp) hn⟩
  | a :: l => by
    have hb := (h a).bind (AddsNames.foldlM h l)
    rw [List.flatMap_cons]
    constructor
    · intro hall acc
      rw [List.foldlM_cons]
      exact hb.ok ⟨hall a (by simp), fun x hx => hall x (List.mem_cons_of_mem _ hx)⟩ acc
    · intro hn acc
      rw [List.foldlM_cons]
      refine hb.bad (fun hh => hn ?_) acc
      intro x hx
      rcases List.mem_cons.1 hx with rfl | hx
      · exact hh.1
      · exact hh.2 x hx

theorem need_adds (s : HpScope V) (n : String) :
    AddsNames s.hypers (fun acc => s.need acc n) [n] (∃ h, s.hypers.get n = some h) where
  ok := by
    rintro ⟨h, hh⟩ acc
    simp only [HpScope.need, addAll, List.foldl_cons, List.foldl_nil, hh]
  bad := by
    intro hn acc
    rcases hg : s.hypers.get n with _ | h
    · exact ⟨.noHyperparam, by simp only [HpScope.need, hg]⟩
    · exact absurd ⟨h, hg⟩ hn

/-- The names an indicator adds. -/
def indNames (s : HpScope V) (ind : String) : List String :=
  match s.inds.get (baseName ind) with
  | none => []
  | some args => hyperNames args

def indGood (s : HpScope V) (ind : String) : Prop :=
  (∃ args, s.inds.get (baseName ind) = some args) ∧
    ∀ n ∈ indNames s ind, ∃ h, s.hypers.get n = some h

theorem needInd_adds (s : HpScope V) (ind : String) :
    AddsNames s.hypers (fun acc => s.needInd acc ind) (indNames s ind) (indGood s ind) := by
  rcases hg : s.inds.get (baseName ind) with _ | args
  · constructor
    · rintro ⟨⟨args, h⟩, _⟩
      rw [hg] at h; cases h
    · intro _ acc
      exact ⟨.noIndicator, by simp only [HpScope.needInd, hg]⟩
  · have hf := AddsNames.foldlM (need_adds s) (hyperNames args)
    have hn : indNames s ind = hyperNames args := by simp only [indNames, hg]
    have hfm : (hyperNames args).flatMap (fun n => [n]) = hyperNames args := by simp
    rw [hfm] at hf
    rw [hn]
    constructor
    · rintro ⟨_, hall⟩ acc
      simp only [HpScope.needInd, hg]
      rw [hn] at hall
      exact hf.ok hall acc
    · intro hb acc
      simp only [HpScope.needInd, hg]
      refine hf.bad (fun hall => hb ⟨⟨args, hg⟩, ?_⟩) acc
      rw [hn]
      exact hall

/-- The indicators of a model. -/
def modelInds (s : HpScope V) (m : String) : List String :=
  match s.models.get (baseName m) with
  | none => []
  | some src => src.1

def modelGood (s : HpScope V) (m : String) : Prop :=
  (∃ src, s.models.get (baseName m) = some src) ∧ ∀ ind ∈ modelInds s m, indGood s ind

theorem needModel_adds (s : HpScope V) (m : String) :
    AddsNames s.hypers (fun acc => s.needModel acc m) ((modelInds s m).flatMap (indNames s))
      (modelGood s m) := by
  rcases hg : s.models.get (baseName m) with _ | src
  · constructor
    · rintro ⟨⟨src, h⟩, _⟩
      rw [hg] at h; cases h
    · intro _ acc
      exact ⟨.noModel, by simp only [HpScope.needModel, hg]⟩
  · have hf := AddsNames.foldlM (needInd_adds s) src.1
    have hn : modelInds s m = src.1 := by simp only [modelInds, hg]
    rw [hn]
    constructor
    · rintro ⟨_, hall⟩ acc
      simp only [HpScope.needModel, hg]
      rw [hn] at hall
      exact hf.ok hall acc
    · intro hb acc
      simp only [HpScope.needModel, hg]
      refine hf.bad (fun hall => hb ⟨⟨src, hg⟩, ?_⟩) acc
      rw [hn]
      exact hall

theorem checkModel_adds (s : HpScope V) (m : String) :
    AddsNames s.hypers (fun acc => s.checkModel acc m) []
      (∃ src, s.models.get (baseName m) = some src ∧ hyperNames src.2 = []) := by
  rcases hg : s.models.get (baseName m) with _ | src
  · constructor
    · rintro ⟨src, h, _⟩
      cases h
    · intro _ acc
      exact ⟨.noModel, by simp only [HpScope.checkModel, hg]⟩
  · by_cases hh : hyperNames src.2 = []
    · constructor
      · intro _ acc
        simp only [HpScope.checkModel, hg]
        rw [if_neg (by simpa using hh)]
        rfl
      · intro hb
        exact absurd ⟨src, rfl, hh⟩ hb
    · constructor
      · rintro ⟨src', h, h'⟩
        cases h
        exact absurd h' hh
      · intro _ acc
        exact ⟨.modelArgs, by simp only [HpScope.checkModel, hg]; rw [if_pos hh]⟩

/-- The names an execution adds, in the order of the code. -/
def execNames (s : HpScope V) (e : HpExec) : List String :=
  (e.inds.insertionSort (· ≤ ·)).flatMap (indNames s) ++
    ((e.models.insertionSort (· ≤ ·)).flatMap (fun m => (modelInds s m).flatMap (indNames s)) ++
      (e.hps.insertionSort (· ≤ ·) ++ []))

def execGood (s : HpScope V) (e : HpExec) : Prop :=
  (∀ i ∈ e.inds, indGood s i) ∧ (∀ m ∈ e.models, modelGood s m) ∧
    (∀ n ∈ e.hps, ∃ h, s.hypers.get n = some h) ∧
    ∀ m ∈ e.models, ∃ src, s.models.get (baseName m) = some src ∧ hyperNames src.2 = []

theorem collectExec_adds (s : HpScope V) (e : HpExec) :
    AddsNames s.hypers (fun acc => s.collectExec acc e) (execNames s e) (execGood s e) := by
  have h1 := AddsNames.foldlM (needInd_adds s) (e.inds.insertionSort (· ≤ ·))
  have h2 := AddsNames.foldlM (needModel_adds s) (e.models.insertionSort (· ≤ ·))
  have h3 := AddsNames.foldlM (need_adds s) (e.hps.insertionSort (· ≤ ·))
  have h4 := AddsNames.foldlM (checkModel_adds s) (e.models.insertionSort (· ≤ ·))
  have h := h1.bind (h2.bind (h3.bind h4))
  have e1 : (e.hps.insertionSort (· ≤ ·)).flatMap (fun n => [n]) = e.hps.insertionSort (· ≤ ·) := by
    simp
  have e2 : (e.models.insertionSort (· ≤ ·)).flatMap (fun _ => ([] : List String)) = [] := by simp
  rw [e1, e2] at h
  have hmem : ∀ (l : List String) (P : String → Prop),
      (∀ x ∈ l.insertionSort (· ≤ ·), P x) ↔ ∀ x ∈ l, P x := by
    intro l P
    constructor
    · intro hh x hx; exact hh x ((List.perm_insertionSort _ _).mem_iff.2 hx)
    · intro hh x hx; exact hh x ((List.perm_insertionSort _ _).mem_iff.1 hx)
  rw [hmem, hmem, hmem, hmem] at h
  exact h

theorem collect_adds (s : HpScope V) (settings : List String) (execs : List HpExec) :
    ∃ names, (∀ n, n ∈ names ↔ n ∈ settings ∨ ∃ e ∈ execs, n ∈ execNames s e) ∧
      ∀ good : Prop, (good ↔ (∀ n ∈ settings, ∃ h, s.hypers.get n = some h) ∧
        ∀ e ∈ execs, execGood s e) →
      (good → s.collect settings execs = .ok (addAll s.hypers [] names)) ∧
      (¬ good → ∃ err, s.collect settings execs = .error err) := by
  have h1 := AddsNames.foldlM (need_adds s) settings
  have h2 := AddsNames.foldlM (collectExec_adds s) (execs.insertionSort (fun a b => a.id ≤ b.id))
  have h := h1.bind h2
  have hmem : ∀ x, x ∈ execs.insertionSort (fun a b => a.id ≤ b.id) ↔ x ∈ execs :=
    fun x => (List.perm_insertionSort _ _).mem_iff
  refine ⟨settings.flatMap (fun a => [a]) ++
    (execs.insertionSort (fun a b => a.id ≤ b.id)).flatMap (execNames s), ?_, ?_⟩
  rotate_left
  · intro good hgood
    constructor
    · intro hg
      have := hgood.1 hg
      exact h.ok ⟨this.1, fun a ha => this.2 a ((hmem a).1 ha)⟩ []
    · intro hg
      refine h.bad (fun hh => hg (hgood.2 ⟨hh.1, fun a ha => hh.2 a ((hmem a).2 ha)⟩)) []
  · intro n
    rw [List.mem_append, List.mem_flatMap, List.mem_flatMap]
    constructor
    · rintro (⟨x, hx, hn⟩ | ⟨e, he, hn⟩)
      · rw [List.mem_singleton] at hn
        subst hn
        exact .inl hx
      · exact .inr ⟨e, (hmem e).1 he, hn⟩
    · rintro (hn | ⟨e, he, hn⟩)
      · exact .inl ⟨n, hn, by simp⟩
      · exact .inr ⟨e, (hmem e).2 he, hn⟩

/-! ## The names -/

theorem mem_indNames {s : HpScope V} {ind n : String} :
    n ∈ indNames s ind ↔ ∃ args, s.inds.get (baseName ind) = some args ∧
      ∃ k h, (k, HArg.hp h) ∈ args ∧ h.name = n := by
  unfold indNames
  rcases s.inds.get (baseName ind) with _ | args
  · simp
  · simp only [mem_hpNames, Option.some.injEq, exists_eq_left']

theorem mem_modelInds {s : HpScope V} {m ind : String} :
    ind ∈ modelInds s m ↔ ∃ src, s.models.get (baseName m) = some src ∧ ind ∈ src.1 := by
  unfold modelInds
  rcases s.models.get (baseName m) with _ | src
  · simp
  · simp only [Option.some.injEq, exists_eq_left']

theorem mem_execNames {s : HpScope V} {e : HpExec} {n : String} :
    n ∈ execNames s e ↔ n ∈ e.hps ∨ ∃ ind, (ind ∈ e.inds ∨ ∃ m ∈ e.models, ind ∈ modelInds s m) ∧
      n ∈ indNames s ind := by
  unfold execNames
  simp only [List.mem_append, List.mem_flatMap, (List.perm_insertionSort _ _).mem_iff,
    List.not_mem_nil, or_false]
  constructor
  · rintro (⟨i, hi, hn⟩ | ⟨m, hm, i, hi, hn⟩ | hn)
    · exact .inr ⟨i, .inl hi, hn⟩
    · exact .inr ⟨i, .inr ⟨m, hm, hi⟩, hn⟩
    · exact .inl hn
  · rintro (hn | ⟨i, hi | ⟨m, hm, hi⟩, hn⟩)
    · exact .inr (.inr hn)
    · exact .inl ⟨i, hi, hn⟩
    · exact .inr (.inl ⟨m, hm, i, hi, hn⟩)

theorem uses_iff (s : HpScope V) (settings : List String) (execs : List HpExec) (n : String) :
    Uses s settings execs n ↔ n ∈ settings ∨ ∃ e ∈ execs, n ∈ execNames s e := by
  unfold Uses
  refine or_congr Iff.rfl ?_
  constructor
  · rintro (⟨e, he, hn⟩ | ⟨ind, ⟨e, he, hc⟩, hi⟩)
    · exact ⟨e, he, mem_execNames.2 (.inl hn)⟩
    · refine ⟨e, he, mem_execNames.2 (.inr ⟨ind, ?_, mem_indNames.2 hi⟩)⟩
      rcases hc with h | ⟨m, hm, src, h1, h2⟩
      · exact .inl h
      · exact .inr ⟨m, hm, mem_modelInds.2 ⟨src, h1, h2⟩⟩
  · rintro ⟨e, he, hn⟩
    rcases mem_execNames.1 hn with hn | ⟨ind, hc, hi⟩
    · exact .inl ⟨e, he, hn⟩
    · refine .inr ⟨ind, ⟨e, he, ?_⟩, mem_indNames.1 hi⟩
      rcases hc with h | ⟨m, hm, h⟩
      · exact .inl h
      · obtain ⟨src, h1, h2⟩ := mem_modelInds.1 h
        exact .inr ⟨m, hm, src, h1, h2⟩

theorem registered_good (s : HpScope V) (settings : List String) (execs : List HpExec) :
    AllRegistered s settings execs ↔ (∀ n ∈ settings, ∃ h, s.hypers.get n = some h) ∧
      ∀ e ∈ execs, execGood s e := by
  constructor
  · intro h
    have hind : ∀ ind, Computes s execs ind → indGood s ind := by
      intro ind hc
      refine ⟨h.inds ind hc, ?_⟩
      intro n hn
      exact h.hypers n (.inr (.inr ⟨ind, hc, mem_indNames.1 hn⟩))
    refine ⟨fun n hn => h.hypers n (.inl hn), ?_⟩
    intro e he
    refine ⟨fun i hi => hind i ⟨e, he, .inl hi⟩, ?_, fun n hn => h.hypers n (.inr (.inl ⟨e, he, hn⟩)), ?_⟩
    · intro m hm
      obtain ⟨src, h1, _⟩ := h.models e he m hm
      refine ⟨⟨src, h1⟩, ?_⟩
      intro ind hi
      obtain ⟨src', h2, h3⟩ := mem_modelInds.1 hi
      exact hind ind ⟨e, he, .inr ⟨m, hm, src', h2, h3⟩⟩
    · intro m hm
      obtain ⟨src, h1, h2⟩ := h.models e he m hm
      refine ⟨src, h1, ?_⟩
      rw [List.eq_nil_iff_forall_not_mem]
      intro n hn
      obtain ⟨k, hp, hk, _⟩ := mem_hpNames.1 hn
      exact h2 k hp hk
  · rintro ⟨h1, h2⟩
    have hind : ∀ ind, Computes s execs ind → indGood s ind := by
      rintro ind ⟨e, he, hi | ⟨m, hm, src, h3, h4⟩⟩
      · exact (h2 e he).1 ind hi
      · exact ((h2 e he).2.1 m hm).2 ind (mem_modelInds.2 ⟨src, h3, h4⟩)
    refine ⟨?_, fun ind hc => (hind ind hc).1, ?_⟩
    · rintro n (hn | ⟨e, he, hn⟩ | ⟨ind, hc, hn⟩)
      · exact h1 n hn
      · exact (h2 e he).2.2.1 n hn
      · exact (hind ind hc).2 n (mem_indNames.2 hn)
    · intro e he m hm
      obtain ⟨src, h3, h4⟩ := (h2 e he).2.2.2 m hm
      refine ⟨src, h3, ?_⟩
      intro k hp hk
      have : hp.name ∈ hyperNames src.2 := mem_hpNames.2 ⟨k, hp, hk, rfl⟩
      rw [h4] at this
      cases this

theorem addAll_get (hypers : SDict Hyper) : ∀ (names : List String) (acc : SDict Hyper) (n : String),
    (addAll hypers acc names).get n =
      if n ∈ names ∧ (hypers.get n).isSome then hypers.get n else acc.get n
  | [], acc, n => by simp [addAll]
  | m :: names, acc, n => by
    have ih := addAll_get hypers names
    have hstep : addAll hypers acc (m :: names) =
        addAll hypers (match hypers.get m with | none => acc | some h => acc.put m h) names := rfl
    rw [hstep, ih]
    by_cases h1 : n ∈ names ∧ (hypers.get n).isSome
    · rw [if_pos h1, if_pos ⟨List.mem_cons_of_mem _ h1.1, h1.2⟩]
    · rw [if_neg h1]
      by_cases hm : n = m
      · subst hm
        rcases hg : hypers.get n with _ | h
        · simp
        · simp only [SDict.get_put, List.mem_cons, true_or, Option.isSome_some, and_self, if_true]
      · have : ¬ (n ∈ m :: names ∧ (hypers.get n).isSome) := by
          rintro ⟨ha, hb⟩
          rcases List.mem_cons.1 ha with h | h
          · exact hm h
          · exact h1 ⟨h, hb⟩
        rw [if_neg this]
        rcases hypers.get m with _ | h
        · rfl
        · simp only [SDict.get_put]
          simp [hm]

/-- **C130.**  A run is refused exactly when something that it uses is not registered or one of its
models has a hyperparameter among its arguments. -/
theorem collect_ok_iff (s : HpScope V) (settings : List String) (execs : List HpExec) :
    (∃ d, s.collect settings execs = .ok d) ↔ AllRegistered s settings execs := by
  obtain ⟨names, _, h⟩ := collect_adds s settings execs
  obtain ⟨h1, h2⟩ := h _ (registered_good s settings execs)
  constructor
  · rintro ⟨d, hd⟩
    by_contra hn
    obtain ⟨e, he⟩ := h2 hn
    rw [he] at hd
    cases hd
  · intro hg
    exact ⟨_, h1 hg⟩

/-- **C130.**  The hyperparameters of a run are exactly those that it uses, each as registered. -/
theorem collect_names {s : HpScope V} {settings : List String} {execs : List HpExec} {d : SDict Hyper}
    (hd : s.collect settings execs = .ok d) (n : String) :
    (Uses s settings execs n → ∃ h, d.get n = some h ∧ s.hypers.get n = some h) ∧
    (¬ Uses s settings execs n → d.get n = none) := by
  obtain ⟨names, hnames, h⟩ := collect_adds s settings execs
  obtain ⟨h1, h2⟩ := h _ (registered_good s settings execs)
  have hreg := (collect_ok_iff s settings execs).1 ⟨d, hd⟩
  have he := h1 hreg
  rw [hd] at he
  have hd' := Except.ok.inj he
  have hn : n ∈ names ↔ Uses s settings execs n := by rw [hnames, uses_iff]
  rw [hd', addAll_get]
  constructor
  · intro hu
    obtain ⟨hp, hh⟩ := hreg.hypers n hu
    rw [if_pos ⟨hn.2 hu, by rw [hh]; rfl⟩]
    exact ⟨hp, hh, hh⟩
  · intro hu
    rw [if_neg (fun hc => hu (hn.1 hc.1))]
    rfl

theorem onInterval_base {m ind : String} (hv : validName ind.toList = true)
    (hi : ∀ iv, (parseName m.toList).2 = some iv → normalizeIv iv = some iv) :
    baseName (onInterval m ind) = baseName ind := by
  unfold onInterval
  rcases h : (parseName m.toList).2 with _ | iv
  · rfl
  · simp only [baseName]
    rw [boundName_parse ind (hi iv h), plain_name hv]

/-- **C130.**  Whatever the overrides, if the run starts then every hyperparameter that a setting or
an execution names has a value, and the arguments of every indicator it computes are resolved: those
of the executions, of their models and of both on intervals. -/
theorem run_values_complete {s : HpScope V} {settings : List String} {execs : List HpExec}
    (hn : GoodNames s execs)
    {d : SDict Hyper} (hd : s.collect settings execs = .ok d) {ov : SDict HNum}
    (hov : (ov.map Prod.fst).Nodup) {p : SDict HNum} (hp : buildRun d (some ov) = .ok p) :
    (∀ n, n ∈ settings ∨ (∃ e ∈ execs, n ∈ e.hps) → ∃ h, s.hypers.get n = some h ∧
      p.get n = some ((ov.get n).getD h.default)) ∧
    (∀ ind ∈ s.computed execs, ∃ args out, s.inds.get (baseName ind) = some args ∧
      resolveArgs p args = .ok out ∧
      ∀ k h, (k, HArg.hp h) ∈ args → ∃ h', s.hypers.get h.name = some h' ∧
        (k, RArg.num ((ov.get h.name).getD h'.default)) ∈ out) := by
  obtain ⟨_, _, hget⟩ := (run_hyperparams d ov hov).1 p hp
  have hval : ∀ n, Uses s settings execs n → ∃ h, s.hypers.get n = some h ∧
      p.get n = some ((ov.get n).getD h.default) := by
    intro n hu
    obtain ⟨h, h1, h2⟩ := (collect_names hd n).1 hu
    exact ⟨h, h2, by rw [hget n, h1]; rfl⟩
  have hreg := (collect_ok_iff s settings execs).1 ⟨d, hd⟩
  refine ⟨?_, ?_⟩
  · rintro n (hn | hn)
    · exact hval n (.inl hn)
    · exact hval n (.inr (.inl hn))
  · intro ind hind
    obtain ⟨i0, hc, hb⟩ : ∃ i0, Computes s execs i0 ∧ baseName ind = baseName i0 := by
      unfold HpScope.computed at hind
      obtain ⟨e, he, h⟩ := List.mem_flatMap.1 hind
      rcases List.mem_append.1 h with h | h
      · exact ⟨ind, ⟨e, he, .inl h⟩, rfl⟩
      · obtain ⟨m, hm, h⟩ := List.mem_flatMap.1 h
        rcases hg : s.models.get (baseName m) with _ | src
        · rw [hg] at h; cases h
        · rw [hg] at h
          obtain ⟨i0, hi0, rfl⟩ := List.mem_map.1 h
          exact ⟨i0, ⟨e, he, .inr ⟨m, hm, src, hg, hi0⟩⟩,
            onInterval_base (hn.inds _ src hg i0 hi0) (hn.intervals e he m hm)⟩
    rw [hb]
    obtain ⟨args, ha⟩ := hreg.inds i0 hc
    have hu : ∀ k h, (k, HArg.hp h) ∈ args → Uses s settings execs h.name :=
      fun k h hk => .inr (.inr ⟨i0, hc, args, ha, k, h, hk, rfl⟩)
    have key : ∀ as : SDict (HArg V), (∀ k h, (k, HArg.hp h) ∈ as → Uses s settings execs h.name) →
        ∃ out, resolveArgs p as = .ok out ∧ ∀ k h, (k, HArg.hp h) ∈ as →
          ∃ h', s.hypers.get h.name = some h' ∧
            (k, RArg.num ((ov.get h.name).getD h'.default)) ∈ out := by
      intro as
      induction as with
      | nil => exact fun _ => ⟨[], rfl, by simp⟩
      | cons a as ih =>
        intro has
        obtain ⟨out, ho, hall⟩ := ih (fun k h hk => has k h (List.mem_cons_of_mem _ hk))
        obtain ⟨k, a⟩ := a
        cases a with
        | plain v =>
          refine ⟨(k, .plain v) :: out, by simp only [resolveArgs, ho], ?_⟩
          intro k' h' hk'
          rcases List.mem_cons.1 hk' with h | h
          · cases h
          · obtain ⟨x, h1, h2⟩ := hall k' h' h
            exact ⟨x, h1, List.mem_cons_of_mem _ h2⟩
        | hp hh =>
          obtain ⟨x, h1, h2⟩ := hval hh.name (has k hh (by simp))
          refine ⟨(k, .num ((ov.get hh.name).getD x.default)) :: out,
            by simp only [resolveArgs, h2, ho], ?_⟩
          intro k' h' hk'
          rcases List.mem_cons.1 hk' with h | h
          · cases h
            exact ⟨x, h1, by simp⟩
          · obtain ⟨x, h1, h2⟩ := hall k' h' h
            exact ⟨x, h1, List.mem_cons_of_mem _ h2⟩
    obtain ⟨out, ho, hall⟩ := key args hu
    exact ⟨args, out, ha, ho, hall⟩

/-! ## Cases -/

/-- Two hyperparameters, an indicator with one, and a model that uses the indicator. -/
def Demo.hpScope : HpScope Unit where
  hypers := [("n", ⟨"n", .int 5, .int 2, .int 9, .int 1⟩), ("m", ⟨"m", .int 1, .int 1, .int 3, .int 1⟩)]
  inds := [("sma", [("period", .hp ⟨"n", .int 5, .int 2, .int 9, .int 1⟩), ("src", .plain ())])]
  models := [("lin", ["sma"], [])]

def Demo.hpExecs : List HpExec := [⟨2, [], ["lin"], ["m"]⟩, ⟨1, [], [], []⟩]

example : (Demo.hpScope.collect ["m"] Demo.hpExecs).toOption.map (fun d => d.map Prod.fst) =
    some ["m", "n"] := by decide +kernel
example : Demo.hpScope.computed Demo.hpExecs = ["sma"] := by decide +kernel
example : (Demo.hpScope.collect ["x"] Demo.hpExecs) = .error .noHyperparam := by decide +kernel
def Demo.hpNames : SDict Hyper :=
  [("m", ⟨"m", .int 1, .int 1, .int 3, .int 1⟩), ("n", ⟨"n", .int 5, .int 2, .int 9, .int 1⟩)]

example : Demo.hpScope.collect ["m"] Demo.hpExecs = .ok Demo.hpNames := by decide +kernel
example : buildRun Demo.hpNames (some [("n", .int 7)]) = .ok [("m", .int 1), ("n", .int 7)] := by
  decide +kernel
example : AllRegistered Demo.hpScope ["m"] Demo.hpExecs :=
  (collect_ok_iff _ _ _).1 ⟨Demo.hpNames, by decide +kernel⟩

/-- The model on its interval of five bars. -/
def Demo.hpIvExecs : List HpExec := [⟨2, [], ["lin@5"], ["m"]⟩, ⟨1, [], [], []⟩]

example : GoodNames Demo.hpScope Demo.hpIvExecs where
  inds := by
    intro m src h i hi
    unfold Demo.hpScope SDict.get at h
    simp only [List.find?_cons, List.find?_nil] at h
    split at h
    · cases h
      rw [List.mem_singleton] at hi
      subst hi
      decide
    · cases h
  intervals := by
    have h5 : (parseName "lin@5".toList).2 = some (.num 5) := by decide +kernel
    intro e he m hm iv h
    rcases List.mem_cons.1 he with rfl | he
    · rw [List.mem_singleton] at hm
      subst hm
      rw [h5] at h
      cases h
      rfl
    · rw [List.mem_singleton] at he
      subst he
      cases hm
example : Demo.hpScope.collect ["m"] Demo.hpIvExecs = .ok Demo.hpNames := by decide +kernel

/-- A hyperparameter that is defined again takes the place of the one an indicator was made with: in a
run the indicator has the new default, on its own the old one. -/
theorem redefined_hyperparam :
    ∃ (s : HpScope Unit) (d : SDict Hyper) (p : SDict HNum) (args : SDict (HArg Unit)),
      s.inds.get "sma" = some args ∧
      args = [("period", .hp ⟨"n", .int 5, .int 2, .int 9, .int 1⟩)] ∧
      s.collect [] [⟨1, ["sma"], [], []⟩] = .ok d ∧ buildRun d (some []) = .ok p ∧
      resolveArgs p args = .ok [("period", .num (.int 50))] :=
  ⟨{ hypers := [("n", ⟨"n", .int 50, .int 20, .int 90, .int 1⟩)]
     inds := [("sma", [("period", .hp ⟨"n", .int 5, .int 2, .int 9, .int 1⟩)])]
     models := [] },
    [("n", ⟨"n", .int 50, .int 20, .int 90, .int 1⟩)], [("n", .int 50)], _, rfl, rfl,
    by decide +kernel, by decide +kernel, rfl⟩

end PyBroker
