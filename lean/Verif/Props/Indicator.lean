/-
C89: the series a run computes.  C90: optimisation trials and cached runs do not leak into
each other.  C91: the frame of an indicator set.
-/
import Verif.Indicator.Model
import Verif.Props.Optimize
import Verif.Props.Train
import Mathlib.Data.List.Sort

namespace PyBroker

namespace Spec

/-- The value a hyperparameter has in a call: the one given or, when none are given, the
default of the last declaration of that name among the arguments. -/
def runValue {V : Type} (d : IndDef V) : Option (SDict HNum) → String → Option HNum
  | some given, n => given.get n
  | none, n => ((d.kwargs.filterMap (fun e => match e.2 with
      | .hp h => if h.name = n then some h.default else none
      | .plain _ => none))).getLast?

/-- An argument as declared, and as passed to the indicator's function: the value of the
hyperparameter in its place. -/
def ArgOf {V : Type} (val : String → Option HNum) (a : String × HArg V) (b : String × RArg V) :
    Prop :=
  b.1 = a.1 ∧
  match a.2 with
  | .plain v => b.2 = .plain v
  | .hp h => ∃ n, val h.name = some n ∧ b.2 = .num n

/-- The bars an indicator of this name is computed on: the symbol's rows with the
registered columns, or the compressed bars of the interval in its name. -/
def BarsOf (x : IndData) (cols : List String) (sym : Sym) (iv : Option Iv) (b : SymArrays) : Prop :=
  match iv with
  | some i => x.compressed sym i = some b
  | none => ∃ a, x.store.arrays sym = some a ∧ b.dates = a.dates ∧
      ∀ c, b.col c = if c ∈ cols then a.col c else none

/-- The series of an indicator for a symbol: its function applied to the bars, one value
per date. -/
def IndicatorSeries {V : Type} (reg : IndReg V) (x : IndData) (hyper : Option (SDict HNum))
    (p : IndSym) (s : Series) : Prop :=
  ∃ d bars args, reg.ind (parseName p.name).1 = some d ∧
    BarsOf x reg.cols p.symbol (parseName p.name).2 bars ∧
    List.Forall₂ (ArgOf (runValue d hyper)) d.kwargs args ∧
    s.map Prod.fst = bars.dates ∧ s.map Prod.snd = d.fn bars args

/-- Whether an optimisation is under way, and over which dates. -/
inductive IndMode
  | idle
  | tuning (f : DateFields)

/-- The dates a call may be made for. -/
def IndMode.For : IndMode → DateFields → Prop
  | .idle, _ => True
  | .tuning g, f => f = g

/-- The caches after any history of runs and optimisations on fixed data: `data f` are the
bars for the dates and filters `f`.  A call may use the indicator cache or not; entries of
the cache may be dropped, the cache cleared or disabled at any time; the memo is used
during an optimisation and cleared after it. -/
inductive IndReach {V : Type} (reg : IndReg V) (data : DateFields → IndData) :
    IndMode → IndState → Prop
  | start (c : Option IndCache) (hc : ∀ c', c = some c' → ∀ k, c' k = none) :
      IndReach reg data .idle ⟨c, [], 0⟩
  | call {m st} (f : DateFields) (use : Bool) (hyper : Option (SDict HNum)) (syms : List IndSym)
      {out st'} : IndReach reg data m st → m.For f →
      computeIndicators reg (data f) syms (if use then some f else none) hyper st = .ok (out, st') →
      IndReach reg data m st'
  | drop {m st} (c : Option IndCache)
      (hc : ∀ c', c = some c' → ∀ k s, c' k = some s → ∃ c0, st.cache = some c0 ∧ c0 k = some s) :
      IndReach reg data m st → IndReach reg data m { st with cache := c }
  | tune {st} (f : DateFields) (n : Nat) : IndReach reg data .idle st →
      IndReach reg data (.tuning f) { st with memoMax := n }
  | done {f st} : IndReach reg data (.tuning f) st →
      IndReach reg data .idle { st with memo := [], memoMax := 0 }

end Spec

open Spec

section
variable {V : Type}

/-! ## One call -/

theorem specs_get (hs : List Hyper) (d0 : SDict Hyper) (n : String) :
    SDict.get (hs.foldl (fun acc h => SDict.put acc h.name h) d0) n =
      match (hs.filter (fun h => h.name = n)).getLast? with
      | some h => some h
      | none => SDict.get d0 n := by
  induction hs generalizing d0 with
  | nil => rfl
  | cons h hs ih =>
    rw [List.foldl_cons, ih, List.filter_cons, SDict.get_put]
    by_cases hn : h.name = n
    · have e : (n == h.name) = true := by simp [hn]
      simp only [hn, decide_true, if_true]
      generalize hs.filter (fun h => decide (h.name = n)) = q
      rcases q with _ | ⟨a, l⟩
      · rfl
      · rw [List.getLast?_cons_cons]
        cases hq : (a :: l).getLast? with
        | none => simp at hq
        | some q => rfl
    · have e : ¬ n = h.name := fun x => hn x.symm
      simp only [hn, decide_false, Bool.false_eq_true, if_false, e]

theorem effective_get (d : IndDef V) (hyper : Option (SDict HNum)) (n : String) :
    ∃ params, d.effective hyper = .ok params ∧ params.get n = runValue d hyper n := by
  cases hyper with
  | some h => exact ⟨h, rfl, rfl⟩
  | none =>
    refine ⟨d.specs.map (fun s => (s.1, s.2.default)), rfl, ?_⟩
    rw [SDict.get_map, IndDef.specs, specs_get]
    unfold runValue IndDef.hypers
    dsimp only
    rw [List.filter_filterMap]
    have : (d.kwargs.filterMap (fun e => match e.2 with
        | .hp h => if h.name = n then some h.default else none
        | .plain _ => none)) =
        (d.kwargs.filterMap (fun x => Option.filter (fun h : Hyper => decide (h.name = n))
          (match x.2 with
            | .hp h => some h
            | .plain _ => none))).map Hyper.default := by
      rw [List.map_filterMap]
      apply List.filterMap_congr
      intro e _
      rcases e with ⟨k, _ | _⟩
      · simp only [Option.filter]; split <;> simp_all
      · rfl
    rw [this, List.getLast?_map]
    cases (d.kwargs.filterMap (fun x => Option.filter (fun h : Hyper => decide (h.name = n))
          (match x.2 with
            | .hp h => some h
            | .plain _ => none))).getLast? <;> rfl

theorem effective_ok (d : IndDef V) (hyper : Option (SDict HNum)) :
    ∃ params, d.effective hyper = .ok params ∧ ∀ n, params.get n = runValue d hyper n := by
  obtain ⟨p, hp, _⟩ := effective_get d hyper ""
  refine ⟨p, hp, fun n => ?_⟩
  obtain ⟨p', hp', h⟩ := effective_get d hyper n
  rw [hp] at hp'
  cases hp'
  exact h

theorem args_iff (d : IndDef V) (hyper : Option (SDict HNum)) (a : SDict (RArg V)) :
    d.args hyper = .ok a ↔ List.Forall₂ (ArgOf (runValue d hyper)) d.kwargs a := by
  obtain ⟨params, hp, hg⟩ := effective_ok d hyper
  unfold IndDef.args
  rw [hp]
  dsimp only
  have hr := resolve_args params d.kwargs a
  have hf : (fun (n : String) => runValue d hyper n) = fun n => params.get n := by
    funext n; rw [hg]
  have : List.Forall₂ (ArgOf (runValue d hyper)) d.kwargs a ↔
      List.Forall₂ (fun (a : String × HArg V) (b : String × RArg V) => b.1 = a.1 ∧
        match a.2 with
        | .plain v => b.2 = .plain v
        | .hp h => ∃ n, params.get h.name = some n ∧ b.2 = .num n) d.kwargs a := by
    unfold ArgOf
    simp only [hg]
  refine Iff.trans ?_ (hr.trans this.symm)
  rcases resolveArgs params d.kwargs with e | b
  · simp
  · simp

theorem bars_iff (x : IndData) (cols : List String) (sym : Sym) (iv : Option Iv) (b : SymArrays) :
    x.bars cols sym iv = .ok b ↔ BarsOf x cols sym iv b := by
  unfold IndData.bars BarsOf
  rcases iv with _ | i
  · dsimp only
    rcases x.store.arrays sym with _ | a
    · simp
    · simp only [Except.ok.injEq, Option.some.injEq, exists_eq_left']
      constructor
      · rintro rfl; exact ⟨rfl, fun _ => rfl⟩
      · rintro ⟨h1, h2⟩
        obtain ⟨bd, bc⟩ := b
        simp only at h1 h2
        subst h1
        congr 1
        funext c
        exact (h2 c).symm
  · dsimp only
    rcases x.compressed sym i with _ | a
    · simp
    · simp

theorem series_eq {s : Series} {ds : List Date} {vs : List Cell}
    (h1 : s.map Prod.fst = ds) (h2 : s.map Prod.snd = vs) :
    vs.length = ds.length ∧ ds.zip vs = s := by
  subst h1 h2
  refine ⟨by simp, ?_⟩
  exact (List.zip_of_prod rfl rfl).symm

theorem runIndicator_iff (reg : IndReg V) (x : IndData) (hyper : Option (SDict HNum)) (p : IndSym)
    (s : Series) : runIndicator reg x hyper p = .ok s ↔ IndicatorSeries reg x hyper p s := by
  unfold runIndicator IndicatorSeries
  rcases hd : reg.ind (parseName p.name).1 with _ | d
  · simp
  · dsimp only
    rcases hb : x.bars reg.cols p.symbol (parseName p.name).2 with e | b
    · dsimp only
      constructor
      · intro h; cases h
      · rintro ⟨d', b, a, -, hb', -⟩
        rw [← bars_iff, hb] at hb'
        cases hb'
    · dsimp only
      unfold IndDef.call
      rcases ha : d.args hyper with e | a
      · dsimp only
        constructor
        · intro h; cases h
        · rintro ⟨d', b', a, hd', -, ha', -⟩
          cases hd'
          rw [← args_iff, ha] at ha'
          cases ha'
      · dsimp only
        constructor
        · intro h
          split at h
          · rename_i hl
            cases h
            refine ⟨d, b, a, rfl, (bars_iff ..).1 hb, (args_iff ..).1 ha, ?_, ?_⟩
            · rw [List.map_fst_zip]; omega
            · rw [List.map_snd_zip]; omega
          · cases h
        · rintro ⟨d', b', a', hd', hb', ha', h1, h2⟩
          cases hd'
          rw [← bars_iff, hb] at hb'
          cases hb'
          rw [← args_iff, ha] at ha'
          cases ha'
          obtain ⟨hl, hz⟩ := series_eq h1 h2
          rw [if_pos hl, hz]

theorem series_unique {reg : IndReg V} {x : IndData} {hyper : Option (SDict HNum)} {p : IndSym}
    {s s' : Series} (h : IndicatorSeries reg x hyper p s) (h' : IndicatorSeries reg x hyper p s') :
    s = s' := by
  rw [← runIndicator_iff] at h h'
  rw [h] at h'
  exact Except.ok.inj h'

/-! ## Dicts in insertion order -/

section
variable {K W : Type} [DecidableEq K]

theorem assocPut_mem {l : List (K × W)} {k : K} {v : W} {e : K × W} (h : e ∈ assocPut l k v) :
    e = (k, v) ∨ e ∈ l := by
  induction l with
  | nil => left; simpa [assocPut] using h
  | cons a l ih =>
    obtain ⟨k', v'⟩ := a
    simp only [assocPut] at h
    split at h
    · rename_i hk
      rcases List.mem_cons.1 h with h | h
      · left; rw [h, hk]
      · right; exact List.mem_cons_of_mem _ h
    · rcases List.mem_cons.1 h with h | h
      · right; rw [h]; exact List.mem_cons_self
      · rcases ih h with h | h
        · exact .inl h
        · exact .inr (List.mem_cons_of_mem _ h)

theorem assocPut_keys (l : List (K × W)) (k : K) (v : W) (x : K) :
    x ∈ (assocPut l k v).map Prod.fst ↔ x = k ∨ x ∈ l.map Prod.fst := by
  induction l with
  | nil => simp [assocPut]
  | cons a l ih =>
    obtain ⟨k', v'⟩ := a
    simp only [assocPut]
    split
    · rename_i hk
      simp only [List.map_cons, List.mem_cons]
      subst hk
      tauto
    · simp only [List.map_cons, List.mem_cons, ih]
      tauto

theorem assocPut_nodup {l : List (K × W)} (h : (l.map Prod.fst).Nodup) (k : K) (v : W) :
    ((assocPut l k v).map Prod.fst).Nodup := by
  induction l with
  | nil => simp [assocPut]
  | cons a l ih =>
    obtain ⟨k', v'⟩ := a
    rw [List.map_cons, List.nodup_cons] at h
    simp only [assocPut]
    split
    · exact List.nodup_cons.2 h
    · rename_i hk
      rw [List.map_cons, List.nodup_cons]
      refine ⟨?_, ih h.2⟩
      rw [assocPut_keys]
      rintro (h' | h')
      · exact hk h'
      · exact h.1 h'

theorem assocPut_length (l : List (K × W)) (k : K) (v : W) :
    (assocPut l k v).length ≤ l.length + 1 := by
  induction l with
  | nil => simp [assocPut]
  | cons a l ih =>
    simp only [assocPut]
    split
    · simp
    · simp only [List.length_cons]; omega

theorem cacheGet_mem {l : List (K × W)} {k : K} {v : W} (h : cacheGet l k = some v) : (k, v) ∈ l := by
  induction l with
  | nil => simp [cacheGet] at h
  | cons a l ih =>
    obtain ⟨k', v'⟩ := a
    simp only [cacheGet] at h
    split at h
    · rename_i hk; cases h; rw [hk]; exact List.mem_cons_self
    · exact List.mem_cons_of_mem _ (ih h)

theorem cacheGet_of_mem {l : List (K × W)} (hn : (l.map Prod.fst).Nodup) {k : K} {v : W}
    (h : (k, v) ∈ l) : cacheGet l k = some v := by
  induction l with
  | nil => cases h
  | cons a l ih =>
    obtain ⟨k', v'⟩ := a
    rw [List.map_cons, List.nodup_cons] at hn
    simp only [cacheGet]
    rcases List.mem_cons.1 h with h | h
    · cases h; simp
    · rw [if_neg, ih hn.2 h]
      rintro rfl
      exact hn.1 (List.mem_map.2 ⟨_, h, rfl⟩)

theorem foldPut_mem {es : List (K × W)} {l : List (K × W)} {e : K × W}
    (h : e ∈ es.foldl (fun out e => assocPut out e.1 e.2) l) : e ∈ es ∨ e ∈ l := by
  induction es generalizing l with
  | nil => exact .inr h
  | cons a es ih =>
    rcases ih h with h | h
    · exact .inl (List.mem_cons_of_mem _ h)
    · rcases assocPut_mem h with h | h
      · left; rw [h]; exact List.mem_cons_self
      · exact .inr h

theorem foldPut_keys (es : List (K × W)) (l : List (K × W)) (x : K) :
    x ∈ (es.foldl (fun out e => assocPut out e.1 e.2) l).map Prod.fst ↔
      x ∈ es.map Prod.fst ∨ x ∈ l.map Prod.fst := by
  induction es generalizing l with
  | nil => simp
  | cons a es ih =>
    rw [List.foldl_cons, ih, assocPut_keys, List.map_cons, List.mem_cons]
    tauto

theorem foldPut_nodup (es : List (K × W)) {l : List (K × W)} (h : (l.map Prod.fst).Nodup) :
    ((es.foldl (fun out e => assocPut out e.1 e.2) l).map Prod.fst).Nodup := by
  induction es generalizing l with
  | nil => exact h
  | cons a es ih => exact ih (assocPut_nodup h _ _)

end

/-! ## The stages of a computation -/

theorem no_hypers_args {d : IndDef V} (h : d.hyperNames = []) (hy hy' : Option (SDict HNum))
    (a : SDict (RArg V)) :
    List.Forall₂ (ArgOf (runValue d hy)) d.kwargs a ↔ List.Forall₂ (ArgOf (runValue d hy')) d.kwargs a := by
  have hh : d.hypers = [] := by
    have h1 := (List.perm_insertionSort (· ≤ ·) ((d.hypers.map Hyper.name).dedup)).length_eq
    have h2 : ((d.hypers.map Hyper.name).dedup) = [] := by
      unfold IndDef.hyperNames at h
      rw [h] at h1
      exact List.length_eq_zero_iff.1 h1.symm
    rw [List.dedup_eq_nil] at h2
    exact List.map_eq_nil_iff.1 h2
  have hk : ∀ e ∈ d.kwargs, ∀ h, e.2 ≠ .hp h := by
    intro e he h0 heq
    have : h0 ∈ d.hypers := by
      unfold IndDef.hypers
      rw [List.mem_filterMap]
      exact ⟨e, he, by rw [heq]⟩
    rw [hh] at this
    cases this
  have key : ∀ (hy hy' : Option (SDict HNum)), List.Forall₂ (ArgOf (runValue d hy)) d.kwargs a →
      List.Forall₂ (ArgOf (runValue d hy')) d.kwargs a := by
    intro hy hy' hf
    have : ∀ (l : SDict (HArg V)) (a : SDict (RArg V)), (∀ e ∈ l, ∀ h, e.2 ≠ .hp h) →
        List.Forall₂ (ArgOf (runValue d hy)) l a → List.Forall₂ (ArgOf (runValue d hy')) l a := by
      intro l a hl hf
      induction hf with
      | nil => exact .nil
      | cons h1 _ ih =>
        rename_i e b l1 l2 _
        refine .cons ?_ (ih (fun e he => hl e (List.mem_cons_of_mem _ he)))
        obtain ⟨k, _ | v⟩ := e
        · exact absurd rfl (hl _ List.mem_cons_self _)
        · exact h1
    exact this _ _ hk hf
  exact ⟨key hy hy', key hy' hy⟩

theorem series_no_hypers {reg : IndReg V} {x : IndData} {p : IndSym} {d : IndDef V}
    (hd : reg.ind (parseName p.name).1 = some d) (hn : d.hyperNames = [])
    {hy : Option (SDict HNum)} (hy' : Option (SDict HNum)) {s : Series}
    (h : IndicatorSeries reg x hy p s) : IndicatorSeries reg x hy' p s := by
  obtain ⟨d', b, a, hd', hb, ha, h1, h2⟩ := h
  rw [hd] at hd'
  cases hd'
  exact ⟨d, b, a, hd, hb, (no_hypers_args hn _ _ _).1 ha, h1, h2⟩

theorem subset_get {params : SDict HNum} {names : List String} {l : List (String × HNum)}
    (h : subsetOf params names = .ok l) :
    l.map Prod.fst = names ∧ ∀ e ∈ l, params.get e.1 = some e.2 := by
  induction names generalizing l with
  | nil => cases h; simp
  | cons n rest ih =>
    simp only [subsetOf] at h
    rcases hv : params.get n with _ | v
    · rw [hv] at h; cases h
    · rw [hv] at h
      dsimp only at h
      rcases hr : subsetOf params rest with e | l'
      · rw [hr] at h; cases h
      · rw [hr] at h
        cases h
        obtain ⟨h1, h2⟩ := ih hr
        refine ⟨by simp [h1], ?_⟩
        intro e he
        rcases List.mem_cons.1 he with rfl | he
        · exact hv
        · exact h2 e he

theorem subset_ok {params : SDict HNum} {names : List String}
    (h : ∀ n ∈ names, ∃ v, params.get n = some v) : ∃ l, subsetOf params names = .ok l := by
  induction names with
  | nil => exact ⟨[], rfl⟩
  | cons n rest ih =>
    obtain ⟨v, hv⟩ := h n List.mem_cons_self
    obtain ⟨l, hl⟩ := ih (fun m hm => h m (List.mem_cons_of_mem _ hm))
    exact ⟨(n, v) :: l, by simp only [subsetOf, hv, hl]⟩

theorem mem_hyperNames {d : IndDef V} {n : String} :
    n ∈ d.hyperNames ↔ ∃ e ∈ d.kwargs, ∃ h, e.2 = .hp h ∧ h.name = n := by
  unfold IndDef.hyperNames
  rw [List.mem_insertionSort, List.mem_dedup, List.mem_map]
  unfold IndDef.hypers
  constructor
  · rintro ⟨h, hh, rfl⟩
    rw [List.mem_filterMap] at hh
    obtain ⟨e, he, h1⟩ := hh
    refine ⟨e, he, h, ?_, rfl⟩
    rcases e with ⟨k, _ | _⟩
    · simp only [Option.some.injEq] at h1; rw [h1]
    · cases h1
  · rintro ⟨e, he, h, h1, rfl⟩
    exact ⟨h, List.mem_filterMap.2 ⟨e, he, by rw [h1]⟩, rfl⟩

/-- A memo key determines the values of the hyperparameters. -/
theorem memoKey_some {reg : IndReg V} {p : IndSym} {hyper : Option (SDict HNum)} {k : MemoKey}
    (h : memoKey reg p hyper = .ok (some k)) :
    k.name = p.name ∧ k.symbol = p.symbol ∧ ∃ d, reg.ind (parseName p.name).1 = some d ∧
      k.params.map Prod.fst = d.hyperNames ∧ ∀ e ∈ k.params, runValue d hyper e.1 = some e.2 := by
  unfold memoKey at h
  rcases hd : reg.ind (parseName p.name).1 with _ | d
  · rw [hd] at h; cases h
  · rw [hd] at h
    dsimp only at h
    split at h
    · cases h
    · obtain ⟨params, hp, hg⟩ := effective_ok d hyper
      rw [hp] at h
      dsimp only at h
      rcases hs : subsetOf params d.hyperNames with e | l
      · rw [hs] at h; cases h
      · rw [hs] at h
        cases h
        obtain ⟨h1, h2⟩ := subset_get hs
        exact ⟨rfl, rfl, d, rfl, h1, fun e he => by rw [← hg]; exact h2 e he⟩

theorem series_same_key {reg : IndReg V} {x : IndData} {p p' : IndSym}
    {hy hy' : Option (SDict HNum)} {k : MemoKey} {s : Series}
    (h : memoKey reg p hy = .ok (some k)) (h' : memoKey reg p' hy' = .ok (some k))
    (hs : IndicatorSeries reg x hy p s) : IndicatorSeries reg x hy' p' s := by
  obtain ⟨a1, a2, d, a3, a4, a5⟩ := memoKey_some h
  obtain ⟨b1, b2, d', b3, b4, b5⟩ := memoKey_some h'
  have hp : p' = p := by
    obtain ⟨n, y⟩ := p
    obtain ⟨n', y'⟩ := p'
    simp only at a1 a2 b1 b2
    rw [← a1, ← a2, ← b1, ← b2]
  subst hp
  rw [a3] at b3
  cases b3
  obtain ⟨d', b, a, hd', hb, ha, h1, h2⟩ := hs
  rw [a3] at hd'
  cases hd'
  refine ⟨d, b, a, a3, hb, ?_, h1, h2⟩
  have hval : ∀ n ∈ d.hyperNames, runValue d hy n = runValue d hy' n := by
    intro n hn
    rw [← a4, List.mem_map] at hn
    obtain ⟨e, he, rfl⟩ := hn
    rw [a5 e he, b5 e he]
  have key : ∀ (l : SDict (HArg V)) (a : SDict (RArg V)), (∀ e ∈ l, e ∈ d.kwargs) →
      List.Forall₂ (ArgOf (runValue d hy)) l a → List.Forall₂ (ArgOf (runValue d hy')) l a := by
    intro l a hl hf
    induction hf with
    | nil => exact .nil
    | cons h1 _ ih =>
      rename_i e b l1 l2 _
      refine .cons ?_ (ih (fun e he => hl e (List.mem_cons_of_mem _ he)))
      have hmem := hl e List.mem_cons_self
      obtain ⟨k, hh | v⟩ := e
      · obtain ⟨h1, n, hn, hb⟩ := h1
        refine ⟨h1, n, ?_, hb⟩
        rw [← hval hh.name (mem_hyperNames.2 ⟨_, hmem, hh, rfl, rfl⟩)]
        exact hn
      · exact h1
  exact key _ _ (fun e he => he) ha

/-- The indicator cache holds the series of its keys. -/
def CacheGood (reg : IndReg V) (data : DateFields → IndData) (c : Option IndCache) : Prop :=
  ∀ c', c = some c' → ∀ f p s, c' (indKey f p) = some s →
    ∀ d, reg.ind (parseName p.name).1 = some d → d.hyperNames = [] →
    ∀ hyper, IndicatorSeries reg (data f) hyper p s

/-- The memo holds the series of its keys. -/
def MemoGood (reg : IndReg V) (x : IndData) (memo : List (MemoKey × Series)) : Prop :=
  ∀ e ∈ memo, ∀ p hyper, memoKey reg p hyper = .ok (some e.1) → IndicatorSeries reg x hyper p e.2

/-- The state is fit for calls on `f`. -/
structure IndGood (reg : IndReg V) (data : DateFields → IndData) (f : DateFields) (st : IndState) :
    Prop where
  cache : CacheGood reg data st.cache
  memo : MemoGood reg (data f) st.memo

theorem indKey_inj {f f' : DateFields} {p p' : IndSym} (h : indKey f p = indKey f' p') :
    f = f' ∧ p = p' := by
  obtain ⟨a, b, c, d, e⟩ := f
  obtain ⟨a', b', c', d', e'⟩ := f'
  obtain ⟨n, y⟩ := p
  obtain ⟨n', y'⟩ := p'
  simp only [indKey, IndKey.mk.injEq] at h
  obtain ⟨rfl, rfl, rfl, rfl, rfl, rfl, rfl⟩ := h
  exact ⟨rfl, rfl⟩

theorem splitCached_spec {reg : IndReg V} {c : IndCache} {f : DateFields} {syms : List IndSym}
    {found : List (IndSym × Series)} {left : List IndSym}
    (h : splitCached reg c f syms = .ok (found, left)) :
    (∀ p, p ∈ syms ↔ p ∈ found.map Prod.fst ∨ p ∈ left) ∧
    ∀ e ∈ found, c (indKey f e.1) = some e.2 ∧
      ∃ d, reg.ind (parseName e.1.name).1 = some d ∧ d.hyperNames = [] := by
  induction syms generalizing found left with
  | nil => cases h; simp
  | cons p rest ih =>
    simp only [splitCached] at h
    rcases hd : reg.ind (parseName p.name).1 with _ | d
    · rw [hd] at h; cases h
    · rw [hd] at h
      dsimp only at h
      rcases hr : splitCached reg c f rest with e | ⟨fd, lf⟩
      · rw [hr] at h; cases h
      · rw [hr] at h
        dsimp only at h
        obtain ⟨i1, i2⟩ := ih hr
        split at h
        · cases h
          refine ⟨fun q => ?_, i2⟩
          rw [List.mem_cons, i1, List.mem_cons]; tauto
        · rename_i hn
          push Not at hn
          rcases hc : c (indKey f p) with _ | s
          · rw [hc] at h
            cases h
            refine ⟨fun q => ?_, i2⟩
            rw [List.mem_cons, i1, List.mem_cons]; tauto
          · rw [hc] at h
            cases h
            refine ⟨fun q => ?_, ?_⟩
            · rw [List.mem_cons, i1, List.map_cons, List.mem_cons]; tauto
            · intro e he
              rcases List.mem_cons.1 he with rfl | he
              · exact ⟨hc, d, hd, hn⟩
              · exact i2 e he

theorem splitCached_ok {reg : IndReg V} (c : IndCache) (f : DateFields) {syms : List IndSym}
    (h : ∀ p ∈ syms, ∃ d, reg.ind (parseName p.name).1 = some d) :
    ∃ r, splitCached reg c f syms = .ok r := by
  induction syms with
  | nil => exact ⟨_, rfl⟩
  | cons p rest ih =>
    obtain ⟨d, hd⟩ := h p List.mem_cons_self
    obtain ⟨⟨fd, lf⟩, hr⟩ := ih (fun q hq => h q (List.mem_cons_of_mem _ hq))
    simp only [splitCached, hd, hr]
    split
    · exact ⟨_, rfl⟩
    · split <;> exact ⟨_, rfl⟩

theorem getCachedInds_spec {reg : IndReg V} {data : DateFields → IndData} {st : IndState}
    (hc : CacheGood reg data st.cache) {f : DateFields} {use : Bool} {syms : List IndSym}
    {found : List (IndSym × Series)} {left : List IndSym}
    (h : getCachedInds reg st (if use then some f else none) syms = .ok (found, left)) :
    (∀ p, p ∈ syms ↔ p ∈ found.map Prod.fst ∨ p ∈ left) ∧
    ∀ e ∈ found, ∀ hyper, IndicatorSeries reg (data f) hyper e.1 e.2 := by
  unfold getCachedInds at h
  cases use with
  | false =>
    simp only [Bool.false_eq_true, if_false, Except.ok.injEq, Prod.mk.injEq] at h
    obtain ⟨rfl, rfl⟩ := h
    simp
  | true =>
    simp only [if_true] at h
    rcases hs : st.cache with _ | c
    · rw [hs] at h
      simp only [Except.ok.injEq, Prod.mk.injEq] at h
      obtain ⟨rfl, rfl⟩ := h
      simp
    · rw [hs] at h
      obtain ⟨h1, h2⟩ := splitCached_spec h
      refine ⟨h1, fun e he hyper => ?_⟩
      obtain ⟨a, d, b, b'⟩ := h2 e he
      exact hc c hs f e.1 e.2 a d b b' hyper

theorem getMemo_spec {reg : IndReg V} {x : IndData} {st : IndState}
    (hm : MemoGood reg x st.memo) {p : IndSym} {hyper : Option (SDict HNum)} {s : Series}
    (h : st.getMemo reg p hyper = .ok (some s)) : IndicatorSeries reg x hyper p s := by
  unfold IndState.getMemo at h
  split at h
  · cases h
  · rcases hk : memoKey reg p hyper with e | _ | k
    · rw [hk] at h; cases h
    · rw [hk] at h; cases h
    · rw [hk] at h
      simp only [Except.ok.injEq] at h
      exact hm (k, s) (cacheGet_mem h) p hyper hk

theorem splitMemo_spec {reg : IndReg V} {x : IndData} {st : IndState}
    (hm : MemoGood reg x st.memo) {hyper : Option (SDict HNum)} {syms : List IndSym}
    {found : List (IndSym × Series)} {left : List IndSym}
    (h : splitMemo reg st hyper syms = .ok (found, left)) :
    (∀ p, p ∈ syms ↔ p ∈ found.map Prod.fst ∨ p ∈ left) ∧
    ∀ e ∈ found, IndicatorSeries reg x hyper e.1 e.2 := by
  induction syms generalizing found left with
  | nil => cases h; simp
  | cons p rest ih =>
    simp only [splitMemo] at h
    rcases hg : st.getMemo reg p hyper with e | hit
    · rw [hg] at h; cases h
    · rw [hg] at h
      dsimp only at h
      rcases hr : splitMemo reg st hyper rest with e | ⟨fd, lf⟩
      · rw [hr] at h; cases h
      · rw [hr] at h
        dsimp only at h
        obtain ⟨i1, i2⟩ := ih hr
        rcases hit with _ | s
        · cases h
          refine ⟨fun q => ?_, i2⟩
          rw [List.mem_cons, i1, List.mem_cons]; tauto
        · cases h
          refine ⟨fun q => ?_, ?_⟩
          · rw [List.mem_cons, i1, List.map_cons, List.mem_cons]; tauto
          · intro e he
            rcases List.mem_cons.1 he with rfl | he
            · exact getMemo_spec hm hg
            · exact i2 e he

theorem memoKey_ok {reg : IndReg V} {x : IndData} {hyper : Option (SDict HNum)} {p : IndSym}
    {s : Series} (h : IndicatorSeries reg x hyper p s) : ∃ k, memoKey reg p hyper = .ok k := by
  obtain ⟨d, b, a, hd, hb, ha, -⟩ := h
  unfold memoKey
  rw [hd]
  dsimp only
  split
  · exact ⟨_, rfl⟩
  · obtain ⟨params, hp, hg⟩ := effective_ok d hyper
    rw [hp]
    dsimp only
    have : ∀ n ∈ d.hyperNames, ∃ v, params.get n = some v := by
      intro n hn
      obtain ⟨e, he, hh, h1, rfl⟩ := mem_hyperNames.1 hn
      have key : ∀ (l : SDict (HArg V)) (a : SDict (RArg V)),
          List.Forall₂ (ArgOf (runValue d hyper)) l a → e ∈ l → ∃ v, params.get hh.name = some v := by
        intro l a hf hel
        induction hf with
        | nil => cases hel
        | cons h0 _ ih =>
          rcases List.mem_cons.1 hel with rfl | hel
          · unfold ArgOf at h0
            rw [h1] at h0
            obtain ⟨-, n, hn, -⟩ := h0
            exact ⟨n, by rw [hg]; exact hn⟩
          · exact ih hel
      exact key _ _ ha he
    obtain ⟨l, hl⟩ := subset_ok this
    rw [hl]
    exact ⟨_, rfl⟩

theorem splitMemo_ok {reg : IndReg V} {x : IndData} (st : IndState)
    {hyper : Option (SDict HNum)} {syms : List IndSym}
    (h : ∀ p ∈ syms, ∃ s, IndicatorSeries reg x hyper p s) :
    ∃ r, splitMemo reg st hyper syms = .ok r := by
  induction syms with
  | nil => exact ⟨_, rfl⟩
  | cons p rest ih =>
    obtain ⟨s, hs⟩ := h p List.mem_cons_self
    obtain ⟨⟨fd, lf⟩, hr⟩ := ih (fun q hq => h q (List.mem_cons_of_mem _ hq))
    have hg : ∃ o, st.getMemo reg p hyper = .ok o := by
      unfold IndState.getMemo
      split
      · exact ⟨_, rfl⟩
      · obtain ⟨k, hk⟩ := memoKey_ok hs
        rw [hk]
        rcases k with _ | k <;> exact ⟨_, rfl⟩
    obtain ⟨o, ho⟩ := hg
    simp only [splitMemo, ho, hr]
    split <;> exact ⟨_, rfl⟩

theorem mem_bySymbol {syms : List IndSym} {p : IndSym} : p ∈ bySymbol syms ↔ p ∈ syms := by
  unfold bySymbol
  simp only [List.mem_flatMap, List.mem_eraseDups, List.mem_map, List.mem_filter, decide_eq_true_eq]
  constructor
  · rintro ⟨s, -, h, -⟩; exact h
  · intro h; exact ⟨p.symbol, ⟨p, h, rfl⟩, h, rfl⟩

theorem runIndicators_spec {reg : IndReg V} {x : IndData} {hyper : Option (SDict HNum)}
    {syms : List IndSym} {r : List (IndSym × Series)} (h : runIndicators reg x hyper syms = .ok r) :
    r.map Prod.fst = syms ∧ ∀ e ∈ r, IndicatorSeries reg x hyper e.1 e.2 := by
  induction syms generalizing r with
  | nil => cases h; simp
  | cons p rest ih =>
    simp only [runIndicators] at h
    rcases hs : runIndicator reg x hyper p with e | s
    · rw [hs] at h; cases h
    · rw [hs] at h
      dsimp only at h
      rcases hr : runIndicators reg x hyper rest with e | l
      · rw [hr] at h; cases h
      · rw [hr] at h
        cases h
        obtain ⟨i1, i2⟩ := ih hr
        refine ⟨by rw [List.map_cons, i1], ?_⟩
        intro e he
        rcases List.mem_cons.1 he with rfl | he
        · exact (runIndicator_iff ..).1 hs
        · exact i2 e he

theorem runIndicators_ok {reg : IndReg V} {x : IndData} {hyper : Option (SDict HNum)}
    {syms : List IndSym} (h : ∀ p ∈ syms, ∃ s, IndicatorSeries reg x hyper p s) :
    ∃ r, runIndicators reg x hyper syms = .ok r := by
  induction syms with
  | nil => exact ⟨_, rfl⟩
  | cons p rest ih =>
    obtain ⟨s, hs⟩ := h p List.mem_cons_self
    obtain ⟨l, hl⟩ := ih (fun q hq => h q (List.mem_cons_of_mem _ hq))
    rw [← runIndicator_iff] at hs
    exact ⟨(p, s) :: l, by simp only [runIndicators, hs, hl]⟩

theorem setMemo_spec {reg : IndReg V} {data : DateFields → IndData} {f : DateFields} {st st' : IndState}
    (hg : IndGood reg data f st) {p : IndSym} {s : Series} {hyper : Option (SDict HNum)}
    (hs : IndicatorSeries reg (data f) hyper p s) (h : st.setMemo reg p s hyper = .ok st') :
    IndGood reg data f st' ∧ st'.cache = st.cache ∧ st'.memoMax = st.memoMax ∧
      (st.memo.length ≤ st.memoMax → st'.memo.length ≤ st'.memoMax) := by
  unfold IndState.setMemo at h
  split at h
  · cases h; exact ⟨hg, rfl, rfl, id⟩
  · rename_i hm0
    rcases hk : memoKey reg p hyper with e | _ | k
    · rw [hk] at h; cases h
    · rw [hk] at h; cases h; exact ⟨hg, rfl, rfl, id⟩
    · rw [hk] at h
      cases h
      refine ⟨⟨hg.cache, ?_⟩, rfl, rfl, ?_⟩
      · intro e he q hy hq
        rcases assocPut_mem he with rfl | he
        · exact series_same_key hk hq hs
        · refine hg.memo e ?_ q hy hq
          split at he
          · exact List.mem_of_mem_tail he
          · exact he
      · intro hl
        dsimp only
        refine (assocPut_length _ _ _).trans ?_
        split
        · rw [List.length_tail]; omega
        · omega

theorem setCached_spec {reg : IndReg V} {data : DateFields → IndData} {f : DateFields} {st st' : IndState}
    (hg : IndGood reg data f st) {p : IndSym} {s : Series} {hyper : Option (SDict HNum)} {use : Bool}
    (hs : IndicatorSeries reg (data f) hyper p s)
    (h : st.setCached reg p s (if use then some f else none) = .ok st') :
    IndGood reg data f st' ∧ st'.memo = st.memo ∧ st'.memoMax = st.memoMax := by
  unfold IndState.setCached at h
  cases use with
  | false => simp only [Bool.false_eq_true, if_false, Except.ok.injEq] at h; subst h; exact ⟨hg, rfl, rfl⟩
  | true =>
    simp only [if_true] at h
    rcases hc : st.cache with _ | c
    · rw [hc] at h; cases h; exact ⟨hg, rfl, rfl⟩
    · rw [hc] at h
      dsimp only at h
      rcases hd : reg.ind (parseName p.name).1 with _ | d
      · rw [hd] at h; cases h
      · rw [hd] at h
        dsimp only at h
        split at h
        · cases h; exact ⟨hg, rfl, rfl⟩
        · rename_i hn
          push Not at hn
          cases h
          refine ⟨⟨?_, hg.memo⟩, rfl, rfl⟩
          intro c' hc' f' p' s' hk d' hd' hn' hy
          simp only [Option.some.injEq] at hc'
          subst hc'
          dsimp only at hk
          split at hk
          · rename_i heq
            obtain ⟨rfl, rfl⟩ := indKey_inj heq
            cases hk
            exact series_no_hypers hd hn hy hs
          · exact hg.cache c hc f' p' s' hk d' hd' hn' hy

theorem enter_spec {reg : IndReg V} {data : DateFields → IndData} {f : DateFields} {use : Bool}
    {hyper : Option (SDict HNum)} {es : List (IndSym × Series)} {out out' : List (IndSym × Series)}
    {st st' : IndState} (hg : IndGood reg data f st)
    (hs : ∀ e ∈ es, IndicatorSeries reg (data f) hyper e.1 e.2)
    (h : enterResults reg (if use then some f else none) hyper es out st = .ok (out', st')) :
    out' = es.foldl (fun out e => assocPut out e.1 e.2) out ∧ IndGood reg data f st' ∧
      st'.memoMax = st.memoMax ∧ (st.memo.length ≤ st.memoMax → st'.memo.length ≤ st'.memoMax) := by
  induction es generalizing out st with
  | nil => cases h; exact ⟨rfl, hg, rfl, id⟩
  | cons e es ih =>
    obtain ⟨p, s⟩ := e
    simp only [enterResults] at h
    rcases h1 : st.setMemo reg p s hyper with e | st1
    · rw [h1] at h; cases h
    · rw [h1] at h
      dsimp only at h
      rcases h2 : st1.setCached reg p s (if use then some f else none) with e | st2
      · rw [h2] at h; cases h
      · rw [h2] at h
        dsimp only at h
        have hp := hs (p, s) List.mem_cons_self
        obtain ⟨g1, -, m1, l1⟩ := setMemo_spec hg hp h1
        obtain ⟨g2, m2, l2⟩ := setCached_spec g1 hp h2
        obtain ⟨i1, i2, i3, i4⟩ := ih g2 (fun e he => hs e (List.mem_cons_of_mem _ he)) h
        exact ⟨i1, i2, by rw [i3, l2, m1], fun hl => i4 (by rw [m2, l2]; exact l1 hl)⟩

theorem enter_ok {reg : IndReg V} {x : IndData} {fields : Option DateFields}
    {hyper : Option (SDict HNum)} {es : List (IndSym × Series)} (out : List (IndSym × Series))
    (st : IndState) (hs : ∀ e ∈ es, IndicatorSeries reg x hyper e.1 e.2) :
    ∃ r, enterResults reg fields hyper es out st = .ok r := by
  induction es generalizing out st with
  | nil => exact ⟨_, rfl⟩
  | cons e es ih =>
    obtain ⟨p, s⟩ := e
    have hp := hs (p, s) List.mem_cons_self
    have h1 : ∃ st1, st.setMemo reg p s hyper = .ok st1 := by
      unfold IndState.setMemo
      split
      · exact ⟨_, rfl⟩
      · obtain ⟨k, hk⟩ := memoKey_ok hp
        rw [hk]
        rcases k with _ | k <;> exact ⟨_, rfl⟩
    obtain ⟨st1, h1⟩ := h1
    have h2 : ∃ st2, st1.setCached reg p s fields = .ok st2 := by
      unfold IndState.setCached
      split
      · obtain ⟨d, b, a, hd, -⟩ := hp
        simp only at hd
        rw [hd]
        dsimp only
        split <;> exact ⟨_, rfl⟩
      · exact ⟨_, rfl⟩
    obtain ⟨st2, h2⟩ := h2
    simp only [enterResults, h1, h2]
    exact ih _ _ (fun e he => hs e (List.mem_cons_of_mem _ he))

/-! ## The whole computation -/

theorem compute_spec {reg : IndReg V} {data : DateFields → IndData} {f : DateFields} {use : Bool}
    {hyper : Option (SDict HNum)} {syms : List IndSym} {st st' : IndState}
    {out : List (IndSym × Series)} (hg : IndGood reg data f st)
    (h : computeIndicators reg (data f) syms (if use then some f else none) hyper st = .ok (out, st')) :
    (IndGood reg data f st' ∧ st'.memoMax = st.memoMax ∧
      (st.memo.length ≤ st.memoMax → st'.memo.length ≤ st'.memoMax)) ∧
    (out.map Prod.fst).Nodup ∧ (∀ e ∈ out, IndicatorSeries reg (data f) hyper e.1 e.2) ∧
    ((data f).store.symbols ≠ [] → ∀ p, p ∈ out.map Prod.fst ↔ p ∈ syms) := by
  unfold computeIndicators at h
  split at h
  · rename_i h0
    cases h
    refine ⟨⟨hg, rfl, id⟩, by simp, by simp, ?_⟩
    intro hne p
    rcases h0 with h0 | h0
    · simp [h0]
    · exact absurd h0 hne
  · dsimp only at h
    rcases h1 : getCachedInds reg st (if use then some f else none) (syms.insertionSort
        (fun a b => a.name < b.name ∨ (a.name = b.name ∧ a.symbol ≤ b.symbol))) with e | ⟨found, left⟩
    · rw [h1] at h; cases h
    · rw [h1] at h
      dsimp only at h
      rcases h2 : splitMemo reg st hyper left with e | ⟨hits, left'⟩
      · rw [h2] at h; cases h
      · rw [h2] at h
        dsimp only at h
        rcases h3 : runIndicators reg (data f) hyper (bySymbol left') with e | res
        · rw [h3] at h; cases h
        · rw [h3] at h
          dsimp only at h
          obtain ⟨a1, a2⟩ := getCachedInds_spec hg.cache h1
          obtain ⟨b1, b2⟩ := splitMemo_spec hg.memo h2
          obtain ⟨c1, c2⟩ := runIndicators_spec h3
          obtain ⟨d1, d2, d3, d4⟩ := enter_spec hg c2 h
          refine ⟨⟨d2, d3, d4⟩, ?_, ?_, ?_⟩
          · rw [d1]
            exact foldPut_nodup _ (foldPut_nodup _ (foldPut_nodup _ (by simp)))
          · intro e he
            rw [d1] at he
            rcases foldPut_mem he with he | he
            · exact c2 e he
            · rcases foldPut_mem he with he | he
              · exact b2 e he
              · rcases foldPut_mem he with he | he
                · exact a2 e he hyper
                · cases he
          · intro _ p
            rw [d1, foldPut_keys, foldPut_keys, foldPut_keys, c1, mem_bySymbol]
            have e1 := a1 p
            rw [List.mem_insertionSort] at e1
            have e2 := b1 p
            simp only [List.map_nil, List.not_mem_nil, or_false]
            tauto

theorem compute_ok {reg : IndReg V} {data : DateFields → IndData} {f : DateFields} {use : Bool}
    {hyper : Option (SDict HNum)} {syms : List IndSym} {st : IndState}
    (hg : IndGood reg data f st)
    (hs : ∀ p ∈ syms, ∃ s, IndicatorSeries reg (data f) hyper p s) :
    ∃ r, computeIndicators reg (data f) syms (if use then some f else none) hyper st = .ok r := by
  unfold computeIndicators
  split
  · exact ⟨_, rfl⟩
  · dsimp only
    have hs' : ∀ p ∈ syms.insertionSort
        (fun a b => a.name < b.name ∨ (a.name = b.name ∧ a.symbol ≤ b.symbol)),
        ∃ s, IndicatorSeries reg (data f) hyper p s := by
      intro p hp
      rw [List.mem_insertionSort] at hp
      exact hs p hp
    have h1 : ∃ r, getCachedInds reg st (if use then some f else none) (syms.insertionSort
        (fun a b => a.name < b.name ∨ (a.name = b.name ∧ a.symbol ≤ b.symbol))) = .ok r := by
      unfold getCachedInds
      split
      · apply splitCached_ok
        intro p hp
        obtain ⟨s, d, b, a, hd, -⟩ := hs' p hp
        exact ⟨d, hd⟩
      · exact ⟨_, rfl⟩
    obtain ⟨⟨found, left⟩, h1⟩ := h1
    rw [h1]
    dsimp only
    obtain ⟨a1, a2⟩ := getCachedInds_spec hg.cache h1
    have hl : ∀ p ∈ left, ∃ s, IndicatorSeries reg (data f) hyper p s :=
      fun p hp => hs' p ((a1 p).2 (.inr hp))
    obtain ⟨⟨hits, left'⟩, h2⟩ := splitMemo_ok st hl
    rw [h2]
    dsimp only
    obtain ⟨b1, b2⟩ := splitMemo_spec hg.memo h2
    have hl' : ∀ p ∈ bySymbol left', ∃ s, IndicatorSeries reg (data f) hyper p s :=
      fun p hp => hl p ((b1 p).2 (.inr (mem_bySymbol.1 hp)))
    obtain ⟨res, h3⟩ := runIndicators_ok hl'
    rw [h3]
    dsimp only
    exact enter_ok _ _ (runIndicators_spec h3).2

/-- What holds of the caches in each mode. -/
theorem reach_good {reg : IndReg V} {data : DateFields → IndData} {m : IndMode} {st : IndState}
    (h : IndReach reg data m st) :
    CacheGood reg data st.cache ∧ st.memo.length ≤ st.memoMax ∧
    (m = .idle → st.memo = [] ∧ st.memoMax = 0) ∧
    ∀ f, m = .tuning f → MemoGood reg (data f) st.memo := by
  induction h with
  | start c hc =>
    refine ⟨?_, by simp, fun _ => ⟨rfl, rfl⟩, fun _ h => nomatch h⟩
    intro c' hc' f p s hs
    rw [hc c' hc'] at hs
    cases hs
  | @call m st f use hyper syms out st' _ hf hcomp ih =>
    obtain ⟨h1, h2, h3, h4⟩ := ih
    have hg : IndGood reg data f st := by
      refine ⟨h1, ?_⟩
      cases m with
      | idle => rw [(h3 rfl).1]; intro e he; cases he
      | tuning g => cases hf; exact h4 _ rfl
    obtain ⟨⟨g1, g2, g3⟩, -⟩ := compute_spec hg hcomp
    refine ⟨g1.cache, g3 h2, ?_, ?_⟩
    · intro hm
      have h5 := g3 h2
      rw [g2, (h3 hm).2] at h5
      exact ⟨List.length_eq_zero_iff.1 (by omega), by rw [g2, (h3 hm).2]⟩
    · intro g hm
      subst hm
      cases hf
      exact g1.memo
  | drop c hc _ ih =>
    obtain ⟨h1, h2, h3, h4⟩ := ih
    refine ⟨?_, h2, h3, h4⟩
    intro c' hc' f p s hs
    obtain ⟨c0, e1, e2⟩ := hc c' hc' _ _ hs
    exact h1 c0 e1 f p s e2
  | @tune st f n _ ih =>
    obtain ⟨h1, h2, h3, h4⟩ := ih
    refine ⟨h1, ?_, (fun h => nomatch h), ?_⟩
    · dsimp only; rw [(h3 rfl).1]; simp
    · intro g _ e he
      dsimp only at he
      rw [(h3 rfl).1] at he
      cases he
  | done _ ih =>
    obtain ⟨h1, -⟩ := ih
    exact ⟨h1, by simp, fun _ => ⟨rfl, rfl⟩, fun _ h => nomatch h⟩

theorem reach_fit {reg : IndReg V} {data : DateFields → IndData} {m : IndMode} {st : IndState}
    (h : IndReach reg data m st) {f : DateFields} (hf : m.For f) : IndGood reg data f st := by
  obtain ⟨h1, h2, h3, h4⟩ := reach_good h
  refine ⟨h1, ?_⟩
  cases m with
  | idle => rw [(h3 rfl).1]; intro e he; cases he
  | tuning g => cases hf; exact h4 _ rfl

/-- **C89, C90.** After any history of runs and optimisations, with or without the cache, a
run answers with exactly the requested pairs, each with the series of its own indicator,
bars and hyperparameters: what earlier runs and trials computed does not show. -/
theorem indicators_exact {reg : IndReg V} {data : DateFields → IndData} {m : IndMode}
    {st st' : IndState} (h : IndReach reg data m st) {f : DateFields} (hf : m.For f) (use : Bool)
    (hyper : Option (SDict HNum)) (syms : List IndSym) {out : List (IndSym × Series)}
    (hne : (data f).store.symbols ≠ [])
    (hc : computeIndicators reg (data f) syms (if use then some f else none) hyper st =
      .ok (out, st')) :
    (out.map Prod.fst).Nodup ∧ (∀ p, p ∈ out.map Prod.fst ↔ p ∈ syms) ∧
    ∀ e ∈ out, IndicatorSeries reg (data f) hyper e.1 e.2 := by
  obtain ⟨-, h1, h2, h3⟩ := compute_spec (reach_fit h hf) hc
  exact ⟨h1, h3 hne, h2⟩

/-- **C89.** A run succeeds exactly when every requested pair has a series: the indicator is
registered, its bars exist, every hyperparameter has a value and the function returns one
value per bar. -/
theorem indicators_defined {reg : IndReg V} {data : DateFields → IndData} {m : IndMode}
    {st : IndState} (h : IndReach reg data m st) {f : DateFields} (hf : m.For f) (use : Bool)
    (hyper : Option (SDict HNum)) (syms : List IndSym) (hne : (data f).store.symbols ≠ []) :
    (∃ out st', computeIndicators reg (data f) syms (if use then some f else none) hyper st =
      .ok (out, st')) ↔ ∀ p ∈ syms, ∃ s, IndicatorSeries reg (data f) hyper p s := by
  constructor
  · rintro ⟨out, st', hc⟩ p hp
    obtain ⟨-, h2, h3⟩ := indicators_exact h hf use hyper syms hne hc
    obtain ⟨e, he, rfl⟩ := List.mem_map.1 ((h2 p).2 hp)
    exact ⟨e.2, h3 e he⟩
  · intro hs
    obtain ⟨⟨out, st'⟩, hr⟩ := compute_ok (use := use) (reach_fit h hf) hs
    exact ⟨out, st', hr⟩

/-- **C90.** The series kept between the trials of an optimisation never number more than
its limit, and none are kept after it. -/
theorem memo_bounded {reg : IndReg V} {data : DateFields → IndData} {m : IndMode} {st : IndState}
    (h : IndReach reg data m st) :
    st.memo.length ≤ st.memoMax ∧ (m = .idle → st.memo = []) := by
  obtain ⟨h1, h2, h3, h4⟩ := reach_good h
  exact ⟨h2, fun hm => (h3 hm).1⟩

/-! ## Indicator sets -/

theorem fresh_reach (reg : IndReg V) (data : DateFields → IndData) :
    IndReach reg data .idle ⟨none, [], 0⟩ := .start none (fun _ h => nomatch h)

theorem symRows_mem {rows : List DRow} {sym : Sym} {r : DRow} :
    r ∈ symRows rows sym ↔ r ∈ rows ∧ r.symbol = sym := by
  unfold symRows
  rw [List.mem_insertionSort, List.mem_filter, decide_eq_true_eq]

theorem store_symbols_ne {cols : List String} {rows : List DRow} (h : rows ≠ []) :
    (storeOf cols rows).symbols ≠ [] := by
  intro h0
  rcases rows with _ | ⟨r, rest⟩
  · exact h rfl
  · have : r.symbol ∈ (storeOf cols (r :: rest)).symbols := by
      unfold storeOf
      rw [List.mem_insertionSort, List.mem_dedup]
      simp
    rw [h0] at this
    cases this

theorem blocks_perm (ss : List Sym) (hss : ss.Nodup) (rows : List DRow)
    (hall : ∀ r ∈ rows, r.symbol ∈ ss) :
    (ss.flatMap (fun s => (symRows rows s).map (fun r => (r.symbol, r.date)))).Perm
      (rows.map (fun r => (r.symbol, r.date))) := by
  induction ss generalizing rows with
  | nil =>
    rcases rows with _ | ⟨r, rest⟩
    · simp
    · exact absurd (hall r List.mem_cons_self) (by simp)
  | cons s ss ih =>
    rw [List.nodup_cons] at hss
    rw [List.flatMap_cons]
    have h1 : ∀ t ∈ ss, symRows rows t = symRows (rows.filter (fun r => ¬ r.symbol = s)) t := by
      intro t ht
      unfold symRows
      congr 1
      rw [List.filter_filter]
      apply List.filter_congr
      intro r _
      by_cases h : r.symbol = t
      · have : ¬ r.symbol = s := by rintro rfl; subst h; exact hss.1 ht
        simp [h, this]
        rintro rfl
        exact this h
      · simp [h]
    have h2 : ss.flatMap (fun s => (symRows rows s).map (fun r => (r.symbol, r.date))) =
        ss.flatMap (fun t => (symRows (rows.filter (fun r => ¬ r.symbol = s)) t).map
          (fun r => (r.symbol, r.date))) := by
      apply List.flatMap_congr
      intro t ht
      rw [h1 t ht]
    rw [h2]
    have h3 := ih hss.2 (rows.filter (fun r => ¬ r.symbol = s)) (by
      intro r hr
      rw [List.mem_filter] at hr
      have := hall r hr.1
      rw [List.mem_cons] at this
      rcases this with h | h
      · simp [h] at hr
      · exact h)
    have h4 : ((symRows rows s).map (fun r => (r.symbol, r.date))).Perm
        ((rows.filter (fun r => r.symbol = s)).map (fun r => (r.symbol, r.date))) :=
      (List.perm_insertionSort _ _).map _
    refine (h4.append h3).trans ?_
    rw [← List.map_append]
    apply List.Perm.map
    have h5 := List.filter_append_perm (fun r : DRow => decide (r.symbol = s)) rows
    simpa using h5

/-- The rows of the frame an indicator set returns, in terms of its series. -/
theorem indicatorSet_rows {reg : IndReg V} {cols : List String} {names : List Str} {rows : List DRow}
    {out : List IndRow} (h : indicatorSet reg cols names rows = .ok out) (hne : rows ≠ []) :
    names ≠ [] ∧ ∃ answer : List (IndSym × Series), ∃ blocks : List Sym,
      (answer.map Prod.fst).Nodup ∧
      (∀ p, p ∈ answer.map Prod.fst ↔ p.name ∈ names ∧ p.symbol ∈ rows.map DRow.symbol) ∧
      (∀ e ∈ answer, IndicatorSeries reg ⟨storeOf cols rows, fun _ _ => none⟩ none e.1 e.2) ∧
      blocks.Nodup ∧ blocks.Pairwise (· ≤ ·) ∧ (∀ s, s ∈ blocks ↔ s ∈ rows.map DRow.symbol) ∧
      out = blocks.flatMap (fun s => ((symRows rows s).map DRow.date).zipIdx.map (fun di =>
        { symbol := s, date := di.1, val := blockVal answer s di.2 })) := by
  unfold indicatorSet at h
  split at h
  · cases h
  · rename_i hn
    dsimp only at h
    refine ⟨hn, ?_⟩
    generalize hpairs : names.flatMap (fun n => ((rows.map DRow.symbol).eraseDups).map
      (fun s => (⟨n, s⟩ : IndSym))) = pairs at h
    rcases hc : computeIndicators reg ⟨storeOf cols rows, fun _ _ => none⟩ pairs none none
      ⟨none, [], 0⟩ with e | ⟨answer, st'⟩
    · rw [hc] at h; cases h
    · rw [hc] at h
      dsimp only at h
      obtain ⟨a1, a2, a3⟩ := indicators_exact (fresh_reach reg
        (fun _ => ⟨storeOf cols rows, fun _ _ => none⟩)) (f := ⟨0, 0, 0, none, none⟩) trivial false none
        pairs (store_symbols_ne hne) hc
      have a4 : ∀ p, p ∈ pairs ↔ p.name ∈ names ∧ p.symbol ∈ rows.map DRow.symbol := by
        intro p
        rw [← hpairs]
        simp only [List.mem_flatMap, List.mem_map, List.mem_eraseDups]
        constructor
        · rintro ⟨n, hn, s, ⟨r, hr, rfl⟩, rfl⟩; exact ⟨hn, r, hr, rfl⟩
        · rintro ⟨h1, r, hr, h2⟩; exact ⟨p.name, h1, p.symbol, ⟨r, hr, h2⟩, rfl⟩
      refine ⟨answer, ((answer.map (fun e => e.1.symbol)).eraseDups).insertionSort (· ≤ ·), a1,
        fun p => (a2 p).trans (a4 p), a3, ?_, List.pairwise_insertionSort _ _, ?_, ?_⟩
      · exact (List.perm_insertionSort _ _).nodup_iff.2 (nodup_eraseDups _)
      · intro s
        rw [List.mem_insertionSort, List.mem_eraseDups]
        constructor
        · intro hs
          obtain ⟨e, he, rfl⟩ := List.mem_map.1 hs
          exact ((a4 _).1 ((a2 e.1).1 (List.mem_map.2 ⟨e, he, rfl⟩))).2
        · intro hs
          rcases names with _ | ⟨n, _⟩
          · exact absurd rfl hn
          · obtain ⟨e, he, h1⟩ := List.mem_map.1
              ((a2 ⟨n, s⟩).2 ((a4 _).2 ⟨List.mem_cons_self, hs⟩))
            exact List.mem_map.2 ⟨e, he, by rw [h1]⟩
      · cases h
        apply List.flatMap_congr
        intro s hs
        have hs' : s ∈ rows.map DRow.symbol := by
          rw [List.mem_insertionSort, List.mem_eraseDups] at hs
          obtain ⟨e, he, rfl⟩ := List.mem_map.1 hs
          exact ((a4 _).1 ((a2 e.1).1 (List.mem_map.2 ⟨e, he, rfl⟩))).2
        have : (storeOf cols rows).arrays s = some
            { dates := (symRows rows s).map DRow.date,
              col := fun c => if c ∈ cols then some ((symRows rows s).map (fun r => r.val c))
               else none } := by
          unfold storeOf
          dsimp only
          rw [if_pos hs']
        rw [this]

/-- **C91.** The frame an indicator set returns has the rows of its input, by symbol and
date; and the rows of a symbol hold, for every indicator of the set, the series of that
indicator on that symbol. -/
theorem indicator_set {reg : IndReg V} {cols : List String} {names : List Str} {rows : List DRow}
    {out : List IndRow} (h : indicatorSet reg cols names rows = .ok out) :
    (out.map (fun r => (r.symbol, r.date))).Perm (rows.map (fun r => (r.symbol, r.date))) ∧
    out.Pairwise (fun a b => a.symbol < b.symbol ∨ (a.symbol = b.symbol ∧ a.date ≤ b.date)) ∧
    ∀ n ∈ names, ∀ s ∈ rows.map DRow.symbol,
      IndicatorSeries reg ⟨storeOf cols rows, fun _ _ => none⟩ none ⟨n, s⟩
        ((out.filter (fun r => r.symbol = s)).map (fun r => (r.date, r.val n))) := by
  by_cases hne : rows = []
  · subst hne
    unfold indicatorSet at h
    split at h
    · cases h
    · cases h; simp
  · obtain ⟨hn, answer, blocks, a1, a2, a3, b1, b2, b3, rfl⟩ := indicatorSet_rows h hne
    refine ⟨?_, ?_, ?_⟩
    · refine List.Perm.trans (List.Perm.of_eq ?_)
        (blocks_perm blocks b1 rows (fun r hr => (b3 _).2 (List.mem_map.2 ⟨r, hr, rfl⟩)))
      rw [List.map_flatMap]
      apply List.flatMap_congr
      intro s _
      rw [List.map_map]
      apply List.ext_getElem
      · simp
      · intro i h1 h2
        simp only [List.getElem_map, List.getElem_zipIdx, Function.comp]
        have hm := (symRows_mem (rows := rows) (sym := s)).1
          (List.getElem_mem (l := symRows rows s) (n := i) (by simpa using h1))
        rw [hm.2]
    · rw [List.pairwise_flatMap]
      constructor
      · intro s _
        rw [List.pairwise_map]
        have hs : ((symRows rows s).map DRow.date).Pairwise (· ≤ ·) := by
          rw [List.pairwise_map]
          exact List.pairwise_insertionSort (fun a b : DRow => a.date ≤ b.date) _
        rw [List.pairwise_iff_getElem] at hs ⊢
        intro i j hi hj hij
        right
        refine ⟨rfl, ?_⟩
        simp only [List.getElem_zipIdx]
        exact hs i j (by simpa using hi) (by simpa using hj) hij
      · have : blocks.Pairwise (fun a b => a ≠ b) := b1
        refine (b2.and this).imp ?_
        rintro a b ⟨h1, h2⟩ x hx y hy
        left
        obtain ⟨_, -, rfl⟩ := List.mem_map.1 hx
        obtain ⟨_, -, rfl⟩ := List.mem_map.1 hy
        exact lt_of_le_of_ne h1 h2
    · intro n hn' s hs
      obtain ⟨e, he, h1⟩ := List.mem_map.1 ((a2 ⟨n, s⟩).2 ⟨hn', hs⟩)
      have hser := a3 e he
      rw [h1] at hser
      have hget : cacheGet answer ⟨n, s⟩ = some e.2 := by
        apply cacheGet_of_mem a1
        rw [← h1]
        exact he
      have hfil : (blocks.flatMap (fun s => ((symRows rows s).map DRow.date).zipIdx.map (fun di =>
          ({ symbol := s, date := di.1, val := blockVal answer s di.2 } : IndRow)))).filter
            (fun r => r.symbol = s) =
          ((symRows rows s).map DRow.date).zipIdx.map (fun di =>
            { symbol := s, date := di.1, val := blockVal answer s di.2 }) := by
        have hs' := (b3 s).2 hs
        clear b2 b3 h
        induction blocks with
        | nil => cases hs'
        | cons t bs ih =>
          rw [List.nodup_cons] at b1
          rw [List.flatMap_cons, List.filter_append]
          by_cases hts : t = s
          · subst hts
            rw [List.filter_eq_self.2, List.filter_eq_nil_iff.2, List.append_nil]
            · intro r hr
              obtain ⟨u, hu, hr⟩ := List.mem_flatMap.1 hr
              obtain ⟨_, -, rfl⟩ := List.mem_map.1 hr
              simp only [decide_eq_true_eq]
              rintro rfl
              exact b1.1 hu
            · intro r hr
              obtain ⟨_, -, rfl⟩ := List.mem_map.1 hr
              simp
          · rw [List.filter_eq_nil_iff.2, List.nil_append]
            · apply ih b1.2
              rcases List.mem_cons.1 hs' with h | h
              · exact absurd h.symm hts
              · exact h
            · intro r hr
              obtain ⟨_, -, rfl⟩ := List.mem_map.1 hr
              simpa using hts
      rw [hfil, List.map_map]
      have hdates : e.2.map Prod.fst = (symRows rows s).map DRow.date := by
        obtain ⟨d, b, a, -, hb, -, h3, -⟩ := hser
        unfold BarsOf at hb
        split at hb
        · cases hb
        · obtain ⟨a', h5, h6, -⟩ := hb
          unfold storeOf at h5
          dsimp only at h5
          rw [if_pos hs] at h5
          cases h5
          rw [h3, h6]
      have : (((symRows rows s).map DRow.date).zipIdx.map ((fun r : IndRow => (r.date, r.val n)) ∘
          (fun di => { symbol := s, date := di.1, val := blockVal answer s di.2 }))) = e.2 := by
        rw [← hdates]
        apply List.ext_getElem
        · simp
        · intro i h1 h2
          simp only [List.getElem_map, List.getElem_zipIdx, Function.comp, blockVal, hget]
          simp [h2]
      rw [this]
      exact hser

/-- **C91.** An indicator set computes a frame exactly when it has indicators and each has a
series on every symbol of the input. -/
theorem indicator_set_defined (reg : IndReg V) (cols : List String) (names : List Str)
    (rows : List DRow) :
    (∃ out, indicatorSet reg cols names rows = .ok out) ↔
      names ≠ [] ∧ ∀ n ∈ names, ∀ s ∈ rows.map DRow.symbol,
        ∃ ser, IndicatorSeries reg ⟨storeOf cols rows, fun _ _ => none⟩ none ⟨n, s⟩ ser := by
  constructor
  · rintro ⟨out, h⟩
    refine ⟨?_, fun n hn s hs => ⟨_, (indicator_set h).2.2 n hn s hs⟩⟩
    rintro rfl
    cases h
  · rintro ⟨hn, h⟩
    unfold indicatorSet
    rw [if_neg hn]
    split
    · exact ⟨_, rfl⟩
    · rename_i hne
      dsimp only
      obtain ⟨⟨o, st'⟩, hr⟩ := (compute_ok (use := false) (hyper := none)
        (syms := names.flatMap (fun n => ((rows.map DRow.symbol).eraseDups).map
          (fun s => (⟨n, s⟩ : IndSym)))) (reach_fit (fresh_reach reg
          (fun _ => ⟨storeOf cols rows, fun _ _ => none⟩)) (f := ⟨0, 0, 0, none, none⟩) trivial) (by
          intro p hp
          simp only [List.mem_flatMap, List.mem_map, List.mem_eraseDups] at hp
          obtain ⟨n, hn, s, ⟨r, hr, rfl⟩, rfl⟩ := hp
          exact h n hn _ (List.mem_map.2 ⟨r, hr, rfl⟩)))
      simp only [Bool.false_eq_true, if_false] at hr
      rw [hr]
      exact ⟨_, rfl⟩

end

/-! ## Concrete cases -/

namespace IndDemo

/-- `close` times the first argument. -/
def scaled : IndDef Unit where
  kwargs := [("w", .hp ⟨"w", .int 2, .int 1, .int 3, .int 1⟩), ("field", .plain ())]
  fn := fun b a => match a with
    | (_, .num n) :: _ => ((b.col "close").getD []).map (fun c => c.map (fun q => q * n.val))
    | _ => []

/-- `close` plus a constant. -/
def shifted (k : ℚ) : IndDef Unit where
  kwargs := [("field", .plain ())]
  fn := fun b _ => ((b.col "close").getD []).map (fun c => c.map (fun q => q + k))

def reg (k : ℚ) : IndReg Unit where
  ind := fun n => if n = "ma".toList then some scaled
    else if n = "up".toList then some (shifted k) else none
  cols := ["close"]

def rows (a : ℚ) : List DRow :=
  [⟨"B", 2, fun _ => some 7⟩, ⟨"A", 2, fun _ => some (a + 1)⟩, ⟨"A", 1, fun _ => some a⟩]

def data (a : ℚ) : IndData := ⟨storeOf ["close", "volume"] (rows a), fun _ _ => none⟩

def fields : DateFields := ⟨0, 9, 86400, none, none⟩

def ma : IndSym := ⟨"ma".toList, "A"⟩
def up : IndSym := ⟨"up".toList, "A"⟩

/-- The answer of a run. -/
def answer (r : Except IErr (List (IndSym × Series) × IndState)) : Option (List (IndSym × Series)) :=
  match r with
  | .ok r => some r.1
  | .error _ => none

/-- The caches after a run. -/
def next (r : Except IErr (List (IndSym × Series) × IndState)) : IndState :=
  match r with
  | .ok r => r.2
  | .error _ => ⟨none, [], 0⟩

theorem of_answer {r : Except IErr (List (IndSym × Series) × IndState)} {o : List (IndSym × Series)}
    (h : answer r = some o) : r = .ok (o, next r) := by
  rcases r with e | ⟨o', st⟩
  · cases h
  · cases h; rfl

/-- A first run, with the indicator cache enabled and room for `max` series between trials. -/
def first (k a : ℚ) (syms : List IndSym) (hyper : Option (SDict HNum)) (max : Nat) :
    Except IErr (List (IndSym × Series) × IndState) :=
  computeIndicators (reg k) (data a) syms (some fields) hyper ⟨some (fun _ => none), [], max⟩

end IndDemo

open IndDemo

/-- A first run, in an optimisation that keeps two series. -/
example : answer (first 1 5 [ma, up] (some [("w", .int 3)]) 2) =
    some [(ma, [(1, some 15), (2, some 18)]), (up, [(1, some 6), (2, some 7)])] := by
  decide +kernel

/-- The state it leaves is reachable in the optimisation, and holds an entry of each kind. -/
example : IndReach (reg 1) (fun _ => data 5) (.tuning fields)
      (next (first 1 5 [ma, up] (some [("w", .int 3)]) 2)) ∧
    (next (first 1 5 [ma, up] (some [("w", .int 3)]) 2)).memo =
      [(⟨"ma".toList, "A", [("w", .int 3)]⟩, [(1, some 15), (2, some 18)])] ∧
    ((next (first 1 5 [ma, up] (some [("w", .int 3)]) 2)).cache.bind (fun c => c (indKey fields up))) =
      some [(1, some 6), (2, some 7)] := by
  refine ⟨?_, by decide +kernel, by decide +kernel⟩
  have h := of_answer (r := first 1 5 [ma, up] (some [("w", .int 3)]) 2)
    (o := [(ma, [(1, some 15), (2, some 18)]), (up, [(1, some 6), (2, some 7)])]) (by decide +kernel)
  exact .call fields true (some [("w", .int 3)]) [ma, up]
    (.tune fields 2 (.start (some (fun _ => none)) (fun c' hc' k => by cases hc'; rfl))) rfl h

/-- The next trial has its own value. -/
example : answer (computeIndicators (reg 1) (data 5) [up, ma, ma] (some fields) (some [("w", .int 1)])
      (next (first 1 5 [ma, up] (some [("w", .int 3)]) 2))) =
    some [(up, [(1, some 6), (2, some 7)]), (ma, [(1, some 5), (2, some 6)])] := by
  decide +kernel

/-- The defaults are `w = 2`. -/
example : answer (computeIndicators (reg 1) (data 5) [ma] none none
      (next (first 1 5 [ma, up] (some [("w", .int 3)]) 2))) =
    some [(ma, [(1, some 10), (2, some 12)])] := by
  decide +kernel

/-- A run without a value for a hyperparameter fails, as does an unknown indicator. -/
example : answer (computeIndicators (reg 1) (data 5) [ma] none (some []) ⟨none, [], 0⟩) = none ∧
    answer (computeIndicators (reg 1) (data 5) [⟨"x".toList, "A"⟩] none none ⟨none, [], 0⟩) = none := by
  decide +kernel

/-- The frame of an indicator set. -/
example : (match indicatorSet (reg 1) ["close", "volume"] ["up".toList, "ma".toList] (rows 5) with
    | .ok out => some (out.map (fun r => (r.symbol, r.date, r.val "up".toList, r.val "ma".toList)))
    | .error _ => none) =
    some [("A", 1, some 6, some 10), ("A", 2, some 7, some 12), ("B", 2, some 8, some 14)] := by
  decide +kernel

/-- **C61 fails for indicators.** With the cache enabled, a run on other data of the same
dates (another data source, or the other setting of `adjust`) is answered with the series
of the first run. -/
theorem indicator_data_not_separated : ∃ (reg : IndReg Unit) (x x' : IndData) (f : DateFields)
    (p : IndSym) (out out' : List (IndSym × Series)) (st st' : IndState) (s s' : Series),
    computeIndicators reg x [p] (some f) none ⟨some (fun _ => none), [], 0⟩ = .ok (out, st) ∧
    computeIndicators reg x' [p] (some f) none st = .ok (out', st') ∧
    out' = [(p, s)] ∧ IndicatorSeries reg x none p s ∧ IndicatorSeries reg x' none p s' ∧ s ≠ s' := by
  refine ⟨reg 1, data 5, data 50, fields, up, [(up, [(1, some 6), (2, some 7)])],
    [(up, [(1, some 6), (2, some 7)])], next (first 1 5 [up] none 0),
    next (computeIndicators (reg 1) (data 50) [up] (some fields) none (next (first 1 5 [up] none 0))),
    [(1, some 6), (2, some 7)], [(1, some 51), (2, some 52)],
    of_answer (r := first 1 5 [up] none 0) (by decide +kernel), of_answer (by decide +kernel),
    rfl, ?_, ?_, by decide +kernel⟩
  · rw [← runIndicator_iff]; decide +kernel
  · rw [← runIndicator_iff]; decide +kernel

/-- **C61 fails for indicators.** Registering another function under the name of an
indicator leaves its cached series in use. -/
theorem indicator_redefined_not_separated : ∃ (reg reg' : IndReg Unit) (x : IndData) (f : DateFields)
    (p : IndSym) (out out' : List (IndSym × Series)) (st st' : IndState) (s s' : Series),
    computeIndicators reg x [p] (some f) none ⟨some (fun _ => none), [], 0⟩ = .ok (out, st) ∧
    computeIndicators reg' x [p] (some f) none st = .ok (out', st') ∧
    out' = [(p, s)] ∧ IndicatorSeries reg x none p s ∧ IndicatorSeries reg' x none p s' ∧ s ≠ s' := by
  refine ⟨reg 1, reg 2, data 5, fields, up, [(up, [(1, some 6), (2, some 7)])],
    [(up, [(1, some 6), (2, some 7)])], next (first 1 5 [up] none 0),
    next (computeIndicators (reg 2) (data 5) [up] (some fields) none (next (first 1 5 [up] none 0))),
    [(1, some 6), (2, some 7)], [(1, some 7), (2, some 8)],
    of_answer (r := first 1 5 [up] none 0) (by decide +kernel), of_answer (by decide +kernel),
    rfl, ?_, ?_, by decide +kernel⟩
  · rw [← runIndicator_iff]; decide +kernel
  · rw [← runIndicator_iff]; decide +kernel

/-- **C61.** Keys of cached indicators agree exactly when indicator, symbol, timeframe,
dates and filters do. -/
theorem indicator_keys (f f' : DateFields) (p p' : IndSym) :
    indKey f p = indKey f' p' ↔ f = f' ∧ p = p' :=
  ⟨indKey_inj, fun ⟨h, h'⟩ => by rw [h, h']⟩

end PyBroker
