import Verif.Indicator.Model

/-!
# Training models through the model cache

`ModelsMixin.train_models`, `_get_cached_models`, `_load_pooled_group_cache` and
`_set_cached_model` of `/repo/src/pybroker/model.py`, and the request
`Strategy._run_walkforward` of `/repo/src/pybroker/strategy.py` makes.

Preparing the input of a model, training it or loading it is one function of the task,
which may raise; `Verif/Lags/Train.lean` has the preparation.  A process pool evaluates
its tasks and returns their results in order.  A `frozenset` of symbols is a list.  Cache
entries written by older versions (a bare model) are not modelled; a write that fails
because the model cannot be pickled is a write whose entry is dropped.
-/

namespace PyBroker

/-- `ModelSymbol`, common.py:94-103. -/
structure MSym where
  model : String
  symbol : Sym
  deriving DecidableEq, Repr

/-- The class of a `ModelSource`: `ModelLoader`, 1296-1372, or `ModelTrainer`, 1375-1516. -/
inductive MKind
  | loader
  | trainer (pooled : Bool)
  deriving DecidableEq, Repr

/-- A `ModelSource`, 1154-1210; `predict` stands for `predict_fn` and `per_bar`. -/
structure MSource where
  kind : MKind
  indicators : List Str
  predict : Nat
  deriving DecidableEq, Repr

/-- The registered model sources, and whether the indicator of a base name is registered
with hyperparameters. -/
structure MReg where
  source : Str → Option MSource
  hyper : Str → Bool

/-- `CachedModel`, 1766-1782: the model, its input columns and its lag columns. -/
structure Fitted (M : Type) where
  model : M
  inputCols : Option (List String)
  lagCols : Option (List String)
  deriving DecidableEq, Repr

/-- `TrainedModel`, common.py:106-135; `predict` stands for `predict_fn` and `per_bar`. -/
structure Trained (M : Type) where
  name : String
  fitted : Fitted M
  predict : Nat
  deriving DecidableEq, Repr

/-- What is trained: a model of a group of symbols, which the training function gets in
sorted order (1904), or a model of one symbol (or a loaded one). -/
inductive MTask
  | pooled (name : String) (symbols : List Sym)
  | sym (p : MSym)
  deriving DecidableEq, Repr

/-- The errors raised. -/
inductive MErr
  | unknownModel | notPooled | loaderInterval | fit
  deriving DecidableEq, Repr

/-- The groups of pooled training: model name and execution id to symbols, in insertion
order. -/
abbrev MGroups := List ((String × Nat) × List Sym)

/-- The interval in a model's name. -/
def mInterval (name : String) : Option Iv := (parseName name.toList).2

/-- `scope.get_model_source(base_name)`. -/
def MReg.get (reg : MReg) (name : String) : Option MSource := reg.source (parseName name.toList).1

/-- `_uses_hyperparams`, 2718-2741. -/
def MReg.usesHyper (reg : MReg) (name : String) : Bool :=
  match reg.get name with
  | none => false
  | some s => s.indicators.any (fun i => reg.hyper (parseName i).1)

/-- `_model_cache_lookahead`, 650-660. -/
def cacheLookahead (name : String) (lookahead : Nat) : Option Nat :=
  if mInterval name = none then none else some lookahead

/-- The model cache. -/
abbrev MCache (M : Type) := ModelKey → Option (Fitted M)

/-- The key of a model. -/
def mKey (f : DateFields) (lookahead : Nat) (p : MSym) (pooled : Option (List Sym)) : ModelKey :=
  modelKey f p.symbol p.model pooled (cacheLookahead p.model lookahead)

section
variable {M : Type}

/-- A cached model as a `TrainedModel`, 2704-2715 and 2813-2822. -/
def MReg.load (reg : MReg) (p : MSym) (fd : Fitted M) : Except MErr (Trained M) :=
  match reg.get p.model with
  | none => .error .unknownModel
  | some s => .ok ⟨p.model, fd, s.predict⟩

/-- `_load_pooled_group_cache`, 2662-2716, over the remaining symbols of the group; without
a value when one of them is not cached. -/
def loadGroup (reg : MReg) (c : MCache M) (f : DateFields) (lookahead : Nat) (name : String)
    (symbols : List Sym) : List Sym → Except MErr (Option (List (MSym × Trained M)))
  | [] => .ok (some [])
  | s :: rest =>
    match c (mKey f lookahead ⟨name, s⟩ (some symbols)) with
    | none => .ok none
    | some fd =>
      match loadGroup reg c f lookahead name symbols rest with
      | .error e => .error e
      | .ok none => .ok none
      | .ok (some l) =>
        match reg.load ⟨name, s⟩ fd with
        | .error e => .error e
        | .ok t => .ok (some ((⟨name, s⟩, t) :: l))

/-- `pooled_groups_by_model_sym`, 2770-2775: the last group with the pair. -/
def groupOf (groups : MGroups) (p : MSym) : Option (List Sym) :=
  ((groups.filter (fun g => g.1.1 = p.model ∧ p.symbol ∈ g.2)).getLast?).map Prod.snd

/-- The loop of `_get_cached_models`, 2777-2824: the models found, in order, and the pairs
left.  `done` are the groups seen. -/
def cachedLoop (reg : MReg) (c : MCache M) (f : DateFields) (lookahead : Nat) (groups : MGroups) :
    List MSym → List (String × List Sym) → Except MErr (List (MSym × Trained M) × List MSym)
  | [], _ => .ok ([], [])
  | p :: rest, done =>
    match groupOf groups p with
    | some symbols =>
      if (p.model, symbols) ∈ done then cachedLoop reg c f lookahead groups rest done
      else
        match loadGroup reg c f lookahead p.model symbols symbols with
        | .error e => .error e
        | .ok r =>
          match cachedLoop reg c f lookahead groups rest ((p.model, symbols) :: done) with
          | .error e => .error e
          | .ok (models, left) =>
            match r with
            | some l => .ok (l ++ models, left)
            | none => .ok (models, p :: left)
    | none =>
      match c (mKey f lookahead p none) with
      | none =>
        match cachedLoop reg c f lookahead groups rest done with
        | .error e => .error e
        | .ok (models, left) => .ok (models, p :: left)
      | some fd =>
        match reg.load p fd with
        | .error e => .error e
        | .ok t =>
          match cachedLoop reg c f lookahead groups rest done with
          | .error e => .error e
          | .ok (models, left) => .ok ((p, t) :: models, left)

/-- The order of pairs. -/
def mLE (a b : MSym) : Prop := a.model < b.model ∨ (a.model = b.model ∧ a.symbol ≤ b.symbol)

instance (a b : MSym) : Decidable (mLE a b) := by unfold mLE; infer_instance

/-- `_get_cached_models`, 2743-2827. -/
def getCachedModels (reg : MReg) (cache : Option (MCache M)) (f : DateFields) (lookahead : Nat)
    (groups : MGroups) (syms : List MSym) : Except MErr (List (MSym × Trained M) × List MSym) :=
  let sorted := syms.insertionSort mLE
  match cache with
  | none => .ok ([], sorted)
  | some c =>
    let hyper := sorted.filter (fun p => reg.usesHyper p.model)
    match cachedLoop reg c f lookahead groups (sorted.filter (fun p => ! reg.usesHyper p.model)) [] with
    | .error e => .error e
    | .ok (models, left) =>
      .ok (models.foldl (fun out e => assocPut out e.1 e.2) [],
        if hyper = [] then left else (left ++ hyper).insertionSort mLE)

/-- The pairs of a group. -/
def groupPairs (g : (String × Nat) × List Sym) : List MSym := g.2.map (fun s => ⟨g.1.1, s⟩)

/-- `_has_uncached_pooled_groups`, 2310-2323. -/
def hasUncachedGroup (syms : List MSym) (models : List MSym) (groups : MGroups) : Bool :=
  groups.any (fun g => (groupPairs g).any (fun p => decide (p ∈ syms) && decide (p ∉ models)))

/-- The loop over the groups of `train_models`, 2045-2105: the tasks and the pairs they
cover. -/
def groupTasks (reg : MReg) (models left : List MSym) :
    MGroups → Except MErr (List (MTask × List MSym))
  | [] => .ok []
  | g :: rest =>
    if (groupPairs g).all (fun p => decide (p ∈ models)) then groupTasks reg models left rest
    else if (groupPairs g).all (fun p => decide (p ∉ left)) then groupTasks reg models left rest
    else
      match reg.get g.1.1 with
      | none => .error .unknownModel
      | some s =>
        if s.kind ≠ .trainer true then .error .notPooled
        else
          match groupTasks reg models left rest with
          | .error e => .error e
          | .ok l => .ok ((.pooled g.1.1 (g.2.insertionSort (· ≤ ·)), groupPairs g) :: l)

/-- The loop over the pairs left of `train_models`, 2107-2216: the pairs trained and the
pairs loaded.  `skip` are the pairs with a model or in a group's task. -/
def symTasks (reg : MReg) (skip : List MSym) : List MSym → Except MErr (List MSym × List MSym)
  | [] => .ok ([], [])
  | p :: rest =>
    if p ∈ skip then symTasks reg skip rest
    else
      match reg.get p.model with
      | none => .error .unknownModel
      | some s =>
        match s.kind with
        | .loader =>
          if mInterval p.model ≠ none then .error .loaderInterval
          else
            match symTasks reg skip rest with
            | .error e => .error e
            | .ok (tr, ld) => .ok (tr, p :: ld)
        | .trainer pooled =>
          if mInterval p.model = none ∧ pooled = true then symTasks reg skip rest
          else
            match symTasks reg skip rest with
            | .error e => .error e
            | .ok (tr, ld) => .ok (p :: tr, ld)

/-- `_run_model_trainers`, 2325-2344, with the results by pair: a group's result is every
pair's, 2221-2306. -/
def runTasks (fit : MTask → Except MErr (Fitted M)) :
    List (MTask × List MSym) → Except MErr (List (MSym × MTask × Fitted M))
  | [] => .ok []
  | (t, ps) :: rest =>
    match fit t with
    | .error e => .error e
    | .ok fd =>
      match runTasks fit rest with
      | .error e => .error e
      | .ok l => .ok (ps.map (fun p => (p, t, fd)) ++ l)

/-- The pooled symbols of a task's key, 2245 and 2263-2270. -/
def MTask.pooledSymbols : MTask → Option (List Sym)
  | .pooled _ l => some l
  | .sym _ => none

/-- `_set_cached_model`, 2829-2861. -/
def setCachedModel (reg : MReg) (f : DateFields) (lookahead : Nat) (cache : Option (MCache M))
    (p : MSym) (t : MTask) (fd : Fitted M) : Option (MCache M) :=
  match cache with
  | none => none
  | some c =>
    if reg.usesHyper p.model then some c
    else some (fun k => if k = mKey f lookahead p t.pooledSymbols then some fd else c k)

/-- The loop over the results of `train_models`, 2221-2306. -/
def enterModels (reg : MReg) (f : DateFields) (lookahead : Nat) :
    List (MSym × MTask × Fitted M) → List (MSym × Trained M) → Option (MCache M) →
      Except MErr (List (MSym × Trained M) × Option (MCache M))
  | [], out, c => .ok (out, c)
  | (p, t, fd) :: rest, out, c =>
    match reg.load p fd with
    | .error e => .error e
    | .ok tr =>
      enterModels reg f lookahead rest (assocPut out p tr) (setCachedModel reg f lookahead c p t fd)

/-- `train_models`, 1946-2308, with the training data not empty: the models and the cache. -/
def trainModels (reg : MReg) (fit : MTask → Except MErr (Fitted M)) (syms : List MSym)
    (groups : MGroups) (f : DateFields) (lookahead : Nat) (cache : Option (MCache M)) :
    Except MErr (List (MSym × Trained M) × Option (MCache M)) :=
  if syms = [] then .ok ([], cache)
  else
    match getCachedModels reg cache f lookahead groups syms with
    | .error e => .error e
    | .ok (models, left) =>
      let have_ := models.map Prod.fst
      if left = [] ∧ hasUncachedGroup syms have_ groups = false then .ok (models, cache)
      else
        match groupTasks reg have_ left groups with
        | .error e => .error e
        | .ok gts =>
          match symTasks reg (have_ ++ gts.flatMap Prod.snd) left with
          | .error e => .error e
          | .ok (tr, ld) =>
            match runTasks fit (gts ++ (tr ++ ld).map (fun p => (.sym p, [p]))) with
            | .error e => .error e
            | .ok results => enterModels reg f lookahead results models cache

end

/-! ## The request of a window -/

/-- An execution of a window: its id, symbols and model names. -/
structure MExec where
  id : Nat
  symbols : List Sym
  models : List String

/-- The pairs requested, strategy.py:3140-3147; `train` are the symbols of the training
data. -/
def requestPairs (execs : List MExec) (train : List Sym) : List MSym :=
  (train.flatMap (fun s => (execs.filter (fun e => s ∈ e.symbols)).flatMap
    (fun e => e.models.map (fun m => (⟨m, s⟩ : MSym))))).dedup

/-- The groups of pooled training, strategy.py:3148-3163; the ids of executions are
distinct, so a group is overwritten only by itself. -/
def requestGroups (reg : MReg) (execs : List MExec) (train : List Sym) : MGroups :=
  execs.flatMap (fun e =>
    let syms := e.symbols.filter (fun s => s ∈ train)
    if syms = [] then []
    else (e.models.dedup.filter (fun m => (reg.get m).any (fun s => s.kind = .trainer true))).map
      (fun m => ((m, e.id), syms)))

end PyBroker
