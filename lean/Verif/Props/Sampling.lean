import Verif.Optimize.Sampling
import Verif.Props.Optimize

/-!
# The candidates of a search (C136)
-/

namespace PyBroker

namespace Spec

/-- A value that a hyperparameter allows: of its type and within its bounds; for integers,
a whole number of steps above the lower one. -/
structure Candidate (low high step : HNum) (v : HNum) : Prop where
  type : (v.isInt ↔ low.isInt) ∧ v.bad = false
  above : low.val ≤ v.val
  below : v.val ≤ high.val
  steps : low.isInt → ∃ k : Nat, v.val = low.val + k * step.val

/-- What the documentation of Optuna says. -/
structure Documented {G : Type} (lib : Optuna G) : Prop where
  /-- A grid is visited in some order. -/
  shuffle : ∀ seed l, (lib.shuffle seed l).Perm l
  random : ∀ seed, (lib.random seed).kind = .random
  tpe : ∀ seed, ∃ l, (lib.tpe seed).kind = .other l
  entropy : ∀ s, (lib.entropy s).kind = s.kind
  /-- Drawing a value does not change what a sampler is. -/
  same : ∀ s hist acc n f a b c, (lib.suggest s hist acc n f a b c).2.kind = s.kind
  /-- A random sampler does not look at the trials so far. -/
  blind : ∀ s, s.kind = .random → ∀ hist hist' acc n f a b c,
    lib.suggest s hist acc n f a b c = lib.suggest s hist' acc n f a b c
  /-- The trial with number `k` of a grid sampler is its point number `k`. -/
  point : ∀ s names points, s.kind = .grid names points → names.Nodup →
    ∀ hist p, points[hist.length]? = some p → ∀ n v, (n, v) ∈ names.zip p → ∀ acc f a b c, (lib.suggest s hist acc n f a b c).1 = v
  /-- Other samplers give a value that was asked for. -/
  asked : ∀ s, (∀ names points, s.kind ≠ .grid names points) → ∀ hist acc n f a b c,
    a.val < b.val → 0 < c.val → (f = false → a.isInt ∧ b.isInt ∧ c.isInt) →
    (f = true → a.isFloat ∧ b.isFloat ∧ c.isFloat) →
    Candidate a b c (lib.suggest s hist acc n f a b c).1

/-- A grid sampler as Optuna builds it: its names are sorted, and a point has a value for each. -/
def WellMade {G : Type} (s : Sampler G) : Prop :=
  ∀ names points, s.kind = .grid names points →
    names.Pairwise (· < ·) ∧ ∀ p ∈ points, p.length = names.length

/-- Two samplers that differ in nothing but the state of their generators, down to `d` levels, and
in nothing at all below. -/
def Alike {G : Type} : Nat → Sampler G → Sampler G → Prop
  | 0, a, b => a = b
  | d + 1, .node k g r i b, .node k' g' r' i' b' =>
    k = k' ∧ (g.isSome ↔ g'.isSome) ∧
      (∀ x ∈ r, ∀ y ∈ r', Alike d x y) ∧ (r.isSome ↔ r'.isSome) ∧
      (∀ x ∈ i, ∀ y ∈ i', Alike d x y) ∧ (i.isSome ↔ i'.isSome) ∧
      (∀ x ∈ b, ∀ y ∈ b', Alike d x y) ∧ (b.isSome ↔ b'.isSome)

/-- The same `sampler` argument: the same name, or instances that differ in what they have drawn. -/
inductive SameArg {G : Type} : SamplerArg G → SamplerArg G → Prop
  | name (s : String) : SameArg (.name s) (.name s)
  | inst {a b : Sampler G} (h : Alike 4 a b) : SameArg (.inst a) (.inst b)

/-- A search space: names that differ, each with its hyperparameter, which is accepted and not fixed. -/
structure SpaceOK (space : SDict Hyper) : Prop where
  nodup : (space.map Prod.fst).Nodup
  named : ∀ x ∈ space, x.2.name = x.1
  accepted : ∀ x ∈ space, x.2.check = .ok ()
  searched : ∀ x ∈ space, x.2.low.val < x.2.high.val

/-- The inner sampler at the end of a path of attributes. -/
def innerAt {G : Type} : List (Fin 3) → Sampler G → Option (Sampler G)
  | [], s => some s
  | a :: path, .node _ _ r i b =>
    (match a with | 0 => r | 1 => i | 2 => b).bind (innerAt path)

end Spec

open Spec

/-! ## Sorting -/

theorem sortedSpace_perm (space : SDict Hyper) : (sortedSpace space).Perm space :=
  List.perm_insertionSort _ _

theorem sortedSpace_pairwise (space : SDict Hyper) :
    (sortedSpace space).Pairwise (fun a b => a.1 ≤ b.1) := by
  have : Std.Total (fun a b : String × Hyper => a.1 ≤ b.1) := ⟨fun a b => le_total a.1 b.1⟩
  have : IsTrans (String × Hyper) (fun a b => a.1 ≤ b.1) := ⟨fun a b c h h' => le_trans h h'⟩
  exact List.pairwise_insertionSort (r := fun a b : String × Hyper => a.1 ≤ b.1) space

theorem sortedSpace_keys {space : SDict Hyper} (h : (space.map Prod.fst).Nodup) :
    ((sortedSpace space).map Prod.fst).Pairwise (· < ·) := by
  have h1 : ((sortedSpace space).map Prod.fst).Nodup :=
    ((sortedSpace_perm space).map Prod.fst).nodup_iff.2 h
  rw [List.nodup_iff_pairwise_ne] at h1
  have h2 : ((sortedSpace space).map Prod.fst).Pairwise (· ≤ ·) :=
    List.pairwise_map.2 (sortedSpace_pairwise space)
  exact (h2.and h1).imp (fun h => lt_of_le_of_ne h.1 h.2)

theorem nodup_key {space : SDict Hyper} (h : (space.map Prod.fst).Nodup) {a b : String × Hyper}
    (ha : a ∈ space) (hb : b ∈ space) (e : a.1 = b.1) : a = b :=
  List.inj_on_of_nodup_map h ha hb e

theorem sortedSpace_eq {space space' : SDict Hyper} (hp : space.Perm space')
    (h : (space.map Prod.fst).Nodup) : sortedSpace space = sortedSpace space' := by
  refine List.Perm.eq_of_pairwise (le := fun a b : String × Hyper => a.1 ≤ b.1) ?_
    (sortedSpace_pairwise space) (sortedSpace_pairwise space')
    ((sortedSpace_perm space).trans (hp.trans (sortedSpace_perm space').symm))
  intro a b ha hb h1 h2
  have ha' := (sortedSpace_perm space).mem_iff.1 ha
  have hb' := hp.mem_iff.2 ((sortedSpace_perm space').mem_iff.1 hb)
  exact nodup_key h ha' hb' (le_antisymm h1 h2)

theorem names_sorted {names : List String} {space : SDict Hyper} (h : names.Pairwise (· < ·))
    (hn : (space.map Prod.fst).Nodup) (hm : ∀ n, n ∈ names ↔ n ∈ space.map Prod.fst) :
    names = (sortedSpace space).map Prod.fst := by
  have h' := sortedSpace_keys hn
  refine List.Perm.eq_of_pairwise (le := fun a b : String => a < b)
    (fun a b _ _ h h' => absurd h (lt_asymm h')) h h' ?_
  refine (List.perm_ext_iff_of_nodup (h.imp ne_of_lt) (h'.imp ne_of_lt)).2 ?_
  intro n
  rw [hm, ((sortedSpace_perm space).map Prod.fst).mem_iff]

/-! ## Drawing -/

section
variable {G : Type} {lib : Optuna G} (hd : Documented lib)
include hd

theorem suggestSpec_kind (hist : TrialLog) (s : Sampler G) (acc : SDict HNum) (h : Hyper) :
    (suggestSpec lib hist s acc h).2.kind = s.kind := by
  unfold suggestSpec
  split <;> exact hd.same ..

theorem trialParams_kind (hist : TrialLog) : ∀ (l : SDict Hyper) (s : Sampler G) (acc : SDict HNum),
    (trialParams lib hist l s acc).2.kind = s.kind
  | [], _, _ => rfl
  | x :: l, s, acc => by
    rw [trialParams, trialParams_kind hist l, suggestSpec_kind hd]

theorem trialParams_random (hist hist' : TrialLog) : ∀ (l : SDict Hyper) (s : Sampler G)
    (acc : SDict HNum), s.kind = .random →
    trialParams lib hist l s acc = trialParams lib hist' l s acc
  | [], _, _, _ => rfl
  | x :: l, s, acc, hs => by
    have e : suggestSpec lib hist s acc x.2 = suggestSpec lib hist' s acc x.2 := by
      unfold suggestSpec
      split <;> exact hd.blind s hs ..
    rw [trialParams, trialParams, e]
    exact trialParams_random hist hist' l _ _ ((suggestSpec_kind hd ..).trans hs)

theorem trialParams_grid {hist : TrialLog} {names : List String} {points : List (List HNum)}
    {p : List HNum} (hnd : names.Nodup) (hp : points[hist.length]? = some p) :
    ∀ (l : SDict Hyper) (s : Sampler G) (acc : SDict HNum) (q : List HNum),
    s.kind = .grid names points → l.length = q.length →
    (∀ x ∈ l, x.2.name = x.1) → (∀ x ∈ (l.map Prod.fst).zip q, x ∈ names.zip p) →
    (trialParams lib hist l s acc).1 = acc ++ (l.map Prod.fst).zip q
  | [], s, acc, q, _, _, _, _ => by simp [trialParams]
  | x :: l, s, acc, [], _, hl, _, _ => by simp at hl
  | x :: l, s, acc, v :: q, hs, hl, hn, hm => by
    have e : (suggestSpec lib hist s acc x.2).1 = v := by
      have h1 : (x.2.name, v) ∈ names.zip p := by
        rw [hn x List.mem_cons_self]
        exact hm _ (by simp)
      unfold suggestSpec
      split <;> exact hd.point s names points hs hnd hist p hp _ _ h1 ..
    rw [trialParams, e, trialParams_grid hnd hp l _ _ q ((suggestSpec_kind hd ..).trans hs)
      (by simpa using hl) (fun y hy => hn y (List.mem_cons_of_mem _ hy))
      (fun y hy => hm y (by simp [hy]))]
    simp

/-! ## Sequential and parallel -/

variable {score : SDict HNum → TrialScore} {space : SDict Hyper}

theorem seq_grid {names : List String} {points : List (List HNum)}
    (hnames : names = (sortedSpace space).map Prod.fst) (hnamed : ∀ x ∈ space, x.2.name = x.1)
    (hnd : names.Nodup) (hlen : ∀ p ∈ points, p.length = names.length) :
    ∀ (n : Nat) (s : Sampler G) (hist : TrialLog), s.kind = .grid names points →
    seqStudy lib score space n s hist = runGrid (points.map names.zip) score hist n
  | 0, s, hist, _ => by simp [seqStudy, runGrid]
  | n + 1, s, hist, hs => by
    rw [seqStudy]
    by_cases hx : points.length ≤ hist.length
    · have : s.exhausted hist = true := by
        unfold Sampler.exhausted
        rw [hs]
        simpa using hx
      rw [if_pos this]
      unfold runGrid
      rw [List.drop_eq_nil_of_le (by simpa using hx)]
      simp
    · have : ¬ s.exhausted hist = true := by
        unfold Sampler.exhausted
        rw [hs]
        simpa using hx
      rw [if_neg this]
      have hlt : hist.length < points.length := by omega
      have hp : points[hist.length]? = some points[hist.length] := List.getElem?_eq_getElem hlt
      have hpl := hlen _ (List.getElem_mem hlt)
      have e : (trialParams lib hist (sortedSpace space) s []).1 = names.zip points[hist.length] := by
        rw [trialParams_grid hd hnd hp (sortedSpace space) s [] points[hist.length] hs
          (by rw [hpl, hnames]; simp)
          (fun x hx => hnamed x ((sortedSpace_perm space).mem_iff.1 hx))
          (by rw [← hnames]; exact fun x hx => hx), ← hnames]
        rfl
      rw [e, seq_grid hnames hnamed hnd hlen n _ _ ((trialParams_kind hd ..).trans hs)]
      unfold runGrid
      have hlt' : hist.length < (points.map names.zip).length := by simpa using hlt
      simp only [zip_map_self]
      rw [List.drop_eq_getElem_cons hlt', List.take_succ_cons]
      simp

theorem askBatch_random (hist hist' : TrialLog) : ∀ (n : Nat) (s : Sampler G), s.kind = .random →
    askBatch lib hist space n s = askBatch lib hist' space n s
  | 0, _, _ => rfl
  | n + 1, s, hs => by
    rw [askBatch, askBatch, trialParams_random hd hist hist' _ s [] hs,
      askBatch_random hist hist' n _ ((trialParams_kind hd ..).trans hs)]

theorem askBatch_kind (hist : TrialLog) : ∀ (n : Nat) (s : Sampler G),
    (askBatch lib hist space n s).2.kind = s.kind
  | 0, _ => rfl
  | n + 1, s => by
    rw [askBatch]
    exact (askBatch_kind hist n _).trans (trialParams_kind hd ..)

theorem seq_batch : ∀ (a b : Nat) (s : Sampler G) (hist : TrialLog), s.kind = .random →
    seqStudy lib score space (a + b) s hist =
      seqStudy lib score space b (askBatch lib hist space a s).2
        (hist ++ (askBatch lib hist space a s).1.map (fun p => ⟨p, score p⟩))
  | 0, b, s, hist, _ => by simp [askBatch]
  | a + 1, b, s, hist, hs => by
    have hx : s.exhausted hist = false := by
      unfold Sampler.exhausted
      rw [hs]
    have hs' := (trialParams_kind hd hist (sortedSpace space) s []).trans hs
    have ea : a + 1 + b = (a + b) + 1 := by omega
    rw [ea, seqStudy, hx]
    simp only [Bool.false_eq_true, if_false]
    rw [seq_batch a b _ _ hs', askBatch, askBatch_random hd _ hist a _ hs']
    simp [List.append_assoc]

theorem batch_seq {workers : Nat} (hw : 1 ≤ workers) : ∀ (steps n : Nat) (s : Sampler G)
    (hist : TrialLog), n ≤ steps → s.kind = .random →
    batchStudy lib score space workers steps n s hist = .ok (seqStudy lib score space n s hist)
  | steps, 0, s, hist, _, _ => by
    cases steps <;> rfl
  | 0, n + 1, s, hist, h, _ => by omega
  | steps + 1, n + 1, s, hist, h, hs => by
    rw [batchStudy]
    · have hle : min workers (n + 1) ≤ n + 1 := min_le_right _ _
      have hpos : 1 ≤ min workers (n + 1) := le_min hw (by omega)
      generalize min workers (n + 1) = m at hle hpos
      rw [batch_seq hw steps (n + 1 - m) _ _ (by omega) ((askBatch_kind hd ..).trans hs),
        ← seq_batch hd m (n + 1 - m) s hist hs]
      congr 2
      omega
    · simp

/-- The trials of a study do not depend on the number of workers. -/
theorem study_workers (hn : (space.map Prod.fst).Nodup) (hnamed : ∀ x ∈ space, x.2.name = x.1)
    {s : Sampler G} (hs : WellMade s) (hv : validateGrid s space = .ok ()) (workers n : Nat)
    (hist : TrialLog) :
    runStudy lib score space workers n s hist = runStudy lib score space 1 n s hist := by
  unfold runStudy
  split
  · rename_i names points hk
    split
    · rfl
    · rename_i hmiss
      simp only [le_refl, if_true]
      split
      · rfl
      · obtain ⟨h1, h2⟩ := hs names points hk
        have hnames : names = (sortedSpace space).map Prod.fst := by
          refine names_sorted h1 hn (fun x => ⟨fun hx => ?_, fun hx => ?_⟩)
          · unfold validateGrid at hv
            rw [hk] at hv
            simp only at hv
            by_contra hc
            rw [if_pos (List.any_eq_true.2 ⟨x, hx, by simpa using hc⟩)] at hv
            cases hv
          · by_contra hc
            exact hmiss (List.any_eq_true.2 ⟨x, hx, by simpa using hc⟩)
        rw [seq_grid hd hnames hnamed (h1.imp ne_of_lt) h2 n s hist hk]
  · rename_i hk
    simp only [le_refl, if_true]
    split
    · rfl
    · rw [batch_seq hd (by omega) n n s hist (le_refl _) hk]
  · rfl

end

/-! ## Seeding -/

section
variable {G : Type} {seeded : Int → G}

theorem reseed_kind (d : Nat) (seed : Int) (s : Sampler G) : (s.reseed seeded d seed).kind = s.kind := by
  cases d with
  | zero => rfl
  | succ d => cases s; rfl

theorem map_alike {d : Nat} {f : Sampler G → Sampler G} {r r' : Option (Sampler G)}
    (ih : ∀ x y, Alike d x y → f x = f y) (h : ∀ x ∈ r, ∀ y ∈ r', Alike d x y)
    (hs : r.isSome ↔ r'.isSome) : r.map f = r'.map f := by
  cases r with
  | none =>
    cases r' with
    | none => rfl
    | some y => simp at hs
  | some x =>
    cases r' with
    | none => simp at hs
    | some y => exact congrArg some (ih x y (h x rfl y rfl))

/-- **C136.** Seeding leaves no trace of what a sampler has drawn before: samplers that differ only
in the state of their generators, at most three delegations deep, are the same afterwards. -/
theorem reseed_forgets : ∀ (d : Nat) (seed : Int) (a b : Sampler G), Alike d a b →
    a.reseed seeded d seed = b.reseed seeded d seed
  | 0, _, a, b, h => h
  | d + 1, seed, .node k g r i b, .node k' g' r' i' b', h => by
    obtain ⟨rfl, hg, h1, h2, h3, h4, h5, h6⟩ := h
    have eg : g.map (fun _ => seeded seed) = g'.map (fun _ => seeded seed) := by
      cases g <;> cases g' <;> simp at hg ⊢
    simp only [Sampler.reseed, eg]
    rw [map_alike (fun x y => reseed_forgets d _ x y) h1 h2,
      map_alike (fun x y => reseed_forgets d _ x y) h3 h4,
      map_alike (fun x y => reseed_forgets d _ x y) h5 h6]

/-- The generator of the sampler at the end of a path is seeded with the seed and 1000003 for each
`_random_sampler`, twice that for each `_independent_sampler`, three times that for each
`_base_sampler` on the way. -/
theorem reseed_seeds : ∀ (d : Nat) (seed : Int) (path : List (Fin 3)) (s t : Sampler G),
    path.length < d → innerAt path s = some t →
    ∃ t', innerAt path (s.reseed seeded d seed) = some t' ∧ t'.kind = t.kind ∧
      t'.rng = t.rng.map (fun _ => seeded (seed + 1000003 * (path.map (fun a => (a.val : Int) + 1)).sum))
  | 0, _, _, _, _, h, _ => by omega
  | d + 1, seed, [], .node k g r i b, t, _, h => by
    cases h
    exact ⟨_, rfl, rfl, by simp [Sampler.reseed, Sampler.rng]⟩
  | d + 1, seed, a :: path, .node k g r i b, t, hl, h => by
    have step : ∀ (o : Option (Sampler G)) (m : Int), o.bind (innerAt path) = some t →
        ∃ t', (o.map (Sampler.reseed seeded d (seed + 1000003 * m))).bind (innerAt path) = some t' ∧
          t'.kind = t.kind ∧ t'.rng = t.rng.map (fun _ =>
            seeded (seed + 1000003 * (m + (path.map (fun a => (a.val : Int) + 1)).sum))) := by
      intro o m ho
      cases o with
      | none => cases ho
      | some x =>
        obtain ⟨t', h1, h2, h3⟩ := reseed_seeds d (seed + 1000003 * m) path x t
          (by simpa using hl) ho
        refine ⟨t', h1, h2, ?_⟩
        rw [h3, mul_add, add_assoc]
    simp only [Sampler.reseed, innerAt] at h ⊢
    match a with
    | 0 => simpa using step r 1 h
    | 1 => simpa using step i 2 h
    | 2 => simpa using step b 3 h

end

/-- The state of a generator more than three delegations deep is kept. -/
theorem deep_state_kept : ∃ a b : Sampler Int, Alike 5 a b ∧
    a.reseed id 4 7 ≠ b.reseed id 4 7 := by
  let w : Sampler Int → Sampler Int := fun s => .node (.other "Wrap") none (some s) none none
  refine ⟨w (w (w (w (.node .random (some 1) none none none)))),
    w (w (w (w (.node .random (some 2) none none none)))), by simp [w, Alike], ?_⟩
  simp [w, Sampler.reseed]

/-- Two generators of one sampler can get the same seed: the one two `_random_sampler` deep and the
one of the `_independent_sampler`. -/
theorem derived_seeds_repeat : ∃ s : Sampler Int, ∃ a b : Sampler Int,
    innerAt [0, 0] (s.reseed id 4 7) = some a ∧ innerAt [1] (s.reseed id 4 7) = some b ∧
      a.rng = b.rng ∧ a.rng = some 2000013 := by
  let leaf : Sampler Int := .node .random (some 0) none none none
  refine ⟨.node (.other "Outer") (some 1) (some (.node (.other "Inner") (some 2) (some leaf) none none))
    (some leaf) none, _, _, rfl, rfl, ?_, ?_⟩ <;> decide +kernel

/-! ## A search -/

theorem gridSize_perm {l l' : SDict Hyper} (h : l.Perm l') : gridSize l = gridSize l' := by
  have ety : ∀ x : Hyper, ∀ e, x.count = .error e → e = .type := by
    intro x e he
    unfold Hyper.count at he
    split at he
    · cases he; rfl
    · split at he <;> cases he
  have etg : ∀ (l : SDict Hyper) e, gridSize l = .error e → e = .type := by
    intro l
    induction l with
    | nil => intro e he; cases he
    | cons x l ih =>
      intro e he
      rw [gridSize] at he
      split at he
      · rename_i h1
        cases he
        exact ety _ _ h1
      · split at he
        · rename_i h2
          cases he
          exact ih _ h2
        · cases he
  induction h with
  | nil => rfl
  | cons x _ ih => simp only [gridSize, ih]
  | swap x y l =>
    simp only [gridSize]
    rcases hx : x.2.count with e | n <;> rcases hy : y.2.count with e' | m <;>
      rcases hl : gridSize l with e'' | k <;> simp only <;>
      first
        | rw [ety _ _ hx, ety _ _ hy]
        | rw [ety _ _ hx, etg _ _ hl]
        | rw [ety _ _ hy, etg _ _ hl]
        | rw [mul_left_comm]
  | trans _ _ ih1 ih2 => exact ih1.trans ih2

section
variable {G : Type} {lib : Optuna G} {toFloat : ℚ → ℚ} {fuel : Nat}

theorem gridLists_keys : ∀ {l : SDict Hyper} {lists : SDict (List HNum)},
    gridLists toFloat fuel l = .ok (some lists) → lists.map Prod.fst = l.map Prod.fst
  | [], lists, h => by cases h; rfl
  | x :: l, lists, h => by
    rw [gridLists] at h
    split at h
    · cases h
    · cases h
    · split at h
      · cases h
      · cases h
      · rename_i h2
        cases h
        simp [gridLists_keys h2]

theorem productOf_length : ∀ {ls : List (List HNum)} {p : List HNum}, p ∈ productOf ls →
    p.length = ls.length
  | [], p, h => by simp [productOf] at h; simp [h]
  | vs :: ls, p, h => by
    simp only [productOf, List.mem_flatMap, List.mem_map] at h
    obtain ⟨v, _, q, hq, rfl⟩ := h
    simp [productOf_length hq]

theorem buildSampler_wellMade (hd : Documented lib) {space : SDict Hyper}
    (hn : (space.map Prod.fst).Nodup) {arg : SamplerArg G} (ha : ∀ s, arg = .inst s → WellMade s)
    {seed : Option Int} {s : Sampler G} (h : buildSampler lib toFloat fuel arg space seed = .ok s) :
    WellMade s := by
  unfold buildSampler at h
  split at h
  · rename_i x
    have hx := ha x rfl
    split at h
    · cases h
      intro names points hk
      exact hx names points ((reseed_kind ..).symm.trans hk)
    · cases h
      intro names points hk
      exact hx names points ((hd.entropy _).symm.trans hk)
  · split at h
    · unfold gridSampler at h
      split at h
      · cases h
      · cases h
      · cases h
      · rename_i lists hl
        cases h
        intro names points hk
        cases hk
        refine ⟨by rw [gridLists_keys hl]; exact sortedSpace_keys hn, ?_⟩
        intro p hp
        have := productOf_length ((hd.shuffle _ _).mem_iff.1 hp)
        simpa using this
    · split at h
      · cases h
        intro names points hk
        obtain ⟨l, hl⟩ := hd.tpe seed
        rw [hl] at hk
        cases hk
      · split at h
        · cases h
          intro names points hk
          rw [hd.random seed] at hk
          cases hk
        · cases h

theorem buildSampler_same {space space' : SDict Hyper} (hp : space.Perm space')
    (hn : (space.map Prod.fst).Nodup) {a b : SamplerArg G} (h : SameArg a b) (seed : Int) :
    buildSampler lib toFloat fuel a space (some seed) =
      buildSampler lib toFloat fuel b space' (some seed) := by
  cases h with
  | name s =>
    simp only [buildSampler, gridSampler, sortedSpace_eq hp hn]
  | inst h =>
    simp only [buildSampler]
    rw [reseed_forgets 4 seed _ _ h]

theorem any_not {l l' m m' : List String} (h : ∀ x, x ∈ l ↔ x ∈ l') (h' : ∀ x, x ∈ m ↔ x ∈ m') :
    (l.any fun n => !m.contains n) = (l'.any fun n => !m'.contains n) := by
  rw [Bool.eq_iff_iff, List.any_eq_true, List.any_eq_true]
  simp only [Bool.not_eq_true', List.contains_eq_mem, decide_eq_false_iff_not, h, h']

theorem validateGrid_perm {space space' : SDict Hyper} (hp : space.Perm space') (s : Sampler G) :
    validateGrid s space = validateGrid s space' := by
  unfold validateGrid
  split
  · rw [any_not (fun x => Iff.rfl) (fun x => (hp.map Prod.fst).mem_iff)]
  · rfl

theorem budget_perm {space space' : SDict Hyper} (hp : space.Perm space') (n : Option Nat)
    (s : Sampler G) : budget n s space = budget n s space' := by
  unfold budget
  rw [gridSize_perm hp]

theorem seqStudy_perm {space space' : SDict Hyper} (hp : space.Perm space')
    (hn : (space.map Prod.fst).Nodup) (score : SDict HNum → TrialScore) :
    ∀ (n : Nat) (s : Sampler G) (hist : TrialLog),
    seqStudy lib score space n s hist = seqStudy lib score space' n s hist
  | 0, _, _ => rfl
  | n + 1, s, hist => by
    rw [seqStudy, seqStudy, sortedSpace_eq hp hn]
    split
    · rfl
    · exact seqStudy_perm hp hn score n _ _

theorem runStudy_perm {space space' : SDict Hyper} (hp : space.Perm space')
    (hn : (space.map Prod.fst).Nodup) (score : SDict HNum → TrialScore) (n : Nat) (s : Sampler G)
    (hist : TrialLog) :
    runStudy lib score space 1 n s hist = runStudy lib score space' 1 n s hist := by
  unfold runStudy
  simp only [le_refl, if_true, seqStudy_perm hp hn]
  split
  · rw [any_not (fun x => (hp.map Prod.fst).mem_iff) (fun x => Iff.rfl)]
  · rfl
  · rfl

theorem Spec.SpaceOK.perm {space space' : SDict Hyper} (hp : space.Perm space') (h : SpaceOK space) :
    SpaceOK space' where
  nodup := (hp.map Prod.fst).nodup_iff.1 h.nodup
  named := fun x hx => h.named x (hp.mem_iff.2 hx)
  accepted := fun x hx => h.accepted x (hp.mem_iff.2 hx)
  searched := fun x hx => h.searched x (hp.mem_iff.2 hx)

/-- **C136.** A search with a seed is reproducible: its trials, with their values and scores, or the
error it ends with, do not depend on the number of workers, on the order in which Python iterates
over the set of names, or on what the given sampler has drawn before. -/
theorem search_reproducible (hd : Documented lib) {space space' : SDict Hyper} (hs : SpaceOK space)
    (hp : space.Perm space') {a b : SamplerArg G} (h : SameArg a b)
    (ha : ∀ s, a = .inst s → WellMade s) (score : SDict HNum → TrialScore) (workers workers' : Nat)
    (seed : Int) (n : Option Nat) :
    searchOnce lib toFloat fuel score space workers a (some seed) n =
      searchOnce lib toFloat fuel score space' workers' b (some seed) n := by
  unfold searchOnce
  rw [← buildSampler_same hp hs.nodup h seed]
  rcases hb : buildSampler lib toFloat fuel a space (some seed) with e | s
  · rfl
  · have hw := buildSampler_wellMade hd hs.nodup ha hb
    simp only [← validateGrid_perm hp s, ← budget_perm hp n s]
    rcases hv : validateGrid s space with e | u
    · rfl
    · simp only
      rcases budget n s space with e | m
      · rfl
      · simp only
        rw [study_workers hd hs.nodup hs.named hw hv,
          study_workers hd (hs.perm hp).nodup (hs.perm hp).named hw
            ((validateGrid_perm hp s).symm.trans hv), runStudy_perm hp hs.nodup]

/-- **C136.** Without a seed too, the number of workers does not matter to the trials of a study that
continues the trials `hist`. -/
theorem study_reproducible (hd : Documented lib) {space space' : SDict Hyper} (hs : SpaceOK space)
    (hp : space.Perm space') {s : Sampler G} (hw : WellMade s) (norm : String → String)
    (score : SDict HNum → TrialScore) (workers workers' : Nat) (direction asked : String)
    (hist : TrialLog) (n : Option Nat) :
    searchStudy lib norm score space workers s direction hist asked n =
      searchStudy lib norm score space' workers' s direction hist asked n := by
  unfold searchStudy
  split
  · rfl
  · split
    · rfl
    · simp only [← validateGrid_perm hp s, ← budget_perm hp n s]
      rcases hv : validateGrid s space with e | u
      · rfl
      · simp only
        rcases budget n s space with e | m
        · rfl
        · simp only
          rw [study_workers hd hs.nodup hs.named hw hv,
            study_workers hd (hs.perm hp).nodup (hs.perm hp).named hw
              ((validateGrid_perm hp s).symm.trans hv), runStudy_perm hp hs.nodup]

/-! ## Windows -/

/-- The samplers of two windows are of the same class, and search the same names. -/
def SameClass (s t : Sampler G) : Prop :=
  match s.kind, t.kind with
  | .grid names _, .grid names' _ => names = names'
  | .random, .random => True
  | .other _, .other _ => True
  | _, _ => False

theorem buildSampler_class (hd : Documented lib) {space : SDict Hyper} {arg : SamplerArg G}
    {seed seed' : Option Int} {s t : Sampler G}
    (h : buildSampler lib toFloat fuel arg space seed = .ok s)
    (h' : buildSampler lib toFloat fuel arg space seed' = .ok t) : SameClass s t := by
  have self : ∀ {x y : Sampler G}, x.kind = y.kind → SameClass x y := by
    intro x y e
    unfold SameClass
    rw [e]
    cases y.kind <;> simp
  cases arg with
  | inst x =>
    have hx : ∀ {sd : Option Int} {y : Sampler G},
        buildSampler lib toFloat fuel (.inst x) space sd = .ok y → y.kind = x.kind := by
      intro sd y hy
      cases sd with
      | none => cases hy; exact hd.entropy x
      | some n => cases hy; exact reseed_kind ..
    exact self ((hx h).trans (hx h').symm)
  | name x =>
    simp only [buildSampler] at h h'
    split at h
    · rename_i e
      rw [if_pos e] at h'
      unfold gridSampler at h h'
      rcases hl : gridLists toFloat fuel (sortedSpace space) with err | (_ | lists)
      · rw [hl] at h
        cases err <;> cases h
      · rw [hl] at h
        cases h
      · rw [hl] at h h'
        cases h
        cases h'
        rfl
    · rename_i e
      rw [if_neg e] at h'
      split at h
      · rename_i e2
        rw [if_pos e2] at h'
        cases h
        cases h'
        obtain ⟨l, hl⟩ := hd.tpe seed
        obtain ⟨l', hl'⟩ := hd.tpe seed'
        unfold SameClass
        rw [hl, hl']
        exact trivial
      · rename_i e2
        rw [if_neg e2] at h'
        split at h
        · rename_i e3
          rw [if_pos e3] at h'
          cases h
          cases h'
          exact self ((hd.random _).trans (hd.random _).symm)
        · cases h

theorem class_checks {space : SDict Hyper} {s t : Sampler G} (h : SameClass s t) (n : Option Nat) :
    validateGrid s space = validateGrid t space ∧ budget n s space = budget n t space := by
  unfold SameClass at h
  unfold validateGrid budget
  rcases hs : s.kind with ⟨a, b⟩ | _ | l <;> rcases ht : t.kind with ⟨a', b'⟩ | _ | l' <;>
    rw [hs, ht] at h <;> simp at h ⊢
  subst h
  rfl

theorem windowStudies_ok {score : Nat → SDict HNum → TrialScore} {space : SDict Hyper}
    {workers : Nat → Nat} {arg : SamplerArg G} {seed : Option Int} {n : Nat} :
    ∀ {m k : Nat} {logs : List TrialLog},
    windowStudies lib toFloat fuel score space workers arg seed n k m = .ok logs →
    logs.length = m ∧ ∀ i log, logs[i]? = some log →
      ∃ s, buildSampler lib toFloat fuel arg space (seed.map (· + ((k + i : Nat) : Int))) = .ok s ∧
        runStudy lib (score (k + i)) space (workers (k + i)) n s [] = .ok log
  | 0, k, logs, h => by
    cases h
    exact ⟨rfl, fun i log h => by simp at h⟩
  | m + 1, k, logs, h => by
    rw [windowStudies] at h
    rcases hb : buildSampler lib toFloat fuel arg space (seed.map (· + (k : Int))) with e | s
    · rw [hb] at h; cases h
    rw [hb] at h
    simp only at h
    rcases hr : runStudy lib (score k) space (workers k) n s [] with e | log
    · rw [hr] at h; cases h
    rw [hr] at h
    simp only at h
    rcases hw : windowStudies lib toFloat fuel score space workers arg seed n (k + 1) m with e | logs'
    · rw [hw] at h; cases h
    rw [hw] at h
    cases h
    obtain ⟨h1, h2⟩ := windowStudies_ok hw
    refine ⟨by simp [h1], ?_⟩
    intro i log' hi
    cases i with
    | zero =>
      cases hi
      exact ⟨s, hb, hr⟩
    | succ i =>
      obtain ⟨s', h3, h4⟩ := h2 i log' (by simpa using hi)
      have e : k + 1 + i = k + (i + 1) := by omega
      rw [e] at h3 h4
      exact ⟨s', h3, h4⟩

/-- **C136.** Window number `k` of a search over several windows has the trials that a search of
that window on its own has with the seed plus `k`. -/
theorem window_searches (hd : Documented lib) {space : SDict Hyper}
    {score : Nat → SDict HNum → TrialScore} {workers : Nat → Nat} {arg : SamplerArg G}
    {seed : Option Int} {n : Option Nat} {windows : Nat} {logs : List TrialLog}
    (h : searchWindows lib toFloat fuel score space workers arg seed n windows = .ok logs) :
    logs.length = windows ∧ ∀ k log, logs[k]? = some log →
      searchOnce lib toFloat fuel (score k) space (workers k) arg (seed.map (· + (k : Int))) n
        = .ok log := by
  unfold searchWindows at h
  rcases hb : buildSampler lib toFloat fuel arg space seed with e | s
  · rw [hb] at h; cases h
  rw [hb] at h
  simp only at h
  rcases hv : validateGrid s space with e | u
  · rw [hv] at h; cases h
  rw [hv] at h
  simp only at h
  rcases hn : budget n s space with e | m
  · rw [hn] at h; cases h
  rw [hn] at h
  simp only at h
  obtain ⟨h1, h2⟩ := windowStudies_ok h
  refine ⟨h1, ?_⟩
  intro k log hk
  obtain ⟨t, h3, h4⟩ := h2 k log hk
  rw [Nat.zero_add] at h3 h4
  obtain ⟨h5, h6⟩ := class_checks (space := space) (buildSampler_class hd h3 hb) n
  unfold searchOnce
  rw [h3]
  simp only [h5, hv, h6, hn, h4]

/-! ## The values -/

theorem suggestSpec_candidate (hd : Documented lib) {s : Sampler G}
    (hs : ∀ names points, s.kind ≠ .grid names points) (hist : TrialLog) (acc : SDict HNum) {h : Hyper}
    (hc : h.check = .ok ()) (hlt : h.low.val < h.high.val) :
    Candidate h.low h.high h.step (suggestSpec lib hist s acc h).1 := by
  obtain ⟨ht, h1, _⟩ := (hyper_accepted h).1 hc
  obtain ⟨nm, d, l, u, st⟩ := h
  simp only at *
  unfold suggestSpec
  rcases ht with ⟨d, l, u, s, rfl, rfl, rfl, rfl⟩ | ⟨d, l, u, s, rfl, rfl, rfl, rfl⟩
  · simp only [HNum.isFloat, Bool.false_eq_true, if_false]
    exact hd.asked _ hs _ _ _ _ _ _ _ hlt h1 (fun _ => ⟨rfl, rfl, rfl⟩) (by simp)
  · simp only [HNum.isFloat, if_true]
    exact hd.asked _ hs _ _ _ _ _ _ _ hlt h1 (by simp) (fun _ => ⟨rfl, rfl, rfl⟩)

theorem trialParams_candidates (hd : Documented lib) (hist : TrialLog) : ∀ (l : SDict Hyper)
    (s : Sampler G) (acc : SDict HNum), (∀ names points, s.kind ≠ .grid names points) →
    (∀ x ∈ l, x.2.check = .ok () ∧ x.2.low.val < x.2.high.val) →
    ∃ q, (trialParams lib hist l s acc).1 = acc ++ q ∧
      List.Forall₂ (fun x y => y.1 = x.1 ∧ Candidate x.2.low x.2.high x.2.step y.2) l q
  | [], s, acc, _, _ => ⟨[], by simp [trialParams], .nil⟩
  | x :: l, s, acc, hs, hl => by
    obtain ⟨h1, h2⟩ := hl x List.mem_cons_self
    obtain ⟨q, h3, h4⟩ := trialParams_candidates hd hist l (suggestSpec lib hist s acc x.2).2
      (acc ++ [(x.1, (suggestSpec lib hist s acc x.2).1)])
      (fun a b e => hs a b ((suggestSpec_kind hd ..).symm.trans e))
      (fun y hy => hl y (List.mem_cons_of_mem _ hy))
    refine ⟨(x.1, (suggestSpec lib hist s acc x.2).1) :: q, ?_,
      .cons ⟨rfl, suggestSpec_candidate hd hs hist acc h1 h2⟩ h4⟩
    rw [trialParams, h3]
    simp

/-- A trial that gives every name a value its hyperparameter allows, and no other name one. -/
structure Spec.TrialFits (space : SDict Hyper) (params : SDict HNum) : Prop where
  names : (params.map Prod.fst).Perm (space.map Prod.fst)
  values : ∀ x ∈ space, ∃ v, (x.1, v) ∈ params ∧ Candidate x.2.low x.2.high x.2.step v

theorem fits_keys {V W : Type} {R : V → W → Prop} : ∀ {l : SDict V} {q : SDict W},
    List.Forall₂ (fun x y => y.1 = x.1 ∧ R x.2 y.2) l q → q.map Prod.fst = l.map Prod.fst
  | _, _, .nil => rfl
  | _, _, .cons h t => by simp [h.1, fits_keys t]

theorem forall2_left {V W : Type} {R : V → W → Prop} : ∀ {l : List V} {q : List W},
    List.Forall₂ R l q → ∀ x ∈ l, ∃ y ∈ q, R x y
  | _, _, .nil, x, hx => by cases hx
  | _, _, .cons h t, x, hx => by
    rcases List.mem_cons.1 hx with rfl | hx
    · exact ⟨_, List.mem_cons_self, h⟩
    · obtain ⟨y, hy, hr⟩ := forall2_left t x hx
      exact ⟨y, List.mem_cons_of_mem _ hy, hr⟩

theorem trial_fits (hd : Documented lib) {space : SDict Hyper} (hsp : SpaceOK space) (hist : TrialLog)
    {s : Sampler G} (hs : ∀ names points, s.kind ≠ .grid names points) :
    TrialFits space (trialParams lib hist (sortedSpace space) s []).1 := by
  have hm : ∀ x, x ∈ sortedSpace space ↔ x ∈ space := fun x => (sortedSpace_perm space).mem_iff
  obtain ⟨q, h1, h2⟩ := trialParams_candidates hd hist (sortedSpace space) s [] hs
    (fun x hx => ⟨hsp.accepted x ((hm x).1 hx), hsp.searched x ((hm x).1 hx)⟩)
  rw [h1, List.nil_append]
  refine ⟨?_, ?_⟩
  · rw [fits_keys (R := fun (x : Hyper) y => Candidate x.low x.high x.step y) h2]
    exact (sortedSpace_perm space).map Prod.fst
  · intro x hx
    obtain ⟨y, hy, e, hc⟩ := forall2_left h2 x ((hm x).2 hx)
    exact ⟨y.2, by rw [← e]; exact hy, hc⟩

theorem seqStudy_values (hd : Documented lib) {space : SDict Hyper} (hsp : SpaceOK space)
    (score : SDict HNum → TrialScore) : ∀ (n : Nat) (s : Sampler G) (hist : TrialLog),
    (∀ names points, s.kind ≠ .grid names points) →
    ∃ new, seqStudy lib score space n s hist = hist ++ new ∧ new.length = n ∧
      ∀ t ∈ new, TrialFits space t.params ∧ t.value = score t.params
  | 0, s, hist, _ => ⟨[], by simp [seqStudy], rfl, by simp⟩
  | n + 1, s, hist, hs => by
    have hx : s.exhausted hist = false := by
      unfold Sampler.exhausted
      split
      · rename_i names points hk
        exact absurd hk (hs names points)
      · rfl
    rw [seqStudy, hx]
    simp only [Bool.false_eq_true, if_false]
    obtain ⟨new, h1, h2, h3⟩ := seqStudy_values hd hsp score n
      (trialParams lib hist (sortedSpace space) s []).2
      (hist ++ [⟨(trialParams lib hist (sortedSpace space) s []).1,
          score (trialParams lib hist (sortedSpace space) s []).1⟩])
      (fun a b e => hs a b ((trialParams_kind hd ..).symm.trans e))
    refine ⟨_ :: new, by rw [h1, List.append_assoc]; rfl, by simp [h2], ?_⟩
    intro t ht
    rcases List.mem_cons.1 ht with rfl | ht
    · exact ⟨trial_fits hd hsp hist hs, rfl⟩
    · exact h3 t ht

/-- **C136.** Every trial of a search whose sampler is not a grid gives each searched hyperparameter,
and nothing else, a value within its declared bounds and of its type, and has the score of those
values; there are as many trials as asked for. -/
theorem search_values (hd : Documented lib) {space : SDict Hyper} (hsp : SpaceOK space)
    {arg : SamplerArg G} (ha : ∀ s, arg = .inst s → ∀ names points, s.kind ≠ .grid names points)
    (hg : arg ≠ .name "grid") {score : SDict HNum → TrialScore} {workers : Nat} {seed : Option Int}
    {n : Option Nat} {log : TrialLog}
    (h : searchOnce lib toFloat fuel score space workers arg seed n = .ok log) :
    n = some log.length ∧ ∀ t ∈ log, TrialFits space t.params ∧ t.value = score t.params := by
  unfold searchOnce at h
  rcases hb : buildSampler lib toFloat fuel arg space seed with e | s
  · rw [hb] at h; cases h
  rw [hb] at h
  simp only at h
  have hk : ∀ names points, s.kind ≠ .grid names points := by
    intro names points e
    cases arg with
    | inst x =>
      cases seed with
      | none => cases hb; exact ha x rfl names points ((hd.entropy x).symm.trans e)
      | some m => cases hb; exact ha x rfl names points ((reseed_kind ..).symm.trans e)
    | name x =>
      simp only [buildSampler] at hb
      split at hb
      · rename_i hx
        exact hg (by rw [beq_iff_eq.1 hx])
      · split at hb
        · cases hb
          obtain ⟨l, hl⟩ := hd.tpe seed
          rw [hl] at e
          cases e
        · split at hb
          · cases hb
            rw [hd.random] at e
            cases e
          · cases hb
  have hw : WellMade s := fun names points e => absurd e (hk names points)
  rcases hv : validateGrid s space with e | u
  · rw [hv] at h; cases h
  rw [hv] at h
  simp only at h
  cases n with
  | none =>
    have : budget none s space = .error .value := by
      unfold budget
      simp only
    rw [this] at h
    cases h
  | some m =>
    have : budget (some m) s space = .ok m := rfl
    rw [this] at h
    simp only at h
    rw [study_workers hd hsp.nodup hsp.named hw hv] at h
    have hr : runStudy lib score space 1 m s [] = .ok (seqStudy lib score space m s []) := by
      unfold runStudy
      split
      · rename_i names points e
        exact absurd e (hk names points)
      · simp
      · rfl
    rw [hr] at h
    cases h
    obtain ⟨new, h1, h2, h3⟩ := seqStudy_values hd hsp score m s [] hk
    rw [h1, List.nil_append]
    exact ⟨by rw [h2], h3⟩

/-! ## Grids -/

theorem productOf_zip : ∀ lists : SDict (List HNum),
    (productOf (lists.map Prod.snd)).map ((lists.map Prod.fst).zip ·) = points lists
  | [] => rfl
  | (k, vs) :: rest => by
    simp only [List.map_cons, productOf, points, ← productOf_zip rest, List.map_flatMap, List.map_map]
    congr 1

/-- **C136.** A grid search visits the combinations of the candidates in some order, which is the
same whatever the number of workers and trials: all of them, each once, or the first ones of them
when fewer trials are asked for. -/
theorem grid_once (hd : Documented lib) {space : SDict Hyper} (hsp : SpaceOK space) (toFloat : ℚ → ℚ)
    (seed : Option Int) :
    ∃ size, ∀ fuel, size < fuel → ∃ lists : SDict (List HNum),
      (lists.map Prod.fst).Perm (space.map Prod.fst) ∧
      (∀ x ∈ space, ∃ vs, (x.1, vs) ∈ lists ∧ x.2.values toFloat fuel = .ok (some vs)) ∧
      ∃ order : List (SDict HNum), order.Perm (points lists) ∧
        ∀ (score : SDict HNum → TrialScore) (workers : Nat) (n : Option Nat),
          searchOnce lib toFloat fuel score space workers (.name "grid") seed n =
            .ok ((order.take (n.getD order.length)).map (fun p => ⟨p, score p⟩)) := by
  have hm : ∀ x, x ∈ sortedSpace space ↔ x ∈ space := fun x => (sortedSpace_perm space).mem_iff
  have hsr : searchable (sortedSpace space) = sortedSpace space := by
    unfold searchable
    rw [List.filter_eq_self]
    intro x hx
    simpa using hsp.searched x ((hm x).1 hx)
  obtain ⟨size, _, hsize, hl⟩ := grid_exact (sortedSpace space)
    (fun x hx => hsp.accepted x ((hm x).1 hx)) toFloat
  rw [hsr] at hsize hl
  refine ⟨size, fun fuel hf => ?_⟩
  obtain ⟨lists, f1, f2, f3⟩ := hl fuel hf
  have hkeys := gridLists_keys f1
  have hperm := hd.shuffle (seed.getD 0) (productOf (lists.map Prod.snd))
  refine ⟨lists, by rw [hkeys]; exact (sortedSpace_perm space).map Prod.fst, ?_,
    (lib.shuffle (seed.getD 0) (productOf (lists.map Prod.snd))).map ((lists.map Prod.fst).zip ·), ?_, ?_⟩
  · intro x hx
    obtain ⟨y, hy, e, hv⟩ := forall2_left f3 x ((hm x).2 hx)
    exact ⟨y.2, by rw [← e]; exact hy, hv⟩
  · rw [← productOf_zip]
    exact hperm.map _
  · intro score workers n
    generalize hs : (Sampler.node (.grid (lists.map Prod.fst)
      (lib.shuffle (seed.getD 0) (productOf (lists.map Prod.snd))))
      (some (lib.gridRng (seed.getD 0))) none none none) = s
    have hb : buildSampler lib toFloat fuel (.name "grid") space seed = .ok s := by
      simp only [buildSampler, beq_self_eq_true, if_true, gridSampler, f1, hs]
    have hk : s.kind = .grid (lists.map Prod.fst)
        (lib.shuffle (seed.getD 0) (productOf (lists.map Prod.snd))) := by
      rw [← hs]; rfl
    have hw := buildSampler_wellMade hd hsp.nodup (fun s e => by cases e) hb
    have hmem : ∀ k, k ∈ lists.map Prod.fst ↔ k ∈ space.map Prod.fst := by
      intro k
      rw [hkeys, ((sortedSpace_perm space).map Prod.fst).mem_iff]
    have hv : validateGrid s space = .ok () := by
      unfold validateGrid
      rw [hk]
      simp only
      rw [if_neg]
      rw [List.any_eq_true]
      rintro ⟨k, h1, h2⟩
      simp only [Bool.not_eq_true', List.contains_eq_mem, decide_eq_false_iff_not] at h2
      exact h2 ((hmem k).1 h1)
    have hlen : (lib.shuffle (seed.getD 0) (productOf (lists.map Prod.snd))).length = size := by
      rw [hperm.length_eq, ← f2, ← productOf_zip, List.length_map]
    have hn : budget n s space = .ok (n.getD size) := by
      unfold budget
      cases n with
      | some m => rfl
      | none =>
        simp only [hk]
        rw [← gridSize_perm (sortedSpace_perm space), hsize]
        rfl
    have hr : ∀ m, runStudy lib score space workers m s [] =
        .ok (runGrid ((lib.shuffle (seed.getD 0) (productOf (lists.map Prod.snd))).map
          (lists.map Prod.fst).zip) score [] m) := by
      intro m
      rw [study_workers hd hsp.nodup hsp.named hw hv,
        ← study_workers hd hsp.nodup hsp.named hw hv 2]
      unfold runStudy
      rw [hk]
      simp only
      rw [if_neg, if_neg (by omega)]
      rw [List.any_eq_true]
      rintro ⟨k, h1, h2⟩
      simp only [Bool.not_eq_true', List.contains_eq_mem, decide_eq_false_iff_not] at h2
      exact h2 ((hmem k).2 h1)
    unfold searchOnce
    rw [hb]
    simp only [hv, hn, hr, List.length_map, hlen]
    unfold runGrid
    simp only [zip_map_self, List.length_nil, List.drop_zero, List.nil_append]

/-- **C136.** A grid sampler of other names than those searched is refused before any trial. -/
theorem foreign_grid_refused {space : SDict Hyper} {s : Sampler G} {names : List String}
    {pts : List (List HNum)} (hk : s.kind = .grid names pts)
    (hne : ∃ k, ¬ (k ∈ names ↔ k ∈ space.map Prod.fst)) (score : SDict HNum → TrialScore)
    (workers : Nat) (seed : Int) (n : Option Nat) (windows : Nat)
    (scores : Nat → SDict HNum → TrialScore) (ws : Nat → Nat) :
    (∃ e, searchOnce lib toFloat fuel score space workers (.inst s) (some seed) n = .error e) ∧
    ∃ e, searchWindows lib toFloat fuel scores space ws (.inst s) (some seed) n (windows + 1) = .error e := by
  have hb : ∀ sd : Int, buildSampler lib toFloat fuel (.inst s) space (some sd) =
      .ok (s.reseed lib.seeded 4 sd) := fun _ => rfl
  have hk' : ∀ sd, (s.reseed lib.seeded 4 sd).kind = .grid names pts :=
    fun sd => (reseed_kind ..).trans hk
  have hr : validateGrid (s.reseed lib.seeded 4 seed) space = .ok () →
      ∀ sd w m sc, runStudy lib sc space w m (s.reseed lib.seeded 4 sd) [] = .error .value := by
    intro hv sd w m sc
    unfold validateGrid at hv
    rw [hk'] at hv
    simp only at hv
    unfold runStudy
    rw [hk']
    simp only
    rw [if_pos]
    rw [List.any_eq_true]
    obtain ⟨k, hk⟩ := hne
    have hin : ∀ k ∈ names, k ∈ space.map Prod.fst := by
      intro k hk
      by_contra hc
      rw [if_pos (List.any_eq_true.2 ⟨k, hk, by simpa using hc⟩)] at hv
      cases hv
    have h1 : k ∈ space.map Prod.fst ∧ k ∉ names := by
      have := hin k
      tauto
    exact ⟨k, h1.1, by simpa using h1.2⟩
  constructor
  · unfold searchOnce
    rw [hb]
    simp only
    rcases hv : validateGrid (s.reseed lib.seeded 4 seed) space with e | u
    · exact ⟨e, rfl⟩
    · simp only
      rcases budget n (s.reseed lib.seeded 4 seed) space with e | m
      · exact ⟨e, rfl⟩
      · exact ⟨.value, hr hv ..⟩
  · unfold searchWindows
    rw [hb]
    simp only
    rcases hv : validateGrid (s.reseed lib.seeded 4 seed) space with e | u
    · exact ⟨e, rfl⟩
    · simp only
      rcases budget n (s.reseed lib.seeded 4 seed) space with e | m
      · exact ⟨e, rfl⟩
      · simp only [windowStudies, Option.map_some, hb, hr hv]
        exact ⟨.value, rfl⟩

/-- A study whose direction is not the one asked for, or a direction that is none, is refused. -/
theorem direction_refused {norm : String → String} {score : SDict HNum → TrialScore}
    {space : SDict Hyper} {workers : Nat} {s : Sampler G} {direction asked : String} {hist log : TrialLog}
    {n : Option Nat} (h : searchStudy lib norm score space workers s direction hist asked n = .ok log) :
    norm direction = norm asked ∧ (norm asked = "minimize" ∨ norm asked = "maximize") := by
  unfold searchStudy at h
  split at h
  · cases h
  · rename_i h1
    split at h
    · cases h
    · rename_i h2
      exact ⟨not_not.1 h2, by tauto⟩

end

/-! ## A concrete case -/

namespace Demo

/-- The low end, or a step above it. -/
def spPick (g : Int) (a b c : HNum) : HNum :=
  if g % 3 = 0 ∨ b.val < a.val + c.val then a
  else
    match a, c with
    | .int x, .int y => .int (x + y)
    | .float x, .float y => .float (x + y)
    | _, _ => a

/-- A small stand-in for Optuna: a generator is a counter that starts at the seed. -/
def spLib : Optuna Int where
  seeded := id
  tpe := fun s => .node (.other "TPE") (s.map id) (some (.node .random (s.map id) none none none)) none none
  random := fun s => .node .random (some (s.getD 5)) none none none
  shuffle := fun _ l => l.reverse
  gridRng := id
  entropy := id
  suggest := fun s hist _ n _ a b c =>
    match s with
    | .node (.grid names pts) g r i w =>
      ((SDict.get (names.zip (pts.getD hist.length [])) n).getD a, .node (.grid names pts) g r i w)
    | .node .random g r i w => (spPick (g.getD 0) a b c, .node .random (g.map (· + 1)) r i w)
    | .node (.other l) g r i w =>
      (spPick (g.getD 0 + hist.length) a b c, .node (.other l) (g.map (· + 1)) r i w)

theorem spPick_candidate {g : Int} {f : Bool} {a b c : HNum} (hab : a.val < b.val) (hc : 0 < c.val)
    (h0 : f = false → a.isInt ∧ b.isInt ∧ c.isInt) (h1 : f = true → a.isFloat ∧ b.isFloat ∧ c.isFloat) :
    Candidate a b c (spPick g a b c) := by
  have ht : a.bad = false := by
    cases f
    · have := (h0 rfl).1
      cases a <;> simp_all [HNum.isInt, HNum.bad]
    · have := (h1 rfl).1
      cases a <;> simp_all [HNum.isFloat, HNum.bad]
  have base : Candidate a b c a := ⟨⟨Iff.rfl, ht⟩, le_refl _, hab.le, fun _ => ⟨0, by simp⟩⟩
  unfold spPick
  split
  · exact base
  · rename_i hn
    have hle : a.val + c.val ≤ b.val := by
      by_contra h
      exact hn (Or.inr (not_le.1 h))
    split
    · rename_i x y
      simp only [HNum.val] at hle hc ⊢
      exact ⟨⟨by simp [HNum.isInt], rfl⟩, by simp only [HNum.val]; push_cast; linarith,
        by simp only [HNum.val]; push_cast; linarith, fun _ => ⟨1, by simp [HNum.val]⟩⟩
    · rename_i x y
      simp only [HNum.val] at hle hc ⊢
      exact ⟨⟨by simp [HNum.isInt], rfl⟩, by simp only [HNum.val]; linarith,
        by simp only [HNum.val]; linarith, fun h => by simp [HNum.isInt] at h⟩
    · exact base

theorem SDict.get_mem_nodup {V : Type} {d : SDict V} (h : (d.map Prod.fst).Nodup) {n : String} {v : V}
    (hm : (n, v) ∈ d) : SDict.get d n = some v := by
  induction d with
  | nil => cases hm
  | cons x d ih =>
    unfold SDict.get
    rw [List.find?_cons]
    rcases List.mem_cons.1 hm with e | hm
    · subst e
      simp
    · rw [List.map_cons, List.nodup_cons] at h
      have hne : (x.1 == n) = false := by
        rw [beq_eq_false_iff_ne]
        rintro rfl
        exact h.1 (List.mem_map.2 ⟨_, hm, rfl⟩)
      rw [hne]
      exact ih h.2 hm

theorem zip_keys : ∀ (l : List String) (p : List HNum), ((l.zip p).map Prod.fst).Sublist l
  | [], _ => by simp
  | x :: l, [] => by simp
  | x :: l, v :: p => by
    rw [List.zip_cons_cons, List.map_cons]
    exact (zip_keys l p).cons_cons x

theorem spLib_documented : Documented spLib where
  shuffle := fun _ l => List.reverse_perm l
  random := fun _ => rfl
  tpe := fun _ => ⟨_, rfl⟩
  entropy := fun _ => rfl
  same := by
    rintro ⟨k, g, r, i, w⟩ hist acc n f a b c
    cases k <;> rfl
  blind := by
    rintro ⟨k, g, r, i, w⟩ hs hist hist' acc n f a b c
    cases k <;> first | rfl | cases hs
  point := by
    rintro ⟨k, g, r, i, w⟩ names pts hs hn hist p hp n v hm acc f a b c
    cases hs
    have hk : ((names.zip p).map Prod.fst).Nodup := by
      exact hn.sublist (zip_keys names p)
    have : SDict.get (names.zip (pts.getD hist.length [])) n = some v := by
      rw [List.getD_eq_getElem?_getD, hp]
      exact SDict.get_mem_nodup hk hm
    simp only [spLib, this, Option.getD_some]
  asked := by
    rintro ⟨k, g, r, i, w⟩ hs hist acc n f a b c hab hc h0 h1
    cases k with
    | grid names pts => exact absurd rfl (hs names pts)
    | random => exact spPick_candidate hab hc h0 h1
    | other l => exact spPick_candidate hab hc h0 h1

/-- Two hyperparameters that are searched, in two orders. -/
def spSpace : SDict Hyper := [("x", hpX), ("n", hpN)]
def spSwapped : SDict Hyper := [("n", hpN), ("x", hpX)]

theorem spSpace_ok : SpaceOK spSpace where
  nodup := by decide +kernel
  named := by decide +kernel
  accepted := by decide +kernel
  searched := by decide +kernel

/-- A random sampler that has drawn 40 values, and one that has drawn none. -/
def spUsed : Sampler Int := .node .random (some 40) none none none
def spNew : Sampler Int := .node .random (some 0) none none none

def spScore (p : SDict HNum) : TrialScore := (p.get "n").map HNum.val

theorem sp_same : SameArg (.inst spUsed) (.inst spNew) :=
  .inst (by simp [spUsed, spNew, Alike])

/-- The hypotheses of `search_reproducible` are met; without seeding, the two samplers differ. -/
example : searchOnce spLib id 50 spScore spSpace 1 (.inst spUsed) (some 7) (some 3) =
    searchOnce spLib id 50 spScore spSwapped 4 (.inst spNew) (some 7) (some 3) :=
  search_reproducible spLib_documented spSpace_ok (List.Perm.swap _ _ _) sp_same
    (fun s e => by cases e; intro names pts h; cases h) spScore 1 4 7 (some 3)

example : searchOnce spLib id 50 spScore spSpace 2 (.inst spUsed) (some 7) (some 3) =
    .ok [⟨[("n", .int 20), ("x", .float 1)], some 20⟩,
      ⟨[("n", .int 10), ("x", .float 1)], some 10⟩,
      ⟨[("n", .int 20), ("x", .float (1 / 2))], some 20⟩] := by decide +kernel

example : searchOnce spLib id 50 spScore spSpace 2 (.inst spUsed) none (some 1) ≠
    searchOnce spLib id 50 spScore spSpace 2 (.inst spNew) none (some 1) := by decide +kernel

/-- A grid search of the twelve combinations, and of the first two of them. -/
example : searchOnce spLib id 50 spScore spSpace 2 (.name "grid") (some 7) (some 2) =
    .ok [⟨[("n", .int 40), ("x", .float (3 / 2))], some 40⟩,
      ⟨[("n", .int 40), ("x", .float 1)], some 40⟩] := by decide +kernel

example : (searchOnce spLib id 50 spScore spSpace 1 (.name "grid") none none).map List.length = .ok 12 := by
  decide +kernel

/-- Two windows of a search, with the seeds 7 and 8. -/
example : searchWindows spLib id 50 (fun _ => spScore) spSpace (fun k => k) (.name "random") (some 7)
    (some 1) 2 = .ok [[⟨[("n", .int 20), ("x", .float 1)], some 20⟩],
      [⟨[("n", .int 20), ("x", .float (1 / 2))], some 20⟩]] := by decide +kernel

/-- `search_values` and `window_searches` apply to it. -/
example (log : TrialLog)
    (h : searchOnce spLib id 50 spScore spSpace 2 (.inst spUsed) (some 7) (some 3) = .ok log) :
    ∀ t ∈ log, TrialFits spSpace t.params :=
  fun t ht => ((search_values spLib_documented spSpace_ok
    (fun s e => by cases e; intro names pts h; cases h) (by intro e; cases e) h).2 t ht).1

/-- Grids of other names are refused. -/
example : searchOnce spLib id 50 spScore spSpace 1
      (.inst (.node (.grid ["n"] [[.int 10]]) none none none none)) (some 7) (some 1) = .error .value ∧
    searchOnce spLib id 50 spScore spSpace 1
      (.inst (.node (.grid ["n", "x", "y"] [[.int 10, .float 1, .int 3]]) none none none none))
      (some 7) (some 1) = .error .value := by decide +kernel

example : searchStudy spLib id spScore spSpace 1 spNew "minimize" [] "maximize" (some 1) = .error .value := by
  decide +kernel

end Demo

end PyBroker
