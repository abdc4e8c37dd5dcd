import Verif.Optimize.TrialInds
import Verif.Props.Indicator

/-!
# The indicators of each trial (C133)
-/

namespace PyBroker

/-! ## Specification -/

namespace Spec

/-- The indicator is one the executions need for one of their symbols: their own, or one of a model's
on the model's interval. -/
def NeededInd (modelInds : Str → List Str) (execs : List IndExec) (p : IndSym) : Prop :=
  ∃ e ∈ execs, p.symbol ∈ e.symbols ∧ (p.name ∈ e.inds ∨
    ∃ m ∈ e.models, ∃ i ∈ modelInds (parseName m).1, p.name = match (parseName m).2 with
      | none => i
      | some iv => (intervalName i iv).getD [])

/-- The dict has exactly the needed indicators, each once, with the series its function gives for
these values of the hyperparameters. -/
def IndicatorsOf {V : Type} (reg : IndReg V) (x : IndData) (need : IndSym → Prop)
    (values : SDict HNum) (d : List (IndSym × Series)) : Prop :=
  (d.map Prod.fst).Nodup ∧ (∀ p, p ∈ d.map Prod.fst ↔ need p) ∧
    ∀ e ∈ d, IndicatorSeries reg x (some values) e.1 e.2

end Spec

open PyBroker.Spec

variable {V : Type}

theorem mem_indSyms {modelInds : Str → List Str} {execs : List IndExec} {p : IndSym} :
    p ∈ indSyms modelInds execs ↔ NeededInd modelInds execs p := by
  unfold indSyms NeededInd
  rw [List.mem_dedup, List.mem_flatMap]
  constructor
  · rintro ⟨e, he, h⟩
    obtain ⟨s, hs, h⟩ := List.mem_flatMap.1 h
    rcases List.mem_append.1 h with h | h
    · obtain ⟨m, hm, h⟩ := List.mem_flatMap.1 h
      obtain ⟨i, hi, rfl⟩ := List.mem_map.1 h
      exact ⟨e, he, hs, .inr ⟨m, hm, i, hi, rfl⟩⟩
    · obtain ⟨i, hi, rfl⟩ := List.mem_map.1 h
      exact ⟨e, he, hs, .inl hi⟩
  · rintro ⟨e, he, hs, h⟩
    refine ⟨e, he, List.mem_flatMap.2 ⟨p.symbol, hs, List.mem_append.2 ?_⟩⟩
    rcases h with h | ⟨m, hm, i, hi, h⟩
    · exact .inr (List.mem_map.2 ⟨p.name, h, rfl⟩)
    · refine .inl (List.mem_flatMap.2 ⟨m, hm, List.mem_map.2 ⟨i, hi, ?_⟩⟩)
      rcases p with ⟨n, s⟩
      simp only at h
      rw [h]
      rfl

/-! ## The two parts -/

/-- The indicator of the pair has hyperparameters. -/
def HasHypers (reg : IndReg V) (p : IndSym) : Prop :=
  ∃ d, reg.ind (parseName p.name).1 = some d ∧ d.hyperNames ≠ []

theorem splitTuned_spec {reg : IndReg V} : ∀ {syms a b : List IndSym},
    splitTuned reg syms = .ok (a, b) →
    (∀ p ∈ syms, ∃ d, reg.ind (parseName p.name).1 = some d) ∧
    (∀ p, p ∈ a ↔ p ∈ syms ∧ ¬ HasHypers reg p) ∧ (∀ p, p ∈ b ↔ p ∈ syms ∧ HasHypers reg p)
  | [], a, b, h => by
    cases h
    simp
  | p :: rest, a, b, h => by
    unfold splitTuned at h
    cases hd : reg.ind (parseName p.name).1 with
    | none => rw [hd] at h; cases h
    | some d =>
      rw [hd] at h
      cases hr : splitTuned reg rest with
      | error e => rw [hr] at h; cases h
      | ok q =>
        obtain ⟨a', b'⟩ := q
        obtain ⟨h1, h2, h3⟩ := splitTuned_spec hr
        rw [hr] at h
        simp only at h
        have ht : HasHypers reg p ↔ d.hyperNames ≠ [] := by
          constructor
          · rintro ⟨d', hd', hn⟩
            rw [hd] at hd'
            cases hd'
            exact hn
          · exact fun hn => ⟨d, hd, hn⟩
        have hreg : ∀ q ∈ p :: rest, ∃ d, reg.ind (parseName q.name).1 = some d := by
          intro q hq
          rcases List.mem_cons.1 hq with rfl | hq
          · exact ⟨d, hd⟩
          · exact h1 q hq
        split at h
        · rename_i hn
          cases h
          refine ⟨hreg, fun q => ?_, fun q => ?_⟩
          · rw [h2, List.mem_cons]
            constructor
            · rintro ⟨x, y⟩; exact ⟨.inr x, y⟩
            · rintro ⟨rfl | x, y⟩
              · exact absurd (ht.2 hn) y
              · exact ⟨x, y⟩
          · rw [List.mem_cons, h3, List.mem_cons]
            constructor
            · rintro (rfl | ⟨x, y⟩)
              · exact ⟨.inl rfl, ht.2 hn⟩
              · exact ⟨.inr x, y⟩
            · rintro ⟨rfl | x, y⟩
              · exact .inl rfl
              · exact .inr ⟨x, y⟩
        · rename_i hn
          cases h
          refine ⟨hreg, fun q => ?_, fun q => ?_⟩
          · rw [List.mem_cons, h2, List.mem_cons]
            constructor
            · rintro (rfl | ⟨x, y⟩)
              · exact ⟨.inl rfl, fun hc => hn (ht.1 hc)⟩
              · exact ⟨.inr x, y⟩
            · rintro ⟨rfl | x, y⟩
              · exact .inl rfl
              · exact .inr ⟨x, y⟩
          · rw [h3, List.mem_cons]
            constructor
            · rintro ⟨x, y⟩; exact ⟨.inr x, y⟩
            · rintro ⟨rfl | x, y⟩
              · exact absurd (ht.1 y) hn
              · exact ⟨x, y⟩

theorem splitTuned_ok {reg : IndReg V} : ∀ {syms : List IndSym},
    (∀ p ∈ syms, ∃ d, reg.ind (parseName p.name).1 = some d) →
    ∃ a b, splitTuned reg syms = .ok (a, b)
  | [], _ => ⟨[], [], rfl⟩
  | p :: rest, h => by
    obtain ⟨d, hd⟩ := h p (by simp)
    obtain ⟨a, b, hr⟩ := splitTuned_ok (fun q hq => h q (List.mem_cons_of_mem _ hq))
    unfold splitTuned
    rw [hd, hr]
    simp only
    split
    · exact ⟨_, _, rfl⟩
    · exact ⟨_, _, rfl⟩

theorem series_untuned {reg : IndReg V} {x : IndData} {p : IndSym} {hy : Option (SDict HNum)}
    {s : Series} (ht : ¬ HasHypers reg p) (h : IndicatorSeries reg x hy p s)
    (hy' : Option (SDict HNum)) : IndicatorSeries reg x hy' p s := by
  obtain ⟨d, b, a, hd, hrest⟩ := h
  refine series_no_hypers hd ?_ hy' ⟨d, b, a, hd, hrest⟩
  by_contra hn
  exact ht ⟨d, hd, hn⟩

section

variable {reg : IndReg V} {data : DateFields → IndData} {f : DateFields} {syms : List IndSym}
  {st st' : IndState}

/-- Part of a dict: the pairs that satisfy `P`. -/
def PartOf (reg : IndReg V) (x : IndData) (syms : List IndSym) (P : IndSym → Prop)
    (values : Option (SDict HNum)) (d : List (IndSym × Series)) : Prop :=
  (d.map Prod.fst).Nodup ∧ (∀ p, p ∈ d.map Prod.fst ↔ p ∈ syms ∧ P p) ∧
    ∀ e ∈ d, IndicatorSeries reg x values e.1 e.2

theorem invariant_spec (hr : IndReach reg data (.tuning f) st) (hne : (data f).store.symbols ≠ [])
    {inv : List (IndSym × Series)} (h : invariantInds reg (data f) f syms st = .ok (inv, st')) :
    IndReach reg data (.tuning f) st' ∧
      ∀ hy, PartOf reg (data f) syms (fun p => ¬ HasHypers reg p) hy inv := by
  unfold invariantInds at h
  cases hs : splitTuned reg syms with
  | error e => rw [hs] at h; cases h
  | ok q =>
    obtain ⟨a, b⟩ := q
    obtain ⟨_, h2, _⟩ := splitTuned_spec hs
    rw [hs] at h
    simp only at h
    split at h
    · rename_i ha
      cases h
      refine ⟨hr, fun hy => ⟨by simp, fun p => ?_, by simp⟩⟩
      rw [← h2, ha]
      simp
    · have hc : computeIndicators reg (data f) a (if true then some f else none) none st =
        .ok (inv, st') := h
      obtain ⟨k1, k2, k3⟩ := indicators_exact hr rfl true none a hne hc
      refine ⟨.call f true none a hr rfl hc, fun hy => ⟨k1, fun p => ?_, fun e he => ?_⟩⟩
      · rw [k2, h2]
      · have hm : e.1 ∈ a := (k2 e.1).1 (List.mem_map.2 ⟨e, he, rfl⟩)
        exact series_untuned ((h2 _).1 hm).2 (k3 e he) hy

theorem tuned_spec (hr : IndReach reg data (.tuning f) st) (hne : (data f).store.symbols ≠ [])
    {use : Bool} {values : SDict HNum} {d : List (IndSym × Series)}
    (h : tunedInds reg (data f) (if use then some f else none) syms values st = .ok (d, st')) :
    IndReach reg data (.tuning f) st' ∧
      PartOf reg (data f) syms (HasHypers reg) (some values) d := by
  unfold tunedInds at h
  cases hs : splitTuned reg syms with
  | error e => rw [hs] at h; cases h
  | ok q =>
    obtain ⟨a, b⟩ := q
    obtain ⟨_, _, h3⟩ := splitTuned_spec hs
    rw [hs] at h
    simp only at h
    split at h
    · rename_i hb
      cases h
      refine ⟨hr, by simp, fun p => ?_, by simp⟩
      rw [← h3, hb]
      simp
    · obtain ⟨k1, k2, k3⟩ := indicators_exact hr rfl use (some values) b hne h
      exact ⟨.call f use (some values) b hr rfl h, k1, fun p => by rw [k2, h3], k3⟩

theorem trial_spec (hr : IndReach reg data (.tuning f) st) (hne : (data f).store.symbols ≠ [])
    {use : Bool} {values : SDict HNum} {inv d : List (IndSym × Series)}
    (hi : ∀ hy, PartOf reg (data f) syms (fun p => ¬ HasHypers reg p) hy inv)
    (h : trialInds reg (data f) (if use then some f else none) syms inv values st = .ok (d, st')) :
    IndReach reg data (.tuning f) st' ∧
      IndicatorsOf reg (data f) (· ∈ syms) values d := by
  unfold trialInds at h
  cases ht : tunedInds reg (data f) (if use then some f else none) syms values st with
  | error e => rw [ht] at h; cases h
  | ok q =>
    obtain ⟨t, st1⟩ := q
    rw [ht] at h
    cases h
    obtain ⟨h1, _, h3, h4⟩ := tuned_spec hr hne ht
    obtain ⟨i1, i2, i3⟩ := hi (some values)
    refine ⟨h1, foldPut_nodup t i1, fun p => ?_, fun e he => ?_⟩
    · unfold mergeInds
      rw [foldPut_keys, h3, i2]
      by_cases hp : HasHypers reg p <;> simp [hp]
    · rcases foldPut_mem he with he | he
      · exact h4 e he
      · exact i3 e he

theorem trials_spec (hne : (data f).store.symbols ≠ []) {inv : List (IndSym × Series)}
    (hi : ∀ hy, PartOf reg (data f) syms (fun p => ¬ HasHypers reg p) hy inv) :
    ∀ {values : List (SDict HNum)} {st st' : IndState} {ds : List (List (IndSym × Series))},
    IndReach reg data (.tuning f) st → runTrials reg (data f) syms inv values st = .ok (ds, st') →
    IndReach reg data (.tuning f) st' ∧
      List.Forall₂ (fun v d => IndicatorsOf reg (data f) (· ∈ syms) v d) values ds
  | [], st, st', ds, hr, h => by
    cases h
    exact ⟨hr, .nil⟩
  | v :: vs, st, st', ds, hr, h => by
    unfold runTrials at h
    cases ht : trialInds reg (data f) none syms inv v st with
    | error e => rw [ht] at h; cases h
    | ok q =>
      obtain ⟨d, st1⟩ := q
      rw [ht] at h
      simp only at h
      obtain ⟨h1, h2⟩ := trial_spec (use := false) hr hne hi ht
      cases hs : runTrials reg (data f) syms inv vs st1 with
      | error e => rw [hs] at h; cases h
      | ok q =>
        obtain ⟨ds', st2⟩ := q
        rw [hs] at h
        cases h
        obtain ⟨h3, h4⟩ := trials_spec hne hi h1 hs
        exact ⟨h3, .cons h2 h4⟩

theorem of_need {modelInds : Str → List Str} {execs : List IndExec} {x : IndData}
    {values : SDict HNum} {d : List (IndSym × Series)}
    (h : IndicatorsOf reg x (· ∈ indSyms modelInds execs) values d) :
    IndicatorsOf reg x (NeededInd modelInds execs) values d :=
  ⟨h.1, fun p => (h.2.1 p).trans mem_indSyms, h.2.2⟩

/-- **C133.**  In a window of an optimisation each trial has exactly the indicators that the
executions and their models need, each with the series for that trial's values, and so has the test
for the chosen values; models are loaded with the series for the defaults.  Whatever was computed,
kept or cached before makes no difference, and the same holds of the next window. -/
theorem tuned_window_indicators (hr : IndReach reg data (.tuning f) st)
    (hne : (data f).store.symbols ≠ []) {modelInds : Str → List Str} {execs : List IndExec}
    {needsModels : Bool} {defaults : SDict HNum} {values : List (SDict HNum)} {best : SDict HNum}
    {w : TunedWindow}
    (h : tuneWindow reg (data f) f (indSyms modelInds execs) needsModels defaults values best st =
      .ok (w, st')) :
    (needsModels = true →
      IndicatorsOf reg (data f) (NeededInd modelInds execs) defaults w.loaded) ∧
    List.Forall₂ (IndicatorsOf reg (data f) (NeededInd modelInds execs)) values w.trials ∧
    IndicatorsOf reg (data f) (NeededInd modelInds execs) best w.test ∧
    IndReach reg data (.tuning f) st' := by
  unfold tuneWindow at h
  cases h1 : invariantInds reg (data f) f (indSyms modelInds execs) st with
  | error e => rw [h1] at h; cases h
  | ok q =>
    obtain ⟨inv, st1⟩ := q
    rw [h1] at h
    simp only at h
    obtain ⟨r1, hi⟩ := invariant_spec hr hne h1
    cases h2 : loadInds reg (data f) f (indSyms modelInds execs) inv needsModels defaults st1 with
    | error e => rw [h2] at h; cases h
    | ok q =>
      obtain ⟨loaded, st2⟩ := q
      rw [h2] at h
      simp only at h
      have hl : IndReach reg data (.tuning f) st2 ∧ (needsModels = true →
          IndicatorsOf reg (data f) (· ∈ indSyms modelInds execs) defaults loaded) := by
        unfold loadInds at h2
        split at h2
        · obtain ⟨a, b⟩ := trial_spec (use := true) r1 hne hi h2
          exact ⟨a, fun _ => b⟩
        · rename_i hn
          cases h2
          exact ⟨r1, fun hc => absurd hc hn⟩
      obtain ⟨r2, hl⟩ := hl
      cases h3 : runTrials reg (data f) (indSyms modelInds execs) inv values st2 with
      | error e => rw [h3] at h; cases h
      | ok q =>
        obtain ⟨trials, st3⟩ := q
        rw [h3] at h
        simp only at h
        obtain ⟨r3, ht⟩ := trials_spec hne hi r2 h3
        cases h4 : trialInds reg (data f) (some f) (indSyms modelInds execs) inv best st3 with
        | error e => rw [h4] at h; cases h
        | ok q =>
          obtain ⟨test, st4⟩ := q
          rw [h4] at h
          cases h
          obtain ⟨r4, hb⟩ := trial_spec (use := true) r3 hne hi h4
          exact ⟨fun hc => of_need (hl hc), ht.imp (fun _ _ h => of_need h), of_need hb, r4⟩

/-- **C133.**  The replay of a window with its values has their indicators. -/
theorem replay_indicators (hr : IndReach reg data (.tuning f) st)
    (hne : (data f).store.symbols ≠ []) {modelInds : Str → List Str} {execs : List IndExec}
    {best : SDict HNum} {d : List (IndSym × Series)}
    (h : replayInds reg (data f) f (indSyms modelInds execs) best st = .ok (d, st')) :
    IndicatorsOf reg (data f) (NeededInd modelInds execs) best d ∧
    IndReach reg data (.tuning f) st' := by
  unfold replayInds at h
  cases h1 : invariantInds reg (data f) f (indSyms modelInds execs) st with
  | error e => rw [h1] at h; cases h
  | ok q =>
    obtain ⟨inv, st1⟩ := q
    rw [h1] at h
    simp only at h
    obtain ⟨r1, hi⟩ := invariant_spec hr hne h1
    cases h2 : computeIndicators reg (data f) (indSyms modelInds execs) (some f) (some best) st1 with
    | error e => rw [h2] at h; cases h
    | ok q =>
      obtain ⟨all, st2⟩ := q
      rw [h2] at h
      cases h
      have hc : computeIndicators reg (data f) (indSyms modelInds execs)
        (if true then some f else none) (some best) st1 = .ok (all, st') := h2
      obtain ⟨k1, k2, k3⟩ := indicators_exact r1 rfl true (some best) _ hne hc
      obtain ⟨i1, i2, i3⟩ := hi (some best)
      refine ⟨of_need ⟨foldPut_nodup all i1, fun p => ?_, fun e he => ?_⟩,
        .call f true (some best) _ r1 rfl hc⟩
      · unfold mergeInds
        rw [foldPut_keys, k2, i2]
        exact ⟨fun h => h.elim id And.left, .inl⟩
      · rcases foldPut_mem he with he | he
        · exact k3 e he
        · exact i3 e he

/-! ## A window goes through exactly if its series exist -/

theorem inv_ok (hr : IndReach reg data (.tuning f) st) {hy : Option (SDict HNum)}
    (hs : ∀ p ∈ syms, ∃ s, IndicatorSeries reg (data f) hy p s) :
    ∃ inv st', invariantInds reg (data f) f syms st = .ok (inv, st') := by
  obtain ⟨a, b, hab⟩ := splitTuned_ok (reg := reg) (syms := syms) (fun p hp => by
    obtain ⟨s, d, _, _, hd, _⟩ := hs p hp
    exact ⟨d, hd⟩)
  obtain ⟨_, h2, _⟩ := splitTuned_spec hab
  unfold invariantInds
  rw [hab]
  simp only
  split
  · exact ⟨_, _, rfl⟩
  · obtain ⟨⟨out, st'⟩, h⟩ := compute_ok (use := true) (hyper := none) (syms := a) (reach_fit hr rfl)
      (fun p hp => by
        obtain ⟨hm, hn⟩ := (h2 p).1 hp
        obtain ⟨s, hs⟩ := hs p hm
        exact ⟨s, series_untuned hn hs none⟩)
    exact ⟨out, st', h⟩

theorem trial_ok (hr : IndReach reg data (.tuning f) st) (use : Bool)
    (inv : List (IndSym × Series)) {values : SDict HNum}
    (hs : ∀ p ∈ syms, ∃ s, IndicatorSeries reg (data f) (some values) p s) :
    ∃ d st', trialInds reg (data f) (if use then some f else none) syms inv values st =
      .ok (d, st') := by
  obtain ⟨a, b, hab⟩ := splitTuned_ok (reg := reg) (syms := syms) (fun p hp => by
    obtain ⟨s, d, _, _, hd, _⟩ := hs p hp
    exact ⟨d, hd⟩)
  obtain ⟨_, _, h3⟩ := splitTuned_spec hab
  unfold trialInds tunedInds
  rw [hab]
  simp only
  by_cases hb : b = []
  · rw [if_pos hb]
    exact ⟨_, _, rfl⟩
  · rw [if_neg hb]
    obtain ⟨⟨out, st'⟩, h⟩ := compute_ok (use := use) (hyper := some values) (syms := b)
      (reach_fit hr rfl) (fun p hp => hs p ((h3 p).1 hp).1)
    rw [h]
    exact ⟨_, _, rfl⟩

theorem trials_ok (hne : (data f).store.symbols ≠ []) {inv : List (IndSym × Series)}
    (hi : ∀ hy, PartOf reg (data f) syms (fun p => ¬ HasHypers reg p) hy inv) :
    ∀ {values : List (SDict HNum)} {st : IndState}, IndReach reg data (.tuning f) st →
    (∀ v ∈ values, ∀ p ∈ syms, ∃ s, IndicatorSeries reg (data f) (some v) p s) →
    ∃ ds st', runTrials reg (data f) syms inv values st = .ok (ds, st')
  | [], st, _, _ => ⟨[], st, rfl⟩
  | v :: vs, st, hr, hs => by
    obtain ⟨d, st1, h1⟩ := trial_ok hr false inv (hs v (by simp))
    have h1' : trialInds reg (data f) none syms inv v st = .ok (d, st1) := h1
    obtain ⟨r1, _⟩ := trial_spec (use := false) hr hne hi h1
    obtain ⟨ds, st2, h2⟩ := trials_ok hne hi r1 (fun w hw => hs w (List.mem_cons_of_mem _ hw))
    unfold runTrials
    rw [h1']
    simp only
    rw [h2]
    exact ⟨_, _, rfl⟩

/-- **C133.**  A window goes through exactly if every indicator it needs has a series for the values
of every trial, for the chosen ones and, if there are models, for the defaults. -/
theorem tuned_window_defined (hr : IndReach reg data (.tuning f) st)
    (hne : (data f).store.symbols ≠ []) {modelInds : Str → List Str} {execs : List IndExec}
    {needsModels : Bool} {defaults : SDict HNum} {values : List (SDict HNum)} {best : SDict HNum} :
    (∃ w st', tuneWindow reg (data f) f (indSyms modelInds execs) needsModels defaults values best
      st = .ok (w, st')) ↔
    ∀ v, (v ∈ values ∨ v = best ∨ (needsModels = true ∧ v = defaults)) →
      ∀ p, NeededInd modelInds execs p → ∃ s, IndicatorSeries reg (data f) (some v) p s := by
  have key : ∀ {v d}, IndicatorsOf reg (data f) (NeededInd modelInds execs) v d →
      ∀ p, NeededInd modelInds execs p → ∃ s, IndicatorSeries reg (data f) (some v) p s := by
    intro v d hd p hp
    obtain ⟨e, he, rfl⟩ := List.mem_map.1 ((hd.2.1 p).2 hp)
    exact ⟨e.2, hd.2.2 e he⟩
  constructor
  · rintro ⟨w, st', h⟩ v hv
    obtain ⟨h1, h2, h3, _⟩ := tuned_window_indicators hr hne h
    rcases hv with hv | rfl | ⟨hm, rfl⟩
    · obtain ⟨i, hi, rfl⟩ := List.getElem_of_mem hv
      have hlen := h2.length_eq
      exact key ((List.forall₂_iff_get.1 h2).2 i hi (hlen ▸ hi))
    · exact key h3
    · exact key (h1 hm)
  · intro hs
    have hs' : ∀ v, (v ∈ values ∨ v = best ∨ (needsModels = true ∧ v = defaults)) →
        ∀ p ∈ indSyms modelInds execs, ∃ s, IndicatorSeries reg (data f) (some v) p s :=
      fun v hv p hp => hs v hv p (mem_indSyms.1 hp)
    obtain ⟨inv, st1, h1⟩ := inv_ok hr (hs' best (.inr (.inl rfl)))
    obtain ⟨r1, hi⟩ := invariant_spec hr hne h1
    have h2 : ∃ loaded st2, loadInds reg (data f) f (indSyms modelInds execs) inv needsModels
        defaults st1 = .ok (loaded, st2) ∧ IndReach reg data (.tuning f) st2 := by
      unfold loadInds
      split
      · rename_i hm
        obtain ⟨d, st2, h⟩ := trial_ok r1 true inv (hs' defaults (.inr (.inr ⟨hm, rfl⟩)))
        exact ⟨d, st2, h, (trial_spec (use := true) r1 hne hi h).1⟩
      · exact ⟨_, _, rfl, r1⟩
    obtain ⟨loaded, st2, h2, r2⟩ := h2
    obtain ⟨ds, st3, h3⟩ := trials_ok hne hi r2 (fun v hv => hs' v (.inl hv))
    obtain ⟨r3, _⟩ := trials_spec hne hi r2 h3
    obtain ⟨d, st4, h4⟩ := trial_ok r3 true inv (hs' best (.inr (.inl rfl)))
    have h4' : trialInds reg (data f) (some f) (indSyms modelInds execs) inv best st3 =
      .ok (d, st4) := h4
    unfold tuneWindow
    rw [h1]
    simp only
    rw [h2]
    simp only
    rw [h3]
    simp only
    rw [h4']
    exact ⟨_, _, rfl⟩

end

/-! ## A case -/

namespace IndDemo

/-- An execution with one indicator of its own and a model that uses the other. -/
def tExecs : List IndExec := [⟨["A"], ["up".toList], ["m".toList]⟩]

def tModel : Str → List Str := fun m => if m = "m".toList then ["ma".toList] else []

def tWindow : Except IErr (TunedWindow × IndState) :=
  tuneWindow (reg 1) (data 5) fields (indSyms tModel tExecs) true [("w", .int 2)]
    [[("w", .int 3)], [("w", .int 1)], [("w", .int 3)]] [("w", .int 1)]
    ⟨some (fun _ => none), [], 1⟩

end IndDemo

open IndDemo in
/-- Two trials with other values, one that repeats the first; one series is kept between trials. -/
example : (match tWindow with
    | .ok (w, _) => w.trials
    | .error _ => []) =
    [[(up, [(1, some 6), (2, some 7)]), (ma, [(1, some 15), (2, some 18)])],
     [(up, [(1, some 6), (2, some 7)]), (ma, [(1, some 5), (2, some 6)])],
     [(up, [(1, some 6), (2, some 7)]), (ma, [(1, some 15), (2, some 18)])]] := by
  decide +kernel

open IndDemo in
/-- The test has the series of the chosen value, and models are loaded with those of the default. -/
example : (match tWindow with
    | .ok (w, _) => [w.test, w.loaded]
    | .error _ => []) =
    [[(up, [(1, some 6), (2, some 7)]), (ma, [(1, some 5), (2, some 6)])],
     [(up, [(1, some 6), (2, some 7)]), (ma, [(1, some 10), (2, some 12)])]] := by
  decide +kernel

open IndDemo in
/-- The hypotheses are met: the state before is that of an optimisation that begins. -/
example : IndReach (reg 1) (fun _ => data 5) (.tuning fields) ⟨some (fun _ => none), [], 1⟩ ∧
    (data 5).store.symbols ≠ [] :=
  ⟨.tune fields 1 (.start (some (fun _ => none)) (fun c' hc' k => by cases hc'; rfl)),
    by decide +kernel⟩

open IndDemo in
/-- A replay. -/
example : (match replayInds (reg 1) (data 5) fields (indSyms tModel tExecs) [("w", .int 3)]
      ⟨some (fun _ => none), [], 1⟩ with
    | .ok (d, _) => some d
    | .error _ => none) =
    some [(up, [(1, some 6), (2, some 7)]), (ma, [(1, some 15), (2, some 18)])] := by
  decide +kernel

end PyBroker
