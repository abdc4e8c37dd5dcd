import Verif.Props.Input

/-!
# Which columns a model is given, and who prepares them (C94)

The last step of reading a model's input: the model's input columns are picked, and the user's function
prepares them, or the indicators are taken.
-/

namespace PyBroker

namespace Spec

/-- The first column of a name. -/
def columnNamed (columns : List (String × List Cell)) (c : String) : Option (List Cell) :=
  (columns.find? (fun p => p.1 == c)).map Prod.snd

/-- The columns `picked` are those named by `names`, each once, in the order of their first mention. -/
def Picks (columns : List (String × List Cell)) (names : List String)
    (picked : List (String × List Cell)) : Prop :=
  picked.map Prod.fst = names.eraseDups ∧ ∀ p ∈ picked, columnNamed columns p.1 = some p.2

/-- What a model is given for the columns `picked`, if they are to be prepared. -/
def Prepares (src : InSource) (picked given : List (String × List Cell)) : Prop :=
  (if ∃ p ∈ picked, p.2 ≠ [] then
    (∀ f, src.inputFn = some f → given = f picked) ∧
    (src.inputFn = none → given.map Prod.fst = src.indicators ∧
      ∀ p ∈ given, columnNamed picked p.1 = some p.2)
  else given = picked)

end Spec

open Spec

theorem cacheGet_named (columns : List (String × List Cell)) (c : String) :
    cacheGet columns c = columnNamed columns c := by
  unfold columnNamed
  induction columns with
  | nil => rfl
  | cons p ps ih =>
    obtain ⟨k, v⟩ := p
    simp only [cacheGet, List.find?_cons]
    by_cases h : k = c
    · simp [h]
    · have hb : (k == c) = false := by simpa using h
      rw [if_neg h, ih, hb]

theorem columnNamed_of_mem {columns : List (String × List Cell)} {c : String}
    (h : c ∈ columns.map Prod.fst) : ∃ l, columnNamed columns c = some l := by
  unfold columnNamed
  rcases hf : columns.find? (fun p => p.1 == c) with _ | p
  · obtain ⟨p, hp, rfl⟩ := List.mem_map.1 h
    have := List.find?_eq_none.1 hf p hp
    simp at this
  · exact ⟨p.2, by rw [hf]; rfl⟩

theorem picked_names {columns : List (String × List Cell)} : ∀ {names : List String},
    (∀ c ∈ names, c ∈ columns.map Prod.fst) →
    (names.filterMap (fun c => (cacheGet columns c).map (fun l => (c, l)))).map Prod.fst = names ∧
    ∀ p ∈ names.filterMap (fun c => (cacheGet columns c).map (fun l => (c, l))),
      columnNamed columns p.1 = some p.2 := by
  intro names h
  refine ⟨?_, ?_⟩
  · induction names with
    | nil => rfl
    | cons c cs ih =>
      obtain ⟨l, hl⟩ := columnNamed_of_mem (h c (by simp))
      rw [List.filterMap_cons, cacheGet_named, hl]
      simp only [Option.map_some, List.map_cons]
      rw [ih (fun x hx => h x (by simp [hx]))]
  · intro p hp
    obtain ⟨c, _, hc⟩ := List.mem_filterMap.1 hp
    obtain ⟨l, hl, rfl⟩ := Option.map_eq_some_iff.1 hc
    rw [← cacheGet_named]
    exact hl

theorem prepared_given {src : InSource} {x z : LagInput} (h : x.prepared src = .ok z) :
    Prepares src x.columns z.columns ∧ z.features = x.features ∧
    (∀ p ∈ z.columns, p.2.length = x.dates.length) ∧
    ((∃ p ∈ z.columns, p.2 ≠ []) → z.dates = x.dates) := by
  unfold LagInput.prepared at h
  rcases hp : src.prepare x.columns with e | df
  · rw [hp] at h
    exact (nomatch h)
  · rw [hp] at h
    simp only at h
    split at h
    · exact (nomatch h)
    · rename_i hl
      obtain rfl := Except.ok.inj h
      refine ⟨?_, rfl, ?_, ?_⟩
      · unfold InSource.prepare at hp
        unfold Prepares
        by_cases hc : ∃ p ∈ x.columns, p.2 ≠ []
        · rw [if_pos hc]
          rw [if_neg (by
            intro hall
            obtain ⟨p, hp1, hp2⟩ := hc
            exact hp2 (by simpa using List.all_eq_true.1 hall p hp1))] at hp
          rcases hf : src.inputFn with _ | f
          · rw [hf] at hp
            simp only at hp
            refine ⟨fun f h => (nomatch h), fun _ => ?_⟩
            split at hp
            · rename_i hall
              obtain rfl := Except.ok.inj hp
              exact picked_names (fun c hc => by
                simpa using List.all_eq_true.1 hall c hc)
            · exact (nomatch hp)
          · rw [hf] at hp
            obtain rfl := Except.ok.inj hp
            refine ⟨fun g hg => ?_, fun h => (nomatch h)⟩
            obtain rfl := Option.some.inj hg
            rfl
        · rw [if_neg hc]
          rw [if_pos (by
            apply List.all_eq_true.2
            intro p hp1
            by_contra hn
            exact hc ⟨p, hp1, by simpa using hn⟩)] at hp
          exact (Except.ok.inj hp).symm
      · intro p hp
        by_contra hn
        exact hl (List.any_eq_true.2 ⟨p, hp, by simpa using hn⟩)
      · rintro ⟨p, hp1, hp2⟩
        simp only at hp1 ⊢
        rw [if_neg]
        intro hall
        exact hp2 (by simpa using List.all_eq_true.1 hall p hp1)

/-- **C94**: what a model is given at the end of reading its input.  Its input columns are there, picked
once each in their order; without input columns all columns are taken.  They are prepared, by the user's
function or by taking the indicators, if there is such a function or no input columns are known, and
else given as they are.  Every column has one cell for each row. -/
theorem input_given {src : InSource} {tm : InModel} {x z : LagInput}
    (h : finishInput src tm x = .ok z) :
    z.features = x.features ∧
    ∃ picked, (match tm.inputCols with
        | none => picked = x.columns
        | some ic => Picks x.columns ic picked) ∧
      if tm.inputCols.getD [] = [] ∨ src.inputFn ≠ none then
        Prepares src picked z.columns ∧ (∀ p ∈ z.columns, p.2.length = x.dates.length) ∧
        ((∃ p ∈ z.columns, p.2 ≠ []) → z.dates = x.dates)
      else z.columns = picked ∧ z.dates = x.dates := by
  unfold finishInput at h
  rcases hic : tm.inputCols with _ | ic
  · rw [hic] at h
    obtain ⟨h1, h2, h3, h4⟩ := prepared_given h
    exact ⟨h2, x.columns, rfl, by rw [if_pos (.inl rfl)]; exact ⟨h1, h3, h4⟩⟩
  · rw [hic] at h
    simp only at h
    split at h
    · rename_i hall
      have hp := picked_names (columns := x.columns) (names := ic.eraseDups) (fun c hc => by
        simpa using List.all_eq_true.1 hall c (List.mem_eraseDups.1 hc))
      by_cases hk : ic = [] ∨ src.inputFn ≠ none
      · rw [if_pos (by simpa [Option.isSome_iff_ne_none] using hk)] at h
        obtain ⟨h1, h2, h3, h4⟩ := prepared_given h
        exact ⟨h2, _, hp, by rw [if_pos (by simpa using hk)]; exact ⟨h1, h3, h4⟩⟩
      · rw [if_neg (by simpa [Option.isSome_iff_ne_none] using hk)] at h
        obtain rfl := Except.ok.inj h
        exact ⟨rfl, _, hp, by rw [if_neg (by simpa using hk)]; exact ⟨rfl, rfl⟩⟩
    · exact (nomatch h)

/-- **C94**: a missing input column is an error, and the only reason for this error. -/
theorem input_missing {src : InSource} {tm : InModel} {x : LagInput} :
    finishInput src tm x = .error .missingCol ↔
      ∃ ic c, tm.inputCols = some ic ∧ c ∈ ic ∧ c ∉ x.columns.map Prod.fst := by
  have hprep : ∀ y : LagInput, y.prepared src ≠ .error .missingCol := by
    intro y hy
    have hs : src.prepare y.columns ≠ .error .missingCol := by
      unfold InSource.prepare
      repeat' split
      all_goals simp
    unfold LagInput.prepared at hy
    rcases hp : src.prepare y.columns with e | df
    · rw [hp] at hy hs
      exact hs (by simpa using hy)
    · rw [hp] at hy
      simp only at hy
      split at hy <;> simp at hy
  unfold finishInput
  rcases tm.inputCols with _ | ic
  · simp only [reduceCtorEq, false_and, exists_false, iff_false]
    exact hprep x
  · simp only
    split
    · rename_i hall
      refine ⟨fun h => ?_, ?_⟩
      · split at h
        · exact (hprep _ h).elim
        · exact (nomatch h)
      · rintro ⟨ic', c, he, hc, hn⟩
        obtain rfl := Option.some.inj he
        exact (hn (by simpa using List.all_eq_true.1 hall c hc)).elim
    · rename_i hall
      refine ⟨fun _ => ?_, fun _ => rfl⟩
      rw [List.all_eq_true] at hall
      by_contra hno
      exact hall (fun c hc => decide_eq_true (by
        by_contra hn
        exact hno ⟨ic, c, rfl, hc, hn⟩))

namespace Demo

/-- Two rows with a price and an indicator. -/
def twoRows : LagInput where
  dates := [1, 2]
  symbols := none
  columns := [("close", [some 10, some 11]), ("rsi", [none, some 50])]
  features := none

/-- A model whose user function keeps the last column. -/
def keepsLast : InSource where
  indicators := ["rsi"]
  lags := none
  pooled := false
  inputFn := some (fun df => df.drop 1)

end Demo

/-- The function is given the picked columns in the model's order. -/
example : (finishInput Demo.keepsLast ⟨some ["rsi", "close"], none⟩ Demo.twoRows).toOption.map
    (fun z => (z.dates, z.columns)) = some ([1, 2], [("close", [some 10, some 11])]) := by
  decide +kernel

/-- Without function and input columns, the indicators are taken. -/
example : (finishInput { Demo.keepsLast with inputFn := none } ⟨none, none⟩ Demo.twoRows).toOption.map
    (fun z => (z.dates, z.columns)) = some ([1, 2], [("rsi", [none, some 50])]) := by
  decide +kernel

/-- With input columns and no function, the columns are given as they are. -/
example : (finishInput { Demo.keepsLast with inputFn := none } ⟨some ["close"], none⟩
    Demo.twoRows).toOption.map (fun z => (z.dates, z.columns)) =
      some ([1, 2], [("close", [some 10, some 11])]) := by
  decide +kernel

example : finishInput Demo.keepsLast ⟨some ["rsi", "volume"], none⟩ Demo.twoRows = .error .missingCol :=
  input_missing.2 ⟨_, "volume", rfl, by simp, by decide⟩

end PyBroker
