import Verif.Optimize.Pretrained
import Verif.Props.Learn
import Verif.Props.Tune

/-!
# Pretrained models in an optimization (C162)
-/

namespace PyBroker

open PyBroker.Spec

/-! ## Trainable models are refused -/

/-- **C162.**  `optimize` refuses a strategy exactly when an execution has a model that would be
trained, on whatever interval, and names each of them once, in order. -/
theorem optimize_refuses (trainable : String → Bool) (execs : List (List String)) :
    (refusedModels trainable execs = none ↔
      ∀ e ∈ execs, ∀ name ∈ e, trainable (baseName name) = false) ∧
    ∀ l, refusedModels trainable execs = some l → l.Pairwise (· < ·) ∧
      ∀ n, n ∈ l ↔ trainable n = true ∧ ∃ e ∈ execs, ∃ name ∈ e, baseName name = n := by
  have hmem : ∀ n, n ∈ (execs.flatten.map baseName).filter trainable ↔
      trainable n = true ∧ ∃ e ∈ execs, ∃ name ∈ e, baseName name = n := by
    intro n
    rw [List.mem_filter, List.mem_map]
    constructor
    · rintro ⟨⟨name, h1, h2⟩, h3⟩
      obtain ⟨e, he, hn⟩ := List.mem_flatten.1 h1
      exact ⟨h3, e, he, name, hn, h2⟩
    · rintro ⟨h3, e, he, name, hn, h2⟩
      exact ⟨⟨name, List.mem_flatten.2 ⟨e, he, hn⟩, h2⟩, h3⟩
  unfold refusedModels
  simp only
  constructor
  · constructor
    · intro h e he name hn
      by_contra hc
      split at h
      · rename_i hnil
        have := (hmem (baseName name)).2 ⟨by simpa using hc, e, he, name, hn, rfl⟩
        rw [hnil] at this
        cases this
      · cases h
    · intro h
      rw [if_pos]
      rw [List.eq_nil_iff_forall_not_mem]
      intro n hn
      obtain ⟨h1, e, he, name, hn', rfl⟩ := (hmem n).1 hn
      rw [h e he name hn'] at h1
      cases h1
  · intro l h
    split at h
    · cases h
    · cases h
      refine ⟨?_, fun n => ?_⟩
      · have h1 := List.pairwise_insertionSort (fun a b : String => a ≤ b)
          ((execs.flatten.map baseName).filter trainable).dedup
        have h2 : (((execs.flatten.map baseName).filter trainable).dedup.insertionSort
            (fun a b : String => a ≤ b)).Nodup :=
          ((List.perm_insertionSort _ _).nodup_iff).2 (List.nodup_dedup _)
        exact (h1.and h2).imp (fun {a b} h => lt_of_le_of_ne h.1 h.2)
      · rw [List.mem_insertionSort, List.mem_dedup, hmem]

/-! ## What is asked of the strategy -/

namespace Spec

/-- What C151 asks of a strategy with models, whatever the values of the hyperparameters: causal
indicators that are not named like columns, input prepared row by row, and predictions that do not
depend on later rows. -/
def PreloadedOK {M P : Type} (X : Preloaded M P) : Prop := ∀ p, LearnerOK (X.learner p)

end Spec

namespace Preloaded

variable {M P : Type} {X : Preloaded M P}

theorem loaded_some {win : WFWindow} {name : String} {sym : Sym} {m : M × InModel}
    (h : X.loaded win name sym = some m) : ∃ src, X.source name = some src ∧
      (∀ l, m.2.lagColumns = some l → l ≠ [] ∧ l = X.lagCols name) := by
  unfold loaded at h
  split at h
  · cases h
  · rename_i src hsrc
    refine ⟨src, hsrc, ?_⟩
    split at h
    · cases h
      intro l hl
      simp only at hl
      split at hl
      · rename_i hc
        cases hl
        exact ⟨hc.2, rfl⟩
      · cases hl
    · cases h

theorem rowsAt_symbols {x : RunSetup} {t : Date} {rows' : List DRow} (h : SameUpTo t x.rows rows')
    (idx : List Nat) : (({ x with rows := rows' } : RunSetup).rowsAt idx).map DRow.symbol =
      (x.rowsAt idx).map DRow.symbol := by
  have hr : SameUpTo t (x.rowsAt idx) (({ x with rows := rows' } : RunSetup).rowsAt idx) :=
    RunSetup.rowsAt_same (x := x) (act' := x.act) (orderSlip' := x.orderSlip) (exitSlip' := x.exitSlip) h idx
  generalize x.rowsAt idx = l at hr
  generalize ({ x with rows := rows' } : RunSetup).rowsAt idx = l' at hr
  induction hr with
  | nil => rfl
  | cons h1 _ ih => rw [List.map_cons, List.map_cons, ih, h1.1]

theorem on_dates {t : Date} {rows' : List DRow} (h : SameUpTo t X.tuning.base.rows rows') :
    (X.on rows').tuning.base.dates = X.tuning.base.dates := (same_dates h).symm

/-- The loaded models depend on the calendar only. -/
theorem loaded_same {t : Date} {rows' : List DRow} (h : SameUpTo t X.tuning.base.rows rows')
    (win : WFWindow) : (X.on rows').loaded win = X.loaded win := by
  funext name sym
  unfold loaded
  rw [on_dates h]
  have : ((X.on rows').tuning.base.rowsAt win.train).map DRow.symbol =
      (X.tuning.base.rowsAt win.train).map DRow.symbol := rowsAt_symbols h win.train
  rw [this]
  rfl

theorem on_ok {t : Date} (hok : PreloadedOK X) {rows' : List DRow}
    (h : SameUpTo t X.tuning.base.rows rows') : PreloadedOK (X.on rows') :=
  fun p => Learner.on_ok (hok p) h

theorem scope_backtest (hok : PreloadedOK X) (p : P) (win : WFWindow) {wd hd : List Date}
    (h1 : ∀ r ∈ X.tuning.base.rows, r.date ∈ wd → r.date ∈ hd)
    (h2 : ∀ a ∈ X.tuning.base.rows, ∀ b ∈ X.tuning.base.rows, a.symbol = b.symbol → a.date ∈ wd →
      a.date ≤ b.date → b.date ∈ hd → b.date ∈ wd) :
    InBacktest X.tuning.base.rows X.tuning.base.cols wd hd
      (X.scope p win ((storeOf X.tuning.base.cols X.tuning.base.rows).slice wd)
        ((storeOf X.tuning.base.cols X.tuning.base.rows).slice hd) wd) := by
  have hu : UniqueBars X.tuning.base.rows := (hok p).setup.unique
  refine ⟨hu, rfl, rfl, h1, h2, (hok p).ordered, ?_, ?_, fun _ _ => Iff.rfl, ?_, ?_,
    ⟨rfl, rfl, rfl, rfl, rfl⟩⟩
  · intro i sym ser hser
    cases hser
    exact seriesOf_sorted hu ((hok p).causal i) sym
  · intro i sym ser _ hser d
    cases hser
    have := seriesOf_dates ((hok p).causal i) X.tuning.base.rows sym
    unfold seriesOf at this
    have hx : (X.learner p).setup.rows = X.tuning.base.rows := rfl
    rw [hx, this, List.mem_map]
    constructor
    · rintro ⟨r, hr, rfl⟩
      have := List.mem_filter.1 ((symRows_perm X.tuning.base.rows sym).mem_iff.1 hr)
      exact ⟨r, this.1, by simpa using this.2, rfl⟩
    · rintro ⟨r, h1, h2, rfl⟩
      exact ⟨r, (symRows_perm X.tuning.base.rows sym).mem_iff.2
        (List.mem_filter.2 ⟨h1, by simpa using h2⟩), rfl⟩
  · intro name src hsrc i hi
    exact ⟨rfl, ((hok p).plain name src hsrc).2 i hi⟩
  · intro name sym tm l h1 h2
    obtain ⟨m, hm, rfl⟩ := Option.map_eq_some_iff.1 h1
    obtain ⟨_, _, hl⟩ := loaded_some hm
    obtain ⟨hne, rfl⟩ := hl l h2
    exact ⟨hne, (hok p).lags name⟩

/-- The bars that can have been given are not after the date. -/
theorem seen_early {rows : List DRow} (hu : UniqueBars rows) (cols : List String) (wd : List Date)
    (given : Sym → Option SymArrays) (d : Date) (sym : Sym) {j : Nat}
    (hj : j ≤ seen ((storeOf cols rows).slice wd) given d sym) :
    ∀ r ∈ (windowBars rows wd sym).take j, r.date ≤ d := by
  intro r hr
  have hj' : j ≤ ((((storeOf cols rows).slice wd).arrays sym).map
      (fun a => (a.dates.filter (· ≤ d)).length)).getD 0 := hj.trans (min_le_right _ _)
  rcases slice_bars_of hu cols wd sym with ⟨h1, h2⟩ | ⟨h1, h2⟩
  · rw [h1] at hr
    simp at hr
  · rw [h2] at hj'
    simp only [Option.map_some, Option.getD_some] at hj'
    have hs : ((windowBars rows wd sym).map DRow.date).Pairwise (· < ·) := by
      rw [List.pairwise_map]
      exact windowBars_sorted hu wd sym
    have hmem : r.date ∈ ((windowBars rows wd sym).map DRow.date).take j := by
      rw [← List.map_take]
      exact List.mem_map.2 ⟨r, hr, rfl⟩
    have hle := (List.take_prefix_take_left hj').subset hmem
    have hd : (barArrays cols (windowBars rows wd sym)).dates = (windowBars rows wd sym).map DRow.date := rfl
    rw [hd, ← List.countP_eq_length_filter, RunSetup.take_count hs] at hle
    simpa using (List.mem_filter.1 hle).2

/-- The predictions read on a bar not after `t` are the same. -/
theorem read_same {t : Date} (hok : PreloadedOK X) {rows' : List DRow}
    (h : SameUpTo t X.tuning.base.rows rows') (p : P) (win : WFWindow) {wd hd : List Date}
    (h1 : ∀ a ∈ X.tuning.base.dates, a ∈ wd → a ∈ hd)
    (h2 : ∀ a ∈ X.tuning.base.dates, ∀ b ∈ X.tuning.base.dates, a ∈ wd → a ≤ b → b ∈ hd → b ∈ wd)
    (given : Sym → Option SymArrays) {d : Date} (hdt : d ≤ t) (name : String) (sym : Sym) :
    (X.on rows').read p win ((storeOf X.tuning.base.cols rows').slice wd)
        ((storeOf X.tuning.base.cols rows').slice hd) wd given d name sym =
      X.read p win ((storeOf X.tuning.base.cols X.tuning.base.rows).slice wd)
        ((storeOf X.tuning.base.cols X.tuning.base.rows).slice hd) wd given d name sym := by
  have hu : UniqueBars X.tuning.base.rows := (hok p).setup.unique
  have hu' : UniqueBars rows' := same_unique h hu
  have hok' := on_ok hok h
  have hdates : rows'.map DRow.date = X.tuning.base.rows.map DRow.date := (same_dates h).symm
  have hb := scope_backtest hok p win (wd := wd) (hd := hd)
    (fun r hr => h1 _ (row_date hr)) (fun a ha b hb' _ => h2 _ (row_date ha) _ (row_date hb'))
  have hb' := scope_backtest hok' p win (wd := wd) (hd := hd)
    (fun r hr => h1 _ (by
      show r.date ∈ X.tuning.base.rows.map DRow.date
      rw [← hdates]
      exact row_date (rows := rows') hr))
    (fun a ha b hb' _ => h2 _ (by
      show a.date ∈ X.tuning.base.rows.map DRow.date
      rw [← hdates]
      exact row_date (rows := rows') ha) _ (by
      show b.date ∈ X.tuning.base.rows.map DRow.date
      rw [← hdates]
      exact row_date (rows := rows') hb'))
  have r1 := model_input_cached hb [] X.junk sym name none
  have r2 := model_input_cached hb' [] X.junk sym name none
  have hload := loaded_same h win
  unfold read
  rw [hload]
  rcases hm : X.loaded win name sym with _ | m
  · rfl
  simp only
  obtain ⟨src, hsrc, _⟩ := loaded_some hm
  obtain ⟨r, hq, hr⟩ := Learner.model_shape X.ordered X.tuning.base.cols src m.2 ((hok p).plain name src hsrc).1
  have hrel := windowBars_rel hu h wd sym
  have n1 : ((X.scope p win ((storeOf X.tuning.base.cols X.tuning.base.rows).slice wd)
      ((storeOf X.tuning.base.cols X.tuning.base.rows).slice hd) wd).fetch X.junk sym name none).1 =
      (modelInput X.tuning.base.rows X.tuning.base.cols wd hd
        (X.scope p win ((storeOf X.tuning.base.cols X.tuning.base.rows).slice wd)
          ((storeOf X.tuning.base.cols X.tuning.base.rows).slice hd) wd) sym name).map
        (fun x => x.slice none) := r1
  have n2 : (((X.on rows').scope p win ((storeOf X.tuning.base.cols rows').slice wd)
      ((storeOf X.tuning.base.cols rows').slice hd) wd).fetch (X.on rows').junk sym name none).1 =
      (modelInput rows' X.tuning.base.cols wd hd
        ((X.on rows').scope p win ((storeOf X.tuning.base.cols rows').slice wd)
          ((storeOf X.tuning.base.cols rows').slice hd) wd) sym name).map (fun x => x.slice none) := r2
  have hseen : seen ((storeOf X.tuning.base.cols rows').slice wd) given d sym =
      seen ((storeOf X.tuning.base.cols X.tuning.base.rows).slice wd) given d sym := by
    unfold seen
    congr 1
    rcases slice_bars_of hu X.tuning.base.cols wd sym with ⟨e1, e2⟩ | ⟨e1, e2⟩ <;>
      rcases slice_bars_of hu' X.tuning.base.cols wd sym with ⟨e1', e2'⟩ | ⟨e1', e2'⟩
    · rw [e2, e2']
    · rw [e1] at hrel
      exact absurd (List.forall₂_nil_left_iff.1 hrel) e1'
    · rw [e1'] at hrel
      exact absurd (List.forall₂_nil_right_iff.1 hrel) e1
    · rw [e2, e2']
      unfold barArrays
      simp only [Option.map_some]
      rw [same_dates hrel]
  rw [n1, n2, hseen]
  by_cases hne : windowBars X.tuning.base.rows wd sym = []
  · have hne' : windowBars rows' wd sym = [] := by
      have := hrel.length_eq
      rw [hne] at this
      exact List.eq_nil_of_length_eq_zero this.symm
    unfold modelInput
    simp only
    rw [if_pos hne, if_pos hne']
    rfl
  · have hne' : windowBars rows' wd sym ≠ [] := by
      intro e
      have := hrel.length_eq
      rw [e] at this
      exact hne (List.eq_nil_of_length_eq_zero this)
    have m1 := hr X.tuning.base.rows wd hd
      (X.scope p win ((storeOf X.tuning.base.cols X.tuning.base.rows).slice wd)
        ((storeOf X.tuning.base.cols X.tuning.base.rows).slice hd) wd)
      sym name rfl hsrc (by
        show (X.loaded win name sym).map Prod.snd = _
        rw [hm]
        rfl) (fun _ _ => rfl) hne
    have m2 := hr rows' wd hd
      ((X.on rows').scope p win ((storeOf X.tuning.base.cols rows').slice wd)
        ((storeOf X.tuning.base.cols rows').slice hd) wd)
      sym name rfl hsrc (by
        show ((X.on rows').loaded win name sym).map Prod.snd = _
        rw [hload, hm]
        rfl) (fun _ _ => rfl) hne'
    rw [m1, m2]
    rcases r with e | q
    · rfl
    · simp only [Except.map, Learner.slice_none]
      have hrow : ∀ g, q.1.2.2 = some g → RowFn g :=
        fun g hg => ((hok p).plain name src hsrc).1 g (hq q g rfl hg)
      refine (Learner.predictions_same (hok p) name m.1 ?_ ?_).symm
      · exact congrArg List.length (Learner.windowInput_dates hu h _ _ _ _ _ sym q hrow)
      · intro j hj
        exact Learner.windowInput_same hu h (hok p).causal X.tuning.base.cols _ _ sym q hrow
          (fun r hr => le_trans (seen_early hu _ wd given d sym hj r hr) hdt)

/-- The predictions a function can read on a date not after `t` are the same. -/
theorem preds_same {t : Date} (hok : PreloadedOK X) {rows' : List DRow}
    (h : SameUpTo t X.tuning.base.rows rows') (p : P) (k : Nat) {d : Date} (hdt : d ≤ t) :
    (X.on rows').preds p k d = X.preds p k d := by
  have hdd := on_dates h
  have hso := (hok p).setup
  funext given name sym
  unfold preds
  have hw : walkforwardSplit (X.on rows').tuning.base.dates (X.on rows').tuning.base.windows
      (X.on rows').tuning.base.lookahead (X.on rows').tuning.base.trainSize id =
      walkforwardSplit X.tuning.base.dates X.tuning.base.windows X.tuning.base.lookahead
        X.tuning.base.trainSize id := by
    rw [hdd]
    rfl
  rw [hw, hdd]
  rcases hwins : walkforwardSplit X.tuning.base.dates X.tuning.base.windows X.tuning.base.lookahead
      X.tuning.base.trainSize id with e | wins
  · rfl
  simp only
  rcases hk : wins[k]? with _ | win
  · rfl
  simp only
  by_cases hd : d ∈ datesOfRows X.tuning.base.dates win.train
  · rw [if_pos hd, if_pos hd]
    obtain ⟨i, hi, _⟩ := mem_datesOfRows.1 hd
    have htr : win.train ≠ [] := List.ne_nil_of_mem hi
    unfold readTrial
    simp only
    rw [windowStores_train, windowStores_train, if_neg htr, if_neg htr, hdd]
    exact read_same hok h p win (fun _ _ h => h) (fun _ _ _ _ _ _ h => h) given hdt name sym
  · rw [if_neg hd, if_neg hd]
    by_cases hd2 : d ∈ datesOfRows X.tuning.base.dates win.test
    · rw [if_pos hd2, if_pos hd2]
      obtain ⟨i, hi, hid⟩ := mem_datesOfRows.1 hd2
      have hte : win.test ≠ [] := List.ne_nil_of_mem hi
      have hne : X.tuning.base.dates ≠ [] := List.ne_nil_of_mem (List.mem_of_getElem? hid)
      unfold readTest
      simp only
      rw [windowStores_test, windowStores_test, if_neg hte, if_neg hte, hdd]
      simp only
      by_cases htr : win.train = []
      · have hnone : ∀ (Y : Preloaded M P) (st hist : Store) (w : List Date),
            Y.read p win st hist w given d name sym = none := by
          intro Y st hist w
          unfold read loaded
          rw [htr]
          have : Y.tuning.base.rowsAt [] = [] := rfl
          rw [this]
          cases Y.source name <;> simp
        rw [hnone, hnone]
      · have hf := window_facts (fun l => List.Perm.refl l) hso.size.1 hso.size.2 hwins
          (List.mem_of_getElem? hk) htr hte hne
        rw [windowStores_history _ _ _ htr hte, windowStores_history _ _ _ htr hte]
        exact read_same hok h p win hf.test_in hf.test_up given hdt name sym
    · rw [if_neg hd2, if_neg hd2]

theorem act_same {t : Date} (hok : PreloadedOK X) {rows' : List DRow}
    (h : SameUpTo t X.tuning.base.rows rows') (hist : List P) (p : P) (k : Nat) (d : Date) (hdt : d ≤ t) :
    (X.on rows').toTuning.act hist p k d = X.toTuning.act hist p k d := by
  unfold toTuning
  simp only
  rw [preds_same hok h p k hdt]
  rfl

end Preloaded

/-! ## The claims -/

/-- **C162.**  The loaded models of a window: one for each registered model and each symbol with a bar
in the window's training data, made by the registered function from the first and last training
dates. -/
theorem pretrained_models {M P : Type} (X : Preloaded M P) (win : WFWindow) (name : String) (sym : Sym) :
    (X.loaded win name sym ≠ none ↔ X.source name ≠ none ∧
      ∃ i ∈ win.train, ∃ r, X.tuning.base.rows[i]? = some r ∧ r.symbol = sym) ∧
    ∀ m, X.loaded win name sym = some m →
      ∃ first last, (datesOfRows X.tuning.base.dates win.train).head? = some first ∧
        (datesOfRows X.tuning.base.dates win.train).getLast? = some last ∧
        m.1 = (X.load name sym first last).1 ∧ m.2.inputCols = (X.load name sym first last).2 := by
  have hin : sym ∈ (X.tuning.base.rowsAt win.train).map DRow.symbol ↔
      ∃ i ∈ win.train, ∃ r, X.tuning.base.rows[i]? = some r ∧ r.symbol = sym := by
    rw [List.mem_map]
    constructor
    · rintro ⟨r, hr, rfl⟩
      obtain ⟨i, hi, h⟩ := RunSetup.mem_rowsAt.1 hr
      exact ⟨i, hi, r, h, rfl⟩
    · rintro ⟨i, hi, r, h, rfl⟩
      exact ⟨r, RunSetup.mem_rowsAt.2 ⟨i, hi, h⟩, rfl⟩
  unfold Preloaded.loaded
  rcases hs : X.source name with _ | src
  · simp
  simp only
  by_cases h : sym ∈ (X.tuning.base.rowsAt win.train).map DRow.symbol
  · rw [if_pos h]
    refine ⟨⟨fun _ => ⟨by simp, hin.1 h⟩, fun _ => by simp⟩, ?_⟩
    rintro m hm
    cases hm
    obtain ⟨i, hi, r, hr, _⟩ := hin.1 h
    have hne : datesOfRows X.tuning.base.dates win.train ≠ [] :=
      List.ne_nil_of_mem (mem_datesOfRows.2 ⟨i, hi, RunSetup.dates_get.2 ⟨r, hr, rfl⟩⟩)
    obtain ⟨a, l, hl⟩ := List.exists_cons_of_ne_nil hne
    refine ⟨a, (a :: l).getLast (by simp), ?_, ?_, ?_, ?_⟩
    · rw [hl]; rfl
    · rw [hl, List.getLast?_eq_some_getLast (by simp)]
    · simp only [hl, List.headD_cons, List.getLastD_cons, List.getLast_eq_getLastD]
    · simp only [hl, List.headD_cons, List.getLastD_cons, List.getLast_eq_getLastD]
  · rw [if_neg h]
    refine ⟨⟨fun hc => absurd rfl hc, fun hc => absurd (hin.2 hc.2) h⟩, fun m hm => nomatch hm⟩

/-- On a bar, a function has been given exactly the bars counted by `seen`. -/
theorem seen_given {x : RunSetup} (hu : UniqueBars x.rows) (window : List Date) (selected : List Sym)
    (d : Date) (sym : Sym) :
    Preloaded.seen (x.store window) (fun s => ((x.store window).arrays s).map
      (fun a => a.upTo (x.idxOn window selected d s))) d sym =
      x.idxOn window selected d sym := by
  unfold Preloaded.seen
  beta_reduce
  rw [RunSetup.idxOn_eq hu]
  rcases RunSetup.store_arrays hu window sym with ⟨h1, h2⟩ | ⟨_, a, ha, hda⟩
  · rw [h2, h1]
    simp
  · rw [ha]
    simp only [Option.map_some, Option.getD_some]
    have : ∀ n, (a.upTo n).dates = a.dates.take n := fun _ => rfl
    rw [this, hda, List.length_take, ← List.countP_eq_length_filter]
    have hle : (x.barsOn window sym).countP (· ≤ d) ≤ (x.barsOn window sym).length :=
      List.countP_le_length
    split <;> omega

/-- **C162.**  What a function reads of a pretrained model on a bar, in a trial or in the test of its
window, depends on no value dated later. -/
theorem pretrained_predictions {M P : Type} {X : Preloaded M P} (hok : PreloadedOK X) {t : Date}
    {rows' : List DRow} (h : SameUpTo t X.tuning.base.rows rows') (p : P) (k : Nat) {d : Date}
    (hd : d ≤ t) (given : Sym → Option SymArrays) (name : String) (sym : Sym) :
    (X.on rows').preds p k d given name sym = X.preds p k d given name sym := by
  rw [Preloaded.preds_same hok h p k hd]

/-- **C162.**  The study of a window depends on no value dated after its training data, whatever is
tuned: the settings, the indicators, or what is done with the predictions. -/
theorem pretrained_study {M P : Type} {X : Preloaded M P} (hok : PreloadedOK X)
    (hset : SetupOK X.tuning.base) {kw : WFWindow × Nat} {t : Date}
    (htrain : ∀ d ∈ datesOfRows X.tuning.base.dates kw.1.train, d ≤ t) {rows' : List DRow}
    (h : SameUpTo t X.tuning.base.rows rows') (prior : List (Trial P)) :
    (X.on rows').toTuning.windowStudy prior kw = X.toTuning.windowStudy prior kw :=
  Tuning.study_early (T := X.toTuning) (act' := (X.on rows').toTuning.act)
    (orderSlip' := X.tuning.orderSlip) (exitSlip' := X.tuning.exitSlip) hset h
    (Preloaded.act_same hok h) (fun _ _ _ _ _ => rfl) (fun _ _ _ _ _ => rfl) htrain prior

/-- **C162, partial.**  A walkforward optimization with pretrained models does not look ahead: the
values chosen for a window that has begun by a date, and each bar of the replay up to that date, depend
on no value dated later.  Missing: what `tuning_no_lookahead_partial` leaves out (`Prompt`), models
or input functions that are not row by row (`model_window_sees_ahead`, `input_function_sees_ahead`). -/
theorem pretrained_no_lookahead_partial {M P : Type} {X : Preloaded M P} (hok : PreloadedOK X)
    (hset : SetupOK X.tuning.base)
    (hts : 0 < X.tuning.base.trainSize ∧ X.tuning.base.trainSize < 1) {t : Date} {rows' : List DRow}
    (h : SameUpTo t X.tuning.base.rows rows') {rs rs' : List (Tuned P)} {st st' : RunSetup.State}
    (h1 : X.toTuning.optimizeWalk = .ok (rs, st))
    (h2 : (X.on rows').toTuning.optimizeWalk = .ok (rs', st'))
    (hdrop : Prompt { X.tuning.base with shuffle := id } t) :
    (∀ (wins : List WFWindow) (k : Nat) (win : WFWindow),
      walkforwardSplit X.tuning.base.dates X.tuning.base.windows X.tuning.base.lookahead
        X.tuning.base.trainSize id = .ok wins →
      wins[k]? = some win → (∃ d ∈ datesOfRows X.tuning.base.dates win.test, d ≤ t) →
      rs[k]? = rs'[k]?) ∧
    st.trace.filter (fun e => e.1 ≤ t) = st'.trace.filter (fun e => e.1 ≤ t) :=
  tuning_no_lookahead_partial (T := X.toTuning) (act' := (X.on rows').toTuning.act)
    (orderSlip' := X.tuning.orderSlip) (exitSlip' := X.tuning.exitSlip) hset hts h
    (Preloaded.act_same hok h) (fun _ _ _ _ _ => rfl) (fun _ _ _ _ _ => rfl) h1 h2 hdrop

/-- **C162, partial.**  Nor does an optimization on a single split.  Missing: models
or input functions that are not row by row. -/
theorem pretrained_split_partial {M P : Type} {X : Preloaded M P} (hok : PreloadedOK X)
    (hset : SetupOK X.tuning.base) (_hone : X.tuning.base.windows = 1)
    (hts : 0 < X.tuning.base.trainSize ∧ X.tuning.base.trainSize < 1) {t : Date} {rows' : List DRow}
    (h : SameUpTo t X.tuning.base.rows rows') {prior : List (Trial P)} {r r' : Tuned P}
    {st st' : RunSetup.State} (h1 : X.toTuning.optimizeOnce prior = .ok (r, st))
    (h2 : (X.on rows').toTuning.optimizeOnce prior = .ok (r', st')) :
    ((∃ e ∈ st.trace, e.1 ≤ t) → r = r') ∧
      st.trace.filter (fun e => e.1 ≤ t) = st'.trace.filter (fun e => e.1 ≤ t) :=
  split_no_lookahead (T := X.toTuning) (act' := (X.on rows').toTuning.act)
    (orderSlip' := X.tuning.orderSlip) (exitSlip' := X.tuning.exitSlip) hset hts h
    (Preloaded.act_same hok h) (fun _ _ _ _ _ => rfl) (fun _ _ _ _ _ => rfl) h1 h2

/-! ## Examples -/

example : refusedModels (fun n => n == "b" || n == "a") [["b@weekly", "c"], ["a", "b"]] =
    some ["a", "b"] := by decide +kernel

namespace Demo

/-- The strategy of `tuRun` with a model loaded for each window: it holds the first training date.  On a
bar where the model's last prediction is positive it buys `p` shares. -/
def ptRun (rows : List DRow) (n : Nat := 2) : Preloaded ℚ Nat where
  tuning := { tuRun with base := { tuRun.base with rows := rows, windows := n } }
  ordered := ["date", "open", "high", "low", "close"]
  ind _ _ := sum2
  source name := if name = "m" then some ⟨["sum2"], some 1, false, none⟩ else none
  lagCols _ := ["close"]
  load _ _ first _ := (90 + first, some ["close"])
  predict _ m x := lnPredict m x
  user _ p _ d preds _ _ _ := ([], fun s =>
    match preds "m" s with
    | some l => if 0 < (l.getLastD none).getD 0 then
        some { symbol := s, date := d, buyShares := some p } else none
    | none => none)

theorem ptRun_set (n : Nat) : SetupOK (ptRun tuRun.base.rows n).tuning.base :=
  ⟨tuRun_ok.unique, le_refl 1, le_refl 1, tuRun_ok.size, tuRun_ok.iter, tuRun_ok.shuffle⟩

theorem ptRun_ok (n : Nat) : PreloadedOK (ptRun tuRun.base.rows n) := fun p =>
  { setup := ptRun_set n
    ordered := by show (["date", "open", "high", "low", "close"] : List String).Nodup; decide
    data := ⟨"close", by show "close" ∈ ["date", "open", "high", "low", "close"]; decide,
      by show "close" ∈ ["open", "high", "low", "close"]; decide, by decide, by decide⟩
    causal := fun _ => sum2_causal
    plain := by
      intro name src h
      by_cases hn : name = "m"
      · simp only [Preloaded.learner, ptRun, if_pos hn, Option.some.injEq] at h
        subst h
        refine ⟨(fun _ h => nomatch h), ?_⟩
        show ∀ i ∈ ["sum2"], i ∉ ["open", "high", "low", "close"] ∧ i ≠ "date"
        decide
      · simp only [Preloaded.learner, ptRun, if_neg hn, reduceCtorEq] at h
    lags := fun _ => by show "date" ∉ ["close"]; decide
    blind := fun _ _ _ _ _ _ => rfl
    blindPool := fun _ _ _ _ _ _ => rfl
    rowwise := fun _ m _ x => lnPredict_rows m x }

end Demo

/-- Two windows; the prices differ from date 8 on. -/
example := pretrained_no_lookahead_partial (X := Demo.ptRun Demo.tuRun.base.rows) (Demo.ptRun_ok 2)
  (Demo.ptRun_set 2) Demo.tuRun_size (t := 7) (rows' := Demo.tuLate.base.rows) Demo.tu_late
  (rs := (Demo.tuEnd (Demo.ptRun Demo.tuRun.base.rows).toTuning).1)
  (st := (Demo.tuEnd (Demo.ptRun Demo.tuRun.base.rows).toTuning).2)
  (rs' := (Demo.tuEnd (Demo.ptRun Demo.tuLate.base.rows).toTuning).1)
  (st' := (Demo.tuEnd (Demo.ptRun Demo.tuLate.base.rows).toTuning).2)
  (Demo.ok_okT (by decide +kernel)) (Demo.ok_okT (by decide +kernel)) (Demo.tu_prompt 7)

example : ((Demo.tuEnd (Demo.ptRun Demo.tuRun.base.rows).toTuning).2.trace.map
    (fun e => (e.1, e.2.pf.cash)) =
      [(5, 10000), (6, 9600), (7, 9600), (8, 9600), (9, 9600), (10, 9000)]) ∧
    (Demo.tuEnd (Demo.ptRun Demo.tuLate.base.rows).toTuning).2.trace.map
    (fun e => (e.1, e.2.pf.cash)) =
      [(5, 10000), (6, 9600), (7, 9600), (8, 9600), (9, 9600), (10, 9500)] := by decide +kernel

/-- Date 4 is the last training date of the first window: the study sees nothing after it. -/
example := pretrained_study (X := Demo.ptRun Demo.tuRun.base.rows) (Demo.ptRun_ok 2)
  (Demo.ptRun_set 2)
  (kw := (⟨[1, 2, 3], [4, 5, 6]⟩, 0)) (t := 7) (by
    show ∀ d ∈ datesOfRows Demo.tuRun.base.dates [1, 2, 3], _
    rw [Demo.tu_train]
    decide) Demo.tu_late []

/-- A single split. -/
example := pretrained_split_partial (X := Demo.ptRun Demo.tuRun.base.rows 1) (Demo.ptRun_ok 1)
  (Demo.ptRun_set 1) rfl Demo.tuRun_size (t := 7) (rows' := Demo.tuLate.base.rows) Demo.tu_late
  (prior := []) (r := (Demo.tuOnce (Demo.ptRun Demo.tuRun.base.rows 1).toTuning).1)
  (st := (Demo.tuOnce (Demo.ptRun Demo.tuRun.base.rows 1).toTuning).2)
  (r' := (Demo.tuOnce (Demo.ptRun Demo.tuLate.base.rows 1).toTuning).1)
  (st' := (Demo.tuOnce (Demo.ptRun Demo.tuLate.base.rows 1).toTuning).2)
  (Demo.ok_okT (by decide +kernel)) (Demo.ok_okT (by decide +kernel))

/-- The model of the first window of `AAA`, loaded for the dates 2 to 4. -/
example : ((Demo.ptRun Demo.tuRun.base.rows).loaded ⟨[1, 2, 3], [4, 5, 6]⟩ "m" "AAA").map Prod.fst =
    some 92 := by decide +kernel

end PyBroker
