import Verif.Optimize.Tune
import Verif.Props.Lookahead
import Verif.Props.Books

/-!
# Optimizing a strategy (C101 to C105)
-/

namespace PyBroker

namespace Spec

/-- The same bars, with the same values on the dates `ds`. -/
def SameOn (ds : List Date) : List DRow → List DRow → Prop :=
  List.Forall₂ (fun r r' => r.symbol = r'.symbol ∧ r.date = r'.date ∧ (r.date ∈ ds → r.val = r'.val))

end Spec

open PyBroker.Spec

/-! ## Settings -/

namespace Spec

/-- The settings of a run: the strategy's own limits come before those of the configuration; a
limit is positive; a rotation sizer needs a worst rank; a worst rank needs a limit and is not
below any. -/
structure SettingsOf (sizer : Bool) (confLong confShort : Option Int) (own s : OwnSettings) : Prop where
  long : ∀ m, s.maxLong = some m ↔ own.maxLong = some m ∨ (own.maxLong = none ∧ confLong = some m)
  short : ∀ m, s.maxShort = some m ↔ own.maxShort = some m ∨ (own.maxShort = none ∧ confShort = some m)
  worst : s.worst = own.worst
  longPos : ∀ m, s.maxLong = some m → 0 < m
  shortPos : ∀ m, s.maxShort = some m → 0 < m
  sized : sizer = true → ∃ w, s.worst = some w
  some_limit : ∀ w, s.worst = some w → ∃ m, s.maxLong = some m ∨ s.maxShort = some m
  longRank : ∀ w m, s.worst = some w → s.maxLong = some m → m ≤ w
  shortRank : ∀ w m, s.worst = some w → s.maxShort = some m → m ≤ w

end Spec

/-- **C106.**  The settings of a run are exactly those described; otherwise an error is raised. -/
theorem settings_iff (sizer : Bool) (conf : Option Int × Option Int) (own s : OwnSettings) :
    resolveSettings sizer conf own = some s ↔ SettingsOf sizer conf.1 conf.2 own s := by
  obtain ⟨cl, cs⟩ := conf
  obtain ⟨ol, os, ow⟩ := own
  obtain ⟨sl, ss, sw⟩ := s
  have key : ∀ (c o l : Option Int), (∀ m, l = some m ↔ o = some m ∨ (o = none ∧ c = some m)) ↔
      l = ownLimit c o := by
    intro c o l
    constructor
    · intro h
      ext m
      rw [h m]
      rcases c with _ | c <;> rcases o with _ | o <;> simp [ownLimit]
    · rintro rfl m
      rcases c with _ | c <;> rcases o with _ | o <;> simp [ownLimit]
  have fwd : SettingsOf sizer cl cs ⟨ol, os, ow⟩ ⟨sl, ss, sw⟩ ↔
      (∀ m, sl = some m ↔ ol = some m ∨ (ol = none ∧ cl = some m)) ∧
      (∀ m, ss = some m ↔ os = some m ∨ (os = none ∧ cs = some m)) ∧ sw = ow ∧
      (∀ m, sl = some m → 0 < m) ∧ (∀ m, ss = some m → 0 < m) ∧
      (sizer = true → ∃ w, sw = some w) ∧ (∀ w, sw = some w → ∃ m, sl = some m ∨ ss = some m) ∧
      (∀ w m, sw = some w → sl = some m → m ≤ w) ∧ (∀ w m, sw = some w → ss = some m → m ≤ w) :=
    ⟨fun ⟨a, b, c, d, e, f, g, h, i⟩ => ⟨a, b, c, d, e, f, g, h, i⟩,
      fun ⟨a, b, c, d, e, f, g, h, i⟩ => ⟨a, b, c, d, e, f, g, h, i⟩⟩
  rw [fwd, key, key]
  unfold resolveSettings worstOk
  simp only
  generalize ownLimit cl ol = L
  generalize ownLimit cs os = S
  clear key fwd
  rcases L with _ | l <;> rcases S with _ | sh <;> rcases ow with _ | w <;> cases sizer <;>
    simp <;> grind

namespace Spec

/-- `x` is the run with values `p`, after windows run with the values `hist`: the settings of
these values, and user code and slippage models that are given them. -/
def RunOf {P : Type} (T : Tuning P) (hist : List P) (p : P) (x : RunSetup) : Prop :=
  ∃ s, SettingsOf T.sizer (T.base.cfg.maxLong.map Int.ofNat) (T.base.cfg.maxShort.map Int.ofNat)
      (T.own p) s ∧
    x = { T.base with
      cfg := { T.base.cfg with maxLong := s.maxLong.map Int.toNat, maxShort := s.maxShort.map Int.toNat }
      act := T.act hist p
      orderSlip := T.orderSlip hist p
      exitSlip := T.exitSlip hist p
      shuffle := id }

end Spec

theorem Tuning.setup_runOf {P : Type} {T : Tuning P} {p : P} {s : OwnSettings}
    (h : T.settings p = some s) (hist : List P) : RunOf T hist p (T.setup hist p) := by
  refine ⟨s, (settings_iff _ _ _ _).1 h, ?_⟩
  unfold Tuning.setup
  rw [h]

theorem Tuning.runOf_setup {P : Type} {T : Tuning P} {p : P} {hist : List P} {x : RunSetup}
    (h : RunOf T hist p x) : x = T.setup hist p ∧ ∃ s, T.settings p = some s := by
  obtain ⟨s, hs, rfl⟩ := h
  have := (settings_iff T.sizer (T.base.cfg.maxLong.map Int.ofNat, T.base.cfg.maxShort.map Int.ofNat)
    (T.own p) s).2 hs
  refine ⟨?_, s, this⟩
  unfold Tuning.setup
  have h' : T.settings p = some s := this
  rw [h']

/-! ## The same bars on some dates -/

theorem sameOn_shape {ds : List Date} {rows rows' : List DRow} (h : SameOn ds rows rows') :
    ∃ t, SameUpTo t rows rows' := by
  have key : ∀ l : List DRow, ∃ t : Date, ∀ r ∈ l, t < r.date := by
    intro l
    induction l with
    | nil => exact ⟨0, fun r hr => nomatch hr⟩
    | cons a l ih =>
      obtain ⟨t, ht⟩ := ih
      refine ⟨min t (a.date - 1), ?_⟩
      intro r hr
      rcases List.mem_cons.1 hr with rfl | hr
      · exact lt_of_le_of_lt (min_le_right _ _) (Int.sub_one_lt_of_le (le_refl r.date))
      · exact lt_of_le_of_lt (min_le_left _ _) (ht r hr)
  obtain ⟨t, ht⟩ := key rows
  refine ⟨t, ?_⟩
  unfold SameUpTo
  unfold SameOn at h
  induction h with
  | nil => exact .nil
  | cons hab _ ih =>
    refine .cons ⟨hab.1, hab.2.1, fun hd => ?_⟩ (ih (fun r hr => ht r (List.mem_cons_of_mem _ hr)))
    exact absurd hd (not_le.2 (ht _ List.mem_cons_self))

theorem sameOn_all {ds : List Date} : ∀ {l l' : List DRow}, SameOn ds l l' →
    (∀ r ∈ l, r.date ∈ ds) → l = l'
  | _, _, .nil, _ => rfl
  | a :: l, b :: l', .cons hab ht, h => by
    rw [sameOn_all ht (fun r hr => h r (List.mem_cons_of_mem _ hr))]
    have := hab.2.2 (h a List.mem_cons_self)
    obtain ⟨s, d, v⟩ := a
    obtain ⟨s', d', v'⟩ := b
    obtain ⟨h1, h2, _⟩ := hab
    simp only at h1 h2 this
    rw [h1, h2, this]

/-- The data of these dates is the same. -/
theorem sameOn_store {ds : List Date} {rows rows' : List DRow} (hu : UniqueBars rows)
    (h : SameOn ds rows rows') (cols : List String) :
    (storeOf cols rows).slice ds = (storeOf cols rows').slice ds := by
  obtain ⟨t, ht⟩ := sameOn_shape h
  have hu' := same_unique ht hu
  have hs := (slice_shape (storeOf_shape ht cols) ds).1
  have ha : ((storeOf cols rows).slice ds).arrays = ((storeOf cols rows').slice ds).arrays := by
    funext sym
    have hf : (symRows rows sym).filter (fun r => r.date ∈ ds) =
        (symRows rows' sym).filter (fun r => r.date ∈ ds) := by
      refine sameOn_all (ds := ds) (forall₂_filter (fun a b hab => by rw [hab.2.1])
        (symRows_rel (fun _ _ h => h.2.1) (fun _ _ h => h.1) h sym)) ?_
      intro r hr
      simpa using (List.mem_filter.1 hr).2
    rcases slice_arrays hu cols ds sym with ⟨e1, a1⟩ | ⟨e1, a, a1, a2, a3⟩ <;>
      rcases slice_arrays hu' cols ds sym with ⟨e1', a1'⟩ | ⟨e1', a', a1', a2', a3'⟩
    · rw [a1, a1']
    · exact absurd (hf ▸ e1) e1'
    · exact absurd (hf ▸ e1') e1
    · rw [a1, a1']
      obtain ⟨d1, c1⟩ := a
      obtain ⟨d2, c2⟩ := a'
      simp only at a2 a2' a3 a3'
      have hd : d1 = d2 := by rw [a2, a2', hf]
      have hc : c1 = c2 := by
        funext c
        rw [a3, a3', hf]
      rw [hd, hc]
  rcases e : (storeOf cols rows).slice ds with ⟨s1, a1⟩
  rcases e' : (storeOf cols rows').slice ds with ⟨s2, a2⟩
  rw [e, e'] at hs ha
  simp only at hs ha
  rw [hs, ha]

namespace RunSetup

variable {x : RunSetup} {rows' : List DRow} {act' : Nat → Date → (Sym → Option SymArrays) → Loop → List Sym →
      List UserOp × (Sym → Option ExecResult)} {orderSlip' : Nat → Date → Option SlipModel}
    {exitSlip' : Nat → Date → Option SlipFn}

theorem each_congr {α β : Type} {f g : β → α → Except RunErr β} : ∀ {l : List α} {b : β},
    (∀ a ∈ l, ∀ b, f b a = g b a) → each f b l = each g b l := by
  intro l
  induction l with
  | nil =>
    intro b _
    rfl
  | cons a l ih =>
    intro b h
    unfold each
    rw [h a List.mem_cons_self b]
    split
    · rfl
    · exact ih (fun c hc => h c (List.mem_cons_of_mem _ hc))

/-- A bar uses functions and slippage models on its own date only. -/
theorem bar_congr {k : Nat} {d : Date} (hact : act' k d = x.act k d)
    (ho : orderSlip' k d = x.orderSlip k d) (he : exitSlip' k d = x.exitSlip k d) (w : Window)
    (store : Store) (cal : List Date) (sd : List (Sym × List Date)) (st : State) :
    (x.alter x.rows act' orderSlip' exitSlip').bar k w store cal sd st d =
      x.bar k w store cal sd st d := by
  unfold bar
  simp only
  have henv : ∀ idx, (x.alter x.rows act' orderSlip' exitSlip').barEnv k store idx d =
      x.barEnv k store idx d := by
    intro idx
    unfold barEnv
    simp only
    rw [ho, he]
    rfl
  rw [henv, hact]
  rfl

theorem rowsAt_sameOn {ds : List Date} (h : SameOn ds x.rows rows') (idx : List Nat) :
    SameOn ds (x.rowsAt idx) (idx.filterMap (fun i => rows'[i]?)) := by
  have hlen : x.rows.length = rows'.length := List.Forall₂.length_eq h
  unfold rowsAt
  induction idx with
  | nil => exact .nil
  | cons i idx ih =>
    by_cases hi : i < x.rows.length
    · rw [List.filterMap_cons_some (List.getElem?_eq_getElem hi),
        List.filterMap_cons_some (List.getElem?_eq_getElem (by omega : i < rows'.length))]
      exact .cons (List.Forall₂.get h hi (by omega)) ih
    · rw [List.filterMap_cons_none (List.getElem?_eq_none (by omega)),
        List.filterMap_cons_none (List.getElem?_eq_none (by omega))]
      exact ih

/-- The rows of a window are the same when the values on its dates are. -/
theorem rowsAt_train {idx : List Nat} (h : SameOn (datesOfRows x.dates idx) x.rows rows') :
    x.rowsAt idx = idx.filterMap (fun i => rows'[i]?) := by
  refine sameOn_all (rowsAt_sameOn h idx) ?_
  intro r hr
  obtain ⟨i, hi, hir⟩ := mem_rowsAt.1 hr
  exact mem_datesOfRows.2 ⟨i, hi, dates_get.2 ⟨r, hir, rfl⟩⟩

/-- A backtest on some rows depends on the data of their dates only. -/
theorem runOn_same (hu : UniqueBars x.rows) {k : Nat} {selected : List Sym} {idx : List Nat}
    (h : SameOn (datesOfRows x.dates idx) x.rows rows')
    (hact : ∀ d ∈ datesOfRows x.dates idx, act' k d = x.act k d)
    (ho : ∀ d ∈ datesOfRows x.dates idx, orderSlip' k d = x.orderSlip k d)
    (he : ∀ d ∈ datesOfRows x.dates idx, exitSlip' k d = x.exitSlip k d) :
    (x.alter rows' act' orderSlip' exitSlip').runOn k selected idx = x.runOn k selected idx := by
  obtain ⟨t, ht⟩ := sameOn_shape h
  unfold runOn
  simp only
  rw [dates_same ht, ← sameOn_store hu h, window]
  have hm := (storeOf_shape ht x.cols).2
  unfold window
  simp only [← hm]
  have hr : (x.alter rows' act' orderSlip' exitSlip').rowsAt idx = x.rowsAt idx := (rowsAt_train h).symm
  rw [hr]
  apply each_congr
  intro d hd b
  have hd' : d ∈ datesOfRows x.dates idx := ((mem_calendar hu).1 hd).1
  exact bar_congr (x := { x with rows := x.rowsAt idx }) (hact d hd') (ho d hd') (he d hd') _ _ _ _ _

end RunSetup

namespace Tuning

variable {P : Type} {T : Tuning P}

/-- The same optimization on other data, with other user code. -/
abbrev alter (T : Tuning P) (rows' : List DRow)
    (act' : List P → P → Nat → Date → (Sym → Option SymArrays) → Loop → List Sym →
      List UserOp × (Sym → Option ExecResult))
    (orderSlip' : List P → P → Nat → Date → Option SlipModel)
    (exitSlip' : List P → P → Nat → Date → Option SlipFn) : Tuning P :=
  { T with base := { T.base with rows := rows' }, act := act', orderSlip := orderSlip'
           exitSlip := exitSlip' }

variable {rows' : List DRow}
    {act' : List P → P → Nat → Date → (Sym → Option SymArrays) → Loop → List Sym →
      List UserOp × (Sym → Option ExecResult)}
    {orderSlip' : List P → P → Nat → Date → Option SlipModel}
    {exitSlip' : List P → P → Nat → Date → Option SlipFn}

theorem setup_alter (hist : List P) (p : P) :
    (T.alter rows' act' orderSlip' exitSlip').setup hist p =
      (T.setup hist p).alter rows' (act' hist p) (orderSlip' hist p) (exitSlip' hist p) := rfl

theorem study_same (k : Nat) (score : P → Except TuneErr TrialScore) : ∀ (n : Nat) (h : List (Trial P)),
    (T.alter rows' act' orderSlip' exitSlip').study k score n h = T.study k score n h
  | 0, _ => rfl
  | n + 1, h => by
    unfold study
    simp only
    split
    · rfl
    · split
      · rfl
      · exact study_same k score n _

theorem best_same : ∀ h : List (Trial P), (T.alter rows' act' orderSlip' exitSlip').best h = T.best h
  | [] => rfl
  | tr :: h => by
    unfold best
    rw [best_same h]
    rfl

end Tuning

/-! ## What the choice depends on -/

/-- **C101.**  The trials of a window, their scores and the values chosen are the same for any
data with the same bars and the same values on the training dates of the window, and for any
user code and slippage models that agree on those dates. -/
theorem tuning_uses_training {P : Type} {T : Tuning P} (hu : UniqueBars T.base.rows)
    {rows' : List DRow}
    {act' : List P → P → Nat → Date → (Sym → Option SymArrays) → Loop → List Sym →
      List UserOp × (Sym → Option ExecResult)}
    {orderSlip' : List P → P → Nat → Date → Option SlipModel}
    {exitSlip' : List P → P → Nat → Date → Option SlipFn} {kw : WFWindow × Nat}
    (hrows : SameOn (datesOfRows T.base.dates kw.1.train) T.base.rows rows')
    (hact : ∀ p, ∀ d ∈ datesOfRows T.base.dates kw.1.train, act' [] p kw.2 d = T.act [] p kw.2 d)
    (ho : ∀ p, ∀ d ∈ datesOfRows T.base.dates kw.1.train,
      orderSlip' [] p kw.2 d = T.orderSlip [] p kw.2 d)
    (he : ∀ p, ∀ d ∈ datesOfRows T.base.dates kw.1.train,
      exitSlip' [] p kw.2 d = T.exitSlip [] p kw.2 d) (prior : List (Trial P)) :
    Tuning.windowStudy { T with base := { T.base with rows := rows' }, act := act'
                                orderSlip := orderSlip', exitSlip := exitSlip' } prior kw =
      T.windowStudy prior kw := by
  have hr : ({ T.base with rows := rows' } : RunSetup).rowsAt kw.1.train = T.base.rowsAt kw.1.train :=
    (RunSetup.rowsAt_train hrows).symm
  unfold Tuning.windowStudy
  have hsel : (T.alter rows' act' orderSlip' exitSlip').select kw.1 = T.select kw.1 := by
    unfold Tuning.select
    simp only
    rw [hr]
  simp only
  rw [hsel]
  split
  · rfl
  · rename_i selected _
    have ht : (T.alter rows' act' orderSlip' exitSlip').trial kw.2 selected kw.1.train =
        T.trial kw.2 selected kw.1.train := by
      funext p
      unfold Tuning.trial
      rw [Tuning.setup_alter, RunSetup.runOn_same (x := T.setup [] p) hu hrows (hact p) (ho p) (he p)]
      simp only
      rw [hr]
      rfl
    rw [ht, Tuning.study_same]
    simp only [Tuning.best_same]

/-! ## The best trial -/

namespace Spec

/-- `v` is the value of a first best trial, with values `p`. -/
def FirstBest {P : Type} (maximize : Bool) (trials : List (Trial P)) (p : P) (v : ℚ) : Prop :=
  ∃ before after, trials = before ++ ⟨p, some v⟩ :: after ∧
    (∀ tr ∈ before, ∀ u, tr.value = some u → if maximize then u < v else v < u) ∧
    ∀ tr ∈ after, ∀ u, tr.value = some u → if maximize then u ≤ v else v ≤ u

/-- The value is the score of a backtest with values `p` on the training rows of a window, with a
new portfolio and the settings of these values; its bars are the training dates. -/
def Scored {P : Type} (T : Tuning P) (kw : WFWindow × Nat) (p : P) (value : TrialScore) : Prop :=
  ∃ selected x st, T.select kw.1 = .ok selected ∧ RunOf T [] p x ∧
    x.runOn kw.2 selected kw.1.train = .ok st ∧
    value = T.score (T.base.rowsAt kw.1.train) st.loop.pf ∧
    (st.trace.map Prod.fst).Pairwise (· < ·) ∧
    ∀ d, d ∈ st.trace.map Prod.fst ↔ ∃ i ∈ kw.1.train, T.base.dates[i]? = some d

/-- The values of a window are those of the first of its best trials.  Each trial has the values
the sampler gave after the trials before it, and its value is the score of a backtest with these
values on the training rows.  All trials asked for are run, unless the sampler stops. -/
def ChosenBest {P : Type} (T : Tuning P) (prior : List (Trial P)) (kw : WFWindow × Nat) (r : Tuned P) :
    Prop :=
  FirstBest T.maximize r.trials r.params r.score ∧
    ∃ new, r.trials = prior ++ new ∧
      (new.length = T.trials ∨ (new.length < T.trials ∧ T.next kw.2 r.trials = none)) ∧
      ∀ (i : Nat) (tr : Trial P), new[i]? = some tr →
        T.next kw.2 (prior ++ new.take i) = some tr.params ∧ Scored T kw tr.params tr.value

end Spec

namespace Tuning

variable {P : Type} {T : Tuning P}

theorem best_none : ∀ {h : List (Trial P)}, T.best h = none → ∀ tr ∈ h, tr.value = none
  | [], _ => fun _ hm => nomatch hm
  | tr :: h, hb => by
    unfold best at hb
    split at hb
    · rename_i e
      intro o ho
      rcases List.mem_cons.1 ho with rfl | ho
      · exact e
      · exact best_none hb o ho
    · split at hb
      · cases hb
      · split at hb <;> cases hb

theorem best_some : ∀ {h : List (Trial P)} {b : P × ℚ}, T.best h = some b →
    FirstBest T.maximize h b.1 b.2
  | [], _, hb => nomatch hb
  | tr :: h, b, hb => by
    unfold best at hb
    split at hb
    · rename_i e
      obtain ⟨pre, post, e1, h1, h2⟩ := best_some hb
      refine ⟨tr :: pre, post, by rw [e1]; rfl, ?_, h2⟩
      intro o ho u hu
      rcases List.mem_cons.1 ho with rfl | ho
      · rw [e] at hu; cases hu
      · exact h1 o ho u hu
    · rename_i v e
      split at hb
      · rename_i hn
        cases hb
        refine ⟨[], h, ?_, (fun _ hm => nomatch hm), ?_⟩
        · obtain ⟨q, w⟩ := tr
          simp only at e
          rw [e]
          rfl
        · intro o ho u hu
          rw [best_none hn o ho] at hu
          cases hu
      · rename_i c hc
        obtain ⟨pre, post, e1, h1, h2⟩ := best_some hc
        split at hb
        · rename_i hbet
          cases hb
          refine ⟨tr :: pre, post, by rw [e1]; rfl, ?_, h2⟩
          intro o ho u hu
          rcases List.mem_cons.1 ho with rfl | ho
          · rw [e] at hu
            cases hu
            unfold better at hbet
            split at hbet <;> rename_i hm <;> simp only [hm, if_true, Bool.false_eq_true, if_false] <;>
              simpa using hbet
          · exact h1 o ho u hu
        · rename_i hbet
          cases hb
          refine ⟨[], h, ?_, (fun _ hm => nomatch hm), ?_⟩
          · obtain ⟨q, w⟩ := tr
            simp only at e
            rw [e]
            rfl
          · intro o ho u hu
            have hle : if T.maximize then c.2 ≤ v else v ≤ c.2 := by
              unfold better at hbet
              split at hbet <;> rename_i hm <;> simp only [hm, if_true, Bool.false_eq_true, if_false] <;>
                simpa using hbet
            have hou : if T.maximize then u ≤ c.2 else c.2 ≤ u := by
              rw [e1] at ho
              rcases List.mem_append.1 ho with ho | ho
              · have := h1 o ho u hu
                split at this <;> rename_i hm <;> simp only [hm, if_true, Bool.false_eq_true, if_false] <;>
                  exact this.le
              · rcases List.mem_cons.1 ho with rfl | ho
                · cases hu
                  split <;> exact le_refl _
                · exact h2 o ho u hu
            rcases hm : T.maximize with _ | _ <;> rw [hm] at hou hle <;>
              simp only [if_true, Bool.false_eq_true, if_false] at hou hle ⊢
            · exact le_trans hle hou
            · exact le_trans hou hle

theorem study_ok {k : Nat} {score : P → Except TuneErr TrialScore} : ∀ {n : Nat}
    {h r : List (Trial P)}, T.study k score n h = .ok r → ∃ new, r = h ++ new ∧
      (new.length = n ∨ (new.length < n ∧ T.next k r = none)) ∧
      ∀ (i : Nat) (tr : Trial P), new[i]? = some tr → T.next k (h ++ new.take i) = some tr.params ∧
        score tr.params = .ok tr.value
  | 0, h, r, hs => by
    cases hs
    exact ⟨[], by simp, Or.inl rfl, fun i tr hi => by simp at hi⟩
  | n + 1, h, r, hs => by
    unfold study at hs
    split at hs
    · rename_i hn
      cases hs
      exact ⟨[], by simp, Or.inr ⟨Nat.succ_pos _, hn⟩, fun i tr hi => by simp at hi⟩
    · rename_i p hp
      split at hs
      · cases hs
      · rename_i v hv
        obtain ⟨new, e, hlen, hall⟩ := study_ok hs
        refine ⟨⟨p, v⟩ :: new, by rw [e]; simp, ?_, ?_⟩
        · rcases hlen with hl | ⟨hl, hl'⟩
          · exact Or.inl (by simp [hl])
          · exact Or.inr ⟨by simp [hl], hl'⟩
        · intro i tr hi
          cases i with
          | zero =>
            simp only [List.getElem?_cons_zero, Option.some.injEq] at hi
            subst hi
            exact ⟨by simpa using hp, hv⟩
          | succ i =>
            simp only [List.getElem?_cons_succ] at hi
            have := hall i tr hi
            simpa using this

end Tuning

/-- A backtest on some rows has one bar for each of their dates, in order. -/
theorem RunSetup.runOn_dates {x : RunSetup} (hu : UniqueBars x.rows) {k : Nat} {selected : List Sym}
    {idx : List Nat} {st : State} (h : x.runOn k selected idx = .ok st) :
    (st.trace.map Prod.fst).Pairwise (· < ·) ∧
      ∀ d, d ∈ st.trace.map Prod.fst ↔ ∃ i ∈ idx, x.dates[i]? = some d := by
  unfold runOn at h
  simp only at h
  obtain ⟨more, h1, h2⟩ := bars_trace h
  simp only [List.nil_append] at h1
  have e : st.trace.map Prod.fst = (x.store (datesOfRows x.dates idx)).uniqueDates := by
    rw [h1]
    exact h2
  rw [e]
  refine ⟨uniqueDates_sorted _, fun d => ?_⟩
  rw [mem_calendar hu, mem_datesOfRows]
  constructor
  · exact fun h => h.1
  · rintro ⟨i, hi, hd⟩
    obtain ⟨r, hr, hrd⟩ := dates_get.1 hd
    exact ⟨⟨i, hi, hd⟩, r, List.mem_of_getElem? hr, hrd⟩

theorem Tuning.trial_ok {P : Type} {T : Tuning P} (hu : UniqueBars T.base.rows) {kw : WFWindow × Nat}
    {selected : List Sym} (hsel : T.select kw.1 = .ok selected) {p : P} {v : TrialScore}
    (h : T.trial kw.2 selected kw.1.train p = .ok v) : Scored T kw p v := by
  unfold trial at h
  split at h
  · cases h
  · rename_i s hs
    split at h
    · cases h
    · rename_i st hst
      cases h
      exact ⟨selected, _, st, hsel, Tuning.setup_runOf hs [], hst, rfl, RunSetup.runOn_dates (x := T.setup [] p) hu hst⟩

/-- **C102.**  The values chosen for a window are those of the first of its best trials.  Each
trial has the values the sampler gave after the trials before it, and its value is the score of
a backtest with these values on the training rows.  All trials asked for are run, unless the
sampler stops. -/
theorem tuned_best {P : Type} {T : Tuning P} (hu : UniqueBars T.base.rows) {kw : WFWindow × Nat}
    {prior : List (Trial P)} {r : Tuned P} (h : T.windowStudy prior kw = .ok r) :
    ChosenBest T prior kw r := by
  unfold Tuning.windowStudy at h
  split at h
  · cases h
  · rename_i selected hsel
    split at h
    · cases h
    · rename_i trials hstudy
      split at h
      · cases h
      · rename_i b hb
        cases h
        refine ⟨Tuning.best_some hb, ?_⟩
        obtain ⟨new, e, hlen, hall⟩ := Tuning.study_ok hstudy
        exact ⟨new, e, hlen, fun i tr hi => ⟨(hall i tr hi).1, Tuning.trial_ok hu hsel (hall i tr hi).2⟩⟩

/-! ## The stitched run -/

namespace Tuning

variable {P : Type} {T : Tuning P}

theorem tuneAll_ok : ∀ {kws : List (WFWindow × Nat)} {rs : List (Tuned P)}, T.tuneAll kws = .ok rs →
    List.Forall₂ (fun kw r => T.windowStudy [] kw = .ok r) kws rs
  | [], _, h => by
    cases h
    exact .nil
  | kw :: kws, rs, h => by
    unfold tuneAll at h
    split at h
    · cases h
    · rename_i r hr
      split at h
      · cases h
      · rename_i rs' hrs
        cases h
        exact .cons hr (tuneAll_ok hrs)

theorem optimizeWalk_ok {rs : List (Tuned P)} {st : RunSetup.State}
    (h : T.optimizeWalk = .ok (rs, st)) : ∃ wins,
      walkforwardSplit T.base.dates T.base.windows T.base.lookahead T.base.trainSize id = .ok wins ∧
      List.Forall₂ (fun kw r => T.windowStudy [] kw = .ok r) wins.zipIdx rs ∧ rs ≠ [] ∧
      T.replay (T.plan [] (wins.zipIdx.zip (rs.map Tuned.params))) = .ok st := by
  unfold optimizeWalk at h
  split at h
  · cases h
  · rename_i wins hw
    split at h
    · cases h
    · rename_i rs' hrs
      split at h
      · cases h
      · rename_i hne
        split at h
        · cases h
        · rename_i st' hst
          cases h
          exact ⟨wins, hw, tuneAll_ok hrs, hne, hst⟩

theorem plan_const {p : P} (hact : ∀ hist, T.act hist p = T.act [] p)
    (ho : ∀ hist, T.orderSlip hist p = T.orderSlip [] p)
    (he : ∀ hist, T.exitSlip hist p = T.exitSlip [] p) :
    ∀ {kws : List (WFWindow × Nat)} {ps hist : List P}, ps.length = kws.length → (∀ q ∈ ps, q = p) →
      T.plan hist (kws.zip ps) = kws.map (fun kw => (T.setup [] p, kw))
  | [], _, _, _, _ => by
    rw [List.zip_nil_left]
    rfl
  | kw :: kws, [], _, hl, _ => by cases hl
  | kw :: kws, q :: ps, hist, hl, hp => by
    have := hp q List.mem_cons_self
    subst this
    rw [List.zip_cons_cons, plan, plan_const hact ho he (by simpa using hl)
      (fun r hr => hp r (List.mem_cons_of_mem _ hr)), List.map_cons]
    have : T.setup hist q = T.setup [] q := by
      unfold setup
      rw [hact, ho, he]
    rw [this]

end Tuning

theorem RunSetup.each_map {α β γ : Type} {f : β → γ → Except RunErr β} {g : α → γ} :
    ∀ {l : List α} {b : β}, each f b (l.map g) = each (fun b a => f b (g a)) b l := by
  intro l
  induction l with
  | nil =>
    intro b
    rfl
  | cons a l ih =>
    intro b
    rw [List.map_cons]
    unfold each
    split
    · rfl
    · exact ih

/-- The study of a window has settings for the values it chose. -/
theorem Tuning.chosen_settings {P : Type} {T : Tuning P} (hu : UniqueBars T.base.rows)
    {kw : WFWindow × Nat} {r : Tuned P} (h : T.windowStudy [] kw = .ok r) :
    ∃ s, T.settings r.params = some s := by
  obtain ⟨⟨before, after, e, _, _⟩, new, e', _, hall⟩ := tuned_best hu h
  rw [List.nil_append] at e'
  rw [e'] at e
  obtain ⟨i, hi⟩ := List.mem_iff_getElem?.1 (show (⟨r.params, some r.score⟩ : Trial P) ∈ new by
    rw [e]; simp)
  obtain ⟨_, selected, x, _, _, hx, _⟩ := hall i _ hi
  exact (Tuning.runOf_setup hx).2

/-- **C103.**  When all windows choose the same values, and user code does not depend on the
values of earlier windows, the stitched result is that of a walkforward run with these
values. -/
theorem stitched_walkforward {P : Type} {T : Tuning P} (hu : UniqueBars T.base.rows)
    {rs : List (Tuned P)} {st : RunSetup.State} (h : T.optimizeWalk = .ok (rs, st)) {p : P} (hp : ∀ r ∈ rs, r.params = p)
    (hact : ∀ hist, T.act hist p = T.act [] p) (ho : ∀ hist, T.orderSlip hist p = T.orderSlip [] p)
    (he : ∀ hist, T.exitSlip hist p = T.exitSlip [] p) :
    ∃ x, RunOf T [] p x ∧ x.run = .ok st := by
  obtain ⟨wins, hw, hf, hne, hr⟩ := Tuning.optimizeWalk_ok h
  obtain ⟨s, hs⟩ : ∃ s, T.settings p = some s := by
    generalize wins.zipIdx = kws at hf
    rcases hf with _ | ⟨h1, -⟩
    · exact absurd rfl hne
    · rw [← hp _ List.mem_cons_self]
      exact Tuning.chosen_settings hu h1
  refine ⟨_, Tuning.setup_runOf hs [], ?_⟩
  unfold Tuning.replay at hr
  rw [Tuning.plan_const hact ho he (by rw [List.length_map, List.Forall₂.length_eq hf])
    (by
      intro q hq
      obtain ⟨r, hr, rfl⟩ := List.mem_map.1 hq
      exact hp r hr), RunSetup.each_map] at hr
  have hinit : Portfolio.init (T.setup [] p).cfg = Portfolio.init T.base.cfg := by
    unfold Tuning.setup
    simp only
    split <;> rfl
  unfold RunSetup.run
  rw [show walkforwardSplit (T.setup [] p).dates (T.setup [] p).windows (T.setup [] p).lookahead
    (T.setup [] p).trainSize (T.setup [] p).shuffle = .ok wins from hw]
  simp only
  rw [hinit]
  exact hr

/-! ## No look-ahead -/

namespace Tuning

variable {P : Type} {T : Tuning P} {rows' : List DRow}
    {act' : List P → P → Nat → Date → (Sym → Option SymArrays) → Loop → List Sym →
      List UserOp × (Sym → Option ExecResult)}
    {orderSlip' : List P → P → Nat → Date → Option SlipModel}
    {exitSlip' : List P → P → Nat → Date → Option SlipFn}

theorem setup_ok (hok : SetupOK T.base) (hist : List P) (p : P) : SetupOK (T.setup hist p) :=
  ⟨hok.unique, hok.buyDelay, hok.sellDelay, hok.size, hok.iter, fun l => List.Perm.refl l⟩

theorem plan_late {t : Date} : ∀ {kws : List (WFWindow × Nat)} {ps hist : List P}
    {st st1 : RunSetup.State},
    RunSetup.each (fun st (y : RunSetup × WFWindow × Nat) => y.1.runOne st y.2) st
      (T.plan hist (kws.zip ps)) = .ok st1 →
    (∀ kw ∈ kws, ∀ d ∈ T.base.calendar kw.1, ¬ d ≤ t) →
      st1.trace.filter (fun e => e.1 ≤ t) = st.trace.filter (fun e => e.1 ≤ t) := by
  intro kws
  induction kws with
  | nil =>
    intro ps hist st st1 h _
    rw [List.zip_nil_left] at h
    cases h
    rfl
  | cons kw kws ih =>
    intro ps hist st st1 h hl
    cases ps with
    | nil =>
      rw [List.zip_nil_right] at h
      cases h
      rfl
    | cons p ps =>
      rw [List.zip_cons_cons, plan] at h
      unfold RunSetup.each at h
      split at h
      · cases h
      · rename_i st2 h2
        rw [ih h (fun kw' hkw' => hl kw' (List.mem_cons_of_mem _ hkw'))]
        obtain ⟨more, h3, h4⟩ := RunSetup.window_trace h2
        rw [h3, List.filter_append]
        have : more.filter (fun e => e.1 ≤ t) = [] := by
          rw [List.filter_eq_nil_iff]
          intro e he
          have := hl kw List.mem_cons_self e.1 (by
            have : e.1 ∈ (T.setup hist p).calendar kw.1 := by
              rw [← h4]; exact List.mem_map.2 ⟨e, he, rfl⟩
            exact this)
          simpa using this
        rw [this, List.append_nil]

theorem plan_same {t : Date} (hok : SetupOK T.base) (h : SameUpTo t T.base.rows rows')
    (hact : ∀ hist p k d, d ≤ t → act' hist p k d = T.act hist p k d)
    (ho : ∀ hist p k d, d ≤ t → orderSlip' hist p k d = T.orderSlip hist p k d)
    (he : ∀ hist p k d, d ≤ t → exitSlip' hist p k d = T.exitSlip hist p k d) {wins : List WFWindow}
    (hw : walkforwardSplit T.base.dates T.base.windows T.base.lookahead T.base.trainSize id = .ok wins)
    (hp : Prompt { T.base with shuffle := id } t) :
    ∀ {kws pre : List (WFWindow × Nat)} {ps ps' hist : List P} {st st' stF stF' : RunSetup.State},
      wins.zipIdx = pre ++ kws → ps.length = kws.length → ps'.length = kws.length →
      (∀ (i : Nat) (kw : WFWindow × Nat), kws[i]? = some kw →
        (∃ d ∈ T.base.testDates kw.1, d ≤ t) → ps[i]? = ps'[i]?) →
      st'.loop = st.loop →
      st.trace.filter (fun e => e.1 ≤ t) = st'.trace.filter (fun e => e.1 ≤ t) →
      RunSetup.each (fun st (y : RunSetup × WFWindow × Nat) => y.1.runOne st y.2) st
        (T.plan hist (kws.zip ps)) = .ok stF →
      RunSetup.each (fun st (y : RunSetup × WFWindow × Nat) => y.1.runOne st y.2) st'
        ((T.alter rows' act' orderSlip' exitSlip').plan hist (kws.zip ps')) = .ok stF' →
      stF.trace.filter (fun e => e.1 ≤ t) = stF'.trace.filter (fun e => e.1 ≤ t) := by
  intro kws
  induction kws with
  | nil =>
    intro pre ps ps' hist st st' stF stF' _ _ _ _ _ ht h1 h2
    rw [List.zip_nil_left] at h1 h2
    cases h1
    cases h2
    exact ht
  | cons kw kws ih =>
    intro pre ps ps' hist st st' stF stF' hz hl1 hl2 hps hl ht h1 h2
    have hsorted := RunSetup.zipIdx_order wins
    rw [hz] at hsorted
    have hlater : ∀ kw' ∈ kws, kw.2 < kw'.2 :=
      (List.pairwise_cons.1 (List.pairwise_append.1 hsorted).2.1).1
    have hkw : wins[kw.2]? = some kw.1 := RunSetup.mem_zip (by rw [hz]; simp)
    have hkws : ∀ kw' ∈ kws, wins[kw'.2]? = some kw'.1 := by
      intro kw' h'
      exact RunSetup.mem_zip (by rw [hz]; simp [h'])
    have hok' : SetupOK { T.base with shuffle := id } :=
      ⟨hok.unique, hok.buyDelay, hok.sellDelay, hok.size, hok.iter, fun l => List.Perm.refl l⟩
    have late : ∀ (l : List (WFWindow × Nat)) (qs qs' hs hs' : List P) (s s1 s' s1' : RunSetup.State),
        s.trace.filter (fun e => e.1 ≤ t) = s'.trace.filter (fun e => e.1 ≤ t) →
        (∀ kw ∈ l, ∀ d ∈ T.base.testDates kw.1, ¬ d ≤ t) →
        RunSetup.each (fun st (y : RunSetup × WFWindow × Nat) => y.1.runOne st y.2) s
          (T.plan hs (l.zip qs)) = .ok s1 →
        RunSetup.each (fun st (y : RunSetup × WFWindow × Nat) => y.1.runOne st y.2) s'
          ((T.alter rows' act' orderSlip' exitSlip').plan hs' (l.zip qs')) = .ok s1' →
        s1.trace.filter (fun e => e.1 ≤ t) = s1'.trace.filter (fun e => e.1 ≤ t) := by
      intro l qs qs' hs hs' s s1 s' s1' hst hl g1 g2
      have hl' : ∀ kw ∈ l, ∀ d ∈ T.base.calendar kw.1, ¬ d ≤ t := fun kw hkw d hd =>
        hl kw hkw d ((RunSetup.mem_calendar' hok.unique).1 hd)
      rw [plan_late g1 hl', plan_late g2 (fun kw hkw d hd => hl' kw hkw d (by
        rw [← RunSetup.calendar_same (act' := T.base.act) (orderSlip' := T.base.orderSlip)
          (exitSlip' := T.base.exitSlip) h kw.1]
        exact hd)), hst]
    cases ps with
    | nil => cases hl1
    | cons p ps =>
    cases ps' with
    | nil => cases hl2
    | cons p' ps' =>
    by_cases hearly : ∃ d ∈ T.base.testDates kw.1, d ≤ t
    · have hpp : p = p' := Option.some.inj (hps 0 kw rfl hearly)
      subst hpp
      rw [List.zip_cons_cons, plan] at h1 h2
      unfold RunSetup.each at h1 h2
      split at h1
      · cases h1
      rename_i s1 e1
      split at h2
      · cases h2
      rename_i s1' e1'
      obtain ⟨h3, h4⟩ := RunSetup.runOne_same (x := T.setup hist p) (setup_ok hok hist p) h
        (hact hist p) (ho hist p) (he hist p) hw hkw hearly hl ht
        (by
          intro es hes sym hsym r hr hrs
          obtain ⟨r', hr', g1, g2⟩ := hp kw.2 kw.1 _ ⟨wins, es, hw, hkw, hes, rfl⟩ hearly r hr (by
            have := (List.mem_filter.1 hsym).2
            rw [hrs]
            simpa using this)
          exact ⟨r', hr', g1.trans hrs, g2⟩) e1 e1'
      by_cases hall : ∀ d ∈ T.base.testDates kw.1, d ≤ t
      · exact ih (pre := pre ++ [kw]) (by rw [hz]; simp) (by simpa using hl1) (by simpa using hl2)
          (fun i kw' hi => hps (i + 1) kw' hi) (h4 hall) h3 h1 h2
      · refine late kws _ _ _ _ _ _ _ _ h3 ?_ h1 h2
        intro kw' hkw' d' hd' hle
        apply hall
        intro d hd
        exact le_trans (RunSetup.test_order (x := { T.base with shuffle := id }) hok' hw hkw
          (hkws kw' hkw') (hlater kw' hkw') hd hd').le hle
    · refine late (kw :: kws) _ _ _ _ _ _ _ _ ht ?_ h1 h2
      have hl0 : ∀ d ∈ T.base.testDates kw.1, ¬ d ≤ t := fun d hd hle => hearly ⟨d, hd, hle⟩
      intro kw' hkw'
      rcases List.mem_cons.1 hkw' with rfl | hkw'
      · exact hl0
      · exact RunSetup.late_after (x := { T.base with shuffle := id }) hok' hw hkw (hkws kw' hkw')
          (hlater kw' hkw') hl0

theorem study_early {t : Date} (hok : SetupOK T.base) (h : SameUpTo t T.base.rows rows')
    (hact : ∀ hist p k d, d ≤ t → act' hist p k d = T.act hist p k d)
    (ho : ∀ hist p k d, d ≤ t → orderSlip' hist p k d = T.orderSlip hist p k d)
    (he : ∀ hist p k d, d ≤ t → exitSlip' hist p k d = T.exitSlip hist p k d)
    {kw : WFWindow × Nat} (htrain : ∀ d ∈ datesOfRows T.base.dates kw.1.train, d ≤ t)
    (prior : List (Trial P)) :
    (T.alter rows' act' orderSlip' exitSlip').windowStudy prior kw = T.windowStudy prior kw :=
  tuning_uses_training hok.unique
    (List.Forall₂.imp (fun _ _ hab => ⟨hab.1, hab.2.1, fun hd => hab.2.2 (htrain _ hd)⟩) h)
    (fun p d hd => hact [] p kw.2 d (htrain d hd)) (fun p d hd => ho [] p kw.2 d (htrain d hd))
    (fun p d hd => he [] p kw.2 d (htrain d hd)) prior

/-- The training dates of a window are before its test dates. -/
theorem train_early {t : Date} (hok : SetupOK T.base) {wins : List WFWindow}
    (hw : walkforwardSplit T.base.dates T.base.windows T.base.lookahead T.base.trainSize id = .ok wins)
    {k : Nat} {win : WFWindow} (hk : wins[k]? = some win) (hearly : ∃ d ∈ T.base.testDates win, d ≤ t)
    (hts : 0 < T.base.trainSize ∧ T.base.trainSize < 1) :
    ∀ d ∈ datesOfRows T.base.dates win.train, d ≤ t := by
  intro d hd
  obtain ⟨i, hi, hid⟩ := mem_datesOfRows.1 hd
  obtain ⟨d', hd', hdt⟩ := hearly
  obtain ⟨j, hj, hjd⟩ := mem_datesOfRows.1 hd'
  have := ((train_before_test (fun l => List.Perm.refl l) hts.1 hts.2 hw (List.mem_of_getElem? hk)).2.1
    i hi j hj d d' hid hjd).2
  exact le_trans this.le hdt

end Tuning

/-- **C104, partial.**  Two walkforward optimizations of the same strategy whose data agree up to
a date, and whose functions and slippage models do: each window with a test date up to that date
has the same trials and the same chosen values, and the stitched runs go through the same
portfolio, pending orders and attempts on every bar up to that date.  Proved when each window
has bars up to that date of the symbols it does not trade.  Missing: as in C100, a symbol
dropped by a selector is closed at a price that may be of a later bar. -/
theorem tuning_no_lookahead_partial {P : Type} {T : Tuning P} (hok : SetupOK T.base)
    (hts : 0 < T.base.trainSize ∧ T.base.trainSize < 1) {t : Date} {rows' : List DRow}
    {act' : List P → P → Nat → Date → (Sym → Option SymArrays) → Loop → List Sym →
      List UserOp × (Sym → Option ExecResult)}
    {orderSlip' : List P → P → Nat → Date → Option SlipModel}
    {exitSlip' : List P → P → Nat → Date → Option SlipFn}
    (hrows : SameUpTo t T.base.rows rows')
    (hact : ∀ hist p k d, d ≤ t → act' hist p k d = T.act hist p k d)
    (ho : ∀ hist p k d, d ≤ t → orderSlip' hist p k d = T.orderSlip hist p k d)
    (he : ∀ hist p k d, d ≤ t → exitSlip' hist p k d = T.exitSlip hist p k d)
    {rs rs' : List (Tuned P)} {st st' : RunSetup.State} (h : T.optimizeWalk = .ok (rs, st))
    (h' : Tuning.optimizeWalk { T with base := { T.base with rows := rows' }, act := act'
                                       orderSlip := orderSlip', exitSlip := exitSlip' } =
      .ok (rs', st')) (hdrop : Prompt { T.base with shuffle := id } t) :
    (∀ (wins : List WFWindow) (k : Nat) (win : WFWindow),
      walkforwardSplit T.base.dates T.base.windows T.base.lookahead T.base.trainSize id = .ok wins →
      wins[k]? = some win → (∃ d ∈ datesOfRows T.base.dates win.test, d ≤ t) → rs[k]? = rs'[k]?) ∧
    st.trace.filter (fun e => e.1 ≤ t) = st'.trace.filter (fun e => e.1 ≤ t) := by
  obtain ⟨wins, hw, hf, _, hr⟩ := Tuning.optimizeWalk_ok h
  obtain ⟨wins', hw', hf', _, hr'⟩ := Tuning.optimizeWalk_ok h'
  have hd : ({ T.base with rows := rows' } : RunSetup).dates = T.base.dates := (same_dates hrows).symm
  simp only at hw'
  rw [hd, hw] at hw'
  cases hw'
  have hsame : ∀ (i : Nat) (kw : WFWindow × Nat), wins.zipIdx[i]? = some kw →
      (∃ d ∈ T.base.testDates kw.1, d ≤ t) → rs[i]? = rs'[i]? := by
    intro i kw hi hearly
    have hk := RunSetup.mem_zip (List.mem_of_getElem? hi)
    have hs := Tuning.study_early hok hrows hact ho he
      (Tuning.train_early hok hw hk hearly hts) []
    have hl1 := List.Forall₂.length_eq hf
    have hl2 := List.Forall₂.length_eq hf'
    have hil := (List.getElem?_eq_some_iff.1 hi).1
    have g1 := List.Forall₂.get hf hil (by omega)
    have g2 := List.Forall₂.get hf' hil (by omega)
    have hkw := (List.getElem?_eq_some_iff.1 hi).2
    simp only [List.get_eq_getElem] at g1 g2
    rw [hkw] at g1 g2
    rw [List.getElem?_eq_getElem (by omega : i < rs.length),
      List.getElem?_eq_getElem (by omega : i < rs'.length)]
    exact congrArg some (Except.ok.inj (g1.symm.trans (hs.symm.trans g2)))
  refine ⟨?_, ?_⟩
  · intro wins' k win hw2 hk hearly
    rw [hw] at hw2
    cases hw2
    exact hsame k (win, k) (by simp [List.getElem?_zipIdx, hk]) hearly
  · refine Tuning.plan_same hok hrows hact ho he hw hdrop (pre := []) rfl ?_ ?_ ?_ rfl rfl hr hr'
    · rw [List.length_map, List.Forall₂.length_eq hf]
    · rw [List.length_map, List.Forall₂.length_eq hf']
    · intro i kw hi hearly
      rw [List.getElem?_map, List.getElem?_map, hsame i kw hi hearly]

theorem Tuning.optimizeOnce_ok {P : Type} {T : Tuning P} {prior : List (Trial P)} {r : Tuned P}
    {st : RunSetup.State} (h : T.optimizeOnce prior = .ok (r, st)) : ∃ win rest selected settings,
      walkforwardSplit T.base.dates 1 T.base.lookahead T.base.trainSize id = .ok (win :: rest) ∧
      T.windowStudy prior (win, 0) = .ok r ∧ T.settings r.params = some settings ∧
      T.select win = .ok selected ∧
      (T.setup [] r.params).runOn 0 selected win.test = .ok st := by
  unfold optimizeOnce at h
  split at h
  · cases h
  · cases h
  · rename_i win rest hw
    split at h
    · cases h
    · rename_i r' hr
      split at h
      · cases h
      · rename_i s hs
        split at h
        · cases h
        · rename_i selected hsel
          split at h
          · cases h
          · rename_i st' hst
            cases h
            exact ⟨win, rest, selected, s, hw, hr, hs, hsel, hst⟩

/-- A backtest on some rows does not look ahead. -/
theorem RunSetup.runOn_prefix {x : RunSetup} {t : Date} (hu : UniqueBars x.rows) {rows' : List DRow}
    (h : SameUpTo t x.rows rows')
    {act' : Nat → Date → (Sym → Option SymArrays) → Loop → List Sym →
      List UserOp × (Sym → Option ExecResult)}
    {orderSlip' : Nat → Date → Option SlipModel} {exitSlip' : Nat → Date → Option SlipFn}
    (hact : ∀ k d, d ≤ t → act' k d = x.act k d)
    (ho : ∀ k d, d ≤ t → orderSlip' k d = x.orderSlip k d)
    (he : ∀ k d, d ≤ t → exitSlip' k d = x.exitSlip k d) {k : Nat} {selected : List Sym}
    {idx : List Nat} {st st' : State} (h1 : x.runOn k selected idx = .ok st)
    (h2 : (x.alter rows' act' orderSlip' exitSlip').runOn k selected idx = .ok st') :
    st.trace.filter (fun e => e.1 ≤ t) = st'.trace.filter (fun e => e.1 ≤ t) := by
  unfold runOn at h1 h2
  simp only at h1 h2
  rw [dates_same h] at h2
  have hshape := slice_shape (storeOf_shape h x.cols) (datesOfRows x.dates idx)
  rw [← shape_uniqueDates hshape, ← shape_execDates hshape] at h2
  have hw := window_same (act' := act') (orderSlip' := orderSlip') (exitSlip' := exitSlip') h k
    selected ⟨[], idx⟩ (datesOfRows x.dates idx)
  refine (bars_same (x := x) hu h (rowsAt_same h idx) hact ho he
    (w := { x.window k selected ⟨[], idx⟩ (x.store (datesOfRows x.dates idx)) with boundary := none })
    (w' := { (x.alter rows' act' orderSlip' exitSlip').window k selected ⟨[], idx⟩
      ((x.alter rows' act' orderSlip' exitSlip').store (datesOfRows x.dates idx)) with
      boundary := none }) ?_ (window := datesOfRows x.dates idx) (selected := selected) (pre := [])
    ?_ ?_ ?_ ?_ ?_ h1 h2).1
  · rw [hw]
  all_goals rfl

/-- **C105.**  Two optimizations over a single split whose data agree up to a date, and whose
functions and slippage models do: if a test date is not after that date, they have the same
trials and the same chosen values; and the tests go through the same portfolio, pending orders
and attempts on every bar up to that date. -/
theorem split_no_lookahead {P : Type} {T : Tuning P} (hok : SetupOK T.base)
    (hts : 0 < T.base.trainSize ∧ T.base.trainSize < 1) {t : Date} {rows' : List DRow}
    {act' : List P → P → Nat → Date → (Sym → Option SymArrays) → Loop → List Sym →
      List UserOp × (Sym → Option ExecResult)}
    {orderSlip' : List P → P → Nat → Date → Option SlipModel}
    {exitSlip' : List P → P → Nat → Date → Option SlipFn}
    (hrows : SameUpTo t T.base.rows rows')
    (hact : ∀ hist p k d, d ≤ t → act' hist p k d = T.act hist p k d)
    (ho : ∀ hist p k d, d ≤ t → orderSlip' hist p k d = T.orderSlip hist p k d)
    (he : ∀ hist p k d, d ≤ t → exitSlip' hist p k d = T.exitSlip hist p k d)
    {prior : List (Trial P)} {r r' : Tuned P} {st st' : RunSetup.State}
    (h : T.optimizeOnce prior = .ok (r, st))
    (h' : Tuning.optimizeOnce { T with base := { T.base with rows := rows' }, act := act'
                                       orderSlip := orderSlip', exitSlip := exitSlip' } prior =
      .ok (r', st')) :
    ((∃ e ∈ st.trace, e.1 ≤ t) → r = r') ∧
      st.trace.filter (fun e => e.1 ≤ t) = st'.trace.filter (fun e => e.1 ≤ t) := by
  obtain ⟨win, rest, selected, s, hw, hr, _, hsel, hrun⟩ := Tuning.optimizeOnce_ok h
  obtain ⟨win', rest', selected', s', hw', hr', _, hsel', hrun'⟩ := Tuning.optimizeOnce_ok h'
  have hd : ({ T.base with rows := rows' } : RunSetup).dates = T.base.dates := (same_dates hrows).symm
  simp only at hw'
  rw [hd, hw] at hw'
  cases hw'
  obtain ⟨_, hdates⟩ := RunSetup.runOn_dates (x := T.setup [] r.params) hok.unique hrun
  obtain ⟨_, hdates'⟩ := RunSetup.runOn_dates
    (x := (T.alter rows' act' orderSlip' exitSlip').setup [] r'.params)
    (same_unique hrows hok.unique) hrun'
  by_cases hearly : ∃ d ∈ T.base.testDates win, d ≤ t
  · have htrain := Tuning.train_early (T := { T with base := { T.base with windows := 1 } })
      (k := 0) (win := win) ⟨hok.unique, hok.buyDelay, hok.sellDelay, hok.size, hok.iter, hok.shuffle⟩
      hw rfl hearly hts
    have hs := Tuning.study_early (kw := (win, 0)) hok hrows hact ho he htrain prior
    have hrr : r = r' := Except.ok.inj (hr.symm.trans (hs.symm.trans hr'))
    subst hrr
    have hss : selected = selected' := by
      have hrt : ({ T.base with rows := rows' } : RunSetup).rowsAt win.train = T.base.rowsAt win.train :=
        (RunSetup.same_all (RunSetup.rowsAt_same (act' := T.base.act) (orderSlip' := T.base.orderSlip)
          (exitSlip' := T.base.exitSlip) hrows win.train) (by
            intro q hq
            obtain ⟨i, hi, hir⟩ := RunSetup.mem_rowsAt.1 hq
            exact htrain _ (mem_datesOfRows.2 ⟨i, hi, RunSetup.dates_get.2 ⟨q, hir, rfl⟩⟩))).symm
      unfold Tuning.select at hsel hsel'
      simp only at hsel'
      rw [hrt] at hsel'
      exact Except.ok.inj (hsel.symm.trans hsel')
    subst hss
    exact ⟨fun _ => rfl, RunSetup.runOn_prefix (x := T.setup [] r.params) hok.unique hrows (hact [] _)
      (ho [] _) (he [] _) hrun hrun'⟩
  · have hnone : ∀ d, (∃ i ∈ win.test, T.base.dates[i]? = some d) → ¬ d ≤ t :=
      fun d hi hle => hearly ⟨d, mem_datesOfRows.2 hi, hle⟩
    have e1 : st.trace.filter (fun e => e.1 ≤ t) = [] := by
      rw [List.filter_eq_nil_iff]
      intro e he
      have := hnone e.1 ((hdates e.1).1 (List.mem_map.2 ⟨e, he, rfl⟩))
      simpa using this
    have e2 : st'.trace.filter (fun e => e.1 ≤ t) = [] := by
      rw [List.filter_eq_nil_iff]
      intro e he
      obtain ⟨i, hi, hid⟩ := (hdates' e.1).1 (List.mem_map.2 ⟨e, he, rfl⟩)
      have := hnone e.1 ⟨i, hi, by rw [← hd]; exact hid⟩
      simpa using this
    refine ⟨?_, by rw [e1, e2]⟩
    rintro ⟨e, he, hle⟩
    exact absurd hle (hnone e.1 ((hdates e.1).1 (List.mem_map.2 ⟨e, he, rfl⟩)))

/-! ## Whole optimizations -/

namespace Tuning

variable {P : Type} {T : Tuning P}

theorem walk_study {rs : List (Tuned P)} {st : RunSetup.State} (h : T.optimizeWalk = .ok (rs, st))
    {wins : List WFWindow}
    (hw : walkforwardSplit T.base.dates T.base.windows T.base.lookahead T.base.trainSize id = .ok wins) :
    rs.length = wins.length ∧ ∀ (k : Nat) (win : WFWindow), wins[k]? = some win →
      ∃ r, rs[k]? = some r ∧ T.windowStudy [] (win, k) = .ok r := by
  obtain ⟨wins', hw', hf, -, -⟩ := optimizeWalk_ok h
  rw [hw] at hw'
  cases hw'
  have hl := List.Forall₂.length_eq hf
  rw [List.length_zipIdx] at hl
  refine ⟨hl.symm, fun k win hk => ?_⟩
  have hkl := (List.getElem?_eq_some_iff.1 hk).1
  have g := List.Forall₂.get hf (i := k) (by rw [List.length_zipIdx]; exact hkl) (by omega)
  simp only [List.get_eq_getElem] at g
  have he : wins.zipIdx[k]? = some (win, k) := by simp [List.getElem?_zipIdx, hk]
  rw [(List.getElem?_eq_some_iff.1 he).2] at g
  exact ⟨_, List.getElem?_eq_getElem (by omega), g⟩

end Tuning

/-- **C101.**  In two walkforward optimizations over the same bars, the trials, scores and values
of window `k` are the same if the values and the functions agree on the training dates of the
`k`-th window of the split, whatever they are elsewhere. -/
theorem walk_uses_training {P : Type} {T : Tuning P} (hu : UniqueBars T.base.rows)
    {rows' : List DRow}
    {act' : List P → P → Nat → Date → (Sym → Option SymArrays) → Loop → List Sym →
      List UserOp × (Sym → Option ExecResult)}
    {orderSlip' : List P → P → Nat → Date → Option SlipModel}
    {exitSlip' : List P → P → Nat → Date → Option SlipFn} {wins : List WFWindow} {k : Nat}
    {win : WFWindow}
    (hw : walkforwardSplit T.base.dates T.base.windows T.base.lookahead T.base.trainSize id = .ok wins)
    (hk : wins[k]? = some win)
    (hrows : SameOn (datesOfRows T.base.dates win.train) T.base.rows rows')
    (hact : ∀ p, ∀ d ∈ datesOfRows T.base.dates win.train, act' [] p k d = T.act [] p k d)
    (ho : ∀ p, ∀ d ∈ datesOfRows T.base.dates win.train, orderSlip' [] p k d = T.orderSlip [] p k d)
    (he : ∀ p, ∀ d ∈ datesOfRows T.base.dates win.train, exitSlip' [] p k d = T.exitSlip [] p k d)
    {rs rs' : List (Tuned P)} {st st' : RunSetup.State} (h : T.optimizeWalk = .ok (rs, st))
    (h' : Tuning.optimizeWalk { T with base := { T.base with rows := rows' }, act := act'
                                       orderSlip := orderSlip', exitSlip := exitSlip' } =
      .ok (rs', st')) : ∃ r, rs[k]? = some r ∧ rs'[k]? = some r := by
  have hd : ({ T.base with rows := rows' } : RunSetup).dates = T.base.dates := by
    obtain ⟨t, ht⟩ := sameOn_shape hrows
    exact (same_dates ht).symm
  obtain ⟨-, hs⟩ := Tuning.walk_study h hw
  obtain ⟨-, hs'⟩ := Tuning.walk_study h' (wins := wins) (by
    simp only
    rw [hd]
    exact hw)
  obtain ⟨r, e1, e2⟩ := hs k win hk
  obtain ⟨r', e3, e4⟩ := hs' k win hk
  have := tuning_uses_training (kw := (win, k)) hu hrows hact ho he []
  rw [this, e2] at e4
  cases e4
  exact ⟨r, e1, e3⟩

/-- **C101.**  The same for a single split. -/
theorem split_uses_training {P : Type} {T : Tuning P} (hu : UniqueBars T.base.rows)
    {rows' : List DRow}
    {act' : List P → P → Nat → Date → (Sym → Option SymArrays) → Loop → List Sym →
      List UserOp × (Sym → Option ExecResult)}
    {orderSlip' : List P → P → Nat → Date → Option SlipModel}
    {exitSlip' : List P → P → Nat → Date → Option SlipFn} {wins : List WFWindow} {win : WFWindow}
    (hw : walkforwardSplit T.base.dates 1 T.base.lookahead T.base.trainSize id = .ok wins)
    (hk : wins[0]? = some win)
    (hrows : SameOn (datesOfRows T.base.dates win.train) T.base.rows rows')
    (hact : ∀ p, ∀ d ∈ datesOfRows T.base.dates win.train, act' [] p 0 d = T.act [] p 0 d)
    (ho : ∀ p, ∀ d ∈ datesOfRows T.base.dates win.train, orderSlip' [] p 0 d = T.orderSlip [] p 0 d)
    (he : ∀ p, ∀ d ∈ datesOfRows T.base.dates win.train, exitSlip' [] p 0 d = T.exitSlip [] p 0 d)
    {prior : List (Trial P)} {r r' : Tuned P} {st st' : RunSetup.State}
    (h : T.optimizeOnce prior = .ok (r, st))
    (h' : Tuning.optimizeOnce { T with base := { T.base with rows := rows' }, act := act'
                                       orderSlip := orderSlip', exitSlip := exitSlip' } prior =
      .ok (r', st')) : r' = r := by
  have hd : ({ T.base with rows := rows' } : RunSetup).dates = T.base.dates := by
    obtain ⟨t, ht⟩ := sameOn_shape hrows
    exact (same_dates ht).symm
  obtain ⟨win1, rest1, _, _, hw1, e1, -⟩ := Tuning.optimizeOnce_ok h
  obtain ⟨win2, rest2, _, _, hw2, e2, -⟩ := Tuning.optimizeOnce_ok h'
  simp only at hw2
  rw [hd, hw] at hw2
  rw [hw] at hw1
  cases hw1
  cases hw2
  cases hk
  have := tuning_uses_training (kw := (win, 0)) hu hrows hact ho he prior
  rw [this, e1] at e2
  cases e2
  rfl

/-- **C102.**  In a walkforward optimization the values of window `k` are the best of its trials, on
the training rows of the `k`-th window of the split; in an optimization of a single split, the
best of its trials on the training rows of that split. -/
theorem optimized_best {P : Type} {T : Tuning P} (hu : UniqueBars T.base.rows) :
    (∀ rs st wins, T.optimizeWalk = .ok (rs, st) →
      walkforwardSplit T.base.dates T.base.windows T.base.lookahead T.base.trainSize id = .ok wins →
      rs.length = wins.length ∧ ∀ (k : Nat) (win : WFWindow), wins[k]? = some win →
        ∃ r, rs[k]? = some r ∧ ChosenBest T [] (win, k) r) ∧
    (∀ prior r st wins win, T.optimizeOnce prior = .ok (r, st) →
      walkforwardSplit T.base.dates 1 T.base.lookahead T.base.trainSize id = .ok wins →
      wins[0]? = some win → ChosenBest T prior (win, 0) r) := by
  constructor
  · intro rs st wins h hw
    obtain ⟨h1, h2⟩ := Tuning.walk_study h hw
    refine ⟨h1, fun k win hk => ?_⟩
    obtain ⟨r, e1, e2⟩ := h2 k win hk
    exact ⟨r, e1, tuned_best hu e2⟩
  · intro prior r st wins win h hw hk
    obtain ⟨win1, rest1, _, _, hw1, e1, -⟩ := Tuning.optimizeOnce_ok h
    rw [hw] at hw1
    cases hw1
    cases hk
    exact tuned_best hu e1

theorem Tuning.plan_eq {P : Type} {T : Tuning P} : ∀ {kws : List (WFWindow × Nat)} {ps hist : List P} {k : Nat},
    hist.length = k → kws.length = ps.length → (∀ (i : Nat) (kw : WFWindow × Nat), kws[i]? = some kw → kw.2 = k + i) →
      T.plan hist (kws.zip ps) =
        (kws.zip ps).map (fun e => (T.setup ((hist ++ ps).take e.1.2) e.2, e.1)) := by
  intro kws
  induction kws with
  | nil =>
    intro ps hist k _ _ _
    rw [List.zip_nil_left]
    rfl
  | cons kw kws ih =>
    intro ps hist k hk hl hi
    rcases ps with _ | ⟨p, ps⟩
    · cases hl
    · rw [List.zip_cons_cons, plan, ih (k := k + 1) (by simp [hk]) (by simpa using hl)
        (fun i kw' h => by
          have := hi (i + 1) kw' (by simpa using h)
          omega), List.map_cons]
      have h0 : kw.2 = k := by simpa using hi 0 kw rfl
      simp only [List.append_assoc, List.cons_append, List.nil_append]
      rw [h0, ← hk, List.take_left]

/-- **C103.**  The stitched run goes through the windows of the split in order with one portfolio and
one list of orders; window `k` is run with the values chosen for it, after windows run with the
values chosen for those before. -/
theorem stitched_run {P : Type} {T : Tuning P} (hu : UniqueBars T.base.rows) {rs : List (Tuned P)}
    {st : RunSetup.State} (h : T.optimizeWalk = .ok (rs, st)) {wins : List WFWindow}
    (hw : walkforwardSplit T.base.dates T.base.windows T.base.lookahead T.base.trainSize id = .ok wins) :
    ∃ xs : List RunSetup, xs.length = wins.length ∧
      (∀ (k : Nat) (x : RunSetup), xs[k]? = some x →
        ∃ r, rs[k]? = some r ∧ RunOf T ((rs.take k).map Tuned.params) r.params x) ∧
      RunSetup.each (fun st (e : RunSetup × WFWindow × Nat) => e.1.runOne st e.2)
        { loop := { pf := Portfolio.init T.base.cfg } } (xs.zip wins.zipIdx) = .ok st := by
  obtain ⟨wins', hw', hf, -, hr⟩ := Tuning.optimizeWalk_ok h
  rw [hw] at hw'
  cases hw'
  have hl : wins.length = rs.length := by
    have := List.Forall₂.length_eq hf
    rwa [List.length_zipIdx] at this
  unfold Tuning.replay at hr
  rw [Tuning.plan_eq (k := 0) rfl (by rw [List.length_map]; exact List.Forall₂.length_eq hf)
    (by
      intro i kw hi
      rw [List.getElem?_zipIdx] at hi
      obtain ⟨w, -, rfl⟩ := Option.map_eq_some_iff.1 hi
      rfl)] at hr
  refine ⟨rs.zipIdx.map (fun e => T.setup ((rs.take e.2).map Tuned.params) e.1.params),
    by rw [List.length_map, List.length_zipIdx, hl], ?_, ?_⟩
  · intro k x hx
    rw [List.getElem?_map, List.getElem?_zipIdx] at hx
    obtain ⟨e, he, rfl⟩ := Option.map_eq_some_iff.1 hx
    obtain ⟨r, hr, rfl⟩ := Option.map_eq_some_iff.1 he
    have hk := (List.getElem?_eq_some_iff.1 hr).1
    obtain ⟨r', e1, e2⟩ := (Tuning.walk_study h hw).2 k wins[k] (List.getElem?_eq_getElem (by omega))
    rw [hr] at e1
    cases e1
    obtain ⟨s, hs⟩ := Tuning.chosen_settings hu e2
    refine ⟨r, hr, ?_⟩
    simp only [Nat.zero_add]
    exact Tuning.setup_runOf hs _
  · rw [← hr]
    congr 1
    apply List.ext_getElem
    · simp [hl]
    · intro k h1 h2
      simp [List.map_take]

/-- **C103.**  The result of a single split is a backtest of the values chosen, with a new portfolio,
whose bars are exactly the test dates. -/
theorem split_tested {P : Type} {T : Tuning P} (hu : UniqueBars T.base.rows) {prior : List (Trial P)}
    {r : Tuned P} {st : RunSetup.State} (h : T.optimizeOnce prior = .ok (r, st)) {wins : List WFWindow}
    {win : WFWindow}
    (hw : walkforwardSplit T.base.dates 1 T.base.lookahead T.base.trainSize id = .ok wins)
    (hk : wins[0]? = some win) :
    ∃ selected x, T.select win = .ok selected ∧ RunOf T [] r.params x ∧
      x.runOn 0 selected win.test = .ok st ∧ (st.trace.map Prod.fst).Pairwise (· < ·) ∧
      ∀ d, d ∈ st.trace.map Prod.fst ↔ ∃ i ∈ win.test, T.base.dates[i]? = some d := by
  obtain ⟨win1, rest1, selected, s, hw1, -, hs, hsel, hrun⟩ := Tuning.optimizeOnce_ok h
  rw [hw] at hw1
  cases hw1
  cases hk
  exact ⟨selected, _, hsel, Tuning.setup_runOf hs [], hrun,
    RunSetup.runOn_dates (x := T.setup [] r.params) hu hrun⟩

/-! ## The limits of a run -/

/-- **C106.**  A run with some values never ends with more long or short positions than the
settings of these values allow. -/
theorem limits_of_values {P : Type} {T : Tuning P} (hok : SetupOK T.base) {hist : List P} {p : P}
    {s : OwnSettings}
    (hs : SettingsOf T.sizer (T.base.cfg.maxLong.map Int.ofNat) (T.base.cfg.maxShort.map Int.ofNat)
      (T.own p) s)
    {st : RunSetup.State} (h : (T.setup hist p).run = .ok st) (hres : ResultsOK st.results) :
    (∀ m, s.maxLong = some m → (st.loop.pf.longs.length : Int) ≤ m) ∧
      ∀ m, s.maxShort = some m → (st.loop.pf.shorts.length : Int) ≤ m := by
  have hset : T.settings p = some s := (settings_iff _ _ _ _).2 hs
  obtain ⟨ops, hrun, hfit, -, -⟩ := run_history (Tuning.setup_ok hok hist p) h hres
  obtain ⟨c1, c2⟩ := position_caps hfit hrun
  have e1 : (T.setup hist p).cfg.maxLong = s.maxLong.map Int.toNat := by
    unfold Tuning.setup
    simp only [hset]
  have e2 : (T.setup hist p).cfg.maxShort = s.maxShort.map Int.toNat := by
    unfold Tuning.setup
    simp only [hset]
  constructor
  · intro m hm
    have := c1 m.toNat (by rw [e1, hm]; rfl)
    have := hs.longPos m hm
    omega
  · intro m hm
    have := c2 m.toNat (by rw [e2, hm]; rfl)
    have := hs.shortPos m hm
    omega

/-! ## Examples -/

namespace Demo

def tuRows (l : List ℚ) : List DRow := l.zipIdx.map (fun e => drRow "AAA" (e.2 + 1) e.1)

/-- Ten bars of `AAA`, two windows; buys `p` shares on some dates, with `p` among 5, 20 and
10; the score is the equity. -/
def tuRun : Tuning Nat :=
  { base := { cfg := { cash := 10000 }, cols := ["open", "high", "low", "close"]
              rows := tuRows [100, 100, 110, 100, 90, 80, 90, 100, 110, 120]
              execs := [⟨1, .fixed ["AAA"]⟩], windows := 2, trainSize := 1 / 2
              act := fun _ _ _ _ _ => ([], fun _ => none) }
    act := fun _ p _ d _ _ _ => ([], fun s =>
      if d ∈ [1, 2, 4, 5, 8] then some { symbol := s, date := d, buyShares := some p } else none)
    score := fun _ pf => some pf.equity
    trials := 3
    next := fun _ h => [5, 20, 10][h.length]? }

/-- Other prices on dates 1 and 5 to 10, and other functions there. -/
def tuOther : Tuning Nat :=
  { tuRun with
    base := { tuRun.base with rows := tuRows [7, 100, 110, 100, 1, 2, 3, 4, 5, 6] }
    act := fun h p k d v l s => if d ∈ [2, 3, 4] then tuRun.act h p k d v l s else ([], fun _ => none) }

/-- Other prices and other functions from date 8 on. -/
def tuLate : Tuning Nat :=
  { tuRun with
    base := { tuRun.base with rows := tuRows [100, 100, 110, 100, 90, 80, 90, 10, 200, 20] }
    act := fun h p k d v l s => if d ≤ 7 then tuRun.act h p k d v l s else ([], fun _ => none) }

/-- One trial per window. -/
def tuSame : Tuning Nat := { tuRun with trials := 1 }

def okT {α : Type} (d : α) : Except TuneErr α → α
  | .ok a => a
  | .error _ => d

def isOkT {α : Type} : Except TuneErr α → Bool
  | .ok _ => true
  | .error _ => false

theorem ok_okT {α : Type} {d : α} {e : Except TuneErr α} (h : isOkT e = true) :
    e = .ok (okT d e) := by
  cases e with
  | ok a => rfl
  | error e => cases h

def tuDefault : Tuned Nat := ⟨0, 0, []⟩

def tuStart : RunSetup.State := { loop := { pf := Portfolio.init { cash := 0 } } }

/-- The study of a window. -/
def tuStudy (T : Tuning Nat) (kw : WFWindow × Nat) : Tuned Nat := okT tuDefault (T.windowStudy [] kw)

/-- The end of a walkforward optimization. -/
def tuEnd (T : Tuning Nat) : List (Tuned Nat) × RunSetup.State := okT ([], tuStart) T.optimizeWalk

/-- The end of an optimization over a single split. -/
def tuOnce (T : Tuning Nat) : Tuned Nat × RunSetup.State := okT (tuDefault, tuStart) (T.optimizeOnce [])

theorem tuRun_ok : SetupOK tuRun.base where
  unique := by
    show UniqueBars (tuRows _)
    unfold UniqueBars tuRows
    decide +kernel
  buyDelay := le_refl 1
  sellDelay := le_refl 1
  size := by norm_num [tuRun]
  iter := fun l => List.Perm.refl l
  shuffle := fun l => List.Perm.refl l

theorem tuRun_size : 0 < tuRun.base.trainSize ∧ tuRun.base.trainSize < 1 := by norm_num [tuRun]

theorem tuRun_split : walkforwardSplit tuRun.base.dates tuRun.base.windows tuRun.base.lookahead
    tuRun.base.trainSize id = .ok [⟨[1, 2, 3], [4, 5, 6]⟩, ⟨[4, 5, 6], [7, 8, 9]⟩] := by
  decide +kernel

theorem tu_sameOn (ds : List Date) (l : List (Sym × Date × ℚ × ℚ))
    (h : ∀ e ∈ l, e.2.1 ∈ ds → e.2.2.1 = e.2.2.2) :
    SameOn ds (l.map (fun e => drRow e.1 e.2.1 e.2.2.1)) (l.map (fun e => drRow e.1 e.2.1 e.2.2.2)) := by
  induction l with
  | nil => exact .nil
  | cons e l ih =>
    refine .cons ⟨rfl, rfl, fun hd => ?_⟩ (ih (fun e he => h e (List.mem_cons_of_mem _ he)))
    simp only [drRow, h e List.mem_cons_self hd]

theorem tu_prompt (t : Date) : Prompt { tuRun.base with shuffle := id } t := by
  rintro k win selected ⟨wins, es, _, _, hes, rfl⟩ _ r hr hn
  exfalso
  have hsym : ∀ r ∈ tuRun.base.rows, r.symbol = "AAA" := by decide +kernel
  have hr' := RunSetup.mem_rowsAt.1 hr
  obtain ⟨i, _, hi⟩ := hr'
  rw [hsym r (List.mem_of_getElem? hi)] at hn
  unfold windowExecutions at hes
  split at hes
  · cases hes
  · simp only [tuRun, ExecSyms.isSelector, List.any_cons, List.any_nil, Bool.or_false] at hes
    have := Except.ok.inj hes
    subst this
    exact hn (by decide +kernel)

theorem tu_train : datesOfRows tuRun.base.dates [1, 2, 3] = [2, 3, 4] := by decide +kernel

theorem tu_late : SameUpTo 7 tuRun.base.rows tuLate.base.rows :=
  same_rows 7 [("AAA", 1, 100, 100), ("AAA", 2, 100, 100), ("AAA", 3, 110, 110), ("AAA", 4, 100, 100),
    ("AAA", 5, 90, 90), ("AAA", 6, 80, 80), ("AAA", 7, 90, 90), ("AAA", 8, 100, 10),
    ("AAA", 9, 110, 200), ("AAA", 10, 120, 20)] (by decide +kernel)

end Demo

/-- The first window chooses 5, also when the data and functions differ outside its training
dates 2 to 4. -/
example := tuning_uses_training (T := Demo.tuRun) (kw := (⟨[1, 2, 3], [4, 5, 6]⟩, 0))
  (rows' := Demo.tuOther.base.rows) (act' := Demo.tuOther.act)
  (orderSlip' := Demo.tuRun.orderSlip) (exitSlip' := Demo.tuRun.exitSlip) Demo.tuRun_ok.unique
  (by
    show SameOn (datesOfRows Demo.tuRun.base.dates [1, 2, 3]) _ _
    rw [Demo.tu_train]
    exact Demo.tu_sameOn [2, 3, 4] [("AAA", 1, 100, 7), ("AAA", 2, 100, 100), ("AAA", 3, 110, 110),
      ("AAA", 4, 100, 100), ("AAA", 5, 90, 1), ("AAA", 6, 80, 2), ("AAA", 7, 90, 3),
      ("AAA", 8, 100, 4), ("AAA", 9, 110, 5), ("AAA", 10, 120, 6)] (by decide +kernel))
  (by
    show ∀ p, ∀ d ∈ datesOfRows Demo.tuRun.base.dates [1, 2, 3], _
    rw [Demo.tu_train]
    intro p d hd
    funext v l s
    exact if_pos hd) (fun _ _ _ => rfl) (fun _ _ _ => rfl) []

example : (Demo.tuStudy Demo.tuOther (⟨[1, 2, 3], [4, 5, 6]⟩, 0)).params = 5 ∧
    ((Demo.tuEnd Demo.tuRun).1.map Tuned.params = [5, 20] ∧
      (Demo.tuEnd Demo.tuOther).1.map Tuned.params = [5, 5]) := by decide +kernel

theorem Demo.tu_other : SameOn [2, 3, 4] Demo.tuRun.base.rows Demo.tuOther.base.rows :=
  Demo.tu_sameOn [2, 3, 4] [("AAA", 1, 100, 7), ("AAA", 2, 100, 100), ("AAA", 3, 110, 110),
    ("AAA", 4, 100, 100), ("AAA", 5, 90, 1), ("AAA", 6, 80, 2), ("AAA", 7, 90, 3),
    ("AAA", 8, 100, 4), ("AAA", 9, 110, 5), ("AAA", 10, 120, 6)] (by decide +kernel)

example := walk_uses_training (T := Demo.tuRun) (k := 0) (win := ⟨[1, 2, 3], [4, 5, 6]⟩)
  (rows' := Demo.tuOther.base.rows) (act' := Demo.tuOther.act)
  (orderSlip' := Demo.tuRun.orderSlip) (exitSlip' := Demo.tuRun.exitSlip) Demo.tuRun_ok.unique
  Demo.tuRun_split rfl (by rw [Demo.tu_train]; exact Demo.tu_other)
  (by
    rw [Demo.tu_train]
    intro p d hd
    funext v l s
    exact if_pos hd) (fun _ _ _ => rfl) (fun _ _ _ => rfl)
  (rs := (Demo.tuEnd Demo.tuRun).1) (st := (Demo.tuEnd Demo.tuRun).2)
  (rs' := (Demo.tuEnd Demo.tuOther).1) (st' := (Demo.tuEnd Demo.tuOther).2)
  (Demo.ok_okT (by decide +kernel)) (Demo.ok_okT (by decide +kernel))

theorem Demo.tu_once : walkforwardSplit Demo.tuRun.base.dates 1 Demo.tuRun.base.lookahead
    Demo.tuRun.base.trainSize id = .ok [⟨[0, 1, 2, 3, 4], [5, 6, 7, 8, 9]⟩] := by
  decide +kernel

theorem Demo.tu_first : datesOfRows Demo.tuRun.base.dates [0, 1, 2, 3, 4] = [1, 2, 3, 4, 5] := by
  decide +kernel

/-- A single split whose data and functions differ from date 8 on. -/
example := split_uses_training (T := Demo.tuRun) (win := ⟨[0, 1, 2, 3, 4], [5, 6, 7, 8, 9]⟩)
  (rows' := Demo.tuLate.base.rows) (act' := Demo.tuLate.act)
  (orderSlip' := Demo.tuRun.orderSlip) (exitSlip' := Demo.tuRun.exitSlip) Demo.tuRun_ok.unique
  Demo.tu_once rfl
  (by
    rw [Demo.tu_first]
    exact Demo.tu_sameOn [1, 2, 3, 4, 5] [("AAA", 1, 100, 100), ("AAA", 2, 100, 100),
      ("AAA", 3, 110, 110), ("AAA", 4, 100, 100), ("AAA", 5, 90, 90), ("AAA", 6, 80, 80),
      ("AAA", 7, 90, 90), ("AAA", 8, 100, 10), ("AAA", 9, 110, 200), ("AAA", 10, 120, 20)]
      (by decide +kernel))
  (by
    rw [Demo.tu_first]
    intro p d hd
    have : d ≤ 7 := (by decide : ∀ d ∈ ([1, 2, 3, 4, 5] : List Date), d ≤ 7) d hd
    funext v l s
    exact if_pos this) (fun _ _ _ => rfl) (fun _ _ _ => rfl) (prior := [])
  (r := (Demo.tuOnce Demo.tuRun).1) (st := (Demo.tuOnce Demo.tuRun).2)
  (r' := (Demo.tuOnce Demo.tuLate).1) (st' := (Demo.tuOnce Demo.tuLate).2)
  (Demo.ok_okT (by decide +kernel)) (Demo.ok_okT (by decide +kernel))

example := (optimized_best (T := Demo.tuRun) Demo.tuRun_ok.unique).1 _ _ _
  (Demo.ok_okT (d := ([], Demo.tuStart)) (by decide +kernel)) Demo.tuRun_split
example := (optimized_best (T := Demo.tuRun) Demo.tuRun_ok.unique).2 [] _ _ _ _
  (Demo.ok_okT (d := (Demo.tuDefault, Demo.tuStart)) (by decide +kernel)) Demo.tu_once rfl
example := split_tested (T := Demo.tuRun) Demo.tuRun_ok.unique (prior := [])
  (Demo.ok_okT (d := (Demo.tuDefault, Demo.tuStart)) (by decide +kernel)) Demo.tu_once rfl
example := stitched_run (T := Demo.tuRun) Demo.tuRun_ok.unique
  (Demo.ok_okT (d := ([], Demo.tuStart)) (by decide +kernel)) Demo.tuRun_split

/-- A limit set on the strategy: one long position, of the two it would like. -/
def Demo.tuLimit : Tuning Nat :=
  { Demo.tuRun with
    base := { Demo.tuRun.base with
              rows := (List.range 6).flatMap (fun i => [Demo.drRow "AAA" (i + 1) 10, Demo.drRow "BBB" (i + 1) 10])
              execs := [⟨1, .fixed ["AAA", "BBB"]⟩]
              cfg := { cash := 10000, maxLong := some 2 } }
    own := fun p => { maxLong := some p }
    act := fun _ _ _ _ _ _ _ => ([], fun s => some { symbol := s, date := 0, buyShares := some 1 }) }

def Demo.tuLimitEnd (p : Nat) : RunSetup.State := Demo.okR Demo.tuStart ((Demo.tuLimit.setup [] p).run)

theorem Demo.tuLimit_results :
    (∀ r ∈ (Demo.tuLimitEnd 1).results,
      (∀ st ∈ r.longStops, st.posType = .long ∧ st.symbol = r.symbol) ∧
      ∀ st ∈ r.shortStops, st.posType = .short ∧ st.symbol = r.symbol) ∧
    (∀ r ∈ (Demo.tuLimitEnd 1).results, r.buyShares = none ∨ r.sellShares = none) ∧
    (((Demo.tuLimitEnd 1).results.flatMap (fun r => r.longStops ++ r.shortStops)).map Stop.id).Nodup := by
  decide +kernel

example := limits_of_values (T := Demo.tuLimit) (hist := []) (p := 1) (s := ⟨some 1, none, none⟩)
  ⟨by
    show UniqueBars (List.flatMap _ _)
    unfold UniqueBars
    decide +kernel, le_refl 1, le_refl 1, by norm_num [Demo.tuLimit, Demo.tuRun], fun l => List.Perm.refl l,
    fun l => List.Perm.refl l⟩
  ((settings_iff false (some 2, none) { maxLong := some 1 } ⟨some 1, none, none⟩).1 (by decide +kernel))
  (st := Demo.tuLimitEnd 1) (Demo.ok_okR (by decide +kernel))
  ⟨Demo.tuLimit_results.1, Demo.tuLimit_results.2.1, Demo.tuLimit_results.2.2⟩

example : (Demo.tuLimitEnd 1).loop.pf.longs.length = 1 ∧ (Demo.tuLimitEnd 2).loop.pf.longs.length = 2 := by
  decide +kernel

/-- The trials of the first window. -/
example := tuned_best (T := Demo.tuRun) (kw := (⟨[1, 2, 3], [4, 5, 6]⟩, 0)) (prior := [])
  (r := Demo.tuStudy Demo.tuRun (⟨[1, 2, 3], [4, 5, 6]⟩, 0)) Demo.tuRun_ok.unique
  (Demo.ok_okT (by decide +kernel))

example : (Demo.tuStudy Demo.tuRun (⟨[1, 2, 3], [4, 5, 6]⟩, 0)).trials =
    [⟨5, some 9950⟩, ⟨20, some 9800⟩, ⟨10, some 9900⟩] := by decide +kernel

/-- With one trial per window the stitched result is that of a walkforward run with 5. -/
example := stitched_walkforward (T := Demo.tuSame) Demo.tuRun_ok.unique (rs := (Demo.tuEnd Demo.tuSame).1)
  (st := (Demo.tuEnd Demo.tuSame).2) (p := 5) (Demo.ok_okT (by decide +kernel))
  (by decide +kernel) (fun _ => rfl) (fun _ => rfl) (fun _ => rfl)

example : (Demo.tuEnd Demo.tuSame).2.trace.map (fun e => (e.1, e.2.pf.cash)) =
    [(5, 10000), (6, 9600), (7, 9600), (8, 9600), (9, 9050), (10, 9050)] := by decide +kernel

/-- Other prices and functions from date 8 on. -/
example := tuning_no_lookahead_partial (T := Demo.tuRun) Demo.tuRun_ok Demo.tuRun_size (t := 7)
  (rows' := Demo.tuLate.base.rows) (act' := Demo.tuLate.act)
  (orderSlip' := Demo.tuRun.orderSlip) (exitSlip' := Demo.tuRun.exitSlip) Demo.tu_late
  (fun h p k d hd => by
    funext v l s
    exact if_pos hd) (fun _ _ _ _ _ => rfl) (fun _ _ _ _ _ => rfl)
  (rs := (Demo.tuEnd Demo.tuRun).1) (st := (Demo.tuEnd Demo.tuRun).2)
  (rs' := (Demo.tuEnd Demo.tuLate).1) (st' := (Demo.tuEnd Demo.tuLate).2)
  (Demo.ok_okT (by decide +kernel)) (Demo.ok_okT (by decide +kernel)) (Demo.tu_prompt 7)

example : (Demo.tuEnd Demo.tuRun).2.loop.pf.cash ≠ (Demo.tuEnd Demo.tuLate).2.loop.pf.cash := by
  decide +kernel

/-- The same with a single split, whose test begins on date 6. -/
example := split_no_lookahead (T := Demo.tuRun) Demo.tuRun_ok Demo.tuRun_size (t := 7)
  (rows' := Demo.tuLate.base.rows) (act' := Demo.tuLate.act)
  (orderSlip' := Demo.tuRun.orderSlip) (exitSlip' := Demo.tuRun.exitSlip) Demo.tu_late
  (fun h p k d hd => by
    funext v l s
    exact if_pos hd) (fun _ _ _ _ _ => rfl) (fun _ _ _ _ _ => rfl) (prior := [])
  (r := (Demo.tuOnce Demo.tuRun).1) (st := (Demo.tuOnce Demo.tuRun).2)
  (r' := (Demo.tuOnce Demo.tuLate).1) (st' := (Demo.tuOnce Demo.tuLate).2)
  (Demo.ok_okT (by decide +kernel)) (Demo.ok_okT (by decide +kernel))

example : (Demo.tuOnce Demo.tuRun).2.trace.map Prod.fst = [6, 7, 8, 9, 10] ∧
    (Demo.tuOnce Demo.tuRun).1.params = 5 := by decide +kernel

example : resolveSettings true (some 3, none) ⟨some 2, some 4, some 4⟩ =
      some ⟨some 2, some 4, some 4⟩ ∧
    resolveSettings false (some 3, none) ⟨none, none, none⟩ = some ⟨some 3, none, none⟩ ∧
    resolveSettings false (none, none) ⟨none, none, some 4⟩ = none ∧
    resolveSettings false (some 5, none) ⟨none, none, some 4⟩ = none := by decide

/-- The full claim of C104 is false, as for C100: with one candidate per window, `AAA` is dropped
by the second window and sold before its first bar at the price of date 7. -/
theorem tuning_sees_ahead : ¬ ∀ (T : Tuning Nat) (t : Date) (rows' : List DRow)
    (rs rs' : List (Tuned Nat)) (st st' : RunSetup.State), SetupOK T.base →
    SameUpTo t T.base.rows rows' → T.optimizeWalk = .ok (rs, st) →
    Tuning.optimizeWalk { T with base := { T.base with rows := rows' } } = .ok (rs', st') →
    st.trace.filter (fun e => e.1 ≤ t) = st'.trace.filter (fun e => e.1 ≤ t) := by
  intro h
  let T : Tuning Nat :=
    { base := Demo.laRun, act := fun _ _ => Demo.laRun.act, score := fun _ pf => some pf.equity
      trials := 1, next := fun _ _ => some 0 }
  let T' : Tuning Nat := { T with base := { T.base with rows := Demo.laRows 150 } }
  have h1 := h T 6 (Demo.laRows 150) (Demo.tuEnd T).1 (Demo.tuEnd T').1 (Demo.tuEnd T).2
    (Demo.tuEnd T').2
    ⟨by show UniqueBars (Demo.laRows 100); unfold UniqueBars Demo.laRows; decide +kernel,
      le_refl 1, le_refl 1, by norm_num [T, Demo.laRun], fun l => List.Perm.refl l,
      fun l => List.Perm.refl l⟩
    (Demo.same_rows 6 [("BBB", 1, 20, 20), ("AAA", 2, 100, 100), ("BBB", 2, 20, 20),
      ("AAA", 3, 100, 100), ("BBB", 3, 20, 20), ("AAA", 4, 100, 100), ("BBB", 4, 20, 20),
      ("AAA", 5, 100, 100), ("BBB", 5, 20, 20), ("BBB", 6, 20, 20), ("AAA", 7, 100, 150),
      ("BBB", 7, 20, 20)] (by decide +kernel))
    (Demo.ok_okT (by decide +kernel)) (Demo.ok_okT (by decide +kernel))
  have h2 : ((Demo.tuEnd T).2.trace.filter (fun e => e.1 ≤ 6)).map
        (fun e => (e.1, e.2.pf.cash)) = [(4, 10000), (5, 9000), (6, 10000)] ∧
      ((Demo.tuEnd T').2.trace.filter (fun e => e.1 ≤ 6)).map
        (fun e => (e.1, e.2.pf.cash)) = [(4, 10000), (5, 9000), (6, 10500)] := by decide +kernel
  rw [h1, h2.2] at h2
  exact absurd h2.1 (by decide +kernel)

end PyBroker
