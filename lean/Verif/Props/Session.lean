import Verif.Backtest.Session
import Verif.Props.Learn

/-!
# State that user code keeps: C152 and C153
-/

namespace PyBroker

open Spec

namespace Stateful

open RunSetup (each each_append)

variable {σ : Type}

/-! ## A run with state is a run -/

/-- The strategy, when its state on a bar is `m k d`. -/
def fixed (X : Stateful σ) (m : Nat → Date → σ) : RunSetup :=
  { X.setup with act := fun k d b l r => (X.user ⟨k, d, b, l, r⟩ (m k d)).1 }

theorem bar_act {x : RunSetup} {act' : Nat → Date → (Sym → Option SymArrays) → Loop → List Sym →
      List UserOp × (Sym → Option ExecResult)} {k : Nat} {w : Window} {store : Store} {cal : List Date}
    {sd : List (Sym × List Date)} {st : RunSetup.State} {d : Date} (h : act' k d = x.act k d) :
    ({ x with act := act' } : RunSetup).bar k w store cal sd st d = x.bar k w store cal sd st d := by
  unfold RunSetup.bar
  simp only [h]
  rfl

theorem each_congr {α β : Type} {f g : β → α → Except RunErr β} : ∀ {l : List α} {b : β},
    (∀ b, ∀ a ∈ l, f b a = g b a) → each f b l = each g b l := by
  intro l
  induction l with
  | nil => intro b _; rfl
  | cons a l ih =>
    intro b h
    simp only [each]
    rw [h b a List.mem_cons_self]
    split
    · rfl
    · exact ih (fun b a' ha' => h b a' (List.mem_cons_of_mem _ ha'))

theorem bars_plain {X : Stateful σ} {k : Nat} {w : Window} {store : Store} {cal : List Date}
    {sd : List (Sym × List Date)} : ∀ {ds : List Date} {s s1 : State σ}, ds.Nodup →
      each (X.bar k w store cal sd) s ds = .ok s1 →
      ∃ m : Date → σ, ∀ m' : Nat → Date → σ, (∀ d ∈ ds, m' k d = m d) →
        each ((X.fixed m').bar k w store cal sd) s.run ds = .ok s1.run := by
  intro ds
  induction ds with
  | nil =>
    intro s s1 _ h
    cases h
    exact ⟨fun _ => s.mem, fun _ _ => rfl⟩
  | cons d ds ih =>
    intro s s1 hn h
    obtain ⟨hd, hn⟩ := List.nodup_cons.1 hn
    unfold each at h
    split at h
    · cases h
    rename_i s2 h2
    obtain ⟨m, hm⟩ := ih hn h
    refine ⟨fun d' => if d' = d then s.mem else m d', fun m' hm' => ?_⟩
    have e1 : (X.fixed m').bar k w store cal sd s.run d = .ok s2.run := by
      have : (X.fixed m').bar k w store cal sd s.run d = (X.on s.mem).bar k w store cal sd s.run d := by
        refine bar_act (x := X.on s.mem) ?_
        have e : m' k d = s.mem := (hm' d List.mem_cons_self).trans (if_pos rfl)
        funext b l r
        rw [e]
        rfl
      rw [this]
      unfold bar at h2
      split at h2
      · cases h2
      · rename_i st e
        cases h2
        exact e
    unfold each
    rw [e1]
    refine hm m' (fun d' hd' => ?_)
    refine (hm' d' (List.mem_cons_of_mem _ hd')).trans (if_neg ?_)
    rintro rfl
    exact hd hd'

theorem window_plain {X : Stateful σ} {s s1 : State σ} {kw : WFWindow × Nat}
    (h : X.runOne s kw = .ok s1) :
    ∃ m : Date → σ, ∀ m' : Nat → Date → σ, (∀ d, m' kw.2 d = m d) →
      (X.fixed m').runOne s.run kw = .ok s1.run := by
  unfold runOne at h
  simp only at h
  split at h
  · cases h
  rename_i es hes
  split at h
  swap
  · cases h
  rename_i hc
  split at h
  · cases h
  rename_i l1 h1
  have key : ∀ m' : Nat → Date → σ, (X.fixed m').runOne s.run kw =
      (if kw.1.test = [] then .ok
        { loop := { l1 with covers := [], buys := [], sells := [] }, idx := fun _ => 0,
          turns := s.run.turns, results := s.run.results, trace := s.run.trace }
      else each ((X.fixed m').bar kw.2 (X.setup.window kw.2 (selectedSymbols es) kw.1
          ((storeOf X.setup.cols X.setup.rows).slice (datesOfRows X.setup.dates kw.1.test)))
          ((storeOf X.setup.cols X.setup.rows).slice (datesOfRows X.setup.dates kw.1.test))
          ((storeOf X.setup.cols X.setup.rows).slice (datesOfRows X.setup.dates kw.1.test)).uniqueDates
          (symExecDates ((storeOf X.setup.cols X.setup.rows).slice
            (datesOfRows X.setup.dates kw.1.test)) (selectedSymbols es)))
        { loop := { l1 with covers := [], buys := [], sells := [] }, idx := fun _ => 0,
          turns := s.run.turns, results := s.run.results, trace := s.run.trace }
        ((storeOf X.setup.cols X.setup.rows).slice
          (datesOfRows X.setup.dates kw.1.test)).uniqueDates) := by
    intro m'
    unfold RunSetup.runOne
    simp only
    erw [hes]
    simp only
    erw [if_pos hc, h1]
    rfl
  split at h
  · rename_i ht
    cases h
    refine ⟨fun _ => s.mem, fun m' _ => ?_⟩
    rw [key, if_pos ht]
  · rename_i ht
    obtain ⟨m, hm⟩ := bars_plain
      ((RunSetup.uniqueDates_sorted _).imp (fun h => (ne_of_lt h))) h
    refine ⟨m, fun m' hm' => ?_⟩
    rw [key, if_neg ht]
    exact hm m' (fun d _ => hm' d)

theorem windows_plain {X : Stateful σ} : ∀ {kws : List (WFWindow × Nat)} {s s1 : State σ},
    (kws.map Prod.snd).Nodup → each X.runOne s kws = .ok s1 →
      ∃ m : Nat → Date → σ, ∀ m' : Nat → Date → σ, (∀ kw ∈ kws, m' kw.2 = m kw.2) →
        each (X.fixed m').runOne s.run kws = .ok s1.run := by
  intro kws
  induction kws with
  | nil =>
    intro s s1 _ h
    cases h
    exact ⟨fun _ _ => s.mem, fun _ _ => rfl⟩
  | cons kw kws ih =>
    intro s s1 hn h
    obtain ⟨hk, hn⟩ := List.nodup_cons.1 hn
    unfold each at h
    split at h
    · cases h
    rename_i s2 h2
    obtain ⟨m, hm⟩ := ih hn h
    obtain ⟨m0, hm0⟩ := window_plain h2
    refine ⟨fun k => if k = kw.2 then m0 else m k, fun m' hm' => ?_⟩
    unfold each
    rw [hm0 m' (fun d => congrFun ((hm' kw List.mem_cons_self).trans (if_pos rfl)) d)]
    refine hm m' (fun kw' hkw' => ?_)
    refine (hm' kw' (List.mem_cons_of_mem _ hkw')).trans (if_neg ?_)
    intro e
    exact hk (List.mem_map.2 ⟨kw', hkw', e⟩)

/-! ## What user code is given -/

/-- The same strategy on other data, with other functions and slippage models. -/
abbrev alter (X : Stateful σ) (rows' : List DRow)
    (user' : Given → σ → (List UserOp × (Sym → Option ExecResult)) × σ)
    (orderSlip' : Nat → Date → Option SlipModel) (exitSlip' : Nat → Date → Option SlipFn) : Stateful σ :=
  { setup := { X.setup with rows := rows', orderSlip := orderSlip', exitSlip := exitSlip' }
    start := X.start
    user := user' }

variable {X : Stateful σ} {rows' : List DRow}
  {user' : Given → σ → (List UserOp × (Sym → Option ExecResult)) × σ}
  {orderSlip' : Nat → Date → Option SlipModel} {exitSlip' : Nat → Date → Option SlipFn}

theorem given_date {x : RunSetup} {k : Nat} {store : Store} {cal : List Date}
    {sd : List (Sym × List Date)} {st : RunSetup.State} {d : Date} {g : Given}
    (h : x.given k store cal sd st d = some g) : g.date = d ∧ g.window = k := by
  unfold RunSetup.given at h
  simp only at h
  split at h
  · cases h
  · cases h
    exact ⟨rfl, rfl⟩

theorem given_some {X : Stateful σ} {k : Nat} {w : Window} {store : Store} {cal : List Date}
    {sd : List (Sym × List Date)} {s : State σ} {d : Date} {s1 : State σ}
    (h : X.bar k w store cal sd s d = .ok s1) :
    ∃ g, X.setup.given k store cal sd s.run d = some g ∧ s1.mem = (X.user g s.mem).2 ∧
      s1.log = s.log ++ [(g, s.mem)] ∧ (X.on s.mem).bar k w store cal sd s.run d = .ok s1.run := by
  unfold bar at h
  split at h
  · cases h
  rename_i st e
  cases h
  have : ∃ g, X.setup.given k store cal sd s.run d = some g := by
    unfold RunSetup.bar at e
    simp only at e
    unfold RunSetup.given
    simp only
    split at e
    · cases e
    · rename_i s1 e1
      have e1' : barOrders X.setup.cfg (X.setup.barEnv k store
        (bumpIndexes (activeSyms sd cal d) s.run.idx) d) s.run.loop = .ok s1 := e1
      rw [e1']
      exact ⟨_, rfl⟩
  obtain ⟨g, hg⟩ := this
  exact ⟨g, hg, by rw [hg]; rfl, by rw [hg]; rfl, e⟩

theorem given_same {x : RunSetup} {t : Date} (hu : UniqueBars x.rows) (h : SameUpTo t x.rows rows')
    (ho : ∀ k d, d ≤ t → orderSlip' k d = x.orderSlip k d)
    (he : ∀ k d, d ≤ t → exitSlip' k d = x.exitSlip k d)
    {k : Nat} {window : List Date} {selected : List Sym} {d : Date} (hd : d ≤ t)
    {st st' : RunSetup.State}
    (hidx : bumpIndexes (activeSyms (symExecDates (x.store window) selected)
      (x.store window).uniqueDates d) st.idx = x.idxOn window selected d)
    (hi : st'.idx = st.idx) (hl : st'.loop = st.loop) :
    (x.alter rows' x.act orderSlip' exitSlip').given k
        ((x.alter rows' x.act orderSlip' exitSlip').store window)
        (x.store window).uniqueDates (symExecDates (x.store window) selected) st' d =
      x.given k (x.store window) (x.store window).uniqueDates (symExecDates (x.store window) selected)
        st d := by
  have hsame : SameBars (x.store window) ((x.alter rows' x.act orderSlip' exitSlip').store window)
      (x.idxOn window selected d) :=
    RunSetup.sliced_same hu h window (RunSetup.idx_early hu window selected hd)
  unfold RunSetup.given
  simp only
  rw [hi, hl, hidx, ← RunSetup.barEnv_same hsame (ho k d hd) (he k d hd)]
  have hview : (fun s => (((x.alter rows' x.act orderSlip' exitSlip').store window).arrays s).map
      (fun a => a.upTo (x.idxOn window selected d s))) = (fun s => ((x.store window).arrays s).map
      (fun a => a.upTo (x.idxOn window selected d s))) := by
    funext s
    exact (hsame s).symm
  rw [hview]
  rfl

/-- What is the same of two runs up to a date. -/
def Same (t : Date) (s s' : State σ) : Prop :=
  s.run.trace.filter (fun e => e.1 ≤ t) = s'.run.trace.filter (fun e => e.1 ≤ t) ∧
    s.log.filter (fun e => e.1.date ≤ t) = s'.log.filter (fun e => e.1.date ≤ t)

theorem bars_log {X : Stateful σ} {k : Nat} {w : Window} {store : Store} {cal : List Date}
    {sd : List (Sym × List Date)} : ∀ {ds : List Date} {s s1 : State σ},
    each (X.bar k w store cal sd) s ds = .ok s1 →
      (∃ more, s1.log = s.log ++ more ∧ more.map (fun e => e.1.date) = ds) ∧
      ∃ more, s1.run.trace = s.run.trace ++ more ∧ more.map Prod.fst = ds := by
  intro ds
  induction ds with
  | nil =>
    intro s s1 h
    cases h
    exact ⟨⟨[], by simp, rfl⟩, ⟨[], by simp, rfl⟩⟩
  | cons d ds ih =>
    intro s s1 h
    unfold each at h
    split at h
    · cases h
    rename_i s2 h2
    obtain ⟨⟨more, h3, h4⟩, ⟨more', h3', h4'⟩⟩ := ih h
    obtain ⟨g, hg, _, hlog, hrun⟩ := given_some h2
    refine ⟨⟨(g, s.mem) :: more, ?_, ?_⟩, ⟨(d, s2.run.loop) :: more', ?_, by simp [h4']⟩⟩
    · rw [h3, hlog, List.append_assoc]
      rfl
    · simp [h4, (given_date hg).1]
    · rw [h3', RunSetup.bar_trace hrun, List.append_assoc]
      rfl

theorem late_nil {α : Type} {f : α → Date} {t : Date} {m : List α} {ds : List Date}
    (hm : m.map f = ds) (hlate : ∀ e ∈ ds, ¬ e ≤ t) : m.filter (fun e => f e ≤ t) = [] := by
  rw [List.filter_eq_nil_iff]
  intro e he
  have := hlate (f e) (by rw [← hm]; exact List.mem_map.2 ⟨e, he, rfl⟩)
  simpa using this

theorem bars_late {X X' : Stateful σ} {k k' : Nat} {w w' : Window} {store store' : Store}
    {cal cal' : List Date} {sd sd' : List (Sym × List Date)} {t : Date} {ds : List Date}
    {s s1 s' s1' : State σ} (hlate : ∀ e ∈ ds, ¬ e ≤ t) (h : Same t s s')
    (h1 : each (X.bar k w store cal sd) s ds = .ok s1)
    (h2 : each (X'.bar k' w' store' cal' sd') s' ds = .ok s1') : Same t s1 s1' := by
  obtain ⟨⟨m, e1, f1⟩, ⟨n, e2, f2⟩⟩ := bars_log h1
  obtain ⟨⟨m', e1', f1'⟩, ⟨n', e2', f2'⟩⟩ := bars_log h2
  constructor
  · rw [e2, e2', List.filter_append, List.filter_append, h.1, late_nil f2 hlate, late_nil f2' hlate]
  · rw [e1, e1', List.filter_append, List.filter_append, h.2, late_nil f1 hlate, late_nil f1' hlate]

theorem bars_same {t : Date} (hu : UniqueBars X.setup.rows) (h : SameUpTo t X.setup.rows rows')
    (huser : ∀ g, g.date ≤ t → user' g = X.user g)
    (ho : ∀ k d, d ≤ t → orderSlip' k d = X.setup.orderSlip k d)
    (he : ∀ k d, d ≤ t → exitSlip' k d = X.setup.exitSlip k d)
    {k : Nat} {w w' : Window} (hw : w' = { w with boundary := w'.boundary })
    {window : List Date} {selected : List Sym} :
    ∀ {rest pre : List Date} {s s' s1 s1' : State σ},
      (X.setup.store window).uniqueDates = pre ++ rest →
      s.run.idx = endIndexes (symExecDates (X.setup.store window) selected)
        (X.setup.store window).uniqueDates pre →
      s'.run.idx = s.run.idx → s'.run.loop = s.run.loop → s'.mem = s.mem → Same t s s' →
      each (X.bar k w (X.setup.store window) (X.setup.store window).uniqueDates
        (symExecDates (X.setup.store window) selected)) s rest = .ok s1 →
      each ((X.alter rows' user' orderSlip' exitSlip').bar k w'
        ((X.alter rows' user' orderSlip' exitSlip').setup.store window)
        (X.setup.store window).uniqueDates (symExecDates (X.setup.store window) selected)) s' rest =
          .ok s1' →
      Same t s1 s1' ∧
        ((∀ d ∈ rest, d ≤ t) → s1'.run.loop = s1.run.loop ∧ s1'.mem = s1.mem) := by
  intro rest
  induction rest with
  | nil =>
    intro pre s s' s1 s1' _ _ _ hl hm ht h1 h2
    cases h1
    cases h2
    exact ⟨ht, fun _ => ⟨hl, hm⟩⟩
  | cons d rest ih =>
    intro pre s s' s1 s1' hcal hidx hi hl hm ht h1 h2
    have hsorted := RunSetup.uniqueDates_sorted (X.setup.store window)
    rw [hcal] at hsorted
    by_cases hd : d ≤ t
    · unfold each at h1 h2
      split at h1
      · cases h1
      rename_i r1 e1
      split at h2
      · cases h2
      rename_i r1' e2
      obtain ⟨g, hg, hmem, hlog, hrun⟩ := given_some e1
      obtain ⟨g', hg', hmem', hlog', hrun'⟩ := given_some e2
      have hidx1 : r1.run.idx = endIndexes (symExecDates (X.setup.store window) selected)
          (X.setup.store window).uniqueDates (pre ++ [d]) := by
        rw [RunSetup.bar_idx hrun, hidx]
        unfold endIndexes
        rw [List.foldl_append]
        rfl
      have hb : bumpIndexes (activeSyms (symExecDates (X.setup.store window) selected)
          (X.setup.store window).uniqueDates d) s.run.idx = X.setup.idxOn window selected d := by
        unfold RunSetup.idxOn
        rw [hidx]
        conv_rhs => rw [show (X.setup.store window).uniqueDates.filter (· ≤ d) = pre ++ [d] by
          rw [hcal]
          exact RunSetup.filter_le_append hsorted]
        unfold endIndexes
        rw [List.foldl_append]
        rfl
      have hgg : g' = g := by
        have := given_same (x := X.setup) (k := k) hu h ho he hd hb hi hl
        exact Option.some.inj (hg'.symm.trans (this.trans hg))
      subst hgg
      have hu' : user' g' = X.user g' := huser g' (by rw [(given_date hg).1]; exact hd)
      obtain ⟨hl1, hi1⟩ := RunSetup.bar_same (x := X.on s.mem)
        (act' := ((X.alter rows' user' orderSlip' exitSlip').on s'.mem).act)
        (orderSlip' := orderSlip') (exitSlip' := exitSlip') (last := X.setup.rows) (last' := rows')
        hu h h (fun k d hd => by
          funext b l r
          show (user' ⟨k, d, b, l, r⟩ s'.mem).1 = (X.user ⟨k, d, b, l, r⟩ s.mem).1
          rw [huser ⟨k, d, b, l, r⟩ hd, hm]) ho he hw hd hb hi hl hrun hrun'
      obtain ⟨h3, h4⟩ := ih (pre := pre ++ [d]) (by rw [hcal]; simp) hidx1 hi1 hl1
        (by
          rw [hmem', hmem, hm]
          show (user' g' s.mem).2 = _
          rw [hu'])
        ⟨by rw [RunSetup.bar_trace hrun, RunSetup.bar_trace hrun', List.filter_append,
              List.filter_append, ht.1, hl1],
          by rw [hlog, hlog', List.filter_append, List.filter_append, ht.2, hm]⟩ h1 h2
      exact ⟨h3, fun hall => h4 (fun e he => hall e (List.mem_cons_of_mem _ he))⟩
    · have hlate : ∀ e ∈ d :: rest, ¬ e ≤ t := by
        intro e he
        rcases List.mem_cons.1 he with rfl | he
        · exact hd
        · have := (List.pairwise_cons.1 (List.pairwise_append.1 hsorted).2.1).1 e he
          exact fun hle => hd (le_trans this.le hle)
      exact ⟨bars_late hlate ht h1 h2, fun hall => absurd (hall d List.mem_cons_self) hd⟩

theorem runOne_same {t : Date} (hok : SetupOK X.setup) (h : SameUpTo t X.setup.rows rows')
    (huser : ∀ g, g.date ≤ t → user' g = X.user g)
    (ho : ∀ k d, d ≤ t → orderSlip' k d = X.setup.orderSlip k d)
    (he : ∀ k d, d ≤ t → exitSlip' k d = X.setup.exitSlip k d) {wins : List WFWindow}
    (hw : walkforwardSplit X.setup.dates X.setup.windows X.setup.lookahead X.setup.trainSize
      X.setup.shuffle = .ok wins)
    {kw : WFWindow × Nat} (hk : wins[kw.2]? = some kw.1)
    (hearly : ∃ d ∈ X.setup.testDates kw.1, d ≤ t) {s s' s1 s1' : State σ}
    (hl : s'.run.loop = s.run.loop) (hm : s'.mem = s.mem) (ht : Same t s s')
    (hdrop : ∀ es, windowExecutions (fun d : List DRow => (d.map DRow.symbol).dedup) List.isEmpty
      X.setup.execs (X.setup.rowsAt kw.1.train) = .ok es →
      ∀ sym ∈ droppedSyms s.run.loop.pf (selectedSymbols es),
      ∀ r ∈ X.setup.rowsAt kw.1.test, r.symbol = sym →
        ∃ r' ∈ X.setup.rowsAt kw.1.test, r'.symbol = sym ∧ r'.date ≤ t)
    (h1 : X.runOne s kw = .ok s1)
    (h2 : (X.alter rows' user' orderSlip' exitSlip').runOne s' kw = .ok s1') :
    Same t s1 s1' ∧
      ((∀ d ∈ X.setup.testDates kw.1, d ≤ t) → s1'.run.loop = s1.run.loop ∧ s1'.mem = s1.mem) := by
  have htest : kw.1.test ≠ [] := by
    intro hn
    obtain ⟨d, hd, _⟩ := hearly
    obtain ⟨i, hi, _⟩ := RunSetup.mem_testDates.1 hd
    rw [hn] at hi
    cases hi
  unfold runOne at h1 h2
  simp only at h1 h2
  rw [RunSetup.train_same (act' := X.setup.act) (orderSlip' := orderSlip') (exitSlip' := exitSlip')
    hok h hw hk hearly, RunSetup.dates_same (act' := X.setup.act) (orderSlip' := orderSlip')
    (exitSlip' := exitSlip') h] at h2
  split at h1
  · cases h1
  rename_i es hes
  rw [hes] at h2
  simp only at h2
  split at h1
  swap
  · cases h1
  split at h2
  swap
  · cases h2
  have hstart := RunSetup.start_same (act' := X.setup.act) (orderSlip' := orderSlip')
    (exitSlip' := exitSlip') hok h kw.2 hearly (hdrop es hes) (X.setup.testDates kw.1)
  rw [hl] at h2
  split at h1
  · cases h1
  rename_i l1 e1
  split at h2
  · cases h2
  rename_i l1' e1'
  have hs : l1' = l1 := by
    have e1'' : startWindow X.setup.cfg s.run.loop ((X.setup.alter rows' X.setup.act orderSlip'
      exitSlip').window kw.2 (selectedSymbols es) kw.1 ((X.setup.alter rows' X.setup.act orderSlip'
        exitSlip').store (X.setup.testDates kw.1))) = .ok l1' := e1'
    rw [hstart] at e1''
    exact Except.ok.inj (e1''.symm.trans e1)
  subst hs
  have hshape := slice_shape (storeOf_shape h X.setup.cols) (X.setup.testDates kw.1)
  have hcal := shape_uniqueDates hshape
  have hsd := shape_execDates hshape (selectedSymbols es)
  rw [← hcal, ← hsd] at h2
  have key : Same t s1 s1' ∧
      ((∀ d ∈ (X.setup.store (X.setup.testDates kw.1)).uniqueDates, d ≤ t) →
        s1'.run.loop = s1.run.loop ∧ s1'.mem = s1.mem) := by
    refine bars_same (X := X) hok.unique h huser ho he
      (RunSetup.window_same (act' := X.setup.act) (orderSlip' := orderSlip') (exitSlip' := exitSlip') h
        kw.2 (selectedSymbols es) kw.1 (X.setup.testDates kw.1))
      (window := X.setup.testDates kw.1) (selected := selectedSymbols es) (pre := [])
      ?_ ?_ ?_ ?_ ?_ ?_ h1 h2
    · rfl
    · rfl
    · rfl
    · rfl
    · exact hm
    · exact ht
  obtain ⟨h3, h4⟩ := key
  refine ⟨h3, fun hall => h4 (fun d hd => hall d ?_)⟩
  exact ((RunSetup.mem_calendar hok.unique).1 hd).1

theorem window_log {X : Stateful σ} {kw : WFWindow × Nat} {s s1 : State σ}
    (h : X.runOne s kw = .ok s1) :
    (∃ more, s1.log = s.log ++ more ∧ more.map (fun e => e.1.date) = X.setup.calendar kw.1) ∧
      ∃ more, s1.run.trace = s.run.trace ++ more ∧ more.map Prod.fst = X.setup.calendar kw.1 := by
  unfold runOne at h
  simp only at h
  split at h
  · cases h
  · split at h
    · split at h
      · cases h
      · unfold RunSetup.calendar
        by_cases ht : kw.1.test = []
        · rw [if_pos ht] at h
          cases h
          exact ⟨⟨[], by simp, by rw [if_pos ht]; rfl⟩, ⟨[], by simp, by rw [if_pos ht]; rfl⟩⟩
        · rw [if_neg ht] at h
          rw [if_neg ht]
          have := bars_log h
          exact this
    · cases h

theorem windows_late {t : Date} {X : Stateful σ} : ∀ {kws : List (WFWindow × Nat)} {s s1 : State σ},
    each X.runOne s kws = .ok s1 → (∀ kw ∈ kws, ∀ d ∈ X.setup.calendar kw.1, ¬ d ≤ t) →
      Same t s1 s := by
  intro kws
  induction kws with
  | nil =>
    intro s s1 h _
    cases h
    exact ⟨rfl, rfl⟩
  | cons kw kws ih =>
    intro s s1 h hl
    unfold each at h
    split at h
    · cases h
    · rename_i s2 h2
      have h0 := ih h (fun kw' hkw' => hl kw' (List.mem_cons_of_mem _ hkw'))
      obtain ⟨⟨m, e1, f1⟩, ⟨n, e2, f2⟩⟩ := window_log h2
      have hlate := hl kw List.mem_cons_self
      constructor
      · rw [h0.1, e2, List.filter_append, late_nil f2 hlate, List.append_nil]
      · rw [h0.2, e1, List.filter_append, late_nil f1 hlate, List.append_nil]

theorem windows_same {t : Date} (hok : SetupOK X.setup) (h : SameUpTo t X.setup.rows rows')
    (huser : ∀ g, g.date ≤ t → user' g = X.user g)
    (ho : ∀ k d, d ≤ t → orderSlip' k d = X.setup.orderSlip k d)
    (he : ∀ k d, d ≤ t → exitSlip' k d = X.setup.exitSlip k d) {wins : List WFWindow}
    (hw : walkforwardSplit X.setup.dates X.setup.windows X.setup.lookahead X.setup.trainSize
      X.setup.shuffle = .ok wins) {init sF : State σ}
    (hdrop : ∀ (pre rest : List (WFWindow × Nat)) (kw : WFWindow × Nat) (s : State σ)
      (es : List (Execn (List DRow))), wins.zipIdx = pre ++ kw :: rest →
      each X.runOne init pre = .ok s → each X.runOne s (kw :: rest) = .ok sF →
      (∃ d ∈ X.setup.testDates kw.1, d ≤ t) →
      windowExecutions (fun d : List DRow => (d.map DRow.symbol).dedup) List.isEmpty
        X.setup.execs (X.setup.rowsAt kw.1.train) = .ok es →
      ∀ sym ∈ droppedSyms s.run.loop.pf (selectedSymbols es),
      ∀ r ∈ X.setup.rowsAt kw.1.test, r.symbol = sym →
        ∃ r' ∈ X.setup.rowsAt kw.1.test, r'.symbol = sym ∧ r'.date ≤ t) :
    ∀ {kws pre : List (WFWindow × Nat)} {s s' sF' : State σ}, wins.zipIdx = pre ++ kws →
      each X.runOne init pre = .ok s → s'.run.loop = s.run.loop → s'.mem = s.mem → Same t s s' →
      each X.runOne s kws = .ok sF →
      each (X.alter rows' user' orderSlip' exitSlip').runOne s' kws = .ok sF' → Same t sF sF' := by
  intro kws
  induction kws with
  | nil =>
    intro pre s s' sF' _ _ _ _ ht h1 h2
    cases h1
    cases h2
    exact ht
  | cons kw kws ih =>
    intro pre s s' sF' hz hpre hl hm ht h1 h2
    have hsorted := RunSetup.zipIdx_order wins
    rw [hz] at hsorted
    have hlater : ∀ kw' ∈ kws, kw.2 < kw'.2 :=
      (List.pairwise_cons.1 (List.pairwise_append.1 hsorted).2.1).1
    have hkw : wins[kw.2]? = some kw.1 := RunSetup.mem_zip (by rw [hz]; simp)
    have hkws : ∀ kw' ∈ kws, wins[kw'.2]? = some kw'.1 := by
      intro kw' h'
      exact RunSetup.mem_zip (by rw [hz]; simp [h'])
    have late : ∀ (l : List (WFWindow × Nat)) (s s1 s' s1' : State σ), Same t s s' →
        (∀ kw ∈ l, ∀ d ∈ X.setup.testDates kw.1, ¬ d ≤ t) → each X.runOne s l = .ok s1 →
        each (X.alter rows' user' orderSlip' exitSlip').runOne s' l = .ok s1' → Same t s1 s1' := by
      intro l s s1 s' s1' hs hl g1 g2
      have hl' : ∀ kw ∈ l, ∀ d ∈ X.setup.calendar kw.1, ¬ d ≤ t := fun kw hkw d hd =>
        hl kw hkw d ((RunSetup.mem_calendar' hok.unique).1 hd)
      have q1 := windows_late g1 hl'
      have q2 := windows_late g2 (fun kw hkw d hd => hl' kw hkw d (by
        rw [← RunSetup.calendar_same (act' := X.setup.act) (orderSlip' := orderSlip')
          (exitSlip' := exitSlip') h kw.1]
        exact hd))
      exact ⟨q1.1.trans (hs.1.trans q2.1.symm), q1.2.trans (hs.2.trans q2.2.symm)⟩
    by_cases hearly : ∃ d ∈ X.setup.testDates kw.1, d ≤ t
    · have h1' := h1
      unfold each at h1 h2
      split at h1
      · cases h1
      rename_i s1 e1
      split at h2
      · cases h2
      rename_i s1' e1'
      obtain ⟨h3, h4⟩ := runOne_same hok h huser ho he hw hkw hearly hl hm ht
        (fun es hes => hdrop pre kws kw s es hz hpre h1' hearly hes) e1 e1'
      by_cases hall : ∀ d ∈ X.setup.testDates kw.1, d ≤ t
      · exact ih (pre := pre ++ [kw]) (by rw [hz]; simp) (each_append hpre e1) (h4 hall).1 (h4 hall).2
          h3 h1 h2
      · refine late kws _ _ _ _ h3 ?_ h1 h2
        intro kw' hkw' d' hd' hle
        apply hall
        intro d hd
        exact le_trans (RunSetup.test_order hok hw hkw (hkws kw' hkw') (hlater kw' hkw') hd hd').le hle
    · refine late (kw :: kws) _ _ _ _ ht ?_ h1 h2
      have hl0 : ∀ d ∈ X.setup.testDates kw.1, ¬ d ≤ t := fun d hd hle => hearly ⟨d, hd, hle⟩
      intro kw' hkw'
      rcases List.mem_cons.1 hkw' with rfl | hkw'
      · exact hl0
      · exact RunSetup.late_after hok hw hkw (hkws kw' hkw') (hlater kw' hkw') hl0

end Stateful

/-! ## C153: no look-ahead by user code that keeps state -/

/-- **C153, a.**  A run of a strategy that keeps state is a run of the model without state, for the
values its state has on each bar.  So what is proved of every run holds of it. -/
theorem stateful_run {σ : Type} {X : Stateful σ} {s : Stateful.State σ} (h : X.run = .ok s) :
    ∃ m : Nat → Date → σ,
      ({ X.setup with act := fun k d b l r => (X.user ⟨k, d, b, l, r⟩ (m k d)).1 } : RunSetup).run =
        .ok s.run := by
  unfold Stateful.run at h
  split at h
  · cases h
  rename_i wins hw
  have hn : (wins.zipIdx.map Prod.snd).Nodup :=
    List.pairwise_map.2 ((RunSetup.zipIdx_order wins).imp (fun h => ne_of_lt h))
  obtain ⟨m, hm⟩ := Stateful.windows_plain hn h
  refine ⟨m, ?_⟩
  have := hm m (fun _ _ => rfl)
  unfold RunSetup.run
  have hw' : walkforwardSplit X.setup.dates X.setup.windows X.setup.lookahead X.setup.trainSize
    X.setup.shuffle = .ok wins := hw
  simp only [RunSetup.dates] at hw' ⊢
  rw [hw']
  exact this

/-- **C153, b, partial.**  Two runs of a strategy whose functions keep state, on data that agree up to
a date, with functions and slippage models that do the same when given the same up to that date: on
every bar up to that date user code is given the same bars, loop, symbols and state, and the runs go
through the same portfolio, pending orders and attempts.  Missing, as in C100: a window that drops a
symbol whose first bar in the window is later. -/
theorem no_lookahead_stateful_partial {σ : Type} {X : Stateful σ} (hok : SetupOK X.setup) {t : Date}
    {rows' : List DRow} {user' : Given → σ → (List UserOp × (Sym → Option ExecResult)) × σ}
    {orderSlip' : Nat → Date → Option SlipModel} {exitSlip' : Nat → Date → Option SlipFn}
    (hrows : SameUpTo t X.setup.rows rows') (huser : ∀ g, g.date ≤ t → user' g = X.user g)
    (ho : ∀ k d, d ≤ t → orderSlip' k d = X.setup.orderSlip k d)
    (he : ∀ k d, d ≤ t → exitSlip' k d = X.setup.exitSlip k d) {s s' : Stateful.State σ}
    (h : X.run = .ok s)
    (h' : Stateful.run { X with
      setup := { X.setup with rows := rows', orderSlip := orderSlip', exitSlip := exitSlip' }
      user := user' } = .ok s')
    (hdrop : (X.setup.selects = false ∧ ResultsOK s.run.results) ∨ Prompt X.setup t) :
    s.log.filter (fun e => e.1.date ≤ t) = s'.log.filter (fun e => e.1.date ≤ t) ∧
      s.run.trace.filter (fun e => e.1 ≤ t) = s'.run.trace.filter (fun e => e.1 ≤ t) := by
  unfold Stateful.run at h h'
  have hd := RunSetup.dates_same (act' := X.setup.act) (orderSlip' := orderSlip')
    (exitSlip' := exitSlip') hrows
  unfold RunSetup.alter at hd
  rw [hd] at h'
  split at h
  · cases h
  rename_i wins hw
  simp only [hw] at h'
  refine And.symm (Stateful.windows_same (user' := user') hok hrows huser ho he hw ?_ (pre := []) rfl
    rfl rfl rfl ⟨rfl, rfl⟩ h h')
  intro pre rest kw s0 es hz hpre hfin hearly hes sym hsym r hr hrs
  have hn : (wins.zipIdx.map Prod.snd).Nodup :=
    List.pairwise_map.2 ((RunSetup.zipIdx_order wins).imp (fun h => ne_of_lt h))
  rcases hdrop with ⟨hsel, hres⟩ | hp
  · exfalso
    rw [hz, List.map_append] at hn
    obtain ⟨m, hm⟩ := Stateful.windows_plain (List.nodup_append.1 hn).1 hpre
    obtain ⟨n, hn'⟩ := Stateful.windows_plain (List.nodup_append.1 hn).2.1 hfin
    have hpre' := hm m (fun _ _ => rfl)
    have hfin' := hn' n (fun _ _ => rfl)
    obtain ⟨ws, _, _, _, hresults⟩ := RunSetup.windows_made hfin'
    have hres0 : ResultsOK s0.run.results := by
      rw [hresults] at hres
      refine ⟨fun r hr => hres.fit r (List.mem_append_left _ hr),
        fun r hr => hres.one r (List.mem_append_left _ hr), ?_⟩
      have := hres.fresh
      rw [List.flatMap_append, List.map_append] at this
      exact (List.nodup_append.1 this).1
    have hok' : SetupOK (X.fixed m) :=
      ⟨hok.unique, hok.buyDelay, hok.sellDelay, hok.size, hok.iter, hok.shuffle⟩
    have := RunSetup.nothing_dropped (x := X.fixed m) hok' hw hsel hz hpre' hres0 hes
    rw [this] at hsym
    cases hsym
  · have hk := RunSetup.mem_zip (wins := wins) (kw := kw) (by rw [hz]; simp)
    obtain ⟨r', hr', h1, h2⟩ := hp kw.2 kw.1 _ ⟨wins, es, hw, hk, hes, rfl⟩ hearly r hr (by
      have := (List.mem_filter.1 hsym).2
      rw [hrs]
      simpa using this)
    exact ⟨r', hr', h1.trans hrs, h2⟩

/-- **C153, c, partial.**  The same for a strategy with models, on data that differ only after a date;
what is missing is what C151 lacks. -/
theorem no_lookahead_models_stateful_partial {M σ : Type} {L : Learner M} (hok : LearnerOK L)
    {start : σ} {user : Given → (String → Sym → Option (List Cell)) → σ →
      (List UserOp × (Sym → Option ExecResult)) × σ} {t : Date} {rows' : List DRow}
    (hrows : SameUpTo t L.setup.rows rows') {s s' : Stateful.State σ}
    (h : (L.withState start user).run = .ok s) (h' : ((L.on rows').withState start user).run = .ok s')
    (hdrop : (L.setup.selects = false ∧ ResultsOK s.run.results) ∨ Prompt L.setup t) :
    s.log.filter (fun e => e.1.date ≤ t) = s'.log.filter (fun e => e.1.date ≤ t) ∧
      s.run.trace.filter (fun e => e.1 ≤ t) = s'.run.trace.filter (fun e => e.1 ≤ t) := by
  refine no_lookahead_stateful_partial (X := L.withState start user) hok.setup (rows' := rows')
    (user' := ((L.on rows').withState start user).user) (orderSlip' := L.setup.orderSlip)
    (exitSlip' := L.setup.exitSlip) hrows ?_ (fun _ _ _ => rfl) (fun _ _ _ => rfl) h h' hdrop
  intro g hg
  funext m
  show user g ((L.on rows').preds g.window g.date) m = user g (L.preds g.window g.date) m
  rw [Learner.preds_same hok hrows g.window hg]

/-! ## C152: sessions -/

namespace Stateful

variable {σ : Type}

open RunSetup (each)

/-- What holds at the start, and after a bar if it did before, holds at the end of a run. -/
theorem run_induction {X : Stateful σ}
    {P : σ → List (Given × σ) → List (Nat × Date × Sym) → Prop} (h0 : P X.start [] [])
    (hstep : ∀ m log turns g, P m log turns →
      P (X.user g m).2 (log ++ [(g, m)]) (turns ++ g.ready.map (fun y => (g.window, g.date, y))))
    {s : State σ} (h : X.run = .ok s) : P s.mem s.log s.run.turns := by
  have hbar : ∀ {k : Nat} {w : Window} {store : Store} {cal : List Date}
      {sd : List (Sym × List Date)} {ds : List Date} {s s1 : State σ},
      P s.mem s.log s.run.turns → each (X.bar k w store cal sd) s ds = .ok s1 →
        P s1.mem s1.log s1.run.turns := by
    intro k w store cal sd ds
    induction ds with
    | nil =>
      intro s s1 hp h
      cases h
      exact hp
    | cons d ds ih =>
      intro s s1 hp h
      unfold each at h
      split at h
      · cases h
      rename_i s2 h2
      refine ih ?_ h
      obtain ⟨g, hg, hmem, hlog, hrun⟩ := given_some h2
      have hturns : s2.run.turns = s.run.turns ++ g.ready.map (fun y => (g.window, g.date, y)) := by
        unfold RunSetup.given at hg
        simp only at hg
        split at hg
        · cases hg
        cases hg
        unfold RunSetup.bar at hrun
        simp only at hrun
        split at hrun
        · cases hrun
        split at hrun
        · split at hrun
          · cases hrun
          · have e := Except.ok.inj hrun
            rw [← e]
            rfl
        · cases hrun
      rw [hmem, hlog, hturns]
      exact hstep _ _ _ g hp
  have hwin : ∀ {kws : List (WFWindow × Nat)} {s s1 : State σ},
      P s.mem s.log s.run.turns → each X.runOne s kws = .ok s1 →
        P s1.mem s1.log s1.run.turns := by
    intro kws
    induction kws with
    | nil =>
      intro s s1 hp h
      cases h
      exact hp
    | cons kw kws ih =>
      intro s s1 hp h
      unfold each at h
      split at h
      · cases h
      rename_i s2 h2
      refine ih ?_ h
      unfold runOne at h2
      simp only at h2
      split at h2
      · cases h2
      split at h2
      · split at h2
        · cases h2
        · split at h2
          · cases h2
            exact hp
          · refine hbar ?_ h2
            exact hp
      · cases h2
  unfold run at h
  split at h
  · cases h
  · refine hwin ?_ h
    exact h0

end Stateful

namespace Spec

/-- Each look finds what the one before left, the first one `a`. -/
def Chain {S : Type} (a : S) : List (Visit S) → Prop
  | [] => True
  | v :: vs => v.found = a ∧ Chain v.left vs

/-- What is left at the end. -/
def lastLeft {S : Type} (a : S) (vs : List (Visit S)) : S := (vs.getLast?.map Visit.left).getD a

/-- Who looks at whose session on a bar, in this order: `before_exec_fn` at each context's, then the
functions of the executions, each at its own, then `after_exec_fn`. -/
def barVisits {S : Type} (F : SessionFns S) (g : Given) : List (Nat × Date × Sym × Visitor) :=
  (if F.before.isSome then g.ready.map (fun y => (g.window, g.date, y, .before)) else []) ++
  (g.ready.filter (fun y => (F.fn y).isSome)).map (fun y => (g.window, g.date, y, .fn)) ++
  (if F.after.isSome then g.ready.map (fun y => (g.window, g.date, y, .after)) else [])

end Spec

namespace SessionFns

variable {S : Type}

theorem chain_append {a : S} : ∀ {vs ws : List (Visit S)},
    Chain a (vs ++ ws) ↔ Chain a vs ∧ Chain (lastLeft a vs) ws := by
  intro vs
  induction vs generalizing a with
  | nil => intro ws; simp [Chain, lastLeft]
  | cons v vs ih =>
    intro ws
    simp only [List.cons_append, Chain, ih, and_assoc]
    have : lastLeft v.left vs = lastLeft a (v :: vs) := by
      unfold lastLeft
      rcases List.eq_nil_or_concat vs with rfl | ⟨l, b, rfl⟩
      · rfl
      · rw [List.concat_eq_append, List.getLast?_append, ← List.cons_append, List.getLast?_append]
        rfl
    rw [this]

/-- The sessions are what the looks at them left. -/
def Kept (empty : S) (m : Sessions S) : Prop :=
  ∀ sym, Chain empty (m.visits.filter (fun v => v.symbol = sym)) ∧
    m.data sym = lastLeft empty (m.visits.filter (fun v => v.symbol = sym))

theorem look_kept {empty : S} {g : Given} {who : Visitor} {f : S → S} {m : Sessions S} {y : Sym}
    (h : Kept empty m) : Kept empty (look g who f m y) := by
  intro sym
  obtain ⟨h1, h2⟩ := h sym
  unfold look
  simp only [List.filter_append]
  by_cases e : y = sym
  · subst e
    have hf : List.filter (fun v : Visit S => decide (v.symbol = y))
        [⟨g.window, g.date, y, who, m.data y, f (m.data y)⟩] =
        [⟨g.window, g.date, y, who, m.data y, f (m.data y)⟩] := by simp
    rw [hf]
    refine ⟨chain_append.2 ⟨h1, h2, trivial⟩, ?_⟩
    simp only [if_pos]
    unfold lastLeft
    simp
  · have hf : List.filter (fun v : Visit S => decide (v.symbol = sym))
        [⟨g.window, g.date, y, who, m.data y, f (m.data y)⟩] = [] := by simp [e]
    rw [hf, List.append_nil]
    exact ⟨h1, by rw [if_neg (Ne.symm e)]; exact h2⟩

theorem foldl_kept {empty : S} {α : Type} {step : Sessions S → α → Sessions S}
    (hs : ∀ m a, Kept empty m → Kept empty (step m a)) : ∀ {l : List α} {m : Sessions S},
    Kept empty m → Kept empty (l.foldl step m) := by
  intro l
  induction l with
  | nil => intro m h; exact h
  | cons a l ih => intro m h; exact ih (hs m a h)

theorem hook_kept {empty : S} {g : Given} {who : Visitor}
    {h : Option (Given → (Sym → S) → Sym → S)} {m : Sessions S} (hm : Kept empty m) :
    Kept empty (hook g who h m) := by
  unfold hook
  split
  · exact hm
  · exact foldl_kept (fun m' a h' => look_kept h') hm

theorem calls_kept {empty : S} {F : SessionFns S} {g : Given} {m : Sessions S} (hm : Kept empty m) :
    Kept empty (F.calls g m) := by
  unfold calls
  refine foldl_kept (fun m' a h' => ?_) hm
  split
  · exact h'
  · exact look_kept h'

/-- Who looked at whose session. -/
def tag (v : Visit S) : Nat × Date × Sym × Visitor := (v.window, v.date, v.symbol, v.who)

theorem hook_tags {g : Given} {who : Visitor} {h : Option (Given → (Sym → S) → Sym → S)}
    {m : Sessions S} : (hook g who h m).visits.map tag = m.visits.map tag ++
      (if h.isSome then g.ready.map (fun y => (g.window, g.date, y, who)) else []) := by
  unfold hook
  split
  · simp
  · rename_i f
    have : ∀ (l : List Sym) (m' : Sessions S),
        (l.foldl (fun m' s => look g who (fun _ => f g m.data s) m' s) m').visits.map tag =
          m'.visits.map tag ++ l.map (fun y => (g.window, g.date, y, who)) := by
      intro l
      induction l with
      | nil => intro m'; simp
      | cons y l ih =>
        intro m'
        rw [List.foldl_cons, ih]
        simp [look, tag]
    rw [this]
    simp

theorem calls_tags {F : SessionFns S} {g : Given} {m : Sessions S} :
    (F.calls g m).visits.map tag = m.visits.map tag ++
      (g.ready.filter (fun y => (F.fn y).isSome)).map (fun y => (g.window, g.date, y, .fn)) := by
  unfold calls
  have : ∀ (l : List Sym) (m : Sessions S),
      (l.foldl (fun m s =>
        match F.fn s with
        | none => m
        | some f => look g .fn (f g) m s) m).visits.map tag = m.visits.map tag ++
      (l.filter (fun y => (F.fn y).isSome)).map (fun y => (g.window, g.date, y, .fn)) := by
    intro l
    induction l with
    | nil => intro m; simp
    | cons y l ih =>
      intro m
      rw [List.foldl_cons, ih]
      rcases hf : F.fn y with _ | f
      · simp [hf]
      · simp [hf, look, tag]
  exact this _ _

/-- A function leaves what it makes of what it finds. -/
def Made (F : SessionFns S) (log : List (Given × Sessions S)) (v : Visit S) : Prop :=
  v.who = .fn → ∃ e ∈ log, e.1.window = v.window ∧ e.1.date = v.date ∧ v.symbol ∈ e.1.ready ∧
    ∃ f, F.fn v.symbol = some f ∧ v.left = f e.1 v.found

theorem hook_made {F : SessionFns S} {log : List (Given × Sessions S)} {g : Given} {who : Visitor}
    (hw : who ≠ .fn) {h : Option (Given → (Sym → S) → Sym → S)} {m : Sessions S}
    (hm : ∀ v ∈ m.visits, Made F log v) : ∀ v ∈ (hook g who h m).visits, Made F log v := by
  unfold hook
  split
  · exact hm
  · rename_i f
    have : ∀ (l : List Sym) (m' : Sessions S), (∀ v ∈ m'.visits, Made F log v) →
        ∀ v ∈ (l.foldl (fun m' s => look g who (fun _ => f g m.data s) m' s) m').visits,
          Made F log v := by
      intro l
      induction l with
      | nil => intro m' h; exact h
      | cons y l ih =>
        intro m' h
        refine ih _ (fun v hv => ?_)
        rcases List.mem_append.1 hv with hv | hv
        · exact h v hv
        · rw [List.mem_singleton] at hv
          subst hv
          exact fun e => absurd e hw
    exact this _ _ hm

theorem calls_made {F : SessionFns S} {log : List (Given × Sessions S)} {g : Given}
    (hg : ∃ e ∈ log, e.1 = g) {m : Sessions S}
    (hm : ∀ v ∈ m.visits, Made F log v) : ∀ v ∈ (F.calls g m).visits, Made F log v := by
  unfold calls
  have : ∀ (l : List Sym) (m : Sessions S), (∀ y ∈ l, y ∈ g.ready) →
      (∀ v ∈ m.visits, Made F log v) → ∀ v ∈ (l.foldl (fun m s =>
        match F.fn s with
        | none => m
        | some f => look g .fn (f g) m s) m).visits, Made F log v := by
    intro l
    induction l with
    | nil => intro m _ h; exact h
    | cons y l ih =>
      intro m hl h
      refine ih _ (fun z hz => hl z (List.mem_cons_of_mem _ hz)) ?_
      rcases hf : F.fn y with _ | f
      · simpa [hf] using h
      · simp only [hf, look]
        intro v hv
        rcases List.mem_append.1 hv with hv | hv
        · exact h v hv
        · rw [List.mem_singleton] at hv
          subst hv
          obtain ⟨e, he, rfl⟩ := hg
          exact fun _ => ⟨e, he, rfl, rfl, hl y List.mem_cons_self, f, hf, rfl⟩
  exact this _ _ (fun _ h => h) hm

end SessionFns

/-- **C152.**  In a run, in whatever windows and on whatever bars, each look at a symbol's session
finds what the look at that session before it left, and the first one finds it empty.  On each bar
the looks are those of `before_exec_fn`, if set, at the session of each context, of each context's
function at its own, and of `after_exec_fn`, if set.  The contexts are the turns of the run.  A
function leaves what it makes of what it was given and found: other symbols' sessions play no part. -/
theorem sessions_kept {S : Type} {F : SessionFns S} {s : Stateful.State (Sessions S)}
    (h : F.toStateful.run = .ok s) :
    (∀ sym, Chain F.empty (s.mem.visits.filter (fun v => v.symbol = sym)) ∧
      s.mem.data sym = lastLeft F.empty (s.mem.visits.filter (fun v => v.symbol = sym))) ∧
    s.mem.visits.map (fun v => (v.window, v.date, v.symbol, v.who)) =
      s.log.flatMap (fun e => barVisits F e.1) ∧
    s.run.turns = s.log.flatMap (fun e => e.1.ready.map (fun y => (e.1.window, e.1.date, y))) ∧
    ∀ v ∈ s.mem.visits, v.who = .fn → ∃ e ∈ s.log, e.1.window = v.window ∧ e.1.date = v.date ∧
      v.symbol ∈ e.1.ready ∧ ∃ f, F.fn v.symbol = some f ∧ v.left = f e.1 v.found := by
  refine Stateful.run_induction (X := F.toStateful)
    (P := fun m log turns => SessionFns.Kept F.empty m ∧
      m.visits.map SessionFns.tag = log.flatMap (fun e => barVisits F e.1) ∧
      turns = log.flatMap (fun e => e.1.ready.map (fun y => (e.1.window, e.1.date, y))) ∧
      ∀ v ∈ m.visits, SessionFns.Made F log v) ?_ ?_ h
  · exact ⟨fun sym => ⟨trivial, rfl⟩, rfl, rfl, fun v hv => by cases hv⟩
  · rintro m log turns g ⟨h1, h2, h3, h4⟩
    refine ⟨SessionFns.hook_kept (SessionFns.calls_kept (SessionFns.hook_kept h1)), ?_, ?_, ?_⟩
    · show (SessionFns.hook g .after F.after (F.calls g (SessionFns.hook g .before F.before m))).visits.map
        SessionFns.tag = _
      rw [SessionFns.hook_tags, SessionFns.calls_tags, SessionFns.hook_tags, h2, List.flatMap_append]
      simp [barVisits, List.append_assoc]
    · rw [h3, List.flatMap_append]
      simp
    · refine SessionFns.hook_made (by decide) (SessionFns.calls_made ⟨(g, m), by simp, rfl⟩
        (SessionFns.hook_made (by decide) ?_))
      intro v hv hw
      obtain ⟨e, he, h5⟩ := h4 v hv hw
      exact ⟨e, List.mem_append_left _ he, h5⟩

/-! ## Examples -/

namespace Demo

/-- Each function counts its bars in its session; `after_exec_fn` adds 10 to the sessions of bars
after the first window.  `AAA` buys when it has seen two bars, `BBB` when its session says 3. -/
def seRun (rows : List DRow) : SessionFns Nat where
  setup := { drRun with rows := rows }
  empty := 0
  fn := fun s => if s = "AAA" ∨ s = "BBB" then some (fun _ n => n + 1) else none
  after := some (fun g m s => if g.window = 0 then m s else m s + 10)
  act := fun g m => ([], fun s =>
    if s = "AAA" ∧ m s = 2 then some { symbol := s, date := g.date, buyShares := some 10 }
    else if s = "BBB" ∧ m s = 3 then some { symbol := s, date := g.date, sellShares := some 5 }
    else none)

def seEnd (X : SessionFns Nat) : Stateful.State (Sessions Nat) :=
  okR ⟨{ loop := { pf := Portfolio.init { cash := 0 } } }, ⟨fun _ => 0, []⟩, []⟩ X.toStateful.run

theorem seRun_run : (seRun drRows).toStateful.run = .ok (seEnd (seRun drRows)) :=
  ok_okR (by decide +kernel)

theorem seLate_run : (seRun drLate.rows).toStateful.run = .ok (seEnd (seRun drLate.rows)) :=
  ok_okR (by decide +kernel)

theorem seRun_results : ResultsOK (seEnd (seRun drRows)).run.results := by
  have h : (∀ r ∈ (seEnd (seRun drRows)).run.results,
      (∀ st ∈ r.longStops, st.posType = .long ∧ st.symbol = r.symbol) ∧
      ∀ st ∈ r.shortStops, st.posType = .short ∧ st.symbol = r.symbol) ∧
      (∀ r ∈ (seEnd (seRun drRows)).run.results, r.buyShares = none ∨ r.sellShares = none) ∧
      (((seEnd (seRun drRows)).run.results.flatMap (fun r => r.longStops ++ r.shortStops)).map
        Stop.id).Nodup := by
    decide +kernel
  exact ⟨h.1, h.2.1, h.2.2⟩

end Demo

/-- A run with a fill in each symbol and sessions that go on in the second window. -/
example := sessions_kept Demo.seRun_run

example : (Demo.seEnd (Demo.seRun Demo.drRows)).mem.data "AAA" = 36 ∧
    ((Demo.seEnd (Demo.seRun Demo.drRows)).mem.visits.filter (fun v => v.symbol = "BBB")).map
      (fun v => (v.window, v.date, v.who, v.found, v.left)) =
      [(0, 1, .fn, 0, 1), (0, 1, .after, 1, 1), (0, 2, .fn, 1, 2), (0, 2, .after, 2, 2),
       (0, 3, .fn, 2, 3), (0, 3, .after, 3, 3), (1, 4, .fn, 3, 4), (1, 4, .after, 4, 14),
       (1, 5, .fn, 14, 15), (1, 5, .after, 15, 25)] ∧
    (Demo.seEnd (Demo.seRun Demo.drRows)).run.loop.pf.orders.length = 4 := by
  decide +kernel

example := stateful_run Demo.seRun_run

/-- The hypotheses hold of runs whose sessions decide what is bought, on data that differ from date 5
on. -/
example := no_lookahead_stateful_partial (X := (Demo.seRun Demo.drRows).toStateful)
  (s := Demo.seEnd (Demo.seRun Demo.drRows)) (s' := Demo.seEnd (Demo.seRun Demo.drLate.rows))
  (rows' := Demo.drLate.rows) (user' := (Demo.seRun Demo.drLate.rows).toStateful.user)
  (orderSlip' := Demo.drRun.orderSlip) (exitSlip' := Demo.drRun.exitSlip)
  Demo.drRun_ok Demo.dr_same (fun _ _ => rfl) (fun _ _ _ => rfl) (fun _ _ _ => rfl)
  Demo.seRun_run Demo.seLate_run (Or.inl ⟨rfl, Demo.seRun_results⟩)

namespace Demo

/-- Buys on the third bar after a positive prediction, counting in its state. -/
def lnCount (g : Given) (preds : String → Sym → Option (List Cell)) (n : Nat) :
    (List UserOp × (Sym → Option ExecResult)) × Nat :=
  (([], fun s => if n = 1 then some { symbol := s, date := g.date, buyShares := some 10 } else none),
    if 0 < (((preds "m" "AAA").getD []).getLastD none).getD 0 then n + 1 else n)

/-- The run of the model's example, with this state. -/
def lnEnd (p : ℚ) : Stateful.State Nat :=
  okR ⟨{ loop := { pf := Portfolio.init { cash := 0 } } }, 0, []⟩
    (((lnRun (fun x _ => lnLast x)).on (lnRows p)).withState 0 lnCount).run

theorem lnEnd_results : ResultsOK (lnEnd 106).run.results := by
  have : (∀ r ∈ (lnEnd 106).run.results,
      (∀ st ∈ r.longStops, st.posType = .long ∧ st.symbol = r.symbol) ∧
      ∀ st ∈ r.shortStops, st.posType = .short ∧ st.symbol = r.symbol) ∧
      (∀ r ∈ (lnEnd 106).run.results, r.buyShares = none ∨ r.sellShares = none) ∧
      (((lnEnd 106).run.results.flatMap (fun r => r.longStops ++ r.shortStops)).map
        Stop.id).Nodup := by decide +kernel
  exact ⟨this.1, this.2.1, this.2.2⟩

end Demo

example := no_lookahead_models_stateful_partial Demo.lnRun_ok (start := 0) (user := Demo.lnCount) (t := 5)
  (rows' := Demo.lnRows 30) (Demo.ln_same 30) (s := Demo.lnEnd 106) (s' := Demo.lnEnd 30)
  (Demo.ok_okR (by decide +kernel)) (Demo.ok_okR (by decide +kernel))
  (Or.inl ⟨rfl, Demo.lnEnd_results⟩)

/-- The prediction of date 4 is remembered and leads to an order on date 5. -/
example : (Demo.lnEnd 106).log.map (fun e => (e.1.date, e.2)) = [(4, 0), (5, 1), (6, 2)] ∧
    (Demo.lnEnd 106).run.loop.pf.orders.length = 1 := by
  decide +kernel

end PyBroker
