import Verif.Portfolio.StopOrder

/-!
# Stop records

The rows `check_stops` appends to `Portfolio._stop_records` when `record_stops` is set.  They never
feed back into the portfolio, so they are modelled beside `checkStops`.  Line numbers refer to
`/repo/src/pybroker/portfolio.py`.
-/

namespace PyBroker

open Spec

/-- `StopRecord`, portfolio.py:117-150.  `currValue` is `none` for Python's `None` and `some none`
for a NaN. -/
structure StopRecord where
  date : Date
  symbol : Sym
  stopId : Nat
  stopType : StopType
  posType : PosType
  currValue : Option (Option ℚ)
  currBars : Option Nat
  percent : Option ℚ
  points : Option ℚ
  bars : Option Nat
  fillPrice : Option ℚ
  limitPrice : Option ℚ
  exitPrice : Option PriceType
  deriving DecidableEq, Repr

/-- `Portfolio._capture_stop`, portfolio.py:1876-1904. -/
def captureStop (s : Portfolio) (date : Date) (e : Entry) (stop : Stop) (fill : Option ℚ) :
    StopRecord where
  date := date
  stopId := stop.id
  symbol := stop.symbol
  stopType := stop.stopType
  posType := stop.posType
  currValue := (lookupStop s.stopData stop.id).map StopData.value
  currBars := if stop.stopType = .bar then some e.symBars else none
  bars := stop.bars
  percent := stop.percent
  points := stop.points
  limitPrice := stop.limitPrice
  exitPrice := stop.exitPrice
  fillPrice := fill

/-- The second value `_trigger_stop` returns, portfolio.py:1940-2031: `None` if the stop is not
reached, else the slipped price, whether or not the limit then blocks the exit. -/
def triggerFill (env : StopEnv) (s : Portfolio) (e : Entry) (stop : Stop) : Option ℚ :=
  if lookupPos (s.book stop.posType) stop.symbol = none then none
  else
    match stopFill env s e stop with
    | .error _ => none
    | .ok (none, _) => none
    | .ok (some market, _) => some (slipStopFill env stop e.shares market)

/-- The rows of one pass through a loop body of `check_stops`, portfolio.py:1786-1806 and
1822-1841: a stop that is skipped has none.  `s1` is the portfolio after the stop was tried. -/
def checkRows (env : StopEnv) (date : Date) (acc : Portfolio × List StopCheck) (s1 : Portfolio)
    (c : StopCheck) : List StopRecord :=
  if c.entryId ∈ acc.2.map StopCheck.entryId then []
  else
    match lookupPos (acc.1.book c.posType) c.symbol with
    | none => []
    | some p =>
      match findEntry p.entries c.entryId with
      | none => []
      | some e => [captureStop s1 date e c.stop (triggerFill env acc.1 e c.stop)]

/-- A loop body of `check_stops` with its rows. -/
def checkOneRec (cfg : Config) (env : StopEnv) (date : Date)
    (x : (Portfolio × List StopCheck) × List StopRecord) (c : StopCheck) :
    Except Err ((Portfolio × List StopCheck) × List StopRecord) :=
  match checkOne cfg env date x.1 c with
  | .error e => .error e
  | .ok acc => .ok (acc, x.2 ++ checkRows env date x.1 acc.1 c)

/-- `Portfolio.check_stops` of a portfolio that records stops, portfolio.py:1729-1852: the new
portfolio and the rows appended. -/
def checkStopsRec (cfg : Config) (s : Portfolio) (date : Date) (env : StopEnv) :
    Except Err (Portfolio × List StopRecord) :=
  match foldE (checkOneRec cfg env date) ((s, []), []) (priceChecks env s) with
  | .error e => .error e
  | .ok x =>
    match foldE (checkOneRec cfg env date) x (barChecks env x.1.1) with
    | .error e => .error e
    | .ok x2 => .ok (x2.1.2.foldl finishStop x2.1.1, x2.2)

/-- A call on a portfolio that records stops: only `check_stops` appends rows. -/
def stepStops (cfg : Config) (x : Portfolio × List StopRecord) (op : Op) :
    Except Err (Portfolio × List StopRecord) :=
  match op with
  | .checkStops date env => (checkStopsRec cfg x.1 date env).map (fun y => (y.1, x.2 ++ y.2))
  | op => (step cfg x.1 op).map (fun s => (s, x.2))

/-- A history of calls on a new portfolio that records stops. -/
def runStops (cfg : Config) (ops : List Op) : Except Err (Portfolio × List StopRecord) :=
  foldE (stepStops cfg) (Portfolio.init cfg, []) ops

/-! ## Recording does not change the portfolio -/

theorem checkOneRec_fold {cfg : Config} {env : StopEnv} {date : Date} :
    ∀ (cs : List StopCheck) (x : (Portfolio × List StopCheck) × List StopRecord),
    (foldE (checkOneRec cfg env date) x cs).map Prod.fst = foldE (checkOne cfg env date) x.1 cs
  | [], x => rfl
  | c :: cs, x => by
    unfold foldE
    rcases h : checkOne cfg env date x.1 c with e | acc
    · unfold checkOneRec; rw [h]; rfl
    · have : checkOneRec cfg env date x c = .ok (acc, x.2 ++ checkRows env date x.1 acc.1 c) := by
        unfold checkOneRec; rw [h]
      rw [this]
      exact checkOneRec_fold cs _

theorem checkStopsRec_pf {cfg : Config} {s : Portfolio} {date : Date} {env : StopEnv} :
    (checkStopsRec cfg s date env).map Prod.fst = checkStops cfg s date env := by
  unfold checkStopsRec checkStops
  have h1 := checkOneRec_fold (cfg := cfg) (env := env) (date := date) (priceChecks env s)
    ((s, []), [])
  simp only at h1
  rw [← h1]
  rcases foldE (checkOneRec cfg env date) ((s, []), []) (priceChecks env s) with e | x
  · rfl
  · simp only [Except.map]
    have h2 := checkOneRec_fold (cfg := cfg) (env := env) (date := date) (barChecks env x.1.1) x
    rw [← h2]
    rcases foldE (checkOneRec cfg env date) x (barChecks env x.1.1) with e | y
    · rfl
    · rfl

/-! ## The rows, read off the portfolio before the call -/

/-- The entry of a check. -/
def entryOf (s : Portfolio) (c : StopCheck) : Option Entry :=
  (lookupPos (s.book c.posType) c.symbol).bind (fun p => findEntry p.entries c.entryId)

/-- The row of a stop. -/
def rowFor (env : StopEnv) (date : Date) (s : Portfolio) (e : Entry) (st : Stop) : StopRecord where
  date := date
  stopId := st.id
  symbol := st.symbol
  stopType := st.stopType
  posType := st.posType
  currValue := (lookupStop s.stopData st.id).map (fun d => nextLevel env st d.value)
  currBars := if st.stopType = .bar then some e.symBars else none
  bars := st.bars
  percent := st.percent
  points := st.points
  limitPrice := st.limitPrice
  exitPrice := st.exitPrice
  fillPrice := (marketOf env s e st).map (slipStopFill env st e.shares)

/-- The checks that are evaluated. -/
def evaluated (env : StopEnv) (s : Portfolio) : List Exit → List StopCheck → List StopCheck
  | _, [] => []
  | xs, c :: cs =>
    (if c.entryId ∈ exitIds xs then [] else [c]) ++ evaluated env s (pick env s xs c) cs

theorem Sim.entryOf {env : StopEnv} {date : Date} {s : Portfolio}
    {acc : Portfolio × List StopCheck} {xs : List Exit} {done : List StopCheck}
    (h : Sim env date s acc xs done) {c : StopCheck} (hc : c.entryId ∉ exitIds xs) :
    PyBroker.entryOf acc.1 c = PyBroker.entryOf s c := by
  have hlk := lookup_keys (sym := c.symbol) (h.book c.posType)
  unfold PyBroker.entryOf
  rcases h1 : lookupPos (acc.1.book c.posType) c.symbol with _ | p
  · rcases h2 : lookupPos (s.book c.posType) c.symbol with _ | q
    · rfl
    · rw [h1, h2] at hlk; cases hlk
  · rcases h2 : lookupPos (s.book c.posType) c.symbol with _ | q
    · rw [h1, h2] at hlk; cases hlk
    · rw [h1, h2] at hlk
      have hk : p.entries = q.entries.map (zeroed (exitIds xs)) := by
        have := Option.some.inj hlk
        unfold keyP keyZ at this
        exact (Prod.ext_iff.1 (Prod.ext_iff.1 this).2).2
      show findEntry p.entries c.entryId = findEntry q.entries c.entryId
      rw [hk, findEntry_zeroed]
      rcases hx : findEntry q.entries c.entryId with _ | y
      · rfl
      · have : zeroed (exitIds xs) y = y := by
          unfold zeroed
          rw [if_neg]
          rw [(findEntry_some hx).2]; exact hc
        rw [Option.map_some, this]

theorem stopExited_stopData (cfg : Config) (env : StopEnv) (date : Date) (s : Portfolio)
    (p : Position) (e : Entry) (st : Stop) (m : ℚ) :
    (stopExited cfg env date s p e st m).stopData = s.stopData := by
  unfold stopExited
  cases p.type <;> rfl

/-- Trying a stop neither arms nor disarms any, and moves only its own level. -/
theorem checkOne_data {cfg : Config} {env : StopEnv} {date : Date}
    {acc acc' : Portfolio × List StopCheck} {c : StopCheck}
    (hsym : c.stop.symbol = c.symbol) (hpt : c.stop.posType = c.posType)
    (h : checkOne cfg env date acc c = .ok acc') :
    (∀ id, lookupStop acc'.1.stopData id = none ↔ lookupStop acc.1.stopData id = none) ∧
    (c.entryId ∉ acc.2.map StopCheck.entryId → ∀ e, entryOf acc.1 c = some e →
      lookupStop acc'.1.stopData c.stop.id = (lookupStop acc.1.stopData c.stop.id).map
        (fun d => { d with value := nextLevel env c.stop d.value }) ∧
      triggerFill env acc.1 e c.stop =
        (marketOf env acc.1 e c.stop).map (slipStopFill env c.stop e.shares)) := by
  rcases checkOne_decide hsym hpt h with ⟨hin, rfl⟩ | ⟨hnin, hrest⟩
  · exact ⟨fun _ => Iff.rfl, fun hn => absurd hin hn⟩
  · rcases hrest with ⟨hn, rfl⟩ | ⟨p, hp, hrest⟩
    · refine ⟨fun _ => Iff.rfl, fun _ e he => ?_⟩
      unfold entryOf at he; rw [hn] at he; cases he
    · rcases hrest with ⟨hn, rfl⟩ | ⟨e, s1, he, hfill, hrest⟩
      · refine ⟨fun _ => Iff.rfl, fun _ e he => ?_⟩
        unfold entryOf at he; rw [hp] at he
        simp only [Option.bind_some] at he
        rw [hn] at he; cases he
      · obtain ⟨hm1, hm2, hm3, hm4⟩ := stopFill_market hfill
        have hd : acc'.1.stopData = s1.stopData := by
          rcases hrest with ⟨rfl, _⟩ | ⟨m, _, _, rfl⟩
          · rfl
          · exact stopExited_stopData _ _ _ _ _ _ _ _
        refine ⟨?_, ?_⟩
        · intro id
          rw [hd]
          by_cases hid : id = c.stop.id
          · subst hid
            rw [hm4]; simp
          · rw [hm3 id hid]
        · intro _ e' he'
          have : e' = e := by
            unfold entryOf at he'; rw [hp] at he'
            simp only [Option.bind_some] at he'
            rw [he] at he'
            exact (Option.some.inj he').symm
          subst this
          refine ⟨by rw [hd]; exact hm4, ?_⟩
          unfold triggerFill
          rw [hpt, hsym, hp, if_neg (by simp), hfill]
          cases marketOf env acc.1 e' c.stop <;> rfl

theorem recorded {cfg : Config} {env : StopEnv} {date : Date} {s : Portfolio} (hg : Good s)
    (hbarless : ∀ c e, entryOf s c = some e → c.stop ∈ e.stops → c.stop.stopType = .bar →
      lookupStop s.stopData c.stop.id = none) :
    ∀ (cs : List StopCheck) {x x' : (Portfolio × List StopCheck) × List StopRecord}
      {xs : List Exit} {done : List StopCheck}, Sim env date s x.1 xs done →
      (∀ id, lookupStop x.1.1.stopData id = none ↔ lookupStop s.stopData id = none) →
      (∀ c ∈ cs, c.stop.posType = c.posType ∧ c.stop.symbol = c.symbol ∧
        ∃ e, entryOf s c = some e ∧ c.stop ∈ e.stops) →
      (∀ c ∈ cs, c.stop.stopType = .bar) ∨ (((done ++ cs).map (fun c => c.stop.id)).Nodup) →
      foldE (checkOneRec cfg env date) x cs = .ok x' →
      x'.2 = x.2 ++ (evaluated env s xs cs).filterMap
        (fun c => (entryOf s c).map (fun e => rowFor env date s e c.stop)) ∧
      (∀ id, lookupStop x'.1.1.stopData id = none ↔ lookupStop s.stopData id = none)
  | [], x, x', xs, done, hs, hk, _, _, h => by
    cases h
    exact ⟨by simp [evaluated], hk⟩
  | c :: cs, x, x', xs, done, hs, hk, hfit, hnd, h => by
    obtain ⟨hpt, hsym, e, he, hes⟩ := hfit c List.mem_cons_self
    unfold foldE at h
    rcases h1 : checkOne cfg env date x.1 c with err | acc1
    · have : checkOneRec cfg env date x c = .error err := by unfold checkOneRec; rw [h1]
      rw [this] at h; cases h
    · have hrec : checkOneRec cfg env date x c =
          .ok (acc1, x.2 ++ checkRows env date x.1 acc1.1 c) := by unfold checkOneRec; rw [h1]
      rw [hrec] at h
      simp only at h
      have hnew : c.stop.stopType = .bar ∨ c.stop.id ∉ done.map (fun c => c.stop.id) := by
        rcases hnd with hb | hn
        · exact Or.inl (hb c List.mem_cons_self)
        · right
          rw [List.map_append, List.nodup_append] at hn
          intro hin
          exact hn.2.2 _ hin c.stop.id (by simp) rfl
      have hst := hs.step hg hpt hsym hnew h1
      obtain ⟨k1, k2⟩ := checkOne_data hsym hpt h1
      have hk' : ∀ id, lookupStop acc1.1.stopData id = none ↔ lookupStop s.stopData id = none :=
        fun id => (k1 id).trans (hk id)
      obtain ⟨ih1, ih2⟩ := recorded hg hbarless cs
        (x := (acc1, x.2 ++ checkRows env date x.1 acc1.1 c)) hst hk'
        (fun c' hc' => hfit c' (List.mem_cons_of_mem _ hc')) (by
          rcases hnd with hb | hn
          · exact Or.inl (fun c' hc' => hb c' (List.mem_cons_of_mem _ hc'))
          · exact Or.inr (by simpa using hn)) h
      refine ⟨?_, ih2⟩
      have heq : evaluated env s xs (c :: cs) =
        (if c.entryId ∈ exitIds xs then [] else [c]) ++ evaluated env s (pick env s xs c) cs := rfl
      rw [ih1, heq, List.filterMap_append, ← List.append_assoc]
      refine congrArg (fun l => x.2 ++ l ++ _) ?_
      by_cases hin : c.entryId ∈ exitIds xs
      · rw [if_pos hin]
        unfold checkRows
        rw [if_pos (by rw [hs.ids]; exact hin)]
        rfl
      · rw [if_neg hin]
        have hin' : c.entryId ∉ x.1.2.map StopCheck.entryId := by rw [hs.ids]; exact hin
        have hent : entryOf x.1.1 c = some e := (hs.entryOf hin).trans he
        obtain ⟨j1, j2⟩ := k2 hin' e hent
        have hmk : marketOf env x.1.1 e c.stop = marketOf env s e c.stop :=
          marketOf_congr (hnew.imp id (fun hn => hs.fresh _ hn))
        have hlk : lookupStop x.1.1.stopData c.stop.id = lookupStop s.stopData c.stop.id := by
          rcases hnew with hb | hn
          · have h0 := hbarless c e he hes hb
            rw [h0]
            exact (hk _).2 h0
          · exact hs.fresh _ hn
        have hrow : checkRows env date x.1 acc1.1 c =
            [captureStop acc1.1 date e c.stop (triggerFill env x.1.1 e c.stop)] := by
          unfold checkRows
          rw [if_neg hin']
          unfold entryOf at hent
          rcases h2 : lookupPos (x.1.1.book c.posType) c.symbol with _ | p
          · rw [h2] at hent; cases hent
          · rw [h2] at hent
            simp only [Option.bind_some] at hent
            simp only
            rw [hent]
        rw [hrow, List.filterMap_cons, he]
        simp only [Option.map_some, List.filterMap_nil, List.cons.injEq, and_true]
        unfold captureStop rowFor
        rw [j1, j2, hmk, hlk, Option.map_map]
        rfl

/-! ## Which checks are evaluated -/

theorem evaluated_append (env : StopEnv) (s : Portfolio) : ∀ (as bs : List StopCheck)
    (xs : List Exit), evaluated env s xs (as ++ bs) =
      evaluated env s xs as ++ evaluated env s (as.foldl (pick env s) xs) bs
  | [], bs, xs => rfl
  | a :: as, bs, xs => by
    have heq : ∀ l, evaluated env s xs (a :: l) =
      (if a.entryId ∈ exitIds xs then [] else [a]) ++ evaluated env s (pick env s xs a) l :=
      fun _ => rfl
    rw [List.cons_append, heq, heq, evaluated_append env s as bs, List.append_assoc,
      List.foldl_cons]

theorem evaluated_sublist (env : StopEnv) (s : Portfolio) : ∀ (cs : List StopCheck)
    (xs : List Exit), (evaluated env s xs cs).Sublist cs
  | [], xs => List.Sublist.refl _
  | c :: cs, xs => by
    unfold evaluated
    split
    · exact (evaluated_sublist env s cs _).cons _
    · exact (evaluated_sublist env s cs _).cons_cons _

theorem mem_evaluated (env : StopEnv) (s : Portfolio) : ∀ (cs : List StopCheck) (xs : List Exit)
    (c : StopCheck), c ∈ evaluated env s xs cs ↔ ∃ pre post, cs = pre ++ c :: post ∧
      c.entryId ∉ exitIds (pre.foldl (pick env s) xs)
  | [], xs, c => by
    simp [evaluated]
  | a :: cs, xs, c => by
    unfold evaluated
    rw [List.mem_append, mem_evaluated env s cs]
    constructor
    · rintro (h | ⟨pre, post, rfl, h⟩)
      · split at h
        · cases h
        · rename_i hin
          rw [List.mem_singleton] at h
          subst h
          exact ⟨[], cs, rfl, hin⟩
      · exact ⟨a :: pre, post, rfl, h⟩
    · rintro ⟨pre, post, heq, h⟩
      cases pre with
      | nil =>
        simp only [List.nil_append, List.cons.injEq] at heq
        obtain ⟨rfl, rfl⟩ := heq
        left
        rw [List.foldl_nil] at h
        rw [if_neg h]
        exact List.mem_cons_self
      | cons b pre =>
        simp only [List.cons_append, List.cons.injEq] at heq
        obtain ⟨rfl, rfl⟩ := heq
        exact Or.inr ⟨pre, post, rfl, h⟩

/-- In an ordered list of checks, those evaluated are the ones no earlier stop of
the same entry preempts. -/
theorem mem_evaluated_ordered {env : StopEnv} {s : Portfolio} {cs : List StopCheck}
    (ho : cs.Pairwise CheckLT) (c : StopCheck) :
    c ∈ evaluated env s [] cs ↔ c ∈ cs ∧ ∀ c' ∈ cs, c'.entryId = c.entryId →
      TriedBefore c'.stop c.stop → fireOf env s c' = none := by
  rw [mem_evaluated]
  constructor
  · rintro ⟨pre, post, hcs, h⟩
    refine ⟨by rw [hcs]; simp, fun c' hc' he ht => ?_⟩
    have hpre := mem_pre_of_tried hcs ho hc' he ht
    rcases Option.eq_none_or_eq_some (fireOf env s c') with hn | ⟨x, hx⟩
    · exact hn
    · exact absurd ((exited_iff env s pre c.entryId).2 ⟨c', hpre, he, x, hx⟩) h
  · rintro ⟨hc, h⟩
    obtain ⟨pre, post, hcs⟩ := List.append_of_mem hc
    refine ⟨pre, post, hcs, ?_⟩
    rw [exited_iff]
    rintro ⟨c', hc', he, x, hx⟩
    have hlt : CheckLT c' c := by
      rw [hcs, List.pairwise_append] at ho
      exact ho.2.2 c' hc' c List.mem_cons_self
    rw [h c' (by rw [hcs]; exact List.mem_append_left _ hc') he (hlt he)] at hx
    cases hx

end PyBroker
