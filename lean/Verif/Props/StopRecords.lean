import Verif.Props.Stops
import Verif.Spec.StopRecords

/-!
# C117 and C118: which stop exits an entry, and the table of stops
-/

namespace PyBroker

open Spec

/-! ## The checks of a call -/

/-- The checks of a call are the stops of the open entries it can price. -/
theorem check_mem {env : StopEnv} {U : List Stop} {s : Portfolio} (hg : Good s) (hf : StopsFit s)
    (hr : RegInv U s) (c : StopCheck) :
    c ∈ priceChecks env s ++ barChecks env s ↔ ∃ p ∈ s.book c.posType, ∃ e ∈ p.entries,
      p.symbol = c.symbol ∧ e.id = c.entryId ∧ c.stop ∈ e.stops ∧ env.canPrice c.symbol = true := by
  constructor
  · intro hc
    rcases List.mem_append.1 hc with hc | hc
    · obtain ⟨d, hd, hcan, rfl⟩ := (priceChecks_mem hr.index).1 hc
      obtain ⟨pt, p, hp, e, he, hei, hes⟩ :=
        (hr.armed d.entryId d.stop (hr.index.price d hd)).2 ⟨d, hd, rfl, rfl⟩
      obtain ⟨h1, h2⟩ := hf.entries pt p hp e he _ hes
      exact ⟨p, h1 ▸ hp, e, he, h2.symm, hei, hes, hcan⟩
    · obtain ⟨pt, p, hp, e, he, st, hst, hbar, hcan, rfl⟩ := (barChecks_mem hg.wf).1 hc
      exact ⟨p, hp, e, he, rfl, rfl, hst, hcan⟩
  · rintro ⟨p, hp, e, he, hps, hei, hst, hcan⟩
    obtain ⟨pt, sym, eid, st⟩ := c
    simp only at hp hps hei hst hcan
    subst hps hei
    obtain ⟨f1, f2⟩ := hf.entries pt p hp e he st hst
    by_cases ht : st.stopType = .bar
    · exact List.mem_append_right _ ((barChecks_mem hg.wf).2
        ⟨pt, p, hp, e, he, st, hst, ht, hcan, rfl⟩)
    · obtain ⟨d, hd, hd1, hd2⟩ := (hr.armed e.id st ht).1 ⟨pt, p, hp, e, he, rfl, hst⟩
      refine List.mem_append_left _ ((priceChecks_mem hr.index).2 ⟨d, hd, ?_, ?_⟩)
      · rw [hd1, f2]; exact hcan
      · rw [hd1, hd2, f1, f2]

theorem check_entry {env : StopEnv} {U : List Stop} {s : Portfolio} (hg : Good s) (hf : StopsFit s)
    (hr : RegInv U s) {c : StopCheck} (hc : c ∈ priceChecks env s ++ barChecks env s) :
    ∃ e, entryOf s c = some e ∧ e.id = c.entryId ∧ c.stop ∈ e.stops ∧ CheckedEntry env s e ∧
      c.stop.posType = c.posType ∧ c.stop.symbol = c.symbol ∧ e.symbol = c.symbol ∧
      e.type = c.posType := by
  obtain ⟨p, hp, e, he, hps, hei, hst, hcan⟩ := (check_mem hg hf hr c).1 hc
  obtain ⟨f1, f2⟩ := hf.entries _ p hp e he _ hst
  refine ⟨e, ?_, hei, hst, ⟨c.posType, c.symbol, mem_entriesOf.2 ⟨p, hp, hps, he⟩, hcan⟩, f1,
    f2.trans hps, ((hg.wf.pos _ p hp).entries e he).symbol.trans hps,
    ((hg.wf.pos _ p hp).entries e he).type⟩
  unfold entryOf
  rw [← hps, lookupPos_of_mem (hg.wf.nodup _) hp, ← hei]
  exact findEntry_of_mem (hg.wf.pos _ p hp).nodup he

theorem entryOf_some {s : Portfolio} {c : StopCheck} {e : Entry} :
    entryOf s c = some e ↔ ∃ p, lookupPos (s.book c.posType) c.symbol = some p ∧
      findEntry p.entries c.entryId = some e := by
  unfold entryOf
  rw [Option.bind_eq_some_iff]

theorem fires_iff {env : StopEnv} {s : Portfolio} {c : StopCheck} {e : Entry}
    (he : entryOf s c = some e) (x : Exit) :
    fireOf env s c = some x ↔ ∃ m, FiresAt env c.stop (levelOf s c.stop) e.symBars m ∧
      LimitAllows c.stop (exitPaid env ⟨e, c.stop, m⟩) ∧ x = ⟨e, c.stop, m⟩ := by
  rw [fireOf_some]
  obtain ⟨p, hp, hfe⟩ := entryOf_some.1 he
  constructor
  · rintro ⟨p', e', m, hp', he', hm, hb, rfl⟩
    rw [hp] at hp'
    cases hp'
    rw [hfe] at he'
    cases he'
    exact ⟨m, marketOf_iff.1 hm, by rw [exitPaid_eq]; exact (limitAllows_iff _ _).1 hb, rfl⟩
  · rintro ⟨m, hm, hb, rfl⟩
    refine ⟨p, e, m, hp, hfe, marketOf_iff.2 hm, ?_, rfl⟩
    rw [exitPaid_eq] at hb
    exact (limitAllows_iff _ _).2 hb

theorem quiet_iff {env : StopEnv} {s : Portfolio} {c : StopCheck} {e : Entry}
    (he : entryOf s c = some e) : fireOf env s c = none ↔ ¬ WouldExit env s e c.stop := by
  constructor
  · rintro h ⟨m, h1, h2⟩
    rw [(fires_iff he ⟨e, c.stop, m⟩).2 ⟨m, h1, h2, rfl⟩] at h
    cases h
  · intro h
    rcases Option.eq_none_or_eq_some (fireOf env s c) with hn | ⟨x, hx⟩
    · exact hn
    · obtain ⟨m, h1, h2, -⟩ := (fires_iff he x).1 hx
      exact absurd ⟨m, h1, h2⟩ h

/-- Open entries are told apart by their ids. -/
theorem entriesOf_unique {Z : List Nat} {s : Portfolio} (hw : WF Z s) {pt pt' : PosType}
    {sym sym' : Sym} {e f : Entry} (he : e ∈ entriesOf (s.book pt) sym)
    (hf : f ∈ entriesOf (s.book pt') sym') (hid : e.id = f.id) :
    pt = pt' ∧ sym = sym' ∧ e = f := by
  obtain ⟨p, hp, hps, hep⟩ := mem_entriesOf.1 he
  obtain ⟨q, hq, hqs, hfq⟩ := mem_entriesOf.1 hf
  obtain ⟨h1, rfl, h3⟩ := hw.entry_unique hp hq hep hfq hid
  exact ⟨h1, hps.symm.trans hqs, h3⟩

/-- The stops no earlier stop of the entry preempts. -/
def Unpreempted (env : StopEnv) (s : Portfolio) (e : Entry) (st : Stop) : Prop :=
  ∀ st' ∈ e.stops, TriedBefore st' st → ¬ WouldExit env s e st'

theorem unpreempted_iff {env : StopEnv} {U : List Stop} {s : Portfolio} (hg : Good s)
    (hf : StopsFit s) (h : OrdInv U s) {c : StopCheck}
    (hc : c ∈ priceChecks env s ++ barChecks env s) {e : Entry} (he : entryOf s c = some e) :
    c ∈ evaluated env s [] (priceChecks env s ++ barChecks env s) ↔
      Unpreempted env s e c.stop := by
  rw [mem_evaluated_ordered (checks_order hg hf h)]
  obtain ⟨p, hp, e0, he0, hps, hei, hst, hcan⟩ := (check_mem hg hf h.reg c).1 hc
  have hee : e = e0 := by
    have h1 : entryOf s c = some e0 := by
      unfold entryOf
      rw [← hps, lookupPos_of_mem (hg.wf.nodup _) hp, ← hei]
      exact findEntry_of_mem (hg.wf.pos _ p hp).nodup he0
    rw [h1] at he
    exact (Option.some.inj he).symm
  subst hee
  constructor
  · rintro ⟨-, hq⟩ st' hst' ht
    have hc' : (⟨c.posType, c.symbol, c.entryId, st'⟩ : StopCheck) ∈
        priceChecks env s ++ barChecks env s :=
      (check_mem hg hf h.reg _).2 ⟨p, hp, e, he0, hps, hei, hst', hcan⟩
    exact (quiet_iff (c := ⟨c.posType, c.symbol, c.entryId, st'⟩) he).1 (hq _ hc' rfl ht)
  · intro hq
    refine ⟨hc, fun c' hc' hid ht => ?_⟩
    obtain ⟨e', he', hei', hst', hce', -⟩ := check_entry hg hf h.reg hc'
    obtain ⟨pt', sym', hm', -⟩ := hce'
    have : e = e' := (entriesOf_unique hg.wf (mem_entriesOf.2 ⟨p, hp, rfl, he0⟩) hm'
      (by rw [hei, hei', hid])).2.2
    subst this
    exact (quiet_iff he').2 (hq _ hst' ht)

/-! ## C117 -/

theorem TriedBefore.trichotomy {a b : Stop} (h1 : ¬ TriedBefore a b) (h2 : ¬ TriedBefore b a) :
    a.id = b.id := by
  unfold TriedBefore at h1 h2
  by_cases ha : a.stopType = .bar <;> by_cases hb : b.stopType = .bar <;>
    simp [ha, hb] at h1 h2
  · omega
  · omega

/-- C117.  After any history whose stops have distinct ids, one `check_stops`
call exits an entry by a stop iff the stop is the first of the entry's stops --
price stops by id, then bar stops by id -- to fire at a price its limit allows.
The trades and orders of the call are those of these exits, one each. -/
theorem first_stop_exits {cfg : Config} {ops : List Op} {s s' : Portfolio} {date : Date}
    {env : StopEnv} (hfit : ∀ op ∈ ops, op.Fit) (hfresh : FreshIds ops)
    (hrun : run cfg ops = .ok s) (h : checkStops cfg s date env = .ok s') :
    ∃ xs : List Exit, (xs.map (fun x => x.entry.id)).Nodup ∧
      (∃ new, s'.trades = s.trades ++ new ∧ new.map TradeFacts.of = xs.map (stopTrade env date)) ∧
      (∃ new, s'.orders = s.orders ++ new ∧ new.map OrderFacts.of = xs.map (stopOrder env date)) ∧
      ∀ e st m, ⟨e, st, m⟩ ∈ xs ↔ CheckedEntry env s e ∧ st ∈ e.stops ∧
        FiresAt env st (levelOf s st) e.symBars m ∧ LimitAllows st (exitPaid env ⟨e, st, m⟩) ∧
        ∀ st' ∈ e.stops, TriedBefore st' st → ¬ WouldExit env s e st' := by
  obtain ⟨hg, hf⟩ := run_good hfit hrun
  have ho := run_ord hfit hfresh hrun
  have hr := ho.reg
  obtain ⟨acc, hs, rfl⟩ := checkStops_sim hg hf hr.index h
  obtain ⟨p1, -, -, p4⟩ := picked env s (priceChecks env s ++ barChecks env s) []
  have hfirst : ∀ x ∈ chosen env s, CheckedEntry env s x.entry ∧ x.stop ∈ x.entry.stops ∧
      FiresAt env x.stop (levelOf s x.stop) x.entry.symBars x.market ∧
      LimitAllows x.stop (exitPaid env x) ∧ Unpreempted env s x.entry x.stop := by
    intro x hx
    obtain ⟨pre, c, post, hcs, hfire, hni⟩ := picked_first env s _ x hx
    have hc : c ∈ priceChecks env s ++ barChecks env s := by rw [hcs]; simp
    obtain ⟨e, he, hei, hst, hce, -⟩ := check_entry hg hf hr hc
    obtain ⟨m, h1, h2, rfl⟩ := (fires_iff he x).1 hfire
    refine ⟨hce, hst, h1, h2, (unpreempted_iff hg hf ho hc he).1 ?_⟩
    exact (mem_evaluated env s _ _ c).2 ⟨pre, post, hcs, hni⟩
  refine ⟨chosen env s, p1 List.nodup_nil, ?_, ?_, ?_⟩
  · obtain ⟨new, h1, h2⟩ := hs.trades
    refine ⟨new, (finishAll_logs _ _).1.trans h1, h2.trans ?_⟩
    exact List.map_congr_left (fun x _ => (stopTrade_eq env date x).symm)
  · obtain ⟨new, h1, h2⟩ := hs.orders
    refine ⟨new, (finishAll_logs _ _).2.trans h1, h2.trans ?_⟩
    exact List.map_congr_left (fun x _ => (stopOrder_eq env date x).symm)
  · intro e st m
    constructor
    · intro hx
      exact hfirst _ hx
    · rintro ⟨hce, hst, hF, hL, hun⟩
      obtain ⟨pt, sym, hin, hcan⟩ := hce
      obtain ⟨p, hp, hps, hep⟩ := mem_entriesOf.1 hin
      have hc : (⟨pt, sym, e.id, st⟩ : StopCheck) ∈ priceChecks env s ++ barChecks env s :=
        (check_mem hg hf hr _).2 ⟨p, hp, e, hep, hps, rfl, hst, hcan⟩
      have he : entryOf s ⟨pt, sym, e.id, st⟩ = some e := by
        unfold entryOf
        simp only
        rw [← hps, lookupPos_of_mem (hg.wf.nodup _) hp]
        exact findEntry_of_mem (hg.wf.pos _ p hp).nodup hep
      have hid := p4 _ hc ⟨e, st, m⟩ ((fires_iff he _).2 ⟨m, hF, hL, rfl⟩)
      obtain ⟨x, hx, hxi⟩ := List.mem_map.1 hid
      obtain ⟨k1, k2, k3, k4, k5⟩ := hfirst x hx
      obtain ⟨pt', sym', hin', -⟩ := k1
      have hxe : x.entry = e := (entriesOf_unique hg.wf hin' hin hxi).2.2
      obtain ⟨xe, xst, xm⟩ := x
      simp only at hxe k2 k3 k4 k5
      subst hxe
      have hstop : xst = st := by
        refine List.inj_on_of_nodup_map (hr.univ pt p hp _ hep).2 k2 hst ?_
        refine TriedBefore.trichotomy (fun ht => ?_) (fun ht => ?_)
        · exact hun xst k2 ht ⟨xm, k3, k4⟩
        · exact k5 st hst ht ⟨m, hF, hL⟩
      subst hstop
      have hm : xm = m := by
        have h1 := marketOf_iff.2 k3
        rw [marketOf_iff.2 hF] at h1
        exact (Option.some.inj h1).symm
      subst hm
      exact hx

/-! ## C118 -/

theorem rowFor_isRow {env : StopEnv} {date : Date} {U : List Stop} {s : Portfolio}
    (hU : (U.map Stop.id).Nodup) (hr : RegInv U s) (ha : AmountSet s) {pt : PosType}
    {p : Position} {e : Entry} {st : Stop} (hp : p ∈ s.book pt) (he : e ∈ p.entries)
    (hst : st ∈ e.stops) (hty : st.posType = e.type) (hsy : st.symbol = e.symbol) :
    IsStopRow env date s e st (rowFor env date s e st) := by
  have hhas : HasStop s e.id st := ⟨pt, p, hp, e, he, rfl, hst⟩
  have hlev : st.stopType ≠ .bar → ∃ d ∈ s.stopData, d.stop = st ∧
      lookupStop s.stopData st.id = some d ∧ levelOf s st = d.value := by
    intro hb
    obtain ⟨d, hd, hd1, hd2⟩ := (hr.armed e.id st hb).1 hhas
    have hlook : lookupStop s.stopData st.id = some d := hd1 ▸ lookupStop_of_mem hr.index.nodup hd
    exact ⟨d, hd, hd1, hlook, by rw [levelOf_eq, hlook]; rfl⟩
  refine ⟨rfl, hsy, hty, rfl, rfl, rfl, rfl, rfl, rfl, rfl, rfl, ?_, ?_, ?_, ?_⟩
  · intro hb
    have : lookupStop s.stopData st.id = none := by
      rcases Option.eq_none_or_eq_some (lookupStop s.stopData st.id) with hn | ⟨d, hd⟩
      · exact hn
      · obtain ⟨hdm, hdi⟩ := lookupStop_some hd
        have h1 := (hr.record hU hhas hdm hdi).1
        exact absurd hb (h1 ▸ hr.index.price d hdm)
    unfold rowFor
    simp only [this, Option.map_none]
  · intro hlp
    have hb : st.stopType ≠ .bar := by rcases hlp with h | h <;> rw [h] <;> decide
    obtain ⟨d, hd, hd1, hlook, hv⟩ := hlev hb
    unfold rowFor
    simp only [hlook, Option.map_some, hv]
    unfold nextLevel
    rcases hlp with h | h <;> rw [h]
  · intro ht l hl hfin
    have hb : st.stopType ≠ .bar := by rw [ht]; decide
    obtain ⟨d, hd, hd1, hlook, hv⟩ := hlev hb
    have hd' : d.value = some l := hv.symm.trans hl
    have hval : (rowFor env date s e st).currValue = some (nextLevel env st (some l)) := by
      unfold rowFor
      simp only [hlook, Option.map_some, hd']
    have hsame : ∀ m n n', FiresAt env st (some l) n m → FiresAt env st (some l) n' m := by
      intro m n n' h
      cases h with
      | bars h1 => exact absurd h1 hb
      | below h1 h2 h3 h4 h5 h6 h7 => exact .below h1 h2 h3 h4 h5 h6 h7
      | above h1 h2 h3 h4 h5 h6 h7 => exact .above h1 h2 h3 h4 h5 h6 h7
      | belowAt h1 h2 h3 h4 h5 h6 => exact .belowAt h1 h2 h3 h4 h5 h6
      | aboveAt h1 h2 h3 h4 h5 h6 => exact .aboveAt h1 h2 h3 h4 h5 h6
    rw [hval]
    rcases nextLevel_trailing (l := l) ht (hd1 ▸ ha d hd) hfin with ⟨⟨m, hm⟩, h1⟩ | ⟨hno, h1⟩
    · exact ⟨fun _ => by rw [h1], fun hn => absurd (hsame m _ _ hm) (hn m)⟩
    · exact ⟨fun ⟨m, hm⟩ => absurd (hsame m _ _ hm) (hno m), fun _ => by rw [h1]⟩
  · intro y
    show (marketOf env s e st).map (slipStopFill env st e.shares) = some y ↔ _
    rw [Option.map_eq_some_iff]
    constructor
    · rintro ⟨m, hm, rfl⟩
      exact ⟨m, marketOf_iff.1 hm, by rw [exitPaid_eq]; rfl⟩
    · rintro ⟨m, hm, rfl⟩
      exact ⟨m, marketOf_iff.2 hm, by rw [exitPaid_eq]; rfl⟩

/-- The rows of a call, as a function of the portfolio before it. -/
theorem stop_rows_eq {cfg : Config} {ops : List Op} {s s' : Portfolio} {date : Date}
    {env : StopEnv} {rows : List StopRecord} (hfit : ∀ op ∈ ops, op.Fit) (hfresh : FreshIds ops)
    (hrun : run cfg ops = .ok s) (h : checkStopsRec cfg s date env = .ok (s', rows)) :
    checkStops cfg s date env = .ok s' ∧
    ∃ seen : List (Entry × Stop),
      rows = seen.map (fun x => rowFor env date s x.1 x.2) ∧
      seen.Pairwise (fun x y => x.1.id = y.1.id → TriedBefore x.2 y.2) ∧
      ∀ e st, (e, st) ∈ seen ↔ CheckedEntry env s e ∧ st ∈ e.stops ∧
        ∀ st' ∈ e.stops, TriedBefore st' st → ¬ WouldExit env s e st' := by
  obtain ⟨hg, hf⟩ := run_good hfit hrun
  have ho := run_ord hfit hfresh hrun
  have hr := ho.reg
  have hpf : checkStops cfg s date env = .ok s' := by
    rw [← checkStopsRec_pf, h]; rfl
  refine ⟨hpf, ?_⟩
  -- the rows are those of the evaluated checks
  have hrows : rows = (evaluated env s [] (priceChecks env s ++ barChecks env s)).filterMap
      (fun c => (entryOf s c).map (fun e => rowFor env date s e c.stop)) := by
    have hbarless : ∀ c e, entryOf s c = some e → c.stop ∈ e.stops → c.stop.stopType = .bar →
        lookupStop s.stopData c.stop.id = none := by
      intro c e hce hst hb
      obtain ⟨p, hp, hfe⟩ := entryOf_some.1 hce
      rcases Option.eq_none_or_eq_some (lookupStop s.stopData c.stop.id) with hn | ⟨d, hd⟩
      · exact hn
      · obtain ⟨hdm, hdi⟩ := lookupStop_some hd
        have h1 := (hr.record hfresh ⟨c.posType, p, (lookupPos_some hp).1, e,
          (findEntry_some hfe).1, rfl, hst⟩ hdm hdi).1
        exact absurd hb (h1 ▸ hr.index.price d hdm)
    have hfits : ∀ c ∈ priceChecks env s ++ barChecks env s, c.stop.posType = c.posType ∧
        c.stop.symbol = c.symbol ∧ ∃ e, entryOf s c = some e ∧ c.stop ∈ e.stops := by
      intro c hc
      obtain ⟨e, he, hei, hst, hce, h1, h2, -⟩ := check_entry hg hf hr hc
      exact ⟨h1, h2, e, he, hst⟩
    unfold checkStopsRec at h
    rcases h1 : foldE (checkOneRec cfg env date) ((s, []), []) (priceChecks env s) with err | x
    · rw [h1] at h; cases h
    · rw [h1] at h
      simp only at h
      rcases h2 : foldE (checkOneRec cfg env date) x (barChecks env x.1.1) with err | y
      · rw [h2] at h; cases h
      · rw [h2] at h
        simp only [Except.ok.injEq, Prod.mk.injEq] at h
        obtain ⟨-, rfl⟩ := h
        have hnd : (((([] : List StopCheck)) ++ priceChecks env s).map
            (fun c => c.stop.id)).Nodup := by simpa using priceChecks_nodup hr.index
        obtain ⟨r1, r2⟩ := recorded hg hbarless (priceChecks env s) (x := ((s, []), []))
          (Sim.start env date hg) (fun _ => Iff.rfl)
          (fun c hc => hfits c (List.mem_append_left _ hc)) (Or.inr hnd) h1
        have hfold1 : foldE (checkOne cfg env date) (s, []) (priceChecks env s) = .ok x.1 := by
          have := checkOneRec_fold (cfg := cfg) (env := env) (date := date) (priceChecks env s)
            ((s, []), [])
          rw [h1] at this
          exact this.symm
        have hs1 := Sim.loop hg (priceChecks env s) (Sim.start env date hg)
          (fun c hc => ⟨(hfits c (List.mem_append_left _ hc)).1,
            (hfits c (List.mem_append_left _ hc)).2.1⟩) (Or.inr hnd) hfold1
        have hbc := hs1.barChecks
        rw [hbc] at h2
        obtain ⟨r3, -⟩ := recorded hg hbarless (barChecks env s) (x := x) hs1 r2
          (fun c hc => hfits c (List.mem_append_right _ hc)) (Or.inl (by
            intro c hc
            obtain ⟨pt, p, hp, e, he, st, hst, hbar, -, rfl⟩ := (barChecks_mem hg.wf).1 hc
            exact hbar)) h2
        rw [r3, r1, evaluated_append, List.filterMap_append]
        rfl
  have hev : ∀ c ∈ evaluated env s [] (priceChecks env s ++ barChecks env s),
      c ∈ priceChecks env s ++ barChecks env s :=
    fun c hc => (evaluated_sublist env s _ _).subset hc
  have hseen : rows = ((evaluated env s [] (priceChecks env s ++ barChecks env s)).filterMap
      (fun c => (entryOf s c).map (fun e => (e, c.stop)))).map
      (fun x => rowFor env date s x.1 x.2) := by
    rw [hrows, List.map_filterMap]
    congr 1
    funext c
    cases entryOf s c <;> rfl
  have hmem : ∀ e st, (e, st) ∈ (evaluated env s [] (priceChecks env s ++ barChecks env s)).filterMap
      (fun c => (entryOf s c).map (fun e => (e, c.stop))) ↔ CheckedEntry env s e ∧ st ∈ e.stops ∧
        ∀ st' ∈ e.stops, TriedBefore st' st → ¬ WouldExit env s e st' := by
    intro e st
    rw [List.mem_filterMap]
    constructor
    · rintro ⟨c, hc, hce⟩
      obtain ⟨e', he', heq⟩ := Option.map_eq_some_iff.1 hce
      cases heq
      obtain ⟨e', he'', hei, hst, hchk, -⟩ := check_entry hg hf hr (hev c hc)
      rw [he'] at he''
      cases he''
      exact ⟨hchk, hst, (unpreempted_iff hg hf ho (hev c hc) he').1 hc⟩
    · rintro ⟨⟨pt, sym, hin, hcan⟩, hst, hun⟩
      obtain ⟨p, hp, hps, hep⟩ := mem_entriesOf.1 hin
      have hc : (⟨pt, sym, e.id, st⟩ : StopCheck) ∈ priceChecks env s ++ barChecks env s :=
        (check_mem hg hf hr _).2 ⟨p, hp, e, hep, hps, rfl, hst, hcan⟩
      have he : entryOf s ⟨pt, sym, e.id, st⟩ = some e := by
        unfold entryOf
        simp only
        rw [← hps, lookupPos_of_mem (hg.wf.nodup _) hp]
        exact findEntry_of_mem (hg.wf.pos _ p hp).nodup hep
      exact ⟨_, (unpreempted_iff hg hf ho hc he).2 hun, by rw [he]; rfl⟩
  refine ⟨_, ?_, ?_, hmem⟩
  · exact hseen
  · rw [List.pairwise_filterMap]
    refine (List.Pairwise.sublist (evaluated_sublist env s _ _)
      (checks_order (env := env) hg hf ho)).imp_of_mem ?_
    intro a b ha hb hab x hx y hy hid
    obtain ⟨ea, hea, rfl⟩ := Option.map_eq_some_iff.1 hx
    obtain ⟨eb, heb, rfl⟩ := Option.map_eq_some_iff.1 hy
    obtain ⟨_, h1, hia, -⟩ := check_entry hg hf hr (hev a ha)
    rw [hea] at h1
    cases h1
    obtain ⟨_, h1, hib, -⟩ := check_entry hg hf hr (hev b hb)
    rw [heb] at h1
    cases h1
    exact hab (by rw [← hia, ← hib]; exact hid)

/-- C118.  After any history whose stops have distinct ids, `check_stops` on a
portfolio that records stops does the same to the portfolio, and appends one row
for each stop of an open entry with a usable bar, except those preempted by an
earlier stop that exits the entry on this bar.  The rows of an entry come in the
order in which its stops are tried. -/
theorem stop_rows {cfg : Config} {ops : List Op} {s s' : Portfolio} {date : Date}
    {env : StopEnv} {rows : List StopRecord} (hfit : ∀ op ∈ ops, op.Fit) (hfresh : FreshIds ops)
    (hrun : run cfg ops = .ok s) (h : checkStopsRec cfg s date env = .ok (s', rows)) :
    checkStops cfg s date env = .ok s' ∧
    ∃ seen : List (Entry × Stop),
      List.Forall₂ (fun x r => IsStopRow env date s x.1 x.2 r) seen rows ∧
      seen.Pairwise (fun x y => x.1.id = y.1.id → TriedBefore x.2 y.2) ∧
      ∀ e st, (e, st) ∈ seen ↔ CheckedEntry env s e ∧ st ∈ e.stops ∧
        ∀ st' ∈ e.stops, TriedBefore st' st → ¬ WouldExit env s e st' := by
  obtain ⟨hcs, seen, hrows, hpw, hmem⟩ := stop_rows_eq hfit hfresh hrun h
  obtain ⟨hg, hf⟩ := run_good hfit hrun
  have hr := run_reg hfit hfresh hrun
  have hamt := run_amount hfit hrun
  refine ⟨hcs, seen, ?_, hpw, hmem⟩
  rw [hrows, List.forall₂_map_right_iff, List.forall₂_same]
  rintro ⟨e, st⟩ hx
  obtain ⟨⟨pt, sym, hin, hcan⟩, hst, -⟩ := (hmem e st).1 hx
  obtain ⟨p, hp, hps, hep⟩ := mem_entriesOf.1 hin
  obtain ⟨f1, f2⟩ := hf.entries pt p hp e hep st hst
  have hpw := (hg.wf.pos pt p hp).entries e hep
  exact rowFor_isRow hfresh hr hamt hp hep hst (by rw [f1, hpw.type]) (by rw [f2, hpw.symbol])

/-- C118, the exits: every stop trade of the call has a row with its fill price,
and a row with a fill price its limit allows is a stop trade of the call.  So a
fill price without a trade only stands for an exit the limit price blocked. -/
theorem stop_exits_recorded {cfg : Config} {ops : List Op} {s s' : Portfolio} {date : Date}
    {env : StopEnv} {rows : List StopRecord} (hfit : ∀ op ∈ ops, op.Fit) (hfresh : FreshIds ops)
    (hrun : run cfg ops = .ok s) (h : checkStopsRec cfg s date env = .ok (s', rows)) :
    ∃ new, s'.trades = s.trades ++ new ∧
      (∀ t ∈ new, ∃ r ∈ rows, t.stop = some r.stopType ∧ t.symbol = r.symbol ∧
        t.type = r.posType ∧ r.fillPrice = some t.exit ∧ RowAllows r t.exit) ∧
      (∀ r ∈ rows, ∀ y, r.fillPrice = some y → RowAllows r y →
        ∃ t ∈ new, t.stop = some r.stopType ∧ t.symbol = r.symbol ∧ t.type = r.posType ∧
          t.exit = y) := by
  obtain ⟨hcs, seen, hrows, -, hmem⟩ := stop_rows hfit hfresh hrun h
  obtain ⟨xs, -, ⟨new, hn1, hn2⟩, -, hx⟩ := first_stop_exits hfit hfresh hrun hcs
  have hallow : ∀ {e : Entry} {st : Stop} {r : StopRecord} {y : ℚ},
      IsStopRow env date s e st r → CheckedEntry env s e → st ∈ e.stops →
      (RowAllows r y ↔ LimitAllows st y) := by
    intro e st r y hr hce hst
    obtain ⟨hg, hf⟩ := run_good hfit hrun
    obtain ⟨pt, sym, hin, -⟩ := hce
    obtain ⟨p, hp, hps, hep⟩ := mem_entriesOf.1 hin
    have hty : r.posType = st.posType := by
      rw [hr.posType, ((hg.wf.pos pt p hp).entries e hep).type, (hf.entries pt p hp e hep st hst).1]
    unfold RowAllows LimitAllows
    rw [hr.limitPrice, hty]
  refine ⟨new, hn1, ?_, ?_⟩
  · intro t ht
    have hm : TradeFacts.of t ∈ xs.map (stopTrade env date) := by
      rw [← hn2]; exact List.mem_map.2 ⟨t, ht, rfl⟩
    obtain ⟨⟨e, st, m⟩, hxm, hxt⟩ := List.mem_map.1 hm
    obtain ⟨h1, h2, h3, h4, h5⟩ := (hx e st m).1 hxm
    have hin := (hmem e st).2 ⟨h1, h2, h5⟩
    obtain ⟨k, hk, hke⟩ := List.mem_iff_getElem.1 hin
    have hlen := hrows.length_eq
    have hR : IsStopRow env date s e st (rows[k]'(hlen ▸ hk)) := by
      have := List.Forall₂.get hrows hk (hlen ▸ hk)
      simp only [List.get_eq_getElem, hke] at this
      exact this
    have e1 : t.stop = some st.stopType := (congrArg TradeFacts.stop hxt).symm
    have e2 : t.symbol = e.symbol := (congrArg TradeFacts.symbol hxt).symm
    have e3 : t.type = e.type := (congrArg TradeFacts.type hxt).symm
    have e4 : t.exit = exitPaid env ⟨e, st, m⟩ := (congrArg TradeFacts.exit hxt).symm
    refine ⟨_, List.getElem_mem (hlen ▸ hk), by rw [e1, hR.stopType], by rw [e2, hR.symbol],
      by rw [e3, hR.posType], (hR.fill _).2 ⟨m, h3, e4⟩, ?_⟩
    rw [hallow hR h1 h2, e4]
    exact h4
  · intro r hr y hy hal
    obtain ⟨k, hk, hke⟩ := List.mem_iff_getElem.1 hr
    have hlen := hrows.length_eq
    rcases hxe : seen[k]'(hlen ▸ hk) with ⟨e, st⟩
    have hR : IsStopRow env date s e st r := by
      have := List.Forall₂.get hrows (hlen ▸ hk) hk
      simp only [List.get_eq_getElem, hke, hxe] at this
      exact this
    obtain ⟨h1, h2, h3⟩ := (hmem e st).1 (hxe ▸ List.getElem_mem (hlen ▸ hk))
    obtain ⟨m, hm, hym⟩ := (hR.fill y).1 hy
    have hlim : LimitAllows st (exitPaid env ⟨e, st, m⟩) := by
      rw [← hym]; exact (hallow hR h1 h2).1 hal
    have hxm := (hx e st m).2 ⟨h1, h2, hm, hlim, h3⟩
    have hin : stopTrade env date ⟨e, st, m⟩ ∈ new.map TradeFacts.of := by
      rw [hn2]; exact List.mem_map.2 ⟨_, hxm, rfl⟩
    obtain ⟨t, ht, hte⟩ := List.mem_map.1 hin
    refine ⟨t, ht, ?_, ?_, ?_, ?_⟩
    · rw [hR.stopType]; exact congrArg TradeFacts.stop hte
    · rw [hR.symbol]; exact congrArg TradeFacts.symbol hte
    · rw [hR.posType]; exact congrArg TradeFacts.type hte
    · rw [hym]; exact congrArg TradeFacts.exit hte

/-- C118, the level: the row of a price stop whose entry is still open after the
bar reports the level the stop then has. -/
theorem stop_row_level {cfg : Config} {ops : List Op} {s s' : Portfolio} {date : Date}
    {env : StopEnv} {rows : List StopRecord} (hfit : ∀ op ∈ ops, op.Fit) (hfresh : FreshIds ops)
    (hrun : run cfg ops = .ok s) (h : checkStopsRec cfg s date env = .ok (s', rows)) {eid : Nat}
    {st : Stop} (hbar : st.stopType ≠ .bar) (hatt : Attached s' eid st) :
    ∀ r ∈ rows, r.stopId = st.id → r.currValue = some (levelOf s' st) := by
  obtain ⟨hcs, seen, hrows, hpw, hmem⟩ := stop_rows_eq hfit hfresh hrun h
  obtain ⟨hg, hf⟩ := run_good hfit hrun
  have hr := run_reg hfit hfresh hrun
  have hr' : RegInv (ops.flatMap stopsOf) s' := by
    refine runFrom_reg hfresh (cfg := cfg) (ops := [.checkStops date env]) ?_ ?_ hg hf hr ?_
    · intro op hop; rw [List.mem_singleton.1 hop]; exact trivial
    · intro op hop; rw [List.mem_singleton.1 hop]; exact ⟨by simp [stopsOf], by simp [stopsOf]⟩
    · unfold runFrom foldE
      have : step cfg s (.checkStops date env) = .ok s' := hcs
      rw [this]; rfl
  obtain ⟨hhas, d, d', hd, hd', hval⟩ := step_level (op := .checkStops date env) hfresh hg hf hr hr'
    trivial hcs (by simp [stopsOf]) hbar ((attached_iff s' eid st).1 hatt)
  intro r hr1 hid
  rw [hrows] at hr1
  obtain ⟨⟨e, st'⟩, hx, rfl⟩ := List.mem_map.1 hr1
  obtain ⟨⟨pt, sym, hin, hcan⟩, hst', -⟩ := (hmem e st').1 hx
  obtain ⟨p, hp, hps, hep⟩ := mem_entriesOf.1 hin
  obtain ⟨pt2, p2, hp2, e2, he2, -, hst2⟩ := hhas
  have heq : st' = st := List.inj_on_of_nodup_map hfresh ((hr.univ pt p hp e hep).1 _ hst')
    ((hr.univ pt2 p2 hp2 e2 he2).1 _ hst2) hid
  subst heq
  have hsym : st'.symbol = sym := ((hf.entries pt p hp e hep _ hst').2).trans hps
  show (lookupStop s.stopData st'.id).map (fun d => nextLevel env st' d.value) = _
  rw [hd, levelOf_eq, hd']
  simp only [Option.map_some, Option.elim, hval, opLevel, hsym, hcan, if_true]

/-! ## Histories -/

theorem runStops_snoc {cfg : Config} {ops : List Op} {op : Op}
    {x : Portfolio × List StopRecord} :
    runStops cfg (ops ++ [op]) = .ok x ↔
      ∃ y, runStops cfg ops = .ok y ∧ stepStops cfg y op = .ok x := by
  unfold runStops
  rw [foldE_append]
  rcases h : foldE (stepStops cfg) (Portfolio.init cfg, []) ops with e | y
  · simp
  · simp only [Except.ok.injEq, exists_eq_left']
    unfold foldE
    rcases h1 : stepStops cfg y op with e | z
    · simp
    · simp [foldE]

/-- C118, histories: recording stops does not change what the calls do, and the
table holds the rows of the `check_stops` calls and no others. -/
theorem stop_table {cfg : Config} {ops : List Op} {s : Portfolio} {rows : List StopRecord}
    (h : runStops cfg ops = .ok (s, rows)) :
    run cfg ops = .ok s ∧
    ∀ r, r ∈ rows ↔ ∃ pre date env post s0 s1 new, ops = pre ++ Op.checkStops date env :: post ∧
      run cfg pre = .ok s0 ∧ checkStopsRec cfg s0 date env = .ok (s1, new) ∧ r ∈ new := by
  induction ops using List.reverseRecOn generalizing s rows with
  | nil =>
    cases h
    refine ⟨rfl, fun r => ?_⟩
    simp
  | append_singleton ops op ih =>
    obtain ⟨⟨s0, rows0⟩, h1, h2⟩ := runStops_snoc.1 h
    obtain ⟨hr0, hm0⟩ := ih h1
    have hrun : ∀ t, step cfg s0 op = .ok t → run cfg (ops ++ [op]) = .ok t := by
      intro t ht
      unfold run runFrom at hr0 ⊢
      rw [foldE_append, hr0]
      simp only [foldE, ht]
    -- rows of earlier calls
    have hold : ∀ r, r ∈ rows0 → ∃ pre date env post s0 s1 new,
        ops ++ [op] = pre ++ Op.checkStops date env :: post ∧
        run cfg pre = .ok s0 ∧ checkStopsRec cfg s0 date env = .ok (s1, new) ∧ r ∈ new := by
      intro r hr
      obtain ⟨pre, date, env, post, t0, t1, new, rfl, k1, k2, k3⟩ := (hm0 r).1 hr
      exact ⟨pre, date, env, post ++ [op], t0, t1, new, by simp, k1, k2, k3⟩
    have hsplit : ∀ (pre post : List Op) (o : Op), ops ++ [op] = pre ++ o :: post →
        (post = [] ∧ pre = ops ∧ o = op) ∨ ∃ post', ops = pre ++ o :: post' := by
      intro pre post o heq
      rcases List.eq_nil_or_concat post with rfl | ⟨post', z, rfl⟩
      · left
        have := List.append_inj' heq rfl
        simp only [List.cons.injEq, and_true] at this
        exact ⟨rfl, this.1.symm, this.2.symm⟩
      · right
        refine ⟨post', ?_⟩
        have h3 : ops ++ [op] = (pre ++ o :: post') ++ [z] := by rw [heq]; simp
        exact (List.append_inj' h3 rfl).1
    by_cases hc : ∃ date env, op = .checkStops date env
    · obtain ⟨date, env, rfl⟩ := hc
      unfold stepStops at h2
      simp only at h2
      rcases h3 : checkStopsRec cfg s0 date env with e | ⟨t, new⟩
      · rw [h3] at h2; cases h2
      · rw [h3] at h2
        simp only [Except.map, Except.ok.injEq, Prod.mk.injEq] at h2
        obtain ⟨rfl, rfl⟩ := h2
        refine ⟨hrun t ?_, fun r => ?_⟩
        · show checkStops cfg s0 date env = .ok t
          rw [← checkStopsRec_pf, h3]; rfl
        · rw [List.mem_append]
          constructor
          · rintro (hr | hr)
            · exact hold r hr
            · exact ⟨ops, date, env, [], s0, t, new, rfl, hr0, h3, hr⟩
          · rintro ⟨pre, date', env', post, t0, t1, new', heq, k1, k2, k3⟩
            rcases hsplit _ _ _ heq with ⟨rfl, rfl, ho⟩ | ⟨post', heq'⟩
            · simp only [Op.checkStops.injEq] at ho
              obtain ⟨rfl, rfl⟩ := ho
              rw [hr0] at k1
              cases k1
              rw [h3] at k2
              cases k2
              exact Or.inr k3
            · exact Or.inl ((hm0 r).2 ⟨pre, date', env', post', t0, t1, new', heq', k1, k2, k3⟩)
    · have h3 : stepStops cfg (s0, rows0) op = (step cfg s0 op).map (fun s => (s, rows0)) := by
        cases op <;> first | rfl | exact absurd ⟨_, _, rfl⟩ hc
      rw [h3] at h2
      rcases h4 : step cfg s0 op with e | t
      · rw [h4] at h2; cases h2
      · rw [h4] at h2
        simp only [Except.map, Except.ok.injEq, Prod.mk.injEq] at h2
        obtain ⟨rfl, rfl⟩ := h2
        refine ⟨hrun t h4, fun r => ⟨hold r, ?_⟩⟩
        rintro ⟨pre, date', env', post, t0, t1, new', heq, k1, k2, k3⟩
        rcases hsplit _ _ _ heq with ⟨rfl, rfl, ho⟩ | ⟨post', heq'⟩
        · exact absurd ⟨_, _, ho.symm⟩ hc
        · exact (hm0 r).2 ⟨pre, date', env', post', t0, t1, new', heq', k1, k2, k3⟩

/-! ## A concrete case

One entry with a bar stop (id 1), a loss stop with a limit (id 3) and a trailing
stop (id 5).  On the falling bar all three are reached: the loss stop is tried
first but its limit blocks it, the trailing stop exits, and the bar stop, which
has the smallest id, is neither tried nor recorded. -/

def Demo.threeStops : List Stop :=
  [ { Demo.lossStop with id := 3, percent := some 4, limitPrice := some 99 },
    { Demo.barStop with id := 1, symbol := "AAA", posType := .long, bars := some 1 },
    { Demo.trailStop with id := 5, limitPrice := none } ]

def Demo.threeOps : List Op :=
  [ .buy { date := 1, symbol := "AAA", shares := 10, fill := 100, stops := Demo.threeStops },
    .incrBars (fun _ => true) ]

def Demo.threeState : Portfolio :=
  Demo.okD (Portfolio.init Demo.cfg) (run Demo.cfg Demo.threeOps)

def Demo.threeRows : Portfolio × List StopRecord :=
  Demo.okD (Demo.threeState, []) (checkStopsRec Demo.cfg Demo.threeState 2 Demo.env)

example : (∀ op ∈ Demo.threeOps, op.Fit) ∧ FreshIds Demo.threeOps ∧
    run Demo.cfg Demo.threeOps = .ok Demo.threeState ∧
    checkStopsRec Demo.cfg Demo.threeState 2 Demo.env = .ok Demo.threeRows ∧
    checkStops Demo.cfg Demo.threeState 2 Demo.env = .ok Demo.threeRows.1 ∧
    Demo.threeRows.2.map (fun r => (r.stopId, r.fillPrice, r.currValue, r.limitPrice)) =
      [(3, some 96, some (some 96), some 99), (5, some 95, some (some 95), none)] ∧
    Demo.threeRows.1.trades.map (fun t => (t.stop, t.exit)) = [(some .trailing, 95)] :=
  ⟨by simp [Demo.threeOps, Demo.threeStops, Op.Fit, Demo.lossStop, Demo.trailStop, Demo.barStop],
    by simp [FreshIds, Demo.threeOps, Demo.threeStops, stopsOf],
    Demo.ok_okD (by decide +kernel), Demo.ok_okD (by decide +kernel),
    by rw [← checkStopsRec_pf, show checkStopsRec Demo.cfg Demo.threeState 2 Demo.env =
      .ok Demo.threeRows from Demo.ok_okD (by decide +kernel)]; rfl,
    by decide +kernel, by decide +kernel⟩

/-- On the rising bar nothing exits: the trailing stop, still attached, is recorded with its
new level 105, and the bar stop with its bars. -/
example : ∃ s' rows, checkStopsRec Demo.cfg Demo.s1 2 Demo.risingEnv = .ok (s', rows) ∧
    Attached s' 1 Demo.trailStop ∧ levelOf s' Demo.trailStop = some 105 ∧
    rows.map (fun r => (r.stopId, r.currValue, r.currBars, r.fillPrice)) =
      [(2, some (some 105), none, none), (1, some (some (459 / 5)), none, none),
       (3, none, some 1, none)] :=
  ⟨(Demo.okD (Demo.s1, []) (checkStopsRec Demo.cfg Demo.s1 2 Demo.risingEnv)).1,
    (Demo.okD (Demo.s1, []) (checkStopsRec Demo.cfg Demo.s1 2 Demo.risingEnv)).2,
    Demo.ok_okD (by decide +kernel), ⟨.long, "AAA", by decide +kernel⟩, by decide +kernel,
    by decide +kernel⟩

/-- The history of the first two bars, recorded: the rows of its one `check_stops` call. -/
example : ∃ s rows, runStops Demo.cfg (Demo.bar1 ++ Demo.bar2) = .ok (s, rows) ∧
    rows.length = 3 :=
  ⟨(Demo.okD (Demo.s2, []) (runStops Demo.cfg (Demo.bar1 ++ Demo.bar2))).1,
    (Demo.okD (Demo.s2, []) (runStops Demo.cfg (Demo.bar1 ++ Demo.bar2))).2,
    Demo.ok_okD (by decide +kernel), by decide +kernel⟩

end PyBroker
