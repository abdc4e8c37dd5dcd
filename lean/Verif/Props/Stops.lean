import Verif.Portfolio.Levels
import Verif.Props.Demo

/-!
# C18, C19, C20, C21: stops
-/

namespace PyBroker

open Spec

/-! ## Helpers -/

theorem lookupStop_find (ds : List StopData) (id : Nat) :
    lookupStop ds id = ds.find? (fun d => d.stop.id = id) := by
  induction ds with
  | nil => rfl
  | cons d ds ih =>
    unfold lookupStop
    rw [List.find?_cons]
    by_cases h : d.stop.id = id
    · simp [h]
    · simp [h, ih]

theorem levelOf_eq (s : Portfolio) (st : Stop) :
    levelOf s st = (lookupStop s.stopData st.id).elim none StopData.value := by
  unfold levelOf
  rw [lookupStop_find]
  cases s.stopData.find? (fun d => decide (d.stop.id = st.id)) <;> rfl

theorem firesBelow_iff (st : Stop) : st.firesBelow = true ↔ Below st := by
  unfold Stop.firesBelow Below
  simp only [Bool.or_eq_true, Bool.and_eq_true, decide_eq_true_eq]

theorem triggerProfitLoss_iff {env : StopEnv} {st : Stop} {v : Option ℚ} {m : ℚ} (n : Nat)
    (ht : st.stopType ≠ .bar) :
    triggerProfitLoss env st v = some m ↔ FiresAt env st v n m := by
  unfold triggerProfitLoss
  constructor
  · intro h
    by_cases hb : st.firesBelow = true
    · rw [if_pos hb] at h
      have hB := (firesBelow_iff st).1 hb
      cases he : st.exitPrice with
      | some pt =>
        rw [he] at h
        simp only at h
        cases hx : env.fetchFloat st.symbol pt with
        | none => rw [hx] at h; simp [leN] at h
        | some x =>
          rw [hx] at h
          cases v with
          | none => simp [leN] at h
          | some l =>
            simp only [leN, decide_eq_true_eq] at h
            split at h
            · cases h; exact .belowAt ht hB rfl he hx ‹_›
            · cases h
      | none =>
        rw [he] at h
        simp only at h
        cases hx : env.fetchFloat st.symbol .low with
        | none => rw [hx] at h; simp [leN] at h
        | some x =>
          rw [hx] at h
          cases v with
          | none => simp [leN] at h
          | some l =>
            simp only [leN, decide_eq_true_eq] at h
            split at h
            · refine .below ht hB rfl he hx ‹_› ?_
              cases hh : env.fetchFloat st.symbol .high with
              | none => rw [hh] at h; simpa [pyMin, ltN] using h.symm
              | some hi =>
                rw [hh] at h
                simp only [pyMin, ltN, decide_eq_true_eq] at h
                simp only [Option.elim]
                split at h
                · cases h; exact (min_eq_right (le_of_lt ‹_›)).symm
                · cases h; exact (min_eq_left (not_lt.1 ‹_›)).symm
            · cases h
    · rw [if_neg hb] at h
      have hB := fun x => hb ((firesBelow_iff st).2 x)
      cases he : st.exitPrice with
      | some pt =>
        rw [he] at h
        simp only at h
        cases hx : env.fetchFloat st.symbol pt with
        | none => rw [hx] at h; cases v <;> simp [leN] at h
        | some x =>
          rw [hx] at h
          cases v with
          | none => simp [leN] at h
          | some l =>
            simp only [leN, decide_eq_true_eq] at h
            split at h
            · cases h; exact .aboveAt ht hB rfl he hx ‹_›
            · cases h
      | none =>
        rw [he] at h
        simp only at h
        cases hx : env.fetchFloat st.symbol .high with
        | none => rw [hx] at h; cases v <;> simp [leN] at h
        | some x =>
          rw [hx] at h
          cases v with
          | none => simp [leN] at h
          | some l =>
            simp only [leN, decide_eq_true_eq] at h
            split at h
            · refine .above ht hB rfl he hx ‹_› ?_
              cases hh : env.fetchFloat st.symbol .low with
              | none => rw [hh] at h; simpa [pyMax, ltN] using h.symm
              | some lo =>
                rw [hh] at h
                simp only [pyMax, ltN, decide_eq_true_eq] at h
                simp only [Option.elim]
                split at h
                · cases h; exact (max_eq_right (le_of_lt ‹_›)).symm
                · cases h; exact (max_eq_left (not_lt.1 ‹_›)).symm
            · cases h
  · intro h
    cases h with
    | bars h1 => exact absurd h1 ht
    | @below l lo _ hb hl he hlo hle hm =>
      rw [if_pos ((firesBelow_iff st).2 hb), he, hlo, hl]
      simp only [leN, hle, decide_true, if_true]
      cases hh : env.fetchFloat st.symbol .high with
      | none => rw [hh] at hm; simpa [pyMin, ltN] using hm.symm
      | some hi =>
        rw [hh] at hm
        simp only [Option.elim] at hm
        simp only [pyMin, ltN, decide_eq_true_eq]
        split
        · rw [hm, min_eq_right (le_of_lt ‹_›)]
        · rw [hm, min_eq_left (not_lt.1 ‹_›)]
    | @above l hi _ hb hl he hhi hle hm =>
      rw [if_neg (fun e => hb ((firesBelow_iff st).1 e)), he, hhi, hl]
      simp only [leN, hle, decide_true, if_true]
      cases hh : env.fetchFloat st.symbol .low with
      | none => rw [hh] at hm; simpa [pyMax, ltN] using hm.symm
      | some lo =>
        rw [hh] at hm
        simp only [Option.elim] at hm
        simp only [pyMax, ltN, decide_eq_true_eq]
        split
        · rw [hm, max_eq_right (le_of_lt ‹_›)]
        · rw [hm, max_eq_left (not_lt.1 ‹_›)]
    | belowAt _ hb hl he hm hle =>
      rw [if_pos ((firesBelow_iff st).2 hb), he, hl]
      simp [hm, leN, hle]
    | aboveAt _ hb hl he hm hle =>
      rw [if_neg (fun e => hb ((firesBelow_iff st).1 e)), he, hl]
      simp [hm, leN, hle]

theorem marketOf_iff {env : StopEnv} {s : Portfolio} {e : Entry} {st : Stop} {m : ℚ} :
    marketOf env s e st = some m ↔ FiresAt env st (levelOf s st) e.symBars m := by
  by_cases ht : st.stopType = .bar
  · unfold marketOf triggerBar
    rw [ht]
    simp only
    constructor
    · intro h
      cases hn : st.bars with
      | none => rw [hn] at h; cases h
      | some n =>
        rw [hn] at h
        simp only at h
        by_cases hle : e.symBars ≥ n
        · rw [if_pos hle] at h
          cases hx : env.fetch st.symbol (st.fillPrice.getD (.price .middle)) with
          | none => rw [hx] at h; cases h
          | some x =>
            rw [hx] at h
            simp only at h
            by_cases h0 : x ≤ 0
            · rw [if_pos h0] at h; cases h
            · rw [if_neg h0] at h
              simp only at h
              cases h
              exact .bars ht hn hle hx (not_le.1 h0)
        · rw [if_neg hle] at h; cases h
    · intro h
      cases h with
      | bars _ hn hle hm h0 =>
        rw [hn]
        simp only [ge_iff_le, hle, if_true, hm, not_le.2 h0, if_false]
      | below h1 => exact absurd ht h1
      | above h1 => exact absurd ht h1
      | belowAt h1 => exact absurd ht h1
      | aboveAt h1 => exact absurd ht h1
  · rw [levelOf_eq, ← triggerProfitLoss_iff e.symBars ht]
    have hmk : marketOf env s e st = match lookupStop s.stopData st.id with
        | none => none
        | some d => triggerProfitLoss env st d.value := by
      unfold marketOf
      cases h : st.stopType <;> first | exact absurd h ht | rfl
    rw [hmk]
    cases lookupStop s.stopData st.id with
    | some d => rfl
    | none =>
      simp only [Option.elim]
      have : triggerProfitLoss env st none = none := by
        rcases Option.eq_none_or_eq_some (triggerProfitLoss env st none) with h | ⟨x, h⟩
        · exact h
        · have := (triggerProfitLoss_iff 0 ht).1 h
          cases this <;> simp_all
      rw [this]

theorem exitPaid_eq (env : StopEnv) (x : Exit) : exitPaid env x = exitFill env x := by
  unfold exitPaid exitFill slipStopFill
  cases env.slip with
  | none => rfl
  | some f =>
    cases hp : x.stop.posType <;> simp only [if_true, reduceCtorEq, if_false] <;>
      split <;> split <;> first | rfl | (exfalso; linarith)

theorem stopTrade_eq (env : StopEnv) (date : Date) (x : Exit) :
    stopTrade env date x = exitTradeFacts env date x := by
  unfold stopTrade exitTradeFacts
  rw [exitPaid_eq]

theorem stopOrder_eq (env : StopEnv) (date : Date) (x : Exit) :
    stopOrder env date x = exitOrderFacts env date x := by
  unfold stopOrder exitOrderFacts stopOrderType Stop.exitSide Stop.exitIntent
  rw [exitPaid_eq]
  cases x.stop.posType <;> cases x.stop.stopType <;> rfl

theorem limitAllows_iff (st : Stop) (y : ℚ) : stopLimitBlocks st y = false ↔ LimitAllows st y := by
  unfold stopLimitBlocks LimitAllows
  cases st.limitPrice with
  | none => simp
  | some l => cases st.posType <;> simp

/-! ## C20 -/

/-- C20.  After any history whose stops have distinct ids, one `check_stops`
call exits a set of open entries, each once and in full: exactly the entries of
priceable symbols that carry a stop which fires on this bar at a price its limit
allows.  Each exit books one trade and one order; every other entry stays as it
was. -/
theorem stops_exit_once {cfg : Config} {ops : List Op} {s s' : Portfolio} {date : Date}
    {env : StopEnv} (hfit : ∀ op ∈ ops, op.Fit) (hfresh : FreshIds ops)
    (hrun : run cfg ops = .ok s) (h : checkStops cfg s date env = .ok s') :
    ∃ xs : List Exit,
      (xs.map (fun x => x.entry.id)).Nodup ∧
      (∀ x ∈ xs, (∃ pt sym, x.entry ∈ entriesOf (s.book pt) sym ∧ env.canPrice sym = true) ∧
        x.stop ∈ x.entry.stops ∧
        FiresAt env x.stop (levelOf s x.stop) x.entry.symBars x.market ∧
        LimitAllows x.stop (exitPaid env x)) ∧
      (∀ pt sym e st m, e ∈ entriesOf (s.book pt) sym → env.canPrice sym = true → st ∈ e.stops →
        FiresAt env st (levelOf s st) e.symBars m → LimitAllows st (exitPaid env ⟨e, st, m⟩) →
        e.id ∈ xs.map (fun x => x.entry.id)) ∧
      (∃ new, s'.trades = s.trades ++ new ∧ new.map TradeFacts.of = xs.map (stopTrade env date)) ∧
      (∃ new, s'.orders = s.orders ++ new ∧ new.map OrderFacts.of = xs.map (stopOrder env date)) ∧
      (∀ pt sym, entriesOf (s'.book pt) sym =
        (entriesOf (s.book pt) sym).filter
          (fun e => decide (e.id ∉ xs.map (fun x => x.entry.id)))) := by
  obtain ⟨hg, hf⟩ := run_good hfit hrun
  have hr := run_reg hfit hfresh hrun
  obtain ⟨acc, hs, rfl⟩ := checkStops_sim hg hf hr.index h
  obtain ⟨p1, p2, -, p4⟩ := picked env s (priceChecks env s ++ barChecks env s) []
  refine ⟨chosen env s, p1 List.nodup_nil, ?_, ?_, ?_, ?_, ?_⟩
  · intro x hx
    rcases p2 x hx with h0 | ⟨c, hc, hfire⟩
    · cases h0
    obtain ⟨p, e, m, hp, he, hm, hb, rfl⟩ := fireOf_some.1 hfire
    obtain ⟨hpm, hps⟩ := lookupPos_some hp
    obtain ⟨hem, heid⟩ := findEntry_some he
    have hstop : c.stop ∈ e.stops ∧ env.canPrice c.symbol = true := by
      rcases List.mem_append.1 hc with hc | hc
      · obtain ⟨d, hd, hcan, rfl⟩ := (priceChecks_mem hr.index).1 hc
        refine ⟨?_, hcan⟩
        obtain ⟨pt, q, hq, f, hf', hfid, hfs⟩ :=
          (hr.armed d.entryId d.stop (hr.index.price d hd)).2 ⟨d, hd, rfl, rfl⟩
        have := (hg.wf.entry_unique hpm hq hem hf' (heid.trans hfid.symm)).2.2
        rw [this]
        exact hfs
      · obtain ⟨pt, q, hq, f, hf', st, hst, hbar, hcan, rfl⟩ := (barChecks_mem hg.wf).1 hc
        refine ⟨?_, hcan⟩
        have := (hg.wf.entry_unique hpm hq hem hf' heid).2.2
        rw [this]
        exact hst
    refine ⟨⟨c.posType, c.symbol, mem_entriesOf.2 ⟨p, hpm, hps, hem⟩, hstop.2⟩, hstop.1,
      marketOf_iff.1 hm, ?_⟩
    rw [exitPaid_eq]
    exact (limitAllows_iff _ _).1 hb
  · intro pt sym e st m he hcan hst hfire hlim
    obtain ⟨p, hp, hps, hep⟩ := mem_entriesOf.1 he
    obtain ⟨f1, f2⟩ := hf.entries pt p hp e hep st hst
    have hcheck : (⟨pt, p.symbol, e.id, st⟩ : StopCheck) ∈
        priceChecks env s ++ barChecks env s := by
      by_cases ht : st.stopType = .bar
      · exact List.mem_append_right _ ((barChecks_mem hg.wf).2
          ⟨pt, p, hp, e, hep, st, hst, ht, hps ▸ hcan, rfl⟩)
      · obtain ⟨d, hd, hd1, hd2⟩ := (hr.armed e.id st ht).1 ⟨pt, p, hp, e, hep, rfl, hst⟩
        refine List.mem_append_left _ ((priceChecks_mem hr.index).2 ⟨d, hd, ?_, ?_⟩)
        · rw [hd1, f2, hps]; exact hcan
        · rw [hd1, hd2, f1, f2]
    refine p4 _ hcheck ⟨e, st, m⟩ (fireOf_some.2 ⟨p, e, m, lookupPos_of_mem (hg.wf.nodup _) hp,
      findEntry_of_mem (hg.wf.pos pt p hp).nodup hep, marketOf_iff.2 hfire, ?_, rfl⟩)
    rw [exitPaid_eq] at hlim
    exact (limitAllows_iff _ _).2 hlim
  · obtain ⟨new, h1, h2⟩ := hs.trades
    refine ⟨new, (finishAll_logs _ _).1.trans h1, h2.trans ?_⟩
    exact List.map_congr_left (fun x _ => (stopTrade_eq env date x).symm)
  · obtain ⟨new, h1, h2⟩ := hs.orders
    refine ⟨new, (finishAll_logs _ _).2.trans h1, h2.trans ?_⟩
    exact List.map_congr_left (fun x _ => (stopOrder_eq env date x).symm)
  · intro pt sym
    rw [finishAll_entries acc.2 acc.1 hs.inv.wf hs.inv.ne hs.inv.loc,
      entriesOf_keyed _ (hs.book pt), hs.ids, List.filter_map]
    have hid : ∀ e : Entry, (zeroed (exitIds (chosen env s)) e).id = e.id := by
      intro e; unfold zeroed; split <;> rfl
    have hcomp : ((fun e : Entry => decide (e.id ∉ exitIds (chosen env s))) ∘
        zeroed (exitIds (chosen env s))) = fun e => decide (e.id ∉ exitIds (chosen env s)) := by
      funext e
      simp only [Function.comp, hid]
    rw [hcomp]
    show _ = (entriesOf (s.book pt) sym).filter (fun e => decide (e.id ∉ exitIds (chosen env s)))
    conv_rhs => rw [← List.map_id (List.filter _ _)]
    refine List.map_congr_left (fun e he => ?_)
    have := (List.mem_filter.1 he).2
    unfold zeroed
    rw [if_neg (by simpa using this)]
    rfl

/-! ## C18 -/

/-- C18.  On a bar with `lo ≤ hi`, a price stop without an exit price fires iff
the bar reaches its level, and then pays the level if it lies in the bar and the
nearest end of the bar otherwise. -/
theorem price_stop_touch {env : StopEnv} {s s1 : Portfolio} {e : Entry} {st : Stop}
    {lo hi l : ℚ} {f : Option ℚ} (ht : st.stopType ≠ .bar) (hx : st.exitPrice = none)
    (hlo : env.fetchFloat st.symbol .low = some lo)
    (hhi : env.fetchFloat st.symbol .high = some hi) (hle : lo ≤ hi)
    (hl : levelOf s st = some l) (h : stopFill env s e st = .ok (f, s1)) :
    (f ≠ none ↔ if Below st then lo ≤ l else l ≤ hi) ∧
      ∀ m, f = some m → lo ≤ m ∧ m ≤ hi ∧ (lo ≤ l → l ≤ hi → m = l) ∧ (hi < l → m = hi) ∧
        (l < lo → m = lo) := by
  have hf := (stopFill_market h).1
  have key : ∀ m, f = some m ↔ (Below st ∧ lo ≤ l ∧ m = min l hi) ∨
      (¬ Below st ∧ l ≤ hi ∧ m = max l lo) := by
    intro m
    rw [hf, marketOf_iff, hl]
    constructor
    · intro hF
      cases hF with
      | bars h1 => exact absurd h1 ht
      | below _ hb h1 _ h2 h3 h4 =>
        cases h1
        rw [hlo] at h2
        cases h2
        rw [hhi] at h4
        exact Or.inl ⟨hb, h3, h4⟩
      | above _ hb h1 _ h2 h3 h4 =>
        cases h1
        rw [hhi] at h2
        cases h2
        rw [hlo] at h4
        exact Or.inr ⟨hb, h3, h4⟩
      | belowAt _ _ _ h1 => rw [hx] at h1; cases h1
      | aboveAt _ _ _ h1 => rw [hx] at h1; cases h1
    · rintro (⟨hb, h1, h2⟩ | ⟨hb, h1, h2⟩)
      · exact .below ht hb rfl hx hlo h1 (by rw [hhi]; exact h2)
      · exact .above ht hb rfl hx hhi h1 (by rw [hlo]; exact h2)
  constructor
  · rw [← Option.isSome_iff_ne_none, Option.isSome_iff_exists]
    by_cases hb : Below st
    · rw [if_pos hb]
      constructor
      · rintro ⟨m, hm⟩
        rcases (key m).1 hm with h1 | h1
        · exact h1.2.1
        · exact absurd hb h1.1
      · exact fun h1 => ⟨_, (key _).2 (Or.inl ⟨hb, h1, rfl⟩)⟩
    · rw [if_neg hb]
      constructor
      · rintro ⟨m, hm⟩
        rcases (key m).1 hm with h1 | h1
        · exact absurd h1.1 hb
        · exact h1.2.1
      · exact fun h1 => ⟨_, (key _).2 (Or.inr ⟨hb, h1, rfl⟩)⟩
  · intro m hm
    rcases (key m).1 hm with ⟨_, h1, rfl⟩ | ⟨_, h1, rfl⟩
    · refine ⟨le_min h1 hle, min_le_right _ _, fun _ h2 => min_eq_left h2,
        fun h2 => min_eq_right h2.le, fun h2 => absurd h1 (not_le.2 h2)⟩
    · refine ⟨le_max_right _ _, max_le h1 hle, fun h2 _ => max_eq_left h2,
        fun h2 => absurd h1 (not_le.2 h2), fun h2 => max_eq_right h2.le⟩

/-- C18, at the portfolio: the market price of every order booked by a price
stop lies within the bar, when no stop has an exit price. -/
theorem stop_orders_in_bar {cfg : Config} {ops : List Op} {s s' : Portfolio} {date : Date}
    {env : StopEnv} (hfit : ∀ op ∈ ops, op.Fit) (hfresh : FreshIds ops)
    (hrun : run cfg ops = .ok s) (h : checkStops cfg s date env = .ok s')
    (hx : ∀ op ∈ ops, ∀ st ∈ stopsOf op, st.exitPrice = none)
    (hbar : ∀ sym, env.canPrice sym = true → ∃ lo hi, env.fetchFloat sym .low = some lo ∧
      env.fetchFloat sym .high = some hi ∧ lo ≤ hi) :
    ∃ new, s'.orders = s.orders ++ new ∧ ∀ o ∈ new, o.orderType ≠ .stopBar →
      ∃ lo hi, env.fetchFloat o.symbol .low = some lo ∧ env.fetchFloat o.symbol .high = some hi ∧
        lo ≤ o.marketPrice ∧ o.marketPrice ≤ hi := by
  obtain ⟨hg, hf⟩ := run_good hfit hrun
  have hr := run_reg hfit hfresh hrun
  obtain ⟨xs, -, h2, -, -, ⟨new, h5, h6⟩, -⟩ := stops_exit_once hfit hfresh hrun h
  refine ⟨new, h5, fun o ho hot => ?_⟩
  have hom : OrderFacts.of o ∈ xs.map (stopOrder env date) := by
    rw [← h6]; exact List.mem_map.2 ⟨o, ho, rfl⟩
  obtain ⟨x, hxm, hxo⟩ := List.mem_map.1 hom
  obtain ⟨⟨pt, sym, hin, hcan⟩, hst, hF, -⟩ := h2 x hxm
  obtain ⟨p, hp, hps, hep⟩ := mem_entriesOf.1 hin
  have hsym : x.stop.symbol = sym := ((hf.entries pt p hp _ hep _ hst).2).trans hps
  have hosym : o.symbol = sym := by
    have h1 : o.symbol = x.entry.symbol := (congrArg OrderFacts.symbol hxo).symm
    rw [h1, ((hg.wf.pos pt p hp).entries _ hep).symbol]
    exact hps
  have hom : o.marketPrice = x.market := (congrArg OrderFacts.marketPrice hxo).symm
  have hott : x.stop.stopType ≠ .bar := by
    intro hb
    have h1 : (stopOrder env date x).orderType = o.orderType := congrArg OrderFacts.orderType hxo
    unfold stopOrder at h1
    simp only [hb] at h1
    exact hot h1.symm
  obtain ⟨lo, hi, hlo, hhi, hle⟩ := hbar sym hcan
  refine ⟨lo, hi, by rw [hosym]; exact hlo, by rw [hosym]; exact hhi, ?_⟩
  rw [hom]
  have hxp : x.stop.exitPrice = none := by
    obtain ⟨op, hop, hso⟩ := List.mem_flatMap.1 ((hr.univ pt p hp _ hep).1 _ hst)
    exact hx op hop _ hso
  cases hF with
  | bars h1 => exact absurd h1 hott
  | below _ hb h1 _ h2 h3 h4 =>
    rw [hsym, hlo] at h2
    cases h2
    rw [hsym, hhi] at h4
    rw [h4]
    exact ⟨le_min h3 hle, min_le_right _ _⟩
  | above _ hb h1 _ h2 h3 h4 =>
    rw [hsym, hhi] at h2
    cases h2
    rw [hsym, hlo] at h4
    rw [h4]
    exact ⟨le_max_right _ _, max_le h3 hle⟩
  | belowAt _ _ _ h1 => rw [hxp] at h1; cases h1
  | aboveAt _ _ _ h1 => rw [hxp] at h1; cases h1

/-! ## C19 and C21 -/

theorem attached_iff (s : Portfolio) (eid : Nat) (st : Stop) :
    Attached s eid st ↔ HasStop s eid st := by
  constructor
  · rintro ⟨pt, sym, e, he, hid, hst⟩
    obtain ⟨p, hp, _, hep⟩ := mem_entriesOf.1 he
    exact ⟨pt, p, hp, e, hep, hid, hst⟩
  · rintro ⟨pt, p, hp, e, he, hid, hst⟩
    exact ⟨pt, p.symbol, e, mem_entriesOf.2 ⟨p, hp, rfl, he⟩, hid, hst⟩

theorem fresh_sub {ops : List Op} (hf : FreshIds ops) : ∀ op ∈ ops,
    (∀ st ∈ stopsOf op, st ∈ ops.flatMap stopsOf) ∧ ((stopsOf op).map Stop.id).Nodup := by
  intro op hop
  refine ⟨fun st hst => List.mem_flatMap.2 ⟨op, hop, hst⟩, ?_⟩
  have hs : ((stopsOf op).map Stop.id).Sublist ((ops.flatMap stopsOf).map Stop.id) := by
    obtain ⟨a, b, rfl⟩ := List.append_of_mem hop
    refine List.Sublist.map _ ?_
    rw [List.flatMap_append, List.flatMap_cons]
    exact ((List.sublist_append_left _ _).trans (List.sublist_append_right _ _))
  exact List.Nodup.sublist hs hf

/-- A stop already used in the first part of a history keeps its place in the second. -/
theorem continued {cfg : Config} {ops ops' : List Op} {s s' : Portfolio}
    (hfit : ∀ op ∈ ops ++ ops', op.Fit) (hfresh : FreshIds (ops ++ ops'))
    (hrun : run cfg ops = .ok s) (hrun' : runFrom cfg s ops' = .ok s') {eid : Nat} {st : Stop}
    (hst : st ∈ ops.flatMap stopsOf) (hbar : st.stopType ≠ .bar) (ha : HasStop s' eid st) :
    HasStop s eid st ∧ ∃ d d', lookupStop s.stopData st.id = some d ∧
      lookupStop s'.stopData st.id = some d' ∧ d.stop = st ∧
        d'.value = ops'.foldl (opLevel st) d.value := by
  have hfit1 : ∀ op ∈ ops, op.Fit := fun op h => hfit op (List.mem_append_left _ h)
  have hfit2 : ∀ op ∈ ops', op.Fit := fun op h => hfit op (List.mem_append_right _ h)
  obtain ⟨hg, hf⟩ := run_good hfit1 hrun
  have hsub := fresh_sub hfresh
  have hr : RegInv ((ops ++ ops').flatMap stopsOf) s :=
    runFrom_reg hfresh hfit1 (fun op h => hsub op (List.mem_append_left _ h)) (Good.init cfg)
      (StopsFit.init cfg) (RegInv.init _ cfg) hrun
  have hnew : ∀ op ∈ ops', st.id ∉ (stopsOf op).map Stop.id := by
    intro op hop hin
    obtain ⟨st', hst', hid⟩ := List.mem_map.1 hin
    unfold FreshIds at hfresh
    rw [List.flatMap_append, List.map_append, List.nodup_append] at hfresh
    exact hfresh.2.2 st.id (List.mem_map.2 ⟨st, hst, rfl⟩) st.id
      (List.mem_map.2 ⟨st', List.mem_flatMap.2 ⟨op, hop, hst'⟩, hid⟩) rfl
  obtain ⟨k1, d, d', k2, k3, k4⟩ := runFrom_level hfresh hbar ops' hfit2
    (fun op h => hsub op (List.mem_append_right _ h)) hnew hg hf hr hrun' ha
  refine ⟨k1, d, d', k2, k3, ?_, k4⟩
  obtain ⟨hd1, hd2⟩ := lookupStop_some k2
  exact (hr.record hfresh k1 hd1 hd2).1

/-- C21.  After any history whose stops have distinct ids: the armed price
stops are exactly those attached to entries of open positions, each once; the
per-symbol index lists exactly the armed stops of each symbol. -/
theorem armed_stops_are_open_stops {cfg : Config} {ops : List Op} {s : Portfolio}
    (hfit : ∀ op ∈ ops, op.Fit) (hfresh : FreshIds ops) (hrun : run cfg ops = .ok s) :
    (∀ eid st, st.stopType ≠ .bar →
      ((∃ d ∈ s.stopData, d.stop = st ∧ d.entryId = eid) ↔ Attached s eid st)) ∧
    (s.stopData.map (fun d => d.stop.id)).Nodup ∧
    (s.active.map Prod.fst).Nodup ∧
    (∀ x ∈ s.active, x.2 ≠ [] ∧
      x.2 = (s.stopData.filter (fun d => decide (d.stop.symbol = x.1))).map (fun d => d.stop.id)) ∧
    (∀ d ∈ s.stopData, d.stop.stopType ≠ .bar ∧ d.stop.symbol ∈ s.active.map Prod.fst) := by
  have hr := run_reg hfit hfresh hrun
  refine ⟨fun eid st hb => ?_, hr.index.nodup, hr.index.active.keys, fun x hx => ?_, fun d hd => ?_⟩
  · rw [attached_iff, hr.armed eid st hb]
    rfl
  · refine ⟨hr.index.active.nonempty x hx, ?_⟩
    have := hr.index.active.ids x.1
    rw [activeOf_mem hr.index.active.keys hx] at this
    exact this
  · refine ⟨hr.index.price d hd, ?_⟩
    by_contra hn
    have h1 := hr.index.active.ids d.stop.symbol
    rw [activeOf_not_mem hn] at h1
    have : d.stop.id ∈ armedOf s.stopData d.stop.symbol :=
      List.mem_map.2 ⟨d, List.mem_filter.2 ⟨hd, by simp⟩, rfl⟩
    rw [← h1] at this
    cases this

/-- C21.  A price stop that is not attached to any open entry is never attached
again, whatever happens next. -/
theorem removed_stop_stays_removed {cfg : Config} {ops ops' : List Op} {s s' : Portfolio}
    (hfit : ∀ op ∈ ops ++ ops', op.Fit) (hfresh : FreshIds (ops ++ ops'))
    (hrun : run cfg ops = .ok s) (hrun' : runFrom cfg s ops' = .ok s') {st : Stop}
    (hst : st ∈ ops.flatMap stopsOf) (hbar : st.stopType ≠ .bar)
    (hgone : ∀ eid, ¬ Attached s eid st) :
    (∀ eid, ¬ Attached s' eid st) ∧ ∀ d ∈ s'.stopData, d.stop ≠ st := by
  have h1 : ∀ eid, ¬ Attached s' eid st := by
    intro eid ha
    exact hgone eid ((attached_iff _ _ _).2
      (continued hfit hfresh hrun hrun' hst hbar ((attached_iff _ _ _).1 ha)).1)
  refine ⟨h1, fun d hd he => ?_⟩
  have hrun2 : run cfg (ops ++ ops') = .ok s' := by
    unfold run runFrom at *
    rw [foldE_append, hrun]
    exact hrun'
  exact h1 d.entryId (((armed_stops_are_open_stops hfit hfresh hrun2).1 d.entryId st hbar).1
    ⟨d, hd, he, rfl⟩)

theorem foldl_opLevel (st : Stop) (ops : List Op) (v : Option ℚ) :
    ops.foldl (opLevel st) v = (barsChecked st.symbol ops).foldl (fun v env => nextLevel env st v) v := by
  induction ops generalizing v with
  | nil => rfl
  | cons op ops ih =>
    rw [List.foldl_cons, ih]
    unfold barsChecked
    rw [List.filterMap_cons]
    cases op <;> try rfl
    rename_i d env
    simp only [opLevel]
    by_cases hc : env.canPrice st.symbol = true
    · simp only [hc, if_true, List.foldl_cons]
    · simp only [hc]
      rfl

theorem stopAmountN_trail {st : Stop} (ha : st.percent ≠ none ∨ st.points ≠ none) (x : ℚ) :
    stopAmountN st (some x) = .ok (some (trail st x)) := by
  unfold stopAmountN trail
  cases hp : st.percent with
  | some p => rfl
  | none =>
    cases hq : st.points with
    | some q => rfl
    | none => exact absurd ha (by simp [hp, hq])

theorem nextLevel_trailing {env : StopEnv} {st : Stop} {l : ℚ} (ht : st.stopType = .trailing)
    (ha : st.percent ≠ none ∨ st.points ≠ none)
    (hfin : env.fetchFloat st.symbol (if st.posType = .long then .high else .low) ≠ none) :
    ((∃ m, FiresAt env st (some l) 0 m) ∧ nextLevel env st (some l) = some l) ∨
      ((∀ m, ¬ FiresAt env st (some l) 0 m) ∧
        nextLevel env st (some l) = some (tighten st l env)) := by
  have htb : st.stopType ≠ .bar := by rw [ht]; simp
  unfold nextLevel
  rw [ht]
  simp only
  rcases Option.eq_none_or_eq_some (triggerProfitLoss env st (some l)) with hn | ⟨m, hm⟩
  · right
    refine ⟨fun m hm => ?_, ?_⟩
    · rw [(triggerProfitLoss_iff 0 htb).2 hm] at hn; cases hn
    · unfold triggerTrailing ratchet tighten
      rw [hn]
      simp only
      cases hp : st.posType with
      | long =>
        rw [hp] at hfin
        simp only [if_true] at hfin
        obtain ⟨hi, hh⟩ := Option.ne_none_iff_exists'.1 hfin
        simp only [hh, stopAmountN_trail ha, subN, Option.getD_some, pyMax, ltN, decide_eq_true_eq]
        split
        · rw [max_eq_left (le_of_lt ‹_›)]
        · rw [max_eq_right (not_lt.1 ‹_›)]
      | short =>
        rw [hp] at hfin
        simp only [reduceCtorEq, if_false] at hfin
        obtain ⟨lo, hh⟩ := Option.ne_none_iff_exists'.1 hfin
        simp only [hh, stopAmountN_trail ha, addN, Option.getD_some, pyMin, ltN, decide_eq_true_eq]
        split
        · rw [min_eq_left (le_of_lt ‹_›)]
        · rw [min_eq_right (not_lt.1 ‹_›)]
  · left
    refine ⟨⟨m, (triggerProfitLoss_iff 0 htb).1 hm⟩, ?_⟩
    unfold triggerTrailing
    rw [hm]

/-- C19.  Between any two points of a history at which a trailing stop is
attached, over any number of bars with finite high (long) or low (short): its
level never loosens, and if none of the bars checked in between triggered it at
the level set by the earlier ones, the level is the old level tightened by each
bar in turn. -/
theorem trailing_only_tightens {cfg : Config} {ops ops' : List Op} {s s' : Portfolio}
    (hfit : ∀ op ∈ ops ++ ops', op.Fit) (hfresh : FreshIds (ops ++ ops'))
    (hrun : run cfg ops = .ok s) (hrun' : runFrom cfg s ops' = .ok s') {eid : Nat} {st : Stop}
    {l : ℚ} (ht : st.stopType = .trailing) (hs : Attached s eid st) (hs' : Attached s' eid st)
    (hl : levelOf s st = some l)
    (hfin : ∀ env ∈ barsChecked st.symbol ops',
      env.fetchFloat st.symbol (if st.posType = .long then .high else .low) ≠ none) :
    (∃ l', levelOf s' st = some l' ∧ (st.posType = .long → l ≤ l') ∧
      (st.posType = .short → l' ≤ l)) ∧
    ((∀ pre env post, barsChecked st.symbol ops' = pre ++ env :: post →
        ∀ m, ¬ FiresAt env st (some (pre.foldl (tighten st) l)) 0 m) →
      levelOf s' st = some ((barsChecked st.symbol ops').foldl (tighten st) l)) := by
  have hfit1 : ∀ op ∈ ops, op.Fit := fun op h => hfit op (List.mem_append_left _ h)
  have htb : st.stopType ≠ .bar := by rw [ht]; simp
  have hfresh1 : FreshIds ops := by
    unfold FreshIds at hfresh ⊢
    rw [List.flatMap_append, List.map_append, List.nodup_append] at hfresh
    exact hfresh.1
  have hr := run_reg hfit1 hfresh1 hrun
  have hst : st ∈ ops.flatMap stopsOf := by
    obtain ⟨pt, p, hp, e, he, _, h1⟩ := (attached_iff _ _ _).1 hs
    exact (hr.univ pt p hp e he).1 st h1
  obtain ⟨-, d, d', k1, k2, k3, k4⟩ :=
    continued hfit hfresh hrun hrun' hst htb ((attached_iff _ _ _).1 hs')
  have ha : st.percent ≠ none ∨ st.points ≠ none := by
    have := run_amount hfit1 hrun d (lookupStop_some k1).1
    rwa [k3] at this
  have hd : d.value = some l := by rw [levelOf_eq, k1] at hl; exact hl
  have hlev : levelOf s' st =
      (barsChecked st.symbol ops').foldl (fun v env => nextLevel env st v) (some l) := by
    rw [levelOf_eq, k2, ← foldl_opLevel, ← hd]
    exact k4
  rw [hlev]
  generalize barsChecked st.symbol ops' = bars at hfin
  clear hlev hl hd k4 hrun hrun' hs hs'
  have mono : ∀ env, (st.posType = .long → ∀ l, l ≤ tighten st l env) ∧
      (st.posType = .short → ∀ l, tighten st l env ≤ l) := by
    intro env
    unfold tighten
    constructor <;> intro hp l <;> rw [hp]
    · exact le_max_left _ _
    · exact min_le_left _ _
  constructor
  · induction bars generalizing l with
    | nil => exact ⟨l, rfl, fun _ => le_refl _, fun _ => le_refl _⟩
    | cons env bars ih =>
      rw [List.foldl_cons]
      rcases nextLevel_trailing (l := l) ht ha (hfin env List.mem_cons_self) with ⟨_, h1⟩ | ⟨_, h1⟩
      · rw [h1]
        exact ih (fun e he => hfin e (List.mem_cons_of_mem _ he))
      · rw [h1]
        obtain ⟨l', h2, h3, h4⟩ := ih (l := tighten st l env)
          (fun e he => hfin e (List.mem_cons_of_mem _ he))
        exact ⟨l', h2, fun hp => ((mono env).1 hp l).trans (h3 hp),
          fun hp => (h4 hp).trans ((mono env).2 hp l)⟩
  · intro hq
    induction bars generalizing l with
    | nil => rfl
    | cons env bars ih =>
      rw [List.foldl_cons, List.foldl_cons]
      rcases nextLevel_trailing (l := l) ht ha (hfin env List.mem_cons_self) with
        ⟨⟨m, hm⟩, _⟩ | ⟨_, h1⟩
      · exact absurd hm (hq [] env bars rfl m)
      · rw [h1]
        refine ih (fun e he => hfin e (List.mem_cons_of_mem _ he)) ?_
        intro pre e post hb m
        exact hq (env :: pre) e post (by rw [hb]; rfl) m

/-- Loss and profit stops never move while they are attached. -/
theorem fixed_stops_never_move {cfg : Config} {ops ops' : List Op} {s s' : Portfolio}
    (hfit : ∀ op ∈ ops ++ ops', op.Fit) (hfresh : FreshIds (ops ++ ops'))
    (hrun : run cfg ops = .ok s) (hrun' : runFrom cfg s ops' = .ok s') {eid : Nat} {st : Stop}
    (ht : st.stopType = .loss ∨ st.stopType = .profit) (hs : Attached s eid st)
    (hs' : Attached s' eid st) : levelOf s' st = levelOf s st := by
  have hfit1 : ∀ op ∈ ops, op.Fit := fun op h => hfit op (List.mem_append_left _ h)
  have htb : st.stopType ≠ .bar := by rcases ht with ht | ht <;> rw [ht] <;> simp
  have hfresh1 : FreshIds ops := by
    unfold FreshIds at hfresh ⊢
    rw [List.flatMap_append, List.map_append, List.nodup_append] at hfresh
    exact hfresh.1
  have hr := run_reg hfit1 hfresh1 hrun
  have hst : st ∈ ops.flatMap stopsOf := by
    obtain ⟨pt, p, hp, e, he, _, h1⟩ := (attached_iff _ _ _).1 hs
    exact (hr.univ pt p hp e he).1 st h1
  obtain ⟨-, d, d', k1, k2, k3, k4⟩ :=
    continued hfit hfresh hrun hrun' hst htb ((attached_iff _ _ _).1 hs')
  rw [levelOf_eq, levelOf_eq, k1, k2]
  simp only [Option.elim]
  rw [k4, foldl_opLevel]
  have hid : ∀ env v, nextLevel env st v = v := by
    intro env v
    unfold nextLevel
    rcases ht with ht | ht <;> rw [ht]
  simp only [hid]
  induction barsChecked st.symbol ops' with
  | nil => rfl
  | cons a l ih => exact ih

theorem stopAmount_trail {st : Stop} {x a : ℚ} (h : stopAmount st x = .ok a) : a = trail st x := by
  unfold stopAmount at h
  unfold trail
  split at h
  · rename_i p hp
    rw [hp]
    exact (Except.ok.inj h).symm
  · rename_i hp
    rw [hp]
    split at h
    · rename_i q hq
      rw [hq]
      exact (Except.ok.inj h).symm
    · cases h

theorem stopValue_below {st : Stop} (ht : st.stopType ≠ .bar) (x a : ℚ) :
    stopValue st x a = if Below st then x - a else x + a := by
  unfold stopValue
  by_cases hB : Below st
  · rw [if_pos hB, if_neg]
    unfold Below at hB
    rcases hB with ⟨h1, h2 | h2⟩ | ⟨h1, h2⟩ <;> simp [h1, h2]
  · rw [if_neg hB, if_pos]
    unfold Below at hB
    cases h1 : st.posType <;> cases h2 : st.stopType <;> simp [h1, h2] at hB ht ⊢

theorem placeOrder_levels {cfg : Config} {sd : Side} {s s' : Portfolio} {r : OrderReq}
    {o : Option Order} (hg : Good s) (h : placeOrder cfg sd s r = .ok (o, s')) :
    ∀ d ∈ s'.stopData, d ∈ s.stopData ∨ (d.stop ∈ r.stops ∧
      d.value = some (if Below d.stop then r.fill - trail d.stop r.fill
        else r.fill + trail d.stop r.fill)) := by
  have hclose : ∀ d ∈ (closeShares cfg sd.closes s r.date r.symbol r.shares r.fill).pf.stopData,
      d ∈ s.stopData := by
    intro d hd
    have hst := closeShares_steps (cfg := cfg)
      (Q := ⟨fun _ => True, fun _ => False, False, True⟩) (pt := sd.closes) (date := r.date)
      (sym := r.symbol) (shares := r.shares) (fill := r.fill) trivial hg.wf
    exact (hst.inv (P := RecordsFrom d.stop.id s)
      (fun _ _ hp hs => RecordsFrom.prim (Q := ⟨fun _ => True, fun _ => False, False, True⟩)
        (fun _ hl => False.elim hl) id hp hs) (fun d hd _ => hd)) d hd rfl
  cases placeOrder_effect hg h with
  | nothing a b _ => exact fun d hd => Or.inl hd
  | closed c a b hc _ _ _ =>
    intro d hd
    subst hc
    exact Or.inl (hclose d hd)
  | opened c n es sda ac hc _ _ _ _ _ _ hstops =>
    intro d hd
    subst hc
    obtain ⟨new, hn1, hn2⟩ := addStops_new hstops
    have hd' : d ∈ sda := hd
    rw [show sda = _ ++ new from hn1] at hd'
    rcases List.mem_append.1 hd' with hd' | hd'
    · exact Or.inl (hclose d hd')
    · obtain ⟨h1, _, hb, a, h2, h3⟩ := hn2 d hd'
      refine Or.inr ⟨h1, ?_⟩
      rw [h3, stopValue_below hb, stopAmount_trail h2]

/-- The level at which a new price stop starts: its distance from the price the
order filled at, below it for the stops that fire on a fall. -/
theorem stop_initial_level {cfg : Config} {ops : List Op} {s s' : Portfolio} {op : Op}
    {r : OrderReq} {eid : Nat} {st : Stop} (hop : op = .buy r ∨ op = .sell r)
    (hfit : ∀ x ∈ ops ++ [op], x.Fit) (hfresh : FreshIds (ops ++ [op]))
    (hrun : run cfg ops = .ok s) (h : step cfg s op = .ok s') (hst : st ∈ r.stops)
    (ht : st.stopType ≠ .bar) (hatt : Attached s' eid st) :
    levelOf s' st =
      some (if Below st then r.fill - trail st r.fill else r.fill + trail st r.fill) := by
  have hfit1 : ∀ op ∈ ops, op.Fit := fun op h => hfit op (List.mem_append_left _ h)
  obtain ⟨hg, hf⟩ := run_good hfit1 hrun
  have hrun2 : run cfg (ops ++ [op]) = .ok s' := by
    unfold run runFrom at *
    rw [foldE_append, hrun]
    simp only [foldE, h]
  have hr' := run_reg hfit hfresh hrun2
  have hstop : stopsOf op = r.stops := by rcases hop with rfl | rfl <;> rfl
  unfold FreshIds at hfresh
  rw [List.flatMap_append, List.map_append, List.nodup_append] at hfresh
  have hr := run_reg hfit1 hfresh.1 hrun
  have hlev : ∀ d ∈ s'.stopData, d ∈ s.stopData ∨ (d.stop ∈ r.stops ∧
      d.value = some (if Below d.stop then r.fill - trail d.stop r.fill
        else r.fill + trail d.stop r.fill)) := by
    rcases hop with rfl | rfl
    · simp only [step] at h
      cases hb : buy cfg s r with
      | error e => rw [hb] at h; cases h
      | ok x => rw [hb] at h; cases h; exact placeOrder_levels (sd := .buy) hg hb
    · simp only [step] at h
      cases hb : sell cfg s r with
      | error e => rw [hb] at h; cases h
      | ok x => rw [hb] at h; cases h; exact placeOrder_levels (sd := .sell) hg hb
  obtain ⟨d, hd, hd1, hd2⟩ := (hr'.armed eid st ht).1 ((attached_iff _ _ _).1 hatt)
  rw [levelOf_eq, ← hd1, lookupStop_of_mem hr'.index.nodup hd]
  simp only [Option.elim]
  rcases hlev d hd with hold | ⟨_, hv⟩
  · exfalso
    obtain ⟨pt, p, hp, e, he, _, hes⟩ :=
      (hr.armed d.entryId d.stop (hr.index.price d hold)).2 ⟨d, hold, rfl, rfl⟩
    have hin := (hr.univ pt p hp e he).1 _ hes
    refine hfresh.2.2 st.id (List.mem_map.2 ⟨d.stop, hin, by rw [hd1]⟩) st.id
      (List.mem_map.2 ⟨st, ?_, rfl⟩) rfl
    simp [hstop, hst]
  · exact hv

/-- A bar with a finite close but no high is priced, and a long trailing stop
loses its level on it: it can then never fire again.  So the finite highs and
lows asked for by `trailing_only_tightens` are needed. -/
theorem trailing_lost_on_missing_high :
    ∃ (cfg : Config) (ops : List Op) (env : StopEnv) (s s' : Portfolio) (st : Stop) (l : ℚ),
      (∀ op ∈ ops, op.Fit) ∧ FreshIds ops ∧ run cfg ops = .ok s ∧ st.stopType = .trailing ∧
      levelOf s st = some l ∧ checkStops cfg s 2 env = .ok s' ∧ (∃ eid, Attached s' eid st) ∧
      env.fetchFloat st.symbol .close ≠ none ∧ levelOf s' st = none ∧
      ∀ (env' : StopEnv) (n : Nat) (m : ℚ), ¬ FiresAt env' st (levelOf s' st) n m := by
  let env : StopEnv :=
    { canPrice := fun _ => true
      fetchFloat := fun _ pt => match pt with
        | .high => none
        | _ => some 100
      fetch := fun _ _ => some 100 }
  let ops : List Op :=
    [.buy { date := 1, symbol := "AAA", shares := 10, fill := 100, stops := [Demo.trailStop] }]
  have h1 : run Demo.cfg ops = .ok (Demo.okD (Portfolio.init Demo.cfg) (run Demo.cfg ops)) :=
    Demo.ok_okD (by decide +kernel)
  have h2 : checkStops Demo.cfg (Demo.okD (Portfolio.init Demo.cfg) (run Demo.cfg ops)) 2 env =
      .ok (Demo.okD (Portfolio.init Demo.cfg)
        (checkStops Demo.cfg (Demo.okD (Portfolio.init Demo.cfg) (run Demo.cfg ops)) 2 env)) :=
    Demo.ok_okD (by decide +kernel)
  have h3 : levelOf (Demo.okD (Portfolio.init Demo.cfg)
      (checkStops Demo.cfg (Demo.okD (Portfolio.init Demo.cfg) (run Demo.cfg ops)) 2 env))
      Demo.trailStop = none := by decide +kernel
  refine ⟨Demo.cfg, ops, env, _, _, Demo.trailStop, 95, ?_, ?_, h1, rfl, by decide +kernel, h2,
    ⟨1, .long, "AAA", ?_⟩, by simp [env], h3, ?_⟩
  · simp [ops, Op.Fit, Demo.trailStop]
  · simp [FreshIds, ops, stopsOf]
  · decide +kernel
  · rw [h3]
    intro env' n m hF
    cases hF with
    | bars ht => cases ht
    | below _ _ hl => cases hl
    | above _ _ hl => cases hl
    | belowAt _ _ hl => cases hl
    | aboveAt _ _ hl => cases hl

/-! ## The hypotheses are met -/

theorem Demo.fresh : FreshIds Demo.ops := by
  simp [FreshIds, Demo.ops, Demo.bar1, Demo.bar2, Demo.bar3, stopsOf, Demo.lossStop,
    Demo.trailStop, Demo.barStop]

theorem Demo.fresh1 : FreshIds Demo.bar1 := by
  simp [FreshIds, Demo.bar1, stopsOf, Demo.lossStop, Demo.trailStop, Demo.barStop]

/-- After the first bar, checking stops on the falling bar exits one entry. -/
example : ∃ s', run Demo.cfg Demo.bar1 = .ok Demo.s1 ∧
    checkStops Demo.cfg Demo.s1 2 Demo.env = .ok s' ∧
    s'.trades.length = Demo.s1.trades.length + 1 ∧ s'.orders.length = Demo.s1.orders.length + 1 :=
  ⟨Demo.okD Demo.s1 (checkStops Demo.cfg Demo.s1 2 Demo.env), Demo.run_s1,
    Demo.ok_okD (by decide +kernel), by decide +kernel, by decide +kernel⟩

/-- A bar that stays above the level raises the trailing stop from 95 to 105. -/
def Demo.risingEnv : StopEnv :=
  { canPrice := fun _ => true
    fetchFloat := fun _ pt => match pt with
      | .low => some 99
      | .high => some 110
      | _ => some 100
    fetch := fun _ _ => some 100 }

example : ∃ s', runFrom Demo.cfg Demo.s1 [.checkStops 2 Demo.risingEnv] = .ok s' ∧
    levelOf Demo.s1 Demo.trailStop = some 95 ∧ levelOf s' Demo.trailStop = some 105 ∧
    Attached Demo.s1 1 Demo.trailStop ∧ Attached s' 1 Demo.trailStop :=
  ⟨Demo.okD Demo.s1 (runFrom Demo.cfg Demo.s1 [.checkStops 2 Demo.risingEnv]),
    Demo.ok_okD (by decide +kernel), by decide +kernel, by decide +kernel,
    ⟨.long, "AAA", by decide +kernel⟩, ⟨.long, "AAA", by decide +kernel⟩⟩

/-- The trailing stop's level 95 is touched on the falling bar and the entry is
sold there. -/
example : ∃ s', checkStops Demo.cfg Demo.s1 2 Demo.env = .ok s' ∧
    ∃ tr ∈ s'.trades, tr ∉ Demo.s1.trades :=
  ⟨Demo.okD Demo.s1 (checkStops Demo.cfg Demo.s1 2 Demo.env), Demo.ok_okD (by decide +kernel),
    by decide +kernel⟩

end PyBroker
