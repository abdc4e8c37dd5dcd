import Verif.Portfolio.Units

/-!
# Another unit of money: stops and histories (helper lemmas)
-/

namespace PyBroker

section
variable {k : ℚ} (hk : 0 < k)
include hk

theorem leN_units (a b : Option ℚ) : leN (money k a) (money k b) = leN a b := by
  cases a <;> cases b <;> simp [leN, money, k_le hk]

theorem ltN_units (a b : Option ℚ) : ltN (money k a) (money k b) = ltN a b := by
  cases a <;> cases b <;> simp [ltN, money, k_lt hk]

theorem pyMin_units (a b : Option ℚ) : pyMin (money k a) (money k b) = money k (pyMin a b) := by
  simp only [pyMin, ltN_units hk]
  split <;> rfl

theorem pyMax_units (a b : Option ℚ) : pyMax (money k a) (money k b) = money k (pyMax a b) := by
  simp only [pyMax, ltN_units hk]
  split <;> rfl

theorem setStopValue_units (ds : List StopData) (id : Nat) (v : Option ℚ) :
    setStopValue (ds.map (StopData.units k)) id (money k v) =
      (setStopValue ds id v).map (StopData.units k) := by
  induction ds with
  | nil => rfl
  | cons d ds ih =>
    have h0 : (d.units k).stop.id = d.stop.id := rfl
    simp only [List.map_cons, setStopValue, h0]
    by_cases h : d.stop.id = id
    · simp [h, StopData.units]
    · simp [h, ih]

theorem triggerProfitLoss_units (env : StopEnv) (st : Stop) (v : Option ℚ) :
    triggerProfitLoss (env.units k) (st.units k) (money k v) = money k (triggerProfitLoss env st v) := by
  have h1 : (st.units k).firesBelow = st.firesBelow := rfl
  have h2 : (st.units k).exitPrice = st.exitPrice := rfl
  have h3 : ∀ s t, (env.units k).fetchFloat s t = money k (env.fetchFloat s t) := fun _ _ => rfl
  simp only [triggerProfitLoss, h1, h2, h3, Stop.units_symbol]
  cases st.exitPrice with
  | none =>
    simp only [leN_units hk, pyMin_units hk, pyMax_units hk]
    split_ifs <;> rfl
  | some t =>
    simp only [leN_units hk]
    split_ifs <;> rfl

theorem stopAmountN_units (st : Stop) (price : Option ℚ) :
    stopAmountN (st.units k) (money k price) = (stopAmountN st price).map (money k) := by
  unfold stopAmountN
  have h1 : (st.units k).percent = st.percent := rfl
  have h2 : (st.units k).points = money k st.points := rfl
  rw [h1, h2]
  cases st.percent with
  | some p =>
    cases price with
    | none => rfl
    | some x =>
      simp only [Except.map, money, Option.map_some, Except.ok.injEq, Option.some.injEq]; ring
  | none =>
    cases st.points with
    | some p => rfl
    | none => rfl

theorem subN_units (a b : Option ℚ) : subN (money k a) (money k b) = money k (subN a b) := by
  cases a <;> cases b <;> simp [subN, money, mul_sub]

theorem addN_units (a b : Option ℚ) : addN (money k a) (money k b) = money k (addN a b) := by
  cases a <;> cases b <;> simp [addN, money, mul_add]

theorem ratchet_units (env : StopEnv) (st : Stop) (v : Option ℚ) :
    ratchet (env.units k) (st.units k) (money k v) = (ratchet env st v).map (money k) := by
  have h3 : ∀ s t, (env.units k).fetchFloat s t = money k (env.fetchFloat s t) := fun _ _ => rfl
  simp only [ratchet, Stop.units_pos, Stop.units_symbol, h3, stopAmountN_units hk]
  cases st.posType with
  | long =>
    simp only
    cases stopAmountN st (env.fetchFloat st.symbol .high) with
    | error e => rfl
    | ok a => simp only [Except.map, subN_units hk, pyMax_units hk]
  | short =>
    simp only
    cases stopAmountN st (env.fetchFloat st.symbol .low) with
    | error e => rfl
    | ok a => simp only [Except.map, addN_units hk, pyMin_units hk]

theorem triggerTrailing_units (env : StopEnv) (st : Stop) (v : Option ℚ) :
    triggerTrailing (env.units k) (st.units k) (money k v) =
      (triggerTrailing env st v).map (fun x => (money k x.1, money k x.2)) := by
  simp only [triggerTrailing, triggerProfitLoss_units hk, ratchet_units hk]
  cases triggerProfitLoss env st v with
  | some f => rfl
  | none =>
    simp only [money, Option.map_none]
    cases ratchet env st v with
    | error e => rfl
    | ok a => rfl

theorem triggerBar_units (env : StopEnv) (st : Stop) (n : Nat) :
    triggerBar (env.units k) (st.units k) n = (triggerBar env st n).map (money k) := by
  have h1 : (st.units k).bars = st.bars := rfl
  have h2 : (env.units k).fetch (st.units k).symbol ((st.units k).fillPrice.getD (.price .middle)) =
      money k (env.fetch st.symbol (st.fillPrice.getD (.price .middle))) := by
    simp only [StopEnv.units, Stop.units]
    congr 2
    cases st.fillPrice with
    | none => rfl
    | some f => simp [FillSpec.units_inv hk]
  simp only [triggerBar, h1, h2]
  cases st.bars with
  | none => rfl
  | some m =>
    simp only
    by_cases h : n ≥ m
    · simp only [if_pos h]
      cases env.fetch st.symbol (st.fillPrice.getD (.price .middle)) with
      | none => rfl
      | some x =>
        simp only [money, Option.map_some, k_nonpos hk]
        by_cases hx : x ≤ 0 <;> simp [hx, Except.map, money]
    · simp only [if_neg h]
      rfl

theorem slipStopFill_units (env : StopEnv) (st : Stop) (n fill : ℚ) :
    slipStopFill (env.units k) (st.units k) n (k * fill) = k * slipStopFill env st n fill := by
  have h1 : (env.units k).slip = env.slip.map (SlipFn.units k) := rfl
  simp only [slipStopFill, h1, Stop.units_pos, Stop.units_symbol]
  cases env.slip with
  | none => rfl
  | some f =>
    simp only [Option.map_some, SlipFn.units, k_inv hk, k_nonpos hk]
    split_ifs <;> simp_all

theorem stopLimitBlocks_units (st : Stop) (fill : ℚ) :
    stopLimitBlocks (st.units k) (k * fill) = stopLimitBlocks st fill := by
  have h1 : (st.units k).limitPrice = money k st.limitPrice := rfl
  simp only [stopLimitBlocks, h1, Stop.units_pos]
  cases st.limitPrice with
  | none => rfl
  | some l =>
    simp only [money, Option.map_some]
    cases st.posType <;> simp [k_lt hk]

/-- The fill of a stop and the portfolio in another unit. -/
def fillUnits (k : ℚ) (x : Option ℚ × Portfolio) : Option ℚ × Portfolio := (money k x.1, x.2.units k)

theorem stopFill_units (env : StopEnv) (s : Portfolio) (e : Entry) (st : Stop) :
    stopFill (env.units k) (s.units k) (e.units k) (st.units k) =
      (stopFill env s e st).map (fillUnits k) := by
  have h0 : (e.units k).symBars = e.symBars := rfl
  have h1 : lookupStop (s.units k).stopData st.id =
      (lookupStop s.stopData st.id).map (StopData.units k) := lookupStop_units hk _ _
  simp only [stopFill, Stop.units_type, Stop.units_id, h0, h1, triggerBar_units hk]
  cases st.stopType with
  | bar =>
    simp only
    cases triggerBar env st e.symBars with
    | error err => rfl
    | ok f => rfl
  | loss =>
    simp only
    cases lookupStop s.stopData st.id with
    | none => rfl
    | some d =>
      simp only [Option.map_some, StopData.units, triggerProfitLoss_units hk]
      rfl
  | profit =>
    simp only
    cases lookupStop s.stopData st.id with
    | none => rfl
    | some d =>
      simp only [Option.map_some, StopData.units, triggerProfitLoss_units hk]
      rfl
  | trailing =>
    simp only
    cases lookupStop s.stopData st.id with
    | none => rfl
    | some d =>
      simp only [Option.map_some, StopData.units, triggerTrailing_units hk]
      cases triggerTrailing env st d.value with
      | error err => rfl
      | ok x =>
        simp only [Except.map, fillUnits, Except.ok.injEq, Prod.mk.injEq, true_and]
        simp only [Portfolio.units, setStopValue_units hk]

/-- Whether a stop fired and the portfolio in another unit. -/
def firedUnits (k : ℚ) (x : Bool × Portfolio) : Bool × Portfolio := (x.1, x.2.units k)

theorem triggerStop_units (cfg : Config) (env : StopEnv) (date : Date) (s : Portfolio) (p : Position)
    (e : Entry) (st : Stop) :
    triggerStop (cfg.units k) (env.units k) date (s.units k) (p.units k) (e.units k) (st.units k) =
      (triggerStop cfg env date s p e st).map (firedUnits k) := by
  have h1 : lookupPos ((s.units k).book st.posType) st.symbol = none ↔
      lookupPos (s.book st.posType) st.symbol = none := by
    rw [book_units, lookupPos_units]; simp
  have h2 : (st.units k).exitSide = st.exitSide := rfl
  have h3 : (st.units k).exitIntent = st.exitIntent := rfl
  have h4 : (st.units k).limitPrice = money k st.limitPrice := rfl
  simp only [triggerStop, Stop.units_pos, Stop.units_symbol, stopFill_units hk, h2, h3, h4]
  by_cases h : lookupPos (s.book st.posType) st.symbol = none
  · simp only [h1.2 h, h, if_true]; rfl
  · have h' : ¬ (lookupPos ((s.units k).book st.posType) st.symbol = none) := fun hc => h (h1.1 hc)
    simp only [h', h, if_false]
    cases stopFill env s e st with
    | error err => rfl
    | ok x =>
      obtain ⟨f, s1⟩ := x
      cases f with
      | none => rfl
      | some m =>
        simp only [Except.map, fillUnits, money, Option.map_some, Entry.units_shares,
          slipStopFill_units hk, stopLimitBlocks_units hk]
        by_cases hl : stopLimitBlocks st (slipStopFill env st e.shares m)
        · simp only [if_pos hl]; rfl
        · simp only [if_neg hl, exitEntry_units hk, exitUnits, Position.units_type, book_units,
            replacePos_units, setBook_units, Position.units_symbol, Stop.units_type]
          have := addOrder_units hk cfg
            ((exitEntry cfg st.posType s1 p e e.shares (slipStopFill env st e.shares m) date
              (some st.stopType)).1.setBook p.type
                (replacePos ((exitEntry cfg st.posType s1 p e e.shares
                  (slipStopFill env st e.shares m) date (some st.stopType)).1.book p.type)
                  (exitEntry cfg st.posType s1 p e e.shares (slipStopFill env st e.shares m) date
                    (some st.stopType)).2)) date p.symbol st.exitSide none
            (stopOrderType st.stopType) st.exitIntent e.shares st.limitPrice (some m)
            (slipStopFill env st e.shares m)
          simp only [money, Option.map_some] at this
          rw [this]
          rfl

/-- A stop to evaluate in another unit. -/
def StopCheck.units (k : ℚ) (c : StopCheck) : StopCheck := { c with stop := c.stop.units k }

/-- The state of the loop over stops in another unit. -/
def checkUnits (k : ℚ) (x : Portfolio × List StopCheck) : Portfolio × List StopCheck :=
  (x.1.units k, x.2.map (StopCheck.units k))

theorem findEntry_units (es : List Entry) (id : Nat) :
    findEntry (es.map (Entry.units k)) id = (findEntry es id).map (Entry.units k) := by
  simp only [findEntry]
  rw [List.find?_map]
  rfl

theorem checkOne_units (cfg : Config) (env : StopEnv) (date : Date)
    (acc : Portfolio × List StopCheck) (c : StopCheck) :
    checkOne (cfg.units k) (env.units k) date (checkUnits k acc) (c.units k) =
      (checkOne cfg env date acc c).map (checkUnits k) := by
  have h1 : ((checkUnits k acc).2.map StopCheck.entryId) = acc.2.map StopCheck.entryId := by
    simp only [checkUnits, List.map_map]; rfl
  have h2 : (c.units k).entryId = c.entryId := rfl
  have h3 : lookupPos ((checkUnits k acc).1.book c.posType) c.symbol =
      (lookupPos (acc.1.book c.posType) c.symbol).map (Position.units k) := by
    simp only [checkUnits, book_units, lookupPos_units]
  have h4 : (c.units k).posType = c.posType := rfl
  have h5 : (c.units k).symbol = c.symbol := rfl
  simp only [checkOne, h1, h2, h3, h4, h5]
  by_cases h : c.entryId ∈ acc.2.map StopCheck.entryId
  · simp only [if_pos h]; rfl
  · simp only [if_neg h]
    cases lookupPos (acc.1.book c.posType) c.symbol with
    | none => rfl
    | some p =>
      simp only [Option.map_some]
      rw [show (p.units k).entries = p.entries.map (Entry.units k) from rfl, findEntry_units hk]
      cases findEntry p.entries c.entryId with
      | none => rfl
      | some e =>
        simp only [Option.map_some]
        have := triggerStop_units hk cfg env date acc.1 p e c.stop
        rw [show (checkUnits k acc).1 = acc.1.units k from rfl,
          show (c.units k).stop = c.stop.units k from rfl, this]
        cases triggerStop cfg env date acc.1 p e c.stop with
        | error err => rfl
        | ok x =>
          obtain ⟨b, s1⟩ := x
          cases b
          · rfl
          · simp [Except.map, firedUnits, checkUnits]

theorem priceChecks_units (env : StopEnv) (s : Portfolio) :
    priceChecks (env.units k) (s.units k) = (priceChecks env s).map (StopCheck.units k) := by
  unfold priceChecks
  rw [List.map_flatMap]
  congr 1
  funext x
  obtain ⟨sym, ids⟩ := x
  have hc : (env.units k).canPrice sym = env.canPrice sym := rfl
  simp only [hc]
  by_cases hp : env.canPrice sym = true
  · simp only [hp, if_true]
    rw [List.map_filterMap]
    congr 1
    funext id
    have h1 : lookupStop (s.units k).stopData id =
      (lookupStop s.stopData id).map (StopData.units k) := lookupStop_units hk _ _
    rw [h1]
    cases lookupStop s.stopData id <;> rfl
  · simp only [hp]; rfl

theorem barChecks_units (env : StopEnv) (s : Portfolio) :
    barChecks (env.units k) (s.units k) = (barChecks env s).map (StopCheck.units k) := by
  unfold barChecks
  rw [show (s.units k).longs = s.longs.map (Position.units k) from rfl,
    show (s.units k).shorts = s.shorts.map (Position.units k) from rfl, ← List.map_append,
    List.flatMap_map, List.map_flatMap]
  congr 1
  funext p
  have hc : (env.units k).canPrice p.symbol = env.canPrice p.symbol := rfl
  simp only [Position.units_symbol, hc]
  by_cases hp : env.canPrice p.symbol = true
  · simp only [hp, if_true]
    rw [show (p.units k).entries = p.entries.map (Entry.units k) from rfl, List.flatMap_map,
      List.map_flatMap]
    congr 1
    funext e
    rw [show (e.units k).stops = e.stops.map (Stop.units k) from rfl, List.filter_map,
      List.map_map, List.map_map]
    rfl
  · simp only [hp]; rfl

theorem eraseEntry_units (es : List Entry) (id : Nat) :
    eraseEntry (es.map (Entry.units k)) id = (eraseEntry es id).map (Entry.units k) := by
  induction es with
  | nil => rfl
  | cons e es ih =>
    simp only [List.map_cons, eraseEntry, Entry.units_id]
    by_cases h : e.id = id <;> simp [h, ih]

theorem finishStop_units (s : Portfolio) (c : StopCheck) :
    finishStop (s.units k) (c.units k) = (finishStop s c).units k := by
  have h2 : (c.units k).entryId = c.entryId := rfl
  have h4 : (c.units k).posType = c.posType := rfl
  have h5 : (c.units k).symbol = c.symbol := rfl
  simp only [finishStop, h2, h4, h5, book_units, lookupPos_units]
  cases lookupPos (s.book c.posType) c.symbol with
  | none => rfl
  | some p =>
    simp only [Option.map_some]
    rw [show (p.units k).entries = p.entries.map (Entry.units k) from rfl, findEntry_units hk]
    cases findEntry p.entries c.entryId with
    | none => rfl
    | some e =>
      simp only [Option.map_some, eraseEntry_units hk]
      rw [← updatePosition_units hk, ← removeStopData_units hk]
      rfl

theorem checkStops_units (cfg : Config) (s : Portfolio) (date : Date) (env : StopEnv) :
    checkStops (cfg.units k) (s.units k) date (env.units k) =
      (checkStops cfg s date env).map (Portfolio.units k) := by
  have hfold := foldE_map (checkOne cfg env date) (checkOne (cfg.units k) (env.units k) date)
    (checkUnits k) (StopCheck.units k) (fun b a => checkOne_units hk cfg env date b a)
  have hfin : ∀ (l : List StopCheck) (t : Portfolio),
      (l.map (StopCheck.units k)).foldl finishStop (t.units k) = (l.foldl finishStop t).units k := by
    intro l
    induction l with
    | nil => intro t; rfl
    | cons c l ih =>
      intro t
      simp only [List.map_cons, List.foldl_cons, finishStop_units hk, ih]
  simp only [checkStops, priceChecks_units hk]
  have h1 := hfold (s, []) (priceChecks env s)
  rw [show checkUnits k (s, []) = (s.units k, []) from rfl] at h1
  rw [h1]
  cases foldE (checkOne cfg env date) (s, []) (priceChecks env s) with
  | error e => rfl
  | ok acc =>
    simp only [Except.map]
    rw [show (checkUnits k acc).1 = acc.1.units k from rfl, barChecks_units hk, hfold]
    cases foldE (checkOne cfg env date) acc (barChecks env acc.1) with
    | error e => rfl
    | ok acc2 =>
      simp only [Except.map]
      exact congrArg Except.ok (hfin acc2.2 acc2.1)

/-! ## Removing stops -/

theorem modEntryBook_units (id : Nat) (f g : Entry → Entry)
    (h : ∀ e, g (e.units k) = (f e).units k) (ps : List Position) :
    modEntryBook id g (ps.map (Position.units k)) = (modEntryBook id f ps).map (Position.units k) := by
  simp only [modEntryBook, List.map_map]
  apply List.map_congr_left
  intro p _
  simp only [Function.comp, Position.units, modEntry_units hk id f g h]

theorem dropStopEntries_units (id : Nat) (es : List Entry) :
    dropStopEntries id (es.map (Entry.units k)) =
      ((dropStopEntries id es).1.map (Entry.units k), (dropStopEntries id es).2) := by
  induction es with
  | nil => rfl
  | cons e es ih =>
    have h1 : (e.units k).stops.any (fun st => decide (st.id = id)) =
        e.stops.any (fun st => decide (st.id = id)) := by
      simp only [Entry.units, List.any_map]; rfl
    simp only [List.map_cons, dropStopEntries, h1, ih]
    split
    · simp only [Entry.units, List.map_cons, List.eraseP_map]
      rfl
    · rfl

theorem dropStopBook_units (id : Nat) (ps : List Position) :
    dropStopBook id (ps.map (Position.units k)) =
      ((dropStopBook id ps).1.map (Position.units k), (dropStopBook id ps).2) := by
  induction ps with
  | nil => rfl
  | cons p ps ih =>
    have h1 : dropStopEntries id (p.units k).entries =
        ((dropStopEntries id p.entries).1.map (Entry.units k), (dropStopEntries id p.entries).2) :=
      dropStopEntries_units hk id p.entries
    simp only [List.map_cons, dropStopBook, h1, ih]
    split <;> rfl

theorem removeStop_units (s : Portfolio) (id : Nat) :
    removeStop (s.units k) id = firedUnits k (removeStop s id) := by
  have h1 : lookupStop (s.units k).stopData id =
      (lookupStop s.stopData id).map (StopData.units k) := lookupStop_units hk _ _
  unfold removeStop
  rw [h1]
  cases lookupStop s.stopData id with
  | some d =>
    simp only [Option.map_some, firedUnits, Prod.mk.injEq, true_and]
    have h2 : ∀ e : Entry, (fun e : Entry => { e with stops := e.stops.erase (d.units k).stop }) (e.units k) =
        (Entry.units k { e with stops := e.stops.erase d.stop }) := fun e => by
      simp only [Entry.units, StopData.units, Entry.mk.injEq, true_and, and_true]
      exact (List.map_erase (Stop.units_injective hk) ..).symm
    have h3 := fun ps => modEntryBook_units hk d.entryId
      (fun e => { e with stops := e.stops.erase d.stop })
      (fun e => { e with stops := e.stops.erase (d.units k).stop }) h2 ps
    simp only [Portfolio.units, eraseStop_units hk, Portfolio.mk.injEq, true_and, and_true]
    exact ⟨h3 _, h3 _, rfl⟩
  | none =>
    simp only [Option.map_none]
    rw [show (s.units k).longs = s.longs.map (Position.units k) from rfl,
      show (s.units k).shorts = s.shorts.map (Position.units k) from rfl]
    simp only [dropStopBook_units hk]
    split
    · rfl
    · split <;> rfl

theorem removeEntryStops_units (s : Portfolio) (e : Entry) (t : Option StopType) :
    removeEntryStops (s.units k) (e.units k) t = (removeEntryStops s e t).units k := by
  unfold removeEntryStops
  rw [show (e.units k).stops = e.stops.map (Stop.units k) from rfl]
  cases t with
  | none =>
    have h3 := fun ps => modEntryBook_units hk e.id
      (fun e' => { e' with stops := [] }) (fun e' => { e' with stops := [] }) (fun _ => rfl) ps
    simp only [removeStopData_units hk, Entry.units_id]
    generalize s.removeStopData e.stops = u
    simp only [Portfolio.units, Portfolio.mk.injEq, true_and, and_true]
    exact ⟨h3 _, h3 _⟩
  | some t =>
    simp only [List.find?_map]
    have : ((fun st : Stop => decide (st.stopType = t)) ∘ Stop.units k) =
        (fun st : Stop => decide (st.stopType = t)) := rfl
    rw [this]
    cases e.stops.find? (fun st => decide (st.stopType = t)) with
    | none => rfl
    | some st =>
      simp only [Option.map_some, Stop.units_id, removeStop_units hk, firedUnits]

theorem removeStopsEntry_units (s : Portfolio) (id : Nat) (t : Option StopType) :
    removeStopsEntry (s.units k) id t = (removeStopsEntry s id t).units k := by
  have h : findEntryAll (s.units k) id = (findEntryAll s id).map (Entry.units k) := by
    unfold findEntryAll
    rw [← findEntry_units hk, show (s.units k).longs = s.longs.map (Position.units k) from rfl,
      show (s.units k).shorts = s.shorts.map (Position.units k) from rfl, ← List.map_append,
      List.flatMap_map, List.map_flatMap]
    rfl
  unfold removeStopsEntry
  rw [h]
  cases findEntryAll s id with
  | none => rfl
  | some e => exact removeEntryStops_units hk s e t

theorem removePositionStops_units (s : Portfolio) (p : Position) (t : Option StopType) :
    removePositionStops (s.units k) (p.units k) t = (removePositionStops s p t).units k := by
  unfold removePositionStops
  rw [show (p.units k).entries = p.entries.map (Entry.units k) from rfl]
  generalize p.entries = es
  induction es generalizing s with
  | nil => rfl
  | cons e es ih =>
    simp only [List.map_cons, List.foldl_cons, Entry.units_id, removeStopsEntry_units hk, ih]

theorem removeStopsSym_units (s : Portfolio) (sym : Sym) (t : Option StopType) :
    removeStopsSym (s.units k) sym t = (removeStopsSym s sym t).units k := by
  have second : ∀ u : Portfolio,
      (match lookupPos (u.units k).shorts sym with
        | none => u.units k
        | some p => removePositionStops (u.units k) p t) =
      (match lookupPos u.shorts sym with
        | none => u
        | some p => removePositionStops u p t).units k := fun u => by
    rw [show (u.units k).shorts = u.shorts.map (Position.units k) from rfl, lookupPos_units]
    cases lookupPos u.shorts sym with
    | none => rfl
    | some p => exact removePositionStops_units hk u p t
  unfold removeStopsSym
  rw [show (s.units k).longs = s.longs.map (Position.units k) from rfl, lookupPos_units]
  cases lookupPos s.longs sym with
  | none => exact second s
  | some p =>
    simp only [Option.map_some, removePositionStops_units hk]
    exact second _

/-! ## Histories -/

/-- A call on the portfolio in another unit. -/
def Op.units (k : ℚ) : Op → Op
  | .buy r => .buy (r.units k)
  | .sell r => .sell (r.units k)
  | .exitPosition d sym b q slip => .exitPosition d sym (k * b) (k * q) (slip.map (SlipFn.units k))
  | .captureBar d quote => .captureBar d (fun x => (quote x).units k)
  | .incrBars h => .incrBars h
  | .checkStops d env => .checkStops d (env.units k)
  | .removeStop id => .removeStop id
  | .removeStopsSym sym t => .removeStopsSym sym t
  | .removeStopsEntry id t => .removeStopsEntry id t

theorem step_units (cfg : Config) (s : Portfolio) (op : Op) :
    step (cfg.units k) (s.units k) (op.units k) = (step cfg s op).map (Portfolio.units k) := by
  cases op with
  | buy r =>
    simp only [step, Op.units, buy_units hk]
    cases buy cfg s r <;> rfl
  | sell r =>
    simp only [step, Op.units, sell_units hk]
    cases sell cfg s r <;> rfl
  | exitPosition d sym b q slip => exact exitPosition_units hk ..
  | captureBar d quote => exact congrArg Except.ok (captureBar_units hk ..)
  | incrBars h => exact congrArg Except.ok (incrBars_units hk ..)
  | checkStops d env => exact checkStops_units hk ..
  | removeStop id =>
    simp only [step, Op.units, removeStop_units hk]
    rfl
  | removeStopsSym sym t => exact congrArg Except.ok (removeStopsSym_units hk ..)
  | removeStopsEntry id t => exact congrArg Except.ok (removeStopsEntry_units hk ..)

theorem run_units (cfg : Config) (ops : List Op) :
    run (cfg.units k) (ops.map (Op.units k)) = (run cfg ops).map (Portfolio.units k) := by
  have h := foldE_map (step cfg) (step (cfg.units k)) (Portfolio.units k) (Op.units k)
    (fun s op => step_units hk cfg s op) (Portfolio.init cfg) ops
  unfold run runFrom
  rw [← h]
  congr 1
  simp [Portfolio.init, Portfolio.units, Config.units, money]

end

end PyBroker
