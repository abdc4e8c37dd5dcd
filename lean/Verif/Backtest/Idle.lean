import Verif.Backtest.Hist
import Verif.Portfolio.Explained
import Verif.Portfolio.Levels
import Verif.Portfolio.StopOrder
import Verif.Portfolio.Registry

/-!
# Symbols that nobody trades: one bar (helper lemmas)

Everything the loop holds (positions, stops, pending orders) is for symbols in `P`, and a bar reads
its data only for these.
-/

namespace PyBroker

open PyBroker.Spec

/-- What stops read on a bar is equal for the symbols in `P`. -/
structure Spec.AgreeStop (P : Sym → Prop) (e e' : StopEnv) : Prop where
  canPrice : ∀ s, P s → e'.canPrice s = e.canPrice s
  fetchFloat : ∀ s, P s → e'.fetchFloat s = e.fetchFloat s
  fetch : ∀ s, P s → e'.fetch s = e.fetch s
  slip : e'.slip = e.slip

/-- What a bar reads is equal for the symbols in `P`. -/
structure Spec.AgreeEnv (P : Sym → Prop) (e e' : BarEnv) : Prop where
  date : e'.date = e.date
  endIndex : ∀ s, P s → e'.endIndex s = e.endIndex s
  hasBarOn : ∀ s, P s → e'.hasBarOn s = e.hasBarOn s
  fetch : ∀ s, P s → e'.fetch s = e.fetch s
  stop : AgreeStop P e.stop e'.stop
  quote : ∀ s, P s → e'.quote s = e.quote s
  slip : e'.slip = e.slip

/-- What a window fixes is equal for the symbols in `P`. -/
structure Spec.AgreeWindow (P : Sym → Prop) (w w' : Window) : Prop where
  dates : ∀ s, P s → w'.dates s = w.dates s
  master : ∀ s, P s → w'.master.map (fun m => m s) = w.master.map (fun m => m s)
  buyDelay : w'.buyDelay = w.buyDelay
  sellDelay : w'.sellDelay = w.sellDelay

variable {P : Sym → Prop}

/-! ## Only symbols in `P` -/

/-- The registry of stops is about symbols in `P`. -/
structure RegOn (P : Sym → Prop) (s : Portfolio) : Prop where
  active : ∀ a ∈ s.active.map Prod.fst, P a
  data : ∀ d ∈ s.stopData, P d.stop.symbol

theorem RegOn.frame {s t : Portfolio} (h : RegOn P s) (h1 : t.active = s.active)
    (h2 : t.stopData = s.stopData) : RegOn P t :=
  ⟨by rw [h1]; exact h.active, by rw [h2]; exact h.data⟩

theorem RegOn.removeStopData (l : List Stop) : ∀ {s : Portfolio}, RegOn P s →
    RegOn P (s.removeStopData l) := by
  induction l with
  | nil => intro s h; exact h
  | cons st l ih =>
    intro s h
    unfold Portfolio.removeStopData
    split
    · exact ih h
    · exact ih ⟨fun a ha => h.active a ((activeRemove_sublist _ _ _).subset ha),
        fun d hd => h.data d ((eraseStop_sublist _ _).subset hd)⟩

theorem RegOn.removeStop {s : Portfolio} (h : RegOn P s) (id : Nat) :
    RegOn P (PyBroker.removeStop s id).2 := by
  unfold PyBroker.removeStop
  split
  · exact ⟨fun a ha => h.active a ((activeRemove_sublist _ _ _).subset ha),
      fun d hd => h.data d ((eraseStop_sublist _ _).subset hd)⟩
  · simp only
    split
    · exact h.frame rfl rfl
    · split
      · exact h.frame rfl rfl
      · exact h

theorem RegOn.addStops {s : Portfolio} {eid : Nat} {price : ℚ} {stops es : List Stop} {s' : Portfolio}
    (h : RegOn P s) (hst : ∀ st ∈ stops, P st.symbol)
    (ha : PyBroker.addStops s eid price stops = .ok (es, s')) : RegOn P s' := by
  unfold PyBroker.addStops at ha
  refine foldE_inv_mem (f := addStopStep eid price) (fun a => RegOn P a.2) _ ?_ ([], s) (es, s') h ha
  rintro b st b' hm hb hs
  have hP := hst st ((List.perm_insertionSort _ _).mem_iff.1 hm)
  unfold addStopStep at hs
  split at hs
  · cases hs
  · split at hs
    · cases hs; exact hb
    · split at hs
      · cases hs
      · cases hs
        refine ⟨?_, ?_⟩
        · intro a ha
          simp only [activeAdd_keys] at ha
          split at ha
          · exact hb.active a ha
          · rcases List.mem_append.1 ha with ha | ha
            · exact hb.active a ha
            · rw [List.mem_singleton] at ha; rw [ha]; exact hP
        · intro d hd
          rcases List.mem_append.1 hd with hd | hd
          · exact hb.data d hd
          · rw [List.mem_singleton] at hd; rw [hd]; exact hP

/-- New stops are on symbols in `P`. -/
def stopsOn (P : Sym → Prop) : Guard := ⟨fun _ => True, fun l => ∀ st ∈ l, P st.symbol, True, True⟩

theorem RegOn.prim {cfg : Config} {s t : Portfolio} (hp : Prim cfg (stopsOn P) s t) (h : RegOn P s) :
    RegOn P t := by
  cases hp with
  | @exit Z _ pt p e sh fill date st hw hp he hz h0 hle hQ => cases pt <;> exact h.frame rfl rfl
  | @drop Z _ pt p e hw hp he hz => cases pt <;> exact (h.removeStopData e.stops).frame rfl rfl
  | @close Z _ pt p hw hp hnil => cases pt <;> exact h.frame rfl rfl
  | @opened _ sd date sym n m fill stops es sda ac hw h0 hf hno hclamp hnm hcap hmode hfit hS hadd =>
    exact (RegOn.addStops (h.frame (t := { s with
      cash := s.cash - n * fill / levOf cfg, cachedLongMv := none,
      cachedShortMv := none, entryId := s.entryId + 1 }) rfl rfl) hS hadd).frame rfl rfl
  | order h0 hlim hQ => exact h.frame rfl rfl
  | caches hm => exact h.frame rfl rfl
  | stopValue id v =>
    refine ⟨h.active, ?_⟩
    intro d hd
    obtain ⟨d', hd', e⟩ := setStopValue_mem hd
    rw [← e]
    exact h.data d' hd'
  | incr hasBar => exact h.frame rfl rfl
  | removeStop id hw => exact h.removeStop id
  | @clearStops _ pt p e hw hp he => exact (h.removeStopData e.stops).frame rfl rfl

/-- Everything a portfolio holds is about symbols in `P`. -/
structure PfOn (P : Sym → Prop) (s : Portfolio) : Prop where
  good : Good s
  fit : StopsFit s
  told : Told (fun sym _ => P sym) s
  reg : RegOn P s

theorem PfOn.init (P : Sym → Prop) (cfg : Config) : PfOn P (Portfolio.init cfg) :=
  ⟨Good.init cfg, StopsFit.init cfg, Told.init _ cfg,
    ⟨by intro a ha; simp [Portfolio.init] at ha, by intro a ha; simp [Portfolio.init] at ha⟩⟩

/-- Held symbols are in `P`. -/
theorem PfOn.pos {s : Portfolio} (h : PfOn P s) {pt : PosType} {p : Position} (hp : p ∈ s.book pt) :
    P p.symbol := by
  obtain ⟨e, he⟩ := List.exists_mem_of_ne_nil _ (h.good.ne pt p hp)
  obtain ⟨o, ho, _, h2, _⟩ := h.told.entries pt p hp e he
  have := h.told.orders o ho
  rw [h2] at this
  exact this

theorem PfOn.lookup {s : Portfolio} (h : PfOn P s) {sym : Sym} (hs : ¬ P sym) (pt : PosType) :
    lookupPos (s.book pt) sym = none := by
  rcases hl : lookupPos (s.book pt) sym with _ | p
  · rfl
  · obtain ⟨h1, h2⟩ := lookupPos_some hl
    exact absurd (h2 ▸ h.pos h1) hs

theorem PfOn.syms {s : Portfolio} (h : PfOn P s) {sym : Sym} (hs : sym ∈ s.symbols) : P sym := by
  obtain ⟨pt, hm⟩ := (h.good.wf.syms sym).1 hs
  obtain ⟨p, hp, rfl⟩ := List.mem_map.1 hm
  exact h.pos hp

/-- New stops of a call are on symbols in `P`. -/
theorem PfOn.step {cfg : Config} {s s' : Portfolio} {op : Op} (h : PfOn P s) (hfit : op.Fit)
    (hon : op.On (fun sym _ => P sym)) (hst : op.Fills (stopsOn P))
    (hs : PyBroker.step cfg s op = .ok s') : PfOn P s' := by
  obtain ⟨h1, h2⟩ := step_good h.good h.fit hfit hs
  refine ⟨h1, h2, step_told h.good h.fit hon h.told hs, ?_⟩
  rcases step_steps h.good h.fit hfit hst hs with ⟨_, hp⟩ | ⟨d, quote, _, rfl⟩
  · exact hp.inv (fun _ _ hp hs => hs.prim hp) h.reg
  · have hreg := captureFold_reg quote
      ((s.applyInterest cfg).symbols.insertionSort (fun a b => a ≤ b))
      { pf := s.applyInterest cfg, equity := (s.applyInterest cfg).netCash cfg,
        marketValue := (s.applyInterest cfg).netCash cfg, margin := 0, longValue := 0 }
    have hai : (s.applyInterest cfg).stopData = s.stopData ∧
        (s.applyInterest cfg).active = s.active := by
      obtain ⟨c, a, hf⟩ := applyInterest_frame cfg s
      rw [hf]; exact ⟨rfl, rfl⟩
    exact h.reg.frame (hreg.2.trans hai.2) (hreg.1.trans hai.1)

/-! ## Stops -/

theorem foldE_agree {α β : Type} {f g : β → α → Except Err β} {l : List α}
    (h : ∀ b, ∀ a ∈ l, g b a = f b a) (b : β) : foldE g b l = foldE f b l := by
  induction l generalizing b with
  | nil => rfl
  | cons a l ih =>
    unfold foldE
    rw [h b a List.mem_cons_self]
    split
    · rfl
    · exact ih (fun b a ha => h b a (List.mem_cons_of_mem _ ha)) _

section
variable {e e' : StopEnv} (h : AgreeStop P e e')
include h

theorem checkOne_agree (cfg : Config) (date : Date) (acc : Portfolio × List StopCheck) {c : StopCheck}
    (hc : P c.stop.symbol) : checkOne cfg e' date acc c = checkOne cfg e date acc c := by
  have h1 : ∀ v, triggerProfitLoss e' c.stop v = triggerProfitLoss e c.stop v := by
    intro v
    simp only [triggerProfitLoss, h.fetchFloat _ hc]
  have h2 : ∀ v, triggerTrailing e' c.stop v = triggerTrailing e c.stop v := by
    intro v
    simp only [triggerTrailing, h1, ratchet, h.fetchFloat _ hc]
  have h3 : ∀ n, triggerBar e' c.stop n = triggerBar e c.stop n := by
    intro n
    simp only [triggerBar, h.fetch _ hc]
  have h4 : ∀ s x, stopFill e' s x c.stop = stopFill e s x c.stop := by
    intro s x
    simp only [stopFill, h1, h2, h3]
  have h5 : ∀ n f, slipStopFill e' c.stop n f = slipStopFill e c.stop n f := by
    intro n f
    simp only [slipStopFill, h.slip]
  simp only [checkOne, triggerStop, h4, h5]

theorem priceChecks_agree {s : Portfolio} (hs : RegOn P s) : priceChecks e' s = priceChecks e s := by
  unfold priceChecks
  apply List.flatMap_congr
  intro x hx
  obtain ⟨sym, ids⟩ := x
  simp only [h.canPrice sym (hs.active sym (List.mem_map.2 ⟨_, hx, rfl⟩))]

theorem barChecks_agree {s : Portfolio} (hs : ∀ pt, ∀ p ∈ s.book pt, P p.symbol) :
    barChecks e' s = barChecks e s := by
  unfold barChecks
  apply List.flatMap_congr
  intro p hp
  have : P p.symbol := by
    rcases List.mem_append.1 hp with hp | hp
    · exact hs .long p hp
    · exact hs .short p hp
  simp only [h.canPrice _ this]

/-- Checking stops reads prices of symbols in `P` only. -/
theorem checkStops_agree {cfg : Config} {s : Portfolio} {date : Date} (hs : PfOn P s)
    (hcan : ∀ sym, e.canPrice sym = true → P sym) :
    checkStops cfg s date e' = checkStops cfg s date e := by
  have hpc : ∀ c ∈ priceChecks e s, P c.stop.symbol := by
    intro c hc
    unfold priceChecks at hc
    obtain ⟨⟨sym, ids⟩, _, hc⟩ := List.mem_flatMap.1 hc
    simp only at hc
    split at hc
    · simp only [List.mem_filterMap, Option.map_eq_some_iff] at hc
      obtain ⟨id, _, d, hd, rfl⟩ := hc
      exact hs.reg.data d (lookupStop_some hd).1
    · cases hc
  unfold checkStops
  rw [priceChecks_agree h hs.reg, foldE_agree (fun b c hc => checkOne_agree h cfg date b (hpc c hc))]
  cases h1 : foldE (checkOne cfg e date) (s, []) (priceChecks e s) with
  | error e => rfl
  | ok acc =>
    simp only
    have k1 : (CheckInv acc ∧ SubIds acc.1 s) ∧ Told (fun sym _ => P sym) acc.1 := by
      refine foldE_inv_mem (f := checkOne cfg e date)
        (fun a => (CheckInv a ∧ SubIds a.1 s) ∧ Told (fun sym _ => P sym) a.1) (priceChecks e s) ?_ (s, [])
        acc ⟨⟨⟨hs.good.wf, hs.good.ne, by simp, by simp⟩, SubIds.refl s⟩, hs.told⟩ h1
      rintro a c a' hc ⟨⟨ha, hsub⟩, hst⟩ hs
      obtain ⟨h3, h4⟩ := ha.step (priceChecks_fit e s c hc) hs
      exact ⟨⟨h3, h4.trans hsub⟩, checkOne_told ha hst (hcan _ (priceChecks_sym hc))
        (priceChecks_fit e s c hc) hs⟩
    have hpos : ∀ pt, ∀ p ∈ acc.1.book pt, P p.symbol := by
      intro pt p hp
      obtain ⟨x, hx⟩ := List.exists_mem_of_ne_nil _ (k1.1.1.ne pt p hp)
      obtain ⟨q, hq, e, _⟩ := k1.1.2 pt p hp x hx
      rw [← e]
      exact hs.pos hq
    have hbc : ∀ c ∈ barChecks e acc.1, P c.stop.symbol := by
      intro c hc
      have hfit := k1.1.2.fit hs.fit
      unfold barChecks at hc
      obtain ⟨p, hp, hc⟩ := List.mem_flatMap.1 hc
      split at hc
      · obtain ⟨x, hx, hc⟩ := List.mem_flatMap.1 hc
        obtain ⟨st, hst, rfl⟩ := List.mem_map.1 hc
        have hst := (List.mem_filter.1 hst).1
        rcases List.mem_append.1 hp with hp | hp
        · rw [(hfit.entries .long p hp x hx st hst).2]; exact hpos .long p hp
        · rw [(hfit.entries .short p hp x hx st hst).2]; exact hpos .short p hp
      · cases hc
    rw [barChecks_agree h hpos, foldE_agree (fun b c hc => checkOne_agree h cfg date b (hbc c hc))]

end

/-! ## The loop -/

/-- Everything the loop holds is about symbols in `P`. -/
structure LoopOn (P : Sym → Prop) (s : Loop) : Prop where
  pf : PfOn P s.pf
  orders : ∀ o ∈ s.pend.orders, P o.symbol ∧ OrderFit o

theorem LoopOn.shrink {s t : Loop} (h : LoopOn P s) (hp : t.pf = s.pf)
    (ho : t.pend.orders.Sublist s.pend.orders) : LoopOn P t :=
  ⟨by rw [hp]; exact h.pf, fun o hm => h.orders o (ho.subset hm)⟩

theorem LoopOn.call {cfg : Config} {s t : Loop} {op : Op} (h : LoopOn P s)
    (hs : PyBroker.step cfg s.pf op = .ok t.pf) (hfit : op.Fit) (hon : op.On (fun sym _ => P sym))
    (hst : op.Fills (stopsOn P)) (ho : t.pend.orders.Sublist s.pend.orders) : LoopOn P t :=
  ⟨h.pf.step hfit hon hst hs, fun o hm => h.orders o (ho.subset hm)⟩

theorem foldB_agree {α β : Type} {I : β → Prop} {f g : β → α → Except BErr β} {l : List α}
    (h : ∀ b, ∀ a ∈ l, I b → g b a = f b a) (hI : ∀ b a b', a ∈ l → I b → f b a = .ok b' → I b') {b : β}
    (hb : I b) : foldB g b l = foldB f b l := by
  induction l generalizing b with
  | nil => rfl
  | cons a l ih =>
    unfold foldB
    rw [h b a List.mem_cons_self hb]
    cases hf : f b a with
    | error e => rfl
    | ok b' =>
      exact ih (fun b a ha => h b a (List.mem_cons_of_mem _ ha))
        (fun b a b' ha => hI b a b' (List.mem_cons_of_mem _ ha)) (hI b a b' List.mem_cons_self hb hf)

theorem liftE_ok {α : Type} {x : Except Err α} {a : α} (h : liftE x = .ok a) : x = .ok a := by
  cases x with
  | ok b => exact congrArg Except.ok (Except.ok.inj h)
  | error e => cases h

/-- An attempt on an order for a symbol in `P` keeps everything about symbols in `P`. -/
theorem LoopOn.attempt {cfg : Config} {env : BarEnv} {s s' : Loop} {p : PendingOrder} (h : LoopOn P s)
    (hp : P p.symbol ∧ OrderFit p) (hs : attemptStep cfg env s p = .ok s') : LoopOn P s' := by
  have hshr := (attemptStep_shrinks hs).2
  have hst : ∀ st ∈ p.stops, P st.symbol := fun st hst => by rw [(hp.2 st hst).2]; exact hp.1
  obtain ⟨o, h1, _⟩ := attemptStep_facts hs
  rcases attemptOrder_cases h1 with ⟨_, hpf⟩ | ⟨n, price, fill, _, _, ⟨hside, hb⟩ | ⟨hside, hb⟩⟩
  · exact h.shrink hpf hshr
  · refine h.call (cfg := cfg) (op := .buy (p.req env.date n price fill)) (by simp only [PyBroker.step, hb]; rfl) ?_ hp.1
      ⟨fun _ _ => trivial, hst⟩ hshr
    intro st hst
    have := hp.2 st hst
    rw [hside] at this
    exact this
  · refine h.call (cfg := cfg) (op := .sell (p.req env.date n price fill)) (by simp only [PyBroker.step, hb]; rfl) ?_ hp.1
      ⟨fun _ _ => trivial, hst⟩ hshr
    intro st hst
    have := hp.2 st hst
    rw [hside] at this
    exact this

theorem LoopOn.placeBuy {cfg : Config} {env : BarEnv} {s s' : Loop} {r : ExecResult} (h : LoopOn P s)
    (hs : PyBroker.placeBuy cfg env s r = .ok s') : LoopOn P s' := by
  unfold PyBroker.placeBuy at hs
  split at hs
  · cases hs; exact h
  · split at hs
    · cases hs; exact h
    · split at hs
      · cases hs; exact h
      · rename_i p hp
        exact h.attempt (h.orders p (get_mem hp)) hs

theorem LoopOn.placeSell {cfg : Config} {env : BarEnv} {s s' : Loop} {r : ExecResult} (h : LoopOn P s)
    (hs : PyBroker.placeSell cfg env s r = .ok s') : LoopOn P s' := by
  unfold PyBroker.placeSell at hs
  split at hs
  · cases hs; exact h
  · split at hs
    · cases hs; exact h
    · split at hs
      · cases hs; exact h
      · rename_i p hp
        exact h.attempt (h.orders p (get_mem hp)) hs

theorem LoopOn.processOne {cfg : Config} {env : BarEnv} {s s' : Loop} {p : PendingOrder}
    (h : LoopOn P s) (hp : P p.symbol ∧ OrderFit p) (hs : PyBroker.processOne cfg env s p = .ok s') :
    LoopOn P s' := by
  unfold PyBroker.processOne at hs
  simp only at hs
  split at hs
  · cases hs; exact h
  · split at hs
    · cases hs; exact h
    · split at hs
      · cases hs; exact h
      · split at hs
        · exact h.attempt hp hs
        · split at hs
          · cases hs; exact h
          · split at hs
            · cases hs
              exact h.shrink rfl ((advance_shrinks _ _).trans (remove_shrinks _ _)).2
            · exact (h.shrink (t := { s with pend := s.pend.advanceRetry p.id }) rfl
                (advance_shrinks _ _).2).attempt hp hs

section
variable {e e' : BarEnv} (h : AgreeEnv P e e')
include h

theorem attemptStep_agree (cfg : Config) (s : Loop) {p : PendingOrder} (hp : P p.symbol) :
    attemptStep cfg e' s p = attemptStep cfg e s p := by
  simp only [attemptStep, attemptOrder, h.fetch _ hp, h.slip, h.date]

theorem placeBuy_agree (cfg : Config) {s : Loop} (hs : LoopOn P s) (r : ExecResult) :
    placeBuy cfg e' s r = placeBuy cfg e s r := by
  unfold placeBuy
  split
  · rfl
  · split
    · rfl
    · split
      · rfl
      · rename_i p hp
        exact attemptStep_agree h cfg s (hs.orders p (get_mem hp)).1

theorem placeSell_agree (cfg : Config) {s : Loop} (hs : LoopOn P s) (r : ExecResult) :
    placeSell cfg e' s r = placeSell cfg e s r := by
  unfold placeSell
  split
  · rfl
  · split
    · rfl
    · split
      · rfl
      · rename_i p hp
        exact attemptStep_agree h cfg s (hs.orders p (get_mem hp)).1

theorem processOne_agree (cfg : Config) (s : Loop) {p : PendingOrder} (hp : P p.symbol) :
    processOne cfg e' s p = processOne cfg e s p := by
  simp only [processOne, h.date, h.hasBarOn _ hp, attemptStep_agree h cfg _ hp]

/-- The orders of a bar read data of symbols in `P` only. -/
theorem barOrders_agree {cfg : Config} {s : Loop} (hs : LoopOn P s)
    (hcan : ∀ sym, e.stop.canPrice sym = true → P sym) :
    barOrders cfg e' s = barOrders cfg e s ∧ ∀ s', barOrders cfg e s = .ok s' → LoopOn P s' := by
  have hcovers : ∀ s, LoopOn P s → placeCovers cfg e' s = placeCovers cfg e s ∧
      ∀ s', placeCovers cfg e s = .ok s' → LoopOn P s' := by
    intro s hs
    unfold placeCovers
    rw [h.date, foldB_agree (I := LoopOn P) (fun b r _ hb => placeBuy_agree h cfg hb r)
      (fun b r b' _ hb hf => hb.placeBuy hf) hs]
    refine ⟨rfl, fun s' h' => ?_⟩
    obtain ⟨t, ht, rfl⟩ := map_ok h'
    exact (foldB_inv (I := LoopOn P) (fun b r b' _ hb hf => hb.placeBuy hf) hs ht).shrink rfl
      (List.Sublist.refl _)
  have hsells : ∀ s, LoopOn P s → placeSells cfg e' s = placeSells cfg e s ∧
      ∀ s', placeSells cfg e s = .ok s' → LoopOn P s' := by
    intro s hs
    unfold placeSells
    rw [h.date, foldB_agree (I := LoopOn P) (fun b r _ hb => placeSell_agree h cfg hb r)
      (fun b r b' _ hb hf => hb.placeSell hf) hs]
    refine ⟨rfl, fun s' h' => ?_⟩
    obtain ⟨t, ht, rfl⟩ := map_ok h'
    exact (foldB_inv (I := LoopOn P) (fun b r b' _ hb hf => hb.placeSell hf) hs ht).shrink rfl
      (List.Sublist.refl _)
  have hbuys : ∀ s, LoopOn P s → placeBuys cfg e' s = placeBuys cfg e s ∧
      ∀ s', placeBuys cfg e s = .ok s' → LoopOn P s' := by
    intro s hs
    unfold placeBuys
    rw [h.date, foldB_agree (I := LoopOn P) (fun b r _ hb => placeBuy_agree h cfg hb r)
      (fun b r b' _ hb hf => hb.placeBuy hf) hs]
    refine ⟨rfl, fun s' h' => ?_⟩
    obtain ⟨t, ht, rfl⟩ := map_ok h'
    exact (foldB_inv (I := LoopOn P) (fun b r b' _ hb hf => hb.placeBuy hf) hs ht).shrink rfl
      (List.Sublist.refl _)
  have hpers : ∀ s, LoopOn P s → processPersistent cfg e' s = processPersistent cfg e s ∧
      ∀ s', processPersistent cfg e s = .ok s' → LoopOn P s' := by
    intro s hs
    have hm : ∀ p ∈ sortPending s.pend.orders, P p.symbol ∧ OrderFit p := fun p hp =>
      hs.orders p ((List.perm_insertionSort _ _).mem_iff.1 hp)
    unfold processPersistent
    rw [foldB_agree (I := LoopOn P) (fun b p hp hb => processOne_agree h cfg b (hm p hp).1)
      (fun b p b' hp hb hf => hb.processOne (hm p hp) hf) hs]
    exact ⟨rfl, fun s' h' => foldB_inv (I := LoopOn P)
      (fun b p b' hp hb hf => hb.processOne (hm p hp) hf) hs h'⟩
  unfold barOrders
  rw [h.date, checkStops_agree h.stop hs.pf hcan]
  cases hc : liftE (checkStops cfg s.pf e.date e.stop) with
  | error x => exact ⟨rfl, fun s' h' => by cases h'⟩
  | ok pf =>
    have h0 : LoopOn P { s with pf := pf } :=
      hs.call (op := .checkStops e.date e.stop) (liftE_ok hc) trivial hcan
        ⟨fun _ _ _ _ _ _ => trivial, trivial⟩ (List.Sublist.refl _)
    simp only [bind, Except.bind]
    rw [(hcovers _ h0).1]
    cases h1 : placeCovers cfg e { s with pf := pf } with
    | error x => exact ⟨rfl, fun s' h' => by cases h'⟩
    | ok s1 =>
      have i1 := (hcovers _ h0).2 s1 h1
      simp only
      rw [(hsells _ i1).1]
      cases h2 : placeSells cfg e s1 with
      | error x => exact ⟨rfl, fun s' h' => by cases h'⟩
      | ok s2 =>
        have i2 := (hsells _ i1).2 s2 h2
        simp only
        rw [(hbuys _ i2).1]
        cases h3 : placeBuys cfg e s2 with
        | error x => exact ⟨rfl, fun s' h' => by cases h'⟩
        | ok s3 => exact hpers _ ((hbuys _ i2).2 s3 h3)

end

/-! ## The rest of a bar -/

theorem captureBar_agree {q q' : Sym → BarQuote} (h : ∀ s, P s → q' s = q s) (cfg : Config) {s : Portfolio}
    (hs : PfOn P s) (d : Date) : captureBar cfg s d q' = captureBar cfg s d q := by
  have hsym : (s.applyInterest cfg).symbols = s.symbols := by
    obtain ⟨c, a, hf⟩ := applyInterest_frame cfg s
    rw [hf]
  have hfold : ∀ (l : List Sym) (acc : CaptureAcc), (∀ x ∈ l, P x) →
      l.foldl (captureSym q') acc = l.foldl (captureSym q) acc := by
    intro l
    induction l with
    | nil => intro acc _; rfl
    | cons x l ih =>
      intro acc hl
      rw [List.foldl_cons, List.foldl_cons, ih _ (fun y hy => hl y (List.mem_cons_of_mem _ hy))]
      simp only [captureSym, h x (hl x List.mem_cons_self)]
  have : captureAcc cfg s q' = captureAcc cfg s q := by
    unfold captureAcc
    simp only
    refine hfold _ _ ?_
    intro x hx
    have := (List.perm_insertionSort _ _).mem_iff.1 hx
    rw [hsym] at this
    exact hs.syms this
  unfold captureBar
  rw [this]

theorem incrBars_agree {f f' : Sym → Bool} (h : ∀ s, P s → f' s = f s) {s : Portfolio} (hs : PfOn P s) :
    incrBars s f' = incrBars s f := by
  have hp : ∀ p : Position, P p.symbol → Position.incrBars f' p = Position.incrBars f p := by
    intro p hp
    simp only [Position.incrBars, h _ hp]
  unfold incrBars
  have h1 : s.longs.map (Position.incrBars f') = s.longs.map (Position.incrBars f) :=
    List.map_congr_left (fun p hm => hp p (hs.pos (pt := .long) hm))
  have h2 : s.shorts.map (Position.incrBars f') = s.shorts.map (Position.incrBars f) :=
    List.map_congr_left (fun p hm => hp p (hs.pos (pt := .short) hm))
  rw [h1, h2]

theorem LoopOn.user {s : Loop} (h : LoopOn P s) (u : UserOp) : LoopOn P (userStep s u) := by
  cases u with
  | cancelPending id => exact h.shrink rfl (remove_shrinks s.pend id).2
  | cancelAllPending sym =>
    refine h.shrink rfl ?_
    change (s.pend.removeAll sym).orders.Sublist s.pend.orders
    unfold PendingScope.removeAll
    split
    · exact (removeIds_shrinks _ _).2
    · split
      · exact List.Sublist.refl _
      · exact (removeIds_shrinks _ _).2
  | cancelStop id =>
    exact h.call (cfg := { cash := 0 }) (op := .removeStop id) rfl trivial trivial trivial (List.Sublist.refl _)
  | cancelStopsSym sym t =>
    exact h.call (cfg := { cash := 0 }) (op := .removeStopsSym sym t) rfl trivial trivial trivial
      (List.Sublist.refl _)
  | cancelStopsEntry id t =>
    exact h.call (cfg := { cash := 0 }) (op := .removeStopsEntry id t) rfl trivial trivial trivial
      (List.Sublist.refl _)

theorem LoopOn.users (us : List UserOp) : ∀ {s : Loop}, LoopOn P s → LoopOn P (us.foldl userStep s) := by
  induction us with
  | nil => intro s h; exact h
  | cons u us ih => intro s h; exact ih (h.user u)

theorem LoopOn.schedule {w : Window} {idx : Sym → Nat} {d : Date} {delay : Nat} {s s' : Loop}
    {sched sched' : Sched} {r : ExecResult} (h : LoopOn P s) (hr : P r.symbol) (hf : ResultFit r)
    (hs : scheduleOrder w idx d delay s.pend sched r = .ok (s'.pend, sched')) (hpf : s'.pf = s.pf) :
    LoopOn P s' := by
  rcases scheduleOrder_cases hs with ⟨h1, _, _⟩ | ⟨dd, inW, q, _, h2, h3, _⟩
  · exact h.shrink hpf (by rw [h1])
  · refine ⟨by rw [hpf]; exact h.pf, ?_⟩
    have hord : s'.pend.orders = s.pend.orders ++ [q.order (s.pend.nextId + 1)] := by
      rw [h3]; rfl
    rw [hord]
    intro o ho
    rcases List.mem_append.1 ho with ho | ho
    · exact h.orders o ho
    · rw [List.mem_singleton] at ho
      subst ho
      refine ⟨?_, (request_stops hf h2).2 _⟩
      rw [(request_asked h2 _).symbol]
      exact hr

section
variable {cfg : Config} {s : Loop}

theorem LoopOn.exit {date : Date} {s s' : Loop} {sym : Sym} {b q : ℚ} {slip : Option SlipFn} (h : LoopOn P s)
    (hs : (liftE (exitPosition cfg s.pf date sym b q slip)).map (fun pf => { s with pf := pf }) = .ok s') :
    LoopOn P s' := by
  obtain ⟨pf, hpf, rfl⟩ := map_ok hs
  exact h.call (op := .exitPosition date sym b q slip) (liftE_ok hpf) trivial (fun ⟨_, hp⟩ => hp)
    ⟨fun _ _ => trivial, by intro st hst; cases hst⟩ (List.Sublist.refl _)

/-- Closing a symbol that is not held does nothing. -/
theorem exit_idle {s : Portfolio} (h : PfOn P s) {sym : Sym} (hs : ¬ P sym) (date : Date) (b q : ℚ)
    (slip : Option SlipFn) : exitPosition cfg s date sym b q slip = .ok s := by
  unfold exitPosition
  simp only [show lookupPos s.longs sym = none from h.lookup hs .long,
    show lookupPos s.shorts sym = none from h.lookup hs .short]

end

theorem LoopOn.exitStep {cfg : Config} {e : BarEnv} {s s' : Loop} {x : ForcedExit} (h : LoopOn P s)
    (hs : PyBroker.exitStep cfg e s x = .ok s') : LoopOn P s' := by
  unfold PyBroker.exitStep at hs
  exact h.exit hs

theorem exitStep_agree {cfg : Config} {e e' : BarEnv} (h : AgreeEnv P e e') (s : Loop) (x : ForcedExit) :
    exitStep cfg e' s x = exitStep cfg e s x := by
  unfold exitStep
  rw [h.date, h.stop.slip]

theorem exitStep_idle {cfg : Config} {e : BarEnv} {s : Loop} (hs : LoopOn P s) {x : ForcedExit}
    (hx : ¬ P x.symbol) : exitStep cfg e s x = .ok s := by
  unfold exitStep
  rw [exit_idle hs.pf hx]
  rfl

theorem foldB_skip {α β : Type} {f : β → α → Except BErr β} {q : α → Bool} {I : β → Prop} :
    ∀ (l : List α), (∀ b a b', I b → f b a = .ok b' → I b') →
      (∀ b a, I b → q a = false → f b a = .ok b) → ∀ b, I b → foldB f b (l.filter q) = foldB f b l
  | [], _, _, _, _ => rfl
  | a :: l, hI, hf, b, hb => by
    by_cases ha : q a = true
    · rw [List.filter_cons_of_pos ha]
      unfold foldB
      cases he : f b a with
      | error e => rfl
      | ok b' => exact foldB_skip l hI hf b' (hI b a b' hb he)
    · rw [List.filter_cons_of_neg ha, foldB_skip l hI hf b hb]
      simp only [foldB, hf b a hb (by simpa using ha)]

theorem exits_agree {cfg : Config} {e e' : BarEnv} (h : AgreeEnv P e e') {l l' : List ForcedExit}
    (p : Sym → Bool) (hp : ∀ s, p s = true ↔ P s) (hl : l = l'.filter (fun x => p x.symbol)) {s : Loop}
    (hs : LoopOn P s) : foldB (exitStep cfg e') s l' = foldB (exitStep cfg e) s l := by
  rw [hl, foldB_skip (I := LoopOn P) l' (fun b a b' hb hf => hb.exitStep hf)
    (fun b a hb ha => exitStep_idle hb (fun hP => by rw [(hp _).2 hP] at ha; cases ha)) s hs,
    show exitStep cfg e' = exitStep cfg e from funext fun b => funext fun a => exitStep_agree h b a]

/-- What happens on a bar after its orders: the results are for symbols in `P`, and the forced exits
differ in other symbols only. -/
theorem barSignals_agree {cfg : Config} {w w' : Window} (hw : AgreeWindow P w w') {b b' : BarIn}
    (h : AgreeEnv P b.env b'.env) (hu : b'.user = b.user) (hr : b'.results = b.results)
    (hres : ∀ r ∈ b.results, P r.symbol ∧ ResultFit r) (p : Sym → Bool) (hp : ∀ s, p s = true ↔ P s)
    (hx : b.exits = b'.exits.filter (fun x => p x.symbol)) {s : Loop} (hs : LoopOn P s) :
    barSignals cfg w' b' s = barSignals cfg w b s ∧ ∀ s', barSignals cfg w b s = .ok s' → LoopOn P s' := by
  have h1 : LoopOn P { s with pf := captureBar cfg s.pf b.env.date b.env.quote } :=
    hs.call (cfg := cfg) (op := .captureBar b.env.date b.env.quote) rfl trivial trivial trivial
      (List.Sublist.refl _)
  have h2 := h1.users b.user
  have hso : ∀ (pend : PendingScope) (sched : Sched) (delay : Nat) (r : ExecResult), P r.symbol →
      scheduleOrder w' b'.env.endIndex b'.env.date delay pend sched r =
        scheduleOrder w b.env.endIndex b.env.date delay pend sched r := by
    intro pend sched delay r hr
    simp only [scheduleOrder, hw.dates _ hr, hw.master _ hr, h.endIndex _ hr, h.date]
  have hfold : ∀ (f g : Loop → ExecResult → Except BErr Loop) (l : List ExecResult) (s : Loop),
      (∀ r ∈ l, P r.symbol ∧ ResultFit r) → (∀ s r, P r.symbol → g s r = f s r) →
      (∀ s r s', P r.symbol → ResultFit r → LoopOn P s → f s r = .ok s' → LoopOn P s') → LoopOn P s →
      foldB g s l = foldB f s l ∧ ∀ s', foldB f s l = .ok s' → LoopOn P s' := by
    intro f g l s hl hg hf hs
    exact ⟨foldB_agree (I := LoopOn P) (fun b r hr _ => hg b r (hl r hr).1)
      (fun b r b' hr hb he => hf b r b' (hl r hr).1 (hl r hr).2 hb he) hs,
      fun s' h' => foldB_inv (I := LoopOn P)
        (fun b r b' hr hb he => hf b r b' (hl r hr).1 (hl r hr).2 hb he) hs h'⟩
  have k1 := fun (s : Loop) (hs : LoopOn P s) => hfold (schedCover w b.env) (schedCover w' b'.env)
    (coverResults b.results) s (fun r hr => hres r (List.mem_of_mem_filter hr))
    (fun s r hr => by unfold schedCover; rw [hso _ _ _ r hr, hw.buyDelay])
    (fun s r s' hr hf hs he => by
      obtain ⟨x, hx, rfl⟩ := map_ok he
      exact hs.schedule hr hf hx rfl) hs
  have k2 := fun (s : Loop) (hs : LoopOn P s) => hfold (schedBuy w b.env) (schedBuy w' b'.env)
    (buyResults b.results) s (fun r hr => hres r (List.mem_of_mem_filter hr))
    (fun s r hr => by unfold schedBuy; rw [hso _ _ _ r hr, hw.buyDelay])
    (fun s r s' hr hf hs he => by
      obtain ⟨x, hx, rfl⟩ := map_ok he
      exact hs.schedule hr hf hx rfl) hs
  have k3 := fun (s : Loop) (hs : LoopOn P s) => hfold (schedSell w b.env) (schedSell w' b'.env)
    (sellResults b.results) s (fun r hr => hres r (List.mem_of_mem_filter hr))
    (fun s r hr => by unfold schedSell; rw [hso _ _ _ r hr, hw.sellDelay])
    (fun s r s' hr hf hs he => by
      obtain ⟨x, hx, rfl⟩ := map_ok he
      exact hs.schedule hr hf hx rfl) hs
  unfold barSignals
  simp only [bind, Except.bind, hu, hr]
  rw [h.date, captureBar_agree h.quote cfg hs.pf, (k1 _ h2).1]
  cases e1 : foldB (schedCover w b.env) (b.user.foldl userStep
      { s with pf := captureBar cfg s.pf b.env.date b.env.quote }) (coverResults b.results) with
  | error x => exact ⟨rfl, fun s' h' => by cases h'⟩
  | ok s3 =>
    have i3 := (k1 _ h2).2 s3 e1
    simp only
    rw [(k2 _ i3).1]
    cases e2 : foldB (schedBuy w b.env) s3 (buyResults b.results) with
    | error x => exact ⟨rfl, fun s' h' => by cases h'⟩
    | ok s4 =>
      have i4 := (k2 _ i3).2 s4 e2
      simp only
      rw [(k3 _ i4).1]
      cases e3 : foldB (schedSell w b.env) s4 (sellResults b.results) with
      | error x => exact ⟨rfl, fun s' h' => by cases h'⟩
      | ok s5 =>
        have i5 := (k3 _ i4).2 s5 e3
        simp only
        rw [exits_agree h p hp hx i5]
        cases e4 : foldB (exitStep cfg b.env) s5 b.exits with
        | error x => exact ⟨rfl, fun s' h' => by cases h'⟩
        | ok s6 =>
          have i6 : LoopOn P s6 := foldB_inv (I := LoopOn P) (fun t x t' _ ht he => ht.exitStep he) i5 e4
          simp only
          rw [incrBars_agree h.hasBarOn i6.pf]
          refine ⟨rfl, fun s' h' => ?_⟩
          cases h'
          exact i6.call (cfg := cfg) (op := .incrBars b.env.hasBarOn) rfl trivial trivial trivial
            (List.Sublist.refl _)

end PyBroker
