import Verif.Props.Stops
import Verif.Portfolio.StopOrder

/-!
# Cancelling stops (C169)
-/

namespace PyBroker

open Spec

namespace Spec

/-- The positions with those of their stops that are kept; `keep` is given the symbol, the id of the
entry and the stop. -/
def keepStops (keep : Sym → Nat → Stop → Bool) (ps : List Position) : List Position :=
  ps.map (fun p => { p with
    entries := p.entries.map (fun e => { e with stops := e.stops.filter (keep p.symbol e.id) }) })

/-- `s'` is `s` without the stops that are not kept: neither attached nor armed any more.  The other
stops keep their levels, and nothing else changes. -/
structure StopsKept (keep : Sym → Nat → Stop → Bool) (s s' : Portfolio) : Prop where
  books : s' = { s with longs := keepStops keep s.longs, shorts := keepStops keep s.shorts,
                        stopData := s'.stopData, active := s'.active }
  armed : ∀ d, d ∈ s'.stopData ↔
    d ∈ s.stopData ∧ keep d.stop.symbol d.entryId d.stop = true

/-- No order attaches two stops of the same type. -/
def OneOfEachType (ops : List Op) : Prop := ∀ op ∈ ops, ((stopsOf op).map Stop.stopType).Nodup

end Spec

/-! ## A stop id is on one entry only -/

/-- Only entries whose id satisfies `K` can carry the stop id `x`. -/
def OnlyOn (x : Nat) (K : Nat → Prop) (s : Portfolio) : Prop :=
  AllEntries (fun _ _ e => x ∈ e.stops.map Stop.id → K e.id) s

theorem onlyOn_rules (x : Nat) (K : Nat → Prop) {Q : Guard}
    (hQ : ∀ l, Q.stops l → x ∉ l.map Stop.id) :
    EntryRules Q (fun _ _ e => x ∈ e.stops.map Stop.id → K e.id) where
  take := fun _ _ _ _ _ h => h
  new := by
    rintro s pt date sym n fill es h0 hf hfit ⟨stops, hS, rfl⟩ hx
    exact absurd ((List.Perm.map _ (List.perm_insertionSort _ _)).subset hx) (hQ stops hS)
  excursion := fun _ _ _ _ _ h => h
  incr := fun _ _ _ _ _ h => h
  stops := fun _ _ _ _ hl h hx => h ((hl.map _).subset hx)

/-- The guard: no order attaches the stop id `x`. -/
def without (x : Nat) : Guard := ⟨fun _ => True, fun l => x ∉ l.map Stop.id, True, True⟩

theorem onlyOn_step {cfg : Config} {x : Nat} {K : Nat → Prop} {s s' : Portfolio} {op : Op}
    (hg : Good s) (hf : StopsFit s) (hfit : op.Fit) (hx : x ∉ (stopsOf op).map Stop.id)
    (h : step cfg s op = .ok s') (hs : OnlyOn x K s) : OnlyOn x K s' := by
  have hr : EntryRules (without x) _ := onlyOn_rules x K (fun l hl => hl)
  have hQ : op.Fills (without x) := by
    cases op <;> simp_all [Op.Fills, StopEnv.Fills, without, stopsOf]
  rcases step_steps hg hf hfit hQ h with h1 | ⟨d, quote, _, rfl⟩
  · exact h1.2.inv (P := OnlyOn x K) (fun _ _ hp hs => AllEntries.prim hr.toPrimRules hp hs) hs
  · exact AllEntries.captureBar hr d quote hg.wf.typed hs

theorem onlyOn_order {cfg : Config} {x : Nat} {sd : Side} {s s' : Portfolio} {r : OrderReq}
    {o : Option Order} (hg : Good s) (h : placeOrder cfg sd s r = .ok (o, s'))
    (hs : OnlyOn x (fun _ => False) s) : ∃ k, OnlyOn x (fun i => i = k) s' := by
  have weak : ∀ {t : Portfolio}, OnlyOn x (fun _ => False) t → ∀ k, OnlyOn x (fun i => i = k) t :=
    fun ht k pt p hp e he hx => absurd (ht pt p hp e he hx) id
  have hclose : OnlyOn x (fun _ => False)
      (closeShares cfg sd.closes s r.date r.symbol r.shares r.fill).pf := by
    have hst := closeShares_steps (cfg := cfg)
      (Q := ⟨fun _ => True, fun _ => False, False, True⟩) (pt := sd.closes) (date := r.date)
      (sym := r.symbol) (shares := r.shares) (fill := r.fill) trivial hg.wf
    exact hst.inv (P := OnlyOn x (fun _ => False)) (fun _ _ hp hs => AllEntries.prim
      (onlyOn_rules x (fun _ => False) (fun l hl => False.elim hl)).toPrimRules hp hs) hs
  obtain ⟨h1, _, _, _⟩ := placeOrder_cases h
  cases placeOrder_effect hg h with
  | nothing a b _ => exact ⟨0, weak (AllEntries.frame hs (fun pt => by cases pt <;> rfl)) 0⟩
  | closed c a b hc _ _ _ =>
    subst hc
    refine ⟨0, weak (AllEntries.frame hclose (fun pt => ?_)) 0⟩
    cases pt <;> rfl
  | opened c n es sda ac hc hn hle _ _ _ _ hstops =>
    have h0 : 0 < r.shares := by
      rcases lt_or_eq_of_le h1 with h0 | h0
      · exact h0
      · exfalso
        have : c.rem = 0 := by
          rw [hc, ← h0]
          unfold closeShares
          split
          · rfl
          · rename_i p hp
            cases p.entries <;> simp [exitLoop]
        linarith
    have cf := closeShares_facts (cfg := cfg) (pt := sd.closes) (date := r.date)
      (sym := r.symbol) (fill := r.fill) hg.wf hg.ne h0
    subst hc
    generalize closeShares cfg sd.closes s r.date r.symbol r.shares r.fill = c at *
    refine ⟨c.pf.entryId + 1, ?_⟩
    have hold := weak hclose (c.pf.entryId + 1)
    suffices hh : OnlyOn x (fun i => i = c.pf.entryId + 1)
        (openedPf cfg c.pf sd.opens r.date r.symbol n r.fill es sda ac) from
      AllEntries.frame hh (fun pt => by simp)
    intro pt' q hq
    by_cases hpt : sd.opens = pt'
    · subst hpt
      rw [openedPf_book] at hq
      unfold openedBook at hq
      split at hq
      · rcases List.mem_append.1 hq with hq | hq
        · exact hold _ q hq
        · rw [List.mem_singleton] at hq
          subst hq
          intro e he _
          simp only [openedPos, List.mem_singleton] at he
          rw [he]; rfl
      · rename_i p hp
        obtain ⟨hpm, hps⟩ := lookupPos_some hp
        rcases mem_replacePos (cf.wf.nodup _) hq with rfl | ⟨hq, _⟩
        · intro e he hx
          simp only [openedPos, List.mem_append, List.mem_singleton] at he
          rcases he with he | rfl
          · exact hold _ p hpm e he hx
          · rfl
        · exact hold _ q hq
    · rw [openedPf_book_ne _ _ _ _ _ _ _ _ _ _ hpt] at hq
      exact hold _ q hq

theorem onlyOn_runFrom {cfg : Config} {x : Nat} (ops : List Op) {s s' : Portfolio}
    (hfit : ∀ op ∈ ops, op.Fit) (hn : ((ops.flatMap stopsOf).map Stop.id).Nodup)
    (hg : Good s) (hf : StopsFit s) (h : runFrom cfg s ops = .ok s')
    (hs : OnlyOn x (fun _ => False) s ∨
      (x ∉ (ops.flatMap stopsOf).map Stop.id ∧ ∃ k, OnlyOn x (fun i => i = k) s)) :
    ∃ k, OnlyOn x (fun i => i = k) s' := by
  induction ops generalizing s with
  | nil =>
    cases h
    rcases hs with hs | hs
    · exact ⟨0, fun pt p hp e he hx => absurd (hs pt p hp e he hx) id⟩
    · exact hs.2
  | cons op ops ih =>
    unfold runFrom foldE at h
    split at h
    · cases h
    · rename_i s1 h1
      obtain ⟨hg1, hf1⟩ := step_good hg hf (hfit op List.mem_cons_self) h1
      rw [List.flatMap_cons, List.map_append] at hn
      have hn2 := List.nodup_append.1 hn
      refine ih (fun o ho => hfit o (List.mem_cons_of_mem _ ho)) hn2.2.1 hg1 hf1 h ?_
      by_cases hx : x ∈ (stopsOf op).map Stop.id
      · have hx2 : x ∉ (ops.flatMap stopsOf).map Stop.id := fun h2 => hn2.2.2 x hx x h2 rfl
        have hs0 : OnlyOn x (fun _ => False) s := by
          rcases hs with hs | ⟨hs, _⟩
          · exact hs
          · rw [List.flatMap_cons, List.map_append, List.mem_append] at hs
            exact absurd (Or.inl hx) hs
        refine Or.inr ⟨hx2, ?_⟩
        cases op with
        | buy r =>
          simp only [step] at h1
          cases hb : buy cfg s r with
          | error e => rw [hb] at h1; cases h1
          | ok y => rw [hb] at h1; cases h1; exact onlyOn_order (sd := .buy) hg hb hs0
        | sell r =>
          simp only [step] at h1
          cases hb : sell cfg s r with
          | error e => rw [hb] at h1; cases h1
          | ok y => rw [hb] at h1; cases h1; exact onlyOn_order (sd := .sell) hg hb hs0
        | _ => simp [stopsOf] at hx
      · have hk : ∀ {K : Nat → Prop}, OnlyOn x K s → OnlyOn x K s1 :=
          fun hK => onlyOn_step hg hf (hfit op List.mem_cons_self) hx h1 hK
        rcases hs with hs | ⟨h2, k, hs⟩
        · exact Or.inl (hk hs)
        · rw [List.flatMap_cons, List.map_append, List.mem_append] at h2
          exact Or.inr ⟨fun h3 => h2 (Or.inr h3), k, hk hs⟩

/-! ## Reached portfolios -/

/-- What a history with fresh ids guarantees. -/
structure Reached (cfg : Config) (s : Portfolio) : Prop where
  ex : ∃ ops, (∀ op ∈ ops, op.Fit) ∧ FreshIds ops ∧ run cfg ops = .ok s

theorem Reached.after {cfg : Config} {s s' : Portfolio} (h : Reached cfg s) {op : Op}
    (hfit : op.Fit) (hno : stopsOf op = []) (hs : step cfg s op = .ok s') : Reached cfg s' := by
  obtain ⟨ops, h1, h2, h3⟩ := h.ex
  refine ⟨⟨ops ++ [op], ?_, ?_, ?_⟩⟩
  · intro o ho
    rcases List.mem_append.1 ho with ho | ho
    · exact h1 o ho
    · rw [List.mem_singleton] at ho; rw [ho]; exact hfit
  · unfold FreshIds at *
    rw [List.flatMap_append]
    simpa [hno] using h2
  · unfold run runFrom at *
    rw [foldE_append, h3]
    show foldE (step cfg) s [op] = _
    unfold foldE
    rw [hs]
    rfl

theorem Reached.good {cfg : Config} {s : Portfolio} (h : Reached cfg s) : Good s ∧ StopsFit s := by
  obtain ⟨ops, h1, _, h3⟩ := h.ex
  exact run_good h1 h3

theorem Reached.reg {cfg : Config} {s : Portfolio} (h : Reached cfg s) :
    ∃ U : List Stop, (U.map Stop.id).Nodup ∧ RegInv U s := by
  obtain ⟨ops, h1, h2, h3⟩ := h.ex
  exact ⟨_, h2, run_reg h1 h2 h3⟩

theorem Reached.only {cfg : Config} {s : Portfolio} (h : Reached cfg s) (x : Nat) :
    ∃ k, OnlyOn x (fun i => i = k) s := by
  obtain ⟨ops, h1, h2, h3⟩ := h.ex
  refine onlyOn_runFrom ops h1 h2 (Good.init cfg) (StopsFit.init cfg) h3 (Or.inl ?_)
  intro pt p hp
  cases pt <;> simp [Portfolio.init, Portfolio.book] at hp

/-- Entries with the same id are the same. -/
theorem WF.sameEntry {s : Portfolio} (h : WF [] s) {pt pt' : PosType} {p q : Position} {e f : Entry}
    (hp : p ∈ s.book pt) (hq : q ∈ s.book pt') (he : e ∈ p.entries) (hf : f ∈ q.entries)
    (hid : e.id = f.id) : p = q ∧ e = f ∧ pt = pt' := by
  have hsym := h.owner pt pt' p hp q hq e he f hf hid
  have hpt : pt = pt' := by
    by_contra hne
    exact h.disj pt pt' hne p hp q hq hsym
  subst hpt
  have hpq : p = q := List.inj_on_of_nodup_map (h.nodup pt) hp hq hsym
  subst hpq
  have hnd : (p.entries.map Entry.id).Nodup := ((h.pos pt p hp).ids).imp (fun h => Nat.ne_of_lt h)
  exact ⟨rfl, List.inj_on_of_nodup_map hnd he hf hid, rfl⟩

/-! ## Keeping stops -/

theorem keepStops_congr {f g : Sym → Nat → Stop → Bool} {ps : List Position}
    (h : ∀ p ∈ ps, ∀ e ∈ p.entries, ∀ st ∈ e.stops, f p.symbol e.id st = g p.symbol e.id st) :
    keepStops f ps = keepStops g ps := by
  unfold keepStops
  apply List.map_congr_left
  intro p hp
  congr 1
  apply List.map_congr_left
  intro e he
  congr 1
  exact List.filter_congr (fun st hst => h p hp e he st hst)

theorem keepStops_all {f : Sym → Nat → Stop → Bool} {ps : List Position}
    (h : ∀ p ∈ ps, ∀ e ∈ p.entries, ∀ st ∈ e.stops, f p.symbol e.id st = true) :
    keepStops f ps = ps := by
  unfold keepStops
  conv_rhs => rw [← List.map_id ps]
  apply List.map_congr_left
  intro p hp
  have : p.entries.map (fun e => { e with stops := e.stops.filter (f p.symbol e.id) }) = p.entries := by
    conv_rhs => rw [← List.map_id p.entries]
    apply List.map_congr_left
    intro e he
    have h2 : e.stops.filter (f p.symbol e.id) = e.stops :=
      List.filter_eq_self.2 (fun st hst => h p hp e he st hst)
    rw [h2]; rfl
  rw [this]; rfl

theorem keepStops_keepStops (f g : Sym → Nat → Stop → Bool) (ps : List Position) :
    keepStops g (keepStops f ps) = keepStops (fun x i st => f x i st && g x i st) ps := by
  unfold keepStops
  rw [List.map_map]
  apply List.map_congr_left
  intro p _
  simp only [Function.comp, List.map_map]
  congr 1
  apply List.map_congr_left
  intro e _
  simp only [Function.comp, List.filter_filter]
  congr 1
  apply List.filter_congr
  intro st _
  exact Bool.and_comm _ _

/-- The books after a change that keeps some of the stops. -/
def Keeps (keep : Sym → Nat → Stop → Bool) (s s' : Portfolio) : Prop :=
  s' = { s with longs := keepStops keep s.longs, shorts := keepStops keep s.shorts,
                stopData := s'.stopData, active := s'.active }

theorem Keeps.trans {f g : Sym → Nat → Stop → Bool} {s t u : Portfolio} (h : Keeps f s t)
    (h' : Keeps g t u) : Keeps (fun x i st => f x i st && g x i st) s u := by
  unfold Keeps at *
  rw [h']
  simp only [← keepStops_keepStops]
  rw [h]

theorem Keeps.book {f : Sym → Nat → Stop → Bool} {s t : Portfolio} (h : Keeps f s t) (pt : PosType) :
    t.book pt = keepStops f (s.book pt) := by
  rw [h]; cases pt <;> rfl

theorem Keeps.congr {f g : Sym → Nat → Stop → Bool} {s t : Portfolio} (h : Keeps f s t)
    (hfg : ∀ pt, ∀ p ∈ s.book pt, ∀ e ∈ p.entries, ∀ st ∈ e.stops,
      f p.symbol e.id st = g p.symbol e.id st) : Keeps g s t := by
  have e1 : keepStops f s.longs = keepStops g s.longs := keepStops_congr (hfg .long)
  have e2 : keepStops f s.shorts = keepStops g s.shorts := keepStops_congr (hfg .short)
  unfold Keeps at *
  rw [← e1, ← e2]
  exact h

theorem Keeps.refl {f : Sym → Nat → Stop → Bool} {s : Portfolio}
    (h : ∀ pt, ∀ p ∈ s.book pt, ∀ e ∈ p.entries, ∀ st ∈ e.stops, f p.symbol e.id st = true) :
    Keeps f s s := by
  have e1 : keepStops f s.longs = s.longs := keepStops_all (h .long)
  have e2 : keepStops f s.shorts = s.shorts := keepStops_all (h .short)
  unfold Keeps
  rw [e1, e2]

theorem modEntry_eq_map {es : List Entry} (h : (es.map Entry.id).Pairwise (· < ·)) (id : Nat)
    (g : Entry → Entry) : modEntry id g es = es.map (fun e => if e.id = id then g e else e) := by
  induction es with
  | nil => rfl
  | cons a es ih =>
    rw [List.map_cons, List.pairwise_cons] at h
    unfold modEntry
    by_cases ha : a.id = id
    · rw [if_pos ha, List.map_cons, if_pos ha]
      congr 1
      symm
      conv_rhs => rw [← List.map_id es]
      apply List.map_congr_left
      intro e he
      have := h.1 e.id (List.mem_map_of_mem he)
      rw [if_neg (by omega)]; rfl
    · rw [if_neg ha, List.map_cons, if_neg ha, ih h.2]

/-- Changing the stops of one entry, as keeping stops. -/
theorem modEntryBook_keeps {s : Portfolio} (hw : WF [] s) {pt : PosType} {id : Nat}
    {g : List Stop → List Stop} {keep : Sym → Nat → Stop → Bool}
    (h1 : ∀ p ∈ s.book pt, ∀ e ∈ p.entries, e.id = id →
      g e.stops = e.stops.filter (keep p.symbol e.id))
    (h2 : ∀ p ∈ s.book pt, ∀ e ∈ p.entries, e.id ≠ id → ∀ st ∈ e.stops,
      keep p.symbol e.id st = true) :
    modEntryBook id (fun e => { e with stops := g e.stops }) (s.book pt) =
      keepStops keep (s.book pt) := by
  unfold modEntryBook keepStops
  apply List.map_congr_left
  intro p hp
  congr 1
  rw [modEntry_eq_map (hw.pos pt p hp).ids]
  apply List.map_congr_left
  intro e he
  by_cases hid : e.id = id
  · rw [if_pos hid, h1 p hp e he hid]
  · rw [if_neg hid, List.filter_eq_self.2 (fun st hst => h2 p hp e he hid st hst)]

theorem erase_eq_filter {l : List Stop} {a : Stop} (hn : (l.map Stop.id).Nodup)
    (h : ∀ st ∈ l, st.id = a.id → st = a) : l.erase a = l.filter (fun st => decide (st.id ≠ a.id)) := by
  induction l with
  | nil => rfl
  | cons b l ih =>
    rw [List.map_cons, List.nodup_cons] at hn
    by_cases hb : b = a
    · subst hb
      rw [List.erase_cons_head, List.filter_cons_of_neg (by simp)]
      symm
      rw [List.filter_eq_self]
      intro st hst
      simp only [ne_eq, decide_not, Bool.not_eq_eq_eq_not, Bool.not_true, decide_eq_false_iff_not]
      intro e
      exact hn.1 (List.mem_map.2 ⟨st, hst, e⟩)
    · have hid : b.id ≠ a.id := fun e => hb (h b List.mem_cons_self e)
      rw [List.erase_cons_tail (by simpa using hb), List.filter_cons_of_pos (by simpa using hid),
        ih hn.2 (fun st hst => h st (List.mem_cons_of_mem _ hst))]

theorem eraseP_eq_filter {l : List Stop} (id : Nat) (hn : (l.map Stop.id).Nodup) :
    l.eraseP (fun st => st.id = id) = l.filter (fun st => decide (st.id ≠ id)) := by
  induction l with
  | nil => rfl
  | cons b l ih =>
    rw [List.map_cons, List.nodup_cons] at hn
    by_cases hb : b.id = id
    · rw [List.eraseP_cons_of_pos (by simpa using hb), List.filter_cons_of_neg (by simp [hb])]
      symm
      rw [List.filter_eq_self]
      intro st hst
      simp only [ne_eq, decide_not, Bool.not_eq_eq_eq_not, Bool.not_true, decide_eq_false_iff_not]
      intro e
      exact hn.1 (List.mem_map.2 ⟨st, hst, e.trans hb.symm⟩)
    · rw [List.eraseP_cons_of_neg (by simpa using hb), List.filter_cons_of_pos (by simp [hb]), ih hn.2]

/-- The entry carries the stop id. -/
def Carries (id : Nat) (e : Entry) : Prop := ∃ st ∈ e.stops, st.id = id

theorem dropStopEntries_eq (id : Nat) (es : List Entry) (hn : ∀ e ∈ es, (e.stops.map Stop.id).Nodup)
    (hp : es.Pairwise (fun e f => ¬ (Carries id e ∧ Carries id f))) :
    (dropStopEntries id es).1 =
      es.map (fun e => { e with stops := e.stops.filter (fun st => decide (st.id ≠ id)) }) ∧
    ((dropStopEntries id es).2 = true ↔ ∃ e ∈ es, Carries id e) := by
  have none : ∀ e : Entry, ¬ Carries id e →
      ({ e with stops := e.stops.filter (fun st => decide (st.id ≠ id)) } : Entry) = e := by
    intro e he
    rw [List.filter_eq_self.2 (fun st hst => by
      simp only [ne_eq, decide_not, Bool.not_eq_eq_eq_not, Bool.not_true, decide_eq_false_iff_not]
      exact fun h => he ⟨st, hst, h⟩)]
  induction es with
  | nil => simp [dropStopEntries]
  | cons a es ih =>
    rw [List.pairwise_cons] at hp
    unfold dropStopEntries
    by_cases ha : Carries id a
    · have ha' : a.stops.any (fun st => st.id = id) = true := by
        obtain ⟨st, h1, h2⟩ := ha
        exact List.any_eq_true.2 ⟨st, h1, by simpa using h2⟩
      rw [if_pos ha']
      refine ⟨?_, by simpa using Or.inl ha⟩
      show _ :: _ = _
      rw [List.map_cons, eraseP_eq_filter id (hn a List.mem_cons_self)]
      congr 1
      symm
      conv_rhs => rw [← List.map_id es]
      apply List.map_congr_left
      intro e he
      exact none e (fun h => hp.1 e he ⟨ha, h⟩)
    · have ha' : ¬ a.stops.any (fun st => st.id = id) = true := by
        intro h
        obtain ⟨st, h1, h2⟩ := List.any_eq_true.1 h
        exact ha ⟨st, h1, by simpa using h2⟩
      rw [if_neg ha']
      obtain ⟨i1, i2⟩ := ih (fun e he => hn e (List.mem_cons_of_mem _ he)) hp.2
      refine ⟨?_, ?_⟩
      · rw [List.map_cons, none a ha, ← i1]
      · simp only [i2]
        constructor
        · rintro ⟨e, he, hc⟩; exact ⟨e, List.mem_cons_of_mem _ he, hc⟩
        · rintro ⟨e, he, hc⟩
          rcases List.mem_cons.1 he with rfl | he
          · exact absurd hc ha
          · exact ⟨e, he, hc⟩

theorem dropStopBook_eq (id : Nat) (ps : List Position)
    (hn : ∀ p ∈ ps, ∀ e ∈ p.entries, (e.stops.map Stop.id).Nodup)
    (hp : ∀ p ∈ ps, p.entries.Pairwise (fun e f => ¬ (Carries id e ∧ Carries id f)))
    (hq : ps.Pairwise (fun p q => ¬ ((∃ e ∈ p.entries, Carries id e) ∧ ∃ f ∈ q.entries, Carries id f))) :
    (dropStopBook id ps).1 = keepStops (fun _ _ st => decide (st.id ≠ id)) ps ∧
    ((dropStopBook id ps).2 = true ↔ ∃ p ∈ ps, ∃ e ∈ p.entries, Carries id e) := by
  have none : ∀ e : Entry, ¬ Carries id e → ∀ st ∈ e.stops, decide (st.id ≠ id) = true := by
    intro e he st hst
    exact decide_eq_true (fun h => he ⟨st, hst, h⟩)
  induction ps with
  | nil => simp [dropStopBook, keepStops]
  | cons a ps ih =>
    rw [List.pairwise_cons] at hq
    obtain ⟨d1, d2⟩ := dropStopEntries_eq id a.entries (hn a List.mem_cons_self)
      (hp a List.mem_cons_self)
    obtain ⟨i1, i2⟩ := ih (fun p h => hn p (List.mem_cons_of_mem _ h))
      (fun p h => hp p (List.mem_cons_of_mem _ h)) hq.2
    have hcons : keepStops (fun _ _ st => decide (st.id ≠ id)) (a :: ps) =
        { a with entries := (dropStopEntries id a.entries).1 } ::
          keepStops (fun _ _ st => decide (st.id ≠ id)) ps := by
      rw [d1]; rfl
    unfold dropStopBook
    simp only
    by_cases ha : (dropStopEntries id a.entries).2 = true
    · rw [if_pos ha, hcons]
      refine ⟨?_, by simpa using Or.inl (d2.1 ha)⟩
      show _ :: _ = _
      congr 1
      symm
      refine keepStops_all (fun p hpm e he st hst => none e (fun hc => ?_) st hst)
      exact hq.1 p hpm ⟨d2.1 ha, e, he, hc⟩
    · rw [if_neg ha]
      refine ⟨?_, ?_⟩
      · rw [i1]
        have : keepStops (fun _ _ st => decide (st.id ≠ id)) [a] = [a] := by
          refine keepStops_all (fun p hpm e he st hst => none e (fun hc => ?_) st hst)
          rw [List.mem_singleton] at hpm
          subst hpm
          exact ha (d2.2 ⟨e, he, hc⟩)
        show a :: _ = _
        conv_lhs => rw [← List.singleton_append, ← this]
        rfl
      · simp only [i2]
        constructor
        · rintro ⟨e, he, hc⟩; exact ⟨e, List.mem_cons_of_mem _ he, hc⟩
        · rintro ⟨e, he, hc⟩
          rcases List.mem_cons.1 he with rfl | he
          · exact absurd (d2.2 hc) ha
          · exact ⟨e, he, hc⟩

/-! ## One stop -/

theorem removeStop_keeps {cfg : Config} {s : Portfolio} (h : Reached cfg s) (id : Nat) :
    Keeps (fun _ _ st => decide (st.id ≠ id)) s (removeStop s id).2 ∧
    ((removeStop s id).1 = true ↔ ∃ eid st, HasStop s eid st ∧ st.id = id) := by
  obtain ⟨hg, hf⟩ := h.good
  obtain ⟨U, hU, hr⟩ := h.reg
  obtain ⟨k, hk⟩ := h.only id
  have hone : ∀ pt pt', ∀ p ∈ s.book pt, ∀ q ∈ s.book pt', ∀ e ∈ p.entries, ∀ f ∈ q.entries,
      Carries id e → Carries id f → p = q ∧ e = f ∧ pt = pt' := by
    rintro pt pt' p hp q hq e he f hf ⟨st, h1, h2⟩ ⟨st', h1', h2'⟩
    have a := hk pt p hp e he (List.mem_map.2 ⟨st, h1, h2⟩)
    have b := hk pt' q hq f hf (List.mem_map.2 ⟨st', h1', h2'⟩)
    exact hg.wf.sameEntry hp hq he hf (a.trans b.symm)
  unfold removeStop
  rcases hd : lookupStop s.stopData id with _ | d
  · have hB : ∀ pt, (dropStopBook id (s.book pt)).1 =
          keepStops (fun _ _ st => decide (st.id ≠ id)) (s.book pt) ∧
        ((dropStopBook id (s.book pt)).2 = true ↔
          ∃ p ∈ s.book pt, ∃ e ∈ p.entries, Carries id e) := by
      intro pt
      refine dropStopBook_eq id _ (fun p hp e he => (hr.univ pt p hp e he).2) ?_ ?_
      · intro p hp
        have hnd : p.entries.Pairwise (fun e f => e.id < f.id) := by
          have := (hg.wf.pos pt p hp).ids
          rwa [List.pairwise_map] at this
        refine hnd.imp_of_mem ?_
        rintro e f he hf hlt ⟨h1, h2⟩
        have := (hone pt pt p hp p hp e he f hf h1 h2).2.1
        rw [this] at hlt
        exact lt_irrefl _ hlt
      · have hnd : (s.book pt).Pairwise (fun p q => p.symbol ≠ q.symbol) := by
          have := hg.wf.nodup pt
          rwa [List.Nodup, List.pairwise_map] at this
        refine hnd.imp_of_mem ?_
        rintro p q hp hq hne ⟨⟨e, he, h1⟩, f, hf, h2⟩
        exact hne (by rw [(hone pt pt p hp q hq e he f hf h1 h2).1])
    have hfree : ∀ pt, (¬ ∃ p ∈ s.book pt, ∃ e ∈ p.entries, Carries id e) →
        keepStops (fun _ _ st => decide (st.id ≠ id)) (s.book pt) = s.book pt := by
      intro pt hno
      refine keepStops_all (fun p hp e he st hst => decide_eq_true (fun hid => ?_))
      exact hno ⟨p, hp, e, he, st, hst, hid⟩
    have hhas : ∀ pt, (∃ p ∈ s.book pt, ∃ e ∈ p.entries, Carries id e) →
        ∃ eid st, HasStop s eid st ∧ st.id = id := by
      rintro pt ⟨p, hp, e, he, st, hst, hid⟩
      exact ⟨e.id, st, ⟨pt, p, hp, e, he, rfl, hst⟩, hid⟩
    obtain ⟨l1, l2⟩ := hB .long
    obtain ⟨s1, s2⟩ := hB .short
    simp only
    by_cases hl : (dropStopBook id s.longs).2 = true
    · rw [if_pos hl]
      refine ⟨?_, iff_of_true rfl (hhas .long (l2.1 hl))⟩
      have hs : ¬ ∃ p ∈ s.book .short, ∃ e ∈ p.entries, Carries id e := by
        rintro ⟨q, hq, f, hf, hc⟩
        obtain ⟨p, hp, e, he, hc'⟩ := l2.1 hl
        exact absurd (hone .long .short p hp q hq e he f hf hc' hc).2.2 (by decide)
      have e1 : (dropStopBook id s.longs).1 = _ := l1
      have e2 : keepStops _ s.shorts = s.shorts := hfree .short hs
      unfold Keeps
      simp only
      rw [e1, e2]
      rfl
    · rw [if_neg hl]
      have e0 : keepStops _ s.longs = s.longs := hfree .long (fun hh => hl (l2.2 hh))
      by_cases hs : (dropStopBook id s.shorts).2 = true
      · rw [if_pos hs]
        refine ⟨?_, iff_of_true rfl (hhas .short (s2.1 hs))⟩
        have e1 : (dropStopBook id s.shorts).1 = _ := s1
        unfold Keeps
        simp only
        rw [e1, e0]
        rfl
      · rw [if_neg hs]
        have e2 : keepStops _ s.shorts = s.shorts := hfree .short (fun hh => hs (s2.2 hh))
        refine ⟨?_, iff_of_false (by simp) ?_⟩
        · unfold Keeps
          simp only
          rw [e0, e2]
        · rintro ⟨eid, st, ⟨pt, p, hp, e, he, _, hst⟩, hid⟩
          cases pt
          · exact hl (l2.2 ⟨p, hp, e, he, st, hst, hid⟩)
          · exact hs (s2.2 ⟨p, hp, e, he, st, hst, hid⟩)
  · obtain ⟨hd1, hd2⟩ := lookupStop_some hd
    simp only
    have hrec : ∀ pt, ∀ p ∈ s.book pt, ∀ e ∈ p.entries, ∀ st ∈ e.stops, st.id = id →
        d.stop = st ∧ d.entryId = e.id := by
      intro pt p hp e he st hst hid
      exact hr.record hU ⟨pt, p, hp, e, he, rfl, hst⟩ hd1 (hd2.trans hid.symm)
    have hB : ∀ pt, modEntryBook d.entryId (fun e => { e with stops := e.stops.erase d.stop })
        (s.book pt) = keepStops (fun _ _ st => decide (st.id ≠ id)) (s.book pt) := by
      intro pt
      refine modEntryBook_keeps hg.wf (g := fun l => l.erase d.stop) ?_ ?_
      · intro p hp e he _
        subst hd2
        exact erase_eq_filter (hr.univ pt p hp e he).2
          (fun st hst hid => (hrec pt p hp e he st hst hid).1.symm)
      · intro p hp e he hne st hst
        exact decide_eq_true (fun hid => hne (hrec pt p hp e he st hst hid).2.symm)
    refine ⟨?_, iff_of_true (by simp) ?_⟩
    · have e1 : modEntryBook _ _ s.longs = _ := hB .long
      have e2 : modEntryBook _ _ s.shorts = _ := hB .short
      unfold Keeps
      simp only
      rw [e1, e2]
      rfl
    · exact ⟨d.entryId, d.stop,
        (hr.armed _ _ (hr.index.price d hd1)).2 ⟨d, hd1, rfl, rfl⟩, hd2⟩

/-! ## The stops of an entry, and of a symbol -/

/-- Every entry has at most one stop of each type. -/
def TypesOnce (s : Portfolio) : Prop :=
  AllEntries (fun _ _ e => (e.stops.map Stop.stopType).Nodup) s

theorem Keeps.typesOnce {f : Sym → Nat → Stop → Bool} {s t : Portfolio} (h : Keeps f s t)
    (ht : TypesOnce s) : TypesOnce t := by
  intro pt p hp e he
  rw [h.book pt] at hp
  obtain ⟨p0, hp0, rfl⟩ := List.mem_map.1 hp
  obtain ⟨e0, he0, rfl⟩ := List.mem_map.1 he
  exact List.Nodup.sublist (List.filter_sublist.map _) (ht pt p0 hp0 e0 he0)

/-- Which stops a call with a type leaves on an entry. -/
def leaves (t : Option StopType) (st : Stop) : Bool :=
  match t with
  | none => false
  | some ty => decide (st.stopType ≠ ty)

theorem removeStopsEntry_keeps {cfg : Config} {s : Portfolio} (h : Reached cfg s) (id : Nat)
    (t : Option StopType) (ht : t = none ∨ TypesOnce s) :
    Keeps (fun _ i st => decide (i ≠ id) || leaves t st) s (removeStopsEntry s id t) := by
  obtain ⟨hg, hf⟩ := h.good
  unfold removeStopsEntry
  rcases hfe : findEntryAll s id with _ | e
  · refine Keeps.refl (fun pt p hp e he st hst => ?_)
    have hne : e.id ≠ id := by
      intro hid
      have := List.find?_eq_none.1 (show List.find? _ _ = none from hfe) e ?_
      · simp [hid] at this
      · refine List.mem_flatMap.2 ⟨p, ?_, he⟩
        cases pt
        · exact List.mem_append_left _ hp
        · exact List.mem_append_right _ hp
    simp [hne]
  · obtain ⟨⟨pt0, p0, hp0, he0⟩, hid⟩ := findEntryAll_mem hfe
    have hsame : ∀ pt, ∀ p ∈ s.book pt, ∀ f ∈ p.entries, f.id = id → f = e := by
      intro pt p hp f hfm hfid
      exact (hg.wf.sameEntry hp hp0 hfm he0 (hfid.trans hid.symm)).2.1
    simp only
    unfold removeEntryStops
    cases t with
    | none =>
      simp only
      have hB : ∀ pt, modEntryBook e.id (fun e' => { e' with stops := [] })
          ((s.removeStopData e.stops).book pt) =
          keepStops (fun _ i st => decide (i ≠ id) || leaves none st) (s.book pt) := by
        intro pt
        rw [removeStopData_book]
        refine modEntryBook_keeps hg.wf (g := fun _ => []) ?_ ?_
        · intro p hp f hfm hfe'
          symm
          rw [List.filter_eq_nil_iff]
          intro st _
          simp [leaves, hfe', hid]
        · intro p hp f hfm hne st _
          rw [hid] at hne
          simp [hne]
      obtain ⟨sd, ac, hfr⟩ := removeStopData_frame e.stops s
      have e1 : modEntryBook _ _ (s.removeStopData e.stops).longs = _ := hB .long
      have e2 : modEntryBook _ _ (s.removeStopData e.stops).shorts = _ := hB .short
      unfold Keeps
      simp only
      rw [e1, e2, hfr]
      rfl
    | some ty =>
      have hty : TypesOnce s := by
        rcases ht with ht | ht
        · cases ht
        · exact ht
      simp only
      split
      · rename_i hfind
        refine Keeps.refl (fun pt p hp f hfm st hst => ?_)
        by_cases hfid : f.id = id
        · rw [hsame pt p hp f hfm hfid] at hst
          have := List.find?_eq_none.1 hfind st hst
          simp only [leaves, Bool.or_eq_true]
          exact Or.inr (by simpa using this)
        · simp [hfid]
      · rename_i st0 hfind
        have hst0 : st0 ∈ e.stops := List.mem_of_find?_eq_some hfind
        have hty0 : st0.stopType = ty := by simpa using List.find?_some hfind
        obtain ⟨k, hk⟩ := h.only st0.id
        have hke := hk pt0 p0 hp0 e he0 (List.mem_map_of_mem hst0)
        obtain ⟨U, hU, hr⟩ := h.reg
        refine (removeStop_keeps h st0.id).1.congr (fun pt p hp f hfm st hst => ?_)
        by_cases hfid : f.id = id
        · have hfe' := hsame pt p hp f hfm hfid
          subst hfe'
          have hiff : st.id = st0.id ↔ st.stopType = ty := by
            constructor
            · intro hh
              rw [List.inj_on_of_nodup_map (hr.univ pt p hp f hfm).2 hst hst0 hh, hty0]
            · intro hh
              rw [List.inj_on_of_nodup_map (hty pt p hp f hfm) hst hst0 (hh.trans hty0.symm)]
          simp [leaves, hfid, hiff]
        · have : st.id ≠ st0.id := by
            intro hh
            have := hk pt p hp f hfm (List.mem_map.2 ⟨st, hst, hh⟩)
            exact hfid (this.trans (hke.symm.trans hid))
          simp [this, hfid]

theorem Reached.removeStopsEntry {cfg : Config} {s : Portfolio} (h : Reached cfg s) (id : Nat)
    (t : Option StopType) : Reached cfg (removeStopsEntry s id t) :=
  h.after (op := .removeStopsEntry id t) trivial rfl rfl

theorem removeEntries_keeps {cfg : Config} (es : List Entry) (t : Option StopType)
    {s : Portfolio} (h : Reached cfg s) (ht : t = none ∨ TypesOnce s) :
    Keeps (fun _ i st => decide (i ∉ es.map Entry.id) || leaves t st) s
      (es.foldl (fun s e => removeStopsEntry s e.id t) s) ∧
    Reached cfg (es.foldl (fun s e => removeStopsEntry s e.id t) s) := by
  induction es generalizing s with
  | nil => exact ⟨Keeps.refl (fun _ _ _ _ _ _ _ => by simp), h⟩
  | cons e es ih =>
    have h1 := removeStopsEntry_keeps h e.id t ht
    obtain ⟨i1, i2⟩ := ih (h.removeStopsEntry e.id t) (ht.imp id (fun x => h1.typesOnce x))
    refine ⟨(h1.trans i1).congr (fun pt p hp f hfm st hst => ?_), i2⟩
    simp only [List.map_cons, List.mem_cons, not_or]
    by_cases a : f.id = e.id <;> by_cases b : f.id ∈ es.map Entry.id <;>
      by_cases c : leaves t st = true <;> simp_all

theorem removePosition_keeps {cfg : Config} {pt : PosType} {sym : Sym} (t : Option StopType)
    {s : Portfolio} {p : Position} (h : Reached cfg s) (ht : t = none ∨ TypesOnce s)
    (hp : lookupPos (s.book pt) sym = some p) :
    Keeps (fun x _ st => decide (x ≠ sym) || leaves t st) s (removePositionStops s p t) := by
  obtain ⟨hpm, hps⟩ := lookupPos_some hp
  obtain ⟨hg, _⟩ := h.good
  refine (removeEntries_keeps p.entries t h ht).1.congr (fun pt' q hq f hfm st hst => ?_)
  have hiff : f.id ∈ p.entries.map Entry.id ↔ q.symbol = sym := by
    constructor
    · intro hin
      obtain ⟨e, he, hid⟩ := List.mem_map.1 hin
      rw [(hg.wf.sameEntry hpm hq he hfm hid).1.symm, hps]
    · intro hs
      have hpt : pt = pt' := by
        by_contra hne
        exact hg.wf.disj pt pt' hne p hpm q hq (hps.trans hs.symm)
      subst hpt
      rw [List.inj_on_of_nodup_map (hg.wf.nodup pt) hpm hq (hps.trans hs.symm)]
      exact List.mem_map_of_mem hfm
  simp only [hiff, ne_eq]

theorem removeStopsSym_keeps {cfg : Config} (sym : Sym) (t : Option StopType)
    {s : Portfolio} (h : Reached cfg s) (ht : t = none ∨ TypesOnce s) :
    Keeps (fun x _ st => decide (x ≠ sym) || leaves t st) s (removeStopsSym s sym t) := by
  obtain ⟨hg, _⟩ := h.good
  unfold removeStopsSym
  rcases hl : lookupPos s.longs sym with _ | p
  · simp only
    rcases hs : lookupPos s.shorts sym with _ | p
    · refine Keeps.refl (fun pt p hp e he st hst => ?_)
      have : p.symbol ≠ sym := by
        cases pt
        · exact lookupPos_none.1 hl p hp
        · exact lookupPos_none.1 hs p hp
      simp [this]
    · exact removePosition_keeps (pt := .short) t h ht hs
  · simp only
    have k1 := removePosition_keeps (pt := .long) t h ht hl
    have hno : lookupPos (removePositionStops s p t).shorts sym = none := by
      rcases hs : lookupPos (removePositionStops s p t).shorts sym with _ | q
      · rfl
      · exfalso
        obtain ⟨hq, hqs⟩ := lookupPos_some hs
        have hq2 : q ∈ (removePositionStops s p t).book .short := hq
        rw [k1.book] at hq2
        obtain ⟨q0, hq0, rfl⟩ := List.mem_map.1 hq2
        obtain ⟨hpm, hps⟩ := lookupPos_some hl
        exact hg.wf.disj .long .short (by decide) p hpm q0 hq0 (hps.trans hqs.symm)
    rw [hno]
    exact k1

/-! ## Armed stops -/

/-- The armed stops follow the books. -/
theorem Keeps.kept {cfg : Config} {f : Sym → Nat → Stop → Bool} {s t : Portfolio}
    (h : Reached cfg s) (h' : Reached cfg t) (hk : Keeps f s t)
    (hsub : ∀ d ∈ t.stopData, d ∈ s.stopData) : StopsKept f s t := by
  refine ⟨hk, fun d => ?_⟩
  obtain ⟨hg, hf⟩ := h.good
  obtain ⟨U, hU, hr⟩ := h.reg
  obtain ⟨U', hU', hr'⟩ := h'.reg
  have hhas : ∀ eid st, HasStop t eid st ↔ HasStop s eid st ∧ f st.symbol eid st = true := by
    intro eid st
    constructor
    · rintro ⟨pt, p, hp, e, he, hid, hst⟩
      rw [hk.book pt] at hp
      obtain ⟨p0, hp0, rfl⟩ := List.mem_map.1 hp
      obtain ⟨e0, he0, rfl⟩ := List.mem_map.1 he
      obtain ⟨h1, h2⟩ := List.mem_filter.1 hst
      refine ⟨⟨pt, p0, hp0, e0, he0, hid, h1⟩, ?_⟩
      rw [(hf.entries pt p0 hp0 e0 he0 st h1).2, ← hid]
      exact h2
    · rintro ⟨⟨pt, p, hp, e, he, hid, hst⟩, h2⟩
      have h3 : ({ e with stops := e.stops.filter (f p.symbol e.id) } : Entry) ∈
          p.entries.map (fun e => { e with stops := e.stops.filter (f p.symbol e.id) }) :=
        List.mem_map.2 ⟨e, he, rfl⟩
      refine ⟨pt, { p with entries := p.entries.map (fun e =>
        { e with stops := e.stops.filter (f p.symbol e.id) }) }, ?_, _, h3, hid,
        List.mem_filter.2 ⟨hst, ?_⟩⟩
      · rw [hk.book pt]
        exact List.mem_map.2 ⟨p, hp, rfl⟩
      rw [← (hf.entries pt p hp e he st hst).2, hid]
      exact h2
  constructor
  · intro hd
    have h1 := (hr'.armed _ _ (hr'.index.price d hd)).2 ⟨d, hd, rfl, rfl⟩
    exact ⟨hsub d hd, ((hhas _ _).1 h1).2⟩
  · rintro ⟨hd, hkeep⟩
    have hb := hr.index.price d hd
    obtain ⟨d', hd', h1, h2⟩ := (hr'.armed _ _ hb).1
      ((hhas _ _).2 ⟨(hr.armed _ _ hb).2 ⟨d, hd, rfl, rfl⟩, hkeep⟩)
    have : d' = d := List.inj_on_of_nodup_map hr.index.nodup (hsub d' hd') hd
      (by rw [h1])
    rw [← this]
    exact hd'

theorem removeStop_data (s : Portfolio) (id : Nat) :
    ∀ d ∈ (removeStop s id).2.stopData, d ∈ s.stopData := by
  unfold removeStop
  split
  · exact (eraseStop_subset _ _)
  · simp only
    split
    · exact fun d hd => hd
    · split
      · exact fun d hd => hd
      · exact fun d hd => hd

theorem removeStopsEntry_data (s : Portfolio) (id : Nat) (t : Option StopType) :
    ∀ d ∈ (removeStopsEntry s id t).stopData, d ∈ s.stopData := by
  unfold removeStopsEntry
  split
  · exact fun d hd => hd
  · unfold removeEntryStops
    split
    · exact fun d hd => (removeStopData_sublist _ s).subset hd
    · split
      · exact fun d hd => hd
      · exact removeStop_data _ _

theorem removePositionStops_data (s : Portfolio) (p : Position) (t : Option StopType) :
    ∀ d ∈ (removePositionStops s p t).stopData, d ∈ s.stopData := by
  unfold removePositionStops
  generalize p.entries = es
  induction es generalizing s with
  | nil => exact fun d hd => hd
  | cons e es ih => exact fun d hd => removeStopsEntry_data s e.id t d (ih _ d hd)

theorem removeStopsSym_data (s : Portfolio) (sym : Sym) (t : Option StopType) :
    ∀ d ∈ (removeStopsSym s sym t).stopData, d ∈ s.stopData := by
  unfold removeStopsSym
  rcases lookupPos s.longs sym with _ | p
  · simp only
    split
    · exact fun d hd => hd
    · exact removePositionStops_data _ _ _
  · simp only
    split
    · exact removePositionStops_data _ _ _
    · exact fun d hd => removePositionStops_data _ _ _ d (removePositionStops_data _ _ _ d hd)

theorem run_typesOnce {cfg : Config} {ops : List Op} {s : Portfolio} (hfit : ∀ op ∈ ops, op.Fit)
    (hrun : run cfg ops = .ok s) (h : OneOfEachType ops) : TypesOnce s := by
  have hr : EntryRules ⟨fun _ => True, fun l => (l.map Stop.stopType).Nodup, True, True⟩
      (fun _ _ e => (e.stops.map Stop.stopType).Nodup) := by
    constructor
    · constructor
      · exact fun _ _ _ _ _ h => h
      · rintro s pt date sym n fill es h0 hf hfit ⟨stops, hS, rfl⟩
        exact ((List.Perm.map _ (List.perm_insertionSort _ _)).nodup_iff).2 hS
      · exact fun _ _ _ _ _ h => h
      · exact fun _ _ _ _ hl h => List.Nodup.sublist (hl.map _) h
    · exact fun _ _ _ _ _ h => h
  refine runFrom_inv (P := TypesOnce)
    (Q := ⟨fun _ => True, fun l => (l.map Stop.stopType).Nodup, True, True⟩)
    hfit ?_ (Good.init cfg) (StopsFit.init cfg) hrun
    (fun _ _ hp hs => AllEntries.prim hr.toPrimRules hp hs)
    (fun _ d q hw hs => AllEntries.captureBar hr d q hw.typed hs) ?_
  · intro op hop
    have := h op hop
    cases op <;> simp_all [Op.Fills, StopEnv.Fills, stopsOf]
  · intro pt p hp
    cases pt <;> simp [Portfolio.init, Portfolio.book] at hp

/-! ## C169 -/

/-- **C169.** Cancelling one stop: it is gone, everything else stays, and the answer says whether
there was such a stop. -/
theorem cancel_one_stop {cfg : Config} {ops : List Op} {s : Portfolio}
    (hfit : ∀ op ∈ ops, op.Fit) (hfresh : FreshIds ops) (hrun : run cfg ops = .ok s) (id : Nat) :
    StopsKept (fun _ _ st => decide (st.id ≠ id)) s (removeStop s id).2 ∧
    ((removeStop s id).1 = true ↔ ∃ eid st, Attached s eid st ∧ st.id = id) := by
  have h : Reached cfg s := ⟨⟨ops, hfit, hfresh, hrun⟩⟩
  obtain ⟨h1, h2⟩ := removeStop_keeps h id
  refine ⟨h1.kept h (h.after (op := .removeStop id) trivial rfl rfl) (removeStop_data s id), ?_⟩
  simp only [attached_iff]
  exact h2

/-- **C169.** Cancelling all stops of a symbol, or of an entry. -/
theorem cancel_all_stops {cfg : Config} {ops : List Op} {s : Portfolio}
    (hfit : ∀ op ∈ ops, op.Fit) (hfresh : FreshIds ops) (hrun : run cfg ops = .ok s) :
    (∀ sym, StopsKept (fun x _ _ => decide (x ≠ sym)) s (removeStopsSym s sym none)) ∧
    ∀ id, StopsKept (fun _ i _ => decide (i ≠ id)) s (removeStopsEntry s id none) := by
  have h : Reached cfg s := ⟨⟨ops, hfit, hfresh, hrun⟩⟩
  constructor
  · intro sym
    refine ((removeStopsSym_keeps sym none h (Or.inl rfl)).congr ?_).kept h
      (h.after (op := .removeStopsSym sym none) trivial rfl rfl) (removeStopsSym_data s sym none)
    intros; simp [leaves]
  · intro id
    refine ((removeStopsEntry_keeps h id none (Or.inl rfl)).congr ?_).kept h
      (h.after (op := .removeStopsEntry id none) trivial rfl rfl) (removeStopsEntry_data s id none)
    intros; simp [leaves]

/-- **C169**, partial.  Cancelling the stops of one type, of a symbol or of an entry.  Missing:
entries with two stops of the same type, of which only the first is cancelled
(`cancel_type_leaves_second`). -/
theorem cancel_type_stops_partial {cfg : Config} {ops : List Op} {s : Portfolio}
    (hfit : ∀ op ∈ ops, op.Fit) (hfresh : FreshIds ops) (hone : OneOfEachType ops)
    (hrun : run cfg ops = .ok s) (t : StopType) :
    (∀ sym, StopsKept (fun x _ st => decide (x ≠ sym) || decide (st.stopType ≠ t)) s
      (removeStopsSym s sym (some t))) ∧
    ∀ id, StopsKept (fun _ i st => decide (i ≠ id) || decide (st.stopType ≠ t)) s
      (removeStopsEntry s id (some t)) := by
  have h : Reached cfg s := ⟨⟨ops, hfit, hfresh, hrun⟩⟩
  have ht := run_typesOnce hfit hrun hone
  exact ⟨fun sym => (removeStopsSym_keeps sym (some t) h (Or.inr ht)).kept h
      (h.after (op := .removeStopsSym sym (some t)) trivial rfl rfl) (removeStopsSym_data s sym _),
    fun id => (removeStopsEntry_keeps h id (some t) (Or.inr ht)).kept h
      (h.after (op := .removeStopsEntry id (some t)) trivial rfl rfl) (removeStopsEntry_data s id _)⟩

/-! ## Two stops of a type, and cases that meet the hypotheses -/

namespace Demo

/-- An entry with two loss stops. -/
def twoLoss : List Op :=
  [.buy { date := 1, symbol := "AAA", shares := 10, fill := 100,
          stops := [lossStop, { lossStop with id := 2, percent := some 20 }] }]

def twoLossPf : Portfolio := okD (Portfolio.init cfg) (run cfg twoLoss)

end Demo

/-- Cancelling the loss stops of a symbol leaves the second loss stop of an entry, attached and
armed. -/
theorem cancel_type_leaves_second :
    ∃ (cfg : Config) (ops : List Op) (s : Portfolio) (st : Stop), (∀ op ∈ ops, op.Fit) ∧
      FreshIds ops ∧ run cfg ops = .ok s ∧ st.symbol = "AAA" ∧ st.stopType = .loss ∧
      (∃ eid, Attached (removeStopsSym s "AAA" (some .loss)) eid st) ∧
      levelOf (removeStopsSym s "AAA" (some .loss)) st = some 80 := by
  refine ⟨Demo.cfg, Demo.twoLoss, Demo.twoLossPf, { Demo.lossStop with id := 2, percent := some 20 },
    ?_, ?_, Demo.ok_okD (by decide +kernel), rfl, rfl, ⟨1, .long, "AAA", by decide +kernel⟩,
    by decide +kernel⟩
  · simp [Demo.twoLoss, Op.Fit, Demo.lossStop]
  · simp [FreshIds, Demo.twoLoss, stopsOf, Demo.lossStop]

/-- The history of three orders with a trailing, a loss and a bar stop meets the hypotheses. -/
example : (∀ op ∈ Demo.bar1, op.Fit) ∧ FreshIds Demo.bar1 ∧ OneOfEachType Demo.bar1 ∧
    run Demo.cfg Demo.bar1 = .ok Demo.s1 :=
  ⟨Demo.fit1, Demo.fresh1, by
    simp [OneOfEachType, Demo.bar1, stopsOf, Demo.lossStop, Demo.trailStop, Demo.barStop], Demo.run_s1⟩

/-- The trailing stop of "AAA" is cancelled, its loss stop and the bar stop of "BBB" stay. -/
example : let s' := removeStopsSym Demo.s1 "AAA" (some .trailing)
    (entriesOf s'.longs "AAA").map Entry.stops = [[], [Demo.lossStop]] ∧
    (entriesOf s'.shorts "BBB").map Entry.stops = [[Demo.barStop]] ∧
    s'.stopData.map (fun d => d.stop.id) = [1] := by decide +kernel

/-- A bar stop, which is not armed, is found in the books; an id that is not there is not. -/
example : (removeStop Demo.s1 3).1 = true ∧
    (entriesOf (removeStop Demo.s1 3).2.shorts "BBB").map Entry.stops = [[]] ∧
    removeStop Demo.s1 4 = (false, Demo.s1) := by decide +kernel

end PyBroker
