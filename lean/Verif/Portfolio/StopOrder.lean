import Verif.Portfolio.Levels
import Mathlib.Data.List.Induction

/-!
# The order in which the stops of an entry are tried
-/

namespace PyBroker

open Spec

/-! ## Stops are kept in the order of their ids -/

theorem sorted_rules (Q : Guard) :
    EntryRules Q (fun _ _ e => e.stops.Pairwise (fun a b => a.id ≤ b.id)) where
  take := fun _ _ _ _ _ h => h
  new := by
    rintro s pt date sym n fill es h0 hf hfit ⟨stops, hS, rfl⟩
    have : IsTrans Stop (fun a b => a.id ≤ b.id) := ⟨fun a b c h1 h2 => le_trans h1 h2⟩
    have : Std.Total (fun a b : Stop => a.id ≤ b.id) := ⟨fun a b => le_total a.id b.id⟩
    exact List.pairwise_insertionSort _ _
  excursion := fun _ _ _ _ _ h => h
  incr := fun _ _ _ _ _ h => h
  stops := fun _ _ _ _ hl h => h.sublist hl

/-- The records of one entry are in the order of the ids of their stops. -/
def DataSorted (ds : List StopData) : Prop :=
  ds.Pairwise (fun a b => a.entryId = b.entryId → a.stop.id < b.stop.id)

/-- Registered stops, with both orders. -/
structure OrdInv (U : List Stop) (s : Portfolio) : Prop where
  reg : RegInv U s
  entries : AllEntries (fun _ _ e => e.stops.Pairwise (fun a b => a.id ≤ b.id)) s
  data : DataSorted s.stopData

theorem addStops_data {s : Portfolio} {eid : Nat} {price : ℚ} {stops es : List Stop}
    {s' : Portfolio} (ha : addStops s eid price stops = .ok (es, s')) :
    ∃ new, s'.stopData = s.stopData ++ new ∧ (∀ d ∈ new, d.entryId = eid) ∧
      new.map StopData.stop = es.filter (fun st => decide (st.stopType ≠ .bar)) := by
  rw [addStops_stops ha]
  unfold addStops at ha
  generalize stops.insertionSort (fun a b => a.id ≤ b.id) = l at ha
  have key : ∀ (l : List Stop) (acc acc' : List Stop × Portfolio),
      foldE (addStopStep eid price) acc l = .ok acc' →
      ∃ new, acc'.2.stopData = acc.2.stopData ++ new ∧ (∀ d ∈ new, d.entryId = eid) ∧
        new.map StopData.stop = l.filter (fun st => decide (st.stopType ≠ .bar)) := by
    intro l
    induction l with
    | nil => intro acc acc' h; cases h; exact ⟨[], by simp⟩
    | cons st l ih =>
      intro acc acc' h
      unfold foldE at h
      split at h
      · cases h
      · rename_i acc1 h1
        obtain ⟨new, hn1, hn2, hn3⟩ := ih acc1 acc' h
        unfold addStopStep at h1
        split at h1
        · cases h1
        · split at h1
          · rename_i hbar
            cases h1
            exact ⟨new, hn1, hn2, by rw [List.filter_cons_of_neg (by simp [hbar])]; exact hn3⟩
          · rename_i hbar
            split at h1
            · cases h1
            · rename_i a ha
              cases h1
              refine ⟨⟨some (stopValue st price a), st, eid⟩ :: new, by rw [hn1]; simp, ?_, ?_⟩
              · intro d hd
                rcases List.mem_cons.1 hd with rfl | hd
                · rfl
                · exact hn2 d hd
              · rw [List.filter_cons_of_pos (by simp [hbar]), List.map_cons, hn3]
  exact key l ([], s) (es, s') ha

theorem eraseStop_sublist (ds : List StopData) (id : Nat) : (eraseStop ds id).Sublist ds := by
  induction ds with
  | nil => exact List.Sublist.refl _
  | cons d ds ih =>
    unfold eraseStop
    split
    · exact List.sublist_cons_self _ _
    · exact ih.cons_cons _

theorem removeStopData_sublist (l : List Stop) (s : Portfolio) :
    (s.removeStopData l).stopData.Sublist s.stopData := by
  induction l generalizing s with
  | nil => exact List.Sublist.refl _
  | cons st l ih =>
    unfold Portfolio.removeStopData
    split
    · exact ih s
    · exact (ih _).trans (eraseStop_sublist _ _)

theorem DataSorted.setValue {ds : List StopData} (h : DataSorted ds) (id : Nat) (v : Option ℚ) :
    DataSorted (setStopValue ds id v) := by
  have hmap : ∀ ds : List StopData, (setStopValue ds id v).map (fun d => (d.stop, d.entryId)) =
      ds.map (fun d => (d.stop, d.entryId)) := by
    intro ds
    induction ds with
    | nil => rfl
    | cons d ds ih =>
      unfold setStopValue
      split
      · rfl
      · simp [ih]
  have key : ∀ ds : List StopData, DataSorted ds ↔
      (ds.map (fun d => (d.stop, d.entryId))).Pairwise (fun a b => a.2 = b.2 → a.1.id < b.1.id) := by
    intro ds
    unfold DataSorted
    rw [List.pairwise_map]
  rw [key, hmap, ← key]
  exact h

theorem OrdInv.prim {U : List Stop} (hU : (U.map Stop.id).Nodup) {cfg : Config} {Q : Guard}
    (hQ : ∀ l, Q.stops l → (∀ st ∈ l, st ∈ U) ∧ (l.map Stop.id).Nodup)
    {s t : Portfolio} (hp : Prim cfg Q s t) (h : OrdInv U s) : OrdInv U t := by
  have hr := RegInv.prim hU hQ hp h.reg
  have he := AllEntries.prim (sorted_rules Q).toPrimRules hp h.entries
  refine ⟨hr, he, ?_⟩
  have hsub : t.stopData.Sublist s.stopData → DataSorted t.stopData :=
    fun hs => List.Pairwise.sublist hs h.data
  have hsame : t.stopData = s.stopData → DataSorted t.stopData :=
    fun hs => hsub (by rw [hs])
  cases hp with
  | @exit Z _ pt p e sh fill date st hw hp he hz h0 hle hQ => exact hsame (by cases pt <;> rfl)
  | @drop Z _ pt p e hw hp he hz =>
    refine hsub ?_
    have : ((s.removeStopData e.stops).store pt
        { p with entries := eraseEntry p.entries e.id }).stopData =
        (s.removeStopData e.stops).stopData := by cases pt <;> rfl
    rw [this]
    exact removeStopData_sublist _ _
  | @close Z _ pt p hw hp hnil => exact hsame (by cases pt <;> rfl)
  | @opened _ sd date sym n m fill stops es sda ac hw h0 hf hno hclamp hnm hcap hmode hfit hS hadd =>
    obtain ⟨new, hn1, hn2, hn3⟩ := addStops_data hadd
    have hsd : (openedPf cfg s sd.opens date sym n fill es sda ac).stopData = s.stopData ++ new :=
      hn1
    rw [hsd]
    unfold DataSorted
    rw [List.pairwise_append]
    refine ⟨h.data, ?_, ?_⟩
    · have hes := addStops_stops hadd
      have hnd : (es.map Stop.id).Nodup := by
        have hperm : es.Perm stops := hes ▸ List.perm_insertionSort _ _
        exact ((hperm.map Stop.id).nodup_iff).2 (hQ stops hS).2
      have hle : es.Pairwise (fun a b => a.id ≤ b.id) := by
        have : IsTrans Stop (fun a b => a.id ≤ b.id) := ⟨fun a b c h1 h2 => le_trans h1 h2⟩
        have : Std.Total (fun a b : Stop => a.id ≤ b.id) := ⟨fun a b => le_total a.id b.id⟩
        rw [hes]
        exact List.pairwise_insertionSort _ _
      have hlt : es.Pairwise (fun a b => a.id < b.id) := by
        rw [List.Nodup, List.pairwise_map] at hnd
        exact hle.imp₂ (fun _ _ h1 h2 => lt_of_le_of_ne h1 h2) hnd
      have h2 : (new.map StopData.stop).Pairwise (fun a b => a.id < b.id) := by
        rw [hn3]; exact hlt.sublist List.filter_sublist
      rw [List.pairwise_map] at h2
      exact h2.imp (S := fun (a b : StopData) =>
        a.entryId = b.entryId → a.stop.id < b.stop.id) (fun h _ => h)
    · intro a ha b hb hab
      exfalso
      obtain ⟨pt, p, hp, e, he, hei, -⟩ :=
        (h.reg.armed a.entryId a.stop (h.reg.index.price a ha)).2 ⟨a, ha, rfl, rfl⟩
      have := hw.idle pt p hp e he
      rw [hei, hab, hn2 b hb] at this
      exact absurd this (by simp)
  | order h0 hlim hQ => exact hsame rfl
  | caches hm => exact hsame rfl
  | stopValue id v hl => exact h.data.setValue id v
  | incr hasBar => exact hsame rfl
  | removeStop id hw =>
    refine hsub ?_
    unfold PyBroker.removeStop
    split
    · exact eraseStop_sublist _ _
    · simp only
      split
      · exact List.Sublist.refl _
      · split <;> exact List.Sublist.refl _
  | clearStops hw hp he => exact hsub (removeStopData_sublist _ _)

theorem DataSorted.init (U : List Stop) (cfg : Config) : OrdInv U (Portfolio.init cfg) where
  reg := RegInv.init U cfg
  entries := by
    intro pt p hp
    cases pt <;> cases hp
  data := List.Pairwise.nil

theorem OrdInv.capture {U : List Stop} {cfg : Config} {s : Portfolio} (date : Date)
    (quote : Sym → BarQuote) (hw : WF [] s) (h : OrdInv U s) (hsd : (captureBar cfg s date quote).stopData = s.stopData) :
    OrdInv U (captureBar cfg s date quote) where
  reg := h.reg.capture date quote hw
  entries := AllEntries.captureBar (sorted_rules Guard.any) date quote hw.typed h.entries
  data := by rw [hsd]; exact h.data

/-- A history whose stops have distinct ids keeps the order of the stops. -/
theorem run_ord {cfg : Config} {ops : List Op} {s : Portfolio} (hfit : ∀ op ∈ ops, op.Fit)
    (hfresh : FreshIds ops) (h : run cfg ops = .ok s) : OrdInv (ops.flatMap stopsOf) s := by
  let U := ops.flatMap stopsOf
  refine runFrom_inv (P := OrdInv U)
    (Q := ⟨fun _ => True, fun l => (∀ st ∈ l, st ∈ U) ∧ (l.map Stop.id).Nodup, True, True⟩)
    hfit ?_ (Good.init cfg) (StopsFit.init cfg) h
    (fun s t hp hs => OrdInv.prim hfresh (fun l hl => hl) hp hs)
    (fun s date quote hw hs => hs.capture date quote hw (captureBar_stopData cfg s date quote))
    (DataSorted.init U cfg)
  have hsub : ∀ op ∈ ops, (∀ st ∈ stopsOf op, st ∈ U) ∧ ((stopsOf op).map Stop.id).Nodup := by
    intro op hop
    refine ⟨fun st hst => List.mem_flatMap.2 ⟨op, hop, hst⟩, ?_⟩
    have hs : ((stopsOf op).map Stop.id).Sublist (U.map Stop.id) := by
      obtain ⟨a, b, rfl⟩ := List.append_of_mem hop
      refine List.Sublist.map _ ?_
      show (stopsOf op).Sublist ((a ++ op :: b).flatMap stopsOf)
      rw [List.flatMap_append, List.flatMap_cons]
      exact ((List.sublist_append_left _ _).trans (List.sublist_append_right _ _))
    exact List.Nodup.sublist hs hfresh
  intro op hop
  have hs := hsub op hop
  cases op <;> try exact trivial
  · exact ⟨fun _ _ => trivial, hs⟩
  · exact ⟨fun _ _ => trivial, hs⟩
  · exact ⟨fun _ _ => trivial, by simp⟩
  · exact ⟨fun _ _ _ _ _ _ => trivial, trivial⟩

/-! ## Checks come in that order -/

/-- The relation of two checks of one entry, the first before the second. -/
def CheckLT (a b : StopCheck) : Prop := a.entryId = b.entryId → TriedBefore a.stop b.stop

theorem Spec.TriedBefore.asymm {a b : Stop} (h : TriedBefore a b) : ¬ TriedBefore b a := by
  rintro h'
  rcases h with ⟨h1, h2⟩ | ⟨h1, h2⟩ <;> rcases h' with ⟨h3, h4⟩ | ⟨h3, h4⟩
  · exact h1 h4
  · exact h1 (h3.1 h2)
  · exact h3 (h1.1 h4)
  · omega

theorem priceChecks_order {env : StopEnv} {U : List Stop} {s : Portfolio} (hg : Good s)
    (hf : StopsFit s) (h : OrdInv U s) : (priceChecks env s).Pairwise CheckLT := by
  unfold priceChecks
  rw [List.pairwise_flatMap]
  constructor
  · intro x hx
    obtain ⟨sym, ids⟩ := x
    simp only
    by_cases hcan : env.canPrice sym = true
    · rw [if_pos hcan]
      have := symChecks_ids h.reg.index hx
      simp only at this
      rw [this, List.pairwise_map]
      refine (List.Pairwise.sublist List.filter_sublist h.data).imp_of_mem ?_
      intro a b ha hb hab he
      exact Or.inr ⟨by simp [h.reg.index.price a (List.mem_filter.1 ha).1,
        h.reg.index.price b (List.mem_filter.1 hb).1], hab he⟩
    · rw [if_neg hcan]; exact List.Pairwise.nil
  · have hk := h.reg.index.active.keys
    rw [List.Nodup, List.pairwise_map] at hk
    refine hk.imp_of_mem ?_
    intro x y hx hy hne a ha b hb he
    exfalso
    have key : ∀ z ∈ s.active, ∀ c ∈ (if env.canPrice z.1 = true then
        z.2.filterMap (fun id => (lookupStop s.stopData id).map (fun d =>
          ({ posType := d.stop.posType, symbol := z.1, entryId := d.entryId, stop := d.stop } :
            StopCheck))) else []), ∃ d ∈ s.stopData, d.entryId = c.entryId ∧ d.stop.symbol = z.1 := by
      intro z hz c hc
      by_cases hcan : env.canPrice z.1 = true
      · rw [if_pos hcan, symChecks_ids h.reg.index hz] at hc
        obtain ⟨d, hd, rfl⟩ := List.mem_map.1 hc
        obtain ⟨hd1, hd2⟩ := List.mem_filter.1 hd
        exact ⟨d, hd1, rfl, of_decide_eq_true hd2⟩
      · rw [if_neg hcan] at hc; cases hc
    obtain ⟨d, hd, hd1, hd2⟩ := key x hx a ha
    obtain ⟨f, hf', hf1, hf2⟩ := key y hy b hb
    obtain ⟨pt, p, hp, e, hep, hei, hes⟩ :=
      (h.reg.armed d.entryId d.stop (h.reg.index.price d hd)).2 ⟨d, hd, rfl, rfl⟩
    obtain ⟨pt', p', hp', e', hep', hei', hes'⟩ :=
      (h.reg.armed f.entryId f.stop (h.reg.index.price f hf')).2 ⟨f, hf', rfl, rfl⟩
    obtain ⟨rfl, rfl, rfl⟩ := hg.wf.entry_unique hp hp' hep hep'
      (by rw [hei, hei', hd1, hf1]; exact he)
    have h1 := (hf.entries pt p hp e hep _ hes).2
    have h2 := (hf.entries pt p hp e hep _ hes').2
    exact hne (by rw [← hd2, ← hf2, h1, h2])

theorem barChecks_order {env : StopEnv} {U : List Stop} {s : Portfolio} (hg : Good s)
    (h : OrdInv U s) : (barChecks env s).Pairwise CheckLT := by
  unfold barChecks
  have hbook : ∀ p ∈ s.longs ++ s.shorts, ∃ pt, p ∈ s.book pt := by
    intro p hp
    rcases List.mem_append.1 hp with hp | hp
    · exact ⟨.long, hp⟩
    · exact ⟨.short, hp⟩
  have hsyms : ((s.longs ++ s.shorts).map Position.symbol).Nodup := by
    rw [List.map_append, List.nodup_append]
    refine ⟨hg.wf.nodup .long, hg.wf.nodup .short, ?_⟩
    intro a ha b hb hab
    obtain ⟨p, hp, rfl⟩ := List.mem_map.1 ha
    obtain ⟨q, hq, rfl⟩ := List.mem_map.1 hb
    exact hg.wf.disj .long .short (by decide) p hp q hq hab
  rw [List.pairwise_flatMap]
  constructor
  · intro p hp
    obtain ⟨pt, hp⟩ := hbook p hp
    by_cases hcan : env.canPrice p.symbol = true
    · rw [if_pos hcan, List.pairwise_flatMap]
      constructor
      · intro e he
        rw [List.pairwise_map]
        have hle := h.entries pt p hp e he
        have hnd := (h.reg.univ pt p hp e he).2
        rw [List.Nodup, List.pairwise_map] at hnd
        have hlt : e.stops.Pairwise (fun a b => a.id < b.id) :=
          hle.imp₂ (fun _ _ h1 h2 => lt_of_le_of_ne h1 h2) hnd
        refine (List.Pairwise.sublist List.filter_sublist hlt).imp_of_mem ?_
        intro a b ha hb hab _
        have ha := of_decide_eq_true (List.mem_filter.1 ha).2
        have hb := of_decide_eq_true (List.mem_filter.1 hb).2
        exact Or.inr ⟨by simp [ha, hb], hab⟩
      · have hn := (hg.wf.pos pt p hp).nodup
        rw [List.Nodup, List.pairwise_map] at hn
        refine hn.imp_of_mem ?_
        intro e f _ _ hne a ha b hb he
        obtain ⟨_, _, rfl⟩ := List.mem_map.1 ha
        obtain ⟨_, _, rfl⟩ := List.mem_map.1 hb
        exact absurd he hne
    · rw [if_neg hcan]; exact List.Pairwise.nil
  · rw [List.Nodup, List.pairwise_map] at hsyms
    refine hsyms.imp_of_mem ?_
    intro p q hp hq hne a ha b hb he
    obtain ⟨pt, hp⟩ := hbook p hp
    obtain ⟨pt', hq⟩ := hbook q hq
    have key : ∀ p : Position, ∀ c ∈ (if env.canPrice p.symbol = true then
        p.entries.flatMap (fun e =>
          (e.stops.filter (fun st => st.stopType = .bar)).map (fun st =>
            ({ posType := p.type, symbol := p.symbol, entryId := e.id, stop := st } : StopCheck)))
        else []), ∃ e ∈ p.entries, e.id = c.entryId := by
      intro p c hc
      by_cases hcan : env.canPrice p.symbol = true
      · rw [if_pos hcan] at hc
        obtain ⟨e, he, hc⟩ := List.mem_flatMap.1 hc
        obtain ⟨st, _, rfl⟩ := List.mem_map.1 hc
        exact ⟨e, he, rfl⟩
      · rw [if_neg hcan] at hc; cases hc
    obtain ⟨e, hep, h1⟩ := key p a ha
    obtain ⟨f, hfq, h2⟩ := key q b hb
    exact absurd (hg.wf.owner pt pt' p hp q hq e hep f hfq (by rw [h1, h2]; exact he)) hne

theorem checks_order {env : StopEnv} {U : List Stop} {s : Portfolio} (hg : Good s)
    (hf : StopsFit s) (h : OrdInv U s) :
    (priceChecks env s ++ barChecks env s).Pairwise CheckLT := by
  rw [List.pairwise_append]
  refine ⟨priceChecks_order hg hf h, barChecks_order hg h, ?_⟩
  intro a ha b hb _
  obtain ⟨d, hd, -, rfl⟩ := (priceChecks_mem h.reg.index).1 ha
  obtain ⟨pt, p, hp, e, he, st, hst, hbar, -, rfl⟩ := (barChecks_mem hg.wf).1 hb
  exact Or.inl ⟨h.reg.index.price d hd, hbar⟩

/-! ## The first stop that fires -/

/-- Which entries are exited after some checks. -/
theorem exited_iff (env : StopEnv) (s : Portfolio) (cs : List StopCheck) (i : Nat) :
    i ∈ exitIds (cs.foldl (pick env s) []) ↔
      ∃ c ∈ cs, c.entryId = i ∧ ∃ x, fireOf env s c = some x := by
  obtain ⟨-, p2, -, p4⟩ := picked env s cs []
  constructor
  · intro h
    obtain ⟨x, hx, rfl⟩ := List.mem_map.1 h
    rcases p2 x hx with h0 | ⟨c, hc, hfire⟩
    · cases h0
    · exact ⟨c, hc, (fireOf_id hfire).symm, x, hfire⟩
  · rintro ⟨c, hc, rfl, x, hx⟩
    exact p4 c hc x hx

/-- An exit comes from the first check of its entry that fires. -/
theorem picked_first (env : StopEnv) (s : Portfolio) (cs : List StopCheck) :
    ∀ x ∈ cs.foldl (pick env s) [], ∃ pre c post, cs = pre ++ c :: post ∧
      fireOf env s c = some x ∧ c.entryId ∉ exitIds (pre.foldl (pick env s) []) := by
  induction cs using List.reverseRecOn with
  | nil => intro x hx; cases hx
  | append_singleton cs c ih =>
    intro x hx
    rw [List.foldl_append, List.foldl_cons, List.foldl_nil] at hx
    have hold : x ∈ cs.foldl (pick env s) [] → ∃ pre d post, cs ++ [c] = pre ++ d :: post ∧
        fireOf env s d = some x ∧ d.entryId ∉ exitIds (pre.foldl (pick env s) []) := by
      intro hx
      obtain ⟨pre, d, post, rfl, h1, h2⟩ := ih x hx
      exact ⟨pre, d, post ++ [c], by simp, h1, h2⟩
    unfold pick at hx
    by_cases hin : c.entryId ∈ exitIds (cs.foldl (pick env s) [])
    · have hp : pick env s (cs.foldl (pick env s) []) c = cs.foldl (pick env s) [] := by
        unfold pick; exact if_pos hin
      refine hold ?_
      change x ∈ pick env s (cs.foldl (pick env s) []) c at hx
      rwa [hp] at hx
    · change x ∈ pick env s (cs.foldl (pick env s) []) c at hx
      unfold pick at hx
      change x ∈ (if c.entryId ∈ exitIds (cs.foldl (pick env s) []) then _ else _) at hx
      rw [if_neg hin] at hx
      rcases Option.eq_none_or_eq_some (fireOf env s c) with hn | ⟨y, hy⟩
      · rw [hn] at hx
        exact hold hx
      · rw [hy] at hx
        rcases List.mem_append.1 hx with hx | hx
        · exact hold hx
        · rw [List.mem_singleton] at hx
          subst hx
          exact ⟨cs, c, [], rfl, hy, hin⟩

/-- Two checks of one list in order: the one that may not come later comes
earlier. -/
theorem mem_pre_of_tried {cs pre post : List StopCheck} {c c' : StopCheck}
    (hcs : cs = pre ++ c :: post) (ho : cs.Pairwise CheckLT) (hc' : c' ∈ cs)
    (he : c'.entryId = c.entryId) (hp : TriedBefore c'.stop c.stop) : c' ∈ pre := by
  subst hcs
  rw [List.pairwise_append] at ho
  rcases List.mem_append.1 hc' with h | h
  · exact h
  · exfalso
    rcases List.mem_cons.1 h with rfl | h
    · exact Spec.TriedBefore.asymm hp hp
    · exact Spec.TriedBefore.asymm ((List.pairwise_cons.1 ho.2.1).1 c' h he.symm) hp

end PyBroker
