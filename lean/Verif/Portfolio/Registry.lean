import Mathlib.Data.List.Nodup
import Verif.Portfolio.Marks

/-!
# Helper lemmas: the registry of armed stops
-/

namespace PyBroker

/-! ## The per-symbol index -/

/-- The ids listed under a symbol. -/
def activeOf : List (Sym × List Nat) → Sym → List Nat
  | [], _ => []
  | (k, ids) :: rest, sym => if k = sym then ids else activeOf rest sym

theorem activeOf_not_mem {a : List (Sym × List Nat)} {sym : Sym} (h : sym ∉ a.map Prod.fst) :
    activeOf a sym = [] := by
  induction a with
  | nil => rfl
  | cons x a ih =>
    obtain ⟨k, ids⟩ := x
    simp only [List.map_cons, List.mem_cons, not_or] at h
    unfold activeOf
    rw [if_neg (fun e => h.1 e.symm), ih h.2]

theorem activeAdd_keys (a : List (Sym × List Nat)) (sym : Sym) (id : Nat) :
    (activeAdd a sym id).map Prod.fst =
      if sym ∈ a.map Prod.fst then a.map Prod.fst else a.map Prod.fst ++ [sym] := by
  induction a with
  | nil => simp [activeAdd]
  | cons x a ih =>
    obtain ⟨k, ids⟩ := x
    unfold activeAdd
    by_cases h : k = sym
    · simp [h]
    · rw [if_neg h]
      have h2 : ¬ sym = k := fun e => h e.symm
      simp only [List.map_cons, ih, List.mem_cons, h2, false_or]
      split <;> simp

theorem activeOf_add (a : List (Sym × List Nat)) (sym : Sym) (id : Nat) (sym' : Sym) :
    activeOf (activeAdd a sym id) sym' =
      if sym' = sym then activeOf a sym ++ [id] else activeOf a sym' := by
  induction a with
  | nil =>
    unfold activeAdd activeOf
    by_cases h : sym = sym'
    · subst h; simp
    · rw [if_neg h, if_neg (fun e => h e.symm)]
      rfl
  | cons x a ih =>
    obtain ⟨k, ids⟩ := x
    unfold activeAdd
    by_cases h : k = sym
    · subst h
      by_cases h' : k = sym'
      · subst h'; simp [activeOf]
      · simp [activeOf, h', Ne.symm h']
    · rw [if_neg h]
      unfold activeOf
      by_cases h' : k = sym'
      · subst h'
        simp [h]
      · simp only [if_neg h', ih, if_neg h]

theorem activeRemove_sublist (a : List (Sym × List Nat)) (sym : Sym) (id : Nat) :
    ((activeRemove a sym id).map Prod.fst).Sublist (a.map Prod.fst) := by
  induction a with
  | nil => exact List.Sublist.refl _
  | cons x a ih =>
    obtain ⟨k, ids⟩ := x
    unfold activeRemove
    split
    · simp only
      split
      · exact List.sublist_cons_self _ _
      · exact List.Sublist.refl _
    · exact ih.cons_cons _

theorem activeOf_remove {a : List (Sym × List Nat)} (hn : (a.map Prod.fst).Nodup) (sym : Sym)
    (id : Nat) (sym' : Sym) :
    activeOf (activeRemove a sym id) sym' =
      if sym' = sym then (activeOf a sym).erase id else activeOf a sym' := by
  induction a with
  | nil => simp [activeRemove, activeOf]
  | cons x a ih =>
    obtain ⟨k, ids⟩ := x
    rw [List.map_cons, List.nodup_cons] at hn
    unfold activeRemove
    by_cases h : k = sym
    · subst h
      rw [if_pos rfl]
      simp only
      by_cases h0 : ids.erase id = []
      · rw [if_pos h0]
        by_cases h' : sym' = k
        · subst h'
          rw [if_pos rfl, activeOf_not_mem hn.1]
          simp [activeOf, h0]
        · rw [if_neg h']
          simp [activeOf, Ne.symm h']
      · rw [if_neg h0]
        by_cases h' : sym' = k
        · subst h'; simp [activeOf]
        · simp [activeOf, h', Ne.symm h']
    · rw [if_neg h]
      unfold activeOf
      by_cases h' : k = sym'
      · subst h'; simp [h]
      · simp only [if_neg h', ih hn.2, if_neg h]

theorem activeAdd_ne {a : List (Sym × List Nat)} (h : ∀ x ∈ a, x.2 ≠ []) (sym : Sym) (id : Nat) :
    ∀ x ∈ activeAdd a sym id, x.2 ≠ [] := by
  induction a with
  | nil => intro x hx; simp [activeAdd] at hx; rw [hx]; simp
  | cons y a ih =>
    obtain ⟨k, ids⟩ := y
    unfold activeAdd
    split
    · intro x hx
      rcases List.mem_cons.1 hx with rfl | hx
      · simp
      · exact h x (List.mem_cons_of_mem _ hx)
    · intro x hx
      rcases List.mem_cons.1 hx with rfl | hx
      · exact h _ List.mem_cons_self
      · exact ih (fun x hx => h x (List.mem_cons_of_mem _ hx)) x hx

theorem activeRemove_ne {a : List (Sym × List Nat)} (h : ∀ x ∈ a, x.2 ≠ []) (sym : Sym)
    (id : Nat) : ∀ x ∈ activeRemove a sym id, x.2 ≠ [] := by
  induction a with
  | nil => intro x hx; simp [activeRemove] at hx
  | cons y a ih =>
    obtain ⟨k, ids⟩ := y
    unfold activeRemove
    split
    · simp only
      split
      · exact fun x hx => h x (List.mem_cons_of_mem _ hx)
      · rename_i h0
        intro x hx
        rcases List.mem_cons.1 hx with rfl | hx
        · exact h0
        · exact h x (List.mem_cons_of_mem _ hx)
    · intro x hx
      rcases List.mem_cons.1 hx with rfl | hx
      · exact h _ List.mem_cons_self
      · exact ih (fun x hx => h x (List.mem_cons_of_mem _ hx)) x hx

/-! ## The id index -/

/-- The ids of the armed stops. -/
def armedIds (ds : List StopData) : List Nat := ds.map (fun d => d.stop.id)

/-- The ids of the armed stops of a symbol. -/
def armedOf (ds : List StopData) (sym : Sym) : List Nat :=
  armedIds (ds.filter (fun d => decide (d.stop.symbol = sym)))

theorem lookupStop_some {ds : List StopData} {id : Nat} {d : StopData}
    (h : lookupStop ds id = some d) : d ∈ ds ∧ d.stop.id = id := by
  induction ds with
  | nil => cases h
  | cons x ds ih =>
    unfold lookupStop at h
    split at h
    · cases h; exact ⟨List.mem_cons_self, by assumption⟩
    · exact ⟨List.mem_cons_of_mem _ (ih h).1, (ih h).2⟩

theorem lookupStop_none {ds : List StopData} {id : Nat} :
    lookupStop ds id = none ↔ id ∉ armedIds ds := by
  induction ds with
  | nil => simp [lookupStop, armedIds]
  | cons x ds ih =>
    unfold lookupStop armedIds
    by_cases h : x.stop.id = id
    · simp [h]
    · have h2 : ¬ id = x.stop.id := fun e => h e.symm
      rw [if_neg h, ih]
      simp [armedIds, h2]

theorem eraseStop_eq_filter {ds : List StopData} (hn : (armedIds ds).Nodup) (id : Nat) :
    eraseStop ds id = ds.filter (fun d => decide (d.stop.id ≠ id)) := by
  induction ds with
  | nil => rfl
  | cons x ds ih =>
    unfold armedIds at hn
    rw [List.map_cons, List.nodup_cons] at hn
    unfold eraseStop
    by_cases h : x.stop.id = id
    · rw [if_pos h, List.filter_cons_of_neg (by simp [h])]
      symm
      rw [List.filter_eq_self]
      intro d hd
      simp only [ne_eq, decide_not, Bool.not_eq_eq_eq_not, Bool.not_true, decide_eq_false_iff_not]
      intro e
      exact hn.1 (List.mem_map.2 ⟨d, hd, e.trans h.symm⟩)
    · rw [if_neg h, List.filter_cons_of_pos (by simp [h]), ih hn.2]

theorem nodup_filter_ids {ds : List StopData} (hn : (armedIds ds).Nodup) (q : StopData → Bool) :
    (armedIds (ds.filter q)).Nodup :=
  hn.sublist (List.filter_sublist.map _)

theorem armedOf_erase {ds : List StopData} (hn : (armedIds ds).Nodup) {d : StopData}
    (hd : d ∈ ds) (sym : Sym) :
    armedOf (eraseStop ds d.stop.id) sym =
      if sym = d.stop.symbol then (armedOf ds sym).erase d.stop.id else armedOf ds sym := by
  rw [eraseStop_eq_filter hn]
  unfold armedOf
  rw [List.filter_filter]
  by_cases h : sym = d.stop.symbol
  · rw [if_pos h]
    have hn2 := nodup_filter_ids hn (fun x => decide (x.stop.symbol = sym))
    rw [hn2.erase_eq_filter]
    unfold armedIds
    rw [List.filter_map, List.filter_filter]
    congr 1
    apply List.filter_congr
    intro x _
    by_cases e : x.stop.id = d.stop.id <;> simp [e]
  · rw [if_neg h]
    congr 1
    apply List.filter_congr
    intro x hx
    by_cases hs : x.stop.symbol = sym
    · have : x.stop.id ≠ d.stop.id := by
        intro e
        have := List.inj_on_of_nodup_map hn hx hd e
        rw [this] at hs
        exact h hs.symm
      simp [hs, this]
    · simp [hs]

/-- The per-symbol index lists exactly the armed stops of the symbol, in order. -/
structure ActiveOK (s : Portfolio) : Prop where
  keys : (s.active.map Prod.fst).Nodup
  nonempty : ∀ x ∈ s.active, x.2 ≠ []
  ids : ∀ sym, activeOf s.active sym = armedOf s.stopData sym

/-- The two indexes agree. -/
structure IndexOK (s : Portfolio) : Prop where
  nodup : (armedIds s.stopData).Nodup
  active : ActiveOK s
  price : ∀ d ∈ s.stopData, d.stop.stopType ≠ .bar

theorem IndexOK.frame {s t : Portfolio} (h : IndexOK s) (h1 : t.stopData = s.stopData)
    (h2 : t.active = s.active) : IndexOK t := by
  obtain ⟨a, ⟨b, c, d⟩, e⟩ := h
  exact ⟨by rw [h1]; exact a, ⟨by rw [h2]; exact b, by rw [h2]; exact c, by rw [h1, h2]; exact d⟩,
    by rw [h1]; exact e⟩

theorem IndexOK.erase {s : Portfolio} (h : IndexOK s) {d : StopData} (hd : d ∈ s.stopData) :
    IndexOK { s with stopData := eraseStop s.stopData d.stop.id,
                     active := activeRemove s.active d.stop.symbol d.stop.id } where
  nodup := by
    simp only
    rw [eraseStop_eq_filter h.nodup]
    exact nodup_filter_ids h.nodup _
  active := by
    refine ⟨h.active.keys.sublist (activeRemove_sublist _ _ _),
      activeRemove_ne h.active.nonempty _ _, ?_⟩
    intro sym
    simp only
    rw [activeOf_remove h.active.keys, armedOf_erase h.nodup hd, h.active.ids, h.active.ids]
    split
    · rename_i e; rw [e]
    · rfl
  price := by
    intro x hx
    simp only at hx
    rw [eraseStop_eq_filter h.nodup] at hx
    exact h.price x (List.mem_filter.1 hx).1

/-- Disarming a list of stops. -/
theorem removeStopData_spec (l : List Stop) (s : Portfolio) (h : IndexOK s)
    (hl : ∀ st ∈ l, ∀ d ∈ s.stopData, d.stop.id = st.id → d.stop.symbol = st.symbol) :
    IndexOK (s.removeStopData l) ∧
      (s.removeStopData l).stopData =
        s.stopData.filter (fun d => decide (d.stop.id ∉ l.map Stop.id)) := by
  induction l generalizing s with
  | nil => exact ⟨h, by simp [Portfolio.removeStopData]⟩
  | cons st l ih =>
    unfold Portfolio.removeStopData
    rcases Option.eq_none_or_eq_some (lookupStop s.stopData st.id) with hn | ⟨d, hd⟩
    · rw [hn]
      obtain ⟨h1, h2⟩ := ih s h (fun st' hst' => hl st' (List.mem_cons_of_mem _ hst'))
      refine ⟨h1, ?_⟩
      rw [h2]
      apply List.filter_congr
      intro x hx
      have : x.stop.id ≠ st.id := by
        intro e
        exact lookupStop_none.1 hn (List.mem_map.2 ⟨x, hx, e⟩)
      simp [this]
    · rw [hd]
      obtain ⟨hdm, hdi⟩ := lookupStop_some hd
      have hsym := hl st List.mem_cons_self d hdm hdi
      have k := h.erase hdm
      rw [hdi, hsym] at k
      obtain ⟨h1, h2⟩ := ih _ k (by
        intro st' hst' x hx
        simp only at hx
        rw [eraseStop_eq_filter h.nodup] at hx
        exact hl st' (List.mem_cons_of_mem _ hst') x (List.mem_filter.1 hx).1)
      refine ⟨h1, ?_⟩
      simp only at h2 ⊢
      rw [h2, eraseStop_eq_filter h.nodup, List.filter_filter]
      apply List.filter_congr
      intro x hx
      by_cases e : x.stop.id = st.id <;> simp [e]

/-- Arming the stops of a new entry. -/
theorem addStops_spec {s : Portfolio} {eid : Nat} {price : ℚ} {stops es : List Stop}
    {s' : Portfolio} (h : IndexOK s) (ha : addStops s eid price stops = .ok (es, s')) :
    IndexOK s' ∧ ∃ new, s'.stopData = s.stopData ++ new ∧
      (∀ d, d ∈ new → d.entryId = eid ∧ d.stop ∈ es ∧ d.stop.stopType ≠ .bar) ∧
      (∀ st ∈ es, st.stopType ≠ .bar → ∃ d ∈ new, d.stop = st) := by
  unfold addStops at ha
  generalize stops.insertionSort (fun a b => a.id ≤ b.id) = l at ha
  have key : ∀ (l : List Stop) (acc acc' : List Stop × Portfolio) (new : List StopData),
      foldE (addStopStep eid price) acc l = .ok acc' →
      IndexOK acc.2 → acc.2.stopData = s.stopData ++ new →
      (∀ d, d ∈ new → d.entryId = eid ∧ d.stop ∈ acc.1 ∧ d.stop.stopType ≠ .bar) →
      (∀ st ∈ acc.1, st.stopType ≠ .bar → ∃ d ∈ new, d.stop = st) →
      IndexOK acc'.2 ∧ ∃ new, acc'.2.stopData = s.stopData ++ new ∧
      (∀ d, d ∈ new → d.entryId = eid ∧ d.stop ∈ acc'.1 ∧ d.stop.stopType ≠ .bar) ∧
      (∀ st ∈ acc'.1, st.stopType ≠ .bar → ∃ d ∈ new, d.stop = st) := by
    intro l
    induction l with
    | nil => intro acc acc' new h h1 h2 h3 h4; cases h; exact ⟨h1, new, h2, h3, h4⟩
    | cons st l ih =>
      intro acc acc' new h h1 h2 h3 h4
      unfold foldE at h
      split at h
      · cases h
      · rename_i acc1 hs
        unfold addStopStep at hs
        split at hs
        · cases hs
        · rename_i hnone
          split at hs
          · rename_i hbar
            cases hs
            refine ih _ acc' new h h1 h2 ?_ ?_
            · intro d hd
              exact ⟨(h3 d hd).1, List.mem_append_left _ (h3 d hd).2.1, (h3 d hd).2.2⟩
            · intro x hx hxb
              rcases List.mem_append.1 hx with hx | hx
              · exact h4 x hx hxb
              · rw [List.mem_singleton] at hx; rw [hx] at hxb; exact absurd hbar hxb
          · rename_i hbar
            split at hs
            · cases hs
            · rename_i amount _
              cases hs
              refine ih _ acc' (new ++ [⟨some (stopValue st price amount), st, eid⟩]) h ?_ ?_ ?_ ?_
              · refine ⟨?_, ⟨?_, activeAdd_ne h1.active.nonempty _ _, ?_⟩, ?_⟩
                · simp only [armedIds, List.map_append, List.map_cons, List.map_nil]
                  rw [List.nodup_append]
                  refine ⟨h1.nodup, by simp, ?_⟩
                  intro a ha b hb e
                  rw [List.mem_singleton] at hb
                  rw [e, hb] at ha
                  exact lookupStop_none.1 hnone ha
                · rw [activeAdd_keys]
                  split
                  · exact h1.active.keys
                  · rename_i hk
                    rw [List.nodup_append]
                    refine ⟨h1.active.keys, by simp, ?_⟩
                    intro a ha b hb e
                    rw [List.mem_singleton] at hb
                    rw [e, hb] at ha
                    exact hk ha
                · intro sym
                  simp only
                  rw [activeOf_add, h1.active.ids, h1.active.ids]
                  unfold armedOf
                  rw [List.filter_append]
                  by_cases e : sym = st.symbol
                  · rw [if_pos e, e]
                    simp [armedIds]
                  · rw [if_neg e]
                    simp [armedIds, Ne.symm e]
                · intro d hd
                  rcases List.mem_append.1 hd with hd | hd
                  · exact h1.price d hd
                  · rw [List.mem_singleton] at hd; rw [hd]; exact hbar
              · simp only [h2, List.append_assoc]
              · intro d hd
                rcases List.mem_append.1 hd with hd | hd
                · exact ⟨(h3 d hd).1, List.mem_append_left _ (h3 d hd).2.1, (h3 d hd).2.2⟩
                · rw [List.mem_singleton] at hd
                  rw [hd]
                  exact ⟨rfl, List.mem_append_right _ List.mem_cons_self, hbar⟩
              · intro x hx hxb
                rcases List.mem_append.1 hx with hx | hx
                · obtain ⟨d, hd, e⟩ := h4 x hx hxb
                  exact ⟨d, List.mem_append_left _ hd, e⟩
                · rw [List.mem_singleton] at hx
                  exact ⟨_, List.mem_append_right _ List.mem_cons_self, hx.symm⟩
  have := key l ([], s) (es, s') [] ha h (by simp) (by simp) (by simp)
  exact this

/-! ## Stops of open entries -/

/-- The stop is attached to the open entry with this id. -/
def HasStop (s : Portfolio) (eid : Nat) (st : Stop) : Prop :=
  ∃ pt, ∃ p ∈ s.book pt, ∃ e ∈ p.entries, e.id = eid ∧ st ∈ e.stops

/-- The stop is armed for the entry with this id. -/
def Armed (s : Portfolio) (eid : Nat) (st : Stop) : Prop :=
  ∃ d ∈ s.stopData, d.stop = st ∧ d.entryId = eid

/-- Stop ids identify stops among `U`; entries carry stops of `U` only, each
once. -/
structure RegInv (U : List Stop) (s : Portfolio) : Prop where
  index : IndexOK s
  univ : AllEntries (fun _ _ e => (∀ st ∈ e.stops, st ∈ U) ∧ (e.stops.map Stop.id).Nodup) s
  armed : ∀ eid st, st.stopType ≠ .bar → (HasStop s eid st ↔ Armed s eid st)

theorem univ_rules (U : List Stop) {Q : Guard}
    (hQ : ∀ l, Q.stops l → (∀ st ∈ l, st ∈ U) ∧ (l.map Stop.id).Nodup) :
    EntryRules Q (fun _ _ e => (∀ st ∈ e.stops, st ∈ U) ∧ (e.stops.map Stop.id).Nodup) where
  take := fun _ _ _ _ _ h => h
  new := by
    rintro s pt date sym n fill es h0 hf hfit ⟨stops, hS, heq⟩
    have hperm : es.Perm stops := heq ▸ List.perm_insertionSort _ _
    obtain ⟨h1, h2⟩ := hQ stops hS
    exact ⟨fun st hst => h1 st (hperm.subset hst), ((hperm.map Stop.id).nodup_iff).2 h2⟩
  excursion := fun _ _ _ _ _ h => h
  incr := fun _ _ _ _ _ h => h
  stops := fun _ _ _ _ hl h =>
    ⟨fun st hst => h.1 st (hl.subset hst), h.2.sublist (hl.map Stop.id)⟩

/-- Two open entries with one id are one. -/
theorem WF.entry_unique {Z : List Nat} {s : Portfolio} (h : WF Z s) {pt pt' : PosType}
    {p q : Position} {e f : Entry} (hp : p ∈ s.book pt) (hq : q ∈ s.book pt') (he : e ∈ p.entries)
    (hf : f ∈ q.entries) (hid : e.id = f.id) : pt = pt' ∧ p = q ∧ e = f := by
  have hsym := h.owner pt pt' p hp q hq e he f hf hid
  have hpt : pt = pt' := by
    by_contra hne
    exact h.disj pt pt' hne p hp q hq hsym
  subst hpt
  have hpq : p = q := List.inj_on_of_nodup_map (h.nodup pt) hp hq hsym
  subst hpq
  exact ⟨rfl, rfl, List.inj_on_of_nodup_map (h.pos pt p hp).nodup he hf hid⟩

/-- The ids and stops of the entries of a book. -/
def stopPairs (ps : List Position) : List (Nat × List Stop) :=
  ps.flatMap (fun p => p.entries.map (fun e => (e.id, e.stops)))

theorem hasStop_pairs {s : Portfolio} {eid : Nat} {st : Stop} :
    HasStop s eid st ↔ ∃ pt, ∃ x ∈ stopPairs (s.book pt), x.1 = eid ∧ st ∈ x.2 := by
  constructor
  · rintro ⟨pt, p, hp, e, he, hid, hst⟩
    exact ⟨pt, (e.id, e.stops), List.mem_flatMap.2 ⟨p, hp, List.mem_map.2 ⟨e, he, rfl⟩⟩, hid, hst⟩
  · rintro ⟨pt, x, hx, hid, hst⟩
    obtain ⟨p, hp, hx⟩ := List.mem_flatMap.1 hx
    obtain ⟨e, he, rfl⟩ := List.mem_map.1 hx
    exact ⟨pt, p, hp, e, he, hid, hst⟩

theorem hasStop_congr {s t : Portfolio}
    (h : ∀ pt, stopPairs (t.book pt) = stopPairs (s.book pt)) (eid : Nat) (st : Stop) :
    HasStop t eid st ↔ HasStop s eid st := by
  simp only [hasStop_pairs, h]

theorem stopPairs_replace {ps : List Position} {p q : Position}
    (hp : lookupPos ps q.symbol = some p)
    (h : q.entries.map (fun e => (e.id, e.stops)) = p.entries.map (fun e => (e.id, e.stops))) :
    stopPairs (replacePos ps q) = stopPairs ps := by
  induction ps with
  | nil => rfl
  | cons a ps ih =>
    unfold lookupPos at hp
    unfold replacePos
    by_cases e : a.symbol = q.symbol
    · rw [if_pos e] at hp ⊢
      cases hp
      simp only [stopPairs, List.flatMap_cons, h]
    · rw [if_neg e] at hp ⊢
      have := ih hp
      simp only [stopPairs, List.flatMap_cons] at this ⊢
      rw [this]

theorem stopPairs_erase {ps : List Position} {sym : Sym} {p : Position}
    (hp : lookupPos ps sym = some p) (h : p.entries = []) :
    stopPairs (erasePos ps sym) = stopPairs ps := by
  induction ps with
  | nil => rfl
  | cons a ps ih =>
    unfold lookupPos at hp
    unfold erasePos
    by_cases e : a.symbol = sym
    · rw [if_pos e] at hp ⊢
      cases hp
      simp [stopPairs, List.flatMap_cons, h]
    · rw [if_neg e] at hp ⊢
      have := ih hp
      simp only [stopPairs, List.flatMap_cons] at this ⊢
      rw [this]

theorem map_pair_modEntry {id : Nat} {g : Entry → Entry}
    (hg : ∀ e, (g e).id = e.id ∧ (g e).stops = e.stops) (es : List Entry) :
    (modEntry id g es).map (fun e => (e.id, e.stops)) = es.map (fun e => (e.id, e.stops)) := by
  induction es with
  | nil => rfl
  | cons a es ih =>
    unfold modEntry
    split
    · simp [(hg a).1, (hg a).2]
    · simp [ih]

theorem mem_modEntry_iff {id : Nat} {g : Entry → Entry}
    {es : List Entry} (hn : (es.map Entry.id).Nodup) {x : Entry} :
    x ∈ modEntry id g es ↔ (x ∈ es ∧ x.id ≠ id) ∨ ∃ e ∈ es, e.id = id ∧ x = g e := by
  induction es with
  | nil => simp [modEntry]
  | cons a es ih =>
    rw [List.map_cons, List.nodup_cons] at hn
    unfold modEntry
    by_cases h : a.id = id
    · rw [if_pos h]
      have hne : ∀ y ∈ es, y.id ≠ id := by
        intro y hy e
        exact hn.1 (List.mem_map.2 ⟨y, hy, e.trans h.symm⟩)
      constructor
      · intro hx
        rcases List.mem_cons.1 hx with hx | hx
        · exact Or.inr ⟨a, List.mem_cons_self, h, hx⟩
        · exact Or.inl ⟨List.mem_cons_of_mem _ hx, hne x hx⟩
      · rintro (⟨hx, hxi⟩ | ⟨e, he, hei, rfl⟩)
        · rcases List.mem_cons.1 hx with rfl | hx
          · exact absurd h hxi
          · exact List.mem_cons_of_mem _ hx
        · rcases List.mem_cons.1 he with rfl | he
          · exact List.mem_cons_self
          · exact absurd hei (hne e he)
    · rw [if_neg h, List.mem_cons, ih hn.2]
      constructor
      · rintro (rfl | ⟨hx, hxi⟩ | ⟨e, he, hei, rfl⟩)
        · exact Or.inl ⟨List.mem_cons_self, h⟩
        · exact Or.inl ⟨List.mem_cons_of_mem _ hx, hxi⟩
        · exact Or.inr ⟨e, List.mem_cons_of_mem _ he, hei, rfl⟩
      · rintro (⟨hx, hxi⟩ | ⟨e, he, hei, rfl⟩)
        · rcases List.mem_cons.1 hx with rfl | hx
          · exact Or.inl rfl
          · exact Or.inr (Or.inl ⟨hx, hxi⟩)
        · rcases List.mem_cons.1 he with rfl | he
          · exact absurd hei h
          · exact Or.inr (Or.inr ⟨e, he, hei, rfl⟩)

theorem hasStop_modBook {Z : List Nat} {s t : Portfolio} (h : WF Z s) (id : Nat)
    {g : Entry → Entry} (hg : ∀ e, (g e).id = e.id)
    (hb : ∀ pt, t.book pt = modEntryBook id g (s.book pt)) (eid : Nat) (st : Stop) :
    HasStop t eid st ↔ (HasStop s eid st ∧ eid ≠ id) ∨
      (eid = id ∧ ∃ pt, ∃ p ∈ s.book pt, ∃ e ∈ p.entries, e.id = id ∧ st ∈ (g e).stops) := by
  constructor
  · rintro ⟨pt, q, hq, x, hx, hid, hst⟩
    rw [hb] at hq
    obtain ⟨p, hp, rfl⟩ := List.mem_map.1 hq
    rcases (mem_modEntry_iff (h.pos pt p hp).nodup).1 hx with ⟨hx, hxi⟩ | ⟨e, he, hei, rfl⟩
    · exact Or.inl ⟨⟨pt, p, hp, x, hx, hid, hst⟩, hid ▸ hxi⟩
    · exact Or.inr ⟨by rw [← hid, hg, hei], pt, p, hp, e, he, hei, hst⟩
  · rintro (⟨⟨pt, p, hp, x, hx, hid, hst⟩, hne⟩ | ⟨rfl, pt, p, hp, e, he, hei, hst⟩)
    · refine ⟨pt, { p with entries := modEntry id g p.entries }, ?_, x, ?_, hid, hst⟩
      · rw [hb]; exact List.mem_map.2 ⟨p, hp, rfl⟩
      · exact (mem_modEntry_iff (h.pos pt p hp).nodup).2 (Or.inl ⟨hx, hid ▸ hne⟩)
    · refine ⟨pt, { p with entries := modEntry eid g p.entries }, ?_, g e, ?_, by rw [hg, hei], hst⟩
      · rw [hb]; exact List.mem_map.2 ⟨p, hp, rfl⟩
      · exact (mem_modEntry_iff (h.pos pt p hp).nodup).2 (Or.inr ⟨e, he, hei, rfl⟩)

theorem mem_eraseEntry {es : List Entry} (hn : (es.map Entry.id).Nodup) {id : Nat} {x : Entry} :
    x ∈ eraseEntry es id ↔ x ∈ es ∧ x.id ≠ id := by
  induction es with
  | nil => simp [eraseEntry]
  | cons a es ih =>
    rw [List.map_cons, List.nodup_cons] at hn
    unfold eraseEntry
    by_cases h : a.id = id
    · rw [if_pos h]
      constructor
      · intro hx
        refine ⟨List.mem_cons_of_mem _ hx, fun e => hn.1 (List.mem_map.2 ⟨x, hx, e.trans h.symm⟩)⟩
      · rintro ⟨hx, hxi⟩
        rcases List.mem_cons.1 hx with rfl | hx
        · exact absurd h hxi
        · exact hx
    · rw [if_neg h, List.mem_cons, ih hn.2, List.mem_cons]
      constructor
      · rintro (rfl | ⟨hx, hxi⟩)
        · exact ⟨Or.inl rfl, h⟩
        · exact ⟨Or.inr hx, hxi⟩
      · rintro ⟨rfl | hx, hxi⟩
        · exact Or.inl rfl
        · exact Or.inr ⟨hx, hxi⟩

theorem hasStop_drop {Z : List Nat} {s t : Portfolio} {pt : PosType} {p : Position} {e : Entry}
    (h : WF Z s) (hp : lookupPos (s.book pt) p.symbol = some p) (he : e ∈ p.entries)
    (hb : t.book pt = replacePos (s.book pt) { p with entries := eraseEntry p.entries e.id })
    (hb' : ∀ pt', pt ≠ pt' → t.book pt' = s.book pt') (eid : Nat) (st : Stop) :
    HasStop t eid st ↔ HasStop s eid st ∧ eid ≠ e.id := by
  obtain ⟨hpm, -⟩ := lookupPos_some hp
  constructor
  · rintro ⟨pt', q, hq, x, hx, hid, hst⟩
    by_cases hpt : pt = pt'
    · subst hpt
      rw [hb] at hq
      rcases mem_replacePos (h.nodup pt) hq with rfl | ⟨hq, hqs⟩
      · obtain ⟨hx, hxi⟩ := (mem_eraseEntry (h.pos pt p hpm).nodup).1 hx
        exact ⟨⟨pt, p, hpm, x, hx, hid, hst⟩, hid ▸ hxi⟩
      · refine ⟨⟨pt, q, hq, x, hx, hid, hst⟩, ?_⟩
        intro e0
        have := h.owner pt pt q hq p hpm x hx e he (hid.trans e0)
        exact hqs this
    · rw [hb' pt' hpt] at hq
      refine ⟨⟨pt', q, hq, x, hx, hid, hst⟩, ?_⟩
      intro e0
      exact hpt (h.entry_unique hpm hq he hx (hid.trans e0).symm).1
  · rintro ⟨⟨pt', q, hq, x, hx, hid, hst⟩, hne⟩
    by_cases hpt : pt = pt'
    · subst hpt
      by_cases hs : q.symbol = p.symbol
      · have hqp : q = p := List.inj_on_of_nodup_map (h.nodup pt) hq hpm hs
        subst hqp
        refine ⟨pt, { q with entries := eraseEntry q.entries e.id }, ?_, x,
          (mem_eraseEntry (h.pos pt q hpm).nodup).2 ⟨hx, hid ▸ hne⟩, hid, hst⟩
        rw [hb]
        exact mem_replacePos_self (List.mem_map.2 ⟨q, hq, rfl⟩)
      · refine ⟨pt, q, ?_, x, hx, hid, hst⟩
        rw [hb]
        exact mem_replacePos_of_ne hq hs
    · exact ⟨pt', q, by rw [hb' pt' hpt]; exact hq, x, hx, hid, hst⟩

theorem hasStop_opened {cfg : Config} {s : Portfolio} {pt : PosType} {date : Date} {sym : Sym}
    {n fill : ℚ} {es : List Stop} {sda : List StopData} {ac : List (Sym × List Nat)}
    (h : WF [] s) (eid : Nat) (st : Stop) :
    HasStop (openedPf cfg s pt date sym n fill es sda ac) eid st ↔
      HasStop s eid st ∨ (eid = s.entryId + 1 ∧ st ∈ es) := by
  constructor
  · rintro ⟨pt', q, hq, x, hx, hid, hst⟩
    by_cases hpt : pt = pt'
    · subst hpt
      rw [openedPf_book] at hq
      unfold openedBook at hq
      split at hq
      · rcases List.mem_append.1 hq with hq | hq
        · exact Or.inl ⟨pt, q, hq, x, hx, hid, hst⟩
        · rw [List.mem_singleton] at hq
          subst hq
          simp only [openedPos, List.mem_singleton] at hx
          subst hx
          exact Or.inr ⟨hid.symm, hst⟩
      · rename_i p hp
        obtain ⟨hpm, hps⟩ := lookupPos_some hp
        rcases mem_replacePos (h.nodup _) hq with rfl | ⟨hq, _⟩
        · simp only [openedPos, List.mem_append, List.mem_singleton] at hx
          rcases hx with hx | rfl
          · exact Or.inl ⟨pt, p, hpm, x, hx, hid, hst⟩
          · exact Or.inr ⟨hid.symm, hst⟩
        · exact Or.inl ⟨pt, q, hq, x, hx, hid, hst⟩
    · rw [openedPf_book_ne _ _ _ _ _ _ _ _ _ _ hpt] at hq
      exact Or.inl ⟨pt', q, hq, x, hx, hid, hst⟩
  · rintro (⟨pt', q, hq, x, hx, hid, hst⟩ | ⟨rfl, hst⟩)
    · by_cases hpt : pt = pt'
      · subst hpt
        rcases Option.eq_none_or_eq_some (lookupPos (s.book pt) sym) with hn | ⟨p, hp⟩
        · refine ⟨pt, q, ?_, x, hx, hid, hst⟩
          rw [openedPf_book]
          unfold openedBook
          rw [hn]
          exact List.mem_append_left _ hq
        · obtain ⟨hpm, hps⟩ := lookupPos_some hp
          by_cases hs : q.symbol = p.symbol
          · have hqp : q = p := List.inj_on_of_nodup_map (h.nodup pt) hq hpm hs
            subst hqp
            refine ⟨pt, openedPos s pt date sym n fill es (some q), ?_, x,
              List.mem_append_left _ hx, hid, hst⟩
            rw [openedPf_book]
            unfold openedBook
            rw [hp]
            exact mem_replacePos_self (List.mem_map.2 ⟨q, hq, rfl⟩)
          · refine ⟨pt, q, ?_, x, hx, hid, hst⟩
            rw [openedPf_book]
            unfold openedBook
            rw [hp]
            exact mem_replacePos_of_ne hq hs
      · exact ⟨pt', q, by rw [openedPf_book_ne _ _ _ _ _ _ _ _ _ _ hpt]; exact hq, x, hx, hid, hst⟩
    · rcases Option.eq_none_or_eq_some (lookupPos (s.book pt) sym) with hn | ⟨p, hp⟩
      · refine ⟨pt, openedPos s pt date sym n fill es none, ?_,
          newEntry s pt date sym n fill es, by simp [openedPos], rfl, hst⟩
        rw [openedPf_book]
        unfold openedBook
        rw [hn]
        exact List.mem_append_right _ List.mem_cons_self
      · obtain ⟨hpm, hps⟩ := lookupPos_some hp
        refine ⟨pt, openedPos s pt date sym n fill es (some p), ?_,
          newEntry s pt date sym n fill es, by simp [openedPos], rfl, hst⟩
        rw [openedPf_book]
        unfold openedBook
        rw [hp]
        exact mem_replacePos_self (List.mem_map.2 ⟨p, hpm, rfl⟩)

/-- Dropping a stop by id leaves the stops with other ids. -/
theorem hasStop_dropBook {id : Nat} {ps : List Position} {eid : Nat} {st : Stop}
    (hid : st.id ≠ id) :
    (∃ q ∈ (dropStopBook id ps).1, ∃ x ∈ q.entries, x.id = eid ∧ st ∈ x.stops) ↔
      ∃ q ∈ ps, ∃ x ∈ q.entries, x.id = eid ∧ st ∈ x.stops := by
  have hes : ∀ es : List Entry, (∃ x ∈ (dropStopEntries id es).1, x.id = eid ∧ st ∈ x.stops) ↔
      ∃ x ∈ es, x.id = eid ∧ st ∈ x.stops := by
    intro es
    induction es with
    | nil => simp [dropStopEntries]
    | cons a es ih =>
      unfold dropStopEntries
      split
      · have hm : st ∈ a.stops.eraseP (fun st => decide (st.id = id)) ↔ st ∈ a.stops :=
          List.mem_eraseP_of_neg (by simpa using hid)
        simp only [List.mem_cons, exists_eq_or_imp, hm]
      · simp only [List.mem_cons, exists_eq_or_imp, ih]
  induction ps with
  | nil => simp [dropStopBook]
  | cons a ps ih =>
    unfold dropStopBook
    simp only
    split
    · simp only [List.mem_cons, exists_eq_or_imp, hes]
    · simp only [List.mem_cons, exists_eq_or_imp, ih]

/-! ## The invariant -/

theorem RegInv.congr {U : List Stop} {s t : Portfolio} (h : RegInv U s)
    (hu : AllEntries (fun _ _ e => (∀ st ∈ e.stops, st ∈ U) ∧ (e.stops.map Stop.id).Nodup) t)
    (h1 : t.stopData = s.stopData) (h2 : t.active = s.active)
    (hp : ∀ pt, stopPairs (t.book pt) = stopPairs (s.book pt)) : RegInv U t where
  index := h.index.frame h1 h2
  univ := hu
  armed := by
    intro eid st hb
    rw [hasStop_congr hp, h.armed eid st hb]
    unfold Armed
    rw [h1]

/-- Records with the id of an attached stop are for that stop and entry. -/
theorem RegInv.record {U : List Stop} {s : Portfolio} (h : RegInv U s)
    (hU : (U.map Stop.id).Nodup) {eid : Nat} {st : Stop} (hs : HasStop s eid st) {d : StopData}
    (hd : d ∈ s.stopData) (hid : d.stop.id = st.id) : d.stop = st ∧ d.entryId = eid := by
  have hb := h.index.price d hd
  have hd' : HasStop s d.entryId d.stop := (h.armed _ _ hb).2 ⟨d, hd, rfl, rfl⟩
  obtain ⟨pt, p, hp, e, he, hei, hst⟩ := hs
  obtain ⟨pt', p', hp', e', he', hei', hst'⟩ := hd'
  have heq : d.stop = st := List.inj_on_of_nodup_map hU
    ((h.univ pt' p' hp' e' he').1 _ hst') ((h.univ pt p hp e he).1 _ hst) hid
  refine ⟨heq, ?_⟩
  obtain ⟨d', hd', h1, h2⟩ := (h.armed eid st (heq ▸ hb)).1 ⟨pt, p, hp, e, he, hei, hst⟩
  have : d = d' := List.inj_on_of_nodup_map h.index.nodup hd hd' (by simp only [h1, heq])
  rw [this, h2]

/-- Disarming the stops of an entry removes exactly the records of that entry. -/
theorem RegInv.disarm {Z : List Nat} {U : List Stop} {s : Portfolio} (h : RegInv U s)
    (hU : (U.map Stop.id).Nodup) (hw : WF Z s) {pt : PosType} {p : Position} {e : Entry}
    (hp : p ∈ s.book pt) (he : e ∈ p.entries) :
    IndexOK (s.removeStopData e.stops) ∧
      ∀ d, d ∈ (s.removeStopData e.stops).stopData ↔ d ∈ s.stopData ∧ d.entryId ≠ e.id := by
  have hrec : ∀ st ∈ e.stops, ∀ d ∈ s.stopData, d.stop.id = st.id →
      d.stop = st ∧ d.entryId = e.id := fun st hst d hd hid =>
    h.record hU ⟨pt, p, hp, e, he, rfl, hst⟩ hd hid
  obtain ⟨h1, h2⟩ := removeStopData_spec e.stops s h.index
    (fun st hst d hd hid => by rw [(hrec st hst d hd hid).1])
  refine ⟨h1, ?_⟩
  intro d
  rw [h2, List.mem_filter]
  refine and_congr_right (fun hd => ?_)
  simp only [decide_eq_true_eq]
  refine not_congr ?_
  constructor
  · intro hm
    obtain ⟨st, hst, hid⟩ := List.mem_map.1 hm
    exact (hrec st hst d hd hid.symm).2
  · intro hid
    obtain ⟨pt', p', hp', e', he', hei', hst'⟩ :=
      (h.armed d.entryId d.stop (h.index.price d hd)).2 ⟨d, hd, rfl, rfl⟩
    obtain ⟨_, _, rfl⟩ := hw.entry_unique hp' hp he' he (hei'.trans hid)
    exact List.mem_map.2 ⟨d.stop, hst', rfl⟩

theorem removeStopData_data (s t : Portfolio) (l : List Stop) (h1 : s.stopData = t.stopData)
    (h2 : s.active = t.active) :
    (s.removeStopData l).stopData = (t.removeStopData l).stopData ∧
      (s.removeStopData l).active = (t.removeStopData l).active := by
  induction l generalizing s t with
  | nil => exact ⟨h1, h2⟩
  | cons st l ih =>
    unfold Portfolio.removeStopData
    rw [h1]
    split
    · exact ih s t h1 h2
    · exact ih _ _ (by simp only) (by simp only [h2])

theorem stopPairs_map_congr {ps : List Position} {g : Position → Position}
    (hg : ∀ p, (g p).entries.map (fun e => (e.id, e.stops)) =
      p.entries.map (fun e => (e.id, e.stops))) : stopPairs (ps.map g) = stopPairs ps := by
  unfold stopPairs
  rw [List.flatMap_map]
  congr 1
  funext p
  exact hg p

theorem RegInv.prim {U : List Stop} (hU : (U.map Stop.id).Nodup) {cfg : Config} {Q : Guard}
    (hQ : ∀ l, Q.stops l → (∀ st ∈ l, st ∈ U) ∧ (l.map Stop.id).Nodup)
    {s t : Portfolio} (hp : Prim cfg Q s t) (h : RegInv U s) : RegInv U t := by
  have hu := AllEntries.prim (univ_rules U hQ).toPrimRules hp h.univ
  cases hp with
  | @exit Z _ pt p e sh fill date st hw hp he hz h0 hle hQ =>
    refine h.congr hu ?_ ?_ ?_
    · cases pt <;> rfl
    · cases pt <;> rfl
    · intro pt'
      by_cases hpt : pt = pt'
      · subst hpt
        rw [store_book, exitPf_book]
        refine stopPairs_replace (p := p) (by rw [takeShares_symbol]; exact hp) ?_
        rw [takeShares_entries]
        exact map_pair_modEntry (by intro e; exact ⟨rfl, rfl⟩) _
      · rw [store_book_ne _ _ hpt, exitPf_book]
  | @drop Z _ pt p e hw hp he hz =>
    obtain ⟨hpm, -⟩ := lookupPos_some hp
    obtain ⟨hem, -⟩ := findEntry_some he
    obtain ⟨h1, h2⟩ := h.disarm hU hw hpm hem
    refine ⟨h1.frame (by cases pt <;> rfl) (by cases pt <;> rfl), hu, ?_⟩
    intro eid st hb
    rw [hasStop_drop hw hp hem (by rw [store_book, removeStopData_book])
      (fun pt' hne => by rw [store_book_ne _ _ hne, removeStopData_book]), h.armed eid st hb]
    unfold Armed
    have hsd : ((s.removeStopData e.stops).store pt
        { p with entries := eraseEntry p.entries e.id }).stopData =
        (s.removeStopData e.stops).stopData := by cases pt <;> rfl
    rw [hsd]
    constructor
    · rintro ⟨⟨d, hd, hds, hde⟩, hne⟩
      exact ⟨d, (h2 d).2 ⟨hd, hde ▸ hne⟩, hds, hde⟩
    · rintro ⟨d, hd, hds, hde⟩
      exact ⟨⟨d, ((h2 d).1 hd).1, hds, hde⟩, hde ▸ ((h2 d).1 hd).2⟩
  | @close Z _ pt p hw hp hnil =>
    refine h.congr hu ?_ ?_ ?_
    · cases pt <;> rfl
    · cases pt <;> rfl
    · intro pt'
      have : ({ s.setBook pt (erasePos (s.book pt) p.symbol) with
          symbols := s.symbols.erase p.symbol } : Portfolio).book pt' =
          (s.setBook pt (erasePos (s.book pt) p.symbol)).book pt' := by cases pt' <;> rfl
      rw [this]
      by_cases hpt : pt = pt'
      · subst hpt; rw [book_setBook]; exact stopPairs_erase hp hnil
      · rw [book_setBook_ne _ _ hpt]
  | @opened _ sd date sym n m fill stops es sda ac hw h0 hf hno hclamp hnm hcap hmode hfit hS hadd =>
    obtain ⟨h1, new, hnew, hn1, hn2⟩ := addStops_spec (h.index.frame (t := { s with
        cash := s.cash - n * fill / levOf cfg, entryId := s.entryId + 1,
        cachedLongMv := none, cachedShortMv := none }) rfl rfl) hadd
    refine ⟨h1.frame rfl rfl, hu, ?_⟩
    intro eid st hb
    rw [hasStop_opened hw, h.armed eid st hb]
    have hsd : (openedPf cfg s sd.opens date sym n fill es sda ac).stopData = s.stopData ++ new :=
      hnew
    unfold Armed
    rw [hsd]
    constructor
    · rintro (⟨d, hd, hds, hde⟩ | ⟨rfl, hst⟩)
      · exact ⟨d, List.mem_append_left _ hd, hds, hde⟩
      · obtain ⟨d, hd, hds⟩ := hn2 st hst hb
        exact ⟨d, List.mem_append_right _ hd, hds, (hn1 d hd).1⟩
    · rintro ⟨d, hd, hds, hde⟩
      rcases List.mem_append.1 hd with hd | hd
      · exact Or.inl ⟨d, hd, hds, hde⟩
      · obtain ⟨k1, k2, k3⟩ := hn1 d hd
        exact Or.inr ⟨hde ▸ k1, hds ▸ k2⟩
  | order h0 hlim hQ => exact h.congr hu rfl rfl (fun pt => by simp)
  | caches hm => exact h.congr hu rfl rfl (fun pt => by cases pt <;> rfl)
  | stopValue id v =>
    have hmap : ∀ ds : List StopData, (setStopValue ds id v).map (fun d => (d.stop, d.entryId)) =
        ds.map (fun d => (d.stop, d.entryId)) := by
      intro ds
      induction ds with
      | nil => rfl
      | cons d ds ih =>
        unfold setStopValue
        split
        · rfl
        · simp [ih]
    have hids : ∀ sym, armedOf (setStopValue s.stopData id v) sym = armedOf s.stopData sym := by
      intro sym
      have key : ∀ ds : List StopData, armedOf ds sym =
          ((ds.map (fun d => (d.stop, d.entryId))).filter
            (fun x => decide (x.1.symbol = sym))).map (fun x => x.1.id) := by
        intro ds
        unfold armedOf armedIds
        rw [List.filter_map, List.map_map]
        rfl
      rw [key, key, hmap]
    have hmem : ∀ eid st, Armed { s with stopData := setStopValue s.stopData id v } eid st ↔
        Armed s eid st := by
      intro eid st
      have key : ∀ t : Portfolio, Armed t eid st ↔
          (st, eid) ∈ t.stopData.map (fun d => (d.stop, d.entryId)) := by
        intro t
        unfold Armed
        rw [List.mem_map]
        simp [Prod.ext_iff]
      rw [key, key, hmap]
    refine ⟨⟨?_, ⟨h.index.active.keys, h.index.active.nonempty, ?_⟩, ?_⟩, hu, ?_⟩
    · have key : ∀ ds : List StopData, armedIds ds =
          (ds.map (fun d => (d.stop, d.entryId))).map (fun x => x.1.id) := by
        intro ds; unfold armedIds; rw [List.map_map]; rfl
      rw [key]
      simp only
      rw [hmap, ← key]
      exact h.index.nodup
    · intro sym
      rw [hids]
      exact h.index.active.ids sym
    · intro d hd
      have hm : (d.stop, d.entryId) ∈ s.stopData.map (fun d => (d.stop, d.entryId)) := by
        rw [← hmap]; exact List.mem_map.2 ⟨d, hd, rfl⟩
      obtain ⟨d', hd', he⟩ := List.mem_map.1 hm
      have := h.index.price d' hd'
      have h1 : d'.stop = d.stop := (Prod.ext_iff.1 he).1
      rwa [h1] at this
    · intro eid st hb
      rw [hmem, ← h.armed eid st hb]
      exact hasStop_congr (fun pt => by cases pt <;> rfl) eid st
  | incr hasBar =>
    refine h.congr hu rfl rfl (fun pt => ?_)
    have : (incrBars s hasBar).book pt = (s.book pt).map (Position.incrBars hasBar) := by
      cases pt <;> rfl
    rw [this]
    refine stopPairs_map_congr (fun p => ?_)
    simp only [Position.incrBars, List.map_map]
    rfl
  | removeStop id hw =>
    rcases Option.eq_none_or_eq_some (lookupStop s.stopData id) with hn | ⟨d, hd⟩
    · have hsd : (PyBroker.removeStop s id).2.stopData = s.stopData ∧
          (PyBroker.removeStop s id).2.active = s.active := by
        unfold PyBroker.removeStop
        rw [hn]
        simp only
        split
        · exact ⟨rfl, rfl⟩
        · split <;> exact ⟨rfl, rfl⟩
      refine ⟨h.index.frame hsd.1 hsd.2, hu, ?_⟩
      intro eid st hb
      have harm : Armed (PyBroker.removeStop s id).2 eid st ↔ Armed s eid st := by
        unfold Armed; rw [hsd.1]
      rw [harm, ← h.armed eid st hb]
      by_cases hid : st.id = id
      · have hnot : ¬ HasStop s eid st := by
          intro hs
          obtain ⟨d, hd, hds, _⟩ := (h.armed eid st hb).1 hs
          exact lookupStop_none.1 hn (List.mem_map.2 ⟨d, hd, by rw [hds, hid]⟩)
        refine ⟨fun hs => ?_, fun hs => absurd hs hnot⟩
        obtain ⟨pt, q, hq, x, hx, hxi, hxs⟩ := hs
        have hsub : ∀ ps, q ∈ (dropStopBook id ps).1 → ∃ p ∈ ps, ∃ e ∈ p.entries, e.id = eid ∧
            st ∈ e.stops := by
          intro ps hq
          obtain ⟨p, hp, _, hl⟩ := mem_dropStopBook hq
          obtain ⟨e, he, l, hsub, rfl⟩ := hl x hx
          exact ⟨p, hp, e, he, hxi, hsub.subset hxs⟩
        have hq2 : q ∈ s.book pt ∨ q ∈ (dropStopBook id (s.book pt)).1 := by
          unfold PyBroker.removeStop at hq
          rw [hn] at hq
          simp only at hq
          split at hq
          · cases pt
            · exact Or.inr hq
            · exact Or.inl hq
          · split at hq
            · cases pt
              · exact Or.inl hq
              · exact Or.inr hq
            · exact Or.inl hq
        rcases hq2 with hq2 | hq2
        · exact ⟨pt, q, hq2, x, hx, hxi, hxs⟩
        · exact ⟨pt, hsub _ hq2⟩
      · unfold PyBroker.removeStop
        rw [hn]
        simp only
        have hall : ∀ t : Portfolio, HasStop t eid st ↔
            (∃ q ∈ t.longs, ∃ x ∈ q.entries, x.id = eid ∧ st ∈ x.stops) ∨
            (∃ q ∈ t.shorts, ∃ x ∈ q.entries, x.id = eid ∧ st ∈ x.stops) := by
          intro t
          constructor
          · rintro ⟨pt, h⟩
            cases pt
            · exact Or.inl h
            · exact Or.inr h
          · rintro (h | h)
            · exact ⟨.long, h⟩
            · exact ⟨.short, h⟩
        split
        · rw [hall, hall]
          exact or_congr (hasStop_dropBook hid) Iff.rfl
        · split
          · rw [hall, hall]
            exact or_congr Iff.rfl (hasStop_dropBook hid)
          · exact Iff.rfl
    · obtain ⟨hdm, hdi⟩ := lookupStop_some hd
      have k := h.index.erase hdm
      have hrs : (PyBroker.removeStop s id).2 =
        { s with
          stopData := eraseStop s.stopData d.stop.id
          active := activeRemove s.active d.stop.symbol d.stop.id
          longs := modEntryBook d.entryId
            (fun e => { e with stops := e.stops.erase d.stop }) s.longs
          shorts := modEntryBook d.entryId
            (fun e => { e with stops := e.stops.erase d.stop }) s.shorts } := by
        unfold PyBroker.removeStop
        rw [hd, hdi]
      rw [hrs] at hu ⊢
      refine ⟨k.frame rfl rfl, hu, ?_⟩
      intro eid st hb
      rw [hasStop_modBook hw d.entryId (g := fun e => { e with stops := e.stops.erase d.stop })
        (by intro e; rfl) (fun pt => by cases pt <;> rfl)]
      unfold Armed
      simp only
      rw [eraseStop_eq_filter h.index.nodup]
      constructor
      · rintro (⟨hs, hne⟩ | ⟨rfl, pt, p, hp, e, he, hei, hst⟩)
        · obtain ⟨d', hd', h1, h2⟩ := (h.armed eid st hb).1 hs
          refine ⟨d', List.mem_filter.2 ⟨hd', ?_⟩, h1, h2⟩
          simp only [ne_eq, decide_not, Bool.not_eq_eq_eq_not, Bool.not_true,
            decide_eq_false_iff_not]
          intro hid
          have : d' = d := List.inj_on_of_nodup_map h.index.nodup hd' hdm hid
          exact hne (by rw [← h2, this])
        · have hnd : e.stops.Nodup := (h.univ pt p hp e he).2.of_map
          obtain ⟨hne, hst⟩ := hnd.mem_erase_iff.1 hst
          obtain ⟨d', hd', h1, h2⟩ := (h.armed _ st hb).1 ⟨pt, p, hp, e, he, hei, hst⟩
          refine ⟨d', List.mem_filter.2 ⟨hd', ?_⟩, h1, h2⟩
          simp only [ne_eq, decide_not, Bool.not_eq_eq_eq_not, Bool.not_true,
            decide_eq_false_iff_not]
          intro hid
          have : d' = d := List.inj_on_of_nodup_map h.index.nodup hd' hdm hid
          exact hne (by rw [← h1, this])
      · rintro ⟨d', hd', h1, h2⟩
        obtain ⟨hd', hid⟩ := List.mem_filter.1 hd'
        simp only [ne_eq, decide_not, Bool.not_eq_eq_eq_not, Bool.not_true,
            decide_eq_false_iff_not] at hid
        obtain ⟨pt, p, hp, e, he, hei, hst⟩ := (h.armed eid st hb).2 ⟨d', hd', h1, h2⟩
        by_cases hee : eid = d.entryId
        · refine Or.inr ⟨hee, pt, p, hp, e, he, hei.trans hee, ?_⟩
          have hnd : e.stops.Nodup := (h.univ pt p hp e he).2.of_map
          refine hnd.mem_erase_iff.2 ⟨?_, hst⟩
          intro e0
          exact hid (by rw [h1, e0])
        · exact Or.inl ⟨⟨pt, p, hp, e, he, hei, hst⟩, hee⟩
  | @clearStops _ pt p e hw hp he =>
    obtain ⟨h1, h2⟩ := h.disarm hU hw hp he
    refine ⟨h1.frame rfl rfl, hu, ?_⟩
    intro eid st hb
    rw [hasStop_modBook hw e.id (g := fun e' => { e' with stops := [] }) (by intro e; rfl)
      (fun pt => by
        cases pt
        · exact congrArg (modEntryBook e.id _) (removeStopData_book s e.stops .long)
        · exact congrArg (modEntryBook e.id _) (removeStopData_book s e.stops .short)),
      h.armed eid st hb]
    constructor
    · rintro (⟨⟨d, hd, hds, hde⟩, hne⟩ | ⟨_, _, _, _, _, _, _, hst⟩)
      · exact ⟨d, (h2 d).2 ⟨hd, hde ▸ hne⟩, hds, hde⟩
      · simp at hst
    · rintro ⟨d, hd, hds, hde⟩
      exact Or.inl ⟨⟨d, ((h2 d).1 hd).1, hds, hde⟩, hde ▸ ((h2 d).1 hd).2⟩

theorem stopPairs_captureLong (q : BarQuote) (acc : CaptureAcc) (sym : Sym) (pt : PosType) :
    stopPairs ((captureLong q acc sym).pf.book pt) = stopPairs (acc.pf.book pt) := by
  unfold captureLong
  split
  · rfl
  · rename_i p hp
    obtain ⟨hpm, hps⟩ := lookupPos_some hp
    split
    · rename_i c _
      cases pt
      · refine stopPairs_replace (p := p) (by rw [show (p.markLong c q.low q.high).symbol = p.symbol from rfl, hps]; exact hp) ?_
        rw [markLong_entries, List.map_map]
        rfl
      · rfl
    · rfl

theorem stopPairs_captureShort (q : BarQuote) (acc : CaptureAcc) (sym : Sym) (pt : PosType) :
    stopPairs ((captureShort q acc sym).pf.book pt) = stopPairs (acc.pf.book pt) := by
  unfold captureShort
  split
  · rfl
  · rename_i p hp
    obtain ⟨hpm, hps⟩ := lookupPos_some hp
    split
    · rename_i c _
      cases pt
      · rfl
      · refine stopPairs_replace (p := p) (by rw [show (p.markShort c q.low q.high).symbol = p.symbol from rfl, hps]; exact hp) ?_
        rw [markShort_entries, List.map_map]
        rfl
    · rfl

theorem stopPairs_captureFold (quote : Sym → BarQuote) (syms : List Sym) (acc : CaptureAcc)
    (pt : PosType) : stopPairs ((syms.foldl (captureSym quote) acc).pf.book pt) =
      stopPairs (acc.pf.book pt) := by
  induction syms generalizing acc with
  | nil => rfl
  | cons sym syms ih =>
    rw [List.foldl_cons, ih]
    unfold captureSym
    rw [stopPairs_captureShort, stopPairs_captureLong]

/-- Capturing a bar does not touch the registry. -/
theorem captureFold_reg (quote : Sym → BarQuote) (syms : List Sym) (acc : CaptureAcc) :
    (syms.foldl (captureSym quote) acc).pf.stopData = acc.pf.stopData ∧
      (syms.foldl (captureSym quote) acc).pf.active = acc.pf.active := by
  have hL : ∀ (q : BarQuote) (acc : CaptureAcc) (sym : Sym),
      (captureLong q acc sym).pf.stopData = acc.pf.stopData ∧
      (captureLong q acc sym).pf.active = acc.pf.active := by
    intro q acc sym
    unfold captureLong
    split
    · exact ⟨rfl, rfl⟩
    · split <;> exact ⟨rfl, rfl⟩
  have hS : ∀ (q : BarQuote) (acc : CaptureAcc) (sym : Sym),
      (captureShort q acc sym).pf.stopData = acc.pf.stopData ∧
      (captureShort q acc sym).pf.active = acc.pf.active := by
    intro q acc sym
    unfold captureShort
    split
    · exact ⟨rfl, rfl⟩
    · split <;> exact ⟨rfl, rfl⟩
  induction syms generalizing acc with
  | nil => exact ⟨rfl, rfl⟩
  | cons sym syms ih =>
    rw [List.foldl_cons]
    have h1 := ih (captureSym quote acc sym)
    unfold captureSym at h1 ⊢
    exact ⟨h1.1.trans ((hS _ _ _).1.trans (hL _ _ _).1),
      h1.2.trans ((hS _ _ _).2.trans (hL _ _ _).2)⟩

theorem RegInv.capture {U : List Stop} {cfg : Config} {s : Portfolio} (date : Date)
    (quote : Sym → BarQuote) (hw : WF [] s) (h : RegInv U s) :
    RegInv U (captureBar cfg s date quote) := by
  have hu := AllEntries.captureBar (cfg := cfg)
    (univ_rules U (Q := ⟨fun _ => True, fun l => (∀ st ∈ l, st ∈ U) ∧ (l.map Stop.id).Nodup, True, True⟩)
      (fun _ h => h)) date quote hw.typed h.univ
  have hreg := captureFold_reg quote
      ((s.applyInterest cfg).symbols.insertionSort (fun a b => a ≤ b))
      { pf := s.applyInterest cfg, equity := (s.applyInterest cfg).netCash cfg,
        marketValue := (s.applyInterest cfg).netCash cfg, margin := 0, longValue := 0 }
  have hai : (s.applyInterest cfg).stopData = s.stopData ∧
      (s.applyInterest cfg).active = s.active := by
    obtain ⟨c, a, hf⟩ := applyInterest_frame cfg s
    rw [hf]; exact ⟨rfl, rfl⟩
  refine h.congr hu (hreg.1.trans hai.1) (hreg.2.trans hai.2) ?_
  intro pt
  have := stopPairs_captureFold quote
      ((s.applyInterest cfg).symbols.insertionSort (fun a b => a ≤ b))
      { pf := s.applyInterest cfg, equity := (s.applyInterest cfg).netCash cfg,
        marketValue := (s.applyInterest cfg).netCash cfg, margin := 0, longValue := 0 } pt
  have h2 : stopPairs ((s.applyInterest cfg).book pt) = stopPairs (s.book pt) := by
    rw [applyInterest_book]
  have h3 := this.trans h2
  cases pt <;> exact h3

theorem RegInv.init (U : List Stop) (cfg : Config) : RegInv U (Portfolio.init cfg) where
  index := by
    refine ⟨?_, ⟨?_, ?_, ?_⟩, ?_⟩ <;> simp [Portfolio.init, armedIds, activeOf, armedOf]
  univ := by
    intro pt p hp; cases pt <;> simp [Portfolio.init, Portfolio.book] at hp
  armed := by
    intro eid st _
    constructor
    · rintro ⟨pt, p, hp, _⟩
      cases pt <;> simp [Portfolio.init, Portfolio.book] at hp
    · rintro ⟨d, hd, _⟩
      simp [Portfolio.init] at hd

end PyBroker
