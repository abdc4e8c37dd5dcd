import Verif.Portfolio.Check

/-!
# How the level of an armed stop changes along a history
-/

namespace PyBroker

open Spec

/-- The records of stop id `i` are records of `s0`. -/
def RecordsFrom (i : Nat) (s0 t : Portfolio) : Prop :=
  ∀ d ∈ t.stopData, d.stop.id = i → d ∈ s0.stopData

theorem eraseStop_subset (ds : List StopData) (id : Nat) : ∀ d ∈ eraseStop ds id, d ∈ ds := by
  induction ds with
  | nil => exact fun _ h => h
  | cons a ds ih =>
    intro d hd
    unfold eraseStop at hd
    split at hd
    · exact List.mem_cons_of_mem _ hd
    · rcases List.mem_cons.1 hd with rfl | hd
      · exact List.mem_cons_self
      · exact List.mem_cons_of_mem _ (ih d hd)

theorem removeStopData_subset : ∀ (l : List Stop) (s : Portfolio),
    ∀ d ∈ (s.removeStopData l).stopData, d ∈ s.stopData
  | [], _, _, h => h
  | st :: l, s, d, h => by
    unfold Portfolio.removeStopData at h
    split at h
    · exact removeStopData_subset l s d h
    · exact eraseStop_subset _ _ d (removeStopData_subset l _ d h)

/-- The records added for a new entry sit at the initial level. -/
theorem addStops_new {s : Portfolio} {eid : Nat} {price : ℚ} {stops es : List Stop}
    {s' : Portfolio} (h : addStops s eid price stops = .ok (es, s')) :
    ∃ new, s'.stopData = s.stopData ++ new ∧ ∀ d ∈ new, d.stop ∈ stops ∧ d.entryId = eid ∧
      d.stop.stopType ≠ .bar ∧
      ∃ a, stopAmount d.stop price = .ok a ∧ d.value = some (stopValue d.stop price a) := by
  have hsub : ∀ st ∈ stops.insertionSort (fun a b => a.id ≤ b.id), st ∈ stops :=
    fun st hst => (List.perm_insertionSort _ _).subset hst
  unfold addStops at h
  generalize stops.insertionSort (fun a b => a.id ≤ b.id) = l at h hsub
  have key : ∀ (l : List Stop) (acc acc' : List Stop × Portfolio),
      (∀ st ∈ l, st ∈ stops) →
      foldE (addStopStep eid price) acc l = .ok acc' →
      ∃ new, acc'.2.stopData = acc.2.stopData ++ new ∧ ∀ d ∈ new, d.stop ∈ stops ∧
        d.entryId = eid ∧ d.stop.stopType ≠ .bar ∧
        ∃ a, stopAmount d.stop price = .ok a ∧ d.value = some (stopValue d.stop price a) := by
    intro l
    induction l with
    | nil => intro acc acc' _ h; cases h; exact ⟨[], by simp, by simp⟩
    | cons st l ih =>
      intro acc acc' hl h
      unfold foldE at h
      split at h
      · cases h
      · rename_i acc1 h1
        obtain ⟨new, hn1, hn2⟩ := ih acc1 acc' (fun x hx => hl x (List.mem_cons_of_mem _ hx)) h
        unfold addStopStep at h1
        split at h1
        · cases h1
        · split at h1
          · cases h1
            exact ⟨new, hn1, hn2⟩
          · rename_i hbar
            split at h1
            · cases h1
            · rename_i a ha
              cases h1
              refine ⟨⟨some (stopValue st price a), st, eid⟩ :: new, by rw [hn1]; simp, ?_⟩
              intro d hd
              rcases List.mem_cons.1 hd with rfl | hd
              · exact ⟨hl st List.mem_cons_self, rfl, hbar, a, ha, rfl⟩
              · exact hn2 d hd
  exact key l ([], s) (es, s') hsub h

theorem RecordsFrom.prim {i : Nat} {s0 : Portfolio} {cfg : Config} {Q : Guard}
    (hQ : ∀ l, Q.stops l → i ∉ l.map Stop.id) (hL : ¬ Q.level) {s t : Portfolio}
    (hp : Prim cfg Q s t) (h : RecordsFrom i s0 s) : RecordsFrom i s0 t := by
  have hsame : t.stopData = s.stopData → RecordsFrom i s0 t := by
    intro he; unfold RecordsFrom; rw [he]; exact h
  have hsub : (∀ d ∈ t.stopData, d ∈ s.stopData) → RecordsFrom i s0 t :=
    fun hs d hd hid => h d (hs d hd) hid
  cases hp with
  | @exit Z _ pt p e sh fill date st hw hp he hz h0 hle hQ => exact hsame (by cases pt <;> rfl)
  | @drop Z _ pt p e hw hp he hz =>
    refine hsub ?_
    have : ((s.removeStopData e.stops).store pt
        { p with entries := eraseEntry p.entries e.id }).stopData =
        (s.removeStopData e.stops).stopData := by cases pt <;> rfl
    rw [this]
    exact removeStopData_subset _ _
  | @close Z _ pt p hw hp hnil => exact hsame (by cases pt <;> rfl)
  | @opened _ sd date sym n m fill stops es sda ac hw h0 hf hno hclamp hnm hcap hmode hfit hS hadd =>
    obtain ⟨new, hn1, hn2⟩ := addStops_new hadd
    intro d hd hid
    have hd' : d ∈ s.stopData ++ new := by
      rw [show (openedPf cfg s sd.opens date sym n fill es sda ac).stopData = s.stopData ++ new
        from hn1] at hd
      exact hd
    rcases List.mem_append.1 hd' with hd' | hd'
    · exact h d hd' hid
    · exact absurd (List.mem_map.2 ⟨d.stop, (hn2 d hd').1, hid⟩) (hQ stops hS)
  | order h0 hlim hQ => exact hsame rfl
  | caches hm => exact hsame rfl
  | stopValue id v hl => exact absurd hl hL
  | incr hasBar => exact hsame rfl
  | removeStop id hw =>
    refine hsub ?_
    unfold PyBroker.removeStop
    split
    · exact eraseStop_subset _ _
    · simp only
      split
      · exact fun _ h => h
      · split <;> exact fun _ h => h
  | clearStops hw hp he =>
    exact hsub (removeStopData_subset _ _)

theorem captureBar_stopData (cfg : Config) (s : Portfolio) (date : Date) (quote : Sym → BarQuote) :
    (captureBar cfg s date quote).stopData = s.stopData := by
  have hreg := captureFold_reg quote
      ((s.applyInterest cfg).symbols.insertionSort (fun a b => a ≤ b))
      { pf := s.applyInterest cfg, equity := (s.applyInterest cfg).netCash cfg,
        marketValue := (s.applyInterest cfg).netCash cfg, margin := 0, longValue := 0 }
  have hai : (s.applyInterest cfg).stopData = s.stopData := by
    obtain ⟨c, a, hf⟩ := applyInterest_frame cfg s
    rw [hf]
  exact hreg.1.trans hai

/-- What one call does to the level of a stop that is still armed afterwards. -/
def opLevel (st : Stop) (v : Option ℚ) : Op → Option ℚ
  | .checkStops _ env => if env.canPrice st.symbol then nextLevel env st v else v
  | _ => v

theorem step_level {cfg : Config} {U : List Stop} (hU : (U.map Stop.id).Nodup)
    {s s' : Portfolio} {op : Op} (hg : Good s) (hf : StopsFit s) (hr : RegInv U s)
    (hr' : RegInv U s') (hfit : op.Fit) (h : step cfg s op = .ok s') {eid : Nat} {st : Stop}
    (hst : st.id ∉ (stopsOf op).map Stop.id) (hbar : st.stopType ≠ .bar)
    (ha : HasStop s' eid st) :
    HasStop s eid st ∧ ∃ d d', lookupStop s.stopData st.id = some d ∧
      lookupStop s'.stopData st.id = some d' ∧ d'.value = opLevel st d.value op := by
  obtain ⟨d', hd', hd1, hd2⟩ := (hr'.armed eid st hbar).1 ha
  have hlook' : lookupStop s'.stopData st.id = some d' :=
    hd1 ▸ lookupStop_of_mem hr'.index.nodup hd'
  by_cases hc : ∃ date env, op = .checkStops date env
  · obtain ⟨date, env, rfl⟩ := hc
    simp only [step] at h
    obtain ⟨acc, hs, hs'⟩ := checkStops_sim hg hf hr.index h
    obtain ⟨pt, p, hp, e, he, hei, hes⟩ := ha
    have hmem : e ∈ entriesOf (s'.book pt) p.symbol := mem_entriesOf.2 ⟨p, hp, rfl, he⟩
    rw [hs', finishAll_entries acc.2 acc.1 hs.inv.wf hs.inv.ne hs.inv.loc,
      entriesOf_keyed _ (hs.book pt), hs.ids] at hmem
    obtain ⟨hm1, hm2⟩ := List.mem_filter.1 hmem
    obtain ⟨e0, he0, rfl⟩ := List.mem_map.1 hm1
    have hid : ∀ e : Entry, (zeroed (exitIds (chosen env s)) e).id = e.id := by
      intro e; unfold zeroed; split <;> rfl
    have hnin : e0.id ∉ exitIds (chosen env s) := by
      rw [hid] at hm2; simpa using hm2
    have hz : zeroed (exitIds (chosen env s)) e0 = e0 := by unfold zeroed; rw [if_neg hnin]
    rw [hz] at hei hes
    obtain ⟨q, hq, hqs, heq⟩ := mem_entriesOf.1 he0
    obtain ⟨d, k1, k2, k3, k4⟩ := checkStops_level hU hg hf hr h he0 hnin hes hbar
    refine ⟨⟨pt, q, hq, e0, heq, hei, hes⟩, d, _, k3, k4, ?_⟩
    have hsym := (hf.entries pt q hq e0 heq st hes).2
    simp only [opLevel, hsym, hqs]
    split <;> rfl
  · have hrec : d' ∈ s.stopData := by
      have hkeep : RecordsFrom st.id s s' := by
        have hQ : op.Fills ⟨fun _ => True, fun l => st.id ∉ l.map Stop.id, False, True⟩ := by
          cases op with
          | buy r => exact ⟨fun _ _ => trivial, hst⟩
          | sell r => exact ⟨fun _ _ => trivial, hst⟩
          | exitPosition => exact ⟨fun _ _ => trivial, by simp⟩
          | checkStops => exact absurd ⟨_, _, rfl⟩ hc
          | _ => exact trivial
        rcases step_steps hg hf hfit hQ h with h1 | ⟨d, quote, _, rfl⟩
        · exact h1.2.inv (fun _ _ hp hs => RecordsFrom.prim (fun _ hl => hl) id hp hs)
            (fun d hd _ => hd)
        · intro d hd _
          rw [captureBar_stopData] at hd
          exact hd
      exact hkeep d' hd' (by rw [hd1])
    have hlook : lookupStop s.stopData st.id = some d' :=
      hd1 ▸ lookupStop_of_mem hr.index.nodup hrec
    refine ⟨(hr.armed eid st hbar).2 ⟨d', hrec, hd1, hd2⟩, d', d', hlook, hlook', ?_⟩
    cases op <;> first | rfl | exact absurd ⟨_, _, rfl⟩ hc

/-- `run_reg` from any state. -/
theorem runFrom_reg {cfg : Config} {U : List Stop} (hU : (U.map Stop.id).Nodup) {ops : List Op}
    {s s' : Portfolio} (hfit : ∀ op ∈ ops, op.Fit)
    (hsub : ∀ op ∈ ops, (∀ st ∈ stopsOf op, st ∈ U) ∧ ((stopsOf op).map Stop.id).Nodup)
    (hg : Good s) (hf : StopsFit s) (hr : RegInv U s)
    (h : runFrom cfg s ops = .ok s') : RegInv U s' := by
  refine runFrom_inv (P := RegInv U)
    (Q := ⟨fun _ => True, fun l => (∀ st ∈ l, st ∈ U) ∧ (l.map Stop.id).Nodup, True, True⟩)
    hfit ?_ hg hf h
    (fun s t hp hs => RegInv.prim hU (fun l hl => hl) hp hs)
    (fun s date quote hw hs => hs.capture date quote hw) hr
  intro op hop
  have hs := hsub op hop
  cases op <;> try exact trivial
  · exact ⟨fun _ _ => trivial, hs⟩
  · exact ⟨fun _ _ => trivial, hs⟩
  · exact ⟨fun _ _ => trivial, by simp⟩
  · exact ⟨fun _ _ _ _ _ _ => trivial, trivial⟩

theorem runFrom_level {cfg : Config} {U : List Stop} (hU : (U.map Stop.id).Nodup) {eid : Nat}
    {st : Stop} (hbar : st.stopType ≠ .bar) {s' : Portfolio} : ∀ (ops : List Op) {s : Portfolio},
    (∀ op ∈ ops, op.Fit) →
    (∀ op ∈ ops, (∀ st ∈ stopsOf op, st ∈ U) ∧ ((stopsOf op).map Stop.id).Nodup) →
    (∀ op ∈ ops, st.id ∉ (stopsOf op).map Stop.id) →
    Good s → StopsFit s → RegInv U s → runFrom cfg s ops = .ok s' → HasStop s' eid st →
    HasStop s eid st ∧ ∃ d d', lookupStop s.stopData st.id = some d ∧
      lookupStop s'.stopData st.id = some d' ∧ d'.value = ops.foldl (opLevel st) d.value
  | [], s, _, _, _, hg, _, hr, h, ha => by
    have he : s = s' := Except.ok.inj h
    subst he
    obtain ⟨d, hd, hd1, hd2⟩ := (hr.armed eid st hbar).1 ha
    have hlook : lookupStop s.stopData st.id = some d := hd1 ▸ lookupStop_of_mem hr.index.nodup hd
    exact ⟨ha, d, d, hlook, hlook, rfl⟩
  | op :: ops, s, hfit, hsub, hst, hg, hf, hr, h, ha => by
    have h' := h
    unfold runFrom foldE at h'
    split at h'
    · cases h'
    · rename_i s1 hs1
      obtain ⟨hg1, hf1⟩ := step_good hg hf (hfit op List.mem_cons_self) hs1
      have hr1 : RegInv U s1 := by
        refine runFrom_reg (cfg := cfg) hU (ops := [op]) (fun o ho => ?_) (fun o ho => ?_) hg hf hr (s' := s1) ?_
        · rw [List.mem_singleton.1 ho]; exact hfit op List.mem_cons_self
        · rw [List.mem_singleton.1 ho]; exact hsub op List.mem_cons_self
        · unfold runFrom foldE; rw [hs1]; rfl
      obtain ⟨k1, d1, d', hk2, hk3, hk4⟩ := runFrom_level hU hbar ops
        (fun o ho => hfit o (List.mem_cons_of_mem _ ho))
        (fun o ho => hsub o (List.mem_cons_of_mem _ ho))
        (fun o ho => hst o (List.mem_cons_of_mem _ ho)) hg1 hf1 hr1 h' ha
      obtain ⟨j1, d, d2, j2, j3, j4⟩ := step_level hU hg hf hr hr1 (hfit op List.mem_cons_self) hs1
        (hst op List.mem_cons_self) hbar k1
      rw [hk2] at j3
      cases j3
      exact ⟨j1, d, d', j2, hk3, by rw [hk4, j4, List.foldl_cons]⟩

/-- Armed stops have an amount. -/
def AmountSet (s : Portfolio) : Prop :=
  ∀ d ∈ s.stopData, d.stop.percent ≠ none ∨ d.stop.points ≠ none

theorem setStopValue_mem {ds : List StopData} {id : Nat} {v : Option ℚ} {d : StopData}
    (h : d ∈ setStopValue ds id v) : ∃ d' ∈ ds, d'.stop = d.stop := by
  induction ds with
  | nil => cases h
  | cons a ds ih =>
    unfold setStopValue at h
    split at h
    · rcases List.mem_cons.1 h with rfl | h
      · exact ⟨a, List.mem_cons_self, rfl⟩
      · exact ⟨d, List.mem_cons_of_mem _ h, rfl⟩
    · rcases List.mem_cons.1 h with rfl | h
      · exact ⟨d, List.mem_cons_self, rfl⟩
      · obtain ⟨d', hd', he⟩ := ih h
        exact ⟨d', List.mem_cons_of_mem _ hd', he⟩

theorem AmountSet.prim {cfg : Config} {Q : Guard} {s t : Portfolio}
    (hp : Prim cfg Q s t) (h : AmountSet s) : AmountSet t := by
  have hsub : (∀ d ∈ t.stopData, d ∈ s.stopData) → AmountSet t :=
    fun hs d hd => h d (hs d hd)
  cases hp with
  | @exit Z _ pt p e sh fill date st hw hp he hz h0 hle hQ =>
    exact hsub (by cases pt <;> exact fun _ h => h)
  | @drop Z _ pt p e hw hp he hz =>
    refine hsub ?_
    have : ((s.removeStopData e.stops).store pt
        { p with entries := eraseEntry p.entries e.id }).stopData =
        (s.removeStopData e.stops).stopData := by cases pt <;> rfl
    rw [this]
    exact removeStopData_subset _ _
  | @close Z _ pt p hw hp hnil => exact hsub (by cases pt <;> exact fun _ h => h)
  | @opened _ sd date sym n m fill stops es sda ac hw h0 hf hno hclamp hnm hcap hmode hfit hS hadd =>
    obtain ⟨new, hn1, hn2⟩ := addStops_new hadd
    intro d hd
    have hd' : d ∈ s.stopData ++ new := by
      rw [show (openedPf cfg s sd.opens date sym n fill es sda ac).stopData = s.stopData ++ new
        from hn1] at hd
      exact hd
    rcases List.mem_append.1 hd' with hd' | hd'
    · exact h d hd'
    · obtain ⟨_, _, _, a, ha, _⟩ := hn2 d hd'
      unfold stopAmount at ha
      split at ha
      · rename_i pct hp; exact Or.inl (by simp [hp])
      · split at ha
        · rename_i pct hp; exact Or.inr (by simp [hp])
        · cases ha
  | order h0 hlim hQ => exact hsub (fun _ h => h)
  | caches hm => exact hsub (fun _ h => h)
  | stopValue id v hl =>
    intro d hd
    obtain ⟨d', hd', he⟩ := setStopValue_mem hd
    rw [← he]
    exact h d' hd'
  | incr hasBar => exact hsub (fun _ h => h)
  | removeStop id hw =>
    refine hsub ?_
    unfold PyBroker.removeStop
    split
    · exact eraseStop_subset _ _
    · simp only
      split
      · exact fun _ h => h
      · split <;> exact fun _ h => h
  | clearStops hw hp he =>
    exact hsub (removeStopData_subset _ _)

theorem run_amount {cfg : Config} {ops : List Op} {s : Portfolio} (hfit : ∀ op ∈ ops, op.Fit)
    (h : run cfg ops = .ok s) : AmountSet s :=
  run_inv hfit h (fun _ _ hp hs => AmountSet.prim hp hs)
    (fun s date quote _ hs d hd => hs d (by rwa [captureBar_stopData] at hd))
    (fun d hd => by cases hd)

end PyBroker
