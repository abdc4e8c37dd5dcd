import Verif.Props.Liquidate
import Verif.Portfolio.History

/-!
# Where a position comes from
-/

namespace PyBroker

open PyBroker.Spec

/-- A position in the symbol is open. -/
def Spec.Held (pf : Portfolio) (sym : Sym) : Prop :=
  ∃ p, (p ∈ pf.longs ∨ p ∈ pf.shorts) ∧ p.symbol = sym

/-- An order of the symbol. -/
def OrderOf (sym : Sym) (op : Op) : Prop :=
  ∃ r, (op = .buy r ∨ op = .sell r) ∧ r.symbol = sym

/-- A forced exit of the symbol. -/
def ExitOf (sym : Sym) (op : Op) : Prop :=
  ∃ d b sf slip, op = .exitPosition d sym b sf slip

theorem held_iff {pf : Portfolio} (hg : Good pf) {sym : Sym} :
    Held pf sym ↔ ∃ pt e, e ∈ entriesOf (pf.book pt) sym := by
  constructor
  · rintro ⟨p, hp | hp, rfl⟩
    · obtain ⟨e, he⟩ := List.exists_mem_of_ne_nil _ (hg.ne .long p hp)
      exact ⟨.long, e, mem_entriesOf.2 ⟨p, hp, rfl, he⟩⟩
    · obtain ⟨e, he⟩ := List.exists_mem_of_ne_nil _ (hg.ne .short p hp)
      exact ⟨.short, e, mem_entriesOf.2 ⟨p, hp, rfl, he⟩⟩
  · rintro ⟨pt, e, he⟩
    obtain ⟨p, hp, hs, _⟩ := mem_entriesOf.1 he
    cases pt with
    | long => exact ⟨p, Or.inl hp, hs⟩
    | short => exact ⟨p, Or.inr hp, hs⟩

/-- A call opens a position only as an order of its symbol, and a forced exit leaves none. -/
theorem step_held {cfg : Config} {ops : List Op} {op : Op} {s s' : Portfolio}
    (hfit : ∀ o ∈ ops ++ [op], o.Fit) (h : run cfg ops = .ok s) (hs : step cfg s op = .ok s')
    {sym : Sym} (hh : Held s' sym) : (Held s sym ∧ ¬ ExitOf sym op) ∨ OrderOf sym op := by
  have hfit0 : ∀ o ∈ ops, o.Fit := fun o ho => hfit o (List.mem_append_left _ ho)
  have hfit1 : op.Fit := hfit op (List.mem_append_right _ (List.mem_singleton.2 rfl))
  obtain ⟨hg, hf⟩ := run_good hfit0 h
  by_cases hx : ExitOf sym op
  · obtain ⟨d, b, sf, slip, rfl⟩ := hx
    obtain ⟨h1, h2, _⟩ := exit_position_flattens hfit0 h hs
    obtain ⟨p, hp | hp, hps⟩ := hh
    · rw [h1] at hp
      exact absurd hps (by simpa using (List.mem_filter.1 hp).2)
    · rw [h2] at hp
      exact absurd hps (by simpa using (List.mem_filter.1 hp).2)
  · obtain ⟨pt, e', he'⟩ := (held_iff (step_good hg hf hfit1 hs).1).1 hh
    rcases (step_facts hg hf hfit1 hs).entries pt sym e' he' with ⟨e, he, _⟩ | ⟨r, _, _, ho, hr, _⟩
    · exact Or.inl ⟨(held_iff hg).2 ⟨pt, e, he⟩, hx⟩
    · refine Or.inr ⟨r, ?_, hr⟩
      rcases ho with ⟨ho, _⟩ | ⟨ho, _⟩
      · exact Or.inl ho
      · exact Or.inr ho

/-- A position that is open after more calls was open before them and no forced exit was among
them, or an order of its symbol was. -/
theorem held_since {cfg : Config} {ops : List Op} {s : Portfolio} (h : run cfg ops = .ok s) :
    ∀ {more : List Op} {s' : Portfolio}, (∀ o ∈ ops ++ more, o.Fit) →
      run cfg (ops ++ more) = .ok s' → ∀ {sym : Sym}, Held s' sym →
      (Held s sym ∧ ∀ o ∈ more, ¬ ExitOf sym o) ∨ ∃ o ∈ more, OrderOf sym o := by
  intro more
  induction more using List.reverseRecOn with
  | nil =>
    intro s' _ hr sym hh
    rw [List.append_nil, h] at hr
    have := Except.ok.inj hr
    subst this
    exact Or.inl ⟨hh, fun _ h => (nomatch h)⟩
  | append_singleton more op ih =>
    intro s' hfit hr sym hh
    rw [← List.append_assoc] at hr hfit
    rcases h1 : run cfg (ops ++ more) with e | s1
    · unfold run runFrom at hr h1
      rw [foldE_append, h1] at hr
      cases hr
    · have hs : step cfg s1 op = .ok s' := by
        unfold run runFrom at hr h1
        rw [foldE_append, h1] at hr
        simp only [foldE] at hr
        split at hr
        · cases hr
        · rename_i s2 h2
          rw [h2, Except.ok.inj hr]
      rcases step_held hfit h1 hs hh with ⟨h2, h3⟩ | h2
      · rcases ih (fun o ho => hfit o (List.mem_append_left _ ho)) h1 h2 with ⟨h4, h5⟩ | ⟨o, ho, h4⟩
        · refine Or.inl ⟨h4, ?_⟩
          intro o ho
          rcases List.mem_append.1 ho with ho | ho
          · exact h5 o ho
          · rw [List.mem_singleton.1 ho]; exact h3
        · exact Or.inr ⟨o, List.mem_append_left _ ho, h4⟩
      · exact Or.inr ⟨op, List.mem_append_right _ (List.mem_singleton.2 rfl), h2⟩

theorem run_split {cfg : Config} {ops more : List Op} {s' : Portfolio}
    (h : run cfg (ops ++ more) = .ok s') : ∃ s, run cfg ops = .ok s := by
  rcases h1 : run cfg ops with e | s
  · unfold run runFrom at h h1
    rw [foldE_append, h1] at h
    cases h
  · exact ⟨s, rfl⟩

/-- The orders of a bar. -/
theorem barCalls_order {A : PendingOrder → Prop} {cfg : Config} {b : BarIn} {calls : List Op}
    (h : BarCalls A cfg b calls) {o : Op} (ho : o ∈ calls)
    {sym : Sym} (hs : OrderOf sym o) : IsOrder A cfg b.env o := by
  obtain ⟨orders, cancels, rfl, h1, h2⟩ := h
  obtain ⟨r, hr, rfl⟩ := hs
  have hno : ∀ o' : Op, (o' = .buy r ∨ o' = .sell r) → ¬ IsCancel o' := by
    intro o' ho'
    rcases ho' with rfl | rfl
    · exact fun h => h
    · exact fun h => h
  simp only [List.mem_cons, List.mem_append, List.mem_map, List.not_mem_nil, or_false] at ho
  rcases ho with rfl | ho | rfl | ho | ⟨x, _, rfl⟩ | rfl
  · rcases hr with hr | hr <;> cases hr
  · exact h1 o ho
  · rcases hr with hr | hr <;> cases hr
  · exact absurd (h2 o ho) (hno o hr)
  · rcases hr with hr | hr <;> cases hr
  · rcases hr with hr | hr <;> cases hr

/-- An order on a bar is of a symbol with a bar on the date. -/
theorem isOrder_bar {A : PendingOrder → Prop} {cfg : Config} {env : BarEnv} {o : Op}
    (h : IsOrder A cfg env o) {sym : Sym} (hs : OrderOf sym o) :
    env.hasBarOn sym = true := by
  obtain ⟨r, rfl | rfl, rfl⟩ := hs
  · exact h.2.2.1
  · exact h.2.2.1

/-- After a bar no position is left in a symbol it exits. -/
theorem barCalls_exits {A : PendingOrder → Prop} {cfg : Config} {b : BarIn} {ops calls : List Op} {s : Portfolio}
    (h : BarCalls A cfg b calls) (hfit : ∀ o ∈ ops ++ calls, o.Fit)
    (hr : run cfg (ops ++ calls) = .ok s)
    {sym : Sym} (hx : sym ∈ b.exits.map ForcedExit.symbol) : ¬ Held s sym := by
  obtain ⟨orders, cancels, rfl, _, _⟩ := h
  intro hh
  have e : ops ++ (Op.checkStops b.env.date b.env.stop :: (orders ++
      (.captureBar b.env.date b.env.quote :: (cancels ++
        (b.exits.map (fun x => .exitPosition b.env.date x.symbol x.buyFill x.sellFill
          b.env.stop.slip) ++ [.incrBars b.env.hasBarOn]))))) =
      (ops ++ (Op.checkStops b.env.date b.env.stop :: (orders ++
      (.captureBar b.env.date b.env.quote :: cancels)))) ++
        (b.exits.map (fun x => Op.exitPosition b.env.date x.symbol x.buyFill x.sellFill
          b.env.stop.slip) ++ [.incrBars b.env.hasBarOn]) := by simp
  rw [e] at hr hfit
  obtain ⟨s0, h0⟩ := run_split hr
  obtain ⟨x, hxm, rfl⟩ := List.mem_map.1 hx
  rcases held_since h0 hfit hr hh with ⟨_, h1⟩ | ⟨o, ho, r, hr', _⟩
  · exact h1 _ (List.mem_append_left _ (List.mem_map.2 ⟨x, hxm, rfl⟩)) ⟨_, _, _, _, rfl⟩
  · simp only [List.mem_append, List.mem_map, List.mem_cons, List.not_mem_nil, or_false] at ho
    rcases ho with ⟨y, _, rfl⟩ | rfl
    · rcases hr' with hr' | hr' <;> cases hr'
    · rcases hr' with hr' | hr' <;> cases hr'

theorem bars_order {A : PendingOrder → Prop} {cfg : Config} {bars : List BarIn} {hist : List (List Op)}
    (h : List.Forall₂ (BarCalls A cfg) bars hist) {o : Op} (ho : o ∈ hist.flatten) {sym : Sym}
    (hs : OrderOf sym o) : ∃ b ∈ bars, IsOrder A cfg b.env o := by
  induction h with
  | nil => cases ho
  | cons hb _ ih =>
    rw [List.flatten_cons] at ho
    rcases List.mem_append.1 ho with ho | ho
    · exact ⟨_, List.mem_cons_self, barCalls_order hb ho hs⟩
    · obtain ⟨b, hb, h⟩ := ih ho
      exact ⟨b, List.mem_cons_of_mem _ hb, h⟩

theorem windows_order {A : PendingOrder → Prop} {cfg : Config}
    {ws : List (Window × List BarIn)} {hist : List (List Op × List (List Op))}
    (h : List.Forall₂ (WindowCalls A cfg) ws hist) {o : Op} (ho : o ∈ allCalls hist) {sym : Sym}
    (hs : OrderOf sym o) : ∃ y ∈ ws, ∃ b ∈ y.2, IsOrder A cfg b.env o := by
  induction h with
  | nil => cases ho
  | cons hw _ ih =>
    unfold allCalls at ho
    rw [List.flatMap_cons] at ho
    rcases List.mem_append.1 ho with ho | ho
    · rcases List.mem_append.1 ho with ho | ho
      · obtain ⟨_, _, _, _, e, _⟩ := hw.1 o ho
        obtain ⟨r, hr, _⟩ := hs
        subst e
        rcases hr with hr | hr <;> cases hr
      · obtain ⟨b, hb, h⟩ := bars_order hw.2 ho hs
        exact ⟨_, List.mem_cons_self, b, hb, h⟩
    · obtain ⟨y, hy, h⟩ := ih ho
      exact ⟨y, List.mem_cons_of_mem _ hy, h⟩

theorem foldB_split {α : Type} {f : Loop → α → Except BErr Loop} {l l' : List α} {s s' : Loop}
    (h : foldB f s (l ++ l') = .ok s') : ∃ s1, foldB f s l = .ok s1 ∧ foldB f s1 l' = .ok s' := by
  induction l generalizing s with
  | nil => exact ⟨s, rfl, h⟩
  | cons a l ih =>
    rw [List.cons_append, foldB] at h
    split at h
    · cases h
    · rename_i s1 h1
      obtain ⟨s2, h2, h3⟩ := ih h
      refine ⟨s2, ?_, h3⟩
      rw [foldB, h1]
      exact h2

/-- A run cut after some bars of a window. -/
theorem run_cut {HB : Sym → Date → Prop} {cfg : Config} {ws1 ws2 : List (Window × List BarIn)}
    {w : Window} {bars1 bars2 : List BarIn} (hr : RunOK HB (ws1 ++ (w, bars1 ++ bars2) :: ws2))
    (hfit : ∀ r ∈ signals (ws1 ++ (w, bars1 ++ bars2) :: ws2), ResultFit r)
    (hfresh : FreshStops (ws1 ++ (w, bars1 ++ bars2) :: ws2)) {s : Loop}
    (h : runWindows cfg (ws1 ++ (w, bars1 ++ bars2) :: ws2) = .ok s) :
    ∃ sA s0 opsA pre hist1 more, run cfg opsA = .ok sA ∧
      ((w.boundary = none ∧ s0 = sA ∧ pre = []) ∨ ∃ b, w.boundary = some b ∧
        pre = (boundaryExits sA b).map (fun x => .exitPosition x.2.date x.1 x.2.buyFill x.2.sellFill
          b.slip)) ∧
      run cfg (opsA ++ pre) = .ok s0 ∧ List.Forall₂ (BarCalls (fun _ => True) cfg) bars1 hist1 ∧
      run cfg (opsA ++ pre ++ hist1.flatten ++ more) = .ok s.pf ∧
      (∀ o ∈ opsA ++ pre ++ hist1.flatten ++ more, o.Fit) ∧
      ∀ sym, ∀ o ∈ more, OrderOf sym o →
        ∃ b, (b ∈ bars2 ∨ ∃ y ∈ ws2, b ∈ y.2) ∧ b.env.hasBarOn sym = true := by
  obtain ⟨d, hd⟩ := exists_after (barDates (ws1 ++ (w, bars1 ++ bars2) :: ws2))
  obtain ⟨D0, _, hD0⟩ := start_before hr hd
  have hp := List.pairwise_cons.2 ⟨hD0, hr.forward⟩
  rw [barDates, List.flatMap_append, List.flatMap_cons, List.map_append, ← List.cons_append,
    List.pairwise_append] at hp
  obtain ⟨hpA, hpR, hpAR⟩ := hp
  rw [List.append_assoc, List.pairwise_append] at hpR
  obtain ⟨hpB, hpR, hpBR⟩ := hpR
  rw [List.pairwise_append] at hpR
  obtain ⟨hpC, hpD, hpCD⟩ := hpR
  have hsig : signals (ws1 ++ (w, bars1 ++ bars2) :: ws2) =
      signals ws1 ++ (bars1.flatMap signalsOf ++ (bars2.flatMap signalsOf ++ signals ws2)) := by
    unfold signals
    simp [List.flatMap_append, List.flatMap_cons]
  rw [hsig] at hfit
  have hnd : ([] ++ stopIds ((signals ws1).flatMap orderStops) ++
      stopIds ((bars1.flatMap signalsOf).flatMap orderStops) ++
      stopIds ((bars2.flatMap signalsOf).flatMap orderStops) ++
      stopIds ((signals ws2).flatMap orderStops)).Nodup := by
    have := hfresh
    unfold FreshStops at this
    rw [hsig] at this
    unfold stopIds
    simpa [List.flatMap_append, List.map_append, List.append_assoc] using this
  have hnd3 := List.Sublist.nodup (List.sublist_append_left _ _) hnd
  have hnd2 := List.Sublist.nodup (List.sublist_append_left _ _) hnd3
  have hnd1 := List.Sublist.nodup (List.sublist_append_left _ _) hnd2
  have hinit : Hist (fun _ => True) cfg [] [] { pf := Portfolio.init cfg } :=
    ⟨rfl, fun _ h => (nomatch h), fun _ h => (nomatch h), List.nodup_nil, fun _ h => (nomatch h),
      fun _ _ h => (nomatch h), fun _ h => (nomatch h)⟩
  unfold runWindows at h
  obtain ⟨sA, hA, h⟩ := foldB_split h
  obtain ⟨D1, m1, histA, i1, hD1, hfA, gA, bornA⟩ := windows_hist
    (fun x hx => hr.window x (List.mem_append_left _ hx))
    (fun x hx => hr.bar x (List.mem_append_left _ hx)) hpA (LoopInv.init HB cfg D0) hinit
    (fun _ h => (nomatch h)) (fun r hr => hfit r (List.mem_append_left _ hr))
    (fun _ _ _ _ _ _ _ _ => trivial) hnd1 hA
  rw [List.nil_append] at gA
  have hw : WindowOK HB w :=
    hr.window (w, bars1 ++ bars2) (List.mem_append_right _ List.mem_cons_self)
  have hb : ∀ b ∈ bars1 ++ bars2, BarOK HB w b :=
    hr.bar (w, bars1 ++ bars2) (List.mem_append_right _ List.mem_cons_self)
  unfold foldB at h
  split at h
  · cases h
  rename_i sW hW
  obtain ⟨s0, h0, hW⟩ := runWindow_start hW
  simp only at h0 hW
  obtain ⟨m0, i0⟩ := start_inv i1 h0
  have g0 : ∃ pre, ((w.boundary = none ∧ s0.pf = sA.pf ∧ pre = []) ∨ ∃ b, w.boundary = some b ∧
        pre = (boundaryExits sA.pf b).map (fun x => Op.exitPosition x.2.date x.1 x.2.buyFill
          x.2.sellFill b.slip)) ∧
      Hist (fun _ => True) cfg ([] ++ stopIds ((signals ws1).flatMap orderStops))
        (allCalls histA ++ pre) s0 ∧
      s0.pend.orders.Sublist sA.pend.orders := by
    rcases h0 with ⟨hn, rfl⟩ | ⟨b, hbd, hl⟩
    · exact ⟨[], Or.inl ⟨hn, rfl, rfl⟩, by simpa using gA, List.Sublist.refl _⟩
    · have hsub := cancelAll_sub
        ((sA.pend.orders.map PendingOrder.symbol).filter (fun x => !b.selected.contains x)) sA.pend
      have g : Hist (fun _ => True) cfg ([] ++ stopIds ((signals ws1).flatMap orderStops))
          (allCalls histA)
          { sA with pend := cancelStale sA.pend b.selected } := gA.shrink rfl hsub
      obtain ⟨g1, p1⟩ := dropSteps_hist g (liquidate_eq hl)
      exact ⟨_, Or.inr ⟨b, hbd, rfl⟩, g1, by rw [p1]; exact hsub⟩
  obtain ⟨pre, hpre, g0, hsub0⟩ := g0
  obtain ⟨s1, hb1, hb2⟩ := foldB_split hW
  obtain ⟨D2, m2, hist1, i2, hD2, hf1, g1, born1⟩ := bars_hist hw
    (fun b hb' => hb b (List.mem_append_left _ hb'))
    (List.pairwise_cons.2 ⟨fun d hd => hD1 d (fun y hy => hpAR y hy d (by simp [hd])), hpB⟩)
    i0.reset (g0.shrink rfl (List.Sublist.refl _))
    (fun p hp => bornA p (hsub0.subset hp))
    (fun r hr => hfit r (by simp [hr])) (fun _ _ _ _ _ _ => trivial) hnd2 hb1
  obtain ⟨D3, m3, hist2, i3, hD3, hf2, g2, born2⟩ := bars_hist hw
    (fun b hb' => hb b (List.mem_append_right _ hb'))
    (List.pairwise_cons.2 ⟨fun d hd => hD2 d (fun y hy => by
      rcases List.mem_cons.1 hy with rfl | hy
      · exact hD1 d (fun z hz => hpAR z hz d (by simp [hd]))
      · exact hpBR y hy d (List.mem_append_left _ hd)), hpC⟩)
    i2 g1 born1 (fun r hr => hfit r (by simp [hr]))
    (fun _ _ _ _ _ _ => trivial) hnd3 hb2
  obtain ⟨D4, m4, histD, _, _, hfD, gD, _⟩ := windows_hist
    (fun x hx => hr.window x (List.mem_append_right _ (List.mem_cons_of_mem _ hx)))
    (fun x hx => hr.bar x (List.mem_append_right _ (List.mem_cons_of_mem _ hx)))
    (List.pairwise_cons.2 ⟨fun d hd => hD3 d (fun y hy => by
      rcases List.mem_cons.1 hy with rfl | hy
      · refine hD2 d (fun z hz => ?_)
        rcases List.mem_cons.1 hz with rfl | hz
        · exact hD1 d (fun z hz => hpAR z hz d (by
            rw [List.append_assoc]
            exact List.mem_append_right _ (List.mem_append_right _ hd)))
        · exact hpBR z hz d (List.mem_append_right _ hd)
      · exact hpCD y hy d hd), hpD⟩)
    i3 g2 born2 (fun r hr => hfit r (by simp [hr]))
    (fun _ _ _ _ _ _ _ _ => trivial) hnd h
  have e : allCalls histA ++ pre ++ hist1.flatten ++ hist2.flatten ++ allCalls histD =
      allCalls histA ++ pre ++ hist1.flatten ++ (hist2.flatten ++ allCalls histD) := by simp
  rw [e] at gD
  refine ⟨sA.pf, s0.pf, allCalls histA, pre, hist1, hist2.flatten ++ allCalls histD, gA.run, hpre,
    g0.run, hf1, gD.run, gD.fit, ?_⟩
  intro sym o ho hs
  rcases List.mem_append.1 ho with ho | ho
  · obtain ⟨b, hb, h⟩ := bars_order hf2 ho hs
    exact ⟨b, Or.inl hb, isOrder_bar h hs⟩
  · obtain ⟨y, hy, b, hb, h⟩ := windows_order hfD ho hs
    exact ⟨b, Or.inr ⟨y, hy, hb⟩, isOrder_bar h hs⟩

end PyBroker
