import Verif.Backtest.Run
import Verif.Portfolio.Entries
import Verif.Portfolio.Whole
import Verif.Spec.Portfolio

/-!
# A backtest is a history of calls on its portfolio (helper lemmas)
-/

namespace PyBroker

open PyBroker.Spec

/-! ## Unfilled orders do not depend on their stops -/

theorem openLong_zero {cfg : Config} {s s' : Portfolio} {date : Date} {sym : Sym} {n fill : ℚ}
    {stops : List Stop} (stops' : List Stop)
    (h : openLong cfg s date sym n fill stops = .ok (0, s')) :
    openLong cfg s date sym n fill stops' = .ok (0, s') := by
  unfold openLong at h ⊢
  split at h
  · rename_i hm
    rw [if_pos hm]; exact h
  · rename_i hm
    rw [if_neg hm]
    simp only at h ⊢
    generalize (if (s.clampShares cfg sym fill n .buy).1 < n then
      (s.clampShares cfg sym fill n .buy).1 else n) = k at h ⊢
    split at h
    · rename_i h0
      rw [if_pos h0]; exact h
    · rename_i h0
      rw [if_neg h0]
      split at h
      · rename_i h1
        rw [if_pos h1]; exact h
      · have := (openShares_ok h).1
        exact absurd (le_of_eq this.symm) h0

theorem openShort_zero {cfg : Config} {s s' : Portfolio} {date : Date} {sym : Sym} {n fill : ℚ}
    {stops : List Stop} (stops' : List Stop)
    (h : openShort cfg s date sym n fill stops = .ok (0, s')) :
    openShort cfg s date sym n fill stops' = .ok (0, s') := by
  unfold openShort at h ⊢
  split at h
  · rename_i hm
    rw [if_pos hm]; exact h
  · rename_i hm
    rw [if_neg hm]
    split at h
    · rename_i hm
      rw [if_pos hm]; exact h
    · rename_i hm
      rw [if_neg hm]
      split at h
      · rename_i hm
        rw [if_pos hm]; exact h
      · rename_i hm
        rw [if_neg hm]
        simp only at h ⊢
        generalize (if (s.clampShares cfg sym fill n .sell).1 < n then
          (s.clampShares cfg sym fill n .sell).1 else n) = k at h ⊢
        split at h
        · rename_i h0
          rw [if_pos h0]; exact h
        · rename_i h0
          have := (openShares_ok h).1
          exact absurd (le_of_eq this.symm) h0

theorem buy_unfilled {cfg : Config} {s s' : Portfolio} {r : OrderReq}
    (h : buy cfg s r = .ok (none, s')) : buy cfg s { r with stops := [] } = .ok (none, s') := by
  unfold buy at h ⊢
  simp only at h ⊢
  split at h
  · cases h
  · split at h
    · rename_i h1
      rw [if_pos h1]; exact h
    · rename_i h1
      rw [if_neg h1]
      split at h
      · rename_i h2
        rw [if_pos h2]; exact h
      · rename_i h2
        rw [if_neg h2]
        split at h
        · cases h
        · rename_i bought s2 ho
          split at h
          · rename_i h3
            rw [h3.2] at ho
            rw [openLong_zero [] ho]
            simp only
            rw [if_pos (by simp [h3.1])]
            exact h
          · cases h

theorem sell_unfilled {cfg : Config} {s s' : Portfolio} {r : OrderReq}
    (h : sell cfg s r = .ok (none, s')) : sell cfg s { r with stops := [] } = .ok (none, s') := by
  unfold sell at h ⊢
  simp only at h ⊢
  split at h
  · cases h
  · split at h
    · rename_i h1
      rw [if_pos h1]; exact h
    · rename_i h1
      rw [if_neg h1]
      split at h
      · rename_i h2
        rw [if_pos h2]; exact h
      · rename_i h2
        rw [if_neg h2]
        split at h
        · cases h
        · rename_i bought s2 ho
          split at h
          · rename_i h3
            rw [h3.2] at ho
            rw [openShort_zero [] ho]
            simp only
            rw [if_pos (by simp [h3.1])]
            exact h
          · cases h

/-! ## The invariant -/

variable {A : PendingOrder → Prop}

/-- The stops of a pending order are stops of its symbol on the side it opens. -/
def OrderFit (p : PendingOrder) : Prop :=
  ∀ st ∈ p.stops, st.posType = (match p.side with | .buy => .long | .sell => .short) ∧
    st.symbol = p.symbol

/-- Ids of stops. -/
def stopIds (l : List Stop) : List Nat := l.map Stop.id

/-- The portfolio of the loop is the result of a history of calls. -/
structure Hist (A : PendingOrder → Prop) (cfg : Config) (used : List Nat) (ops : List Op)
    (s : Loop) : Prop where
  run : run cfg ops = .ok s.pf
  fit : ∀ op ∈ ops, op.Fit
  ofit : ∀ p ∈ s.pend.orders, OrderFit p
  nodup : (stopIds (ops.flatMap stopsOf) ++
    stopIds (s.pend.orders.flatMap PendingOrder.stops)).Nodup
  used : ∀ i ∈ stopIds (ops.flatMap stopsOf) ++
    stopIds (s.pend.orders.flatMap PendingOrder.stops), i ∈ used
  whole : cfg.fractional = false → ∀ op ∈ ops, op.Whole
  asked : ∀ p ∈ s.pend.orders, A p

theorem run_append {cfg : Config} {ops : List Op} {op : Op} {s s' : Portfolio}
    (h : run cfg ops = .ok s) (hs : step cfg s op = .ok s') : run cfg (ops ++ [op]) = .ok s' := by
  unfold run runFrom at h ⊢
  rw [foldE_append, h]
  simp only [foldE, hs]

theorem stopIds_sublist {l l' : List PendingOrder} (h : l.Sublist l') :
    (stopIds (l.flatMap PendingOrder.stops)).Sublist
      (stopIds (l'.flatMap PendingOrder.stops)) := by
  unfold stopIds
  apply List.Sublist.map
  induction h with
  | slnil => exact List.Sublist.refl _
  | cons a h ih =>
    rw [List.flatMap_cons]
    exact ih.trans (List.sublist_append_right _ _)
  | cons_cons a h ih =>
    rw [List.flatMap_cons, List.flatMap_cons]
    exact (List.Sublist.refl _).append ih

theorem forall_snoc {P : Op → Prop} {ops : List Op} {op : Op} (h : ∀ o ∈ ops, P o) (h' : P op) :
    ∀ o ∈ ops ++ [op], P o := by
  intro o ho
  rcases List.mem_append.1 ho with ho | ho
  · exact h o ho
  · rw [List.mem_singleton] at ho
    subst ho
    exact h'

/-- A call that carries no stops. -/
theorem Hist.call {cfg : Config} {used : List Nat} {ops : List Op} {s s' : Loop} {op : Op}
    (h : Hist A cfg used ops s) (hstep : step cfg s.pf op = .ok s'.pf)
    (hfit : op.Fit) (hstops : stopsOf op = []) (hp : s'.pend.orders.Sublist s.pend.orders)
    (hwh : cfg.fractional = false → op.Whole := by exact fun _ => trivial) :
    Hist A cfg used (ops ++ [op]) s' := by
  have hfl : (ops ++ [op]).flatMap stopsOf = ops.flatMap stopsOf := by
    simp [List.flatMap_append, hstops]
  have hsub : (stopIds ((ops ++ [op]).flatMap stopsOf) ++
      stopIds (s'.pend.orders.flatMap PendingOrder.stops)).Sublist
      (stopIds (ops.flatMap stopsOf) ++ stopIds (s.pend.orders.flatMap PendingOrder.stops)) := by
    rw [hfl]
    exact (List.Sublist.refl _).append (stopIds_sublist hp)
  refine ⟨run_append h.run hstep, ?_, fun p hp' => h.ofit p (hp.subset hp'), hsub.nodup h.nodup,
    fun i hi => h.used i (hsub.subset hi), fun hf => forall_snoc (h.whole hf) (hwh hf),
    fun p hp' => h.asked p (hp.subset hp')⟩
  exact forall_snoc h.fit hfit

/-- A change of the registry only. -/
theorem Hist.shrink {cfg : Config} {used : List Nat} {ops : List Op} {s s' : Loop}
    (h : Hist A cfg used ops s) (hpf : s'.pf = s.pf) (hp : s'.pend.orders.Sublist s.pend.orders) :
    Hist A cfg used ops s' := by
  have hsub : (stopIds (ops.flatMap stopsOf) ++
      stopIds (s'.pend.orders.flatMap PendingOrder.stops)).Sublist
      (stopIds (ops.flatMap stopsOf) ++ stopIds (s.pend.orders.flatMap PendingOrder.stops)) :=
    (List.Sublist.refl _).append (stopIds_sublist hp)
  exact ⟨by rw [hpf]; exact h.run, h.fit, fun p hp' => h.ofit p (hp.subset hp'),
    hsub.nodup h.nodup, fun i hi => h.used i (hsub.subset hi), h.whole,
    fun p hp' => h.asked p (hp.subset hp')⟩

/-- A filled order: its stops move from the registry to the history. -/
theorem Hist.fill {cfg : Config} {used : List Nat} {ops : List Op} {s s' : Loop} {op : Op}
    {p : PendingOrder} (h : Hist A cfg used ops s) (hmem : p ∈ s.pend.orders)
    (hstep : step cfg s.pf op = .ok s'.pf) (hfit : op.Fit) (hstops : stopsOf op = p.stops)
    (hp : s'.pend.orders.Sublist (s.pend.orders.filter (fun x => x.id ≠ p.id)))
    (hwh : cfg.fractional = false → op.Whole) :
    Hist A cfg used (ops ++ [op]) s' := by
  have hperm := List.filter_append_perm (fun x : PendingOrder => decide (x.id ≠ p.id))
    s.pend.orders
  have hin : [p].Sublist (s.pend.orders.filter (fun x => !decide (x.id ≠ p.id))) := by
    rw [List.singleton_sublist]
    exact List.mem_filter.2 ⟨hmem, by simp⟩
  have hsp : ([p] ++ s'.pend.orders).Sublist
      (s.pend.orders.filter (fun x => !decide (x.id ≠ p.id)) ++
        s.pend.orders.filter (fun x => decide (x.id ≠ p.id))) := hin.append hp
  have hfl : stopIds ((ops ++ [op]).flatMap stopsOf) ++
      stopIds (s'.pend.orders.flatMap PendingOrder.stops) =
      stopIds (ops.flatMap stopsOf) ++
        stopIds (([p] ++ s'.pend.orders).flatMap PendingOrder.stops) := by
    unfold stopIds
    simp [List.flatMap_append, hstops]
  have hsub := (List.Sublist.refl (stopIds (ops.flatMap stopsOf))).append (stopIds_sublist hsp)
  have hpe : (stopIds (ops.flatMap stopsOf) ++ stopIds
      ((s.pend.orders.filter (fun x => !decide (x.id ≠ p.id)) ++
        s.pend.orders.filter (fun x => decide (x.id ≠ p.id))).flatMap PendingOrder.stops)).Perm
      (stopIds (ops.flatMap stopsOf) ++ stopIds (s.pend.orders.flatMap PendingOrder.stops)) := by
    apply List.Perm.append_left
    unfold stopIds
    exact ((List.perm_append_comm.trans hperm).flatMap_right _).map _
  refine ⟨run_append h.run hstep, forall_snoc h.fit hfit, ?_, ?_, ?_,
    fun hf => forall_snoc (h.whole hf) (hwh hf),
    fun q hq => h.asked q (List.mem_of_mem_filter (hp.subset hq))⟩
  · intro q hq
    exact h.ofit q (List.mem_of_mem_filter (hp.subset hq))
  · rw [hfl]
    exact hsub.nodup (hpe.nodup_iff.2 h.nodup)
  · rw [hfl]
    intro i hi
    exact h.used i (hpe.mem_iff.1 (hsub.subset hi))

/-! ## Attempts -/

/-- Without fractional shares an attempt asks for a whole number of shares. -/
theorem attempt_whole {cfg : Config} {slip : Option SlipModel} {pf : Portfolio} {p : PendingOrder}
    {n n' fill price : ℚ} (hn : exitClamp pf p (getShares cfg p.shares) = some n)
    (hs : slipOrder cfg slip p n fill = .ok (n', price)) (hf : cfg.fractional = false)
    (hg : Good pf) (hw : WholePf pf) : Whole n' := by
  have hget : ∀ x, Whole (getShares cfg x) := by
    intro x
    unfold getShares
    rw [if_neg (by simp [hf])]
    exact ⟨_, rfl⟩
  have hn' : Whole n := by
    unfold exitClamp at hn
    split at hn
    · rw [← Option.some.inj hn]; exact hget _
    · rename_i t _
      have hheld : Whole (((lookupPos (pf.book t) p.symbol).map Position.shares).getD 0) := by
        rcases Option.eq_none_or_eq_some (lookupPos (pf.book t) p.symbol) with h | ⟨q, hq⟩
        · rw [h]; exact whole_zero
        · rw [hq]
          obtain ⟨hpm, _⟩ := lookupPos_some hq
          simp only [Option.map_some, Option.getD_some]
          rw [(hg.wf.pos t q hpm).shares]
          refine Spec.Whole.sum ?_
          intro x hx
          obtain ⟨e, he, rfl⟩ := List.mem_map.1 hx
          exact hw.entries t q hpm e he
      simp only at hn
      generalize (((lookupPos (pf.book t) p.symbol).map Position.shares).getD 0) = held at hn hheld
      by_cases hgt : getShares cfg p.shares > held
      · rw [if_pos hgt] at hn
        by_cases h0 : held ≤ 0
        · rw [if_pos h0] at hn; cases hn
        · rw [if_neg h0] at hn
          rw [← Option.some.inj hn]
          exact hheld
      · rw [if_neg hgt] at hn
        by_cases h0 : getShares cfg p.shares ≤ 0
        · rw [if_pos h0] at hn; cases hn
        · rw [if_neg h0] at hn
          rw [← Option.some.inj hn]
          exact hget _
  unfold slipOrder at hs
  split at hs
  · rw [← (Prod.mk.inj (Except.ok.inj hs)).1]; exact hn'
  · rw [← (Prod.mk.inj (Except.ok.inj hs)).1]; exact hn'
  · rw [← (Prod.mk.inj (Except.ok.inj hs)).1]; exact hn'
  · simp only at hs
    split at hs
    · cases hs
    · rw [← (Prod.mk.inj (Except.ok.inj hs)).1]; exact hget _

theorem truncQ_le_self {x : ℚ} (h : 0 ≤ x) : (truncQ x : ℚ) ≤ x := by
  unfold truncQ
  rw [if_neg (not_lt.2 h)]
  exact Int.floor_le x

theorem getShares_le {cfg : Config} {x : ℚ} (h : 0 ≤ x) : getShares cfg x ≤ x := by
  unfold getShares
  split
  · exact le_refl _
  · exact truncQ_le_self h

/-- The shares and the price of an attempt are those of its order, slipped. -/
theorem attempt_carries {cfg : Config} {env : BarEnv} {pf : Portfolio} {p : PendingOrder}
    {n n' fill price : ℚ} (hf : env.fetch p.symbol p.fill = some fill)
    (hn : exitClamp pf p (getShares cfg p.shares) = some n)
    (hs : slipOrder cfg env.slip p n fill = .ok (n', price)) (stops : List Stop)
    (hst : stops = p.stops ∨ stops = []) :
    CarriesOut cfg env p { p.req env.date n' price fill with stops := stops } := by
  have hle : n ≤ getShares cfg p.shares := by
    unfold exitClamp at hn
    split at hn
    · rw [← Option.some.inj hn]
    · rename_i t _
      simp only at hn
      generalize (((lookupPos (pf.book t) p.symbol).map Position.shares).getD 0) = held at hn
      by_cases hgt : getShares cfg p.shares > held
      · rw [if_pos hgt] at hn
        split at hn
        · cases hn
        · rw [← Option.some.inj hn]; exact le_of_lt hgt
      · rw [if_neg hgt] at hn
        split at hn
        · cases hn
        · rw [← Option.some.inj hn]
  have hfull : p.exitPos = none → n = getShares cfg p.shares := by
    intro h
    unfold exitClamp at hn
    rw [h] at hn
    exact (Option.some.inj hn).symm
  refine ⟨rfl, rfl, rfl, rfl, hst, ⟨fill, hf, rfl, ?_⟩, ?_, ?_⟩
  · change OrderPaid env.slip p.side p.symbol fill price
    unfold slipOrder at hs
    unfold OrderPaid
    rcases hsl : env.slip with _ | m
    · rw [hsl] at hs
      exact (Prod.mk.inj (Except.ok.inj hs)).2.symm
    · rw [hsl] at hs
      cases m with
      | noop => exact (Prod.mk.inj (Except.ok.inj hs)).2.symm
      | fixed bps => exact (Prod.mk.inj (Except.ok.inj hs)).2.symm
      | general f =>
        simp only at hs ⊢
        split at hs
        · cases hs
        · exact ⟨n, (Prod.mk.inj (Except.ok.inj hs)).2.symm⟩
  · intro h0
    change n' ≤ p.shares
    have h1 : n ≤ p.shares := le_trans hle (getShares_le h0)
    unfold slipOrder at hs
    split at hs
    · rw [← (Prod.mk.inj (Except.ok.inj hs)).1]; exact h1
    · rw [← (Prod.mk.inj (Except.ok.inj hs)).1]; exact h1
    · rw [← (Prod.mk.inj (Except.ok.inj hs)).1]; exact h1
    · simp only at hs
      split at hs
      · cases hs
      · rename_i hx
        rw [← (Prod.mk.inj (Except.ok.inj hs)).1]
        rw [not_or, not_lt, not_lt] at hx
        exact le_trans (getShares_le hx.1) (le_trans hx.2 h1)
  · intro hx hg
    change n' = getShares cfg p.shares
    rw [← hfull hx]
    unfold slipOrder at hs
    split at hs
    · exact (Prod.mk.inj (Except.ok.inj hs)).1.symm
    · exact (Prod.mk.inj (Except.ok.inj hs)).1.symm
    · exact (Prod.mk.inj (Except.ok.inj hs)).1.symm
    · rename_i f hf'
      exact absurd hf' (hg f)

/-- The call an attempt makes, if it makes one. -/
theorem attemptOrder_cases {cfg : Config} {env : BarEnv} {pf pf' : Portfolio} {p : PendingOrder}
    {o : Option Order} (h : attemptOrder cfg env pf p = .ok (o, pf')) :
    (o = none ∧ pf' = pf) ∨ ∃ n price fill,
      (cfg.fractional = false → Good pf → WholePf pf → Whole n) ∧
      (∀ stops, stops = p.stops ∨ stops = [] →
        CarriesOut cfg env p { p.req env.date n price fill with stops := stops }) ∧
      ((p.side = .buy ∧ buy cfg pf (p.req env.date n price fill) = .ok (o, pf')) ∨
      (p.side = .sell ∧ sell cfg pf (p.req env.date n price fill) = .ok (o, pf'))) := by
  unfold attemptOrder at h
  simp only at h
  split at h
  · have he := Prod.mk.inj (Except.ok.inj h)
    exact Or.inl ⟨he.1.symm, he.2.symm⟩
  · rename_i fill hf
    split at h
    · have he := Prod.mk.inj (Except.ok.inj h)
      exact Or.inl ⟨he.1.symm, he.2.symm⟩
    · rename_i n hn
      split at h
      · cases h
      · rename_i n' price hs
        right
        split at h
        · rename_i hside
          refine ⟨n', price, fill, attempt_whole hn hs, attempt_carries hf hn hs, Or.inl ⟨hside, ?_⟩⟩
          unfold liftE at h
          split at h
          · rename_i a ha
            rw [ha, Except.ok.inj h]
          · cases h
        · rename_i hside
          refine ⟨n', price, fill, attempt_whole hn hs, attempt_carries hf hn hs, Or.inr ⟨hside, ?_⟩⟩
          unfold liftE at h
          split at h
          · rename_i a ha
            rw [ha, Except.ok.inj h]
          · cases h

theorem remove_orders (s : PendingScope) (id : Nat) :
    (s.remove id).2.orders.Sublist (s.orders.filter (fun x => x.id ≠ id)) := by
  unfold PendingScope.remove
  rcases Option.eq_none_or_eq_some (s.get id) with h0 | ⟨o, ho⟩
  · rw [h0]
    simp only
    have : s.orders.filter (fun x => x.id ≠ id) = s.orders := by
      rw [List.filter_eq_self]
      intro x hx
      unfold PendingScope.get at h0
      have := List.find?_eq_none.1 h0 x hx
      simpa using this
    rw [this]
  · rw [ho]

theorem attemptStep_hist {cfg : Config} {env : BarEnv} {used : List Nat} {ops : List Op}
    {s s' : Loop} {p : PendingOrder} (h : Hist A cfg used ops s) (hmem : p ∈ s.pend.orders)
    (hc : p.created < env.date) (hbar : env.hasBarOn p.symbol = true)
    (hs : attemptStep cfg env s p = .ok s') :
    ∃ l, (∀ op ∈ l, IsOrder A cfg env op) ∧ Hist A cfg used (ops ++ l) s' := by
  have hshr := (attemptStep_shrinks hs).2
  obtain ⟨o, h1, _, _, _, _, h6⟩ := attemptStep_facts hs
  rcases attemptOrder_cases h1 with ⟨_, hpf⟩ | ⟨n, price, fill, hn, hcar, ⟨hside, hb⟩ | ⟨hside, hb⟩⟩
  · refine ⟨[], by simp, ?_⟩
    rw [List.append_nil]
    exact h.shrink hpf hshr
  · cases o with
    | none =>
      refine ⟨[.buy { p.req env.date n price fill with stops := [] }], ?_, h.call ?_ ?_ rfl hshr
        (fun hf => hn hf (run_good h.fit h.run).1 (run_whole hf h.fit (h.whole hf) h.run))⟩
      · intro op hop
        rw [List.mem_singleton] at hop
        subst hop
        exact ⟨rfl, hc, hbar, p, h.asked p hmem, hside, hcar [] (Or.inr rfl)⟩
      · simp only [step, buy_unfilled hb]
        rfl
      · intro st hst; cases hst
    | some o =>
      refine ⟨[.buy (p.req env.date n price fill)], ?_, h.fill hmem ?_ ?_ rfl ?_
        (fun hf => hn hf (run_good h.fit h.run).1 (run_whole hf h.fit (h.whole hf) h.run))⟩
      · intro op hop
        rw [List.mem_singleton] at hop
        subst hop
        exact ⟨rfl, hc, hbar, p, h.asked p hmem, hside, hcar _ (Or.inl rfl)⟩
      · simp only [step, hb]
        rfl
      · intro st hst
        have := h.ofit p hmem st hst
        rw [hside] at this
        exact this
      · rw [h6, if_pos (Or.inl (by rfl))]
        exact remove_orders (s.pend.markAttempted p.id) p.id
  · cases o with
    | none =>
      refine ⟨[.sell { p.req env.date n price fill with stops := [] }], ?_, h.call ?_ ?_ rfl hshr
        (fun hf => hn hf (run_good h.fit h.run).1 (run_whole hf h.fit (h.whole hf) h.run))⟩
      · intro op hop
        rw [List.mem_singleton] at hop
        subst hop
        exact ⟨rfl, hc, hbar, p, h.asked p hmem, hside, hcar [] (Or.inr rfl)⟩
      · simp only [step, sell_unfilled hb]
        rfl
      · intro st hst; cases hst
    | some o =>
      refine ⟨[.sell (p.req env.date n price fill)], ?_, h.fill hmem ?_ ?_ rfl ?_
        (fun hf => hn hf (run_good h.fit h.run).1 (run_whole hf h.fit (h.whole hf) h.run))⟩
      · intro op hop
        rw [List.mem_singleton] at hop
        subst hop
        exact ⟨rfl, hc, hbar, p, h.asked p hmem, hside, hcar _ (Or.inl rfl)⟩
      · simp only [step, hb]
        rfl
      · intro st hst
        have := h.ofit p hmem st hst
        rw [hside] at this
        exact this
      · rw [h6, if_pos (Or.inl (by rfl))]
        exact remove_orders (s.pend.markAttempted p.id) p.id

/-- The history so far, followed by orders of the bar. -/
def HistOn (A : PendingOrder → Prop) (cfg : Config) (used : List Nat) (ops : List Op)
    (env : BarEnv) (s : Loop) : Prop :=
  ∃ l, (∀ op ∈ l, IsOrder A cfg env op) ∧ Hist A cfg used (ops ++ l) s

theorem HistOn.attempt {cfg : Config} {env : BarEnv} {used : List Nat} {ops : List Op}
    {s s' : Loop} {p : PendingOrder} (h : HistOn A cfg used ops env s)
    (hmem : p ∈ s.pend.orders) (hc : p.created < env.date) (hbar : env.hasBarOn p.symbol = true)
    (hs : attemptStep cfg env s p = .ok s') :
    HistOn A cfg used ops env s' := by
  obtain ⟨l, hl, h⟩ := h
  obtain ⟨l', hl', h'⟩ := attemptStep_hist h hmem hc hbar hs
  refine ⟨l ++ l', ?_, by rw [← List.append_assoc]; exact h'⟩
  intro op hop
  rcases List.mem_append.1 hop with hop | hop
  · exact hl op hop
  · exact hl' op hop

theorem HistOn.shrink {cfg : Config} {used : List Nat} {ops : List Op} {env : BarEnv} {s s' : Loop}
    (h : HistOn A cfg used ops env s) (hpf : s'.pf = s.pf)
    (hp : s'.pend.orders.Sublist s.pend.orders) : HistOn A cfg used ops env s' := by
  obtain ⟨l, hl, h⟩ := h
  exact ⟨l, hl, h.shrink hpf hp⟩

theorem get_mem {s : PendingScope} {id : Nat} {p : PendingOrder} (h : s.get id = some p) :
    p ∈ s.orders := List.mem_of_find?_eq_some h

/-- Pending orders created before a date. -/
def Before (d : Date) (s : Loop) : Prop := ∀ p ∈ s.pend.orders, p.created < d

theorem placeBuy_hist {cfg : Config} {env : BarEnv} {used : List Nat} {ops : List Op}
    {s s' : Loop} {r : ExecResult} (h : HistOn A cfg used ops env s) (hb : Before env.date s)
    (hr : ∀ id p, r.pendingId = some id → s.pend.get id = some p → env.hasBarOn p.symbol = true)
    (hs : placeBuy cfg env s r = .ok s') :
    HistOn A cfg used ops env s' ∧ Before env.date s' := by
  refine ⟨?_, fun p hp => hb p ((placeBuy_shrinks hs).2.subset hp)⟩
  unfold placeBuy at hs
  split at hs
  · have he := Except.ok.inj hs; subst he; exact h
  · split at hs
    · have he := Except.ok.inj hs; subst he; exact h
    · rename_i id hid
      split at hs
      · have he := Except.ok.inj hs; subst he; exact h
      · rename_i p hp
        exact h.attempt (get_mem hp) (hb p (get_mem hp)) (hr id p hid hp) hs

theorem placeSell_hist {cfg : Config} {env : BarEnv} {used : List Nat} {ops : List Op}
    {s s' : Loop} {r : ExecResult} (h : HistOn A cfg used ops env s) (hb : Before env.date s)
    (hr : ∀ id p, r.pendingId = some id → s.pend.get id = some p → env.hasBarOn p.symbol = true)
    (hs : placeSell cfg env s r = .ok s') :
    HistOn A cfg used ops env s' ∧ Before env.date s' := by
  refine ⟨?_, fun p hp => hb p ((placeSell_shrinks hs).2.subset hp)⟩
  unfold placeSell at hs
  split at hs
  · have he := Except.ok.inj hs; subst he; exact h
  · split at hs
    · have he := Except.ok.inj hs; subst he; exact h
    · rename_i id hid
      split at hs
      · have he := Except.ok.inj hs; subst he; exact h
      · rename_i p hp
        exact h.attempt (get_mem hp) (hb p (get_mem hp)) (hr id p hid hp) hs

theorem processOne_hist {cfg : Config} {env : BarEnv} {used : List Nat} {ops : List Op}
    {s s' : Loop} {p : PendingOrder} (h : HistOn A cfg used ops env s)
    (hmem : p ∈ s.pend.orders) (hc : p.created < env.date)
    (hs : processOne cfg env s p = .ok s') : HistOn A cfg used ops env s' := by
  unfold processOne at hs
  simp only at hs
  split at hs
  · have he := Except.ok.inj hs; subst he; exact h
  · split at hs
    · have he := Except.ok.inj hs; subst he; exact h
    · split at hs
      · have he := Except.ok.inj hs; subst he; exact h
      · rename_i hnb
        have hbar : env.hasBarOn p.symbol = true := by simpa using hnb
        split at hs
        · exact h.attempt hmem hc hbar hs
        · split at hs
          · have he := Except.ok.inj hs; subst he; exact h
          · split at hs
            · have he := Except.ok.inj hs; subst he
              exact h.shrink rfl ((advance_shrinks _ _).trans (remove_shrinks _ _)).2
            · have hord : (s.pend.advanceRetry p.id).orders = s.pend.orders := by
                unfold PendingScope.advanceRetry
                split <;> rfl
              refine (h.shrink (s' := { s with pend := s.pend.advanceRetry p.id }) rfl
                (advance_shrinks _ _).2).attempt ?_ hc hbar hs
              change p ∈ (s.pend.advanceRetry p.id).orders
              rw [hord]; exact hmem

theorem foldPersisting_hist {HB : Sym → Date → Prop} {cfg : Config} {env : BarEnv}
    (hHB : ∀ sym, env.hasBarOn sym = true ↔ HB sym env.date) {start : List PendingOrder}
    {used : List Nat} {ops : List Op} :
    ∀ {l : List PendingOrder} {s s' : Loop} {m : PendingMap},
      Persisting HB env.date start l s m → HistOn A cfg used ops env s → Before env.date s →
      foldB (processOne cfg env) s l = .ok s' → HistOn A cfg used ops env s' := by
  intro l
  induction l with
  | nil =>
    intro s s' m _ h _ hs
    have he := Except.ok.inj hs
    subst he
    exact h
  | cons p l ih =>
    intro s s' m hp h hb hs
    unfold foldB at hs
    split at hs
    · cases hs
    · rename_i s1 h1
      obtain ⟨m1, hm1⟩ := processOne_persisting hHB hp h1
      obtain ⟨x, hx, hxo⟩ := hp.todo p List.mem_cons_self
      have hmem : p ∈ s.pend.orders := by
        rw [hp.ref.orders, ← hxo]
        exact List.mem_map.2 ⟨x, hx, rfl⟩
      exact ih hm1 (processOne_hist h hmem (hb p hmem) h1)
        (fun q hq => hb q ((processOne_shrinks h1).2.subset hq)) hs

/-- The order of the next result has a bar today. -/
theorem Placing.due {HB : Sym → Date → Prop} {env : BarEnv}
    (hHB : ∀ sym, env.hasBarOn sym = true ↔ HB sym env.date) {start : List PendingOrder}
    {r : ExecResult} {rem : List ExecResult} {s : Loop} {m : PendingMap}
    (h : Placing HB env.date start (r :: rem) s m) (id : Nat) (p : PendingOrder)
    (hid : r.pendingId = some id) (hp : s.pend.get id = some p) :
    env.hasBarOn p.symbol = true := by
  obtain ⟨id', h1, _, _, h4⟩ := h.todo r List.mem_cons_self
  rw [hid] at h1
  have := Option.some.inj h1
  subst this
  have hmem := get_mem hp
  rw [h.ref.orders] at hmem
  obtain ⟨x, hx, rfl⟩ := List.mem_map.1 hmem
  have hxid : x.order.id = id := by
    have := List.find?_some hp
    simpa using this
  exact (hHB _).2 (h4 x hx hxid).2

theorem foldPlacing_keep {HB : Sym → Date → Prop} {D' : Date} {start : List PendingOrder}
    {f : Loop → ExecResult → Except BErr Loop}
    (hf : ∀ {r rem s s' m}, Placing HB D' start (r :: rem) s m → f s r = .ok s' →
      ∃ m', Placing HB D' start rem s' m') {Q : Loop → Prop}
    (hQ : ∀ {r rem s s' m}, Placing HB D' start (r :: rem) s m → Q s → f s r = .ok s' → Q s')
    (rem : List ExecResult) :
    ∀ {l : List ExecResult} {s s' : Loop} {m : PendingMap}, Placing HB D' start (l ++ rem) s m →
      Q s → foldB f s l = .ok s' → Q s' := by
  intro l
  induction l with
  | nil =>
    intro s s' m _ hq hs
    have he := Except.ok.inj hs
    subst he
    exact hq
  | cons r l ih =>
    intro s s' m h hq hs
    unfold foldB at hs
    split at hs
    · cases hs
    · rename_i s1 h1
      obtain ⟨m1, hm1⟩ := hf (r := r) (rem := l ++ rem) h h1
      exact ih hm1 (hQ (r := r) (rem := l ++ rem) h hq h1) hs

/-! ## Bars -/

theorem barOrders_hist {HB : Sym → Date → Prop} {cfg : Config} {env : BarEnv} {D : Date}
    {s s' : Loop} {m : PendingMap}
    (hHB : ∀ sym, env.hasBarOn sym = true ↔ HB sym env.date)
    (h : LoopInv HB D s m) (hd : D < env.date) {used : List Nat} {ops : List Op}
    (hh : Hist A cfg used ops s) (hb : Before env.date s)
    (hs : barOrders cfg env s = .ok s') :
    HistOn A cfg used (ops ++ [.checkStops env.date env.stop]) env s' := by
  unfold barOrders at hs
  obtain ⟨pf, hpf, hs⟩ := bind_ok hs
  obtain ⟨s1, h1, hs⟩ := bind_ok hs
  obtain ⟨s2, h2, hs⟩ := bind_ok hs
  obtain ⟨s3, h3, hs⟩ := bind_ok hs
  have p0 : Placing HB env.date s.pend.orders
      (s.covers.on env.date ++ (s.sells.on env.date ++ s.buys.on env.date))
      { s with pf := pf } m := (h.placing hd).change rfl rfl
  have hpf' : checkStops cfg s.pf env.date env.stop = .ok pf := by
    unfold liftE at hpf
    split at hpf
    · rename_i a ha
      rw [ha, Except.ok.inj hpf]
    · cases hpf
  have g0 : HistOn A cfg used (ops ++ [.checkStops env.date env.stop]) env
        { s with pf := pf } ∧ Before env.date { s with pf := pf } := by
    refine ⟨⟨[], by simp, ?_⟩, hb⟩
    rw [List.append_nil]
    exact hh.call (op := .checkStops env.date env.stop) hpf' trivial rfl (List.Sublist.refl _)
  -- covers
  obtain ⟨t1, ht1, rfl⟩ := map_ok h1
  have c1 := foldB_sched (fun s a s' hs => placeBuy_sched hs) ht1
  obtain ⟨m1, p1⟩ := foldPlacing (f := placeBuy cfg env) placeBuy_placing
    (s.sells.on env.date ++ s.buys.on env.date)
    (p0.perm (List.Perm.append_right _
      (placeOrderOf_perm cfg.maxLong ExecResult.buyKey (s.covers.on env.date)).symm)) ht1
  have g1 := foldPlacing_keep placeBuy_placing
    (Q := fun t => HistOn A cfg used (ops ++ [.checkStops env.date env.stop]) env t ∧
      Before env.date t) (fun hp ht hs => placeBuy_hist ht.1 ht.2 (hp.due hHB) hs)
    (s.sells.on env.date ++ s.buys.on env.date)
    (p0.perm (List.Perm.append_right _
      (placeOrderOf_perm cfg.maxLong ExecResult.buyKey (s.covers.on env.date)).symm)) g0 ht1
  -- sells
  obtain ⟨t2, ht2, rfl⟩ := map_ok h2
  have c2 := foldB_sched (fun s a s' hs => placeSell_sched hs) ht2
  have p1' : Placing HB env.date s.pend.orders (s.sells.on env.date ++ s.buys.on env.date)
      { t1 with covers := t1.covers.drop env.date } m1 := p1.change rfl rfl
  have e1 : t1.sells = s.sells := c1.2.2
  rw [show ({ t1 with covers := t1.covers.drop env.date } : Loop).sells.on env.date =
    s.sells.on env.date by rw [← e1]] at ht2
  obtain ⟨m2, p2⟩ := foldPlacing (f := placeSell cfg env) placeSell_placing
    (s.buys.on env.date)
    (p1'.perm (List.Perm.append_right _
      (placeOrderOf_perm cfg.maxShort ExecResult.sellKey (s.sells.on env.date)).symm)) ht2
  have g2 := foldPlacing_keep placeSell_placing
    (Q := fun t => HistOn A cfg used (ops ++ [.checkStops env.date env.stop]) env t ∧
      Before env.date t) (fun hp ht hs => placeSell_hist ht.1 ht.2 (hp.due hHB) hs)
    (s.buys.on env.date)
    (p1'.perm (List.Perm.append_right _
      (placeOrderOf_perm cfg.maxShort ExecResult.sellKey (s.sells.on env.date)).symm))
    ⟨g1.1.shrink (s' := { t1 with covers := t1.covers.drop env.date }) rfl
      (List.Sublist.refl _), g1.2⟩ ht2
  -- buys
  obtain ⟨t3, ht3, rfl⟩ := map_ok h3
  have p2' : Placing HB env.date s.pend.orders (s.buys.on env.date ++ [])
      { t2 with sells := t2.sells.drop env.date } m2 := by
    rw [List.append_nil]; exact p2.change rfl rfl
  have hb' : t2.buys = s.buys := c2.2.1.trans c1.2.1
  rw [show ({ t2 with sells := t2.sells.drop env.date } : Loop).buys.on env.date =
    s.buys.on env.date by rw [← hb']] at ht3
  obtain ⟨m3, p3⟩ := foldPlacing (f := placeBuy cfg env) placeBuy_placing []
    (p2'.perm (List.Perm.append_right _
      (placeOrderOf_perm cfg.maxLong ExecResult.buyKey (s.buys.on env.date)).symm)) ht3
  have g3 := foldPlacing_keep placeBuy_placing
    (Q := fun t => HistOn A cfg used (ops ++ [.checkStops env.date env.stop]) env t ∧
      Before env.date t) (fun hp ht hs => placeBuy_hist ht.1 ht.2 (hp.due hHB) hs) []
    (p2'.perm (List.Perm.append_right _
      (placeOrderOf_perm cfg.maxLong ExecResult.buyKey (s.buys.on env.date)).symm))
    ⟨g2.1.shrink (s' := { t2 with sells := t2.sells.drop env.date }) rfl
      (List.Sublist.refl _), g2.2⟩ ht3
  unfold processPersistent at hs
  have hperm : (sortPending t3.pend.orders).Perm t3.pend.orders := by
    unfold sortPending
    exact List.perm_insertionSort _ _
  have hq : Persisting HB env.date [] (sortPending t3.pend.orders)
      { t3 with buys := t3.buys.drop env.date } m3 := by
    refine ⟨p3.ref, p3.track, fun a ha e => Or.inl (p3.hist a ha e), ?_, ?_, ?_⟩
    · intro p hp
      have := hperm.mem_iff.1 hp
      rw [p3.ref.orders] at this
      obtain ⟨x, hx, hxo⟩ := List.mem_map.1 this
      exact ⟨x, hx, hxo⟩
    · rw [(hperm.map _).nodup_iff, p3.ref.orders, List.Nodup, List.map_map, List.pairwise_map]
      exact p3.track.ordered.sorted.imp (fun hab => Nat.ne_of_lt hab)
    · intro p hp
      cases hp
  exact foldPersisting_hist hHB hq (g3.1.shrink rfl (List.Sublist.refl _)) g3.2 hs

/-! ## Signals -/

theorem userSteps_hist {cfg : Config} {used : List Nat} (us : List UserOp) :
    ∀ {ops : List Op} {s : Loop}, Hist A cfg used ops s →
      ∃ l, (∀ op ∈ l, IsCancel op) ∧ Hist A cfg used (ops ++ l) (us.foldl userStep s) ∧
        (us.foldl userStep s).pend.orders.Sublist s.pend.orders := by
  induction us with
  | nil =>
    intro ops s h
    exact ⟨[], by simp, by rw [List.append_nil]; exact h, List.Sublist.refl _⟩
  | cons u us ih =>
    intro ops s h
    have key : ∃ l, (∀ op ∈ l, IsCancel op) ∧ Hist A cfg used (ops ++ l) (userStep s u) ∧
        (userStep s u).pend.orders.Sublist s.pend.orders := by
      cases u with
      | cancelPending id =>
        have hp := (remove_shrinks s.pend id).2
        exact ⟨[], by simp, by rw [List.append_nil]; exact h.shrink rfl hp, hp⟩
      | cancelAllPending sym =>
        have hp : (s.pend.removeAll sym).orders.Sublist s.pend.orders := by
          unfold PendingScope.removeAll
          split
          · exact (removeIds_shrinks _ _).2
          · split
            · exact List.Sublist.refl _
            · exact (removeIds_shrinks _ _).2
        exact ⟨[], by simp, by rw [List.append_nil]; exact h.shrink rfl hp, hp⟩
      | cancelStop id =>
        exact ⟨[.removeStop id], by simp [IsCancel],
          h.call (op := .removeStop id) rfl trivial rfl (List.Sublist.refl _),
          List.Sublist.refl _⟩
      | cancelStopsSym sym t =>
        exact ⟨[.removeStopsSym sym t], by simp [IsCancel],
          h.call (op := .removeStopsSym sym t) rfl trivial rfl (List.Sublist.refl _),
          List.Sublist.refl _⟩
      | cancelStopsEntry id t =>
        exact ⟨[.removeStopsEntry id t], by simp [IsCancel],
          h.call (op := .removeStopsEntry id t) rfl trivial rfl (List.Sublist.refl _),
          List.Sublist.refl _⟩
    obtain ⟨l, hl, h1, hp⟩ := key
    obtain ⟨l', hl', h2, hp'⟩ := ih h1
    refine ⟨l ++ l', ?_, by rw [← List.append_assoc]; exact h2, hp'.trans hp⟩
    intro op hop
    rcases List.mem_append.1 hop with hop | hop
    · exact hl op hop
    · exact hl' op hop

theorem request_stops {r : ExecResult} {created exec : Date} {n : Nat} {q : PendingReq}
    (hf : ResultFit r) (h : r.request created exec n = .ok q) :
    q.stops = orderStops r ∧ ∀ id, OrderFit (q.order id) := by
  unfold ExecResult.request at h
  unfold orderStops
  split at h
  · rename_i k hb
    have he := Except.ok.inj h
    subst he
    rw [hb]
    exact ⟨rfl, fun id => hf.1⟩
  · rename_i k hb hs
    have he := Except.ok.inj h
    subst he
    rw [hb]
    exact ⟨rfl, fun id => hf.2⟩
  · cases h

/-- A request asks for what the result signals. -/
theorem request_asked {r : ExecResult} {created exec : Date} {n : Nat} {q : PendingReq}
    (h : r.request created exec n = .ok q) (id : Nat) : Wants created r (q.order id) := by
  unfold ExecResult.request at h
  split at h
  · rename_i k hb
    have he := Except.ok.inj h
    subst he
    refine ⟨rfl, rfl, rfl, fun m hm => ?_, fun hm => absurd hm (by rw [hb]; simp),
      Or.inl (by rw [hb]; simp)⟩
    rw [hb] at hm
    have := Option.some.inj hm
    subst this
    exact ⟨rfl, rfl, rfl, rfl, rfl, rfl⟩
  · rename_i k hb hs
    have he := Except.ok.inj h
    subst he
    refine ⟨rfl, rfl, rfl, fun m hm => absurd hm (by rw [hb]; simp), fun _ m hm => ?_,
      Or.inr (by rw [hs]; simp)⟩
    rw [hs] at hm
    have := Option.some.inj hm
    subst this
    exact ⟨rfl, rfl, rfl, rfl, rfl, rfl⟩
  · cases h

/-- Scheduling a result: its stops join the registry. -/
theorem scheduleOrder_hist {cfg : Config} {w : Window} {endIndex : Sym → Nat} {created : Date}
    {delay : Nat} {s s' : Loop} {r : ExecResult} {used : List Nat} {ops : List Op}
    (h : Hist A cfg used ops s) (hf : ResultFit r) (ha : ∀ p, Wants created r p → A p)
    (hn : (used ++ stopIds (orderStops r)).Nodup) {sched sched' : Sched} {pend' : PendingScope}
    (hs : scheduleOrder w endIndex created delay s.pend sched r = .ok (pend', sched'))
    (hpf : s'.pf = s.pf) (hp : s'.pend = pend') {d : Date} (hd : created ≤ d)
    (hb : ∀ p ∈ s.pend.orders, p.created ≤ d) :
    Hist A cfg (used ++ stopIds (orderStops r)) ops s' ∧ ∀ p ∈ s'.pend.orders, p.created ≤ d := by
  rcases scheduleOrder_cases hs with ⟨h1, h2, _⟩ | ⟨dd, inW, q, h1, h2, h3, h4⟩
  · have hpe : s'.pend = s.pend := hp.trans h1
    have := h.shrink hpf (by rw [hpe])
    refine ⟨⟨this.run, this.fit, this.ofit, this.nodup,
      fun i hi => List.mem_append_left _ (this.used i hi), this.whole, this.asked⟩, ?_⟩
    rw [hpe]; exact hb
  · obtain ⟨q1, q2⟩ := request_stops hf h2
    have hord : s'.pend.orders = s.pend.orders ++ [q.order (s.pend.nextId + 1)] := by
      rw [hp, h3]
      rfl
    have hst : stopIds (s'.pend.orders.flatMap PendingOrder.stops) =
        stopIds (s.pend.orders.flatMap PendingOrder.stops) ++ stopIds (orderStops r) := by
      rw [hord, ← q1]
      unfold stopIds
      simp [List.flatMap_append, PendingReq.order]
    refine ⟨⟨by rw [hpf]; exact h.run, h.fit, ?_, ?_, ?_, h.whole, ?_⟩, ?_⟩
    · rw [hord]
      intro p hp'
      rcases List.mem_append.1 hp' with hp' | hp'
      · exact h.ofit p hp'
      · rw [List.mem_singleton] at hp'
        subst hp'
        exact q2 _
    · rw [hst, ← List.append_assoc]
      rw [List.nodup_append] at hn ⊢
      refine ⟨h.nodup, hn.2.1, ?_⟩
      intro a ha b hb'
      exact hn.2.2 a (h.used a ha) b hb'
    · rw [hst, ← List.append_assoc]
      intro i hi
      rcases List.mem_append.1 hi with hi | hi
      · exact List.mem_append_left _ (h.used i hi)
      · exact List.mem_append_right _ hi
    · rw [hord]
      intro p hp'
      rcases List.mem_append.1 hp' with hp' | hp'
      · exact h.asked p hp'
      · rw [List.mem_singleton] at hp'
        subst hp'
        exact ha _ (request_asked h2 _)
    · rw [hord]
      intro p hp'
      rcases List.mem_append.1 hp' with hp' | hp'
      · exact hb p hp'
      · rw [List.mem_singleton] at hp'
        subst hp'
        have := (request_facts h2).2.1
        change q.created ≤ d
        rw [this]; exact hd

/-- Scheduling a list of results. -/
theorem foldSched_hist {cfg : Config} {w : Window} {env : BarEnv} {ops : List Op} {delay : Nat}
    {f : Loop → ExecResult → Except BErr Loop}
    (hf : ∀ s r s', f s r = .ok s' → ∃ sched sched',
      scheduleOrder w env.endIndex env.date delay s.pend sched r = .ok (s'.pend, sched') ∧
      s'.pf = s.pf) :
    ∀ {l : List ExecResult} {used : List Nat} {s s' : Loop}, Hist A cfg used ops s →
      (∀ p ∈ s.pend.orders, p.created ≤ env.date) →
      (∀ r ∈ l, ResultFit r) → (∀ r ∈ l, ∀ p, Wants env.date r p → A p) →
      (used ++ stopIds (l.flatMap orderStops)).Nodup →
      foldB f s l = .ok s' →
      Hist A cfg (used ++ stopIds (l.flatMap orderStops)) ops s' ∧
        ∀ p ∈ s'.pend.orders, p.created ≤ env.date := by
  intro l
  induction l with
  | nil =>
    intro used s s' h hb _ _ _ hs
    have he := Except.ok.inj hs
    subst he
    simpa [stopIds] using And.intro h hb
  | cons r l ih =>
    intro used s s' h hb hfit hask hn hs
    unfold foldB at hs
    split at hs
    · cases hs
    · rename_i s1 h1
      obtain ⟨sc, sc', hsc, hpf⟩ := hf s r s1 h1
      have e : used ++ stopIds ((r :: l).flatMap orderStops) =
          (used ++ stopIds (orderStops r)) ++ stopIds (l.flatMap orderStops) := by
        unfold stopIds
        simp [List.flatMap_cons]
      rw [e] at hn ⊢
      obtain ⟨i1, i2⟩ := scheduleOrder_hist (s' := s1) h (hfit r List.mem_cons_self)
        (hask r List.mem_cons_self)
        (List.Sublist.nodup (List.sublist_append_left _ _) hn) hsc hpf rfl (le_refl _) hb
      exact ih i1 i2 (fun r hr => hfit r (List.mem_cons_of_mem _ hr))
        (fun r hr => hask r (List.mem_cons_of_mem _ hr)) hn hs

theorem barSignals_hist {cfg : Config} {w : Window} {b : BarIn} {s s' : Loop} {used : List Nat}
    {ops : List Op} (h : Hist A cfg used ops s) (hb : ∀ p ∈ s.pend.orders, p.created ≤ b.env.date)
    (hfit : ∀ r ∈ signalsOf b, ResultFit r)
    (hask : ∀ r ∈ signalsOf b, ∀ p, Wants b.env.date r p → A p)
    (hn : (used ++ stopIds ((signalsOf b).flatMap orderStops)).Nodup)
    (hs : barSignals cfg w b s = .ok s') :
    ∃ cancels, (∀ op ∈ cancels, IsCancel op) ∧
      Hist A cfg (used ++ stopIds ((signalsOf b).flatMap orderStops))
        (ops ++ (.captureBar b.env.date b.env.quote :: (cancels ++
          (b.exits.map (fun x => .exitPosition b.env.date x.symbol x.buyFill x.sellFill
            b.env.stop.slip) ++ [.incrBars b.env.hasBarOn])))) s' ∧
      ∀ p ∈ s'.pend.orders, p.created ≤ b.env.date := by
  unfold barSignals at hs
  simp only at hs
  obtain ⟨s3, h3, hs⟩ := bind_ok hs
  obtain ⟨s4, h4, hs⟩ := bind_ok hs
  obtain ⟨s5, h5, hs⟩ := bind_ok hs
  obtain ⟨s6, h6, hs⟩ := bind_ok hs
  have he := Except.ok.inj hs
  subst he
  have g1 : Hist A cfg used (ops ++ [.captureBar b.env.date b.env.quote])
      { s with pf := captureBar cfg s.pf b.env.date b.env.quote } :=
    h.call (op := .captureBar b.env.date b.env.quote) rfl trivial rfl (List.Sublist.refl _)
  obtain ⟨cancels, hc, g2, gp⟩ := userSteps_hist b.user g1
  have b2 : ∀ p ∈ (b.user.foldl userStep
      { s with pf := captureBar cfg s.pf b.env.date b.env.quote }).pend.orders,
      p.created ≤ b.env.date := fun p hp => hb p (gp.subset hp)
  have e : used ++ stopIds ((signalsOf b).flatMap orderStops) =
      ((used ++ stopIds ((coverResults b.results).flatMap orderStops)) ++
        stopIds ((buyResults b.results).flatMap orderStops)) ++
        stopIds ((sellResults b.results).flatMap orderStops) := by
    unfold signalsOf stopIds
    simp [List.flatMap_append]
  rw [e] at hn ⊢
  have hn1 := List.Sublist.nodup (List.sublist_append_left _ _) hn
  have hn0 := List.Sublist.nodup (List.sublist_append_left _ _) hn1
  obtain ⟨g3, b3⟩ := foldSched_hist (f := schedCover w b.env) (delay := w.buyDelay)
    (fun s r s' hs => by
      obtain ⟨x, hx, rfl⟩ := map_ok hs
      exact ⟨_, x.2, hx, rfl⟩) g2 b2
    (fun r hr => hfit r (List.mem_append_left _ hr))
    (fun r hr => hask r (List.mem_append_left _ hr)) hn0 h3
  obtain ⟨g4, b4⟩ := foldSched_hist (f := schedBuy w b.env) (delay := w.buyDelay)
    (fun s r s' hs => by
      obtain ⟨x, hx, rfl⟩ := map_ok hs
      exact ⟨_, x.2, hx, rfl⟩) g3 b3
    (fun r hr => hfit r (List.mem_append_right _ (List.mem_append_left _ hr)))
    (fun r hr => hask r (List.mem_append_right _ (List.mem_append_left _ hr))) hn1 h4
  obtain ⟨g5, b5⟩ := foldSched_hist (f := schedSell w b.env) (delay := w.sellDelay)
    (fun s r s' hs => by
      obtain ⟨x, hx, rfl⟩ := map_ok hs
      exact ⟨_, x.2, hx, rfl⟩) g4 b4
    (fun r hr => hfit r (List.mem_append_right _ (List.mem_append_right _ hr)))
    (fun r hr => hask r (List.mem_append_right _ (List.mem_append_right _ hr))) hn h5
  have g6 : ∀ {l : List ForcedExit} {ops' : List Op} {t t' : Loop} {u : List Nat},
      Hist A cfg u ops' t → (∀ p ∈ t.pend.orders, p.created ≤ b.env.date) →
      foldB (exitStep cfg b.env) t l = .ok t' →
      Hist A cfg u (ops' ++ l.map (fun x => .exitPosition b.env.date x.symbol x.buyFill x.sellFill
        b.env.stop.slip)) t' ∧ ∀ p ∈ t'.pend.orders, p.created ≤ b.env.date := by
    intro l
    induction l with
    | nil =>
      intro ops' t t' u ht hb hs
      have he := Except.ok.inj hs
      subst he
      exact ⟨by simpa using ht, hb⟩
    | cons x l ih =>
      intro ops' t t' u ht hb hs
      unfold foldB at hs
      split at hs
      · cases hs
      · rename_i t1 ht1
        obtain ⟨pf, hpf, rfl⟩ := map_ok ht1
        have hpf' : exitPosition cfg t.pf b.env.date x.symbol x.buyFill x.sellFill
            b.env.stop.slip = .ok pf := by
          unfold liftE at hpf
          split at hpf
          · rename_i a ha
            rw [ha, Except.ok.inj hpf]
          · cases hpf
        have := ih (ht.call (s' := { t with pf := pf }) (op := .exitPosition b.env.date x.symbol
          x.buyFill x.sellFill b.env.stop.slip) hpf' trivial rfl (List.Sublist.refl _)) hb hs
        rw [List.append_assoc] at this
        exact this
  obtain ⟨g7, b7⟩ := g6 g5 b5 h6
  refine ⟨cancels, hc, ?_, b7⟩
  have g8 := g7.call (s' := { s6 with pf := incrBars s6.pf b.env.hasBarOn })
    (op := .incrBars b.env.hasBarOn) rfl trivial rfl (List.Sublist.refl _)
  simpa [List.append_assoc] using g8

theorem barStep_hist {HB : Sym → Date → Prop} {cfg : Config} {w : Window} {b : BarIn} {D : Date}
    {s s' : Loop} {m : PendingMap} {used : List Nat} {ops : List Op} (hb : BarOK HB w b)
    (hd : D < b.env.date) (hi : LoopInv HB D s m) (h : Hist A cfg used ops s)
    (hborn : ∀ p ∈ s.pend.orders, p.created ≤ D)
    (hfit : ∀ r ∈ signalsOf b, ResultFit r)
    (hask : ∀ r ∈ signalsOf b, ∀ p, Wants b.env.date r p → A p)
    (hn : (used ++ stopIds ((signalsOf b).flatMap orderStops)).Nodup)
    (hs : barStep cfg w s b = .ok s') :
    ∃ calls, BarCalls A cfg b calls ∧
      Hist A cfg (used ++ stopIds ((signalsOf b).flatMap orderStops)) (ops ++ calls) s' ∧
      ∀ p ∈ s'.pend.orders, p.created ≤ b.env.date := by
  unfold barStep at hs
  obtain ⟨s1, h1, hs⟩ := bind_ok hs
  have hbef : Before b.env.date s := fun p hp => lt_of_le_of_lt (hborn p hp) hd
  obtain ⟨_, _, _, hshr⟩ := barOrders_inv hb.bars hi hd h1
  obtain ⟨orders, ho, h2⟩ := barOrders_hist hb.bars hi hd h hbef h1
  obtain ⟨cancels, hc, h3, h4⟩ := barSignals_hist h2
    (fun p hp => le_of_lt (hbef p (hshr.2.subset hp))) hfit hask hn hs
  refine ⟨_, ⟨orders, cancels, rfl, ho, hc⟩, ?_, h4⟩
  simpa [List.append_assoc] using h3

theorem bars_hist {HB : Sym → Date → Prop} {cfg : Config} {w : Window} (hw : WindowOK HB w) :
    ∀ {bars : List BarIn} {D : Date} {s s' : Loop} {m : PendingMap} {used : List Nat}
      {ops : List Op},
      (∀ b ∈ bars, BarOK HB w b) → (D :: bars.map (fun b => b.env.date)).Pairwise (· < ·) →
      LoopInv HB D s m → Hist A cfg used ops s → (∀ p ∈ s.pend.orders, p.created ≤ D) →
      (∀ r ∈ bars.flatMap signalsOf, ResultFit r) →
      (∀ b ∈ bars, ∀ r ∈ signalsOf b, ∀ p, Wants b.env.date r p → A p) →
      (used ++ stopIds ((bars.flatMap signalsOf).flatMap orderStops)).Nodup →
      foldB (barStep cfg w) s bars = .ok s' →
      ∃ D' m' hist, LoopInv HB D' s' m' ∧
        (∀ d, (∀ x ∈ D :: bars.map (fun b => b.env.date), x < d) → D' < d) ∧
        List.Forall₂ (BarCalls A cfg) bars hist ∧
        Hist A cfg (used ++ stopIds ((bars.flatMap signalsOf).flatMap orderStops))
          (ops ++ hist.flatten) s' ∧ ∀ p ∈ s'.pend.orders, p.created ≤ D' := by
  intro bars
  induction bars with
  | nil =>
    intro D s s' m used ops _ _ hi h hborn _ _ _ hs
    have he := Except.ok.inj hs
    subst he
    refine ⟨D, m, [], hi, fun d hd => hd D List.mem_cons_self, .nil, ?_, hborn⟩
    simpa [stopIds] using h
  | cons b bars ih =>
    intro D s s' m used ops hb hp hi h hborn hfit hask hn hs
    unfold foldB at hs
    split at hs
    · cases hs
    · rename_i s1 h1
      rw [List.map_cons, List.pairwise_cons] at hp
      have e : used ++ stopIds (((b :: bars).flatMap signalsOf).flatMap orderStops) =
          (used ++ stopIds ((signalsOf b).flatMap orderStops)) ++
            stopIds ((bars.flatMap signalsOf).flatMap orderStops) := by
        unfold stopIds
        simp [List.flatMap_cons, List.flatMap_append]
      rw [e] at hn ⊢
      have hd := hp.1 _ List.mem_cons_self
      obtain ⟨m1, i1⟩ := barStep_inv hw (hb b List.mem_cons_self) hd hi h1
      obtain ⟨calls, hc, g1, born1⟩ := barStep_hist (hb b List.mem_cons_self) hd hi h hborn
        (fun r hr => hfit r (by rw [List.flatMap_cons]; exact List.mem_append_left _ hr))
        (hask b List.mem_cons_self)
        (List.Sublist.nodup (List.sublist_append_left _ _) hn) h1
      obtain ⟨D', m', hist, i', hD', hf, g', born'⟩ := ih
        (fun b hb' => hb b (List.mem_cons_of_mem _ hb')) hp.2 i1 g1 born1
        (fun r hr => hfit r (by rw [List.flatMap_cons]; exact List.mem_append_right _ hr))
        (fun b hb' => hask b (List.mem_cons_of_mem _ hb')) hn hs
      refine ⟨D', m', calls :: hist, i',
        fun d hd => hD' d (fun x hx => hd x (List.mem_cons_of_mem _ hx)), .cons hc hf, ?_, born'⟩
      rw [List.flatten_cons, ← List.append_assoc]
      exact g'

theorem dropExits_mem {pick : Sym → Option DropBar} {syms : List Sym} {x : Sym × DropBar}
    (h : x ∈ dropExits pick syms) : x.1 ∈ syms ∧ pick x.1 = some x.2 := by
  obtain ⟨y, hy, he⟩ := List.mem_filterMap.1 h
  rcases hp : pick y with _ | bar
  · rw [hp] at he; cases he
  · rw [hp] at he
    simp only [Option.map_some, Option.some.injEq] at he
    subst he
    exact ⟨hy, hp⟩

theorem dropSteps_hist {cfg : Config} {slip : Option SlipFn} {used : List Nat} :
    ∀ {l : List (Sym × DropBar)} {ops : List Op} {s s' : Loop}, Hist A cfg used ops s →
      foldB (dropStep cfg slip) s l = .ok s' →
      Hist A cfg used (ops ++ l.map (fun x => .exitPosition x.2.date x.1 x.2.buyFill x.2.sellFill
        slip)) s' ∧ s'.pend = s.pend := by
  intro l
  induction l with
  | nil =>
    intro ops s s' h hs
    have he := Except.ok.inj hs
    subst he
    exact ⟨by simpa using h, rfl⟩
  | cons x l ih =>
    intro ops s s' h hs
    unfold foldB at hs
    split at hs
    · cases hs
    · rename_i s1 h1
      obtain ⟨pf, hpf, rfl⟩ := map_ok h1
      have hpf' : exitPosition cfg s.pf x.2.date x.1 x.2.buyFill x.2.sellFill slip = .ok pf := by
        unfold liftE at hpf
        split at hpf
        · rename_i a ha
          rw [ha, Except.ok.inj hpf]
        · cases hpf
      obtain ⟨i1, i2⟩ := ih (h.call (s' := { s with pf := pf }) (op := .exitPosition x.2.date x.1
        x.2.buyFill x.2.sellFill slip) hpf' trivial rfl (List.Sublist.refl _)) hs
      rw [List.append_assoc] at i1
      exact ⟨i1, i2⟩

theorem cancelAll_sub (syms : List Sym) : ∀ p : PendingScope,
    (syms.foldl (fun p x => p.removeAll (some x)) p).orders.Sublist p.orders := by
  induction syms with
  | nil => intro p; exact List.Sublist.refl _
  | cons x syms ih =>
    intro p
    refine (ih _).trans ?_
    unfold PendingScope.removeAll
    simp only
    split
    · exact List.Sublist.refl _
    · exact (removeIds_shrinks _ _).2

/-- The exits of a boundary, in order. -/
def boundaryExits (pf : Portfolio) (b : Boundary) : List (Sym × DropBar) :=
  dropExits (testExitBar b) (b.iter (droppedSyms pf b.selected)) ++
    dropExits (lateExitBar b) (b.iter ((b.iter (droppedSyms pf b.selected)).filter
      (fun x => !((dropExits (testExitBar b)
        (b.iter (droppedSyms pf b.selected))).map Prod.fst).contains x)))

theorem foldB_append {α : Type} {f : Loop → α → Except BErr Loop} {s s1 s2 : Loop} {l l' : List α}
    (h1 : foldB f s l = .ok s1) (h2 : foldB f s1 l' = .ok s2) : foldB f s (l ++ l') = .ok s2 := by
  induction l generalizing s with
  | nil => have := Except.ok.inj h1; subst this; exact h2
  | cons x l ih =>
    unfold foldB at h1
    split at h1
    · cases h1
    · rename_i s0 h0
      rw [List.cons_append, foldB, h0]
      exact ih h1

/-- Closing dropped symbols: cancel, then exit one after the other. -/
theorem liquidate_eq {cfg : Config} {s s' : Loop} {b : Boundary}
    (hs : liquidateDropped cfg s b = .ok s') :
    foldB (dropStep cfg b.slip) { s with pend := cancelStale s.pend b.selected }
      (boundaryExits s.pf b) = .ok s' := by
  unfold liquidateDropped at hs
  simp only at hs
  obtain ⟨s1, h1, hs⟩ := bind_ok hs
  exact foldB_append h1 hs

theorem firstBar_mem {l : List DropBar} : ∀ {b : DropBar}, firstBar l = some b → b ∈ l := by
  induction l with
  | nil => intro b h; cases h
  | cons a l ih =>
    intro b h
    unfold firstBar at h
    rcases hl : firstBar l with _ | c
    · rw [hl] at h; cases h; exact List.mem_cons_self
    · rw [hl] at h
      simp only at h
      by_cases hd : a.date ≤ c.date
      · rw [if_pos hd] at h; cases h; exact List.mem_cons_self
      · rw [if_neg hd] at h; cases h; exact List.mem_cons_of_mem _ (ih hl)

theorem lastBar_mem {l : List DropBar} : ∀ {b : DropBar}, lastBar l = some b → b ∈ l := by
  induction l with
  | nil => intro b h; cases h
  | cons a l ih =>
    intro b h
    unfold lastBar at h
    rcases hl : lastBar l with _ | c
    · rw [hl] at h; cases h; exact List.mem_cons_self
    · rw [hl] at h
      simp only at h
      by_cases hd : c.date ≤ a.date
      · rw [if_pos hd] at h; cases h; exact List.mem_cons_self
      · rw [if_neg hd] at h; cases h; exact List.mem_cons_of_mem _ (ih hl)

theorem testExitBar_mem {b : Boundary} {sym : Sym} {bar : DropBar}
    (h : testExitBar b sym = some bar) : bar ∈ b.test sym := by
  unfold testExitBar at h
  split at h
  · cases h
  · exact firstBar_mem h

theorem lateExitBar_mem {b : Boundary} {sym : Sym} {bar : DropBar}
    (h : lateExitBar b sym = some bar) : bar ∈ b.all sym := by
  unfold lateExitBar at h
  split at h
  · exact lastBar_mem h
  · exact (List.mem_filter.1 (lastBar_mem h)).1

theorem liquidate_hist {cfg : Config} {used : List Nat} {ops : List Op} {s s' : Loop}
    {b : Boundary} (hperm : ∀ l, (b.iter l).Perm l) (h : Hist A cfg used ops s)
    (hs : liquidateDropped cfg s b = .ok s') :
    ∃ exits : List (Sym × DropBar),
      (∀ x ∈ exits, x.1 ∈ droppedSyms s.pf b.selected ∧
        (x.2 ∈ b.test x.1 ∨ x.2 ∈ b.all x.1)) ∧
      Hist A cfg used (ops ++ exits.map (fun x => .exitPosition x.2.date x.1 x.2.buyFill
        x.2.sellFill b.slip)) s' ∧ s'.pend.orders.Sublist s.pend.orders := by
  have hsub := cancelAll_sub
    ((s.pend.orders.map PendingOrder.symbol).filter (fun x => !b.selected.contains x)) s.pend
  have h0 : Hist A cfg used ops { s with pend := cancelStale s.pend b.selected } :=
    h.shrink rfl hsub
  obtain ⟨g1, p1⟩ := dropSteps_hist h0 (liquidate_eq hs)
  refine ⟨boundaryExits s.pf b, ?_, g1, ?_⟩
  · intro x hx
    rcases List.mem_append.1 hx with hx | hx
    · exact ⟨(hperm _).mem_iff.1 (dropExits_mem hx).1,
        Or.inl (testExitBar_mem (dropExits_mem hx).2)⟩
    · have := (hperm _).mem_iff.1 (dropExits_mem hx).1
      exact ⟨(hperm _).mem_iff.1 (List.mem_of_mem_filter this),
        Or.inr (lateExitBar_mem (dropExits_mem hx).2)⟩
  · rw [p1]; exact hsub

theorem dropped_not_selected {pf : Portfolio} {selected : List Sym} {x : Sym}
    (h : x ∈ droppedSyms pf selected) : x ∉ selected := by
  have := (List.mem_filter.1 h).2
  simpa using this

theorem windows_hist {HB : Sym → Date → Prop} {cfg : Config} :
    ∀ {ws : List (Window × List BarIn)} {D : Date} {s s' : Loop} {m : PendingMap}
      {used : List Nat} {ops : List Op},
      (∀ x ∈ ws, WindowOK HB x.1) → (∀ x ∈ ws, ∀ b ∈ x.2, BarOK HB x.1 b) →
      (D :: ws.flatMap (fun x => x.2.map (fun b => b.env.date))).Pairwise (· < ·) →
      LoopInv HB D s m → Hist A cfg used ops s → (∀ p ∈ s.pend.orders, p.created ≤ D) →
      (∀ r ∈ signals ws, ResultFit r) →
      (∀ x ∈ ws, ∀ b ∈ x.2, ∀ r ∈ signalsOf b, ∀ p, Wants b.env.date r p → A p) →
      (used ++ stopIds ((signals ws).flatMap orderStops)).Nodup →
      foldB (runWindow cfg) s ws = .ok s' →
      ∃ D' m' hist, LoopInv HB D' s' m' ∧
        (∀ d, (∀ x ∈ D :: ws.flatMap (fun x => x.2.map (fun b => b.env.date)), x < d) →
          D' < d) ∧
        List.Forall₂ (WindowCalls A cfg) ws hist ∧
        Hist A cfg (used ++ stopIds ((signals ws).flatMap orderStops)) (ops ++ allCalls hist) s' ∧
        ∀ p ∈ s'.pend.orders, p.created ≤ D' := by
  intro ws
  induction ws with
  | nil =>
    intro D s s' m used ops _ _ _ hi h hborn _ _ _ hs
    have he := Except.ok.inj hs
    subst he
    refine ⟨D, m, [], hi, fun d hd => hd D List.mem_cons_self, .nil, ?_, hborn⟩
    simpa [stopIds, signals, allCalls] using h
  | cons x ws ih =>
    intro D s s' m used ops hw hb hp hi h hborn hfit hask hn hs
    unfold foldB at hs
    split at hs
    · cases hs
    · rename_i s1 h1
      rw [List.flatMap_cons, ← List.cons_append, List.pairwise_append] at hp
      obtain ⟨hp1, hp2, hp3⟩ := hp
      have e : used ++ stopIds ((signals (x :: ws)).flatMap orderStops) =
          (used ++ stopIds ((x.2.flatMap signalsOf).flatMap orderStops)) ++
            stopIds ((signals ws).flatMap orderStops) := by
        unfold stopIds signals
        simp [List.flatMap_cons, List.flatMap_append]
      rw [e] at hn ⊢
      have hsub : ∀ r ∈ x.2.flatMap signalsOf, r ∈ signals (x :: ws) := by
        intro r hr
        unfold signals
        rw [List.flatMap_cons]
        exact List.mem_append_left _ hr
      have hsub' : ∀ r ∈ signals ws, r ∈ signals (x :: ws) := by
        intro r hr
        unfold signals
        rw [List.flatMap_cons]
        exact List.mem_append_right _ hr
      obtain ⟨s0, h0, h1⟩ := runWindow_start h1
      obtain ⟨m0, i0⟩ := start_inv hi h0
      have g0 : ∃ pre, BoundaryCalls x.1 pre ∧ Hist A cfg used (ops ++ pre) s0 ∧
          s0.pend.orders.Sublist s.pend.orders := by
        rcases h0 with ⟨_, rfl⟩ | ⟨b, hbd, hl⟩
        · exact ⟨[], fun _ h => (nomatch h), by simpa using h, List.Sublist.refl _⟩
        · obtain ⟨exits, he, hh, hsub⟩ := liquidate_hist
            ((hw x List.mem_cons_self).boundary b hbd) h hl
          refine ⟨_, ?_, hh, hsub⟩
          intro op hop
          obtain ⟨e, hem, rfl⟩ := List.mem_map.1 hop
          exact ⟨b, hbd, _, _, rfl, dropped_not_selected (he e hem).1, (he e hem).2⟩
      obtain ⟨pre, hpre, g0, hsub0⟩ := g0
      obtain ⟨D1, m1, hist1, i1, hD1, hf1, g1, born1⟩ := bars_hist (hw x List.mem_cons_self)
        (hb x List.mem_cons_self) hp1 i0.reset (g0.shrink rfl (List.Sublist.refl _))
        (fun p hp => hborn p (hsub0.subset hp))
        (fun r hr => hfit r (hsub r hr)) (hask x List.mem_cons_self)
        (List.Sublist.nodup (List.sublist_append_left _ _) hn) h1
      obtain ⟨D', m', hist2, i2, hD', hf2, g2, born2⟩ := ih (fun y hy => hw y (List.mem_cons_of_mem _ hy))
        (fun y hy => hb y (List.mem_cons_of_mem _ hy))
        (List.pairwise_cons.2 ⟨fun d hd => hD1 d (fun y hy => hp3 y hy d hd), hp2⟩) i1 g1 born1
        (fun r hr => hfit r (hsub' r hr))
        (fun y hy => hask y (List.mem_cons_of_mem _ hy)) hn hs
      refine ⟨D', m', (pre, hist1) :: hist2, i2, fun d hd => hD' d ?_, .cons ⟨hpre, hf1⟩ hf2, ?_,
        born2⟩
      · intro y hy
        rcases List.mem_cons.1 hy with rfl | hy
        · exact hD1 d (fun z hz => hd z (by
            rw [List.flatMap_cons, ← List.cons_append]
            exact List.mem_append_left _ hz))
        · exact hd y (by
            rw [List.flatMap_cons, ← List.cons_append]
            exact List.mem_append_right _ hy)
      have e : ops ++ allCalls ((pre, hist1) :: hist2) =
          ops ++ pre ++ hist1.flatten ++ allCalls hist2 := by
        simp [allCalls, List.flatMap_cons, List.append_assoc]
      rw [e]
      exact g2

end PyBroker
