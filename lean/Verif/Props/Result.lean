/-
C66: the result of a bar.  C86: nothing carries over between bars.
C87: rotation and the settings of an execution.
-/
import Verif.Props.Context

namespace PyBroker

namespace Spec

/-- An amount is set for the stop. -/
def StopSet.Wanted (s : StopSet) : Prop := s.points.isSome ∨ s.pct.isSome

/-- The settings of one kind of price stop are consistent: one amount, and a limit or
exit price only with an amount. -/
def StopSet.Consistent (s : StopSet) : Prop :=
  ¬ (s.points.isSome ∧ s.pct.isSome) ∧ (s.limit.isSome ∨ s.exit.isSome → StopSet.Wanted s)

/-- All stop settings of a context are consistent. -/
def StopsOK (c : Ctx) : Prop :=
  (∀ n, c.holdBars = some n → 0 < n) ∧
  StopSet.Consistent c.loss ∧ StopSet.Consistent c.profit ∧ StopSet.Consistent c.trailing

/-- The settings of a kind of price stop. -/
def settings (c : Ctx) : StopType → StopSet
  | .loss => c.loss
  | .profit => c.profit
  | .trailing => c.trailing
  | .bar => {}

/-- A stop of this type is asked for. -/
def Asked (c : Ctx) : StopType → Prop
  | .bar => c.holdBars.isSome
  | t => StopSet.Wanted (settings c t)

/-- The fill price of the order that closes a position of type `pt`. -/
def closingFill (c : Ctx) : PosType → FillSpec
  | .long => c.sellFill.getD (.price .middle)
  | .short => c.buyFill.getD (.price .middle)

/-- The stop has the parameters that were set for its type. -/
def AsSet (c : Ctx) (pt : PosType) (s : Stop) : Prop :=
  match s.stopType with
  | .bar => (∃ n, c.holdBars = some n ∧ 0 < n ∧ s.bars = some n.toNat) ∧
      s.percent = none ∧ s.points = none ∧ s.fillPrice = some (closingFill c pt) ∧
      s.limitPrice = none ∧ s.exitPrice = none
  | t => s.bars = none ∧ s.percent = (settings c t).pct ∧ s.points = (settings c t).points ∧
      (s.percent.isSome ↔ s.points.isNone) ∧ s.fillPrice = none ∧
      s.limitPrice = (settings c t).limit ∧ s.exitPrice = (settings c t).exit

/-- Exactly the stops asked for: one of each type, with its parameters, for a position
of type `pt` of the symbol, with the next ids after `k` in increasing order. -/
structure StopsAsked (c : Ctx) (sym : Sym) (pt : PosType) (k k' : Nat) (l : List Stop) : Prop where
  ids : l.map Stop.id = (List.range l.length).map (fun i => k + 1 + i)
  counter : k' = k + l.length
  types : (l.map Stop.stopType).Nodup
  asked : ∀ t, t ∈ l.map Stop.stopType ↔ Asked c t
  params : ∀ s ∈ l, s.symbol = sym ∧ s.posType = pt ∧ AsSet c pt s

end Spec

open Spec

theorem bind_okE {ε α β : Type} {x : Except ε α} {f : α → Except ε β} {b : β} :
    (x >>= f) = .ok b ↔ ∃ a, x = .ok a ∧ f a = .ok b := by
  cases x with
  | error e => exact ⟨fun h => (nomatch h), fun ⟨_, h, _⟩ => (nomatch h)⟩
  | ok a =>
    constructor
    · intro h; exact ⟨a, rfl, h⟩
    · rintro ⟨a', h, h'⟩
      have := Except.ok.inj h
      subst this; exact h'

/-- The stops a block adds: none, or one with the next id. -/
def priceStops (sym : Sym) (pt : PosType) (t : StopType) (s : StopSet) (k : Nat) : List Stop :=
  if s.points.isSome ∨ s.pct.isSome then [createStop k sym t pt s] else []

theorem addPriceStop_ok (sym : Sym) (pt : PosType) (t : StopType) (s : StopSet)
    (acc b : List Stop × Nat) :
    addPriceStop sym pt t s acc = .ok b ↔
      ¬ (s.points.isSome ∧ s.pct.isSome) ∧
      b = (acc.1 ++ priceStops sym pt t s acc.2, acc.2 + (priceStops sym pt t s acc.2).length) := by
  obtain ⟨po, pc, li, ex⟩ := s
  unfold addPriceStop priceStops
  cases po <;> cases pc <;> simp [createStop, eq_comm]

/-- The stop of the hold-bars block. -/
def holdStops (c : Ctx) (sym : Sym) (pt : PosType) (k : Nat) : List Stop :=
  match c.holdBars with
  | none => []
  | some n =>
    [{ id := k + 1, symbol := sym, stopType := .bar, posType := pt, percent := none, points := none,
       bars := some n.toNat, fillPrice := some (closingFill c pt), limitPrice := none,
       exitPrice := none }]

theorem addHoldStop_ok (c : Ctx) (sym : Sym) (pt : PosType) (acc b : List Stop × Nat) :
    addHoldStop c sym pt acc = .ok b ↔
      (∀ n, c.holdBars = some n → 0 < n) ∧
      b = (acc.1 ++ holdStops c sym pt acc.2, acc.2 + (holdStops c sym pt acc.2).length) := by
  unfold addHoldStop holdStops closingFill
  rcases h : c.holdBars with _ | n
  · simp [eq_comm]
  · by_cases hn : n ≤ 0
    · simp [hn, not_lt.2 hn]
    · simp only [hn, if_false]
      cases pt <;> simp [not_le.1 hn, eq_comm]

theorem checkStopAlone_ok (t : StopType) (s : StopSet) (u : Unit) :
    checkStopAlone t s = .ok u ↔ (s.limit.isSome ∨ s.exit.isSome → StopSet.Wanted s) := by
  obtain ⟨po, pc, li, ex⟩ := s
  unfold checkStopAlone StopSet.Wanted
  cases po <;> cases pc <;> cases li <;> cases ex <;> simp

/-- The four blocks together. -/
theorem stopsFor_ok (c : Ctx) (sym : Sym) (pt : PosType) (k : Nat) (b : List Stop × Nat) :
    c.stopsFor sym pt k = .ok b ↔ StopsOK c ∧
      ∃ l0 l1 l2 l3, l0 = holdStops c sym pt k ∧
        l1 = priceStops sym pt .loss c.loss (k + l0.length) ∧
        l2 = priceStops sym pt .profit c.profit (k + l0.length + l1.length) ∧
        l3 = priceStops sym pt .trailing c.trailing (k + l0.length + l1.length + l2.length) ∧
        b = (l0 ++ l1 ++ l2 ++ l3, k + l0.length + l1.length + l2.length + l3.length) := by
  unfold Ctx.stopsFor StopsOK StopSet.Consistent
  simp only [bind_okE, addHoldStop_ok, addPriceStop_ok, checkStopAlone_ok, List.nil_append]
  constructor
  · rintro ⟨a0, ⟨h0, rfl⟩, a1, ⟨h1, rfl⟩, a2, ⟨h2, rfl⟩, a3, ⟨h3, rfl⟩, -, g1, -, g2, -, g3, hb⟩
    have hb := Except.ok.inj hb
    exact ⟨⟨h0, ⟨h1, g1⟩, ⟨h2, g2⟩, h3, g3⟩, _, _, _, _, rfl, rfl, rfl, rfl, hb.symm⟩
  · rintro ⟨⟨h0, ⟨h1, g1⟩, ⟨h2, g2⟩, h3, g3⟩, l0, l1, l2, l3, rfl, rfl, rfl, rfl, rfl⟩
    exact ⟨_, ⟨h0, rfl⟩, _, ⟨h1, rfl⟩, _, ⟨h2, rfl⟩, _, ⟨h3, rfl⟩, (), g1, (), g2, (), g3, rfl⟩

theorem priceStops_cases (sym : Sym) (pt : PosType) (t : StopType) (s : StopSet) (k : Nat) :
    (StopSet.Wanted s ∧ priceStops sym pt t s k = [createStop k sym t pt s]) ∨
    (¬ StopSet.Wanted s ∧ priceStops sym pt t s k = []) := by
  unfold priceStops StopSet.Wanted
  by_cases h : s.points.isSome ∨ s.pct.isSome
  · exact .inl ⟨h, if_pos h⟩
  · exact .inr ⟨h, if_neg h⟩

theorem createStop_asSet (c : Ctx) (sym : Sym) (pt : PosType) (t : StopType) (k : Nat)
    (ht : t ≠ .bar) (hw : StopSet.Wanted (settings c t)) (hc : StopSet.Consistent (settings c t)) :
    AsSet c pt (createStop k sym t pt (settings c t)) := by
  generalize hs : settings c t = s at hw hc
  obtain ⟨po, pc, li, ex⟩ := s
  have h1 : AsSet c pt (createStop k sym t pt ⟨po, pc, li, ex⟩) ↔
      (createStop k sym t pt ⟨po, pc, li, ex⟩).bars = none ∧
      (createStop k sym t pt ⟨po, pc, li, ex⟩).percent = pc ∧
      (createStop k sym t pt ⟨po, pc, li, ex⟩).points = po ∧
      ((createStop k sym t pt ⟨po, pc, li, ex⟩).percent.isSome ↔
        (createStop k sym t pt ⟨po, pc, li, ex⟩).points.isNone) ∧
      (createStop k sym t pt ⟨po, pc, li, ex⟩).fillPrice = none ∧
      (createStop k sym t pt ⟨po, pc, li, ex⟩).limitPrice = li ∧
      (createStop k sym t pt ⟨po, pc, li, ex⟩).exitPrice = ex := by
    unfold AsSet
    cases t with
    | bar => exact absurd rfl ht
    | loss => simp only [createStop, hs]
    | profit => simp only [createStop, hs]
    | trailing => simp only [createStop, hs]
  rw [h1]
  unfold StopSet.Wanted StopSet.Consistent at *
  cases po <;> cases pc <;> simp_all [createStop]

theorem stopsFor_asked {c : Ctx} {sym : Sym} {pt : PosType} {k : Nat} {b : List Stop × Nat}
    (h : c.stopsFor sym pt k = .ok b) : StopsAsked c sym pt k b.2 b.1 := by
  obtain ⟨⟨h0, hl, hp, ht⟩, l0, l1, l2, l3, e0, e1, e2, e3, rfl⟩ := (stopsFor_ok c sym pt k b).1 h
  have al := fun k w => createStop_asSet c sym pt .loss k (by decide) w hl
  have ap := fun k w => createStop_asSet c sym pt .profit k (by decide) w hp
  have at' := fun k w => createStop_asSet c sym pt .trailing k (by decide) w ht
  have q0 : (∃ n s, c.holdBars = some n ∧ l0 = [s] ∧ s.id = k + 1 ∧ s.stopType = .bar ∧
      s.symbol = sym ∧ s.posType = pt ∧ AsSet c pt s) ∨ (c.holdBars = none ∧ l0 = []) := by
    unfold holdStops at e0
    rcases hh : c.holdBars with _ | n
    · rw [hh] at e0; exact .inr ⟨rfl, e0⟩
    · rw [hh] at e0
      refine .inl ⟨n, _, rfl, e0, rfl, rfl, rfl, rfl, ?_⟩
      exact ⟨⟨n, hh, h0 n hh, rfl⟩, rfl, rfl, rfl, rfl, rfl⟩
  have q : ∀ {t : StopType} {l : List Stop} {j : Nat}, t ≠ .bar →
      StopSet.Consistent (settings c t) → l = priceStops sym pt t (settings c t) j →
      (StopSet.Wanted (settings c t) ∧ ∃ s, l = [s] ∧ s.id = j + 1 ∧ s.stopType = t ∧
        s.symbol = sym ∧ s.posType = pt ∧ AsSet c pt s) ∨
      (¬ StopSet.Wanted (settings c t) ∧ l = []) := by
    intro t l j hb hc he
    rcases priceStops_cases sym pt t (settings c t) j with ⟨w, h⟩ | ⟨w, h⟩
    · exact .inl ⟨w, _, he.trans h, rfl, rfl, rfl, rfl, createStop_asSet c sym pt t j hb w hc⟩
    · exact .inr ⟨w, he.trans h⟩
  have q1 := q (t := .loss) (by decide) hl e1
  have q2 := q (t := .profit) (by decide) hp e2
  have q3 := q (t := .trailing) (by decide) ht e3
  clear e0 e1 e2 e3 al ap at' q h hl hp ht
  have hask : ∀ t, Asked c t ↔ (match t with
    | .bar => c.holdBars.isSome
    | .loss => StopSet.Wanted c.loss
    | .profit => StopSet.Wanted c.profit
    | .trailing => StopSet.Wanted c.trailing) := by
    intro t; cases t <;> rfl
  have hset : settings c .loss = c.loss ∧ settings c .profit = c.profit ∧
      settings c .trailing = c.trailing := ⟨rfl, rfl, rfl⟩
  rw [hset.1] at q1
  rw [hset.2.1] at q2
  rw [hset.2.2] at q3
  have r0 : (c.holdBars.isSome = true ∧ ∃ s, l0 = [s] ∧ s.id = k + 1 ∧ s.stopType = .bar ∧
      s.symbol = sym ∧ s.posType = pt ∧ AsSet c pt s) ∨ (c.holdBars.isSome = false ∧ l0 = []) := by
    rcases q0 with ⟨n, s, a, b⟩ | ⟨a, b⟩
    · exact .inl ⟨by rw [a]; rfl, s, b⟩
    · exact .inr ⟨by rw [a]; rfl, b⟩
  clear q0 h0 hset
  rcases r0 with ⟨w0, s0, rfl, i0, t0, y0, p0, a0⟩ | ⟨w0, rfl⟩ <;>
  rcases q1 with ⟨w1, s1, rfl, i1, t1, y1, p1, a1⟩ | ⟨w1, rfl⟩ <;>
  rcases q2 with ⟨w2, s2, rfl, i2, t2, y2, p2, a2⟩ | ⟨w2, rfl⟩ <;>
  rcases q3 with ⟨w3, s3, rfl, i3, t3, y3, p3, a3⟩ | ⟨w3, rfl⟩ <;>
  · refine ⟨?_, ?_, ?_, ?_, ?_⟩
    · simp_all [List.range_succ]
      try omega
    · simp
      try omega
    · simp_all
    · intro t; rw [hask]; cases t <;> simp_all
    · intro s hs
      simp only [List.mem_append, List.mem_singleton, List.not_mem_nil, or_false, false_or,
        List.append_nil, List.nil_append] at hs <;>
      rcases hs with ((rfl | rfl) | rfl) | rfl <;>
      first | exact ⟨y0, p0, a0⟩ | exact ⟨y1, p1, a1⟩ | exact ⟨y2, p2, a2⟩ | exact ⟨y3, p3, a3⟩

namespace Spec

/-- The settings contradict each other whatever the share counts are. -/
def Inconsistent (c : Ctx) : Prop :=
  (c.buyShares = none ∧ c.buyLimit ≠ none) ∨
  (c.sellShares = none ∧ c.sellLimit ≠ none) ∨
  (c.buyShares = none ∧ c.buyFill ≠ none ∧ c.holdBars = none) ∨
  (c.sellShares = none ∧ c.sellFill ≠ none ∧ c.holdBars = none) ∨
  (c.buyShares = none ∧ c.sellShares = none ∧
    (c.holdBars ≠ none ∨ c.loss ≠ {} ∨ c.profit ≠ {} ∨ c.trailing ≠ {})) ∨
  (c.buyShares ≠ none ∧ c.sellShares ≠ none) ∨
  (c.score ≠ none ∧ (c.longScore ≠ none ∨ c.shortScore ≠ none)) ∨
  (c.rotation = true ∧ c.score ≠ none)

/-- A number of shares other than zero is set. -/
def HasOrder (c : Ctx) : Prop := ∃ q, q ≠ 0 ∧ (c.buyShares = some q ∨ c.sellShares = some q)

/-- `to_result` must raise. -/
def Rejected (c : Ctx) : Prop :=
  c.date = none ∨ c.symbol = none ∨ Inconsistent c ∨
  (HasOrder c ∧ (c.buyLimit = some .notFinite ∨ c.sellLimit = some .notFinite ∨ ¬ StopsOK c))

/-- The result is the order that was set. -/
structure Result (c : Ctx) (k k' : Nat) (r : ExecResult) : Prop where
  symbol : c.symbol = some r.symbol
  date : c.date = some r.date
  shares : r.buyShares = c.buyShares ∧ r.sellShares = c.sellShares
  oneSide : (∃ q, q ≠ 0 ∧ r.buyShares = some q ∧ r.sellShares = none) ∨
    ∃ q, q ≠ 0 ∧ r.sellShares = some q ∧ r.buyShares = none
  limits : r.buyLimit.map PyNum.fin = c.buyLimit ∧ r.sellLimit.map PyNum.fin = c.sellLimit
  limitSide : (r.buyShares = none → r.buyLimit = none) ∧ (r.sellShares = none → r.sellLimit = none)
  timeouts : r.buyTimeout = c.buyTimeout ∧ r.sellTimeout = c.sellTimeout
  fills : r.buyFill = c.buyFill.getD (.price .middle) ∧ r.sellFill = c.sellFill.getD (.price .middle)
  scores : r.score = c.score ∧ r.longScore = c.longScore ∧ r.shortScore = c.shortScore
  flags : r.cover = c.cover ∧ r.exitPos = c.exitPos ∧ r.pendingId = none
  stops : (r.buyShares ≠ none → r.shortStops = [] ∧ StopsAsked c r.symbol .long k k' r.longStops) ∧
    (r.sellShares ≠ none → r.longStops = [] ∧ StopsAsked c r.symbol .short k k' r.shortStops)

end Spec

theorem unset_iff (s : StopSet) : s.unset = true ↔ s = {} := by
  obtain ⟨po, pc, li, ex⟩ := s
  unfold StopSet.unset
  cases po <;> cases pc <;> cases li <;> cases ex <;> simp

theorem checkSettings_ok (c : Ctx) (u : Unit) : c.checkSettings = .ok u ↔ ¬ Inconsistent c := by
  unfold Ctx.checkSettings Inconsistent
  simp only [unset_iff, Option.isNone_iff_eq_none, Option.isSome_iff_ne_none]
  have key : ∀ (p : Prop) [Decidable p] (e : CErr) (x : Except CErr Unit),
      (if p then .error e else x) = .ok u ↔ ¬ p ∧ x = .ok u := by
    intro p _ e x
    by_cases h : p <;> simp [h]
  simp only [key]
  simp only [not_or]
  constructor
  · rintro ⟨h1, h2, h3, h4, h5, h6, h7, h8, h9, -⟩
    refine ⟨h1, h3, h2, h4, ?_, h7, h8, h9⟩
    rintro ⟨a, b, c | c⟩
    · exact h6 ⟨a, b, c⟩
    · exact h5 ⟨a, b, fun g => c.elim (fun x => x g.1) (fun c => c.elim (fun x => x g.2.1) (fun x => x g.2.2))⟩
  · rintro ⟨h1, h3, h2, h4, h5, h7, h8, h9⟩
    refine ⟨h1, h2, h3, h4, ?_, ?_, h7, h8, h9, trivial⟩
    · rintro ⟨a, b, c⟩
      rw [not_and_or, not_and_or] at c
      exact h5 ⟨a, b, .inr c⟩
    · rintro ⟨a, b, c⟩; exact h5 ⟨a, b, .inl c⟩

theorem noop_consistent {c : Ctx} (h : c.noop = true) : ¬ Inconsistent c ∧ ¬ HasOrder c := by
  unfold Ctx.noop at h
  split at h
  · cases h
  rename_i hs
  simp only [Bool.or_eq_true, not_or, Option.isSome_iff_ne_none, ne_eq, not_not] at hs
  simp only [Bool.and_eq_true, Option.isNone_iff_eq_none, unset_iff] at h
  obtain ⟨⟨⟨⟨⟨⟨⟨⟨⟨⟨⟨⟨h1, h2⟩, h3⟩, h4⟩, h5⟩, h6⟩, h7⟩, h8⟩, h9⟩, h10⟩, h11⟩, h12⟩, h13⟩ := h
  unfold Inconsistent HasOrder
  simp [hs, h1, h2, h3, h4, h5, h8, h9, h10, h11, h12, h13]

theorem falsy_iff (c : Ctx) : (falsy c.buyShares && falsy c.sellShares) = true ↔ ¬ HasOrder c := by
  unfold HasOrder falsy
  rcases c.buyShares with _ | a <;> rcases c.sellShares with _ | b <;>
    simp only [Bool.and_eq_true, beq_iff_eq]
  · simp
  · simp
  · simp
  · constructor
    · rintro ⟨rfl, rfl⟩ ⟨q, h, h'⟩
      simp at h'; tauto
    · intro h
      by_contra hc
      rw [not_and_or] at hc
      rcases hc with hc | hc
      · exact h ⟨a, hc, .inl rfl⟩
      · exact h ⟨b, hc, .inr rfl⟩

theorem checkLimit_ok (l : Option PyNum) (r : Option ℚ) :
    checkLimit l = .ok r ↔ r.map PyNum.fin = l := by
  rcases l with _ | (q | _)
  · simp [checkLimit, eq_comm]
  · rcases r with _ | x <;> simp [checkLimit, eq_comm]
  · rcases r with _ | x <;> simp [checkLimit]

theorem getStops_ok (c : Ctx) (sym : Sym) (k : Nat) (st : List Stop × List Stop × Nat) :
    c.getStops sym k = .ok st ↔
      (c.buyShares ≠ none ∧ st.2.1 = [] ∧ c.stopsFor sym .long k = .ok (st.1, st.2.2)) ∨
      (c.buyShares = none ∧ c.sellShares ≠ none ∧ st.1 = [] ∧
        c.stopsFor sym .short k = .ok (st.2.1, st.2.2)) ∨
      (c.buyShares = none ∧ c.sellShares = none ∧ st = ([], [], k)) := by
  obtain ⟨a, b, n⟩ := st
  unfold Ctx.getStops
  rcases c.buyShares with _ | x <;> rcases c.sellShares with _ | y <;>
    simp only [Option.isSome_none, Option.isSome_some, if_true, Bool.false_eq_true, if_false,
      bind_okE, ne_eq, not_true_eq_false, false_and, true_and, reduceCtorEq, not_false_eq_true,
      false_or, or_false]
  · constructor
    · intro h; exact (Except.ok.inj h).symm
    · intro h; rw [h]; rfl
  all_goals
    constructor
    · rintro ⟨⟨l, m⟩, h1, h2⟩
      have h2 := Except.ok.inj h2
      cases h2
      exact ⟨rfl, h1⟩
    · rintro ⟨rfl, h1⟩
      exact ⟨_, h1, rfl⟩

theorem stopsFor_exists (c : Ctx) (sym : Sym) (pt : PosType) (k : Nat) :
    (∃ b, c.stopsFor sym pt k = .ok b) ↔ StopsOK c := by
  constructor
  · rintro ⟨b, h⟩; exact ((stopsFor_ok c sym pt k b).1 h).1
  · intro h
    exact ⟨_, (stopsFor_ok c sym pt k _).2 ⟨h, _, _, _, _, rfl, rfl, rfl, rfl, rfl⟩⟩

/-- `build` succeeds when the limits are finite and the stops consistent. -/
theorem build_ok (c : Ctx) (sym : Sym) (d : Date) (k : Nat) (x : ExecResult × Nat) :
    c.build sym d k = .ok x ↔ ∃ bl sl st, bl.map PyNum.fin = c.buyLimit ∧
      sl.map PyNum.fin = c.sellLimit ∧ c.getStops sym k = .ok st ∧
      x = ({ symbol := sym, date := d,
             buyFill := c.buyFill.getD (.price .middle),
             sellFill := c.sellFill.getD (.price .middle),
             score := c.score, longScore := c.longScore, shortScore := c.shortScore,
             buyShares := c.buyShares, buyLimit := bl, buyTimeout := c.buyTimeout,
             sellShares := c.sellShares, sellLimit := sl, sellTimeout := c.sellTimeout,
             longStops := st.1, shortStops := st.2.1, cover := c.cover,
             exitPos := if c.buyShares.isSome || c.sellShares.isSome then c.exitPos else none },
           st.2.2) := by
  unfold Ctx.build
  simp only [bind_okE, checkLimit_ok]
  constructor
  · rintro ⟨bl, h1, sl, h2, st, h3, h4⟩
    exact ⟨bl, sl, st, h1, h2, h3, (Except.ok.inj h4).symm⟩
  · rintro ⟨bl, sl, st, h1, h2, h3, rfl⟩
    exact ⟨bl, h1, sl, h2, st, h3, rfl⟩

theorem limit_exists (l : Option PyNum) : (∃ r : Option ℚ, r.map PyNum.fin = l) ↔ l ≠ some .notFinite := by
  rcases l with _ | (q | _)
  · simp
  · simp
  · simp

/-- **C66.** `to_result` raises exactly on missing or contradictory settings; it gives
no result exactly when, otherwise, no number of shares other than zero is set; and
its result is the order that was set: one side, the limit and stops of that side
only, with fresh increasing stop ids. -/
theorem result_exact (c : Ctx) (k : Nat) :
    ((∃ e, c.toResult k = .error e) ↔ Rejected c) ∧
    (∀ k', c.toResult k = .ok (none, k') ↔ k' = k ∧ ¬ Rejected c ∧ ¬ HasOrder c) ∧
    (∀ r k', c.toResult k = .ok (some r, k') → HasOrder c ∧ Result c k k' r) := by
  rcases hd : c.date with _ | d
  · have : c.toResult k = .error .noDate := by unfold Ctx.toResult; rw [hd]
    rw [this]
    refine ⟨⟨fun _ => .inl hd, fun _ => ⟨_, rfl⟩⟩, fun k' => ⟨fun h => (nomatch h), ?_⟩,
      fun r k' h => (nomatch h)⟩
    rintro ⟨_, h, _⟩; exact absurd (.inl hd) h
  rcases hs : c.symbol with _ | sym
  · have : c.toResult k = .error .noSymbol := by unfold Ctx.toResult; rw [hd, hs]
    rw [this]
    refine ⟨⟨fun _ => .inr (.inl hs), fun _ => ⟨_, rfl⟩⟩, fun k' => ⟨fun h => (nomatch h), ?_⟩,
      fun r k' h => (nomatch h)⟩
    rintro ⟨_, h, _⟩; exact absurd (.inr (.inl hs)) h
  have hrej : Rejected c ↔ Inconsistent c ∨
      (HasOrder c ∧ (c.buyLimit = some .notFinite ∨ c.sellLimit = some .notFinite ∨ ¬ StopsOK c)) := by
    unfold Rejected; rw [hd, hs]; simp
  have hunf : c.toResult k = if c.noop then .ok (none, k) else
      match c.checkSettings with
      | .error e => .error e
      | .ok _ =>
        if falsy c.buyShares && falsy c.sellShares then .ok (none, k)
        else
          match c.build sym d k with
          | .error e => .error e
          | .ok (r, n) => .ok (some r, n) := by
    unfold Ctx.toResult; simp only [hd, hs]; rfl
  rw [hunf]
  by_cases hno : c.noop = true
  · obtain ⟨n1, n2⟩ := noop_consistent hno
    have hn : ¬ Rejected c := by rw [hrej]; rintro (h | h); exacts [n1 h, n2 h.1]
    rw [if_pos hno]
    refine ⟨⟨fun ⟨_, h⟩ => (nomatch h), fun h => absurd h hn⟩, fun k' => ?_, fun r k' h => (nomatch h)⟩
    constructor
    · intro h; cases h; exact ⟨rfl, hn, n2⟩
    · rintro ⟨rfl, _⟩; rfl
  rw [if_neg hno]
  rcases hck : c.checkSettings with e | u
  · have hin : Inconsistent c := by
      by_contra hc
      have := (checkSettings_ok c ()).2 hc
      rw [hck] at this; cases this
    simp only
    refine ⟨⟨fun _ => hrej.2 (.inl hin), fun _ => ⟨_, rfl⟩⟩, fun k' => ⟨fun h => (nomatch h), ?_⟩,
      fun r k' h => (nomatch h)⟩
    rintro ⟨_, h, _⟩; exact absurd (hrej.2 (.inl hin)) h
  have hcon := (checkSettings_ok c u).1 hck
  simp only
  by_cases hf : (falsy c.buyShares && falsy c.sellShares) = true
  · have hno := (falsy_iff c).1 hf
    have hn : ¬ Rejected c := by rw [hrej]; rintro (h | h); exacts [hcon h, hno h.1]
    rw [if_pos hf]
    refine ⟨⟨fun ⟨_, h⟩ => (nomatch h), fun h => absurd h hn⟩, fun k' => ?_, fun r k' h => (nomatch h)⟩
    constructor
    · intro h; cases h; exact ⟨rfl, hn, hno⟩
    · rintro ⟨rfl, _⟩; rfl
  rw [if_neg hf]
  have hho : HasOrder c := by
    by_contra hc; exact hf ((falsy_iff c).2 hc)
  have hboth : ¬ (c.buyShares ≠ none ∧ c.sellShares ≠ none) := by
    intro h; exact hcon (.inr (.inr (.inr (.inr (.inr (.inl h))))))
  have hst : (∃ st, c.getStops sym k = .ok st) ↔ StopsOK c := by
    obtain ⟨q, _, hq⟩ := hho
    by_cases hb : c.buyShares = none
    · have hs' : c.sellShares ≠ none := by
        rcases hq with h | h
        · rw [hb] at h; cases h
        · rw [h]; simp
      rw [← stopsFor_exists c sym .short k]
      constructor
      · rintro ⟨st, h⟩
        rcases (getStops_ok c sym k st).1 h with h | h | h
        · exact absurd hb h.1
        · exact ⟨_, h.2.2.2⟩
        · exact absurd h.2.1 hs'
      · rintro ⟨b, h⟩
        exact ⟨([], b.1, b.2), (getStops_ok c sym k _).2 (.inr (.inl ⟨hb, hs', rfl, h⟩))⟩
    · rw [← stopsFor_exists c sym .long k]
      constructor
      · rintro ⟨st, h⟩
        rcases (getStops_ok c sym k st).1 h with h | h | h
        · exact ⟨_, h.2.2⟩
        · exact absurd h.1 hb
        · exact absurd h.1 hb
      · rintro ⟨b, h⟩
        exact ⟨(b.1, [], b.2), (getStops_ok c sym k _).2 (.inl ⟨hb, rfl, h⟩)⟩
  have hbuild : (∃ x, c.build sym d k = .ok x) ↔ ¬ Rejected c := by
    rw [hrej]
    have h1 := limit_exists c.buyLimit
    have h2 := limit_exists c.sellLimit
    constructor
    · rintro ⟨x, h⟩
      obtain ⟨bl, sl, st, g1, g2, g3, _⟩ := (build_ok c sym d k x).1 h
      have a1 := h1.1 ⟨bl, g1⟩
      have a2 := h2.1 ⟨sl, g2⟩
      have a3 := hst.1 ⟨st, g3⟩
      rintro (h | ⟨_, h | h | h⟩)
      exacts [hcon h, a1 h, a2 h, h a3]
    · intro h
      obtain ⟨bl, g1⟩ := h1.2 (fun hc => h (.inr ⟨hho, .inl hc⟩))
      obtain ⟨sl, g2⟩ := h2.2 (fun hc => h (.inr ⟨hho, .inr (.inl hc)⟩))
      obtain ⟨st, g3⟩ := hst.2 (by by_contra hc; exact h (.inr ⟨hho, .inr (.inr hc)⟩))
      exact ⟨_, (build_ok c sym d k _).2 ⟨bl, sl, st, g1, g2, g3, rfl⟩⟩
  rcases hbu : c.build sym d k with e | ⟨r, n⟩
  · have hr : Rejected c := by
      by_contra hc
      obtain ⟨x, hx⟩ := hbuild.2 hc
      rw [hbu] at hx; cases hx
    simp only
    refine ⟨⟨fun _ => hr, fun _ => ⟨_, rfl⟩⟩, fun k' => ⟨fun h => (nomatch h), ?_⟩,
      fun r k' h => (nomatch h)⟩
    rintro ⟨_, h, _⟩; exact absurd hr h
  · have hr : ¬ Rejected c := hbuild.1 ⟨_, hbu⟩
    simp only
    refine ⟨⟨fun ⟨_, h⟩ => (nomatch h), fun h => absurd h hr⟩, fun k' => ⟨fun h => (nomatch h), ?_⟩, ?_⟩
    · rintro ⟨_, _, h⟩; exact absurd hho h
    · intro r' k' h
      cases h
      refine ⟨hho, ?_⟩
      obtain ⟨bl, sl, st, g1, g2, g3, g4⟩ := (build_ok c sym d k _).1 hbu
      cases g4
      have hside : (∃ q, q ≠ 0 ∧ c.buyShares = some q ∧ c.sellShares = none) ∨
          ∃ q, q ≠ 0 ∧ c.sellShares = some q ∧ c.buyShares = none := by
        obtain ⟨q, hq, h | h⟩ := hho
        · refine .inl ⟨q, hq, h, ?_⟩
          by_contra hc; exact hboth ⟨by rw [h]; simp, hc⟩
        · refine .inr ⟨q, hq, h, ?_⟩
          by_contra hc; exact hboth ⟨hc, by rw [h]; simp⟩
      have hsome : (c.buyShares.isSome || c.sellShares.isSome) = true := by
        rcases hside with ⟨q, _, h, _⟩ | ⟨q, _, h, _⟩ <;> rw [h] <;> simp
      refine ⟨hs, hd, ⟨rfl, rfl⟩, hside, ⟨g1, g2⟩, ?_, ⟨rfl, rfl⟩, ⟨rfl, rfl⟩, ⟨rfl, rfl, rfl⟩, ?_, ?_⟩
      · have k1 : c.buyShares = none → c.buyLimit = none := by
          intro h; by_contra hc; exact hcon (.inl ⟨h, hc⟩)
        have k2 : c.sellShares = none → c.sellLimit = none := by
          intro h; by_contra hc; exact hcon (.inr (.inl ⟨h, hc⟩))
        refine ⟨fun h => ?_, fun h => ?_⟩
        · have := k1 h; rw [this] at g1; simpa using g1
        · have := k2 h; rw [this] at g2; simpa using g2
      · exact ⟨rfl, if_pos hsome, rfl⟩
      · rcases (getStops_ok c sym k st).1 g3 with ⟨a, b, e⟩ | ⟨a, b, b', e⟩ | ⟨a, b, e⟩
        · refine ⟨fun _ => ⟨b, stopsFor_asked e⟩, fun h => absurd ⟨a, h⟩ hboth⟩
        · refine ⟨fun h => absurd a h, fun _ => ⟨b', stopsFor_asked e⟩⟩
        · refine ⟨fun h => absurd a h, fun h => absurd b h⟩

/-- **C86.** A new bar forgets every setting of earlier bars: the context is the same
whatever was set, and without new settings it gives no result. -/
theorem bar_forgets (c c' : Ctx) (d : Date) (hs : c.symbol = c'.symbol)
    (hr : c.rotation = c'.rotation) : c.start d = c'.start d := by
  obtain ⟨⟩ := c
  obtain ⟨⟩ := c'
  simp only at hs hr
  subst hs hr
  rfl

theorem bar_starts_empty (c : Ctx) (d : Date) (k : Nat) (hs : c.symbol ≠ none) :
    (c.start d).toResult k = .ok (none, k) := by
  rcases h : c.symbol with _ | s
  · exact absurd h hs
  · unfold Ctx.toResult Ctx.start
    simp only [h]
    rfl

/-! ## Rotation -/

/-- **C87.** The orders an execution sets are ignored by rotation. -/
theorem rotation_ignores_orders (cfg : Config) (pf : Portfolio) (close : PyNum) (size : ℚ) (c : Ctx)
    (a : RotAct) (bs ss : Option ℚ) (bl sl : Option PyNum) (bt st : Option Int) (cv ex : Bool)
    (ep : Option PosType) :
    Ctx.rotate cfg pf close size
      { c with buyShares := bs, sellShares := ss, buyLimit := bl, sellLimit := sl, buyTimeout := bt,
               sellTimeout := st, cover := cv, exiting := ex, exitPos := ep } a =
      c.rotate cfg pf close size a := rfl

/-- **C87.** A symbol rotation does not trade gives no order and raises nothing,
whatever fill prices and stops its execution set. -/
theorem rotation_leaves (cfg : Config) (pf : Portfolio) (close : PyNum) (size : ℚ) (c : Ctx)
    (k : Nat) (hd : c.date ≠ none) (hs : c.symbol ≠ none) (hsc : c.score = none) :
    ∃ c', c.rotate cfg pf close size .leave = .ok c' ∧ c'.toResult k = .ok (none, k) := by
  refine ⟨_, rfl, ?_⟩
  obtain ⟨-, h, -⟩ := result_exact (c.resetOrders.clearUnused) k
  rw [h]
  refine ⟨rfl, ?_, ?_⟩
  · unfold Rejected Inconsistent HasOrder
    simp [Ctx.resetOrders, Ctx.clearUnused, hd, hs, hsc]
  · unfold HasOrder
    simp [Ctx.resetOrders, Ctx.clearUnused]

namespace Spec

/-- The price stops set on the context are consistent. -/
def PriceStopsOK (c : Ctx) : Prop :=
  StopSet.Consistent c.loss ∧ StopSet.Consistent c.profit ∧ StopSet.Consistent c.trailing

/-- The result sells (buys) `n` shares of a position of type `dir` that is closed. -/
structure RotExit (dir : PosType) (n : ℚ) (r : ExecResult) : Prop where
  side : (match dir with | .long => r.sellShares | .short => r.buyShares) = some n ∧
    (match dir with | .long => r.buyShares | .short => r.sellShares) = none
  flag : r.exitPos = some dir
  limit : r.buyLimit = none ∧ r.sellLimit = none
  timeout : r.buyTimeout = none ∧ r.sellTimeout = none
  cover : r.cover = true ↔ dir = .short
  noBarStop : ∀ s ∈ r.longStops ++ r.shortStops, s.stopType ≠ .bar

end Spec

/-- **C87.** For a position rotation liquidates the result closes all of it and nothing
else; it raises only when the price stops the execution set contradict each other. -/
theorem rotation_exits_all (cfg : Config) (pf : Portfolio) (close : PyNum) (size : ℚ) (c : Ctx)
    (k : Nat) (sym : Sym) (dir : PosType) (p : Position) (hd : c.date ≠ none)
    (hs : c.symbol = some sym) (hsc : c.score = none)
    (hp : lookupPos (pf.book dir) sym = some p) (h0 : 0 < p.shares) (ht : p.type = dir) :
    ∃ c', c.rotate cfg pf close size (.exit dir) = .ok c' ∧
      ((∃ e, c'.toResult k = .error e) ↔ ¬ PriceStopsOK c) ∧
      (PriceStopsOK c → ∃ r k', c'.toResult k = .ok (some r, k') ∧ RotExit dir p.shares r) := by
  have key : ∀ c' : Ctx, c'.date ≠ none → c'.symbol = some sym → c'.score = none →
      c'.holdBars = none → c'.loss = c.loss → c'.profit = c.profit → c'.trailing = c.trailing →
      c'.buyLimit = none → c'.sellLimit = none → c'.buyTimeout = none → c'.sellTimeout = none →
      c'.exitPos = some dir → (c'.cover = true ↔ dir = .short) →
      (match dir with
        | .long => c'.sellShares = some p.shares ∧ c'.buyShares = none ∧ c'.buyFill = none
        | .short => c'.buyShares = some p.shares ∧ c'.sellShares = none ∧ c'.sellFill = none) →
      ((∃ e, c'.toResult k = .error e) ↔ ¬ PriceStopsOK c) ∧
      (PriceStopsOK c → ∃ r k', c'.toResult k = .ok (some r, k') ∧ RotExit dir p.shares r) := by
    intro c' d1 d2 d3 d4 d5 d6 d7 d8 d9 d10 d11 d12 d13 d14
    obtain ⟨r1, r2, r3⟩ := result_exact c' k
    have hok : StopsOK c' ↔ PriceStopsOK c := by
      unfold StopsOK PriceStopsOK; rw [d4, d5, d6, d7]; simp
    have hho : HasOrder c' := by
      refine ⟨p.shares, h0.ne', ?_⟩
      cases dir
      · exact .inr d14.1
      · exact .inl d14.1
    have hrej : Rejected c' ↔ ¬ PriceStopsOK c := by
      have hin : ¬ Inconsistent c' := by
        unfold Inconsistent
        rw [d3, d4, d8, d9]
        cases dir
        · rw [d14.1, d14.2.1, d14.2.2]; simp
        · rw [d14.1, d14.2.1, d14.2.2]; simp
      unfold Rejected
      rw [d2, d8, d9, hok]
      simp [d1, hin, hho]
    rw [hrej] at r1
    refine ⟨r1, ?_⟩
    intro hps
    rcases hx : c'.toResult k with e | ⟨_ | r, k'⟩
    · exact absurd hps (r1.1 ⟨e, hx⟩)
    · exact absurd hho ((r2 k').1 hx).2.2
    · refine ⟨r, k', rfl, ?_⟩
      have R := (r3 r k' hx).2
      have nobar : ∀ pt l, StopsAsked c' r.symbol pt k k' l → ∀ s ∈ l, s.stopType ≠ .bar := by
        intro pt l hA s hs hb
        have := (hA.asked .bar).1 (hb ▸ List.mem_map_of_mem hs)
        unfold Asked at this
        rw [d4] at this; cases this
      have l1 := R.limits
      rw [d8, d9] at l1
      have l2 : r.buyLimit = none := by simpa using l1.1
      have l3 : r.sellLimit = none := by simpa using l1.2
      refine ⟨?_, R.flags.2.1.trans d12, ⟨l2, l3⟩, ⟨R.timeouts.1.trans d10, R.timeouts.2.trans d11⟩,
        by rw [R.flags.1]; exact d13, ?_⟩
      · cases dir
        · exact ⟨R.shares.2.trans d14.1, R.shares.1.trans d14.2.1⟩
        · exact ⟨R.shares.1.trans d14.1, R.shares.2.trans d14.2.1⟩
      · intro s hs
        cases dir
        · have hne : r.sellShares ≠ none := by rw [R.shares.2, d14.1]; simp
          obtain ⟨a, b⟩ := R.stops.2 hne
          rw [a] at hs
          exact nobar _ _ b s hs
        · have hne : r.buyShares ≠ none := by rw [R.shares.1, d14.1]; simp
          obtain ⟨a, b⟩ := R.stops.1 hne
          rw [a, List.append_nil] at hs
          exact nobar _ _ b s hs
  cases dir with
  | long =>
    have hp' : lookupPos pf.longs sym = some p := hp
    have hrot : c.rotate cfg pf close size (.exit .long) =
        .ok (Ctx.clearUnused { c.resetOrders with
          sellShares := some p.shares, exitPos := some p.type, exiting := true }) := by
      unfold Ctx.rotate Ctx.rotAct Ctx.sellAll
      simp only [show c.resetOrders.symbol = some sym from hs, hp']
    refine ⟨_, hrot, key _ ?_ ?_ ?_ ?_ ?_ ?_ ?_ ?_ ?_ ?_ ?_ ?_ ?_ ?_⟩ <;>
      simp [Ctx.clearUnused, Ctx.resetOrders, hd, hs, hsc, ht]
  | short =>
    have hp' : lookupPos pf.shorts sym = some p := hp
    have hrot : c.rotate cfg pf close size (.exit .short) =
        .ok (Ctx.clearUnused { c.resetOrders.setCoverShares (some p.shares) with
          exitPos := some p.type, exiting := true }) := by
      unfold Ctx.rotate Ctx.rotAct Ctx.coverAll
      simp only [show c.resetOrders.symbol = some sym from hs, hp']
    refine ⟨_, hrot, key _ ?_ ?_ ?_ ?_ ?_ ?_ ?_ ?_ ?_ ?_ ?_ ?_ ?_ ?_⟩ <;>
      simp [Ctx.clearUnused, Ctx.resetOrders, Ctx.setCoverShares, hd, hs, hsc, ht]

/-- **C87.** For a symbol rotation enters, without a position, the result opens a
position of the target size on that side: as many shares as the share of the capital
buys, none without a positive close.  It raises only when the stops the execution set
contradict each other. -/
theorem rotation_enters (cfg : Config) (pf : Portfolio) (close size : ℚ) (c : Ctx)
    (k : Nat) (sym : Sym) (dir : PosType) (hd : c.date ≠ none) (hs : c.symbol = some sym)
    (hsc : c.score = none) (hsz : 0 ≤ size) (hc : 0 < close)
    (hp : lookupPos (pf.book dir) sym = none) :
    ∃ c' n, c.rotate cfg pf (.fin close) size (.enter dir) = .ok c' ∧
      SizedFor cfg (pf.equity * cfg.leverage * size) close n ∧
      (n = 0 → c'.toResult k = .ok (none, k)) ∧
      (n ≠ 0 → ((∃ e, c'.toResult k = .error e) ↔ ¬ StopsOK c) ∧
        (StopsOK c → ∃ r k', c'.toResult k = .ok (some r, k') ∧
          (match dir with
            | .long => r.buyShares = some n ∧ r.sellShares = none
            | .short => r.sellShares = some n ∧ r.buyShares = none) ∧
          r.exitPos = none ∧ r.cover = false ∧ r.buyLimit = none ∧ r.sellLimit = none)) := by
  obtain ⟨h1, h2⟩ := calc_target cfg pf.equity size (.fin close) none
  obtain ⟨n, hn⟩ := h1.2 ⟨close, rfl, hc⟩
  have hsized := h2 close n rfl hn
  have hcap : capital cfg pf.equity none = pf.equity * cfg.leverage := rfl
  rw [hcap] at hsized
  have key : ∀ c' : Ctx, c'.date ≠ none → c'.symbol = some sym → c'.score = none →
      c'.holdBars = c.holdBars → c'.loss = c.loss → c'.profit = c.profit → c'.trailing = c.trailing →
      c'.buyLimit = none → c'.sellLimit = none →
      c'.exitPos = none → c'.cover = false →
      (match dir with
        | .long => c'.buyShares = some n ∧ c'.sellShares = none ∧ c'.sellFill = none
        | .short => c'.sellShares = some n ∧ c'.buyShares = none ∧ c'.buyFill = none) →
      (n = 0 → c'.toResult k = .ok (none, k)) ∧
      (n ≠ 0 → ((∃ e, c'.toResult k = .error e) ↔ ¬ StopsOK c) ∧
        (StopsOK c → ∃ r k', c'.toResult k = .ok (some r, k') ∧
          (match dir with
            | .long => r.buyShares = some n ∧ r.sellShares = none
            | .short => r.sellShares = some n ∧ r.buyShares = none) ∧
          r.exitPos = none ∧ r.cover = false ∧ r.buyLimit = none ∧ r.sellLimit = none)) := by
    intro c' d1 d2 d3 d4 d5 d6 d7 d8 d9 d12 d13 d14
    obtain ⟨r1, r2, r3⟩ := result_exact c' k
    have hok : StopsOK c' ↔ StopsOK c := by
      unfold StopsOK; rw [d4, d5, d6, d7]
    have hin : ¬ Inconsistent c' := by
      unfold Inconsistent
      rw [d3, d8, d9]
      cases dir
      · rw [d14.1, d14.2.1, d14.2.2]; simp
      · rw [d14.1, d14.2.1, d14.2.2]; simp
    have hho : HasOrder c' ↔ n ≠ 0 := by
      unfold HasOrder
      cases dir
      · rw [d14.1, d14.2.1]; simp
      · rw [d14.1, d14.2.1]; simp
    have hrej : Rejected c' ↔ n ≠ 0 ∧ ¬ StopsOK c := by
      unfold Rejected
      rw [d2, d8, d9, hok, hho]
      simp [d1, hin]
    rw [hrej] at r1
    constructor
    · intro h
      rw [r2, hrej, hho]
      simp [h]
    · intro h
      refine ⟨by rw [r1]; simp [h], ?_⟩
      intro hps
      rcases hx : c'.toResult k with e | ⟨_ | r, k'⟩
      · exact absurd hps (r1.1 ⟨e, hx⟩).2
      · exact absurd (hho.2 h) ((r2 k').1 hx).2.2
      · refine ⟨r, k', rfl, ?_⟩
        have R := (r3 r k' hx).2
        have l1 := R.limits
        rw [d8, d9] at l1
        refine ⟨?_, R.flags.2.1.trans d12, R.flags.1.trans d13, by simpa using l1.1, by simpa using l1.2⟩
        cases dir
        · exact ⟨R.shares.1.trans d14.1, R.shares.2.trans d14.2.1⟩
        · exact ⟨R.shares.2.trans d14.1, R.shares.1.trans d14.2.1⟩
  cases dir with
  | long =>
    have hp' : lookupPos pf.longs sym = none := hp
    have hrot : c.rotate cfg pf (.fin close) size (.enter .long) =
        .ok (Ctx.clearUnused { c.resetOrders with buyShares := some n }) := by
      unfold Ctx.rotate Ctx.rotAct Ctx.setTarget
      simp only [if_neg (not_lt.2 hsz), if_neg (not_le.2 hc), hn, show c.resetOrders.symbol = some sym from hs, hp',
        Ctx.targetLong]
    refine ⟨_, n, hrot, hsized, key _ ?_ ?_ ?_ ?_ ?_ ?_ ?_ ?_ ?_ ?_ ?_ ?_⟩ <;>
      simp [Ctx.clearUnused, Ctx.resetOrders, hd, hs, hsc]
  | short =>
    have hp' : lookupPos pf.shorts sym = none := hp
    have hrot : c.rotate cfg pf (.fin close) size (.enter .short) =
        .ok (Ctx.clearUnused { c.resetOrders with sellShares := some n }) := by
      unfold Ctx.rotate Ctx.rotAct Ctx.setTarget
      simp only [if_neg (not_lt.2 hsz), if_neg (not_le.2 hc), hn, show c.resetOrders.symbol = some sym from hs, hp',
        Ctx.targetShort]
    refine ⟨_, n, hrot, hsized, key _ ?_ ?_ ?_ ?_ ?_ ?_ ?_ ?_ ?_ ?_ ?_ ?_⟩ <;>
      simp [Ctx.clearUnused, Ctx.resetOrders, hd, hs, hsc]

/-! ## Where it falls short, and examples -/

namespace Demo

/-- A context on a bar of symbol "A". -/
def cx : Ctx := { symbol := some "A", date := some 3 }

/-- 10000 in cash, whole shares. -/
def cxCfg : Config := { cash := 10000 }

/-- A portfolio with a position of `n` shares of "A". -/
def cxPf (t : PosType) (n : ℚ) : Portfolio :=
  let p : Position := { symbol := "A", shares := n, type := t }
  { cash := 10000, equity := 10000, marketValue := 10000,
    longs := (match t with | .long => [p] | .short => []),
    shorts := (match t with | .long => [] | .short => [p]) }

example : calcTarget cxCfg 10000 (1 / 4) (.fin 30) none = .ok 83 := by decide +kernel
example : calcTarget { cxCfg with fractional := true } 10000 (1 / 4) (.fin 30) none =
    .ok (250 / 3) := by decide +kernel
example : calcTarget cxCfg 10000 (1 / 4) .notFinite none = .error .badPrice := by decide +kernel

example : (cxPf .long 50).equity = 10000 ∧ ∀ t p, lookupPos ((cxPf .long 50).book t) "A" = some p →
    0 < p.shares ∧ p.type = t := by
  refine ⟨rfl, ?_⟩
  intro t p h
  cases t
  · have : p = { symbol := "A", shares := 50, type := .long } := by
      have h' : some ({ symbol := "A", shares := 50, type := .long } : Position) = some p := h
      exact (Option.some.inj h').symm
    subst this
    exact ⟨by norm_num, rfl⟩
  · cases h

example : cx.setTarget cxCfg (cxPf .long 50) (.fin 30) (1 / 4) .long =
    .ok { cx with buyShares := some 33 } := by decide +kernel
example : cx.setTarget cxCfg (cxPf .long 90) (.fin 30) (1 / 4) .long =
    .ok { cx with sellShares := some 7 } := by decide +kernel
example : cx.setTarget cxCfg (cxPf .long 90) (.fin 30) 0 .long =
    .ok { cx with sellShares := some 90, exitPos := some .long, exiting := true } := by decide +kernel
example : cx.setTarget cxCfg (cxPf .short 90) (.fin 30) (1 / 4) .short =
    .ok { cx with buyShares := some 7, cover := true } := by decide +kernel

/-- A buy with a holding period, a loss stop and a trailing stop. -/
def cxBuy : Ctx :=
  { cx with buyShares := some 10, buyLimit := some (.fin 29), buyTimeout := some 2,
            holdBars := some 5, loss := { pct := some 4 }, trailing := { points := some 2 } }

example : ∃ r, cxBuy.toResult 7 = .ok (some r, 10) ∧ r.buyShares = some 10 ∧ r.sellShares = none ∧
    r.longStops.map Stop.id = [8, 9, 10] ∧
    r.longStops.map Stop.stopType = [.bar, .loss, .trailing] ∧ r.shortStops = [] := by
  refine ⟨_, rfl, ?_⟩
  decide +kernel
example : ({ cxBuy with sellShares := some 3 } : Ctx).toResult 7 = .error .bothSides := by
  decide +kernel
example : ({ cxBuy with profit := { limit := some 3 } } : Ctx).toResult 7 =
    .error (.stopLimitAlone .profit) := by decide +kernel
example : ({ cxBuy with buyShares := some 0 } : Ctx).toResult 7 = .ok (none, 7) := by
  decide +kernel

/-- An execution that sets its own order, stops and fill prices under rotation. -/
def cxRot : Ctx :=
  { cx with rotation := true, longScore := some (some 3), sellShares := some 4,
            loss := { pct := some 4 }, holdBars := some 5, sellFill := some (.price .open) }

example : cxRot.date ≠ none ∧ cxRot.symbol = some "A" ∧ cxRot.score = none ∧ StopsOK cxRot := by
  refine ⟨by decide, rfl, rfl, ?_⟩
  unfold StopsOK StopSet.Consistent StopSet.Wanted
  simp [cxRot, cx]
example : (cxRot.rotate cxCfg (cxPf .long 50) (.fin 30) (1 / 4) .leave).toOption.map
    (fun c => c.toResult 7) = some (.ok (none, 7)) := by decide +kernel
example : (lookupPos ((cxPf .long 50).book .long) "A").map (fun p => (p.shares, p.type)) =
    some (50, .long) := by decide +kernel

end Demo

/-- A target on one side ignores a position on the other: with 20 shares short, a long
target of 83 shares orders 83, which leaves 63. -/
theorem target_ignores_opposite :
    ∃ c', Demo.cx.setTarget Demo.cxCfg (Demo.cxPf .short 20) (.fin 30) (1 / 4) .long = .ok c' ∧
      heldOn (Demo.cxPf .short 20) .long "A" - heldOn (Demo.cxPf .short 20) .short "A" + ordered c' = 63 ∧
      calcTarget Demo.cxCfg (Demo.cxPf .short 20).equity (1 / 4) (.fin 30) none = .ok 83 := by
  refine ⟨{ Demo.cx with buyShares := some 83 }, ?_, ?_, ?_⟩ <;> decide +kernel

/-- Two targets on the same bar can contradict each other: the orders of the first are
not taken back, and `to_result` raises. -/
theorem targets_collide :
    ∃ c1 c2, Demo.cx.setTarget Demo.cxCfg (Demo.cxPf .long 50) (.fin 30) (1 / 4) .long = .ok c1 ∧
      c1.setTarget Demo.cxCfg (Demo.cxPf .long 50) (.fin 30) (1 / 10) .long = .ok c2 ∧
      c2.toResult 0 = .error .bothSides := by
  refine ⟨{ Demo.cx with buyShares := some 33 },
    { Demo.cx with buyShares := some 33, sellShares := some 17 }, ?_, ?_, ?_⟩ <;> decide +kernel

/-- The fill prices of the bar stops of a result. -/
def Spec.barFills : Except CErr (Option ExecResult × Nat) → List (Option FillSpec)
  | .ok (some r, _) =>
    ((r.longStops ++ r.shortStops).filter (fun s => s.stopType = .bar)).map Stop.fillPrice
  | _ => []

/-- Rotation drops the sell fill price of an entry with a holding period: its bar stop
fills at the middle price, where without rotation it fills at the price that was set. -/
theorem rotation_drops_hold_fill :
    ∃ c', Demo.cxRot.rotate Demo.cxCfg (Portfolio.init Demo.cxCfg) (.fin 30) (1 / 4) (.enter .long) =
        .ok c' ∧
      c'.buyShares = some 83 ∧
      barFills (c'.toResult 7) = [some (.price .middle)] ∧
      barFills (({ Demo.cxRot with rotation := false, sellShares := none,
                                   buyShares := some 83 } : Ctx).toResult 7) =
        [some (.price .open)] := by
  refine ⟨{ Demo.cxRot with sellShares := none, buyShares := some 83, sellFill := none },
    ?_, ?_, ?_, ?_⟩ <;> decide +kernel

end PyBroker
