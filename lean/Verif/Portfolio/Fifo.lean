import Verif.Portfolio.Holdings

/-!
# First-in first-out matching of exits
-/

namespace PyBroker

open Spec

theorem entriesOf_eq {ps : List Position} (hn : (ps.map Position.symbol).Nodup) (sym : Sym) :
    entriesOf ps sym = match lookupPos ps sym with
      | none => []
      | some p => p.entries := by
  unfold entriesOf
  induction ps with
  | nil => rfl
  | cons p ps ih =>
    rw [List.map_cons] at hn
    obtain ⟨hp, hn⟩ := List.nodup_cons.1 hn
    have hc : lookupPos (p :: ps) sym =
        if p.symbol = sym then some p else lookupPos ps sym := rfl
    rw [hc]
    by_cases hs : p.symbol = sym
    · have : ps.filter (fun p => decide (p.symbol = sym)) = [] := by
        rw [List.filter_eq_nil_iff]
        intro q hq
        simp only [decide_eq_true_eq]
        intro e
        exact hp (by rw [hs]; exact List.mem_map.2 ⟨q, hq, e⟩)
      rw [if_pos hs, List.filter_cons_of_pos (by simpa using hs), this]
      simp
    · rw [if_neg hs, List.filter_cons_of_neg (by simpa using hs)]
      exact ih hn

theorem gain_profit (pt : PosType) (n a b : ℚ) : gain pt n a b = profit pt n a b := by
  cases pt <;> simp only [gain, profit] <;> ring

theorem fifo_zero {xs : List ℚ} (h : ∀ x ∈ xs, 0 < x) : fifo xs 0 = xs.map (fun _ => 0) := by
  induction xs with
  | nil => rfl
  | cons x xs ih =>
    have hx : min x 0 = 0 := min_eq_right (h x (by simp)).le
    unfold fifo
    rw [hx, sub_zero, ih (fun y hy => h y (by simp [hy]))]
    rfl

theorem exits_zero {es : List Entry} (h : ∀ e ∈ es, 0 < e.shares) :
    exits es 0 = es.map (fun e => (e, 0)) := by
  unfold exits
  rw [fifo_zero (by simpa using h), List.map_map]
  induction es with
  | nil => rfl
  | cons e es ih =>
    simp only [List.map_cons, List.zip_cons_cons]
    rw [ih (fun y hy => h y (by simp [hy]))]
    rfl

theorem leftOpen_zero {es : List Entry} (h : ∀ e ∈ es, 0 < e.shares) : leftOpen es 0 = es := by
  unfold leftOpen
  rw [exits_zero h]
  induction es with
  | nil => rfl
  | cons e es ih =>
    rw [List.map_cons, List.filter_cons_of_pos (by simpa using h e (by simp)), List.map_cons,
      ih (fun y hy => h y (by simp [hy]))]
    simp

theorem fifoTrades_zero {es : List Entry} (h : ∀ e ∈ es, 0 < e.shares) (date : Date) (fill : ℚ) :
    fifoTrades date fill es 0 = [] := by
  unfold fifoTrades
  rw [exits_zero h]
  simp

theorem sum_fifo_zero {xs : List ℚ} (h : ∀ x ∈ xs, 0 < x) : (fifo xs 0).sum = 0 := by
  rw [fifo_zero h]; simp

theorem exits_cons (e : Entry) (es : List Entry) (n : ℚ) :
    exits (e :: es) n = (e, min e.shares n) :: exits es (n - min e.shares n) := rfl

theorem sum_fifo {xs : List ℚ} : ∀ {n : ℚ}, (∀ x ∈ xs, 0 < x) → 0 ≤ n →
    (fifo xs n).sum = min xs.sum n := by
  induction xs with
  | nil => intro n _ hn; simp [fifo, hn]
  | cons x xs ih =>
    intro n h hn
    have hx := h x (by simp)
    have hs : 0 ≤ xs.sum := List.sum_nonneg (fun y hy => (h y (by simp [hy])).le)
    unfold fifo
    rw [List.sum_cons, ih (fun y hy => h y (by simp [hy])) (by simp), List.sum_cons]
    rcases le_total x n with hxn | hxn
    · rw [min_eq_left hxn]
      rcases le_total xs.sum (n - x) with h1 | h1
      · rw [min_eq_left h1, min_eq_left (by linarith)]
      · rw [min_eq_right h1, min_eq_right (by linarith)]; ring
    · rw [min_eq_right hxn, sub_self, min_eq_right hs, min_eq_right (by linarith)]; ring

/-- What the exit loop does, in terms of the first-in first-out specification. -/
theorem exitLoop_fifo (cfg : Config) (pt : PosType) (date : Date) (fill : ℚ) :
    ∀ (es : List Entry) (rem : ℚ) (s : Portfolio) (p : Position), p.entries = es →
    (∀ e ∈ es, 0 < e.shares ∧ e.type = pt) → 0 ≤ rem →
    (exitLoop cfg pt date fill es rem s p).rem = rem - (fifo (es.map Entry.shares) rem).sum ∧
    (exitLoop cfg pt date fill es rem s p).pos.entries = leftOpen es rem ∧
    ∃ new, (exitLoop cfg pt date fill es rem s p).pf.trades = s.trades ++ new ∧
      new.map TradeFacts.of = fifoTrades date fill es rem := by
  intro es
  induction es with
  | nil =>
    intro rem s p hp _ _
    refine ⟨by simp [exitLoop, fifo], by simp [exitLoop, hp, leftOpen, exits], [], ?_, ?_⟩
    · simp [exitLoop]
    · simp [fifoTrades, exits]
  | cons e es ih =>
    intro rem s p hp hes h0
    have hpos : ∀ x ∈ es, 0 < x.shares := fun x hx => (hes x (by simp [hx])).1
    have hpos' : ∀ x ∈ es.map Entry.shares, 0 < x := by simpa using hpos
    obtain ⟨he, het⟩ := hes e (by simp)
    unfold exitLoop
    by_cases hrem : rem > 0
    · rw [if_pos hrem]
      by_cases hge : rem ≥ e.shares
      · rw [if_pos hge]
        have hmin : min e.shares rem = e.shares := min_eq_left hge
        simp only [exitEntry_pf, exitEntry_pos, takeShares_entries, hp, modEntry_cons_self,
          List.tail_cons]
        obtain ⟨i1, i2, new, i3, i4⟩ := ih (rem - e.shares)
          ((exitPf cfg s pt e e.shares fill date none).removeStopData e.stops)
          { p.takeShares e e.shares with entries := es } rfl
          (fun x hx => hes x (by simp [hx])) (by linarith)
        refine ⟨?_, ?_, exitTrade s pt e e.shares fill date none :: new, ?_, ?_⟩
        · rw [i1]
          simp only [List.map_cons, fifo, hmin, List.sum_cons]
          ring
        · rw [i2]
          unfold leftOpen
          rw [exits_cons, hmin, List.filter_cons_of_neg (by simp)]
        · rw [i3]
          obtain ⟨sd, ac, hr⟩ := removeStopData_frame e.stops
            (exitPf cfg s pt e e.shares fill date none)
          rw [hr]
          show (s.trades ++ [_]) ++ new = _
          simp
        · rw [List.map_cons, i4]
          unfold fifoTrades
          rw [exits_cons, hmin, List.filter_cons_of_pos (by simpa using he), List.map_cons]
          congr 1
          simp only [TradeFacts.of, exitTrade, tradeFor, gain_profit, het]
      · rw [if_neg hge]
        have hlt : rem < e.shares := not_le.1 hge
        have hmin : min e.shares rem = rem := min_eq_right hlt.le
        simp only [exitEntry_pf, exitEntry_pos, takeShares_entries, hp, modEntry_cons_self]
        refine ⟨?_, ?_, [exitTrade s pt e rem fill date none], rfl, ?_⟩
        · simp only [List.map_cons, fifo, hmin, List.sum_cons, sub_self, sum_fifo_zero hpos']
          ring
        · have := leftOpen_zero hpos
          unfold leftOpen at this ⊢
          rw [exits_cons, hmin, sub_self, List.filter_cons_of_pos (by simpa using hlt),
            List.map_cons, this]
        · have := fifoTrades_zero hpos date fill
          unfold fifoTrades at this ⊢
          rw [exits_cons, hmin, sub_self, List.filter_cons_of_pos (by simpa using hrem)]
          simp only [List.map_cons, this, List.map_nil]
          simp only [TradeFacts.of, exitTrade, tradeFor, gain_profit,
            het]
    · rw [if_neg hrem]
      have hz : rem = 0 := le_antisymm (not_lt.1 hrem) h0
      subst hz
      have hall : ∀ x ∈ e :: es, 0 < x.shares := fun x hx => (hes x hx).1
      refine ⟨?_, ?_, [], ?_, ?_⟩
      · rw [sum_fifo_zero (by simpa using hall)]; simp
      · rw [leftOpen_zero hall]; exact hp
      · simp
      · rw [fifoTrades_zero hall]; rfl

/-- The whole closing half of an order. -/
theorem closeShares_fifo {cfg : Config} {pt : PosType} {s : Portfolio} {date : Date} {sym : Sym}
    {shares fill : ℚ} (hwf : WF [] s) (h0 : 0 ≤ shares) :
    let c := closeShares cfg pt s date sym shares fill
    let es := entriesOf (s.book pt) sym
    c.rem = shares - (fifo (es.map Entry.shares) shares).sum ∧
    entriesOf (c.pf.book pt) sym = leftOpen es shares ∧
    ∃ new, c.pf.trades = s.trades ++ new ∧ new.map TradeFacts.of = fifoTrades date fill es shares := by
  intro c es
  have hes : es = match lookupPos (s.book pt) sym with
      | none => []
      | some p => p.entries := entriesOf_eq (hwf.nodup pt) sym
  rcases Option.eq_none_or_eq_some (lookupPos (s.book pt) sym) with hp | ⟨p, hp⟩
  · have hc : c = ⟨0, shares, s⟩ := by
      show closeShares cfg pt s date sym shares fill = _
      unfold closeShares; rw [hp]
    rw [hp] at hes
    simp only at hes
    rw [hc]
    simp only
    refine ⟨by rw [hes]; simp [fifo], ?_, [], by simp, ?_⟩
    · show es = _
      rw [hes]; simp [leftOpen, exits]
    · rw [hes]; simp [fifoTrades, exits]
  · rw [hp] at hes
    simp only at hes
    obtain ⟨hpm, hps⟩ := lookupPos_some hp
    have hpw := hwf.pos pt p hpm
    have hshares : ∀ e ∈ p.entries, 0 < e.shares ∧ e.type = pt := by
      intro e he
      have := hpw.entries e he
      refine ⟨?_, this.type⟩
      rcases this.shares with h | h
      · simp at h
      · exact h.2
    obtain ⟨l1, l2, new, l3, l4⟩ := exitLoop_fifo cfg pt date fill p.entries shares s p rfl hshares h0
    have hc : c = ⟨shares - (exitLoop cfg pt date fill p.entries shares s p).rem,
        (exitLoop cfg pt date fill p.entries shares s p).rem,
        (exitLoop cfg pt date fill p.entries shares s p).pf.updatePosition
          (exitLoop cfg pt date fill p.entries shares s p).pos⟩ := by
      show closeShares cfg pt s date sym shares fill = _
      unfold closeShares; rw [hp]
    refine ⟨?_, ?_, new, ?_, ?_⟩
    · rw [hc, hes]; exact l1
    · have hbk : ∀ pt', (exitLoop cfg pt date fill p.entries shares s p).pf.book pt' =
          s.book pt' ∧ (exitLoop cfg pt date fill p.entries shares s p).pos.symbol = p.symbol ∧
          (exitLoop cfg pt date fill p.entries shares s p).pos.type = p.type := by
        intro pt'
        refine exitLoop_inv cfg pt date fill (fun _ t q => t.book pt' = s.book pt' ∧
          q.symbol = p.symbol ∧ q.type = p.type) ?_ ?_ p.entries shares s p rfl ⟨rfl, rfl, rfl⟩
        · intro rem t q e es' _ _ _ ⟨a, b, d⟩
          refine ⟨?_, ?_, ?_⟩
          · rw [removeStopData_book, exitPf_book]; exact a
          · show (q.takeShares e e.shares).symbol = _
            rw [takeShares_symbol]; exact b
          · show (q.takeShares e e.shares).type = _
            rw [takeShares_type]; exact d
        · intro rem t q e es' _ _ _ ⟨a, b, d⟩
          refine ⟨?_, ?_, ?_⟩
          · rw [exitPf_book]; exact a
          · rw [takeShares_symbol]; exact b
          · rw [takeShares_type]; exact d
      rw [hc, hes, ← l2]
      generalize hq : (exitLoop cfg pt date fill p.entries shares s p).pos = q at hbk
      generalize ht : (exitLoop cfg pt date fill p.entries shares s p).pf = t at hbk
      show entriesOf ((t.updatePosition q).book pt) sym = q.entries
      have hqt : q.type = pt := (hbk pt).2.2.trans hpw.type
      have hqs : q.symbol = sym := (hbk pt).2.1.trans hps
      have htb := (hbk pt).1
      have hnd : ((t.book pt).map Position.symbol).Nodup := by rw [htb]; exact hwf.nodup pt
      have hin : q.symbol ∈ (t.book pt).map Position.symbol := by
        rw [htb, hqs, ← hps]; exact List.mem_map.2 ⟨p, hpm, rfl⟩
      by_cases hne : q.entries ≠ []
      · have hb : (t.updatePosition q).book pt = replacePos (t.book pt) q := by
          unfold Portfolio.updatePosition
          rw [if_pos hne, hqt, book_setBook]
        rw [hb, entriesOf_eq, ← hqs, lookupPos_replacePos_self hin]
        rw [replacePos_symbols]; exact hnd
      · have hb : (t.updatePosition q).book pt = erasePos (t.book pt) q.symbol := by
          unfold Portfolio.updatePosition
          rw [if_neg hne, hqt]
          simp only
          have e2 : ∀ (t : Portfolio) l, ({ t with symbols := l } : Portfolio).book pt =
            t.book pt := by intro t l; cases pt <;> rfl
          split
          · rw [e2, book_setBook]
          · rw [book_setBook]
        rw [hb, entriesOf_eq (hnd.sublist ((erasePos_sublist _ _).map _)), ← hqs,
          lookupPos_erasePos_self hnd, not_not.1 hne]
    · rw [hc]
      simp only
      rw [(updatePosition_orders _ _).2]
      exact l3
    · rw [hes]; exact l4

end PyBroker
