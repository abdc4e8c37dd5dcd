import Verif.Portfolio.Unmarked
import Verif.Props.Stops
import Mathlib.Data.List.Induction

/-!
# Properties of bar counts, excursions and marks (C22-C24)
-/

namespace PyBroker

open Spec

/-! ## Helper lemmas -/

theorem signs_rules (Q : Guard) : EntryRules Q (fun _ _ e => e.mae ≤ 0 ∧ 0 ≤ e.mfe) where
  take := fun _ _ _ _ _ h => h
  new := by intros; exact ⟨le_refl _, le_refl _⟩
  incr := fun _ _ _ _ _ h => h
  stops := fun _ _ _ _ _ h => h
  excursion := by
    intro pt sym e l h he
    unfold Entry.excursion
    refine ⟨?_, ?_⟩
    · simp only
      split
      · split
        · rename_i hx; exact hx.1.le
        · exact he.1
      · exact he.1
    · simp only
      split
      · split
        · rename_i hx; exact hx.1.le
        · exact he.2
      · exact he.2

theorem run_signs {cfg : Config} {ops : List Op} {s : Portfolio} (hfit : ∀ op ∈ ops, op.Fit)
    (h : run cfg ops = .ok s) : AllEntries (fun _ _ e => e.mae ≤ 0 ∧ 0 ≤ e.mfe) s := by
  refine run_inv (P := AllEntries (fun _ _ e => e.mae ≤ 0 ∧ 0 ≤ e.mfe)) hfit h
    (fun _ _ hp hs => AllEntries.prim (signs_rules _).toPrimRules hp hs)
    (fun s date quote hw hs => AllEntries.captureBar (signs_rules Guard.any) date quote hw.typed hs)
    ?_
  intro pt p hp
  have : (Portfolio.init cfg).book pt = [] := by cases pt <;> rfl
  rw [this] at hp
  cases hp

theorem min_ite {x m : ℚ} (h : m ≤ 0) : (if x < 0 ∧ x < m then x else m) = min m x := by
  by_cases hx : x < m
  · rw [if_pos ⟨lt_of_lt_of_le hx h, hx⟩, min_eq_right hx.le]
  · rw [if_neg (fun c => hx c.2), min_eq_left (not_lt.1 hx)]

theorem max_ite {x m : ℚ} (h : 0 ≤ m) : (if x > 0 ∧ x > m then x else m) = max m x := by
  by_cases hx : x > m
  · rw [if_pos ⟨lt_of_le_of_lt h hx, hx⟩, max_eq_right hx.le]
  · rw [if_neg (fun c => hx c.2), max_eq_left (not_lt.1 hx)]

theorem excursion_mae {pt : PosType} {l h : Option ℚ} {e : Entry} {c : Option ℚ}
    (he : e.mae ≤ 0) : (e.excursion pt l h).mae =
      ((worst pt e.price ⟨c, l, h⟩).toList).foldl min e.mae := by
  unfold Entry.excursion worst
  cases pt
  · cases l with
    | none => rfl
    | some x => exact min_ite he
  · cases h with
    | none => rfl
    | some x => exact min_ite he

theorem excursion_mfe {pt : PosType} {l h : Option ℚ} {e : Entry} {c : Option ℚ}
    (he : 0 ≤ e.mfe) : (e.excursion pt l h).mfe =
      ((best pt e.price ⟨c, l, h⟩).toList).foldl max e.mfe := by
  unfold Entry.excursion best
  cases pt
  · cases h with
    | none => rfl
    | some x => exact max_ite he
  · cases l with
    | none => rfl
    | some x => exact max_ite he

theorem filterMap_foldl {α : Type} (g : α → Option ℚ) (op : ℚ → ℚ → ℚ) (l : List α) (a : α) (x : ℚ) :
    ((l ++ [a]).filterMap g).foldl op x = ((g a).toList).foldl op ((l.filterMap g).foldl op x) := by
  rw [List.filterMap_append, List.foldl_append]
  cases h : g a <;> simp [h]

/-- Everything an entry records about the bars since it was opened. -/
structure Since (pt : PosType) (sym : Sym) (post : List Op) (e : Entry) : Prop where
  bars : e.bars = (counted post).length
  symBars : e.symBars = ((counted post).filter (fun hasBar => hasBar sym)).length
  mae : e.mae = ((marked sym post).filterMap (worst pt e.price)).foldl min 0
  mfe : e.mfe = ((marked sym post).filterMap (best pt e.price)).foldl max 0

theorem Since.step {pt : PosType} {sym : Sym} {post : List Op} {e e' : Entry} {op : Op}
    (h : Since pt sym post e) (hs : e.mae ≤ 0 ∧ 0 ≤ e.mfe)
    (hc : e'.core = (advance pt sym op e).core) : Since pt sym (post ++ [op]) e' := by
  simp only [Entry.core, Prod.mk.injEq] at hc
  obtain ⟨_, _, _, h4, _, h6, h7, h8, h9⟩ := hc
  cases op with
  | captureBar d quote =>
    simp only [advance] at h4 h6 h7 h8 h9
    have hcnt : counted (post ++ [.captureBar d quote]) = counted post := by
      simp [counted, List.filterMap_append]
    unfold markEntry at h4 h6 h7 h8 h9
    cases hcl : (quote sym).close with
    | none =>
      simp only [hcl] at h4 h6 h7 h8 h9
      have hm : marked sym (post ++ [.captureBar d quote]) = marked sym post := by
        simp [marked, List.filterMap_append, hcl]
      exact ⟨by rw [hcnt, h6, h.bars], by rw [hcnt, h7, h.symBars], by rw [hm, h4, h8, h.mae],
        by rw [hm, h4, h9, h.mfe]⟩
    | some c =>
      simp only [hcl] at h4 h6 h7 h8 h9
      have hm : marked sym (post ++ [.captureBar d quote]) = marked sym post ++ [quote sym] := by
        simp [marked, List.filterMap_append, hcl]
      have h4' : e'.price = e.price := h4
      refine ⟨by rw [hcnt, h6]; exact h.bars, by rw [hcnt, h7]; exact h.symBars, ?_, ?_⟩
      · rw [hm, filterMap_foldl, h8, excursion_mae (c := (quote sym).close) hs.1, h4', ← h.mae]
      · rw [hm, filterMap_foldl, h9, excursion_mfe (c := (quote sym).close) hs.2, h4', ← h.mfe]
  | incrBars hb =>
    simp only [advance] at h4 h6 h7 h8 h9
    have hm : marked sym (post ++ [.incrBars hb]) = marked sym post := by
      simp [marked, List.filterMap_append]
    have hcnt : counted (post ++ [.incrBars hb]) = counted post ++ [hb] := by
      simp [counted, List.filterMap_append]
    refine ⟨by rw [hcnt, h6, h.bars]; simp, ?_, by rw [hm, h4, h8, h.mae],
        by rw [hm, h4, h9, h.mfe]⟩
    rw [hcnt, h7, h.symBars, List.filter_append, List.length_append]
    cases hbs : hb sym <;> simp [hbs]
  | _ =>
    simp only [advance] at h4 h6 h7 h8 h9
    refine ⟨?_, ?_, ?_, ?_⟩
    · rw [h6, h.bars]; simp [counted, List.filterMap_append]
    · rw [h7, h.symBars]; simp [counted, List.filterMap_append]
    · rw [h4, h8, h.mae]; simp [marked, List.filterMap_append]
    · rw [h4, h9, h.mfe]; simp [marked, List.filterMap_append]

theorem runFrom_snoc {cfg : Config} {s s1 s2 : Portfolio} {ops : List Op} {op : Op}
    (h : runFrom cfg s ops = .ok s1) (h' : step cfg s1 op = .ok s2) :
    runFrom cfg s (ops ++ [op]) = .ok s2 := by
  unfold runFrom at *
  rw [foldE_append, h]
  simp only [foldE, h']

/-! ## C22, C23: what an open entry records -/

/-- Every open entry was opened, under a new id, by some buy or sell of the
history.  Its `bars` is the number of bars counted since, its `sym_bars` those
on which its symbol had a bar, and its MAE and MFE are the extremes of 0 and the
gains per share at the lows and highs of the bars captured since. -/
theorem entry_history {cfg : Config} {ops : List Op} {s : Portfolio}
    (hfit : ∀ op ∈ ops, op.Fit) (hrun : run cfg ops = .ok s) {pt : PosType} {sym : Sym} {e : Entry}
    (he : e ∈ entriesOf (s.book pt) sym) :
    ∃ pre op post r s0 s1, ops = pre ++ op :: post ∧ run cfg pre = .ok s0 ∧
      step cfg s0 op = .ok s1 ∧ runFrom cfg s1 post = .ok s ∧ OpensOn op pt r ∧ r.symbol = sym ∧
      e.price = r.fill ∧ e.date = r.date ∧ (∀ e0 ∈ openEntries s0, e0.id ≠ e.id) ∧
      (∃ e1 ∈ entriesOf (s1.book pt) sym, e1.id = e.id) ∧ Since pt sym post e := by
  induction ops using List.reverseRecOn generalizing s e with
  | nil =>
    have := Except.ok.inj (hrun : Except.ok (Portfolio.init cfg) = Except.ok s)
    subst this
    cases pt <;> cases he
  | append_singleton ops op ih =>
    obtain ⟨t, ht, hst⟩ := run_snoc hrun
    have hfit1 : ∀ op ∈ ops, op.Fit := fun op h => hfit op (List.mem_append_left _ h)
    obtain ⟨hg, hf⟩ := run_good hfit1 ht
    have hsig := run_signs hfit1 ht
    rcases (step_facts hg hf (hfit op (by simp)) hst).entries pt sym e he with
      ⟨e0, he0, hc⟩ | ⟨r, n, stops, ho, hr, hn, hnew⟩
    · obtain ⟨pre, op', post, r, s0, s1, h1, h2, h3, h4, h5, h6, h7, h8, h9, ⟨e1, h10, h11⟩, h12⟩ :=
        ih hfit1 ht he0
      have hid : e.id = e0.id ∧ e.price = e0.price ∧ e.date = e0.date := by
        simp only [Entry.core, Prod.mk.injEq] at hc
        obtain ⟨c1, c2, c3, c4, _⟩ := hc
        rw [c1, c2, c4]
        cases op with
        | captureBar d quote =>
          simp only [advance, markEntry]
          split <;> exact ⟨rfl, rfl, rfl⟩
        | _ => exact ⟨rfl, rfl, rfl⟩
      obtain ⟨p, hp, hps, hep⟩ := mem_entriesOf.1 he0
      refine ⟨pre, op', post ++ [op], r, s0, s1, by rw [h1]; simp, h2, h3, runFrom_snoc h4 hst, h5,
        h6, by rw [hid.2.1, h7], by rw [hid.2.2, h8], ?_, ⟨e1, h10, by rw [hid.1, h11]⟩,
        h12.step (hsig pt p hp e0 hep) hc⟩
      intro e2 he2
      rw [hid.1]
      exact h9 e2 he2
    · subst hnew
      refine ⟨ops, op, [], r, t, s, rfl, ht, hst, rfl, ho, hr, rfl, rfl, ?_, ⟨_, he, rfl⟩, ?_⟩
      · intro e0 he0 hid
        unfold openEntries at he0
        obtain ⟨p, hp, hep⟩ := List.mem_flatMap.1 he0
        have hle : e0.id ≤ t.entryId := by
          rcases List.mem_append.1 hp with hp | hp
          · exact hg.wf.idle .long p hp e0 hep
          · exact hg.wf.idle .short p hp e0 hep
        have : e0.id = t.entryId + 1 := hid
        omega
      · exact ⟨rfl, rfl, rfl, rfl⟩

/-- MAE is never positive, MFE never negative, and an entry never counts more
bars of its symbol than bars. -/
theorem entry_signs {cfg : Config} {ops : List Op} {s : Portfolio}
    (hfit : ∀ op ∈ ops, op.Fit) (hrun : run cfg ops = .ok s) {pt : PosType} {sym : Sym} {e : Entry}
    (he : e ∈ entriesOf (s.book pt) sym) : e.mae ≤ 0 ∧ 0 ≤ e.mfe ∧ e.symBars ≤ e.bars := by
  obtain ⟨p, hp, hps, hep⟩ := mem_entriesOf.1 he
  have h1 := run_signs hfit hrun pt p hp e hep
  obtain ⟨_, _, post, _, _, _, _, _, _, _, _, _, _, _, _, _, h⟩ := entry_history hfit hrun he
  refine ⟨h1.1, h1.2, ?_⟩
  rw [h.bars, h.symBars]
  exact List.length_filter_le _ _

/-- Every trade of the log closed an entry that some earlier buy or sell of the
history had opened.  The trade's `bars` counts the bars in between, and its MAE
and MFE are the extremes of 0, the gains per share at the lows and highs of the
bars captured in between, and the gain per share at the exit price. -/
theorem trade_history {cfg : Config} {ops : List Op} {s : Portfolio}
    (hfit : ∀ op ∈ ops, op.Fit) (hrun : run cfg ops = .ok s) {tr : Trade} (ht : tr ∈ s.trades) :
    ∃ pre opening between closing rest r, ops = pre ++ opening :: between ++ closing :: rest ∧
      OpensOn opening tr.type r ∧ r.symbol = tr.symbol ∧ tr.entry = r.fill ∧ tr.entryDate = r.date ∧
      tr.bars = (counted between).length ∧
      tr.mae = min (((marked tr.symbol between).filterMap (worst tr.type tr.entry)).foldl min 0)
        (perShare tr.type tr.entry tr.exit) ∧
      tr.mfe = max (((marked tr.symbol between).filterMap (best tr.type tr.entry)).foldl max 0)
        (perShare tr.type tr.entry tr.exit) ∧
      tr.mae ≤ 0 ∧ 0 ≤ tr.mfe ∧
      tr.pnlPerBar = (if tr.bars = 0 then tr.pnl else tr.pnl / tr.bars) ∧
      (tr.exit ≠ 0 → tr.returnPct = tradeReturn tr.type tr.entry tr.exit) := by
  induction ops using List.reverseRecOn generalizing s with
  | nil =>
    have := Except.ok.inj (hrun : Except.ok (Portfolio.init cfg) = Except.ok s)
    subst this
    cases ht
  | append_singleton ops op ih =>
    obtain ⟨t, hrt, hst⟩ := run_snoc hrun
    have hfit1 : ∀ op ∈ ops, op.Fit := fun op h => hfit op (List.mem_append_left _ h)
    obtain ⟨hg, hf⟩ := run_good hfit1 hrt
    obtain ⟨new, hnew, hall⟩ := (step_facts hg hf (hfit op (by simp)) hst).trades
    rw [hnew] at ht
    rcases List.mem_append.1 ht with ht | ht
    · obtain ⟨pre, o1, mid, o2, rest, r, h1, h⟩ := ih hfit1 hrt ht
      exact ⟨pre, o1, mid, o2, rest ++ [op], r, by rw [h1]; simp, h⟩
    · obtain ⟨pt, sym, e, he, hto⟩ := hall tr ht
      obtain ⟨p, hp, hps, hep⟩ := mem_entriesOf.1 he
      have hok := (hg.wf.pos pt p hp).entries e hep
      have hsg := run_signs hfit1 hrt pt p hp e hep
      obtain ⟨pre, o1, post, r, _, _, h1, -, -, -, h5, h6, h7, h8, -, -, h11⟩ :=
        entry_history hfit1 hrt he
      obtain ⟨t1, t2, t3, t4, t5, t6, t7, t8, t9, t10⟩ := hto
      have hty : tr.type = pt := by rw [t1, hok.type]
      have hsy : tr.symbol = sym := by rw [t2, hok.symbol, hps]
      have hug : unitGain e.type e.price tr.exit = perShare tr.type tr.entry tr.exit := by
        rw [← t1, ← t4]; rfl
      have hmae : tr.mae = min e.mae (perShare tr.type tr.entry tr.exit) := by
        rw [t6, hug]; exact min_ite hsg.1
      have hmfe : tr.mfe = max e.mfe (perShare tr.type tr.entry tr.exit) := by
        rw [t7, hug]; exact max_ite hsg.2
      refine ⟨pre, o1, post, op, [], r, by rw [h1], by rw [hty]; exact h5, by rw [hsy, h6],
        by rw [t4, h7], by rw [t3, h8], by rw [t5, h11.bars], ?_, ?_, ?_, ?_, ?_, ?_⟩
      · rw [hmae, h11.mae, hty, hsy, t4]
      · rw [hmfe, h11.mfe, hty, hsy, t4]
      · rw [hmae]; exact min_le_of_left_le hsg.1
      · rw [hmfe]; exact le_max_of_le_left hsg.2
      · rw [t10, t5]
      · intro hx
        have hpz : e.price ≠ 0 := ne_of_gt hok.price
        rw [t8, t1, t4]
        unfold exitReturn tradeReturn
        cases e.type
        · simp only; field_simp
        · simp only; field_simp

/-! ## C23: bar stops -/

/-- An entry whose only stop is a stop of `n` bars, without a limit price, is
closed by a check of its symbol's stops exactly when `n` or more bars of its
symbol have been counted since the call that opened it. -/
theorem bar_stop_on_time {cfg : Config} {ops : List Op} {s s' : Portfolio} {date : Date}
    {env : StopEnv} (hfit : ∀ op ∈ ops, op.Fit) (hfresh : FreshIds ops)
    (hrun : run cfg ops = .ok s) (h : checkStops cfg s date env = .ok s')
    {pt : PosType} {sym : Sym} {e : Entry} (he : e ∈ entriesOf (s.book pt) sym) {st : Stop}
    {n : Nat} {m : ℚ} (hst : e.stops = [st]) (hbar : st.stopType = .bar) (hn : st.bars = some n)
    (hlim : st.limitPrice = none) (hcan : env.canPrice sym = true)
    (hm : env.fetch st.symbol (st.fillPrice.getD (.price .middle)) = some m) (hpos : 0 < m) :
    ∃ pre opening post r, ops = pre ++ opening :: post ∧ OpensOn opening pt r ∧ r.symbol = sym ∧
      r.fill = e.price ∧
      (e.id ∉ (entriesOf (s'.book pt) sym).map Entry.id ↔
        n ≤ ((counted post).filter (fun hasBar => hasBar sym)).length) := by
  obtain ⟨hg, hf⟩ := run_good hfit hrun
  obtain ⟨xs, h1, h2, h3, -, -, h6⟩ := stops_exit_once hfit hfresh hrun h
  obtain ⟨pre, o1, post, r, _, _, e1, -, -, -, e5, e6, e7, -, -, -, e11⟩ :=
    entry_history hfit hrun he
  refine ⟨pre, o1, post, r, e1, e5, e6, e7.symm, ?_⟩
  rw [← e11.symBars, h6]
  have huniq : e.id ∉ ((entriesOf (s.book pt) sym).filter
      (fun e => decide (e.id ∉ xs.map (fun x => x.entry.id)))).map Entry.id ↔
      e.id ∈ xs.map (fun x => x.entry.id) := by
    constructor
    · intro hno
      by_contra hx
      exact hno (List.mem_map.2 ⟨e, List.mem_filter.2 ⟨he, decide_eq_true hx⟩, rfl⟩)
    · intro hx hmem
      obtain ⟨e2, he2, hid⟩ := List.mem_map.1 hmem
      have := of_decide_eq_true (List.mem_filter.1 he2).2
      rw [hid] at this
      exact this hx
  rw [huniq]
  constructor
  · intro hx
    obtain ⟨x, hxm, hxe⟩ := List.mem_map.1 hx
    obtain ⟨⟨pt', sym', hin, _⟩, hxs, hF, -⟩ := h2 x hxm
    obtain ⟨p, hp, hps, hep⟩ := mem_entriesOf.1 he
    obtain ⟨p', hp', hps', hep'⟩ := mem_entriesOf.1 hin
    have heq := hg.wf.entry_unique hp hp' hep hep' hxe.symm
    obtain ⟨_, _, hee⟩ := heq
    rw [← hee, hst, List.mem_singleton] at hxs
    rw [hxs] at hF
    cases hF with
    | bars _ hn' hle _ _ =>
      rw [hn] at hn'
      cases hn'
      rw [← hee] at hle
      exact hle
    | below ht => exact absurd hbar ht
    | above ht => exact absurd hbar ht
    | belowAt ht => exact absurd hbar ht
    | aboveAt ht => exact absurd hbar ht
  · intro hle
    refine h3 pt sym e st m he hcan (by rw [hst]; exact List.mem_singleton_self _)
      (.bars hbar hn hle hm hpos) ?_
    intro l hl
    rw [hlim] at hl
    cases hl

/-! ## C24: fills are valued at cost until the next mark -/

theorem split_by_id (m : Nat) (es : List Entry) (h : (es.map Entry.id).Pairwise (· < ·)) :
    es = es.filter (fun e => decide (e.id ≤ m)) ++ es.filter (fun e => m < e.id) := by
  induction es with
  | nil => rfl
  | cons a es ih =>
    rw [List.map_cons, List.pairwise_cons] at h
    by_cases ha : a.id ≤ m
    · rw [List.filter_cons_of_pos (by simpa using ha),
        List.filter_cons_of_neg (by simpa using ha), List.cons_append, ← ih h.2]
    · have hall : ∀ e ∈ es, m < e.id := fun e he =>
        (not_le.1 ha).trans (h.1 e.id (List.mem_map_of_mem he))
      have h1 : es.filter (fun e => decide (e.id ≤ m)) = [] := by
        rw [List.filter_eq_nil_iff]
        intro e he
        simpa using hall e he
      have h2 : es.filter (fun e => decide (m < e.id)) = es := by
        rw [List.filter_eq_self]
        intro e he
        simpa using hall e he
      rw [List.filter_cons_of_neg (by simpa using ha),
        List.filter_cons_of_pos (by simpa using ha), h1, h2, List.nil_append]

theorem foldE_ok_append {α β : Type} {f : β → α → Except Err β} {as bs : List α} {b c : β}
    (h : foldE f b (as ++ bs) = .ok c) :
    ∃ d, foldE f b as = .ok d ∧ foldE f d bs = .ok c := by
  rw [foldE_append] at h
  cases h1 : foldE f b as with
  | error e => rw [h1] at h; cases h
  | ok d => rw [h1] at h; exact ⟨d, rfl, h⟩

/-- Entries with an old id were already open. -/
theorem old_entries {cfg : Config} {s s' : Portfolio} {ops : List Op}
    (hfit : ∀ op ∈ ops, op.Fit) (hg : Good s) (hf : StopsFit s)
    (hrun : runFrom cfg s ops = .ok s') :
    (Good s' ∧ StopsFit s' ∧ s.entryId ≤ s'.entryId) ∧
    ∀ pt sym, ∀ e ∈ entriesOf (s'.book pt) sym, e.id ≤ s.entryId →
      ∃ e0 ∈ entriesOf (s.book pt) sym, e0.id = e.id := by
  induction ops using List.reverseRecOn generalizing s' with
  | nil =>
    have := Except.ok.inj (hrun : Except.ok s = Except.ok s')
    subst this
    exact ⟨⟨hg, hf, le_refl _⟩, fun pt sym e he _ => ⟨e, he, rfl⟩⟩
  | append_singleton ops op ih =>
    unfold runFrom at hrun
    obtain ⟨t, ht, hlast⟩ := foldE_ok_append hrun
    have hst : step cfg t op = .ok s' := by
      simp only [foldE] at hlast
      cases hx : step cfg t op with
      | error e => rw [hx] at hlast; cases hlast
      | ok u => rw [hx] at hlast; exact hlast
    obtain ⟨⟨hg1, hf1, hid⟩, hold⟩ := ih (fun op h => hfit op (List.mem_append_left _ h)) ht
    have hfo := hfit op (by simp)
    obtain ⟨hg2, hf2⟩ := step_good hg1 hf1 hfo hst
    have hmono : t.entryId ≤ s'.entryId := by
      rcases step_steps (Q := Guard.any) hg1 hf1 hfo op.fills_true hst with ⟨_, hs⟩ | ⟨d, q, _, rfl⟩
      · refine Steps.inv (P := fun u => t.entryId ≤ u.entryId) ?_ hs (le_refl _)
        intro a b hp hab
        refine hab.trans ?_
        cases hp with
        | @exit Z _ pt => cases pt <;> exact le_refl _
        | @drop Z _ pt => cases pt <;> simp [Portfolio.store, Portfolio.setBook]
        | @close Z _ pt => cases pt <;> exact le_refl _
        | @opened _ sd => cases sd <;> exact Nat.le_succ _
        | order => exact le_refl _
        | caches => exact le_refl _
        | stopValue => exact le_refl _
        | incr => exact le_refl _
        | removeStop id => exact le_of_eq (removeStop_same a id).entryId.symm
        | @clearStops _ _ _ e => exact le_of_eq (removeEntryStops_same a e none).entryId.symm
      · exact le_of_eq (captureBar_same cfg t d q).entryId.symm
    refine ⟨⟨hg2, hf2, hid.trans hmono⟩, ?_⟩
    intro pt sym e he hle
    rcases (step_facts hg1 hf1 hfo hst).entries pt sym e he with
      ⟨e0, he0, hc⟩ | ⟨r, n, stops, _, _, _, hnew⟩
    · have hide : e.id = e0.id := by
        have := congrArg Prod.fst hc
        simp only [Entry.core] at this
        rw [this]
        cases op with
        | captureBar d quote => simp only [advance, markEntry]; split <;> rfl
        | _ => rfl
      obtain ⟨e1, he1, h1⟩ := hold pt sym e0 he0 (by rw [← hide]; exact hle)
      exact ⟨e1, he1, by rw [h1, hide]⟩
    · exfalso
      have : e.id = t.entryId + 1 := by rw [hnew]; rfl
      omega

/-- A call that neither checks stops nor captures a close of the symbol. -/
def Unmarking (sym : Sym) : Op → Prop
  | .checkStops .. => False
  | .captureBar _ quote => (quote sym).close = none
  | _ => True

/-- Start where a symbol has just been marked: on a captured bar with a close
for it, or while it is not held.  After any calls that neither mark it nor
check stops, its unmarked shares are those of its newest entries, the ones
opened since, and the unmarked notional is their cost. -/
theorem unmarked_are_newest {cfg : Config} {ops ops' : List Op} {s s' : Portfolio} {sym : Sym}
    (hfit : ∀ op ∈ ops ++ ops', op.Fit) (hrun : run cfg ops = .ok s)
    (hstart : (∃ before date quote, ops = before ++ [.captureBar date quote] ∧
        (quote sym).close ≠ none) ∨
      (entriesOf s.longs sym = [] ∧ entriesOf s.shorts sym = []))
    (hops : ∀ op ∈ ops', Unmarking sym op) (hrun' : runFrom cfg s ops' = .ok s')
    {pt : PosType} {p : Position} (hp : lookupPos (s'.book pt) sym = some p) :
    ∃ old new, p.entries = old ++ new ∧
      (∀ e ∈ old, e.id ∈ (entriesOf (s.book pt) sym).map Entry.id) ∧
      (∀ e ∈ new, ∀ e0 ∈ openEntries s, e0.id ≠ e.id) ∧
      p.unmarkedShares = (new.map Entry.shares).sum ∧
      p.unmarkedNotional = (new.map (fun e => e.shares * e.price)).sum := by
  have hfit1 : ∀ op ∈ ops, op.Fit := fun op h => hfit op (List.mem_append_left _ h)
  have hfit2 : ∀ op ∈ ops', op.Fit := fun op h => hfit op (List.mem_append_right _ h)
  obtain ⟨hg, hf⟩ := run_good hfit1 hrun
  have hstart' : UInv s.entryId sym s := by
    refine ⟨le_refl _, ?_⟩
    intro pt q hq hqs
    have hfil : q.entries.filter (fun e => s.entryId < e.id) = [] := by
      rw [List.filter_eq_nil_iff]
      intro e he
      have := hg.wf.idle pt q hq e he
      simpa using this
    suffices hz : q.unmarkedShares = 0 ∧ q.unmarkedNotional = 0 by
      exact ⟨by rw [hfil, hz.1]; rfl, by rw [hfil, hz.2]; rfl⟩
    rcases hstart with ⟨before, date, quote, rfl, hc⟩ | hno
    · obtain ⟨t, ht, hst⟩ := run_snoc hrun
      have hst' : s = captureBar cfg t date quote := by
        simp only [step] at hst
        exact (Except.ok.inj hst).symm
      obtain ⟨hgt, _⟩ := run_good (fun op h => hfit1 op (List.mem_append_left _ h)) ht
      have hl := lookupPos_of_mem (hg.wf.nodup pt) hq
      rw [hst', captureBar_lookup date quote hgt.wf, hqs] at hl
      obtain ⟨q0, _, rfl⟩ := Option.map_eq_some_iff.1 hl
      obtain ⟨c, hcc⟩ := Option.ne_none_iff_exists'.1 hc
      unfold markPos
      rw [hcc]
      cases pt <;> exact ⟨rfl, rfl⟩
    · exfalso
      have hne := hg.ne pt q hq
      obtain ⟨e, he⟩ := List.exists_mem_of_ne_nil _ hne
      have : e ∈ entriesOf (s.book pt) sym := mem_entriesOf.2 ⟨q, hq, hqs, he⟩
      cases pt
      · rw [show s.book .long = s.longs from rfl, hno.1] at this; cases this
      · rw [show s.book .short = s.shorts from rfl, hno.2] at this; cases this
  obtain ⟨⟨hg', _, _⟩, hold⟩ := old_entries hfit2 hg hf hrun'
  have hinv : UInv s.entryId sym s' := by
    have := foldE_inv_mem (f := step cfg)
      (fun t => (Good t ∧ StopsFit t) ∧ UInv s.entryId sym t) ops' ?_ s s'
      ⟨⟨hg, hf⟩, hstart'⟩ hrun'
    · exact this.2
    · rintro b a b' ha ⟨⟨h1, h2⟩, h3⟩ hs
      refine ⟨step_good h1 h2 (hfit2 a ha) hs, ?_⟩
      have hu := hops a ha
      have hfills : a.Fills fifoOnly := by
        cases a <;> simp_all [Op.Fills, fifoOnly, Unmarking]
      rcases step_steps h1 h2 (hfit2 a ha) hfills hs with ⟨_, hst⟩ | ⟨d, quote, rfl, rfl⟩
      · exact Steps.inv (fun _ _ hp hs => UInv.prim hp hs) hst h3
      · exact UInv.capture h1.wf h3 d quote hu
  obtain ⟨hpm, hps⟩ := lookupPos_some hp
  obtain ⟨k1, k2⟩ := hinv.2 pt p hpm hps
  refine ⟨_, _, split_by_id s.entryId p.entries (hg'.wf.pos pt p hpm).ids, ?_, ?_, k1, k2⟩
  · intro e he
    obtain ⟨hem, hle⟩ := List.mem_filter.1 he
    obtain ⟨e0, he0, hid⟩ := hold pt sym e (mem_entriesOf.2 ⟨p, hpm, hps, hem⟩)
      (of_decide_eq_true hle)
    exact List.mem_map.2 ⟨e0, he0, hid⟩
  · intro e he e0 he0 hid
    obtain ⟨hem, hlt⟩ := List.mem_filter.1 he
    have hlt' : s.entryId < e.id := of_decide_eq_true hlt
    unfold openEntries at he0
    obtain ⟨q, hq, heq⟩ := List.mem_flatMap.1 he0
    have hle : e0.id ≤ s.entryId := by
      rcases List.mem_append.1 hq with hq | hq
      · exact hg.wf.idle .long q hq e0 heq
      · exact hg.wf.idle .short q hq e0 heq
    omega

theorem sum_heldMark_replace {ps : List Position} {p q : Position} {d : ℚ}
    (hl : lookupPos ps q.symbol = some p) (hd : heldMark q = heldMark p + d) :
    ((replacePos ps q).map heldMark).sum = (ps.map heldMark).sum + d := by
  induction ps with
  | nil => cases hl
  | cons a ps ih =>
    by_cases ha : a.symbol = q.symbol
    · simp [lookupPos, ha] at hl
      subst hl
      simp [replacePos, ha, hd]
      ring
    · simp [lookupPos, ha] at hl
      simp [replacePos, ha, ih hl]
      ring

theorem openedPos_mark (s : Portfolio) (pt : PosType) (date : Date) (sym : Sym) (n fill : ℚ)
    (es : List Stop) (p : Position) :
    heldMark (openedPos s pt date sym n fill es (some p)) = heldMark p + n * fill := by
  unfold heldMark openedPos cost
  simp only
  split
  · ring
  · simp [newEntry]

theorem openedPos_mark_none (s : Portfolio) (pt : PosType) (date : Date) (sym : Sym) (n fill : ℚ)
    (es : List Stop) : heldMark (openedPos s pt date sym n fill es none) = n * fill := by
  unfold heldMark openedPos cost
  simp [newEntry]

theorem lookup_none_of_flat {s : Portfolio} (hg : Good s) {pt : PosType} {sym : Sym}
    (h : entriesOf (s.book pt) sym = []) : lookupPos (s.book pt) sym = none := by
  rcases Option.eq_none_or_eq_some (lookupPos (s.book pt) sym) with h1 | ⟨p, hp⟩
  · exact h1
  · exfalso
    obtain ⟨hpm, hps⟩ := lookupPos_some hp
    obtain ⟨e, he⟩ := List.exists_mem_of_ne_nil _ (hg.ne pt p hpm)
    have : e ∈ entriesOf (s.book pt) sym := mem_entriesOf.2 ⟨p, hpm, hps, he⟩
    rw [h] at this
    cases this

theorem placeOrder_mark {cfg : Config} {sd : Side} {s s' : Portfolio} {r : OrderReq} {o : Order}
    (hg : Good s) (hno : lookupPos (s.book sd.closes) r.symbol = none)
    (h : placeOrder cfg sd s r = .ok (some o, s')) :
    ((s'.book sd.opens).map heldMark).sum =
        ((s.book sd.opens).map heldMark).sum + o.shares * r.fill ∧
      s'.book sd.closes = s.book sd.closes := by
  have hcl : closeShares cfg sd.closes s r.date r.symbol r.shares r.fill = ⟨0, r.shares, s⟩ := by
    unfold closeShares
    rw [hno]
  have hne : sd.opens ≠ sd.closes := by cases sd <;> decide
  generalize ho : some o = oo at h
  cases placeOrder_effect hg h with
  | nothing => cases ho
  | closed c a b hc hfill =>
    rw [hcl] at hc
    subst hc
    exact absurd hfill (lt_irrefl _)
  | opened c n es sda ac hc hn hle hlim hclamp hcap hmode hstops =>
    rw [hcl] at hc
    subst hc
    have hos := Option.some.inj ho
    have hn' : o.shares = n := by rw [hos]; exact zero_add n
    refine ⟨?_, ?_⟩
    · rw [addOrder_book, openedPf_book, hn']
      unfold openedBook
      simp only
      split
      · rw [List.map_append, List.sum_append, List.map_cons, List.map_nil, List.sum_singleton,
          openedPos_mark_none]
      · rename_i p hp
        refine sum_heldMark_replace (p := p) ?_ (openedPos_mark _ _ _ _ _ _ _ _)
        obtain ⟨_, hps⟩ := lookupPos_some hp
        simp only [openedPos]
        rw [hps]
        exact hp
    · rw [addOrder_book, openedPf_book_ne _ _ _ _ _ _ _ _ _ _ hne]

/-- A filled buy of a symbol that is not held short raises the marked value of
the longs by exactly the shares bought times the fill price, and leaves the
shorts alone. -/
theorem buy_valued_at_cost {cfg : Config} {ops : List Op} {s s' : Portfolio} {r : OrderReq}
    {o : Order} (hfit : ∀ op ∈ ops, op.Fit) (hrun : run cfg ops = .ok s)
    (hno : entriesOf s.shorts r.symbol = []) (h : buy cfg s r = .ok (some o, s')) :
    (s'.longs.map heldMark).sum = (s.longs.map heldMark).sum + o.shares * r.fill ∧
      s'.shorts = s.shorts := by
  obtain ⟨hg, _⟩ := run_good hfit hrun
  exact placeOrder_mark (sd := .buy) hg (lookup_none_of_flat hg (pt := .short) hno) h

/-- A filled sale of a symbol that is not held long raises the marked value of
the shorts by exactly the shares sold times the fill price, and leaves the
longs alone. -/
theorem sell_valued_at_cost {cfg : Config} {ops : List Op} {s s' : Portfolio} {r : OrderReq}
    {o : Order} (hfit : ∀ op ∈ ops, op.Fit) (hrun : run cfg ops = .ok s)
    (hno : entriesOf s.longs r.symbol = []) (h : sell cfg s r = .ok (some o, s')) :
    (s'.shorts.map heldMark).sum = (s.shorts.map heldMark).sum + o.shares * r.fill ∧
      s'.longs = s.longs := by
  obtain ⟨hg, _⟩ := run_good hfit hrun
  exact placeOrder_mark (sd := .sell) hg (lookup_none_of_flat hg (pt := .long) hno) h

/-! ## C24 fails when a stop closes a newer entry first -/

namespace Demo

def newestStop : Stop :=
  { id := 7, symbol := "AAA", stopType := .bar, posType := .long, percent := none,
    points := none, bars := some 0, fillPrice := none, limitPrice := none, exitPrice := none }

/-- Ten shares marked at 104, then five more bought at 120 with a stop. -/
def markedOps : List Op :=
  [ .buy { date := 1, symbol := "AAA", shares := 10, fill := 100 }, .captureBar 1 quote ]

def newestOps : List Op :=
  [ .buy { date := 2, symbol := "AAA", shares := 5, fill := 120, stops := [newestStop] },
    .checkStops 2 env ]

def markedS : Portfolio := okD (Portfolio.init cfg) (run cfg markedOps)
def newestS : Portfolio := okD (Portfolio.init cfg) (runFrom cfg markedS newestOps)

theorem run_markedS : run cfg markedOps = .ok markedS := ok_okD (by decide +kernel)
theorem run_newestS : runFrom cfg markedS newestOps = .ok newestS := ok_okD (by decide +kernel)
theorem fit_newest : ∀ op ∈ markedOps ++ newestOps, op.Fit := by
  simp [markedOps, newestOps, Op.Fit, newestStop]

end Demo

/-- The restriction to histories without stop checks is needed: after a stop
closes the newest entry, the ten remaining shares, all marked at 104, are valued
as five at 104 and five at the 120 that the closed entry had cost. -/
theorem unmarked_wrong_after_stop :
    run Demo.cfg Demo.markedOps = .ok Demo.markedS ∧
      runFrom Demo.cfg Demo.markedS Demo.newestOps = .ok Demo.newestS ∧
      (∀ op ∈ Demo.markedOps ++ Demo.newestOps, op.Fit) ∧
      (entriesOf Demo.newestS.longs "AAA").map (fun e => (e.id, e.shares, e.price)) =
        [(1, 10, 100)] ∧
      (Demo.newestS.longs.map (fun p => (p.close, p.unmarkedShares, p.unmarkedNotional))) =
        [(104, 5, 600)] ∧
      (Demo.newestS.longs.map heldMark) = [1120] :=
  ⟨Demo.run_markedS, Demo.run_newestS, Demo.fit_newest, by decide +kernel, by decide +kernel,
    by decide +kernel⟩

/-! ## Concrete cases -/

/-- `entry_history`: after two bars the short of the demo has counted both of
its bars, with an adverse excursion of 2 and a favourable one of 1. -/
example : run Demo.cfg (Demo.bar1 ++ Demo.bar2) = .ok Demo.s2 ∧
    (entriesOf Demo.s2.shorts "BBB").map (fun e => (e.bars, e.symBars, e.mae, e.mfe)) =
      [(2, 2, -2, 1)] ∧
    (entriesOf Demo.s2.longs "AAA").map (fun e => (e.bars, e.symBars)) = [(2, 1)] :=
  ⟨Demo.run_s2, by decide +kernel, by decide +kernel⟩

/-- `trade_history`: the stopped-out long of the demo went through one bar; its
worst price is the stop's. -/
example : run Demo.cfg (Demo.bar1 ++ Demo.bar2) = .ok Demo.s2 ∧
    Demo.s2.trades.map (fun t => (t.bars, t.entry, t.exit, t.mae, t.mfe)) =
      [(1, 100, 105, -1, 6), (1, 100, 95, -5, 6)] :=
  ⟨Demo.run_s2, by decide +kernel⟩

/-- `bar_stop_on_time`: the demo's short has a stop of three bars; it survives
the check after two bars and would be closed after the third. -/
example : (entriesOf Demo.s2.shorts "BBB").map Entry.stops = [[Demo.barStop]] ∧
    (∃ s', checkStops Demo.cfg Demo.s2 3 Demo.env = .ok s' ∧
      (entriesOf s'.shorts "BBB").length = 1) ∧
    (∃ s', runFrom Demo.cfg Demo.s2 [.incrBars (fun _ => true), .checkStops 4 Demo.env] = .ok s' ∧
      (entriesOf s'.shorts "BBB") = []) ∧
    Demo.env.fetch "BBB" (.price .middle) = some 20 :=
  ⟨by decide +kernel,
    ⟨Demo.okD Demo.s2 (checkStops Demo.cfg Demo.s2 3 Demo.env), Demo.ok_okD (by decide +kernel),
      by decide +kernel⟩,
    ⟨Demo.okD Demo.s2 (runFrom Demo.cfg Demo.s2 [.incrBars (fun _ => true), .checkStops 4 Demo.env]),
      Demo.ok_okD (by decide +kernel), by decide +kernel⟩, rfl⟩

/-- `unmarked_are_newest`: from the marked state, a buy, a sale of 12 shares
that eats into the new entry, and a buy. -/
example : ∃ s', runFrom Demo.cfg Demo.markedS
      [ .buy { date := 2, symbol := "AAA", shares := 5, fill := 120 },
        .sell { date := 2, symbol := "AAA", shares := 12, fill := 118 },
        .buy { date := 2, symbol := "AAA", shares := 4, fill := 117 } ] = .ok s' ∧
    s'.longs.map (fun p => (p.shares, p.unmarkedShares, p.unmarkedNotional)) =
      [(7, 7, 3 * 120 + 4 * 117)] :=
  ⟨Demo.okD Demo.markedS (runFrom Demo.cfg Demo.markedS
      [ .buy { date := 2, symbol := "AAA", shares := 5, fill := 120 },
        .sell { date := 2, symbol := "AAA", shares := 12, fill := 118 },
        .buy { date := 2, symbol := "AAA", shares := 4, fill := 117 } ]),
    Demo.ok_okD (by decide +kernel), by decide +kernel⟩

/-- `buy_valued_at_cost`: a filled buy from the marked state. -/
example : ∃ o s', buy Demo.cfg Demo.markedS
      { date := 2, symbol := "AAA", shares := 5, fill := 120 } = .ok (some o, s') ∧
    entriesOf Demo.markedS.shorts "AAA" = [] ∧ o.shares = 5 :=
  ⟨Demo.orderD _, Demo.pfD _, Demo.filled_eq (by decide +kernel), by decide +kernel,
    by decide +kernel⟩

/-- `sell_valued_at_cost`: a filled sale short. -/
example : ∃ o s', sell Demo.cfg Demo.markedS
      { date := 2, symbol := "BBB", shares := 5, fill := 20 } = .ok (some o, s') ∧
    entriesOf Demo.markedS.longs "BBB" = [] ∧ o.shares = 5 :=
  ⟨Demo.orderD _, Demo.pfD _, Demo.filled_eq (by decide +kernel), by decide +kernel,
    by decide +kernel⟩

end PyBroker
