import Verif.Rotation
import Verif.Props.Backtest
import Mathlib.Data.List.Dedup

/-!
# Ranking and rotation (C32, C33, C34)
-/

namespace PyBroker

open PyBroker.Spec

/-! ## C32: ranks -/

/-- `a` ranks before `b`: a higher score, or the same score and a smaller symbol. -/
def Spec.Better (a b : Sym × ℚ) : Prop := b.2 < a.2 ∨ (a.2 = b.2 ∧ a.1 < b.1)

instance (a b : Sym × ℚ) : Decidable (Better a b) := by unfold Better; infer_instance

theorem better_asymm {a b : Sym × ℚ} (h : Better a b) : ¬ Better b a := by
  rintro (h2 | ⟨h2, h3⟩) <;> rcases h with h | ⟨h, h'⟩
  · exact lt_asymm h h2
  · exact absurd h2 (by rw [h]; exact lt_irrefl _)
  · exact absurd h (by rw [h2]; exact lt_irrefl _)
  · exact String.lt_asymm h' h3

theorem better_irrefl (a : Sym × ℚ) : ¬ Better a a := fun h => better_asymm h h

instance : Std.Total scoreLE := ⟨by
  intro a b
  unfold scoreLE
  rcases lt_trichotomy a.2 b.2 with h | h | h
  · exact Or.inr (Or.inl h)
  · rcases String.le_total a.1 b.1 with h2 | h2
    · exact Or.inl (Or.inr ⟨h.symm, h2⟩)
    · exact Or.inr (Or.inr ⟨h, h2⟩)
  · exact Or.inl (Or.inl h)⟩

instance : IsTrans (Sym × ℚ) scoreLE := ⟨by
  rintro a b c (h | ⟨h, h'⟩) (h2 | ⟨h2, h2'⟩)
  · exact Or.inl (lt_trans h2 h)
  · exact Or.inl (by rw [h2]; exact h)
  · exact Or.inl (by rw [← h]; exact h2)
  · exact Or.inr ⟨h2.trans h, String.le_trans h' h2'⟩⟩

instance : Std.Antisymm scoreLE := ⟨by
  rintro a b (h | ⟨h, h'⟩) (h2 | ⟨h2, h2'⟩)
  · exact absurd h (lt_asymm h2)
  · exact absurd h (by rw [h2]; exact lt_irrefl _)
  · exact absurd h2 (by rw [h]; exact lt_irrefl _)
  · exact Prod.ext (String.le_antisymm h' h2') h2⟩

theorem rank_numbered : ∀ {l : List (Sym × ℚ)} {n : Nat}, l.Pairwise Better →
    (l.map Prod.fst).Nodup → ∀ x ∈ l,
    rankGet (numberFrom n l) x.1 = some (n + l.countP (fun y => Better y x)) := by
  intro l
  induction l with
  | nil => intro n _ _ x hx; cases hx
  | cons a l ih =>
    intro n hp hn x hx
    obtain ⟨ha, hp⟩ := List.pairwise_cons.1 hp
    rw [List.map_cons] at hn
    obtain ⟨hna, hn⟩ := List.nodup_cons.1 hn
    unfold numberFrom rankGet
    rcases List.mem_cons.1 hx with rfl | hx
    · rw [if_pos rfl, List.countP_cons_of_neg (by simpa using better_irrefl x)]
      have : l.countP (fun y => Better y x) = 0 :=
        List.countP_eq_zero.2 (fun y hy => by simpa using better_asymm (ha y hy))
      rw [this]
      rfl
    · have hne : ¬ a.1 = x.1 := fun e => hna (e ▸ List.mem_map.2 ⟨x, hx, rfl⟩)
      rw [if_neg hne, ih hp hn x hx, List.countP_cons_of_pos (by simpa using ha x hx)]
      congr 1
      omega

theorem rankGet_none : ∀ {l : List (Sym × ℚ)} {n : Nat} {sym : Sym}, sym ∉ l.map Prod.fst →
    rankGet (numberFrom n l) sym = none := by
  intro l
  induction l with
  | nil => intro n sym _; rfl
  | cons a l ih =>
    intro n sym h
    rw [List.map_cons, List.mem_cons, not_or] at h
    unfold numberFrom rankGet
    rw [if_neg (fun e => h.1 e.symm)]
    exact ih h.2

theorem numbers_range : ∀ (l : List (Sym × ℚ)) (n : Nat),
    (numberFrom n l).map Prod.snd = List.range' n l.length := by
  intro l
  induction l with
  | nil => intro n; rfl
  | cons a l ih =>
    intro n
    unfold numberFrom
    rw [List.map_cons, ih, List.length_cons, List.range'_succ]

/-- C32.  Every scored symbol gets one more than the number of symbols that rank
before it, symbols without a score get no rank, the ranks used are 1 to n, and the
result does not depend on the order of the scores. -/
theorem rank_spec {scores : List (Sym × ℚ)} (hn : (scores.map Prod.fst).Nodup) :
    (∀ x ∈ scores, rankGet (rankByScore scores) x.1 =
      some (scores.countP (fun y => Better y x) + 1)) ∧
    (∀ sym, sym ∉ scores.map Prod.fst → rankGet (rankByScore scores) sym = none) ∧
    (rankByScore scores).map Prod.snd = List.range' 1 scores.length ∧
    ∀ scores' : List (Sym × ℚ), scores'.Perm scores → rankByScore scores' = rankByScore scores := by
  have hperm := List.perm_insertionSort scoreLE scores
  have hn' : ((scores.insertionSort scoreLE).map Prod.fst).Nodup :=
    ((hperm.map Prod.fst).nodup_iff).2 hn
  have hle := List.pairwise_insertionSort scoreLE scores
  have hb : (scores.insertionSort scoreLE).Pairwise Better := by
    rw [List.Nodup, List.pairwise_map] at hn'
    refine (hle.and hn').imp ?_
    rintro a b ⟨h | ⟨h, h'⟩, hne⟩
    · exact Or.inl h
    · exact Or.inr ⟨h.symm, String.not_le.1 (fun h2 => hne (String.le_antisymm h' h2))⟩
  refine ⟨?_, ?_, ?_, ?_⟩
  · intro x hx
    unfold rankByScore
    rw [rank_numbered hb hn' x (hperm.mem_iff.2 hx), hperm.countP_eq, add_comm]
  · intro sym hs
    exact rankGet_none (fun h => hs ((hperm.map Prod.fst).mem_iff.1 h))
  · unfold rankByScore
    rw [numbers_range, hperm.length_eq]
  · intro scores' hp
    unfold rankByScore
    congr 1
    exact List.Perm.eq_of_pairwise' (r := scoreLE) (List.pairwise_insertionSort scoreLE scores')
      hle (((List.perm_insertionSort scoreLE scores').trans hp).trans hperm.symm)

/-- A higher score gets a better rank; of equal scores the smaller symbol does. -/
theorem rank_order {scores : List (Sym × ℚ)} (hn : (scores.map Prod.fst).Nodup)
    {x y : Sym × ℚ} (hx : x ∈ scores) (hy : y ∈ scores) (h : Better x y) :
    ∃ i j, rankGet (rankByScore scores) x.1 = some i ∧
      rankGet (rankByScore scores) y.1 = some j ∧ i < j := by
  refine ⟨_, _, (rank_spec hn).1 x hx, (rank_spec hn).1 y hy, ?_⟩
  have htrans : ∀ z : Sym × ℚ, Better z x → Better z y := by
    rintro z (h2 | ⟨h2, h2'⟩) <;> rcases h with h | ⟨h, h'⟩
    · exact Or.inl (lt_trans h h2)
    · exact Or.inl (by rw [← h]; exact h2)
    · exact Or.inl (by rw [h2]; exact h)
    · exact Or.inr ⟨h2.trans h, String.lt_trans h2' h'⟩
  have key : ∀ l : List (Sym × ℚ), l.countP (fun z => Better z x) +
      l.countP (fun z => z = x) ≤ l.countP (fun z => Better z y) := by
    intro l
    induction l with
    | nil => simp
    | cons a l ih =>
      simp only [List.countP_cons]
      by_cases h1 : Better a x
      · have h2 := htrans a h1
        have h3 : ¬ a = x := fun e => better_irrefl x (e ▸ h1)
        simp only [h1, h2, h3, decide_true, decide_false, if_true]
        simp
        omega
      · by_cases h3 : a = x
        · subst h3
          simp only [h1, h, decide_true, decide_false, if_true]
          simp
          omega
        · simp only [h1, h3, decide_false]
          simp
          omega
  have hpos : 0 < scores.countP (fun z => z = x) :=
    List.countP_pos_iff.2 ⟨x, hx, by simp⟩
  have := key scores
  omega

/-- The score rotation ranks a context by on a side: NaN and unset scores are not
usable. -/
def Spec.usableScore (dir : PosType) (c : RotCtx) (q : ℚ) : Prop :=
  match dir with
  | .long => c.longScore = some (some q)
  | .short => c.shortScore = some (some q)

theorem score_iff (dir : PosType) (c : RotCtx) (q : ℚ) :
    c.score dir = some q ↔ usableScore dir c q := by
  cases dir
  · unfold RotCtx.score usableScore Score.rankable
    simp only
    rcases c.longScore with _ | _ | q' <;> simp
  · unfold RotCtx.score usableScore Score.rankable
    simp only
    rcases c.shortScore with _ | _ | q' <;> simp

/-- Among the contexts of a bar exactly those with a usable score are ranked, by
their scores. -/
theorem rotation_ranks {active : List RotCtx} (hn : (active.map RotCtx.symbol).Nodup)
    (dir : PosType) :
    ∃ scores : List (Sym × ℚ), rotationRanks active dir = rankByScore scores ∧
      (scores.map Prod.fst).Nodup ∧
      ∀ sym q, (sym, q) ∈ scores ↔ ∃ c ∈ active, c.symbol = sym ∧ usableScore dir c q := by
  refine ⟨_, rfl, ?_, ?_⟩
  · have hs : ((active.filterMap (fun c => (c.score dir).map (fun q => (c.symbol, q)))).map
        Prod.fst).Sublist (active.map RotCtx.symbol) := by
      clear hn
      induction active with
      | nil => exact List.Sublist.refl _
      | cons c l ih =>
        rw [List.filterMap_cons, List.map_cons]
        cases c.score dir with
        | none => exact ih.cons _
        | some q => exact ih.cons_cons _
    exact hs.nodup hn
  · intro sym q
    constructor
    · intro h
      obtain ⟨c, hc, h⟩ := List.mem_filterMap.1 h
      rcases Option.eq_none_or_eq_some (c.score dir) with h0 | ⟨q', h0⟩
      · rw [h0] at h; cases h
      · rw [h0] at h
        have := Prod.mk.inj (Option.some.inj h)
        rw [this.2] at h0
        exact ⟨c, hc, this.1, (score_iff dir c q).1 h0⟩
    · rintro ⟨c, hc, rfl, h⟩
      refine List.mem_filterMap.2 ⟨c, hc, ?_⟩
      rw [(score_iff dir c q).2 h]
      rfl

/-! ## C33: exits and entries -/

/-- The per-symbol list of the registry is the live orders of that symbol. -/
def Spec.Indexed (pend : PendingScope) : Prop :=
  ∀ sym, pend.list (some sym) none = pend.orders.filter (fun o => o.symbol = sym)

/-- Every registry a run leaves is indexed. -/
theorem run_indexed {HB : Sym → Date → Prop} {cfg : Config} {ws : List (Window × List BarIn)}
    (hr : RunOK HB ws) {s : Loop} (h : runWindows cfg ws = .ok s) : Indexed s.pend := by
  obtain ⟨d, hd⟩ := exists_after (barDates ws)
  obtain ⟨D, m, _, hi⟩ := run_loopInv hr h hd
  intro sym
  exact hi.ref.sym sym

/-- An order of this side is pending for the symbol. -/
def Spec.HasPending (pend : PendingScope) (sym : Sym) (side : Side) : Prop :=
  ∃ o ∈ pend.orders, o.symbol = sym ∧ o.side = side

instance (pend : PendingScope) (sym : Sym) (side : Side) : Decidable (HasPending pend sym side) := by
  unfold HasPending; infer_instance

theorem hasPending_iff {pend : PendingScope} (hp : Indexed pend) (sym : Sym) (side : Side) :
    hasPending pend sym side = true ↔ HasPending pend sym side := by
  unfold hasPending HasPending
  rw [hp sym, List.any_eq_true]
  constructor
  · rintro ⟨o, ho, hs⟩
    obtain ⟨h1, h2⟩ := List.mem_filter.1 ho
    exact ⟨o, h1, by simpa using h2, by simpa using hs⟩
  · rintro ⟨o, ho, hsym, hs⟩
    exact ⟨o, List.mem_filter.2 ⟨ho, by simpa using hsym⟩, by simpa using hs⟩

/-- The symbol is ranked, and within the band. -/
def Spec.InBand (ranks : List (Sym × Nat)) (worst : Int) (sym : Sym) : Prop :=
  ∃ r, rankGet ranks sym = some r ∧ (r : Int) ≤ worst

instance (ranks : List (Sym × Nat)) (worst : Int) (sym : Sym) : Decidable (InBand ranks worst sym) :=
  match h : rankGet ranks sym with
  | none => isFalse (by rintro ⟨r, hr, _⟩; rw [h] at hr; cases hr)
  | some r =>
    if hr : (r : Int) ≤ worst then isTrue ⟨r, h, hr⟩
    else isFalse (by rintro ⟨r', hr', h'⟩; rw [h] at hr'; cases hr'; exact hr h')

/-- A position rotation closes: its symbol has a bar and is not in the band. -/
def Spec.Leaving (active : List RotCtx) (ranks : List (Sym × Nat)) (worst : Int) (sym : Sym) :
    Prop := sym ∈ active.map RotCtx.symbol ∧ ¬ InBand ranks worst sym

instance (active : List RotCtx) (ranks : List (Sym × Nat)) (worst : Int) (sym : Sym) :
    Decidable (Leaving active ranks worst sym) := by unfold Leaving; infer_instance

theorem any_iff (ranks : List (Sym × Nat)) (worst : Int) (sym : Sym) :
    ((rankGet ranks sym).any (fun r : Nat => decide ((r : Int) ≤ worst))) = true ↔ InBand ranks worst sym := by
  unfold InBand
  cases rankGet ranks sym with
  | none => simp
  | some r => simp

theorem find_isNone (active : List RotCtx) (sym : Sym) :
    (active.find? (fun c => c.symbol = sym)).isNone = true ↔
      sym ∉ active.map RotCtx.symbol := by
  rw [Option.isNone_iff_eq_none, List.find?_eq_none]
  simp

/-- The side of the orders that close positions: long ones are sold, short ones bought. -/
def Spec.closesBy : PosType → Side
  | .long => .sell
  | .short => .buy

theorem exitSideOf_closesBy (dir : PosType) : exitSideOf dir = closesBy dir := by cases dir <;> rfl

/-- Rotation closes exactly the positions that have a bar and are not ranked within
the band, counts each of them, and gives an order to those without one pending. -/
theorem rotation_exits {active : List RotCtx} {held : Held} {pend : PendingScope}
    (hp : Indexed pend) (ranks : List (Sym × Nat)) (worst : Int) (dir : PosType) :
    (rotationExits active held pend ranks worst dir).1 =
      (held.of dir).countP (fun x => Leaving active ranks worst x) ∧
    (rotationExits active held pend ranks worst dir).2 =
      (held.of dir).filter (fun x => decide (Leaving active ranks worst x) &&
        !decide (HasPending pend x (closesBy dir))) := by
  unfold rotationExits
  generalize held.of dir = l
  suffices H : ∀ (l : List Sym) (n : Nat) (out : List Sym),
      l.foldl (exitStepR active pend ranks worst dir) (n, out) =
        (n + l.countP (fun x => Leaving active ranks worst x),
          out ++ l.filter (fun x => decide (Leaving active ranks worst x) &&
            !decide (HasPending pend x (closesBy dir)))) by
    rw [H l 0 []]
    exact ⟨by simp, by simp⟩
  intro l
  induction l with
  | nil => intro n out; simp
  | cons x l ih =>
    intro n out
    rw [List.foldl_cons, ← Prod.eta (exitStepR active pend ranks worst dir (n, out) x), ih]
    unfold exitStepR
    simp only [exitSideOf_closesBy]
    by_cases h1 : x ∈ active.map RotCtx.symbol
    · rw [if_neg (by rw [find_isNone]; exact fun h => h h1)]
      by_cases h2 : InBand ranks worst x
      · rw [if_pos ((any_iff ranks worst x).2 h2)]
        have hl : ¬ Leaving active ranks worst x := fun h => h.2 h2
        rw [List.countP_cons_of_neg (by simpa using hl), List.filter_cons_of_neg (by simp [hl])]
      · rw [if_neg (fun h => h2 ((any_iff ranks worst x).1 h))]
        have hl : Leaving active ranks worst x := ⟨h1, h2⟩
        by_cases h3 : HasPending pend x (closesBy dir)
        · rw [if_pos ((hasPending_iff hp _ _).2 h3),
            List.countP_cons_of_pos (by simpa using hl), List.filter_cons_of_neg (by simp [h3])]
          simp only [Prod.mk.injEq, and_true]
          omega
        · rw [if_neg (fun h => h3 ((hasPending_iff hp _ _).1 h)),
            List.countP_cons_of_pos (by simpa using hl),
            List.filter_cons_of_pos (by simp [hl, h3])]
          simp only [Prod.mk.injEq, List.append_assoc, List.cons_append, List.nil_append, and_true]
          omega
    · rw [if_pos ((find_isNone active x).2 h1)]
      have hl : ¬ Leaving active ranks worst x := fun h => h1 h.1
      rw [List.countP_cons_of_neg (by simpa using hl), List.filter_cons_of_neg (by simp [hl])]

/-- The side of the orders that open positions: long ones are bought, short ones sold. -/
def Spec.opensBy : PosType → Side
  | .long => .buy
  | .short => .sell

theorem entrySide_opensBy (dir : PosType) : entrySide dir = opensBy dir := by cases dir <;> rfl

/-- A symbol rotation may enter: it has a bar, is held on neither side, has no
entry order pending, and is ranked within the band. -/
def Spec.Enterable (active : List RotCtx) (held : Held) (pend : PendingScope)
    (ranks : List (Sym × Nat)) (worst : Int) (dir : PosType) (sym : Sym) : Prop :=
  sym ∈ active.map RotCtx.symbol ∧ sym ∉ held.longs ∧ sym ∉ held.shorts ∧
    ¬ HasPending pend sym (opensBy dir) ∧ InBand ranks worst sym

/-- A symbol whose entry is under way: held on neither side, with a pending entry
order that is not an exit, or with any such order if it has a bar. -/
def Spec.InFlight (active : List RotCtx) (held : Held) (pend : PendingScope) (dir : PosType)
    (sym : Sym) : Prop :=
  sym ∉ held.longs ∧ sym ∉ held.shorts ∧ ∃ o ∈ pend.orders, o.symbol = sym ∧
    o.side = opensBy dir ∧ (o.exitPos = none ∨ sym ∈ active.map RotCtx.symbol)

instance (active : List RotCtx) (held : Held) (pend : PendingScope) (ranks : List (Sym × Nat))
    (worst : Int) (dir : PosType) (sym : Sym) :
    Decidable (Enterable active held pend ranks worst dir sym) := by
  unfold Enterable; infer_instance

instance (active : List RotCtx) (held : Held) (pend : PendingScope) (dir : PosType) (sym : Sym) :
    Decidable (InFlight active held pend dir sym) := by unfold InFlight; infer_instance

/-- The number of symbols whose entry is under way. -/
def Spec.inFlight (active : List RotCtx) (held : Held) (pend : PendingScope) (dir : PosType) : Nat :=
  ((pend.orders.map PendingOrder.symbol).dedup.filter
    (fun x => InFlight active held pend dir x)).length

theorem cand_fold {held : Held} {pend : PendingScope} (hp : Indexed pend)
    (ranks : List (Sym × Nat)) (worst : Int) (dir : PosType) (all : List RotCtx) :
    ∀ (l : List RotCtx) (ps es : List Sym), (∀ c ∈ l, c ∈ all) → ps.Nodup →
      (∀ x ∈ ps, HasPending pend x (opensBy dir)) →
      let acc := l.foldl (candStep held pend ranks worst dir) (ps, es)
      acc.1.Nodup ∧
      (∀ x, x ∈ acc.1 ↔ x ∈ ps ∨ (x ∈ l.map RotCtx.symbol ∧ x ∉ held.longs ∧ x ∉ held.shorts ∧
        HasPending pend x (opensBy dir))) ∧
      acc.2 = es ++ (l.map RotCtx.symbol).filter
        (fun x => Enterable all held pend ranks worst dir x) := by
  intro l
  induction l with
  | nil =>
    intro ps es _ hn hps
    exact ⟨hn, fun x => by simp, by simp⟩
  | cons c l ih =>
    intro ps es hall hn hps
    have hca : c.symbol ∈ all.map RotCtx.symbol :=
      List.mem_map.2 ⟨c, hall c List.mem_cons_self, rfl⟩
    have hall' : ∀ c' ∈ l, c' ∈ all := fun c' h => hall c' (List.mem_cons_of_mem _ h)
    simp only [List.foldl_cons]
    by_cases h1 : c.symbol ∈ held.longs ∨ c.symbol ∈ held.shorts
    · have hs : candStep held pend ranks worst dir (ps, es) c = (ps, es) := by
        unfold candStep; rw [entrySide_opensBy, if_pos h1]
      rw [hs]
      obtain ⟨i1, i2, i3⟩ := ih ps es hall' hn hps
      refine ⟨i1, ?_, ?_⟩
      · intro x
        rw [i2 x, List.map_cons, List.mem_cons]
        constructor
        · rintro (h | ⟨h, h'⟩)
          · exact Or.inl h
          · exact Or.inr ⟨Or.inr h, h'⟩
        · rintro (h | ⟨rfl | h, h', h''⟩)
          · exact Or.inl h
          · exact absurd h1 (not_or.2 ⟨h', h''.1⟩)
          · exact Or.inr ⟨h, h', h''⟩
      · rw [i3, List.map_cons, List.filter_cons_of_neg]
        simp only [decide_eq_true_eq]
        rintro ⟨_, h2, h3, _⟩
        exact absurd h1 (not_or.2 ⟨h2, h3⟩)
    · obtain ⟨hnl, hns⟩ := not_or.1 h1
      by_cases h2 : HasPending pend c.symbol (opensBy dir)
      · have hs : candStep held pend ranks worst dir (ps, es) c = (ps.insert c.symbol, es) := by
          unfold candStep
          rw [entrySide_opensBy]
          rw [if_neg h1, if_pos (Or.inr ((hasPending_iff hp _ _).2 h2))]
        rw [hs]
        obtain ⟨i1, i2, i3⟩ := ih (ps.insert c.symbol) es hall' (hn.insert) (by
          intro x hx
          rcases List.mem_insert_iff.1 hx with rfl | hx
          · exact h2
          · exact hps x hx)
        refine ⟨i1, ?_, ?_⟩
        · intro x
          rw [i2 x, List.mem_insert_iff, List.map_cons, List.mem_cons]
          constructor
          · rintro ((rfl | h) | ⟨h, h'⟩)
            · exact Or.inr ⟨Or.inl rfl, hnl, hns, h2⟩
            · exact Or.inl h
            · exact Or.inr ⟨Or.inr h, h'⟩
          · rintro (h | ⟨rfl | h, h'⟩)
            · exact Or.inl (Or.inr h)
            · exact Or.inl (Or.inl rfl)
            · exact Or.inr ⟨h, h'⟩
        · rw [i3, List.map_cons, List.filter_cons_of_neg]
          simp only [decide_eq_true_eq]
          rintro ⟨_, _, _, h3, _⟩
          exact h3 h2
      · have hcond : ¬ (c.symbol ∈ ps ∨ hasPending pend c.symbol (opensBy dir) = true) := by
          rintro (h | h)
          · exact h2 (hps _ h)
          · exact h2 ((hasPending_iff hp _ _).1 h)
        have hmem : ∀ x, (x ∈ ps ∨ (x ∈ l.map RotCtx.symbol ∧ x ∉ held.longs ∧ x ∉ held.shorts ∧
            HasPending pend x (opensBy dir))) ↔ (x ∈ ps ∨ (x ∈ (c :: l).map RotCtx.symbol ∧
            x ∉ held.longs ∧ x ∉ held.shorts ∧ HasPending pend x (opensBy dir))) := by
          intro x
          rw [List.map_cons, List.mem_cons]
          constructor
          · rintro (h | ⟨h, h'⟩)
            · exact Or.inl h
            · exact Or.inr ⟨Or.inr h, h'⟩
          · rintro (h | ⟨rfl | h, h'⟩)
            · exact Or.inl h
            · exact absurd h'.2.2 h2
            · exact Or.inr ⟨h, h'⟩
        by_cases h3 : InBand ranks worst c.symbol
        · have hs : candStep held pend ranks worst dir (ps, es) c = (ps, es ++ [c.symbol]) := by
            unfold candStep
            rw [entrySide_opensBy]
            rw [if_neg h1, if_neg hcond]
            obtain ⟨r, hr, hle⟩ := h3
            rw [hr]
            simp only
            rw [if_neg (not_lt.2 hle)]
          rw [hs]
          obtain ⟨i1, i2, i3⟩ := ih ps (es ++ [c.symbol]) hall' hn hps
          refine ⟨i1, fun x => (i2 x).trans (hmem x), ?_⟩
          rw [i3, List.map_cons, List.filter_cons_of_pos]
          · simp
          · simp only [decide_eq_true_eq]
            exact ⟨hca, hnl, hns, h2, h3⟩
        · have hs : candStep held pend ranks worst dir (ps, es) c = (ps, es) := by
            unfold candStep
            rw [entrySide_opensBy]
            rw [if_neg h1, if_neg hcond]
            split
            · rfl
            · rename_i r hr
              rw [if_pos (by
                by_contra hc
                exact h3 ⟨r, hr, not_lt.1 hc⟩)]
          rw [hs]
          obtain ⟨i1, i2, i3⟩ := ih ps es hall' hn hps
          refine ⟨i1, fun x => (i2 x).trans (hmem x), ?_⟩
          rw [i3, List.map_cons, List.filter_cons_of_neg]
          simp only [decide_eq_true_eq]
          rintro ⟨_, _, _, _, h⟩
          exact h3 h

theorem cand_acc {active : List RotCtx} {held : Held} {pend : PendingScope} (hp : Indexed pend)
    (ranks : List (Sym × Nat)) (worst : Int) (dir : PosType) :
    (active.foldl (candStep held pend ranks worst dir) (pendingEntry held pend dir, [])).1.length =
      inFlight active held pend dir ∧
    (active.foldl (candStep held pend ranks worst dir) (pendingEntry held pend dir, [])).2 =
      (active.map RotCtx.symbol).filter
        (fun x => Enterable active held pend ranks worst dir x) := by
  have hbase : ∀ x, x ∈ pendingEntry held pend dir ↔ x ∉ held.longs ∧ x ∉ held.shorts ∧
      ∃ o ∈ pend.orders, o.symbol = x ∧ o.side = opensBy dir ∧ o.exitPos = none := by
    intro x
    unfold pendingEntry
    rw [entrySide_opensBy]
    rw [List.mem_dedup, List.mem_map]
    constructor
    · rintro ⟨o, ho, rfl⟩
      obtain ⟨h1, h2⟩ := List.mem_filter.1 ho
      simp only [Bool.and_eq_true, decide_eq_true_eq, Option.isNone_iff_eq_none,
        Bool.not_eq_true', decide_eq_false_iff_not] at h2
      exact ⟨h2.1.2, h2.2, o, h1, rfl, h2.1.1.1, h2.1.1.2⟩
    · rintro ⟨h1, h2, o, ho, rfl, h3, h4⟩
      refine ⟨o, List.mem_filter.2 ⟨ho, ?_⟩, rfl⟩
      simp [h1, h2, h3, h4]
  obtain ⟨i1, i2, i3⟩ := cand_fold (held := held) hp ranks worst dir active active
    (pendingEntry held pend dir) [] (fun c h => h) (List.nodup_dedup _) (by
      intro x hx
      obtain ⟨_, _, o, ho, h1, h2, _⟩ := (hbase x).1 hx
      exact ⟨o, ho, h1, h2⟩)
  refine ⟨?_, by rw [i3, List.nil_append]⟩
  unfold inFlight
  apply List.Perm.length_eq
  refine (List.perm_ext_iff_of_nodup i1 ((List.nodup_dedup _).filter _)).2 ?_
  intro x
  rw [i2 x, hbase x, List.mem_filter, List.mem_dedup, decide_eq_true_eq]
  constructor
  · rintro (⟨h1, h2, o, ho, h3, h4, h5⟩ | ⟨h0, h1, h2, o, ho, h3, h4⟩)
    · exact ⟨List.mem_map.2 ⟨o, ho, h3⟩, h1, h2, o, ho, h3, h4, Or.inl h5⟩
    · exact ⟨List.mem_map.2 ⟨o, ho, h3⟩, h1, h2, o, ho, h3, h4, Or.inr h0⟩
  · rintro ⟨_, h1, h2, o, ho, h3, h4, h5 | h5⟩
    · exact Or.inl ⟨h1, h2, o, ho, h3, h4, h5⟩
    · exact Or.inr ⟨h5, h1, h2, o, ho, h3, h4⟩

/-- C33.  Rotation enters only enterable symbols, each once; with those entries,
the positions that stay and the entries under way do not exceed the limit; and an
enterable symbol is left out only when the limit is reached, by symbols ranked no
worse. -/
theorem rotation_slots {active : List RotCtx} {held : Held} {pend : PendingScope}
    (hn : (active.map RotCtx.symbol).Nodup) (hp : Indexed pend) (ranks : List (Sym × Nat))
    (worst maxPositions : Int) (exiting : Nat) (dir : PosType) :
    let chosen := rotationCandidates active held pend ranks worst maxPositions exiting dir
    let used : Int := (held.of dir).length - exiting + inFlight active held pend dir
    chosen.Nodup ∧
    (∀ x ∈ chosen, Enterable active held pend ranks worst dir x) ∧
    (chosen = [] ∨ used + chosen.length ≤ maxPositions) ∧
    (∀ x, Enterable active held pend ranks worst dir x → x ∉ chosen →
      maxPositions ≤ used + chosen.length ∧
      ∀ c ∈ chosen, ∃ i j, rankGet ranks c = some i ∧ rankGet ranks x = some j ∧ i ≤ j) := by
  obtain ⟨h1, h2⟩ := cand_acc (active := active) (held := held) hp ranks worst dir
  unfold rotationCandidates
  simp only
  rw [h1, h2]
  generalize hE : (active.map RotCtx.symbol).filter
    (fun x => Enterable active held pend ranks worst dir x) = E
  have hmemE : ∀ x, x ∈ E ↔ Enterable active held pend ranks worst dir x := by
    intro x
    rw [← hE, List.mem_filter, decide_eq_true_eq]
    exact ⟨fun h => h.2, fun h => ⟨h.1, h⟩⟩
  have hEn : E.Nodup := by rw [← hE]; exact hn.filter _
  have hrank : ∀ x ∈ E, ∃ i, rankGet ranks x = some i := by
    intro x hx
    obtain ⟨_, _, _, _, r, hr, _⟩ := (hmemE x).1 hx
    exact ⟨r, hr⟩
  have : Std.Total (fun a b : Sym => (rankGet ranks a).getD 0 ≤ (rankGet ranks b).getD 0) :=
    ⟨fun a b => le_total _ _⟩
  have : IsTrans Sym (fun a b : Sym => (rankGet ranks a).getD 0 ≤ (rankGet ranks b).getD 0) :=
    ⟨fun a b c h h' => le_trans h h'⟩
  have hsort := List.pairwise_insertionSort
    (fun a b : Sym => (rankGet ranks a).getD 0 ≤ (rankGet ranks b).getD 0) E
  have hperm := List.perm_insertionSort
    (fun a b : Sym => (rankGet ranks a).getD 0 ≤ (rankGet ranks b).getD 0) E
  generalize E.insertionSort
    (fun a b : Sym => (rankGet ranks a).getD 0 ≤ (rankGet ranks b).getD 0) = S at hsort hperm
  split
  · rename_i hfree
    refine ⟨List.nodup_nil, (fun x hx => nomatch hx), Or.inl rfl, ?_⟩
    intro x _ _
    refine ⟨?_, (fun c hc => nomatch hc)⟩
    simp only [List.length_nil, Nat.cast_zero]
    omega
  · rename_i hfree
    have htake : ∀ x ∈ S.take (maxPositions - (((held.of dir).length : Int) - exiting) -
        (inFlight active held pend dir : Int)).toNat, x ∈ E :=
      fun x hx => hperm.mem_iff.1 (List.mem_of_mem_take hx)
    refine ⟨(List.take_sublist _ _).nodup (hperm.nodup_iff.2 hEn), fun x hx =>
      (hmemE x).1 (htake x hx), Or.inr ?_, ?_⟩
    · rw [List.length_take]
      omega
    · intro x hx hnot
      have hxS : x ∈ S := hperm.mem_iff.2 ((hmemE x).2 hx)
      rw [← List.take_append_drop (maxPositions - (((held.of dir).length : Int) - exiting) -
        (inFlight active held pend dir : Int)).toNat S] at hxS
      have hxd := (List.mem_append.1 hxS).resolve_left hnot
      refine ⟨?_, ?_⟩
      · have hlen := List.length_pos_of_mem hxd
        rw [List.length_drop] at hlen
        rw [List.length_take, min_eq_left (by omega)]
        omega
      · intro c hc
        obtain ⟨i, hi⟩ := hrank c (htake c hc)
        obtain ⟨j, hj⟩ := hrank x ((hmemE x).2 hx)
        refine ⟨i, j, hi, hj, ?_⟩
        rw [← List.take_append_drop (maxPositions - (((held.of dir).length : Int) - exiting) -
          (inFlight active held pend dir : Int)).toNat S, List.pairwise_append] at hsort
        have := hsort.2.2 c hc x hxd
        rw [hi, hj] at this
        exact this

/-! ## C34: one side per symbol -/

/-- C34.  A symbol chosen on both sides stays on the side it ranks better on, long
on ties; other choices are untouched and keep their order. -/
theorem overlap_resolved (longC shortC : List Sym) (longR shortR : List (Sym × Nat)) :
    let r := resolveOverlap longC shortC longR shortR
    (∀ x, x ∈ r.1 ↔ x ∈ longC ∧ (x ∈ shortC →
      (rankGet longR x).getD 0 ≤ (rankGet shortR x).getD 0)) ∧
    (∀ x, x ∈ r.2 ↔ x ∈ shortC ∧ (x ∈ longC →
      (rankGet shortR x).getD 0 < (rankGet longR x).getD 0)) ∧
    (∀ x, x ∈ r.1 → x ∉ r.2) ∧ r.1.Sublist longC ∧ r.2.Sublist shortC := by
  have a : ∀ x, x ∈ (resolveOverlap longC shortC longR shortR).1 ↔ x ∈ longC ∧ (x ∈ shortC →
      (rankGet longR x).getD 0 ≤ (rankGet shortR x).getD 0) := by
    intro x
    unfold resolveOverlap
    simp only [List.mem_filter, decide_eq_true_eq, Bool.not_eq_true', decide_eq_false_iff_not]
    constructor
    · rintro ⟨h1, h2⟩
      exact ⟨h1, fun h3 => not_lt.1 (fun h4 => h2 ⟨⟨h1, h3⟩, h4⟩)⟩
    · rintro ⟨h1, h2⟩
      exact ⟨h1, fun h3 => not_lt.2 (h2 h3.1.2) h3.2⟩
  have b : ∀ x, x ∈ (resolveOverlap longC shortC longR shortR).2 ↔ x ∈ shortC ∧ (x ∈ longC →
      (rankGet shortR x).getD 0 < (rankGet longR x).getD 0) := by
    intro x
    unfold resolveOverlap
    simp only [List.mem_filter, decide_eq_true_eq, Bool.not_eq_true', decide_eq_false_iff_not]
    constructor
    · rintro ⟨h1, h2⟩
      refine ⟨h1, fun h3 => ?_⟩
      by_contra h4
      exact h2 ⟨⟨h3, h1⟩, fun h5 => h4 h5.2⟩
    · rintro ⟨h1, h2⟩
      exact ⟨h1, fun h3 => h3.2 ⟨h3.1, h2 h3.1.1⟩⟩
  refine ⟨a, b, ?_, List.filter_sublist, List.filter_sublist⟩
  intro x hx hx'
  obtain ⟨h1, h2⟩ := (a x).1 hx
  obtain ⟨h3, h4⟩ := (b x).1 hx'
  exact absurd (h4 h1) (not_lt.2 (h2 h3))

/-- Rotation as a whole: on each side the positions that stay, the entries under
way and the new entries fit the limit, no symbol is entered twice or on a side it
is held on, no symbol is both closed and entered, and no symbol is entered on both
sides. -/
theorem rotation_plan {active : List RotCtx} {held : Held} {pend : PendingScope}
    (hn : (active.map RotCtx.symbol).Nodup) (hp : Indexed pend) (st : RotSettings) :
    let plan := applyRotation active held pend st
    let stays (dir : PosType) : Int := (held.of dir).countP
      (fun x => ¬ Leaving active (rotationRanks active dir) st.worst x)
    plan.enterLong.Nodup ∧ plan.enterShort.Nodup ∧
    (∀ x ∈ plan.enterLong, x ∉ plan.enterShort) ∧
    (∀ x ∈ plan.enterLong ++ plan.enterShort,
      x ∈ active.map RotCtx.symbol ∧ x ∉ held.longs ∧ x ∉ held.shorts) ∧
    (∀ x ∈ plan.sellAll, x ∈ held.longs ∧
      Leaving active (rotationRanks active .long) st.worst x) ∧
    (∀ x ∈ plan.coverAll, x ∈ held.shorts ∧
      Leaving active (rotationRanks active .short) st.worst x) ∧
    (plan.enterLong = [] ∨ ∃ m, st.maxLong = some m ∧
      stays .long + inFlight active held pend .long + plan.enterLong.length ≤ m) ∧
    (plan.enterShort = [] ∨ ∃ m, st.maxShort = some m ∧
      stays .short + inFlight active held pend .short + plan.enterShort.length ≤ m) := by
  have leg : ∀ dir : PosType, ∀ m : Int,
      let ex := rotationExits active held pend (rotationRanks active dir) st.worst dir
      let c := rotationCandidates active held pend (rotationRanks active dir) st.worst m ex.1 dir
      c.Nodup ∧ (∀ x ∈ c, x ∈ active.map RotCtx.symbol ∧ x ∉ held.longs ∧ x ∉ held.shorts) ∧
      (∀ x ∈ ex.2, x ∈ held.of dir ∧ Leaving active (rotationRanks active dir) st.worst x) ∧
      (∀ c' : List Sym, c'.Sublist c → c' = [] ∨ (((held.of dir).countP
        (fun x => ¬ Leaving active (rotationRanks active dir) st.worst x) : Nat) : Int) +
          inFlight active held pend dir + c'.length ≤ m) := by
    intro dir m
    simp only
    obtain ⟨e1, e2⟩ := rotation_exits (active := active) (held := held) hp
      (rotationRanks active dir) st.worst dir
    obtain ⟨s1, s2, s3, _⟩ := rotation_slots (held := held) hn hp (rotationRanks active dir)
      st.worst m (rotationExits active held pend (rotationRanks active dir) st.worst dir).1 dir
    refine ⟨s1, fun x hx => ?_, ?_, ?_⟩
    · obtain ⟨h1, h2, h3, _⟩ := s2 x hx
      exact ⟨h1, h2, h3⟩
    · intro x hx
      rw [e2] at hx
      obtain ⟨h1, h2⟩ := List.mem_filter.1 hx
      simp only [Bool.and_eq_true, decide_eq_true_eq] at h2
      exact ⟨h1, h2.1⟩
    · intro c' hc
      rcases s3 with h | h
      · rw [h] at hc
        exact Or.inl (List.sublist_nil.1 hc)
      · right
        have hlen := hc.length_le
        have hcount := List.length_eq_countP_add_countP
          (fun x => decide (Leaving active (rotationRanks active dir) st.worst x))
          (l := held.of dir)
        have hcc : (held.of dir).countP (fun x => decide (¬ decide (Leaving active
            (rotationRanks active dir) st.worst x) = true)) = (held.of dir).countP
            (fun x => decide (¬ Leaving active (rotationRanks active dir) st.worst x)) := by
          congr 1
          funext x
          simp
        rw [hcc] at hcount
        have e1' : ((rotationExits active held pend (rotationRanks active dir) st.worst dir).1 : Int) =
            _ := congrArg Nat.cast e1
        rw [← Int.natCast_inj] at hcount
        push_cast at hcount
        omega
  unfold applyRotation
  simp only
  cases hml : st.maxLong with
  | none =>
    cases hms : st.maxShort with
    | none =>
      refine ⟨List.nodup_nil, List.nodup_nil, (fun x hx => nomatch hx), (fun x hx => nomatch hx),
        (fun x hx => nomatch hx), (fun x hx => nomatch hx), Or.inl rfl, Or.inl rfl⟩
    | some m =>
      simp only [Option.isSome_some, Option.isSome_none, if_true]
      obtain ⟨b1, b2, b3, b4⟩ := leg .short m
      obtain ⟨_, _, o3, o4, o5⟩ := overlap_resolved []
        (rotationCandidates active held pend (rotationRanks active .short) st.worst m
          (rotationExits active held pend (rotationRanks active .short) st.worst .short).1 .short)
        (if false = true then rotationRanks active .long else []) (rotationRanks active .short)
      refine ⟨o4.nodup List.nodup_nil, o5.nodup b1, o3, ?_, (fun x hx => nomatch hx), b3,
        Or.inl (List.sublist_nil.1 o4), ?_⟩
      · intro x hx
        rcases List.mem_append.1 hx with hx | hx
        · exact absurd (o4.subset hx) (by simp)
        · exact b2 x (o5.subset hx)
      · rcases b4 _ o5 with h | h
        · exact Or.inl h
        · exact Or.inr ⟨m, rfl, h⟩
  | some k =>
    cases hms : st.maxShort with
    | none =>
      simp only [Option.isSome_some, Option.isSome_none, if_true]
      obtain ⟨a1, a2, a3, a4⟩ := leg .long k
      obtain ⟨_, _, o3, o4, o5⟩ := overlap_resolved
        (rotationCandidates active held pend (rotationRanks active .long) st.worst k
          (rotationExits active held pend (rotationRanks active .long) st.worst .long).1 .long) []
        (rotationRanks active .long) (if false = true then rotationRanks active .short else [])
      refine ⟨o4.nodup a1, o5.nodup List.nodup_nil, o3, ?_, a3, (fun x hx => nomatch hx), ?_,
        Or.inl (List.sublist_nil.1 o5)⟩
      · intro x hx
        rcases List.mem_append.1 hx with hx | hx
        · exact a2 x (o4.subset hx)
        · exact absurd (o5.subset hx) (by simp)
      · rcases a4 _ o4 with h | h
        · exact Or.inl h
        · exact Or.inr ⟨k, rfl, h⟩
    | some m =>
      simp only [Option.isSome_some, if_true]
      obtain ⟨a1, a2, a3, a4⟩ := leg .long k
      obtain ⟨b1, b2, b3, b4⟩ := leg .short m
      obtain ⟨_, _, o3, o4, o5⟩ := overlap_resolved
        (rotationCandidates active held pend (rotationRanks active .long) st.worst k
          (rotationExits active held pend (rotationRanks active .long) st.worst .long).1 .long)
        (rotationCandidates active held pend (rotationRanks active .short) st.worst m
          (rotationExits active held pend (rotationRanks active .short) st.worst .short).1 .short)
        (rotationRanks active .long) (rotationRanks active .short)
      refine ⟨o4.nodup a1, o5.nodup b1, o3, ?_, a3, b3, ?_, ?_⟩
      · intro x hx
        rcases List.mem_append.1 hx with hx | hx
        · exact a2 x (o4.subset hx)
        · exact b2 x (o5.subset hx)
      · rcases a4 _ o4 with h | h
        · exact Or.inl h
        · exact Or.inr ⟨k, rfl, h⟩
      · rcases b4 _ o5 with h | h
        · exact Or.inl h
        · exact Or.inr ⟨m, rfl, h⟩

/-- The targets of the new entries add up to at most the whole capital. -/
theorem rotation_targets {active : List RotCtx} {held : Held} {pend : PendingScope}
    (hn : (active.map RotCtx.symbol).Nodup) (hp : Indexed pend) (st : RotSettings)
    (hl : ∀ m, st.maxLong = some m → 0 < m) (hs : ∀ m, st.maxShort = some m → 0 < m) :
    let plan := applyRotation active held pend st
    ((plan.enterLong.length + plan.enterShort.length : Nat) : ℚ) * rotationTarget st ≤ 1 := by
  obtain ⟨_, _, _, _, _, _, h1, h2⟩ := rotation_plan (held := held) hn hp st
  simp only at h1 h2 ⊢
  generalize (applyRotation active held pend st).enterLong = L at h1 ⊢
  generalize (applyRotation active held pend st).enterShort = S at h2 ⊢
  unfold rotationTarget
  have hL : (L.length : Int) ≤ st.maxLong.getD 0 := by
    rcases h1 with h | ⟨m, h, h'⟩
    · rw [h]
      cases hm : st.maxLong with
      | none => simp
      | some m => have := hl m hm; simp; omega
    · rw [h]; simp only [Option.getD_some]; omega
  have hS : (S.length : Int) ≤ st.maxShort.getD 0 := by
    rcases h2 with h | ⟨m, h, h'⟩
    · rw [h]
      cases hm : st.maxShort with
      | none => simp
      | some m => have := hs m hm; simp; omega
    · rw [h]; simp only [Option.getD_some]; omega
  have hle : ((L.length + S.length : Nat) : ℚ) ≤
      ((st.maxLong.getD 0 + st.maxShort.getD 0 : Int) : ℚ) := by
    have : ((L.length + S.length : Nat) : Int) ≤ st.maxLong.getD 0 + st.maxShort.getD 0 := by
      push_cast; omega
    exact_mod_cast this
  have hnn : (0 : ℚ) ≤ ((L.length + S.length : Nat) : ℚ) := Nat.cast_nonneg _
  rw [mul_one_div]
  rcases eq_or_lt_of_le (le_trans hnn hle) with h | h
  · rw [← h, div_zero]; exact zero_le_one
  · exact (div_le_one h).2 hle

/-! ## A concrete bar

Five symbols.  A is held long and unranked, B is held long and ranked first, C has
a pending buy; D and E may be entered, and E ranks on both sides. -/

def Demo.rotActive : List RotCtx :=
  [ { symbol := "A", longScore := some none },
    { symbol := "B", longScore := some (some 9) },
    { symbol := "C", longScore := some (some 8) },
    { symbol := "D", longScore := some (some 5), shortScore := some (some 1) },
    { symbol := "E", longScore := some (some 5), shortScore := some (some 7) } ]

def Demo.rotHeld : Held := { longs := ["A", "B"], shorts := [] }

def Demo.rotPend : PendingScope :=
  (({} : PendingScope).add
    { side := .buy, symbol := "C", created := 1, execDate := 2, shares := 1, limit := none,
      fill := .price .middle, execBar := 2, timeout := none, stops := [], exitPos := none }).2

def Demo.rotSettings : RotSettings := { maxLong := some 4, maxShort := some 1, worst := 4 }

theorem Demo.rotPend_indexed : Indexed Demo.rotPend := by
  intro sym
  unfold Demo.rotPend PendingScope.list PendingScope.add
  simp only [PendingScope.symAdd, PendingScope.symGet, List.nil_append]
  by_cases h : "C" = sym
  · rw [if_pos h]; subst h; rfl
  · rw [if_neg h]
    simp [PendingReq.order, h]

example : rankByScore [("X", 1), ("Y", 3), ("W", 3)] = [("W", 1), ("Y", 2), ("X", 3)] := by
  decide +kernel

example := rank_spec (scores := [("X", 1), ("Y", 3), ("W", 3)]) (by decide)
example := rank_order (scores := [("X", 1), ("Y", 3), ("W", 3)]) (x := ("W", 3)) (y := ("Y", 3))
  (by decide) (by decide) (by decide) (by decide +kernel)
example := rotation_ranks (active := Demo.rotActive) (by decide) .long
example := rotation_plan (held := Demo.rotHeld) (active := Demo.rotActive) (by decide)
  Demo.rotPend_indexed Demo.rotSettings

/-- A is sold, C's entry is awaited, D goes long; E goes short, where it ranks better. -/
example : applyRotation Demo.rotActive Demo.rotHeld Demo.rotPend Demo.rotSettings =
    { sellAll := ["A"], enterLong := ["D"], enterShort := ["E"] } := by decide +kernel

example := rotation_slots (held := Demo.rotHeld) (active := Demo.rotActive) (by decide)
  Demo.rotPend_indexed (rotationRanks Demo.rotActive .long) 4 3 1 .long

/-- With one slot D is chosen and E, ranked after it, is left out. -/
example : rotationCandidates Demo.rotActive Demo.rotHeld Demo.rotPend
    (rotationRanks Demo.rotActive .long) 4 3 1 .long = ["D"] := by decide +kernel

example := rotation_targets (held := Demo.rotHeld) (active := Demo.rotActive) (by decide)
  Demo.rotPend_indexed Demo.rotSettings (by decide) (by decide)

end PyBroker
