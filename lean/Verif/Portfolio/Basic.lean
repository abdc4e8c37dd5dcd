import Verif.Portfolio.Stops
import Mathlib.Tactic.Ring
import Mathlib.Tactic.Linarith
import Mathlib.Tactic.FieldSimp
import Mathlib.Algebra.BigOperators.Group.List.Basic

/-!
# Helper lemmas: dicts of positions, loops that may raise, frame lemmas
-/

namespace PyBroker

/-! ## Books -/

theorem lookupPos_some {ps : List Position} {sym : Sym} {p : Position}
    (h : lookupPos ps sym = some p) : p ∈ ps ∧ p.symbol = sym := by
  induction ps with
  | nil => simp [lookupPos] at h
  | cons q ps ih =>
    unfold lookupPos at h
    split at h
    · cases h; exact ⟨List.mem_cons_self, by assumption⟩
    · have := ih h
      exact ⟨List.mem_cons_of_mem _ this.1, this.2⟩

theorem lookupPos_none {ps : List Position} {sym : Sym} :
    lookupPos ps sym = none ↔ ∀ p ∈ ps, p.symbol ≠ sym := by
  induction ps with
  | nil => simp [lookupPos]
  | cons q ps ih =>
    unfold lookupPos
    split
    · rename_i hq
      simp [hq]
    · rename_i hq
      simp [ih, hq]

theorem lookupPos_none' {ps : List Position} {sym : Sym} :
    lookupPos ps sym = none ↔ sym ∉ ps.map Position.symbol := by
  rw [lookupPos_none]
  simp

theorem lookupPos_of_mem {ps : List Position} (hn : (ps.map Position.symbol).Nodup)
    {p : Position} (hp : p ∈ ps) : lookupPos ps p.symbol = some p := by
  induction ps with
  | nil => simp at hp
  | cons q ps ih =>
    rw [List.map_cons, List.nodup_cons] at hn
    unfold lookupPos
    rcases List.mem_cons.1 hp with rfl | hp'
    · simp
    · have : q.symbol ≠ p.symbol := by
        intro he
        exact hn.1 (he ▸ List.mem_map_of_mem hp')
      rw [if_neg this]
      exact ih hn.2 hp'

@[simp] theorem replacePos_symbols (ps : List Position) (q : Position) :
    (replacePos ps q).map Position.symbol = ps.map Position.symbol := by
  induction ps with
  | nil => rfl
  | cons p ps ih =>
    unfold replacePos
    split
    · rename_i h; simp [h]
    · simp [ih]

@[simp] theorem replacePos_length (ps : List Position) (q : Position) :
    (replacePos ps q).length = ps.length := by
  induction ps with
  | nil => rfl
  | cons p ps ih =>
    unfold replacePos
    split
    · simp
    · simp [ih]

theorem mem_replacePos {ps : List Position} (hn : (ps.map Position.symbol).Nodup)
    {q r : Position} (h : r ∈ replacePos ps q) : r = q ∨ (r ∈ ps ∧ r.symbol ≠ q.symbol) := by
  induction ps with
  | nil => simp [replacePos] at h
  | cons p ps ih =>
    rw [List.map_cons, List.nodup_cons] at hn
    unfold replacePos at h
    split at h
    · rename_i hpq
      rcases List.mem_cons.1 h with h | h
      · exact Or.inl h
      · refine Or.inr ⟨List.mem_cons_of_mem _ h, ?_⟩
        intro he
        exact hn.1 (hpq ▸ he ▸ List.mem_map_of_mem h)
    · rename_i hpq
      rcases List.mem_cons.1 h with h | h
      · exact Or.inr ⟨h ▸ List.mem_cons_self, h ▸ hpq⟩
      · rcases ih hn.2 h with h | h
        · exact Or.inl h
        · exact Or.inr ⟨List.mem_cons_of_mem _ h.1, h.2⟩

theorem mem_replacePos_of_ne {ps : List Position} {q r : Position} (h : r ∈ ps)
    (hne : r.symbol ≠ q.symbol) : r ∈ replacePos ps q := by
  induction ps with
  | nil => simp at h
  | cons p ps ih =>
    unfold replacePos
    split
    · rename_i hpq
      rcases List.mem_cons.1 h with h | h
      · exact absurd (h ▸ hpq) hne
      · exact List.mem_cons_of_mem _ h
    · rcases List.mem_cons.1 h with h | h
      · exact h ▸ List.mem_cons_self
      · exact List.mem_cons_of_mem _ (ih h)

theorem mem_replacePos_self {ps : List Position} {q : Position}
    (h : q.symbol ∈ ps.map Position.symbol) : q ∈ replacePos ps q := by
  induction ps with
  | nil => simp at h
  | cons p ps ih =>
    unfold replacePos
    split
    · exact List.mem_cons_self
    · rename_i hne
      rw [List.map_cons, List.mem_cons] at h
      rcases h with h | h
      · exact absurd h.symm hne
      · exact List.mem_cons_of_mem _ (ih h)

theorem sum_replacePos (f : Position → ℚ) {ps : List Position} {p q : Position}
    (h : lookupPos ps q.symbol = some p) :
    ((replacePos ps q).map f).sum = (ps.map f).sum - f p + f q := by
  induction ps with
  | nil => simp [lookupPos] at h
  | cons r ps ih =>
    unfold lookupPos at h
    unfold replacePos
    split at h
    · rename_i hr
      cases h
      rw [if_pos hr]
      simp only [List.map_cons, List.sum_cons]; ring
    · rename_i hr
      rw [if_neg hr]
      simp only [List.map_cons, List.sum_cons, ih h]; ring

theorem sum_erasePos (f : Position → ℚ) {ps : List Position} {sym : Sym} {p : Position}
    (h : lookupPos ps sym = some p) :
    ((erasePos ps sym).map f).sum = (ps.map f).sum - f p := by
  induction ps with
  | nil => simp [lookupPos] at h
  | cons r ps ih =>
    unfold lookupPos at h
    unfold erasePos
    split at h
    · rename_i hr
      cases h
      rw [if_pos hr]
      simp only [List.map_cons, List.sum_cons]; ring
    · rename_i hr
      rw [if_neg hr]
      simp only [List.map_cons, List.sum_cons, ih h]; ring

theorem lookupPos_replacePos_self {ps : List Position} {q : Position}
    (h : q.symbol ∈ ps.map Position.symbol) : lookupPos (replacePos ps q) q.symbol = some q := by
  induction ps with
  | nil => simp at h
  | cons p ps ih =>
    unfold replacePos
    split
    · simp [lookupPos]
    · rename_i hne
      rw [List.map_cons, List.mem_cons] at h
      rcases h with h | h
      · exact absurd h.symm hne
      · unfold lookupPos
        rw [if_neg hne]
        exact ih h

theorem lookupPos_replacePos_ne {ps : List Position} {q : Position} {sym : Sym}
    (h : q.symbol ≠ sym) : lookupPos (replacePos ps q) sym = lookupPos ps sym := by
  induction ps with
  | nil => rfl
  | cons p ps ih =>
    unfold replacePos
    split
    · rename_i hpq
      simp [lookupPos, h, hpq]
    · simp [lookupPos, ih]

theorem lookupPos_erasePos_ne {ps : List Position} {s1 sym : Sym}
    (h : s1 ≠ sym) : lookupPos (erasePos ps s1) sym = lookupPos ps sym := by
  induction ps with
  | nil => rfl
  | cons p ps ih =>
    unfold erasePos
    split
    · rename_i hpq
      simp [lookupPos, h, hpq]
    · simp [lookupPos, ih]

theorem mem_erasePos {ps : List Position} (hn : (ps.map Position.symbol).Nodup) {sym : Sym}
    {r : Position} : r ∈ erasePos ps sym ↔ r ∈ ps ∧ r.symbol ≠ sym := by
  induction ps with
  | nil => simp [erasePos]
  | cons p ps ih =>
    rw [List.map_cons, List.nodup_cons] at hn
    unfold erasePos
    split
    · rename_i hp
      constructor
      · intro h
        refine ⟨List.mem_cons_of_mem _ h, ?_⟩
        intro he
        exact hn.1 (hp ▸ he ▸ List.mem_map_of_mem h)
      · rintro ⟨h, hne⟩
        rcases List.mem_cons.1 h with h | h
        · exact absurd (h ▸ hp) hne
        · exact h
    · rename_i hp
      rw [List.mem_cons, ih hn.2]
      constructor
      · rintro (h | h)
        · exact ⟨h ▸ List.mem_cons_self, h ▸ hp⟩
        · exact ⟨List.mem_cons_of_mem _ h.1, h.2⟩
      · rintro ⟨h, hne⟩
        rcases List.mem_cons.1 h with h | h
        · exact Or.inl h
        · exact Or.inr ⟨h, hne⟩

theorem erasePos_sublist (ps : List Position) (sym : Sym) : (erasePos ps sym).Sublist ps := by
  induction ps with
  | nil => exact List.Sublist.refl _
  | cons p ps ih =>
    unfold erasePos
    split
    · exact List.sublist_cons_self _ _
    · exact ih.cons_cons _

theorem lookupPos_erasePos_self {ps : List Position} (hn : (ps.map Position.symbol).Nodup)
    (sym : Sym) : lookupPos (erasePos ps sym) sym = none := by
  rw [lookupPos_none]
  intro p hp
  exact ((mem_erasePos hn).1 hp).2

theorem erasePos_replacePos (ps : List Position) (q : Position) :
    erasePos (replacePos ps q) q.symbol = erasePos ps q.symbol := by
  induction ps with
  | nil => rfl
  | cons p ps ih =>
    unfold replacePos
    split
    · rename_i h
      simp [erasePos, h]
    · rename_i h
      simp [erasePos, h, ih]

theorem replacePos_replacePos (ps : List Position) (q q' : Position)
    (h : q.symbol = q'.symbol) : replacePos (replacePos ps q) q' = replacePos ps q' := by
  induction ps with
  | nil => rfl
  | cons p ps ih =>
    by_cases hp : p.symbol = q.symbol
    · simp [replacePos, hp, h]
    · have hp' : p.symbol ≠ q'.symbol := fun he => hp (he.trans h.symm)
      simp [replacePos, hp, hp', ih]

theorem replacePos_self {ps : List Position} {p : Position}
    (h : lookupPos ps p.symbol = some p) : replacePos ps p = ps := by
  induction ps with
  | nil => rfl
  | cons q ps ih =>
    unfold lookupPos at h
    unfold replacePos
    split at h
    · rename_i hq; cases h; rw [if_pos rfl]
    · rename_i hq; rw [if_neg hq, ih h]

/-! ## Book accessors -/

@[simp] theorem book_setBook (s : Portfolio) (pt : PosType) (ps : List Position) :
    (s.setBook pt ps).book pt = ps := by cases pt <;> rfl

theorem book_setBook_ne (s : Portfolio) {pt pt' : PosType} (ps : List Position) (h : pt ≠ pt') :
    (s.setBook pt ps).book pt' = s.book pt' := by
  cases pt <;> cases pt' <;> first | rfl | exact absurd rfl h

@[simp] theorem setBook_setBook (s : Portfolio) (pt : PosType) (ps qs : List Position) :
    (s.setBook pt ps).setBook pt qs = s.setBook pt qs := by cases pt <;> rfl

@[simp] theorem setBook_book (s : Portfolio) (pt : PosType) :
    s.setBook pt (s.book pt) = s := by cases pt <;> rfl

/-! ## Loops that may raise -/

/-- Invariant rule for `foldE`. -/
theorem foldE_inv {α β : Type} {f : β → α → Except Err β} (P : β → Prop)
    (hstep : ∀ b a b', P b → f b a = .ok b' → P b') :
    ∀ (as : List α) (b b' : β), P b → foldE f b as = .ok b' → P b' := by
  intro as
  induction as with
  | nil =>
    intro b b' hb h
    cases h
    exact hb
  | cons a as ih =>
    intro b b' hb h
    unfold foldE at h
    split at h
    · cases h
    · rename_i b1 hb1
      exact ih b1 b' (hstep b a b1 hb hb1) h

theorem foldE_append {α β : Type} {f : β → α → Except Err β} (as bs : List α) (b : β) :
    foldE f b (as ++ bs) =
      (match foldE f b as with
        | .error e => .error e
        | .ok b' => foldE f b' bs) := by
  induction as generalizing b with
  | nil => rfl
  | cons a as ih =>
    simp only [List.cons_append, foldE]
    cases h : f b a with
    | error e => rfl
    | ok b1 => exact ih b1

/-! ## Frame lemmas -/

/-- `a`, `b` are what the memoised market values may become by reading them. -/
def Memo (s : Portfolio) (a b : Option ℚ) : Prop :=
  (a = s.cachedLongMv ∨ a = some (sumMarked s.longs)) ∧
    (b = s.cachedShortMv ∨ b = some (sumMarked s.shorts))

theorem Memo.refl (s : Portfolio) : Memo s s.cachedLongMv s.cachedShortMv :=
  ⟨Or.inl rfl, Or.inl rfl⟩

theorem longMarketValue_frame (s : Portfolio) :
    ∃ a, (a = s.cachedLongMv ∨ a = some (sumMarked s.longs)) ∧
      s.longMarketValue.2 = { s with cachedLongMv := a } := by
  unfold Portfolio.longMarketValue
  split
  · exact ⟨s.cachedLongMv, Or.inl rfl, rfl⟩
  · exact ⟨_, Or.inr rfl, rfl⟩

theorem shortMarketValue_frame (s : Portfolio) :
    ∃ a, (a = s.cachedShortMv ∨ a = some (sumMarked s.shorts)) ∧
      s.shortMarketValue.2 = { s with cachedShortMv := a } := by
  unfold Portfolio.shortMarketValue
  split
  · exact ⟨s.cachedShortMv, Or.inl rfl, rfl⟩
  · exact ⟨_, Or.inr rfl, rfl⟩

theorem liveMarketValue_frame (cfg : Config) (s : Portfolio) :
    ∃ a b, Memo s a b ∧
      (s.liveMarketValue cfg).2 = { s with cachedLongMv := a, cachedShortMv := b } := by
  unfold Portfolio.liveMarketValue
  obtain ⟨a, hma, ha⟩ := longMarketValue_frame s
  obtain ⟨b, hmb, hb⟩ := shortMarketValue_frame s.longMarketValue.2
  refine ⟨a, b, ⟨hma, ?_⟩, ?_⟩
  · rw [ha] at hmb; exact hmb
  · simp only
    rw [hb, ha]

theorem availableBuyingPower_frame (cfg : Config) (s : Portfolio) :
    ∃ a b, Memo s a b ∧ (s.availableBuyingPower cfg).2 =
      { s with cachedLongMv := a, cachedShortMv := b } := by
  unfold Portfolio.availableBuyingPower
  split
  · exact ⟨s.cachedLongMv, s.cachedShortMv, Memo.refl s, rfl⟩
  · obtain ⟨a, hma, ha⟩ := longMarketValue_frame s
    obtain ⟨b, hmb, hb⟩ := shortMarketValue_frame s.longMarketValue.2
    obtain ⟨a', b', hmc, hc⟩ := liveMarketValue_frame cfg s.longMarketValue.2.shortMarketValue.2
    refine ⟨a', b', ?_, ?_⟩
    · rw [hb, ha] at hmc
      rw [ha] at hmb
      obtain ⟨h1, h2⟩ := hmc
      constructor
      · rcases h1 with h1 | h1
        · rw [h1]; exact hma
        · exact Or.inr h1
      · rcases h2 with h2 | h2
        · rw [h2]; exact hmb
        · exact Or.inr h2
    · simp only
      rw [hc, hb, ha]

theorem clampShares_frame (cfg : Config) (s : Portfolio) (sym : Sym) (fill shares : ℚ)
    (side : Side) :
    ∃ a b, Memo s a b ∧ (s.clampShares cfg sym fill shares side).2 =
      { s with cachedLongMv := a, cachedShortMv := b } := by
  obtain ⟨a, b, hm, h⟩ := availableBuyingPower_frame cfg s
  refine ⟨a, b, hm, ?_⟩
  unfold Portfolio.clampShares
  simp only
  split
  · exact h
  · split
    · split
      · split <;> exact h
      · exact h
    · exact h

theorem removeStopData_frame (l : List Stop) (s : Portfolio) :
    ∃ sd ac, s.removeStopData l = { s with stopData := sd, active := ac } := by
  induction l generalizing s with
  | nil => exact ⟨s.stopData, s.active, rfl⟩
  | cons st l ih =>
    unfold Portfolio.removeStopData
    split
    · exact ih s
    · obtain ⟨sd, ac, h⟩ := ih { s with stopData := eraseStop s.stopData st.id,
                                          active := activeRemove s.active st.symbol st.id }
      exact ⟨sd, ac, h⟩

theorem addStops_frame {s : Portfolio} {eid : Nat} {price : ℚ} {stops : List Stop}
    {es : List Stop} {s' : Portfolio} (h : addStops s eid price stops = .ok (es, s')) :
    ∃ sd ac, s' = { s with stopData := sd, active := ac } := by
  have key := foldE_inv (f := addStopStep eid price)
    (fun acc => ∃ sd ac, acc.2 = { s with stopData := sd, active := ac }) ?_
    _ ([], s) (es, s') ⟨s.stopData, s.active, rfl⟩ h
  · exact key
  · rintro ⟨l, b⟩ st ⟨l', b'⟩ ⟨sd, ac, hb⟩ hs
    simp only at hb ⊢
    unfold addStopStep at hs
    split at hs
    · cases hs
    · split at hs
      · cases hs; exact ⟨sd, ac, hb⟩
      · split at hs
        · cases hs
        · cases hs
          simp only [hb]
          exact ⟨_, _, rfl⟩

end PyBroker
