import Verif.Props.CompressBars

/-!
# Compressing in steps (C138)
-/

namespace PyBroker

/-! ## Specification -/

namespace Spec

/-- What is known of the numbers of months and years: a month is made of days and a year of twelve
months. -/
structure Months (mo ye : Date → Int) : Prop where
  day : ∀ d d', Int.fdiv d dayNs = Int.fdiv d' dayNs → mo d = mo d'
  year : ∀ d, ye d = Int.fdiv (mo d) 12

/-- The calendar intervals that are made of whole others. -/
inductive MadeOf : Calendar → Calendar → Prop where
  | days (c : Calendar) : MadeOf .daily c
  | quarters : MadeOf .monthly .quarterly
  | months : MadeOf .monthly .yearly
  | years : MadeOf .quarterly .yearly

/-- Compressing to the first interval and then to the second should be compressing to the third. -/
inductive Steps : Iv → Iv → Iv → Prop where
  | counts (n m : Int) : Steps (.num n) (.num m) (.num (n * m))
  | calendars {a b : Calendar} (h : MadeOf a b) :
      Steps (.str (calendarName a).toList) (.str (calendarName b).toList)
        (.str (calendarName b).toList)
  | durations {s s' d d' : Str} {a b : Nat} (hs : normalizeDuration s = some d)
      (hd : toSeconds d = some a) (hs' : normalizeDuration s' = some d') (hd' : toSeconds d' = some b)
      (h : a ∣ b) : Steps (.str s) (.str s') (.str s')
  | days {s d : Str} {a : Nat} (hs : normalizeDuration s = some d) (hd : toSeconds d = some a)
      (h : a ∣ 86400) (c : Calendar) :
      Steps (.str s) (.str (calendarName c).toList) (.str (calendarName c).toList)

/-- A bar without its volume-weighted price. -/
def noVwap (b : IBar) : IBar := { b with vwap := none }

end Spec

open PyBroker.Spec

/-! ## Groups are determined -/

theorem binGroups_unique {bin : Date → Int} : ∀ {G G' : List (List IBar)} {bars : List IBar},
    BinGroups bin bars G → BinGroups bin bars G' → G = G' := by
  have tail : ∀ {g : List IBar} {r : List (List IBar)} {bars : List IBar},
      BinGroups bin bars (g :: r) → BinGroups bin r.flatten r := by
    intro g r bars h
    exact ⟨rfl, fun x hx => h.nonempty x (List.mem_cons_of_mem _ hx),
      fun x hx => h.same x (List.mem_cons_of_mem _ hx), h.differ.tail⟩
  -- a group cannot be a proper beginning of the other
  have key : ∀ {g a : List IBar} {r r' : List (List IBar)} {bars : List IBar},
      BinGroups bin bars (g :: r) → BinGroups bin bars ((g ++ a) :: r') → a = [] := by
    intro g a r r' bars h h'
    rcases a with _ | ⟨x, a⟩
    · rfl
    · exfalso
      have e : g ++ r.flatten = g ++ (x :: a) ++ r'.flatten := by
        have h1 := h.flat
        have h2 := h'.flat
        rw [List.flatten_cons] at h1 h2
        rw [h1, h2]
      rw [List.append_assoc] at e
      have e2 := List.append_cancel_left e
      rcases r with _ | ⟨k, r⟩
      · simp at e2
      · have hk : k ≠ [] := h.nonempty k (by simp)
        rcases k with _ | ⟨y, k⟩
        · exact hk rfl
        · rw [List.flatten_cons, List.cons_append, List.cons_append] at e2
          have hxy : y = x := (List.cons.inj e2).1
          subst hxy
          have hg : g ≠ [] := h.nonempty g List.mem_cons_self
          rcases g with _ | ⟨z, g⟩
          · exact hg rfl
          · have h3 := h'.same _ List.mem_cons_self z (by simp) y (by simp)
            have h4 := h.differ
            have := (List.isChain_cons_cons.1 h4).1 z (by simp) y (by simp)
            exact this h3
  intro G
  induction G with
  | nil =>
    intro G' bars h h'
    have hb : bars = [] := h.flat.symm
    subst hb
    rcases G' with _ | ⟨g, r⟩
    · rfl
    · have := h'.flat
      rw [List.flatten_cons] at this
      exact absurd (List.append_eq_nil_iff.1 this).1 (h'.nonempty g List.mem_cons_self)
  | cons g r ih =>
    intro G' bars h h'
    rcases G' with _ | ⟨g', r'⟩
    · have hb : bars = [] := h'.flat.symm
      subst hb
      have := h.flat
      rw [List.flatten_cons] at this
      exact absurd (List.append_eq_nil_iff.1 this).1 (h.nonempty g List.mem_cons_self)
    · have e : g ++ r.flatten = g' ++ r'.flatten := by
        have h1 := h.flat
        have h2 := h'.flat
        rw [List.flatten_cons] at h1 h2
        rw [h1, h2]
      have hgg : g = g' := by
        rcases List.append_eq_append_iff.1 e with ⟨a, e1, e2⟩ | ⟨a, e1, e2⟩
        · subst e1
          rw [key h h', List.append_nil]
        · subst e1
          rw [key h' h, List.append_nil]
      subst hgg
      have e2 := List.append_cancel_left e
      have h3 := tail h
      have h4 := tail h'
      rw [← e2] at h4
      rw [ih h3 h4]

theorem countGroups_unique {k : Nat} : ∀ {G G' : List (List IBar)} {bars : List IBar},
    CountGroups k bars G → CountGroups k bars G' → G = G' := by
  have tail : ∀ {g : List IBar} {r : List (List IBar)} {bars : List IBar},
      CountGroups k bars (g :: r) → CountGroups k r.flatten r := by
    intro g r bars h
    refine ⟨rfl, fun x hx => h.nonempty x (List.mem_cons_of_mem _ hx), ?_,
      fun x hx => h.last x (List.mem_cons_of_mem _ hx)⟩
    intro x hx
    rcases r with _ | ⟨y, r⟩
    · cases hx
    · exact h.full x (by rw [List.dropLast_cons₂]; exact List.mem_cons_of_mem _ hx)
  have key : ∀ {g a : List IBar} {r r' : List (List IBar)} {bars : List IBar},
      CountGroups k bars (g :: r) → CountGroups k bars ((g ++ a) :: r') → a = [] := by
    intro g a r r' bars h h'
    rcases a with _ | ⟨x, a⟩
    · rfl
    · exfalso
      have e : g ++ r.flatten = g ++ (x :: a) ++ r'.flatten := by
        have h1 := h.flat
        have h2 := h'.flat
        rw [List.flatten_cons] at h1 h2
        rw [h1, h2]
      rw [List.append_assoc] at e
      have e2 := List.append_cancel_left e
      rcases r with _ | ⟨y, r⟩
      · simp at e2
      · have h1 := h.full g (by rw [List.dropLast_cons₂]; exact List.mem_cons_self)
        have h2 := h'.last _ List.mem_cons_self
        rw [List.length_append, h1] at h2
        simp at h2
  intro G
  induction G with
  | nil =>
    intro G' bars h h'
    have hb : bars = [] := h.flat.symm
    subst hb
    rcases G' with _ | ⟨g, r⟩
    · rfl
    · have := h'.flat
      rw [List.flatten_cons] at this
      exact absurd (List.append_eq_nil_iff.1 this).1 (h'.nonempty g List.mem_cons_self)
  | cons g r ih =>
    intro G' bars h h'
    rcases G' with _ | ⟨g', r'⟩
    · have hb : bars = [] := h'.flat.symm
      subst hb
      have := h.flat
      rw [List.flatten_cons] at this
      exact absurd (List.append_eq_nil_iff.1 this).1 (h.nonempty g List.mem_cons_self)
    · have e : g ++ r.flatten = g' ++ r'.flatten := by
        have h1 := h.flat
        have h2 := h'.flat
        rw [List.flatten_cons] at h1 h2
        rw [h1, h2]
      have hgg : g = g' := by
        rcases List.append_eq_append_iff.1 e with ⟨a, e1, e2⟩ | ⟨a, e1, e2⟩
        · subst e1
          rw [key h h', List.append_nil]
        · subst e1
          rw [key h' h, List.append_nil]
      subst hgg
      have e2 := List.append_cancel_left e
      have h3 := tail h
      have h4 := tail h'
      rw [← e2] at h4
      rw [ih h3 h4]

/-! ## Groups of groups -/

/-- The aggregate of a group, of which there is one unless the group is empty. -/
def aggD (g : List IBar) : IBar :=
  (aggOf g).getD ⟨0, none, none, none, none, none, none, fun _ => none⟩

theorem aggD_some {g : List IBar} (hg : g ≠ []) : aggOf g = some (aggD g) := by
  obtain ⟨c, h, _⟩ := aggOf_some hg
  unfold aggD
  rw [h]
  rfl

theorem aggD_to {g : List IBar} (hg : g ≠ []) : CompressesTo g (aggD g) := by
  obtain ⟨c, h, hc⟩ := aggOf_to hg
  have : aggD g = c := by
    unfold aggD
    rw [h]
    rfl
  rw [this]
  exact hc

theorem filterMap_aggD {G : List (List IBar)} (h : ∀ g ∈ G, g ≠ []) :
    G.filterMap aggOf = G.map aggD := by
  rw [← List.filterMap_eq_map]
  apply List.filterMap_congr
  intro g hg
  exact aggD_some (h g hg)

/-- Groups of images are images of groups. -/
theorem unmap_groups {α β : Type} (f : α → β) : ∀ (C : List (List β)) (F : List α),
    C.flatten = F.map f → ∃ B : List (List α), B.flatten = F ∧ C = B.map (List.map f) := by
  intro C
  induction C with
  | nil =>
    intro F h
    have : F = [] := by
      rw [List.flatten_nil] at h
      exact List.map_eq_nil_iff.1 h.symm
    exact ⟨[], by rw [this]; rfl, rfl⟩
  | cons c C ih =>
    intro F h
    rw [List.flatten_cons] at h
    obtain ⟨F1, F2, rfl, h1, h2⟩ := List.map_eq_append_iff.1 h.symm
    obtain ⟨B, hB, hC⟩ := ih F2 h2.symm
    exact ⟨F1 :: B, by rw [List.flatten_cons, hB], by rw [List.map_cons, h1, hC]⟩

theorem mem_flatten_of {α : Type} {B : List (List α)} {b : List α} {x : α} (hb : b ∈ B) (hx : x ∈ b) :
    x ∈ B.flatten := List.mem_flatten.2 ⟨b, hb, hx⟩

theorem aggD_date {g : List IBar} (hg : g ≠ []) : ∃ x ∈ g, (aggD g).date = x.date := by
  have h := (aggD_to hg).1.date
  rcases hl : g.getLast? with _ | x
  · rw [hl] at h
    cases h
  · rw [hl] at h
    exact ⟨x, List.mem_of_getLast? hl, (Option.some.inj h).symm⟩

/-- The groups of the coarser bins of compressed bars, put together, are those of the bars. -/
theorem bin_groups_of_groups {fine coarse : Date → Int}
    (hr : ∀ d d', fine d = fine d' → coarse d = coarse d') {bars : List IBar} {F : List (List IBar)}
    (hF : BinGroups fine bars F) {B : List (List (List IBar))} (hB : B.flatten = F)
    (hC : BinGroups coarse (F.map aggD) (B.map (List.map aggD))) :
    BinGroups coarse bars (B.map List.flatten) := by
  have hne : ∀ b ∈ B, ∀ g ∈ b, g ≠ [] := fun b hb g hg => hF.nonempty g (hB ▸ mem_flatten_of hb hg)
  have hbin : ∀ b ∈ B, ∀ g ∈ b, ∀ x ∈ g, coarse x.date = coarse (aggD g).date := by
    intro b hb g hg x hx
    obtain ⟨y, hy, e⟩ := aggD_date (hne b hb g hg)
    rw [e]
    exact hr _ _ (hF.same g (hB ▸ mem_flatten_of hb hg) x hx y hy)
  refine ⟨?_, ?_, ?_, ?_⟩
  · rw [← hF.flat, ← hB, List.flatten_flatten]
  · intro g hg
    obtain ⟨b, hb, rfl⟩ := List.mem_map.1 hg
    have h1 := hC.nonempty _ (List.mem_map_of_mem hb)
    rcases b with _ | ⟨y, b⟩
    · exact absurd rfl h1
    · intro h
      rw [List.flatten_cons] at h
      exact hne _ hb y List.mem_cons_self (List.append_eq_nil_iff.1 h).1
  · intro g hg x hx y hy
    obtain ⟨b, hb, rfl⟩ := List.mem_map.1 hg
    obtain ⟨p, hp, hxp⟩ := List.mem_flatten.1 hx
    obtain ⟨q, hq, hyq⟩ := List.mem_flatten.1 hy
    rw [hbin b hb p hp x hxp, hbin b hb q hq y hyq]
    exact hC.same _ (List.mem_map_of_mem hb) _ (List.mem_map_of_mem hp) _ (List.mem_map_of_mem hq)
  · have h1 := hC.differ
    rw [List.isChain_map] at h1
    rw [List.isChain_map]
    have h2 : ∀ {L : List (List (List IBar))}, (∀ b ∈ L, b ∈ B) →
        L.IsChain (fun a b => ∀ x ∈ a.map aggD, ∀ y ∈ b.map aggD, coarse x.date ≠ coarse y.date) →
        L.IsChain (fun a b => ∀ x ∈ a.flatten, ∀ y ∈ b.flatten, coarse x.date ≠ coarse y.date) := by
      intro L
      induction L with
      | nil => intro _ _; exact List.isChain_nil
      | cons a L ih =>
        intro hm hch
        rcases L with _ | ⟨b, L⟩
        · exact List.isChain_singleton _
        · rw [List.isChain_cons_cons] at hch ⊢
          refine ⟨?_, ih (fun c hc => hm c (List.mem_cons_of_mem _ hc)) hch.2⟩
          intro x hx y hy
          obtain ⟨p, hp, hxp⟩ := List.mem_flatten.1 hx
          obtain ⟨q, hq, hyq⟩ := List.mem_flatten.1 hy
          rw [hbin a (hm a (by simp)) p hp x hxp, hbin b (hm b (by simp)) q hq y hyq]
          exact hch.1 _ (List.mem_map_of_mem hp) _ (List.mem_map_of_mem hq)
    exact h2 (fun _ h => h) h1

theorem sum_len {G : List (List IBar)} {n : Nat} (h : ∀ g ∈ G, g.length = n) :
    G.flatten.length = G.length * n := by
  induction G with
  | nil => simp
  | cons g G ih =>
    rw [List.flatten_cons, List.length_append, h g List.mem_cons_self,
      ih (fun x hx => h x (List.mem_cons_of_mem _ hx)), List.length_cons, Nat.succ_mul]
    omega

theorem sum_len_le {G : List (List IBar)} {n : Nat} (h : ∀ g ∈ G, g.length ≤ n) :
    G.flatten.length ≤ G.length * n := by
  induction G with
  | nil => simp
  | cons g G ih =>
    have h1 := h g List.mem_cons_self
    have h2 := ih (fun x hx => h x (List.mem_cons_of_mem _ hx))
    rw [List.flatten_cons, List.length_append, List.length_cons, Nat.succ_mul]
    omega

/-- Groups of `m` groups of `n` bars, put together, are groups of `n * m` bars. -/
theorem count_groups_of_groups {n m : Nat} {bars : List IBar} {F : List (List IBar)}
    (hF : CountGroups n bars F) {B : List (List (List IBar))} (hB : B.flatten = F)
    (hC : CountGroups m (F.map aggD) (B.map (List.map aggD))) :
    CountGroups (n * m) bars (B.map List.flatten) := by
  have hne : ∀ b ∈ B, ∀ g ∈ b, g ≠ [] := fun b hb g hg => hF.nonempty g (hB ▸ mem_flatten_of hb hg)
  have hbne : ∀ b ∈ B, b ≠ [] := by
    intro b hb h
    exact hC.nonempty _ (List.mem_map_of_mem hb) (by rw [h]; rfl)
  refine ⟨?_, ?_, ?_, ?_⟩
  · rw [← hF.flat, ← hB, List.flatten_flatten]
  · intro g hg
    obtain ⟨b, hb, rfl⟩ := List.mem_map.1 hg
    rcases b with _ | ⟨y, b⟩
    · exact absurd rfl (hbne _ hb)
    · intro h
      rw [List.flatten_cons] at h
      exact hne _ hb y List.mem_cons_self (List.append_eq_nil_iff.1 h).1
  · intro g hg
    rw [← List.map_dropLast] at hg
    obtain ⟨b, hb, rfl⟩ := List.mem_map.1 hg
    have h1 : b.length = m := by
      have := hC.full (b.map aggD) (by rw [← List.map_dropLast]; exact List.mem_map_of_mem hb)
      simpa using this
    rcases hBl : B.getLast? with _ | z
    · rw [List.getLast?_eq_none_iff] at hBl
      rw [hBl] at hb
      cases hb
    · have hz : z ∈ B := List.mem_of_getLast? hBl
      have hsplit : B.dropLast ++ [z] = B := List.dropLast_append_getLast? z hBl
      have hdrop : F.dropLast = B.dropLast.flatten ++ z.dropLast := by
        rw [← hB]
        conv_lhs => rw [← hsplit]
        rw [List.flatten_append, List.flatten_singleton,
          List.dropLast_append_of_ne_nil (hbne z hz)]
      have h2 : ∀ g ∈ b, g.length = n := by
        intro g hg
        apply hF.full
        rw [hdrop]
        exact List.mem_append_left _ (mem_flatten_of hb hg)
      rw [sum_len h2, h1, Nat.mul_comm]
  · intro g hg
    obtain ⟨b, hb, rfl⟩ := List.mem_map.1 hg
    have h1 : b.length ≤ m := by
      have := hC.last (b.map aggD) (List.mem_map_of_mem hb)
      simpa using this
    have h2 := sum_len_le (G := b) (n := n) (fun g hg => hF.last g (hB ▸ mem_flatten_of hb hg))
    calc b.flatten.length ≤ b.length * n := h2
      _ ≤ m * n := Nat.mul_le_mul_right _ h1
      _ = n * m := Nat.mul_comm _ _

/-! ## Aggregates of aggregates -/

theorem cellSum_cons (x : Cell) (l : List Cell) : cellSum (x :: l) = cellAdd x (cellSum l) := by
  unfold cellSum
  rcases x with _ | x
  · rw [if_neg (fun h => h none List.mem_cons_self rfl)]
    rfl
  · by_cases h : ∀ y ∈ l, y ≠ none
    · rw [if_pos h, if_pos]
      · simp [cellAdd]
      · intro y hy
        rcases List.mem_cons.1 hy with rfl | hy
        · simp
        · exact h y hy
    · rw [if_neg h, if_neg (fun h' => h (fun y hy => h' y (List.mem_cons_of_mem _ hy)))]
      rfl

theorem cellAdd_assoc (a b c : Cell) : cellAdd (cellAdd a b) c = cellAdd a (cellAdd b c) := by
  cases a <;> cases b <;> cases c <;> simp [cellAdd, add_assoc]

theorem cellSum_append (a b : List Cell) : cellSum (a ++ b) = cellAdd (cellSum a) (cellSum b) := by
  induction a with
  | nil =>
    rw [List.nil_append]
    have : cellSum [] = some 0 := by simp [cellSum]
    rw [this]
    cases cellSum b <;> simp [cellAdd]
  | cons x a ih => rw [List.cons_append, cellSum_cons, cellSum_cons, ih, cellAdd_assoc]

/-- A sum over groups is the sum of the groups' sums. -/
theorem cellSum_flatten (f : IBar → Cell) (B : List (List IBar)) :
    cellSum (B.flatten.map f) = cellSum (B.map (fun g => cellSum (g.map f))) := by
  induction B with
  | nil => rfl
  | cons g B ih => rw [List.flatten_cons, List.map_append, cellSum_append, ih, List.map_cons, cellSum_cons]

theorem maxKnown_unique {l : List Cell} {a b : Cell} (ha : IsMaxKnown l a) (hb : IsMaxKnown l b) :
    a = b := by
  unfold IsMaxKnown at ha hb
  rcases a with _ | a <;> rcases b with _ | b
  · rfl
  · exact absurd (ha _ hb.1) (by simp)
  · exact absurd (hb _ ha.1) (by simp)
  · exact congrArg some (le_antisymm (hb.2 a ha.1) (ha.2 b hb.1))

theorem minKnown_unique {l : List Cell} {a b : Cell} (ha : IsMinKnown l a) (hb : IsMinKnown l b) :
    a = b := by
  unfold IsMinKnown at ha hb
  rcases a with _ | a <;> rcases b with _ | b
  · rfl
  · exact absurd (ha _ hb.1) (by simp)
  · exact absurd (hb _ ha.1) (by simp)
  · exact congrArg some (le_antisymm (ha.2 b hb.1) (hb.2 a ha.1))

/-- The largest of the largest values is the largest. -/
theorem maxKnown_flatten {f : IBar → Cell} {B : List (List IBar)} {m : List IBar → Cell} {h : Cell}
    (hm : ∀ g ∈ B, IsMaxKnown (g.map f) (m g)) (hh : IsMaxKnown (B.map m) h) :
    IsMaxKnown (B.flatten.map f) h := by
  unfold IsMaxKnown at hh ⊢
  rcases h with _ | h
  · intro x hx
    obtain ⟨b, hb, rfl⟩ := List.mem_map.1 hx
    obtain ⟨g, hg, hbg⟩ := List.mem_flatten.1 hb
    have h1 := hm g hg
    rw [hh (m g) (List.mem_map_of_mem hg)] at h1
    exact h1 _ (List.mem_map_of_mem hbg)
  · obtain ⟨h1, h2⟩ := hh
    constructor
    · obtain ⟨g, hg, e⟩ := List.mem_map.1 h1
      have h3 := hm g hg
      rw [e] at h3
      obtain ⟨b, hb, hfb⟩ := List.mem_map.1 h3.1
      exact List.mem_map.2 ⟨b, mem_flatten_of hg hb, hfb⟩
    · intro x hx
      obtain ⟨b, hb, e⟩ := List.mem_map.1 hx
      obtain ⟨g, hg, hbg⟩ := List.mem_flatten.1 hb
      have h3 := hm g hg
      have hmem : some x ∈ g.map f := List.mem_map.2 ⟨b, hbg, e⟩
      rcases hmg : m g with _ | y
      · rw [hmg] at h3
        exact absurd (h3 _ hmem) (by simp)
      · rw [hmg] at h3
        exact le_trans (h3.2 x hmem) (h2 y (by rw [← hmg]; exact List.mem_map_of_mem hg))

theorem minKnown_flatten {f : IBar → Cell} {B : List (List IBar)} {m : List IBar → Cell} {h : Cell}
    (hm : ∀ g ∈ B, IsMinKnown (g.map f) (m g)) (hh : IsMinKnown (B.map m) h) :
    IsMinKnown (B.flatten.map f) h := by
  unfold IsMinKnown at hh ⊢
  rcases h with _ | h
  · intro x hx
    obtain ⟨b, hb, rfl⟩ := List.mem_map.1 hx
    obtain ⟨g, hg, hbg⟩ := List.mem_flatten.1 hb
    have h1 := hm g hg
    rw [hh (m g) (List.mem_map_of_mem hg)] at h1
    exact h1 _ (List.mem_map_of_mem hbg)
  · obtain ⟨h1, h2⟩ := hh
    constructor
    · obtain ⟨g, hg, e⟩ := List.mem_map.1 h1
      have h3 := hm g hg
      rw [e] at h3
      obtain ⟨b, hb, hfb⟩ := List.mem_map.1 h3.1
      exact List.mem_map.2 ⟨b, mem_flatten_of hg hb, hfb⟩
    · intro x hx
      obtain ⟨b, hb, e⟩ := List.mem_map.1 hx
      obtain ⟨g, hg, hbg⟩ := List.mem_flatten.1 hb
      have h3 := hm g hg
      have hmem : some x ∈ g.map f := List.mem_map.2 ⟨b, hbg, e⟩
      rcases hmg : m g with _ | y
      · rw [hmg] at h3
        exact absurd (h3 _ hmem) (by simp)
      · rw [hmg] at h3
        exact le_trans (h2 y (by rw [← hmg]; exact List.mem_map_of_mem hg)) (h3.2 x hmem)

theorem head_flatten {B : List (List IBar)} (hne : ∀ g ∈ B, g ≠ []) :
    B.flatten.head? = B.head?.bind List.head? := by
  rcases B with _ | ⟨g, B⟩
  · rfl
  · rcases g with _ | ⟨x, g⟩
    · exact absurd rfl (hne _ List.mem_cons_self)
    · rfl

theorem last_flatten {B : List (List IBar)} (hne : ∀ g ∈ B, g ≠ []) :
    B.flatten.getLast? = B.getLast?.bind List.getLast? := by
  induction B with
  | nil => rfl
  | cons g B ih =>
    have h1 := ih (fun x hx => hne x (List.mem_cons_of_mem _ hx))
    rw [List.flatten_cons, List.getLast?_append, h1]
    rcases B with _ | ⟨k, B⟩
    · rfl
    · rw [List.getLast?_cons_cons]
      rcases hl : (k :: B).getLast? with _ | z
      · rw [List.getLast?_eq_none_iff] at hl
        cases hl
      · have hz : z ∈ k :: B := List.mem_of_getLast? hl
        simp only [Option.bind_some]
        rcases hzl : z.getLast? with _ | w
        · rw [List.getLast?_eq_none_iff] at hzl
          exact absurd hzl (hne z (List.mem_cons_of_mem _ hz))
        · rfl

/-- The bar of bars is the bar of all their base bars, apart from the volume-weighted price. -/
theorem agg_flatten {B : List (List IBar)} (hB : B ≠ []) (hne : ∀ g ∈ B, g ≠ []) :
    noVwap (aggD (B.map aggD)) = noVwap (aggD B.flatten) := by
  have hflat : B.flatten ≠ [] := by
    rcases B with _ | ⟨g, B⟩
    · exact absurd rfl hB
    · intro h
      exact hne g List.mem_cons_self (List.append_eq_nil_iff.1 h).1
  have h1 := (aggD_to (g := B.map aggD) (by simpa using hB)).1
  have h2 := (aggD_to hflat).1
  have hlast : ∀ {β : Type} (f : IBar → β), (∀ g ∈ B, g.getLast?.map f = some (f (aggD g))) →
      (B.map aggD).getLast?.map f = B.flatten.getLast?.map f := by
    intro β f hf
    rw [last_flatten hne, List.getLast?_map]
    rcases hl : B.getLast? with _ | z
    · rfl
    · simp only [Option.map_some, Option.bind_some]
      rw [hf z (List.mem_of_getLast? hl)]
  have hopn : (aggD (B.map aggD)).opn = (aggD B.flatten).opn := by
    have e1 := h1.opn
    have e2 := h2.opn
    rw [head_flatten hne] at e2
    rcases B with _ | ⟨g, B⟩
    · exact absurd rfl hB
    · simp only [List.map_cons, List.head?_cons, Option.map_some, Option.some.injEq,
        Option.bind_some] at e1 e2
      rw [(aggD_to (hne g List.mem_cons_self)).1.opn, Option.some.injEq] at e2
      exact e1.symm.trans e2
  have hcl : (aggD (B.map aggD)).close = (aggD B.flatten).close := by
    have := hlast IBar.close (fun g hg => (aggD_to (hne g hg)).1.close)
    rw [h1.close, h2.close] at this
    exact Option.some.inj this
  have hdt : (aggD (B.map aggD)).date = (aggD B.flatten).date := by
    have := hlast IBar.date (fun g hg => (aggD_to (hne g hg)).1.date)
    rw [h1.date, h2.date] at this
    exact Option.some.inj this
  have hcu : (aggD (B.map aggD)).custom = (aggD B.flatten).custom := by
    have := hlast IBar.custom (fun g hg => (aggD_to (hne g hg)).1.custom)
    rw [h1.custom, h2.custom] at this
    exact Option.some.inj this
  have hhi : (aggD (B.map aggD)).high = (aggD B.flatten).high := by
    refine maxKnown_unique (maxKnown_flatten (f := IBar.high) (m := fun g => (aggD g).high)
      (fun g hg => (aggD_to (hne g hg)).1.high) ?_) h2.high
    have := h1.high
    rw [List.map_map] at this
    exact this
  have hlo : (aggD (B.map aggD)).low = (aggD B.flatten).low := by
    refine minKnown_unique (minKnown_flatten (f := IBar.low) (m := fun g => (aggD g).low)
      (fun g hg => (aggD_to (hne g hg)).1.low) ?_) h2.low
    have := h1.low
    rw [List.map_map] at this
    exact this
  have hvo : (aggD (B.map aggD)).volume = (aggD B.flatten).volume := by
    rw [h1.volume, h2.volume, cellSum_flatten, List.map_map]
    congr 1
    apply List.map_congr_left
    intro g hg
    exact (aggD_to (hne g hg)).1.volume
  unfold noVwap
  rw [hopn, hcl, hdt, hcu, hhi, hlo, hvo]

/-! ### Volume-weighted prices -/

theorem aggD_vwap {g : List IBar} (hg : g ≠ []) : (aggD g).vwap = vwapOf g := (aggD_to hg).2

theorem volumes_known {g : List IBar} (h : ∀ b ∈ g, ∃ v : ℚ, 0 ≤ v ∧ b.volume = some v) :
    ∃ V : ℚ, 0 ≤ V ∧ cellSum (g.map IBar.volume) = some V ∧
      (V = 0 → ∀ b ∈ g, b.volume = some 0) := by
  induction g with
  | nil => exact ⟨0, le_refl _, by simp [cellSum], by simp⟩
  | cons b g ih =>
    obtain ⟨V, h1, h2, h3⟩ := ih (fun x hx => h x (List.mem_cons_of_mem _ hx))
    obtain ⟨v, hv, e⟩ := h b List.mem_cons_self
    refine ⟨v + V, by linarith, ?_, ?_⟩
    · rw [List.map_cons, cellSum_cons, e, h2]
      rfl
    · intro h0 x hx
      have hv0 : v = 0 := by linarith
      have hV0 : V = 0 := by linarith
      rcases List.mem_cons.1 hx with rfl | hx
      · rw [e, hv0]
      · exact h3 hV0 x hx

theorem weighted_zero {g : List IBar} (h : ∀ b ∈ g, b.volume = some 0) :
    cellSum (g.map (fun b => cellMul b.vwap b.volume)) =
      (cellSum (g.map IBar.vwap)).map (fun _ => 0) := by
  induction g with
  | nil => simp [cellSum]
  | cons b g ih =>
    rw [List.map_cons, List.map_cons, cellSum_cons, cellSum_cons,
      ih (fun x hx => h x (List.mem_cons_of_mem _ hx)), h b List.mem_cons_self]
    rcases b.vwap with _ | w
    · rfl
    · rcases cellSum (g.map IBar.vwap) with _ | y
      · rfl
      · simp [cellMul, cellAdd]

/-- Weighting a group's price by its volume gives the group's weighted sum. -/
theorem vwap_weight {g : List IBar} (h : ∀ b ∈ g, ∃ v : ℚ, 0 ≤ v ∧ b.volume = some v) :
    cellMul (vwapOf g) (cellSum (g.map IBar.volume)) =
      cellSum (g.map (fun b => cellMul b.vwap b.volume)) := by
  obtain ⟨V, h1, h2, h3⟩ := volumes_known h
  unfold vwapOf
  rw [h2]
  simp only
  by_cases hV : 0 < V
  · rw [if_pos hV]
    generalize cellSum (g.map (fun b : IBar => cellMul b.vwap b.volume)) = W
    cases W with
    | none => rfl
    | some w =>
      have : V ≠ 0 := ne_of_gt hV
      simp only [cellMul, Option.map_some, Option.bind_some]
      congr 1
      field_simp
  · have hV0 : V = 0 := le_antisymm (not_lt.1 hV) h1
    rw [if_neg hV, weighted_zero (h3 hV0), hV0]
    rcases cellSum (g.map IBar.vwap) with _ | w
    · rfl
    · simp [cellMul]

/-- The volume-weighted price of bars is that of all their base bars if there was any volume. -/
theorem vwap_flatten {B : List (List IBar)} (hB : B ≠ []) (hne : ∀ g ∈ B, g ≠ [])
    (h : ∀ g ∈ B, ∀ b ∈ g, ∃ v : ℚ, 0 ≤ v ∧ b.volume = some v)
    (hpos : ∃ v : ℚ, 0 < v ∧ (aggD B.flatten).volume = some v) :
    (aggD (B.map aggD)).vwap = (aggD B.flatten).vwap := by
  have hflat : B.flatten ≠ [] := by
    rcases B with _ | ⟨g, B⟩
    · exact absurd rfl hB
    · intro h
      exact hne g List.mem_cons_self (List.append_eq_nil_iff.1 h).1
  obtain ⟨v, hv, e⟩ := hpos
  rw [(aggD_to hflat).1.volume] at e
  have e' : cellSum ((B.map aggD).map IBar.volume) = some v := by
    rw [← e, cellSum_flatten, List.map_map]
    congr 1
    apply List.map_congr_left
    intro g hg
    exact (aggD_to (hne g hg)).1.volume
  rw [aggD_vwap (by simpa using hB), aggD_vwap hflat]
  unfold vwapOf
  rw [e, e']
  simp only [if_pos hv]
  rw [cellSum_flatten, List.map_map]
  congr 2
  apply List.map_congr_left
  intro g hg
  simp only [Function.comp]
  rw [(aggD_to (hne g hg)).1.volume, aggD_vwap (hne g hg)]
  exact vwap_weight (h g hg)

theorem vwapOf_none {g : List IBar} (hg : g ≠ []) (h : ∀ b ∈ g, b.vwap = none) : vwapOf g = none := by
  rcases g with _ | ⟨b, g⟩
  · exact absurd rfl hg
  · have h1 : cellSum ((b :: g).map IBar.vwap) = none := by
      rw [List.map_cons, cellSum_cons, h b List.mem_cons_self]
      rfl
    have h2 : cellSum ((b :: g).map (fun b => cellMul b.vwap b.volume)) = none := by
      rw [List.map_cons, cellSum_cons, h b List.mem_cons_self]
      rfl
    unfold vwapOf
    rw [h1, h2]
    split
    · split <;> rfl
    · rfl

/-! ## Bins of bins -/

theorem name_no_duration (c : Calendar) : normalizeDuration (calendarName c).toList = none := by
  cases c <;> decide +kernel

theorem groups_calendar {mo ye : Date → Int} {bars : List IBar} {c : Calendar}
    {G : List (List IBar)} (h : GroupsOf mo ye bars (.str (calendarName c).toList) G) :
    BinGroups (calendarBin mo ye c) bars G := by
  generalize he : Iv.str (calendarName c).toList = w at h
  cases h with
  | count h => cases he
  | calendar h =>
    rename_i c'
    have e := Iv.str.inj he
    have : calendarOf (calendarName c).toList = calendarOf (calendarName c').toList := by rw [e]
    rw [calendarOf_name, calendarOf_name] at this
    cases this
    exact h
  | duration hs hd h =>
    have e := Iv.str.inj he
    rw [← e, name_no_duration] at hs
    cases hs

theorem groups_duration {mo ye : Date → Int} {bars : List IBar} {s d : Str} {a : Nat}
    {G : List (List IBar)} (hs : normalizeDuration s = some d) (hd : toSeconds d = some a)
    (h : GroupsOf mo ye bars (.str s) G) : BinGroups (durationBin a) bars G := by
  generalize he : Iv.str s = w at h
  cases h with
  | count h => cases he
  | calendar h =>
    have e := Iv.str.inj he
    rw [e, name_no_duration] at hs
    cases hs
  | duration hs' hd' h =>
    have e := Iv.str.inj he
    subst e
    rw [hs] at hs'
    cases hs'
    rw [hd] at hd'
    cases hd'
    exact h

theorem groups_count {mo ye : Date → Int} {bars : List IBar} {n : Int}
    {G : List (List IBar)} (h : GroupsOf mo ye bars (.num n) G) : CountGroups n.toNat bars G := by
  cases h with
  | count h => exact h

/-- The groups of an interval are determined. -/
theorem groupsOf_unique {mo ye : Date → Int} {bars : List IBar} {iv : Iv} {G G' : List (List IBar)}
    (h : GroupsOf mo ye bars iv G) (h' : GroupsOf mo ye bars iv G') : G = G' := by
  cases h with
  | count h => exact countGroups_unique h (groups_count h')
  | calendar h => exact binGroups_unique h (groups_calendar h')
  | duration hs hd h => exact binGroups_unique h (groups_duration hs hd h')

theorem fdiv_fdiv {d a k : Int} (ha : 0 ≤ a) (hk : 0 ≤ k) :
    Int.fdiv d (a * k) = Int.fdiv (Int.fdiv d a) k := by
  rw [Int.fdiv_eq_ediv_of_nonneg _ (mul_nonneg ha hk), Int.fdiv_eq_ediv_of_nonneg _ ha,
    Int.fdiv_eq_ediv_of_nonneg _ hk, Int.ediv_ediv_of_nonneg ha]

/-- A calendar interval made of whole others has its bins made of theirs. -/
theorem madeOf_bins {mo ye : Date → Int} (hm : Months mo ye) {a b : Calendar} (h : MadeOf a b)
    (d d' : Date) (e : calendarBin mo ye a d = calendarBin mo ye a d') :
    calendarBin mo ye b d = calendarBin mo ye b d' := by
  cases h with
  | days =>
    simp only [calendarBin] at e
    cases b with
    | daily => exact e
    | weekly => simp only [calendarBin, e]
    | monthly => exact hm.day d d' e
    | quarterly => simp only [calendarBin, hm.day d d' e]
    | yearly => simp only [calendarBin, hm.year, hm.day d d' e]
  | quarters =>
    simp only [calendarBin] at e ⊢
    rw [e]
  | months =>
    simp only [calendarBin] at e ⊢
    rw [hm.year, hm.year, e]
  | years =>
    simp only [calendarBin] at e ⊢
    rw [hm.year, hm.year, show (12 : Int) = 3 * 4 by norm_num, fdiv_fdiv (by norm_num) (by norm_num),
      fdiv_fdiv (by norm_num) (by norm_num), e]

theorem duration_bins {a b : Nat} (h : a ∣ b) (d d' : Date) (e : durationBin a d = durationBin a d') :
    durationBin b d = durationBin b d' := by
  obtain ⟨k, rfl⟩ := h
  unfold durationBin at e ⊢
  have hk : ((a * k : Nat) : Int) * 1000000000 = (a : Int) * 1000000000 * k := by
    push_cast
    ring
  have ha : (0 : Int) ≤ (a : Int) * 1000000000 := mul_nonneg (Int.natCast_nonneg a) (by norm_num)
  rw [hk, fdiv_fdiv (d := d) (a := (a : Int) * 1000000000) (k := k) ha (Int.natCast_nonneg k),
    fdiv_fdiv (d := d') (a := (a : Int) * 1000000000) (k := k) ha (Int.natCast_nonneg k), e]

theorem day_duration (mo ye : Date → Int) (d : Date) :
    calendarBin mo ye .daily d = durationBin 86400 d := by
  unfold calendarBin durationBin dayNs
  norm_num

/-- The groups of the second interval, put together, are those of the third. -/
theorem steps_groups {mo ye : Date → Int} (hm : Months mo ye) {bars : List IBar} {i j k : Iv}
    {b1 b2 : Nat} (hs : Steps i j k) (hi : Coarser b1 i) (hj : Coarser b2 j)
    {F C : List (List IBar)} (hF : GroupsOf mo ye bars i F)
    (hC : GroupsOf mo ye (F.map aggD) j C) :
    ∃ B : List (List (List IBar)), B.flatten = F ∧ C = B.map (List.map aggD) ∧
      GroupsOf mo ye bars k (B.map List.flatten) := by
  obtain ⟨B, hB, rfl⟩ := unmap_groups aggD C F (GroupsOf_flat hC)
  refine ⟨B, hB, rfl, ?_⟩
  cases hs with
  | counts n m =>
    have hn : 2 ≤ n := by cases hi with | bars h => exact h
    have hmm : 2 ≤ m := by cases hj with | bars h => exact h
    have e : (n * m).toNat = n.toNat * m.toNat := by
      obtain ⟨n', rfl⟩ := Int.eq_ofNat_of_zero_le (by omega : 0 ≤ n)
      obtain ⟨m', rfl⟩ := Int.eq_ofNat_of_zero_le (by omega : 0 ≤ m)
      rfl
    refine .count ?_
    rw [e]
    exact count_groups_of_groups (groups_count hF) hB (groups_count hC)
  | calendars h =>
    exact .calendar (bin_groups_of_groups (madeOf_bins hm h) (groups_calendar hF) hB
      (groups_calendar hC))
  | durations h1 h2 h3 h4 h =>
    exact .duration h3 h4 (bin_groups_of_groups (duration_bins h) (groups_duration h1 h2 hF) hB
      (groups_duration h3 h4 hC))
  | days h1 h2 h c =>
    refine .calendar (bin_groups_of_groups ?_ (groups_duration h1 h2 hF) hB (groups_calendar hC))
    intro d d' e
    refine madeOf_bins hm (.days c) d d' ?_
    rw [day_duration, day_duration]
    exact duration_bins h d d' e

theorem days_pos (c : Calendar) : 1 ≤ days c := by
  cases c <;> decide

theorem madeOf_days {a b : Calendar} (h : MadeOf a b) : days a ≤ days b := by
  cases h with
  | days c => cases b <;> decide
  | quarters => decide
  | months => decide
  | years => decide

theorem coarser_calendar {base : Nat} {c : Calendar}
    (h : Coarser base (.str (calendarName c).toList)) : base < days c * 86400 := by
  generalize he : Iv.str (calendarName c).toList = w at h
  cases h with
  | bars h => cases he
  | calendar c' h =>
    have e := Iv.str.inj he
    have : calendarOf (calendarName c).toList = calendarOf (calendarName c').toList := by rw [e]
    rw [calendarOf_name, calendarOf_name] at this
    cases this
    exact h
  | duration hs hd h =>
    have e := Iv.str.inj he
    rw [← e, name_no_duration] at hs
    cases hs

theorem coarser_duration {base : Nat} {s d : Str} {a : Nat} (hs : normalizeDuration s = some d)
    (hd : toSeconds d = some a) (h : Coarser base (.str s)) : base < a := by
  generalize he : Iv.str s = w at h
  cases h with
  | bars h => cases he
  | calendar c h =>
    have e := Iv.str.inj he
    rw [e, name_no_duration] at hs
    cases hs
  | duration hs' hd' h =>
    have e := Iv.str.inj he
    subst e
    rw [hs] at hs'
    cases hs'
    rw [hd] at hd'
    cases hd'
    exact h

/-- What is coarse enough for the steps is so for both at once. -/
theorem steps_coarser {i j k : Iv} {b1 b2 : Nat} (hs : Steps i j k) (hi : Coarser b1 i)
    (hj : Coarser b2 j) : Coarser b1 k := by
  cases hs with
  | counts n m =>
    have hn : 2 ≤ n := by cases hi with | bars h => exact h
    have hmm : 2 ≤ m := by cases hj with | bars h => exact h
    exact .bars (by nlinarith)
  | calendars h =>
    have h1 := coarser_calendar hi
    have h2 := madeOf_days h
    exact .calendar _ (lt_of_lt_of_le h1 (Nat.mul_le_mul_right _ h2))
  | durations h1 h2 h3 h4 h =>
    have h5 := coarser_duration h1 h2 hi
    have h6 := coarser_duration h3 h4 hj
    exact .duration h3 h4 (lt_of_lt_of_le h5 (Nat.le_of_dvd (by omega) h))
  | days h1 h2 h c =>
    have h5 := coarser_duration h1 h2 hi
    have h6 := Nat.le_of_dvd (by norm_num) h
    have h7 := days_pos c
    exact .calendar c (by omega)

/-! ## C138 -/

theorem aggD_custom {g : List IBar} (hg : g ≠ []) : ∃ b ∈ g, (aggD g).custom = b.custom := by
  have h := (aggD_to hg).1.custom
  rcases hl : g.getLast? with _ | x
  · rw [hl] at h
    cases h
  · rw [hl] at h
    exact ⟨x, List.mem_of_getLast? hl, (Option.some.inj h).symm⟩

theorem given_custom {inp : BarsIn} {b : IBar} (hb : b ∈ givenBars inp) {c : String}
    (hc : c ∉ givenCols inp) : b.custom c = none := by
  cases inp with
  | data t =>
    obtain ⟨x, _, rfl⟩ := List.mem_map.1 hb
    unfold givenCols at hc
    simp only [onlyCols, if_neg hc]
  | frame cols rows =>
    obtain ⟨x, _, rfl⟩ := List.mem_map.1 hb
    unfold givenCols at hc
    simp only at hc
    simp [rowBar, hc]

theorem given_vwap {inp : BarsIn} (h : ¬ givenVwap inp) : ∀ b ∈ givenBars inp, b.vwap = none := by
  intro b hb
  cases inp with
  | data t =>
    obtain ⟨x, _, rfl⟩ := List.mem_map.1 hb
    unfold givenVwap at h
    simp only [if_neg h]
  | frame cols rows =>
    obtain ⟨x, _, rfl⟩ := List.mem_map.1 hb
    unfold givenVwap at h
    simp only at h
    simp [rowBar, h]

/-- The bars that are returned, by groups. -/
theorem compressBars_aggD {mo ye : Date → Int} {inp : BarsIn} {iv : Iv} {tf : Str} {t : BarTable}
    (h : compressBars mo ye inp iv tf = .ok t) :
    ∃ base F, Coarser base iv ∧ stripWs tf ≠ [] ∧ toSeconds tf = some base ∧ 0 < base ∧
      FrameFits base inp ∧ GroupsOf mo ye (givenBars inp) iv F ∧ t.bars = F.map aggD := by
  obtain ⟨base, n, h1, h2, h3, hn, hv, hi⟩ := compressBars_ok.1 h
  obtain ⟨h4, rfl⟩ := compressInput_ok.1 hi
  obtain ⟨F, hF, e⟩ := compressIv_groups (mo := mo) (ye := ye) hn hv (givenBars inp)
  refine ⟨base, F, coarser_normalized.2 ⟨n, hn, hv⟩, h1, h2, h3, h4, hF, ?_⟩
  simp only [e]
  exact filterMap_aggD (GroupsOf_nonempty hF)

theorem compressed_empty {mo ye : Date → Int} {bars : List IBar} {iv : Iv} {F : List (List IBar)}
    (hF : GroupsOf mo ye bars iv F) : F.map aggD = [] ↔ bars = [] := by
  rw [List.map_eq_nil_iff, ← GroupsOf_flat hF]
  constructor
  · rintro rfl
    rfl
  · intro h
    rcases F with _ | ⟨g, F⟩
    · rfl
    · exact absurd (List.append_eq_nil_iff.1 h).1 (GroupsOf_nonempty hF g List.mem_cons_self)

theorem group_sub {mo ye : Date → Int} {bars : List IBar} {iv : Iv} {F : List (List IBar)}
    (hF : GroupsOf mo ye bars iv F) {g : List IBar} (hg : g ∈ F) {b : IBar} (hb : b ∈ g) : b ∈ bars := by
  rw [← GroupsOf_flat hF]
  exact mem_flatten_of hg hb

/-- Compressed bars are compressed as they are. -/
theorem given_compressed {mo ye : Date → Int} {inp : BarsIn} {iv : Iv} {tf : Str} {t : BarTable}
    (h : compressBars mo ye inp iv tf = .ok t) : givenBars (.data t) = t.bars := by
  obtain ⟨_, hvol, hvw, hcu, _⟩ := compress_bars_groups h
  obtain ⟨base, F, _, _, _, _, _, hF, hb⟩ := compressBars_aggD h
  by_cases h0 : givenBars inp = []
  · have : t.bars = [] := by rw [hb, (compressed_empty hF).2 h0]
    simp [givenBars, this]
  · show t.bars.map _ = t.bars
    conv_rhs => rw [← List.map_id t.bars]
    apply List.map_congr_left
    intro b hbm
    rw [hb] at hbm
    obtain ⟨g, hg, rfl⟩ := List.mem_map.1 hbm
    have hgne := GroupsOf_nonempty hF g hg
    have e1 : (if t.hasVwap then (aggD g).vwap else none) = (aggD g).vwap := by
      by_cases hw : t.hasVwap = true
      · rw [if_pos hw]
      · rw [if_neg hw, aggD_vwap hgne, vwapOf_none hgne]
        intro x hx
        exact given_vwap (fun hgv => hw (hvw.2 ⟨h0, hgv⟩)) x (group_sub hF hg hx)
    have e2 : (fun c => if c ∈ t.custom then (aggD g).custom c else none) = (aggD g).custom := by
      funext c
      by_cases hc : c ∈ t.custom
      · rw [if_pos hc]
      · rw [if_neg hc]
        obtain ⟨x, hx, e⟩ := aggD_custom hgne
        rw [e]
        rw [hcu h0] at hc
        exact (given_custom (group_sub hF hg hx) hc).symm
    simp only [onlyCols, hvol, if_true, e1, e2, id]

/-- **C138.**  Bars that can be compressed to an interval and then to a second one made of it can be
compressed at once: so many bars and then so many of those to as many as the product, days, or lengths
that divide a day, to any calendar interval, months to quarters or years, quarters to years, and lengths
to their multiples.  The bars are the same, with the same columns, apart from volume-weighted prices;
and these too are the same if all volumes are known and none is negative, and every bar of the result
has some volume. -/
theorem compress_steps {mo ye : Date → Int} (hm : Months mo ye) {inp : BarsIn} {i j k : Iv}
    (hs : Steps i j k) {tf tf' : Str} {t1 t2 : BarTable}
    (h1 : compressBars mo ye inp i tf = .ok t1)
    (h2 : compressBars mo ye (.data t1) j tf' = .ok t2) :
    ∃ t3, compressBars mo ye inp k tf = .ok t3 ∧
      t2.hasVolume = t3.hasVolume ∧ t2.hasVwap = t3.hasVwap ∧ t2.custom = t3.custom ∧
      t2.bars.map noVwap = t3.bars.map noVwap ∧
      ((¬ givenVwap inp ∨ ((∀ b ∈ givenBars inp, ∃ v : ℚ, 0 ≤ v ∧ b.volume = some v) ∧
        ∀ b ∈ t3.bars, ∃ v : ℚ, 0 < v ∧ b.volume = some v)) → t2 = t3) := by
  obtain ⟨b1, F, c1, p1, p2, p3, p4, hF, e1⟩ := compressBars_aggD h1
  obtain ⟨b2, C, c2, _, _, _, _, hC, e2⟩ := compressBars_aggD h2
  rw [given_compressed h1, e1] at hC
  obtain ⟨B, hB, rfl, hk⟩ := steps_groups hm hs c1 c2 hF hC
  obtain ⟨t3, h3⟩ := (compress_bars_ok_iff (mo := mo) (ye := ye)).2
    ⟨b1, p1, p2, p3, steps_coarser hs c1 c2, p4⟩
  obtain ⟨_, G, _, _, _, _, _, hG, e3⟩ := compressBars_aggD h3
  have hGB := groupsOf_unique hG hk
  subst hGB
  obtain ⟨_, v1, w1, u1, z1⟩ := compress_bars_groups h1
  obtain ⟨_, v2, w2, u2, z2⟩ := compress_bars_groups h2
  obtain ⟨_, v3, w3, u3, z3⟩ := compress_bars_groups h3
  have hempty : givenBars (.data t1) = [] ↔ givenBars inp = [] := by
    rw [given_compressed h1, e1]
    exact compressed_empty hF
  have hvw : t2.hasVwap = t3.hasVwap := by
    rw [Bool.eq_iff_iff, w2, w3]
    unfold givenVwap
    constructor
    · rintro ⟨q1, q2⟩
      exact w1.1 q2
    · rintro ⟨q1, q2⟩
      exact ⟨fun h => q1 (hempty.1 h), w1.2 ⟨q1, q2⟩⟩
  have hcu : t2.custom = t3.custom := by
    by_cases h0 : givenBars inp = []
    · rw [z2 (hempty.2 h0), z3 h0]
    · rw [u2 (fun h => h0 (hempty.1 h)), u3 h0]
      exact u1 h0
  have hBne : ∀ b ∈ B, b ≠ [] := by
    intro b hb h
    exact GroupsOf_nonempty hC _ (List.mem_map_of_mem hb) (by rw [h]; rfl)
  have hgne : ∀ b ∈ B, ∀ g ∈ b, g ≠ [] :=
    fun b hb g hg => GroupsOf_nonempty hF g (hB ▸ mem_flatten_of hb hg)
  have hno : t2.bars.map noVwap = t3.bars.map noVwap := by
    rw [e2, e3]
    simp only [List.map_map]
    apply List.map_congr_left
    intro b hb
    exact agg_flatten (hBne b hb) (hgne b hb)
  refine ⟨t3, h3, by rw [v2, v3], hvw, hcu, hno, ?_⟩
  intro hcond
  have hbars : t2.bars = t3.bars := by
    rw [e2, e3]
    simp only [List.map_map]
    apply List.map_congr_left
    intro b hb
    have h4 := agg_flatten (hBne b hb) (hgne b hb)
    have hflat : b.flatten ≠ [] := GroupsOf_nonempty hk _ (List.mem_map_of_mem hb)
    have h5 : (aggD (b.map aggD)).vwap = (aggD b.flatten).vwap := by
      rcases hcond with hc | ⟨hc1, hc2⟩
      · have hnone := given_vwap hc
        have hin : ∀ g ∈ b, ∀ x ∈ g, x.vwap = none := fun g hg x hx =>
          hnone x (group_sub hF (hB ▸ mem_flatten_of hb hg) hx)
        have q1 : ∀ x ∈ b.map aggD, x.vwap = none := by
          intro x hx
          obtain ⟨g, hg, rfl⟩ := List.mem_map.1 hx
          rw [aggD_vwap (hgne b hb g hg), vwapOf_none (hgne b hb g hg) (hin g hg)]
        rw [aggD_vwap (by simpa using hBne b hb), aggD_vwap hflat,
          vwapOf_none (by simpa using hBne b hb) q1, vwapOf_none hflat]
        intro x hx
        obtain ⟨g, hg, hxg⟩ := List.mem_flatten.1 hx
        exact hin g hg x hxg
      · refine vwap_flatten (hBne b hb) (hgne b hb) ?_ ?_
        · intro g hg x hx
          exact hc1 x (group_sub hF (hB ▸ mem_flatten_of hb hg) hx)
        · apply hc2
          rw [e3]
          exact List.mem_map_of_mem (List.mem_map_of_mem hb)
    show aggD (b.map aggD) = aggD b.flatten
    have h6 := congrArg (fun x : IBar => { x with vwap := (aggD b.flatten).vwap }) h4
    simp only [noVwap] at h6
    rw [← h5] at h6
    rw [h5] at h6
    calc aggD (b.map aggD) = { aggD (b.map aggD) with vwap := (aggD b.flatten).vwap } := by rw [← h5]
      _ = { aggD b.flatten with vwap := (aggD b.flatten).vwap } := h6
      _ = aggD b.flatten := rfl
  rcases t2 with ⟨x1, x2, x3, x4⟩
  rcases t3 with ⟨y1, y2, y3, y4⟩
  simp only at hbars hvw hcu v2 v3
  rw [hbars, hvw, hcu, v2, v3]

/-! ## Cases -/

/-- Months of the first two months of 1970, and years. -/
def Demo.month (d : Date) : Int := if Int.fdiv d dayNs < 31 then 0 else 1

def Demo.year (d : Date) : Int := Int.fdiv (Demo.month d) 12

theorem Demo.months : Months Demo.month Demo.year where
  day := by
    intro d d' h
    unfold Demo.month
    rw [h]
  year := fun _ => rfl

theorem data_compressed {mo ye : Date → Int} {iv : Iv} (t : BarTable) (hn : normalizeIv iv = some iv)
    (hv : validateIv iv 86400 = .ok ()) :
    compressBars mo ye (.data t) iv "1d".toList =
      .ok (compressTable mo ye iv t.hasVwap t.custom t.arrays) :=
  compressBars_ok.2 ⟨86400, iv, strip_day, seconds_day, by decide, hn, hv, rfl⟩

/-- Days to pairs of days and those to pairs of pairs, or to four days at once. -/
example (t : BarTable) : ∃ t1 t2 t3,
    compressBars Demo.month Demo.year (.data t) (.num 2) "1d".toList = .ok t1 ∧
    compressBars Demo.month Demo.year (.data t1) (.num 2) "1d".toList = .ok t2 ∧
    compressBars Demo.month Demo.year (.data t) (.num 4) "1d".toList = .ok t3 ∧
    t2.bars.map noVwap = t3.bars.map noVwap := by
  have h1 := data_compressed (mo := Demo.month) (ye := Demo.year) t (iv := .num 2) (by decide +kernel)
    (by decide +kernel)
  have h2 := data_compressed (mo := Demo.month) (ye := Demo.year)
    (compressTable Demo.month Demo.year (.num 2) t.hasVwap t.custom t.arrays) (iv := .num 2)
    (by decide +kernel) (by decide +kernel)
  obtain ⟨t3, h3, _, _, _, h4, _⟩ := compress_steps Demo.months (.counts 2 2) h1 h2
  exact ⟨_, _, t3, h1, h2, h3, h4⟩

/-- Weeks to months is not among the steps: the week of Saturday 31 January and Sunday 1 February is a
bar of February. -/
theorem weeks_to_months_differ : ∃ t t1 t2 t3,
    compressBars Demo.month Demo.year (.data t) (.str "weekly".toList) "1d".toList = .ok t1 ∧
    compressBars Demo.month Demo.year (.data t1) (.str "monthly".toList) "1d".toList = .ok t2 ∧
    compressBars Demo.month Demo.year (.data t) (.str "monthly".toList) "1d".toList = .ok t3 ∧
    t2.bars.length = 1 ∧ t3.bars.length = 2 := by
  have hw : normalizeIv (.str "weekly".toList) = some (.str "weekly".toList) := by decide +kernel
  have hm : normalizeIv (.str "monthly".toList) = some (.str "monthly".toList) := by decide +kernel
  have hw' : validateIv (.str "weekly".toList) 86400 = .ok () := by decide +kernel
  have hm' : validateIv (.str "monthly".toList) 86400 = .ok () := by decide +kernel
  refine ⟨⟨[Demo.tbar (30 * 86400000000000) 1 (some 1), Demo.tbar (31 * 86400000000000) 2 (some 1)], true,
    true, []⟩, _, _, _, data_compressed _ hw hw', data_compressed _ hm hm', data_compressed _ hm hm', ?_, ?_⟩ <;>
    decide +kernel

/-- Without volume the plain means are taken, and a mean of means is not the mean: this is why the
steps need some volume for the volume-weighted prices. -/
theorem means_of_means_differ : ∃ t t1 t2 t3,
    compressBars Demo.month Demo.year (.data t) (.num 2) "1d".toList = .ok t1 ∧
    compressBars Demo.month Demo.year (.data t1) (.num 2) "1d".toList = .ok t2 ∧
    compressBars Demo.month Demo.year (.data t) (.num 4) "1d".toList = .ok t3 ∧
    t2.bars.map IBar.vwap = [some (11 / 4)] ∧ t3.bars.map IBar.vwap = [some (7 / 3)] := by
  have h2 : normalizeIv (.num 2) = some (.num 2) := by decide +kernel
  have h4 : normalizeIv (.num 4) = some (.num 4) := by decide +kernel
  have h2' : validateIv (.num 2) 86400 = .ok () := by decide +kernel
  have h4' : validateIv (.num 4) 86400 = .ok () := by decide +kernel
  refine ⟨⟨[Demo.tbar 0 1 (some 0), Demo.tbar 86400000000000 2 (some 0),
    Demo.tbar (2 * 86400000000000) 4 (some 0)], true, true, []⟩, _, _, _, data_compressed _ h2 h2',
    data_compressed _ h2 h2', data_compressed _ h4 h4', ?_, ?_⟩ <;> decide +kernel

/-- With volume they agree. -/
example : ∃ t t1 t2, t.bars.length = 3 ∧ t.hasVwap = true ∧
    compressBars Demo.month Demo.year (.data t) (.num 2) "1d".toList = .ok t1 ∧
    compressBars Demo.month Demo.year (.data t1) (.num 2) "1d".toList = .ok t2 ∧
    compressBars Demo.month Demo.year (.data t) (.num 4) "1d".toList = .ok t2 := by
  have h2 : normalizeIv (.num 2) = some (.num 2) := by decide +kernel
  have h2' : validateIv (.num 2) 86400 = .ok () := by decide +kernel
  let t : BarTable := ⟨[Demo.tbar 0 1 (some 0), Demo.tbar 86400000000000 2 (some 0),
    Demo.tbar (2 * 86400000000000) 4 (some 3)], true, true, []⟩
  have e1 := data_compressed (mo := Demo.month) (ye := Demo.year) t h2 h2'
  have e2 := data_compressed (mo := Demo.month) (ye := Demo.year)
    (compressTable Demo.month Demo.year (.num 2) t.hasVwap t.custom t.arrays) h2 h2'
  obtain ⟨t3, h3, _, _, _, _, h5⟩ := compress_steps Demo.months (.counts 2 2) e1 e2
  have e3 := data_compressed (mo := Demo.month) (ye := Demo.year) t (iv := .num 4) (by decide +kernel)
    (by decide +kernel)
  have e4 : compressBars Demo.month Demo.year (.data t) (.num (2 * 2)) "1d".toList =
    .ok (compressTable Demo.month Demo.year (.num 4) t.hasVwap t.custom t.arrays) := e3
  rw [e4] at h3
  cases h3
  have hv : (compressTable Demo.month Demo.year (.num 4) t.hasVwap t.custom t.arrays).bars.map IBar.volume
      = [some 3] := by decide +kernel
  have key := h5 (.inr ⟨?_, ?_⟩)
  · exact ⟨t, _, _, rfl, rfl, e1, e2, by rw [key]; exact e3⟩
  · have hvol : ∀ v ∈ (givenBars (.data t)).map IBar.volume, ∃ w : ℚ, 0 ≤ w ∧ v = some w := by
      have : (givenBars (.data t)).map IBar.volume = [some 0, some 0, some 3] := by decide +kernel
      rw [this]
      intro v hv
      simp only [List.mem_cons, List.not_mem_nil, or_false] at hv
      rcases hv with rfl | rfl | rfl
      · exact ⟨0, by norm_num, rfl⟩
      · exact ⟨0, by norm_num, rfl⟩
      · exact ⟨3, by norm_num, rfl⟩
    intro b hb
    exact hvol _ (List.mem_map_of_mem hb)
  · intro b hb
    have := List.mem_map_of_mem (f := IBar.volume) hb
    rw [hv, List.mem_singleton] at this
    exact ⟨3, by norm_num, this⟩

end PyBroker
