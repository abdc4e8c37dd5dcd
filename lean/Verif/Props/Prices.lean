import Verif.Scope.Prices
import Verif.Props.Scope
import Mathlib.Algebra.Order.Floor.Ring
import Mathlib.Data.Rat.Floor
import Mathlib.Tactic.Linarith
import Mathlib.Tactic.NormNum
import Mathlib.Tactic.Positivity

/-!
# Fill prices and predictions (C40, C44, C75)
-/

namespace PyBroker

/-! ## Specification -/

/-- The cell of a column on the last of the first `n` bars of a symbol. -/
def Spec.barCell (s : Store) (sym : Sym) (n : Nat) (col : String) : Option Cell :=
  ((s.arrays sym).bind (fun a => a.col col)).bind (fun arr => (arr.take n).getLast?)

/-- The date of the last of the first `n` bars of a symbol. -/
def Spec.barDate (s : Store) (sym : Sym) (n : Nat) : Option Date :=
  (s.arrays sym).bind (fun a => (a.dates.take n).getLast?)

/-- The mean of prices; NaN when one of them is. -/
def Spec.mean (l : List Cell) : Cell :=
  if l.all Option.isSome then some ((l.filterMap id).sum / l.length) else none

/-- A price of a bar whose cells are `c`; nothing when a column it needs is missing. -/
def Spec.price (c : String → Option Cell) : PriceType → Option Cell
  | .open => c "open"
  | .low => c "low"
  | .high => c "high"
  | .close => c "close"
  | .middle =>
    match c "low", c "high" with
    | some l, some h => some (Spec.mean [l, h])
    | _, _ => none
  | .average =>
    match c "open", c "low", c "high", c "close" with
    | some o, some l, some h, some x => some (Spec.mean [o, l, h, x])
    | _, _, _, _ => none

open PyBroker.Spec

/-! ## C44: rounding to cents -/

theorem truncQ_floor {x : ℚ} (h : 0 ≤ x) : truncQ x = ⌊x⌋ := by
  unfold truncQ
  rw [if_neg (not_lt.2 h)]

theorem roundCents_nonneg_eq {p : ℚ} (h : 0 ≤ p) :
    roundCents p = (⌊p * 100 + 1 / 2⌋ : ℚ) / 100 := by
  unfold roundCents
  rw [if_pos h, truncQ_floor (by linarith)]

theorem roundCents_neg {p : ℚ} : roundCents (-p) = -roundCents p := by
  unfold roundCents
  rcases lt_trichotomy p 0 with h | h | h
  · rw [if_pos (by linarith), if_neg (not_le.2 h)]
    ring
  · subst h
    have : truncQ (0 * 100 + 1 / 2 : ℚ) = 0 := by decide +kernel
    simp only [neg_zero, le_refl, if_true, this]
    norm_num
  · rw [if_neg (by linarith), if_pos h.le, neg_neg]

theorem roundCents_near (p : ℚ) : |roundCents p - p| ≤ 1 / 200 := by
  have key : ∀ p : ℚ, 0 ≤ p → |roundCents p - p| ≤ 1 / 200 := by
    intro p h
    rw [roundCents_nonneg_eq h, abs_le]
    have h1 := Int.floor_le (p * 100 + 1 / 2)
    have h2 := Int.lt_floor_add_one (p * 100 + 1 / 2)
    constructor <;> linarith
  rcases le_or_gt 0 p with h | h
  · exact key p h
  · have := key (-p) (by linarith)
    rw [roundCents_neg] at this
    rw [← abs_neg]
    have e : -(roundCents p - p) = -roundCents p - -p := by ring
    rw [e]
    exact this

theorem roundCents_cents (p : ℚ) : ∃ k : ℤ, roundCents p = (k : ℚ) / 100 := by
  unfold roundCents
  split
  · exact ⟨_, rfl⟩
  · refine ⟨-truncQ (-p * 100 + 1 / 2), ?_⟩
    push_cast
    ring

theorem roundCents_of_cents (k : ℤ) : roundCents ((k : ℚ) / 100) = (k : ℚ) / 100 := by
  have key : ∀ k : ℤ, 0 ≤ k → roundCents ((k : ℚ) / 100) = (k : ℚ) / 100 := by
    intro k hk
    have hk' : (0 : ℚ) ≤ k := by exact_mod_cast hk
    rw [roundCents_nonneg_eq (by positivity)]
    have : ⌊(k : ℚ) / 100 * 100 + 1 / 2⌋ = k := by
      rw [Int.floor_eq_iff]
      constructor <;> linarith
    rw [this]
  rcases le_or_gt 0 k with h | h
  · exact key k h
  · have h1 := key (-k) (by omega)
    have e : (((-k : ℤ) : ℚ)) / 100 = -((k : ℚ) / 100) := by
      push_cast
      ring
    rw [e, roundCents_neg] at h1
    linarith

theorem roundCents_mono {p q : ℚ} (h : p ≤ q) : roundCents p ≤ roundCents q := by
  have pos : ∀ {p q : ℚ}, 0 ≤ p → p ≤ q → roundCents p ≤ roundCents q := by
    intro p q hp h
    rw [roundCents_nonneg_eq hp, roundCents_nonneg_eq (le_trans hp h)]
    have : ⌊p * 100 + 1 / 2⌋ ≤ ⌊q * 100 + 1 / 2⌋ := Int.floor_le_floor (by linarith)
    have : (⌊p * 100 + 1 / 2⌋ : ℚ) ≤ ⌊q * 100 + 1 / 2⌋ := by exact_mod_cast this
    linarith
  have sign : ∀ {p : ℚ}, 0 ≤ p → 0 ≤ roundCents p := by
    intro p hp
    have := pos le_rfl hp
    have h0 : roundCents 0 = 0 := by decide +kernel
    rwa [h0] at this
  rcases le_or_gt 0 p with hp | hp
  · exact pos hp h
  · rcases le_or_gt 0 q with hq | hq
    · have h1 := sign hq
      have h2 := sign (p := -p) (by linarith)
      rw [roundCents_neg] at h2
      linarith
    · have h1 := pos (p := -q) (q := -p) (by linarith) (by linarith)
      rw [roundCents_neg, roundCents_neg] at h1
      linarith

/-- C44.  Rounding a price moves it by at most half a cent, to a whole number of
cents; it keeps order and sign, and rounding again changes nothing. -/
theorem cent_rounding :
    (∀ p, |roundCents p - p| ≤ 1 / 200) ∧ (∀ p, ∃ k : ℤ, roundCents p = (k : ℚ) / 100) ∧
    (∀ p q, p ≤ q → roundCents p ≤ roundCents q) ∧
    (∀ p, roundCents (roundCents p) = roundCents p) ∧ (∀ p, roundCents (-p) = -roundCents p) := by
  refine ⟨roundCents_near, roundCents_cents, fun _ _ h => roundCents_mono h, ?_,
    fun _ => roundCents_neg⟩
  intro p
  obtain ⟨k, hk⟩ := roundCents_cents p
  rw [hk, roundCents_of_cents]

/-- A price a whole half cent from two cents goes away from zero. -/
theorem cent_halves (k : ℤ) (hk : 0 ≤ k) :
    roundCents ((k : ℚ) / 100 + 1 / 200) = (k + 1 : ℚ) / 100 := by
  have hk' : (0 : ℚ) ≤ k := by exact_mod_cast hk
  rw [roundCents_nonneg_eq (by positivity)]
  have : ⌊((k : ℚ) / 100 + 1 / 200) * 100 + 1 / 2⌋ = k + 1 := by
    rw [Int.floor_eq_iff]
    push_cast
    constructor <;> linarith
  rw [this]
  push_cast
  ring

/-! ## C44: MIDDLE and AVERAGE -/

/-- C44.  With the open and close inside the bar's range, the middle and average
prices are inside it, and so are the rounded ones inside the rounded range. -/
theorem mixed_prices_in_range {c : String → Option Cell} {l h : ℚ}
    (hl : c "low" = some (some l)) (hh : c "high" = some (some h)) (hlh : l ≤ h) :
    (∃ m, price c .middle = some (some m) ∧ l ≤ m ∧ m ≤ h ∧ m = (l + h) / 2 ∧
      roundCents l ≤ roundCents m ∧ roundCents m ≤ roundCents h) ∧
    (∀ o x, c "open" = some (some o) → c "close" = some (some x) →
      l ≤ o → o ≤ h → l ≤ x → x ≤ h →
      ∃ a, price c .average = some (some a) ∧ l ≤ a ∧ a ≤ h ∧ a = (o + l + h + x) / 4 ∧
        roundCents l ≤ roundCents a ∧ roundCents a ≤ roundCents h) := by
  constructor
  · refine ⟨(l + h) / 2, ?_, by linarith, by linarith, rfl, roundCents_mono (by linarith),
      roundCents_mono (by linarith)⟩
    unfold price mean
    rw [hl, hh]
    simp
  · intro o x ho hx h1 h2 h3 h4
    refine ⟨(o + l + h + x) / 4, ?_, by linarith, by linarith, rfl, roundCents_mono (by linarith),
      roundCents_mono (by linarith)⟩
    unfold price mean
    rw [hl, hh, ho, hx]
    simp
    ring

/-! ## C75: cached prices are current -/

/-- The result of a price read as a value or an error. -/
def Spec.asPrice : Option Cell → Except PriceErr Cell
  | some v => .ok v
  | none => .error .notFound

theorem columnValue_spec (s : PriceScope) (sym : Sym) (col : String) :
    s.columnValue sym col = asPrice (barCell s.store sym (s.endIndex sym) col) := by
  unfold PriceScope.columnValue barCell
  simp only
  by_cases h0 : s.endIndex sym ≤ 0
  · have : s.endIndex sym = 0 := by omega
    rw [if_pos h0, this]
    cases (s.store.arrays sym).bind (fun a => a.col col) <;> simp [asPrice]
  · rw [if_neg h0]
    cases (s.store.arrays sym).bind (fun a => a.col col) with
    | none => rfl
    | some arr =>
      simp only [Option.bind_some]
      rw [List.getLast?_eq_getElem?, List.length_take, List.getElem?_take]
      have e : (if s.endIndex sym > arr.length then arr.length else s.endIndex sym) =
          min (s.endIndex sym) arr.length := by
        split <;> omega
      rw [e, if_pos (by omega)]
      rcases Option.eq_none_or_eq_some (arr[min (s.endIndex sym) arr.length - 1]?) with h | ⟨v, h⟩ <;>
        rw [h] <;> rfl

/-- The cached prices are those of the current end indexes. -/
def PriceScope.BarOK (s : PriceScope) : Prop :=
  ∀ sym p v, cacheGet s.barCache (sym, p) = some v →
    price (barCell s.store sym (s.endIndex sym)) p = some v

/-- Everything cached is current. -/
def PriceScope.Current (s : PriceScope) : Prop :=
  s.BarOK ∧
  (∀ sym d b, cacheGet s.hasBarCache (sym, d) = some b →
    b = decide (barDate s.store sym (s.endIndex sym) = some d)) ∧
  (∀ sym d r, cacheGet s.ohlcCache (sym, d) = some r → r = s.barOhlcRaw sym d)

/-- Two scopes over the same data at the same bar. -/
def PriceScope.SameBar (s s' : PriceScope) : Prop :=
  s'.store = s.store ∧ s'.endIndex = s.endIndex ∧ s'.round = s.round ∧
    s'.hasBarCache = s.hasBarCache ∧ s'.ohlcCache = s.ohlcCache

theorem PriceScope.SameBar.trans {a b c : PriceScope} (h : a.SameBar b) (h' : b.SameBar c) :
    a.SameBar c :=
  ⟨h'.1.trans h.1, h'.2.1.trans h.2.1, h'.2.2.1.trans h.2.2.1, h'.2.2.2.1.trans h.2.2.2.1,
    h'.2.2.2.2.trans h.2.2.2.2⟩

/-- A price read that answers with the current price and leaves a current cache. -/
def Spec.GoodRead (s : PriceScope) (want : Option Cell) (r : Except PriceErr Cell × PriceScope) :
    Prop :=
  r.1 = asPrice want ∧ r.2.BarOK ∧ s.SameBar r.2

theorem cached_good {s : PriceScope} (h : s.BarOK) (sym : Sym) (p : PriceType)
    {compute : PriceScope → Except PriceErr Cell × PriceScope}
    (hc : GoodRead s (price (barCell s.store sym (s.endIndex sym)) p) (compute s)) :
    GoodRead s (price (barCell s.store sym (s.endIndex sym)) p) (s.cached sym p compute) := by
  unfold PriceScope.cached
  rcases Option.eq_none_or_eq_some (cacheGet s.barCache (sym, p)) with hn | ⟨v, hv⟩
  · rw [hn]
    simp only
    obtain ⟨h1, h2, h3⟩ := hc
    rcases hcs : compute s with ⟨r, s'⟩
    rw [hcs] at h1 h2 h3
    simp only at h1 h2 h3 ⊢
    cases r with
    | error x => exact ⟨h1, h2, h3⟩
    | ok v =>
      refine ⟨h1, ?_, h3⟩
      intro sym' p' v' hl
      simp only [cacheGet] at hl
      split at hl
      · rename_i hk
        obtain ⟨rfl, rfl⟩ := Prod.mk.inj hk
        rw [h3.1, h3.2.1]
        rcases Option.eq_none_or_eq_some (price (barCell s.store sym (s.endIndex sym)) p)
          with hw | ⟨w, hw⟩
        · rw [hw] at h1; cases h1
        · rw [hw] at h1 ⊢
          have : v = w := Except.ok.inj h1
          rw [← this]
          exact hl
      · exact h2 sym' p' v' hl
  · rw [hv]
    refine ⟨?_, h, rfl, rfl, rfl, rfl, rfl⟩
    rw [h sym p v hv]
    rfl

theorem fetchCol_good {s : PriceScope} (h : s.BarOK) (sym : Sym) (p : PriceType) (col : String)
    (hp : price (barCell s.store sym (s.endIndex sym)) p =
      barCell s.store sym (s.endIndex sym) col) :
    GoodRead s (price (barCell s.store sym (s.endIndex sym)) p) (s.fetchCol sym p col) := by
  unfold PriceScope.fetchCol
  apply cached_good h
  refine ⟨?_, h, rfl, rfl, rfl, rfl, rfl⟩
  rw [hp]
  exact columnValue_spec s sym col

theorem mean2 (l h : Cell) : cell2 (fun l h => l + (h - l) / 2) l h = mean [l, h] := by
  cases l <;> cases h <;> simp [cell2, mean]
  ring

theorem mean4 (o l h x : Cell) : cell2 (fun a b => (a + b) / 4) (cell2 (· + ·) o l)
    (cell2 (· + ·) h x) = mean [o, l, h, x] := by
  cases o <;> cases l <;> cases h <;> cases x <;> simp [cell2, mean]
  ring

/-- A further read from the scope an earlier read left. -/
theorem next_col {s s1 : PriceScope} (h1 : s1.BarOK) (h2 : s.SameBar s1) (sym : Sym)
    (p : PriceType) (col : String) (hp : ∀ c, price c p = c col) :
    GoodRead s (barCell s.store sym (s.endIndex sym) col) (s1.fetchCol sym p col) := by
  obtain ⟨g1, g2, g3⟩ := fetchCol_good h1 sym p col (hp _)
  refine ⟨?_, g2, h2.trans g3⟩
  rw [g1, hp, h2.1, h2.2.1]

theorem fetchPriceType_good {s : PriceScope} (h : s.BarOK) (sym : Sym) (p : PriceType) :
    GoodRead s (price (barCell s.store sym (s.endIndex sym)) p) (s.fetchPriceType sym p) := by
  cases p with
  | «open» => exact fetchCol_good h sym .open "open" rfl
  | low => exact fetchCol_good h sym .low "low" rfl
  | high => exact fetchCol_good h sym .high "high" rfl
  | close => exact fetchCol_good h sym .close "close" rfl
  | middle =>
    unfold PriceScope.fetchPriceType
    apply cached_good h
    have hself : s.SameBar s := ⟨rfl, rfl, rfl, rfl, rfl⟩
    obtain ⟨a1, a2, a3⟩ := next_col h hself sym .low "low" (fun _ => rfl)
    rcases ha : s.fetchCol sym .low "low" with ⟨r1, s1⟩
    rw [ha] at a1 a2 a3
    simp only at a1 a2 a3 ⊢
    unfold price
    generalize barCell s.store sym (s.endIndex sym) "low" = lo at *
    cases lo with
    | none => subst a1; exact ⟨rfl, a2, a3⟩
    | some l =>
      subst a1
      simp only [asPrice]
      obtain ⟨b1, b2, b3⟩ := next_col a2 a3 sym .high "high" (fun _ => rfl)
      rcases hb : s1.fetchCol sym .high "high" with ⟨r2, s2⟩
      rw [hb] at b1 b2 b3
      simp only at b1 b2 b3 ⊢
      generalize barCell s.store sym (s.endIndex sym) "high" = hi at *
      cases hi with
      | none => subst b1; exact ⟨rfl, b2, b3⟩
      | some x =>
        subst b1
        refine ⟨?_, b2, b3⟩
        simp only [asPrice, mean2]
  | average =>
    unfold PriceScope.fetchPriceType
    apply cached_good h
    have hself : s.SameBar s := ⟨rfl, rfl, rfl, rfl, rfl⟩
    obtain ⟨a1, a2, a3⟩ := next_col h hself sym .open "open" (fun _ => rfl)
    rcases ha : s.fetchCol sym .open "open" with ⟨r1, s1⟩
    rw [ha] at a1 a2 a3
    simp only at a1 a2 a3 ⊢
    unfold price
    generalize barCell s.store sym (s.endIndex sym) "open" = op at *
    cases op with
    | none => subst a1; exact ⟨rfl, a2, a3⟩
    | some o =>
      subst a1
      simp only [asPrice]
      obtain ⟨b1, b2, b3⟩ := next_col a2 a3 sym .low "low" (fun _ => rfl)
      rcases hb : s1.fetchCol sym .low "low" with ⟨r2, s2⟩
      rw [hb] at b1 b2 b3
      simp only at b1 b2 b3 ⊢
      generalize barCell s.store sym (s.endIndex sym) "low" = lo at *
      cases lo with
      | none => subst b1; exact ⟨rfl, b2, b3⟩
      | some l =>
        subst b1
        simp only [asPrice]
        obtain ⟨c1, c2, c3⟩ := next_col b2 b3 sym .high "high" (fun _ => rfl)
        rcases hc : s2.fetchCol sym .high "high" with ⟨r3, s3⟩
        rw [hc] at c1 c2 c3
        simp only at c1 c2 c3 ⊢
        generalize barCell s.store sym (s.endIndex sym) "high" = hi at *
        cases hi with
        | none => subst c1; exact ⟨rfl, c2, c3⟩
        | some x =>
          subst c1
          simp only [asPrice]
          obtain ⟨d1, d2, d3⟩ := next_col c2 c3 sym .close "close" (fun _ => rfl)
          rcases hd : s3.fetchCol sym .close "close" with ⟨r4, s4⟩
          rw [hd] at d1 d2 d3
          simp only at d1 d2 d3 ⊢
          generalize barCell s.store sym (s.endIndex sym) "close" = cl at *
          cases cl with
          | none => subst d1; exact ⟨rfl, d2, d3⟩
          | some y =>
            subst d1
            refine ⟨?_, d2, d3⟩
            simp only [asPrice, mean4]

theorem hasBarOnRaw_spec (s : PriceScope) (sym : Sym) (d : Date) :
    s.hasBarOnRaw sym d = decide (barDate s.store sym (s.endIndex sym) = some d) := by
  unfold PriceScope.hasBarOnRaw barDate
  simp only
  by_cases h0 : s.endIndex sym ≤ 0
  · have : s.endIndex sym = 0 := by omega
    rw [if_pos h0, this]
    cases s.store.arrays sym <;> simp
  · rw [if_neg h0]
    cases s.store.arrays sym with
    | none => simp
    | some a =>
      have hb : ((some a).bind fun a => (a.dates.take (s.endIndex sym)).getLast?) =
          (a.dates.take (s.endIndex sym))[(a.dates.take (s.endIndex sym)).length - 1]? := by
        rw [Option.bind_some, List.getLast?_eq_getElem?]
      simp only [hb]
      simp only [List.length_take, List.getElem?_take]
      have e : (if s.endIndex sym > a.dates.length then a.dates.length else s.endIndex sym) =
          min (s.endIndex sym) a.dates.length := by
        split <;> omega
      have e2 : min (s.endIndex sym) a.dates.length - 1 < s.endIndex sym := by omega
      simp only [e, e2, if_true]
      exact Bool.beq_eq_decide_eq _ _

/-- The first `n` bars of a symbol. -/
def Spec.barsUpTo (n : Nat) (a : SymArrays) : SymArrays where
  dates := a.dates.take n
  col c := (a.col c).map (fun arr => arr.take n)

/-- What a strategy or the portfolio reads of a bar. -/
inductive Spec.BarRead where
  | price (sym : Sym) (p : FillPrice)
  | hasBar (sym : Sym) (date : Date)
  | ohlc (sym : Sym) (date : Date)

/-- The answer to a read. -/
inductive Spec.BarAnswer where
  | price (r : Except PriceErr Cell)
  | hasBar (b : Bool)
  | ohlc (r : Cell × Cell × Cell)

/-- A read through the caches. -/
def PriceScope.read (s : PriceScope) : BarRead → BarAnswer × PriceScope
  | .price sym p => let r := s.fetchFloat sym p; (.price r.1, r.2)
  | .hasBar sym d => let r := s.hasBarOn sym d; (.hasBar r.1, r.2)
  | .ohlc sym d => let r := s.barOhlc sym d; (.ohlc r.1, r.2)

/-- The cent-rounded price when rounding is on. -/
def Spec.filled (round : Bool) (v : Cell) : Cell := if round then v.map roundCents else v

/-- The answer for the bar each symbol is at: the last of its first `idx sym` bars.
A price type is the price of that bar; a function price is given the symbol's bars
up to it; a bar of a date is that bar, if it has the date. -/
def Spec.answer (store : Store) (round : Bool) (idx : Sym → Nat) : BarRead → BarAnswer
  | .price sym (.type p) =>
    .price (asPrice ((Spec.price (barCell store sym (idx sym)) p).map (Spec.filled round)))
  | .price _ (.value v) => .price (.ok (Spec.filled round (some v)))
  | .price sym (.fn f) => .price (.ok (Spec.filled round (f sym ((store.arrays sym).map (barsUpTo (idx sym))))))
  | .hasBar sym d => .hasBar (decide (barDate store sym (idx sym) = some d))
  | .ohlc sym d =>
    if barDate store sym (idx sym) = some d then
      .ohlc ((barCell store sym (idx sym) "close").join, (barCell store sym (idx sym) "low").join,
        (barCell store sym (idx sym) "high").join)
    else .ohlc (none, none, none)

/-- Arrays of a symbol all have the length of its dates. -/
def Spec.Rectangular (s : Store) : Prop :=
  ∀ sym a, s.arrays sym = some a → ∀ c arr, a.col c = some arr → arr.length = a.dates.length

theorem barOhlcRaw_spec {s : PriceScope} (hr : Rectangular s.store) (sym : Sym) (d : Date) :
    BarAnswer.ohlc (s.barOhlcRaw sym d) = answer s.store s.round s.endIndex (.ohlc sym d) := by
  unfold PriceScope.barOhlcRaw answer barDate barCell
  simp only
  by_cases h0 : s.endIndex sym ≤ 0
  · have : s.endIndex sym = 0 := by omega
    rw [if_pos h0, this]
    cases s.store.arrays sym <;> simp
  · rw [if_neg h0]
    cases ha : s.store.arrays sym with
    | none => simp
    | some a =>
      simp only [Option.bind_some]
      have e : (if s.endIndex sym > a.dates.length then a.dates.length else s.endIndex sym) =
          min (s.endIndex sym) a.dates.length := by
        split <;> omega
      have hd : (a.dates.take (s.endIndex sym)).getLast? =
          a.dates[min (s.endIndex sym) a.dates.length - 1]? := by
        rw [List.getLast?_eq_getElem?, List.length_take, List.getElem?_take, if_pos (by omega)]
      have hc : ∀ c, (a.col c).bind (fun arr => arr[min (s.endIndex sym) a.dates.length - 1]?) =
          (a.col c).bind (fun arr => (arr.take (s.endIndex sym)).getLast?) := by
        intro c
        cases hcc : a.col c with
        | none => rfl
        | some arr =>
          simp only [Option.bind_some]
          rw [List.getLast?_eq_getElem?, List.length_take, List.getElem?_take, if_pos (by omega),
            hr sym a ha c arr hcc]
      rw [e, hd]
      by_cases hx : a.dates[min (s.endIndex sym) a.dates.length - 1]? = some d
      · rw [if_neg (by simpa using hx), if_pos hx]
        simp only [hc]
      · rw [if_pos hx, if_neg hx]

theorem read_good {s : PriceScope} (hr : Rectangular s.store) (h : s.Current) (r : BarRead) :
    (s.read r).1 = answer s.store s.round s.endIndex r ∧ (s.read r).2.Current ∧
    (s.read r).2.store = s.store ∧ (s.read r).2.endIndex = s.endIndex ∧
    (s.read r).2.round = s.round := by
  obtain ⟨hb, hh, ho⟩ := h
  cases r with
  | price sym p =>
    cases p with
    | type p =>
      obtain ⟨g1, g2, g3⟩ := fetchPriceType_good hb sym p
      unfold PriceScope.read PriceScope.fetchFloat
      simp only
      rcases hf : s.fetchPriceType sym p with ⟨q, s'⟩
      rw [hf] at g1 g2 g3
      simp only at g1 g2 g3
      have hcur : s'.Current := by
        refine ⟨g2, ?_, ?_⟩
        · intro sym d b hbd
          rw [g3.1, g3.2.1]
          exact hh sym d b (by rw [← g3.2.2.2.1]; exact hbd)
        · intro sym d x hx
          have := ho sym d x (by rw [← g3.2.2.2.2]; exact hx)
          rw [this]
          unfold PriceScope.barOhlcRaw
          rw [g3.1, g3.2.1]
      simp only [answer]
      generalize Spec.price (barCell s.store sym (s.endIndex sym)) p = want at *
      cases want with
      | none => subst g1; exact ⟨rfl, hcur, g3.1, g3.2.1, g3.2.2.1⟩
      | some v => subst g1; exact ⟨rfl, hcur, g3.1, g3.2.1, g3.2.2.1⟩
    | value v => exact ⟨rfl, ⟨hb, hh, ho⟩, rfl, rfl, rfl⟩
    | fn f => exact ⟨rfl, ⟨hb, hh, ho⟩, rfl, rfl, rfl⟩
  | hasBar sym d =>
    unfold PriceScope.read PriceScope.hasBarOn answer
    simp only
    rcases Option.eq_none_or_eq_some (cacheGet s.hasBarCache (sym, d)) with hn | ⟨b, hb'⟩
    · rw [hn]
      simp only
      refine ⟨by rw [hasBarOnRaw_spec], ⟨hb, ?_, ho⟩, by simp, by simp, by simp⟩
      intro sym' d' b' hl
      simp only [cacheGet] at hl
      split at hl
      · rename_i hk
        obtain ⟨rfl, rfl⟩ := Prod.mk.inj hk
        rw [← Option.some.inj hl, hasBarOnRaw_spec]
      · exact hh sym' d' b' hl
    · rw [hb']
      exact ⟨by rw [hh sym d b hb'], ⟨hb, hh, ho⟩, rfl, rfl, rfl⟩
  | ohlc sym d =>
    unfold PriceScope.read PriceScope.barOhlc
    simp only
    rcases Option.eq_none_or_eq_some (cacheGet s.ohlcCache (sym, d)) with hn | ⟨b, hb'⟩
    · rw [hn]
      simp only
      refine ⟨barOhlcRaw_spec hr sym d, ⟨hb, hh, ?_⟩, by simp, by simp, by simp⟩
      intro sym' d' b' hl
      simp only [cacheGet] at hl
      split at hl
      · rename_i hk
        obtain ⟨rfl, rfl⟩ := Prod.mk.inj hk
        exact (Option.some.inj hl).symm
      · exact ho sym' d' b' hl
    · rw [hb']
      refine ⟨?_, ⟨hb, hh, ho⟩, rfl, rfl, rfl⟩
      rw [ho sym d b hb']
      exact barOhlcRaw_spec hr sym d

/-- Reads in turn. -/
def PriceScope.reads (s : PriceScope) : List BarRead → List BarAnswer × PriceScope
  | [] => ([], s)
  | r :: rest =>
    let a := s.read r
    let as := a.2.reads rest
    (a.1 :: as.1, as.2)

/-- The bars of a run, each with its active symbols and what is read on it: the bar
loop clears the caches, moves the active symbols on, and then reads
(strategy.py:857-885). -/
def PriceScope.bars (s : PriceScope) : List (List Sym × List BarRead) → List (List BarAnswer)
  | [] => []
  | (active, rs) :: rest =>
    let a := (s.resetBar.advance active).reads rs
    a.1 :: a.2.bars rest

/-- The answers each bar should give, from the number of bars each symbol has had. -/
def Spec.answers (store : Store) (round : Bool) (idx : Sym → Nat) :
    List (List Sym × List BarRead) → List (List BarAnswer)
  | [] => []
  | (active, rs) :: rest =>
    let idx := fun x => idx x + active.count x
    rs.map (answer store round idx) :: Spec.answers store round idx rest

/-- C75.  Over any bars, any active symbols and any reads on each, every answer is
that of the current bar: the per-bar caches are never stale. -/
theorem prices_current {s : PriceScope} (hr : Rectangular s.store)
    (bars : List (List Sym × List BarRead)) :
    s.bars bars = answers s.store s.round s.endIndex bars := by
  have many : ∀ (rs : List BarRead) (s : PriceScope), Rectangular s.store → s.Current →
      (s.reads rs).1 = rs.map (answer s.store s.round s.endIndex) ∧
      (s.reads rs).2.store = s.store ∧ (s.reads rs).2.endIndex = s.endIndex ∧
      (s.reads rs).2.round = s.round := by
    intro rs
    induction rs with
    | nil => intro s _ _; exact ⟨rfl, rfl, rfl, rfl⟩
    | cons r rest ih =>
      intro s hrs hs
      obtain ⟨g1, g2, g3, g4, g5⟩ := read_good hrs hs r
      obtain ⟨i1, i2, i3, i4⟩ := ih _ (by rw [g3]; exact hrs) g2
      unfold PriceScope.reads
      simp only [List.map_cons]
      rw [g1, i1, g3, g4, g5]
      exact ⟨rfl, i2.trans g3, i3.trans g4, i4.trans g5⟩
  induction bars generalizing s with
  | nil => rfl
  | cons b rest ih =>
    obtain ⟨active, rs⟩ := b
    have hcur : (s.resetBar.advance active).Current := by
      refine ⟨?_, ?_, ?_⟩ <;> intro a b c h <;> cases h
    obtain ⟨m1, m2, m3, m4⟩ := many rs (s.resetBar.advance active) hr hcur
    unfold PriceScope.bars answers
    simp only
    rw [m1, ih (by rw [m2]; exact hr), m2, m3, m4]
    rfl

/-! ## Predictions (C40) -/

/-- The value a model predicts from an input: its only prediction, or the last one if there is one per
row.  Any other number of predictions is an error. -/
def Spec.modelValue {α : Type} (predict : List α → List Cell) (input : List α) : Except PredErr Cell :=
  match predict input with
  | [] => .error .noPredictions
  | [v] => .ok v
  | v :: w :: vs =>
    if vs.length + 2 = input.length then .ok ((w :: vs).getLast (by simp)) else .error .wrongLength

theorem predictScalar_modelValue {α : Type} (predict : List α → List Cell) (input : List α) :
    predictScalar predict input = modelValue predict input := by
  unfold predictScalar modelValue
  rcases predict input with _ | ⟨v, _ | ⟨w, vs⟩⟩
  · rfl
  · simp
  · simp only [List.getLast?_cons_cons, List.getLast?_eq_some_getLast (List.cons_ne_nil w vs)]
    simp only [List.length_cons]
    by_cases h : vs.length + 1 + 1 = input.length
    · rw [if_pos h, if_neg (by omega)]
    · rw [if_neg h, if_pos (by omega)]

/-- The predictions of a per-bar model for the first `n` bars: bar `k` is predicted
from the input up to and including it, and the first failure stops. -/
def Spec.barByBar {α : Type} (predict : List α → List Cell) (input : List α) (n : Nat) :
    Except PredErr (List Cell) :=
  (List.range n).mapM (fun k => modelValue predict (input.take (k + 1)))

theorem barByBar_succ {α : Type} (predict : List α → List Cell) (input : List α) (n : Nat) :
    barByBar predict input (n + 1) =
      match barByBar predict input n with
      | .error x => .error x
      | .ok l =>
        match modelValue predict (input.take (n + 1)) with
        | .error x => .error x
        | .ok v => .ok (l ++ [v]) := by
  unfold barByBar
  rw [List.range_succ, List.mapM_append]
  cases (List.range n).mapM (fun k => modelValue predict (input.take (k + 1))) with
  | error x => rfl
  | ok l =>
    simp only [List.mapM_cons, List.mapM_nil]
    cases modelValue predict (input.take (n + 1)) <;> rfl

theorem barByBar_length {α : Type} {predict : List α → List Cell} {input : List α} :
    ∀ {n : Nat} {l : List Cell}, barByBar predict input n = .ok l → l.length = n := by
  intro n
  induction n with
  | zero => intro l h; cases h; rfl
  | succ n ih =>
    intro l h
    rw [barByBar_succ] at h
    cases hn : barByBar predict input n with
    | error x => rw [hn] at h; cases h
    | ok l' =>
      rw [hn] at h
      simp only at h
      cases hv : modelValue predict (input.take (n + 1)) with
      | error x => rw [hv] at h; cases h
      | ok v =>
        rw [hv] at h
        have := Except.ok.inj h
        rw [← this, List.length_append, ih hn]
        rfl

theorem barByBar_prefix {α : Type} {predict : List α → List Cell} {input : List α} :
    ∀ {n : Nat} {l : List Cell}, barByBar predict input n = .ok l → ∀ {m : Nat}, m ≤ n →
      barByBar predict input m = .ok (l.take m) := by
  intro n
  induction n with
  | zero =>
    intro l h m hm
    have : m = 0 := by omega
    subst this
    cases h
    rfl
  | succ n ih =>
    intro l h m hm
    by_cases hmn : m = n + 1
    · subst hmn
      rw [h, List.take_of_length_le (by rw [barByBar_length h])]
    · rw [barByBar_succ] at h
      cases hn : barByBar predict input n with
      | error x => rw [hn] at h; cases h
      | ok l' =>
        rw [hn] at h
        simp only at h
        cases hv : modelValue predict (input.take (n + 1)) with
        | error x => rw [hv] at h; cases h
        | ok v =>
          rw [hv] at h
          rw [← Except.ok.inj h, ih hn (by omega : m ≤ n),
            List.take_append_of_le_length (by rw [barByBar_length hn]; omega)]

theorem barByBar_error {α : Type} {predict : List α → List Cell} {input : List α} {n : Nat}
    {x : PredErr} (h : barByBar predict input n = .error x) (k : Nat) :
    barByBar predict input (n + k) = .error x := by
  induction k with
  | zero => exact h
  | succ k ih => rw [← Nat.add_assoc, barByBar_succ, ih]

/-- The buffer holds the first bars' predictions. -/
def PerBar.Filled {α : Type} (p : PerBar) (predict : List α → List Cell) (input : List α) : Prop :=
  ∃ l, p.Holds l ∧ barByBar predict input l.length = .ok l

theorem fillPerBar_spec {α : Type} {junk : Nat → Cell} {predict : List α → List Cell} {input : List α} :
    ∀ (n : Nat) {p : PerBar}, p.Filled predict input →
      (fillPerBar junk predict input n p).2.Filled predict input ∧
      (∀ x, (fillPerBar junk predict input n p).1 = some x →
        barByBar predict input (p.filled + n) = .error x) ∧
      ((fillPerBar junk predict input n p).1 = none →
        (fillPerBar junk predict input n p).2.filled = p.filled + n) := by
  intro n
  induction n with
  | zero =>
    intro p h
    exact ⟨h, fun x hx => (nomatch hx), fun _ => rfl⟩
  | succ n ih =>
    intro p h
    obtain ⟨l, hl, hb⟩ := h
    unfold fillPerBar
    rw [predictScalar_modelValue]
    have hlen : p.filled = l.length := hl.1
    cases hv : modelValue predict (input.take (p.filled + 1)) with
    | error x =>
      refine ⟨⟨l, hl, hb⟩, ?_, fun hx => (nomatch hx)⟩
      intro y hy
      have hxy : x = y := Option.some.inj hy
      subst hxy
      have : barByBar predict input (p.filled + 1) = .error x := by
        rw [barByBar_succ, hlen, hb]
        simp only
        rw [← hlen, hv]
      have h2 := barByBar_error this n
      rw [show p.filled + (n + 1) = p.filled + 1 + n by omega]
      exact h2
    | ok v =>
      simp only
      have hp : (p.append junk v).Filled predict input := by
        refine ⟨l ++ [v], perBar_append hl v, ?_⟩
        rw [List.length_append, List.length_singleton, barByBar_succ, hb]
        simp only
        rw [← hlen, hv]
      have hf : (p.append junk v).filled = p.filled + 1 := by
        have := (perBar_append (junk := junk) hl v).1
        rw [this, List.length_append, hlen]
        rfl
      obtain ⟨i1, i2, i3⟩ := ih hp
      refine ⟨i1, ?_, ?_⟩
      · intro x hx
        have := i2 x hx
        rw [hf] at this
        rw [show p.filled + (n + 1) = p.filled + 1 + n by omega]
        exact this
      · intro hx
        rw [i3 hx, hf]
        omega

/-- The buffer after reads at the given end indexes. -/
def perBarAfter {α : Type} (junk : Nat → Cell) (predict : List α → List Cell) (input : List α)
    (reads : List (Option Int)) : PerBar :=
  reads.foldl (fun p e => (fetchPerBar junk predict input p e).2) {}

theorem fetchPerBar_spec {α : Type} {junk : Nat → Cell} {predict : List α → List Cell} {input : List α}
    {p : PerBar} (h : p.Filled predict input) (e : Option Int) :
    (fetchPerBar junk predict input p e).2.Filled predict input ∧
    (∀ n : Nat, e = some (n : Int) →
      (fetchPerBar junk predict input p e).1 = barByBar predict input n) := by
  unfold fetchPerBar
  simp only
  obtain ⟨h1, h2, h3⟩ := fillPerBar_spec (junk := junk) ((e.getD input.length - p.filled).toNat) h
  rcases hf : fillPerBar junk predict input (e.getD input.length - p.filled).toNat p with ⟨r, q⟩
  rw [hf] at h1 h2 h3
  simp only at h1 h2 h3
  obtain ⟨l, hl, hb⟩ := h
  have hlen : p.filled = l.length := hl.1
  cases r with
  | some x =>
    refine ⟨h1, ?_⟩
    intro n he
    subst he
    simp only [Option.getD_some] at h2
    have hx := h2 x rfl
    by_cases hn : n ≤ p.filled
    · have : ((n : Int) - p.filled).toNat = 0 := by omega
      rw [this, hlen, Nat.add_zero, hb] at hx
      cases hx
    · have : p.filled + ((n : Int) - p.filled).toNat = n := by omega
      rw [this] at hx
      exact hx.symm
  | none =>
    refine ⟨h1, ?_⟩
    intro n he
    subst he
    simp only [Option.getD_some] at h3
    have hq := h3 trivial
    obtain ⟨l', hl', hb'⟩ := h1
    have hq' : q.filled = l'.length := hl'.1
    simp only
    rw [perBar_values hl', Int.toNat_natCast, hq', List.take_length]
    unfold sliceTo
    simp only
    rw [if_neg (by omega), Int.toNat_natCast, barByBar_prefix hb' (by omega)]

/-- C40 and C42.  Whatever was read before, a read of a per-bar model at bar `n`
gives the predictions made bar by bar, each from the input up to its own bar. -/
theorem per_bar_predictions {α : Type} (junk : Nat → Cell) (predict : List α → List Cell)
    (input : List α) (reads : List (Option Int)) (n : Nat) :
    (fetchPerBar junk predict input (perBarAfter junk predict input reads) (some (n : Int))).1 =
      barByBar predict input n := by
  have hf : (perBarAfter junk predict input reads).Filled predict input := by
    unfold perBarAfter
    have : ∀ (rs : List (Option Int)) (p : PerBar), p.Filled predict input →
        (rs.foldl (fun p e => (fetchPerBar junk predict input p e).2) p).Filled predict input := by
      intro rs
      induction rs with
      | nil => intro p h; exact h
      | cons r rs ih => intro p h; exact ih _ (fetchPerBar_spec h r).1
    exact this reads {} ⟨[], ⟨rfl, le_refl _, rfl⟩, rfl⟩
  exact (fetchPerBar_spec hf _).2 n rfl

/-- C40.  Predictions of a per-bar model read at bar `n` do not depend on the input
after it, for any model and whatever was read before. -/
theorem per_bar_no_future {α : Type} (junk : Nat → Cell) (predict : List α → List Cell)
    {input input' : List α} (reads reads' : List (Option Int)) {n : Nat}
    (h : input.take n = input'.take n) :
    (fetchPerBar junk predict input (perBarAfter junk predict input reads) (some (n : Int))).1 =
    (fetchPerBar junk predict input' (perBarAfter junk predict input' reads')
      (some (n : Int))).1 := by
  rw [per_bar_predictions, per_bar_predictions]
  unfold barByBar
  have : ∀ l : List Nat, (∀ k ∈ l, k < n) →
      l.mapM (fun k => modelValue predict (input.take (k + 1))) =
      l.mapM (fun k => modelValue predict (input'.take (k + 1))) := by
    intro l
    induction l with
    | nil => intro _; rfl
    | cons k l ih =>
      intro hl
      rw [List.mapM_cons, List.mapM_cons, ih (fun x hx => hl x (List.mem_cons_of_mem _ hx))]
      have hk : k + 1 ≤ n := hl k List.mem_cons_self
      have e : input.take (k + 1) = input'.take (k + 1) := by
        have := congrArg (List.take (k + 1)) h
        rwa [List.take_take, List.take_take, min_eq_left hk] at this
      rw [e]
  exact this _ (fun k hk => List.mem_range.1 hk)

/-- A model that predicts each row from the rows up to it. -/
def Spec.CausalModel {α : Type} (predict : List α → List Cell) : Prop :=
  (∀ l, (predict l).length = l.length) ∧ ∀ l k, predict (l.take k) = (predict l).take k

/-- The predictions kept after reads. -/
def predsAfter {α : Type} (predict : List α → List Cell) (input : List α)
    (reads : List (Option Int)) : Option (List Cell) :=
  reads.foldl (fun c e => (fetchPreds predict input c e).2) none

theorem predsAfter_cases {α : Type} (predict : List α → List Cell) (input : List α)
    (reads : List (Option Int)) : predsAfter predict input reads = none ∨
      (predsAfter predict input reads = some (predict input) ∧
        (predict input).length = input.length ∧ input ≠ []) := by
  unfold predsAfter
  have : ∀ (rs : List (Option Int)) (c : Option (List Cell)),
      (c = none ∨ (c = some (predict input) ∧ (predict input).length = input.length ∧
        input ≠ [])) →
      (rs.foldl (fun c e => (fetchPreds predict input c e).2) c = none ∨
        (rs.foldl (fun c e => (fetchPreds predict input c e).2) c = some (predict input) ∧
        (predict input).length = input.length ∧ input ≠ [])) := by
    intro rs
    induction rs with
    | nil => intro c h; exact h
    | cons r rs ih =>
      intro c h
      rw [List.foldl_cons]
      apply ih
      unfold fetchPreds
      rcases h with rfl | ⟨rfl, h1, h2⟩
      · simp only
        split
        · left; rfl
        · split
          · left; rfl
          · rename_i h1 h2
            right
            exact ⟨rfl, by simpa using h2, h1⟩
      · right
        exact ⟨rfl, h1, h2⟩
  exact this reads none (Or.inl rfl)

/-- C40.  The cached predictions read at bar `n` are the first `n` of those made for
the whole window, whatever was read before; for a model that predicts each row from
the rows up to it they are its predictions for the first `n` rows alone.  A model
that returns another number of predictions raises. -/
theorem predictions_read {α : Type} (predict : List α → List Cell) {input : List α}
    (hne : input ≠ []) (reads : List (Option Int)) (n : Nat) :
    ((predict input).length ≠ input.length →
      (fetchPreds predict input (predsAfter predict input reads) (some (n : Int))).1 =
        .error .wrongLength) ∧
    ((predict input).length = input.length →
      (fetchPreds predict input (predsAfter predict input reads) (some (n : Int))).1 =
        .ok ((predict input).take n)) ∧
    (CausalModel predict →
      (fetchPreds predict input (predsAfter predict input reads) (some (n : Int))).1 =
        .ok (predict (input.take n))) := by
  have main : (predict input).length = input.length →
      (fetchPreds predict input (predsAfter predict input reads) (some (n : Int))).1 =
        .ok ((predict input).take n) := by
    intro hl
    unfold fetchPreds
    rcases predsAfter_cases predict input reads with h | ⟨h, _, _⟩
    · rw [h]
      simp only
      rw [if_neg hne, if_neg (by simpa using hl)]
      unfold sliceTo
      simp only
      rw [if_neg (by omega), Int.toNat_natCast]
    · rw [h]
      unfold sliceTo
      simp only
      rw [if_neg (by omega), Int.toNat_natCast]
  refine ⟨?_, main, ?_⟩
  · intro hl
    unfold fetchPreds
    rcases predsAfter_cases predict input reads with h | ⟨_, h, _⟩
    · rw [h]
      simp only
      rw [if_neg hne, if_pos hl]
    · exact absurd h hl
  · intro hc
    rw [main (hc.1 input), hc.2]

/-! ## Concrete cases -/

example : roundCents (10125 / 1000) = 1013 / 100 := by decide +kernel
example : roundCents (-(10125 / 1000)) = -(1013 / 100) := by decide +kernel
example := cent_halves 1012 (by decide)

/-- A bar: open 10, low 9, high 12, close 11. -/
def Demo.ohlcCells : String → Option Cell
  | "open" => some (some 10) | "low" => some (some 9)
  | "high" => some (some 12) | "close" => some (some 11) | _ => none

example := (mixed_prices_in_range (c := Demo.ohlcCells) (l := 9) (h := 12) rfl rfl
  (by norm_num)).2 10 11 rfl rfl (by norm_num) (by norm_num) (by norm_num) (by norm_num)

/-- One symbol with two bars. -/
def Demo.priceStore : Store where
  symbols := ["A"]
  arrays x := if x = "A" then
    some { dates := [1, 2], col := fun c => if c = "close" then some [some 10, some 11] else none }
    else none

theorem Demo.priceStore_rect : Rectangular Demo.priceStore := by
  intro sym a h c arr hc
  unfold Demo.priceStore at h
  simp only at h
  split at h
  · cases h
    simp only at hc ⊢
    split at hc
    · cases hc; rfl
    · cases hc
  · cases h

def Demo.priceScope : PriceScope := { store := Demo.priceStore, endIndex := fun _ => 0, round := true }

example := prices_current (s := Demo.priceScope) Demo.priceStore_rect
  [(["A"], [.price "A" (.type .close), .hasBar "A" 1]), (["A"], [.price "A" (.type .close)])]

/-- The close read on the second bar is the second bar's. -/
example : Demo.priceScope.bars [(["A"], [.price "A" (.type .close), .hasBar "A" 1]),
      (["A"], [.price "A" (.type .close)])] =
    [[.price (.ok (some 10)), .hasBar true], [.price (.ok (some 11))]] := by
  rw [prices_current Demo.priceStore_rect]
  have h1 : Spec.price (barCell Demo.priceStore "A" 1) .close = some (some 10) := by decide +kernel
  have h2 : Spec.price (barCell Demo.priceStore "A" 2) .close = some (some 11) := by decide +kernel
  have r1 : roundCents 10 = 10 := by decide +kernel
  have r2 : roundCents 11 = 11 := by decide +kernel
  have h3 : barDate Demo.priceStore "A" 1 = some 1 := by decide +kernel
  simp [answers, answer, Demo.priceScope, Spec.filled, asPrice, h1, h2, h3, r1, r2]

/-- A model whose prediction is the mean of all rows seen: not causal when run on
the whole window, but served bar by bar it cannot see ahead. -/
def Demo.meanModel (l : List ℚ) : List Cell := if l = [] then [] else [some (l.sum / l.length)]

example := per_bar_no_future (fun _ => none) Demo.meanModel (input := [1, 2, 3]) (input' := [1, 2, 9])
  [] [some 3] (n := 2) rfl
example : (fetchPerBar (fun _ => none) Demo.meanModel [1, 3, 5] {} (some 2)).1.toOption =
    some [some 1, some 2] := by decide +kernel
example := predictions_read (fun l : List ℚ => l.map (fun x => some (x * 2))) (input := [1, 2, 3]) (by decide)
  [some 3] 2

end PyBroker
