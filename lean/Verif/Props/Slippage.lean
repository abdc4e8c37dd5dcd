import Verif.Slippage
import Mathlib.Tactic.Linarith
import Mathlib.Tactic.Ring
import Mathlib.Tactic.FieldSimp
import Mathlib.Tactic.Positivity
import Mathlib.Tactic.IntervalCases

/-!
# Properties of the slippage models (C25, C26)
-/

namespace PyBroker.Slippage

open PyBroker

/-- The new price is no better than the old one for this side. -/
def Adverse (side : Side) (old new : ℚ) : Prop :=
  match side with
  | .buy => old ≤ new
  | .sell => new ≤ old

/-! ## C25: fixed slippage -/

/-- The constructor accepts exactly the basis points from 0 to below 10000. -/
theorem fixed_accepts (bps : ℚ) : fixedInit bps ≠ none ↔ 0 ≤ bps ∧ bps < 10000 := by
  unfold fixedInit
  by_cases h1 : bps < 0
  · simp [h1]
  · by_cases h2 : bps ≥ 10000
    · rw [if_neg h1, if_pos h2]
      simp only [ne_eq, not_true_eq_false, false_iff, not_and, not_lt]
      exact fun _ => h2
    · rw [if_neg h1, if_neg h2]
      simp only [ne_eq, reduceCtorEq, not_false_eq_true, true_iff]
      exact ⟨not_lt.1 h1, not_le.1 h2⟩

/-- A fill under fixed slippage keeps its shares, is never better, stays
positive, and is off by exactly `bps` hundredths of a percent. -/
theorem fixed_slippage {bps b : ℚ} (hb : fixedInit bps = some b) (c : Ctx) (hf : 0 < c.fill) :
    (fixedApply b c).1 = c.shares ∧ Adverse c.side c.fill (fixedApply b c).2 ∧
      0 < (fixedApply b c).2 ∧
      |(fixedApply b c).2 - c.fill| = c.fill * bps / 10000 ∧
      (bps = 0 → (fixedApply b c).2 = c.fill) := by
  have hne : fixedInit bps ≠ none := by rw [hb]; simp
  obtain ⟨h0, h1⟩ := (fixed_accepts bps).1 hne
  have hbb : b = bps := by
    unfold fixedInit at hb
    rw [if_neg (not_lt.2 h0), if_neg (not_le.2 h1)] at hb
    exact (Option.some.inj hb).symm
  subst hbb
  have hval : (fixedApply b c).2 = match c.side with
      | .buy => c.fill * (1 + b / 10000)
      | .sell => c.fill * (1 - b / 10000) := by
    unfold fixedApply fixedAdjust fixedMultiplier
    by_cases hz : b = 0
    · simp only [hz, if_true]
      cases c.side <;> simp
    · simp only [hz, if_false]
      cases c.side <;> rfl
  have hq : 0 ≤ c.fill * b / 10000 := by positivity
  refine ⟨rfl, ?_, ?_, ?_, ?_⟩
  · rw [hval]
    unfold Adverse
    cases c.side <;> simp only <;> linarith
  · rw [hval]
    cases c.side <;> simp only
    · positivity
    · apply mul_pos hf; linarith
  · rw [hval]
    cases c.side <;> simp only
    · rw [show c.fill * (1 + b / 10000) - c.fill = c.fill * b / 10000 by ring]
      exact abs_of_nonneg hq
    · rw [show c.fill * (1 - b / 10000) - c.fill = -(c.fill * b / 10000) by ring, abs_neg]
      exact abs_of_nonneg hq
  · intro hz
    rw [hval, hz]
    cases c.side <;> simp

/-! ## C26: volatility slippage -/

/-- No bar has its low above its high. -/
def Sane (bars : List (Option ℚ × Option ℚ × Option ℚ)) : Prop :=
  ∀ x ∈ bars, ∀ h l, x.1 = some h → x.2.1 = some l → l ≤ h

/-- The true range is the largest of the three ranges of the bar. -/
theorem trueRange_eq (pc h l : ℚ) :
    trueRange (some pc) (some h) (some l) = some (max (max (h - l) (h - pc)) (pc - l)) := by
  unfold trueRange
  simp only [subN, ltN, decide_eq_true_eq]
  by_cases h1 : h - l < h - pc
  · rw [if_pos h1, max_eq_right h1.le]
    by_cases h2 : h - pc < pc - l
    · rw [if_pos (decide_eq_true h2), max_eq_right h2.le]
    · rw [if_neg (by simpa using h2), max_eq_left (not_lt.1 h2)]
  · rw [if_neg h1, max_eq_left (not_lt.1 h1)]
    by_cases h2 : h - l < pc - l
    · rw [if_pos (decide_eq_true h2), max_eq_right h2.le]
    · rw [if_neg (by simpa using h2), max_eq_left (not_lt.1 h2)]

theorem trueRange_nonneg {pc h l : Option ℚ} {t : ℚ} (ht : trueRange pc h l = some t)
    (hs : ∀ x y, h = some x → l = some y → y ≤ x) : 0 ≤ t := by
  cases h with
  | none => cases l <;> cases pc <;> simp [trueRange, subN, ltN] at ht
  | some x =>
    cases l with
    | none => cases pc <;> simp [trueRange, subN, ltN] at ht
    | some y =>
      have hxy := hs x y rfl rfl
      cases pc with
      | none =>
        simp [trueRange, subN, ltN] at ht
        linarith
      | some c =>
        rw [trueRange_eq] at ht
        rw [← Option.some.inj ht]
        exact (sub_nonneg.2 hxy).trans ((le_max_left _ _).trans (le_max_left _ _))

theorem atrTotal_nonneg {bars : List (Option ℚ × Option ℚ × Option ℚ)} (hs : Sane bars) :
    ∀ {total prev : Option ℚ} {t : ℚ}, (∀ x, total = some x → 0 ≤ x) →
      atrTotal total prev bars = some t → 0 ≤ t := by
  induction bars with
  | nil =>
    intro total prev t h0 h
    exact h0 t h
  | cons b bars ih =>
    intro total prev t h0 h
    obtain ⟨hi, lo, cl⟩ := b
    refine ih (fun x hx => hs x (List.mem_cons_of_mem _ hx)) ?_ h
    intro x hx
    cases total with
    | none => simp [addN] at hx
    | some a =>
      cases htr : trueRange prev hi lo with
      | none => rw [htr] at hx; simp [addN] at hx
      | some r =>
        rw [htr] at hx
        have hr := trueRange_nonneg htr (hs (hi, lo, cl) List.mem_cons_self)
        have ha := h0 a rfl
        have : a + r = x := Option.some.inj hx
        linarith

theorem lastAtr_nonneg {n : Nat} {bars : List (Option ℚ × Option ℚ × Option ℚ)} {a : ℚ}
    (hs : Sane bars) (h : lastAtr n bars = some a) : 0 ≤ a := by
  unfold lastAtr at h
  cases bars with
  | nil => cases h
  | cons b bars =>
    obtain ⟨hi, lo, cl⟩ := b
    simp only [Option.map_eq_some_iff] at h
    obtain ⟨t, ht, rfl⟩ := h
    have := atrTotal_nonneg (fun x hx => hs x (List.mem_cons_of_mem _ hx))
      (fun x hx => by have := Option.some.inj hx; rw [← this]) ht
    positivity

/-- The bars of the context up to the fill bar have no low above its high. -/
def SaneBars (b : Bars) : Prop :=
  ∀ high low close, b.cols = some (high, low, close) → ∀ n,
    Sane ((lastN n high).zip ((lastN n low).zip (lastN n close)))

theorem fillAtr_nonneg {n : Nat} {b : Bars} {a : ℚ} (hs : SaneBars b)
    (h : fillAtr n b = some a) : 0 ≤ a := by
  unfold fillAtr at h
  simp only at h
  split at h
  · cases h
  · split at h
    · cases h
    · rename_i high low close hc
      split at h
      · cases h
      · exact lastAtr_nonneg (hs high low close hc _) h

/-- A fill under volatility slippage keeps its shares, is never better, and
stays positive: a sale never falls below one percent of the fill price.  Where
an ATR exists and the floor is not hit, the price moves by exactly `scale` times
the ATR; where none exists it is unchanged. -/
theorem volatility_slippage {period : Int} {scale : ℚ} {n : Nat} {sc : ℚ}
    (hi : volatilityInit period scale = some (n, sc)) (c : Ctx) (hf : 0 < c.fill)
    (hs : ∀ b, c.bars = some b → SaneBars b) :
    (volatilityApply n sc c).1 = c.shares ∧ Adverse c.side c.fill (volatilityApply n sc c).2 ∧
      c.fill / 100 ≤ (volatilityApply n sc c).2 ∧ 0 < (volatilityApply n sc c).2 ∧
      (∀ b a, c.bars = some b → fillAtr n b = some a →
        (volatilityApply n sc c).2 = (match c.side with
          | .buy => c.fill + scale * a
          | .sell => max (c.fill - scale * a) (c.fill / 100))) ∧
      ((∀ b, c.bars = some b → fillAtr n b = none) → (volatilityApply n sc c).2 = c.fill) := by
  have hsc : 0 ≤ scale ∧ sc = scale := by
    unfold volatilityInit at hi
    split at hi
    · cases hi
    · split at hi
      · cases hi
      · rename_i h2
        have := Prod.mk.inj (Option.some.inj hi)
        exact ⟨not_lt.1 h2, this.2.symm⟩
  obtain ⟨h0, rfl⟩ := hsc
  have hfl : c.fill * (1 / 100) = c.fill / 100 := by ring
  have hval : ∀ b a, c.bars = some b → fillAtr n b = some a →
      (volatilityApply n sc c).2 = (match c.side with
          | .buy => c.fill + sc * a
          | .sell => max (c.fill - sc * a) (c.fill / 100)) ∧ 0 ≤ a := by
    intro b a hb ha
    have hann := fillAtr_nonneg (hs b hb) ha
    refine ⟨?_, hann⟩
    have hpa : 0 ≤ sc * a := mul_nonneg h0 hann
    unfold volatilityApply
    by_cases hz : sc = 0
    · rw [if_pos hz, hz]
      cases c.side
      · simp
      · simp only [zero_mul, sub_zero]
        rw [max_eq_left (by linarith)]
    · rw [if_neg hz, hb]
      simp only [ha, hfl]
      unfold adversePrice
      cases c.side
      · simp only
        rw [if_neg (by linarith)]
      · simp only
        by_cases hlt : c.fill - sc * a < c.fill / 100
        · rw [if_pos hlt, max_eq_right hlt.le]
        · rw [if_neg hlt, max_eq_left (not_lt.1 hlt)]
  have hnone : (∀ b, c.bars = some b → fillAtr n b = none) →
      (volatilityApply n sc c).2 = c.fill := by
    intro hn
    unfold volatilityApply
    split
    · rfl
    · cases hb : c.bars with
      | none => rfl
      | some b => simp only [hn b hb]
  have hall : Adverse c.side c.fill (volatilityApply n sc c).2 ∧
      c.fill / 100 ≤ (volatilityApply n sc c).2 := by
    by_cases hex : ∃ b a, c.bars = some b ∧ fillAtr n b = some a
    · obtain ⟨b, a, hb, ha⟩ := hex
      obtain ⟨hv, hann⟩ := hval b a hb ha
      have hpa : 0 ≤ sc * a := mul_nonneg h0 hann
      rw [hv]
      unfold Adverse
      cases c.side
      · simp only
        exact ⟨by linarith, by linarith⟩
      · simp only
        exact ⟨max_le (by linarith) (by linarith), le_max_right _ _⟩
    · have : (volatilityApply n sc c).2 = c.fill := hnone (fun b hb => by
        cases ha : fillAtr n b with
        | none => rfl
        | some a => exact absurd ⟨b, a, hb, ha⟩ hex)
      rw [this]
      unfold Adverse
      exact ⟨by cases c.side <;> exact le_refl _, by linarith⟩
  refine ⟨?_, hall.1, hall.2, lt_of_lt_of_le (by linarith) hall.2,
    fun b a hb ha => (hval b a hb ha).1, hnone⟩
  unfold volatilityApply
  split
  · rfl
  · split
    · rfl
    · split <;> rfl

theorem atrTotal_known : ∀ (bars : List (ℚ × ℚ × ℚ)) (total prev : ℚ),
    atrTotal (some total) (some prev) (bars.map fun b => (some b.1, some b.2.1, some b.2.2)) =
      some (total + (List.zipWith (fun c b => max (max (b.1 - b.2.1) (b.1 - c)) (c - b.2.1))
        (prev :: bars.map fun b => b.2.2) bars).sum) := by
  intro bars
  induction bars with
  | nil => intro total prev; simp [atrTotal]
  | cons b bars ih =>
    intro total prev
    rw [List.map_cons, atrTotal, trueRange_eq]
    simp only [addN]
    rw [ih]
    simp only [List.map_cons, List.zipWith_cons_cons, List.sum_cons]
    congr 1
    ring

/-- The ATR used for a fill: with fewer than `n + 1` bars there is none, and with `n + 1`
known bars it is the mean over the last `n` of them of the true range against the close
before. -/
theorem fill_atr (n : Nat) (b : Bars) :
    (b.endIndex < n + 1 → fillAtr n b = none) ∧
    (∀ high low close, b.cols = some (high, low, close) →
      (high.length < n + 1 ∨ low.length < n + 1 ∨ close.length < n + 1) → fillAtr n b = none) ∧
    (∀ (h0 l0 c0 : List (Option ℚ)) (first : ℚ × ℚ × ℚ) (bars : List (ℚ × ℚ × ℚ)),
      n + 1 ≤ b.endIndex → bars.length = n →
      b.cols = some (h0 ++ (first :: bars).map (fun x => some x.1),
        l0 ++ (first :: bars).map (fun x => some x.2.1),
        c0 ++ (first :: bars).map (fun x => some x.2.2)) →
      fillAtr n b = some ((List.zipWith
        (fun c x => max (max (x.1 - x.2.1) (x.1 - c)) (c - x.2.1))
        ((first :: bars).map fun x => x.2.2) bars).sum / n)) := by
  refine ⟨?_, ?_, ?_⟩
  · intro h
    unfold fillAtr
    simp only
    rw [if_pos h]
  · intro high low close hc h
    unfold fillAtr
    simp only
    split
    · rfl
    · rw [hc]
      simp only
      rw [if_pos h]
  · intro h0 l0 c0 first bars he hlen hc
    have hlast : ∀ (f : ℚ × ℚ × ℚ → ℚ) (pre : List (Option ℚ)),
        lastN (n + 1) (pre ++ (first :: bars).map (fun x => some (f x))) =
          (first :: bars).map (fun x => some (f x)) := by
      intro f pre
      unfold lastN
      have : (pre ++ (first :: bars).map (fun x => some (f x))).length - (n + 1) = pre.length := by
        simp [hlen]
      rw [this, List.drop_left]
    unfold fillAtr
    simp only
    rw [if_neg (by omega), hc]
    simp only
    rw [if_neg (by simp [hlen]), hlast (fun x => x.1), hlast (fun x => x.2.1), hlast (fun x => x.2.2)]
    have hz : ((first :: bars).map (fun x => some x.1)).zip
        (((first :: bars).map (fun x => some x.2.1)).zip ((first :: bars).map (fun x => some x.2.2))) =
        (first :: bars).map (fun x => (some x.1, some x.2.1, some x.2.2)) := by
      rw [List.zip_map', List.zip_map']
    rw [hz, List.map_cons, lastAtr, atrTotal_known]
    simp

/-- Three bars, period 2: true ranges 2 and 3. -/
example : fillAtr 2 ⟨3, some ([some 10, some 11, some 12], [some 9, some 9, some 10],
    [some 9, some 9, some 11]), none⟩ = some (5 / 2) ∧
    fillAtr 2 ⟨2, some ([some 10, some 11, some 12], [some 9, some 9, some 10],
    [some 9, some 9, some 11]), none⟩ = none := by
  decide +kernel

/-- The hypothesis that no low is above its high is needed: the true range of
such a bar is negative, and a buy is filled below its base price. -/
theorem volatility_improves_bad_bar :
    (volatilityApply 1 1 ⟨.buy, 1, 100,
      some ⟨2, some ([some 50, some 48], [some 50, some 52], [some 50, some 50]), none⟩, true⟩).2 =
      98 := by decide +kernel

/-! ## C26: volume slippage -/

theorem truncQ_le {x : ℚ} (h : 0 ≤ x) : (truncQ x : ℚ) ≤ x ∧ (0 : ℚ) ≤ (truncQ x : ℚ) := by
  unfold truncQ
  rw [if_neg (not_lt.2 h)]
  exact ⟨Int.floor_le x, by exact_mod_cast Int.floor_nonneg.2 h⟩

theorem cap_pos {p : VolumeParams} {l : ℚ} (h : p.cap = some l) : 0 < l ∧ p.limit = some l := by
  unfold VolumeParams.cap at h
  split at h
  · split at h
    · have := Option.some.inj h
      subst this
      exact ⟨by assumption, by assumption⟩
    · cases h
  · cases h

theorem cappedShares_bounds {p : VolumeParams} {c : Ctx} {v : ℚ} (hv : 0 < v)
    (hs : 0 ≤ c.shares) : 0 ≤ cappedShares p c v ∧ cappedShares p c v ≤ c.shares ∧
      ∀ l, p.cap = some l → cappedShares p c v ≤ l * v := by
  unfold cappedShares
  cases hc : p.cap with
  | none => exact ⟨hs, le_refl _, by simp⟩
  | some l =>
    obtain ⟨hl, _⟩ := cap_pos hc
    have hlv : 0 < l * v := mul_pos hl hv
    simp only
    split
    · rename_i hlt
      split
      · exact ⟨hlv.le, hlt.le, fun l' h => by cases h; exact le_refl _⟩
      · obtain ⟨t1, t2⟩ := truncQ_le hlv.le
        exact ⟨t2, t1.trans hlt.le, fun l' h => by cases h; exact t1⟩
    · rename_i hlt
      exact ⟨hs, le_refl _, fun l' h => by cases h; exact not_lt.1 hlt⟩

theorem impactPrice_bounds {p : VolumeParams} {c : Ctx} {v s : ℚ} (hf : 0 < c.fill) :
    Adverse c.side c.fill (impactPrice p c v s) ∧ c.fill / 100 ≤ impactPrice p c v s := by
  have hfl : c.fill * (1 / 100) = c.fill / 100 := by ring
  have hself : Adverse c.side c.fill c.fill ∧ c.fill / 100 ≤ c.fill := by
    unfold Adverse
    exact ⟨by cases c.side <;> exact le_refl _, by linarith⟩
  unfold impactPrice
  by_cases hc : p.impact > 0 ∧ s > 0
  · rw [if_pos hc]
    have him : 0 ≤ p.impact * (s / v) * (s / v) := by
      rw [mul_assoc]
      exact mul_nonneg hc.1.le (mul_self_nonneg _)
    have hfi : 0 ≤ c.fill * (p.impact * (s / v) * (s / v)) := mul_nonneg hf.le him
    unfold Adverse
    cases c.side
    · simp only
      exact ⟨by linarith, by linarith⟩
    · simp only [hfl]
      split
      · exact ⟨by linarith, le_refl _⟩
      · rename_i hlt
        exact ⟨by linarith, not_lt.1 hlt⟩
  · rw [if_neg hc]
    exact hself

/-- A fill under volume slippage never has more shares, is never better, and
stays positive (at least one percent of the fill price); when the bar's volume
is known and a limit is set, it never exceeds the limit's share of the volume. -/
theorem volume_slippage {impact : ℚ} {limit : Option ℚ} {p : VolumeParams}
    (hi : volumeInit impact limit = some p) (c : Ctx) (hf : 0 < c.fill) (hs : 0 ≤ c.shares) :
    0 ≤ (volumeApply p c).1 ∧ (volumeApply p c).1 ≤ c.shares ∧
      Adverse c.side c.fill (volumeApply p c).2 ∧ c.fill / 100 ≤ (volumeApply p c).2 ∧
      0 < (volumeApply p c).2 ∧
      (∀ b v l, c.bars = some b → b.volume = some v → limit = some l → 0 < l →
        (volumeApply p c).1 ≤ l * max v 0) := by
  have hp : p.limit = limit := by
    unfold volumeInit at hi
    split at hi
    · cases hi
    · split at hi
      · split at hi
        · cases hi
        · exact (Option.some.inj hi) ▸ rfl
      · exact (Option.some.inj hi) ▸ rfl
  have hself : Adverse c.side c.fill c.fill ∧ c.fill / 100 ≤ c.fill ∧ 0 < c.fill := by
    unfold Adverse
    exact ⟨by cases c.side <;> exact le_refl _, by linarith, hf⟩
  have hcap : ∀ l, limit = some l → 0 < l → p.cap = some l := by
    intro l hl h0
    unfold VolumeParams.cap
    rw [hp, hl]
    simp only
    rw [if_pos h0]
  unfold volumeApply
  split
  · rename_i hoff
    refine ⟨hs, le_refl _, hself.1, hself.2.1, hself.2.2, ?_⟩
    intro b v l _ _ hl h0
    have := hcap l hl h0
    rw [hoff.1] at this
    cases this
  · cases hb : c.bars with
    | none => exact ⟨hs, le_refl _, hself.1, hself.2.1, hself.2.2, by simp⟩
    | some b =>
      simp only
      cases hv : b.volume with
      | none =>
        refine ⟨hs, le_refl _, hself.1, hself.2.1, hself.2.2, ?_⟩
        intro b' v l hb' hv'
        cases hb'
        rw [hv] at hv'
        cases hv'
      | some v =>
        simp only
        by_cases hv0 : v ≤ 0
        · rw [if_pos hv0]
          by_cases hc : p.cap ≠ none
          · rw [if_pos hc]
            refine ⟨le_refl _, hs, hself.1, hself.2.1, hself.2.2, ?_⟩
            intro b' v' l _ _ _ h0
            exact mul_nonneg h0.le (le_max_right _ _)
          · rw [if_neg hc]
            refine ⟨hs, le_refl _, hself.1, hself.2.1, hself.2.2, ?_⟩
            intro b' v' l _ _ hl h0
            exact absurd (by rw [hcap l hl h0]; simp) hc
        · rw [if_neg hv0]
          have hvp : 0 < v := not_le.1 hv0
          obtain ⟨k1, k2, k3⟩ := cappedShares_bounds (p := p) hvp hs
          obtain ⟨i1, i2⟩ := impactPrice_bounds (p := p) (v := v) (s := cappedShares p c v) hf
          refine ⟨k1, k2, i1, i2, lt_of_lt_of_le (by linarith) i2, ?_⟩
          intro b' v' l hb' hv' hl h0
          cases hb'
          rw [hv] at hv'
          cases hv'
          rw [max_eq_left hvp.le]
          exact k3 l (hcap l hl h0)

/-- With whole shares the capped quantity is a whole number or the request. -/
theorem volume_whole_shares {p : VolumeParams} (c : Ctx) (hw : c.fractional = false) :
    (volumeApply p c).1 = c.shares ∨ ∃ k : ℤ, (volumeApply p c).1 = k := by
  unfold volumeApply
  split
  · exact Or.inl rfl
  · split
    · exact Or.inl rfl
    · split
      · exact Or.inl rfl
      · split
        · split
          · exact Or.inr ⟨0, by simp⟩
          · exact Or.inl rfl
        · simp only
          unfold cappedShares
          split
          · exact Or.inl rfl
          · simp only
            split
            · rw [hw]
              exact Or.inr ⟨_, rfl⟩
            · exact Or.inl rfl

/-- The parameters `VolatilitySlippageModel` accepts. -/
theorem volatility_accepts (period : Int) (scale : ℚ) :
    volatilityInit period scale ≠ none ↔ 1 ≤ period ∧ 0 ≤ scale := by
  unfold volatilityInit
  split
  · simp; omega
  · split
    · rename_i h1 h2
      simp [h2]
    · rename_i h1 h2
      simp only [ne_eq, reduceCtorEq, not_false_eq_true, true_iff]
      exact ⟨by omega, not_lt.1 h2⟩

/-- The parameters `VolumeSlippageModel` accepts. -/
theorem volume_accepts (impact : ℚ) (limit : Option ℚ) :
    volumeInit impact limit ≠ none ↔ 0 ≤ impact ∧ ∀ l, limit = some l → 0 ≤ l := by
  unfold volumeInit
  by_cases h1 : impact < 0
  · simp [h1]
  · rw [if_neg h1]
    cases limit with
    | none => simpa using h1
    | some l =>
      simp only
      by_cases h2 : l < 0
      · simp [h2]
      · simp only [h2, if_false, ne_eq, reduceCtorEq, not_false_eq_true, Option.some.injEq, forall_eq', true_iff]
        exact ⟨not_lt.1 h1, not_lt.1 h2⟩

/-- What a volume limit leaves of an order. -/
def limited (limit : Option ℚ) (fractional : Bool) (shares volume : ℚ) : ℚ :=
  match limit with
  | none => shares
  | some l => if 0 < l ∧ l * volume < shares then (if fractional then l * volume else ⌊l * volume⌋) else shares

/-- Volume slippage to the digit: the shares are cut to the limit's share of the volume, to a whole
number unless fractions are enabled, and the price moves by the impact times the square of the share of
the volume taken.  Without a volume nothing changes; on a bar without trades a limit refuses the order. -/
theorem volume_exact {impact : ℚ} {limit : Option ℚ} {p : VolumeParams}
    (hi : volumeInit impact limit = some p) (c : Ctx) (hf : 0 < c.fill) (hs : 0 ≤ c.shares) :
    (∀ b v, c.bars = some b → b.volume = some v → 0 < v →
      (volumeApply p c).1 = limited limit c.fractional c.shares v ∧
      (volumeApply p c).2 = (match c.side with
        | .buy => c.fill * (1 + impact * (limited limit c.fractional c.shares v / v) ^ 2)
        | .sell => max (c.fill * (1 - impact * (limited limit c.fractional c.shares v / v) ^ 2))
            (c.fill / 100))) ∧
    (∀ b v, c.bars = some b → b.volume = some v → v ≤ 0 →
      volumeApply p c = (if ∃ l, limit = some l ∧ 0 < l then 0 else c.shares, c.fill)) ∧
    ((∀ b, c.bars = some b → b.volume = none) → volumeApply p c = (c.shares, c.fill)) := by
  have hp : p.limit = limit ∧ p.impact = impact ∧ 0 ≤ impact := by
    have h0 := ((volume_accepts impact limit).1 (by rw [hi]; simp)).1
    unfold volumeInit at hi
    split at hi
    · cases hi
    · split at hi
      · split at hi
        · cases hi
        · exact (Option.some.inj hi) ▸ ⟨rfl, rfl, h0⟩
      · exact (Option.some.inj hi) ▸ ⟨rfl, rfl, h0⟩
  obtain ⟨hl, him, h0⟩ := hp
  have hcap : ∀ v, 0 < v → cappedShares p c v = limited limit c.fractional c.shares v := by
    intro v hv
    unfold cappedShares VolumeParams.cap limited
    rw [hl]
    cases limit with
    | none => rfl
    | some l =>
      simp only [gt_iff_lt]
      by_cases h : 0 < l
      · simp only [h, if_true, true_and]
        split
        · split
          · rfl
          · rw [truncQ, if_neg (not_lt.2 (mul_nonneg h.le hv.le))]
        · rfl
      · simp [h]
  have hcn : p.cap = none ↔ ¬ ∃ l, limit = some l ∧ 0 < l := by
    unfold VolumeParams.cap
    rw [hl]
    cases limit with
    | none => simp
    | some l => by_cases h : 0 < l <;> simp [h]
  have hlim : p.cap = none → ∀ v, limited limit c.fractional c.shares v = c.shares := by
    intro h v
    have := hcn.1 h
    unfold limited
    cases limit with
    | none => rfl
    | some l =>
      have : ¬ 0 < l := fun h' => this ⟨l, rfl, h'⟩
      simp [this]
  have hpr : ∀ v s, 0 < v → 0 ≤ s → impactPrice p c v s = (match c.side with
        | .buy => c.fill * (1 + impact * (s / v) ^ 2)
        | .sell => max (c.fill * (1 - impact * (s / v) ^ 2)) (c.fill / 100)) := by
    intro v s hv hs
    unfold impactPrice
    rw [him]
    by_cases hc : impact > 0 ∧ s > 0
    · rw [if_pos hc]
      cases c.side with
      | buy => simp only; ring
      | sell =>
        simp only
        rw [show c.fill * (1 / 100) = c.fill / 100 by ring,
          show impact * (s / v) * (s / v) = impact * (s / v) ^ 2 by ring]
        split
        · rename_i h; exact (max_eq_right h.le).symm
        · rename_i h; exact (max_eq_left (not_lt.1 h)).symm
    · rw [if_neg hc]
      have hz : impact * (s / v) ^ 2 = 0 := by
        rcases not_and_or.1 hc with h | h
        · rw [le_antisymm (not_lt.1 h) h0, zero_mul]
        · rw [le_antisymm (not_lt.1 h) hs]; simp
      rw [hz]
      cases c.side with
      | buy => simp
      | sell =>
        simp only [sub_zero, mul_one]
        exact (max_eq_left (by linarith)).symm
  refine ⟨fun b v hb hv hv0 => ?_, fun b v hb hv hv0 => ?_, fun hn => ?_⟩
  · have hss : 0 ≤ limited limit c.fractional c.shares v := by
      rw [← hcap v hv0]
      exact (cappedShares_bounds (p := p) hv0 hs).1
    by_cases hoff : p.cap = none ∧ ¬ p.impact > 0
    · have hva : volumeApply p c = (c.shares, c.fill) := by unfold volumeApply; rw [if_pos hoff]
      rw [hva, ← hpr v _ hv0 hss, hlim hoff.1]
      refine ⟨rfl, ?_⟩
      unfold impactPrice
      rw [if_neg (fun h => hoff.2 h.1)]
    · have hva : volumeApply p c = (cappedShares p c v, impactPrice p c v (cappedShares p c v)) := by
        unfold volumeApply
        rw [if_neg hoff, hb]
        simp only
        rw [hv]
        simp only
        rw [if_neg (not_le.2 hv0)]
      rw [hva, hcap v hv0]
      exact ⟨rfl, hpr v _ hv0 hss⟩
  · unfold volumeApply
    by_cases hoff : p.cap = none ∧ ¬ p.impact > 0
    · rw [if_pos hoff, if_neg (hcn.1 hoff.1)]
    · rw [if_neg hoff, hb]
      simp only
      rw [hv]
      simp only
      rw [if_pos hv0]
      by_cases hc : p.cap = none
      · rw [if_neg (by simp [hc]), if_neg (hcn.1 hc)]
      · rw [if_pos hc, if_pos (by by_contra h; exact hc (hcn.2 h))]
  · unfold volumeApply
    split
    · rfl
    · cases hb : c.bars with
      | none => rfl
      | some b => simp only; rw [hn b hb]

/-! ## Concrete cases -/

/-- Five basis points on a sale at 200. -/
example : fixedInit 5 = some 5 ∧ (fixedApply 5 ⟨.sell, 10, 200, none, true⟩).2 = 1999 / 10 := by
  decide +kernel

/-- A bar with an ATR of 4 over two bars; the floor is reached with a large scale. -/
def demoBars : Bars :=
  ⟨3, some ([some 11, some 14, some 15], [some 9, some 11, some 12], [some 10, some 13, some 14]),
    some 1000⟩

example : volatilityInit 2 (1 / 2) = some (2, 1 / 2) ∧ fillAtr 2 demoBars = some (7 / 2) ∧
    (volatilityApply 2 (1 / 2) ⟨.sell, 10, 14, some demoBars, true⟩).2 = 49 / 4 ∧
    (volatilityApply 2 100 ⟨.sell, 10, 14, some demoBars, true⟩).2 = 7 / 50 := by
  decide +kernel

example : SaneBars demoBars := by
  intro high low close h n x hx hh ll h1 h2
  have := Option.some.inj h
  obtain ⟨rfl, rfl, rfl⟩ : [some (11 : ℚ), some 14, some 15] = high ∧
      [some (9 : ℚ), some 11, some 12] = low ∧ [some (10 : ℚ), some 13, some 14] = close := by
    exact ⟨congrArg Prod.fst this, congrArg (fun x => x.2.1) this, congrArg (fun x => x.2.2) this⟩
  have hk : ∀ k : Nat, k ≤ 3 → x ∈ ([some (11 : ℚ), some 14, some 15].drop k).zip
      (([some (9 : ℚ), some 11, some 12].drop k).zip
        ([some (10 : ℚ), some 13, some 14].drop k)) → ll ≤ hh := by
    intro k hk hx
    interval_cases k <;> simp at hx <;> rcases hx with rfl | rfl | rfl <;> simp_all <;>
      subst h1 <;> subst h2 <;> norm_num
  exact hk (3 - n) (by omega) hx

/-- A participation cap of 2.5% of a volume of 1000 turns 30 shares into 25. -/
example : volumeInit (1 / 10) (some (1 / 40)) = some ⟨1 / 10, some (1 / 40)⟩ ∧
    volumeApply ⟨1 / 10, some (1 / 40)⟩ ⟨.buy, 30, 14, some demoBars, false⟩ =
      (25, 14 * (1 + 1 / 10 * (1 / 40) * (1 / 40))) :=
  ⟨by unfold volumeInit; norm_num, by decide +kernel⟩

end PyBroker.Slippage
