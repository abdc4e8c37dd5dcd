/-
C65: target sizing.
-/
import Verif.Context.Model
import Verif.Props.Books
import Mathlib.Algebra.Order.Floor.Ring
import Mathlib.Data.Rat.Floor
import Mathlib.Data.List.Nodup
import Mathlib.Tactic.Linarith
import Mathlib.Tactic.FieldSimp
import Mathlib.Tactic.NormNum

namespace PyBroker

/-! ## Target sizes -/

theorem trunc_bounds {x : ℚ} (h : 0 ≤ x) : 0 ≤ truncQ x ∧ (truncQ x : ℚ) ≤ x ∧ x < truncQ x + 1 := by
  unfold truncQ
  rw [if_neg (not_lt.2 h)]
  exact ⟨Int.floor_nonneg.2 h, Int.floor_le x, Int.lt_floor_add_one x⟩

theorem trunc_neg {x : ℚ} (h : x < 0) : truncQ x ≤ 0 := by
  unfold truncQ
  rw [if_pos h]
  exact Int.ceil_le.2 (by exact_mod_cast h.le)

namespace Spec

/-- The capital a target is a fraction of. -/
def capital (cfg : Config) (equity : ℚ) (cash : Option ℚ) : ℚ := cash.getD (equity * cfg.leverage)

/-- The number of shares for an amount of money: as much as it buys, and no debt. -/
structure SizedFor (cfg : Config) (money price n : ℚ) : Prop where
  nonneg : 0 ≤ n
  whole : cfg.fractional = false → ∃ k : Nat, n = k
  exact : cfg.fractional = true → 0 ≤ money → n * price = money
  within : 0 ≤ money → n * price ≤ money
  tight : 0 ≤ money → money < (n + 1) * price
  nothing : money ≤ 0 → n = 0

end Spec

open Spec

/-- **C65.** `calc_target_shares` raises exactly when the price is not a positive number.
Otherwise its share count costs at most the target fraction of the capital, and one
share more would cost more than that. -/
theorem calc_target (cfg : Config) (equity target : ℚ) (price : PyNum) (cash : Option ℚ) :
    ((∃ n, calcTarget cfg equity target price cash = .ok n) ↔ ∃ p, price = .fin p ∧ 0 < p) ∧
    ∀ p n, price = .fin p → calcTarget cfg equity target price cash = .ok n →
      SizedFor cfg (capital cfg equity cash * target) p n := by
  have hcap : cash.getD (equity * cfg.leverage) = capital cfg equity cash := rfl
  cases price with
  | notFinite => simp [calcTarget]
  | fin p =>
    simp only [calcTarget]
    by_cases hp : p ≤ 0
    · rw [if_pos hp]
      refine ⟨⟨fun ⟨_, h⟩ => (nomatch h), ?_⟩, ?_⟩
      · rintro ⟨q, h, hq⟩
        have := PyNum.fin.inj h
        subst this
        exact absurd hq (not_lt.2 hp)
      · intro q n _ h; cases h
    · rw [if_neg hp]
      rw [not_le] at hp
      rw [hcap]
      generalize capital cfg equity cash * target = m
      have key : ∀ n : ℚ, (if cfg.fractional then (Except.ok (max (m / p) 0) : Except CErr ℚ)
          else .ok ((max (truncQ (m / p)) 0 : Int) : ℚ)) = .ok n → SizedFor cfg m p n := by
        intro n h
        cases hf : cfg.fractional with
        | true =>
          rw [hf] at h
          have h := Except.ok.inj h
          subst h
          rcases le_or_gt 0 m with hm | hm
          · have h0 : 0 ≤ m / p := div_nonneg hm hp.le
            have h1 : m / p * p = m := div_mul_cancel₀ _ hp.ne'
            rw [max_eq_left h0]
            refine ⟨h0, fun h => ?_, fun _ _ => h1, fun _ => h1.le, fun _ => ?_, fun h => ?_⟩
            · rw [hf] at h; cases h
            · rw [add_mul, h1]; linarith
            · have : m = 0 := le_antisymm h hm
              rw [this, zero_div]
          · have h0 : m / p ≤ 0 := div_nonpos_of_nonpos_of_nonneg hm.le hp.le
            rw [max_eq_right h0]
            refine ⟨le_refl _, fun h => ?_, fun _ h => ?_, fun h => ?_, fun h => ?_, fun _ => rfl⟩
            · rw [hf] at h; cases h
            all_goals exact absurd hm (not_lt.2 h)
        | false =>
          rw [hf] at h
          have h := Except.ok.inj h
          subst h
          rcases le_or_gt 0 m with hm | hm
          · have h0 : 0 ≤ m / p := div_nonneg hm hp.le
            obtain ⟨t0, t1, t2⟩ := trunc_bounds h0
            have h1 : m / p * p = m := div_mul_cancel₀ _ hp.ne'
            rw [max_eq_left t0]
            refine ⟨by exact_mod_cast t0, fun _ => ⟨(truncQ (m / p)).toNat, ?_⟩, fun h => ?_,
              fun _ => ?_, fun _ => ?_, fun h => ?_⟩
            · have := Int.toNat_of_nonneg t0
              exact_mod_cast this.symm
            · rw [hf] at h; cases h
            · calc (truncQ (m / p) : ℚ) * p ≤ m / p * p := mul_le_mul_of_nonneg_right t1 hp.le
                _ = m := h1
            · calc m = m / p * p := h1.symm
                _ < (truncQ (m / p) + 1) * p := mul_lt_mul_of_pos_right t2 hp
            · have : m = 0 := le_antisymm h hm
              rw [this, zero_div]
              decide +kernel
          · have h0 : m / p < 0 := div_neg_of_neg_of_pos hm hp
            rw [max_eq_right (trunc_neg h0)]
            refine ⟨by norm_num, fun _ => ⟨0, by norm_num⟩, fun h => ?_, fun h => ?_, fun h => ?_,
              fun _ => by norm_num⟩
            · rw [hf] at h; cases h
            all_goals exact absurd hm (not_lt.2 h)
      refine ⟨⟨fun _ => ⟨p, rfl, hp⟩, fun _ => ?_⟩, ?_⟩
      · cases cfg.fractional
        · exact ⟨_, rfl⟩
        · exact ⟨_, rfl⟩
      · intro q n hq hn
        have := PyNum.fin.inj hq
        subst this
        exact key n hn

namespace Spec

/-- The shares bought less the shares sold by the settings of a context. -/
def ordered (c : Ctx) : ℚ := c.buyShares.getD 0 - c.sellShares.getD 0

/-- The shares held on a side. -/
def heldOn (pf : Portfolio) (t : PosType) (sym : Sym) : ℚ :=
  ((lookupPos (pf.book t) sym).map Position.shares).getD 0

/-- Shares of a side, counted negatively for shorts. -/
def signedOn : PosType → ℚ → ℚ
  | .long, n => n
  | .short, n => -n

end Spec

/-- **C65.** On a context without orders `set_target_shares` raises only for a negative
target, does nothing without a positive close, and otherwise orders, on one side
only, exactly the difference between the target and the shares held on that side.
The order is marked as the exit of the position exactly when it closes it, and as a
cover exactly when it reduces a short position. -/
theorem set_target (cfg : Config) (pf : Portfolio) (close : PyNum) (c : Ctx) (sym : Sym)
    (target : ℚ) (dir : PosType) (hsym : c.symbol = some sym)
    (hb : c.buyShares = none) (hs : c.sellShares = none) (he : c.exitPos = none)
    (hx : c.exiting = false) (hcv : c.cover = false)
    (hpos : ∀ t p, lookupPos (pf.book t) sym = some p → 0 < p.shares ∧ p.type = t) :
    ((∃ e, c.setTarget cfg pf close target dir = .error e) ↔ target < 0) ∧
    (0 ≤ target → (¬ ∃ p, close = .fin p ∧ 0 < p) → c.setTarget cfg pf close target dir = .ok c) ∧
    ∀ p c', 0 ≤ target → close = .fin p → 0 < p → c.setTarget cfg pf close target dir = .ok c' →
      ∃ n, SizedFor cfg (pf.equity * cfg.leverage * target) p n ∧
        signedOn dir (heldOn pf dir sym) + ordered c' = signedOn dir n ∧
        (c'.buyShares = none ∨ c'.sellShares = none) ∧
        (∀ q, c'.buyShares = some q ∨ c'.sellShares = some q → 0 ≤ q) ∧
        c'.exitPos = (if n = 0 ∧ heldOn pf dir sym ≠ 0 then some dir else none) ∧
        c'.exiting = c'.exitPos.isSome ∧
        (c'.cover = true ↔ dir = .short ∧ n < heldOn pf dir sym) ∧
        c' = { c with buyShares := c'.buyShares, sellShares := c'.sellShares,
                      exitPos := c'.exitPos, exiting := c'.exiting, cover := c'.cover } := by
  by_cases ht : target < 0
  · have : c.setTarget cfg pf close target dir = .error .negativeTarget := by
      unfold Ctx.setTarget; rw [if_pos ht]
    refine ⟨⟨fun _ => ht, fun _ => ⟨_, this⟩⟩, fun h => absurd ht (not_lt.2 h), ?_⟩
    intro p c' h; exact absurd ht (not_lt.2 h)
  have hunf : c.setTarget cfg pf close target dir =
      match close with
      | .notFinite => .ok c
      | .fin p =>
        if p ≤ 0 then .ok c
        else
          match calcTarget cfg pf.equity target close none with
          | .error e => .error e
          | .ok n =>
            match dir with
            | .long => .ok (c.targetLong (lookupPos pf.longs sym) n)
            | .short => .ok (c.targetShort (lookupPos pf.shorts sym) n) := by
    unfold Ctx.setTarget; rw [if_neg ht]; simp only [hsym]; cases close <;> rfl
  cases close with
  | notFinite =>
    simp only at hunf
    rw [hunf]
    refine ⟨⟨fun ⟨_, h⟩ => (nomatch h), fun h => absurd h ht⟩, fun _ _ => rfl, ?_⟩
    intro p c' _ h; cases h
  | fin q =>
    by_cases hq : q ≤ 0
    · simp only [if_pos hq] at hunf
      rw [hunf]
      refine ⟨⟨fun ⟨_, h⟩ => (nomatch h), fun h => absurd h ht⟩, fun _ _ => rfl, ?_⟩
      intro p c' _ h h'
      have := PyNum.fin.inj h
      subst this
      exact absurd h' (not_lt.2 hq)
    · have hq' := not_le.1 hq
      obtain ⟨h1, h2⟩ := calc_target cfg pf.equity target (.fin q) none
      obtain ⟨n, hn⟩ := h1.2 ⟨q, rfl, hq'⟩
      have hsz := h2 q n rfl hn
      have hcap : capital cfg pf.equity none = pf.equity * cfg.leverage := rfl
      rw [hcap] at hsz
      simp only [if_neg hq, hn] at hunf
      have hn0 := hsz.nonneg
      cases dir with
      | long =>
        simp only at hunf
        rw [hunf]
        refine ⟨⟨fun ⟨_, h⟩ => (nomatch h), fun h => absurd h ht⟩, fun _ h => ?_, ?_⟩
        · exact absurd ⟨q, rfl, hq'⟩ h
        intro p c' _ hp _ hc'
        have := PyNum.fin.inj hp
        subst this
        have hc' := Except.ok.inj hc'
        subst hc'
        refine ⟨n, hsz, ?_⟩
        rcases hl : lookupPos pf.longs sym with _ | po
        · have hh : heldOn pf .long sym = 0 := by
            unfold heldOn; rw [show pf.book .long = pf.longs from rfl, hl]; rfl
          simp only [Ctx.targetLong, hh, signedOn, ordered, hs]
          refine ⟨?_, ?_, ?_, ?_, ?_, ?_, ?_⟩ <;>
              (first | rfl | (simp [he, hx, hn0, hcv]; done) | (simp_all [le_of_lt]; done) | (simp_all; linarith))
        · have hh : heldOn pf .long sym = po.shares := by
            unfold heldOn; rw [show pf.book .long = pf.longs from rfl, hl]; rfl
          obtain ⟨hp0, hpt⟩ := hpos .long po hl
          simp only [Ctx.targetLong, hh, signedOn, ordered, Ctx.exitTarget]
          rcases lt_trichotomy po.shares n with h | h | h
          · have : n ≠ 0 := by linarith
            simp only [if_pos h]
            refine ⟨?_, ?_, ?_, ?_, ?_, ?_, ?_⟩ <;>
              (first | rfl | (simp [h, hs, he, hx, hcv, this]; done) | (simp_all [le_of_lt]; done) | (simp_all; linarith))
          · subst h
            simp only [gt_iff_lt, lt_irrefl, if_false]
            refine ⟨?_, ?_, ?_, ?_, ?_, ?_, ?_⟩ <;>
              (first | rfl | (simp [hs, hb, he, hx, hcv, hp0.ne']; done) | (simp_all [le_of_lt]; done) | (simp_all; linarith))
          · have h' : ¬ po.shares < n := not_lt.2 h.le
            by_cases hz : n = 0
            · subst hz
              simp only [if_neg h', if_pos h, gt_iff_lt, lt_irrefl, if_false]
              refine ⟨?_, ?_, ?_, ?_, ?_, ?_, ?_⟩ <;>
              (first | rfl | (simp [h, h', hb, hpt, hcv, hp0.ne', hp0.le]; done) | (simp_all [le_of_lt]; done) | (simp_all; linarith))
            · have hz' : 0 < n := lt_of_le_of_ne hn0 (Ne.symm hz)
              simp only [if_neg h', gt_iff_lt, if_pos h, if_pos hz']
              refine ⟨?_, ?_, ?_, ?_, ?_, ?_, ?_⟩ <;>
              (first | rfl | (simp [h, h', hb, hz, hz', he, hx, hcv]; done) | (simp_all [le_of_lt]; done) | (simp_all; linarith))
      | short =>
        simp only at hunf
        rw [hunf]
        refine ⟨⟨fun ⟨_, h⟩ => (nomatch h), fun h => absurd h ht⟩, fun _ h => ?_, ?_⟩
        · exact absurd ⟨q, rfl, hq'⟩ h
        intro p c' _ hp _ hc'
        have := PyNum.fin.inj hp
        subst this
        have hc' := Except.ok.inj hc'
        subst hc'
        refine ⟨n, hsz, ?_⟩
        rcases hl : lookupPos pf.shorts sym with _ | po
        · have hh : heldOn pf .short sym = 0 := by
            unfold heldOn; rw [show pf.book .short = pf.shorts from rfl, hl]; rfl
          simp only [Ctx.targetShort, hh, signedOn, ordered, hb]
          refine ⟨?_, ?_, ?_, ?_, ?_, ?_, ?_⟩ <;>
              (first | rfl | (simp [he, hx, hn0, hcv, not_lt.2 hn0]; done) | (simp_all [le_of_lt]; done) | (simp_all; linarith))
        · have hh : heldOn pf .short sym = po.shares := by
            unfold heldOn; rw [show pf.book .short = pf.shorts from rfl, hl]; rfl
          obtain ⟨hp0, hpt⟩ := hpos .short po hl
          simp only [Ctx.targetShort, hh, signedOn, ordered, Ctx.exitTarget, Ctx.setCoverShares]
          rcases lt_trichotomy po.shares n with h | h | h
          · have : n ≠ 0 := by linarith
            simp only [if_pos h]
            refine ⟨?_, ?_, ?_, ?_, ?_, ?_, ?_⟩ <;>
              (first | rfl | (simp [h, hb, he, hx, hcv, this, not_lt.2 h.le]; done) | (simp_all [le_of_lt]; done) | (simp_all; linarith))
          · subst h
            simp only [gt_iff_lt, lt_irrefl, if_false]
            refine ⟨?_, ?_, ?_, ?_, ?_, ?_, ?_⟩ <;>
              (first | rfl | (simp [hs, hb, he, hx, hcv, hp0.ne']; done) | (simp_all [le_of_lt]; done) | (simp_all; linarith))
          · have h' : ¬ po.shares < n := not_lt.2 h.le
            by_cases hz : n = 0
            · subst hz
              simp only [if_neg h', if_pos h, gt_iff_lt, lt_irrefl, if_false]
              refine ⟨?_, ?_, ?_, ?_, ?_, ?_, ?_⟩ <;>
              (first | rfl | (simp [h, h', hs, hpt, hp0.ne', hp0.le, hp0]; done) | (simp_all [le_of_lt]; done) | (simp_all; linarith))
            · have hz' : 0 < n := lt_of_le_of_ne hn0 (Ne.symm hz)
              simp only [if_neg h', gt_iff_lt, if_pos h, if_pos hz']
              refine ⟨?_, ?_, ?_, ?_, ?_, ?_, ?_⟩ <;>
              (first | rfl | (simp [h, h', hs, hz, hz', he, hx]; done) | (simp_all [le_of_lt]; done) | (simp_all; linarith))

/-- **C65.** The positions `set_target` looks at satisfy its hypothesis in every portfolio
a history of orders reaches. -/
theorem reached_positions {cfg : Config} {ops : List Op} {s : Portfolio}
    (hfit : ∀ op ∈ ops, op.Fit) (h : run cfg ops = .ok s) (sym : Sym) (t : PosType) (p : Position)
    (hp : lookupPos (s.book t) sym = some p) : 0 < p.shares ∧ p.type = t := by
  obtain ⟨hmem, -⟩ := lookupPos_some hp
  have hg := (run_good hfit h).1
  have hpw := hg.wf.pos _ p hmem
  exact ⟨hpw.shares_pos (hg.ne _ p hmem), hpw.type⟩

/-- **C65.** `set_target_shares` in a reached portfolio: the shares held on the side, with
the shares ordered, are the target number. -/
theorem set_target_reached {cfg : Config} {ops : List Op} {pf : Portfolio}
    (hfit : ∀ op ∈ ops, op.Fit) (hrun : run cfg ops = .ok pf) (sym : Sym) (close target : ℚ)
    (dir : PosType) (c c' : Ctx) (hsym : c.symbol = some sym) (hb : c.buyShares = none)
    (hs : c.sellShares = none) (he : c.exitPos = none) (hx : c.exiting = false)
    (hcv : c.cover = false) (ht : 0 ≤ target) (hc : 0 < close)
    (h : c.setTarget cfg pf (.fin close) target dir = .ok c') :
    ∃ n, SizedFor cfg (pf.equity * cfg.leverage * target) close n ∧
      signedOn dir (heldOn pf dir sym) + ordered c' = signedOn dir n ∧
      (c'.buyShares = none ∨ c'.sellShares = none) := by
  obtain ⟨n, h1, h2, h3, -⟩ := (set_target cfg pf (.fin close) c sym target dir hsym hb hs he hx hcv
    (reached_positions hfit hrun sym)).2.2 close c' ht rfl hc h
  exact ⟨n, h1, h2, h3⟩

end PyBroker
