import Verif.Portfolio.Split

/-!
# Only the fees that are charged matter

Two ways to state the same fees - a mode with an amount, or a function - give the same account.
-/

namespace PyBroker

/-- The configuration with another fee mode and amount. -/
def Config.withFees (c : Config) (m : Option FeeMode) (a : Option ℚ) : Config :=
  { c with feeMode := m, feeAmount := a }

/-- The fees of a configuration, as a function of the order. -/
def Config.feesAsFn (c : Config) : Config :=
  c.withFees (c.feeMode.map fun _ =>
    .custom fun i => calculateFees c i.symbol i.fillPrice i.shares i.side) (some 0)

theorem feesAsFn_fees (c : Config) (sym : Sym) (fill n : ℚ) (side : Side) :
    calculateFees c.feesAsFn sym fill n side = calculateFees c sym fill n side := by
  cases hm : c.feeMode with
  | none => simp [calculateFees, Config.feesAsFn, Config.withFees, hm]
  | some m => simp [calculateFees, Config.feesAsFn, Config.withFees, hm]

theorem feesAsFn_some (c : Config) : c.feesAsFn.feeMode.isSome = c.feeMode.isSome := by
  simp [Config.feesAsFn, Config.withFees]

section
variable {c : Config} {m : Option FeeMode} {a : Option ℚ}
  (hf : ∀ sym fill n side, calculateFees (c.withFees m a) sym fill n side =
    calculateFees c sym fill n side)
  (hs : m.isSome = c.feeMode.isSome)

theorem exitLoop_fees (pt : PosType) (d : Date) (fill : ℚ) (es : List Entry) (n : ℚ) (s : Portfolio)
    (p : Position) : exitLoop (c.withFees m a) pt d fill es n s p = exitLoop c pt d fill es n s p := by
  induction es generalizing n s p with
  | nil => rfl
  | cons e es ih =>
    unfold exitLoop
    have h : exitEntry (c.withFees m a) = exitEntry c := rfl
    rw [h]
    simp only [ih]

theorem cover_fees : cover (c.withFees m a) = cover c := by
  funext s d sym n fill
  simp only [cover, exitLoop_fees]

theorem sellExisting_fees : sellExisting (c.withFees m a) = sellExisting c := by
  funext s d sym n fill
  simp only [sellExisting, exitLoop_fees]

include hf

theorem clampShares_fees (s : Portfolio) (sym : Sym) (fill n : ℚ) (side : Side) :
    s.clampShares (c.withFees m a) sym fill n side = s.clampShares c sym fill n side := by
  unfold Portfolio.clampShares
  simp only [hf]
  rfl

theorem openLong_fees : openLong (c.withFees m a) = openLong c := by
  funext s d sym n fill stops
  unfold openLong
  rw [clampShares_fees hf]
  rfl

theorem openShort_fees : openShort (c.withFees m a) = openShort c := by
  funext s d sym n fill stops
  unfold openShort
  rw [clampShares_fees hf]
  rfl

include hs

theorem addOrder_fees : Portfolio.addOrder (c.withFees m a) = Portfolio.addOrder c := by
  funext s d sym side cr ot it n l mp fill
  have h : (c.withFees m a).feeMode.isSome = c.feeMode.isSome := hs
  simp only [Portfolio.addOrder, hf, h]

theorem buy_fees : buy (c.withFees m a) = buy c := by
  funext s r
  simp only [buy, cover_fees, openLong_fees hf, addOrder_fees hf hs]

theorem sell_fees : sell (c.withFees m a) = sell c := by
  funext s r
  simp only [sell, sellExisting_fees, openShort_fees hf, addOrder_fees hf hs]

theorem checkOne_fees : checkOne (c.withFees m a) = checkOne c := by
  funext env d acc x
  have h1 : exitEntry (c.withFees m a) = exitEntry c := rfl
  have h : triggerStop (c.withFees m a) = triggerStop c := by
    funext env d s p e st
    simp only [triggerStop, h1, addOrder_fees hf hs]
  simp only [checkOne, h]

theorem step_fees : step (c.withFees m a) = step c := by
  funext s op
  cases op with
  | buy r => simp only [step, buy_fees hf hs]
  | sell r => simp only [step, sell_fees hf hs]
  | exitPosition d sym b q slip => simp only [step, exitPosition, buy_fees hf hs, sell_fees hf hs]
  | checkStops d env => simp only [step, checkStops, checkOne_fees hf hs]
  | _ => rfl

/-- Ways to state the same fees give the same account. -/
theorem run_fees (ops : List Op) : run (c.withFees m a) ops = run c ops := by
  unfold run runFrom
  rw [step_fees hf hs]
  rfl

end

end PyBroker
