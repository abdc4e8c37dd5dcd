import Verif.Backtest.Entry
import Verif.Props.Drive
import Verif.Props.Prepare
import Verif.Props.Tune
import Verif.Props.Books

/-!
# C115: accepted configurations and calls

Which configurations, strategies and calls are accepted, and that an accepted call is a run the
theorems about whole runs (C97 to C114) speak of.
-/

namespace PyBroker

namespace Spec

/-- The documented limits of `StrategyConfig`. -/
structure ConfigOK (c : StratConfig) : Prop where
  cash : 0 < c.initialCash
  maxLong : ∀ m, c.maxLong = some m → 0 < m
  maxShort : ∀ m, c.maxShort = some m → 0 < m
  fee : ∀ f, c.feeAmount = some f → 0 ≤ f
  buyDelay : 1 ≤ c.buyDelay
  sellDelay : 1 ≤ c.sellDelay
  samples : 1 ≤ c.bootstrapSamples
  leverage : 1 ≤ c.leverage
  interest : 0 ≤ c.interestRate
  year : 0 < c.interestRate → ∃ n, c.barsPerYear = some n

/-- The field an error names is out of its limits. -/
def Violates (c : StratConfig) : ConfErr → Prop
  | .initialCash => c.initialCash ≤ 0
  | .maxLong => ∃ m, c.maxLong = some m ∧ m ≤ 0
  | .maxShort => ∃ m, c.maxShort = some m ∧ m ≤ 0
  | .feeAmount => ∃ f, c.feeAmount = some f ∧ f < 0
  | .buyDelay => c.buyDelay ≤ 0
  | .sellDelay => c.sellDelay ≤ 0
  | .bootstrapSamples => c.bootstrapSamples ≤ 0
  | .leverage => c.leverage < 1
  | .interestRate => c.interestRate < 0
  | .barsPerYear => 0 < c.interestRate ∧ c.barsPerYear = none

/-- A strategy made by the constructor and then changed by its methods. -/
inductive Built : StrategyObj → Prop
  | new {src : BarSource} {a b : Date} {c : Option StratConfig} {s : StrategyObj}
      (h : StrategyObj.new src a b c = .ok s) : Built s
  | maxLong {s s' : StrategyObj} {m : Option Int} (hs : Built s) (h : s.setMaxLong m = .ok s') :
      Built s'
  | maxShort {s s' : StrategyObj} {m : Option Int} (hs : Built s) (h : s.setMaxShort m = .ok s') :
      Built s'
  | rotation {s : StrategyObj} (w : Option Int) (sizer : Bool) (hs : Built s) :
      Built (s.enableRotation w sizer)
  | execution {s : StrategyObj} (e : Execn (List DRow)) (hs : Built s) : Built (s.addExecution e)

/-- The symbols of the executions. -/
def StrategySymbols (s : StrategyObj) : List ExecSymbols :=
  s.execs.map (fun e => match e.symbols with
    | .fixed l => some l
    | .selector _ => none)

/-- The rows a call asks for. -/
def CallRow (s : StrategyObj) (c : RunCall) (r : DRow) : Prop :=
  Wanted (StrategySymbols s) (c.dates.start.getD s.start) (c.dates.stop.getD s.stop) c.dates r

/-- A set is iterated, and training rows are shuffled, in some order. -/
def OrdersOf (u : UserCode) (c : RunCall) : Prop :=
  (∀ l, (u.iter l).Perm l) ∧ ∀ l, (c.shuffle l).Perm l

/-- A run has the settings of a strategy and call: every field, the limits of `set` apart. -/
structure RunsAs (s : StrategyObj) (u : UserCode) (c : RunCall) (set : OwnSettings)
    (x : RunSetup) : Prop where
  cash : x.cfg.cash = s.config.initialCash
  feeMode : x.cfg.feeMode = s.config.feeMode
  feeAmount : x.cfg.feeAmount = s.config.feeAmount
  fractional : x.cfg.fractional = true ↔ s.config.fractional = true ∨ u.crypto = true
  mode : x.cfg.positionMode = s.config.positionMode
  leverage : x.cfg.leverage = s.config.leverage
  interest : x.cfg.interestRate = s.config.interestRate
  year : x.cfg.barsPerYear = s.config.barsPerYear
  maxLong : x.cfg.maxLong.map Int.ofNat = set.maxLong
  maxShort : x.cfg.maxShort.map Int.ofNat = set.maxShort
  execs : x.execs = s.execs
  windows : x.windows = c.windows
  lookahead : x.lookahead = c.lookahead
  trainSize : x.trainSize = c.trainSize
  shuffle : x.shuffle = c.shuffle
  buyDelay : (x.buyDelay : Int) = s.config.buyDelay
  sellDelay : (x.sellDelay : Int) = s.config.sellDelay
  warmup : x.warmup.map Int.ofNat = c.warmup
  exitOnLast : x.exitOnLast = s.config.exitOnLast
  exitCover : x.exitCover = s.config.exitCover
  exitSell : x.exitSell = s.config.exitSell
  round : x.round = s.config.roundFill
  cols : x.cols = u.cols
  fns : x.fns = u.fns
  orderSlip : x.orderSlip = u.orderSlip
  exitSlip : x.exitSlip = u.exitSlip
  dropSlip : x.dropSlip = u.dropSlip
  act : x.act = u.act set

end Spec

open PyBroker.Spec

/-! ## Configurations -/

theorem any_pos {m : Option Int} : m.any (fun k => decide (k ≤ 0)) = true ↔ ∃ k, m = some k ∧ k ≤ 0 := by
  cases m <;> simp

theorem any_neg {m : Option ℚ} : m.any (fun k => decide (k < 0)) = true ↔ ∃ k, m = some k ∧ k < 0 := by
  cases m <;> simp

/-- **C115.**  A refused configuration has the named field out of its limits. -/
theorem config_error_names {c : StratConfig} {e : ConfErr} (h : verifyConfig c = .error e) :
    Violates c e := by
  unfold verifyConfig at h
  by_cases h1 : c.initialCash ≤ 0
  · rw [if_pos h1] at h; cases h; exact h1
  rw [if_neg h1] at h
  by_cases h2 : c.maxLong.any (fun m => decide (m ≤ 0)) = true
  · rw [if_pos h2] at h; cases h; exact any_pos.1 h2
  rw [if_neg h2] at h
  by_cases h3 : c.maxShort.any (fun m => decide (m ≤ 0)) = true
  · rw [if_pos h3] at h; cases h; exact any_pos.1 h3
  rw [if_neg h3] at h
  by_cases h4 : c.feeAmount.any (fun m => decide (m < 0)) = true
  · rw [if_pos h4] at h; cases h; exact any_neg.1 h4
  rw [if_neg h4] at h
  by_cases h5 : c.buyDelay ≤ 0
  · rw [if_pos h5] at h; cases h; exact h5
  rw [if_neg h5] at h
  by_cases h6 : c.sellDelay ≤ 0
  · rw [if_pos h6] at h; cases h; exact h6
  rw [if_neg h6] at h
  by_cases h7 : c.bootstrapSamples ≤ 0
  · rw [if_pos h7] at h; cases h; exact h7
  rw [if_neg h7] at h
  by_cases h8 : c.leverage < 1
  · rw [if_pos h8] at h; cases h; exact h8
  rw [if_neg h8] at h
  by_cases h9 : c.interestRate < 0
  · rw [if_pos h9] at h; cases h; exact h9
  rw [if_neg h9] at h
  by_cases h10 : 0 < c.interestRate ∧ c.barsPerYear = none
  · rw [if_pos h10] at h; cases h; exact h10
  rw [if_neg h10] at h
  cases h

theorem not_violates {c : StratConfig} (hc : ConfigOK c) (e : ConfErr) : ¬ Violates c e := by
  intro h
  cases e with
  | initialCash => exact absurd hc.cash (not_lt.2 h)
  | maxLong => obtain ⟨m, hm, h⟩ := h; exact absurd (hc.maxLong m hm) (not_lt.2 h)
  | maxShort => obtain ⟨m, hm, h⟩ := h; exact absurd (hc.maxShort m hm) (not_lt.2 h)
  | feeAmount => obtain ⟨f, hf, h⟩ := h; exact absurd (hc.fee f hf) (not_le.2 h)
  | buyDelay => have := hc.buyDelay; unfold Violates at h; omega
  | sellDelay => have := hc.sellDelay; unfold Violates at h; omega
  | bootstrapSamples => have := hc.samples; unfold Violates at h; omega
  | leverage => exact absurd hc.leverage (not_le.2 h)
  | interestRate => exact absurd hc.interest (not_le.2 h)
  | barsPerYear =>
    obtain ⟨n, hn⟩ := hc.year h.1
    rw [h.2] at hn
    cases hn

/-- **C115.**  A configuration is accepted exactly when every field is in its limits. -/
theorem config_accepted_iff (c : StratConfig) : verifyConfig c = .ok () ↔ ConfigOK c := by
  constructor
  · intro h
    unfold verifyConfig at h
    by_cases h1 : c.initialCash ≤ 0
    · rw [if_pos h1] at h; cases h
    rw [if_neg h1] at h
    by_cases h2 : c.maxLong.any (fun m => decide (m ≤ 0)) = true
    · rw [if_pos h2] at h; cases h
    rw [if_neg h2] at h
    by_cases h3 : c.maxShort.any (fun m => decide (m ≤ 0)) = true
    · rw [if_pos h3] at h; cases h
    rw [if_neg h3] at h
    by_cases h4 : c.feeAmount.any (fun m => decide (m < 0)) = true
    · rw [if_pos h4] at h; cases h
    rw [if_neg h4] at h
    by_cases h5 : c.buyDelay ≤ 0
    · rw [if_pos h5] at h; cases h
    rw [if_neg h5] at h
    by_cases h6 : c.sellDelay ≤ 0
    · rw [if_pos h6] at h; cases h
    rw [if_neg h6] at h
    by_cases h7 : c.bootstrapSamples ≤ 0
    · rw [if_pos h7] at h; cases h
    rw [if_neg h7] at h
    by_cases h8 : c.leverage < 1
    · rw [if_pos h8] at h; cases h
    rw [if_neg h8] at h
    by_cases h9 : c.interestRate < 0
    · rw [if_pos h9] at h; cases h
    rw [if_neg h9] at h
    by_cases h10 : 0 < c.interestRate ∧ c.barsPerYear = none
    · rw [if_pos h10] at h; cases h
    rw [any_pos] at h2 h3
    rw [any_neg] at h4
    refine ⟨not_le.1 h1, fun m hm => not_le.1 (fun hc => h2 ⟨m, hm, hc⟩),
      fun m hm => not_le.1 (fun hc => h3 ⟨m, hm, hc⟩), fun f hf => not_lt.1 (fun hc => h4 ⟨f, hf, hc⟩),
      by omega, by omega, by omega, not_lt.1 h8, not_lt.1 h9, ?_⟩
    intro hi
    cases hy : c.barsPerYear with
    | none => exact absurd ⟨hi, hy⟩ h10
    | some n => exact ⟨n, rfl⟩
  · intro hc
    rcases hv : verifyConfig c with e | _
    · exact absurd (config_error_names hv) (not_violates hc e)
    · rfl

/-! ## Strategies -/

theorem default_ok : ConfigOK {} :=
  ⟨by norm_num, (fun _ h => nomatch h), (fun _ h => nomatch h),
    fun f h => by cases h; exact le_refl _, by norm_num, by norm_num, by norm_num, by norm_num,
    by norm_num, fun h => absurd h (by norm_num)⟩

/-- **C115.**  However a strategy was built, its configuration is in its limits, its dates are in
order, and the limits set on it are positive. -/
theorem built_valid {s : StrategyObj} (h : Built s) :
    ConfigOK s.config ∧ s.start ≤ s.stop ∧ (∀ m, s.own.maxLong = some m → 0 < m) ∧
      (∀ m, s.own.maxShort = some m → 0 < m) ∧ (s.sizer = true → ∃ w, s.own.worst = some w) := by
  induction h with
  | @new src a b c s h =>
    unfold StrategyObj.new at h
    by_cases hd : b < a
    · rw [if_pos hd] at h; cases h
    rw [if_neg hd] at h
    have hab : a ≤ b := not_lt.1 hd
    cases c with
    | none =>
      cases h
      exact ⟨default_ok, hab, (fun _ h => nomatch h), (fun _ h => nomatch h), (fun h => nomatch h)⟩
    | some c =>
      simp only at h
      rcases hv : verifyConfig c with e | _
      · rw [hv] at h; cases h
      · rw [hv] at h
        cases h
        exact ⟨(config_accepted_iff c).1 hv, hab, (fun _ h => nomatch h), (fun _ h => nomatch h),
          (fun h => nomatch h)⟩
  | @maxLong s s' m hs h ih =>
    unfold StrategyObj.setMaxLong at h
    by_cases hm : m.any (fun k => decide (k ≤ 0)) = true
    · rw [if_pos hm] at h; cases h
    rw [if_neg hm] at h
    cases h
    rw [any_pos] at hm
    exact ⟨ih.1, ih.2.1, fun k hk => not_le.1 (fun hc => hm ⟨k, hk, hc⟩), ih.2.2.2.1, ih.2.2.2.2⟩
  | @maxShort s s' m hs h ih =>
    unfold StrategyObj.setMaxShort at h
    by_cases hm : m.any (fun k => decide (k ≤ 0)) = true
    · rw [if_pos hm] at h; cases h
    rw [if_neg hm] at h
    cases h
    rw [any_pos] at hm
    exact ⟨ih.1, ih.2.1, ih.2.2.1, fun k hk => not_le.1 (fun hc => hm ⟨k, hk, hc⟩), ih.2.2.2.2⟩
  | @rotation s w sizer hs ih =>
    unfold StrategyObj.enableRotation
    cases w with
    | none => exact ⟨ih.1, ih.2.1, ih.2.2.1, ih.2.2.2.1, (fun h => nomatch h)⟩
    | some w => exact ⟨ih.1, ih.2.1, ih.2.2.1, ih.2.2.2.1, fun _ => ⟨w, rfl⟩⟩
  | @execution s e hs ih => exact ih

/-! ## Calls -/

theorem symbols_eq (s : StrategyObj) :
    s.execs.map (fun e => e.symbols.given) = StrategySymbols s := by
  unfold StrategySymbols
  apply List.map_congr_left
  intro e _
  cases e.symbols <;> rfl

theorem prepare_ok {s : StrategyObj} {u : UserCode} {c : RunCall} {p : OwnSettings × RunSetup}
    (h : s.prepare u c = .ok p) :
    (∀ w, c.warmup = some w → 1 ≤ w) ∧ s.execs ≠ [] ∧
    resolveSettings s.sizer (s.config.maxLong, s.config.maxShort) s.own = some p.1 ∧
    ∃ out, prepareBars s.source (StrategySymbols s) s.start s.stop c.dates = .ok out ∧
      p.2 = s.runSetup u c p.1 out.1 := by
  unfold StrategyObj.prepare at h
  by_cases h1 : c.warmup.any (fun w => decide (w < 1)) = true
  · rw [if_pos h1] at h; cases h
  rw [if_neg h1] at h
  by_cases h2 : s.execs = []
  · rw [if_pos h2] at h; cases h
  rw [if_neg h2, symbols_eq] at h
  rcases h3 : resolveSettings s.sizer (s.config.maxLong, s.config.maxShort) s.own with _ | set
  · rw [h3] at h; cases h
  rw [h3] at h
  rcases h4 : prepareBars s.source (StrategySymbols s) s.start s.stop c.dates with e | out
  · rw [h4] at h; cases h
  rw [h4] at h
  cases h
  refine ⟨?_, h2, rfl, out, rfl, rfl⟩
  intro w hw
  rw [hw] at h1
  simpa using h1

open Classical in
/-- **C115.**  A call reaches the run exactly when its warm-up is at least one bar, there is an
execution, the settings are consistent, its dates are those of the strategy, the data have bars of
the symbols, no two on one date, and its days are days. -/
theorem call_accepted_iff {s : StrategyObj} (hsrc : Answers s.source) (u : UserCode) (c : RunCall) :
    (∃ p, s.prepare u c = .ok p) ↔
      (∀ w, c.warmup = some w → 1 ≤ w) ∧ s.execs ≠ [] ∧
      (∃ set, SettingsOf s.sizer s.config.maxLong s.config.maxShort s.own set) ∧
      (s.start ≤ c.dates.start.getD s.start ∧ c.dates.start.getD s.start ≤ c.dates.stop.getD s.stop ∧
        c.dates.stop.getD s.stop ≤ s.stop) ∧
      ¬ ((∃ q, s.source = .source q) ∧ none ∈ StrategySymbols s) ∧
      (let bars := (sourceRows s.source (StrategySymbols s) s.start s.stop).filter
        (fun r => decide (Traded (StrategySymbols s) r ∧ s.start ≤ r.date ∧ r.date ≤ s.stop))
       bars ≠ [] ∧ UniqueBars bars) ∧
      ∀ l, c.dates.days = some l → ∀ a ∈ l, ∃ w, Names a w := by
  have hacc := run_accepted hsrc (StrategySymbols s) s.start s.stop c.dates
  constructor
  · rintro ⟨p, h⟩
    obtain ⟨h1, h2, h3, out, h4, _⟩ := prepare_ok h
    exact ⟨h1, h2, ⟨p.1, (settings_iff _ _ _ _).1 h3⟩, hacc.1 ⟨out, h4⟩⟩
  · rintro ⟨h1, h2, ⟨set, h3⟩, h4⟩
    obtain ⟨out, h4⟩ := hacc.2 h4
    have h3 := (settings_iff s.sizer (s.config.maxLong, s.config.maxShort) s.own set).2 h3
    refine ⟨(set, s.runSetup u c set out.1), ?_⟩
    unfold StrategyObj.prepare
    have h1' : ¬ c.warmup.any (fun w => decide (w < 1)) = true := by
      cases hw : c.warmup with
      | none => simp
      | some w => have := h1 w hw; simp; omega
    rw [if_neg h1', if_neg h2, h3]
    simp only
    rw [symbols_eq, h4]

theorem toNat_pos {m : Option Int} (h : ∀ k, m = some k → 0 < k) :
    (m.map Int.toNat).map Int.ofNat = m := by
  cases m with
  | none => rfl
  | some k =>
    have := h k rfl
    simp only [Option.map_some, Option.some.injEq, Int.ofNat_eq_natCast]
    omega

open Classical in
/-- **C115.**  Every call that returns was a run on exactly the bars asked for, with the
configuration of the strategy and consistent settings, and the run is one the theorems about whole
runs apply to.  `train_size` is checked from below only. -/
theorem call_runs {s : StrategyObj} (hb : Built s) (hsrc : Answers s.source) {u : UserCode}
    {c : RunCall} (hord : OrdersOf u c) (hsize : c.trainSize ≤ 1) {st : RunSetup.State}
    (h : s.walkforward u c = .ok st) :
    ∃ set x, SettingsOf s.sizer s.config.maxLong s.config.maxShort s.own set ∧
      RunsAs s u c set x ∧
      x.rows = (sourceRows s.source (StrategySymbols s) s.start s.stop).filter
        (fun r => decide (CallRow s c r)) ∧
      SetupOK x ∧ x.run = .ok st := by
  obtain ⟨hc, _, _⟩ := built_valid hb
  unfold StrategyObj.walkforward at h
  rcases hp : s.prepare u c with e | ⟨set, x⟩
  · rw [hp] at h; cases h
  rw [hp] at h
  simp only at h
  rcases hx : x.run with e | st'
  · rw [hx] at h; cases h
  rw [hx] at h
  cases h
  obtain ⟨h1, _, h3, out, h4, h5⟩ := prepare_ok hp
  simp only at h3 h5
  have hset := (settings_iff _ _ _ _).1 h3
  obtain ⟨rows, m⟩ := out
  obtain ⟨_, _, _, hrows, huniq⟩ := run_bars hsrc h4
  have b1 := hc.buyDelay
  have b2 := hc.sellDelay
  have hts : 0 ≤ c.trainSize := by
    by_contra hneg
    have hneg := not_le.1 hneg
    rw [h5] at hx
    unfold RunSetup.run walkforwardSplit at hx
    rw [show (s.runSetup u c set rows).trainSize = c.trainSize from rfl, if_pos hneg] at hx
    by_cases w1 : (s.runSetup u c set rows).windows ≤ 0
    · rw [if_pos w1] at hx; cases hx
    · by_cases w2 : (s.runSetup u c set rows).lookahead ≤ 0
      · rw [if_neg w1, if_pos w2] at hx; cases hx
      · rw [if_neg w1, if_neg w2] at hx; cases hx
  subst h5
  refine ⟨set, _, hset, ?_, hrows, ⟨huniq, ?_, ?_, ⟨hts, hsize⟩, hord.1, hord.2⟩, hx⟩
  · exact
      { cash := rfl, feeMode := rfl, feeAmount := rfl
        fractional := by
          show (s.config.fractional || u.crypto) = true ↔ _
          rw [Bool.or_eq_true]
        mode := rfl, leverage := rfl, interest := rfl, year := rfl
        maxLong := toNat_pos hset.longPos
        maxShort := toNat_pos hset.shortPos
        execs := rfl, windows := rfl, lookahead := rfl, trainSize := rfl, shuffle := rfl
        buyDelay := by show ((s.config.buyDelay.toNat : Nat) : Int) = _; omega
        sellDelay := by show ((s.config.sellDelay.toNat : Nat) : Int) = _; omega
        warmup := toNat_pos (fun k hk => by have := h1 k hk; omega)
        exitOnLast := rfl, exitCover := rfl, exitSell := rfl, round := rfl, cols := rfl, fns := rfl
        orderSlip := rfl, exitSlip := rfl, dropSlip := rfl, act := rfl }
  · show 1 ≤ s.config.buyDelay.toNat; omega
  · show 1 ≤ s.config.sellDelay.toNat; omega

open Classical in
/-- **C115.**  `backtest` is a run with one window and the settings of the call, whatever number of
windows the call carries. -/
theorem backtest_runs {s : StrategyObj} (hb : Built s) (hsrc : Answers s.source) {u : UserCode}
    {c : RunCall} (hord : OrdersOf u c) (hsize : c.trainSize ≤ 1) {st : RunSetup.State}
    (h : s.backtest u c = .ok st) :
    ∃ set x, SettingsOf s.sizer s.config.maxLong s.config.maxShort s.own set ∧
      RunsAs s u { c with windows := 1 } set x ∧ x.windows = 1 ∧
      x.rows = (sourceRows s.source (StrategySymbols s) s.start s.stop).filter
        (fun r => decide (CallRow s c r)) ∧
      SetupOK x ∧ x.run = .ok st := by
  obtain ⟨set, x, h1, h2, h3, h4, h5⟩ := call_runs (c := { c with windows := 1 }) hb hsrc hord hsize h
  exact ⟨set, x, h1, h2, h2.windows, h3, h4, h5⟩

/-- **C115.**  At the end of every accepted call no more positions are open than the limits set
on the strategy, or else on its configuration, allow. -/
theorem call_limits {s : StrategyObj} (hb : Built s) (hsrc : Answers s.source) {u : UserCode}
    {c : RunCall} (hord : OrdersOf u c) (hsize : c.trainSize ≤ 1) {st : RunSetup.State}
    (h : s.walkforward u c = .ok st) (hres : ResultsOK st.results) :
    (∀ m, s.own.maxLong = some m ∨ (s.own.maxLong = none ∧ s.config.maxLong = some m) →
      (st.loop.pf.longs.length : Int) ≤ m) ∧
    ∀ m, s.own.maxShort = some m ∨ (s.own.maxShort = none ∧ s.config.maxShort = some m) →
      (st.loop.pf.shorts.length : Int) ≤ m := by
  obtain ⟨set, x, hset, hx, _, hok, hrun⟩ := call_runs hb hsrc hord hsize h
  obtain ⟨ops, hops, hfit, _⟩ := run_history hok hrun hres
  obtain ⟨hl, hs⟩ := position_caps hfit hops
  constructor
  · intro m hm
    have h1 := (hset.long m).2 hm
    rw [← hx.maxLong] at h1
    obtain ⟨n, hn, rfl⟩ := Option.map_eq_some_iff.1 h1
    exact Int.ofNat_le.2 (hl n hn)
  · intro m hm
    have h1 := (hset.short m).2 hm
    rw [← hx.maxShort] at h1
    obtain ⟨n, hn, rfl⟩ := Option.map_eq_some_iff.1 h1
    exact Int.ofNat_le.2 (hs n hn)


/-! ## A concrete strategy -/

namespace Demo

def enSource : BarSource := .frame { rows := drRows }

/-- A configuration with fees, leverage and interest. -/
def enConfig : StratConfig :=
  { initialCash := 10000, feeMode := some .perOrder, feeAmount := some 1, leverage := 2
    interestRate := 5, barsPerYear := some 252, exitOnLast := true }

def enStrategy : StrategyObj :=
  { source := enSource, start := 1, stop := 6, config := enConfig
    execs := [⟨1, .fixed ["AAA", "BBB"]⟩], own := { maxLong := some 1 } }

def enCode : UserCode :=
  { cols := ["open", "high", "low", "close"], act := fun _ => drAct }

def enCall : RunCall := { windows := 2, trainSize := 0 }

theorem enConfig_ok : verifyConfig enConfig = .ok () := by decide +kernel

theorem enStrategy_built : Built enStrategy := by
  have h1 : Built { source := enSource, start := 1, stop := 6, config := enConfig } :=
    .new (src := enSource) (a := 1) (b := 6) (c := some enConfig) (by
      unfold StrategyObj.new
      rw [if_neg (by decide)]
      simp only
      rw [enConfig_ok])
  have h2 : Built { enStrategy with execs := [] } := Built.maxLong (m := some 1) h1 (by
    unfold StrategyObj.setMaxLong
    rw [if_neg (by decide)]
    rfl)
  exact h2.execution ⟨1, .fixed ["AAA", "BBB"]⟩

def isOkA {α : Type} : Except ApiErr α → Bool
  | .ok _ => true
  | .error _ => false

def enEnd : RunSetup.State :=
  match enStrategy.walkforward enCode enCall with
  | .ok st => st
  | .error _ => { loop := { pf := Portfolio.init { cash := 0 } } }

theorem enRun : enStrategy.walkforward enCode enCall = .ok enEnd := by
  have h : isOkA (enStrategy.walkforward enCode enCall) = true := by decide +kernel
  unfold enEnd
  rcases hx : enStrategy.walkforward enCode enCall with e | st
  · rw [hx] at h; cases h
  · rfl

theorem enOrders : OrdersOf enCode enCall := ⟨fun l => List.Perm.refl l, fun l => List.Perm.refl l⟩

theorem enResults : ResultsOK enEnd.results := by
  have h : (∀ r ∈ enEnd.results, (∀ st ∈ r.longStops, st.posType = .long ∧ st.symbol = r.symbol) ∧
      ∀ st ∈ r.shortStops, st.posType = .short ∧ st.symbol = r.symbol) ∧
      (∀ r ∈ enEnd.results, r.buyShares = none ∨ r.sellShares = none) ∧
      ((enEnd.results.flatMap (fun r => r.longStops ++ r.shortStops)).map Stop.id).Nodup := by
    decide +kernel
  exact ⟨h.1, h.2.1, h.2.2⟩

end Demo

example : ConfigOK Demo.enConfig := (config_accepted_iff _).1 Demo.enConfig_ok

example : verifyConfig { Demo.enConfig with barsPerYear := none } = .error .barsPerYear := by
  decide +kernel

example := config_error_names (c := { Demo.enConfig with buyDelay := 0 }) (e := .buyDelay)
  (by decide +kernel)

example := built_valid Demo.enStrategy_built

example := (call_accepted_iff (s := Demo.enStrategy) trivial Demo.enCode Demo.enCall).1
  (by
    rcases h : Demo.enStrategy.prepare Demo.enCode Demo.enCall with e | p
    · have := Demo.enRun
      unfold StrategyObj.walkforward at this
      rw [h] at this
      cases this
    · exact ⟨p, rfl⟩)

example := call_runs Demo.enStrategy_built trivial Demo.enOrders (by norm_num [Demo.enCall])
  Demo.enRun

/-- `backtest` on the same strategy: the call returns. -/
example : ∃ st, Demo.enStrategy.backtest Demo.enCode Demo.enCall = .ok st := by
  have h : Demo.isOkA (Demo.enStrategy.backtest Demo.enCode Demo.enCall) = true := by decide +kernel
  rcases hx : Demo.enStrategy.backtest Demo.enCode Demo.enCall with e | st
  · rw [hx] at h; cases h
  · exact ⟨st, rfl⟩

example := call_limits Demo.enStrategy_built trivial Demo.enOrders (by norm_num [Demo.enCall])
  Demo.enRun Demo.enResults

/-- The orders of the run: AAA is bought and closed on its last bar, BBB sold short and covered. -/
example : Demo.enEnd.loop.pf.orders.map (fun o => (o.date, o.symbol, o.shares, o.fees)) =
    [(2, "AAA", 10, 1), (5, "BBB", 5, 1), (5, "BBB", 5, 1), (6, "AAA", 10, 1)] := by decide +kernel

/-- A training size above one is not refused: a single split of six dates with `train_size` 1.1. -/
example : Demo.isOkA (Demo.enStrategy.walkforward Demo.enCode { windows := 1, trainSize := 11 / 10 }) =
    true := by decide +kernel

end PyBroker
