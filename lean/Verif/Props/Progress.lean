import Verif.Log.Bar
import Mathlib.Tactic.Common
import Mathlib.Data.List.Chain

/-!
# Progress bars (C171)
-/

namespace PyBroker.Log

/-- What one shown bar of `n` steps looks like: the message, the bar drawn at counts that begin
with 0, rise by at most `gap` at a time and end with `n`, then the end of the bar and an empty
line. -/
def Spec.WholeBar (m : String) (n gap : Nat) (out : List Shown) : Prop :=
  ∃ counts : List Nat,
    out = .text m :: counts.map (Shown.draw n) ++ [.finish n, .text ""] ∧
    counts.head? = some 0 ∧ counts.getLast? = some n ∧
    counts.IsChain (fun a b => a < b ∧ b ≤ a + gap)

/-- Something of a bar of `n` steps, of which code in the loop may have hidden any part: all
drawings are of this bar and within it, and the bar ends at most once, at its last step. -/
def Spec.PartOfBar (m : String) (n : Nat) (out : List Shown) : Prop :=
  ∃ counts : List Nat, counts.IsChain (· < ·) ∧ counts.head? = some 0 ∧ (∀ c ∈ counts, c ≤ n) ∧
    (out = .text m :: counts.map (Shown.draw n) ∨
     (counts.getLast? = some n ∧
      out = .text m :: counts.map (Shown.draw n) ++ [.finish n, .text ""]))

/-- Logging was turned off, or the thread is within a silenced section. -/
def Spec.Quiet (f : Flags) : Prop := f.disabled = true ∨ 0 < f.count

/-- Logging and progress bars are on, and the thread is in no silenced section. -/
def Spec.Shows (f : Flags) : Prop := f.disabled = false ∧ f.count = 0 ∧ f.barOff = false

instance (f : Flags) : Decidable (Spec.Quiet f) := by unfold Spec.Quiet; infer_instance

theorem silent_iff (f : Flags) : f.silent = true ↔ Spec.Quiet f := by
  simp [Flags.silent, Spec.Quiet]

theorem shows_iff (f : Flags) : Spec.Shows f ↔ f.silent = false ∧ f.barOff = false := by
  simp [Flags.silent, Spec.Shows, and_assoc]

/-- The updates of a loop whose flags show the bar. -/
theorem updates_shown (fs : Nat → Flags) (n : Nat) (l : List Nat) (last : Nat)
    (hs : ∀ i ∈ l ++ [last], (fs i).silent = false ∧ (fs i).barOff = false)
    (hl : ∀ i ∈ l, i + 1 ≠ n) (hlast : last + 1 = n) :
    updates fs (some n) (l ++ [last]) =
      (none, (l ++ [last]).map (fun i => Shown.draw n (i + 1)) ++ [.finish n, .text ""]) := by
  induction l with
  | nil =>
    have h := hs last (by simp)
    simp [updates, updateBar, h.1, h.2, hlast]
  | cons a l ih =>
    have h := hs a (by simp)
    have ha := hl a (by simp)
    have := ih (fun i hi => hs i (by simp at hi ⊢; tauto)) (fun i hi => hl i (by simp [hi]))
    simp only [List.cons_append, updates, updateBar, h.1, h.2, ha, if_false, Bool.or_self,
      Bool.false_eq_true, this]
    simp

/-- Without a bar, updates show nothing. -/
theorem updates_none (fs : Nat → Flags) (l : List Nat) : updates fs none l = (none, []) := by
  induction l with
  | nil => rfl
  | cons a l ih => simp [updates, updateBar, ih]

/-- While they hide the bar, updates change nothing. -/
theorem updates_hidden (fs : Nat → Flags) (bar : Option Nat) (l : List Nat)
    (h : ∀ i ∈ l, ((fs i).silent || (fs i).barOff) = true) : updates fs bar l = (bar, []) := by
  induction l with
  | nil => rfl
  | cons a l ih =>
    have := ih (fun i hi => h i (by simp [hi]))
    have ha := h a (by simp)
    cases bar <;> simp_all [updates, updateBar]

theorem range_split {n : Nat} (hn : 0 < n) : List.range n = List.range (n - 1) ++ [n - 1] := by
  obtain ⟨k, rfl⟩ : ∃ k, n = k + 1 := ⟨n - 1, by omega⟩
  simp [List.range_succ]

/-- The steps of a backtest but for the last. -/
def firstSteps (n : Nat) : List Nat :=
  (List.range (n - 1)).filter (fun i => decide (i % 10 = 0))

theorem backtestSteps_eq {n : Nat} (hn : 0 < n) : backtestSteps n = firstSteps n ++ [n - 1] := by
  unfold backtestSteps firstSteps
  conv_lhs => rw [range_split hn]
  rw [List.filter_append]
  congr 1
  · apply List.filter_congr
    intro i hi
    have := List.mem_range.1 hi
    have : ¬ i = n - 1 := by omega
    simp [this]
  · simp

/-- The multiples of ten below a bound, one more than each, after 0, rise by at most 10; the last is
within 10 of the bound. -/
theorem tens_chain (k : Nat) :
    (0 :: ((List.range k).filter (fun i => decide (i % 10 = 0))).map (· + 1)).IsChain
      (fun a b => a < b ∧ b ≤ a + 10) ∧
    ∃ c, (0 :: ((List.range k).filter (fun i => decide (i % 10 = 0))).map (· + 1)).getLast? =
      some c ∧ c ≤ k ∧ k ≤ c + 9 ∧ (k = 0 ∧ c = 0 ∨ c % 10 = 1) := by
  induction k with
  | zero => exact ⟨by simp, 0, by simp⟩
  | succ k ih =>
    obtain ⟨hc, c, hl, h1, h2, h3⟩ := ih
    rw [List.range_succ, List.filter_append]
    by_cases hk : k % 10 = 0
    · simp only [List.filter_cons, hk, decide_true, if_true, List.filter_nil, List.map_append,
        List.map_cons, List.map_nil]
      rw [← List.cons_append]
      refine ⟨List.isChain_append.2 ⟨hc, by simp, ?_⟩, k + 1, by rw [List.getLast?_append]; simp, by omega, by omega,
        Or.inr (by omega)⟩
      intro x hx y hy
      rw [hl] at hx
      simp at hx hy
      omega
    · simp only [List.filter_cons, hk, decide_false, Bool.false_eq_true, if_false, List.filter_nil,
        List.append_nil]
      refine ⟨hc, c, hl, by omega, ?_, ?_⟩ <;> omega

theorem steps_chain {n : Nat} (hn : 0 < n) :
    (0 :: (backtestSteps n).map (· + 1)).IsChain (fun a b => a < b ∧ b ≤ a + 10) ∧
    (0 :: (backtestSteps n).map (· + 1)).getLast? = some n := by
  obtain ⟨hc, c, hl, h1, h2, _⟩ := tens_chain (n - 1)
  rw [backtestSteps_eq hn]
  simp only [firstSteps, List.map_append, List.map_cons, List.map_nil]
  rw [← List.cons_append]
  refine ⟨List.isChain_append.2 ⟨hc, by simp, ?_⟩, ?_⟩
  · intro x hx y hy
    rw [hl] at hx
    simp at hx hy
    omega
  · simp only [List.getLast?_append, List.getLast?_singleton, Option.some_or]
    congr 1
    omega

/-- While logging and progress bars are on, a backtest of any number of dates shows one whole
bar: from 0, by at most ten dates at a time, to the number of dates, where it ends; no bar is left. -/
theorem backtest_bar_aux (fs : Nat → Flags) (f : Flags) (bar : Option Nat) (m : String) (n : Nat)
    (hn : 0 < n) (hf : f.silent = false ∧ f.barOff = false)
    (hs : ∀ i < n, (fs i).silent = false ∧ (fs i).barOff = false) :
    (backtestBar f fs bar m n).1 = none ∧
    Spec.WholeBar m n 10 (backtestBar f fs bar m n).2 := by
  have hmem : ∀ i ∈ backtestSteps n, i < n := fun i hi => by
    simp only [backtestSteps, List.mem_filter, List.mem_range] at hi; exact hi.1
  have hu := updates_shown fs n (firstSteps n) (n - 1)
    (fun i hi => hs i (hmem i (by rw [backtestSteps_eq hn]; exact hi)))
    (fun i hi => by
      simp only [firstSteps, List.mem_filter, List.mem_range] at hi; omega) (by omega)
  rw [← backtestSteps_eq hn] at hu
  simp only [backtestBar, barLoop, startBar, hf.1, hf.2, hu, Nat.pos_iff_ne_zero.1 hn, if_false,
    Bool.false_eq_true]
  refine ⟨trivial, 0 :: (backtestSteps n).map (· + 1), ?_, by simp, (steps_chain hn).2,
    (steps_chain hn).1⟩
  simp [Function.comp_def]

theorem range_chain (n : Nat) :
    (0 :: (List.range n).map (· + 1)).IsChain (fun a b => a < b ∧ b ≤ a + 1) ∧
    (0 :: (List.range n).map (· + 1)).getLast? = some n := by
  induction n with
  | zero => simp
  | succ n ih =>
    rw [List.range_succ, List.map_append, ← List.cons_append]
    refine ⟨List.isChain_append.2 ⟨ih.1, by simp, ?_⟩, by rw [List.getLast?_append]; simp⟩
    intro x hx y hy
    rw [ih.2] at hx
    simp at hx hy
    omega

/-- The bar of the computed indicators counts every one of them. -/
theorem indicator_bar_aux (fs : Nat → Flags) (f : Flags) (bar : Option Nat) (n : Nat)
    (hn : 0 < n) (hf : f.silent = false ∧ f.barOff = false)
    (hs : ∀ i < n, (fs i).silent = false ∧ (fs i).barOff = false) :
    (indicatorBar f fs bar n).1 = none ∧
    Spec.WholeBar "Computing indicators..." n 1 (indicatorBar f fs bar n).2 := by
  have hu := updates_shown fs n (List.range (n - 1)) (n - 1)
    (fun i hi => hs i (by rw [← range_split hn] at hi; exact List.mem_range.1 hi))
    (fun i hi => by have := List.mem_range.1 hi; omega) (by omega)
  rw [← range_split hn] at hu
  simp only [indicatorBar, barLoop, startBar, hf.1, hf.2, hu, Nat.pos_iff_ne_zero.1 hn, if_false,
    Bool.false_eq_true]
  refine ⟨trivial, 0 :: (List.range n).map (· + 1), ?_, by simp, (range_chain n).2,
    (range_chain n).1⟩
  simp [Function.comp_def]

/-- While logging is off, or the thread is silenced, nothing is shown, and with progress
bars off only the message is; the logger's bar is left as it was. -/
theorem hidden_bar_aux (fs : Nat → Flags) (f : Flags) (bar : Option Nat) (m : String) (n : Nat)
    (hf : f.silent = true ∨ f.barOff = true)
    (hs : ∀ i < n, (fs i).silent = true ∨ (fs i).barOff = true) :
    backtestBar f fs bar m n =
      (bar, if f.silent = true ∨ n = 0 then [] else [.text m]) ∧
    (0 < n → indicatorBar f fs bar n =
      (bar, if f.silent = true then [] else [.text "Computing indicators..."])) := by
  have hmem : ∀ i ∈ backtestSteps n, ((fs i).silent || (fs i).barOff) = true := fun i hi => by
    simp only [backtestSteps, List.mem_filter, List.mem_range] at hi; simpa using hs i hi.1
  have hmem' : ∀ i ∈ List.range n, ((fs i).silent || (fs i).barOff) = true := fun i hi => by
    simpa using hs i (List.mem_range.1 hi)
  constructor
  · rcases Nat.eq_zero_or_pos n with rfl | hn
    · simp [backtestBar, backtestSteps, updates]
    · simp only [backtestBar, Nat.pos_iff_ne_zero.1 hn, if_false, or_false]
      rcases hf with h | h
      · simp [barLoop, startBar, h, updates_hidden fs _ _ hmem]
      · cases h' : f.silent <;> simp [barLoop, startBar, h, h', updates_hidden fs _ _ hmem]
  · intro hn
    simp only [indicatorBar, Nat.pos_iff_ne_zero.1 hn, if_false]
    rcases hf with h | h
    · simp [barLoop, startBar, h, updates_hidden fs _ _ hmem']
    · cases h' : f.silent <;> simp [barLoop, startBar, h, h', updates_hidden fs _ _ hmem']

/-- Updates of a bar of `n` steps at rising steps, whatever the flags. -/
theorem updates_part (fs : Nat → Flags) (n : Nat) (l : List Nat) (hl : l.IsChain (· < ·))
    (hb : ∀ i ∈ l, i < n) (p : Nat) (hp : ∀ i ∈ l, p < i + 1) :
    ∃ counts : List Nat, (p :: counts).IsChain (· < ·) ∧ (∀ c ∈ counts, c ≤ n) ∧
      ((updates fs (some n) l).2 = counts.map (Shown.draw n) ∨
       (counts.getLast? = some n ∧
        (updates fs (some n) l).2 = counts.map (Shown.draw n) ++ [.finish n, .text ""])) := by
  induction l generalizing p with
  | nil => exact ⟨[], by simp, by simp, Or.inl rfl⟩
  | cons a l ih =>
    have hl' := hl.tail
    have hb' : ∀ i ∈ l, i < n := fun i hi => hb i (by simp [hi])
    have hlt : ∀ i ∈ l, a < i := by
      have := List.isChain_iff_pairwise.1 hl
      exact (List.pairwise_cons.1 this).1
    have han := hb a (by simp)
    have hpa := hp a (by simp)
    by_cases hh : ((fs a).silent || (fs a).barOff) = true
    · obtain ⟨cs, h1, h2, h3⟩ := ih hl' hb' p (fun i hi => hp i (by simp [hi]))
      refine ⟨cs, h1, h2, ?_⟩
      simpa [updates, updateBar, hh] using h3
    · by_cases he : a + 1 = n
      · refine ⟨[n], by simp; omega, by simp, Or.inr ⟨by simp, ?_⟩⟩
        simp [updates, updateBar, hh, he, updates_none]
      · obtain ⟨cs, h1, h2, h3⟩ := ih hl' hb' (a + 1) (fun i hi => by have := hlt i hi; omega)
        refine ⟨(a + 1) :: cs, by simp [h1]; omega, by simp; exact ⟨by omega, h2⟩, ?_⟩
        simp only [updates, updateBar, hh, he, if_false, Bool.false_eq_true]
        rcases h3 with h3 | ⟨h3, h4⟩
        · left; simp [h3]
        · right
          refine ⟨?_, by simp [h4]⟩
          rw [List.getLast?_cons, h3]; rfl

theorem steps_sorted (n : Nat) : (backtestSteps n).IsChain (· < ·) := by
  apply List.isChain_iff_pairwise.2
  exact List.Pairwise.filter _ List.pairwise_lt_range

/-- Code that runs during a backtest may turn logging and bars off and on: what is shown
is part of this bar.  If the backtest began without a bar, in a logger without one, no bar appears. -/
theorem toggled_bar_aux (fs : Nat → Flags) (f : Flags) (bar : Option Nat) (m : String) (n : Nat)
    (hn : 0 < n) :
    (f.silent = false → f.barOff = false →
      Spec.PartOfBar m n (backtestBar f fs bar m n).2) ∧
    ((f.silent = true ∨ f.barOff = true) → bar = none →
      backtestBar f fs bar m n = (none, if f.silent = true then [] else [.text m])) := by
  constructor
  · intro h1 h2
    obtain ⟨cs, hc, hle, ho⟩ := updates_part fs n (backtestSteps n) (steps_sorted n)
      (fun i hi => by
        simp only [backtestSteps, List.mem_filter, List.mem_range] at hi; exact hi.1) 0
      (fun i _ => by omega)
    refine ⟨0 :: cs, hc, by simp, by simpa using hle, ?_⟩
    simp only [backtestBar, barLoop, startBar, h1, h2, Nat.pos_iff_ne_zero.1 hn, if_false,
      Bool.false_eq_true]
    rcases ho with ho | ⟨hlast, ho⟩
    · left; simp [ho]
    · right
      refine ⟨?_, by simp [ho]⟩
      rw [List.getLast?_cons, hlast]; rfl
  · rintro h rfl
    simp only [backtestBar, Nat.pos_iff_ne_zero.1 hn, if_false]
    rcases h with h | h
    · simp [barLoop, startBar, h, updates_none]
    · cases h' : f.silent <;> simp [barLoop, startBar, h, h', updates_none]

/-- Backtests one after the other, with the flags of each and its number of dates. -/
def backtests (m : String) : Option Nat → List (Flags × Nat) → Option Nat × List (List Shown)
  | bar, [] => (bar, [])
  | bar, (f, n) :: l =>
    let r := backtestBar f (fun _ => f) bar m n
    let q := backtests m r.1 l
    (q.1, r.2 :: q.2)

/-- When flags change only between backtests, no bar is left over, and each backtest shows
its whole bar, its message, or nothing. -/
theorem backtests_bars_aux (m : String) (l : List (Flags × Nat)) :
    (backtests m none l).1 = none ∧
    List.Forall₂ (fun (r : Flags × Nat) out =>
      if r.1.silent = true ∨ r.2 = 0 then out = []
      else if r.1.barOff = true then out = [.text m]
      else Spec.WholeBar m r.2 10 out) l (backtests m none l).2 := by
  induction l with
  | nil => exact ⟨rfl, .nil⟩
  | cons a l ih =>
    obtain ⟨f, n⟩ := a
    by_cases hh : f.silent = true ∨ f.barOff = true
    · have h := (hidden_bar_aux (fun _ => f) f none m n hh (fun _ _ => hh)).1
      simp only [backtests, h]
      refine ⟨ih.1, .cons ?_ ih.2⟩
      split_ifs with h1 h2
      · rfl
      · rfl
      · rcases hh with hh | hh
        · exact absurd (Or.inl hh) h1
        · exact absurd hh h2
    · have h1 : f.silent = false := by simpa using fun h => hh (Or.inl h)
      have h2 : f.barOff = false := by simpa using fun h => hh (Or.inr h)
      rcases Nat.eq_zero_or_pos n with rfl | hn
      · have h : backtestBar f (fun _ => f) none m 0 = (none, []) := rfl
        simp only [backtests, h]
        exact ⟨ih.1, .cons (by simp) ih.2⟩
      · have h := backtest_bar_aux (fun _ => f) f none m n hn ⟨h1, h2⟩ (fun _ _ => ⟨h1, h2⟩)
        simp only [backtests, h.1]
        refine ⟨ih.1, .cons ?_ ih.2⟩
        simp only [h1, h2, Nat.pos_iff_ne_zero.1 hn, Bool.false_eq_true, or_self, if_false]
        exact h.2

/-- **C171.** While logging and progress bars are on, a backtest of any number of dates shows one whole
bar: from 0, by at most ten dates at a time, to the number of dates, where it ends; no bar is left. -/
theorem backtest_bar (fs : Nat → Flags) (f : Flags) (bar : Option Nat) (m : String) (n : Nat)
    (hn : 0 < n) (hf : Spec.Shows f) (hs : ∀ i < n, Spec.Shows (fs i)) :
    (backtestBar f fs bar m n).1 = none ∧
    Spec.WholeBar m n 10 (backtestBar f fs bar m n).2 :=
  backtest_bar_aux fs f bar m n hn ((shows_iff f).1 hf) (fun i hi => (shows_iff _).1 (hs i hi))

/-- **C171.** The bar of the computed indicators counts every one of them. -/
theorem indicator_bar (fs : Nat → Flags) (f : Flags) (bar : Option Nat) (n : Nat)
    (hn : 0 < n) (hf : Spec.Shows f) (hs : ∀ i < n, Spec.Shows (fs i)) :
    (indicatorBar f fs bar n).1 = none ∧
    Spec.WholeBar "Computing indicators..." n 1 (indicatorBar f fs bar n).2 :=
  indicator_bar_aux fs f bar n hn ((shows_iff f).1 hf) (fun i hi => (shows_iff _).1 (hs i hi))

/-- **C171.** While logging is off, or the thread is silenced, nothing is shown, and with progress
bars off only the message is; the logger's bar is left as it was. -/
theorem hidden_bar (fs : Nat → Flags) (f : Flags) (bar : Option Nat) (m : String) (n : Nat)
    (hf : ¬ Spec.Shows f) (hs : ∀ i < n, ¬ Spec.Shows (fs i)) :
    backtestBar f fs bar m n = (bar, if Spec.Quiet f ∨ n = 0 then [] else [.text m]) ∧
    (0 < n → indicatorBar f fs bar n =
      (bar, if Spec.Quiet f then [] else [.text "Computing indicators..."])) := by
  have h : ∀ f : Flags, ¬ Spec.Shows f → f.silent = true ∨ f.barOff = true := fun f hf => by
    rw [shows_iff] at hf
    cases h1 : f.silent <;> cases h2 : f.barOff <;> simp_all
  simpa only [silent_iff] using
    hidden_bar_aux fs f bar m n (h f hf) (fun i hi => h _ (hs i hi))

/-- **C171.** Code that runs during a backtest may turn logging and bars off and on: what is shown
is part of this bar.  If the backtest began without a bar, in a logger without one, no bar appears. -/
theorem toggled_bar (fs : Nat → Flags) (f : Flags) (bar : Option Nat) (m : String) (n : Nat)
    (hn : 0 < n) :
    (Spec.Shows f → Spec.PartOfBar m n (backtestBar f fs bar m n).2) ∧
    (¬ Spec.Shows f → bar = none →
      backtestBar f fs bar m n = (none, if Spec.Quiet f then [] else [.text m])) := by
  have h := toggled_bar_aux fs f bar m n hn
  constructor
  · intro hf
    exact h.1 ((shows_iff f).1 hf).1 ((shows_iff f).1 hf).2
  · intro hf hb
    rw [shows_iff] at hf
    have := h.2 (by cases h1 : f.silent <;> cases h2 : f.barOff <;> simp_all) hb
    simpa only [silent_iff] using this

/-- **C171.** When flags change only between backtests, no bar is left over, and each backtest shows
its whole bar, its message, or nothing. -/
theorem backtests_bars (m : String) (l : List (Flags × Nat)) :
    (backtests m none l).1 = none ∧
    List.Forall₂ (fun (r : Flags × Nat) out =>
      if Spec.Quiet r.1 ∨ r.2 = 0 then out = []
      else if r.1.barOff = true then out = [.text m]
      else Spec.WholeBar m r.2 10 out) l (backtests m none l).2 := by
  simpa only [silent_iff] using backtests_bars_aux m l

/-- **C171, where the code falls short.** Logging turned off at the last date of one backtest and on in
the middle of the next: the bar of the first is drawn beyond its end (which `progressbar2` refuses with
`ValueError`). -/
theorem stale_bar :
    let on : Flags := {}
    let off : Flags := { disabled := true }
    let first := backtestBar on (fun i => if i < 4 then on else off) none "one" 5
    let second := backtestBar off (fun i => if i < 5 then off else on) first.1 "two" 21
    first.1 = some 5 ∧ Shown.draw 5 11 ∈ second.2 ∧
    ¬ (∃ c, Shown.draw 21 c ∈ second.2) := by
  refine ⟨by decide +kernel, by decide +kernel, ?_⟩
  have : (backtestBar { disabled := true } (fun i => if i < 5 then { disabled := true } else {})
    (some 5) "two" 21).2 = [.draw 5 11, .draw 5 21] := by decide +kernel
  rintro ⟨c, hc⟩
  have h5 : (backtestBar {} (fun i => if i < 4 then {} else { disabled := true }) none "one" 5).1 =
    some 5 := by decide +kernel
  rw [h5, this] at hc
  simp at hc

/-! ## Threads -/

/-- The run of a schedule: which thread makes the next step. -/
def Sys.run (silent : Nat → Bool) (barOff : Bool) (s : Sys) (sched : List Nat) : Sys :=
  sched.foldl (Sys.step silent barOff) s

/-- No call of the logger has raised. -/
def Spec.NoneCrashed (s : Sys) : Prop := ∀ t, (s.thr t).pc ≠ .crashed

/-- Silenced threads are between calls, and the other holds the bar while it is within one. -/
def Calm (t₀ : Nat) (s : Sys) : Prop :=
  (∀ t, t ≠ t₀ → (s.thr t).pc = .idle) ∧ (s.thr t₀).pc ≠ .crashed ∧
  ((s.thr t₀).pc ≠ .idle → s.bar ≠ none)

/-- A step of a silenced thread between calls. -/
theorem quiet_step (silent : Nat → Bool) (barOff : Bool) (s : Sys) (t : Nat)
    (hq : (silent t || barOff) = true) (hi : (s.thr t).pc = .idle) :
    (s.step silent barOff t).bar = s.bar ∧ ((s.step silent barOff t).thr t).pc = .idle ∧
      ∀ u, u ≠ t → (s.step silent barOff t).thr u = s.thr u := by
  unfold Sys.step
  dsimp only
  rw [hi]
  rcases hd : (s.thr t).todo with _ | ⟨op, r⟩
  · exact ⟨rfl, hi, fun _ _ => rfl⟩
  · cases op
    · simp only [hq, if_true]
      exact ⟨trivial, by simp, fun u hu => by simp [Function.update_of_ne hu]⟩
    · have : (s.bar.isNone || silent t || barOff) = true := by
        rw [Bool.or_assoc, hq, Bool.or_true]
      simp only [this, if_true]
      exact ⟨trivial, by simp, fun u hu => by simp [Function.update_of_ne hu]⟩

theorem calm_step (silent : Nat → Bool) (barOff : Bool) (t₀ : Nat)
    (hs : barOff = true ∨ ∀ t, t ≠ t₀ → silent t = true) (s : Sys) (t : Nat)
    (h : Calm t₀ s) : Calm t₀ (s.step silent barOff t) := by
  obtain ⟨h1, h2, h3⟩ := h
  by_cases ht : t = t₀
  · subst ht
    unfold Sys.step
    refine ⟨fun u hu => ?_, ?_, ?_⟩ <;>
      (dsimp only; split <;> (try split_ifs) <;> simp_all [Function.update_of_ne, Function.update_self])
  · have hi := h1 t ht
    have hq : (silent t || barOff) = true := by
      rcases hs with hs | hs
      · simp [hs]
      · simp [hs t ht]
    have key := quiet_step silent barOff s t hq hi
    obtain ⟨k1, k2, k3⟩ := key
    refine ⟨fun u hu => ?_, ?_, ?_⟩
    · by_cases hut : u = t
      · subst hut; exact k2
      · rw [k3 u hut]; exact h1 u hu
    · rw [k3 t₀ (Ne.symm ht)]; exact h2
    · rw [k3 t₀ (Ne.symm ht), k1]; exact h3

/-- **C171.** While progress bars are off, or every thread but one is silenced (as trials without
`verbose` are), no call of the logger raises, in any schedule of the threads. -/
theorem bars_any_schedule_partial (silent : Nat → Bool) (barOff : Bool) (t₀ : Nat)
    (hs : barOff = true ∨ ∀ t, t ≠ t₀ → silent t = true)
    (todo : Nat → List BarOp) (bar : Option Nat) (sched : List Nat) :
    Spec.NoneCrashed
      (Sys.run silent barOff { bar := bar, thr := fun t => { todo := todo t } } sched) := by
  have : ∀ (s : Sys), Calm t₀ s → Calm t₀ (Sys.run silent barOff s sched) := by
    induction sched with
    | nil => exact fun s h => h
    | cons t l ih => exact fun s h => ih _ (calm_step silent barOff t₀ hs s t h)
  have h := this { bar := bar, thr := fun t => { todo := todo t } } ⟨by simp, by simp, by simp⟩
  intro t
  by_cases ht : t = t₀
  · subst ht; exact h.2.1
  · rw [h.1 t ht]; simp

/-- A step of a thread depends on the bar and the thread alone. -/
theorem step_local (silent : Nat → Bool) (barOff : Bool) (s s' : Sys) (t : Nat)
    (hb : s.bar = s'.bar) (ht : s.thr t = s'.thr t) :
    (s.step silent barOff t).bar = (s'.step silent barOff t).bar ∧
    (s.step silent barOff t).thr t = (s'.step silent barOff t).thr t := by
  unfold Sys.step
  dsimp only
  rw [hb, ht]
  split <;> (try split_ifs) <;> simp [hb, ht]

/-- **C171.** A thread that shows its progress while all others are silenced goes through the same
steps, and has the same bar, as if it ran alone. -/
theorem bars_alone (silent : Nat → Bool) (t₀ : Nat) (hs : ∀ t, t ≠ t₀ → silent t = true)
    (todo : Nat → List BarOp) (bar : Option Nat) (sched : List Nat) :
    let s : Sys := { bar := bar, thr := fun t => { todo := todo t } }
    (Sys.run silent false s sched).bar =
      (Sys.run silent false s (sched.filter (· == t₀))).bar ∧
    (Sys.run silent false s sched).thr t₀ =
      (Sys.run silent false s (sched.filter (· == t₀))).thr t₀ := by
  intro s
  have : ∀ (s s' : Sys), Calm t₀ s → s.bar = s'.bar → s.thr t₀ = s'.thr t₀ →
      (Sys.run silent false s sched).bar =
        (Sys.run silent false s' (sched.filter (· == t₀))).bar ∧
      (Sys.run silent false s sched).thr t₀ =
        (Sys.run silent false s' (sched.filter (· == t₀))).thr t₀ := by
    induction sched with
    | nil => exact fun _ _ _ h h' => ⟨h, h'⟩
    | cons t l ih =>
      intro s s' hc hb ht
      have hc' := calm_step silent false t₀ (Or.inr hs) s t hc
      by_cases h : t = t₀
      · subst h
        have := step_local silent false s s' t hb ht
        simpa [Sys.run] using ih _ _ hc' this.1 this.2
      · have hq := quiet_step silent false s t (by simp [hs t h]) (hc.1 t h)
        have := ih _ s' hc' (hq.1.trans hb) ((hq.2.2 t₀ (Ne.symm h)).trans ht)
        simpa [Sys.run, h] using this
  exact this s s ⟨by simp [s], by simp [s], by simp [s]⟩ rfl rfl

/-- **C171, where the code falls short.** Two threads that both show their progress share the bar: one
ends it between the other's check and use, which raises. -/
theorem bars_can_crash :
    ∃ (todo : Nat → List BarOp) (sched : List Nat),
      ¬ Spec.NoneCrashed (Sys.run (fun _ => false) false
        { bar := none, thr := fun t => { todo := todo t } } sched) := by
  refine ⟨fun t => if t = 0 then [.start 1, .update 1] else if t = 1 then [.update 1] else [],
    [0, 0, 0, 1, 0, 0, 0, 0, 1], fun h => h 1 ?_⟩
  decide +kernel

/-! ## Examples -/

example : (backtestBar {} (fun _ => {}) none "Test split" 23) =
    (none, [.text "Test split", .draw 23 0, .draw 23 1, .draw 23 11, .draw 23 21, .draw 23 23,
      .finish 23, .text ""]) := by decide +kernel

example : (indicatorBar {} (fun _ => {}) none 2).2 =
    [.text "Computing indicators...", .draw 2 0, .draw 2 1, .draw 2 2, .finish 2, .text ""] := by
  decide +kernel

example : backtestBar { count := 1 } (fun _ => { count := 1 }) none "Test split" 23 = (none, []) ∧
    backtestBar { barOff := true } (fun _ => { barOff := true }) none "Test split" 23 =
      (none, [.text "Test split"]) := by decide +kernel

example : (backtestBar {} (fun i => if i = 10 then { disabled := true } else {}) none "m" 23).2 =
    [.text "m", .draw 23 0, .draw 23 1, .draw 23 21, .draw 23 23, .finish 23, .text ""] := by
  decide +kernel

example : (backtests "m" none [({ barOff := true }, 3), ({}, 2), ({ disabled := true }, 5)]) =
    (none, [[.text "m"], [.text "m", .draw 2 0, .draw 2 1, .draw 2 2, .finish 2, .text ""], []]) := by
  decide +kernel

/-- Two threads, of which one is silenced, in a schedule that interleaves them. -/
example :
    let s := Sys.run (fun t => t == 1) false
        { bar := none, thr := fun t => { todo := if t < 2 then [.start 1, .update 1] else [] } }
        [0, 1, 0, 1, 0, 0, 0, 0, 0]
    s.bar = none ∧ (s.thr 0).todo = [] ∧ (s.thr 1).todo = [] := by decide +kernel

end PyBroker.Log
