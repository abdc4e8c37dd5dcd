import Verif.Scope.Signals
import Verif.Props.Drive
import Verif.Props.Text
import Verif.Props.Indicator

/-!
# The names and the tables of signals (C125, C126)
-/

namespace PyBroker

namespace Spec

/-- Names that the predictions of a model can have: its own with `_pred` after it, and that with an
underscore and a number after it. -/
def PredictionName (m s : String) : Prop :=
  s = m ++ "_pred" ∨ ∃ ds : List Char, ds ≠ [] ∧ (∀ c ∈ ds, c ∈ "0123456789".toList) ∧
    s = m ++ "_pred_" ++ String.ofList ds

/-- The data columns of a run. -/
def IsColumn (custom : List String) (c : String) : Prop :=
  c ∈ ["date", "open", "high", "low", "close", "volume", "vwap"] ∨ c ∈ custom

/-- What a column of the signals can hold. -/
inductive SigSource
  | column (c : String)
  | indicator (i : String)
  | prediction (m : String)
  | component (m : String) (n : Nat)
  deriving DecidableEq

/-- The name of its column. -/
def SigSource.name : SigSource → String
  | .column c => c
  | .indicator i => i
  | .prediction m => m ++ "_pred"
  | .component m n => m ++ "_pred_" ++ toString n

/-- What a run with these columns, indicators and models can show. -/
def SigSource.Of (custom inds models : List String) : SigSource → Prop
  | .column c => IsColumn custom c
  | .indicator i => i ∈ inds
  | .prediction m => m ∈ models
  | .component m _ => m ∈ models

end Spec

open PyBroker.Spec

/-! ## Digits -/

theorem isDig_mem {c : Char} : isDig c = true ↔ c ∈ "0123456789".toList := by
  constructor
  · intro h
    unfold isDig at h
    obtain ⟨h1, h2⟩ := Bool.and_eq_true_iff.1 h
    have h1 : 48 ≤ c.toNat := of_decide_eq_true h1
    have h2 : c.toNat ≤ 57 := of_decide_eq_true h2
    have : c = Char.ofNat c.toNat := (Char.ofNat_toNat c).symm
    rw [this]
    generalize c.toNat = n at h1 h2
    interval_cases n <;> decide
  · intro h
    have : ∀ c ∈ "0123456789".toList, isDig c = true := by decide
    exact this c h

theorem split_digits {a b ds es : List Char} (hd : ∀ c ∈ ds, isDig c = true)
    (he : ∀ c ∈ es, isDig c = true) (h : a ++ '_' :: ds = b ++ '_' :: es) : a = b ∧ ds = es := by
  have hr := congrArg List.reverse h
  simp only [List.reverse_append, List.reverse_cons, List.append_assoc, List.singleton_append] at hr
  have key : ∀ (ds rest : List Char), (∀ c ∈ ds, isDig c = true) →
      (ds ++ '_' :: rest).takeWhile isDig = ds := by
    intro ds rest hd
    rw [List.takeWhile_append_of_pos hd]
    have : isDig '_' = false := by decide
    simp [List.takeWhile_cons, this]
  have h1 := congrArg (List.takeWhile isDig) hr
  rw [key _ _ (by simpa using hd), key _ _ (by simpa using he)] at h1
  have h2 : ds = es := List.reverse_injective h1
  subst h2
  exact ⟨List.append_cancel_right h, rfl⟩

theorem showNat_inj {n m : Nat} (h : showNat n = showNat m) : n = m := by
  rw [← (showNat_spec n).2.2, h, (showNat_spec m).2.2]

theorem predName_toList (m : String) : (predName m).toList = m.toList ++ "_pred".toList := by
  simp [predName]

theorem predNameAt_toList (m : String) (n : Nat) :
    (predNameAt m n).toList = (m.toList ++ "_pred".toList) ++ '_' :: showNat n := by
  simp [predNameAt]

theorem reserved_iff {m s : String} : reserved m s = true ↔ PredictionName m s := by
  unfold reserved PredictionName
  rw [Bool.or_eq_true, beq_iff_eq]
  refine or_congr Iff.rfl ?_
  rw [Bool.and_eq_true, List.isPrefixOf_iff_prefix]
  have hl : (predName m ++ "_").toList.length = (predName m).length + 1 := by
    rw [String.length_toList, String.length_append]; rfl
  unfold isDigits
  rw [Bool.and_eq_true, decide_eq_true_iff, List.all_eq_true]
  constructor
  · rintro ⟨⟨t, ht⟩, h1, h2⟩
    have hdrop : s.toList.drop ((predName m).length + 1) = t := by
      rw [← ht, ← hl, List.drop_left]
    rw [hdrop] at h1 h2
    refine ⟨t, h1, fun c hc => isDig_mem.1 (h2 c hc), ?_⟩
    apply String.ext
    rw [← ht]
    simp [predName]
  · rintro ⟨ds, h1, h2, rfl⟩
    have hs : (m ++ "_pred_" ++ String.ofList ds).toList = (predName m ++ "_").toList ++ ds := by
      simp [predName]
    rw [hs]
    refine ⟨⟨ds, rfl⟩, ?_⟩
    rw [← hl, List.drop_left]
    exact ⟨h1, fun c hc => isDig_mem.2 (h2 c hc)⟩

/-! ## Acceptance -/

theorem isColumn_iff {custom : List String} {c : String} :
    IsColumn custom c ↔ c ∈ defaultCols ++ custom := by
  rw [List.mem_append]
  rfl

theorem sort_nil {l : List String} : l.insertionSort (· ≤ ·) = [] ↔ l = [] := by
  rw [← List.length_eq_zero_iff, List.length_insertionSort, List.length_eq_zero_iff]

theorem mem_sort {l : List String} {c : String} : c ∈ l.insertionSort (· ≤ ·) ↔ c ∈ l :=
  (List.perm_insertionSort _ _).mem_iff

/-- **C126.**  Names are accepted exactly when no indicator has the name of a data column, and no
data column or indicator has a name that the predictions of a model can have. -/
theorem names_accepted_iff (custom inds models : List String) :
    validateNames custom inds models = .ok () ↔
      (∀ i ∈ inds, ¬ IsColumn custom i) ∧
      ∀ m ∈ models, ∀ s, PredictionName m s → ¬ IsColumn custom s ∧ s ∉ inds := by
  unfold validateNames
  simp only [isColumn_iff]
  by_cases h1 : (inds.dedup.filter (fun i => i ∈ defaultCols ++ custom)).insertionSort (· ≤ ·) = []
  · rw [if_neg (not_not.2 h1)]
    have h1' : ∀ i ∈ inds, i ∉ defaultCols ++ custom := by
      intro i hi hc
      have := List.filter_eq_nil_iff.1 (sort_nil.1 h1) i (List.mem_dedup.2 hi)
      exact this (by simpa using hc)
    by_cases h2 : ((defaultCols ++ custom ++ inds).dedup.filter
        (fun e => models.any (fun m => reserved m e))).insertionSort (· ≤ ·) = []
    · rw [if_neg (not_not.2 h2)]
      refine iff_of_true rfl ⟨h1', ?_⟩
      intro m hm s hs
      have key : s ∉ defaultCols ++ custom ++ inds := by
        intro hc
        have := List.filter_eq_nil_iff.1 (sort_nil.1 h2) s (List.mem_dedup.2 hc)
        exact this (List.any_eq_true.2 ⟨m, hm, reserved_iff.2 hs⟩)
      exact ⟨fun h => key (List.mem_append_left _ h), fun h => key (List.mem_append_right _ h)⟩
    · rw [if_pos h2]
      refine iff_of_false (by simp) ?_
      rintro ⟨_, h⟩
      apply h2
      rw [sort_nil]
      rw [List.filter_eq_nil_iff]
      intro s hs hm
      obtain ⟨m, hm, hr⟩ := List.any_eq_true.1 hm
      have := h m hm s (reserved_iff.1 hr)
      rcases List.mem_append.1 (List.mem_dedup.1 hs) with hs | hs
      · exact this.1 hs
      · exact this.2 hs
  · rw [if_pos h1]
    refine iff_of_false (by simp) ?_
    rintro ⟨h, _⟩
    apply h1
    rw [sort_nil, List.filter_eq_nil_iff]
    intro i hi hc
    exact h i (List.mem_dedup.1 hi) (by simpa using hc)

/-- **C126.**  The error lists the names at fault, in order and without repeats: the indicators named
like a data column or, if there are none, the names that collide with predictions. -/
theorem names_at_fault (custom inds models : List String) :
    (∀ l, validateNames custom inds models = .error (.indicators l) →
      l.Pairwise (· < ·) ∧ ∀ i, i ∈ l ↔ i ∈ inds ∧ IsColumn custom i) ∧
    (∀ l, validateNames custom inds models = .error (.predictions l) →
      (∀ i ∈ inds, ¬ IsColumn custom i) ∧ l.Pairwise (· < ·) ∧
      ∀ s, s ∈ l ↔ (IsColumn custom s ∨ s ∈ inds) ∧ ∃ m ∈ models, PredictionName m s) := by
  have sorted : ∀ l : List String, l.Nodup → (l.insertionSort (· ≤ ·)).Pairwise (· < ·) := by
    intro l hl
    have h1 : (l.insertionSort (· ≤ ·)).Pairwise (· ≤ ·) := List.pairwise_insertionSort _ _
    have h2 : (l.insertionSort (· ≤ ·)).Nodup := (List.perm_insertionSort _ _).nodup_iff.2 hl
    exact (h1.and h2).imp (fun h => lt_of_le_of_ne h.1 h.2)
  unfold validateNames
  simp only [isColumn_iff]
  by_cases h1 : (inds.dedup.filter (fun i => i ∈ defaultCols ++ custom)).insertionSort (· ≤ ·) = []
  · rw [if_neg (not_not.2 h1)]
    by_cases h2 : ((defaultCols ++ custom ++ inds).dedup.filter
        (fun e => models.any (fun m => reserved m e))).insertionSort (· ≤ ·) = []
    · rw [if_neg (not_not.2 h2)]
      exact ⟨(by intro l h; cases h), (by intro l h; cases h)⟩
    · rw [if_pos h2]
      refine ⟨(by intro l h; cases h), ?_⟩
      intro l h
      cases h
      refine ⟨?_, sorted _ ((List.nodup_dedup _).filter _), ?_⟩
      · intro i hi hc
        have := List.filter_eq_nil_iff.1 (sort_nil.1 h1) i (List.mem_dedup.2 hi)
        exact this (by simpa using hc)
      · intro s
        rw [mem_sort, List.mem_filter, List.mem_dedup, List.mem_append, List.any_eq_true]
        refine and_congr Iff.rfl (exists_congr (fun m => and_congr_right (fun _ => reserved_iff)))
  · rw [if_pos h1]
    refine ⟨?_, (by intro l h; cases h)⟩
    intro l h
    cases h
    refine ⟨sorted _ ((List.nodup_dedup _).filter _), ?_⟩
    intro i
    rw [mem_sort, List.mem_filter, List.mem_dedup, decide_eq_true_iff]

theorem toString_showNat (n : Nat) : (toString n).toList = showNat n := by
  rw [Nat.toString_eq_repr, Nat.toList_repr]
  have digit : ∀ n < 10, Nat.digitChar n = digC n := by decide
  induction n using Nat.strong_induction_on with
  | _ n ih =>
    unfold showNat
    by_cases h : n < 10
    · rw [dif_pos h, Nat.toDigits_of_lt_base h, digit n h]
    · rw [dif_neg h, Nat.toDigits_of_base_le (by decide) (by omega), ih (n / 10) (by omega),
        digit _ (Nat.mod_lt n (by decide))]

theorem predNameAt_eq (m : String) (n : Nat) : predNameAt m n = (SigSource.component m n).name := by
  apply String.toList_inj.1
  rw [predNameAt_toList]
  unfold SigSource.name
  simp only [String.toList_append, toString_showNat]
  simp

theorem component_name (m : String) (n : Nat) : PredictionName m (SigSource.component m n).name := by
  right
  refine ⟨showNat n, (showNat_spec n).1, fun c hc => isDig_mem.1 ((showNat_spec n).2.1 c hc), ?_⟩
  rw [← predNameAt_eq]
  rfl

/-- The predictions of models have different columns. -/
theorem prediction_names {a b : SigSource} (ha : ∀ c, a ≠ .column c ∧ a ≠ .indicator c)
    (hb : ∀ c, b ≠ .column c ∧ b ≠ .indicator c) (hn : a.name = b.name) : a = b := by
  have last : ∀ (l r : List Char) (n : Nat), l ++ "_pred".toList ≠ r ++ '_' :: showNat n := by
    intro l r n h
    have h1 := congrArg List.getLast? h
    have h2 : (l ++ "_pred".toList).getLast? = some 'd' := by
      rw [List.getLast?_append]; rfl
    obtain ⟨q1, q2, _⟩ := showNat_spec n
    have h3 : (r ++ '_' :: showNat n).getLast? = some ((showNat n).getLast q1) := by
      rw [List.getLast?_append, List.getLast?_cons, List.getLast?_eq_some_getLast q1]; rfl
    rw [h2, h3] at h1
    have := q2 _ (List.getLast_mem q1)
    rw [← Option.some.inj h1] at this
    exact absurd this (by decide)
  cases a with
  | column c => exact absurd rfl (ha c).1
  | indicator c => exact absurd rfl (ha c).2
  | prediction m =>
    cases b with
    | column c => exact absurd rfl (hb c).1
    | indicator c => exact absurd rfl (hb c).2
    | prediction m' =>
      have h := congrArg String.toList hn
      have h : (predName m).toList = (predName m').toList := h
      rw [predName_toList, predName_toList] at h
      rw [String.toList_inj.1 (List.append_cancel_right h)]
    | component m' n =>
      rw [← predNameAt_eq] at hn
      have h := congrArg String.toList hn
      have h : (predName m).toList = (predNameAt m' n).toList := h
      rw [predName_toList, predNameAt_toList] at h
      exact absurd h (last _ _ _)
  | component m n =>
    cases b with
    | column c => exact absurd rfl (hb c).1
    | indicator c => exact absurd rfl (hb c).2
    | prediction m' =>
      rw [← predNameAt_eq] at hn
      have h := congrArg String.toList hn
      have h : (predNameAt m n).toList = (predName m').toList := h
      rw [predName_toList, predNameAt_toList] at h
      exact absurd h.symm (last _ _ _)
    | component m' n' =>
      rw [← predNameAt_eq, ← predNameAt_eq] at hn
      have h := congrArg String.toList hn
      rw [predNameAt_toList, predNameAt_toList] at h
      obtain ⟨h1, h2⟩ := split_digits (showNat_spec n).2.1 (showNat_spec n').2.1 h
      rw [String.toList_inj.1 (List.append_cancel_right h1), showNat_inj h2]

/-- **C126, for the names checked.**  Accepted names are unambiguous: different sources have
different columns. -/
theorem names_unambiguous {custom inds models : List String}
    (h : validateNames custom inds models = .ok ()) {a b : SigSource}
    (ha : a.Of custom inds models) (hb : b.Of custom inds models) (hn : a.name = b.name) : a = b := by
  obtain ⟨h1, h2⟩ := (names_accepted_iff _ _ _).1 h
  have free : ∀ {a b : SigSource}, a.Of custom inds models → b.Of custom inds models →
      a.name = b.name → (∃ c, a = .column c ∨ a = .indicator c) → (∃ c, b = .column c ∨ b = .indicator c) := by
    intro a b ha hb hn hc
    have key : ∀ m ∈ models, ¬ PredictionName m a.name := by
      intro m hm hp
      obtain ⟨c, rfl | rfl⟩ := hc
      · exact (h2 m hm _ hp).1 ha
      · exact (h2 m hm _ hp).2 ha
    cases b with
    | column c => exact ⟨c, Or.inl rfl⟩
    | indicator c => exact ⟨c, Or.inr rfl⟩
    | prediction m =>
      exact absurd (by rw [hn]; exact Or.inl rfl) (key m hb)
    | component m n =>
      exact absurd (by rw [hn]; exact component_name m n) (key m hb)
  by_cases hc : ∃ c, a = .column c ∨ a = .indicator c
  · have hd := free ha hb hn hc
    obtain ⟨c, rfl | rfl⟩ := hc
    · obtain ⟨d, rfl | rfl⟩ := hd
      · have : c = d := hn
        rw [this]
      · have : c = d := hn
        subst this
        exact absurd ha (h1 c hb)
    · obtain ⟨d, rfl | rfl⟩ := hd
      · have : c = d := hn
        subst this
        exact absurd hb (h1 c ha)
      · have : c = d := hn
        rw [this]
  · have hd : ¬ ∃ c, b = .column c ∨ b = .indicator c := fun hd => hc (free hb ha hn.symm hd)
    refine prediction_names ?_ ?_ hn
    · exact fun c => ⟨fun e => hc ⟨c, Or.inl e⟩, fun e => hc ⟨c, Or.inr e⟩⟩
    · exact fun c => ⟨fun e => hd ⟨c, Or.inl e⟩, fun e => hd ⟨c, Or.inr e⟩⟩

/-- What is asked of the sources of a run to be told apart: those of different kinds or names have
different columns. -/
def Spec.Unambiguous (custom inds models : List String) : Prop :=
  ∀ a b : SigSource, a.Of custom inds models → b.Of custom inds models → a.name = b.name → a = b

/-- **C126, partial.**  The sources of a run that passes the check have different columns, if the
indicators that its models were registered with are also among those of its executions.  Missing:
the check does not look at the others (`model_indicators_unchecked`). -/
theorem run_names_partial {custom : List String} {es : List ExecNames} {modelInds : String → List String}
    (h : checkNames custom es = .ok ())
    (hm : ∀ e ∈ es, ∀ m ∈ e.models, ∀ i ∈ modelInds m, ∃ e' ∈ es, i ∈ e'.inds) :
    Unambiguous custom (computedInds modelInds es) (es.flatMap ExecNames.models) := by
  have hsub : ∀ a : SigSource, a.Of custom (computedInds modelInds es) (es.flatMap ExecNames.models) →
      a.Of custom (es.flatMap ExecNames.inds) (es.flatMap ExecNames.models) := by
    intro a ha
    cases a with
    | indicator i =>
      have ha : i ∈ computedInds modelInds es := ha
      unfold computedInds at ha
      obtain ⟨e, he, hi⟩ := List.mem_flatMap.1 (List.mem_dedup.1 ha)
      rcases List.mem_append.1 hi with hi | hi
      · obtain ⟨m, hmm, hi⟩ := List.mem_flatMap.1 hi
        obtain ⟨e', he', hi'⟩ := hm e he m hmm i hi
        exact List.mem_flatMap.2 ⟨e', he', hi'⟩
      · exact List.mem_flatMap.2 ⟨e, he, hi⟩
    | column c => exact ha
    | prediction m => exact ha
    | component m n => exact ha
  intro a b ha hb hn
  exact names_unambiguous h (hsub a ha) (hsub b hb) hn

/-- **C126 does not hold.**  A run passes the check although an indicator of its model is named like a
data column. -/
theorem model_indicators_unchecked :
    ∃ (es : List ExecNames) (modelInds : String → List String), checkNames [] es = .ok () ∧
      ¬ Unambiguous [] (computedInds modelInds es) (es.flatMap ExecNames.models) := by
  refine ⟨[{ models := ["svm"] }], fun _ => ["close"], by decide +kernel, ?_⟩
  intro h
  have := h (.column "close") (.indicator "close") (Or.inl (by simp)) (by
    show "close" ∈ computedInds _ _
    decide +kernel) rfl
  cases this

/-- The check: names that pass, and names at fault. -/
example : checkNames ["rsi"] [{ inds := ["sma", "svm_pred_x"], models := ["svm"] }] = .ok () ∧
    checkNames ["rsi"] [{ inds := ["sma", "rsi", "close"] }] = .error (.indicators ["close", "rsi"]) ∧
    checkNames ["svm_pred"] [{ inds := ["svm_pred_10"], models := ["svm"] }] =
      .error (.predictions ["svm_pred", "svm_pred_10"]) := by
  refine ⟨?_, ?_, ?_⟩ <;> decide +kernel

example := run_names_partial (custom := ["rsi"])
  (es := [{ inds := ["sma", "svm_pred_x"], models := ["svm"] }]) (modelInds := fun _ => ["sma"])
  (by decide +kernel) (by simp)

end PyBroker
