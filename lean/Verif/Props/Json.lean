/-
C63: converting results to JSON values.
-/
import Verif.Common.Json
import Mathlib.Tactic.Linarith
import Mathlib.Data.List.Forall2

namespace PyBroker

namespace Spec

/-- The scalars `json.dumps` accepts as keys of an object. -/
inductive IsKey : PyVal → Prop
  | none : IsKey .none
  | bool (b : Bool) : IsKey (.bool b)
  | int (i : Int) : IsKey (.int i)
  | float (q : ℚ) : IsKey (.float (.fin q))
  | str (s : String) : IsKey (.str s)

/-- The values `json.dumps(…, allow_nan=False)` accepts: null, booleans,
strings, integers, finite floats, lists, and dicts with distinct scalar keys. -/
inductive IsJson : PyVal → Prop
  | none : IsJson .none
  | bool (b : Bool) : IsJson (.bool b)
  | int (i : Int) : IsJson (.int i)
  | float (q : ℚ) : IsJson (.float (.fin q))
  | str (s : String) : IsJson (.str s)
  | list (l : List PyVal) (h : ∀ v ∈ l, IsJson v) : IsJson (.list l)
  | dict (l : List (PyVal × PyVal)) (keys : ∀ kv ∈ l, IsKey kv.1)
      (distinct : l.Pairwise (fun a b => keyEq a.1 b.1 = false))
      (h : ∀ kv ∈ l, IsJson kv.2) : IsJson (.dict l)

/-- `Inside x v`: `x` is `v` or occurs somewhere inside it. -/
inductive Inside (x : PyVal) : PyVal → Prop
  | refl : Inside x x
  | enum {v : PyVal} : Inside x v → Inside x (.enum v)
  | array0 {v : PyVal} : Inside x v → Inside x (.array0 v)
  | array {l : List PyVal} {v : PyVal} : v ∈ l → Inside x v → Inside x (.array l)
  | list {l : List PyVal} {v : PyVal} : v ∈ l → Inside x v → Inside x (.list l)
  | tuple {l : List PyVal} {v : PyVal} : v ∈ l → Inside x v → Inside x (.tuple l)
  | set {l : List PyVal} {v : PyVal} : v ∈ l → Inside x v → Inside x (.set l)
  | dictKey {l : List (PyVal × PyVal)} {kv : PyVal × PyVal} :
      kv ∈ l → Inside x kv.1 → Inside x (.dict l)
  | dictVal {l : List (PyVal × PyVal)} {kv : PyVal × PyVal} :
      kv ∈ l → Inside x kv.2 → Inside x (.dict l)
  | recordKey {l : List (PyVal × PyVal)} {kv : PyVal × PyVal} :
      kv ∈ l → Inside x kv.1 → Inside x (.record l)
  | recordVal {l : List (PyVal × PyVal)} {kv : PyVal × PyVal} :
      kv ∈ l → Inside x kv.2 → Inside x (.record l)

/-- Every finite decimal or long double inside `v` is within the range of a
float. -/
def FitsFloat (lib : PyLib) (v : PyVal) : Prop :=
  ∀ q : ℚ, Inside (.decimal (.fin q)) v ∨ Inside (.npFloat (.fin q)) v →
    -lib.maxFloat ≤ q ∧ q ≤ lib.maxFloat

/-- A value that stands for "missing". -/
inductive Missing : PyVal → Prop
  | none : Missing .none
  | nat : Missing .nat
  | na : Missing .na
  | float : Missing (.float .nan)
  | decimal : Missing (.decimal .nan)
  | npFloat : Missing (.npFloat .nan)
  | enum {v : PyVal} : Missing v → Missing (.enum v)
  | array0 {v : PyVal} : Missing v → Missing (.array0 v)

/-- What is relied on about the Python library: `json.dumps` succeeds on JSON
values and `sorted` returns the elements it was given. -/
structure LibOk (lib : PyLib) : Prop where
  dumps : ∀ v, IsJson v → (lib.dumps v).isSome
  sorted : ∀ l, (lib.sorted l).Perm l

end Spec

open Spec

/-! ## Dicts -/

theorem mem_dictPut {d : List (PyVal × PyVal)} {k v : PyVal} {x : PyVal × PyVal}
    (h : x ∈ dictPut d k v) :
    x ∈ d ∨ x = (k, v) ∨ (x.2 = v ∧ ∃ y ∈ d, y.1 = x.1) := by
  induction d with
  | nil => simp [dictPut] at h; exact .inr (.inl h)
  | cons a d ih =>
    obtain ⟨k', v'⟩ := a
    simp only [dictPut] at h
    split at h
    · rcases List.mem_cons.mp h with h | h
      · subst h; exact .inr (.inr ⟨rfl, _, List.mem_cons_self, rfl⟩)
      · exact .inl (List.mem_cons_of_mem _ h)
    · rcases List.mem_cons.mp h with h | h
      · subst h; exact .inl List.mem_cons_self
      · rcases ih h with h | h | ⟨h, y, hy, e⟩
        · exact .inl (List.mem_cons_of_mem _ h)
        · exact .inr (.inl h)
        · exact .inr (.inr ⟨h, y, List.mem_cons_of_mem _ hy, e⟩)

theorem dictPut_key {d : List (PyVal × PyVal)} {k v : PyVal} {x : PyVal × PyVal}
    (h : x ∈ dictPut d k v) : x.1 = k ∨ ∃ y ∈ d, y.1 = x.1 := by
  rcases mem_dictPut h with h | h | ⟨_, h⟩
  · exact .inr ⟨x, h, rfl⟩
  · exact .inl (by rw [h])
  · exact .inr h

theorem dictPut_distinct {d : List (PyVal × PyVal)} {k v : PyVal}
    (hd : d.Pairwise (fun a b => keyEq a.1 b.1 = false)) :
    (dictPut d k v).Pairwise (fun a b => keyEq a.1 b.1 = false) := by
  induction d with
  | nil => simp [dictPut]
  | cons a d ih =>
    obtain ⟨k', v'⟩ := a
    simp only [dictPut]
    obtain ⟨h1, h2⟩ := List.pairwise_cons.mp hd
    split
    · exact List.pairwise_cons.mpr ⟨fun b hb => h1 b hb, h2⟩
    · rename_i hne
      refine List.pairwise_cons.mpr ⟨fun b hb => ?_, ih h2⟩
      rcases dictPut_key hb with h | ⟨y, hy, e⟩
      · simpa [h] using hne
      · rw [← e]; exact h1 y hy

theorem dictFold_distinct (l d : List (PyVal × PyVal))
    (hd : d.Pairwise (fun a b => keyEq a.1 b.1 = false)) :
    (l.foldl (fun d kv => dictPut d kv.1 kv.2) d).Pairwise
      (fun a b => keyEq a.1 b.1 = false) := by
  induction l generalizing d with
  | nil => exact hd
  | cons a l ih => exact ih _ (dictPut_distinct hd)

theorem dictFold_all (P Q : PyVal → Prop) (l d : List (PyVal × PyVal))
    (hd : ∀ kv ∈ d, P kv.1 ∧ Q kv.2) (hl : ∀ kv ∈ l, P kv.1 ∧ Q kv.2) :
    ∀ kv ∈ l.foldl (fun d kv => dictPut d kv.1 kv.2) d, P kv.1 ∧ Q kv.2 := by
  induction l generalizing d with
  | nil => exact hd
  | cons a l ih =>
    refine ih _ (fun kv hkv => ?_) (fun kv h => hl kv (List.mem_cons_of_mem _ h))
    have ha := hl a List.mem_cons_self
    rcases mem_dictPut hkv with h | h | ⟨h, y, hy, e⟩
    · exact hd kv h
    · rw [h]; exact ha
    · exact ⟨e ▸ (hd y hy).1, h ▸ ha.2⟩

theorem dictPut_new {d : List (PyVal × PyVal)} {k v : PyVal}
    (h : ∀ y ∈ d, keyEq y.1 k = false) : dictPut d k v = d ++ [(k, v)] := by
  induction d with
  | nil => rfl
  | cons a d ih =>
    obtain ⟨k', v'⟩ := a
    have := h (k', v') List.mem_cons_self
    simp only [dictPut, this, Bool.false_eq_true, if_false, List.cons_append]
    rw [ih (fun y hy => h y (List.mem_cons_of_mem _ hy))]

theorem dictFold_new (l d : List (PyVal × PyVal))
    (h : (d ++ l).Pairwise (fun a b => keyEq a.1 b.1 = false)) :
    l.foldl (fun d kv => dictPut d kv.1 kv.2) d = d ++ l := by
  induction l generalizing d with
  | nil => simp
  | cons a l ih =>
    have h1 : ∀ y ∈ d, keyEq y.1 a.1 = false := fun y hy =>
      (List.pairwise_append.mp h).2.2 y hy a List.mem_cons_self
    simp only [List.foldl_cons]
    rw [dictPut_new h1, ih _ (by simpa using h)]
    simp

/-- A dict built from items with distinct keys has exactly those items. -/
theorem dictOf_distinct (l : List (PyVal × PyVal))
    (h : l.Pairwise (fun a b => keyEq a.1 b.1 = false)) : dictOf l = l := by
  have := dictFold_new l [] (by simpa using h)
  simpa [dictOf] using this

/-! ## The conversion -/

theorem toFloat_fits (lib : PyLib) {q : ℚ} (h : -lib.maxFloat ≤ q ∧ q ≤ lib.maxFloat) :
    lib.toFloat q = .fin q := by
  simp [PyLib.toFloat, not_lt.mpr h.1, not_lt.mpr h.2]

theorem floatBranch_json {back : ℚ → PyFloat} (f : PyFloat)
    (h : ∀ q, f = .fin q → back q = .fin q) : IsJson (floatBranch back f) := by
  cases f with
  | fin q => simp only [floatBranch, h q rfl]; exact .float q
  | nan => exact .none
  | inf => exact .str _
  | ninf => exact .str _

theorem keyOf_json {lib : PyLib} (hl : LibOk lib) {v : PyVal} (h : IsJson v) :
    ∃ k, keyOf lib v = some k ∧ IsKey k := by
  cases h with
  | none => exact ⟨_, rfl, .none⟩
  | bool b => exact ⟨_, rfl, .bool b⟩
  | int i => exact ⟨_, rfl, .int i⟩
  | float q => exact ⟨_, rfl, .float q⟩
  | str s => exact ⟨_, rfl, .str s⟩
  | list l h =>
    obtain ⟨s, hs⟩ := Option.isSome_iff_exists.mp (hl.dumps _ (.list l h))
    exact ⟨.str s, by simp [keyOf, hs], .str s⟩
  | dict l k d h =>
    obtain ⟨s, hs⟩ := Option.isSome_iff_exists.mp (hl.dumps _ (.dict l k d h))
    exact ⟨.str s, by simp [keyOf, hs], .str s⟩

theorem fits_sub {lib : PyLib} {v w : PyVal} (h : FitsFloat lib w)
    (hi : ∀ x, Inside x v → Inside x w) : FitsFloat lib v :=
  fun q hq => h q (hq.imp (hi _) (hi _))

theorem dict_json (d : List (PyVal × PyVal)) (h : ∀ kv ∈ d, IsKey kv.1 ∧ IsJson kv.2) :
    IsJson (.dict (dictOf d)) := by
  have := dictFold_all IsKey IsJson d [] (by simp) h
  exact .dict _ (fun kv hkv => (this kv hkv).1) (dictFold_distinct d [] List.Pairwise.nil)
    (fun kv hkv => (this kv hkv).2)

mutual

theorem jsonSafe_ok {lib : PyLib} (hl : LibOk lib) : (v : PyVal) → FitsFloat lib v →
    ∃ w, jsonSafe lib v = some w ∧ IsJson w
  | .none, _ => ⟨_, by simp only [jsonSafe], .none⟩
  | .bool b, _ => ⟨_, by simp only [jsonSafe], .bool b⟩
  | .str s, _ => ⟨_, by simp only [jsonSafe], .str s⟩
  | .enum v, h => by
    obtain ⟨w, e, hw⟩ := jsonSafe_ok hl v (fits_sub h fun x hx => .enum hx)
    exact ⟨w, by simp only [jsonSafe, e], hw⟩
  | .bytes s, _ => ⟨_, by simp only [jsonSafe], .str s⟩
  | .int i, _ => ⟨_, by simp only [jsonSafe], .int i⟩
  | .float f, _ => ⟨_, by simp only [jsonSafe], floatBranch_json f fun _ _ => rfl⟩
  | .decimal f, h => ⟨_, by simp only [jsonSafe], floatBranch_json f fun q e =>
      toFloat_fits lib (h q (.inl (e ▸ .refl)))⟩
  | .nat, _ => ⟨_, by simp only [jsonSafe], .none⟩
  | .date s, _ => ⟨_, by simp only [jsonSafe], .str s⟩
  | .npBool b, _ => ⟨_, by simp only [jsonSafe], .bool b⟩
  | .delta s, _ => ⟨_, by simp only [jsonSafe], .str s⟩
  | .npInt i, _ => ⟨_, by simp only [jsonSafe], .int i⟩
  | .npFloat f, h => ⟨_, by simp only [jsonSafe], floatBranch_json f fun q e =>
      toFloat_fits lib (h q (.inr (e ▸ .refl)))⟩
  | .array0 v, h => by
    obtain ⟨w, e, hw⟩ := jsonSafe_ok hl v (fits_sub h fun x hx => .array0 hx)
    exact ⟨w, by simp only [jsonSafe, e], hw⟩
  | .array l, h => by
    obtain ⟨d, e, hd⟩ := jsonSafeList_ok hl l (fun v hv => fits_sub h fun x hx => .array hv hx)
    exact ⟨.list d, by simp only [jsonSafe, e, Option.map_some], .list d hd⟩
  | .record l, h => by
    obtain ⟨d, e, hd⟩ := jsonSafeItems_ok hl l (fun kv hkv =>
      ⟨fits_sub h fun x hx => .recordKey hkv hx, fits_sub h fun x hx => .recordVal hkv hx⟩)
    exact ⟨.dict (dictOf d), by simp only [jsonSafe, e, Option.map_some], dict_json d hd⟩
  | .dict l, h => by
    obtain ⟨d, e, hd⟩ := jsonSafeItems_ok hl l (fun kv hkv =>
      ⟨fits_sub h fun x hx => .dictKey hkv hx, fits_sub h fun x hx => .dictVal hkv hx⟩)
    exact ⟨.dict (dictOf d), by simp only [jsonSafe, e, Option.map_some], dict_json d hd⟩
  | .list l, h => by
    obtain ⟨d, e, hd⟩ := jsonSafeList_ok hl l (fun v hv => fits_sub h fun x hx => .list hv hx)
    exact ⟨.list d, by simp only [jsonSafe, e, Option.map_some], .list d hd⟩
  | .tuple l, h => by
    obtain ⟨d, e, hd⟩ := jsonSafeList_ok hl l (fun v hv => fits_sub h fun x hx => .tuple hv hx)
    exact ⟨.list d, by simp only [jsonSafe, e, Option.map_some], .list d hd⟩
  | .set l, h => by
    obtain ⟨d, e, hd⟩ := jsonSafeList_ok hl l (fun v hv => fits_sub h fun x hx => .set hv hx)
    exact ⟨.list (lib.sorted d), by simp only [jsonSafe, e, Option.map_some],
      .list _ fun v hv => hd v ((hl.sorted d).mem_iff.mp hv)⟩
  | .na, _ => ⟨_, by simp only [jsonSafe], .none⟩
  | .other s, _ => ⟨_, by simp only [jsonSafe], .str s⟩

theorem jsonSafeList_ok {lib : PyLib} (hl : LibOk lib) : (l : List PyVal) →
    (∀ v ∈ l, FitsFloat lib v) →
    ∃ d, jsonSafeList lib l = some d ∧ ∀ v ∈ d, IsJson v
  | [], _ => ⟨[], by simp only [jsonSafeList], by simp⟩
  | v :: l, h => by
    obtain ⟨w, e, hw⟩ := jsonSafe_ok hl v (h v List.mem_cons_self)
    obtain ⟨d, e', hd⟩ := jsonSafeList_ok hl l fun v hv => h v (List.mem_cons_of_mem _ hv)
    exact ⟨w :: d, by simp only [jsonSafeList, e, e', Option.map_some],
      List.forall_mem_cons.mpr ⟨hw, hd⟩⟩

theorem jsonSafeItems_ok {lib : PyLib} (hl : LibOk lib) : (l : List (PyVal × PyVal)) →
    (∀ kv ∈ l, FitsFloat lib kv.1 ∧ FitsFloat lib kv.2) →
    ∃ d, jsonSafeItems lib l = some d ∧ ∀ kv ∈ d, IsKey kv.1 ∧ IsJson kv.2
  | [], _ => ⟨[], by simp only [jsonSafeItems], by simp⟩
  | (k, v) :: l, h => by
    obtain ⟨hk, hv⟩ := h (k, v) List.mem_cons_self
    obtain ⟨k0, ek, hk0⟩ := jsonSafe_ok hl k hk
    obtain ⟨w, e, hw⟩ := jsonSafe_ok hl v hv
    obtain ⟨k', ek', hk'⟩ := keyOf_json hl hk0
    obtain ⟨d, e', hd⟩ := jsonSafeItems_ok hl l fun v hv => h v (List.mem_cons_of_mem _ hv)
    exact ⟨(k', w) :: d, by simp only [jsonSafeItems, ek, ek', e, e', Option.map_some,
      Option.bind_some], List.forall_mem_cons.mpr ⟨⟨hk', hw⟩, hd⟩⟩

end

theorem keyOf_key {lib : PyLib} {k : PyVal} (h : IsKey k) :
    (jsonSafe lib k).bind (keyOf lib) = some k := by
  cases h <;> simp [jsonSafe, keyOf, floatBranch]

theorem jsonSafeList_fixed {lib : PyLib} (l : List PyVal)
    (h : ∀ v ∈ l, jsonSafe lib v = some v) : jsonSafeList lib l = some l := by
  induction l with
  | nil => simp only [jsonSafeList]
  | cons v l ih =>
    simp only [jsonSafeList, h v List.mem_cons_self,
      ih (fun v hv => h v (List.mem_cons_of_mem _ hv)), Option.map_some]

theorem jsonSafeItems_fixed {lib : PyLib} (l : List (PyVal × PyVal))
    (hk : ∀ kv ∈ l, IsKey kv.1) (h : ∀ kv ∈ l, jsonSafe lib kv.2 = some kv.2) :
    jsonSafeItems lib l = some l := by
  induction l with
  | nil => simp only [jsonSafeItems]
  | cons a l ih =>
    obtain ⟨k, v⟩ := a
    have h1 := h (k, v) List.mem_cons_self
    have h2 := hk (k, v) List.mem_cons_self
    simp only at h1 h2
    simp only [jsonSafeItems, keyOf_key h2, h1,
      ih (fun v hv => hk v (List.mem_cons_of_mem _ hv))
        (fun v hv => h v (List.mem_cons_of_mem _ hv)), Option.map_some]

/-! ## The property -/

/-- **C63.** Converting any nested value whose decimals fit a float succeeds,
and the result consists only of values `json.dumps` accepts: no NaN, no
infinity, and scalar, distinct keys.

Missing from the full property: a finite decimal beyond the range of a float
becomes a raw infinity (`json_overflow`). -/
theorem json_only_partial (lib : PyLib) (hl : LibOk lib) (v : PyVal) (h : FitsFloat lib v) :
    ∃ w, jsonSafe lib v = some w ∧ IsJson w :=
  jsonSafe_ok hl v h

/-- **C63.** A value that already is JSON is returned unchanged. -/
theorem json_fixed (lib : PyLib) (w : PyVal) (h : IsJson w) : jsonSafe lib w = some w := by
  induction h with
  | none => simp only [jsonSafe]
  | bool b => simp only [jsonSafe]
  | int i => simp only [jsonSafe]
  | float q => simp only [jsonSafe, floatBranch]
  | str s => simp only [jsonSafe]
  | list l h ih => simp only [jsonSafe, jsonSafeList_fixed l ih, Option.map_some]
  | dict l hk hd h ih =>
    simp only [jsonSafe, jsonSafeItems_fixed l hk ih, Option.map_some, dictOf_distinct l hd]

/-- **C63.** Converting twice is converting once. -/
theorem json_idempotent_partial (lib : PyLib) (hl : LibOk lib) (v w : PyVal)
    (h : FitsFloat lib v) (e : jsonSafe lib v = some w) : jsonSafe lib w = some w := by
  obtain ⟨w', e', hw⟩ := jsonSafe_ok hl v h
  rw [e] at e'; cases e'
  exact json_fixed lib w hw

theorem jsonSafeList_forall {lib : PyLib} {l d : List PyVal}
    (h : jsonSafeList lib l = some d) :
    List.Forall₂ (fun v w => jsonSafe lib v = some w) l d := by
  induction l generalizing d with
  | nil => simp only [jsonSafeList, Option.some.injEq] at h; subst h; exact .nil
  | cons v l ih =>
    rcases hv : jsonSafe lib v with _ | w
    · simp [jsonSafeList, hv] at h
    · rcases hl : jsonSafeList lib l with _ | d'
      · simp [jsonSafeList, hv, hl] at h
      · simp only [jsonSafeList, hv, hl, Option.map_some, Option.some.injEq] at h
        subst h
        exact .cons hv (ih hl)

theorem jsonSafeItems_str {lib : PyLib} {l d : List (PyVal × PyVal)}
    (hk : ∀ kv ∈ l, ∃ s, kv.1 = .str s) (h : jsonSafeItems lib l = some d) :
    List.Forall₂ (fun a b => b.1 = a.1 ∧ jsonSafe lib a.2 = some b.2) l d := by
  induction l generalizing d with
  | nil => simp only [jsonSafeItems, Option.some.injEq] at h; subst h; exact .nil
  | cons a l ih =>
    obtain ⟨k, v⟩ := a
    obtain ⟨s, hs⟩ := hk (k, v) List.mem_cons_self
    simp only at hs; subst hs
    rcases hv : jsonSafe lib v with _ | w
    · simp [jsonSafeItems, hv, keyOf_key (IsKey.str s)] at h
    · rcases hl : jsonSafeItems lib l with _ | d'
      · simp [jsonSafeItems, hv, hl, keyOf_key (IsKey.str s)] at h
      · simp only [jsonSafeItems, hv, hl, keyOf_key (IsKey.str s), Option.map_some,
          Option.some.injEq] at h
        subst h
        exact .cons ⟨rfl, hv⟩ (ih (fun kv hkv => hk kv (List.mem_cons_of_mem _ hkv)) hl)

theorem forall2_keys {lib : PyLib} {l d : List (PyVal × PyVal)}
    (h : List.Forall₂ (fun a b => b.1 = a.1 ∧ jsonSafe lib a.2 = some b.2) l d)
    (hd : (l.map Prod.fst).Nodup) (hs : ∀ kv ∈ l, ∃ s, kv.1 = .str s) :
    d.Pairwise (fun a b => keyEq a.1 b.1 = false) := by
  have hm : d.map Prod.fst = l.map Prod.fst := by
    induction h with
    | nil => rfl
    | cons h _ ih =>
      simp only [List.map_cons, List.nodup_cons] at hd
      simp only [List.map_cons, h.1,
        ih hd.2 (fun kv hkv => hs kv (List.mem_cons_of_mem _ hkv))]
  have hs' : ∀ k ∈ d.map Prod.fst, ∃ s, k = .str s := by
    intro k hk
    rw [hm] at hk
    obtain ⟨kv, h1, h2⟩ := List.mem_map.mp hk
    obtain ⟨s, h3⟩ := hs kv h1
    exact ⟨s, h2 ▸ h3⟩
  rw [← hm] at hd
  rw [List.nodup_iff_pairwise_ne, List.pairwise_map] at hd
  refine hd.imp_of_mem ?_
  intro a b ha hb hne
  obtain ⟨s, e⟩ := hs' a.1 (List.mem_map_of_mem ha)
  obtain ⟨t, e'⟩ := hs' b.1 (List.mem_map_of_mem hb)
  rw [e, e'] at hne ⊢
  have : s ≠ t := fun h => hne (by rw [h])
  simp [keyEq, this]

/-- **C63.** Sequences keep their length and order: the result is the list of
the converted elements. -/
theorem json_sequence (lib : PyLib) (l : List PyVal) (w : PyVal)
    (h : jsonSafe lib (.list l) = some w ∨ jsonSafe lib (.tuple l) = some w ∨
      jsonSafe lib (.array l) = some w) :
    ∃ d, w = .list d ∧ List.Forall₂ (fun v x => jsonSafe lib v = some x) l d := by
  rcases hl : jsonSafeList lib l with _ | d
  · simp [jsonSafe, hl] at h
  · simp only [jsonSafe, hl, Option.map_some, or_self, Option.some.injEq] at h
    exact ⟨d, h.symm, jsonSafeList_forall hl⟩

/-- **C63.** A set becomes a list of the converted elements, none lost. -/
theorem json_set (lib : PyLib) (hl : LibOk lib) (l : List PyVal) (w : PyVal)
    (h : jsonSafe lib (.set l) = some w) :
    ∃ d r, w = .list r ∧ r.Perm d ∧ List.Forall₂ (fun v x => jsonSafe lib v = some x) l d := by
  rcases e : jsonSafeList lib l with _ | d
  · simp [jsonSafe, e] at h
  · simp only [jsonSafe, e, Option.map_some, Option.some.injEq] at h
    exact ⟨d, _, h.symm, hl.sorted d, jsonSafeList_forall e⟩

/-- **C63.** A dict or record with distinct text keys keeps every entry, its
key and its place; only the values are converted. -/
theorem json_dict (lib : PyLib) (l : List (PyVal × PyVal)) (w : PyVal)
    (hd : (l.map Prod.fst).Nodup) (hs : ∀ kv ∈ l, ∃ s, kv.1 = .str s)
    (h : jsonSafe lib (.dict l) = some w ∨ jsonSafe lib (.record l) = some w) :
    ∃ d, w = .dict d ∧
      List.Forall₂ (fun a b => b.1 = a.1 ∧ jsonSafe lib a.2 = some b.2) l d := by
  rcases e : jsonSafeItems lib l with _ | d
  · simp [jsonSafe, e] at h
  · simp only [jsonSafe, e, Option.map_some, or_self, Option.some.injEq] at h
    have hf := jsonSafeItems_str hs e
    exact ⟨d, by rw [← h, dictOf_distinct d (forall2_keys hf hd hs)], hf⟩

theorem floatBranch_none {back : ℚ → PyFloat} {f : PyFloat} :
    floatBranch back f = .none ↔ f = .nan := by
  cases f <;> simp [floatBranch]

theorem missing_of_null (lib : PyLib) : (v : PyVal) → jsonSafe lib v = some .none → Missing v
  | .none, _ => .none
  | .bool b, h => by simp [jsonSafe] at h
  | .str s, h => by simp [jsonSafe] at h
  | .enum v, h => by simp only [jsonSafe] at h; exact .enum (missing_of_null lib v h)
  | .bytes s, h => by simp [jsonSafe] at h
  | .int i, h => by simp [jsonSafe] at h
  | .float f, h => by
    simp only [jsonSafe, Option.some.injEq, floatBranch_none] at h; subst h; exact .float
  | .decimal f, h => by
    simp only [jsonSafe, Option.some.injEq, floatBranch_none] at h; subst h; exact .decimal
  | .nat, _ => .nat
  | .date s, h => by simp [jsonSafe] at h
  | .npBool b, h => by simp [jsonSafe] at h
  | .delta s, h => by simp [jsonSafe] at h
  | .npInt i, h => by simp [jsonSafe] at h
  | .npFloat f, h => by
    simp only [jsonSafe, Option.some.injEq, floatBranch_none] at h; subst h; exact .npFloat
  | .array0 v, h => by simp only [jsonSafe] at h; exact .array0 (missing_of_null lib v h)
  | .array l, h => by rcases e : jsonSafeList lib l <;> simp [jsonSafe, e] at h
  | .record l, h => by rcases e : jsonSafeItems lib l <;> simp [jsonSafe, e] at h
  | .dict l, h => by rcases e : jsonSafeItems lib l <;> simp [jsonSafe, e] at h
  | .list l, h => by rcases e : jsonSafeList lib l <;> simp [jsonSafe, e] at h
  | .tuple l, h => by rcases e : jsonSafeList lib l <;> simp [jsonSafe, e] at h
  | .set l, h => by rcases e : jsonSafeList lib l <;> simp [jsonSafe, e] at h
  | .na, _ => .na
  | .other s, h => by simp [jsonSafe] at h

/-- **C63.** Null stands exactly for missing values; in particular infinities
stay distinguishable from them. -/
theorem json_null_iff (lib : PyLib) (v : PyVal) :
    jsonSafe lib v = some .none ↔ Missing v := by
  constructor
  · exact missing_of_null lib v
  · intro h
    induction h with
    | none => simp only [jsonSafe]
    | nat => simp only [jsonSafe]
    | na => simp only [jsonSafe]
    | float => simp only [jsonSafe, floatBranch]
    | decimal => simp only [jsonSafe, floatBranch]
    | npFloat => simp only [jsonSafe, floatBranch]
    | enum _ ih => simpa only [jsonSafe] using ih
    | array0 _ ih => simpa only [jsonSafe] using ih

/-- **C63.** Records of a frame: a negative row limit is an error; otherwise
exactly the first `maxRows` rows, all of them without a limit, converted in
order. -/
theorem frame_records (lib : PyLib) (rows : List PyVal) (maxRows : Option Int) :
    (maxRows.any (· < 0) = true → dataframeRecords lib rows maxRows = none) ∧
    (∀ out, dataframeRecords lib rows maxRows = some out →
      out.length = (match maxRows with
        | none => rows.length
        | some n => min n.toNat rows.length) ∧
      ∀ i : Nat, ∀ w, out[i]? = some w → ∃ v, rows[i]? = some v ∧ jsonSafe lib v = some w) := by
  constructor
  · intro h; simp [dataframeRecords, h]
  · intro out h
    by_cases hn : maxRows.any (· < 0) = true
    · simp [dataframeRecords, hn] at h
    · simp only [dataframeRecords, hn, Bool.false_eq_true, if_false] at h
      have hf := jsonSafeList_forall h
      refine ⟨?_, ?_⟩
      · rw [← hf.length_eq]
        cases maxRows with
        | none => rfl
        | some n => simp
      · intro i w hw
        obtain ⟨hi, hw'⟩ := List.getElem?_eq_some_iff.mp hw
        have hi' := hi
        rw [← hf.length_eq] at hi'
        have := (List.forall₂_iff_get.mp hf).2 i hi' hi
        simp only [List.get_eq_getElem] at this
        rw [hw'] at this
        cases maxRows with
        | none => exact ⟨_, List.getElem?_eq_getElem hi', this⟩
        | some n =>
          simp only [List.getElem_take] at this
          simp only [List.length_take, lt_min_iff] at hi'
          exact ⟨_, List.getElem?_eq_getElem hi'.2, this⟩

/-! ## Where the code falls short -/

/-- A finite decimal beyond the range of a float converts to a raw infinity,
which is not JSON: `to_json_str()` raises on it. -/
theorem json_overflow (lib : PyLib) (q : ℚ) (h : lib.maxFloat < q) :
    jsonSafe lib (.decimal (.fin q)) = some (.float .inf) ∧ ¬ IsJson (.float .inf) := by
  refine ⟨by simp [jsonSafe, floatBranch, PyLib.toFloat, h], ?_⟩
  intro h; cases h

/-- A dict keyed by a container around such a decimal cannot be converted at
all when `json.dumps` rejects infinities. -/
theorem json_overflow_raises (lib : PyLib) (q : ℚ) (v : PyVal) (h : lib.maxFloat < q)
    (hd : lib.dumps (.list [.float .inf]) = none) :
    jsonSafe lib (.dict [(.tuple [.decimal (.fin q)], v)]) = none := by
  simp [jsonSafe, jsonSafeItems, jsonSafeList, floatBranch, PyLib.toFloat, h, keyOf, hd]

/-- Distinct keys may convert to the same key, and then an entry is lost: an
enum member with the value of another key. -/
theorem json_keys_collide (lib : PyLib) (s : String) (a b : PyVal)
    (ha : IsJson a) (hb : IsJson b) :
    jsonSafe lib (.dict [(.str s, a), (.enum (.str s), b)]) = some (.dict [(.str s, b)]) := by
  simp [jsonSafe, jsonSafeItems, json_fixed lib a ha, json_fixed lib b hb, keyOf, dictOf,
    dictPut, keyEq]

/-! ## Examples -/

namespace Demo

/-- A library with a coarse `json.dumps` and an unchanged order. -/
def lib : PyLib := { dumps := fun _ => some "[]", sorted := id, maxFloat := 1000 }

theorem lib_ok : LibOk lib := ⟨fun _ _ => rfl, fun l => List.Perm.refl l⟩

/-- A record with a nested dict, a set, an infinity and a missing value. -/
def result : PyVal :=
  .record [(.str "pnl", .decimal (.fin 5)), (.str "pf", .float .inf),
    (.str "stats", .dict [(.tuple [.npInt 1, .date "d"], .array [.float .nan, .npBool true])]),
    (.str "syms", .set [.str "a", .str "b"])]

end Demo

example : jsonSafe Demo.lib Demo.result = some (.dict [
    (.str "pnl", .float (.fin 5)), (.str "pf", .str "Infinity"),
    (.str "stats", .dict [(.str "[]", .list [.none, .bool true])]),
    (.str "syms", .list [.str "a", .str "b"])]) := by
  rfl

/-- The example meets the hypotheses of the theorems: a set of decimals within
range, nested in a dict. -/
example : LibOk Demo.lib ∧ FitsFloat Demo.lib
    (.dict [(.enum (.int 1), .set [.decimal (.fin 5), .decimal .nan])]) := by
  refine ⟨Demo.lib_ok, fun q h => ?_⟩
  have : q = 5 := by
    rcases h with h | h
    · cases h with
      | dictKey hm hi => simp only [List.mem_singleton] at hm; subst hm; cases hi; rename_i h; cases h
      | dictVal hm hi =>
        simp only [List.mem_singleton] at hm; subst hm
        cases hi with
        | set hv hi =>
          simp only [List.mem_cons, List.not_mem_nil, or_false] at hv
          rcases hv with rfl | rfl
          · cases hi; rfl
          · cases hi
    · cases h with
      | dictKey hm hi => simp only [List.mem_singleton] at hm; subst hm; cases hi; rename_i h; cases h
      | dictVal hm hi =>
        simp only [List.mem_singleton] at hm; subst hm
        cases hi with
        | set hv hi =>
          simp only [List.mem_cons, List.not_mem_nil, or_false] at hv
          rcases hv with rfl | rfl <;> cases hi
  subst this
  norm_num [Demo.lib]

example : dataframeRecords Demo.lib [.dict [(.str "a", .int 1)], .dict [(.str "a", .int 2)]]
    (some 1) = some [.dict [(.str "a", .int 1)]] := by
  rfl

example : IsJson (.dict [(.str "a", .list [.none, .float (.fin 1)]), (.int 1, .str "x")]) := by
  refine .dict _ ?_ ?_ ?_
  · intro kv h; simp at h; rcases h with rfl | rfl; exacts [.str _, .int _]
  · simp [keyEq, PyVal.num]
  · intro kv h; simp at h
    rcases h with rfl | rfl
    · refine .list _ ?_
      intro v hv; simp at hv; rcases hv with rfl | rfl; exacts [.none, .float _]
    · exact .str _

end PyBroker
