import Verif.Common.BarData
import Mathlib.Data.List.Basic
import Mathlib.Data.List.Nodup

/-!
# The data frame of bars (C175)
-/

namespace PyBroker

namespace Spec

/-- The columns of the data frame: the bars' fields, volume and VWAP only when set, then the custom
fields in the order in which they were given. -/
def frameOf (date : List Date) (opn high low close : List Cell) (volume vwap : Option (List Cell))
    (kwargs : List (String × List Cell)) : List (String × BCol) :=
  [("date", .dates date), ("open", .cells opn), ("high", .cells high), ("low", .cells low),
    ("close", .cells close)] ++
  volume.toList.map (fun v => ("volume", .cells v)) ++
  vwap.toList.map (fun v => ("vwap", .cells v)) ++
  kwargs.map (fun c => (c.1, .cells c.2))

/-- All arrays have one cell per date. -/
def OneLength (date : List Date) (opn high low close : List Cell) (volume vwap : Option (List Cell))
    (kwargs : List (String × List Cell)) : Prop :=
  (∀ l ∈ [opn, high, low, close], l.length = date.length) ∧
  (∀ l, volume = some l → l.length = date.length) ∧ (∀ l, vwap = some l → l.length = date.length) ∧
  ∀ c ∈ kwargs, c.2.length = date.length

end Spec

open Spec

theorem dictSet_new : ∀ {d : List (String × BCol)} {k : String} (v : BCol), k ∉ d.map Prod.fst →
    dictSet d k v = d ++ [(k, v)] := by
  intro d
  induction d with
  | nil =>
    intro k v _
    rfl
  | cons p d ih =>
    intro k v h
    obtain ⟨k', v'⟩ := p
    simp only [List.map_cons, List.mem_cons, not_or] at h
    rw [dictSet, if_neg (fun e => h.1 e.symm), ih v h.2]
    rfl

theorem foldl_dictSet : ∀ (kw : List (String × List Cell)) (d : List (String × BCol)),
    (kw.map Prod.fst).Nodup → (∀ k ∈ kw.map Prod.fst, k ∉ d.map Prod.fst) →
    kw.foldl (fun d c => dictSet d c.1 (.cells c.2)) d = d ++ kw.map (fun c => (c.1, .cells c.2)) := by
  intro kw
  induction kw with
  | nil =>
    intro d _ _
    simp
  | cons c kw ih =>
    intro d hn hd
    simp only [List.map_cons, List.nodup_cons] at hn
    rw [List.foldl_cons, dictSet_new _ (hd c.1 (by simp)), ih _ hn.2]
    · simp
    · intro k hk hm
      simp only [List.map_append, List.map_cons, List.map_nil, List.mem_append,
        List.mem_singleton] at hm
      rcases hm with hm | rfl
      · exact hd k (by simp only [List.map_cons, List.mem_cons]; exact .inr hk) hm
      · exact hn.1 hk

/-- **C175**: whatever bar data is made, its data frame has exactly the columns given, each with the
values given, in order; it is refused exactly if the arrays differ in length. -/
theorem bars_frame {date : List Date} {opn high low close : List Cell} {volume vwap : Option (List Cell)}
    {kwargs : List (String × List Cell)} {b : BarArrays}
    (h : BarArrays.make date opn high low close volume vwap kwargs = .ok b) :
    (OneLength date opn high low close volume vwap kwargs →
      b.toDf = .ok (frameOf date opn high low close volume vwap kwargs)) ∧
    (¬ OneLength date opn high low close volume vwap kwargs → b.toDf = .error .lengths) := by
  unfold BarArrays.make at h
  split at h
  · rename_i hk
    obtain rfl := Except.ok.inj h
    have hdata : ∀ d : List (String × BCol), (∀ k ∈ d.map Prod.fst, k ∈ barParams) →
        kwargs.foldl (fun d c => dictSet d c.1 (.cells c.2)) d =
          d ++ kwargs.map (fun c => (c.1, .cells c.2)) :=
      fun d hd => foldl_dictSet kwargs d hk.1 (fun k h1 h2 => hk.2 k h1 (hd k h2))
    have hall : (frameOf date opn high low close volume vwap kwargs).all
        (fun c => c.2.rows = date.length) = true ↔
          OneLength date opn high low close volume vwap kwargs := by
      rw [List.all_eq_true]
      simp only [decide_eq_true_eq]
      unfold frameOf OneLength
      simp only [List.forall_mem_append, List.forall_mem_map]
      rcases volume with _ | v <;> rcases vwap with _ | w <;>
        simp [BCol.rows, and_assoc]
    have hdf : BarArrays.toDf ⟨date, opn, high, low, close, volume, vwap, kwargs⟩ =
        if (frameOf date opn high low close volume vwap kwargs).all
          (fun c => c.2.rows = date.length) then
          .ok (frameOf date opn high low close volume vwap kwargs) else .error .lengths := by
      unfold BarArrays.toDf frameOf
      rcases volume with _ | v <;> rcases vwap with _ | w <;>
        simp only [dictSet, String.reduceEq, if_false] <;>
        rw [hdata _ (by simp [barParams])] <;> rfl
    rw [hdf]
    exact ⟨fun ho => by rw [if_pos (hall.2 ho)], fun ho => by rw [if_neg (fun e => ho (hall.1 e))]⟩
  · exact (nomatch h)

/-- **C175**: bar data can be made exactly if no custom field is given twice or has the name of a
field. -/
theorem bars_made_iff (date : List Date) (opn high low close : List Cell)
    (volume vwap : Option (List Cell)) (kwargs : List (String × List Cell)) :
    (∃ b, BarArrays.make date opn high low close volume vwap kwargs = .ok b) ↔
      (kwargs.map Prod.fst).Nodup ∧ ∀ k ∈ kwargs.map Prod.fst,
        k ∉ ["self", "date", "open", "high", "low", "close", "volume", "vwap"] := by
  unfold BarArrays.make
  split
  · rename_i h
    exact ⟨fun _ => h, fun _ => ⟨_, rfl⟩⟩
  · rename_i h
    exact ⟨fun ⟨_, hb⟩ => (nomatch hb), fun h' => (h h').elim⟩

/-- **C175**: a custom field is read as an attribute, and no other name is. -/
theorem bars_attribute {date : List Date} {opn high low close : List Cell}
    {volume vwap : Option (List Cell)} {kwargs : List (String × List Cell)} {b : BarArrays}
    (h : BarArrays.make date opn high low close volume vwap kwargs = .ok b) (name : String) :
    (∀ v, b.getattr name = .ok v ↔ (name, v) ∈ kwargs) ∧
    (b.getattr name = .error .noAttribute ↔ name ∉ kwargs.map Prod.fst) := by
  unfold BarArrays.make at h
  split at h
  · rename_i hk
    obtain rfl := Except.ok.inj h
    have hget : ∀ (l : List (String × List Cell)), (l.map Prod.fst).Nodup → ∀ v,
        cacheGet l name = some v ↔ (name, v) ∈ l := by
      intro l
      induction l with
      | nil =>
        intro _ v
        simp [cacheGet]
      | cons p l ih =>
        intro hn v
        obtain ⟨k, w⟩ := p
        simp only [List.map_cons, List.nodup_cons] at hn
        rw [cacheGet]
        by_cases hkn : k = name
        · subst hkn
          rw [if_pos rfl]
          constructor
          · intro e
            obtain rfl := Option.some.inj e
            simp
          · intro hm
            rcases List.mem_cons.1 hm with e | hm
            · rw [(Prod.mk.inj e).2]
            · exact (hn.1 (List.mem_map.2 ⟨_, hm, rfl⟩)).elim
        · rw [if_neg hkn, ih hn.2, List.mem_cons]
          exact ⟨.inr, fun hm => hm.resolve_left (fun e => hkn (Prod.mk.inj e).1.symm)⟩
    have hval : (if kwargs = [] then none else cacheGet kwargs name) = cacheGet kwargs name := by
      split
      · rename_i e
        rw [e]
        rfl
      · rfl
    unfold BarArrays.getattr
    simp only [hval]
    rcases hg : cacheGet kwargs name with _ | w
    · have hno : ∀ v, (name, v) ∉ kwargs := by
        intro v hm
        rw [(hget kwargs hk.1 v).2 hm] at hg
        exact (nomatch hg)
      refine ⟨fun v => ⟨fun e => (nomatch e), fun hm => (hno v hm).elim⟩, fun _ hm => ?_, fun _ => rfl⟩
      obtain ⟨p, hp, rfl⟩ := List.mem_map.1 hm
      exact hno p.2 hp
    · have hm := (hget kwargs hk.1 w).1 hg
      refine ⟨fun v => ⟨fun e => ?_, fun hv => ?_⟩, fun e => (nomatch e),
        fun hn => (hn (List.mem_map.2 ⟨_, hm, rfl⟩)).elim⟩
      · rw [← Except.ok.inj e]
        exact hm
      · have := (hget kwargs hk.1 v).2 hv
        rw [hg] at this
        rw [Option.some.inj this]
  · exact (nomatch h)

/-- Two bars with a volume, no VWAP and a custom field. -/
example : ((BarArrays.make [1, 2] [some 1, some 2] [some 3, some 4] [some 1, some 1] [some 2, none]
    (some [some 9, some 8]) none [("adj", [some 5, some 6])]).bind BarArrays.toDf).toOption.map
      (List.map Prod.fst) = some ["date", "open", "high", "low", "close", "volume", "adj"] := by
  decide +kernel

example : OneLength [1, 2] [some 1, some 2] [some 3, some 4] [some 1, some 1] [some 2, none]
    (some [some 9, some 8]) none [("adj", [some 5, some 6])] := by
  simp [OneLength]

end PyBroker
