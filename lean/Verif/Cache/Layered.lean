import Mathlib.Data.List.Basic

/-!
# The layered cache

`_L1Cache` of `/repo/src/pybroker/cache.py`: a disk cache (`diskcache.Cache`) fronted by
a bounded in-process map of recently used values.

A key is a dataclass instance (`obj`) or a string (`text`); `repr` turns a dataclass
instance into the string that older versions used as the key.  A value is `Option V`,
where `none` is Python's `None`.  The disk cache is a finite map given as a function.
`diskcache` itself is not part of the repository: it is taken to be a map that may drop
entries (expiry, size limit) between calls.  `default` of `get` is `None`, tags and
retry flags are not modelled, and calls are not concurrent (each holds the lock).
-/

namespace PyBroker

/-- A cache key: a dataclass instance or a string. -/
inductive CKey (κ σ : Type) | obj (k : κ) | text (s : σ)
  deriving DecidableEq

/-- Result of the underlying `diskcache.Cache.set`: stored, `False` returned, or an
exception. -/
inductive SetRes | stored | refused | raised
  deriving DecidableEq

/-- A call on the cache.  `cull k` stands for the disk cache dropping an entry by itself. -/
inductive COp (κ σ V : Type)
  | get (k : CKey κ σ)
  | set (k : CKey κ σ) (v : Option V) (r : SetRes)
  | delete (k : CKey κ σ)
  | pop (k : CKey κ σ)
  | delitem (k : CKey κ σ)
  | clear
  | cull (k : CKey κ σ)

/-- What a call gives back. -/
inductive CRes (V : Type)
  | value (v : Option V)
  | flag (b : Bool)
  | keyError
  | raised
  | nothing
  deriving DecidableEq

variable {κ σ V : Type} [DecidableEq κ] [DecidableEq σ]

/-- The disk map: `none` is a missing key, `some none` a stored `None`. -/
abbrev Disk (κ σ V : Type) := CKey κ σ → Option (Option V)

/-- The in-process map, least recently used entry first (an `OrderedDict`). -/
abbrev L1 (κ σ V : Type) := List (CKey κ σ × Option V)

/-- Disk after a write. -/
def Disk.put (d : Disk κ σ V) (k : CKey κ σ) (v : Option V) : Disk κ σ V :=
  fun x => if x = k then some v else d x

/-- Disk after a removal. -/
def Disk.del (d : Disk κ σ V) (k : CKey κ σ) : Disk κ σ V :=
  fun x => if x = k then none else d x

/-- `_legacy_key`, cache.py:26-32: only dataclass instances have an older form; it is a
string, hence never equal to the key itself. -/
def legacyKey (repr : κ → σ) : CKey κ σ → Option (CKey κ σ)
  | .obj k => some (.text (repr k))
  | .text _ => none

/-- Removal of a key from the in-process map (`OrderedDict.pop(key, None)`). -/
def l1Drop (l : L1 κ σ V) (k : CKey κ σ) : L1 κ σ V := l.filter (fun e => e.1 ≠ k)

/-- `_l1_put`, cache.py:59-64: the entry goes to the end, then the oldest entries are
dropped while there are more than `l1_maxsize`. -/
def l1Put (cap : Nat) (l : L1 κ σ V) (k : CKey κ σ) (v : Option V) : L1 κ σ V :=
  let l' := l1Drop l k ++ [(k, v)]
  l'.drop (l'.length - cap)

/-- `_l1_evict`, cache.py:66-71: drops the key and its legacy form. -/
def l1Evict (repr : κ → σ) (l : L1 κ σ V) (k : CKey κ σ) : L1 κ σ V :=
  match legacyKey repr k with
  | none => l1Drop l k
  | some lk => l1Drop (l1Drop l k) lk

/-- Look-up in the in-process map. -/
def l1Find (l : L1 κ σ V) (k : CKey κ σ) : Option (Option V) :=
  (l.find? (fun e => e.1 = k)).map (·.2)

/-- `_l1_get`, cache.py:73-80: look-up, moving the entry to the end when found. -/
def l1Get (l : L1 κ σ V) (k : CKey κ σ) : Option (Option V) × L1 κ σ V :=
  match l1Find l k with
  | none => (none, l)
  | some v => (some v, l1Drop l k ++ [(k, v)])

/-- State of the layered cache. -/
structure LCache (κ σ V : Type) where
  l1 : L1 κ σ V
  disk : Disk κ σ V

/-- `_L1Cache.get` with the default `None`, cache.py:82-99. -/
def LCache.get (repr : κ → σ) (cap : Nat) (c : LCache κ σ V) (k : CKey κ σ) :
    Option V × LCache κ σ V :=
  match l1Get c.l1 k with
  | (some v, l) => (v, { c with l1 := l })
  | (none, l) =>
    let value := (c.disk k).join
    let finish := fun (value : Option V) (l : L1 κ σ V) =>
      match value with
      | none => (none, { c with l1 := l })
      | some x => (some x, { c with l1 := l1Put cap l k (some x) })
    match value with
    | some x => finish (some x) l
    | none =>
      match legacyKey repr k with
      | none => finish none l
      | some lk =>
        match l1Get l lk with
        | (some v, l') => (v, { c with l1 := l1Put cap l' k v })
        | (none, l') => finish (c.disk lk).join l'

/-- `_L1Cache.set`, cache.py:101-114: the disk is written first; the value enters the
in-process map only when the disk took it, otherwise the key is evicted. -/
def LCache.set (repr : κ → σ) (cap : Nat) (c : LCache κ σ V) (k : CKey κ σ) (v : Option V)
    (r : SetRes) : CRes V × LCache κ σ V :=
  match r with
  | .stored => (.flag true, ⟨l1Put cap c.l1 k v, c.disk.put k v⟩)
  | .refused => (.flag false, ⟨l1Evict repr c.l1 k, c.disk⟩)
  | .raised => (.raised, ⟨l1Evict repr c.l1 k, c.disk⟩)

/-- Removal of a key's legacy form from the disk, cache.py:119-121, 131-137, 143-148. -/
def delLegacy (repr : κ → σ) (d : Disk κ σ V) (k : CKey κ σ) : Disk κ σ V :=
  match legacyKey repr k with
  | none => d
  | some lk => d.del lk

/-- `_L1Cache.delete`, cache.py:116-122. -/
def LCache.delete (repr : κ → σ) (c : LCache κ σ V) (k : CKey κ σ) : CRes V × LCache κ σ V :=
  (.flag (c.disk k).isSome, ⟨l1Evict repr c.l1 k, delLegacy repr (c.disk.del k) k⟩)

/-- `_L1Cache.pop`, cache.py:124-138: the value stored under the key itself, without a
fallback to the legacy form. -/
def LCache.pop (repr : κ → σ) (c : LCache κ σ V) (k : CKey κ σ) : CRes V × LCache κ σ V :=
  (.value (c.disk k).join, ⟨l1Evict repr c.l1 k, delLegacy repr (c.disk.del k) k⟩)

/-- `_L1Cache.__delitem__`, cache.py:140-148: a missing key raises before the legacy form
is removed. -/
def LCache.delitem (repr : κ → σ) (c : LCache κ σ V) (k : CKey κ σ) : CRes V × LCache κ σ V :=
  match c.disk k with
  | none => (.keyError, ⟨l1Evict repr c.l1 k, c.disk⟩)
  | some _ => (.nothing, ⟨l1Evict repr c.l1 k, delLegacy repr (c.disk.del k) k⟩)

/-- `_L1Cache.clear`, cache.py:150-153. -/
def LCache.clear (_c : LCache κ σ V) : LCache κ σ V := ⟨[], fun _ => none⟩

/-- One call on the layered cache. -/
def LCache.step (repr : κ → σ) (cap : Nat) (c : LCache κ σ V) : COp κ σ V →
    CRes V × LCache κ σ V
  | .get k => let r := c.get repr cap k; (.value r.1, r.2)
  | .set k v r => c.set repr cap k v r
  | .delete k => c.delete repr k
  | .pop k => c.pop repr k
  | .delitem k => c.delitem repr k
  | .clear => (.nothing, c.clear)
  | .cull k => (.nothing, { c with disk := c.disk.del k })

/-- A sequence of calls: the results, and the final state. -/
def LCache.run (repr : κ → σ) (cap : Nat) : LCache κ σ V → List (COp κ σ V) →
    List (CRes V) × LCache κ σ V
  | c, [] => ([], c)
  | c, op :: ops =>
    let r := c.step repr cap op
    let rest := LCache.run repr cap r.2 ops
    (r.1 :: rest.1, rest.2)

end PyBroker
