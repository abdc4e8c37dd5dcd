import Verif.Cache.Layered
import Verif.Text.Model

/-!
# The caches of a process: enabling, disabling and clearing

`/repo/src/pybroker/cache.py`: the three caches that the static scope of a process holds, and the
directories they live in.  Several processes share the directories; each has its own in-process
layer.

Simplifications: a directory is its path, and creating a cache in it does not fail; `l1_maxsize` is
not negative; all caches hold values of one type; logging is left out.
-/

namespace PyBroker

/-- The three caches of `StaticScope`, scope.py:151-156. -/
inductive CacheKind | dataSource | indicator | model
  deriving DecidableEq

/-- The name of the sub-directory: cache.py:322, 371, 417. -/
def CacheKind.subDir : CacheKind → Str
  | .dataSource => "data_source".toList
  | .indicator => "indicator".toList
  | .model => "model".toList

/-- `os.path.join(a, b)` on POSIX. -/
def joinPath (a b : Str) : Str :=
  match b with
  | '/' :: _ => b
  | _ =>
    match a.getLast? with
    | none => b
    | some '/' => a ++ b
    | some _ => a ++ '/' :: b

/-- What the functions of cache.py raise: 296, 346-350, 392-396, 438-439. -/
inductive CacheErr | emptyNamespace | notEnabled
  deriving DecidableEq

/-- `_get_cache_dir`, cache.py:292-302; `cwd` is `os.getcwd()`. -/
def getCacheDir (cwd : Str) (cacheDir : Option Str) (ns sub : Str) : Except CacheErr Str :=
  if ns = [] then .error .emptyNamespace
  else .ok (joinPath (joinPath (cacheDir.getD (joinPath cwd ".pybrokercache".toList)) ns) sub)

variable {κ σ V : Type} [DecidableEq κ] [DecidableEq σ]

/-- A `_L1Cache` object: its directory, bound and in-process layer, cache.py:48-57. -/
structure CacheHandle (κ σ V : Type) where
  dir : Str
  cap : Nat
  l1 : L1 κ σ V

/-- A process: the caches of its static scope, scope.py:151-156. -/
abbrev CacheProc (κ σ V : Type) := CacheKind → Option (CacheHandle κ σ V)

/-- The directories, and the processes that use them. -/
structure CacheWorld (κ σ V : Type) where
  disks : Str → Disk κ σ V
  procs : Nat → CacheProc κ σ V

/-- What a process does with its caches: `use` is a call that the library makes on a cache when it
is enabled. -/
inductive ManageOp (κ σ V : Type)
  | enable (kind : CacheKind) (ns : Str) (cacheDir : Option Str) (cap : Nat)
  | disable (kind : CacheKind)
  | clear (kind : CacheKind)
  | use (kind : CacheKind) (op : COp κ σ V)
  | enableAll (ns : Str) (cacheDir : Option Str) (cap : Nat)
  | disableAll
  | clearAll

/-- What an operation gives back: `off` when there is no cache to use. -/
inductive ManageRes (V : Type)
  | done
  | error (e : CacheErr)
  | off
  | call (r : CRes V)
  deriving DecidableEq

/-- Replaces a cache of a process. -/
def CacheProc.put (p : CacheProc κ σ V) (kind : CacheKind) (h : Option (CacheHandle κ σ V)) : CacheProc κ σ V :=
  fun k => if k = kind then h else p k

/-- Replaces a process. -/
def CacheWorld.setProc (w : CacheWorld κ σ V) (i : Nat) (p : CacheProc κ σ V) : CacheWorld κ σ V :=
  { w with procs := fun j => if j = i then p else w.procs j }

/-- `enable_data_source_cache`, `enable_indicator_cache`, `enable_model_cache`, cache.py:305-327,
354-375, 400-421: a new object with an empty layer. -/
def CacheWorld.enable (cwd : Str) (w : CacheWorld κ σ V) (i : Nat) (kind : CacheKind) (ns : Str)
    (cacheDir : Option Str) (cap : Nat) : ManageRes V × CacheWorld κ σ V :=
  match getCacheDir cwd cacheDir ns kind.subDir with
  | .error e => (.error e, w)
  | .ok dir => (.done, w.setProc i ((w.procs i).put kind (some ⟨dir, cap, []⟩)))

/-- `disable_data_source_cache` and the like, cache.py:330-337, 378-383, 424-429. -/
def CacheWorld.disable (w : CacheWorld κ σ V) (i : Nat) (kind : CacheKind) : CacheWorld κ σ V :=
  w.setProc i ((w.procs i).put kind none)

/-- A call on the object that a process has for a cache. -/
def CacheWorld.use (repr : κ → σ) (w : CacheWorld κ σ V) (i : Nat) (kind : CacheKind) (op : COp κ σ V) :
    ManageRes V × CacheWorld κ σ V :=
  match w.procs i kind with
  | none => (.off, w)
  | some h =>
    let r := LCache.step repr h.cap ⟨h.l1, w.disks h.dir⟩ op
    (.call r.1,
      { disks := fun d => if d = h.dir then r.2.disk else w.disks d
        procs := (w.setProc i ((w.procs i).put kind (some { h with l1 := r.2.l1 }))).procs })

/-- `clear_data_source_cache` and the like, cache.py:340-351, 386-397, 432-441. -/
def CacheWorld.clear (repr : κ → σ) (w : CacheWorld κ σ V) (i : Nat) (kind : CacheKind) :
    ManageRes V × CacheWorld κ σ V :=
  match w.procs i kind with
  | none => (.error .notEnabled, w)
  | some _ => (.done, (w.use repr i kind .clear).2)

/-- One operation of process `i`; `enable_caches` 444-458, `disable_caches` 461-465 and
`clear_caches` 468-473 call the three functions in turn. -/
def CacheWorld.step (cwd : Str) (repr : κ → σ) (w : CacheWorld κ σ V) (i : Nat) :
    ManageOp κ σ V → ManageRes V × CacheWorld κ σ V
  | .enable kind ns dir cap => w.enable cwd i kind ns dir cap
  | .disable kind => (.done, w.disable i kind)
  | .clear kind => w.clear repr i kind
  | .use kind op => w.use repr i kind op
  | .enableAll ns dir cap =>
    match w.enable cwd i .dataSource ns dir cap with
    | (.done, w1) =>
      match w1.enable cwd i .indicator ns dir cap with
      | (.done, w2) => w2.enable cwd i .model ns dir cap
      | r => r
    | r => r
  | .disableAll => (.done, ((w.disable i .dataSource).disable i .indicator).disable i .model)
  | .clearAll =>
    match w.clear repr i .dataSource with
    | (.done, w1) =>
      match w1.clear repr i .indicator with
      | (.done, w2) => w2.clear repr i .model
      | r => r
    | r => r

/-- A history of operations, each by one of the processes. -/
def CacheWorld.run (cwd : Str) (repr : κ → σ) : CacheWorld κ σ V → List (Nat × ManageOp κ σ V) →
    List (ManageRes V) × CacheWorld κ σ V
  | w, [] => ([], w)
  | w, x :: xs =>
    let r := w.step cwd repr x.1 x.2
    let rest := CacheWorld.run cwd repr r.2 xs
    (r.1 :: rest.1, rest.2)

end PyBroker
