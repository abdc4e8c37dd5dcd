import Mathlib.Data.List.Basic

/-!
# Timeframe strings and interval names

`parse_timeframe` and `to_seconds` of `/repo/src/pybroker/common.py`,
`_format_timeframe` of `/repo/src/pybroker/data.py`, and the interval names of
`/repo/src/pybroker/interval.py`.

A string is a list of characters.  Digits, letters and white space are the ASCII ones
(Python's `\d`, `str.isdigit`, `str.split` and `str.strip` also accept other Unicode
characters).  Caches of parsed strings (`lru_cache`) are not modelled.
-/

namespace PyBroker

abbrev Str := List Char

/-- `\d` on ASCII. -/
def isDig (c : Char) : Bool := decide ('0' ≤ c) && decide (c ≤ '9')

/-- `[A-Za-z]`. -/
def isAlpha (c : Char) : Bool :=
  (decide ('a' ≤ c) && decide (c ≤ 'z')) || (decide ('A' ≤ c) && decide (c ≤ 'Z'))

/-- ASCII white space of `str.split` and `str.strip`. -/
def isWs (c : Char) : Bool :=
  decide (c ∈ [' ', '\t', '\n', '\r', Char.ofNat 11, Char.ofNat 12, Char.ofNat 28, Char.ofNat 29,
    Char.ofNat 30, Char.ofNat 31])

/-- `str.lower` on ASCII letters; other characters are left alone. -/
def lowerC (c : Char) : Char := if 'A' ≤ c ∧ c ≤ 'Z' then Char.ofNat (c.toNat + 32) else c

/-- `int(digits)`. -/
def readNat (ds : Str) : Nat := ds.foldl (fun n c => 10 * n + (c.toNat - 48)) 0

/-- The character of a digit. -/
def digC (n : Nat) : Char := Char.ofNat (n + 48)

/-- `str(n)`. -/
def showNat (n : Nat) : Str :=
  if _h : n < 10 then [digC n] else showNat (n / 10) ++ [digC (n % 10)]

/-! ## Timeframes -/

/-- `_tf_pattern.findall` for `(\d+)([A-Za-z]+)`, common.py:63, 391.  A match takes the
longest run of digits and the longest run of letters after it; without a letter after
the digits the search goes on at the next character. -/
def findAll : Str → List (Str × Str)
  | [] => []
  | c :: cs =>
    if isDig c then
      let ds := (c :: cs).takeWhile isDig
      let rest := (c :: cs).dropWhile isDig
      let ls := rest.takeWhile isAlpha
      if ls = [] then findAll cs
      else (ds, ls) :: findAll (rest.dropWhile isAlpha)
    else findAll cs
termination_by s => s.length
decreasing_by
  all_goals simp only [List.length_cons]
  · omega
  · have h1 : (List.dropWhile isAlpha (List.dropWhile isDig (c :: cs))).length ≤
        (List.dropWhile isDig (c :: cs)).length := (List.dropWhile_sublist _).length_le
    have h2 : (List.dropWhile isDig (c :: cs)).length ≤ cs.length := by
      rename_i hc _
      rw [List.dropWhile_cons_of_pos hc]
      exact (List.dropWhile_sublist _).length_le
    omega
  · omega

/-- `str.split()`: the current token is `cur`, reversed. -/
def splitWs (cur : Str) : Str → List Str
  | [] => if cur = [] then [] else [cur.reverse]
  | c :: cs =>
    if isWs c then (if cur = [] then splitWs [] cs else cur.reverse :: splitWs [] cs)
    else splitWs (c :: cur) cs

/-- The units of `_TF_UNITS`, common.py:64-71. -/
inductive TfUnit | sec | min | hour | day | week
  deriving DecidableEq, Repr

/-- `_TF_SECONDS`, common.py:72-78. -/
def TfUnit.seconds : TfUnit → Nat
  | .sec => 1
  | .min => 60
  | .hour => 60 * 60
  | .day => 24 * 60 * 60
  | .week => 7 * 24 * 60 * 60

/-- The name of a unit. -/
def TfUnit.name : TfUnit → Str
  | .sec => ['s', 'e', 'c']
  | .min => ['m', 'i', 'n']
  | .hour => ['h', 'o', 'u', 'r']
  | .day => ['d', 'a', 'y']
  | .week => ['w', 'e', 'e', 'k']

/-- The letter of a unit, `_tf_abbr`, common.py:64-70. -/
def TfUnit.letter : TfUnit → Char
  | .sec => 's'
  | .min => 'm'
  | .hour => 'h'
  | .day => 'd'
  | .week => 'w'

def TfUnit.all : List TfUnit := [.sec, .min, .hour, .day, .week]

/-- A lower-case unit, abbreviated or not: common.py:398-402. -/
def unitOf (s : Str) : Option TfUnit :=
  TfUnit.all.find? (fun u => s = [u.letter] ∨ s = u.name)

/-- The loop of common.py:395-407. -/
def parseParts : List (Str × Str) → List TfUnit → Option (List (Nat × TfUnit))
  | [], _ => some []
  | (ds, ls) :: rest, seen =>
    match unitOf (ls.map lowerC) with
    | none => none
    | some u =>
      if u ∈ seen then none
      else (parseParts rest (u :: seen)).map ((readNat ds, u) :: ·)

/-- `parse_timeframe`, common.py:375-407.  `none` is the `ValueError`. -/
def parseTimeframe (s : Str) : Option (List (Nat × TfUnit)) :=
  let parts := findAll s
  if parts = [] ∨ parts.length ≠ (splitWs [] s).length then none else parseParts parts []

/-- `to_seconds`, common.py:410-429. -/
def toSeconds (s : Str) : Option Nat :=
  if s = [] then some 0
  else (parseTimeframe s).map (fun ps => (ps.map (fun p => p.1 * p.2.seconds)).sum)

/-- `" ".join(...)`. -/
def joinSp : List Str → Str
  | [] => []
  | [a] => a
  | a :: b :: rest => a ++ ' ' :: joinSp (b :: rest)

/-- `_format_timeframe`, data.py:324-329. -/
def formatTimeframe (s : Str) : Option Str :=
  if s = [] then some []
  else (parseTimeframe s).map (fun ps => joinSp (ps.map (fun p => showNat p.1 ++ p.2.name)))

/-! ## Intervals -/

/-- `TimeframeInterval`, interval.py:31-42: a number of bars or a string. -/
inductive Iv
  | num (n : Int)
  | str (s : Str)
  deriving DecidableEq, Repr

/-- `_CALENDAR_INTERVALS`, interval.py:44-46. -/
def calendarNames : List Str :=
  [['d', 'a', 'i', 'l', 'y'], ['w', 'e', 'e', 'k', 'l', 'y'],
    ['m', 'o', 'n', 't', 'h', 'l', 'y'],
    ['q', 'u', 'a', 'r', 't', 'e', 'r', 'l', 'y'], ['y', 'e', 'a', 'r', 'l', 'y']]

/-- `str.strip()`. -/
def stripWs (s : Str) : Str := ((s.dropWhile isWs).reverse.dropWhile isWs).reverse

/-- `_normalize_duration_string`, interval.py:188-215.  `none` is the `ValueError`. -/
def normalizeDuration (s : Str) : Option Str :=
  let st := stripWs s
  if st = [] ∨ ' ' ∈ st then none
  else
    let ds := st.takeWhile isDig
    match ds, st.dropWhile isDig with
    | [], _ => none
    | _, [u] =>
      if lowerC u ∈ ['s', 'm', 'h', 'd'] then
        if readNat ds = 0 then none
        else
          let canonical := showNat (readNat ds) ++ [lowerC u]
          match toSeconds canonical with
          | some n => if n = 0 then none else some canonical
          | none => none
      else none
    | _, _ => none

/-- `normalize_interval`, interval.py:227-243. -/
def normalizeIv : Iv → Option Iv
  | .num n => if n ≤ 1 then none else some (.num n)
  | .str s => if s ∈ calendarNames then some (.str s) else (normalizeDuration s).map .str

/-- `format_interval`, interval.py:246-251. -/
def formatIv (iv : Iv) : Option Str :=
  match normalizeIv iv with
  | none => none
  | some (.num n) => some (showNat n.toNat)
  | some (.str s) => some s

/-- The loop of `normalize_intervals`, interval.py:282-293, without the base interval:
the intervals seen, or `none` for the `ValueError`. -/
def normalizeLoop : List Iv → List Iv → Option (List Iv)
  | [], seen => some seen
  | iv :: rest, seen =>
    match normalizeIv iv with
    | none => none
    | some n => if n ∈ seen then none else normalizeLoop rest (n :: seen)

/-- `normalize_intervals`, interval.py:261-293, with `allow_base=False`. -/
def normalizeIvs (ivs : List Iv) : Option (List Iv) :=
  if ivs = [] then none else normalizeLoop ivs []

/-- `validate_source_name`, interval.py:300-317: accepted names. -/
def validName (name : Str) : Bool := !decide ('@' ∈ name)

/-- `indicator_interval_name` and `model_interval_name`, interval.py:320-322, 341. -/
def intervalName (base : Str) (iv : Iv) : Option Str :=
  (formatIv iv).map (fun f => base ++ '@' :: f)

/-- `name.rsplit("@", 1)`: what is before and after the last `@`. -/
def rsplitAt (name : Str) : Str × Str :=
  let suffix := (name.reverse.takeWhile (fun c => c ≠ '@')).reverse
  (name.take (name.length - suffix.length - 1), suffix)

/-- `parse_indicator_interval_name`, interval.py:325-338. -/
def parseName (name : Str) : Str × Option Iv :=
  if '@' ∉ name then (name, none)
  else
    let p := rsplitAt name
    if p.2 ≠ [] ∧ p.2.all isDig then (p.1, some (.num (readNat p.2)))
    else if p.2 ∈ calendarNames then (p.1, some (.str p.2))
    else match normalizeDuration p.2 with
      | some d => (p.1, some (.str d))
      | none => (name, none)

end PyBroker
