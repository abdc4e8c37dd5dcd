import Verif.Backtest.Model

/-!
# Model of rotation (`worst_rank_held`) in `strategy.py`

Line numbers refer to `/repo/src/pybroker/strategy.py`.  A context is reduced to
its symbol and its two rotation scores; the effect of rotation on the contexts is
returned as lists of symbols: those liquidated and those given a target.
-/

namespace PyBroker

/-- What rotation reads of an `ExecContext`: symbol, `long_score`, `short_score`. -/
structure RotCtx where
  symbol : Sym
  longScore : Score := none
  shortScore : Score := none
  deriving DecidableEq, Repr

/-- The order of `sorted(scores.items(), key=lambda item: (-item[1], item[0]))`. -/
def scoreLE (a b : Sym × ℚ) : Prop := b.2 < a.2 ∨ (b.2 = a.2 ∧ a.1 ≤ b.1)

instance (a b : Sym × ℚ) : Decidable (scoreLE a b) := by unfold scoreLE; infer_instance

/-- `enumerate` from `n`, keeping the symbol: the rank of the dict of 225-229. -/
def numberFrom : Nat → List (Sym × ℚ) → List (Sym × Nat)
  | _, [] => []
  | n, x :: xs => (x.1, n) :: numberFrom (n + 1) xs

/-- `_rank_by_score`, 225-229 (and `_rank_by_short_score`, 232-233). -/
def rankByScore (scores : List (Sym × ℚ)) : List (Sym × Nat) :=
  numberFrom 1 (scores.insertionSort scoreLE)

/-- `ranks.get(sym)`. -/
def rankGet : List (Sym × Nat) → Sym → Option Nat
  | [], _ => none
  | (k, n) :: rest, sym => if k = sym then some n else rankGet rest sym

/-- The score of a side: `_long_rotation_score` and `_short_rotation_score`,
236-245. -/
def RotCtx.score (dir : PosType) (c : RotCtx) : Option ℚ :=
  match dir with
  | .long => c.longScore.rankable
  | .short => c.shortScore.rankable

/-- `_rotation_ranks`, 373-388. -/
def rotationRanks (active : List RotCtx) (dir : PosType) : List (Sym × Nat) :=
  rankByScore (active.filterMap (fun c => (c.score dir).map (fun q => (c.symbol, q))))

/-- The order side that enters a direction: 499-504. -/
def entrySide : PosType → Side
  | .long => .buy
  | .short => .sell

/-- The order side that leaves a direction: 430-435. -/
def exitSideOf : PosType → Side
  | .long => .sell
  | .short => .buy

/-- `_has_pending_order`, 408-413. -/
def hasPending (pend : PendingScope) (sym : Sym) (side : Side) : Bool :=
  (pend.list (some sym) none).any (fun o => o.side = side)

/-- The symbols of `portfolio.long_positions` and `portfolio.short_positions`. -/
structure Held where
  longs : List Sym
  shorts : List Sym
  deriving DecidableEq, Repr

def Held.of (h : Held) : PosType → List Sym
  | .long => h.longs
  | .short => h.shorts

/-- The loop body of `_rotation_exits`, 436-452: the number of positions leaving
and the symbols liquidated. -/
def exitStepR (active : List RotCtx) (pend : PendingScope) (ranks : List (Sym × Nat))
    (worst : Int) (dir : PosType) (acc : Nat × List Sym) (sym : Sym) : Nat × List Sym :=
  if (active.find? (fun c => c.symbol = sym)).isNone then acc
  else if ((rankGet ranks sym).any (fun r : Nat => decide ((r : Int) ≤ worst))) then acc
  else if hasPending pend sym (exitSideOf dir) then (acc.1 + 1, acc.2)
  else (acc.1 + 1, acc.2 ++ [sym])

/-- `_rotation_exits`, 416-453. -/
def rotationExits (active : List RotCtx) (held : Held) (pend : PendingScope)
    (ranks : List (Sym × Nat)) (worst : Int) (dir : PosType) : Nat × List Sym :=
  (held.of dir).foldl (exitStepR active pend ranks worst dir) (0, [])

/-- `_pending_entry_symbols`, 456-478.  The set is a list without repetitions. -/
def pendingEntry (held : Held) (pend : PendingScope) (dir : PosType) : List Sym :=
  ((pend.list none none).filter (fun o => decide (o.side = entrySide dir) && o.exitPos.isNone &&
    !(o.symbol ∈ held.longs) && !(o.symbol ∈ held.shorts))).map PendingOrder.symbol |>.dedup

/-- The loop body of `_rotation_candidates`, 509-526: pending symbols and
eligible symbols. -/
def candStep (held : Held) (pend : PendingScope) (ranks : List (Sym × Nat)) (worst : Int)
    (dir : PosType) (acc : List Sym × List Sym) (c : RotCtx) : List Sym × List Sym :=
  if c.symbol ∈ held.longs ∨ c.symbol ∈ held.shorts then acc
  else if c.symbol ∈ acc.1 ∨ hasPending pend c.symbol (entrySide dir) = true then
    (acc.1.insert c.symbol, acc.2)
  else
    match rankGet ranks c.symbol with
    | none => acc
    | some r => if (r : Int) > worst then acc else (acc.1, acc.2 ++ [c.symbol])

/-- `_rotation_candidates`, 481-533. -/
def rotationCandidates (active : List RotCtx) (held : Held) (pend : PendingScope)
    (ranks : List (Sym × Nat)) (worst maxPositions : Int) (exiting : Nat) (dir : PosType) :
    List Sym :=
  let acc := active.foldl (candStep held pend ranks worst dir) (pendingEntry held pend dir, [])
  let free := maxPositions - ((held.of dir).length - exiting) - acc.1.length
  if free ≤ 0 then []
  else (acc.2.insertionSort (fun a b => (rankGet ranks a).getD 0 ≤ (rankGet ranks b).getD 0)).take
    free.toNat

/-- `_resolve_rotation_overlap`, 530-551. -/
def resolveOverlap (longC shortC : List Sym) (longR shortR : List (Sym × Nat)) :
    List Sym × List Sym :=
  let overlap := longC.filter (fun x => x ∈ shortC)
  let dropLong := overlap.filter
    (fun x => (rankGet shortR x).getD 0 < (rankGet longR x).getD 0)
  let dropShort := overlap.filter (fun x => !(x ∈ dropLong))
  (longC.filter (fun x => !(x ∈ dropLong)), shortC.filter (fun x => !(x ∈ dropShort)))

/-- `BacktestSettings`, 252-256, with `worst_rank_held` set. -/
structure RotSettings where
  maxLong : Option Int
  maxShort : Option Int
  worst : Int

/-- What rotation does on a bar. -/
structure RotPlan where
  sellAll : List Sym := []
  coverAll : List Sym := []
  enterLong : List Sym := []
  enterShort : List Sym := []
  deriving DecidableEq, Repr

/-- `_apply_worst_rank_held`, 554-605: which positions it liquidates and which
symbols it gives a target. -/
def applyRotation (active : List RotCtx) (held : Held) (pend : PendingScope) (st : RotSettings) :
    RotPlan :=
  let longR := if st.maxLong.isSome then rotationRanks active .long else []
  let shortR := if st.maxShort.isSome then rotationRanks active .short else []
  let leg (dir : PosType) (ranks : List (Sym × Nat)) (max : Option Int) : List Sym × List Sym :=
    match max with
    | none => ([], [])
    | some m =>
      let ex := rotationExits active held pend ranks st.worst dir
      (ex.2, rotationCandidates active held pend ranks st.worst m ex.1 dir)
  let l := leg .long longR st.maxLong
  let s := leg .short shortR st.maxShort
  let r := resolveOverlap l.2 s.2 longR shortR
  { sellAll := l.1, coverAll := s.1, enterLong := r.1, enterShort := r.2 }

/-- `_rotation_target_size`, 300-306. -/
def rotationTarget (st : RotSettings) : ℚ := 1 / ((st.maxLong.getD 0 + st.maxShort.getD 0 : Int) : ℚ)

end PyBroker
