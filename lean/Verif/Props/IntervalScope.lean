import Verif.Scope.Interval
import Verif.Props.Input
import Verif.Props.Interval
import Verif.Props.Prices
import Verif.Props.Text

/-!
# Models and indicators on an interval (C107, C108, C109)
-/

namespace PyBroker

/-! ## Specification -/

namespace Spec

/-- The columns every compressed bar has, and `vwap`. -/
def defaultCols : List String := ["date", "open", "high", "low", "close", "volume", "vwap"]

/-- A column of all compressed bars of a symbol: the dates, the values of the indicator of this
name on the interval, or the bars' own values. -/
def ivCol (s : IvScope) (d : IvSymData) (sym : Sym) (iv : Iv) (c : String) : List Cell :=
  if c = "date" then d.data.bars.map (fun b => some ((b.date : Int) : ℚ))
  else match s.ind.data (boundName c iv) sym with
    | some ser => ser.map Prod.snd
    | none => (d.column c).getD []

/-- The columns of a model's input before it selects its own. -/
def ivNames (d : IvSymData) (registered inds : List String) : List String :=
  (["date", "open", "high", "low", "close", "volume"] ++ (if d.hasVwap then ["vwap"] else []) ++
    registered.filter (fun c => c ∈ d.custom) ++ inds).eraseDups

/-- The lag features of compressed bar number `j`: for each column its value on the bar, one
bar before, and so on; NaN before the first bar. -/
def ivPast (s : IvScope) (d : IvSymData) (sym : Sym) (iv : Iv) (columns : List String) (lags j : Nat) :
    List Cell :=
  columns.flatMap (fun c => (List.range (lags + 1)).map (fun k => lagged (ivCol s d sym iv c) j k))

/-- The scope of a test window: nothing has been read yet. -/
structure IvBacktest (s : IvScope) : Prop where
  bound : ∀ n, s.ind.bound n = (parseName n.toList).2.isSome
  series : ∀ sym iv d base ser, normalizeIv iv = some iv → s.compressed sym iv = some d →
    s.ind.data (boundName base iv) sym = some ser → ser.map Prod.fst = d.data.bars.map IBar.date
  clash : ∀ sym iv c, normalizeIv iv = some iv → c ∈ defaultCols ∨ c ∈ s.registered → s.ind.data (boundName c iv) sym = none
  registered : ∀ c ∈ s.registered, c ∉ defaultCols
  sorted : ∀ sym iv d, s.compressed sym iv = some d →
    (d.data.bars.map IBar.date).Pairwise (· < ·)
  monotone : ∀ sym iv d, s.compressed sym iv = some d → d.data.completed.Pairwise (· ≤ ·)
  range : ∀ sym iv d, s.compressed sym iv = some d →
    ∀ i ∈ d.data.completed, -1 ≤ i ∧ i < d.data.bars.length
  lagged : ∀ name sym tm l, s.models name sym = some tm → tm.info.lagColumns = some l →
    l ≠ [] ∧ "date" ∉ l
  fresh : s.ind.cache = [] ∧ s.lagCache = (fun _ => none) ∧ s.lagKeys = [] ∧ s.inputs = [] ∧
    s.warmups = [] ∧ s.preds = [] ∧ s.perBar = []

/-- The input of a model on an interval over the whole window, without caches. -/
def ivInput (s : IvScope) (sym : Sym) (iv : Iv) (base : String) : Except IvErr LagInput :=
  match s.sources base, s.compressed sym iv with
  | none, _ => .error (.input .modelNotFound)
  | some _, none => .error .noData
  | some src, some d =>
    if src.indicators.any (fun i => (s.ind.data (boundName i iv) sym).isNone) then
      .error (.read .indicatorNotFound)
    else
      match s.models (boundName base iv) sym with
      | none => .error (.input .notTrained)
      | some tm =>
        let names := ivNames d s.registered src.indicators
        let cap := d.data.windowLen
        match resolveLagCols s.dataCols src tm.info (some names) with
        | .error e => .error (.input e)
        | .ok lagCols =>
          let x : LagInput := {
            dates := (d.data.bars.take cap).map IBar.date
            symbols := none
            columns := names.map (fun c => (c, (ivCol s d sym iv c).take cap))
            features := none }
          match attachLags names (fun lc n => (List.range cap).map (ivPast s d sym iv lc n)) x
              lagCols src.lags with
          | .error e => .error (.input e)
          | .ok y => (finishInput src tm.info y).mapError .input

/-- The value a model predicts from an input: its only prediction, or the last one if there is one per
row.  Any other number of predictions is an error. -/
def ivValue (predict : PredArg → List Cell) (x : LagInput) : Except IvErr Cell :=
  match predict x.shown with
  | [] => .error .noPredictions
  | [v] => .ok v
  | _ :: w :: vs =>
    if vs.length + 2 = x.dates.length then .ok ((w :: vs).getLast (by simp)) else .error .wrongLength

/-- The predictions of a per-bar model for the first `n` compressed bars. -/
def ivBarByBar (predict : PredArg → List Cell) (x : LagInput) (warmup n : Nat) :
    Except IvErr (List Cell) :=
  (List.range n).mapM (fun j =>
    if j < warmup then .ok none else ivValue predict (x.sliceRange warmup (some (j + 1))))

/-- What reading predictions gives, without caches. -/
def ivPreds (s : IvScope) (sym : Sym) (iv : Iv) (base : String) (e : Int) : Except IvErr (List Cell) :=
  match normalizeIv iv with
  | none => .error .badInterval
  | some iv =>
    match s.models (boundName base iv) sym with
    | none => .error (.input .notTrained)
    | some tm =>
      match s.compressed sym iv with
      | none => .error .noData
      | some d =>
        let n := (d.data.visible e).length
        if n = 0 then .ok []
        else
          match ivInput s sym iv base with
          | .error r => .error r
          | .ok x =>
            if tm.perBar then ivBarByBar tm.predict x x.warmupLen n
            else (windowPreds tm.predict x x.warmupLen).map (fun l => l.take n)

/-- A column over the compressed bars visible at an end index. -/
def seenCol (s : IvScope) (d : IvSymData) (sym : Sym) (iv : Iv) (e : Int) (c : String) : List Cell :=
  let bars := d.data.visible e
  if c = "date" then bars.map (fun b => some ((b.date : Int) : ℚ))
  else match s.ind.data (boundName c iv) sym with
    | some ser => (ser.take bars.length).map Prod.snd
    | none => (IvSymData.column { d with data := { d.data with bars := bars } } c).getD []

/-- The input made of the compressed bars visible at an end index, one row each: the columns
`ic` and, with lags, the values of the columns `lc` on the row's bar and on the bars before. -/
def seenInput (s : IvScope) (d : IvSymData) (sym : Sym) (iv : Iv) (e : Int) (ic lc : List String)
    (lags : Option Nat) : LagInput where
  dates := (d.data.visible e).map IBar.date
  symbols := none
  columns := ic.map (fun c => (c, seenCol s d sym iv e c))
  features := lags.map (fun n => (List.range (d.data.visible e).length).map (fun j =>
    lc.flatMap (fun c => (List.range (n + 1)).map (fun k => lagged (seenCol s d sym iv e c) j k))))

/-- A model that can be used on an interval: it is registered and trained for the symbol, its
indicators are computed, and its columns `ic` and lagged columns `lc` are there.  It has no
input function of its own. -/
structure IvUse (s : IvScope) (sym : Sym) (iv : Iv) (base : String) (d : IvSymData) (src : InSource)
    (tm : IvModel) (ic lc : List String) : Prop where
  data : s.compressed sym iv = some d
  source : s.sources base = some src
  model : s.models (boundName base iv) sym = some tm
  indicators : ∀ i ∈ src.indicators, (s.ind.data (boundName i iv) sym).isSome
  columns : src.inputFn = none ∧ ic ≠ [] ∧ ic.Nodup ∧
    (tm.info.inputCols = some ic ∨ tm.info.inputCols = none ∧ ic = src.indicators)
  there : ∀ c ∈ ic, c ∈ ivNames d s.registered src.indicators
  lags : src.lags ≠ none → lc ≠ [] ∧ (∀ c ∈ lc, c ∈ ivNames d s.registered src.indicators) ∧
    (tm.info.lagColumns = some lc ∨ tm.info.lagColumns = none ∧
      lc = (ivNames d s.registered src.indicators).filter (fun c =>
        c ∈ s.dataCols ∧ (src.pooled → c ≠ "symbol") ∧ c ≠ "date" ∧ c ∉ src.indicators))

/-- The rows of an input from row `w` on. -/
def rowsFrom (x : LagInput) (w : Nat) : LagInput where
  dates := x.dates.drop w
  symbols := x.symbols.map (fun l => l.drop w)
  columns := x.columns.map (fun p => (p.1, p.2.drop w))
  features := x.features.map (fun f => f.drop w)

/-- The number of rows before the first one whose lag features are all known. -/
def warmRows (x : LagInput) : Nat :=
  match x.features with
  | none => 0
  | some f => f.findIdx (fun row => row.all Option.isSome)

/-- The prediction of a per-bar model on the last row of an input: NaN while no row has all
its lag features, and otherwise what the model says of the rows from the first such row. -/
def barPrediction (predict : PredArg → List Cell) (x : LagInput) : Except IvErr Cell :=
  if x.dates.length ≤ warmRows x then .ok none
  else
    let flat := predict (rowsFrom x (warmRows x)).shown
    match flat.getLast? with
    | none => .error .noPredictions
    | some v =>
      if flat.length = 1 ∨ flat.length = x.dates.length - warmRows x then .ok v
      else .error .wrongLength

end Spec

/-- A row of what a prediction function is given. -/
inductive PredRow
  | named (cells : List (String × Cell))
  | lags (cells : List Cell)

/-- Row number `i`. -/
def PredArg.row : PredArg → Nat → PredRow
  | .frame cols, i => .named (cols.map (fun p => (p.1, (p.2[i]?).join)))
  | .lags rows, i => .lags (rows.getD i [])

/-- The number of rows. -/
def PredArg.count : PredArg → Nat
  | .frame cols => (cols.head?.map (fun p => p.2.length)).getD 0
  | .lags rows => rows.length

namespace Spec

/-- A model that predicts each row from that row alone, by `f`. -/
def Rowwise (predict : PredArg → List Cell) (f : PredRow → Cell) : Prop :=
  ∀ a, predict a = (List.range a.count).map (fun i => f (a.row i))

end Spec

open Spec

/-! ## Names -/

theorem boundName_parse (base : String) {iv : Iv} (hn : normalizeIv iv = some iv) :
    parseName (boundName base iv).toList = (base.toList, some iv) := by
  unfold boundName
  rcases h : intervalName base.toList iv with _ | name
  · unfold intervalName formatIv at h
    rw [hn] at h
    cases iv <;> simp at h
  · rw [Option.getD_some, String.toList_ofList]
    exact interval_name_round_trip hn h

theorem boundName_inj {base base' : String} {iv iv' : Iv} (hn : normalizeIv iv = some iv)
    (hn' : normalizeIv iv' = some iv') (h : boundName base iv = boundName base' iv') :
    base = base' ∧ iv = iv' := by
  have h1 := boundName_parse base hn
  rw [h, boundName_parse base' hn'] at h1
  have := Prod.mk.inj h1
  exact ⟨(String.toList_inj.1 this.1).symm, (Option.some.inj this.2).symm⟩

/-- The interval of a lag key. -/
def ivOf (i : Option String) : Option Iv := i.bind (fun s => (parseName ('@' :: s.toList)).2)

theorem ivOf_lag {iv : Iv} (hn : normalizeIv iv = some iv) : ivOf (lagInterval iv) = some iv := by
  unfold ivOf lagInterval
  rcases h : formatIv iv with _ | f
  · unfold formatIv at h
    rw [hn] at h
    cases iv <;> simp at h
  · have : intervalName [] iv = some ('@' :: f) := by
      unfold intervalName
      rw [h]
      rfl
    rw [Option.map_some, Option.bind_some, String.toList_ofList, interval_name_round_trip hn this]

/-! ## The columns -/

theorem foldl_put {V : Type} (g : String → V) : ∀ (l L : List String),
    l.foldl (fun a c => assocPut a c (g c)) (L.map (fun c => (c, g c))) =
      (l.foldl (fun B i => if i ∈ B then B else B ++ [i]) L).map (fun c => (c, g c)) := by
  intro l
  induction l with
  | nil => intro L; rfl
  | cons c l ih => intro L; rw [List.foldl_cons, assocPut_map, ih, List.foldl_cons]

theorem eraseDups_append {B l : List String} (hB : B.Nodup) :
    (B ++ l).eraseDups = l.foldl (fun B i => if i ∈ B then B else B ++ [i]) B := by
  rw [fold_eraseDups, List.eraseDups_append, eraseDups_nodup hB]
  congr 2
  simp only [List.removeAll]
  apply List.filter_congr
  intro c _
  simp [List.contains_iff_mem]

theorem column_default {d : IvSymData} {registered : List String}
    (hr : ∀ c ∈ registered, c ∉ defaultCols) {c : String} (hc : c ∈ registered) (hd : c ∈ d.custom) :
    d.column c = some (d.data.bars.map (fun b => b.custom c)) := by
  have := hr c hc
  simp only [defaultCols, List.mem_cons, List.not_mem_nil, or_false, not_or] at this
  obtain ⟨h0, h1, h2, h3, h4, h5, h6⟩ := this
  unfold IvSymData.column
  rw [if_neg h1, if_neg h2, if_neg h3, if_neg h4, if_neg h5, if_neg h6, if_pos hd]

/-- The data columns of the input. -/
theorem dataColumns_eq {s : IvScope} (h : IvBacktest s) {sym : Sym} {iv : Iv} {d : IvSymData}
    (hn : normalizeIv iv = some iv) (cap : Nat) :
    d.dataColumns s.registered cap =
      (ivNames d s.registered []).map (fun c => (c, (ivCol s d sym iv c).take cap)) := by
  have hdef : ∀ c ∈ defaultCols, c ≠ "date" → ivCol s d sym iv c = (d.column c).getD [] := by
    intro c hc hd
    unfold ivCol
    rw [if_neg hd, h.clash sym iv c hn (.inl hc)]
  have hreg : ∀ c ∈ s.registered, c ∈ d.custom →
      ivCol s d sym iv c = d.data.bars.map (fun b => b.custom c) := by
    intro c hc hd
    unfold ivCol
    rw [if_neg (fun e => h.registered c hc (by simp [e, defaultCols])), h.clash sym iv c hn (.inr hc)]
    simp only
    rw [column_default h.registered hc hd]
    rfl
  have hbase : [("date", (d.data.bars.take cap).map (fun b => some ((b.date : Int) : ℚ))),
      ("open", (d.data.bars.take cap).map IBar.opn),
      ("high", (d.data.bars.take cap).map IBar.high), ("low", (d.data.bars.take cap).map IBar.low),
      ("close", (d.data.bars.take cap).map IBar.close),
      ("volume", (d.data.bars.take cap).map IBar.volume)] =
      ["date", "open", "high", "low", "close", "volume"].map
        (fun c => (c, (ivCol s d sym iv c).take cap)) := by
    simp only [List.map_cons, List.map_nil]
    rw [hdef "open" (by decide) (by decide), hdef "high" (by decide) (by decide),
      hdef "low" (by decide) (by decide), hdef "close" (by decide) (by decide),
      hdef "volume" (by decide) (by decide)]
    simp [ivCol, IvSymData.column, List.map_take]
  unfold IvSymData.dataColumns
  simp only
  rw [hbase]
  have hvw : (if d.hasVwap = true then
        assocPut (["date", "open", "high", "low", "close", "volume"].map
          (fun c => (c, (ivCol s d sym iv c).take cap))) "vwap" ((d.data.bars.take cap).map IBar.vwap)
      else ["date", "open", "high", "low", "close", "volume"].map
        (fun c => (c, (ivCol s d sym iv c).take cap))) =
      (if d.hasVwap then ["date", "open", "high", "low", "close", "volume", "vwap"]
        else ["date", "open", "high", "low", "close", "volume"]).map
        (fun c => (c, (ivCol s d sym iv c).take cap)) := by
    split
    · rename_i hv
      have : (d.data.bars.take cap).map IBar.vwap = (ivCol s d sym iv "vwap").take cap := by
        rw [hdef "vwap" (by decide) (by decide)]
        simp [IvSymData.column, hv, List.map_take]
      rw [this, assocPut_map]
      rfl
    · rfl
  rw [hvw]
  have hfold : ∀ (l : List String) (a : List (String × List Cell)),
      (∀ c ∈ l, c ∈ s.registered ∧ c ∈ d.custom) →
      l.foldl (fun a c => assocPut a c ((d.data.bars.take cap).map (fun b => b.custom c))) a =
      l.foldl (fun a c => assocPut a c ((ivCol s d sym iv c).take cap)) a := by
    intro l
    induction l with
    | nil => intro a _; rfl
    | cons c l ih =>
      intro a hl
      obtain ⟨h1, h2⟩ := hl c (by simp)
      rw [List.foldl_cons, List.foldl_cons, ih _ (fun c hc => hl c (by simp [hc])), hreg c h1 h2,
        List.map_take]
  rw [hfold _ _ (by simp), foldl_put]
  congr 1
  unfold ivNames
  split
  · rw [List.append_nil, ← eraseDups_append (by decide)]
    rfl
  · rw [List.append_nil, ← eraseDups_append (by decide)]
    rfl

/-- Fetching an indicator on an interval. -/
theorem bound_fetch {ind ind0 : IndScope} (hc : ind.Coherent) (h2 : ind.data = ind0.data)
    (h3 : ind.bound = ind0.bound) (h4 : ind.filterDates = ind0.filterDates) (sym : Sym)
    {name : String} (hb : ind0.bound name = true) :
    (ind.fetch sym name none).1 = (match ind0.data name sym with
        | none => .error .indicatorNotFound
        | some ser => .ok (ser.map Prod.snd)) ∧
    (ind.fetch sym name none).2.Coherent ∧ (ind.fetch sym name none).2.data = ind0.data ∧
    (ind.fetch sym name none).2.bound = ind0.bound ∧
    (ind.fetch sym name none).2.filterDates = ind0.filterDates := by
  obtain ⟨f1, f2, f3, f4, f5⟩ := fetch_coherent hc sym name none
  refine ⟨?_, f2, f3.trans h2, f4.trans h3, f5.trans h4⟩
  rw [f1]
  unfold indRead
  rw [if_neg (by simp), h2]
  rcases ind0.data name sym with _ | ser
  · rfl
  · simp only [sliceTo]
    unfold IndScope.served
    rw [h3, if_pos hb]

theorem boundName_bound {s : IvScope} (h : IvBacktest s) {iv : Iv} (hn : normalizeIv iv = some iv)
    (base : String) : s.ind.bound (boundName base iv) = true := by
  rw [h.bound, boundName_parse base hn]
  rfl

theorem ivCol_ind {s : IvScope} (h : IvBacktest s) {sym : Sym} {iv : Iv}
    (hn : normalizeIv iv = some iv) (d : IvSymData)
    {c : String} {ser : Series} (hs : s.ind.data (boundName c iv) sym = some ser) :
    ivCol s d sym iv c = ser.map Prod.snd := by
  unfold ivCol
  rw [if_neg, hs]
  intro e
  rw [h.clash sym iv c hn (.inl (by simp [e, defaultCols]))] at hs
  cases hs

/-- Reading the indicators of a model on an interval. -/
theorem readBound_spec {s0 : IvScope} (h : IvBacktest s0) (sym : Sym) {iv : Iv}
    (hn : normalizeIv iv = some iv) (d : IvSymData) (cap : Nat) :
    ∀ (inds : List String) (ind : IndScope) (L : List String), ind.Coherent →
    ind.data = s0.ind.data → ind.bound = s0.ind.bound → ind.filterDates = s0.ind.filterDates →
    let g := fun c => (ivCol s0 d sym iv c).take cap
    (readBound sym iv cap inds ind (L.map (fun c => (c, g c)))).1 =
      (if inds.any (fun i => (s0.ind.data (boundName i iv) sym).isNone) then
          .error (.read .indicatorNotFound)
        else .ok ((inds.foldl (fun B i => if i ∈ B then B else B ++ [i]) L).map (fun c => (c, g c)))) ∧
    (readBound sym iv cap inds ind (L.map (fun c => (c, g c)))).2.Coherent ∧
    (readBound sym iv cap inds ind (L.map (fun c => (c, g c)))).2.data = s0.ind.data ∧
    (readBound sym iv cap inds ind (L.map (fun c => (c, g c)))).2.bound = s0.ind.bound ∧
    (readBound sym iv cap inds ind (L.map (fun c => (c, g c)))).2.filterDates = s0.ind.filterDates := by
  intro inds
  induction inds with
  | nil => intro ind L h1 h2 h3 h4; exact ⟨rfl, h1, h2, h3, h4⟩
  | cons i inds ih =>
    intro ind L h1 h2 h3 h4
    obtain ⟨f1, f2, f3, f4, f5⟩ := bound_fetch h1 h2 h3 h4 sym (boundName_bound h hn i)
    unfold readBound
    simp only
    rcases hf : ind.fetch sym (boundName i iv) none with ⟨res, ind'⟩
    rw [hf] at f1 f2 f3 f4 f5
    simp only at f1 f2 f3 f4 f5
    rcases hs : s0.ind.data (boundName i iv) sym with _ | ser
    · rw [hs] at f1
      simp only at f1
      rw [f1]
      refine ⟨?_, f2, f3, f4, f5⟩
      rw [if_pos (by simp [hs])]
    · rw [hs] at f1
      simp only at f1
      rw [f1]
      simp only
      rw [← ivCol_ind h hn d hs]
      have e := assocPut_map (fun c => (ivCol s0 d sym iv c).take cap) i L
      rw [e]
      have := ih ind' (if i ∈ L then L else L ++ [i]) f2 f3 f4 f5
      simp only at this
      rw [List.foldl_cons, List.any_cons, hs]
      simpa using this

theorem ivNames_inds (d : IvSymData) (registered inds : List String) :
    inds.foldl (fun B i => if i ∈ B then B else B ++ [i]) (ivNames d registered []) =
      ivNames d registered inds := by
  unfold ivNames
  simp only [List.append_nil]
  generalize ["date", "open", "high", "low", "close", "volume"] ++
    (if d.hasVwap = true then ["vwap"] else []) ++ registered.filter (fun c => decide (c ∈ d.custom)) = A
  have h1 := fold_eraseDups A []
  have h2 := fold_eraseDups (A ++ inds) []
  simp only [List.nil_append, List.not_mem_nil, not_false_iff, decide_true, List.filter_true] at h1 h2
  rw [← h1, ← h2, List.foldl_append]


/-! ## The lag features -/

theorem ivCol_length {s : IvScope} (h : IvBacktest s) {sym : Sym} {iv : Iv}
    (hn : normalizeIv iv = some iv) {d : IvSymData} (hd : s.compressed sym iv = some d)
    {inds : List String} (hi : ∀ i ∈ inds, (s.ind.data (boundName i iv) sym).isSome) {c : String}
    (hc : c ∈ ivNames d s.registered inds) (hdate : c ≠ "date") :
    (ivCol s d sym iv c).length = d.data.bars.length ∧
      ((s.ind.data (boundName c iv) sym).isSome ∨
        (s.ind.data (boundName c iv) sym = none ∧ d.column c = some (ivCol s d sym iv c))) := by
  rcases hs : s.ind.data (boundName c iv) sym with _ | ser
  · have hcol : ∃ f : IBar → Cell, d.column c = some (d.data.bars.map f) := by
      unfold ivNames at hc
      rw [List.mem_eraseDups] at hc
      simp only [List.mem_append, List.mem_cons, List.not_mem_nil, or_false] at hc
      rcases hc with ((hc | hc) | hc) | hc
      · rcases hc with rfl | rfl | rfl | rfl | rfl | rfl
        · exact absurd rfl hdate
        all_goals exact ⟨_, rfl⟩
      · split at hc
        · rename_i hv
          rw [List.mem_singleton] at hc
          subst hc
          exact ⟨IBar.vwap, by simp [IvSymData.column, hv]⟩
        · simp at hc
      · rw [List.mem_filter, decide_eq_true_eq] at hc
        exact ⟨_, column_default h.registered hc.1 hc.2⟩
      · have := hi c hc
        rw [hs] at this
        cases this
    obtain ⟨f, hf⟩ := hcol
    have he : ivCol s d sym iv c = d.data.bars.map f := by
      unfold ivCol
      rw [if_neg hdate, hs]
      simp only
      rw [hf]
      rfl
    rw [he, hf]
    exact ⟨by simp, .inr ⟨rfl, rfl⟩⟩
  · rw [ivCol_ind h hn d hs]
    refine ⟨?_, .inl rfl⟩
    have := congrArg List.length (h.series sym iv d c ser hn hd hs)
    simpa using this

/-- The indicators read for the lag features. -/
theorem readLagArrays_spec {s0 : IvScope} (h : IvBacktest s0) (sym : Sym) {iv : Iv}
    (hn : normalizeIv iv = some iv) (d : IvSymData) :
    ∀ (cols : List String) (ind : IndScope) (L : List String), ind.Coherent →
    ind.data = s0.ind.data → ind.bound = s0.ind.bound → ind.filterDates = s0.ind.filterDates →
    ∃ (ind' : IndScope) (L' : List String), readLagArrays sym iv cols ind (L.map (fun c => (c, ivCol s0 d sym iv c))) =
        (.ok (L'.map (fun c => (c, ivCol s0 d sym iv c))), ind') ∧
      (∀ c, c ∈ L' ↔ c ∈ L ∨ (c ∈ cols ∧ (s0.ind.data (boundName c iv) sym).isSome)) ∧
      ind'.Coherent ∧ ind'.data = s0.ind.data ∧ ind'.bound = s0.ind.bound ∧
      ind'.filterDates = s0.ind.filterDates := by
  intro cols
  induction cols with
  | nil => intro ind L h1 h2 h3 h4; exact ⟨ind, L, rfl, by simp, h1, h2, h3, h4⟩
  | cons c cols ih =>
    intro ind L h1 h2 h3 h4
    unfold readLagArrays
    rw [h2]
    rcases hs : s0.ind.data (boundName c iv) sym with _ | ser
    · rw [if_neg (by simp)]
      obtain ⟨ind', L', e, hm, r⟩ := ih ind L h1 h2 h3 h4
      refine ⟨ind', L', e, fun x => ?_, r⟩
      rw [hm x]
      constructor
      · rintro (hx | ⟨hx, hy⟩)
        · exact .inl hx
        · exact .inr ⟨by simp [hx], hy⟩
      · rintro (hx | ⟨hx, hy⟩)
        · exact .inl hx
        · rcases List.mem_cons.1 hx with rfl | hx
          · rw [hs] at hy; cases hy
          · exact .inr ⟨hx, hy⟩
    · rw [if_pos (by simp)]
      obtain ⟨f1, f2, f3, f4, f5⟩ := bound_fetch h1 h2 h3 h4 sym (boundName_bound h hn c)
      rcases hf : ind.fetch sym (boundName c iv) none with ⟨res, ind'⟩
      rw [hf] at f1 f2 f3 f4 f5
      rw [hs] at f1
      simp only at f1 f2 f3 f4 f5 ⊢
      rw [f1]
      simp only
      rw [← ivCol_ind h hn d hs, assocPut_map]
      obtain ⟨ind'', L', e, hm, r⟩ := ih ind' (if c ∈ L then L else L ++ [c]) f2 f3 f4 f5
      refine ⟨ind'', L', e, fun x => ?_, r⟩
      rw [hm x]
      have hx : x ∈ (if c ∈ L then L else L ++ [c]) ↔ x ∈ L ∨ x = c := by
        split
        · rename_i hc
          exact ⟨.inl, fun h => h.elim id (fun e => e ▸ hc)⟩
        · simp
      rw [hx, List.mem_cons]
      constructor
      · rintro ((h | rfl) | ⟨h, h'⟩)
        · exact .inl h
        · exact .inr ⟨.inl rfl, by rw [hs]; rfl⟩
        · exact .inr ⟨.inr h, h'⟩
      · rintro (h | ⟨rfl | h, h'⟩)
        · exact .inl (.inl h)
        · exact .inl (.inr rfl)
        · exact .inr ⟨h, h'⟩

theorem merge_congr {sym : Sym} {lags : Nat} {i : Option String} {f g : String → Option (List Cell)} :
    ∀ {columns : List String} (c : LagCache), (∀ col ∈ columns, f col = g col) →
      LagCache.merge sym lags i f columns c = LagCache.merge sym lags i g columns c := by
  intro columns
  induction columns with
  | nil => intro c _; rfl
  | cons a columns ih =>
    intro c h
    unfold LagCache.merge
    rw [h a (by simp)]
    rcases g a with _ | v
    · rfl
    · exact ih _ (fun col hc => h col (by simp [hc]))

/-- The history the lag features of a symbol are made of. -/
def ivSeries (s : IvScope) (sym : Sym) (c : String) (i : Option String) : List Cell :=
  match ivOf i with
  | none => []
  | some iv =>
    match s.compressed sym iv with
    | none => []
    | some d => ivCol s d sym iv c

/-! ## The state between reads -/

/-- What the caches of a scope hold after any reads. -/
structure IvInv (s0 s : IvScope) : Prop where
  compressed : s.compressed = s0.compressed
  registered : s.registered = s0.registered
  dataCols : s.dataCols = s0.dataCols
  sources : s.sources = s0.sources
  models : s.models = s0.models
  data : s.ind.data = s0.ind.data
  bound : s.ind.bound = s0.ind.bound
  mask : s.ind.filterDates = s0.ind.filterDates
  coherent : s.ind.Coherent
  merges : ∃ calls, (∀ m ∈ calls, Passes (ivSeries s0) m) ∧
    runMerges calls (fun _ => none) = .ok s.lagCache ∧
    ∀ k ∈ s.lagKeys, ∃ m ∈ calls, m.symbol = k.1 ∧ m.interval = k.2.1.map String.ofList ∧
      m.lags = k.2.2.2 ∧ ∀ c ∈ k.2.2.1, c ≠ "date" → c ∈ m.columns
  inputs : ∀ base iv sym x, normalizeIv iv = some iv →
    cacheGet s.inputs (boundName base iv, sym) = some x →
    ivInput s0 sym iv base = .ok x ∧ cacheGet s.warmups (boundName base iv, sym) = some x.warmupLen
  preds : ∀ base iv sym p, normalizeIv iv = some iv →
    cacheGet s.preds (boundName base iv, sym) = some p →
    ∃ tm x, s0.models (boundName base iv) sym = some tm ∧ ivInput s0 sym iv base = .ok x ∧
      windowPreds tm.predict x x.warmupLen = .ok p
  perBar : ∀ base iv sym p, normalizeIv iv = some iv →
    cacheGet s.perBar (boundName base iv, sym) = some p →
    ∃ l, p.Holds l ∧ (l = [] ∨ ∃ tm x, s0.models (boundName base iv) sym = some tm ∧
      ivInput s0 sym iv base = .ok x ∧ ivBarByBar tm.predict x x.warmupLen l.length = .ok l)

theorem Spec.IvBacktest.inv {s : IvScope} (h : IvBacktest s) : IvInv s s := by
  obtain ⟨h1, h2, h3, h4, h5, h6, h7⟩ := h.fresh
  refine ⟨rfl, rfl, rfl, rfl, rfl, rfl, rfl, rfl, ?_, ⟨[], by simp, by rw [h2]; rfl, ?_⟩, ?_, ?_, ?_⟩
  · intro name sym l hl; rw [h1] at hl; simp [cacheGet] at hl
  · intro k hk; rw [h3] at hk; cases hk
  · intro base iv sym x _ hx; rw [h4] at hx; simp [cacheGet] at hx
  · intro base iv sym x _ hx; rw [h6] at hx; simp [cacheGet] at hx
  · intro base iv sym x _ hx; rw [h7] at hx; simp [cacheGet] at hx

theorem cacheGet_map_none {V : Type} (g : String → V) {c : String} : ∀ {L : List String}, c ∉ L →
    cacheGet (L.map (fun c => (c, g c))) c = none := by
  intro L
  induction L with
  | nil => intro _; rfl
  | cons a L ih =>
    intro h
    rw [List.mem_cons, not_or] at h
    rw [List.map_cons]
    unfold cacheGet
    rw [if_neg (Ne.symm h.1)]
    exact ih h.2

/-- `_ensure_lag_cache` on columns the input has. -/
theorem ensure_ok {s0 s : IvScope} (h : IvBacktest s0) (hi : IvInv s0 s) {sym : Sym} {iv : Iv}
    (hn : normalizeIv iv = some iv) {d : IvSymData} (hd : s0.compressed sym iv = some d)
    {inds : List String} (hin : ∀ i ∈ inds, (s0.ind.data (boundName i iv) sym).isSome)
    {columns : List String} (hc : ∀ c ∈ columns, c ∈ ivNames d s0.registered inds)
    (hdate : "date" ∉ columns) (lags : Nat) :
    ∃ s', s.ensureLags d sym iv columns lags = (.ok (), s') ∧ IvInv s0 s' ∧
      (sym, formatIv iv, columns, lags) ∈ s'.lagKeys := by
  unfold IvScope.ensureLags
  simp only
  by_cases hk : (sym, formatIv iv, columns, lags) ∈ s.lagKeys
  · rw [if_pos hk]
    exact ⟨s, rfl, hi, hk⟩
  rw [if_neg hk]
  obtain ⟨ind', L', e, hm, r1, r2, r3, r4⟩ := readLagArrays_spec h sym hn d columns s.ind []
    hi.coherent hi.data hi.bound hi.mask
  rw [List.map_nil] at e
  rw [e]
  simp only
  have hfilter : columns.filter (fun c => decide (c ≠ "date")) = columns := by
    rw [List.filter_eq_self]
    intro c hcm
    have : c ≠ "date" := fun e => hdate (e ▸ hcm)
    simpa using this
  rw [hfilter]
  -- the column merged
  have hcol : ∀ c ∈ columns, (match cacheGet (L'.map (fun c => (c, ivCol s0 d sym iv c))) c with
      | some l => some l
      | none => d.column c) = some (ivCol s0 d sym iv c) := by
    intro c hcm
    have hcd : c ≠ "date" := fun e => hdate (e ▸ hcm)
    rcases (ivCol_length h hn hd hin (hc c hcm) hcd).2 with h1 | ⟨h1, h2⟩
    · rw [cacheGet_map _ ((hm c).2 (.inr ⟨hcm, h1⟩))]
    · rw [cacheGet_map_none _ (by
        rw [hm c]
        simp [h1])]
      exact h2
  rw [merge_congr (g := fun c => if c ∈ columns then some (ivCol s0 d sym iv c) else none) s.lagCache
    (fun c hcm => by rw [if_pos hcm]; exact hcol c hcm)]
  obtain ⟨calls, hp, hr, hkeys⟩ := hi.merges
  obtain ⟨cache, hmg⟩ := merge_ok (sym := sym) (lags := lags) (i := lagInterval iv)
    (arrays := fun c => if c ∈ columns then some (ivCol s0 d sym iv c) else none) (columns := columns)
    s.lagCache (fun c hcm => ⟨_, if_pos hcm⟩)
  rw [hmg]
  refine ⟨_, rfl, ?_, List.mem_cons_self⟩
  refine { hi with data := r2, bound := r3, mask := r4, coherent := r1, merges := ?_ }
  refine ⟨calls ++ [⟨sym, lagInterval iv, lags, columns, _⟩], ?_, runMerges_snoc hr hmg, ?_⟩
  · intro m hmm
    rcases List.mem_append.1 hmm with hmm | hmm
    · exact hp m hmm
    · rw [List.mem_singleton] at hmm
      subst hmm
      intro c v hv
      have hv : (if c ∈ columns then some (ivCol s0 d sym iv c) else none) = some v := hv
      simp only
      split at hv
      · cases hv
        unfold ivSeries
        rw [ivOf_lag hn]
        simp only
        rw [hd]
      · cases hv
  · intro k hkm
    rcases List.mem_cons.1 hkm with rfl | hkm
    · exact ⟨_, List.mem_append_right _ (List.mem_singleton.2 rfl), rfl, rfl, rfl, fun c hcm _ => hcm⟩
    · obtain ⟨m, hmm, hrest⟩ := hkeys k hkm
      exact ⟨m, List.mem_append_left _ hmm, hrest⟩

theorem windowLen_le (c : Compressed) : c.windowLen ≤ c.bars.length := by
  unfold Compressed.windowLen
  split
  · omega
  · simp only
    split
    · omega
    · exact Nat.min_le_right _ _

/-- Attaching the lag features. -/
theorem ivAddLags_ok {s0 s : IvScope} (h : IvBacktest s0) (hi : IvInv s0 s) (junk : LagMat) {sym : Sym}
    {iv : Iv} (hn : normalizeIv iv = some iv) {d : IvSymData} (hd : s0.compressed sym iv = some d)
    {inds : List String} (hin : ∀ i ∈ inds, (s0.ind.data (boundName i iv) sym).isSome)
    {x : LagInput} (hx : x.dates = (d.data.bars.take d.data.windowLen).map IBar.date)
    (hnames : x.columns.map Prod.fst = ivNames d s0.registered inds)
    (lags : Option Nat) (lagCols : Option (List String))
    (hlc : ∀ lc, lagCols = some lc → "date" ∉ lc) :
    ∃ s', IvInv s0 s' ∧ s.addLags junk d sym iv x lags lagCols =
      ((attachLags (ivNames d s0.registered inds) (fun lc n =>
        (List.range d.data.windowLen).map (ivPast s0 d sym iv lc n)) x lagCols lags).mapError
          IvErr.input, s') := by
  unfold IvScope.addLags attachLags
  rcases lagCols with _ | lc
  · exact ⟨s, hi, rfl⟩
  rcases lags with _ | n
  · exact ⟨s, hi, rfl⟩
  simp only
  rw [hnames]
  by_cases hall : lc.all (fun c => decide (c ∈ ivNames d s0.registered inds)) = true
  swap
  · rw [if_neg hall, if_neg hall]
    exact ⟨s, hi, rfl⟩
  rw [if_pos hall, if_pos hall]
  have hmem : ∀ c ∈ lc, c ∈ ivNames d s0.registered inds := by simpa using hall
  have hdate := hlc lc rfl
  obtain ⟨s', e1, hi', hkey⟩ := ensure_ok h hi hn hd hin hmem hdate n
  rw [e1]
  simp only
  refine ⟨s', hi', ?_⟩
  have hcap := windowLen_le d.data
  have hxl : x.dates.length = d.data.windowLen := by
    rw [hx, List.length_map, List.length_take]
    omega
  unfold applyLags
  by_cases h0 : x.dates = []
  · rw [if_pos h0]
    have : d.data.windowLen = 0 := by rw [← hxl, h0]; rfl
    rw [this]
    rfl
  rw [if_neg h0]
  obtain ⟨calls, m1, m2, m3⟩ := hi'.merges
  have hsv := run_serves m1 m2 sym (lagInterval iv)
  have hser : ∀ c, ivSeries s0 sym c (lagInterval iv) = ivCol s0 d sym iv c := by
    intro c
    unfold ivSeries
    rw [ivOf_lag hn]
    simp only
    rw [hd]
  have hdates : (d.data.bars.map IBar.date).take d.data.windowLen = x.dates := by
    rw [hx, List.map_take]
  have hs : x.dates.Pairwise (· < ·) := by
    rw [← hdates]
    exact (h.sorted sym iv d hd).sublist (List.take_sublist _ _)
  rw [hdates]
  obtain ⟨g1, g2⟩ := lag_matrix hsv junk lc n x.dates x.dates hs h0
  obtain ⟨m, hm⟩ := g1.2 ⟨0, by rw [List.drop_zero, List.take_length], by
    intro c hcm
    have hcd : c ≠ "date" := fun e => hdate (e ▸ hcm)
    obtain ⟨call, hcall, q1, q2, q3, q4⟩ := m3 _ hkey
    refine ⟨((cached_lags m1 m2 sym c (lagInterval iv) n).1).2
      ⟨call, hcall, q1, q2, q4 c hcm hcd, by rw [q3]⟩, ?_⟩
    rw [hser, (ivCol_length h hn hd hin (hmem c hcm) hcd).1, hxl]
    omega⟩
  rw [hm]
  simp only [Except.mapError]
  congr 3
  rw [hxl]
  congr 1
  unfold matRows
  apply List.map_congr_left
  intro r hr
  rw [List.mem_range] at hr
  unfold ivPast
  apply flat_range
  intro j k c hj hk
  have hr' : r < x.dates.length := by omega
  rw [g2 m hm r r j _ c k (List.getElem?_eq_getElem hr') (List.getElem?_eq_getElem hr') hj hk, hser]

/-- The input prepared equals the specification, whatever was read before. -/
theorem prepare_spec {s0 s : IvScope} (h : IvBacktest s0) (hi : IvInv s0 s) (junk : LagMat)
    (sym : Sym) {iv : Iv} (hn : normalizeIv iv = some iv) (base : String) :
    (s.prepare junk sym iv base).1 = ivInput s0 sym iv base ∧
      IvInv s0 (s.prepare junk sym iv base).2 ∧
      ∀ x, (s.prepare junk sym iv base).1 = .ok x →
        cacheGet (s.prepare junk sym iv base).2.warmups (boundName base iv, sym) = some x.warmupLen := by
  obtain ⟨cmp, reg, dc, so, mo, ind, lc, lk, inp, wu, pr, pb⟩ := s
  obtain rfl : cmp = s0.compressed := hi.compressed
  obtain rfl : reg = s0.registered := hi.registered
  obtain rfl : dc = s0.dataCols := hi.dataCols
  obtain rfl : so = s0.sources := hi.sources
  obtain rfl : mo = s0.models := hi.models
  unfold IvScope.prepare
  rcases hc : cacheGet inp (boundName base iv, sym) with _ | x
  swap
  · simp only
    obtain ⟨h1, h2⟩ := hi.inputs base iv sym x hn hc
    refine ⟨h1.symm, hi, ?_⟩
    intro y hy
    cases hy
    exact h2
  simp only
  have hspec : ivInput s0 sym iv base = ivInput s0 sym iv base := rfl
  conv at hspec => rhs; unfold ivInput
  rcases hsrc : s0.sources base with _ | src
  · rw [hsrc] at hspec
    rw [hspec]
    exact ⟨rfl, hi, (fun _ h => nomatch h)⟩
  rw [hsrc] at hspec
  rcases hd : s0.compressed sym iv with _ | d
  · rw [hd] at hspec
    rw [hspec]
    exact ⟨rfl, hi, (fun _ h => nomatch h)⟩
  rw [hd] at hspec
  simp only at hspec ⊢
  unfold IvScope.buildInput
  simp only
  rw [dataColumns_eq h (sym := sym) hn d.data.windowLen]
  obtain ⟨r1, r2, r3, r4, r5⟩ := readBound_spec h sym hn d d.data.windowLen src.indicators ind
    (ivNames d s0.registered []) hi.coherent hi.data hi.bound hi.mask
  rw [ivNames_inds] at r1
  rcases hrd : readBound sym iv d.data.windowLen src.indicators ind
    ((ivNames d s0.registered []).map (fun c => (c, (ivCol s0 d sym iv c).take d.data.windowLen)))
    with ⟨res, ind'⟩
  rw [hrd] at r1 r2 r3 r4 r5
  simp only at r1 r2 r3 r4 r5
  have hi' : IvInv s0 (IvScope.mk s0.compressed s0.registered s0.dataCols s0.sources s0.models ind' lc lk
      inp wu pr pb) :=
    { hi with data := r3, bound := r4, mask := r5, coherent := r2 }
  by_cases hany : src.indicators.any (fun i => (s0.ind.data (boundName i iv) sym).isNone) = true
  · rw [if_pos hany] at r1 hspec
    rw [r1, hspec]
    exact ⟨rfl, hi', (fun _ h => nomatch h)⟩
  rw [if_neg hany] at r1 hspec
  rw [r1]
  simp only
  rcases htm : s0.models (boundName base iv) sym with _ | tm
  · rw [htm] at hspec
    rw [hspec]
    exact ⟨rfl, hi', (fun _ h => nomatch h)⟩
  rw [htm] at hspec
  simp only at hspec ⊢
  have hkeys : ((ivNames d s0.registered src.indicators).map
      (fun c => (c, (ivCol s0 d sym iv c).take d.data.windowLen))).map Prod.fst =
      ivNames d s0.registered src.indicators := by
    rw [List.map_map]
    exact (List.map_congr_left (fun _ _ => rfl)).trans (List.map_id _)
  rw [hkeys]
  rcases hE : resolveLagCols s0.dataCols src tm.info (some (ivNames d s0.registered src.indicators))
    with e | lagCols
  · rw [hE] at hspec
    rw [hspec]
    exact ⟨rfl, hi', (fun _ h => nomatch h)⟩
  rw [hE] at hspec
  simp only at hspec ⊢
  have hin : ∀ i ∈ src.indicators, (s0.ind.data (boundName i iv) sym).isSome := by
    intro i him
    rw [List.any_eq_true] at hany
    by_contra hno
    exact hany ⟨i, him, by simpa using hno⟩
  obtain ⟨s', hs', haddEq⟩ := ivAddLags_ok h hi' junk hn hd hin (x := {
      dates := (d.data.bars.take d.data.windowLen).map IBar.date
      symbols := none
      columns := (ivNames d s0.registered src.indicators).map
        (fun c => (c, (ivCol s0 d sym iv c).take d.data.windowLen))
      features := none }) rfl hkeys src.lags lagCols (fun lc hl => by
        subst hl
        exact (resolve_lag_cols (fun l hl => h.lagged _ sym tm l htm hl) hE).2)
  rw [haddEq]
  generalize attachLags (ivNames d s0.registered src.indicators) _ _ lagCols src.lags = res' at hspec
  rcases res' with e | y
  · simp only [Except.mapError] at hspec ⊢
    rw [hspec]
    exact ⟨rfl, hs', (fun _ h => nomatch h)⟩
  simp only [Except.mapError] at hspec ⊢
  rcases hf : finishInput src tm.info y with e | z
  · rw [hf] at hspec
    simp only at hspec ⊢
    rw [hspec]
    exact ⟨rfl, hs', (fun _ h => nomatch h)⟩
  rw [hf] at hspec
  simp only at hspec ⊢
  refine ⟨hspec.symm, { hs' with inputs := ?_ }, ?_⟩
  · intro base' iv' sym' x hn' hx
    simp only [cacheGet] at hx ⊢
    split at hx
    · rename_i e
      rw [Prod.mk.injEq] at e
      obtain ⟨e1, rfl⟩ := e
      obtain ⟨rfl, rfl⟩ := boundName_inj hn hn' e1
      cases hx
      rw [if_pos rfl]
      exact ⟨hspec, rfl⟩
    · rename_i e
      rw [if_neg e]
      exact hs'.inputs base' iv' sym' x hn' hx
  · intro x hx
    cases hx
    simp [cacheGet]


/-! ## Predictions -/

theorem mapM_range_succ {ε V : Type} (g : Nat → Except ε V) (n : Nat) :
    (List.range (n + 1)).mapM g =
      match (List.range n).mapM g with
      | .error x => .error x
      | .ok l =>
        match g n with
        | .error x => .error x
        | .ok v => .ok (l ++ [v]) := by
  rw [List.range_succ, List.mapM_append]
  cases (List.range n).mapM g with
  | error x => rfl
  | ok l =>
    simp only [List.mapM_cons, List.mapM_nil]
    cases g n <;> rfl

theorem mapM_range_length {ε V : Type} {g : Nat → Except ε V} :
    ∀ {n : Nat} {l : List V}, (List.range n).mapM g = .ok l → l.length = n := by
  intro n
  induction n with
  | zero => intro l h; cases h; rfl
  | succ n ih =>
    intro l h
    rw [mapM_range_succ] at h
    rcases hn : (List.range n).mapM g with x | l'
    · rw [hn] at h; cases h
    · rw [hn] at h
      simp only at h
      rcases hv : g n with x | v
      · rw [hv] at h; cases h
      · rw [hv] at h
        rw [← Except.ok.inj h, List.length_append, ih hn]
        rfl

theorem mapM_range_prefix {ε V : Type} {g : Nat → Except ε V} :
    ∀ {n : Nat} {l : List V}, (List.range n).mapM g = .ok l → ∀ {m : Nat}, m ≤ n →
      (List.range m).mapM g = .ok (l.take m) := by
  intro n
  induction n with
  | zero =>
    intro l h m hm
    have : m = 0 := by omega
    subst this
    cases h
    rfl
  | succ n ih =>
    intro l h m hm
    by_cases hmn : m = n + 1
    · subst hmn
      rw [h, List.take_of_length_le (by rw [mapM_range_length h])]
    · rw [mapM_range_succ] at h
      rcases hn : (List.range n).mapM g with x | l'
      · rw [hn] at h; cases h
      · rw [hn] at h
        simp only at h
        rcases hv : g n with x | v
        · rw [hv] at h; cases h
        · rw [hv] at h
          rw [← Except.ok.inj h, ih hn (by omega : m ≤ n),
            List.take_append_of_le_length (by rw [mapM_range_length hn]; omega)]

theorem mapM_range_error {ε V : Type} {g : Nat → Except ε V} {n : Nat} {x : ε}
    (h : (List.range n).mapM g = .error x) (k : Nat) : (List.range (n + k)).mapM g = .error x := by
  induction k with
  | zero => exact h
  | succ k ih => rw [← Nat.add_assoc, mapM_range_succ, ih]

theorem mapM_range_get {ε V : Type} {g : Nat → Except ε V} {n : Nat} {l : List V}
    (h : (List.range n).mapM g = .ok l) {j : Nat} (hj : j < n) : ∃ v, g j = .ok v ∧ l[j]? = some v := by
  have h1 := mapM_range_prefix h (m := j + 1) hj
  have h0 := mapM_range_prefix h (m := j) hj.le
  rw [mapM_range_succ, h0] at h1
  simp only at h1
  rcases hv : g j with x | v
  · rw [hv] at h1; cases h1
  · rw [hv] at h1
    refine ⟨v, rfl, ?_⟩
    have e := Except.ok.inj h1
    have hl := mapM_range_length h
    have hl0 : (l.take j).length = j := by rw [List.length_take]; omega
    have : (l.take (j + 1))[j]? = some v := by
      rw [← e, List.getElem?_append_right (by omega), hl0, Nat.sub_self]
      rfl
    rwa [List.getElem?_take, if_pos (by omega)] at this

/-- The model reads a prediction as the specification does. -/
theorem scalarPred_ivValue (predict : PredArg → List Cell) (x : LagInput) :
    scalarPred predict x = ivValue predict x := by
  unfold scalarPred ivValue
  simp only
  rcases predict x.shown with _ | ⟨v, _ | ⟨w, vs⟩⟩
  · rfl
  · rfl
  · rw [List.getLast?_cons_cons, List.getLast?_eq_some_getLast (by simp)]
    simp only [List.length_cons]
    by_cases h : vs.length + 2 = x.dates.length
    · rw [if_neg (by omega), if_pos h]
    · rw [if_pos ⟨by omega, by omega⟩, if_neg h]

/-- The loop over the bars not predicted yet. -/
theorem fillInterval_spec {pjunk : Nat → Cell} {predict : PredArg → List Cell} {x : LagInput} {w : Nat} :
    ∀ (n : Nat) {p : PerBar} {l : List Cell}, p.Holds l → ivBarByBar predict x w l.length = .ok l →
      (∃ l', (fillInterval pjunk predict x w n p).2.Holds l' ∧
        ivBarByBar predict x w l'.length = .ok l' ∧
        ((fillInterval pjunk predict x w n p).1 = none → l'.length = l.length + n)) ∧
      (∀ r, (fillInterval pjunk predict x w n p).1 = some r →
        ivBarByBar predict x w (l.length + n) = .error r) := by
  intro n
  induction n with
  | zero =>
    intro p l h hb
    exact ⟨⟨l, h, hb, fun _ => rfl⟩, fun x hx => (nomatch hx)⟩
  | succ n ih =>
    intro p l h hb
    have hlen : p.filled = l.length := h.1
    have step : ∀ v, (if l.length < w then (.ok none : Except IvErr Cell)
        else ivValue predict (x.sliceRange w (some (l.length + 1)))) = .ok v →
        ivBarByBar predict x w (l ++ [v]).length = .ok (l ++ [v]) := by
      intro v hv
      unfold ivBarByBar at hb ⊢
      rw [List.length_append, List.length_singleton, mapM_range_succ, hb]
      simp only
      rw [hv]
    unfold fillInterval
    by_cases hw : p.filled < w
    · rw [if_pos hw]
      have hb' := step none (by rw [if_pos (by omega)])
      obtain ⟨⟨l', h1, h2, h3⟩, h4⟩ := ih (perBar_append (junk := pjunk) h none) hb'
      rw [List.length_append, List.length_singleton] at h3 h4
      exact ⟨⟨l', h1, h2, fun e => by rw [h3 e]; omega⟩,
        fun r hr => by rw [← h4 r hr]; congr 1; omega⟩
    · rw [if_neg hw]
      rw [scalarPred_ivValue]
      rcases hv : ivValue predict (x.sliceRange w (some (p.filled + 1))) with e | v
      · refine ⟨⟨l, h, hb, fun h => (nomatch h)⟩, ?_⟩
        intro r hr
        simp only [Option.some.injEq] at hr
        subst hr
        have : ivBarByBar predict x w (l.length + 1) = .error e := by
          unfold ivBarByBar at hb ⊢
          rw [mapM_range_succ, hb]
          simp only
          rw [if_neg (by omega), ← hlen, hv]
        have := mapM_range_error this n
        unfold ivBarByBar
        rw [show l.length + (n + 1) = l.length + 1 + n by omega]
        exact this
      · simp only
        have hb' := step v (by rw [if_neg (by omega), ← hlen]; exact hv)
        obtain ⟨⟨l', h1, h2, h3⟩, h4⟩ := ih (perBar_append (junk := pjunk) h v) hb'
        rw [List.length_append, List.length_singleton] at h3 h4
        exact ⟨⟨l', h1, h2, fun e => by rw [h3 e]; omega⟩,
          fun r hr => by rw [← h4 r hr]; congr 1; omega⟩

theorem completedIndex_range {s : IvScope} (h : IvBacktest s) {sym : Sym} {iv : Iv} {d : IvSymData}
    (hd : s.compressed sym iv = some d) (e : Int) :
    -1 ≤ d.data.completedIndex e ∧ d.data.completedIndex e < d.data.bars.length := by
  unfold Compressed.completedIndex
  split
  · omega
  · rename_i hc
    rw [not_or] at hc
    simp only
    rw [List.getD_eq_getElem?_getD]
    rcases hg : d.data.completed[((if e > d.data.completed.length then
      (d.data.completed.length : Int) else e) - 1).toNat]? with _ | i
    · simp only [Option.getD_none]
      omega
    · exact h.range sym iv d hd i (List.mem_of_getElem? hg)

theorem visible_length {s : IvScope} (h : IvBacktest s) {sym : Sym} {iv : Iv} {d : IvSymData}
    (hd : s.compressed sym iv = some d) (e : Int) :
    (d.data.visible e).length = (d.data.completedIndex e + 1).toNat ∧
      d.data.visible e = d.data.bars.take (d.data.visible e).length := by
  have := completedIndex_range h hd e
  have hl : (d.data.visible e).length = (d.data.completedIndex e + 1).toNat := by
    unfold Compressed.visible
    simp only
    split
    · simp only [List.length_nil]; omega
    · rw [List.length_take]; omega
  refine ⟨hl, ?_⟩
  rw [hl]
  unfold Compressed.visible
  simp only
  split
  · rename_i hlt
    rw [show (d.data.completedIndex e + 1).toNat = 0 by omega]
    rfl
  · rfl

/-- A read of predictions, whatever was read before. -/
theorem fetchPreds_spec {s0 s : IvScope} (h : IvBacktest s0) (hi : IvInv s0 s) (junk : LagMat)
    (pjunk : Nat → Cell) (sym : Sym) (iv : Iv) (base : String) (e : Int) :
    (s.fetchPreds junk pjunk sym iv base e).1 = ivPreds s0 sym iv base e ∧
      IvInv s0 (s.fetchPreds junk pjunk sym iv base e).2 := by
  unfold IvScope.fetchPreds
  have hspec : ivPreds s0 sym iv base e = ivPreds s0 sym iv base e := rfl
  conv at hspec => rhs; unfold ivPreds
  rcases hnv : normalizeIv iv with _ | iv'
  · rw [hnv] at hspec
    rw [hspec]
    exact ⟨rfl, hi⟩
  rw [hnv] at hspec
  have hn := normalize_idempotent hnv
  clear hnv
  simp only at hspec ⊢
  rw [hi.models]
  rcases htm : s0.models (boundName base iv') sym with _ | tm
  · rw [htm] at hspec
    rw [hspec]
    exact ⟨rfl, hi⟩
  rw [htm] at hspec
  simp only at hspec ⊢
  by_cases hpb : tm.perBar = true
  · -- one bar at a time
    rw [if_pos hpb]
    simp only [if_pos hpb] at hspec
    unfold IvScope.fetchPerBar
    simp only
    -- the buffer
    have hbuf : ∃ l, ((cacheGet s.perBar (boundName base iv', sym)).getD {}).Holds l ∧
        (l = [] ∨ ∃ tm x, s0.models (boundName base iv') sym = some tm ∧
          ivInput s0 sym iv' base = .ok x ∧ ivBarByBar tm.predict x x.warmupLen l.length = .ok l) := by
      rcases hp : cacheGet s.perBar (boundName base iv', sym) with _ | p
      · exact ⟨[], ⟨rfl, Nat.zero_le _, rfl⟩, .inl rfl⟩
      · exact hi.perBar base iv' sym p hn hp
    generalize hp : (cacheGet s.perBar (boundName base iv', sym)).getD {} = p at hbuf
    have hput : ∀ (s' : IvScope) (p : PerBar), IvInv s0 s' → (∃ l, p.Holds l ∧ (l = [] ∨
        ∃ tm x, s0.models (boundName base iv') sym = some tm ∧
          ivInput s0 sym iv' base = .ok x ∧ ivBarByBar tm.predict x x.warmupLen l.length = .ok l)) →
        IvInv s0 { s' with perBar := ((boundName base iv', sym), p) :: s'.perBar } := by
      intro s' p hi' hq
      refine { hi' with perBar := ?_ }
      intro base2 iv2 sym2 q hn2 hq2
      simp only [cacheGet] at hq2
      split at hq2
      · rename_i e
        rw [Prod.mk.injEq] at e
        obtain ⟨e1, rfl⟩ := e
        obtain ⟨rfl, rfl⟩ := boundName_inj hn hn2 e1
        cases hq2
        exact hq
      · exact hi'.perBar base2 iv2 sym2 q hn2 hq2
    have hi1 := hput s p hi hbuf
    obtain ⟨l, hl, hlv⟩ := hbuf
    unfold IvScope.completedIndex
    simp only
    rw [hi.compressed]
    rcases hd : s0.compressed sym iv' with _ | d
    · rw [hd] at hspec
      rw [hspec]
      simp only
      rw [← hi.compressed]
      exact ⟨trivial, hi1⟩
    rw [hd] at hspec
    simp only at hspec ⊢
    obtain ⟨hvl, _⟩ := visible_length h hd e
    have hrg := completedIndex_range h hd e
    generalize hidx : d.data.completedIndex e = idx at hvl hrg ⊢
    rw [hvl] at hspec
    rw [← hi.compressed]
    by_cases h0 : idx + 1 ≤ 0
    · rw [if_pos (by omega)] at hspec
      rw [if_pos h0, hspec]
      exact ⟨rfl, hi1⟩
    rw [if_neg (by omega)] at hspec
    rw [if_neg h0]
    by_cases hf : (p.filled : Int) ≥ idx + 1
    · rw [if_pos hf]
      refine ⟨?_, hi1⟩
      simp only
      rw [perBar_values hl]
      have hlen : p.filled = l.length := hl.1
      rcases hlv with hlv | ⟨tm', x, h1, h2, h3⟩
      · rw [hlv] at hlen
        simp only [List.length_nil] at hlen
        omega
      · rw [htm] at h1
        cases h1
        rw [h2] at hspec
        rw [hspec]
        simp only
        unfold ivBarByBar at h3 ⊢
        rw [mapM_range_prefix h3 (by omega)]
    · rw [if_neg hf]
      obtain ⟨q1, q2, q3⟩ := prepare_spec h hi1 junk sym hn base
      rcases hpr : IvScope.prepare junk
        { s with perBar := ((boundName base iv', sym), p) :: s.perBar } sym iv' base with ⟨res, s'⟩
      rw [hpr] at q1 q2 q3
      simp only at q1 q2 q3
      rw [← q1] at hspec
      rcases res with r | x
      · simp only at hspec ⊢
        exact ⟨hspec.symm, q2⟩
      simp only at hspec ⊢
      rw [q3 x rfl, Option.getD_some]
      have hb0 : ivBarByBar tm.predict x x.warmupLen l.length = .ok l := by
        rcases hlv with hlv | ⟨tm', x', h1, h2, h3⟩
        · rw [hlv]; rfl
        · rw [htm] at h1
          rw [h2] at q1
          cases h1
          cases q1
          exact h3
      obtain ⟨⟨l', f1, f2, f3⟩, f4⟩ := fillInterval_spec (pjunk := pjunk) (idx + 1 - p.filled).toNat hl hb0
      have hlen : p.filled = l.length := hl.1
      have hcount : l.length + (idx + 1 - p.filled).toNat = (idx + 1).toNat := by omega
      rcases hfi : fillInterval pjunk tm.predict x x.warmupLen (idx + 1 - p.filled).toNat p with ⟨r, p'⟩
      rw [hfi] at f1 f3 f4
      simp only at f1 f3 f4
      have hi2 := hput s' p' q2 ⟨l', f1, .inr ⟨tm, x, htm, q1.symm, f2⟩⟩
      rcases r with _ | r
      · simp only
        refine ⟨?_, hi2⟩
        rw [hspec, perBar_values f1, List.take_of_length_le (by rw [f3 rfl]; omega), ← hcount, ← f3 rfl, f2]
      · simp only
        refine ⟨?_, hi2⟩
        rw [hspec, ← hcount]
        exact (f4 r rfl).symm
  · -- the whole window
    rw [if_neg hpb]
    simp only [if_neg hpb] at hspec
    unfold IvScope.completedIndex
    rw [hi.compressed]
    rcases hd : s0.compressed sym iv' with _ | d
    · rw [hd] at hspec
      rw [hspec]
      exact ⟨rfl, hi⟩
    rw [hd] at hspec
    simp only at hspec ⊢
    obtain ⟨hvl, _⟩ := visible_length h hd e
    have hrg := completedIndex_range h hd e
    generalize hidx : d.data.completedIndex e = idx at hvl hrg ⊢
    rw [hvl] at hspec
    by_cases h0 : idx < 0
    · rw [if_pos (by omega)] at hspec
      rw [if_pos h0, hspec]
      exact ⟨rfl, hi⟩
    rw [if_neg (by omega)] at hspec
    rw [if_neg h0]
    rcases hc : cacheGet s.preds (boundName base iv', sym) with _ | pred
    swap
    · simp only
      obtain ⟨tm', x, h1, h2, h3⟩ := hi.preds base iv' sym pred hn hc
      rw [htm] at h1
      cases h1
      rw [h2] at hspec
      simp only at hspec
      rw [h3] at hspec
      rw [hspec]
      exact ⟨rfl, hi⟩
    simp only
    obtain ⟨q1, q2, q3⟩ := prepare_spec h hi junk sym hn base
    rcases hpr : s.prepare junk sym iv' base with ⟨res, s'⟩
    rw [hpr] at q1 q2 q3
    simp only at q1 q2 q3
    rw [← q1] at hspec
    rcases res with r | x
    · simp only at hspec ⊢
      exact ⟨hspec.symm, q2⟩
    simp only at hspec ⊢
    rw [q3 x rfl, Option.getD_some]
    rcases hw : windowPreds tm.predict x x.warmupLen with r | pred
    · rw [hw] at hspec
      rw [hspec]
      exact ⟨rfl, q2⟩
    · rw [hw] at hspec
      rw [hspec]
      refine ⟨rfl, { q2 with preds := ?_ }⟩
      intro base2 iv2 sym2 p hn2 hp2
      simp only [cacheGet] at hp2
      split at hp2
      · rename_i e
        rw [Prod.mk.injEq] at e
        obtain ⟨e1, rfl⟩ := e
        obtain ⟨rfl, rfl⟩ := boundName_inj hn hn2 e1
        cases hp2
        exact ⟨tm, x, htm, q1.symm, hw⟩
      · exact q2.preds base2 iv2 sym2 p hn2 hp2

/-- A read of a model's input, whatever was read before. -/
theorem fetchInput_spec {s0 s : IvScope} (h : IvBacktest s0) (hi : IvInv s0 s) (junk : LagMat)
    (sym : Sym) (iv : Iv) (base : String) (e : Int) :
    (s.fetchInput junk sym iv base e).1 =
      (match normalizeIv iv with
        | none => .error .badInterval
        | some iv =>
          match s0.compressed sym iv with
          | none => .error .noData
          | some d => (ivInput s0 sym iv base).map
              (fun x => x.slice (some ((d.data.visible e).length : Int)))) ∧
      IvInv s0 (s.fetchInput junk sym iv base e).2 := by
  unfold IvScope.fetchInput
  rcases hnv : normalizeIv iv with _ | iv'
  · exact ⟨rfl, hi⟩
  have hn := normalize_idempotent hnv
  clear hnv
  simp only
  unfold IvScope.completedIndex
  rw [hi.compressed]
  rcases hd : s0.compressed sym iv' with _ | d
  · exact ⟨rfl, hi⟩
  simp only
  obtain ⟨q1, q2, _⟩ := prepare_spec h hi junk sym hn base
  rcases hpr : s.prepare junk sym iv' base with ⟨res, s'⟩
  rw [hpr] at q1 q2
  simp only at q1 q2
  rw [← q1]
  rcases res with r | x
  · exact ⟨rfl, q2⟩
  · refine ⟨?_, q2⟩
    obtain ⟨hvl, _⟩ := visible_length h hd e
    have hrg := completedIndex_range h hd e
    simp only [Except.map]
    rw [hvl]
    split
    · rw [show (d.data.completedIndex e + 1).toNat = 0 by omega]
      rfl
    · rw [Int.toNat_of_nonneg (by omega)]

/-- A read of an indicator, whatever was read before. -/
theorem fetchIndicator_spec {s0 s : IvScope} (h : IvBacktest s0) (hi : IvInv s0 s)
    (sym : Sym) (iv : Iv) (base : String) (e : Int) :
    (s.fetchIndicator sym iv base e).1 =
      (match normalizeIv iv with
        | none => .error .badInterval
        | some iv =>
          match s0.ind.data (boundName base iv) sym, s0.compressed sym iv with
          | none, _ => .error (.read .indicatorNotFound)
          | some _, none => .error .noData
          | some ser, some d => .ok ((ser.map Prod.snd).take (d.data.visible e).length)) ∧
      IvInv s0 (s.fetchIndicator sym iv base e).2 := by
  unfold IvScope.fetchIndicator
  rcases hnv : normalizeIv iv with _ | iv'
  · exact ⟨rfl, hi⟩
  have hn := normalize_idempotent hnv
  clear hnv
  simp only
  obtain ⟨f1, f2, f3, f4, f5⟩ := bound_fetch hi.coherent hi.data hi.bound hi.mask sym
    (boundName_bound h hn base)
  rcases hf : s.ind.fetch sym (boundName base iv') none with ⟨res, ind'⟩
  rw [hf] at f1 f2 f3 f4 f5
  simp only at f1 f2 f3 f4 f5
  have hi' : IvInv s0 { s with ind := ind' } :=
    { hi with data := f3, bound := f4, mask := f5, coherent := f2 }
  rw [f1]
  rcases hs : s0.ind.data (boundName base iv') sym with _ | ser
  · exact ⟨rfl, hi'⟩
  simp only
  unfold IvScope.completedIndex
  rw [hi.compressed]
  rcases hd : s0.compressed sym iv' with _ | d
  · refine ⟨rfl, ?_⟩
    rw [← hi.compressed]
    exact hi'
  · simp only
    rw [← hi.compressed]
    refine ⟨?_, hi'⟩
    obtain ⟨hvl, _⟩ := visible_length h hd e
    have hrg := completedIndex_range h hd e
    rw [hvl]
    split
    · rw [show (d.data.completedIndex e + 1).toNat = 0 by omega]
      rfl
    · rfl

theorem ivReads_inv {s0 : IvScope} (h : IvBacktest s0) : ∀ (reads : List IvRead) (s : IvScope),
    IvInv s0 s → IvInv s0 (s.run reads) := by
  intro reads
  induction reads with
  | nil => intro s hi; exact hi
  | cons r reads ih =>
    intro s hi
    refine ih _ ?_
    unfold IvScope.after
    split
    · exact (fetchIndicator_spec h hi r.symbol r.interval r.name r.stop).2
    · exact (fetchInput_spec h hi r.junk r.symbol r.interval r.name r.stop).2
    · exact (fetchPreds_spec h hi r.junk r.pjunk r.symbol r.interval r.name r.stop).2


/-! ## The visible bars -/

theorem lagged_take {v : List Cell} {n j : Nat} (hj : j < n) (k : Nat) :
    lagged (v.take n) j k = lagged v j k := by
  unfold lagged
  split
  · rw [List.getElem?_take, if_pos (by omega)]
  · rfl

theorem column_take (d : IvSymData) (n : Nat) (c : String) :
    (IvSymData.column { d with data := { d.data with bars := d.data.bars.take n } } c).getD [] =
      ((d.column c).getD []).take n := by
  unfold IvSymData.column
  simp only
  split_ifs <;> simp [List.map_take]

theorem seenCol_eq {s : IvScope} (h : IvBacktest s) {sym : Sym} {iv : Iv} {d : IvSymData}
    (hd : s.compressed sym iv = some d) (e : Int) (c : String) :
    seenCol s d sym iv e c = (ivCol s d sym iv c).take (d.data.visible e).length := by
  obtain ⟨_, hv⟩ := visible_length h hd e
  unfold seenCol ivCol
  simp only
  split
  · conv_lhs => rw [hv]
    rw [List.map_take]
  · rcases s.ind.data (boundName c iv) sym with _ | ser
    · simp only
      conv_lhs => rw [hv]
      rw [column_take]
    · simp only
      rw [List.map_take]

theorem visible_all {s : IvScope} (h : IvBacktest s) {sym : Sym} {iv : Iv} {d : IvSymData}
    (hd : s.compressed sym iv = some d) :
    (d.data.visible (d.data.completed.length : Int)).length = d.data.windowLen ∧
    ∀ e, (d.data.visible e).length ≤ d.data.windowLen := by
  have hrg := fun e => completedIndex_range h hd e
  have hmono := h.monotone sym iv d hd
  have hall : (d.data.visible (d.data.completed.length : Int)).length = d.data.windowLen := by
    rw [(visible_length h hd _).1]
    have := hrg (d.data.completed.length : Int)
    revert this
    unfold Compressed.windowLen Compressed.completedIndex
    by_cases h0 : d.data.completed.length = 0
    · simp [h0]
    · rw [if_neg (by omega), if_neg (by omega), if_neg h0]
      simp only
      have e1 : ((d.data.completed.length : Int) - 1).toNat = d.data.completed.length - 1 := by omega
      have e2 : d.data.completed.getD (d.data.completed.length - 1) (-1) =
          d.data.completed.getLastD (-1) := by
        rw [List.getD_eq_getElem?_getD, ← List.getLast?_eq_getElem?, List.getLastD_eq_getLast?]
      rw [e1, e2]
      intro hr
      split <;> omega
  refine ⟨hall, ?_⟩
  intro e
  rw [← hall, (visible_length h hd e).1, (visible_length h hd _).1]
  have : d.data.completedIndex e ≤ d.data.completedIndex (d.data.completed.length : Int) := by
    have hr := hrg (d.data.completed.length : Int)
    unfold Compressed.completedIndex at hr ⊢
    by_cases h0 : e ≤ 0 ∨ d.data.completed.length = 0
    · rw [if_pos h0]
      exact hr.1
    · have h1 : ¬ ((d.data.completed.length : Int) ≤ 0 ∨ d.data.completed.length = 0) := by omega
      rw [if_neg h0, if_neg h1]
      simp only [gt_iff_lt, lt_irrefl, if_false]
      have hlt : ((if (d.data.completed.length : Int) < e then (d.data.completed.length : Int) else e)
          - 1).toNat ≤ d.data.completed.length - 1 := by
        split <;> omega
      generalize ((if (d.data.completed.length : Int) < e then (d.data.completed.length : Int) else e)
          - 1).toNat = a at hlt
      have e1 : ((d.data.completed.length : Int) - 1).toNat = d.data.completed.length - 1 := by omega
      rw [e1, List.getD_eq_getElem?_getD, List.getD_eq_getElem?_getD,
        List.getElem?_eq_getElem (by omega), List.getElem?_eq_getElem (by omega)]
      simp only [Option.getD_some]
      rcases Nat.lt_or_ge a (d.data.completed.length - 1) with hl | hl
      · exact (List.pairwise_iff_getElem.1 hmono) _ _ _ _ hl
      · have : a = d.data.completed.length - 1 := by omega
        subst this
        exact le_refl _
  omega

theorem seenInput_slice {s : IvScope} (h : IvBacktest s) {sym : Sym} {iv : Iv} {d : IvSymData}
    (hd : s.compressed sym iv = some d) {e e' : Int} (ic lc : List String) (lags : Option Nat)
    (hle : (d.data.visible e).length ≤ (d.data.visible e').length) :
    (seenInput s d sym iv e' ic lc lags).slice (some ((d.data.visible e).length : Int)) =
      seenInput s d sym iv e ic lc lags := by
  have hcut : ∀ {α : Type} (l : List α), sliceTo l (some ((d.data.visible e).length : Int)) =
      l.take (d.data.visible e).length := by
    intro α l
    unfold sliceTo
    simp only
    rw [if_neg (by omega), Int.toNat_natCast]
  have hcol : ∀ c, (seenCol s d sym iv e' c).take (d.data.visible e).length = seenCol s d sym iv e c := by
    intro c
    rw [seenCol_eq h hd, seenCol_eq h hd, List.take_take, min_eq_left hle]
  obtain ⟨_, hv⟩ := visible_length h hd e
  obtain ⟨_, hv'⟩ := visible_length h hd e'
  simp only [seenInput, LagInput.slice, LagInput.mk.injEq, Option.map_none, true_and]
  refine ⟨?_, ?_, ?_⟩
  · rw [hcut, ← List.map_take]
    congr 1
    rw [hv', List.take_take, min_eq_left hle, ← hv]
  · rw [List.map_map]
    apply List.map_congr_left
    intro c _
    simp only [Function.comp_apply, hcut, hcol]
  · rcases lags with _ | n
    · rfl
    · simp only [Option.map_some, hcut, Option.some.injEq]
      rw [← List.map_take, List.take_range, min_eq_left hle]
      apply List.map_congr_left
      intro j hj
      rw [List.mem_range] at hj
      apply List.flatMap_congr
      intro c _
      apply List.map_congr_left
      intro k _
      rw [← hcol c, lagged_take hj]

theorem finish_cols {src : InSource} {tm : InModel} {ic names : List String} {g : String → List Cell}
    {dates : List Date} (hfn : src.inputFn = none) (hicne : ic ≠ []) (hnd : ic.Nodup)
    (hcols : tm.inputCols = some ic ∨ tm.inputCols = none ∧ ic = src.indicators)
    (hin : ∀ c ∈ ic, c ∈ names) (hlen : ∀ c ∈ ic, (g c).length = dates.length) (hne : dates ≠ [])
    (f : Option (List (List Cell))) :
    finishInput src tm {
      dates := dates
      symbols := none
      columns := names.map (fun c => (c, g c))
      features := f } =
    .ok { dates := dates, symbols := none, columns := ic.map (fun c => (c, g c)), features := f } := by
  have hkeys : (names.map (fun c => (c, g c))).map Prod.fst = names := by
    rw [List.map_map]
    exact (List.map_congr_left (fun _ _ => rfl)).trans (List.map_id names)
  have hpos := List.length_pos_of_ne_nil hne
  have hnil : ∀ c ∈ ic, g c ≠ [] := by
    intro c hc e
    have := hlen c hc
    rw [e, List.length_nil] at this
    omega
  obtain ⟨c0, hc0⟩ := List.exists_mem_of_ne_nil _ hicne
  unfold finishInput
  rcases hcols with hc | ⟨hc, hi⟩
  · rw [hc]
    simp only
    rw [hkeys, if_pos (by simpa using hin), if_neg (by simp [hicne, hfn]), eraseDups_nodup hnd,
      filterMap_get _ hin]
  · rw [hc]
    simp only
    unfold LagInput.prepared InSource.prepare
    simp only
    rw [if_neg, hfn]
    · simp only
      rw [hkeys, ← hi, if_pos (by simpa using hin), filterMap_get _ hin]
      simp only
      rw [if_neg, if_neg]
      · simp only [List.all_eq_true, List.mem_map, decide_eq_true_eq, forall_exists_index, and_imp,
          forall_apply_eq_imp_iff₂, not_forall]
        exact ⟨c0, hc0, hnil c0 hc0⟩
      · simp only [List.any_eq_true, List.mem_map, decide_eq_true_eq, not_exists, not_and,
          forall_exists_index, and_imp, forall_apply_eq_imp_iff₂, not_not]
        exact hlen
    · simp only [List.all_eq_true, List.mem_map, decide_eq_true_eq, forall_exists_index, and_imp,
        forall_apply_eq_imp_iff₂, not_forall]
      exact ⟨c0, hin c0 hc0, hnil c0 hc0⟩

/-- The input of a model over the whole window. -/
theorem interval_input_window {s : IvScope} (h : IvBacktest s) {sym : Sym} {iv : Iv}
    (hn : normalizeIv iv = some iv) {base : String} {d : IvSymData} {src : InSource} {tm : IvModel}
    {ic lc : List String} (hu : IvUse s sym iv base d src tm ic lc) (hw : d.data.windowLen ≠ 0) :
    ivInput s sym iv base =
      .ok (seenInput s d sym iv (d.data.completed.length : Int) ic lc src.lags) := by
  obtain ⟨hd, hsrc, htm, hind, ⟨hfn, hicne, hnd, hcols⟩, hav, hlc⟩ := hu
  obtain ⟨hall, -⟩ := visible_all h hd
  obtain ⟨_, hv⟩ := visible_length h hd (d.data.completed.length : Int)
  rw [hall] at hv
  have hsc := fun c => seenCol_eq h hd (d.data.completed.length : Int) c
  rw [hall] at hsc
  have hcap := windowLen_le d.data
  have hdl : ((d.data.bars.take d.data.windowLen).map IBar.date).length = d.data.windowLen := by
    rw [List.length_map, List.length_take]
    omega
  have hlen : ∀ c ∈ ic, ((ivCol s d sym iv c).take d.data.windowLen).length =
      ((d.data.bars.take d.data.windowLen).map IBar.date).length := by
    intro c hc
    have hl : (ivCol s d sym iv c).length = d.data.bars.length := by
      by_cases hdt : c = "date"
      · simp [ivCol, hdt]
      · exact (ivCol_length h hn hd hind (hav c hc) hdt).1
    rw [hdl, List.length_take, hl]
    omega
  have hne : (d.data.bars.take d.data.windowLen).map IBar.date ≠ [] := by
    intro e
    rw [e] at hdl
    exact hw hdl.symm
  have hfin := fun f => finish_cols (tm := tm.info) (names := ivNames d s.registered src.indicators)
    hfn hicne hnd hcols hav hlen hne f
  unfold ivInput
  rw [hsrc, hd]
  simp only
  rw [if_neg (by
    rw [List.any_eq_true]
    rintro ⟨i, hi, hno⟩
    have := hind i hi
    rw [Option.isNone_iff_eq_none] at hno
    rw [hno] at this
    cases this), htm]
  simp only
  unfold seenInput
  rw [hv]
  have hxl : (d.data.bars.take d.data.windowLen).length = d.data.windowLen := by simpa using hdl
  rw [hxl]
  simp only [hsc]
  rcases hlag : src.lags with _ | n
  · have : resolveLagCols s.dataCols src tm.info (some (ivNames d s.registered src.indicators)) =
        .ok none := by
      unfold resolveLagCols
      rw [hlag]
    rw [this]
    simp only [attachLags, Option.map_none]
    rw [hfin none]
    rfl
  · obtain ⟨h1, h2, h3⟩ := hlc (by rw [hlag]; simp)
    have : resolveLagCols s.dataCols src tm.info (some (ivNames d s.registered src.indicators)) =
        .ok (some lc) := by
      unfold resolveLagCols
      rw [hlag]
      rcases h3 with h3 | ⟨h3, h4⟩
      · rw [h3]
      · rw [h3]
        simp only
        have : (lagFeatureCols (ivNames d s.registered src.indicators) s.dataCols src.indicators src.pooled
            []).getD [] = lc := by
          unfold lagFeatureCols inferCols
          rw [if_neg (by simp), h4]
          simp only [Option.getD_some]
          split
          · rename_i hp
            rw [List.filter_filter, List.filter_filter]
            apply List.filter_congr
            intro c _
            by_cases q1 : c ∈ s.dataCols <;> by_cases q2 : c = "symbol" <;> by_cases q3 : c = "date" <;>
              by_cases q4 : c ∈ src.indicators <;> simp [hp, q1, q2, q3, q4]
          · rename_i hp
            rw [List.filter_filter]
            apply List.filter_congr
            intro c _
            by_cases q1 : c ∈ s.dataCols <;> by_cases q3 : c = "date" <;>
              by_cases q4 : c ∈ src.indicators <;> simp [hp, q1, q3, q4]
        rw [this]
        unfold requireLagCols
        rw [if_neg h1]
    rw [this]
    simp only [attachLags]
    rw [if_pos (by simpa using h2)]
    simp only
    rw [hfin]
    simp only [Except.mapError, Option.map_some]
    congr 3
    apply List.map_congr_left
    intro j hj
    rw [List.mem_range] at hj
    unfold ivPast
    apply List.flatMap_congr
    intro c _
    apply List.map_congr_left
    intro k _
    rw [lagged_take hj]

/-! ## C107: what is read on a bar -/

/-- **C107.** Whatever was read before, of whatever symbols, intervals and end indexes, a read
of an indicator of an interval gives its values on the compressed bars visible at the end
index. -/
theorem interval_indicator_on_bar {s : IvScope} (h : IvBacktest s) (reads : List IvRead) {sym : Sym}
    {iv iv' : Iv} (hn : normalizeIv iv = some iv') {d : IvSymData}
    (hd : s.compressed sym iv' = some d) {base : String} {ser : Series}
    (hs : s.ind.data (boundName base iv') sym = some ser) (e : Int) :
    ((s.run reads).fetchIndicator sym iv base e).1 =
        .ok ((ser.take (d.data.visible e).length).map Prod.snd) ∧
      (ser.take (d.data.visible e).length).map Prod.fst = (d.data.visible e).map IBar.date := by
  rw [(fetchIndicator_spec h (ivReads_inv h reads s h.inv) sym iv base e).1, hn]
  simp only
  rw [hs, hd]
  refine ⟨by rw [List.map_take], ?_⟩
  rw [List.map_take, h.series sym iv' d base ser (normalize_idempotent hn) hd hs, ← List.map_take,
    ← (visible_length h hd e).2]

/-- **C107.** Whatever was read before, a model of an interval is given one row for each
compressed bar visible at the end index: its input columns on them and, with lags, the values
of the lagged columns on the row's bar and on the compressed bars before it. -/
theorem interval_input_on_bar {s : IvScope} (h : IvBacktest s) (reads : List IvRead) (junk : LagMat)
    {sym : Sym} {iv iv' : Iv} (hn : normalizeIv iv = some iv') {base : String} {d : IvSymData}
    {src : InSource} {tm : IvModel} {ic lc : List String} (hu : IvUse s sym iv' base d src tm ic lc)
    {e : Int} (he : d.data.visible e ≠ []) :
    ((s.run reads).fetchInput junk sym iv base e).1 =
      .ok (seenInput s d sym iv' e ic lc src.lags) := by
  rw [(fetchInput_spec h (ivReads_inv h reads s h.inv) junk sym iv base e).1, hn]
  simp only
  rw [hu.data]
  simp only
  obtain ⟨hall, hle⟩ := visible_all h hu.data
  have hpos := List.length_pos_of_ne_nil he
  rw [interval_input_window h (normalize_idempotent hn) hu (by have := hle e; omega)]
  simp only [Except.map]
  rw [seenInput_slice h hu.data ic lc src.lags (by rw [hall]; exact hle e)]


/-! ## C108: predictions -/

theorem mapM_range_congr {ε V : Type} {g g' : Nat → Except ε V} : ∀ {n : Nat}, (∀ j < n, g j = g' j) →
    (List.range n).mapM g = (List.range n).mapM g' := by
  intro n
  induction n with
  | zero => intro _; rfl
  | succ n ih =>
    intro h
    rw [mapM_range_succ, mapM_range_succ, ih (fun j hj => h j (by omega)), h n (by omega)]

theorem sliceTo_nat {α : Type} (l : List α) (n : Nat) : sliceTo l (some (n : Int)) = l.take n := by
  unfold sliceTo
  simp only
  rw [if_neg (by omega), Int.toNat_natCast]

theorem slice_nat (x : LagInput) (n : Nat) : x.slice (some (n : Int)) = {
    dates := x.dates.take n
    symbols := x.symbols.map (fun l => l.take n)
    columns := x.columns.map (fun p => (p.1, p.2.take n))
    features := x.features.map (fun f => f.take n) } := by
  simp only [LagInput.slice, sliceTo_nat]

theorem slice_slice (x : LagInput) {m n : Nat} (h : m ≤ n) :
    (x.slice (some (n : Int))).slice (some (m : Int)) = x.slice (some (m : Int)) := by
  rw [slice_nat, slice_nat, slice_nat]
  simp only [List.take_take, min_eq_left h, Option.map_map, List.map_map, LagInput.mk.injEq, true_and]
  refine ⟨?_, ?_, ?_⟩
  · congr 1
    funext l
    simp [List.take_take, min_eq_left h]
  · apply List.map_congr_left
    intro p _
    simp [List.take_take, min_eq_left h]
  · congr 1
    funext l
    simp [List.take_take, min_eq_left h]

theorem findIdx_take {α : Type} (p : α → Bool) : ∀ (l : List α) (n : Nat),
    (l.take n).findIdx p = min n (l.findIdx p) := by
  intro l
  induction l with
  | nil => intro n; simp
  | cons a l ih =>
    intro n
    rcases n with _ | n
    · simp
    · rw [List.take_succ_cons, List.findIdx_cons, List.findIdx_cons]
      rcases p a with _ | _
      · simp only [cond_false]
        rw [ih]
        omega
      · simp

theorem warmRows_slice (x : LagInput) (n : Nat) :
    warmRows (x.slice (some (n : Int))) = min n (warmRows x) := by
  unfold warmRows
  rw [slice_nat]
  simp only
  rcases x.features with _ | f
  · simp
  · simp only [Option.map_some]
    exact findIdx_take _ _ _

theorem idxOf_true {α : Type} (p : α → Bool) : ∀ l : List α, (l.map p).idxOf true = l.findIdx p := by
  intro l
  induction l with
  | nil => rfl
  | cons a l ih =>
    rw [List.map_cons, List.findIdx_cons, List.idxOf_cons, ih]
    rcases p a with _ | _ <;> rfl

theorem warmupLen_eq (x : LagInput) (hf : ∀ f, x.features = some f → f.length = x.dates.length) :
    x.warmupLen = warmRows x := by
  unfold LagInput.warmupLen warmRows
  rcases hx : x.features with _ | f
  · rfl
  · simp only
    split
    · rename_i h0
      have := hf f hx
      rw [h0] at this
      rw [List.length_eq_zero_iff.1 this]
      rfl
    · rename_i h0
      have hlen := hf f hx
      have hpos := List.length_pos_of_ne_nil h0
      rw [← hlen] at hpos
      unfold validRows
      split
      · rename_i hall
        rcases f with _ | ⟨r, f⟩
        · simp at hpos
        · simp only [List.map_cons, List.all_cons, Bool.and_eq_true] at hall
          rw [List.findIdx_cons, hall.1]
          rfl
      · split
        · rename_i hany
          simp only [List.any_map, Bool.not_eq_eq_eq_not, Bool.not_true, List.any_eq_false] at hany
          rw [List.length_map, List.findIdx_eq_length_of_false]
          intro r hr
          simpa using hany r hr
        · exact idxOf_true _ _

theorem sliceRange_rows (x : LagInput) (w n : Nat) :
    x.sliceRange w (some n) = rowsFrom (x.slice (some (n : Int))) w := by
  rw [slice_nat]
  unfold LagInput.sliceRange rowsFrom
  split
  · rename_i h
    subst h
    show x.slice (some (n : Int)) = _
    rw [slice_nat]
    rcases x with ⟨dts, sy, co, fe⟩
    rcases sy with _ | sy <;> rcases fe with _ | fe <;> simp
  · simp only [Option.map_map, List.map_map]
    rfl

/-- One bar of a per-bar model. -/
theorem bar_step (predict : PredArg → List Cell) (x : LagInput)
    (hf : ∀ f, x.features = some f → f.length = x.dates.length) {j : Nat} (hj : j < x.dates.length) :
    (if j < x.warmupLen then (.ok none : Except IvErr Cell)
      else ivValue predict (x.sliceRange x.warmupLen (some (j + 1)))) =
    barPrediction predict (x.slice (some (j + 1 : Nat))) := by
  rw [warmupLen_eq x hf]
  unfold barPrediction
  rw [warmRows_slice]
  have hl : (x.slice (some ((j + 1 : Nat) : Int))).dates.length = j + 1 := by
    rw [slice_nat, List.length_take]
    omega
  rw [hl]
  by_cases hw : j < warmRows x
  · rw [if_pos hw, if_pos (by omega)]
  · rw [if_neg hw, if_neg (by omega), min_eq_right (by omega), sliceRange_rows]
    rw [← scalarPred_ivValue]
    unfold scalarPred
    simp only
    have hd : (rowsFrom (x.slice (some ((j + 1 : Nat) : Int))) (warmRows x)).dates.length =
        j + 1 - warmRows x := by
      unfold rowsFrom
      rw [List.length_drop, hl]
    rw [hd]
    rcases (predict (rowsFrom (x.slice (some ((j + 1 : Nat) : Int))) (warmRows x)).shown).getLast? with _ | v
    · rfl
    · simp only
      by_cases h1 : (predict (rowsFrom (x.slice (some ((j + 1 : Nat) : Int))) (warmRows x)).shown).length = 1
      · rw [if_neg (fun h => h.1 h1), if_pos (.inl h1)]
      · by_cases h2 : (predict (rowsFrom (x.slice (some ((j + 1 : Nat) : Int))) (warmRows x)).shown).length =
          j + 1 - warmRows x
        · rw [if_neg (fun h => h.2 h2), if_pos (.inr h2)]
        · rw [if_pos ⟨h1, h2⟩, if_neg (by tauto)]

theorem seenInput_aligned {s : IvScope} (h : IvBacktest s) {sym : Sym} {iv : Iv}
    (hn : normalizeIv iv = some iv) {base : String} {d : IvSymData} {src : InSource} {tm : IvModel}
    {ic lc : List String} (hu : IvUse s sym iv base d src tm ic lc) (e : Int) :
    Aligned (seenInput s d sym iv e ic lc src.lags) := by
  refine ⟨(fun _ h => nomatch h), ?_, ?_⟩
  · intro p hp
    simp only [seenInput, List.mem_map] at hp ⊢
    obtain ⟨c, hc, rfl⟩ := hp
    simp only
    rw [seenCol_eq h hu.data, List.length_take, List.length_map]
    have hl : (ivCol s d sym iv c).length = d.data.bars.length := by
      by_cases hdt : c = "date"
      · simp [ivCol, hdt]
      · exact (ivCol_length h hn hu.data hu.indicators (hu.there c hc) hdt).1
    have := congrArg List.length (visible_length h hu.data e).2
    rw [List.length_take] at this
    omega
  · intro f hf
    simp only [seenInput] at hf ⊢
    rw [Option.map_eq_some_iff] at hf
    obtain ⟨n, _, rfl⟩ := hf
    simp

/-- **C108.** The predictions of a per-bar model of an interval, whatever was read before: one
per compressed bar visible at the end index.  That of a bar is made of the rows of the bars up
to it; it is NaN until the lag features of a row are all known. -/
theorem interval_preds_per_bar {s : IvScope} (h : IvBacktest s) (reads : List IvRead) (junk : LagMat)
    (pjunk : Nat → Cell) {sym : Sym} {iv iv' : Iv} (hn : normalizeIv iv = some iv') {base : String}
    {d : IvSymData} {src : InSource} {tm : IvModel} {ic lc : List String}
    (hu : IvUse s sym iv' base d src tm ic lc) (hp : tm.perBar = true) (e : Int) :
    ((s.run reads).fetchPreds junk pjunk sym iv base e).1 =
      (List.range (d.data.visible e).length).mapM (fun j =>
        barPrediction tm.predict ((seenInput s d sym iv' e ic lc src.lags).slice (some (j + 1 : Nat)))) := by
  have hn' := normalize_idempotent hn
  rw [(fetchPreds_spec h (ivReads_inv h reads s h.inv) junk pjunk sym iv base e).1]
  unfold ivPreds
  rw [hn]
  simp only
  rw [hu.model, hu.data]
  simp only
  by_cases h0 : (d.data.visible e).length = 0
  · rw [if_pos h0, h0]
    rfl
  rw [if_neg h0]
  obtain ⟨hall, hle⟩ := visible_all h hu.data
  have := hle e
  rw [interval_input_window h hn' hu (by omega)]
  simp only
  rw [if_pos hp]
  unfold ivBarByBar
  apply mapM_range_congr
  intro j hj
  have ha := seenInput_aligned h hn' hu (d.data.completed.length : Int)
  rw [bar_step tm.predict _ ha.features (by
      simp only [seenInput, List.length_map]
      omega), ← slice_slice _ (show j + 1 ≤ (d.data.visible e).length by omega),
    seenInput_slice h hu.data ic lc src.lags (by rw [hall]; exact hle e)]

theorem shown_count {x : LagInput} (hx : Aligned x) (hne : x.columns ≠ []) :
    x.shown.count = x.dates.length := by
  unfold LagInput.shown
  rcases hf : x.features with _ | f
  · simp only [PredArg.count]
    rcases hc : x.columns with _ | ⟨p, l⟩
    · exact absurd hc hne
    · simp only [List.head?_cons, Option.map_some, Option.getD_some]
      exact hx.columns p (by rw [hc]; simp)
  · exact hx.features f hf

theorem rowsFrom_row (x : LagInput) (w i : Nat) : (rowsFrom x w).shown.row i = x.shown.row (w + i) := by
  unfold rowsFrom LagInput.shown
  simp only
  rcases x.features with _ | f
  · simp only [Option.map_none, PredArg.row, List.map_map]
    congr 1
    apply List.map_congr_left
    intro p _
    simp only [Function.comp_apply, List.getElem?_drop]
  · simp only [Option.map_some, PredArg.row, List.getD_eq_getElem?_getD, List.getElem?_drop]

theorem slice_row (x : LagInput) {n j : Nat} (hj : j < n) :
    (x.slice (some (n : Int))).shown.row j = x.shown.row j := by
  rw [slice_nat]
  unfold LagInput.shown
  simp only
  rcases x.features with _ | f
  · simp only [Option.map_none, PredArg.row, List.map_map]
    congr 1
    apply List.map_congr_left
    intro p _
    simp only [Function.comp_apply, List.getElem?_take, if_pos hj]
  · simp only [Option.map_some, PredArg.row, List.getD_eq_getElem?_getD, List.getElem?_take, if_pos hj]

theorem rowsFrom_aligned {x : LagInput} (hx : Aligned x) (w : Nat) : Aligned (rowsFrom x w) := by
  refine ⟨?_, ?_, ?_⟩
  · intro l hl
    simp only [rowsFrom, Option.map_eq_some_iff] at hl ⊢
    obtain ⟨l', h1, rfl⟩ := hl
    rw [List.length_drop, List.length_drop, hx.symbols l' h1]
  · intro p hp
    simp only [rowsFrom, List.mem_map] at hp ⊢
    obtain ⟨p', h1, rfl⟩ := hp
    simp only
    rw [List.length_drop, List.length_drop, hx.columns p' h1]
  · intro l hl
    simp only [rowsFrom, Option.map_eq_some_iff] at hl ⊢
    obtain ⟨l', h1, rfl⟩ := hl
    rw [List.length_drop, List.length_drop, hx.features l' h1]

/-- The predictions of a window, row by row. -/
theorem windowPreds_rows {predict : PredArg → List Cell} {f : PredRow → Cell} (hr : Rowwise predict f)
    {x : LagInput} (hx : Aligned x) (hne : x.columns ≠ []) (hd : x.dates ≠ []) :
    windowPreds predict x x.warmupLen = .ok ((List.range x.dates.length).map (fun j =>
      if j < warmRows x then none else f (x.shown.row j))) := by
  rw [warmupLen_eq x hx.features]
  unfold windowPreds
  rw [if_neg (by simp [hd, hne])]
  by_cases h1 : warmRows x ≥ x.dates.length
  · rw [if_pos h1]
    congr 1
    apply List.ext_getElem?
    intro j
    rw [List.getElem?_replicate, List.getElem?_map]
    split
    · rename_i hj
      rw [List.getElem?_range hj, Option.map_some, if_pos (by omega)]
    · rename_i hj
      rw [List.getElem?_eq_none_iff.2 (by simpa using hj)]
      rfl
  rw [if_neg h1]
  by_cases h2 : warmRows x = 0
  · rw [if_neg (by simpa using h2)]
    simp only
    rw [hr, shown_count hx hne, List.length_map, List.length_range, if_neg (by simp)]
    congr 1
    apply List.map_congr_left
    intro j _
    rw [if_neg (by omega)]
  · rw [if_pos h2]
    have hs : x.sliceRange (warmRows x) none = rowsFrom x (warmRows x) := by
      unfold LagInput.sliceRange rowsFrom
      rw [if_neg h2]
    have hc : (rowsFrom x (warmRows x)).columns ≠ [] := by
      simpa [rowsFrom] using hne
    simp only
    rw [hs, hr, shown_count (rowsFrom_aligned hx _) hc, List.length_map, List.length_range]
    have hl : (rowsFrom x (warmRows x)).dates.length = x.dates.length - warmRows x := by
      simp [rowsFrom]
    rw [hl, if_neg (by simp)]
    congr 1
    apply List.ext_getElem?
    intro j
    rw [List.getElem?_map]
    rcases Nat.lt_or_ge j x.dates.length with hj | hj
    · rw [List.getElem?_range hj, Option.map_some]
      by_cases hw : j < warmRows x
      · rw [if_pos hw, List.getElem?_append_left (by simpa using hw), List.getElem?_replicate, if_pos hw]
      · rw [if_neg hw, List.getElem?_append_right (by simp; omega), List.length_replicate,
          List.getElem?_map, List.getElem?_range (by omega), Option.map_some, rowsFrom_row]
        congr 3
        omega
    · rw [List.getElem?_eq_none_iff.2 (show (List.range x.dates.length).length ≤ j by simpa using hj),
        Option.map_none, List.getElem?_eq_none_iff]
      simp
      omega

/-- **C108.** The predictions of a model of an interval that predicts row by row, whatever was
read before: one per compressed bar visible at the end index, the prediction of the bar's row,
and NaN before the first row whose lag features are all known. -/
theorem interval_preds_rows {s : IvScope} (h : IvBacktest s) (reads : List IvRead) (junk : LagMat)
    (pjunk : Nat → Cell) {sym : Sym} {iv iv' : Iv} (hn : normalizeIv iv = some iv') {base : String}
    {d : IvSymData} {src : InSource} {tm : IvModel} {ic lc : List String}
    (hu : IvUse s sym iv' base d src tm ic lc) (hp : tm.perBar = false) {f : PredRow → Cell}
    (hr : Rowwise tm.predict f) (e : Int) :
    ((s.run reads).fetchPreds junk pjunk sym iv base e).1 =
      .ok ((List.range (d.data.visible e).length).map (fun j =>
        if j < warmRows (seenInput s d sym iv' e ic lc src.lags) then none
        else f ((seenInput s d sym iv' e ic lc src.lags).shown.row j))) := by
  have hn' := normalize_idempotent hn
  rw [(fetchPreds_spec h (ivReads_inv h reads s h.inv) junk pjunk sym iv base e).1]
  unfold ivPreds
  rw [hn]
  simp only
  rw [hu.model, hu.data]
  simp only
  by_cases h0 : (d.data.visible e).length = 0
  · rw [if_pos h0, h0]
    rfl
  rw [if_neg h0]
  obtain ⟨hall, hle⟩ := visible_all h hu.data
  have hlev := hle e
  rw [interval_input_window h hn' hu (by omega)]
  simp only
  rw [if_neg (by simp [hp])]
  have ha := seenInput_aligned h hn' hu (d.data.completed.length : Int)
  have hdl : (seenInput s d sym iv' (d.data.completed.length : Int) ic lc src.lags).dates.length =
      d.data.windowLen := by
    simp only [seenInput, List.length_map]
    exact hall
  rw [windowPreds_rows hr ha (by simpa [seenInput] using hu.columns.2.1) (by
    intro e
    rw [e] at hdl
    simp only [List.length_nil] at hdl
    omega)]
  simp only [Except.map]
  congr 1
  rw [hdl, ← List.map_take, List.take_range, min_eq_left hlev]
  apply List.map_congr_left
  intro j hj
  rw [List.mem_range] at hj
  have hsl : (seenInput s d sym iv' (d.data.completed.length : Int) ic lc src.lags).slice
      (some ((d.data.visible e).length : Int)) = seenInput s d sym iv' e ic lc src.lags :=
    seenInput_slice h hu.data ic lc src.lags (by rw [hall]; exact hle e)
  rw [← hsl, warmRows_slice, slice_row _ hj]
  by_cases hw : j < warmRows (seenInput s d sym iv' (d.data.completed.length : Int) ic lc src.lags)
  · rw [if_pos hw, if_pos (by omega)]
  · rw [if_neg hw, if_neg (by omega)]


/-! ## C109: no later bar has a part in them -/

namespace Spec

/-- A symbol's data on an interval, of compressed bars `out` cut to a test window, and the
indicators, each computed from the compressed bars by a function `fns` has for its name. -/
structure IvMade (s : IvScope) (sym : Sym) (iv : Iv) (d : IvSymData) (out : List IBar × List Int)
    (baseDates testDates : List Date) (fns : String → Option (List IBar → List Cell)) : Prop where
  slice : Compressed.sliceForTest { bars := out.1, completed := out.2, baseDates := baseDates }
    testDates = .ok d.data
  indicators : ∀ c, s.ind.data (boundName c iv) sym =
    (fns c).map (fun f => (out.1.map IBar.date).zip (f out.1))

/-- Indicator functions whose values on some bars do not depend on the bars after them. -/
def CausalFns (fns : String → Option (List IBar → List Cell)) : Prop :=
  ∀ c f, fns c = some f → ∀ bars n, (f bars).length = bars.length ∧ f (bars.take n) = (f bars).take n

end Spec

theorem sliced_bars {c c' : Compressed} {td : List Date} (h : c.sliceForTest td = .ok c') :
    c'.bars = c.bars := by
  unfold Compressed.sliceForTest at h
  simp only at h
  split at h
  · rw [← Except.ok.inj h]
  · cases h

theorem seenCol_made {s : IvScope} (h : IvBacktest s) {sym : Sym} {iv : Iv} {d : IvSymData}
    (hd : s.compressed sym iv = some d) {out : List IBar × List Int} {bd td : List Date}
    {fns : String → Option (List IBar → List Cell)} (hm : IvMade s sym iv d out bd td fns)
    (hc : CausalFns fns) (e : Int) (c : String) :
    seenCol s d sym iv e c =
      if c = "date" then (d.data.visible e).map (fun b => some ((b.date : Int) : ℚ))
      else match fns c with
        | some f => f (d.data.visible e)
        | none => (IvSymData.column { d with data := { d.data with bars := d.data.visible e } } c).getD [] := by
  unfold seenCol
  simp only
  split
  · rfl
  rw [hm.indicators]
  rcases hf : fns c with _ | f
  · rfl
  · simp only [Option.map_some]
    have hb : d.data.bars = out.1 := sliced_bars hm.slice
    obtain ⟨hlen, hv⟩ := visible_length h hd e
    rw [List.map_take, List.map_snd_zip (by rw [List.length_map]; exact (hc c f hf out.1 0).1.le)]
    conv_rhs => rw [hv, hb]
    rw [(hc c f hf out.1 _).2]

theorem column_congr {d d' : IvSymData} {bars : List IBar} (h1 : d.hasVwap = d'.hasVwap)
    (h2 : d.custom = d'.custom) (c : String) :
    (IvSymData.column { d with data := { d.data with bars := bars } } c) =
      (IvSymData.column { d' with data := { d'.data with bars := bars } } c) := by
  unfold IvSymData.column
  simp only [h1, h2]

theorem seenInput_same {s s' : IvScope} (h : IvBacktest s) (h' : IvBacktest s') {sym : Sym} {iv : Iv}
    {d d' : IvSymData} (hd : s.compressed sym iv = some d) (hd' : s'.compressed sym iv = some d')
    {out out' : List IBar × List Int} {bd bd' td td' : List Date}
    {fns : String → Option (List IBar → List Cell)} (hm : IvMade s sym iv d out bd td fns)
    (hm' : IvMade s' sym iv d' out' bd' td' fns) (hc : CausalFns fns)
    (hsame : d.hasVwap = d'.hasVwap ∧ d.custom = d'.custom) {e e' : Int}
    (hv : d.data.visible e = d'.data.visible e') (ic lc : List String) (lags : Option Nat) :
    seenInput s d sym iv e ic lc lags = seenInput s' d' sym iv e' ic lc lags := by
  have hcol : ∀ c, seenCol s d sym iv e c = seenCol s' d' sym iv e' c := by
    intro c
    rw [seenCol_made h hd hm hc, seenCol_made h' hd' hm' hc, ← hv,
      column_congr hsame.1 hsame.2 c]
  unfold seenInput
  simp only [hcol, hv]

/-- **C109.** Two backtests in which the same compressed bars are visible, with the same
models and indicators that look at no later bar: the predictions, the model's input and the
indicators are the same, whatever was read before in each.  The model predicts per bar or row
by row. -/
theorem interval_reads_same {s s' : IvScope} (h : IvBacktest s) (h' : IvBacktest s')
    (reads reads' : List IvRead) (junk junk' : LagMat) (pjunk pjunk' : Nat → Cell) {sym : Sym}
    {iv iv' : Iv} (hn : normalizeIv iv = some iv') {base : String} {d d' : IvSymData} {src : InSource}
    {tm : IvModel} {ic lc : List String} (hu : IvUse s sym iv' base d src tm ic lc)
    (hu' : IvUse s' sym iv' base d' src tm ic lc) {out out' : List IBar × List Int}
    {bd bd' td td' : List Date} {fns : String → Option (List IBar → List Cell)}
    (hm : IvMade s sym iv' d out bd td fns) (hm' : IvMade s' sym iv' d' out' bd' td' fns)
    (hc : CausalFns fns) (hsame : d.hasVwap = d'.hasVwap ∧ d.custom = d'.custom)
    (hp : tm.perBar = true ∨ ∃ f, Rowwise tm.predict f) {e e' : Int}
    (hv : d.data.visible e = d'.data.visible e') :
    ((s.run reads).fetchPreds junk pjunk sym iv base e).1 =
        ((s'.run reads').fetchPreds junk' pjunk' sym iv base e').1 ∧
      (d.data.visible e ≠ [] → ((s.run reads).fetchInput junk sym iv base e).1 =
        ((s'.run reads').fetchInput junk' sym iv base e').1) ∧
      ∀ i, fns i ≠ none → ((s.run reads).fetchIndicator sym iv i e).1 =
        ((s'.run reads').fetchIndicator sym iv i e').1 := by
  have hin := seenInput_same h h' hu.data hu'.data hm hm' hc hsame hv ic lc src.lags
  refine ⟨?_, ?_, ?_⟩
  · by_cases hb : tm.perBar = true
    · rw [interval_preds_per_bar h reads junk pjunk hn hu hb e,
        interval_preds_per_bar h' reads' junk' pjunk' hn hu' hb e', hin, hv]
    · obtain ⟨f, hf⟩ := hp.resolve_left hb
      have hb' : tm.perBar = false := by simpa using hb
      rw [interval_preds_rows h reads junk pjunk hn hu hb' hf e,
        interval_preds_rows h' reads' junk' pjunk' hn hu' hb' hf e', hin, hv]
  · intro hne
    rw [interval_input_on_bar h reads junk hn hu hne,
      interval_input_on_bar h' reads' junk' hn hu' (by rw [← hv]; exact hne), hin]
  · intro i hi
    obtain ⟨f, hf⟩ := Option.ne_none_iff_exists'.1 hi
    have e1 := hm.indicators i
    have e2 := hm'.indicators i
    rw [hf, Option.map_some] at e1 e2
    rw [(interval_indicator_on_bar h reads hn hu.data e1 e).1,
      (interval_indicator_on_bar h' reads' hn hu'.data e2 e').1]
    have hb : d.data.bars = out.1 := sliced_bars hm.slice
    have hb' : d'.data.bars = out'.1 := sliced_bars hm'.slice
    obtain ⟨_, hv1⟩ := visible_length h hu.data e
    obtain ⟨_, hv2⟩ := visible_length h' hu'.data e'
    congr 1
    rw [List.map_take, List.map_take,
      List.map_snd_zip (by rw [List.length_map]; exact (hc i f hf out.1 0).1.le),
      List.map_snd_zip (by rw [List.length_map]; exact (hc i f hf out'.1 0).1.le),
      ← (hc i f hf out.1 _).2, ← (hc i f hf out'.1 _).2, ← hb, ← hb', ← hv1, ← hv2, hv]

theorem compressed_dates {groups : List (List IBar)} : ∀ {cs : List IBar},
    List.Forall₂ Compresses groups cs → (groups.flatten.map IBar.date).Pairwise (· < ·) →
    (cs.map IBar.date).Pairwise (· < ·) ∧
      ∀ x ∈ cs.map IBar.date, x ∈ groups.flatten.map IBar.date := by
  induction groups with
  | nil =>
    intro cs h _
    cases h
    exact ⟨List.Pairwise.nil, by simp⟩
  | cons g gs ih =>
    intro cs h hp
    obtain ⟨c, cs', hc, hcs, rfl⟩ : ∃ c cs', Compresses g c ∧ List.Forall₂ Compresses gs cs' ∧
        cs = c :: cs' := by
      cases h with
      | cons a b => exact ⟨_, _, a, b, rfl⟩
    rw [List.flatten_cons, List.map_append, List.pairwise_append] at hp
    obtain ⟨h1, h2⟩ := ih hcs hp.2.1
    have hin : c.date ∈ g.map IBar.date := by
      have := hc.date
      rw [Option.map_eq_some_iff] at this
      obtain ⟨b, hb, e⟩ := this
      exact List.mem_map.2 ⟨b, List.mem_of_getLast? hb, e⟩
    rw [List.map_cons, List.pairwise_cons]
    refine ⟨⟨fun x hx => hp.2.2 _ hin _ (h2 x hx), h1⟩, ?_⟩
    intro x hx
    rw [List.flatten_cons, List.map_append, List.mem_append]
    rcases List.mem_cons.1 hx with rfl | hx
    · exact .inl hin
    · exact .inr (h2 x hx)

/-- What compressing gives: dates in order, one index for each base bar, from -1 on and within
the compressed bars. -/
theorem compress_meets (bin : Date → Int) {k : Nat} (hk : 0 < k) {bars : List IBar}
    (hs : (bars.map IBar.date).Pairwise (· < ·)) :
    ∀ out ∈ [compressBins bin bars, compressEveryN k bars],
      (out.1.map IBar.date).Pairwise (· < ·) ∧ out.2.length = bars.length ∧
      out.2.Pairwise (· ≤ ·) ∧ ∀ i ∈ out.2, -1 ≤ i ∧ i < out.1.length := by
  obtain ⟨m1, m2⟩ := visible_monotone bin k hk bars
  intro out ho
  simp only [List.mem_cons, List.not_mem_nil, or_false] at ho
  rcases ho with rfl | rfl
  · have hg := runs_groups bin bars
    have hf := agg_forall hg.nonempty
    have hl : (compressBins bin bars).2.length = bars.length := by
      rw [compressBins_eq]
      simp [computeCompleted]
    refine ⟨?_, hl, m1, ?_⟩
    · rw [compressBins_eq]
      exact (compressed_dates hf (by rw [hg.flat]; exact hs)).1
    · intro i hi
      obtain ⟨t, ht, e⟩ := List.getElem_of_mem hi
      rw [hl] at ht
      have hne : runs bin bars ≠ [] := by
        intro h
        have := hg.flat
        rw [h] at this
        rw [← this] at ht
        simp at ht
      have h1 := completed_at (t := t) ht hne hg.nonempty
      have h2 : (compressBins bin bars).2[t]? = some i := by
        rw [← e]
        exact List.getElem?_eq_getElem _
      rw [compressBins_eq] at h2
      simp only at h2
      rw [h1] at h2
      have h3 := Option.some.inj h2
      have h4 : (compressBins bin bars).1.length = (runs bin bars).length := by
        rw [compressBins_eq]
        exact hf.length_eq.symm
      have := List.length_pos_of_ne_nil hne
      omega
  · have hg := chunks_groups hk bars
    have hf := agg_forall hg.nonempty
    have hl : (compressEveryN k bars).2.length = bars.length := by
      simp [compressEveryN, everyNCompleted]
    refine ⟨?_, hl, m2, ?_⟩
    · rw [compressEveryN_eq hk]
      exact (compressed_dates hf (by rw [hg.flat]; exact hs)).1
    · intro i hi
      obtain ⟨t, ht, e⟩ := List.getElem_of_mem hi
      rw [hl] at ht
      have h1 : (compressEveryN k bars).2[t]? = some ((((t + 1) / k : Nat) : Int) - 1) :=
        everyN_completed hk ht
      have h2 : (compressEveryN k bars).2[t]? = some i := by
        rw [← e]
        exact List.getElem?_eq_getElem _
      rw [h1] at h2
      have h3 := Option.some.inj h2
      have h4 : (compressEveryN k bars).1.length = (chunks k bars).length := by
        rw [compressEveryN_eq hk]
        exact hf.length_eq.symm
      have h5 : bars.length / k ≤ (chunks k bars).length := by
        unfold chunks
        simp
      have h6 : (t + 1) / k ≤ bars.length / k := Nat.div_le_div_right ht
      have h7 : (0 : Int) ≤ (((t + 1) / k : Nat) : Int) := Int.natCast_nonneg _
      rw [h4]
      generalize (t + 1) / k = q at *
      omega

/-- Cut to a test window they still are so. -/
theorem sliced_meets {out : List IBar × List Int} {bd td : List Date} {c : Compressed}
    (hc : Compressed.sliceForTest { bars := out.1, completed := out.2, baseDates := bd } td = .ok c)
    (h1 : (out.1.map IBar.date).Pairwise (· < ·)) (h2 : out.2.Pairwise (· ≤ ·))
    (h3 : ∀ i ∈ out.2, -1 ≤ i ∧ i < out.1.length) (ht : td.Pairwise (· ≤ ·)) :
    (c.bars.map IBar.date).Pairwise (· < ·) ∧ c.completed.Pairwise (· ≤ ·) ∧
      ∀ i ∈ c.completed, -1 ≤ i ∧ i < c.bars.length := by
  unfold Compressed.sliceForTest at hc
  simp only at hc
  split at hc
  · rw [← Except.ok.inj hc]
    simp only
    refine ⟨h1, ?_, ?_⟩
    · rw [List.pairwise_filterMap, List.pairwise_map]
      refine ht.imp ?_
      intro a b hab x hx y hy
      have hle : searchLeft bd a ≤ searchLeft bd b := by
        unfold searchLeft
        apply List.Sublist.length_le
        apply List.monotone_filter_right
        intro z hz
        simp only [decide_eq_true_eq] at hz ⊢
        exact lt_of_lt_of_le hz hab
      obtain ⟨hi, ei⟩ := List.getElem?_eq_some_iff.1 hx
      obtain ⟨hj, ej⟩ := List.getElem?_eq_some_iff.1 hy
      rcases Nat.lt_or_ge (searchLeft bd a) (searchLeft bd b) with hlt | hge
      · rw [← ei, ← ej]
        exact List.pairwise_iff_getElem.1 h2 _ _ hi hj hlt
      · have : searchLeft bd a = searchLeft bd b := by omega
        rw [this] at hx
        rw [hx] at hy
        exact (Option.some.inj hy).le
    · intro i hi
      obtain ⟨n, _, hn⟩ := List.mem_filterMap.1 hi
      exact h3 i (List.mem_of_getElem? hn)
  · cases hc

/-- The compressed bars visible on the `j`-th bar of a test window, of the base bar `t` of its
date. -/
theorem visible_at {bars : List IBar} (hs : (bars.map IBar.date).Pairwise (· < ·))
    {out : List IBar × List Int} (hout : out.2.length = bars.length) (hge : ∀ i ∈ out.2, -1 ≤ i)
    {td : List Date} {c : Compressed}
    (hc : Compressed.sliceForTest { bars := out.1, completed := out.2, baseDates := bars.map IBar.date }
      td = .ok c) {j t : Nat} (ht : t < bars.length) (hj : td[j]? = some (bars[t]'ht).date) :
    c.visible ((j : Int) + 1) = visibleOn out t := by
  obtain ⟨t', h1, h2⟩ := (interval_read hs hout hge hc).1 j _ hj
  have : t' = t := by
    have hn : (bars.map IBar.date).Nodup := hs.imp (fun h => ne_of_lt h)
    have ht' : (bars.map IBar.date)[t]? = some (bars[t]'ht).date := by
      rw [List.getElem?_map, List.getElem?_eq_getElem ht, Option.map_some]
    obtain ⟨l1, e1⟩ := List.getElem?_eq_some_iff.1 h1
    obtain ⟨l2, e2⟩ := List.getElem?_eq_some_iff.1 ht'
    exact (List.Nodup.getElem_inj_iff hn).1 (e1.trans e2.symm)
  rw [h2, this]

/-- **C109.** On an interval of a number of bars: two backtests whose base bars are the same up
to bar `t` give the same predictions, inputs and indicators on that bar.  The test windows may
be different. -/
theorem interval_no_future {s s' : IvScope} (h : IvBacktest s) (h' : IvBacktest s')
    (reads reads' : List IvRead) (junk junk' : LagMat) (pjunk pjunk' : Nat → Cell) {sym : Sym}
    {iv iv' : Iv} (hn : normalizeIv iv = some iv') {base : String} {d d' : IvSymData} {src : InSource}
    {tm : IvModel} {ic lc : List String} (hu : IvUse s sym iv' base d src tm ic lc)
    (hu' : IvUse s' sym iv' base d' src tm ic lc) {k : Nat} (hk : 0 < k) {bars bars' : List IBar}
    (hs : (bars.map IBar.date).Pairwise (· < ·)) (hs' : (bars'.map IBar.date).Pairwise (· < ·))
    {td td' : List Date} {fns : String → Option (List IBar → List Cell)}
    (hm : IvMade s sym iv' d (compressEveryN k bars) (bars.map IBar.date) td fns)
    (hm' : IvMade s' sym iv' d' (compressEveryN k bars') (bars'.map IBar.date) td' fns)
    (hc : CausalFns fns) (hsame : d.hasVwap = d'.hasVwap ∧ d.custom = d'.custom)
    (hp : tm.perBar = true ∨ ∃ f, Rowwise tm.predict f) {t j j' : Nat}
    (ht : t < bars.length) (ht' : t < bars'.length) (hpast : bars.take (t + 1) = bars'.take (t + 1))
    (hj : td[j]? = some (bars[t]'ht).date) (hj' : td'[j']? = some (bars'[t]'ht').date) :
    ((s.run reads).fetchPreds junk pjunk sym iv base ((j : Int) + 1)).1 =
        ((s'.run reads').fetchPreds junk' pjunk' sym iv base ((j' : Int) + 1)).1 ∧
      (d.data.visible ((j : Int) + 1) ≠ [] →
        ((s.run reads).fetchInput junk sym iv base ((j : Int) + 1)).1 =
          ((s'.run reads').fetchInput junk' sym iv base ((j' : Int) + 1)).1) ∧
      ∀ i, fns i ≠ none → ((s.run reads).fetchIndicator sym iv i ((j : Int) + 1)).1 =
        ((s'.run reads').fetchIndicator sym iv i ((j' : Int) + 1)).1 := by
  obtain ⟨_, a2, _, a4⟩ := compress_meets (fun _ => 0) hk hs (compressEveryN k bars) (by simp)
  obtain ⟨_, b2, _, b4⟩ := compress_meets (fun _ => 0) hk hs' (compressEveryN k bars') (by simp)
  exact interval_reads_same h h' reads reads' junk junk' pjunk pjunk' hn hu hu' hm hm' hc hsame hp (by
    rw [visible_at hs a2 (fun i hi => (a4 i hi).1) hm.slice ht hj,
      visible_at hs' b2 (fun i hi => (b4 i hi).1) hm'.slice ht' hj', count_no_future hk ht ht' hpast])

/-- **C109**, what holds on calendar and duration intervals: the same, when in both the next
base bar starts a new bin, or in both it does not.  Missing: without that, since the code shows
a compressed bar as soon as the next base bar is seen to be in another bin. -/
theorem interval_no_future_partial {s s' : IvScope} (h : IvBacktest s) (h' : IvBacktest s')
    (reads reads' : List IvRead) (junk junk' : LagMat) (pjunk pjunk' : Nat → Cell) {sym : Sym}
    {iv iv' : Iv} (hn : normalizeIv iv = some iv') {base : String} {d d' : IvSymData} {src : InSource}
    {tm : IvModel} {ic lc : List String} (hu : IvUse s sym iv' base d src tm ic lc)
    (hu' : IvUse s' sym iv' base d' src tm ic lc) (bin : Date → Int) {bars bars' : List IBar}
    (hs : (bars.map IBar.date).Pairwise (· < ·)) (hs' : (bars'.map IBar.date).Pairwise (· < ·))
    {td td' : List Date} {fns : String → Option (List IBar → List Cell)}
    (hm : IvMade s sym iv' d (compressBins bin bars) (bars.map IBar.date) td fns)
    (hm' : IvMade s' sym iv' d' (compressBins bin bars') (bars'.map IBar.date) td' fns)
    (hc : CausalFns fns) (hsame : d.hasVwap = d'.hasVwap ∧ d.custom = d'.custom)
    (hp : tm.perBar = true ∨ ∃ f, Rowwise tm.predict f) {t j j' : Nat}
    (ht : t < bars.length) (ht' : t < bars'.length) (hpast : bars.take (t + 1) = bars'.take (t + 1))
    (hnext : (bars[t + 1]?).any (fun b => bin b.date ≠ bin (bars[t]'ht).date) =
      (bars'[t + 1]?).any (fun b => bin b.date ≠ bin (bars'[t]'ht').date))
    (hj : td[j]? = some (bars[t]'ht).date) (hj' : td'[j']? = some (bars'[t]'ht').date) :
    ((s.run reads).fetchPreds junk pjunk sym iv base ((j : Int) + 1)).1 =
        ((s'.run reads').fetchPreds junk' pjunk' sym iv base ((j' : Int) + 1)).1 ∧
      (d.data.visible ((j : Int) + 1) ≠ [] →
        ((s.run reads).fetchInput junk sym iv base ((j : Int) + 1)).1 =
          ((s'.run reads').fetchInput junk' sym iv base ((j' : Int) + 1)).1) ∧
      ∀ i, fns i ≠ none → ((s.run reads).fetchIndicator sym iv i ((j : Int) + 1)).1 =
        ((s'.run reads').fetchIndicator sym iv i ((j' : Int) + 1)).1 := by
  obtain ⟨_, a2, _, a4⟩ := compress_meets bin (k := 1) (by omega) hs (compressBins bin bars) (by simp)
  obtain ⟨_, b2, _, b4⟩ := compress_meets bin (k := 1) (by omega) hs' (compressBins bin bars') (by simp)
  obtain ⟨G, lastg, _, g2, g3⟩ := calendar_visible_partial bin ht
  obtain ⟨G', lastg', _, g2', g3'⟩ := calendar_visible_partial bin ht'
  have hG : G ++ [lastg] = G' ++ [lastg'] := by rw [g2, g2', hpast]
  have hG' : G = G' := (List.append_inj' hG rfl).1
  exact interval_reads_same h h' reads reads' junk junk' pjunk pjunk' hn hu hu' hm hm' hc hsame hp (by
    rw [visible_at hs a2 (fun i hi => (a4 i hi).1) hm.slice ht hj,
      visible_at hs' b2 (fun i hi => (b4 i hi).1) hm'.slice ht' hj', g3, g3', hG, hG', hnext])


/-! ## A concrete backtest -/

/-- A model of two-bar intervals: the close of the compressed bar, plus one. -/
def Demo.ivF : PredRow → Cell
  | .lags (x :: _) => x.map (· + 1)
  | _ => none

def Demo.ivModel (perBar : Bool) : IvModel where
  info := { inputCols := some ["close", "half"], lagColumns := some ["close"] }
  perBar := perBar
  predict := fun a => (List.range a.count).map (fun i => Demo.ivF (a.row i))

/-- Its indicator: half the close. -/
def Demo.ivFns (c : String) : Option (List IBar → List Cell) :=
  if c = "half" then some (fun bars => bars.map (fun b => b.close.map (· / 2))) else none

def Demo.ivSource : InSource where
  indicators := ["half"]
  lags := some 1
  pooled := false
  inputFn := none

def Demo.ivScope (out : List IBar × List Int) (bd td : List Date) (perBar : Bool) : IvScope where
  compressed sym iv :=
    if sym = "S" ∧ iv = .num 2 then
      match Compressed.sliceForTest { bars := out.1, completed := out.2, baseDates := bd } td with
      | .ok c => some { data := c, hasVwap := true, custom := [] }
      | .error _ => none
    else none
  registered := []
  dataCols := ["date", "open", "high", "low", "close", "volume", "vwap", "symbol"]
  sources b := if b = "m" then some Demo.ivSource else none
  models n sym := if n = boundName "m" (.num 2) ∧ sym = "S" then some (Demo.ivModel perBar) else none
  ind := {
    data := fun n sym => if n = boundName "half" (.num 2) ∧ sym = "S" then
      some ((out.1.map IBar.date).zip (out.1.map (fun b => b.close.map (· / 2)))) else none
    bound := fun n => (parseName n.toList).2.isSome
    filterDates := td }

theorem Demo.iv_data {out : List IBar × List Int} {bd td : List Date} {p : Bool} {sym : Sym} {iv : Iv}
    {d : IvSymData} (h : (Demo.ivScope out bd td p).compressed sym iv = some d) :
    sym = "S" ∧ iv = .num 2 ∧
      Compressed.sliceForTest { bars := out.1, completed := out.2, baseDates := bd } td = .ok d.data := by
  simp only [Demo.ivScope] at h
  split at h
  · rename_i hc
    rcases hs : Compressed.sliceForTest { bars := out.1, completed := out.2, baseDates := bd } td with e | c
    · rw [hs] at h
      cases h
    · rw [hs] at h
      exact ⟨hc.1, hc.2, by rw [← Option.some.inj h]⟩
  · cases h

theorem Demo.iv_two : normalizeIv (.num 2) = some (.num 2) := by decide +kernel

theorem Demo.iv_backtest {bars : List IBar} (hs : (bars.map IBar.date).Pairwise (· < ·))
    {td : List Date} (ht : td.Pairwise (· ≤ ·)) (bin : Date → Int) (p : Bool)
    {out : List IBar × List Int} (ho : out = compressBins bin bars ∨ out = compressEveryN 2 bars) :
    IvBacktest (Demo.ivScope out (bars.map IBar.date) td p) := by
  have hm := compress_meets bin (k := 2) (by omega) hs out (by simpa using ho)
  refine ⟨fun _ => rfl, ?_, ?_, (fun _ h => nomatch h), ?_, ?_, ?_, ?_, ⟨rfl, rfl, rfl, rfl, rfl, rfl, rfl⟩⟩
  · intro sym iv d base ser _ hd hser
    obtain ⟨_, _, hc⟩ := Demo.iv_data hd
    simp only [Demo.ivScope] at hser
    split at hser
    · rw [← Option.some.inj hser, sliced_bars hc, List.map_fst_zip (by simp)]
    · cases hser
  · intro sym iv c hn hc
    simp only [Demo.ivScope]
    rw [if_neg]
    rintro ⟨h, _⟩
    rw [(boundName_inj hn Demo.iv_two h).1] at hc
    rcases hc with hc | hc
    · revert hc
      decide
    · cases hc
  · intro sym iv d hd
    obtain ⟨_, _, hc⟩ := Demo.iv_data hd
    exact (sliced_meets hc hm.1 hm.2.2.1 hm.2.2.2 ht).1
  · intro sym iv d hd
    obtain ⟨_, _, hc⟩ := Demo.iv_data hd
    exact (sliced_meets hc hm.1 hm.2.2.1 hm.2.2.2 ht).2.1
  · intro sym iv d hd
    obtain ⟨_, _, hc⟩ := Demo.iv_data hd
    exact (sliced_meets hc hm.1 hm.2.2.1 hm.2.2.2 ht).2.2
  · intro name sym tm l htm hl
    simp only [Demo.ivScope] at htm
    split at htm
    · rw [← Option.some.inj htm] at hl
      rw [← Option.some.inj hl]
      decide
    · cases htm

theorem Demo.iv_use {out : List IBar × List Int} {bd td : List Date} {c : Compressed}
    (hc : Compressed.sliceForTest { bars := out.1, completed := out.2, baseDates := bd } td = .ok c)
    (p : Bool) :
    IvUse (Demo.ivScope out bd td p) "S" (.num 2) "m" { data := c, hasVwap := true, custom := [] }
      Demo.ivSource (Demo.ivModel p) ["close", "half"] ["close"] := by
  refine ⟨?_, ?_, ?_, ?_, ⟨rfl, by decide, by decide, .inl rfl⟩, ?_, ?_⟩
  · simp only [Demo.ivScope, and_self, if_true]
    rw [hc]
  · simp [Demo.ivScope]
  · simp [Demo.ivScope]
  · intro i hi
    rw [show i = "half" by simpa [Demo.ivSource] using hi]
    simp [Demo.ivScope]
  · intro x hx
    have : ivNames { data := c, hasVwap := true, custom := [] } [] ["half"] =
        ["date", "open", "high", "low", "close", "volume", "vwap", "half"] := by
      simp only [ivNames, if_true, List.filter_nil, List.append_nil, List.cons_append, List.nil_append]
      decide
    show x ∈ ivNames { data := c, hasVwap := true, custom := [] } [] ["half"]
    rw [this]
    clear this
    revert x
    decide
  · intro _
    refine ⟨by decide, ?_, .inl rfl⟩
    intro x hx
    have : ivNames { data := c, hasVwap := true, custom := [] } [] ["half"] =
        ["date", "open", "high", "low", "close", "volume", "vwap", "half"] := by
      simp only [ivNames, if_true, List.filter_nil, List.append_nil, List.cons_append, List.nil_append]
      decide
    show x ∈ ivNames { data := c, hasVwap := true, custom := [] } [] ["half"]
    rw [this]
    clear this
    revert x
    decide

theorem Demo.iv_made {out : List IBar × List Int} {bd td : List Date} {c : Compressed}
    (hc : Compressed.sliceForTest { bars := out.1, completed := out.2, baseDates := bd } td = .ok c)
    (p : Bool) :
    IvMade (Demo.ivScope out bd td p) "S" (.num 2) { data := c, hasVwap := true, custom := [] } out bd td
      Demo.ivFns := by
  refine ⟨hc, ?_⟩
  intro x
  simp only [Demo.ivScope, Demo.ivFns, and_true]
  by_cases hx : x = "half"
  · subst hx
    simp
  · rw [if_neg hx, if_neg]
    · rfl
    · -- the interval of the model is this one
      intro h
      exact hx (boundName_inj Demo.iv_two Demo.iv_two h).1

theorem Demo.iv_causal : CausalFns Demo.ivFns := by
  intro c f hf bars n
  unfold Demo.ivFns at hf
  split at hf
  · rw [← Option.some.inj hf]
    simp [List.map_take]
  · cases hf

theorem Demo.iv_rowwise (p : Bool) : Rowwise (Demo.ivModel p).predict Demo.ivF := fun _ => rfl

/-- The first six of the demo bars: four and two more. -/
def Demo.ivBars : List IBar :=
  Demo.ibars ++ [Demo.ibar 4 8 9 7 9 30, Demo.ibar 5 9 12 9 12 40]

def Demo.ivComp : Compressed where
  bars := (compressEveryN 2 Demo.ivBars).1
  completed := [0, 1, 1, 2]
  baseDates := [2, 3, 4, 5]

theorem Demo.iv_slice : Compressed.sliceForTest
    { bars := (compressEveryN 2 Demo.ivBars).1, completed := (compressEveryN 2 Demo.ivBars).2,
      baseDates := Demo.ivBars.map IBar.date } [2, 3, 4, 5] = .ok Demo.ivComp := by
  have : (compressEveryN 2 Demo.ivBars).2 = [-1, 0, 0, 1, 1, 2] := by decide +kernel
  rw [this]
  rfl

theorem Demo.iv_sorted : (Demo.ivBars.map IBar.date).Pairwise (· < ·) := by
  decide +kernel

abbrev Demo.ivS (p : Bool) : IvScope :=
  Demo.ivScope (compressEveryN 2 Demo.ivBars) (Demo.ivBars.map IBar.date) [2, 3, 4, 5] p

theorem Demo.ivS_backtest (p : Bool) : IvBacktest (Demo.ivS p) :=
  Demo.iv_backtest Demo.iv_sorted (by decide +kernel) (fun _ => 0) p (.inr rfl)

/-- C107: the input on the fourth test bar has the three compressed bars. -/
example (reads : List IvRead) (junk : LagMat) :=
  interval_input_on_bar (Demo.ivS_backtest false) reads junk Demo.iv_two (Demo.iv_use Demo.iv_slice false)
    (e := 4) (by decide +kernel)

example : (seenInput (Demo.ivS false) { data := Demo.ivComp, hasVwap := true, custom := [] } "S" (.num 2) 4
    ["close", "half"] ["close"] (some 1)).features =
    some [[some 14, none], [some 8, some 14], [some 12, some 8]] := by decide +kernel

example : ((Demo.ivS true).fetchInput (fun _ _ => some 99) "S" (.num 2) "m" 4).1.toOption.map LagInput.features =
    some (some [[some 14, none], [some 8, some 14], [some 12, some 8]]) := by decide +kernel

/-- C108. -/
example (reads : List IvRead) (junk : LagMat) (pjunk : Nat → Cell) :=
  interval_preds_per_bar (Demo.ivS_backtest true) reads junk pjunk Demo.iv_two
    (Demo.iv_use Demo.iv_slice true) rfl 4

example (reads : List IvRead) (junk : LagMat) (pjunk : Nat → Cell) :=
  interval_preds_rows (Demo.ivS_backtest false) reads junk pjunk Demo.iv_two
    (Demo.iv_use Demo.iv_slice false) rfl (Demo.iv_rowwise false) 4

example : ((Demo.ivS true).fetchPreds (fun _ _ => some 99) (fun _ => some 99) "S" (.num 2) "m" 4).1.toOption =
    some [none, some 9, some 13] := by decide +kernel
example : ((Demo.ivS false).fetchPreds (fun _ _ => some 99) (fun _ => some 99) "S" (.num 2) "m" 2).1.toOption =
    some [none, some 9] := by decide +kernel

/-- C109: the same, whether the data goes on or not. -/
example (reads reads' : List IvRead) (junk junk' : LagMat) (pjunk pjunk' : Nat → Cell) :
    ((Demo.ivS true).run reads |>.fetchPreds junk pjunk "S" (.num 2) "m" 2).1 =
      ((Demo.ivScope (compressEveryN 2 Demo.ibars) (Demo.ibars.map IBar.date) [3] true).run reads'
        |>.fetchPreds junk' pjunk' "S" (.num 2) "m" 1).1 := by
  have hsl : Compressed.sliceForTest
      { bars := (compressEveryN 2 Demo.ibars).1, completed := (compressEveryN 2 Demo.ibars).2,
        baseDates := Demo.ibars.map IBar.date } [3] =
      .ok { bars := (compressEveryN 2 Demo.ibars).1, completed := [1], baseDates := [3] } := by
    have : (compressEveryN 2 Demo.ibars).2 = [-1, 0, 0, 1] := by decide +kernel
    rw [this]
    rfl
  exact (interval_no_future (Demo.ivS_backtest true)
    (Demo.iv_backtest (bars := Demo.ibars) (by decide +kernel) (by decide +kernel) (fun _ => 0) true (.inr rfl))
    reads reads' junk junk' pjunk pjunk' Demo.iv_two (Demo.iv_use Demo.iv_slice true)
    (Demo.iv_use hsl true) (k := 2) (by decide) (bars := Demo.ivBars) (bars' := Demo.ibars)
    Demo.iv_sorted (by decide +kernel) (Demo.iv_made Demo.iv_slice true) (Demo.iv_made hsl true)
    Demo.iv_causal ⟨rfl, rfl⟩ (.inl rfl) (t := 3) (j := 1) (j' := 0) (by decide) (by decide) rfl rfl rfl).1


/-- C109 fails for calendar and duration intervals: on bar 1 the model predicts for the first
bin of two dates when a bar of the next bin follows, and for nothing when bar 1 is the last. -/
theorem interval_preds_show_next_bar :
    ((Demo.ivScope (compressBins (fun d => d.fdiv 2) Demo.ibars) [0, 1, 2, 3] [0, 1, 2, 3] true).fetchPreds
      (fun _ _ => none) (fun _ => none) "S" (.num 2) "m" 2).1.toOption = some [none] ∧
    ((Demo.ivScope (compressBins (fun d => d.fdiv 2) (Demo.ibars.take 2)) [0, 1] [0, 1] true).fetchPreds
      (fun _ _ => none) (fun _ => none) "S" (.num 2) "m" 2).1.toOption = some [] := by
  constructor <;> decide +kernel

/-- The calendar case, with two more bars in one and none in the other, on bar 2, in the middle
of a bin. -/
example (reads reads' : List IvRead) (junk junk' : LagMat) (pjunk pjunk' : Nat → Cell) :
    ((Demo.ivScope (compressBins (fun d => d.fdiv 2) Demo.ibars) (Demo.ibars.map IBar.date) [2, 3] true).run reads
        |>.fetchPreds junk pjunk "S" (.num 2) "m" 1).1 =
      ((Demo.ivScope (compressBins (fun d => d.fdiv 2) (Demo.ibars.take 3))
          ((Demo.ibars.take 3).map IBar.date) [2] true).run reads'
        |>.fetchPreds junk' pjunk' "S" (.num 2) "m" 1).1 := by
  have h1 : Compressed.sliceForTest
      { bars := (compressBins (fun d => d.fdiv 2) Demo.ibars).1
        completed := (compressBins (fun d => d.fdiv 2) Demo.ibars).2
        baseDates := Demo.ibars.map IBar.date } [2, 3] =
      .ok { bars := (compressBins (fun d => d.fdiv 2) Demo.ibars).1, completed := [0, 0], baseDates := [2, 3] } := by
    have : (compressBins (fun d => d.fdiv 2) Demo.ibars).2 = [-1, 0, 0, 0] := by decide +kernel
    rw [this]
    rfl
  have h2 : Compressed.sliceForTest
      { bars := (compressBins (fun d => d.fdiv 2) (Demo.ibars.take 3)).1
        completed := (compressBins (fun d => d.fdiv 2) (Demo.ibars.take 3)).2
        baseDates := (Demo.ibars.take 3).map IBar.date } [2] =
      .ok { bars := (compressBins (fun d => d.fdiv 2) (Demo.ibars.take 3)).1, completed := [0], baseDates := [2] } := by
    have : (compressBins (fun d => d.fdiv 2) (Demo.ibars.take 3)).2 = [-1, 0, 0] := by decide +kernel
    rw [this]
    rfl
  exact (interval_no_future_partial
    (Demo.iv_backtest (bars := Demo.ibars) (by decide +kernel) (by decide +kernel) (fun d => d.fdiv 2) true (.inl rfl))
    (Demo.iv_backtest (bars := Demo.ibars.take 3) (by decide +kernel) (by decide +kernel) (fun d => d.fdiv 2) true
      (.inl rfl))
    reads reads' junk junk' pjunk pjunk' Demo.iv_two (Demo.iv_use h1 true) (Demo.iv_use h2 true)
    (fun d => d.fdiv 2) (by decide +kernel) (by decide +kernel) (Demo.iv_made h1 true) (Demo.iv_made h2 true)
    Demo.iv_causal ⟨rfl, rfl⟩ (.inl rfl) (t := 2) (j := 0) (j' := 0) (by decide) (by decide) rfl (by decide)
    rfl rfl).1

/-- A model that is neither per bar nor row by row does see later bars of the test window: it is
given the whole window at once. -/
theorem whole_window_sees_ahead : ∃ predict : PredArg → List Cell,
    let use := fun td => ({ Demo.ivScope (compressEveryN 2 Demo.ivBars) (Demo.ivBars.map IBar.date) td false with
      models := fun _ _ => some { Demo.ivModel false with predict := predict } } : IvScope)
    ((use [2, 3, 4, 5]).fetchPreds (fun _ _ => none) (fun _ => none) "S" (.num 2) "m" 2).1 ≠
      ((use [2, 3]).fetchPreds (fun _ _ => none) (fun _ => none) "S" (.num 2) "m" 2).1 := by
  refine ⟨fun a => List.replicate a.count (Demo.ivF (a.row (a.count - 1))), ?_⟩
  intro use h
  have h1 : ((use [2, 3, 4, 5]).fetchPreds (fun _ _ => none) (fun _ => none) "S" (.num 2) "m" 2).1.toOption =
      some [none, some 13] := by decide +kernel
  have h2 : ((use [2, 3]).fetchPreds (fun _ _ => none) (fun _ => none) "S" (.num 2) "m" 2).1.toOption =
      some [none, some 9] := by decide +kernel
  rw [h, h2] at h1
  exact absurd h1 (by decide +kernel)

end PyBroker
