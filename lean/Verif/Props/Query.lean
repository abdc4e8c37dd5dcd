import Verif.Cache.Query
import Verif.Props.Text

/-!
# C60, C61: queries through the data source cache

`Spec.Serves` says what a deterministic source is: the rows it gives for a symbol are a
fixed set that only depends on the symbol and the request, with one row per date, and its
columns do not change.
-/

namespace PyBroker

namespace Spec

variable {V : Type}

/-- The key of a row. -/
def rowKey (r : QRow V) : Int × String := (r.date, r.sym)

/-- `src` serves `bars`: for all symbols and dates and every timeframe, a fetch gives,
once each, the rows of the requested symbols, with the columns `schema`, and an empty
fetch has either no columns or the required ones. -/
structure Serves (src : Source V) (bars : DsKey → QRow V → Prop) (schema : String → String → Prop) :
    Prop where
  distinct : ∀ syms a b tf adj, ((src.fetch syms a b tf adj).rows.map rowKey).Nodup
  rows : ∀ syms a b tf adj secs r, toSeconds tf = some secs →
    (r ∈ (src.fetch syms a b tf adj).rows ↔
      r.sym ∈ syms ∧ bars ⟨r.sym, secs, a, b, adj, src.name⟩ r)
  columns : ∀ syms a b tf adj, (src.fetch syms a b tf adj).rows ≠ [] →
    ∀ c, c ∈ (src.fetch syms a b tf adj).cols ↔ schema src.name c
  required : ∀ c ∈ ["symbol", "date", "open", "high", "low", "close"], schema src.name c
  emptyColumns : ∀ syms a b tf adj, (src.fetch syms a b tf adj).cols = [] ∨
    ∀ c ∈ ["symbol", "date", "open", "high", "low", "close"], c ∈ (src.fetch syms a b tf adj).cols

/-- What can happen to the data source cache. -/
inductive QOp (V : Type)
  | query (src : Source V) (req : Request) (syms : List String)
  | clear
  | drop (k : DsKey)

/-- The cache after a history, starting from an empty one. -/
def cacheAfter : List (QOp V) → Option (DsCache V) → Option (DsCache V)
  | [], c => c
  | .query src req syms :: ops, c =>
    cacheAfter ops (match src.query 2 c req syms with | some (_, c') => c' | none => c)
  | .clear :: ops, _ => cacheAfter ops (some fun _ => none)
  | .drop k :: ops, c => cacheAfter ops (c.map fun c x => if x = k then none else c x)

/-- Same error, or the same rows in the same order with the same columns. -/
def SameAnswer : Option (Except QErr (Frame V) × Option (DsCache V)) →
    Option (Except QErr (Frame V) × Option (DsCache V)) → Prop
  | some (.error e, _), some (.error e', _) => e = e'
  | some (.ok f, _), some (.ok g, _) => f.rows = g.rows ∧ (f.rows ≠ [] → ∀ c, c ∈ f.cols ↔ c ∈ g.cols)
  | _, _ => False

end Spec

section
variable {V : Type}

/-! ## Timeframes -/

theorem format_seconds {s tf : Str} (h : formatTimeframe s = some tf) :
    (∃ secs, toSeconds tf = some secs) ∧ formatTimeframe tf = some tf ∧ toSeconds s = toSeconds tf := by
  by_cases hs : s = []
  · subst hs
    have : tf = [] := by
      have : formatTimeframe [] = some [] := rfl
      rw [this] at h; exact (Option.some.inj h).symm
    subst this
    exact ⟨⟨0, rfl⟩, rfl, rfl⟩
  · rcases hp : parseTimeframe s with _ | ps
    · simp [formatTimeframe, hs, hp] at h
    · obtain ⟨f, h1, h2, h3, h4, h5⟩ := timeframe_format hp
      rw [h] at h1
      have := Option.some.inj h1
      subst this
      exact ⟨⟨_, h5.trans h4⟩, h3, h5.symm⟩

/-! ## Sorting -/

theorem rowLE_total (a b : QRow V) : rowLE a b ∨ rowLE b a := by
  unfold rowLE
  rcases lt_trichotomy a.date b.date with h | h | h
  · exact .inl (.inl h)
  · rcases le_total a.sym b.sym with h' | h'
    · exact .inl (.inr ⟨h, h'⟩)
    · exact .inr (.inr ⟨h.symm, h'⟩)
  · exact .inr (.inl h)

theorem rowLE_trans {a b c : QRow V} (h1 : rowLE a b) (h2 : rowLE b c) : rowLE a c := by
  unfold rowLE at *
  rcases h1 with h1 | ⟨h1, h1'⟩ <;> rcases h2 with h2 | ⟨h2, h2'⟩
  · exact .inl (h1.trans h2)
  · exact .inl (h2 ▸ h1)
  · exact .inl (h1 ▸ h2)
  · exact .inr ⟨h1.trans h2, h1'.trans h2'⟩

theorem rowLE_antisymm {a b : QRow V} (h1 : rowLE a b) (h2 : rowLE b a) :
    Spec.rowKey a = Spec.rowKey b := by
  unfold rowLE at *
  rcases h1 with h1 | ⟨h1, h1'⟩ <;> rcases h2 with h2 | ⟨h2, h2'⟩
  · exact absurd (h1.trans h2) (lt_irrefl _)
  · exact absurd (h2 ▸ h1) (lt_irrefl _)
  · exact absurd (h1 ▸ h2) (lt_irrefl _)
  · exact Prod.ext h1 (le_antisymm h1' h2')

theorem sortRows_perm (rows : List (QRow V)) : (sortRows rows).Perm rows :=
  List.perm_insertionSort _ _

theorem sortRows_sorted (rows : List (QRow V)) : (sortRows rows).Pairwise rowLE := by
  haveI : Std.Total (rowLE (V := V)) := ⟨rowLE_total⟩
  haveI : IsTrans (QRow V) rowLE := ⟨fun _ _ _ => rowLE_trans⟩
  exact List.pairwise_insertionSort _ _

theorem nodup_of_keys {rows : List (QRow V)} (h : (rows.map Spec.rowKey).Nodup) : rows.Nodup :=
  List.Nodup.of_map _ h

theorem key_inj {rows : List (QRow V)} (h : (rows.map Spec.rowKey).Nodup) {a b : QRow V}
    (ha : a ∈ rows) (hb : b ∈ rows) (hk : Spec.rowKey a = Spec.rowKey b) : a = b :=
  List.inj_on_of_nodup_map h ha hb hk

/-- Two lists with the same rows and one row per key sort to the same list. -/
theorem sortRows_ext {A B : List (QRow V)} (hA : (A.map Spec.rowKey).Nodup)
    (hB : (B.map Spec.rowKey).Nodup) (h : ∀ r, r ∈ A ↔ r ∈ B) : sortRows A = sortRows B := by
  have hp : A.Perm B := (List.perm_ext_iff_of_nodup (nodup_of_keys hA) (nodup_of_keys hB)).mpr h
  refine List.Perm.eq_of_pairwise ?_ (sortRows_sorted A) (sortRows_sorted B)
    ((sortRows_perm A).trans (hp.trans (sortRows_perm B).symm))
  intro a b ha hb h1 h2
  exact key_inj hA ((sortRows_perm A).mem_iff.mp ha) ((h b).mpr ((sortRows_perm B).mem_iff.mp hb))
    (rowLE_antisymm h1 h2)

/-! ## The cache -/

/-- The entries written by `set_cached`. -/
theorem setCached_apply (src : Source V) (c : DsCache V) (req : Request) {tf : Str} {secs : Nat}
    (htf : toSeconds tf = some secs) (data : Frame V) :
    ∃ c', setCached src (some c) req tf data = some c' ∧ ∀ k, c' k =
      if data.isEmpty = false ∧ k = dsKey src secs req k.symbol ∧ ∃ r ∈ data.rows, r.sym = k.symbol then
        some ⟨data.cols, data.rows.filter (fun r => r.sym = k.symbol)⟩ else c k := by
  have fold : ∀ (l : List String) (c : DsCache V) (k : DsKey),
      (l.foldl (fun c s => fun k => if k = dsKey src secs req s then
          some (⟨data.cols, data.rows.filter (fun r => r.sym = s)⟩ : Frame V) else c k) c) k =
      if k = dsKey src secs req k.symbol ∧ k.symbol ∈ l then
        some ⟨data.cols, data.rows.filter (fun r => r.sym = k.symbol)⟩ else c k := by
    intro l
    induction l with
    | nil => intro c k; simp
    | cons s l ih =>
      intro c k
      rw [List.foldl_cons, ih]
      by_cases h1 : k = dsKey src secs req k.symbol ∧ k.symbol ∈ l
      · rw [if_pos h1, if_pos ⟨h1.1, List.mem_cons_of_mem _ h1.2⟩]
      · rw [if_neg h1]
        by_cases h2 : k = dsKey src secs req s
        · have h3 : k.symbol = s := by rw [h2]; rfl
          rw [if_pos h2, if_pos ⟨by rw [h3]; exact h2, by rw [h3]; simp⟩, h3]
        · rw [if_neg h2, if_neg]
          rintro ⟨h3, h4⟩
          rcases List.mem_cons.mp h4 with h4 | h4
          · exact h2 (h4 ▸ h3)
          · exact h1 ⟨h3, h4⟩
  unfold setCached
  rcases he : data.isEmpty with _ | _
  · rw [if_neg (by simp)]
    simp only [htf]
    refine ⟨_, rfl, fun k => ?_⟩
    rw [fold]
    simp [List.mem_dedup]
  · rw [if_pos rfl]
    exact ⟨c, rfl, fun k => by simp⟩

/-- One step of the recursion, when both the symbols and the dates are valid. -/
theorem query_succ (src : Source V) (fuel : Nat) (cache : Option (DsCache V)) (req : Request)
    (symbols : List String) {tf : Str} {cached : Frame V} {uncached : List String}
    (hd : ¬ req.stop < req.start) (hs : symbols ≠ [])
    (htf : formatTimeframe req.timeframe = some tf)
    (hc : getCached src cache req tf symbols.dedup = some (cached, uncached)) :
    src.query (fuel + 1) cache req symbols =
      if uncached = [] then
        some (.ok (if cached.isEmpty then cached else ⟨cached.cols, sortRows cached.rows⟩), cache)
      else
        let df := src.fetch uncached req.start req.stop tf req.adjust
        if cache.isSome ∧ df.isEmpty = false ∧ cached.cols ≠ [] ∧
            ¬ (cached.cols ⊆ df.cols ∧ df.cols ⊆ cached.cols) then
          src.query fuel (some fun _ => none) { req with timeframe := tf } symbols
        else
          let df := if df.cols = [] then ⟨requiredCols, []⟩ else df
          if ¬ requiredCols ⊆ df.cols then some (.error .columns, cache)
          else
            let cache' := setCached src cache req tf df
            let out := if df.isEmpty ∧ cached.isEmpty = false then cached
              else concatFrames [cached, df]
            some (.ok (if out.isEmpty then out else ⟨out.cols, sortRows out.rows⟩), cache') := by
  rw [Source.query, if_neg hd, if_neg hs, htf]
  simp only [hc]

/-- With nothing cached every symbol is fetched. -/
theorem getCached_empty (src : Source V) (req : Request) {tf : Str} {secs : Nat}
    (htf : toSeconds tf = some secs) (syms : List String) :
    getCached src (some fun _ => none) req tf syms = some (.nil, syms) := by
  simp [getCached, htf, concatFrames, Frame.nil]

/-- A query that starts with an empty cache does not recurse. -/
theorem query_empty_cache (src : Source V) (fuel : Nat) (req : Request) (symbols : List String) :
    src.query (fuel + 1) (some fun _ => none) req symbols =
      src.query 1 (some fun _ => none) req symbols := by
  by_cases hd : req.stop < req.start
  · simp [Source.query, hd]
  by_cases hs : symbols = []
  · simp [Source.query, hd, hs]
  rcases htf : formatTimeframe req.timeframe with _ | tf
  · simp [Source.query, hd, hs, htf]
  obtain ⟨⟨secs, hsec⟩, _⟩ := format_seconds htf
  have hc := getCached_empty src req hsec symbols.dedup
  rw [query_succ src fuel _ req symbols hd hs htf hc, query_succ src 0 _ req symbols hd hs htf hc]
  simp only [Frame.nil, ne_eq, not_true, false_and, and_false, if_false]

/-- **C60.** A query always ends, and re-fetches at most once, whatever the cache holds,
whatever the source answers and however often it changes its columns. -/
theorem query_terminates (src : Source V) (cache : Option (DsCache V)) (req : Request)
    (symbols : List String) :
    ∃ answer, ∀ fuel ≥ 2, src.query fuel cache req symbols = some answer := by
  have h1 : ∀ req : Request, ∃ a, src.query 1 (some fun _ => none) req symbols = some a := by
    intro req
    by_cases hd : req.stop < req.start
    · exact ⟨(.error .dates, some fun _ => none), by simp [Source.query, hd]⟩
    by_cases hs : symbols = []
    · exact ⟨(.error .symbols, some fun _ => none), by simp [Source.query, hd, hs]⟩
    rcases htf : formatTimeframe req.timeframe with _ | tf
    · exact ⟨(.error .timeframe, some fun _ => none), by simp [Source.query, hd, hs, htf]⟩
    obtain ⟨⟨secs, hsec⟩, _⟩ := format_seconds htf
    have hc := getCached_empty src req hsec symbols.dedup
    rw [query_succ src 0 _ req symbols hd hs htf hc]
    simp only [Frame.nil, ne_eq, not_true, false_and, and_false, if_false]
    by_cases hu : symbols.dedup = []
    · rw [if_pos hu]; exact ⟨_, rfl⟩
    rw [if_neg hu]
    generalize hdf : (if (src.fetch symbols.dedup req.start req.stop tf req.adjust).cols = [] then
      (⟨requiredCols, []⟩ : Frame V) else src.fetch symbols.dedup req.start req.stop tf req.adjust) = df
    by_cases hr : ¬ requiredCols ⊆ df.cols
    · rw [if_pos hr]; exact ⟨_, rfl⟩
    · rw [if_neg hr]; exact ⟨_, rfl⟩
  by_cases hd : req.stop < req.start
  · refine ⟨(.error .dates, cache), fun fuel hf => ?_⟩
    obtain ⟨n, rfl⟩ : ∃ n, fuel = n + 1 := ⟨fuel - 1, by omega⟩
    simp [Source.query, hd]
  by_cases hs : symbols = []
  · refine ⟨(.error .symbols, cache), fun fuel hf => ?_⟩
    obtain ⟨n, rfl⟩ : ∃ n, fuel = n + 1 := ⟨fuel - 1, by omega⟩
    simp [Source.query, hd, hs]
  rcases htf : formatTimeframe req.timeframe with _ | tf
  · refine ⟨(.error .timeframe, cache), fun fuel hf => ?_⟩
    obtain ⟨n, rfl⟩ : ∃ n, fuel = n + 1 := ⟨fuel - 1, by omega⟩
    simp [Source.query, hd, hs, htf]
  rcases hc : getCached src cache req tf symbols.dedup with _ | ⟨cached, uncached⟩
  · refine ⟨(.error .timeframe, cache), fun fuel hf => ?_⟩
    obtain ⟨n, rfl⟩ : ∃ n, fuel = n + 1 := ⟨fuel - 1, by omega⟩
    simp [Source.query, hd, hs, htf, hc]
  obtain ⟨a, ha⟩ := h1 { req with timeframe := tf }
  have key : ∃ answer, ∀ n, src.query (n + 2) cache req symbols = some answer := by
    by_cases hu : uncached = []
    · refine ⟨(.ok (if cached.isEmpty then cached else ⟨cached.cols, sortRows cached.rows⟩), cache),
        fun n => ?_⟩
      rw [query_succ src (n + 1) cache req symbols hd hs htf hc, if_pos hu]
    · by_cases hx : cache.isSome ∧
        (src.fetch uncached req.start req.stop tf req.adjust).isEmpty = false ∧ cached.cols ≠ [] ∧
        ¬ (cached.cols ⊆ (src.fetch uncached req.start req.stop tf req.adjust).cols ∧
          (src.fetch uncached req.start req.stop tf req.adjust).cols ⊆ cached.cols)
      · refine ⟨a, fun n => ?_⟩
        rw [query_succ src (n + 1) cache req symbols hd hs htf hc, if_neg hu]
        simp only
        rw [if_pos hx, query_empty_cache, ha]
      · by_cases hr : ¬ requiredCols ⊆
          (if (src.fetch uncached req.start req.stop tf req.adjust).cols = [] then
            (⟨requiredCols, []⟩ : Frame V)
            else src.fetch uncached req.start req.stop tf req.adjust).cols
        · refine ⟨(.error .columns, cache), fun n => ?_⟩
          rw [query_succ src (n + 1) cache req symbols hd hs htf hc, if_neg hu]
          simp only
          rw [if_neg hx, if_pos hr]
        · obtain ⟨a', ha'⟩ : ∃ a', src.query 2 cache req symbols = some a' := by
            rw [query_succ src 1 cache req symbols hd hs htf hc, if_neg hu]
            simp only
            rw [if_neg hx, if_neg hr]
            exact ⟨_, rfl⟩
          refine ⟨a', fun n => ?_⟩
          rw [← ha', query_succ src (n + 1) cache req symbols hd hs htf hc,
            query_succ src 1 cache req symbols hd hs htf hc]
          simp only [if_neg hu, if_neg hx]
  obtain ⟨ans, hans⟩ := key
  refine ⟨ans, fun fuel hf => ?_⟩
  obtain ⟨n, rfl⟩ : ∃ n, fuel = n + 2 := ⟨fuel - 2, by omega⟩
  exact hans n

/-! ## Answers -/

/-- Everything cached is what the sources serve. -/
def CacheOk (bars : DsKey → QRow V → Prop) (schema : String → String → Prop)
    (c : DsCache V) : Prop :=
  ∀ k f, c k = some f → (∀ r, r ∈ f.rows ↔ r.sym = k.symbol ∧ bars k r) ∧
    (f.rows.map Spec.rowKey).Nodup ∧ f.rows ≠ [] ∧ ∀ col, col ∈ f.cols ↔ schema k.source col

theorem getCached_ok {src : Source V} {bars : DsKey → QRow V → Prop}
    {schema : String → String → Prop} (hreq : ∃ c, schema src.name c)
    {cache : Option (DsCache V)} (hcache : ∀ c, cache = some c → CacheOk bars schema c)
    (req : Request) {tf : Str} {secs : Nat} (htf : toSeconds tf = some secs) {syms : List String}
    (hnd : syms.Nodup) :
    ∃ cached uncached, getCached src cache req tf syms = some (cached, uncached) ∧
      uncached ⊆ syms ∧ (cached.rows.map Spec.rowKey).Nodup ∧
      (∀ r, r ∈ cached.rows ↔ r.sym ∈ syms ∧ r.sym ∉ uncached ∧ bars (dsKey src secs req r.sym) r) ∧
      ((cached.cols = [] ∧ cached.rows = []) ∨ (cached.cols ≠ [] ∧ ∀ c, c ∈ cached.cols ↔ schema src.name c)) ∧
      (uncached = [] → syms ≠ [] → cached.rows ≠ []) := by
  rcases cache with _ | c
  · refine ⟨.nil, syms, rfl, List.Subset.refl _, by simp [Frame.nil], ?_, .inl ⟨rfl, rfl⟩,
      fun h h' => absurd h h'⟩
    intro r
    simp only [Frame.nil, List.not_mem_nil, false_iff]
    rintro ⟨h1, h2, _⟩
    exact h2 h1
  · have hok := hcache c rfl
    refine ⟨concatFrames (syms.filterMap (fun s => c (dsKey src secs req s))),
      syms.filter (fun s => (c (dsKey src secs req s)).isNone), by simp only [getCached, htf],
      fun x hx => (List.mem_filter.mp hx).1, ?_, ?_, ?_, ?_⟩
    · -- one row per key
      simp only [concatFrames]
      have : ∀ l : List String, l.Nodup → (((l.filterMap (fun s => c (dsKey src secs req s))).flatMap
          (·.rows)).map Spec.rowKey).Nodup ∧
          ∀ r ∈ (l.filterMap (fun s => c (dsKey src secs req s))).flatMap (·.rows), r.sym ∈ l := by
        intro l
        induction l with
        | nil => intro _; simp
        | cons s l ih =>
          intro hl
          obtain ⟨hs, hl⟩ := List.nodup_cons.mp hl
          obtain ⟨i1, i2⟩ := ih hl
          rcases hc : c (dsKey src secs req s) with _ | f
          · rw [List.filterMap_cons, hc]
            exact ⟨i1, fun r hr => List.mem_cons_of_mem _ (i2 r hr)⟩
          · obtain ⟨f1, f2, f3, f4⟩ := hok _ _ hc
            rw [List.filterMap_cons, hc]
            simp only [List.flatMap_cons, List.map_append]
            have hsym : ∀ r ∈ f.rows, r.sym = s := fun r hr => ((f1 r).mp hr).1
            constructor
            · rw [List.nodup_append']
              refine ⟨f2, i1, ?_⟩
              intro x hx hy
              obtain ⟨a, ha, rfl⟩ := List.mem_map.mp hx
              obtain ⟨b, hb, hab⟩ := List.mem_map.mp hy
              have h1 := hsym a ha
              have h2 := i2 b hb
              have h3 : b.sym = a.sym := congrArg Prod.snd hab
              rw [h3, h1] at h2
              exact hs h2
            · intro r hr
              rcases List.mem_append.mp hr with h | h
              · rw [hsym r h]; simp
              · exact List.mem_cons_of_mem _ (i2 r h)
      exact (this syms hnd).1
    · intro r
      simp only [concatFrames, List.mem_flatMap, List.mem_filterMap, List.mem_filter]
      constructor
      · rintro ⟨f, ⟨s, hs, hc⟩, hr⟩
        obtain ⟨f1, -⟩ := hok _ _ hc
        obtain ⟨h1, h2⟩ := (f1 r).mp hr
        have h1' : r.sym = s := h1
        rw [h1']
        refine ⟨hs, ?_, h2⟩
        rintro ⟨-, h⟩
        rw [hc] at h
        cases h
      · rintro ⟨h1, h2, h3⟩
        rcases hc : c (dsKey src secs req r.sym) with _ | f
        · exact absurd ⟨h1, by rw [hc]; rfl⟩ h2
        · obtain ⟨f1, -⟩ := hok _ _ hc
          exact ⟨f, ⟨r.sym, h1, hc⟩, (f1 r).mpr ⟨rfl, h3⟩⟩
    · by_cases hf : syms.filterMap (fun s => c (dsKey src secs req s)) = []
      · left; rw [hf]; simp [concatFrames]
      · right
        have hcol : ∀ col, col ∈ (concatFrames (syms.filterMap
            (fun s => c (dsKey src secs req s)))).cols ↔ schema src.name col := by
          intro col
          simp only [concatFrames, List.mem_dedup, List.mem_flatMap]
          constructor
          · rintro ⟨f, hf, hcol⟩
            obtain ⟨s, _, hc⟩ := List.mem_filterMap.mp hf
            exact ((hok _ _ hc).2.2.2 col).mp hcol
          · intro h
            obtain ⟨f, hf⟩ := List.exists_mem_of_ne_nil _ hf
            obtain ⟨s, _, hc⟩ := List.mem_filterMap.mp hf
            exact ⟨f, hf, ((hok _ _ hc).2.2.2 col).mpr h⟩
        refine ⟨?_, hcol⟩
        obtain ⟨x, hx⟩ := hreq
        exact List.ne_nil_of_mem ((hcol x).mpr hx)
    · intro hu hne
      obtain ⟨s, hs⟩ := List.exists_mem_of_ne_nil _ hne
      have h1 : ¬ (c (dsKey src secs req s)).isNone = true := by
        intro h
        have : s ∈ syms.filter (fun s => (c (dsKey src secs req s)).isNone) :=
          List.mem_filter.mpr ⟨hs, h⟩
        rw [hu] at this
        cases this
      rcases hc : c (dsKey src secs req s) with _ | f
      · rw [hc] at h1; exact absurd rfl h1
      · obtain ⟨f1, f2, f3, f4⟩ := hok _ _ hc
        obtain ⟨r, hr⟩ := List.exists_mem_of_ne_nil _ f3
        refine List.ne_nil_of_mem (a := r) ?_
        simp only [concatFrames, List.mem_flatMap, List.mem_filterMap]
        exact ⟨f, ⟨s, hs, hc⟩, hr⟩

/-- A valid query of a serving source: exactly the rows of the requested symbols, sorted,
one per key; the cache stays correct. -/
theorem query_ok {src : Source V} {bars : DsKey → QRow V → Prop}
    {schema : String → String → Prop} (hsrc : Spec.Serves src bars schema)
    {cache : Option (DsCache V)} (hcache : ∀ c, cache = some c → CacheOk bars schema c)
    {req : Request} {symbols : List String} (hd : ¬ req.stop < req.start) (hs : symbols ≠ [])
    {tf : Str} {secs : Nat} (hf : formatTimeframe req.timeframe = some tf)
    (htf : toSeconds tf = some secs) (fuel : Nat) :
    ∃ f cache', src.query (fuel + 1) cache req symbols = some (.ok f, cache') ∧
      (f.rows.map Spec.rowKey).Nodup ∧ f.rows.Pairwise rowLE ∧
      (∀ r, r ∈ f.rows ↔ r.sym ∈ symbols ∧ bars (dsKey src secs req r.sym) r) ∧
      (f.rows ≠ [] → ∀ c, c ∈ f.cols ↔ schema src.name c) ∧
      (∀ c, cache' = some c → CacheOk bars schema c) ∧ cache'.isSome = cache.isSome := by
  have hreq : ∃ c, schema src.name c := ⟨"date", hsrc.required _ (by simp)⟩
  obtain ⟨cached, uncached, hc, hsub, hnd, hmem, hcols, hfull⟩ :=
    getCached_ok hreq hcache req htf (syms := symbols.dedup) (List.nodup_dedup _)
  rw [query_succ src fuel cache req symbols hd hs hf hc]
  have hsd : symbols.dedup ≠ [] := by
    obtain ⟨s, h⟩ := List.exists_mem_of_ne_nil _ hs
    exact List.ne_nil_of_mem (List.mem_dedup.mpr h)
  -- the sorted answer
  have fin : ∀ (R : List (QRow V)), (R.map Spec.rowKey).Nodup →
      ((sortRows R).map Spec.rowKey).Nodup := fun R h =>
    ((sortRows_perm R).map Spec.rowKey).nodup_iff.mpr h
  have sortNil : ∀ R : List (QRow V), R ≠ [] ↔ sortRows R ≠ [] := by
    intro R
    constructor
    · intro h h'
      have := (sortRows_perm R).length_eq
      rw [h'] at this
      exact h (List.length_eq_zero_iff.mp this.symm)
    · rintro h rfl; exact h rfl
  by_cases hu : uncached = []
  · rw [if_pos hu]
    have hne := hfull hu hsd
    have hcn : cached.cols ≠ [] ∧ ∀ c, c ∈ cached.cols ↔ schema src.name c := by
      rcases hcols with ⟨_, h⟩ | h
      · exact absurd h hne
      · exact h
    have hem : cached.isEmpty = false := by
      simp [Frame.isEmpty, hne, hcn.1]
    rw [hem]
    refine ⟨_, _, rfl, ?_, ?_, ?_, ?_, hcache, rfl⟩
    · exact fin _ hnd
    · exact sortRows_sorted _
    · intro r
      simp only [Bool.false_eq_true, if_false]
      rw [(sortRows_perm cached.rows).mem_iff, hmem, hu]
      simp [List.mem_dedup]
    · intro _ c
      exact hcn.2 c
  · rw [if_neg hu]
    simp only
    generalize hdf : src.fetch uncached req.start req.stop tf req.adjust = df
    have dnd : (df.rows.map Spec.rowKey).Nodup := by rw [← hdf]; exact hsrc.distinct _ _ _ _ _
    have dmem : ∀ r, r ∈ df.rows ↔ r.sym ∈ uncached ∧ bars (dsKey src secs req r.sym) r := by
      intro r; rw [← hdf]; exact hsrc.rows _ _ _ _ _ _ r htf
    have dcol : df.rows ≠ [] → ∀ c, c ∈ df.cols ↔ schema src.name c := by
      rw [← hdf]; exact hsrc.columns _ _ _ _ _
    have dreq : df.cols = [] ∨ ∀ c ∈ requiredCols, c ∈ df.cols := by
      rw [← hdf]; exact hsrc.emptyColumns _ _ _ _ _
    have dne : df.cols = [] → df.rows = [] := by
      intro h
      by_contra h'
      obtain ⟨x, hx⟩ := hreq
      have := (dcol h' x).mpr hx
      rw [h] at this
      cases this
    have hno : ¬ (cache.isSome ∧ df.isEmpty = false ∧ cached.cols ≠ [] ∧
        ¬ (cached.cols ⊆ df.cols ∧ df.cols ⊆ cached.cols)) := by
      rintro ⟨-, h1, h2, h3⟩
      have h4 : df.rows ≠ [] := by
        intro h; simp [Frame.isEmpty, h] at h1
      have h5 : ∀ c, c ∈ cached.cols ↔ schema src.name c := by
        rcases hcols with ⟨h, _⟩ | h
        · exact absurd h h2
        · exact h.2
      exact h3 ⟨fun c hc => (dcol h4 c).mpr ((h5 c).mp hc), fun c hc => (h5 c).mpr ((dcol h4 c).mp hc)⟩
    rw [if_neg hno]
    -- the normalized fetch
    obtain ⟨df', hdf', e1, e2, e3⟩ : ∃ df', (if df.cols = [] then (⟨requiredCols, []⟩ : Frame V) else df) = df' ∧
        df'.rows = df.rows ∧ requiredCols ⊆ df'.cols ∧
        (df.rows ≠ [] → ∀ c, c ∈ df'.cols ↔ schema src.name c) := by
      by_cases h : df.cols = []
      · refine ⟨_, if_pos h, (dne h).symm, List.Subset.refl _, fun h' => absurd (dne h) h'⟩
      · refine ⟨_, if_neg h, rfl, ?_, dcol⟩
        rcases dreq with h' | h'
        · exact absurd h' h
        · exact h'
    rw [hdf', if_neg (not_not.mpr e2)]
    have e4 : df'.cols ≠ [] := List.ne_nil_of_mem (e2 (a := "date") (by simp [requiredCols]))
    have e5 : df'.isEmpty = true ↔ df.rows = [] := by
      simp [Frame.isEmpty, e1, e4]
    obtain ⟨out, hout, o1, o2, o3⟩ : ∃ out, (if df'.isEmpty ∧ cached.isEmpty = false then cached
        else concatFrames [cached, df']) = out ∧ out.rows = cached.rows ++ df.rows ∧ out.cols ≠ [] ∧
        (out.rows ≠ [] → ∀ c, c ∈ out.cols ↔ schema src.name c) := by
      by_cases h : df'.isEmpty ∧ cached.isEmpty = false
      · have hcn : cached.cols ≠ [] := by
          intro h'; simp [Frame.isEmpty, h'] at h
        refine ⟨_, if_pos h, by rw [e5.mp h.1]; simp, hcn, ?_⟩
        intro _
        rcases hcols with ⟨h', _⟩ | h'
        · exact absurd h' hcn
        · exact h'.2
      · refine ⟨_, if_neg h, by simp [concatFrames, e1], ?_, ?_⟩
        · obtain ⟨x, hx⟩ := List.exists_mem_of_ne_nil _ e4
          refine List.ne_nil_of_mem (a := x) ?_
          simp only [concatFrames, List.mem_dedup, List.mem_flatMap]
          exact ⟨df', by simp, hx⟩
        · intro hr c
          have hr' : df.rows ≠ [] := by
            intro h0
            have hcr : cached.rows ≠ [] := by
              simp [concatFrames, e1, h0] at hr; exact hr
            apply h
            refine ⟨e5.mpr h0, ?_⟩
            rcases hcols with ⟨_, h'⟩ | h'
            · exact absurd h' hcr
            · simp [Frame.isEmpty, hcr, h'.1]
          simp only [concatFrames, List.mem_dedup, List.mem_flatMap, List.mem_cons,
            List.not_mem_nil, or_false]
          constructor
          · rintro ⟨f, h0 | h0, hcm⟩
            · rw [h0] at hcm
              rcases hcols with ⟨h', _⟩ | h'
              · rw [h'] at hcm; cases hcm
              · exact (h'.2 c).mp hcm
            · rw [h0] at hcm; exact (e3 hr' c).mp hcm
          · intro hc
            exact ⟨df', .inr rfl, (e3 hr' c).mpr hc⟩
    rw [hout]
    have hans : (if out.isEmpty = true then out else (⟨out.cols, sortRows out.rows⟩ : Frame V)) =
        ⟨out.cols, sortRows out.rows⟩ := by
      by_cases h : out.rows = []
      · obtain ⟨oc, orr⟩ := out
        simp only at h
        subst h
        simp [Frame.isEmpty, sortRows]
      · rw [if_neg]; simp [Frame.isEmpty, h, o2]
    rw [hans]
    refine ⟨_, _, rfl, ?_, sortRows_sorted _, ?_, ?_, ?_, ?_⟩
    · apply fin
      rw [o1, List.map_append, List.nodup_append']
      refine ⟨hnd, dnd, ?_⟩
      intro x hx hy
      obtain ⟨a, ha, rfl⟩ := List.mem_map.mp hx
      obtain ⟨b, hb, hab⟩ := List.mem_map.mp hy
      have h3 : b.sym = a.sym := congrArg Prod.snd hab
      have h1 := ((hmem a).mp ha).2.1
      have h2 := ((dmem b).mp hb).1
      rw [h3] at h2
      exact h1 h2
    · intro r
      simp only
      rw [(sortRows_perm out.rows).mem_iff, o1, List.mem_append, hmem, dmem, List.mem_dedup]
      constructor
      · rintro (⟨h1, _, h3⟩ | ⟨h1, h2⟩)
        · exact ⟨h1, h3⟩
        · exact ⟨List.mem_dedup.mp (hsub h1), h2⟩
      · rintro ⟨h1, h2⟩
        by_cases h : r.sym ∈ uncached
        · exact .inr ⟨h, h2⟩
        · exact .inl ⟨h1, h, h2⟩
    · intro h c
      exact o3 ((sortNil _).mpr h) c
    · intro c' hc'
      rcases cache with _ | c
      · simp only [setCached] at hc'
        split at hc' <;> cases hc'
      · obtain ⟨c'', h1, h2⟩ := setCached_apply src c req htf df'
        rw [h1] at hc'
        cases hc'
        intro k f hk
        rw [h2] at hk
        split at hk
        · rename_i hcond
          obtain ⟨q1, q2, r0, hr0, hr0'⟩ := hcond
          cases hk
          have hne : df.rows ≠ [] := by rw [← e1]; exact List.ne_nil_of_mem hr0
          refine ⟨?_, ?_, ?_, ?_⟩
          · intro r
            simp only [List.mem_filter, decide_eq_true_eq]
            rw [e1, dmem]
            constructor
            · rintro ⟨⟨_, h⟩, h'⟩
              refine ⟨h', ?_⟩
              rw [q2, ← h']; exact h
            · rintro ⟨h, h'⟩
              refine ⟨⟨?_, ?_⟩, h⟩
              · rw [h, ← hr0']; exact ((dmem r0).mp (e1 ▸ hr0)).1
              · rw [q2, ← h] at h'; exact h'
          · rw [e1]
            exact dnd.sublist (List.Sublist.map _ (List.filter_sublist))
          · refine List.ne_nil_of_mem (a := r0) ?_
            simp [hr0, hr0']
          · intro col
            have : k.source = src.name := by rw [q2]; rfl
            rw [this]
            exact e3 hne col
        · exact hcache c rfl k f hk
    · rcases cache with _ | c
      · simp only [setCached]
        split <;> rfl
      · obtain ⟨c'', h1, _⟩ := setCached_apply src c req htf df'
        rw [h1]; rfl

/-- A query, valid or not, keeps the cache correct. -/
theorem query_keeps {src : Source V} {bars : DsKey → QRow V → Prop}
    {schema : String → String → Prop} (hsrc : Spec.Serves src bars schema)
    {cache : Option (DsCache V)} (hcache : ∀ c, cache = some c → CacheOk bars schema c)
    (req : Request) (symbols : List String) :
    ∀ c, (match src.query 2 cache req symbols with | some (_, c') => c' | none => cache) = some c →
      CacheOk bars schema c := by
  by_cases hd : req.stop < req.start
  · simpa [Source.query, hd] using hcache
  by_cases hs : symbols = []
  · simpa [Source.query, hd, hs] using hcache
  rcases hf : formatTimeframe req.timeframe with _ | tf
  · simpa [Source.query, hd, hs, hf] using hcache
  obtain ⟨⟨secs, htf⟩, _⟩ := format_seconds hf
  obtain ⟨f, c', h, _, _, _, _, h5, _⟩ := query_ok hsrc hcache hd hs hf htf 1
  rw [h]
  exact h5

/-- The cache is correct after every history. -/
theorem cacheAfter_ok {bars : DsKey → QRow V → Prop} {schema : String → String → Prop}
    (ops : List (Spec.QOp V))
    (hops : ∀ src req syms, Spec.QOp.query src req syms ∈ ops → Spec.Serves src bars schema)
    (cache : Option (DsCache V)) (hcache : ∀ c, cache = some c → CacheOk bars schema c) :
    ∀ c, Spec.cacheAfter ops cache = some c → CacheOk bars schema c := by
  induction ops generalizing cache with
  | nil => exact hcache
  | cons op ops ih =>
    have ih' := ih (fun src req syms h => hops src req syms (by simp [h]))
    cases op with
    | query src req syms =>
      exact ih' _ (query_keeps (hops src req syms (by simp)) hcache req syms)
    | clear =>
      refine ih' _ ?_
      rintro c h k f hk
      cases h; cases hk
    | drop k =>
      refine ih' _ ?_
      rintro c h k' f hk
      rcases cache with _ | c0
      · cases h
      · cases h
        simp only at hk
        split at hk
        · cases hk
        · exact hcache c0 rfl k' f hk

/-- **C60.** After any history of queries (of any sources sharing the cache), clears and
lost entries, a query through the cache gives the same answer as the same query with the
cache disabled: the same error, or the same rows in the same order with the same columns. -/
theorem cached_query_same (bars : DsKey → QRow V → Prop) (schema : String → String → Prop)
    (ops : List (Spec.QOp V))
    (hops : ∀ src req syms, Spec.QOp.query src req syms ∈ ops → Spec.Serves src bars schema)
    (src : Source V) (hsrc : Spec.Serves src bars schema) (req : Request) (symbols : List String) :
    Spec.SameAnswer (src.query 2 (Spec.cacheAfter ops (some fun _ => none)) req symbols)
      (src.query 2 none req symbols) := by
  have hcache := cacheAfter_ok ops hops (some fun _ => none)
    (fun c h k f hk => by cases h; cases hk)
  generalize Spec.cacheAfter ops (some fun _ => none) = cache at *
  by_cases hd : req.stop < req.start
  · simp [Source.query, hd, Spec.SameAnswer]
  by_cases hs : symbols = []
  · simp [Source.query, hd, hs, Spec.SameAnswer]
  rcases hf : formatTimeframe req.timeframe with _ | tf
  · simp [Source.query, hd, hs, hf, Spec.SameAnswer]
  obtain ⟨⟨secs, htf⟩, _⟩ := format_seconds hf
  obtain ⟨f, c', h, a1, a2, a3, a4, -, -⟩ := query_ok hsrc hcache hd hs hf htf 1
  obtain ⟨g, d', h', b1, b2, b3, b4, -, -⟩ :=
    query_ok hsrc (cache := none) (fun c h => by cases h) hd hs hf htf 1
  rw [h, h']
  have hrows : f.rows = g.rows := by
    refine List.Perm.eq_of_pairwise ?_ a2 b2
      ((List.perm_ext_iff_of_nodup (nodup_of_keys a1) (nodup_of_keys b1)).mpr
        fun r => (a3 r).trans (b3 r).symm)
    intro a b ha hb h1 h2
    exact key_inj a1 ha ((a3 b).mpr ((b3 b).mp hb)) (rowLE_antisymm h1 h2)
  refine ⟨hrows, fun hne c => ?_⟩
  rw [a4 hne c, b4 (hrows ▸ hne) c]

/-- **C60.** The answer itself: exactly the rows the source has for the requested symbols,
once each, sorted by date and then symbol. -/
theorem cached_query_rows (bars : DsKey → QRow V → Prop) (schema : String → String → Prop)
    (ops : List (Spec.QOp V))
    (hops : ∀ src req syms, Spec.QOp.query src req syms ∈ ops → Spec.Serves src bars schema)
    (src : Source V) (hsrc : Spec.Serves src bars schema) (req : Request) (symbols : List String)
    (hd : req.start ≤ req.stop) (hs : symbols ≠ []) (secs : Nat)
    (htf : toSeconds req.timeframe = some secs) :
    ∃ f cache', src.query 2 (Spec.cacheAfter ops (some fun _ => none)) req symbols =
        some (.ok f, cache') ∧
      f.rows.Nodup ∧
      f.rows.Pairwise (fun a b => a.date < b.date ∨ (a.date = b.date ∧ a.sym ≤ b.sym)) ∧
      ∀ r, r ∈ f.rows ↔
        r.sym ∈ symbols ∧ bars ⟨r.sym, secs, req.start, req.stop, req.adjust, src.name⟩ r := by
  have hcache := cacheAfter_ok ops hops (some fun _ => none)
    (fun c h k f hk => by cases h; cases hk)
  obtain ⟨tf, hf⟩ : ∃ tf, formatTimeframe req.timeframe = some tf := by
    unfold toSeconds at htf
    unfold formatTimeframe
    split at htf
    · rename_i h; rw [if_pos h]; exact ⟨_, rfl⟩
    · rename_i h
      rw [if_neg h]
      rcases hp : parseTimeframe req.timeframe with _ | ps
      · rw [hp] at htf; cases htf
      · exact ⟨_, rfl⟩
  obtain ⟨-, -, h3⟩ := format_seconds hf
  obtain ⟨f, c', h, a1, a2, a3, -⟩ :=
    query_ok hsrc hcache (not_lt.mpr hd) hs hf (h3 ▸ htf) 1
  exact ⟨f, c', h, nodup_of_keys a1, a2, a3⟩

/-! ## Schema changes -/

/-- Queries with an empty cache and without a cache answer the same. -/
theorem query_fresh (src : Source V) (fuel fuel' : Nat) (req : Request) {tf : Str}
    (hf : formatTimeframe req.timeframe = some tf) (symbols : List String) :
    (src.query (fuel + 1) (some fun _ => none) { req with timeframe := tf } symbols).map (·.1) =
      (src.query (fuel' + 1) none req symbols).map (·.1) := by
  by_cases hd : req.stop < req.start
  · simp [Source.query, hd]
  by_cases hs : symbols = []
  · simp [Source.query, hd, hs]
  obtain ⟨⟨secs, hsec⟩, htf, -⟩ := format_seconds hf
  rw [query_succ src fuel (some fun _ => none) { req with timeframe := tf } symbols hd hs htf
      (getCached_empty src _ hsec _),
    query_succ src fuel' none req symbols hd hs hf (show getCached src none req tf symbols.dedup =
      some (.nil, symbols.dedup) from rfl)]
  simp only [Frame.nil, ne_eq, not_true, false_and, and_false, if_false]
  split
  · simp
  · generalize (if (src.fetch symbols.dedup req.start req.stop tf req.adjust).cols = [] then
      (⟨requiredCols, []⟩ : Frame V) else src.fetch symbols.dedup req.start req.stop tf req.adjust) = df
    by_cases hr : ¬ requiredCols ⊆ df.cols
    · rw [if_pos hr, if_pos hr]; rfl
    · rw [if_neg hr, if_neg hr]; rfl

/-- **C60.** When part of the symbols are cached and the rows fetched for the others have
other columns (one is gone, or one is new), everything is fetched again: the answer is
the one without a cache, whatever the cache holds. -/
theorem schema_change_refetches (src : Source V) (c : DsCache V) (req : Request)
    (symbols : List String) (tf : Str) (secs : Nat)
    (hf : formatTimeframe req.timeframe = some tf) (htf : toSeconds req.timeframe = some secs) :
    let key := fun s => (⟨s, secs, req.start, req.stop, req.adjust, src.name⟩ : DsKey)
    let fetched := src.fetch (symbols.dedup.filter fun s => (c (key s)).isNone) req.start req.stop
      tf req.adjust
    (∃ s ∈ symbols, c (key s) = none) → fetched.rows ≠ [] → fetched.cols ≠ [] →
    (∃ s ∈ symbols, ∃ f, c (key s) = some f ∧ f.cols ≠ []) →
    ((∃ s ∈ symbols, ∃ f col, c (key s) = some f ∧ col ∈ f.cols ∧ col ∉ fetched.cols) ∨
      ∃ col ∈ fetched.cols, ∀ s ∈ symbols, ∀ f, c (key s) = some f → col ∉ f.cols) →
    (src.query 2 (some c) req symbols).map (·.1) = (src.query 2 none req symbols).map (·.1) := by
  intro key fetched hmiss hrows hcols hcached hdiff
  by_cases hd : req.stop < req.start
  · simp [Source.query, hd]
  obtain ⟨⟨secs', hsec⟩, -, h3⟩ := format_seconds hf
  have : secs' = secs := by rw [h3, hsec] at htf; exact Option.some.inj htf
  subst this
  obtain ⟨s0, hs0, hc0⟩ := hmiss
  have hs : symbols ≠ [] := List.ne_nil_of_mem hs0
  have hc : getCached src (some c) req tf symbols.dedup =
      some (concatFrames (symbols.dedup.filterMap (fun s => c (key s))),
        symbols.dedup.filter fun s => (c (key s)).isNone) := by
    simp only [getCached, hsec]; rfl
  rw [query_succ src 1 (some c) req symbols hd hs hf hc]
  rw [if_neg (List.ne_nil_of_mem (a := s0) (List.mem_filter.mpr
    ⟨List.mem_dedup.mpr hs0, by rw [hc0]; rfl⟩))]
  simp only
  have hcol : ∀ col, col ∈ (concatFrames (symbols.dedup.filterMap (fun s => c (key s)))).cols ↔
      ∃ s ∈ symbols, ∃ f, c (key s) = some f ∧ col ∈ f.cols := by
    intro col
    simp only [concatFrames, List.mem_dedup, List.mem_flatMap, List.mem_filterMap]
    constructor
    · rintro ⟨f, ⟨s, hs, hcs⟩, hx⟩; exact ⟨s, hs, f, hcs, hx⟩
    · rintro ⟨s, hs, f, hcs, hx⟩; exact ⟨f, ⟨s, hs, hcs⟩, hx⟩
  rw [if_pos]
  · exact query_fresh src 0 1 req hf symbols
  · refine ⟨rfl, ?_, ?_, ?_⟩
    · change fetched.isEmpty = false
      simp [Frame.isEmpty, hrows, hcols]
    · obtain ⟨s, hs, f, hcs, hfc⟩ := hcached
      obtain ⟨x, hx⟩ := List.exists_mem_of_ne_nil _ hfc
      exact List.ne_nil_of_mem ((hcol x).mpr ⟨s, hs, f, hcs, hx⟩)
    · rintro ⟨h1, h2⟩
      rcases hdiff with ⟨s, hs, f, col, hcs, hx, hn⟩ | ⟨col, hx, hn⟩
      · exact hn (h1 ((hcol col).mpr ⟨s, hs, f, hcs, hx⟩))
      · obtain ⟨s, hs, f, hcs, hy⟩ := (hcol col).mp (h2 hx)
        exact hn s hs f hcs hy

/-! ## Keys -/

/-- **C61.** The answer of a query depends only on the entries cached for its own symbols,
timeframe length, dates, adjustment and source class. -/
theorem query_reads_own (src : Source V) (c c' : DsCache V) (req : Request) (symbols : List String)
    (h : ∀ s ∈ symbols, ∀ secs, toSeconds req.timeframe = some secs →
      c ⟨s, secs, req.start, req.stop, req.adjust, src.name⟩ =
        c' ⟨s, secs, req.start, req.stop, req.adjust, src.name⟩) :
    (src.query 2 (some c) req symbols).map (·.1) = (src.query 2 (some c') req symbols).map (·.1) := by
  by_cases hd : req.stop < req.start
  · simp [Source.query, hd]
  by_cases hs : symbols = []
  · simp [Source.query, hd, hs]
  rcases hf : formatTimeframe req.timeframe with _ | tf
  · simp [Source.query, hd, hs, hf]
  obtain ⟨⟨secs, hsec⟩, -, h3⟩ := format_seconds hf
  have hag : ∀ s ∈ symbols.dedup, c (dsKey src secs req s) = c' (dsKey src secs req s) :=
    fun s hs => h s (List.mem_dedup.mp hs) secs (h3.trans hsec)
  have e1 : symbols.dedup.filterMap (fun s => c (dsKey src secs req s)) =
      symbols.dedup.filterMap (fun s => c' (dsKey src secs req s)) :=
    List.filterMap_congr hag
  have e2 : symbols.dedup.filter (fun s => (c (dsKey src secs req s)).isNone) =
      symbols.dedup.filter (fun s => (c' (dsKey src secs req s)).isNone) :=
    List.filter_congr (fun s hs => by rw [hag s hs])
  have hc : ∀ c : DsCache V, getCached src (some c) req tf symbols.dedup =
      some (concatFrames (symbols.dedup.filterMap (fun s => c (dsKey src secs req s))),
        symbols.dedup.filter fun s => (c (dsKey src secs req s)).isNone) := by
    intro c; simp only [getCached, hsec]
  rw [query_succ src 1 (some c) req symbols hd hs hf (hc c),
    query_succ src 1 (some c') req symbols hd hs hf (hc c'), ← e1, ← e2]
  generalize concatFrames (symbols.dedup.filterMap (fun s => c (dsKey src secs req s))) = cached
  generalize symbols.dedup.filter (fun s => (c (dsKey src secs req s)).isNone) = uncached
  by_cases hu : uncached = []
  · simp only [if_pos hu]; rfl
  rw [if_neg hu, if_neg hu]
  simp only
  generalize src.fetch uncached req.start req.stop tf req.adjust = df
  simp only [Option.isSome_some, true_and]
  by_cases hx : df.isEmpty = false ∧ cached.cols ≠ [] ∧
      ¬ (cached.cols ⊆ df.cols ∧ df.cols ⊆ cached.cols)
  · rw [if_pos hx, if_pos hx]
  · rw [if_neg hx, if_neg hx]
    generalize (if df.cols = [] then (⟨requiredCols, []⟩ : Frame V) else df) = df'
    by_cases hr : ¬ requiredCols ⊆ df'.cols
    · rw [if_pos hr, if_pos hr]; rfl
    · rw [if_neg hr, if_neg hr]; rfl

/-- **C61.** A query writes only entries of its own timeframe length, dates, adjustment
and source class; all other entries are kept, or (after a schema change) all removed. -/
theorem query_writes_own (src : Source V) (c : DsCache V) (req : Request) (symbols : List String) :
    ∃ answer c', src.query 2 (some c) req symbols = some (answer, some c') ∧
      let Other := fun k : DsKey => ¬ (toSeconds req.timeframe = some k.tfSeconds ∧
        k.start = req.start ∧ k.stop = req.stop ∧ k.adjust = req.adjust ∧ k.source = src.name)
      ((∀ k, Other k → c' k = c k) ∨ (∀ k, Other k → c' k = none)) := by
  by_cases hd : req.stop < req.start
  · exact ⟨.error .dates, c, by simp [Source.query, hd], .inl fun _ _ => rfl⟩
  by_cases hs : symbols = []
  · exact ⟨.error .symbols, c, by simp [Source.query, hd, hs], .inl fun _ _ => rfl⟩
  rcases hf : formatTimeframe req.timeframe with _ | tf
  · exact ⟨.error .timeframe, c, by simp [Source.query, hd, hs, hf], .inl fun _ _ => rfl⟩
  obtain ⟨⟨secs, hsec⟩, htf2, h3⟩ := format_seconds hf
  -- a query that does not re-fetch
  have noRec : ∀ (c : DsCache V) (req : Request) (cached : Frame V) (uncached : List String),
      toSeconds tf = some secs → toSeconds req.timeframe = some secs →
      ∃ answer c', (if uncached = [] then
          some (Except.ok (ε := QErr) (if cached.isEmpty then cached else ⟨cached.cols, sortRows cached.rows⟩),
            some c)
        else
          let df := if (src.fetch uncached req.start req.stop tf req.adjust).cols = [] then
            ⟨requiredCols, []⟩ else src.fetch uncached req.start req.stop tf req.adjust
          if ¬ requiredCols ⊆ df.cols then some (.error .columns, some c)
          else
            let cache' := setCached src (some c) req tf df
            let out := if df.isEmpty ∧ cached.isEmpty = false then cached
              else concatFrames [cached, df]
            some (.ok (if out.isEmpty then out else ⟨out.cols, sortRows out.rows⟩), cache')) =
        some (answer, some c') ∧
        ∀ k : DsKey, ¬ (toSeconds req.timeframe = some k.tfSeconds ∧ k.start = req.start ∧
          k.stop = req.stop ∧ k.adjust = req.adjust ∧ k.source = src.name) → c' k = c k := by
    intro c req cached uncached h1 h2
    by_cases hu : uncached = []
    · exact ⟨_, c, by rw [if_pos hu], fun _ _ => rfl⟩
    rw [if_neg hu]
    simp only
    generalize (if (src.fetch uncached req.start req.stop tf req.adjust).cols = [] then
      (⟨requiredCols, []⟩ : Frame V) else src.fetch uncached req.start req.stop tf req.adjust) = df
    by_cases hr : ¬ requiredCols ⊆ df.cols
    · exact ⟨_, c, by rw [if_pos hr], fun _ _ => rfl⟩
    rw [if_neg hr]
    obtain ⟨c', hc', hk⟩ := setCached_apply src c req h1 df
    refine ⟨_, c', by rw [hc'], fun k hk' => ?_⟩
    rw [hk, if_neg]
    rintro ⟨-, h, -⟩
    apply hk'
    rw [h]
    exact ⟨h2, rfl, rfl, rfl, rfl⟩
  have hc : getCached src (some c) req tf symbols.dedup =
      some (concatFrames (symbols.dedup.filterMap (fun s => c (dsKey src secs req s))),
        symbols.dedup.filter fun s => (c (dsKey src secs req s)).isNone) := by
    simp only [getCached, hsec]
  rw [query_succ src 1 (some c) req symbols hd hs hf hc]
  generalize concatFrames (symbols.dedup.filterMap (fun s => c (dsKey src secs req s))) = cached
  generalize symbols.dedup.filter (fun s => (c (dsKey src secs req s)).isNone) = uncached
  by_cases hx : uncached ≠ [] ∧
      (src.fetch uncached req.start req.stop tf req.adjust).isEmpty = false ∧ cached.cols ≠ [] ∧
      ¬ (cached.cols ⊆ (src.fetch uncached req.start req.stop tf req.adjust).cols ∧
        (src.fetch uncached req.start req.stop tf req.adjust).cols ⊆ cached.cols)
  · obtain ⟨a, c', h, hk⟩ := noRec (fun _ => none) { req with timeframe := tf } .nil symbols.dedup
      hsec hsec
    refine ⟨a, c', ?_, .inr fun k hk' => hk k ?_⟩
    · rw [if_neg hx.1]
      simp only
      rw [if_pos ⟨rfl, hx.2⟩, query_succ src 0 (some fun _ => none) { req with timeframe := tf }
        symbols hd hs htf2 (getCached_empty src _ hsec _), ← h]
      simp only [Frame.nil, ne_eq, not_true, false_and, and_false, if_false]
    · rw [← h3]; exact hk'
  · obtain ⟨a, c', h, hk⟩ := noRec c req cached uncached hsec (h3.trans hsec)
    refine ⟨a, c', ?_, .inl hk⟩
    rw [← h]
    by_cases hu : uncached = []
    · rw [if_pos hu, if_pos hu]
    · rw [if_neg hu, if_neg hu]
      simp only
      rw [if_neg (fun h => hx ⟨hu, h.2⟩)]

/-- **C61 (partial).** Two queries whose timeframe lengths, dates, adjustments or source
classes differ do not share data: after the first, the second answers what it would have
answered before it, or what it answers with nothing cached.  Missing: the settings of a
source object and timeframes of equal length are not told apart
(`settings_not_separated`, `timeframes_not_separated`). -/
theorem requests_separate_partial (src src' : Source V) (c : DsCache V) (req req' : Request)
    (symbols symbols' : List String)
    (hdiff : toSeconds req.timeframe ≠ toSeconds req'.timeframe ∨ req.start ≠ req'.start ∨
      req.stop ≠ req'.stop ∨ req.adjust ≠ req'.adjust ∨ src.name ≠ src'.name) :
    ∃ answer c', src.query 2 (some c) req symbols = some (answer, some c') ∧
      ((src'.query 2 (some c') req' symbols').map (·.1) =
          (src'.query 2 (some c) req' symbols').map (·.1) ∨
        (src'.query 2 (some c') req' symbols').map (·.1) =
          (src'.query 2 (some fun _ => none) req' symbols').map (·.1)) := by
  obtain ⟨a, c', h, hw⟩ := query_writes_own src c req symbols
  have hother : ∀ secs, toSeconds req'.timeframe = some secs →
      ¬ (toSeconds req.timeframe = some secs ∧ req'.start = req.start ∧ req'.stop = req.stop ∧
        req'.adjust = req.adjust ∧ src'.name = src.name) := by
    rintro secs hsec ⟨h1, h2, h3, h4, h5⟩
    rcases hdiff with h | h | h | h | h
    · exact h (h1.trans hsec.symm)
    · exact h h2.symm
    · exact h h3.symm
    · exact h h4.symm
    · exact h h5.symm
  refine ⟨a, c', h, ?_⟩
  rcases hw with hw | hw
  · left
    exact query_reads_own src' c' c req' symbols' (fun s _ secs hsec =>
      hw ⟨s, secs, req'.start, req'.stop, req'.adjust, src'.name⟩ (hother secs hsec))
  · right
    exact query_reads_own src' c' _ req' symbols' (fun s _ secs hsec =>
      hw ⟨s, secs, req'.start, req'.stop, req'.adjust, src'.name⟩ (hother secs hsec))

/-- **C61.** Keys of trained models agree exactly when symbol, model name, dates,
timeframe, filters, look-ahead and the *set* (with multiplicity) of pooled symbols agree;
the order of the pooled symbols does not matter. -/
theorem model_keys (f f' : DateFields) (s s' m m' : String) (p p' : Option (List String))
    (l l' : Option Nat) :
    modelKey f s m p l = modelKey f' s' m' p' l' ↔
      f = f' ∧ s = s' ∧ m = m' ∧ l = l' ∧
        ((p = none ∧ p' = none) ∨ ∃ a b, p = some a ∧ p' = some b ∧ a.Perm b) := by
  have hsort : ∀ a b : List String,
      a.insertionSort (· ≤ ·) = b.insertionSort (· ≤ ·) ↔ a.Perm b := by
    intro a b
    constructor
    · intro h
      exact (List.perm_insertionSort _ a).symm.trans (h ▸ List.perm_insertionSort _ b)
    · intro h
      exact List.Perm.eq_of_pairwise (fun x y _ _ h1 h2 => le_antisymm h1 h2)
        (List.pairwise_insertionSort _ a) (List.pairwise_insertionSort _ b)
        ((List.perm_insertionSort _ a).trans (h.trans (List.perm_insertionSort _ b).symm))
  obtain ⟨f1, f2, f3, f4, f5⟩ := f
  obtain ⟨g1, g2, g3, g4, g5⟩ := f'
  simp only [modelKey, ModelKey.mk.injEq, DateFields.mk.injEq]
  have hp : p.map (fun l => l.insertionSort (· ≤ ·)) = p'.map (fun l => l.insertionSort (· ≤ ·)) ↔
      ((p = none ∧ p' = none) ∨ ∃ a b, p = some a ∧ p' = some b ∧ a.Perm b) := by
    rcases p with _ | a <;> rcases p' with _ | b
    · simp
    · simp
    · simp
    · simp [hsort]
  rw [hp]
  tauto

end

/-! ## Examples -/

/-- A source with one bar per symbol on day 1 for `"A"` and `"B"`, and the given columns
and price. -/
def toySource (name : String) (extra : List String) (price : Nat) : Source Nat :=
  ⟨name, fun syms _ _ _ _ =>
    let rows := (["A", "B"].filter (· ∈ syms)).map fun s => ⟨s, 1, fun _ => some price⟩
    ⟨if rows = [] then [] else requiredCols ++ extra, rows⟩⟩

/-- The columns and prices of an answer. -/
def answerOf (r : Option (Except QErr (Frame Nat) × Option (DsCache Nat))) :
    Option (List String × List (String × Int × Option Nat)) :=
  match r with
  | some (.ok f, _) => some (f.cols, f.rows.map fun r => (r.sym, r.date, r.cells "close"))
  | _ => none

/-- The cache after a query. -/
def cacheOf (r : Option (Except QErr (Frame Nat) × Option (DsCache Nat))) : Option (DsCache Nat) :=
  match r with
  | some (_, c) => c
  | none => none

def dayReq : Request := ⟨0, 9, "1d".toList, none⟩

/-- The toy sources serve fixed bars. -/
theorem toySource_serves (name : String) (extra : List String) (price : Nat) :
    Spec.Serves (toySource name extra price)
      (fun k r => (k.symbol = "A" ∨ k.symbol = "B") ∧ r = ⟨k.symbol, 1, fun _ => some price⟩)
      (fun _ c => c ∈ requiredCols ++ extra) := by
  constructor
  · intro syms a b tf adj
    simp only [toySource, List.map_map]
    refine List.Nodup.map_on ?_ ((by decide : ["A", "B"].Nodup).filter _)
    intro x _ y _ h
    exact congrArg Prod.snd h
  · intro syms a b tf adj secs r _
    simp only [toySource, List.mem_map, List.mem_filter, List.mem_cons, List.not_mem_nil, or_false,
      decide_eq_true_eq]
    constructor
    · rintro ⟨s, ⟨h1, h2⟩, rfl⟩
      exact ⟨h2, h1, rfl⟩
    · rintro ⟨h1, h2, h3⟩
      exact ⟨r.sym, ⟨h2, h1⟩, h3.symm⟩
  · intro syms a b tf adj h c
    simp only [toySource] at h ⊢
    rw [if_neg h]
  · intro c hc
    exact List.mem_append_left _ hc
  · intro syms a b tf adj
    simp only [toySource]
    split
    · exact .inl rfl
    · right; intro c hc; exact List.mem_append_left _ hc

/-- A history of two sources, and an answer partly from the cache. -/
example :
    let a := toySource "a" [] 5
    let c1 := cacheOf (a.query 2 (some fun _ => none) dayReq ["B"])
    (c1.bind fun c => c ⟨"B", 86400, 0, 9, none, "a"⟩).isSome = true ∧
    answerOf (a.query 2 c1 dayReq ["B", "A", "B"]) =
      some (requiredCols, [("A", 1, some 5), ("B", 1, some 5)]) ∧
    answerOf (a.query 2 c1 dayReq ["Z"]) = some (requiredCols, []) := by
  refine ⟨?_, ?_, ?_⟩ <;> decide +kernel

/-- A column appears: the cached symbol is fetched again. -/
example :
    let old := toySource "a" [] 5
    let new := toySource "a" ["vwap"] 6
    let c1 := cacheOf (old.query 2 (some fun _ => none) dayReq ["B"])
    answerOf (new.query 2 c1 dayReq ["A", "B"]) =
      some (requiredCols ++ ["vwap"], [("A", 1, some 6), ("B", 1, some 6)]) := by
  decide +kernel

/-- Two objects of one class with different settings (as `YFinance(auto_adjust=...)`) share
entries: the second is answered with the first one's bars.  data.py:94, 156. -/
theorem settings_not_separated :
    let adjusted := toySource "pybroker.data.YFinance" [] 5
    let raw := toySource "pybroker.data.YFinance" [] 6
    let c1 := cacheOf (adjusted.query 2 (some fun _ => none) dayReq ["A"])
    answerOf (raw.query 2 c1 dayReq ["A"]) = some (requiredCols, [("A", 1, some 5)]) ∧
    answerOf (raw.query 2 none dayReq ["A"]) = some (requiredCols, [("A", 1, some 6)]) := by
  refine ⟨?_, ?_⟩ <;> decide +kernel

/-- A source that answers differently for `"24h"` and `"1d"` bars. -/
def barSource : Source Nat :=
  ⟨"x", fun syms _ _ tf _ =>
    ⟨requiredCols, syms.map fun s => ⟨s, 1, fun _ => some (if tf = "1day".toList then 1 else 24)⟩⟩⟩

/-- Timeframes of the same length share entries: daily bars are answered with the 24-hour
bars fetched before.  data.py:80, 147. -/
theorem timeframes_not_separated :
    let c1 := cacheOf (barSource.query 2 (some fun _ => none) ⟨0, 9, "24h".toList, none⟩ ["A"])
    answerOf (barSource.query 2 c1 dayReq ["A"]) = some (requiredCols, [("A", 1, some 24)]) ∧
    answerOf (barSource.query 2 none dayReq ["A"]) = some (requiredCols, [("A", 1, some 1)]) := by
  refine ⟨?_, ?_⟩ <;> decide +kernel

example : modelKey ⟨0, 9, 60, none, none⟩ "A" "m" (some ["B", "A"]) none =
    modelKey ⟨0, 9, 60, none, none⟩ "A" "m" (some ["A", "B"]) none := by decide +kernel

end PyBroker
