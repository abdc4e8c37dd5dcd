import Verif.Indicator.Builtin
import Verif.Props.Causal
import Verif.Props.Bounds

/-!
# C142: the built-in indicators
-/

namespace PyBroker

open Spec

namespace Spec

/-- The columns that the documentation of a built-in indicator names. -/
def columns : Builtin → List String
  | .highest f _ => [f]
  | .lowest f _ => [f]
  | .returns f _ => [f]
  | .detrendedRsi f _ _ _ => [f]
  | .macd _ _ _ _ => ["high", "low", "close"]
  | .stochastic _ _ => ["high", "low", "close"]
  | .stochasticRsi f _ _ _ => [f]
  | .trend _ f _ _ _ => [f, "high", "low", "close"]
  | .atr _ => ["high", "low", "close"]
  | .adx _ => ["high", "low", "close"]
  | .aroonUp _ => ["high", "low"]
  | .aroonDown _ => ["high", "low"]
  | .aroonDiff _ => ["high", "low"]
  | .closeMinusMa _ _ _ => ["high", "low", "close"]
  | .deviation _ f _ _ => [f]
  | .priceIntensity _ _ => ["open", "high", "low", "close"]
  | .priceChangeOscillator _ _ _ => ["high", "low", "close"]
  | .intradayIntensity _ _ => ["high", "low", "close", "volume"]
  | .moneyFlow _ _ => ["high", "low", "close", "volume"]
  | .reactivity _ _ _ => ["high", "low", "close", "volume"]
  | .priceVolumeFit _ _ => ["close", "volume"]
  | .volumeWeightedMaRatio _ _ => ["close", "volume"]
  | .normalizedObv _ _ => ["close", "volume"]
  | .deltaObv _ _ _ => ["close", "volume"]
  | .normalizedPvi _ _ => ["close", "volume"]
  | .normalizedNvi _ _ => ["close", "volume"]
  | .volumeMomentum _ _ _ => ["volume"]
  | .laguerreRsi _ => ["open", "high", "low", "close"]

/-- The lengths an indicator is given, all of which must be positive. -/
def lengths : Builtin → List Nat
  | .highest _ n => [n]
  | .lowest _ n => [n]
  | .returns _ n => [n]
  | .detrendedRsi _ s l r => [s, l, r]
  | .macd s l _ _ => [s, l]
  | .stochastic n _ => [n]
  | .stochasticRsi _ r s _ => [r, s]
  | .trend _ _ n a _ => [n, a]
  | .atr n => [n]
  | .adx n => [n]
  | .aroonUp n => [n]
  | .aroonDown n => [n]
  | .aroonDiff n => [n]
  | .closeMinusMa n a _ => [n, a]
  | .deviation _ _ n _ => [n]
  | .priceIntensity _ _ => []
  | .priceChangeOscillator s m _ => [s, m]
  | .intradayIntensity n _ => [n]
  | .moneyFlow n _ => [n]
  | .reactivity n _ _ => [n]
  | .priceVolumeFit n _ => [n]
  | .volumeWeightedMaRatio n _ => [n]
  | .normalizedObv n _ => [n]
  | .deltaObv n _ _ => [n]
  | .normalizedPvi n _ => [n]
  | .normalizedNvi n _ => [n]
  | .volumeMomentum s m _ => [s, m]
  | .laguerreRsi n => [n]

/-- The range of an indicator, if it has one: that of its documentation, except for the MACD with
smoothing and the delta of the on-balance volume, which leave it (C77). -/
def range : Builtin → Option (ℚ × ℚ)
  | .highest _ _ => none
  | .lowest _ _ => none
  | .returns _ _ => none
  | .detrendedRsi _ _ _ _ => none
  | .atr _ => none
  | .intradayIntensity _ _ => none
  | .macd _ _ sm _ => if sm ≤ 1 then some (-50, 50) else some (-100, 100)
  | .stochasticRsi _ r _ _ => if 2 ≤ r then some (-50, 50) else none
  | .adx _ => some (0, 100)
  | .aroonUp _ => some (0, 100)
  | .aroonDown _ => some (0, 100)
  | .laguerreRsi _ => some (0, 100)
  | .aroonDiff _ => some (-100, 100)
  | .moneyFlow _ _ => some (-100, 100)
  | .deltaObv _ _ _ => some (-100, 100)
  | _ => some (-50, 50)

/-- Low ≤ close ≤ high, and no negative volume, on each bar. -/
def Sound (d : PBars) : Prop := ∀ b ∈ d.bars, b.low ≤ b.close ∧ b.close ≤ b.high ∧ 0 ≤ b.volume

/-- The two have the same columns, and the same bars up to and including `t`. -/
structure SameBars (t : Nat) (d d' : PBars) : Prop where
  bars : d.bars.take (t + 1) = d'.bars.take (t + 1)
  volume : d.hasVolume = d'.hasVolume
  vwap : d.hasVwap = d'.hasVwap
  custom : d.custom = d'.custom

/-- Not a case in which the value of bar `t` can change when later bars arrive: an ADX over fewer
bars than twice its lookback, and four volume indicators with lookback 1 as long as there was no
volume. -/
def Settled (t : Nat) (d d' : PBars) : Builtin → Prop
  | .adx n => 2 * n ≤ d.bars.length ∧ 2 * n ≤ d'.bars.length
  | .intradayIntensity n _ => 2 ≤ n ∨ ∃ b ∈ d.bars.take (t + 1), 0 < b.volume
  | .moneyFlow n _ => 2 ≤ n ∨ ∃ b ∈ d.bars.take (t + 1), 0 < b.volume
  | .priceVolumeFit n _ => 2 ≤ n ∨ ∃ b ∈ d.bars.take (t + 1), 0 < b.volume
  | .volumeWeightedMaRatio n _ => 2 ≤ n ∨ ∃ b ∈ d.bars.take (t + 1), 0 < b.volume
  | _ => True

end Spec

theorem full_some {x : Option (List ℚ)} {o : List (Option ℚ)} (h : full x = some o) :
    ∃ l, x = some l ∧ o = l.map some := by
  cases x with
  | none => cases h
  | some l => exact ⟨l, rfl, (Option.some.inj h).symm⟩

theorem bind_some' {α β : Type} {x : Option α} {f : α → Option β} {b : β}
    (h : x.bind f = some b) : ∃ a, x = some a ∧ f a = some b := by
  cases x with
  | none => cases h
  | some a => exact ⟨a, rfl, h⟩

theorem field_length {d : PBars} {f : String} {v : List ℚ} (h : d.field f = some v) :
    v.length = d.bars.length := by
  unfold PBars.field at h
  repeat' split at h
  all_goals first
    | cases h; done
    | (rw [← Option.some.inj h, List.length_map])

theorem volumes_length {d : PBars} {v : List ℚ} (h : d.volumes = some v) :
    v.length = d.bars.length := by
  unfold PBars.volumes at h
  split at h
  · rw [← Option.some.inj h, List.length_map]
  · cases h

theorem field_same {d d' : PBars} {t : Nat} (hs : SameBars t d d')
    {f : String} {v v' : List ℚ} (h : d.field f = some v) (h' : d'.field f = some v') :
    SameTo t v v' := by
  obtain ⟨hb, h1, h2, h3⟩ := hs
  unfold SameTo
  unfold PBars.field at h h'
  rw [← h1, ← h2, ← h3] at h'
  repeat' split at h
  all_goals first
    | cases h; done
    | skip
  all_goals
    simp_all only [if_true, if_false, reduceCtorEq]
    cases h
    cases h'
    rw [← List.map_take, ← List.map_take, hb]

theorem col_same {d d' : PBars} {t : Nat} (hs : SameBars t d d') (g : PBar → ℚ) :
    SameTo t (d.bars.map g) (d'.bars.map g) := by
  unfold SameTo
  rw [← List.map_take, ← List.map_take, hs.bars]

theorem volumes_some {d : PBars} {v : List ℚ} (h : d.volumes = some v) :
    v = d.bars.map PBar.volume := by
  unfold PBars.volumes at h
  split at h
  · exact (Option.some.inj h).symm
  · cases h

theorem volume_seen {d : PBars} {t n : Nat}
    (h : 2 ≤ n ∨ ∃ b ∈ d.bars.take (t + 1), 0 < b.volume) :
    2 ≤ n ∨ ∃ j ≤ t, rd (d.bars.map PBar.volume) j > 0 := by
  rcases h with h | ⟨b, hb, hv⟩
  · exact .inl h
  · right
    obtain ⟨j, hj, he⟩ := List.getElem_of_mem hb
    rw [List.length_take] at hj
    refine ⟨j, by omega, ?_⟩
    rw [List.getElem_take] at he
    unfold rd
    rw [List.getD_eq_getElem?_getD, List.getElem?_map, List.getElem?_eq_getElem (by omega), he]
    exact hv

theorem map_some_get {l l' : List ℚ} {t : Nat} (h : l[t]? = l'[t]?) :
    (l.map some)[t]? = (l'.map some)[t]? := by
  rw [List.getElem?_map, List.getElem?_map, h]

theorem sameTo_some {t : Nat} {v v' : List ℚ} (h : SameTo t v v') :
    (v.map some).take (t + 1) = (v'.map some).take (t + 1) := by
  rw [← List.map_take, ← List.map_take, h]

theorem highv_causal {arr arr' o o' : List (Option ℚ)} {n t : Nat} (ht : t < arr.length)
    (ht' : t < arr'.length) (ha : arr.take (t + 1) = arr'.take (t + 1))
    (h : highv arr n = some o) (h' : highv arr' n = some o') : o[t]? = o'[t]? := by
  obtain ⟨x, h1, h2, h3⟩ := (highv_window_max h).2 t ht
  obtain ⟨x', h1', h2', h3'⟩ := (highv_window_max h').2 t ht'
  rw [h1, h1']
  by_cases hn : t + 1 < n
  · rw [h2 hn, h2' hn]
  · have a := h3 (by omega)
    have b := h3' (by omega)
    rw [← window_congr (le_refl t) ha] at b
    rw [isBest_unique' a b]

theorem lowv_causal {arr arr' o o' : List (Option ℚ)} {n t : Nat} (ht : t < arr.length)
    (ht' : t < arr'.length) (ha : arr.take (t + 1) = arr'.take (t + 1))
    (h : lowv arr n = some o) (h' : lowv arr' n = some o') : o[t]? = o'[t]? := by
  obtain ⟨x, h1, h2, h3⟩ := (lowv_window_min h).2 t ht
  obtain ⟨x', h1', h2', h3'⟩ := (lowv_window_min h').2 t ht'
  rw [h1, h1']
  by_cases hn : t + 1 < n
  · rw [h2 hn, h2' hn]
  · have a := h3 (by omega)
    have b := h3' (by omega)
    rw [← window_congr (le_refl t) ha] at b
    rw [isBest_unique a b]

theorem returnv_causal {arr arr' o o' : List (Option ℚ)} {n t : Nat} (ht : t < arr.length)
    (ht' : t < arr'.length) (ha : arr.take (t + 1) = arr'.take (t + 1))
    (h : returnv arr n = some o) (h' : returnv arr' n = some o') : o[t]? = o'[t]? := by
  unfold returnv at h h'
  obtain ⟨rfl, _⟩ := verified_some h (by simp)
  obtain ⟨rfl, _⟩ := verified_some h' (by simp)
  rw [List.getElem?_map, List.getElem?_map, List.getElem?_range ht, List.getElem?_range ht',
    Option.map_some, Option.map_some]
  rw [take_getElem? (le_refl t) ha, take_getElem? (Nat.sub_le t n) ha]

/-- **C142.**  A built-in indicator has one value for each bar. -/
theorem builtin_length (F : Fns ℚ) (b : Builtin) (d : PBars) {out : List (Option ℚ)}
    (h : b.compute F d = some out) : out.length = d.bars.length := by
  cases b <;> simp only [Builtin.compute] at h
  case highest f n =>
    obtain ⟨v, hf, h⟩ := bind_some' h
    rw [(highv_window_max h).1, List.length_map, field_length hf]
  case lowest f n =>
    obtain ⟨v, hf, h⟩ := bind_some' h
    rw [(lowv_window_min h).1, List.length_map, field_length hf]
  case returns f n =>
    obtain ⟨v, hf, h⟩ := bind_some' h
    unfold returnv at h
    obtain ⟨rfl, _⟩ := verified_some h (by simp)
    simp [field_length hf]
  case atr n =>
    unfold atr at h
    split at h
    · obtain ⟨rfl, _⟩ := verified_some h (series_length _ _)
      simp [series_length]
    · cases h
  case detrendedRsi | stochasticRsi | trend | deviation =>
    obtain ⟨v, hf, h⟩ := bind_some' h
    obtain ⟨o, g, rfl⟩ := full_some h
    obtain ⟨-, rfl⟩ := ite_some g
    simp [series_length, field_length hf]
  case intradayIntensity | moneyFlow | reactivity | priceVolumeFit | volumeWeightedMaRatio |
      normalizedObv | deltaObv | normalizedPvi | normalizedNvi | volumeMomentum =>
    obtain ⟨v, hf, h⟩ := bind_some' h
    obtain ⟨o, g, rfl⟩ := full_some h
    obtain ⟨-, rfl⟩ := ite_some g
    simp [series_length, volumes_length hf]
  all_goals
    obtain ⟨o, g, rfl⟩ := full_some h
    obtain ⟨-, rfl⟩ := ite_some g
    simp [series_length]

/-- **C142** (part).  The value of a built-in indicator on a bar depends on no later bar.  Missing: the
cases that `Settled` excludes, in which it does, see `adx_not_causal` and
`priceVolumeFit_no_volume`. -/
theorem builtin_no_lookahead_partial (F : Fns ℚ) (b : Builtin) {d d' : PBars} {t : Nat}
    (hs : SameBars t d d') (ht : t < d.bars.length) (ht' : t < d'.bars.length)
    (hq : Settled t d d' b) {out out' : List (Option ℚ)} (h : b.compute F d = some out)
    (h' : b.compute F d' = some out') : out[t]? = out'[t]? := by
  have hh := col_same hs PBar.high
  have hl := col_same hs PBar.low
  have hc := col_same hs PBar.close
  have ho := col_same hs PBar.opn
  have hv := col_same hs PBar.volume
  have lh : t < (d.bars.map PBar.high).length := by rwa [List.length_map]
  have lh' : t < (d'.bars.map PBar.high).length := by rwa [List.length_map]
  have lc : t < (d.bars.map PBar.close).length := by rwa [List.length_map]
  have lc' : t < (d'.bars.map PBar.close).length := by rwa [List.length_map]
  have lv : t < (d.bars.map PBar.volume).length := by rwa [List.length_map]
  have lv' : t < (d'.bars.map PBar.volume).length := by rwa [List.length_map]
  cases b <;> simp only [Builtin.compute] at h h'
  case highest f n =>
    obtain ⟨v, hf, h⟩ := bind_some' h
    obtain ⟨v', hf', h'⟩ := bind_some' h'
    exact highv_causal (by rwa [List.length_map, field_length hf])
      (by rwa [List.length_map, field_length hf']) (sameTo_some (field_same hs hf hf')) h h'
  case lowest f n =>
    obtain ⟨v, hf, h⟩ := bind_some' h
    obtain ⟨v', hf', h'⟩ := bind_some' h'
    exact lowv_causal (by rwa [List.length_map, field_length hf])
      (by rwa [List.length_map, field_length hf']) (sameTo_some (field_same hs hf hf')) h h'
  case returns f n =>
    obtain ⟨v, hf, h⟩ := bind_some' h
    obtain ⟨v', hf', h'⟩ := bind_some' h'
    exact returnv_causal (by rwa [List.length_map, field_length hf])
      (by rwa [List.length_map, field_length hf']) (sameTo_some (field_same hs hf hf')) h h'
  case detrendedRsi f s l r =>
    obtain ⟨v, hf, h⟩ := bind_some' h
    obtain ⟨v', hf', h'⟩ := bind_some' h'
    obtain ⟨o, g, rfl⟩ := full_some h
    obtain ⟨o', g', rfl⟩ := full_some h'
    exact map_some_get (detrendedRsi_causal F (field_same hs hf hf') g g'
      (by rwa [field_length hf]) (by rwa [field_length hf']))
  case macd =>
    obtain ⟨o, g, rfl⟩ := full_some h
    obtain ⟨o', g', rfl⟩ := full_some h'
    exact map_some_get (macd_causal F hh hl hc g g' lc lc')
  case stochastic =>
    obtain ⟨o, g, rfl⟩ := full_some h
    obtain ⟨o', g', rfl⟩ := full_some h'
    exact map_some_get (stochastic_causal hh hl hc g g' lc lc')
  case stochasticRsi =>
    obtain ⟨v, hf, h⟩ := bind_some' h
    obtain ⟨v', hf', h'⟩ := bind_some' h'
    obtain ⟨o, g, rfl⟩ := full_some h
    obtain ⟨o', g', rfl⟩ := full_some h'
    exact map_some_get (stochasticRsi_causal (field_same hs hf hf') g g'
      (by rwa [field_length hf]) (by rwa [field_length hf']))
  case trend =>
    obtain ⟨v, hf, h⟩ := bind_some' h
    obtain ⟨v', hf', h'⟩ := bind_some' h'
    obtain ⟨o, g, rfl⟩ := full_some h
    obtain ⟨o', g', rfl⟩ := full_some h'
    exact map_some_get (trend_causal F (field_same hs hf hf') hh hl hc g g'
      (by rwa [field_length hf]) (by rwa [field_length hf']))
  case atr => exact atr_causal F hh hl hc h h' lc lc'
  case adx n =>
    obtain ⟨o, g, rfl⟩ := full_some h
    obtain ⟨o', g', rfl⟩ := full_some h'
    exact map_some_get (adx_causal_partial hh hl hc g g' lc lc' (by rw [List.length_map]; exact hq.1)
      (by rw [List.length_map]; exact hq.2))
  case aroonUp n =>
    obtain ⟨o, g, rfl⟩ := full_some h
    obtain ⟨o', g', rfl⟩ := full_some h'
    have c := (ite_some g).1
    have c' := (ite_some g').1
    exact map_some_get (aroon_causal hh hl g (if_pos c) (if_pos c) g' (if_pos c') (if_pos c')
      lh lh').1
  case aroonDown n =>
    obtain ⟨o, g, rfl⟩ := full_some h
    obtain ⟨o', g', rfl⟩ := full_some h'
    have c := (ite_some g).1
    have c' := (ite_some g').1
    exact map_some_get (aroon_causal hh hl (if_pos c) g (if_pos c) (if_pos c') g' (if_pos c')
      lh lh').2.1
  case aroonDiff n =>
    obtain ⟨o, g, rfl⟩ := full_some h
    obtain ⟨o', g', rfl⟩ := full_some h'
    have c := (ite_some g).1
    have c' := (ite_some g').1
    exact map_some_get (aroon_causal hh hl (if_pos c) (if_pos c) g (if_pos c') (if_pos c') g'
      lh lh').2.2
  case closeMinusMa =>
    obtain ⟨o, g, rfl⟩ := full_some h
    obtain ⟨o', g', rfl⟩ := full_some h'
    exact map_some_get (closeMinusMa_causal F hh hl hc g g' lc lc')
  case deviation =>
    obtain ⟨v, hf, h⟩ := bind_some' h
    obtain ⟨v', hf', h'⟩ := bind_some' h'
    obtain ⟨o, g, rfl⟩ := full_some h
    obtain ⟨o', g', rfl⟩ := full_some h'
    exact map_some_get (deviation_causal F (field_same hs hf hf') g g'
      (by rwa [field_length hf]) (by rwa [field_length hf']))
  case priceIntensity =>
    obtain ⟨o, g, rfl⟩ := full_some h
    obtain ⟨o', g', rfl⟩ := full_some h'
    exact map_some_get (priceIntensity_causal F ho hh hl hc g g' lc lc')
  case priceChangeOscillator =>
    obtain ⟨o, g, rfl⟩ := full_some h
    obtain ⟨o', g', rfl⟩ := full_some h'
    exact map_some_get (priceChangeOscillator_causal F hh hl hc g g' lc lc')
  case laguerreRsi =>
    obtain ⟨o, g, rfl⟩ := full_some h
    obtain ⟨o', g', rfl⟩ := full_some h'
    exact map_some_get (laguerreRsi_causal F ho hh hl hc g g' lc lc')
  all_goals
    obtain ⟨v, hf, h⟩ := bind_some' h
    obtain ⟨v', hf', h'⟩ := bind_some' h'
    cases volumes_some hf
    cases volumes_some hf'
    obtain ⟨o, g, rfl⟩ := full_some h
    obtain ⟨o', g', rfl⟩ := full_some h'
  case intradayIntensity => exact map_some_get (flow_causal hh hl hc hv (volume_seen hq) g g' lc lc')
  case moneyFlow => exact map_some_get (flow_causal hh hl hc hv (volume_seen hq) g g' lc lc')
  case reactivity => exact map_some_get (reactivity_causal F hh hl hc hv g g' lc lc')
  case priceVolumeFit =>
    have c := (ite_some g).1
    have c' := (ite_some g').1
    exact map_some_get (volumeFit_causal F hc hv (volume_seen hq) g (if_pos c) g' (if_pos c') lc lc').1
  case volumeWeightedMaRatio =>
    have c := (ite_some g).1
    have c' := (ite_some g').1
    exact map_some_get (volumeFit_causal F hc hv (volume_seen hq) (if_pos c) g (if_pos c') g' lc lc').2
  case normalizedObv =>
    have c := (ite_some g).1
    have c' := (ite_some g').1
    exact map_some_get (obv_causal (d := 0) F hc hv g (if_pos c) g' (if_pos c') lc lc').1
  case deltaObv =>
    have c := (ite_some g).1
    have c' := (ite_some g').1
    exact map_some_get (obv_causal F hc hv (if_pos c) g (if_pos c') g' lc lc').2
  case normalizedPvi => exact map_some_get (volumeIndex_causal F hc hv g g' lc lc')
  case normalizedNvi => exact map_some_get (volumeIndex_causal F hc hv g g' lc lc')
  case volumeMomentum => exact map_some_get (volumeMomentum_causal F hv g g' lv lv')

theorem verified_some' {β : Type} {len n : Nat} {out o : List β} (h : verified len n out = some o) :
    0 < len → 0 < n ∧ n ≤ len := by
  unfold verified at h
  intro hl
  rw [if_neg (by omega)] at h
  split at h
  · assumption
  · cases h

theorem volumes_field (d : PBars) : d.volumes = d.field "volume" := rfl

/-- **C142.**  A built-in indicator looks at nothing but the columns it is documented to use: data
that agree on these give the same values. -/
theorem builtin_columns (F : Fns ℚ) (b : Builtin) {d d' : PBars}
    (h : ∀ f ∈ columns b, d.field f = d'.field f) : b.compute F d = b.compute F d' := by
  have hc : ∀ {f : String} {g : PBar → ℚ}, (∀ d : PBars, d.field f = some (d.bars.map g)) →
      f ∈ columns b → d.bars.map g = d'.bars.map g := by
    intro f g hg hf
    have := h f hf
    rw [hg, hg] at this
    exact Option.some.inj this
  have ho := hc (f := "open") (g := PBar.opn) (fun _ => rfl)
  have hh := hc (f := "high") (g := PBar.high) (fun _ => rfl)
  have hl := hc (f := "low") (g := PBar.low) (fun _ => rfl)
  have hk := hc (f := "close") (g := PBar.close) (fun _ => rfl)
  have hv : "volume" ∈ columns b → d.volumes = d'.volumes := h "volume"
  cases b <;> simp only [columns, List.mem_cons, List.mem_nil_iff, or_false, true_or, or_true,
      forall_true_left, forall_eq_or_imp, forall_eq] at h ho hh hl hk hv <;>
    simp only [Builtin.compute] <;> simp_all

/-- **C142.**  A built-in indicator without one of its columns, or with a length of 0 on any bars, is
refused. -/
theorem builtin_refused (F : Fns ℚ) (b : Builtin) {d : PBars} {out : List (Option ℚ)}
    (h : b.compute F d = some out) :
    (∀ f ∈ columns b, (d.field f).isSome) ∧ (d.bars ≠ [] → ∀ n ∈ lengths b, 0 < n) := by
  have ho : (d.field "open").isSome := rfl
  have hh : (d.field "high").isSome := rfl
  have hl : (d.field "low").isSome := rfl
  have hk : (d.field "close").isSome := rfl
  have hpos : ∀ {v : List ℚ}, v.length = d.bars.length → d.bars ≠ [] → 0 < v.length := by
    intro v hv hb
    rw [hv]
    exact List.length_pos_iff.2 hb
  cases b <;> simp only [Builtin.compute] at h
  case highest f n | lowest f n | returns f n =>
    obtain ⟨v, hf, h⟩ := bind_some' h
    refine ⟨by simp [columns, hf], fun hb k hk => ?_⟩
    rw [List.mem_singleton.1 hk]
    have := hpos (field_length hf) hb
    exact (verified_some' h (by rw [List.length_map]; omega)).1
  case atr n =>
    refine ⟨by simp [columns, hh, hl, hk], fun hb k hk => ?_⟩
    rw [List.mem_singleton.1 hk]
    have hp := hpos (v := d.bars.map PBar.close) (by simp) hb
    unfold atr at h
    split at h
    · exact (verified_some' h (by omega)).1
    · cases h
  case detrendedRsi | stochasticRsi | trend | deviation =>
    obtain ⟨v, hf, h⟩ := bind_some' h
    obtain ⟨o, g, rfl⟩ := full_some h
    have c := (ite_some g).1
    refine ⟨by simp [columns, hf, hh, hl, hk], fun _ => ?_⟩
    simp only [lengths, List.mem_cons, List.mem_nil_iff, or_false, forall_eq_or_imp, forall_eq]
    omega
  case intradayIntensity | moneyFlow | reactivity | priceVolumeFit | volumeWeightedMaRatio |
      normalizedObv | deltaObv | normalizedPvi | normalizedNvi | volumeMomentum =>
    obtain ⟨v, hf, h⟩ := bind_some' h
    obtain ⟨o, g, rfl⟩ := full_some h
    rw [volumes_field] at hf
    have c := (ite_some g).1
    refine ⟨by simp [columns, hf, hh, hl, hk], fun _ => ?_⟩
    simp only [lengths, List.mem_cons, List.mem_nil_iff, or_false, forall_eq_or_imp, forall_eq]
    omega
  all_goals
    obtain ⟨o, g, rfl⟩ := full_some h
    have c := (ite_some g).1
    refine ⟨by simp [columns, ho, hh, hl, hk], fun _ => ?_⟩
    simp only [lengths, List.mem_cons, List.mem_nil_iff, or_false, forall_eq_or_imp, forall_eq,
      IsEmpty.forall_iff, implies_true]
    try omega

theorem rd_map {l : List PBar} (g : PBar → ℚ) {i : Nat} {b : PBar} (h : l[i]? = some b) :
    rd (l.map g) i = g b := by
  unfold rd
  rw [List.getD_eq_getElem?_getD, List.getElem?_map, h]
  rfl

theorem sound_formed {d : PBars} (hd : Sound d) :
    WellFormed (d.bars.map PBar.high) (d.bars.map PBar.low) (d.bars.map PBar.close) := by
  intro i hi
  rw [List.length_map] at hi
  have hb := List.getElem?_eq_getElem hi
  rw [rd_map _ hb, rd_map _ hb, rd_map _ hb]
  exact ⟨(hd _ (List.getElem_mem hi)).1, (hd _ (List.getElem_mem hi)).2.1⟩

theorem sound_volume {d : PBars} (hd : Sound d) (i : Nat) : 0 ≤ rd (d.bars.map PBar.volume) i := by
  rcases Nat.lt_or_ge i d.bars.length with hi | hi
  · rw [rd_map _ (List.getElem?_eq_getElem hi)]
    exact (hd _ (List.getElem_mem hi)).2.2
  · unfold rd
    rw [List.getD_eq_getElem?_getD, List.getElem?_eq_none (by simpa using hi)]
    rfl

theorem in_full {l : List ℚ} {lo hi : ℚ} (h : ∀ v ∈ l, lo ≤ v ∧ v ≤ hi) :
    ∀ v, some v ∈ l.map some → lo ≤ v ∧ v ≤ hi := by
  intro v hv
  obtain ⟨w, hw, he⟩ := List.mem_map.1 hv
  rw [← Option.some.inj he]
  exact h w hw

/-- **C142.**  On sound bars the values of a built-in indicator lie in its range. -/
theorem builtin_range {F : Fns ℚ} (hF : CdfOk F) (b : Builtin) {d : PBars} (hd : Sound d)
    {lo hi : ℚ} (hr : range b = some (lo, hi)) {out : List (Option ℚ)}
    (h : b.compute F d = some out) : ∀ v, some v ∈ out → lo ≤ v ∧ v ≤ hi := by
  cases b <;> simp only [Builtin.compute] at h <;> simp only [range, reduceCtorEq] at hr
  case macd s l sm sc =>
    obtain ⟨o, g, rfl⟩ := full_some h
    have r := macd_range_partial hF g
    split at hr
    · cases hr; exact in_full (r.1 (by assumption))
    · cases hr; exact in_full r.2
  case stochastic => cases hr; obtain ⟨o, g, rfl⟩ := full_some h; exact in_full (stochastic_range (sound_formed hd) g)
  case stochasticRsi =>
    obtain ⟨v, hf, h⟩ := bind_some' h
    obtain ⟨o, g, rfl⟩ := full_some h
    split at hr
    · cases hr; exact in_full (stochasticRsi_range (by assumption) g)
    · cases hr
  case trend =>
    obtain ⟨v, hf, h⟩ := bind_some' h
    obtain ⟨o, g, rfl⟩ := full_some h
    cases hr; exact in_full (trend_range hF g)
  case deviation =>
    obtain ⟨v, hf, h⟩ := bind_some' h
    obtain ⟨o, g, rfl⟩ := full_some h
    cases hr; exact in_full (deviation_range hF g)
  case adx =>
    obtain ⟨o, g, rfl⟩ := full_some h
    cases hr; exact in_full (adx_range (sound_formed hd) g)
  case aroonUp =>
    obtain ⟨o, g, rfl⟩ := full_some h
    have c := (ite_some g).1
    cases hr; exact in_full (aroon_range g (if_pos c) (if_pos c)).1
  case aroonDown =>
    obtain ⟨o, g, rfl⟩ := full_some h
    have c := (ite_some g).1
    cases hr; exact in_full (aroon_range (if_pos c) g (if_pos c)).2.1
  case aroonDiff =>
    obtain ⟨o, g, rfl⟩ := full_some h
    have c := (ite_some g).1
    cases hr; exact in_full (aroon_range (if_pos c) (if_pos c) g).2.2
  case closeMinusMa =>
    obtain ⟨o, g, rfl⟩ := full_some h
    cases hr; exact in_full (closeMinusMa_range hF g)
  case priceIntensity =>
    obtain ⟨o, g, rfl⟩ := full_some h
    cases hr; exact in_full (priceIntensity_range hF g)
  case priceChangeOscillator =>
    obtain ⟨o, g, rfl⟩ := full_some h
    cases hr; exact in_full (priceChangeOscillator_range hF g)
  case laguerreRsi =>
    obtain ⟨o, g, rfl⟩ := full_some h
    cases hr; exact in_full (laguerreRsi_range F g)
  all_goals
    obtain ⟨v, hf, h⟩ := bind_some' h
    cases volumes_some hf
    obtain ⟨o, g, rfl⟩ := full_some h
    cases hr
  case moneyFlow => exact in_full (moneyFlow_range (sound_formed hd) (sound_volume hd) g)
  case reactivity => exact in_full (reactivity_range hF g)
  case priceVolumeFit => exact in_full (priceVolumeFit_range hF g)
  case volumeWeightedMaRatio => exact in_full (vwma_range hF g)
  case normalizedObv => exact in_full (normalizedObv_range hF g)
  case deltaObv => exact in_full (deltaObv_range_partial hF g)
  case normalizedPvi => exact in_full (volumeIndex_range hF g)
  case normalizedNvi => exact in_full (volumeIndex_range hF g)
  case volumeMomentum => exact in_full (volumeMomentum_range hF g)

theorem mem_window_col {v : List ℚ} {n i : Nat} {x : ℚ} (hn : 0 < n) (h : n ≤ i + 1)
    (hi : i < v.length) :
    some x ∈ window (v.map some) n i ↔ ∃ k < n, v[i - k]? = some x := by
  unfold window
  rw [List.mem_iff_getElem?]
  constructor
  · rintro ⟨j, hj⟩
    rw [List.getElem?_drop, List.getElem?_take] at hj
    split at hj
    · refine ⟨i - (i + 1 - n + j), by omega, ?_⟩
      rw [show i - (i - (i + 1 - n + j)) = i + 1 - n + j by omega]
      rw [List.getElem?_map] at hj
      cases hc : v[i + 1 - n + j]? with
      | none => rw [hc] at hj; cases hj
      | some w => rw [hc] at hj; cases hj; rfl
    · cases hj
  · rintro ⟨k, hk, hx⟩
    refine ⟨n - 1 - k, ?_⟩
    rw [List.getElem?_drop, List.getElem?_take, if_pos (by omega),
      show i + 1 - n + (n - 1 - k) = i - k by omega, List.getElem?_map, hx]
    rfl

/-- **C142.**  A function that is given the name of a column reads that column: the standard ones, the
volumes and VWAPs when there are any, and the registered custom columns; any other name is refused. -/
theorem builtin_field (d : PBars) :
    d.field "open" = some (d.bars.map PBar.opn) ∧ d.field "high" = some (d.bars.map PBar.high) ∧
    d.field "low" = some (d.bars.map PBar.low) ∧ d.field "close" = some (d.bars.map PBar.close) ∧
    (d.hasVolume = true → d.field "volume" = some (d.bars.map PBar.volume)) ∧
    (d.hasVwap = true → d.field "vwap" = some (d.bars.map PBar.vwap)) ∧
    ∀ f, f ∉ ["open", "high", "low", "close", "volume", "vwap"] →
      (f ∈ d.custom → d.field f = some (d.bars.map (fun b => b.extra f))) ∧
      (f ∉ d.custom → d.field f = none) := by
  refine ⟨rfl, rfl, rfl, rfl, fun h => ?_, fun h => ?_, fun f hf => ?_⟩
  · simp [PBars.field, h]
  · simp [PBars.field, h]
  · simp only [List.mem_cons, List.not_mem_nil, or_false, not_or] at hf
    obtain ⟨h1, h2, h3, h4, h5, h6⟩ := hf
    simp only [PBars.field, if_neg h1, if_neg h2, if_neg h3, if_neg h4, if_neg h5, if_neg h6]
    exact ⟨fun h => if_pos h, fun h => if_neg h⟩

/-- **C142.**  `highest` and `lowest` are the greatest and least value of the named column in the last
`period` bars, `returns` is its relative change over `period` bars; before there are enough bars,
they are NaN. -/
theorem builtin_rolling (F : Fns ℚ) {d : PBars} {f : String} {v : List ℚ} (hf : d.field f = some v)
    {n : Nat} {hi lo re : List (Option ℚ)} (h1 : (Builtin.highest f n).compute F d = some hi)
    (h2 : (Builtin.lowest f n).compute F d = some lo)
    (h3 : (Builtin.returns f n).compute F d = some re) {i : Nat} (hlen : i < d.bars.length) :
    (i + 1 < n → hi[i]? = some none ∧ lo[i]? = some none) ∧
    (n ≤ i + 1 → ∃ x y, hi[i]? = some (some x) ∧ lo[i]? = some (some y) ∧
      (∃ k < n, v[i - k]? = some x) ∧ (∃ k < n, v[i - k]? = some y) ∧
      ∀ k < n, ∀ z, v[i - k]? = some z → y ≤ z ∧ z ≤ x) ∧
    (i < n → re[i]? = some none) ∧
    (n ≤ i → ∀ x base, v[i]? = some x → v[i - n]? = some base →
      re[i]? = some (if base = 0 then none else some (x / base - 1))) := by
  simp only [Builtin.compute, hf, Option.bind_some] at h1 h2 h3
  have hv := field_length hf
  have hn := verified_some' h1 (by rw [List.length_map]; omega)
  rw [List.length_map] at hn
  have hl : i < (v.map some).length := by rw [List.length_map]; omega
  obtain ⟨x, a1, a2, a3⟩ := (highv_window_max h1).2 i hl
  obtain ⟨y, b1, b2, b3⟩ := (lowv_window_min h2).2 i hl
  obtain ⟨r, r1, r2, r3, _⟩ := (returnv_change h3).2 i hl
  refine ⟨fun h => ?_, fun h => ?_, fun h => ?_, fun h w base hw hb => ?_⟩
  · rw [a1, b1, a2 h, b2 h]; exact ⟨rfl, rfl⟩
  · have hno : none ∉ window (v.map some) n i := by
      intro hm
      have := List.mem_of_mem_take (List.mem_of_mem_drop hm)
      simp at this
    obtain ⟨p, rfl, p1, p2⟩ := (a3 h).2 hno
    obtain ⟨q, rfl, q1, q2⟩ := (b3 h).2 hno
    refine ⟨p, q, a1, b1, (mem_window_col hn.1 h (by omega)).1 p1, (mem_window_col hn.1 h (by omega)).1 q1,
      fun k hk z hz => ⟨q2 z ?_, p2 z ?_⟩⟩
    · exact (mem_window_col hn.1 h (by omega)).2 ⟨k, hk, hz⟩
    · exact (mem_window_col hn.1 h (by omega)).2 ⟨k, hk, hz⟩
  · rw [r1, r2 h]
  · rw [r1, r3 h w base (by rw [List.getElem?_map, hw]; rfl) (by rw [List.getElem?_map, hb]; rfl)]

/-- **C142.**  `atr` is the mean of the true ranges of the last `lookback` bars, NaN before. -/
theorem builtin_atr (F : Fns ℚ) {d : PBars} (hd : ∀ b ∈ d.bars, b.low ≤ b.high) {n : Nat}
    {out : List (Option ℚ)} (h : (Builtin.atr n).compute F d = some out) {i : Nat}
    (hi : i < d.bars.length) :
    (i < n → out[i]? = some none) ∧
    (n ≤ i → ∃ tr : List ℚ, tr.length = n ∧ out[i]? = some (some (tr.sum / n)) ∧
      ∀ k < n, ∀ b p, d.bars[i - n + 1 + k]? = some b → d.bars[i - n + k]? = some p →
        tr[k]? = some (max (b.high - b.low) (max |b.high - p.close| |b.low - p.close|))) := by
  have hw : ∀ i, i < (d.bars.map PBar.close).length →
      rd (d.bars.map PBar.low) i ≤ rd (d.bars.map PBar.high) i := by
    intro i hi
    rw [List.length_map] at hi
    have hb := List.getElem?_eq_getElem hi
    rw [rd_map _ hb, rd_map _ hb]
    exact hd _ (List.getElem_mem hi)
  obtain ⟨h1, h2⟩ := (atr_mean hw h).2 i (by simpa using hi)
  refine ⟨h1, fun hn => ?_⟩
  obtain ⟨tr, e1, e2, e3⟩ := h2 hn
  refine ⟨tr, e1, e3, fun k hk b p hb hp => ?_⟩
  obtain ⟨r, g1, g2⟩ := e2 k hk
  rw [g1, g2, rd_map _ hb, rd_map _ hb, show i - n + 1 + k - 1 = i - n + k by omega, rd_map _ hp]

/-! ### Concrete calls -/

namespace Demo

def biBars : PBars :=
  { bars := [⟨2, 3, 1, 2, 10, 0, fun _ => 5⟩, ⟨3, 4, 2, 3, 0, 0, fun _ => 4⟩,
      ⟨5, 6, 3, 5, 7, 0, fun _ => 8⟩, ⟨4, 5, 4, 4, 3, 0, fun _ => 6⟩]
    custom := ["sentiment"] }

/-- The same with another last bar. -/
def biBars' : PBars :=
  { bars := biBars.bars.take 3 ++ [⟨9, 9, 1, 7, 1, 0, fun _ => 0⟩]
    custom := ["sentiment"] }

theorem bi_same : SameBars 2 biBars biBars' := ⟨rfl, rfl, rfl, rfl⟩

theorem bi_sound : Sound biBars := by
  unfold Sound
  decide +kernel

end Demo

example : (Builtin.highest "sentiment" 2).compute demoFns Demo.biBars =
    some [none, some 5, some 8, some 8] := by decide +kernel
example : (Builtin.atr 2).compute demoFns Demo.biBars = some [none, none, some (5 / 2), some 2] := by
  decide +kernel
example : (Builtin.atr 2).compute demoFns Demo.biBars' =
    some [none, none, some (5 / 2), some (11 / 2)] := by decide +kernel
example : (Builtin.moneyFlow 1).compute demoFns Demo.biBars =
    some [some 0, some 0, some (100 / 3), some (-100)] := by decide +kernel

/-- The third bar is followed by others, and its values are the same. -/
example (F : Fns ℚ) (b : Builtin) {out out' : List (Option ℚ)}
    (hq : Settled 2 Demo.biBars Demo.biBars' b) (h : b.compute F Demo.biBars = some out)
    (h' : b.compute F Demo.biBars' = some out') : out[2]? = out'[2]? :=
  builtin_no_lookahead_partial F b Demo.bi_same (by decide) (by decide) hq h h'

example : Settled 2 Demo.biBars Demo.biBars' (.moneyFlow 1) ∧
    Settled 2 Demo.biBars Demo.biBars' (.adx 2) := by
  constructor
  · exact .inr ⟨_, List.mem_cons_self, by decide +kernel⟩
  · exact ⟨by decide, by decide⟩

/-- Without volumes, an indicator of volumes is refused. -/
example (F : Fns ℚ) : (Builtin.moneyFlow 1).compute F { Demo.biBars with hasVolume := false } =
    none := rfl

example := builtin_range (F := demoFns) (fun z => by unfold demoFns; dsimp; split <;> norm_num)
  (.aroonUp 2) Demo.bi_sound rfl (out := [some 50, some 100, some 100, some 50]) (by decide +kernel)
example := builtin_rolling demoFns (d := Demo.biBars) (f := "sentiment") rfl (n := 2) rfl rfl rfl
  (i := 3) (by decide)
example := builtin_atr demoFns (d := Demo.biBars) (by decide +kernel) (n := 2) rfl (i := 3) (by decide)

end PyBroker
