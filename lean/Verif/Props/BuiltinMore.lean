import Verif.Props.Builtin

/-!
# C142, continued: what a trend, a flow and a volume index read
-/

namespace PyBroker

open Spec

/-- The least number of bars a trend of each degree is fitted to. -/
def Spec.leastBars : Degree → Nat
  | .linear => 2
  | .quadratic => 4
  | .cubic => 5

theorem trendLen_max (g : Degree) (n : Nat) : trendLen g n = max n (leastBars g) := by
  cases g <;> simp only [trendLen, leastBars] <;> split <;> omega

theorem rd_eq {v v' : List ℚ} {j : Nat} (h : v[j]? = v'[j]?) : rd v j = rd v' j := by
  unfold rd
  rw [List.getD_eq_getElem?_getD, List.getD_eq_getElem?_getD, h]

theorem rd_map_eq {l l' : List PBar} (f : PBar → ℚ) {j : Nat}
    (h : (l[j]?).map f = (l'[j]?).map f) : rd (l.map f) j = rd (l'.map f) j := by
  apply rd_eq
  rw [List.getElem?_map, List.getElem?_map, h]

/-- **C142.**  A trend is a matter of the named column in the last `lookback` bars (at least 2, 4 or 5,
by its degree) and of the prices in the last `atr_length` bars and the one before: two tables that
agree there have the same trend there, whatever else they hold. -/
theorem builtin_trend_local (F : Fns ℚ) {d d' : PBars} {g : Degree} {f : String} {n a : Nat} {sc : ℚ}
    {v v' : List ℚ} (hf : d.field f = some v) (hf' : d'.field f = some v')
    {out out' : List (Option ℚ)} (h : (Builtin.trend g f n a sc).compute F d = some out)
    (h' : (Builtin.trend g f n a sc).compute F d' = some out')
    {i : Nat} (hi : i < d.bars.length) (hi' : i < d'.bars.length)
    (hcol : ∀ k < max n (leastBars g), v[i - k]? = v'[i - k]?)
    (hh : ∀ k ≤ a, (d.bars[i - k]?).map PBar.high = (d'.bars[i - k]?).map PBar.high)
    (hl : ∀ k ≤ a, (d.bars[i - k]?).map PBar.low = (d'.bars[i - k]?).map PBar.low)
    (hc : ∀ k ≤ a, (d.bars[i - k]?).map PBar.close = (d'.bars[i - k]?).map PBar.close) :
    out[i]? = out'[i]? := by
  simp only [Builtin.compute, hf, hf', Option.bind_some] at h h'
  obtain ⟨o, g1, rfl⟩ := full_some h
  obtain ⟨o', g1', rfl⟩ := full_some h'
  have c := (ite_some g1).1
  have e := (ite_some g1).2
  have e' := (ite_some g1').2
  have hv := field_length hf
  have hv' := field_length hf'
  cases e
  cases e'
  rw [List.getElem?_map, List.getElem?_map, series_get _ (by omega), series_get _ (by omega)]
  rw [trendLen_max]
  generalize hfront : (if max n (leastBars g) - 1 > a then max n (leastBars g) - 1 else a) = fr
  by_cases hfr : i < fr
  · simp only [hfr, if_true]
  · simp only [hfr, if_false]
    have hge : max n (leastBars g) ≤ i + 1 ∧ a ≤ i := by
      revert hfront
      split <;> omega
    have ha : 0 < a := c.2.2.2.2.1
    have hV : ∀ j, i + 1 - max n (leastBars g) ≤ j → j < i + 1 → rd v j = rd v' j := by
      intro j h1 h2
      apply rd_eq
      have := hcol (i - j) (by omega)
      rwa [show i - (i - j) = j by omega] at this
    have hP : ∀ (p : PBar → ℚ), (∀ k ≤ a, (d.bars[i - k]?).map p = (d'.bars[i - k]?).map p) →
        ∀ j, i - a ≤ j → j < i + 1 → rd (d.bars.map p) j = rd (d'.bars.map p) j := by
      intro p hp j h1 h2
      apply rd_map_eq
      have := hp (i - j) (by omega)
      rwa [show i - (i - j) = j by omega] at this
    have hA : atrAt F (rd (d.bars.map PBar.high)) (rd (d.bars.map PBar.low)) (rd (d.bars.map PBar.close))
        true a i = atrAt F (rd (d'.bars.map PBar.high)) (rd (d'.bars.map PBar.low))
        (rd (d'.bars.map PBar.close)) true a i := by
      unfold atrAt
      rw [if_neg (by omega), if_neg (by omega)]
      congr 1
      apply sumIn_congr
      intro j h1 h2
      simp only [if_true]
      unfold ratioRange
      rw [hP _ hh j (by omega) h2, hP _ hl j (by omega) h2, hP _ hc (j - 1) (by omega) (by omega)]
    have hD : ∀ (q : Nat → ℚ), sumIn (i + 1 - max n (leastBars g)) (i + 1)
        (fun j => F.log (rd v j) * q j) = sumIn (i + 1 - max n (leastBars g)) (i + 1)
        (fun j => F.log (rd v' j) * q j) := fun q => sumIn_congr (fun j h1 h2 => by rw [hV j h1 h2])
    have hM : sumIn (i + 1 - max n (leastBars g)) (i + 1) (fun j => F.log (rd v j)) =
        sumIn (i + 1 - max n (leastBars g)) (i + 1) (fun j => F.log (rd v' j)) :=
      sumIn_congr (fun j h1 h2 => by rw [hV j h1 h2])
    have hY : ∀ (m : ℚ) (q : Nat → ℚ), sumIn (i + 1 - max n (leastBars g)) (i + 1)
        (fun j => (F.log (rd v j) - m - q j) * (F.log (rd v j) - m - q j)) =
        sumIn (i + 1 - max n (leastBars g)) (i + 1)
        (fun j => (F.log (rd v' j) - m - q j) * (F.log (rd v' j) - m - q j)) :=
      fun m q => sumIn_congr (fun j h1 h2 => by rw [hV j h1 h2])
    have hZ : ∀ (m : ℚ), sumIn (i + 1 - max n (leastBars g)) (i + 1)
        (fun j => (F.log (rd v j) - m) * (F.log (rd v j) - m)) =
        sumIn (i + 1 - max n (leastBars g)) (i + 1)
        (fun j => (F.log (rd v' j) - m) * (F.log (rd v' j) - m)) :=
      fun m => sumIn_congr (fun j h1 h2 => by rw [hV j h1 h2])
    simp only [trendAt, hA, hD, hM, hY, hZ]

/-- How a bar moved within its range, weighted by its volume. -/
def Spec.intensity (b : PBar) : ℚ :=
  if b.low < b.high then 100 * (2 * b.close - b.high - b.low) / (b.high - b.low) * b.volume else 0

/-- The last `n` bars up to bar `i`, latest first. -/
def Spec.lastBars (d : PBars) (n i : Nat) : List PBar := (List.range n).filterMap (fun k => d.bars[i - k]?)

theorem sumIn_range (n : Nat) (f : Nat → ℚ) : sumIn 0 n f = ((List.range n).map f).sum := by
  unfold sumIn loop
  rw [Nat.sub_zero, ← List.range_eq_range', List.sum_eq_foldl, List.foldl_map]

theorem sum_lastBars {d : PBars} {i n : Nat} (hi : i < d.bars.length) (f : Nat → ℚ) (p : PBar → ℚ)
    (h : ∀ k < n, ∀ b, d.bars[i - k]? = some b → f k = p b) :
    ((List.range n).map f).sum = ((lastBars d n i).map p).sum := by
  unfold lastBars
  induction n with
  | zero => rfl
  | succ n ih =>
    have hb := List.getElem?_eq_getElem (show i - n < d.bars.length by omega)
    rw [List.range_succ, List.map_append, List.filterMap_append, List.map_append, List.sum_append,
      List.sum_append, ih (fun k hk => h k (by omega))]
    simp only [List.map_cons, List.map_nil, List.filterMap_cons, hb, List.filterMap_nil]
    rw [h n (by omega) _ hb]

/-- **C142.**  Where every bar has volume, the intraday intensity that is not smoothed is the mean of
the intensities of the last `lookback` bars, and the money flow is their sum over the sum of the
volumes; before there are enough bars both are 0. -/
theorem builtin_flow (F : Fns ℚ) {d : PBars} (hvol : ∀ b ∈ d.bars, 0 < b.volume) {n : Nat} {sm : ℚ}
    (hs : sm ≤ 1) {ii mf : List (Option ℚ)}
    (h1 : (Builtin.intradayIntensity n sm).compute F d = some ii)
    (h2 : (Builtin.moneyFlow n sm).compute F d = some mf) {i : Nat} (hi : i < d.bars.length) :
    (i + 1 < n → ii[i]? = some (some 0) ∧ mf[i]? = some (some 0)) ∧
    (n ≤ i + 1 →
      ii[i]? = some (some (((lastBars d n i).map intensity).sum / n)) ∧
      mf[i]? = some (some (((lastBars d n i).map intensity).sum /
        ((lastBars d n i).map PBar.volume).sum))) := by
  simp only [Builtin.compute] at h1 h2
  obtain ⟨v, hv, h1⟩ := bind_some' h1
  obtain ⟨v', hv', h2⟩ := bind_some' h2
  cases volumes_some hv
  cases volumes_some hv'
  obtain ⟨o, g1, rfl⟩ := full_some h1
  obtain ⟨o', g2, rfl⟩ := full_some h2
  have c := (ite_some g1).1
  have e := (ite_some g1).2
  have e' := (ite_some g2).2
  have hn : 0 < n := c.2.2.2.1
  have hfv : firstVolume (d.bars.map PBar.volume) = 0 := by
    match hb : d.bars with
    | [] => rfl
    | [_] => rfl
    | b :: b' :: r =>
      simp only [List.map_cons, firstVolume]
      rw [if_pos (hvol b (by rw [hb]; exact List.mem_cons_self))]
  cases e
  cases e'
  rw [List.getElem?_map, List.getElem?_map, series_get _ (by simpa using hi),
    series_get _ (by simpa using hi), hfv]
  have hraw : ∀ k < n, ∀ b, d.bars[i - k]? = some b →
      flowRaw (rd (d.bars.map PBar.high)) (rd (d.bars.map PBar.low)) (rd (d.bars.map PBar.close))
        (rd (d.bars.map PBar.volume)) 0 (i - k) = intensity b := by
    intro k _ b hb
    unfold flowRaw intensity
    rw [if_neg (by omega), rd_map _ hb, rd_map _ hb, rd_map _ hb, rd_map _ hb]
  have havg : flowAvg (rd (d.bars.map PBar.high)) (rd (d.bars.map PBar.low))
      (rd (d.bars.map PBar.close)) (rd (d.bars.map PBar.volume)) 0 n i =
      ((lastBars d n i).map intensity).sum / n := by
    unfold flowAvg
    split
    · rw [sumIn_range, sum_lastBars hi _ intensity hraw]
    · have : n = 1 := by omega
      subst this
      rw [← sum_lastBars hi _ intensity hraw]
      simp
  have htot : sumIn 0 n (fun j => rd (d.bars.map PBar.volume) (i - j)) =
      ((lastBars d n i).map PBar.volume).sum := by
    rw [sumIn_range, sum_lastBars hi _ PBar.volume (fun k _ b hb => rd_map _ hb)]
  have hnq : (0 : ℚ) < n := by exact_mod_cast hn
  refine ⟨fun h => ?_, fun h => ?_⟩
  · rw [if_pos (by omega), if_pos (by omega)]; exact ⟨rfl, rfl⟩
  · simp only [show ¬ i < n - 1 + 0 by omega, if_false]
    have hpos : 0 < ((lastBars d n i).map PBar.volume).sum := by
      rw [← sum_lastBars hi (fun j => rd (d.bars.map PBar.volume) (i - j)) PBar.volume
        (fun k _ b hb => rd_map _ hb)]
      obtain ⟨m, rfl⟩ : ∃ m, n = m + 1 := ⟨n - 1, by omega⟩
      rw [List.range_succ_eq_map, List.map_cons, List.sum_cons]
      have hall : ∀ j, j ≤ i → 0 < rd (d.bars.map PBar.volume) j := by
        intro j hj
        have hb := List.getElem?_eq_getElem (show j < d.bars.length by omega)
        rw [rd_map _ hb]
        exact hvol _ (List.getElem_mem _)
      have : 0 ≤ (List.map (fun j => rd (d.bars.map PBar.volume) (i - j))
          (List.map Nat.succ (List.range m))).sum := by
        apply List.sum_nonneg
        intro x hx
        rw [List.mem_map] at hx
        obtain ⟨j, _, rfl⟩ := hx
        exact le_of_lt (hall _ (by omega))
      have := hall (i - 0) (by omega)
      linarith
    simp only [havg, htot, if_true, Bool.false_eq_true, if_false]
    rw [if_neg (not_lt.2 hs), if_pos (div_pos hpos hnq)]
    refine ⟨rfl, ?_⟩
    simp only [Option.map_some]
    rw [div_div_div_cancel_right₀ (ne_of_gt hnq)]

/-- **C142.**  The positive volume index counts only the bars whose volume rose and the negative one only
those whose volume fell: where none of the last `lookback` bars did, the index is that of no move. -/
theorem builtin_volume_index (F : Fns ℚ) {d : PBars} {n : Nat} {sc : ℚ} {pvi nvi : List (Option ℚ)}
    (h1 : (Builtin.normalizedPvi n sc).compute F d = some pvi)
    (h2 : (Builtin.normalizedNvi n sc).compute F d = some nvi) {i : Nat} (hi : i < d.bars.length) :
    ((∀ k < n, ∀ b p, d.bars[i - k]? = some b → d.bars[i - k - 1]? = some p → b.volume ≤ p.volume) →
      pvi[i]? = some (some 0) ∨ pvi[i]? = some (some (100 * F.cdf 0 - 50))) ∧
    ((∀ k < n, ∀ b p, d.bars[i - k]? = some b → d.bars[i - k - 1]? = some p → p.volume ≤ b.volume) →
      nvi[i]? = some (some 0) ∨ nvi[i]? = some (some (100 * F.cdf 0 - 50))) := by
  simp only [Builtin.compute] at h1 h2
  obtain ⟨v, hv, h1⟩ := bind_some' h1
  obtain ⟨v', hv', h2⟩ := bind_some' h2
  cases volumes_some hv
  cases volumes_some hv'
  obtain ⟨o, g1, rfl⟩ := full_some h1
  obtain ⟨o', g2, rfl⟩ := full_some h2
  have e := (ite_some g1).2
  have e' := (ite_some g2).2
  cases e
  cases e'
  rw [List.getElem?_map, List.getElem?_map, series_get _ (by simpa using hi),
    series_get _ (by simpa using hi)]
  have zero : ∀ f : Nat → ℚ, (∀ k < n, f k = 0) → sumIn 0 n f = 0 := by
    intro f hf
    rw [sumIn_range]
    apply List.sum_eq_zero
    intro x hx
    rw [List.mem_map] at hx
    obtain ⟨k, hk, rfl⟩ := hx
    exact hf k (List.mem_range.1 hk)
  have get : ∀ j, j ≤ i → ∃ b, d.bars[j]? = some b ∧ rd (d.bars.map PBar.volume) j = b.volume := by
    intro j hj
    have hb := List.getElem?_eq_getElem (show j < d.bars.length by omega)
    exact ⟨_, hb, rd_map _ hb⟩
  constructor
  all_goals
    intro hq
    simp only [Option.map_some]
    generalize (if 2 * n < 250 then 250 else 2 * n) = w
    by_cases hw : i < w + firstVolume (d.bars.map PBar.volume)
    · simp only [hw, if_true]
      exact .inl trivial
    · simp only [hw, nviAt, Bool.false_eq_true, if_true, if_false]
      rw [zero _ (fun k hk => ?_)]
      · simp only [zero_div, mul_zero]
        split
        · exact .inr rfl
        · exact .inl rfl
      · obtain ⟨b, hb, rb⟩ := get (i - k) (by omega)
        obtain ⟨p, hp, rp⟩ := get (i - k - 1) (by omega)
        rw [rb, rp, if_neg (not_lt.2 (hq k hk b p hb hp))]

/-! ### Concrete calls -/

namespace Demo

/-- Bars that all have volume. -/
def bmBars : PBars :=
  { bars := [⟨2, 3, 1, 2, 10, 0, fun _ => 5⟩, ⟨3, 4, 2, 3, 8, 0, fun _ => 4⟩,
      ⟨5, 6, 3, 5, 7, 0, fun _ => 8⟩, ⟨4, 5, 4, 4, 3, 0, fun _ => 6⟩]
    custom := ["sentiment"] }

/-- The same with another first bar. -/
def bmBars' : PBars :=
  { bars := ⟨7, 9, 1, 7, 1, 0, fun _ => 7⟩ :: bmBars.bars.drop 1
    custom := ["sentiment"] }

end Demo

example : (Builtin.intradayIntensity 2).compute demoFns Demo.bmBars =
    some [some 0, some 0, some (350 / 3), some (-100 / 3)] := by decide +kernel
example : (Builtin.moneyFlow 2).compute demoFns Demo.bmBars =
    some [some 0, some 0, some (140 / 9), some (-20 / 3)] := by decide +kernel
example := builtin_flow demoFns (d := Demo.bmBars) (by decide +kernel) (n := 2) (sm := 0)
  (by norm_num) rfl rfl (i := 3) (by decide)
example := builtin_trend_local demoFns (d := Demo.bmBars) (d' := Demo.bmBars') (g := .linear)
  (f := "sentiment") (n := 3) (a := 2) (sc := 1) rfl rfl rfl rfl (i := 3) (by decide) (by decide)
  (by decide +kernel) (by decide +kernel) (by decide +kernel) (by decide +kernel)
example := (builtin_volume_index demoFns (d := Demo.bmBars) (n := 2) (sc := 1) rfl rfl (i := 3)
  (by decide)).1 (by
    intro k hk b p hb hp
    match k, hk with
    | 0, _ => cases hb; cases hp; norm_num
    | 1, _ => cases hb; cases hp; norm_num)

end PyBroker
