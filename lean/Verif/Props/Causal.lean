import Verif.Vect.Indicators
import Verif.Props.Rolling

/-!
# Indicators look at no later bar (C53)
-/

namespace PyBroker

/-! ## Specification -/

/-- Two arrays have the same bars up to and including `t`. -/
def Spec.SameTo {α : Type} (t : Nat) (a a' : List α) : Prop := a.take (t + 1) = a'.take (t + 1)

open PyBroker.Spec

variable {K : Type} [Field K] [LinearOrder K]

/-! ## Loops -/

/-- Two readers agree up to `t`. -/
def AgreeTo (t : Nat) (x y : Nat → K) : Prop := ∀ j, j ≤ t → x j = y j

theorem foldl_congr {S : Type} {f g : S → Nat → S} : ∀ {l : List Nat} {s : S},
    (∀ s, ∀ j ∈ l, f s j = g s j) → l.foldl f s = l.foldl g s := by
  intro l
  induction l with
  | nil => intro s _; rfl
  | cons j l ih =>
    intro s h
    rw [List.foldl_cons, List.foldl_cons, h s j List.mem_cons_self]
    exact ih (fun s k hk => h s k (List.mem_cons_of_mem _ hk))

theorem loop_congr {S : Type} {a b : Nat} {f g : S → Nat → S} {s : S}
    (h : ∀ s j, a ≤ j → j < b → f s j = g s j) : loop a b f s = loop a b g s := by
  unfold loop
  refine foldl_congr (fun s j hj => ?_)
  rw [List.mem_range'_1] at hj
  exact h s j hj.1 (by omega)

@[congr] theorem loop_congr' {S : Type} {a b : Nat} {f g : S → Nat → S} {s s' : S}
    (h : ∀ s j, a ≤ j → j < b → f s j = g s j) (hs : s = s') : loop a b f s = loop a b g s' := by
  rw [hs, loop_congr h]

@[congr] theorem sumIn_congr {a b : Nat} {f g : Nat → K}
    (h : ∀ j, a ≤ j → j < b → f j = g j) : sumIn a b f = sumIn a b g := by
  unfold sumIn
  exact loop_congr (fun s j h1 h2 => by rw [h j h1 h2])

/-- Lists that agree up to `t` read the same up to `t`. -/
theorem sameTo_agree {t : Nat} {a a' : List K} (h : SameTo t a a') : AgreeTo t (rd a) (rd a') := by
  intro j hj
  unfold rd
  rw [List.getD_eq_getElem?_getD, List.getD_eq_getElem?_getD, take_getElem? hj h]

theorem series_get {α : Type} {n t : Nat} (f : Nat → α) (h : t < n) :
    (series n f)[t]? = some (f t) := by
  unfold series
  rw [List.getElem?_map, List.getElem?_range h]
  rfl

theorem series_length {α : Type} (n : Nat) (f : Nat → α) : (series n f).length = n := by
  simp [series]

theorem mem_series {α : Type} {n : Nat} {f : Nat → α} {x : α} :
    x ∈ series n f ↔ ∃ i, i < n ∧ f i = x := by
  simp [series]

theorem ite_some {α : Type} {c : Prop} [Decidable c] {a b : α}
    (h : (if c then some a else none) = some b) : c ∧ a = b := by
  split at h
  · exact ⟨by assumption, Option.some.inj h⟩
  · cases h

/-! ## Kernels -/

theorem atrAt_causal (F : Fns K) {h l c h' l' c' : Nat → K} (u : Bool) (lb : Nat) {i t : Nat}
    (hi : i ≤ t) (hh : AgreeTo t h h') (hl : AgreeTo t l l') (hc : AgreeTo t c c') :
    atrAt F h l c u lb i = atrAt F h' l' c' u lb i := by
  unfold AgreeTo at *
  simp (disch := omega) only [atrAt, trueRange, ratioRange, hh, hl, hc]

theorem varianceAt_causal (F : Fns K) {p p' : Nat → K} (u : Bool) (len : Nat) {i t : Nat}
    (hi : i ≤ t) (hp : AgreeTo t p p') : varianceAt F u len p i = varianceAt F u len p' i := by
  unfold AgreeTo at *
  simp (disch := omega) only [varianceAt, hp]

theorem rsiAt_causal {v v' : Nat → K} (len : Nat) {i t : Nat} (hi : i ≤ t) (hlen : len ≤ i)
    (hv : AgreeTo t v v') : rsiAt v len i = rsiAt v' len i := by
  unfold AgreeTo at *
  have h1 : rsiInit v len = rsiInit v' len := by simp (disch := omega) only [rsiInit, hv]
  have h2 : rsiSt v len i = rsiSt v' len i := by
    unfold rsiSt
    rw [h1]
    exact loop_congr (fun s j _ _ => by simp (disch := omega) only [rsiStep, hv])
  unfold rsiAt
  rw [h2]

theorem emaFrom_causal {x x' : Nat → K} (alpha : K) {start i t : Nat} (hi : i ≤ t) (hs : start ≤ i)
    (hx : AgreeTo t x x') : emaFrom x alpha start i = emaFrom x' alpha start i := by
  unfold AgreeTo at *
  simp (disch := omega) only [emaFrom, hx]

theorem macdRaw_causal (F : Fns K) {h l c h' l' c' : Nat → K} (short long : Nat) (sm sc : K) {t : Nat}
    (hh : AgreeTo t h h') (hl : AgreeTo t l l') (hc : AgreeTo t c c') :
    AgreeTo t (macdRaw F h l c short long sm sc) (macdRaw F h' l' c' short long sm sc) := by
  intro i hi
  have ha := fun k => atrAt_causal F false k hi hh hl hc
  unfold AgreeTo at *
  simp (disch := omega) only [macdRaw, macdSums, ha, hc]

/-! ## The first bar with volume -/

theorem firstVolume_pos : ∀ {v v' : List K} {t : Nat}, SameTo t v v' → t < v.length → t < v'.length →
    (∃ j ≤ t, rd v j > 0) → firstVolume v = firstVolume v' ∧ firstVolume v ≤ t := by
  intro v
  induction v with
  | nil => intro v' t _ h; simp at h
  | cons a v ih =>
    intro v' t hs h1 h2 ⟨j, hj, hpos⟩
    cases v' with
    | nil => simp at h2
    | cons a' v' =>
      have haa : a = a' := by
        have := take_getElem? (i := 0) (Nat.zero_le t) hs
        simpa using this
      subst haa
      cases t with
      | zero =>
        have hj0 : j = 0 := by omega
        subst hj0
        have ha : a > 0 := by simpa [rd] using hpos
        have e : ∀ w : List K, firstVolume (a :: w) = 0 := by
          intro w
          cases w with
          | nil => rfl
          | cons b w => simp only [firstVolume]; rw [if_pos ha]
        rw [e, e]
        exact ⟨rfl, le_refl _⟩
      | succ t =>
        cases v with
        | nil => simp at h1
        | cons b v =>
          cases v' with
          | nil => simp at h2
          | cons b' v' =>
            simp only [firstVolume]
            by_cases ha : a > 0
            · rw [if_pos ha, if_pos ha]
              exact ⟨rfl, Nat.zero_le _⟩
            · rw [if_neg ha, if_neg ha]
              have hs' : SameTo t (b :: v) (b' :: v') := by
                unfold SameTo at *
                rw [List.take_succ_cons (a := a), List.take_succ_cons (a := a)] at hs
                exact (List.cons.inj hs).2
              have := ih hs' (by simpa using h1) (by simpa using h2) (by
                cases j with
                | zero => exact absurd (by simpa [rd] using hpos) ha
                | succ j => exact ⟨j, by omega, by simpa [rd] using hpos⟩)
              omega

theorem firstVolume_none : ∀ {v : List K} {t : Nat}, t < v.length → (¬ ∃ j ≤ t, rd v j > 0) →
    t ≤ firstVolume v := by
  intro v
  induction v with
  | nil => intro t h; simp at h
  | cons a v ih =>
    intro t h hn
    cases v with
    | nil =>
      simp at h
      omega
    | cons b v =>
      cases t with
      | zero => exact Nat.zero_le _
      | succ t =>
        have ha : ¬ a > 0 := fun ha => hn ⟨0, by omega, by simpa [rd] using ha⟩
        simp only [firstVolume]
        rw [if_neg ha]
        have := ih (t := t) (by simpa using h) (by
          rintro ⟨j, hj, hp⟩
          exact hn ⟨j + 1, by omega, by simpa [rd] using hp⟩)
        omega

/-- Whether bar `t` is before `first_volume + d` and, if not, where the first volume is,
does not depend on later bars. -/
theorem firstVolume_cases {v v' : List K} {t d : Nat} (hs : SameTo t v v') (h1 : t < v.length)
    (h2 : t < v'.length) (hd : 0 < d ∨ ∃ j ≤ t, rd v j > 0) :
    (t < d + firstVolume v ∧ t < d + firstVolume v') ∨
    (firstVolume v = firstVolume v' ∧ firstVolume v ≤ t) := by
  by_cases h : ∃ j ≤ t, rd v j > 0
  · exact Or.inr (firstVolume_pos hs h1 h2 h)
  · have h' : ¬ ∃ j ≤ t, rd v' j > 0 := by
      rintro ⟨j, hj, hp⟩
      exact h ⟨j, hj, by rwa [sameTo_agree hs j hj]⟩
    have a := firstVolume_none h1 h
    have b := firstVolume_none h2 h'
    rcases hd with hd | hd
    · left
      omega
    · exact absurd hd h

/-! ## C53 for each indicator

Each theorem: for two calls whose inputs have the same bars up to `t`, bar `t` of the two
outputs is the same. -/

/-- C53: `atr`. -/
theorem atr_causal (F : Fns K) {high low close high' low' close' : List K} {lb t : Nat}
    {out out' : List (Option K)} (hh : SameTo t high high') (hl : SameTo t low low')
    (hc : SameTo t close close') (h : atr F high low close lb = some out)
    (h' : atr F high' low' close' lb = some out') (ht : t < close.length) (ht' : t < close'.length) :
    out[t]? = out'[t]? := by
  unfold atr at h h'
  split at h
  · split at h'
    · obtain ⟨rfl, _⟩ := verified_some h (series_length _ _)
      obtain ⟨rfl, _⟩ := verified_some h' (series_length _ _)
      rw [series_get _ ht, series_get _ ht',
        atrAt_causal F false lb (le_refl t) (sameTo_agree hh) (sameTo_agree hl) (sameTo_agree hc)]
    · cases h'
  · cases h

/-- C53: `detrended_rsi`. -/
theorem detrendedRsi_causal (F : Fns K) {v v' : List K} {short long reg t : Nat} {out out' : List K}
    (hv : SameTo t v v') (h : detrendedRsi F v short long reg = some out)
    (h' : detrendedRsi F v' short long reg = some out') (ht : t < v.length) (ht' : t < v'.length) :
    out[t]? = out'[t]? := by
  obtain ⟨hc, rfl⟩ := ite_some h
  obtain ⟨-, rfl⟩ := ite_some h'
  rw [series_get _ ht, series_get _ ht']
  congr 1
  by_cases hf : t < long + reg - 1
  · rw [if_pos hf, if_pos hf]
  · rw [if_neg hf, if_neg hf]
    have ha := sameTo_agree hv
    have h1 : ∀ k, k ≤ t → short ≤ k → rsiAt (rd v) short k = rsiAt (rd v') short k :=
      fun k hk hs => rsiAt_causal short hk hs ha
    have h2 : ∀ k, k ≤ t → long ≤ k → rsiAt (rd v) long k = rsiAt (rd v') long k :=
      fun k hk hs => rsiAt_causal long hk hs ha
    have w1 : ∀ k, k ≤ t → detWork1 F (rd v) short k = detWork1 F (rd v') short k := by
      intro k hk
      unfold detWork1
      by_cases hs : k < short
      · rw [if_pos hs, if_pos hs]
      · rw [if_neg hs, if_neg hs, h1 k hk (by omega)]
    have w2 : ∀ k, k ≤ t → detWork2 (rd v) long k = detWork2 (rd v') long k := by
      intro k hk
      unfold detWork2
      by_cases hs : k < long
      · rw [if_pos hs, if_pos hs]
      · rw [if_neg hs, if_neg hs, h2 k hk (by omega)]
    simp (disch := omega) only [detrendedAt, w1, w2]

/-- C53: `macd`. -/
theorem macd_causal (F : Fns K) {high low close high' low' close' : List K} {short long t : Nat}
    {sm sc : K} {out out' : List K} (hh : SameTo t high high') (hl : SameTo t low low')
    (hc : SameTo t close close') (h : macd F high low close short long sm sc = some out)
    (h' : macd F high' low' close' short long sm sc = some out') (ht : t < close.length)
    (ht' : t < close'.length) : out[t]? = out'[t]? := by
  obtain ⟨-, rfl⟩ := ite_some h
  obtain ⟨-, rfl⟩ := ite_some h'
  rw [series_get _ ht, series_get _ ht']
  have hr := macdRaw_causal F short long sm sc (sameTo_agree hh) (sameTo_agree hl) (sameTo_agree hc)
  rw [hr t (le_refl t), emaFrom_causal _ (le_refl t) (Nat.zero_le t) hr]

theorem rd_map_some (a : List K) {i : Nat} (h : i < a.length) : (a.map some)[i]? = some (some (rd a i)) := by
  rw [List.getElem?_map, rd, List.getD_eq_getElem?_getD, List.getElem?_eq_getElem h]
  rfl

theorem none_notMem_window (a : List K) (w i : Nat) : none ∉ window (a.map some) w i := by
  intro h
  have := List.mem_of_mem_take (List.mem_of_mem_drop h)
  simp at this

/-- `lowAt` is the smallest of the last `lb` values. -/
theorem lowAt_spec {a : List K} {lb i : Nat} (h0 : 0 < lb) (hlb : lb ≤ i + 1) (hi : i < a.length) :
    (∃ j, j ≤ i ∧ i + 1 ≤ j + lb ∧ rd a j = lowAt a lb i) ∧
    ∀ j, j ≤ i → i + 1 ≤ j + lb → lowAt a lb i ≤ rd a j := by
  have hsome : (lowv (a.map some) lb).isSome := by
    rw [(rolling_accepts (a.map some) [] lb).1]
    right
    simp
    omega
  obtain ⟨out, ho⟩ := Option.isSome_iff_exists.1 hsome
  have hi' : i < (a.map some).length := by simpa using hi
  obtain ⟨o, h1, -, h3⟩ := (lowv_window_min ho).2 i hi'
  obtain ⟨v, rfl, hv, hall⟩ := (h3 hlb).2 (none_notMem_window a lb i)
  have hval : lowAt a lb i = v := by
    unfold lowAt
    rw [ho]
    simp [h1]
  rw [hval]
  constructor
  · obtain ⟨j, hj1, hj2, hj3⟩ := (mem_window hi').1 hv
    rw [rd_map_some a (by omega)] at hj3
    exact ⟨j, hj1, hj2, Option.some.inj (Option.some.inj hj3)⟩
  · intro j hj1 hj2
    exact hall _ ((mem_window hi').2 ⟨j, hj1, hj2, rd_map_some a (by omega)⟩)

/-- `highAt` is the largest of the last `lb` values. -/
theorem highAt_spec {a : List K} {lb i : Nat} (h0 : 0 < lb) (hlb : lb ≤ i + 1) (hi : i < a.length) :
    (∃ j, j ≤ i ∧ i + 1 ≤ j + lb ∧ rd a j = highAt a lb i) ∧
    ∀ j, j ≤ i → i + 1 ≤ j + lb → rd a j ≤ highAt a lb i := by
  have hsome : (highv (a.map some) lb).isSome := by
    rw [(rolling_accepts (a.map some) [] lb).2.1]
    right
    simp
    omega
  obtain ⟨out, ho⟩ := Option.isSome_iff_exists.1 hsome
  have hi' : i < (a.map some).length := by simpa using hi
  obtain ⟨o, h1, -, h3⟩ := (highv_window_max ho).2 i hi'
  obtain ⟨v, rfl, hv, hall⟩ := (h3 hlb).2 (none_notMem_window a lb i)
  have hval : highAt a lb i = v := by
    unfold highAt
    rw [ho]
    simp [h1]
  rw [hval]
  constructor
  · obtain ⟨j, hj1, hj2, hj3⟩ := (mem_window hi').1 hv
    rw [rd_map_some a (by omega)] at hj3
    exact ⟨j, hj1, hj2, Option.some.inj (Option.some.inj hj3)⟩
  · intro j hj1 hj2
    exact hall _ ((mem_window hi').2 ⟨j, hj1, hj2, rd_map_some a (by omega)⟩)

theorem lowAt_causal {a a' : List K} {lb i t : Nat} (h0 : 0 < lb) (hlb : lb ≤ i + 1) (hit : i ≤ t)
    (hi : i < a.length) (hi' : i < a'.length) (h : SameTo t a a') : lowAt a lb i = lowAt a' lb i := by
  obtain ⟨⟨j, a1, a2, a3⟩, a4⟩ := lowAt_spec h0 hlb hi
  obtain ⟨⟨j', b1, b2, b3⟩, b4⟩ := lowAt_spec h0 hlb hi'
  have ha := sameTo_agree h
  refine le_antisymm ?_ ?_
  · rw [← b3, ← ha j' (by omega)]
    exact a4 j' b1 b2
  · rw [← a3, ha j (by omega)]
    exact b4 j a1 a2

theorem highAt_causal {a a' : List K} {lb i t : Nat} (h0 : 0 < lb) (hlb : lb ≤ i + 1) (hit : i ≤ t)
    (hi : i < a.length) (hi' : i < a'.length) (h : SameTo t a a') : highAt a lb i = highAt a' lb i := by
  obtain ⟨⟨j, a1, a2, a3⟩, a4⟩ := highAt_spec h0 hlb hi
  obtain ⟨⟨j', b1, b2, b3⟩, b4⟩ := highAt_spec h0 hlb hi'
  have ha := sameTo_agree h
  refine le_antisymm ?_ ?_
  · rw [← a3, ha j (by omega)]
    exact b4 j a1 a2
  · rw [← b3, ← ha j' (by omega)]
    exact a4 j' b1 b2

/-- C53: `stochastic`. -/
theorem stochastic_causal {high low close high' low' close' : List K} {lb sm t : Nat}
    {out out' : List K} (hh : SameTo t high high') (hl : SameTo t low low')
    (hc : SameTo t close close') (h : stochastic high low close lb sm = some out)
    (h' : stochastic high' low' close' lb sm = some out') (ht : t < close.length)
    (ht' : t < close'.length) : out[t]? = out'[t]? := by
  obtain ⟨⟨e1, e2, hlb, _⟩, rfl⟩ := ite_some h
  obtain ⟨⟨e1', e2', _, _⟩, rfl⟩ := ite_some h'
  rw [series_get _ ht, series_get _ ht']
  congr 1
  by_cases hf : t < lb - 1
  · simp [hf]
  · have s0 : ∀ k, k ≤ t → lb - 1 ≤ k → sto0 high low close lb k = sto0 high' low' close' lb k := by
      intro k hk hlk
      unfold sto0
      rw [sameTo_agree hc k hk, lowAt_causal (t := t) (by omega) (by omega) hk (by omega) (by omega) hl,
        highAt_causal (t := t) (by omega) (by omega) hk (by omega) (by omega) hh]
    have s1 : ∀ k, k ≤ t → lb - 1 ≤ k → sto1 high low close lb k = sto1 high' low' close' lb k := by
      intro k hk hlk
      unfold sto1
      rw [s0 (lb - 1) (by omega) (le_refl _)]
      exact loop_congr (fun s j h1 h2 => by rw [s0 j (by omega) (by omega)])
    have s2 : ∀ k, k ≤ t → lb < k → sto2 high low close lb k = sto2 high' low' close' lb k := by
      intro k hk hlk
      unfold sto2
      rw [s1 lb (by omega) (by omega)]
      exact loop_congr (fun s j h1 h2 => by rw [s1 j (by omega) (by omega)])
    rw [if_neg (show ¬ lb > close.length by omega), if_neg (show ¬ lb > close'.length by omega)]
    simp only [if_neg hf]
    rw [s0 t (le_refl t) (by omega), s1 t (le_refl t) (by omega)]
    by_cases hg : lb < t
    · rw [s2 t (le_refl t) hg]
    · by_cases hx : t = lb - 1
      · simp [hx]
      · have : t = lb := by omega
        simp [this]

/-- C53: `stochastic_rsi`. -/
theorem stochasticRsi_causal {v v' : List K} {rl sl t : Nat} {sm : K} {out out' : List K}
    (hv : SameTo t v v') (h : stochasticRsi v rl sl sm = some out)
    (h' : stochasticRsi v' rl sl sm = some out') (ht : t < v.length) (ht' : t < v'.length) :
    out[t]? = out'[t]? := by
  obtain ⟨hc, rfl⟩ := ite_some h
  obtain ⟨-, rfl⟩ := ite_some h'
  rw [series_get _ ht, series_get _ ht']
  congr 1
  by_cases hf : t < rl + sl - 1
  · simp [hf]
  · have ha := sameTo_agree hv
    have hw : ∀ k, k ≤ t → (if k < rl then 0 else rsiAt (rd v) rl k) =
        (if k < rl then 0 else rsiAt (rd v') rl k) := by
      intro k hk
      by_cases hs : k < rl
      · rw [if_pos hs, if_pos hs]
      · rw [if_neg hs, if_neg hs, rsiAt_causal rl hk (by omega) ha]
    have hr : AgreeTo t (stoRsiRaw (rd v) rl sl) (stoRsiRaw (rd v') rl sl) := by
      intro k hk
      simp (disch := omega) only [stoRsiRaw, hw]
    rw [if_neg (show ¬ rl ≥ v.length by omega), if_neg (show ¬ rl ≥ v'.length by omega)]
    simp only [if_neg hf]
    rw [hr t (le_refl t), emaFrom_causal _ (le_refl t) (by omega) hr]

/-- C53: `linear_trend`, `quadratic_trend` and `cubic_trend`. -/
theorem trend_causal (F : Fns K) {v high low close v' high' low' close' : List K} {d : Degree}
    {lb al t : Nat} {sc : K} {out out' : List K} (hv : SameTo t v v') (hh : SameTo t high high')
    (hl : SameTo t low low') (hc : SameTo t close close')
    (h : trend F v high low close d lb al sc = some out)
    (h' : trend F v' high' low' close' d lb al sc = some out') (ht : t < v.length)
    (ht' : t < v'.length) : out[t]? = out'[t]? := by
  obtain ⟨-, rfl⟩ := ite_some h
  obtain ⟨-, rfl⟩ := ite_some h'
  rw [series_get _ ht, series_get _ ht']
  congr 1
  have a := fun k => atrAt_causal F true k (le_refl t) (sameTo_agree hh) (sameTo_agree hl) (sameTo_agree hc)
  have b := sameTo_agree hv
  unfold AgreeTo at b
  simp (disch := omega) only [trendAt, a, b]

/-- C53: `aroon_up`, `aroon_down` and `aroon_diff`. -/
theorem aroon_causal {high low high' low' : List K} {lb t : Nat}
    {up dn df up' dn' df' : List K} (hh : SameTo t high high') (hl : SameTo t low low')
    (h1 : aroonUp high low lb = some up) (h2 : aroonDown high low lb = some dn)
    (h3 : aroonDiff high low lb = some df) (h1' : aroonUp high' low' lb = some up')
    (h2' : aroonDown high' low' lb = some dn') (h3' : aroonDiff high' low' lb = some df')
    (ht : t < high.length) (ht' : t < high'.length) :
    up[t]? = up'[t]? ∧ dn[t]? = dn'[t]? ∧ df[t]? = df'[t]? := by
  obtain ⟨-, rfl⟩ := ite_some h1
  obtain ⟨-, rfl⟩ := ite_some h2
  obtain ⟨-, rfl⟩ := ite_some h3
  obtain ⟨-, rfl⟩ := ite_some h1'
  obtain ⟨-, rfl⟩ := ite_some h2'
  obtain ⟨-, rfl⟩ := ite_some h3'
  have key : ∀ (better : K → K → Bool) (x x' : Nat → K), AgreeTo t x x' →
      aroonScan better x lb t = aroonScan better x' lb t := by
    intro better x x' hx
    have : ∀ (l : List Nat) (s : Nat), s ≤ t →
        l.foldl (fun best d => if d ≤ t ∧ better (x (t - d)) (x best) then t - d else best) s =
        l.foldl (fun best d => if d ≤ t ∧ better (x' (t - d)) (x' best) then t - d else best) s := by
      intro l
      induction l with
      | nil => intro s _; rfl
      | cons d l ih =>
        intro s hs
        rw [List.foldl_cons, List.foldl_cons, hx (t - d) (Nat.sub_le _ _), hx s hs]
        apply ih
        split <;> omega
    exact this _ t (le_refl t)
  simp only [series_get _ ht, series_get _ ht', key _ _ _ (sameTo_agree hh),
    key _ _ _ (sameTo_agree hl), and_self]

/-- C53: `close_minus_ma`. -/
theorem closeMinusMa_causal (F : Fns K) {high low close high' low' close' : List K} {lb al t : Nat}
    {sc : K} {out out' : List K} (hh : SameTo t high high') (hl : SameTo t low low')
    (hc : SameTo t close close') (h : closeMinusMa F high low close lb al sc = some out)
    (h' : closeMinusMa F high' low' close' lb al sc = some out') (ht : t < close.length)
    (ht' : t < close'.length) : out[t]? = out'[t]? := by
  obtain ⟨-, rfl⟩ := ite_some h
  obtain ⟨-, rfl⟩ := ite_some h'
  rw [series_get _ ht, series_get _ ht']
  congr 1
  have a := fun k => atrAt_causal F true k (le_refl t) (sameTo_agree hh) (sameTo_agree hl) (sameTo_agree hc)
  have b := sameTo_agree hc
  unfold AgreeTo at b
  simp (disch := omega) only [a, b]

/-- C53: `linear_deviation`, `quadratic_deviation` and `cubic_deviation`. -/
theorem deviation_causal (F : Fns K) {v v' : List K} {d : Degree} {lb t : Nat}
    {sc : K} {out out' : List K} (hv : SameTo t v v') (h : deviation F v d lb sc = some out)
    (h' : deviation F v' d lb sc = some out') (ht : t < v.length) (ht' : t < v'.length) :
    out[t]? = out'[t]? := by
  obtain ⟨-, rfl⟩ := ite_some h
  obtain ⟨-, rfl⟩ := ite_some h'
  rw [series_get _ ht, series_get _ ht']
  congr 1
  have b := sameTo_agree hv
  unfold AgreeTo at b
  simp (disch := omega) only [deviationAt, b]

/-- C53: `price_intensity`. -/
theorem priceIntensity_causal (F : Fns K) {o high low close o' high' low' close' : List K} {t : Nat}
    {sm sc : K} {out out' : List K} (ho : SameTo t o o') (hh : SameTo t high high')
    (hl : SameTo t low low') (hc : SameTo t close close')
    (h : priceIntensity F o high low close sm sc = some out)
    (h' : priceIntensity F o' high' low' close' sm sc = some out') (ht : t < close.length)
    (ht' : t < close'.length) : out[t]? = out'[t]? := by
  obtain ⟨-, rfl⟩ := ite_some h
  obtain ⟨-, rfl⟩ := ite_some h'
  rw [series_get _ ht, series_get _ ht']
  congr 1
  have a1 := sameTo_agree ho
  have a2 := sameTo_agree hh
  have a3 := sameTo_agree hl
  have a4 := sameTo_agree hc
  have hr : AgreeTo t (intensityRaw (rd o) (rd high) (rd low) (rd close))
      (intensityRaw (rd o') (rd high') (rd low') (rd close')) := by
    intro i hi
    unfold AgreeTo at *
    by_cases h0 : i = 0
    · subst h0
      simp (disch := omega) only [intensityRaw, a1, a2, a3, a4, if_true]
    · simp (disch := omega) only [intensityRaw, h0, if_false, trueRange, a1, a2, a3, a4]
  simp only [hr t (le_refl t), emaFrom_causal _ (le_refl t) (Nat.zero_le t) hr]

/-- C53: `price_change_oscillator`. -/
theorem priceChangeOscillator_causal (F : Fns K) {high low close high' low' close' : List K}
    {short mult t : Nat} {sc : K} {out out' : List K} (hh : SameTo t high high')
    (hl : SameTo t low low') (hc : SameTo t close close')
    (h : priceChangeOscillator F high low close short mult sc = some out)
    (h' : priceChangeOscillator F high' low' close' short mult sc = some out')
    (ht : t < close.length) (ht' : t < close'.length) : out[t]? = out'[t]? := by
  obtain ⟨-, rfl⟩ := ite_some h
  obtain ⟨-, rfl⟩ := ite_some h'
  rw [series_get _ ht, series_get _ ht']
  congr 1
  have a := fun k => atrAt_causal F true k (le_refl t) (sameTo_agree hh) (sameTo_agree hl) (sameTo_agree hc)
  have b := sameTo_agree hc
  unfold AgreeTo at b
  simp (disch := omega) only [oscillatorAt, a, b]

/-- C53: `intraday_intensity` and `money_flow`. -/
theorem flow_causal {high low close vol high' low' close' vol' : List K} {lb t : Nat} {sm : K}
    {m : Bool} {out out' : List K} (hh : SameTo t high high') (hl : SameTo t low low')
    (hc : SameTo t close close') (hv : SameTo t vol vol')
    (hpos : 2 ≤ lb ∨ ∃ j ≤ t, rd vol j > 0)
    (h : flow high low close vol lb sm m = some out)
    (h' : flow high' low' close' vol' lb sm m = some out') (ht : t < close.length)
    (ht' : t < close'.length) : out[t]? = out'[t]? := by
  obtain ⟨⟨e1, e2, e3, _⟩, rfl⟩ := ite_some h
  obtain ⟨⟨e1', e2', e3', _⟩, rfl⟩ := ite_some h'
  rw [series_get _ ht, series_get _ ht']
  congr 1
  simp only
  have a2 := sameTo_agree hh
  have a3 := sameTo_agree hl
  have a4 := sameTo_agree hc
  have a5 := sameTo_agree hv
  rcases firstVolume_cases (d := lb - 1) hv (by omega) (by omega) (by
    rcases hpos with h | h
    · left; omega
    · exact Or.inr h) with ⟨h1, h2⟩ | ⟨h1, h2⟩
  · rw [if_pos h1, if_pos h2]
  · rw [← h1]
    unfold AgreeTo at *
    have hr : ∀ i, i ≤ t → flowRaw (rd high) (rd low) (rd close) (rd vol) (firstVolume vol) i =
        flowRaw (rd high') (rd low') (rd close') (rd vol') (firstVolume vol) i := by
      intro i hi
      simp (disch := omega) only [flowRaw, a2, a3, a4, a5]
    have x1 : flowAvg (rd high) (rd low) (rd close) (rd vol) (firstVolume vol) lb t =
        flowAvg (rd high') (rd low') (rd close') (rd vol') (firstVolume vol) lb t := by
      simp (disch := omega) only [flowAvg, hr]
    have x2 : sumIn 0 lb (fun j => rd vol (t - j)) = sumIn 0 lb (fun j => rd vol' (t - j)) := by
      simp (disch := omega) only [a5]
    have x3 : ∀ al, flowSmooth (rd vol) al (firstVolume vol) t =
        flowSmooth (rd vol') al (firstVolume vol) t := by
      intro al
      simp (disch := omega) only [flowSmooth, a5]
    rw [x1, x2, x3]

/-- C53: `reactivity`. -/
theorem reactivity_causal (F : Fns K) {high low close vol high' low' close' vol' : List K}
    {lb t : Nat} {sm sc : K} {out out' : List K} (hh : SameTo t high high') (hl : SameTo t low low')
    (hc : SameTo t close close') (hv : SameTo t vol vol')
    (h : reactivity F high low close vol lb sm sc = some out)
    (h' : reactivity F high' low' close' vol' lb sm sc = some out') (ht : t < close.length)
    (ht' : t < close'.length) : out[t]? = out'[t]? := by
  obtain ⟨⟨e1, e2, e3, hlb, _⟩, rfl⟩ := ite_some h
  obtain ⟨⟨e1', e2', e3', _⟩, rfl⟩ := ite_some h'
  rw [series_get _ ht, series_get _ ht']
  congr 1
  have a2 := sameTo_agree hh
  have a3 := sameTo_agree hl
  have a4 := sameTo_agree hc
  have a5 := sameTo_agree hv
  rcases firstVolume_cases (d := lb) hv (by omega) (by omega) (Or.inl hlb) with ⟨h1, h2⟩ | ⟨h1, h2⟩
  · rw [if_pos h1, if_pos h2]
    simp
  · rw [← h1, a2 _ h2, a3 _ h2]
    by_cases hf : t < lb + firstVolume vol
    · rw [if_pos hf, if_pos hf]
      simp
    · rw [if_neg hf, if_neg hf]
      rw [if_neg (c := firstVolume vol + 1 ≥ close.length ∨ _) (by omega),
        if_neg (c := firstVolume vol + 1 ≥ close'.length ∨ _) (by omega)]
      unfold AgreeTo at *
      unfold reactAt
      have w := fun (s : ReactSt K) (alpha : K) => loop_congr (s := s)
        (a := firstVolume vol + 1) (b := firstVolume vol + lb)
        (f := reactWarm (rd high) (rd low) (rd vol) alpha)
        (g := reactWarm (rd high') (rd low') (rd vol') alpha)
        (fun s j _ _ => by simp (disch := omega) only [reactWarm, a2, a3, a5])
      have w2 := fun (s : ReactSt K) (alpha : K) => loop_congr (s := s)
        (a := firstVolume vol + lb) (b := t + 1)
        (f := reactStep (rd high) (rd low) (rd vol) alpha lb)
        (g := reactStep (rd high') (rd low') (rd vol') alpha lb)
        (fun s j _ _ => by simp (disch := omega) only [reactStep, a2, a3, a5])
      simp only [w, w2, a2 _ h2, a3 _ h2, a5 _ h2, a5 t (le_refl t), a4 t (le_refl t),
        a4 (t - lb) (Nat.sub_le _ _)]

/-- C53: `price_volume_fit` and `volume_weighted_ma_ratio`. -/
theorem volumeFit_causal (F : Fns K) {close vol close' vol' : List K} {lb t : Nat} {sc : K}
    {fit vw fit' vw' : List K} (hc : SameTo t close close') (hv : SameTo t vol vol')
    (hpos : 2 ≤ lb ∨ ∃ j ≤ t, rd vol j > 0)
    (h1 : priceVolumeFit F close vol lb sc = some fit)
    (h2 : volumeWeightedMaRatio F close vol lb sc = some vw)
    (h1' : priceVolumeFit F close' vol' lb sc = some fit')
    (h2' : volumeWeightedMaRatio F close' vol' lb sc = some vw')
    (ht : t < close.length) (ht' : t < close'.length) : fit[t]? = fit'[t]? ∧ vw[t]? = vw'[t]? := by
  obtain ⟨⟨e1, _⟩, rfl⟩ := ite_some h1
  obtain ⟨⟨e1', _⟩, rfl⟩ := ite_some h1'
  obtain ⟨-, rfl⟩ := ite_some h2
  obtain ⟨-, rfl⟩ := ite_some h2'
  rw [series_get _ ht, series_get _ ht', series_get _ ht, series_get _ ht']
  have a4 := sameTo_agree hc
  have a5 := sameTo_agree hv
  rcases firstVolume_cases (d := lb - 1) hv (by omega) (by omega) (by
    rcases hpos with h | h
    · left; omega
    · exact Or.inr h) with ⟨h1, h2⟩ | ⟨h1, h2⟩
  · rw [if_pos h1, if_pos h2, if_pos h1, if_pos h2]
    exact ⟨rfl, rfl⟩
  · rw [← h1]
    unfold AgreeTo at *
    have s1 : ∀ a, sumIn a (t + 1) (rd close) = sumIn a (t + 1) (rd close') :=
      fun a => sumIn_congr (fun j _ h => a4 j (by omega))
    have s2 : ∀ a, sumIn a (t + 1) (rd vol) = sumIn a (t + 1) (rd vol') :=
      fun a => sumIn_congr (fun j _ h => a5 j (by omega))
    constructor
    · simp (disch := omega) only [fitAt, a4, a5]
    · simp (disch := omega) only [vwmaAt, s1, s2, a4, a5]

/-- C53: `normalized_on_balance_volume` and `delta_on_balance_volume`. -/
theorem obv_causal (F : Fns K) {close vol close' vol' : List K} {lb d t : Nat} {sc : K}
    {nm dl nm' dl' : List K} (hc : SameTo t close close') (hv : SameTo t vol vol')
    (h1 : normalizedObv F close vol lb sc = some nm) (h2 : deltaObv F close vol lb d sc = some dl)
    (h1' : normalizedObv F close' vol' lb sc = some nm')
    (h2' : deltaObv F close' vol' lb d sc = some dl')
    (ht : t < close.length) (ht' : t < close'.length) : nm[t]? = nm'[t]? ∧ dl[t]? = dl'[t]? := by
  obtain ⟨⟨e1, hlb, _⟩, rfl⟩ := ite_some h1
  obtain ⟨⟨e1', _⟩, rfl⟩ := ite_some h1'
  obtain ⟨-, rfl⟩ := ite_some h2
  obtain ⟨-, rfl⟩ := ite_some h2'
  rw [series_get _ ht, series_get _ ht', series_get _ ht, series_get _ ht']
  have a4 := sameTo_agree hc
  have a5 := sameTo_agree hv
  have ho : ∀ i, i ≤ t → obvAt F (rd close) (rd vol) lb sc i = obvAt F (rd close') (rd vol') lb sc i := by
    intro i hi
    unfold AgreeTo at *
    simp (disch := omega) only [obvAt, a4, a5]
  rw [ho t (le_refl t), ho (t - _) (Nat.sub_le _ _)]
  rcases firstVolume_cases (d := lb) hv (by omega) (by omega) (Or.inl hlb) with ⟨h1, h2⟩ | ⟨h1, h2⟩
  · rw [if_pos h1, if_pos h2, if_pos (by omega), if_pos (by omega)]
    exact ⟨rfl, rfl⟩
  · rw [← h1]
    exact ⟨rfl, rfl⟩

/-- C53: `normalized_positive_volume_index` and `normalized_negative_volume_index`. -/
theorem volumeIndex_causal (F : Fns K) {close vol close' vol' : List K} {lb t : Nat} {sc : K}
    {pos : Bool} {out out' : List K} (hc : SameTo t close close') (hv : SameTo t vol vol')
    (h : normalizedVolumeIndex F close vol lb sc pos = some out)
    (h' : normalizedVolumeIndex F close' vol' lb sc pos = some out')
    (ht : t < close.length) (ht' : t < close'.length) : out[t]? = out'[t]? := by
  obtain ⟨⟨e1, hlb, _⟩, rfl⟩ := ite_some h
  obtain ⟨⟨e1', _⟩, rfl⟩ := ite_some h'
  rw [series_get _ ht, series_get _ ht']
  congr 1
  have a4 := sameTo_agree hc
  have a5 := sameTo_agree hv
  have hvar := fun len => varianceAt_causal F true len (le_refl t) a4
  have hvl0 : 0 < (if 2 * lb < 250 then 250 else 2 * lb) := by split <;> omega
  generalize (if 2 * lb < 250 then 250 else 2 * lb) = vl at hvl0 ⊢
  rcases firstVolume_cases (d := vl) hv (by omega) (by omega) (Or.inl hvl0) with ⟨h1, h2⟩ | ⟨h1, h2⟩
  · rw [if_pos h1, if_pos h2]
  · rw [← h1]
    unfold AgreeTo at *
    simp (disch := omega) only [nviAt, hvar, a4, a5]

/-- C53: `volume_momentum`. -/
theorem volumeMomentum_causal (F : Fns K) {vol vol' : List K} {short mult t : Nat} {sc : K}
    {out out' : List K} (hv : SameTo t vol vol') (h : volumeMomentum F vol short mult sc = some out)
    (h' : volumeMomentum F vol' short mult sc = some out')
    (ht : t < vol.length) (ht' : t < vol'.length) : out[t]? = out'[t]? := by
  obtain ⟨⟨hs, hm, _⟩, rfl⟩ := ite_some h
  obtain ⟨-, rfl⟩ := ite_some h'
  rw [series_get _ ht, series_get _ ht']
  congr 1
  have a5 := sameTo_agree hv
  have hm2 : 2 ≤ (if mult < 2 then 2 else mult) := by split <;> omega
  generalize (if mult < 2 then 2 else mult) = m at hm2 ⊢
  have hl : 2 ≤ short * m := by
    calc 2 ≤ m := hm2
      _ = 1 * m := (one_mul m).symm
      _ ≤ short * m := Nat.mul_le_mul_right m hs
  rcases firstVolume_cases (d := short * m - 1) hv ht ht' (Or.inl (by omega)) with ⟨h1, h2⟩ | ⟨h1, h2⟩
  · rw [if_pos h1, if_pos h2]
  · rw [← h1]
    unfold AgreeTo at *
    have s2 : ∀ a, sumIn a (t + 1) (rd vol) = sumIn a (t + 1) (rd vol') :=
      fun a => sumIn_congr (fun j _ h => a5 j (by omega))
    simp (disch := omega) only [momentumAt, s2, a5]

/-- C53: `laguerre_rsi`. -/
theorem laguerreRsi_causal (F : Fns K) {o high low close o' high' low' close' : List K} {fe t : Nat}
    {out out' : List K} (ho : SameTo t o o') (hh : SameTo t high high')
    (hl : SameTo t low low') (hc : SameTo t close close')
    (h : laguerreRsi F o high low close fe = some out)
    (h' : laguerreRsi F o' high' low' close' fe = some out') (ht : t < close.length)
    (ht' : t < close'.length) : out[t]? = out'[t]? := by
  obtain ⟨⟨_, _, _, hfe⟩, rfl⟩ := ite_some h
  obtain ⟨-, rfl⟩ := ite_some h'
  rw [series_get _ ht, series_get _ ht']
  congr 1
  by_cases hf : t < fe
  · rw [if_pos (Or.inr (Or.inr hf)), if_pos (Or.inr (Or.inr hf))]
  · by_cases h1 : fe = 1
    · rw [if_pos (Or.inr (Or.inl h1)), if_pos (Or.inr (Or.inl h1))]
    · rw [if_neg (by omega), if_neg (by omega)]
      have a1 := sameTo_agree ho
      have a2 := sameTo_agree hh
      have a3 := sameTo_agree hl
      have a4 := sameTo_agree hc
      unfold AgreeTo at *
      have hx : ∀ j, fe ≤ j → j ≤ t → maxIn (rd high) (j + 1 - fe) (j + 1) =
          maxIn (rd high') (j + 1 - fe) (j + 1) := by
        intro j _ _
        simp (disch := omega) only [maxIn, a2]
      have hn : ∀ j, fe ≤ j → j ≤ t → minIn (rd low) (j + 1 - fe) (j + 1) =
          minIn (rd low') (j + 1 - fe) (j + 1) := by
        intro j _ _
        simp (disch := omega) only [minIn, a3]
      congr 1
      refine loop_congr (fun s j hj1 hj2 => ?_)
      unfold lagStep
      rw [hx j hj1 (by omega), hn j hj1 (by omega)]
      generalize maxIn (rd high') (j + 1 - fe) (j + 1) - minIn (rd low') (j + 1 - fe) (j + 1) = dn
      have hsum : lagSum (rd high) (rd low) (rd close) fe dn j =
          lagSum (rd high') (rd low') (rd close') fe dn j := by
        simp (disch := omega) only [lagSum, a2, a3, a4]
      simp only
      rw [hsum, a1 j (by omega), a2 j (by omega), a3 j (by omega), a4 j (by omega),
        a4 (j - 1) (by omega)]

theorem adxAt_causal {h l c h' l' c' : Nat → K} (lb : Nat) {t : Nat} (hh : AgreeTo t h h')
    (hl : AgreeTo t l l') (hc : AgreeTo t c c') : adxAt h l c lb t = adxAt h' l' c' lb t := by
  have t1 : ∀ j, j ≤ t → trueRange h l c j = trueRange h' l' c' j := by
    intro j hj
    unfold AgreeTo at *
    simp (disch := omega) only [trueRange, hh, hl, hc]
  have t2 : ∀ j, j ≤ t → dmPlus h l j = dmPlus h' l' j := by
    intro j hj
    unfold AgreeTo at *
    simp (disch := omega) only [dmPlus, hh, hl]
  have t3 : ∀ j, j ≤ t → dmMinus h l j = dmMinus h' l' j := by
    intro j hj
    unfold AgreeTo at *
    simp (disch := omega) only [dmMinus, hh, hl]
  have l1 : ∀ b s, b ≤ t + 1 → loop 1 b (adxStep1 h l c) s = loop 1 b (adxStep1 h' l' c') s :=
    fun b s hb => loop_congr (fun s j _ _ => by
      unfold adxStep1
      rw [t1 j (by omega), t2 j (by omega), t3 j (by omega)])
  have l2 : ∀ b s, b ≤ t + 1 → loop (lb + 1) b (adxStep2 h l c lb) s =
      loop (lb + 1) b (adxStep2 h' l' c' lb) s :=
    fun b s hb => loop_congr (fun s j _ _ => by
      unfold adxStep2 adxDecay
      rw [t1 j (by omega), t2 j (by omega), t3 j (by omega)])
  have l3 : ∀ b s, b ≤ t + 1 → loop (2 * lb) b (adxStep3 h l c lb) s =
      loop (2 * lb) b (adxStep3 h' l' c' lb) s :=
    fun b s hb => loop_congr (fun s j _ _ => by
      unfold adxStep3 adxDecay
      rw [t1 j (by omega), t2 j (by omega), t3 j (by omega)])
  unfold adxAt
  by_cases h0 : t = 0
  · rw [if_pos h0, if_pos h0]
  · rw [if_neg h0, if_neg h0]
    by_cases h1 : t ≤ lb
    · rw [if_pos h1, if_pos h1, l1 _ _ (le_refl _)]
    · rw [if_neg h1, if_neg h1]
      by_cases h2 : t < 2 * lb
      · rw [if_pos h2, if_pos h2, l1 _ _ (by omega), l2 _ _ (le_refl _)]
      · rw [if_neg h2, if_neg h2, l1 _ _ (by omega), l2 _ _ (by omega)]
        simp only
        rw [l3 _ _ (le_refl _)]

/-- C53: `adx`, for two inputs of at least `2 * lookback` bars each.  Missing: shorter
inputs, see `adx_not_causal`. -/
theorem adx_causal_partial {high low close high' low' close' : List K} {lb t : Nat}
    {out out' : List K} (hh : SameTo t high high') (hl : SameTo t low low')
    (hc : SameTo t close close') (h : adx high low close lb = some out)
    (h' : adx high' low' close' lb = some out') (ht : t < close.length)
    (ht' : t < close'.length) (hn : 2 * lb ≤ close.length) (hn' : 2 * lb ≤ close'.length) :
    out[t]? = out'[t]? := by
  obtain ⟨-, rfl⟩ := ite_some h
  obtain ⟨-, rfl⟩ := ite_some h'
  rw [series_get _ ht, series_get _ ht', if_neg (by omega), if_neg (by omega),
    adxAt_causal lb (sameTo_agree hh) (sameTo_agree hl) (sameTo_agree hc)]

/-- C53, where the code falls short.  With fewer than `2 * lookback` bars `adx` is zero
throughout, so a bar's value changes when later bars arrive: with `lookback = 2`, bar 1 of
three bars is 0, and not 0 once a fourth bar is there. -/
theorem adx_not_causal : ∃ (high low close : List ℚ) (out out' : List ℚ),
    adx (high.take 3) (low.take 3) (close.take 3) 2 = some out ∧
    adx high low close 2 = some out' ∧ out[1]? = some 0 ∧ ∃ v, out'[1]? = some v ∧ 99 < v := by
  refine ⟨[2, 3, 4, 5], [1, 2, 3, 4], [1, 2, 3, 4], _, _, rfl, rfl, by decide +kernel, _, rfl,
    by decide +kernel⟩

/-- C53, where the code falls short.  With `lookback = 1` and no volume yet, the last bar of
the array counts as the first bar with volume: `price_volume_fit` is computed there on a
truncated array and is 0 on the whole one. -/
theorem priceVolumeFit_no_volume : ∃ (F : Fns ℚ) (close vol out out' : List ℚ),
    priceVolumeFit F (close.take 1) (vol.take 1) 1 1 = some out ∧
    priceVolumeFit F close vol 1 1 = some out' ∧ out[0]? ≠ out'[0]? := by
  refine ⟨⟨fun x => x, fun x => x, fun x => x, fun _ => 51 / 100, fun _ => 0⟩, [1, 2, 3], [0, 0, 1],
    _, _, rfl, rfl, by decide +kernel⟩

/-! ## Concrete calls -/

/-- Functions for the examples. -/
def demoFns : Fns ℚ :=
  ⟨fun x => x - 1, fun x => x / 2 + 1, fun x => x + 1, fun z => if z > 0 then 3 / 4 else 1 / 4, fun x => x.floor.toNat⟩

example : atr demoFns [3, 4, 6, 5] [1, 2, 3, 4] [2, 3, 5, 4] 2 =
    some [none, none, some (5 / 2), some 2] := by decide +kernel
example : macd demoFns [3, 4, 6, 5] [1, 2, 3, 4] [2, 3, 5, 4] 1 2 0 1 =
    some [0, 25, 25, -25] := by decide +kernel
example : aroonUp (K := ℚ) [3, 4, 6, 5] [1, 2, 3, 4] 2 = some [50, 100, 100, 50] := by decide +kernel
example : (reactivity demoFns [3, 4, 6, 5] [1, 2, 3, 4] [2, 3, 5, 4] [0, 1, 2, 1] 1 1 1) =
    some [0, 0, 25, -25] := by decide +kernel
example : (laguerreRsi demoFns [2, 3, 5, 4] [3, 4, 6, 5] [1, 2, 3, 4] [2, 3, 5, 4] 2).isSome := by
  decide +kernel
example : (deltaObv demoFns [2, 3, 5, 4] [0, 1, 2, 1] 1 1 1) = some [0, 0, 0, -50] := by decide +kernel

end PyBroker
