import Verif.Props.Bootstrap

/-!
# Ranges of the scores and infinite scores (C81, C82)
-/

namespace PyBroker

open Spec

/-! ## Entropy -/

theorem entropyBin_lt {K : Type} [Field K] [LinearOrder K] (toInt : K → Int) (lo hi v : K)
    {bins : Nat} (h : 0 < bins) : entropyBin toInt lo hi v bins < bins := by
  unfold entropyBin
  simp only
  split
  · exact h
  · split <;> omega

theorem sum_modify (l : List Nat) (k : Nat) (h : k < l.length) :
    (l.modify k (· + 1)).sum = l.sum + 1 := by
  induction l generalizing k with
  | nil => simp at h
  | cons a rest ih =>
    cases k with
    | zero => simp; omega
    | succ k =>
      simp only [List.length_cons] at h
      have := ih k (by omega)
      simp only [List.modify_succ_cons, List.sum_cons, this]
      omega

theorem entropyCounts_spec {K : Type} [Field K] [LinearOrder K] (toInt : K → Int) (lo hi : K)
    {bins : Nat} (h : 0 < bins) (x : List K) :
    (entropyCounts toInt lo hi bins x).length = bins ∧
      (entropyCounts toInt lo hi bins x).sum = x.length := by
  unfold entropyCounts
  refine foldl_prefix _ (fun (l : List K) (s : List Nat) => s.length = bins ∧ s.sum = l.length) _ (by simp) ?_ x
  rintro l v s ⟨h1, h2⟩
  refine ⟨by simp [h1], ?_⟩
  rw [sum_modify _ _ (by rw [h1]; exact entropyBin_lt _ _ _ _ h), h2]
  simp

theorem entropy_upper (k n : ℝ) (hk : 0 < k) (hn : 0 < n) (count : List Nat) :
    -(count.map (fun c : Nat => if c = 0 then (0 : ℝ) else (c : ℝ) / n * Real.log ((c : ℝ) / n))).sum
      ≤ (count.sum : ℝ) / n * Real.log k + (count.length / k - (count.sum : ℝ) / n) := by
  induction count with
  | nil => simp
  | cons c rest ih =>
    simp only [List.map_cons, List.sum_cons, List.length_cons, Nat.cast_add, Nat.cast_one]
    have key : -(if c = 0 then 0 else (c : ℝ) / n * Real.log ((c : ℝ) / n))
        ≤ (c : ℝ) / n * Real.log k + (1 / k - (c : ℝ) / n) := by
      by_cases hc : c = 0
      · simp [hc]
        positivity
      · rw [if_neg hc]
        have hcpos : (0 : ℝ) < c := by
          have : 0 < c := Nat.pos_of_ne_zero hc
          exact_mod_cast this
        have hp : 0 < (c : ℝ) / n := div_pos hcpos hn
        have h1 : Real.log (1 / (k * ((c : ℝ) / n))) ≤ 1 / (k * ((c : ℝ) / n)) - 1 :=
          Real.log_le_sub_one_of_pos (by positivity)
        rw [one_div, Real.log_inv, Real.log_mul hk.ne' hp.ne'] at h1
        have h2 := mul_le_mul_of_nonneg_left h1 hp.le
        have h3 : (c : ℝ) / n * ((k * ((c : ℝ) / n))⁻¹ - 1) = 1 / k - (c : ℝ) / n := by
          field_simp
        rw [h3] at h2
        linarith
    have e : ((rest.length : ℝ) + 1) / k = rest.length / k + 1 / k := by ring
    have e2 : ((c : ℝ) + (rest.sum : ℝ)) / n = (c : ℝ) / n + (rest.sum : ℝ) / n := by ring
    rw [e, e2]
    linarith

theorem entropy_lower (n : Nat) (count : List Nat) (h : ∀ c ∈ count, c ≤ n) :
    0 ≤ -(count.map (fun c : Nat => if c = 0 then (0 : ℝ) else (c : ℝ) / n * Real.log ((c : ℝ) / n))).sum := by
  induction count with
  | nil => simp
  | cons c rest ih =>
    simp only [List.map_cons, List.sum_cons]
    have h1 := ih (fun d hd => h d (by simp [hd]))
    have h2 := h c (by simp)
    have key : (if c = 0 then 0 else (c : ℝ) / n * Real.log ((c : ℝ) / n)) ≤ 0 := by
      split
      · exact le_refl _
      · have hp : (0 : ℝ) ≤ (c : ℝ) / n := by positivity
        have hle : (c : ℝ) / n ≤ 1 := by
          apply div_le_one_of_le₀
          · exact_mod_cast h2
          · positivity
        exact mul_nonpos_of_nonneg_of_nonpos hp (Real.log_nonpos hp hle)
    linarith

/-- **C81** (entropy).  The relative entropy of any values is between 0 and 1. -/
theorem relative_entropy_range (toInt : ℝ → Int) (x : List ℝ) :
    0 ≤ relativeEntropy realFns toInt x ∧ relativeEntropy realFns toInt x ≤ 1 := by
  cases x with
  | nil => simp [relativeEntropy]
  | cons v rest =>
    unfold relativeEntropy neg
    simp only
    generalize rest.foldl min v = lo
    generalize rest.foldl max v = hi
    have hb : 3 ≤ entropyBins (v :: rest).length := by
      unfold entropyBins
      split
      · omega
      · split
        · omega
        · split <;> omega
    generalize hx : v :: rest = x at *
    generalize entropyBins x.length = bins at *
    obtain ⟨h1, h2⟩ := entropyCounts_spec toInt lo hi (show 0 < bins by omega) x
    generalize entropyCounts toInt lo hi bins x = count at *
    have hn : (0 : ℝ) < x.length := by
      rw [← hx]
      simp only [List.length_cons]
      positivity
    have hk : (0 : ℝ) < bins := by
      have : 0 < bins := by omega
      exact_mod_cast this
    have hlog : 0 < Real.log bins := by
      apply Real.log_pos
      have : 1 < bins := by omega
      exact_mod_cast this
    change 0 ≤ -(List.map (fun c : Nat => if c = 0 then (0 : ℝ) else (c : ℝ) / x.length *
      Real.log ((c : ℝ) / x.length)) count).sum / Real.log bins ∧ -(List.map (fun c : Nat =>
      if c = 0 then (0 : ℝ) else (c : ℝ) / x.length * Real.log ((c : ℝ) / x.length)) count).sum /
      Real.log bins ≤ 1
    constructor
    · apply div_nonneg _ hlog.le
      apply entropy_lower
      intro c hc
      rw [← h2]
      exact List.le_sum_of_mem hc
    · rw [div_le_one hlog]
      have := entropy_upper bins x.length hk hn count
      rw [h1, h2, div_self hn.ne', div_self hk.ne'] at this
      linarith

/-! ## Interquartile range -/

variable {K : Type} [Field K] [LinearOrder K] [IsStrictOrderedRing K]

theorem percentile_between {l : List K} (hs : l.Pairwise (· ≤ ·)) (hne : l ≠ []) {q : ℚ}
    (h0 : 0 ≤ q) (h1 : q ≤ 1) :
    ∃ a b, a ∈ l ∧ b ∈ l ∧ a ≤ percentileMid l q ∧ percentileMid l q ≤ b ∧
      l[⌊q * ((l.length : ℚ) - 1)⌋.toNat]? = some a ∧ l[⌈q * ((l.length : ℚ) - 1)⌉.toNat]? = some b := by
  have hn : 0 < l.length := List.length_pos_of_ne_nil hne
  have hnq : (1 : ℚ) ≤ l.length := by exact_mod_cast hn
  have hr0 : 0 ≤ q * ((l.length : ℚ) - 1) := mul_nonneg h0 (by linarith)
  have hr1 : q * ((l.length : ℚ) - 1) ≤ (l.length : ℚ) - 1 := by nlinarith
  have hf0 : 0 ≤ ⌊q * ((l.length : ℚ) - 1)⌋ := Int.floor_nonneg.mpr hr0
  have hc : ⌈q * ((l.length : ℚ) - 1)⌉ ≤ (l.length : Int) - 1 := by
    apply Int.ceil_le.mpr
    push_cast
    exact hr1
  have hfc : ⌊q * ((l.length : ℚ) - 1)⌋ ≤ ⌈q * ((l.length : ℚ) - 1)⌉ := Int.floor_le_ceil _
  unfold percentileMid
  rw [if_neg (by omega)]
  simp only
  generalize ⌊q * ((l.length : ℚ) - 1)⌋ = f at *
  generalize ⌈q * ((l.length : ℚ) - 1)⌉ = c at *
  have hfl : f.toNat < l.length := by omega
  have hcl : c.toNat < l.length := by omega
  have hle := sorted_get hs (Int.toNat_le_toNat hfc) (List.getElem?_eq_getElem hfl)
    (List.getElem?_eq_getElem hcl)
  refine ⟨l[f.toNat], l[c.toNat], List.getElem_mem hfl, List.getElem_mem hcl, ?_, ?_,
    List.getElem?_eq_getElem hfl, List.getElem?_eq_getElem hcl⟩
  · split
    · simp [List.getD_eq_getElem?_getD, List.getElem?_eq_getElem hfl]
    · simp only [List.getD_eq_getElem?_getD, List.getElem?_eq_getElem hfl,
        List.getElem?_eq_getElem hcl, Option.getD_some]
      linarith
  · split
    · simpa [List.getD_eq_getElem?_getD, List.getElem?_eq_getElem hfl] using hle
    · simp only [List.getD_eq_getElem?_getD, List.getElem?_eq_getElem hfl,
        List.getElem?_eq_getElem hcl, Option.getD_some]
      linarith

/-- **C81** (interquartile range).  It is not negative and at most the spread of the values. -/
theorem iqr_range (x : List K) (lo hi : K) (h : ∀ v ∈ x, lo ≤ v ∧ v ≤ hi) (hlo : lo ≤ hi) :
    0 ≤ iqr x ∧ iqr x ≤ hi - lo := by
  unfold iqr
  by_cases h0 : x.length = 0
  · rw [if_pos h0]
    exact ⟨le_refl _, by linarith⟩
  · rw [if_neg h0]
    have hne : sortK x ≠ [] := by
      intro he
      have := length_sortK x
      rw [he] at this
      exact h0 this.symm
    obtain ⟨a, b, ha, hb, h1, h2, ga, gb⟩ := percentile_between (sortK_sorted x) hne
      (q := 75 / 100) (by norm_num) (by norm_num)
    obtain ⟨c, d, hc, hd, h3, h4, gc, gd⟩ := percentile_between (sortK_sorted x) hne
      (q := 25 / 100) (by norm_num) (by norm_num)
    have hn : 0 < (sortK x).length := List.length_pos_of_ne_nil hne
    have hnq : (1 : ℚ) ≤ (sortK x).length := by exact_mod_cast hn
    refine ⟨?_, ?_⟩
    · -- the upper index of the 25th is at most the lower index of the 75th, or they share ends
      have hf : ⌊(25 / 100 : ℚ) * (((sortK x).length : ℚ) - 1)⌋
          ≤ ⌊(75 / 100 : ℚ) * (((sortK x).length : ℚ) - 1)⌋ := Int.floor_le_floor (by linarith)
      have hcc : ⌈(25 / 100 : ℚ) * (((sortK x).length : ℚ) - 1)⌉
          ≤ ⌈(75 / 100 : ℚ) * (((sortK x).length : ℚ) - 1)⌉ := Int.ceil_le_ceil (by linarith)
      have hac := sorted_get (sortK_sorted x) (Int.toNat_le_toNat hf) gc ga
      have hbd := sorted_get (sortK_sorted x) (Int.toNat_le_toNat hcc) gd gb
      have hcd := sorted_get (sortK_sorted x) (Int.toNat_le_toNat (Int.floor_le_ceil _)) gc gd
      have hab := sorted_get (sortK_sorted x) (Int.toNat_le_toNat (Int.floor_le_ceil _)) ga gb
      have val : ∀ (q : ℚ) (u w : K),
          (sortK x)[⌊q * (((sortK x).length : ℚ) - 1)⌋.toNat]? = some u →
          (sortK x)[⌈q * (((sortK x).length : ℚ) - 1)⌉.toNat]? = some w →
          percentileMid (sortK x) q = 1 / 2 * (u + w) := by
        intro q u w hu hw
        unfold percentileMid
        rw [if_neg (by omega)]
        simp only
        split
        next he =>
          have : u = w := by
            rw [he] at hu
            rw [hu] at hw
            exact Option.some.inj hw
          rw [List.getD_eq_getElem?_getD, hu, ← this]
          simp
          ring
        next he => simp [List.getD_eq_getElem?_getD, hu, hw]
      rw [val _ _ _ ga gb, val _ _ _ gc gd]
      linarith
    · have e1 := (h b (mem_sortK hb)).2
      have e2 := (h c (mem_sortK hc)).1
      linarith

example : iqr ([7, 1, 3, 10, 4] : List ℚ) = 4 := by decide +kernel

/-! ## R squared -/

/-- **C81** (R squared).  It is the share of the variation explained by the best line: no line
leaves a smaller sum of squared residuals, and the value is between 0 and 1. -/
theorem r_squared_range (n : Nat) (v : Nat → K) :
    0 ≤ rSquared n v ∧ rSquared n v ≤ 1 ∧
      ∀ ym, ym = (∑ i ∈ Finset.range n, v i) / n →
        (∑ i ∈ Finset.range n, (v i - ym) * (v i - ym)) ≠ 0 → ∀ a b : K,
          (1 - rSquared n v) * (∑ i ∈ Finset.range n, (v i - ym) * (v i - ym))
            ≤ ∑ i ∈ Finset.range n, (v i - (a + b * i)) * (v i - (a + b * i)) := by
  unfold rSquared
  by_cases hn : n = 0
  · subst hn
    simp
  · rw [if_neg hn]
    simp only
    have hnK : (n : K) ≠ 0 := Nat.cast_ne_zero.mpr hn
    generalize hxm : (∑ i ∈ Finset.range n, (i : K)) / n = xm
    generalize hym : (∑ i ∈ Finset.range n, v i) / n = ym
    have hx0 : ∑ i ∈ Finset.range n, ((i : K) - xm) = 0 := by
      rw [Finset.sum_sub_distrib, ← hxm]
      simp
      field_simp
      simp
    have hy0 : ∑ i ∈ Finset.range n, (v i - ym) = 0 := by
      rw [Finset.sum_sub_distrib, ← hym]
      simp
      field_simp
      simp
    generalize hsxx : ∑ i ∈ Finset.range n, ((i : K) - xm) * ((i : K) - xm) = sxx
    generalize hsxy : ∑ i ∈ Finset.range n, ((i : K) - xm) * (v i - ym) = sxy
    generalize hst : ∑ i ∈ Finset.range n, (v i - ym) * (v i - ym) = sst
    have hsxx0 : 0 ≤ sxx := hsxx ▸ Finset.sum_nonneg (fun i _ => mul_self_nonneg _)
    have hst0 : 0 ≤ sst := hst ▸ Finset.sum_nonneg (fun i _ => mul_self_nonneg _)
    -- the residuals of any line
    have hline : ∀ c b : K, ∑ i ∈ Finset.range n,
        (v i - (ym + c + b * ((i : K) - xm))) * (v i - (ym + c + b * ((i : K) - xm)))
          = sst - 2 * b * sxy + b * b * sxx + n * (c * c) := by
      intro c b
      have : ∀ i ∈ Finset.range n,
          (v i - (ym + c + b * ((i : K) - xm))) * (v i - (ym + c + b * ((i : K) - xm)))
            = (v i - ym) * (v i - ym) - 2 * b * (((i : K) - xm) * (v i - ym))
              + b * b * (((i : K) - xm) * ((i : K) - xm)) - 2 * c * (v i - ym)
              + 2 * c * b * ((i : K) - xm) + c * c := by
        intro i _
        ring
      rw [Finset.sum_congr rfl this]
      simp only [Finset.sum_add_distrib, Finset.sum_sub_distrib, ← Finset.mul_sum]
      have hy0' := hy0
      have hx0' := hx0
      rw [Finset.sum_sub_distrib] at hy0' hx0'
      rw [hst, hsxy, hsxx, hx0', hy0']
      simp
      ring
    have hfit : ∑ i ∈ Finset.range n,
        (v i - (ym + sxy / sxx * ((i : K) - xm))) * (v i - (ym + sxy / sxx * ((i : K) - xm)))
          = sst - sxy / sxx * sxy := by
      have := hline 0 (sxy / sxx)
      simp only [add_zero] at this
      rw [this]
      by_cases hz : sxx = 0
      · simp [hz]
      · field_simp
        ring
    rw [hfit]
    have hres0 : 0 ≤ sst - sxy / sxx * sxy :=
      hfit ▸ Finset.sum_nonneg (fun i _ => mul_self_nonneg _)
    have hslope0 : 0 ≤ sxy / sxx * sxy := by
      rw [div_mul_eq_mul_div]
      exact div_nonneg (mul_self_nonneg _) hsxx0
    by_cases hz : sst = 0
    · rw [if_pos hz]
      refine ⟨le_refl _, zero_le_one, ?_⟩
      intro ym' hym' hne
      exact absurd (by rw [hym']; exact hst.trans hz) hne
    · rw [if_neg hz]
      have hpos : 0 < sst := lt_of_le_of_ne hst0 (Ne.symm hz)
      refine ⟨?_, ?_, ?_⟩
      · have : (sst - sxy / sxx * sxy) / sst ≤ 1 := by
          rw [div_le_one hpos]
          linarith
        linarith
      · have : 0 ≤ (sst - sxy / sxx * sxy) / sst := div_nonneg hres0 hst0
        linarith
      · intro ym' hym' _ a b
        rw [hym', hst]
        have e : (1 - (1 - (sst - sxy / sxx * sxy) / sst)) * sst = sst - sxy / sxx * sxy := by
          field_simp
          ring
        rw [e]
        have := hline (a + b * xm - ym) b
        have e2 : ∀ i : Nat, ym + (a + b * xm - ym) + b * ((i : K) - xm) = a + b * i := by
          intro i
          ring
        simp only [e2] at this
        rw [this]
        have hnn : (0 : K) ≤ n * ((a + b * xm - ym) * (a + b * xm - ym)) :=
          mul_nonneg (Nat.cast_nonneg _) (mul_self_nonneg _)
        by_cases hzx : sxx = 0
        · have : sxy = 0 := by
            have hall : ∀ i ∈ Finset.range n, ((i : K) - xm) * ((i : K) - xm) = 0 :=
              (Finset.sum_eq_zero_iff_of_nonneg (fun i _ => mul_self_nonneg _)).mp (hsxx.trans hzx)
            rw [← hsxy]
            apply Finset.sum_eq_zero
            intro i hi
            rw [mul_self_eq_zero.mp (hall i hi), zero_mul]
          rw [this, hzx]
          simp
          exact hnn
        · have hxpos : 0 < sxx := lt_of_le_of_ne hsxx0 (Ne.symm hzx)
          have hsq : 0 ≤ (b * sxx - sxy) * (b * sxx - sxy) / sxx :=
            div_nonneg (mul_self_nonneg _) hsxx0
          have e3 : (b * sxx - sxy) * (b * sxx - sxy) / sxx
              = b * b * sxx - 2 * b * sxy + sxy / sxx * sxy := by
            field_simp
            ring
          rw [e3] at hsq
          linarith

example : rSquared 4 (fun i => ([1, 3, 2, 4] : List ℚ).getD i 0) = 16 / 25 := by decide +kernel

/-! ## Ulcer index -/

/-- **C81** (Ulcer Index).  For positive values it is zero exactly when they never fall. -/
theorem ulcer_zero (F : Fns K) (hsqrt : ∀ v, F.sqrt v = 0 ↔ v ≤ 0) (values : List K)
    (hpos : ∀ v ∈ values, 0 < v) (hne : values ≠ []) :
    ulcerIndex F values = 0 ↔ values.Pairwise (· ≤ ·) := by
  cases values with
  | nil => exact absurd rfl hne
  | cons v0 rest =>
    have hv0 : 0 < v0 := hpos v0 (by simp)
    have inv : ∀ l : List K, (∀ v ∈ l, 0 < v) →
        let s := l.foldl ulcerStep (v0, [0])
        0 < s.1 ∧ s.1 ∈ v0 :: l ∧ (∀ u ∈ v0 :: l, u ≤ s.1) ∧ s.2.length = l.length + 1 ∧
          ((∀ d ∈ s.2, d = 0) ↔ (v0 :: l).Pairwise (· ≤ ·)) := by
      intro l
      refine foldl_prefix ulcerStep (fun l s => (∀ v ∈ l, 0 < v) →
        0 < s.1 ∧ s.1 ∈ v0 :: l ∧ (∀ u ∈ v0 :: l, u ≤ s.1) ∧ s.2.length = l.length + 1 ∧
          ((∀ d ∈ s.2, d = 0) ↔ (v0 :: l).Pairwise (· ≤ ·))) (v0, [0]) ?_ ?_ l
      · intro _
        refine ⟨hv0, by simp, by simp, rfl, by simp⟩
      · intro l x s ih hl
        obtain ⟨h1, h2, h3, h4, h5⟩ := ih (fun v hv => hl v (by simp [hv]))
        have hx : 0 < x := hl x (by simp)
        have hpair : (v0 :: (l ++ [x])).Pairwise (· ≤ ·) ↔
            (v0 :: l).Pairwise (· ≤ ·) ∧ s.1 ≤ x := by
          rw [← List.cons_append, List.pairwise_append]
          constructor
          · rintro ⟨p1, _, p3⟩
            exact ⟨p1, p3 _ h2 x (by simp)⟩
          · rintro ⟨p1, p2⟩
            refine ⟨p1, by simp, ?_⟩
            intro u hu w hw
            rw [List.mem_singleton.mp hw]
            exact le_trans (h3 u hu) p2
        unfold ulcerStep
        simp only
        by_cases hc : x > s.1
        · simp only [if_pos hc, if_neg (ne_of_gt hx)]
          refine ⟨hx, by simp, ?_, by simp [h4], ?_⟩
          · intro u hu
            rw [← List.cons_append, List.mem_append] at hu
            rcases hu with hu | hu
            · exact le_trans (h3 u hu) (le_of_lt hc)
            · rw [List.mem_singleton.mp hu]
          · rw [hpair, ← h5]
            simp only [List.mem_append, List.mem_singleton, sub_self, zero_div, zero_mul]
            constructor
            · intro h
              exact ⟨fun d hd => h d (Or.inl hd), le_of_lt hc⟩
            · rintro ⟨h, _⟩ d (hd | hd)
              · exact h d hd
              · exact hd
        · simp only [if_neg hc, if_neg (ne_of_gt h1)]
          refine ⟨h1, ?_, ?_, by simp [h4], ?_⟩
          · rw [← List.cons_append]
            exact List.mem_append_left _ h2
          · intro u hu
            rw [← List.cons_append, List.mem_append] at hu
            rcases hu with hu | hu
            · exact h3 u hu
            · rw [List.mem_singleton.mp hu]
              exact not_lt.mp hc
          · rw [hpair, ← h5]
            simp only [List.mem_append, List.mem_singleton]
            have hz : (x - s.1) / s.1 * 100 = 0 ↔ s.1 ≤ x := by
              rw [mul_eq_zero, div_eq_zero_iff, sub_eq_zero]
              constructor
              · rintro ((h | h) | h)
                · exact le_of_eq h.symm
                · exact absurd h (ne_of_gt h1)
                · norm_num at h
              · intro h
                exact Or.inl (Or.inl (le_antisymm (not_lt.mp hc) h))
            constructor
            · intro h
              exact ⟨fun d hd => h d (Or.inl hd), hz.mp (h _ (Or.inr rfl))⟩
            · rintro ⟨h, hle⟩ d (hd | hd)
              · exact h d hd
              · rw [hd]
                exact hz.mpr hle
    obtain ⟨_, _, _, hlen, hiff⟩ := inv rest (fun v hv => hpos v (by simp [hv]))
    have hfirst : (v0 :: rest).foldl ulcerStep (v0, []) = rest.foldl ulcerStep (v0, [0]) := by
      simp [List.foldl_cons, ulcerStep]
    unfold ulcerIndex
    simp only [hfirst]
    rw [hsqrt, ← hiff]
    generalize (rest.foldl ulcerStep (v0, [0])).2 = dd at *
    have hnn : ∀ a ∈ dd.map (fun d => d * d), 0 ≤ a := by
      intro a ha
      obtain ⟨d, _, rfl⟩ := List.mem_map.mp ha
      exact mul_self_nonneg d
    have hpos' : (0 : K) < (dd.map (fun d => d * d)).length := by
      rw [List.length_map, hlen]
      push_cast
      positivity
    unfold mean
    rw [div_le_iff₀ hpos', zero_mul]
    constructor
    · intro h d hd
      have := le_trans (List.single_le_sum hnn _ (List.mem_map.mpr ⟨d, hd, rfl⟩)) h
      exact mul_self_eq_zero.mp (le_antisymm this (mul_self_nonneg d))
    · intro h
      apply le_of_eq
      apply List.sum_eq_zero
      intro a ha
      obtain ⟨d, hd, rfl⟩ := List.mem_map.mp ha
      rw [h d hd, zero_mul]

example : ∀ v ∈ ([5, 7, 6] : List ℚ), 0 < v := by decide +kernel

/-! ## C82: infinite scores -/

/-- **C82** (Sortino).  The Sortino ratio is infinite exactly when no return is negative and some
return is positive. -/
theorem sortino_inf (F : Fns K) (hsqrt : ∀ v, F.sqrt v = 0 ↔ v ≤ 0) (x : List K) (obs : Option Nat) :
    sortino F x obs = .inf ↔ (∀ r ∈ x, 0 ≤ r) ∧ ∃ r ∈ x, 0 < r := by
  have hfold : ∀ (l : List K) (s : K), 0 ≤ s →
      0 ≤ l.foldl (fun s r => if r < 0 then s + r * r else s) s ∧
      (l.foldl (fun s r => if r < 0 then s + r * r else s) s ≤ 0 ↔ s ≤ 0 ∧ ∀ r ∈ l, 0 ≤ r) := by
    intro l
    induction l with
    | nil => intro s hs; simp [hs]
    | cons a rest ih =>
      intro s hs
      simp only [List.foldl_cons]
      by_cases ha : a < 0
      · have h2 : 0 < a * a := mul_pos_of_neg_of_neg ha ha
        rw [if_pos ha]
        obtain ⟨h3, h4⟩ := ih (s + a * a) (by linarith)
        refine ⟨h3, h4.trans ⟨fun h => ?_, fun h => ?_⟩⟩
        · exfalso; linarith [h.1]
        · exact absurd ha (not_lt.mpr (h.2 a (by simp)))
      · rw [if_neg ha]
        obtain ⟨h3, h4⟩ := ih s hs
        refine ⟨h3, h4.trans ⟨fun h => ⟨h.1, ?_⟩, fun h => ⟨h.1, fun r hr => h.2 r (by simp [hr])⟩⟩⟩
        intro r hr
        rcases List.mem_cons.mp hr with rfl | hr
        · exact not_lt.mp ha
        · exact h.2 r hr
  have hmean : (∀ r ∈ x, 0 ≤ r) → (0 < mean x ↔ ∃ r ∈ x, 0 < r) := by
    intro hall
    unfold mean
    constructor
    · intro h
      by_contra hn
      have hz : x.sum = 0 := by
        apply List.sum_eq_zero
        intro r hr
        rcases lt_or_eq_of_le (hall r hr) with h | h
        · exact absurd ⟨r, hr, h⟩ hn
        · exact h.symm
      rw [hz] at h
      simp at h
    · rintro ⟨r, hr, hpos⟩
      have hle : r ≤ x.sum := List.single_le_sum hall r hr
      have hlen : (0 : K) < x.length := by
        have : 0 < x.length := List.length_pos_of_mem hr
        exact_mod_cast this
      exact div_pos (by linarith) hlen
  unfold sortino
  by_cases h0 : x.length = 0
  · have : x = [] := List.length_eq_zero_iff.mp h0
    subst this
    simp
  · rw [if_neg h0]
    simp only
    have hdd : downside F x = 0 ↔ ∀ r ∈ x, 0 ≤ r := by
      unfold downside
      rw [if_neg h0, hsqrt]
      have hlen : (0 : K) < x.length := by
        have : 0 < x.length := Nat.pos_of_ne_zero h0
        exact_mod_cast this
      rw [div_le_iff₀ hlen, zero_mul]
      exact (hfold x 0 (le_refl _)).2.trans ⟨fun h => h.2, fun h => ⟨le_refl _, h⟩⟩
    by_cases hd : downside F x = 0
    · rw [if_pos hd]
      have hall := hdd.mp hd
      have hm := hmean hall
      by_cases hle : mean x ≤ 0
      · rw [if_pos hle]
        constructor
        · intro h; cases h
        · rintro ⟨_, h⟩
          exact absurd (hm.mpr h) (not_lt.mpr hle)
      · rw [if_neg hle]
        exact ⟨fun _ => ⟨hall, hm.mp (not_le.mp hle)⟩, fun _ => rfl⟩
    · rw [if_neg hd]
      constructor
      · intro h
        cases obs <;> cases h
      · rintro ⟨h, _⟩
        exact absurd (hdd.mpr h) hd

/-- The compounded curve never falls below its running peak exactly when it never falls. -/
theorem no_drawdown_iff (r : List K) :
    (maxDrawdownPct r).1 = 0 ↔ ∀ i j, i ≤ j → j ≤ r.length → growAt r i ≤ growAt r j := by
  obtain ⟨h1, h2, h3⟩ := max_drawdown_pct_spec r
  have hpeak : ∀ j, ∃ p, IsPeak (growAt r) j p := by
    intro j
    induction j with
    | zero => exact ⟨growAt r 0, ⟨0, le_refl _, rfl⟩, fun i hi => by rw [Nat.le_zero.mp hi]⟩
    | succ j ih =>
      obtain ⟨p, hp⟩ := ih
      exact ⟨_, isPeak_succ hp⟩
  constructor
  · intro hz i j hij hj
    obtain ⟨p, hp⟩ := hpeak j
    have h := h1 j hj p hp
    rw [hz] at h
    unfold lossPct at h
    have hpos := peak_pos hp
    have : 1 ≤ growAt r j / p := by linarith
    rw [le_div_iff₀ hpos, one_mul] at this
    exact le_trans (hp.2 i hij) this
  · intro hmono
    rcases Option.eq_none_or_eq_some (maxDrawdownPct r).2 with h | ⟨k, h⟩
    · exact h2 h
    · exfalso
      obtain ⟨hk, hneg, ⟨p, hp, hv⟩, _⟩ := h3 k h
      rw [hv] at hneg
      obtain ⟨⟨i, hi, hip⟩, _⟩ := hp
      have hp' := peak_pos ⟨⟨i, hi, hip⟩, ‹_›⟩
      have hle := hmono i (k + 1) hi (by omega)
      rw [hip] at hle
      unfold lossPct at hneg
      have : 1 ≤ growAt r (k + 1) / p := by
        rw [le_div_iff₀ hp', one_mul]
        exact hle
      linarith

/-- **C82** (Calmar).  The Calmar ratio is infinite exactly when the compounded curve never falls
and ends above its start; and when it never falls it does not end below its start. -/
theorem calmar_inf (pow : K → K → K) (r : List K) (bpy : Nat) :
    (calmar pow r bpy = .inf ↔
      (∀ i j, i ≤ j → j ≤ r.length → growAt r i ≤ growAt r j) ∧ 1 < growAt r r.length) ∧
    ((∀ i j, i ≤ j → j ≤ r.length → growAt r i ≤ growAt r j) → 1 ≤ growAt r r.length) := by
  have hg : (r.map (fun v => 1 + v)).prod = growAt r r.length := by
    unfold growAt
    rw [List.take_length]
  have hz : |(maxDrawdownPct r).1| / 100 = 0 ↔ (maxDrawdownPct r).1 = 0 := by
    constructor
    · intro h
      have : |(maxDrawdownPct r).1| = 0 := by
        have h100 : (100 : K) ≠ 0 := by norm_num
        exact (div_eq_zero_iff.mp h).resolve_right h100
      exact abs_eq_zero.mp this
    · intro h
      simp [h]
  constructor
  · unfold calmar
    by_cases h0 : r.length = 0
    · have : r = [] := List.length_eq_zero_iff.mp h0
      subst this
      simp [growAt]
    · rw [if_neg h0]
      simp only [hg]
      by_cases hd : |(maxDrawdownPct r).1| / 100 = 0
      · rw [if_pos hd]
        have hm := (no_drawdown_iff r).mp (hz.mp hd)
        split
        next h =>
          constructor
          · intro h; cases h
          · rintro ⟨_, h'⟩
            exact absurd h' (not_lt.mpr h)
        next h => exact ⟨fun _ => ⟨hm, not_le.mp h⟩, fun _ => rfl⟩
      · rw [if_neg hd]
        constructor
        · intro h; cases h
        · rintro ⟨h, _⟩
          exact absurd (hz.mpr ((no_drawdown_iff r).mpr h)) hd
  · intro h
    have := h 0 r.length (Nat.zero_le _) (le_refl _)
    rwa [growAt_zero] at this

omit [IsStrictOrderedRing K] in
theorem everFalls_iff (l : List K) : everFalls l = false ↔ l.Pairwise (· ≤ ·) := by
  induction l with
  | nil => simp [everFalls]
  | cons a rest ih =>
    cases rest with
    | nil => simp [everFalls]
    | cons b rest =>
      rw [everFalls, Bool.or_eq_false_iff, ih, decide_eq_false_iff_not, not_lt]
      constructor
      · rintro ⟨h1, h2⟩
        rw [List.pairwise_cons]
        refine ⟨?_, h2⟩
        intro c hc
        rcases List.mem_cons.mp hc with rfl | hc
        · exact h1
        · exact le_trans h1 ((List.pairwise_cons.mp h2).1 c hc)
      · intro h
        rw [List.pairwise_cons] at h
        exact ⟨h.1 b (by simp), h.2⟩

omit [IsStrictOrderedRing K] in
/-- **C82** (UPI).  An infinite Ulcer Performance Index is only given, whatever Ulcer Index it is
passed, to values that never fall and end above their start. -/
theorem upi_inf (pow : K → K → K) (values : List K) (ui : K) (bpy : Option Nat) :
    upi pow values ui bpy = .inf ↔
      ui = 0 ∧ values.Pairwise (· ≤ ·) ∧ values.headD 0 < values.getLastD 0 := by
  unfold upi
  by_cases h1 : values.length ≤ 1
  · rw [if_pos h1]
    constructor
    · intro h; cases h
    · rintro ⟨_, _, h⟩
      exfalso
      match values, h1, h with
      | [], _, h => exact lt_irrefl _ h
      | [a], _, h => exact lt_irrefl _ h
  · rw [if_neg h1]
    simp only
    by_cases hu : ui = 0
    · rw [if_pos hu]
      by_cases hle : values.getLastD 0 ≤ values.headD 0
      · rw [if_pos hle]
        constructor
        · intro h; cases h
        · rintro ⟨_, _, h⟩
          exact absurd h (not_lt.mpr hle)
      · rw [if_neg hle]
        by_cases hf : everFalls values = true
        · rw [if_pos hf]
          constructor
          · intro h; cases h
          · rintro ⟨_, h, _⟩
            rw [(everFalls_iff values).mpr h] at hf
            cases hf
        · rw [if_neg hf]
          exact ⟨fun _ => ⟨hu, (everFalls_iff values).mp (by simpa using hf), not_le.mp hle⟩,
            fun _ => rfl⟩
    · rw [if_neg hu]
      constructor
      · intro h
        cases bpy with
        | none => cases h
        | some b =>
          simp only at h
          split at h <;> cases h
      · rintro ⟨h, _⟩
        exact absurd h hu

example : upi (K := ℚ) (fun _ _ => 0) [1, 2, 2, 5] 0 none = .inf := by decide +kernel
example : calmar (K := ℚ) (fun _ _ => 0) [1 / 10, 0, 1 / 5] 252 = .inf := by decide +kernel

end PyBroker
