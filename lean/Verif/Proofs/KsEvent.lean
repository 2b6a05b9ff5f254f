import Verif.Proofs.Quantile
import Verif.Proofs.Stability
/-!
The empirical distribution function, boundary functions and the Kolmogorov-Smirnov statistics in terms of order
statistics.
-/
open MeasureTheory Set ProbabilityTheory Filter Topology

namespace CP.Spec
variable {n : ℕ}

theorem ecdf_eq_count (x : Fin n → ℝ) (t : ℝ) : ecdf x t = count t x / (n : ℝ) := by
  unfold ecdf count
  congr 2
  rw [← Set.ncard_coe_finset]
  congr 1
  ext i; simp

theorem count_orderStat_ge (x : Fin n → ℝ) (i : Fin n) : (i : ℕ) + 1 ≤ count (orderStat x i) x :=
  (orderStat_le_iff x _ i).mp le_rfl

theorem count_lt_le (x : Fin n → ℝ) (i : Fin n) {t : ℝ} (h : t < orderStat x i) : count t x ≤ i := by
  by_contra hc
  exact absurd ((orderStat_le_iff x t i).mpr (not_le.mp hc)) (not_le.mpr h)

theorem ecdf_nonneg (x : Fin n → ℝ) (t : ℝ) : 0 ≤ ecdf x t := by
  rw [ecdf_eq_count]; positivity

theorem ecdf_le_one (x : Fin n → ℝ) (t : ℝ) : ecdf x t ≤ 1 := by
  rw [ecdf_eq_count]
  exact div_le_one_of_le₀ (by exact_mod_cast count_le t x) (by positivity)

/-- The empirical distribution function stays below `G + d`. -/
theorem plus_iff {G : ℝ → ℝ} (hG : Monotone G) (h0 : ∀ t, 0 ≤ G t) {d : ℝ} (hd : 0 ≤ d) (x : Fin n → ℝ) :
    (∀ t, ecdf x t - G t ≤ d) ↔ ∀ i : Fin n, ((i : ℕ) + 1 : ℝ) / n - d ≤ G (orderStat x i) := by
  constructor
  · intro h i
    have hn : (0:ℝ) < n := by exact_mod_cast i.pos
    have h1 := h (orderStat x i)
    rw [ecdf_eq_count] at h1
    have h2 : ((i : ℕ) + 1 : ℝ) / n ≤ count (orderStat x i) x / (n : ℝ) := by
      apply div_le_div_of_nonneg_right _ hn.le
      exact_mod_cast count_orderStat_ge x i
    linarith
  · intro h t
    rw [ecdf_eq_count]
    rcases Nat.eq_zero_or_pos (count t x) with h1 | h1
    · rw [h1]; have := h0 t; simp only [Nat.cast_zero, zero_div]; linarith
    · have hlt : count t x - 1 < n := by have := count_le t x; omega
      have h2 := h ⟨count t x - 1, hlt⟩
      have h3 : orderStat x ⟨count t x - 1, hlt⟩ ≤ t := (orderStat_le_iff x t _).mpr (by simp; omega)
      have h4 := hG h3
      have h5 : (((count t x - 1 : ℕ) : ℝ) + 1) = count t x := by
        have : count t x - 1 + 1 = count t x := by omega
        exact_mod_cast this
      simp only [h5] at h2
      linarith

/-- The empirical distribution function stays above `G - d`. -/
theorem minus_iff {G : ℝ → ℝ} (hG : Monotone G) (hc : Continuous G) (h1 : ∀ t, G t ≤ 1) {d : ℝ} (hd : 0 ≤ d) (hn : 1 ≤ n)
    (x : Fin n → ℝ) :
    (∀ t, G t - ecdf x t ≤ d) ↔ ∀ i : Fin n, G (orderStat x i) ≤ (i : ℕ) / (n:ℝ) + d := by
  have hn' : (0:ℝ) < n := by exact_mod_cast hn
  constructor
  · intro h i
    have ht : Tendsto G (𝓝[<] (orderStat x i)) (𝓝 (G (orderStat x i))) := (hc.tendsto _).mono_left nhdsWithin_le_nhds
    refine le_of_tendsto ht ?_
    filter_upwards [self_mem_nhdsWithin] with t ht
    have h2 := h t
    rw [ecdf_eq_count] at h2
    have h3 : (count t x : ℝ) / n ≤ (i : ℕ) / (n:ℝ) := by
      apply div_le_div_of_nonneg_right _ hn'.le
      exact_mod_cast count_lt_le x i ht
    linarith
  · intro h t
    rw [ecdf_eq_count]
    rcases Nat.lt_or_ge (count t x) n with h2 | h2
    · have h3 := h ⟨count t x, h2⟩
      have h4 : t < orderStat x ⟨count t x, h2⟩ := by
        by_contra hc
        have := (orderStat_le_iff x t _).mp (not_lt.mp hc)
        simp at this
      have h5 := hG h4.le
      simp only at h3
      linarith
    · have h3 : count t x = n := le_antisymm (count_le t x) h2
      rw [h3, div_self hn'.ne']
      have := h1 t
      linarith

theorem ksPlus_le_iff {G : ℝ → ℝ} (h0 : ∀ t, 0 ≤ G t) (d : ℝ) (x : Fin n → ℝ) :
    ksPlus G x ≤ d ↔ ∀ t, ecdf x t - G t ≤ d := by
  unfold ksPlus
  refine ciSup_le_iff ⟨1, ?_⟩
  rintro _ ⟨t, rfl⟩
  have := h0 t; have := ecdf_le_one x t; dsimp only; linarith

theorem ksMinus_le_iff {G : ℝ → ℝ} (h1 : ∀ t, G t ≤ 1) (d : ℝ) (x : Fin n → ℝ) :
    ksMinus G x ≤ d ↔ ∀ t, G t - ecdf x t ≤ d := by
  unfold ksMinus
  refine ciSup_le_iff ⟨1, ?_⟩
  rintro _ ⟨t, rfl⟩
  have := h1 t; have := ecdf_nonneg x t; dsimp only; linarith

theorem ksStat_le_iff {G : ℝ → ℝ} (h0 : ∀ t, 0 ≤ G t) (h1 : ∀ t, G t ≤ 1) (d : ℝ) (x : Fin n → ℝ) :
    ksStat G x ≤ d ↔ (∀ t, ecdf x t - G t ≤ d) ∧ ∀ t, G t - ecdf x t ≤ d := by
  unfold ksStat
  have hb : BddAbove (range fun t => |ecdf x t - G t|) := by
    refine ⟨1, ?_⟩
    rintro _ ⟨t, rfl⟩
    have := h1 t; have := ecdf_nonneg x t
    have := h0 t; have := ecdf_le_one x t
    dsimp only; rw [abs_le]; constructor <;> linarith
  rw [ciSup_le_iff hb]
  constructor
  · intro h
    refine ⟨fun t => (le_abs_self _).trans (h t), fun t => ?_⟩
    have := (neg_abs_le (ecdf x t - G t)); have := h t; linarith
  · rintro ⟨h2, h3⟩ t
    rw [abs_le]; constructor
    · linarith [h3 t]
    · exact h2 t

/-! ### Continuous distribution functions -/

variable (μ : Measure ℝ) [IsProbabilityMeasure μ]

/-- A law without atoms has a continuous distribution function. -/
theorem cdf_continuous (h : ∀ y, μ {y} = 0) : Continuous (cdf μ) := by
  refine continuous_iff_continuousAt.mpr fun y => ?_
  rw [continuousAt_iff_continuous_left'_right']
  refine ⟨?_, ((cdf μ).right_continuous y).mono Ioi_subset_Ici_self⟩
  have hl := (monotone_cdf μ).tendsto_leftLim y
  have hs : (cdf μ).measure {y} = ENNReal.ofReal (cdf μ y - Function.leftLim (cdf μ) y) := (cdf μ).measure_singleton y
  rw [measure_cdf, h y] at hs
  have h1 : Function.leftLim (cdf μ) y ≤ cdf μ y := (monotone_cdf μ).leftLim_le le_rfl
  have h2 : cdf μ y - Function.leftLim (cdf μ) y ≤ 0 := ENNReal.ofReal_eq_zero.mp hs.symm
  have h3 : Function.leftLim (cdf μ) y = cdf μ y := by linarith
  rw [h3] at hl
  exact hl

/-- Probability integral transform. -/
theorem pit_le (h : ∀ y, μ {y} = 0) (c : ℝ) : μ.real {y | cdf μ y ≤ c} = max 0 (min 1 c) := by
  have hc := cdf_continuous μ h
  rcases lt_or_ge c 0 with h0 | h0
  · have : {y | cdf μ y ≤ c} = ∅ := by
      ext y; simp only [mem_ofPred_eq, mem_empty_iff_false, iff_false, not_le]
      exact lt_of_lt_of_le h0 (cdf_nonneg μ y)
    rw [this, measureReal_empty, max_eq_left]
    exact (min_le_right _ _).trans h0.le
  rcases lt_or_ge c 1 with h1 | h1
  · rw [min_eq_right h1.le, max_eq_right h0]
    -- value just above `c` is attained, take the quantiles
    have hup : ∀ u, c < u → u < 1 → μ.real {y | cdf μ y ≤ c} ≤ u := by
      intro u hu hu1
      have hu0 : u ∈ Ioo (0:ℝ) 1 := ⟨lt_of_le_of_lt h0 hu, hu1⟩
      have hle : cdf μ (quant μ u) ≤ u := by
        have ht : Tendsto (cdf μ) (𝓝[<] (quant μ u)) (𝓝 (cdf μ (quant μ u))) := (hc.tendsto _).mono_left nhdsWithin_le_nhds
        refine le_of_tendsto ht ?_
        filter_upwards [self_mem_nhdsWithin] with t ht
        by_contra hcon
        exact absurd ((quant_le_iff μ hu0 t).mpr (not_le.mp hcon).le) (not_le.mpr ht)
      have hge : u ≤ cdf μ (quant μ u) := (quant_le_iff μ hu0 _).mp le_rfl
      refine (measureReal_mono (?_ : _ ⊆ Iic (quant μ u))).trans ?_
      · intro y hy
        by_contra hcon
        have := monotone_cdf μ (not_le.mp hcon).le
        have h3 : cdf μ y ≤ c := hy
        linarith
      · rw [← cdf_eq_real]; exact hle
    have hlo : ∀ u, 0 < u → u ≤ c → u ≤ μ.real {y | cdf μ y ≤ c} := by
      intro u hu huc
      have hu0 : u ∈ Ioo (0:ℝ) 1 := ⟨hu, lt_of_le_of_lt huc h1⟩
      have hle : cdf μ (quant μ u) ≤ u := by
        have ht : Tendsto (cdf μ) (𝓝[<] (quant μ u)) (𝓝 (cdf μ (quant μ u))) := (hc.tendsto _).mono_left nhdsWithin_le_nhds
        refine le_of_tendsto ht ?_
        filter_upwards [self_mem_nhdsWithin] with t ht
        by_contra hcon
        exact absurd ((quant_le_iff μ hu0 t).mpr (not_le.mp hcon).le) (not_le.mpr ht)
      have hge : u ≤ cdf μ (quant μ u) := (quant_le_iff μ hu0 _).mp le_rfl
      refine hge.trans ?_
      rw [cdf_eq_real]
      exact measureReal_mono fun y hy => ((monotone_cdf μ hy).trans hle).trans huc
    apply le_antisymm
    · refine le_of_forall_gt_imp_ge_of_dense fun u hu => ?_
      rcases lt_or_ge u 1 with h2 | h2
      · exact hup u hu h2
      · exact measureReal_le_one.trans h2
    · rcases h0.eq_or_lt with h2 | h2
      · rw [← h2]; exact measureReal_nonneg
      · exact hlo c h2 le_rfl
  · have : {y | cdf μ y ≤ c} = univ := by
      ext y; simp only [mem_ofPred_eq, mem_univ, iff_true]
      exact (cdf_le_one μ y).trans h1
    rw [this, min_eq_left h1, max_eq_right zero_le_one, probReal_univ]

theorem pit_lt (h : ∀ y, μ {y} = 0) (c : ℝ) : μ.real {y | cdf μ y < c} = max 0 (min 1 c) := by
  apply le_antisymm
  · rw [← pit_le μ h]
    exact measureReal_mono fun y (hy : cdf μ y < c) => show cdf μ y ≤ c from hy.le
  · have hlo : ∀ c', c' < c → max 0 (min 1 c') ≤ μ.real {y | cdf μ y < c} := by
      intro c' hc'
      rw [← pit_le μ h]
      exact measureReal_mono fun y hy => lt_of_le_of_lt hy hc'
    have ht : Tendsto (fun c' : ℝ => max 0 (min 1 c')) (𝓝[<] c) (𝓝 (max 0 (min 1 c))) := by
      have : Continuous fun c' : ℝ => max 0 (min 1 c') := by fun_prop
      exact (this.tendsto c).mono_left nhdsWithin_le_nhds
    refine le_of_tendsto ht ?_
    filter_upwards [self_mem_nhdsWithin] with t ht
    exact hlo t ht

/-! ### Laws of the statistics -/

/-- The law of the transformed observations. -/
theorem iid_map {ρ : Measure ℝ} [IsProbabilityMeasure ρ] {G : ℝ → ℝ} (hG : Measurable G) :
    (iid ρ n).map (fun y i => G (y i)) = iid (ρ.map G) n := by
  unfold iid
  have : IsProbabilityMeasure (ρ.map G) := Measure.isProbabilityMeasure_map hG.aemeasurable
  exact Measure.pi_map_pi (ι := Fin n) (μ := fun _ => ρ) (f := fun _ => G) (hμ := fun _ => inferInstance) (fun _ => hG.aemeasurable)

theorem measurableSet_order (β Γ : Fin n → ℝ) (P Q : Fin n → Prop) :
    MeasurableSet {z : Fin n → ℝ | ∀ i, (P i → β i ≤ orderStat z i) ∧ (Q i → orderStat z i ≤ Γ i)} := by
  have e : {z : Fin n → ℝ | ∀ i, (P i → β i ≤ orderStat z i) ∧ (Q i → orderStat z i ≤ Γ i)} =
      ⋂ i, (({_z : Fin n → ℝ | ¬ P i} ∪ {z | β i ≤ orderStat z i}) ∩ ({_z : Fin n → ℝ | ¬ Q i} ∪ {z | orderStat z i ≤ Γ i})) := by
    ext z
    simp only [mem_iInter, mem_inter_iff, mem_union, mem_ofPred_eq, imp_iff_not_or]
  rw [e]
  exact MeasurableSet.iInter fun i => ((MeasurableSet.const _).union (measurableSet_le measurable_const (measurable_orderStat i))).inter
    ((MeasurableSet.const _).union (measurableSet_le (measurable_orderStat i) measurable_const))

/-- Events about a monotone transform `G` of the ordered observations. -/
theorem iid_order_map (ρ : Measure ℝ) [IsProbabilityMeasure ρ] {G : ℝ → ℝ} (hG : Monotone G) (β Γ : Fin n → ℝ) (P Q : Fin n → Prop) :
    (iid ρ n).real {y | ∀ i, (P i → β i ≤ G (orderStat y i)) ∧ (Q i → G (orderStat y i) ≤ Γ i)} =
    (iidUniform n).real {x | ∀ i, (P i → ρ.real {y | G y < β i} ≤ orderStat x i) ∧ (Q i → orderStat x i ≤ ρ.real {y | G y ≤ Γ i})} := by
  have hm := hG.measurable
  have : IsProbabilityMeasure (ρ.map G) := Measure.isProbabilityMeasure_map hm.aemeasurable
  have h := iid_order (n := n) (ρ.map G) β Γ P Q
  have hmm : Measurable fun (y : Fin n → ℝ) i => G (y i) := measurable_pi_lambda _ fun i => hm.comp (measurable_pi_apply i)
  rw [← iid_map hm, map_measureReal_apply hmm (measurableSet_order β Γ P Q)] at h
  have e1 : ∀ i, (ρ.map G).real (Iio (β i)) = ρ.real {y | G y < β i} := fun i => map_measureReal_apply hm measurableSet_Iio
  have e2 : ∀ i, (ρ.map G).real (Iic (Γ i)) = ρ.real {y | G y ≤ Γ i} := fun i => map_measureReal_apply hm measurableSet_Iic
  simp only [e1, e2] at h
  rw [← h]
  congr 1
  ext y
  show (∀ i, _ ∧ _) ↔ ∀ i, _ ∧ _
  rw [orderStat_comp (hG.monotoneOn _)]

end CP.Spec
