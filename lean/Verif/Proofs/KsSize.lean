import Verif.Proofs.KsLaw
/-!
The p-value of a Kolmogorov-Smirnov test is uniformly distributed under the null hypothesis.
-/
open MeasureTheory Set ProbabilityTheory Filter Topology

namespace CP.Spec
variable {n : ℕ}

/-- A statistic whose distribution function is continuous: one minus the distribution function at the observed
value is at most `α` with probability `α`. -/
theorem pvalue_uniform {Ω : Type*} [MeasurableSpace Ω] (P : Measure Ω) [IsProbabilityMeasure P] {D : Ω → ℝ} (hD : Measurable D)
    {K : ℝ → ℝ} (hK : Continuous K) (hlaw : ∀ d, P.real {ω | D ω ≤ d} = K d) {α : ℝ} (h0 : 0 ≤ α) (h1 : α ≤ 1) :
    P.real {ω | 1 - K (D ω) ≤ α} = α := by
  set ν := P.map D with hν
  have : IsProbabilityMeasure ν := Measure.isProbabilityMeasure_map hD.aemeasurable
  have hcdf : ∀ d, cdf ν d = K d := by
    intro d
    rw [cdf_eq_real, hν, map_measureReal_apply hD measurableSet_Iic]
    exact hlaw d
  have hat : ∀ y, ν {y} = 0 := by
    intro y
    have hs := (cdf ν).measure_singleton y
    rw [measure_cdf] at hs
    have hc : Continuous (cdf ν) := by
      have : (cdf ν : ℝ → ℝ) = K := funext hcdf
      rw [this]; exact hK
    have : Function.leftLim (cdf ν) y = cdf ν y := 
      (monotone_cdf ν).continuousWithinAt_Iio_iff_leftLim_eq.mp hc.continuousAt.continuousWithinAt
    rw [hs, this, sub_self, ENNReal.ofReal_zero]
  have hp := pit_lt ν hat (1 - α)
  rw [min_eq_right (by linarith), max_eq_right (by linarith)] at hp
  have hKm : Measurable K := hK.measurable
  have e1 : ν.real {y | cdf ν y < 1 - α} = P.real {ω | K (D ω) < 1 - α} := by
    rw [hν, map_measureReal_apply hD]
    · rw [← hν]; simp only [hcdf]; rfl
    · rw [← hν]; simp only [hcdf]; exact measurableSet_lt hKm measurable_const
  have e2 : {ω | 1 - K (D ω) ≤ α} = {ω | K (D ω) < 1 - α}ᶜ := by
    ext ω
    simp only [mem_compl_iff, mem_ofPred_eq, not_lt]
    constructor <;> intro h <;> linarith
  have hms : MeasurableSet {ω | K (D ω) < 1 - α} := measurableSet_lt (hKm.comp hD) measurable_const
  rw [e2, probReal_compl_eq_one_sub hms, ← e1, hp]
  ring

/-! ### The boundaries -/

theorem ksLower_valid {d : ℝ} (hd : 0 ≤ d) : ValidBound (ksLower n d) := by
  refine ⟨fun i j h => max_le_max le_rfl (mono_succ_div n d h), fun i => ⟨le_max_left _ _, max_le zero_le_one ?_⟩⟩
  have hn : (0:ℝ) < n := by exact_mod_cast i.pos
  have : ((i : ℕ) + 1 : ℝ) / n ≤ 1 := by
    rw [div_le_one hn]; exact_mod_cast i.isLt
  linarith

theorem ksUpper_valid {d : ℝ} (hd : 0 ≤ d) : ValidBound (ksUpper n d) := by
  refine ⟨fun i j h => min_le_min le_rfl (mono_div n d h), fun i => ⟨le_min zero_le_one ?_, min_le_left _ _⟩⟩
  positivity

theorem ksLower_eq (μ : Measure ℝ) [IsProbabilityMeasure μ] (h : ∀ y, μ {y} = 0) {d : ℝ} (hd : 0 ≤ d) :
    (fun i : Fin n => μ.real {y | cdf μ y < ((i : ℕ) + 1 : ℝ) / n - d}) = ksLower n d := by
  funext i
  have hn : (0:ℝ) < n := by exact_mod_cast i.pos
  have : ((i : ℕ) + 1 : ℝ) / n ≤ 1 := by
    rw [div_le_one hn]; exact_mod_cast i.isLt
  rw [pit_lt μ h, min_eq_right (by linarith)]
  rfl

theorem ksUpper_eq (μ : Measure ℝ) [IsProbabilityMeasure μ] (h : ∀ y, μ {y} = 0) {d : ℝ} (hd : 0 ≤ d) :
    (fun i : Fin n => μ.real {y | cdf μ y ≤ ((i : ℕ) : ℝ) / n + d}) = ksUpper n d := by
  funext i
  rw [pit_le μ h, max_eq_right]
  · rfl
  · exact le_min zero_le_one (by positivity)

section null
variable (μ : Measure ℝ) [IsProbabilityMeasure μ] (hat : ∀ y, μ {y} = 0)
include hat

theorem ksStat_null (hn : 1 ≤ n) {d : ℝ} (hd : 0 ≤ d) :
    (iid μ n).real {y | ksStat (cdf μ) y ≤ d} = noncrossProb (ksLower n d) (ksUpper n d) := by
  rw [ksStat_law μ (monotone_cdf μ) (cdf_continuous μ hat) (cdf_nonneg μ) (cdf_le_one μ) hn hd, ksLower_eq μ hat hd, ksUpper_eq μ hat hd]

theorem ksPlus_null {d : ℝ} (hd : 0 ≤ d) : (iid μ n).real {y | ksPlus (cdf μ) y ≤ d} = lowerProb (ksLower n d) := by
  rw [ksPlus_law μ (monotone_cdf μ) (cdf_nonneg μ) hd, ksLower_eq μ hat hd]

theorem ksMinus_null (hn : 1 ≤ n) {d : ℝ} (hd : 0 ≤ d) :
    (iid μ n).real {y | ksMinus (cdf μ) y ≤ d} = upperProb (ksUpper n d) := by
  rw [ksMinus_law μ (monotone_cdf μ) (cdf_continuous μ hat) (cdf_le_one μ) hn hd, ksUpper_eq μ hat hd]

end null

/-! ### The statistics are non-negative and measurable -/

section meas
variable (μ : Measure ℝ)

theorem ksPlus_nonneg (y : Fin n → ℝ) : 0 ≤ ksPlus (cdf μ) y := by
  by_contra hc
  rw [not_le] at hc
  have h := (ksPlus_le_iff (cdf_nonneg μ) _ y).mp (le_refl (ksPlus (cdf μ) y))
  obtain ⟨t, ht⟩ := ((tendsto_cdf_atBot μ).eventually (gt_mem_nhds (neg_pos.mpr hc))).exists
  have h2 := h t
  have := ecdf_nonneg y t
  linarith

theorem ksMinus_nonneg (y : Fin n → ℝ) : 0 ≤ ksMinus (cdf μ) y := by
  by_contra hc
  rw [not_le] at hc
  have h := (ksMinus_le_iff (cdf_le_one μ) _ y).mp (le_refl (ksMinus (cdf μ) y))
  obtain ⟨t, ht⟩ := ((tendsto_cdf_atTop μ).eventually (lt_mem_nhds (by linarith : 1 + ksMinus (cdf μ) y < 1))).exists
  have h2 := h t
  have := ecdf_le_one y t
  linarith

theorem ksStat_nonneg (G : ℝ → ℝ) (y : Fin n → ℝ) : 0 ≤ ksStat G y := Real.iSup_nonneg fun _ => abs_nonneg _

theorem measurable_of_nonneg {D : (Fin n → ℝ) → ℝ} (h0 : ∀ y, 0 ≤ D y) (h : ∀ d, 0 ≤ d → MeasurableSet {y | D y ≤ d}) : Measurable D := by
  refine measurable_of_Iic fun d => ?_
  rcases lt_or_ge d 0 with hd | hd
  · have : D ⁻¹' Iic d = ∅ := by
      ext y; simp only [mem_preimage, mem_Iic, mem_empty_iff_false, iff_false, not_le]
      exact lt_of_lt_of_le hd (h0 y)
    rw [this]; exact MeasurableSet.empty
  · exact h d hd

theorem measurableSet_G {G : ℝ → ℝ} (hG : Monotone G) (β Γ : Fin n → ℝ) (P Q : Fin n → Prop) :
    MeasurableSet {z : Fin n → ℝ | ∀ i, (P i → β i ≤ G (orderStat z i)) ∧ (Q i → G (orderStat z i) ≤ Γ i)} := by
  have hm : Measurable fun (y : Fin n → ℝ) i => G (y i) := measurable_pi_lambda _ fun i => hG.measurable.comp (measurable_pi_apply i)
  have h := hm (measurableSet_order β Γ P Q)
  have e : (fun (y : Fin n → ℝ) i => G (y i)) ⁻¹' {z : Fin n → ℝ | ∀ i, (P i → β i ≤ orderStat z i) ∧ (Q i → orderStat z i ≤ Γ i)} =
      {z : Fin n → ℝ | ∀ i, (P i → β i ≤ G (orderStat z i)) ∧ (Q i → G (orderStat z i) ≤ Γ i)} := by
    ext y
    show (∀ i, _ ∧ _) ↔ ∀ i, _ ∧ _
    rw [orderStat_comp (hG.monotoneOn _)]
  rwa [e] at h

variable [IsProbabilityMeasure μ] (hat : ∀ y, μ {y} = 0)

include hat in
theorem measurable_ksStat (hn : 1 ≤ n) : Measurable (ksStat (n := n) (cdf μ)) := by
  refine measurable_of_nonneg (ksStat_nonneg _) fun d hd => ?_
  rw [ksStat_set (monotone_cdf μ) (cdf_continuous μ hat) (cdf_nonneg μ) (cdf_le_one μ) hn hd]
  have h := measurableSet_G (n := n) (monotone_cdf μ) (fun i => ((i : ℕ) + 1 : ℝ) / n - d) (fun i => (i : ℕ) / (n:ℝ) + d) (fun _ => True) (fun _ => True)
  simp only [true_implies] at h
  exact h

omit [IsProbabilityMeasure μ] in
theorem measurable_ksPlus : Measurable (ksPlus (n := n) (cdf μ)) := by
  refine measurable_of_nonneg (ksPlus_nonneg μ) fun d hd => ?_
  have e : {y : Fin n → ℝ | ksPlus (cdf μ) y ≤ d} = {y | ∀ i : Fin n, (((i : ℕ) + 1 : ℝ) / n - d ≤ cdf μ (orderStat y i))} := by
    ext y
    simp only [mem_ofPred_eq]
    rw [ksPlus_le_iff (cdf_nonneg μ), plus_iff (monotone_cdf μ) (cdf_nonneg μ) hd]
  rw [e]
  have h := measurableSet_G (n := n) (monotone_cdf μ) (fun i => ((i : ℕ) + 1 : ℝ) / n - d) (fun i => (i : ℕ) / (n:ℝ) + d) (fun _ => True) (fun _ => False)
  simp only [true_implies, false_implies, and_true] at h
  exact h

include hat in
theorem measurable_ksMinus (hn : 1 ≤ n) : Measurable (ksMinus (n := n) (cdf μ)) := by
  refine measurable_of_nonneg (ksMinus_nonneg μ) fun d hd => ?_
  have e : {y : Fin n → ℝ | ksMinus (cdf μ) y ≤ d} = {y | ∀ i : Fin n, cdf μ (orderStat y i) ≤ (i : ℕ) / (n:ℝ) + d} := by
    ext y
    simp only [mem_ofPred_eq]
    rw [ksMinus_le_iff (cdf_le_one μ), minus_iff (monotone_cdf μ) (cdf_continuous μ hat) (cdf_le_one μ) hd hn]
  rw [e]
  have h := measurableSet_G (n := n) (monotone_cdf μ) (fun i => ((i : ℕ) + 1 : ℝ) / n - d) (fun i => (i : ℕ) / (n:ℝ) + d) (fun _ => False) (fun _ => True)
  simp only [true_implies, false_implies, true_and] at h
  exact h

end meas

/-! ### Continuity in `d`, and the value at 0 -/

theorem ksLower_lip (d d' : ℝ) (i : Fin n) : |ksLower n d i - ksLower n d' i| ≤ |d - d'| := by
  unfold ksLower
  refine (abs_max_sub_max_le_max _ _ _ _).trans (max_le (by simp) ?_)
  rw [show ((i : ℕ) + 1 : ℝ) / n - d - (((i : ℕ) + 1 : ℝ) / n - d') = -(d - d') by ring, abs_neg]

theorem ksUpper_lip (d d' : ℝ) (i : Fin n) : |ksUpper n d i - ksUpper n d' i| ≤ |d - d'| := by
  unfold ksUpper
  refine (abs_min_sub_min_le_max _ _ _ _).trans (max_le (by simp) ?_)
  rw [show ((i : ℕ) : ℝ) / n + d - (((i : ℕ) : ℝ) / n + d') = d - d' by ring]

theorem continuous_of_lip {K : ℝ → ℝ} {C : ℝ} (h : ∀ d d', |K d - K d'| ≤ C * |d - d'|) : Continuous K := by
  have hC : 0 ≤ C := by
    have h1 := h 1 0
    have h2 : |(1:ℝ) - 0| = 1 := by norm_num
    rw [h2, mul_one] at h1
    exact (abs_nonneg _).trans h1
  have : LipschitzWith ⟨C, hC⟩ K := LipschitzWith.of_dist_le_mul fun d d' => by
    rw [Real.dist_eq, Real.dist_eq]; exact h d d'
  exact this.continuous

theorem continuous_ks : Continuous fun d => noncrossProb (ksLower n d) (ksUpper n d) := by
  refine continuous_of_lip (C := n * (n * 2)) fun d d' => (noncross_lipschitz _ _ _ _).trans ?_
  rw [mul_assoc]
  refine mul_le_mul_of_nonneg_left ?_ (by positivity)
  refine (Finset.sum_le_sum fun i _ => add_le_add (ksLower_lip d d' i) (ksUpper_lip d d' i)).trans (le_of_eq ?_)
  simp; ring

theorem continuous_ksPlus : Continuous fun d => lowerProb (ksLower n d) := by
  refine continuous_of_lip (C := n * n) fun d d' => (lower_lipschitz _ _).trans ?_
  rw [mul_assoc]
  refine mul_le_mul_of_nonneg_left ?_ (by positivity)
  refine (Finset.sum_le_sum fun i _ => (ksLower_lip d d' i)).trans (le_of_eq ?_)
  simp

theorem continuous_ksMinus : Continuous fun d => upperProb (ksUpper n d) := by
  refine continuous_of_lip (C := n * n) fun d d' => (upper_lipschitz _ _).trans ?_
  rw [mul_assoc]
  refine mul_le_mul_of_nonneg_left ?_ (by positivity)
  refine (Finset.sum_le_sum fun i _ => (ksUpper_lip d d' i)).trans (le_of_eq ?_)
  simp

theorem upper_zero (hn : 1 ≤ n) : upperProb (ksUpper n 0) = 0 := by
  unfold upperProb
  rw [measureReal_eq_zero_iff]
  have h : ∀ᵐ x ∂(iidUniform n), x ∉ {x : Fin n → ℝ | ∀ i, orderStat x i ≤ ksUpper n 0 i} := by
    filter_upwards [ae_Ioo] with x hx hmem
    have h1 := hmem ⟨0, hn⟩
    have h2 : 0 < orderStat x ⟨0, hn⟩ := (hx _).1
    simp [ksUpper] at h1
    linarith
  exact measure_eq_zero_iff_ae_notMem.mpr h

theorem lower_zero (hn : 1 ≤ n) : lowerProb (ksLower n 0) = 0 := by
  unfold lowerProb
  rw [measureReal_eq_zero_iff]
  have h : ∀ᵐ x ∂(iidUniform n), x ∉ {x : Fin n → ℝ | ∀ i, ksLower n 0 i ≤ orderStat x i} := by
    filter_upwards [ae_Ioo] with x hx hmem
    have hlt : n - 1 < n := by omega
    have h1 := hmem ⟨n - 1, hlt⟩
    have h2 : orderStat x ⟨n - 1, hlt⟩ < 1 := (hx _).2
    have h3 : (((n - 1 : ℕ) : ℝ) + 1) = n := by
      have : n - 1 + 1 = n := by omega
      exact_mod_cast this
    have hn' : (n:ℝ) ≠ 0 := by positivity
    simp only [ksLower, h3, div_self hn', sub_zero, zero_le_one, max_eq_right] at h1
    linarith
  exact measure_eq_zero_iff_ae_notMem.mpr h

theorem both_zero (hn : 1 ≤ n) : noncrossProb (ksLower n 0) (ksUpper n 0) = 0 := by
  have h : noncrossProb (ksLower n 0) (ksUpper n 0) ≤ upperProb (ksUpper n 0) := measureReal_mono fun x hx i => (hx i).2
  rw [upper_zero hn] at h
  exact le_antisymm h measureReal_nonneg

theorem pvalue_uniform_nonneg {Ω : Type*} [MeasurableSpace Ω] (P : Measure Ω) [IsProbabilityMeasure P] {D : Ω → ℝ} (hD : Measurable D)
    (hD0 : ∀ ω, 0 ≤ D ω) {K : ℝ → ℝ} (hK : Continuous K) (hlaw : ∀ d, 0 ≤ d → P.real {ω | D ω ≤ d} = K d) (hK0 : K 0 = 0)
    {α : ℝ} (h0 : 0 ≤ α) (h1 : α ≤ 1) : P.real {ω | 1 - K (D ω) ≤ α} = α := by
  have h := pvalue_uniform P hD (K := fun d => K (max d 0)) (by fun_prop) (fun d => ?_) h0 h1
  · have e : ∀ ω, max (D ω) 0 = D ω := fun ω => max_eq_left (hD0 ω)
    simp only [e] at h
    exact h
  · rcases le_or_gt 0 d with hd | hd
    · rw [max_eq_left hd]; exact hlaw d hd
    · rw [max_eq_right hd.le, hK0]
      have : {ω | D ω ≤ d} = ∅ := by
        ext ω; simp only [mem_ofPred_eq, mem_empty_iff_false, iff_false, not_le]
        exact lt_of_lt_of_le hd (hD0 ω)
      rw [this, measureReal_empty]

instance iid_prob (ρ : Measure ℝ) [IsProbabilityMeasure ρ] : IsProbabilityMeasure (iid ρ n) := by unfold iid; infer_instance

end CP.Spec
