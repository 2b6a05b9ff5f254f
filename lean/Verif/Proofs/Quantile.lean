import Verif.EcdfSpec
import Verif.Proofs.Events
import Mathlib.MeasureTheory.Constructions.BorelSpace.Order
/-!
Samples from an arbitrary law as quantile transforms of uniform samples.
-/
open MeasureTheory Set ProbabilityTheory Filter Topology

namespace CP.Spec
variable {n : ℕ}

/-- Generalised inverse of the distribution function of `ρ`. -/
noncomputable def quant (ρ : Measure ℝ) (u : ℝ) : ℝ := if u ∈ Ioo (0:ℝ) 1 then sInf {z | u ≤ cdf ρ z} else 0

variable (ρ : Measure ℝ) [IsProbabilityMeasure ρ]

omit [IsProbabilityMeasure ρ] in
theorem quant_le_iff {u : ℝ} (hu : u ∈ Ioo (0:ℝ) 1) (z : ℝ) : quant ρ u ≤ z ↔ u ≤ cdf ρ z := by
  unfold quant
  rw [if_pos hu]
  set S := {z | u ≤ cdf ρ z} with hS
  have hne : S.Nonempty := by
    obtain ⟨a, ha⟩ := ((tendsto_cdf_atTop ρ).eventually (lt_mem_nhds hu.2)).exists
    exact ⟨a, ha.le⟩
  have hbd : BddBelow S := by
    obtain ⟨a, ha⟩ := ((tendsto_cdf_atBot ρ).eventually (gt_mem_nhds hu.1)).exists
    refine ⟨a, fun c hc => ?_⟩
    by_contra h
    have := monotone_cdf ρ (not_le.mp h).le
    exact absurd (lt_of_le_of_lt (hc.trans this) ha) (lt_irrefl _)
  constructor
  · intro h
    have hgt : ∀ w, z < w → u ≤ cdf ρ w := by
      intro w hw
      obtain ⟨c, hc, hcw⟩ := exists_lt_of_csInf_lt hne (lt_of_le_of_lt h hw)
      exact le_trans hc (monotone_cdf ρ hcw.le)
    have hr : Tendsto (cdf ρ) (𝓝[>] z) (𝓝 (cdf ρ z)) :=
      ((cdf ρ).right_continuous z).tendsto.mono_left (nhdsWithin_mono _ Ioi_subset_Ici_self)
    refine ge_of_tendsto hr ?_
    filter_upwards [self_mem_nhdsWithin] with w hw
    exact hgt w hw
  · intro h
    exact csInf_le hbd h

theorem ae_unif_Ioo : ∀ᵐ u ∂unif, u ∈ Ioo (0:ℝ) 1 := by
  have h1 : ∀ᵐ u ∂unif, u ∈ Icc (0:ℝ) 1 := ae_restrict_mem measurableSet_Icc
  have h2 : ∀ᵐ u ∂unif, u ≠ 0 := by apply ae_restrict_of_ae; simp [ae_iff]
  have h3 : ∀ᵐ u ∂unif, u ≠ 1 := by apply ae_restrict_of_ae; simp [ae_iff]
  filter_upwards [h1, h2, h3] with u a b c
  exact ⟨lt_of_le_of_ne a.1 (Ne.symm b), lt_of_le_of_ne a.2 c⟩

omit [IsProbabilityMeasure ρ] in
theorem measurable_quant : Measurable (quant ρ) := by
  refine measurable_of_Iic fun z => ?_
  have e : quant ρ ⁻¹' Iic z = (Ioo 0 1 ∩ Iic (cdf ρ z)) ∪ ((Ioo (0:ℝ) 1)ᶜ ∩ {_u | 0 ≤ z}) := by
    ext u
    by_cases hu : u ∈ Ioo (0:ℝ) 1
    · simp only [mem_preimage, mem_Iic, mem_union, mem_inter_iff, mem_compl_iff, hu, true_and, not_true, false_and, or_false]
      exact quant_le_iff ρ hu z
    · have : quant ρ u = 0 := by unfold quant; rw [if_neg hu]
      simp only [mem_preimage, mem_Iic, mem_union, mem_inter_iff, mem_compl_iff, hu, false_and, false_or,
        not_false_eq_true, true_and, this, mem_ofPred_eq]
  rw [e]
  exact (measurableSet_Ioo.inter measurableSet_Iic).union (measurableSet_Ioo.compl.inter (MeasurableSet.const _))

theorem unif_Iic_ofReal {t : ℝ} (h1 : t ≤ 1) : unif (Iic t) = ENNReal.ofReal t := by
  unfold unif
  rw [Measure.restrict_apply measurableSet_Iic]
  have : Iic t ∩ Icc 0 1 = Icc 0 t := by
    ext u; simp only [mem_inter_iff, mem_Iic, mem_Icc]; constructor
    · rintro ⟨a, b, c⟩; exact ⟨b, a⟩
    · rintro ⟨a, b⟩; exact ⟨b, a, b.trans h1⟩
  rw [this, Real.volume_Icc, sub_zero]

theorem unif_map_quant : unif.map (quant ρ) = ρ := by
  have : IsProbabilityMeasure (unif.map (quant ρ)) := Measure.isProbabilityMeasure_map (measurable_quant ρ).aemeasurable
  refine Measure.ext_of_Iic _ _ fun z => ?_
  rw [Measure.map_apply (measurable_quant ρ) measurableSet_Iic]
  rw [← ofReal_cdf ρ z, ← unif_Iic_ofReal (cdf_le_one ρ z)]
  apply measure_congr
  filter_upwards [ae_unif_Ioo] with u hu
  apply propext
  exact quant_le_iff ρ hu z

theorem iid_eq_quant_map : iid ρ n = (iidUniform n).map (fun x i => quant ρ (x i)) := by
  unfold iid iidUniform
  have : IsProbabilityMeasure (unif.map (quant ρ)) := Measure.isProbabilityMeasure_map (measurable_quant ρ).aemeasurable
  have h := Measure.pi_map_pi (ι := Fin n) (μ := fun _ => unif) (f := fun _ => quant ρ)
    (hμ := fun _ => inferInstance) (fun _ => (measurable_quant ρ).aemeasurable)
  rw [unif_map_quant ρ] at h
  exact h.symm

theorem ae_Ioo : ∀ᵐ x ∂(iidUniform n), ∀ i, x i ∈ Ioo (0:ℝ) 1 := by
  unfold iidUniform
  refine eventually_countable_forall.mpr fun i => ?_
  exact (Measure.tendsto_eval_ae_ae (μ := fun _ : Fin n => unif) (i := i)).eventually ae_unif_Ioo

theorem orderStat_comp {x : Fin n → ℝ} {q : ℝ → ℝ} (h : MonotoneOn q (range x)) :
    orderStat (fun i => q (x i)) = fun i => q (orderStat x i) := by
  unfold orderStat
  have := Tuple.unique_monotone (f := fun i => q (x i)) (σ := Tuple.sort (fun i => q (x i))) (τ := Tuple.sort x)
    (Tuple.monotone_sort _) (fun i j hij => h ⟨_, rfl⟩ ⟨_, rfl⟩ (Tuple.monotone_sort x hij))
  exact this

omit [IsProbabilityMeasure ρ] in
theorem quant_mono : MonotoneOn (quant ρ) (Ioo 0 1) := by
  intro u hu v hv huv
  rw [quant_le_iff ρ hu]
  exact huv.trans ((quant_le_iff ρ hv _).mp le_rfl)

/-- Almost surely the quantile reaches `β` exactly when the uniform variable is above `ρ(-∞, β)`. -/
theorem le_quant_iff {u : ℝ} (hu : u ∈ Ioo (0:ℝ) 1) (β : ℝ) (hne : u ≠ ρ.real (Iio β)) :
    β ≤ quant ρ u ↔ ρ.real (Iio β) ≤ u := by
  rw [← not_iff_not, not_le, not_le]
  constructor
  · intro h
    refine lt_of_le_of_ne ?_ hne
    have h1 := (quant_le_iff ρ hu _).mp le_rfl
    rw [cdf_eq_real] at h1
    exact h1.trans (measureReal_mono (fun z hz => lt_of_le_of_lt hz h))
  · intro h
    have ht : Tendsto (fun k : ℕ => ρ.real (Iic (β - 1 / ((k:ℝ) + 1)))) atTop (𝓝 (ρ.real (Iio β))) := by
      have hU : Iio β = ⋃ k : ℕ, Iic (β - 1 / ((k:ℝ) + 1)) := by
        ext z
        simp only [mem_Iio, mem_iUnion, mem_Iic]
        constructor
        · intro hz
          obtain ⟨k, hk⟩ := exists_nat_one_div_lt (sub_pos.mpr hz)
          exact ⟨k, by linarith⟩
        · rintro ⟨k, hk⟩
          have : (0:ℝ) < 1 / ((k:ℝ) + 1) := by positivity
          linarith
      rw [hU]
      have hm : Monotone fun k : ℕ => Iic (β - 1 / ((k:ℝ) + 1)) := by
        intro a b hab
        apply Iic_subset_Iic.mpr
        have := one_div_le_one_div_of_le (by positivity : (0:ℝ) < (a:ℝ) + 1) (by exact_mod_cast Nat.succ_le_succ hab : (a:ℝ) + 1 ≤ b + 1)
        linarith
      have := tendsto_measure_iUnion_atTop (μ := ρ) hm
      unfold Measure.real
      exact (ENNReal.tendsto_toReal (measure_ne_top _ _)).comp this
    obtain ⟨k, hk⟩ := (ht.eventually (lt_mem_nhds h)).exists
    have : quant ρ u ≤ β - 1 / ((k:ℝ) + 1) := by
      rw [quant_le_iff ρ hu, cdf_eq_real]
      exact hk.le
    have hp : (0:ℝ) < 1 / ((k:ℝ) + 1) := by positivity
    linarith

theorem measurable_orderStat (i : Fin n) : Measurable fun x : Fin n → ℝ => orderStat x i := by
  refine measurable_of_Iic fun t => ?_
  have : (fun x : Fin n → ℝ => orderStat x i) ⁻¹' Iic t = {x | (i : ℕ) < count t x} := by
    ext x; exact orderStat_le_iff x t i
  rw [this]
  exact measurableSet_lt measurable_const (measurable_count t)

theorem iid_order (β Γ : Fin n → ℝ) (P Q : Fin n → Prop) :
    (iid ρ n).real {z | ∀ i, (P i → β i ≤ orderStat z i) ∧ (Q i → orderStat z i ≤ Γ i)} =
    (iidUniform n).real {x | ∀ i, (P i → ρ.real (Iio (β i)) ≤ orderStat x i) ∧ (Q i → orderStat x i ≤ ρ.real (Iic (Γ i)))} := by
  have hm : Measurable fun (x : Fin n → ℝ) i => quant ρ (x i) :=
    measurable_pi_lambda _ fun i => (measurable_quant ρ).comp (measurable_pi_apply i)
  have hs : MeasurableSet {z : Fin n → ℝ | ∀ i, (P i → β i ≤ orderStat z i) ∧ (Q i → orderStat z i ≤ Γ i)} := by
    have e : {z : Fin n → ℝ | ∀ i, (P i → β i ≤ orderStat z i) ∧ (Q i → orderStat z i ≤ Γ i)} =
        ⋂ i, (({_z : Fin n → ℝ | ¬ P i} ∪ {z | β i ≤ orderStat z i}) ∩ ({_z : Fin n → ℝ | ¬ Q i} ∪ {z | orderStat z i ≤ Γ i})) := by
      ext z
      simp only [mem_iInter, mem_inter_iff, mem_union, mem_ofPred_eq, imp_iff_not_or]
    rw [e]
    exact MeasurableSet.iInter fun i => ((MeasurableSet.const _).union (measurableSet_le measurable_const (measurable_orderStat i))).inter
      ((MeasurableSet.const _).union (measurableSet_le (measurable_orderStat i) measurable_const))
  rw [iid_eq_quant_map, map_measureReal_apply hm hs]
  apply measureReal_congr
  have h : ∀ᵐ x ∂(iidUniform n), ∀ j, ∀ i, x i ≠ ρ.real (Iio (β j)) := eventually_countable_forall.mpr fun j => ae_ne _
  filter_upwards [h, ae_Ioo] with x hx h01
  apply propext
  show (∀ i, _ ∧ _) ↔ ∀ i, _ ∧ _
  have hmo : MonotoneOn (quant ρ) (range x) := (quant_mono ρ).mono (by rintro _ ⟨i, rfl⟩; exact h01 i)
  rw [orderStat_comp hmo]
  refine forall_congr' fun i => ?_
  dsimp only
  have ho : orderStat x i = x (Tuple.sort x i) := rfl
  rw [ho, le_quant_iff ρ (h01 _) (β i) (hx i _), quant_le_iff ρ (h01 _), cdf_eq_real]

end CP.Spec
