import Verif.Proofs.KsSize
import Verif.Proofs.ExactBj
/-!
The p-value of the exact Berk-Jones test is uniformly distributed under the null hypothesis; it is smaller (larger) if the
observations are stochastically smaller (larger).
-/
open MeasureTheory Set ProbabilityTheory Filter Topology

namespace CP.Spec
variable {n : ℕ}

theorem orderStat_le_of_le {x y : Fin n → ℝ} (h : ∀ i, x i ≤ y i) (i : Fin n) : orderStat x i ≤ orderStat y i := by
  rw [orderStat_le_iff]
  refine lt_of_lt_of_le ((orderStat_le_iff y (orderStat y i) i).mp le_rfl) ?_
  unfold count
  exact Finset.card_le_card fun j hj => by
    simp only [Finset.mem_filter, Finset.mem_univ, true_and] at hj ⊢
    exact (h j).trans hj

variable [NeZero n]

theorem bjStat_le_of_le {x y : Fin n → ℝ} (h : ∀ i, x i ≤ y i) : bjStat x ≤ bjStat y := by
  unfold bjStat
  rw [Finset.le_inf'_iff]
  intro i _
  exact (Finset.inf'_le _ (Finset.mem_univ i)).trans (orderCdf_mono i (orderStat_le_of_le h i))

theorem bjStat_nonneg (x : Fin n → ℝ) : 0 ≤ bjStat x := by
  unfold bjStat
  rw [Finset.le_inf'_iff]
  exact fun i _ => orderCdf_nonneg i _

theorem bjStat_le_one (x : Fin n → ℝ) : bjStat x ≤ 1 := by
  unfold bjStat
  exact (Finset.inf'_le _ (Finset.mem_univ (0 : Fin n))).trans (orderCdf_le_one _ _)

theorem measurable_bjStat : Measurable (bjStat (n := n)) := by
  refine measurable_of_Iio fun y => ?_
  have : bjStat (n := n) ⁻¹' Iio y = ⋃ i : Fin n, {x | orderCdf n i (orderStat x i) < y} := by
    ext x
    simp only [mem_preimage, mem_Iio, mem_iUnion, mem_ofPred_eq]
    unfold bjStat
    rw [Finset.inf'_lt_iff]
    simp
  rw [this]
  exact MeasurableSet.iUnion fun i =>
    measurableSet_lt ((orderCdf_mono i).measurable.comp (measurable_orderStat i)) measurable_const

/-- The exact p-value of a sample: the null probability of a smaller statistic. -/
noncomputable def bjPvalue (x : Fin n → ℝ) : ℝ := (iidUniform n).real {u | bjStat u < bjStat x}

theorem bjPvalue_le_of_le {x y : Fin n → ℝ} (h : ∀ i, x i ≤ y i) : bjPvalue x ≤ bjPvalue y :=
  measureReal_mono fun _ hu => lt_of_lt_of_le hu (bjStat_le_of_le h)

theorem bjStat_lt_one : (iidUniform n).real {x : Fin n → ℝ | bjStat x < 1} = 1 := by
  have hn : 1 ≤ n := NeZero.one_le
  have hl := bjStat_law (n := n) (t := fun _ => 1) (y := 1) (fun _ => ⟨zero_le_one, le_rfl⟩) (fun i => orderCdf_one i)
  rw [hl]
  have : lowerProb (fun _ : Fin n => (1 : ℝ)) = 0 := by
    unfold lowerProb
    have e : (iidUniform n).real {x : Fin n → ℝ | ∀ i, 1 ≤ orderStat x i} = (iidUniform n).real (∅ : Set (Fin n → ℝ)) := by
      refine measureReal_congr ?_
      filter_upwards [ae_mem (n := n), ae_ne (n := n) 1] with x hx h1
      refine propext ⟨fun hh => ?_, fun hh => hh.elim⟩
      exact h1 _ (le_antisymm (orderStat_mem hx ⟨0, hn⟩).2 (hh ⟨0, hn⟩))
    rw [e, measureReal_empty]
  rw [this, sub_zero]

/-- The statistic has no atoms. -/
theorem bjStat_atom (y : ℝ) : (iidUniform n).real {x : Fin n → ℝ | bjStat x = y} = 0 := by
  have hnn : ∀ y, 0 ≤ (iidUniform n).real {x : Fin n → ℝ | bjStat x = y} := fun _ => measureReal_nonneg
  rcases lt_or_ge y 0 with h0 | h0
  · have : {x : Fin n → ℝ | bjStat x = y} = ∅ := by
      ext x
      simp only [mem_ofPred_eq, mem_empty_iff_false, iff_false]
      exact fun h => absurd (bjStat_nonneg x) (by rw [h]; exact not_le.mpr h0)
    rw [this, measureReal_empty]
  have hd : ∀ _ : ℕ, (iidUniform n).real {x : Fin n → ℝ | bjStat x < y} + (iidUniform n).real {x : Fin n → ℝ | bjStat x = y} =
      (iidUniform n).real {x : Fin n → ℝ | bjStat x < y ∨ bjStat x = y} := by
    intro _
    rw [← measureReal_union]
    · rfl
    · rw [Set.disjoint_left]
      intro x (h1 : bjStat x < y) (h2 : bjStat x = y)
      exact absurd h2 h1.ne
    · exact measurable_bjStat (measurableSet_singleton y)
  have hd := hd 0
  rcases lt_or_ge y 1 with h1 | h1
  · refine le_antisymm (le_of_forall_pos_le_add fun ε hε => ?_) (hnn y)
    have hn : (0:ℝ) < n := by exact_mod_cast (NeZero.one_le : 1 ≤ n)
    set y' := min 1 (y + ε / n) with hy'
    have hyy : y < y' := lt_min h1 (by have := div_pos hε hn; linarith)
    have hl := (bjStat_lipschitz (n := n) h0 hyy.le (min_le_left _ _)).2
    have hm : (iidUniform n).real {x : Fin n → ℝ | bjStat x < y ∨ bjStat x = y} ≤ (iidUniform n).real {x : Fin n → ℝ | bjStat x < y'} :=
      measureReal_mono fun x hx => by
        rcases hx with h | h
        · exact h.trans hyy
        · exact h.trans_lt hyy
    have hs : n * (y' - y) ≤ ε := by
      have : y' - y ≤ ε / n := by have := min_le_right 1 (y + ε / n); rw [hy']; linarith
      calc n * (y' - y) ≤ n * (ε / n) := mul_le_mul_of_nonneg_left this hn.le
        _ = ε := by field_simp
    linarith
  · have hm : (iidUniform n).real {x : Fin n → ℝ | bjStat x < 1} ≤ (iidUniform n).real {x : Fin n → ℝ | bjStat x < y} :=
      measureReal_mono fun x hx => lt_of_lt_of_le hx h1
    rw [bjStat_lt_one] at hm
    have h2 : (iidUniform n).real {x : Fin n → ℝ | bjStat x < y ∨ bjStat x = y} ≤ 1 := measureReal_le_one
    exact le_antisymm (by linarith) (hnn y)

/-- Under the null hypothesis the p-value is uniform. -/
theorem bjPvalue_uniform {α : ℝ} (h0 : 0 ≤ α) (h1 : α ≤ 1) : (iidUniform n).real {x : Fin n → ℝ | bjPvalue x ≤ α} = α := by
  set ν := (iidUniform n).map (bjStat (n := n)) with hν
  have : IsProbabilityMeasure ν := Measure.isProbabilityMeasure_map measurable_bjStat.aemeasurable
  have hat : ∀ y, ν {y} = 0 := by
    intro y
    rw [hν, Measure.map_apply measurable_bjStat (measurableSet_singleton y)]
    have := bjStat_atom (n := n) y
    rw [measureReal_eq_zero_iff] at this
    exact this
  have hcdf : ∀ x : Fin n → ℝ, cdf ν (bjStat x) = bjPvalue x := by
    intro x
    rw [cdf_eq_real]
    have e : ν.real (Iic (bjStat x)) = ν.real (Iio (bjStat x)) := by
      rw [← Iio_union_right, measureReal_union (by simp) (measurableSet_singleton _)]
      rw [show ν.real {bjStat x} = 0 from by rw [measureReal_def, hat]; rfl, add_zero]
    rw [e, hν, map_measureReal_apply measurable_bjStat measurableSet_Iio]
    rfl
  have hp := pit_le ν hat α
  rw [min_eq_right h1, max_eq_right h0] at hp
  rw [hν, map_measureReal_apply measurable_bjStat (measurableSet_le (monotone_cdf _).measurable measurable_const)] at hp
  refine Eq.trans (congrArg _ ?_) hp
  ext x
  show bjPvalue x ≤ α ↔ cdf ν (bjStat x) ≤ α
  rw [hcdf]

theorem measurable_bjPvalue : Measurable (bjPvalue (n := n)) := by
  have hm : Monotone fun s : ℝ => (iidUniform n).real {u : Fin n → ℝ | bjStat u < s} :=
    fun s t h => measureReal_mono fun u hu => lt_of_lt_of_le hu h
  exact hm.measurable.comp measurable_bjStat

theorem iid_bjPvalue (ρ : Measure ℝ) [IsProbabilityMeasure ρ] (α : ℝ) : (iid ρ n).real {x : Fin n → ℝ | bjPvalue x ≤ α} =
    (iidUniform n).real {x : Fin n → ℝ | bjPvalue (fun i => quant ρ (x i)) ≤ α} := by
  have hm : Measurable fun (x : Fin n → ℝ) i => quant ρ (x i) :=
    measurable_pi_lambda _ fun i => (measurable_quant ρ).comp (measurable_pi_apply i)
  rw [iid_eq_quant_map, map_measureReal_apply hm (measurableSet_le measurable_bjPvalue measurable_const)]
  rfl

/-- Stochastically smaller observations are rejected more often. -/
theorem bjPvalue_smaller (ρ : Measure ℝ) [IsProbabilityMeasure ρ] (h : ∀ t ∈ Icc (0:ℝ) 1, t ≤ ρ.real (Iic t)) {α : ℝ}
    (h0 : 0 ≤ α) (h1 : α ≤ 1) : α ≤ (iid ρ n).real {x : Fin n → ℝ | bjPvalue x ≤ α} := by
  rw [iid_bjPvalue]
  conv_lhs => rw [← bjPvalue_uniform (n := n) h0 h1]
  refine ENNReal.toReal_mono (measure_ne_top _ _) (measure_mono_ae ?_)
  filter_upwards [ae_Ioo (n := n)] with x hx
  intro hxa
  refine le_trans (bjPvalue_le_of_le fun i => ?_) hxa
  rw [quant_le_iff ρ (hx i), cdf_eq_real]
  exact h _ ⟨(hx i).1.le, (hx i).2.le⟩

/-- Stochastically larger observations are rejected less often. -/
theorem bjPvalue_larger (ρ : Measure ℝ) [IsProbabilityMeasure ρ] (h : ∀ t ∈ Icc (0:ℝ) 1, ρ.real (Iio t) ≤ t) {α : ℝ}
    (h0 : 0 ≤ α) (h1 : α ≤ 1) : (iid ρ n).real {x : Fin n → ℝ | bjPvalue x ≤ α} ≤ α := by
  rw [iid_bjPvalue]
  conv_rhs => rw [← bjPvalue_uniform (n := n) h0 h1]
  refine ENNReal.toReal_mono (measure_ne_top _ _) (measure_mono_ae ?_)
  filter_upwards [ae_Ioo (n := n)] with x hx
  intro hxa
  refine le_trans (bjPvalue_le_of_le fun i => ?_) hxa
  by_contra hc
  rw [not_le] at hc
  obtain ⟨z, hz1, hz2⟩ := exists_between hc
  have h3 := (quant_le_iff ρ (hx i) z).mp hz1.le
  obtain ⟨w, hw1, hw2⟩ := exists_between hz2
  have h4 : cdf ρ z ≤ ρ.real (Iio w) := by
    rw [cdf_eq_real]; exact measureReal_mono fun s (hs : s ≤ z) => lt_of_le_of_lt hs hw1
  rcases le_or_gt 0 w with hw | hw
  · have := h w ⟨hw, hw2.le.trans (hx i).2.le⟩
    linarith
  · have h5 : ρ.real (Iio w) ≤ ρ.real (Iio 0) := measureReal_mono fun s (hs : s < w) => hs.trans hw
    have := h 0 ⟨le_rfl, zero_le_one⟩
    have := (hx i).1
    linarith

end CP.Spec
