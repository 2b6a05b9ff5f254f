import Verif.Proofs.BjSize
import Verif.Props.Gof
import Verif.Props.ExactBj
import Verif.Props.Bisect
/-
Property C83: the test made of `Mn_plus_statistic` and `Mn_plus_distribution` of benchmarks/exactbj.py is an exact
goodness-of-fit test.
-/
open MeasureTheory Set ProbabilityTheory
namespace CP.Props
open CP.Spec FOps

/-- The level-`α` test of the sample `x`: `Mn_plus_distribution(n, Mn_plus_statistic(x)) <= alpha`. -/
def BjRejects (env : Env XR) (sp : SciPy XR) (sort : List XR → List XR) (α : ℝ) {n : ℕ} (x : Fin n → ℝ) : Prop :=
  ∃ s after p, mnPlusStatistic sp sort (.list (toList x)) = .ok (s, after) ∧
    mnPlusDistribution env sp Nat.sqrt n s = .ok (.fin p) ∧ p ≤ α

section
variable (env : Env XR) (hf : ExactFFT env.fft) {sp : SciPy XR} (h : SciPyContract sp) {sort : List XR → List XR} (hs : NumSort sort)
  {n : ℕ} [NeZero n] (ha : env.asserts = false ∨ 2 ≤ n)

include hf h hs ha in
theorem bjRejects_iff (α : ℝ) {x : Fin n → ℝ} (hx : ∀ i, x i ∈ Icc (0 : ℝ) 1) : BjRejects env sp sort α x ↔ bjPvalue x ≤ α := by
  have e1 := (C56_statistic h hs x hx).1
  have e2 := C56_distribution env hf h ha ⟨bjStat_nonneg x, bjStat_le_one x⟩
  constructor
  · rintro ⟨s, after, p, h1, h2, h3⟩
    rw [e1] at h1
    injection h1 with h1
    injection h1 with h1 _
    rw [← h1, e2] at h2
    injection h2 with h2
    injection h2 with h2
    rw [← h2] at h3
    exact h3
  · intro hp
    exact ⟨_, _, _, e1, e2, hp⟩

omit [NeZero n] in
theorem iid_ae_mem {ρ : Measure ℝ} [IsProbabilityMeasure ρ] (hρ : ρ (Icc 0 1) = 1) : ∀ᵐ x ∂(iid ρ n), ∀ i, x i ∈ Icc (0 : ℝ) 1 := by
  unfold iid
  refine eventually_countable_forall.mpr fun i => ?_
  have : ∀ᵐ u ∂ρ, u ∈ Icc (0:ℝ) 1 := by
    rw [ae_iff]
    have := prob_compl_eq_zero_iff (μ := ρ) (measurableSet_Icc (a := (0:ℝ)) (b := 1))
    exact this.mpr hρ
  exact (Measure.tendsto_eval_ae_ae (μ := fun _ : Fin n => ρ) (i := i)).eventually this

include hf h hs ha in
theorem iid_bjRejects (α : ℝ) {ρ : Measure ℝ} [IsProbabilityMeasure ρ] (hρ : ρ (Icc 0 1) = 1) :
    (iid ρ n).real {x | BjRejects env sp sort α x} = (iid ρ n).real {x | bjPvalue x ≤ α} := by
  refine measureReal_congr ?_
  filter_upwards [iid_ae_mem hρ] with x hx
  exact propext (bjRejects_iff env hf h hs ha α hx)

include hf h hs ha in
theorem iid_bjRejects_cdf (α : ℝ) (μ : Measure ℝ) [IsProbabilityMeasure μ] :
    (iid μ n).real {y | BjRejects env sp sort α fun i => cdf μ (y i)} = (iid (μ.map (cdf μ)) n).real {x | bjPvalue x ≤ α} := by
  have hm : Measurable (cdf μ) := (monotone_cdf μ).measurable
  have hmm : Measurable fun (y : Fin n → ℝ) i => cdf μ (y i) := measurable_pi_lambda _ fun i => hm.comp (measurable_pi_apply i)
  rw [← iid_map hm, map_measureReal_apply hmm (measurableSet_le measurable_bjPvalue measurable_const)]
  congr 1
  ext y
  exact bjRejects_iff env hf h hs ha α fun i => ⟨cdf_nonneg μ _, cdf_le_one μ _⟩

theorem cdf_lt_le (μ : Measure ℝ) [IsProbabilityMeasure μ] {t : ℝ} (ht : t ∈ Icc (0:ℝ) 1) : μ.real {y | cdf μ y < t} ≤ t := by
  have hms : MeasurableSet {y | cdf μ y < t} := measurableSet_lt (monotone_cdf μ).measurable measurable_const
  have e : μ.real {y | cdf μ y < t} = unif.real {u | cdf μ (quant μ u) < t} := by
    have h := map_measureReal_apply (μ := unif) (measurable_quant μ) hms
    rw [unif_map_quant] at h
    exact h
  rw [e]
  conv_rhs => rw [← unif_Iic ht.1 ht.2]
  refine ENNReal.toReal_mono (measure_ne_top _ _) (measure_mono_ae ?_)
  filter_upwards [ae_unif_Ioo] with u hu
  intro hlt
  exact ((quant_le_iff μ hu _).mp le_rfl).trans (le_of_lt hlt)

theorem map_cdf_unif (μ : Measure ℝ) [IsProbabilityMeasure μ] (hat : ∀ y, μ {y} = 0) : μ.map (cdf μ) = unif := by
  have hm : Measurable (cdf μ) := (monotone_cdf μ).measurable
  have : IsProbabilityMeasure (μ.map (cdf μ)) := Measure.isProbabilityMeasure_map hm.aemeasurable
  refine Measure.ext_of_Iic _ _ fun t => ?_
  have e1 : (μ.map (cdf μ)).real (Iic t) = max 0 (min 1 t) := by
    rw [map_measureReal_apply hm measurableSet_Iic]
    exact pit_le μ hat t
  have e2 : unif.real (Iic t) = max 0 (min 1 t) := by
    rcases lt_or_ge t 0 with h0 | h0
    · rw [min_eq_right (by linarith), max_eq_left h0.le, measureReal_def, unif_Iic_ofReal (by linarith), ENNReal.ofReal_of_nonpos h0.le]
      rfl
    rcases le_or_gt t 1 with h1 | h1
    · rw [min_eq_right h1, max_eq_right h0, unif_Iic h0 h1]
    · rw [min_eq_left h1.le, max_eq_right zero_le_one]
      refine le_antisymm measureReal_le_one ?_
      rw [← unif_Iic zero_le_one le_rfl]
      exact measureReal_mono fun u (hu : u ≤ 1) => hu.trans h1.le
  have e3 := e1.trans e2.symm
  rwa [measureReal_def, measureReal_def, ENNReal.toReal_eq_toReal_iff' (measure_ne_top _ _) (measure_ne_top _ _)] at e3

omit [NeZero n] in
theorem iid_unif : iid unif n = iidUniform n := rfl

include hf h hs ha in
/-- C83: for observations with a distribution function `F` without jumps, the test of `F(Y_1), ..., F(Y_n)` rejects with
probability exactly `α` when the observations do come from `F`. -/
theorem C83_size (μ : Measure ℝ) [IsProbabilityMeasure μ] (hat : ∀ y, μ {y} = 0) {α : ℝ} (h0 : 0 ≤ α) (h1 : α ≤ 1) :
    (iid μ n).real {y | BjRejects env sp sort α fun i => cdf μ (y i)} = α := by
  rw [iid_bjRejects_cdf env hf h hs ha, map_cdf_unif μ hat, iid_unif]
  exact bjPvalue_uniform h0 h1

include hf h hs ha in
/-- C83: with jumps in `F` (discrete observations, ties) the test is conservative. -/
theorem C83_conservative (μ : Measure ℝ) [IsProbabilityMeasure μ] {α : ℝ} (h0 : 0 ≤ α) (h1 : α ≤ 1) :
    (iid μ n).real {y | BjRejects env sp sort α fun i => cdf μ (y i)} ≤ α := by
  have hm : Measurable (cdf μ) := (monotone_cdf μ).measurable
  have : IsProbabilityMeasure (μ.map (cdf μ)) := Measure.isProbabilityMeasure_map hm.aemeasurable
  rw [iid_bjRejects_cdf env hf h hs ha]
  refine bjPvalue_larger _ (fun t ht => ?_) h0 h1
  rw [map_measureReal_apply hm measurableSet_Iio]
  exact cdf_lt_le μ ht

include hf h hs ha in
/-- C83: the test looks for small values.  Samples in [0,1] that tend to be smaller than uniform ones are rejected with
probability at least `α`, samples that tend to be larger with probability at most `α`. -/
theorem C83_one_sided (ρ : Measure ℝ) [IsProbabilityMeasure ρ] (hρ : ρ (Icc 0 1) = 1) {α : ℝ} (h0 : 0 ≤ α) (h1 : α ≤ 1) :
    ((∀ t ∈ Icc (0:ℝ) 1, t ≤ ρ.real (Iic t)) → α ≤ (iid ρ n).real {x | BjRejects env sp sort α x}) ∧
    ((∀ t ∈ Icc (0:ℝ) 1, ρ.real (Iic t) ≤ t) → (iid ρ n).real {x | BjRejects env sp sort α x} ≤ α) := by
  rw [iid_bjRejects env hf h hs ha α hρ]
  refine ⟨fun hh => bjPvalue_smaller ρ hh h0 h1, fun hh => bjPvalue_larger ρ (fun t ht => le_trans ?_ (hh t ht)) h0 h1⟩
  exact measureReal_mono Iio_subset_Iic_self

include hf h hs ha in
/-- C83: power.  For samples in [0,1] with law `ρ`, the probability that the statistic is below a threshold `y` is one minus
`ecdf1_new_b` of the probabilities `ρ(X < b_i)`, where `b = Mn_plus_bounds(n, y)`. -/
theorem C83_power (ρ : Measure ℝ) [IsProbabilityMeasure ρ] (hρ : ρ (Icc 0 1) = 1) {y : ℝ} (hy : y ∈ Icc (0:ℝ) 1) :
    ∃ b : Fin n → ℝ, mnPlusBounds sp n (.fin y) = toList b ∧
      ecdf1Newb env Nat.sqrt (toList fun i => ρ.real {x | x < b i}) = .ok (.fin (1 -
        (iid ρ n).real {x | ∃ s after, mnPlusStatistic sp sort (.list (toList x)) = .ok (.fin s, after) ∧ s < y})) := by
  obtain ⟨b, e, hb, hq⟩ := C56_bounds h n hy
  refine ⟨b, e, ?_⟩
  rw [((C81_any_law_one_sided env hf ρ hb.mono).2.2 NeZero.one_le ha).1]
  congr 2
  have hms : MeasurableSet {x : Fin n → ℝ | ∀ i, b i ≤ orderStat x i} := by
    have := measurableSet_order b b (fun _ : Fin n => True) (fun _ => False)
    simpa using this
  rw [eq_sub_iff_add_eq, ← eq_sub_iff_add_eq', ← probReal_compl_eq_one_sub hms]
  refine measureReal_congr ?_
  filter_upwards [iid_ae_mem hρ] with x hx
  refine propext ?_
  have e1 := (C56_statistic h hs x hx).1
  have key : bjStat x < y ↔ ¬ ∀ i, b i ≤ orderStat x i := by
    rw [← not_le, not_iff_not]
    unfold bjStat
    rw [Finset.le_inf'_iff]
    constructor
    · intro hh i
      have := hh i (Finset.mem_univ i)
      rw [← hq i] at this
      exact (orderCdf_le_iff i (hb.range i) (orderStat_mem hx i)).mp this
    · intro hh i _
      rw [← hq i]
      exact orderCdf_mono i (hh i)
  show (∃ s after, mnPlusStatistic sp sort (.list (toList x)) = .ok (.fin s, after) ∧ s < y) ↔ ¬ ∀ i, b i ≤ orderStat x i
  rw [← key, e1]
  constructor
  · rintro ⟨s, after, h1, h2⟩
    injection h1 with h1
    injection h1 with h1 _
    injection h1 with h1
    rw [h1]; exact h2
  · exact fun hlt => ⟨_, _, rfl, hlt⟩

end

section
variable {sp : SciPy XR} (h : SciPyContract sp) {sort : List XR → List XR} (hs : NumSort sort) {n : ℕ} [NeZero n]

include h hs in
/-- C83: the test is distribution-free: under every null distribution without jumps the statistic has the same law. -/
theorem C83_distribution_free (μ : Measure ℝ) [IsProbabilityMeasure μ] (hat : ∀ y, μ {y} = 0) (r : ℝ) :
    (iid μ n).real {y | ∃ s after, mnPlusStatistic sp sort (.list (toList fun i => cdf μ (y i))) = .ok (.fin s, after) ∧ s < r} =
      (iidUniform n).real {x | bjStat x < r} := by
  have hm : Measurable (cdf μ) := (monotone_cdf μ).measurable
  have hmm : Measurable fun (y : Fin n → ℝ) i => cdf μ (y i) := measurable_pi_lambda _ fun i => hm.comp (measurable_pi_apply i)
  rw [← iid_unif, ← map_cdf_unif μ hat, ← iid_map hm, map_measureReal_apply hmm (measurableSet_lt measurable_bjStat measurable_const)]
  congr 1
  ext y
  have e1 := (C56_statistic h hs (fun i => cdf μ (y i)) fun i => ⟨cdf_nonneg μ _, cdf_le_one μ _⟩).1
  show (∃ s after, mnPlusStatistic sp sort (.list (toList fun i => cdf μ (y i))) = .ok (.fin s, after) ∧ s < r) ↔
    bjStat (fun i => cdf μ (y i)) < r
  rw [e1]
  constructor
  · rintro ⟨s, after, h1, h2⟩
    injection h1 with h1
    injection h1 with h1 _
    injection h1 with h1
    rw [h1]; exact h2
  · exact fun hlt => ⟨_, _, rfl, hlt⟩

include h hs in
/-- C83: the threshold that `inverse_Mn_plus(n, alpha)` finds in `p`-bit arithmetic (C57) gives a test whose size is within
`e + n 2^-p` of `alpha`, `e` the error of the computed distribution function, for every null distribution without jumps. -/
theorem C83_threshold {p : ℕ} (hp : 1 ≤ p) (hp2 : p ≤ 107) (env : Env (Fp p)) (spf : SciPy (Fp p)) (isqrt : ℕ → ℕ)
    {e : ℝ} (hacc : ∀ x ∈ bisectGrid p, ∃ d : ℝ, mnPlusDistribution env spf isqrt n (some x : Option ℝ) = .ok (some d : Option ℝ) ∧
      |d - (iidUniform n).real {s | bjStat s < x}| ≤ e)
    {alpha : ℝ} (h1 : alpha ≤ 1) {k : ℕ} (hk1 : 1 ≤ k) (hkp : k + p ≤ 108) (hk : n * 2 ^ (-(k : ℤ)) + e < alpha)
    (μ : Measure ℝ) [IsProbabilityMeasure μ] (hat : ∀ y, μ {y} = 0) :
    ∃ r ∈ Icc (0 : ℝ) 1, inverseMnPlus env spf isqrt n (some alpha : Option ℝ) = .ok (some r : Option ℝ) ∧
      |(iid μ n).real {y | ∃ s after, mnPlusStatistic sp sort (.list (toList fun i => cdf μ (y i))) = .ok (.fin s, after) ∧ s < r} - alpha|
        ≤ e + n * 2 ^ (-(p : ℤ)) := by
  obtain ⟨r, hr, e1, e2⟩ := C57_level hp hp2 env spf isqrt hacc h1 hk1 hkp hk
  refine ⟨r, hr, e1, ?_⟩
  rw [C83_distribution_free h hs μ hat]
  exact e2

end

/-! ## The hypotheses are met -/

/-- Observations uniform on [0,1]; the p-value is compared with 5%. -/
example := C83_size dbgEnv exactFFTW_exact exactSciPy_contract mergeSortNums_contract (n := 3) (Or.inr (by norm_num)) unif unif_no_atoms
  (α := 1 / 20) (by norm_num) (by norm_num)
/-- Observations that are all equal. -/
example := C83_conservative dbgEnv exactFFTW_exact exactSciPy_contract mergeSortNums_contract (n := 3) (Or.inr (by norm_num))
  (Measure.dirac 7) (α := 1 / 20) (by norm_num) (by norm_num)
/-- Samples that are always 0 are rejected with probability at least 5%, samples that are always 1 with probability at most 5%. -/
example : (1 / 20 : ℝ) ≤ (iid (Measure.dirac 0) 3).real {x | BjRejects dbgEnv exactSciPy mergeSortNums (1 / 20) x} :=
  (C83_one_sided dbgEnv exactFFTW_exact exactSciPy_contract mergeSortNums_contract (n := 3) (Or.inr (by norm_num))
    (Measure.dirac 0) (by simp) (by norm_num) (by norm_num)).1 fun t ht => by
      rw [measureReal_def, Measure.dirac_apply_of_mem (show (0:ℝ) ∈ Iic t from ht.1)]; exact ht.2
example : (iid (Measure.dirac 1) 3).real {x | BjRejects dbgEnv exactSciPy mergeSortNums (1 / 20) x} ≤ 1 / 20 :=
  (C83_one_sided dbgEnv exactFFTW_exact exactSciPy_contract mergeSortNums_contract (n := 3) (Or.inr (by norm_num))
    (Measure.dirac 1) (by simp) (by norm_num) (by norm_num)).2 fun t ht => by
      rcases ht.2.lt_or_eq with h | h
      · rw [measureReal_def, Measure.dirac_apply' _ measurableSet_Iic, indicator_of_notMem (by simpa using h)]; exact ht.1
      · rw [h]; exact measureReal_le_one
example := C83_power dbgEnv exactFFTW_exact exactSciPy_contract mergeSortNums_contract (n := 3) (Or.inr (by norm_num))
  (Measure.dirac (1 / 2)) (by simp; norm_num) (y := 1 / 20) ⟨by norm_num, by norm_num⟩
/-- One observation, level 5%, in 53-bit arithmetic: the threshold is found and the size is 5% up to `10^-9`. -/
example : ∃ r ∈ Icc (0 : ℝ) 1, inverseMnPlus fpFftEnv (unitSciPy 53) Nat.sqrt 1 (some (1 / 20) : Option ℝ) = .ok (some r : Option ℝ) ∧
    |(iid unif 1).real {y | ∃ s after, mnPlusStatistic exactSciPy mergeSortNums (.list (toList fun i => cdf unif (y i))) =
      .ok (.fin s, after) ∧ s < r} - 1 / 20| ≤ 1 / 10 ^ 9 := by
  obtain ⟨r, hr, e1, e2⟩ := bisect_unit Nat.sqrt
  refine ⟨r, hr, e1, ?_⟩
  rw [C83_distribution_free exactSciPy_contract mergeSortNums_contract (n := 1) unif unif_no_atoms]
  exact e2

end CP.Props
