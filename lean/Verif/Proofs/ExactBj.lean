import Verif.BjSpec
import Verif.Proofs.Stability
import Mathlib.Topology.Order.IntermediateValue
import Mathlib.Topology.MetricSpace.Lipschitz
/-! The distribution functions of uniform order statistics, and the law of the statistic `M_n^+`. -/
open MeasureTheory Set
namespace CP.Spec
variable {n : ℕ}

theorem orderCdf_mono (i : Fin n) : Monotone (orderCdf n i) := fun _ _ h =>
  measureReal_mono fun _ hx => le_trans hx h

theorem orderCdf_nonneg (i : Fin n) (x : ℝ) : 0 ≤ orderCdf n i x := measureReal_nonneg
theorem orderCdf_le_one (i : Fin n) (x : ℝ) : orderCdf n i x ≤ 1 := measureReal_le_one

theorem orderStat_mem {x : Fin n → ℝ} (hx : ∀ i, x i ∈ Icc (0 : ℝ) 1) (i : Fin n) : orderStat x i ∈ Icc (0 : ℝ) 1 := hx _

theorem orderCdf_one (i : Fin n) : orderCdf n i 1 = 1 := by
  unfold orderCdf
  have h : (iidUniform n).real {u | orderStat u i ≤ 1} = (iidUniform n).real univ := by
    refine measureReal_congr ?_
    filter_upwards [ae_mem (n := n)] with x hx
    exact propext ⟨fun _ => trivial, fun _ => (orderStat_mem hx i).2⟩
  rw [h, probReal_univ]

theorem orderCdf_zero (i : Fin n) : orderCdf n i 0 = 0 := by
  unfold orderCdf
  have h : (iidUniform n).real {u | orderStat u i ≤ 0} = (iidUniform n).real (∅ : Set (Fin n → ℝ)) := by
    refine measureReal_congr ?_
    filter_upwards [ae_mem (n := n), ae_ne (n := n) 0] with x hx h0
    refine propext ⟨fun h => ?_, fun h => h.elim⟩
    exact h0 _ (le_antisymm h (orderStat_mem hx i).1)
  rw [h, measureReal_empty]

theorem orderCdf_lipschitz (i : Fin n) (s t : ℝ) : |orderCdf n i s - orderCdf n i t| ≤ n * |s - t| := by
  have key : ∀ s t : ℝ, orderCdf n i s ≤ orderCdf n i t + n * |s - t| := by
    intro s t
    have hsub : {u : Fin n → ℝ | orderStat u i ≤ s} ⊆ {u | orderStat u i ≤ t} ∪ {u | ∃ j, u j ∈ uIcc s t} := by
      intro u hu
      by_cases h : orderStat u i ≤ t
      · exact Or.inl h
      · exact Or.inr ⟨Tuple.sort u i, Icc_subset_uIcc' ⟨(not_le.mp h).le, hu⟩⟩
    refine (measureReal_mono hsub).trans ((measureReal_union_le _ _).trans ?_)
    exact add_le_add_right (some_between s t) _
  have h1 := key s t
  have h2 := key t s
  rw [abs_sub_comm t s] at h2
  rw [abs_le]
  constructor <;> linarith

theorem orderCdf_continuous (i : Fin n) : Continuous (orderCdf n i) := by
  refine (LipschitzWith.of_dist_le_mul (K := (n : NNReal)) fun s t => ?_).continuous
  rw [Real.dist_eq, Real.dist_eq]
  exact_mod_cast orderCdf_lipschitz i s t

theorem orderCdf_lt (i : Fin n) {s t : ℝ} (hs : 0 ≤ s) (hst : s < t) (ht : t ≤ 1) : orderCdf n i s < orderCdf n i t := by
  have hbox : MeasurableSet (Set.pi univ fun _ : Fin n => Ioc s t) := MeasurableSet.univ_pi fun _ => measurableSet_Ioc
  have hdis : Disjoint {u : Fin n → ℝ | orderStat u i ≤ s} (Set.pi univ fun _ : Fin n => Ioc s t) := by
    rw [Set.disjoint_left]
    intro u hu hb
    exact absurd (hb (Tuple.sort u i) trivial).1 (not_lt.mpr hu)
  have hsub : {u : Fin n → ℝ | orderStat u i ≤ s} ∪ (Set.pi univ fun _ : Fin n => Ioc s t) ⊆ {u | orderStat u i ≤ t} := by
    rintro u (hu | hu)
    · exact le_trans hu hst.le
    · exact (hu (Tuple.sort u i) trivial).2
  have h1 := measureReal_mono (μ := iidUniform n) hsub
  rw [measureReal_union hdis hbox, iid_pi] at h1
  have h2 : unif.real (Ioc s t) = t - s := by
    unfold Measure.real
    rw [Measure.restrict_apply measurableSet_Ioc, Set.inter_eq_left.mpr, Real.volume_Ioc, ENNReal.toReal_ofReal (by linarith)]
    exact fun z hz => ⟨hs.trans hz.1.le, hz.2.trans ht⟩
  have h3 : 0 < ∏ _i : Fin n, unif.real (Ioc s t) := Finset.prod_pos fun _ _ => by rw [h2]; linarith
  unfold orderCdf
  linarith

theorem orderCdf_le_iff (i : Fin n) {s t : ℝ} (hs : s ∈ Icc (0 : ℝ) 1) (ht : t ∈ Icc (0 : ℝ) 1) :
    orderCdf n i s ≤ orderCdf n i t ↔ s ≤ t := by
  refine ⟨fun h => ?_, fun h => orderCdf_mono i h⟩
  by_contra hc
  exact absurd (orderCdf_lt i ht.1 (not_le.mp hc) hs.2) (not_lt.mpr h)

theorem orderCdf_anti {i j : Fin n} (hij : i ≤ j) (x : ℝ) : orderCdf n j x ≤ orderCdf n i x :=
  measureReal_mono fun u hu => (orderStat_monotone u hij).trans hu

/-- Every probability is attained. -/
theorem orderCdf_surj (i : Fin n) {y : ℝ} (hy : y ∈ Icc (0 : ℝ) 1) : ∃ t ∈ Icc (0 : ℝ) 1, orderCdf n i t = y := by
  have h := intermediate_value_Icc (zero_le_one (α := ℝ)) (orderCdf_continuous i).continuousOn
  rw [orderCdf_zero, orderCdf_one] at h
  obtain ⟨t, ht, e⟩ := h hy
  exact ⟨t, ht, e⟩

theorem measurable_lower (b : Fin n → ℝ) : NullMeasurableSet {x : Fin n → ℝ | ∀ i, b i ≤ orderStat x i} (iidUniform n) := by
  have hm : MeasurableSet {x : Fin n → ℝ | ∀ i : Fin n, count (b i) x ≤ i} := by
    have : {x : Fin n → ℝ | ∀ i : Fin n, count (b i) x ≤ i} = ⋂ i, {x | count (b i) x ≤ (i : ℕ)} := by ext; simp
    rw [this]
    exact MeasurableSet.iInter fun i => measurableSet_le (measurable_count (b i)) measurable_const
  refine hm.nullMeasurableSet.congr ?_
  have h : ∀ᵐ x ∂(iidUniform n), ∀ i, ∀ j, x j ≠ b i := by
    rw [ae_all_iff]
    exact fun i => ae_ne (b i)
  filter_upwards [h] with x hx
  refine propext ?_
  show (∀ i : Fin n, count (b i) x ≤ i) ↔ ∀ i, b i ≤ orderStat x i
  exact forall_congr' fun i => (le_orderStat_iff (hx i) i).symm

/-- The law of the statistic: with `t_i` the `y`-quantile of the `i`-th order statistic, `Pr[M_n^+ < y]` is the probability
that the lower boundary `t` is crossed. -/
theorem bjStat_law [NeZero n] {t : Fin n → ℝ} {y : ℝ} (ht : ∀ i, t i ∈ Icc (0 : ℝ) 1) (hq : ∀ i, orderCdf n i (t i) = y) :
    (iidUniform n).real {x | bjStat x < y} = 1 - lowerProb t := by
  unfold lowerProb
  have h := probReal_compl_eq_one_sub₀ (μ := iidUniform n) (measurable_lower t)
  rw [← h]
  refine measureReal_congr ?_
  filter_upwards [ae_mem (n := n)] with x hx
  refine propext ?_
  show bjStat x < y ↔ ¬ ∀ i, t i ≤ orderStat x i
  rw [← not_le, not_iff_not]
  unfold bjStat
  rw [Finset.le_inf'_iff]
  constructor
  · intro h i
    have := h i (Finset.mem_univ i)
    rw [← hq i] at this
    exact (orderCdf_le_iff i (ht i) (orderStat_mem hx i)).mp this
  · intro h i _
    rw [← hq i]
    exact orderCdf_mono i (h i)

/-- The quantiles form a valid boundary. -/
theorem quantile_valid {t : Fin n → ℝ} {y : ℝ} (ht : ∀ i, t i ∈ Icc (0 : ℝ) 1) (hq : ∀ i, orderCdf n i (t i) = y) :
    ValidBound t := by
  refine ⟨fun i j hij => ?_, ht⟩
  rw [← orderCdf_le_iff j (ht i) (ht j)]
  rw [hq j, ← hq i]
  exact orderCdf_anti hij _

theorem measurable_orderStat_le (i : Fin n) (t : ℝ) : MeasurableSet {u : Fin n → ℝ | orderStat u i ≤ t} := by
  have : {u : Fin n → ℝ | orderStat u i ≤ t} = {u | (i : ℕ) + 1 ≤ count t u} := by
    ext u
    exact orderStat_le_iff u t i
  rw [this]
  exact measurableSet_le measurable_const (measurable_count t)

/-- The p-value of each order statistic is uniform. -/
theorem pvalue_between (i : Fin n) {y y' : ℝ} (hy : 0 ≤ y) (hyy : y ≤ y') (hy' : y' ≤ 1) :
    (iidUniform n).real {u | y ≤ orderCdf n i (orderStat u i) ∧ orderCdf n i (orderStat u i) < y'} ≤ y' - y := by
  obtain ⟨t, ht, e⟩ := orderCdf_surj i ⟨hy, hyy.trans hy'⟩
  obtain ⟨t', ht', e'⟩ := orderCdf_surj i ⟨hy.trans hyy, hy'⟩
  have htt : t ≤ t' := by rw [← orderCdf_le_iff i ht ht', e, e']; exact hyy
  have hsub : {u : Fin n → ℝ | orderStat u i ≤ t} ⊆ {u | orderStat u i ≤ t'} := fun u hu => le_trans hu htt
  have h1 := measureReal_sdiff (μ := iidUniform n) hsub (measurable_orderStat_le i t)
  have h2 : (iidUniform n).real {u | y ≤ orderCdf n i (orderStat u i) ∧ orderCdf n i (orderStat u i) < y'}
      ≤ (iidUniform n).real ({u : Fin n → ℝ | orderStat u i ≤ t'} \ {u | orderStat u i ≤ t}) := by
    refine ENNReal.toReal_mono (measure_ne_top _ _) (measure_mono_ae ?_)
    filter_upwards [ae_mem (n := n), ae_ne (n := n) t] with u hu hne
    rintro ⟨g1, g2⟩
    rw [← e, orderCdf_le_iff i ht (orderStat_mem hu i)] at g1
    have g3 : orderStat u i < t' := by
      rw [← e'] at g2
      by_contra hc
      exact absurd (orderCdf_mono i (not_lt.mp hc)) (not_le.mpr g2)
    exact ⟨g3.le, fun h => hne _ (le_antisymm h g1)⟩
  refine h2.trans (le_of_eq ?_)
  rw [h1]
  show orderCdf n i t' - orderCdf n i t = _
  rw [e, e']

/-- `Pr[M_n^+ < y]` grows at most with slope `n`. -/
theorem bjStat_lipschitz [NeZero n] {y y' : ℝ} (hy : 0 ≤ y) (hyy : y ≤ y') (hy' : y' ≤ 1) :
    (iidUniform n).real {x | bjStat x < y} ≤ (iidUniform n).real {x | bjStat x < y'} ∧
    (iidUniform n).real {x | bjStat x < y'} ≤ (iidUniform n).real {x | bjStat x < y} + n * (y' - y) := by
  refine ⟨measureReal_mono fun x hx => lt_of_lt_of_le hx hyy, ?_⟩
  have hsub : {x : Fin n → ℝ | bjStat x < y'} ⊆ {x | bjStat x < y} ∪
      ⋃ i ∈ (Finset.univ : Finset (Fin n)), {x | y ≤ orderCdf n i (orderStat x i) ∧ orderCdf n i (orderStat x i) < y'} := by
    intro x hx
    by_cases h : bjStat x < y
    · exact Or.inl h
    · right
      have hx' : bjStat x < y' := hx
      unfold bjStat at h hx'
      rw [not_lt, Finset.le_inf'_iff] at h
      rw [Finset.inf'_lt_iff] at hx'
      obtain ⟨i, hi, hlt⟩ := hx'
      simp only [mem_iUnion]
      exact ⟨i, hi, h i hi, hlt⟩
  refine (measureReal_mono hsub).trans ((measureReal_union_le _ _).trans ?_)
  refine add_le_add_right ((measureReal_biUnion_finset_le _ _).trans ?_) _
  refine (Finset.sum_le_sum fun i _ => pvalue_between i hy hyy hy').trans (le_of_eq ?_)
  rw [Finset.sum_const, Finset.card_univ, Fintype.card_fin, nsmul_eq_mul]

end CP.Spec
