import Verif.Spec
import Mathlib.MeasureTheory.Measure.Lebesgue.Basic
import Mathlib.MeasureTheory.Constructions.Pi
import Mathlib.MeasureTheory.Integral.Pi
import Mathlib.Analysis.SpecialFunctions.Integrals.Basic
/-! Linear combinations of exponential random numbers `-log u_j` are rarely close to 0. -/
open MeasureTheory Set
namespace CP.Spec
noncomputable section

/-- One variable. -/
theorem volume_near {c s g k t : ℝ} (hc : 1 / 2 ≤ |c|) (hg : 0 ≤ g) (hk : 0 ≤ k) (ht : 0 < t) :
    volume {x : ℝ | t ≤ x ∧ x ≤ 1 ∧ |c * -Real.log x + s| ≤ g + k / x} ≤ ENNReal.ofReal (8 * g + 16 * k) := by
  set V := {x : ℝ | t ≤ x ∧ x ≤ 1 ∧ |c * -Real.log x + s| ≤ g + k / x} with hV
  have hsub : V ⊆ Icc 0 (8 * k) ∪ (V ∩ Ici (8 * k)) := by
    intro x hx
    by_cases h : 8 * k ≤ x
    · exact Or.inr ⟨hx, h⟩
    · exact Or.inl ⟨ht.le.trans hx.1, (not_le.mp h).le⟩
  have key : ∀ x ∈ V ∩ Ici (8 * k), ∀ y ∈ V ∩ Ici (8 * k), x ≤ y → y - x ≤ 8 * g + 8 * k := by
    rintro x ⟨⟨hx1, hx2, hx3⟩, hx4⟩ y ⟨⟨hy1, hy2, hy3⟩, -⟩ hxy
    rw [mem_Ici] at hx4
    have hx0 : 0 < x := ht.trans_le hx1
    have hy0 : 0 < y := ht.trans_le hy1
    have hky : k / y ≤ k / x := div_le_div_of_nonneg_left hk hx0 hxy
    have h1 : |c| * (Real.log y - Real.log x) ≤ 2 * (g + k / x) := by
      have hl : 0 ≤ Real.log y - Real.log x := sub_nonneg.mpr (Real.log_le_log hx0 hxy)
      rw [← abs_of_nonneg hl, ← abs_mul]
      have e : c * (Real.log y - Real.log x) = (c * -Real.log x + s) - (c * -Real.log y + s) := by ring
      rw [e]
      have := abs_sub (c * -Real.log x + s) (c * -Real.log y + s)
      linarith
    set q := 4 * g + 4 * (k / x) with hq
    have hkx : 0 ≤ k / x := by positivity
    have h2 : Real.log y - Real.log x ≤ q := by
      have hl : 0 ≤ Real.log y - Real.log x := sub_nonneg.mpr (Real.log_le_log hx0 hxy)
      nlinarith
    have hq0 : 0 ≤ q := by positivity
    by_cases hq1 : q ≤ 1
    · have h3 : y / x ≤ Real.exp q := by
        rw [← Real.log_le_iff_le_exp (by positivity), Real.log_div hy0.ne' hx0.ne']
        exact h2
      have h4 : Real.exp q ≤ 1 + 2 * q := by
        have := Real.exp_bound' hq0 hq1 (n := 2) (by norm_num)
        simp [Finset.sum_range_succ] at this
        nlinarith
      have h5 : y ≤ x * (1 + 2 * q) := by
        rw [div_le_iff₀ hx0] at h3
        nlinarith
      have h6 : x * q = 4 * g * x + 4 * k := by rw [hq]; field_simp
      have h7 : g * x ≤ g := mul_le_of_le_one_right hg hx2
      nlinarith
    · have h3 : k / x ≤ 1 / 8 := by
        rw [div_le_iff₀ hx0]; linarith
      have : 1 / 2 < 4 * g := by rw [hq] at hq1; linarith
      linarith
  have hdiam : volume (V ∩ Ici (8 * k)) ≤ ENNReal.ofReal (8 * g + 8 * k) := by
    refine (Real.volume_le_diam _).trans (Metric.ediam_le fun x hx y hy => ?_)
    rw [edist_dist, Real.dist_eq]
    refine ENNReal.ofReal_le_ofReal ?_
    rcases le_total x y with h | h
    · rw [abs_sub_comm, abs_of_nonneg (by linarith)]; exact key x hx y hy h
    · rw [abs_of_nonneg (by linarith)]; exact key y hy x hx h
  calc volume V ≤ volume (Icc 0 (8 * k)) + volume (V ∩ Ici (8 * k)) := (measure_mono hsub).trans (measure_union_le _ _)
    _ ≤ ENNReal.ofReal (8 * k) + ENNReal.ofReal (8 * g + 8 * k) := by
        refine add_le_add ?_ hdiam
        rw [Real.volume_Icc, sub_zero]
    _ = ENNReal.ofReal (8 * g + 16 * k) := by
        rw [← ENNReal.ofReal_add (by positivity) (by positivity)]
        congr 1; ring

/-- The uncertainty contributed by one draw; `0` for draws below `t`. -/
def unc (t k r x : ℝ) : ℝ := if t ≤ x ∧ x ≤ 1 then k / x + r * -Real.log x else 0

theorem unc_nonneg {t k r x : ℝ} (ht : 0 < t) (hk : 0 ≤ k) (hr : 0 ≤ r) : 0 ≤ unc t k r x := by
  unfold unc
  split
  · rename_i h
    have := Real.log_nonpos (ht.le.trans h.1) h.2
    have : 0 < x := ht.trans_le h.1
    have h2 : 0 ≤ r * -Real.log x := mul_nonneg hr (by linarith)
    positivity
  · exact le_rfl

theorem measurable_unc (t k r : ℝ) : Measurable (unc t k r) := by
  unfold unc
  refine Measurable.ite (measurableSet_Icc (a := t) (b := 1)) ?_ measurable_const
  exact (measurable_const.div measurable_id).add (measurable_const.mul Real.measurable_log.neg)

theorem lintegral_unc {t k r : ℝ} (ht : 0 < t) (ht1 : t ≤ 1) (hk : 0 ≤ k) (hr : 0 ≤ r) :
    ∫⁻ x in Icc (0 : ℝ) 1, ENNReal.ofReal (unc t k r x) ≤ ENNReal.ofReal (k * -Real.log t + r) := by
  have h1 : ∫⁻ x in Icc (0 : ℝ) 1, ENNReal.ofReal (unc t k r x) ≤ ∫⁻ x in Ioc t 1, ENNReal.ofReal (k / x + r * -Real.log x) := by
    have e : ∫⁻ x in Icc (0 : ℝ) 1, ENNReal.ofReal (unc t k r x) ≤ ∫⁻ x, (Icc t 1).indicator (fun x => ENNReal.ofReal (k / x + r * -Real.log x)) x := by
      refine (setLIntegral_le_lintegral _ _).trans (lintegral_mono fun x => ?_)
      unfold unc
      by_cases h : x ∈ Icc t 1
      · rw [indicator_of_mem h, if_pos ⟨h.1, h.2⟩]
      · rw [indicator_of_notMem h, if_neg (by simpa [mem_Icc] using h)]
        simp
    refine e.trans (le_of_eq ?_)
    rw [lintegral_indicator measurableSet_Icc, restrict_Ioc_eq_restrict_Icc]
  refine h1.trans ?_
  have hi1 : IntervalIntegrable (fun x : ℝ => k / x) volume t 1 := by
    refine ContinuousOn.intervalIntegrable (ContinuousOn.div continuousOn_const continuousOn_id fun x hx => ?_)
    rw [uIcc_of_le ht1] at hx
    exact (ht.trans_le hx.1).ne'
  have hi2 : IntervalIntegrable (fun x : ℝ => r * -Real.log x) volume t 1 := (intervalIntegral.intervalIntegrable_log').neg.const_mul r
  have hint : IntegrableOn (fun x : ℝ => k / x + r * -Real.log x) (Ioc t 1) :=
    (intervalIntegrable_iff_integrableOn_Ioc_of_le ht1).mp (hi1.add hi2)
  rw [← ofReal_integral_eq_lintegral_ofReal hint]
  · refine ENNReal.ofReal_le_ofReal ?_
    rw [← intervalIntegral.integral_of_le ht1, intervalIntegral.integral_add hi1 hi2, intervalIntegral.integral_const_mul,
      intervalIntegral.integral_neg, integral_log]
    have e1 : ∫ x in t..1, k / x = k * -Real.log t := by
      simp only [div_eq_mul_inv]
      rw [intervalIntegral.integral_const_mul, integral_inv_of_pos ht one_pos, one_div, Real.log_inv]
    rw [e1, Real.log_one]
    have hl := Real.log_nonpos ht.le ht1
    have : r * -(1 * 0 - t * Real.log t - 1 + t) ≤ r * 1 := by
      refine mul_le_mul_of_nonneg_left ?_ hr
      nlinarith
    linarith
  · rw [Filter.EventuallyLE, ae_restrict_iff' measurableSet_Ioc]
    refine Filter.Eventually.of_forall fun x hx => ?_
    have hx0 := ht.trans hx.1
    have hl := Real.log_nonpos hx0.le hx.2
    have : 0 ≤ r * -Real.log x := mul_nonneg hr (by linarith)
    show 0 ≤ k / x + r * -Real.log x
    positivity

instance : IsProbabilityMeasure ((volume : Measure ℝ).restrict (Icc 0 1)) := ⟨by simp⟩

/-- Vectors of draws, none below `t`, with `|sum_j c_j (-log v_j) + s|` at most the sum of the uncertainties plus `g`. -/
def nearSet (t k r : ℝ) {m : ℕ} (c : Fin m → ℝ) (s g : ℝ) : Set (Fin m → ℝ) :=
  {v | (∀ j, t ≤ v j ∧ v j ≤ 1) ∧ |∑ j, c j * -Real.log (v j) + s| ≤ ∑ j, (k / v j + r * -Real.log (v j)) + g}

theorem measurable_nearSet (t k r : ℝ) {m : ℕ} (c : Fin m → ℝ) (s g : ℝ) : MeasurableSet (nearSet t k r c s g) := by
  have hl : ∀ j : Fin m, Measurable fun v : Fin m → ℝ => -Real.log (v j) := fun j => (Real.measurable_log.comp (measurable_pi_apply j)).neg
  have e : nearSet t k r c s g = (⋂ j, {v | t ≤ v j ∧ v j ≤ 1}) ∩
      {v | |∑ j, c j * -Real.log (v j) + s| ≤ ∑ j, (k / v j + r * -Real.log (v j)) + g} := by
    ext v; simp [nearSet]
  rw [e]
  refine (MeasurableSet.iInter fun j => ?_).inter ?_
  · exact measurableSet_preimage (measurable_pi_apply (X := fun _ : Fin m => ℝ) j) (measurableSet_Icc (a := t) (b := 1))
  · refine measurableSet_le (continuous_abs.measurable.comp ?_) ?_
    · exact (Finset.measurable_sum _ fun j _ => measurable_const.mul (hl j)).add_const _
    · exact (Finset.measurable_sum _ fun j _ => (measurable_const.div (measurable_pi_apply j)).add (measurable_const.mul (hl j))).add_const _

/-- Some coefficient is at least 1/2: the probability of `nearSet`. -/
theorem nearSet_prob {t k r : ℝ} (ht : 0 < t) (ht1 : t ≤ 1) (hk : 0 ≤ k) (hr : 0 ≤ r) {n : ℕ} (c : Fin (n + 1) → ℝ) (p : Fin (n + 1))
    (hp : 1 / 2 ≤ |c p|) (s : ℝ) {g : ℝ} (hg : 0 ≤ g) :
    iidUniform (n + 1) (nearSet t k r c s g) ≤
      ENNReal.ofReal (8 * (n * (k * -Real.log t + r)) + 8 * (r * -Real.log t) + 16 * k + 8 * g) := by
  have hlt := Real.log_nonpos ht.le ht1
  have hrl : 0 ≤ r * -Real.log t := mul_nonneg hr (by linarith)
  have hkl : 0 ≤ k * -Real.log t := mul_nonneg hk (by linarith)
  set ν : Measure ℝ := (volume : Measure ℝ).restrict (Icc 0 1) with hν
  have hmp := measurePreserving_piFinSuccAbove (fun _ : Fin (n + 1) => ν) p
  have hpre : iidUniform (n + 1) (nearSet t k r c s g) =
      (ν.prod (Measure.pi fun _ : Fin n => ν)) ((MeasurableEquiv.piFinSuccAbove (fun _ => ℝ) p).symm ⁻¹' nearSet t k r c s g) := by
    have h := hmp.symm
    exact (h.measure_preimage (measurable_nearSet t k r c s g).nullMeasurableSet).symm
  have hmeas : MeasurableSet ((MeasurableEquiv.piFinSuccAbove (fun _ : Fin (n + 1) => ℝ) p).symm ⁻¹' nearSet t k r c s g) :=
    (MeasurableEquiv.measurable _) (measurable_nearSet t k r c s g)
  rw [hpre, Measure.prod_apply_symm hmeas]
  have hslice : ∀ y : Fin n → ℝ,
      ν ((fun x => (x, y)) ⁻¹' ((MeasurableEquiv.piFinSuccAbove (fun _ : Fin (n + 1) => ℝ) p).symm ⁻¹' nearSet t k r c s g)) ≤
        ∑ j, ENNReal.ofReal 8 * ENNReal.ofReal (unc t k r (y j)) + ENNReal.ofReal (8 * (r * -Real.log t) + 16 * k + 8 * g) := by
    intro y
    set w := ∑ j, unc t k r (y j) with hw
    have hw0 : 0 ≤ w := Finset.sum_nonneg fun j _ => unc_nonneg ht hk hr
    have hsub : ((fun x => (x, y)) ⁻¹' ((MeasurableEquiv.piFinSuccAbove (fun _ : Fin (n + 1) => ℝ) p).symm ⁻¹' nearSet t k r c s g)) ⊆
        {x : ℝ | t ≤ x ∧ x ≤ 1 ∧ |c p * -Real.log x + (∑ j, c (p.succAbove j) * -Real.log (y j) + s)| ≤ (w + r * -Real.log t + g) + k / x} := by
      intro x hx
      have hx' : (p.insertNth x y : Fin (n + 1) → ℝ) ∈ nearSet t k r c s g := hx
      obtain ⟨h1, h2⟩ := hx'
      rw [Fin.sum_univ_succAbove _ p, Fin.sum_univ_succAbove _ p] at h2
      simp only [Fin.insertNth_apply_same, Fin.insertNth_apply_succAbove] at h2
      have hp1 := h1 p
      rw [Fin.insertNth_apply_same] at hp1
      have hy : ∀ j, t ≤ y j ∧ y j ≤ 1 := fun j => by
        have := h1 (p.succAbove j)
        rwa [Fin.insertNth_apply_succAbove] at this
      rw [add_assoc] at h2
      refine ⟨hp1.1, hp1.2, h2.trans ?_⟩
      have e : ∑ j, (k / y j + r * -Real.log (y j)) = w := by
        rw [hw]
        refine Finset.sum_congr rfl fun j _ => ?_
        unfold unc
        rw [if_pos (hy j)]
      have hlx : -Real.log x ≤ -Real.log t := neg_le_neg (Real.log_le_log ht hp1.1)
      have := mul_le_mul_of_nonneg_left hlx hr
      rw [e]
      linarith
    calc ν _ ≤ volume _ := Measure.restrict_apply_le _ _
      _ ≤ volume {x : ℝ | t ≤ x ∧ x ≤ 1 ∧ |c p * -Real.log x + (∑ j, c (p.succAbove j) * -Real.log (y j) + s)| ≤ (w + r * -Real.log t + g) + k / x} :=
          measure_mono hsub
      _ ≤ ENNReal.ofReal (8 * (w + r * -Real.log t + g) + 16 * k) := volume_near hp (by linarith) hk ht
      _ = _ := by
          rw [show 8 * (w + r * -Real.log t + g) + 16 * k = 8 * w + (8 * (r * -Real.log t) + 16 * k + 8 * g) by ring,
            ENNReal.ofReal_add (by positivity) (by positivity), hw, Finset.mul_sum, ENNReal.ofReal_sum_of_nonneg
              (fun j _ => mul_nonneg (by norm_num) (unc_nonneg ht hk hr))]
          congr 1
          refine Finset.sum_congr rfl fun j _ => ?_
          rw [ENNReal.ofReal_mul (by norm_num)]
  have hu : ∀ j : Fin n, Measurable fun y : Fin n → ℝ => ENNReal.ofReal 8 * ENNReal.ofReal (unc t k r (y j)) := fun j =>
    measurable_const.mul (((measurable_unc t k r).comp (measurable_pi_apply j)).ennreal_ofReal)
  calc _ ≤ ∫⁻ y, (∑ j, ENNReal.ofReal 8 * ENNReal.ofReal (unc t k r (y j)) + ENNReal.ofReal (8 * (r * -Real.log t) + 16 * k + 8 * g))
          ∂(Measure.pi fun _ : Fin n => ν) := lintegral_mono hslice
    _ = ∑ j : Fin n, ENNReal.ofReal 8 * (∫⁻ x, ENNReal.ofReal (unc t k r x) ∂ν) + ENNReal.ofReal (8 * (r * -Real.log t) + 16 * k + 8 * g) := by
        rw [lintegral_add_right _ measurable_const, lintegral_const, measure_univ, mul_one, lintegral_finset_sum _ fun j _ => hu j]
        congr 1
        refine Finset.sum_congr rfl fun j _ => ?_
        have hm1 : Measurable fun y : Fin n → ℝ => ENNReal.ofReal (unc t k r (y j)) :=
          ((measurable_unc t k r).comp (measurable_pi_apply j)).ennreal_ofReal
        rw [lintegral_const_mul _ hm1]
        congr 1
        have hme := measurePreserving_eval (fun _ : Fin n => ν) j
        exact hme.lintegral_comp ((measurable_unc t k r).ennreal_ofReal)
    _ ≤ ∑ j : Fin n, ENNReal.ofReal 8 * ENNReal.ofReal (k * -Real.log t + r) + ENNReal.ofReal (8 * (r * -Real.log t) + 16 * k + 8 * g) := by
        gcongr
        exact lintegral_unc ht ht1 hk hr
    _ = _ := by
        rw [Finset.sum_const, Finset.card_univ, Fintype.card_fin, nsmul_eq_mul, ← ENNReal.ofReal_mul (by norm_num),
          ← ENNReal.ofReal_natCast, ← ENNReal.ofReal_mul (by positivity), ← ENNReal.ofReal_add (by positivity) (by positivity)]
        congr 1
        ring

end
end CP.Spec
