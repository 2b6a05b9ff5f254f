import Verif.Proofs.Events
import Mathlib.MeasureTheory.Function.JacobianOneDim
import Mathlib.MeasureTheory.Measure.Lebesgue.EqHaar
import Mathlib.LinearAlgebra.Matrix.Block
import Mathlib.Analysis.SpecialFunctions.Log.Basic
import Mathlib.Analysis.SpecialFunctions.ExpDeriv
/-! Partial sums of independent exponential random numbers. -/
open MeasureTheory Set ENNReal
namespace CP.Spec

/-- Density of the exponential distribution. -/
noncomputable def expDens (x : ℝ) : ℝ≥0∞ := (Ioi (0 : ℝ)).indicator (fun x => ENNReal.ofReal (Real.exp (-x))) x

theorem measurable_expDens : Measurable expDens := by
  unfold expDens
  exact Measurable.indicator (by fun_prop) measurableSet_Ioi

theorem expDens_image : (fun x : ℝ => Real.exp (-x)) '' Ioi 0 = Ioo 0 1 := by
  ext y
  constructor
  · rintro ⟨x, hx, rfl⟩
    exact ⟨Real.exp_pos _, by rw [Real.exp_lt_one_iff]; simpa using hx⟩
  · rintro ⟨h0, h1⟩
    exact ⟨-Real.log y, by simpa using Real.log_neg h0 h1, by simp [Real.exp_log h0]⟩

/-- `exp(-E)` is uniform if `E` is exponential. -/
theorem unif_eq_map : unif = (volume.withDensity expDens).map fun x => Real.exp (-x) := by
  ext s hs
  have hm : Measurable fun x : ℝ => Real.exp (-x) := by fun_prop
  rw [Measure.map_apply hm hs, withDensity_apply _ (hm hs)]
  have h1 : unif s = ∫⁻ y in Ioo (0 : ℝ) 1, s.indicator 1 y := by
    rw [unif, Measure.restrict_congr_set Ioo_ae_eq_Icc.symm, lintegral_indicator_one hs]
  rw [h1, ← expDens_image, lintegral_image_eq_lintegral_abs_deriv_mul measurableSet_Ioi
    (f' := fun x => -Real.exp (-x))]
  · rw [← lintegral_indicator measurableSet_Ioi, ← lintegral_indicator (hm hs)]
    congr 1
    funext x
    unfold expDens
    by_cases hx : x ∈ Ioi (0 : ℝ) <;> by_cases hxs : Real.exp (-x) ∈ s
    · have : x ∈ (fun x : ℝ => Real.exp (-x)) ⁻¹' s := hxs
      rw [indicator_of_mem hx, indicator_of_mem this, indicator_of_mem hx, indicator_of_mem hxs, abs_neg,
        abs_of_pos (Real.exp_pos _)]
      simp
    · have : x ∉ (fun x : ℝ => Real.exp (-x)) ⁻¹' s := hxs
      rw [indicator_of_mem hx, indicator_of_notMem this, indicator_of_notMem hxs]
      simp
    · rw [indicator_of_notMem hx]
      have : x ∈ (fun x : ℝ => Real.exp (-x)) ⁻¹' s := hxs
      rw [indicator_of_mem this, indicator_of_notMem hx]
    · have : x ∉ (fun x : ℝ => Real.exp (-x)) ⁻¹' s := hxs
      rw [indicator_of_notMem hx, indicator_of_notMem this]
  · intro x _
    have : HasDerivAt (fun x : ℝ => Real.exp (-x)) (Real.exp (-x) * (-1)) x := HasDerivAt.exp (hasDerivAt_neg x)
    simpa using this.hasDerivWithinAt
  · intro x _ y _ h
    simpa using h

instance : IsProbabilityMeasure (volume.withDensity expDens) := by
  have hm : Measurable fun x : ℝ => Real.exp (-x) := by fun_prop
  constructor
  have : ((volume.withDensity expDens).map fun x => Real.exp (-x)) univ = 1 := by
    rw [← unif_eq_map]; exact measure_univ
  rwa [Measure.map_apply hm MeasurableSet.univ] at this

theorem lintegral_fin_prod {n : ℕ} (f : Fin n → ℝ → ℝ≥0∞) (hf : ∀ i, Measurable (f i)) :
    ∫⁻ x : Fin n → ℝ, ∏ i, f i (x i) = ∏ i, ∫⁻ x, f i x := by
  induction n with
  | zero => simp [volume_pi]
  | succ n ih =>
    have hmp := (volume_preserving_piFinSuccAbove (fun _ : Fin (n + 1) => ℝ) 0).symm
    rw [← hmp.lintegral_comp_emb (MeasurableEquiv.measurableEmbedding _)]
    have : ∀ a : ℝ × (Fin n → ℝ), ∏ i, f i (((MeasurableEquiv.piFinSuccAbove (fun _ : Fin (n + 1) => ℝ) 0).symm a) i) =
        f 0 a.1 * ∏ i : Fin n, f i.succ (a.2 i) := by
      intro a
      rw [Fin.prod_univ_succ]
      rfl
    simp_rw [this]
    rw [Measure.volume_eq_prod, lintegral_prod_mul (f := f 0) (g := fun y : Fin n → ℝ => ∏ i : Fin n, f i.succ (y i))
      (hf 0).aemeasurable, ih _ (fun i => hf _), Fin.prod_univ_succ]
    exact (Finset.measurable_prod _ fun i _ => (hf _).comp (measurable_pi_apply i)).aemeasurable

theorem pi_expDens (n : ℕ) : Measure.pi (fun _ : Fin n => volume.withDensity expDens) =
    (volume : Measure (Fin n → ℝ)).withDensity fun x => ∏ i, expDens (x i) := by
  refine Measure.pi_eq fun s hs => ?_
  rw [withDensity_apply _ (MeasurableSet.univ_pi hs), ← lintegral_indicator (MeasurableSet.univ_pi hs)]
  have : ∀ x : Fin n → ℝ, (univ.pi s).indicator (fun x => ∏ i, expDens (x i)) x = ∏ i, (s i).indicator expDens (x i) := by
    intro x
    by_cases hx : x ∈ univ.pi s
    · rw [indicator_of_mem hx]
      exact Finset.prod_congr rfl fun i _ => (indicator_of_mem (hx i (mem_univ i)) _).symm
    · rw [indicator_of_notMem hx]
      rw [mem_univ_pi] at hx
      push Not at hx
      obtain ⟨i, hi⟩ := hx
      exact (Finset.prod_eq_zero (Finset.mem_univ i) (indicator_of_notMem hi _)).symm
  simp_rw [this]
  rw [lintegral_fin_prod _ fun i => measurable_expDens.indicator (hs i)]
  refine Finset.prod_congr rfl fun i _ => ?_
  rw [withDensity_apply _ (hs i), lintegral_indicator (hs i)]

theorem iid_eq_map (n : ℕ) : iidUniform n =
    ((volume : Measure (Fin n → ℝ)).withDensity fun x => ∏ i, expDens (x i)).map fun x i => Real.exp (- x i) := by
  rw [← pi_expDens, Measure.pi_map_pi (fun i => (by fun_prop : Measurable fun x : ℝ => Real.exp (-x)).aemeasurable)]
  · unfold iidUniform
    congr 1
    funext i
    exact unif_eq_map

/-- Partial sums `s_i = e_0 + ... + e_i`. -/
noncomputable def psum {n : ℕ} (e : Fin n → ℝ) (i : Fin n) : ℝ := ∑ j, if j ≤ i then e j else 0

/-- The matrix of `psum`. -/
def psumMat (n : ℕ) : Matrix (Fin n) (Fin n) ℝ := fun i j => if j ≤ i then 1 else 0

theorem psum_eq_mat {n : ℕ} (e : Fin n → ℝ) : psum e = Matrix.toLin' (psumMat n) e := by
  funext i
  rw [Matrix.toLin'_apply]
  unfold psum psumMat Matrix.mulVec dotProduct
  refine Finset.sum_congr rfl fun j _ => ?_
  dsimp only
  by_cases h : j ≤ i
  · rw [if_pos h, if_pos h, one_mul]
  · rw [if_neg h, if_neg h, zero_mul]

theorem psumMat_det (n : ℕ) : (psumMat n).det = 1 := by
  rw [Matrix.det_of_isLowerTriangular]
  · simp [psumMat]
  · intro i j hij
    have : ¬ (j ≤ i) := not_le.mpr hij
    simp [psumMat, this]

theorem psum_preserving (n : ℕ) : MeasurePreserving (psum (n := n)) volume volume := by
  have h : (psum (n := n)) = fun e => Matrix.toLin' (psumMat n) e := by funext e; exact psum_eq_mat e
  rw [h]
  refine ⟨(LinearMap.continuous_of_finiteDimensional _).measurable, ?_⟩
  have := Real.map_matrix_volume_pi_eq_smul_volume_pi (M := psumMat n) (by rw [psumMat_det]; norm_num)
  rw [psumMat_det] at this
  rw [inv_one, abs_one, ENNReal.ofReal_one, one_smul] at this
  exact this

/-- Increasing sequences of positive numbers. -/
def Arrivals (n : ℕ) : Set (Fin n → ℝ) := {s | (∀ i, 0 < s i) ∧ StrictMono s}

theorem psum_last {n : ℕ} (e : Fin (n + 1) → ℝ) : psum e (Fin.last n) = ∑ i, e i := by
  unfold psum
  exact Finset.sum_congr rfl fun j _ => if_pos (Fin.le_last j)

theorem psum_succ {n : ℕ} (e : Fin (n + 1) → ℝ) (i : Fin n) : psum e i.succ = psum e i.castSucc + e i.succ := by
  unfold psum
  have : ∀ j : Fin (n + 1), (if j ≤ i.succ then e j else 0) = (if j ≤ i.castSucc then e j else 0) + if j = i.succ then e j else 0 := by
    intro j
    by_cases h1 : j = i.succ
    · subst h1
      simp [Fin.le_def]
    · by_cases h2 : j ≤ i.castSucc
      · have : j ≤ i.succ := h2.trans (by simp [Fin.le_def])
        simp [h1, h2, this]
      · have : ¬ j ≤ i.succ := by
          simp only [Fin.le_def, Fin.ext_iff, Fin.val_succ, Fin.val_castSucc] at h1 h2 ⊢
          omega
        simp [h1, h2, this]
  simp_rw [this]
  rw [Finset.sum_add_distrib, Finset.sum_ite_eq' Finset.univ i.succ]
  simp

theorem psum_zero {n : ℕ} (e : Fin (n + 1) → ℝ) : psum e 0 = e 0 := by
  unfold psum
  have : ∀ j : Fin (n + 1), (if j ≤ 0 then e j else 0) = if j = 0 then e j else 0 := by
    intro j; simp
  simp_rw [this]
  simp

theorem psum_mem {n : ℕ} (e : Fin (n + 1) → ℝ) : psum e ∈ Arrivals (n + 1) ↔ ∀ i, 0 < e i := by
  constructor
  · rintro ⟨h0, h⟩ i
    refine Fin.cases ?_ (fun i => ?_) i
    · rw [← psum_zero e]; exact h0 0
    · have := h (Fin.castSucc_lt_succ (i := i))
      rw [psum_succ] at this
      linarith
  · intro h
    have hm : StrictMono (psum e) := by
      rw [Fin.strictMono_iff_lt_succ]
      intro i
      rw [psum_succ]
      linarith [h i.succ]
    refine ⟨fun i => ?_, hm⟩
    have : psum e 0 ≤ psum e i := hm.monotone (Fin.zero_le i)
    rw [psum_zero] at this
    linarith [h 0]

theorem measurableSet_Arrivals (n : ℕ) : MeasurableSet (Arrivals n) := by
  have : Arrivals n = (⋂ i, {s : Fin n → ℝ | 0 < s i}) ∩ ⋂ i, ⋂ j, {s : Fin n → ℝ | i < j → s i < s j} := by
    ext s
    simp only [Arrivals, StrictMono, Set.mem_ofPred_eq, mem_inter_iff, mem_iInter]
  rw [this]
  refine MeasurableSet.inter (MeasurableSet.iInter fun i => measurableSet_lt measurable_const (measurable_pi_apply i)) ?_
  refine MeasurableSet.iInter fun i => MeasurableSet.iInter fun j => ?_
  by_cases h : i < j
  · simpa [h] using measurableSet_lt (measurable_pi_apply i) (measurable_pi_apply j)
  · simp [h]

/-- The joint density of the first `n+1` arrivals of a Poisson process of rate 1 is `exp(-s_n)` on increasing positive
sequences. -/
theorem lintegral_arrivals (n : ℕ) (h : (Fin (n + 1) → ℝ) → ℝ≥0∞) (hh : Measurable h) :
    ∫⁻ v, h (psum fun i => -Real.log (v i)) ∂(iidUniform (n + 1)) =
      ∫⁻ s in Arrivals (n + 1), ENNReal.ofReal (Real.exp (- s (Fin.last n))) * h s := by
  have hps : Measurable (psum (n := n + 1)) := (psum_preserving (n + 1)).measurable
  have hlog : Measurable fun (v : Fin (n + 1) → ℝ) => psum fun i => -Real.log (v i) :=
    hps.comp (by fun_prop)
  set f : (Fin (n + 1) → ℝ) → ℝ≥0∞ := fun v => h (psum fun i => -Real.log (v i)) with hf
  have hfm : Measurable f := hh.comp hlog
  set T : (Fin (n + 1) → ℝ) → Fin (n + 1) → ℝ := fun x i => Real.exp (- x i) with hT
  have hTm : Measurable T := by rw [hT]; fun_prop
  have hd : Measurable fun x : Fin (n + 1) → ℝ => ∏ i, expDens (x i) :=
    Finset.measurable_prod _ fun i _ => measurable_expDens.comp (measurable_pi_apply i)
  have hG : Measurable ((Arrivals (n + 1)).indicator fun s => ENNReal.ofReal (Real.exp (- s (Fin.last n))) * h s) :=
    Measurable.indicator (by fun_prop) (measurableSet_Arrivals _)
  rw [iid_eq_map, lintegral_map hfm hTm, lintegral_withDensity_eq_lintegral_mul (g := fun a => f (T a)) _ hd (hfm.comp hTm),
    ← lintegral_indicator (measurableSet_Arrivals _), ← (psum_preserving (n + 1)).lintegral_comp hG]
  · congr 1
    funext e
    simp only [Pi.mul_apply, Real.log_exp, neg_neg, hf, hT]
    by_cases he : ∀ i, 0 < e i
    · rw [indicator_of_mem ((psum_mem e).mpr he)]
      congr 1
      have : ∀ i, expDens (e i) = ENNReal.ofReal (Real.exp (- e i)) := fun i => indicator_of_mem (he i) _
      simp_rw [this]
      rw [← ENNReal.ofReal_prod_of_nonneg fun i _ => (Real.exp_pos _).le, ← Real.exp_sum, psum_last,
        Finset.sum_neg_distrib]
    · rw [indicator_of_notMem fun h => he ((psum_mem e).mp h)]
      push Not at he
      obtain ⟨i, hi⟩ := he
      have h0 : expDens (e i) = 0 := indicator_of_notMem (by simpa using hi) _
      rw [Finset.prod_eq_zero (Finset.mem_univ i) h0, zero_mul]

end CP.Spec
