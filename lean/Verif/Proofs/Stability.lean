import Verif.Proofs.Reflect
import Mathlib.MeasureTheory.Measure.Real
/-! The exact probability depends continuously on the boundaries. -/
open MeasureTheory Set
namespace CP.Spec
variable {n : ℕ}

instance : IsProbabilityMeasure ((volume : Measure ℝ).restrict (Icc 0 1)) := ⟨by simp⟩
instance : IsProbabilityMeasure (iidUniform n) := by unfold iidUniform; infer_instance

/-- One sample point falls between `a` and `c` with probability at most `|a - c|`. -/
theorem coord_between (j : Fin n) (a c : ℝ) : (iidUniform n).real {x | x j ∈ uIcc a c} ≤ |a - c| := by
  have h1 : (iidUniform n) {x | x j ∈ uIcc a c} = ((volume : Measure ℝ).restrict (Icc 0 1)) (uIcc a c) := by
    have hp := measurePreserving_eval (fun _ : Fin n => (volume : Measure ℝ).restrict (Icc 0 1)) j
    exact hp.measure_preimage measurableSet_uIcc.nullMeasurableSet
  have h2 : (iidUniform n) {x | x j ∈ uIcc a c} ≤ ENNReal.ofReal |a - c| := by
    rw [h1]
    refine (Measure.restrict_apply_le _ _).trans ?_
    rw [Real.volume_interval, abs_sub_comm]
  rw [measureReal_def]
  exact ENNReal.toReal_le_of_le_ofReal (abs_nonneg _) h2

/-- Some sample point falls between `a` and `c` with probability at most `n |a - c|`. -/
theorem some_between (a c : ℝ) : (iidUniform n).real {x | ∃ j, x j ∈ uIcc a c} ≤ n * |a - c| := by
  have e : {x : Fin n → ℝ | ∃ j, x j ∈ uIcc a c} = ⋃ j ∈ (Finset.univ : Finset (Fin n)), {x | x j ∈ uIcc a c} := by
    ext x; simp
  rw [e]
  refine (measureReal_biUnion_finset_le _ _).trans ?_
  refine (Finset.sum_le_sum fun j _ => coord_between j a c).trans ?_
  simp

/-- Some sample point falls between two corresponding boundary points. -/
def crossed (c c' : Fin n → ℝ) : Set (Fin n → ℝ) := {x | ∃ i j, x j ∈ uIcc (c i) (c' i)}

theorem crossed_prob (c c' : Fin n → ℝ) : (iidUniform n).real (crossed c c') ≤ n * ∑ i, |c i - c' i| := by
  have e : crossed c c' = ⋃ i ∈ (Finset.univ : Finset (Fin n)), {x | ∃ j, x j ∈ uIcc (c i) (c' i)} := by
    ext x; simp [crossed]
  rw [e]
  refine (measureReal_biUnion_finset_le _ _).trans ?_
  rw [Finset.mul_sum]
  exact Finset.sum_le_sum fun i _ => some_between _ _

theorem crossed_comm (c c' : Fin n → ℝ) : crossed c c' = crossed c' c := by
  unfold crossed; simp only [uIcc_comm]

theorem noncross_sub (b B b' B' : Fin n → ℝ) :
    noncrossProb b B ≤ noncrossProb b' B' + n * ∑ i, (|b i - b' i| + |B i - B' i|) := by
  have hsub : {x : Fin n → ℝ | ∀ i, b i ≤ orderStat x i ∧ orderStat x i ≤ B i}
      ⊆ {x | ∀ i, b' i ≤ orderStat x i ∧ orderStat x i ≤ B' i} ∪ (crossed b b' ∪ crossed B B') := by
    intro x hx
    by_contra h
    rw [mem_union, mem_union, not_or, not_or] at h
    obtain ⟨h1, h2, h3⟩ := h
    apply h1
    intro i
    constructor
    · by_contra h4
      exact h2 ⟨i, Tuple.sort x i, Icc_subset_uIcc ⟨(hx i).1, (not_le.mp h4).le⟩⟩
    · by_contra h4
      exact h3 ⟨i, Tuple.sort x i, Icc_subset_uIcc' ⟨(not_le.mp h4).le, (hx i).2⟩⟩
  unfold noncrossProb
  refine (measureReal_mono hsub).trans ?_
  refine (measureReal_union_le _ _).trans ?_
  refine add_le_add_right ?_ _
  refine (measureReal_union_le _ _).trans ?_
  rw [Finset.sum_add_distrib, mul_add]
  exact add_le_add (crossed_prob _ _) (crossed_prob _ _)

/-- The two-sided probability changes by at most `n` times the total change of the boundaries. -/
theorem noncross_lipschitz (b B b' B' : Fin n → ℝ) :
    |noncrossProb b B - noncrossProb b' B'| ≤ n * ∑ i, (|b i - b' i| + |B i - B' i|) := by
  have h1 := noncross_sub b B b' B'
  have h2 := noncross_sub b' B' b B
  have e : ∑ i, (|b' i - b i| + |B' i - B i|) = ∑ i, (|b i - b' i| + |B i - B' i|) :=
    Finset.sum_congr rfl fun i _ => by rw [abs_sub_comm (b' i), abs_sub_comm (B' i)]
  rw [e] at h2
  rw [abs_le]
  constructor <;> linarith

theorem upper_lipschitz (B B' : Fin n → ℝ) : |upperProb B - upperProb B'| ≤ n * ∑ i, |B i - B' i| := by
  rw [← noncrossProb_zeros (b := fun _ => 0) (fun _ => le_rfl), ← noncrossProb_zeros (b := fun _ => 0) (B := B') (fun _ => le_rfl)]
  refine (noncross_lipschitz _ _ _ _).trans (le_of_eq ?_)
  simp

theorem lower_lipschitz (b b' : Fin n → ℝ) : |lowerProb b - lowerProb b'| ≤ n * ∑ i, |b i - b' i| := by
  rw [← noncrossProb_ones (B := fun _ => 1) (fun _ => le_rfl), ← noncrossProb_ones (b := b') (B := fun _ => 1) (fun _ => le_rfl)]
  refine (noncross_lipschitz _ _ _ _).trans (le_of_eq ?_)
  simp

end CP.Spec
