import Verif.McGridSpec
import Verif.Proofs.GridMcLaw
import Verif.Props.McLaw
/-! Independent 52-bit draws have the law of independent uniform numbers cut off after 52 bits. -/
open MeasureTheory Set ProbabilityTheory
namespace CP.Spec
open Props
noncomputable section

/-- Two probability measures on the natural numbers that are uniform on `0, ..., m-1` are equal. -/
theorem uniform_unique {ν ν' : Measure ℕ} [IsProbabilityMeasure ν] [IsProbabilityMeasure ν'] {m : ℕ} {c : ℝ} (hm : (m : ℝ) * c = 1)
    (h : ∀ k, k < m → ν.real {k} = c) (h' : ∀ k, k < m → ν'.real {k} = c) : ν = ν' := by
  have hz : ∀ ν : Measure ℕ, IsProbabilityMeasure ν → (∀ k, k < m → ν.real {k} = c) → ∀ k, m ≤ k → ν.real {k} = 0 := by
    intro ν hν h k hk
    have h1 : ν.real ((Finset.range m : Finset ℕ) : Set ℕ) = 1 := by
      rw [← sum_measureReal_singleton, Finset.sum_congr rfl fun k hk => h k (Finset.mem_range.mp hk)]
      simpa using hm
    have h2 := probReal_compl_eq_one_sub (μ := ν) (s := ((Finset.range m : Finset ℕ) : Set ℕ)) (Finset.measurableSet _)
    rw [h1, sub_self] at h2
    refine le_antisymm ((measureReal_mono ?_).trans h2.le) measureReal_nonneg
    intro x hx
    rw [mem_singleton_iff] at hx
    subst hx
    simp only [mem_compl_iff, Finset.coe_range, mem_Iio, not_lt]
    exact hk
  refine Measure.ext_of_singleton fun k => ?_
  have e : ν.real {k} = ν'.real {k} := by
    by_cases hk : k < m
    · rw [h k hk, h' k hk]
    · rw [hz ν inferInstance h k (not_lt.mp hk), hz ν' inferInstance h' k (not_lt.mp hk)]
  rw [measureReal_def, measureReal_def, ENNReal.toReal_eq_toReal_iff' (measure_ne_top _ _) (measure_ne_top _ _)] at e
  exact e

/-- The first 52 binary digits of a number. -/
def digits52 (x : ℝ) : ℕ := ⌊(2 : ℝ) ^ 52 * x⌋₊

theorem measurable_digits52 : Measurable digits52 := (measurable_const.mul measurable_id).nat_floor

theorem digits52_law {k : ℕ} (hk : k < 2 ^ 52) : ((volume : Measure ℝ).restrict (Icc 0 1)).real {x | digits52 x = k} = 1 / 2 ^ 52 := by
  have hm : MeasurableSet {x | digits52 x = k} := measurable_digits52 (measurableSet_singleton k)
  have hk1 : ((k : ℝ) + 1) / 2 ^ 52 ≤ 1 := by
    rw [div_le_one (by positivity)]
    exact_mod_cast hk
  have e : {x | digits52 x = k} ∩ Icc (0 : ℝ) 1 = Ico ((k : ℝ) / 2 ^ 52) (((k : ℝ) + 1) / 2 ^ 52) := by
    ext x
    simp only [mem_inter_iff, Set.mem_ofPred_eq, mem_Icc, mem_Ico]
    have hx : ∀ x : ℝ, 0 ≤ x → (digits52 x = k ↔ (k : ℝ) / 2 ^ 52 ≤ x ∧ x < ((k : ℝ) + 1) / 2 ^ 52) := by
      intro x h0
      unfold digits52
      rw [Nat.floor_eq_iff (by positivity), div_le_iff₀ (by positivity), lt_div_iff₀ (by positivity), mul_comm x]
    constructor
    · rintro ⟨h, h0, -⟩
      exact (hx x h0).mp h
    · intro h
      have h0 : 0 ≤ x := le_trans (by positivity) h.1
      exact ⟨(hx x h0).mpr h, h0, h.2.le.trans hk1⟩
  rw [measureReal_def, Measure.restrict_apply hm, e, Real.volume_Ico, ENNReal.toReal_ofReal]
  · ring
  · rw [← sub_div]
    simp

variable {Ω : Type*} [MeasurableSpace Ω] {μ : Measure Ω} [IsProbabilityMeasure μ] {K : ℕ → Ω → ℕ}

/-- The law of a draw. -/
theorem grid_law (hK : IidGrid K μ) (j : ℕ) : μ.map (K j) = ((volume : Measure ℝ).restrict (Icc 0 1)).map digits52 := by
  haveI : IsProbabilityMeasure (μ.map (K j)) := Measure.isProbabilityMeasure_map (hK.meas j).aemeasurable
  haveI : IsProbabilityMeasure (((volume : Measure ℝ).restrict (Icc 0 1)).map digits52) :=
    Measure.isProbabilityMeasure_map measurable_digits52.aemeasurable
  refine uniform_unique (m := 2 ^ 52) (c := 1 / 2 ^ 52) (by norm_num) (fun k hk => ?_) fun k hk => ?_
  · rw [map_measureReal_apply (hK.meas j) (measurableSet_singleton k)]
    exact hK.law j k hk
  · rw [map_measureReal_apply measurable_digits52 (measurableSet_singleton k)]
    exact digits52_law hk

/-- Events that depend on finitely many draws have the same probability. -/
theorem grid_transfer (hK : IidGrid K μ) {M : ℕ} {S : Set (ℕ → ℕ)} (hS : ∀ k k' : ℕ → ℕ, (∀ j, j < M → k j = k' j) → (k ∈ S ↔ k' ∈ S)) :
    μ.real {ω | (fun j => K j ω) ∈ S} = streamLaw.real {x | (fun j => digits52 (x j)) ∈ S} := by
  set S' : Set (Fin M → ℕ) := {w | (fun j => if h : j < M then w ⟨j, h⟩ else 0) ∈ S} with hS'
  have hS'm : MeasurableSet S' := (Set.to_countable _).measurableSet
  have e : ∀ k : ℕ → ℕ, k ∈ S ↔ (fun j : Fin M => k j) ∈ S' := by
    intro k
    rw [hS', Set.mem_ofPred_eq]
    exact hS _ _ fun j hj => by simp [hj]
  have hmK : Measurable fun ω (j : Fin M) => K j ω := measurable_pi_iff.mpr fun j => hK.meas _
  have hmX : Measurable fun (x : ℕ → ℝ) (j : Fin M) => digits52 (x j) :=
    measurable_pi_iff.mpr fun j => measurable_digits52.comp (measurable_pi_apply _)
  have l1 : μ.map (fun ω (j : Fin M) => K j ω) = Measure.pi fun _ : Fin M => ((volume : Measure ℝ).restrict (Icc 0 1)).map digits52 := by
    have h := (iIndepFun_iff_map_fun_eq_pi_map fun j : Fin M => (hK.meas j).aemeasurable).mp (hK.indep.precomp Fin.val_injective)
    rw [h]
    congr 1
    funext j
    exact grid_law hK j
  have l2 : streamLaw.map (fun x (j : Fin M) => digits52 (x j)) = Measure.pi fun _ : Fin M => ((volume : Measure ℝ).restrict (Icc 0 1)).map digits52 := by
    have hi : iIndepFun (fun j (x : ℕ → ℝ) => digits52 (x j)) streamLaw := streamLaw_iid.indep.comp (fun _ => digits52) fun _ => measurable_digits52
    have h := (iIndepFun_iff_map_fun_eq_pi_map fun j : Fin M => (measurable_digits52.comp (measurable_pi_apply (X := fun _ : ℕ => ℝ) (j : ℕ))).aemeasurable
      (μ := streamLaw)).mp (hi.precomp Fin.val_injective)
    refine h.trans ?_
    congr 1
    funext j
    rw [← streamLaw_iid.law j, Measure.map_map measurable_digits52 (streamLaw_iid.meas j)]
  have r1 : {ω | (fun j => K j ω) ∈ S} = (fun ω (j : Fin M) => K j ω) ⁻¹' S' := by
    ext ω; exact e _
  have r2 : {x : ℕ → ℝ | (fun j => digits52 (x j)) ∈ S} = (fun x (j : Fin M) => digits52 (x j)) ⁻¹' S' := by
    ext x; exact e _
  rw [r1, r2, ← map_measureReal_apply hmK hS'm, ← map_measureReal_apply hmX hS'm, l1, l2]

end
end CP.Spec
