import Verif.Proofs.CountLaw
/-
Order-statistics events expressed with counts.
-/
open MeasureTheory Set

namespace CP.Spec
variable {n : ℕ}

theorem orderStat_monotone (x : Fin n → ℝ) : Monotone (orderStat x) := Tuple.monotone_sort x

theorem count_orderStat (t : ℝ) (x : Fin n → ℝ) : count t (orderStat x) = count t x := by
  unfold count orderStat
  rw [← Finset.card_map (Tuple.sort x).toEmbedding]
  congr 1
  ext i
  simp only [Finset.mem_map, Finset.mem_filter, Finset.mem_univ, true_and, Equiv.coe_toEmbedding,
    Function.comp]
  constructor
  · rintro ⟨j, hj, rfl⟩; exact hj
  · intro hi; exact ⟨(Tuple.sort x).symm i, by simpa using hi, by simp⟩

theorem orderStat_le_iff (x : Fin n → ℝ) (t : ℝ) (i : Fin n) : orderStat x i ≤ t ↔ (i : ℕ) < count t x := by
  rw [← count_orderStat]
  unfold count
  exact (Tuple.lt_card_le_iff_apply_le_of_monotone (j := i) (a := t) (orderStat_monotone x)).symm

theorem ae_ne (t : ℝ) : ∀ᵐ x ∂(iidUniform n), ∀ i, x i ≠ t := by
  unfold iidUniform
  refine eventually_countable_forall.mpr fun i => ?_
  have : ∀ᵐ y ∂unif, y ≠ t := by
    apply ae_restrict_of_ae
    simp [ae_iff]
  exact (Measure.tendsto_eval_ae_ae (μ := fun _ : Fin n => unif) (i := i)).eventually this

theorem ae_mem : ∀ᵐ x ∂(iidUniform n), ∀ i, x i ∈ Icc (0:ℝ) 1 := by
  unfold iidUniform
  refine eventually_countable_forall.mpr fun i => ?_
  have : ∀ᵐ y ∂unif, y ∈ Icc (0:ℝ) 1 := ae_restrict_mem measurableSet_Icc
  exact (Measure.tendsto_eval_ae_ae (μ := fun _ : Fin n => unif) (i := i)).eventually this

theorem le_orderStat_iff {x : Fin n → ℝ} {t : ℝ} (h : ∀ i, x i ≠ t) (i : Fin n) :
    t ≤ orderStat x i ↔ count t x ≤ i := by
  rw [← not_iff_not, not_le, not_le, ← orderStat_le_iff]
  constructor
  · exact le_of_lt
  · intro hle
    exact lt_of_le_of_ne hle (h _)

/-- The two-sided probability in terms of counts. -/
theorem noncrossProb_eq (b B : Fin n → ℝ) :
    noncrossProb b B = (iidUniform n).real {x | ∀ i : Fin n, count (b i) x ≤ i ∧ (i : ℕ) < count (B i) x} := by
  unfold noncrossProb
  apply measureReal_congr
  have h : ∀ᵐ x ∂(iidUniform n), ∀ j, ∀ i, x i ≠ b j := eventually_countable_forall.mpr fun j => ae_ne (b j)
  filter_upwards [h] with x hx
  apply propext
  show (∀ i, _ ∧ _) ↔ ∀ i, _ ∧ _
  refine forall_congr' fun i => ?_
  rw [le_orderStat_iff (hx i), orderStat_le_iff]

theorem lowerProb_eq (b : Fin n → ℝ) :
    lowerProb b = (iidUniform n).real {x | ∀ i : Fin n, count (b i) x ≤ i} := by
  unfold lowerProb
  apply measureReal_congr
  have h : ∀ᵐ x ∂(iidUniform n), ∀ j, ∀ i, x i ≠ b j := eventually_countable_forall.mpr fun j => ae_ne (b j)
  filter_upwards [h] with x hx
  apply propext
  show (∀ i, _) ↔ ∀ i, _
  exact forall_congr' fun i => le_orderStat_iff (hx i) i

theorem upperProb_eq (B : Fin n → ℝ) :
    upperProb B = (iidUniform n).real {x | ∀ i : Fin n, (i : ℕ) < count (B i) x} := by
  unfold upperProb
  congr 1
  ext x
  show (∀ i, _) ↔ ∀ i, _
  exact forall_congr' fun i => orderStat_le_iff x (B i) i

theorem count_le (t : ℝ) (x : Fin n → ℝ) : count t x ≤ n := by
  unfold count
  exact (Finset.card_le_univ _).trans (by simp)

theorem count_mono (x : Fin n → ℝ) {s t : ℝ} (h : s ≤ t) : count s x ≤ count t x := by
  unfold count
  exact Finset.card_le_card (Finset.monotone_filter_right _ fun i _ hi => hi.trans h)

theorem count_one {x : Fin n → ℝ} (h : ∀ i, x i ∈ Icc (0:ℝ) 1) : count 1 x = n := by
  unfold count
  rw [Finset.filter_true_of_mem (fun i _ => (h i).2)]
  simp

end CP.Spec
