import Verif.Proofs.MnsNan
/-
Property C58, second part: without a bound on the condition number the function can return NaN for a valid boundary.
-/
open MeasureTheory Set
namespace CP.Props
open CP.Spec FOps

theorem mnsExample_valid : ValidBound (![1 / 4, 1 / 2] : Fin 2 → ℝ) := by
  constructor
  · intro i j hij; fin_cases i <;> fin_cases j <;> simp at hij ⊢ <;> norm_num
  · intro i; fin_cases i <;> norm_num

theorem mnsExample_prob : lowerProb (![1 / 4, 1 / 2] : Fin 2 → ℝ) = 1 / 2 := by
  rw [← exact_final mnsExample_valid]
  simp [Finset.sum_range_succ, exMu, exAl, sgnCoef_succ, sgnCoef_zero, extB, Nat.factorial]
  norm_num

/-- The hypotheses of `C58_long_double_30` are met by two points with boundary (1/4, 1/2), whose probability is 1/2. -/
example (env : Env (Fp 64)) : ∃ x : ℝ, ecdf1Mns2016b env (List.ofFn (fpVec (![1 / 4, 1 / 2] : Fin 2 → ℝ))) = .ok (some x : Fp 64) ∧
    |x - 1 / 2| ≤ 1 / 10 ^ 9 := by
  have h := C58_long_double_30 env (by norm_num) mnsExample_valid (by rw [mnsExample_prob]; norm_num)
  rwa [mnsExample_prob] at h

/-- C58, negative part: for every environment there is a valid boundary of four points (0 and three times the double
`1 - 29/2^28`), of positive probability, for which `ecdf1_mns2016_b` in x87 `long double` precision returns NaN: rounding makes
the final integral negative and its logarithm is taken.  So a condition such as the one of `C58_binary_floating_point` is needed. -/
theorem C58_nan_for_valid_boundary (env : Env (Fp 64)) : ∃ b : Fin 4 → ℝ, ValidBound b ∧ (∀ i, ∃ k : ℤ, b i = k / 2 ^ 28) ∧
    0 < lowerProb b ∧ ecdf1Mns2016b env (List.ofFn (fpVec b)) = .ok (none : Fp 64) := by
  refine ⟨nanB, nanB_valid, ?_, nanB_prob_pos, nan_run env⟩
  intro i
  fin_cases i
  · exact ⟨0, by norm_num [nanB]⟩
  all_goals exact ⟨268435427, by norm_num [nanB]⟩

end CP.Props
