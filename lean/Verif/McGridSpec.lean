import Mathlib.Probability.Independence.Basic
/-
Specification of an ideal generator with 52 random bits per draw.  Nothing here refers to the model of the code.
-/
open MeasureTheory ProbabilityTheory
namespace CP.Spec

/-- `K 0, K 1, ...` are independent and uniformly distributed on `0, 1, ..., 2^52 - 1`. -/
structure IidGrid {Ω : Type*} [MeasurableSpace Ω] (K : ℕ → Ω → ℕ) (μ : Measure Ω) : Prop where
  meas : ∀ j, Measurable (K j)
  indep : iIndepFun K μ
  law : ∀ j k, k < 2 ^ 52 → μ.real {ω | K j ω = k} = 1 / 2 ^ 52

end CP.Spec
