import Verif.Spec
import Mathlib.Probability.Independence.Basic
/-
Specification of ideal simulations: what "independent uniform draws" means, and the probabilities that the two
simulations are supposed to estimate.  Nothing here refers to the model of the code.
-/
open MeasureTheory Set ProbabilityTheory
namespace CP.Spec

/-- `U 0, U 1, ...` are independent and uniform on `[0,1]`. -/
structure IidDraws {Ω : Type*} [MeasurableSpace Ω] (U : ℕ → Ω → ℝ) (μ : Measure Ω) : Prop where
  meas : ∀ j, Measurable (U j)
  indep : iIndepFun U μ
  law : ∀ j, μ.map (U j) = (volume : Measure ℝ).restrict (Icc 0 1)

/-- The points `x 0, x 1, ...` satisfy `b_i <= x_i` and `x_i <= B_i` wherever `b_i`, `B_i` are given. -/
def StaysInside (b B : List ℝ) {n : ℕ} (x : Fin n → ℝ) : Prop :=
  (∀ (i : Fin n) (y : ℝ), b[(i : ℕ)]? = some y → y ≤ x i) ∧ ∀ (i : Fin n) (y : ℝ), B[(i : ℕ)]? = some y → x i ≤ y

/-- Probability that the order statistics of `n` uniform numbers stay inside. -/
noncomputable def insideProb (n : ℕ) (b B : List ℝ) : ℝ := (iidUniform n).real {x | StaysInside b B (orderStat x)}

/-- Probability that a homogeneous Poisson process of intensity `lam` on `[0,1]` stays inside: the number `k` of
its points has the Poisson distribution, must lie between `|B|` and `|b|`, and given `k`, the points are distributed
like `k` sorted uniform numbers. -/
noncomputable def poissonInsideProb (lam : ℝ) (b B : List ℝ) : ℝ :=
  ∑ k ∈ Finset.Icc B.length b.length, Real.exp (-lam) * lam ^ k / (k.factorial : ℝ) * insideProb k b B

end CP.Spec
