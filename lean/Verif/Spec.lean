import Mathlib.MeasureTheory.Constructions.Pi
import Mathlib.MeasureTheory.Measure.Lebesgue.Basic
import Mathlib.Data.Fin.Tuple.Sort
/-
The specification: what the library claims to compute, stated with Mathlib's measure theory only.
Nothing in this file refers to the model of the code.
-/
open MeasureTheory Set

namespace CP.Spec

/-- Law of `n` independent random numbers, each uniform on `[0,1]`. -/
noncomputable def iidUniform (n : ℕ) : Measure (Fin n → ℝ) :=
  Measure.pi fun _ => (volume : Measure ℝ).restrict (Icc 0 1)

/-- `X_(0) ≤ X_(1) ≤ ... ≤ X_(n-1)`: the sample `x` sorted in non-decreasing order. -/
noncomputable def orderStat {n : ℕ} (x : Fin n → ℝ) : Fin n → ℝ := x ∘ Tuple.sort x

/-- `Pr[for all i: b_i ≤ X_(i) ≤ B_i]`. -/
noncomputable def noncrossProb {n : ℕ} (b B : Fin n → ℝ) : ℝ :=
  (iidUniform n).real {x | ∀ i, b i ≤ orderStat x i ∧ orderStat x i ≤ B i}

/-- `Pr[for all i: b_i ≤ X_(i)]`. -/
noncomputable def lowerProb {n : ℕ} (b : Fin n → ℝ) : ℝ :=
  (iidUniform n).real {x | ∀ i, b i ≤ orderStat x i}

/-- `Pr[for all i: X_(i) ≤ B_i]`. -/
noncomputable def upperProb {n : ℕ} (B : Fin n → ℝ) : ℝ :=
  (iidUniform n).real {x | ∀ i, orderStat x i ≤ B i}

/-- A valid boundary: non-decreasing with values in `[0,1]`. -/
structure ValidBound {n : ℕ} (b : Fin n → ℝ) : Prop where
  mono : Monotone b
  range : ∀ i, b i ∈ Icc (0 : ℝ) 1

end CP.Spec
