import Verif.Spec
import Mathlib.Data.Finset.Lattice.Fold
import Mathlib.MeasureTheory.Integral.IntervalIntegral.Basic
/-
Specification for the exact Berk-Jones statistic computed by benchmarks/exactbj.py.  Nothing here refers to the model.
-/
open MeasureTheory Set
namespace CP.Spec

/-- Distribution function of the `i`-th order statistic (counting from 0) of `n` uniform points: `Pr[U_(i) <= x]`. -/
noncomputable def orderCdf (n : ℕ) (i : Fin n) (x : ℝ) : ℝ := (iidUniform n).real {u | orderStat u i ≤ x}

/-- The regularised incomplete beta function `I_x(a, b)` for positive integers `a`, `b`. -/
noncomputable def regIncBeta (a b : ℕ) (x : ℝ) : ℝ :=
  (∫ t in (0 : ℝ)..x, t ^ (a - 1) * (1 - t) ^ (b - 1)) / ∫ t in (0 : ℝ)..1, t ^ (a - 1) * (1 - t) ^ (b - 1)

/-- The one-sided statistic `M_n^+`: the smallest p-value `Pr[U_(i) <= x_(i)]` over the order statistics of the sample `x`. -/
noncomputable def bjStat {n : ℕ} [NeZero n] (x : Fin n → ℝ) : ℝ :=
  Finset.univ.inf' Finset.univ_nonempty fun i => orderCdf n i (orderStat x i)

end CP.Spec
