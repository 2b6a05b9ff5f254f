import Mathlib.Probability.Distributions.Exponential
import Mathlib.Probability.Independence.Basic
/-
Specification for C84: a homogeneous Poisson process given by its independent exponential waiting times, and the integer
crossing points of two boundary functions.  Nothing in this file refers to the model of the code.
-/
open MeasureTheory Set ProbabilityTheory

namespace CP.Spec

/-- Waiting times of a homogeneous Poisson process with intensity `lam`: independent, exponentially distributed. -/
structure PoissonGaps {Ω : Type*} [MeasurableSpace Ω] (E : ℕ → Ω → ℝ) (lam : ℝ) (μ : Measure Ω) : Prop where
  meas : ∀ j, Measurable (E j)
  indep : iIndepFun E μ
  law : ∀ j, μ.map (E j) = expMeasure lam

/-- The `k`-th point of the process (from 1), the sum of the first `k` waiting times. -/
noncomputable def pointAt (e : ℕ → ℝ) (k : ℕ) : ℝ := ∑ j ∈ Finset.range k, e j

/-- The process: the number of points up to time `t`. -/
noncomputable def poissonPath (e : ℕ → ℝ) (t : ℝ) : ℕ := ({k | pointAt e (k + 1) ≤ t} : Set ℕ).ncard

/-- First line of the boundary file for the upper boundary function `h`: `inf {t in [0,1] : h(t) >= i}` for `i = 1, ..., floor h(1)`. -/
noncomputable def upCrossings (h : ℝ → ℝ) : List ℝ := List.ofFn fun i : Fin ⌊h 1⌋₊ => sInf {t | t ∈ Icc (0:ℝ) 1 ∧ ((i : ℕ) + 1 : ℝ) ≤ h t}

/-- Second line for the lower boundary function `g`: `sup {t in [0,1] : g(t) <= i-1}` (0 if there is none) for
`i = 1, ..., ceil g(1)`. -/
noncomputable def downCrossings (g : ℝ → ℝ) : List ℝ :=
  List.ofFn fun i : Fin ⌈g 1⌉₊ => sSup ({t | t ∈ Icc (0:ℝ) 1 ∧ g t ≤ ((i : ℕ) : ℝ)} ∪ {0})

end CP.Spec
