import Verif.Spec
import Mathlib.Probability.CDF
/-
Specification for C81: empirical distribution functions, samples from an arbitrary law on the line, and
the Kolmogorov-Smirnov statistics.  Nothing in this file refers to the model of the code.
-/
open MeasureTheory Set

namespace CP.Spec

/-- Law of `n` independent observations, each with law `ρ`. -/
noncomputable def iid (ρ : Measure ℝ) (n : ℕ) : Measure (Fin n → ℝ) := Measure.pi fun _ => ρ

/-- Empirical distribution function of the sample `x`: the fraction of the observations that are `≤ t`. -/
noncomputable def ecdf {n : ℕ} (x : Fin n → ℝ) (t : ℝ) : ℝ := ({i | x i ≤ t} : Set (Fin n)).ncard / (n : ℝ)

/-- Two-sided Kolmogorov-Smirnov statistic `sup_t |F_n(t) - G(t)|`. -/
noncomputable def ksStat {n : ℕ} (G : ℝ → ℝ) (x : Fin n → ℝ) : ℝ := ⨆ t, |ecdf x t - G t|

/-- One-sided Kolmogorov-Smirnov statistic `sup_t (F_n(t) - G(t))`. -/
noncomputable def ksPlus {n : ℕ} (G : ℝ → ℝ) (x : Fin n → ℝ) : ℝ := ⨆ t, (ecdf x t - G t)

/-- One-sided Kolmogorov-Smirnov statistic `sup_t (G(t) - F_n(t))`. -/
noncomputable def ksMinus {n : ℕ} (G : ℝ → ℝ) (x : Fin n → ℝ) : ℝ := ⨆ t, (G t - ecdf x t)

/-- First time the function `h` reaches the level `(i+1)/n` (1 if it never does). -/
noncomputable def firstReach (n : ℕ) (h : ℝ → ℝ) (i : Fin n) : ℝ := sInf ({t | t ∈ Icc (0:ℝ) 1 ∧ ((i : ℕ) + 1 : ℝ) / n ≤ h t} ∪ {1})

/-- Last time the function `g` is at most `i/n` (0 if it never is). -/
noncomputable def lastBelow (n : ℕ) (g : ℝ → ℝ) (i : Fin n) : ℝ := sSup ({t | t ∈ Icc (0:ℝ) 1 ∧ g t ≤ ((i : ℕ) : ℝ) / n} ∪ {0})

/-- The lower boundary for the Kolmogorov-Smirnov statistic at `d`: `max(0, i/n - d)` for `i = 1, ..., n`. -/
noncomputable def ksLower (n : ℕ) (d : ℝ) (i : Fin n) : ℝ := max 0 (((i : ℕ) + 1 : ℝ) / n - d)

/-- The upper boundary for the Kolmogorov-Smirnov statistic at `d`: `min(1, (i-1)/n + d)` for `i = 1, ..., n`. -/
noncomputable def ksUpper (n : ℕ) (d : ℝ) (i : Fin n) : ℝ := min 1 (((i : ℕ) : ℝ) / n + d)

end CP.Spec
