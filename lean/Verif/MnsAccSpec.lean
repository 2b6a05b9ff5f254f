import Verif.RoundSpec
import Verif.Model.Mns2016
import Mathlib.Algebra.BigOperators.Fin
import Mathlib.Data.Real.Basic
/-
What is assumed of floating-point arithmetic in the theorems about the rounding errors of `ecdf1_mns2016`, and the condition
number in which they are stated.
-/
open Finset
namespace CP.Spec
noncomputable section
open FOps

variable {F : Type} [FOps F]

/-- Every operation `ecdf1_mns2016` uses returns a finite number with relative error at most `u` whenever its exact result is
a real number (the exponent range is large enough: no overflow or underflow); negation, scaling by powers of two and
conversion of integers are exact; `frexp` returns the binary exponent. -/
structure RelOps (R : FloatModel F) (u : ℝ) : Prop where
  u_nonneg : 0 ≤ u
  add : ∀ x y : F, R.finite x → R.finite y →
    R.finite (x +ᶠ y) ∧ |R.val (x +ᶠ y) - (R.val x + R.val y)| ≤ u * |R.val x + R.val y|
  sub : ∀ x y : F, R.finite x → R.finite y →
    R.finite (x -ᶠ y) ∧ |R.val (x -ᶠ y) - (R.val x - R.val y)| ≤ u * |R.val x - R.val y|
  mul : ∀ x y : F, R.finite x → R.finite y →
    R.finite (x *ᶠ y) ∧ |R.val (x *ᶠ y) - R.val x * R.val y| ≤ u * |R.val x * R.val y|
  div : ∀ x y : F, R.finite x → R.finite y → R.val y ≠ 0 →
    R.finite (x /ᶠ y) ∧ |R.val (x /ᶠ y) - R.val x / R.val y| ≤ u * |R.val x / R.val y|
  neg : ∀ x : F, R.finite x → R.finite (neg x) ∧ R.val (neg x) = - R.val x
  ofInt : ∀ k : ℤ, R.finite (ofInt k) ∧ R.val (ofInt k) = k
  powi : ∀ (x : F) (k : ℕ), R.finite x →
    R.finite (powi x (k : ℤ)) ∧ |R.val (powi x (k : ℤ)) - R.val x ^ k| ≤ u * |R.val x ^ k|
  ldexp : ∀ (x : F) (e : ℤ), R.finite x → R.finite (ldexp x e) ∧ R.val (ldexp x e) = R.val x * (2 : ℝ) ^ e
  frexp : ∀ x : F, R.finite x → R.val x ≠ 0 →
    (2 : ℝ) ^ (frexpExp x - 1) ≤ |R.val x| ∧ |R.val x| < (2 : ℝ) ^ frexpExp x
  log : ∀ x : F, R.finite x → 0 < R.val x →
    R.finite (log x) ∧ |R.val (log x) - Real.log (R.val x)| ≤ u * |Real.log (R.val x)|
  lgamma : ∀ k : ℕ, R.finite (lgamma (FOps.ofInt ((k : ℤ) + 1))) ∧
    |R.val (lgamma (FOps.ofInt ((k : ℤ) + 1))) - Real.log k.factorial| ≤ u * |Real.log k.factorial|
  exp : ∀ x : F, R.finite x → R.finite (exp x) ∧ |R.val (exp x) - Real.exp (R.val x)| ≤ u * |Real.exp (R.val x)|

/-- Magnitudes of the integration constants: `a_0 = 1` and `a_{d+1} = sum_{k<=d} a_k (b_d - b_k)^(d+1-k) / (d+1-k)!`.  (The
integration constants themselves satisfy the same recursion with a minus sign in front of the sum.) -/
def absCoef (bv : ℕ → ℝ) : ℕ → ℝ
  | 0 => 1
  | d + 1 => ∑ k : Fin (d + 1), absCoef bv k * (bv d - bv k) ^ (d + 1 - (k : ℕ)) / ((d + 1 - (k : ℕ)).factorial : ℝ)

/-- `b` as a function on all natural numbers (0-based), 1 beyond the end. -/
def padOne {n : ℕ} (b : Fin n → ℝ) (k : ℕ) : ℝ := if h : k < n then b ⟨k, h⟩ else 1

/-- Condition number of the algorithm: `n!` times the sum of the absolute values of the terms whose (alternating) sum is the
non-crossing probability divided by `n!`. -/
def mnsCond {n : ℕ} (b : Fin n → ℝ) : ℝ :=
  (n.factorial : ℝ) * ∑ k ∈ range (n + 1), absCoef (padOne b) k * (1 - padOne b k) ^ (n - k) / ((n - k).factorial : ℝ)

end
end CP.Spec
