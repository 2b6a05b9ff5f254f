import Verif.Ieee
/-
Accuracy of the C library function `pow` with an integer exponent, in a floating-point system, and the 80-bit extended format of
x86 (`long double`).
-/
namespace CP.Spec
noncomputable section

/-- The format of `long double` on x86: 64 significant bits, smallest positive number `2^-16445`, overflow from `2^16384` on. -/
def x87Extended : Format := ⟨64, -16445, 16384⟩

/-- Accuracy of `pow(x, k)` for `0 <= k <= N`: where the exact power is not close to overflow, the result is a finite number whose
error is at most that of `q` successive roundings: relative error `(1+u)^q - 1`, plus `q` times the smallest positive number for
underflow. -/
def PowAccurate (A : FloatSystem) (u : ℝ) (q N : ℕ) : Prop :=
  ∀ x h (k : ℕ), k ≤ N → |x ^ k| ≤ (2 : ℝ) ^ (A.f.emax - 1) → ∃ v h', A.libm.powi (Fl.fin x h) (k : ℤ) = Fl.fin v h' ∧
    |v - x ^ k| ≤ ((1 + u) ^ q - 1) * |x ^ k| + q * (2 : ℝ) ^ A.f.emin

end
end CP.Spec
