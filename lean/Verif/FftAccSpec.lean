import Verif.RoundSpec
import Verif.FftSpec
import Mathlib.Analysis.Normed.Lp.PiLp
/-
What is assumed of signed floating-point arithmetic and of the accuracy of FFTW in the theorems about the rounding errors of
the FFT variants.
-/
open Finset
namespace CP.Spec
noncomputable section
open FOps

/-- Sum of the absolute values of the first `m` terms. -/
def l1 (m : ℕ) (f : ℕ → ℝ) : ℝ := ∑ i ∈ range m, |f i|

/-- Euclidean norm of the first `m` terms. -/
def l2 {E : Type} [SeminormedAddCommGroup E] (m : ℕ) (f : ℕ → E) : ℝ := √(∑ i ∈ range m, ‖f i‖ ^ 2)

variable {F : Type} [FOps F]

/-- Signed operations have relative error at most `u` and, for products and quotients, an absolute underflow error `eta`,
as long as the exact result does not exceed the overflow threshold; `1.0/N` has no underflow error for `N` up to `Nmax`. -/
structure SignedOps (R : FloatModel F) (u : ℝ) (Nmax : ℕ) : Prop where
  u_nonneg : 0 ≤ u
  u_le : u ≤ 1 / 8
  add : ∀ x y : F, R.finite x → R.finite y → |R.val x + R.val y| ≤ R.Omega →
    R.finite (x +ᶠ y) ∧ |R.val (x +ᶠ y) - (R.val x + R.val y)| ≤ u * |R.val x + R.val y|
  sub : ∀ x y : F, R.finite x → R.finite y → |R.val x - R.val y| ≤ R.Omega →
    R.finite (x -ᶠ y) ∧ |R.val (x -ᶠ y) - (R.val x - R.val y)| ≤ u * |R.val x - R.val y|
  mul : ∀ x y : F, R.finite x → R.finite y → |R.val x * R.val y| ≤ R.Omega →
    R.finite (x *ᶠ y) ∧ |R.val (x *ᶠ y) - R.val x * R.val y| ≤ u * |R.val x * R.val y| + R.eta
  div : ∀ x y : F, R.finite x → R.finite y → R.val y ≠ 0 → |R.val x / R.val y| ≤ R.Omega →
    R.finite (x /ᶠ y) ∧ |R.val (x /ᶠ y) - R.val x / R.val y| ≤ u * |R.val x / R.val y| + R.eta
  inv : ∀ N : ℕ, 1 ≤ N → N ≤ Nmax → R.finite (one /ᶠ ofInt (N : ℤ) : F) ∧
    |R.val (one /ᶠ ofInt (N : ℤ) : F) - 1 / N| ≤ u * (1 / N)

/-- Both parts of a complex number are finite. -/
def FloatModel.finiteC (R : FloatModel F) (z : F × F) : Prop := R.finite z.1 ∧ R.finite z.2
/-- The value of a complex floating-point number. -/
def FloatModel.valC (R : FloatModel F) (z : F × F) : ℂ := ⟨R.val z.1, R.val z.2⟩

/-- Accuracy of the FFT library for transform lengths up to `Nmax`: in Euclidean norm, the computed half spectrum is within
`delta * sqrt(N) * |x|` (plus an absolute underflow error `etaF`) of the discrete Fourier transform of `x`, and the computed
inverse transform within `delta * sqrt(N) * |Y|` of the exact one; there is no overflow for inputs of norm at most `W`. -/
structure FFTAccurate (R : FloatModel F) (fft : FFTW F) (Nmax : ℕ) (delta etaF W : ℝ) : Prop where
  delta_nonneg : 0 ≤ delta
  etaF_nonneg : 0 ≤ etaF
  r2c : ∀ N : ℕ, N ≤ Nmax → ∀ x : ℕ → F, (∀ j < N, R.finite (x j)) → l1 N (fun j => R.val (x j)) ≤ W →
    (∀ k ≤ N / 2, R.finiteC (fft.r2c N ((List.range N).map x) k)) ∧
    l2 (N / 2 + 1) (fun k => R.valC (fft.r2c N ((List.range N).map x) k) - dft N (fun j => (R.val (x j) : ℂ)) k)
      ≤ delta * √N * l2 N (fun j => R.val (x j)) + etaF
  c2r : ∀ N : ℕ, N ≤ Nmax → ∀ Y : ℕ → F × F, (∀ k ≤ N / 2, R.finiteC (Y k)) →
    l2 N (hermitian N fun k => R.valC (Y k)) ≤ W →
    (∀ j < N, R.finite (fft.c2r N ((List.range (N / 2 + 1)).map Y) j)) ∧
    l2 N (fun j => R.val (fft.c2r N ((List.range (N / 2 + 1)).map Y) j) - backward N (fun k => R.valC (Y k)) j)
      ≤ delta * √N * l2 N (hermitian N fun k => R.valC (Y k)) + etaF

/-- The subtraction `1 - x` is monotone on [0,1] and exact at 0 (true of any correctly rounded subtraction). -/
structure MonotoneReflect (R : FloatModel F) : Prop where
  anti : ∀ x y : F, R.finite x → R.finite y → 0 ≤ R.val x → R.val x ≤ R.val y → R.val y ≤ 1 →
    R.val (one -ᶠ y) ≤ R.val (one -ᶠ x)
  zero : R.val (one -ᶠ zero) = 1

end
end CP.Spec
