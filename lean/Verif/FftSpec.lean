import Verif.Model.XR
import Verif.Model.Basic
import Mathlib.Analysis.SpecialFunctions.Trigonometric.Basic
/-
What FFTW is documented to compute (FFTW 3 manual, "What FFTW Really Computes"), in exact
arithmetic.  This is an assumption about the library, recorded in the trusted base.
-/
open Complex Finset

namespace CP.Spec
noncomputable section

/-- Forward transform: `Y_k = Σ_{j<N} x_j exp(-2πi jk/N)`. -/
def dft (N : ℕ) (x : ℕ → ℂ) (k : ℕ) : ℂ :=
  ∑ j ∈ range N, x j * Complex.exp (-(2 * Real.pi * I) * (j * k) / N)

/-- Hermitian extension of a half spectrum `Y_0, ..., Y_{N/2}` to `N` values. -/
def hermitian (N : ℕ) (Y : ℕ → ℂ) (k : ℕ) : ℂ :=
  if k ≤ N / 2 then Y k else (starRingEnd ℂ) (Y (N - k))

/-- Backward transform of the Hermitian extension (unnormalised); the result is the real part: the
imaginary parts of `Y_0` and, for even `N`, of `Y_{N/2}`, are ignored. -/
def backward (N : ℕ) (Y : ℕ → ℂ) (j : ℕ) : ℝ :=
  (∑ k ∈ range N, hermitian N Y k * Complex.exp ((2 * Real.pi * I) * (j * k) / N)).re

/-- A finite complex number of the exact number type. -/
def finC (z : ℂ) : XR × XR := (XR.fin z.re, XR.fin z.im)

/-- The FFT library computes the documented transforms exactly, on finite inputs.  (What it leaves
in the input arrays, and what it does on infinite or NaN inputs, is unconstrained.) -/
structure ExactFFT (fft : FFTW XR) : Prop where
  r2c : ∀ (N : ℕ) (x : ℕ → ℝ) (k : ℕ), k ≤ N / 2 →
    fft.r2c N ((List.range N).map fun j => XR.fin (x j)) k = finC (dft N (fun j => (x j : ℂ)) k)
  c2r : ∀ (N : ℕ) (Y : ℕ → ℂ) (j : ℕ), j < N →
    fft.c2r N ((List.range (N / 2 + 1)).map fun k => finC (Y k)) j = XR.fin (backward N Y j)

/-- Real part of a finite value (0 otherwise); only used to show that `ExactFFT` is satisfiable. -/
def toReal : XR → ℝ
  | XR.fin a => a
  | _ => 0

/-- An FFT library satisfying `ExactFFT`. -/
def exactFFTW : FFTW XR where
  r2c N xs k := finC (dft N (fun j => (toReal (xs.getD j (XR.fin 0)) : ℂ)) k)
  r2cClobber _ _ _ := XR.nan
  c2r N Ys j := XR.fin (backward N (fun k =>
    ⟨toReal (Ys.getD k (XR.fin 0, XR.fin 0)).1, toReal (Ys.getD k (XR.fin 0, XR.fin 0)).2⟩) j)
  c2rClobber _ _ _ := (XR.nan, XR.nan)

theorem exactFFTW_exact : ExactFFT exactFFTW where
  r2c N x k _ := by
    unfold exactFFTW
    simp only
    congr 1
    unfold dft
    refine Finset.sum_congr rfl fun j hj => ?_
    have : j < N := Finset.mem_range.mp hj
    simp [List.getD, this, toReal]
  c2r N Y j _ := by
    unfold exactFFTW
    simp only
    congr 1
    unfold backward
    congr 1
    refine Finset.sum_congr rfl fun k hk => ?_
    have : k < N := Finset.mem_range.mp hk
    congr 1
    unfold hermitian
    split
    · have : k < N / 2 + 1 := by omega
      simp [List.getD, this, toReal, finC]
    · have : N - k < N / 2 + 1 := by omega
      simp [List.getD, this, toReal, finC]

end
end CP.Spec
