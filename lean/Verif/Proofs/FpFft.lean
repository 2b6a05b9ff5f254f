import Verif.Proofs.FpModel
import Verif.Proofs.Norms
/-! `p`-bit floating point satisfies `SignedOps`, and an FFT library returning correctly rounded transforms satisfies
`FFTAccurate`. -/
open Finset
namespace CP.Spec
open FOps
noncomputable section
variable {p : ℕ}

theorem l2_dft {N : ℕ} (hN : N ≠ 0) (x : ℕ → ℝ) : l2 N (dft N fun j => (x j : ℂ)) = √N * l2 N x := by
  have h := parseval hN fun j => (x j : ℂ)
  have e : ∀ k ∈ range N, ‖dft N (fun j => (x j : ℂ)) k‖ ^ 2
      = ‖∑ j ∈ range N, (x j : ℂ) * (Complex.exp (2 * Real.pi * Complex.I / N)) ^ ((k : ℤ) * j)‖ ^ 2 := by
    intro k _
    congr 1
    rw [← Complex.norm_conj, dft_zpow, map_sum]
    congr 1
    refine Finset.sum_congr rfl fun j _ => ?_
    rw [map_mul, map_zpow₀, conj_w, Complex.conj_ofReal, inv_zpow', neg_neg, mul_comm (j : ℤ)]
  unfold l2
  rw [Finset.sum_congr rfl e, h, Real.sqrt_mul (Nat.cast_nonneg _)]
  congr 2
  refine Finset.sum_congr rfl fun j _ => ?_
  rw [Complex.norm_real]

theorem fpSigned (p : ℕ) (hp : 3 ≤ p) (Omega : ℝ) (Nmax : ℕ) :
    SignedOps (fpModel p (by omega) Omega) ((2 : ℝ) ^ (-(p : ℤ))) Nmax where
  u_nonneg := by positivity
  u_le := by
    have := two_neg_le hp
    norm_num at this
    simpa using this
  add := by
    rintro x y ⟨a, rfl⟩ ⟨b, rfl⟩ -; exact ⟨⟨_, rfl⟩, roundTo_err p _⟩
  sub := by
    rintro x y ⟨a, rfl⟩ ⟨b, rfl⟩ -; exact ⟨⟨_, rfl⟩, roundTo_err p _⟩
  mul := by
    rintro x y ⟨a, rfl⟩ ⟨b, rfl⟩ -
    exact ⟨⟨_, rfl⟩, (roundTo_err p _).trans (le_add_of_nonneg_right le_rfl)⟩
  div := by
    rintro x y ⟨a, rfl⟩ ⟨b, rfl⟩ h -
    have h' : b ≠ 0 := h
    rw [Fp.div_some h']
    exact ⟨⟨_, rfl⟩, (roundTo_err p _).trans (le_add_of_nonneg_right le_rfl)⟩
  inv := by
    intro N h1 _
    have hN : (((N : ℕ) : ℤ) : ℝ) ≠ 0 := by
      rw [Int.cast_natCast]; exact_mod_cast (by omega : N ≠ 0)
    have hd : (one /ᶠ ofInt (N : ℤ) : Fp p) = (some (roundTo p (((1 : ℤ) : ℝ) / (((N : ℕ) : ℤ) : ℝ))) : Option ℝ) :=
      Fp.div_some hN
    refine ⟨⟨_, hd⟩, ?_⟩
    have h := roundTo_err p (((1 : ℤ) : ℝ) / (((N : ℕ) : ℤ) : ℝ))
    rw [Int.cast_one, Int.cast_natCast] at h
    have e : |(1 : ℝ) / N| = 1 / N := abs_of_nonneg (by positivity)
    rw [e] at h
    have : (fpModel p (by omega) Omega).val (one /ᶠ ofInt (N : ℤ) : Fp p) = roundTo p (((1 : ℤ) : ℝ) / (((N : ℕ) : ℤ) : ℝ)) := by
      rw [hd]; rfl
    rw [this, Int.cast_one, Int.cast_natCast]
    exact h

/-- Not a number. -/
def Fp.nan : Fp p := none

/-- A complex number with rounded parts. -/
def roundC (p : ℕ) (z : ℂ) : Fp p × Fp p := (some (roundTo p z.re), some (roundTo p z.im))

/-- An FFT library whose results are the exact transforms rounded to `p` bits. -/
def roundedFFTW (p : ℕ) : FFTW (Fp p) where
  r2c N xs k := roundC p (dft N (fun j => (Fp.val (xs.getD j Fp.nan) : ℂ)) k)
  r2cClobber _ _ _ := Fp.nan
  c2r N Ys j := some (roundTo p (backward N (fun k =>
    ⟨Fp.val (Ys.getD k (Fp.nan, Fp.nan)).1, Fp.val (Ys.getD k (Fp.nan, Fp.nan)).2⟩) j))
  c2rClobber _ _ _ := (Fp.nan, Fp.nan)

theorem roundC_err (p : ℕ) (z : ℂ) :
    ‖(⟨roundTo p z.re, roundTo p z.im⟩ : ℂ) - z‖ ≤ (2 : ℝ) ^ (-(p : ℤ)) * ‖z‖ := by
  have h1 := roundTo_err p z.re
  have h2 := roundTo_err p z.im
  have u0 : (0 : ℝ) ≤ (2 : ℝ) ^ (-(p : ℤ)) := by positivity
  refine abs_le_of_sq_le_sq' ?_ (by positivity) |>.2
  rw [mul_pow, Complex.sq_norm, Complex.sq_norm, Complex.normSq_apply, Complex.normSq_apply, Complex.sub_re, Complex.sub_im]
  show (roundTo p z.re - z.re) * (roundTo p z.re - z.re) + (roundTo p z.im - z.im) * (roundTo p z.im - z.im) ≤ _
  have a1 := pow_le_pow_left₀ (abs_nonneg _) h1 2
  have a2 := pow_le_pow_left₀ (abs_nonneg _) h2 2
  rw [sq_abs, mul_pow, sq_abs] at a1 a2
  have e1 : (roundTo p z.re - z.re) * (roundTo p z.re - z.re) = (roundTo p z.re - z.re) ^ 2 := by ring
  have e2 : (roundTo p z.im - z.im) * (roundTo p z.im - z.im) = (roundTo p z.im - z.im) ^ 2 := by ring
  have e3 : ((2 : ℝ) ^ (-(p : ℤ))) ^ 2 * (z.re * z.re + z.im * z.im)
      = ((2 : ℝ) ^ (-(p : ℤ))) ^ 2 * z.re ^ 2 + ((2 : ℝ) ^ (-(p : ℤ))) ^ 2 * z.im ^ 2 := by ring
  rw [e1, e2, e3]
  exact add_le_add a1 a2

theorem roundedFFTW_accurate (p : ℕ) (hp : 1 ≤ p) (Omega : ℝ) (Nmax : ℕ) (W : ℝ) :
    FFTAccurate (fpModel p hp Omega) (roundedFFTW p) Nmax ((2 : ℝ) ^ (-(p : ℤ))) 0 W where
  delta_nonneg := by positivity
  etaF_nonneg := le_rfl
  r2c := by
    intro N _ x hx _
    have u0 : (0 : ℝ) ≤ (2 : ℝ) ^ (-(p : ℤ)) := by positivity
    set X : ℕ → ℝ := fun j => (fpModel p hp Omega).val (x j) with hX
    have hd : ∀ k, dft N (fun j => (Fp.val (((List.range N).map x).getD j Fp.nan) : ℂ)) k = dft N (fun j => (X j : ℂ)) k := by
      intro k
      unfold dft
      refine Finset.sum_congr rfl fun j hj => ?_
      have : j < N := Finset.mem_range.mp hj
      have e : ((List.range N).map x).getD j Fp.nan = x j := by simp [List.getD, this]
      beta_reduce
      rw [e]
      rfl
    have hv : ∀ k, (fpModel p hp Omega).valC ((roundedFFTW p).r2c N ((List.range N).map x) k)
        = ⟨roundTo p (dft N (fun j => (X j : ℂ)) k).re, roundTo p (dft N (fun j => (X j : ℂ)) k).im⟩ := by
      intro k
      rw [← hd k]
      rfl
    refine ⟨fun k _ => ⟨⟨_, rfl⟩, ⟨_, rfl⟩⟩, ?_⟩
    have h1 : l2 (N / 2 + 1) (fun k => (fpModel p hp Omega).valC ((roundedFFTW p).r2c N ((List.range N).map x) k)
          - dft N (fun j => (X j : ℂ)) k)
        ≤ l2 (N / 2 + 1) fun k => (2 : ℝ) ^ (-(p : ℤ)) * ‖dft N (fun j => (X j : ℂ)) k‖ := by
      refine l2_mono fun k _ => ?_
      rw [hv k, Real.norm_of_nonneg (by positivity)]
      exact roundC_err p _
    rw [l2_smul _ u0] at h1
    have h2 : l2 (N / 2 + 1) (fun k => ‖dft N (fun j => (X j : ℂ)) k‖) ≤ √N * l2 N X := by
      rcases Nat.eq_zero_or_pos N with rfl | hN
      · have : l2 (0 / 2 + 1) (fun k => ‖dft 0 (fun j => (X j : ℂ)) k‖) = 0 := by
          simp [l2, dft]
        rw [this]; simp
      · rw [l2_norm, ← l2_dft (by omega)]
        exact l2_len (by omega) _
    refine h1.trans ?_
    rw [add_zero, mul_assoc]
    exact mul_le_mul_of_nonneg_left h2 u0
  c2r := by
    intro N _ Y hY _
    have u0 : (0 : ℝ) ≤ (2 : ℝ) ^ (-(p : ℤ)) := by positivity
    set V : ℕ → ℂ := fun k => (fpModel p hp Omega).valC (Y k) with hV
    have hb : ∀ j, backward N (fun k => ⟨Fp.val (((List.range (N / 2 + 1)).map Y).getD k (Fp.nan, Fp.nan)).1,
        Fp.val (((List.range (N / 2 + 1)).map Y).getD k (Fp.nan, Fp.nan)).2⟩) j = backward N V j := by
      intro j
      unfold backward
      congr 1
      refine Finset.sum_congr rfl fun k hk => ?_
      have : k < N := Finset.mem_range.mp hk
      congr 1
      unfold hermitian
      split
      · have h : k < N / 2 + 1 := by omega
        have e : ((List.range (N / 2 + 1)).map Y).getD k (Fp.nan, Fp.nan) = Y k := by simp [List.getD, h]
        beta_reduce
        rw [e]; rfl
      · have h : N - k < N / 2 + 1 := by omega
        have e : ((List.range (N / 2 + 1)).map Y).getD (N - k) (Fp.nan, Fp.nan) = Y (N - k) := by simp [List.getD, h]
        beta_reduce
        rw [e]; rfl
    have hv : ∀ j, (fpModel p hp Omega).val ((roundedFFTW p).c2r N ((List.range (N / 2 + 1)).map Y) j)
        = roundTo p (backward N V j) := by
      intro j
      rw [← hb j]
      rfl
    refine ⟨fun k _ => ⟨_, rfl⟩, ?_⟩
    have h1 : l2 N (fun j => (fpModel p hp Omega).val ((roundedFFTW p).c2r N ((List.range (N / 2 + 1)).map Y) j) - backward N V j)
        ≤ l2 N fun j => (2 : ℝ) ^ (-(p : ℤ)) * ‖backward N V j‖ := by
      refine l2_mono fun j _ => ?_
      rw [hv j, norm_mul, norm_norm, Real.norm_of_nonneg u0, Real.norm_eq_abs, Real.norm_eq_abs]
      exact roundTo_err p _
    rw [l2_smul _ u0, l2_norm] at h1
    refine h1.trans ?_
    rw [add_zero, mul_assoc]
    refine mul_le_mul_of_nonneg_left ?_ u0
    rcases Nat.eq_zero_or_pos N with rfl | hN
    · simp [l2]
    · exact l2_backward (by omega) _

end
end CP.Spec
