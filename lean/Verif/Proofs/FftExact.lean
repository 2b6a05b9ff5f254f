import Verif.FftSpec
import Verif.Proofs.Convolve
import Mathlib.RingTheory.RootsOfUnity.Complex
/-
Exactness of the FFT branch: with an exact FFT library, the convolver computes the polynomial
product (no circular wrap-around, correct normalisation).
-/
open Complex Finset

namespace CP.Spec
noncomputable section

theorem exp_eq_zpow {N : ℕ} (m : ℤ) :
    Complex.exp ((2 * Real.pi * I) * m / N) = (Complex.exp (2 * Real.pi * I / N)) ^ m := by
  rw [← Complex.exp_int_mul]
  congr 1
  ring

theorem orth {N : ℕ} (hN : N ≠ 0) {d : ℤ} (hd : |d| < N) :
    ∑ k ∈ range N, (Complex.exp (2 * Real.pi * I / N)) ^ (d * (k : ℤ)) = if d = 0 then (N : ℂ) else 0 := by
  split
  · rename_i h; subst h; simp
  · rename_i h
    have hp := Complex.isPrimitiveRoot_exp N hN
    set w := Complex.exp (2 * Real.pi * I / N) with hw
    have hw1 : w ^ d ≠ 1 := by
      rw [Ne, hp.zpow_eq_one_iff_dvd]
      intro hdvd
      exact h (Int.eq_zero_of_abs_lt_dvd hdvd hd)
    have hs := geom_sum_mul (w ^ d) N
    have hN1 : (w ^ d) ^ N = 1 := by
      rw [← zpow_natCast, ← zpow_mul, mul_comm, zpow_mul, zpow_natCast, hp.pow_eq_one, one_zpow]
    rw [hN1, sub_self] at hs
    have := (mul_eq_zero.mp hs).resolve_right (sub_ne_zero.mpr hw1)
    rw [← this]
    refine Finset.sum_congr rfl fun k _ => ?_
    rw [zpow_mul, zpow_natCast]

theorem dft_zpow {N : ℕ} (x : ℕ → ℂ) (k : ℕ) :
    dft N x k = ∑ j ∈ range N, x j * (Complex.exp (2 * Real.pi * I / N)) ^ (-((j : ℤ) * k)) := by
  unfold dft
  refine Finset.sum_congr rfl fun j _ => ?_
  rw [← exp_eq_zpow]
  push_cast
  congr 2; ring

theorem conj_w (N : ℕ) : (starRingEnd ℂ) (Complex.exp (2 * Real.pi * I / N))
    = (Complex.exp (2 * Real.pi * I / N))⁻¹ := by
  rw [← Complex.exp_conj, ← Complex.exp_neg]
  congr 1
  have h2 : (starRingEnd ℂ) 2 = 2 := Complex.conj_ofNat 2
  simp [h2]
  ring

theorem dft_conj {N : ℕ} (hN : N ≠ 0) (x : ℕ → ℝ) {k : ℕ} (hk : k ≤ N) :
    (starRingEnd ℂ) (dft N (fun j => (x j : ℂ)) (N - k)) = dft N (fun j => (x j : ℂ)) k := by
  have hp := Complex.isPrimitiveRoot_exp N hN
  have hne : Complex.exp (2 * Real.pi * I / N) ≠ 0 := Complex.exp_ne_zero _
  rw [dft_zpow, dft_zpow, map_sum]
  refine Finset.sum_congr rfl fun j _ => ?_
  rw [map_mul, map_zpow₀, conj_w, Complex.conj_ofReal, inv_zpow', neg_neg]
  congr 1
  push_cast [Nat.cast_sub hk]
  rw [mul_sub, sub_eq_add_neg, zpow_add₀ hne, mul_comm (j : ℤ) (N : ℤ), zpow_mul,
    zpow_natCast _ N, hp.pow_eq_one, one_zpow, one_mul]

/-- The convolution theorem as used by the convolver. -/
theorem backward_mul {N size : ℕ} (hN : N ≠ 0) (hs : 2 * size ≤ N) (a b : ℕ → ℝ)
    (ha : ∀ k, size ≤ k → a k = 0) (hb : ∀ k, size ≤ k → b k = 0) {j : ℕ} (hj : j < size) :
    backward N (fun k => ((1 / N : ℝ) : ℂ) * dft N (fun j => (a j : ℂ)) k * dft N (fun j => (b j : ℂ)) k) j
      = ∑ k ∈ range (j + 1), a k * b (j - k) := by
  set w := Complex.exp (2 * Real.pi * I / N) with hw
  have hne : w ≠ 0 := Complex.exp_ne_zero _
  unfold backward
  have hh : ∀ k ∈ range N, hermitian N (fun k => ((1 / N : ℝ) : ℂ) * dft N (fun j => (a j : ℂ)) k * dft N (fun j => (b j : ℂ)) k) k
      = ((1 / N : ℝ) : ℂ) * dft N (fun j => (a j : ℂ)) k * dft N (fun j => (b j : ℂ)) k := by
    intro k hk
    have hk' : k ≤ N := (Finset.mem_range.mp hk).le
    unfold hermitian
    split
    · rfl
    · rw [map_mul, map_mul, dft_conj hN a hk', dft_conj hN b hk', Complex.conj_ofReal]
  rw [Finset.sum_congr rfl (fun k hk => by rw [hh k hk])]
  have key : (∑ k ∈ range N, ((1 / N : ℝ) : ℂ) * dft N (fun j => (a j : ℂ)) k * dft N (fun j => (b j : ℂ)) k
        * Complex.exp ((2 * Real.pi * I) * (j * k) / N))
      = ((∑ p ∈ range N, ∑ q ∈ range N, if p + q = j then a p * b q else 0 : ℝ) : ℂ) := by
    have e1 : ∀ k ∈ range N, ((1 / N : ℝ) : ℂ) * dft N (fun j => (a j : ℂ)) k * dft N (fun j => (b j : ℂ)) k
        * Complex.exp ((2 * Real.pi * I) * (j * k) / N)
        = ∑ p ∈ range N, ∑ q ∈ range N, (a p : ℂ) * b q * (((1 / N : ℝ) : ℂ) * w ^ (((j : ℤ) - (p + q)) * (k : ℤ))) := by
      intro k _
      have : Complex.exp ((2 * Real.pi * I) * (j * k) / N) = w ^ ((j : ℤ) * k) := by
        rw [← exp_eq_zpow]; push_cast; rfl
      rw [this, dft_zpow, dft_zpow, mul_assoc (((1 / N : ℝ) : ℂ)), Finset.sum_mul_sum, Finset.mul_sum, Finset.sum_mul]
      refine Finset.sum_congr rfl fun p _ => ?_
      rw [Finset.mul_sum, Finset.sum_mul]
      refine Finset.sum_congr rfl fun q _ => ?_
      have e2 : ((j : ℤ) - (p + q)) * (k : ℤ) = -((p : ℤ) * k) + -((q : ℤ) * k) + (j : ℤ) * k := by ring
      rw [e2, zpow_add₀ hne, zpow_add₀ hne]
      ring
    rw [Finset.sum_congr rfl e1, Finset.sum_comm]
    push_cast
    refine Finset.sum_congr rfl fun p hp => ?_
    rw [Finset.sum_comm]
    refine Finset.sum_congr rfl fun q hq => ?_
    rw [← Finset.mul_sum, ← Finset.mul_sum]
    by_cases hp' : p < size
    · by_cases hq' : q < size
      · rw [orth hN (by rw [abs_lt]; constructor <;> omega)]
        have hNc : (N : ℂ) ≠ 0 := by exact_mod_cast hN
        by_cases hpq : p + q = j
        · rw [if_pos (by omega), if_pos hpq]
          push_cast
          field_simp
        · rw [if_neg (by omega), if_neg hpq]; simp
      · rw [hb q (by omega)]; simp
    · rw [ha p (by omega)]; simp
  rw [key, Complex.ofReal_re]
  have hsub : range (j + 1) ⊆ range N := by
    intro x hx; rw [Finset.mem_range] at *; omega
  rw [← Finset.sum_subset hsub]
  · refine Finset.sum_congr rfl fun p hp => ?_
    have : p ≤ j := by simpa [Nat.lt_succ_iff] using hp
    rw [Finset.sum_eq_single (j - p)]
    · rw [if_pos (by omega)]
    · intro q _ hq; rw [if_neg (by omega)]
    · intro h; exact absurd (Finset.mem_range.mpr (by omega)) h
  · intro p _ hp
    apply Finset.sum_eq_zero
    intro q _
    rw [if_neg]
    intro h
    exact hp (Finset.mem_range.mpr (by omega))

theorem naiveConv_fin (a b : ℕ → ℝ) (j : ℕ) :
    naiveConv (fun k => XR.fin (a k)) (fun k => XR.fin (b k)) j
      = XR.fin (∑ k ∈ range (j + 1), a k * b (j - k)) := by
  have : ∀ m : ℕ, (List.range m).foldl (fun acc k => FOps.add acc (FOps.mul (XR.fin (a k)) (XR.fin (b (j - k)))))
      (FOps.zero : XR) = XR.fin (∑ k ∈ range m, a k * b (j - k)) := by
    intro m
    induction m with
    | zero => simp
    | succ m ih => rw [List.range_succ, List.foldl_append, ih, Finset.sum_range_succ]; simp
  exact this (j + 1)

theorem fftConv_fin {fft : FFTW XR} (hf : ExactFFT fft) {size : ℕ} (hs : 0 < size) (a b : ℕ → ℝ) {j : ℕ}
    (hj : j < size) :
    fftConv fft size (fun k => XR.fin (a k)) (fun k => XR.fin (b k)) j
      = XR.fin (∑ k ∈ range (j + 1), a k * b (j - k)) := by
  unfold fftConv
  have hr := roundUp_spec (n := 2 * (size : ℤ)) (by omega)
  obtain ⟨N, hN⟩ : ∃ N, N = (roundUp (2 * (size : ℤ)) ROUNDING).toNat := ⟨_, rfl⟩
  rw [← hN]
  have hNge : 2 * size ≤ N := by omega
  have hN0 : N ≠ 0 := by omega
  have hpad : ∀ c : ℕ → ℝ, (padded size fun k => XR.fin (c k))
      = fun k => XR.fin (if k < size then c k else 0) := by
    intro c; funext k; unfold padded; split <;> simp
  simp only [hpad]
  set a' : ℕ → ℝ := fun k => if k < size then a k else 0 with ha'
  set b' : ℕ → ℝ := fun k => if k < size then b k else 0 with hb'
  have hNR : (N : ℝ) ≠ 0 := by exact_mod_cast hN0
  have hlist : ((List.range (N / 2 + 1)).map fun k =>
      Convolver.cmul (Convolver.cscale (FOps.one /ᶠ FOps.ofInt (N : Int))
        (fft.r2c N ((List.range N).map fun k => XR.fin (a' k)) k))
        (fft.r2c N ((List.range N).map fun k => XR.fin (b' k)) k))
      = (List.range (N / 2 + 1)).map fun k => finC
        (((1 / N : ℝ) : ℂ) * dft N (fun j => (a' j : ℂ)) k * dft N (fun j => (b' j : ℂ)) k) := by
    refine List.map_congr_left fun k hk => ?_
    have hk' : k ≤ N / 2 := by simpa [Nat.lt_succ_iff] using hk
    rw [hf.r2c N a' k hk', hf.r2c N b' k hk']
    unfold Convolver.cmul Convolver.cscale finC
    have e : (FOps.one /ᶠ FOps.ofInt (N : Int) : XR) = XR.fin (1 / N) := by
      rw [XR.one_eq, XR.ofInt_eq, XR.div_fin _ (by exact_mod_cast hN0)]; simp
    rw [e]
    simp only [XR.mul_fin, XR.sub_fin, XR.add_fin, Complex.mul_re, Complex.mul_im, Complex.ofReal_re, Complex.ofReal_im]
    simp
  rw [hlist, hf.c2r _ _ _ (by omega), backward_mul hN0 hNge a' b' _ _ hj]
  · congr 1
    refine Finset.sum_congr rfl fun k hk => ?_
    have : k ≤ j := by simpa [Nat.lt_succ_iff] using hk
    simp only [ha', hb']
    rw [if_pos (by omega), if_pos (by omega)]
  · intro k hk; simp only [ha']; rw [if_neg (by omega)]
  · intro k hk; simp only [hb']; rw [if_neg (by omega)]

/-- Both branches of the convolver compute the polynomial product exactly. -/
theorem convVal_fin {fft : FFTW XR} (hf : ExactFFT fft) {size : ℕ} (a b : ℕ → ℝ) {j : ℕ} (hj : j < size) :
    convVal fft size (fun k => XR.fin (a k)) (fun k => XR.fin (b k)) j
      = XR.fin (∑ k ∈ range (j + 1), a k * b (j - k)) := by
  unfold convVal
  split
  · exact naiveConv_fin a b j
  · exact fftConv_fin hf (by omega) a b hj

end
end CP.Spec
