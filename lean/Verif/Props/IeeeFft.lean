import Verif.Props.Ieee
/-
Property C61, continued: the algorithms with FFT in IEEE-754 double precision, for up to 1000 points.  (Up to 126 points the FFT is
not used at all: property C62.)
-/
open MeasureTheory Set
namespace CP.Props
open CP.Spec FOps
noncomputable section

variable {A : FloatSystem}

/-- Numbers used in the double-precision theorems with FFT. -/
theorem double_const_1000 (hf : A.f = binary64) {n : ℕ} (hn : 1 ≤ n) (hn' : n ≤ 1000) {delta etaF : ℝ} (hδ0 : 0 ≤ delta) (hη0 : 0 ≤ etaF)
    (hδ : delta ≤ (2 : ℝ) ^ (-45 : ℤ)) (hη : etaF ≤ (2 : ℝ) ^ (-100 : ℤ)) :
    ((2 * n + 2049 : ℕ) ≤ 2 ^ A.f.p ∧ ((2 * n + 2049 : ℕ) : ℝ) * A.f.minNormal ≤ 1 ∧
      A.f.minNormal * (2 * (Real.exp 1 * √n)) ≤ 1 ∧
      (3788250 : ℕ) + 512 + ((2 * n + 2049 : ℕ) : ℝ) + √n ≤ (2 : ℝ) ^ (A.f.emax - 1)) ∧
    21 / 20 * (((3788250 : ℕ) + 1) * u50 + √(2 * n + 2049 : ℕ) * (13 * u50 + 4 * delta) + 128 * u50)
      + (24 * √(2 * n + 2049 : ℕ) * etaF + (34 * √(2 * n + 2049 : ℕ) * (2 * n + 2049 : ℕ) + 128 ^ 2 + 3 * (n + 1)) * (2 : ℝ) ^ A.f.emin)
      ≤ 36 / 10 ^ 10 := by
  have hemin : A.f.emin = -1074 := by rw [hf]; rfl
  have hemax : A.f.emax = 1024 := by rw [hf]; rfl
  have hp : A.f.p = 53 := by rw [hf]; rfl
  have hmn : A.f.minNormal = (2 : ℝ) ^ (-1022 : ℤ) := by
    unfold Format.minNormal; rw [hemin, hp]; norm_num
  have hn1 : (1 : ℝ) ≤ n := by exact_mod_cast hn
  have hnr : (n : ℝ) ≤ 1000 := by exact_mod_cast hn'
  have hNr : ((2 * n + 2049 : ℕ) : ℝ) ≤ 4049 := by push_cast; linarith
  have hE := esqrt_le (n := n) (s := 32) (by omega)
  have hsn : √(n : ℝ) ≤ 32 := by
    rw [Real.sqrt_le_left (by norm_num)]; linarith
  push_cast at hE
  have hs64 : √((2 * n + 2049 : ℕ) : ℝ) ≤ 64 := by
    rw [Real.sqrt_le_left (by norm_num)]; linarith
  have hs0 := Real.sqrt_nonneg ((2 * n + 2049 : ℕ) : ℝ)
  have hbig : (2 : ℝ) ^ (40 : ℤ) ≤ (2 : ℝ) ^ (A.f.emax - 1) := by
    rw [hemax]; exact zpow_le_zpow_right₀ (by norm_num) (by norm_num)
  have h40 : (2 : ℝ) ^ (40 : ℤ) = 1099511627776 := by norm_num
  rw [h40] at hbig
  have hsm : (2 : ℝ) ^ (-1022 : ℤ) ≤ 2 ^ (-20 : ℤ) := zpow_le_zpow_right₀ (by norm_num) (by norm_num)
  have h20 : (2 : ℝ) ^ (-20 : ℤ) = 1 / 1048576 := by norm_num
  rw [h20] at hsm
  have hsm0 : (0 : ℝ) < (2 : ℝ) ^ (-1022 : ℤ) := by positivity
  refine ⟨⟨by rw [hp]; omega, ?_, ?_, ?_⟩, ?_⟩
  · rw [hmn]
    have := mul_le_mul hNr hsm hsm0.le (by norm_num)
    linarith
  · rw [hmn]
    have hE0 : 0 ≤ Real.exp 1 * √(n : ℝ) := by positivity
    have := mul_le_mul hsm (show 2 * (Real.exp 1 * √n) ≤ 2 * (2.7183 * 32) by linarith) (by linarith) (by norm_num)
    linarith
  · push_cast at hNr ⊢
    linarith
  · rw [hemin]
    have hw : (2 : ℝ) ^ (-1074 : ℤ) ≤ 2 ^ (-100 : ℤ) := zpow_le_zpow_right₀ (by norm_num) (by norm_num)
    have h100 : (2 : ℝ) ^ (-100 : ℤ) ≤ 1 / 10 ^ 30 := by norm_num
    have h45 : (2 : ℝ) ^ (-45 : ℤ) = 1 / 35184372088832 := by norm_num
    rw [h45] at hδ
    have hw0 : (0 : ℝ) < (2 : ℝ) ^ (-1074 : ℤ) := by positivity
    have a1 : √((2 * n + 2049 : ℕ) : ℝ) * (13 * u50 + 4 * delta) ≤ 64 * (13 * u50 + 4 * (1 / 35184372088832)) :=
      mul_le_mul hs64 (by linarith) (by rw [u50_val]; linarith) (by norm_num)
    have a2 : 24 * √((2 * n + 2049 : ℕ) : ℝ) * etaF ≤ 24 * 64 * (1 / 10 ^ 30) :=
      mul_le_mul (by linarith) (hη.trans h100) hη0 (by norm_num)
    have a3 : √((2 * n + 2049 : ℕ) : ℝ) * ((2 * n + 2049 : ℕ) : ℝ) ≤ 64 * 4049 := mul_le_mul hs64 hNr (Nat.cast_nonneg _) (by norm_num)
    have a4 : (34 * √((2 * n + 2049 : ℕ) : ℝ) * ((2 * n + 2049 : ℕ) : ℝ) + 128 ^ 2 + 3 * (n + 1)) * (2 : ℝ) ^ (-1074 : ℤ)
        ≤ (34 * (64 * 4049) + 128 ^ 2 + 3 * 1001) * (1 / 10 ^ 30) := by
      refine mul_le_mul (by linarith) (hw.trans h100) hw0.le (by norm_num)
    rw [u50_val] at a1 ⊢
    push_cast at a1 a2 a4 ⊢
    linarith

/-- C61: `ecdf2` with FFT in IEEE-754 double precision, for every pair of valid boundaries of up to 1000 doubles, with a math
library accurate to four units in the last place and an FFT library of relative accuracy `2^-45`: the result is a finite double
within `8e-4` of the probability. -/
theorem C61_double_fft_1000 (hf : A.f = binary64) {n : ℕ} (hn : 1 ≤ n) (hn' : n ≤ 1000) (hL : LibmAccurate A u50 n)
    (env : Env (Num A)) {delta etaF : ℝ} (hδ : delta ≤ (2 : ℝ) ^ (-45 : ℤ)) (hη : etaF ≤ (2 : ℝ) ^ (-100 : ℤ))
    (hfft : FFTAccurate (ieeeModel A u50 (double_ok hf)) env.fft (2 * n + 2049) delta etaF 256)
    {b B : Fin n → Num A} (hbf : ∀ i, (b i).finite) (hBf : ∀ i, (B i).finite)
    (hb : ValidBound fun i => (b i).val) (hB : ValidBound fun i => (B i).val)
    {sort : List (Bound (Num A)) → List (Bound (Num A))} (hperm : ∀ l, (sort l).Perm l)
    (hsorted : ∀ l, (∀ x ∈ l, x.location.finite) → (sort l).Pairwise fun x y => lt y.location x.location = false)
    (ha : env.asserts = false ∨ ¬ StronglyCrossed (fun i => (b i).val) (fun i => (B i).val)) :
    ∃ x : Num A, ecdf2 env sort (List.ofFn b) (List.ofFn B) true = .ok x ∧ x.finite ∧
      |x.val - noncrossProb (fun i => (b i).val) (fun i => (B i).val)| ≤ 8 / 10 ^ 4 := by
  obtain ⟨⟨c1, c2, c3, c4⟩, c5⟩ := double_const_1000 hf hn hn' hfft.delta_nonneg hfft.etaF_nonneg hδ hη
  have hnr : (n : ℝ) ≤ 1000 := by exact_mod_cast hn'
  obtain ⟨T, hT⟩ : ∃ T, T = 21 / 20 * (((3788250 : ℕ) + 1) * u50 + √(2 * n + 2049 : ℕ) * (13 * u50 + 4 * delta) + 128 * u50)
      + (24 * √(2 * n + 2049 : ℕ) * etaF + (34 * √(2 * n + 2049 : ℕ) * (2 * n + 2049 : ℕ) + 128 ^ 2 + 3 * (n + 1)) * (2 : ℝ) ^ A.f.emin) :=
    ⟨_, rfl⟩
  rw [← hT] at c5
  have hT0 : 0 ≤ T := by
    rw [hT]
    have := hfft.delta_nonneg
    have := hfft.etaF_nonneg
    have := (double_ok hf).u_pos
    positivity
  have hmT : (2 * (n : ℝ) + 1) * T ≤ 2001 * (36 / 10 ^ 10) := mul_le_mul (by linarith) c5 hT0 (by norm_num)
  obtain ⟨x, hx, hxf, hxA⟩ := ieee_fft (double_ok hf) env hn hL le_rfl c1 c2 hfft (S := univ) exp_gap_one.1 exp_gap_one.2 (double_gap hf)
    (mem_univ _) (mem_univ _) (fun _ => mem_univ _) (fun _ => mem_univ _) hbf hBf hb hB (sort := sort) ⟨hperm, hsorted⟩ ha
    (Q := 3788250) ((double_Q hn hn' (m := 7) (by norm_num)).trans (by norm_num)) c4 c3 hT (hmT.trans (by norm_num))
  refine ⟨x, hx, hxf, hxA.trans ?_⟩
  have hE := esqrt_le (n := n) (s := 32) (by omega)
  push_cast at hE
  have : 6 / 5 * Real.exp 1 * √(n : ℝ) * ((2 * n + 1) * T) ≤ 6 / 5 * (2.7183 * 32) * (2001 * (36 / 10 ^ 10)) := by
    refine mul_le_mul (by linarith) hmT (by positivity) (by norm_num)
  exact this.trans (by norm_num)

/-- C61: `ecdf1_new_B` in IEEE-754 double precision, for every valid boundary of up to 1000 doubles: the result is a finite
double within `12e-4` of the probability. -/
theorem C61_double_new_B_1000 (hf : A.f = binary64) {n : ℕ} (hn : 1 ≤ n) (hn' : n ≤ 1000) (hL : LibmAccurate A u50 n)
    (env : Env (Num A)) {delta etaF : ℝ} (hδ : delta ≤ (2 : ℝ) ^ (-45 : ℤ)) (hη : etaF ≤ (2 : ℝ) ^ (-100 : ℤ))
    (hfft : FFTAccurate (ieeeModel A u50 (double_ok hf)) env.fft (2 * n + 2049) delta etaF 256)
    {B : Fin n → Num A} (hBf : ∀ i, (B i).finite) (hB : ValidBound fun i => (B i).val)
    (isqrt : ℕ → ℕ) (ha : env.asserts = false ∨ isqrt n + 1 ≤ n) :
    ∃ x : Num A, ecdf1NewB env isqrt (List.ofFn B) = .ok x ∧ x.finite ∧
      |x.val - upperProb (fun i => (B i).val)| ≤ 12 / 10 ^ 4 := by
  obtain ⟨⟨c1, c2, c3, c4⟩, c5⟩ := double_const_1000 hf hn hn' hfft.delta_nonneg hfft.etaF_nonneg hδ hη
  have hnr : (n : ℝ) ≤ 1000 := by exact_mod_cast hn'
  obtain ⟨T, hT⟩ : ∃ T, T = 21 / 20 * (((3788250 : ℕ) + 1) * u50 + √(2 * n + 2049 : ℕ) * (13 * u50 + 4 * delta) + 128 * u50)
      + (24 * √(2 * n + 2049 : ℕ) * etaF + (34 * √(2 * n + 2049 : ℕ) * (2 * n + 2049 : ℕ) + 128 ^ 2 + 3 * (n + 1)) * (2 : ℝ) ^ A.f.emin) :=
    ⟨_, rfl⟩
  rw [← hT] at c5
  have hT0 : 0 ≤ T := by
    rw [hT]
    have := hfft.delta_nonneg
    have := hfft.etaF_nonneg
    have := (double_ok hf).u_pos
    positivity
  have hmT : (3 * (n : ℝ) + 1) * T ≤ 3001 * (36 / 10 ^ 10) := mul_le_mul (by linarith) c5 hT0 (by norm_num)
  obtain ⟨x, hx, hxf, hxA⟩ := ieee_new_B (double_ok hf) env hn hL le_rfl c1 c2 hfft (S := univ) exp_gap_one.1 exp_gap_one.2 (double_gap hf)
    (mem_univ _) (mem_univ _) (fun _ => mem_univ _) hBf hB isqrt ha
    (Q := 3788250) ((double_Q hn hn' (m := 7) (by norm_num)).trans (by norm_num)) c4 c3 hT (hmT.trans (by norm_num))
  refine ⟨x, hx, hxf, hxA.trans ?_⟩
  have hE := esqrt_le (n := n) (s := 32) (by omega)
  push_cast at hE
  have : 6 / 5 * Real.exp 1 * √(n : ℝ) * ((3 * n + 1) * T) ≤ 6 / 5 * (2.7183 * 32) * (3001 * (36 / 10 ^ 10)) := by
    refine mul_le_mul (by linarith) hmT (by positivity) (by norm_num)
  exact this.trans (by norm_num)

/-- C61: `ecdf1_new_b` in IEEE-754 double precision, for every valid boundary of up to 1000 doubles: the result is a finite
double within `12e-4` of the probability. -/
theorem C61_double_new_b_1000 (hf : A.f = binary64) {n : ℕ} (hn : 1 ≤ n) (hn' : n ≤ 1000) (hL : LibmAccurate A u50 n)
    (env : Env (Num A)) {delta etaF : ℝ} (hδ : delta ≤ (2 : ℝ) ^ (-45 : ℤ)) (hη : etaF ≤ (2 : ℝ) ^ (-100 : ℤ))
    (hfft : FFTAccurate (ieeeModel A u50 (double_ok hf)) env.fft (2 * n + 2049) delta etaF 256)
    {b : Fin n → Num A} (hbf : ∀ i, (b i).finite) (hb : ValidBound fun i => (b i).val)
    (isqrt : ℕ → ℕ) (ha : env.asserts = false ∨ isqrt n + 1 ≤ n) :
    ∃ x : Num A, ecdf1Newb env isqrt (List.ofFn b) = .ok x ∧ x.finite ∧
      |x.val - lowerProb (fun i => (b i).val)| ≤ 12 / 10 ^ 4 := by
  obtain ⟨⟨c1, c2, c3, c4⟩, c5⟩ := double_const_1000 hf hn hn' hfft.delta_nonneg hfft.etaF_nonneg hδ hη
  have hnr : (n : ℝ) ≤ 1000 := by exact_mod_cast hn'
  obtain ⟨T, hT⟩ : ∃ T, T = 21 / 20 * (((3788250 : ℕ) + 1) * u50 + √(2 * n + 2049 : ℕ) * (13 * u50 + 4 * delta) + 128 * u50)
      + (24 * √(2 * n + 2049 : ℕ) * etaF + (34 * √(2 * n + 2049 : ℕ) * (2 * n + 2049 : ℕ) + 128 ^ 2 + 3 * (n + 1)) * (2 : ℝ) ^ A.f.emin) :=
    ⟨_, rfl⟩
  rw [← hT] at c5
  have hT0 : 0 ≤ T := by
    rw [hT]
    have := hfft.delta_nonneg
    have := hfft.etaF_nonneg
    have := (double_ok hf).u_pos
    positivity
  have hmT : (3 * (n : ℝ) + 1) * T ≤ 3001 * (36 / 10 ^ 10) := mul_le_mul (by linarith) c5 hT0 (by norm_num)
  obtain ⟨x, hx, hxf, hxA⟩ := ieee_new_b (double_ok hf) env hn hL le_rfl c1 c2 hfft (S := univ) exp_gap_one.1 exp_gap_one.2 (double_gap hf)
    (mem_univ _) (mem_univ _) (fun _ => mem_univ _) hbf hb isqrt ha
    (Q := 3788250) ((double_Q hn hn' (m := 7) (by norm_num)).trans (by norm_num)) c4 c3 hT (hmT.trans (by norm_num))
  refine ⟨x, hx, hxf, hxA.trans ?_⟩
  have hE := esqrt_le (n := n) (s := 32) (by omega)
  push_cast at hE
  have : 6 / 5 * Real.exp 1 * √(n : ℝ) * ((3 * n + 1) * T) ≤ 6 / 5 * (2.7183 * 32) * (3001 * (36 / 10 ^ 10)) := by
    refine mul_le_mul (by linarith) hmT (by positivity) (by norm_num)
  have h2 : (n : ℝ) ^ 2 * u50 ≤ 1000 ^ 2 * u50 :=
    mul_le_mul_of_nonneg_right (pow_le_pow_left₀ (Nat.cast_nonneg n) hnr 2) (double_ok hf).u_pos.le
  refine (add_le_add this h2).trans ?_
  rw [u50_val]; norm_num

end
end CP.Props
