import Verif.Proofs.FastFftErr
import Verif.Props.FastNew
/-
Property C66, continued: `ecdf2` with FFT, as compiled with `-O3 -ffast-math -march=native`.
-/
open MeasureTheory Set
namespace CP.Props
open CP.Spec FOps
noncomputable section

/-- C66: `ecdf2` with FFT as compiled.  In any floating-point arithmetic with unit roundoff `u`, for any legal compilation (the inner loops
of the direct convolution summed in any order, with or without fused multiply-add, the exponents of the Poisson probabilities rearranged in
any way, each product of spectra associated and fused in any way, the final division replaced or not), any FFT library of accuracy `delta`
(any FFT library at all up to 126 points) and any valid finite boundaries, the result is a finite number within `A` of the non-crossing
probability.  `kap` bounds the growth of the error in one of the `2n+1` steps. -/
theorem C66_fft_error {F : Type} [FOps F] {R : FloatModel F} {S : Set F} {c : FastCode F} {e : ℕ} (hc : FastCode.Legal c e)
    {n : ℕ} (hn : 1 ≤ n) {etaE expMin : ℝ} (M : MathLibrary R n etaE expMin) (hfops : FastOps R c n etaE expMin) (hg : R.g ≤ 8 / 7)
    {u : ℝ} {Nmax : ℕ} (hops : SignedOps R u Nmax) (hsf : SignedFma R c u)
    (env : Env F) {fft : FFTW F} {delta etaF Wf : ℝ} (hfft : FFTAccurate R fft Nmax delta etaF Wf) (hsm : n ≤ 126 ∨ env.fft = fft)
    (hN : 2 * n + 2049 ≤ Nmax) (hWf : 256 ≤ Wf)
    {b B : Fin n → F} (hz : zero ∈ S) (ho : one ∈ S) (hbS : ∀ i, b i ∈ S) (hBS : ∀ i, B i ∈ S)
    (hbf : ∀ i, R.finite (b i)) (hBf : ∀ i, R.finite (B i)) (hb : ValidBound fun i => R.val (b i))
    (hB : ValidBound fun i => R.val (B i)) {sort : List (Bound F) → List (Bound F)} (hsort : SortContractF R sort)
    (ha : env.asserts = false ∨ ¬ StronglyCrossed (fun i => R.val (b i)) (fun i => R.val (B i)))
    {Lam : ℝ} (hln : Real.log n ≤ Lam)
    (hLam : ∀ x ∈ S, ∀ y ∈ S, R.finite x → R.finite y → 0 ≤ R.val x → R.val x < R.val y → R.val y ≤ 1 →
      |Real.log (n * (R.val y - R.val x))| ≤ Lam)
    {Q : ℕ} (hQ : 5 * n * Lam + 11 * n + 5 * Real.log n.factorial ≤ Q)
    (hdelta : delta * √Nmax ≤ 1 / 8) (hetaF : etaF ≤ 1) (heta : Nmax * R.eta ≤ 1)
    {rho eps om kap A : ℝ}
    (hrho : rho = R.g ^ (Q + 1) - 1 + (n + 1) * etaE * R.g ^ (Q + 1))
    (heps : eps = √Nmax * (13 * u + 4 * delta) + ((1 + u) ^ (128 + e) - 1))
    (hom : om = √Nmax * 2 * (12 * etaF + 34 * (Nmax * R.eta)) + 128 ^ 2 * (1 + u) ^ (128 + e) * R.eta)
    (hkap : kap = (1 + rho) * (1 + eps) + om) (hsmall : kap ^ (2 * n + 1) ≤ 2)
    (hA : A = (1 + u) * ((kap ^ (2 * n + 1) - 1) * (R.g ^ (Q + 2) / poissonProb n n + R.eta) + (R.g ^ (Q + 2) - 1) + R.eta) + u + R.eta)
    (hO : 512 ≤ R.Omega) (hO' : (1 + u) ^ (128 + e) * (4 + 128 * R.eta) ≤ R.Omega) (hO'' : 1 + A ≤ R.Omega)
    (hO1 : 7 * (n * Lam + n + Real.log n.factorial) ≤ R.Omega) (hO2 : R.g ^ (Q + 1) / poissonProb n n ≤ R.Omega)
    (hmin : expMin * R.g ^ Q ≤ poissonProb n n) :
    ∃ x, ecdf2Fast c env sort (List.ofFn b) (List.ofFn B) true = .ok x ∧ R.finite x ∧
      |R.val x - noncrossProb (fun i => R.val (b i)) (fun i => R.val (B i))| ≤ A :=
  fftFast_error hc env hn (fastPmf_of_lib M hfops hc hg hn hln hLam hQ hO1 hO2 hmin) hops hsf hfft hsm hN hWf hz ho hbS hBS hbf hBf hb hB
    hsort ha hdelta hetaF heta hrho heps hom hkap hsmall hA hO hO' hO'' hO2

variable {A : FloatSystem}

/-- `ecdf2` with FFT as compiled, in double precision, with the size and the error as parameters. -/
theorem double_fftFast (hf : A.f = binary64) {c : FastCode (Num A)} (hc : FastIeee A u50 c) {ex ex' : ℕ}
    (hleg : FastCode.Legal c ex) (hex : ex ≤ ex')
    {n N m Q r s : ℕ} {Tb E : ℝ} (hn : 1 ≤ n) (hnN : n ≤ N) (hL : LibmAccurate A u50 n)
    (env : Env (Num A)) {fft : FFTW (Num A)} {delta etaF : ℝ} (hδ : delta ≤ (2 : ℝ) ^ (-45 : ℤ)) (hη : etaF ≤ (2 : ℝ) ^ (-100 : ℤ))
    (hfft : FFTAccurate (ieeeModel A u50 (double_ok hf)) fft (2 * n + 2049) delta etaF 256) (hsm : n ≤ 126 ∨ env.fft = fft)
    {b B : Fin n → Num A} (hbf : ∀ i, (b i).finite) (hBf : ∀ i, (B i).finite)
    (hb : ValidBound fun i => (b i).val) (hB : ValidBound fun i => (B i).val)
    {sort : List (Bound (Num A)) → List (Bound (Num A))} (hperm : ∀ l, (sort l).Perm l)
    (hsorted : ∀ l, (∀ x ∈ l, x.location.finite) → (sort l).Pairwise fun x y => lt y.location x.location = false)
    (ha : env.asserts = false ∨ ¬ StronglyCrossed (fun i => (b i).val) (fun i => (B i).val))
    (hm : (N : ℝ) ≤ (27 / 10 : ℝ) ^ m) (hQ : 5 * (N : ℝ) * (m + 744.45) + 11 * N + 5 * (N * m) ≤ Q)
    (hN : N ≤ 2 ^ 20) (hQ2 : Q ≤ 2 ^ 40) (hs : N ≤ s ^ 2) (hs2 : s ≤ 2 ^ 10) (hr : 2 * N + 2049 ≤ r ^ 2) (hr2 : r ≤ 2 ^ 12)
    (hTb : 21 / 20 * ((Q + 2) * u50 + r * (13 * u50 + 4 * (1 / 2 ^ 45)) + (128 + ex') * u50) + 1 / 10 ^ 20 ≤ Tb)
    (hsmall : (2 * N + 1) * Tb ≤ 1 / 100) (hE : 6 / 5 * (2.7183 * s) * ((2 * N + 1) * Tb) ≤ E) :
    ∃ x : Num A, ecdf2Fast c env sort (List.ofFn b) (List.ofFn B) true = .ok x ∧ x.finite ∧
      |x.val - noncrossProb (fun i => (b i).val) (fun i => (B i).val)| ≤ E := by
  have h := double_ok hf
  have hemin : A.f.emin = -1074 := by rw [hf]; rfl
  have hemax : A.f.emax = 1024 := by rw [hf]; rfl
  have hp : A.f.p = 53 := by rw [hf]; rfl
  have hmn : A.f.minNormal = (2 : ℝ) ^ (-1022 : ℤ) := by
    unfold Format.minNormal; rw [hemin, hp]; norm_num
  have hu0 := h.u_pos
  have hδ0 := hfft.delta_nonneg
  have hη0 := hfft.etaF_nonneg
  have hNr : (N : ℝ) ≤ 2 ^ 20 := by exact_mod_cast hN
  have hnr : (n : ℝ) ≤ N := by exact_mod_cast hnN
  have hn1 : (1 : ℝ) ≤ n := by exact_mod_cast hn
  have hsr : (s : ℝ) ≤ 2 ^ 10 := by exact_mod_cast hs2
  have hrr : (r : ℝ) ≤ 2 ^ 12 := by exact_mod_cast hr2
  have hr0 : (0 : ℝ) ≤ r := Nat.cast_nonneg r
  have hQr : (Q : ℝ) ≤ 2 ^ 40 := by exact_mod_cast hQ2
  have hexr : (ex : ℝ) ≤ ex' := by exact_mod_cast hex
  have hEs := esqrt_le (n := n) (s := s) (hnN.trans hs)
  have hE0 : 0 ≤ Real.exp 1 * √(n : ℝ) := by positivity
  have hE12 : Real.exp 1 * √(n : ℝ) ≤ 2 ^ 12 := by linarith
  have hsq : √(n : ℝ) ≤ 2 ^ 10 := by
    refine le_trans ?_ hsr
    rw [Real.sqrt_le_left (Nat.cast_nonneg s)]
    exact_mod_cast hnN.trans hs
  have hNm : ((2 * n + 2049 : ℕ) : ℝ) ≤ 2 ^ 22 := by push_cast; linarith
  have hsr' : √((2 * n + 2049 : ℕ) : ℝ) ≤ r := by
    rw [Real.sqrt_le_left hr0]
    exact_mod_cast (by omega : 2 * n + 2049 ≤ r ^ 2)
  have hs0 := Real.sqrt_nonneg ((2 * n + 2049 : ℕ) : ℝ)
  have c1 : 2 * n + 2049 ≤ 2 ^ A.f.p := by rw [hp]; omega
  have c2 : ((2 * n + 2049 : ℕ) : ℝ) * A.f.minNormal ≤ 1 := by
    rw [hmn]
    calc ((2 * n + 2049 : ℕ) : ℝ) * (2 : ℝ) ^ (-1022 : ℤ) ≤ 2 ^ 22 * (2 : ℝ) ^ (-22 : ℤ) :=
          mul_le_mul hNm (zpow_le_zpow_right₀ (by norm_num) (by norm_num)) (by positivity) (by norm_num)
      _ ≤ 1 := by norm_num
  have c3 : A.f.minNormal * (2 * (Real.exp 1 * √n)) ≤ 1 := by
    rw [hmn]
    calc (2 : ℝ) ^ (-1022 : ℤ) * (2 * (Real.exp 1 * √n)) ≤ (2 : ℝ) ^ (-20 : ℤ) * (2 * 2 ^ 12) :=
          mul_le_mul (zpow_le_zpow_right₀ (by norm_num) (by norm_num)) (by linarith) (by linarith) (by positivity)
      _ ≤ 1 := by norm_num
  have c4 : 2 * (Q : ℝ) + 512 + ((2 * n + 2049 : ℕ) : ℝ) + 6 * √n ≤ (2 : ℝ) ^ (A.f.emax - 1) := by
    rw [hemax]
    have h1 : 2 * (Q : ℝ) + 512 + ((2 * n + 2049 : ℕ) : ℝ) + 6 * √n ≤ (2 : ℝ) ^ (50 : ℤ) := by
      have e : (2 : ℝ) ^ (50 : ℤ) = 1125899906842624 := by norm_num
      rw [e]
      linarith
    exact h1.trans (zpow_le_zpow_right₀ (by norm_num) (by norm_num))
  obtain ⟨T, hT⟩ : ∃ T, T = 21 / 20 * ((Q + 2) * u50 + √(2 * n + 2049 : ℕ) * (13 * u50 + 4 * delta) + (128 + ex) * u50)
      + (24 * √(2 * n + 2049 : ℕ) * etaF + (34 * √(2 * n + 2049 : ℕ) * (2 * n + 2049 : ℕ) + 128 ^ 2 + 3 * (n + 1)) * (2 : ℝ) ^ A.f.emin) :=
    ⟨_, rfl⟩
  have hT0 : 0 ≤ T := by rw [hT]; positivity
  have hTT : T ≤ Tb := by
    refine le_trans ?_ hTb
    have h45 : (2 : ℝ) ^ (-45 : ℤ) = 1 / 2 ^ 45 := by norm_num
    rw [h45] at hδ
    have h100 : (2 : ℝ) ^ (-100 : ℤ) ≤ 1 / 10 ^ 30 := by norm_num
    have hw : (2 : ℝ) ^ (-1074 : ℤ) ≤ 1 / 10 ^ 40 :=
      (zpow_le_zpow_right₀ (by norm_num) (by norm_num) : (2 : ℝ) ^ (-1074 : ℤ) ≤ 2 ^ (-200 : ℤ)).trans (by norm_num)
    have hw0 : (0 : ℝ) < (2 : ℝ) ^ (-1074 : ℤ) := by positivity
    have a1 : √((2 * n + 2049 : ℕ) : ℝ) * (13 * u50 + 4 * delta) ≤ r * (13 * u50 + 4 * (1 / 2 ^ 45)) :=
      mul_le_mul hsr' (by linarith) (by positivity) hr0
    have a2 : 24 * √((2 * n + 2049 : ℕ) : ℝ) * etaF ≤ 24 * 2 ^ 12 * (1 / 10 ^ 30) :=
      mul_le_mul (by linarith) (hη.trans h100) hη0 (by norm_num)
    have a3 : √((2 * n + 2049 : ℕ) : ℝ) * ((2 * n + 2049 : ℕ) : ℝ) ≤ 2 ^ 12 * 2 ^ 22 :=
      mul_le_mul (hsr'.trans hrr) hNm (Nat.cast_nonneg _) (by norm_num)
    have a4 : (34 * √((2 * n + 2049 : ℕ) : ℝ) * ((2 * n + 2049 : ℕ) : ℝ) + 128 ^ 2 + 3 * (n + 1)) * (2 : ℝ) ^ (-1074 : ℤ)
        ≤ (34 * (2 ^ 12 * 2 ^ 22) + 128 ^ 2 + 3 * (2 ^ 20 + 1)) * (1 / 10 ^ 40) :=
      mul_le_mul (by linarith) hw hw0.le (by norm_num)
    have a5 : (128 + (ex : ℝ)) * u50 ≤ (128 + ex') * u50 := mul_le_mul_of_nonneg_right (by linarith) hu0.le
    rw [hT, hemin]
    refine add_le_add (mul_le_mul_of_nonneg_left (add_le_add (add_le_add le_rfl a1) a5) (by norm_num)) ((add_le_add a2 a4).trans (by norm_num))
  have hN0 : (0 : ℝ) ≤ N := Nat.cast_nonneg N
  have hmT : (2 * (n : ℝ) + 1) * T ≤ (2 * N + 1) * Tb := mul_le_mul (by linarith) hTT hT0 (by linarith)
  have h1 : 6 / 5 * Real.exp 1 * √(n : ℝ) * ((2 * n + 1) * T) ≤ 6 / 5 * (2.7183 * s) * ((2 * N + 1) * Tb) :=
    mul_le_mul (by linarith) hmT (by positivity) (by positivity)
  obtain ⟨x, hx, hxf, hxA⟩ := ieee_fftFast h hc hleg env hn hL le_rfl c1 c2 hfft hsm (S := univ) exp_gap_one.1 exp_gap_one.2
    (double_gap hf) (mem_univ _) (mem_univ _) (fun _ => mem_univ _) (fun _ => mem_univ _) hbf hBf hb hB (sort := sort) ⟨hperm, hsorted⟩ ha
    ((double_Q_fast hn hnN hm).trans hQ) c4 c3 hT (hmT.trans hsmall)
  exact ⟨x, hx, hxf, (hxA.trans h1).trans hE⟩

/-- C66: `ecdf2` with FFT compiled with `-ffast-math` in any legal way (no term of an inner sum passing through more than 1000 additional
roundings; every product of spectra associated and fused in any way), in IEEE-754 double precision with a math library accurate to four
units in the last place and an FFT library of relative accuracy `2^-45`, for every pair of valid boundaries of up to 300 doubles: a finite
double within `5e-5` of the probability. -/
theorem C66_double_fft_300 (hf : A.f = binary64) {c : FastCode (Num A)} (hc : FastIeee A u50 c) {e : ℕ} (hleg : FastCode.Legal c e) (he : e ≤ 1000)
    {n : ℕ} (hn : 1 ≤ n) (hn' : n ≤ 300) (hL : LibmAccurate A u50 n)
    (env : Env (Num A)) {delta etaF : ℝ} (hδ : delta ≤ (2 : ℝ) ^ (-45 : ℤ)) (hη : etaF ≤ (2 : ℝ) ^ (-100 : ℤ))
    (hfft : FFTAccurate (ieeeModel A u50 (double_ok hf)) env.fft (2 * n + 2049) delta etaF 256)
    {b B : Fin n → Num A} (hbf : ∀ i, (b i).finite) (hBf : ∀ i, (B i).finite)
    (hb : ValidBound fun i => (b i).val) (hB : ValidBound fun i => (B i).val)
    {sort : List (Bound (Num A)) → List (Bound (Num A))} (hperm : ∀ l, (sort l).Perm l)
    (hsorted : ∀ l, (∀ x ∈ l, x.location.finite) → (sort l).Pairwise fun x y => lt y.location x.location = false)
    (ha : env.asserts = false ∨ ¬ StronglyCrossed (fun i => (b i).val) (fun i => (B i).val)) :
    ∃ x : Num A, ecdf2Fast c env sort (List.ofFn b) (List.ofFn B) true = .ok x ∧ x.finite ∧
      |x.val - noncrossProb (fun i => (b i).val) (fun i => (B i).val)| ≤ 5 / 10 ^ 5 :=
  double_fftFast hf hc hleg he (N := 300) (m := 6) (Q := 1137976) (r := 52) (s := 18) hn hn' hL env hδ hη hfft (Or.inr rfl) hbf hBf hb hB hperm hsorted ha
    (by norm_num) (by norm_num) (by norm_num) (by norm_num) (by norm_num) (by norm_num) (by norm_num) (by norm_num)
    (Tb := 12 / 10 ^ 10) (by rw [u50_val]; norm_num) (by norm_num) (by norm_num)

/-- C66: `ecdf2` with FFT compiled with `-ffast-math` in any legal way (no term of an inner sum passing through more than 1000 additional
roundings; every product of spectra associated and fused in any way), in IEEE-754 double precision with a math library accurate to four
units in the last place and an FFT library of relative accuracy `2^-45`, for every pair of valid boundaries of up to 1000 doubles: a finite
double within `8e-4` of the probability. -/
theorem C66_double_fft_1000 (hf : A.f = binary64) {c : FastCode (Num A)} (hc : FastIeee A u50 c) {e : ℕ} (hleg : FastCode.Legal c e) (he : e ≤ 1000)
    {n : ℕ} (hn : 1 ≤ n) (hn' : n ≤ 1000) (hL : LibmAccurate A u50 n)
    (env : Env (Num A)) {delta etaF : ℝ} (hδ : delta ≤ (2 : ℝ) ^ (-45 : ℤ)) (hη : etaF ≤ (2 : ℝ) ^ (-100 : ℤ))
    (hfft : FFTAccurate (ieeeModel A u50 (double_ok hf)) env.fft (2 * n + 2049) delta etaF 256)
    {b B : Fin n → Num A} (hbf : ∀ i, (b i).finite) (hBf : ∀ i, (B i).finite)
    (hb : ValidBound fun i => (b i).val) (hB : ValidBound fun i => (B i).val)
    {sort : List (Bound (Num A)) → List (Bound (Num A))} (hperm : ∀ l, (sort l).Perm l)
    (hsorted : ∀ l, (∀ x ∈ l, x.location.finite) → (sort l).Pairwise fun x y => lt y.location x.location = false)
    (ha : env.asserts = false ∨ ¬ StronglyCrossed (fun i => (b i).val) (fun i => (B i).val)) :
    ∃ x : Num A, ecdf2Fast c env sort (List.ofFn b) (List.ofFn B) true = .ok x ∧ x.finite ∧
      |x.val - noncrossProb (fun i => (b i).val) (fun i => (B i).val)| ≤ 8 / 10 ^ 4 :=
  double_fftFast hf hc hleg he (N := 1000) (m := 7) (Q := 3803250) (r := 64) (s := 32) hn hn' hL env hδ hη hfft (Or.inr rfl) hbf hBf hb hB hperm hsorted ha
    (by norm_num) (by norm_num) (by norm_num) (by norm_num) (by norm_num) (by norm_num) (by norm_num) (by norm_num)
    (Tb := 36 / 10 ^ 10) (by rw [u50_val]; norm_num) (by norm_num) (by norm_num)

/-- The exact FFT with rounded outputs is accurate enough for up to 1000 points. -/
theorem goodFFT (hf : A.f = binary64) {n : ℕ} (hn : n ≤ 1000) : ∃ (delta etaF : ℝ),
    delta ≤ (2 : ℝ) ^ (-45 : ℤ) ∧ etaF ≤ (2 : ℝ) ^ (-100 : ℤ) ∧ FFTAccurate (ieeeModel A u50 (double_ok hf)) (ieeeFFTW A) (2 * n + 2049) delta etaF 256 := by
  have hs : √((2 * n + 2049 : ℕ) : ℝ) ≤ 64 := by
    have : ((2 * n + 2049 : ℕ) : ℝ) ≤ 4049 := by exact_mod_cast (by omega : 2 * n + 2049 ≤ 4049)
    rw [Real.sqrt_le_left (by norm_num)]; linarith
  have hs0 := Real.sqrt_nonneg ((2 * n + 2049 : ℕ) : ℝ)
  refine ⟨2 * u50, √((2 * n + 2049 : ℕ) : ℝ) * (2 : ℝ) ^ A.f.emin, ?_, ?_, ?_⟩
  · rw [u50_val]; norm_num
  · have e : A.f.emin = -1074 := by rw [hf]; rfl
    rw [e]
    calc √((2 * n + 2049 : ℕ) : ℝ) * (2 : ℝ) ^ (-1074 : ℤ) ≤ 2 ^ (6 : ℤ) * (2 : ℝ) ^ (-106 : ℤ) :=
          mul_le_mul (hs.trans (by norm_num)) (zpow_le_zpow_right₀ (by norm_num) (by norm_num)) (by positivity) (by norm_num)
      _ = _ := by rw [← zpow_add₀ (by norm_num)]; norm_num
  · refine ieeeFFTW_accurate (double_ok hf) (2 * n + 2049) ?_
    have e : A.f.emax = 1024 := by rw [hf]; rfl
    rw [e]
    have h40 : (2 : ℝ) ^ (40 : ℤ) ≤ (2 : ℝ) ^ (1024 - 1 : ℤ) := zpow_le_zpow_right₀ (by norm_num) (by norm_num)
    refine le_trans ?_ h40
    have : √((2 * n + 2049 : ℕ) : ℝ) * √((2 * n + 2049 : ℕ) : ℝ) ≤ 64 * 64 := mul_le_mul hs hs hs0 (by norm_num)
    have e40 : (2 : ℝ) ^ (40 : ℤ) = 1099511627776 := by norm_num
    rw [e40]
    linarith

/-- The assumptions can be met, by code that differs from the source, with sizes at which the FFT is used. -/
example (env : Env (Num doubles)) (ha : env.asserts = false) (hE : env.fft = ieeeFFTW doubles) :
    ∃ x : Num doubles, ecdf2Fast (twoLanes (exactFma doubles)) env ieeeSort (List.ofFn fun _ : Fin 300 => roundNum doubles (1 / 8))
        (List.ofFn fun _ : Fin 300 => roundNum doubles (3 / 4)) true = .ok x ∧ x.finite ∧
      |x.val - noncrossProb (fun _ : Fin 300 => (roundNum doubles (1 / 8)).val) (fun _ => (roundNum doubles (3 / 4)).val)| ≤ 5 / 10 ^ 5 := by
  have hv : ∀ c : ℝ, 0 ≤ c → c ≤ 1 → ValidBound (fun _ : Fin 300 => c) := fun c h0 h1 => ⟨fun _ _ _ => le_rfl, fun _ => ⟨h0, h1⟩⟩
  obtain ⟨b1, -, b3, -⟩ := double_read (A := doubles) rfl (hv (1 / 8) (by norm_num) (by norm_num))
  obtain ⟨B1, -, B3, -⟩ := double_read (A := doubles) rfl (hv (3 / 4) (by norm_num) (by norm_num))
  have hs := ieeeSort_contract (double_ok (A := doubles) rfl)
  obtain ⟨delta, etaF, h1, h2, h3⟩ := goodFFT (A := doubles) rfl (n := 300) (by norm_num)
  exact C66_double_fft_300 rfl twoLanes_ieee (twoLanes_legal _) (by norm_num) (by norm_num) (by norm_num) (doubles_libm u50_ge (by norm_num))
    env h1 h2 (hE ▸ h3) b1 B1 b3 B3 hs.perm hs.sorted (Or.inl ha)

end
end CP.Props
