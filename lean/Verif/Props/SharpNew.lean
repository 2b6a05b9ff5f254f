import Verif.Proofs.SharpNewErr
import Verif.Proofs.FastNewStrictConv
import Verif.Props.SharpFft
/-
Property C79: the absolute error of `ecdf1_new` grows like `n^2`.
-/
open MeasureTheory Set
namespace CP.Props
open CP.Spec FOps
noncomputable section

/-- C79: `ecdf1_new_B` as compiled.  In any floating-point arithmetic with unit roundoff `u`, for any legal compilation (the inner loops of
the direct convolution summed in any order, with or without fused multiply-add, the exponents of the Poisson probabilities rearranged in
any way, the subtraction loop fused or not element by element, the final division replaced or not), any FFT library of accuracy `delta`
(any FFT library at all up to 126 points) and any valid finite boundary, the result is a finite number within `A` of the probability.
`1+tau` bounds the growth of the error in one of the at most `5n+1` steps due to the convolution, `exp (5 * (n * th))` the growth of the
error due to the Poisson probabilities in all steps together: the exponent is `n` times a sum of lengths of time, not a number of steps. -/
theorem C79_ecdf1_new_B_error {F : Type} [FOps F] {R : FloatModel F} {S : Set F} {c : FastCodeNew F} {e : ℕ} (hc : FastCode.Legal c.toFastCode e)
    {n : ℕ} (hn : 1 ≤ n) {etaE expMin : ℝ} (M : MathLibrary R n etaE expMin) (hfops : FastOps R c.toFastCode n etaE expMin) (hg : R.g ≤ 8 / 7)
    {u : ℝ} {Nmax : ℕ} (hops : SignedOps R u Nmax) (hsf : SignedFma R c.toFastCode u)
    (env : Env F) {fft : FFTW F} {delta etaF Wf : ℝ} (hfft : FFTAccurate R fft Nmax delta etaF Wf) (hsm : n ≤ 126 ∨ env.fft = fft)
    (hN : 2 * n + 2049 ≤ Nmax) (hWf : 256 ≤ Wf)
    {B : Fin n → F} (hz : zero ∈ S) (ho : one ∈ S) (hBS : ∀ i, B i ∈ S)
    (hBf : ∀ i, R.finite (B i)) (hB : ValidBound fun i => R.val (B i))
    (isqrt : ℕ → ℕ) (ha : env.asserts = false ∨ isqrt n + 1 ≤ n)
    {Lam : ℝ} (hln : Real.log n ≤ Lam)
    (hLam : ∀ x ∈ S, ∀ y ∈ S, R.finite x → R.finite y → 0 ≤ R.val x → R.val x < R.val y → R.val y ≤ 1 →
      |Real.log (n * (R.val y - R.val x))| ≤ Lam)
    {P Q : ℕ} (hP : 5 * Lam + 5 * Real.log n + 4 ≤ P) (hQ : Q = 8 * n + n * P)
    (hdelta : delta * √Nmax ≤ 1 / 8) (hetaF : etaF ≤ 1) (heta : Nmax * R.eta ≤ 1)
    {th sg eps om tau A : ℝ}
    (hth : th = 8 * Real.log R.g + (R.g ^ P - 1)) (hsg : sg = R.g ^ 2 + (n + 1) * etaE * R.g ^ (Q + 1))
    (heps : eps = √Nmax * (13 * u + 4 * delta) + ((1 + u) ^ (128 + e) - 1))
    (hom : om = √Nmax * 2 * (12 * etaF + 34 * (Nmax * R.eta)) + 128 ^ 2 * (1 + u) ^ (128 + e) * R.eta)
    (htau : tau = sg * (1 + eps) - 1 + om + (n + 1) * R.eta) (hsmall : (1 + tau) ^ (5 * n + 1) * Real.exp (5 * (n * th)) ≤ 2)
    (hA : A = (1 + u) * (((1 + tau) ^ (5 * n + 1) * Real.exp (5 * (n * th)) - 1) * (R.g ^ (Q + 2) / poissonProb n n + R.eta) + (R.g ^ (Q + 2) - 1) + R.eta) + u + R.eta)
    (hO : 512 ≤ R.Omega) (hO' : (1 + u) ^ (128 + e) * (4 + 128 * R.eta) ≤ R.Omega) (hO'' : 1 + A ≤ R.Omega)
    (hO1 : 7 * (n * Lam + n + Real.log n.factorial) ≤ R.Omega) (hO2 : R.g ^ (Q + 1) / poissonProb n n ≤ R.Omega)
    (hmin : expMin * R.g ^ Q ≤ poissonProb n n) :
    ∃ x, ecdf1NewBFast c env isqrt (List.ofFn B) = .ok x ∧ R.finite x ∧ |R.val x - upperProb fun i => R.val (B i)| ≤ A := by
  subst hQ
  exact newBSharp_error hc env hn (sharpPmf_of_lib M hfops hc hg hn hln hLam hP rfl hO1 hO2 hmin) hops hsf hfft hsm hN hWf hz ho hBS hBf hB isqrt ha
    hdelta hetaF heta hth hsg heps hom htau hsmall hA hO hO' hO'' hO2

/-- C79: `ecdf1_new_b` as compiled: the boundary is reflected, which adds the rounding of `1 - b[i]`. -/
theorem C79_ecdf1_new_b_error {F : Type} [FOps F] {R : FloatModel F} {S : Set F} {c : FastCodeNew F} {e : ℕ} (hc : FastCode.Legal c.toFastCode e)
    {n : ℕ} (hn : 1 ≤ n) {etaE expMin : ℝ} (M : MathLibrary R n etaE expMin) (hfops : FastOps R c.toFastCode n etaE expMin) (hg : R.g ≤ 8 / 7)
    {u : ℝ} {Nmax : ℕ} (hops : SignedOps R u Nmax) (hsf : SignedFma R c.toFastCode u)
    (env : Env F) {fft : FFTW F} {delta etaF Wf : ℝ} (hfft : FFTAccurate R fft Nmax delta etaF Wf) (hsm : n ≤ 126 ∨ env.fft = fft)
    (hN : 2 * n + 2049 ≤ Nmax) (hWf : 256 ≤ Wf)
    (hrefl : MonotoneReflect R) {b : Fin n → F} (hz : zero ∈ S) (ho : one ∈ S) (hbS : ∀ i, one -ᶠ b i ∈ S)
    (hbf : ∀ i, R.finite (b i)) (hb : ValidBound fun i => R.val (b i))
    (isqrt : ℕ → ℕ) (ha : env.asserts = false ∨ isqrt n + 1 ≤ n)
    {Lam : ℝ} (hln : Real.log n ≤ Lam)
    (hLam : ∀ x ∈ S, ∀ y ∈ S, R.finite x → R.finite y → 0 ≤ R.val x → R.val x < R.val y → R.val y ≤ 1 →
      |Real.log (n * (R.val y - R.val x))| ≤ Lam)
    {P Q : ℕ} (hP : 5 * Lam + 5 * Real.log n + 4 ≤ P) (hQ : Q = 8 * n + n * P)
    (hdelta : delta * √Nmax ≤ 1 / 8) (hetaF : etaF ≤ 1) (heta : Nmax * R.eta ≤ 1)
    {th sg eps om tau A : ℝ}
    (hth : th = 8 * Real.log R.g + (R.g ^ P - 1)) (hsg : sg = R.g ^ 2 + (n + 1) * etaE * R.g ^ (Q + 1))
    (heps : eps = √Nmax * (13 * u + 4 * delta) + ((1 + u) ^ (128 + e) - 1))
    (hom : om = √Nmax * 2 * (12 * etaF + 34 * (Nmax * R.eta)) + 128 ^ 2 * (1 + u) ^ (128 + e) * R.eta)
    (htau : tau = sg * (1 + eps) - 1 + om + (n + 1) * R.eta) (hsmall : (1 + tau) ^ (5 * n + 1) * Real.exp (5 * (n * th)) ≤ 2)
    (hA : A = (1 + u) * (((1 + tau) ^ (5 * n + 1) * Real.exp (5 * (n * th)) - 1) * (R.g ^ (Q + 2) / poissonProb n n + R.eta) + (R.g ^ (Q + 2) - 1) + R.eta) + u + R.eta)
    (hO : 512 ≤ R.Omega) (hO' : (1 + u) ^ (128 + e) * (4 + 128 * R.eta) ≤ R.Omega) (hO'' : 1 + A ≤ R.Omega)
    (hO1 : 7 * (n * Lam + n + Real.log n.factorial) ≤ R.Omega) (hO2 : R.g ^ (Q + 1) / poissonProb n n ≤ R.Omega)
    (hmin : expMin * R.g ^ Q ≤ poissonProb n n) :
    ∃ x, ecdf1NewbFast c env isqrt (List.ofFn b) = .ok x ∧ R.finite x ∧ |R.val x - lowerProb fun i => R.val (b i)| ≤ A + n ^ 2 * u :=
  newbFast_of_B env hops hrefl isqrt (by linarith) hbS hbf hb fun _ hBS hBf hB =>
    C79_ecdf1_new_B_error hc hn M hfops hg hops hsf env hfft hsm hN hWf hz ho hBS hBf hB isqrt ha hln hLam hP hQ hdelta hetaF heta hth hsg heps hom
      htau hsmall hA hO hO' hO'' hO1 hO2 hmin

variable {A : FloatSystem}

/-- `ecdf1_new` as compiled, in double precision, with the size and the error as parameters. -/
theorem double_newSharp (hf : A.f = binary64) {c : FastCodeNew (Num A)} (hc : FastIeee A u50 c.toFastCode) {ex ex' : ℕ}
    (hleg : FastCode.Legal c.toFastCode ex) (hex : ex ≤ ex')
    {n N m P Q s : ℕ} {Yb : ℝ} (hn : 1 ≤ n) (hnN : n ≤ N) (hL : LibmAccurate A u50 n)
    (env : Env (Num A)) {fft : FFTW (Num A)} {delta etaF : ℝ} (hδ : delta ≤ (2 : ℝ) ^ (-45 : ℤ)) (hη : etaF ≤ (2 : ℝ) ^ (-100 : ℤ))
    (hfft : FFTAccurate (ieeeModel A u50 (double_ok hf)) fft (2 * n + 2049) delta etaF 256) (hsm : n ≤ 126 ∨ env.fft = fft)
    {v : Fin n → Num A} (hvf : ∀ i, (v i).finite) (hv : ValidBound fun i => (v i).val)
    (isqrt : ℕ → ℕ) (ha : env.asserts = false ∨ isqrt n + 1 ≤ n)
    (hm : (N : ℝ) ≤ (27 / 10 : ℝ) ^ m) (hP' : 5 * ((m : ℝ) + 744.45) + 5 * m + 4 ≤ P) (hQ : Q = 8 * n + n * P)
    (hN : N ≤ 2 ^ 20) (hQ2 : Q ≤ 2 ^ 40) (hs : N ≤ s ^ 2) (hs2 : s ≤ 2 ^ 10)
    (hYb : (5 * n + 1) * (21 / 20 * (3 * u50 + √(2 * n + 2049 : ℕ) * (13 * u50 + 4 * (1 / 2 ^ 45)) + (128 + ex') * u50) + 1 / 10 ^ 20)
      + 51 / 10 * ((Q + 2) * u50) ≤ Yb) (hsmall : Yb ≤ 1 / 100) :
    (∃ x : Num A, ecdf1NewBFast c env isqrt (List.ofFn v) = .ok x ∧ x.finite ∧
      |x.val - upperProb (fun i => (v i).val)| ≤ 3 / 2 * Real.exp 1 * √n * Yb) ∧
    (∃ x : Num A, ecdf1NewbFast c env isqrt (List.ofFn v) = .ok x ∧ x.finite ∧
      |x.val - lowerProb (fun i => (v i).val)| ≤ 3 / 2 * Real.exp 1 * √n * Yb + n ^ 2 * u50) := by
  have h := double_ok hf
  have hemin : A.f.emin = -1074 := by rw [hf]; rfl
  have hemax : A.f.emax = 1024 := by rw [hf]; rfl
  have hp : A.f.p = 53 := by rw [hf]; rfl
  have hmn : A.f.minNormal = (2 : ℝ) ^ (-1022 : ℤ) := by
    unfold Format.minNormal; rw [hemin, hp]; norm_num
  have hu0 := h.u_pos
  have hδ0 := hfft.delta_nonneg
  have hη0 := hfft.etaF_nonneg
  have hNr : (N : ℝ) ≤ 2 ^ 20 := by exact_mod_cast hN
  have hnr : (n : ℝ) ≤ N := by exact_mod_cast hnN
  have hn1 : (1 : ℝ) ≤ n := by exact_mod_cast hn
  have hsr : (s : ℝ) ≤ 2 ^ 10 := by exact_mod_cast hs2
  have hPr : 5 * (Real.log n + Real.log (1 / (2 : ℝ) ^ (-1074 : ℤ))) + 5 * Real.log n + 4 ≤ P := by
    have h1 := log_le_of_exp hn ((by exact_mod_cast hnN : (n : ℝ) ≤ N).trans hm)
    have h2 := log_gap
    linarith
  obtain ⟨r, hr⟩ : ∃ r : ℝ, r = √((2 * n + 2049 : ℕ) : ℝ) := ⟨_, rfl⟩
  have hrr : r ≤ 2 ^ 12 := by
    rw [hr, Real.sqrt_le_left (by norm_num)]
    exact_mod_cast (by omega : 2 * n + 2049 ≤ (2 ^ 12) ^ 2)
  have hr0 : (0 : ℝ) ≤ r := by rw [hr]; exact Real.sqrt_nonneg _
  have hQr : (Q : ℝ) ≤ 2 ^ 40 := by exact_mod_cast hQ2
  have hexr : (ex : ℝ) ≤ ex' := by exact_mod_cast hex
  have hEs := esqrt_le (n := n) (s := s) (hnN.trans hs)
  have hE0 : 0 ≤ Real.exp 1 * √(n : ℝ) := by positivity
  have hE12 : Real.exp 1 * √(n : ℝ) ≤ 2 ^ 12 := by linarith
  have hsq : √(n : ℝ) ≤ 2 ^ 10 := by
    refine le_trans ?_ hsr
    rw [Real.sqrt_le_left (Nat.cast_nonneg s)]
    exact_mod_cast hnN.trans hs
  have hNm : ((2 * n + 2049 : ℕ) : ℝ) ≤ 2 ^ 22 := by push_cast; linarith
  have hsr' : √((2 * n + 2049 : ℕ) : ℝ) ≤ r := hr.ge
  have hs0 := Real.sqrt_nonneg ((2 * n + 2049 : ℕ) : ℝ)
  have c1 : 2 * n + 2049 ≤ 2 ^ A.f.p := by rw [hp]; omega
  have c2 : ((2 * n + 2049 : ℕ) : ℝ) * A.f.minNormal ≤ 1 := by
    rw [hmn]
    calc ((2 * n + 2049 : ℕ) : ℝ) * (2 : ℝ) ^ (-1022 : ℤ) ≤ 2 ^ 22 * (2 : ℝ) ^ (-22 : ℤ) :=
          mul_le_mul hNm (zpow_le_zpow_right₀ (by norm_num) (by norm_num)) (by positivity) (by norm_num)
      _ ≤ 1 := by norm_num
  have c3 : A.f.minNormal * (2 * (Real.exp 1 * √n)) ≤ 1 := by
    rw [hmn]
    calc (2 : ℝ) ^ (-1022 : ℤ) * (2 * (Real.exp 1 * √n)) ≤ (2 : ℝ) ^ (-20 : ℤ) * (2 * 2 ^ 12) :=
          mul_le_mul (zpow_le_zpow_right₀ (by norm_num) (by norm_num)) (by linarith) (by linarith) (by positivity)
      _ ≤ 1 := by norm_num
  have c4 : 2 * (Q : ℝ) + 512 + ((2 * n + 2049 : ℕ) : ℝ) + 6 * √n ≤ (2 : ℝ) ^ (A.f.emax - 1) := by
    rw [hemax]
    have h1 : 2 * (Q : ℝ) + 512 + ((2 * n + 2049 : ℕ) : ℝ) + 6 * √n ≤ (2 : ℝ) ^ (50 : ℤ) := by
      have e : (2 : ℝ) ^ (50 : ℤ) = 1125899906842624 := by norm_num
      rw [e]
      linarith
    exact h1.trans (zpow_le_zpow_right₀ (by norm_num) (by norm_num))
  obtain ⟨T, hT⟩ : ∃ T, T = 21 / 20 * (3 * u50 + √(2 * n + 2049 : ℕ) * (13 * u50 + 4 * delta) + (128 + ex) * u50)
      + (24 * √(2 * n + 2049 : ℕ) * etaF + (34 * √(2 * n + 2049 : ℕ) * (2 * n + 2049 : ℕ) + 128 ^ 2 + 4 * (n + 1)) * (2 : ℝ) ^ A.f.emin) :=
    ⟨_, rfl⟩
  have hT0 : 0 ≤ T := by rw [hT]; positivity
  have hTT : T ≤ 21 / 20 * (3 * u50 + r * (13 * u50 + 4 * (1 / 2 ^ 45)) + (128 + ex') * u50) + 1 / 10 ^ 20 := by
    have h45 : (2 : ℝ) ^ (-45 : ℤ) = 1 / 2 ^ 45 := by norm_num
    rw [h45] at hδ
    have h100 : (2 : ℝ) ^ (-100 : ℤ) ≤ 1 / 10 ^ 30 := by norm_num
    have hw : (2 : ℝ) ^ (-1074 : ℤ) ≤ 1 / 10 ^ 40 :=
      (zpow_le_zpow_right₀ (by norm_num) (by norm_num) : (2 : ℝ) ^ (-1074 : ℤ) ≤ 2 ^ (-200 : ℤ)).trans (by norm_num)
    have hw0 : (0 : ℝ) < (2 : ℝ) ^ (-1074 : ℤ) := by positivity
    have a1 : √((2 * n + 2049 : ℕ) : ℝ) * (13 * u50 + 4 * delta) ≤ r * (13 * u50 + 4 * (1 / 2 ^ 45)) :=
      mul_le_mul hsr' (by linarith) (by positivity) hr0
    have a2 : 24 * √((2 * n + 2049 : ℕ) : ℝ) * etaF ≤ 24 * 2 ^ 12 * (1 / 10 ^ 30) :=
      mul_le_mul (by linarith) (hη.trans h100) hη0 (by norm_num)
    have a3 : √((2 * n + 2049 : ℕ) : ℝ) * ((2 * n + 2049 : ℕ) : ℝ) ≤ 2 ^ 12 * 2 ^ 22 :=
      mul_le_mul (hsr'.trans hrr) hNm (Nat.cast_nonneg _) (by norm_num)
    have a4 : (34 * √((2 * n + 2049 : ℕ) : ℝ) * ((2 * n + 2049 : ℕ) : ℝ) + 128 ^ 2 + 4 * (n + 1)) * (2 : ℝ) ^ (-1074 : ℤ)
        ≤ (34 * (2 ^ 12 * 2 ^ 22) + 128 ^ 2 + 4 * (2 ^ 20 + 1)) * (1 / 10 ^ 40) :=
      mul_le_mul (by linarith) hw hw0.le (by norm_num)
    have a5 : (128 + (ex : ℝ)) * u50 ≤ (128 + ex') * u50 := mul_le_mul_of_nonneg_right (by linarith) hu0.le
    rw [hT, hemin]
    refine add_le_add (mul_le_mul_of_nonneg_left (add_le_add (add_le_add le_rfl a1) a5) (by norm_num)) ((add_le_add a2 a4).trans (by norm_num))
  rw [← hr] at hYb
  have hmT : (5 * (n : ℝ) + 1) * T ≤ (5 * n + 1) * (21 / 20 * (3 * u50 + r * (13 * u50 + 4 * (1 / 2 ^ 45)) + (128 + ex') * u50) + 1 / 10 ^ 20) :=
    mul_le_mul_of_nonneg_left hTT (by linarith)
  have hfin : 3 / 2 * Real.exp 1 * √(n : ℝ) * ((5 * n + 1) * T + 51 / 10 * ((Q + 2) * u50)) ≤ 3 / 2 * Real.exp 1 * √n * Yb :=
    mul_le_mul_of_nonneg_left (by linarith) (by positivity)
  constructor
  · obtain ⟨x, hx, hxf, hxA⟩ := ieee_newSharp_B h hc hleg env hn hL le_rfl c1 c2 hfft hsm (S := univ) exp_gap_one.1 exp_gap_one.2
      (double_gap hf) (mem_univ _) (mem_univ _) (fun _ => mem_univ _) hvf hv isqrt ha hPr hQ c4 c3 hT rfl (by linarith)
    exact ⟨x, hx, hxf, hxA.trans hfin⟩
  · obtain ⟨x, hx, hxf, hxA⟩ := ieee_newSharp_b h hc hleg env hn hL le_rfl c1 c2 hfft hsm (S := univ) exp_gap_one.1 exp_gap_one.2
      (double_gap hf) (mem_univ _) (mem_univ _) (fun _ => mem_univ _) hvf hv isqrt ha hPr hQ c4 c3 hT rfl (by linarith)
    exact ⟨x, hx, hxf, hxA.trans (by linarith)⟩

/-- The constants of `C79_double`. -/
theorem newSharp_consts {n : ℕ} (hn : 1 ≤ n) (hn' : n ≤ 100000) : ∃ Yb : ℝ,
    (5 * n + 1) * (21 / 20 * (3 * u50 + √(2 * n + 2049 : ℕ) * (13 * u50 + 4 * (1 / 2 ^ 45)) + (128 + (1000 : ℕ)) * u50) + 1 / 10 ^ 20)
      + 51 / 10 * (((8 * n + n * 3847 : ℕ) + 2) * u50) ≤ Yb ∧ Yb ≤ 1 / 100 ∧
    3 / 2 * Real.exp 1 * √n * Yb + n ^ 2 * u50 ≤ (38 * (n : ℝ) ^ 2 + 2440 * (n * √n)) / 10 ^ 13 := by
  have hn1 : (1 : ℝ) ≤ n := by exact_mod_cast hn
  have hn5 : (n : ℝ) ≤ 100000 := by exact_mod_cast hn'
  obtain ⟨q, hq⟩ : ∃ q, q = √(n : ℝ) := ⟨_, rfl⟩
  have hq1 : 1 ≤ q := by
    rw [hq, show (1 : ℝ) = √1 by simp]; exact Real.sqrt_le_sqrt hn1
  have hqq : q * q = n := by rw [hq]; exact Real.mul_self_sqrt (by linarith)
  have hqn : q ≤ n := by rw [← hqq]; exact le_mul_of_one_le_right (by linarith) hq1
  have hq317 : q ≤ 317 := by
    rw [hq, Real.sqrt_le_left (by norm_num)]; linarith
  obtain ⟨r, hr⟩ : ∃ r, r = √((2 * n + 2049 : ℕ) : ℝ) := ⟨_, rfl⟩
  have hr' : r ≤ 14143 / 10000 * q + 4527 / 100 := by
    rw [hr, Real.sqrt_le_left (by linarith)]
    push_cast
    nlinarith
  have hr0 : 0 ≤ r := by rw [hr]; exact Real.sqrt_nonneg _
  have hnq : (n : ℝ) * q ≤ 100000 * 317 := mul_le_mul hn5 hq317 (by linarith) (by norm_num)
  have hnq0 : 0 ≤ (n : ℝ) * q := mul_nonneg (by linarith) (by linarith)
  rw [← hq, ← hr, u50_val]
  refine ⟨59715 / 10 ^ 15 * n + 930 / 10 ^ 15 * (n * q), ?_, by linarith, ?_⟩
  · push_cast
    have t1 : 21 / 20 * (3 * (1 / 1125899906842624) + r * (13 * (1 / 1125899906842624) + 4 * (1 / 2 ^ 45)) + (128 + 1000) * (1 / 1125899906842624)) + 1 / 10 ^ 20
        ≤ 7009 / 10 ^ 15 + 186 / 10 ^ 15 * q := by linarith
    have t3 := mul_le_mul_of_nonneg_left t1 (by linarith : 0 ≤ 5 * (n : ℝ) + 1)
    refine le_trans (add_le_add t3 le_rfl) ?_
    have e1 : (5 * (n : ℝ) + 1) * (7009 / 10 ^ 15 + 186 / 10 ^ 15 * q) = 35045 / 10 ^ 15 * n + 7009 / 10 ^ 15 + 930 / 10 ^ 15 * (n * q) + 186 / 10 ^ 15 * q := by ring
    rw [e1]
    linarith
  · have hexp := Real.exp_one_lt_d9
    have e2 : 3 / 2 * Real.exp 1 * q * (59715 / 10 ^ 15 * n + 930 / 10 ^ 15 * (n * q))
        = Real.exp 1 * (3 / 2 * (59715 / 10 ^ 15 * (n * q) + 930 / 10 ^ 15 * (n * (q * q)))) := by ring
    rw [e2, hqq]
    have h5 : 0 ≤ 3 / 2 * (59715 / 10 ^ 15 * ((n : ℝ) * q) + 930 / 10 ^ 15 * (n * n)) := by positivity
    have h6 := mul_le_mul_of_nonneg_right hexp.le h5
    refine (add_le_add h6 le_rfl).trans ?_
    have : 0 ≤ (n : ℝ) * n := by positivity
    rw [sq]
    linarith

/-- C79: `ecdf1_new_B` and `ecdf1_new_b` compiled with `-ffast-math` in any legal way (no term of an inner sum passing through more than
1000 additional roundings), in IEEE-754 double precision with a math library accurate to four units in the last place and, for more than
126 points, an FFT library of relative accuracy `2^-45`, for every valid boundary of `n <= 100000` doubles: a finite double within
`(38 n^2 + 2440 n √n) 1e-13` of the probability (`8.1e-9` for 10 points, `1.2e-5` for 1000, `6.3e-4` for 10000). -/
theorem C79_double (hf : A.f = binary64) {c : FastCodeNew (Num A)} (hc : FastIeee A u50 c.toFastCode) {e : ℕ}
    (hleg : FastCode.Legal c.toFastCode e) (he : e ≤ 1000) {n : ℕ} (hn : 1 ≤ n) (hn' : n ≤ 100000) (hL : LibmAccurate A u50 n)
    (env : Env (Num A)) (hfft : n ≤ 126 ∨ ∃ delta etaF : ℝ, delta ≤ (2 : ℝ) ^ (-45 : ℤ) ∧ etaF ≤ (2 : ℝ) ^ (-100 : ℤ) ∧
      FFTAccurate (ieeeModel A u50 (double_ok hf)) env.fft (2 * n + 2049) delta etaF 256)
    {v : Fin n → Num A} (hvf : ∀ i, (v i).finite) (hv : ValidBound fun i => (v i).val)
    (isqrt : ℕ → ℕ) (ha : env.asserts = false ∨ isqrt n + 1 ≤ n) :
    (∃ x : Num A, ecdf1NewBFast c env isqrt (List.ofFn v) = .ok x ∧ x.finite ∧
      |x.val - upperProb (fun i => (v i).val)| ≤ (38 * (n : ℝ) ^ 2 + 2440 * (n * √n)) / 10 ^ 13) ∧
    (∃ x : Num A, ecdf1NewbFast c env isqrt (List.ofFn v) = .ok x ∧ x.finite ∧
      |x.val - lowerProb (fun i => (v i).val)| ≤ (38 * (n : ℝ) ^ 2 + 2440 * (n * √n)) / 10 ^ 13) := by
  obtain ⟨fft, delta, etaF, hδ, hη, hF, hsm⟩ : ∃ (fft : FFTW (Num A)) (delta etaF : ℝ), delta ≤ (2 : ℝ) ^ (-45 : ℤ) ∧ etaF ≤ (2 : ℝ) ^ (-100 : ℤ) ∧
      FFTAccurate (ieeeModel A u50 (double_ok hf)) fft (2 * n + 2049) delta etaF 256 ∧ (n ≤ 126 ∨ env.fft = fft) := by
    rcases hfft with h | ⟨delta, etaF, h1, h2, h3⟩
    · obtain ⟨fft, delta, etaF, h1, h2, h3⟩ := exists_goodFFT hf h
      exact ⟨fft, delta, etaF, h1, h2, h3, Or.inl h⟩
    · exact ⟨_, delta, etaF, h1, h2, h3, Or.inr rfl⟩
  obtain ⟨Yb, y1, y2, y3⟩ := newSharp_consts hn hn'
  obtain ⟨⟨x, hx, hxf, hxe⟩, z, hz, hzf, hze⟩ := double_newSharp hf hc hleg he (N := 100000) (m := 12) (P := 3847) (s := 317) (Yb := Yb) hn hn' hL env
    hδ hη hF hsm hvf hv isqrt ha (by norm_num) (by norm_num) rfl (by norm_num) (by omega) (by norm_num) (by norm_num) y1 y2
  have h0 : 0 ≤ (n : ℝ) ^ 2 * u50 := by rw [u50_val]; positivity
  exact ⟨⟨x, hx, hxf, by linarith⟩, z, hz, hzf, by linarith⟩

/-- C79: the same for the source followed to the letter. -/
theorem C79_double_source (hf : A.f = binary64) {n : ℕ} (hn : 1 ≤ n) (hn' : n ≤ 100000) (hL : LibmAccurate A u50 n)
    (env : Env (Num A)) (hfft : n ≤ 126 ∨ ∃ delta etaF : ℝ, delta ≤ (2 : ℝ) ^ (-45 : ℤ) ∧ etaF ≤ (2 : ℝ) ^ (-100 : ℤ) ∧
      FFTAccurate (ieeeModel A u50 (double_ok hf)) env.fft (2 * n + 2049) delta etaF 256)
    {v : Fin n → Num A} (hvf : ∀ i, (v i).finite) (hv : ValidBound fun i => (v i).val)
    (isqrt : ℕ → ℕ) (ha : env.asserts = false ∨ isqrt n + 1 ≤ n) :
    (∃ x : Num A, ecdf1NewB env isqrt (List.ofFn v) = .ok x ∧ x.finite ∧
      |x.val - upperProb (fun i => (v i).val)| ≤ (38 * (n : ℝ) ^ 2 + 2440 * (n * √n)) / 10 ^ 13) ∧
    (∃ x : Num A, ecdf1Newb env isqrt (List.ofFn v) = .ok x ∧ x.finite ∧
      |x.val - lowerProb (fun i => (v i).val)| ≤ (38 * (n : ℝ) ^ 2 + 2440 * (n * √n)) / 10 ^ 13) := by
  obtain ⟨⟨x, hx, h⟩, z, hz, k⟩ := C79_double hf (c := strictCodeNew (exactFma A)) (fastIeee_of hL rfl rfl) (strict_legal _) (by norm_num) hn hn' hL env hfft
    hvf hv isqrt ha
  exact ⟨⟨x, ecdf1NewB_strict_conv _ _ _ _ x hx, h⟩, z, ecdf1Newb_strict_conv _ _ _ _ z hz, k⟩

variable {D : FloatSystem} {G : Type} [FOps G]

/-- The error of the conversion of the decimal numbers in the file. -/
theorem sharpNew_shift {n : ℕ} {e : Fin n → ℝ} (h : ∀ i, e i ≤ 1 / 2 ^ 52) : (n : ℝ) * ∑ i, e i ≤ (n : ℝ) ^ 2 / 10 ^ 15 := by
  have hs : ∑ i, e i ≤ ∑ _i : Fin n, (1 / 2 ^ 52 : ℝ) := Finset.sum_le_sum fun i _ => h i
  rw [Finset.sum_const, Finset.card_univ, Fintype.card_fin, nsmul_eq_mul] at hs
  have h0 : (0 : ℝ) ≤ n := Nat.cast_nonneg n
  calc (n : ℝ) * _ ≤ n * (n * (1 / 2 ^ 52)) := mul_le_mul_of_nonneg_left hs h0
    _ = (n : ℝ) ^ 2 * (1 / 2 ^ 52) := by ring
    _ ≤ (n : ℝ) ^ 2 * (1 / 10 ^ 15) := mul_le_mul_of_nonneg_left (by norm_num) (by positivity)
    _ = _ := by ring

/-- C79: `crossprob ecdf1-new file` as compiled, in IEEE-754 double precision with, for more than 126 points, an FFT library of relative
accuracy `2^-45`, on a file with only an upper boundary of up to 100000 points.  If every number within
`(38n^2 + 2440n√n) 1e-13 + n^2 1e-15` of the probability `P` is written `s` with six significant digits, the program writes `s`, a
newline and nothing else, and exits with 0. -/
theorem C79_program_upper {p : FastProgram (Num D) G} {e : ℕ} (hp : FastMachine p e) (w : World (Num D)) {fmt : Num D → Str} {inRange : ℝ → Prop} {n : ℕ} (hM : DoubleMachine w fmt inRange n)
    (hF : n ≤ 126 ∨ FFTAccurateDouble w n) (ioWhat : Str) (hn : 1 ≤ n) (hn' : n ≤ 100000) (fs : Fin n → Field) (hfs : ∀ i, (fs i).WF)
    (hin : ∀ i, inRange (fs i).num.value) (hv : ValidBound (valuesOf fs)) (ha : w.env.asserts = false ∨ w.isqrt n + 1 ≤ n)
    (name text : Str) (hfile : w.fs name = .contents text) (hlines : FirstTwoLines text [] (lineOf fs))
    {P : ℝ} (hP : P = upperProb (valuesOf fs)) {s : Str} (hs : PrintsAs P ((38 * (n : ℝ) ^ 2 + 2440 * (n * √n)) / 10 ^ 13 + (n : ℝ) ^ 2 / 10 ^ 15) s) :
    crossprobRunFast p w fmt ioWhat ["ecdf1-new".toList, name] = .exited 0 (s ++ ['\n']) := by
  subst hP
  have he : lineOf (n := 0) Fin.elim0 = [] := by simp [lineOf, List.intercalate]
  have hr := read_file hM.strtod (n := 0) (m := n) Fin.elim0 fs (fun i => i.elim0) hfs (fun i => i.elim0) hin hfile (by rw [he]; exact hlines)
  have hread : readAndCheckBoundariesFile w.libc w.fs name = .ok ([], List.ofFn fun i => roundNum D (valuesOf fs i)) := hr.trans (by simp)
  obtain ⟨b1, -, b3, b4⟩ := double_read (A := D) hM.format hv
  have hF' : n ≤ 126 ∨ ∃ delta etaF : ℝ, delta ≤ (2 : ℝ) ^ (-45 : ℤ) ∧ etaF ≤ (2 : ℝ) ^ (-100 : ℤ) ∧
      FFTAccurate (ieeeModel D u50 (double_ok hM.format)) w.env.fft (2 * n + 2049) delta etaF 256 :=
    hF.imp id fun ⟨_, delta, etaF, h⟩ => ⟨delta, etaF, h⟩
  obtain ⟨⟨x, hx, hxf, hxe⟩, -⟩ := C79_double hM.format hp.newAcc hp.new hp.depth hn hn' hM.libm w.env hF' b1 b3 w.isqrt ha
  have hne : (List.ofFn fun i => roundNum D (valuesOf fs i)) ≠ [] := by rw [ne_eq, List.ofFn_eq_nil_iff]; omega
  have hsh := (upper_lipschitz (fun i => (roundNum D (valuesOf fs i)).val) (valuesOf fs)).trans (sharpNew_shift b4)
  have hd := abs_sub_le x.val (upperProb fun i => (roundNum D (valuesOf fs i)).val) (upperProb (valuesOf fs))
  refine runFast_of hM.print ioWhat hread hxf (Or.inl ⟨rfl, ?_⟩) hs (by linarith)
  unfold calculateEcdf1NewIOFast
  rw [if_neg (by simp), if_pos ⟨rfl, List.length_pos_iff.mpr hne⟩, hx]

/-- C79: a file with only a lower boundary. -/
theorem C79_program_lower {p : FastProgram (Num D) G} {e : ℕ} (hp : FastMachine p e) (w : World (Num D)) {fmt : Num D → Str} {inRange : ℝ → Prop} {n : ℕ} (hM : DoubleMachine w fmt inRange n)
    (hF : n ≤ 126 ∨ FFTAccurateDouble w n) (ioWhat : Str) (hn : 1 ≤ n) (hn' : n ≤ 100000) (fs : Fin n → Field) (hfs : ∀ i, (fs i).WF)
    (hin : ∀ i, inRange (fs i).num.value) (hv : ValidBound (valuesOf fs)) (ha : w.env.asserts = false ∨ w.isqrt n + 1 ≤ n)
    (name text : Str) (hfile : w.fs name = .contents text) (hlines : FirstTwoLines text (lineOf fs) [])
    {P : ℝ} (hP : P = lowerProb (valuesOf fs)) {s : Str} (hs : PrintsAs P ((38 * (n : ℝ) ^ 2 + 2440 * (n * √n)) / 10 ^ 13 + (n : ℝ) ^ 2 / 10 ^ 15) s) :
    crossprobRunFast p w fmt ioWhat ["ecdf1-new".toList, name] = .exited 0 (s ++ ['\n']) := by
  subst hP
  have he : lineOf (n := 0) Fin.elim0 = [] := by simp [lineOf, List.intercalate]
  have hr := read_file hM.strtod (n := n) (m := 0) fs Fin.elim0 hfs (fun i => i.elim0) hin (fun i => i.elim0) hfile (by rw [he]; exact hlines)
  have hread : readAndCheckBoundariesFile w.libc w.fs name = .ok (List.ofFn fun i => roundNum D (valuesOf fs i), []) := hr.trans (by simp)
  obtain ⟨b1, -, b3, b4⟩ := double_read (A := D) hM.format hv
  have hF' : n ≤ 126 ∨ ∃ delta etaF : ℝ, delta ≤ (2 : ℝ) ^ (-45 : ℤ) ∧ etaF ≤ (2 : ℝ) ^ (-100 : ℤ) ∧
      FFTAccurate (ieeeModel D u50 (double_ok hM.format)) w.env.fft (2 * n + 2049) delta etaF 256 :=
    hF.imp id fun ⟨_, delta, etaF, h⟩ => ⟨delta, etaF, h⟩
  obtain ⟨-, x, hx, hxf, hxe⟩ := C79_double hM.format hp.newAcc hp.new hp.depth hn hn' hM.libm w.env hF' b1 b3 w.isqrt ha
  have hne : (List.ofFn fun i => roundNum D (valuesOf fs i)) ≠ [] := by rw [ne_eq, List.ofFn_eq_nil_iff]; omega
  have hsh := (lower_lipschitz (fun i => (roundNum D (valuesOf fs i)).val) (valuesOf fs)).trans (sharpNew_shift b4)
  have hd := abs_sub_le x.val (lowerProb fun i => (roundNum D (valuesOf fs i)).val) (lowerProb (valuesOf fs))
  refine runFast_of hM.print ioWhat hread hxf (Or.inl ⟨rfl, ?_⟩) hs (by linarith)
  unfold calculateEcdf1NewIOFast
  rw [if_pos ⟨List.length_pos_iff.mpr hne, rfl⟩, hx]

/-- C79: the same for the source followed to the letter: a file with only an upper boundary. -/
theorem C79_source_upper (w : World (Num D)) {fmt : Num D → Str} {inRange : ℝ → Prop} {n : ℕ} (hM : DoubleMachine w fmt inRange n)
    (hF : n ≤ 126 ∨ FFTAccurateDouble w n) (ioWhat : Str) (hn : 1 ≤ n) (hn' : n ≤ 100000) (fs : Fin n → Field) (hfs : ∀ i, (fs i).WF)
    (hin : ∀ i, inRange (fs i).num.value) (hv : ValidBound (valuesOf fs)) (ha : w.env.asserts = false ∨ w.isqrt n + 1 ≤ n)
    (name text : Str) (hfile : w.fs name = .contents text) (hlines : FirstTwoLines text [] (lineOf fs))
    {P : ℝ} (hP : P = upperProb (valuesOf fs)) {s : Str} (hs : PrintsAs P ((38 * (n : ℝ) ^ 2 + 2440 * (n * √n)) / 10 ^ 13 + (n : ℝ) ^ 2 / 10 ^ 15) s) :
    crossprobRun w fmt ioWhat ["ecdf1-new".toList, name] = .exited 0 (s ++ ['\n']) := by
  subst hP
  have he : lineOf (n := 0) Fin.elim0 = [] := by simp [lineOf, List.intercalate]
  have hr := read_file hM.strtod (n := 0) (m := n) Fin.elim0 fs (fun i => i.elim0) hfs (fun i => i.elim0) hin hfile (by rw [he]; exact hlines)
  have hread : readAndCheckBoundariesFile w.libc w.fs name = .ok ([], List.ofFn fun i => roundNum D (valuesOf fs i)) := hr.trans (by simp)
  obtain ⟨b1, -, b3, b4⟩ := double_read (A := D) hM.format hv
  have hF' : n ≤ 126 ∨ ∃ delta etaF : ℝ, delta ≤ (2 : ℝ) ^ (-45 : ℤ) ∧ etaF ≤ (2 : ℝ) ^ (-100 : ℤ) ∧
      FFTAccurate (ieeeModel D u50 (double_ok hM.format)) w.env.fft (2 * n + 2049) delta etaF 256 :=
    hF.imp id fun ⟨_, delta, etaF, h⟩ => ⟨delta, etaF, h⟩
  obtain ⟨⟨x, hx, hxf, hxe⟩, -⟩ := C79_double_source hM.format hn hn' hM.libm w.env hF' b1 b3 w.isqrt ha
  have hne : (List.ofFn fun i => roundNum D (valuesOf fs i)) ≠ [] := by rw [ne_eq, List.ofFn_eq_nil_iff]; omega
  have hsh := (upper_lipschitz (fun i => (roundNum D (valuesOf fs i)).val) (valuesOf fs)).trans (sharpNew_shift b4)
  have hd := abs_sub_le x.val (upperProb fun i => (roundNum D (valuesOf fs i)).val) (upperProb (valuesOf fs))
  have h : crossprobMain w ["ecdf1-new".toList, name] = .printed x :=
    (C26_printed w _ x).mpr ⟨_, _, _, _, rfl, hread, Or.inr (Or.inl ⟨rfl, Or.inr ⟨by simp, hne, hx.symm⟩⟩)⟩
  exact printed_digits hM.print ioWhat hxf h hs (by linarith)

/-- C79: the source followed to the letter, a file with only a lower boundary. -/
theorem C79_source_lower (w : World (Num D)) {fmt : Num D → Str} {inRange : ℝ → Prop} {n : ℕ} (hM : DoubleMachine w fmt inRange n)
    (hF : n ≤ 126 ∨ FFTAccurateDouble w n) (ioWhat : Str) (hn : 1 ≤ n) (hn' : n ≤ 100000) (fs : Fin n → Field) (hfs : ∀ i, (fs i).WF)
    (hin : ∀ i, inRange (fs i).num.value) (hv : ValidBound (valuesOf fs)) (ha : w.env.asserts = false ∨ w.isqrt n + 1 ≤ n)
    (name text : Str) (hfile : w.fs name = .contents text) (hlines : FirstTwoLines text (lineOf fs) [])
    {P : ℝ} (hP : P = lowerProb (valuesOf fs)) {s : Str} (hs : PrintsAs P ((38 * (n : ℝ) ^ 2 + 2440 * (n * √n)) / 10 ^ 13 + (n : ℝ) ^ 2 / 10 ^ 15) s) :
    crossprobRun w fmt ioWhat ["ecdf1-new".toList, name] = .exited 0 (s ++ ['\n']) := by
  subst hP
  have he : lineOf (n := 0) Fin.elim0 = [] := by simp [lineOf, List.intercalate]
  have hr := read_file hM.strtod (n := n) (m := 0) fs Fin.elim0 hfs (fun i => i.elim0) hin (fun i => i.elim0) hfile (by rw [he]; exact hlines)
  have hread : readAndCheckBoundariesFile w.libc w.fs name = .ok (List.ofFn fun i => roundNum D (valuesOf fs i), []) := hr.trans (by simp)
  obtain ⟨b1, -, b3, b4⟩ := double_read (A := D) hM.format hv
  have hF' : n ≤ 126 ∨ ∃ delta etaF : ℝ, delta ≤ (2 : ℝ) ^ (-45 : ℤ) ∧ etaF ≤ (2 : ℝ) ^ (-100 : ℤ) ∧
      FFTAccurate (ieeeModel D u50 (double_ok hM.format)) w.env.fft (2 * n + 2049) delta etaF 256 :=
    hF.imp id fun ⟨_, delta, etaF, h⟩ => ⟨delta, etaF, h⟩
  obtain ⟨-, x, hx, hxf, hxe⟩ := C79_double_source hM.format hn hn' hM.libm w.env hF' b1 b3 w.isqrt ha
  have hne : (List.ofFn fun i => roundNum D (valuesOf fs i)) ≠ [] := by rw [ne_eq, List.ofFn_eq_nil_iff]; omega
  have hsh := (lower_lipschitz (fun i => (roundNum D (valuesOf fs i)).val) (valuesOf fs)).trans (sharpNew_shift b4)
  have hd := abs_sub_le x.val (lowerProb fun i => (roundNum D (valuesOf fs i)).val) (lowerProb (valuesOf fs))
  have h : crossprobMain w ["ecdf1-new".toList, name] = .printed x :=
    (C26_printed w _ x).mpr ⟨_, _, _, _, rfl, hread, Or.inr (Or.inl ⟨rfl, Or.inl ⟨hne, by simp, hx.symm⟩⟩)⟩
  exact printed_digits hM.print ioWhat hxf h hs (by linarith)

/-- The assumptions can be met, by code that differs from the source, with sizes at which the FFT is used. -/
example (env : Env (Num doubles)) (ha : env.asserts = false) (hE : env.fft = ieeeFFTW doubles) (isqrt : ℕ → ℕ) :
    ∃ x : Num doubles, ecdf1NewBFast twoLanesProgram.new env isqrt (List.ofFn fun _ : Fin 1000 => roundNum doubles (3 / 4)) = .ok x ∧ x.finite ∧
      |x.val - upperProb fun _ : Fin 1000 => (roundNum doubles (3 / 4)).val| ≤ (38 * ((1000 : ℕ) : ℝ) ^ 2 + 2440 * ((1000 : ℕ) * √((1000 : ℕ) : ℝ))) / 10 ^ 13 := by
  obtain ⟨B1, -, B3, -⟩ := double_read (A := doubles) rfl (valid_const (n := 1000) (c := 3 / 4) (by norm_num) (by norm_num))
  obtain ⟨delta, etaF, h1, h2, h3⟩ := goodFFT (A := doubles) rfl (n := 1000) (by norm_num)
  exact (C79_double rfl twoLanesProgram_ok.newAcc twoLanesProgram_ok.new (by norm_num) (by norm_num) (by norm_num) (doubles_libm u50_ge (by norm_num))
    env (Or.inr ⟨delta, etaF, h1, h2, hE ▸ h3⟩) B1 B3 isqrt (Or.inl ha)).1

end
end CP.Props
