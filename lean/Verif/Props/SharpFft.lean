import Verif.Proofs.SharpFftErr
import Verif.Props.FastFft
import Verif.Props.Sharp
/-
Property C76: the absolute error of `ecdf2` with FFT grows like `n^2`.
-/
open MeasureTheory Set
namespace CP.Props
open CP.Spec FOps
noncomputable section

/-- C76: `ecdf2` with FFT as compiled.  In any floating-point arithmetic with unit roundoff `u`, for any legal compilation (the inner loops
of the direct convolution summed in any order, with or without fused multiply-add, the exponents of the Poisson probabilities rearranged in
any way, each product of spectra associated and fused in any way, the final division replaced or not), any FFT library of accuracy `delta`
(any FFT library at all up to 126 points) and any valid finite boundaries, the result is a finite number within `A` of the non-crossing
probability.  `kap` bounds the growth of the error in one of the `2n+1` steps due to the convolution, `exp (n * th)` the growth of the
error due to the Poisson probabilities in all steps together. -/
theorem C76_error {F : Type} [FOps F] {R : FloatModel F} {S : Set F} {c : FastCode F} {e : ℕ} (hc : FastCode.Legal c e)
    {n : ℕ} (hn : 1 ≤ n) {etaE expMin : ℝ} (M : MathLibrary R n etaE expMin) (hfops : FastOps R c n etaE expMin) (hg : R.g ≤ 8 / 7)
    {u : ℝ} {Nmax : ℕ} (hops : SignedOps R u Nmax) (hsf : SignedFma R c u)
    (env : Env F) {fft : FFTW F} {delta etaF Wf : ℝ} (hfft : FFTAccurate R fft Nmax delta etaF Wf) (hsm : n ≤ 126 ∨ env.fft = fft)
    (hN : 2 * n + 2049 ≤ Nmax) (hWf : 256 ≤ Wf)
    {b B : Fin n → F} (hz : zero ∈ S) (ho : one ∈ S) (hbS : ∀ i, b i ∈ S) (hBS : ∀ i, B i ∈ S)
    (hbf : ∀ i, R.finite (b i)) (hBf : ∀ i, R.finite (B i)) (hb : ValidBound fun i => R.val (b i))
    (hB : ValidBound fun i => R.val (B i)) {sort : List (Bound F) → List (Bound F)} (hsort : SortContractF R sort)
    (ha : env.asserts = false ∨ ¬ StronglyCrossed (fun i => R.val (b i)) (fun i => R.val (B i)))
    {Lam : ℝ} (hln : Real.log n ≤ Lam)
    (hLam : ∀ x ∈ S, ∀ y ∈ S, R.finite x → R.finite y → 0 ≤ R.val x → R.val x < R.val y → R.val y ≤ 1 →
      |Real.log (n * (R.val y - R.val x))| ≤ Lam)
    {P Q : ℕ} (hP : 5 * Lam + 5 * Real.log n + 4 ≤ P) (hQ : Q = 8 * n + n * P)
    (hdelta : delta * √Nmax ≤ 1 / 8) (hetaF : etaF ≤ 1) (heta : Nmax * R.eta ≤ 1)
    {th sg eps om kap A : ℝ}
    (hth : th = 8 * Real.log R.g + (R.g ^ P - 1)) (hsg : sg = R.g ^ 2 + (n + 1) * etaE * R.g ^ (Q + 1))
    (heps : eps = √Nmax * (13 * u + 4 * delta) + ((1 + u) ^ (128 + e) - 1))
    (hom : om = √Nmax * 2 * (12 * etaF + 34 * (Nmax * R.eta)) + 128 ^ 2 * (1 + u) ^ (128 + e) * R.eta)
    (hkap : kap = sg * (1 + eps) + om) (hsmall : kap ^ (2 * n + 1) * Real.exp (n * th) ≤ 2)
    (hA : A = (1 + u) * ((kap ^ (2 * n + 1) * Real.exp (n * th) - 1) * (R.g ^ (Q + 2) / poissonProb n n + R.eta) + (R.g ^ (Q + 2) - 1) + R.eta) + u + R.eta)
    (hO : 512 ≤ R.Omega) (hO' : (1 + u) ^ (128 + e) * (4 + 128 * R.eta) ≤ R.Omega) (hO'' : 1 + A ≤ R.Omega)
    (hO1 : 7 * (n * Lam + n + Real.log n.factorial) ≤ R.Omega) (hO2 : R.g ^ (Q + 1) / poissonProb n n ≤ R.Omega)
    (hmin : expMin * R.g ^ Q ≤ poissonProb n n) :
    ∃ x, ecdf2Fast c env sort (List.ofFn b) (List.ofFn B) true = .ok x ∧ R.finite x ∧
      |R.val x - noncrossProb (fun i => R.val (b i)) (fun i => R.val (B i))| ≤ A := by
  subst hQ
  exact fftSharp_error hc env hn (sharpPmf_of_lib M hfops hc hg hn hln hLam hP rfl hO1 hO2 hmin) hops hsf hfft hsm hN hWf hz ho hbS hBS hbf hBf hb hB
    hsort ha hdelta hetaF heta hth hsg heps hom hkap hsmall hA hO hO' hO'' hO2

variable {A : FloatSystem}

/-- `ecdf2` with FFT as compiled, in double precision, with the size and the error as parameters. -/
theorem double_fftSharp (hf : A.f = binary64) {c : FastCode (Num A)} (hc : FastIeee A u50 c) {ex ex' : ℕ}
    (hleg : FastCode.Legal c ex) (hex : ex ≤ ex')
    {n N m P Q s : ℕ} {Yb : ℝ} (hn : 1 ≤ n) (hnN : n ≤ N) (hL : LibmAccurate A u50 n)
    (env : Env (Num A)) {fft : FFTW (Num A)} {delta etaF : ℝ} (hδ : delta ≤ (2 : ℝ) ^ (-45 : ℤ)) (hη : etaF ≤ (2 : ℝ) ^ (-100 : ℤ))
    (hfft : FFTAccurate (ieeeModel A u50 (double_ok hf)) fft (2 * n + 2049) delta etaF 256) (hsm : n ≤ 126 ∨ env.fft = fft)
    {b B : Fin n → Num A} (hbf : ∀ i, (b i).finite) (hBf : ∀ i, (B i).finite)
    (hb : ValidBound fun i => (b i).val) (hB : ValidBound fun i => (B i).val)
    {sort : List (Bound (Num A)) → List (Bound (Num A))} (hperm : ∀ l, (sort l).Perm l)
    (hsorted : ∀ l, (∀ x ∈ l, x.location.finite) → (sort l).Pairwise fun x y => lt y.location x.location = false)
    (ha : env.asserts = false ∨ ¬ StronglyCrossed (fun i => (b i).val) (fun i => (B i).val))
    (hm : (N : ℝ) ≤ (27 / 10 : ℝ) ^ m) (hP' : 5 * ((m : ℝ) + 744.45) + 5 * m + 4 ≤ P) (hQ : Q = 8 * n + n * P)
    (hN : N ≤ 2 ^ 20) (hQ2 : Q ≤ 2 ^ 40) (hs : N ≤ s ^ 2) (hs2 : s ≤ 2 ^ 10)
    (hYb : (2 * n + 1) * (21 / 20 * (3 * u50 + √(2 * n + 2049 : ℕ) * (13 * u50 + 4 * (1 / 2 ^ 45)) + (128 + ex') * u50) + 1 / 10 ^ 20)
      + 51 / 50 * ((Q + 2) * u50) ≤ Yb) (hsmall : Yb ≤ 1 / 100) :
    ∃ x : Num A, ecdf2Fast c env sort (List.ofFn b) (List.ofFn B) true = .ok x ∧ x.finite ∧
      |x.val - noncrossProb (fun i => (b i).val) (fun i => (B i).val)| ≤ 3 / 2 * Real.exp 1 * √n * Yb := by
  have h := double_ok hf
  have hemin : A.f.emin = -1074 := by rw [hf]; rfl
  have hemax : A.f.emax = 1024 := by rw [hf]; rfl
  have hp : A.f.p = 53 := by rw [hf]; rfl
  have hmn : A.f.minNormal = (2 : ℝ) ^ (-1022 : ℤ) := by
    unfold Format.minNormal; rw [hemin, hp]; norm_num
  have hu0 := h.u_pos
  have hδ0 := hfft.delta_nonneg
  have hη0 := hfft.etaF_nonneg
  have hNr : (N : ℝ) ≤ 2 ^ 20 := by exact_mod_cast hN
  have hnr : (n : ℝ) ≤ N := by exact_mod_cast hnN
  have hn1 : (1 : ℝ) ≤ n := by exact_mod_cast hn
  have hsr : (s : ℝ) ≤ 2 ^ 10 := by exact_mod_cast hs2
  have hPr : 5 * (Real.log n + Real.log (1 / (2 : ℝ) ^ (-1074 : ℤ))) + 5 * Real.log n + 4 ≤ P := by
    have h1 := log_le_of_exp hn ((by exact_mod_cast hnN : (n : ℝ) ≤ N).trans hm)
    have h2 := log_gap
    linarith
  obtain ⟨r, hr⟩ : ∃ r : ℝ, r = √((2 * n + 2049 : ℕ) : ℝ) := ⟨_, rfl⟩
  have hrr : r ≤ 2 ^ 12 := by
    rw [hr, Real.sqrt_le_left (by norm_num)]
    exact_mod_cast (by omega : 2 * n + 2049 ≤ (2 ^ 12) ^ 2)
  have hr0 : (0 : ℝ) ≤ r := by rw [hr]; exact Real.sqrt_nonneg _
  have hQr : (Q : ℝ) ≤ 2 ^ 40 := by exact_mod_cast hQ2
  have hexr : (ex : ℝ) ≤ ex' := by exact_mod_cast hex
  have hEs := esqrt_le (n := n) (s := s) (hnN.trans hs)
  have hE0 : 0 ≤ Real.exp 1 * √(n : ℝ) := by positivity
  have hE12 : Real.exp 1 * √(n : ℝ) ≤ 2 ^ 12 := by linarith
  have hsq : √(n : ℝ) ≤ 2 ^ 10 := by
    refine le_trans ?_ hsr
    rw [Real.sqrt_le_left (Nat.cast_nonneg s)]
    exact_mod_cast hnN.trans hs
  have hNm : ((2 * n + 2049 : ℕ) : ℝ) ≤ 2 ^ 22 := by push_cast; linarith
  have hsr' : √((2 * n + 2049 : ℕ) : ℝ) ≤ r := hr.ge
  have hs0 := Real.sqrt_nonneg ((2 * n + 2049 : ℕ) : ℝ)
  have c1 : 2 * n + 2049 ≤ 2 ^ A.f.p := by rw [hp]; omega
  have c2 : ((2 * n + 2049 : ℕ) : ℝ) * A.f.minNormal ≤ 1 := by
    rw [hmn]
    calc ((2 * n + 2049 : ℕ) : ℝ) * (2 : ℝ) ^ (-1022 : ℤ) ≤ 2 ^ 22 * (2 : ℝ) ^ (-22 : ℤ) :=
          mul_le_mul hNm (zpow_le_zpow_right₀ (by norm_num) (by norm_num)) (by positivity) (by norm_num)
      _ ≤ 1 := by norm_num
  have c3 : A.f.minNormal * (2 * (Real.exp 1 * √n)) ≤ 1 := by
    rw [hmn]
    calc (2 : ℝ) ^ (-1022 : ℤ) * (2 * (Real.exp 1 * √n)) ≤ (2 : ℝ) ^ (-20 : ℤ) * (2 * 2 ^ 12) :=
          mul_le_mul (zpow_le_zpow_right₀ (by norm_num) (by norm_num)) (by linarith) (by linarith) (by positivity)
      _ ≤ 1 := by norm_num
  have c4 : 2 * (Q : ℝ) + 512 + ((2 * n + 2049 : ℕ) : ℝ) + 6 * √n ≤ (2 : ℝ) ^ (A.f.emax - 1) := by
    rw [hemax]
    have h1 : 2 * (Q : ℝ) + 512 + ((2 * n + 2049 : ℕ) : ℝ) + 6 * √n ≤ (2 : ℝ) ^ (50 : ℤ) := by
      have e : (2 : ℝ) ^ (50 : ℤ) = 1125899906842624 := by norm_num
      rw [e]
      linarith
    exact h1.trans (zpow_le_zpow_right₀ (by norm_num) (by norm_num))
  obtain ⟨T, hT⟩ : ∃ T, T = 21 / 20 * (3 * u50 + √(2 * n + 2049 : ℕ) * (13 * u50 + 4 * delta) + (128 + ex) * u50)
      + (24 * √(2 * n + 2049 : ℕ) * etaF + (34 * √(2 * n + 2049 : ℕ) * (2 * n + 2049 : ℕ) + 128 ^ 2 + 3 * (n + 1)) * (2 : ℝ) ^ A.f.emin) :=
    ⟨_, rfl⟩
  have hT0 : 0 ≤ T := by rw [hT]; positivity
  have hTT : T ≤ 21 / 20 * (3 * u50 + r * (13 * u50 + 4 * (1 / 2 ^ 45)) + (128 + ex') * u50) + 1 / 10 ^ 20 := by
    have h45 : (2 : ℝ) ^ (-45 : ℤ) = 1 / 2 ^ 45 := by norm_num
    rw [h45] at hδ
    have h100 : (2 : ℝ) ^ (-100 : ℤ) ≤ 1 / 10 ^ 30 := by norm_num
    have hw : (2 : ℝ) ^ (-1074 : ℤ) ≤ 1 / 10 ^ 40 :=
      (zpow_le_zpow_right₀ (by norm_num) (by norm_num) : (2 : ℝ) ^ (-1074 : ℤ) ≤ 2 ^ (-200 : ℤ)).trans (by norm_num)
    have hw0 : (0 : ℝ) < (2 : ℝ) ^ (-1074 : ℤ) := by positivity
    have a1 : √((2 * n + 2049 : ℕ) : ℝ) * (13 * u50 + 4 * delta) ≤ r * (13 * u50 + 4 * (1 / 2 ^ 45)) :=
      mul_le_mul hsr' (by linarith) (by positivity) hr0
    have a2 : 24 * √((2 * n + 2049 : ℕ) : ℝ) * etaF ≤ 24 * 2 ^ 12 * (1 / 10 ^ 30) :=
      mul_le_mul (by linarith) (hη.trans h100) hη0 (by norm_num)
    have a3 : √((2 * n + 2049 : ℕ) : ℝ) * ((2 * n + 2049 : ℕ) : ℝ) ≤ 2 ^ 12 * 2 ^ 22 :=
      mul_le_mul (hsr'.trans hrr) hNm (Nat.cast_nonneg _) (by norm_num)
    have a4 : (34 * √((2 * n + 2049 : ℕ) : ℝ) * ((2 * n + 2049 : ℕ) : ℝ) + 128 ^ 2 + 3 * (n + 1)) * (2 : ℝ) ^ (-1074 : ℤ)
        ≤ (34 * (2 ^ 12 * 2 ^ 22) + 128 ^ 2 + 3 * (2 ^ 20 + 1)) * (1 / 10 ^ 40) :=
      mul_le_mul (by linarith) hw hw0.le (by norm_num)
    have a5 : (128 + (ex : ℝ)) * u50 ≤ (128 + ex') * u50 := mul_le_mul_of_nonneg_right (by linarith) hu0.le
    rw [hT, hemin]
    refine add_le_add (mul_le_mul_of_nonneg_left (add_le_add (add_le_add le_rfl a1) a5) (by norm_num)) ((add_le_add a2 a4).trans (by norm_num))
  rw [← hr] at hYb
  have hmT : (2 * (n : ℝ) + 1) * T ≤ (2 * n + 1) * (21 / 20 * (3 * u50 + r * (13 * u50 + 4 * (1 / 2 ^ 45)) + (128 + ex') * u50) + 1 / 10 ^ 20) :=
    mul_le_mul_of_nonneg_left hTT (by linarith)
  obtain ⟨x, hx, hxf, hxA⟩ := ieee_fftSharp h hc hleg env hn hL le_rfl c1 c2 hfft hsm (S := univ) (gap := (2 : ℝ) ^ (-1074 : ℤ)) (by positivity)
    (by calc (2 : ℝ) ^ (-1074 : ℤ) ≤ 2 ^ (0 : ℤ) := zpow_le_zpow_right₀ (by norm_num) (by norm_num)
          _ = 1 := zpow_zero _)
    (fun x _ y _ hxf hyf _ hlt _ => by rw [← hemin]; exact fin_gap hxf hyf hlt)
    (mem_univ _) (mem_univ _) (fun _ => mem_univ _) (fun _ => mem_univ _) hbf hBf hb hB (sort := sort) ⟨hperm, hsorted⟩ ha
    hPr hQ c4 c3 hT rfl (by linarith)
  refine ⟨x, hx, hxf, hxA.trans (mul_le_mul_of_nonneg_left (by linarith) (by positivity))⟩

/-- C76: `ecdf2` with FFT compiled with `-ffast-math` in any legal way (no term of an inner sum passing through more than 1000 additional
roundings; every product of spectra associated and fused in any way), in IEEE-754 double precision with a math library accurate to four
units in the last place and an FFT library of relative accuracy `2^-45`, for every pair of valid boundaries of `n <= 100000` doubles: a
finite double within `(16 n^2 + 750 n √n) 1e-13` of the probability (`4e-6` for 1000 points, `2.4e-4` for 10000). -/
theorem C76_double (hf : A.f = binary64) {c : FastCode (Num A)} (hc : FastIeee A u50 c) {e : ℕ} (hleg : FastCode.Legal c e) (he : e ≤ 1000)
    {n : ℕ} (hn : 1 ≤ n) (hn' : n ≤ 100000) (hL : LibmAccurate A u50 n)
    (env : Env (Num A)) {delta etaF : ℝ} (hδ : delta ≤ (2 : ℝ) ^ (-45 : ℤ)) (hη : etaF ≤ (2 : ℝ) ^ (-100 : ℤ))
    (hfft : FFTAccurate (ieeeModel A u50 (double_ok hf)) env.fft (2 * n + 2049) delta etaF 256)
    {b B : Fin n → Num A} (hbf : ∀ i, (b i).finite) (hBf : ∀ i, (B i).finite)
    (hb : ValidBound fun i => (b i).val) (hB : ValidBound fun i => (B i).val)
    {sort : List (Bound (Num A)) → List (Bound (Num A))} (hperm : ∀ l, (sort l).Perm l)
    (hsorted : ∀ l, (∀ x ∈ l, x.location.finite) → (sort l).Pairwise fun x y => lt y.location x.location = false)
    (ha : env.asserts = false ∨ ¬ StronglyCrossed (fun i => (b i).val) (fun i => (B i).val)) :
    ∃ x : Num A, ecdf2Fast c env sort (List.ofFn b) (List.ofFn B) true = .ok x ∧ x.finite ∧
      |x.val - noncrossProb (fun i => (b i).val) (fun i => (B i).val)| ≤ (16 * (n : ℝ) ^ 2 + 750 * (n * √n)) / 10 ^ 13 := by
  have hn1 : (1 : ℝ) ≤ n := by exact_mod_cast hn
  obtain ⟨q, hq⟩ : ∃ q, q = √(n : ℝ) := ⟨_, rfl⟩
  have hq1 : 1 ≤ q := by
    rw [hq, show (1 : ℝ) = √1 by simp]; exact Real.sqrt_le_sqrt hn1
  have hqq : q * q = n := by rw [hq]; exact Real.mul_self_sqrt (by linarith)
  rw [← hq]
  by_cases h126 : n ≤ 126
  · obtain ⟨x, hx, hxf, -, hxe, -⟩ := C75_double hf hc hleg he hn hn' (useFft := true) (Or.inr h126) hL env hbf hBf hb hB hperm hsorted ha
    refine ⟨x, hx, hxf, hxe.trans ?_⟩
    have h1 : noncrossProb (fun i => (b i).val) (fun i => (B i).val) ≤ 1 := (noncrossProb_mem n _ _).2
    have htiny : (2 : ℝ) ^ (-1000 : ℤ) ≤ 1 / 10 ^ 20 :=
      (zpow_le_zpow_right₀ (by norm_num) (by norm_num) : (2 : ℝ) ^ (-1000 : ℤ) ≤ 2 ^ (-100 : ℤ)).trans (by norm_num)
    have h2 : (2 * (n : ℝ) ^ 2 + 11000 * n) / 10 ^ 15 * noncrossProb (fun i => (b i).val) (fun i => (B i).val)
        ≤ (2 * (n : ℝ) ^ 2 + 11000 * n) / 10 ^ 15 := mul_le_of_le_one_right (by positivity) h1
    have h3 : (n : ℝ) ≤ n * q := le_mul_of_one_le_right (by linarith) hq1
    have h4 : 0 ≤ (n : ℝ) ^ 2 := by positivity
    linarith
  · have hn127 : (127 : ℝ) ≤ n := by exact_mod_cast (by omega : 127 ≤ n)
    have hn5 : (n : ℝ) ≤ 100000 := by exact_mod_cast hn'
    have hq317 : q ≤ 317 := by
      rw [hq, Real.sqrt_le_left (by norm_num)]; linarith
    obtain ⟨r, hr⟩ : ∃ r, r = √((2 * n + 2049 : ℕ) : ℝ) := ⟨_, rfl⟩
    have hr' : r ≤ 14143 / 10000 * q + 4527 / 100 := by
      rw [hr, Real.sqrt_le_left (by linarith)]
      push_cast
      nlinarith
    have hr0 : 0 ≤ r := by rw [hr]; exact Real.sqrt_nonneg _
    obtain ⟨Yb, hYb⟩ : ∃ Yb : ℝ, Yb = 17585 / 10 ^ 15 * n + 374 / 10 ^ 15 * (n * q) := ⟨_, rfl⟩
    have hnq : (n : ℝ) * q ≤ 100000 * 317 := mul_le_mul hn5 hq317 (by linarith) (by norm_num)
    have hsmall : Yb ≤ 1 / 100 := by rw [hYb]; linarith
    obtain ⟨x, hx, hxf, hxe⟩ := double_fftSharp hf hc hleg he (N := 100000) (m := 12) (P := 3847) (s := 317) (Yb := Yb) hn hn' hL env hδ hη hfft (Or.inr rfl)
      hbf hBf hb hB hperm hsorted ha (by norm_num) (by norm_num) rfl (by norm_num) (by omega) (by norm_num) (by norm_num)
      (by
        rw [← hr, u50_val, hYb]
        push_cast
        have t1 : 21 / 20 * (3 * (1 / 1125899906842624) + r * (13 * (1 / 1125899906842624) + 4 * (1 / 2 ^ 45)) + (128 + 1000) * (1 / 1125899906842624)) + 1 / 10 ^ 20
            ≤ 7009 / 10 ^ 15 + 186 / 10 ^ 15 * q := by linarith
        have t2 : (2 * (n : ℝ) + 1) ≤ 2008 / 1000 * n := by linarith
        have t3 := mul_le_mul t2 t1 (by positivity) (by linarith)
        refine le_trans (add_le_add t3 le_rfl) ?_
        have e1 : 2008 / 1000 * (n : ℝ) * (7009 / 10 ^ 15 + 186 / 10 ^ 15 * q) = 2008 / 1000 * 7009 / 10 ^ 15 * n + 2008 / 1000 * 186 / 10 ^ 15 * (n * q) := by ring
        rw [e1]
        have : 0 ≤ (n : ℝ) * q := by positivity
        linarith) hsmall
    refine ⟨x, hx, hxf, hxe.trans ?_⟩
    rw [← hq, hYb]
    have hexp := Real.exp_one_lt_d9
    have e2 : 3 / 2 * Real.exp 1 * q * (17585 / 10 ^ 15 * n + 374 / 10 ^ 15 * (n * q))
        = Real.exp 1 * (3 / 2 * (17585 / 10 ^ 15 * (n * q) + 374 / 10 ^ 15 * (n * (q * q)))) := by ring
    rw [e2, hqq]
    have h5 : 0 ≤ 3 / 2 * (17585 / 10 ^ 15 * ((n : ℝ) * q) + 374 / 10 ^ 15 * (n * n)) := by positivity
    have h6 := mul_le_mul_of_nonneg_right hexp.le h5
    refine h6.trans ?_
    have : 0 ≤ (n : ℝ) * q := by positivity
    have : 0 ≤ (n : ℝ) * n := by positivity
    rw [sq]
    linarith

/-- C76: the same for the source followed to the letter. -/
theorem C76_double_source (hf : A.f = binary64) {n : ℕ} (hn : 1 ≤ n) (hn' : n ≤ 100000) (hL : LibmAccurate A u50 n)
    (env : Env (Num A)) {delta etaF : ℝ} (hδ : delta ≤ (2 : ℝ) ^ (-45 : ℤ)) (hη : etaF ≤ (2 : ℝ) ^ (-100 : ℤ))
    (hfft : FFTAccurate (ieeeModel A u50 (double_ok hf)) env.fft (2 * n + 2049) delta etaF 256)
    {b B : Fin n → Num A} (hbf : ∀ i, (b i).finite) (hBf : ∀ i, (B i).finite)
    (hb : ValidBound fun i => (b i).val) (hB : ValidBound fun i => (B i).val)
    {sort : List (Bound (Num A)) → List (Bound (Num A))} (hperm : ∀ l, (sort l).Perm l)
    (hsorted : ∀ l, (∀ x ∈ l, x.location.finite) → (sort l).Pairwise fun x y => lt y.location x.location = false)
    (ha : env.asserts = false ∨ ¬ StronglyCrossed (fun i => (b i).val) (fun i => (B i).val)) :
    ∃ x : Num A, ecdf2 env sort (List.ofFn b) (List.ofFn B) true = .ok x ∧ x.finite ∧
      |x.val - noncrossProb (fun i => (b i).val) (fun i => (B i).val)| ≤ (16 * (n : ℝ) ^ 2 + 750 * (n * √n)) / 10 ^ 13 := by
  obtain ⟨x, hx, h⟩ := C76_double hf (c := strictCode (exactFma A)) (fastIeee_of hL rfl rfl) (strict_legal _) (by norm_num) hn hn' hL env hδ hη hfft
    hbf hBf hb hB hperm hsorted ha
  exact ⟨x, ecdf2_strict_conv _ _ _ _ _ _ x hx, h⟩

variable {D : FloatSystem} {G : Type} [FOps G]

/-- The error of the computation and of the conversion of the decimal numbers in the file. -/
theorem sharpFft_acc {n : ℕ} {P x q E : ℝ} (hxe : |x - q| ≤ E) (hsh : |q - P| ≤ (n : ℝ) ^ 2 / 2 ^ 51) :
    |x - P| ≤ E + (n : ℝ) ^ 2 / 10 ^ 15 := by
  have e1 : (n : ℝ) ^ 2 / 2 ^ 51 ≤ (n : ℝ) ^ 2 / 10 ^ 15 := div_le_div_of_nonneg_left (by positivity) (by norm_num) (by norm_num)
  have h2 := abs_sub_le x q P
  linarith

/-- `ecdf2-mn2017` as compiled, given what was read from the file. -/
theorem sharpFft_ecdf2 {p : FastProgram (Num D) G} {e : ℕ} (hp : FastMachine p e) (w : World (Num D)) {fmt : Num D → Str} {inRange : ℝ → Prop} {n : ℕ} (hM : DoubleMachine w fmt inRange n) (hF : FFTAccurateDouble w n)
    (ioWhat : Str) (hn : 1 ≤ n) (hn' : n ≤ 100000) {b B : Fin n → ℝ} (hb : ValidBound b) (hB : ValidBound B)
    (ha : w.env.asserts = false ∨ ¬ StronglyCrossed b B) {name : Str} {lb lB : List (Num D)}
    (hread : readAndCheckBoundariesFile w.libc w.fs name = .ok (lb, lB))
    (hpad : Computes.Padded lb lB (List.ofFn fun i => roundNum D (b i)) (List.ofFn fun i => roundNum D (B i)))
    {P : ℝ} (hP : P = noncrossProb b B) {s : Str} (hs : PrintsAs P ((16 * (n : ℝ) ^ 2 + 750 * (n * √n)) / 10 ^ 13 + (n : ℝ) ^ 2 / 10 ^ 15) s) :
    crossprobRunFast p w fmt ioWhat ["ecdf2-mn2017".toList, name] = .exited 0 (s ++ ['\n']) := by
  subst hP
  obtain ⟨b1, -, b3, b4⟩ := double_read (A := D) hM.format hb
  obtain ⟨B1, -, B3, B4⟩ := double_read (A := D) hM.format hB
  have hsh := read_shift le_rfl b4 B4
  have ha' := ha.imp id (not_crossed hM.format hb hB)
  obtain ⟨hf, delta, etaF, hδ, hη, hfft⟩ := hF
  obtain ⟨x, hx, hxf, hxe⟩ := C76_double hf hp.mn2017Acc hp.mn2017 hp.depth hn hn' hM.libm w.env hδ hη hfft b1 B1 b3 B3 hM.sortPerm hM.sortSorted ha'
  exact runFast_of hM.print ioWhat hread hxf (Or.inr (Or.inr ⟨rfl, (calculate_padded (by simp) (by simp) hn hpad).trans hx⟩)) hs (sharpFft_acc hxe hsh)

/-- `ecdf2-mn2017`, the source followed to the letter, given what was read from the file. -/
theorem sharpFft_source (w : World (Num D)) {fmt : Num D → Str} {inRange : ℝ → Prop} {n : ℕ} (hM : DoubleMachine w fmt inRange n) (hF : FFTAccurateDouble w n)
    (ioWhat : Str) (hn : 1 ≤ n) (hn' : n ≤ 100000) {b B : Fin n → ℝ} (hb : ValidBound b) (hB : ValidBound B)
    (ha : w.env.asserts = false ∨ ¬ StronglyCrossed b B) {name : Str} {lb lB : List (Num D)}
    (hread : readAndCheckBoundariesFile w.libc w.fs name = .ok (lb, lB))
    (hpad : Computes.Padded lb lB (List.ofFn fun i => roundNum D (b i)) (List.ofFn fun i => roundNum D (B i)))
    {P : ℝ} (hP : P = noncrossProb b B) {s : Str} (hs : PrintsAs P ((16 * (n : ℝ) ^ 2 + 750 * (n * √n)) / 10 ^ 13 + (n : ℝ) ^ 2 / 10 ^ 15) s) :
    crossprobRun w fmt ioWhat ["ecdf2-mn2017".toList, name] = .exited 0 (s ++ ['\n']) := by
  subst hP
  obtain ⟨b1, -, b3, b4⟩ := double_read (A := D) hM.format hb
  obtain ⟨B1, -, B3, B4⟩ := double_read (A := D) hM.format hB
  have hsh := read_shift le_rfl b4 B4
  have ha' := ha.imp id (not_crossed hM.format hb hB)
  obtain ⟨hf, delta, etaF, hδ, hη, hfft⟩ := hF
  obtain ⟨x, hx, hxf, hxe⟩ := C76_double_source hf hn hn' hM.libm w.env hδ hη hfft b1 B1 b3 B3 hM.sortPerm hM.sortSorted ha'
  have h : crossprobMain w ["ecdf2-mn2017".toList, name] = .printed x :=
    (C26_printed w _ x).mpr ⟨_, _, _, _, rfl, hread, Or.inr (Or.inr (Or.inr ⟨rfl, _, _, hpad, hx.symm⟩))⟩
  exact printed_digits hM.print ioWhat hxf h hs (sharpFft_acc hxe hsh)

/-- C76: `crossprob ecdf2-mn2017 file` as compiled, in IEEE-754 double precision with an FFT library of relative accuracy `2^-45`, on a file
with two valid boundaries of up to 100000 points.  If every number within `(16n^2 + 750n√n) 1e-13 + n^2 1e-15` of the probability `P` is
written `s` with six significant digits, the program writes `s`, a newline and nothing else, and exits with 0. -/
theorem C76_program {p : FastProgram (Num D) G} {e : ℕ} (hp : FastMachine p e) (w : World (Num D)) {fmt : Num D → Str} {inRange : ℝ → Prop} {n : ℕ} (hM : DoubleMachine w fmt inRange n) (hF : FFTAccurateDouble w n)
    (ioWhat : Str) (hn : 1 ≤ n) (hn' : n ≤ 100000) (fb fB : Fin n → Field) (hfb : ∀ i, (fb i).WF) (hfB : ∀ i, (fB i).WF)
    (hinb : ∀ i, inRange (fb i).num.value) (hinB : ∀ i, inRange (fB i).num.value)
    (hb : ValidBound (valuesOf fb)) (hB : ValidBound (valuesOf fB))
    (ha : w.env.asserts = false ∨ ¬ StronglyCrossed (valuesOf fb) (valuesOf fB))
    (name text : Str) (hfile : w.fs name = .contents text) (hlines : FirstTwoLines text (lineOf fb) (lineOf fB))
    {P : ℝ} (hP : P = noncrossProb (valuesOf fb) (valuesOf fB)) {s : Str} (hs : PrintsAs P ((16 * (n : ℝ) ^ 2 + 750 * (n * √n)) / 10 ^ 13 + (n : ℝ) ^ 2 / 10 ^ 15) s) :
    crossprobRunFast p w fmt ioWhat ["ecdf2-mn2017".toList, name] = .exited 0 (s ++ ['\n']) := by
  exact sharpFft_ecdf2 hp w hM hF ioWhat hn hn' hb hB ha (read_file hM.strtod fb fB hfb hfB hinb hinB hfile hlines)
    (Or.inl ⟨by simp, rfl, rfl⟩) hP hs

/-- C76: a file with only an upper boundary. -/
theorem C76_program_upper {p : FastProgram (Num D) G} {e : ℕ} (hp : FastMachine p e) (w : World (Num D)) {fmt : Num D → Str} {inRange : ℝ → Prop} {n : ℕ} (hM : DoubleMachine w fmt inRange n) (hF : FFTAccurateDouble w n)
    (ioWhat : Str) (hn : 1 ≤ n) (hn' : n ≤ 100000) (fs : Fin n → Field) (hfs : ∀ i, (fs i).WF)
    (hin : ∀ i, inRange (fs i).num.value) (hB : ValidBound (valuesOf fs))
    (name text : Str) (hfile : w.fs name = .contents text) (hlines : FirstTwoLines text [] (lineOf fs))
    {P : ℝ} (hP : P = upperProb (valuesOf fs)) {s : Str} (hs : PrintsAs P ((16 * (n : ℝ) ^ 2 + 750 * (n * √n)) / 10 ^ 13 + (n : ℝ) ^ 2 / 10 ^ 15) s) :
    crossprobRunFast p w fmt ioWhat ["ecdf2-mn2017".toList, name] = .exited 0 (s ++ ['\n']) := by
  have he : lineOf (n := 0) Fin.elim0 = [] := by simp [lineOf, List.intercalate]
  have hz : noncrossProb (fun _ : Fin n => (0 : ℝ)) (valuesOf fs) = P := by rw [hP]; exact noncrossProb_zeros fun _ => le_rfl
  refine sharpFft_ecdf2 hp w hM hF ioWhat hn hn' (valid_const le_rfl zero_le_one) hB (Or.inr ?_)
    (read_file hM.strtod (n := 0) (m := n) Fin.elim0 fs (fun i => i.elim0) hfs (fun i => i.elim0) hin hfile (by rw [he]; exact hlines))
    (Or.inr (Or.inl ⟨by simp, by rw [ne_eq, List.ofFn_eq_nil_iff]; omega, ?_, rfl⟩)) hz.symm hs
  · rintro ⟨i, j, -, h⟩
    have := (hB.range i).1
    have := (hB.range j).1
    linarith
  · rw [List.length_ofFn, round_zero, replicate_ofFn]

/-- C76: a file with only a lower boundary. -/
theorem C76_program_lower {p : FastProgram (Num D) G} {e : ℕ} (hp : FastMachine p e) (w : World (Num D)) {fmt : Num D → Str} {inRange : ℝ → Prop} {n : ℕ} (hM : DoubleMachine w fmt inRange n) (hF : FFTAccurateDouble w n)
    (ioWhat : Str) (hn : 1 ≤ n) (hn' : n ≤ 100000) (fs : Fin n → Field) (hfs : ∀ i, (fs i).WF)
    (hin : ∀ i, inRange (fs i).num.value) (hb : ValidBound (valuesOf fs))
    (name text : Str) (hfile : w.fs name = .contents text) (hlines : FirstTwoLines text (lineOf fs) [])
    {P : ℝ} (hP : P = lowerProb (valuesOf fs)) {s : Str} (hs : PrintsAs P ((16 * (n : ℝ) ^ 2 + 750 * (n * √n)) / 10 ^ 13 + (n : ℝ) ^ 2 / 10 ^ 15) s) :
    crossprobRunFast p w fmt ioWhat ["ecdf2-mn2017".toList, name] = .exited 0 (s ++ ['\n']) := by
  have he : lineOf (n := 0) Fin.elim0 = [] := by simp [lineOf, List.intercalate]
  have hz : noncrossProb (valuesOf fs) (fun _ : Fin n => (1 : ℝ)) = P := by rw [hP]; exact noncrossProb_ones fun _ => le_rfl
  refine sharpFft_ecdf2 hp w hM hF ioWhat hn hn' hb (valid_const zero_le_one le_rfl) (Or.inr ?_)
    (read_file hM.strtod (n := n) (m := 0) fs Fin.elim0 hfs (fun i => i.elim0) hin (fun i => i.elim0) hfile (by rw [he]; exact hlines))
    (Or.inr (Or.inr ⟨by rw [ne_eq, List.ofFn_eq_nil_iff]; omega, by simp, rfl, ?_⟩)) hz.symm hs
  · rintro ⟨i, j, -, h⟩
    have := (hb.range i).2
    have := (hb.range j).2
    linarith
  · rw [List.length_ofFn, round_one, replicate_ofFn]

/-- C76: `crossprob ecdf2-mn2017 file` with the source followed to the letter.  If every number within `(16n^2 + 750n√n) 1e-13 + n^2 1e-15`
of the probability `P` is written `s` with six significant digits, the program writes `s`, a newline and nothing else, and exits with 0. -/
theorem C76_source (w : World (Num D)) {fmt : Num D → Str} {inRange : ℝ → Prop} {n : ℕ} (hM : DoubleMachine w fmt inRange n) (hF : FFTAccurateDouble w n)
    (ioWhat : Str) (hn : 1 ≤ n) (hn' : n ≤ 100000) (fb fB : Fin n → Field) (hfb : ∀ i, (fb i).WF) (hfB : ∀ i, (fB i).WF)
    (hinb : ∀ i, inRange (fb i).num.value) (hinB : ∀ i, inRange (fB i).num.value)
    (hb : ValidBound (valuesOf fb)) (hB : ValidBound (valuesOf fB))
    (ha : w.env.asserts = false ∨ ¬ StronglyCrossed (valuesOf fb) (valuesOf fB))
    (name text : Str) (hfile : w.fs name = .contents text) (hlines : FirstTwoLines text (lineOf fb) (lineOf fB))
    {P : ℝ} (hP : P = noncrossProb (valuesOf fb) (valuesOf fB)) {s : Str} (hs : PrintsAs P ((16 * (n : ℝ) ^ 2 + 750 * (n * √n)) / 10 ^ 13 + (n : ℝ) ^ 2 / 10 ^ 15) s) :
    crossprobRun w fmt ioWhat ["ecdf2-mn2017".toList, name] = .exited 0 (s ++ ['\n']) := by
  exact sharpFft_source w hM hF ioWhat hn hn' hb hB ha (read_file hM.strtod fb fB hfb hfB hinb hinB hfile hlines)
    (Or.inl ⟨by simp, rfl, rfl⟩) hP hs

/-- C76: a file with only an upper boundary. -/
theorem C76_source_upper (w : World (Num D)) {fmt : Num D → Str} {inRange : ℝ → Prop} {n : ℕ} (hM : DoubleMachine w fmt inRange n) (hF : FFTAccurateDouble w n)
    (ioWhat : Str) (hn : 1 ≤ n) (hn' : n ≤ 100000) (fs : Fin n → Field) (hfs : ∀ i, (fs i).WF)
    (hin : ∀ i, inRange (fs i).num.value) (hB : ValidBound (valuesOf fs))
    (name text : Str) (hfile : w.fs name = .contents text) (hlines : FirstTwoLines text [] (lineOf fs))
    {P : ℝ} (hP : P = upperProb (valuesOf fs)) {s : Str} (hs : PrintsAs P ((16 * (n : ℝ) ^ 2 + 750 * (n * √n)) / 10 ^ 13 + (n : ℝ) ^ 2 / 10 ^ 15) s) :
    crossprobRun w fmt ioWhat ["ecdf2-mn2017".toList, name] = .exited 0 (s ++ ['\n']) := by
  have he : lineOf (n := 0) Fin.elim0 = [] := by simp [lineOf, List.intercalate]
  have hz : noncrossProb (fun _ : Fin n => (0 : ℝ)) (valuesOf fs) = P := by rw [hP]; exact noncrossProb_zeros fun _ => le_rfl
  refine sharpFft_source w hM hF ioWhat hn hn' (valid_const le_rfl zero_le_one) hB (Or.inr ?_)
    (read_file hM.strtod (n := 0) (m := n) Fin.elim0 fs (fun i => i.elim0) hfs (fun i => i.elim0) hin hfile (by rw [he]; exact hlines))
    (Or.inr (Or.inl ⟨by simp, by rw [ne_eq, List.ofFn_eq_nil_iff]; omega, ?_, rfl⟩)) hz.symm hs
  · rintro ⟨i, j, -, h⟩
    have := (hB.range i).1
    have := (hB.range j).1
    linarith
  · rw [List.length_ofFn, round_zero, replicate_ofFn]

/-- C76: a file with only a lower boundary. -/
theorem C76_source_lower (w : World (Num D)) {fmt : Num D → Str} {inRange : ℝ → Prop} {n : ℕ} (hM : DoubleMachine w fmt inRange n) (hF : FFTAccurateDouble w n)
    (ioWhat : Str) (hn : 1 ≤ n) (hn' : n ≤ 100000) (fs : Fin n → Field) (hfs : ∀ i, (fs i).WF)
    (hin : ∀ i, inRange (fs i).num.value) (hb : ValidBound (valuesOf fs))
    (name text : Str) (hfile : w.fs name = .contents text) (hlines : FirstTwoLines text (lineOf fs) [])
    {P : ℝ} (hP : P = lowerProb (valuesOf fs)) {s : Str} (hs : PrintsAs P ((16 * (n : ℝ) ^ 2 + 750 * (n * √n)) / 10 ^ 13 + (n : ℝ) ^ 2 / 10 ^ 15) s) :
    crossprobRun w fmt ioWhat ["ecdf2-mn2017".toList, name] = .exited 0 (s ++ ['\n']) := by
  have he : lineOf (n := 0) Fin.elim0 = [] := by simp [lineOf, List.intercalate]
  have hz : noncrossProb (valuesOf fs) (fun _ : Fin n => (1 : ℝ)) = P := by rw [hP]; exact noncrossProb_ones fun _ => le_rfl
  refine sharpFft_source w hM hF ioWhat hn hn' hb (valid_const zero_le_one le_rfl) (Or.inr ?_)
    (read_file hM.strtod (n := n) (m := 0) fs Fin.elim0 hfs (fun i => i.elim0) hin (fun i => i.elim0) hfile (by rw [he]; exact hlines))
    (Or.inr (Or.inr ⟨by rw [ne_eq, List.ofFn_eq_nil_iff]; omega, by simp, rfl, ?_⟩)) hz.symm hs
  · rintro ⟨i, j, -, h⟩
    have := (hb.range i).2
    have := (hb.range j).2
    linarith
  · rw [List.length_ofFn, round_one, replicate_ofFn]

/-- The assumptions can be met, by code that differs from the source, with sizes at which the FFT is used. -/
example (env : Env (Num doubles)) (ha : env.asserts = false) (hE : env.fft = ieeeFFTW doubles) :
    ∃ x : Num doubles, ecdf2Fast (twoLanes (exactFma doubles)) env ieeeSort (List.ofFn fun _ : Fin 1000 => roundNum doubles (1 / 8))
        (List.ofFn fun _ : Fin 1000 => roundNum doubles (3 / 4)) true = .ok x ∧ x.finite ∧
      |x.val - noncrossProb (fun _ : Fin 1000 => (roundNum doubles (1 / 8)).val) (fun _ => (roundNum doubles (3 / 4)).val)| ≤ (16 * ((1000 : ℕ) : ℝ) ^ 2 + 750 * ((1000 : ℕ) * √((1000 : ℕ) : ℝ))) / 10 ^ 13 := by
  have hv : ∀ c : ℝ, 0 ≤ c → c ≤ 1 → ValidBound (fun _ : Fin 1000 => c) := fun c h0 h1 => ⟨fun _ _ _ => le_rfl, fun _ => ⟨h0, h1⟩⟩
  obtain ⟨b1, -, b3, -⟩ := double_read (A := doubles) rfl (hv (1 / 8) (by norm_num) (by norm_num))
  obtain ⟨B1, -, B3, -⟩ := double_read (A := doubles) rfl (hv (3 / 4) (by norm_num) (by norm_num))
  have hs := ieeeSort_contract (double_ok (A := doubles) rfl)
  obtain ⟨delta, etaF, h1, h2, h3⟩ := goodFFT (A := doubles) rfl (n := 1000) (by norm_num)
  exact C76_double rfl twoLanes_ieee (twoLanes_legal _) (by norm_num) (by norm_num) (by norm_num) (doubles_libm u50_ge (by norm_num))
    env h1 h2 (hE ▸ h3) b1 B1 b3 B3 hs.perm hs.sorted (Or.inl ha)

end
end CP.Props
