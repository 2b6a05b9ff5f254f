import Verif.Proofs.RoundingAbs
import Verif.Proofs.FpFft
import Verif.Props.Rounding
import Mathlib.Analysis.SpecialFunctions.Stirling
import Mathlib.Analysis.Complex.ExponentialBounds
/-
Property C52: absolute rounding error of `ecdf2` when the convolutions are done with the FFT.
-/
open MeasureTheory Set
namespace CP.Props
open CP.Spec FOps

/-- C52: `ecdf2` with FFT.  With any arithmetic meeting `FloatModel` and `SignedOps` (unit roundoff `u`), any FFT library
of accuracy `delta` (`FFTAccurate`) for all transform lengths up to `Nmax >= 2n+2049`, Poisson probabilities accurate up to a
factor `g^P` and an absolute error `etaP`, and any valid finite boundaries, `ecdf2` returns a finite number within `A` of the
non-crossing probability.  `kap` bounds the growth of the error in one step (there are `2n+1`). -/
theorem C52_ecdf2_fft_error {F : Type} [FOps F] {R : FloatModel F} {S : Set F} (env : Env F) {n P : ℕ} (hn : 1 ≤ n) {etaP : ℝ}
    (hpmf : PmfAccurate R S n P etaP) {u : ℝ} {Nmax : ℕ} (hops : SignedOps R u Nmax)
    {delta etaF Wf : ℝ} (hfft : FFTAccurate R env.fft Nmax delta etaF Wf) (hN : 2 * n + 2049 ≤ Nmax) (hWf : 256 ≤ Wf)
    {b B : Fin n → F}
    (hz : zero ∈ S) (ho : one ∈ S) (hbS : ∀ i, b i ∈ S) (hBS : ∀ i, B i ∈ S)
    (hbf : ∀ i, R.finite (b i)) (hBf : ∀ i, R.finite (B i)) (hb : ValidBound fun i => R.val (b i))
    (hB : ValidBound fun i => R.val (B i)) {sort : List (Bound F) → List (Bound F)} (hsort : SortContractF R sort)
    (ha : env.asserts = false ∨ ¬ StronglyCrossed (fun i => R.val (b i)) (fun i => R.val (B i)))
    (hdelta : delta * √Nmax ≤ 1 / 8) (hetaF : etaF ≤ 1) (heta : Nmax * R.eta ≤ 1)
    {rho eps om kap A : ℝ}
    (hrho : rho = R.g ^ P - 1 + (n + 1) * etaP * R.g ^ P)
    (heps : eps = √Nmax * (13 * u + 4 * delta) + ((1 + u) ^ 128 - 1))
    (hom : om = √Nmax * 2 * (12 * etaF + 34 * (Nmax * R.eta)) + 128 ^ 2 * (1 + u) ^ 128 * R.eta)
    (hkap : kap = (1 + rho) * (1 + eps) + om) (hsmall : kap ^ (2 * n + 1) ≤ 2)
    (hA : A = (1 + u) * ((kap ^ (2 * n + 1) - 1) * R.g ^ P / poissonProb n n + (R.g ^ P - 1)) + u + R.eta)
    (hO : 512 ≤ R.Omega) (hO' : (1 + u) ^ 128 * (4 + 128 * R.eta) ≤ R.Omega) (hO'' : 1 + A ≤ R.Omega) :
    ∃ x, ecdf2 env sort (List.ofFn b) (List.ofFn B) true = .ok x ∧ R.finite x ∧
      |R.val x - noncrossProb (fun i => R.val (b i)) (fun i => R.val (B i))| ≤ A := by
  have hu := hops.u_nonneg
  have he0 := R.eta_nonneg
  have hG : 1 ≤ (1 + u) ^ 128 := one_le_pow₀ (by linarith)
  have hconv : ConvAccurate R (convVal env.fft) (n + 1) eps om 2 := by
    rw [heps, hom]
    refine convVal_acc hops hfft ?_ hdelta hetaF heta (by norm_num) (by linarith) (by linarith) (by norm_num; exact hO')
    have h := roundUp_spec (n := 2 * ((n + 1 : ℕ) : ℤ)) (by omega)
    omega
  have hfn : convFn env true = convVal env.fft := by
    funext m a b j; unfold convFn; rw [if_pos rfl]
  refine ecdf2_abs env true hpmf hops hrho ?_ ?_ (hfn ▸ hconv) hkap hsmall hz ho hbS hBS hbf hBf hb hB hsort ha hA hn hO''
  · rw [heps]
    have : 0 ≤ √(Nmax : ℝ) * (13 * u + 4 * delta) := mul_nonneg (Real.sqrt_nonneg _) (by linarith [hfft.delta_nonneg])
    linarith
  · rw [hom]
    have h1 : 0 ≤ √(Nmax : ℝ) * 2 * (12 * etaF + 34 * (Nmax * R.eta)) :=
      mul_nonneg (by positivity) (add_nonneg (by linarith [hfft.etaF_nonneg]) (by positivity))
    have h2 : 0 ≤ 128 ^ 2 * (1 + u) ^ 128 * R.eta := by positivity
    linarith

/-- C52: the same without FFT (direct convolution), with arithmetic that may also produce negative numbers. -/
theorem C52_ecdf2_direct_error {F : Type} [FOps F] {R : FloatModel F} {S : Set F} (env : Env F) {n P : ℕ} (hn : 1 ≤ n)
    {etaP : ℝ} (hpmf : PmfAccurate R S n P etaP) {u : ℝ} {Nmax : ℕ} (hops : SignedOps R u Nmax) {b B : Fin n → F}
    (hz : zero ∈ S) (ho : one ∈ S) (hbS : ∀ i, b i ∈ S) (hBS : ∀ i, B i ∈ S)
    (hbf : ∀ i, R.finite (b i)) (hBf : ∀ i, R.finite (B i)) (hb : ValidBound fun i => R.val (b i))
    (hB : ValidBound fun i => R.val (B i)) {sort : List (Bound F) → List (Bound F)} (hsort : SortContractF R sort)
    (ha : env.asserts = false ∨ ¬ StronglyCrossed (fun i => R.val (b i)) (fun i => R.val (B i)))
    {rho eps om kap A : ℝ}
    (hrho : rho = R.g ^ P - 1 + (n + 1) * etaP * R.g ^ P)
    (heps : eps = (1 + u) ^ (n + 2) - 1) (hom : om = ((n : ℝ) + 1) ^ 2 * (1 + u) ^ (n + 2) * R.eta)
    (hkap : kap = (1 + rho) * (1 + eps) + om) (hsmall : kap ^ (2 * n + 1) ≤ 2)
    (hA : A = (1 + u) * ((kap ^ (2 * n + 1) - 1) * R.g ^ P / poissonProb n n + (R.g ^ P - 1)) + u + R.eta)
    (hO' : (1 + u) ^ (n + 2) * (4 + (n + 1) * R.eta) ≤ R.Omega) (hO'' : 1 + A ≤ R.Omega) :
    ∃ x, ecdf2 env sort (List.ofFn b) (List.ofFn B) false = .ok x ∧ R.finite x ∧
      |R.val x - noncrossProb (fun i => R.val (b i)) (fun i => R.val (B i))| ≤ A := by
  have hu := hops.u_nonneg
  have he0 := R.eta_nonneg
  have hG : 1 ≤ (1 + u) ^ (n + 2) := one_le_pow₀ (by linarith)
  have hconv : ConvAccurate R (fun _ => naiveConv) (n + 1) eps om 2 := by
    have h := naiveConv_acc (M := n + 1) (W := 2) hops (by push_cast; norm_num; exact hO')
    rw [heps, hom]
    push_cast at h
    exact h
  have hfn : convFn env false = fun _ => naiveConv := by
    funext m a b j; unfold convFn; rw [if_neg (by simp)]
  refine ecdf2_abs env false hpmf hops hrho ?_ ?_ (hfn ▸ hconv) hkap hsmall hz ho hbS hBS hbf hBf hb hB hsort ha hA hn hO''
  · rw [heps]; linarith
  · rw [hom]; positivity

/-! ### Explicit bounds -/

/-- `1/(1-u)^m` is at most `1 + 2 m u`. -/
theorem inv_pow_le {u : ℝ} (hu : 0 ≤ u) {m : ℕ} (hm : m * u ≤ 1 / 2) : (1 / (1 - u)) ^ m ≤ 1 + 2 * (m * u) := by
  rcases Nat.eq_zero_or_pos m with rfl | h0
  · simp
  have hm1 : (1 : ℝ) ≤ m := by exact_mod_cast h0
  have hu2 : u ≤ 1 / 2 := le_trans (by nlinarith) hm
  have h1 := one_add_mul_le_pow (a := -u) (by linarith) m
  rw [← sub_eq_add_neg, mul_neg, ← sub_eq_add_neg] at h1
  have h2 : 0 < 1 - m * u := by linarith
  rw [one_div_pow, div_le_iff₀ (lt_of_lt_of_le h2 h1)]
  have hmu : 0 ≤ m * u := by positivity
  nlinarith [mul_le_mul_of_nonneg_left h1 (by linarith : 0 ≤ 1 + 2 * (m * u))]

theorem pow_le_lin {t : ℝ} (ht : 0 ≤ t) {m : ℕ} (hm : m * t ≤ 1 / 2) : (1 + t) ^ m ≤ 1 + 2 * (m * t) := by
  rcases Nat.eq_zero_or_pos m with rfl | h0
  · simp
  have hm1 : (1 : ℝ) ≤ m := by exact_mod_cast h0
  have hu2 : t ≤ 1 / 2 := le_trans (by nlinarith) hm
  refine le_trans (pow_le_pow_left₀ (by linarith) ?_ m) (inv_pow_le ht hm)
  rw [le_div_iff₀ (by linarith)]
  nlinarith

/-- The probability that a Poisson variable equals its mean `n` is at least `1/(e sqrt(n))`. -/
theorem inv_poissonProb_le {n : ℕ} (hn : 1 ≤ n) : 1 / poissonProb n n ≤ Real.exp 1 * √n := by
  have hn0 : (0 : ℝ) < n := by exact_mod_cast hn
  have hs : Stirling.stirlingSeq n ≤ Stirling.stirlingSeq 1 := by
    obtain ⟨k, rfl⟩ : ∃ k, n = k + 1 := ⟨n - 1, by omega⟩
    exact Stirling.stirlingSeq'_antitone (Nat.zero_le k)
  rw [Stirling.stirlingSeq_one] at hs
  unfold Stirling.stirlingSeq at hs
  have hpos : (0 : ℝ) < √(2 * n) * (n / Real.exp 1) ^ n := by positivity
  rw [div_le_iff₀ hpos] at hs
  unfold poissonProb
  have hexp : Real.exp (-(n : ℝ)) = 1 / Real.exp 1 ^ n := by
    rw [Real.exp_neg, ← Real.exp_nat_mul, mul_one, one_div]
  rw [hexp, one_div_div, div_le_iff₀ (by positivity)]
  refine hs.trans (le_of_eq ?_)
  rw [Real.sqrt_mul (by norm_num), div_pow]
  have h2 : √(2 : ℝ) ≠ 0 := by positivity
  field_simp

/-- The error bound for an arithmetic without underflow, in explicit form. -/
theorem explicit_bound {n : ℕ} (hn : 1 ≤ n) {u gP eps kap T A : ℝ} (hu : 0 ≤ u) (hu8 : u ≤ 1 / 8) (huT : u ≤ T)
    (hg1 : 1 ≤ gP) (hgT : gP ≤ 1 + T) (heps : 0 ≤ eps)
    (hkap : kap = gP * (1 + eps)) (hkT : kap ≤ 1 + T) (hT : (2 * n + 1) * T ≤ 1 / 2)
    (hA : A = (1 + u) * ((kap ^ (2 * n + 1) - 1) * gP / poissonProb n n + (gP - 1)) + u) :
    kap ^ (2 * n + 1) ≤ 2 ∧ A ≤ 4 * Real.exp 1 * √n * ((2 * n + 1) * T) := by
  have hT0 : 0 ≤ T := hu.trans huT
  have hk1 : 1 ≤ kap := by rw [hkap]; nlinarith
  have hn1 : (1 : ℝ) ≤ n := by exact_mod_cast hn
  have h1 : kap ^ (2 * n + 1) ≤ 1 + 2 * ((2 * n + 1) * T) := by
    refine (pow_le_pow_left₀ (by linarith) hkT _).trans ?_
    have := pow_le_lin hT0 (m := 2 * n + 1) (by push_cast; exact hT)
    push_cast at this
    exact this
  refine ⟨by linarith, ?_⟩
  have hp := inv_poissonProb_le hn
  set E := Real.exp 1 * √n with hE
  set m : ℝ := 2 * n + 1 with hm
  have hsq : 1 ≤ √(n : ℝ) := by
    rw [show (1 : ℝ) = √1 by simp]; exact Real.sqrt_le_sqrt hn1
  have hE2 : 27 / 10 ≤ E := by
    have := Real.exp_one_gt_d9
    rw [hE]
    nlinarith
  have hm3 : 3 ≤ m := by rw [hm]; linarith
  have hT6 : T ≤ 1 / 6 := by nlinarith
  have hpp : 0 < poissonProb n n := by unfold poissonProb; positivity
  have h0 : 0 ≤ kap ^ (2 * n + 1) - 1 := by linarith [one_le_pow₀ hk1 (n := 2 * n + 1)]
  have a1 : (kap ^ (2 * n + 1) - 1) * gP / poissonProb n n ≤ (2 * (m * T)) * (7 / 6) * E := by
    rw [div_eq_mul_one_div]
    exact mul_le_mul (mul_le_mul (by linarith) (by linarith) (by linarith) (by positivity)) hp (by positivity) (by positivity)
  have a2 : (1 + u) * ((kap ^ (2 * n + 1) - 1) * gP / poissonProb n n + (gP - 1))
      ≤ (9 / 8) * ((2 * (m * T)) * (7 / 6) * E + T) :=
    mul_le_mul (by linarith) (by linarith) (add_nonneg (div_nonneg (mul_nonneg h0 (by linarith)) hpp.le) (by linarith)) (by norm_num)
  have a3 : 8 * T ≤ m * T * E := by
    have : 8 ≤ m * E := by nlinarith
    nlinarith [mul_le_mul_of_nonneg_right this hT0]
  rw [hA]
  have e : 4 * Real.exp 1 * √(n : ℝ) * (m * T) = 4 * (m * T * E) := by rw [hE]; ring
  rw [e]
  have e2 : (2 * (m * T)) * (7 / 6) * E = (7 / 3) * (m * T * E) := by ring
  rw [e2] at a2
  nlinarith

theorem small_parts {n : ℕ} (hn : 1 ≤ n) {u delta s Q T : ℝ} (hu : 0 ≤ u) (hd : 0 ≤ delta) (hs : 1 ≤ s) (hQ : 0 ≤ Q)
    (hT : T = 2 * (2 * (Q * u) + s * (13 * u + 4 * delta) + 256 * u)) (hsmall : (2 * n + 1) * T ≤ 1 / 2) :
    Q * u ≤ 1 / 2 ∧ 256 * u ≤ 1 / 2 ∧ delta * s ≤ 1 / 8 := by
  have hn1 : (1 : ℝ) ≤ n := by exact_mod_cast hn
  have hQu : 0 ≤ Q * u := mul_nonneg hQ hu
  have h1 : 0 ≤ s * u := mul_nonneg (by linarith) hu
  have h2 : 0 ≤ s * delta := mul_nonneg (by linarith) hd
  have hT' : T = 4 * (Q * u) + 26 * (s * u) + 8 * (s * delta) + 512 * u := by rw [hT]; ring
  have hT0 : 0 ≤ T := by rw [hT']; linarith
  have h3 : 3 * T ≤ (2 * n + 1) * T := mul_le_mul_of_nonneg_right (by linarith) hT0
  refine ⟨by linarith, by linarith, ?_⟩
  rw [mul_comm]; linarith

/-- The error bound with FFT in explicit form. -/
theorem explicit_fft {n : ℕ} (hn : 1 ≤ n) {u delta s Q T gP G eps kap A : ℝ} (hu : 0 ≤ u) (hu8 : u ≤ 1 / 8) (hd : 0 ≤ delta)
    (hs : 1 ≤ s) (hQ : 0 ≤ Q) (hg1 : 1 ≤ gP) (hg : gP ≤ 1 + 2 * (Q * u)) (hG1 : 1 ≤ G) (hG : G ≤ 1 + 256 * u)
    (heps : eps = s * (13 * u + 4 * delta) + (G - 1)) (hkap : kap = gP * (1 + eps))
    (hT : T = 2 * (2 * (Q * u) + s * (13 * u + 4 * delta) + 256 * u)) (hsmall : (2 * n + 1) * T ≤ 1 / 2)
    (hA : A = (1 + u) * ((kap ^ (2 * n + 1) - 1) * gP / poissonProb n n + (gP - 1)) + u) :
    kap ^ (2 * n + 1) ≤ 2 ∧ A ≤ 4 * Real.exp 1 * √n * ((2 * n + 1) * T) := by
  have hQu : 0 ≤ Q * u := mul_nonneg hQ hu
  have hsu : 0 ≤ s * (13 * u + 4 * delta) := mul_nonneg (by linarith) (by linarith)
  obtain ⟨hQ2, -, -⟩ := small_parts hn hu hd hs hQ hT hsmall
  have heps0 : 0 ≤ eps := by rw [heps]; linarith
  have hkT : kap ≤ 1 + T := by
    have h1 : kap ≤ (1 + 2 * (Q * u)) * (1 + (s * (13 * u + 4 * delta) + 256 * u)) := by
      rw [hkap]
      exact mul_le_mul hg (by rw [heps]; linarith) (by linarith) (by linarith)
    have h2 : 2 * (Q * u) * (s * (13 * u + 4 * delta) + 256 * u) ≤ s * (13 * u + 4 * delta) + 256 * u :=
      mul_le_of_le_one_left (by linarith) (by linarith)
    rw [hT]
    linarith
  exact explicit_bound hn hu hu8 (by rw [hT]; linarith) hg1 (by rw [hT]; linarith) heps0 hkap hkT hsmall hA

/-- C52 for `p`-bit binary floating point with rounding to nearest (`p = 53` for double) and any FFT library of accuracy
`delta`: every valid pair of boundaries, every `n >= 1`; `Lam` bounds `|log(n d)|` for all distances `d` between distinct
points among 0, 1 and the boundary points.  The absolute error is at most `4 e sqrt(n) (2n+1) T` with
`T = 2 (2 Q u + sqrt(Nmax) (13 u + 4 delta) + 256 u)` as long as `(2n+1) T <= 1/2`. -/
theorem C52_binary_floating_point {p : ℕ} (hp : 3 ≤ p) (env : Env (Fp p)) {n : ℕ} (hn : 1 ≤ n)
    {b B : Fin n → ℝ} (hb : ValidBound b) (hB : ValidBound B) (ha : env.asserts = false ∨ ¬ StronglyCrossed b B)
    {sort : List (Bound (Fp p)) → List (Bound (Fp p))}
    (hperm : ∀ l, (sort l).Perm l)
    (hsorted : ∀ l, (∀ x ∈ l, ∃ r : ℝ, x.location = some r) → (sort l).Pairwise fun x y => lt y.location x.location = false)
    {Nmax : ℕ} {delta : ℝ} (hfft : FFTAccurate (fpModel p (by omega) 0) env.fft Nmax delta 0 256) (hN : 2 * n + 2049 ≤ Nmax)
    {Lam : ℝ}
    (hLam : ∀ x ∈ {0, 1} ∪ range b ∪ range B, ∀ y ∈ {0, 1} ∪ range b ∪ range B, x < y → |Real.log (n * (y - x))| ≤ Lam)
    {Q : ℕ} (hQ : 5 * n * Lam + 10 * n + 3 * Real.log n.factorial + 1 ≤ Q)
    {u T : ℝ} (hu : u = 2 ^ (-(p : ℤ))) (hT : T = 2 * (2 * (Q * u) + √Nmax * (13 * u + 4 * delta) + 256 * u))
    (hsmall : (2 * n + 1) * T ≤ 1 / 2) :
    ∃ x : ℝ, ecdf2 env sort (List.ofFn (fpVec b)) (List.ofFn (fpVec B)) true = .ok (some x : Fp p) ∧
      |x - noncrossProb b B| ≤ 4 * Real.exp 1 * √n * ((2 * n + 1) * T) := by
  have hp1 : 1 ≤ p := by omega
  have hg1 := one_le_gOf hp1
  have hnr : (1 : ℝ) ≤ n := by exact_mod_cast hn
  have hδ0 := hfft.delta_nonneg
  have hu0 : 0 ≤ u := by rw [hu]; positivity
  have hu8 : u ≤ 1 / 8 := by
    have := two_neg_le hp
    norm_num at this
    rw [hu]; simpa using this
  obtain ⟨G, hGdef⟩ : ∃ G, G = (1 + u) ^ 128 := ⟨_, rfl⟩
  have hsN1 : 1 ≤ √(Nmax : ℝ) := by
    rw [show (1 : ℝ) = √1 by simp]
    exact Real.sqrt_le_sqrt (by exact_mod_cast (by omega : 1 ≤ Nmax))
  have hQ0 : (0 : ℝ) ≤ Q := Nat.cast_nonneg Q
  obtain ⟨hQu, h256, hδ8⟩ := small_parts hn hu0 hδ0 hsN1 hQ0 hT hsmall
  have hgP : gOf p ^ Q ≤ 1 + 2 * (Q * u) := by
    have h := inv_pow_le hu0 (m := Q) hQu
    unfold gOf
    rw [← hu]
    exact h
  have hG : G ≤ 1 + 256 * u := by
    rw [hGdef]
    have := pow_le_lin hu0 (m := 128) (by push_cast; linarith)
    rw [Nat.cast_ofNat] at this
    refine this.trans (le_of_eq (by ring))
  have hG1 : 1 ≤ G := by rw [hGdef]; exact one_le_pow₀ (by linarith)
  have hgP1 : 1 ≤ gOf p ^ Q := one_le_pow₀ hg1
  obtain ⟨eps, heps⟩ : ∃ eps, eps = √(Nmax : ℝ) * (13 * u + 4 * delta) + (G - 1) := ⟨_, rfl⟩
  obtain ⟨kap, hkap⟩ : ∃ kap, kap = gOf p ^ Q * (1 + eps) := ⟨_, rfl⟩
  obtain ⟨A, hAdef⟩ : ∃ A, A = (1 + u) * ((kap ^ (2 * n + 1) - 1) * gOf p ^ Q / poissonProb n n + (gOf p ^ Q - 1)) + u := ⟨_, rfl⟩
  obtain ⟨hk2, hA⟩ := explicit_fft hn hu0 hu8 hδ0 hsN1 hQ0 hgP1 hgP hG1 hG heps hkap hT hsmall hAdef
  set Om := max (max (2 * (n * Lam + n + Real.log n.factorial)) (gOf p ^ Q)) (max 512 (1 + A)) with hOm
  set R := fpModel p hp1 Om with hR
  have hQ1 : 1 ≤ Q := by
    by_contra h
    have : Q = 0 := by omega
    have h1 := hLam 0 (by simp) 1 (by simp) one_pos
    have h2 := (abs_nonneg _).trans h1
    have h3 : 0 ≤ 5 * n * Lam := by positivity
    have h4 := Real.log_natCast_nonneg n.factorial
    rw [this] at hQ
    push_cast at hQ
    linarith
  obtain ⟨Q', rfl⟩ : ∃ Q', Q = Q' + 1 := ⟨Q - 1, by omega⟩
  have hmemS : ∀ x : Fp p, x ∈ {y : Fp p | ∃ r ∈ {0, 1} ∪ range b ∪ range B, y = some r} →
      ∃ r ∈ {0, 1} ∪ range b ∪ range B, x = some r := fun x h => h
  set S : Set (Fp p) := {y : Fp p | ∃ r ∈ {0, 1} ∪ range b ∪ range B, y = some r} with hS
  have hln : Real.log n ≤ Lam := by
    have h1 := hLam 0 (by simp) 1 (by simp) one_pos
    rw [sub_zero, mul_one] at h1
    exact (le_abs_self _).trans h1
  have hpmf : PmfAccurate R S n (Q' + 1) 0 := by
    refine C39_pmf_from_library hn (fpLibrary p hp1 Om n) (gOf_le hp) (Lam := Lam) hln ?_ (Q := Q') ?_
      ((le_max_left _ _).trans (le_max_left _ _)) ?_ ?_
    · intro x hx y hy _ _ _ hlt _
      obtain ⟨r, hr, rfl⟩ := hmemS x hx
      obtain ⟨s, hs, rfl⟩ := hmemS y hy
      exact hLam r hr s hs hlt
    · push_cast at hQ; linarith
    · exact (pow_le_pow_right₀ hg1 (by omega)).trans ((le_max_right _ _).trans (le_max_left _ _))
    · rw [zero_mul]; unfold poissonProb; positivity
  have hfft' : FFTAccurate R env.fft Nmax delta 0 256 := ⟨hfft.delta_nonneg, hfft.etaF_nonneg, hfft.r2c, hfft.c2r⟩
  have hops : SignedOps R u Nmax := by
    rw [hu]; exact fpSigned p hp Om Nmax
  have h512 : (512 : ℝ) ≤ Om := (le_max_left _ _).trans (le_max_right _ _)
  obtain ⟨x, hx, hxf, hxA⟩ := C52_ecdf2_fft_error (R := R) (S := S) env hn hpmf hops hfft' hN le_rfl (b := fpVec b)
    (B := fpVec B) (sort := sort) ⟨0, by simp, by show (some ((0 : ℤ) : ℝ) : Option ℝ) = _; simp⟩
    ⟨1, by simp, by show (some ((1 : ℤ) : ℝ) : Option ℝ) = _; simp⟩
    (fun i => ⟨b i, by simp, rfl⟩) (fun i => ⟨B i, by simp, rfl⟩) (fun i => ⟨b i, rfl⟩) (fun i => ⟨B i, rfl⟩)
    hb hB ⟨hperm, hsorted⟩ ha hδ8 (by norm_num) (by show (Nmax : ℝ) * 0 ≤ 1; simp) rfl
    (eps := eps) (by rw [heps, hGdef]) rfl (kap := kap)
    (by show kap = (1 + (gOf p ^ (Q' + 1) - 1 + (n + 1) * 0 * gOf p ^ (Q' + 1))) * (1 + eps)
          + (√(Nmax : ℝ) * 2 * (12 * 0 + 34 * (Nmax * 0)) + 128 ^ 2 * (1 + u) ^ 128 * 0)
        rw [hkap]; ring) hk2 (A := A)
    (by show A = (1 + u) * ((kap ^ (2 * n + 1) - 1) * gOf p ^ (Q' + 1) / poissonProb n n + (gOf p ^ (Q' + 1) - 1)) + u + 0
        rw [hAdef, add_zero]) h512
    (by show (1 + u) ^ 128 * (4 + 128 * 0) ≤ Om
        rw [mul_zero, add_zero, ← hGdef]; linarith)
    ((le_max_right _ _).trans (le_max_right _ _))
  obtain ⟨r, rfl⟩ := hxf
  exact ⟨r, hx, hxA.trans hA⟩

/-- An environment for 53-bit numbers with an FFT library that returns correctly rounded transforms. -/
noncomputable def fpFftEnv : Env (Fp 53) :=
  { asserts := false, fft := roundedFFTW 53, junk := fun _ _ => none, junkC := fun _ _ => (none, none) }

/-- C52 is about something: in 53-bit arithmetic with a correctly rounded FFT, `ecdf2` on the example boundaries is within
`1e-10` of the exact probability. -/
example : ∃ x : ℝ, ecdf2 fpFftEnv fpSort (List.ofFn (fpVec exb)) (List.ofFn (fpVec exB)) true = .ok (some x : Fp 53) ∧
    |x - noncrossProb exb exB| ≤ 1 / 10 ^ 10 := by
  have hsq : √((4096 : ℕ) : ℝ) = 64 := by
    rw [show ((4096 : ℕ) : ℝ) = 64 ^ 2 by norm_num]; exact Real.sqrt_sq (by norm_num)
  have hl : ∀ d : ℝ, 1 / 10 ≤ d → d ≤ 1 → |Real.log ((2 : ℕ) * d)| ≤ 9 := by
    intro d h1 h2
    have hd : 0 < ((2 : ℕ) : ℝ) * d := by push_cast; linarith
    rw [abs_le]
    constructor
    · have h := Real.one_sub_inv_le_log_of_pos hd
      have : (((2 : ℕ) : ℝ) * d)⁻¹ ≤ 5 := by
        rw [inv_le_comm₀ hd (by norm_num)]; push_cast; linarith
      generalize Real.log (((2 : ℕ) : ℝ) * d) = L at h ⊢
      generalize (((2 : ℕ) : ℝ) * d)⁻¹ = v at h this
      linarith
    · have h := Real.log_le_sub_one_of_pos hd
      push_cast at h ⊢
      linarith
  have hmem : ∀ x ∈ ({0, 1} ∪ range exb ∪ range exB : Set ℝ), x = 0 ∨ x = 1 ∨ x = 1 / 10 ∨ x = 3 / 10 ∨ x = 1 / 2 ∨ x = 9 / 10 := by
    rintro x ((h | ⟨i, rfl⟩) | ⟨i, rfl⟩)
    · rcases h with h | h
      · exact Or.inl h
      · exact Or.inr (Or.inl h)
    · fin_cases i <;> simp [exb]
    · fin_cases i <;> simp [exB]
  have hLam : ∀ x ∈ {0, 1} ∪ range exb ∪ range exB, ∀ y ∈ {0, 1} ∪ range exb ∪ range exB, x < y →
      |Real.log ((2 : ℕ) * (y - x))| ≤ 9 := by
    intro x hx y hy hlt
    have hx' := hmem x hx
    have hy' := hmem y hy
    refine hl _ ?_ ?_ <;>
    rcases hx' with rfl | rfl | rfl | rfl | rfl | rfl <;> rcases hy' with rfl | rfl | rfl | rfl | rfl | rfl <;>
      first | (norm_num; done) | (exfalso; norm_num at hlt; done)
  have hf : FFTAccurate (fpModel 53 (by omega) 0) fpFftEnv.fft 4096 ((2 : ℝ) ^ (-((53 : ℕ) : ℤ))) 0 256 :=
    roundedFFTW_accurate 53 (by omega) 0 4096 256
  obtain ⟨x, hx, h⟩ := C52_binary_floating_point (p := 53) (by norm_num) fpFftEnv (n := 2) (by norm_num)
    exb_valid exB_valid (Or.inl rfl) (sort := fpSort) (fpSort_contract (by norm_num) 0).perm
    (fpSort_contract (by norm_num) 0).sorted hf (by norm_num) hLam (Q := 120) (by
      have : Real.log (Nat.factorial 2) ≤ 1 := by
        have := Real.log_le_sub_one_of_pos (x := 2) (by norm_num)
        norm_num [Nat.factorial] at this ⊢
        exact this
      push_cast
      linarith) rfl rfl (by rw [hsq]; norm_num)
  refine ⟨x, hx, h.trans ?_⟩
  have h1 : Real.exp 1 ≤ 3 := by have := Real.exp_one_lt_d9; linarith
  have h2 : √((2 : ℕ) : ℝ) ≤ 2 := by
    rw [Real.sqrt_le_left (by norm_num)]; norm_num
  rw [hsq]
  have h3 : 4 * Real.exp 1 * √((2 : ℕ) : ℝ) ≤ 24 := by
    have := mul_le_mul h1 h2 (Real.sqrt_nonneg _) (by norm_num)
    linarith
  refine (mul_le_mul_of_nonneg_right h3 (by positivity)).trans ?_
  norm_num

end CP.Props
