import Verif.Proofs.NewAbs
import Verif.Proofs.FpFft
import Verif.Proofs.FpMono
import Verif.Proofs.Stability
import Verif.Props.RoundingFft
/-
Property C53: absolute rounding error of `ecdf1_new_B` and `ecdf1_new_b`.
-/
open MeasureTheory Set
namespace CP.Props
open CP.Spec FOps

/-- C53: `ecdf1_new_B`.  With any arithmetic meeting `FloatModel` and `SignedOps` (unit roundoff `u`), any FFT library of
accuracy `delta` for all transform lengths up to `Nmax >= 2n+2049`, Poisson probabilities accurate up to a factor `g^P` and an
absolute error `etaP`, and any valid finite boundary, `ecdf1_new_B` returns a finite number within `A` of the probability.
`1+tau` bounds the growth of the error in one of the at most `3n+1` steps. -/
theorem C53_ecdf1_new_B_error {F : Type} [FOps F] {R : FloatModel F} {S : Set F} (env : Env F) {n P : ℕ} (hn : 1 ≤ n)
    {etaP : ℝ} (hpmf : PmfAccurate R S n P etaP) {u : ℝ} {Nmax : ℕ} (hops : SignedOps R u Nmax)
    {delta etaF Wf : ℝ} (hfft : FFTAccurate R env.fft Nmax delta etaF Wf) (hN : 2 * n + 2049 ≤ Nmax) (hWf : 256 ≤ Wf)
    {B : Fin n → F} (hz : zero ∈ S) (ho : one ∈ S) (hBS : ∀ i, B i ∈ S)
    (hBf : ∀ i, R.finite (B i)) (hB : ValidBound fun i => R.val (B i))
    (isqrt : ℕ → ℕ) (ha : env.asserts = false ∨ isqrt n + 1 ≤ n)
    (hdelta : delta * √Nmax ≤ 1 / 8) (hetaF : etaF ≤ 1) (heta : Nmax * R.eta ≤ 1)
    {rho eps om tau A : ℝ}
    (hrho : rho = R.g ^ P - 1 + (n + 1) * etaP * R.g ^ P)
    (heps : eps = √Nmax * (13 * u + 4 * delta) + ((1 + u) ^ 128 - 1))
    (hom : om = √Nmax * 2 * (12 * etaF + 34 * (Nmax * R.eta)) + 128 ^ 2 * (1 + u) ^ 128 * R.eta)
    (htau : tau = (1 + rho) * (1 + eps) - 1 + om + (n + 1) * R.eta) (hsmall : (1 + tau) ^ (3 * n + 1) ≤ 2)
    (hA : A = (1 + u) * (((1 + tau) ^ (3 * n + 1) - 1) * R.g ^ P / poissonProb n n + (R.g ^ P - 1)) + u + R.eta)
    (hO : 512 ≤ R.Omega) (hO' : (1 + u) ^ 128 * (4 + 128 * R.eta) ≤ R.Omega) (hO'' : 1 + A ≤ R.Omega) :
    ∃ x, ecdf1NewB env isqrt (List.ofFn B) = .ok x ∧ R.finite x ∧
      |R.val x - upperProb fun i => R.val (B i)| ≤ A := by
  have hu := hops.u_nonneg
  have hu8 := hops.u_le
  have he0 := R.eta_nonneg
  have hG : 1 ≤ (1 + u) ^ 128 := one_le_pow₀ (by linarith)
  have hG2 : (1 + u) ^ 2 ≤ (1 + u) ^ 128 := pow_le_pow_right₀ (by linarith) (by norm_num)
  have hsu : 0 ≤ √(Nmax : ℝ) * (13 * u + 4 * delta) := mul_nonneg (Real.sqrt_nonneg _) (by linarith [hfft.delta_nonneg])
  have hconv : ConvAccurate R (convVal env.fft) (n + 1) eps om 2 := by
    rw [heps, hom]
    refine convVal_acc hops hfft ?_ hdelta hetaF heta (by norm_num) (by linarith) (by linarith) (by norm_num; exact hO')
    have h := roundUp_spec (n := 2 * ((n + 1 : ℕ) : ℤ)) (by omega)
    omega
  have hgP : 1 ≤ R.g ^ P := one_le_pow₀ R.one_le_g
  have heta1 : R.eta ≤ 1 := by
    have : (1 : ℝ) ≤ Nmax := by exact_mod_cast (by omega : 1 ≤ Nmax)
    exact (le_mul_of_one_le_left he0 this).trans heta
  refine ecdf1NewB_abs env hn hpmf hrho ⟨hops, ?_, ?_, hconv, htau, ?_, hsmall, ?_⟩ hz ho hBS hBf hB isqrt ha hA hO''
  · rw [hrho]
    have : 0 ≤ ((n : ℝ) + 1) * etaP * R.g ^ P := mul_nonneg (mul_nonneg (by positivity) hpmf.etaP_nonneg) (by linarith)
    linarith
  · rw [hom]
    have h1 : 0 ≤ √(Nmax : ℝ) * 2 * (12 * etaF + 34 * (Nmax * R.eta)) :=
      mul_nonneg (by positivity) (add_nonneg (by linarith [hfft.etaF_nonneg]) (by positivity))
    have h2 : 0 ≤ 128 ^ 2 * (1 + u) ^ 128 * R.eta := by positivity
    linarith
  · rw [heps]; linarith
  · linarith

/-- The boundary `ecdf1_new_b` hands to `ecdf1_new_B`: `1 - b` in floating point, in reverse order. -/
def flipF {F : Type} [FOps F] {n : ℕ} (b : Fin n → F) : Fin n → F := fun i => one -ᶠ b (Fin.rev i)

theorem symmetricSteps_ofFn {F : Type} [FOps F] {n : ℕ} (b : Fin n → F) :
    symmetricSteps (List.ofFn b) = .ok (List.ofFn (flipF b)) := by
  obtain ⟨s, hs, hl, hv⟩ := (symmetricSteps_sat (E := NoFault) (List.ofFn b)).exists_ok
  rw [hs]
  congr 1
  rw [List.length_ofFn] at hl
  apply List.ext_getElem?
  intro i
  by_cases hi : i < n
  · have h1 : Has (List.ofFn b) (((List.ofFn b).length : Int) - 1 - i) (b (Fin.rev ⟨i, hi⟩)) := by
      rw [List.length_ofFn]
      refine ⟨by omega, ?_⟩
      have e : ((n : Int) - 1 - i).toNat = n - 1 - i := by omega
      rw [e, List.getElem?_ofFn, dif_pos (by omega)]
      congr 2
      ext
      simp [Fin.rev]
      omega
    have h2 := hv i _ (by rw [List.length_ofFn]; exact hi) h1
    have h3 : s[i]? = some (one -ᶠ b (Fin.rev ⟨i, hi⟩)) := by
      have := h2.2
      simpa using this
    rw [h3, List.getElem?_ofFn, dif_pos hi]
    rfl
  · rw [List.getElem?_eq_none (by omega), List.getElem?_eq_none (by rw [List.length_ofFn]; omega)]

theorem flip_ok {F : Type} [FOps F] {R : FloatModel F} {u : ℝ} {Nmax : ℕ} (hops : SignedOps R u Nmax)
    (hrefl : MonotoneReflect R) (hO : 1 ≤ R.Omega) {n : ℕ} {b : Fin n → F} (hbf : ∀ i, R.finite (b i))
    (hb : ValidBound fun i => R.val (b i)) :
    (∀ i, R.finite (flipF b i)) ∧ (ValidBound fun i => R.val (flipF b i)) ∧
      ∀ i, |R.val (flipF b i) - reflect (fun i => R.val (b i)) i| ≤ u := by
  have hu8 := hops.u_le
  have key : ∀ i, R.finite (one -ᶠ b i) ∧ |R.val (one -ᶠ b i) - (1 - R.val (b i))| ≤ u * (1 - R.val (b i)) := by
    intro i
    have hr := hb.range i
    have h1 : |R.val (one : F) - R.val (b i)| = 1 - R.val (b i) := by rw [R.val_one, abs_of_nonneg (by linarith [hr.2])]
    have h := hops.sub one (b i) R.one_finite (hbf i) (by rw [h1]; linarith [hr.1])
    rw [h1, R.val_one] at h
    exact h
  refine ⟨fun i => (key _).1, ⟨?_, ?_⟩, ?_⟩
  · intro i j hij
    exact hrefl.anti _ _ (hbf _) (hbf _) (hb.range _).1 (hb.mono (Fin.rev_le_rev.mpr hij)) (hb.range _).2
  · intro i
    have hr := hb.range (Fin.rev i)
    constructor
    · have h := (abs_le.mp (key (Fin.rev i)).2).1
      have h2 : 0 ≤ 1 - R.val (b (Fin.rev i)) := by linarith [hr.2]
      have h3 := mul_le_mul_of_nonneg_right hu8 h2
      show 0 ≤ R.val (one -ᶠ b (Fin.rev i))
      linarith
    · have h := hrefl.anti zero (b (Fin.rev i)) R.zero_finite (hbf _) (by rw [R.val_zero]) (by rw [R.val_zero]; exact hr.1) hr.2
      rw [hrefl.zero] at h
      exact h
  · intro i
    have hr := hb.range (Fin.rev i)
    refine (key (Fin.rev i)).2.trans ?_
    exact mul_le_of_le_one_right hops.u_nonneg (by linarith [hr.1])

/-- C53: `ecdf1_new_b`.  It works on the rounded reflection `1 - b`, so the error has a further term `n^2 u`. -/
theorem C53_ecdf1_new_b_error {F : Type} [FOps F] {R : FloatModel F} {S : Set F} (env : Env F) {n P : ℕ} (hn : 1 ≤ n)
    {etaP : ℝ} (hpmf : PmfAccurate R S n P etaP) {u : ℝ} {Nmax : ℕ} (hops : SignedOps R u Nmax) (hrefl : MonotoneReflect R)
    {delta etaF Wf : ℝ} (hfft : FFTAccurate R env.fft Nmax delta etaF Wf) (hN : 2 * n + 2049 ≤ Nmax) (hWf : 256 ≤ Wf)
    {b : Fin n → F} (hz : zero ∈ S) (ho : one ∈ S) (hbS : ∀ i, one -ᶠ b i ∈ S)
    (hbf : ∀ i, R.finite (b i)) (hb : ValidBound fun i => R.val (b i))
    (isqrt : ℕ → ℕ) (ha : env.asserts = false ∨ isqrt n + 1 ≤ n)
    (hdelta : delta * √Nmax ≤ 1 / 8) (hetaF : etaF ≤ 1) (heta : Nmax * R.eta ≤ 1)
    {rho eps om tau A : ℝ}
    (hrho : rho = R.g ^ P - 1 + (n + 1) * etaP * R.g ^ P)
    (heps : eps = √Nmax * (13 * u + 4 * delta) + ((1 + u) ^ 128 - 1))
    (hom : om = √Nmax * 2 * (12 * etaF + 34 * (Nmax * R.eta)) + 128 ^ 2 * (1 + u) ^ 128 * R.eta)
    (htau : tau = (1 + rho) * (1 + eps) - 1 + om + (n + 1) * R.eta) (hsmall : (1 + tau) ^ (3 * n + 1) ≤ 2)
    (hA : A = (1 + u) * (((1 + tau) ^ (3 * n + 1) - 1) * R.g ^ P / poissonProb n n + (R.g ^ P - 1)) + u + R.eta)
    (hO : 512 ≤ R.Omega) (hO' : (1 + u) ^ 128 * (4 + 128 * R.eta) ≤ R.Omega) (hO'' : 1 + A ≤ R.Omega) :
    ∃ x, ecdf1Newb env isqrt (List.ofFn b) = .ok x ∧ R.finite x ∧
      |R.val x - lowerProb fun i => R.val (b i)| ≤ A + n ^ 2 * u := by
  obtain ⟨h1, h2, h3⟩ := flip_ok hops hrefl (by linarith) hbf hb
  obtain ⟨x, hx, hxf, hxA⟩ := C53_ecdf1_new_B_error env hn hpmf hops hfft hN hWf (B := flipF b) hz ho (fun i => hbS _) h1 h2 isqrt ha
    hdelta hetaF heta hrho heps hom htau hsmall hA hO hO' hO''
  refine ⟨x, ?_, hxf, ?_⟩
  · unfold ecdf1Newb
    dsimp only
    rw [check_valid_float hbf hb "b" _ (by simp), M_ok_bind, symmetricSteps_ofFn, M_ok_bind]
    exact hx
  · have hl := upper_lipschitz (fun i => R.val (flipF b i)) (reflect fun i => R.val (b i))
    have hs : (n : ℝ) * ∑ i, |R.val (flipF b i) - reflect (fun i => R.val (b i)) i| ≤ n ^ 2 * u := by
      have : ∑ i, |R.val (flipF b i) - reflect (fun i => R.val (b i)) i| ≤ ∑ _i : Fin n, u := Finset.sum_le_sum fun i _ => h3 i
      rw [Finset.sum_const, Finset.card_univ, Fintype.card_fin, nsmul_eq_mul] at this
      calc (n : ℝ) * _ ≤ n * (n * u) := mul_le_mul_of_nonneg_left this (Nat.cast_nonneg n)
        _ = _ := by ring
    rw [lowerProb_reflect]
    exact (abs_sub_le _ _ _).trans (add_le_add hxA (hl.trans hs))

/-! ### Explicit bounds -/

/-- The error bound for an arithmetic without underflow, in explicit form. -/
theorem explicit_bound_new {n : ℕ} (hn : 1 ≤ n) {u gP eps kap T A : ℝ} (hu : 0 ≤ u) (hu8 : u ≤ 1 / 8) (huT : u ≤ T)
    (hg1 : 1 ≤ gP) (hgT : gP ≤ 1 + T) (heps : 0 ≤ eps)
    (hkap : kap = gP * (1 + eps)) (hkT : kap ≤ 1 + T) (hT : (3 * n + 1) * T ≤ 1 / 2)
    (hA : A = (1 + u) * ((kap ^ (3 * n + 1) - 1) * gP / poissonProb n n + (gP - 1)) + u) :
    kap ^ (3 * n + 1) ≤ 2 ∧ A ≤ 4 * Real.exp 1 * √n * ((3 * n + 1) * T) := by
  have hT0 : 0 ≤ T := hu.trans huT
  have hk1 : 1 ≤ kap := by rw [hkap]; nlinarith
  have hn1 : (1 : ℝ) ≤ n := by exact_mod_cast hn
  have h1 : kap ^ (3 * n + 1) ≤ 1 + 2 * ((3 * n + 1) * T) := by
    refine (pow_le_pow_left₀ (by linarith) hkT _).trans ?_
    have := pow_le_lin hT0 (m := 3 * n + 1) (by push_cast; exact hT)
    push_cast at this
    exact this
  refine ⟨by linarith, ?_⟩
  have hp := inv_poissonProb_le hn
  set E := Real.exp 1 * √n with hE
  set m : ℝ := 3 * n + 1 with hm
  have hsq : 1 ≤ √(n : ℝ) := by
    rw [show (1 : ℝ) = √1 by simp]; exact Real.sqrt_le_sqrt hn1
  have hE2 : 27 / 10 ≤ E := by
    have := Real.exp_one_gt_d9
    rw [hE]
    nlinarith
  have hm3 : 3 ≤ m := by rw [hm]; linarith
  have hT6 : T ≤ 1 / 6 := by nlinarith
  have hpp : 0 < poissonProb n n := by unfold poissonProb; positivity
  have h0 : 0 ≤ kap ^ (3 * n + 1) - 1 := by linarith [one_le_pow₀ hk1 (n := 3 * n + 1)]
  have a1 : (kap ^ (3 * n + 1) - 1) * gP / poissonProb n n ≤ (2 * (m * T)) * (7 / 6) * E := by
    rw [div_eq_mul_one_div]
    exact mul_le_mul (mul_le_mul (by linarith) (by linarith) (by linarith) (by positivity)) hp (by positivity) (by positivity)
  have a2 : (1 + u) * ((kap ^ (3 * n + 1) - 1) * gP / poissonProb n n + (gP - 1))
      ≤ (9 / 8) * ((2 * (m * T)) * (7 / 6) * E + T) :=
    mul_le_mul (by linarith) (by linarith) (add_nonneg (div_nonneg (mul_nonneg h0 (by linarith)) hpp.le) (by linarith)) (by norm_num)
  have a3 : 8 * T ≤ m * T * E := by
    have : 8 ≤ m * E := by nlinarith
    nlinarith [mul_le_mul_of_nonneg_right this hT0]
  rw [hA]
  have e : 4 * Real.exp 1 * √(n : ℝ) * (m * T) = 4 * (m * T * E) := by rw [hE]; ring
  rw [e]
  have e2 : (2 * (m * T)) * (7 / 6) * E = (7 / 3) * (m * T * E) := by ring
  rw [e2] at a2
  nlinarith

theorem small_parts_new {n : ℕ} (hn : 1 ≤ n) {u delta s Q T : ℝ} (hu : 0 ≤ u) (hd : 0 ≤ delta) (hs : 1 ≤ s) (hQ : 0 ≤ Q)
    (hT : T = 2 * (2 * (Q * u) + s * (13 * u + 4 * delta) + 256 * u)) (hsmall : (3 * n + 1) * T ≤ 1 / 2) :
    Q * u ≤ 1 / 2 ∧ 256 * u ≤ 1 / 2 ∧ delta * s ≤ 1 / 8 := by
  have hn1 : (1 : ℝ) ≤ n := by exact_mod_cast hn
  have hQu : 0 ≤ Q * u := mul_nonneg hQ hu
  have h1 : 0 ≤ s * u := mul_nonneg (by linarith) hu
  have h2 : 0 ≤ s * delta := mul_nonneg (by linarith) hd
  have hT' : T = 4 * (Q * u) + 26 * (s * u) + 8 * (s * delta) + 512 * u := by rw [hT]; ring
  have hT0 : 0 ≤ T := by rw [hT']; linarith
  have h3 : 3 * T ≤ (3 * n + 1) * T := mul_le_mul_of_nonneg_right (by linarith) hT0
  refine ⟨by linarith, by linarith, ?_⟩
  rw [mul_comm]; linarith

/-- The error bound with FFT in explicit form. -/
theorem explicit_fft_new {n : ℕ} (hn : 1 ≤ n) {u delta s Q T gP G eps kap A : ℝ} (hu : 0 ≤ u) (hu8 : u ≤ 1 / 8) (hd : 0 ≤ delta)
    (hs : 1 ≤ s) (hQ : 0 ≤ Q) (hg1 : 1 ≤ gP) (hg : gP ≤ 1 + 2 * (Q * u)) (hG1 : 1 ≤ G) (hG : G ≤ 1 + 256 * u)
    (heps : eps = s * (13 * u + 4 * delta) + (G - 1)) (hkap : kap = gP * (1 + eps))
    (hT : T = 2 * (2 * (Q * u) + s * (13 * u + 4 * delta) + 256 * u)) (hsmall : (3 * n + 1) * T ≤ 1 / 2)
    (hA : A = (1 + u) * ((kap ^ (3 * n + 1) - 1) * gP / poissonProb n n + (gP - 1)) + u) :
    kap ^ (3 * n + 1) ≤ 2 ∧ A ≤ 4 * Real.exp 1 * √n * ((3 * n + 1) * T) := by
  have hQu : 0 ≤ Q * u := mul_nonneg hQ hu
  have hsu : 0 ≤ s * (13 * u + 4 * delta) := mul_nonneg (by linarith) (by linarith)
  obtain ⟨hQ2, -, -⟩ := small_parts_new hn hu hd hs hQ hT hsmall
  have heps0 : 0 ≤ eps := by rw [heps]; linarith
  have hkT : kap ≤ 1 + T := by
    have h1 : kap ≤ (1 + 2 * (Q * u)) * (1 + (s * (13 * u + 4 * delta) + 256 * u)) := by
      rw [hkap]
      exact mul_le_mul hg (by rw [heps]; linarith) (by linarith) (by linarith)
    have h2 : 2 * (Q * u) * (s * (13 * u + 4 * delta) + 256 * u) ≤ s * (13 * u + 4 * delta) + 256 * u :=
      mul_le_of_le_one_left (by linarith) (by linarith)
    rw [hT]
    linarith
  exact explicit_bound_new hn hu hu8 (by rw [hT]; linarith) hg1 (by rw [hT]; linarith) heps0 hkap hkT hsmall hA


/-- The Poisson probabilities of `p`-bit arithmetic for the points 0, 1 and a finite set of points `pts`. -/
theorem fp_pmf {p : ℕ} (hp : 3 ≤ p) {n : ℕ} (hn : 1 ≤ n) (pts : Set ℝ) {Lam : ℝ}
    (hLam : ∀ x ∈ {0, 1} ∪ pts, ∀ y ∈ {0, 1} ∪ pts, x < y → |Real.log (n * (y - x))| ≤ Lam)
    {Q : ℕ} (hQ : 5 * n * Lam + 10 * n + 3 * Real.log n.factorial + 1 ≤ Q) {Om : ℝ}
    (h1 : 2 * (n * Lam + n + Real.log n.factorial) ≤ Om) (h2 : gOf p ^ Q ≤ Om) :
    PmfAccurate (fpModel p (by omega) Om) {y : Fp p | ∃ r ∈ {0, 1} ∪ pts, y = some r} n Q 0 := by
  have hp1 : 1 ≤ p := by omega
  have hg1 := one_le_gOf hp1
  have hln : Real.log n ≤ Lam := by
    have h1 := hLam 0 (by simp) 1 (by simp) one_pos
    rw [sub_zero, mul_one] at h1
    exact (le_abs_self _).trans h1
  have hQ1 : 1 ≤ Q := by
    by_contra h
    have : Q = 0 := by omega
    have h1 := hLam 0 (by simp) 1 (by simp) one_pos
    have h2 := (abs_nonneg _).trans h1
    have h3 : 0 ≤ 5 * n * Lam := by positivity
    have h4 := Real.log_natCast_nonneg n.factorial
    rw [this] at hQ
    push_cast at hQ
    linarith
  obtain ⟨Q', rfl⟩ : ∃ Q', Q = Q' + 1 := ⟨Q - 1, by omega⟩
  have hmemS : ∀ x : Fp p, x ∈ {y : Fp p | ∃ r ∈ {0, 1} ∪ pts, y = some r} → ∃ r ∈ {0, 1} ∪ pts, x = some r := fun x h => h
  refine C39_pmf_from_library hn (fpLibrary p hp1 Om n) (gOf_le hp) (Lam := Lam) hln ?_ (Q := Q') ?_ h1 ?_ ?_
  · intro x hx y hy _ _ _ hlt _
    obtain ⟨r, hr, rfl⟩ := hmemS x hx
    obtain ⟨s, hs, rfl⟩ := hmemS y hy
    exact hLam r hr s hs hlt
  · push_cast at hQ; linarith
  · exact (pow_le_pow_right₀ hg1 (by omega)).trans h2
  · rw [zero_mul]; unfold poissonProb; positivity

/-- `p`-bit rounding of `1 - x` is monotone. -/
theorem fp_reflect {p : ℕ} (hp : 1 ≤ p) (Om : ℝ) : MonotoneReflect (fpModel p hp Om) where
  anti := by
    rintro x y ⟨a, rfl⟩ ⟨c, rfl⟩ h0 h1 h2
    show roundTo p (((1 : ℤ) : ℝ) - c) ≤ roundTo p (((1 : ℤ) : ℝ) - a)
    have h2' : c ≤ 1 := h2
    have h1' : a ≤ c := h1
    exact roundTo_mono hp (by push_cast; linarith) (by linarith)
  zero := by
    show roundTo p (((1 : ℤ) : ℝ) - ((0 : ℤ) : ℝ)) = 1
    rw [Int.cast_one, Int.cast_zero, sub_zero, roundTo_one hp]

/-- The constants for `p`-bit floating point. -/
theorem fp_constants {p : ℕ} (hp : 3 ≤ p) {n Nmax Q : ℕ} (hn : 1 ≤ n) (hN : 2 * n + 2049 ≤ Nmax) {u delta T : ℝ}
    (hδ0 : 0 ≤ delta) (hu : u = 2 ^ (-(p : ℤ)))
    (hT : T = 2 * (2 * (Q * u) + √Nmax * (13 * u + 4 * delta) + 256 * u)) (hsmall : (3 * n + 1) * T ≤ 1 / 2) :
    0 ≤ u ∧ (1 + u) ^ 128 ≤ 128 ∧ delta * √Nmax ≤ 1 / 8 ∧ ∃ eps tau A : ℝ,
      eps = √Nmax * (13 * u + 4 * delta) + ((1 + u) ^ 128 - 1) ∧ 1 + tau = gOf p ^ Q * (1 + eps) ∧
      A = (1 + u) * (((1 + tau) ^ (3 * n + 1) - 1) * gOf p ^ Q / poissonProb n n + (gOf p ^ Q - 1)) + u ∧
      (1 + tau) ^ (3 * n + 1) ≤ 2 ∧ A ≤ 4 * Real.exp 1 * √n * ((3 * n + 1) * T) := by
  have hp1 : 1 ≤ p := by omega
  have hg1 := one_le_gOf hp1
  have hu0 : 0 ≤ u := by rw [hu]; positivity
  have hu8 : u ≤ 1 / 8 := by
    have := two_neg_le hp
    norm_num at this
    rw [hu]; simpa using this
  obtain ⟨G, hGdef⟩ : ∃ G, G = (1 + u) ^ 128 := ⟨_, rfl⟩
  have hsN1 : 1 ≤ √(Nmax : ℝ) := by
    rw [show (1 : ℝ) = √1 by simp]
    exact Real.sqrt_le_sqrt (by exact_mod_cast (by omega : 1 ≤ Nmax))
  have hQ0 : (0 : ℝ) ≤ Q := Nat.cast_nonneg Q
  obtain ⟨hQu, h256, hδ8⟩ := small_parts_new hn hu0 hδ0 hsN1 hQ0 hT hsmall
  have hgP : gOf p ^ Q ≤ 1 + 2 * (Q * u) := by
    have h := inv_pow_le hu0 (m := Q) hQu
    unfold gOf
    rw [← hu]
    exact h
  have hG : G ≤ 1 + 256 * u := by
    rw [hGdef]
    have := pow_le_lin hu0 (m := 128) (by push_cast; linarith)
    rw [Nat.cast_ofNat] at this
    refine this.trans (le_of_eq (by ring))
  have hG1 : 1 ≤ G := by rw [hGdef]; exact one_le_pow₀ (by linarith)
  have hgP1 : 1 ≤ gOf p ^ Q := one_le_pow₀ hg1
  obtain ⟨eps, heps⟩ : ∃ eps, eps = √(Nmax : ℝ) * (13 * u + 4 * delta) + (G - 1) := ⟨_, rfl⟩
  obtain ⟨kap, hkap⟩ : ∃ kap, kap = gOf p ^ Q * (1 + eps) := ⟨_, rfl⟩
  obtain ⟨A, hAdef⟩ : ∃ A, A = (1 + u) * ((kap ^ (3 * n + 1) - 1) * gOf p ^ Q / poissonProb n n + (gOf p ^ Q - 1)) + u := ⟨_, rfl⟩
  obtain ⟨hk2, hA⟩ := explicit_fft_new hn hu0 hu8 hδ0 hsN1 hQ0 hgP1 hgP hG1 hG heps hkap hT hsmall hAdef
  refine ⟨hu0, by rw [← hGdef]; linarith, hδ8, eps, kap - 1, A, by rw [← hGdef, heps], by rw [← hkap]; ring, ?_, ?_, hA⟩
  · rw [show 1 + (kap - 1) = kap by ring]; exact hAdef
  · rw [show 1 + (kap - 1) = kap by ring]; exact hk2

/-- C53 for `p`-bit binary floating point with rounding to nearest (`p = 53` for double) and any FFT library of accuracy
`delta`: every valid boundary, every `n >= 1`; `Lam` bounds `|log(n d)|` for all distances `d` between distinct points among
0, 1 and the boundary points.  The absolute error is at most `4 e sqrt(n) (3n+1) T` as long as `(3n+1) T <= 1/2`. -/
theorem C53_binary_floating_point {p : ℕ} (hp : 3 ≤ p) (env : Env (Fp p)) {n : ℕ} (hn : 1 ≤ n)
    {B : Fin n → ℝ} (hB : ValidBound B) (isqrt : ℕ → ℕ) (ha : env.asserts = false ∨ isqrt n + 1 ≤ n)
    {Nmax : ℕ} {delta : ℝ} (hfft : FFTAccurate (fpModel p (by omega) 0) env.fft Nmax delta 0 256) (hN : 2 * n + 2049 ≤ Nmax)
    {Lam : ℝ} (hLam : ∀ x ∈ {0, 1} ∪ range B, ∀ y ∈ {0, 1} ∪ range B, x < y → |Real.log (n * (y - x))| ≤ Lam)
    {Q : ℕ} (hQ : 5 * n * Lam + 10 * n + 3 * Real.log n.factorial + 1 ≤ Q)
    {u T : ℝ} (hu : u = 2 ^ (-(p : ℤ))) (hT : T = 2 * (2 * (Q * u) + √Nmax * (13 * u + 4 * delta) + 256 * u))
    (hsmall : (3 * n + 1) * T ≤ 1 / 2) :
    ∃ x : ℝ, ecdf1NewB env isqrt (List.ofFn (fpVec B)) = .ok (some x : Fp p) ∧
      |x - upperProb B| ≤ 4 * Real.exp 1 * √n * ((3 * n + 1) * T) := by
  have hp1 : 1 ≤ p := by omega
  obtain ⟨hu0, hG, hδ8, eps, tau, A, heps, htau, hAdef, hk2, hA⟩ := fp_constants hp hn hN hfft.delta_nonneg hu hT hsmall
  set Om := max (max (2 * (n * Lam + n + Real.log n.factorial)) (gOf p ^ Q)) (max 512 (1 + A)) with hOm
  have hpmf := fp_pmf hp hn (range B) hLam hQ (Om := Om) ((le_max_left _ _).trans (le_max_left _ _))
    ((le_max_right _ _).trans (le_max_left _ _))
  set R := fpModel p hp1 Om with hR
  have hfft' : FFTAccurate R env.fft Nmax delta 0 256 := ⟨hfft.delta_nonneg, hfft.etaF_nonneg, hfft.r2c, hfft.c2r⟩
  have hops : SignedOps R u Nmax := by
    rw [hu]; exact fpSigned p hp Om Nmax
  have h512 : (512 : ℝ) ≤ Om := (le_max_left _ _).trans (le_max_right _ _)
  obtain ⟨x, hx, hxf, hxA⟩ := C53_ecdf1_new_B_error (R := R) env hn hpmf hops hfft' hN le_rfl (B := fpVec B)
    ⟨0, by simp, by show (some ((0 : ℤ) : ℝ) : Option ℝ) = _; simp⟩
    ⟨1, by simp, by show (some ((1 : ℤ) : ℝ) : Option ℝ) = _; simp⟩
    (fun i => ⟨B i, by simp, rfl⟩) (fun i => ⟨B i, rfl⟩) hB isqrt ha hδ8 (by norm_num)
    (by show (Nmax : ℝ) * 0 ≤ 1; simp) rfl (eps := eps) heps rfl (tau := tau)
    (by show tau = (1 + (gOf p ^ Q - 1 + (n + 1) * 0 * gOf p ^ Q)) * (1 + eps) - 1
          + (√(Nmax : ℝ) * 2 * (12 * 0 + 34 * (Nmax * 0)) + 128 ^ 2 * (1 + u) ^ 128 * 0) + (n + 1) * 0
        linear_combination htau) hk2 (A := A)
    (by show A = (1 + u) * (((1 + tau) ^ (3 * n + 1) - 1) * gOf p ^ Q / poissonProb n n + (gOf p ^ Q - 1)) + u + 0
        rw [hAdef, add_zero]) h512
    (by show (1 + u) ^ 128 * (4 + 128 * 0) ≤ Om
        rw [mul_zero, add_zero]; linarith)
    ((le_max_right _ _).trans (le_max_right _ _))
  obtain ⟨r, rfl⟩ := hxf
  exact ⟨r, hx, hxA.trans hA⟩

/-- C53 for `ecdf1_new_b` in `p`-bit arithmetic: the points between which distances are bounded are 0, 1 and the rounded
`1 - b_i`, and rounding them costs a further `n^2 u`. -/
theorem C53_binary_floating_point_b {p : ℕ} (hp : 3 ≤ p) (env : Env (Fp p)) {n : ℕ} (hn : 1 ≤ n)
    {b : Fin n → ℝ} (hb : ValidBound b) (isqrt : ℕ → ℕ) (ha : env.asserts = false ∨ isqrt n + 1 ≤ n)
    {Nmax : ℕ} {delta : ℝ} (hfft : FFTAccurate (fpModel p (by omega) 0) env.fft Nmax delta 0 256) (hN : 2 * n + 2049 ≤ Nmax)
    {Lam : ℝ} (hLam : ∀ x ∈ {0, 1} ∪ range (fun i => roundTo p (1 - b i)), ∀ y ∈ {0, 1} ∪ range (fun i => roundTo p (1 - b i)),
      x < y → |Real.log (n * (y - x))| ≤ Lam)
    {Q : ℕ} (hQ : 5 * n * Lam + 10 * n + 3 * Real.log n.factorial + 1 ≤ Q)
    {u T : ℝ} (hu : u = 2 ^ (-(p : ℤ))) (hT : T = 2 * (2 * (Q * u) + √Nmax * (13 * u + 4 * delta) + 256 * u))
    (hsmall : (3 * n + 1) * T ≤ 1 / 2) :
    ∃ x : ℝ, ecdf1Newb env isqrt (List.ofFn (fpVec b)) = .ok (some x : Fp p) ∧
      |x - lowerProb b| ≤ 4 * Real.exp 1 * √n * ((3 * n + 1) * T) + n ^ 2 * u := by
  have hp1 : 1 ≤ p := by omega
  obtain ⟨hu0, hG, hδ8, eps, tau, A, heps, htau, hAdef, hk2, hA⟩ := fp_constants hp hn hN hfft.delta_nonneg hu hT hsmall
  set Om := max (max (2 * (n * Lam + n + Real.log n.factorial)) (gOf p ^ Q)) (max 512 (1 + A)) with hOm
  have hpmf := fp_pmf hp hn (range (fun i => roundTo p (1 - b i))) hLam hQ (Om := Om) ((le_max_left _ _).trans (le_max_left _ _))
    ((le_max_right _ _).trans (le_max_left _ _))
  set R := fpModel p hp1 Om with hR
  have hfft' : FFTAccurate R env.fft Nmax delta 0 256 := ⟨hfft.delta_nonneg, hfft.etaF_nonneg, hfft.r2c, hfft.c2r⟩
  have hops : SignedOps R u Nmax := by
    rw [hu]; exact fpSigned p hp Om Nmax
  have h512 : (512 : ℝ) ≤ Om := (le_max_left _ _).trans (le_max_right _ _)
  obtain ⟨x, hx, hxf, hxA⟩ := C53_ecdf1_new_b_error (R := R) env hn hpmf hops (fp_reflect hp1 Om) hfft' hN le_rfl (b := fpVec b)
    ⟨0, by simp, by show (some ((0 : ℤ) : ℝ) : Option ℝ) = _; simp⟩
    ⟨1, by simp, by show (some ((1 : ℤ) : ℝ) : Option ℝ) = _; simp⟩
    (fun i => ⟨roundTo p (1 - b i), by simp, by
      show (some (roundTo p (((1 : ℤ) : ℝ) - b i)) : Option ℝ) = _; rw [Int.cast_one]⟩)
    (fun i => ⟨b i, rfl⟩) hb isqrt ha hδ8 (by norm_num)
    (by show (Nmax : ℝ) * 0 ≤ 1; simp) rfl (eps := eps) heps rfl (tau := tau)
    (by show tau = (1 + (gOf p ^ Q - 1 + (n + 1) * 0 * gOf p ^ Q)) * (1 + eps) - 1
          + (√(Nmax : ℝ) * 2 * (12 * 0 + 34 * (Nmax * 0)) + 128 ^ 2 * (1 + u) ^ 128 * 0) + (n + 1) * 0
        linear_combination htau) hk2 (A := A)
    (by show A = (1 + u) * (((1 + tau) ^ (3 * n + 1) - 1) * gOf p ^ Q / poissonProb n n + (gOf p ^ Q - 1)) + u + 0
        rw [hAdef, add_zero]) h512
    (by show (1 + u) ^ 128 * (4 + 128 * 0) ≤ Om
        rw [mul_zero, add_zero]; linarith)
    ((le_max_right _ _).trans (le_max_right _ _))
  obtain ⟨r, rfl⟩ := hxf
  refine ⟨r, hx, hxA.trans ?_⟩
  linarith

/-- Both parts of C53 are about something: in 53-bit arithmetic with a correctly rounded FFT, on the example boundaries. -/
theorem log_two_le {d : ℝ} (h1 : 1 / 10 ≤ d) (h2 : d ≤ 1) : |Real.log ((2 : ℕ) * d)| ≤ 9 := by
  have hd : 0 < ((2 : ℕ) : ℝ) * d := by push_cast; linarith
  rw [abs_le]
  constructor
  · have h := Real.one_sub_inv_le_log_of_pos hd
    have : (((2 : ℕ) : ℝ) * d)⁻¹ ≤ 5 := by
      rw [inv_le_comm₀ hd (by norm_num)]; push_cast; linarith
    generalize Real.log (((2 : ℕ) : ℝ) * d) = L at h ⊢
    generalize (((2 : ℕ) : ℝ) * d)⁻¹ = v at h this
    linarith
  · have h := Real.log_le_sub_one_of_pos hd
    push_cast at h ⊢
    linarith

theorem log_two_le' {d : ℝ} (h1 : 9 / 100 ≤ d) (h2 : d ≤ 1) : |Real.log ((2 : ℕ) * d)| ≤ 12 := by
  have hd : 0 < ((2 : ℕ) : ℝ) * d := by push_cast; linarith
  rw [abs_le]
  constructor
  · have h := Real.one_sub_inv_le_log_of_pos hd
    have : (((2 : ℕ) : ℝ) * d)⁻¹ ≤ 10 := by
      rw [inv_le_comm₀ hd (by norm_num)]; push_cast; linarith
    generalize Real.log (((2 : ℕ) : ℝ) * d) = L at h ⊢
    generalize (((2 : ℕ) : ℝ) * d)⁻¹ = v at h this
    linarith
  · have h := Real.log_le_sub_one_of_pos hd
    push_cast at h ⊢
    linarith

theorem exQ' : 5 * ((2 : ℕ) : ℝ) * 12 + 10 * ((2 : ℕ) : ℝ) + 3 * Real.log (Nat.factorial 2) + 1 ≤ ((150 : ℕ) : ℝ) := by
  have : Real.log (Nat.factorial 2) ≤ 1 := by
    have := Real.log_le_sub_one_of_pos (x := 2) (by norm_num)
    norm_num [Nat.factorial] at this ⊢
    exact this
  push_cast
  linarith

theorem exQ : 5 * ((2 : ℕ) : ℝ) * 9 + 10 * ((2 : ℕ) : ℝ) + 3 * Real.log (Nat.factorial 2) + 1 ≤ ((120 : ℕ) : ℝ) := by
  have : Real.log (Nat.factorial 2) ≤ 1 := by
    have := Real.log_le_sub_one_of_pos (x := 2) (by norm_num)
    norm_num [Nat.factorial] at this ⊢
    exact this
  push_cast
  linarith

theorem sqrt4096 : √((4096 : ℕ) : ℝ) = 64 := by
  rw [show ((4096 : ℕ) : ℝ) = 64 ^ 2 by norm_num]; exact Real.sqrt_sq (by norm_num)

theorem ex_factor : 4 * Real.exp 1 * √((2 : ℕ) : ℝ) ≤ 24 := by
  have h1 : Real.exp 1 ≤ 3 := by have := Real.exp_one_lt_d9; linarith
  have h2 : √((2 : ℕ) : ℝ) ≤ 2 := by
    rw [Real.sqrt_le_left (by norm_num)]; norm_num
  have := mul_le_mul h1 h2 (Real.sqrt_nonneg _) (by norm_num)
  linarith

theorem fpFft_accurate : FFTAccurate (fpModel 53 (by omega) 0) fpFftEnv.fft 4096 ((2 : ℝ) ^ (-((53 : ℕ) : ℤ))) 0 256 :=
  roundedFFTW_accurate 53 (by omega) 0 4096 256

example (isqrt : ℕ → ℕ) : ∃ x : ℝ, ecdf1NewB fpFftEnv isqrt (List.ofFn (fpVec exB)) = .ok (some x : Fp 53) ∧
    |x - upperProb exB| ≤ 1 / 10 ^ 10 := by
  have hmem : ∀ x ∈ ({0, 1} ∪ range exB : Set ℝ), x = 0 ∨ x = 1 ∨ x = 1 / 2 ∨ x = 9 / 10 := by
    rintro x (h | ⟨i, rfl⟩)
    · rcases h with h | h
      · exact Or.inl h
      · exact Or.inr (Or.inl h)
    · fin_cases i <;> simp [exB]
  have hLam : ∀ x ∈ {0, 1} ∪ range exB, ∀ y ∈ {0, 1} ∪ range exB, x < y → |Real.log ((2 : ℕ) * (y - x))| ≤ 9 := by
    intro x hx y hy hlt
    have hx' := hmem x hx
    have hy' := hmem y hy
    refine log_two_le ?_ ?_ <;>
    rcases hx' with rfl | rfl | rfl | rfl <;> rcases hy' with rfl | rfl | rfl | rfl <;>
      first | (norm_num; done) | (exfalso; norm_num at hlt; done)
  obtain ⟨x, hx, h⟩ := C53_binary_floating_point (p := 53) (by norm_num) fpFftEnv (n := 2) (by norm_num)
    exB_valid isqrt (Or.inl rfl) fpFft_accurate (by norm_num) hLam (Q := 120) exQ rfl rfl (by rw [sqrt4096]; norm_num)
  refine ⟨x, hx, h.trans ?_⟩
  rw [sqrt4096]
  refine (mul_le_mul_of_nonneg_right ex_factor (by positivity)).trans ?_
  norm_num

/-- Rounding a number of [0,1] to 53 bits moves it by at most `1/1000`. -/
theorem round_near {x : ℝ} (h0 : 0 ≤ x) (h1 : x ≤ 1) : x - 1 / 1000 ≤ roundTo 53 x ∧ roundTo 53 x ≤ x + 1 / 1000 := by
  have h := roundTo_err 53 x
  rw [abs_of_nonneg h0] at h
  have h2 : (2 : ℝ) ^ (-((53 : ℕ) : ℤ)) * x ≤ 1 / 1000 := by
    refine (mul_le_of_le_one_right (by positivity) h1).trans ?_
    norm_num
  have h3 := abs_le.mp (h.trans h2)
  constructor <;> linarith [h3.1, h3.2]

example (isqrt : ℕ → ℕ) : ∃ x : ℝ, ecdf1Newb fpFftEnv isqrt (List.ofFn (fpVec exb)) = .ok (some x : Fp 53) ∧
    |x - lowerProb exb| ≤ 1 / 10 ^ 10 := by
  obtain ⟨a1, a2⟩ := round_near (x := 9 / 10) (by norm_num) (by norm_num)
  obtain ⟨c1, c2⟩ := round_near (x := 7 / 10) (by norm_num) (by norm_num)
  have hmem : ∀ x ∈ ({0, 1} ∪ range (fun i => roundTo 53 (1 - exb i)) : Set ℝ),
      x = 0 ∨ x = 1 ∨ x = roundTo 53 (9 / 10) ∨ x = roundTo 53 (7 / 10) := by
    rintro x (h | ⟨i, rfl⟩)
    · rcases h with h | h
      · exact Or.inl h
      · exact Or.inr (Or.inl h)
    · fin_cases i
      · right; right; left
        show roundTo 53 (1 - 1 / 10) = _
        norm_num
      · right; right; right
        show roundTo 53 (1 - 3 / 10) = _
        norm_num
  generalize roundTo 53 (9 / 10) = r9 at *
  generalize roundTo 53 (7 / 10) = r7 at *
  have hLam : ∀ x ∈ {0, 1} ∪ range (fun i => roundTo 53 (1 - exb i)), ∀ y ∈ {0, 1} ∪ range (fun i => roundTo 53 (1 - exb i)),
      x < y → |Real.log ((2 : ℕ) * (y - x))| ≤ 12 := by
    intro x hx y hy hlt
    have hx' := hmem x hx
    have hy' := hmem y hy
    refine log_two_le' ?_ ?_ <;>
    rcases hx' with rfl | rfl | rfl | rfl <;> rcases hy' with rfl | rfl | rfl | rfl <;>
      linarith
  obtain ⟨x, hx, h⟩ := C53_binary_floating_point_b (p := 53) (by norm_num) fpFftEnv (n := 2) (by norm_num)
    exb_valid isqrt (Or.inl rfl) fpFft_accurate (by norm_num) hLam (Q := 150) exQ' rfl rfl (by rw [sqrt4096]; norm_num)
  refine ⟨x, hx, h.trans ?_⟩
  rw [sqrt4096]
  refine (add_le_add_left (mul_le_mul_of_nonneg_right ex_factor (by positivity)) _).trans ?_
  norm_num

end CP.Props
