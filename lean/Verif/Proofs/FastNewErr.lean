import Verif.Proofs.FastNewAbs
import Verif.Props.RoundingNew
import Verif.Proofs.FastIeee
/-! Error of `ecdf1_new` as compiled: any arithmetic, then IEEE-754 arithmetic. -/
open MeasureTheory Set
namespace CP.Spec
open FOps CP.Props
noncomputable section

/-- Below the threshold the FFT library does not matter. -/
theorem convAccurate_small {F : Type} [FOps F] {R : FloatModel F} {c : FastCode F} {fft fft' : FFTW F} {site M : ℕ} {eps om W : ℝ}
    (hsm : M ≤ 127 ∨ fft' = fft) (h : ConvAccurate R (fastConvVal c fft site) M eps om W) :
    ConvAccurate R (fastConvVal c fft' site) M eps om W := by
  rcases hsm with h1 | rfl
  · intro m hm a b ha hb hwa hwb
    have e : fastConvVal c fft' site m a b = fastConvVal c fft site m a b := by
      funext j
      unfold fastConvVal
      have h2 : (m : ℤ) < MINIMUM_SIZE_FOR_FFTW_CONVOLUTION := by
        have : MINIMUM_SIZE_FOR_FFTW_CONVOLUTION = 128 := rfl
        omega
      rw [if_pos h2, if_pos h2]
    rw [e]
    exact h m hm a b ha hb hwa hwb
  · exact h

/-- `ecdf1_new_B` as compiled. -/
theorem newBFast_error {F : Type} [FOps F] {R : FloatModel F} {S : Set F} {c : FastCodeNew F} {ex : ℕ} (hleg : FastCode.Legal c.toFastCode ex)
    (env : Env F) {n P : ℕ} (hn : 1 ≤ n)
    {etaP : ℝ} (hpmf : FastPmf R c.toFastCode S n P etaP) {u : ℝ} {Nmax : ℕ} (hops : SignedOps R u Nmax) (hsf : SignedFma R c.toFastCode u)
    {fft : FFTW F} {delta etaF Wf : ℝ} (hfft : FFTAccurate R fft Nmax delta etaF Wf) (hsm : n ≤ 126 ∨ env.fft = fft) (hN : 2 * n + 2049 ≤ Nmax) (hWf : 256 ≤ Wf)
    {B : Fin n → F} (hz : zero ∈ S) (ho : one ∈ S) (hBS : ∀ i, B i ∈ S)
    (hBf : ∀ i, R.finite (B i)) (hB : ValidBound fun i => R.val (B i))
    (isqrt : ℕ → ℕ) (ha : env.asserts = false ∨ isqrt n + 1 ≤ n)
    (hdelta : delta * √Nmax ≤ 1 / 8) (hetaF : etaF ≤ 1) (heta : Nmax * R.eta ≤ 1)
    {rho eps om tau A : ℝ}
    (hrho : rho = R.g ^ P - 1 + (n + 1) * etaP * R.g ^ P)
    (heps : eps = √Nmax * (13 * u + 4 * delta) + ((1 + u) ^ (128 + ex) - 1))
    (hom : om = √Nmax * 2 * (12 * etaF + 34 * (Nmax * R.eta)) + 128 ^ 2 * (1 + u) ^ (128 + ex) * R.eta)
    (htau : tau = (1 + rho) * (1 + eps) - 1 + om + (n + 1) * R.eta) (hsmall : (1 + tau) ^ (3 * n + 1) ≤ 2)
    (hA : A = (1 + u) * (((1 + tau) ^ (3 * n + 1) - 1) * (R.g ^ (P + 1) / poissonProb n n + R.eta) + (R.g ^ (P + 1) - 1) + R.eta) + u + R.eta)
    (hO : 512 ≤ R.Omega) (hO' : (1 + u) ^ (128 + ex) * (4 + 128 * R.eta) ≤ R.Omega) (hO'' : 1 + A ≤ R.Omega)
    (hO2 : R.g ^ P / poissonProb n n ≤ R.Omega) :
    ∃ x, ecdf1NewBFast c env isqrt (List.ofFn B) = .ok x ∧ R.finite x ∧
      |R.val x - upperProb fun i => R.val (B i)| ≤ A := by
  have hu := hops.u_nonneg
  have hu8 := hops.u_le
  have he0 := R.eta_nonneg
  have hG : 1 ≤ (1 + u) ^ (128 + ex) := one_le_pow₀ (by linarith)
  have hG2 : (1 + u) ^ 2 ≤ (1 + u) ^ (128 + ex) := pow_le_pow_right₀ (by linarith) (by omega)
  have hsu : 0 ≤ √(Nmax : ℝ) * (13 * u + 4 * delta) := mul_nonneg (Real.sqrt_nonneg _) (by linarith [hfft.delta_nonneg])
  have hconv : ∀ site, ConvAccurate R (fastConvVal c.toFastCode env.fft site) (n + 1) eps om 2 := by
    intro site
    refine convAccurate_small (fft := fft) (hsm.imp (fun h => by omega) id) ?_
    rw [heps, hom]
    refine fastConvVal_acc hops hsf hleg site hfft ?_ hdelta hetaF heta (by norm_num) (by linarith) (by linarith) (by norm_num; exact hO')
    have h := roundUp_spec (n := 2 * ((n + 1 : ℕ) : ℤ)) (by omega)
    omega
  have hgP : 1 ≤ R.g ^ P := one_le_pow₀ R.one_le_g
  have heta1 : R.eta ≤ 1 := by
    have : (1 : ℝ) ≤ Nmax := by exact_mod_cast (by omega : 1 ≤ Nmax)
    exact (le_mul_of_one_le_left he0 this).trans heta
  rw [poissonProb_eq] at hA hO2
  refine ecdf1NewBFast_abs env hn hpmf hrho ⟨hops, hsf, ?_, ?_, hconv, htau, ?_, hsmall, ?_⟩ hz ho hBS hBf hB isqrt ha hA hO'' hO2
  · rw [hrho]
    have : 0 ≤ ((n : ℝ) + 1) * etaP * R.g ^ P := mul_nonneg (mul_nonneg (by positivity) hpmf.etaP_nonneg) (by linarith)
    linarith
  · rw [hom]
    have h1 : 0 ≤ √(Nmax : ℝ) * 2 * (12 * etaF + 34 * (Nmax * R.eta)) :=
      mul_nonneg (by positivity) (add_nonneg (by linarith [hfft.etaF_nonneg]) (by positivity))
    have h2 : 0 ≤ 128 ^ 2 * (1 + u) ^ (128 + ex) * R.eta := by positivity
    linarith
  · rw [heps]; linarith
  · linarith

/-- From `ecdf1_new_B` as compiled to `ecdf1_new_b` as compiled: a further error `n^2 u` from the rounded reflection. -/
theorem newbFast_of_B {F : Type} [FOps F] {R : FloatModel F} {S : Set F} {c : FastCodeNew F} (env : Env F) {n : ℕ}
    {u : ℝ} {Nmax : ℕ} (hops : SignedOps R u Nmax) (hrefl : MonotoneReflect R) (isqrt : ℕ → ℕ) {A : ℝ}
    (hO : 1 ≤ R.Omega) {b : Fin n → F} (hbS : ∀ i, one -ᶠ b i ∈ S) (hbf : ∀ i, R.finite (b i)) (hb : ValidBound fun i => R.val (b i))
    (hBthm : ∀ B : Fin n → F, (∀ i, B i ∈ S) → (∀ i, R.finite (B i)) → (ValidBound fun i => R.val (B i)) →
      ∃ x, ecdf1NewBFast c env isqrt (List.ofFn B) = .ok x ∧ R.finite x ∧ |R.val x - upperProb fun i => R.val (B i)| ≤ A) :
    ∃ x, ecdf1NewbFast c env isqrt (List.ofFn b) = .ok x ∧ R.finite x ∧
      |R.val x - lowerProb fun i => R.val (b i)| ≤ A + n ^ 2 * u := by
  obtain ⟨h1, h2, h3⟩ := flip_ok hops hrefl hO hbf hb
  obtain ⟨x, hx, hxf, hxA⟩ := hBthm (flipF b) (fun i => hbS _) h1 h2
  refine ⟨x, ?_, hxf, ?_⟩
  · unfold ecdf1NewbFast
    dsimp only
    rw [check_valid_float hbf hb "b" _ (by simp), M_ok_bind, symmetricSteps_ofFn, M_ok_bind]
    exact hx
  · have hl := upper_lipschitz (fun i => R.val (flipF b i)) (reflect fun i => R.val (b i))
    have hs : (n : ℝ) * ∑ i, |R.val (flipF b i) - reflect (fun i => R.val (b i)) i| ≤ n ^ 2 * u := by
      have : ∑ i, |R.val (flipF b i) - reflect (fun i => R.val (b i)) i| ≤ ∑ _i : Fin n, u := Finset.sum_le_sum fun i _ => h3 i
      rw [Finset.sum_const, Finset.card_univ, Fintype.card_fin, nsmul_eq_mul] at this
      calc (n : ℝ) * _ ≤ n * (n * u) := mul_le_mul_of_nonneg_left this (Nat.cast_nonneg n)
        _ = _ := by ring
    rw [lowerProb_reflect]
    exact (abs_sub_le _ _ _).trans (add_le_add hxA (hl.trans hs))

variable {A : FloatSystem} {u : ℝ}

theorem ieeeSignedFma (h : A.OK u) {c : FastCode (Num A)} (hc : FastIeee A u c) : SignedFma (ieeeModel A u h) c u where
  fma := by
    intro x y z hx hy hz hO
    have := roundNum_abs h (x := x.val * y.val + z.val) hO
    show (c.fma x y z).finite ∧ |(c.fma x y z).val - _| ≤ _
    rw [hc.fma x y z hx hy hz]
    exact this
  neg := by
    rintro x ⟨v, hv, rfl⟩
    exact ⟨⟨-v, ⟨hv.1.neg, by rw [abs_neg]; exact hv.2⟩, rfl⟩, rfl⟩

/-- The constants; as `kap_bound` with `v` for `128 u` and separate exponents. -/
theorem kap_boundF {n : ℕ} (hn : 1 ≤ n) {u v delta s N gP a G w etaF rho eps om T : ℝ} (hu : 0 ≤ u) (hv : 128 * u ≤ v) (hd : 0 ≤ delta)
    (hs : 1 ≤ s) (hN : 1 ≤ N) (hw : 0 ≤ w) (hF : 0 ≤ etaF) (hg1 : 1 ≤ gP) (hga : gP ≤ 1 + 51 / 50 * a) (hG1 : 1 ≤ G)
    (hG : G ≤ 1 + 51 / 50 * v)
    (hrho : rho = gP - 1 + (n + 1) * w * gP) (heps : eps = s * (13 * u + 4 * delta) + (G - 1))
    (hom : om = s * 2 * (12 * etaF + 34 * (N * (w / 2))) + 128 ^ 2 * G * (w / 2))
    (hT : T = 21 / 20 * (a + s * (13 * u + 4 * delta) + v) + (24 * s * etaF + (34 * s * N + 128 ^ 2 + 3 * (n + 1)) * w))
    (hT6 : T ≤ 1 / 300) :
    (1 + rho) * (1 + eps) + om + (n + 1) * (w / 2) ≤ 1 + T ∧ 51 / 50 * a ≤ T ∧ 128 * u ≤ T ∧ 16384 * w ≤ T ∧ 0 ≤ eps ∧ 0 ≤ rho ∧ 0 ≤ om ∧
      s * (13 * u + 4 * delta) ≤ T ∧ 24 * etaF ≤ T ∧ 16 * N * w ≤ T := by
  have ha : 0 ≤ a := by linarith
  have hv0 : 0 ≤ v := by linarith
  have h1 : 0 ≤ s * (13 * u + 4 * delta) := mul_nonneg (by linarith) (by linarith)
  have h2 : 0 ≤ s * etaF := mul_nonneg (by linarith) hF
  have h3 : 0 ≤ s * N * w := mul_nonneg (mul_nonneg (by linarith) (by linarith)) hw
  have hn1 : (1 : ℝ) ≤ n := by exact_mod_cast hn
  have h4 : 0 ≤ ((n : ℝ) + 1) * w := mul_nonneg (by linarith) hw
  have hF2 : etaF ≤ s * etaF := le_mul_of_one_le_left hF hs
  have hNw : N * w ≤ s * N * w := by
    rw [mul_assoc]; exact le_mul_of_one_le_left (mul_nonneg (by linarith) hw) hs
  have hT' : T = 21 / 20 * a + 21 / 20 * (s * (13 * u + 4 * delta)) + 21 / 20 * v + 24 * (s * etaF) + 34 * (s * N * w) + 16384 * w + 3 * ((n + 1) * w) := by
    rw [hT]; ring
  have hNw0 : 0 ≤ N * w := mul_nonneg (by linarith) hw
  refine ⟨?_, by linarith, by linarith, by linarith, by rw [heps]; linarith, ?_, ?_, by linarith, by linarith, by linarith⟩
  · have e1 : 1 + rho = gP * (1 + (n + 1) * w) := by rw [hrho]; ring
    obtain ⟨c, hc⟩ : ∃ c, c = s * (13 * u + 4 * delta) + 51 / 50 * v := ⟨_, rfl⟩
    obtain ⟨d, hdd⟩ : ∃ d, d = ((n : ℝ) + 1) * w := ⟨_, rfl⟩
    have hc0 : 0 ≤ c := by rw [hc]; linarith
    have he : 1 + eps ≤ 1 + c := by rw [heps, hc]; linarith
    have h5 : (1 + rho) * (1 + eps) ≤ (1 + 51 / 50 * a) * (1 + d) * (1 + c) := by
      rw [e1, ← hdd]
      refine mul_le_mul (mul_le_mul_of_nonneg_right hga (by linarith)) he ?_ ?_
      · rw [heps]; linarith
      · exact mul_nonneg (by linarith) (by linarith)
    have ha1 : 51 / 50 * a ≤ 1 / 200 := by linarith
    have hc1 : c ≤ 1 / 200 := by rw [hc]; linarith
    have h6 : (1 + 51 / 50 * a) * (1 + d) * (1 + c) ≤ 1 + 51 / 50 * a + 201 / 200 * c + 2 * d := by
      have x1 : 51 / 50 * a * c ≤ 1 / 200 * c := mul_le_mul_of_nonneg_right ha1 hc0
      have x2 : (1 + 51 / 50 * a) * (1 + c) ≤ 2 := by
        have := mul_le_mul (show 1 + 51 / 50 * a ≤ 13 / 12 by linarith) (show 1 + c ≤ 13 / 12 by linarith) (by linarith) (by norm_num)
        linarith
      have x3 : (1 + 51 / 50 * a) * (1 + c) * d ≤ 2 * d := mul_le_mul_of_nonneg_right x2 (by rw [hdd]; exact h4)
      have e : (1 + 51 / 50 * a) * (1 + d) * (1 + c) = 1 + 51 / 50 * a + c + 51 / 50 * a * c + (1 + 51 / 50 * a) * (1 + c) * d := by ring
      rw [e]
      linarith
    have h7 : om ≤ 24 * (s * etaF) + 34 * (s * N * w) + 16384 * w := by
      have hG2 : G ≤ 2 := by linarith
      have x : 128 ^ 2 * G * (w / 2) ≤ 16384 * w := by
        have := mul_le_mul_of_nonneg_right hG2 hw
        linarith
      have e : s * 2 * (12 * etaF + 34 * (N * (w / 2))) = 24 * (s * etaF) + 34 * (s * N * w) := by ring
      rw [hom, e]
      linarith
    linarith
  · rw [hrho]
    have : 0 ≤ ((n : ℝ) + 1) * w * gP := mul_nonneg h4 (by linarith)
    linarith
  · rw [hom]
    have x1 : 0 ≤ s * 2 * (12 * etaF + 34 * (N * (w / 2))) := mul_nonneg (by linarith) (by linarith)
    have x2 : 0 ≤ 128 ^ 2 * G * (w / 2) := mul_nonneg (by linarith) (by linarith)
    linarith

/-- The final quotient and the explicit form of the bound. -/
theorem final_boundF {n m : ℕ} (hn : 1 ≤ n) (hm : 3 ≤ m) {u e gP kap T A' : ℝ} (hu : 0 ≤ u) (he : 0 ≤ e) (huT : 128 * u ≤ T)
    (heT : 8192 * e ≤ T) (hg1 : 1 ≤ gP) (hgT : gP ≤ 1 + T) (hk1 : 1 ≤ kap) (hkT : kap ≤ 1 + T) (hT : m * T ≤ 1 / 100)
    (hA : A' = (1 + u) * ((kap ^ m - 1) * (gP / poissonProb n n + e) + (gP - 1) + e) + u + e) :
    kap ^ m ≤ 2 ∧ A' ≤ 6 / 5 * Real.exp 1 * √n * (m * T) := by
  have hT0 : 0 ≤ T := by linarith
  have hm3 : (3 : ℝ) ≤ m := by exact_mod_cast hm
  have h1 : kap ^ m ≤ 1 + 51 / 50 * (m * T) := (pow_le_pow_left₀ (by linarith) hkT _).trans (pow_le_tight hT0 hT)
  refine ⟨by linarith, ?_⟩
  have hn1 : (1 : ℝ) ≤ n := by exact_mod_cast hn
  have hp := inv_poissonProb_le hn
  set E := Real.exp 1 * √n with hE
  have hsq : 1 ≤ √(n : ℝ) := by
    rw [show (1 : ℝ) = √1 by simp]; exact Real.sqrt_le_sqrt hn1
  have hE2 : 27 / 10 ≤ E := by
    have := Real.exp_one_gt_d9
    rw [hE]
    nlinarith
  have hmT : 3 * T ≤ m * T := mul_le_mul_of_nonneg_right hm3 hT0
  have hpp : 0 < poissonProb n n := by unfold poissonProb; positivity
  have h0 : 0 ≤ kap ^ m - 1 := by linarith [one_le_pow₀ hk1 (n := m)]
  have hmT0 : 0 ≤ m * T := by linarith
  have a1 : (kap ^ m - 1) * (gP / poissonProb n n) ≤ (51 / 50 * (m * T)) * ((101 / 100) * E) := by
    rw [div_eq_mul_one_div]
    exact mul_le_mul (by linarith) (mul_le_mul (by linarith) hp (by positivity) (by linarith)) (mul_nonneg (by linarith) (by positivity)) (by positivity)
  have a0 : (kap ^ m - 1) * e ≤ 1 * e := mul_le_mul_of_nonneg_right (by linarith) he
  have a2 : (1 + u) * ((kap ^ m - 1) * (gP / poissonProb n n + e) + (gP - 1) + e)
      ≤ (1001 / 1000) * ((51 / 50 * (m * T)) * ((101 / 100) * E) + T + 2 * e) := by
    refine mul_le_mul (by linarith) (by rw [mul_add]; linarith) ?_ (by norm_num)
    have : 0 ≤ (kap ^ m - 1) * (gP / poissonProb n n + e) := mul_nonneg h0 (add_nonneg (div_nonneg (by linarith) hpp.le) he)
    linarith
  have a3 : 81 / 10 * T ≤ m * T * E := by
    have := mul_le_mul hmT hE2 (by norm_num) hmT0
    linarith
  rw [hA]
  have e1 : 6 / 5 * Real.exp 1 * √(n : ℝ) * (m * T) = 6 / 5 * (m * T * E) := by rw [hE]; ring
  rw [e1]
  have e2 : (51 / 50 * (m * T)) * ((101 / 100) * E) = (5151 / 5000) * (m * T * E) := by ring
  rw [e2] at a2
  linarith

/-- Facts about the constants of an IEEE-754 system. -/
theorem ieee_constF (h : A.OK u) {n Nmax Q ex : ℕ} (hn : 1 ≤ n) (hN : 2 * n + 2049 ≤ Nmax) {delta etaF : ℝ} (hδ : 0 ≤ delta)
    (hF : 0 ≤ etaF) {w T : ℝ} (hw : w = (2 : ℝ) ^ A.f.emin)
    (hT : T = 21 / 20 * ((Q + 2) * u + √Nmax * (13 * u + 4 * delta) + (128 + ex) * u)
      + (24 * √Nmax * etaF + (34 * √Nmax * Nmax + 128 ^ 2 + 3 * (n + 1)) * w)) (hT6 : T ≤ 1 / 300)
    {rho eps om : ℝ} (hrho : rho = gU u ^ (Q + 1) - 1 + (n + 1) * w * gU u ^ (Q + 1))
    (heps : eps = √Nmax * (13 * u + 4 * delta) + ((1 + u) ^ (128 + ex) - 1))
    (hom : om = √Nmax * 2 * (12 * etaF + 34 * (Nmax * (w / 2))) + 128 ^ 2 * (1 + u) ^ (128 + ex) * (w / 2)) :
    ((1 + rho) * (1 + eps) + om + (n + 1) * (w / 2) ≤ 1 + T ∧ gU u ^ (Q + 2) ≤ 1 + T ∧ 1 ≤ gU u ^ (Q + 2) ∧
      0 ≤ eps ∧ 0 ≤ rho ∧ 0 ≤ om) ∧
    (((Q + 1 : ℕ) : ℝ) * u ≤ 1 / 2 ∧ (1 + u) ^ (128 + ex) ≤ 2 ∧ 128 * u ≤ T ∧ 16384 * w ≤ T ∧
    delta * √Nmax ≤ 1 / 8 ∧ etaF ≤ 1 ∧ Nmax * (w / 2) ≤ 1) := by
  have hu0 := h.u_pos.le
  have hw0 : 0 ≤ w := by rw [hw]; positivity
  have hs : 1 ≤ √(Nmax : ℝ) := by
    rw [show (1 : ℝ) = √1 by simp]
    exact Real.sqrt_le_sqrt (by exact_mod_cast (by omega : 1 ≤ Nmax))
  have hN1 : (1 : ℝ) ≤ Nmax := by exact_mod_cast (by omega : 1 ≤ Nmax)
  have hQ0 : (0 : ℝ) ≤ Q := Nat.cast_nonneg Q
  have hx0 : (0 : ℝ) ≤ ex := Nat.cast_nonneg ex
  have hn1 : (1 : ℝ) ≤ n := by exact_mod_cast hn
  have p1 : 0 ≤ √(Nmax : ℝ) * (13 * u + 4 * delta) := by positivity
  have p2 : 0 ≤ 24 * √(Nmax : ℝ) * etaF := by positivity
  have p3 : 0 ≤ (34 * √(Nmax : ℝ) * Nmax + 128 ^ 2 + 3 * (n + 1)) * w := by positivity
  have p4 : 0 ≤ (128 + (ex : ℝ)) * u := by positivity
  have p5 : 0 ≤ ((Q : ℝ) + 2) * u := by positivity
  have hQu1 : ((Q : ℝ) + 2) * u ≤ 1 / 300 := by linarith
  have hg : gU u ^ (Q + 2) ≤ 1 + 51 / 50 * ((Q + 2) * u) := by
    have := inv_pow_tight hu0 (m := Q + 2) (by push_cast; linarith)
    push_cast at this
    exact this
  have hgu := one_le_gU hu0 (by linarith [h.u_le])
  have hg1 : 1 ≤ gU u ^ (Q + 1) := one_le_pow₀ hgu
  have hg2 : gU u ^ (Q + 1) ≤ gU u ^ (Q + 2) := pow_le_pow_right₀ hgu (by omega)
  have h256 : (128 + (ex : ℝ)) * u ≤ 1 / 300 := by linarith
  have hG : (1 + u) ^ (128 + ex) ≤ 1 + 51 / 50 * ((128 + ex) * u) := by
    have := pow_le_tight hu0 (m := 128 + ex) (by push_cast; linarith)
    push_cast at this
    exact this
  have hG1 : 1 ≤ (1 + u) ^ (128 + ex) := one_le_pow₀ (by linarith)
  have hv : 128 * u ≤ (128 + (ex : ℝ)) * u := mul_le_mul_of_nonneg_right (by linarith) hu0
  obtain ⟨k1, k2, k3, k4, k5, k6, k7, k8, k9, k10⟩ := kap_boundF hn hu0 hv hδ hs hN1 hw0 hF hg1 (hg2.trans hg) hG1 hG hrho heps hom hT hT6
  refine ⟨⟨k1, hg.trans (by linarith), hg1.trans hg2, k5, k6, k7⟩, by push_cast; linarith, by linarith, k3, k4, ?_, by linarith, ?_⟩
  · have e : √(Nmax : ℝ) * (13 * u + 4 * delta) = 13 * (√(Nmax : ℝ) * u) + 4 * (delta * √Nmax) := by ring
    have : 0 ≤ √(Nmax : ℝ) * u := by positivity
    linarith
  · have e : 16 * (Nmax : ℝ) * w = 32 * (Nmax * (w / 2)) := by ring
    have : 0 ≤ (Nmax : ℝ) * (w / 2) := by positivity
    linarith

/-- `ecdf1_new_B` as compiled, in IEEE-754 arithmetic. -/
theorem ieee_newFast_B (h : A.OK u) {c : FastCodeNew (Num A)} (hc : FastIeee A u c.toFastCode) {ex : ℕ} (hleg : FastCode.Legal c.toFastCode ex)
    (env : Env (Num A)) {n Nmax : ℕ} (hn : 1 ≤ n) (hL : LibmAccurate A u n)
    (hN : 2 * n + 2049 ≤ Nmax) (hNp : Nmax ≤ 2 ^ A.f.p) (hNn : Nmax * A.f.minNormal ≤ 1)
    {fft : FFTW (Num A)} {delta etaF : ℝ} (hfft : FFTAccurate (ieeeModel A u h) fft Nmax delta etaF 256)
    (hsm : n ≤ 126 ∨ env.fft = fft)
    {S : Set (Num A)} {gap : ℝ} (hγ0 : 0 < gap) (hγ1 : gap ≤ 1)
    (hgap : ∀ x ∈ S, ∀ y ∈ S, x.finite → y.finite → 0 ≤ x.val → x.val < y.val → y.val ≤ 1 → gap ≤ y.val - x.val)
    {B : Fin n → Num A} (hz : zero ∈ S) (ho : one ∈ S) (hBS : ∀ i, B i ∈ S)
    (hBf : ∀ i, (B i).finite) (hB : ValidBound fun i => (B i).val)
    (isqrt : ℕ → ℕ) (ha : env.asserts = false ∨ isqrt n + 1 ≤ n)
    {Q : ℕ} (hQ : 5 * n * (Real.log n + Real.log (1 / gap)) + 11 * n + 5 * Real.log n.factorial ≤ Q)
    (hQO : 2 * (Q : ℝ) + 512 + Nmax + 6 * √n ≤ (2 : ℝ) ^ (A.f.emax - 1)) (hmin : A.f.minNormal * (2 * (Real.exp 1 * √n)) ≤ 1)
    {T : ℝ} (hT : T = 21 / 20 * ((Q + 2) * u + √Nmax * (13 * u + 4 * delta) + (128 + ex) * u)
      + (24 * √Nmax * etaF + (34 * √Nmax * Nmax + 128 ^ 2 + 3 * (n + 1)) * (2 : ℝ) ^ A.f.emin)) (hsmall : (3 * n + 1) * T ≤ 1 / 100) :
    ∃ x : Num A, ecdf1NewBFast c env isqrt (List.ofFn B) = .ok x ∧ x.finite ∧
      |x.val - upperProb (fun i => (B i).val)| ≤ 6 / 5 * Real.exp 1 * √n * ((3 * n + 1) * T) := by
  have hnr : (1 : ℝ) ≤ n := by exact_mod_cast hn
  have hQ0 : (0 : ℝ) ≤ Q := Nat.cast_nonneg Q
  have hN0 : (0 : ℝ) ≤ Nmax := Nat.cast_nonneg Nmax
  have hsq0 := Real.sqrt_nonneg (n : ℝ)
  have hδ := hfft.delta_nonneg
  have hF := hfft.etaF_nonneg
  have hu0 := h.u_pos.le
  obtain ⟨w, hw⟩ : ∃ w : ℝ, w = (2 : ℝ) ^ A.f.emin := ⟨_, rfl⟩
  have hw0 : 0 ≤ w := by rw [hw]; positivity
  rw [← hw] at hT
  have hT0 : 0 ≤ T := by rw [hT]; positivity
  have hT6 : T ≤ 1 / 300 := by
    have : 3 * T ≤ (3 * n + 1) * T := mul_le_mul_of_nonneg_right (by linarith) hT0
    linarith
  have h3 : Real.exp 1 ≤ 3 := by have := Real.exp_one_lt_d9; linarith
  have hE3 : Real.exp 1 * √(n : ℝ) ≤ 3 * √n := mul_le_mul_of_nonneg_right h3 hsq0
  obtain ⟨⟨k1, k2, k3, k4, k5, k6⟩, c1, c2, c3, c4, c5, c6, c7⟩ := ieee_constF h hn hN hδ hF hw hT hT6 rfl rfl rfl (Q := Q)
  obtain ⟨hpmf, hO2⟩ := fast_ieee_pmf h hc hleg hn hL (by omega) hγ0 hγ1 hgap hQ (by linarith) c1 hmin (by linarith)
  have hops : SignedOps (ieeeModel A u h) u Nmax := ieeeSigned h hNn hNp (by linarith)
  have heta : (ieeeModel A u h).eta = w / 2 := by
    show (2 : ℝ) ^ (A.f.emin - 1) = _
    rw [zpow_sub_one₀ (by norm_num), hw]; rfl
  have hg : (ieeeModel A u h).g = gU u := rfl
  obtain ⟨rho, hrho⟩ : ∃ rho : ℝ, rho = gU u ^ (Q + 1) - 1 + (n + 1) * w * gU u ^ (Q + 1) := ⟨_, rfl⟩
  obtain ⟨eps, heps⟩ : ∃ eps : ℝ, eps = √Nmax * (13 * u + 4 * delta) + ((1 + u) ^ (128 + ex) - 1) := ⟨_, rfl⟩
  obtain ⟨om, hom⟩ : ∃ om : ℝ, om = √Nmax * 2 * (12 * etaF + 34 * (Nmax * (w / 2))) + 128 ^ 2 * (1 + u) ^ (128 + ex) * (w / 2) := ⟨_, rfl⟩
  obtain ⟨tau, htau⟩ : ∃ tau : ℝ, tau = (1 + rho) * (1 + eps) - 1 + om + (n + 1) * (w / 2) := ⟨_, rfl⟩
  rw [← hrho, ← heps, ← hom] at k1
  rw [← hrho] at k5
  rw [← heps] at k4
  rw [← hom] at k6
  have hwn : 0 ≤ ((n : ℝ) + 1) * (w / 2) := by positivity
  have hkT : 1 + tau ≤ 1 + T := by rw [htau]; linarith
  have hk1 : 1 ≤ 1 + tau := by
    rw [htau]
    have := mul_nonneg k5 k4
    linarith
  obtain ⟨A', hA⟩ : ∃ A', A' = (1 + u) * (((1 + tau) ^ (3 * n + 1) - 1) * (gU u ^ (Q + 2) / poissonProb n n + w / 2) + (gU u ^ (Q + 2) - 1) + w / 2) + u + w / 2 := ⟨_, rfl⟩
  obtain ⟨f1, f2⟩ := final_boundF hn (by omega : 3 ≤ 3 * n + 1) hu0 (by linarith : 0 ≤ w / 2) c3 (by linarith) k3 k2 hk1 hkT
    (by push_cast; exact hsmall) hA
  push_cast at f2
  have hA6 : 6 / 5 * Real.exp 1 * √n * ((3 * n + 1) * T) ≤ 6 * √n := by
    have h3 : 6 / 5 * Real.exp 1 * √(n : ℝ) * ((3 * n + 1) * T) ≤ 6 / 5 * Real.exp 1 * √(n : ℝ) * (1 / 100) :=
      mul_le_mul_of_nonneg_left hsmall (by positivity)
    linarith
  have hO : (512 : ℝ) ≤ (ieeeModel A u h).Omega := by
    show (512 : ℝ) ≤ (2 : ℝ) ^ (A.f.emax - 1)
    linarith
  obtain ⟨x, hx, hxf, hxA⟩ := newBFast_error (R := ieeeModel A u h) hleg env hn hpmf hops (ieeeSignedFma h hc) hfft hsm hN le_rfl hz ho hBS hBf hB isqrt ha
    c5 c6 (by rw [heta]; exact c7) (rho := rho) (eps := eps) (om := om) (tau := tau) (A := A')
    (by rw [hg, hrho, hw]) heps (by rw [heta]; exact hom) (by rw [heta]; exact htau) f1 (by rw [heta, hg]; exact hA) hO
    (by rw [heta]
        refine le_trans ?_ hO
        have : (1 + u) ^ (128 + ex) * (4 + 128 * (w / 2)) ≤ 2 * (4 + 128 * (w / 2)) := mul_le_mul_of_nonneg_right c2 (by linarith)
        linarith)
    (by show 1 + A' ≤ (2 : ℝ) ^ (A.f.emax - 1)
        linarith) hO2
  exact ⟨x, hx, hxf, hxA.trans f2⟩

/-- `ecdf1_new_b` as compiled, in IEEE-754 arithmetic. -/
theorem ieee_newFast_b (h : A.OK u) {c : FastCodeNew (Num A)} (hc : FastIeee A u c.toFastCode) {ex : ℕ} (hleg : FastCode.Legal c.toFastCode ex)
    (env : Env (Num A)) {n Nmax : ℕ} (hn : 1 ≤ n) (hL : LibmAccurate A u n)
    (hN : 2 * n + 2049 ≤ Nmax) (hNp : Nmax ≤ 2 ^ A.f.p) (hNn : Nmax * A.f.minNormal ≤ 1)
    {fft : FFTW (Num A)} {delta etaF : ℝ} (hfft : FFTAccurate (ieeeModel A u h) fft Nmax delta etaF 256)
    (hsm : n ≤ 126 ∨ env.fft = fft)
    {S : Set (Num A)} {gap : ℝ} (hγ0 : 0 < gap) (hγ1 : gap ≤ 1)
    (hgap : ∀ x ∈ S, ∀ y ∈ S, x.finite → y.finite → 0 ≤ x.val → x.val < y.val → y.val ≤ 1 → gap ≤ y.val - x.val)
    {b : Fin n → Num A} (hz : zero ∈ S) (ho : one ∈ S) (hbS : ∀ i, one -ᶠ b i ∈ S)
    (hbf : ∀ i, (b i).finite) (hb : ValidBound fun i => (b i).val)
    (isqrt : ℕ → ℕ) (ha : env.asserts = false ∨ isqrt n + 1 ≤ n)
    {Q : ℕ} (hQ : 5 * n * (Real.log n + Real.log (1 / gap)) + 11 * n + 5 * Real.log n.factorial ≤ Q)
    (hQO : 2 * (Q : ℝ) + 512 + Nmax + 6 * √n ≤ (2 : ℝ) ^ (A.f.emax - 1)) (hmin : A.f.minNormal * (2 * (Real.exp 1 * √n)) ≤ 1)
    {T : ℝ} (hT : T = 21 / 20 * ((Q + 2) * u + √Nmax * (13 * u + 4 * delta) + (128 + ex) * u)
      + (24 * √Nmax * etaF + (34 * √Nmax * Nmax + 128 ^ 2 + 3 * (n + 1)) * (2 : ℝ) ^ A.f.emin)) (hsmall : (3 * n + 1) * T ≤ 1 / 100) :
    ∃ x : Num A, ecdf1NewbFast c env isqrt (List.ofFn b) = .ok x ∧ x.finite ∧
      |x.val - lowerProb (fun i => (b i).val)| ≤ 6 / 5 * Real.exp 1 * √n * ((3 * n + 1) * T) + n ^ 2 * u := by
  have hops : SignedOps (ieeeModel A u h) u Nmax := ieeeSigned h hNn hNp (by
    have := Real.sqrt_nonneg (n : ℝ)
    have hQ0 : (0 : ℝ) ≤ Q := Nat.cast_nonneg Q
    linarith)
  exact newbFast_of_B (R := ieeeModel A u h) env hops (ieeeReflect h) isqrt (by
      show (1 : ℝ) ≤ (2 : ℝ) ^ (A.f.emax - 1)
      linarith [one_le_Omega h.fmt]) hbS hbf hb (fun B hBS hBf hB =>
    ieee_newFast_B h hc hleg env hn hL hN hNp hNn hfft hsm hγ0 hγ1 hgap hz ho hBS hBf hB isqrt ha hQ hQO hmin hT hsmall)

end
end CP.Spec
