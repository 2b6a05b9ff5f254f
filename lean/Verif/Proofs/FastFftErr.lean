import Verif.Proofs.FastFftAbs
import Verif.Proofs.FastNewErr
/-! Error of `ecdf2` with FFT as compiled: any arithmetic, then IEEE-754 arithmetic (cf. `Proofs/FastNewErr.lean`). -/
open MeasureTheory Set
namespace CP.Spec
open FOps CP.Props
noncomputable section

/-- `ecdf2` with FFT as compiled. -/
theorem fftFast_error {F : Type} [FOps F] {R : FloatModel F} {S : Set F} {c : FastCode F} {ex : ℕ} (hleg : FastCode.Legal c ex)
    (env : Env F) {n P : ℕ} (hn : 1 ≤ n)
    {etaP : ℝ} (hpmf : FastPmf R c S n P etaP) {u : ℝ} {Nmax : ℕ} (hops : SignedOps R u Nmax) (hsf : SignedFma R c u)
    {fft : FFTW F} {delta etaF Wf : ℝ} (hfft : FFTAccurate R fft Nmax delta etaF Wf) (hsm : n ≤ 126 ∨ env.fft = fft) (hN : 2 * n + 2049 ≤ Nmax) (hWf : 256 ≤ Wf)
    {b B : Fin n → F} (hz : zero ∈ S) (ho : one ∈ S) (hbS : ∀ i, b i ∈ S) (hBS : ∀ i, B i ∈ S)
    (hbf : ∀ i, R.finite (b i)) (hBf : ∀ i, R.finite (B i)) (hb : ValidBound fun i => R.val (b i))
    (hB : ValidBound fun i => R.val (B i)) {sort : List (Bound F) → List (Bound F)} (hsort : SortContractF R sort)
    (ha : env.asserts = false ∨ ¬ ∃ i j : Fin n, (j : ℕ) = i + 1 ∧ R.val (B j) < R.val (b i))
    (hdelta : delta * √Nmax ≤ 1 / 8) (hetaF : etaF ≤ 1) (heta : Nmax * R.eta ≤ 1)
    {rho eps om kap A : ℝ}
    (hrho : rho = R.g ^ P - 1 + (n + 1) * etaP * R.g ^ P)
    (heps : eps = √Nmax * (13 * u + 4 * delta) + ((1 + u) ^ (128 + ex) - 1))
    (hom : om = √Nmax * 2 * (12 * etaF + 34 * (Nmax * R.eta)) + 128 ^ 2 * (1 + u) ^ (128 + ex) * R.eta)
    (hkap : kap = (1 + rho) * (1 + eps) + om) (hsmall : kap ^ (2 * n + 1) ≤ 2)
    (hA : A = (1 + u) * ((kap ^ (2 * n + 1) - 1) * (R.g ^ (P + 1) / poissonProb n n + R.eta) + (R.g ^ (P + 1) - 1) + R.eta) + u + R.eta)
    (hO : 512 ≤ R.Omega) (hO' : (1 + u) ^ (128 + ex) * (4 + 128 * R.eta) ≤ R.Omega) (hO'' : 1 + A ≤ R.Omega)
    (hO2 : R.g ^ P / poissonProb n n ≤ R.Omega) :
    ∃ x, ecdf2Fast c env sort (List.ofFn b) (List.ofFn B) true = .ok x ∧ R.finite x ∧
      |R.val x - noncrossProb (fun i => R.val (b i)) (fun i => R.val (B i))| ≤ A := by
  have hu := hops.u_nonneg
  have hu8 := hops.u_le
  have he0 := R.eta_nonneg
  have hG : 1 ≤ (1 + u) ^ (128 + ex) := one_le_pow₀ (by linarith)
  have hG2 : (1 + u) ^ 2 ≤ (1 + u) ^ (128 + ex) := pow_le_pow_right₀ (by linarith) (by omega)
  have hsu : 0 ≤ √(Nmax : ℝ) * (13 * u + 4 * delta) := mul_nonneg (Real.sqrt_nonneg _) (by linarith [hfft.delta_nonneg])
  have hconv : ∀ site, ConvAccurate R (fastConvVal c env.fft site) (n + 1) eps om 2 := by
    intro site
    refine convAccurate_small (fft := fft) (hsm.imp (fun h => by omega) id) ?_
    rw [heps, hom]
    refine fastConvVal_acc hops hsf hleg site hfft ?_ hdelta hetaF heta (by norm_num) (by linarith) (by linarith) (by norm_num; exact hO')
    have h := roundUp_spec (n := 2 * ((n + 1 : ℕ) : ℤ)) (by omega)
    omega
  rw [poissonProb_eq] at hA hO2
  refine ecdf2Fast_abs env hpmf hops hrho ?_ ?_ hconv hkap hsmall hz ho hbS hBS hbf hBf hb hB hsort ha hA hn hO'' hO2
  · rw [heps]; linarith
  · rw [hom]
    have h1 : 0 ≤ √(Nmax : ℝ) * 2 * (12 * etaF + 34 * (Nmax * R.eta)) :=
      mul_nonneg (by positivity) (add_nonneg (by linarith [hfft.etaF_nonneg]) (by positivity))
    have h2 : 0 ≤ 128 ^ 2 * (1 + u) ^ (128 + ex) * R.eta := by positivity
    linarith

variable {A : FloatSystem} {u : ℝ}

/-- `ecdf2` with FFT as compiled, in IEEE-754 arithmetic. -/
theorem ieee_fftFast (h : A.OK u) {c : FastCode (Num A)} (hc : FastIeee A u c) {ex : ℕ} (hleg : FastCode.Legal c ex)
    (env : Env (Num A)) {n Nmax : ℕ} (hn : 1 ≤ n) (hL : LibmAccurate A u n)
    (hN : 2 * n + 2049 ≤ Nmax) (hNp : Nmax ≤ 2 ^ A.f.p) (hNn : Nmax * A.f.minNormal ≤ 1)
    {fft : FFTW (Num A)} {delta etaF : ℝ} (hfft : FFTAccurate (ieeeModel A u h) fft Nmax delta etaF 256)
    (hsm : n ≤ 126 ∨ env.fft = fft)
    {S : Set (Num A)} {gap : ℝ} (hγ0 : 0 < gap) (hγ1 : gap ≤ 1)
    (hgap : ∀ x ∈ S, ∀ y ∈ S, x.finite → y.finite → 0 ≤ x.val → x.val < y.val → y.val ≤ 1 → gap ≤ y.val - x.val)
    {b B : Fin n → Num A} (hz : zero ∈ S) (ho : one ∈ S) (hbS : ∀ i, b i ∈ S) (hBS : ∀ i, B i ∈ S)
    (hbf : ∀ i, (b i).finite) (hBf : ∀ i, (B i).finite) (hb : ValidBound fun i => (b i).val) (hB : ValidBound fun i => (B i).val)
    {sort : List (Bound (Num A)) → List (Bound (Num A))} (hsort : SortContractF (ieeeModel A u h) sort)
    (ha : env.asserts = false ∨ ¬ ∃ i j : Fin n, (j : ℕ) = i + 1 ∧ (B j).val < (b i).val)
    {Q : ℕ} (hQ : 5 * n * (Real.log n + Real.log (1 / gap)) + 11 * n + 5 * Real.log n.factorial ≤ Q)
    (hQO : 2 * (Q : ℝ) + 512 + Nmax + 6 * √n ≤ (2 : ℝ) ^ (A.f.emax - 1)) (hmin : A.f.minNormal * (2 * (Real.exp 1 * √n)) ≤ 1)
    {T : ℝ} (hT : T = 21 / 20 * ((Q + 2) * u + √Nmax * (13 * u + 4 * delta) + (128 + ex) * u)
      + (24 * √Nmax * etaF + (34 * √Nmax * Nmax + 128 ^ 2 + 3 * (n + 1)) * (2 : ℝ) ^ A.f.emin)) (hsmall : (2 * n + 1) * T ≤ 1 / 100) :
    ∃ x : Num A, ecdf2Fast c env sort (List.ofFn b) (List.ofFn B) true = .ok x ∧ x.finite ∧
      |x.val - noncrossProb (fun i => (b i).val) (fun i => (B i).val)| ≤ 6 / 5 * Real.exp 1 * √n * ((2 * n + 1) * T) := by
  have hnr : (1 : ℝ) ≤ n := by exact_mod_cast hn
  have hQ0 : (0 : ℝ) ≤ Q := Nat.cast_nonneg Q
  have hN0 : (0 : ℝ) ≤ Nmax := Nat.cast_nonneg Nmax
  have hsq0 := Real.sqrt_nonneg (n : ℝ)
  have hδ := hfft.delta_nonneg
  have hF := hfft.etaF_nonneg
  have hu0 := h.u_pos.le
  obtain ⟨w, hw⟩ : ∃ w : ℝ, w = (2 : ℝ) ^ A.f.emin := ⟨_, rfl⟩
  have hw0 : 0 ≤ w := by rw [hw]; positivity
  rw [← hw] at hT
  have hT0 : 0 ≤ T := by rw [hT]; positivity
  have hT6 : T ≤ 1 / 300 := by
    have : 3 * T ≤ (2 * n + 1) * T := mul_le_mul_of_nonneg_right (by linarith) hT0
    linarith
  have h3 : Real.exp 1 ≤ 3 := by have := Real.exp_one_lt_d9; linarith
  have hE3 : Real.exp 1 * √(n : ℝ) ≤ 3 * √n := mul_le_mul_of_nonneg_right h3 hsq0
  obtain ⟨⟨k1, k2, k3, k4, k5, k6⟩, c1, c2, c3, c4, c5, c6, c7⟩ := ieee_constF h hn hN hδ hF hw hT hT6 rfl rfl rfl (Q := Q)
  obtain ⟨hpmf, hO2⟩ := fast_ieee_pmf h hc hleg hn hL (by omega) hγ0 hγ1 hgap hQ (by linarith) c1 hmin (by linarith)
  have hops : SignedOps (ieeeModel A u h) u Nmax := ieeeSigned h hNn hNp (by linarith)
  have heta : (ieeeModel A u h).eta = w / 2 := by
    show (2 : ℝ) ^ (A.f.emin - 1) = _
    rw [zpow_sub_one₀ (by norm_num), hw]; rfl
  have hg : (ieeeModel A u h).g = gU u := rfl
  obtain ⟨rho, hrho⟩ : ∃ rho : ℝ, rho = gU u ^ (Q + 1) - 1 + (n + 1) * w * gU u ^ (Q + 1) := ⟨_, rfl⟩
  obtain ⟨eps, heps⟩ : ∃ eps : ℝ, eps = √Nmax * (13 * u + 4 * delta) + ((1 + u) ^ (128 + ex) - 1) := ⟨_, rfl⟩
  obtain ⟨om, hom⟩ : ∃ om : ℝ, om = √Nmax * 2 * (12 * etaF + 34 * (Nmax * (w / 2))) + 128 ^ 2 * (1 + u) ^ (128 + ex) * (w / 2) := ⟨_, rfl⟩
  obtain ⟨kap, hkap⟩ : ∃ kap : ℝ, kap = (1 + rho) * (1 + eps) + om := ⟨_, rfl⟩
  rw [← hrho, ← heps, ← hom] at k1
  rw [← hrho] at k5
  rw [← heps] at k4
  rw [← hom] at k6
  have hwn : 0 ≤ ((n : ℝ) + 1) * (w / 2) := by positivity
  have hkT : kap ≤ 1 + T := by rw [hkap]; linarith
  have hk1 : 1 ≤ kap := by
    rw [hkap]
    have := mul_nonneg k5 k4
    linarith
  obtain ⟨A', hA⟩ : ∃ A', A' = (1 + u) * ((kap ^ (2 * n + 1) - 1) * (gU u ^ (Q + 2) / poissonProb n n + w / 2) + (gU u ^ (Q + 2) - 1) + w / 2) + u + w / 2 := ⟨_, rfl⟩
  obtain ⟨f1, f2⟩ := final_boundF hn (by omega : 3 ≤ 2 * n + 1) hu0 (by linarith : 0 ≤ w / 2) c3 (by linarith) k3 k2 hk1 hkT
    (by push_cast; exact hsmall) hA
  push_cast at f2
  have hA6 : 6 / 5 * Real.exp 1 * √n * ((2 * n + 1) * T) ≤ 6 * √n := by
    have h3 : 6 / 5 * Real.exp 1 * √(n : ℝ) * ((2 * n + 1) * T) ≤ 6 / 5 * Real.exp 1 * √(n : ℝ) * (1 / 100) :=
      mul_le_mul_of_nonneg_left hsmall (by positivity)
    linarith
  have hO : (512 : ℝ) ≤ (ieeeModel A u h).Omega := by
    show (512 : ℝ) ≤ (2 : ℝ) ^ (A.f.emax - 1)
    linarith
  obtain ⟨x, hx, hxf, hxA⟩ := fftFast_error (R := ieeeModel A u h) hleg env hn hpmf hops (ieeeSignedFma h hc) hfft hsm hN le_rfl hz ho hbS hBS hbf hBf hb hB hsort ha
    c5 c6 (by rw [heta]; exact c7) (rho := rho) (eps := eps) (om := om) (kap := kap) (A := A')
    (by rw [hg, hrho, hw]) heps (by rw [heta]; exact hom) hkap f1 (by rw [heta, hg]; exact hA) hO
    (by rw [heta]
        refine le_trans ?_ hO
        have : (1 + u) ^ (128 + ex) * (4 + 128 * (w / 2)) ≤ 2 * (4 + 128 * (w / 2)) := mul_le_mul_of_nonneg_right c2 (by linarith)
        linarith)
    (by show 1 + A' ≤ (2 : ℝ) ^ (A.f.emax - 1)
        linarith) hO2
  exact ⟨x, hx, hxf, hxA.trans f2⟩

end
end CP.Spec
