import Verif.Proofs.SharpAbs
import Verif.Proofs.SharpIeee
import Verif.Proofs.FastFftErr
/-! Sharper error bound of `ecdf2` with FFT as compiled: any arithmetic, then IEEE-754 arithmetic (cf. `Proofs/FastFftErr.lean`). -/
open MeasureTheory Set
namespace CP.Spec
open FOps CP.Props
noncomputable section

/-- `ecdf2` with FFT as compiled. -/
theorem fftSharp_error {F : Type} [FOps F] {R : FloatModel F} {S : Set F} {c : FastCode F} {ex : ℕ} (hleg : FastCode.Legal c ex)
    (env : Env F) {n P : ℕ} (hn : 1 ≤ n)
    {etaP : ℝ} (hpmf : SharpPmf R c S n P etaP) {u : ℝ} {Nmax : ℕ} (hops : SignedOps R u Nmax) (hsf : SignedFma R c u)
    {fft : FFTW F} {delta etaF Wf : ℝ} (hfft : FFTAccurate R fft Nmax delta etaF Wf) (hsm : n ≤ 126 ∨ env.fft = fft) (hN : 2 * n + 2049 ≤ Nmax) (hWf : 256 ≤ Wf)
    {b B : Fin n → F} (hz : zero ∈ S) (ho : one ∈ S) (hbS : ∀ i, b i ∈ S) (hBS : ∀ i, B i ∈ S)
    (hbf : ∀ i, R.finite (b i)) (hBf : ∀ i, R.finite (B i)) (hb : ValidBound fun i => R.val (b i))
    (hB : ValidBound fun i => R.val (B i)) {sort : List (Bound F) → List (Bound F)} (hsort : SortContractF R sort)
    (ha : env.asserts = false ∨ ¬ ∃ i j : Fin n, (j : ℕ) = i + 1 ∧ R.val (B j) < R.val (b i))
    (hdelta : delta * √Nmax ≤ 1 / 8) (hetaF : etaF ≤ 1) (heta : Nmax * R.eta ≤ 1)
    {th sg eps om kap A : ℝ}
    (hth : th = 8 * Real.log R.g + (R.g ^ P - 1)) (hsg : sg = R.g ^ 2 + (n + 1) * etaP * R.g ^ (8 * n + n * P + 1))
    (heps : eps = √Nmax * (13 * u + 4 * delta) + ((1 + u) ^ (128 + ex) - 1))
    (hom : om = √Nmax * 2 * (12 * etaF + 34 * (Nmax * R.eta)) + 128 ^ 2 * (1 + u) ^ (128 + ex) * R.eta)
    (hkap : kap = sg * (1 + eps) + om) (hsmall : kap ^ (2 * n + 1) * Real.exp (n * th) ≤ 2)
    (hA : A = (1 + u) * ((kap ^ (2 * n + 1) * Real.exp (n * th) - 1) * (R.g ^ (8 * n + n * P + 2) / poissonProb n n + R.eta) + (R.g ^ (8 * n + n * P + 2) - 1) + R.eta) + u + R.eta)
    (hO : 512 ≤ R.Omega) (hO' : (1 + u) ^ (128 + ex) * (4 + 128 * R.eta) ≤ R.Omega) (hO'' : 1 + A ≤ R.Omega)
    (hO2 : R.g ^ (8 * n + n * P + 1) / poissonProb n n ≤ R.Omega) :
    ∃ x, ecdf2Fast c env sort (List.ofFn b) (List.ofFn B) true = .ok x ∧ R.finite x ∧
      |R.val x - noncrossProb (fun i => R.val (b i)) (fun i => R.val (B i))| ≤ A := by
  have hu := hops.u_nonneg
  have hu8 := hops.u_le
  have he0 := R.eta_nonneg
  have hG : 1 ≤ (1 + u) ^ (128 + ex) := one_le_pow₀ (by linarith)
  have hG2 : (1 + u) ^ 2 ≤ (1 + u) ^ (128 + ex) := pow_le_pow_right₀ (by linarith) (by omega)
  have hsu : 0 ≤ √(Nmax : ℝ) * (13 * u + 4 * delta) := mul_nonneg (Real.sqrt_nonneg _) (by linarith [hfft.delta_nonneg])
  have hconv : ∀ site, ConvAccurate R (fastConvVal c env.fft site) (n + 1) eps om 2 := by
    intro site
    refine convAccurate_small (fft := fft) (hsm.imp (fun h => by omega) id) ?_
    rw [heps, hom]
    refine fastConvVal_acc hops hsf hleg site hfft ?_ hdelta hetaF heta (by norm_num) (by linarith) (by linarith) (by norm_num; exact hO')
    have h := roundUp_spec (n := 2 * ((n + 1 : ℕ) : ℤ)) (by omega)
    omega
  rw [poissonProb_eq] at hA hO2
  refine ecdf2Fast_sharpAbs env hpmf hops hth hsg ?_ ?_ hconv hkap hsmall hz ho hbS hBS hbf hBf hb hB hsort ha hA hn hO'' hO2
  · rw [heps]; linarith
  · rw [hom]
    have h1 : 0 ≤ √(Nmax : ℝ) * 2 * (12 * etaF + 34 * (Nmax * R.eta)) :=
      mul_nonneg (by positivity) (add_nonneg (by linarith [hfft.etaF_nonneg]) (by positivity))
    have h2 : 0 ≤ 128 ^ 2 * (1 + u) ^ (128 + ex) * R.eta := by positivity
    linarith

variable {A : FloatSystem} {u : ℝ}

/-- The constants of the final bound. -/
theorem final_boundSharp {n : ℕ} (hn : 1 ≤ n) {u e gP S Y A' : ℝ} (hu : 0 ≤ u) (he : 0 ≤ e) (huT : 128 * u ≤ Y)
    (heT : 8192 * e ≤ Y) (hg1 : 1 ≤ gP) (hgY : gP ≤ 1 + Y) (hS0 : 0 ≤ S) (hS : S ≤ 51 / 50 * Y) (hY : Y ≤ 1 / 100)
    (hA : A' = (1 + u) * (S * (gP / poissonProb n n + e) + (gP - 1) + e) + u + e) :
    A' ≤ 3 / 2 * Real.exp 1 * √n * Y := by
  have hY0 : 0 ≤ Y := by linarith
  have hp := inv_poissonProb_le hn
  have hn1 : (1 : ℝ) ≤ n := by exact_mod_cast hn
  have hpp : 0 < poissonProb n n := by unfold poissonProb; positivity
  rw [show 3 / 2 * Real.exp 1 * √(n : ℝ) * Y = 3 / 2 * ((Real.exp 1 * √n) * Y) by ring]
  set E := Real.exp 1 * √(n : ℝ) with hE
  have hsq : 1 ≤ √(n : ℝ) := by
    rw [show (1 : ℝ) = √1 by simp]; exact Real.sqrt_le_sqrt hn1
  have hE2 : 27 / 10 ≤ E := by
    have := Real.exp_one_gt_d9
    nlinarith
  have h1 : gP / poissonProb n n + e ≤ 101 / 100 * E + 1 / 1000 := by
    have h2 : gP * (1 / poissonProb n n) ≤ 101 / 100 * E := mul_le_mul (by linarith) hp (by positivity) (by norm_num)
    rw [div_eq_mul_one_div]
    linarith
  have h2 : 0 ≤ gP / poissonProb n n + e := by positivity
  have h3 : S * (gP / poissonProb n n + e) ≤ 51 / 50 * Y * (101 / 100 * E + 1 / 1000) := mul_le_mul hS h1 h2 (by linarith)
  have hEY : 27 / 10 * Y ≤ E * Y := mul_le_mul_of_nonneg_right hE2 hY0
  have h4 : S * (gP / poissonProb n n + e) + (gP - 1) + e ≤ 142 / 100 * (E * Y) := by
    have : 51 / 50 * Y * (101 / 100 * E + 1 / 1000) = 51 / 50 * (101 / 100) * (E * Y) + 51 / 50 * (1 / 1000) * Y := by ring
    linarith
  have h5 : (1 + u) * (S * (gP / poissonProb n n + e) + (gP - 1) + e) ≤ (1 + 1 / 1000) * (142 / 100 * (E * Y)) :=
    mul_le_mul (by linarith) h4 (by have := mul_nonneg hS0 h2; linarith) (by norm_num)
  rw [hA]
  linarith

set_option maxHeartbeats 1000000 in
/-- `ecdf2` with FFT as compiled, in IEEE-754 arithmetic. -/
theorem ieee_fftSharp (h : A.OK u) {c : FastCode (Num A)} (hc : FastIeee A u c) {ex : ℕ} (hleg : FastCode.Legal c ex)
    (env : Env (Num A)) {n Nmax : ℕ} (hn : 1 ≤ n) (hL : LibmAccurate A u n)
    (hN : 2 * n + 2049 ≤ Nmax) (hNp : Nmax ≤ 2 ^ A.f.p) (hNn : Nmax * A.f.minNormal ≤ 1)
    {fft : FFTW (Num A)} {delta etaF : ℝ} (hfft : FFTAccurate (ieeeModel A u h) fft Nmax delta etaF 256)
    (hsm : n ≤ 126 ∨ env.fft = fft)
    {S : Set (Num A)} {gap : ℝ} (hγ0 : 0 < gap) (hγ1 : gap ≤ 1)
    (hgap : ∀ x ∈ S, ∀ y ∈ S, x.finite → y.finite → 0 ≤ x.val → x.val < y.val → y.val ≤ 1 → gap ≤ y.val - x.val)
    {b B : Fin n → Num A} (hz : zero ∈ S) (ho : one ∈ S) (hbS : ∀ i, b i ∈ S) (hBS : ∀ i, B i ∈ S)
    (hbf : ∀ i, (b i).finite) (hBf : ∀ i, (B i).finite) (hb : ValidBound fun i => (b i).val) (hB : ValidBound fun i => (B i).val)
    {sort : List (Bound (Num A)) → List (Bound (Num A))} (hsort : SortContractF (ieeeModel A u h) sort)
    (ha : env.asserts = false ∨ ¬ ∃ i j : Fin n, (j : ℕ) = i + 1 ∧ (B j).val < (b i).val)
    {P Q : ℕ} (hP : 5 * (Real.log n + Real.log (1 / gap)) + 5 * Real.log n + 4 ≤ P) (hQ : Q = 8 * n + n * P)
    (hQO : 2 * (Q : ℝ) + 512 + Nmax + 6 * √n ≤ (2 : ℝ) ^ (A.f.emax - 1)) (hmin : A.f.minNormal * (2 * (Real.exp 1 * √n)) ≤ 1)
    {T : ℝ} (hT : T = 21 / 20 * (3 * u + √Nmax * (13 * u + 4 * delta) + (128 + ex) * u)
      + (24 * √Nmax * etaF + (34 * √Nmax * Nmax + 128 ^ 2 + 3 * (n + 1)) * (2 : ℝ) ^ A.f.emin)) {Y : ℝ} (hY : Y = (2 * n + 1) * T + 51 / 50 * ((Q + 2) * u)) (hsmall : Y ≤ 1 / 100) :
    ∃ x : Num A, ecdf2Fast c env sort (List.ofFn b) (List.ofFn B) true = .ok x ∧ x.finite ∧
      |x.val - noncrossProb (fun i => (b i).val) (fun i => (B i).val)| ≤ 3 / 2 * Real.exp 1 * √n * Y := by
  have hnr : (1 : ℝ) ≤ n := by exact_mod_cast hn
  have hQ0 : (0 : ℝ) ≤ Q := Nat.cast_nonneg Q
  have hN0 : (0 : ℝ) ≤ Nmax := Nat.cast_nonneg Nmax
  have hsq0 := Real.sqrt_nonneg (n : ℝ)
  have hδ := hfft.delta_nonneg
  have hF := hfft.etaF_nonneg
  have hu0 := h.u_pos.le
  obtain ⟨w, hw⟩ : ∃ w : ℝ, w = (2 : ℝ) ^ A.f.emin := ⟨_, rfl⟩
  have hw0 : 0 ≤ w := by rw [hw]; positivity
  rw [← hw] at hT
  have hT0 : 0 ≤ T := by rw [hT]; positivity
  have hQu0 : 0 ≤ ((Q : ℝ) + 2) * u := by positivity
  have hmT : (2 * (n : ℝ) + 1) * T ≤ Y := by rw [hY]; linarith
  have hT6 : T ≤ 1 / 300 := by
    have : 3 * T ≤ (2 * n + 1) * T := mul_le_mul_of_nonneg_right (by linarith) hT0
    linarith
  have hTY : T ≤ Y := by
    have : 1 * T ≤ (2 * n + 1) * T := mul_le_mul_of_nonneg_right (by linarith) hT0
    linarith
  have hY0 : 0 ≤ Y := by linarith
  have h3 : Real.exp 1 ≤ 3 := by have := Real.exp_one_lt_d9; linarith
  have hE3 : Real.exp 1 * √(n : ℝ) ≤ 3 * √n := mul_le_mul_of_nonneg_right h3 hsq0
  obtain ⟨rho, hrho⟩ : ∃ rho : ℝ, rho = gU u ^ (1 + 1) - 1 + (n + 1) * w * gU u ^ (1 + 1) := ⟨_, rfl⟩
  obtain ⟨eps, heps⟩ : ∃ eps : ℝ, eps = √Nmax * (13 * u + 4 * delta) + ((1 + u) ^ (128 + ex) - 1) := ⟨_, rfl⟩
  obtain ⟨om, hom⟩ : ∃ om : ℝ, om = √Nmax * 2 * (12 * etaF + 34 * (Nmax * (w / 2))) + 128 ^ 2 * (1 + u) ^ (128 + ex) * (w / 2) := ⟨_, rfl⟩
  obtain ⟨⟨k1, k2, k3, k4, k5, k6⟩, c1, c2, c3, c4, c5, c6, c7⟩ := ieee_constF h hn hN hδ hF hw (Q := 1) (by rw [hT]; push_cast; ring) hT6 hrho heps hom
  have hQu1 : ((Q : ℝ) + 2) * u ≤ 1 / 100 := by rw [hY] at hsmall; have := mul_nonneg (by linarith : 0 ≤ 2 * (n : ℝ) + 1) hT0; linarith
  have hgu := one_le_gU hu0 (by linarith [h.u_le])
  have hgQ : gU u ^ (Q + 2) ≤ 1 + 51 / 50 * ((Q + 2) * u) := by
    have := inv_pow_tight hu0 (m := Q + 2) (by push_cast; linarith)
    push_cast at this
    exact this
  obtain ⟨hpmf, hO2⟩ := sharp_ieee_pmf h hc hleg hn hL (by omega) hγ0 hγ1 hgap hP hQ (by linarith) (by push_cast; linarith) hmin (by linarith)
  have hops : SignedOps (ieeeModel A u h) u Nmax := ieeeSigned h hNn hNp (by linarith)
  have heta : (ieeeModel A u h).eta = w / 2 := by
    show (2 : ℝ) ^ (A.f.emin - 1) = _
    rw [zpow_sub_one₀ (by norm_num), hw]; rfl
  have hg : (ieeeModel A u h).g = gU u := rfl
  obtain ⟨sg, hsg⟩ : ∃ sg : ℝ, sg = gU u ^ 2 + (n + 1) * w * gU u ^ (8 * n + n * P + 1) := ⟨_, rfl⟩
  obtain ⟨th, hth⟩ : ∃ th : ℝ, th = 8 * Real.log (gU u) + (gU u ^ P - 1) := ⟨_, rfl⟩
  obtain ⟨kap, hkap⟩ : ∃ kap : ℝ, kap = sg * (1 + eps) + om := ⟨_, rfl⟩
  have hwn : 0 ≤ ((n : ℝ) + 1) * w := by positivity
  have hgQ1 : gU u ^ (8 * n + n * P + 1) ≤ 101 / 100 * (51 / 50) := by
    rw [← hQ]
    have : gU u ^ (Q + 1) ≤ gU u ^ (Q + 2) := pow_le_pow_right₀ hgu (by omega)
    linarith
  have hg21 : 1 ≤ gU u ^ 2 := one_le_pow₀ hgu
  have hsg1 : 1 ≤ sg := by
    have : 0 ≤ ((n : ℝ) + 1) * w * gU u ^ (8 * n + n * P + 1) := by positivity
    rw [hsg]; linarith
  have heps1 : eps ≤ 1 := by
    have h1 : (1 + eps) ≤ (1 + rho) * (1 + eps) := le_mul_of_one_le_left (by linarith) (by linarith)
    have : 0 ≤ ((n : ℝ) + 1) * (w / 2) := by positivity
    linarith
  have hkT : kap ≤ 1 + T := by
    have h1 : ((n : ℝ) + 1) * w * gU u ^ (8 * n + n * P + 1) ≤ (n + 1) * w * (101 / 100 * (51 / 50)) := mul_le_mul_of_nonneg_left hgQ1 hwn
    have h2 : ((n : ℝ) + 1) * w * 1 ≤ (n + 1) * w * gU u ^ 2 := mul_le_mul_of_nonneg_left hg21 hwn
    have h3 : sg ≤ 1 + rho + (n + 1) * w * (4 / 100) := by
      rw [hsg, hrho]
      norm_num
      linarith
    have h4 : ((n : ℝ) + 1) * w * (4 / 100) * (1 + eps) ≤ ((n : ℝ) + 1) * w * (4 / 100) * 2 := mul_le_mul_of_nonneg_left (by linarith) (by positivity)
    have h5 : sg * (1 + eps) ≤ (1 + rho + (n + 1) * w * (4 / 100)) * (1 + eps) := mul_le_mul_of_nonneg_right h3 (by linarith)
    have e5 : ((n : ℝ) + 1) * (w / 2) = (n + 1) * w / 2 := by ring
    rw [e5] at k1
    rw [add_mul] at h5
    rw [hkap]
    linarith
  have hk1 : 1 ≤ kap := by
    rw [hkap]
    have := mul_le_mul hsg1 (by linarith : 1 ≤ 1 + eps) zero_le_one (by linarith)
    linarith
  have hP0 : gU u ^ P ≤ 1 + 51 / 50 * (P * u) := by
    refine inv_pow_tight hu0 (m := P) ?_
    have hPQ : (P : ℝ) ≤ Q := by
      have : P ≤ Q := by rw [hQ]; have := Nat.le_mul_of_pos_left P hn; omega
      exact_mod_cast this
    have : (P : ℝ) * u ≤ (Q + 2) * u := mul_le_mul_of_nonneg_right (by linarith) hu0
    linarith
  have hlg : Real.log (gU u) ≤ 51 / 50 * u := by
    have h1 := Real.log_le_sub_one_of_pos (by linarith : 0 < gU u)
    have h2 := inv_pow_tight hu0 (m := 1) (by
      push_cast
      have : (1 : ℝ) * u ≤ (Q + 2) * u := mul_le_mul_of_nonneg_right (by linarith) hu0
      linarith)
    rw [pow_one] at h2
    push_cast at h2
    have h3 : gU u ≤ 1 + 51 / 50 * (1 * u) := h2
    linarith
  have hth0 : 0 ≤ th := by
    have := Real.log_nonneg hgu
    have := one_le_pow₀ hgu (n := P)
    linarith
  have hth1 : n * th ≤ 51 / 50 * ((Q + 2) * u) := by
    have h1 : th ≤ 51 / 50 * ((8 + P) * u) := by rw [hth]; linarith
    have h2 : (n : ℝ) * th ≤ n * (51 / 50 * ((8 + P) * u)) := mul_le_mul_of_nonneg_left h1 (by linarith)
    have e : (Q : ℝ) = 8 * n + n * P := by rw [hQ]; push_cast; ring
    rw [e]
    have e2 : (n : ℝ) * (51 / 50 * ((8 + P) * u)) = 51 / 50 * ((8 * n + n * P) * u) := by ring
    have e3 : ((8 : ℝ) * n + n * P + 2) * u = (8 * n + n * P) * u + 2 * u := by ring
    rw [e3]
    linarith
  have hgrow : kap ^ (2 * n + 1) * Real.exp (n * th) ≤ 1 + 51 / 50 * Y := by
    have h1 : kap ≤ Real.exp T := hkT.trans (by have := Real.add_one_le_exp T; linarith)
    have h2 : kap ^ (2 * n + 1) ≤ Real.exp ((2 * n + 1) * T) := by
      refine (pow_le_pow_left₀ (by linarith) h1 _).trans (le_of_eq ?_)
      rw [← Real.exp_nat_mul]; push_cast; ring_nf
    have h3 : kap ^ (2 * n + 1) * Real.exp (n * th) ≤ Real.exp Y := by
      refine (mul_le_mul_of_nonneg_right h2 (Real.exp_pos _).le).trans ?_
      rw [← Real.exp_add]
      exact Real.exp_le_exp.mpr (by rw [hY]; linarith)
    have h4 := Real.abs_exp_sub_one_sub_id_le (x := Y) (by rw [abs_of_nonneg hY0]; linarith)
    rw [abs_le] at h4
    have h5 : Y ^ 2 ≤ 1 / 100 * Y := by rw [sq]; exact mul_le_mul_of_nonneg_right hsmall hY0
    have h6 := h4.2
    linarith
  have hgrow0 : 1 ≤ kap ^ (2 * n + 1) * Real.exp (n * th) := by
    have h1 := one_le_pow₀ hk1 (n := 2 * n + 1)
    have h2 := Real.one_le_exp (mul_nonneg (by linarith : (0 : ℝ) ≤ n) hth0)
    exact one_le_mul_of_one_le_of_one_le h1 h2
  obtain ⟨A', hA⟩ : ∃ A', A' = (1 + u) * ((kap ^ (2 * n + 1) * Real.exp (n * th) - 1) * (gU u ^ (8 * n + n * P + 2) / poissonProb n n + w / 2) + (gU u ^ (8 * n + n * P + 2) - 1) + w / 2) + u + w / 2 := ⟨_, rfl⟩
  have f2 := final_boundSharp hn hu0 (by linarith : 0 ≤ w / 2) (c3.trans hTY) (by linarith)
    (by rw [← hQ]; exact one_le_pow₀ hgu) (by rw [← hQ]; refine hgQ.trans ?_; rw [hY]; have := mul_nonneg (by linarith : 0 ≤ 2 * (n : ℝ) + 1) hT0; linarith)
    (by linarith) (by linarith : kap ^ (2 * n + 1) * Real.exp (n * th) - 1 ≤ 51 / 50 * Y) hsmall hA
  have hA6 : 3 / 2 * Real.exp 1 * √n * Y ≤ 6 * √n := by
    have h3 : 3 / 2 * Real.exp 1 * √(n : ℝ) * Y ≤ 3 / 2 * Real.exp 1 * √(n : ℝ) * (1 / 100) :=
      mul_le_mul_of_nonneg_left hsmall (by positivity)
    linarith
  have hO : (512 : ℝ) ≤ (ieeeModel A u h).Omega := by
    show (512 : ℝ) ≤ (2 : ℝ) ^ (A.f.emax - 1)
    linarith
  obtain ⟨x, hx, hxf, hxA⟩ := fftSharp_error (R := ieeeModel A u h) hleg env hn hpmf hops (ieeeSignedFma h hc) hfft hsm hN le_rfl hz ho hbS hBS hbf hBf hb hB hsort ha
    c5 c6 (by rw [heta]; exact c7) (th := th) (sg := sg) (eps := eps) (om := om) (kap := kap) (A := A')
    (by rw [hg]; exact hth) (by rw [hg, hsg, hw]) heps (by rw [heta]; exact hom) hkap (by linarith) (by rw [heta, hg]; exact hA) hO
    (by rw [heta]
        refine le_trans ?_ hO
        have : (1 + u) ^ (128 + ex) * (4 + 128 * (w / 2)) ≤ 2 * (4 + 128 * (w / 2)) := mul_le_mul_of_nonneg_right c2 (by linarith)
        linarith)
    (by show 1 + A' ≤ (2 : ℝ) ^ (A.f.emax - 1)
        linarith) (by rw [← hQ]; exact hO2)
  exact ⟨x, hx, hxf, hxA.trans f2⟩

end
end CP.Spec
