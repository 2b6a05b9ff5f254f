import Verif.Proofs.FastFftAbs
import Verif.Proofs.SharpRound
/-
Sharper forward error analysis of `ecdf2` with FFT as compiled with `-ffast-math`: absolute errors; the error of the Poisson probabilities
of a step is proportional to the length of the step (cf. `Proofs/FastFftAbs.lean`, `Proofs/SharpRound.lean`).
-/
set_option linter.unusedVariables false
open Finset
namespace CP.Spec
noncomputable section
variable {F : Type} [FOps F] {E : Fault → Prop} {R : FloatModel F} {S : Set F}
open FOps

/-- The Poisson probabilities sum to one. -/
theorem sharp_pois_hasSum (lam : ℝ) : HasSum (pois lam) 1 := by
  have h := (NormedSpace.expSeries_div_hasSum_exp lam).mul_left (Real.exp (-lam))
  rw [← Real.exp_eq_exp_ℝ, ← Real.exp_add, neg_add_cancel, Real.exp_zero] at h
  have e : pois lam = fun k => Real.exp (-lam) * (lam ^ k / k.factorial) := by
    funext k; unfold pois; ring
  rw [e]
  exact h

/-- The error of the Poisson probabilities of one step, summed. -/
theorem sharp_pmf_l1 {n P : ℕ} {etaP : ℝ} (hetaP : 0 ≤ etaP) {lam : ℝ} (hlam : 0 ≤ lam) (hlam' : lam ≤ n) {p : ℕ → F} {m : ℕ} (hm : m ≤ n + 1)
    (hp : ∀ k < m, R.finite (p k) ∧ 0 ≤ R.val (p k) ∧ pois lam k / R.g ^ (⌈8 * lam⌉₊ + k * P + 1) - etaP ≤ R.val (p k) ∧
      R.val (p k) ≤ (pois lam k + etaP) * R.g ^ (⌈8 * lam⌉₊ + k * P + 1)) {th sg rho : ℝ}
    (hth : th = 8 * Real.log R.g + (R.g ^ P - 1)) (hsg : sg = R.g ^ 2 + (n + 1) * etaP * R.g ^ (8 * n + n * P + 1))
    (hrho : rho = sg * Real.exp (lam * th) - 1) :
    l1 m (fun k => R.val (p k) - pois lam k) ≤ rho ∧ l1 m (fun k => R.val (p k)) ≤ 1 + rho := by
  have g0 := R.g_pos
  have g1 := R.one_le_g
  have hE1 : 1 ≤ Real.exp (lam * th) := by
    refine Real.one_le_exp (mul_nonneg hlam ?_)
    have := Real.log_nonneg g1
    have := R.one_le_pow P
    linarith
  set a : ℕ → ℕ := fun k => ⌈8 * lam⌉₊ + k * P + 1 with ha
  have hceil : ⌈8 * lam⌉₊ ≤ 8 * n := by
    rw [Nat.ceil_le]; push_cast; linarith
  have h1 : ∀ k < m, |R.val (p k) - pois lam k| + pois lam k ≤ R.g ^ a k * pois lam k + etaP * R.g ^ (8 * n + n * P + 1) := by
    intro k hk
    obtain ⟨_, h0, hl, hu⟩ := hp k hk
    have hpi := pois_nonneg hlam k
    have hG := R.one_le_pow (a k)
    have hG0 := R.pow_pos' (a k)
    have hak : etaP * R.g ^ a k ≤ etaP * R.g ^ (8 * n + n * P + 1) := by
      refine mul_le_mul_of_nonneg_left (R.pow_le ?_) hetaP
      have : k * P ≤ n * P := Nat.mul_le_mul_right _ (by omega)
      simp only [ha]; omega
    suffices |R.val (p k) - pois lam k| ≤ (R.g ^ a k - 1) * pois lam k + etaP * R.g ^ a k by linarith
    rw [abs_le]
    constructor
    · have h2 : pois lam k / R.g ^ a k ≥ pois lam k - (R.g ^ a k - 1) * pois lam k := by
        rw [ge_iff_le, le_div_iff₀ hG0]
        have : 0 ≤ pois lam k * (R.g ^ a k - 1) ^ 2 := by positivity
        nlinarith
      have h3 : etaP ≤ etaP * R.g ^ a k := le_mul_of_one_le_right hetaP hG
      linarith
    · linarith
  -- the exponential generating function
  have hgenAll : ∀ m, ∑ k ∈ range m, R.g ^ a k * pois lam k ≤ R.g ^ 2 * Real.exp (lam * th) := by
    intro m
    have e1 : ∀ k, R.g ^ a k * pois lam k = R.g ^ (⌈8 * lam⌉₊ + 1) * Real.exp (lam * (R.g ^ P - 1)) * pois (lam * R.g ^ P) k := by
      intro k
      unfold pois
      have e2 : Real.exp (-lam) = Real.exp (lam * (R.g ^ P - 1)) * Real.exp (-(lam * R.g ^ P)) := by
        rw [← Real.exp_add]; congr 1; ring
      have e3 : R.g ^ a k = R.g ^ (⌈8 * lam⌉₊ + 1) * (R.g ^ P) ^ k := by
        rw [← pow_mul, ← pow_add]; congr 1; simp only [ha]; ring
      rw [e2, e3, mul_pow]
      ring
    rw [Finset.sum_congr rfl fun k _ => e1 k, ← Finset.mul_sum]
    have h2 := sum_pois_le (mul_nonneg hlam (R.pow_pos' P).le) m
    have h3 : R.g ^ (⌈8 * lam⌉₊ + 1) ≤ R.g ^ 2 * Real.exp (lam * (8 * Real.log R.g)) := by
      have e4 : R.g ^ (⌈8 * lam⌉₊ + 1) = Real.exp ((⌈8 * lam⌉₊ + 1 : ℕ) * Real.log R.g) := by
        rw [Real.exp_nat_mul, Real.exp_log g0]
      have e5 : R.g ^ 2 = Real.exp (2 * Real.log R.g) := by
        have := Real.exp_nat_mul (Real.log R.g) 2
        rw [Real.exp_log g0] at this
        rw [← this]; norm_num
      rw [e4, e5, ← Real.exp_add]
      refine Real.exp_le_exp.mpr ?_
      have h4 := (Nat.ceil_lt_add_one (by linarith : 0 ≤ 8 * lam)).le
      have h5 := Real.log_nonneg g1
      push_cast
      nlinarith
    have h6 : 0 ≤ R.g ^ (⌈8 * lam⌉₊ + 1) * Real.exp (lam * (R.g ^ P - 1)) := by positivity
    calc _ ≤ R.g ^ (⌈8 * lam⌉₊ + 1) * Real.exp (lam * (R.g ^ P - 1)) := mul_le_of_le_one_right h6 h2
      _ ≤ R.g ^ 2 * Real.exp (lam * (8 * Real.log R.g)) * Real.exp (lam * (R.g ^ P - 1)) :=
          mul_le_mul_of_nonneg_right h3 (Real.exp_pos _).le
      _ = _ := by rw [mul_assoc, ← Real.exp_add, hth]; congr 2; ring
  have hgen := hgenAll m
  have hsum : l1 m (fun k => R.val (p k) - pois lam k) + ∑ k ∈ range m, pois lam k ≤ 1 + rho := by
    unfold l1
    rw [← Finset.sum_add_distrib]
    refine (Finset.sum_le_sum fun k hk => h1 k (Finset.mem_range.mp hk)).trans ?_
    rw [Finset.sum_add_distrib, Finset.sum_const, Finset.card_range, nsmul_eq_mul]
    have hG0 := R.pow_pos' (8 * n + n * P + 1)
    have h4 : (m : ℝ) * (etaP * R.g ^ (8 * n + n * P + 1)) ≤ (n + 1) * etaP * R.g ^ (8 * n + n * P + 1) := by
      rw [mul_assoc]
      exact mul_le_mul_of_nonneg_right (by exact_mod_cast hm) (by positivity)
    have h5 : ((n : ℝ) + 1) * etaP * R.g ^ (8 * n + n * P + 1) ≤ (n + 1) * etaP * R.g ^ (8 * n + n * P + 1) * Real.exp (lam * th) :=
      le_mul_of_one_le_right (by positivity) hE1
    have e6 : 1 + rho = R.g ^ 2 * Real.exp (lam * th) + (n + 1) * etaP * R.g ^ (8 * n + n * P + 1) * Real.exp (lam * th) := by
      rw [hrho, hsg]; ring
    rw [e6]
    linarith
  have h3 := l1_add m (fun k => R.val (p k) - pois lam k) (pois lam)
  simp only [sub_add_cancel] at h3
  rw [l1_of_nonneg (pois_nonneg hlam)] at h3
  refine ⟨?_, by linarith⟩
  -- the error itself: the terms `pois` beyond `m` only help
  have hd : ∀ k < m, |R.val (p k) - pois lam k| ≤ (R.g ^ a k - 1) * pois lam k + etaP * R.g ^ (8 * n + n * P + 1) := fun k hk => by
    have := h1 k hk; linarith
  have hgen' : ∑ k ∈ range m, (R.g ^ a k - 1) * pois lam k ≤ R.g ^ 2 * Real.exp (lam * th) - 1 := by
    -- every partial sum is bounded by the limit, which is at most the bound minus one
    have hmono : Monotone fun m => ∑ k ∈ range m, (R.g ^ a k - 1) * pois lam k := by
      refine monotone_nat_of_le_succ fun m => ?_
      rw [Finset.sum_range_succ]
      have := mul_nonneg (by have := R.one_le_pow (a m); linarith : 0 ≤ R.g ^ a m - 1) (pois_nonneg hlam m)
      linarith
    have hlim : Filter.Tendsto (fun m => R.g ^ 2 * Real.exp (lam * th) - ∑ k ∈ range m, pois lam k) Filter.atTop
        (nhds (R.g ^ 2 * Real.exp (lam * th) - 1)) := by
      refine Filter.Tendsto.sub tendsto_const_nhds ?_
      exact (sharp_pois_hasSum lam).tendsto_sum_nat
    refine ge_of_tendsto hlim ?_
    filter_upwards [Filter.eventually_ge_atTop m] with M hM
    refine (hmono hM).trans ?_
    have := hgenAll M
    simp only [sub_mul, one_mul, Finset.sum_sub_distrib]
    linarith
  unfold l1
  refine (Finset.sum_le_sum fun k hk => hd k (Finset.mem_range.mp hk)).trans ?_
  rw [Finset.sum_add_distrib, Finset.sum_const, Finset.card_range, nsmul_eq_mul]
  have hG0 := R.pow_pos' (8 * n + n * P + 1)
  have h4 : (m : ℝ) * (etaP * R.g ^ (8 * n + n * P + 1)) ≤ (n + 1) * etaP * R.g ^ (8 * n + n * P + 1) := by
    rw [mul_assoc]
    exact mul_le_mul_of_nonneg_right (by exact_mod_cast hm) (by positivity)
  have h5 : ((n : ℝ) + 1) * etaP * R.g ^ (8 * n + n * P + 1) ≤ (n + 1) * etaP * R.g ^ (8 * n + n * P + 1) * Real.exp (lam * th) :=
    le_mul_of_one_le_right (by positivity) hE1
  have e6 : rho = R.g ^ 2 * Real.exp (lam * th) - 1 + (n + 1) * etaP * R.g ^ (8 * n + n * P + 1) * Real.exp (lam * th) := by
    rw [hrho, hsg]; ring
  rw [e6]
  linarith

/-- The final quotient, as compiled. -/
theorem sharp_quot_abs {co : FastCode F} {n P0 P : ℕ} (hPP : P = 8 * n + n * P0 + 1) {etaP : ℝ} (hpmf : SharpPmf R co S n P0 etaP) (env : Env F) (site : ℕ) {u : ℝ} {Nmax : ℕ}
    (so : SignedOps R u Nmax) (hn : 1 ≤ n) {w : F} (hwf : R.finite w) {pr Er A : ℝ} (hpr0 : 0 ≤ pr) (hpr1 : pr ≤ 1)
    (hw : |R.val w - pois n n * pr| ≤ Er)
    (hA : A = (1 + u) * (Er * (R.g ^ (P + 1) / pois n n + R.eta) + (R.g ^ (P + 1) - 1) + R.eta) + u + R.eta) (hO : 1 + A ≤ R.Omega)
    (hO2 : R.g ^ P / pois n n ≤ R.Omega) :
    Sat NoFault (fun x => R.finite x ∧ |R.val x - pr| ≤ A) (quotFast co site env w (ofInt n) n) := by
  have heta := R.eta_nonneg
  have g1 := R.one_le_g
  have hu0 := so.u_nonneg
  have hE0 : 0 ≤ Er := (abs_nonneg _).trans hw
  have hpi : 0 < pois n n := pois_pos (by exact_mod_cast hn) n
  have hpi1 : pois (n : ℝ) n ≤ 1 := by
    have := sum_pois_le (Nat.cast_nonneg n) (n + 1)
    rw [Finset.sum_range_succ] at this
    have : 0 ≤ ∑ k ∈ range n, pois (n : ℝ) k := Finset.sum_nonneg fun k _ => pois_nonneg (Nat.cast_nonneg n) k
    linarith
  have gP := R.pow_pos' P
  have gP1 := R.one_le_pow P
  have gQ := R.pow_pos' (P + 1)
  have gQ1 := R.one_le_pow (P + 1)
  have hgle : R.g ^ P ≤ R.g ^ (P + 1) := R.pow_le (by omega)
  -- multiplication by an approximation of the reciprocal
  have mulForm : ∀ s : F, R.finite s → 1 / pois n n / R.g ^ (P + 1) - R.eta ≤ R.val s →
      R.val s ≤ 1 / pois n n * R.g ^ (P + 1) + R.eta → R.finite (w *ᶠ s) ∧ |R.val (w *ᶠ s) - pr| ≤ A := by
    intro s hsf hsl hsu
    set G := R.g ^ (P + 1) with hG
    set D := Er * (G / pois n n + R.eta) + (G - 1) + R.eta with hD
    have hD0 : 0 ≤ D := by
      have : 0 ≤ Er * (G / pois n n + R.eta) := by positivity
      linarith
    have hsabs : |R.val s| ≤ G / pois n n + R.eta := by
      rw [abs_le]
      have e : 1 / pois n n * G = G / pois n n := by ring
      have h1 : 0 ≤ 1 / pois (n : ℝ) n / G := by positivity
      have h2 : 0 ≤ G / pois (n : ℝ) n := by positivity
      constructor <;> linarith
    have hq : |R.val w * R.val s - pr| ≤ D := by
      have e : R.val w * R.val s - pr = (R.val w - pois n n * pr) * R.val s + pr * (pois n n * R.val s - 1) := by ring
      rw [e]
      refine (abs_add_le _ _).trans ?_
      have h1 : |(R.val w - pois n n * pr) * R.val s| ≤ Er * (G / pois n n + R.eta) := by
        rw [abs_mul]; exact mul_le_mul hw hsabs (abs_nonneg _) hE0
      have h2 : |pr * (pois n n * R.val s - 1)| ≤ (G - 1) + R.eta := by
        rw [abs_mul, abs_of_nonneg hpr0]
        refine (mul_le_of_le_one_left (abs_nonneg _) hpr1).trans ?_
        have h3 := mul_le_mul_of_nonneg_left hsl hpi.le
        have h4 := mul_le_mul_of_nonneg_left hsu hpi.le
        have e3 : pois n n * (1 / pois n n / G - R.eta) = 1 / G - pois n n * R.eta := by field_simp
        have e4 : pois n n * (1 / pois n n * G + R.eta) = G + pois n n * R.eta := by field_simp
        rw [e3] at h3
        rw [e4] at h4
        have h5 : pois n n * R.eta ≤ R.eta := mul_le_of_le_one_left heta hpi1
        have h6 : 2 - G ≤ 1 / G := by
          rw [le_div_iff₀ gQ]; nlinarith [sq_nonneg (G - 1)]
        rw [abs_le]
        constructor <;> linarith
      linarith
    have habs : |R.val w * R.val s| ≤ 1 + D := by
      have h1 := abs_add_le (R.val w * R.val s - pr) pr
      rw [sub_add_cancel, abs_of_nonneg hpr0] at h1
      linarith
    have hAe : A = u * (1 + D) + R.eta + D := by rw [hA]; ring
    obtain ⟨hf, he⟩ := so.mul w s hwf hsf (by
      have : 0 ≤ u * (1 + D) := by positivity
      linarith)
    refine ⟨hf, ?_⟩
    have h2 := abs_sub_le (R.val (w *ᶠ s)) (R.val w * R.val s) pr
    have h3 := mul_le_mul_of_nonneg_left habs hu0
    linarith
  unfold quotFast
  rw [assertC_true _ (by simp), M_ok_bind, assertC_true _ hpmf.n_pos.1, M_ok_bind, if_neg (by rw [hpmf.n_pos.2]; simp),
    Int.toNat_natCast]
  dsimp only
  obtain ⟨hpf, hpl, hpu⟩ := hpmf.last site _ _ rfl rfl
  rw [poissonProb_eq, ← hPP] at hpl hpu
  cases co.quot with
  | div =>
    dsimp only
    obtain ⟨A0, hA0⟩ : ∃ A0, A0 = (1 + u) * (Er * R.g ^ P / pois n n + (R.g ^ P - 1)) + u + R.eta := ⟨_, rfl⟩
    have hle : A0 ≤ A := by
      rw [hA0, hA]
      have h1 : Er * R.g ^ P / pois n n ≤ Er * (R.g ^ (P + 1) / pois n n + R.eta) := by
        rw [mul_div_assoc]
        refine mul_le_mul_of_nonneg_left ?_ hE0
        have := div_le_div_of_nonneg_right hgle hpi.le
        linarith
      have h2 : (1 + u) * (Er * R.g ^ P / pois n n + (R.g ^ P - 1))
          ≤ (1 + u) * (Er * (R.g ^ (P + 1) / pois n n + R.eta) + (R.g ^ (P + 1) - 1) + R.eta) :=
        mul_le_mul_of_nonneg_left (by linarith) (by linarith)
      linarith
    obtain ⟨h1, h2⟩ := final_div so hwf hpf hpi hpr0 hpr1 gP1 hw hpl hpu hA0 (by linarith)
    exact ⟨h1, h2.trans hle⟩
  | recip =>
    dsimp only
    set p := co.exp site n ((co.exponent site n).eval co.fma (ofInt n) (ofInt n) (log (ofInt n)) (lgamma (ofInt ((n : ℤ) + 1)))) with hp
    have hp0 : 0 < R.val p := lt_of_lt_of_le (by positivity) hpl
    have hinv_up : R.val (one : F) / R.val p ≤ 1 / pois n n * R.g ^ P := by
      rw [R.val_one]
      calc 1 / R.val p ≤ 1 / (pois n n / R.g ^ P) := one_div_le_one_div_of_le (by positivity) hpl
        _ = _ := by field_simp
    have hinv_low : 1 / pois n n / R.g ^ P ≤ R.val (one : F) / R.val p := by
      rw [R.val_one, div_div]
      exact one_div_le_one_div_of_le hp0 hpu
    obtain ⟨sf, s0, sl, su⟩ := R.div one p R.one_finite hpf (by rw [R.val_one]; exact zero_le_one) hp0 (by
      refine hinv_up.trans (le_trans (le_of_eq ?_) hO2)
      ring)
    refine mulForm _ sf (le_trans ?_ sl) (su.trans ?_)
    · have := div_le_div_of_nonneg_right hinv_low R.g_pos.le
      rw [div_div _ _ R.g, ← pow_succ] at this
      linarith
    · have := mul_le_mul_of_nonneg_right hinv_up R.g_pos.le
      rw [mul_assoc, ← pow_succ] at this
      linarith
  | expNeg =>
    dsimp only
    obtain ⟨sf, sl, su⟩ := hpmf.lastNeg site _ _ rfl rfl
    rw [poissonProb_eq, ← hPP] at sl su
    refine mulForm _ sf (le_trans ?_ sl) (su.trans ?_)
    · have : 1 / pois n n / R.g ^ (P + 1) ≤ 1 / pois n n / R.g ^ P :=
        div_le_div_of_nonneg_left (by positivity) gP (R.pow_le (by omega))
      linarith
    · have : 1 / pois n n * R.g ^ P ≤ 1 / pois n n * R.g ^ (P + 1) :=
        mul_le_mul_of_nonneg_left (R.pow_le (by omega)) (by positivity)
      linarith

/-- One step of the loop, as compiled. -/
theorem ncStepFast_sharpAbs {co : FastCode F} (env : Env F) {n P : ℕ} {etaP : ℝ} (hpmf : SharpPmf R co S n P etaP) {th sg eps om W kap : ℝ}
    (hth : th = 8 * Real.log R.g + (R.g ^ P - 1)) (hsg : sg = R.g ^ 2 + (n + 1) * etaP * R.g ^ (8 * n + n * P + 1)) (heps : 0 ≤ eps) (hom : 0 ≤ om)
    (hconv : ∀ site, ConvAccurate R (fastConvVal co env.fft site) (n + 1) eps om W)
    (hkap : kap = sg * (1 + eps) + om) {s : NCState F}
    {t : ℝ} {v : ℕ → ℝ} {c d i N : ℕ} (hr : ARep R S n s t v c d (kap ^ i * Real.exp (n * t * th) - 1)) (ht0 : 0 ≤ t)
    (y : Bound F) (site : ℕ) (hyf : R.finite y.location) (hyS : y.location ∈ S) (ht : t ≤ R.val y.location) (hy1 : R.val y.location ≤ 1)
    (hc : y.tag = .bSTEP → c < n) (hd : y.tag = .BSTEP → d < n)
    (ha : env.asserts = false ∨ (t < R.val y.location → d ≤ c + 1))
    (hiN : i + 1 ≤ N) (hW : kap ^ N * Real.exp (n * th) ≤ W) :
    Sat E (fun s' => ARep R S n s' (R.val y.location)
        (vstep (R.val y.location - t) (fun m => dN y.tag d ≤ m ∧ m ≤ c) v) (cN y.tag c) (dN y.tag d) (kap ^ (i + 1) * Real.exp (n * R.val y.location * th) - 1))
      (ncStepFast co env (ofInt n) true s (y, site)) := by
  have hb := hr.b; have hB := hr.B
  have hbn := hr.inv.bn
  have hetaP := hpmf.etaP_nonneg
  have g1 := R.one_le_g
  have hth0 : 0 ≤ th := by
    have := Real.log_nonneg g1
    have := R.one_le_pow P
    linarith
  have hsg1 : 1 ≤ sg := by
    have h1 : 0 ≤ ((n : ℝ) + 1) * etaP * R.g ^ (8 * n + n * P + 1) := by
      have := R.pow_pos' (8 * n + n * P + 1); positivity
    have h2 := R.one_le_pow 2
    linarith
  have hnn : 0 ≤ (n : ℝ) * (R.val y.location - t) := mul_nonneg (Nat.cast_nonneg _) (by linarith)
  obtain ⟨ed, hed⟩ : ∃ ed, ed = Real.exp ((n : ℝ) * (R.val y.location - t) * th) := ⟨_, rfl⟩
  have hed1 : 1 ≤ ed := by rw [hed]; exact Real.one_le_exp (mul_nonneg hnn hth0)
  obtain ⟨rho, hrho⟩ : ∃ rho, rho = sg * ed - 1 := ⟨_, rfl⟩
  have hrho0 : 0 ≤ rho := by nlinarith
  have hkap1 : sg ≤ kap := by
    rw [hkap]
    have : 0 ≤ sg * eps := by positivity
    nlinarith
  have hk1 : 1 ≤ kap := by linarith
  obtain ⟨V, hV⟩ : ∃ V, V = kap ^ i * Real.exp (n * t * th) := ⟨_, rfl⟩
  have hki : 1 ≤ V := by
    rw [hV]
    have := one_le_pow₀ hk1 (n := i)
    have := Real.one_le_exp (by positivity : 0 ≤ n * t * th)
    nlinarith
  obtain ⟨V', hV'⟩ : ∃ V', V' = kap ^ (i + 1) * Real.exp (n * R.val y.location * th) := ⟨_, rfl⟩
  have hVV : V' = kap * ed * V := by
    rw [hV', hV, hed, pow_succ', show (n : ℝ) * R.val y.location * th = n * (R.val y.location - t) * th + n * t * th by ring, Real.exp_add]
    ring
  have hkis : V ≤ V' := by
    rw [hVV]
    have : 1 ≤ kap * ed := by nlinarith
    nlinarith
  have hkiN : V' ≤ W := by
    refine le_trans ?_ hW
    rw [hV']
    refine mul_le_mul (pow_le_pow_right₀ hk1 hiN) (Real.exp_le_exp.mpr ?_) (Real.exp_pos _).le (by positivity)
    refine mul_le_mul_of_nonneg_right ?_ hth0
    exact mul_le_of_le_one_right (Nat.cast_nonneg n) hy1
  have hkW : 1 + rho ≤ W := by
    refine le_trans ?_ hkiN
    rw [hVV, hrho]
    have h1 : sg * ed ≤ kap * ed := mul_le_mul_of_nonneg_right hkap1 (by linarith)
    have h2 : kap * ed ≤ kap * ed * V := le_mul_of_one_le_right (by positivity) hki
    linarith
  rw [← hV] at hr
  rw [← hV']
  obtain ⟨hs1, hs2, hs3⟩ := hpmf.sign s.prev hr.prevS y.location hyS hr.prevFin hyf (by rw [hr.prev]; exact ht0)
    (by rw [hr.prev]; exact ht) hy1
  rw [hr.prev] at hs2 hs3
  set lam : F := ofInt n *ᶠ (y.location -ᶠ s.prev) with hlam
  obtain ⟨f, hf, hfE⟩ := hr.val
  have hdn : d ≤ n := by have := hr.inv.Bn; omega
  have hcn : c ≤ n := by omega
  refine (ncStepFast_fft_sat co env hr.inv site hlam (f := f) ?_ ?_ ?_ ?_ ?_ ?_).mono ?_
  · intro m h1 h2; exact (hf m (by omega) (by omega)).1
  · intro h; have := hc h; omega
  · intro h; have := hd h; omega
  · rcases ha with ha | ha
    · exact Or.inl ha
    · right
      by_cases htt : t < R.val y.location
      · right; have := ha htt; omega
      · left
        rw [← Bool.not_eq_true]
        exact fun h => htt (hs2.mp h)
  · intro _ h; rw [hs1] at h; cases h
  · intro h1 h2
    have h1' : ¬ t < R.val y.location := fun h => by rw [hs2.mpr h] at h1; cases h1
    have : FOps.eq lam zero = true := hs3.mpr (le_antisymm ht (not_lt.mp h1'))
    rw [this] at h2; cases h2
  · intro s' ⟨hinv, hb', hB', hprev, hval⟩
    have hb'' : s'.bStep = (cN y.tag c : ℕ) := by
      rw [hb', hb]; by_cases h : y.tag = .bSTEP <;> simp [bNext, cN, h]
    have hB'' : s'.BStep = (dN y.tag d : ℕ) := by
      rw [hB', hB]; by_cases h : y.tag = .BSTEP <;> simp [BNext, dN, h]
    have hddN : d ≤ dN y.tag d := by unfold dN; split <;> omega
    have hccN : cN y.tag c = c ∨ (y.tag = .bSTEP ∧ cN y.tag c = c + 1) := by
      unfold cN; split
      · rename_i h; exact Or.inr ⟨h, rfl⟩
      · exact Or.inl rfl
    obtain ⟨hpn, hps⟩ := pw_step_sum ht hr.nonneg hr.sum_le (fun m => dN y.tag d ≤ m ∧ m ≤ c)
    refine ⟨hinv, hb'', hB'', by rw [hprev]; exact hyf, by rw [hprev]; exact hyS, by rw [hprev], ?_, hpn, hps, ?_⟩
    · intro m hm
      unfold vstep
      rw [if_neg]
      rintro ⟨h1, h2⟩
      rcases hm with hm | hm
      · omega
      · rcases hccN with h | h <;> omega
    · rw [hb, hB] at hval
      simp only [Int.toNat_natCast] at hval
      set f' : ℕ → F := stepValFft co env.fft site lam y.tag c d f with hf'
      -- the contents of the window before the tag is applied
      suffices hmid : ∃ h : ℕ → F, (∀ m, d ≤ m → m ≤ c → R.finite (h m)) ∧
          (∀ m, ¬ (y.tag = .bSTEP ∧ m = c + 1) → f' m = h m) ∧
          ∑ m ∈ Ico d (c + 1), |R.val (h m) - ∑ l ∈ range (m + 1), pw n t v l * pois ((n : ℝ) * (R.val y.location - t)) (m - l)|
            ≤ V' - 1 by
        obtain ⟨h, hhf, hhe, hhs⟩ := hmid
        refine ⟨f', ?_, ?_⟩
        · intro m hm1 hm2
          refine ⟨hval m (by omega) (by omega), ?_⟩
          by_cases h1 : y.tag = .bSTEP ∧ m = c + 1
          · rw [hf']
            unfold stepValFft
            rw [if_pos h1]
            exact R.zero_finite
          · rw [hhe m h1]
            refine hhf m (by omega) ?_
            rcases hccN with h2 | h2
            · omega
            · have : m ≠ c + 1 := fun e => h1 ⟨h2.1, e⟩
              omega
        · refine le_trans ?_ hhs
          have hz : ∀ m ∈ Ico (dN y.tag d) (cN y.tag c + 1), m ∉ Ico (dN y.tag d) (c + 1) →
              |R.val (f' m) - pw n (R.val y.location)
                (vstep (R.val y.location - t) (fun m => dN y.tag d ≤ m ∧ m ≤ c) v) m| = 0 := by
            intro m hm hm'
            rw [Finset.mem_Ico] at hm hm'
            rcases hccN with h2 | h2
            · omega
            · have e : m = c + 1 := by omega
              rw [pw_step, if_neg (by omega), hf']
              unfold stepValFft
              rw [if_pos ⟨h2.1, e⟩, R.val_zero, sub_zero, abs_zero]
          rw [← Finset.sum_subset (Finset.Ico_subset_Ico_right (by rcases hccN with h2 | h2 <;> omega)) hz]
          have hsub : Ico (dN y.tag d) (c + 1) ⊆ Ico d (c + 1) := Finset.Ico_subset_Ico_left hddN
          refine le_trans (le_of_eq ?_) (Finset.sum_le_sum_of_subset_of_nonneg hsub fun _ _ _ => abs_nonneg _)
          refine Finset.sum_congr rfl fun m hm => ?_
          rw [Finset.mem_Ico] at hm
          rw [hhe m (by omega), pw_step, if_pos (by omega)]
      by_cases hpos : t < R.val y.location
      · -- a convolution
        set m0 := c + 1 - d with hm0
        set p := fastPmfVal co site lam with hp
        set q : ℕ → ℝ := fun k => pw n t v (d + k) with hq
        set fb : ℕ → F := fun k => f (d + k) with hfb
        have hne : FOps.eq lam zero = false := by
          rw [← Bool.not_eq_true]
          exact fun h => hpos.ne (hs3.mp h)
        have hpa : ∀ k < m0, R.finite (p k) ∧ 0 ≤ R.val (p k) ∧
            pois ((n : ℝ) * (R.val y.location - t)) k / R.g ^ (⌈8 * (n * (R.val y.location - t))⌉₊ + k * P + 1) - etaP ≤ R.val (p k) ∧
            R.val (p k) ≤ (pois ((n : ℝ) * (R.val y.location - t)) k + etaP) * R.g ^ (⌈8 * (n * (R.val y.location - t))⌉₊ + k * P + 1) := by
          intro k hk
          have := hpmf.pmf site s.prev hr.prevS y.location hyS hr.prevFin hyf (by rw [hr.prev]; exact ht0)
            (by rw [hr.prev]; exact hpos) hy1 k (by omega) (fastPmfVal co site lam k) (by
              unfold fastPmfVal
              rw [hne]
              simp only [Bool.false_eq_true, if_false]
              rw [hlam])
          rw [hr.prev] at this
          exact this
        obtain ⟨hpd, hpn1⟩ := sharp_pmf_l1 (rho := rho) hetaP hnn (mul_le_of_le_one_right (Nat.cast_nonneg n) (by linarith)) (p := p) (m := m0) (by omega) hpa hth hsg (by rw [hrho, hed])
        have hqn : ∀ k, 0 ≤ q k := fun k => hr.nonneg _
        have hq1 : l1 m0 q ≤ 1 := by
          rw [l1_of_nonneg hqn]
          have h1 := hr.sum_le (d + m0)
          rw [Finset.sum_range_add] at h1
          have h2 : 0 ≤ ∑ m ∈ range d, pw n t v m := Finset.sum_nonneg fun m _ => hr.nonneg m
          linarith
        have hbd : l1 m0 (fun k => R.val (fb k) - q k) ≤ V - 1 := by
          rw [Finset.sum_Ico_eq_sum_range] at hfE
          exact hfE
        have hb1 : l1 m0 (fun k => R.val (fb k)) ≤ V := by
          have h3 := l1_add m0 (fun k => R.val (fb k) - q k) q
          simp only [sub_add_cancel] at h3
          linarith
        obtain ⟨hcf, hce⟩ := hconv site m0 (by omega) p fb (fun k hk => (hpa k hk).1)
          (fun k hk => (hf (d + k) (by omega) (by omega)).2) (by linarith) (by linarith)
        refine ⟨fun m => fastConvVal co env.fft site m0 p fb (m - d), ?_, ?_, ?_⟩
        · intro m h1 h2; exact hcf (m - d) (by omega)
        · intro m hm
          rw [hf']
          unfold stepValFft
          rw [if_neg hm, if_pos (hs2.mpr hpos)]
        · rw [Finset.sum_Ico_eq_sum_range]
          have h4 : ∀ k ∈ range (c + 1 - d), |R.val (fastConvVal co env.fft site m0 p fb (d + k - d))
                - ∑ l ∈ range (d + k + 1), pw n t v l * pois ((n : ℝ) * (R.val y.location - t)) (d + k - l)|
              = |(R.val (fastConvVal co env.fft site m0 p fb k) - cnv (fun k => R.val (p k)) (fun k => R.val (fb k)) k)
                + (cnv (fun k => R.val (p k)) (fun k => R.val (fb k)) k - cnv (pois ((n : ℝ) * (R.val y.location - t))) q k)| := by
            intro k _
            rw [Nat.add_sub_cancel_left]
            have h5 := shift_sum (f := pw n t v) (g := pois ((n : ℝ) * (R.val y.location - t))) (d := d) (m := d + k) (by omega)
              (fun l hl => by unfold pw; rw [hr.supp l (Or.inl hl), mul_zero])
            rw [← h5]
            rw [Nat.add_sub_cancel_left]
            congr 1
            unfold cnv
            ring
          rw [Finset.sum_congr rfl h4]
          refine (l1_add m0 _ _).trans ((add_le_add hce (cnv_diff _ _ _ _ m0)).trans ?_)
          have hP0 := l1_nonneg m0 (fun k => R.val (p k))
          have hB0 := l1_nonneg m0 (fun k => R.val (fb k))
          have hD0 := l1_nonneg m0 (fun k => R.val (fb k) - q k)
          have hQ0 := l1_nonneg m0 q
          have h6 : eps * (l1 m0 (fun k => R.val (p k)) * l1 m0 (fun k => R.val (fb k))) ≤ eps * ((1 + rho) * V) :=
            mul_le_mul_of_nonneg_left (mul_le_mul hpn1 hb1 hB0 (by linarith)) heps
          have h7 : l1 m0 (fun k => R.val (p k)) * l1 m0 (fun k => R.val (fb k) - q k) ≤ (1 + rho) * (V - 1) :=
            mul_le_mul hpn1 hbd hD0 (by linarith)
          have h8 : l1 m0 (fun k => R.val (p k) - pois ((n : ℝ) * (R.val y.location - t)) k) * l1 m0 q ≤ rho * 1 :=
            mul_le_mul hpd hq1 hQ0 hrho0
          have h9 : (1 + rho) * V + eps * ((1 + rho) * V) + om * V ≤ V' := by
            rw [hVV, hkap, hrho]
            have : om * V ≤ om * V * ed := le_mul_of_one_le_right (by positivity) hed1
            nlinarith
          have h10 : om ≤ om * V := le_mul_of_one_le_right hom hki
          linarith
      · have hz : R.val y.location = t := le_antisymm (not_lt.mp hpos) ht
        refine ⟨f, fun m h1 h2 => (hf m h1 h2).2, ?_, ?_⟩
        · intro m hm
          rw [hf']
          unfold stepValFft
          rw [if_neg hm, if_neg (fun h => hpos (hs2.mp h))]
        · refine le_trans (le_of_eq ?_) (hfE.trans (by linarith))
          refine Finset.sum_congr rfl fun m hm => ?_
          have h1 := pw_same (n := n) (t := t) (t' := R.val y.location) (v := v) (fun _ => True) (m := m) trivial (by rw [hz]; ring)
          rw [pw_step, if_pos trivial] at h1
          rw [h1]

/-- The whole loop. -/
theorem ncFoldFast_sharpAbs {co : FastCode F} (env : Env F) {n P : ℕ} {etaP : ℝ} (hpmf : SharpPmf R co S n P etaP) {th sg eps om W kap : ℝ}
    (hth : th = 8 * Real.log R.g + (R.g ^ P - 1)) (hsg : sg = R.g ^ 2 + (n + 1) * etaP * R.g ^ (8 * n + n * P + 1)) (heps : 0 ≤ eps) (hom : 0 ≤ om)
    (hconv : ∀ site, ConvAccurate R (fastConvVal co env.fft site) (n + 1) eps om W)
    (hkap : kap = sg * (1 + eps) + om) {N : ℕ} (hW : kap ^ N * Real.exp (n * th) ≤ W) (L : List (Bound F)) :
    ∀ (site : ℕ) (s : NCState F) (t : ℝ) (v : ℕ → ℝ) (c d i : ℕ) (C : Set (Fin n → ℝ)),
    ARep R S n s t v c d (kap ^ i * Real.exp (n * t * th) - 1) → i + L.length ≤ N →
    CountLaw n t v C → 0 ≤ t → (∀ y ∈ L, R.finite y.location) → (∀ y ∈ L, y.location ∈ S) → (∀ y ∈ L, t ≤ R.val y.location) →
    (∀ y ∈ L, R.val y.location ≤ 1) → L.Pairwise (fun x y => R.val x.location ≤ R.val y.location) →
    c + tc .bSTEP (L.map (rb R)) ≤ n → d + tc .BSTEP (L.map (rb R)) ≤ n →
    (env.asserts = false ∨ noAbort t c d (L.map (rb R))) →
    Sat E (fun s' => ∃ v', ARep R S n s' (lastLoc t (L.map (rb R))) v' (c + tc .bSTEP (L.map (rb R)))
          (d + tc .BSTEP (L.map (rb R))) (kap ^ (i + L.length) * Real.exp (n * lastLoc t (L.map (rb R)) * th) - 1) ∧
        CountLaw n (lastLoc t (L.map (rb R))) v' (C ∩ win n c d (L.map (rb R))))
      ((L.zipIdx site).foldlM (ncStepFast co env (ofInt n) true) s) := by
  induction L with
  | nil =>
    intro site s t v c d i C hr _ hC _ _ _ _ _ _ _ _ _
    refine ⟨v, hr, ?_⟩
    simpa [win, lastLoc] using hC
  | cons y L ih =>
    intro site s t v c d i C hr hN hC h0 hfin hSS hge h1 hp hc hd ha
    rw [List.zipIdx_cons, List.foldlM_cons]
    rw [List.map_cons] at hc hd ha ⊢
    have hty := hge y (by simp)
    have hy1 := h1 y (by simp)
    rw [List.length_cons] at hN ⊢
    rw [List.pairwise_cons] at hp
    have hcc := cN_tc (rb R y) c (L.map (rb R))
    have hdd := dN_tc (rb R y) d (L.map (rb R))
    refine Sat.bind (ncStepFast_sharpAbs env hpmf hth hsg heps hom hconv hkap hr h0 y site (hfin y (by simp)) (hSS y (by simp)) hty hy1
      ?_ ?_ ?_ (by omega) hW) ?_
    · intro h
      rw [tc_cons, if_pos (show (rb R y).2 = _ from h)] at hc; omega
    · intro h
      rw [tc_cons, if_pos (show (rb R y).2 = _ from h)] at hd; omega
    · rcases ha with ha | ha
      · exact Or.inl ha
      · exact Or.inr ha.1
    · intro s' hr'
      have hC' := hC.step h0 hty hy1 (fun m => dN y.tag d ≤ m ∧ m ≤ c)
      have hcd1 : cN (rb R y).2 c = cN y.tag c := rfl
      have hcd2 : dN (rb R y).2 d = dN y.tag d := rfl
      have := ih (site + 1) s' (R.val y.location) _ _ _ (i + 1) _ hr' (by omega) hC' (h0.trans hty)
        (fun z hz => hfin z (by simp [hz])) (fun z hz => hSS z (by simp [hz])) hp.1 (fun z hz => h1 z (by simp [hz])) hp.2
        (by omega) (by omega) (by
          rcases ha with ha | ha
          · exact Or.inl ha
          · exact Or.inr ha.2)
      refine this.mono ?_
      rintro s'' ⟨v', hr'', hC''⟩
      rw [lastLoc_cons, ← hcc, ← hdd]
      have e : i + (L.length + 1) = i + 1 + L.length := by omega
      rw [e]
      refine ⟨v', hr'', ?_⟩
      have e3 : win n c d (rb R y :: L.map (rb R)) = {x | dN y.tag d ≤ count (R.val y.location) x ∧
          count (R.val y.location) x ≤ c} ∩ win n (cN y.tag c) (dN y.tag d) (L.map (rb R)) := rfl
      rw [e3, ← Set.inter_assoc]
      exact hC''

/-- `ecdf2` with FFT, as compiled: absolute error. -/
theorem ecdf2Fast_sharpAbs {co : FastCode F} (env : Env F) {n P : ℕ} {etaP : ℝ} (hpmf : SharpPmf R co S n P etaP) {u : ℝ} {Nmax : ℕ}
    (so : SignedOps R u Nmax) {th sg eps om W kap : ℝ}
    (hth : th = 8 * Real.log R.g + (R.g ^ P - 1)) (hsg : sg = R.g ^ 2 + (n + 1) * etaP * R.g ^ (8 * n + n * P + 1)) (heps : 0 ≤ eps) (hom : 0 ≤ om)
    (hconv : ∀ site, ConvAccurate R (fastConvVal co env.fft site) (n + 1) eps om W)
    (hkap : kap = sg * (1 + eps) + om) (hW : kap ^ (2 * n + 1) * Real.exp (n * th) ≤ W) {b B : Fin n → F}
    (hz : zero ∈ S) (ho : one ∈ S) (hbS : ∀ i, b i ∈ S) (hBS : ∀ i, B i ∈ S)
    (hbf : ∀ i, R.finite (b i)) (hBf : ∀ i, R.finite (B i)) (hb : ValidBound fun i => R.val (b i))
    (hB : ValidBound fun i => R.val (B i)) {sort : List (Bound F) → List (Bound F)} (hsort : SortContractF R sort)
    (ha : env.asserts = false ∨ ¬ ∃ i j : Fin n, (j : ℕ) = i + 1 ∧ R.val (B j) < R.val (b i))
    {A : ℝ} (hA : A = (1 + u) * ((kap ^ (2 * n + 1) * Real.exp (n * th) - 1) * (R.g ^ (8 * n + n * P + 2) / pois n n + R.eta) + (R.g ^ (8 * n + n * P + 2) - 1) + R.eta) + u + R.eta)
    (hn : 1 ≤ n) (hO : 1 + A ≤ R.Omega) (hO2 : R.g ^ (8 * n + n * P + 1) / pois n n ≤ R.Omega) :
    ∃ x, ecdf2Fast co env sort (List.ofFn b) (List.ofFn B) true = .ok x ∧ R.finite x ∧
      |R.val x - noncrossProb (fun i => R.val (b i)) (fun i => R.val (B i))| ≤ A := by
  set pr := noncrossProb (fun i => R.val (b i)) (fun i => R.val (B i)) with hpr
  obtain ⟨hpr0, hpr1⟩ := noncrossProb_mem n (fun i => R.val (b i)) (fun i => R.val (B i))
  rw [← hpr] at hpr0 hpr1
  have hpi : 0 < pois n n := pois_pos (by exact_mod_cast hn) n
  have key : Sat NoFault (fun x => R.finite x ∧ |R.val x - pr| ≤ A) (ecdf2Fast co env sort (List.ofFn b) (List.ofFn B) true) := by
    unfold ecdf2Fast
    dsimp only
    rw [check_valid_float hbf hb "b" _ (by simp), M_ok_bind, check_valid_float hBf hB "B" _ (by simp), M_ok_bind]
    simp only [List.length_ofFn]
    -- the sorted list
    set U := unsortedBounds (List.ofFn b) (List.ofFn B) with hU
    have hUfin : ∀ x ∈ U, R.finite x.location := by
      intro x hx
      rw [hU] at hx
      unfold unsortedBounds at hx
      rw [List.mem_append, List.mem_map, List.mem_map] at hx
      rcases hx with ⟨z, hz, rfl⟩ | ⟨z, hz, rfl⟩
      · rw [List.mem_ofFn] at hz; obtain ⟨i, rfl⟩ := hz; exact hbf i
      · rw [List.mem_ofFn] at hz; obtain ⟨i, rfl⟩ := hz; exact hBf i
    have hUS : ∀ x ∈ U, x.location ∈ S := by
      intro x hx
      rw [hU] at hx
      unfold unsortedBounds at hx
      rw [List.mem_append, List.mem_map, List.mem_map] at hx
      rcases hx with ⟨z, hz, rfl⟩ | ⟨z, hz, rfl⟩
      · rw [List.mem_ofFn] at hz; obtain ⟨i, rfl⟩ := hz; exact hbS i
      · rw [List.mem_ofFn] at hz; obtain ⟨i, rfl⟩ := hz; exact hBS i
    have hSperm := hsort.perm U
    have hSfin : ∀ x ∈ sort U, R.finite x.location := fun x hx => hUfin x (hSperm.mem_iff.mp hx)
    have hSsorted := hsort.sorted U hUfin
    have hL0perm : ((sort U).map (rb R)).Perm (unsortedR (fun i => R.val (b i)) (fun i => R.val (B i))) := by
      rw [← unsorted_map (R := R)]
      exact hSperm.map _
    have hL0sorted : ((sort U).map (rb R)).Pairwise fun x y => x.1 ≤ y.1 := by
      rw [List.pairwise_map]
      refine hSsorted.imp_of_mem ?_
      intro x y hx hy h
      exact (R.lt_false (hSfin y hy) (hSfin x hx)).mp h
    obtain ⟨L, hL, hLs, hLb, hLB, h0, h1⟩ := sorted_real hb hB hL0perm hL0sorted
    have hmap : (joinAllBounds sort (List.ofFn b) (List.ofFn B)).map (rb R) = L := by
      unfold joinAllBounds
      rw [← hU, List.map_append, hL]
      simp only [List.map_cons, List.map_nil, rb, R.val_one]
    set J := joinAllBounds sort (List.ofFn b) (List.ofFn B) with hJ
    have hJfin : ∀ y ∈ J, R.finite y.location := by
      intro y hy
      rw [hJ] at hy
      unfold joinAllBounds at hy
      rw [List.mem_append, List.mem_singleton] at hy
      rcases hy with hy | rfl
      · exact hSfin y hy
      · exact R.one_finite
    have hJS : ∀ y ∈ J, y.location ∈ S := by
      intro y hy
      rw [hJ] at hy
      unfold joinAllBounds at hy
      rw [List.mem_append, List.mem_singleton] at hy
      rcases hy with hy | rfl
      · exact hUS y (hSperm.mem_iff.mp hy)
      · exact ho
    have hJlen : J.length = 2 * n + 1 := by
      rw [hJ]
      unfold joinAllBounds
      rw [List.length_append, hSperm.length_eq, hU]
      unfold unsortedBounds
      simp
      omega
    have hmem : ∀ y ∈ J, (R.val y.location, y.tag) ∈ L := by
      intro y hy; rw [← hmap]; exact List.mem_map_of_mem hy
    have hr : Sat NoFault (fun probs => ∃ w, Has probs (n : ℤ) w ∧ R.finite w ∧
          |R.val w - pois n n * pr| ≤ kap ^ (2 * n + 1) * Real.exp (n * th) - 1)
        (noncrossingFast co env sort (n : ℤ) (FOps.ofInt (n : ℤ)) (List.ofFn b) (List.ofFn B) true) := by
      unfold noncrossingFast
      have hl0 : ((DoubleBuffer.new ((n : Int) + 1) (FOps.zero : F)).src.length : Int) = n + 1 := by
        simp [DoubleBuffer.new, DoubleBuffer.src]
      refine Sat.bind (wr_sat _ (by omega) (by omega)) fun src hsrc => ?_
      refine Sat.bind (pmfGen_new_sat env (by omega)) fun g hg => ?_
      rw [← hJ]
      have hrep := init_arep (R := R) (S := S) env hg (src := src) (by omega) ((hsrc.2 _ _).2 (Or.inl ⟨rfl, rfl⟩)) hz
        (A := kap ^ 0 * Real.exp (n * 0 * th) - 1) (by simp)
      refine Sat.bind (ncFoldFast_sharpAbs env hpmf hth hsg heps hom hconv hkap hW J 0 _ 0 _ 0 0 0 Set.univ hrep (by omega) CountLaw.zero
        le_rfl hJfin hJS ?_ ?_ ?_ ?_ ?_ ?_) ?_
      · intro y hy; exact h0 _ (hmem y hy)
      · intro y hy; exact h1 _ (hmem y hy)
      · have := hLs
        rw [← hmap, List.pairwise_map] at this
        exact this
      · rw [hmap, hLb.tc]; omega
      · rw [hmap, hLB.tc]; omega
      · rw [hmap, noAbort_eq hLb hLB hB.mono hLs h0]; exact ha
      · rintro s ⟨v, hrep', hlaw⟩
        have hlast : lastLoc 0 L = 1 := by rw [hL]; simp [lastLoc]
        rw [hmap, hlast] at hrep' hlaw
        rw [hLb.tc, hLB.tc, hJlen, Nat.zero_add, Nat.zero_add, mul_one] at hrep'
        rw [Set.univ_inter, win_eq hLb hLB hLs] at hlaw
        have hp := hlaw.prob
        rw [← noncrossProb_eq, ← hpr] at hp
        obtain ⟨f, hf, hfe⟩ := hrep'.val
        obtain ⟨hw, hwf⟩ := hf n (by omega) (by omega)
        refine ⟨f n, hw, hwf, ?_⟩
        have hfac : (n.factorial : ℝ) ≠ 0 := by exact_mod_cast (Nat.factorial_pos n).ne'
        have e2 : pw n 1 v n = pois n n * pr := by
          unfold pw pois
          rw [hp, mul_one]
          field_simp
        rw [← e2]
        rw [Finset.sum_Ico_eq_sum_range] at hfe
        simpa using hfe
    refine Sat.bind hr fun probs hp => ?_
    obtain ⟨w, hw, hwf, hwe⟩ := hp
    rw [rd_eq hw, M_ok_bind]
    exact sharp_quot_abs rfl hpmf env _ so hn hwf hpr0 hpr1 hwe hA hO hO2
  exact key.exists_ok

end
end CP.Spec
