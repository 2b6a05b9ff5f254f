import Verif.Proofs.FastSum
import Verif.Proofs.FastStep
import Verif.Proofs.RoundingFinal
/-
Forward error analysis of `ecdf2` as compiled with `-ffast-math`.
-/
set_option linter.unusedVariables false
open Finset
namespace CP.Spec
noncomputable section
variable {F : Type} [FOps F] {E : Fault → Prop} {R : FloatModel F} {S : Set F}
open FOps

/-- Accuracy of the Poisson probabilities computed by the compiled code, for points of `S`. -/
structure FastPmf (R : FloatModel F) (co : FastCode F) (S : Set F) (n P : ℕ) (etaP : ℝ) : Prop where
  etaP_nonneg : 0 ≤ etaP
  sign : ∀ x ∈ S, ∀ y ∈ S, R.finite x → R.finite y → 0 ≤ R.val x → R.val x ≤ R.val y → R.val y ≤ 1 →
    lt (ofInt n *ᶠ (y -ᶠ x)) zero = false ∧
    (lt zero (ofInt n *ᶠ (y -ᶠ x)) = true ↔ R.val x < R.val y) ∧
    (FOps.eq (ofInt n *ᶠ (y -ᶠ x)) zero = true ↔ R.val x = R.val y)
  pmf : ∀ site : ℕ, ∀ x ∈ S, ∀ y ∈ S, R.finite x → R.finite y → 0 ≤ R.val x → R.val x < R.val y → R.val y ≤ 1 → ∀ k : ℕ, k ≤ n →
    ∀ p : F, p = co.exp site k ((co.exponent site k).eval co.fma (ofInt n *ᶠ (y -ᶠ x)) (ofInt k) (log (ofInt n *ᶠ (y -ᶠ x))) (lgamma (ofInt (k + 1)))) →
    R.finite p ∧ 0 ≤ R.val p ∧
    poissonProb (n * (R.val y - R.val x)) k / R.g ^ P - etaP ≤ R.val p ∧
    R.val p ≤ (poissonProb (n * (R.val y - R.val x)) k + etaP) * R.g ^ P
  n_pos : ge (ofInt n : F) zero = true ∧ FOps.eq (ofInt n : F) zero = false
  last : ∀ (site : ℕ) (y p : F), y = (co.exponent site n).eval co.fma (ofInt n) (ofInt n) (log (ofInt n)) (lgamma (ofInt (n + 1))) →
    p = co.exp site n y → R.finite p ∧ poissonProb n n / R.g ^ P ≤ R.val p ∧ R.val p ≤ poissonProb n n * R.g ^ P
  lastNeg : ∀ (site : ℕ) (y p : F), y = (co.exponent site n).eval co.fma (ofInt n) (ofInt n) (log (ofInt n)) (lgamma (ofInt (n + 1))) →
    p = co.exp site n (neg y) → R.finite p ∧ 1 / poissonProb n n / R.g ^ P ≤ R.val p ∧ R.val p ≤ 1 / poissonProb n n * R.g ^ P

/-- Division by an approximation of `pp`. -/
theorem div_round {K P : ℕ} {Er pp pr A : ℝ} (hpi : 0 < pp) (hpr0 : 0 ≤ pr) (hpr1 : pr ≤ 1) (hE0 : 0 ≤ Er) {w p : F}
    (hap : Approx R K Er w (pp * pr)) (hpf : R.finite p) (hpl : pp / R.g ^ P ≤ R.val p) (hpu : R.val p ≤ pp * R.g ^ P)
    (hA : A = Er / pp + R.eta) (hO : (1 + A) * R.g ^ (K + P + 1) ≤ R.Omega) :
    Approx R (K + P + 1) A (w /ᶠ p) pr := by
  have gP := R.pow_pos' P
  have hp0 : 0 < R.val p := lt_of_lt_of_le (by positivity) hpl
  have gK := R.pow_pos' K
  have g0 := R.g_pos
  have heta := R.eta_nonneg
  have hup : R.val w / R.val p ≤ (pr + Er / pp) * R.g ^ (K + P) := by
    rw [div_le_iff₀ hp0]
    have h2 : (pr + Er / pp) * R.g ^ (K + P) * (pp / R.g ^ P)
        ≤ (pr + Er / pp) * R.g ^ (K + P) * R.val p :=
      mul_le_mul_of_nonneg_left hpl (by positivity)
    have h3 : (pr + Er / pp) * R.g ^ (K + P) * (pp / R.g ^ P) = (pp * pr + Er) * R.g ^ K := by
      rw [pow_add]; field_simp
    calc R.val w ≤ (pp * pr + Er) * R.g ^ K := hap.upper
      _ = _ := h3.symm
      _ ≤ _ := h2
  have hlow : pr / R.g ^ (K + P) - Er / pp ≤ R.val w / R.val p := by
    by_cases hneg : pp * pr / R.g ^ K - Er ≤ 0
    · have hw0 : 0 ≤ R.val w / R.val p := div_nonneg hap.nonneg hp0.le
      have h4 : pr / R.g ^ (K + P) ≤ pr / R.g ^ K := div_le_div_of_nonneg_left hpr0 gK (R.pow_le (by omega))
      have h5 : pr / R.g ^ K ≤ Er / pp := by
        rw [le_div_iff₀ hpi]
        have : pr / R.g ^ K * pp = pp * pr / R.g ^ K := by ring
        linarith
      linarith
    · have hpos := not_le.mp hneg
      have h6 : (pp * pr / R.g ^ K - Er) / (pp * R.g ^ P) ≤ R.val w / R.val p :=
        div_le_div₀ hap.nonneg hap.lower hp0 hpu
      have h7 : (pp * pr / R.g ^ K - Er) / (pp * R.g ^ P) = pr / R.g ^ (K + P) - Er / pp / R.g ^ P := by
        rw [pow_add]; field_simp
      have h8 : Er / pp / R.g ^ P ≤ Er / pp := div_le_self (by positivity) (R.one_le_pow P)
      linarith
  obtain ⟨hdf, hd0, hdl, hdu⟩ := R.div w p hap.fin hpf hap.nonneg hp0 (by
    refine hup.trans (le_trans (mul_le_mul ?_ (R.pow_le (by omega)) (R.pow_pos' _).le (by rw [hA]; positivity)) hO)
    rw [hA]; linarith)
  refine ⟨hdf, hd0, le_trans ?_ hdl, hdu.trans ?_, fun Z h => Z.div w p hap.fin hpf (hap.exact0 Z (by rw [h, mul_zero])) hp0.ne'⟩
  · have h7 : (pr / R.g ^ (K + P) - Er / pp) / R.g ≤ R.val w / R.val p / R.g :=
      div_le_div_of_nonneg_right hlow g0.le
    have h8 : (pr / R.g ^ (K + P) - Er / pp) / R.g = pr / R.g ^ (K + P + 1) - Er / pp / R.g := by
      rw [pow_succ, sub_div, div_div]
    have h9 : Er / pp / R.g ≤ Er / pp := div_le_self (by positivity) R.one_le_g
    rw [hA]; linarith
  · calc R.val w / R.val p * R.g + R.eta
        ≤ (pr + Er / pp) * R.g ^ (K + P) * R.g + R.eta * R.g ^ (K + P + 1) := by
          refine add_le_add (mul_le_mul_of_nonneg_right hup g0.le) ?_
          exact le_mul_of_one_le_right R.eta_nonneg (R.one_le_pow _)
      _ = (pr + A) * R.g ^ (K + P + 1) := by rw [hA, pow_succ]; ring

/-- Multiplication by an approximation of `1/pp`. -/
theorem mul_inv_round {K P : ℕ} {Er pp pr A : ℝ} (hpi : 0 < pp) (hpi1 : pp ≤ 1) (hpr0 : 0 ≤ pr) (hpr1 : pr ≤ 1) (hE0 : 0 ≤ Er) {w s : F}
    (hap : Approx R K Er w (pp * pr)) (hsf : R.finite s) (hs0 : 0 ≤ R.val s) (hsl : 1 / pp / R.g ^ (P + 1) - R.eta ≤ R.val s)
    (hsu : R.val s ≤ 1 / pp * R.g ^ (P + 1) + R.eta)
    (hA : A = Er / pp + (2 + Er) * R.eta) (hO : (1 + A) * R.g ^ (K + P + 2) ≤ R.Omega) :
    Approx R (K + P + 2) A (w *ᶠ s) pr := by
  have gP := R.pow_pos' (P + 1)
  have gK := R.pow_pos' K
  have g0 := R.g_pos
  have g1 := R.one_le_g
  have heta := R.eta_nonneg
  have hEp : 0 ≤ Er / pp := by positivity
  have hup : R.val w * R.val s ≤ (pr + (Er / pp + (1 + Er) * R.eta)) * R.g ^ (K + P + 1) := by
    calc R.val w * R.val s ≤ ((pp * pr + Er) * R.g ^ K) * (1 / pp * R.g ^ (P + 1) + R.eta) :=
          mul_le_mul hap.upper hsu hs0 (by positivity)
      _ = (pr + Er / pp) * R.g ^ (K + P + 1) + (pp * pr + Er) * R.eta * R.g ^ K := by
          rw [show K + P + 1 = K + (P + 1) by ring, pow_add]; field_simp; ring
      _ ≤ (pr + Er / pp) * R.g ^ (K + P + 1) + (1 + Er) * R.eta * R.g ^ (K + P + 1) := by
          refine add_le_add le_rfl (mul_le_mul ?_ (R.pow_le (by omega)) gK.le (by positivity))
          refine mul_le_mul_of_nonneg_right ?_ heta
          have := mul_le_one₀ hpi1 hpr0 hpr1
          linarith
      _ = _ := by ring
  have hlow : pr / R.g ^ (K + P + 1) - (Er / pp + R.eta) ≤ R.val w * R.val s := by
    set X := 1 / pp / R.g ^ (P + 1) with hX
    have hX0 : 0 < X := by positivity
    set Y := pp * pr / R.g ^ K with hY
    have hY0 : 0 ≤ Y := by positivity
    have hY1 : Y ≤ 1 := (div_le_self (by positivity) (R.one_le_pow K)).trans (mul_le_one₀ hpi1 hpr0 hpr1)
    have hXY : pr / R.g ^ (K + P + 1) = Y * X := by
      rw [hX, hY, show K + P + 1 = K + (P + 1) by ring, pow_add]; field_simp
    have hEX : Er * X ≤ Er / pp := by
      have : 1 / pp / R.g ^ (P + 1) ≤ 1 / pp := div_le_self (by positivity) (R.one_le_pow _)
      rw [div_eq_mul_one_div Er pp]
      exact mul_le_mul_of_nonneg_left this hE0
    have hw := hap.lower
    have hws : 0 ≤ R.val w * R.val s := mul_nonneg hap.nonneg hs0
    rw [hXY]
    by_cases h1 : Y ≤ Er
    · have : Y * X ≤ Er * X := mul_le_mul_of_nonneg_right h1 hX0.le
      linarith
    · push Not at h1
      by_cases h2 : X ≤ R.eta
      · have : Y * X ≤ X := mul_le_of_le_one_left hX0.le hY1
        linarith
      · push Not at h2
        have h3 : (Y - Er) * (X - R.eta) ≤ R.val w * R.val s :=
          mul_le_mul hw hsl (by linarith) hap.nonneg
        have h4 : Y * R.eta ≤ R.eta := mul_le_of_le_one_left heta hY1
        have h5 : 0 ≤ Er * R.eta := mul_nonneg hE0 heta
        nlinarith
  obtain ⟨hdf, hd0, hdl, hdu⟩ := R.mul w s hap.fin hsf hap.nonneg hs0 (by
    refine hup.trans (le_trans (mul_le_mul ?_ (R.pow_le (by omega)) (R.pow_pos' _).le (by rw [hA]; positivity)) hO)
    rw [hA]; linarith)
  refine ⟨hdf, hd0, le_trans ?_ hdl, hdu.trans ?_, fun Z h => Z.mul w s hap.fin hsf (Or.inl (hap.exact0 Z (by rw [h, mul_zero])))⟩
  · have h7 : (pr / R.g ^ (K + P + 1) - (Er / pp + R.eta)) / R.g ≤ R.val w * R.val s / R.g :=
      div_le_div_of_nonneg_right hlow g0.le
    have h8 : (pr / R.g ^ (K + P + 1) - (Er / pp + R.eta)) / R.g = pr / R.g ^ (K + P + 2) - (Er / pp + R.eta) / R.g := by
      rw [show R.g ^ (K + P + 2) = R.g ^ (K + P + 1) * R.g from pow_succ _ _, sub_div, div_div]
    have h9 : (Er / pp + R.eta) / R.g ≤ Er / pp + R.eta := div_le_self (by positivity) R.one_le_g
    have h10 : 0 ≤ Er * R.eta := mul_nonneg hE0 heta
    rw [hA]; linarith
  · calc R.val w * R.val s * R.g + R.eta
        ≤ (pr + (Er / pp + (1 + Er) * R.eta)) * R.g ^ (K + P + 1) * R.g + R.eta * R.g ^ (K + P + 2) := by
          refine add_le_add (mul_le_mul_of_nonneg_right hup g0.le) ?_
          exact le_mul_of_one_le_right R.eta_nonneg (R.one_le_pow _)
      _ = (pr + A) * R.g ^ (K + P + 2) := by
          rw [hA, show K + P + 2 = (K + P + 1) + 1 by ring, pow_succ]; ring

/-- The final quotient, in any of its forms. -/
theorem quot_round {co : FastCode F} {n P : ℕ} {etaP : ℝ} (hpmf : FastPmf R co S n P etaP) (env : Env F) (site : ℕ) {K : ℕ} {Er pr A : ℝ}
    (hn : 1 ≤ n) (hpr0 : 0 ≤ pr) (hpr1 : pr ≤ 1) (hE0 : 0 ≤ Er) {w : F} (hap : Approx R K Er w (pois n n * pr))
    (hA : A = Er / pois n n + (2 + Er) * R.eta) (hO : (1 + A) * R.g ^ (K + P + 2) ≤ R.Omega)
    (hO2 : R.g ^ P / pois n n ≤ R.Omega) :
    Sat NoFault (fun x => Approx R (K + P + 2) A x pr) (quotFast co site env w (ofInt n) n) := by
  have heta := R.eta_nonneg
  have g1 := R.one_le_g
  have hpi : 0 < pois n n := pois_pos (by exact_mod_cast hn) n
  have hpi1 : pois (n : ℝ) n ≤ 1 := by
    have := sum_pois_le (Nat.cast_nonneg n) (n + 1)
    rw [Finset.sum_range_succ] at this
    have : 0 ≤ ∑ k ∈ range n, pois (n : ℝ) k := Finset.sum_nonneg fun k _ => pois_nonneg (Nat.cast_nonneg n) k
    linarith
  unfold quotFast
  rw [assertC_true _ (by simp), M_ok_bind, assertC_true _ hpmf.n_pos.1, M_ok_bind, if_neg (by rw [hpmf.n_pos.2]; simp),
    Int.toNat_natCast]
  dsimp only
  obtain ⟨hpf, hpl, hpu⟩ := hpmf.last site _ _ rfl rfl
  rw [poissonProb_eq] at hpl hpu
  have gP := R.pow_pos' P
  cases co.quot with
  | div =>
    dsimp only
    have h := div_round hpi hpr0 hpr1 hE0 hap hpf hpl hpu rfl (by
      refine le_trans (mul_le_mul ?_ (R.pow_le (by omega)) (R.pow_pos' _).le ?_) hO
      · have : 0 ≤ Er * R.eta := mul_nonneg hE0 heta
        rw [hA]; linarith
      · rw [hA]; positivity)
    have h0 : 0 ≤ Er / pois n n + R.eta := by positivity
    refine h.mono hpr0 h0 (by omega) ?_
    have : 0 ≤ Er * R.eta := mul_nonneg hE0 heta
    rw [hA]; linarith
  | recip =>
    dsimp only
    set p := co.exp site n ((co.exponent site n).eval co.fma (ofInt n) (ofInt n) (log (ofInt n)) (lgamma (ofInt ((n : ℤ) + 1)))) with hp
    have hp0 : 0 < R.val p := lt_of_lt_of_le (by positivity) hpl
    have hinv_up : R.val (one : F) / R.val p ≤ 1 / pois n n * R.g ^ P := by
      rw [R.val_one]
      calc 1 / R.val p ≤ 1 / (pois n n / R.g ^ P) := one_div_le_one_div_of_le (by positivity) hpl
        _ = _ := by field_simp
    have hinv_low : 1 / pois n n / R.g ^ P ≤ R.val (one : F) / R.val p := by
      rw [R.val_one, div_div]
      exact one_div_le_one_div_of_le hp0 hpu
    obtain ⟨sf, s0, sl, su⟩ := R.div one p R.one_finite hpf (by rw [R.val_one]; exact zero_le_one) hp0 (by
      refine hinv_up.trans (le_trans (le_of_eq ?_) hO2)
      ring)
    refine mul_inv_round hpi hpi1 hpr0 hpr1 hE0 hap sf s0 (le_trans ?_ sl) (su.trans ?_) hA hO
    · have := div_le_div_of_nonneg_right hinv_low R.g_pos.le
      rw [div_div _ _ R.g, ← pow_succ] at this
      linarith
    · have := mul_le_mul_of_nonneg_right hinv_up R.g_pos.le
      rw [mul_assoc, ← pow_succ] at this
      linarith
  | expNeg =>
    dsimp only
    obtain ⟨sf, sl, su⟩ := hpmf.lastNeg site _ _ rfl rfl
    rw [poissonProb_eq] at sl su
    have s0 := le_trans (by positivity) sl
    refine mul_inv_round hpi hpi1 hpr0 hpr1 hE0 hap sf s0 (le_trans ?_ sl) (su.trans ?_) hA hO
    · have : 1 / pois n n / R.g ^ (P + 1) ≤ 1 / pois n n / R.g ^ P :=
        div_le_div_of_nonneg_left (by positivity) gP (R.pow_le (by omega))
      linarith
    · have : 1 / pois n n * R.g ^ P ≤ 1 / pois n n * R.g ^ (P + 1) :=
        mul_le_mul_of_nonneg_left (R.pow_le (by omega)) (by positivity)
      linarith

/-- One step of the loop. -/
theorem ncStepFast_round {co : FastCode F} {e : ℕ} (hl : FastCode.Legal co e) {M : ℕ} {etaE expMin : ℝ} (hco : FastOps R co M etaE expMin)
    (env : Env F) {useFft : Bool} {n P : ℕ} (hsm : useFft = false ∨ n ≤ 126) {etaP : ℝ} (hpmf : FastPmf R co S n P etaP) {rho : ℝ}
    (hrho : rho = (n + 1) * (etaP + R.eta)) {s : NCState F}
    {t : ℝ} {v : ℕ → ℝ} {c d i N : ℕ} (hr : FRep R S n s t v c d (i * (P + n + 2 + e)) (errA rho i)) (ht0 : 0 ≤ t)
    (y : Bound F) (site : ℕ) (hyf : R.finite y.location) (hyS : y.location ∈ S) (ht : t ≤ R.val y.location) (hy1 : R.val y.location ≤ 1)
    (hc : y.tag = .bSTEP → c < n) (hd : y.tag = .BSTEP → d < n)
    (ha : env.asserts = false ∨ (t < R.val y.location → d ≤ c + 1))
    (hiN : i + 1 ≤ N) (hO : (1 + errA rho N) * R.g ^ (N * (P + n + 2 + e)) ≤ R.Omega) :
    Sat E (fun s' => FRep R S n s' (R.val y.location)
        (vstep (R.val y.location - t) (fun m => dN y.tag d ≤ m ∧ m ≤ c) v) (cN y.tag c) (dN y.tag d)
        ((i + 1) * (P + n + 2 + e)) (errA rho (i + 1)))
      (ncStepFast co env (ofInt n) useFft s (y, site)) := by
  have hb := hr.b; have hB := hr.B
  have hbn := hr.inv.bn
  have heta := R.eta_nonneg
  have hetaP := hpmf.etaP_nonneg
  have hrho0 : 0 ≤ rho := by rw [hrho]; positivity
  have hA0 := errA_nonneg hrho0 i
  have hAs := errA_succ rho i
  have hAle : errA rho i ≤ errA rho (i + 1) := errA_mono hrho0 (by omega)
  obtain ⟨hs1, hs2, hs3⟩ := hpmf.sign s.prev hr.prevS y.location hyS hr.prevFin hyf (by rw [hr.prev]; exact ht0)
    (by rw [hr.prev]; exact ht) hy1
  rw [hr.prev] at hs2 hs3
  set lam : F := ofInt n *ᶠ (y.location -ᶠ s.prev) with hlam
  have hnn : 0 ≤ (n : ℝ) * (R.val y.location - t) := mul_nonneg (Nat.cast_nonneg _) (by linarith)
  obtain ⟨f, hf⟩ := exists_fun (a := s.buffers.src)
  have hsl := DoubleBuffer.len_src hr.inv.len0 hr.inv.len1
  have hfa : ∀ m : ℕ, d ≤ m → m ≤ c → Approx R (i * (P + n + 2 + e)) (errA rho i) (f m) (pw n t v m) := by
    intro m h1 h2
    obtain ⟨w, hw, hap⟩ := hr.val m h1 h2
    rw [(hf m (by omega)).unique hw]
    exact hap
  refine (ncStepFast_sat co env hr.inv (hsm.imp id fun h => by omega) site hlam (f := f) ?_ ?_ ?_ ?_ ?_ ?_).mono ?_
  · intro m h1 h2; exact hf m (by omega)
  · intro h; have := hc h; omega
  · intro h; have := hd h; omega
  · rcases ha with ha | ha
    · exact Or.inl ha
    · right
      by_cases htt : t < R.val y.location
      · right; have := ha htt; omega
      · left
        rw [← Bool.not_eq_true]
        exact fun h => htt (hs2.mp h)
  · intro _ h; rw [hs1] at h; cases h
  · intro h1 h2
    have h1' : ¬ t < R.val y.location := fun h => by rw [hs2.mpr h] at h1; cases h1
    have : FOps.eq lam zero = true := hs3.mpr (le_antisymm ht (not_lt.mp h1'))
    rw [this] at h2; cases h2
  · intro s' ⟨hinv, hb', hB', hprev, hval⟩
    have hb'' : s'.bStep = (cN y.tag c : ℕ) := by
      rw [hb', hb]; by_cases h : y.tag = .bSTEP <;> simp [bNext, cN, h]
    have hB'' : s'.BStep = (dN y.tag d : ℕ) := by
      rw [hB', hB]; by_cases h : y.tag = .BSTEP <;> simp [BNext, dN, h]
    refine ⟨hinv, hb'', hB'', by rw [hprev]; exact hyf, by rw [hprev]; exact hyS, by rw [hprev], ?_,
      fun m => (pw_step_bounds ht hr.nonneg hr.le_one _ m).1, fun m => (pw_step_bounds ht hr.nonneg hr.le_one _ m).2, ?_⟩
    · intro m hm
      unfold vstep
      rw [if_neg]
      rintro ⟨h1, h2⟩
      rcases hm with hm | hm
      · omega
      · unfold cN at hm; split at hm <;> omega
    · intro m hm1 hm2
      have hv := hval m (by omega) (by omega)
      rw [hb, hB] at hv
      simp only [Int.toNat_natCast] at hv
      refine ⟨_, hv, ?_⟩
      unfold stepValFast
      by_cases h1 : y.tag = .bSTEP ∧ m = c + 1
      · rw [if_pos h1, pw_step, if_neg (by omega)]
        exact Approx.zero.mono le_rfl le_rfl (by omega) (errA_nonneg hrho0 _)
      · rw [if_neg h1]
        have hmc : m ≤ c := by
          unfold cN at hm2
          split at hm2
          · rename_i h
            by_contra hh
            exact h1 ⟨h, by omega⟩
          · exact hm2
        have hdm : d ≤ m := by
          unfold dN at hm1; split at hm1 <;> omega
        by_cases hpos : t < R.val y.location
        · rw [if_pos (hs2.mpr hpos), pw_step, if_pos ⟨hm1, hmc⟩]
          have hne : FOps.eq lam zero = false := by
            rw [← Bool.not_eq_true]
            exact fun h => hpos.ne (hs3.mp h)
          have hpne : ∀ k ≤ m - d, pois ((n : ℝ) * (R.val y.location - t)) k ≠ 0 := by
            intro k hk
            rcases Nat.eq_zero_or_pos n with hn0 | hn0
            · have : k = 0 := by omega
              subst this
              unfold pois
              positivity
            · exact (pois_pos (mul_pos (by exact_mod_cast hn0) (by linarith)) k).ne'
          have hp : ∀ k ≤ m - d, Approx R P etaP (fastPmfVal co site lam k) (pois ((n : ℝ) * (R.val y.location - t)) k) := by
            intro k hk
            have := hpmf.pmf site s.prev hr.prevS y.location hyS hr.prevFin hyf (by rw [hr.prev]; exact ht0) (by rw [hr.prev]; exact hpos)
              hy1 k (by omega) (fastPmfVal co site lam k) (by
                unfold fastPmfVal
                rw [hne]
                simp only [Bool.false_eq_true, if_false]
                rw [hlam])
            rw [hr.prev] at this
            exact ⟨this.1, this.2.1, this.2.2.1, this.2.2.2, fun _ h => absurd h (hpne k hk)⟩
          have hAbound : errA rho i + ((m - d + 1 : ℕ) : ℝ) * (etaP + etaP * errA rho i + R.eta) ≤ errA rho (i + 1) := by
            have hle : ((m - d + 1 : ℕ) : ℝ) ≤ (n : ℝ) + 1 := by
              have : m - d + 1 ≤ n + 1 := by omega
              exact_mod_cast this
            have h2 : ((m - d + 1 : ℕ) : ℝ) * (etaP + etaP * errA rho i + R.eta)
                ≤ ((n : ℝ) + 1) * (etaP + etaP * errA rho i + R.eta) :=
              mul_le_mul_of_nonneg_right hle (by positivity)
            have h3 : ((n : ℝ) + 1) * (etaP + etaP * errA rho i + R.eta) ≤ errA rho i * rho + rho := by
              rw [hrho]
              have : 0 ≤ ((n : ℝ) + 1) * (errA rho i * R.eta) := by positivity
              rw [← hrho]
              nlinarith
            rw [hAs]; linarith
          have hKb : P + i * (P + n + 2 + e) + (m - d + 2 + e) ≤ (i + 1) * (P + n + 2 + e) := by
            rw [Nat.add_mul, Nat.one_mul]; omega
          have hKN : (i + 1) * (P + n + 2 + e) ≤ N * (P + n + 2 + e) := Nat.mul_le_mul_right _ hiN
          have hconv := fastConv_approx (R := R) hco (hl.sum site (m - d)) (hl.height site (m - d)) (a := fun k => if k ≤ m - d then fastPmfVal co site lam k else zero) (b := fun k => f (d + k))
            (α := pois ((n : ℝ) * (R.val y.location - t))) (β := fun k => pw n t v (d + k)) (j := m - d) (P := P)
            (K := i * (P + n + 2 + e)) (A := errA rho i) (A' := etaP) (fun k hk => by beta_reduce; rw [if_pos hk]; exact hp k hk)
            (fun k hk => hfa (d + k) (by omega) (by omega)) (pois_nonneg hnn) (sum_pois_le hnn _)
            (fun k => hr.nonneg _) (fun k => hr.le_one _) hA0 hetaP (by
              refine le_trans (mul_le_mul ?_ (R.pow_le (hKb.trans hKN)) (R.pow_pos' _).le ?_) hO
              · linarith [errA_mono hrho0 hiN]
              · linarith [errA_nonneg hrho0 N])
          rw [shift_sum hdm] at hconv
          · refine hconv.mono ?_ ?_ hKb hAbound
            · exact Finset.sum_nonneg fun l _ => mul_nonneg (hr.nonneg l) (pois_nonneg hnn _)
            · positivity
          · intro l hl
            unfold pw
            rw [hr.supp l (Or.inl hl), mul_zero]
        · have hz : R.val y.location = t := le_antisymm (not_lt.mp hpos) ht
          rw [if_neg (fun h => hpos (hs2.mp h)), pw_same _ ⟨hm1, hmc⟩ (by rw [hz]; ring)]
          exact (hfa m hdm hmc).mono (hr.nonneg m) hA0 (Nat.mul_le_mul_right _ (by omega)) hAle

/-- The whole loop. -/
theorem ncFoldFast_round {co : FastCode F} {e : ℕ} (hl : FastCode.Legal co e) {M : ℕ} {etaE expMin : ℝ} (hco : FastOps R co M etaE expMin)
    (env : Env F) {useFft : Bool} {n P : ℕ} (hsm : useFft = false ∨ n ≤ 126) {etaP : ℝ} (hpmf : FastPmf R co S n P etaP) {rho : ℝ}
    (hrho : rho = (n + 1) * (etaP + R.eta)) {N : ℕ} (hO : (1 + errA rho N) * R.g ^ (N * (P + n + 2 + e)) ≤ R.Omega)
    (L : List (Bound F)) :
    ∀ (site : ℕ) (s : NCState F) (t : ℝ) (v : ℕ → ℝ) (c d i : ℕ) (C : Set (Fin n → ℝ)),
    FRep R S n s t v c d (i * (P + n + 2 + e)) (errA rho i) → i + L.length ≤ N →
    CountLaw n t v C → 0 ≤ t → (∀ y ∈ L, R.finite y.location) → (∀ y ∈ L, y.location ∈ S) → (∀ y ∈ L, t ≤ R.val y.location) →
    (∀ y ∈ L, R.val y.location ≤ 1) → L.Pairwise (fun x y => R.val x.location ≤ R.val y.location) →
    c + tc .bSTEP (L.map (rb R)) ≤ n → d + tc .BSTEP (L.map (rb R)) ≤ n →
    (env.asserts = false ∨ noAbort t c d (L.map (rb R))) →
    Sat E (fun s' => ∃ v', FRep R S n s' (lastLoc t (L.map (rb R))) v' (c + tc .bSTEP (L.map (rb R)))
          (d + tc .BSTEP (L.map (rb R))) ((i + L.length) * (P + n + 2 + e)) (errA rho (i + L.length)) ∧
        CountLaw n (lastLoc t (L.map (rb R))) v' (C ∩ win n c d (L.map (rb R))))
      ((L.zipIdx site).foldlM (ncStepFast co env (ofInt n) useFft) s) := by
  induction L with
  | nil =>
    intro site s t v c d i C hr _ hC _ _ _ _ _ _ _ _ _
    refine ⟨v, hr, ?_⟩
    simpa [win, lastLoc] using hC
  | cons y L ih =>
    intro site s t v c d i C hr hN hC h0 hfin hSS hge h1 hp hc hd ha
    rw [List.zipIdx_cons, List.foldlM_cons]
    rw [List.map_cons] at hc hd ha ⊢
    have hty := hge y (by simp)
    have hy1 := h1 y (by simp)
    rw [List.length_cons] at hN ⊢
    rw [List.pairwise_cons] at hp
    have hcc := cN_tc (rb R y) c (L.map (rb R))
    have hdd := dN_tc (rb R y) d (L.map (rb R))
    refine Sat.bind (ncStepFast_round hl hco env hsm hpmf hrho hr h0 y site (hfin y (by simp)) (hSS y (by simp)) hty hy1 ?_ ?_ ?_ (by omega) hO) ?_
    · intro h
      rw [tc_cons, if_pos (show (rb R y).2 = _ from h)] at hc; omega
    · intro h
      rw [tc_cons, if_pos (show (rb R y).2 = _ from h)] at hd; omega
    · rcases ha with ha | ha
      · exact Or.inl ha
      · exact Or.inr ha.1
    · intro s' hr'
      have hC' := hC.step h0 hty hy1 (fun m => dN y.tag d ≤ m ∧ m ≤ c)
      have hcd1 : cN (rb R y).2 c = cN y.tag c := rfl
      have hcd2 : dN (rb R y).2 d = dN y.tag d := rfl
      have := ih (site + 1) s' (R.val y.location) _ _ _ (i + 1) _ hr' (by omega) hC' (h0.trans hty)
        (fun z hz => hfin z (by simp [hz])) (fun z hz => hSS z (by simp [hz])) hp.1 (fun z hz => h1 z (by simp [hz])) hp.2
        (by omega) (by omega) (by
          rcases ha with ha | ha
          · exact Or.inl ha
          · exact Or.inr ha.2)
      refine this.mono ?_
      rintro s'' ⟨v', hr'', hC''⟩
      rw [lastLoc_cons, ← hcc, ← hdd]
      have e : i + (L.length + 1) = i + 1 + L.length := by omega
      rw [e]
      refine ⟨v', hr'', ?_⟩
      have e3 : win n c d (rb R y :: L.map (rb R)) = {x | dN y.tag d ≤ count (R.val y.location) x ∧
          count (R.val y.location) x ≤ c} ∩ win n (cN y.tag c) (dN y.tag d) (L.map (rb R)) := rfl
      rw [e3, ← Set.inter_assoc]
      exact hC''

/-- `ecdf2` as compiled. -/
theorem ecdf2Fast_round {co : FastCode F} {e : ℕ} (hl : FastCode.Legal co e) {M : ℕ} {etaE expMin : ℝ} (hco : FastOps R co M etaE expMin)
    (env : Env F) {useFft : Bool} {n P : ℕ} (hsm : useFft = false ∨ n ≤ 126) {etaP : ℝ} (hpmf : FastPmf R co S n P etaP) {b B : Fin n → F}
    (hz : zero ∈ S) (ho : one ∈ S) (hbS : ∀ i, b i ∈ S) (hBS : ∀ i, B i ∈ S)
    (hbf : ∀ i, R.finite (b i)) (hBf : ∀ i, R.finite (B i)) (hb : ValidBound fun i => R.val (b i))
    (hB : ValidBound fun i => R.val (B i)) {sort : List (Bound F) → List (Bound F)} (hsort : SortContractF R sort)
    (ha : env.asserts = false ∨ ¬ ∃ i j : Fin n, (j : ℕ) = i + 1 ∧ R.val (B j) < R.val (b i))
    {A : ℝ} (hA : A = errA (((n : ℝ) + 1) * (etaP + R.eta)) (2 * n + 1) / pois n n + (2 + errA (((n : ℝ) + 1) * (etaP + R.eta)) (2 * n + 1)) * R.eta)
    (hn : 1 ≤ n) (hO2 : R.g ^ P / pois n n ≤ R.Omega)
    (hO : (1 + A) * R.g ^ ((2 * n + 1) * (P + n + 2 + e) + P + 2) ≤ R.Omega) :
    ∃ x, ecdf2Fast co env sort (List.ofFn b) (List.ofFn B) useFft = .ok x ∧
      Approx R ((2 * n + 1) * (P + n + 2 + e) + P + 2) A x (noncrossProb (fun i => R.val (b i)) (fun i => R.val (B i))) := by
  set pr := noncrossProb (fun i => R.val (b i)) (fun i => R.val (B i)) with hpr
  set rho := ((n : ℝ) + 1) * (etaP + R.eta) with hrho
  have heta := R.eta_nonneg
  have hetaP := hpmf.etaP_nonneg
  have hrho0 : 0 ≤ rho := by rw [hrho]; positivity
  have hpi : 0 < pois n n := pois_pos (by exact_mod_cast hn) n
  have hpi1 : pois (n : ℝ) n ≤ 1 := by
    have := sum_pois_le (Nat.cast_nonneg n) (n + 1)
    rw [Finset.sum_range_succ] at this
    have : 0 ≤ ∑ k ∈ range n, pois (n : ℝ) k := Finset.sum_nonneg fun k _ => pois_nonneg (Nat.cast_nonneg n) k
    linarith
  have hE0 := errA_nonneg hrho0 (2 * n + 1)
  have hEpi : errA rho (2 * n + 1) ≤ errA rho (2 * n + 1) / pois n n := by
    rw [le_div_iff₀ hpi]; exact mul_le_of_le_one_right hE0 hpi1
  have hA0 : 0 ≤ A := by rw [hA]; positivity
  have hO' : (1 + errA rho (2 * n + 1)) * R.g ^ ((2 * n + 1) * (P + n + 2 + e)) ≤ R.Omega := by
    refine le_trans (mul_le_mul ?_ (R.pow_le (by omega)) (R.pow_pos' _).le (by linarith)) hO
    have h9 : 0 ≤ (2 + errA rho (2 * n + 1)) * R.eta := by positivity
    rw [hA]; linarith
  have hpr1 : pr ≤ 1 := by
    haveI : MeasureTheory.IsProbabilityMeasure (iidUniform n) := by
      unfold iidUniform
      haveI : MeasureTheory.IsProbabilityMeasure ((MeasureTheory.volume : MeasureTheory.Measure ℝ).restrict (Set.Icc 0 1)) :=
        ⟨by simp⟩
      infer_instance
    exact MeasureTheory.measureReal_le_one
  have hpr0 : 0 ≤ pr := MeasureTheory.measureReal_nonneg
  have key : Sat NoFault (fun x => Approx R ((2 * n + 1) * (P + n + 2 + e) + P + 2) A x pr)
      (ecdf2Fast co env sort (List.ofFn b) (List.ofFn B) useFft) := by
    unfold ecdf2Fast
    dsimp only
    rw [check_valid_float hbf hb "b" _ (by simp), M_ok_bind, check_valid_float hBf hB "B" _ (by simp), M_ok_bind]
    simp only [List.length_ofFn]
    -- the sorted list
    set U := unsortedBounds (List.ofFn b) (List.ofFn B) with hU
    have hUfin : ∀ x ∈ U, R.finite x.location := by
      intro x hx
      rw [hU] at hx
      unfold unsortedBounds at hx
      rw [List.mem_append, List.mem_map, List.mem_map] at hx
      rcases hx with ⟨z, hz, rfl⟩ | ⟨z, hz, rfl⟩
      · rw [List.mem_ofFn] at hz; obtain ⟨i, rfl⟩ := hz; exact hbf i
      · rw [List.mem_ofFn] at hz; obtain ⟨i, rfl⟩ := hz; exact hBf i
    have hUS : ∀ x ∈ U, x.location ∈ S := by
      intro x hx
      rw [hU] at hx
      unfold unsortedBounds at hx
      rw [List.mem_append, List.mem_map, List.mem_map] at hx
      rcases hx with ⟨z, hz, rfl⟩ | ⟨z, hz, rfl⟩
      · rw [List.mem_ofFn] at hz; obtain ⟨i, rfl⟩ := hz; exact hbS i
      · rw [List.mem_ofFn] at hz; obtain ⟨i, rfl⟩ := hz; exact hBS i
    have hSperm := hsort.perm U
    have hSfin : ∀ x ∈ sort U, R.finite x.location := fun x hx => hUfin x (hSperm.mem_iff.mp hx)
    have hSsorted := hsort.sorted U hUfin
    have hL0perm : ((sort U).map (rb R)).Perm (unsortedR (fun i => R.val (b i)) (fun i => R.val (B i))) := by
      rw [← unsorted_map (R := R)]
      exact hSperm.map _
    have hL0sorted : ((sort U).map (rb R)).Pairwise fun x y => x.1 ≤ y.1 := by
      rw [List.pairwise_map]
      refine hSsorted.imp_of_mem ?_
      intro x y hx hy h
      exact (R.lt_false (hSfin y hy) (hSfin x hx)).mp h
    obtain ⟨L, hL, hLs, hLb, hLB, h0, h1⟩ := sorted_real hb hB hL0perm hL0sorted
    have hmap : (joinAllBounds sort (List.ofFn b) (List.ofFn B)).map (rb R) = L := by
      unfold joinAllBounds
      rw [← hU, List.map_append, hL]
      simp only [List.map_cons, List.map_nil, rb, R.val_one]
    set J := joinAllBounds sort (List.ofFn b) (List.ofFn B) with hJ
    have hJfin : ∀ y ∈ J, R.finite y.location := by
      intro y hy
      rw [hJ] at hy
      unfold joinAllBounds at hy
      rw [List.mem_append, List.mem_singleton] at hy
      rcases hy with hy | rfl
      · exact hSfin y hy
      · exact R.one_finite
    have hJS : ∀ y ∈ J, y.location ∈ S := by
      intro y hy
      rw [hJ] at hy
      unfold joinAllBounds at hy
      rw [List.mem_append, List.mem_singleton] at hy
      rcases hy with hy | rfl
      · exact hUS y (hSperm.mem_iff.mp hy)
      · exact ho
    have hJlen : J.length = 2 * n + 1 := by
      rw [hJ]
      unfold joinAllBounds
      rw [List.length_append, hSperm.length_eq, hU]
      unfold unsortedBounds
      simp
      omega
    have hmem : ∀ y ∈ J, (R.val y.location, y.tag) ∈ L := by
      intro y hy; rw [← hmap]; exact List.mem_map_of_mem hy
    have hr : Sat NoFault (fun probs => ∃ w, Has probs (n : ℤ) w ∧
          Approx R ((2 * n + 1) * (P + n + 2 + e)) (errA rho (2 * n + 1)) w (pois n n * pr))
        (noncrossingFast co env sort (n : ℤ) (FOps.ofInt (n : ℤ)) (List.ofFn b) (List.ofFn B) useFft) := by
      unfold noncrossingFast
      have hl0 : ((DoubleBuffer.new ((n : Int) + 1) (FOps.zero : F)).src.length : Int) = n + 1 := by
        simp [DoubleBuffer.new, DoubleBuffer.src]
      refine Sat.bind (wr_sat _ (by omega) (by omega)) fun src hsrc => ?_
      refine Sat.bind (pmfGen_new_sat env (by omega)) fun g hg => ?_
      rw [← hJ]
      have hrep := init_frep (R := R) (S := S) env hg (src := src) (by omega) ((hsrc.2 _ _).2 (Or.inl ⟨rfl, rfl⟩)) hz (0 * (P + n + 2 + e)) (A := errA rho 0) (by simp [errA])
      refine Sat.bind (ncFoldFast_round hl hco env hsm hpmf hrho hO' J 0 _ 0 _ 0 0 0 Set.univ hrep (by omega) CountLaw.zero le_rfl hJfin hJS
        ?_ ?_ ?_ ?_ ?_ ?_) ?_
      · intro y hy; exact h0 _ (hmem y hy)
      · intro y hy; exact h1 _ (hmem y hy)
      · have := hLs
        rw [← hmap, List.pairwise_map] at this
        exact this
      · rw [hmap, hLb.tc]; omega
      · rw [hmap, hLB.tc]; omega
      · rw [hmap, noAbort_eq hLb hLB hB.mono hLs h0]; exact ha
      · rintro s ⟨v, hrep', hlaw⟩
        have hlast : lastLoc 0 L = 1 := by rw [hL]; simp [lastLoc]
        rw [hmap, hlast] at hrep' hlaw
        rw [hLb.tc, hLB.tc, hJlen, Nat.zero_add, Nat.zero_add] at hrep'
        rw [Set.univ_inter, win_eq hLb hLB hLs] at hlaw
        have hp := hlaw.prob
        rw [← noncrossProb_eq, ← hpr] at hp
        obtain ⟨w, hw, hap⟩ := hrep'.val n (by omega) (by omega)
        refine ⟨w, hw, ?_⟩
        have hfac : (n.factorial : ℝ) ≠ 0 := by exact_mod_cast (Nat.factorial_pos n).ne'
        have e2 : pw n 1 v n = pois n n * pr := by
          unfold pw pois
          rw [hp, mul_one]
          field_simp
        rw [← e2]
        exact hap
    refine Sat.bind hr fun probs hp => ?_
    obtain ⟨w, hw, hap⟩ := hp
    rw [rd_eq hw, M_ok_bind]
    exact quot_round hpmf env _ hn hpr0 hpr1 hE0 hap hA hO hO2
  exact key.exists_ok

end
end CP.Spec
