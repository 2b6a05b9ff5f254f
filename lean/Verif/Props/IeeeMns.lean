import Verif.Proofs.MnsIeeeFinal
import Verif.Proofs.MnsIeeeBnd
import Verif.Props.RoundingMns
import Verif.Props.Ieee
/-
Property C64: accuracy of `ecdf1_mns2016_b` and `ecdf1_mns2016_B` in IEEE-754 arithmetic with its bounded exponent range.
-/
open MeasureTheory Set
namespace CP.Props
open CP.Spec FOps
noncomputable section

variable {A : FloatSystem} {u : ℝ}

/-- `(1+u)^N - 1 <= 2 N u`. -/
theorem pow_sub_one_le {u : ℝ} {N : ℕ} (hu : 0 ≤ u) (h : (N : ℝ) * u ≤ 1) : (1 + u) ^ N - 1 ≤ 2 * (N * u) := by
  have h1 := Real.add_one_le_exp u
  have h3 : (1 + u) ^ N ≤ Real.exp u ^ N := pow_le_pow_left₀ (by linarith) (by linarith) N
  rw [← Real.exp_nat_mul] at h3
  have := exp_le_lin (mul_nonneg (Nat.cast_nonneg N) hu) h
  linarith

/-- C64: `ecdf1_mns2016_b` in IEEE-754 arithmetic (any format, any rounding rule for ties, gradual underflow, overflow), with a
math library of relative accuracy `u` whose `pow` loses at most `q` roundings.  `K` is the condition number of the boundary (at most
`1.618^(n+2)`, C58), `P` the true probability, `D` the effect of underflow.  If no overflow is possible and the error bound
`2 N u (K + D)` is at most a quarter of `P`, the result is a finite number within
`2 N u (K + D) + 16 u S P + 2^emin` of `P`, where `2 N = n^2 + (9+2q) n + 2q + 4`. -/
theorem C64_ieee (h : A.OK u) (hpm : (A.f.p : ℤ) < A.f.emax) (env : Env (Num A)) {n N q : ℕ}
    (hN : 2 * N = n ^ 2 + (9 + 2 * q) * n + 2 * q + 4) (hL : LibmAccurate A u n) (hpow : PowAccurate A u q n) (hn : n ^ 2 + 2 ≤ 2 ^ A.f.p)
    (hunder : 64 * 4 ^ n * n.factorial * (2 : ℝ) ^ A.f.emin ≤ u) (hover : 2 ^ (n + 4) * (n.factorial : ℝ) ≤ (2 : ℝ) ^ (A.f.emax - 1))
    {b : Fin n → Num A} (hbf : ∀ i, (b i).finite) (hb : ValidBound fun i => (b i).val)
    {P K D S : ℝ} (hPd : P = lowerProb fun i => (b i).val) (hP : 0 < P) (hK : K = mnsCond fun i => (b i).val)
    (hD : D = 42 * 4 ^ n * n.factorial * (2 : ℝ) ^ A.f.emin / u) (hS : S = 3 * Real.log n.factorial + |Real.log P| + 5)
    (h1 : 8 * (N * u) * (K + D) ≤ P) (h2 : u * S ≤ 1 / 16) :
    ∃ x : Num A, ecdf1Mns2016b env (List.ofFn b) = .ok x ∧ x.finite ∧
      |x.val - P| ≤ 2 * (N * u) * (K + D) + 16 * u * S * P + (2 : ℝ) ^ A.f.emin := by
  have hu := h.u_pos
  have hu8 := h.u_le
  have hut := u_mul_thU h
  have hpos : (0 : ℝ) < (2 : ℝ) ^ A.f.emin := by positivity
  have hD0 : 0 ≤ D := by rw [hD]; positivity
  have hPK : P ≤ K := by rw [hPd, hK]; exact prob_le_cond hb
  have hS4 : 4 ≤ S := by
    rw [hS]
    have := Real.log_natCast_nonneg n.factorial
    have := abs_nonneg (Real.log P)
    linarith
  have e : N = Exq q n + n + q + 2 := by
    have := exq_closed q n
    have h3 : 2 * (Exq q n + n + q + 2) = n ^ 2 + (9 + 2 * q) * n + 2 * q + 4 := by
      rw [show 2 * (Exq q n + n + q + 2) = 2 * Exq q n + 2 * n + 2 * q + 4 by ring, this]; ring
    omega
  have eD : D = thU A u * (42 * 4 ^ n * (n.factorial : ℝ)) := by rw [hD]; unfold thU; ring
  have hNu0 : 0 ≤ (N : ℝ) * u := mul_nonneg (Nat.cast_nonneg _) hu.le
  have hKD : 0 < K + D := by linarith
  have hNu : 8 * ((N : ℝ) * u) ≤ 1 := by
    have : 8 * (N * u) * (K + D) ≤ 1 * (K + D) := by linarith
    exact le_of_mul_le_mul_right this hKD
  obtain ⟨A', hA'⟩ : ∃ A', A' = ((1 + u) ^ N - 1) * (K + D) := ⟨_, rfl⟩
  have hA4 : A' ≤ P / 4 := by
    have h3 := pow_sub_one_le hu.le (N := N) (by linarith)
    have h4 : A' ≤ 2 * (N * u) * (K + D) := by rw [hA']; exact mul_le_mul_of_nonneg_right h3 hKD.le
    linarith
  obtain ⟨w, hw⟩ : ∃ w, w = ((1 + u) ^ 3 - 1) * (S - 1) := ⟨_, rfl⟩
  have hexp := (mns_explicit hu.le hu8 hP (show P ≤ K + D by linarith) (by
    have := mul_nonneg hNu0 hKD.le
    linarith) hS4 h2 hA' hw).2
  have hw1 : w ≤ 1 := by
    have hc : (1 + u) ^ 3 - 1 ≤ 4 * u := by nlinarith [mul_nonneg hu.le hu.le, mul_nonneg hu.le (mul_nonneg hu.le hu.le)]
    have : w ≤ 4 * u * (S - 1) := by rw [hw]; exact mul_le_mul_of_nonneg_right hc (by linarith)
    linarith
  have hpO : (2 : ℝ) ^ (A.f.p : ℤ) ≤ (2 : ℝ) ^ (A.f.emax - 1) := zpow_le_zpow_right₀ (by norm_num) (by omega)
  have hu2 : 1 / u ≤ (2 : ℝ) ^ (A.f.p : ℤ) := by
    rw [div_le_iff₀ hu]
    have h3 := mul_le_mul_of_nonneg_left h.u_ge (show (0 : ℝ) ≤ (2 : ℝ) ^ (A.f.p : ℤ) by positivity)
    rwa [← zpow_add₀ (by norm_num), add_neg_cancel, zpow_zero] at h3
  have hSO : 2 * (S - 1) ≤ (2 : ℝ) ^ (A.f.emax - 1) := by
    have h3 : S ≤ 1 / 16 / u := by rw [le_div_iff₀ hu, mul_comm]; exact h2
    have h4 : 1 / 16 / u = 1 / 16 * (1 / u) := by ring
    rw [h4] at h3
    linarith
  have ops := ieeeBnd h hL hpow hn (by
    refine le_trans ?_ hpO
    rw [zpow_natCast]
    exact_mod_cast hn)
  obtain ⟨x, hx, hxf, hxe⟩ := mns_bnd ops env (b := b) hbf (rb := fun i => (b i).val) (fun i => rfl) hb (hPd ▸ hP)
    (by
      have h3 : thU A u * (64 * 4 ^ n * (n.factorial : ℝ)) = 64 * 4 ^ n * n.factorial * (2 : ℝ) ^ A.f.emin / u := by unfold thU; ring
      rw [h3, div_le_one hu]; exact hunder)
    hover (A := A') (by rw [hA', e, eD, hK]) (by rw [← hPd]; exact hA4)
    (w := w) (by rw [hw, hS, ← hPd]; ring) hw1 (by
      rw [← hPd]
      refine le_trans (le_of_eq ?_) hSO
      rw [hS]; ring)
  refine ⟨x, hx, hxf, ?_⟩
  rw [← hPd, hut] at hxe
  refine hxe.trans ?_
  linarith

/-- The bound with numbers: up to `M` points, probability at least `p0`. -/
theorem mns_num (h : A.OK u) (hu64 : (2 : ℝ) ^ (-64 : ℤ) ≤ u) (hpm : (A.f.p : ℤ) < A.f.emax) (env : Env (Num A)) {n M N q e : ℕ} (hnM : n ≤ M)
    (hN : 2 * N = M ^ 2 + (9 + 2 * q) * M + 2 * q + 4) (hL : LibmAccurate A u n) (hpow : PowAccurate A u q n) (hp : M ^ 2 + 2 ≤ 2 ^ A.f.p)
    (hfac : 64 * 4 ^ M * M.factorial ≤ 2 ^ e) (he : A.f.emin + e ≤ -100) (he2 : (e : ℤ) < A.f.emax)
    {Kc p0 : ℝ} (hKc : (81 / 50 : ℝ) ^ (M + 2) ≤ Kc) (hp0 : 0 < p0) (h1 : 8 * (N * u) * (Kc + 1) ≤ p0)
    (h2 : u * (3 * (M : ℝ) ^ 2 + 6 + 1 / p0) ≤ 1 / 16)
    {b : Fin n → Num A} (hbf : ∀ i, (b i).finite) (hb : ValidBound fun i => (b i).val) (hP : p0 ≤ lowerProb fun i => (b i).val) :
    ∃ x : Num A, ecdf1Mns2016b env (List.ofFn b) = .ok x ∧ x.finite ∧
      |x.val - lowerProb fun i => (b i).val| ≤ 2 * (N * u) * (Kc + 1) + 16 * u * (3 * (M : ℝ) ^ 2 + 6) + (2 : ℝ) ^ A.f.emin := by
  have hu := h.u_pos
  obtain ⟨N', hN'⟩ : ∃ N', 2 * N' = n ^ 2 + (9 + 2 * q) * n + 2 * q + 4 := by
    refine ⟨(n ^ 2 + (9 + 2 * q) * n + 2 * q + 4) / 2, Nat.mul_div_cancel' ?_⟩
    have : n ^ 2 + (9 + 2 * q) * n + 2 * q + 4 = n * (n + 1) + 2 * (4 * n + q * n + q + 2) := by ring
    rw [this]
    exact dvd_add (Nat.even_mul_succ_self n).two_dvd (Dvd.intro _ rfl)
  have hNN : N' ≤ N := by
    have a1 : n ^ 2 ≤ M ^ 2 := Nat.pow_le_pow_left hnM 2
    have a2 : (9 + 2 * q) * n ≤ (9 + 2 * q) * M := Nat.mul_le_mul_left _ hnM
    omega
  obtain ⟨P, hPd⟩ : ∃ P, P = lowerProb fun i => (b i).val := ⟨_, rfl⟩
  obtain ⟨K, hKd⟩ : ∃ K, K = mnsCond fun i => (b i).val := ⟨_, rfl⟩
  rw [← hPd] at hP ⊢
  have hP0 : 0 < P := lt_of_lt_of_le hp0 hP
  have hP1 : P ≤ 1 := by rw [hPd]; exact measureReal_le_one
  have hK : K ≤ Kc := by
    rw [hKd]
    refine ((mnsCond_le hb).trans ?_).trans hKc
    calc Real.goldenRatio ^ (n + 2) ≤ Real.goldenRatio ^ (M + 2) := pow_le_pow_right₀ Real.one_lt_goldenRatio.le (by omega)
      _ ≤ (81 / 50 : ℝ) ^ (M + 2) := pow_le_pow_left₀ Real.goldenRatio_pos.le golden_lt.le _
  have hK0 : 0 ≤ K := by rw [hPd] at hP0; rw [hKd]; exact hP0.le.trans (prob_le_cond hb)
  have hfn : 64 * 4 ^ n * n.factorial ≤ 2 ^ e := by
    refine le_trans (Nat.mul_le_mul (Nat.mul_le_mul_left _ (Nat.pow_le_pow_right (by norm_num) hnM)) (Nat.factorial_le hnM)) hfac
  have hfnr : 64 * 4 ^ n * (n.factorial : ℝ) ≤ (2 : ℝ) ^ (e : ℤ) := by rw [zpow_natCast]; exact_mod_cast hfn
  have hund : 64 * 4 ^ n * (n.factorial : ℝ) * (2 : ℝ) ^ A.f.emin ≤ (2 : ℝ) ^ (-100 : ℤ) := by
    refine (mul_le_mul_of_nonneg_right hfnr (by positivity)).trans ?_
    rw [← zpow_add₀ (by norm_num)]
    exact zpow_le_zpow_right₀ (by norm_num) (by omega)
  have h100 : (2 : ℝ) ^ (-100 : ℤ) ≤ u := le_trans (zpow_le_zpow_right₀ (by norm_num) (by norm_num)) hu64
  obtain ⟨D, hDd⟩ : ∃ D, D = 42 * 4 ^ n * n.factorial * (2 : ℝ) ^ A.f.emin / u := ⟨_, rfl⟩
  have hpos : (0 : ℝ) ≤ 4 ^ n * n.factorial * (2 : ℝ) ^ A.f.emin := by positivity
  have hD0 : 0 ≤ D := by rw [hDd]; positivity
  have hD1 : D ≤ 1 := by
    rw [hDd, div_le_one hu]
    refine le_trans ?_ (hund.trans h100)
    linarith
  have hNr : (N' : ℝ) ≤ N := by exact_mod_cast hNN
  have hNK : (N' * u) * (K + D) ≤ (N * u) * (Kc + 1) :=
    mul_le_mul (mul_le_mul_of_nonneg_right hNr hu.le) (by linarith) (by linarith) (by positivity)
  have hlogP : |Real.log P| * P ≤ 1 := by
    have h1 : Real.log P ≤ 0 := Real.log_nonpos hP0.le hP1
    rw [abs_of_nonpos h1, ← Real.log_inv]
    have h2 := Real.log_le_sub_one_of_pos (inv_pos.mpr hP0)
    calc Real.log P⁻¹ * P ≤ P⁻¹ * P := mul_le_mul_of_nonneg_right (by linarith) hP0.le
      _ = 1 := inv_mul_cancel₀ hP0.ne'
  have hlogP2 : |Real.log P| ≤ 1 / p0 := by
    rw [le_div_iff₀ hp0]
    exact (mul_le_mul_of_nonneg_left hP (abs_nonneg _)).trans hlogP
  have hLM : Real.log n.factorial ≤ (M : ℝ) ^ 2 := by
    refine (log_fact_le n).trans ?_
    exact pow_le_pow_left₀ (Nat.cast_nonneg n) (by exact_mod_cast hnM) 2
  have hL0 := Real.log_natCast_nonneg n.factorial
  obtain ⟨S, hSd⟩ : ∃ S, S = 3 * Real.log n.factorial + |Real.log P| + 5 := ⟨_, rfl⟩
  obtain ⟨x, hx, hxf, hxe⟩ := C64_ieee h hpm env hN' hL hpow (le_trans (by have := Nat.pow_le_pow_left hnM 2; omega) hp)
    (hund.trans h100) (by
      have h3 : (2 : ℝ) ^ (n + 4) ≤ 64 * 4 ^ n := by
        have : (2 : ℝ) ^ n ≤ 4 ^ n := pow_le_pow_left₀ (by norm_num) (by norm_num) n
        have h4 : (0 : ℝ) < 4 ^ n := by positivity
        rw [pow_add]; linarith only [this, h4]
      refine le_trans (mul_le_mul_of_nonneg_right h3 (Nat.cast_nonneg _)) (hfnr.trans ?_)
      exact zpow_le_zpow_right₀ (by norm_num) (by omega)) hbf hb hPd hP0 hKd hDd hSd (by linarith) (by
      refine le_trans (mul_le_mul_of_nonneg_left ?_ hu.le) h2
      rw [hSd]; linarith)
  refine ⟨x, hx, hxf, hxe.trans ?_⟩
  have hSP : S * P ≤ 3 * (M : ℝ) ^ 2 + 6 := by
    have h5 : (3 * Real.log n.factorial + 5) * P ≤ (3 * (M : ℝ) ^ 2 + 5) * 1 :=
      mul_le_mul (by linarith) hP1 hP0.le (by positivity)
    rw [hSd]; linarith
  have h6 : 16 * u * S * P ≤ 16 * u * (3 * (M : ℝ) ^ 2 + 6) := by
    rw [mul_assoc]; exact mul_le_mul_of_nonneg_left hSP (by positivity)
  linarith

theorem two_neg_1000 : (2 : ℝ) ^ (-1000 : ℤ) ≤ 1 / 10 ^ 30 := by
  calc (2 : ℝ) ^ (-1000 : ℤ) ≤ 2 ^ (-100 : ℤ) := zpow_le_zpow_right₀ (by norm_num) (by norm_num)
    _ ≤ _ := by norm_num

/-- C64: where `long double` is `double` (or with `FLOAT_PRECISION_BITS` 64), with a math library accurate to four units in the last
place, even if `pow(x, i)` is compiled to `i` multiplications: for every valid lower boundary of up to 20 doubles whose probability is
at least `2.5e-7`, `ecdf1_mns2016_b` returns a finite double within `6e-8` of the probability. -/
theorem C64_double_20 (hf : A.f = binary64) {n : ℕ} (hn : n ≤ 20) (hL : LibmAccurate A u50 n) (hpow : PowAccurate A u50 20 n)
    (env : Env (Num A)) {b : Fin n → Num A} (hbf : ∀ i, (b i).finite) (hb : ValidBound fun i => (b i).val)
    (hP : 1 / 4000000 ≤ lowerProb fun i => (b i).val) :
    ∃ x : Num A, ecdf1Mns2016b env (List.ofFn b) = .ok x ∧ x.finite ∧ |x.val - lowerProb fun i => (b i).val| ≤ 6 / 10 ^ 8 := by
  obtain ⟨x, hx, hxf, hxe⟩ := mns_num (double_ok hf) (by unfold u50; exact zpow_le_zpow_right₀ (by norm_num) (by norm_num))
    (by rw [hf]; norm_num [binary64]) env (M := 20) (N := 712) (q := 20) (e := 200) hn (by norm_num) hL hpow
    (by rw [hf]; norm_num [binary64]) (by norm_num [Nat.factorial]) (by rw [hf]; norm_num [binary64]) (by rw [hf]; norm_num [binary64])
    (Kc := 40700) (p0 := 1 / 4000000) (by norm_num) (by norm_num) (by rw [u50_val]; norm_num) (by rw [u50_val]; norm_num) hbf hb hP
  refine ⟨x, hx, hxf, hxe.trans ?_⟩
  have h1 : (2 : ℝ) ^ A.f.emin ≤ 1 / 10 ^ 30 := by
    refine le_trans ?_ two_neg_1000
    rw [hf]; exact zpow_le_zpow_right₀ (by norm_num) (by norm_num [binary64])
  refine (add_le_add_right h1 _).trans ?_
  rw [u50_val]; norm_num

/-- Doubles with correctly rounded arithmetic. -/
theorem double_ok53 (hf : A.f = binary64) : A.OK ((2 : ℝ) ^ (-53 : ℤ)) where
  fmt := hf ▸ binary64_ok
  u_ge := by
    rw [hf]
    exact zpow_le_zpow_right₀ (by norm_num) (by norm_num [binary64])
  u_le := by norm_num

/-- The reflected boundary `1 - B`, in doubles. -/
theorem double_reflect (hf : A.f = binary64) {n : ℕ} {B : Fin n → Num A} (hBf : ∀ i, (B i).finite) (hB : ValidBound fun i => (B i).val) :
    (∀ i, (flipF B i).finite) ∧ (ValidBound fun i => (flipF B i).val) ∧
      |(lowerProb fun i => (flipF B i).val) - upperProb fun i => (B i).val| ≤ n ^ 2 * (2 : ℝ) ^ (-53 : ℤ) := by
  have hok := double_ok53 hf
  obtain ⟨f1, f2, f3⟩ := flip_ok (R := ieeeModel A _ hok) (ieeeSigned hok (Nmax := 0) (by simp) (by simp) (by simp; positivity))
    (ieeeReflect hok) (by have := one_le_Omega hok.fmt; show (1 : ℝ) ≤ (2 : ℝ) ^ (A.f.emax - 1); linarith) (b := B) hBf hB
  refine ⟨f1, f2, ?_⟩
  rw [upperProb_reflect]
  refine (lower_lipschitz _ _).trans ?_
  have h4 : ∑ i, |(flipF B i).val - reflect (fun i => (B i).val) i| ≤ ∑ _i : Fin n, (2 : ℝ) ^ (-53 : ℤ) :=
    Finset.sum_le_sum fun i _ => f3 i
  rw [Finset.sum_const, Finset.card_univ, Fintype.card_fin, nsmul_eq_mul] at h4
  calc (n : ℝ) * _ ≤ n * (n * (2 : ℝ) ^ (-53 : ℤ)) := mul_le_mul_of_nonneg_left h4 (Nat.cast_nonneg n)
    _ = _ := by ring

theorem sq_53_le {n M : ℕ} (hn : n ≤ M) {c : ℝ} (h : (M : ℝ) ^ 2 * (2 : ℝ) ^ (-53 : ℤ) ≤ c) : (n : ℝ) ^ 2 * (2 : ℝ) ^ (-53 : ℤ) ≤ c := by
  refine le_trans (mul_le_mul_of_nonneg_right ?_ (by positivity)) h
  exact pow_le_pow_left₀ (Nat.cast_nonneg n) (by exact_mod_cast hn) 2

/-- C64: the same for upper boundaries, `ecdf1_mns2016_B`. -/
theorem C64_double_B_20 (hf : A.f = binary64) {n : ℕ} (hn : n ≤ 20) (hL : LibmAccurate A u50 n) (hpow : PowAccurate A u50 20 n)
    (env : Env (Num A)) {B : Fin n → Num A} (hBf : ∀ i, (B i).finite) (hB : ValidBound fun i => (B i).val)
    (hP : 1 / 3900000 ≤ upperProb fun i => (B i).val) :
    ∃ x : Num A, ecdf1Mns2016B env (List.ofFn B) = .ok x ∧ x.finite ∧ |x.val - upperProb fun i => (B i).val| ≤ 7 / 10 ^ 8 := by
  obtain ⟨f1, f2, f3⟩ := double_reflect hf hBf hB
  have h4 := sq_53_le hn (c := 1 / 10 ^ 12) (by norm_num)
  have h5 := abs_le.mp (f3.trans h4)
  obtain ⟨x, hx, hxf, hxe⟩ := C64_double_20 hf hn hL hpow env f1 f2 (by norm_num at hP h5 ⊢; linarith)
  refine ⟨x, ?_, hxf, ?_⟩
  · unfold ecdf1Mns2016B
    dsimp only
    rw [check_valid_float (R := ieeeModel A _ (double_ok53 hf)) hBf hB "B" _ (by simp), M_ok_bind, symmetricSteps_ofFn, M_ok_bind]
    exact hx
  · have := abs_sub_le x.val (lowerProb fun i => (flipF B i).val) (upperProb fun i => (B i).val)
    have h6 := f3.trans h4
    refine this.trans ((add_le_add hxe h6).trans ?_)
    norm_num

end
end CP.Props
