import Verif.Proofs.FastMnsIeee
import Verif.Props.LongDouble
/-
Property C68: accuracy of `ecdf1_mns2016_b` and `ecdf1_mns2016_B` as compiled with `-O3 -ffast-math`, with `double` outside and
`long double` inside.
-/
open MeasureTheory Set
namespace CP.Props
open CP.Spec FOps
noncomputable section

variable {Dd A : FloatSystem} {u : ℝ}

theorem pow4_le {u : ℝ} (hu : 0 ≤ u) (hu8 : u ≤ 1 / 8) : (1 + u) ^ 4 - 1 ≤ 5 * u := by
  have h2 : u * u ≤ 1 / 8 * u := mul_le_mul_of_nonneg_right hu8 hu
  have h3 : u * (u * u) ≤ 1 / 8 * (u * u) := mul_le_mul_of_nonneg_right hu8 (mul_nonneg hu hu)
  have h4 : u * (u * (u * u)) ≤ 1 / 8 * (u * (u * u)) := mul_le_mul_of_nonneg_right hu8 (mul_nonneg hu (mul_nonneg hu hu))
  have e : (1 + u) ^ 4 - 1 = 4 * u + 6 * (u * u) + 4 * (u * (u * u)) + u * (u * (u * u)) := by ring
  rw [e]; linarith

theorem ok_eighth (h : A.f.OK) : A.OK (1 / 8) where
  fmt := h
  u_ge := by
    have : (2 : ℝ) ^ (-(A.f.p : ℤ)) ≤ (2 : ℝ) ^ (-3 : ℤ) := zpow_le_zpow_right₀ (by norm_num) (by have := h.hp; omega)
    exact this.trans (by norm_num)
  u_le := le_rfl

/-- The explicit form of the bound. -/
theorem mns_explicit4 {u P K A w S : ℝ} {N : ℕ} (hu : 0 ≤ u) (hu8 : u ≤ 1 / 8) (hP : 0 < P) (hPK : P ≤ K)
    (h1 : 4 * (N * u) * K ≤ P) (hS : 4 ≤ S) (h2 : u * S ≤ 1 / 16)
    (hA : A = ((1 + u) ^ N - 1) * K) (hw : w = ((1 + u) ^ 4 - 1) * (S - 1)) :
    A ≤ P / 2 ∧ A + (Real.exp w * (1 + u) - 1) * (P + A) ≤ 2 * (N * u) * K + 16 * u * S * P := by
  have hK : 0 < K := lt_of_lt_of_le hP hPK
  have hNu : 0 ≤ (N : ℝ) * u := mul_nonneg (Nat.cast_nonneg _) hu
  have hNu4 : 4 * ((N : ℝ) * u) ≤ 1 := by
    have : 4 * (N * u) * K ≤ 1 * K := by linarith
    exact le_of_mul_le_mul_right this hK
  have hpow : (1 + u) ^ N - 1 ≤ 2 * (N * u) := by
    have h := Real.add_one_le_exp u
    have h3 : (1 + u) ^ N ≤ Real.exp u ^ N := pow_le_pow_left₀ (by linarith) (by linarith) N
    rw [← Real.exp_nat_mul] at h3
    have := exp_le_lin hNu (by linarith)
    linarith
  have hA2 : A ≤ 2 * (N * u) * K := by rw [hA]; exact mul_le_mul_of_nonneg_right hpow hK.le
  have hAP : A ≤ P / 2 := by linarith
  have hA0 : 0 ≤ A := by
    rw [hA]; exact mul_nonneg (by linarith [one_le_pow₀ (show (1 : ℝ) ≤ 1 + u by linarith) (n := N)]) hK.le
  refine ⟨hAP, ?_⟩
  have hc : (1 + u) ^ 4 - 1 ≤ 5 * u := pow4_le hu hu8
  have hc0 : 0 ≤ (1 + u) ^ 4 - 1 := by linarith [one_le_pow₀ (show (1 : ℝ) ≤ 1 + u by linarith) (n := 4)]
  have hw1 : w ≤ 5 * u * (S - 1) := by rw [hw]; exact mul_le_mul_of_nonneg_right hc (by linarith)
  have hw0 : 0 ≤ w := by rw [hw]; exact mul_nonneg hc0 (by linarith)
  have hw4 : w ≤ 5 / 16 := by nlinarith
  have he := exp_le_lin hw0 (by linarith)
  have h5 : Real.exp w * (1 + u) - 1 ≤ 10 * u * S := by
    have h6 : Real.exp w * (1 + u) ≤ (1 + 2 * w) * (1 + u) := mul_le_mul_of_nonneg_right he (by linarith)
    have h7 : 2 * w * u ≤ u := by nlinarith
    have h8 : 2 * w ≤ 10 * u * (S - 1) := by linarith
    have h9 : 10 * u * (S - 1) = 10 * u * S - 10 * u := by ring
    have h10 : (1 + 2 * w) * (1 + u) = 1 + 2 * w + u + 2 * w * u := by ring
    linarith
  have h0 : 0 ≤ 10 * u * S := by positivity
  have h6 : (Real.exp w * (1 + u) - 1) * (P + A) ≤ 10 * u * S * (P + A) := mul_le_mul_of_nonneg_right h5 (by linarith)
  have h7 : 10 * u * S * (P + A) ≤ 10 * u * S * (3 / 2 * P) := mul_le_mul_of_nonneg_left (by linarith) h0
  have h8 : 0 ≤ u * S * P := mul_nonneg (mul_nonneg hu (by linarith)) hP.le
  nlinarith

/-- C68: `ecdf1_mns2016_b` as compiled, with boundaries in an IEEE format `Dd` and arithmetic in a wider one `A` (any rounding rule for ties,
gradual underflow, overflow), where the compiler may reorder the sum in `evaluate` and the exponent, use fused multiply-add, multiply by
reciprocals, and expand `pow(x, i)`; `q` bounds the roundings of `pow`, `e` the additional roundings of the reordered sum.  `K` is the
condition number of the boundary (at most `1.618^(n+2)`, C58), `P` the true probability, `D` the effect of underflow.  If no overflow is
possible and `2 N u (K + D)` is at most a quarter of `P`, the number before the conversion to `Dd` is finite and within
`2 N u (K + D) + 16 u S P + 2^emin` of `P`, where `2 N = n^2 + (13 + 2q + 2e) n + 2q + 2e + 8`. -/
theorem C68_ieee (hDf : Dd.f.OK) (hsub : Dd.f.Sub A.f) (h : A.OK u) (h4 : (2 : ℝ) ^ (-(A.f.p : ℤ)) ≤ u / 4) (hpm : (A.f.p : ℤ) < A.f.emax) (env : Env (Num Dd)) {n N q e : ℕ}
    (hN : 2 * N = n ^ 2 + (13 + 2 * (q + e)) * n + 2 * (q + e) + 8)
    {c : MnsCode (Num A)} (hleg : MnsCode.Legal c e) (hacc : MnsIeee A u q n c) (hL : LibmAccurate A u n) (hn : n ^ 2 + 2 ≤ 2 ^ A.f.p)
    (hunder : 64 * 4 ^ n * n.factorial * (2 : ℝ) ^ A.f.emin ≤ u) (hover : 2 ^ (n + 4) * (n.factorial : ℝ) ≤ (2 : ℝ) ^ (A.f.emax - 2))
    {b : Fin n → Num Dd} (hbf : ∀ i, (b i).finite) (hb : ValidBound fun i => (b i).val)
    {P K D S : ℝ} (hPd : P = lowerProb fun i => (b i).val) (hP : 0 < P) (hK : K = mnsCond fun i => (b i).val)
    (hD : D = 42 * 4 ^ n * n.factorial * (2 : ℝ) ^ A.f.emin / u) (hS : S = 3 * Real.log n.factorial + |Real.log P| + 5)
    (h1 : 8 * (N * u) * (K + D) ≤ P) (h2 : u * S ≤ 1 / 16) :
    ∃ x : Num A, ecdf1Mns2016bXFast c (ieeeConv Dd A) env (List.ofFn b) = .ok (convert A Dd x) ∧ x.finite ∧
      |x.val - P| ≤ 2 * (N * u) * (K + D) + 16 * u * S * P + (2 : ℝ) ^ A.f.emin := by
  have hu := h.u_pos
  have hu8 := h.u_le
  have hut := u_mul_thU h
  have hpos : (0 : ℝ) < (2 : ℝ) ^ A.f.emin := by positivity
  have hD0 : 0 ≤ D := by rw [hD]; positivity
  have hPK : P ≤ K := by rw [hPd, hK]; exact prob_le_cond hb
  have hS4 : 4 ≤ S := by
    rw [hS]
    have := Real.log_natCast_nonneg n.factorial
    have := abs_nonneg (Real.log P)
    linarith
  obtain ⟨q', hq'⟩ : ∃ q', q' = q + 2 + e := ⟨_, rfl⟩
  have eN : N = Exq q' n + n + q' + 2 := by
    have := exq_closed q' n
    have h3 : 2 * (Exq q' n + n + q' + 2) = n ^ 2 + (13 + 2 * (q + e)) * n + 2 * (q + e) + 8 := by
      rw [show 2 * (Exq q' n + n + q' + 2) = 2 * Exq q' n + 2 * n + 2 * q' + 4 by ring, this, hq']; ring
    omega
  have eD : D = thU A u * (42 * 4 ^ n * (n.factorial : ℝ)) := by rw [hD]; unfold thU; ring
  have hNu0 : 0 ≤ (N : ℝ) * u := mul_nonneg (Nat.cast_nonneg _) hu.le
  have hKD : 0 < K + D := by linarith
  have hNu : 8 * ((N : ℝ) * u) ≤ 1 := by
    have : 8 * (N * u) * (K + D) ≤ 1 * (K + D) := by linarith
    exact le_of_mul_le_mul_right this hKD
  obtain ⟨A', hA'⟩ : ∃ A', A' = ((1 + u) ^ N - 1) * (K + D) := ⟨_, rfl⟩
  have hA4 : A' ≤ P / 4 := by
    have h3 := pow_sub_one_le hu.le (N := N) (by linarith)
    have h4 : A' ≤ 2 * (N * u) * (K + D) := by rw [hA']; exact mul_le_mul_of_nonneg_right h3 hKD.le
    linarith
  obtain ⟨w, hw⟩ : ∃ w, w = ((1 + u) ^ 4 - 1) * (S - 1) := ⟨_, rfl⟩
  have hexp := (mns_explicit4 hu.le hu8 hP (show P ≤ K + D by linarith) (by
    have := mul_nonneg hNu0 hKD.le
    linarith) hS4 h2 hA' hw).2
  have hw1 : w ≤ 1 := by
    have hc : (1 + u) ^ 4 - 1 ≤ 5 * u := pow4_le hu.le hu8
    have : w ≤ 5 * u * (S - 1) := by rw [hw]; exact mul_le_mul_of_nonneg_right hc (by linarith)
    linarith
  have hpO : (2 : ℝ) ^ (A.f.p : ℤ) ≤ (2 : ℝ) ^ (A.f.emax - 1) := zpow_le_zpow_right₀ (by norm_num) (by omega)
  have hu2 : 1 / u ≤ (2 : ℝ) ^ (A.f.p : ℤ) := by
    rw [div_le_iff₀ hu]
    have h3 := mul_le_mul_of_nonneg_left h.u_ge (show (0 : ℝ) ≤ (2 : ℝ) ^ (A.f.p : ℤ) by positivity)
    rwa [← zpow_add₀ (by norm_num), add_neg_cancel, zpow_zero] at h3
  have hOO : (2 : ℝ) ^ (A.f.emax - 1) = 2 * (2 : ℝ) ^ (A.f.emax - 2) := by
    rw [show A.f.emax - 1 = 1 + (A.f.emax - 2) by ring, zpow_add₀ (by norm_num), zpow_one]
  have hSO : 2 * (S - 1) ≤ (2 : ℝ) ^ (A.f.emax - 2) := by
    have h3 : S ≤ 1 / 16 / u := by rw [le_div_iff₀ hu, mul_comm]; exact h2
    have h4 : 1 / 16 / u = 1 / 16 * (1 / u) := by ring
    rw [h4] at h3
    linarith
  have ops := ieeeMnsOps h h4 hacc hL hn (by
    refine le_trans ?_ hpO
    rw [zpow_natCast]
    exact_mod_cast hn) (by
    have h3 := four_pow_lin n
    have h5 := fact_one_le n
    have h6 : (n : ℝ) * 8 ≤ 64 * 4 ^ n * (n.factorial : ℝ) := by
      have : 64 * (4 : ℝ) ^ n * 1 ≤ 64 * 4 ^ n * (n.factorial : ℝ) := mul_le_mul_of_nonneg_left h5 (by positivity)
      have : (0 : ℝ) ≤ n := Nat.cast_nonneg n
      linarith
    have := mul_le_mul_of_nonneg_right h6 hpos.le
    linarith)
  obtain ⟨x, hx, hxf, hxe⟩ := mnsF_bnd ops hleg hq' (ieeeConv Dd A) env (b := b)
    (check_valid_float (R := ieeeModel Dd (1 / 8) (ok_eighth hDf)) hbf hb "b" _ (by simp)) (rb := fun i => (b i).val)
    (fun i => by
      obtain ⟨z, hz, ez⟩ := hbf i
      show (convert Dd A (b i)).finite ∧ (convert Dd A (b i)).val = (b i).val
      rw [ez, convert_fin hsub]
      exact ⟨⟨_, _, rfl⟩, rfl⟩)
    (fun i => by
      obtain ⟨z, hz, ez⟩ := hbf i
      show (convert Dd A (neg (b i))).finite ∧ (convert Dd A (neg (b i))).val = - (b i).val
      have hz' : Dd.f.Fin (-z) := ⟨hz.1.neg, by rw [abs_neg]; exact hz.2⟩
      have en : (neg (mkNum Dd z hz) : Num Dd) = mkNum Dd (-z) hz' := rfl
      rw [ez, en, convert_fin hsub hz']
      exact ⟨⟨_, _, rfl⟩, rfl⟩) hb (hPd ▸ hP)
    (by
      have h3 : thU A u * (64 * 4 ^ n * (n.factorial : ℝ)) = 64 * 4 ^ n * n.factorial * (2 : ℝ) ^ A.f.emin / u := by unfold thU; ring
      rw [h3, div_le_one hu]; exact hunder)
    hover (A := A') (by rw [hA', eN, eD, hK]) (by rw [← hPd]; exact hA4)
    (w := w) (by rw [hw, hS, ← hPd]; ring) hw1 (by
      rw [← hPd]
      refine le_trans (le_of_eq ?_) hSO
      rw [hS]; ring)
  refine ⟨x, hx, hxf, ?_⟩
  rw [← hPd, hut] at hxe
  refine hxe.trans ?_
  linarith

/-- The bound with numbers: up to `M` points, probability at least `p0`. -/
theorem fast_mns_num (hDf : Dd.f.OK) (hsub : Dd.f.Sub A.f) (h : A.OK u) (h4 : (2 : ℝ) ^ (-(A.f.p : ℤ)) ≤ u / 4) (hu64 : (2 : ℝ) ^ (-64 : ℤ) ≤ u) (hpm : (A.f.p : ℤ) < A.f.emax) (env : Env (Num Dd)) {n M N q ex e : ℕ} (hnM : n ≤ M)
    (hN : 2 * N = M ^ 2 + (13 + 2 * (q + ex)) * M + 2 * (q + ex) + 8)
    {c : MnsCode (Num A)} (hleg : MnsCode.Legal c ex) (hacc : MnsIeee A u q n c) (hL : LibmAccurate A u n) (hp : M ^ 2 + 2 ≤ 2 ^ A.f.p)
    (hfac : 64 * 4 ^ M * M.factorial ≤ 2 ^ e) (he : A.f.emin + e ≤ -100) (he2 : (e : ℤ) + 1 < A.f.emax)
    {Kc p0 : ℝ} (hKc : (81 / 50 : ℝ) ^ (M + 2) ≤ Kc) (hp0 : 0 < p0) (h1 : 8 * (N * u) * (Kc + 1) ≤ p0)
    (h2 : u * (3 * (M : ℝ) ^ 2 + 6 + 1 / p0) ≤ 1 / 16)
    {b : Fin n → Num Dd} (hbf : ∀ i, (b i).finite) (hb : ValidBound fun i => (b i).val) (hP : p0 ≤ lowerProb fun i => (b i).val) :
    ∃ x : Num A, ecdf1Mns2016bXFast c (ieeeConv Dd A) env (List.ofFn b) = .ok (convert A Dd x) ∧ x.finite ∧
      |x.val - lowerProb fun i => (b i).val| ≤ 2 * (N * u) * (Kc + 1) + 16 * u * (3 * (M : ℝ) ^ 2 + 6) + (2 : ℝ) ^ A.f.emin := by
  have hu := h.u_pos
  obtain ⟨N', hN'⟩ : ∃ N', 2 * N' = n ^ 2 + (13 + 2 * (q + ex)) * n + 2 * (q + ex) + 8 := by
    refine ⟨(n ^ 2 + (13 + 2 * (q + ex)) * n + 2 * (q + ex) + 8) / 2, Nat.mul_div_cancel' ?_⟩
    have : n ^ 2 + (13 + 2 * (q + ex)) * n + 2 * (q + ex) + 8 = n * (n + 1) + 2 * (6 * n + (q + ex) * n + (q + ex) + 4) := by ring
    rw [this]
    exact dvd_add (Nat.even_mul_succ_self n).two_dvd (Dvd.intro _ rfl)
  have hNN : N' ≤ N := by
    have a1 : n ^ 2 ≤ M ^ 2 := Nat.pow_le_pow_left hnM 2
    have a2 : (13 + 2 * (q + ex)) * n ≤ (13 + 2 * (q + ex)) * M := Nat.mul_le_mul_left _ hnM
    omega
  obtain ⟨P, hPd⟩ : ∃ P, P = lowerProb fun i => (b i).val := ⟨_, rfl⟩
  obtain ⟨K, hKd⟩ : ∃ K, K = mnsCond fun i => (b i).val := ⟨_, rfl⟩
  rw [← hPd] at hP ⊢
  have hP0 : 0 < P := lt_of_lt_of_le hp0 hP
  have hP1 : P ≤ 1 := by rw [hPd]; exact measureReal_le_one
  have hK : K ≤ Kc := by
    rw [hKd]
    refine ((mnsCond_le hb).trans ?_).trans hKc
    calc Real.goldenRatio ^ (n + 2) ≤ Real.goldenRatio ^ (M + 2) := pow_le_pow_right₀ Real.one_lt_goldenRatio.le (by omega)
      _ ≤ (81 / 50 : ℝ) ^ (M + 2) := pow_le_pow_left₀ Real.goldenRatio_pos.le golden_lt.le _
  have hK0 : 0 ≤ K := by rw [hPd] at hP0; rw [hKd]; exact hP0.le.trans (prob_le_cond hb)
  have hfn : 64 * 4 ^ n * n.factorial ≤ 2 ^ e := by
    refine le_trans (Nat.mul_le_mul (Nat.mul_le_mul_left _ (Nat.pow_le_pow_right (by norm_num) hnM)) (Nat.factorial_le hnM)) hfac
  have hfnr : 64 * 4 ^ n * (n.factorial : ℝ) ≤ (2 : ℝ) ^ (e : ℤ) := by rw [zpow_natCast]; exact_mod_cast hfn
  have hund : 64 * 4 ^ n * (n.factorial : ℝ) * (2 : ℝ) ^ A.f.emin ≤ (2 : ℝ) ^ (-100 : ℤ) := by
    refine (mul_le_mul_of_nonneg_right hfnr (by positivity)).trans ?_
    rw [← zpow_add₀ (by norm_num)]
    exact zpow_le_zpow_right₀ (by norm_num) (by omega)
  have h100 : (2 : ℝ) ^ (-100 : ℤ) ≤ u := le_trans (zpow_le_zpow_right₀ (by norm_num) (by norm_num)) hu64
  obtain ⟨D, hDd⟩ : ∃ D, D = 42 * 4 ^ n * n.factorial * (2 : ℝ) ^ A.f.emin / u := ⟨_, rfl⟩
  have hpos : (0 : ℝ) ≤ 4 ^ n * n.factorial * (2 : ℝ) ^ A.f.emin := by positivity
  have hD0 : 0 ≤ D := by rw [hDd]; positivity
  have hD1 : D ≤ 1 := by
    rw [hDd, div_le_one hu]
    refine le_trans ?_ (hund.trans h100)
    linarith
  have hNr : (N' : ℝ) ≤ N := by exact_mod_cast hNN
  have hNK : (N' * u) * (K + D) ≤ (N * u) * (Kc + 1) :=
    mul_le_mul (mul_le_mul_of_nonneg_right hNr hu.le) (by linarith) (by linarith) (by positivity)
  have hlogP : |Real.log P| * P ≤ 1 := by
    have h1 : Real.log P ≤ 0 := Real.log_nonpos hP0.le hP1
    rw [abs_of_nonpos h1, ← Real.log_inv]
    have h2 := Real.log_le_sub_one_of_pos (inv_pos.mpr hP0)
    calc Real.log P⁻¹ * P ≤ P⁻¹ * P := mul_le_mul_of_nonneg_right (by linarith) hP0.le
      _ = 1 := inv_mul_cancel₀ hP0.ne'
  have hlogP2 : |Real.log P| ≤ 1 / p0 := by
    rw [le_div_iff₀ hp0]
    exact (mul_le_mul_of_nonneg_left hP (abs_nonneg _)).trans hlogP
  have hLM : Real.log n.factorial ≤ (M : ℝ) ^ 2 := by
    refine (log_fact_le n).trans ?_
    exact pow_le_pow_left₀ (Nat.cast_nonneg n) (by exact_mod_cast hnM) 2
  have hL0 := Real.log_natCast_nonneg n.factorial
  obtain ⟨S, hSd⟩ : ∃ S, S = 3 * Real.log n.factorial + |Real.log P| + 5 := ⟨_, rfl⟩
  obtain ⟨x, hx, hxf, hxe⟩ := C68_ieee hDf hsub h h4 hpm env hN' hleg hacc hL (le_trans (by have := Nat.pow_le_pow_left hnM 2; omega) hp)
    (hund.trans h100) (by
      have h3 : (2 : ℝ) ^ (n + 4) ≤ 64 * 4 ^ n := by
        have : (2 : ℝ) ^ n ≤ 4 ^ n := pow_le_pow_left₀ (by norm_num) (by norm_num) n
        have h4 : (0 : ℝ) < 4 ^ n := by positivity
        rw [pow_add]; linarith only [this, h4]
      refine le_trans (mul_le_mul_of_nonneg_right h3 (Nat.cast_nonneg _)) (hfnr.trans ?_)
      exact zpow_le_zpow_right₀ (by norm_num) (by omega)) hbf hb hPd hP0 hKd hDd hSd (by linarith) (by
      refine le_trans (mul_le_mul_of_nonneg_left ?_ hu.le) h2
      rw [hSd]; linarith)
  refine ⟨x, hx, hxf, hxe.trans ?_⟩
  have hSP : S * P ≤ 3 * (M : ℝ) ^ 2 + 6 := by
    have h5 : (3 * Real.log n.factorial + 5) * P ≤ (3 * (M : ℝ) ^ 2 + 5) * 1 :=
      mul_le_mul (by linarith) hP1 hP0.le (by positivity)
    rw [hSd]; linarith
  have h6 : 16 * u * S * P ≤ 16 * u * (3 * (M : ℝ) ^ 2 + 6) := by
    rw [mul_assoc]; exact mul_le_mul_of_nonneg_left hSP (by positivity)
  linarith


theorem legal_mono {G : Type} [FOps G] {c : MnsCode G} {e e' : ℕ} (h : MnsCode.Legal c e) (he : e ≤ e') : MnsCode.Legal c e' :=
  ⟨h.sum, fun s d => (h.height s d).trans (by omega), h.coeffs, h.uses⟩

/-- From the `long double` result to the `double` result, with numbers. -/
theorem fast_long_num (hD : Dd.f = binary64) (hA : LongDoubleFormat A.f) (env : Env (Num Dd)) {n M N q ex e : ℕ} (hnM : n ≤ M)
    (hN : 2 * N = M ^ 2 + (13 + 2 * (q + ex)) * M + 2 * (q + ex) + 8)
    {c : MnsCode (Num A)} (hleg : MnsCode.Legal c ex) (hacc : MnsIeee A u61 q n c) (hL : LibmAccurate A u61 n) (hp : M ^ 2 + 2 ≤ 2 ^ 64)
    (hfac : 64 * 4 ^ M * M.factorial ≤ 2 ^ e) (he : e ≤ 16000)
    {Kc p0 E : ℝ} (hKc : (81 / 50 : ℝ) ^ (M + 2) ≤ Kc) (hp0 : 0 < p0) (h1 : 8 * (N * u61) * (Kc + 1) ≤ p0)
    (h2 : u61 * (3 * (M : ℝ) ^ 2 + 6 + 1 / p0) ≤ 1 / 16)
    (hE : 2 * (N * u61) * (Kc + 1) + 16 * u61 * (3 * (M : ℝ) ^ 2 + 6) + 1 / 10 ^ 30 ≤ E) (hE1 : E ≤ 1)
    {b : Fin n → Num Dd} (hbf : ∀ i, (b i).finite) (hb : ValidBound fun i => (b i).val) (hP : p0 ≤ lowerProb fun i => (b i).val) :
    ∃ x : Num Dd, ecdf1Mns2016bXFast c (ieeeConv Dd A) env (List.ofFn b) = .ok x ∧ x.finite ∧
      |x.val - lowerProb fun i => (b i).val| ≤ E + 3 * (2 : ℝ) ^ (-53 : ℤ) := by
  have hDok : Dd.f.OK := hD ▸ binary64_ok
  have hP1 : (lowerProb fun i => (b i).val) ≤ 1 := measureReal_le_one
  have h64 : 64 ≤ A.f.p := hA.sub.p
  have hemax : 16384 ≤ A.f.emax := hA.sub.emax
  have hemin : A.f.emin ≤ -16445 := hA.sub.emin
  obtain ⟨y, hy, ⟨z, hz, rfl⟩, hye⟩ := fast_mns_num hDok (double_sub_long hD hA) (long_ok hA) (by
      have h3 : (2 : ℝ) ^ (-(A.f.p : ℤ)) ≤ (2 : ℝ) ^ (-63 : ℤ) := zpow_le_zpow_right₀ (by norm_num) (by omega)
      refine h3.trans ?_
      unfold u61; norm_num)
    (by unfold u61; exact zpow_le_zpow_right₀ (by norm_num) (by norm_num)) hA.range
    env hnM hN hleg hacc hL (hp.trans (Nat.pow_le_pow_right (by norm_num) h64)) hfac (by omega) (by omega) hKc hp0 h1 h2 hbf hb hP
  have hye' : |z - lowerProb fun i => (b i).val| ≤ E := by
    have := long_emin hA
    have h3 : |z - lowerProb fun i => (b i).val| ≤ _ := hye
    linarith
  have hP0 : 0 ≤ lowerProb fun i => (b i).val := hp0.le.trans hP
  have hc2 : |z| ≤ 2 := by
    have := abs_sub_abs_le_abs_sub z (lowerProb fun i => (b i).val)
    rw [abs_of_nonneg hP0] at this
    linarith
  have hO := one_le_Omega (A := Dd) hDok
  obtain ⟨k1, k2⟩ := roundNum_abs (double_ok53 hD) (x := z) (hc2.trans hO)
  refine ⟨roundNum Dd z, hy, k1, ?_⟩
  have h1 := abs_sub_le (roundNum Dd z).val z (lowerProb fun i => (b i).val)
  have h2 : (2 : ℝ) ^ (-53 : ℤ) * |z| ≤ (2 : ℝ) ^ (-53 : ℤ) * 2 := mul_le_mul_of_nonneg_left hc2 (by positivity)
  have h3 : (2 : ℝ) ^ (Dd.f.emin - 1) ≤ (2 : ℝ) ^ (-53 : ℤ) := by
    rw [hD]; exact zpow_le_zpow_right₀ (by norm_num) (by norm_num [binary64])
  linarith

/-- C68: `ecdf1_mns2016_b` as compiled with `-ffast-math`, with IEEE doubles outside and inside a `long double` of at least the x87 extended
format, whose library is accurate to `2^-61` and whose code for `pow(x, i)` may be `i` multiplications; the sum in `evaluate` may be in any
order with up to 100 additional roundings.  For every valid lower boundary of up to 20 doubles whose probability is at least `1e-9`, the
result is a finite double within `2e-10` of the probability. -/
theorem C68_long_double_20 (hD : Dd.f = binary64) (hA : LongDoubleFormat A.f) {n : ℕ} (hn : n ≤ 20) {c : MnsCode (Num A)} {ex : ℕ}
    (hex : ex ≤ 100) (hleg : MnsCode.Legal c ex) (hacc : MnsIeee A u61 20 n c) (hL : LibmAccurate A u61 n)
    (env : Env (Num Dd)) {b : Fin n → Num Dd} (hbf : ∀ i, (b i).finite)
    (hb : ValidBound fun i => (b i).val) (hP : 1 / 10 ^ 9 ≤ lowerProb fun i => (b i).val) :
    ∃ x : Num Dd, ecdf1Mns2016bXFast c (ieeeConv Dd A) env (List.ofFn b) = .ok x ∧ x.finite ∧
      |x.val - lowerProb fun i => (b i).val| ≤ 2 / 10 ^ 10 := by
  obtain ⟨x, hx, hxf, hxe⟩ := fast_long_num hD hA env (M := 20) (N := 2854) (q := 20) (ex := 100) (e := 200) hn (by norm_num)
    (legal_mono hleg hex) hacc hL (by norm_num)
    (by norm_num [Nat.factorial]) (by norm_num) (Kc := 40700) (p0 := 1 / 10 ^ 9) (E := 19 / 10 ^ 11) (by norm_num) (by norm_num)
    (by rw [u61_val]; norm_num) (by rw [u61_val]; norm_num) (by rw [u61_val]; norm_num) (by norm_num) hbf hb hP
  exact ⟨x, hx, hxf, hxe.trans (by norm_num)⟩

/-- C68: up to 30 doubles, probability at least `1e-7`: within `3e-8`. -/
theorem C68_long_double_30 (hD : Dd.f = binary64) (hA : LongDoubleFormat A.f) {n : ℕ} (hn : n ≤ 30) {c : MnsCode (Num A)} {ex : ℕ}
    (hex : ex ≤ 100) (hleg : MnsCode.Legal c ex) (hacc : MnsIeee A u61 30 n c) (hL : LibmAccurate A u61 n)
    (env : Env (Num Dd)) {b : Fin n → Num Dd} (hbf : ∀ i, (b i).finite)
    (hb : ValidBound fun i => (b i).val) (hP : 1 / 10 ^ 7 ≤ lowerProb fun i => (b i).val) :
    ∃ x : Num Dd, ecdf1Mns2016bXFast c (ieeeConv Dd A) env (List.ofFn b) = .ok x ∧ x.finite ∧
      |x.val - lowerProb fun i => (b i).val| ≤ 3 / 10 ^ 8 := by
  obtain ⟨x, hx, hxf, hxe⟩ := fast_long_num hD hA env (M := 30) (N := 4679) (q := 30) (ex := 100) (e := 200) hn (by norm_num)
    (legal_mono hleg hex) hacc hL (by norm_num)
    (by norm_num [Nat.factorial]) (by norm_num) (Kc := 5100000) (p0 := 1 / 10 ^ 7) (E := 29 / 10 ^ 9) (by norm_num) (by norm_num)
    (by rw [u61_val]; norm_num) (by rw [u61_val]; norm_num) (by rw [u61_val]; norm_num) (by norm_num) hbf hb hP
  exact ⟨x, hx, hxf, hxe.trans (by norm_num)⟩

/-- `ecdf1_mns2016_B` on a valid boundary is `ecdf1_mns2016_b` on the reflected one. -/
theorem mnsBXFast_eq (hD : Dd.f = binary64) (c : MnsCode (Num A)) (L : LongDouble (Num Dd) (Num A)) (env : Env (Num Dd)) {n : ℕ} {B : Fin n → Num Dd}
    (hBf : ∀ i, (B i).finite) (hB : ValidBound fun i => (B i).val) :
    ecdf1Mns2016BXFast c L env (List.ofFn B) = ecdf1Mns2016bXFast c L env (List.ofFn (flipF B)) := by
  unfold ecdf1Mns2016BXFast
  dsimp only
  rw [check_valid_float (R := ieeeModel Dd _ (double_ok53 hD)) hBf hB "B" _ (by simp), M_ok_bind, symmetricSteps_ofFn, M_ok_bind]

/-- C68: the same for upper boundaries: `ecdf1_mns2016_B` reflects the boundary in `double`. -/
theorem C68_long_double_B_20 (hD : Dd.f = binary64) (hA : LongDoubleFormat A.f) {n : ℕ} (hn : n ≤ 20) {c : MnsCode (Num A)} {ex : ℕ}
    (hex : ex ≤ 100) (hleg : MnsCode.Legal c ex) (hacc : MnsIeee A u61 20 n c) (hL : LibmAccurate A u61 n)
    (env : Env (Num Dd)) {B : Fin n → Num Dd} (hBf : ∀ i, (B i).finite)
    (hB : ValidBound fun i => (B i).val) (hP : 2 / 10 ^ 9 ≤ upperProb fun i => (B i).val) :
    ∃ x : Num Dd, ecdf1Mns2016BXFast c (ieeeConv Dd A) env (List.ofFn B) = .ok x ∧ x.finite ∧
      |x.val - upperProb fun i => (B i).val| ≤ 3 / 10 ^ 10 := by
  obtain ⟨f1, f2, f3⟩ := double_reflect hD hBf hB
  have h4 := sq_53_le hn (c := 1 / 10 ^ 12) (by norm_num)
  have h5 := abs_le.mp (f3.trans h4)
  obtain ⟨x, hx, hxf, hxe⟩ := C68_long_double_20 hD hA hn hex hleg hacc hL env f1 f2 (by norm_num at hP h5 ⊢; linarith)
  refine ⟨x, (mnsBXFast_eq hD c _ env hBf hB).trans hx, hxf, ?_⟩
  have := abs_sub_le x.val (lowerProb fun i => (flipF B i).val) (upperProb fun i => (B i).val)
  refine this.trans ((add_le_add hxe (f3.trans h4)).trans ?_)
  norm_num

/-- C68: upper boundaries of up to 30 doubles. -/
theorem C68_long_double_B_30 (hD : Dd.f = binary64) (hA : LongDoubleFormat A.f) {n : ℕ} (hn : n ≤ 30) {c : MnsCode (Num A)} {ex : ℕ}
    (hex : ex ≤ 100) (hleg : MnsCode.Legal c ex) (hacc : MnsIeee A u61 30 n c) (hL : LibmAccurate A u61 n)
    (env : Env (Num Dd)) {B : Fin n → Num Dd} (hBf : ∀ i, (B i).finite)
    (hB : ValidBound fun i => (B i).val) (hP : 2 / 10 ^ 7 ≤ upperProb fun i => (B i).val) :
    ∃ x : Num Dd, ecdf1Mns2016BXFast c (ieeeConv Dd A) env (List.ofFn B) = .ok x ∧ x.finite ∧
      |x.val - upperProb fun i => (B i).val| ≤ 4 / 10 ^ 8 := by
  obtain ⟨f1, f2, f3⟩ := double_reflect hD hBf hB
  have h4 := sq_53_le hn (c := 1 / 10 ^ 12) (by norm_num)
  have h5 := abs_le.mp (f3.trans h4)
  obtain ⟨x, hx, hxf, hxe⟩ := C68_long_double_30 hD hA hn hex hleg hacc hL env f1 f2 (by norm_num at hP h5 ⊢; linarith)
  refine ⟨x, (mnsBXFast_eq hD c _ env hBf hB).trans hx, hxf, ?_⟩
  have := abs_sub_le x.val (lowerProb fun i => (flipF B i).val) (upperProb fun i => (B i).val)
  refine this.trans ((add_le_add hxe (f3.trans h4)).trans ?_)
  norm_num

end
end CP.Props
