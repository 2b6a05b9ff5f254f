import Verif.Proofs.SharpLibm
import Verif.Proofs.FastIeee
/-! The sharper analysis of `ecdf2` as compiled with `-ffast-math`, in IEEE-754 arithmetic. -/
open MeasureTheory Set
namespace CP.Spec
open FOps CP.Props
noncomputable section
variable {A : FloatSystem} {u : ℝ}

/-- The Poisson probabilities of the compiled code in IEEE-754 arithmetic, for points at distance at least `gap` from each other. -/
theorem sharp_ieee_pmf (h : A.OK u) {c : FastCode (Num A)} (hc : FastIeee A u c) {ex : ℕ} (hleg : FastCode.Legal c ex) {n : ℕ} (hn : 1 ≤ n)
    (hL : LibmAccurate A u n) (hnp : n + 1 ≤ 2 ^ A.f.p) {S : Set (Num A)}
    {gap : ℝ} (hγ0 : 0 < gap) (hγ1 : gap ≤ 1)
    (hgap : ∀ x ∈ S, ∀ y ∈ S, x.finite → y.finite → 0 ≤ x.val → x.val < y.val → y.val ≤ 1 → gap ≤ y.val - x.val)
    {P Q : ℕ} (hP : 5 * (Real.log n + Real.log (1 / gap)) + 5 * Real.log n + 4 ≤ P) (hQ : Q = 8 * n + n * P)
    (hQO : 2 * (Q : ℝ) ≤ (2 : ℝ) ^ (A.f.emax - 1)) (hQu : (Q + 1 : ℕ) * u ≤ 1 / 2) (hmin : A.f.minNormal * (2 * (Real.exp 1 * √n)) ≤ 1)
    (hEO : 2 * (Real.exp 1 * √n) ≤ (2 : ℝ) ^ (A.f.emax - 1)) :
    SharpPmf (ieeeModel A u h) c S n P ((2 : ℝ) ^ A.f.emin) ∧ (ieeeModel A u h).g ^ (Q + 1) / poissonProb n n ≤ (ieeeModel A u h).Omega := by
  have hnr : (1 : ℝ) ≤ n := by exact_mod_cast hn
  have hln : 0 ≤ Real.log n := Real.log_nonneg hnr
  have hlg : 0 ≤ Real.log (1 / gap) := Real.log_nonneg (by rw [le_div_iff₀ hγ0]; linarith)
  have hlf := Real.log_natCast_nonneg n.factorial
  have hLam0 : 0 ≤ (n : ℝ) * (Real.log n + Real.log (1 / gap)) := by positivity
  have hQr : (n : ℝ) * (5 * (Real.log n + Real.log (1 / gap)) + 5 * Real.log n + 4) + 8 * n ≤ Q := by
    rw [hQ]
    push_cast
    have := mul_le_mul_of_nonneg_left hP (by linarith : (0 : ℝ) ≤ n)
    linarith
  have hsl := sharp_log_fact n
  have hu0 := h.u_pos.le
  have hg2 : gU u ^ (Q + 1) ≤ 2 := (gU_pow_le hu0 hQu).trans (by linarith)
  have hg1 := one_le_gU hu0 (by linarith [h.u_le])
  have hgQ : gU u ^ Q ≤ 2 := (pow_le_pow_right₀ hg1 (by omega)).trans hg2
  have hO := one_le_Omega h.fmt
  have hpp : 0 < poissonProb n n := by unfold poissonProb; positivity
  have h5 := inv_poissonProb_le hn
  have hdiv : (ieeeModel A u h).g ^ (Q + 1) / poissonProb n n ≤ (ieeeModel A u h).Omega := by
    change gU u ^ (Q + 1) / poissonProb n n ≤ (2 : ℝ) ^ (A.f.emax - 1)
    rw [div_eq_mul_one_div]
    exact (mul_le_mul hg2 h5 (by positivity) (by norm_num)).trans hEO
  refine ⟨sharpPmf_of_lib (ieeeLibrary h hL hnp (by linarith)) (fast_ieee_ops h hc hnp (by linarith)) hleg ?_ hn
    (Lam := Real.log n + Real.log (1 / gap)) (by linarith) ?_ (Q := Q) hP hQ ?_ hdiv ?_, hdiv⟩
  · show gU u ≤ 8 / 7
    unfold gU
    rw [div_le_div_iff₀ (by linarith [h.u_le]) (by norm_num)]
    linarith [h.u_le]
  · intro x hx y hy hxf hyf h0 hlt h1
    have hg := hgap x hx y hy hxf hyf h0 hlt h1
    change 0 ≤ x.val at h0
    change y.val ≤ 1 at h1
    change |Real.log (n * (y.val - x.val))| ≤ _
    have hd : 0 < y.val - x.val := lt_of_lt_of_le hγ0 hg
    rw [Real.log_mul (by positivity) hd.ne', abs_le]
    have h2 : Real.log gap ≤ Real.log (y.val - x.val) := Real.log_le_log hγ0 hg
    have h3 : Real.log (y.val - x.val) ≤ 0 := Real.log_nonpos hd.le (by linarith)
    have h4 : Real.log (1 / gap) = - Real.log gap := by rw [one_div, Real.log_inv]
    constructor <;> linarith
  · change 7 * (n * (Real.log n + Real.log (1 / gap)) + n + Real.log n.factorial) ≤ (2 : ℝ) ^ (A.f.emax - 1)
    linarith
  · change A.f.minNormal * gU u ^ Q ≤ _
    have h0 : 0 < A.f.minNormal := by unfold Format.minNormal; positivity
    rw [div_le_iff₀ hpp] at h5
    have h6 : A.f.minNormal * gU u ^ Q ≤ A.f.minNormal * 2 := mul_le_mul_of_nonneg_left hgQ h0.le
    have h7 : A.f.minNormal * 2 * 1 ≤ A.f.minNormal * 2 * (Real.exp 1 * √n * poissonProb n n) :=
      mul_le_mul_of_nonneg_left h5 (by linarith)
    have h8 : A.f.minNormal * 2 * (Real.exp 1 * √n * poissonProb n n) ≤ 1 * poissonProb n n := by
      have := mul_le_mul_of_nonneg_right hmin hpp.le
      refine le_trans (le_of_eq (by ring)) this
    linarith

set_option maxHeartbeats 1000000 in
/-- `ecdf2` as compiled, without FFT or below the FFT threshold, in IEEE-754 arithmetic. -/
theorem sharp_ieee_direct (h : A.OK u) {c : FastCode (Num A)} (hc : FastIeee A u c) {ex : ℕ} (hleg : FastCode.Legal c ex)
    (env : Env (Num A)) {n : ℕ} (hn : 1 ≤ n) {useFft : Bool} (hsm : useFft = false ∨ n ≤ 126) (hL : LibmAccurate A u n) (hnp : n + 1 ≤ 2 ^ A.f.p)
    {S : Set (Num A)} {gap : ℝ} (hγ0 : 0 < gap) (hγ1 : gap ≤ 1)
    (hgap : ∀ x ∈ S, ∀ y ∈ S, x.finite → y.finite → 0 ≤ x.val → x.val < y.val → y.val ≤ 1 → gap ≤ y.val - x.val)
    {b B : Fin n → Num A} (hz : zero ∈ S) (ho : one ∈ S) (hbS : ∀ i, b i ∈ S) (hBS : ∀ i, B i ∈ S)
    (hbf : ∀ i, (b i).finite) (hBf : ∀ i, (B i).finite) (hb : ValidBound fun i => (b i).val)
    (hB : ValidBound fun i => (B i).val) {sort : List (Bound (Num A)) → List (Bound (Num A))}
    (hsort : SortContractF (ieeeModel A u h) sort)
    (ha : env.asserts = false ∨ ¬ StronglyCrossed (fun i => (b i).val) (fun i => (B i).val))
    {P K : ℕ} (hP : 5 * (Real.log n + Real.log (1 / gap)) + 5 * Real.log n + 4 ≤ P)
    (hK : K = (2 * n + 1) * (n + 4 + ex) + 2 * (8 * n + n * P) + 3) (hKu : K * u ≤ 1 / 2)
    (hKO : (K : ℝ) ≤ (2 : ℝ) ^ (A.f.emax - 1)) (hmin : A.f.minNormal * (2 * (Real.exp 1 * √n)) ≤ 1)
    (hEO : 2 * (Real.exp 1 * √n) ≤ (2 : ℝ) ^ (A.f.emax - 1))
    {W : ℝ} (hW : W = 5 * (2 * n + 1) * (n + 1) * (Real.exp 1 * √n) * (2 : ℝ) ^ A.f.emin) (hW1 : W ≤ 1 / 2) :
    ∃ x : Num A, ecdf2Fast c env sort (List.ofFn b) (List.ofFn B) useFft = .ok x ∧ x.finite ∧ 0 ≤ x.val ∧
      noncrossProb (fun i => (b i).val) (fun i => (B i).val) * (1 - K * u) - W ≤ x.val ∧
      x.val * (1 - K * u) ≤ noncrossProb (fun i => (b i).val) (fun i => (B i).val) + W ∧
      (noncrossProb (fun i => (b i).val) (fun i => (B i).val) = 0 → x.val = 0) := by
  have hnr : (1 : ℝ) ≤ n := by exact_mod_cast hn
  have hu0 := h.u_pos.le
  obtain ⟨Q, hQ⟩ : ∃ Q, Q = 8 * n + n * P := ⟨_, rfl⟩
  have hQK : 2 * Q + 1 ≤ K := by rw [hK, ← hQ]; omega
  have hQKr : 2 * (Q : ℝ) + 1 ≤ K := by exact_mod_cast hQK
  obtain ⟨hpmf, hO2⟩ := sharp_ieee_pmf h hc hleg hn hL hnp hγ0 hγ1 hgap hP hQ ((by linarith : 2 * (Q : ℝ) ≤ K).trans hKO)
    ((mul_le_mul_of_nonneg_right (by push_cast; linarith [(Nat.cast_nonneg Q : (0 : ℝ) ≤ Q)] : ((Q + 1 : ℕ) : ℝ) ≤ K) hu0).trans hKu) hmin hEO
  have hE := one_le_esqrt hn
  set E := Real.exp 1 * √(n : ℝ) with hEdef
  obtain ⟨X, hX⟩ : ∃ X, X = (1 + ((n : ℝ) + 1) * ((2 : ℝ) ^ A.f.emin + (ieeeModel A u h).eta)) ^ (2 * n + 1) - 1 := ⟨_, rfl⟩
  obtain ⟨A', hA⟩ : ∃ A', A' = X / poissonProb n n + (2 + X) * (ieeeModel A u h).eta := ⟨_, rfl⟩
  have heta : (ieeeModel A u h).eta = (2 : ℝ) ^ A.f.emin / 2 := by
    show (2 : ℝ) ^ (A.f.emin - 1) = _
    rw [zpow_sub_one₀ (by norm_num)]; rfl
  obtain ⟨t, ht⟩ : ∃ t : ℝ, t = (2 : ℝ) ^ A.f.emin := ⟨_, rfl⟩
  have ht0 : 0 < t := by rw [ht]; positivity
  have hpp : 0 < poissonProb n n := by unfold poissonProb; positivity
  have hX0 : 0 ≤ X := by
    have h1 : 1 ≤ (1 + ((n : ℝ) + 1) * ((2 : ℝ) ^ A.f.emin + (ieeeModel A u h).eta)) ^ (2 * n + 1) := by
      refine one_le_pow₀ ?_
      rw [heta, ← ht]
      have : 0 ≤ ((n : ℝ) + 1) * (t + t / 2) := by positivity
      linarith
    rw [hX]; linarith
  have hA'W : A' ≤ W := by
    rw [heta, ← ht] at hX
    rw [heta, ← ht] at hA
    rw [← ht] at hW
    have hm : ((2 * n + 1 : ℕ) : ℝ) * (((n : ℝ) + 1) * (t + t / 2)) ≤ 1 / 2 := by
      push_cast
      have h1 : (2 * (n : ℝ) + 1) * ((n + 1) * (t + t / 2)) = 3 / 2 * ((2 * n + 1) * (n + 1) * t) := by ring
      have h2 : W = 5 * E * ((2 * n + 1) * (n + 1) * t) := by rw [hW]; ring
      have h3 : 0 ≤ (2 * (n : ℝ) + 1) * (n + 1) * t := by positivity
      nlinarith
    have h1 := pow_le_lin (t := ((n : ℝ) + 1) * (t + t / 2)) (by positivity) hm
    have hX1 : X ≤ 1 := by rw [hX]; linarith
    push_cast at h1
    have h5 := inv_poissonProb_le hn
    have h4 : X / poissonProb n n ≤ (2 * ((2 * n + 1) * ((n + 1) * (t + t / 2)))) * E := by
      rw [div_eq_mul_one_div]
      exact mul_le_mul (by rw [hX]; linarith) h5 (by positivity) (by positivity)
    rw [hA, hW]
    have h6 : 2 * ((2 * (n : ℝ) + 1) * ((n + 1) * (t + t / 2))) * E = 3 * (2 * n + 1) * (n + 1) * E * t := by ring
    have h7 : t ≤ (2 * (n : ℝ) + 1) * (n + 1) * E * t := by
      refine le_mul_of_one_le_left ht0.le ?_
      have : 1 ≤ (2 * (n : ℝ) + 1) * (n + 1) := by nlinarith
      nlinarith
    have h8 : (2 + X) * (t / 2) ≤ 3 * (t / 2) := mul_le_mul_of_nonneg_right (by linarith) (by linarith)
    linarith
  have hgK : gU u ^ K ≤ 2 := (gU_pow_le hu0 hKu).trans (by linarith)
  have hgK0 : 0 < gU u ^ K := by
    have := one_le_gU hu0 (by linarith [h.u_le]); positivity
  have hgKs : (1 - K * u) * gU u ^ K ≤ 1 := by
    have h1 := one_sub_le_pow hu0 (by linarith [h.u_le]) K
    have h2 : (1 - u) ^ K * gU u ^ K = 1 := by
      rw [← mul_pow]; unfold gU
      rw [mul_one_div_cancel (by linarith [h.u_le]), one_pow]
    calc _ ≤ (1 - u) ^ K * gU u ^ K := mul_le_mul_of_nonneg_right h1 hgK0.le
      _ = 1 := h2
  have hK' : K = 8 * n + (2 * n + 1) * (n + 4 + ex) + n * P + (8 * n + n * P + 1) + 2 := by rw [hK]; ring
  have hA0 : 0 ≤ A' := by
    rw [hA]
    have := (ieeeModel A u h).eta_nonneg
    positivity
  have hOm : (1 + A') * gU u ^ K ≤ (2 : ℝ) ^ (A.f.emax - 1) := by
    refine le_trans ?_ hKO
    have h3 : (9 : ℝ) ≤ K := by
      have : 9 ≤ K := by rw [hK]; nlinarith
      exact_mod_cast this
    have h4 : (1 + A') * gU u ^ K ≤ (3 / 2) * 2 := mul_le_mul (by linarith) hgK hgK0.le (by norm_num)
    linarith
  have hnK : (n : ℝ) + 1 ≤ K := by
    have : n + 1 ≤ K := by rw [hK]; nlinarith
    exact_mod_cast this
  rw [hX] at hA
  rw [hQ] at hO2
  rw [poissonProb_eq] at hA hO2
  obtain ⟨x, hx, hap⟩ := ecdf2Fast_sharp (R := ieeeModel A u h) hleg (fast_ieee_ops h hc hnp (hnK.trans hKO)) env hsm hpmf hz ho hbS hBS hbf hBf hb hB hsort ha
    (A := A') hA hn hO2 (by rw [← hK']; exact hOm)
  rw [← hK'] at hap
  have hx0 : 0 ≤ x.val := hap.nonneg
  have hl : noncrossProb (fun i => (b i).val) (fun i => (B i).val) / gU u ^ K - A' ≤ x.val := hap.lower
  have hup : x.val ≤ (noncrossProb (fun i => (b i).val) (fun i => (B i).val) + A') * gU u ^ K := hap.upper
  have hP : 0 ≤ noncrossProb (fun i => (b i).val) (fun i => (B i).val) := measureReal_nonneg
  refine ⟨x, hx, hap.fin, hx0, ?_, ?_, hap.exact0 (ieee_zeroExact A u h)⟩
  · have : noncrossProb (fun i => (b i).val) (fun i => (B i).val) * (1 - K * u)
        ≤ noncrossProb (fun i => (b i).val) (fun i => (B i).val) / gU u ^ K := by
      rw [le_div_iff₀ hgK0, mul_assoc]
      exact mul_le_of_le_one_right hP hgKs
    linarith
  · have h1 : 0 ≤ 1 - K * u := by linarith
    calc x.val * (1 - K * u) ≤ (noncrossProb (fun i => (b i).val) (fun i => (B i).val) + A') * gU u ^ K * (1 - K * u) :=
          mul_le_mul_of_nonneg_right hup h1
      _ = (noncrossProb (fun i => (b i).val) (fun i => (B i).val) + A') * ((1 - K * u) * gU u ^ K) := by ring
      _ ≤ noncrossProb (fun i => (b i).val) (fun i => (B i).val) + A' := mul_le_of_le_one_right (by linarith) hgKs
      _ ≤ _ := by linarith
end
end CP.Spec
