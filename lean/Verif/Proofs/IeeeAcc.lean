import Verif.Proofs.Ieee
import Verif.Props.RoundingNew
/-! Error bounds of the algorithms in IEEE-754 arithmetic. -/
open MeasureTheory Set
namespace CP.Spec
open FOps CP.Props
noncomputable section

variable {A : FloatSystem} {u : ℝ}

/-- Distinct numbers of a format differ by at least the smallest positive number. -/
theorem fin_gap {x y : Num A} (hx : x.finite) (hy : y.finite) (h : x.val < y.val) : (2 : ℝ) ^ A.f.emin ≤ y.val - x.val := by
  obtain ⟨a, ha, rfl⟩ := hx
  obtain ⟨b, hb, rfl⟩ := hy
  change a < b at h
  show _ ≤ b - a
  obtain ⟨k, hk⟩ := rep_mult ha.1
  obtain ⟨l, hl⟩ := rep_mult hb.1
  have h0 : (0 : ℝ) < 2 ^ A.f.emin := by positivity
  have h1 : (k : ℝ) < l := by
    rw [hk, hl] at h
    exact lt_of_mul_lt_mul_right h h0.le
  have h2 : k + 1 ≤ l := by exact_mod_cast h1
  have h3 : (k : ℝ) + 1 ≤ l := by exact_mod_cast h2
  rw [hk, hl, ← sub_mul]
  exact le_mul_of_one_le_left h0.le (by linarith)

theorem gU_pow_le (hu : 0 ≤ u) {m : ℕ} (hm : m * u ≤ 1 / 2) : gU u ^ m ≤ 1 + 2 * (m * u) := inv_pow_le hu hm

/-- The Poisson probabilities in IEEE-754 arithmetic, for points at distance at least `gap` from each other. -/
theorem ieee_pmf (h : A.OK u) {n : ℕ} (hn : 1 ≤ n) (hL : LibmAccurate A u n) (hnp : n + 1 ≤ 2 ^ A.f.p) {S : Set (Num A)}
    {gap : ℝ} (hγ0 : 0 < gap) (hγ1 : gap ≤ 1)
    (hgap : ∀ x ∈ S, ∀ y ∈ S, x.finite → y.finite → 0 ≤ x.val → x.val < y.val → y.val ≤ 1 → gap ≤ y.val - x.val)
    {Q : ℕ} (hQ : 5 * n * (Real.log n + Real.log (1 / gap)) + 10 * n + 3 * Real.log n.factorial ≤ Q)
    (hQO : (Q : ℝ) ≤ (2 : ℝ) ^ (A.f.emax - 1)) (hQu : Q * u ≤ 1 / 2) (hmin : A.f.minNormal * (2 * (Real.exp 1 * √n)) ≤ 1) :
    PmfAccurate (ieeeModel A u h) S n (Q + 1) ((2 : ℝ) ^ A.f.emin) := by
  have hnr : (1 : ℝ) ≤ n := by exact_mod_cast hn
  have hln : 0 ≤ Real.log n := Real.log_nonneg hnr
  have hlg : 0 ≤ Real.log (1 / gap) := Real.log_nonneg (by rw [le_div_iff₀ hγ0]; linarith)
  have hlf := Real.log_natCast_nonneg n.factorial
  have hLam0 : 0 ≤ (n : ℝ) * (Real.log n + Real.log (1 / gap)) := by positivity
  have hg2 : gU u ^ Q ≤ 2 := (gU_pow_le h.u_pos.le hQu).trans (by linarith)
  have hO := one_le_Omega h.fmt
  have hpp : 0 < poissonProb n n := by unfold poissonProb; positivity
  refine C39_pmf_from_library hn (ieeeLibrary h hL hnp (by linarith)) ?_ (Lam := Real.log n + Real.log (1 / gap)) (by linarith)
    ?_ (Q := Q) (by linarith) ?_ (hg2.trans hO) ?_
  · show gU u ≤ 8 / 7
    unfold gU
    rw [div_le_div_iff₀ (by linarith [h.u_le]) (by norm_num)]
    linarith [h.u_le]
  · intro x hx y hy hxf hyf h0 hlt h1
    have hg := hgap x hx y hy hxf hyf h0 hlt h1
    change 0 ≤ x.val at h0
    change y.val ≤ 1 at h1
    change |Real.log (n * (y.val - x.val))| ≤ _
    have hd : 0 < y.val - x.val := lt_of_lt_of_le hγ0 hg
    rw [Real.log_mul (by positivity) hd.ne', abs_le]
    have h2 : Real.log gap ≤ Real.log (y.val - x.val) := Real.log_le_log hγ0 hg
    have h3 : Real.log (y.val - x.val) ≤ 0 := Real.log_nonpos hd.le (by linarith)
    have h4 : Real.log (1 / gap) = - Real.log gap := by rw [one_div, Real.log_inv]
    constructor <;> linarith
  · change 2 * (n * (Real.log n + Real.log (1 / gap)) + n + Real.log n.factorial) ≤ (2 : ℝ) ^ (A.f.emax - 1)
    linarith
  · change A.f.minNormal * gU u ^ Q ≤ _
    have h0 : 0 < A.f.minNormal := by unfold Format.minNormal; positivity
    have h5 := inv_poissonProb_le hn
    rw [div_le_iff₀ hpp] at h5
    have h6 : A.f.minNormal * gU u ^ Q ≤ A.f.minNormal * 2 := mul_le_mul_of_nonneg_left hg2 h0.le
    have h7 : A.f.minNormal * 2 * 1 ≤ A.f.minNormal * 2 * (Real.exp 1 * √n * poissonProb n n) :=
      mul_le_mul_of_nonneg_left h5 (by linarith)
    have h8 : A.f.minNormal * 2 * (Real.exp 1 * √n * poissonProb n n) ≤ 1 * poissonProb n n := by
      have := mul_le_mul_of_nonneg_right hmin hpp.le
      refine le_trans (le_of_eq (by ring)) this
    linarith

theorem one_sub_le_pow (hu0 : 0 ≤ u) (hu1 : u ≤ 1) (K : ℕ) : 1 - K * u ≤ (1 - u) ^ K := by
  have := one_add_mul_le_pow (a := -u) (by linarith) K
  rw [mul_neg, ← sub_eq_add_neg, ← sub_eq_add_neg] at this
  exact this

/-- `exp 1 * sqrt n` is at least 1. -/
theorem one_le_esqrt {n : ℕ} (hn : 1 ≤ n) : 1 ≤ Real.exp 1 * √(n : ℝ) := by
  have hsq : 1 ≤ √(n : ℝ) := by
    rw [show (1 : ℝ) = √1 by simp]; exact Real.sqrt_le_sqrt (by exact_mod_cast hn)
  have := Real.exp_one_gt_d9
  nlinarith

/-- `ecdf2` without FFT in IEEE-754 arithmetic. -/
theorem ieee_direct (h : A.OK u) (env : Env (Num A)) {n : ℕ} (hn : 1 ≤ n) (hL : LibmAccurate A u n) (hnp : n + 1 ≤ 2 ^ A.f.p)
    {S : Set (Num A)} {gap : ℝ} (hγ0 : 0 < gap) (hγ1 : gap ≤ 1)
    (hgap : ∀ x ∈ S, ∀ y ∈ S, x.finite → y.finite → 0 ≤ x.val → x.val < y.val → y.val ≤ 1 → gap ≤ y.val - x.val)
    {b B : Fin n → Num A} (hz : zero ∈ S) (ho : one ∈ S) (hbS : ∀ i, b i ∈ S) (hBS : ∀ i, B i ∈ S)
    (hbf : ∀ i, (b i).finite) (hBf : ∀ i, (B i).finite) (hb : ValidBound fun i => (b i).val)
    (hB : ValidBound fun i => (B i).val) {sort : List (Bound (Num A)) → List (Bound (Num A))}
    (hsort : SortContractF (ieeeModel A u h) sort)
    (ha : env.asserts = false ∨ ¬ StronglyCrossed (fun i => (b i).val) (fun i => (B i).val))
    {Q K : ℕ} (hQ : 5 * n * (Real.log n + Real.log (1 / gap)) + 10 * n + 3 * Real.log n.factorial ≤ Q)
    (hK : K = (2 * n + 1) * (Q + n + 3) + Q + 2) (hKu : K * u ≤ 1 / 2)
    (hKO : (K : ℝ) ≤ (2 : ℝ) ^ (A.f.emax - 1)) (hmin : A.f.minNormal * (2 * (Real.exp 1 * √n)) ≤ 1)
    {W : ℝ} (hW : W = 5 * (2 * n + 1) * (n + 1) * (Real.exp 1 * √n) * (2 : ℝ) ^ A.f.emin) (hW1 : W ≤ 1 / 2) :
    ∃ x : Num A, ecdf2 env sort (List.ofFn b) (List.ofFn B) false = .ok x ∧ x.finite ∧ 0 ≤ x.val ∧
      noncrossProb (fun i => (b i).val) (fun i => (B i).val) * (1 - K * u) - W ≤ x.val ∧
      x.val * (1 - K * u) ≤ noncrossProb (fun i => (b i).val) (fun i => (B i).val) + W ∧
      (noncrossProb (fun i => (b i).val) (fun i => (B i).val) = 0 → x.val = 0) := by
  have hnr : (1 : ℝ) ≤ n := by exact_mod_cast hn
  have hu0 := h.u_pos.le
  have hQK : Q ≤ K := by rw [hK]; nlinarith
  have hQKr : (Q : ℝ) ≤ K := by exact_mod_cast hQK
  have hpmf := ieee_pmf h hn hL hnp hγ0 hγ1 hgap hQ (hQKr.trans hKO) ((mul_le_mul_of_nonneg_right hQKr hu0).trans hKu) hmin
  have hE := one_le_esqrt hn
  set E := Real.exp 1 * √(n : ℝ) with hEdef
  obtain ⟨A', hA⟩ : ∃ A', A' = ((1 + ((n : ℝ) + 1) * ((2 : ℝ) ^ A.f.emin + (ieeeModel A u h).eta)) ^ (2 * n + 1) - 1) / poissonProb n n
    + (ieeeModel A u h).eta := ⟨_, rfl⟩
  have heta : (ieeeModel A u h).eta = (2 : ℝ) ^ A.f.emin / 2 := by
    show (2 : ℝ) ^ (A.f.emin - 1) = _
    rw [zpow_sub_one₀ (by norm_num)]; rfl
  obtain ⟨t, ht⟩ : ∃ t : ℝ, t = (2 : ℝ) ^ A.f.emin := ⟨_, rfl⟩
  have ht0 : 0 < t := by rw [ht]; positivity
  have hpp : 0 < poissonProb n n := by unfold poissonProb; positivity
  have hA'W : A' ≤ W := by
    rw [heta, ← ht] at hA
    rw [← ht] at hW
    have hm : ((2 * n + 1 : ℕ) : ℝ) * (((n : ℝ) + 1) * (t + t / 2)) ≤ 1 / 2 := by
      push_cast
      have h1 : (2 * (n : ℝ) + 1) * ((n + 1) * (t + t / 2)) = 3 / 2 * ((2 * n + 1) * (n + 1) * t) := by ring
      have h2 : W = 5 * E * ((2 * n + 1) * (n + 1) * t) := by rw [hW]; ring
      have h3 : 0 ≤ (2 * (n : ℝ) + 1) * (n + 1) * t := by positivity
      nlinarith
    have h1 := pow_le_lin (t := ((n : ℝ) + 1) * (t + t / 2)) (by positivity) hm
    push_cast at h1
    have h5 := inv_poissonProb_le hn
    have h4 : ((1 + ((n : ℝ) + 1) * (t + t / 2)) ^ (2 * n + 1) - 1) / poissonProb n n
        ≤ (2 * ((2 * n + 1) * ((n + 1) * (t + t / 2)))) * E := by
      rw [div_eq_mul_one_div]
      exact mul_le_mul (by linarith) h5 (by positivity) (by positivity)
    rw [hA, hW]
    have h6 : 2 * ((2 * (n : ℝ) + 1) * ((n + 1) * (t + t / 2))) * E = 3 * (2 * n + 1) * (n + 1) * E * t := by ring
    have h7 : t ≤ (2 * (n : ℝ) + 1) * (n + 1) * E * t := by
      refine le_mul_of_one_le_left ht0.le ?_
      have : 1 ≤ (2 * (n : ℝ) + 1) * (n + 1) := by nlinarith
      nlinarith
    linarith
  have hgK : gU u ^ K ≤ 2 := (gU_pow_le hu0 hKu).trans (by linarith)
  have hgK0 : 0 < gU u ^ K := by
    have := one_le_gU hu0 (by linarith [h.u_le]); positivity
  have hgKs : (1 - K * u) * gU u ^ K ≤ 1 := by
    have h1 := one_sub_le_pow hu0 (by linarith [h.u_le]) K
    have h2 : (1 - u) ^ K * gU u ^ K = 1 := by
      rw [← mul_pow]; unfold gU
      rw [mul_one_div_cancel (by linarith [h.u_le]), one_pow]
    calc _ ≤ (1 - u) ^ K * gU u ^ K := mul_le_mul_of_nonneg_right h1 hgK0.le
      _ = 1 := h2
  have hK' : K = (2 * n + 1) * (Q + 1 + n + 2) + (Q + 1) + 1 := by rw [hK]; ring
  have hA0 : 0 ≤ A' := by
    rw [hA]
    have h1 : 1 ≤ (1 + ((n : ℝ) + 1) * ((2 : ℝ) ^ A.f.emin + (ieeeModel A u h).eta)) ^ (2 * n + 1) := by
      refine one_le_pow₀ ?_
      rw [heta, ← ht]
      have : 0 ≤ ((n : ℝ) + 1) * (t + t / 2) := by positivity
      linarith
    have := (ieeeModel A u h).eta_nonneg
    have h2 := div_nonneg (sub_nonneg.mpr h1) hpp.le
    linarith
  have hOm : (1 + A') * gU u ^ K ≤ (2 : ℝ) ^ (A.f.emax - 1) := by
    refine le_trans ?_ hKO
    have h3 : (9 : ℝ) ≤ K := by
      have : 9 ≤ K := by rw [hK]; nlinarith
      exact_mod_cast this
    have h4 : (1 + A') * gU u ^ K ≤ (3 / 2) * 2 := mul_le_mul (by linarith) hgK hgK0.le (by norm_num)
    linarith
  obtain ⟨x, hx, hxf, hx0, hl, hup, hz0⟩ := C39_ecdf2_error (R := ieeeModel A u h) env hn hpmf hz ho hbS hBS hbf hBf hb hB hsort ha hK' hA hOm
  change 0 ≤ x.val at hx0
  change noncrossProb (fun i => (b i).val) (fun i => (B i).val) / gU u ^ K - A' ≤ x.val at hl
  change x.val ≤ (noncrossProb (fun i => (b i).val) (fun i => (B i).val) + A') * gU u ^ K at hup
  have hP : 0 ≤ noncrossProb (fun i => (b i).val) (fun i => (B i).val) := measureReal_nonneg
  refine ⟨x, hx, hxf, hx0, ?_, ?_, hz0 (ieee_zeroExact A u h)⟩
  · have : noncrossProb (fun i => (b i).val) (fun i => (B i).val) * (1 - K * u)
        ≤ noncrossProb (fun i => (b i).val) (fun i => (B i).val) / gU u ^ K := by
      rw [le_div_iff₀ hgK0, mul_assoc]
      exact mul_le_of_le_one_right hP hgKs
    linarith
  · have h1 : 0 ≤ 1 - K * u := by linarith
    calc x.val * (1 - K * u) ≤ (noncrossProb (fun i => (b i).val) (fun i => (B i).val) + A') * gU u ^ K * (1 - K * u) :=
          mul_le_mul_of_nonneg_right hup h1
      _ = (noncrossProb (fun i => (b i).val) (fun i => (B i).val) + A') * ((1 - K * u) * gU u ^ K) := by ring
      _ ≤ noncrossProb (fun i => (b i).val) (fun i => (B i).val) + A' := mul_le_of_le_one_right (by linarith) hgKs
      _ ≤ _ := by linarith

/-! ### With FFT -/

theorem inv_pow_tight {u : ℝ} (hu : 0 ≤ u) {m : ℕ} (hm : m * u ≤ 1 / 100) : (1 / (1 - u)) ^ m ≤ 1 + 51 / 50 * (m * u) := by
  rcases Nat.eq_zero_or_pos m with rfl | h0
  · simp
  have hm1 : (1 : ℝ) ≤ m := by exact_mod_cast h0
  have hu2 : u ≤ 1 / 100 := le_trans (by nlinarith) hm
  have h1 := one_sub_le_pow hu (by linarith) m
  have h2 : 0 < 1 - m * u := by linarith
  rw [one_div_pow, div_le_iff₀ (lt_of_lt_of_le h2 h1)]
  have hmu : 0 ≤ m * u := by positivity
  nlinarith [mul_le_mul_of_nonneg_left h1 (by linarith : 0 ≤ 1 + 51 / 50 * (m * u))]

theorem pow_le_tight {t : ℝ} (ht : 0 ≤ t) {m : ℕ} (hm : m * t ≤ 1 / 100) : (1 + t) ^ m ≤ 1 + 51 / 50 * (m * t) := by
  rcases Nat.eq_zero_or_pos m with rfl | h0
  · simp
  have hm1 : (1 : ℝ) ≤ m := by exact_mod_cast h0
  have hu2 : t ≤ 1 / 100 := le_trans (by nlinarith) hm
  refine le_trans (pow_le_pow_left₀ (by linarith) ?_ m) (inv_pow_tight ht hm)
  rw [le_div_iff₀ (by linarith)]
  nlinarith

/-- The constants of the absolute error bounds with underflow; `w` is the smallest positive number. -/
theorem kap_bound {n : ℕ} (hn : 1 ≤ n) {u delta s N gP a G w etaF rho eps om T : ℝ} (hu : 0 ≤ u) (hd : 0 ≤ delta)
    (hs : 1 ≤ s) (hN : 1 ≤ N) (hw : 0 ≤ w) (hF : 0 ≤ etaF) (hg1 : 1 ≤ gP) (hga : gP ≤ 1 + 51 / 50 * a) (hG1 : 1 ≤ G)
    (hG : G ≤ 1 + 51 / 50 * (128 * u))
    (hrho : rho = gP - 1 + (n + 1) * w * gP) (heps : eps = s * (13 * u + 4 * delta) + (G - 1))
    (hom : om = s * 2 * (12 * etaF + 34 * (N * (w / 2))) + 128 ^ 2 * G * (w / 2))
    (hT : T = 21 / 20 * (a + s * (13 * u + 4 * delta) + 128 * u) + (24 * s * etaF + (34 * s * N + 128 ^ 2 + 3 * (n + 1)) * w))
    (hT6 : T ≤ 1 / 300) :
    (1 + rho) * (1 + eps) + om + (n + 1) * (w / 2) ≤ 1 + T ∧ 51 / 50 * a ≤ T ∧ 128 * u ≤ T ∧ 16384 * w ≤ T ∧ 0 ≤ eps ∧ 0 ≤ rho ∧ 0 ≤ om ∧
      s * (13 * u + 4 * delta) ≤ T ∧ 24 * etaF ≤ T ∧ 16 * N * w ≤ T := by
  have ha : 0 ≤ a := by linarith
  have h1 : 0 ≤ s * (13 * u + 4 * delta) := mul_nonneg (by linarith) (by linarith)
  have h2 : 0 ≤ s * etaF := mul_nonneg (by linarith) hF
  have h3 : 0 ≤ s * N * w := mul_nonneg (mul_nonneg (by linarith) (by linarith)) hw
  have hn1 : (1 : ℝ) ≤ n := by exact_mod_cast hn
  have h4 : 0 ≤ ((n : ℝ) + 1) * w := mul_nonneg (by linarith) hw
  have hF2 : etaF ≤ s * etaF := le_mul_of_one_le_left hF hs
  have hNw : N * w ≤ s * N * w := by
    rw [mul_assoc]; exact le_mul_of_one_le_left (mul_nonneg (by linarith) hw) hs
  have hT' : T = 21 / 20 * a + 21 / 20 * (s * (13 * u + 4 * delta)) + 21 / 20 * (128 * u) + 24 * (s * etaF) + 34 * (s * N * w) + 16384 * w + 3 * ((n + 1) * w) := by
    rw [hT]; ring
  have hNw0 : 0 ≤ N * w := mul_nonneg (by linarith) hw
  refine ⟨?_, by linarith, by linarith, by linarith, by rw [heps]; linarith, ?_, ?_, by linarith, by linarith, by linarith⟩
  · have e1 : 1 + rho = gP * (1 + (n + 1) * w) := by rw [hrho]; ring
    obtain ⟨c, hc⟩ : ∃ c, c = s * (13 * u + 4 * delta) + 51 / 50 * (128 * u) := ⟨_, rfl⟩
    obtain ⟨d, hdd⟩ : ∃ d, d = ((n : ℝ) + 1) * w := ⟨_, rfl⟩
    have hc0 : 0 ≤ c := by rw [hc]; linarith
    have he : 1 + eps ≤ 1 + c := by rw [heps, hc]; linarith
    have h5 : (1 + rho) * (1 + eps) ≤ (1 + 51 / 50 * a) * (1 + d) * (1 + c) := by
      rw [e1, ← hdd]
      refine mul_le_mul (mul_le_mul_of_nonneg_right hga (by linarith)) he ?_ ?_
      · rw [heps]; linarith
      · exact mul_nonneg (by linarith) (by linarith)
    have ha1 : 51 / 50 * a ≤ 1 / 200 := by linarith
    have hc1 : c ≤ 1 / 200 := by rw [hc]; linarith
    have h6 : (1 + 51 / 50 * a) * (1 + d) * (1 + c) ≤ 1 + 51 / 50 * a + 201 / 200 * c + 2 * d := by
      have x1 : 51 / 50 * a * c ≤ 1 / 200 * c := mul_le_mul_of_nonneg_right ha1 hc0
      have x2 : (1 + 51 / 50 * a) * (1 + c) ≤ 2 := by
        have := mul_le_mul (show 1 + 51 / 50 * a ≤ 13 / 12 by linarith) (show 1 + c ≤ 13 / 12 by linarith) (by linarith) (by norm_num)
        linarith
      have x3 : (1 + 51 / 50 * a) * (1 + c) * d ≤ 2 * d := mul_le_mul_of_nonneg_right x2 (by rw [hdd]; exact h4)
      have e : (1 + 51 / 50 * a) * (1 + d) * (1 + c) = 1 + 51 / 50 * a + c + 51 / 50 * a * c + (1 + 51 / 50 * a) * (1 + c) * d := by ring
      rw [e]
      linarith
    have h7 : om ≤ 24 * (s * etaF) + 34 * (s * N * w) + 16384 * w := by
      have hG2 : G ≤ 2 := by linarith
      have x : 128 ^ 2 * G * (w / 2) ≤ 16384 * w := by
        have := mul_le_mul_of_nonneg_right hG2 hw
        linarith
      have e : s * 2 * (12 * etaF + 34 * (N * (w / 2))) = 24 * (s * etaF) + 34 * (s * N * w) := by ring
      rw [hom, e]
      linarith
    linarith
  · rw [hrho]
    have : 0 ≤ ((n : ℝ) + 1) * w * gP := mul_nonneg h4 (by linarith)
    linarith
  · rw [hom]
    have x1 : 0 ≤ s * 2 * (12 * etaF + 34 * (N * (w / 2))) := mul_nonneg (by linarith) (by linarith)
    have x2 : 0 ≤ 128 ^ 2 * G * (w / 2) := mul_nonneg (by linarith) (by linarith)
    linarith

/-- Facts about the constants of an IEEE-754 system used in both theorems. -/
theorem ieee_const (h : A.OK u) {n Nmax Q : ℕ} (hn : 1 ≤ n) (hN : 2 * n + 2049 ≤ Nmax) {delta etaF : ℝ} (hδ : 0 ≤ delta)
    (hF : 0 ≤ etaF) {w T : ℝ} (hw : w = (2 : ℝ) ^ A.f.emin)
    (hT : T = 21 / 20 * ((Q + 1) * u + √Nmax * (13 * u + 4 * delta) + 128 * u)
      + (24 * √Nmax * etaF + (34 * √Nmax * Nmax + 128 ^ 2 + 3 * (n + 1)) * w)) (hT6 : T ≤ 1 / 300)
    {rho eps om : ℝ} (hrho : rho = gU u ^ (Q + 1) - 1 + (n + 1) * w * gU u ^ (Q + 1))
    (heps : eps = √Nmax * (13 * u + 4 * delta) + ((1 + u) ^ 128 - 1))
    (hom : om = √Nmax * 2 * (12 * etaF + 34 * (Nmax * (w / 2))) + 128 ^ 2 * (1 + u) ^ 128 * (w / 2)) :
    ((1 + rho) * (1 + eps) + om + (n + 1) * (w / 2) ≤ 1 + T ∧ gU u ^ (Q + 1) ≤ 1 + T ∧ 1 ≤ gU u ^ (Q + 1) ∧
      0 ≤ eps ∧ 0 ≤ rho ∧ 0 ≤ om) ∧
    (Q * u ≤ 1 / 2 ∧ (1 + u) ^ 128 ≤ 2 ∧ 128 * u ≤ T ∧ 16384 * w ≤ T ∧
    delta * √Nmax ≤ 1 / 8 ∧ etaF ≤ 1 ∧ Nmax * (w / 2) ≤ 1) := by
  have hu0 := h.u_pos.le
  have hw0 : 0 ≤ w := by rw [hw]; positivity
  have hs : 1 ≤ √(Nmax : ℝ) := by
    rw [show (1 : ℝ) = √1 by simp]
    exact Real.sqrt_le_sqrt (by exact_mod_cast (by omega : 1 ≤ Nmax))
  have hN1 : (1 : ℝ) ≤ Nmax := by exact_mod_cast (by omega : 1 ≤ Nmax)
  have hQ0 : (0 : ℝ) ≤ Q := Nat.cast_nonneg Q
  have hn1 : (1 : ℝ) ≤ n := by exact_mod_cast hn
  have p1 : 0 ≤ √(Nmax : ℝ) * (13 * u + 4 * delta) := by positivity
  have p2 : 0 ≤ 24 * √(Nmax : ℝ) * etaF := by positivity
  have p3 : 0 ≤ (34 * √(Nmax : ℝ) * Nmax + 128 ^ 2 + 3 * (n + 1)) * w := by positivity
  have hQu1 : ((Q : ℝ) + 1) * u ≤ 1 / 300 := by
    have : 0 ≤ ((Q : ℝ) + 1) * u := by positivity
    linarith
  have hg : gU u ^ (Q + 1) ≤ 1 + 51 / 50 * ((Q + 1) * u) := by
    have := inv_pow_tight hu0 (m := Q + 1) (by push_cast; linarith)
    push_cast at this
    exact this
  have hg1 : 1 ≤ gU u ^ (Q + 1) := one_le_pow₀ (one_le_gU hu0 (by linarith [h.u_le]))
  have h256 : 128 * u ≤ 1 / 300 := by
    have : 0 ≤ ((Q : ℝ) + 1) * u := by positivity
    linarith
  have hG : (1 + u) ^ 128 ≤ 1 + 51 / 50 * (128 * u) := by
    have := pow_le_tight hu0 (m := 128) (by push_cast; linarith)
    rw [Nat.cast_ofNat] at this
    exact this
  have hG1 : 1 ≤ (1 + u) ^ 128 := one_le_pow₀ (by linarith)
  obtain ⟨k1, k2, k3, k4, k5, k6, k7, k8, k9, k10⟩ := kap_bound hn hu0 hδ hs hN1 hw0 hF hg1 hg hG1 hG hrho heps hom hT hT6
  refine ⟨⟨k1, hg.trans (by linarith), hg1, k5, k6, k7⟩, by linarith, by linarith, k3, k4, ?_, by linarith, ?_⟩
  · have e : √(Nmax : ℝ) * (13 * u + 4 * delta) = 13 * (√(Nmax : ℝ) * u) + 4 * (delta * √Nmax) := by ring
    have : 0 ≤ √(Nmax : ℝ) * u := by positivity
    linarith
  · have e : 16 * (Nmax : ℝ) * w = 32 * (Nmax * (w / 2)) := by ring
    have : 0 ≤ (Nmax : ℝ) * (w / 2) := by positivity
    linarith

/-- The final division and the explicit form of the bound; `m` is the number of steps. -/
theorem final_bound {n m : ℕ} (hn : 1 ≤ n) (hm : 3 ≤ m) {u e gP kap T A' : ℝ} (hu : 0 ≤ u) (he : 0 ≤ e) (huT : 128 * u ≤ T)
    (heT : 8192 * e ≤ T) (hg1 : 1 ≤ gP) (hgT : gP ≤ 1 + T) (hk1 : 1 ≤ kap) (hkT : kap ≤ 1 + T) (hT : m * T ≤ 1 / 100)
    (hA : A' = (1 + u) * ((kap ^ m - 1) * gP / poissonProb n n + (gP - 1)) + u + e) :
    kap ^ m ≤ 2 ∧ A' ≤ 6 / 5 * Real.exp 1 * √n * (m * T) := by
  have hT0 : 0 ≤ T := by linarith
  have hm3 : (3 : ℝ) ≤ m := by exact_mod_cast hm
  have h1 : kap ^ m ≤ 1 + 51 / 50 * (m * T) := (pow_le_pow_left₀ (by linarith) hkT _).trans (pow_le_tight hT0 hT)
  refine ⟨by linarith, ?_⟩
  have hn1 : (1 : ℝ) ≤ n := by exact_mod_cast hn
  have hp := inv_poissonProb_le hn
  set E := Real.exp 1 * √n with hE
  have hsq : 1 ≤ √(n : ℝ) := by
    rw [show (1 : ℝ) = √1 by simp]; exact Real.sqrt_le_sqrt hn1
  have hE2 : 27 / 10 ≤ E := by
    have := Real.exp_one_gt_d9
    rw [hE]
    nlinarith
  have hmT : 3 * T ≤ m * T := mul_le_mul_of_nonneg_right hm3 hT0
  have hpp : 0 < poissonProb n n := by unfold poissonProb; positivity
  have h0 : 0 ≤ kap ^ m - 1 := by linarith [one_le_pow₀ hk1 (n := m)]
  have hmT0 : 0 ≤ m * T := by linarith
  have a1 : (kap ^ m - 1) * gP / poissonProb n n ≤ (51 / 50 * (m * T)) * (101 / 100) * E := by
    rw [div_eq_mul_one_div]
    exact mul_le_mul (mul_le_mul (by linarith) (by linarith) (by linarith) (by linarith)) hp (by positivity) (by positivity)
  have a2 : (1 + u) * ((kap ^ m - 1) * gP / poissonProb n n + (gP - 1)) ≤ (1001 / 1000) * ((51 / 50 * (m * T)) * (101 / 100) * E + T) :=
    mul_le_mul (by linarith) (by linarith) (add_nonneg (div_nonneg (mul_nonneg h0 (by linarith)) hpp.le) (by linarith)) (by norm_num)
  have a3 : 81 / 10 * T ≤ m * T * E := by
    have := mul_le_mul hmT hE2 (by norm_num) hmT0
    linarith
  rw [hA]
  have e1 : 6 / 5 * Real.exp 1 * √(n : ℝ) * (m * T) = 6 / 5 * (m * T * E) := by rw [hE]; ring
  rw [e1]
  have e2 : (51 / 50 * (m * T)) * (101 / 100) * E = (5151 / 5000) * (m * T * E) := by ring
  rw [e2] at a2
  linarith

theorem sqrt_le_nat {n : ℕ} (hn : 1 ≤ n) : √(n : ℝ) ≤ n := by
  have : (1 : ℝ) ≤ n := by exact_mod_cast hn
  rw [Real.sqrt_le_left (by linarith)]; nlinarith

/-- `ecdf2` with FFT in IEEE-754 arithmetic. -/
theorem ieee_fft (h : A.OK u) (env : Env (Num A)) {n Nmax : ℕ} (hn : 1 ≤ n) (hL : LibmAccurate A u n)
    (hN : 2 * n + 2049 ≤ Nmax) (hNp : Nmax ≤ 2 ^ A.f.p) (hNn : Nmax * A.f.minNormal ≤ 1)
    {delta etaF : ℝ} (hfft : FFTAccurate (ieeeModel A u h) env.fft Nmax delta etaF 256)
    {S : Set (Num A)} {gap : ℝ} (hγ0 : 0 < gap) (hγ1 : gap ≤ 1)
    (hgap : ∀ x ∈ S, ∀ y ∈ S, x.finite → y.finite → 0 ≤ x.val → x.val < y.val → y.val ≤ 1 → gap ≤ y.val - x.val)
    {b B : Fin n → Num A} (hz : zero ∈ S) (ho : one ∈ S) (hbS : ∀ i, b i ∈ S) (hBS : ∀ i, B i ∈ S)
    (hbf : ∀ i, (b i).finite) (hBf : ∀ i, (B i).finite) (hb : ValidBound fun i => (b i).val)
    (hB : ValidBound fun i => (B i).val) {sort : List (Bound (Num A)) → List (Bound (Num A))}
    (hsort : SortContractF (ieeeModel A u h) sort)
    (ha : env.asserts = false ∨ ¬ StronglyCrossed (fun i => (b i).val) (fun i => (B i).val))
    {Q : ℕ} (hQ : 5 * n * (Real.log n + Real.log (1 / gap)) + 10 * n + 3 * Real.log n.factorial ≤ Q)
    (hQO : (Q : ℝ) + 512 + Nmax + √n ≤ (2 : ℝ) ^ (A.f.emax - 1)) (hmin : A.f.minNormal * (2 * (Real.exp 1 * √n)) ≤ 1)
    {T : ℝ} (hT : T = 21 / 20 * ((Q + 1) * u + √Nmax * (13 * u + 4 * delta) + 128 * u)
      + (24 * √Nmax * etaF + (34 * √Nmax * Nmax + 128 ^ 2 + 3 * (n + 1)) * (2 : ℝ) ^ A.f.emin)) (hsmall : (2 * n + 1) * T ≤ 1 / 100) :
    ∃ x : Num A, ecdf2 env sort (List.ofFn b) (List.ofFn B) true = .ok x ∧ x.finite ∧
      |x.val - noncrossProb (fun i => (b i).val) (fun i => (B i).val)| ≤ 6 / 5 * Real.exp 1 * √n * ((2 * n + 1) * T) := by
  have hnr : (1 : ℝ) ≤ n := by exact_mod_cast hn
  have hQ0 : (0 : ℝ) ≤ Q := Nat.cast_nonneg Q
  have hN0 : (0 : ℝ) ≤ Nmax := Nat.cast_nonneg Nmax
  have hsq0 := Real.sqrt_nonneg (n : ℝ)
  have hδ := hfft.delta_nonneg
  have hF := hfft.etaF_nonneg
  have hu0 := h.u_pos.le
  obtain ⟨w, hw⟩ : ∃ w : ℝ, w = (2 : ℝ) ^ A.f.emin := ⟨_, rfl⟩
  have hw0 : 0 ≤ w := by rw [hw]; positivity
  rw [← hw] at hT
  have hT0 : 0 ≤ T := by rw [hT]; positivity
  have hT6 : T ≤ 1 / 300 := by
    have : 3 * T ≤ (2 * n + 1) * T := mul_le_mul_of_nonneg_right (by linarith) hT0
    linarith
  obtain ⟨⟨k1, k2, k3, k4, k5, k6⟩, c1, c2, c3, c4, c5, c6, c7⟩ := ieee_const h hn hN hδ hF hw hT hT6 rfl rfl rfl (Q := Q)
  have hpmf := ieee_pmf h hn hL (by omega) hγ0 hγ1 hgap hQ (by linarith) c1 hmin
  have hops : SignedOps (ieeeModel A u h) u Nmax := ieeeSigned h hNn hNp (by linarith)
  have heta : (ieeeModel A u h).eta = w / 2 := by
    show (2 : ℝ) ^ (A.f.emin - 1) = _
    rw [zpow_sub_one₀ (by norm_num), hw]; rfl
  have hg : (ieeeModel A u h).g = gU u := rfl
  obtain ⟨rho, hrho⟩ : ∃ rho : ℝ, rho = gU u ^ (Q + 1) - 1 + (n + 1) * w * gU u ^ (Q + 1) := ⟨_, rfl⟩
  obtain ⟨eps, heps⟩ : ∃ eps : ℝ, eps = √Nmax * (13 * u + 4 * delta) + ((1 + u) ^ 128 - 1) := ⟨_, rfl⟩
  obtain ⟨om, hom⟩ : ∃ om : ℝ, om = √Nmax * 2 * (12 * etaF + 34 * (Nmax * (w / 2))) + 128 ^ 2 * (1 + u) ^ 128 * (w / 2) := ⟨_, rfl⟩
  obtain ⟨kap, hkap⟩ : ∃ kap : ℝ, kap = (1 + rho) * (1 + eps) + om := ⟨_, rfl⟩
  rw [← hrho, ← heps, ← hom] at k1
  rw [← hrho] at k5
  rw [← heps] at k4
  rw [← hom] at k6
  have hwn : 0 ≤ ((n : ℝ) + 1) * (w / 2) := by positivity
  have hkT : kap ≤ 1 + T := by rw [hkap]; linarith
  have hk1 : 1 ≤ kap := by
    rw [hkap]
    have := mul_nonneg k5 k4
    linarith
  obtain ⟨A', hA⟩ : ∃ A', A' = (1 + u) * ((kap ^ (2 * n + 1) - 1) * gU u ^ (Q + 1) / poissonProb n n + (gU u ^ (Q + 1) - 1)) + u + w / 2 := ⟨_, rfl⟩
  obtain ⟨f1, f2⟩ := final_bound hn (by omega : 3 ≤ 2 * n + 1) hu0 (by linarith : 0 ≤ w / 2) c3 (by linarith) k3 k2 hk1 hkT
    (by push_cast; exact hsmall) hA
  push_cast at f2
  have hA6 : 6 / 5 * Real.exp 1 * √n * ((2 * n + 1) * T) ≤ 6 * √n := by
    have h1 : Real.exp 1 ≤ 3 := by have := Real.exp_one_lt_d9; linarith
    have h2 : Real.exp 1 * √(n : ℝ) ≤ 3 * √n := mul_le_mul_of_nonneg_right h1 hsq0
    have h3 : 6 / 5 * Real.exp 1 * √(n : ℝ) * ((2 * n + 1) * T) ≤ 6 / 5 * Real.exp 1 * √(n : ℝ) * (1 / 100) :=
      mul_le_mul_of_nonneg_left hsmall (by positivity)
    linarith
  have hO : (512 : ℝ) ≤ (ieeeModel A u h).Omega := by
    show (512 : ℝ) ≤ (2 : ℝ) ^ (A.f.emax - 1)
    linarith
  have hsqn : √(n : ℝ) ≤ n := sqrt_le_nat hn
  obtain ⟨x, hx, hxf, hxA⟩ := C52_ecdf2_fft_error (R := ieeeModel A u h) env hn hpmf hops hfft hN le_rfl hz ho hbS hBS hbf hBf hb hB hsort ha
    c5 c6 (by rw [heta]; exact c7) (rho := rho) (eps := eps) (om := om) (kap := kap) (A := A')
    (by rw [hg, hrho, hw]) heps (by rw [heta]; exact hom) hkap f1 (by rw [heta, hg]; exact hA) hO
    (by rw [heta]
        refine le_trans ?_ hO
        have : (1 + u) ^ 128 * (4 + 128 * (w / 2)) ≤ 2 * (4 + 128 * (w / 2)) := mul_le_mul_of_nonneg_right c2 (by linarith)
        linarith)
    (by show 1 + A' ≤ (2 : ℝ) ^ (A.f.emax - 1)
        have : (2 : ℝ) * n + 2049 ≤ Nmax := by exact_mod_cast hN
        have hQ10 : 10 * (n : ℝ) ≤ Q := by
          have hln : 0 ≤ Real.log n := Real.log_nonneg hnr
          have hlg : 0 ≤ Real.log (1 / gap) := Real.log_nonneg (by rw [le_div_iff₀ hγ0]; linarith)
          have hlf := Real.log_natCast_nonneg n.factorial
          have hLam0 : 0 ≤ 5 * (n : ℝ) * (Real.log n + Real.log (1 / gap)) := by positivity
          linarith
        linarith)
  exact ⟨x, hx, hxf, hxA.trans f2⟩

/-- `ecdf1_new_B` in IEEE-754 arithmetic. -/
theorem ieee_new_B (h : A.OK u) (env : Env (Num A)) {n Nmax : ℕ} (hn : 1 ≤ n) (hL : LibmAccurate A u n)
    (hN : 2 * n + 2049 ≤ Nmax) (hNp : Nmax ≤ 2 ^ A.f.p) (hNn : Nmax * A.f.minNormal ≤ 1)
    {delta etaF : ℝ} (hfft : FFTAccurate (ieeeModel A u h) env.fft Nmax delta etaF 256)
    {S : Set (Num A)} {gap : ℝ} (hγ0 : 0 < gap) (hγ1 : gap ≤ 1)
    (hgap : ∀ x ∈ S, ∀ y ∈ S, x.finite → y.finite → 0 ≤ x.val → x.val < y.val → y.val ≤ 1 → gap ≤ y.val - x.val)
    {B : Fin n → Num A} (hz : zero ∈ S) (ho : one ∈ S) (hBS : ∀ i, B i ∈ S)
    (hBf : ∀ i, (B i).finite) (hB : ValidBound fun i => (B i).val)
    (isqrt : ℕ → ℕ) (ha : env.asserts = false ∨ isqrt n + 1 ≤ n)
    {Q : ℕ} (hQ : 5 * n * (Real.log n + Real.log (1 / gap)) + 10 * n + 3 * Real.log n.factorial ≤ Q)
    (hQO : (Q : ℝ) + 512 + Nmax + √n ≤ (2 : ℝ) ^ (A.f.emax - 1)) (hmin : A.f.minNormal * (2 * (Real.exp 1 * √n)) ≤ 1)
    {T : ℝ} (hT : T = 21 / 20 * ((Q + 1) * u + √Nmax * (13 * u + 4 * delta) + 128 * u)
      + (24 * √Nmax * etaF + (34 * √Nmax * Nmax + 128 ^ 2 + 3 * (n + 1)) * (2 : ℝ) ^ A.f.emin)) (hsmall : (3 * n + 1) * T ≤ 1 / 100) :
    ∃ x : Num A, ecdf1NewB env isqrt (List.ofFn B) = .ok x ∧ x.finite ∧
      |x.val - upperProb (fun i => (B i).val)| ≤ 6 / 5 * Real.exp 1 * √n * ((3 * n + 1) * T) := by
  have hnr : (1 : ℝ) ≤ n := by exact_mod_cast hn
  have hQ0 : (0 : ℝ) ≤ Q := Nat.cast_nonneg Q
  have hN0 : (0 : ℝ) ≤ Nmax := Nat.cast_nonneg Nmax
  have hsq0 := Real.sqrt_nonneg (n : ℝ)
  have hδ := hfft.delta_nonneg
  have hF := hfft.etaF_nonneg
  have hu0 := h.u_pos.le
  obtain ⟨w, hw⟩ : ∃ w : ℝ, w = (2 : ℝ) ^ A.f.emin := ⟨_, rfl⟩
  have hw0 : 0 ≤ w := by rw [hw]; positivity
  rw [← hw] at hT
  have hT0 : 0 ≤ T := by rw [hT]; positivity
  have hT6 : T ≤ 1 / 300 := by
    have : 3 * T ≤ (3 * n + 1) * T := mul_le_mul_of_nonneg_right (by linarith) hT0
    linarith
  obtain ⟨⟨k1, k2, k3, k4, k5, k6⟩, c1, c2, c3, c4, c5, c6, c7⟩ := ieee_const h hn hN hδ hF hw hT hT6 rfl rfl rfl (Q := Q)
  have hpmf := ieee_pmf h hn hL (by omega) hγ0 hγ1 hgap hQ (by linarith) c1 hmin
  have hops : SignedOps (ieeeModel A u h) u Nmax := ieeeSigned h hNn hNp (by linarith)
  have heta : (ieeeModel A u h).eta = w / 2 := by
    show (2 : ℝ) ^ (A.f.emin - 1) = _
    rw [zpow_sub_one₀ (by norm_num), hw]; rfl
  have hg : (ieeeModel A u h).g = gU u := rfl
  obtain ⟨rho, hrho⟩ : ∃ rho : ℝ, rho = gU u ^ (Q + 1) - 1 + (n + 1) * w * gU u ^ (Q + 1) := ⟨_, rfl⟩
  obtain ⟨eps, heps⟩ : ∃ eps : ℝ, eps = √Nmax * (13 * u + 4 * delta) + ((1 + u) ^ 128 - 1) := ⟨_, rfl⟩
  obtain ⟨om, hom⟩ : ∃ om : ℝ, om = √Nmax * 2 * (12 * etaF + 34 * (Nmax * (w / 2))) + 128 ^ 2 * (1 + u) ^ 128 * (w / 2) := ⟨_, rfl⟩
  obtain ⟨tau, htau⟩ : ∃ tau : ℝ, tau = (1 + rho) * (1 + eps) - 1 + om + (n + 1) * (w / 2) := ⟨_, rfl⟩
  rw [← hrho, ← heps, ← hom] at k1
  rw [← hrho] at k5
  rw [← heps] at k4
  rw [← hom] at k6
  have hwn : 0 ≤ ((n : ℝ) + 1) * (w / 2) := by positivity
  have hkT : 1 + tau ≤ 1 + T := by rw [htau]; linarith
  have hk1 : 1 ≤ 1 + tau := by
    rw [htau]
    have := mul_nonneg k5 k4
    linarith
  obtain ⟨A', hA⟩ : ∃ A', A' = (1 + u) * (((1 + tau) ^ (3 * n + 1) - 1) * gU u ^ (Q + 1) / poissonProb n n + (gU u ^ (Q + 1) - 1)) + u + w / 2 := ⟨_, rfl⟩
  obtain ⟨f1, f2⟩ := final_bound hn (by omega : 3 ≤ 3 * n + 1) hu0 (by linarith : 0 ≤ w / 2) c3 (by linarith) k3 k2 hk1 hkT
    (by push_cast; exact hsmall) hA
  push_cast at f2
  have hA6 : 6 / 5 * Real.exp 1 * √n * ((3 * n + 1) * T) ≤ 6 * √n := by
    have h1 : Real.exp 1 ≤ 3 := by have := Real.exp_one_lt_d9; linarith
    have h2 : Real.exp 1 * √(n : ℝ) ≤ 3 * √n := mul_le_mul_of_nonneg_right h1 hsq0
    have h3 : 6 / 5 * Real.exp 1 * √(n : ℝ) * ((3 * n + 1) * T) ≤ 6 / 5 * Real.exp 1 * √(n : ℝ) * (1 / 100) :=
      mul_le_mul_of_nonneg_left hsmall (by positivity)
    linarith
  have hO : (512 : ℝ) ≤ (ieeeModel A u h).Omega := by
    show (512 : ℝ) ≤ (2 : ℝ) ^ (A.f.emax - 1)
    linarith
  have hsqn : √(n : ℝ) ≤ n := sqrt_le_nat hn
  obtain ⟨x, hx, hxf, hxA⟩ := C53_ecdf1_new_B_error (R := ieeeModel A u h) env hn hpmf hops hfft hN le_rfl hz ho hBS hBf hB isqrt ha
    c5 c6 (by rw [heta]; exact c7) (rho := rho) (eps := eps) (om := om) (tau := tau) (A := A')
    (by rw [hg, hrho, hw]) heps (by rw [heta]; exact hom) (by rw [heta]; exact htau) f1 (by rw [heta, hg]; exact hA) hO
    (by rw [heta]
        refine le_trans ?_ hO
        have : (1 + u) ^ 128 * (4 + 128 * (w / 2)) ≤ 2 * (4 + 128 * (w / 2)) := mul_le_mul_of_nonneg_right c2 (by linarith)
        linarith)
    (by show 1 + A' ≤ (2 : ℝ) ^ (A.f.emax - 1)
        have : (2 : ℝ) * n + 2049 ≤ Nmax := by exact_mod_cast hN
        have hQ10 : 10 * (n : ℝ) ≤ Q := by
          have hln : 0 ≤ Real.log n := Real.log_nonneg hnr
          have hlg : 0 ≤ Real.log (1 / gap) := Real.log_nonneg (by rw [le_div_iff₀ hγ0]; linarith)
          have hlf := Real.log_natCast_nonneg n.factorial
          have hLam0 : 0 ≤ 5 * (n : ℝ) * (Real.log n + Real.log (1 / gap)) := by positivity
          linarith
        linarith)
  exact ⟨x, hx, hxf, hxA.trans f2⟩

/-- `ecdf1_new_b` in IEEE-754 arithmetic. -/
theorem ieee_new_b (h : A.OK u) (env : Env (Num A)) {n Nmax : ℕ} (hn : 1 ≤ n) (hL : LibmAccurate A u n)
    (hN : 2 * n + 2049 ≤ Nmax) (hNp : Nmax ≤ 2 ^ A.f.p) (hNn : Nmax * A.f.minNormal ≤ 1)
    {delta etaF : ℝ} (hfft : FFTAccurate (ieeeModel A u h) env.fft Nmax delta etaF 256)
    {S : Set (Num A)} {gap : ℝ} (hγ0 : 0 < gap) (hγ1 : gap ≤ 1)
    (hgap : ∀ x ∈ S, ∀ y ∈ S, x.finite → y.finite → 0 ≤ x.val → x.val < y.val → y.val ≤ 1 → gap ≤ y.val - x.val)
    {b : Fin n → Num A} (hz : zero ∈ S) (ho : one ∈ S) (hbS : ∀ i, one -ᶠ b i ∈ S)
    (hbf : ∀ i, (b i).finite) (hb : ValidBound fun i => (b i).val)
    (isqrt : ℕ → ℕ) (ha : env.asserts = false ∨ isqrt n + 1 ≤ n)
    {Q : ℕ} (hQ : 5 * n * (Real.log n + Real.log (1 / gap)) + 10 * n + 3 * Real.log n.factorial ≤ Q)
    (hQO : (Q : ℝ) + 512 + Nmax + √n ≤ (2 : ℝ) ^ (A.f.emax - 1)) (hmin : A.f.minNormal * (2 * (Real.exp 1 * √n)) ≤ 1)
    {T : ℝ} (hT : T = 21 / 20 * ((Q + 1) * u + √Nmax * (13 * u + 4 * delta) + 128 * u)
      + (24 * √Nmax * etaF + (34 * √Nmax * Nmax + 128 ^ 2 + 3 * (n + 1)) * (2 : ℝ) ^ A.f.emin)) (hsmall : (3 * n + 1) * T ≤ 1 / 100) :
    ∃ x : Num A, ecdf1Newb env isqrt (List.ofFn b) = .ok x ∧ x.finite ∧
      |x.val - lowerProb (fun i => (b i).val)| ≤ 6 / 5 * Real.exp 1 * √n * ((3 * n + 1) * T) + n ^ 2 * u := by
  have hnr : (1 : ℝ) ≤ n := by exact_mod_cast hn
  have hQ0 : (0 : ℝ) ≤ Q := Nat.cast_nonneg Q
  have hN0 : (0 : ℝ) ≤ Nmax := Nat.cast_nonneg Nmax
  have hsq0 := Real.sqrt_nonneg (n : ℝ)
  have hδ := hfft.delta_nonneg
  have hF := hfft.etaF_nonneg
  have hu0 := h.u_pos.le
  obtain ⟨w, hw⟩ : ∃ w : ℝ, w = (2 : ℝ) ^ A.f.emin := ⟨_, rfl⟩
  have hw0 : 0 ≤ w := by rw [hw]; positivity
  rw [← hw] at hT
  have hT0 : 0 ≤ T := by rw [hT]; positivity
  have hT6 : T ≤ 1 / 300 := by
    have : 3 * T ≤ (3 * n + 1) * T := mul_le_mul_of_nonneg_right (by linarith) hT0
    linarith
  obtain ⟨⟨k1, k2, k3, k4, k5, k6⟩, c1, c2, c3, c4, c5, c6, c7⟩ := ieee_const h hn hN hδ hF hw hT hT6 rfl rfl rfl (Q := Q)
  have hpmf := ieee_pmf h hn hL (by omega) hγ0 hγ1 hgap hQ (by linarith) c1 hmin
  have hops : SignedOps (ieeeModel A u h) u Nmax := ieeeSigned h hNn hNp (by linarith)
  have heta : (ieeeModel A u h).eta = w / 2 := by
    show (2 : ℝ) ^ (A.f.emin - 1) = _
    rw [zpow_sub_one₀ (by norm_num), hw]; rfl
  have hg : (ieeeModel A u h).g = gU u := rfl
  obtain ⟨rho, hrho⟩ : ∃ rho : ℝ, rho = gU u ^ (Q + 1) - 1 + (n + 1) * w * gU u ^ (Q + 1) := ⟨_, rfl⟩
  obtain ⟨eps, heps⟩ : ∃ eps : ℝ, eps = √Nmax * (13 * u + 4 * delta) + ((1 + u) ^ 128 - 1) := ⟨_, rfl⟩
  obtain ⟨om, hom⟩ : ∃ om : ℝ, om = √Nmax * 2 * (12 * etaF + 34 * (Nmax * (w / 2))) + 128 ^ 2 * (1 + u) ^ 128 * (w / 2) := ⟨_, rfl⟩
  obtain ⟨tau, htau⟩ : ∃ tau : ℝ, tau = (1 + rho) * (1 + eps) - 1 + om + (n + 1) * (w / 2) := ⟨_, rfl⟩
  rw [← hrho, ← heps, ← hom] at k1
  rw [← hrho] at k5
  rw [← heps] at k4
  rw [← hom] at k6
  have hwn : 0 ≤ ((n : ℝ) + 1) * (w / 2) := by positivity
  have hkT : 1 + tau ≤ 1 + T := by rw [htau]; linarith
  have hk1 : 1 ≤ 1 + tau := by
    rw [htau]
    have := mul_nonneg k5 k4
    linarith
  obtain ⟨A', hA⟩ : ∃ A', A' = (1 + u) * (((1 + tau) ^ (3 * n + 1) - 1) * gU u ^ (Q + 1) / poissonProb n n + (gU u ^ (Q + 1) - 1)) + u + w / 2 := ⟨_, rfl⟩
  obtain ⟨f1, f2⟩ := final_bound hn (by omega : 3 ≤ 3 * n + 1) hu0 (by linarith : 0 ≤ w / 2) c3 (by linarith) k3 k2 hk1 hkT
    (by push_cast; exact hsmall) hA
  push_cast at f2
  have hA6 : 6 / 5 * Real.exp 1 * √n * ((3 * n + 1) * T) ≤ 6 * √n := by
    have h1 : Real.exp 1 ≤ 3 := by have := Real.exp_one_lt_d9; linarith
    have h2 : Real.exp 1 * √(n : ℝ) ≤ 3 * √n := mul_le_mul_of_nonneg_right h1 hsq0
    have h3 : 6 / 5 * Real.exp 1 * √(n : ℝ) * ((3 * n + 1) * T) ≤ 6 / 5 * Real.exp 1 * √(n : ℝ) * (1 / 100) :=
      mul_le_mul_of_nonneg_left hsmall (by positivity)
    linarith
  have hO : (512 : ℝ) ≤ (ieeeModel A u h).Omega := by
    show (512 : ℝ) ≤ (2 : ℝ) ^ (A.f.emax - 1)
    linarith
  have hsqn : √(n : ℝ) ≤ n := sqrt_le_nat hn
  obtain ⟨x, hx, hxf, hxA⟩ := C53_ecdf1_new_b_error (R := ieeeModel A u h) env hn hpmf hops (ieeeReflect h) hfft hN le_rfl hz ho hbS hbf hb isqrt ha
    c5 c6 (by rw [heta]; exact c7) (rho := rho) (eps := eps) (om := om) (tau := tau) (A := A')
    (by rw [hg, hrho, hw]) heps (by rw [heta]; exact hom) (by rw [heta]; exact htau) f1 (by rw [heta, hg]; exact hA) hO
    (by rw [heta]
        refine le_trans ?_ hO
        have : (1 + u) ^ 128 * (4 + 128 * (w / 2)) ≤ 2 * (4 + 128 * (w / 2)) := mul_le_mul_of_nonneg_right c2 (by linarith)
        linarith)
    (by show 1 + A' ≤ (2 : ℝ) ^ (A.f.emax - 1)
        have : (2 : ℝ) * n + 2049 ≤ Nmax := by exact_mod_cast hN
        have hQ10 : 10 * (n : ℝ) ≤ Q := by
          have hln : 0 ≤ Real.log n := Real.log_nonneg hnr
          have hlg : 0 ≤ Real.log (1 / gap) := Real.log_nonneg (by rw [le_div_iff₀ hγ0]; linarith)
          have hlf := Real.log_natCast_nonneg n.factorial
          have hLam0 : 0 ≤ 5 * (n : ℝ) * (Real.log n + Real.log (1 / gap)) := by positivity
          linarith
        linarith)
  exact ⟨x, hx, hxf, hxA.trans (by linarith)⟩

end
end CP.Spec
