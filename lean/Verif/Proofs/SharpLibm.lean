import Verif.Proofs.FastLibm
import Verif.Proofs.SharpRound
/-! Accuracy of the Poisson probabilities, with a number of rounding errors that grows linearly with the mean and the number of points. -/
set_option linter.unusedVariables false
open Finset
namespace CP.Spec
noncomputable section
variable {F : Type} [FOps F] {R : FloatModel F}
open FOps

theorem sharp_log_fact (n : ℕ) : Real.log n.factorial ≤ n * Real.log n := by
  rcases Nat.eq_zero_or_pos n with rfl | h
  · simp
  have h0 : (0 : ℝ) < n.factorial := by exact_mod_cast Nat.factorial_pos n
  have h1 : (n.factorial : ℝ) ≤ (n : ℝ) ^ n := by exact_mod_cast Nat.factorial_le_pow n
  calc Real.log n.factorial ≤ Real.log ((n : ℝ) ^ n) := Real.log_le_log h0 h1
    _ = n * Real.log n := by rw [Real.log_pow]

set_option maxHeartbeats 1000000 in
/-- The exponent computed by legal fast-math code: the error grows linearly with the mean and with the number of points. -/
theorem sharpExponent_approx {n : ℕ} {etaE expMin : ℝ} {co : FastCode F} {ex : ℕ} (M : MathLibrary R n etaE expMin)
    (hco : FastOps R co n etaE expMin) (hleg : FastCode.Legal co ex) (hg : R.g ≤ 8 / 7) {lam Lam : ℝ}
    (hlam : 0 < lam) (hlamn : lam ≤ n) (hLam : |Real.log lam| ≤ Lam)
    (hO : 7 * (n * Lam + n + Real.log n.factorial) ≤ R.Omega)
    {w : F} (hw : R.finite w) (hw1 : lam / R.g ^ 2 ≤ R.val w) (hw2 : R.val w ≤ lam * R.g ^ 2) {k : ℕ} (hk : k ≤ n) (site : ℕ) :
    R.finite ((co.exponent site k).eval co.fma w (ofInt k) (log w) (lgamma (ofInt (k + 1)))) ∧
    |R.val ((co.exponent site k).eval co.fma w (ofInt k) (log w) (lgamma (ofInt (k + 1)))) - (- lam + k * Real.log lam - Real.log k.factorial)|
      ≤ Real.log R.g * (8 * lam + k * (5 * Lam + 5 * Real.log n + 4)) := by
  have h1 := R.one_le_g
  obtain ⟨u0, u8, ug, g7, gl0⟩ := u_bounds h1 hg
  have g0 : 0 < R.g := R.g_pos
  have hw0 : 0 < R.val w := lt_of_lt_of_le (by positivity) hw1
  have hn : (0 : ℝ) ≤ n := Nat.cast_nonneg n
  have hk0 : (0 : ℝ) ≤ k := Nat.cast_nonneg k
  have hkn : (k : ℝ) ≤ n := by exact_mod_cast hk
  have hG : 0 ≤ Real.log k.factorial := Real.log_natCast_nonneg _
  have hGn := log_factorial_mono hk
  have hLam0 : 0 ≤ Lam := (abs_nonneg _).trans hLam
  have hnL : 0 ≤ n * Lam := mul_nonneg hn hLam0
  have hLL : |Real.log (R.val w) - Real.log lam| ≤ 2 * Real.log R.g := by
    have a1 := Real.log_le_log (by positivity) hw1
    have a2 := Real.log_le_log hw0 hw2
    rw [Real.log_div hlam.ne' (by positivity), Real.log_pow] at a1
    rw [Real.log_mul hlam.ne' (by positivity), Real.log_pow] at a2
    push_cast at a1 a2
    rw [abs_le]; constructor <;> linarith
  have hLt1 : |Real.log (R.val w)| ≤ Lam + 2 / 7 := by
    have := abs_add_le (Real.log (R.val w) - Real.log lam) (Real.log lam)
    rw [sub_add_cancel] at this
    linarith
  have hdiff : |R.val w - lam| ≤ 2 * (1 - 1 / R.g) * (64 / 49 * lam) ∧ R.val w ≤ 64 / 49 * lam := by
    have hg2 : R.g ^ 2 ≤ 64 / 49 := by nlinarith
    have hlt3 : R.val w ≤ 64 / 49 * lam := by
      calc R.val w ≤ lam * R.g ^ 2 := hw2
        _ ≤ lam * (64 / 49) := mul_le_mul_of_nonneg_left hg2 hlam.le
        _ = _ := by ring
    have hinv : 1 - 1 / R.g ^ 2 ≤ 2 * (1 - 1 / R.g) := by
      have : 2 * (1 - 1 / R.g) - (1 - 1 / R.g ^ 2) = (1 - 1 / R.g) ^ 2 := by field_simp; ring
      nlinarith [sq_nonneg (1 - 1 / R.g)]
    have hinv0 : 0 ≤ 1 - 1 / R.g ^ 2 := by
      have : 1 / R.g ^ 2 ≤ 1 := by rw [div_le_one (by positivity)]; nlinarith
      linarith
    have key : ∀ x y : ℝ, 0 ≤ x → x / R.g ^ 2 ≤ y → x ≤ 64 / 49 * lam → x - y ≤ 2 * (1 - 1 / R.g) * (64 / 49 * lam) := by
      intro x y hx hxy hxn
      have e : x - x / R.g ^ 2 = (1 - 1 / R.g ^ 2) * x := by field_simp
      calc x - y ≤ (1 - 1 / R.g ^ 2) * x := by linarith
        _ ≤ 2 * (1 - 1 / R.g) * (64 / 49 * lam) := mul_le_mul hinv hxn hx (by positivity)
    refine ⟨?_, hlt3⟩
    have k1 := key lam (R.val w) hlam.le hw1 (by linarith)
    have k2 := key (R.val w) lam hw0.le (by rw [div_le_iff₀ (by positivity)]; exact hw2) hlt3
    rw [abs_le]; constructor <;> linarith
  obtain ⟨hd, hlt3⟩ := hdiff
  obtain ⟨fl, hl⟩ := M.log w hw hw0
  obtain ⟨fG, hGt⟩ := M.lgamma k hk
  set l := R.val (log w) with hldef
  set Gt := R.val (lgamma (ofInt (k + 1) : F)) with hGtdef
  set G := Real.log (k.factorial : ℝ)
  set Lt := Real.log (R.val w) with hLt
  set L := Real.log lam with hL
  set X := k * |Lt| with hX
  have hX0 : 0 ≤ X := by positivity
  have hXn : X ≤ n * Lam + 2 / 7 * n := by
    calc X ≤ n * (Lam + 2 / 7) := mul_le_mul hkn hLt1 (abs_nonneg _) hn
      _ = _ := by ring
  have hl2 : |l| ≤ 9 / 8 * |Lt| := rel_err_abs' u8 hl le_rfl
  have hkl : |k * l| ≤ 9 / 8 * X := by
    rw [abs_mul, abs_of_nonneg hk0]
    calc k * |l| ≤ k * (9 / 8 * |Lt|) := mul_le_mul_of_nonneg_left hl2 hk0
      _ = _ := by rw [hX]; ring
  have hGt2 : |Gt| ≤ 9 / 8 * G := rel_err_abs' (z := G) u8 (by rwa [abs_of_nonneg hG]) (abs_of_nonneg hG).le
  have hMg : |R.val w| + |k * l| + |Gt| ≤ R.val w + 9 / 8 * X + 9 / 8 * G := by
    rw [abs_of_pos hw0]; linarith
  have e2 : 2 - 1 / R.g = 1 + (1 - 1 / R.g) := by ring
  obtain ⟨ft, ht⟩ := expTree_error M hco hk hw fl fG (H := 3) (by
    intro m hm
    have p1 : (2 - 1 / R.g) ^ m ≤ (9 / 8) ^ 3 := by
      calc (2 - 1 / R.g) ^ m ≤ (9 / 8) ^ m := pow_le_pow_left₀ (by linarith) (by linarith) m
        _ ≤ (9 / 8) ^ 3 := pow_le_pow_right₀ (by norm_num) hm
    have p2 : ((3 : ℕ) : ℝ) * (|R.val w| + |k * l| + |Gt|) ≤ 3 * (64 / 49 * n + 9 / 8 * (n * Lam + 2 / 7 * n) + 9 / 8 * Real.log n.factorial) := by
      push_cast
      have : 9 / 8 * G ≤ 9 / 8 * Real.log n.factorial := by linarith
      linarith
    refine (mul_le_mul p1 p2 (by positivity) (by positivity)).trans (le_trans ?_ hO)
    have hfn : 0 ≤ Real.log (n.factorial : ℝ) := Real.log_natCast_nonneg _
    nlinarith) (co.exponent site k) (hleg.uses site k).le
  refine ⟨ft, ?_⟩
  obtain ⟨q1, q2⟩ := mag_legal (hleg.coeffs site k) (hleg.uses site k) (R.val w) (k * l) Gt
  rw [q1, q2, hleg.uses site k, e2] at ht
  set v := R.val ((co.exponent site k).eval co.fma w (ofInt k) (log w) (lgamma (ofInt (k + 1))))
  set u := 1 - 1 / R.g with hu
  have hp3 : (1 + u) ^ 3 - 1 ≤ 17 / 5 * u := fast_cube_bound u0 u8
  have ht2 : |v - (- R.val w + k * l - Gt)| ≤ 17 / 5 * u * (R.val w + 9 / 8 * X + 9 / 8 * G) := by
    refine ht.trans (mul_le_mul hp3 hMg (by positivity) (by positivity))
  have e3 : |k * (Lt - L)| ≤ 2 * Real.log R.g * k := by
    rw [abs_mul, abs_of_nonneg hk0]
    calc k * |Lt - L| ≤ k * (2 * Real.log R.g) := mul_le_mul_of_nonneg_left hLL hk0
      _ = _ := by ring
  have e4 : |k * (l - Lt)| ≤ u * X := by
    rw [abs_mul, abs_of_nonneg hk0]
    calc k * |l - Lt| ≤ k * (u * |Lt|) := mul_le_mul_of_nonneg_left hl hk0
      _ = _ := by rw [hX]; ring
  have tri : |v - (- lam + k * L - G)| ≤ |v - (- R.val w + k * l - Gt)| + |k * (l - Lt)| + |k * (Lt - L)|
      + |R.val w - lam| + |Gt - G| := by
    have q : v - (- lam + k * L - G) = (v - (- R.val w + k * l - Gt)) + k * (l - Lt) + k * (Lt - L)
      - (R.val w - lam) - (Gt - G) := by ring
    rw [q]
    refine (abs_sub _ _).trans (add_le_add ((abs_sub _ _).trans (add_le_add ?_ le_rfl)) le_rfl)
    exact (abs_add_le _ _).trans (add_le_add (abs_add_le _ _) le_rfl)
  have hsum : |v - (- lam + k * L - G)| ≤ u * (17 / 5 * R.val w + 5 * X + 5 * G + 128 / 49 * lam) + 2 * Real.log R.g * k := by
    have huX := mul_nonneg u0 hX0
    have huG := mul_nonneg u0 hG
    linarith
  have hXk : X ≤ k * Lam + 2 / 7 * k := by
    calc X ≤ k * (Lam + 2 / 7) := mul_le_mul_of_nonneg_left hLt1 hk0
      _ = _ := by ring
  have hGk : G ≤ k * Real.log n := by
    refine (sharp_log_fact k).trans ?_
    rcases Nat.eq_zero_or_pos k with h0 | h0
    · rw [h0]; simp
    · exact mul_le_mul_of_nonneg_left (Real.log_le_log (by exact_mod_cast h0) hkn) hk0
  have hin : 17 / 5 * R.val w + 5 * X + 5 * G + 128 / 49 * lam ≤ 8 * lam + k * (5 * Lam + 5 * Real.log n + 2) := by
    linarith
  have hin0 : 0 ≤ 17 / 5 * R.val w + 5 * X + 5 * G + 128 / 49 * lam := by positivity
  have h3 : u * (17 / 5 * R.val w + 5 * X + 5 * G + 128 / 49 * lam) ≤ Real.log R.g * (8 * lam + k * (5 * Lam + 5 * Real.log n + 2)) :=
    mul_le_mul ug hin hin0 gl0
  linarith

/-- `SharpPmf` follows from the accuracy of the individual operations. -/
theorem sharpPmf_of_lib {n : ℕ} {etaE expMin : ℝ} {co : FastCode F} {ex : ℕ} (M : MathLibrary R n etaE expMin)
    (hco : FastOps R co n etaE expMin) (hleg : FastCode.Legal co ex) (hg : R.g ≤ 8 / 7) (hn : 1 ≤ n)
    {S : Set F} {Lam : ℝ} (hln : Real.log n ≤ Lam)
    (hLam : ∀ x ∈ S, ∀ y ∈ S, R.finite x → R.finite y → 0 ≤ R.val x → R.val x < R.val y → R.val y ≤ 1 →
      |Real.log (n * (R.val y - R.val x))| ≤ Lam)
    {P Q : ℕ} (hP : 5 * Lam + 5 * Real.log n + 4 ≤ P) (hQ : Q = 8 * n + n * P)
    (hO : 7 * (n * Lam + n + Real.log n.factorial) ≤ R.Omega) (hO2 : R.g ^ (Q + 1) / poissonProb n n ≤ R.Omega)
    (hmin : expMin * R.g ^ Q ≤ poissonProb n n) :
    SharpPmf R co S n P etaE := by
  have h1 := R.one_le_g
  have hpp : 0 < poissonProb (n : ℝ) n := by unfold poissonProb; positivity
  have hpp1 : poissonProb (n : ℝ) n ≤ 1 := by rw [poissonProb_eq]; exact pois_le_one (Nat.cast_nonneg n) n
  have hO3 : R.g ^ Q / poissonProb n n ≤ R.Omega :=
    (div_le_div_of_nonneg_right (R.pow_le (by omega)) hpp.le).trans hO2
  have hO4 : R.g ^ Q ≤ R.Omega := le_trans (le_div_self (R.pow_pos' Q).le hpp hpp1) hO3
  have g0 := R.g_pos
  have gQ := R.pow_pos' Q
  have hnr : (1 : ℝ) ≤ n := by exact_mod_cast hn
  have hfac : 0 ≤ Real.log n.factorial := Real.log_natCast_nonneg _
  have hln0 : 0 ≤ Real.log n := Real.log_natCast_nonneg _
  have hnL : 0 ≤ n * Lam := mul_nonneg (by linarith) (hln0.trans hln)
  have hOn : (n : ℝ) * 2 ≤ R.Omega := by linarith
  -- the computed lambda
  have hlam : ∀ x y : F, R.finite x → R.finite y → 0 ≤ R.val x → R.val x ≤ R.val y → R.val y ≤ 1 →
      R.finite (ofInt n *ᶠ (y -ᶠ x)) ∧ n * (R.val y - R.val x) / R.g ^ 2 ≤ R.val (ofInt n *ᶠ (y -ᶠ x)) ∧
      R.val (ofInt n *ᶠ (y -ᶠ x)) ≤ n * (R.val y - R.val x) * R.g ^ 2 := by
    intro x y fx fy x0 xy y1
    have d0 : 0 ≤ R.val y - R.val x := by linarith
    obtain ⟨fd, hd⟩ := M.sub y x fy fx (by rw [abs_of_nonneg d0]; linarith)
    obtain ⟨hd1, hd2⟩ := rel_err_factor h1 d0 hd
    have hd0 : 0 ≤ R.val (y -ᶠ x) := le_trans (by positivity) hd1
    have hdg : R.val (y -ᶠ x) ≤ 2 := by
      refine hd2.trans ?_
      calc (R.val y - R.val x) * R.g ≤ 1 * (8 / 7) := mul_le_mul (by linarith) hg g0.le (by norm_num)
        _ ≤ 2 := by norm_num
    have hnd : 0 ≤ n * R.val (y -ᶠ x) := by positivity
    obtain ⟨fm, hm⟩ := M.scale n _ le_rfl fd (by
      rw [abs_of_nonneg hnd]
      exact (mul_le_mul_of_nonneg_left hdg (by linarith)).trans hOn)
    obtain ⟨hm1, hm2⟩ := rel_err_factor h1 hnd hm
    refine ⟨fm, le_trans ?_ hm1, hm2.trans ?_⟩
    · have e : n * (R.val y - R.val x) / R.g ^ 2 = n * ((R.val y - R.val x) / R.g) / R.g := by field_simp
      rw [e]
      exact div_le_div_of_nonneg_right (mul_le_mul_of_nonneg_left hd1 (by linarith)) g0.le
    · have e : n * (R.val y - R.val x) * R.g ^ 2 = n * ((R.val y - R.val x) * R.g) * R.g := by ring
      rw [e]
      exact mul_le_mul_of_nonneg_right (mul_le_mul_of_nonneg_left hd2 (by linarith)) g0.le
  have hfn := M.ofInt n (by omega)
  have hQr : 8 * (n : ℝ) + n * (5 * Lam + 5 * Real.log n + 4) ≤ Q := by
    rw [hQ]
    push_cast
    exact add_le_add le_rfl (mul_le_mul_of_nonneg_left hP (by linarith))
  refine ⟨M.etaE_nonneg, ?_, ?_, ?_, ?_, ?_⟩
  · intro x _ y _ fx fy x0 xy y1
    obtain ⟨fw, w1, w2⟩ := hlam x y fx fy x0 xy y1
    have d0 : 0 ≤ R.val y - R.val x := by linarith
    have hw0 : 0 ≤ R.val (ofInt n *ᶠ (y -ᶠ x)) := le_trans (by positivity) w1
    have hpos : 0 < R.val (ofInt n *ᶠ (y -ᶠ x)) ↔ R.val x < R.val y := by
      constructor
      · intro h
        by_contra hc
        have e : R.val y - R.val x = 0 := by linarith
        rw [e] at w2; simp at w2; linarith
      · intro h
        have : 0 < R.val y - R.val x := by linarith
        exact lt_of_lt_of_le (by positivity) w1
    refine ⟨?_, ?_, ?_⟩
    · rw [Bool.eq_false_iff, Ne, R.lt_iff _ _ fw R.zero_finite, R.val_zero]
      exact not_lt.mpr hw0
    · rw [R.lt_iff _ _ R.zero_finite fw, R.val_zero]; exact hpos
    · rw [M.eq_iff _ _ fw R.zero_finite, R.val_zero]
      constructor
      · intro h
        by_contra hc
        have := hpos.mpr (lt_of_le_of_ne xy hc)
        linarith
      · intro h
        by_contra hc
        have := hpos.mp (lt_of_le_of_ne hw0 (Ne.symm hc))
        linarith
  · intro site x hx y hy fx fy x0 xy y1 k hk p hp
    obtain ⟨fw, w1, w2⟩ := hlam x y fx fy x0 xy.le y1
    have d0 : 0 < R.val y - R.val x := by linarith
    have hl0 : 0 < n * (R.val y - R.val x) := by positivity
    have hl1 : n * (R.val y - R.val x) ≤ n := by nlinarith
    obtain ⟨fs, hs⟩ := sharpExponent_approx M hco hleg hg hl0 hl1 (hLam x hx y hy fx fy x0 xy y1) hO fw w1 w2 hk site
    obtain ⟨T, hT⟩ : ∃ T, T = ⌈8 * (n * (R.val y - R.val x))⌉₊ + k * P := ⟨_, rfl⟩
    have hTr : 8 * (n * (R.val y - R.val x)) + k * (5 * Lam + 5 * Real.log n + 4) ≤ T := by
      rw [hT]
      push_cast
      exact add_le_add (Nat.le_ceil _) (mul_le_mul_of_nonneg_left hP (Nat.cast_nonneg k))
    have hTQ : T ≤ Q := by
      rw [hT, hQ]
      refine Nat.add_le_add (Nat.ceil_le.mpr ?_) (Nat.mul_le_mul_right _ hk)
      push_cast; linarith
    rw [← hT]
    have gT := R.pow_pos' T
    have hOT : R.g ^ T ≤ R.Omega := (R.pow_le hTQ).trans hO4
    obtain ⟨e1, e2⟩ := exp_factor h1 hs hTr
    rw [log_pois hl0] at e1 e2
    have hp1 : poissonProb (n * (R.val y - R.val x)) k ≤ 1 := by
      rw [poissonProb_eq]; exact pois_le_one hl0.le k
    have hp0 : 0 ≤ poissonProb (n * (R.val y - R.val x)) k := by unfold poissonProb; positivity
    obtain ⟨fe, he0, he1, he2, -⟩ := hco.exp site k _ fs (e2.trans ((mul_le_of_le_one_left gT.le hp1).trans hOT))
    subst hp
    refine ⟨fe, he0, le_trans ?_ he1, he2.trans ?_⟩
    · have := div_le_div_of_nonneg_right e1 g0.le
      rw [div_div, ← pow_succ] at this
      linarith
    · have t1 := mul_le_mul_of_nonneg_right e2 g0.le
      rw [mul_assoc, ← pow_succ] at t1
      have t2 : etaE ≤ etaE * R.g ^ (T + 1) := le_mul_of_one_le_right M.etaE_nonneg (R.one_le_pow _)
      linarith
  · refine ⟨?_, ?_⟩
    · unfold ge
      rw [(R.lt_iff _ _ R.zero_finite hfn.1).mpr (by rw [R.val_zero, hfn.2]; linarith)]
      rfl
    · rw [Bool.eq_false_iff, Ne, M.eq_iff _ _ hfn.1 R.zero_finite, R.val_zero, hfn.2]
      intro h; linarith
  · intro site y p hy hp
    rw [← hQ]
    have hl0 : (0 : ℝ) < n := by linarith
    have hg2 : 1 ≤ R.g ^ 2 := R.one_le_pow 2
    obtain ⟨fs, hs⟩ := sharpExponent_approx M hco hleg hg hl0 le_rfl (by rw [abs_of_nonneg hln0]; exact hln) hO hfn.1
      (by rw [hfn.2]; exact div_le_self hl0.le hg2) (by rw [hfn.2]; exact le_mul_of_one_le_right hl0.le hg2) (le_refl n) site
    obtain ⟨e1, e2⟩ := exp_factor h1 hs hQr
    rw [log_pois hl0] at e1 e2
    have hp1 : poissonProb (n : ℝ) n ≤ 1 := by
      rw [poissonProb_eq]; exact pois_le_one hl0.le n
    obtain ⟨fe, -, -, -, he⟩ := hco.exp site n _ fs (e2.trans ((mul_le_of_le_one_left gQ.le hp1).trans hO4))
    obtain ⟨he1, he2⟩ := he (le_trans (by rw [le_div_iff₀ gQ]; exact hmin) e1)
    subst hp hy
    refine ⟨fe, le_trans ?_ he1, he2.trans ?_⟩
    · have := div_le_div_of_nonneg_right e1 g0.le
      rwa [div_div, ← pow_succ] at this
    · have t1 := mul_le_mul_of_nonneg_right e2 g0.le
      rwa [mul_assoc, ← pow_succ] at t1
  · intro site y p hy hp
    rw [← hQ]
    have hl0 : (0 : ℝ) < n := by linarith
    have hg2 : 1 ≤ R.g ^ 2 := R.one_le_pow 2
    obtain ⟨fs, hs⟩ := sharpExponent_approx M hco hleg hg hl0 le_rfl (by rw [abs_of_nonneg hln0]; exact hln) hO hfn.1
      (by rw [hfn.2]; exact div_le_self hl0.le hg2) (by rw [hfn.2]; exact le_mul_of_one_le_right hl0.le hg2) (le_refl n) site
    rw [← hy] at fs hs
    obtain ⟨fm, hm⟩ := M.neg y fs
    have hs' : |R.val (neg y) - -(- (n : ℝ) + n * Real.log n - Real.log n.factorial)| ≤ Real.log R.g * (8 * n + n * (5 * Lam + 5 * Real.log n + 4)) := by
      rw [hm, ← abs_neg]; convert hs using 2; ring
    obtain ⟨e1, e2⟩ := exp_factor h1 hs' hQr
    rw [Real.exp_neg, log_pois hl0, ← one_div] at e1 e2
    have e3 : 1 / poissonProb (n : ℝ) n * R.g ^ Q = R.g ^ Q / poissonProb n n := by ring
    obtain ⟨fe, -, -, -, he⟩ := hco.exp site n _ fm (e2.trans (e3.le.trans hO3))
    have hone : 1 ≤ 1 / poissonProb (n : ℝ) n := by rw [le_div_iff₀ hpp]; linarith
    obtain ⟨he1, he2⟩ := he (le_trans (by rw [le_div_iff₀ gQ]; exact hmin.trans (hpp1.trans hone)) e1)
    subst hp
    refine ⟨fe, le_trans ?_ he1, he2.trans ?_⟩
    · have := div_le_div_of_nonneg_right e1 g0.le
      rwa [div_div, ← pow_succ] at this
    · have t1 := mul_le_mul_of_nonneg_right e2 g0.le
      rwa [mul_assoc, ← pow_succ] at t1
end
end CP.Spec
