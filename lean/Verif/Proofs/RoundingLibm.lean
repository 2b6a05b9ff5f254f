import Verif.Proofs.RoundingFinal
import Mathlib.Analysis.SpecialFunctions.Log.Deriv
/-! `PmfAccurate` from the accuracy of the individual operations. -/
namespace CP.Spec
open FOps
section
variable {F : Type} [FOps F] {R : FloatModel F}

theorem rel_err_abs' {u z f w : ℝ} (u8 : u ≤ 1 / 8) (h : |f - z| ≤ u * |z|) (hw : |z| ≤ w) : |f| ≤ 9 / 8 * w := by
  have : |f| ≤ |f - z| + |z| := by
    have := abs_add_le (f - z) z
    simpa using this
  have : u * |z| ≤ 1 / 8 * |z| := mul_le_mul_of_nonneg_right u8 (abs_nonneg z)
  linarith

theorem u_bounds {g : ℝ} (h1 : 1 ≤ g) (h2 : g ≤ 8 / 7) :
    0 ≤ 1 - 1 / g ∧ 1 - 1 / g ≤ 1 / 8 ∧ 1 - 1 / g ≤ Real.log g ∧ Real.log g ≤ 1 / 7 ∧ 0 ≤ Real.log g := by
  have g0 : 0 < g := by linarith
  refine ⟨?_, ?_, ?_, ?_, Real.log_nonneg h1⟩
  · have : 1 / g ≤ 1 := by rw [div_le_one g0]; exact h1
    linarith
  · have : 7 / 8 ≤ 1 / g := by rw [div_le_div_iff₀ (by norm_num) g0]; linarith
    linarith
  · have := Real.one_sub_inv_le_log_of_pos g0
    simpa using this
  · have := Real.log_le_sub_one_of_pos g0
    linarith

/-- A relative error `1 - 1/g` on a positive number is a factor between `1/g` and `g`. -/
theorem rel_err_factor {g z f : ℝ} (h1 : 1 ≤ g) (hz : 0 ≤ z) (h : |f - z| ≤ (1 - 1 / g) * |z|) :
    z / g ≤ f ∧ f ≤ z * g := by
  have g0 : 0 < g := by linarith
  rw [abs_of_nonneg hz] at h
  have := abs_le.mp h
  refine ⟨?_, ?_⟩
  · have e : (1 - 1 / g) * z = z - z / g := by field_simp
    linarith [this.1]
  · have e : (1 - 1 / g) * z = z - z / g := by field_simp
    have h3 : 2 - 1 / g ≤ g := by
      rw [sub_le_iff_le_add, ← sub_nonneg]
      have : g + 1 / g - 2 = (g - 1) ^ 2 / g := by field_simp; ring
      rw [this]; positivity
    have : z * (2 - 1 / g) ≤ z * g := mul_le_mul_of_nonneg_left h3 hz
    have e2 : z * (2 - 1/g) = z + (1 - 1/g) * z := by ring
    linarith [this, abs_le.mp h |>.2]

set_option maxHeartbeats 800000 in
/-- Error of the exponent `-lam + k*log(lam) - lgamma(k+1)`, purely about real numbers: `lt` approximates `lam` up to a factor
`g^2`, the other quantities are the rounded intermediate results. -/
theorem exponent_error {g lam lt l m s1 s2 G Gt Lam k n : ℝ} (h1 : 1 ≤ g) (h2 : g ≤ 8 / 7)
    (hlam : 0 < lam) (hlamn : lam ≤ n) (hk : 0 ≤ k) (hkn : k ≤ n) (hG : 0 ≤ G)
    (hLam : |Real.log lam| ≤ Lam)
    (hlt1 : lam / g ^ 2 ≤ lt) (hlt2 : lt ≤ lam * g ^ 2)
    (hl : |l - Real.log lt| ≤ (1 - 1 / g) * |Real.log lt|)
    (hm : |m - k * l| ≤ (1 - 1 / g) * |k * l|)
    (hs1 : |s1 - (- lt + m)| ≤ (1 - 1 / g) * |- lt + m|)
    (hGt : |Gt - G| ≤ (1 - 1 / g) * G)
    (hs2 : |s2 - (s1 - Gt)| ≤ (1 - 1 / g) * |s1 - Gt|) :
    |s2 - (- lam + k * Real.log lam - G)| ≤ Real.log g * (5 * n * Lam + 10 * n + 3 * G) := by
  obtain ⟨u0, u8, ug, g7, gl0⟩ := u_bounds h1 h2
  have g0 : 0 < g := by linarith
  have hlt0 : 0 < lt := lt_of_lt_of_le (by positivity) hlt1
  have hn : 0 ≤ n := hk.trans hkn
  have hLL : |Real.log lt - Real.log lam| ≤ 2 * Real.log g := by
    have a1 := Real.log_le_log (by positivity) hlt1
    have a2 := Real.log_le_log hlt0 hlt2
    rw [Real.log_div hlam.ne' (by positivity), Real.log_pow] at a1
    rw [Real.log_mul hlam.ne' (by positivity), Real.log_pow] at a2
    push_cast at a1 a2
    rw [abs_le]; constructor <;> linarith
  have hdiff : |lt - lam| ≤ 2 * (1 - 1 / g) * (64 / 49 * n) ∧ lt ≤ 64 / 49 * n := by
    have hg2 : g ^ 2 ≤ 64 / 49 := by nlinarith
    have hlt3 : lt ≤ 64 / 49 * n := by
      calc lt ≤ lam * g ^ 2 := hlt2
        _ ≤ n * (64 / 49) := mul_le_mul hlamn hg2 (by positivity) hn
        _ = _ := by ring
    have hinv : 1 - 1 / g ^ 2 ≤ 2 * (1 - 1 / g) := by
      have : 2 * (1 - 1 / g) - (1 - 1 / g ^ 2) = (1 - 1 / g) ^ 2 := by field_simp; ring
      nlinarith [sq_nonneg (1 - 1 / g)]
    have hinv0 : 0 ≤ 1 - 1 / g ^ 2 := by
      have : 1 / g ^ 2 ≤ 1 := by rw [div_le_one (by positivity)]; nlinarith
      linarith
    have key : ∀ x y : ℝ, 0 ≤ x → x / g ^ 2 ≤ y → x ≤ 64 / 49 * n → x - y ≤ 2 * (1 - 1 / g) * (64 / 49 * n) := by
      intro x y hx hxy hxn
      have e : x - x / g ^ 2 = (1 - 1 / g ^ 2) * x := by field_simp
      calc x - y ≤ (1 - 1 / g ^ 2) * x := by linarith
        _ ≤ 2 * (1 - 1 / g) * (64 / 49 * n) := mul_le_mul hinv hxn hx (by positivity)
    refine ⟨?_, hlt3⟩
    have k1 := key lam lt hlam.le hlt1 (by linarith)
    have k2 := key lt lam hlt0.le (by rw [div_le_iff₀ (by positivity)]; exact hlt2) hlt3
    rw [abs_le]; constructor <;> linarith
  obtain ⟨hd, hlt3⟩ := hdiff
  set u := 1 - 1 / g with hu
  set Lt := Real.log lt with hLt
  set L := Real.log lam with hL
  have hLt1 : |Lt| ≤ Lam + 2 / 7 := by
    have := abs_add_le (Lt - L) L
    rw [sub_add_cancel] at this
    linarith
  set X := k * |Lt| with hX
  have hX0 : 0 ≤ X := by positivity
  have hXn : X ≤ n * Lam + 2 / 7 * n := by
    calc X ≤ n * (Lam + 2 / 7) := mul_le_mul hkn hLt1 (abs_nonneg _) hn
      _ = _ := by ring
  have hl2 : |l| ≤ 9 / 8 * |Lt| := by
    exact rel_err_abs' u8 hl le_rfl
  have hkl : |k * l| ≤ 9 / 8 * X := by
    rw [abs_mul, abs_of_nonneg hk]
    calc k * |l| ≤ k * (9 / 8 * |Lt|) := mul_le_mul_of_nonneg_left hl2 hk
      _ = _ := by rw [hX]; ring
  have hm2 : |m| ≤ 81 / 64 * X := by
    have := rel_err_abs' u8 hm hkl
    linarith
  have hm3 : |m - k * Lt| ≤ 17 / 8 * (u * X) := by
    have e : m - k * Lt = (m - k * l) + k * (l - Lt) := by ring
    have t1 : |k * (l - Lt)| ≤ u * X := by
      rw [abs_mul, abs_of_nonneg hk]
      calc k * |l - Lt| ≤ k * (u * |Lt|) := mul_le_mul_of_nonneg_left hl hk
        _ = _ := by rw [hX]; ring
    have t2 : u * |k * l| ≤ u * (9 / 8 * X) := mul_le_mul_of_nonneg_left hkl u0
    have := abs_add_le (m - k * l) (k * (l - Lt))
    rw [e]; linarith
  have hz1 : |- lt + m| ≤ lt + 81 / 64 * X := by
    have := abs_add_le (- lt) m
    rw [abs_neg, abs_of_pos hlt0] at this
    linarith
  have hs1b : |s1| ≤ 9 / 8 * (lt + 81 / 64 * X) := by
    exact rel_err_abs' u8 hs1 hz1
  have hGt2 : |Gt| ≤ 9 / 8 * G := by
    exact rel_err_abs' (z := G) u8 (by rwa [abs_of_nonneg hG]) (abs_of_nonneg hG).le
  have hz2 : |s1 - Gt| ≤ 9 / 8 * (lt + 81 / 64 * X) + 9 / 8 * G := by
    have := abs_sub s1 Gt
    linarith
  have e1 : |s2 - (s1 - Gt)| ≤ u * (9 / 8 * (lt + 81 / 64 * X) + 9 / 8 * G) :=
    hs2.trans (mul_le_mul_of_nonneg_left hz2 u0)
  have e2 : |s1 - (- lt + m)| ≤ u * (lt + 81 / 64 * X) := hs1.trans (mul_le_mul_of_nonneg_left hz1 u0)
  have e3 : |k * (Lt - L)| ≤ 2 * Real.log g * n := by
    rw [abs_mul, abs_of_nonneg hk]
    calc k * |Lt - L| ≤ n * (2 * Real.log g) := mul_le_mul hkn hLL (abs_nonneg _) hn
      _ = _ := by ring
  have tri : |s2 - (- lam + k * L - G)| ≤ |s2 - (s1 - Gt)| + |s1 - (- lt + m)| + |m - k * Lt| + |k * (Lt - L)|
      + |lt - lam| + |Gt - G| := by
    have q : s2 - (- lam + k * L - G) = (s2 - (s1 - Gt)) + (s1 - (- lt + m)) + (m - k * Lt) + k * (Lt - L)
      - (lt - lam) - (Gt - G) := by ring
    rw [q]
    refine (abs_sub _ _).trans (add_le_add ((abs_sub _ _).trans (add_le_add ?_ le_rfl)) le_rfl)
    refine (abs_add_le _ _).trans (add_le_add ((abs_add_le _ _).trans (add_le_add ?_ le_rfl)) le_rfl)
    exact abs_add_le _ _
  have huX := mul_nonneg u0 hX0
  have hsum : |s2 - (- lam + k * L - G)| ≤ u * (17 / 8 * lt + 5 * X + 17 / 8 * G + 128 / 49 * n) + 2 * Real.log g * n := by
    linarith
  have hin : 17 / 8 * lt + 5 * X + 17 / 8 * G + 128 / 49 * n ≤ 5 * n * Lam + 8 * n + 3 * G := by
    linarith
  have hin0 : 0 ≤ 17 / 8 * lt + 5 * X + 17 / 8 * G + 128 / 49 * n := by positivity
  have h3 : u * (17 / 8 * lt + 5 * X + 17 / 8 * G + 128 / 49 * n) ≤ Real.log g * (5 * n * Lam + 8 * n + 3 * G) :=
    mul_le_mul ug hin hin0 gl0
  linarith

theorem log_factorial_mono {k n : ℕ} (h : k ≤ n) : Real.log k.factorial ≤ Real.log n.factorial :=
  Real.log_le_log (by exact_mod_cast k.factorial_pos) (by exact_mod_cast Nat.factorial_le h)

theorem log_pois {lam : ℝ} (h : 0 < lam) (k : ℕ) :
    Real.exp (- lam + k * Real.log lam - Real.log k.factorial) = poissonProb lam k := by
  unfold poissonProb
  rw [Real.exp_sub, Real.exp_add, Real.exp_log (by exact_mod_cast k.factorial_pos), mul_comm (k : ℝ), Real.exp_mul,
    Real.exp_log h, Real.rpow_natCast]

/-- The computed exponent. -/
theorem exponent_approx {n : ℕ} {etaE expMin : ℝ} (M : MathLibrary R n etaE expMin) (hg : R.g ≤ 8 / 7) {lam Lam : ℝ}
    (hlam : 0 < lam) (hlamn : lam ≤ n) (hLam : |Real.log lam| ≤ Lam)
    (hO : 2 * (n * Lam + n + Real.log n.factorial) ≤ R.Omega)
    {w : F} (hw : R.finite w) (hw1 : lam / R.g ^ 2 ≤ R.val w) (hw2 : R.val w ≤ lam * R.g ^ 2) {k : ℕ} (hk : k ≤ n) :
    R.finite (neg w +ᶠ ofInt k *ᶠ log w -ᶠ lgamma (ofInt (k + 1))) ∧
    |R.val (neg w +ᶠ ofInt k *ᶠ log w -ᶠ lgamma (ofInt (k + 1))) - (- lam + k * Real.log lam - Real.log k.factorial)|
      ≤ Real.log R.g * (5 * n * Lam + 10 * n + 3 * Real.log n.factorial) := by
  have h1 := R.one_le_g
  obtain ⟨u0, u8, ug, g7, gl0⟩ := u_bounds h1 hg
  have g0 : 0 < R.g := R.g_pos
  have hw0 : 0 < R.val w := lt_of_lt_of_le (by positivity) hw1
  have hn : (0 : ℝ) ≤ n := Nat.cast_nonneg n
  have hk0 : (0 : ℝ) ≤ k := Nat.cast_nonneg k
  have hkn : (k : ℝ) ≤ n := by exact_mod_cast hk
  have hG : 0 ≤ Real.log k.factorial := Real.log_natCast_nonneg _
  have hGn := log_factorial_mono hk
  have hLam0 : 0 ≤ Lam := (abs_nonneg _).trans hLam
  have hnL : 0 ≤ n * Lam := mul_nonneg hn hLam0
  have hLL : |Real.log (R.val w) - Real.log lam| ≤ 2 * Real.log R.g := by
    have a1 := Real.log_le_log (by positivity) hw1
    have a2 := Real.log_le_log hw0 hw2
    rw [Real.log_div hlam.ne' (by positivity), Real.log_pow] at a1
    rw [Real.log_mul hlam.ne' (by positivity), Real.log_pow] at a2
    push_cast at a1 a2
    rw [abs_le]; constructor <;> linarith
  have hLt1 : |Real.log (R.val w)| ≤ Lam + 2 / 7 := by
    have := abs_add_le (Real.log (R.val w) - Real.log lam) (Real.log lam)
    rw [sub_add_cancel] at this
    linarith
  have hlt3 : R.val w ≤ 64 / 49 * n := by
    have hg2 : R.g ^ 2 ≤ 64 / 49 := by nlinarith
    calc R.val w ≤ lam * R.g ^ 2 := hw2
      _ ≤ n * (64 / 49) := mul_le_mul hlamn hg2 (by positivity) hn
      _ = _ := by ring
  obtain ⟨fl, hl⟩ := M.log w hw hw0
  have hl2 := rel_err_abs' u8 hl hLt1
  have hkl : |k * R.val (log w)| ≤ 9 / 8 * (n * Lam + 2 / 7 * n) := by
    rw [abs_mul, abs_of_nonneg hk0]
    calc k * |R.val (log w)| ≤ n * (9 / 8 * (Lam + 2 / 7)) := mul_le_mul hkn hl2 (abs_nonneg _) hn
      _ = _ := by ring
  obtain ⟨fm, hm⟩ := M.scale k _ hk fl (hkl.trans (by linarith))
  have hm2 := rel_err_abs' u8 hm hkl
  obtain ⟨fnw, hnw⟩ := M.neg w hw
  have hz1 : |R.val (neg w) + R.val (ofInt k *ᶠ log w)| ≤ 64 / 49 * n + 9 / 8 * (9 / 8 * (n * Lam + 2 / 7 * n)) := by
    refine (abs_add_le _ _).trans ?_
    rw [hnw, abs_neg, abs_of_pos hw0]
    linarith
  obtain ⟨fs, hs⟩ := M.add _ _ fnw fm (hz1.trans (by linarith))
  have hs1b := rel_err_abs' u8 hs hz1
  obtain ⟨fG, hGt⟩ := M.lgamma k hk
  have hGt2 := rel_err_abs' (z := Real.log k.factorial) u8 (by rwa [abs_of_nonneg hG]) (abs_of_nonneg hG).le
  have hz2 := abs_sub (R.val (neg w +ᶠ ofInt k *ᶠ log w)) (R.val (lgamma (ofInt (k + 1) : F)))
  obtain ⟨ff, hf⟩ := M.sub _ _ fs fG (hz2.trans (by linarith))
  refine ⟨ff, ?_⟩
  rw [hnw] at hs
  have := exponent_error h1 hg hlam hlamn hk0 hkn hG hLam hw1 hw2 hl hm hs hGt hf
  refine this.trans (mul_le_mul_of_nonneg_left ?_ gl0)
  linarith

theorem pois_le_one {lam : ℝ} (h : 0 ≤ lam) (k : ℕ) : pois lam k ≤ 1 := by
  refine le_trans ?_ (sum_pois_le h (k + 1))
  exact Finset.single_le_sum (f := fun i => pois lam i) (fun i _ => by unfold pois; positivity) (by simp)

theorem exp_factor {g x y : ℝ} {C : ℝ} {Q : ℕ} (h1 : 1 ≤ g) (h : |x - y| ≤ Real.log g * C) (hC : C ≤ Q) :
    Real.exp y / g ^ Q ≤ Real.exp x ∧ Real.exp x ≤ Real.exp y * g ^ Q := by
  have g0 : 0 < g := by linarith
  have hQ : Real.log g * C ≤ Q * Real.log g := by
    have := mul_le_mul_of_nonneg_left hC (Real.log_nonneg h1)
    linarith
  have e : g ^ Q = Real.exp (Q * Real.log g) := by
    rw [mul_comm, Real.exp_mul, Real.exp_log g0, Real.rpow_natCast]
  have hh := abs_le.mp h
  rw [e, ← Real.exp_sub, ← Real.exp_add]
  exact ⟨Real.exp_le_exp.mpr (by linarith), Real.exp_le_exp.mpr (by linarith)⟩

/-- `PmfAccurate` follows from the accuracy of the individual operations. -/
theorem pmfAccurate_of_lib {n : ℕ} {etaE expMin : ℝ} (M : MathLibrary R n etaE expMin) (hg : R.g ≤ 8 / 7) (hn : 1 ≤ n)
    {S : Set F} {Lam : ℝ} (hln : Real.log n ≤ Lam)
    (hLam : ∀ x ∈ S, ∀ y ∈ S, R.finite x → R.finite y → 0 ≤ R.val x → R.val x < R.val y → R.val y ≤ 1 →
      |Real.log (n * (R.val y - R.val x))| ≤ Lam)
    {Q : ℕ} (hQ : 5 * n * Lam + 10 * n + 3 * Real.log n.factorial ≤ Q)
    (hO : 2 * (n * Lam + n + Real.log n.factorial) ≤ R.Omega) (hO2 : R.g ^ Q ≤ R.Omega)
    (hmin : expMin * R.g ^ Q ≤ poissonProb n n) :
    PmfAccurate R S n (Q + 1) etaE := by
  have h1 := R.one_le_g
  have g0 := R.g_pos
  have gQ := R.pow_pos' Q
  have hnr : (1 : ℝ) ≤ n := by exact_mod_cast hn
  have hfac : 0 ≤ Real.log n.factorial := Real.log_natCast_nonneg _
  have hln0 : 0 ≤ Real.log n := Real.log_natCast_nonneg _
  have hnL : 0 ≤ n * Lam := mul_nonneg (by linarith) (hln0.trans hln)
  have hOn : (n : ℝ) * 2 ≤ R.Omega := by linarith
  -- the computed lambda
  have hlam : ∀ x y : F, R.finite x → R.finite y → 0 ≤ R.val x → R.val x ≤ R.val y → R.val y ≤ 1 →
      R.finite (ofInt n *ᶠ (y -ᶠ x)) ∧ n * (R.val y - R.val x) / R.g ^ 2 ≤ R.val (ofInt n *ᶠ (y -ᶠ x)) ∧
      R.val (ofInt n *ᶠ (y -ᶠ x)) ≤ n * (R.val y - R.val x) * R.g ^ 2 := by
    intro x y fx fy x0 xy y1
    have d0 : 0 ≤ R.val y - R.val x := by linarith
    obtain ⟨fd, hd⟩ := M.sub y x fy fx (by rw [abs_of_nonneg d0]; linarith)
    obtain ⟨hd1, hd2⟩ := rel_err_factor h1 d0 hd
    have hd0 : 0 ≤ R.val (y -ᶠ x) := le_trans (by positivity) hd1
    have hdg : R.val (y -ᶠ x) ≤ 2 := by
      refine hd2.trans ?_
      calc (R.val y - R.val x) * R.g ≤ 1 * (8 / 7) := mul_le_mul (by linarith) hg g0.le (by norm_num)
        _ ≤ 2 := by norm_num
    have hnd : 0 ≤ n * R.val (y -ᶠ x) := by positivity
    obtain ⟨fm, hm⟩ := M.scale n _ le_rfl fd (by
      rw [abs_of_nonneg hnd]
      exact (mul_le_mul_of_nonneg_left hdg (by linarith)).trans hOn)
    obtain ⟨hm1, hm2⟩ := rel_err_factor h1 hnd hm
    refine ⟨fm, le_trans ?_ hm1, hm2.trans ?_⟩
    · have e : n * (R.val y - R.val x) / R.g ^ 2 = n * ((R.val y - R.val x) / R.g) / R.g := by field_simp
      rw [e]
      exact div_le_div_of_nonneg_right (mul_le_mul_of_nonneg_left hd1 (by linarith)) g0.le
    · have e : n * (R.val y - R.val x) * R.g ^ 2 = n * ((R.val y - R.val x) * R.g) * R.g := by ring
      rw [e]
      exact mul_le_mul_of_nonneg_right (mul_le_mul_of_nonneg_left hd2 (by linarith)) g0.le
  have hfn := M.ofInt n (by omega)
  refine ⟨M.etaE_nonneg, ?_, ?_, ?_, ?_⟩
  · intro x _ y _ fx fy x0 xy y1
    obtain ⟨fw, w1, w2⟩ := hlam x y fx fy x0 xy y1
    have d0 : 0 ≤ R.val y - R.val x := by linarith
    have hw0 : 0 ≤ R.val (ofInt n *ᶠ (y -ᶠ x)) := le_trans (by positivity) w1
    have hpos : 0 < R.val (ofInt n *ᶠ (y -ᶠ x)) ↔ R.val x < R.val y := by
      constructor
      · intro h
        by_contra hc
        have e : R.val y - R.val x = 0 := by linarith
        rw [e] at w2; simp at w2; linarith
      · intro h
        have : 0 < R.val y - R.val x := by linarith
        exact lt_of_lt_of_le (by positivity) w1
    refine ⟨?_, ?_, ?_⟩
    · rw [Bool.eq_false_iff, Ne, R.lt_iff _ _ fw R.zero_finite, R.val_zero]
      exact not_lt.mpr hw0
    · rw [R.lt_iff _ _ R.zero_finite fw, R.val_zero]; exact hpos
    · rw [M.eq_iff _ _ fw R.zero_finite, R.val_zero]
      constructor
      · intro h
        by_contra hc
        have := hpos.mpr (lt_of_le_of_ne xy hc)
        linarith
      · intro h
        by_contra hc
        have := hpos.mp (lt_of_le_of_ne hw0 (Ne.symm hc))
        linarith
  · intro x hx y hy fx fy x0 xy y1 k hk p hp
    obtain ⟨fw, w1, w2⟩ := hlam x y fx fy x0 xy.le y1
    have d0 : 0 < R.val y - R.val x := by linarith
    have hl0 : 0 < n * (R.val y - R.val x) := by positivity
    have hl1 : n * (R.val y - R.val x) ≤ n := by nlinarith
    obtain ⟨fs, hs⟩ := exponent_approx M hg hl0 hl1 (hLam x hx y hy fx fy x0 xy y1) hO fw w1 w2 hk
    obtain ⟨e1, e2⟩ := exp_factor h1 hs hQ
    rw [log_pois hl0] at e1 e2
    have hp1 : poissonProb (n * (R.val y - R.val x)) k ≤ 1 := by
      rw [poissonProb_eq]; exact pois_le_one hl0.le k
    have hp0 : 0 ≤ poissonProb (n * (R.val y - R.val x)) k := by unfold poissonProb; positivity
    obtain ⟨fe, he0, he1, he2, -⟩ := M.exp _ fs (e2.trans ((mul_le_of_le_one_left gQ.le hp1).trans hO2))
    subst hp
    refine ⟨fe, he0, le_trans ?_ he1, he2.trans ?_⟩
    · have := div_le_div_of_nonneg_right e1 g0.le
      rw [div_div, ← pow_succ] at this
      linarith
    · have t1 := mul_le_mul_of_nonneg_right e2 g0.le
      rw [mul_assoc, ← pow_succ] at t1
      have t2 : etaE ≤ etaE * R.g ^ (Q + 1) := le_mul_of_one_le_right M.etaE_nonneg (R.one_le_pow _)
      linarith
  · refine ⟨?_, ?_⟩
    · unfold ge
      rw [(R.lt_iff _ _ R.zero_finite hfn.1).mpr (by rw [R.val_zero, hfn.2]; linarith)]
      rfl
    · rw [Bool.eq_false_iff, Ne, M.eq_iff _ _ hfn.1 R.zero_finite, R.val_zero, hfn.2]
      intro h; linarith
  · intro p hp
    have hl0 : (0 : ℝ) < n := by linarith
    have hg2 : 1 ≤ R.g ^ 2 := R.one_le_pow 2
    obtain ⟨fs, hs⟩ := exponent_approx M hg hl0 le_rfl (by rw [abs_of_nonneg hln0]; exact hln) hO hfn.1
      (by rw [hfn.2]; exact div_le_self hl0.le hg2) (by rw [hfn.2]; exact le_mul_of_one_le_right hl0.le hg2) (le_refl n)
    obtain ⟨e1, e2⟩ := exp_factor h1 hs hQ
    rw [log_pois hl0] at e1 e2
    have hp1 : poissonProb (n : ℝ) n ≤ 1 := by
      rw [poissonProb_eq]; exact pois_le_one hl0.le n
    obtain ⟨fe, -, -, -, he⟩ := M.exp _ fs (e2.trans ((mul_le_of_le_one_left gQ.le hp1).trans hO2))
    obtain ⟨he1, he2⟩ := he (le_trans (by rw [le_div_iff₀ gQ]; exact hmin) e1)
    subst hp
    refine ⟨fe, le_trans ?_ he1, he2.trans ?_⟩
    · have := div_le_div_of_nonneg_right e1 g0.le
      rwa [div_div, ← pow_succ] at this
    · have t1 := mul_le_mul_of_nonneg_right e2 g0.le
      rwa [mul_assoc, ← pow_succ] at t1
end
end CP.Spec
