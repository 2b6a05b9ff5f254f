import Verif.Proofs.FastRound
import Verif.Proofs.RoundingLibm
/-! `FastPmf` from the accuracy of the individual operations. -/
set_option linter.unusedVariables false
namespace CP.Spec
open FOps
section
variable {F : Type} [FOps F] {R : FloatModel F}

/-- How often `lambda`, `k*log(lambda)`, `lgamma(k+1)` are used. -/
def counts : ExpTree → ℕ × ℕ × ℕ
  | .lambda => (1, 0, 0)
  | .lgamma => (0, 0, 1)
  | .klog => (0, 1, 0)
  | .neg t => counts t
  | .add t u => counts t + counts u
  | .sub t u => counts t + counts u
  | .fma t => (0, 1, 0) + counts t
  | .fnma t => counts t + (0, 1, 0)

theorem counts_uses (t : ExpTree) : (counts t).1 + (counts t).2.1 + (counts t).2.2 = t.uses := by
  induction t with
  | lambda => rfl
  | lgamma => rfl
  | klog => rfl
  | neg t ih => exact ih
  | add t u i1 i2 => simp only [counts, ExpTree.uses, Prod.fst_add, Prod.snd_add]; omega
  | sub t u i1 i2 => simp only [counts, ExpTree.uses, Prod.fst_add, Prod.snd_add]; omega
  | fma t i1 => simp only [counts, ExpTree.uses, Prod.fst_add, Prod.snd_add]; omega
  | fnma t i1 => simp only [counts, ExpTree.uses, Prod.fst_add, Prod.snd_add]; omega

theorem counts_coeffs (t : ExpTree) : |t.coeffs.1| ≤ (counts t).1 ∧ |t.coeffs.2.1| ≤ (counts t).2.1 ∧ |t.coeffs.2.2| ≤ (counts t).2.2 := by
  induction t with
  | lambda => simp [counts, ExpTree.coeffs]
  | lgamma => simp [counts, ExpTree.coeffs]
  | klog => simp [counts, ExpTree.coeffs]
  | neg t ih => simpa [counts, ExpTree.coeffs] using ih
  | add t u i1 i2 =>
    simp only [counts, ExpTree.coeffs, Prod.fst_add, Prod.snd_add, Nat.cast_add]
    exact ⟨(abs_add_le _ _).trans (add_le_add i1.1 i2.1), (abs_add_le _ _).trans (add_le_add i1.2.1 i2.2.1),
      (abs_add_le _ _).trans (add_le_add i1.2.2 i2.2.2)⟩
  | sub t u i1 i2 =>
    simp only [counts, ExpTree.coeffs, Prod.fst_add, Prod.snd_add, Prod.fst_sub, Prod.snd_sub, Nat.cast_add]
    exact ⟨(abs_sub _ _).trans (add_le_add i1.1 i2.1), (abs_sub _ _).trans (add_le_add i1.2.1 i2.2.1),
      (abs_sub _ _).trans (add_le_add i1.2.2 i2.2.2)⟩
  | fma t i1 =>
    simp only [counts, ExpTree.coeffs, Prod.fst_add, Prod.snd_add, Nat.cast_add]
    exact ⟨(abs_add_le _ _).trans (add_le_add (by simp) i1.1), (abs_add_le _ _).trans (add_le_add (by simp) i1.2.1),
      (abs_add_le _ _).trans (add_le_add (by simp) i1.2.2)⟩
  | fnma t i1 =>
    simp only [counts, ExpTree.coeffs, Prod.fst_add, Prod.snd_add, Prod.fst_sub, Prod.snd_sub, Nat.cast_add]
    exact ⟨(abs_sub _ _).trans (add_le_add i1.1 (by simp)), (abs_sub _ _).trans (add_le_add i1.2.1 (by simp)),
      (abs_sub _ _).trans (add_le_add i1.2.2 (by simp))⟩

theorem uses_pos (t : ExpTree) : 1 ≤ t.uses := by
  induction t with
  | lambda => exact le_rfl
  | lgamma => exact le_rfl
  | klog => exact le_rfl
  | neg t ih => exact ih
  | add t u i1 i2 => simp only [ExpTree.uses]; omega
  | sub t u i1 i2 => simp only [ExpTree.uses]; omega
  | fma t i1 => simp only [ExpTree.uses]; omega
  | fnma t i1 => simp only [ExpTree.uses]; omega

/-- The linear combination with the given integer coefficients. -/
def lin (c : ℤ × ℤ × ℤ) (x y z : ℝ) : ℝ := c.1 * x + c.2.1 * y + c.2.2 * z
/-- The sum of absolute values. -/
def mag (c : ℕ × ℕ × ℕ) (x y z : ℝ) : ℝ := c.1 * |x| + c.2.1 * |y| + c.2.2 * |z|

theorem lin_add (c d : ℤ × ℤ × ℤ) (x y z : ℝ) : lin (c + d) x y z = lin c x y z + lin d x y z := by
  simp [lin]; ring
theorem lin_sub (c d : ℤ × ℤ × ℤ) (x y z : ℝ) : lin (c - d) x y z = lin c x y z - lin d x y z := by
  simp [lin]; ring
theorem lin_neg (c : ℤ × ℤ × ℤ) (x y z : ℝ) : lin (-c) x y z = - lin c x y z := by
  simp [lin]; ring
theorem mag_add (c d : ℕ × ℕ × ℕ) (x y z : ℝ) : mag (c + d) x y z = mag c x y z + mag d x y z := by
  simp [mag]; ring
theorem mag_nonneg (c : ℕ × ℕ × ℕ) (x y z : ℝ) : 0 ≤ mag c x y z := by
  unfold mag; positivity

theorem lin_le_mag (t : ExpTree) (x y z : ℝ) : |lin t.coeffs x y z| ≤ mag (counts t) x y z := by
  obtain ⟨h1, h2, h3⟩ := counts_coeffs t
  unfold lin mag
  have key : ∀ (a : ℤ) (b : ℕ) (x : ℝ), |a| ≤ b → |(a : ℝ) * x| ≤ b * |x| := by
    intro a b x h
    rw [abs_mul]
    refine mul_le_mul_of_nonneg_right ?_ (abs_nonneg _)
    rw [← Int.cast_abs]
    exact_mod_cast h
  refine (abs_add_le _ _).trans (add_le_add ((abs_add_le _ _).trans (add_le_add (key _ _ _ h1) (key _ _ _ h2))) (key _ _ _ h3))

/-- One more rounded operation. -/
theorem round_step {u a b ea eb ma mb v : ℝ} {h h1 h2 : ℕ} (hu : 0 ≤ u) (ha : |a - ea| ≤ ((1 + u) ^ h1 - 1) * ma) (hb : |b - eb| ≤ ((1 + u) ^ h2 - 1) * mb)
    (hea : |ea| ≤ ma) (heb : |eb| ≤ mb) (hma : 0 ≤ ma) (hmb : 0 ≤ mb) (h1h : h1 ≤ h) (h2h : h2 ≤ h)
    (hv : |v - (a + b)| ≤ u * |a + b|) : |v - (ea + eb)| ≤ ((1 + u) ^ (h + 1) - 1) * (ma + mb) := by
  have p1 : (1 + u) ^ h1 ≤ (1 + u) ^ h := pow_le_pow_right₀ (by linarith) h1h
  have p2 : (1 + u) ^ h2 ≤ (1 + u) ^ h := pow_le_pow_right₀ (by linarith) h2h
  have ha' : |a - ea| ≤ ((1 + u) ^ h - 1) * ma := ha.trans (mul_le_mul_of_nonneg_right (by linarith) hma)
  have hb' : |b - eb| ≤ ((1 + u) ^ h - 1) * mb := hb.trans (mul_le_mul_of_nonneg_right (by linarith) hmb)
  have h0 : |(a + b) - (ea + eb)| ≤ ((1 + u) ^ h - 1) * (ma + mb) := by
    have e : (a + b) - (ea + eb) = (a - ea) + (b - eb) := by ring
    rw [e]
    refine (abs_add_le _ _).trans ?_
    rw [mul_add]; exact add_le_add ha' hb'
  have h3 : |a + b| ≤ (1 + u) ^ h * (ma + mb) := by
    have := abs_add_le ((a + b) - (ea + eb)) (ea + eb)
    rw [sub_add_cancel] at this
    have h4 := abs_add_le ea eb
    nlinarith
  have h5 : u * |a + b| ≤ u * ((1 + u) ^ h * (ma + mb)) := mul_le_mul_of_nonneg_left h3 hu
  have e : v - (ea + eb) = (v - (a + b)) + ((a + b) - (ea + eb)) := by ring
  rw [e]
  refine (abs_add_le _ _).trans ?_
  rw [pow_succ]
  nlinarith

/-- The exponent evaluated in any order. -/
theorem expTree_error {n k : ℕ} {etaE expMin : ℝ} {co : FastCode F} (M : MathLibrary R n etaE expMin) (hco : FastOps R co n etaE expMin)
    (hk : k ≤ n) {w l G : F} (hw : R.finite w) (hl : R.finite l) (hG : R.finite G) {H : ℕ}
    (hO : ∀ m ≤ H, (2 - 1 / R.g) ^ m * (H * (|R.val w| + |k * R.val l| + |R.val G|)) ≤ R.Omega) :
    ∀ t : ExpTree, t.uses ≤ H → R.finite (t.eval co.fma w (ofInt k) l G) ∧
      |R.val (t.eval co.fma w (ofInt k) l G) - lin t.coeffs (R.val w) (k * R.val l) (R.val G)|
        ≤ ((2 - 1 / R.g) ^ t.uses - 1) * mag (counts t) (R.val w) (k * R.val l) (R.val G) := by
  have u0 : 0 ≤ 1 - 1 / R.g := by
    have : 1 / R.g ≤ 1 := by rw [div_le_one R.g_pos]; exact R.one_le_g
    linarith
  obtain ⟨u, hu⟩ : ∃ u, u = 1 - 1 / R.g := ⟨_, rfl⟩
  have e2 : 2 - 1 / R.g = 1 + u := by rw [hu]; ring
  rw [← hu] at u0
  rw [e2] at hO ⊢
  set x := R.val w
  set y := k * R.val l
  set z := R.val G
  have hpow : ∀ m, 1 ≤ (1 + u) ^ m := fun m => one_le_pow₀ (by linarith)
  have hmono : ∀ {a b : ℕ}, a ≤ b → (1 + u) ^ a ≤ (1 + u) ^ b := fun h => pow_le_pow_right₀ (by linarith) h
  -- magnitude bound
  have hmag : ∀ t : ExpTree, mag (counts t) x y z ≤ t.uses * (|x| + |y| + |z|) := by
    intro t
    have h := counts_uses t
    have h' : ((counts t).1 : ℝ) + (counts t).2.1 + (counts t).2.2 = t.uses := by exact_mod_cast h
    unfold mag
    have a1 := abs_nonneg x
    have a2 := abs_nonneg y
    have a3 := abs_nonneg z
    have c1 : (0 : ℝ) ≤ (counts t).1 := Nat.cast_nonneg _
    have c2 : (0 : ℝ) ≤ (counts t).2.1 := Nat.cast_nonneg _
    have c3 : (0 : ℝ) ≤ (counts t).2.2 := Nat.cast_nonneg _
    rw [← h']
    nlinarith [mul_nonneg c1 a2, mul_nonneg c1 a3, mul_nonneg c2 a1, mul_nonneg c2 a3, mul_nonneg c3 a1, mul_nonneg c3 a2]
  -- overflow bound for a sum of two computed terms
  have hov : ∀ {a b ea eb ma mb : ℝ} {h1 h2 h m : ℕ}, |a - ea| ≤ ((1 + u) ^ h1 - 1) * ma → |b - eb| ≤ ((1 + u) ^ h2 - 1) * mb →
      |ea| ≤ ma → |eb| ≤ mb → h1 ≤ h → h2 ≤ h → h ≤ H → m ≤ H → ma + mb ≤ m * (|x| + |y| + |z|) → |a + b| ≤ R.Omega := by
    intro a b ea eb ma mb h1 h2 h m ha hb hea heb hh1 hh2 hhH hmH hm
    have hma := (abs_nonneg ea).trans hea
    have hmb := (abs_nonneg eb).trans heb
    have a1 : |a| ≤ (1 + u) ^ h * ma := by
      have := abs_add_le (a - ea) ea
      rw [sub_add_cancel] at this
      have h3 : (1 + u) ^ h1 * ma ≤ (1 + u) ^ h * ma := mul_le_mul_of_nonneg_right (hmono hh1) hma
      linarith
    have b1 : |b| ≤ (1 + u) ^ h * mb := by
      have := abs_add_le (b - eb) eb
      rw [sub_add_cancel] at this
      have h3 : (1 + u) ^ h2 * mb ≤ (1 + u) ^ h * mb := mul_le_mul_of_nonneg_right (hmono hh2) hmb
      linarith
    refine le_trans ?_ (hO h hhH)
    have h5 : ma + mb ≤ H * (|x| + |y| + |z|) :=
      hm.trans (mul_le_mul_of_nonneg_right (by exact_mod_cast hmH) (by positivity))
    calc |a + b| ≤ |a| + |b| := abs_add_le _ _
      _ ≤ (1 + u) ^ h * (ma + mb) := by rw [mul_add]; exact add_le_add a1 b1
      _ ≤ _ := mul_le_mul_of_nonneg_left h5 (by positivity)
  intro t
  induction t with
  | lambda =>
    intro _
    refine ⟨hw, ?_⟩
    simp [ExpTree.eval, ExpTree.coeffs, ExpTree.uses, lin, counts, mag, x]
    exact mul_nonneg u0 (abs_nonneg _)
  | lgamma =>
    intro _
    refine ⟨hG, ?_⟩
    simp [ExpTree.eval, ExpTree.coeffs, ExpTree.uses, lin, counts, mag, z]
    exact mul_nonneg u0 (abs_nonneg _)
  | klog =>
    intro h
    obtain ⟨f, e⟩ := M.scale k l hk hl (by
      refine le_trans ?_ (hO 0 (by omega))
      rw [pow_zero, one_mul]
      have hH : (1 : ℝ) ≤ H := by exact_mod_cast h
      have : |y| ≤ |x| + |y| + |z| := by linarith [abs_nonneg x, abs_nonneg z]
      exact this.trans (le_mul_of_one_le_left (by positivity) hH))
    refine ⟨f, ?_⟩
    rw [← hu] at e
    have e' : |R.val (ofInt k *ᶠ l) - y| ≤ u * |y| := e
    have s1 : lin (0, 1, 0) x y z = y := by simp [lin]
    have s2 : mag (0, 1, 0) x y z = |y| := by simp [mag]
    simp only [ExpTree.eval, ExpTree.coeffs, ExpTree.uses, counts]
    rw [s1, s2, pow_one, add_sub_cancel_left]
    exact e'
  | neg t ih =>
    intro h
    obtain ⟨f, e⟩ := ih h
    obtain ⟨f', e'⟩ := M.neg _ f
    refine ⟨f', ?_⟩
    simp only [ExpTree.eval, ExpTree.coeffs, ExpTree.uses, counts]
    rw [e', lin_neg, ← abs_neg]
    convert e using 2; ring
  | add t v i1 i2 =>
    intro h
    simp only [ExpTree.uses] at h
    have := uses_pos t; have := uses_pos v
    obtain ⟨f1, e1⟩ := i1 (by omega)
    obtain ⟨f2, e2⟩ := i2 (by omega)
    have hm : mag (counts t) x y z + mag (counts v) x y z ≤ (t.uses + v.uses : ℕ) * (|x| + |y| + |z|) := by
      push_cast; rw [add_mul]; exact add_le_add (hmag t) (hmag v)
    obtain ⟨f, e⟩ := M.add _ _ f1 f2 (hov (h := max t.uses v.uses) e1 e2 (lin_le_mag t x y z) (lin_le_mag v x y z)
      (le_max_left _ _) (le_max_right _ _) (by omega) h hm)
    refine ⟨f, ?_⟩
    simp only [ExpTree.eval, ExpTree.coeffs, ExpTree.uses, counts]
    rw [lin_add, mag_add]
    rw [← hu] at e
    refine (round_step (h := max t.uses v.uses) u0 e1 e2 (lin_le_mag t x y z) (lin_le_mag v x y z) (mag_nonneg _ _ _ _) (mag_nonneg _ _ _ _)
      (le_max_left _ _) (le_max_right _ _) e).trans ?_
    refine mul_le_mul_of_nonneg_right ?_ (add_nonneg (mag_nonneg _ _ _ _) (mag_nonneg _ _ _ _))
    have := hmono (show max t.uses v.uses + 1 ≤ t.uses + v.uses by omega)
    linarith
  | sub t v i1 i2 =>
    intro h
    simp only [ExpTree.uses] at h
    have := uses_pos t; have := uses_pos v
    obtain ⟨f1, e1⟩ := i1 (by omega)
    obtain ⟨f2, e2⟩ := i2 (by omega)
    have hm : mag (counts t) x y z + mag (counts v) x y z ≤ (t.uses + v.uses : ℕ) * (|x| + |y| + |z|) := by
      push_cast; rw [add_mul]; exact add_le_add (hmag t) (hmag v)
    have e2' : |-R.val (v.eval co.fma w (ofInt k) l G) - -lin v.coeffs x y z| ≤ ((1 + u) ^ v.uses - 1) * mag (counts v) x y z := by
      rw [← abs_neg]; convert e2 using 2; ring
    have lv : |-lin v.coeffs x y z| ≤ mag (counts v) x y z := by rw [abs_neg]; exact lin_le_mag v x y z
    obtain ⟨f, e⟩ := M.sub _ _ f1 f2 (by
      rw [sub_eq_add_neg]
      exact hov (h := max t.uses v.uses) e1 e2' (lin_le_mag t x y z) lv (le_max_left _ _) (le_max_right _ _) (by omega) h hm)
    refine ⟨f, ?_⟩
    simp only [ExpTree.eval, ExpTree.coeffs, ExpTree.uses, counts]
    rw [lin_sub, mag_add]
    rw [← hu, sub_eq_add_neg (R.val (t.eval co.fma w (ofInt k) l G))] at e
    rw [sub_eq_add_neg (lin t.coeffs x y z)]
    refine (round_step (h := max t.uses v.uses) u0 e1 e2' (lin_le_mag t x y z) lv (mag_nonneg _ _ _ _) (mag_nonneg _ _ _ _)
      (le_max_left _ _) (le_max_right _ _) e).trans ?_
    refine mul_le_mul_of_nonneg_right ?_ (add_nonneg (mag_nonneg _ _ _ _) (mag_nonneg _ _ _ _))
    have := hmono (show max t.uses v.uses + 1 ≤ t.uses + v.uses by omega)
    linarith
  | fma t i1 =>
    intro h
    simp only [ExpTree.uses] at h
    have := uses_pos t
    obtain ⟨f1, e1⟩ := i1 (by omega)
    have hm : |y| + mag (counts t) x y z ≤ (t.uses + 1 : ℕ) * (|x| + |y| + |z|) := by
      push_cast
      have := hmag t
      linarith [abs_nonneg x, abs_nonneg z]
    have e0 : |y - y| ≤ ((1 + u) ^ 0 - 1) * |y| := by simp
    obtain ⟨f, e⟩ := hco.fmaScale k l _ hk hl f1 (hov (h := t.uses) e0 e1 le_rfl (lin_le_mag t x y z) (by omega) le_rfl (by omega) h hm)
    refine ⟨f, ?_⟩
    simp only [ExpTree.eval, ExpTree.coeffs, ExpTree.uses, counts]
    rw [lin_add, mag_add]
    rw [← hu] at e
    have s1 : lin (0, 1, 0) x y z = y := by simp [lin]
    have s2 : mag (0, 1, 0) x y z = |y| := by simp [mag]
    rw [s1, s2]
    exact round_step (h := t.uses) u0 e0 e1 le_rfl (lin_le_mag t x y z) (abs_nonneg _) (mag_nonneg _ _ _ _) (by omega) le_rfl e
  | fnma t i1 =>
    intro h
    simp only [ExpTree.uses] at h
    have := uses_pos t
    obtain ⟨f1, e1⟩ := i1 (by omega)
    have hm : |-y| + mag (counts t) x y z ≤ (t.uses + 1 : ℕ) * (|x| + |y| + |z|) := by
      push_cast
      have := hmag t
      rw [abs_neg]
      linarith [abs_nonneg x, abs_nonneg z]
    have e0 : |-y - -y| ≤ ((1 + u) ^ 0 - 1) * |-y| := by simp
    obtain ⟨f, e⟩ := hco.fmaNegScale k l _ hk hl f1 (hov (h := t.uses) e0 e1 le_rfl (lin_le_mag t x y z) (by omega) le_rfl (by omega) h hm)
    refine ⟨f, ?_⟩
    simp only [ExpTree.eval, ExpTree.coeffs, ExpTree.uses, counts]
    rw [lin_sub, mag_add]
    rw [← hu] at e
    have s1 : lin (0, 1, 0) x y z = y := by simp [lin]
    have s2 : mag (0, 1, 0) x y z = |-y| := by simp [mag]
    rw [s1, s2, show lin t.coeffs x y z - y = -y + lin t.coeffs x y z by ring, add_comm (mag (counts t) x y z)]
    exact round_step (h := t.uses) u0 e0 e1 le_rfl (lin_le_mag t x y z) (abs_nonneg _) (mag_nonneg _ _ _ _) (by omega) le_rfl e

/-- The three terms, each once. -/
theorem mag_legal {t : ExpTree} (hc : t.coeffs = (-1, 1, -1)) (hu : t.uses = 3) (x y z : ℝ) :
    lin t.coeffs x y z = - x + y - z ∧ mag (counts t) x y z = |x| + |y| + |z| := by
  obtain ⟨h1, h2, h3⟩ := counts_coeffs t
  have h4 := counts_uses t
  rw [hc] at h1 h2 h3 ⊢
  simp at h1 h2 h3
  have e1 : (counts t).1 = 1 := by omega
  have e2 : (counts t).2.1 = 1 := by omega
  have e3 : (counts t).2.2 = 1 := by omega
  constructor
  · simp [lin]; ring
  · simp [mag, e1, e2, e3]

theorem fast_cube_bound {u : ℝ} (u0 : 0 ≤ u) (u8 : u ≤ 1 / 8) : (1 + u) ^ 3 - 1 ≤ 17 / 5 * u := by
  nlinarith [sq_nonneg u, mul_nonneg u0 u0, mul_nonneg u0 (mul_nonneg u0 u0), mul_nonneg u0 (sub_nonneg.mpr u8), mul_nonneg (mul_nonneg u0 u0) (sub_nonneg.mpr u8)]

set_option maxHeartbeats 1000000 in
/-- The exponent computed by legal fast-math code. -/
theorem fastExponent_approx {n : ℕ} {etaE expMin : ℝ} {co : FastCode F} {ex : ℕ} (M : MathLibrary R n etaE expMin)
    (hco : FastOps R co n etaE expMin) (hleg : FastCode.Legal co ex) (hg : R.g ≤ 8 / 7) {lam Lam : ℝ}
    (hlam : 0 < lam) (hlamn : lam ≤ n) (hLam : |Real.log lam| ≤ Lam)
    (hO : 7 * (n * Lam + n + Real.log n.factorial) ≤ R.Omega)
    {w : F} (hw : R.finite w) (hw1 : lam / R.g ^ 2 ≤ R.val w) (hw2 : R.val w ≤ lam * R.g ^ 2) {k : ℕ} (hk : k ≤ n) (site : ℕ) :
    R.finite ((co.exponent site k).eval co.fma w (ofInt k) (log w) (lgamma (ofInt (k + 1)))) ∧
    |R.val ((co.exponent site k).eval co.fma w (ofInt k) (log w) (lgamma (ofInt (k + 1)))) - (- lam + k * Real.log lam - Real.log k.factorial)|
      ≤ Real.log R.g * (5 * n * Lam + 11 * n + 5 * Real.log n.factorial) := by
  have h1 := R.one_le_g
  obtain ⟨u0, u8, ug, g7, gl0⟩ := u_bounds h1 hg
  have g0 : 0 < R.g := R.g_pos
  have hw0 : 0 < R.val w := lt_of_lt_of_le (by positivity) hw1
  have hn : (0 : ℝ) ≤ n := Nat.cast_nonneg n
  have hk0 : (0 : ℝ) ≤ k := Nat.cast_nonneg k
  have hkn : (k : ℝ) ≤ n := by exact_mod_cast hk
  have hG : 0 ≤ Real.log k.factorial := Real.log_natCast_nonneg _
  have hGn := log_factorial_mono hk
  have hLam0 : 0 ≤ Lam := (abs_nonneg _).trans hLam
  have hnL : 0 ≤ n * Lam := mul_nonneg hn hLam0
  have hLL : |Real.log (R.val w) - Real.log lam| ≤ 2 * Real.log R.g := by
    have a1 := Real.log_le_log (by positivity) hw1
    have a2 := Real.log_le_log hw0 hw2
    rw [Real.log_div hlam.ne' (by positivity), Real.log_pow] at a1
    rw [Real.log_mul hlam.ne' (by positivity), Real.log_pow] at a2
    push_cast at a1 a2
    rw [abs_le]; constructor <;> linarith
  have hLt1 : |Real.log (R.val w)| ≤ Lam + 2 / 7 := by
    have := abs_add_le (Real.log (R.val w) - Real.log lam) (Real.log lam)
    rw [sub_add_cancel] at this
    linarith
  have hdiff : |R.val w - lam| ≤ 2 * (1 - 1 / R.g) * (64 / 49 * n) ∧ R.val w ≤ 64 / 49 * n := by
    have hg2 : R.g ^ 2 ≤ 64 / 49 := by nlinarith
    have hlt3 : R.val w ≤ 64 / 49 * n := by
      calc R.val w ≤ lam * R.g ^ 2 := hw2
        _ ≤ n * (64 / 49) := mul_le_mul hlamn hg2 (by positivity) hn
        _ = _ := by ring
    have hinv : 1 - 1 / R.g ^ 2 ≤ 2 * (1 - 1 / R.g) := by
      have : 2 * (1 - 1 / R.g) - (1 - 1 / R.g ^ 2) = (1 - 1 / R.g) ^ 2 := by field_simp; ring
      nlinarith [sq_nonneg (1 - 1 / R.g)]
    have hinv0 : 0 ≤ 1 - 1 / R.g ^ 2 := by
      have : 1 / R.g ^ 2 ≤ 1 := by rw [div_le_one (by positivity)]; nlinarith
      linarith
    have key : ∀ x y : ℝ, 0 ≤ x → x / R.g ^ 2 ≤ y → x ≤ 64 / 49 * n → x - y ≤ 2 * (1 - 1 / R.g) * (64 / 49 * n) := by
      intro x y hx hxy hxn
      have e : x - x / R.g ^ 2 = (1 - 1 / R.g ^ 2) * x := by field_simp
      calc x - y ≤ (1 - 1 / R.g ^ 2) * x := by linarith
        _ ≤ 2 * (1 - 1 / R.g) * (64 / 49 * n) := mul_le_mul hinv hxn hx (by positivity)
    refine ⟨?_, hlt3⟩
    have k1 := key lam (R.val w) hlam.le hw1 (by linarith)
    have k2 := key (R.val w) lam hw0.le (by rw [div_le_iff₀ (by positivity)]; exact hw2) hlt3
    rw [abs_le]; constructor <;> linarith
  obtain ⟨hd, hlt3⟩ := hdiff
  obtain ⟨fl, hl⟩ := M.log w hw hw0
  obtain ⟨fG, hGt⟩ := M.lgamma k hk
  set l := R.val (log w) with hldef
  set Gt := R.val (lgamma (ofInt (k + 1) : F)) with hGtdef
  set G := Real.log (k.factorial : ℝ)
  set Lt := Real.log (R.val w) with hLt
  set L := Real.log lam with hL
  set X := k * |Lt| with hX
  have hX0 : 0 ≤ X := by positivity
  have hXn : X ≤ n * Lam + 2 / 7 * n := by
    calc X ≤ n * (Lam + 2 / 7) := mul_le_mul hkn hLt1 (abs_nonneg _) hn
      _ = _ := by ring
  have hl2 : |l| ≤ 9 / 8 * |Lt| := rel_err_abs' u8 hl le_rfl
  have hkl : |k * l| ≤ 9 / 8 * X := by
    rw [abs_mul, abs_of_nonneg hk0]
    calc k * |l| ≤ k * (9 / 8 * |Lt|) := mul_le_mul_of_nonneg_left hl2 hk0
      _ = _ := by rw [hX]; ring
  have hGt2 : |Gt| ≤ 9 / 8 * G := rel_err_abs' (z := G) u8 (by rwa [abs_of_nonneg hG]) (abs_of_nonneg hG).le
  have hMg : |R.val w| + |k * l| + |Gt| ≤ R.val w + 9 / 8 * X + 9 / 8 * G := by
    rw [abs_of_pos hw0]; linarith
  have e2 : 2 - 1 / R.g = 1 + (1 - 1 / R.g) := by ring
  obtain ⟨ft, ht⟩ := expTree_error M hco hk hw fl fG (H := 3) (by
    intro m hm
    have p1 : (2 - 1 / R.g) ^ m ≤ (9 / 8) ^ 3 := by
      calc (2 - 1 / R.g) ^ m ≤ (9 / 8) ^ m := pow_le_pow_left₀ (by linarith) (by linarith) m
        _ ≤ (9 / 8) ^ 3 := pow_le_pow_right₀ (by norm_num) hm
    have p2 : ((3 : ℕ) : ℝ) * (|R.val w| + |k * l| + |Gt|) ≤ 3 * (64 / 49 * n + 9 / 8 * (n * Lam + 2 / 7 * n) + 9 / 8 * Real.log n.factorial) := by
      push_cast
      have : 9 / 8 * G ≤ 9 / 8 * Real.log n.factorial := by linarith
      linarith
    refine (mul_le_mul p1 p2 (by positivity) (by positivity)).trans (le_trans ?_ hO)
    have hfn : 0 ≤ Real.log (n.factorial : ℝ) := Real.log_natCast_nonneg _
    nlinarith) (co.exponent site k) (hleg.uses site k).le
  refine ⟨ft, ?_⟩
  obtain ⟨q1, q2⟩ := mag_legal (hleg.coeffs site k) (hleg.uses site k) (R.val w) (k * l) Gt
  rw [q1, q2, hleg.uses site k, e2] at ht
  set v := R.val ((co.exponent site k).eval co.fma w (ofInt k) (log w) (lgamma (ofInt (k + 1))))
  set u := 1 - 1 / R.g with hu
  have hp3 : (1 + u) ^ 3 - 1 ≤ 17 / 5 * u := fast_cube_bound u0 u8
  have ht2 : |v - (- R.val w + k * l - Gt)| ≤ 17 / 5 * u * (R.val w + 9 / 8 * X + 9 / 8 * G) := by
    refine ht.trans (mul_le_mul hp3 hMg (by positivity) (by positivity))
  have e3 : |k * (Lt - L)| ≤ 2 * Real.log R.g * n := by
    rw [abs_mul, abs_of_nonneg hk0]
    calc k * |Lt - L| ≤ n * (2 * Real.log R.g) := mul_le_mul hkn hLL (abs_nonneg _) hn
      _ = _ := by ring
  have e4 : |k * (l - Lt)| ≤ u * X := by
    rw [abs_mul, abs_of_nonneg hk0]
    calc k * |l - Lt| ≤ k * (u * |Lt|) := mul_le_mul_of_nonneg_left hl hk0
      _ = _ := by rw [hX]; ring
  have tri : |v - (- lam + k * L - G)| ≤ |v - (- R.val w + k * l - Gt)| + |k * (l - Lt)| + |k * (Lt - L)|
      + |R.val w - lam| + |Gt - G| := by
    have q : v - (- lam + k * L - G) = (v - (- R.val w + k * l - Gt)) + k * (l - Lt) + k * (Lt - L)
      - (R.val w - lam) - (Gt - G) := by ring
    rw [q]
    refine (abs_sub _ _).trans (add_le_add ((abs_sub _ _).trans (add_le_add ?_ le_rfl)) le_rfl)
    exact (abs_add_le _ _).trans (add_le_add (abs_add_le _ _) le_rfl)
  have hsum : |v - (- lam + k * L - G)| ≤ u * (17 / 5 * R.val w + 5 * X + 5 * G + 128 / 49 * n) + 2 * Real.log R.g * n := by
    have huX := mul_nonneg u0 hX0
    have huG := mul_nonneg u0 hG
    linarith
  have hin : 17 / 5 * R.val w + 5 * X + 5 * G + 128 / 49 * n ≤ 5 * n * Lam + 9 * n + 5 * Real.log n.factorial := by
    linarith
  have hin0 : 0 ≤ 17 / 5 * R.val w + 5 * X + 5 * G + 128 / 49 * n := by positivity
  have h3 : u * (17 / 5 * R.val w + 5 * X + 5 * G + 128 / 49 * n) ≤ Real.log R.g * (5 * n * Lam + 9 * n + 5 * Real.log n.factorial) :=
    mul_le_mul ug hin hin0 gl0
  linarith

/-- `FastPmf` follows from the accuracy of the individual operations. -/
theorem fastPmf_of_lib {n : ℕ} {etaE expMin : ℝ} {co : FastCode F} {ex : ℕ} (M : MathLibrary R n etaE expMin)
    (hco : FastOps R co n etaE expMin) (hleg : FastCode.Legal co ex) (hg : R.g ≤ 8 / 7) (hn : 1 ≤ n)
    {S : Set F} {Lam : ℝ} (hln : Real.log n ≤ Lam)
    (hLam : ∀ x ∈ S, ∀ y ∈ S, R.finite x → R.finite y → 0 ≤ R.val x → R.val x < R.val y → R.val y ≤ 1 →
      |Real.log (n * (R.val y - R.val x))| ≤ Lam)
    {Q : ℕ} (hQ : 5 * n * Lam + 11 * n + 5 * Real.log n.factorial ≤ Q)
    (hO : 7 * (n * Lam + n + Real.log n.factorial) ≤ R.Omega) (hO2 : R.g ^ (Q + 1) / poissonProb n n ≤ R.Omega)
    (hmin : expMin * R.g ^ Q ≤ poissonProb n n) :
    FastPmf R co S n (Q + 1) etaE := by
  have h1 := R.one_le_g
  have hpp : 0 < poissonProb (n : ℝ) n := by unfold poissonProb; positivity
  have hpp1 : poissonProb (n : ℝ) n ≤ 1 := by rw [poissonProb_eq]; exact pois_le_one (Nat.cast_nonneg n) n
  have hO3 : R.g ^ Q / poissonProb n n ≤ R.Omega :=
    (div_le_div_of_nonneg_right (R.pow_le (by omega)) hpp.le).trans hO2
  have hO4 : R.g ^ Q ≤ R.Omega := le_trans (le_div_self (R.pow_pos' Q).le hpp hpp1) hO3
  have g0 := R.g_pos
  have gQ := R.pow_pos' Q
  have hnr : (1 : ℝ) ≤ n := by exact_mod_cast hn
  have hfac : 0 ≤ Real.log n.factorial := Real.log_natCast_nonneg _
  have hln0 : 0 ≤ Real.log n := Real.log_natCast_nonneg _
  have hnL : 0 ≤ n * Lam := mul_nonneg (by linarith) (hln0.trans hln)
  have hOn : (n : ℝ) * 2 ≤ R.Omega := by linarith
  -- the computed lambda
  have hlam : ∀ x y : F, R.finite x → R.finite y → 0 ≤ R.val x → R.val x ≤ R.val y → R.val y ≤ 1 →
      R.finite (ofInt n *ᶠ (y -ᶠ x)) ∧ n * (R.val y - R.val x) / R.g ^ 2 ≤ R.val (ofInt n *ᶠ (y -ᶠ x)) ∧
      R.val (ofInt n *ᶠ (y -ᶠ x)) ≤ n * (R.val y - R.val x) * R.g ^ 2 := by
    intro x y fx fy x0 xy y1
    have d0 : 0 ≤ R.val y - R.val x := by linarith
    obtain ⟨fd, hd⟩ := M.sub y x fy fx (by rw [abs_of_nonneg d0]; linarith)
    obtain ⟨hd1, hd2⟩ := rel_err_factor h1 d0 hd
    have hd0 : 0 ≤ R.val (y -ᶠ x) := le_trans (by positivity) hd1
    have hdg : R.val (y -ᶠ x) ≤ 2 := by
      refine hd2.trans ?_
      calc (R.val y - R.val x) * R.g ≤ 1 * (8 / 7) := mul_le_mul (by linarith) hg g0.le (by norm_num)
        _ ≤ 2 := by norm_num
    have hnd : 0 ≤ n * R.val (y -ᶠ x) := by positivity
    obtain ⟨fm, hm⟩ := M.scale n _ le_rfl fd (by
      rw [abs_of_nonneg hnd]
      exact (mul_le_mul_of_nonneg_left hdg (by linarith)).trans hOn)
    obtain ⟨hm1, hm2⟩ := rel_err_factor h1 hnd hm
    refine ⟨fm, le_trans ?_ hm1, hm2.trans ?_⟩
    · have e : n * (R.val y - R.val x) / R.g ^ 2 = n * ((R.val y - R.val x) / R.g) / R.g := by field_simp
      rw [e]
      exact div_le_div_of_nonneg_right (mul_le_mul_of_nonneg_left hd1 (by linarith)) g0.le
    · have e : n * (R.val y - R.val x) * R.g ^ 2 = n * ((R.val y - R.val x) * R.g) * R.g := by ring
      rw [e]
      exact mul_le_mul_of_nonneg_right (mul_le_mul_of_nonneg_left hd2 (by linarith)) g0.le
  have hfn := M.ofInt n (by omega)
  refine ⟨M.etaE_nonneg, ?_, ?_, ?_, ?_, ?_⟩
  · intro x _ y _ fx fy x0 xy y1
    obtain ⟨fw, w1, w2⟩ := hlam x y fx fy x0 xy y1
    have d0 : 0 ≤ R.val y - R.val x := by linarith
    have hw0 : 0 ≤ R.val (ofInt n *ᶠ (y -ᶠ x)) := le_trans (by positivity) w1
    have hpos : 0 < R.val (ofInt n *ᶠ (y -ᶠ x)) ↔ R.val x < R.val y := by
      constructor
      · intro h
        by_contra hc
        have e : R.val y - R.val x = 0 := by linarith
        rw [e] at w2; simp at w2; linarith
      · intro h
        have : 0 < R.val y - R.val x := by linarith
        exact lt_of_lt_of_le (by positivity) w1
    refine ⟨?_, ?_, ?_⟩
    · rw [Bool.eq_false_iff, Ne, R.lt_iff _ _ fw R.zero_finite, R.val_zero]
      exact not_lt.mpr hw0
    · rw [R.lt_iff _ _ R.zero_finite fw, R.val_zero]; exact hpos
    · rw [M.eq_iff _ _ fw R.zero_finite, R.val_zero]
      constructor
      · intro h
        by_contra hc
        have := hpos.mpr (lt_of_le_of_ne xy hc)
        linarith
      · intro h
        by_contra hc
        have := hpos.mp (lt_of_le_of_ne hw0 (Ne.symm hc))
        linarith
  · intro site x hx y hy fx fy x0 xy y1 k hk p hp
    obtain ⟨fw, w1, w2⟩ := hlam x y fx fy x0 xy.le y1
    have d0 : 0 < R.val y - R.val x := by linarith
    have hl0 : 0 < n * (R.val y - R.val x) := by positivity
    have hl1 : n * (R.val y - R.val x) ≤ n := by nlinarith
    obtain ⟨fs, hs⟩ := fastExponent_approx M hco hleg hg hl0 hl1 (hLam x hx y hy fx fy x0 xy y1) hO fw w1 w2 hk site
    obtain ⟨e1, e2⟩ := exp_factor h1 hs hQ
    rw [log_pois hl0] at e1 e2
    have hp1 : poissonProb (n * (R.val y - R.val x)) k ≤ 1 := by
      rw [poissonProb_eq]; exact pois_le_one hl0.le k
    have hp0 : 0 ≤ poissonProb (n * (R.val y - R.val x)) k := by unfold poissonProb; positivity
    obtain ⟨fe, he0, he1, he2, -⟩ := hco.exp site k _ fs (e2.trans ((mul_le_of_le_one_left gQ.le hp1).trans hO4))
    subst hp
    refine ⟨fe, he0, le_trans ?_ he1, he2.trans ?_⟩
    · have := div_le_div_of_nonneg_right e1 g0.le
      rw [div_div, ← pow_succ] at this
      linarith
    · have t1 := mul_le_mul_of_nonneg_right e2 g0.le
      rw [mul_assoc, ← pow_succ] at t1
      have t2 : etaE ≤ etaE * R.g ^ (Q + 1) := le_mul_of_one_le_right M.etaE_nonneg (R.one_le_pow _)
      linarith
  · refine ⟨?_, ?_⟩
    · unfold ge
      rw [(R.lt_iff _ _ R.zero_finite hfn.1).mpr (by rw [R.val_zero, hfn.2]; linarith)]
      rfl
    · rw [Bool.eq_false_iff, Ne, M.eq_iff _ _ hfn.1 R.zero_finite, R.val_zero, hfn.2]
      intro h; linarith
  · intro site y p hy hp
    have hl0 : (0 : ℝ) < n := by linarith
    have hg2 : 1 ≤ R.g ^ 2 := R.one_le_pow 2
    obtain ⟨fs, hs⟩ := fastExponent_approx M hco hleg hg hl0 le_rfl (by rw [abs_of_nonneg hln0]; exact hln) hO hfn.1
      (by rw [hfn.2]; exact div_le_self hl0.le hg2) (by rw [hfn.2]; exact le_mul_of_one_le_right hl0.le hg2) (le_refl n) site
    obtain ⟨e1, e2⟩ := exp_factor h1 hs hQ
    rw [log_pois hl0] at e1 e2
    have hp1 : poissonProb (n : ℝ) n ≤ 1 := by
      rw [poissonProb_eq]; exact pois_le_one hl0.le n
    obtain ⟨fe, -, -, -, he⟩ := hco.exp site n _ fs (e2.trans ((mul_le_of_le_one_left gQ.le hp1).trans hO4))
    obtain ⟨he1, he2⟩ := he (le_trans (by rw [le_div_iff₀ gQ]; exact hmin) e1)
    subst hp hy
    refine ⟨fe, le_trans ?_ he1, he2.trans ?_⟩
    · have := div_le_div_of_nonneg_right e1 g0.le
      rwa [div_div, ← pow_succ] at this
    · have t1 := mul_le_mul_of_nonneg_right e2 g0.le
      rwa [mul_assoc, ← pow_succ] at t1
  · intro site y p hy hp
    have hl0 : (0 : ℝ) < n := by linarith
    have hg2 : 1 ≤ R.g ^ 2 := R.one_le_pow 2
    obtain ⟨fs, hs⟩ := fastExponent_approx M hco hleg hg hl0 le_rfl (by rw [abs_of_nonneg hln0]; exact hln) hO hfn.1
      (by rw [hfn.2]; exact div_le_self hl0.le hg2) (by rw [hfn.2]; exact le_mul_of_one_le_right hl0.le hg2) (le_refl n) site
    rw [← hy] at fs hs
    obtain ⟨fm, hm⟩ := M.neg y fs
    have hs' : |R.val (neg y) - -(- (n : ℝ) + n * Real.log n - Real.log n.factorial)| ≤ Real.log R.g * (5 * n * Lam + 11 * n + 5 * Real.log n.factorial) := by
      rw [hm, ← abs_neg]; convert hs using 2; ring
    obtain ⟨e1, e2⟩ := exp_factor h1 hs' hQ
    rw [Real.exp_neg, log_pois hl0, ← one_div] at e1 e2
    have e3 : 1 / poissonProb (n : ℝ) n * R.g ^ Q = R.g ^ Q / poissonProb n n := by ring
    obtain ⟨fe, -, -, -, he⟩ := hco.exp site n _ fm (e2.trans (e3.le.trans hO3))
    have hone : 1 ≤ 1 / poissonProb (n : ℝ) n := by rw [le_div_iff₀ hpp]; linarith
    obtain ⟨he1, he2⟩ := he (le_trans (by rw [le_div_iff₀ gQ]; exact hmin.trans (hpp1.trans hone)) e1)
    subst hp
    refine ⟨fe, le_trans ?_ he1, he2.trans ?_⟩
    · have := div_le_div_of_nonneg_right e1 g0.le
      rwa [div_div, ← pow_succ] at this
    · have t1 := mul_le_mul_of_nonneg_right e2 g0.le
      rwa [mul_assoc, ← pow_succ] at t1
end
end CP.Spec
