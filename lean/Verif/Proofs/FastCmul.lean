import Verif.Proofs.ConvAcc
import Verif.FastNewSpec
/-
Rounding error of the product of the spectra as compiled: every order of evaluation in the model is as accurate as that of the source.
-/
namespace CP.Spec
noncomputable section
open FOps
variable {F : Type} [FOps F] {R : FloatModel F} {u : ℝ} {Nmax : ℕ} {c : FastCode F}

/-- `1` or `-1`. -/
def sgn (minus : Bool) : ℝ := if minus then -1 else 1

theorem abs_sgn_mul (minus : Bool) (x : ℝ) : |sgn minus * x| = |x| := by
  cases minus <;> simp [sgn]

/-- A sum of two products, each evaluated from rounded operands. -/
theorem fusion_err (so : SignedOps R u Nmax) (hc : SignedFma R c u) (f : Fusion) (minus : Bool) {p q : F × F}
    (hp : R.finiteC p) (hq : R.finiteC q) {S : ℝ} (hS : |R.val p.1 * R.val p.2| + |R.val q.1 * R.val q.2| ≤ S)
    (hO : 2 * S + 2 * R.eta ≤ R.Omega) :
    R.finite (f.eval c.fma minus p q) ∧
    |R.val (f.eval c.fma minus p q) - (R.val p.1 * R.val p.2 + sgn minus * (R.val q.1 * R.val q.2))|
      ≤ (2 * u + u ^ 2) * S + 3 * R.eta := by
  have hu0 := so.u_nonneg
  have hu8 := so.u_le
  have heta := R.eta_nonneg
  obtain ⟨hp1, hp2⟩ := hp
  obtain ⟨hq1, hq2⟩ := hq
  have a1 := abs_nonneg (R.val p.1 * R.val p.2)
  have a2 := abs_nonneg (R.val q.1 * R.val q.2)
  have huS : u * S ≤ 1 / 8 * S := mul_le_mul_of_nonneg_right hu8 (by linarith)
  have huη : u * R.eta ≤ 1 / 8 * R.eta := mul_le_mul_of_nonneg_right hu8 heta
  obtain ⟨fx, ex⟩ := so.mul p.1 p.2 hp1 hp2 (by linarith)
  obtain ⟨fy, ey⟩ := so.mul q.1 q.2 hq1 hq2 (by linarith)
  set T1 := R.val p.1 * R.val p.2 with hT1
  set T2 := R.val q.1 * R.val q.2 with hT2
  have key : ∀ (w1 w2 r : ℝ) (e1 e2 e3 : ℝ), |w1 - T1| ≤ e1 → |w2 - sgn minus * T2| ≤ e2 →
      |r - (w1 + w2)| ≤ u * |w1 + w2| + e3 → e1 ≤ u * |T1| + R.eta → e2 ≤ u * |T2| + R.eta →
      e3 + u * (e1 + e2) + (e1 + e2) ≤ (u + u ^ 2) * S + 3 * R.eta →
      |r - (T1 + sgn minus * T2)| ≤ (2 * u + u ^ 2) * S + 3 * R.eta := by
    intro w1 w2 r e1 e2 e3 h1 h2 h3 _ _ h6
    have h7 : |w1 + w2| ≤ |T1| + |T2| + (e1 + e2) := by
      have e : w1 + w2 = (T1 + sgn minus * T2) + ((w1 - T1) + (w2 - sgn minus * T2)) := by ring
      rw [e]
      refine (abs_add_le _ _).trans (add_le_add ((abs_add_le _ _).trans ?_) ((abs_add_le _ _).trans (add_le_add h1 h2)))
      rw [abs_sgn_mul]
    have h8 : |(w1 + w2) - (T1 + sgn minus * T2)| ≤ e1 + e2 := by
      have e : (w1 + w2) - (T1 + sgn minus * T2) = (w1 - T1) + (w2 - sgn minus * T2) := by ring
      rw [e]
      exact (abs_add_le _ _).trans (add_le_add h1 h2)
    have h9 := abs_sub_le r (w1 + w2) (T1 + sgn minus * T2)
    have h10 : u * |w1 + w2| ≤ u * (S + (e1 + e2)) := mul_le_mul_of_nonneg_left (by linarith) hu0
    have e1 : u * (S + (e1 + e2)) = u * S + u * (e1 + e2) := by ring
    have e2 : (2 * u + u ^ 2) * S = u * S + (u + u ^ 2) * S := by ring
    rw [e1] at h10
    rw [e2]
    linarith
  have hu1 : u * |T1| + u * |T2| ≤ u * S := by rw [← mul_add]; exact mul_le_mul_of_nonneg_left hS hu0
  have hu2 : u * (u * |T1|) + u * (u * |T2|) ≤ u * (u * S) := by rw [← mul_add]; exact mul_le_mul_of_nonneg_left hu1 hu0
  have hb1 := mul_nonneg hu0 a1
  have hb2 := mul_nonneg hu0 a2
  have hc1 := mul_nonneg hu0 hb1
  have hc2 := mul_nonneg hu0 hb2
  have huu : u * R.eta ≥ 0 := mul_nonneg hu0 heta
  have hx : |R.val (p.1 *ᶠ p.2)| ≤ 2 * |T1| + R.eta := by
    have h1 := abs_sub_le (R.val (p.1 *ᶠ p.2)) T1 0
    rw [sub_zero, sub_zero] at h1
    have h2 : u * |T1| ≤ 1 / 8 * |T1| := mul_le_mul_of_nonneg_right hu8 a1
    linarith
  have hy : |R.val (q.1 *ᶠ q.2)| ≤ 2 * |T2| + R.eta := by
    have h1 := abs_sub_le (R.val (q.1 *ᶠ q.2)) T2 0
    rw [sub_zero, sub_zero] at h1
    have h2 : u * |T2| ≤ 1 / 8 * |T2| := mul_le_mul_of_nonneg_right hu8 a2
    linarith
  have n2 : u * (u * |T1| + R.eta + (u * |T2| + R.eta)) ≤ u * (u * S) + 2 * (1 / 8 * R.eta) := by
    have e : u * (u * |T1| + R.eta + (u * |T2| + R.eta)) = u * (u * |T1|) + u * (u * |T2|) + 2 * (u * R.eta) := by ring
    rw [e]; linarith
  have n3 : ∀ t, t ≤ u * |T1| + R.eta ∨ t ≤ u * |T2| + R.eta → u * t ≤ u * (u * S) + 1 / 8 * R.eta := by
    intro t ht
    have h1 : t ≤ u * S + R.eta := by rcases ht with h | h <;> linarith
    have h2 := mul_le_mul_of_nonneg_left h1 hu0
    have e : u * (u * S + R.eta) = u * (u * S) + u * R.eta := by ring
    rw [e] at h2
    linarith
  have e6 : (u + u ^ 2) * S = u * S + u * (u * S) := by ring
  cases f with
  | none =>
    cases minus with
    | true =>
      simp only [Fusion.eval, if_true]
      obtain ⟨fr, er⟩ := so.sub _ _ fx fy (by
        refine (abs_sub _ _).trans ?_
        linarith)
      refine ⟨fr, key _ (- R.val (q.1 *ᶠ q.2)) _ _ _ 0 ex ?_ (by rw [← sub_eq_add_neg, add_zero]; exact er) le_rfl le_rfl ?_⟩
      · have e : - R.val (q.1 *ᶠ q.2) - sgn true * T2 = -(R.val (q.1 *ᶠ q.2) - T2) := by simp [sgn]; ring
        rw [e, abs_neg]; exact ey
      · rw [e6]; linarith
    | false =>
      simp only [Fusion.eval, Bool.false_eq_true, if_false]
      obtain ⟨fr, er⟩ := so.add _ _ fx fy (by
        refine (abs_add_le _ _).trans ?_
        linarith)
      refine ⟨fr, key _ (R.val (q.1 *ᶠ q.2)) _ _ _ 0 ex ?_ (by rw [add_zero]; exact er) le_rfl le_rfl ?_⟩
      · have e : R.val (q.1 *ᶠ q.2) - sgn false * T2 = R.val (q.1 *ᶠ q.2) - T2 := by simp [sgn]
        rw [e]; exact ey
      · rw [e6]; linarith
  | fst =>
    have hz : ∀ z : F, R.finite z → R.val z = sgn minus * R.val (q.1 *ᶠ q.2) → R.finite (c.fma p.1 p.2 z) ∧
        |R.val (c.fma p.1 p.2 z) - (T1 + sgn minus * T2)| ≤ (2 * u + u ^ 2) * S + 3 * R.eta := by
      intro z fz vz
      obtain ⟨fr, er⟩ := hc.fma p.1 p.2 z hp1 hp2 fz (by
        refine (abs_add_le _ _).trans ?_
        rw [vz, abs_sgn_mul]
        linarith)
      refine ⟨fr, key T1 (R.val z) _ 0 _ R.eta (by simp) ?_ er (by linarith) le_rfl ?_⟩
      · rw [vz, ← mul_sub, abs_sgn_mul]; exact ey
      · rw [zero_add, e6]
        have := n3 _ (Or.inr le_rfl)
        linarith
    cases minus with
    | true =>
      simp only [Fusion.eval, if_true]
      obtain ⟨fn, en⟩ := hc.neg _ fy
      exact hz _ fn (by rw [en]; simp [sgn])
    | false =>
      simp only [Fusion.eval, Bool.false_eq_true, if_false]
      exact hz _ fy (by simp [sgn])
  | snd =>
    have hz : ∀ z : F, R.finite z → R.val z = sgn minus * R.val q.1 → R.finite (c.fma z q.2 (p.1 *ᶠ p.2)) ∧
        |R.val (c.fma z q.2 (p.1 *ᶠ p.2)) - (T1 + sgn minus * T2)| ≤ (2 * u + u ^ 2) * S + 3 * R.eta := by
      intro z fz vz
      have vz2 : R.val z * R.val q.2 = sgn minus * T2 := by rw [vz, hT2]; ring
      obtain ⟨fr, er⟩ := hc.fma z q.2 _ fz hq2 fx (by
        refine (abs_add_le _ _).trans ?_
        rw [vz2, abs_sgn_mul]
        linarith)
      refine ⟨fr, key (R.val (p.1 *ᶠ p.2)) (sgn minus * T2) _ _ 0 R.eta ex (by simp) ?_ le_rfl (by linarith) ?_⟩
      · rw [vz2, add_comm (sgn minus * T2)] at er; exact er
      · rw [add_zero, e6]
        have := n3 _ (Or.inl le_rfl)
        linarith
    cases minus with
    | true =>
      simp only [Fusion.eval, if_true]
      obtain ⟨fn, en⟩ := hc.neg _ hq1
      exact hz _ fn (by rw [en]; simp [sgn])
    | false =>
      simp only [Fusion.eval, Bool.false_eq_true, if_false]
      exact hz _ hq1 (by simp [sgn])

/-- The factor `1/N`. -/
structure IsInv (R : FloatModel F) (u : ℝ) (N : ℕ) (k : F) : Prop where
  fin : R.finite k
  err : |R.val k - 1 / N| ≤ u * (1 / N)

theorem IsInv.abs_le {N : ℕ} {k : F} (hk : IsInv R u N k) : |R.val k| ≤ (1 + u) * (1 / N) := by
  have h := abs_sub_le (R.val k) (1 / N) 0
  rw [sub_zero, sub_zero, abs_of_nonneg (by positivity : (0 : ℝ) ≤ 1 / N)] at h
  have := hk.err
  linarith

/-- `k*z` for a `z` that stands for `t` up to an error `e`. -/
theorem inv_mul_err (so : SignedOps R u Nmax) {N : ℕ} (hN : 1 ≤ N) {k z : F} (hk : IsInv R u N k) {t e : ℝ} (he : |R.val z - t| ≤ e) :
    |R.val k * R.val z - t / N| ≤ u * (|t| / N) + (1 + u) * e := by
  have hu0 := so.u_nonneg
  have hi1 : (1 : ℝ) / N ≤ 1 := by
    have : (1 : ℝ) ≤ N := by exact_mod_cast hN
    rw [div_le_one (by linarith)]; exact this
  have e0 : 0 ≤ e := (abs_nonneg _).trans he
  have e1 : R.val k * R.val z - t / N = (R.val k - 1 / N) * t + R.val k * (R.val z - t) := by ring
  rw [e1]
  refine (abs_add_le _ _).trans (add_le_add ?_ ?_)
  · rw [abs_mul]
    refine (mul_le_mul_of_nonneg_right hk.err (abs_nonneg _)).trans (le_of_eq (by ring))
  · rw [abs_mul]
    refine mul_le_mul (hk.abs_le.trans ?_) he (abs_nonneg _) (by linarith)
    exact mul_le_of_le_one_right (by linarith) hi1

/-- The operands of the last multiplication in `c*x*y`. -/
theorem operands_err (so : SignedOps R u Nmax) (o : ProdOrder) {N : ℕ} (hN : 1 ≤ N) {k x y : F} (hk : IsInv R u N k)
    (hx : R.finite x) (hy : R.finite y) {V : ℝ} (hxV : |R.val x| ≤ V) (hyV : |R.val y| ≤ V) (hO1 : 2 * V ≤ R.Omega) (hO2 : V ^ 2 ≤ R.Omega) :
    R.finiteC (o.operands k x y) ∧
    |R.val (o.operands k x y).1 * R.val (o.operands k x y).2 - R.val x * R.val y / N|
      ≤ (2 * u + u ^ 2) * (|R.val x * R.val y| / N) + R.eta * (2 + |R.val x| + |R.val y|) := by
  have hu0 := so.u_nonneg
  have hu8 := so.u_le
  have heta := R.eta_nonneg
  have hN1 : (1 : ℝ) ≤ N := by exact_mod_cast hN
  have hi0 : (0 : ℝ) < 1 / N := by positivity
  have hi1 : (1 : ℝ) / N ≤ 1 := by rw [div_le_one (by linarith)]; exact hN1
  have ax := abs_nonneg (R.val x)
  have ay := abs_nonneg (R.val y)
  have hk2 : |R.val k| ≤ 2 := by
    have h1 := hk.abs_le
    have h2 : (1 + u) * (1 / N) ≤ 1 + u := mul_le_of_le_one_right (by linarith) hi1
    linarith
  have hscale : ∀ z : F, R.finite z → |R.val z| ≤ V → R.finite (k *ᶠ z) ∧
      |R.val (k *ᶠ z) - R.val z / N| ≤ (2 * u + u ^ 2) * (|R.val z| / N) + R.eta := by
    intro z hz hzV
    have h1 : |R.val k * R.val z| ≤ (1 + u) * (1 / N) * |R.val z| := by
      rw [abs_mul]; exact mul_le_mul_of_nonneg_right hk.abs_le (abs_nonneg _)
    obtain ⟨hf, he⟩ := so.mul k z hk.fin hz (by
      rw [abs_mul]
      exact (mul_le_mul hk2 hzV (abs_nonneg _) (by norm_num)).trans hO1)
    refine ⟨hf, (abs_sub_le _ (R.val k * R.val z) _).trans ?_⟩
    have h2 := inv_mul_err so hN hk (z := z) (t := R.val z) (e := 0) (by simp)
    have h3 := mul_le_mul_of_nonneg_left h1 hu0
    have e1 : (2 * u + u ^ 2) * (|R.val z| / N) = u * ((1 + u) * (1 / N) * |R.val z|) + u * (|R.val z| / N) := by ring
    rw [e1]
    linarith
  have hlast : ∀ w z : F, |R.val w - R.val z / N| ≤ (2 * u + u ^ 2) * (|R.val z| / N) + R.eta → ∀ z' : F,
      |R.val w * R.val z' - R.val z * R.val z' / N| ≤ (2 * u + u ^ 2) * (|R.val z * R.val z'| / N) + R.eta * |R.val z'| := by
    intro w z h z'
    have e1 : R.val w * R.val z' - R.val z * R.val z' / N = (R.val w - R.val z / N) * R.val z' := by ring
    rw [e1, abs_mul, abs_mul]
    exact (mul_le_mul_of_nonneg_right h (abs_nonneg _)).trans (le_of_eq (by ring))
  have m1 := mul_nonneg heta ax
  have m2 := mul_nonneg heta ay
  have e0 : R.eta * (2 + |R.val x| + |R.val y|) = 2 * R.eta + R.eta * |R.val x| + R.eta * |R.val y| := by ring
  rw [e0]
  cases o with
  | scaleFst =>
    obtain ⟨hf, he⟩ := hscale x hx hxV
    refine ⟨⟨hf, hy⟩, ?_⟩
    have h := hlast _ _ he y
    show |R.val (k *ᶠ x) * R.val y - _| ≤ _
    linarith
  | scaleProd =>
    obtain ⟨hf, he⟩ := so.mul x y hx hy (by
      rw [abs_mul]
      refine (mul_le_mul hxV hyV ay (by linarith)).trans ?_
      rw [← sq]; exact hO2)
    refine ⟨⟨hk.fin, hf⟩, ?_⟩
    show |R.val k * R.val (x *ᶠ y) - _| ≤ _
    have e1 : R.val k * R.val (x *ᶠ y) - R.val x * R.val y / N
        = R.val k * (R.val (x *ᶠ y) - R.val x * R.val y) + (R.val k - 1 / N) * (R.val x * R.val y) := by ring
    rw [e1]
    have h1 : |R.val k * (R.val (x *ᶠ y) - R.val x * R.val y)| ≤ (1 + u) * (1 / N) * (u * |R.val x * R.val y| + R.eta) := by
      rw [abs_mul]; exact mul_le_mul hk.abs_le he (abs_nonneg _) (by positivity)
    have h2 : |(R.val k - 1 / N) * (R.val x * R.val y)| ≤ u * (1 / N) * |R.val x * R.val y| := by
      rw [abs_mul]; exact mul_le_mul_of_nonneg_right hk.err (abs_nonneg _)
    have h3 : (1 + u) * (1 / N) * R.eta ≤ 2 * R.eta := by
      refine mul_le_mul_of_nonneg_right ?_ heta
      have h2 : (1 + u) * (1 / N) ≤ 1 + u := mul_le_of_le_one_right (by linarith) hi1
      linarith
    have e2 : (2 * u + u ^ 2) * (|R.val x * R.val y| / N) = (1 + u) * (1 / N) * (u * |R.val x * R.val y|) + u * (1 / N) * |R.val x * R.val y| := by ring
    rw [mul_add] at h1
    rw [e2]
    have h4 := abs_add_le (R.val k * (R.val (x *ᶠ y) - R.val x * R.val y)) ((R.val k - 1 / N) * (R.val x * R.val y))
    linarith
  | scaleSnd =>
    obtain ⟨hf, he⟩ := hscale y hy hyV
    refine ⟨⟨hf, hx⟩, ?_⟩
    have h := hlast _ _ he x
    show |R.val (k *ᶠ y) * R.val x - _| ≤ _
    rw [mul_comm (R.val x) (R.val y)]
    linarith

/-- One part of the product. -/
theorem part_err (so : SignedOps R u Nmax) (hc : SignedFma R c u) (f : PartForm) (minus : Bool) {N : ℕ} (hN : 1 ≤ N) {k x1 y1 x2 y2 : F}
    (hk : IsInv R u N k) (hx1 : R.finite x1) (hy1 : R.finite y1) (hx2 : R.finite x2) (hy2 : R.finite y2) {a b V P : ℝ}
    (ax1 : |R.val x1| ≤ a) (ax2 : |R.val x2| ≤ a) (ay1 : |R.val y1| ≤ b) (ay2 : |R.val y2| ≤ b) (haV : a ≤ V) (hbV : b ≤ V)
    (hP : |R.val x1 * R.val y1| + |R.val x2 * R.val y2| ≤ P) (hPV : P ≤ V ^ 2) (hO : 4 * (V + R.eta + 1) ^ 2 ≤ R.Omega) :
    R.finite (f.eval c.fma minus k x1 y1 x2 y2) ∧
    |R.val (f.eval c.fma minus k x1 y1 x2 y2) - (R.val x1 * R.val y1 + sgn minus * (R.val x2 * R.val y2)) / N|
      ≤ 5 * u * (P / N) + R.eta * (9 + 13 / 5 * (a + b)) := by
  have hu0 := so.u_nonneg
  have hu8 := so.u_le
  have heta := R.eta_nonneg
  have hN1 : (1 : ℝ) ≤ N := by exact_mod_cast hN
  have hi1 : (1 : ℝ) / N ≤ 1 := by rw [div_le_one (by linarith)]; exact hN1
  have ha0 : 0 ≤ a := (abs_nonneg _).trans ax1
  have hb0 : 0 ≤ b := (abs_nonneg _).trans ay1
  have hV0 : 0 ≤ V := ha0.trans haV
  have hP0 : 0 ≤ P := (add_nonneg (abs_nonneg _) (abs_nonneg _)).trans hP
  have hPN : P / N ≤ P := div_le_self hP0 hN1
  have hPN0 : 0 ≤ P / N := by positivity
  set v := 2 * u + u ^ 2 with hv
  have hv0 : 0 ≤ v := by positivity
  have hv1 : v ≤ 17 / 8 * u := by rw [hv]; nlinarith
  have hv2 : v ≤ 17 / 64 := by linarith
  have hvv : v * v ≤ 17 / 64 * v := mul_le_mul_of_nonneg_right hv2 hv0
  have hκ : v * (1 + v) + v ≤ 5 * u := by nlinarith
  have hκP := mul_le_mul_of_nonneg_right hκ hPN0
  have hV2 : 0 ≤ V ^ 2 := by positivity
  have hηV := mul_nonneg heta hV0
  have hO' : 4 * V ^ 2 + 8 * (R.eta * V) + 4 * R.eta ^ 2 + 8 * V + 8 * R.eta + 4 ≤ R.Omega := by
    have e : 4 * (V + R.eta + 1) ^ 2 = 4 * V ^ 2 + 8 * (R.eta * V) + 4 * R.eta ^ 2 + 8 * V + 8 * R.eta + 4 := by ring
    rw [e] at hO; exact hO
  have hη2 : 8 * R.eta ≤ 4 * R.eta ^ 2 + 4 := by nlinarith [sq_nonneg (R.eta - 1)]
  have hηa := mul_nonneg heta ha0
  have hηb := mul_nonneg heta hb0
  have hηaV := mul_le_mul_of_nonneg_left haV heta
  have hηbV := mul_le_mul_of_nonneg_left hbV heta
  have hO1 : 2 * V ≤ R.Omega := by linarith
  have hO2 : V ^ 2 ≤ R.Omega := by linarith
  cases f with
  | terms o1 o2 f =>
    obtain ⟨f1, e1⟩ := operands_err so o1 hN hk hx1 hy1 (ax1.trans haV) (ay1.trans hbV) hO1 hO2
    obtain ⟨f2, e2⟩ := operands_err so o2 hN hk hx2 hy2 (ax2.trans haV) (ay2.trans hbV) hO1 hO2
    rw [← hv] at e1 e2
    set p := o1.operands k x1 y1 with hp
    set q := o2.operands k x2 y2 with hq
    set et := R.eta * (2 + a + b) with het
    have et0 : 0 ≤ et := by positivity
    have t1 : R.eta * (2 + |R.val x1| + |R.val y1|) ≤ et := mul_le_mul_of_nonneg_left (by linarith) heta
    have t2 : R.eta * (2 + |R.val x2| + |R.val y2|) ≤ et := mul_le_mul_of_nonneg_left (by linarith) heta
    have hPs : |R.val x1 * R.val y1| / N + |R.val x2 * R.val y2| / N ≤ P / N := by
      rw [← add_div]; exact div_le_div_of_nonneg_right hP (by linarith)
    have hPv := mul_le_mul_of_nonneg_left hPs hv0
    rw [mul_add] at hPv
    have b1 : |R.val p.1 * R.val p.2| ≤ |R.val x1 * R.val y1| / N + (v * (|R.val x1 * R.val y1| / N) + et) := by
      have h := abs_sub_le (R.val p.1 * R.val p.2) (R.val x1 * R.val y1 / N) 0
      rw [sub_zero, sub_zero, abs_div, Nat.abs_cast] at h
      linarith
    have b2 : |R.val q.1 * R.val q.2| ≤ |R.val x2 * R.val y2| / N + (v * (|R.val x2 * R.val y2| / N) + et) := by
      have h := abs_sub_le (R.val q.1 * R.val q.2) (R.val x2 * R.val y2 / N) 0
      rw [sub_zero, sub_zero, abs_div, Nat.abs_cast] at h
      linarith
    have vP : v * (P / N) ≤ 17 / 64 * (P / N) := mul_le_mul_of_nonneg_right hv2 hPN0
    have vet : v * et ≤ 17 / 64 * et := mul_le_mul_of_nonneg_right hv2 et0
    have eet : et = 2 * R.eta + R.eta * a + R.eta * b := by rw [het]; ring
    obtain ⟨fr, er⟩ := fusion_err so hc f minus f1 f2 (S := P / N + (v * (P / N) + 2 * et)) (by linarith) (by
      rw [eet]
      linarith)
    refine ⟨fr, ?_⟩
    change |R.val (f.eval c.fma minus p q) - _| ≤ _
    refine (abs_sub_le _ (R.val p.1 * R.val p.2 + sgn minus * (R.val q.1 * R.val q.2)) _).trans ?_
    have h3 : |R.val p.1 * R.val p.2 + sgn minus * (R.val q.1 * R.val q.2) - (R.val x1 * R.val y1 + sgn minus * (R.val x2 * R.val y2)) / N|
        ≤ v * (P / N) + 2 * et := by
      have e : R.val p.1 * R.val p.2 + sgn minus * (R.val q.1 * R.val q.2) - (R.val x1 * R.val y1 + sgn minus * (R.val x2 * R.val y2)) / N
          = (R.val p.1 * R.val p.2 - R.val x1 * R.val y1 / N) + sgn minus * (R.val q.1 * R.val q.2 - R.val x2 * R.val y2 / N) := by ring
      rw [e]
      refine (abs_add_le _ _).trans ?_
      rw [abs_sgn_mul]
      linarith
    have e4 : v * (P / N + (v * (P / N) + 2 * et)) = v * (1 + v) * (P / N) + 2 * (v * et) := by ring
    rw [← hv, e4] at er
    have e5 : (v * (1 + v) + v) * (P / N) = v * (1 + v) * (P / N) + v * (P / N) := by ring
    rw [e5] at hκP
    have e6 : R.eta * (9 + 13 / 5 * (a + b)) = 9 * R.eta + 13 / 5 * (R.eta * a) + 13 / 5 * (R.eta * b) := by ring
    rw [e6]
    rw [eet] at er h3 vet
    linarith
  | factored f =>
    obtain ⟨fr, er⟩ := fusion_err so hc f minus (p := (x1, y1)) (q := (x2, y2)) ⟨hx1, hy1⟩ ⟨hx2, hy2⟩ (S := P) hP (by linarith)
    rw [← hv] at er
    simp only at er
    set D := R.val x1 * R.val y1 + sgn minus * (R.val x2 * R.val y2) with hD
    set r := f.eval c.fma minus (x1, y1) (x2, y2) with hr
    have hDP : |D| ≤ P := by
      refine ((abs_add_le _ _).trans ?_).trans hP
      rw [abs_sgn_mul]
    have hrP : |R.val r| ≤ (1 + v) * P + 3 * R.eta := by
      have h := abs_sub_le (R.val r) D 0
      rw [sub_zero, sub_zero] at h
      linarith
    have vP : v * P ≤ 17 / 64 * P := mul_le_mul_of_nonneg_right hv2 hP0
    have hkr : |R.val k * R.val r| ≤ (1 + u) * (1 / N) * ((1 + v) * P + 3 * R.eta) := by
      rw [abs_mul]
      exact mul_le_mul hk.abs_le hrP (abs_nonneg _) (by positivity)
    have hX0 : 0 ≤ (1 + v) * P + 3 * R.eta := by positivity
    have hkr2 : (1 + u) * (1 / N) * ((1 + v) * P + 3 * R.eta) ≤ 9 / 8 * ((1 + v) * P + 3 * R.eta) := by
      refine mul_le_mul_of_nonneg_right ?_ hX0
      have h2 : (1 + u) * (1 / N) ≤ 1 + u := mul_le_of_le_one_right (by linarith) hi1
      linarith
    obtain ⟨fk, ek⟩ := so.mul k r hk.fin fr (by linarith)
    refine ⟨fk, ?_⟩
    change |R.val (k *ᶠ r) - D / N| ≤ _
    refine (abs_sub_le _ (R.val k * R.val r) _).trans ?_
    have h1 : |R.val k * R.val r - D / N| ≤ (1 + u) * (1 / N) * (v * P + 3 * R.eta) + u * (1 / N) * P := by
      have e : R.val k * R.val r - D / N = R.val k * (R.val r - D) + (R.val k - 1 / N) * D := by ring
      rw [e]
      refine (abs_add_le _ _).trans (add_le_add ?_ ?_)
      · rw [abs_mul]; exact mul_le_mul hk.abs_le er (abs_nonneg _) (by positivity)
      · rw [abs_mul]; exact mul_le_mul hk.err hDP (abs_nonneg _) (by positivity)
    have h2 := mul_le_mul_of_nonneg_left hkr hu0
    have e7 : u * ((1 + u) * (1 / N) * ((1 + v) * P + 3 * R.eta)) + ((1 + u) * (1 / N) * (v * P + 3 * R.eta) + u * (1 / N) * P)
        = (v * (1 + v) + v) * (P / N) + 3 * ((1 + v) * (1 / N) * R.eta) := by rw [hv]; ring
    have h3 : (1 + v) * (1 / N) * R.eta ≤ 2 * R.eta := by
      refine mul_le_mul_of_nonneg_right ?_ heta
      have h2 : (1 + v) * (1 / N) ≤ 1 + v := mul_le_of_le_one_right (by linarith) hi1
      linarith
    have e6 : R.eta * (9 + 13 / 5 * (a + b)) = 9 * R.eta + 13 / 5 * (R.eta * a) + 13 / 5 * (R.eta * b) := by ring
    rw [e6]
    linarith

/-- The product of the spectra as compiled. -/
theorem complexProductFast_accurate (so : SignedOps R u Nmax) (hc : SignedFma R c u) (site : ℕ) :
    ProdAccurate R u Nmax (complexProductFast c site) := by
  intro N i hN hNm A B V hA hB hAV hBV hO
  have hu0 := so.u_nonneg
  have heta := R.eta_nonneg
  have hN1 : (1 : ℝ) ≤ N := by exact_mod_cast hN
  obtain ⟨hkf, hke⟩ := so.inv N hN hNm
  have hk : IsInv R u N (one /ᶠ ofInt (N : ℤ) : F) := ⟨hkf, hke⟩
  have hAre : |R.val A.1| ≤ ‖R.valC A‖ := Complex.abs_re_le_norm (R.valC A)
  have hAim : |R.val A.2| ≤ ‖R.valC A‖ := Complex.abs_im_le_norm (R.valC A)
  have hBre : |R.val B.1| ≤ ‖R.valC B‖ := Complex.abs_re_le_norm (R.valC B)
  have hBim : |R.val B.2| ≤ ‖R.valC B‖ := Complex.abs_im_le_norm (R.valC B)
  have hPV : ‖R.valC A‖ * ‖R.valC B‖ ≤ V ^ 2 := by
    rw [sq]; exact mul_le_mul hAV hBV (norm_nonneg _) ((norm_nonneg _).trans hAV)
  obtain ⟨f1, e1⟩ := part_err so hc (c.product site i).1 true hN hk hA.1 hB.1 hA.2 hB.2 hAre hAim hBre hBim hAV hBV
    (cs_two (R.valC A) (R.valC B)) hPV hO
  obtain ⟨f2, e2⟩ := part_err so hc (c.product site i).2 false hN hk hA.1 hB.2 hA.2 hB.1 hAre hAim hBim hBre hAV hBV
    (cs_two' (R.valC A) (R.valC B)) hPV hO
  refine ⟨⟨f1, f2⟩, ?_⟩
  set E := 5 * u * (‖R.valC A‖ * ‖R.valC B‖ / N) + R.eta * (9 + 13 / 5 * (‖R.valC A‖ + ‖R.valC B‖)) with hE
  set Z := R.valC (complexProductFast c site i (one /ᶠ ofInt (N : ℤ)) A B) - R.valC A * R.valC B / N with hZ
  have hre : |Z.re| ≤ E := by
    have e : Z.re = R.val ((c.product site i).1.eval c.fma true (one /ᶠ ofInt (N : ℤ)) A.1 B.1 A.2 B.2)
        - (R.val A.1 * R.val B.1 + sgn true * (R.val A.2 * R.val B.2)) / N := by
      rw [hZ, Complex.sub_re, Complex.div_natCast_re, Complex.mul_re]
      simp only [sgn, if_true, FloatModel.valC, complexProductFast]
      ring
    rw [e]; exact e1
  have him : |Z.im| ≤ E := by
    have e : Z.im = R.val ((c.product site i).2.eval c.fma false (one /ᶠ ofInt (N : ℤ)) A.1 B.2 A.2 B.1)
        - (R.val A.1 * R.val B.2 + sgn false * (R.val A.2 * R.val B.1)) / N := by
      rw [hZ, Complex.sub_im, Complex.div_natCast_im, Complex.mul_im]
      simp only [sgn, Bool.false_eq_true, if_false, FloatModel.valC, complexProductFast]
      ring
    rw [e]; exact e2
  have hn := Complex.norm_le_sqrt_two_mul_max Z
  have hs2 : √(2 : ℝ) ≤ 71 / 50 := by
    rw [Real.sqrt_le_left (by norm_num)]; norm_num
  have hm : √2 * max |Z.re| |Z.im| ≤ 71 / 50 * E :=
    mul_le_mul hs2 (max_le hre him) (le_max_of_le_left (abs_nonneg _)) (by norm_num)
  refine (hn.trans hm).trans ?_
  have g1 : 0 ≤ u * (‖R.valC A‖ * ‖R.valC B‖ / N) := by positivity
  have g2 := mul_nonneg heta (norm_nonneg (R.valC A))
  have g3 := mul_nonneg heta (norm_nonneg (R.valC B))
  have x1 : 71 / 50 * E = 71 / 10 * (u * (‖R.valC A‖ * ‖R.valC B‖ / N)) + 639 / 50 * R.eta + 923 / 250 * (R.eta * ‖R.valC A‖)
      + 923 / 250 * (R.eta * ‖R.valC B‖) := by rw [hE]; ring
  have x2 : 8 * u * (‖R.valC A‖ * ‖R.valC B‖ / N) + R.eta * (13 + 4 * ‖R.valC A‖ + 4 * ‖R.valC B‖)
      = 8 * (u * (‖R.valC A‖ * ‖R.valC B‖ / N)) + 13 * R.eta + 4 * (R.eta * ‖R.valC A‖) + 4 * (R.eta * ‖R.valC B‖) := by ring
  rw [x1, x2]
  linarith

end
end CP.Spec
