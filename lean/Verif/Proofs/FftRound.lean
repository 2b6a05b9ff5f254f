import Verif.Proofs.Norms
/-
Rounding errors of the convolver.
-/
open Finset
namespace CP.Spec
noncomputable section
variable {F : Type} [FOps F] {R : FloatModel F}
open FOps

theorem norm_le_parts {x a : ℂ} {s e : ℝ} (hs : 0 ≤ s) (he : 0 ≤ e) (h1 : |x.re| ≤ s * |a.re| + e)
    (h2 : |x.im| ≤ s * |a.im| + e) : ‖x‖ ≤ s * ‖a‖ + 2 * e := by
  have hb : ‖x‖ ≤ ‖(⟨s * |a.re| + e, s * |a.im| + e⟩ : ℂ)‖ := by
    rw [Complex.norm_def, Complex.norm_def]
    refine Real.sqrt_le_sqrt ?_
    rw [Complex.normSq_apply, Complex.normSq_apply]
    have e1 : x.re * x.re = |x.re| * |x.re| := (abs_mul_abs_self _).symm
    have e2 : x.im * x.im = |x.im| * |x.im| := (abs_mul_abs_self _).symm
    rw [e1, e2]
    exact add_le_add (mul_le_mul h1 h1 (abs_nonneg _) (by positivity)) (mul_le_mul h2 h2 (abs_nonneg _) (by positivity))
  refine hb.trans ?_
  have e : (⟨s * |a.re| + e, s * |a.im| + e⟩ : ℂ) = (s : ℂ) * ⟨|a.re|, |a.im|⟩ + ((e : ℂ) + (e : ℂ) * Complex.I) := by
    apply Complex.ext <;> simp
  rw [e]
  refine (norm_add_le _ _).trans (add_le_add (le_of_eq ?_) ?_)
  · rw [norm_mul, Complex.norm_real, Real.norm_of_nonneg hs]
    congr 1
    rw [Complex.norm_def, Complex.norm_def]
    congr 1
    rw [Complex.normSq_apply, Complex.normSq_apply]
    simp
  · refine (norm_add_le _ _).trans (le_of_eq ?_)
    rw [norm_mul, Complex.norm_I, mul_one, Complex.norm_real, Real.norm_of_nonneg he]; ring

/-- Cauchy-Schwarz for two-component vectors. -/
theorem cs_two (a b : ℂ) : |a.re * b.re| + |a.im * b.im| ≤ ‖a‖ * ‖b‖ := by
  refine abs_le_of_sq_le_sq' ?_ (by positivity) |>.2
  rw [mul_pow, Complex.sq_norm, Complex.sq_norm, Complex.normSq_apply, Complex.normSq_apply, abs_mul, abs_mul]
  have h1 := abs_mul_abs_self a.re
  have h2 := abs_mul_abs_self a.im
  have h3 := abs_mul_abs_self b.re
  have h4 := abs_mul_abs_self b.im
  rw [← h1, ← h2, ← h3, ← h4]
  nlinarith [sq_nonneg (|a.re| * |b.im| - |a.im| * |b.re|)]

theorem cs_two' (a b : ℂ) : |a.re * b.im| + |a.im * b.re| ≤ ‖a‖ * ‖b‖ := by
  have h := cs_two a ⟨b.im, b.re⟩
  have e : ‖(⟨b.im, b.re⟩ : ℂ)‖ = ‖b‖ := by
    rw [Complex.norm_def, Complex.norm_def, Complex.normSq_apply, Complex.normSq_apply]
    congr 1; simp only; ring
  rw [e] at h
  exact h

/-- The product `c*a*b` of the FFT branch, `c = 1/N`. -/
theorem cmul_err {u : ℝ} {Nmax N : ℕ} (so : SignedOps R u Nmax) (hN : 1 ≤ N) (hNm : N ≤ Nmax) {A B : F × F}
    (hA : R.finiteC A) (hB : R.finiteC B) {V : ℝ} (hAV : ‖R.valC A‖ ≤ V) (hBV : ‖R.valC B‖ ≤ V)
    (hO : 4 * (V + R.eta + 1) ^ 2 ≤ R.Omega) :
    R.finiteC (Convolver.cmul (Convolver.cscale (one /ᶠ ofInt (N : ℤ)) A) B) ∧
    ‖R.valC (Convolver.cmul (Convolver.cscale (one /ᶠ ofInt (N : ℤ)) A) B) - R.valC A * R.valC B / N‖
      ≤ 8 * u * (‖R.valC A‖ * ‖R.valC B‖ / N) + R.eta * (5 + 4 * ‖R.valC B‖) := by
  have hu0 := so.u_nonneg
  have hu8 := so.u_le
  have heta := R.eta_nonneg
  have hNr : (1 : ℝ) ≤ N := by exact_mod_cast hN
  have hi0 : 0 < (1 : ℝ) / N := by positivity
  have hi1 : (1 : ℝ) / N ≤ 1 := by rw [div_le_one (by linarith)]; exact hNr
  have hV0 : 0 ≤ V := (norm_nonneg _).trans hAV
  obtain ⟨hcf, hce⟩ := so.inv N hN hNm
  set c : F := one /ᶠ ofInt (N : ℤ) with hc
  set v := 2 * u + u ^ 2 with hv
  have hv0 : 0 ≤ v := by positivity
  have hv1 : v ≤ 17 / 8 * u := by rw [hv]; nlinarith
  have hv2 : 4 * v + 2 ≤ 4 := by linarith
  have hvv : 2 * v * (1 + v) + v ≤ 8 * u := by
    have h1 : v * v ≤ v * (17 / 64) := mul_le_mul_of_nonneg_left (by linarith) hv0
    have h2 : 2 * v * (1 + v) + v = 3 * v + 2 * (v * v) := by ring
    rw [h2]; linarith
  have hcabs : |R.val c| ≤ (1 + u) * (1 / N) := by
    have h1 : |R.val c| ≤ |R.val c - 1 / N| + |1 / (N : ℝ)| := by
      have := abs_add_le (R.val c - 1 / N) (1 / (N : ℝ))
      rwa [sub_add_cancel] at this
    rw [abs_of_pos hi0] at h1
    linarith
  have hAre : |R.val A.1| ≤ ‖R.valC A‖ := Complex.abs_re_le_norm (R.valC A)
  have hAim : |R.val A.2| ≤ ‖R.valC A‖ := Complex.abs_im_le_norm (R.valC A)
  -- scaling
  have hscale : ∀ a : F, R.finite a → |R.val a| ≤ V →
      R.finite (c *ᶠ a) ∧ |R.val (c *ᶠ a) - R.val a / N| ≤ v * (1 / N) * |R.val a| + R.eta := by
    intro a haf haV
    have hca : |R.val c * R.val a| ≤ (1 + u) * (1 / N) * |R.val a| := by
      rw [abs_mul]; exact mul_le_mul_of_nonneg_right hcabs (abs_nonneg _)
    have hcle : (1 + u) * (1 / N) * |R.val a| ≤ 2 * V := by
      have h1 : (1 + u) * (1 / N) ≤ 2 := by nlinarith
      exact mul_le_mul h1 haV (abs_nonneg _) (by norm_num)
    obtain ⟨hf, he⟩ := so.mul c a hcf haf (by
      refine (hca.trans hcle).trans (le_trans ?_ hO)
      nlinarith)
    refine ⟨hf, (abs_sub_le _ (R.val c * R.val a) _).trans ?_⟩
    have h2 : |R.val c * R.val a - R.val a / N| ≤ u * (1 / N) * |R.val a| := by
      have : R.val c * R.val a - R.val a / N = (R.val c - 1 / N) * R.val a := by ring
      rw [this, abs_mul]
      exact mul_le_mul_of_nonneg_right hce (abs_nonneg _)
    have h3 : u * |R.val c * R.val a| ≤ u * ((1 + u) * (1 / N) * |R.val a|) := mul_le_mul_of_nonneg_left hca hu0
    have h4 : v * (1 / N) * |R.val a| = u * ((1 + u) * (1 / N) * |R.val a|) + u * (1 / N) * |R.val a| := by rw [hv]; ring
    linarith
  obtain ⟨f1, e1⟩ := hscale A.1 hA.1 (hAre.trans hAV)
  obtain ⟨f2, e2⟩ := hscale A.2 hA.2 (hAim.trans hAV)
  set x1 : F := c *ᶠ A.1 with hx1
  set x2 : F := c *ᶠ A.2 with hx2
  set X : ℂ := ⟨R.val x1, R.val x2⟩ with hX
  set a := R.valC A with ha
  set b := R.valC B with hb
  have hXA : ‖X - a / N‖ ≤ v * (1 / N) * ‖a‖ + 2 * R.eta := by
    refine norm_le_parts (by positivity) heta ?_ ?_
    · rw [Complex.sub_re, Complex.div_natCast_re]; exact e1
    · rw [Complex.sub_im, Complex.div_natCast_im]; exact e2
  have hXn : ‖X‖ ≤ (1 + v) * (1 / N) * ‖a‖ + 2 * R.eta := by
    have h1 : ‖X‖ ≤ ‖X - a / N‖ + ‖a / N‖ := by
      have := norm_add_le (X - a / N) (a / N)
      rwa [sub_add_cancel] at this
    have h2 : ‖a / N‖ = (1 / N) * ‖a‖ := by rw [norm_div, Complex.norm_natCast]; ring
    rw [h2] at h1
    linarith
  set T := ‖X‖ * ‖b‖ with hT
  have hT0 : 0 ≤ T := by positivity
  have hTV : T ≤ (2 * V + 2 * R.eta) * V := by
    refine mul_le_mul (hXn.trans ?_) hBV (norm_nonneg _) (by positivity)
    have h1 : (1 + v) * (1 / N) ≤ 2 := by nlinarith
    have h2 := mul_le_mul h1 hAV (norm_nonneg _) (by norm_num : (0 : ℝ) ≤ 2)
    linarith
  have hTO : T ≤ R.Omega := hTV.trans (le_trans (by nlinarith) hO)
  have hsum : (1 + u) * T + 2 * R.eta ≤ R.Omega := by
    have h1 : (1 + u) * T ≤ 9 / 8 * ((2 * V + 2 * R.eta) * V) := mul_le_mul (by linarith) hTV hT0 (by norm_num)
    refine le_trans ?_ hO
    nlinarith [mul_nonneg hV0 heta]
  -- the four products
  have hprod : ∀ x y : F, R.finite x → R.finite y → |R.val x * R.val y| ≤ T →
      R.finite (x *ᶠ y) ∧ |R.val (x *ᶠ y) - R.val x * R.val y| ≤ u * |R.val x * R.val y| + R.eta :=
    fun x y hx hy h => so.mul x y hx hy (h.trans hTO)
  have hc1 := cs_two X b
  have hc2 := cs_two' X b
  have hs : ∀ p q s t : ℝ, |s| + |t| ≤ T → |p - s| ≤ u * |s| + R.eta → |q - t| ≤ u * |t| + R.eta →
      |p| + |q| ≤ R.Omega ∧ |p - s| + |q - t| ≤ u * T + 2 * R.eta ∧ |p| + |q| ≤ T + (u * T + 2 * R.eta) := by
    intro p q s t hst hp hq
    have h1 : |p| ≤ |p - s| + |s| := by have := abs_add_le (p - s) s; rwa [sub_add_cancel] at this
    have h2 : |q| ≤ |q - t| + |t| := by have := abs_add_le (q - t) t; rwa [sub_add_cancel] at this
    have h3 : u * |s| + u * |t| ≤ u * T := by rw [← mul_add]; exact mul_le_mul_of_nonneg_left hst hu0
    exact ⟨by linarith, by linarith, by linarith⟩
  have k11 : |R.val x1 * R.val B.1| + |R.val x2 * R.val B.2| ≤ T := hc1
  have k12 : |R.val x1 * R.val B.2| + |R.val x2 * R.val B.1| ≤ T := hc2
  obtain ⟨g11, d11⟩ := hprod x1 B.1 f1 hB.1 (by linarith [abs_nonneg (R.val x2 * R.val B.2)])
  obtain ⟨g22, d22⟩ := hprod x2 B.2 f2 hB.2 (by linarith [abs_nonneg (R.val x1 * R.val B.1)])
  obtain ⟨g12, d12⟩ := hprod x1 B.2 f1 hB.2 (by linarith [abs_nonneg (R.val x2 * R.val B.1)])
  obtain ⟨g21, d21⟩ := hprod x2 B.1 f2 hB.1 (by linarith [abs_nonneg (R.val x1 * R.val B.2)])
  obtain ⟨o1, q1, r1⟩ := hs _ _ _ _ k11 d11 d22
  obtain ⟨o2, q2, r2⟩ := hs _ _ _ _ k12 d12 d21
  obtain ⟨fr, er⟩ := so.sub _ _ g11 g22 ((abs_sub _ _).trans o1)
  obtain ⟨fi, ei⟩ := so.add _ _ g12 g21 ((abs_add_le _ _).trans o2)
  refine ⟨⟨fr, fi⟩, ?_⟩
  set z := R.valC (Convolver.cmul (Convolver.cscale c A) B) with hz
  have hre : |(z - X * b).re| ≤ v * T + 9 / 4 * R.eta := by
    have e : (z - X * b).re = (R.val ((x1 *ᶠ B.1) -ᶠ (x2 *ᶠ B.2)) - (R.val (x1 *ᶠ B.1) - R.val (x2 *ᶠ B.2)))
        + ((R.val (x1 *ᶠ B.1) - R.val x1 * R.val B.1) - (R.val (x2 *ᶠ B.2) - R.val x2 * R.val B.2)) := by
      rw [Complex.sub_re, Complex.mul_re]
      show R.val ((x1 *ᶠ B.1) -ᶠ (x2 *ᶠ B.2)) - (R.val x1 * R.val B.1 - R.val x2 * R.val B.2) = _
      ring
    rw [e]
    refine (abs_add_le _ _).trans ?_
    have h1 := mul_le_mul_of_nonneg_left ((abs_sub _ _).trans r1) hu0
    have h2 := (abs_sub (R.val (x1 *ᶠ B.1) - R.val x1 * R.val B.1) (R.val (x2 *ᶠ B.2) - R.val x2 * R.val B.2)).trans q1
    have h3 : u * R.eta ≤ 1 / 8 * R.eta := mul_le_mul_of_nonneg_right hu8 heta
    have h4 : u * (T + (u * T + 2 * R.eta)) = u * T + u ^ 2 * T + 2 * (u * R.eta) := by ring
    have h5 : v * T = 2 * (u * T) + u ^ 2 * T := by rw [hv]; ring
    rw [h4] at h1
    rw [h5]
    linarith
  have him : |(z - X * b).im| ≤ v * T + 9 / 4 * R.eta := by
    have e : (z - X * b).im = (R.val ((x1 *ᶠ B.2) +ᶠ (x2 *ᶠ B.1)) - (R.val (x1 *ᶠ B.2) + R.val (x2 *ᶠ B.1)))
        + ((R.val (x1 *ᶠ B.2) - R.val x1 * R.val B.2) + (R.val (x2 *ᶠ B.1) - R.val x2 * R.val B.1)) := by
      rw [Complex.sub_im, Complex.mul_im]
      show R.val ((x1 *ᶠ B.2) +ᶠ (x2 *ᶠ B.1)) - (R.val x1 * R.val B.2 + R.val x2 * R.val B.1) = _
      ring
    rw [e]
    refine (abs_add_le _ _).trans ?_
    have h1 := mul_le_mul_of_nonneg_left ((abs_add_le _ _).trans r2) hu0
    have h2 := (abs_add_le (R.val (x1 *ᶠ B.2) - R.val x1 * R.val B.2) (R.val (x2 *ᶠ B.1) - R.val x2 * R.val B.1)).trans q2
    have h3 : u * R.eta ≤ 1 / 8 * R.eta := mul_le_mul_of_nonneg_right hu8 heta
    have h4 : u * (T + (u * T + 2 * R.eta)) = u * T + u ^ 2 * T + 2 * (u * R.eta) := by ring
    have h5 : v * T = 2 * (u * T) + u ^ 2 * T := by rw [hv]; ring
    rw [h4] at h1
    rw [h5]
    linarith
  have hzX : ‖z - X * b‖ ≤ 2 * v * T + 9 / 2 * R.eta := by
    refine (Complex.norm_le_abs_re_add_abs_im _).trans ?_
    linarith
  have hfin : ‖z - a * b / N‖ ≤ ‖z - X * b‖ + ‖X - a / N‖ * ‖b‖ := by
    have e : z - a * b / N = (z - X * b) + (X - a / N) * b := by ring
    rw [e]
    refine (norm_add_le _ _).trans ?_
    rw [norm_mul]
  refine hfin.trans ?_
  have hT2 : T ≤ ((1 + v) * (1 / N) * ‖a‖ + 2 * R.eta) * ‖b‖ := mul_le_mul_of_nonneg_right hXn (norm_nonneg _)
  have hXA2 := mul_le_mul_of_nonneg_right hXA (norm_nonneg b)
  have h5 := mul_le_mul_of_nonneg_left hT2 (by positivity : 0 ≤ 2 * v)
  set m := ‖a‖ * ‖b‖ / N with hm
  have hm0 : 0 ≤ m := by positivity
  have e6 : 2 * v * (((1 + v) * (1 / N) * ‖a‖ + 2 * R.eta) * ‖b‖) = 2 * v * (1 + v) * m + 4 * v * (R.eta * ‖b‖) := by
    rw [hm]; ring
  have e7 : (v * (1 / N) * ‖a‖ + 2 * R.eta) * ‖b‖ = v * m + 2 * (R.eta * ‖b‖) := by rw [hm]; ring
  rw [e6] at h5
  rw [e7] at hXA2
  have h8 := mul_le_mul_of_nonneg_right hvv hm0
  have h9 := mul_le_mul_of_nonneg_right hv2 (mul_nonneg heta (norm_nonneg b))
  have e10 : R.eta * (5 + 4 * ‖b‖) = 5 * R.eta + 4 * (R.eta * ‖b‖) := by ring
  rw [e10]
  linarith

/-- Computed spectra and their product. -/
theorem spectra_err {h N : ℕ} {s α β : ℝ} (hs : s = √N) (hh : h ≤ N) (hα : 0 ≤ α) (hβ : 0 ≤ β)
    {A B A' B' : ℕ → ℂ} (hA : ∀ k < h, ‖A k‖ ≤ α) (hB : ∀ k < h, ‖B k‖ ≤ β) {θa θb : ℝ}
    (hA' : l2 h (fun k => A' k - A k) ≤ θa) (hB' : l2 h (fun k => B' k - B k) ≤ θb) :
    l2 h (fun k => A k * B k) ≤ s * α * β ∧
    l2 h (fun k => A' k * B' k - A k * B k) ≤ θa * β + α * θb + θa * θb ∧
    l2 h B' ≤ s * β + θb := by
  have hsh : √(h : ℝ) ≤ s := by rw [hs]; exact Real.sqrt_le_sqrt (by exact_mod_cast hh)
  have hθa : 0 ≤ θa := (l2_nonneg _ _).trans hA'
  have hθb : 0 ≤ θb := (l2_nonneg _ _).trans hB'
  have hAl : l2 h A ≤ s * α := (l2_le_bound hα hA).trans (mul_le_mul_of_nonneg_right hsh hα)
  have hBl : l2 h B ≤ s * β := (l2_le_bound hβ hB).trans (mul_le_mul_of_nonneg_right hsh hβ)
  refine ⟨(l2_mul_bound hβ hB).trans (mul_le_mul_of_nonneg_right hAl hβ), ?_, ?_⟩
  · have e : (fun k => A' k * B' k - A k * B k) = fun k => ((A' k - A k) * B k + (B' k - B k) * A k)
        + (A' k - A k) * (B' k - B k) := by funext k; ring
    rw [e]
    refine (l2_add _ _ _).trans (add_le_add ((l2_add _ _ _).trans (add_le_add ?_ ?_)) ?_)
    · exact (l2_mul_bound hβ hB).trans (mul_le_mul_of_nonneg_right hA' hβ)
    · refine (l2_mul_bound hα hA).trans ?_
      rw [mul_comm]; exact mul_le_mul_of_nonneg_left hB' hα
    · refine (l2_mul_bound (c := θb) hθb ?_).trans (mul_le_mul_of_nonneg_right hA' hθb)
      intro k hk
      exact (norm_le_l2 (fun k => B' k - B k) hk).trans hB'
  · have e : B' = fun k => B k + (B' k - B k) := by funext k; ring
    rw [e]
    exact (l2_add _ _ _).trans (add_le_add hBl hB')

/-- Arithmetic of the error constants. -/
theorem err_const {s u δ η ηF W α β : ℝ} (hs : 1 ≤ s) (hu : 0 ≤ u) (hu8 : u ≤ 1 / 8) (hδ : 0 ≤ δ) (hδs : δ * s ≤ 1 / 8)
    (hη : 0 ≤ η) (hηF : 0 ≤ ηF) (hηF1 : ηF ≤ 1) (hW : 1 ≤ W) (hα : 0 ≤ α) (hαW : α ≤ W) (hβ : 0 ≤ β) (hβW : β ≤ W)
    {θa θb Eab EY : ℝ} (ha : θa = δ * s * α + ηF) (hb : θb = δ * s * β + ηF) (hE : Eab = θa * β + α * θb + θa * θb)
    (hEY : EY = 8 * u * ((s * α * β + Eab) / s ^ 2) + Eab / s ^ 2 + η * (13 * s + 4 * (s * α + θa) + 4 * (s * β + θb))) :
    s * EY ≤ (11 * u + 5 / 2 * δ) * (α * β) + 9 * W * ηF + 30 * W * (s ^ 2 * η) ∧
      0 ≤ EY ∧ s * EY ≤ 2 * W ^ 2 + 9 * W * ηF + 30 * W * (s ^ 2 * η) := by
  have hs0 : 0 < s := by linarith
  have hδ8 : δ ≤ 1 / 8 := by nlinarith
  have hαβ : 0 ≤ α * β := mul_nonneg hα hβ
  have hd2 : δ * (δ * s) ≤ δ * (1 / 8) := mul_le_mul_of_nonneg_left hδs hδ
  -- Eab / s
  have hEs : Eab / s = (2 * δ + δ * (δ * s)) * (α * β) + ηF * (α + β) * (1 / s + δ) + ηF * ηF * (1 / s) := by
    rw [hE, ha, hb]; field_simp; ring
  have hinv : 1 / s ≤ 1 := by rw [div_le_one hs0]; exact hs
  have hinv0 : 0 < 1 / s := by positivity
  have hEs1 : Eab / s ≤ 17 / 8 * δ * (α * β) + 4 * (W * ηF) := by
    rw [hEs]
    have h1 : (2 * δ + δ * (δ * s)) * (α * β) ≤ 17 / 8 * δ * (α * β) := mul_le_mul_of_nonneg_right (by linarith) hαβ
    have h2 : ηF * (α + β) * (1 / s + δ) ≤ ηF * (2 * W) * (9 / 8) :=
      mul_le_mul (mul_le_mul_of_nonneg_left (by linarith) hηF) (by linarith) (by positivity) (by positivity)
    have h3 : ηF * ηF * (1 / s) ≤ ηF * W * 1 :=
      mul_le_mul (mul_le_mul_of_nonneg_left (by linarith) hηF) hinv hinv0.le (by positivity)
    nlinarith [mul_nonneg hηF (by linarith : (0 : ℝ) ≤ W)]
  have hEs0 : 0 ≤ Eab / s := by rw [hEs]; positivity
  have hsE : s * EY = 8 * u * (α * β + Eab / s) + Eab / s + s * η * (13 * s + 4 * (s * α + θa) + 4 * (s * β + θb)) := by
    rw [hEY]; field_simp
  have hθb : θb ≤ 1 / 8 * W + W := by
    rw [hb]
    have h1 : δ * s * β ≤ 1 / 8 * W := mul_le_mul hδs hβW hβ (by norm_num)
    linarith
  have hθa : θa ≤ 1 / 8 * W + W := by
    rw [ha]
    have h1 : δ * s * α ≤ 1 / 8 * W := mul_le_mul hδs hαW hα (by norm_num)
    linarith
  have hlast : s * η * (13 * s + 4 * (s * α + θa) + 4 * (s * β + θb)) ≤ 30 * W * (s ^ 2 * η) := by
    have h1 : 13 * s + 4 * (s * α + θa) + 4 * (s * β + θb) ≤ 30 * W * s := by
      have h5 : s * α ≤ s * W := mul_le_mul_of_nonneg_left hαW hs0.le
      have h2 : s * β ≤ s * W := mul_le_mul_of_nonneg_left hβW hs0.le
      have h3 : s ≤ W * s := le_mul_of_one_le_left hs0.le hW
      have h4 : W ≤ W * s := le_mul_of_one_le_right (by linarith) hs
      nlinarith
    have := mul_le_mul_of_nonneg_left h1 (by positivity : 0 ≤ s * η)
    calc _ ≤ _ := this
      _ = _ := by ring
  have hWη : 0 ≤ W * ηF := mul_nonneg (by linarith) hηF
  have hmain2 : 8 * u * (α * β + Eab / s) + Eab / s ≤ (11 * u + 5 / 2 * δ) * (α * β) + 9 * (W * ηF) := by
    have h1 : 8 * u * (Eab / s) ≤ 8 * u * (17 / 8 * δ * (α * β)) + 1 * (4 * (W * ηF)) := by
      have h2 := mul_le_mul_of_nonneg_left hEs1 (by linarith : 0 ≤ 8 * u)
      have h3 : 8 * u * (4 * (W * ηF)) ≤ 1 * (4 * (W * ηF)) := mul_le_mul_of_nonneg_right (by linarith) (by linarith)
      linarith
    have h4 : 8 * u * (17 / 8 * δ * (α * β)) ≤ 17 / 8 * u * (α * β) := by
      have h5 : u * δ ≤ u * (1 / 8) := mul_le_mul_of_nonneg_left hδ8 hu
      have h6 := mul_le_mul_of_nonneg_right h5 hαβ
      have e1 : 8 * u * (17 / 8 * δ * (α * β)) = 17 * (u * δ * (α * β)) := by ring
      have e2 : 17 / 8 * u * (α * β) = 17 * (u * (1 / 8) * (α * β)) := by ring
      rw [e1, e2]; linarith
    have h7 : 0 ≤ δ * (α * β) := mul_nonneg hδ hαβ
    have h8 : 0 ≤ u * (α * β) := mul_nonneg hu hαβ
    have e3 : 8 * u * (α * β + Eab / s) = 8 * (u * (α * β)) + 8 * u * (Eab / s) := by ring
    have e4 : (11 * u + 5 / 2 * δ) * (α * β) = 11 * (u * (α * β)) + 5 / 2 * (δ * (α * β)) := by ring
    have e5 : 17 / 8 * δ * (α * β) = 17 / 8 * (δ * (α * β)) := by ring
    have e6 : 17 / 8 * u * (α * β) = 17 / 8 * (u * (α * β)) := by ring
    rw [e3, e4]
    rw [e5] at hEs1
    rw [e6] at h4
    linarith
  have hαβW : α * β ≤ W ^ 2 := by rw [sq]; exact mul_le_mul hαW hβW hβ (by linarith)
  have hfirst : s * EY ≤ (11 * u + 5 / 2 * δ) * (α * β) + 9 * W * ηF + 30 * W * (s ^ 2 * η) := by
    rw [hsE]; linarith
  refine ⟨hfirst, ?_, ?_⟩
  · rw [hEY]
    have : 0 ≤ Eab := by rw [hE, ha, hb]; positivity
    have : 0 ≤ θb := by rw [hb]; positivity
    have : 0 ≤ θa := by rw [ha]; positivity
    positivity
  · have h1 : (11 * u + 5 / 2 * δ) * (α * β) ≤ 2 * W ^ 2 :=
      mul_le_mul (by linarith) hαβW hαβ (by norm_num)
    linarith

end
end CP.Spec
