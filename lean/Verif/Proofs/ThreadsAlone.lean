import Verif.Proofs.ThreadsIeee
import Verif.Proofs.MnsIeeeBnd
import Verif.Proofs.MnsIeeeFinal
import Verif.Props.IeeeMns
/-
`ecdf1_mns2016_b` alone on the zero boundary: the exponent fixes keep the only coefficient in range.
-/
namespace CP.Spec
open FOps CP CP.Props
noncomputable section

theorem maxMult_lone {F : Type} [FOps F] {E : Fault → Prop} {env : Env F} {cap d : ℕ} {p : Poly F} {mu al : ℕ → F} (h : PRep cap (d + 1) p mu al)
    (hmu : ∀ i < d + 1, mu i = zero) (h0 : lt (zero : F) zero = false) (h1 : lt zero (mu (d + 1)) = true) :
    Sat E (fun m => m = mu (d + 1)) (p.maxMult env) := by
  unfold Poly.maxMult
  rw [assertC_true _ (by rw [h.deg]; simp), M_ok_bind]
  have hget : ∀ i : ℕ, i ≤ d + 1 → p.getMult env i = .ok (mu i) := by
    intro i hi
    unfold Poly.getMult
    rw [assertC_true _ (by simp), M_ok_bind, assertC_true _ (by rw [h.deg]; simp; omega), M_ok_bind,
      rd_eq (h.mult i hi)]
  have hz := hget 0 (by omega)
  rw [Int.natCast_zero] at hz
  rw [hz, M_ok_bind, h.deg]
  refine (Sat.forRange (fun j (m : F) => m = if j ≤ ((d + 1 : ℕ) : ℤ) then zero else mu (d + 1)) (by omega) ?_ ?_).mono ?_
  · rw [if_pos (by omega)]; exact hmu 0 (by omega)
  · intro j m g1 g2 hm
    obtain ⟨j, rfl⟩ : ∃ k : ℕ, j = (k : ℤ) := ⟨j.toNat, by omega⟩
    rw [hget j (by omega), M_ok_bind]
    rw [if_pos (by omega)] at hm
    subst hm
    show (if lt zero (mu j) then mu j else zero) = _
    rcases Nat.lt_or_eq_of_le (show j ≤ d + 1 by omega) with hj | hj
    · rw [hmu j hj, if_neg (by rw [h0]; simp), if_pos (by omega)]
    · rw [hj, if_pos h1, if_neg (by omega)]
  · intro m hm
    rw [hm, if_neg (by omega)]

/-- One step on the zero boundary. -/
theorem mnsStep_lone {F : Type} [FOps F] {E : Fault → Prop} {env : Env F} {read : Int → F → Int} {b : List F} {d cap : ℕ} {s : Poly F × Int} {mu al : ℕ → F} {bd X : F}
    (h : PRep cap d s.1 mu al) (hd : d + 1 < cap) (hb : Has b d bd) (hmu : ∀ i < d + 1, stepMu d mu al bd i = zero)
    (hX : stepMu d mu al bd (d + 1) = X) (h0 : lt (zero : F) zero = false) (h1 : lt zero X = true) :
    Sat E (fun s' => ((d % 16 ≠ 0 ∨ 0 ≤ read d X) ∧ s'.2 = s.2 ∧ PRep cap (d + 1) s'.1 (stepMu d mu al bd) (intAl al (neg bd))) ∨
        (d % 16 = 0 ∧ read d X < 0 ∧ s'.2 = s.2 + (0 - read d X) ∧
          PRep cap (d + 1) s'.1 (fun i => ldexp (stepMu d mu al bd i) (0 - read d X)) (intAl al (neg bd))))
      (mnsStep env read b d s) := by
  have e16 : ((d : ℤ).tmod NUM_ITERATIONS_BETWEEN_EXP_FIXES = 0) ↔ d % 16 = 0 := by
    unfold NUM_ITERATIONS_BETWEEN_EXP_FIXES
    rw [Int.tmod_eq_emod_of_nonneg (by omega)]
    omega
  unfold mnsStep
  refine Sat.bind (integrate_sat h hd) fun p1 h1' => ?_
  rw [rd_eq hb, M_ok_bind]
  refine Sat.bind (setAdd1_sat h1' (neg bd)) fun p2 h2 => ?_
  refine Sat.bind (evaluate_sat h2 bd) fun v hv => ?_
  subst hv
  refine Sat.bind (setMult0_sat h2 _) fun p3 h3 => ?_
  by_cases hmod : (d : Int).tmod NUM_ITERATIONS_BETWEEN_EXP_FIXES = 0
  · rw [if_pos hmod]
    refine Sat.bind (maxMult_lone h3 hmu h0 (by rw [← hX] at h1; exact h1)) fun mc hmc => ?_
    rw [show setC (intMu mu) _ (d + 1) = X from hX] at hmc
    subst hmc
    dsimp only
    by_cases hneg : read d mc < 0
    · rw [if_pos hneg]
      refine Sat.bind (ldexpAll_sat h3 (0 - read d mc)) fun p4 h4 => ?_
      exact Or.inr ⟨e16.mp hmod, hneg, rfl, h4⟩
    · rw [if_neg hneg]
      exact Or.inl ⟨Or.inr (by omega), rfl, h3⟩
  · rw [if_neg hmod]
    exact Or.inl ⟨Or.inl (fun hh => hmod (e16.mpr hh)), rfl, h3⟩

variable {A : FloatSystem}

/-- The exponent of a lower bound for the coefficient after `d` steps, at most `w` bits being lost in each. -/
def lowExp (w d : ℕ) : ℕ := if d = 0 then 0 else 1 + w * ((d - 1) % 16)

theorem lowExp_le (w d : ℕ) : lowExp w d ≤ 1 + 15 * w := by
  unfold lowExp
  split
  · omega
  · have : (d - 1) % 16 ≤ 15 := by omega
    have := Nat.mul_le_mul_left w this
    omega

/-- The polynomial after `d` steps on the zero boundary is `2^delta x^d / d!`, up to rounding, with a coefficient in range. -/
def Led (A : FloatSystem) (u : ℝ) (w d : ℕ) (mu al : ℕ → Num A) (delta : ℤ) : Prop :=
  (∀ i ≤ d, al i = zero) ∧ (∀ i < d, mu i = zero) ∧ ∃ c h, mu d = mkNum A c h ∧ 0 ≤ delta ∧ c ≤ 1 ∧ (2 : ℝ) ^ (-(lowExp w d : ℤ)) ≤ c ∧
    (1 - u) ^ d * (2 : ℝ) ^ delta ≤ c * d.factorial ∧ c * d.factorial ≤ (1 + u) ^ d * (2 : ℝ) ^ delta

/-- Division of the coefficient. -/
theorem led_div {u : ℝ} (h : A.OK u) {w d : ℕ} (hw : 2 * (d + 1) ≤ 2 ^ w) (hmin : A.f.emin + A.f.p + 16 * w ≤ 0) {c : ℝ}
    (hc1 : c ≤ 1) (hlow : (2 : ℝ) ^ (-(lowExp w d : ℤ)) ≤ c) :
    0 < A.r (c / ((d + 1 : ℕ) : ℝ)) ∧ A.r (c / ((d + 1 : ℕ) : ℝ)) ≤ 1 ∧ (2 : ℝ) ^ (-(lowExp w d : ℤ) - w) ≤ A.r (c / ((d + 1 : ℕ) : ℝ)) ∧
    (1 - u) * c ≤ A.r (c / ((d + 1 : ℕ) : ℝ)) * ((d + 1 : ℕ) : ℝ) ∧ A.r (c / ((d + 1 : ℕ) : ℝ)) * ((d + 1 : ℕ) : ℝ) ≤ (1 + u) * c := by
  have hd0 : (0 : ℝ) < ((d + 1 : ℕ) : ℝ) := by positivity
  have hd1 : (1 : ℝ) ≤ ((d + 1 : ℕ) : ℝ) := by exact_mod_cast (by omega : 1 ≤ d + 1)
  obtain ⟨D, hD⟩ : ∃ D : ℝ, D = ((d + 1 : ℕ) : ℝ) := ⟨_, rfl⟩
  have hwr : 2 * D ≤ (2 : ℝ) ^ w := by rw [hD]; exact_mod_cast hw
  rw [← hD] at hd0 hd1 ⊢
  have hc0 : 0 < c := lt_of_lt_of_le (by positivity) hlow
  have hx0 : 0 < c / D := div_pos hc0 hd0
  have hu := h.u_pos
  have hu8 := h.u_le
  have hx2 : (2 : ℝ) ^ (-(lowExp w d : ℤ) - w) ≤ c / D / 2 := by
    rw [zpow_sub₀ (by norm_num), zpow_natCast, div_div, mul_comm D 2]
    exact div_le_div₀ hc0.le hlow (by positivity) hwr
  have hnorm : A.f.minNormal ≤ |c / D| := by
    rw [abs_of_pos hx0]
    refine le_trans ?_ (hx2.trans (by linarith))
    unfold Format.minNormal
    have := lowExp_le w d
    exact zpow_le_zpow_right₀ (by norm_num) (by omega)
  have herr := (nearest_normal h.fmt A.nearest hnorm).trans (mul_le_mul_of_nonneg_right h.u_ge (abs_nonneg _))
  rw [abs_of_pos hx0] at herr
  obtain ⟨e1, e2⟩ := abs_le.mp herr
  have hle1 : A.r (c / D) ≤ 1 := by
    have := nearest_mono A.nearest (show c / D ≤ 1 from (div_le_self hc0.le hd1).trans hc1)
    rwa [nearest_rep A.nearest (rep_one h.fmt)] at this
  have hux : u * (c / D) ≤ 1 / 8 * (c / D) := mul_le_mul_of_nonneg_right hu8 hx0.le
  have hxD : c / D * D = c := div_mul_cancel₀ c hd0.ne'
  refine ⟨by linarith, hle1, by linarith, ?_, ?_⟩
  · have := mul_le_mul_of_nonneg_right (show (1 - u) * (c / D) ≤ A.r (c / D) by linarith) hd0.le
    rwa [mul_assoc, hxD] at this
  · have := mul_le_mul_of_nonneg_right (show A.r (c / D) ≤ (1 + u) * (c / D) by linarith) hd0.le
    rwa [mul_assoc, hxD] at this

theorem lowExp_succ (w : ℕ) {d : ℕ} (hd : d % 16 ≠ 0) : (lowExp w d : ℤ) + w = lowExp w (d + 1) := by
  unfold lowExp
  rw [if_neg (by omega), if_neg (by omega)]
  have : (d + 1 - 1) % 16 = (d - 1) % 16 + 1 := by omega
  rw [this]
  push_cast
  ring

theorem lowExp_fix (w : ℕ) {d : ℕ} (hd : d % 16 = 0) : lowExp w (d + 1) = 1 := by
  unfold lowExp
  rw [if_neg (by omega), Nat.add_sub_cancel, hd]
  omega

theorem lt_zero_pos (hf : A.f.OK) {c : ℝ} {h : A.f.Fin c} (hc : 0 < c) : lt (zero : Num A) (mkNum A c h) = true := by
  rw [zero_eq hf]
  exact decide_eq_true hc

theorem lt_zero_zero (hf : A.f.OK) : lt (zero : Num A) zero = false := by
  rw [zero_eq hf]
  exact decide_eq_false (lt_irrefl _)

theorem ldexp_zero_num (hf : A.f.OK) (e : ℤ) : (ldexp (zero : Num A) e : Num A) = zero := by
  rw [zero_eq hf]
  show roundNum A ((0 : ℝ) * (2 : ℝ) ^ e) = _
  rw [zero_mul]
  exact roundNum_of_rep hf (by rw [abs_zero]; positivity) _

/-- The factor of the coefficient, one step further. -/
theorem led_factor {u : ℝ} (hu0 : 0 ≤ u) (hu1 : u ≤ 1) {d : ℕ} {c c' E E' : ℝ} (hs : 0 < E') (hlo : (1 - u) ^ d * E ≤ c * d.factorial)
    (hhi : c * d.factorial ≤ (1 + u) ^ d * E) {r : ℝ} (h1 : (1 - u) * c ≤ r * ((d + 1 : ℕ) : ℝ)) (h2 : r * ((d + 1 : ℕ) : ℝ) ≤ (1 + u) * c)
    (hc' : c' = r * E') : (1 - u) ^ (d + 1) * (E * E') ≤ c' * (d + 1).factorial ∧ c' * (d + 1).factorial ≤ (1 + u) ^ (d + 1) * (E * E') := by
  have hf0 : (0 : ℝ) ≤ d.factorial := Nat.cast_nonneg _
  have e : c' * (d + 1).factorial = (r * ((d + 1 : ℕ) : ℝ)) * d.factorial * E' := by
    rw [hc', Nat.factorial_succ]; push_cast; ring
  rw [e, pow_succ, pow_succ]
  constructor
  · calc (1 - u) ^ d * (1 - u) * (E * E') = (1 - u) * ((1 - u) ^ d * E) * E' := by ring
      _ ≤ (1 - u) * (c * d.factorial) * E' := mul_le_mul_of_nonneg_right (mul_le_mul_of_nonneg_left hlo (by linarith)) hs.le
      _ = (1 - u) * c * d.factorial * E' := by ring
      _ ≤ _ := mul_le_mul_of_nonneg_right (mul_le_mul_of_nonneg_right h1 hf0) hs.le
  · calc r * ((d + 1 : ℕ) : ℝ) * d.factorial * E' ≤ (1 + u) * c * d.factorial * E' :=
          mul_le_mul_of_nonneg_right (mul_le_mul_of_nonneg_right h2 hf0) hs.le
      _ = (1 + u) * (c * d.factorial) * E' := by ring
      _ ≤ (1 + u) * ((1 + u) ^ d * E) * E' := mul_le_mul_of_nonneg_right (mul_le_mul_of_nonneg_left hhi (by linarith)) hs.le
      _ = _ := by ring

/-- The loop on the zero boundary. -/
theorem led_loop {u : ℝ} (h : A.OK u) {n w : ℕ} (hF : AnnexF A n) (hw : 2 * n ≤ 2 ^ w) (hmin : A.f.emin + A.f.p + 16 * w ≤ 0)
    (hnp : n ≤ 2 ^ A.f.p) (hno : (n : ℝ) ≤ (2 : ℝ) ^ (A.f.emax - 1)) (env : Env (Num A)) :
    Sat NoFault (fun s => ∃ mu al, PRep (n + 2) n s.1 mu al ∧ Led A u w n mu al s.2)
      (do
        let p ← Poly.new env ((n : Int) + 1)
        let p ← p.setMult env 0 one
        CP.forRange 0 (n : Int) (p, (0 : Int)) (mnsStep env (fun _ x => frexpExp x) (List.replicate n (zero : Num A)))) := by
  have hf := h.fmt
  have hu := h.u_pos
  have hu8 := h.u_le
  refine Sat.bind (polyNew_sat env n) fun p hp => ?_
  refine Sat.bind (setMult0_sat hp one) fun p hp => ?_
  refine (Sat.forRange (fun j (s : Poly (Num A) × Int) => ∃ mu al, PRep (n + 2) j.toNat s.1 mu al ∧ Led A u w j.toNat mu al s.2) (by omega)
    (by exact ⟨setC (fun _ => zero) one, fun _ => zero, hp, fun _ _ => rfl, fun i hi => absurd hi (by simp), 1, thr_fin_one hf, one_eq hf, le_rfl,
      le_rfl, by simp [lowExp], by simp, by simp⟩)
    ?_).mono ?_
  · rintro j ⟨q, delta⟩ h0 h1 ⟨mu, al, hs, hal, hmu, c, hc, hcd, hd0, hc1, hlow, hlo, hhi⟩
    obtain ⟨d, rfl⟩ : ∃ k : ℕ, j = (k : ℤ) := ⟨j.toNat, by omega⟩
    dsimp only at hs hcd hd0 hlo hhi ⊢
    rw [Int.toNat_natCast] at hs hal hmu hcd hlow hlo hhi
    have e : ((d : ℤ) + 1).toNat = d + 1 := by omega
    rw [e]
    have hdn : d + 1 ≤ n := by omega
    have hc0 : 0 < c := lt_of_lt_of_le (by positivity) hlow
    obtain ⟨g1, g2, hX, g3⟩ := lone_step hf hF hal hmu hcd (by rw [abs_of_pos hc0]; linarith) (hdn.trans hnp)
      (le_trans (by exact_mod_cast hdn) hno)
    obtain ⟨r0, r1, r2, r3, r4⟩ := led_div h (by omega) hmin hc1 hlow
    obtain ⟨r, hr⟩ : ∃ r, r = A.r (c / ((d + 1 : ℕ) : ℝ)) := ⟨_, rfl⟩
    have g3' : ∃ hX : A.f.Fin r, stepMu d mu al zero (d + 1) = mkNum A r hX := ⟨hr ▸ hX, by rw [g3]; exact thr_mkNum_congr hr.symm _ _⟩
    clear g3 hX
    obtain ⟨hX, g3⟩ := g3'
    rw [← hr] at r0 r1 r2 r3 r4
    have hread : (frexpExp (mkNum A r hX) : ℤ) = Int.log 2 r + 1 := by
      show (if r = 0 then (0 : ℤ) else Int.log 2 |r| + 1) = _
      rw [if_neg r0.ne', abs_of_pos r0]
    refine (mnsStep_lone hs (by omega) (by rw [has_replicate]; exact ⟨by omega, by simpa using hdn, rfl⟩) g2 g3 (lt_zero_zero hf)
      (lt_zero_pos hf r0)).mono ?_
    rintro ⟨q', delta'⟩ (⟨k1, k2, k3⟩ | ⟨k1, k2, k3, k4⟩)
    · dsimp only at k2 k3
      subst k2
      obtain ⟨m1, m2⟩ := led_factor hu.le (by linarith) (E' := 1) (by norm_num) hlo hhi r3 r4 (mul_one r).symm
      rw [mul_one] at m1 m2
      refine ⟨_, _, k3, g1, g2, r, hX, g3, hd0, r1, ?_, m1, m2⟩
      by_cases h16 : d % 16 = 0
      · rw [lowExp_fix w h16]
        rcases k1 with k1 | k1
        · exact absurd h16 k1
        · rw [hread] at k1
          have := Int.zpow_log_le_self (b := 2) (by norm_num) r0
          refine le_trans ?_ this
          push_cast
          exact zpow_le_zpow_right₀ (by norm_num) (by omega)
      · rw [← lowExp_succ w h16]
        refine le_trans (le_of_eq ?_) r2
        congr 1
        ring
    · dsimp only at k2 k3 k4
      rw [hread] at k2 k3 k4
      obtain ⟨ee, hee⟩ : ∃ ee : ℤ, ee = 0 - (Int.log 2 r + 1) := ⟨_, rfl⟩
      rw [← hee] at k3 k4
      have hp2 : (0 : ℝ) < (2 : ℝ) ^ ee := by positivity
      obtain ⟨m1, m2⟩ := led_factor hu.le (by linarith) hp2 hlo hhi r3 r4 rfl
      have hlog1 := Int.zpow_log_le_self (b := 2) (by norm_num) r0
      have hlog2 := Int.lt_zpow_succ_log_self (b := 2) (by norm_num) r
      push_cast at hlog1 hlog2
      have hb1 : (1 : ℝ) / 2 ≤ r * (2 : ℝ) ^ ee := by
        have := mul_le_mul_of_nonneg_right hlog1 hp2.le
        rw [← zpow_add₀ (by norm_num), show Int.log 2 r + ee = -1 by omega] at this
        norm_num at this ⊢
        exact this
      have hb2 : r * (2 : ℝ) ^ ee ≤ 1 := by
        have := mul_le_mul_of_nonneg_right hlog2.le hp2.le
        rw [← zpow_add₀ (by norm_num), show Int.log 2 r + 1 + ee = 0 by omega] at this
        simpa using this
      have hO := one_le_Omega hf
      have habs : |r * (2 : ℝ) ^ ee| ≤ (2 : ℝ) ^ (A.f.emax - 1) := by rw [abs_of_nonneg (by linarith)]; linarith
      have hrep : A.f.Fin (r * (2 : ℝ) ^ ee) :=
        ⟨rep_ldexp hX.1 (by omega), lt_of_le_of_lt habs (zpow_lt_zpow_right₀ (by norm_num) (by omega))⟩
      refine ⟨_, _, k4, g1, fun i hi => ?_, r * (2 : ℝ) ^ ee, hrep, ?_, ?_, hb2, ?_, ?_, ?_⟩
      · beta_reduce
        rw [g2 i hi, ldexp_zero_num hf]
      · beta_reduce
        rw [g3]
        show roundNum A (r * (2 : ℝ) ^ ee) = _
        exact roundNum_of_rep hf habs _
      · rw [k3]; omega
      · rw [lowExp_fix w k1]
        norm_num
        linarith
      · rw [k3, zpow_add₀ (by norm_num)]; exact m1
      · rw [k3, zpow_add₀ (by norm_num)]; exact m2
  · rintro s ⟨mu, al, hs, hL⟩
    rw [Int.toNat_natCast] at hs hL
    exact ⟨mu, al, hs, hL⟩

/-- The polynomial at 1. -/
theorem led_eval (hf : A.f.OK) {n d : ℕ} (hF : AnnexF A n) {mu al : ℕ → Num A} (hal : ∀ i ≤ d, al i = zero) (hmu : ∀ i < d, mu i = zero) {c : ℝ}
    {hc : A.f.Fin c} (hcd : mu d = mkNum A c hc) (hc1 : |c| ≤ 1) : evalF d mu al (ofInt 1) = mkNum A c hc := by
  have hp : ∀ i ≤ d, (powi (ofInt 1 +ᶠ al i) (i : ℤ) : Num A) = one := by
    intro i hi
    rw [hal i hi]
    show powi (one +ᶠ zero) (i : ℤ) = (one : Num A)
    rw [one_add_zero hf, hF.pow_one]
  have hpre : ∀ k ≤ d, (List.range k).foldl (fun r i => r +ᶠ mu i *ᶠ powi (ofInt 1 +ᶠ al i) (i : Int)) zero = (zero : Num A) := by
    intro k
    induction k with
    | zero => intro _; rfl
    | succ k ih =>
      intro hk
      rw [List.range_succ, List.foldl_append, ih (by omega)]
      show zero +ᶠ mu k *ᶠ powi (ofInt 1 +ᶠ al k) (k : Int) = zero
      rw [hp k (by omega), hmu k (by omega), zero_mul_num hf (finite_one hf), zero_add_zero hf]
  have hO := one_le_Omega hf
  unfold evalF
  rw [List.range_succ, List.foldl_append, hpre d le_rfl]
  show zero +ᶠ mu d *ᶠ powi (ofInt 1 +ᶠ al d) (d : Int) = _
  rw [hp d le_rfl, hcd, one_eq hf, mul_fin, mul_one, roundNum_of_rep hf (by linarith) hc, zero_eq hf, add_fin, zero_add,
    roundNum_of_rep hf (by linarith) hc]

theorem led_delta {u : ℝ} (hu0 : 0 ≤ u) {n : ℕ} (hnu : n * u ≤ 1 / 2) {c : ℝ} {delta : ℤ} (hc : c ≤ 1)
    (hlo : (1 - u) ^ n * (2 : ℝ) ^ delta ≤ c * n.factorial) : delta ≤ (n : ℤ) ^ 2 + 1 := by
  have hb : 1 - (n : ℝ) * u ≤ (1 - u) ^ n := by
    rcases Nat.eq_zero_or_pos n with rfl | hn
    · simp
    · have hn1 : (1 : ℝ) ≤ n := by exact_mod_cast hn
      have : u ≤ n * u := le_mul_of_one_le_left hu0 hn1
      have := one_add_mul_le_pow (show (-2 : ℝ) ≤ -u by linarith) n
      rw [← sub_eq_add_neg] at this
      linarith
  have h1 : (2 : ℝ) ^ delta / 2 ≤ 2 ^ (n ^ 2) := by
    have h2 : (1 / 2) * (2 : ℝ) ^ delta ≤ (1 - u) ^ n * (2 : ℝ) ^ delta := mul_le_mul_of_nonneg_right (by linarith) (by positivity)
    have h3 : c * n.factorial ≤ 1 * n.factorial := mul_le_mul_of_nonneg_right hc (Nat.cast_nonneg _)
    have h4 := nat_lt_two_pow_sq n
    linarith
  have h5 : (2 : ℝ) ^ delta ≤ 2 ^ ((n : ℤ) ^ 2 + 1) := by
    rw [zpow_add₀ (by norm_num), zpow_one, show ((n : ℤ) ^ 2) = ((n ^ 2 : ℕ) : ℤ) by push_cast; ring, zpow_natCast]
    linarith
  exact (zpow_le_zpow_iff_right₀ (by norm_num)).mp h5

/-- Alone, `ecdf1_mns2016_b` returns a number close to 1 for the zero boundary. -/
theorem mns_alone {u : ℝ} (h : A.OK u) {n q : ℕ} (hF : AnnexF A n) (hL : LibmAccurate A u n) (hP : PowAccurate A u q n) (hn : n ≤ 1000000)
    (hu61 : u = (2 : ℝ) ^ (-61 : ℤ)) (hp : 42 ≤ A.f.p) (hmin : A.f.emin + A.f.p + 500 ≤ 0) (hmax : 200 ≤ A.f.emax) (env : Env (Num A)) :
    ∃ x : Num A, ecdf1Mns2016b env (List.replicate n (zero : Num A)) = .ok x ∧ x.finite ∧ |x.val - 1| ≤ 1 / 40000 := by
  have hf := h.fmt
  have hu := h.u_pos
  have hn2 : n ^ 2 ≤ 10 ^ 12 := (Nat.pow_le_pow_left hn 2).trans (by norm_num)
  have hp42 : 2 ^ 42 ≤ 2 ^ A.f.p := Nat.pow_le_pow_right (by norm_num) hp
  have hnr : (n : ℝ) ≤ 1000000 := by exact_mod_cast hn
  have hn2r : (n : ℝ) ^ 2 ≤ 10 ^ 12 := by exact_mod_cast hn2
  have hOm : (2 : ℝ) ^ (100 : ℤ) ≤ (2 : ℝ) ^ (A.f.emax - 1) := zpow_le_zpow_right₀ (by norm_num) (by omega)
  have hOm' : (10 : ℝ) ^ 20 ≤ (2 : ℝ) ^ (A.f.emax - 1) := le_trans (by norm_num) hOm
  have hchk : checkBoundaryVector "b" ((List.replicate n (zero : Num A)).length : Int) (List.replicate n (zero : Num A)) = .ok () := by
    have e : List.replicate n (zero : Num A) = List.ofFn (fun _ : Fin n => (zero : Num A)) := by simp [List.ofFn_const]
    rw [e]
    have hv : (zero : Num A).val = 0 := by rw [zero_eq hf]; rfl
    refine check_valid_float (R := ieeeModel A u h) (fun _ => finite_zero hf) ?_ _ _ (by simp)
    constructor
    · intro i j _; exact le_rfl
    · intro i
      show (0 : ℝ) ≤ (zero : Num A).val ∧ (zero : Num A).val ≤ 1
      rw [hv]
      norm_num
  have ops := ieeeBnd h hL hP (n := n) (by omega) (by linarith)
  obtain ⟨⟨p, delta⟩, hs, mu, al, hrep, hal, hmu, c, hc, hcd, hd0, hc1, hlow, hlo, hhi⟩ :=
    (led_loop h hF (w := 21) (by norm_num; omega) (by omega) (by omega) (by linarith) env).exists_ok
  dsimp only at hrep hd0 hlo hhi
  have hc0 : 0 < c := lt_of_lt_of_le (by positivity) hlow
  have hnu : (n : ℝ) * u ≤ 1 / 10 ^ 12 := by
    rw [hu61]
    calc (n : ℝ) * (2 : ℝ) ^ (-61 : ℤ) ≤ 1000000 * (2 : ℝ) ^ (-61 : ℤ) := mul_le_mul_of_nonneg_right hnr (by positivity)
      _ ≤ _ := by norm_num
  have hdel := led_delta hu.le (by linarith) hc1 hlo
  have hev := led_eval hf hF hal hmu hcd (by rw [abs_of_pos hc0]; exact hc1)
  have hlogc : |Real.log c| ≤ 316 := by
    rw [abs_of_nonpos (Real.log_nonpos hc0.le hc1)]
    have h1 := Real.log_le_log (by positivity) hlow
    rw [Real.log_zpow] at h1
    have h2 := lowExp_le 21 n
    have h3 : ((lowExp 21 n : ℕ) : ℝ) ≤ 316 := by exact_mod_cast h2
    have h4 := Real.log_two_lt_d9
    have h5 := Real.log_two_gt_d9
    push_cast at h1
    have h6 : ((lowExp 21 n : ℕ) : ℝ) * Real.log 2 ≤ 316 * 1 := mul_le_mul h3 (by linarith) (by linarith) (by norm_num)
    linarith
  have hG : Real.log n.factorial ≤ 10 ^ 12 := (log_fact_le n).trans hn2r
  have hG0 := Real.log_natCast_nonneg n.factorial
  have hdr : (delta : ℝ) ≤ 10 ^ 12 + 1 := by
    have : (delta : ℝ) ≤ (n : ℝ) ^ 2 + 1 := by exact_mod_cast hdel
    linarith
  have hdr0 : (0 : ℝ) ≤ delta := by exact_mod_cast hd0
  have hdl : (delta : ℝ) * Real.log 2 ≤ 10 ^ 12 + 1 := by
    have h4 := Real.log_two_lt_d9
    have h5 := Real.log_two_gt_d9
    calc (delta : ℝ) * Real.log 2 ≤ (10 ^ 12 + 1) * 1 := mul_le_mul hdr (by linarith) (by linarith) (by norm_num)
      _ = _ := mul_one _
  have hdl0 : 0 ≤ (delta : ℝ) * Real.log 2 := mul_nonneg hdr0 (by have := Real.log_two_gt_d9; linarith)
  obtain ⟨S, hS⟩ : ∃ S, S = Real.log n.factorial + |Real.log c| + delta * Real.log 2 + 1 := ⟨_, rfl⟩
  have hS1 : S ≤ 3 * 10 ^ 12 := by
    rw [hS]
    linarith
  have hS0 : 0 ≤ S := by rw [hS]; have := abs_nonneg (Real.log c); linarith
  have hu3 : (1 + u) ^ 3 - 1 ≤ 4 * u := by
    have hu8 := h.u_le
    have e : (1 + u) ^ 3 - 1 = 3 * u + 3 * (u * u) + u * u * u := by ring
    have h1 : u * u ≤ 1 / 8 * u := mul_le_mul_of_nonneg_right hu8 hu.le
    have h2 : u * u * u ≤ 1 / 8 * u * u := mul_le_mul_of_nonneg_right h1 hu.le
    rw [e]
    linarith
  have hu30 : 0 ≤ (1 + u) ^ 3 - 1 := by
    have := one_le_pow₀ (show (1 : ℝ) ≤ 1 + u by linarith) (n := 3)
    linarith
  have hu18 : u ≤ 1 / (2 * 10 ^ 18) := by rw [hu61]; norm_num
  obtain ⟨T, hT⟩ : ∃ T, T = ((1 + u) ^ 3 - 1) * S := ⟨_, rfl⟩
  have hT0 : 0 ≤ T := by rw [hT]; exact mul_nonneg hu30 hS0
  have hT1 : T ≤ 6 / 10 ^ 6 := by
    rw [hT]
    calc ((1 + u) ^ 3 - 1) * S ≤ 4 * u * (3 * 10 ^ 12) := mul_le_mul hu3 hS1 hS0 (by linarith)
      _ ≤ 4 * (1 / (2 * 10 ^ 18)) * (3 * 10 ^ 12) := by linarith
      _ = _ := by norm_num
  have hexpT : Real.exp T ≤ 1 + 13 / 10 ^ 6 := by
    have h1 := Real.abs_exp_sub_one_le (x := T) (by rw [abs_of_nonneg hT0]; linarith)
    rw [abs_of_nonneg hT0] at h1
    have := (abs_le.mp h1).2
    linarith
  have hexp1 : 1 ≤ Real.exp T := Real.one_le_exp hT0
  obtain ⟨Q, hQ⟩ : ∃ Q : ℝ, Q = n.factorial * c / (2 : ℝ) ^ delta := ⟨_, rfl⟩
  have h2d : (0 : ℝ) < (2 : ℝ) ^ delta := by positivity
  have hQ1 : 1 - 1 / 10 ^ 12 ≤ Q := by
    rw [hQ, le_div_iff₀ h2d]
    refine le_trans (mul_le_mul_of_nonneg_right ?_ h2d.le) (hlo.trans (le_of_eq (mul_comm _ _)))
    have := one_add_mul_le_pow (show (-2 : ℝ) ≤ -u by have := h.u_le; linarith) n
    rw [← sub_eq_add_neg] at this
    linarith
  have hQ2 : Q ≤ 1 + 2 / 10 ^ 12 := by
    rw [hQ, div_le_iff₀ h2d]
    refine ((mul_comm _ _).le.trans hhi).trans (mul_le_mul_of_nonneg_right ?_ h2d.le)
    have := pow_sub_one_le hu.le (N := n) (by linarith)
    linarith
  have hth : u * thU A u = (2 : ℝ) ^ A.f.emin := u_mul_thU h
  have hem : (2 : ℝ) ^ A.f.emin ≤ (2 : ℝ) ^ (-500 : ℤ) := zpow_le_zpow_right₀ (by norm_num) (by omega)
  have hem2 : (2 : ℝ) ^ A.f.emin ≤ (2 : ℝ) ^ (-200 : ℤ) := hem.trans (zpow_le_zpow_right₀ (by norm_num) (by norm_num))
  have hem3 : (2 : ℝ) ^ (-200 : ℤ) ≤ 1 / 10 ^ 40 := by norm_num
  obtain ⟨h1, h2⟩ := final_bnd ops hd0 (by omega) (v := mkNum A c hc) ⟨_, _, rfl⟩ hc0
    (by
      show ((delta : ℝ) + 5) * thU A u ≤ 1
      have e : thU A u ≤ 1 / 10 ^ 20 := by
        have h3 : thU A u = (2 : ℝ) ^ A.f.emin / u := rfl
        rw [h3, div_le_iff₀ hu, hu61]
        refine (hem2.trans hem3).trans ?_
        norm_num
      have e0 := thU_nonneg h
      calc ((delta : ℝ) + 5) * thU A u ≤ (10 ^ 12 + 6) * (1 / 10 ^ 20) := mul_le_mul (by linarith) e e0 (by norm_num)
        _ ≤ 1 := by norm_num)
    (by linarith)
    (by
      show 2 * (Real.log n.factorial + |Real.log c| + delta * Real.log 2 + 1) ≤ _
      rw [← hS]
      linarith)
    (by
      show Real.exp (((1 + u) ^ 3 - 1) * (Real.log n.factorial + |Real.log c| + delta * Real.log 2 + 1)) * (n.factorial * c / (2 : ℝ) ^ delta) ≤ _
      rw [← hS, ← hT, ← hQ]
      calc Real.exp T * Q ≤ (1 + 13 / 10 ^ 6) * (1 + 2 / 10 ^ 12) := mul_le_mul hexpT hQ2 (by linarith) (by norm_num)
        _ ≤ (10 : ℝ) ^ 20 := by norm_num
        _ ≤ _ := hOm')
  have hx : ecdf1Mns2016b env (List.replicate n (zero : Num A)) =
      .ok (exp (lgamma (ofInt ((n : ℤ) + 1)) +ᶠ log (mkNum A c hc) -ᶠ ofInt delta *ᶠ log (ofInt 2))) := by
    have hE := evaluate_sat (E := NoFault) hrep (ofInt 1)
    obtain ⟨v, hv, ev⟩ := hE.exists_ok
    have hs' := hs
    unfold ecdf1Mns2016b ecdf1Mns2016bWith
    dsimp only
    rw [hchk, M_ok_bind, List.length_replicate]
    have key : ∀ {f : Poly (Num A) × ℤ → M (Num A)}, (do
        let p ← Poly.new env ((n : Int) + 1)
        let p ← p.setMult env 0 one
        let s ← CP.forRange 0 (n : Int) (p, (0 : Int)) (mnsStep env (fun _ x => frexpExp x) (List.replicate n (zero : Num A)))
        f s) = f (p, delta) := by
      intro f
      rw [show (do
        let p ← Poly.new env ((n : Int) + 1)
        let p ← p.setMult env 0 one
        let s ← CP.forRange 0 (n : Int) (p, (0 : Int)) (mnsStep env (fun _ x => frexpExp x) (List.replicate n (zero : Num A)))
        f s) = ((do
        let p ← Poly.new env ((n : Int) + 1)
        let p ← p.setMult env 0 one
        CP.forRange 0 (n : Int) (p, (0 : Int)) (mnsStep env (fun _ x => frexpExp x) (List.replicate n (zero : Num A)))) >>= f) by
          simp only [bind_assoc], hs]
      rfl
    refine key.trans ?_
    dsimp only
    rw [hv, M_ok_bind, ev, hev]
  refine ⟨_, hx, h1, ?_⟩
  have h2' : |(exp (lgamma (ofInt ((n : ℤ) + 1)) +ᶠ log (mkNum A c hc) -ᶠ ofInt delta *ᶠ log (ofInt 2)) : Num A).val
      - n.factorial * c / (2 : ℝ) ^ delta| ≤
      (Real.exp (((1 + u) ^ 3 - 1) * (Real.log n.factorial + |Real.log c| + delta * Real.log 2 + 1)) * (1 + u) - 1)
        * (n.factorial * c / (2 : ℝ) ^ delta) + u * thU A u := h2
  rw [← hS, ← hT, ← hQ, hth] at h2'
  have h3 : (Real.exp T * (1 + u) - 1) * Q ≤ 15 / 10 ^ 6 * (1 + 2 / 10 ^ 12) := by
    refine mul_le_mul ?_ hQ2 (by linarith) (by norm_num)
    have : Real.exp T * (1 + u) ≤ (1 + 13 / 10 ^ 6) * (1 + 1 / (2 * 10 ^ 18)) := mul_le_mul hexpT (by linarith) (by linarith) (by norm_num)
    refine (sub_le_sub_right this 1).trans ?_
    norm_num
  have h4 := (abs_le.mp h2')
  have h5 := hem2.trans hem3
  generalize (2 : ℝ) ^ A.f.emin = em at h5 h4
  refine abs_le.mpr ⟨?_, ?_⟩
  · linarith only [h3, h4.1, h5, hQ1]
  · linarith only [h3, h4.2, h5, hQ2]

end
end CP.Spec
