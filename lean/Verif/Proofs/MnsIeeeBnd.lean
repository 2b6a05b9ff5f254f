import Verif.IeeePow
import Verif.Proofs.Ieee
import Verif.Proofs.MnsIeee
/-! IEEE-754 arithmetic satisfies `BndOps`. -/
namespace CP.Spec
open FOps
noncomputable section

variable {A : FloatSystem} {u : ℝ}

/-- The underflow threshold relative to `u`. -/
def thU (A : FloatSystem) (u : ℝ) : ℝ := (2 : ℝ) ^ A.f.emin / u

theorem u_mul_thU (h : A.OK u) : u * thU A u = (2 : ℝ) ^ A.f.emin := by
  unfold thU
  have := h.u_pos.ne'
  field_simp

theorem thU_nonneg (h : A.OK u) : 0 ≤ thU A u := by
  unfold thU
  have := h.u_pos
  positivity

theorem half_emin (A : FloatSystem) : (2 : ℝ) ^ (A.f.emin - 1) ≤ (2 : ℝ) ^ A.f.emin :=
  zpow_le_zpow_right₀ (by norm_num) (by omega)

theorem rep_ldexp {f : Format} {a : ℝ} (h : f.Rep a) {e : ℤ} (he : 0 ≤ e) : f.Rep (a * (2 : ℝ) ^ e) := by
  obtain ⟨m, k, hm, hk, rfl⟩ := h
  exact ⟨m, k + e, hm, by omega, by rw [zpow_add₀ (by norm_num), mul_assoc]⟩

/-- IEEE-754 arithmetic as `BndOps`. -/
theorem ieeeBnd (h : A.OK u) {q n : ℕ} (hL : LibmAccurate A u n) (hP : PowAccurate A u q n) (hn : n ^ 2 + 2 ≤ 2 ^ A.f.p)
    (hn2 : ((n : ℝ) ^ 2 + 2) ≤ (2 : ℝ) ^ (A.f.emax - 1)) :
    BndOps (ieeeModel A u h) u (thU A u) ((2 : ℝ) ^ (A.f.emax - 1)) q n := by
  have hth := thU_nonneg h
  have hut := u_mul_thU h
  have hu := h.u_pos
  have hhalf := half_emin A
  have hmx : ∀ k : ℤ, |k| ≤ (n : ℤ) ^ 2 + 2 → Num.finite (FOps.ofInt k : Num A) ∧ Num.val (FOps.ofInt k : Num A) = k := by
    intro k hk
    refine ofInt_exact h.fmt (hk.trans (by exact_mod_cast hn)) (le_trans ?_ hn2)
    rw [← Int.cast_abs]
    exact_mod_cast hk
  have hrel : ∀ {z t : ℝ}, z ≤ u * t → z ≤ u * (t + thU A u) := by
    intro z t hz
    rw [mul_add, hut]
    have : (0 : ℝ) < (2 : ℝ) ^ A.f.emin := by positivity
    linarith
  have habs : ∀ {z t : ℝ}, z ≤ u * t + (2 : ℝ) ^ (A.f.emin - 1) → z ≤ u * (t + thU A u) := by
    intro z t hz
    rw [mul_add, hut]
    linarith
  refine
    { u_nonneg := hu.le, th_nonneg := hth
      add := fun x y hx hy h3 => ?_
      sub := fun x y hx hy h3 => ?_
      mul := ?_
      div := ?_
      neg := ?_
      ofInt := hmx
      powi := ?_
      ldexp := ?_
      frexp := ?_
      log := ?_
      lgamma := ?_
      exp := ?_ }
  · have := ieee_add h x y hx hy h3
    exact ⟨this.1, hrel this.2⟩
  · have := ieee_sub h x y hx hy h3
    exact ⟨this.1, hrel this.2⟩
  · rintro x y ⟨a, ha, rfl⟩ ⟨b, hb, rfl⟩ h3
    rw [mul_fin ha hb]
    have := roundNum_abs h h3
    exact ⟨this.1, habs this.2⟩
  · rintro x y ⟨a, ha, rfl⟩ ⟨b, hb, rfl⟩ h2 h3
    rw [div_fin ha hb h2]
    have := roundNum_abs h h3
    exact ⟨this.1, habs this.2⟩
  · rintro x ⟨a, ha, rfl⟩
    exact ⟨⟨-a, ⟨ha.1.neg, by rw [abs_neg]; exact ha.2⟩, rfl⟩, rfl⟩
  · rintro x k hk ⟨a, ha, rfl⟩ h3
    obtain ⟨v, hv, e, h4⟩ := hP a ha k hk h3
    have e' : (FOps.powi (mkNum A a ha) (k : ℤ) : Num A) = mkNum A v hv := e
    rw [e']
    refine ⟨⟨v, hv, rfl⟩, ?_⟩
    show |v - a ^ k| ≤ ((1 + u) ^ q - 1) * (|a ^ k| + thU A u)
    refine h4.trans ?_
    have hb := one_add_mul_le_pow (show (-2 : ℝ) ≤ u by linarith) q
    have h5 : q * u * thU A u ≤ ((1 + u) ^ q - 1) * thU A u := mul_le_mul_of_nonneg_right (by linarith) hth
    rw [mul_assoc, hut] at h5
    rw [mul_add]
    linarith
  · rintro x e he ⟨a, ha, rfl⟩ h3
    have e' : (FOps.ldexp (mkNum A a ha) e : Num A) = roundNum A (a * (2 : ℝ) ^ e) := rfl
    rw [e']
    have := roundNum_finite h.fmt h3
    exact ⟨this.1, this.2.trans (nearest_rep A.nearest (rep_ldexp ha.1 he))⟩
  · rintro x ⟨a, ha, rfl⟩ h3
    have h3' : a ≠ 0 := h3
    have e' : frexpExp (mkNum A a ha) = Int.log 2 |a| + 1 := if_neg h3'
    rw [e']
    exact (log2_spec (abs_pos.mpr h3')).2
  · rintro x ⟨a, ha, rfl⟩ h3
    obtain ⟨v, hv, e, h4⟩ := hL.log a ha h3
    have e' : (FOps.log (mkNum A a ha) : Num A) = mkNum A v hv := e
    rw [e']
    exact ⟨⟨v, hv, rfl⟩, hrel h4⟩
  · obtain ⟨⟨b, hb, eb⟩, vb⟩ := hmx ((n : ℤ) + 1) (by
      rw [abs_of_nonneg (by positivity)]
      have : (n : ℤ) ≤ (n : ℤ) ^ 2 := by exact_mod_cast Nat.le_self_pow (by norm_num) n
      linarith)
    rw [eb] at vb
    have vb' : b = (n : ℝ) + 1 := by
      have : b = (((n : ℤ) + 1 : ℤ) : ℝ) := vb
      rw [this]; push_cast; ring
    subst vb'
    obtain ⟨v, hv, e, h4⟩ := hL.lgamma n hb le_rfl
    have e' : (FOps.lgamma (mkNum A _ hb) : Num A) = mkNum A v hv := e
    rw [eb, e']
    exact ⟨⟨v, hv, rfl⟩, hrel h4⟩
  · rintro x ⟨a, ha, rfl⟩ h3
    obtain ⟨v, hv, e, h4, h5⟩ := hL.exp a ha h3
    have e' : (FOps.exp (mkNum A a ha) : Num A) = mkNum A v hv := e
    rw [e']
    refine ⟨⟨v, hv, rfl⟩, ?_⟩
    show |v - Real.exp a| ≤ u * (|Real.exp a| + thU A u)
    rw [abs_of_pos (Real.exp_pos a)]
    by_cases h6 : A.f.minNormal ≤ Real.exp a
    · exact hrel (h4 h6)
    · rw [mul_add, hut]
      have := (h5 (not_le.mp h6)).2
      have : 0 ≤ u * Real.exp a := by positivity
      linarith

end
end CP.Spec
