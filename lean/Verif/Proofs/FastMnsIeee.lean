import Verif.Proofs.FastMnsFinal
import Verif.Proofs.MnsIeeeBnd
/-! IEEE-754 arithmetic, with the code the compiler chose, satisfies `MnsOps`. -/
namespace CP.Spec
open FOps
noncomputable section

variable {A : FloatSystem} {u : ℝ}

/-- Multiplication by a rounded reciprocal. -/
theorem recip_mul (h : A.OK u) (h4 : (2 : ℝ) ^ (-(A.f.p : ℤ)) ≤ u / 4) {i : ℕ} (hi : 1 ≤ i) (hip : i ≤ 2 ^ A.f.p)
    (hiO : (i : ℝ) ≤ (2 : ℝ) ^ (A.f.emax - 1)) (hiu : i * (2 : ℝ) ^ A.f.emin ≤ u / 8) {x : Num A} (hx : x.finite)
    (hm : |x.val / i| ≤ (2 : ℝ) ^ (A.f.emax - 2)) :
    (x *ᶠ (one /ᶠ ofInt (i : ℤ))).finite ∧ |(x *ᶠ (one /ᶠ ofInt (i : ℤ))).val - x.val / i| ≤ u * |x.val / i| + (2 : ℝ) ^ (A.f.emin - 1) := by
  have hu := h.u_pos
  have hu8 := h.u_le
  have ok4 : A.OK (u / 4) := ⟨h.fmt, h4, by linarith⟩
  have hi0 : (0 : ℝ) < i := by exact_mod_cast hi
  have hi1 : (1 : ℝ) ≤ i := by exact_mod_cast hi
  have hO := one_le_Omega (A := A) h.fmt
  have hOO : (2 : ℝ) ^ (A.f.emax - 1) = 2 * (2 : ℝ) ^ (A.f.emax - 2) := by
    rw [show A.f.emax - 1 = 1 + (A.f.emax - 2) by ring, zpow_add₀ (by norm_num), zpow_one]
  have hhalf : (2 : ℝ) ^ A.f.emin = 2 * (2 : ℝ) ^ (A.f.emin - 1) := by
    rw [show A.f.emin = 1 + (A.f.emin - 1) by ring, zpow_add₀ (by norm_num), zpow_one]; ring_nf
  obtain ⟨⟨c, hc, ec⟩, vc⟩ := ofInt_exact (A := A) h.fmt (k := (i : ℤ)) (by
    rw [abs_of_nonneg (by positivity)]; exact_mod_cast hip) (by
    rw [Int.cast_natCast, abs_of_pos hi0]; exact hiO)
  rw [ec] at vc
  have vc' : c = (i : ℝ) := by
    have : c = ((i : ℤ) : ℝ) := vc
    rw [this]; push_cast; rfl
  subst vc'
  obtain ⟨a, ha, rfl⟩ := hx
  have hm' : |a / i| ≤ (2 : ℝ) ^ (A.f.emax - 2) := hm
  obtain ⟨o, ho, eo⟩ := (ieeeModel A u h).one_finite
  have vo := (ieeeModel A u h).val_one
  rw [eo] at vo
  have vo' : o = 1 := vo
  subst vo'
  rw [ec, eo, div_fin ho hc hi0.ne']
  have hq : |1 / (i : ℝ)| ≤ 1 := by
    rw [abs_of_pos (by positivity), div_le_one hi0]; exact hi1
  obtain ⟨⟨r, hr, er⟩, vr⟩ := roundNum_abs ok4 (x := 1 / (i : ℝ)) (hq.trans (by linarith))
  rw [er] at vr ⊢
  have vr' : |r - 1 / i| ≤ u / 4 * |1 / (i : ℝ)| + (2 : ℝ) ^ (A.f.emin - 1) := vr
  rw [mul_fin ha hr]
  show (roundNum A (a * r)).finite ∧ |(roundNum A (a * r)).val - a / i| ≤ u * |a / i| + (2 : ℝ) ^ (A.f.emin - 1)
  -- the product of the exact numbers
  have hd : |a * r - a / i| ≤ (u / 4 + u / 8) * |a / i| := by
    have e : a * r - a / i = a / i * (i * (r - 1 / i)) := by field_simp
    rw [e, abs_mul, mul_comm]
    refine mul_le_mul_of_nonneg_right ?_ (abs_nonneg _)
    rw [abs_mul, abs_of_pos hi0]
    have h2 := mul_le_mul_of_nonneg_left vr' hi0.le
    rw [abs_of_pos (show (0 : ℝ) < 1 / i by positivity), mul_add] at h2
    have h3 : (i : ℝ) * (u / 4 * (1 / i)) = u / 4 := by field_simp
    rw [h3] at h2
    rw [hhalf] at hiu
    have h5 : (0 : ℝ) < i * (2 : ℝ) ^ (A.f.emin - 1) := by positivity
    linarith
  have hz := abs_nonneg (a / (i : ℝ))
  have hy : |a * r| ≤ 2 * |a / i| := by
    have h2 := abs_sub_abs_le_abs_sub (a * r) (a / i)
    have h3 : (u / 4 + u / 8) * |a / i| ≤ 1 * |a / i| := mul_le_mul_of_nonneg_right (by linarith) hz
    linarith
  obtain ⟨k1, k2⟩ := roundNum_abs ok4 (x := a * r) (by rw [hOO]; linarith)
  refine ⟨k1, ?_⟩
  have h2 := abs_sub_le (roundNum A (a * r)).val (a * r) (a / i)
  have h3 : u / 4 * |a * r| ≤ u / 4 * (2 * |a / i|) := mul_le_mul_of_nonneg_left hy (by linarith)
  have h5 := mul_nonneg hu.le hz
  linarith

/-- IEEE-754 arithmetic as `MnsOps`. -/
theorem ieeeMnsOps (h : A.OK u) (h4 : (2 : ℝ) ^ (-(A.f.p : ℤ)) ≤ u / 4) {c : MnsCode (Num A)} {q n : ℕ} (hc : MnsIeee A u q n c)
    (hL : LibmAccurate A u n) (hn : n ^ 2 + 2 ≤ 2 ^ A.f.p) (hn2 : ((n : ℝ) ^ 2 + 2) ≤ (2 : ℝ) ^ (A.f.emax - 1))
    (hnu : n * (2 : ℝ) ^ A.f.emin ≤ u / 8) :
    MnsOps (ieeeModel A u h) c u (thU A u) ((2 : ℝ) ^ (A.f.emax - 2)) q n := by
  have hth := thU_nonneg h
  have hut := u_mul_thU h
  have hu := h.u_pos
  have hhalf := half_emin A
  have hOO : (2 : ℝ) ^ (A.f.emax - 2) ≤ (2 : ℝ) ^ (A.f.emax - 1) := zpow_le_zpow_right₀ (by norm_num) (by omega)
  have hmx : ∀ k : ℤ, |k| ≤ (n : ℤ) ^ 2 + 2 → Num.finite (FOps.ofInt k : Num A) ∧ Num.val (FOps.ofInt k : Num A) = k := by
    intro k hk
    refine ofInt_exact h.fmt (hk.trans (by exact_mod_cast hn)) (le_trans ?_ hn2)
    rw [← Int.cast_abs]
    exact_mod_cast hk
  have hrel : ∀ {z t : ℝ}, z ≤ u * t → z ≤ u * (t + thU A u) := by
    intro z t hz
    rw [mul_add, hut]
    have : (0 : ℝ) < (2 : ℝ) ^ A.f.emin := by positivity
    linarith
  have habs : ∀ {z t : ℝ}, z ≤ u * t + (2 : ℝ) ^ (A.f.emin - 1) → z ≤ u * (t + thU A u) := by
    intro z t hz
    rw [mul_add, hut]
    linarith
  refine
    { u_nonneg := hu.le, th_nonneg := hth
      add := fun x y hx hy h3 => ieee_add h x y hx hy (h3.trans hOO)
      sub := fun x y hx hy h3 => ieee_sub h x y hx hy (h3.trans hOO)
      mul := ?_
      fma := ?_
      divide := ?_
      neg := ?_
      ofInt := hmx
      powi := ?_
      ldexp := ?_
      frexp := ?_
      log := ?_
      lgamma := ?_
      exp := ?_ }
  · rintro x y ⟨a, ha, rfl⟩ ⟨b, hb, rfl⟩ h3
    rw [mul_fin ha hb]
    have := roundNum_abs h (h3.trans hOO)
    exact ⟨this.1, habs this.2⟩
  · intro x y z hx hy hz h3
    rw [hc.fma x y z hx hy hz]
    have := roundNum_abs h (h3.trans hOO)
    exact ⟨this.1, habs this.2⟩
  · intro site i x hi hin hx h3
    have hinr : (i : ℝ) ≤ n := by exact_mod_cast hin
    have hnn : n ≤ n ^ 2 := Nat.le_self_pow (by norm_num) n
    have hiO : (i : ℝ) ≤ (2 : ℝ) ^ (A.f.emax - 1) := by
      have : (n : ℝ) ≤ (n : ℝ) ^ 2 := by exact_mod_cast hnn
      linarith
    have hip : i ≤ 2 ^ A.f.p := by omega
    unfold MnsCode.divide
    split
    · have := recip_mul h h4 hi hip hiO ((mul_le_mul_of_nonneg_right hinr (by positivity)).trans hnu) hx h3
      exact ⟨this.1, habs this.2⟩
    · obtain ⟨⟨b, hb, eb⟩, vb⟩ := hmx (i : ℤ) (by
        rw [abs_of_nonneg (by positivity)]
        have : i ≤ n ^ 2 + 2 := by omega
        exact_mod_cast this)
      rw [eb] at vb
      have vb' : b = (i : ℝ) := by
        have : b = ((i : ℤ) : ℝ) := vb
        rw [this]; push_cast; rfl
      subst vb'
      obtain ⟨a, ha, rfl⟩ := hx
      have hi0 : (0 : ℝ) < i := by exact_mod_cast hi
      rw [eb, div_fin ha hb hi0.ne']
      have := roundNum_abs h (h3.trans hOO)
      exact ⟨this.1, habs this.2⟩
  · rintro x ⟨a, ha, rfl⟩
    exact ⟨⟨-a, ⟨ha.1.neg, by rw [abs_neg]; exact ha.2⟩, rfl⟩, rfl⟩
  · rintro site x k hk ⟨a, ha, rfl⟩ h3
    obtain ⟨v, hv, e, h4⟩ := hc.powi site a ha k hk (le_trans h3 hOO)
    rw [e]
    refine ⟨⟨v, hv, rfl⟩, ?_⟩
    show |v - a ^ k| ≤ ((1 + u) ^ q - 1) * (|a ^ k| + thU A u)
    refine h4.trans ?_
    have hb := one_add_mul_le_pow (show (-2 : ℝ) ≤ u by linarith) q
    have h5 : q * u * thU A u ≤ ((1 + u) ^ q - 1) * thU A u := mul_le_mul_of_nonneg_right (by linarith) hth
    rw [mul_assoc, hut] at h5
    rw [mul_add]
    linarith
  · rintro x e he ⟨a, ha, rfl⟩ h3
    have e' : (FOps.ldexp (mkNum A a ha) e : Num A) = roundNum A (a * (2 : ℝ) ^ e) := rfl
    rw [e']
    have := roundNum_finite h.fmt (le_trans h3 hOO)
    exact ⟨this.1, this.2.trans (nearest_rep A.nearest (rep_ldexp ha.1 he))⟩
  · rintro x ⟨a, ha, rfl⟩ h3
    have h3' : a ≠ 0 := h3
    have e' : frexpExp (mkNum A a ha) = Int.log 2 |a| + 1 := if_neg h3'
    rw [e']
    exact (log2_spec (abs_pos.mpr h3')).2
  · rintro x ⟨a, ha, rfl⟩ h3
    obtain ⟨v, hv, e, h4⟩ := hL.log a ha h3
    have e' : (FOps.log (mkNum A a ha) : Num A) = mkNum A v hv := e
    rw [e']
    exact ⟨⟨v, hv, rfl⟩, hrel h4⟩
  · obtain ⟨⟨b, hb, eb⟩, vb⟩ := hmx ((n : ℤ) + 1) (by
      rw [abs_of_nonneg (by positivity)]
      have : (n : ℤ) ≤ (n : ℤ) ^ 2 := by exact_mod_cast Nat.le_self_pow (by norm_num) n
      linarith)
    rw [eb] at vb
    have vb' : b = (n : ℝ) + 1 := by
      have : b = (((n : ℤ) + 1 : ℤ) : ℝ) := vb
      rw [this]; push_cast; ring
    subst vb'
    obtain ⟨v, hv, e, h4⟩ := hL.lgamma n hb le_rfl
    have e' : (FOps.lgamma (mkNum A _ hb) : Num A) = mkNum A v hv := e
    rw [eb, e']
    exact ⟨⟨v, hv, rfl⟩, hrel h4⟩
  · rintro x ⟨a, ha, rfl⟩ h3
    obtain ⟨v, hv, e, h4, h5⟩ := hc.exp a ha (le_trans h3 hOO)
    rw [e]
    refine ⟨⟨v, hv, rfl⟩, ?_⟩
    show |v - Real.exp a| ≤ u * (|Real.exp a| + thU A u)
    rw [abs_of_pos (Real.exp_pos a)]
    by_cases h6 : A.f.minNormal ≤ Real.exp a
    · exact hrel (h4 h6)
    · rw [mul_add, hut]
      have := (h5 (not_le.mp h6)).2
      have : 0 ≤ u * Real.exp a := by positivity
      linarith

end
end CP.Spec
