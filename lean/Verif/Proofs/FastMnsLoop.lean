import Verif.Proofs.FastMnsSum
/-! Rounding error of `ecdf1_mns2016_b` as compiled: one iteration of the loop. -/
set_option linter.unusedVariables false
open Finset Polynomial
namespace CP.Spec
noncomputable section
open FOps

variable {F : Type} [FOps F] {R : FloatModel F} {c : MnsCode F} {u th Om : ℝ} {q q' ex n : ℕ}

theorem exq_step2 {q D : ℕ} : ∀ i, 1 ≤ i → i ≤ D → Exq q (D - i) + 2 * i + D + q + 1 ≤ Exq q D := by
  intro i
  induction i with
  | zero => omega
  | succ i ih =>
    intro _ h2
    by_cases h0 : i = 0
    · subst h0
      obtain ⟨E, rfl⟩ : ∃ E, D = E + 1 := ⟨D - 1, by omega⟩
      rw [show E + 1 - (0 + 1) = E by omega, Exq]; omega
    · have h := ih (by omega) (by omega)
      have e : Exq q (D - i) = Exq q (D - (i + 1)) + ((D - (i + 1)) + 4 + q) := by
        obtain ⟨E, hE⟩ : ∃ E, D - i = E + 1 := ⟨D - i - 1, by omega⟩
        rw [hE, show D - (i + 1) = E by omega, Exq]
      omega

theorem mnsF_zero (ops : MnsOps R c u th Om q n) (bv : ℕ → ℝ) : MnsB R u th q' bv 0 (setC (fun _ => (zero : F)) one) (fun _ => zero) 0 where
  delta_nonneg := le_rfl
  delta_le := by simp
  fmu i hi := by
    have : i = 0 := by omega
    subst this; simpa [setC] using R.one_finite
  fal i hi := R.zero_finite
  mu i hi := by
    have : i = 0 := by omega
    subst this
    have hG : 1 ≤ 1 + u := by linarith [ops.u_nonneg]
    have := MApprox.exact (1 + u) (Exq q' (0 - 0) + 0) hG 1
    have h2 : MApprox (1 + u) (Exq q' (0 - 0) + 0) 1 1 (1 + th * undMaj 0 0) := by
      rw [abs_one] at this
      exact this.weaken hG (by linarith [mul_nonneg ops.th_nonneg (undMaj_nonneg 0 0)])
    simpa [setC, exMu, exMaj, sgnCoef_zero, absCoef_zero, R.val_one] using h2
  al i hi := by
    have : i = 0 := by omega
    subst this
    simp [exAl, R.val_zero]

theorem mnsF_step (ops : MnsOps R c u th Om q n) (hc : MnsCode.Legal c ex) (hq : q' = q + 2 + ex) (sz : MnsSize u th Om q' n) {bv : ℕ → ℝ} (hm : Monotone bv) (hb0 : 0 ≤ bv 0)
    (hb1 : ∀ i, bv i ≤ 1) {d : ℕ} (hdn : d + 1 ≤ n) {mu al : ℕ → F} {delta : ℤ} {bd nbd : F}
    (hbf : R.finite bd) (hbd : R.val bd = bv d) (nf : R.finite nbd) (nv' : R.val nbd = - bv d) (h : MnsB R u th q' bv d mu al delta) :
    MnsB R u th q' bv (d + 1) (stepMuT c d mu al bd nbd) (intAl al nbd) delta ∧
      ∀ e, e = 0 - frexpExp (maxF (d + 1) (stepMuT c d mu al bd nbd)) → 0 < e → d % 16 = 0 →
        MnsB R u th q' bv (d + 1) (fun i => ldexp (stepMuT c d mu al bd nbd i) e) (intAl al nbd) (delta + e) := by
  have hu := ops.u_nonneg
  have hth := ops.th_nonneg
  have h1u : (1 : ℝ) ≤ 1 + u := by linarith
  have hu1 : (1 + u - 1 : ℝ) = u := by ring
  have s0 : (0 : ℝ) < (2 : ℝ) ^ delta := zpow_pos (by norm_num) _
  have s1 : (1 : ℝ) ≤ (2 : ℝ) ^ delta := one_le_zpow₀ (by norm_num) h.delta_nonneg
  have hsn : (2 : ℝ) ^ delta ≤ 2 * (n.factorial : ℝ) := h.delta_le.trans (by
    have : (d.factorial : ℝ) ≤ n.factorial := by exact_mod_cast Nat.factorial_le (by omega)
    linarith)
  have hfn := fact_one_le n
  have hOm16 : 16 * (n.factorial : ℝ) ≤ Om := by
    refine le_trans ?_ sz.Om
    have : (2 : ℝ) ^ 4 ≤ 2 ^ (n + 4) := pow_le_pow_right₀ (by norm_num) (by omega)
    have := mul_le_mul_of_nonneg_right this (show (0 : ℝ) ≤ n.factorial by linarith)
    linarith
  have hGle : ∀ m, m ≤ Exq q' n + n + q' + 2 → (1 + u) ^ m ≤ 5 / 4 := fun m hm => (pow_le_pow_right₀ h1u hm).trans sz.G
  set s := (2 : ℝ) ^ delta with hs
  have nv : R.val nbd = - R.val bd := by rw [nv', hbd]
  -- integrated coefficients
  have hfal : ∀ i ≤ d + 1, R.finite (intAl al nbd i) := by
    intro i hi
    unfold intAl
    split
    · exact R.zero_finite
    · split
      · exact nf
      · exact h.fal _ (by omega)
  have hal : ∀ i ≤ d + 1, R.val (intAl al nbd i) = exAl bv (d + 1) i := by
    intro i hi
    unfold intAl
    by_cases h0 : i = 0
    · subst h0; simp [exAl, R.val_zero]
    · rw [if_neg h0]
      by_cases h1 : i = 1
      · subst h1; simp [exAl, nv, hbd]
      · rw [if_neg h1, h.al _ (by omega)]
        unfold exAl
        rw [if_neg (by omega), if_neg h0, show d + 1 - i = d - (i - 1) by omega]
  have hint : ∀ i ≤ d + 1, i ≠ 0 → R.finite (intMuT c d mu i) ∧ MApprox (1 + u) (Exq q' (d + 1 - i) + i) (R.val (intMuT c d mu i))
      (exMu bv (d + 1) i * s) ((exMaj bv (d + 1) i + th * undMaj (d + 1) i) * s) := by
    intro i hi h0
    unfold intMuT
    rw [if_neg h0]
    have hi0 : (0 : ℝ) < i := by exact_mod_cast Nat.pos_of_ne_zero h0
    have hi1 : (1 : ℝ) ≤ i := by exact_mod_cast Nat.pos_of_ne_zero h0
    have a0 := (h.mu (i - 1) (by omega)).div hi0.le
    have hmag : |R.val (mu (i - 1)) / (i : ℝ)| ≤ Om := by
      have h1 := (h.mu (i - 1) (by omega)).abs_le
      have h2 := hGle (Exq q' (d - (i - 1)) + (i - 1)) (by have := exq_mono q' (show d - (i - 1) ≤ n by omega); omega)
      have h3 := sz.maj hth hm hb0 hb1 (d := d) (i := i - 1) (by omega)
      have hM0 : 0 ≤ exMaj bv d (i - 1) + th * undMaj d (i - 1) :=
        add_nonneg (exMaj_nonneg hm _ _) (mul_nonneg hth (undMaj_nonneg _ _))
      rw [abs_div, abs_of_pos hi0]
      refine (div_le_self (abs_nonneg _) hi1).trans (h1.trans ?_)
      have h4 : (exMaj bv d (i - 1) + th * undMaj d (i - 1)) * s ≤ 3 * (2 * (n.factorial : ℝ)) :=
        mul_le_mul h3 hsn s0.le (by norm_num)
      have := mul_le_mul h2 h4 (by positivity) (by norm_num)
      linarith
    obtain ⟨df, dv⟩ := ops.divide d i _ (by omega) (by omega) (h.fmu (i - 1) (by omega)) hmag
    refine ⟨df, ?_⟩
    have a1 := a0.round1 h1u hth (z := R.val (c.divide d i (mu (i - 1)))) (by rw [hu1]; exact dv)
    rw [show Exq q' (d - (i - 1)) + (i - 1) + 1 = Exq q' (d + 1 - i) + i by
      rw [show d - (i - 1) = d + 1 - i by omega]; omega] at a1
    rw [exMu_succ bv h0, div_mul_eq_mul_div]
    refine a1.weaken h1u ?_
    have hU := undMaj_succ (d := d) h0
    have h5 : th ≤ th * s := by nlinarith
    have h6 : (exMaj bv (d + 1) i + th * undMaj (d + 1) i) * s ≥ (exMaj bv d (i - 1) / i + th * (undMaj d (i - 1) / i + 1)) * s := by
      refine mul_le_mul_of_nonneg_right ?_ s0.le
      rw [exMaj_succ bv h0]
      have := mul_le_mul_of_nonneg_left hU hth
      linarith
    refine le_trans ?_ h6
    have e : (exMaj bv d (i - 1) + th * undMaj d (i - 1)) * s / i = (exMaj bv d (i - 1) / i + th * (undMaj d (i - 1) / i)) * s := by
      field_simp
    rw [e]
    linarith
  have hint' : ∀ i ≤ d + 1, R.finite (intMuT c d mu i) := by
    intro i hi
    by_cases h0 : i = 0
    · subst h0; simpa [intMuT] using R.zero_finite
    · exact (hint i hi h0).1
  have hvali : ∀ i ≤ d + 1, R.val bd + R.val (intAl al nbd i) = bv d + exAl bv (d + 1) i := by
    intro i hi
    rw [hbd, hal i hi]
  have hnn : ∀ i ≤ d + 1, 0 ≤ bv d + exAl bv (d + 1) i ∧ bv d + exAl bv (d + 1) i ≤ 1 := by
    intro i hi
    have hbd0 : 0 ≤ bv d := hb0.trans (hm (Nat.zero_le d))
    unfold exAl
    split
    · have := hb1 d; constructor <;> linarith
    · have h1 := hm (show d + 1 - i ≤ d by omega)
      have h2 : 0 ≤ bv (d + 1 - i) := hb0.trans (hm (Nat.zero_le _))
      have := hb1 d
      constructor <;> linarith
  have hlin := sz.lin hth hdn
  -- the new constant
  have hA : ∑ i ∈ range (d + 1 + 1), (if i = 0 then 0 else exMaj bv (d + 1) i) * |bv d + exAl bv (d + 1) i| ^ i = absCoef bv (d + 1) := by
    rw [Finset.sum_range_succ', absCoef_succ, ← sum_high (absCoef bv) bv d (bv d)]
    simp only [Nat.add_eq_zero_iff, one_ne_zero, and_false, if_false, if_true, zero_mul, add_zero]
    refine Finset.sum_congr rfl fun i hi => ?_
    rw [abs_of_nonneg (hnn (i + 1) (by have := Finset.mem_range.mp hi; omega)).1]
    rfl
  set cc : ℕ → ℝ := fun i => |R.val bd + R.val (intAl al nbd i)| with hcc
  have hcc0 : ∀ i, 0 ≤ cc i := fun i => abs_nonneg _
  have hcc1 : ∀ i ≤ d + 1, cc i ≤ 1 := fun i hi => by
    rw [hcc]; beta_reduce
    rw [hvali i hi, abs_of_nonneg (hnn i hi).1]; exact (hnn i hi).2
  have hmaj1 : sumMaj th (d + 1) (fun i => if i = 0 then 0 else exMaj bv (d + 1) i + th * undMaj (d + 1) i) cc
      ≤ absCoef bv (d + 1) + th * undMaj (d + 1) 0 := by
    refine (step_maj hm hb0 hb1 (fun i _ => hcc0 i) hcc1 hth hlin).trans (le_of_eq ?_)
    congr 1
    rw [← hA]
    refine Finset.sum_congr rfl fun i hi => ?_
    rw [hcc]; beta_reduce
    rw [hvali i (by have := Finset.mem_range.mp hi; omega)]
  have hmaj2 : sumMaj th (d + 1) (fun i => (if i = 0 then 0 else exMaj bv (d + 1) i + th * undMaj (d + 1) i) * s) cc
      ≤ (absCoef bv (d + 1) + th * undMaj (d + 1) 0) * s := by
    refine le_trans ?_ (mul_le_mul_of_nonneg_right hmaj1 s0.le)
    unfold sumMaj
    rw [Finset.sum_mul]
    refine Finset.sum_le_sum fun i hi => ?_
    have h5 : th ≤ th * s := by nlinarith
    rw [add_mul]
    have e : ∀ a b : ℝ, a * s * b = a * b * s := fun a b => by ring
    rw [e]
    linarith
  have hmag3 : absCoef bv (d + 1) + th * undMaj (d + 1) 0 ≤ 3 := by
    have h2 := sz.und hth (d := d + 1) (i := 0) hdn
    have := absCoef_le_two hm hb0 hb1 (d + 1)
    linarith
  have hmag0 : 0 ≤ absCoef bv (d + 1) + th * undMaj (d + 1) 0 :=
    add_nonneg (absCoef_nonneg hm _) (mul_nonneg hth (undMaj_nonneg _ _))
  have hmag4 : (absCoef bv (d + 1) + th * undMaj (d + 1) 0) * s ≤ 6 * (n.factorial : ℝ) := by
    have := mul_le_mul hmag3 hsn s0.le (by norm_num)
    linarith
  have hD : 1 ≤ Exq q' (d + 1) := by rw [Exq]; omega
  obtain ⟨M, hM⟩ : ∃ M, Exq q' (d + 1) = M + 1 := ⟨Exq q' (d + 1) - 1, by omega⟩
  have hMn : M + 1 ≤ Exq q' n + n + q' + 2 := by rw [← hM]; have := exq_mono q' hdn; omega
  obtain ⟨ef, ea⟩ := evalT_bnd ops (site := d) hc (d := d + 1) (M := M) (mu := intMuT c d mu) (al := intAl al nbd) (x := bd)
    (rmu := fun i => (if i = 0 then 0 else exMu bv (d + 1) i) * s)
    (amu := fun i => (if i = 0 then 0 else exMaj bv (d + 1) i + th * undMaj (d + 1) i) * s)
    (e := fun i => if i = 0 then 0 else Exq q' (d + 1 - i) + i) hdn hbf hint' hfal
    (by
      intro i hi
      by_cases h0 : i = 0
      · subst h0
        have := MApprox.exact (1 + u) 0 h1u 0
        simpa [intMuT, R.val_zero] using this
      · simpa [h0] using (hint i hi h0).2)
    (by
      intro i hi
      rw [← hM]
      by_cases h0 : i = 0
      · subst h0
        have := exq_step2 (q := q') (D := d + 1) 1 le_rfl (by omega)
        simp only [if_true]
        omega
      · have := exq_step2 (q := q') (D := d + 1) i (by omega) hi
        simp only [h0, if_false]
        omega)
    ((hGle _ hMn).trans (by norm_num)) (by linarith) hcc1
    (by
      intro i hi
      have hir : (i : ℝ) ≤ ((d + 1 : ℕ) : ℝ) := by exact_mod_cast hi
      have h5 : (2 * (i : ℝ) + 1) * th ≤ 1 := (mul_le_mul_of_nonneg_right (by linarith) hth).trans hlin
      have h6 := pow_add_le (hcc0 i) (hcc1 i hi) hth h5
      have h7 : cc i ^ i ≤ 1 := pow_le_one₀ (hcc0 i) (hcc1 i hi)
      refine h6.trans ?_
      linarith)
    (by
      refine (mul_le_mul_of_nonneg_left (hmaj2.trans hmag4) (by norm_num)).trans ?_
      linarith)
  have e1 : (∑ i ∈ range (d + 1 + 1), ((if i = 0 then 0 else exMu bv (d + 1) i) * s) * (R.val bd + R.val (intAl al nbd i)) ^ i)
      = - sgnCoef bv (d + 1) * s := by
    rw [← exact_const, Finset.sum_mul]
    refine Finset.sum_congr rfl fun i hi => ?_
    rw [hvali i (by have := Finset.mem_range.mp hi; omega)]; ring
  rw [e1, ← hM] at ea
  have ea' := ea.weaken h1u hmaj2
  obtain ⟨cf, cv⟩ := ops.neg _ ef
  have hstep : ∀ i ≤ d + 1, R.finite (stepMuT c d mu al bd nbd i) ∧ MApprox (1 + u) (Exq q' (d + 1 - i) + i) (R.val (stepMuT c d mu al bd nbd i))
      (exMu bv (d + 1) i * s) ((exMaj bv (d + 1) i + th * undMaj (d + 1) i) * s) := by
    intro i hi
    unfold stepMuT setC
    by_cases h0 : i = 0
    · subst h0
      rw [if_pos rfl]
      refine ⟨cf, ?_⟩
      rw [cv]
      have := ea'.neg
      simpa [exMu, exMaj] using this
    · rw [if_neg h0]; exact hint i hi h0
  have hfac := fact_one_le (d + 1)
  have hfle : (d.factorial : ℝ) ≤ ((d + 1).factorial : ℝ) := by exact_mod_cast Nat.factorial_le (Nat.le_succ d)
  refine ⟨⟨h.delta_nonneg, h.delta_le.trans (by linarith), fun i hi => (hstep i hi).1, hfal, fun i hi => (hstep i hi).2, hal⟩, ?_⟩
  intro e he hpos _
  have hz : (2 : ℝ) ^ (delta + e) = s * (2 : ℝ) ^ e := by rw [zpow_add₀ (by norm_num)]
  have e0 : (0 : ℝ) < (2 : ℝ) ^ e := zpow_pos (by norm_num) _
  obtain ⟨mf, mv⟩ := maxF_spec (R := R) (d := d + 1) (mu := stepMuT c d mu al bd nbd) (fun i hi => (hstep i hi).1)
  -- leading coefficient
  have hlead := (hstep (d + 1) le_rfl).2
  rw [show Exq q' (d + 1 - (d + 1)) + (d + 1) = d + 1 by simp [Exq]] at hlead
  have el : exMu bv (d + 1) (d + 1) = 1 / ((d + 1).factorial : ℝ) := by simp [exMu, sgnCoef_zero]
  have em : exMaj bv (d + 1) (d + 1) = 1 / ((d + 1).factorial : ℝ) := by simp [exMaj, absCoef_zero]
  rw [el, em] at hlead
  have hq : 0 < 1 / ((d + 1).factorial : ℝ) * s := mul_pos (by positivity) s0
  have hund : th * undMaj (d + 1) (d + 1) ≤ 1 / ((d + 1).factorial : ℝ) := by
    rw [le_div_iff₀ (by linarith), mul_assoc]
    refine sz.th_le hth ?_
    have e5 : undMaj (d + 1) (d + 1) = 14 / ((d + 1).factorial : ℝ) + 2 := by simp [undMaj]
    rw [e5, add_mul, div_mul_cancel₀ _ (by linarith)]
    have h6 : ((d + 1).factorial : ℝ) ≤ n.factorial := by exact_mod_cast Nat.factorial_le hdn
    have h7 : (1 : ℝ) ≤ 4 ^ n := one_le_pow₀ (by norm_num)
    have h8 : 64 * 1 * (n.factorial : ℝ) ≤ 64 * 4 ^ n * (n.factorial : ℝ) :=
      mul_le_mul_of_nonneg_right (by linarith) (by linarith)
    linarith
  have hl2 : 1 / ((d + 1).factorial : ℝ) * s / 2 ≤ R.val (stepMuT c d mu al bd nbd (d + 1)) := by
    have h1 := (abs_le.mp hlead.err).1
    have hg := hGle (d + 1) (by have := exq_mono q' hdn; omega)
    have h2 : ((1 + u) ^ (d + 1) - 1) * ((1 / ((d + 1).factorial : ℝ) + th * undMaj (d + 1) (d + 1)) * s)
        ≤ 1 / 4 * (2 * (1 / ((d + 1).factorial : ℝ)) * s) :=
      mul_le_mul (by linarith) (mul_le_mul_of_nonneg_right (by linarith) s0.le) hlead.nonneg (by norm_num)
    linarith
  have hmax := hl2.trans (mv (d + 1) le_rfl)
  have hmpos : 0 < R.val (maxF (d + 1) (stepMuT c d mu al bd nbd)) := lt_of_lt_of_le (by linarith) hmax
  have hfr := ops.frexp _ mf hmpos.ne'
  rw [abs_of_pos hmpos, show frexpExp (maxF (d + 1) (stepMuT c d mu al bd nbd)) = -e by omega] at hfr
  have hlt : 1 / ((d + 1).factorial : ℝ) * s / 2 * (2 : ℝ) ^ e < 1 := by
    have := mul_lt_mul_of_pos_right (lt_of_le_of_lt hmax hfr) e0
    rwa [← zpow_add₀ (by norm_num), neg_add_cancel, zpow_zero] at this
  have hse : s * (2 : ℝ) ^ e ≤ 2 * ((d + 1).factorial : ℝ) := by
    have h3 : s * (2 : ℝ) ^ e = 1 / ((d + 1).factorial : ℝ) * s / 2 * (2 : ℝ) ^ e * (2 * ((d + 1).factorial : ℝ)) := by
      field_simp
    rw [h3]
    have h4 := mul_le_mul_of_nonneg_right hlt.le (show 0 ≤ 2 * ((d + 1).factorial : ℝ) by linarith)
    linarith
  have hld : ∀ i ≤ d + 1, R.finite (ldexp (stepMuT c d mu al bd nbd i) e) ∧
      R.val (ldexp (stepMuT c d mu al bd nbd i) e) = R.val (stepMuT c d mu al bd nbd i) * (2 : ℝ) ^ e := by
    intro i hi
    obtain ⟨f1, a1⟩ := hstep i hi
    refine ops.ldexp _ e hpos.le f1 ?_
    have h2 := (a1.scale e0.le).abs_le
    refine h2.trans ?_
    have h3 := sz.maj hth hm hb0 hb1 (d := d + 1) (i := i) hdn
    have h4 := hGle (Exq q' (d + 1 - i) + i) (by have := exq_mono q' (show d + 1 - i ≤ n by omega); omega)
    have h6 : ((d + 1).factorial : ℝ) ≤ n.factorial := by exact_mod_cast Nat.factorial_le hdn
    have h5 : (exMaj bv (d + 1) i + th * undMaj (d + 1) i) * s * (2 : ℝ) ^ e ≤ 3 * (2 * (n.factorial : ℝ)) := by
      rw [mul_assoc]
      exact mul_le_mul h3 (by linarith) (by positivity) (by norm_num)
    have h7 := mul_le_mul h4 h5 (by
      have := add_nonneg (exMaj_nonneg hm (d + 1) i) (mul_nonneg hth (undMaj_nonneg (d + 1) i))
      positivity) (by norm_num)
    linarith
  refine ⟨by have := h.delta_nonneg; omega, by rw [hz]; exact hse, fun i hi => (hld i hi).1, hfal, ?_, hal⟩
  intro i hi
  rw [(hld i hi).2, hz, ← mul_assoc, ← mul_assoc]
  exact (hstep i hi).2.scale e0.le

end
end CP.Spec
