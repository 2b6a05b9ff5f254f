import Verif.Proofs.MnsIeeeStep
import Mathlib.Analysis.Complex.ExponentialBounds
/-! Rounding error of `ecdf1_mns2016_b` with bounded exponent range: the last formula and the whole function. -/
set_option linter.unusedVariables false
open Finset Polynomial
namespace CP.Spec
noncomputable section
open FOps

variable {F : Type} [FOps F] {R : FloatModel F} {u th Om : ℝ} {q n : ℕ}

/-- The last formula, `exp(lgamma(n+1) + log(I) - delta*log(2))`, without overflow. -/
theorem final_bnd (ops : BndOps R u th Om q n) {delta : ℤ} (hd0 : 0 ≤ delta) (hd1 : delta ≤ (n : ℤ) ^ 2 + 2) {v : F} (hvf : R.finite v)
    (hvp : 0 < R.val v) (hdth : ((delta : ℝ) + 5) * th ≤ 1) (hG2 : (1 + u) ^ 3 ≤ 2)
    (hOm : 2 * (Real.log n.factorial + |Real.log (R.val v)| + delta * Real.log 2 + 1) ≤ Om)
    (hexp : Real.exp (((1 + u) ^ 3 - 1) * (Real.log n.factorial + |Real.log (R.val v)| + delta * Real.log 2 + 1))
      * (n.factorial * R.val v / (2 : ℝ) ^ delta) ≤ Om) :
    R.finite (exp (lgamma (ofInt ((n : ℤ) + 1)) +ᶠ log v -ᶠ ofInt delta *ᶠ log (ofInt 2))) ∧
    |R.val (exp (lgamma (ofInt ((n : ℤ) + 1)) +ᶠ log v -ᶠ ofInt delta *ᶠ log (ofInt 2)))
        - n.factorial * R.val v / (2 : ℝ) ^ delta|
      ≤ (Real.exp (((1 + u) ^ 3 - 1) * (Real.log n.factorial + |Real.log (R.val v)| + delta * Real.log 2 + 1)) * (1 + u) - 1)
        * (n.factorial * R.val v / (2 : ℝ) ^ delta) + u * th := by
  have hu := ops.u_nonneg
  have hth := ops.th_nonneg
  have hG : (1 : ℝ) ≤ 1 + u := by linarith
  have hu1 : (1 + u - 1 : ℝ) = u := by ring
  have hL : 0 ≤ Real.log n.factorial := Real.log_natCast_nonneg _
  have hl2 : 0 < Real.log 2 := Real.log_pos (by norm_num)
  have hdr : (0 : ℝ) ≤ delta := by exact_mod_cast hd0
  have hdl : 0 ≤ (delta : ℝ) * Real.log 2 := mul_nonneg hdr hl2.le
  have hlv := abs_nonneg (Real.log (R.val v))
  have hdt : 0 ≤ (delta : ℝ) * th := mul_nonneg hdr hth
  obtain ⟨T, hT⟩ : ∃ T, T = Real.log n.factorial + |Real.log (R.val v)| + delta * Real.log 2 + 1 := ⟨_, rfl⟩
  rw [← hT] at hOm hexp ⊢
  have hle : ∀ {m : ℕ} {xh x a : ℝ}, MApprox (1 + u) m xh x a → m ≤ 3 → a ≤ T → |xh| ≤ Om := by
    intro m xh x a h hm ha
    have h1 := h.abs_le
    have h2 := (pow_le_pow_right₀ hG hm).trans hG2
    have h3 := mul_le_mul h2 ha h.nonneg (by norm_num)
    linarith
  obtain ⟨f1, a1⟩ := ops.lgamma
  have b1 : MApprox (1 + u) 1 (R.val (lgamma (ofInt ((n : ℤ) + 1)) : F)) (Real.log n.factorial) (Real.log n.factorial + th) := by
    have := (MApprox.exact (1 + u) 0 hG (Real.log n.factorial)).round1 hG hth (z := R.val (lgamma (ofInt ((n : ℤ) + 1)) : F))
      (by rw [hu1]; exact a1)
    rwa [abs_of_nonneg hL] at this
  obtain ⟨f2, a2⟩ := ops.log v hvf hvp
  have b2 : MApprox (1 + u) 1 (R.val (log v)) (Real.log (R.val v)) (|Real.log (R.val v)| + th) :=
    (MApprox.exact (1 + u) 0 hG _).round1 hG hth (by rw [hu1]; exact a2)
  have b3s := b1.add b2
  obtain ⟨f3, a3⟩ := ops.add _ _ f1 f2 (hle b3s (by norm_num) (by linarith))
  have b3 := b3s.round1 hG hth (z := R.val (lgamma (ofInt ((n : ℤ) + 1)) +ᶠ log v)) (by rw [hu1]; exact a3)
  obtain ⟨f4, v4⟩ := ops.ofInt 2 (by
    rw [abs_of_nonneg (by norm_num)]
    have : (0 : ℤ) ≤ (n : ℤ) ^ 2 := by positivity
    omega)
  have v4' : R.val (ofInt 2 : F) = 2 := by rw [v4]; norm_num
  obtain ⟨f5, a5⟩ := ops.log (ofInt 2) f4 (by rw [v4']; norm_num)
  rw [v4'] at a5
  have b5 : MApprox (1 + u) 1 (R.val (log (ofInt 2) : F)) (Real.log 2) (Real.log 2 + th) := by
    have := (MApprox.exact (1 + u) 0 hG (Real.log 2)).round1 hG hth (z := R.val (log (ofInt 2) : F)) (by rw [hu1]; exact a5)
    rwa [abs_of_pos hl2] at this
  obtain ⟨f6, v6⟩ := ops.ofInt delta (by rw [abs_of_nonneg hd0]; exact hd1)
  have b6 : MApprox (1 + u) 0 (R.val (ofInt delta : F)) delta delta := by
    rw [v6]
    have := MApprox.exact (1 + u) 0 hG (delta : ℝ)
    rwa [abs_of_nonneg hdr] at this
  have b7m := b6.mul hG b5
  obtain ⟨f7, a7⟩ := ops.mul _ _ f6 f5 (hle b7m (by norm_num) (by linarith))
  have b7 := b7m.round1 hG hth (z := R.val (ofInt delta *ᶠ log (ofInt 2))) (by rw [hu1]; exact a7)
  have b8s := b3.sub (b7.mono hG (k := 1 + 1) (by norm_num))
  obtain ⟨f8, a8⟩ := ops.sub _ _ f3 f7 (hle b8s (by norm_num) (by linarith))
  have b8 := b8s.round1 hG hth (z := R.val (lgamma (ofInt ((n : ℤ) + 1)) +ᶠ log v -ᶠ ofInt delta *ᶠ log (ofInt 2)))
    (by rw [hu1]; exact a8)
  set s := R.val (lgamma (ofInt ((n : ℤ) + 1)) +ᶠ log v -ᶠ ofInt delta *ᶠ log (ofInt 2)) with hs
  set w := ((1 + u) ^ 3 - 1) * T with hw
  have hc0 : 0 ≤ (1 + u) ^ 3 - 1 := by linarith [one_le_pow₀ hG (n := 3)]
  have hsw : |s - (Real.log n.factorial + Real.log (R.val v) - delta * Real.log 2)| ≤ w :=
    b8.err.trans (mul_le_mul_of_nonneg_left (by linarith) hc0)
  have hf0 : (0 : ℝ) < n.factorial := by exact_mod_cast Nat.factorial_pos n
  have hz0 : (0 : ℝ) < (2 : ℝ) ^ delta := zpow_pos (by norm_num) _
  have hQ : Real.exp (Real.log n.factorial + Real.log (R.val v) - delta * Real.log 2) = n.factorial * R.val v / (2 : ℝ) ^ delta := by
    rw [← Real.log_zpow, Real.exp_sub, Real.exp_add, Real.exp_log hf0, Real.exp_log hvp, Real.exp_log hz0]
  set Q := (n.factorial : ℝ) * R.val v / (2 : ℝ) ^ delta with hQd
  have hQ0 : 0 < Q := by rw [← hQ]; exact Real.exp_pos _
  have hup : Real.exp s ≤ Real.exp w * Q := by
    rw [← hQ, ← Real.exp_add, Real.exp_le_exp]
    have := (abs_le.mp hsw).2
    linarith
  have hlo : Q ≤ Real.exp w * Real.exp s := by
    rw [← hQ, ← Real.exp_add, Real.exp_le_exp]
    have := (abs_le.mp hsw).1
    linarith
  have hew : 1 ≤ Real.exp w := Real.one_le_exp (mul_nonneg hc0 (by linarith))
  obtain ⟨f9, a9⟩ := ops.exp _ f8 (hup.trans hexp)
  refine ⟨f9, ?_⟩
  rw [← hs, abs_of_pos (Real.exp_pos s)] at a9
  have hes := Real.exp_pos s
  have h9 := abs_le.mp a9
  generalize Real.exp w = W at hup hlo hew ⊢
  generalize Real.exp s = S at *
  generalize R.val (exp (lgamma (ofInt ((n : ℤ) + 1)) +ᶠ log v -ᶠ ofInt delta *ᶠ log (ofInt 2))) = X at *
  rw [abs_le]
  have hSW : S * W ≤ W * Q * W := mul_le_mul_of_nonneg_right hup (by linarith)
  have hWinv : Q * (2 - W) ≤ S := by
    have h1 : Q * (2 - W) * W ≤ S * W := by nlinarith [mul_nonneg hQ0.le (sq_nonneg (W - 1))]
    exact le_of_mul_le_mul_right h1 (by linarith)
  have h3 : u * S ≤ u * (W * Q) := mul_le_mul_of_nonneg_left hup hu
  constructor
  · linarith [h9.1]
  · linarith [h9.2]

theorem nat_lt_two_pow_sq (n : ℕ) : (n.factorial : ℝ) ≤ 2 ^ (n ^ 2) := by
  have h1 : (n.factorial : ℝ) ≤ (n : ℝ) ^ n := by exact_mod_cast Nat.factorial_le_pow n
  have h2 : (n : ℝ) ≤ 2 ^ n := by exact_mod_cast Nat.lt_two_pow_self.le
  calc (n.factorial : ℝ) ≤ (n : ℝ) ^ n := h1
    _ ≤ (2 ^ n) ^ n := pow_le_pow_left₀ (Nat.cast_nonneg n) h2 n
    _ = 2 ^ (n ^ 2) := by rw [← pow_mul, sq]

set_option maxHeartbeats 1000000 in
/-- `ecdf1_mns2016_b` in floating point with bounded exponent range. -/
theorem mns_bnd (ops : BndOps R u th Om q n) (env : Env F) {b : Fin n → F} (hbf : ∀ i, R.finite (b i))
    {rb : Fin n → ℝ} (hrb : ∀ i, R.val (b i) = rb i) (hb : ValidBound rb) (hP : 0 < lowerProb rb)
    {A w : ℝ} (hth : th * (64 * 4 ^ n * (n.factorial : ℝ)) ≤ 1) (hOm : 2 ^ (n + 4) * (n.factorial : ℝ) ≤ Om)
    (hAd : A = ((1 + u) ^ (Exq q n + n + q + 2) - 1) * (mnsCond rb + th * (42 * 4 ^ n * (n.factorial : ℝ))))
    (hA : A ≤ lowerProb rb / 4)
    (hw : w = ((1 + u) ^ 3 - 1) * (3 * Real.log n.factorial + |Real.log (lowerProb rb)| + 4)) (hw1 : w ≤ 1)
    (hS : 2 * (3 * Real.log n.factorial + |Real.log (lowerProb rb)| + 4) ≤ Om) :
    ∃ x, ecdf1Mns2016b env (List.ofFn b) = .ok x ∧ R.finite x ∧
      |R.val x - lowerProb rb| ≤ A + (Real.exp w * (1 + u) - 1) * (lowerProb rb + A) + u * th := by
  have hu := ops.u_nonneg
  have hth0 := ops.th_nonneg
  have hG : (1 : ℝ) ≤ 1 + u := by linarith
  have hm := extB_mono hb
  have hb0 := (extB_range hb 0).1
  have hb1 := fun i => (extB_range hb i).2
  have hf0 : (0 : ℝ) < n.factorial := by exact_mod_cast Nat.factorial_pos n
  have hPK : lowerProb rb ≤ mnsCond rb := prob_le_cond hb
  have hKφ := mnsCond_le hb
  have hP1 : lowerProb rb ≤ 1 := MeasureTheory.measureReal_le_one
  set P := lowerProb rb with hPd
  set K := mnsCond rb with hK
  have hvb : (fun i => R.val (b i)) = rb := funext hrb
  obtain ⟨B, hB⟩ : ∃ B, B = th * (42 * 4 ^ n * (n.factorial : ℝ)) := ⟨_, rfl⟩
  have hB0 : 0 ≤ B := by rw [hB]; positivity
  have hB1 : B ≤ 1 := by
    rw [hB]; refine (mul_le_mul_of_nonneg_left ?_ hth0).trans hth
    have : (0 : ℝ) ≤ 4 ^ n * n.factorial := by positivity
    nlinarith
  rw [← hB] at hAd
  have hK0 : 0 < K := lt_of_lt_of_le hP hPK
  have hG2 : (1 + u) ^ (Exq q n + n + q + 2) ≤ 5 / 4 := by
    have h1 : ((1 + u) ^ (Exq q n + n + q + 2) - 1) * K ≤ A := by
      rw [hAd]; exact mul_le_mul_of_nonneg_left (by linarith) (by linarith [one_le_pow₀ hG (n := Exq q n + n + q + 2)])
    have : ((1 + u) ^ (Exq q n + n + q + 2) - 1) * K ≤ 1 / 4 * K := by linarith
    have := le_of_mul_le_mul_right this hK0
    linarith
  have sz : MnsSize u th Om q n := ⟨hG2, hth, hOm⟩
  have hu8 : u ≤ 1 / 4 := by
    have := (pow_le_pow_right₀ hG (show 1 ≤ Exq q n + n + q + 2 by omega)).trans hG2
    rw [pow_one] at this
    linarith
  have hG3 : (1 + u) ^ 3 ≤ 2 := by
    calc (1 + u) ^ 3 ≤ (5 / 4 : ℝ) ^ 3 := pow_le_pow_left₀ (by linarith) (by linarith) 3
      _ ≤ 2 := by norm_num
  have hA0 : 0 ≤ A := by
    rw [hAd]; exact mul_nonneg (by linarith [one_le_pow₀ hG (n := Exq q n + n + q + 2)]) (by linarith)
  have hfn := fact_one_le n
  have hOm16 : 16 ≤ Om := by
    refine le_trans ?_ hOm
    have h1 : (2 : ℝ) ^ 4 ≤ 2 ^ (n + 4) := pow_le_pow_right₀ (by norm_num) (by omega)
    have := mul_le_mul h1 hfn zero_le_one (by positivity)
    linarith
  have key : Sat NoFault (fun x => R.finite x ∧ |R.val x - P| ≤ A + (Real.exp w * (1 + u) - 1) * (P + A) + u * th)
      (ecdf1Mns2016b env (List.ofFn b)) := by
    unfold ecdf1Mns2016b ecdf1Mns2016bWith
    dsimp only
    rw [check_valid_float hbf (by rw [hvb]; exact hb) "b" _ (by simp), M_ok_bind]
    have h := mns_loop_val (E := NoFault) (env := env) (readExponent := fun _ x => frexpExp x) (b := List.ofFn b)
      (bv := fun i => if h : i < n then b ⟨i, h⟩ else zero) (fun i hi => by
        rw [List.length_ofFn] at hi
        rw [dif_pos hi]; exact has_ofFn b i hi) (MnsB R u th q (extB rb))
      (mnsB_zero ops _) (fun d mu al delta hd hR => by
        rw [List.length_ofFn] at hd
        refine mnsB_step ops sz hm hb0 hb1 hd ?_ ?_ hR
        · rw [dif_pos hd]; exact hbf _
        · rw [dif_pos hd, hrb]; unfold extB; rw [dif_pos hd])
    have h' := Sat.bind (R := fun x => R.finite x ∧ |R.val x - P| ≤ A + (Real.exp w * (1 + u) - 1) * (P + A) + u * th)
      (f := fun s : Poly F × Int => do
      let integralResult ← s.1.evaluate (FOps.ofInt 1)
      .ok (FOps.exp (FOps.sub (FOps.add (FOps.lgamma (FOps.ofInt (((List.ofFn b).length : Int) + 1)))
        (FOps.log integralResult)) (FOps.mul (FOps.ofInt s.2) (FOps.log (FOps.ofInt 2))))))
      h (fun s hs => by
        obtain ⟨mu, al, hp, hI⟩ := hs
        refine Sat.bind (evaluate_sat hp _) fun v hval => ?_
        rw [List.length_ofFn] at hI hval ⊢
        show _ ∧ _
        obtain ⟨of1, ov1⟩ := ops.ofInt 1 (by
          rw [abs_one]
          have : (0 : ℤ) ≤ (n : ℤ) ^ 2 := by positivity
          omega)
        have ov1' : R.val (ofInt 1 : F) = 1 := by rw [ov1]; norm_num
        have s0 : (0 : ℝ) < (2 : ℝ) ^ s.2 := zpow_pos (by norm_num) _
        have s1 : (1 : ℝ) ≤ (2 : ℝ) ^ s.2 := one_le_zpow₀ (by norm_num) hI.delta_nonneg
        have hcr : ∀ i ≤ n, 0 ≤ 1 + exAl (extB rb) n i ∧ 1 + exAl (extB rb) n i ≤ 1 := by
          intro i hi
          unfold exAl
          split
          · norm_num
          · have := (extB_range hb (n - i)).1
            have := (extB_range hb (n - i)).2
            constructor <;> linarith
        have hcv : ∀ i ≤ n, R.val (ofInt 1 : F) + R.val (al i) = 1 + exAl (extB rb) n i := fun i hi => by rw [ov1', hI.al i hi]
        set cc : ℕ → ℝ := fun i => |R.val (ofInt 1 : F) + R.val (al i)| with hcc
        have hcc0 : ∀ i, 0 ≤ cc i := fun i => abs_nonneg _
        have hcc1 : ∀ i ≤ n, cc i ≤ 1 := fun i hi => by
          rw [hcc]; beta_reduce
          rw [hcv i hi, abs_of_nonneg (hcr i hi).1]; exact (hcr i hi).2
        have hlin := sz.lin hth0 (le_refl n)
        have hmaj : sumMaj th n (fun i => (exMaj (extB rb) n i + th * undMaj n i) * (2 : ℝ) ^ s.2) cc
            ≤ (K + B) / n.factorial * (2 : ℝ) ^ s.2 := by
          have h1 := final_maj hm hb0 hb1 (d := n) (c := cc) (fun i _ => hcc0 i) hcc1 hth0 hlin
          have h2 : (∑ i ∈ range (n + 1), exMaj (extB rb) n i * cc i ^ i) + th * (42 * 4 ^ n) = (K + B) / n.factorial := by
            rw [add_div, hB, hK, ← maj_final hb, mul_div_cancel_left₀ _ hf0.ne']
            congr 1
            · refine Finset.sum_congr rfl fun i hi => ?_
              rw [hcc]; beta_reduce
              rw [hcv i (by have := Finset.mem_range.mp hi; omega)]
            · field_simp
          rw [h2] at h1
          refine le_trans ?_ (mul_le_mul_of_nonneg_right h1 s0.le)
          unfold sumMaj
          rw [Finset.sum_mul]
          refine Finset.sum_le_sum fun i hi => ?_
          have h5 : th ≤ th * (2 : ℝ) ^ s.2 := by nlinarith
          rw [add_mul]
          have e : ∀ a b : ℝ, a * (2 : ℝ) ^ s.2 * b = a * b * (2 : ℝ) ^ s.2 := fun a b => by ring
          rw [e]
          linarith
        have hmajOm : 3 / 2 * ((K + B) / n.factorial * (2 : ℝ) ^ s.2) ≤ Om := by
          have h1 : (K + B) / n.factorial * (2 : ℝ) ^ s.2 ≤ (K + B) / n.factorial * (2 * (n.factorial : ℝ)) :=
            mul_le_mul_of_nonneg_left hI.delta_le (by positivity)
          have h2 : (K + B) / n.factorial * (2 * (n.factorial : ℝ)) = 2 * (K + B) := by field_simp
          have h3 : Real.goldenRatio ^ (n + 2) ≤ 2 ^ (n + 2) :=
            pow_le_pow_left₀ Real.goldenRatio_pos.le Real.goldenRatio_lt_two.le _
          have h4 : (2 : ℝ) ^ (n + 4) = 4 * 2 ^ (n + 2) := by rw [pow_add, pow_add]; ring
          have h5 : (4 : ℝ) ≤ 2 ^ (n + 2) := by
            calc (4 : ℝ) = 2 ^ 2 := by norm_num
              _ ≤ _ := pow_le_pow_right₀ (by norm_num) (by omega)
          have h6 : (2 : ℝ) ^ (n + 4) * 1 ≤ 2 ^ (n + 4) * (n.factorial : ℝ) := mul_le_mul_of_nonneg_left hfn (by positivity)
          linarith
        obtain ⟨vf, va⟩ := evalF_bnd ops (d := n) (M := Exq q n + n + q + 1) (x := (ofInt 1 : F)) (e := fun i => Exq q (n - i) + i)
          le_rfl of1 hI.fmu hI.fal hI.mu (by
            intro i hi
            by_cases h0 : i = 0
            · subst h0; rw [Nat.sub_zero]; omega
            · have := exq_step (q := q) (D := n) i (by omega) hi
              omega) (hG2.trans (by norm_num)) (by linarith) hcc1
          (by
            intro i hi
            have hir : (i : ℝ) ≤ n := by exact_mod_cast hi
            have h5 : (2 * (i : ℝ) + 1) * th ≤ 1 := (mul_le_mul_of_nonneg_right (by linarith) hth0).trans hlin
            have h6 := pow_add_le (hcc0 i) (hcc1 i hi) hth0 h5
            have h7 : cc i ^ i ≤ 1 := pow_le_one₀ (hcc0 i) (hcc1 i hi)
            refine h6.trans ?_
            linarith)
          ((mul_le_mul_of_nonneg_left hmaj (by norm_num)).trans hmajOm)
        rw [← hval] at vf va
        have va := va.weaken hG hmaj
        have e1 : ∑ i ∈ range (n + 1), exMu (extB rb) n i * (2 : ℝ) ^ s.2 * (R.val (ofInt 1 : F) + R.val (al i)) ^ i
            = P / n.factorial * (2 : ℝ) ^ s.2 := by
          rw [hPd, ← exact_final hb, mul_div_cancel_left₀ _ hf0.ne', Finset.sum_mul]
          refine Finset.sum_congr rfl fun i hi => ?_
          rw [hI.al i (by have := Finset.mem_range.mp hi; omega), ov1']; ring
        rw [e1] at va
        set Q := (n.factorial : ℝ) * R.val v / (2 : ℝ) ^ s.2 with hQ
        have hvQ : R.val v = Q / n.factorial * (2 : ℝ) ^ s.2 := by rw [hQ]; field_simp
        have hQA : |Q - P| ≤ A := by
          have h1 := va.err
          rw [hvQ, ← sub_mul, ← sub_div, abs_mul, abs_div, abs_of_pos s0, abs_of_pos hf0] at h1
          have h2 : |Q - P| / n.factorial * (2 : ℝ) ^ s.2 ≤ A / n.factorial * (2 : ℝ) ^ s.2 := by
            rw [hAd]; refine h1.trans (le_of_eq ?_); ring
          exact (div_le_div_iff_of_pos_right hf0).mp (le_of_mul_le_mul_right h2 s0)
        have hQ1 := (abs_le.mp hQA).1
        have hQ2 := (abs_le.mp hQA).2
        have hQ0 : 0 < Q := by linarith
        have hvp : 0 < R.val v := by rw [hvQ]; positivity
        -- bound on the exponent error
        have hl2 : 0 < Real.log 2 := Real.log_pos (by norm_num)
        have hl21 : Real.log 2 ≤ 1 := by
          have := Real.log_le_sub_one_of_pos (show (0 : ℝ) < 2 by norm_num); linarith
        have hL : 0 ≤ Real.log n.factorial := Real.log_natCast_nonneg _
        have hdL : (s.2 : ℝ) * Real.log 2 ≤ Real.log 2 + Real.log n.factorial := by
          rw [← Real.log_zpow, ← Real.log_mul (by norm_num) hf0.ne']
          exact Real.log_le_log s0 hI.delta_le
        have hd0 : 0 ≤ (s.2 : ℝ) * Real.log 2 := mul_nonneg (by exact_mod_cast hI.delta_nonneg) hl2.le
        have hlogQ : |Real.log Q| ≤ |Real.log P| + Real.log 2 := by
          have h1 : Real.log Q ≤ Real.log P + Real.log 2 := by
            rw [← Real.log_mul hP.ne' (by norm_num)]
            exact Real.log_le_log hQ0 (by linarith)
          have h2 : Real.log P - Real.log 2 ≤ Real.log Q := by
            rw [← Real.log_div hP.ne' (by norm_num)]
            exact Real.log_le_log (by linarith) (by linarith)
          rw [abs_le]
          have h3 := neg_abs_le (Real.log P)
          have h4 := le_abs_self (Real.log P)
          constructor <;> linarith
        have hlogv : Real.log (R.val v) = Real.log Q + ((s.2 : ℝ) * Real.log 2 - Real.log n.factorial) := by
          rw [hvQ, Real.log_mul (by positivity) s0.ne', Real.log_div hQ0.ne' hf0.ne', Real.log_zpow]; ring
        have habs : |(s.2 : ℝ) * Real.log 2 - Real.log n.factorial| ≤ Real.log 2 + Real.log n.factorial := by
          rw [abs_le]; constructor <;> linarith
        have hsum : Real.log n.factorial + |Real.log (R.val v)| + (s.2 : ℝ) * Real.log 2 + 1
            ≤ 3 * Real.log n.factorial + |Real.log P| + 4 := by
          rw [hlogv]
          have := abs_add_le (Real.log Q) ((s.2 : ℝ) * Real.log 2 - Real.log n.factorial)
          linarith
        have hexp : Real.exp (((1 + u) ^ 3 - 1) * (Real.log n.factorial + |Real.log (R.val v)| + (s.2 : ℝ) * Real.log 2 + 1))
            ≤ Real.exp w := by
          rw [Real.exp_le_exp, hw]
          exact mul_le_mul_of_nonneg_left hsum (by linarith [one_le_pow₀ hG (n := 3)])
        have hd2 : s.2 ≤ (n : ℤ) ^ 2 + 1 := by
          have h1 : (2 : ℝ) ^ s.2 ≤ (2 : ℝ) ^ ((n : ℤ) ^ 2 + 1) := by
            refine hI.delta_le.trans ?_
            rw [zpow_add_one₀ (by norm_num)]
            have h2 := nat_lt_two_pow_sq n
            have h3 : (2 : ℝ) ^ ((n : ℤ) ^ 2) = 2 ^ (n ^ 2) := by
              rw [← zpow_natCast]; push_cast; rfl
            rw [h3]; linarith
          exact (zpow_le_zpow_iff_right₀ (by norm_num)).mp h1
        have hdr : (s.2 : ℝ) ≤ (n : ℝ) ^ 2 + 1 := by exact_mod_cast hd2
        have hdth : ((s.2 : ℝ) + 5) * th ≤ 1 := by
          rw [mul_comm]
          refine sz.th_le hth0 ?_
          have h1 : (n : ℝ) ^ 2 + 6 ≤ 64 * 4 ^ n := by
            have h2 : (n : ℝ) ≤ 2 ^ n := by exact_mod_cast Nat.lt_two_pow_self.le
            have h3 : (n : ℝ) ^ 2 ≤ (2 ^ n) ^ 2 := pow_le_pow_left₀ (Nat.cast_nonneg n) h2 2
            have h4 : ((2 : ℝ) ^ n) ^ 2 = 4 ^ n := by rw [← pow_mul, mul_comm, pow_mul]; norm_num
            have h5 : (1 : ℝ) ≤ 4 ^ n := one_le_pow₀ (by norm_num)
            linarith
          have h6 : 64 * 4 ^ n * 1 ≤ 64 * 4 ^ n * (n.factorial : ℝ) := mul_le_mul_of_nonneg_left hfn (by positivity)
          linarith
        have hQ54 : Q ≤ 5 / 4 := by linarith
        obtain ⟨xf, xe⟩ := final_bnd ops hI.delta_nonneg (by omega) vf hvp hdth hG3 (by linarith) (by
          rw [← hQ]
          have h1 : Real.exp w ≤ 3 := by
            have h2 : Real.exp w ≤ Real.exp 1 := Real.exp_le_exp.mpr hw1
            have := Real.exp_one_lt_d9
            linarith
          have := mul_le_mul (hexp.trans h1) hQ54 hQ0.le (by norm_num)
          linarith)
        refine ⟨xf, ?_⟩
        rw [← hQ] at xe
        have h5 : (Real.exp (((1 + u) ^ 3 - 1) * (Real.log n.factorial + |Real.log (R.val v)| + (s.2 : ℝ) * Real.log 2 + 1)) * (1 + u) - 1) * Q
            ≤ (Real.exp w * (1 + u) - 1) * (P + A) := by
          have hw1 : 1 ≤ Real.exp w := Real.one_le_exp (by
            rw [hw]
            refine mul_nonneg (by linarith [one_le_pow₀ hG (n := 3)]) ?_
            have := abs_nonneg (Real.log P); linarith)
          refine mul_le_mul ?_ (by linarith) hQ0.le ?_
          · have := mul_le_mul_of_nonneg_right hexp (show 0 ≤ 1 + u by linarith)
            linarith
          · have := mul_le_mul hw1 hG zero_le_one (by linarith)
            linarith
        refine (abs_sub_le _ Q _).trans ?_
        linarith)
    simp only [bind_assoc] at h'
    exact h'
  obtain ⟨x, hx, hf, he⟩ := key.exists_ok
  exact ⟨x, hx, hf, he⟩

end
end CP.Spec
