import Verif.Proofs.MnsRound
import Verif.Proofs.RoundingFinal
import Mathlib.NumberTheory.Real.GoldenRatio
/-! Rounding error of `ecdf1_mns2016_b`: last steps, and the universal bound on the condition number. -/
open Finset Polynomial
namespace CP.Spec
noncomputable section
open FOps

variable {F : Type} [FOps F] {R : FloatModel F} {u : ℝ}

theorem sum_all (f : ℕ → ℝ) (bv : ℕ → ℝ) (n : ℕ) (x : ℝ) :
    ∑ i ∈ range (n + 1), f (n - i) / (i.factorial : ℝ) * (x + exAl bv n i) ^ i
      = ∑ k ∈ range (n + 1), f k * (x - bv k) ^ (n - k) / ((n - k).factorial : ℝ) := by
  rw [← Finset.sum_range_reflect]
  refine Finset.sum_congr rfl fun k hk => ?_
  have hk' : k ≤ n := by have := Finset.mem_range.mp hk; omega
  have e : n + 1 - 1 - k = n - k := by omega
  rw [e, show n - (n - k) = k by omega]
  by_cases h0 : n - k = 0
  · rw [h0]; simp
  · unfold exAl
    rw [if_neg h0, show n - (n - k) = k by omega]
    ring

theorem exact_final {n : ℕ} {b : Fin n → ℝ} (hb : ValidBound b) :
    (n.factorial : ℝ) * ∑ i ∈ range (n + 1), exMu (extB b) n i * (1 + exAl (extB b) n i) ^ i = lowerProb b := by
  rw [← app_prob hb (app_exact (extB b) n), eval_polyR]

theorem maj_final {n : ℕ} {b : Fin n → ℝ} (hb : ValidBound b) :
    (n.factorial : ℝ) * ∑ i ∈ range (n + 1), exMaj (extB b) n i * |1 + exAl (extB b) n i| ^ i = mnsCond b := by
  unfold mnsCond
  have e : padOne b = extB b := rfl
  rw [e, ← sum_all (absCoef (extB b)) (extB b) n 1]
  congr 1
  refine Finset.sum_congr rfl fun i hi => ?_
  have hn : 0 ≤ 1 + exAl (extB b) n i := by
    unfold exAl
    split
    · norm_num
    · linarith [(extB_range hb (n - i)).2]
  rw [abs_of_nonneg hn]
  rfl

theorem has_ofFn {n : ℕ} (b : Fin n → F) (i : ℕ) (hi : i < n) : Has (List.ofFn b) i (b ⟨i, hi⟩) := by
  refine ⟨by omega, ?_⟩
  rw [Int.toNat_natCast, List.getElem?_ofFn, dif_pos hi]

/-- The last formula, `exp(lgamma(n+1) + log(I) - delta*log(2))`. -/
theorem final_formula (ops : RelOps R u) {n : ℕ} {delta : ℤ} (hd0 : 0 ≤ delta) {v : F} (hvf : R.finite v) (hvp : 0 < R.val v) :
    R.finite (exp (lgamma (ofInt ((n : ℤ) + 1)) +ᶠ log v -ᶠ ofInt delta *ᶠ log (ofInt 2))) ∧
    |R.val (exp (lgamma (ofInt ((n : ℤ) + 1)) +ᶠ log v -ᶠ ofInt delta *ᶠ log (ofInt 2)))
        - n.factorial * R.val v / (2 : ℝ) ^ delta|
      ≤ (Real.exp (((1 + u) ^ 3 - 1) * (Real.log n.factorial + |Real.log (R.val v)| + delta * Real.log 2)) * (1 + u) - 1)
        * (n.factorial * R.val v / (2 : ℝ) ^ delta) := by
  have hu := ops.u_nonneg
  have hG : (1 : ℝ) ≤ 1 + u := by linarith
  have hL : 0 ≤ Real.log n.factorial := Real.log_natCast_nonneg _
  have hl2 : 0 < Real.log 2 := Real.log_pos (by norm_num)
  have hdr : (0 : ℝ) ≤ delta := by exact_mod_cast hd0
  obtain ⟨f1, a1⟩ := ops.lgamma n
  obtain ⟨f2, a2⟩ := ops.log v hvf hvp
  obtain ⟨f3, a3⟩ := ops.add _ _ f1 f2
  obtain ⟨f4, v4⟩ := ops.ofInt 2
  have v4' : R.val (ofInt 2 : F) = 2 := by rw [v4]; norm_num
  obtain ⟨f5, a5⟩ := ops.log (ofInt 2) f4 (by rw [v4']; norm_num)
  rw [v4'] at a5
  obtain ⟨f6, v6⟩ := ops.ofInt delta
  obtain ⟨f7, a7⟩ := ops.mul _ _ f6 f5
  obtain ⟨f8, a8⟩ := ops.sub _ _ f3 f7
  obtain ⟨f9, a9⟩ := ops.exp _ f8
  refine ⟨f9, ?_⟩
  have b1 : MApprox (1 + u) 1 (R.val (lgamma (ofInt ((n : ℤ) + 1)) : F)) (Real.log n.factorial) (Real.log n.factorial) := by
    have := (MApprox.exact (1 + u) 0 hG (Real.log n.factorial)).round hG (z := R.val (lgamma (ofInt ((n : ℤ) + 1)) : F)) (by simpa using a1)
    rwa [abs_of_nonneg hL] at this
  have b2 : MApprox (1 + u) 1 (R.val (log v)) (Real.log (R.val v)) |Real.log (R.val v)| :=
    (MApprox.exact (1 + u) 0 hG _).round hG (by simpa using a2)
  have b3 := (b1.add b2).round hG (z := R.val (lgamma (ofInt ((n : ℤ) + 1)) +ᶠ log v)) (by simpa using a3)
  have b5 : MApprox (1 + u) 1 (R.val (log (ofInt 2) : F)) (Real.log 2) (Real.log 2) := by
    have := (MApprox.exact (1 + u) 0 hG (Real.log 2)).round hG (z := R.val (log (ofInt 2) : F)) (by simpa using a5)
    rwa [abs_of_pos hl2] at this
  have b6 : MApprox (1 + u) 0 (R.val (ofInt delta : F)) delta delta := by
    rw [v6]
    have := MApprox.exact (1 + u) 0 hG (delta : ℝ)
    rwa [abs_of_nonneg hdr] at this
  have b7 := (b6.mul hG b5).round hG (z := R.val (ofInt delta *ᶠ log (ofInt 2))) (by simpa using a7)
  have b8 := (b3.sub b7).round hG (z := R.val (lgamma (ofInt ((n : ℤ) + 1)) +ᶠ log v -ᶠ ofInt delta *ᶠ log (ofInt 2)))
    (by simpa using a8)
  set s := R.val (lgamma (ofInt ((n : ℤ) + 1)) +ᶠ log v -ᶠ ofInt delta *ᶠ log (ofInt 2)) with hs
  set w := ((1 + u) ^ 3 - 1) * (Real.log n.factorial + |Real.log (R.val v)| + delta * Real.log 2) with hw
  have hsw : |s - (Real.log n.factorial + Real.log (R.val v) - delta * Real.log 2)| ≤ w := b8.err
  have hf0 : (0 : ℝ) < n.factorial := by exact_mod_cast Nat.factorial_pos n
  have hz0 : (0 : ℝ) < (2 : ℝ) ^ delta := zpow_pos (by norm_num) _
  have hQ : Real.exp (Real.log n.factorial + Real.log (R.val v) - delta * Real.log 2) = n.factorial * R.val v / (2 : ℝ) ^ delta := by
    rw [← Real.log_zpow, Real.exp_sub, Real.exp_add, Real.exp_log hf0, Real.exp_log hvp, Real.exp_log hz0]
  set Q := (n.factorial : ℝ) * R.val v / (2 : ℝ) ^ delta with hQd
  have hQ0 : 0 < Q := by rw [← hQ]; exact Real.exp_pos _
  have hup : Real.exp s ≤ Real.exp w * Q := by
    rw [← hQ, ← Real.exp_add, Real.exp_le_exp]
    have := (abs_le.mp hsw).2
    linarith
  have hlo : Q ≤ Real.exp w * Real.exp s := by
    rw [← hQ, ← Real.exp_add, Real.exp_le_exp]
    have := (abs_le.mp hsw).1
    linarith
  have hew : 1 ≤ Real.exp w := by
    refine Real.one_le_exp (mul_nonneg ?_ ?_)
    · have := one_le_pow₀ hG (n := 3); linarith
    · have := abs_nonneg (Real.log (R.val v)); have := mul_nonneg hdr hl2.le; linarith
  rw [abs_of_pos (Real.exp_pos s)] at a9
  have hes := Real.exp_pos s
  have h9 := abs_le.mp a9
  generalize Real.exp w = W at hup hlo hew ⊢
  generalize Real.exp s = S at *
  generalize R.val (exp (lgamma (ofInt ((n : ℤ) + 1)) +ᶠ log v -ᶠ ofInt delta *ᶠ log (ofInt 2))) = X at *
  rw [abs_le]
  have hSW : S * W ≤ W * Q * W := mul_le_mul_of_nonneg_right hup (by linarith)
  have hWinv : Q * (2 - W) ≤ S := by
    -- S ≥ Q / W ≥ Q (2 - W)
    have h1 : Q * (2 - W) * W ≤ S * W := by nlinarith [mul_nonneg hQ0.le (sq_nonneg (W - 1))]
    exact le_of_mul_le_mul_right h1 (by linarith)
  constructor
  · have h2 : (W - 1) * Q ≥ 0 := mul_nonneg (by linarith) hQ0.le
    have h3 : u * S ≤ u * (W * Q) := mul_le_mul_of_nonneg_left hup hu
    nlinarith
  · have h3 : u * S ≤ u * (W * Q) := mul_le_mul_of_nonneg_left hup hu
    nlinarith

/-- `ecdf1_mns2016_b` in floating point. -/
theorem mns_round (ops : RelOps R u) (env : Env F) {n : ℕ} {b : Fin n → F} (hbf : ∀ i, R.finite (b i))
    {rb : Fin n → ℝ} (hrb : ∀ i, R.val (b i) = rb i) (hb : ValidBound rb) (hP : 0 < lowerProb rb)
    {A w : ℝ} (hAd : A = ((1 + u) ^ (Ex n + n + 3) - 1) * mnsCond rb) (hA : A ≤ lowerProb rb / 2)
    (hw : w = ((1 + u) ^ 3 - 1) * (3 * Real.log n.factorial + |Real.log (lowerProb rb)| + 3)) :
    ∃ x, ecdf1Mns2016b env (List.ofFn b) = .ok x ∧ R.finite x ∧
      |R.val x - lowerProb rb| ≤ A + (Real.exp w * (1 + u) - 1) * (lowerProb rb + A) := by
  have hu := ops.u_nonneg
  have hG : (1 : ℝ) ≤ 1 + u := by linarith
  set P := lowerProb rb with hPd
  set K := mnsCond rb with hK
  have hvb : (fun i => R.val (b i)) = rb := funext hrb
  have hf0 : (0 : ℝ) < n.factorial := by exact_mod_cast Nat.factorial_pos n
  have hPK : P ≤ K := by
    rw [hPd, hK, ← exact_final hb, ← maj_final hb]
    refine mul_le_mul_of_nonneg_left (Finset.sum_le_sum fun i _ => ?_) hf0.le
    refine (le_abs_self _).trans ?_
    rw [abs_mul, abs_pow]
    refine mul_le_mul_of_nonneg_right ?_ (by positivity)
    unfold exMu exMaj
    rw [abs_div, Nat.abs_cast]
    exact div_le_div_of_nonneg_right (sgn_abs (extB_mono hb) _) (Nat.cast_nonneg _)
  have hG2 : (1 + u) ^ (Ex n + n + 3) ≤ 3 / 2 := by
    have hK0 : 0 < K := lt_of_lt_of_le hP hPK
    have : ((1 + u) ^ (Ex n + n + 3) - 1) * K ≤ 1 / 2 * K := by rw [← hAd]; linarith
    have := le_of_mul_le_mul_right this hK0
    linarith
  have key : Sat NoFault (fun x => R.finite x ∧ |R.val x - P| ≤ A + (Real.exp w * (1 + u) - 1) * (P + A))
      (ecdf1Mns2016b env (List.ofFn b)) := by
    unfold ecdf1Mns2016b ecdf1Mns2016bWith
    dsimp only
    rw [check_valid_float hbf (by rw [hvb]; exact hb) "b" _ (by simp), M_ok_bind]
    have h := mns_loop_val (E := NoFault) (env := env) (readExponent := fun _ x => frexpExp x) (b := List.ofFn b)
      (bv := fun i => if h : i < n then b ⟨i, h⟩ else zero) (fun i hi => by
        rw [List.length_ofFn] at hi
        rw [dif_pos hi]; exact has_ofFn b i hi) (MnsA R u (extB rb))
      (mnsA_zero ops _) (fun d mu al delta hd hR => by
        rw [List.length_ofFn] at hd
        refine mnsA_step ops (extB_mono hb) ?_ ?_ ?_ hR
        · rw [dif_pos hd]; exact hbf _
        · rw [dif_pos hd, hrb]; unfold extB; rw [dif_pos hd]
        · exact (pow_le_pow_right₀ hG (by omega)).trans hG2)
    have h' := Sat.bind (R := fun x => R.finite x ∧ |R.val x - P| ≤ A + (Real.exp w * (1 + u) - 1) * (P + A))
      (f := fun s : Poly F × Int => do
      let integralResult ← s.1.evaluate (FOps.ofInt 1)
      .ok (FOps.exp (FOps.sub (FOps.add (FOps.lgamma (FOps.ofInt (((List.ofFn b).length : Int) + 1)))
        (FOps.log integralResult)) (FOps.mul (FOps.ofInt s.2) (FOps.log (FOps.ofInt 2))))))
      h (fun s hs => by
        obtain ⟨mu, al, hp, hI⟩ := hs
        refine Sat.bind (evaluate_sat hp _) fun v hval => ?_
        rw [List.length_ofFn] at hI hval ⊢
        show _ ∧ _
        obtain ⟨of1, ov1⟩ := ops.ofInt 1
        have ov1' : R.val (ofInt 1 : F) = 1 := by rw [ov1]; norm_num
        obtain ⟨vf, va⟩ := evalF_approx ops (d := n) (M := Ex n + n + 2) (x := (ofInt 1 : F)) (e := fun i => Ex (n - i) + i)
          of1 hI.fmu hI.fal hI.mu (by
            intro i hi
            by_cases h0 : i = 0
            · subst h0; rw [Nat.sub_zero]; omega
            · have := ex_step (D := n) i (by omega) hi
              omega)
        rw [← hval] at vf va
        have s0 : (0 : ℝ) < (2 : ℝ) ^ s.2 := zpow_pos (by norm_num) _
        have e1 : ∑ i ∈ range (n + 1), exMu (extB rb) n i * (2 : ℝ) ^ s.2 * (R.val (ofInt 1 : F) + R.val (al i)) ^ i
            = P / n.factorial * (2 : ℝ) ^ s.2 := by
          rw [hPd, ← exact_final hb, mul_div_cancel_left₀ _ hf0.ne', Finset.sum_mul]
          refine Finset.sum_congr rfl fun i hi => ?_
          rw [hI.al i (by have := Finset.mem_range.mp hi; omega), ov1']; ring
        have e2 : ∑ i ∈ range (n + 1), exMaj (extB rb) n i * (2 : ℝ) ^ s.2 * |R.val (ofInt 1 : F) + R.val (al i)| ^ i
            = K / n.factorial * (2 : ℝ) ^ s.2 := by
          rw [hK, ← maj_final hb, mul_div_cancel_left₀ _ hf0.ne', Finset.sum_mul]
          refine Finset.sum_congr rfl fun i hi => ?_
          rw [hI.al i (by have := Finset.mem_range.mp hi; omega), ov1']; ring
        rw [e1, e2] at va
        set Q := (n.factorial : ℝ) * R.val v / (2 : ℝ) ^ s.2 with hQ
        have hvQ : R.val v = Q / n.factorial * (2 : ℝ) ^ s.2 := by rw [hQ]; field_simp
        have hQA : |Q - P| ≤ A := by
          have h1 := va.err
          rw [hvQ, ← sub_mul, ← sub_div, abs_mul, abs_div, abs_of_pos s0, abs_of_pos hf0] at h1
          have h2 : |Q - P| / n.factorial * (2 : ℝ) ^ s.2 ≤ A / n.factorial * (2 : ℝ) ^ s.2 := by
            rw [hAd]; refine h1.trans (le_of_eq ?_); ring
          exact (div_le_div_iff_of_pos_right hf0).mp (le_of_mul_le_mul_right h2 s0)
        have hQ1 := (abs_le.mp hQA).1
        have hQ2 := (abs_le.mp hQA).2
        have hQ0 : 0 < Q := by linarith
        have hvp : 0 < R.val v := by rw [hvQ]; positivity
        obtain ⟨xf, xe⟩ := final_formula ops (n := n) hI.delta_nonneg vf hvp
        refine ⟨xf, ?_⟩
        rw [← hQ] at xe
        -- bound on the exponent error
        have hl2 : 0 < Real.log 2 := Real.log_pos (by norm_num)
        have hl21 : Real.log 2 ≤ 1 := by
          have := Real.log_le_sub_one_of_pos (show (0 : ℝ) < 2 by norm_num); linarith
        have hL : 0 ≤ Real.log n.factorial := Real.log_natCast_nonneg _
        have hdL : (s.2 : ℝ) * Real.log 2 ≤ Real.log 2 + Real.log n.factorial := by
          rw [← Real.log_zpow, ← Real.log_mul (by norm_num) hf0.ne']
          exact Real.log_le_log s0 hI.delta_le
        have hd0 : 0 ≤ (s.2 : ℝ) * Real.log 2 := mul_nonneg (by exact_mod_cast hI.delta_nonneg) hl2.le
        have hlogQ : |Real.log Q| ≤ |Real.log P| + Real.log 2 := by
          have h1 : Real.log Q ≤ Real.log P + Real.log 2 := by
            rw [← Real.log_mul hP.ne' (by norm_num)]
            exact Real.log_le_log hQ0 (by linarith)
          have h2 : Real.log P - Real.log 2 ≤ Real.log Q := by
            rw [← Real.log_div hP.ne' (by norm_num)]
            exact Real.log_le_log (by linarith) (by linarith)
          rw [abs_le]
          have h3 := neg_abs_le (Real.log P)
          have h4 := le_abs_self (Real.log P)
          constructor <;> linarith
        have hlogv : Real.log (R.val v) = Real.log Q + ((s.2 : ℝ) * Real.log 2 - Real.log n.factorial) := by
          rw [hvQ, Real.log_mul (by positivity) s0.ne', Real.log_div hQ0.ne' hf0.ne', Real.log_zpow]; ring
        have habs : |(s.2 : ℝ) * Real.log 2 - Real.log n.factorial| ≤ Real.log 2 + Real.log n.factorial := by
          rw [abs_le]; constructor <;> linarith
        have hsum : Real.log n.factorial + |Real.log (R.val v)| + (s.2 : ℝ) * Real.log 2
            ≤ 3 * Real.log n.factorial + |Real.log P| + 3 := by
          rw [hlogv]
          have := abs_add_le (Real.log Q) ((s.2 : ℝ) * Real.log 2 - Real.log n.factorial)
          linarith
        have hexp : Real.exp (((1 + u) ^ 3 - 1) * (Real.log n.factorial + |Real.log (R.val v)| + (s.2 : ℝ) * Real.log 2))
            ≤ Real.exp w := by
          rw [Real.exp_le_exp, hw]
          exact mul_le_mul_of_nonneg_left hsum (by linarith [one_le_pow₀ hG (n := 3)])
        have h5 : (Real.exp (((1 + u) ^ 3 - 1) * (Real.log n.factorial + |Real.log (R.val v)| + (s.2 : ℝ) * Real.log 2)) * (1 + u) - 1) * Q
            ≤ (Real.exp w * (1 + u) - 1) * (P + A) := by
          have hw1 : 1 ≤ Real.exp w := Real.one_le_exp (by
            rw [hw]
            refine mul_nonneg (by linarith [one_le_pow₀ hG (n := 3)]) ?_
            have := abs_nonneg (Real.log P); linarith)
          refine mul_le_mul ?_ (by linarith) hQ0.le ?_
          · have := mul_le_mul_of_nonneg_right hexp (show 0 ≤ 1 + u by linarith)
            linarith
          · nlinarith
        refine (abs_sub_le _ Q _).trans ?_
        linarith [xe.trans h5])
    simp only [bind_assoc] at h'
    exact h'
  obtain ⟨x, hx, hf, he⟩ := key.exists_ok
  exact ⟨x, hx, hf, he⟩

theorem binom_term {r c : ℝ} (hr : 0 ≤ r) (hc : r ≤ c) {k D : ℕ} (hk : k ≤ D) :
    r ^ k * (c - r) ^ (D - k) / ((k.factorial : ℝ) * ((D - k).factorial : ℝ)) ≤ c ^ D / (D.factorial : ℝ) := by
  have h := add_pow r (c - r) D
  rw [add_sub_cancel] at h
  have h1 : r ^ k * (c - r) ^ (D - k) * (D.choose k : ℝ) ≤ c ^ D := by
    rw [h]
    exact Finset.single_le_sum (f := fun m => r ^ m * (c - r) ^ (D - m) * (D.choose m : ℝ))
      (fun i _ => mul_nonneg (mul_nonneg (pow_nonneg hr _) (pow_nonneg (by linarith) _)) (Nat.cast_nonneg _))
      (Finset.mem_range.mpr (by omega))
  have hch : (D.choose k : ℝ) * ((k.factorial : ℝ) * ((D - k).factorial : ℝ)) = (D.factorial : ℝ) := by
    rw [← mul_assoc]; exact_mod_cast Nat.choose_mul_factorial_mul_factorial hk
  have hk0 : (0 : ℝ) < (k.factorial : ℝ) := by exact_mod_cast Nat.factorial_pos _
  have hd0 : (0 : ℝ) < ((D - k).factorial : ℝ) := by exact_mod_cast Nat.factorial_pos _
  have hD0 : (0 : ℝ) < (D.factorial : ℝ) := by exact_mod_cast Nat.factorial_pos _
  rw [div_le_div_iff₀ (mul_pos hk0 hd0) hD0, ← hch]
  have := mul_le_mul_of_nonneg_right h1 (mul_pos hk0 hd0).le
  linarith

theorem golden_geom (d : ℕ) : ∑ k ∈ range d, Real.goldenRatio ^ k ≤ Real.goldenRatio ^ (d + 1) := by
  induction d with
  | zero => simpa using Real.goldenRatio_pos.le
  | succ d ih =>
    rw [Finset.sum_range_succ]
    have : Real.goldenRatio ^ (d + 1 + 1) = Real.goldenRatio ^ (d + 1) + Real.goldenRatio ^ d := by
      have := Real.goldenRatio_sq
      calc Real.goldenRatio ^ (d + 1 + 1) = Real.goldenRatio ^ d * Real.goldenRatio ^ 2 := by ring
        _ = _ := by rw [this]; ring
    linarith

theorem absCoef_le {bv : ℕ → ℝ} (hm : Monotone bv) (h0 : 0 ≤ bv 0) (D : ℕ) :
    absCoef bv D ≤ Real.goldenRatio ^ D * (rloc bv D ^ D / (D.factorial : ℝ)) := by
  have hφ := Real.goldenRatio_pos
  have hrm := rloc_mono hm h0
  have hr0 : rloc bv 0 = 0 := by simp [rloc]
  have hrn : ∀ k, 0 ≤ rloc bv k := fun k => by rw [← hr0]; exact hrm (Nat.zero_le k)
  induction D using Nat.strong_induction_on with
  | _ D ih =>
    cases D with
    | zero => simp [absCoef_zero]
    | succ d =>
      have hrd : rloc bv (d + 1) = bv d := by simp [rloc]
      rw [absCoef_succ, Finset.sum_range_succ, hrd]
      have hlast : absCoef bv d * (bv d - bv d) ^ (d + 1 - d) / ((d + 1 - d).factorial : ℝ) = 0 := by
        rw [show d + 1 - d = 1 by omega]; simp
      rw [hlast, add_zero]
      have hc : 0 ≤ bv d := by rw [← hrd]; exact hrn _
      have hq : 0 ≤ bv d ^ (d + 1) / ((d + 1).factorial : ℝ) := by positivity
      calc _ ≤ ∑ k ∈ range d, Real.goldenRatio ^ k * (bv d ^ (d + 1) / ((d + 1).factorial : ℝ)) := by
            refine Finset.sum_le_sum fun k hk => ?_
            have hk' : k < d := Finset.mem_range.mp hk
            have hrk : rloc bv k ≤ bv k := by
              have := hrm (Nat.le_succ k); simpa [rloc] using this
            have hkd : bv k ≤ bv d := hm hk'.le
            have h1 := ih k (by omega)
            have h2 : (bv d - bv k) ^ (d + 1 - k) ≤ (bv d - rloc bv k) ^ (d + 1 - k) :=
              pow_le_pow_left₀ (by linarith) (by linarith) _
            have h3 := binom_term (hrn k) (hrk.trans hkd) (show k ≤ d + 1 by omega)
            have hf : (0 : ℝ) < ((d + 1 - k).factorial : ℝ) := by exact_mod_cast Nat.factorial_pos _
            calc _ ≤ Real.goldenRatio ^ k * (rloc bv k ^ k / (k.factorial : ℝ)) * (bv d - rloc bv k) ^ (d + 1 - k)
                  / ((d + 1 - k).factorial : ℝ) := by
                  refine div_le_div_of_nonneg_right (mul_le_mul h1 h2 (pow_nonneg (by linarith) _) ?_) hf.le
                  have := hrn k
                  positivity
              _ = Real.goldenRatio ^ k * (rloc bv k ^ k * (bv d - rloc bv k) ^ (d + 1 - k)
                  / ((k.factorial : ℝ) * ((d + 1 - k).factorial : ℝ))) := by
                  field_simp
              _ ≤ _ := mul_le_mul_of_nonneg_left h3 (by positivity)
        _ = (∑ k ∈ range d, Real.goldenRatio ^ k) * (bv d ^ (d + 1) / ((d + 1).factorial : ℝ)) := by rw [Finset.sum_mul]
        _ ≤ _ := mul_le_mul_of_nonneg_right (golden_geom d) hq

/-- The condition number grows at most like the golden ratio to the power `n`. -/
theorem mnsCond_le {n : ℕ} {b : Fin n → ℝ} (hb : ValidBound b) : mnsCond b ≤ Real.goldenRatio ^ (n + 2) := by
  unfold mnsCond
  have e : padOne b = extB b := rfl
  rw [e]
  have hφ := Real.goldenRatio_pos
  have hm := extB_mono hb
  have h0 := (extB_range hb 0).1
  have hrm := rloc_mono hm h0
  have hr0 : rloc (extB b) 0 = 0 := by simp [rloc]
  have hrn : ∀ k, 0 ≤ rloc (extB b) k := fun k => by rw [← hr0]; exact hrm (Nat.zero_le k)
  have hn0 : (0 : ℝ) < (n.factorial : ℝ) := by exact_mod_cast Nat.factorial_pos _
  refine le_trans ?_ (golden_geom (n + 1))
  rw [Finset.mul_sum]
  refine Finset.sum_le_sum fun k hk => ?_
  have hk' : k ≤ n := by have := Finset.mem_range.mp hk; omega
  have hrk : rloc (extB b) k ≤ extB b k := by
    have := hrm (Nat.le_succ k); simpa [rloc] using this
  have hk1 := (extB_range hb k).2
  have h1 := absCoef_le hm h0 k
  have h2 : (1 - extB b k) ^ (n - k) ≤ (1 - rloc (extB b) k) ^ (n - k) := pow_le_pow_left₀ (by linarith) (by linarith) _
  have h3 := binom_term (hrn k) (hrk.trans hk1) hk'
  rw [one_pow] at h3
  have hf : (0 : ℝ) < ((n - k).factorial : ℝ) := by exact_mod_cast Nat.factorial_pos _
  have hkf : (0 : ℝ) < (k.factorial : ℝ) := by exact_mod_cast Nat.factorial_pos _
  have h4 : absCoef (extB b) k * (1 - extB b k) ^ (n - k) / ((n - k).factorial : ℝ) ≤
      Real.goldenRatio ^ k * (1 / (n.factorial : ℝ)) := by
    calc _ ≤ Real.goldenRatio ^ k * (rloc (extB b) k ^ k / (k.factorial : ℝ)) * (1 - rloc (extB b) k) ^ (n - k)
                  / ((n - k).factorial : ℝ) := by
                  refine div_le_div_of_nonneg_right (mul_le_mul h1 h2 (pow_nonneg (by linarith) _) ?_) hf.le
                  have := hrn k
                  positivity
      _ = Real.goldenRatio ^ k * (rloc (extB b) k ^ k * (1 - rloc (extB b) k) ^ (n - k)
                  / ((k.factorial : ℝ) * ((n - k).factorial : ℝ))) := by field_simp
      _ ≤ _ := mul_le_mul_of_nonneg_left h3 (by positivity)
  calc _ ≤ (n.factorial : ℝ) * (Real.goldenRatio ^ k * (1 / (n.factorial : ℝ))) := mul_le_mul_of_nonneg_left h4 hn0.le
    _ = _ := by field_simp

theorem prob_le_cond {n : ℕ} {b : Fin n → ℝ} (hb : ValidBound b) : lowerProb b ≤ mnsCond b := by
  have hf0 : (0 : ℝ) < n.factorial := by exact_mod_cast Nat.factorial_pos n
  rw [← exact_final hb, ← maj_final hb]
  refine mul_le_mul_of_nonneg_left (Finset.sum_le_sum fun i _ => ?_) hf0.le
  refine (le_abs_self _).trans ?_
  rw [abs_mul, abs_pow]
  refine mul_le_mul_of_nonneg_right ?_ (by positivity)
  unfold exMu exMaj
  rw [abs_div, Nat.abs_cast]
  exact div_le_div_of_nonneg_right (sgn_abs (extB_mono hb) _) (Nat.cast_nonneg _)

end
end CP.Spec
