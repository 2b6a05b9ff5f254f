import Verif.Proofs.MnsStep
import Verif.Proofs.Reflect
import Mathlib.Algebra.Polynomial.Taylor
/-
Exact value of `ecdf1_mns2016`: the iterated integrals are the law of the counting process under
the lower boundary constraints, whatever the rescaling exponents.
-/
set_option linter.unusedVariables false
open Finset MeasureTheory Polynomial
namespace CP.Spec
noncomputable section
variable {E : Fault → Prop}

/-- Taylor expansion of a real polynomial. -/
theorem taylor_sum (p : ℝ[X]) (m : ℕ) (hp : p.natDegree ≤ m) (r τ : ℝ) :
    p.eval (r + τ) = ∑ k ∈ range (m + 1), (derivative^[k] p).eval r * (τ ^ k / (k.factorial : ℝ)) := by
  have h1 : p.eval (r + τ) = (taylor r p).eval τ := by rw [taylor_eval, add_comm]
  rw [h1, eval_eq_sum_range' (n := m + 1) (by rw [natDegree_taylor]; omega)]
  refine Finset.sum_congr rfl fun k _ => ?_
  rw [taylor_coeff]
  have h2 : (derivative^[k] p) = k.factorial • hasseDeriv k p := by
    rw [← factorial_smul_hasseDeriv]; rfl
  rw [h2, eval_smul]
  have hf : (k.factorial : ℝ) ≠ 0 := by exact_mod_cast Nat.factorial_ne_zero k
  rw [nsmul_eq_mul]
  field_simp

/-- The iterated integrals: `1`, then antiderivatives vanishing at `b_0, b_1, ...`. -/
inductive IsApp (bv : ℕ → ℝ) : ℕ → ℝ[X] → Prop
  | zero : IsApp bv 0 1
  | succ {d : ℕ} {q q' : ℝ[X]} : IsApp bv d q → derivative q' = q → q'.eval (bv d) = 0 → IsApp bv (d + 1) q'

theorem natDegree_of_derivative {q' : ℝ[X]} {d : ℕ} (h : (derivative q').natDegree ≤ d) : q'.natDegree ≤ d + 1 := by
  by_contra hc
  have h1 : 0 < q'.natDegree := by omega
  have := natDegree_derivative (p := q')
  omega

theorem IsApp.natDegree {bv : ℕ → ℝ} {d : ℕ} {q : ℝ[X]} (h : IsApp bv d q) : q.natDegree ≤ d := by
  induction h with
  | zero => simp
  | succ h hd _ ih =>
    rw [← hd] at ih
    exact natDegree_of_derivative ih

theorem natDegree_iterate (q : ℝ[X]) (d k : ℕ) (h : q.natDegree ≤ d) : (derivative^[k] q).natDegree ≤ d - k := by
  have := natDegree_iterate_derivative q k
  omega

/-- Law of the counting process after `k` lower steps. -/
def lawL (bv : ℕ → ℝ) : ℕ → ℕ → ℝ
  | 0 => fun m => if m = 0 then 1 else 0
  | k + 1 => vstep (rloc bv (k + 1) - rloc bv k) (fun m => m ≤ k) (lawL bv k)

theorem taylor_vstep {q : ℝ[X]} {d m : ℕ} (hm : m ≤ d) (hq : q.natDegree ≤ d) {v : ℕ → ℝ} {r τ : ℝ}
    (hv : ∀ l, l ≤ d → v l = (derivative^[d - l] q).eval r) :
    ∑ l ∈ range (m + 1), v l * (τ ^ (m - l) / ((m - l).factorial : ℝ)) = (derivative^[d - m] q).eval (r + τ) := by
  rw [taylor_sum _ m (by have := natDegree_iterate q d (d - m) hq; omega), ← Finset.sum_flip]
  refine Finset.sum_congr rfl fun k hk => ?_
  have hk' : k ≤ m := by have := Finset.mem_range.mp hk; omega
  rw [← Function.iterate_add_apply, hv (m - k) (by omega)]
  have e1 : m - (m - k) = k := by omega
  have e2 : d - (m - k) = k + (d - m) := by omega
  rw [e1, e2]

theorem lawL_eq {bv : ℕ → ℝ} {d : ℕ} {q : ℝ[X]} (h : IsApp bv d q) :
    ∀ m, m ≤ d → lawL bv d m = (derivative^[d - m] q).eval (rloc bv d) := by
  induction h with
  | zero => intro m hm; have : m = 0 := by omega
            subst this; simp [lawL]
  | @succ d q q' h hd hz ih =>
    intro m hm
    simp only [lawL]
    have e : rloc bv (d + 1) = bv d := by simp [rloc]
    unfold vstep
    by_cases hmd : m ≤ d
    · rw [if_pos hmd, taylor_vstep hmd h.natDegree ih]
      have e2 : d + 1 - m = (d - m) + 1 := by omega
      rw [e2, Function.iterate_succ_apply, hd]
      congr 1; ring
    · rw [if_neg hmd]
      have : m = d + 1 := by omega
      subst this
      rw [e]; simp [hz]

theorem lawL_countLaw {n : ℕ} {bv : ℕ → ℝ} (hmono : Monotone bv) (h0 : 0 ≤ bv 0) (h1 : ∀ i, bv i ≤ 1) (k : ℕ) :
    CountLaw n (rloc bv k) (lawL bv k) {x | ∀ i, i < k → count (bv i) x ≤ i} := by
  have hrm := rloc_mono hmono h0
  induction k with
  | zero => simpa [lawL, rloc] using CountLaw.zero
  | succ k ih =>
    have hr0 : rloc bv 0 = 0 := by simp [rloc]
    have := ih.step (by rw [← hr0]; exact hrm (Nat.zero_le _)) (hrm (Nat.le_succ k))
      (by simp [rloc, h1]) (fun m => m ≤ k)
    simp only [lawL]
    convert this using 1
    ext x
    simp only [Set.mem_ofPred_eq, Set.mem_inter_iff]
    have e : rloc bv (k + 1) = bv k := by simp [rloc]
    rw [e]
    constructor
    · intro h; exact ⟨fun i hi => h i (by omega), h k (by omega)⟩
    · rintro ⟨h, h'⟩ i hi
      by_cases hik : i = k
      · subst hik; exact h'
      · exact h i (by omega)

/-- `n!` times the final integral is the one-sided probability. -/
theorem app_prob {n : ℕ} {b : Fin n → ℝ} (hb : ValidBound b) {q : ℝ[X]} (hq : IsApp (extB b) n q) :
    (n.factorial : ℝ) * q.eval 1 = lowerProb b := by
  have hm := extB_mono hb
  have h0 := (extB_range hb 0).1
  have h1 := fun i => (extB_range hb i).2
  have hrm := rloc_mono hm h0
  have hr0 : rloc (extB b) 0 = 0 := by simp [rloc]
  have hr1 : rloc (extB b) n ≤ 1 := by
    unfold rloc; split
    · exact zero_le_one
    · exact h1 _
  have hC := (lawL_countLaw (n := n) hm h0 h1 n).step (by rw [← hr0]; exact hrm (Nat.zero_le _)) hr1 le_rfl
    (fun _ => True)
  have hp := hC.prob
  unfold vstep at hp
  rw [if_pos trivial, taylor_vstep le_rfl hq.natDegree (lawL_eq hq)] at hp
  rw [lowerProb_eq]
  have e : {x : Fin n → ℝ | ∀ i : Fin n, count (b i) x ≤ (i : ℕ)}
      = {x | ∀ i, i < n → count (extB b i) x ≤ i} ∩ {x | True} := by
    ext x
    simp only [Set.mem_ofPred_eq, Set.mem_inter_iff, and_true]
    constructor
    · intro h i hi
      unfold extB; rw [dif_pos hi]; exact h ⟨i, hi⟩
    · intro h i
      have := h i i.2
      unfold extB at this; rw [dif_pos i.2] at this; exact this
  rw [e, hp]
  simp

/-- The polynomial represented by the coefficient arrays. -/
def polyR (d : ℕ) (mu al : ℕ → ℝ) : ℝ[X] := ∑ i ∈ range (d + 1), C (mu i) * (X + C (al i)) ^ i

theorem evalF_fin {d : ℕ} {mu al : ℕ → XR} {rmu ral : ℕ → ℝ}
    (h : ∀ i, i ≤ d → mu i = XR.fin (rmu i) ∧ al i = XR.fin (ral i)) (x : ℝ) :
    evalF d mu al (XR.fin x) = XR.fin ((polyR d rmu ral).eval x) := by
  unfold evalF polyR
  rw [eval_finsetSum]
  have : ∀ k, k ≤ d + 1 → (List.range k).foldl (fun r i => FOps.add r (FOps.mul (mu i)
      (FOps.powi (FOps.add (XR.fin x) (al i)) (i : Int)))) (FOps.zero : XR)
      = XR.fin (∑ i ∈ range k, (C (rmu i) * (X + C (ral i)) ^ i).eval x) := by
    intro k
    induction k with
    | zero => intro _; simp
    | succ k ih =>
      intro hk
      rw [List.range_succ, List.foldl_append, ih (by omega), Finset.sum_range_succ]
      obtain ⟨h1, h2⟩ := h k (by omega)
      simp only [List.foldl_cons, List.foldl_nil]
      rw [h1, h2, XR.add_fin, XR.powi_fin, XR.mul_fin, XR.add_fin]
      simp
  exact this (d + 1) le_rfl

/-- Integration of the coefficient arrays. -/
def rintMu (mu : ℕ → ℝ) (i : ℕ) : ℝ := if i = 0 then 0 else mu (i - 1) / (i : ℝ)
/-- Integration of the additive coefficients. -/
def rintAl (al : ℕ → ℝ) (x : ℝ) (i : ℕ) : ℝ := if i = 0 then 0 else if i = 1 then x else al (i - 1)
/-- Replace the constant. -/
def rsetC (mu : ℕ → ℝ) (c : ℝ) (i : ℕ) : ℝ := if i = 0 then c else mu i

theorem derivative_polyR (d : ℕ) (mu al : ℕ → ℝ) (x c : ℝ) :
    derivative (polyR (d + 1) (rsetC (rintMu mu) c) (rintAl al x)) = polyR d mu al := by
  unfold polyR
  rw [derivative_sum, Finset.sum_range_succ']
  have h0 : derivative (C (rsetC (rintMu mu) c 0) * (X + C (rintAl al x 0)) ^ 0) = 0 := by simp
  rw [h0, add_zero]
  refine Finset.sum_congr rfl fun i _ => ?_
  rw [derivative_C_mul, derivative_X_add_C_pow]
  have e1 : rsetC (rintMu mu) c (i + 1) = mu i / ((i : ℝ) + 1) := by simp [rsetC, rintMu]
  rw [e1]
  have hi : ((i : ℝ) + 1) ≠ 0 := by positivity
  by_cases h : i = 0
  · subst h; simp
  · have e2 : rintAl al x (i + 1) = al i := by simp [rintAl, h]
    rw [e2, Nat.add_sub_cancel, ← mul_assoc]
    congr 1
    push_cast
    rw [← C_mul]
    congr 1
    field_simp

theorem polyR_setC (d : ℕ) (mu al : ℕ → ℝ) (c : ℝ) :
    polyR d (rsetC mu c) al = polyR d mu al + C (c - mu 0) := by
  unfold polyR
  rw [Finset.sum_range_succ', Finset.sum_range_succ']
  simp [rsetC]

/-- Invariant of the main loop: the arrays hold `2^delta` times the iterated integral. -/
def MnsR (bv : ℕ → ℝ) (d : ℕ) (mu al : ℕ → XR) (delta : Int) : Prop :=
  ∃ (rmu ral : ℕ → ℝ) (q : ℝ[X]), (∀ i, i ≤ d → mu i = XR.fin (rmu i) ∧ al i = XR.fin (ral i)) ∧
    IsApp bv d q ∧ polyR d rmu ral = C ((2 : ℝ) ^ delta) * q

theorem polyR_scale (d : ℕ) (mu al : ℕ → ℝ) (s : ℝ) : polyR d (fun i => mu i * s) al = C s * polyR d mu al := by
  unfold polyR
  rw [Finset.mul_sum]
  refine Finset.sum_congr rfl fun i _ => ?_
  rw [C_mul]; ring

theorem mnsR_step {bv : ℕ → ℝ} {d : ℕ} {mu al : ℕ → XR} {delta : Int} (h : MnsR bv d mu al delta) :
    MnsR bv (d + 1) (stepMu d mu al (XR.fin (bv d))) (intAl al (FOps.neg (XR.fin (bv d)))) delta ∧
      ∀ e, MnsR bv (d + 1) (fun i => FOps.ldexp (stepMu d mu al (XR.fin (bv d)) i) e)
        (intAl al (FOps.neg (XR.fin (bv d)))) (delta + e) := by
  obtain ⟨rmu, ral, q, hv, hq, hp⟩ := h
  -- coefficients after integration
  have hint : ∀ i, i ≤ d + 1 → intMu mu i = XR.fin (rintMu rmu i) ∧
      intAl al (FOps.neg (XR.fin (bv d))) i = XR.fin (rintAl ral (-bv d) i) := by
    intro i hi
    unfold intMu intAl rintMu rintAl
    by_cases h0 : i = 0
    · simp [h0]
    · have hi0 : ((i : Int) : ℝ) ≠ 0 := by exact_mod_cast h0
      rw [if_neg h0, if_neg h0, if_neg h0, if_neg h0, (hv (i - 1) (by omega)).1, XR.ofInt_eq, XR.div_fin _ hi0]
      refine ⟨by push_cast; rfl, ?_⟩
      by_cases h1 : i = 1
      · simp [h1]
      · rw [if_neg h1, if_neg h1, (hv (i - 1) (by omega)).2]
  set c : ℝ := -((polyR (d + 1) (rintMu rmu) (rintAl ral (-bv d))).eval (bv d)) with hc
  have hstep : ∀ i, i ≤ d + 1 → stepMu d mu al (XR.fin (bv d)) i = XR.fin (rsetC (rintMu rmu) c i) ∧
      intAl al (FOps.neg (XR.fin (bv d))) i = XR.fin (rintAl ral (-bv d) i) := by
    intro i hi
    refine ⟨?_, (hint i hi).2⟩
    unfold stepMu setC rsetC
    by_cases h0 : i = 0
    · rw [if_pos h0, if_pos h0, evalF_fin hint, XR.neg_fin]
    · rw [if_neg h0, if_neg h0, (hint i hi).1]
  have hpow : ∀ k : Int, ((2 : ℝ) ^ k) ≠ 0 := fun k => zpow_ne_zero _ (by norm_num)
  have hder := derivative_polyR d rmu ral (-bv d) c
  have hev : (polyR (d + 1) (rsetC (rintMu rmu) c) (rintAl ral (-bv d))).eval (bv d) = 0 := by
    rw [polyR_setC, eval_add, eval_C, hc]
    simp [rintMu]
  -- the new iterated integral
  set P := polyR (d + 1) (rsetC (rintMu rmu) c) (rintAl ral (-bv d)) with hP
  have happ : IsApp bv (d + 1) (C (((2 : ℝ) ^ delta)⁻¹) * P) := by
    refine IsApp.succ hq ?_ ?_
    · rw [derivative_C_mul, hder, hp, ← mul_assoc, ← C_mul, inv_mul_cancel₀ (hpow _), C_1, one_mul]
    · rw [eval_mul, hev, mul_zero]
  have hPq : P = C ((2 : ℝ) ^ delta) * (C (((2 : ℝ) ^ delta)⁻¹) * P) := by
    rw [← mul_assoc, ← C_mul, mul_inv_cancel₀ (hpow _), C_1, one_mul]
  refine ⟨⟨_, _, _, hstep, happ, hPq⟩, fun e => ?_⟩
  refine ⟨fun i => rsetC (rintMu rmu) c i * (2 : ℝ) ^ e, rintAl ral (-bv d), _, ?_, happ, ?_⟩
  · intro i hi
    refine ⟨?_, (hstep i hi).2⟩
    dsimp only
    rw [(hstep i hi).1, XR.ldexp_fin]
  · rw [polyR_scale, ← hP]
    conv_lhs => rw [hPq]
    rw [← mul_assoc, ← C_mul]
    congr 2
    rw [zpow_add₀ (by norm_num)]; ring

theorem mnsR_zero (bv : ℕ → ℝ) : MnsR bv 0 (setC (fun _ => (FOps.zero : XR)) FOps.one) (fun _ => FOps.zero) 0 := by
  refine ⟨fun _ => 1, fun _ => 0, 1, ?_, IsApp.zero, ?_⟩
  · intro i hi
    have : i = 0 := by omega
    subst this
    simp [setC]
  · simp [polyR]

theorem lowerProb_nonneg {n : ℕ} (b : Fin n → ℝ) : 0 ≤ lowerProb b := measureReal_nonneg

/-- Exact value of `ecdf1_mns2016_b`, for every outcome of the exponent reads. -/
theorem mns_sat (env : Env XR) (readExponent : Int → XR → Int) {n : ℕ} {b : Fin n → ℝ} (hb : ValidBound b) :
    ecdf1Mns2016bWith env readExponent (toList b) = .ok (XR.fin (lowerProb b)) := by
  have key : Sat NoFault (fun r => r = XR.fin (lowerProb b)) (ecdf1Mns2016bWith env readExponent (toList b)) := by
    unfold ecdf1Mns2016bWith
    dsimp only
    rw [check_valid hb "b" _ (by simp), M_ok_bind]
    have h := mns_loop_sat (E := NoFault) (env := env) (readExponent := readExponent) (b := toList b)
      (bv := fun i => XR.fin (extB b i)) (fun i hi => has_toList b i (by simpa using hi)) (MnsR (extB b))
      (mnsR_zero _) (fun d mu al delta _ hR => mnsR_step hR)
    have h' := Sat.bind (R := fun r => r = XR.fin (lowerProb b)) (f := fun s : Poly XR × Int => do
      let integralResult ← s.1.evaluate (FOps.ofInt 1)
      .ok (FOps.exp (FOps.sub (FOps.add (FOps.lgamma (FOps.ofInt (((toList b).length : Int) + 1)))
        (FOps.log integralResult)) (FOps.mul (FOps.ofInt s.2) (FOps.log (FOps.ofInt 2))))))
      h (fun s hs => by
        obtain ⟨mu, al, hp, rmu, ral, q, hv, hq, hpol⟩ := hs
        refine Sat.bind (evaluate_sat hp _) fun v hval => ?_
        show _ = _
        have e1 : (FOps.ofInt 1 : XR) = XR.fin 1 := by simp
        rw [e1, evalF_fin hv, hpol, eval_mul, eval_C] at hval
        rw [length_toList] at hq
        have hprob := app_prob hb hq
        have hf : (0 : ℝ) < (n.factorial : ℝ) := by exact_mod_cast Nat.factorial_pos n
        have hnn : 0 ≤ q.eval 1 := by
          by_contra hneg
          have : (n.factorial : ℝ) * q.eval 1 < 0 := mul_neg_of_pos_of_neg hf (not_le.mp hneg)
          rw [hprob] at this
          exact absurd (lowerProb_nonneg b) (not_le.mpr this)
        have hpow : (0 : ℝ) < (2 : ℝ) ^ s.2 := zpow_pos (by norm_num) _
        have e2 : (FOps.ofInt (((toList b).length : Int) + 1) : XR) = XR.fin ((n : ℝ) + 1) := by simp
        have e3 : (FOps.log (FOps.ofInt 2) : XR) = XR.fin (Real.log 2) := by
          rw [XR.ofInt_eq, XR.log_fin (by norm_num)]; norm_num
        rw [hval, e2, XR.lgamma_succ, e3, XR.ofInt_eq, XR.mul_fin]
        rcases hnn.eq_or_lt with h0 | hpos
        · rw [← h0, mul_zero, XR.log_zero]
          rw [← h0, mul_zero] at hprob
          rw [← hprob]
          rfl
        · have hpp : 0 < (2 : ℝ) ^ s.2 * q.eval 1 := mul_pos hpow hpos
          rw [XR.log_fin hpp, XR.add_fin, XR.sub_fin, XR.exp_fin, XR.fin_inj, ← hprob,
            Real.log_mul hpow.ne' hpos.ne', Real.log_zpow]
          have : Real.log (n.factorial : ℝ) + ((s.2 : ℝ) * Real.log 2 + Real.log (q.eval 1))
              - (s.2 : ℝ) * Real.log 2 = Real.log (n.factorial : ℝ) + Real.log (q.eval 1) := by ring
          rw [this, Real.exp_add, Real.exp_log hf, Real.exp_log hpos])
    simp only [bind_assoc] at h'
    exact h'
  obtain ⟨a, ha, rfl⟩ := key.exists_ok
  exact ha

/-- Exact value of `ecdf1_mns2016_B`. -/
theorem mnsB_sat (env : Env XR) {n : ℕ} {B : Fin n → ℝ} (hB : ValidBound B) :
    ecdf1Mns2016B env (toList B) = .ok (XR.fin (upperProb B)) := by
  unfold ecdf1Mns2016B ecdf1Mns2016b
  dsimp only
  rw [check_valid hB "B" _ (by simp), M_ok_bind, symmetricSteps_eq, M_ok_bind, mns_sat env _ (reflect_valid hB),
    upperProb_reflect]

end
end CP.Spec
