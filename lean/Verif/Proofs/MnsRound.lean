import Verif.MnsAccSpec
import Verif.Proofs.MnsExact
/-! Rounding-error analysis of `ecdf1_mns2016`: calculus of approximations with majorants, and the loop invariant. -/
set_option linter.unusedVariables false
open Finset Polynomial
namespace CP.Spec
noncomputable section
open FOps

/-- `xh` approximates `x` up to `G^m - 1` relative to the majorant `a` of `x`. -/
structure MApprox (G : ℝ) (m : ℕ) (xh x a : ℝ) : Prop where
  err : |xh - x| ≤ (G ^ m - 1) * a
  le : |x| ≤ a

namespace MApprox
variable {G : ℝ} {m k : ℕ} {xh x a yh y b : ℝ}

theorem nonneg (h : MApprox G m xh x a) : 0 ≤ a := (abs_nonneg _).trans h.le

theorem abs_le (h : MApprox G m xh x a) : |xh| ≤ G ^ m * a := by
  have h1 : |xh| ≤ |xh - x| + |x| := by
    have := abs_add_le (xh - x) x
    rwa [sub_add_cancel] at this
  have := h.err; have := h.le
  linarith

theorem exact (G : ℝ) (m : ℕ) (hG : 1 ≤ G) (x : ℝ) : MApprox G m x x |x| :=
  ⟨by rw [sub_self, abs_zero]; exact mul_nonneg (by linarith [one_le_pow₀ hG (n := m)]) (abs_nonneg _), le_rfl⟩

theorem mono (hG : 1 ≤ G) (h : MApprox G m xh x a) (hk : m ≤ k) : MApprox G k xh x a :=
  ⟨h.err.trans (mul_le_mul_of_nonneg_right (by linarith [pow_le_pow_right₀ hG hk]) h.nonneg), h.le⟩

theorem round (h : MApprox G m xh x a) (hG : 1 ≤ G) {z : ℝ} (hz : |z - xh| ≤ (G - 1) * |xh|) : MApprox G (m + 1) z x a := by
  refine ⟨?_, h.le⟩
  have h1 : |z - x| ≤ |z - xh| + |xh - x| := by
    have := abs_add_le (z - xh) (xh - x)
    rwa [sub_add_sub_cancel] at this
  have h2 : (G - 1) * |xh| ≤ (G - 1) * (G ^ m * a) := mul_le_mul_of_nonneg_left h.abs_le (by linarith)
  have h3 := h.err
  calc |z - x| ≤ (G - 1) * (G ^ m * a) + (G ^ m - 1) * a := by linarith
    _ = (G ^ (m + 1) - 1) * a := by ring

theorem add (h : MApprox G m xh x a) (h' : MApprox G m yh y b) : MApprox G m (xh + yh) (x + y) (a + b) := by
  refine ⟨?_, (abs_add_le _ _).trans (add_le_add h.le h'.le)⟩
  have := abs_add_le (xh - x) (yh - y)
  rw [show xh - x + (yh - y) = xh + yh - (x + y) by ring] at this
  have h1 := h.err; have h2 := h'.err
  rw [mul_add]; linarith

theorem neg (h : MApprox G m xh x a) : MApprox G m (-xh) (-x) a := by
  refine ⟨?_, by rw [abs_neg]; exact h.le⟩
  have : -xh - -x = -(xh - x) := by ring
  rw [this, abs_neg]; exact h.err

theorem sub (h : MApprox G m xh x a) (h' : MApprox G m yh y b) : MApprox G m (xh - yh) (x - y) (a + b) := by
  have := h.add h'.neg
  rwa [← sub_eq_add_neg, ← sub_eq_add_neg] at this

theorem mul (hG : 1 ≤ G) (h : MApprox G m xh x a) (h' : MApprox G k yh y b) : MApprox G (m + k) (xh * yh) (x * y) (a * b) := by
  refine ⟨?_, by rw [abs_mul]; exact mul_le_mul h.le h'.le (abs_nonneg _) h.nonneg⟩
  have e : xh * yh - x * y = (xh - x) * yh + x * (yh - y) := by ring
  have h1 := abs_add_le ((xh - x) * yh) (x * (yh - y))
  rw [← e, abs_mul, abs_mul] at h1
  have g1 : 0 ≤ G ^ m - 1 := by linarith [one_le_pow₀ hG (n := m)]
  have g2 : 0 ≤ G ^ k - 1 := by linarith [one_le_pow₀ hG (n := k)]
  have h2 : |xh - x| * |yh| ≤ (G ^ m - 1) * a * (G ^ k * b) :=
    mul_le_mul h.err h'.abs_le (abs_nonneg _) (mul_nonneg g1 h.nonneg)
  have h3 : |x| * |yh - y| ≤ a * ((G ^ k - 1) * b) := mul_le_mul h.le h'.err (abs_nonneg _) h.nonneg
  calc _ ≤ (G ^ m - 1) * a * (G ^ k * b) + a * ((G ^ k - 1) * b) := by linarith
    _ = (G ^ (m + k) - 1) * (a * b) := by rw [pow_add]; ring

theorem pow (hG : 1 ≤ G) (h : MApprox G m xh x a) (i : ℕ) : MApprox G (m * i) (xh ^ i) (x ^ i) (a ^ i) := by
  induction i with
  | zero => simpa using exact G 0 hG 1
  | succ i ih =>
    rw [pow_succ, pow_succ, pow_succ, Nat.mul_succ]
    exact ih.mul hG h

theorem scale (h : MApprox G m xh x a) {s : ℝ} (hs : 0 ≤ s) : MApprox G m (xh * s) (x * s) (a * s) := by
  refine ⟨?_, ?_⟩
  · rw [← sub_mul, abs_mul, abs_of_nonneg hs, ← mul_assoc]
    exact mul_le_mul_of_nonneg_right h.err hs
  · rw [abs_mul, abs_of_nonneg hs]
    exact mul_le_mul_of_nonneg_right h.le hs

theorem div (h : MApprox G m xh x a) {s : ℝ} (hs : 0 ≤ s) : MApprox G m (xh / s) (x / s) (a / s) := by
  simpa [div_eq_mul_inv] using h.scale (inv_nonneg.mpr hs)

theorem weaken (hG : 1 ≤ G) (h : MApprox G m xh x a) (hab : a ≤ b) : MApprox G m xh x b :=
  ⟨h.err.trans (mul_le_mul_of_nonneg_left hab (by linarith [one_le_pow₀ hG (n := m)])), h.le.trans hab⟩

end MApprox

variable {F : Type} [FOps F] {R : FloatModel F} {u : ℝ}

/-- Error of `evaluate`. -/
theorem evalF_approx (ops : RelOps R u) {d M : ℕ} {mu al : ℕ → F} {x : F} {rmu amu : ℕ → ℝ} {e : ℕ → ℕ}
    (hx : R.finite x) (hmu : ∀ i ≤ d, R.finite (mu i)) (hal : ∀ i ≤ d, R.finite (al i))
    (hap : ∀ i ≤ d, MApprox (1 + u) (e i) (R.val (mu i)) (rmu i) (amu i))
    (hM : ∀ i ≤ d, e i + i + 2 + (d + 1 - i) ≤ M + 1) :
    R.finite (evalF d mu al x) ∧
    MApprox (1 + u) (M + 1) (R.val (evalF d mu al x)) (∑ i ∈ range (d + 1), rmu i * (R.val x + R.val (al i)) ^ i)
      (∑ i ∈ range (d + 1), amu i * |R.val x + R.val (al i)| ^ i) := by
  have hG : (1 : ℝ) ≤ 1 + u := by linarith [ops.u_nonneg]
  have hMd : d ≤ M := by have := hM 0 (Nat.zero_le _); omega
  have key : ∀ k, k ≤ d + 1 →
      R.finite ((List.range k).foldl (fun r i => r +ᶠ mu i *ᶠ powi (x +ᶠ al i) (i : Int)) zero) ∧
      MApprox (1 + u) (M + 1 - (d + 1 - k)) (R.val ((List.range k).foldl (fun r i => r +ᶠ mu i *ᶠ powi (x +ᶠ al i) (i : Int)) zero))
        (∑ i ∈ range k, rmu i * (R.val x + R.val (al i)) ^ i) (∑ i ∈ range k, amu i * |R.val x + R.val (al i)| ^ i) := by
    intro k
    induction k with
    | zero =>
      intro _
      refine ⟨R.zero_finite, ?_⟩
      have := MApprox.exact (1 + u) (M + 1 - (d + 1 - 0)) hG 0
      simpa [R.val_zero] using this
    | succ k ih =>
      intro hk
      obtain ⟨f1, a1⟩ := ih (by omega)
      rw [List.range_succ, List.foldl_append, Finset.sum_range_succ, Finset.sum_range_succ]
      simp only [List.foldl_cons, List.foldl_nil]
      generalize (List.range k).foldl (fun r i => r +ᶠ mu i *ᶠ powi (x +ᶠ al i) (i : Int)) zero = r at f1 a1 ⊢
      obtain ⟨f2, a2⟩ := ops.add x (al k) hx (hal k (by omega))
      obtain ⟨f3, a3⟩ := ops.powi _ k f2
      obtain ⟨f4, a4⟩ := ops.mul _ _ (hmu k (by omega)) f3
      obtain ⟨f5, a5⟩ := ops.add _ _ f1 f4
      refine ⟨f5, ?_⟩
      have b2 : MApprox (1 + u) 1 (R.val (x +ᶠ al k)) (R.val x + R.val (al k)) |R.val x + R.val (al k)| :=
        (MApprox.exact (1 + u) 0 hG _).round hG (by simpa using a2)
      have b3 := (b2.pow hG k).round hG (z := R.val (powi (x +ᶠ al k) (k : ℤ))) (by simpa using a3)
      have b4 := ((hap k (by omega)).mul hG b3).round hG (z := R.val (mu k *ᶠ powi (x +ᶠ al k) (k : ℤ))) (by simpa using a4)
      have b4' := b4.mono hG (k := M + 1 - (d + 1 - k)) (by have := hM k (by omega); omega)
      have b5 := (a1.add b4').round hG (z := R.val (r +ᶠ mu k *ᶠ powi (x +ᶠ al k) (k : ℤ))) (by simpa using a5)
      exact b5.mono hG (by omega)
  have := key (d + 1) le_rfl
  rw [show M + 1 - (d + 1 - (d + 1)) = M + 1 by omega] at this
  exact this

/-- The integration constants. -/
def sgnCoef (bv : ℕ → ℝ) : ℕ → ℝ
  | 0 => 1
  | d + 1 => - ∑ k : Fin (d + 1), sgnCoef bv k * (bv d - bv k) ^ (d + 1 - (k : ℕ)) / ((d + 1 - (k : ℕ)).factorial : ℝ)

theorem sgnCoef_succ (bv : ℕ → ℝ) (d : ℕ) : sgnCoef bv (d + 1) =
    - ∑ k ∈ range (d + 1), sgnCoef bv k * (bv d - bv k) ^ (d + 1 - k) / ((d + 1 - k).factorial : ℝ) := by
  rw [sgnCoef, Finset.sum_range]

theorem absCoef_succ (bv : ℕ → ℝ) (d : ℕ) : absCoef bv (d + 1) =
    ∑ k ∈ range (d + 1), absCoef bv k * (bv d - bv k) ^ (d + 1 - k) / ((d + 1 - k).factorial : ℝ) := by
  rw [absCoef, Finset.sum_range]

theorem sgnCoef_zero (bv : ℕ → ℝ) : sgnCoef bv 0 = 1 := by rw [sgnCoef]
theorem absCoef_zero (bv : ℕ → ℝ) : absCoef bv 0 = 1 := by rw [absCoef]

theorem sgn_abs {bv : ℕ → ℝ} (hm : Monotone bv) (d : ℕ) : |sgnCoef bv d| ≤ absCoef bv d := by
  induction d using Nat.strong_induction_on with
  | _ d ih =>
    cases d with
    | zero => simp [sgnCoef_zero, absCoef_zero]
    | succ d =>
      rw [sgnCoef_succ, absCoef_succ, abs_neg]
      refine (Finset.abs_sum_le_sum_abs _ _).trans (Finset.sum_le_sum fun k hk => ?_)
      have hk' : k ≤ d := by have := Finset.mem_range.mp hk; omega
      have h0 : 0 ≤ bv d - bv k := by linarith [hm hk']
      rw [abs_div, abs_mul, abs_of_nonneg (pow_nonneg h0 _), Nat.abs_cast]
      exact div_le_div_of_nonneg_right (mul_le_mul_of_nonneg_right (ih k (by omega)) (pow_nonneg h0 _)) (Nat.cast_nonneg _)

/-- Exact coefficient arrays after `d` steps. -/
def exMu (bv : ℕ → ℝ) (d i : ℕ) : ℝ := sgnCoef bv (d - i) / (i.factorial : ℝ)
/-- Majorants of the coefficient arrays after `d` steps. -/
def exMaj (bv : ℕ → ℝ) (d i : ℕ) : ℝ := absCoef bv (d - i) / (i.factorial : ℝ)
/-- Exact additive coefficients after `d` steps. -/
def exAl (bv : ℕ → ℝ) (d i : ℕ) : ℝ := if i = 0 then 0 else - bv (d - i)

theorem fact_pred {i : ℕ} (hi : i ≠ 0) : ((i - 1).factorial : ℝ) * i = (i.factorial : ℝ) := by
  obtain ⟨j, rfl⟩ : ∃ j, i = j + 1 := ⟨i - 1, by omega⟩
  rw [Nat.add_sub_cancel, Nat.factorial_succ]; push_cast; ring

theorem exMu_succ (bv : ℕ → ℝ) {d i : ℕ} (hi : i ≠ 0) : exMu bv (d + 1) i = exMu bv d (i - 1) / i := by
  unfold exMu
  rw [show d + 1 - i = d - (i - 1) by omega, ← fact_pred hi, div_div]

theorem exMaj_succ (bv : ℕ → ℝ) {d i : ℕ} (hi : i ≠ 0) : exMaj bv (d + 1) i = exMaj bv d (i - 1) / i := by
  unfold exMaj
  rw [show d + 1 - i = d - (i - 1) by omega, ← fact_pred hi, div_div]

theorem polyR_congr {d : ℕ} {mu mu' al al' : ℕ → ℝ} (h : ∀ i ≤ d, mu i = mu' i ∧ al i = al' i) : polyR d mu al = polyR d mu' al' := by
  unfold polyR
  refine Finset.sum_congr rfl fun i hi => ?_
  obtain ⟨h1, h2⟩ := h i (by have := Finset.mem_range.mp hi; omega)
  rw [h1, h2]

theorem eval_polyR (d : ℕ) (mu al : ℕ → ℝ) (x : ℝ) : (polyR d mu al).eval x = ∑ i ∈ range (d + 1), mu i * (x + al i) ^ i := by
  unfold polyR
  rw [eval_finsetSum]
  exact Finset.sum_congr rfl fun i _ => by simp

/-- The sum over degrees `i >= 1` at `x`, reindexed by `k = D - i`. -/
theorem sum_high (f : ℕ → ℝ) (bv : ℕ → ℝ) (d : ℕ) (x : ℝ) :
    ∑ i ∈ range (d + 1), f (d + 1 - (i + 1)) / ((i + 1).factorial : ℝ) * (x + exAl bv (d + 1) (i + 1)) ^ (i + 1)
      = ∑ k ∈ range (d + 1), f k * (x - bv k) ^ (d + 1 - k) / ((d + 1 - k).factorial : ℝ) := by
  rw [← Finset.sum_range_reflect]
  refine Finset.sum_congr rfl fun k hk => ?_
  have hk' : k ≤ d := by have := Finset.mem_range.mp hk; omega
  have e : d + 1 - 1 - k + 1 = d + 1 - k := by omega
  rw [e]
  have e2 : d + 1 - (d + 1 - k) = k := by omega
  unfold exAl
  rw [if_neg (by omega), e2]
  ring

theorem exact_const (bv : ℕ → ℝ) (d : ℕ) :
    ∑ i ∈ range (d + 2), (if i = 0 then 0 else exMu bv (d + 1) i) * (bv d + exAl bv (d + 1) i) ^ i = - sgnCoef bv (d + 1) := by
  rw [Finset.sum_range_succ', sgnCoef_succ, neg_neg, ← sum_high (sgnCoef bv) bv d (bv d)]
  simp [exMu]

theorem app_exact (bv : ℕ → ℝ) (d : ℕ) : IsApp bv d (polyR d (exMu bv d) (exAl bv d)) := by
  induction d with
  | zero =>
    have : polyR 0 (exMu bv 0) (exAl bv 0) = 1 := by simp [polyR, exMu, sgnCoef_zero]
    rw [this]; exact IsApp.zero
  | succ d ih =>
    have e : polyR (d + 1) (exMu bv (d + 1)) (exAl bv (d + 1))
        = polyR (d + 1) (rsetC (rintMu (exMu bv d)) (sgnCoef bv (d + 1))) (rintAl (exAl bv d) (-bv d)) := by
      refine polyR_congr fun i hi => ?_
      by_cases h0 : i = 0
      · subst h0; simp [exMu, exAl, rsetC, rintAl]
      · refine ⟨by simp [rsetC, rintMu, h0, exMu_succ bv h0], ?_⟩
        unfold exAl rintAl
        rw [if_neg h0, if_neg h0]
        by_cases h1 : i = 1
        · subst h1; simp
        · rw [if_neg h1]; beta_reduce; rw [if_neg (by omega), show d + 1 - i = d - (i - 1) by omega]
    refine IsApp.succ ih ?_ ?_
    · rw [e]; exact derivative_polyR _ _ _ _ _
    · rw [eval_polyR, Finset.sum_range_succ']
      have h := exact_const bv d
      rw [Finset.sum_range_succ'] at h
      simp only [Nat.add_eq_zero_iff, one_ne_zero, and_false, if_false, if_true, zero_mul, add_zero] at h
      rw [h]
      simp [exMu]

/-- Number of roundings in the `k`-th integration constant. -/
def Ex : ℕ → ℕ
  | 0 => 0
  | k + 1 => Ex k + (k + 5)

theorem ex_closed (k : ℕ) : 2 * Ex k = k * (k + 9) := by
  induction k with
  | zero => rfl
  | succ k ih => rw [Ex, Nat.mul_add, ih]; ring

theorem ex_step {D : ℕ} : ∀ i, 1 ≤ i → i ≤ D → Ex (D - i) + i + D + 3 ≤ Ex D := by
  intro i
  induction i with
  | zero => omega
  | succ i ih =>
    intro _ h2
    by_cases h0 : i = 0
    · subst h0
      obtain ⟨E, rfl⟩ : ∃ E, D = E + 1 := ⟨D - 1, by omega⟩
      rw [show E + 1 - (0 + 1) = E by omega, Ex]; omega
    · have h := ih (by omega) (by omega)
      have e : Ex (D - i) = Ex (D - (i + 1)) + ((D - (i + 1)) + 5) := by
        obtain ⟨E, hE⟩ : ∃ E, D - i = E + 1 := ⟨D - i - 1, by omega⟩
        rw [hE, show D - (i + 1) = E by omega, Ex]
      omega

end
end CP.Spec

namespace CP
variable {F : Type} [FOps F] {E : Fault → Prop}
open FOps

/-- Result of `maximum_multiplicative_coefficient`. -/
def maxF (d : Nat) (mu : Nat → F) : F := (List.range (d + 1)).foldl (fun m i => if lt m (mu i) then mu i else m) (mu 0)

theorem maxMult_val {env : Env F} {cap d : Nat} {p : Poly F} {mu al : Nat → F} (h : PRep cap d p mu al) (hd : 1 ≤ d) :
    Sat E (fun m => m = maxF d mu) (p.maxMult env) := by
  unfold Poly.maxMult
  rw [assertC_true _ (by rw [h.deg]; simp; omega), M_ok_bind]
  have hget : ∀ i : Nat, i ≤ d → p.getMult env i = .ok (mu i) := by
    intro i hi
    unfold Poly.getMult
    rw [assertC_true _ (by simp), M_ok_bind, assertC_true _ (by rw [h.deg]; simpa using hi), M_ok_bind,
      rd_eq (h.mult i hi)]
  have h0 := hget 0 (by omega)
  rw [Int.natCast_zero] at h0
  rw [h0, M_ok_bind, h.deg]
  refine (Sat.forRange (fun j (m : F) => m = (List.range j.toNat).foldl
    (fun m i => if lt m (mu i) then mu i else m) (mu 0)) (by omega) (by simp) ?_).mono ?_
  · intro j m h1 h2 hm
    obtain ⟨j, rfl⟩ : ∃ k : Nat, j = (k : Int) := ⟨j.toNat, by omega⟩
    rw [hget j (by omega), M_ok_bind]
    show _ = _
    have e : ((j : Int) + 1).toNat = j + 1 := by omega
    rw [e, List.range_succ, List.foldl_append, hm]
    simp
  · intro m hm
    have e : ((d : Int) + 1).toNat = d + 1 := by omega
    rw [hm, e]; rfl

theorem mnsStep_val {env : Env F} {readExponent : Int → F → Int} {b : List F} {d : Nat} {cap : Nat} {s : Poly F × Int}
    {mu al : Nat → F} {bd : F} (h : PRep cap d s.1 mu al) (hd : d + 1 < cap) (hb : Has b d bd) :
    Sat E (fun s' => (s'.2 = s.2 ∧ PRep cap (d + 1) s'.1 (stepMu d mu al bd) (intAl al (neg bd))) ∨
        ∃ e : Int, e = 0 - readExponent d (maxF (d + 1) (stepMu d mu al bd)) ∧ 0 < e ∧ d % 16 = 0 ∧ s'.2 = s.2 + e ∧
        PRep cap (d + 1) s'.1 (fun i => ldexp (stepMu d mu al bd i) e) (intAl al (neg bd)))
      (mnsStep env readExponent b d s) := by
  unfold mnsStep
  refine Sat.bind (integrate_sat h hd) fun p1 h1 => ?_
  rw [rd_eq hb, M_ok_bind]
  refine Sat.bind (setAdd1_sat h1 (neg bd)) fun p2 h2 => ?_
  refine Sat.bind (evaluate_sat h2 bd) fun v hv => ?_
  subst hv
  refine Sat.bind (setMult0_sat h2 _) fun p3 h3 => ?_
  by_cases hmod : (d : Int).tmod NUM_ITERATIONS_BETWEEN_EXP_FIXES = 0
  · rw [if_pos hmod]
    refine Sat.bind (maxMult_val h3 (by omega)) fun mc hmc => ?_
    dsimp only
    subst hmc
    split
    · next hneg =>
      refine Sat.bind (ldexpAll_sat h3 _) fun p4 h4 => ?_
      have h16 : d % 16 = 0 := by
        have h16' : ((d : Int)).tmod 16 = 0 := hmod
        rw [Int.tmod_eq_emod_of_nonneg (by omega)] at h16'
        omega
      exact Or.inr ⟨_, rfl, by unfold stepMu; omega, h16, rfl, h4⟩
    · exact Or.inl ⟨rfl, h3⟩
  · rw [if_neg hmod]
    exact Or.inl ⟨rfl, h3⟩

/-- The main loop, with the rescaling exponent known. -/
theorem mns_loop_val {env : Env F} {readExponent : Int → F → Int} {b : List F} {bv : Nat → F}
    (hb : ∀ i : Nat, i < b.length → Has b i (bv i))
    (R : Nat → (Nat → F) → (Nat → F) → Int → Prop)
    (hR0 : R 0 (setC (fun _ => zero) one) (fun _ => zero) 0)
    (hRs : ∀ d mu al delta, d < b.length → R d mu al delta →
      R (d + 1) (stepMu d mu al (bv d)) (intAl al (neg (bv d))) delta ∧
      ∀ e, e = 0 - readExponent d (maxF (d + 1) (stepMu d mu al (bv d))) → 0 < e → d % 16 = 0 →
        R (d + 1) (fun i => ldexp (stepMu d mu al (bv d) i) e) (intAl al (neg (bv d))) (delta + e)) :
    Sat E (fun s => ∃ mu al, PRep (b.length + 2) b.length s.1 mu al ∧ R b.length mu al s.2)
      (do
        let p ← Poly.new env ((b.length : Int) + 1)
        let p ← p.setMult env 0 one
        forRange 0 (b.length : Int) (p, (0 : Int)) (mnsStep env readExponent b)) := by
  refine Sat.bind (polyNew_sat env b.length) fun p hp => ?_
  refine Sat.bind (setMult0_sat hp one) fun p hp => ?_
  refine (Sat.forRange (fun j (s : Poly F × Int) => ∃ mu al, PRep (b.length + 2) j.toNat s.1 mu al ∧
    R j.toNat mu al s.2) (by omega) (by exact ⟨_, _, hp, hR0⟩) ?_).mono ?_
  · rintro j s h0 h1 ⟨mu, al, hs, hR⟩
    obtain ⟨j, rfl⟩ : ∃ k : Nat, j = (k : Int) := ⟨j.toNat, by omega⟩
    rw [Int.toNat_natCast] at hs hR
    have e : ((j : Int) + 1).toNat = j + 1 := by omega
    rw [e]
    refine (mnsStep_val hs (by omega) (hb j (by omega))).mono ?_
    rintro s' (h | ⟨ex, hex, hpos, h16, hs2, h⟩)
    · refine ⟨_, _, h.2, ?_⟩
      rw [h.1]
      exact (hRs j mu al s.2 (by omega) hR).1
    · refine ⟨_, _, h, ?_⟩
      rw [hs2]
      exact (hRs j mu al s.2 (by omega) hR).2 ex hex hpos h16
  · rintro s ⟨mu, al, hs, hR⟩
    rw [Int.toNat_natCast] at hs hR
    exact ⟨mu, al, hs, hR⟩

end CP

namespace CP.Spec
noncomputable section
open FOps
variable {F : Type} [FOps F] {R : FloatModel F} {u : ℝ}

theorem maxF_spec {d : ℕ} {mu : ℕ → F} (hf : ∀ i ≤ d, R.finite (mu i)) :
    R.finite (maxF d mu) ∧ ∀ i ≤ d, R.val (mu i) ≤ R.val (maxF d mu) := by
  have key : ∀ k, k ≤ d + 1 →
      R.finite ((List.range k).foldl (fun m i => if lt m (mu i) then mu i else m) (mu 0)) ∧
      ∀ i < k, R.val (mu i) ≤ R.val ((List.range k).foldl (fun m i => if lt m (mu i) then mu i else m) (mu 0)) := by
    intro k
    induction k with
    | zero => intro _; exact ⟨hf 0 (Nat.zero_le _), fun i hi => by omega⟩
    | succ k ih =>
      intro hk
      obtain ⟨f, h⟩ := ih (by omega)
      rw [List.range_succ, List.foldl_append]
      simp only [List.foldl_cons, List.foldl_nil]
      generalize (List.range k).foldl (fun m i => if lt m (mu i) then mu i else m) (mu 0) = r at f h ⊢
      have hfk := hf k (by omega)
      by_cases hlt : lt r (mu k) = true
      · rw [if_pos hlt]
        have := (R.lt_iff _ _ f hfk).mp hlt
        refine ⟨hfk, fun i hi => ?_⟩
        rcases Nat.lt_succ_iff_lt_or_eq.mp hi with h1 | h1
        · exact (h i h1).trans this.le
        · rw [h1]
      · rw [if_neg hlt]
        have : ¬ R.val r < R.val (mu k) := fun hc => hlt ((R.lt_iff _ _ f hfk).mpr hc)
        refine ⟨f, fun i hi => ?_⟩
        rcases Nat.lt_succ_iff_lt_or_eq.mp hi with h1 | h1
        · exact h i h1
        · rw [h1]; exact not_lt.mp this
  obtain ⟨h1, h2⟩ := key (d + 1) le_rfl
  exact ⟨h1, fun i hi => h2 i (by omega)⟩

/-- Loop invariant with rounding errors. -/
structure MnsA (R : FloatModel F) (u : ℝ) (bv : ℕ → ℝ) (d : ℕ) (mu al : ℕ → F) (delta : ℤ) : Prop where
  delta_nonneg : 0 ≤ delta
  delta_le : (2 : ℝ) ^ delta ≤ 2 * (d.factorial : ℝ)
  fmu : ∀ i ≤ d, R.finite (mu i)
  fal : ∀ i ≤ d, R.finite (al i)
  mu : ∀ i ≤ d, MApprox (1 + u) (Ex (d - i) + i) (R.val (mu i)) (exMu bv d i * (2 : ℝ) ^ delta) (exMaj bv d i * (2 : ℝ) ^ delta)
  al : ∀ i ≤ d, R.val (al i) = exAl bv d i

theorem mnsA_zero (ops : RelOps R u) (bv : ℕ → ℝ) : MnsA R u bv 0 (setC (fun _ => (zero : F)) one) (fun _ => zero) 0 where
  delta_nonneg := le_rfl
  delta_le := by simp
  fmu i hi := by
    have : i = 0 := by omega
    subst this; simpa [setC] using R.one_finite
  fal i hi := R.zero_finite
  mu i hi := by
    have : i = 0 := by omega
    subst this
    have := MApprox.exact (1 + u) (Ex (0 - 0) + 0) (by linarith [ops.u_nonneg]) 1
    simpa [setC, exMu, exMaj, sgnCoef_zero, absCoef_zero, R.val_one] using this
  al i hi := by
    have : i = 0 := by omega
    subst this
    simp [exAl, R.val_zero]

theorem mnsA_step (ops : RelOps R u) {bv : ℕ → ℝ} (hm : Monotone bv) {d : ℕ} {mu al : ℕ → F} {delta : ℤ} {bd : F}
    (hbf : R.finite bd) (hbd : R.val bd = bv d) (hG : (1 + u) ^ (d + 1) ≤ 3 / 2) (h : MnsA R u bv d mu al delta) :
    MnsA R u bv (d + 1) (stepMu d mu al bd) (intAl al (neg bd)) delta ∧
      ∀ e, e = 0 - frexpExp (maxF (d + 1) (stepMu d mu al bd)) → 0 < e → d % 16 = 0 →
        MnsA R u bv (d + 1) (fun i => ldexp (stepMu d mu al bd i) e) (intAl al (neg bd)) (delta + e) := by
  have hu := ops.u_nonneg
  have h1u : (1 : ℝ) ≤ 1 + u := by linarith
  have s0 : (0 : ℝ) < (2 : ℝ) ^ delta := zpow_pos (by norm_num) _
  set s := (2 : ℝ) ^ delta with hs
  obtain ⟨nf, nv⟩ := ops.neg bd hbf
  -- integrated coefficients
  have hfal : ∀ i ≤ d + 1, R.finite (intAl al (neg bd) i) := by
    intro i hi
    unfold intAl
    split
    · exact R.zero_finite
    · split
      · exact nf
      · exact h.fal _ (by omega)
  have hal : ∀ i ≤ d + 1, R.val (intAl al (neg bd) i) = exAl bv (d + 1) i := by
    intro i hi
    unfold intAl
    by_cases h0 : i = 0
    · subst h0; simp [exAl, R.val_zero]
    · rw [if_neg h0]
      by_cases h1 : i = 1
      · subst h1; simp [exAl, nv, hbd]
      · rw [if_neg h1, h.al _ (by omega)]
        unfold exAl
        rw [if_neg (by omega), if_neg h0, show d + 1 - i = d - (i - 1) by omega]
  have hint : ∀ i ≤ d + 1, i ≠ 0 → R.finite (intMu mu i) ∧ MApprox (1 + u) (Ex (d + 1 - i) + i) (R.val (intMu mu i))
      (exMu bv (d + 1) i * s) (exMaj bv (d + 1) i * s) := by
    intro i hi h0
    unfold intMu
    rw [if_neg h0]
    obtain ⟨of, ov⟩ := ops.ofInt (i : ℤ)
    have hi0 : (0 : ℝ) < i := by exact_mod_cast Nat.pos_of_ne_zero h0
    have ov' : R.val (ofInt (i : ℤ) : F) = (i : ℝ) := by rw [ov]; simp
    obtain ⟨df, dv⟩ := ops.div _ _ (h.fmu (i - 1) (by omega)) of (by rw [ov']; exact hi0.ne')
    refine ⟨df, ?_⟩
    rw [ov'] at dv
    have a1 := ((h.mu (i - 1) (by omega)).div hi0.le).round h1u (z := R.val (mu (i - 1) /ᶠ ofInt (i : ℤ))) (by simpa using dv)
    rw [show Ex (d - (i - 1)) + (i - 1) + 1 = Ex (d + 1 - i) + i by
      rw [show d - (i - 1) = d + 1 - i by omega]; omega] at a1
    rw [exMu_succ bv h0, exMaj_succ bv h0, div_mul_eq_mul_div, div_mul_eq_mul_div]
    exact a1
  have hint' : ∀ i ≤ d + 1, R.finite (intMu mu i) := by
    intro i hi
    by_cases h0 : i = 0
    · subst h0; simpa [intMu] using R.zero_finite
    · exact (hint i hi h0).1
  -- the new constant
  have hD : 1 ≤ Ex (d + 1) := by rw [Ex]; omega
  obtain ⟨M, hM⟩ : ∃ M, Ex (d + 1) = M + 1 := ⟨Ex (d + 1) - 1, by omega⟩
  obtain ⟨ef, ea⟩ := evalF_approx ops (d := d + 1) (M := M) (mu := intMu mu) (al := intAl al (neg bd)) (x := bd)
    (rmu := fun i => (if i = 0 then 0 else exMu bv (d + 1) i) * s) (amu := fun i => (if i = 0 then 0 else exMaj bv (d + 1) i) * s)
    (e := fun i => if i = 0 then 0 else Ex (d + 1 - i) + i) hbf hint' hfal
    (by
      intro i hi
      by_cases h0 : i = 0
      · subst h0
        have := MApprox.exact (1 + u) 0 h1u 0
        simpa [intMu, R.val_zero] using this
      · simpa [h0] using (hint i hi h0).2)
    (by
      intro i hi
      rw [← hM]
      by_cases h0 : i = 0
      · subst h0
        have := ex_step (D := d + 1) 1 le_rfl (by omega)
        simp only [if_true]
        omega
      · have := ex_step (D := d + 1) i (by omega) hi
        simp only [h0, if_false]
        omega)
  have hsum : ∀ f g : ℕ → ℝ, (∑ i ∈ range (d + 1 + 1), (f i * s) * g i) = (∑ i ∈ range (d + 1 + 1), f i * g i) * s := by
    intro f g
    rw [Finset.sum_mul]
    exact Finset.sum_congr rfl fun i _ => by ring
  have hval : ∀ i ∈ range (d + 1 + 1), R.val bd + R.val (intAl al (neg bd) i) = bv d + exAl bv (d + 1) i := by
    intro i hi
    rw [hbd, hal i (by have := Finset.mem_range.mp hi; omega)]
  have hA : ∑ i ∈ range (d + 1 + 1), (if i = 0 then 0 else exMaj bv (d + 1) i) * |bv d + exAl bv (d + 1) i| ^ i = absCoef bv (d + 1) := by
    rw [Finset.sum_range_succ', absCoef_succ, ← sum_high (absCoef bv) bv d (bv d)]
    simp only [Nat.add_eq_zero_iff, one_ne_zero, and_false, if_false, if_true, zero_mul, add_zero]
    refine Finset.sum_congr rfl fun i hi => ?_
    have hn : 0 ≤ bv d + exAl bv (d + 1) (i + 1) := by
      unfold exAl
      rw [if_neg (by omega)]
      linarith [hm (show d + 1 - (i + 1) ≤ d by omega)]
    rw [abs_of_nonneg hn]
    rfl
  have e1 : (∑ i ∈ range (d + 1 + 1), ((if i = 0 then 0 else exMu bv (d + 1) i) * s) * (R.val bd + R.val (intAl al (neg bd) i)) ^ i)
      = - sgnCoef bv (d + 1) * s := by
    rw [Finset.sum_congr rfl (fun i hi => by rw [hval i hi]), hsum, exact_const]
  have e2 : (∑ i ∈ range (d + 1 + 1), ((if i = 0 then 0 else exMaj bv (d + 1) i) * s) * |R.val bd + R.val (intAl al (neg bd) i)| ^ i)
      = absCoef bv (d + 1) * s := by
    rw [Finset.sum_congr rfl (fun i hi => by rw [hval i hi]), hsum, hA]
  rw [e1, e2, ← hM] at ea
  obtain ⟨cf, cv⟩ := ops.neg _ ef
  have hstep : ∀ i ≤ d + 1, R.finite (stepMu d mu al bd i) ∧ MApprox (1 + u) (Ex (d + 1 - i) + i) (R.val (stepMu d mu al bd i))
      (exMu bv (d + 1) i * s) (exMaj bv (d + 1) i * s) := by
    intro i hi
    unfold stepMu setC
    by_cases h0 : i = 0
    · subst h0
      rw [if_pos rfl]
      refine ⟨cf, ?_⟩
      rw [cv]
      have := ea.neg
      simpa [exMu, exMaj] using this
    · rw [if_neg h0]; exact hint i hi h0
  have hfac : (1 : ℝ) ≤ ((d + 1).factorial : ℝ) := by exact_mod_cast Nat.factorial_pos _
  have hfle : (d.factorial : ℝ) ≤ ((d + 1).factorial : ℝ) := by exact_mod_cast Nat.factorial_le (Nat.le_succ d)
  refine ⟨⟨h.delta_nonneg, h.delta_le.trans (by linarith), fun i hi => (hstep i hi).1, hfal, fun i hi => (hstep i hi).2, hal⟩, ?_⟩
  intro e he hpos _
  have hz : (2 : ℝ) ^ (delta + e) = s * (2 : ℝ) ^ e := by rw [zpow_add₀ (by norm_num)]
  have e0 : (0 : ℝ) < (2 : ℝ) ^ e := zpow_pos (by norm_num) _
  obtain ⟨mf, mv⟩ := maxF_spec (R := R) (d := d + 1) (mu := stepMu d mu al bd) (fun i hi => (hstep i hi).1)
  -- leading coefficient
  have hlead := (hstep (d + 1) le_rfl).2
  rw [show Ex (d + 1 - (d + 1)) + (d + 1) = d + 1 by simp [Ex]] at hlead
  have el : exMu bv (d + 1) (d + 1) = 1 / ((d + 1).factorial : ℝ) := by simp [exMu, sgnCoef_zero]
  have em : exMaj bv (d + 1) (d + 1) = 1 / ((d + 1).factorial : ℝ) := by simp [exMaj, absCoef_zero]
  rw [el, em] at hlead
  have hq : 0 < 1 / ((d + 1).factorial : ℝ) * s := mul_pos (by positivity) s0
  have hl2 : 1 / ((d + 1).factorial : ℝ) * s / 2 ≤ R.val (stepMu d mu al bd (d + 1)) := by
    have h1 := (abs_le.mp hlead.err).1
    have h2 : ((1 + u) ^ (d + 1) - 1) * (1 / ((d + 1).factorial : ℝ) * s) ≤ 1 / 2 * (1 / ((d + 1).factorial : ℝ) * s) :=
      mul_le_mul_of_nonneg_right (by linarith) hq.le
    linarith
  have hmax := hl2.trans (mv (d + 1) le_rfl)
  have hmpos : 0 < R.val (maxF (d + 1) (stepMu d mu al bd)) := lt_of_lt_of_le (by linarith) hmax
  have hfr := (ops.frexp _ mf hmpos.ne').2
  rw [abs_of_pos hmpos, show frexpExp (maxF (d + 1) (stepMu d mu al bd)) = -e by omega] at hfr
  have hlt : 1 / ((d + 1).factorial : ℝ) * s / 2 * (2 : ℝ) ^ e < 1 := by
    have := mul_lt_mul_of_pos_right (lt_of_le_of_lt hmax hfr) e0
    rwa [← zpow_add₀ (by norm_num), neg_add_cancel, zpow_zero] at this
  refine ⟨by have := h.delta_nonneg; omega, ?_, ?_, hfal, ?_, hal⟩
  · rw [hz]
    have h3 : s * (2 : ℝ) ^ e = 1 / ((d + 1).factorial : ℝ) * s / 2 * (2 : ℝ) ^ e * (2 * ((d + 1).factorial : ℝ)) := by
      field_simp
    rw [h3]
    have h4 := mul_le_mul_of_nonneg_right hlt.le (show 0 ≤ 2 * ((d + 1).factorial : ℝ) by linarith)
    linarith
  · intro i hi
    exact (ops.ldexp _ e (hstep i hi).1).1
  · intro i hi
    rw [(ops.ldexp _ e (hstep i hi).1).2, hz, ← mul_assoc, ← mul_assoc]
    exact (hstep i hi).2.scale e0.le

end
end CP.Spec
