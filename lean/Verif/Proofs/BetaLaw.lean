import Verif.Proofs.ExactBj
import Mathlib.RingTheory.Polynomial.Bernstein
import Mathlib.Analysis.Calculus.Deriv.Polynomial
import Mathlib.MeasureTheory.Integral.IntervalIntegral.FundThmCalculus
/-! Order statistics of uniform points are beta distributed. -/
open MeasureTheory Set
namespace CP.Spec
variable {n : ℕ}

/-- The points below `t` are exactly those with index in `T`. -/
def belowSet (t : ℝ) (T : Finset (Fin n)) : Set (Fin n → ℝ) := {x | ∀ i, x i ≤ t ↔ i ∈ T}

theorem belowSet_pi (t : ℝ) (T : Finset (Fin n)) :
    belowSet t T = Set.pi univ fun i => if i ∈ T then Iic t else Ioi t := by
  ext x
  unfold belowSet
  simp only [Set.mem_ofPred_eq, Set.mem_pi, mem_univ, true_implies]
  refine forall_congr' fun i => ?_
  by_cases h : i ∈ T <;> simp [h]

theorem unif_Iic {t : ℝ} (h0 : 0 ≤ t) (h1 : t ≤ 1) : unif.real (Iic t) = t := by
  unfold unif Measure.real
  rw [Measure.restrict_apply measurableSet_Iic]
  have : Iic t ∩ Icc 0 1 = Icc 0 t := by
    ext y; simp only [Set.mem_inter_iff, Set.mem_Iic, Set.mem_Icc]
    constructor
    · rintro ⟨a, b, c⟩; exact ⟨b, a⟩
    · rintro ⟨a, b⟩; exact ⟨b, a, b.trans h1⟩
  rw [this, Real.volume_Icc, sub_zero, ENNReal.toReal_ofReal h0]

theorem unif_Ioi {t : ℝ} (h0 : 0 ≤ t) (h1 : t ≤ 1) : unif.real (Ioi t) = 1 - t := by
  have h := probReal_compl_eq_one_sub (μ := unif) (measurableSet_Iic (a := t))
  rwa [compl_Iic, unif_Iic h0 h1] at h

theorem belowSet_prob {t : ℝ} (h0 : 0 ≤ t) (h1 : t ≤ 1) (T : Finset (Fin n)) :
    (iidUniform n).real (belowSet t T) = t ^ T.card * (1 - t) ^ (n - T.card) := by
  rw [belowSet_pi, iid_pi]
  have e : ∀ i : Fin n, unif.real (if i ∈ T then Iic t else Ioi t) = if i ∈ T then t else 1 - t := by
    intro i
    split
    · exact unif_Iic h0 h1
    · exact unif_Ioi h0 h1
  rw [Finset.prod_congr rfl fun i _ => e i, Finset.prod_ite, Finset.prod_const, Finset.prod_const]
  have c1 : (Finset.univ.filter fun i => i ∈ T) = T := by ext; simp
  have c2 : (Finset.univ.filter fun i => i ∉ T).card = n - T.card := by
    have : (Finset.univ.filter fun i => i ∉ T) = Tᶜ := by ext; simp
    rw [this, Finset.card_compl, Fintype.card_fin]
  rw [c1, c2]

/-- The number of points below `t` is binomial. -/
theorem count_prob {t : ℝ} (h0 : 0 ≤ t) (h1 : t ≤ 1) (k : ℕ) :
    (iidUniform n).real {x | count t x = k} = (bernsteinPolynomial ℝ n k).eval t := by
  have e : {x : Fin n → ℝ | count t x = k} = ⋃ T ∈ Finset.powersetCard k (Finset.univ : Finset (Fin n)), belowSet t T := by
    ext x
    simp only [Set.mem_ofPred_eq, mem_iUnion, Finset.mem_powersetCard, exists_prop]
    constructor
    · intro h
      exact ⟨Finset.univ.filter fun i => x i ≤ t, ⟨Finset.subset_univ _, h⟩, fun i => by simp⟩
    · rintro ⟨T, ⟨-, hT⟩, hx⟩
      unfold count
      rw [← hT]
      congr 1
      ext i
      simpa using hx i
  rw [e, measureReal_biUnion_finset]
  · rw [Finset.sum_congr rfl fun T hT => by
      rw [belowSet_prob h0 h1 T, (Finset.mem_powersetCard.mp hT).2], Finset.sum_const, Finset.card_powersetCard,
      Finset.card_univ, Fintype.card_fin]
    simp [bernsteinPolynomial]
    ring
  · intro S _ T _ hST
    rw [Function.onFun, Set.disjoint_left]
    intro x hS hT
    apply hST
    ext i
    exact (hS i).symm.trans (hT i)
  · intro T _
    rw [belowSet_pi]
    refine MeasurableSet.univ_pi fun i => ?_
    split
    · exact measurableSet_Iic
    · exact measurableSet_Ioi

/-- The distribution function of an order statistic is a binomial tail. -/
theorem orderCdf_eq_tail (i : Fin n) {t : ℝ} (h0 : 0 ≤ t) (h1 : t ≤ 1) :
    orderCdf n i t = ∑ k ∈ Finset.Ico ((i : ℕ) + 1) (n + 1), (bernsteinPolynomial ℝ n k).eval t := by
  unfold orderCdf
  have e : {u : Fin n → ℝ | orderStat u i ≤ t} = ⋃ k ∈ Finset.Ico ((i : ℕ) + 1) (n + 1), {x | count t x = k} := by
    ext x
    simp only [Set.mem_ofPred_eq, mem_iUnion, Finset.mem_Ico, exists_prop]
    rw [orderStat_le_iff]
    have := count_le t x
    constructor
    · intro h; exact ⟨_, ⟨by omega, by omega⟩, rfl⟩
    · rintro ⟨k, ⟨ha, hb⟩, hc⟩; omega
  rw [e, measureReal_biUnion_finset]
  · exact Finset.sum_congr rfl fun k _ => count_prob h0 h1 k
  · intro k _ l _ hkl
    rw [Function.onFun, Set.disjoint_left]
    intro x hk hl
    exact hkl (hk.symm.trans hl)
  · intro k _
    exact measurable_count t (MeasurableSet.of_discrete (s := {k}))

/-- The derivative of the binomial tail telescopes. -/
theorem tail_deriv (n i : ℕ) (hi : i < n) :
    Polynomial.derivative (∑ k ∈ Finset.Ico (i + 1) (n + 1), bernsteinPolynomial ℝ n k)
      = (n : Polynomial ℝ) * bernsteinPolynomial ℝ (n - 1) i := by
  rw [Polynomial.derivative_sum]
  have h : ∀ m, i + 1 ≤ m → m ≤ n + 1 →
      ∑ k ∈ Finset.Ico (i + 1) m, Polynomial.derivative (bernsteinPolynomial ℝ n k)
        = (n : Polynomial ℝ) * (bernsteinPolynomial ℝ (n - 1) i - bernsteinPolynomial ℝ (n - 1) (m - 1)) := by
    intro m hm
    induction m, hm using Nat.le_induction with
    | base => intro _; simp
    | succ m hm ih =>
      intro hmn
      obtain ⟨m', rfl⟩ : ∃ m', m = m' + 1 := ⟨m - 1, by omega⟩
      rw [Finset.sum_Ico_succ_top (by omega), ih (by omega), bernsteinPolynomial.derivative_succ]
      simp only [Nat.add_sub_cancel]
      ring
  rw [h (n + 1) (by omega) le_rfl]
  have : bernsteinPolynomial ℝ (n - 1) (n + 1 - 1) = 0 := by
    rw [bernsteinPolynomial, Nat.choose_eq_zero_of_lt (by omega)]; simp
  rw [this, sub_zero]

theorem tail_integral (i : Fin n) {x : ℝ} (h0 : 0 ≤ x) (h1 : x ≤ 1) :
    (n : ℝ) * (n - 1).choose i * ∫ t in (0 : ℝ)..x, t ^ (i : ℕ) * (1 - t) ^ (n - 1 - i) = orderCdf n i x := by
  set P := ∑ k ∈ Finset.Ico ((i : ℕ) + 1) (n + 1), bernsteinPolynomial ℝ n k with hP
  have hev : ∀ t, 0 ≤ t → t ≤ 1 → orderCdf n i t = P.eval t := by
    intro t a b
    rw [orderCdf_eq_tail i a b, hP, Polynomial.eval_finsetSum]
  have hint : ∫ t in (0 : ℝ)..x, (Polynomial.derivative P).eval t = P.eval x - P.eval 0 := by
    refine intervalIntegral.integral_eq_sub_of_hasDerivAt (fun t _ => P.hasDerivAt t) ?_
    exact (Polynomial.differentiable _).continuous.intervalIntegrable _ _
  rw [← hev x h0 h1, ← hev 0 le_rfl zero_le_one, orderCdf_zero, sub_zero] at hint
  rw [← hint, hP, tail_deriv n i i.2, ← intervalIntegral.integral_const_mul]
  congr 1
  funext t
  simp [bernsteinPolynomial]
  ring

/-- The `i`-th smallest of `n` uniform points (`i` counting from 0) is Beta(i+1, n-i) distributed. -/
theorem orderCdf_eq_beta (i : Fin n) {x : ℝ} (h0 : 0 ≤ x) (h1 : x ≤ 1) :
    orderCdf n i x = regIncBeta (i + 1) (n - i) x := by
  have hx := tail_integral i h0 h1
  have h1' := tail_integral i zero_le_one (le_refl (1 : ℝ))
  rw [orderCdf_one] at h1'
  unfold regIncBeta
  rw [Nat.add_sub_cancel, show n - (i : ℕ) - 1 = n - 1 - i by omega]
  have hne : ∫ t in (0 : ℝ)..1, t ^ (i : ℕ) * (1 - t) ^ (n - 1 - i) ≠ 0 := by
    intro h; rw [h, mul_zero] at h1'; exact zero_ne_one h1'
  rw [eq_div_iff hne, ← hx]
  linear_combination (∫ t in (0 : ℝ)..x, t ^ (i : ℕ) * (1 - t) ^ (n - 1 - i)) * h1'

end CP.Spec
