import Verif.FftAccSpec
import Verif.Proofs.FftExact
import Mathlib.Algebra.Order.Chebyshev
/-
Sums of absolute values, Euclidean norms, Parseval's identity for the transforms of the FFT library.
-/
open Finset
namespace CP.Spec
noncomputable section

/-! ### `l1` -/

theorem l1_nonneg (m : ℕ) (f : ℕ → ℝ) : 0 ≤ l1 m f := Finset.sum_nonneg fun _ _ => abs_nonneg _

theorem l1_congr {m : ℕ} {f g : ℕ → ℝ} (h : ∀ i < m, f i = g i) : l1 m f = l1 m g :=
  Finset.sum_congr rfl fun i hi => by rw [h i (Finset.mem_range.mp hi)]

theorem l1_mono {m : ℕ} {f g : ℕ → ℝ} (h : ∀ i < m, |f i| ≤ |g i|) : l1 m f ≤ l1 m g :=
  Finset.sum_le_sum fun i hi => h i (Finset.mem_range.mp hi)

theorem l1_add (m : ℕ) (f g : ℕ → ℝ) : l1 m (fun i => f i + g i) ≤ l1 m f + l1 m g := by
  unfold l1; rw [← Finset.sum_add_distrib]; exact Finset.sum_le_sum fun i _ => abs_add_le _ _

theorem l1_sub (m : ℕ) (f g : ℕ → ℝ) : l1 m (fun i => f i - g i) ≤ l1 m f + l1 m g := by
  unfold l1; rw [← Finset.sum_add_distrib]; exact Finset.sum_le_sum fun i _ => abs_sub _ _

theorem abs_le_l1 {m : ℕ} (f : ℕ → ℝ) {i : ℕ} (hi : i < m) : |f i| ≤ l1 m f :=
  Finset.single_le_sum (f := fun i => |f i|) (fun _ _ => abs_nonneg _) (Finset.mem_range.mpr hi)

/-- The first `m` terms of the product of two sequences of coefficients. -/
def cnv (a b : ℕ → ℝ) (j : ℕ) : ℝ := ∑ k ∈ range (j + 1), a k * b (j - k)

theorem l1_cnv (a b : ℕ → ℝ) (m : ℕ) : l1 m (cnv a b) ≤ l1 m a * l1 m b := by
  have h1 : l1 m (cnv a b) ≤ ∑ j ∈ range m, ∑ k ∈ range (j + 1), |a k| * |b (j - k)| := by
    refine Finset.sum_le_sum fun j _ => (Finset.abs_sum_le_sum_abs _ _).trans ?_
    exact le_of_eq (Finset.sum_congr rfl fun k _ => abs_mul _ _)
  have h2 : ∑ j ∈ range m, ∑ k ∈ range (j + 1), |a k| * |b (j - k)|
      = ∑ k ∈ range m, ∑ j ∈ Ico k m, |a k| * |b (j - k)| := by
    refine Finset.sum_comm' fun j k => ?_
    simp only [Finset.mem_range, Finset.mem_Ico]
    omega
  rw [h2] at h1
  refine h1.trans ?_
  unfold l1
  rw [Finset.sum_mul]
  refine Finset.sum_le_sum fun k _ => ?_
  rw [← Finset.mul_sum]
  refine mul_le_mul_of_nonneg_left ?_ (abs_nonneg _)
  rw [Finset.sum_Ico_eq_sum_range]
  have e : ∀ i ∈ range (m - k), |b (k + i - k)| = |b i| := fun i _ => by rw [Nat.add_sub_cancel_left]
  rw [Finset.sum_congr rfl e]
  exact Finset.sum_le_sum_of_subset_of_nonneg (Finset.range_mono (Nat.sub_le _ _)) fun _ _ _ => abs_nonneg _

/-! ### `l2` -/
section l2
variable {E : Type} [SeminormedAddCommGroup E]

theorem l2_nonneg (m : ℕ) (f : ℕ → E) : 0 ≤ l2 m f := Real.sqrt_nonneg _

theorem l2_sq (m : ℕ) (f : ℕ → E) : l2 m f ^ 2 = ∑ i ∈ range m, ‖f i‖ ^ 2 :=
  Real.sq_sqrt (Finset.sum_nonneg fun _ _ => by positivity)

theorem l2_eq_norm (m : ℕ) (f : ℕ → E) : l2 m f = ‖(WithLp.toLp 2 fun i : Fin m => f i : PiLp 2 fun _ : Fin m => E)‖ := by
  rw [PiLp.norm_eq_of_L2]
  unfold l2
  rw [Finset.sum_range]

theorem l2_add (m : ℕ) (f g : ℕ → E) : l2 m (fun i => f i + g i) ≤ l2 m f + l2 m g := by
  rw [l2_eq_norm, l2_eq_norm, l2_eq_norm]
  exact norm_add_le (WithLp.toLp 2 fun i : Fin m => f i : PiLp 2 fun _ : Fin m => E) (WithLp.toLp 2 fun i : Fin m => g i)

theorem l2_mono {E' : Type} [SeminormedAddCommGroup E'] {m : ℕ} {f : ℕ → E} {g : ℕ → E'} (h : ∀ i < m, ‖f i‖ ≤ ‖g i‖) :
    l2 m f ≤ l2 m g :=
  Real.sqrt_le_sqrt (Finset.sum_le_sum fun i hi => pow_le_pow_left₀ (norm_nonneg _) (h i (Finset.mem_range.mp hi)) 2)

theorem l2_congr {E' : Type} [SeminormedAddCommGroup E'] {m : ℕ} {f : ℕ → E} {g : ℕ → E'} (h : ∀ i < m, ‖f i‖ = ‖g i‖) :
    l2 m f = l2 m g :=
  le_antisymm (l2_mono fun i hi => (h i hi).le) (l2_mono fun i hi => (h i hi).ge)

theorem l2_norm (m : ℕ) (f : ℕ → E) : l2 m (fun i => ‖f i‖) = l2 m f := l2_congr fun _ _ => norm_norm _

theorem l2_len {m m' : ℕ} (h : m ≤ m') (f : ℕ → E) : l2 m f ≤ l2 m' f :=
  Real.sqrt_le_sqrt (Finset.sum_le_sum_of_subset_of_nonneg (Finset.range_mono h) fun _ _ _ => by positivity)

theorem l2_smul (m : ℕ) {c : ℝ} (hc : 0 ≤ c) (f : ℕ → ℝ) : l2 m (fun i => c * f i) = c * l2 m f := by
  unfold l2
  have : ∀ i ∈ range m, ‖c * f i‖ ^ 2 = c ^ 2 * ‖f i‖ ^ 2 := fun i _ => by
    rw [norm_mul, mul_pow, Real.norm_eq_abs, sq_abs]
  rw [Finset.sum_congr rfl this, ← Finset.mul_sum, Real.sqrt_mul (by positivity), Real.sqrt_sq hc]

theorem l2_const (m : ℕ) {c : ℝ} (hc : 0 ≤ c) : l2 m (fun _ => c) = √m * c := by
  unfold l2
  rw [Finset.sum_const, Finset.card_range, nsmul_eq_mul, Real.sqrt_mul (Nat.cast_nonneg _), Real.norm_of_nonneg hc,
    Real.sqrt_sq hc]

theorem norm_le_l2 {m : ℕ} (f : ℕ → E) {i : ℕ} (hi : i < m) : ‖f i‖ ≤ l2 m f := by
  refine Real.le_sqrt_of_sq_le ?_
  exact Finset.single_le_sum (f := fun i => ‖f i‖ ^ 2) (fun _ _ => by positivity) (Finset.mem_range.mpr hi)

theorem l2_le_bound {m : ℕ} {f : ℕ → E} {c : ℝ} (hc : 0 ≤ c) (h : ∀ i < m, ‖f i‖ ≤ c) : l2 m f ≤ √m * c := by
  rw [← l2_const m hc]
  exact l2_mono fun i hi => by rw [Real.norm_of_nonneg hc]; exact h i hi

end l2

theorem l2_le_l1 (m : ℕ) (f : ℕ → ℝ) : l2 m f ≤ l1 m f := by
  unfold l2
  rw [Real.sqrt_le_left (l1_nonneg m f)]
  unfold l1
  simp only [Real.norm_eq_abs]
  exact Finset.sum_sq_le_sq_sum_of_nonneg fun _ _ => abs_nonneg _

theorem l1_le_l2 (m : ℕ) (f : ℕ → ℝ) : l1 m f ≤ √m * l2 m f := by
  unfold l2
  rw [← Real.sqrt_mul (Nat.cast_nonneg _)]
  refine Real.le_sqrt_of_sq_le ?_
  unfold l1
  have := sq_sum_le_card_mul_sum_sq (s := range m) (f := fun i => |f i|)
  rw [Finset.card_range] at this
  simpa only [Real.norm_eq_abs] using this

/-- A product whose one factor is bounded. -/
theorem l2_mul_bound {m : ℕ} {f g : ℕ → ℂ} {c : ℝ} (hc : 0 ≤ c) (h : ∀ i < m, ‖g i‖ ≤ c) :
    l2 m (fun i => f i * g i) ≤ l2 m f * c := by
  rw [← l2_norm m f, mul_comm, ← l2_smul m hc]
  refine l2_mono fun i hi => ?_
  rw [norm_mul, norm_mul, Real.norm_of_nonneg hc, norm_norm, mul_comm]
  exact mul_le_mul_of_nonneg_right (h i hi) (norm_nonneg _)

/-! ### The transforms -/

theorem dft_norm_le (N : ℕ) (x : ℕ → ℝ) (k : ℕ) : ‖dft N (fun j => (x j : ℂ)) k‖ ≤ l1 N x := by
  rw [dft_zpow]
  refine (norm_sum_le _ _).trans (le_of_eq ?_)
  refine Finset.sum_congr rfl fun j _ => ?_
  have hw : ‖Complex.exp (2 * Real.pi * Complex.I / N)‖ = 1 := by
    have e : (2 * Real.pi * Complex.I / N : ℂ) = ((2 * Real.pi / N : ℝ) : ℂ) * Complex.I := by push_cast; ring
    rw [e, Complex.norm_exp_ofReal_mul_I]
  rw [norm_mul, norm_zpow, hw, one_zpow, mul_one, Complex.norm_real, Real.norm_eq_abs]

/-- Parseval's identity. -/
theorem parseval {N : ℕ} (hN : N ≠ 0) (H : ℕ → ℂ) :
    ∑ j ∈ range N, ‖∑ k ∈ range N, H k * (Complex.exp (2 * Real.pi * Complex.I / N)) ^ ((j : ℤ) * k)‖ ^ 2
      = N * ∑ k ∈ range N, ‖H k‖ ^ 2 := by
  set w := Complex.exp (2 * Real.pi * Complex.I / N) with hw
  have hne : w ≠ 0 := Complex.exp_ne_zero _
  have hc := conj_w N
  rw [← hw] at hc
  have key : ((∑ j ∈ range N, ‖∑ k ∈ range N, H k * w ^ ((j : ℤ) * k)‖ ^ 2 : ℝ) : ℂ)
      = ((N * ∑ k ∈ range N, ‖H k‖ ^ 2 : ℝ) : ℂ) := by
    push_cast
    have e1 : ∀ j ∈ range N, ((‖∑ k ∈ range N, H k * w ^ ((j : ℤ) * k)‖ : ℂ)) ^ 2
        = ∑ k ∈ range N, ∑ l ∈ range N, H k * (starRingEnd ℂ) (H l) * w ^ (((k : ℤ) - l) * (j : ℤ)) := by
      intro j _
      rw [← Complex.mul_conj', map_sum, Finset.sum_mul_sum]
      refine Finset.sum_congr rfl fun k _ => Finset.sum_congr rfl fun l _ => ?_
      rw [map_mul, map_zpow₀, hc, inv_zpow', sub_mul, zpow_sub₀ hne, zpow_neg, mul_comm (k : ℤ), mul_comm (l : ℤ)]
      rw [div_eq_mul_inv]; ring
    rw [Finset.sum_congr rfl e1, Finset.sum_comm, Finset.mul_sum]
    refine Finset.sum_congr rfl fun k hk => ?_
    rw [Finset.sum_comm]
    have hk' := Finset.mem_range.mp hk
    have e2 : ∀ l ∈ range N, ∑ j ∈ range N, H k * (starRingEnd ℂ) (H l) * w ^ (((k : ℤ) - l) * (j : ℤ))
        = if l = k then (N : ℂ) * (‖H k‖ : ℂ) ^ 2 else 0 := by
      intro l hl
      have hl' := Finset.mem_range.mp hl
      rw [← Finset.mul_sum, orth hN (by rw [abs_lt]; constructor <;> omega)]
      by_cases h : l = k
      · subst h; rw [if_pos (by omega), if_pos rfl, Complex.mul_conj']; ring
      · rw [if_neg (by omega), if_neg h, mul_zero]
    rw [Finset.sum_congr rfl e2, Finset.sum_ite_eq' (range N) k, if_pos hk]
  exact_mod_cast key

theorem backward_zpow {N : ℕ} (Y : ℕ → ℂ) (j : ℕ) :
    backward N Y j = (∑ k ∈ range N, hermitian N Y k * (Complex.exp (2 * Real.pi * Complex.I / N)) ^ ((j : ℤ) * k)).re := by
  unfold backward
  congr 1
  refine Finset.sum_congr rfl fun k _ => ?_
  rw [← exp_eq_zpow]
  push_cast; rfl

theorem l2_backward {N : ℕ} (hN : N ≠ 0) (Y : ℕ → ℂ) : l2 N (backward N Y) ≤ √N * l2 N (hermitian N Y) := by
  unfold l2
  rw [← Real.sqrt_mul (Nat.cast_nonneg _), ← parseval hN]
  refine Real.sqrt_le_sqrt (Finset.sum_le_sum fun j _ => pow_le_pow_left₀ (norm_nonneg _) ?_ 2)
  rw [backward_zpow, Real.norm_eq_abs]
  exact Complex.abs_re_le_norm _

theorem l2_hermitian (N : ℕ) (Y : ℕ → ℂ) : l2 N (hermitian N Y) ≤ √2 * l2 (N / 2 + 1) Y := by
  unfold l2
  rw [← Real.sqrt_mul (by norm_num)]
  refine Real.sqrt_le_sqrt ?_
  by_cases hN : N = 0
  · subst hN; simp
  have e : N = (N / 2 + 1) + (N - (N / 2 + 1)) := by omega
  have hs : ∑ i ∈ range N, ‖hermitian N Y i‖ ^ 2
      = ∑ i ∈ range (N / 2 + 1), ‖hermitian N Y i‖ ^ 2 + ∑ i ∈ range (N - (N / 2 + 1)), ‖hermitian N Y (N / 2 + 1 + i)‖ ^ 2 := by
    conv_lhs => rw [e]
    rw [Finset.sum_range_add]
    congr 1 <;> refine Finset.sum_congr rfl fun i _ => ?_ <;> rw [← e]
  rw [hs, two_mul]
  refine add_le_add (le_of_eq ?_) ?_
  · refine Finset.sum_congr rfl fun i hi => ?_
    have := Finset.mem_range.mp hi
    unfold hermitian
    rw [if_pos (by omega)]
  · have h2 : ∑ i ∈ range (N - (N / 2 + 1)), ‖hermitian N Y (N / 2 + 1 + i)‖ ^ 2
        = ∑ i ∈ range (N - (N / 2 + 1)), ‖Y (1 + i)‖ ^ 2 := by
      rw [← Finset.sum_range_reflect (fun i => ‖Y (1 + i)‖ ^ 2)]
      refine Finset.sum_congr rfl fun i hi => ?_
      have := Finset.mem_range.mp hi
      unfold hermitian
      rw [if_neg (by omega), RCLike.norm_conj]
      congr 3; omega
    rw [h2]
    have h3 := Finset.sum_range_succ' (fun i => ‖Y i‖ ^ 2) (N / 2)
    rw [h3]
    have h4 : ∑ i ∈ range (N - (N / 2 + 1)), ‖Y (1 + i)‖ ^ 2 ≤ ∑ i ∈ range (N / 2), ‖Y (i + 1)‖ ^ 2 := by
      have e5 : ∀ i ∈ range (N - (N / 2 + 1)), ‖Y (1 + i)‖ ^ 2 = ‖Y (i + 1)‖ ^ 2 := fun i _ => by rw [Nat.add_comm]
      rw [Finset.sum_congr rfl e5]
      exact Finset.sum_le_sum_of_subset_of_nonneg (Finset.range_mono (by omega)) fun _ _ _ => by positivity
    have : 0 ≤ ‖Y 0‖ ^ 2 := by positivity
    linarith

theorem hermitian_sub (N : ℕ) (Y Z : ℕ → ℂ) (k : ℕ) :
    hermitian N (fun k => Y k - Z k) k = hermitian N Y k - hermitian N Z k := by
  unfold hermitian; split <;> simp

theorem backward_sub (N : ℕ) (Y Z : ℕ → ℂ) (j : ℕ) :
    backward N (fun k => Y k - Z k) j = backward N Y j - backward N Z j := by
  unfold backward
  rw [← Complex.sub_re, ← Finset.sum_sub_distrib]
  congr 1
  refine Finset.sum_congr rfl fun k _ => ?_
  rw [hermitian_sub, sub_mul]

end
end CP.Spec
