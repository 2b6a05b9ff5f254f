import Verif.Model.Int32
import Verif.Proofs.MonteCarlo
/-
Property C40: the size computations in 32-bit arithmetic.
-/
namespace CP.Props
open CP

theorem bmod_cases (x : ℤ) : wrap32 x = x - (x + 2 ^ 31) / 2 ^ 32 * 2 ^ 32 := by
  unfold wrap32
  have h := Int.bmod_def x (2 ^ 32)
  norm_num at h ⊢
  rw [h]
  split <;> omega

/-- The largest convolution size whose padded size fits into an `int`. -/
def maxSize32 : ℤ := 2 ^ 30 - 1024

/-- C40: up to size 2^30-1024 no size computation overflows: the padded size, the number of plans, the plan
index and the size guard computed in 32-bit arithmetic are the mathematical values (those of the model used
in all other theorems), and the padded size is a multiple of the rounding between `2*size` and `2*size+2047`. -/
theorem C40_no_overflow (m : ℤ) (h0 : 1 ≤ m) (h1 : m ≤ maxSize32) :
    paddedSize32 m = roundUp (2 * m) ROUNDING ∧
    numPlans32 m = (roundUp (2 * m) ROUNDING).tdiv ROUNDING ∧
    planIndex32 (paddedSize32 m) = (roundUp (2 * m) ROUNDING).tdiv ROUNDING - 1 ∧
    guardSize32 m = m + 2047 ∧
    2 * m ≤ paddedSize32 m ∧ paddedSize32 m ≤ 2 * m + 2047 ∧ (2048 : ℤ) ∣ paddedSize32 m := by
  unfold maxSize32 at h1
  have hq : (2 * m + 2048 - 1).tdiv 2048 = (2 * m + 2048 - 1) / 2048 := Int.tdiv_eq_ediv_of_nonneg (by omega)
  have hp : paddedSize32 m = (2 * m + 2048 - 1) / 2048 * 2048 := by
    unfold paddedSize32 roundUp32 ROUNDING
    have e1 : wrap32 (2 * m) = 2 * m := by rw [bmod_cases]; omega
    rw [e1]
    have e3 : wrap32 (wrap32 (2 * m + 2048) - 1) = 2 * m + 2048 - 1 := by
      rw [bmod_cases, bmod_cases]; omega
    rw [e3, hq, bmod_cases]
    omega
  have hr : roundUp (2 * m) ROUNDING = (2 * m + 2048 - 1) / 2048 * 2048 := by
    unfold roundUp ROUNDING; rw [hq]
  refine ⟨by rw [hp, hr], by unfold numPlans32; rw [hp, hr], ?_, ?_, by rw [hp]; omega, by rw [hp]; omega, ?_⟩
  · unfold planIndex32
    rw [hp, hr]
    unfold ROUNDING
    rw [Int.tdiv_eq_ediv_of_nonneg (by omega), bmod_cases]
    omega
  · unfold guardSize32 ROUNDING
    rw [bmod_cases, bmod_cases]
    omega
  · rw [hp]
    exact Dvd.intro_left _ rfl

/-- C40: from size 2^30-1023 on the computed padded size is smaller than twice the size: the work arrays could not
hold the zero-padded inputs. -/
theorem C40_overflow (m : ℤ) (h0 : maxSize32 < m) (h1 : m ≤ 2 ^ 31 - 1) :
    paddedSize32 m < 2 * m ∧ paddedSize32 m ≠ roundUp (2 * m) ROUNDING := by
  unfold maxSize32 at h0
  have hlt : paddedSize32 m < 2 * m := by
    by_cases hm : 2 ^ 30 ≤ m
    · have : paddedSize32 m ≤ INT_MAX := wrap32_le _
      unfold INT_MAX at this
      omega
    · unfold paddedSize32 roundUp32 ROUNDING
      have e1 : wrap32 (2 * m) = 2 * m := by rw [bmod_cases]; omega
      rw [e1]
      have e3 : wrap32 (wrap32 (2 * m + 2048) - 1) = 2 * m + 2048 - 1 - 2 ^ 32 := by
        rw [bmod_cases, bmod_cases]; omega
      rw [e3]
      have hneg : (2 * m + 2048 - 1 - 2 ^ 32).tdiv 2048 = -((2 ^ 32 - (2 * m + 2048 - 1)) / 2048) := by
        have : (2 * m + 2048 - 1 - 2 ^ 32) = -(2 ^ 32 - (2 * m + 2048 - 1)) := by ring
        rw [this, Int.neg_tdiv, Int.tdiv_eq_ediv_of_nonneg (by omega)]
      rw [hneg, bmod_cases]
      omega
  refine ⟨hlt, fun h => ?_⟩
  rw [h] at hlt
  unfold roundUp ROUNDING at hlt
  rw [Int.tdiv_eq_ediv_of_nonneg (by omega)] at hlt
  omega

/-- The first overflowing size gives a negative array size. -/
example : paddedSize32 (2 ^ 30 - 1023) = -2147481600 ∧ paddedSize32 (2 ^ 30 - 1024) = 2147481600 := by
  constructor <;> decide

/-- The sizes used for a sample of a million points are far below the limit. -/
example : paddedSize32 1000001 = 2000896 := (C40_no_overflow 1000001 (by norm_num) (by decide)).1.trans (by decide)

end CP.Props
