import Verif.Proofs.FpModel
/-! Rounding to `p` bits is monotone on non-negative numbers. -/
namespace CP.Spec

theorem roundTo_zero (p : ℕ) : roundTo p 0 = 0 := by simp [roundTo]

theorem round_of_eq_int {x : ℝ} {z : ℤ} (h : x = z) : round x = z := by rw [h]; exact round_intCast z

theorem round_mono {x y : ℝ} (h : x ≤ y) : round x ≤ round y := by
  rw [round_eq, round_eq]; exact Int.floor_mono (by linarith)

theorem round_le_of_le_int {x : ℝ} {z : ℤ} (h : x ≤ z) : round x ≤ z := by
  have := round_mono h
  rwa [round_intCast] at this

theorem le_round_of_int_le {x : ℝ} {z : ℤ} (h : (z : ℝ) ≤ x) : z ≤ round x := by
  have := round_mono h
  rwa [round_intCast] at this

/-- Rounding does not leave the binade upwards beyond the next power of two. -/
theorem roundTo_le_pow {p : ℕ} {x : ℝ} (hx : 0 < x) : roundTo p x ≤ (2 : ℝ) ^ (Int.log 2 x + 1) := by
  unfold roundTo
  rw [abs_of_pos hx]
  set e := Int.log 2 x with he
  have hs : (0 : ℝ) < 2 ^ (e - p + 1) := by positivity
  have h1 : x < (2 : ℝ) ^ (e + 1) := by
    have := Int.lt_zpow_succ_log_self (b := 2) (by norm_num) x
    simpa using this
  have h2 : x / (2 : ℝ) ^ (e - p + 1) ≤ ((2 ^ p : ℤ) : ℝ) := by
    rw [div_le_iff₀ hs]
    push_cast
    rw [← zpow_natCast, ← zpow_add₀ (by norm_num)]
    refine h1.le.trans (le_of_eq ?_)
    congr 1; ring
  have h3 : ((round (x / (2 : ℝ) ^ (e - p + 1)) : ℤ) : ℝ) ≤ ((2 ^ p : ℤ) : ℝ) := by exact_mod_cast round_le_of_le_int h2
  refine (mul_le_mul_of_nonneg_right h3 hs.le).trans (le_of_eq ?_)
  push_cast
  rw [← zpow_natCast, ← zpow_add₀ (by norm_num)]
  congr 1; ring

/-- Rounding does not go below the power of two that starts the binade. -/
theorem pow_le_roundTo {p : ℕ} (hp : 1 ≤ p) {x : ℝ} (hx : 0 < x) : (2 : ℝ) ^ (Int.log 2 x) ≤ roundTo p x := by
  unfold roundTo
  rw [abs_of_pos hx]
  set e := Int.log 2 x with he
  have hs : (0 : ℝ) < 2 ^ (e - p + 1) := by positivity
  have h1 : (2 : ℝ) ^ e ≤ x := by
    have := Int.zpow_log_le_self (b := 2) (by norm_num) hx
    simpa using this
  have e1 : ((2 ^ (p - 1) : ℤ) : ℝ) * (2 : ℝ) ^ (e - p + 1) = 2 ^ e := by
    push_cast
    rw [← zpow_natCast, ← zpow_add₀ (by norm_num)]
    congr 1; omega
  have h2 : ((2 ^ (p - 1) : ℤ) : ℝ) ≤ x / (2 : ℝ) ^ (e - p + 1) := by
    rw [le_div_iff₀ hs, e1]; exact h1
  have h3 : ((2 ^ (p - 1) : ℤ) : ℝ) ≤ ((round (x / (2 : ℝ) ^ (e - p + 1)) : ℤ) : ℝ) := by exact_mod_cast le_round_of_int_le h2
  rw [← e1]
  exact mul_le_mul_of_nonneg_right h3 hs.le

/-- Rounding is monotone. -/
theorem roundTo_mono {p : ℕ} (hp : 1 ≤ p) {x y : ℝ} (hx : 0 ≤ x) (hxy : x ≤ y) : roundTo p x ≤ roundTo p y := by
  rcases hx.eq_or_lt with rfl | hx
  · rw [roundTo_zero]
    rcases hxy.eq_or_lt with rfl | hy
    · rw [roundTo_zero]
    · exact le_trans (by positivity) (pow_le_roundTo hp hy)
  have hy := hx.trans_le hxy
  rcases (Int.log_mono_right (b := 2) hx hxy).eq_or_lt with h | h
  · unfold roundTo
    rw [abs_of_pos hx, abs_of_pos hy, h]
    have hs : (0 : ℝ) < 2 ^ (Int.log 2 y - p + 1) := by positivity
    refine mul_le_mul_of_nonneg_right ?_ hs.le
    exact_mod_cast round_mono (div_le_div_of_nonneg_right hxy hs.le)
  · refine (roundTo_le_pow hx).trans (le_trans ?_ (pow_le_roundTo hp hy))
    exact zpow_le_zpow_right₀ (by norm_num) (by omega)

/-- 1 is a `p`-bit number. -/
theorem roundTo_one {p : ℕ} (hp : 1 ≤ p) : roundTo p 1 = 1 := by
  unfold roundTo
  rw [abs_one, Int.log_one_right]
  have hs : (0 : ℝ) < 2 ^ ((0 : ℤ) - p + 1) := by positivity
  have e1 : ((2 ^ (p - 1) : ℤ) : ℝ) * (2 : ℝ) ^ ((0 : ℤ) - p + 1) = 1 := by
    push_cast
    rw [← zpow_natCast, ← zpow_add₀ (by norm_num)]
    rw [show ((p - 1 : ℕ) : ℤ) + (0 - p + 1) = 0 by omega, zpow_zero]
  rw [round_of_eq_int (z := 2 ^ (p - 1)) (by rw [eq_comm, eq_div_iff hs.ne']; exact e1.symm ▸ rfl)]
  exact e1

end CP.Spec
