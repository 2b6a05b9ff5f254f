import Verif.DigitSpec
import Verif.Proofs.Output
/-! Uniqueness of six-digit rounding away from ties. -/
namespace CP.Spec

theorem zpow10_mono {a b : ℤ} (h : a ≤ b) : (10 : ℝ) ^ a ≤ (10 : ℝ) ^ b := zpow_le_zpow_right₀ (by norm_num) h

theorem zpow10_exp {v : ℝ} {e X : ℤ} (h1 : (10 : ℝ) ^ e ≤ v) (h2 : v < (10 : ℝ) ^ (e + 1)) (h3 : (10 : ℝ) ^ X ≤ v)
    (h4 : v < (10 : ℝ) ^ (X + 1)) : e = X := by
  rcases lt_trichotomy e X with h | h | h
  · have := zpow10_mono (show e + 1 ≤ X by omega); linarith
  · exact h
  · have := zpow10_mono (show X + 1 ≤ e by omega); linarith

theorem near_unique {y : ℝ} {a b : ℕ} (h1 : |y - a| ≤ 1 / 2) (h2 : |y - b| < 1 / 2) : a = b := by
  have h : |(a : ℝ) - b| < 1 := by
    have := abs_sub_le (a : ℝ) y b
    rw [abs_sub_comm (a : ℝ) y] at this
    linarith
  have h' : |(a : ℤ) - (b : ℤ)| < 1 := by exact_mod_cast h
  have := Int.abs_lt_one_iff.mp h'
  omega

/-- Away from ties the six digits are determined. -/
theorem sixDigits_unique {v : ℝ} {m : ℕ} {X : ℤ} (hm' : m < 1000000)
    (hlo : (10 : ℝ) ^ X ≤ v) (h : |v / (10 : ℝ) ^ (X - 5) - m| < 1 / 2) {m' : ℕ} {X' : ℤ} (h' : SixDigits v m' X') :
    m' = m ∧ X' = X := by
  obtain ⟨e, m0, h1, h2, h3, h4⟩ := h'
  have hp : (0 : ℝ) < (10 : ℝ) ^ (X - 5) := zpow_pos (by norm_num) _
  have hv : v < (10 : ℝ) ^ (X + 1) := by
    have h5 := (abs_lt.mp h).2
    have h6 : (m : ℝ) ≤ 999999 := by exact_mod_cast (by omega : m ≤ 999999)
    have h7 : v / (10 : ℝ) ^ (X - 5) < 1000000 := by linarith
    rw [div_lt_iff₀ hp] at h7
    have e1 : (10 : ℝ) ^ (X + 1) = 1000000 * (10 : ℝ) ^ (X - 5) := by
      rw [show X + 1 = 6 + (X - 5) by ring, zpow_add₀ (by norm_num)]; norm_num
    rw [e1]; exact h7
  have he := zpow10_exp h1 h2 hlo hv
  subst he
  have hmm : m0 = m := near_unique h3 h
  rcases h4 with ⟨-, rfl, rfl⟩ | ⟨h4, -, -⟩
  · exact ⟨hmm, rfl⟩
  · omega

/-- Just below a power of ten. -/
theorem sixDigits_unique_top {v : ℝ} {X : ℤ} (hhi : v < (10 : ℝ) ^ X) (h : |v / (10 : ℝ) ^ (X - 6) - 1000000| < 1 / 2)
    {m' : ℕ} {X' : ℤ} (h' : SixDigits v m' X') : m' = 100000 ∧ X' = X := by
  obtain ⟨e, m0, h1, h2, h3, h4⟩ := h'
  have hp : (0 : ℝ) < (10 : ℝ) ^ (X - 6) := zpow_pos (by norm_num) _
  have hv : (10 : ℝ) ^ (X - 1) ≤ v := by
    have h5 := (abs_lt.mp h).1
    have h7 : 100000 ≤ v / (10 : ℝ) ^ (X - 6) := by linarith
    rw [le_div_iff₀ hp] at h7
    have e1 : (10 : ℝ) ^ (X - 1) = 100000 * (10 : ℝ) ^ (X - 6) := by
      rw [show X - 1 = 5 + (X - 6) by ring, zpow_add₀ (by norm_num)]; norm_num
    rw [e1]; exact h7
  have he := zpow10_exp h1 h2 hv (by rwa [sub_add_cancel])
  subst he
  have hmm : m0 = 1000000 := near_unique h3 (by
    rw [show X - 1 - 5 = X - 6 by ring]; exact_mod_cast h)
  rcases h4 with ⟨h4, -, -⟩ | ⟨-, h5, h6⟩
  · omega
  · exact ⟨h5, by omega⟩

/-- A criterion: `P` is at least `10^X + tol` and is within `1/2 - tol 10^(5-X)` units in the sixth place of a six-digit number. -/
theorem printsAs_of {P tol : ℝ} {m : ℕ} {X : ℤ} (hm' : m < 1000000) (hlo : (10 : ℝ) ^ X + tol ≤ P)
    (h : |P - m * (10 : ℝ) ^ (X - 5)| + tol < (10 : ℝ) ^ (X - 5) / 2) : PrintsAs P tol (g6 .none m X).text := by
  intro v hv
  have hp : (0 : ℝ) < (10 : ℝ) ^ (X - 5) := zpow_pos (by norm_num) _
  have h1 := abs_le.mp hv
  have hXv : (10 : ℝ) ^ X ≤ v := by linarith
  refine ⟨lt_of_lt_of_le (zpow_pos (by norm_num) _) hXv, fun m' X' h' => ?_⟩
  obtain ⟨rfl, rfl⟩ := sixDigits_unique hm' hXv (by
    have e : v / (10 : ℝ) ^ (X - 5) - m = (v - m * (10 : ℝ) ^ (X - 5)) / (10 : ℝ) ^ (X - 5) := by field_simp
    rw [e, abs_div, abs_of_pos hp, div_lt_iff₀ hp]
    have := abs_sub_le v P (m * (10 : ℝ) ^ (X - 5))
    linarith) h'
  rfl

/-- The criterion at 1: anything within `4e-7` is printed as `1`. -/
theorem printsAs_one {tol : ℝ} (h : tol ≤ 4 / 10 ^ 7) : PrintsAs 1 tol ['1'] := by
  intro v hv
  have h1 := abs_le.mp hv
  refine ⟨by linarith, fun m' X' h' => ?_⟩
  obtain ⟨rfl, rfl⟩ : m' = 100000 ∧ X' = 0 := by
    by_cases hlt : v < 1
    · refine sixDigits_unique_top (X := 0) (by simpa using hlt) ?_ h'
      rw [abs_lt]; norm_num
      constructor <;> linarith
    · refine sixDigits_unique (X := 0) (by norm_num) (by simpa using not_lt.mp hlt) ?_ h'
      rw [abs_lt]; norm_num
      constructor <;> linarith
  decide

end CP.Spec
