import Verif.Proofs.Pmf
import Verif.Model.XR
import Verif.Proofs.CountLaw
/-
Exact values of the Poisson tables, and the relation between the Poisson-weighted recursion and
the counting-process law.
-/
open Finset
namespace CP.Spec
noncomputable section

/-- `Pr[Poisson(lam) = k] = e^-lam lam^k / k!` (with `0^0 = 1`). -/
def pois (lam : ℝ) (k : ℕ) : ℝ := Real.exp (-lam) * lam ^ k / (k.factorial : ℝ)

theorem pmfVal_fin {lam : ℝ} (h : 0 ≤ lam) (k : ℕ) : pmfVal (XR.fin lam) k = XR.fin (pois lam k) := by
  unfold pmfVal
  by_cases hz : lam = 0
  · subst hz
    simp only [XR.zero_eq, XR.eq_fin, decide_true, if_true]
    by_cases hk : k = 0
    · subst hk; simp [pois]
    · simp [pois, hk]
  · have hpos : 0 < lam := lt_of_le_of_ne h (Ne.symm hz)
    simp only [XR.zero_eq, XR.eq_fin, hz, decide_false, Bool.false_eq_true, if_false]
    rw [XR.log_fin hpos, XR.ofInt_eq, XR.ofInt_eq]
    have e : (((k : ℤ) + 1 : ℤ) : ℝ) = (k : ℝ) + 1 := by push_cast; rfl
    rw [e, XR.lgamma_succ]
    simp only [XR.neg_fin, XR.mul_fin, XR.add_fin, XR.sub_fin, XR.exp_fin, XR.fin_inj]
    have hf : (0 : ℝ) < (k.factorial : ℝ) := by exact_mod_cast Nat.factorial_pos k
    rw [Real.exp_sub, Real.exp_add, Real.exp_log hf]
    unfold pois
    congr 2
    rw [Int.cast_natCast, Real.exp_nat_mul, Real.exp_log hpos]

theorem pois_pos {lam : ℝ} (h : 0 < lam) (k : ℕ) : 0 < pois lam k := by
  unfold pois
  have := Nat.factorial_pos k
  positivity

theorem pois_nonneg {lam : ℝ} (h : 0 ≤ lam) (k : ℕ) : 0 ≤ pois lam k := by
  unfold pois
  positivity

theorem pois_zero (k : ℕ) : pois 0 k = if k = 0 then 1 else 0 := by
  unfold pois
  by_cases hk : k = 0
  · subst hk; simp
  · simp [hk]

/-- Poisson-weighted version of the law `v` at time `t`. -/
def pw (n : ℕ) (t : ℝ) (v : ℕ → ℝ) (m : ℕ) : ℝ := Real.exp (-((n : ℝ) * t)) * (n : ℝ) ^ m * v m

theorem pw_step {n : ℕ} {t t' : ℝ} {v : ℕ → ℝ} (W : ℕ → Prop) [DecidablePred W] (m : ℕ) :
    pw n t' (vstep (t' - t) W v) m
      = if W m then ∑ l ∈ range (m + 1), pw n t v l * pois ((n : ℝ) * (t' - t)) (m - l) else 0 := by
  unfold vstep
  by_cases hW : W m
  · simp only [pw, hW, if_true]
    rw [Finset.mul_sum]
    refine Finset.sum_congr rfl fun l hl => ?_
    have hl' : l ≤ m := by simpa [Nat.lt_succ_iff] using hl
    unfold pois
    have e1 : Real.exp (-((n : ℝ) * t')) = Real.exp (-((n : ℝ) * t)) * Real.exp (-((n : ℝ) * (t' - t))) := by
      rw [← Real.exp_add]; congr 1; ring
    have e2 : (n : ℝ) ^ m = (n : ℝ) ^ l * (n : ℝ) ^ (m - l) := by
      rw [← pow_add]; congr 1; omega
    rw [e1, e2, mul_pow]
    ring
  · simp only [pw, hW, if_false, mul_zero]

end
end CP.Spec
