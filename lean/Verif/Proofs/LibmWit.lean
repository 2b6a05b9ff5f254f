import Verif.IeeePow
import Verif.Proofs.IeeeWit
/-! A correctly rounded math library satisfies `LibmAccurate` and `PowAccurate`, in every sensible format. -/
namespace CP.Spec
open FOps
noncomputable section

variable {f : Format}

/-- The system of a format with a correctly rounded math library. -/
def correctSys (f : Format) (hf : f.OK) : FloatSystem := ⟨f, roundF f, nearest_roundF hf, correctLibm (nearest_roundF hf)⟩

/-- A format in which logarithms of numbers do not underflow or overflow. -/
structure Format.Wide (f : Format) : Prop where
  ok : f.OK
  low : f.emin + 2 * f.p ≤ 0
  high : 200 < f.emax
  high' : f.emax ≤ 2 ^ 100
  low' : -2 ^ 100 ≤ f.emin
  small : 1 ≤ f.p ∧ f.p ≤ 200

theorem log_away' (hf : f.Wide) {x : ℝ} (h : f.Fin x) (hx0 : 0 < x) (hx1 : x ≠ 1) : (2 : ℝ) ^ (-(f.p : ℤ) - 1) ≤ |Real.log x| := by
  have h1 := Real.one_sub_inv_le_log_of_pos hx0
  have h2 := Real.log_le_sub_one_of_pos hx0
  have hp1 := hf.small.1
  have e2 : (2 : ℝ) ^ (-(f.p : ℤ) - 1) = 2 ^ (-(f.p : ℤ)) / 2 := by rw [zpow_sub₀ (by norm_num), zpow_one]
  have small : (2 : ℝ) ^ (-(f.p : ℤ) - 1) ≤ 1 / 2 := by
    calc (2 : ℝ) ^ (-(f.p : ℤ) - 1) ≤ 2 ^ (-1 : ℤ) := zpow_le_zpow_right₀ (by norm_num) (by omega)
      _ = _ := by norm_num
  rcases lt_or_ge 2 x with hb | hb
  · have : x⁻¹ ≤ 1 / 2 := by rw [inv_le_comm₀ hx0 (by norm_num)]; linarith
    have h3 := le_abs_self (Real.log x)
    linarith
  rcases lt_or_ge x (1 / 2) with hs | hs
  · have h3 := neg_le_abs (Real.log x)
    linarith
  obtain ⟨⟨m, e, hm, he, hxm⟩, -⟩ := h
  have hpp : (0 : ℝ) < 2 ^ f.p := by positivity
  have he2 : -(f.p : ℤ) ≤ e := by
    by_contra hlt
    push Not at hlt
    have hm2 : (m : ℝ) < 2 ^ f.p := by
      have : m < 2 ^ f.p := (le_abs_self m).trans_lt hm
      exact_mod_cast this
    have h5 : (2 : ℝ) ^ e ≤ 2 ^ (-(f.p : ℤ) - 1) := zpow_le_zpow_right₀ (by norm_num) (by omega)
    have h6 : (m : ℝ) * (2 : ℝ) ^ e < 2 ^ f.p * 2 ^ (-(f.p : ℤ) - 1) := mul_lt_mul hm2 h5 (by positivity) hpp.le
    have h7 : (2 : ℝ) ^ f.p * 2 ^ (-(f.p : ℤ) - 1) = 1 / 2 := by
      rw [← zpow_natCast, ← zpow_add₀ (by norm_num)]
      rw [show (f.p : ℤ) + (-(f.p : ℤ) - 1) = -1 by ring]; norm_num
    rw [← hxm, h7] at h6
    exact absurd hs (not_le.mpr h6)
  obtain ⟨d, hd⟩ := Int.eq_ofNat_of_zero_le (show 0 ≤ e + f.p by omega)
  have hK : x * 2 ^ f.p = ((m * 2 ^ d : ℤ) : ℝ) := by
    rw [hxm, show e = d + (-(f.p : ℤ)) by omega, zpow_add₀ (by norm_num), zpow_neg, zpow_natCast, zpow_natCast]
    push_cast
    field_simp
  obtain ⟨K, hKK⟩ : ∃ K : ℤ, K = m * 2 ^ d := ⟨_, rfl⟩
  rw [← hKK] at hK
  have hinv : (2 : ℝ) ^ (-(f.p : ℤ)) * 2 ^ f.p = 1 := by
    rw [zpow_neg, zpow_natCast]; exact inv_mul_cancel₀ hpp.ne'
  have hipos : (0 : ℝ) < 2 ^ (-(f.p : ℤ)) := by positivity
  rcases lt_trichotomy x 1 with hlt | heq | hgt
  · have h3 := neg_le_abs (Real.log x)
    have : (K : ℝ) < 2 ^ f.p := by
      rw [← hK]
      have := mul_lt_mul_of_pos_right hlt hpp
      linarith
    have : K < 2 ^ f.p := by exact_mod_cast this
    have : K + 1 ≤ 2 ^ f.p := this
    have : (K : ℝ) + 1 ≤ 2 ^ f.p := by exact_mod_cast this
    rw [← hK] at this
    have h4 : (x + 2 ^ (-(f.p : ℤ))) * 2 ^ f.p ≤ 1 * 2 ^ f.p := by rw [add_mul, hinv, one_mul]; exact this
    have h5 := le_of_mul_le_mul_right h4 hpp
    rw [e2]
    linarith
  · exact absurd heq hx1
  · have h3 := le_abs_self (Real.log x)
    have : (2 : ℝ) ^ f.p < K := by
      rw [← hK]
      have := mul_lt_mul_of_pos_right hgt hpp
      linarith
    have : 2 ^ f.p < K := by exact_mod_cast this
    have : 2 ^ f.p + 1 ≤ K := this
    have : (2 : ℝ) ^ f.p + 1 ≤ K := by exact_mod_cast this
    rw [← hK] at this
    have h4 : (1 + 2 ^ (-(f.p : ℤ))) * 2 ^ f.p ≤ x * 2 ^ f.p := by rw [add_mul, hinv, one_mul]; exact this
    have h5 := le_of_mul_le_mul_right h4 hpp
    have h8 : (2 : ℝ) ^ (-(f.p : ℤ) - 1) ≤ 1 - x⁻¹ := by
      have e1 : 1 - x⁻¹ = (x - 1) / x := by field_simp
      rw [e1, le_div_iff₀ hx0, e2]
      have := mul_le_mul_of_nonneg_left hb hipos.le
      linarith
    linarith

variable (hf : f.Wide)
include hf

theorem correct_round {x : ℝ} (hx : x = 0 ∨ (2 : ℝ) ^ (-(f.p : ℤ) - 1) ≤ |x|) (hx2 : |x| ≤ 2 ^ 200) {u : ℝ} (hu : (2 : ℝ) ^ (-(f.p : ℤ)) ≤ u) :
    ∃ v h', roundNum (correctSys f hf.ok) x = Fl.fin v h' ∧ |v - x| ≤ u * |x| := by
  obtain ⟨h, e⟩ := roundNum_fin (A := correctSys f hf.ok) hf.ok (x := x) (hx2.trans (by
    rw [← zpow_natCast]
    have := hf.high
    exact zpow_le_zpow_right₀ (by norm_num) (show ((200 : ℕ) : ℤ) ≤ f.emax - 1 by push_cast; omega)))
  refine ⟨_, h, e, ?_⟩
  rcases hx with rfl | hx
  · have := nearest_zero hf.ok (correctSys f hf.ok).nearest
    show |(correctSys f hf.ok).r 0 - 0| ≤ _
    rw [this]; simp
  · refine (nearest_normal hf.ok (correctSys f hf.ok).nearest (le_trans ?_ hx)).trans (mul_le_mul_of_nonneg_right hu (abs_nonneg _))
    unfold Format.minNormal
    have := hf.low
    exact zpow_le_zpow_right₀ (by norm_num) (by omega)

theorem log_fin_le' {x : ℝ} (h : f.Fin x) (hx0 : 0 < x) : |Real.log x| ≤ 2 ^ 200 := by
  obtain ⟨hr, hlt⟩ := h
  obtain ⟨k, hk⟩ := rep_mult hr
  have l2 := Real.log_two_lt_d9
  have l2' := Real.log_two_gt_d9
  have hlow : (2 : ℝ) ^ f.emin ≤ x := by
    have hk1 : 0 < k := by
      rw [hk] at hx0
      have := pos_of_mul_pos_left hx0 (by positivity)
      exact_mod_cast this
    have : (1 : ℝ) ≤ k := by exact_mod_cast hk1
    rw [hk]
    exact le_mul_of_one_le_left (by positivity) this
  rw [abs_of_pos hx0] at hlt
  have a := Real.log_le_log (by positivity) hlow
  have b := Real.log_le_log hx0 hlt.le
  rw [Real.log_zpow] at a b
  have h1 : (f.emax : ℝ) ≤ 2 ^ 100 := by exact_mod_cast hf.high'
  have h2 : (-2 ^ 100 : ℝ) ≤ f.emin := by exact_mod_cast hf.low'
  have h3 : (f.emax : ℝ) * Real.log 2 ≤ 2 ^ 100 * 1 := mul_le_mul h1 (by linarith) (by linarith) (by norm_num)
  have h4 : (-f.emin : ℝ) * Real.log 2 ≤ 2 ^ 100 * 1 := mul_le_mul (by linarith) (by linarith) (by linarith) (by norm_num)
  have h5 : (2 : ℝ) ^ 100 * 1 ≤ 2 ^ 200 := by norm_num
  rw [abs_le]
  constructor <;> linarith

/-- A correctly rounded math library is accurate. -/
theorem correct_libm {u : ℝ} (hu : (2 : ℝ) ^ (-(f.p : ℤ)) ≤ u) {N : ℕ} (hN : N ≤ 2 ^ 64) : LibmAccurate (correctSys f hf.ok) u N where
  log x h hx := by
    have e : (correctSys f hf.ok).libm.log (Fl.fin x h) = roundNum (correctSys f hf.ok) (Real.log x) := if_pos hx
    rw [e]
    refine correct_round hf ?_ (log_fin_le' hf h hx) hu
    rcases eq_or_ne x 1 with rfl | h1
    · left; simp
    · right; exact log_away' hf h hx h1
  lgamma k h hk := by
    have e : (correctSys f hf.ok).libm.lgamma (Fl.fin ((k : ℝ) + 1) h) = roundNum (correctSys f hf.ok) (Real.log k.factorial) := by
      show roundNum (correctSys f hf.ok) (Real.log (⌊(k : ℝ) + 1⌋₊ - 1).factorial) = _
      rw [Nat.floor_add_one (Nat.cast_nonneg _), Nat.floor_natCast]
      rfl
    rw [e]
    refine correct_round hf ?_ (log_fact_le_sq (hk.trans hN)) hu
    rcases Nat.lt_or_ge k 2 with h1 | h1
    · left
      have : k = 0 ∨ k = 1 := by omega
      rcases this with rfl | rfl <;> simp
    · right
      have h2 : (2 : ℝ) ≤ k.factorial := by exact_mod_cast h1.trans (Nat.self_le_factorial k)
      have h3 := Real.log_le_log (by norm_num) h2
      have h4 := Real.log_two_gt_d9
      refine le_trans ?_ (le_abs_self _)
      refine le_trans ?_ h3
      have hp := hf.small.1
      have : (2 : ℝ) ^ (-(f.p : ℤ) - 1) ≤ 2 ^ (-1 : ℤ) := zpow_le_zpow_right₀ (by norm_num) (by omega)
      norm_num at this
      linarith
  exp x h hx := by
    have e : (correctSys f hf.ok).libm.exp (Fl.fin x h) = roundNum (correctSys f hf.ok) (Real.exp x) := rfl
    rw [e]
    have hx' : |Real.exp x| ≤ (2 : ℝ) ^ ((correctSys f hf.ok).f.emax - 1) := by rwa [abs_of_pos (Real.exp_pos x)]
    obtain ⟨hfin, e⟩ := roundNum_fin (A := correctSys f hf.ok) hf.ok hx'
    refine ⟨_, hfin, e, fun h1 => ?_, fun h1 => ⟨?_, ?_⟩⟩
    · have := nearest_normal hf.ok (correctSys f hf.ok).nearest (x := Real.exp x) (by rwa [abs_of_pos (Real.exp_pos x)])
      rw [abs_of_pos (Real.exp_pos x)] at this
      exact this.trans (mul_le_mul_of_nonneg_right hu (Real.exp_pos x).le)
    · have := nearest_mono (correctSys f hf.ok).nearest (Real.exp_pos x).le
      rwa [nearest_zero hf.ok (correctSys f hf.ok).nearest] at this
    · refine (nearest_ulp hf.ok (correctSys f hf.ok).nearest _ le_rfl ?_).trans (zpow_le_zpow_right₀ (by norm_num) (by
        show f.emin - 1 ≤ f.emin; omega))
      rw [abs_of_pos (Real.exp_pos x)]
      refine h1.le.trans ?_
      show (2 : ℝ) ^ (f.emin + f.p - 1) ≤ (2 : ℝ) ^ (f.emin + f.p)
      exact zpow_le_zpow_right₀ (by norm_num) (by omega)

/-- A correctly rounded `pow` is accurate. -/
theorem correct_pow {u : ℝ} (hu : (2 : ℝ) ^ (-(f.p : ℤ)) ≤ u) {q N : ℕ} (hq : 1 ≤ q) : PowAccurate (correctSys f hf.ok) u q N := by
  intro x h k _ hk
  have e : (correctSys f hf.ok).libm.powi (Fl.fin x h) (k : ℤ) = roundNum (correctSys f hf.ok) (x ^ k) := by
    show roundNum (correctSys f hf.ok) (x ^ (k : ℤ)) = _
    rw [zpow_natCast]
  rw [e]
  obtain ⟨hfin, e⟩ := roundNum_fin (A := correctSys f hf.ok) hf.ok hk
  refine ⟨_, hfin, e, ?_⟩
  have h1 := nearest_err hf.ok (correctSys f hf.ok).nearest (x ^ k)
  have hu0 : 0 ≤ u := le_trans (by positivity) hu
  have h2 := mul_le_mul_of_nonneg_right hu (abs_nonneg (x ^ k))
  have h3 : u ≤ (1 + u) ^ q - 1 := by
    have := one_add_mul_le_pow (show (-2 : ℝ) ≤ u by linarith) q
    have hq' : (1 : ℝ) ≤ q := by exact_mod_cast hq
    have := mul_le_mul_of_nonneg_right hq' hu0
    linarith
  have h4 := mul_le_mul_of_nonneg_right h3 (abs_nonneg (x ^ k))
  have h5 : (2 : ℝ) ^ (f.emin - 1) ≤ q * (2 : ℝ) ^ f.emin := by
    have h6 : (2 : ℝ) ^ (f.emin - 1) ≤ (2 : ℝ) ^ f.emin := zpow_le_zpow_right₀ (by norm_num) (by omega)
    have hq' : (1 : ℝ) ≤ q := by exact_mod_cast hq
    have := mul_le_mul_of_nonneg_right hq' (show (0 : ℝ) ≤ (2 : ℝ) ^ f.emin by positivity)
    linarith
  show |(correctSys f hf.ok).r (x ^ k) - x ^ k| ≤ ((1 + u) ^ q - 1) * |x ^ k| + q * (2 : ℝ) ^ f.emin
  have h1' : |(correctSys f hf.ok).r (x ^ k) - x ^ k| ≤ (2 : ℝ) ^ (-(f.p : ℤ)) * |x ^ k| + (2 : ℝ) ^ (f.emin - 1) := h1
  linarith

end
end CP.Spec
