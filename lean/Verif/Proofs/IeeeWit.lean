import Verif.Proofs.Ieee
import Verif.Proofs.FpFft
import Mathlib.Analysis.Complex.ExponentialBounds
/-! The assumptions about IEEE-754 arithmetic, its math library, FFT library and sort are satisfiable: a rounding to nearest, a
correctly rounded math library, an FFT library returning correctly rounded transforms, merge sort. -/
open Finset
namespace CP.Spec
open FOps
noncomputable section

variable {f : Format}

/-- The exponent of the last place of `x`. -/
def lastPlace (f : Format) (x : ℝ) : ℤ := max f.emin (Int.log 2 |x| - f.p + 1)

/-- A rounding to nearest: to an integer multiple of the last place. -/
def roundF (f : Format) (x : ℝ) : ℝ := round (x / (2 : ℝ) ^ lastPlace f x) * (2 : ℝ) ^ lastPlace f x

theorem round_mono' {a b : ℝ} (h : a ≤ b) : round a ≤ round b := by
  rw [round_eq, round_eq]; exact Int.floor_mono (by linarith)

theorem nearest_roundF (hf : f.OK) : Nearest f (roundF f) where
  rep x := by
    have he : f.emin ≤ lastPlace f x := le_max_left _ _
    refine rep_of_le hf ?_ he
    rcases eq_or_ne x 0 with rfl | hx
    · simp
    obtain ⟨-, h2⟩ := log2_spec (abs_pos.mpr hx)
    have h3 : |x| ≤ (2 : ℝ) ^ (lastPlace f x + f.p) := h2.le.trans (zpow_le_zpow_right₀ (by norm_num) (by
      have : Int.log 2 |x| - f.p + 1 ≤ lastPlace f x := le_max_right _ _
      omega))
    have hs : (0 : ℝ) < 2 ^ lastPlace f x := by positivity
    have hx2 : |x / (2 : ℝ) ^ lastPlace f x| ≤ ((2 ^ f.p : ℤ) : ℝ) := by
      rw [abs_div, abs_of_pos hs, div_le_iff₀ hs]
      push_cast
      rw [← zpow_natCast, ← zpow_add₀ (by norm_num), add_comm]
      exact h3
    rw [abs_le] at hx2 ⊢
    constructor
    · have := round_mono' hx2.1
      rwa [← Int.cast_neg, round_intCast] at this
    · have := round_mono' hx2.2
      rwa [round_intCast] at this
  near x y hy := by
    rcases eq_or_ne x 0 with rfl | hx
    · simp [roundF]
    obtain ⟨h1, h2⟩ := log2_spec (abs_pos.mpr hx)
    obtain ⟨s, hs⟩ : ∃ s, s = (2 : ℝ) ^ lastPlace f x := ⟨_, rfl⟩
    have hs0 : 0 < s := by rw [hs]; positivity
    -- the rounded number is the closest multiple of the last place
    have grid : ∀ j : ℤ, |roundF f x - x| ≤ |j * s - x| := by
      intro j
      have h := round_le (x / s) j
      have e : ∀ k : ℤ, |(k : ℝ) * s - x| = |x / s - k| * s := by
        intro k
        rw [← abs_of_pos hs0, ← abs_mul, abs_of_pos hs0, abs_sub_comm, sub_mul, div_mul_cancel₀ _ hs0.ne']
      unfold roundF
      rw [← hs, e, e]
      exact mul_le_mul_of_nonneg_right h hs0.le
    obtain ⟨m, k, hm, hk, rfl⟩ := hy
    by_cases hke : lastPlace f x ≤ k
    · obtain ⟨d, hd⟩ := Int.eq_ofNat_of_zero_le (show 0 ≤ k - lastPlace f x by omega)
      have := grid (m * 2 ^ d)
      have e : ((m * 2 ^ d : ℤ) : ℝ) * s = m * (2 : ℝ) ^ k := by
        rw [hs, show k = d + lastPlace f x by omega, zpow_add₀ (by norm_num)]
        push_cast; rw [zpow_natCast]; ring
      rwa [e] at this
    · push Not at hke
      have hlp : lastPlace f x = Int.log 2 |x| - f.p + 1 := by
        unfold lastPlace at hke ⊢
        rcases le_total f.emin (Int.log 2 |x| - f.p + 1) with h | h
        · exact max_eq_right h
        · rw [max_eq_left h] at hke; omega
      -- the power of two below `|x|` is a multiple of the last place and lies between
      have hy1 : |(m : ℝ) * (2 : ℝ) ^ k| ≤ (2 : ℝ) ^ (Int.log 2 |x|) := by
        rw [abs_mul, abs_of_pos (show (0 : ℝ) < 2 ^ k by positivity)]
        have hm' : |(m : ℝ)| ≤ (2 : ℝ) ^ (f.p : ℤ) := by
          rw [← Int.cast_abs, zpow_natCast]; exact_mod_cast hm.le
        calc |(m : ℝ)| * 2 ^ k ≤ (2 : ℝ) ^ (f.p : ℤ) * 2 ^ k := mul_le_mul_of_nonneg_right hm' (by positivity)
          _ = (2 : ℝ) ^ ((f.p : ℤ) + k) := by rw [zpow_add₀ (by norm_num)]
          _ ≤ _ := zpow_le_zpow_right₀ (by norm_num) (by omega)
      have hp := hf.hp
      obtain ⟨q, hq⟩ : ∃ q, f.p = q + 1 := ⟨f.p - 1, by omega⟩
      have hg : ((2 ^ q : ℤ) : ℝ) * s = (2 : ℝ) ^ (Int.log 2 |x|) := by
        rw [hs, hlp]
        push_cast
        rw [← zpow_natCast, ← zpow_add₀ (by norm_num)]
        congr 1
        rw [hq]; push_cast; ring
      have hdist : |roundF f x - x| ≤ |x| - (2 : ℝ) ^ (Int.log 2 |x|) := by
        rcases abs_cases x with ⟨ha, hx0⟩ | ⟨ha, hx0⟩
        · refine (grid (2 ^ q)).trans (le_of_eq ?_)
          rw [hg, abs_sub_comm, abs_of_nonneg (by linarith)]
          linarith
        · refine (grid (-2 ^ q)).trans (le_of_eq ?_)
          rw [Int.cast_neg, neg_mul, hg, abs_of_nonneg (by linarith)]
          linarith
      have := abs_sub_abs_le_abs_sub x ((m : ℝ) * 2 ^ k)
      rw [abs_sub_comm x] at this
      linarith

/-! ### A correctly rounded math library -/

open scoped Classical in
/-- A correctly rounded math library (at the arguments the program uses). -/
def correctLibm {r : ℝ → ℝ} (hr : Nearest f r) : Libm f where
  exp x := match x with
    | .fin a _ => roundFl hr (Real.exp a)
    | .pinf => .pinf
    | .ninf => roundFl hr 0
    | .nan => .nan
  log x := match x with
    | .fin a _ => if 0 < a then roundFl hr (Real.log a) else if a = 0 then .ninf else .nan
    | .pinf => .pinf
    | _ => .nan
  lgamma x := match x with
    | .fin a _ => roundFl hr (Real.log (⌊a⌋₊ - 1).factorial)
    | _ => .nan
  powi x k := match x with
    | .fin a _ => roundFl hr (a ^ k)
    | y => y

/-- Double precision with a correctly rounded math library. -/
def doubles : FloatSystem := ⟨binary64, roundF binary64, nearest_roundF binary64_ok, correctLibm (nearest_roundF binary64_ok)⟩

theorem doubles_f : doubles.f = binary64 := rfl

theorem log_away {x : ℝ} (h : binary64.Fin x) (hx0 : 0 < x) (hx1 : x ≠ 1) : 1 / 2 ^ 60 ≤ |Real.log x| := by
  have h1 := Real.one_sub_inv_le_log_of_pos hx0
  have h2 := Real.log_le_sub_one_of_pos hx0
  have small : (1 : ℝ) / 2 ^ 60 ≤ 1 / 2 := by norm_num
  rcases lt_or_ge 2 x with hb | hb
  · have : x⁻¹ ≤ 1 / 2 := by rw [inv_le_comm₀ hx0 (by norm_num)]; linarith
    have h3 := le_abs_self (Real.log x)
    linarith
  rcases lt_or_ge x (1 / 2) with hs | hs
  · have h3 := neg_le_abs (Real.log x)
    linarith
  obtain ⟨⟨m, e, hm, he, hxm⟩, -⟩ := h
  have hp : binary64.p = 53 := rfl
  rw [hp] at hm
  have he2 : -53 ≤ e := by
    by_contra hlt
    push Not at hlt
    have hm' : (m : ℝ) ≤ 2 ^ 53 := (le_abs_self _).trans (by rw [← Int.cast_abs]; exact_mod_cast hm.le)
    have hm2 : (m : ℝ) ≤ 2 ^ 53 - 1 := by
      have : m ≤ 2 ^ 53 - 1 := by have := le_abs_self m; omega
      exact_mod_cast this
    have h5 : (2 : ℝ) ^ e ≤ 2 ^ (-54 : ℤ) := zpow_le_zpow_right₀ (by norm_num) (by omega)
    have h6 : (m : ℝ) * (2 : ℝ) ^ e ≤ (2 ^ 53 - 1) * 2 ^ (-54 : ℤ) := mul_le_mul hm2 h5 (by positivity) (by norm_num)
    have h7 : ((2 : ℝ) ^ 53 - 1) * 2 ^ (-54 : ℤ) < 1 / 2 := by norm_num
    rw [← hxm] at h6
    exact absurd hs (not_le.mpr (h6.trans_lt h7))
  obtain ⟨d, hd⟩ := Int.eq_ofNat_of_zero_le (show 0 ≤ e + 53 by omega)
  have hK : x * 2 ^ 53 = ((m * 2 ^ d : ℤ) : ℝ) := by
    rw [hxm, show e = d + (-53) by omega, zpow_add₀ (by norm_num), show (-53 : ℤ) = -((53 : ℕ) : ℤ) by norm_num, zpow_neg, zpow_natCast, zpow_natCast]
    push_cast
    field_simp
  obtain ⟨K, hKK⟩ : ∃ K : ℤ, K = m * 2 ^ d := ⟨_, rfl⟩
  rw [← hKK] at hK
  rcases lt_trichotomy x 1 with hlt | heq | hgt
  · have h3 := neg_le_abs (Real.log x)
    have : (K : ℝ) < 2 ^ 53 := by rw [← hK]; linarith
    have : K < 2 ^ 53 := by exact_mod_cast this
    have : K ≤ 2 ^ 53 - 1 := by omega
    have : (K : ℝ) ≤ 2 ^ 53 - 1 := by exact_mod_cast this
    rw [← hK] at this
    norm_num at this ⊢
    linarith
  · exact absurd heq hx1
  · have h3 := le_abs_self (Real.log x)
    have : (2 : ℝ) ^ 53 < K := by rw [← hK]; linarith
    have : 2 ^ 53 < K := by exact_mod_cast this
    have : 2 ^ 53 + 1 ≤ K := by omega
    have : (2 : ℝ) ^ 53 + 1 ≤ K := by exact_mod_cast this
    rw [← hK] at this
    have h8 : (1 : ℝ) / 2 ^ 60 ≤ 1 - x⁻¹ := by
      have e1 : 1 - x⁻¹ = (x - 1) / x := by field_simp
      rw [e1, le_div_iff₀ hx0]
      norm_num at this ⊢
      linarith
    linarith

theorem two_le_pow {e : ℤ} (h : 1 ≤ e) : (2 : ℝ) ≤ 2 ^ e := by
  calc (2 : ℝ) = 2 ^ (1 : ℤ) := by norm_num
    _ ≤ _ := zpow_le_zpow_right₀ (by norm_num) h

theorem mn_small {x : ℝ} (h : 1 / 2 ^ 60 ≤ x) : doubles.f.minNormal ≤ x := by
  refine le_trans ?_ h
  have e : doubles.f.minNormal = (2 : ℝ) ^ (-1022 : ℤ) := by
    unfold Format.minNormal
    rw [doubles_f]; norm_num [binary64]
  rw [e]
  calc (2 : ℝ) ^ (-1022 : ℤ) ≤ 2 ^ (-60 : ℤ) := zpow_le_zpow_right₀ (by norm_num) (by norm_num)
    _ = _ := by norm_num

theorem big_large {x : ℝ} (h : x ≤ 2 ^ 200) : x ≤ (2 : ℝ) ^ (doubles.f.emax - 1) := by
  refine h.trans ?_
  rw [← zpow_natCast]
  refine zpow_le_zpow_right₀ (by norm_num) ?_
  rw [doubles_f]; norm_num [binary64]

theorem doubles_round {u x : ℝ} (hu : (2 : ℝ) ^ (-53 : ℤ) ≤ u) (hx : x = 0 ∨ 1 / 2 ^ 60 ≤ |x|) (hx2 : |x| ≤ 2 ^ 200) :
    ∃ v h', roundNum doubles x = Fl.fin v h' ∧ |v - x| ≤ u * |x| := by
  obtain ⟨h, e⟩ := roundNum_fin (A := doubles) binary64_ok (big_large hx2)
  refine ⟨_, h, e, ?_⟩
  rcases hx with rfl | hx
  · rw [nearest_zero binary64_ok doubles.nearest]; simp
  · exact (nearest_normal binary64_ok doubles.nearest (mn_small hx)).trans (mul_le_mul_of_nonneg_right hu (abs_nonneg _))

theorem log_fin_le {x : ℝ} (h : binary64.Fin x) (hx0 : 0 < x) : |Real.log x| ≤ 1074 := by
  obtain ⟨hr, hlt⟩ := h
  obtain ⟨k, hk⟩ := rep_mult hr
  have l2 := Real.log_two_lt_d9
  have l2' := Real.log_two_gt_d9
  have hemin : binary64.emin = -1074 := rfl
  have hemax : binary64.emax = 1024 := rfl
  have hlow : (2 : ℝ) ^ (-1074 : ℤ) ≤ x := by
    have hk1 : 0 < k := by
      rw [hk] at hx0
      have := pos_of_mul_pos_left hx0 (by positivity)
      exact_mod_cast this
    have : (1 : ℝ) ≤ k := by exact_mod_cast hk1
    rw [hk, hemin]
    exact le_mul_of_one_le_left (by positivity) this
  rw [abs_of_pos hx0, hemax] at hlt
  have a := Real.log_le_log (by positivity) hlow
  have b := Real.log_le_log hx0 hlt.le
  rw [Real.log_zpow] at a b
  push_cast at a b
  rw [abs_le]
  constructor <;> linarith

theorem log_fact_le_sq {k : ℕ} (hk : k ≤ 2 ^ 64) : |Real.log k.factorial| ≤ 2 ^ 200 := by
  rcases Nat.eq_zero_or_pos k with rfl | h
  · simp
  have h0 : (1 : ℝ) ≤ k.factorial := by exact_mod_cast Nat.factorial_pos k
  have h1 : (k.factorial : ℝ) ≤ (k : ℝ) ^ k := by exact_mod_cast Nat.factorial_le_pow k
  have hk0 : (0 : ℝ) < k := by exact_mod_cast h
  have hkr : (k : ℝ) ≤ 2 ^ 64 := by exact_mod_cast hk
  rw [abs_of_nonneg (Real.log_nonneg h0)]
  calc Real.log k.factorial ≤ Real.log ((k : ℝ) ^ k) := Real.log_le_log (by linarith) h1
    _ = k * Real.log k := by rw [Real.log_pow]
    _ ≤ k * k := mul_le_mul_of_nonneg_left ((Real.log_le_sub_one_of_pos hk0).trans (by linarith)) hk0.le
    _ ≤ 2 ^ 64 * 2 ^ 64 := mul_le_mul hkr hkr hk0.le (by norm_num)
    _ ≤ _ := by norm_num

theorem doubles_libm {u : ℝ} (hu : (2 : ℝ) ^ (-53 : ℤ) ≤ u) {N : ℕ} (hN : N ≤ 2 ^ 64) : LibmAccurate doubles u N where
  log x h hx := by
    have e : doubles.libm.log (Fl.fin x h) = roundNum doubles (Real.log x) := if_pos hx
    rw [e]
    refine doubles_round hu ?_ ((log_fin_le h hx).trans (by norm_num))
    rcases eq_or_ne x 1 with rfl | h1
    · left; simp
    · right; exact log_away h hx h1
  lgamma k h hk := by
    have e : doubles.libm.lgamma (Fl.fin ((k : ℝ) + 1) h) = roundNum doubles (Real.log k.factorial) := by
      show roundNum doubles (Real.log (⌊(k : ℝ) + 1⌋₊ - 1).factorial) = _
      rw [Nat.floor_add_one (Nat.cast_nonneg _), Nat.floor_natCast]
      rfl
    rw [e]
    refine doubles_round hu ?_ (log_fact_le_sq (hk.trans hN))
    rcases Nat.lt_or_ge k 2 with h1 | h1
    · left
      have : k = 0 ∨ k = 1 := by omega
      rcases this with rfl | rfl <;> simp
    · right
      have h2 : (2 : ℝ) ≤ k.factorial := by exact_mod_cast h1.trans (Nat.self_le_factorial k)
      have h3 := Real.log_le_log (by norm_num) h2
      have h4 := Real.log_two_gt_d9
      refine le_trans ?_ (le_abs_self _)
      refine le_trans ?_ h3
      refine le_trans ?_ h4.le
      norm_num
  exp x h hx := by
    have e : doubles.libm.exp (Fl.fin x h) = roundNum doubles (Real.exp x) := rfl
    rw [e]
    have hx' : |Real.exp x| ≤ (2 : ℝ) ^ (doubles.f.emax - 1) := by rwa [abs_of_pos (Real.exp_pos x)]
    obtain ⟨hfin, e⟩ := roundNum_fin (A := doubles) binary64_ok hx'
    refine ⟨_, hfin, e, fun h1 => ?_, fun h1 => ⟨?_, ?_⟩⟩
    · have := nearest_normal binary64_ok doubles.nearest (x := Real.exp x) (by rwa [abs_of_pos (Real.exp_pos x)])
      rw [abs_of_pos (Real.exp_pos x)] at this
      exact this.trans (mul_le_mul_of_nonneg_right hu (Real.exp_pos x).le)
    · have := nearest_mono doubles.nearest (Real.exp_pos x).le
      rwa [nearest_zero binary64_ok doubles.nearest] at this
    · refine (nearest_ulp binary64_ok doubles.nearest _ le_rfl ?_).trans (zpow_le_zpow_right₀ (by norm_num) (by rw [doubles_f]; omega))
      rw [abs_of_pos (Real.exp_pos x)]
      refine h1.le.trans ?_
      unfold Format.minNormal
      exact zpow_le_zpow_right₀ (by norm_num) (by rw [doubles_f]; norm_num [binary64])

/-! ### A correctly rounded FFT library -/

variable {A : FloatSystem} {u : ℝ}

/-- An FFT library whose results are the exact transforms, rounded. -/
def ieeeFFTW (A : FloatSystem) : FFTW (Num A) where
  r2c N xs k := (roundNum A (dft N (fun j => (Num.val (xs.getD j (Fl.nan : Num A)) : ℂ)) k).re,
    roundNum A (dft N (fun j => (Num.val (xs.getD j (Fl.nan : Num A)) : ℂ)) k).im)
  r2cClobber _ _ _ := (Fl.nan : Num A)
  c2r N Ys j := roundNum A (backward N (fun k =>
    ⟨Num.val (Ys.getD k ((Fl.nan : Num A), (Fl.nan : Num A))).1, Num.val (Ys.getD k ((Fl.nan : Num A), (Fl.nan : Num A))).2⟩) j)
  c2rClobber _ _ _ := ((Fl.nan : Num A), (Fl.nan : Num A))

theorem ieeeC_err (h : A.OK u) (z : ℂ) :
    ‖(⟨A.r z.re, A.r z.im⟩ : ℂ) - z‖ ≤ 2 * u * ‖z‖ + (2 : ℝ) ^ A.f.emin := by
  have h1 := round_abs h z.re
  have h2 := round_abs h z.im
  have h3 := Complex.norm_le_abs_re_add_abs_im ((⟨A.r z.re, A.r z.im⟩ : ℂ) - z)
  rw [Complex.sub_re, Complex.sub_im] at h3
  have e : (2 : ℝ) ^ A.f.emin = 2 ^ (A.f.emin - 1) + 2 ^ (A.f.emin - 1) := by
    rw [zpow_sub_one₀ (by norm_num)]; ring
  have h4 := mul_le_mul_of_nonneg_left (Complex.abs_re_le_norm z) h.u_pos.le
  have h5 := mul_le_mul_of_nonneg_left (Complex.abs_im_le_norm z) h.u_pos.le
  refine h3.trans ?_
  show |A.r z.re - z.re| + |A.r z.im - z.im| ≤ _
  linarith

theorem ieeeFFTW_accurate (h : A.OK u) (Nmax : ℕ) {W : ℝ} (hW : √Nmax * √Nmax * W + W ≤ (2 : ℝ) ^ (A.f.emax - 1)) :
    FFTAccurate (ieeeModel A u h) (ieeeFFTW A) Nmax (2 * u) (√Nmax * (2 : ℝ) ^ A.f.emin) W where
  delta_nonneg := by have := h.u_pos; positivity
  etaF_nonneg := by positivity
  r2c := by
    intro N hN x hx hl
    have u0 := h.u_pos
    have hsN : √(N : ℝ) ≤ √Nmax := Real.sqrt_le_sqrt (by exact_mod_cast hN)
    set X : ℕ → ℝ := fun j => Num.val (x j) with hX
    have hWl : l1 N X ≤ W := hl
    have hW0 : 0 ≤ W := (l1_nonneg _ _).trans hWl
    have hWO : W ≤ (2 : ℝ) ^ (A.f.emax - 1) := by
      have : 0 ≤ √(Nmax : ℝ) * √Nmax * W := by positivity
      linarith
    have hd : ∀ k, dft N (fun j => (Num.val (((List.range N).map x).getD j (Fl.nan : Num A)) : ℂ)) k = dft N (fun j => (X j : ℂ)) k := by
      intro k
      unfold dft
      refine Finset.sum_congr rfl fun j hj => ?_
      have : j < N := Finset.mem_range.mp hj
      have e : ((List.range N).map x).getD j (Fl.nan : Num A) = x j := by simp [List.getD, this]; rfl
      beta_reduce
      rw [e]
    have hnorm : ∀ k, ‖dft N (fun j => (X j : ℂ)) k‖ ≤ (2 : ℝ) ^ (A.f.emax - 1) := fun k => (dft_norm_le N X k).trans (hWl.trans hWO)
    have hre : ∀ k, Num.finite (roundNum A (dft N (fun j => (X j : ℂ)) k).re) ∧
        Num.val (roundNum A (dft N (fun j => (X j : ℂ)) k).re) = A.r (dft N (fun j => (X j : ℂ)) k).re :=
      fun k => roundNum_finite h.fmt ((Complex.abs_re_le_norm _).trans (hnorm k))
    have him : ∀ k, Num.finite (roundNum A (dft N (fun j => (X j : ℂ)) k).im) ∧
        Num.val (roundNum A (dft N (fun j => (X j : ℂ)) k).im) = A.r (dft N (fun j => (X j : ℂ)) k).im :=
      fun k => roundNum_finite h.fmt ((Complex.abs_im_le_norm _).trans (hnorm k))
    have hc : ∀ k, (ieeeFFTW A).r2c N ((List.range N).map x) k
        = (roundNum A (dft N (fun j => (X j : ℂ)) k).re, roundNum A (dft N (fun j => (X j : ℂ)) k).im) := by
      intro k
      rw [← hd k]; rfl
    have hv : ∀ k, (ieeeModel A u h).valC ((ieeeFFTW A).r2c N ((List.range N).map x) k)
        = ⟨A.r (dft N (fun j => (X j : ℂ)) k).re, A.r (dft N (fun j => (X j : ℂ)) k).im⟩ := by
      intro k
      rw [hc k]
      show (⟨Num.val _, Num.val _⟩ : ℂ) = _
      rw [(hre k).2, (him k).2]
    refine ⟨fun k _ => by rw [hc k]; exact ⟨(hre k).1, (him k).1⟩, ?_⟩
    rcases Nat.eq_zero_or_pos N with rfl | hN0
    · have h0 : l2 (0 / 2 + 1) (fun k => (ieeeModel A u h).valC ((ieeeFFTW A).r2c 0 ((List.range 0).map x) k)
          - dft 0 (fun j => ((ieeeModel A u h).val (x j) : ℂ)) k) = 0 := by
        have e0 : ∀ k, (ieeeModel A u h).valC ((ieeeFFTW A).r2c 0 ((List.range 0).map x) k)
            - dft 0 (fun j => ((ieeeModel A u h).val (x j) : ℂ)) k = 0 := by
          intro k
          rw [hv k]
          have z : ∀ g : ℕ → ℂ, dft 0 g k = 0 := fun g => by simp [dft]
          rw [z, z]
          show (⟨A.r 0, A.r 0⟩ : ℂ) - 0 = 0
          rw [nearest_zero h.fmt A.nearest, sub_zero]
          rfl
        simp only [e0]
        simp [l2]
      rw [h0]
      have := l2_nonneg 0 (fun j => (ieeeModel A u h).val (x j))
      positivity
    · have h1 : l2 (N / 2 + 1) (fun k => (ieeeModel A u h).valC ((ieeeFFTW A).r2c N ((List.range N).map x) k)
            - dft N (fun j => (X j : ℂ)) k)
          ≤ l2 (N / 2 + 1) fun k => 2 * u * ‖dft N (fun j => (X j : ℂ)) k‖ + (2 : ℝ) ^ A.f.emin := by
        refine l2_mono fun k _ => ?_
        rw [hv k, Real.norm_of_nonneg (by positivity)]
        exact ieeeC_err h _
      refine h1.trans ((l2_add _ _ _).trans (add_le_add ?_ ?_))
      · rw [l2_smul _ (show (0 : ℝ) ≤ 2 * u by linarith), mul_assoc (2 * u)]
        refine mul_le_mul_of_nonneg_left ?_ (show (0 : ℝ) ≤ 2 * u by linarith)
        rw [l2_norm]
        show _ ≤ √N * l2 N X
        rw [← l2_dft (by omega)]
        exact l2_len (by omega) _
      · rw [l2_const _ (by positivity)]
        refine mul_le_mul_of_nonneg_right (Real.sqrt_le_sqrt ?_) (by positivity)
        exact_mod_cast (by omega : N / 2 + 1 ≤ Nmax)
  c2r := by
    intro N hN Y hY hl
    have u0 := h.u_pos
    have hsN : √(N : ℝ) ≤ √Nmax := Real.sqrt_le_sqrt (by exact_mod_cast hN)
    set V : ℕ → ℂ := fun k => (ieeeModel A u h).valC (Y k) with hV
    have hW0 : 0 ≤ W := (l2_nonneg _ _).trans hl
    have hb : ∀ j, backward N (fun k => ⟨Num.val (((List.range (N / 2 + 1)).map Y).getD k ((Fl.nan : Num A), (Fl.nan : Num A))).1,
        Num.val (((List.range (N / 2 + 1)).map Y).getD k ((Fl.nan : Num A), (Fl.nan : Num A))).2⟩) j = backward N V j := by
      intro j
      unfold backward
      congr 1
      refine Finset.sum_congr rfl fun k hk => ?_
      have : k < N := Finset.mem_range.mp hk
      congr 1
      unfold hermitian
      split
      · have h : k < N / 2 + 1 := by omega
        have e : ((List.range (N / 2 + 1)).map Y).getD k ((Fl.nan : Num A), (Fl.nan : Num A)) = Y k := by simp [List.getD, h]
        beta_reduce
        rw [e]; rfl
      · have h : N - k < N / 2 + 1 := by omega
        have e : ((List.range (N / 2 + 1)).map Y).getD (N - k) ((Fl.nan : Num A), (Fl.nan : Num A)) = Y (N - k) := by simp [List.getD, h]
        beta_reduce
        rw [e]; rfl
    have hnorm : ∀ j < N, |backward N V j| ≤ (2 : ℝ) ^ (A.f.emax - 1) := by
      intro j hj
      have a := norm_le_l2 (backward N V) hj
      rw [Real.norm_eq_abs] at a
      have b := l2_backward (show N ≠ 0 by omega) V
      have c : √(N : ℝ) * l2 N (hermitian N V) ≤ √Nmax * W := mul_le_mul hsN hl (l2_nonneg _ _) (Real.sqrt_nonneg _)
      have d : √(Nmax : ℝ) * W ≤ √Nmax * √Nmax * W := by
        refine mul_le_mul_of_nonneg_right (le_mul_of_one_le_right (Real.sqrt_nonneg _) ?_) hW0
        rw [Real.one_le_sqrt]
        exact_mod_cast (by omega : 1 ≤ Nmax)
      linarith
    have hc : ∀ j, (ieeeFFTW A).c2r N ((List.range (N / 2 + 1)).map Y) j = roundNum A (backward N V j) := by
      intro j
      rw [← hb j]; rfl
    have hf : ∀ j < N, Num.finite (roundNum A (backward N V j)) ∧ Num.val (roundNum A (backward N V j)) = A.r (backward N V j) :=
      fun j hj => roundNum_finite h.fmt (hnorm j hj)
    refine ⟨fun j hj => by rw [hc j]; exact (hf j hj).1, ?_⟩
    have h1 : l2 N (fun j => (ieeeModel A u h).val ((ieeeFFTW A).c2r N ((List.range (N / 2 + 1)).map Y) j) - backward N V j)
        ≤ l2 N fun j => u * ‖backward N V j‖ + (2 : ℝ) ^ (A.f.emin - 1) := by
      refine l2_mono fun j hj => ?_
      have e : (ieeeModel A u h).val ((ieeeFFTW A).c2r N ((List.range (N / 2 + 1)).map Y) j) = A.r (backward N V j) := by
        rw [hc j]; exact (hf j hj).2
      rw [e, Real.norm_eq_abs, Real.norm_eq_abs, Real.norm_eq_abs, abs_of_nonneg (a := u * |backward N V j| + (2 : ℝ) ^ (A.f.emin - 1)) (add_nonneg (mul_nonneg u0.le (abs_nonneg _)) (by positivity))]
      exact round_abs h _
    refine h1.trans ((l2_add _ _ _).trans (add_le_add ?_ ?_))
    · rw [l2_smul _ u0.le, l2_norm, mul_assoc, mul_assoc]
      rcases Nat.eq_zero_or_pos N with rfl | hN0
      · simp [l2]
      · have := l2_backward (show N ≠ 0 by omega) V
        have h2 := mul_le_mul_of_nonneg_left this u0.le
        have h3 : 0 ≤ u * (√(N : ℝ) * l2 N (hermitian N V)) := by
          have := l2_nonneg N (hermitian N V)
          positivity
        linarith
    · rw [l2_const _ (by positivity)]
      exact mul_le_mul hsN (zpow_le_zpow_right₀ (by norm_num) (by omega)) (by positivity) (Real.sqrt_nonneg _)

/-- Merge sort by location. -/
def ieeeSort (l : List (Bound (Num A))) : List (Bound (Num A)) :=
  l.mergeSort fun x y => decide (Num.val x.location ≤ Num.val y.location)

theorem ieeeSort_contract (h : A.OK u) : SortContractF (ieeeModel A u h) ieeeSort where
  perm l := List.mergeSort_perm l _
  sorted l hfin := by
    have hs := List.pairwise_mergeSort (le := fun x y : Bound (Num A) => decide (Num.val x.location ≤ Num.val y.location))
      (fun a b c => by simpa using le_trans) (fun a b => by simpa using le_total _ _) l
    refine hs.imp_of_mem ?_
    intro x y hx hy hxy
    rw [Bool.eq_false_iff, Ne, (ieeeModel A u h).lt_iff _ _ (hfin y (List.mem_mergeSort.mp hy))
      (hfin x (List.mem_mergeSort.mp hx))]
    exact not_lt.mpr (of_decide_eq_true hxy)

end
end CP.Spec
