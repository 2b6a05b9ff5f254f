import Verif.Proofs.IeeeMcErr
import Verif.Proofs.AntiConc
import Verif.Proofs.McLaw
/-! Double-precision simulation with draws rounded down to multiples of `2^-52`: how far the simulated points are from
those of exact arithmetic. -/
open MeasureTheory Set
namespace CP.Spec
open FOps McSpec Props
noncomputable section
variable {A : FloatSystem}

/-- A draw `x` in `[0,1)`, cut off after 52 binary digits. -/
def gridNum (A : FloatSystem) (x : ℝ) : Num A := roundNum A ((⌊2 ^ 52 * x⌋ : ℝ) / 2 ^ 52)

theorem gridNum_eq (hA : A.f = binary64) {x : ℝ} (h0 : 0 ≤ x) (h1 : x < 1) :
    ∃ (k : ℕ) (hk : k < 2 ^ 52), gridNum A x = mkNum A ((k : ℝ) / 2 ^ 52) (grid_fin hA (by omega)) ∧
      (k : ℝ) / 2 ^ 52 ≤ x ∧ x < (k : ℝ) / 2 ^ 52 + 1 / 2 ^ 52 := by
  have hfl : 0 ≤ ⌊(2 : ℝ) ^ 52 * x⌋ := Int.floor_nonneg.mpr (by positivity)
  obtain ⟨k, hk⟩ := Int.eq_ofNat_of_zero_le hfl
  have a1 := Int.floor_le ((2 : ℝ) ^ 52 * x)
  have a2 := Int.lt_floor_add_one ((2 : ℝ) ^ 52 * x)
  rw [hk] at a1 a2
  push_cast at a1 a2
  have hk2 : k < 2 ^ 52 := by
    have : (k : ℝ) < 2 ^ 52 := by
      have : (2 : ℝ) ^ 52 * x < 2 ^ 52 := mul_lt_of_lt_one_right (by positivity) h1
      linarith
    exact_mod_cast this
  refine ⟨k, hk2, ?_, ?_, ?_⟩
  · unfold gridNum
    rw [hk, Int.cast_natCast]
    exact roundNum_of_fin _
  · rw [div_le_iff₀ (by positivity)]; linarith
  · rw [← add_div, lt_div_iff₀ (by positivity)]; linarith

/-- The logarithm of such a draw. -/
theorem grid_lognum (hA : A.f = binary64) (hlog : LogAccurate A u50) {x : ℝ} (hx : 1 / 2 ^ 50 ≤ x) (hx1 : x < 1) :
    ∃ v hh, FOps.log (gridNum A x) = mkNum A (-v) hh ∧ 1 / 2 ^ 54 ≤ v ∧ v ≤ 38 ∧
      |v - -Real.log x| ≤ u50 / x + u50 * -Real.log x := by
  have hx0 : 0 < x := lt_of_lt_of_le (by positivity) hx
  obtain ⟨k, hk, e, g1, g2⟩ := gridNum_eq hA hx0.le hx1
  have hg : 3 / 4 * x ≤ (k : ℝ) / 2 ^ 52 := by
    have : (1 : ℝ) / 2 ^ 52 ≤ x / 4 := by norm_num at hx ⊢; linarith
    linarith
  have hg0 : 0 < (k : ℝ) / 2 ^ 52 := by linarith [mul_pos (show (0 : ℝ) < 3 / 4 by norm_num) hx0]
  have hk0 : 0 < k := by
    rcases Nat.eq_zero_or_pos k with rfl | h
    · simp at hg0
    · exact h
  obtain ⟨l1, l2⟩ := grid_log hk0 hk
  have hk1 : (k : ℝ) / 2 ^ 52 ≤ 1 - 1 / 2 ^ 52 := by
    rw [← one_div_mul_eq_div, le_sub_iff_add_le, ← mul_add_one]
    have : (k : ℝ) + 1 ≤ 2 ^ 52 := by exact_mod_cast hk
    calc (1 : ℝ) / 2 ^ 52 * (k + 1) ≤ 1 / 2 ^ 52 * 2 ^ 52 := mul_le_mul_of_nonneg_left this (by positivity)
      _ = 1 := by norm_num
  set g := (k : ℝ) / 2 ^ 52 with hgdef
  have l3 : 1 / 2 ^ 52 ≤ -Real.log g := by linarith [Real.log_le_sub_one_of_pos hg0]
  obtain ⟨v, hh, e2, hv⟩ := hlog.log g (grid_fin hA (k := k) (by omega)) hg0
  rw [abs_of_neg (show Real.log g < 0 by linarith)] at hv
  have hlx : Real.log g ≤ Real.log x := Real.log_le_log hg0 g1
  have hd : Real.log x - Real.log g ≤ 4 / 3 * (1 / 2 ^ 52) / x := by
    rw [← Real.log_div hx0.ne' hg0.ne']
    refine (Real.log_le_sub_one_of_pos (div_pos hx0 hg0)).trans ?_
    rw [div_sub_one hg0.ne', div_le_div_iff₀ hg0 hx0]
    have : (x - g) * x ≤ 1 / 2 ^ 52 * x := mul_le_mul_of_nonneg_right (by linarith) hx0.le
    nlinarith
  have hu : u50 = 1 / 1125899906842624 := u50_val
  have hv' := abs_le.mp hv
  have hux : 4 / 3 * (1 / 2 ^ 52) / x ≤ 1 / 2 * (u50 / x) := by
    rw [show 1 / 2 * (u50 / x) = (1 / 2 * u50) / x by ring, div_le_div_iff_of_pos_right hx0, hu]
    norm_num
  have hux0 : 0 ≤ u50 / x := by rw [hu]; positivity
  have hneg : - -v = v := neg_neg v
  refine ⟨-v, hneg.symm ▸ hh, ?_, ?_, ?_, ?_⟩
  · rw [e]
    refine Eq.trans (show FOps.log (mkNum A g _) = (A.libm.log (Fl.fin g _) : Num A) from rfl) (e2.trans ?_)
    exact mkNum_congr hneg.symm
  · rw [hu] at hv'
    norm_num at l3 ⊢
    linarith
  · rw [hu] at hv'; linarith
  · have h1 : |-v - -Real.log x| ≤ |v - Real.log g| + |Real.log x - Real.log g| := by
      have := abs_add_le (-(v - Real.log g)) (Real.log x - Real.log g)
      rwa [abs_neg, show -(v - Real.log g) + (Real.log x - Real.log g) = -v - -Real.log x by ring] at this
    rw [abs_of_nonneg (by linarith : 0 ≤ Real.log x - Real.log g)] at h1
    have h2 : u50 * -Real.log g ≤ u50 * -Real.log x + u50 * (1 / 2 * (u50 / x)) := by
      have hu0 : 0 ≤ u50 := by rw [hu]; norm_num
      rw [← mul_add]
      exact mul_le_mul_of_nonneg_left (by linarith) hu0
    have h3 : u50 * (1 / 2 * (u50 / x)) ≤ 1 / 2 * (u50 / x) := mul_le_of_le_one_left (by linarith) (by rw [hu]; norm_num)
    linarith

/-- The exponential random number made from such a draw. -/
theorem grid_exp (hA : A.f = binary64) (hlog : LogAccurate A u50) {x : ℝ} (hx : 1 / 2 ^ 50 ≤ x) (hx1 : x < 1) :
    ∃ v hh, (FOps.neg (one : Num A) *ᶠ FOps.log (gridNum A x) : Num A) = mkNum A v hh ∧ 0 < v ∧ v ≤ 38 ∧
      |v - -Real.log x| ≤ u50 / x + u50 * -Real.log x := by
  have hf : A.f.OK := hA ▸ binary64_ok
  obtain ⟨v, hh, e, h1, h2, h3⟩ := grid_lognum hA hlog hx hx1
  refine ⟨- -v, Fin.neg hh, by rw [e]; exact neg_one_mul_fin hf hh, ?_, ?_, ?_⟩
  · rw [neg_neg]; exact lt_of_lt_of_le (by positivity) h1
  · rw [neg_neg]; exact h2
  · rw [neg_neg]; exact h3

/-- The sum of `1 / u_j` for `j <= n`. -/
def recSum (u : ℕ → ℝ) (n : ℕ) : ℝ := ∑ j ∈ Finset.range (n + 1), 1 / u j

/-- Absolute error of the partial sums. -/
theorem grid_arrival (hA : A.f = binary64) (hlog : LogAccurate A u50) {u : ℕ → ℝ} {n : ℕ} (hn : n < 2 ^ 40)
    (hu : ∀ j, j ≤ n → 1 / 2 ^ 50 ≤ u j ∧ u j < 1) (k : ℕ) (hk : k ≤ n + 1) :
    ∃ a hh, arrival one (fun j => gridNum A (u j)) k = mkNum A a hh ∧ (0 < k → 0 < a) ∧
      |a - expSum u k| ≤ 2 * u50 * recSum u n + (2 * n + 4) * u50 * expSum u (n + 1) := by
  have h := double_ok hA
  have hu0 : u50 = 1 / 1125899906842624 := u50_val
  have hup : 0 < u50 := by rw [hu0]; norm_num
  choose e he using fun j : ℕ => show ∃ v : ℝ, j < n + 1 →
      (∃ hh, (FOps.neg (one : Num A) *ᶠ FOps.log (gridNum A (u j)) : Num A) = mkNum A v hh) ∧ 0 < v ∧ v ≤ 38 ∧
        |v - -Real.log (u j)| ≤ u50 / u j + u50 * -Real.log (u j) by
    by_cases hj : j < n + 1
    · obtain ⟨v, hh, e, h1, h2, h3⟩ := grid_exp hA hlog (hu j (by omega)).1 (hu j (by omega)).2
      exact ⟨v, fun _ => ⟨⟨hh, e⟩, h1, h2, h3⟩⟩
    · exact ⟨0, fun h => absurd h hj⟩
  have hnr : ((n + 1 : ℕ) : ℝ) ≤ 1099511627776 := by exact_mod_cast (show n + 1 ≤ 1099511627776 by norm_num at hn; omega)
  have hnr' : (n : ℝ) + 1 ≤ 1099511627776 := by exact_mod_cast hnr
  obtain ⟨a, hh, e1, ha⟩ := arrival_err h (d := fun j => gridNum A (u j)) (e := e) (m := n + 1) (M := 38) (by norm_num)
    (fun j hj => ⟨(he j hj).1, (he j hj).2.1.le, (he j hj).2.2.1⟩)
    (by rw [hu0]; linarith)
    (by
      have e : A.f.emax = 1024 := by rw [hA]; rfl
      rw [e]
      have : (2 : ℝ) ^ (60 : ℤ) ≤ (2 : ℝ) ^ ((1024 : ℤ) - 1) := zpow_le_zpow_right₀ (by norm_num) (by norm_num)
      refine le_trans ?_ this
      norm_num at hnr' ⊢
      linarith) k hk
  set S := ∑ j ∈ Finset.range k, e j with hS
  have hlpos : ∀ j, j < n + 1 → 0 ≤ -Real.log (u j) := fun j hj => by
    have := hu j (by omega)
    have h0 : 0 ≤ u j := le_trans (by positivity) this.1
    linarith [Real.log_nonpos h0 this.2.le]
  have hrpos : ∀ j, j < n + 1 → 0 ≤ 1 / u j := fun j hj => by
    have := hu j (by omega)
    have h0 : 0 ≤ u j := le_trans (by positivity) this.1
    positivity
  have hT : expSum u k ≤ expSum u (n + 1) := by
    unfold expSum
    exact Finset.sum_le_sum_of_subset_of_nonneg (Finset.range_mono hk) fun j hj _ => hlpos j (Finset.mem_range.mp hj)
  have hT0 : 0 ≤ expSum u (n + 1) := Finset.sum_nonneg fun j hj => hlpos j (Finset.mem_range.mp hj)
  have hR0 : 0 ≤ recSum u n := Finset.sum_nonneg fun j hj => hrpos j (Finset.mem_range.mp hj)
  have hD : |S - expSum u k| ≤ u50 * recSum u n + u50 * expSum u (n + 1) := by
    rw [hS]
    unfold expSum
    rw [← Finset.sum_sub_distrib]
    refine (Finset.abs_sum_le_sum_abs _ _).trans ?_
    calc ∑ j ∈ Finset.range k, |e j - -Real.log (u j)| ≤ ∑ j ∈ Finset.range k, (u50 * (1 / u j) + u50 * -Real.log (u j)) := by
          refine Finset.sum_le_sum fun j hj => ?_
          have := (he j (by rw [Finset.mem_range] at hj; omega)).2.2.2
          rwa [mul_one_div]
      _ ≤ ∑ j ∈ Finset.range (n + 1), (u50 * (1 / u j) + u50 * -Real.log (u j)) := by
          refine Finset.sum_le_sum_of_subset_of_nonneg (Finset.range_mono hk) fun j hj _ => ?_
          rw [Finset.mem_range] at hj
          exact add_nonneg (mul_nonneg hup.le (hrpos j hj)) (mul_nonneg hup.le (hlpos j hj))
      _ = _ := by rw [Finset.sum_add_distrib, ← Finset.mul_sum, ← Finset.mul_sum]; rfl
  have hkr : (k : ℝ) ≤ n + 1 := by exact_mod_cast hk
  have hku : (k : ℝ) * u50 ≤ (n + 1) * u50 := mul_le_mul_of_nonneg_right hkr hup.le
  have hnu : ((n : ℝ) + 1) * u50 ≤ 1 / 8 := by rw [hu0]; linarith
  have hpow := pow_half (u := u50) hup.le (m := k) (by linarith)
  have hpow1 : (1 + u50) ^ k - 1 ≤ 2 * ((n + 1) * u50) := by linarith
  have hS0 : 0 ≤ S := Finset.sum_nonneg fun j hj => (he j (by rw [Finset.mem_range] at hj; omega)).2.1.le
  have ha2 : |a - S| ≤ 2 * ((n + 1) * u50) * S := ha.trans (mul_le_mul_of_nonneg_right hpow1 hS0)
  refine ⟨a, hh, e1, fun hk0 => ?_, ?_⟩
  · have hSp : 0 < S := Finset.sum_pos (fun j hj => (he j (by rw [Finset.mem_range] at hj; omega)).2.1) ⟨0, by simpa using hk0⟩
    have := (abs_le.mp ha2).1
    nlinarith
  · have h1 : |a - expSum u k| ≤ |a - S| + |S - expSum u k| := by
      have := abs_add_le (a - S) (S - expSum u k)
      rwa [show a - S + (S - expSum u k) = a - expSum u k by ring] at this
    set Dd := u50 * recSum u n + u50 * expSum u (n + 1) with hDd
    have hD0 : 0 ≤ Dd := (abs_nonneg _).trans hD
    have h2 : S ≤ expSum u (n + 1) + Dd := by linarith [(abs_le.mp hD).2]
    have h3 : 2 * ((n + 1) * u50) * S ≤ 2 * ((n + 1) * u50) * (expSum u (n + 1) + Dd) := mul_le_mul_of_nonneg_left h2 (by positivity)
    have h4 : 2 * ((n + 1) * u50) * Dd ≤ 1 * Dd := mul_le_mul_of_nonneg_right (by linarith) hD0
    calc |a - expSum u k| ≤ 2 * ((n + 1) * u50) * expSum u (n + 1) + 2 * Dd := by linarith
      _ = _ := by rw [hDd]; ring

/-- Uncertainty of a comparison. -/
def gam (n : ℕ) (delta : ℝ) (u : ℕ → ℝ) : ℝ :=
  6 * u50 * recSum u n + ((6 * n + 14) * u50 + delta) * expSum u (n + 1)

/-- A simulated point is on the same side of a boundary as the point of exact arithmetic, unless that is very close to the
boundary. -/
theorem grid_sample (hA : A.f = binary64) (hlog : LogAccurate A u50) {u : ℕ → ℝ} {n : ℕ} (hn : n < 2 ^ 40)
    (hu : ∀ j, j ≤ n → 1 / 2 ^ 50 ≤ u j ∧ u j < 1) {i : ℕ} (hi : i < n) :
    ∃ y hh, (sample (fun j => gridNum A (u j)) n)[i]? = some (mkNum A y hh) ∧
      ∀ v delta : ℝ, 0 ≤ v → v ≤ 1 → 0 ≤ delta → delta ≤ 1 / 2 →
        (gam n delta u < expSum u (i + 1) - v * expSum u (n + 1) → v + delta < y) ∧
        (gam n delta u < v * expSum u (n + 1) - expSum u (i + 1) → y < v - delta) := by
  have hf : A.f.OK := hA ▸ binary64_ok
  have hu0 : u50 = 1 / 1125899906842624 := u50_val
  have hup : 0 < u50 := by rw [hu0]; norm_num
  obtain ⟨a, ha, e1, a0, herr⟩ := grid_arrival hA hlog hn hu (i + 1) (by omega)
  obtain ⟨c, hc, e2, c0, herr2⟩ := grid_arrival hA hlog hn hu (n + 1) le_rfl
  have ha0 := a0 (by omega)
  have hc0 := c0 (by omega)
  -- the sum only grows
  have hac : a ≤ c := by
    have hunit : UnitDraws (fun j => if j ≤ n then gridNum A (u j) else zero) := by
      intro j
      by_cases hj : j ≤ n
      · have hx := hu j hj
        obtain ⟨k, hk, e, -, -⟩ := gridNum_eq hA (le_trans (by positivity) hx.1) hx.2
        refine ⟨(k : ℝ) / 2 ^ 52, grid_fin hA (by omega), by positivity, ?_, (if_pos hj).trans e⟩
        rw [div_le_one (by positivity)]
        exact_mod_cast hk.le
      · exact ⟨0, fin_zero hf, le_rfl, zero_le_one, (if_neg hj).trans (num_zero hf)⟩
    have hcongr : ∀ k, k ≤ n + 1 → arrival one (fun j => if j ≤ n then gridNum A (u j) else zero) k = arrival one (fun j => gridNum A (u j)) k := by
      intro k
      induction k with
      | zero => intro _; rfl
      | succ k ih =>
        intro hk
        rw [arrival, arrival, ih (by omega), if_pos (by omega)]
    have hle := arrival_le hf (hlog.sign (by rw [hu0]; norm_num)) hunit (show i + 1 ≤ n + 1 by omega)
    rw [hcongr _ (by omega), hcongr _ le_rfl, e1, e2] at hle
    rcases hle with h3 | ⟨a', ha', b, hb, hab, h4, h5⟩
    · cases h3
    · have e5 : a = a' := by injection h4
      have e6 : c = b := by injection h5
      rw [e5, e6]; exact hab
  obtain ⟨hh, e3, y0, y1⟩ := roundNum_unit (A := A) hf (x := a / c) (by positivity) ((div_le_one hc0).mpr hac)
  have hy : |A.r (a / c) - a / c| ≤ 2 * u50 := by
    have := round_abs (double_ok hA) (a / c)
    have hmin : A.f.emin = -1074 := by rw [hA]; rfl
    rw [abs_of_nonneg (by positivity : 0 ≤ a / c), hmin] at this
    have h3 : (2 : ℝ) ^ ((-1074 : ℤ) - 1) ≤ u50 := zpow_le_zpow_right₀ (by norm_num) (by norm_num)
    have h4 : u50 * (a / c) ≤ u50 := mul_le_of_le_one_right hup.le ((div_le_one hc0).mpr hac)
    exact this.trans ((add_le_add h4 h3).trans (by linarith))
  refine ⟨A.r (a / c), hh, ?_, ?_⟩
  · rw [sample_get, if_pos hi, e1, e2, div_fin _ _ hc0.ne', e3]
  intro v delta v0 v1 d0 d1
  set T := expSum u (n + 1) with hT
  set X := expSum u (i + 1) with hX
  set err := 2 * u50 * recSum u n + (2 * n + 4) * u50 * T with herrdef
  have hg : gam n delta u = 3 * err + (2 * u50 + delta) * T := by
    unfold gam
    rw [← hT, herrdef]; ring
  have herr0 : 0 ≤ err := (abs_nonneg _).trans herr
  have b1 := abs_le.mp herr
  have b2 := abs_le.mp herr2
  have b3 := abs_le.mp hy
  have hq : a / c * c = a := div_mul_cancel₀ a hc0.ne'
  have hd1 : 2 * u50 + delta ≤ 1 := by rw [hu0]; linarith
  have hd0 : 0 ≤ 2 * u50 + delta := by linarith
  have m1 : v * (c - T) ≤ 1 * err := by nlinarith
  have m1' : -err ≤ v * (c - T) := by nlinarith
  have m2 : (2 * u50 + delta) * (c - T) ≤ err := by nlinarith
  rw [hg]
  constructor
  · intro hgt
    have : (v + delta + 2 * u50) * c < a / c * c := by rw [hq]; nlinarith
    have := lt_of_mul_lt_mul_right this hc0.le
    linarith
  · intro hgt
    have : a / c * c < (v - delta - 2 * u50) * c := by rw [hq]; nlinarith
    have := lt_of_mul_lt_mul_right this hc0.le
    linarith

end
end CP.Spec
