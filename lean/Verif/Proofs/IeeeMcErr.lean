import Verif.Proofs.IeeeMc
import Verif.Props.Ieee
/-! Rounding errors of the Monte-Carlo simulation. -/
namespace CP.Spec
open FOps McSpec
noncomputable section
variable {A : FloatSystem}

theorem LogAccurate.sign {u : ℝ} (h : LogAccurate A u) (hu : u ≤ 1) : LogSign A := by
  intro x hx h0 h1
  rcases h0.eq_or_lt with rfl | hp
  · exact Or.inl (h.zero hx)
  · right
    obtain ⟨v, h', e, hv⟩ := h.log x hx hp
    refine ⟨v, h', e, ?_⟩
    have hl : Real.log x ≤ 0 := Real.log_nonpos hp.le h1
    rw [abs_of_nonpos hl] at hv
    have := (abs_le.mp hv).2
    nlinarith

theorem pow_half {u : ℝ} (hu : 0 ≤ u) {m : ℕ} (hm : m * u ≤ 1 / 2) : (1 + u) ^ m ≤ 1 + 2 * (m * u) := by
  have h1 : (1 + u) ^ m ≤ Real.exp (m * u) := by
    calc (1 + u) ^ m ≤ (Real.exp u) ^ m := by
          refine pow_le_pow_left₀ (by linarith) ?_ m
          linarith [Real.add_one_le_exp u]
      _ = Real.exp (m * u) := by rw [← Real.exp_nat_mul]
  refine h1.trans ?_
  have h0 : 0 ≤ (m : ℝ) * u := by positivity
  have := Real.exp_bound' h0 (by linarith) (n := 2) (by norm_num)
  simp [Finset.sum_range_succ] at this
  nlinarith

/-- The partial sums of exponential random numbers, with the relative error of `k` additions. -/
theorem arrival_err {u : ℝ} (h : A.OK u) {beta : Num A} {d : ℕ → Num A} {e : ℕ → ℝ} {m : ℕ} {M : ℝ} (hM0 : 0 ≤ M)
    (he : ∀ j, j < m → (∃ hh, (FOps.neg beta *ᶠ FOps.log (d j) : Num A) = mkNum A (e j) hh) ∧ 0 ≤ e j ∧ e j ≤ M)
    (hm : m * u ≤ 1 / 2) (hM : 2 * (m * M) ≤ (2 : ℝ) ^ (A.f.emax - 1)) (k : ℕ) (hk : k ≤ m) :
    ∃ a hh, arrival beta d k = mkNum A a hh ∧
      |a - ∑ j ∈ Finset.range k, e j| ≤ ((1 + u) ^ k - 1) * ∑ j ∈ Finset.range k, e j := by
  have hu := h.u_pos
  induction k with
  | zero => exact ⟨0, fin_zero h.fmt, num_zero h.fmt, by simp⟩
  | succ k ih =>
    obtain ⟨a, ha, e1, hb⟩ := ih (by omega)
    obtain ⟨⟨hh, e2⟩, h0, h1⟩ := he k (by omega)
    set s := ∑ j ∈ Finset.range k, e j with hs
    have hs0 : 0 ≤ s := Finset.sum_nonneg fun j hj => (he j (by rw [Finset.mem_range] at hj; omega)).2.1
    have hsM : s + e k ≤ m * M := by
      rw [hs, ← Finset.sum_range_succ]
      calc ∑ j ∈ Finset.range (k + 1), e j ≤ ∑ j ∈ Finset.range (k + 1), M :=
            Finset.sum_le_sum fun j hj => (he j (by rw [Finset.mem_range] at hj; omega)).2.2
        _ = (k + 1 : ℕ) * M := by simp
        _ ≤ m * M := mul_le_mul_of_nonneg_right (by exact_mod_cast hk) hM0
    have hq1 : 1 ≤ (1 + u) ^ k := one_le_pow₀ (by linarith)
    have hq2 : (1 + u) ^ k ≤ 2 := by
      have hkm : (k : ℝ) * u ≤ m * u := mul_le_mul_of_nonneg_right (by exact_mod_cast (by omega : k ≤ m)) hu.le
      have := pow_half hu.le (m := k) (by linarith)
      linarith
    have ha' := abs_le.mp hb
    have hap : 0 ≤ a + e k := by nlinarith
    have hae : a + e k ≤ (1 + u) ^ k * (s + e k) := by nlinarith
    have hbig : |a + e k| ≤ (2 : ℝ) ^ (A.f.emax - 1) := by
      rw [abs_of_nonneg hap]
      refine hae.trans (le_trans ?_ hM)
      have : 0 ≤ s + e k := by linarith
      nlinarith
    obtain ⟨⟨b, hb', e3⟩, h4⟩ := ieee_add h (mkNum A a ha) (mkNum A (e k) hh) ⟨a, ha, rfl⟩ ⟨_, hh, rfl⟩ hbig
    refine ⟨b, hb', by rw [arrival, e1, e2, e3], ?_⟩
    rw [e3] at h4
    change |b - (a + e k)| ≤ u * |a + e k| at h4
    rw [abs_of_nonneg hap] at h4
    rw [Finset.sum_range_succ, ← hs]
    have h5 : |b - (s + e k)| ≤ |b - (a + e k)| + |a - s| := by
      have := abs_add_le (b - (a + e k)) (a - s)
      rwa [show b - (a + e k) + (a - s) = b - (s + e k) by ring] at this
    have h6 : u * (a + e k) ≤ u * ((1 + u) ^ k * (s + e k)) := mul_le_mul_of_nonneg_left hae hu.le
    have h7 : ((1 + u) ^ k - 1) * s ≤ ((1 + u) ^ k - 1) * (s + e k) := mul_le_mul_of_nonneg_left (by linarith) (by linarith)
    rw [pow_succ]
    nlinarith

/-- The exponential random number made from a positive draw. -/
theorem expNum_err {u : ℝ} (hf : A.f.OK) (hlog : LogAccurate A u) {x : ℝ} (h : A.f.Fin x) (h0 : 0 < x) :
    ∃ v hh, (FOps.neg (one : Num A) *ᶠ FOps.log (mkNum A x h) : Num A) = mkNum A v hh ∧
      |v - (-Real.log x)| ≤ u * |Real.log x| := by
  obtain ⟨v, h', e, hv⟩ := hlog.log x h h0
  refine ⟨-v, Fin.neg h', ?_, ?_⟩
  · have e1 : FOps.log (mkNum A x h) = (A.libm.log (Fl.fin x h) : Num A) := rfl
    rw [e1, e]
    exact neg_one_mul_fin hf h'
  · rw [show -v - -Real.log x = -(v - Real.log x) by ring, abs_neg]
    exact hv

/-- `-log` of a positive number with 52 bits after the point. -/
theorem grid_log {k : ℕ} (h0 : 0 < k) (hk : k < 2 ^ 52) :
    0 < -Real.log ((k : ℝ) / 2 ^ 52) ∧ -Real.log ((k : ℝ) / 2 ^ 52) ≤ 37 := by
  have hk0 : (1 : ℝ) ≤ k := by exact_mod_cast h0
  have hk1 : (k : ℝ) < 2 ^ 52 := by exact_mod_cast hk
  have hp : (0 : ℝ) < (k : ℝ) / 2 ^ 52 := by positivity
  constructor
  · have := Real.log_neg hp (by rw [div_lt_one (by positivity)]; exact hk1)
    linarith
  · rw [Real.log_div (by positivity) (by positivity), Real.log_pow]
    have h1 := Real.log_nonneg hk0
    have h2 := Real.log_two_lt_d9
    push_cast
    linarith

/-- Without a draw equal to 0 no infinity and no NaN appears. -/
theorem sample_finite (hA : A.f = binary64) (hlog : LogAccurate A Props.u50) {d : ℕ → Num A} {n : ℕ} (hn : n < 2 ^ 40)
    (hd : ∀ j, j ≤ n → ∃ (k : ℕ) (hk : k < 2 ^ 52), 0 < k ∧ d j = mkNum A ((k : ℝ) / 2 ^ 52) (grid_fin hA (by omega))) :
    ∀ x ∈ sample d n, Num.finite x := by
  have h := Props.double_ok hA
  have hf := h.fmt
  have hexp : ∀ j, j < n + 1 → ∃ v : ℝ, (∃ hh, (FOps.neg (one : Num A) *ᶠ FOps.log (d j) : Num A) = mkNum A v hh) ∧ 0 < v ∧ v ≤ 38 := by
    intro j hj
    obtain ⟨k, hk, hk0, e⟩ := hd j (by omega)
    obtain ⟨g1, g2⟩ := grid_log hk0 hk
    obtain ⟨v, hh, e2, hv⟩ := expNum_err hf hlog (grid_fin hA (k := k) (by omega)) (by positivity)
    rw [abs_of_neg (show Real.log ((k : ℝ) / 2 ^ 52) < 0 by linarith), Props.u50_val] at hv
    have := abs_le.mp hv
    exact ⟨v, ⟨hh, by rw [e]; exact e2⟩, by linarith, by linarith⟩
  choose e he using fun j : ℕ => show ∃ v : ℝ, j < n + 1 → (∃ hh, (FOps.neg (one : Num A) *ᶠ FOps.log (d j) : Num A) = mkNum A v hh) ∧ 0 < v ∧ v ≤ 38 by
    by_cases hj : j < n + 1
    · obtain ⟨v, hv⟩ := hexp j hj
      exact ⟨v, fun _ => hv⟩
    · exact ⟨0, fun h => absurd h hj⟩
  have hnr : ((n + 1 : ℕ) : ℝ) ≤ 2 ^ 40 := by exact_mod_cast hn
  have harr := arrival_err h (d := d) (e := e) (m := n + 1) (M := 38) (by norm_num)
    (fun j hj => ⟨(he j hj).1, (he j hj).2.1.le, (he j hj).2.2⟩)
    (by rw [Props.u50_val]; linarith)
    (by
      have e : A.f.emax = 1024 := by rw [hA]; rfl
      rw [e]
      have : (2 : ℝ) ^ (60 : ℤ) ≤ (2 : ℝ) ^ ((1024 : ℤ) - 1) := zpow_le_zpow_right₀ (by norm_num) (by norm_num)
      refine le_trans ?_ this
      norm_num at hnr ⊢
      linarith)
  obtain ⟨c, hc, e1, hc2⟩ := harr (n + 1) le_rfl
  have hS : 0 < ∑ j ∈ Finset.range (n + 1), e j := Finset.sum_pos (fun j hj => (he j (by simpa using hj)).2.1) ⟨0, by simp⟩
  have hc0 : c ≠ 0 := by
    rintro rfl
    rw [zero_sub, abs_neg, abs_of_pos hS] at hc2
    have h1 := pow_half (u := Props.u50) (by rw [Props.u50_val]; norm_num) (m := n + 1) (by rw [Props.u50_val]; linarith)
    have h2 : ((n + 1 : ℕ) : ℝ) * Props.u50 ≤ 1 / 8 := by rw [Props.u50_val]; linarith
    nlinarith
  intro x hx
  unfold sample at hx
  rw [List.mem_map] at hx
  obtain ⟨i, hi, rfl⟩ := hx
  rw [List.mem_range] at hi
  obtain ⟨a, ha, e2, ha2⟩ := harr (i + 1) (by omega)
  have hunit : UnitDraws (fun j => if j ≤ n then d j else zero) := by
    intro j
    by_cases hj : j ≤ n
    · obtain ⟨k, hk, hk0, e⟩ := hd j hj
      refine ⟨(k : ℝ) / 2 ^ 52, grid_fin hA (by omega), by positivity, ?_, (if_pos hj).trans e⟩
      rw [div_le_one (by positivity)]
      exact_mod_cast hk.le
    · exact ⟨0, fin_zero hf, le_rfl, zero_le_one, (if_neg hj).trans (num_zero hf)⟩
  have hcongr : ∀ k, k ≤ n + 1 → arrival one (fun j => if j ≤ n then d j else zero) k = arrival one d k := by
    intro k
    induction k with
    | zero => intro _; rfl
    | succ k ih =>
      intro hk
      rw [arrival, arrival, ih (by omega), if_pos (by omega)]
  have hsgn := hlog.sign (by rw [Props.u50_val]; norm_num)
  have hle := arrival_le hf hsgn hunit (show i + 1 ≤ n + 1 by omega)
  have hnn := arrival_nonneg hf hsgn hunit (i + 1)
  rw [hcongr _ (by omega), hcongr _ le_rfl] at hle
  rw [hcongr _ (by omega)] at hnn
  rw [e1, e2] at hle ⊢
  rw [e2] at hnn
  rcases div_unit hf hnn hle with h' | ⟨y, hy, -, -, h'⟩
  · rw [div_fin _ _ hc0] at h'
    rcases hle with h3 | ⟨a', ha', b, hb, hab, h4, h5⟩
    · cases h3
    · have e5 : a = a' := by injection h4
      have e6 : c = b := by injection h5
      subst e5 e6
      rcases hnn with h3 | ⟨a', ha', h0, h4⟩
      · cases h3
      · have e5 : a = a' := by injection h4
        subst e5
        have hcp : 0 < c := lt_of_le_of_ne (h0.trans hab) (Ne.symm hc0)
        obtain ⟨k1, f1, -, -⟩ := roundNum_unit (A := A) hf (x := a / c) (div_nonneg h0 hcp.le) ((div_le_one hcp).mpr hab)
        rw [f1] at h'
        cases h'
  · exact ⟨y, hy, h'⟩

end
end CP.Spec
