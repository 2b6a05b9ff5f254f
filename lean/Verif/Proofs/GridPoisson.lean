import Verif.Proofs.GridMcLaw
import Verif.Proofs.McLaw
/-! Double-precision simulation of a Poisson process with draws rounded down to multiples of `2^-52`. -/
open MeasureTheory Set
namespace CP.Spec
open FOps McSpec Props
noncomputable section
variable {A : FloatSystem}

theorem tiny_le (hA : A.f = binary64) {x : ℝ} (hx : 1 / 2 ^ 100 ≤ x) : (2 : ℝ) ^ (A.f.emin - 1) ≤ u50 * x := by
  have hmin : A.f.emin = -1074 := by rw [hA]; rfl
  rw [hmin]
  have h3 : (2 : ℝ) ^ ((-1074 : ℤ) - 1) ≤ (2 : ℝ) ^ (-150 : ℤ) := zpow_le_zpow_right₀ (by norm_num) (by norm_num)
  refine h3.trans ?_
  rw [u50_val]
  norm_num at hx ⊢
  linarith

theorem round_near (hA : A.f = binary64) {x : ℝ} (hx : 1 / 2 ^ 100 ≤ x) : |A.r x - x| ≤ 2 * u50 * x := by
  have hx0 : 0 < x := lt_of_lt_of_le (by positivity) hx
  have h1 := round_abs (double_ok hA) x
  rw [abs_of_pos hx0] at h1
  linarith [tiny_le hA hx]

/-- The reciprocal of the intensity. -/
theorem beta_num (hA : A.f = binary64) {lam : ℝ} (hl1 : 1 ≤ lam) (hl2 : lam ≤ 2 ^ 40) (hl : A.f.Fin lam) :
    ∃ beta hh, (one /ᶠ mkNum A lam hl : Num A) = mkNum A beta hh ∧ |lam * beta - 1| ≤ 2 * u50 := by
  have hf : A.f.OK := hA ▸ binary64_ok
  have hl0 : 0 < lam := by linarith
  obtain ⟨hh, e, -, -⟩ := roundNum_unit (A := A) hf (x := 1 / lam) (by positivity) ((div_le_one hl0).mpr hl1)
  refine ⟨A.r (1 / lam), hh, ?_, ?_⟩
  · rw [num_one hf, div_fin _ _ hl0.ne', e]
  · have h1 : (1 : ℝ) / 2 ^ 100 ≤ 1 / lam := by
      refine one_div_le_one_div_of_le hl0 (hl2.trans ?_)
      norm_num
    have h2 := round_near hA h1
    have h3 : lam * A.r (1 / lam) - 1 = lam * (A.r (1 / lam) - 1 / lam) := by field_simp
    rw [h3, abs_mul, abs_of_pos hl0]
    calc lam * |A.r (1 / lam) - 1 / lam| ≤ lam * (2 * u50 * (1 / lam)) := mul_le_mul_of_nonneg_left h2 hl0.le
      _ = 2 * u50 := by field_simp

/-- The exponential random number with the rate of the process made from a draw. -/
theorem grid_rate (hA : A.f = binary64) (hlog : LogAccurate A u50) {lam beta : ℝ} (hl1 : 1 ≤ lam) (hl2 : lam ≤ 2 ^ 40)
    (hb : A.f.Fin beta) (hlb : |lam * beta - 1| ≤ 2 * u50) {x : ℝ} (hx : 1 / 2 ^ 50 ≤ x) (hx1 : x < 1) :
    ∃ w hh, (FOps.neg (mkNum A beta hb) *ᶠ FOps.log (gridNum A x) : Num A) = mkNum A w hh ∧ 0 ≤ w ∧ w ≤ 40 ∧
      |lam * w - -Real.log x| ≤ 2 * u50 / x + 7 * u50 * -Real.log x := by
  have hf : A.f.OK := hA ▸ binary64_ok
  have hu : u50 = 1 / 1125899906842624 := u50_val
  have hup := u50_pos
  have hx0 : 0 < x := lt_of_lt_of_le (by positivity) hx
  have hl0 : 0 < lam := by linarith
  obtain ⟨v, hh, e, v1, v2, v3⟩ := grid_lognum hA hlog hx hx1
  have v0 : 0 < v := lt_of_lt_of_le (by positivity) v1
  obtain ⟨c1, c2⟩ := abs_le.mp hlb
  have hlb1 : 1 / 2 ≤ lam * beta := by rw [hu] at c1; linarith
  have hbeta : 1 / 2 ^ 41 ≤ beta := by
    have hb0 : 0 < beta := by
      by_contra hneg
      have := mul_nonpos_of_nonneg_of_nonpos hl0.le (not_lt.mp hneg)
      linarith
    have : lam * beta ≤ 2 ^ 40 * beta := mul_le_mul_of_nonneg_right hl2 hb0.le
    norm_num at this ⊢
    linarith
  have hb0 : 0 < beta := lt_of_lt_of_le (by positivity) hbeta
  have hbv : 1 / 2 ^ 100 ≤ beta * v := by
    have := mul_le_mul hbeta v1 (by positivity) hb0.le
    refine le_trans ?_ this
    norm_num
  have hbv0 : 0 < beta * v := by positivity
  have hlbv : lam * (beta * v) ≤ (1 + 2 * u50) * v := by
    rw [← mul_assoc]; exact mul_le_mul_of_nonneg_right (by linarith) v0.le
  have hbv38 : beta * v ≤ 39 := by
    have h1 : beta * v ≤ lam * (beta * v) := le_mul_of_one_le_left hbv0.le hl1
    have h2 : (1 + 2 * u50) * v ≤ 39 := by rw [hu]; nlinarith
    linarith
  have hr := round_near hA hbv
  obtain ⟨r1, r2⟩ := abs_le.mp hr
  obtain ⟨h2, e2⟩ := roundNum_fin (A := A) hf (x := beta * v) (by
    have he : A.f.emax = 1024 := by rw [hA]; rfl
    rw [abs_of_pos hbv0, he]
    have : (2 : ℝ) ^ (60 : ℤ) ≤ (2 : ℝ) ^ ((1024 : ℤ) - 1) := zpow_le_zpow_right₀ (by norm_num) (by norm_num)
    refine le_trans ?_ this
    norm_num
    linarith)
  refine ⟨A.r (beta * v), h2, ?_, ?_, ?_, ?_⟩
  · rw [e]
    have : (FOps.neg (mkNum A beta hb) *ᶠ mkNum A (-v) hh : Num A) = roundNum A (-beta * -v) := rfl
    rw [this, neg_mul_neg, e2]
  · rw [hu] at r1; nlinarith
  · rw [hu] at r2; nlinarith
  · set L := -Real.log x with hL
    have hL0 : 0 ≤ L := by rw [hL]; linarith [Real.log_nonpos hx0.le hx1.le]
    set R := u50 / x with hR
    have hR0 : 0 ≤ R := by rw [hR]; positivity
    obtain ⟨w1, w2⟩ := abs_le.mp v3
    have hR2 : 2 * u50 / x = 2 * R := by rw [hR]; ring
    rw [hR2]
    have a1 : |lam * A.r (beta * v) - lam * (beta * v)| ≤ 2 * u50 * ((1 + 2 * u50) * v) := by
      rw [← mul_sub, abs_mul, abs_of_pos hl0]
      calc lam * |A.r (beta * v) - beta * v| ≤ lam * (2 * u50 * (beta * v)) := mul_le_mul_of_nonneg_left hr hl0.le
        _ = 2 * u50 * (lam * (beta * v)) := by ring
        _ ≤ _ := mul_le_mul_of_nonneg_left hlbv (by positivity)
    have a2 : |lam * (beta * v) - v| ≤ 2 * u50 * v := by
      rw [show lam * (beta * v) - v = (lam * beta - 1) * v by ring, abs_mul, abs_of_pos v0]
      exact mul_le_mul_of_nonneg_right hlb v0.le
    have a3 : 2 * u50 * ((1 + 2 * u50) * v) + 2 * u50 * v ≤ 5 * u50 * v := by
      have : 2 * u50 * (2 * u50 * v) ≤ 1 * (u50 * v) := by
        rw [show 2 * u50 * (2 * u50 * v) = (4 * u50) * (u50 * v) by ring]
        exact mul_le_mul_of_nonneg_right (by rw [hu]; norm_num) (by positivity)
      linarith
    have a4 : 5 * u50 * v ≤ 5 * u50 * L + R + u50 * L := by
      have h5 : 5 * u50 ≤ 1 := by rw [hu]; norm_num
      have : 5 * u50 * v ≤ 5 * u50 * (L + (R + u50 * L)) := mul_le_mul_of_nonneg_left (by linarith) (by positivity)
      have : 5 * u50 * (R + u50 * L) ≤ 1 * (R + u50 * L) := mul_le_mul_of_nonneg_right h5 (by positivity)
      linarith
    rw [abs_le] at a1 a2 ⊢
    constructor <;> linarith

/-- Absolute error of the arrival times, times the intensity. -/
theorem poisson_arrival (hA : A.f = binary64) (hlog : LogAccurate A u50) {lam beta : ℝ} (hl1 : 1 ≤ lam) (hl2 : lam ≤ 2 ^ 40)
    (hb : A.f.Fin beta) (hlb : |lam * beta - 1| ≤ 2 * u50) {u : ℕ → ℝ} {n : ℕ} (hn : n < 2 ^ 40)
    (hu : ∀ j, j ≤ n → 1 / 2 ^ 50 ≤ u j ∧ u j < 1) (k : ℕ) (hk : k ≤ n + 1) :
    ∃ a hh, arrival (mkNum A beta hb) (fun j => gridNum A (u j)) k = mkNum A a hh ∧
      |lam * a - expSum u k| ≤ 4 * u50 * recSum u n + (2 * n + 16) * u50 * expSum u (n + 1) := by
  have h := double_ok hA
  have hu0 : u50 = 1 / 1125899906842624 := u50_val
  have hup := u50_pos
  have hl0 : 0 < lam := by linarith
  choose e he using fun j : ℕ => show ∃ v : ℝ, j < n + 1 →
      (∃ hh, (FOps.neg (mkNum A beta hb) *ᶠ FOps.log (gridNum A (u j)) : Num A) = mkNum A v hh) ∧ 0 ≤ v ∧ v ≤ 40 ∧
        |lam * v - -Real.log (u j)| ≤ 2 * u50 / u j + 7 * u50 * -Real.log (u j) by
    by_cases hj : j < n + 1
    · obtain ⟨v, hh, e, h1, h2, h3⟩ := grid_rate hA hlog hl1 hl2 hb hlb (hu j (by omega)).1 (hu j (by omega)).2
      exact ⟨v, fun _ => ⟨⟨hh, e⟩, h1, h2, h3⟩⟩
    · exact ⟨0, fun h => absurd h hj⟩
  have hnr : ((n + 1 : ℕ) : ℝ) ≤ 1099511627776 := by exact_mod_cast (show n + 1 ≤ 1099511627776 by norm_num at hn; omega)
  have hnr' : (n : ℝ) + 1 ≤ 1099511627776 := by exact_mod_cast hnr
  obtain ⟨a, hh, e1, ha⟩ := arrival_err h (beta := mkNum A beta hb) (d := fun j => gridNum A (u j)) (e := e) (m := n + 1) (M := 40) (by norm_num)
    (fun j hj => ⟨(he j hj).1, (he j hj).2.1, (he j hj).2.2.1⟩)
    (by rw [hu0]; linarith)
    (by
      have e : A.f.emax = 1024 := by rw [hA]; rfl
      rw [e]
      have : (2 : ℝ) ^ (60 : ℤ) ≤ (2 : ℝ) ^ ((1024 : ℤ) - 1) := zpow_le_zpow_right₀ (by norm_num) (by norm_num)
      refine le_trans ?_ this
      norm_num at hnr' ⊢
      linarith) k hk
  set S := ∑ j ∈ Finset.range k, e j with hS
  have hlpos : ∀ j, j < n + 1 → 0 ≤ -Real.log (u j) := fun j hj => by
    have := hu j (by omega)
    have h0 : 0 ≤ u j := le_trans (by positivity) this.1
    linarith [Real.log_nonpos h0 this.2.le]
  have hrpos : ∀ j, j < n + 1 → 0 ≤ 1 / u j := fun j hj => by
    have := hu j (by omega)
    have h0 : 0 ≤ u j := le_trans (by positivity) this.1
    positivity
  have hT : expSum u k ≤ expSum u (n + 1) := by
    unfold expSum
    exact Finset.sum_le_sum_of_subset_of_nonneg (Finset.range_mono hk) fun j hj _ => hlpos j (Finset.mem_range.mp hj)
  have hD : |lam * S - expSum u k| ≤ 2 * u50 * recSum u n + 7 * u50 * expSum u (n + 1) := by
    rw [hS]
    unfold expSum
    rw [Finset.mul_sum, ← Finset.sum_sub_distrib]
    refine (Finset.abs_sum_le_sum_abs _ _).trans ?_
    calc ∑ j ∈ Finset.range k, |lam * e j - -Real.log (u j)| ≤ ∑ j ∈ Finset.range k, (2 * u50 * (1 / u j) + 7 * u50 * -Real.log (u j)) := by
          refine Finset.sum_le_sum fun j hj => ?_
          have := (he j (by rw [Finset.mem_range] at hj; omega)).2.2.2
          rwa [mul_one_div]
      _ ≤ ∑ j ∈ Finset.range (n + 1), (2 * u50 * (1 / u j) + 7 * u50 * -Real.log (u j)) := by
          refine Finset.sum_le_sum_of_subset_of_nonneg (Finset.range_mono hk) fun j hj _ => ?_
          rw [Finset.mem_range] at hj
          exact add_nonneg (mul_nonneg (by positivity) (hrpos j hj)) (mul_nonneg (by positivity) (hlpos j hj))
      _ = _ := by rw [Finset.sum_add_distrib, ← Finset.mul_sum, ← Finset.mul_sum]; rfl
  have hkr : (k : ℝ) ≤ n + 1 := by exact_mod_cast hk
  have hku : (k : ℝ) * u50 ≤ (n + 1) * u50 := mul_le_mul_of_nonneg_right hkr hup.le
  have hnu : ((n : ℝ) + 1) * u50 ≤ 1 / 8 := by rw [hu0]; linarith
  have hpow := pow_half (u := u50) hup.le (m := k) (by linarith)
  have hpow1 : (1 + u50) ^ k - 1 ≤ 2 * ((n + 1) * u50) := by linarith
  have hS0 : 0 ≤ S := Finset.sum_nonneg fun j hj => (he j (by rw [Finset.mem_range] at hj; omega)).2.1
  have ha2 : |a - S| ≤ 2 * ((n + 1) * u50) * S := ha.trans (mul_le_mul_of_nonneg_right hpow1 hS0)
  refine ⟨a, hh, e1, ?_⟩
  set Dd := 2 * u50 * recSum u n + 7 * u50 * expSum u (n + 1) with hDd
  have hD0 : 0 ≤ Dd := (abs_nonneg _).trans hD
  have h1 : |lam * a - expSum u k| ≤ lam * |a - S| + |lam * S - expSum u k| := by
    have := abs_add_le (lam * (a - S)) (lam * S - expSum u k)
    rwa [show lam * (a - S) + (lam * S - expSum u k) = lam * a - expSum u k by ring, abs_mul, abs_of_pos hl0] at this
  have h2 : lam * S ≤ expSum u (n + 1) + Dd := by linarith [(abs_le.mp hD).2]
  have h3 : lam * |a - S| ≤ 2 * ((n + 1) * u50) * (expSum u (n + 1) + Dd) := by
    calc lam * |a - S| ≤ lam * (2 * ((n + 1) * u50) * S) := mul_le_mul_of_nonneg_left ha2 hl0.le
      _ = 2 * ((n + 1) * u50) * (lam * S) := by ring
      _ ≤ _ := mul_le_mul_of_nonneg_left h2 (by positivity)
  have h4 : 2 * ((n + 1) * u50) * Dd ≤ 1 * Dd := mul_le_mul_of_nonneg_right (by linarith) hD0
  calc |lam * a - expSum u k| ≤ 2 * ((n + 1) * u50) * expSum u (n + 1) + 2 * Dd := by linarith
    _ = _ := by rw [hDd]; ring

/-! ## Comparisons decide a path -/

section
variable {F G : Type} [FOps F] [FOps G]

theorem inside_transfer {T : ℕ → F} {T' : ℕ → G} {b B : List F} {b' B' : List G} (hb : b.length = b'.length) (hB : B.length = B'.length) {K : ℕ}
    (h2 : ∀ i, i < K → ∀ x x', b[i]? = some x → b'[i]? = some x' → lt (T (i + 1)) x = lt (T' (i + 1)) x')
    (h3 : ∀ i, i < K → ∀ x x', B[i]? = some x → B'[i]? = some x' → lt x (T (i + 1)) = lt x' (T' (i + 1)))
    (h : Inside ((List.range K).map fun i => T (i + 1)) b B) : Inside ((List.range K).map fun i => T' (i + 1)) b' B' := by
  have get : ∀ {H : Type} (V : ℕ → H) (i : ℕ) (x : H), ((List.range K).map fun i => V (i + 1))[i]? = some x → i < K ∧ V (i + 1) = x := by
    intro H V i x hx
    by_cases hi : i < K
    · rw [List.getElem?_map, List.getElem?_range hi] at hx
      exact ⟨hi, Option.some.inj hx⟩
    · rw [List.getElem?_eq_none (by simp; omega)] at hx
      cases hx
  have put : ∀ {H : Type} (V : ℕ → H) (i : ℕ), i < K → ((List.range K).map fun i => V (i + 1))[i]? = some (V (i + 1)) := by
    intro H V i hi
    rw [List.getElem?_map, List.getElem?_range hi]; rfl
  obtain ⟨a1, a2, a3, a4⟩ := h
  simp only [List.length_map, List.length_range] at a1 a2
  refine ⟨by simp only [List.length_map, List.length_range]; omega, fun hne => ?_, fun i x y hx hy => ?_, fun i x y hx hy => ?_⟩
  · simp only [List.length_map, List.length_range]
    have := a2 fun h0 => hne (List.length_eq_zero_iff.mp (by rw [← hb, h0]; rfl))
    omega
  · obtain ⟨hi, rfl⟩ := get T' i x hx
    obtain ⟨hy1, -⟩ := List.getElem?_eq_some_iff.mp hy
    have hy2 : B[i]? = some (B[i]'(by omega)) := List.getElem?_eq_getElem (by omega)
    rw [← h3 i hi _ _ hy2 hy]
    exact a3 i _ _ (put T i hi) hy2
  · obtain ⟨hi, rfl⟩ := get T' i x hx
    obtain ⟨hy1, -⟩ := List.getElem?_eq_some_iff.mp hy
    have hy2 : b[i]? = some (b[i]'(by omega)) := List.getElem?_eq_getElem (by omega)
    rw [← h2 i hi _ _ hy2 hy]
    exact a4 i _ _ (put T i hi) hy2

theorem poissonInside_mp {T : ℕ → F} {T' : ℕ → G} {b B : List F} {b' B' : List G} (hb : b.length = b'.length) (hB : B.length = B'.length)
    (h1 : ∀ k, k ≤ b.length → lt one (T (k + 1)) = lt one (T' (k + 1)))
    (h2 : ∀ i, i < b.length → ∀ x x', b[i]? = some x → b'[i]? = some x' → lt (T (i + 1)) x = lt (T' (i + 1)) x')
    (h3 : ∀ i, i < b.length → ∀ x x', B[i]? = some x → B'[i]? = some x' → lt x (T (i + 1)) = lt x' (T' (i + 1)))
    (h : PoissonInside T b B) : PoissonInside T' b' B' := by
  obtain ⟨K, a1, a2, a3, a4⟩ := h
  refine ⟨K, by omega, fun k hk => ?_, ?_, ?_⟩
  · rw [← h1 k (by omega)]; exact a2 k hk
  · rw [← h1 K a1]; exact a3
  · exact inside_transfer hb hB (fun i hi => h2 i (by omega)) (fun i hi => h3 i (by omega)) a4

/-- The result of a path depends only on the comparisons. -/
theorem poissonInside_transfer {T : ℕ → F} {T' : ℕ → G} {b B : List F} {b' B' : List G} (hb : b.length = b'.length) (hB : B.length = B'.length)
    (h1 : ∀ k, k ≤ b.length → lt one (T (k + 1)) = lt one (T' (k + 1)))
    (h2 : ∀ i, i < b.length → ∀ x x', b[i]? = some x → b'[i]? = some x' → lt (T (i + 1)) x = lt (T' (i + 1)) x')
    (h3 : ∀ i, i < b.length → ∀ x x', B[i]? = some x → B'[i]? = some x' → lt x (T (i + 1)) = lt x' (T' (i + 1))) :
    PoissonInside T b B ↔ PoissonInside T' b' B' :=
  ⟨poissonInside_mp hb hB h1 h2 h3, poissonInside_mp hb.symm hB.symm (fun k hk => (h1 k (by omega)).symm)
    (fun i hi x x' hx hx' => (h2 i (by omega) x' x hx' hx).symm) (fun i hi x x' hx hx' => (h3 i (by omega) x' x hx' hx).symm)⟩

theorem pathDraws_eq (T : ℕ → F) (m l : ℕ) : pathDraws T m = l ↔
    1 ≤ l ∧ l ≤ m + 1 ∧ (∀ k, k + 1 < l → lt one (T (k + 1)) = false) ∧ (l ≤ m → lt one (T l) = true) := by
  unfold pathDraws
  set p : ℕ → Bool := fun k => lt one (T (k + 1)) with hp
  have hle : (List.range m).findIdx p ≤ m := by
    have := List.findIdx_le_length (p := p) (xs := List.range m); simpa using this
  constructor
  · rintro rfl
    refine ⟨by omega, by omega, fun k hk => ?_, fun h => ?_⟩
    · have hk' : k < (List.range m).findIdx p := by omega
      have := List.not_of_lt_findIdx hk'
      rw [List.getElem_range] at this
      exact this
    · have hlt : (List.range m).findIdx p < (List.range m).length := by simp; omega
      have := List.findIdx_getElem (w := hlt)
      rw [List.getElem_range] at this
      exact this
  · rintro ⟨h1, h2, h3, h4⟩
    have : (List.range m).findIdx p = l - 1 := by
      by_cases hl : l ≤ m
      · rw [List.findIdx_eq (by simp; omega)]
        rw [List.getElem_range]
        refine ⟨?_, fun j hj => ?_⟩
        · have := h4 hl
          rw [hp]
          dsimp only
          rw [show l - 1 + 1 = l by omega]
          exact this
        · rw [List.getElem_range]
          exact h3 j (by omega)
      · have hall : ∀ x ∈ List.range m, p x = false := by
          intro x hx
          rw [List.mem_range] at hx
          exact h3 x (by omega)
        rw [List.findIdx_eq_length_of_false hall, List.length_range]
        omega
    omega

theorem pathDraws_congr {T T' : ℕ → F} {m l : ℕ} (h : ∀ k, k ≤ l → T k = T' k) : pathDraws T m = l ↔ pathDraws T' m = l := by
  rw [pathDraws_eq, pathDraws_eq, h l le_rfl]
  refine and_congr_right fun _ => and_congr_right fun _ => and_congr_left fun _ => forall_congr' fun k => forall_congr' fun hk => ?_
  rw [h _ (by omega)]

theorem poissonInside_congr {T T' : ℕ → F} {b B : List F} (h : ∀ k, k ≤ pathDraws T b.length → T k = T' k) (hin : PoissonInside T b B) :
    PoissonInside T' b B := by
  obtain ⟨K, a1, a2, a3, a4⟩ := hin
  have hl : pathDraws T b.length = K + 1 := (pathDraws_eq T _ _).mpr ⟨by omega, by omega, fun k hk => a2 k (by omega), fun _ => a3⟩
  rw [hl] at h
  refine ⟨K, a1, fun k hk => ?_, ?_, ?_⟩
  · rw [← h _ (by omega)]; exact a2 k hk
  · rw [← h _ le_rfl]; exact a3
  · have : ((List.range K).map fun i => T (i + 1)) = (List.range K).map fun i => T' (i + 1) := by
      refine List.map_congr_left fun i hi => ?_
      rw [List.mem_range] at hi
      exact h _ (by omega)
    rw [← this]; exact a4

end

/-! ## The paths as events -/

/-- Draws for which the double-precision path does not stay inside. -/
def gridPathCross (A : FloatSystem) (beta : Num A) (b B : List (Num A)) : Set Draws :=
  {u | ¬ PoissonInside (arrival beta fun j => gridNum A (u j)) b B}

/-- Number of draws of the double-precision path. -/
def gridPathLen (A : FloatSystem) (beta : Num A) (m : ℕ) (u : Draws) : ℕ := pathDraws (arrival beta fun j => gridNum A (u j)) m

theorem gridPathCross_run (A : FloatSystem) (beta : Num A) (b B : List (Num A)) :
    IsRun (gridPathLen A beta b.length) (gridPathCross A beta b B) (b.length + 1) := by
  have harr : ∀ (u u' : Draws) (l : ℕ), (∀ j, j < l → ⌊(2 : ℝ) ^ 52 * u j⌋ = ⌊(2 : ℝ) ^ 52 * u' j⌋) → ∀ k, k ≤ l →
      arrival beta (fun j => gridNum A (u j)) k = arrival beta (fun j => gridNum A (u' j)) k := by
    intro u u' l h k hk
    exact arrival_congr fun j hj => by unfold gridNum; rw [h j (by omega)]
  have hle : ∀ u, gridPathLen A beta b.length u ≤ b.length + 1 := fun u => ((pathDraws_eq _ _ _).mp rfl).2.1
  have hL : ∀ (l : ℕ) (u u' : Draws), (∀ j, j < l → ⌊(2 : ℝ) ^ 52 * u j⌋ = ⌊(2 : ℝ) ^ 52 * u' j⌋) →
      (gridPathLen A beta b.length u = l ↔ gridPathLen A beta b.length u' = l) := fun l u u' h => pathDraws_congr (harr u u' l h)
  have hE : ∀ (l : ℕ) (u u' : Draws), (∀ j, j < l → ⌊(2 : ℝ) ^ 52 * u j⌋ = ⌊(2 : ℝ) ^ 52 * u' j⌋) → gridPathLen A beta b.length u ≤ l →
      (u ∈ gridPathCross A beta b B ↔ u' ∈ gridPathCross A beta b B) := by
    intro l u u' h hl
    have hl' : gridPathLen A beta b.length u' = gridPathLen A beta b.length u := by
      exact (hL _ u u' fun j hj => h j (by omega)).mp rfl
    unfold gridPathCross
    rw [Set.mem_ofPred_eq, Set.mem_ofPred_eq]
    refine not_congr ⟨poissonInside_congr fun k hk => ?_, poissonInside_congr fun k hk => ?_⟩
    · have hk' : k ≤ gridPathLen A beta b.length u := hk
      exact harr u u' l h k (by omega)
    · have hk' : k ≤ gridPathLen A beta b.length u' := hk
      exact (harr u u' l h k (by omega)).symm
  refine ⟨hle, fun l => ?_, fun l u u' h => ?_, ?_, fun l u u' h => ?_⟩
  · exact measurable_of_grid (m := l) fun u u' h => hL l u u' h
  · exact hL l u u' fun j hj => by rw [h j hj]
  · exact measurable_of_grid (m := b.length + 1) fun u u' h => hE _ u u' h (hle u)
  · have h' : ∀ j, j < l → ⌊(2 : ℝ) ^ 52 * u j⌋ = ⌊(2 : ℝ) ^ 52 * u' j⌋ := fun j hj => by rw [h j hj]
    have h1 := hL l u u' h'
    constructor
    · rintro ⟨e1, e2⟩
      have e2' : gridPathLen A beta b.length u = l := e2
      exact ⟨(hE l u u' h' e2'.le).mp e1, h1.mp e2⟩
    · rintro ⟨e1, e2⟩
      have e2' : gridPathLen A beta b.length u = l := h1.mpr e2
      exact ⟨(hE l u u' h' e2'.le).mpr e1, e2'⟩

/-! ## Draws for which a comparison is too close -/

/-- The uncertainty per exponential random number, relative to its size. -/
def pRel (m : ℕ) : ℝ := (2 * m + 16) * u50

/-- Draws for which arrival `k` is too close to `l_k`, if there is one. -/
def pTest (m : ℕ) (lam delta : ℝ) (l : List ℝ) (k : ℕ) : Set (Fin (m + 1) → ℝ) :=
  match l[k]? with
  | none => ∅
  | some v => nearSet (1 / 2 ^ 50) (4 * u50) (pRel m) (fun j => if (j : ℕ) < k + 1 then 1 else 0) (-(lam * v)) (lam * delta)

/-- Bound for the probability of one such set. -/
def pTestProb (m : ℕ) (g : ℝ) : ℝ := 8 * (m * (140 * u50 + pRel m)) + 280 * pRel m + 64 * u50 + 8 * g

theorem pRel_nonneg (m : ℕ) : 0 ≤ pRel m := by
  have := u50_pos
  unfold pRel
  positivity

theorem pTestProb_nonneg (m : ℕ) {g : ℝ} (hg : 0 ≤ g) : 0 ≤ pTestProb m g := by
  have := u50_pos
  have := pRel_nonneg m
  unfold pTestProb
  positivity

theorem pTest_prob (m : ℕ) {lam delta : ℝ} (hg : 0 ≤ lam * delta) (l : List ℝ) (k : ℕ) :
    iidUniform (m + 1) (pTest m lam delta l k) ≤ ENNReal.ofReal (pTestProb m (lam * delta)) := by
  unfold pTest
  cases h : l[k]? with
  | none => simp
  | some v =>
    dsimp only
    have hu := u50_pos
    have hr := pRel_nonneg m
    refine (nearSet_prob (by norm_num) (by norm_num) (by positivity) hr _ 0 (by simp; norm_num) _ hg).trans (ENNReal.ofReal_le_ofReal ?_)
    have hl : -Real.log (1 / 2 ^ 50) ≤ 35 := by
      rw [one_div, Real.log_inv, Real.log_pow]
      have := Real.log_two_lt_d9
      push_cast
      linarith
    have h1 : 4 * u50 * -Real.log (1 / 2 ^ 50) ≤ 4 * u50 * 35 := mul_le_mul_of_nonneg_left hl (by positivity)
    have h2 : pRel m * -Real.log (1 / 2 ^ 50) ≤ pRel m * 35 := mul_le_mul_of_nonneg_left hl hr
    have h3 : (m : ℝ) * (4 * u50 * -Real.log (1 / 2 ^ 50) + pRel m) ≤ m * (4 * u50 * 35 + pRel m) :=
      mul_le_mul_of_nonneg_left (by linarith) (by positivity)
    unfold pTestProb
    linarith

theorem measurable_pTest (m : ℕ) (lam delta : ℝ) (l : List ℝ) (k : ℕ) : MeasurableSet (pTest m lam delta l k) := by
  unfold pTest
  split
  · exact MeasurableSet.empty
  · exact measurable_nearSet _ _ _ _ _ _

theorem not_pTest {m : ℕ} {lam delta : ℝ} {l : List ℝ} {k : ℕ} (hk : k ≤ m) {v : ℝ} (hv : l[k]? = some v) {u : ℕ → ℝ}
    (hu : ∀ j, j ≤ m → 1 / 2 ^ 50 ≤ u j ∧ u j < 1) (h : (fun j : Fin (m + 1) => u j) ∉ pTest m lam delta l k) :
    4 * u50 * recSum u m + (2 * m + 16) * u50 * expSum u (m + 1) + lam * delta < |expSum u (k + 1) - lam * v| := by
  unfold pTest at h
  rw [hv] at h
  dsimp only at h
  by_contra hle
  refine h ⟨fun j => ⟨(hu j (by have := j.2; omega)).1, (hu j (by have := j.2; omega)).2.le⟩, ?_⟩
  have h0 := Fin.sum_univ_eq_sum_range (fun j => (if j < k + 1 then (1 : ℝ) else 0) * -Real.log (u j)) (m + 1)
  have h2 : ∑ j ∈ Finset.range (m + 1), (if j < k + 1 then (1 : ℝ) else 0) * -Real.log (u j) = expSum u (k + 1) := by
    simp only [ite_mul, one_mul, zero_mul]
    rw [← Finset.sum_filter]
    unfold expSum
    refine Finset.sum_congr ?_ fun _ _ => rfl
    ext j
    simp only [Finset.mem_filter, Finset.mem_range]
    omega
  rw [h2] at h0
  rw [h0, ← sub_eq_add_neg]
  refine (not_lt.mp hle).trans (le_of_eq ?_)
  have h1 := Fin.sum_univ_eq_sum_range (fun j => 4 * u50 / u j + pRel m * -Real.log (u j)) (m + 1)
  rw [h1, Finset.sum_add_distrib, ← Finset.mul_sum]
  unfold recSum expSum pRel
  rw [Finset.mul_sum]
  congr 2
  exact Finset.sum_congr rfl fun j _ => by ring

/-- Away from the bad draws the double-precision path leaves the boundaries if and only if the exact one does. -/
theorem gridPathCross_iff (hA : A.f = binary64) (hlog : LogAccurate A u50) {lam beta : ℝ} (hl1 : 1 ≤ lam) (hl2 : lam ≤ 2 ^ 40)
    (hbe : A.f.Fin beta) (hlb : |lam * beta - 1| ≤ 2 * u50) {delta : ℝ} (hd0 : 0 ≤ delta)
    {bN BN : List (Num A)} {b B : List ℝ} (hm : b.length < 2 ^ 40) (hb : CloseTo A delta bN b) (hB : CloseTo A delta BN B) {u : ℕ → ℝ}
    (hu : ∀ j, j ≤ b.length → 1 / 2 ^ 50 ≤ u j ∧ u j < 1)
    (h1 : ∀ k, k ≤ b.length → (fun j : Fin (b.length + 1) => u j) ∉ pTest b.length lam delta (List.replicate (b.length + 1) 1) k)
    (h2 : ∀ k, k ≤ b.length → (fun j : Fin (b.length + 1) => u j) ∉ pTest b.length lam delta b k)
    (h3 : ∀ k, k ≤ b.length → (fun j : Fin (b.length + 1) => u j) ∉ pTest b.length lam delta B k) :
    u ∈ gridPathCross A (mkNum A beta hbe) bN BN ↔ u ∈ pathCross lam b B := by
  have hf : A.f.OK := hA ▸ binary64_ok
  have hl0 : 0 < lam := by linarith
  -- one comparison
  have key : ∀ (l : List ℝ), (∀ k, k ≤ b.length → (fun j : Fin (b.length + 1) => u j) ∉ pTest b.length lam delta l k) →
      ∀ k, k ≤ b.length → ∀ (z : Num A) (v w : ℝ), l[k]? = some v → z.real? = some w → |w - v| ≤ delta →
      lt z (arrival (mkNum A beta hbe) (fun j => gridNum A (u j)) (k + 1)) = decide (v < arr lam u (k + 1)) ∧
      lt (arrival (mkNum A beta hbe) (fun j => gridNum A (u j)) (k + 1)) z = decide (arr lam u (k + 1) < v) := by
    intro l hl k hk z v w hv hw hwv
    obtain ⟨a, hh, e, herr⟩ := poisson_arrival hA hlog hl1 hl2 hbe hlb hm hu (k + 1) (by omega)
    have hg := not_pTest hk hv hu (hl k hk)
    rw [e]
    match z, hw with
    | Fl.fin w' h', hw =>
      have e' : w' = w := Option.some.inj hw
      subst e'
      have e1 : lt (mkNum A w' h') (mkNum A a hh) = decide (w' < a) := rfl
      have e2 : lt (mkNum A a hh) (mkNum A w' h') = decide (a < w') := rfl
      change (lt (mkNum A w' h') (mkNum A a hh) = _) ∧ (lt (mkNum A a hh) (mkNum A w' h') = _)
      rw [e1, e2]
      have b1 := abs_le.mp herr
      have b2 := abs_le.mp hwv
      have c1 : lam * w' ≤ lam * v + lam * delta := by rw [← mul_add]; exact mul_le_mul_of_nonneg_left (by linarith) hl0.le
      have c2 : lam * v - lam * delta ≤ lam * w' := by rw [← mul_sub]; exact mul_le_mul_of_nonneg_left (by linarith) hl0.le
      have c3 : 0 ≤ lam * delta := by positivity
      have c4 := (abs_nonneg _).trans herr
      have hX : arr lam u (k + 1) * lam = expSum u (k + 1) := div_mul_cancel₀ _ hl0.ne'
      rcases lt_abs.mp hg with h | h
      · have d1 : w' < a := by
          refine lt_of_mul_lt_mul_left (a := lam) ?_ hl0.le
          linarith
        have d2 : v < arr lam u (k + 1) := by
          refine lt_of_mul_lt_mul_left (a := lam) ?_ hl0.le
          linarith
        exact ⟨by rw [decide_eq_decide]; constructor <;> intro _ <;> assumption,
          by rw [decide_eq_decide]; constructor <;> intro _ <;> linarith⟩
      · have d1 : a < w' := by
          refine lt_of_mul_lt_mul_left (a := lam) ?_ hl0.le
          linarith
        have d2 : arr lam u (k + 1) < v := by
          refine lt_of_mul_lt_mul_left (a := lam) ?_ hl0.le
          linarith
        exact ⟨by rw [decide_eq_decide]; constructor <;> intro _ <;> linarith,
          by rw [decide_eq_decide]; constructor <;> intro _ <;> assumption⟩
  have hlb' := hb.length_eq
  have hlB' := hB.length_eq
  have close : ∀ {lN : List (Num A)} {l : List ℝ}, CloseTo A delta lN l → ∀ (i : ℕ) (x : Num A) (x' : XR), lN[i]? = some x →
      (l.map XR.fin)[i]? = some x' → ∃ v w, l[i]? = some v ∧ x' = .fin v ∧ x.real? = some w ∧ |w - v| ≤ delta := by
    intro lN l hc i x x' hx hx'
    rw [List.getElem?_map] at hx'
    obtain ⟨v, hv, rfl⟩ := Option.map_eq_some_iff.mp hx'
    obtain ⟨i1, e1⟩ := List.getElem?_eq_some_iff.mp hx
    obtain ⟨i2, e2⟩ := List.getElem?_eq_some_iff.mp hv
    have := (List.forall₂_iff_get.mp hc).2 i i1 i2
    rw [List.get_eq_getElem, List.get_eq_getElem, e1, e2] at this
    obtain ⟨w, hw, hwv⟩ := this
    exact ⟨v, w, hv, rfl, hw, hwv⟩
  rw [← poissonInside_iff]
  unfold gridPathCross
  rw [Set.mem_ofPred_eq]
  refine not_congr (poissonInside_transfer (by simpa using hlb') (by simpa using hlB') (fun k hk => ?_) (fun i hi x x' hx hx' => ?_)
    fun i hi x x' hx hx' => ?_)
  · have := (key _ h1 k (by omega) one 1 1 (by rw [List.getElem?_replicate, if_pos (by omega)]) (by rw [num_one hf]; rfl) (by simpa using hd0)).1
    rw [this, XR.one_eq, XR.lt_fin]
  · obtain ⟨v, w, hv, rfl, hw, hwv⟩ := close hb i x x' hx hx'
    rw [(key b h2 i (by omega) x v w hv hw hwv).2, XR.lt_fin]
  · obtain ⟨v, w, hv, rfl, hw, hwv⟩ := close hB i x x' hx hx'
    rw [(key B h3 i (by omega) x v w hv hw hwv).1, XR.lt_fin]

/-- Bound for the difference of the crossing probabilities in double precision and in exact arithmetic. -/
def poissonBias (m : ℕ) (g : ℝ) : ℝ := (m + 1) * (u50 + 3 * pTestProb m g)

theorem poissonBias_nonneg (m : ℕ) {g : ℝ} (hg : 0 ≤ g) : 0 ≤ poissonBias m g := by
  have := u50_pos
  have := pTestProb_nonneg m hg
  unfold poissonBias
  positivity

section
variable {Ω : Type*} [MeasurableSpace Ω] {μ : Measure Ω} [IsProbabilityMeasure μ] {U : ℕ → Ω → ℝ}

theorem gridPathCross_prob (hA : A.f = binary64) (hlog : LogAccurate A u50) (hU : IidDraws U μ) {lam beta : ℝ} (hl1 : 1 ≤ lam) (hl2 : lam ≤ 2 ^ 40)
    (hbe : A.f.Fin beta) (hlb : |lam * beta - 1| ≤ 2 * u50) {delta : ℝ} (hd0 : 0 ≤ delta)
    {bN BN : List (Num A)} {b B : List ℝ} (hm : b.length < 2 ^ 40) (hb : CloseTo A delta bN b) (hB : CloseTo A delta BN B) :
    |μ.real {ω | seqOf U ω ∈ gridPathCross A (mkNum A beta hbe) bN BN} - (1 - poissonInsideProb lam b B)| ≤ poissonBias b.length (lam * delta) := by
  have hl0 : 0 < lam := by linarith
  have hg : 0 ≤ lam * delta := by positivity
  have hTP := pTestProb_nonneg b.length hg
  set m := b.length with hmdef
  set low : ℕ → Set Ω := fun j => {ω | U j ω < 1 / 2 ^ 50} with hlow
  set near : List ℝ → ℕ → Set Ω := fun l i => {ω | (fun j : Fin (m + 1) => U (0 + j) ω) ∈ pTest m lam delta l i} with hnear
  set bad : Set Ω := (⋃ j ∈ Finset.range (m + 1), low j) ∪ ((⋃ i ∈ Finset.range (m + 1), near (List.replicate (m + 1) 1) i) ∪
    ((⋃ i ∈ Finset.range (m + 1), near b i) ∪ ⋃ i ∈ Finset.range (m + 1), near B i)) with hbad
  have hlowp : ∀ j, μ.real (low j) ≤ u50 := by
    intro j
    have e : μ (low j) = (μ.map (U j)) (Iio (1 / 2 ^ 50)) := (Measure.map_apply (hU.meas j) measurableSet_Iio).symm
    rw [measureReal_def, e, hU.law j, Measure.restrict_apply measurableSet_Iio]
    refine ENNReal.toReal_le_of_le_ofReal u50_pos.le ?_
    calc volume (Iio (1 / 2 ^ 50 : ℝ) ∩ Icc 0 1) ≤ volume (Icc (0 : ℝ) (1 / 2 ^ 50)) :=
          measure_mono fun x hx => ⟨hx.2.1, (show x < 1 / 2 ^ 50 from hx.1).le⟩
      _ = ENNReal.ofReal u50 := by rw [Real.volume_Icc, sub_zero, u50_val]; norm_num
  have hnearp : ∀ l i, μ.real (near l i) ≤ pTestProb m (lam * delta) := by
    intro l i
    have e := block_measure hU 0 (m + 1) (measurable_pTest m lam delta l i)
    rw [measureReal_def]
    refine ENNReal.toReal_le_of_le_ofReal hTP ?_
    rw [hnear]
    dsimp only
    rw [e]
    exact pTest_prob m hg l i
  have hbadp : μ.real bad ≤ poissonBias m (lam * delta) := by
    have s1 : μ.real (⋃ j ∈ Finset.range (m + 1), low j) ≤ (m + 1) * u50 := by
      refine (measureReal_biUnion_finset_le _ _).trans ((Finset.sum_le_sum fun j _ => hlowp j).trans (le_of_eq ?_))
      simp
    have s2 : ∀ l, μ.real (⋃ i ∈ Finset.range (m + 1), near l i) ≤ (m + 1) * pTestProb m (lam * delta) := by
      intro l
      refine (measureReal_biUnion_finset_le _ _).trans ((Finset.sum_le_sum fun i _ => hnearp l i).trans (le_of_eq ?_))
      simp
    have t1 := measureReal_union_le (μ := μ) (⋃ j ∈ Finset.range (m + 1), low j) ((⋃ i ∈ Finset.range (m + 1), near (List.replicate (m + 1) 1) i) ∪
      ((⋃ i ∈ Finset.range (m + 1), near b i) ∪ ⋃ i ∈ Finset.range (m + 1), near B i))
    have t2 := measureReal_union_le (μ := μ) (⋃ i ∈ Finset.range (m + 1), near (List.replicate (m + 1) 1) i)
      ((⋃ i ∈ Finset.range (m + 1), near b i) ∪ ⋃ i ∈ Finset.range (m + 1), near B i)
    have t3 := measureReal_union_le (μ := μ) (⋃ i ∈ Finset.range (m + 1), near b i) (⋃ i ∈ Finset.range (m + 1), near B i)
    have := s2 b
    have := s2 B
    have := s2 (List.replicate (m + 1) 1)
    unfold poissonBias
    rw [hbad]
    linarith
  rw [← pathCross_prob hU hl0 b B]
  have hae : ∀ᵐ ω ∂μ, ω ∉ bad → (seqOf U ω ∈ gridPathCross A (mkNum A beta hbe) bN BN ↔ seqOf U ω ∈ pathCross lam b B) := by
    filter_upwards [ae_draws hU] with ω hω hnb
    rw [hbad] at hnb
    simp only [mem_union, mem_iUnion, not_or, not_exists, Finset.mem_range] at hnb
    obtain ⟨g1, g2, g3, g4⟩ := hnb
    have go : ∀ l, (∀ x, x < m + 1 → ω ∉ near l x) → ∀ k, k ≤ m → (fun j : Fin (m + 1) => seqOf U ω j) ∉ pTest m lam delta l k := by
      intro l hl k hk
      have := hl k (by omega)
      rw [hnear] at this
      simpa [seqOf] using this
    refine gridPathCross_iff hA hlog hl1 hl2 hbe hlb hd0 hm hb hB (fun j hj => ⟨?_, (hω j).2⟩) (go _ g2) (go _ g3) (go _ g4)
    have := g1 j (by omega)
    exact not_lt.mp this
  have one : ∀ E F : Set Draws, (∀ᵐ ω ∂μ, ω ∉ bad → (seqOf U ω ∈ E ↔ seqOf U ω ∈ F)) →
      μ.real {ω | seqOf U ω ∈ E} ≤ μ.real {ω | seqOf U ω ∈ F} + μ.real bad := by
    intro E F h
    refine le_trans ?_ (measureReal_union_le _ _)
    rw [measureReal_def, measureReal_def]
    refine ENNReal.toReal_mono (measure_ne_top _ _) (measure_mono_ae ?_)
    filter_upwards [h] with ω h1 h2
    by_cases hb : ω ∈ bad
    · exact Or.inr hb
    · exact Or.inl ((h1 hb).mp h2)
  have a1 := one _ _ hae
  have a2 := one _ _ (hae.mono fun ω h hb => (h hb).symm)
  rw [abs_le]
  constructor <;> linarith

end

end
end CP.Spec
