import Verif.Props.ExactBj
import Verif.Proofs.Bisect
import Verif.Props.RoundingNew
/-
Property C57: the quantile search `inverse_Mn_plus` of benchmarks/exactbj.py.
-/
open MeasureTheory Set
namespace CP.Props
open CP.Spec FOps

/-- C57: in exact arithmetic the search never converges: it always ends with the AssertionError after 110 iterations.  It
relies on rounding to stop. -/
theorem C57_exact_arithmetic_fails (env : Env XR) (hf : ExactFFT env.fft) {sp : SciPy XR} (h : SciPyContract sp) {n : ℕ} [NeZero n]
    (ha : env.asserts = false ∨ 2 ≤ n) (alpha : XR) :
    inverseMnPlus env sp Nat.sqrt n alpha
      = .error (.uncaught "AssertionError: Reached N_BINARY_SEARCH_STEPS_MAX => did not converge!") :=
  bisect_exact (D := fun y => XR.fin ((iidUniform n).real {x | bjStat x < y}))
    (fun _ hy => C56_distribution env hf h ha hy) alpha

theorem grid_round {p : ℕ} (hp : 1 ≤ p) {x : ℝ} (h : x ∈ bisectGrid p) : roundTo p x = x := by
  obtain ⟨m, j, -, hm, -, e, -⟩ := h
  rw [e]; exact roundTo_nat hp hm _

/-- There is no `p`-bit number strictly between the two ends. -/
theorem bracket_neighbours {p : ℕ} (hp : 1 ≤ p) {D : ℝ → ℝ} {a : ℝ} {k : ℕ} {r low high : ℝ} (h : Bracket p D a k r low high)
    {x : ℝ} (h1 : low < x) (h2 : x < high) : roundTo p x ≠ x := by
  have hs : (0 : ℝ) < 2 ^ (1 - (k : ℤ) - p) := by positivity
  have hlow := h.low_ge
  have hhigh := h.high_le
  have hw := h.width
  have hpos : (0 : ℝ) < 2 ^ (-(k : ℤ)) := by positivity
  have key : ∀ y : ℝ, low ≤ y → y < high → roundTo p y = (round (y / 2 ^ (1 - (k : ℤ) - p)) : ℝ) * 2 ^ (1 - (k : ℤ) - p) := by
    intro y hy1 hy2
    have hlog : Int.log 2 |y| = -(k : ℤ) := by
      rw [abs_of_pos (by linarith)]
      refine int_log_eq (hlow.trans hy1) ?_
      rw [show -(k : ℤ) + 1 = 1 - k by ring]; linarith
    unfold roundTo
    rw [hlog, show -(k : ℤ) - p + 1 = 1 - (k : ℤ) - p by ring]
  intro hx
  have e1 := key low le_rfl (by linarith)
  rw [grid_round hp h.on_grid.1] at e1
  have e2 := key x h1.le h2
  rw [hx] at e2
  generalize round (low / (2 : ℝ) ^ (1 - (k : ℤ) - p)) = z at e1
  generalize round (x / (2 : ℝ) ^ (1 - (k : ℤ) - p)) = w at e2
  generalize (2 : ℝ) ^ (1 - (k : ℤ) - p) = s at *
  have h3 : (z : ℝ) < w := by
    by_contra hc
    have := mul_le_mul_of_nonneg_right (not_lt.mp hc) hs.le
    linarith
  have h4 : (w : ℝ) < z + 1 := by
    by_contra hc
    have := mul_le_mul_of_nonneg_right (not_lt.mp hc) hs.le
    linarith
  have h5 : z < w := by exact_mod_cast h3
  have h6 : w < z + 1 := by exact_mod_cast h4
  omega

/-- C57: when the search stops.  In `p`-bit arithmetic (`p <= 107`), with `D` the values of the distribution function that the
search may ask for, `inverse_Mn_plus` returns a number if `D(2^-k) < alpha` for some `k <= 108 - p`, and otherwise fails with
the AssertionError.  If it returns `r` then `r` is one of two neighbouring `p`-bit numbers in [0,1] between which `D` passes the
level (or `r` is next to 1). -/
theorem C57_converges_iff {p : ℕ} (hp : 1 ≤ p) (hp2 : p ≤ 107) (env : Env (Fp p)) (sp : SciPy (Fp p)) (isqrt : ℕ → ℕ) (n : ℕ)
    {D : ℝ → ℝ} (hD : ∀ x ∈ bisectGrid p, mnPlusDistribution env sp isqrt n (some x : Option ℝ) = .ok (some (D x) : Option ℝ))
    (alpha : ℝ) :
    ((∃ k : ℕ, 1 ≤ k ∧ k + p ≤ 108 ∧ D (2 ^ (-(k : ℤ))) < alpha) →
      ∃ r low high : ℝ, inverseMnPlus env sp isqrt n (some alpha : Option ℝ) = .ok (some r : Option ℝ) ∧
        low ∈ Icc (0 : ℝ) 1 ∧ high ∈ Icc (0 : ℝ) 1 ∧ roundTo p low = low ∧ roundTo p high = high ∧
        low < high ∧ (∀ x, low < x → x < high → roundTo p x ≠ x) ∧ (r = low ∨ r = high) ∧
        D low < alpha ∧ (alpha ≤ D high ∨ high = 1)) ∧
    ((∀ k : ℕ, 1 ≤ k → k + p ≤ 108 → alpha ≤ D (2 ^ (-(k : ℤ)))) →
      inverseMnPlus env sp isqrt n (some alpha : Option ℝ)
        = .error (.uncaught "AssertionError: Reached N_BINARY_SEARCH_STEPS_MAX => did not converge!")) := by
  have hD' : ∀ x ∈ bisectGrid p, mnPlusDistribution env sp isqrt n (fpR p x) = .ok (fpR p (D x)) := hD
  constructor
  · rintro ⟨k, hk1, hkp, hk⟩
    classical
    have hex : ∃ k : ℕ, 1 ≤ k ∧ D (2 ^ (-(k : ℤ))) < alpha := ⟨k, hk1, hk⟩
    have hle : Nat.find hex ≤ k := Nat.find_min' hex ⟨hk1, hk⟩
    obtain ⟨f1, f2⟩ := Nat.find_spec hex
    have fmin : ∀ j : ℕ, 1 ≤ j → j < Nat.find hex → alpha ≤ D ((2 : ℝ) ^ (-(j : ℤ))) := by
      intro j h1 h2
      by_contra hc
      exact Nat.find_min hex h2 ⟨h1, not_le.mp hc⟩
    obtain ⟨r, low, high, e, hb⟩ := (bisect_found hp hp2 hD' alpha f1 f2 fmin).1 (by omega)
    have hs : (0 : ℝ) < 2 ^ (1 - (Nat.find hex : ℤ) - p) := by positivity
    exact ⟨r, low, high, e, grid_range hb.on_grid.1, grid_range hb.on_grid.2, grid_round hp hb.on_grid.1,
      grid_round hp hb.on_grid.2, by rw [hb.width]; linarith, fun x h1 h2 => bracket_neighbours hp hb h1 h2, hb.res, hb.below, hb.above⟩
  · intro hno
    by_cases hex : ∃ k : ℕ, 1 ≤ k ∧ D (2 ^ (-(k : ℤ))) < alpha
    · classical
      obtain ⟨f1, f2⟩ := Nat.find_spec hex
      have fmin : ∀ j : ℕ, 1 ≤ j → j < Nat.find hex → alpha ≤ D ((2 : ℝ) ^ (-(j : ℤ))) := by
        intro j h1 h2
        by_contra hc
        exact Nat.find_min hex h2 ⟨h1, not_le.mp hc⟩
      refine (bisect_found hp hp2 hD' alpha f1 f2 fmin).2 ?_
      by_contra hc
      exact absurd f2 (not_lt.mpr (hno _ f1 (by omega)))
    · refine bisect_none hp hD' alpha fun j h1 _ => ?_
      by_contra hc
      exact hex ⟨j, h1, not_le.mp hc⟩

/-- C57: what the search returns.  If the computed distribution function has absolute error at most `e` at the points the search
may ask for, and `n 2^-k + e < alpha` for some `k <= 108 - p`, then `inverse_Mn_plus` returns an `r` in [0,1] whose true level
`Pr[M_n^+ < r]` is within `e + n 2^-p` of `alpha`. -/
theorem C57_level {p : ℕ} (hp : 1 ≤ p) (hp2 : p ≤ 107) (env : Env (Fp p)) (sp : SciPy (Fp p)) (isqrt : ℕ → ℕ) {n : ℕ} [NeZero n]
    {e : ℝ} (hacc : ∀ x ∈ bisectGrid p, ∃ d : ℝ, mnPlusDistribution env sp isqrt n (some x : Option ℝ) = .ok (some d : Option ℝ) ∧
      |d - (iidUniform n).real {s | bjStat s < x}| ≤ e)
    {alpha : ℝ} (h1 : alpha ≤ 1) {k : ℕ} (hk1 : 1 ≤ k) (hkp : k + p ≤ 108) (hk : n * 2 ^ (-(k : ℤ)) + e < alpha) :
    ∃ r ∈ Icc (0 : ℝ) 1, inverseMnPlus env sp isqrt n (some alpha : Option ℝ) = .ok (some r : Option ℝ) ∧
      |(iidUniform n).real {s | bjStat s < r} - alpha| ≤ e + n * 2 ^ (-(p : ℤ)) := by
  classical
  choose! D hD hDe using hacc
  have hD' : ∀ x ∈ bisectGrid p, mnPlusDistribution env sp isqrt n (fpR p x) = .ok (fpR p (D x)) := hD
  set N : ℝ → ℝ := fun y => (iidUniform n).real {s | bjStat s < y} with hN
  have hN0 : N 0 = 0 := by
    rw [hN]
    dsimp only
    have : {x : Fin n → ℝ | bjStat x < 0} = ∅ := by
      ext x
      simp only [Set.mem_ofPred_eq, mem_empty_iff_false, iff_false, not_lt]
      exact Finset.le_inf' _ _ fun i _ => orderCdf_nonneg i _
    rw [this, measureReal_empty]
  have hN1 : N 1 = 1 := bjStat_one
  have hpow1 : ∀ j : ℕ, (2 : ℝ) ^ (-(j : ℤ)) ≤ 1 := by
    intro j
    have : (2 : ℝ) ^ (-(j : ℤ)) ≤ (2 : ℝ) ^ (0 : ℤ) := zpow_le_zpow_right₀ (by norm_num) (by omega)
    simpa using this
  have hDk : D (2 ^ (-(k : ℤ))) < alpha := by
    have a1 := (bjStat_lipschitz (n := n) le_rfl (by positivity) (hpow1 k)).2
    have a2 := hDe _ (grid_pow (p := p) (by omega : k ≤ 110))
    have a3 := (abs_le.mp a2).2
    have a4 : N (2 ^ (-(k : ℤ))) ≤ N 0 + n * (2 ^ (-(k : ℤ)) - 0) := a1
    have a5 : D (2 ^ (-(k : ℤ))) - N (2 ^ (-(k : ℤ))) ≤ e := a3
    rw [hN0, sub_zero] at a4
    linarith
  have hex : ∃ k : ℕ, 1 ≤ k ∧ D (2 ^ (-(k : ℤ))) < alpha := ⟨k, hk1, hDk⟩
  have hle : Nat.find hex ≤ k := Nat.find_min' hex ⟨hk1, hDk⟩
  obtain ⟨f1, f2⟩ := Nat.find_spec hex
  have fmin : ∀ j : ℕ, 1 ≤ j → j < Nat.find hex → alpha ≤ D ((2 : ℝ) ^ (-(j : ℤ))) := by
    intro j h1 h2
    by_contra hc
    exact Nat.find_min hex h2 ⟨h1, not_le.mp hc⟩
  obtain ⟨r, low, high, er, hb⟩ := (bisect_found hp hp2 hD' alpha f1 f2 fmin).1 (by omega)
  have hlg := grid_range hb.on_grid.1
  have hhg := grid_range hb.on_grid.2
  have hs : (0 : ℝ) < 2 ^ (1 - (Nat.find hex : ℤ) - p) := by positivity
  have hsp : (2 : ℝ) ^ (1 - (Nat.find hex : ℤ) - p) ≤ 2 ^ (-(p : ℤ)) := zpow_le_zpow_right₀ (by norm_num) (by omega)
  have hw := hb.width
  have hlh : low ≤ high := by linarith
  obtain ⟨m1, m2⟩ := bjStat_lipschitz (n := n) hlg.1 hlh hhg.2
  have m1' : N low ≤ N high := m1
  have m2' : N high ≤ N low + n * (high - low) := m2
  have hnw : n * (high - low) ≤ n * 2 ^ (-(p : ℤ)) := mul_le_mul_of_nonneg_left (by linarith) (Nat.cast_nonneg n)
  have c1 : D low - N low ≥ -e := (abs_le.mp (hDe _ hb.on_grid.1)).1
  have c2 : D high - N high ≤ e := (abs_le.mp (hDe _ hb.on_grid.2)).2
  have he0 : 0 ≤ e := le_trans (abs_nonneg _) (hDe _ hb.on_grid.1)
  have d1 : N low ≤ alpha + e := by linarith [hb.below]
  have d2 : alpha - e ≤ N high := by
    rcases hb.above with h | h
    · linarith
    · rw [h, hN1]; linarith
  have hr : r ∈ Icc (0 : ℝ) 1 ∧ N low ≤ N r ∧ N r ≤ N high := by
    rcases hb.res with h | h
    · rw [h]; exact ⟨hlg, le_rfl, m1'⟩
    · rw [h]; exact ⟨hhg, m1', le_rfl⟩
  refine ⟨r, hr.1, er, ?_⟩
  show |N r - alpha| ≤ _
  rw [abs_le]
  constructor <;> linarith [hr.2.1, hr.2.2]

/-- C57: the error of the computed distribution function in `p`-bit floating point, when `betaincinv` returns valid quantiles
`q_i` with absolute error at most `sigma`.  The constants are those of C53. -/
theorem C57_distribution_error {p : ℕ} (hp : 3 ≤ p) (env : Env (Fp p)) (sp : SciPy (Fp p)) {n : ℕ} [NeZero n] {y : ℝ}
    (hy : y ∈ Icc (0 : ℝ) 1) {q : Fin n → ℝ} (hq : ValidBound q)
    (hsp : ∀ i : Fin n, sp.betaincinv ((i : ℕ) + 1) ((n : ℤ) - ((i : ℕ) + 1) + 1) (some y : Option ℝ) = (some (q i) : Option ℝ))
    {sigma : ℝ} (hsig : ∀ i : Fin n, ∀ t ∈ Icc (0 : ℝ) 1, regIncBeta (i + 1) (n - i) t = y → |q i - t| ≤ sigma)
    (isqrt : ℕ → ℕ) (ha : env.asserts = false ∨ isqrt n + 1 ≤ n)
    {Nmax : ℕ} {delta : ℝ} (hfft : FFTAccurate (fpModel p (by omega) 0) env.fft Nmax delta 0 256) (hN : 2 * n + 2049 ≤ Nmax)
    {Lam : ℝ} (hLam : ∀ x ∈ {0, 1} ∪ range (fun i => roundTo p (1 - q i)), ∀ z ∈ {0, 1} ∪ range (fun i => roundTo p (1 - q i)),
      x < z → |Real.log (n * (z - x))| ≤ Lam)
    {Q : ℕ} (hQ : 5 * n * Lam + 10 * n + 3 * Real.log n.factorial + 1 ≤ Q)
    {u T A : ℝ} (hu : u = 2 ^ (-(p : ℤ))) (hT : T = 2 * (2 * (Q * u) + √Nmax * (13 * u + 4 * delta) + 256 * u))
    (hsmall : (3 * n + 1) * T ≤ 1 / 2) (hA : A = 4 * Real.exp 1 * √n * ((3 * n + 1) * T) + n ^ 2 * u + n ^ 2 * sigma) :
    ∃ d : ℝ, mnPlusDistribution env sp isqrt n (some y : Option ℝ) = .ok (some d : Option ℝ) ∧
      |d - (iidUniform n).real {s | bjStat s < y}| ≤ (1 + u) * A + u := by
  have hn : 1 ≤ n := NeZero.one_le
  obtain ⟨x, hx, hxe⟩ := C53_binary_floating_point_b hp env hn hq isqrt ha hfft hN hLam hQ hu hT hsmall
  have hbounds : mnPlusBounds sp n (some y : Option ℝ) = List.ofFn (fpVec (p := p) q) := by
    unfold mnPlusBounds
    apply List.ext_getElem
    · simp
    · intro k h1 h2
      rw [List.getElem_map, List.getElem_ofFn, List.getElem_range]
      have hk : k < n := by simpa using h1
      exact hsp ⟨k, hk⟩
  have key : ∀ i : Fin n, ∃ t ∈ Icc (0 : ℝ) 1, orderCdf n i t = y := fun i => orderCdf_surj i hy
  choose t ht e using key
  have hti : ∀ i, |q i - t i| ≤ sigma := by
    intro i
    refine hsig i _ (ht i) ?_
    rw [← orderCdf_eq_beta i (ht i).1 (ht i).2]; exact e i
  have hlow : |lowerProb q - lowerProb t| ≤ n ^ 2 * sigma := by
    refine (lower_lipschitz q t).trans ?_
    have : ∑ i, |q i - t i| ≤ ∑ _i : Fin n, sigma := Finset.sum_le_sum fun i _ => hti i
    rw [Finset.sum_const, Finset.card_univ, Fintype.card_fin, nsmul_eq_mul] at this
    have h2 := mul_le_mul_of_nonneg_left this (Nat.cast_nonneg (α := ℝ) n)
    refine h2.trans (le_of_eq (by ring))
  have hlaw := bjStat_law ht e
  have hu0 : 0 ≤ u := by rw [hu]; positivity
  have h01 : 0 ≤ lowerProb t ∧ lowerProb t ≤ 1 := ⟨measureReal_nonneg, measureReal_le_one⟩
  have hxt : |x - lowerProb t| ≤ A := by
    have := abs_sub_le x (lowerProb q) (lowerProb t)
    rw [hA]; linarith
  refine ⟨roundTo p (1 - x), ?_, ?_⟩
  · unfold mnPlusDistribution
    rw [hbounds, hx]
    show Except.ok (some (roundTo p (((1 : ℤ) : ℝ) - x)) : Option ℝ) = _
    rw [Int.cast_one]
    rfl
  · rw [hlaw]
    have h1 := roundTo_err p (1 - x)
    rw [← hu] at h1
    have h2 : |1 - x| ≤ 1 + A := by
      rw [abs_le] at hxt ⊢
      constructor <;> linarith [hxt.1, hxt.2]
    have h3 := mul_le_mul_of_nonneg_left h2 hu0
    have h4 : |roundTo p (1 - x) - (1 - lowerProb t)| ≤ |roundTo p (1 - x) - (1 - x)| + |x - lowerProb t| := by
      have := abs_sub_le (roundTo p (1 - x)) (1 - x) (1 - lowerProb t)
      rw [show (1 - x) - (1 - lowerProb t) = - (x - lowerProb t) by ring, abs_neg] at this
      exact this
    linarith

/-- C57, end to end: `inverse_Mn_plus` in `p`-bit floating point (`p = 53` for Python's float), for a `betaincinv` that returns
valid quantiles with absolute error `sigma` and an FFT library of accuracy `delta`.  The true level of the returned threshold is
within `(1+u) A + u + n u` of `alpha`. -/
theorem C57_floating_point {p : ℕ} (hp : 3 ≤ p) (hp2 : p ≤ 107) (env : Env (Fp p)) (sp : SciPy (Fp p)) {n : ℕ} [NeZero n]
    {q : ℝ → Fin n → ℝ} (hq : ∀ y ∈ bisectGrid p, ValidBound (q y))
    (hsp : ∀ y ∈ bisectGrid p, ∀ i : Fin n,
      sp.betaincinv ((i : ℕ) + 1) ((n : ℤ) - ((i : ℕ) + 1) + 1) (some y : Option ℝ) = (some (q y i) : Option ℝ))
    {sigma : ℝ} (hsig : ∀ y ∈ bisectGrid p, ∀ i : Fin n, ∀ t ∈ Icc (0 : ℝ) 1, regIncBeta (i + 1) (n - i) t = y → |q y i - t| ≤ sigma)
    (isqrt : ℕ → ℕ) (ha : env.asserts = false ∨ isqrt n + 1 ≤ n)
    {Nmax : ℕ} {delta : ℝ} (hfft : FFTAccurate (fpModel p (by omega) 0) env.fft Nmax delta 0 256) (hN : 2 * n + 2049 ≤ Nmax)
    {Lam : ℝ} (hLam : ∀ y ∈ bisectGrid p, ∀ x ∈ {0, 1} ∪ range (fun i => roundTo p (1 - q y i)),
      ∀ z ∈ {0, 1} ∪ range (fun i => roundTo p (1 - q y i)), x < z → |Real.log (n * (z - x))| ≤ Lam)
    {Q : ℕ} (hQ : 5 * n * Lam + 10 * n + 3 * Real.log n.factorial + 1 ≤ Q)
    {u T A : ℝ} (hu : u = 2 ^ (-(p : ℤ))) (hT : T = 2 * (2 * (Q * u) + √Nmax * (13 * u + 4 * delta) + 256 * u))
    (hsmall : (3 * n + 1) * T ≤ 1 / 2) (hA : A = 4 * Real.exp 1 * √n * ((3 * n + 1) * T) + n ^ 2 * u + n ^ 2 * sigma)
    {alpha : ℝ} (h1 : alpha ≤ 1) {k : ℕ} (hk1 : 1 ≤ k) (hkp : k + p ≤ 108) (hk : n * 2 ^ (-(k : ℤ)) + ((1 + u) * A + u) < alpha) :
    ∃ r ∈ Icc (0 : ℝ) 1, inverseMnPlus env sp isqrt n (some alpha : Option ℝ) = .ok (some r : Option ℝ) ∧
      |(iidUniform n).real {s | bjStat s < r} - alpha| ≤ (1 + u) * A + u + n * u := by
  have h := C57_level (by omega) hp2 env sp isqrt (n := n) (e := (1 + u) * A + u) (fun x hx =>
    C57_distribution_error hp env sp (grid_range hx) (hq x hx) (hsp x hx) (hsig x hx) isqrt ha hfft hN (hLam x hx) hQ hu hT hsmall hA)
    h1 hk1 hkp hk
  rwa [← hu] at h

/-! A concrete case: one sample, level 1/20, double precision with a correctly rounded FFT.  For `n = 1` the quantiles are the
levels themselves. -/

/-- `scipy.special` for the parameters (1,1), where both functions are the identity. -/
def unitSciPy (p : ℕ) : SciPy (Fp p) where
  betainc _ _ x := x
  betaincinv _ _ y := y

theorem regIncBeta_one_one (t : ℝ) : regIncBeta 1 1 t = t := by
  unfold regIncBeta; simp

theorem one_sub_grid {p : ℕ} (hp : 1 ≤ p) {y : ℝ} (h : y ∈ bisectGrid p) :
    roundTo p (1 - y) = 0 ∨ roundTo p (1 - y) = 1 ∨
      (2 : ℝ) ^ (-(110 : ℤ)) ≤ roundTo p (1 - y) ∧ roundTo p (1 - y) ≤ 1 - 2 ^ (-((p + 1 : ℕ) : ℤ)) := by
  have hr := grid_range h
  obtain ⟨m, j, hm1, hm2, hj, e, h1⟩ := h
  rcases eq_or_lt_of_le h1 with h1 | h1
  · left; rw [h1, sub_self, roundTo_zero]
  · right
    have hpow : (2 : ℝ) ^ (-(j : ℤ)) * 2 ^ j = 1 := by rw [zpow_neg, zpow_natCast]; exact inv_mul_cancel₀ (by positivity)
    have hz : (0 : ℝ) < 2 ^ (-(j : ℤ)) := by positivity
    have hx : (2 : ℝ) ^ (-(j : ℤ)) ≤ 1 - y := by
      have hlt : (m : ℝ) < 2 ^ j := by
        by_contra hc
        have := mul_le_mul_of_nonneg_right (not_lt.mp hc) hz.le
        rw [mul_comm ((2 : ℝ) ^ j), hpow] at this
        linarith
      have hle : m + 1 ≤ 2 ^ j := by exact_mod_cast hlt
      have hle' : (m : ℝ) + 1 ≤ 2 ^ j := by exact_mod_cast hle
      have := mul_le_mul_of_nonneg_right hle' hz.le
      rw [mul_comm ((2 : ℝ) ^ j), hpow, add_mul, one_mul] at this
      rw [e]; linarith
    have hxpos : 0 < 1 - y := by linarith
    have hypos : 0 < y := by rw [e]; positivity
    have hlo : (2 : ℝ) ^ (-(110 : ℤ)) ≤ roundTo p (1 - y) := by
      refine le_trans ?_ (pow_le_roundTo hp hxpos)
      refine zpow_le_zpow_right₀ (by norm_num) ?_
      have : (-(j : ℤ)) ≤ Int.log 2 (1 - y) := (Int.zpow_le_iff_le_log (b := 2) (by norm_num) hxpos).mp (by exact_mod_cast hx)
      omega
    have hlog : Int.log 2 (1 - y) < 0 :=
      (Int.lt_zpow_iff_log_lt (b := 2) (by norm_num) hxpos).mp (by norm_num; exact hypos)
    have hle1 : roundTo p (1 - y) ≤ 1 := by
      have := roundTo_mono hp hxpos.le (by linarith : 1 - y ≤ 1)
      rwa [roundTo_one hp] at this
    rcases eq_or_lt_of_le hle1 with h2 | h2
    · exact Or.inl h2
    · right
      refine ⟨hlo, ?_⟩
      have hpz : (0 : ℝ) < 2 ^ (-((p + 1 : ℕ) : ℤ)) := by positivity
      rcases (show Int.log 2 (1 - y) = -1 ∨ Int.log 2 (1 - y) ≤ -2 by omega) with hl | hl
      · have e2 : roundTo p (1 - y) = (round ((1 - y) / (2 : ℝ) ^ (-(p : ℤ))) : ℝ) * (2 : ℝ) ^ (-(p : ℤ)) := by
          unfold roundTo
          rw [abs_of_pos hxpos, hl, show (-1 : ℤ) - p + 1 = -p by ring]
        generalize round ((1 - y) / (2 : ℝ) ^ (-(p : ℤ))) = w at e2
        have hpp : (2 : ℝ) ^ (-(p : ℤ)) * 2 ^ p = 1 := by rw [zpow_neg, zpow_natCast]; exact inv_mul_cancel₀ (by positivity)
        have hq0 : (0 : ℝ) < 2 ^ (-(p : ℤ)) := by positivity
        have hw : (w : ℝ) < 2 ^ p := by
          by_contra hc
          have := mul_le_mul_of_nonneg_right (not_lt.mp hc) hq0.le
          rw [mul_comm ((2 : ℝ) ^ p), hpp] at this
          linarith
        have hw1 : w < 2 ^ p := by exact_mod_cast hw
        have hw2 : (w : ℝ) + 1 ≤ 2 ^ p := by exact_mod_cast Int.add_one_le_of_lt hw1
        have := mul_le_mul_of_nonneg_right hw2 hq0.le
        rw [mul_comm ((2 : ℝ) ^ p), hpp, add_mul, one_mul, ← e2] at this
        have hq1 : (2 : ℝ) ^ (-((p + 1 : ℕ) : ℤ)) ≤ 2 ^ (-(p : ℤ)) := zpow_le_zpow_right₀ (by norm_num) (by push_cast; omega)
        linarith
      · have h3 := roundTo_le_pow (p := p) hxpos
        have h4 : (2 : ℝ) ^ (Int.log 2 (1 - y) + 1) ≤ 2 ^ (-1 : ℤ) := zpow_le_zpow_right₀ (by norm_num) (by omega)
        have h5 : (2 : ℝ) ^ (-((p + 1 : ℕ) : ℤ)) ≤ 2 ^ (-1 : ℤ) := zpow_le_zpow_right₀ (by norm_num) (by push_cast; omega)
        have h6 : (2 : ℝ) ^ (-1 : ℤ) = 1 / 2 := by norm_num
        rw [h6] at h4 h5
        linarith

theorem log_small {d : ℝ} (h1 : (2 : ℝ) ^ (-(110 : ℤ)) ≤ d) (h2 : d ≤ 1) : |Real.log d| ≤ 77 := by
  have hd : 0 < d := lt_of_lt_of_le (by positivity) h1
  rw [abs_of_nonpos (Real.log_nonpos hd.le h2)]
  have h := Real.log_le_log (by positivity) h1
  rw [Real.log_zpow] at h
  have h3 := Real.log_two_lt_d9
  push_cast at h
  linarith

theorem bisect_unit (isqrt : ℕ → ℕ) : ∃ r ∈ Icc (0 : ℝ) 1,
    inverseMnPlus fpFftEnv (unitSciPy 53) isqrt 1 (some (1 / 20) : Option ℝ) = .ok (some r : Option ℝ) ∧
      |(iidUniform 1).real {s | bjStat s < r} - 1 / 20| ≤ 1 / 10 ^ 9 := by
  have hu : ((2 : ℝ) ^ (-((53 : ℕ) : ℤ))) = 1 / 9007199254740992 := by norm_num
  have hQ : 5 * ((1 : ℕ) : ℝ) * 77 + 10 * ((1 : ℕ) : ℝ) + 3 * Real.log (Nat.factorial 1) + 1 ≤ ((396 : ℕ) : ℝ) := by
    norm_num [Nat.factorial]
  have hs1 : √((1 : ℕ) : ℝ) = 1 := by norm_num
  have he : Real.exp 1 ≤ 3 := by have := Real.exp_one_lt_d9; linarith
  obtain ⟨T, hT⟩ : ∃ T : ℝ, T = 2 * (2 * (((396 : ℕ) : ℝ) * (2 : ℝ) ^ (-((53 : ℕ) : ℤ)))
    + √((4096 : ℕ) : ℝ) * (13 * (2 : ℝ) ^ (-((53 : ℕ) : ℤ)) + 4 * (2 : ℝ) ^ (-((53 : ℕ) : ℤ))) + 256 * (2 : ℝ) ^ (-((53 : ℕ) : ℤ))) := ⟨_, rfl⟩
  have hTv : T ≤ 1 / 10 ^ 12 := by rw [hT, sqrt4096, hu]; norm_num
  have hT0 : 0 ≤ T := by rw [hT]; positivity
  obtain ⟨A, hA⟩ : ∃ A : ℝ, A = 4 * Real.exp 1 * √((1 : ℕ) : ℝ) * ((3 * ((1 : ℕ) : ℝ) + 1) * T)
    + ((1 : ℕ) : ℝ) ^ 2 * (2 : ℝ) ^ (-((53 : ℕ) : ℤ)) + ((1 : ℕ) : ℝ) ^ 2 * 0 := ⟨_, rfl⟩
  have hAv : A ≤ 1 / 10 ^ 10 := by
    rw [hA, hs1, hu]
    have := mul_le_mul he hTv hT0 (by norm_num)
    norm_num at this ⊢
    nlinarith
  have hA0 : 0 ≤ A := by rw [hA]; positivity
  obtain ⟨r, hr, e, hl⟩ := C57_floating_point (p := 53) (by omega) (by omega) fpFftEnv (unitSciPy 53) (n := 1)
    (q := fun y _ => y) (fun y hy => ⟨fun _ _ _ => le_rfl, fun _ => grid_range hy⟩) (fun y _ i => rfl) (sigma := 0)
    (by
      intro y _ i t _ ht
      have hi : i = 0 := Subsingleton.elim _ _
      subst hi
      have : regIncBeta 1 1 t = y := ht
      rw [regIncBeta_one_one] at this
      rw [this]; simp)
    isqrt (Or.inl rfl) fpFft_accurate (by norm_num) (Lam := 77)
    (by
      intro y hy
      have hv := one_sub_grid (p := 53) (by omega) hy
      have hmem : ∀ x ∈ ({0, 1} ∪ range (fun _ : Fin 1 => roundTo 53 (1 - y)) : Set ℝ),
          x = 0 ∨ x = 1 ∨ (2 : ℝ) ^ (-(110 : ℤ)) ≤ x ∧ x ≤ 1 - 2 ^ (-((53 + 1 : ℕ) : ℤ)) ∧ x = roundTo 53 (1 - y) := by
        rintro x (h | ⟨i, rfl⟩)
        · rcases h with h | h
          · exact Or.inl h
          · exact Or.inr (Or.inl h)
        · dsimp only
          rcases hv with h | h | h
          · exact Or.inl h
          · exact Or.inr (Or.inl h)
          · exact Or.inr (Or.inr ⟨h.1, h.2, rfl⟩)
      intro x hx z hz hlt
      rw [Nat.cast_one, one_mul]
      have g0 : (0 : ℝ) < 2 ^ (-(110 : ℤ)) := by positivity
      have g1 : (2 : ℝ) ^ (-(110 : ℤ)) ≤ 2 ^ (-((53 + 1 : ℕ) : ℤ)) := zpow_le_zpow_right₀ (by norm_num) (by norm_num)
      have g2 : (2 : ℝ) ^ (-(110 : ℤ)) ≤ 1 := by norm_num
      rcases hmem x hx with h | h | h <;> rcases hmem z hz with h' | h' | h'
      · linarith
      · rw [h, h']; exact log_small (by linarith) (by linarith)
      · rw [h]; exact log_small (by linarith [h'.1]) (by linarith [h'.2.1])
      · linarith
      · linarith
      · linarith [h'.2.1]
      · linarith [h.1]
      · exact log_small (by linarith [h.2.1]) (by linarith [h.1])
      · rw [h.2.2, h'.2.2] at hlt; exact absurd hlt (lt_irrefl _))
    hQ rfl hT (by norm_num at hTv ⊢; linarith) hA (alpha := 1 / 20) (by norm_num) (k := 5) (by omega) (by omega)
    (by rw [hu]; norm_num at hAv ⊢; nlinarith)
  refine ⟨r, hr, e, hl.trans ?_⟩
  rw [hu]
  norm_num at hAv ⊢
  nlinarith

end CP.Props
