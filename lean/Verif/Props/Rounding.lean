import Verif.Proofs.FpModel
import Verif.Props.Exact
/-
Property C39: rounding errors of `ecdf2` with direct convolution.
-/
open MeasureTheory Set
namespace CP.Props
open CP.Spec FOps

/-- C39: with any arithmetic meeting `FloatModel` (relative error factor `g`, underflow error `eta`), Poisson probabilities
accurate up to a factor `g^P` and an absolute error `etaP`, and any valid finite boundaries, `ecdf2` without FFT returns a
finite non-negative number, equal to the non-crossing probability up to a factor between `g^-K` and `g^K` and an absolute
error `A`; `K = (2n+1)(P+n+2)+P+1` is polynomial in `n` and `A` comes from underflow only. -/
theorem C39_ecdf2_error {F : Type} [FOps F] {R : FloatModel F} {S : Set F} (env : Env F) {n P : ℕ} (hn : 1 ≤ n) {etaP : ℝ}
    (hpmf : PmfAccurate R S n P etaP) {b B : Fin n → F}
    (hz : zero ∈ S) (ho : one ∈ S) (hbS : ∀ i, b i ∈ S) (hBS : ∀ i, B i ∈ S)
    (hbf : ∀ i, R.finite (b i)) (hBf : ∀ i, R.finite (B i)) (hb : ValidBound fun i => R.val (b i))
    (hB : ValidBound fun i => R.val (B i)) {sort : List (Bound F) → List (Bound F)} (hsort : SortContractF R sort)
    (ha : env.asserts = false ∨ ¬ StronglyCrossed (fun i => R.val (b i)) (fun i => R.val (B i)))
    {K : ℕ} (hK : K = (2 * n + 1) * (P + n + 2) + P + 1)
    {A : ℝ} (hA : A = ((1 + ((n : ℝ) + 1) * (etaP + R.eta)) ^ (2 * n + 1) - 1) / poissonProb n n + R.eta)
    (hO : (1 + A) * R.g ^ K ≤ R.Omega) :
    ∃ x, ecdf2 env sort (List.ofFn b) (List.ofFn B) false = .ok x ∧ R.finite x ∧ 0 ≤ R.val x ∧
      noncrossProb (fun i => R.val (b i)) (fun i => R.val (B i)) / R.g ^ K - A ≤ R.val x ∧
      R.val x ≤ (noncrossProb (fun i => R.val (b i)) (fun i => R.val (B i)) + A) * R.g ^ K ∧
      (R.ZeroExact → noncrossProb (fun i => R.val (b i)) (fun i => R.val (B i)) = 0 → R.val x = 0) := by
  subst hK
  obtain ⟨x, hx, h⟩ := ecdf2_round env hpmf hz ho hbS hBS hbf hBf hb hB hsort ha hA hn hO
  exact ⟨x, hx, h.fin, h.nonneg, h.lower, h.upper, h.exact0⟩

/-- C39: without underflow the error is purely relative, and the result is exactly 0 iff the probability is. -/
theorem C39_ecdf2_relative {F : Type} [FOps F] {R : FloatModel F} {S : Set F} (env : Env F) {n P : ℕ} (hn : 1 ≤ n)
    (heta : R.eta = 0)
    (hpmf : PmfAccurate R S n P 0) {b B : Fin n → F}
    (hz : zero ∈ S) (ho : one ∈ S) (hbS : ∀ i, b i ∈ S) (hBS : ∀ i, B i ∈ S)
    (hbf : ∀ i, R.finite (b i)) (hBf : ∀ i, R.finite (B i)) (hb : ValidBound fun i => R.val (b i))
    (hB : ValidBound fun i => R.val (B i)) {sort : List (Bound F) → List (Bound F)} (hsort : SortContractF R sort)
    (ha : env.asserts = false ∨ ¬ StronglyCrossed (fun i => R.val (b i)) (fun i => R.val (B i)))
    {K : ℕ} (hK : K = (2 * n + 1) * (P + n + 2) + P + 1) (hO : R.g ^ K ≤ R.Omega) :
    ∃ x, ecdf2 env sort (List.ofFn b) (List.ofFn B) false = .ok x ∧ R.finite x ∧
      noncrossProb (fun i => R.val (b i)) (fun i => R.val (B i)) / R.g ^ K ≤ R.val x ∧
      R.val x ≤ noncrossProb (fun i => R.val (b i)) (fun i => R.val (B i)) * R.g ^ K ∧
      (R.val x = 0 ↔ noncrossProb (fun i => R.val (b i)) (fun i => R.val (B i)) = 0) := by
  obtain ⟨x, hx, hf, h0, hl, hu, -⟩ := C39_ecdf2_error env hn hpmf hz ho hbS hBS hbf hBf hb hB hsort ha hK (A := 0)
    (by rw [heta]; simp) (by rw [add_zero, one_mul]; exact hO)
  rw [sub_zero] at hl
  rw [add_zero] at hu
  have gK := R.pow_pos' K
  have hp0 : 0 ≤ noncrossProb (fun i => R.val (b i)) (fun i => R.val (B i)) := measureReal_nonneg
  refine ⟨x, hx, hf, hl, hu, ?_, ?_⟩
  · intro h
    rw [h, div_le_iff₀ gK, zero_mul] at hl
    linarith
  · intro h
    rw [h, zero_mul] at hu
    linarith

/-- C39: the accuracy assumed of the Poisson probabilities follows from that of the individual operations and library
functions; `Lam` bounds `|log(n (y - x))|` over the gaps between points of `S`. -/
theorem C39_pmf_from_library {F : Type} [FOps F] {R : FloatModel F} {S : Set F} {n : ℕ} (hn : 1 ≤ n) {etaE expMin : ℝ}
    (M : MathLibrary R n etaE expMin) (hg : R.g ≤ 8 / 7) {Lam : ℝ} (hln : Real.log n ≤ Lam)
    (hLam : ∀ x ∈ S, ∀ y ∈ S, R.finite x → R.finite y → 0 ≤ R.val x → R.val x < R.val y → R.val y ≤ 1 →
      |Real.log (n * (R.val y - R.val x))| ≤ Lam)
    {Q : ℕ} (hQ : 5 * n * Lam + 10 * n + 3 * Real.log n.factorial ≤ Q)
    (hO : 2 * (n * Lam + n + Real.log n.factorial) ≤ R.Omega) (hO2 : R.g ^ Q ≤ R.Omega)
    (hmin : expMin * R.g ^ Q ≤ poissonProb n n) :
    PmfAccurate R S n (Q + 1) etaE :=
  pmfAccurate_of_lib M hg hn hln hLam hQ hO hO2 hmin

/-- A boundary of reals as `p`-bit numbers. -/
def fpVec {p n : ℕ} (b : Fin n → ℝ) : Fin n → Fp p := fun i => some (b i)

/-- C39 for `p`-bit binary floating point with rounding to nearest (`p = 53` for double): every valid pair of boundaries,
every `n >= 1`.  `Lam` bounds `|log(n d)|` for all distances `d` between distinct points among 0, 1 and the boundary points. -/
theorem C39_binary_floating_point {p : ℕ} (hp : 3 ≤ p) (env : Env (Fp p)) {n : ℕ} (hn : 1 ≤ n)
    {b B : Fin n → ℝ} (hb : ValidBound b) (hB : ValidBound B) (ha : env.asserts = false ∨ ¬ StronglyCrossed b B)
    {sort : List (Bound (Fp p)) → List (Bound (Fp p))}
    (hperm : ∀ l, (sort l).Perm l)
    (hsorted : ∀ l, (∀ x ∈ l, ∃ r : ℝ, x.location = some r) → (sort l).Pairwise fun x y => lt y.location x.location = false)
    {Lam : ℝ}
    (hLam : ∀ x ∈ {0, 1} ∪ range b ∪ range B, ∀ y ∈ {0, 1} ∪ range b ∪ range B, x < y → |Real.log (n * (y - x))| ≤ Lam)
    {Q K : ℕ} (hQ : 5 * n * Lam + 10 * n + 3 * Real.log n.factorial + 1 ≤ Q)
    (hK : K = (2 * n + 1) * (Q + n + 2) + Q + 1) :
    ∃ x : ℝ, ecdf2 env sort (List.ofFn (fpVec b)) (List.ofFn (fpVec B)) false = .ok (some x : Fp p) ∧
      noncrossProb b B * (1 - 2 ^ (-(p : ℤ))) ^ K ≤ x ∧ x ≤ noncrossProb b B / (1 - 2 ^ (-(p : ℤ))) ^ K ∧
      (x = 0 ↔ noncrossProb b B = 0) := by
  have hp1 : 1 ≤ p := by omega
  set Om := max (2 * (n * Lam + n + Real.log n.factorial)) (gOf p ^ (K + Q)) with hOm
  set R := fpModel p hp1 Om with hR
  have hg1 := one_le_gOf hp1
  have hnr : (1 : ℝ) ≤ n := by exact_mod_cast hn
  have hQ1 : 1 ≤ Q := by
    by_contra h
    have : Q = 0 := by omega
    have h1 := hLam 0 (by simp) 1 (by simp) one_pos
    have h2 := (abs_nonneg _).trans h1
    have h3 : 0 ≤ 5 * n * Lam := by positivity
    have h4 := Real.log_natCast_nonneg n.factorial
    rw [this] at hQ
    push_cast at hQ
    linarith
  obtain ⟨Q', rfl⟩ : ∃ Q', Q = Q' + 1 := ⟨Q - 1, by omega⟩
  have hmemS : ∀ x : Fp p, x ∈ {y : Fp p | ∃ r ∈ {0, 1} ∪ range b ∪ range B, y = some r} →
      ∃ r ∈ {0, 1} ∪ range b ∪ range B, x = some r := fun x h => h
  set S : Set (Fp p) := {y : Fp p | ∃ r ∈ {0, 1} ∪ range b ∪ range B, y = some r} with hS
  have hln : Real.log n ≤ Lam := by
    have h1 := hLam 0 (by simp) 1 (by simp) one_pos
    rw [sub_zero, mul_one] at h1
    exact (le_abs_self _).trans h1
  have hpmf : PmfAccurate R S n (Q' + 1) 0 := by
    refine C39_pmf_from_library hn (fpLibrary p hp1 Om n) (gOf_le hp) (Lam := Lam) hln ?_ (Q := Q') ?_ (le_max_left _ _) ?_ ?_
    · intro x hx y hy _ _ _ hlt _
      obtain ⟨r, hr, rfl⟩ := hmemS x hx
      obtain ⟨s, hs, rfl⟩ := hmemS y hy
      exact hLam r hr s hs hlt
    · push_cast at hQ; linarith
    · exact (pow_le_pow_right₀ hg1 (by omega)).trans (le_max_right _ _)
    · rw [zero_mul]; unfold poissonProb; positivity
  obtain ⟨x, hx, hxf, hl, hu, h0⟩ := C39_ecdf2_relative (R := R) (S := S) env hn rfl hpmf (b := fpVec b) (B := fpVec B)
    (sort := sort) ⟨0, by simp, by show (some ((0 : ℤ) : ℝ) : Option ℝ) = _; simp⟩
    ⟨1, by simp, by show (some ((1 : ℤ) : ℝ) : Option ℝ) = _; simp⟩
    (fun i => ⟨b i, by simp, rfl⟩) (fun i => ⟨B i, by simp, rfl⟩) (fun i => ⟨b i, rfl⟩) (fun i => ⟨B i, rfl⟩)
    hb hB ⟨hperm, hsorted⟩ ha hK ((pow_le_pow_right₀ hg1 (by omega)).trans (le_max_right _ _))
  obtain ⟨r, rfl⟩ := hxf
  have e : gOf p ^ K = 1 / (1 - (2 : ℝ) ^ (-(p : ℤ))) ^ K := by unfold gOf; rw [one_div_pow]
  refine ⟨r, hx, ?_, ?_, h0⟩
  · have : noncrossProb b B / gOf p ^ K ≤ r := hl
    rwa [e, div_div_eq_mul_div, div_one] at this
  · have : r ≤ noncrossProb b B * gOf p ^ K := hu
    rwa [e, mul_one_div] at this

/-- An environment for `p`-bit numbers. -/
noncomputable def fpEnv : Env (Fp 53) :=
  { asserts := false
    fft := { r2c := fun _ _ _ => (none, none), r2cClobber := fun _ _ _ => none,
             c2r := fun _ _ _ => none, c2rClobber := fun _ _ _ => (none, none) }
    junk := fun _ _ => none, junkC := fun _ _ => (none, none) }

/-- C39 is about something: in 53-bit arithmetic, `ecdf2` on the example boundaries is within a factor `(1-2^-53)^K` of the
exact probability. -/
example : ∃ (K : ℕ) (x : ℝ), ecdf2 fpEnv fpSort (List.ofFn (fpVec exb)) (List.ofFn (fpVec exB)) false = .ok (some x : Fp 53) ∧
    noncrossProb exb exB * (1 - 2 ^ (-((53 : ℕ) : ℤ))) ^ K ≤ x := by
  have hfin : ({0, 1} ∪ range exb ∪ range exB : Set ℝ).Finite := by
    refine (Set.Finite.union ?_ (Set.finite_range _)).union (Set.finite_range _)
    exact (Set.finite_singleton _).insert _
  obtain ⟨Lam, hLam⟩ : ∃ Lam : ℝ, ∀ x ∈ {0, 1} ∪ range exb ∪ range exB, ∀ y ∈ {0, 1} ∪ range exb ∪ range exB, x < y →
      |Real.log ((2 : ℕ) * (y - x))| ≤ Lam := by
    have := (hfin.prod hfin).image fun q : ℝ × ℝ => |Real.log ((2 : ℕ) * (q.2 - q.1))|
    obtain ⟨M, hM⟩ := this.bddAbove
    exact ⟨M, fun x hx y hy _ => hM ⟨(x, y), ⟨hx, hy⟩, rfl⟩⟩
  obtain ⟨Q, hQ⟩ := exists_nat_ge (5 * (2 : ℕ) * Lam + 10 * (2 : ℕ) + 3 * Real.log (Nat.factorial 2) + 1)
  obtain ⟨x, hx, hl, -, -⟩ := C39_binary_floating_point (p := 53) (by norm_num) fpEnv (n := 2) (by norm_num)
    exb_valid exB_valid (Or.inl rfl) (sort := fpSort) (fpSort_contract (by norm_num) 0).perm
    (fpSort_contract (by norm_num) 0).sorted hLam hQ rfl
  exact ⟨_, x, hx, hl⟩

end CP.Props
