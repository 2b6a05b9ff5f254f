import Verif.Props.Gof
import Verif.Props.SharpNew
/-
Property C82: the size of the Kolmogorov-Smirnov tests as they are computed in double precision.
-/
open MeasureTheory Set ProbabilityTheory
namespace CP.Props
open CP.Spec FOps
noncomputable section

/-- A p-value within `e` of one that is uniformly distributed. -/
theorem size_of_close {Ω : Type*} [MeasurableSpace Ω] {P : Measure Ω} [IsProbabilityMeasure P] {p : Ω → ℝ}
    (hp : ∀ α, 0 ≤ α → α ≤ 1 → P.real {ω | p ω ≤ α} = α) {e α : ℝ} {s : Set Ω} (h0 : 0 ≤ α) (h1 : α ≤ 1) (he : 0 ≤ e)
    (hlo : ∀ ω, p ω ≤ α - e → ω ∈ s) (hhi : ∀ ω ∈ s, p ω ≤ α + e) : |P.real s - α| ≤ e := by
  rw [abs_sub_le_iff]
  constructor
  · rcases le_or_gt (α + e) 1 with h | h
    · have := hp (α + e) (by linarith) h
      have h2 : P.real s ≤ P.real {ω | p ω ≤ α + e} := measureReal_mono fun ω hω => hhi ω hω
      linarith
    · have : P.real s ≤ 1 := measureReal_le_one
      linarith
  · rcases le_or_gt 0 (α - e) with h | h
    · have := hp (α - e) h (by linarith)
      have h2 : P.real {ω | p ω ≤ α - e} ≤ P.real s := measureReal_mono fun ω hω => hlo ω hω
      linarith
    · have : 0 ≤ P.real s := measureReal_nonneg
      linarith

variable {A : FloatSystem}

/-- The p-value `1 - x`, with `x` the number returned by the call `f y` on the data `y`, is at most `α`. -/
def Rejects {n : ℕ} (f : (Fin n → ℝ) → M (Num A)) (α : ℝ) : Set (Fin n → ℝ) := {y | ∃ x : Num A, f y = .ok x ∧ x.finite ∧ 1 - x.val ≤ α}

theorem rejects_close {n : ℕ} {μ : Measure ℝ} [IsProbabilityMeasure μ] {q : (Fin n → ℝ) → ℝ}
    (hq : ∀ α, 0 ≤ α → α ≤ 1 → (iid μ n).real {y | 1 - q y ≤ α} = α) {f : (Fin n → ℝ) → M (Num A)} {e α : ℝ}
    (hf : ∀ y, ∃ x : Num A, f y = .ok x ∧ x.finite ∧ |x.val - q y| ≤ e) (h0 : 0 ≤ α) (h1 : α ≤ 1) :
    |(iid μ n).real (Rejects f α) - α| ≤ e := by
  have he : 0 ≤ e := by
    obtain ⟨x, -, -, hx⟩ := hf 0
    exact (abs_nonneg _).trans hx
  refine size_of_close hq h0 h1 he ?_ ?_
  · intro y hy
    obtain ⟨x, hx, hxf, hxe⟩ := hf y
    have := (abs_le.mp hxe).1
    exact ⟨x, hx, hxf, by linarith⟩
  · rintro y ⟨x', hx', -, hle⟩
    obtain ⟨x, hx, -, hxe⟩ := hf y
    rw [hx] at hx'
    simp only [Except.ok.injEq] at hx'
    subst hx'
    have := (abs_le.mp hxe).2
    linarith

/-- Doubles close to given real boundaries. -/
structure CloseBound {n : ℕ} (v : Fin n → Num A) (c : Fin n → ℝ) (η : ℝ) : Prop where
  fin : ∀ i, (v i).finite
  valid : ValidBound fun i => (v i).val
  close : ∀ i, |(v i).val - c i| ≤ η

variable {n : ℕ}

theorem both_close {b B : Fin n → Num A} {c C : Fin n → ℝ} {η : ℝ} (hb : CloseBound b c η) (hB : CloseBound B C η) :
    |noncrossProb (fun i => (b i).val) (fun i => (B i).val) - noncrossProb c C| ≤ 2 * (n : ℝ) ^ 2 * η := by
  refine (noncross_lipschitz _ _ _ _).trans ?_
  have h : ∑ i : Fin n, (|(b i).val - c i| + |(B i).val - C i|) ≤ n * (2 * η) := by
    refine (Finset.sum_le_sum fun i _ => add_le_add (hb.close i) (hB.close i)).trans (le_of_eq ?_)
    simp; ring
  calc (n : ℝ) * _ ≤ n * (n * (2 * η)) := mul_le_mul_of_nonneg_left h (by positivity)
    _ = _ := by ring

theorem lower_close {b : Fin n → Num A} {c : Fin n → ℝ} {η : ℝ} (hb : CloseBound b c η) :
    |lowerProb (fun i => (b i).val) - lowerProb c| ≤ (n : ℝ) ^ 2 * η := by
  refine (lower_lipschitz _ _).trans ?_
  have h : ∑ i : Fin n, |(b i).val - c i| ≤ n * η := by
    refine (Finset.sum_le_sum fun i _ => hb.close i).trans (le_of_eq ?_)
    simp
  calc (n : ℝ) * _ ≤ n * (n * η) := mul_le_mul_of_nonneg_left h (by positivity)
    _ = _ := by ring

theorem upper_close {b : Fin n → Num A} {c : Fin n → ℝ} {η : ℝ} (hb : CloseBound b c η) :
    |upperProb (fun i => (b i).val) - upperProb c| ≤ (n : ℝ) ^ 2 * η := by
  refine (upper_lipschitz _ _).trans ?_
  have h : ∑ i : Fin n, |(b i).val - c i| ≤ n * η := by
    refine (Finset.sum_le_sum fun i _ => hb.close i).trans (le_of_eq ?_)
    simp
  calc (n : ℝ) * _ ≤ n * (n * η) := mul_le_mul_of_nonneg_left h (by positivity)
    _ = _ := by ring

section ks
variable (μ : Measure ℝ) [IsProbabilityMeasure μ] (hat : ∀ y, μ {y} = 0)
include hat

theorem ks_uniform (hn : 1 ≤ n) (α : ℝ) (h0 : 0 ≤ α) (h1 : α ≤ 1) :
    (iid μ n).real {y | 1 - noncrossProb (ksLower n (ksStat (cdf μ) y)) (ksUpper n (ksStat (cdf μ) y)) ≤ α} = α :=
  pvalue_uniform_nonneg (K := fun d => noncrossProb (ksLower n d) (ksUpper n d)) (iid μ n) (measurable_ksStat μ hat hn) (ksStat_nonneg _) continuous_ks
    (fun _ hd => ksStat_null μ hat hn hd) (both_zero hn) h0 h1

theorem ksPlus_uniform (hn : 1 ≤ n) (α : ℝ) (h0 : 0 ≤ α) (h1 : α ≤ 1) :
    (iid μ n).real {y | 1 - lowerProb (ksLower n (ksPlus (cdf μ) y)) ≤ α} = α :=
  pvalue_uniform_nonneg (K := fun d => lowerProb (ksLower n d)) (iid μ n) (measurable_ksPlus μ) (ksPlus_nonneg μ) continuous_ksPlus
    (fun _ hd => ksPlus_null μ hat hd) (lower_zero hn) h0 h1

theorem ksMinus_uniform (hn : 1 ≤ n) (α : ℝ) (h0 : 0 ≤ α) (h1 : α ≤ 1) :
    (iid μ n).real {y | 1 - upperProb (ksUpper n (ksMinus (cdf μ) y)) ≤ α} = α :=
  pvalue_uniform_nonneg (K := fun d => upperProb (ksUpper n d)) (iid μ n) (measurable_ksMinus μ hat hn) (ksMinus_nonneg μ) continuous_ksMinus
    (fun _ hd => ksMinus_null μ hat hn hd) (upper_zero hn) h0 h1

/-- C82: the two-sided test with `ecdf2` without FFT (or up to 126 points), as compiled with `-O3 -ffast-math -march=native`, in double
precision.  The caller computes from the data `y` doubles `b y`, `B y`, valid boundaries within `η` of `max(0, i/n - D)` and
`min(1, (i-1)/n + D)`, `D` the statistic of `y`.  Under the null hypothesis the p-value `1 - ecdf2(b, B)` is at most `α` with a probability
that differs from `α` by at most the bound of C75 plus `2 n² η`. -/
theorem C82_ecdf2_direct (hf : A.f = binary64) {c : FastCode (Num A)} (hc : FastIeee A u50 c) {e : ℕ} (hleg : FastCode.Legal c e) (he : e ≤ 1000)
    (hn : 1 ≤ n) (hn' : n ≤ 100000) {useFft : Bool} (hsm : useFft = false ∨ n ≤ 126) (hL : LibmAccurate A u50 n) (env : Env (Num A))
    {sort : List (Bound (Num A)) → List (Bound (Num A))} (hperm : ∀ l, (sort l).Perm l)
    (hsorted : ∀ l, (∀ x ∈ l, x.location.finite) → (sort l).Pairwise fun x y => lt y.location x.location = false)
    {b B : (Fin n → ℝ) → Fin n → Num A} {η : ℝ} (hb : ∀ y, CloseBound (b y) (ksLower n (ksStat (cdf μ) y)) η)
    (hB : ∀ y, CloseBound (B y) (ksUpper n (ksStat (cdf μ) y)) η)
    (ha : env.asserts = false ∨ ∀ y, ¬ StronglyCrossed (fun i => (b y i).val) (fun i => (B y i).val)) {α : ℝ} (h0 : 0 ≤ α) (h1 : α ≤ 1) :
    |(iid μ n).real (Rejects (fun y => ecdf2Fast c env sort (List.ofFn (b y)) (List.ofFn (B y)) useFft) α) - α|
      ≤ (2 * (n : ℝ) ^ 2 + 11000 * n) / 10 ^ 15 + (2 : ℝ) ^ (-1000 : ℤ) + 2 * (n : ℝ) ^ 2 * η := by
  refine rejects_close (ks_uniform μ hat hn) (fun y => ?_) h0 h1
  obtain ⟨x, hx, hxf, -, hxe, -⟩ := C75_double hf hc hleg he hn hn' hsm hL env (hb y).fin (hB y).fin (hb y).valid (hB y).valid hperm hsorted
    (ha.imp id fun h => h y)
  refine ⟨x, hx, hxf, ?_⟩
  have h2 := both_close (hb y) (hB y)
  have h3 : noncrossProb (fun i => (b y i).val) (fun i => (B y i).val) ≤ 1 := measureReal_le_one
  have h4 : (2 * (n : ℝ) ^ 2 + 11000 * n) / 10 ^ 15 * noncrossProb (fun i => (b y i).val) (fun i => (B y i).val) ≤ (2 * (n : ℝ) ^ 2 + 11000 * n) / 10 ^ 15 :=
    mul_le_of_le_one_right (by positivity) h3
  refine (abs_sub_le _ _ _).trans (add_le_add (hxe.trans ?_) h2)
  linarith

/-- C82: the two-sided test with `ecdf2` with FFT, for an FFT library of relative accuracy `2^-45`. -/
theorem C82_ecdf2_fft (hf : A.f = binary64) {c : FastCode (Num A)} (hc : FastIeee A u50 c) {e : ℕ} (hleg : FastCode.Legal c e) (he : e ≤ 1000)
    (hn : 1 ≤ n) (hn' : n ≤ 100000) (hL : LibmAccurate A u50 n) (env : Env (Num A))
    {delta etaF : ℝ} (hδ : delta ≤ (2 : ℝ) ^ (-45 : ℤ)) (hη : etaF ≤ (2 : ℝ) ^ (-100 : ℤ))
    (hfft : FFTAccurate (ieeeModel A u50 (double_ok hf)) env.fft (2 * n + 2049) delta etaF 256)
    {sort : List (Bound (Num A)) → List (Bound (Num A))} (hperm : ∀ l, (sort l).Perm l)
    (hsorted : ∀ l, (∀ x ∈ l, x.location.finite) → (sort l).Pairwise fun x y => lt y.location x.location = false)
    {b B : (Fin n → ℝ) → Fin n → Num A} {η : ℝ} (hb : ∀ y, CloseBound (b y) (ksLower n (ksStat (cdf μ) y)) η)
    (hB : ∀ y, CloseBound (B y) (ksUpper n (ksStat (cdf μ) y)) η)
    (ha : env.asserts = false ∨ ∀ y, ¬ StronglyCrossed (fun i => (b y i).val) (fun i => (B y i).val)) {α : ℝ} (h0 : 0 ≤ α) (h1 : α ≤ 1) :
    |(iid μ n).real (Rejects (fun y => ecdf2Fast c env sort (List.ofFn (b y)) (List.ofFn (B y)) true) α) - α|
      ≤ (16 * (n : ℝ) ^ 2 + 750 * (n * √n)) / 10 ^ 13 + 2 * (n : ℝ) ^ 2 * η := by
  refine rejects_close (ks_uniform μ hat hn) (fun y => ?_) h0 h1
  obtain ⟨x, hx, hxf, hxe⟩ := C76_double hf hc hleg he hn hn' hL env hδ hη hfft (hb y).fin (hB y).fin (hb y).valid (hB y).valid hperm hsorted
    (ha.imp id fun h => h y)
  exact ⟨x, hx, hxf, (abs_sub_le _ _ _).trans (add_le_add hxe (both_close (hb y) (hB y)))⟩

/-- C82: the one-sided tests with `ecdf1_new_b` (statistic `sup (F_n - F)`) and `ecdf1_new_B` (statistic `sup (F - F_n)`). -/
theorem C82_ecdf1_new (hf : A.f = binary64) {c : FastCodeNew (Num A)} (hc : FastIeee A u50 c.toFastCode) {e : ℕ}
    (hleg : FastCode.Legal c.toFastCode e) (he : e ≤ 1000) (hn : 1 ≤ n) (hn' : n ≤ 100000) (hL : LibmAccurate A u50 n)
    (env : Env (Num A)) (hfft : n ≤ 126 ∨ ∃ delta etaF : ℝ, delta ≤ (2 : ℝ) ^ (-45 : ℤ) ∧ etaF ≤ (2 : ℝ) ^ (-100 : ℤ) ∧
      FFTAccurate (ieeeModel A u50 (double_ok hf)) env.fft (2 * n + 2049) delta etaF 256)
    {b B : (Fin n → ℝ) → Fin n → Num A} {η : ℝ} (hb : ∀ y, CloseBound (b y) (ksLower n (ksPlus (cdf μ) y)) η)
    (hB : ∀ y, CloseBound (B y) (ksUpper n (ksMinus (cdf μ) y)) η)
    (isqrt : ℕ → ℕ) (ha : env.asserts = false ∨ isqrt n + 1 ≤ n) {α : ℝ} (h0 : 0 ≤ α) (h1 : α ≤ 1) :
    |(iid μ n).real (Rejects (fun y => ecdf1NewbFast c env isqrt (List.ofFn (b y))) α) - α|
      ≤ (38 * (n : ℝ) ^ 2 + 2440 * (n * √n)) / 10 ^ 13 + (n : ℝ) ^ 2 * η ∧
    |(iid μ n).real (Rejects (fun y => ecdf1NewBFast c env isqrt (List.ofFn (B y))) α) - α|
      ≤ (38 * (n : ℝ) ^ 2 + 2440 * (n * √n)) / 10 ^ 13 + (n : ℝ) ^ 2 * η := by
  constructor
  · refine rejects_close (ksPlus_uniform μ hat hn) (fun y => ?_) h0 h1
    obtain ⟨x, hx, hxf, hxe⟩ := (C79_double hf hc hleg he hn hn' hL env hfft (hb y).fin (hb y).valid isqrt ha).2
    exact ⟨x, hx, hxf, (abs_sub_le _ _ _).trans (add_le_add hxe (lower_close (hb y)))⟩
  · refine rejects_close (ksMinus_uniform μ hat hn) (fun y => ?_) h0 h1
    obtain ⟨x, hx, hxf, hxe⟩ := (C79_double hf hc hleg he hn hn' hL env hfft (hB y).fin (hB y).valid isqrt ha).1
    exact ⟨x, hx, hxf, (abs_sub_le _ _ _).trans (add_le_add hxe (upper_close (hB y)))⟩

/-- C82: the same for the source followed to the letter. -/
theorem C82_ecdf2_direct_source (hf : A.f = binary64) (hn : 1 ≤ n) (hn' : n ≤ 100000) {useFft : Bool} (hsm : useFft = false ∨ n ≤ 126) (hL : LibmAccurate A u50 n) (env : Env (Num A))
    {sort : List (Bound (Num A)) → List (Bound (Num A))} (hperm : ∀ l, (sort l).Perm l)
    (hsorted : ∀ l, (∀ x ∈ l, x.location.finite) → (sort l).Pairwise fun x y => lt y.location x.location = false)
    {b B : (Fin n → ℝ) → Fin n → Num A} {η : ℝ} (hb : ∀ y, CloseBound (b y) (ksLower n (ksStat (cdf μ) y)) η)
    (hB : ∀ y, CloseBound (B y) (ksUpper n (ksStat (cdf μ) y)) η)
    (ha : env.asserts = false ∨ ∀ y, ¬ StronglyCrossed (fun i => (b y i).val) (fun i => (B y i).val)) {α : ℝ} (h0 : 0 ≤ α) (h1 : α ≤ 1) :
    |(iid μ n).real (Rejects (fun y => ecdf2 env sort (List.ofFn (b y)) (List.ofFn (B y)) useFft) α) - α|
      ≤ (2 * (n : ℝ) ^ 2 + 11000 * n) / 10 ^ 15 + (2 : ℝ) ^ (-1000 : ℤ) + 2 * (n : ℝ) ^ 2 * η := by
  refine rejects_close (ks_uniform μ hat hn) (fun y => ?_) h0 h1
  obtain ⟨x, hx, hxf, -, hxe, -⟩ := C75_double_source hf hn hn' hsm hL env (hb y).fin (hB y).fin (hb y).valid (hB y).valid hperm hsorted
    (ha.imp id fun h => h y)
  refine ⟨x, hx, hxf, ?_⟩
  have h2 := both_close (hb y) (hB y)
  have h3 : noncrossProb (fun i => (b y i).val) (fun i => (B y i).val) ≤ 1 := measureReal_le_one
  have h4 : (2 * (n : ℝ) ^ 2 + 11000 * n) / 10 ^ 15 * noncrossProb (fun i => (b y i).val) (fun i => (B y i).val) ≤ (2 * (n : ℝ) ^ 2 + 11000 * n) / 10 ^ 15 :=
    mul_le_of_le_one_right (by positivity) h3
  refine (abs_sub_le _ _ _).trans (add_le_add (hxe.trans ?_) h2)
  linarith

/-- C82: the same for the source followed to the letter. -/
theorem C82_ecdf2_fft_source (hf : A.f = binary64) (hn : 1 ≤ n) (hn' : n ≤ 100000) (hL : LibmAccurate A u50 n) (env : Env (Num A))
    {delta etaF : ℝ} (hδ : delta ≤ (2 : ℝ) ^ (-45 : ℤ)) (hη : etaF ≤ (2 : ℝ) ^ (-100 : ℤ))
    (hfft : FFTAccurate (ieeeModel A u50 (double_ok hf)) env.fft (2 * n + 2049) delta etaF 256)
    {sort : List (Bound (Num A)) → List (Bound (Num A))} (hperm : ∀ l, (sort l).Perm l)
    (hsorted : ∀ l, (∀ x ∈ l, x.location.finite) → (sort l).Pairwise fun x y => lt y.location x.location = false)
    {b B : (Fin n → ℝ) → Fin n → Num A} {η : ℝ} (hb : ∀ y, CloseBound (b y) (ksLower n (ksStat (cdf μ) y)) η)
    (hB : ∀ y, CloseBound (B y) (ksUpper n (ksStat (cdf μ) y)) η)
    (ha : env.asserts = false ∨ ∀ y, ¬ StronglyCrossed (fun i => (b y i).val) (fun i => (B y i).val)) {α : ℝ} (h0 : 0 ≤ α) (h1 : α ≤ 1) :
    |(iid μ n).real (Rejects (fun y => ecdf2 env sort (List.ofFn (b y)) (List.ofFn (B y)) true) α) - α|
      ≤ (16 * (n : ℝ) ^ 2 + 750 * (n * √n)) / 10 ^ 13 + 2 * (n : ℝ) ^ 2 * η := by
  refine rejects_close (ks_uniform μ hat hn) (fun y => ?_) h0 h1
  obtain ⟨x, hx, hxf, hxe⟩ := C76_double_source hf hn hn' hL env hδ hη hfft (hb y).fin (hB y).fin (hb y).valid (hB y).valid hperm hsorted
    (ha.imp id fun h => h y)
  exact ⟨x, hx, hxf, (abs_sub_le _ _ _).trans (add_le_add hxe (both_close (hb y) (hB y)))⟩

/-- C82: the same for the source followed to the letter. -/
theorem C82_ecdf1_new_source (hf : A.f = binary64) (hn : 1 ≤ n) (hn' : n ≤ 100000) (hL : LibmAccurate A u50 n)
    (env : Env (Num A)) (hfft : n ≤ 126 ∨ ∃ delta etaF : ℝ, delta ≤ (2 : ℝ) ^ (-45 : ℤ) ∧ etaF ≤ (2 : ℝ) ^ (-100 : ℤ) ∧
      FFTAccurate (ieeeModel A u50 (double_ok hf)) env.fft (2 * n + 2049) delta etaF 256)
    {b B : (Fin n → ℝ) → Fin n → Num A} {η : ℝ} (hb : ∀ y, CloseBound (b y) (ksLower n (ksPlus (cdf μ) y)) η)
    (hB : ∀ y, CloseBound (B y) (ksUpper n (ksMinus (cdf μ) y)) η)
    (isqrt : ℕ → ℕ) (ha : env.asserts = false ∨ isqrt n + 1 ≤ n) {α : ℝ} (h0 : 0 ≤ α) (h1 : α ≤ 1) :
    |(iid μ n).real (Rejects (fun y => ecdf1Newb env isqrt (List.ofFn (b y))) α) - α|
      ≤ (38 * (n : ℝ) ^ 2 + 2440 * (n * √n)) / 10 ^ 13 + (n : ℝ) ^ 2 * η ∧
    |(iid μ n).real (Rejects (fun y => ecdf1NewB env isqrt (List.ofFn (B y))) α) - α|
      ≤ (38 * (n : ℝ) ^ 2 + 2440 * (n * √n)) / 10 ^ 13 + (n : ℝ) ^ 2 * η := by
  constructor
  · refine rejects_close (ksPlus_uniform μ hat hn) (fun y => ?_) h0 h1
    obtain ⟨x, hx, hxf, hxe⟩ := (C79_double_source hf hn hn' hL env hfft (hb y).fin (hb y).valid isqrt ha).2
    exact ⟨x, hx, hxf, (abs_sub_le _ _ _).trans (add_le_add hxe (lower_close (hb y)))⟩
  · refine rejects_close (ksMinus_uniform μ hat hn) (fun y => ?_) h0 h1
    obtain ⟨x, hx, hxf, hxe⟩ := (C79_double_source hf hn hn' hL env hfft (hB y).fin (hB y).valid isqrt ha).1
    exact ⟨x, hx, hxf, (abs_sub_le _ _ _).trans (add_le_add hxe (upper_close (hB y)))⟩

end ks

/-! ## The hypotheses are met -/

theorem round_close (hf : A.f = binary64) {c : Fin n → ℝ} (hc : ValidBound c) : CloseBound (fun i => roundNum A (c i)) c (1 / 2 ^ 52) := by
  obtain ⟨h1, -, h3, h4⟩ := double_read hf hc
  exact ⟨h1, h3, h4⟩

/-- Testing uniformity of 1000 observations at level 1/20, boundaries rounded to doubles: the size of the test is between 0.049 and 0.051. -/
example (env : Env (Num doubles)) (ha : env.asserts = false) (hE : env.fft = ieeeFFTW doubles) :
    |(iid unif 1000).real (Rejects (fun y => ecdf2Fast (twoLanes (exactFma doubles)) env ieeeSort
        (List.ofFn fun i => roundNum doubles (ksLower 1000 (ksStat (cdf unif) y) i))
        (List.ofFn fun i => roundNum doubles (ksUpper 1000 (ksStat (cdf unif) y) i)) true) (1 / 20)) - 1 / 20| ≤ 1 / 1000 := by
  have hs := ieeeSort_contract (double_ok (A := doubles) rfl)
  obtain ⟨delta, etaF, h1, h2, h3⟩ := goodFFT (A := doubles) rfl (n := 1000) (by norm_num)
  have h := C82_ecdf2_fft unif unif_no_atoms rfl twoLanes_ieee (twoLanes_legal _) (by norm_num) (by norm_num) (by norm_num)
    (doubles_libm u50_ge (by norm_num)) env h1 h2 (hE ▸ h3) hs.perm hs.sorted
    (fun y => round_close rfl (ksLower_valid (ksStat_nonneg (cdf unif) y))) (fun y => round_close rfl (ksUpper_valid (ksStat_nonneg (cdf unif) y)))
    (Or.inl ha) (α := 1 / 20) (by norm_num) (by norm_num)
  refine h.trans ?_
  have : √((1000 : ℕ) : ℝ) ≤ 32 := by
    rw [Real.sqrt_le_left (by norm_num)]; norm_num
  norm_num at this ⊢
  linarith

/-- Without FFT, 100 observations. -/
example (env : Env (Num doubles)) (ha : env.asserts = false) :
    |(iid unif 100).real (Rejects (fun y => ecdf2Fast (twoLanes (exactFma doubles)) env ieeeSort
        (List.ofFn fun i => roundNum doubles (ksLower 100 (ksStat (cdf unif) y) i))
        (List.ofFn fun i => roundNum doubles (ksUpper 100 (ksStat (cdf unif) y) i)) false) (1 / 20)) - 1 / 20| ≤ 2 / 10 ^ 9 := by
  have hs := ieeeSort_contract (double_ok (A := doubles) rfl)
  have h := C82_ecdf2_direct (n := 100) (useFft := false) unif unif_no_atoms rfl twoLanes_ieee (twoLanes_legal _) (by norm_num) (by norm_num) (by norm_num) (Or.inl rfl)
    (doubles_libm u50_ge (by norm_num)) env hs.perm hs.sorted
    (fun y => round_close rfl (ksLower_valid (ksStat_nonneg (cdf unif) y))) (fun y => round_close rfl (ksUpper_valid (ksStat_nonneg (cdf unif) y)))
    (Or.inl ha) (α := 1 / 20) (by norm_num) (by norm_num)
  refine h.trans ?_
  have : (2 : ℝ) ^ (-1000 : ℤ) ≤ 2 ^ (-100 : ℤ) := zpow_le_zpow_right₀ (by norm_num) (by norm_num)
  norm_num at this ⊢
  linarith

/-- The one-sided tests, 1000 observations. -/
example (env : Env (Num doubles)) (ha : env.asserts = false) (hE : env.fft = ieeeFFTW doubles) (isqrt : ℕ → ℕ) :
    |(iid unif 1000).real (Rejects (fun y => ecdf1NewbFast twoLanesProgram.new env isqrt
        (List.ofFn fun i => roundNum doubles (ksLower 1000 (ksPlus (cdf unif) y) i))) (1 / 20)) - 1 / 20| ≤ 1 / 1000 ∧
    |(iid unif 1000).real (Rejects (fun y => ecdf1NewBFast twoLanesProgram.new env isqrt
        (List.ofFn fun i => roundNum doubles (ksUpper 1000 (ksMinus (cdf unif) y) i))) (1 / 20)) - 1 / 20| ≤ 1 / 1000 := by
  obtain ⟨delta, etaF, h1, h2, h3⟩ := goodFFT (A := doubles) rfl (n := 1000) (by norm_num)
  have h := C82_ecdf1_new unif unif_no_atoms rfl twoLanesProgram_ok.newAcc twoLanesProgram_ok.new (by norm_num) (by norm_num) (by norm_num)
    (doubles_libm u50_ge (by norm_num)) env (Or.inr ⟨delta, etaF, h1, h2, hE ▸ h3⟩)
    (fun y => round_close rfl (ksLower_valid (ksPlus_nonneg unif y))) (fun y => round_close rfl (ksUpper_valid (ksMinus_nonneg unif y)))
    isqrt (Or.inl ha) (α := 1 / 20) (by norm_num) (by norm_num)
  have : √((1000 : ℕ) : ℝ) ≤ 32 := by
    rw [Real.sqrt_le_left (by norm_num)]; norm_num
  refine ⟨h.1.trans ?_, h.2.trans ?_⟩ <;>
  · norm_num at this ⊢
    linarith

end
end CP.Props
