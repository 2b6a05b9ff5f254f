import Verif.Proofs.McLaw
import Verif.Props.Exact
import Mathlib.Probability.ProductMeasure
import Mathlib.Probability.Independence.InfinitePi
/-
Properties C47, C50: the Monte-Carlo estimates are unbiased, with the binomial variance, if the generator delivers
independent uniform draws.
-/
open MeasureTheory Set ProbabilityTheory
namespace CP.Props
open CP.Spec CP.McSpec FOps

section
variable {Ω : Type*} [MeasurableSpace Ω] {μ : Measure Ω} [IsProbabilityMeasure μ] {S : Type}

/-- C47: `ecdf_crossing_probability_montecarlo` with ideal draws.  Almost surely it returns a number `p`; its mean is
the probability that the order statistics of `n` uniform numbers leave the boundaries, its variance is that of a
relative frequency of `N` independent events, so that large errors are unlikely. -/
theorem C47_unbiased (uniform : S → XR × S) (rng : Ω → S) (U : ℕ → Ω → ℝ) (hU : IidDraws U μ)
    (hdraw : ∀ ω j, draw uniform (rng ω) j = .fin (U j ω)) (n : ℕ) (hn : 1 ≤ n) (b B : List ℝ)
    (hB : B.length ≤ n) (hb : b = [] ∨ n ≤ b.length) (N : ℕ) (hN0 : 1 ≤ N) (hN : (N : ℤ) ≤ 2 ^ 31 - 1) :
    ∃ p : Ω → ℝ, Measurable p ∧
      (∀ᵐ ω ∂μ, ecdfMc uniform (rng ω) n (b.map .fin) (B.map .fin) N = .ok (.fin (p ω))) ∧
      ∫ ω, p ω ∂μ = 1 - insideProb n b B ∧
      variance p μ = insideProb n b B * (1 - insideProb n b B) / N ∧
      ∀ c : ℝ, 0 < c → μ.real {ω | c ≤ |p ω - (1 - insideProb n b B)|} ≤
        insideProb n b B * (1 - insideProb n b B) / N / c ^ 2 := by
  set q := insideProb n b B with hq
  obtain ⟨h1, h2, h3⟩ := run_frequency hU (crossSet_run n b B) (crossSet_prob hU n b B) N hN0
  set p : Ω → ℝ := fun ω => (countUpTo (fun r => shift (startOf (fun _ => n + 1) (seqOf U ω) r) (seqOf U ω) ∈ crossSet n b B) N : ℝ) / N
    with hp
  have h3' : variance p μ = q * (1 - q) / N := by
    rw [h3]
    congr 1
    ring
  refine ⟨p, h1, ?_, h2, h3', fun c hc => ?_⟩
  · filter_upwards [ae_draws hU] with ω hω
    have hN' : ((N : ℤ) : ℝ) ≠ 0 := by
      have : (1 : ℝ) ≤ N := by exact_mod_cast hN0
      push_cast
      linarith
    rw [C33_any_arithmetic uniform (rng ω) n hn _ _ N (by simpa using hB) (by simpa using hb) hN, XR.ofInt_eq, XR.ofInt_eq,
      XR.div_fin _ hN']
    congr 2
    have hev : (fun r => ¬ Inside (sample (fun j => draw uniform (rng ω) (r * (n + 1) + j)) n) (b.map .fin) (B.map .fin)) =
        fun r => shift (startOf (fun _ => n + 1) (seqOf U ω) r) (seqOf U ω) ∈ crossSet n b B := by
      funext r
      rw [startOf_const, sample_fin (v := fun j => U (r * (n + 1) + j) ω) (fun j => hdraw ω _) (fun j => hω _), inside_iff b B _ hB hb]
      rfl
    rw [hev]
    push_cast
    rfl
  · have := chebyshev (μ := μ) h1 (fun ω => frequency_range _ N) hc
    rw [h2, h3'] at this
    exact this

theorem insideProb_full {n : ℕ} (b B : Fin n → ℝ) : insideProb n (List.ofFn b) (List.ofFn B) = noncrossProb b B := by
  unfold insideProb noncrossProb
  congr 1
  ext x
  simp only [Set.mem_ofPred_eq, StaysInside]
  constructor
  · rintro ⟨h1, h2⟩ i
    exact ⟨h1 i _ (by simp), h2 i _ (by simp)⟩
  · intro h
    refine ⟨fun i y hy => ?_, fun i y hy => ?_⟩
    · simp at hy; subst hy; exact (h i).1
    · simp at hy; subst hy; exact (h i).2

theorem insideProb_lower {n : ℕ} (b : Fin n → ℝ) : insideProb n (List.ofFn b) [] = lowerProb b := by
  unfold insideProb lowerProb
  congr 1
  ext x
  simp only [Set.mem_ofPred_eq, StaysInside]
  constructor
  · rintro ⟨h1, -⟩ i
    exact h1 i _ (by simp)
  · intro h
    refine ⟨fun i y hy => ?_, fun i y hy => ?_⟩
    · simp at hy; subst hy; exact h i
    · simp at hy

theorem insideProb_upper {n : ℕ} (B : Fin n → ℝ) : insideProb n [] (List.ofFn B) = upperProb B := by
  unfold insideProb upperProb
  congr 1
  ext x
  simp only [Set.mem_ofPred_eq, StaysInside]
  constructor
  · rintro ⟨-, h2⟩ i
    exact h2 i _ (by simp)
  · intro h
    refine ⟨fun i y hy => ?_, fun i y hy => ?_⟩
    · simp at hy
    · simp at hy; subst hy; exact h i

theorem map_ofFn_fin {n : ℕ} (b : Fin n → ℝ) : (List.ofFn b).map XR.fin = toList b := by
  unfold toList
  rw [List.map_ofFn]
  rfl

/-- C47: the mean of the Monte-Carlo estimate is one minus what the exact algorithm `ecdf2` returns. -/
theorem C47_estimates_ecdf2 (uniform : S → XR × S) (rng : Ω → S) (U : ℕ → Ω → ℝ) (hU : IidDraws U μ)
    (hdraw : ∀ ω j, draw uniform (rng ω) j = .fin (U j ω)) (N : ℕ) (hN0 : 1 ≤ N) (hN : (N : ℤ) ≤ 2 ^ 31 - 1)
    (env : Env XR) (hf : ExactFFT env.fft) {sort : List (Bound XR) → List (Bound XR)} (hsort : SortContract sort)
    (useFft : Bool) {n : ℕ} (hn : 1 ≤ n) {b B : Fin n → ℝ} (hb : ValidBound b) (hB : ValidBound B)
    (ha : env.asserts = false ∨ ¬ StronglyCrossed b B) :
    ∃ (p : Ω → ℝ) (q : ℝ), ecdf2 env sort (toList b) (toList B) useFft = .ok (.fin q) ∧ Measurable p ∧
      (∀ᵐ ω ∂μ, ecdfMc uniform (rng ω) n (toList b) (toList B) N = .ok (.fin (p ω))) ∧
      ∫ ω, p ω ∂μ = 1 - q ∧ variance p μ = q * (1 - q) / N := by
  obtain ⟨p, h1, h2, h3, h4, -⟩ := C47_unbiased uniform rng U hU hdraw n hn (List.ofFn b) (List.ofFn B) (by simp)
    (Or.inr (by simp)) N hN0 hN
  rw [map_ofFn_fin, map_ofFn_fin] at h2
  rw [insideProb_full] at h3 h4
  exact ⟨p, _, C01_ecdf2 env hf hsort hb hB useFft ha, h1, h2, h3, h4⟩

/-- C47: the same for the one-sided algorithms and boundary files with an empty line. -/
theorem C47_estimates_one_sided (uniform : S → XR × S) (rng : Ω → S) (U : ℕ → Ω → ℝ) (hU : IidDraws U μ)
    (hdraw : ∀ ω j, draw uniform (rng ω) j = .fin (U j ω)) (N : ℕ) (hN0 : 1 ≤ N) (hN : (N : ℤ) ≤ 2 ^ 31 - 1)
    (env : Env XR) {n : ℕ} (hn : 1 ≤ n) {b : Fin n → ℝ} (hb : ValidBound b) :
    (∃ (p : Ω → ℝ) (q : ℝ), ecdf1Mns2016b env (toList b) = .ok (.fin q) ∧ Measurable p ∧
      (∀ᵐ ω ∂μ, ecdfMc uniform (rng ω) n (toList b) [] N = .ok (.fin (p ω))) ∧
      ∫ ω, p ω ∂μ = 1 - q ∧ variance p μ = q * (1 - q) / N) ∧
    (∃ (p : Ω → ℝ) (q : ℝ), ecdf1Mns2016B env (toList b) = .ok (.fin q) ∧ Measurable p ∧
      (∀ᵐ ω ∂μ, ecdfMc uniform (rng ω) n [] (toList b) N = .ok (.fin (p ω))) ∧
      ∫ ω, p ω ∂μ = 1 - q ∧ variance p μ = q * (1 - q) / N) := by
  constructor
  · obtain ⟨p, h1, h2, h3, h4, -⟩ := C47_unbiased uniform rng U hU hdraw n hn (List.ofFn b) [] (by simp)
      (Or.inr (by simp)) N hN0 hN
    rw [map_ofFn_fin] at h2
    rw [insideProb_lower] at h3 h4
    exact ⟨p, _, C04_ecdf1_mns2016_b env hb, h1, h2, h3, h4⟩
  · obtain ⟨p, h1, h2, h3, h4, -⟩ := C47_unbiased uniform rng U hU hdraw n hn [] (List.ofFn b) (by simp)
      (Or.inl rfl) N hN0 hN
    rw [map_ofFn_fin] at h2
    rw [insideProb_upper] at h3 h4
    exact ⟨p, _, C05_ecdf1_mns2016_B env hb, h1, h2, h3, h4⟩

/-! ## C50: the Poisson simulation -/

theorem arrival_lam {v : ℕ → ℝ} {u : ℕ → XR} {lam : ℝ} (hlam : lam ≠ 0) (hu : ∀ j, u j = .fin (v j) ∧ 0 < v j) (k : ℕ) :
    arrival (one /ᶠ XR.fin lam) u k = .fin (arr lam v k) := by
  have hone : (one /ᶠ XR.fin lam : XR) = .fin (1 / lam) := by rw [XR.one_eq, XR.div_fin _ hlam]
  rw [hone]
  induction k with
  | zero => simp [arrival, arr, expSum]
  | succ k ih =>
    rw [arrival, ih, (hu k).1, XR.log_fin (hu k).2]
    simp only [XR.neg_fin, XR.mul_fin, XR.add_fin, XR.fin_inj]
    unfold arr expSum
    rw [Finset.sum_range_succ]
    field_simp

/-- C50: `poisson_process_crossing_probability_montecarlo` with ideal draws.  Almost surely it returns a number `p`;
its mean is the probability that a homogeneous Poisson process of intensity `lam` leaves the boundaries, although the
number of draws used by each path is random; its variance is that of a relative frequency of `N` independent events. -/
theorem C50_unbiased (asserts : Bool) (uniform : S → XR × S) (rng : Ω → S) (U : ℕ → Ω → ℝ) (hU : IidDraws U μ)
    (hdraw : ∀ ω j, draw uniform (rng ω) j = .fin (U j ω)) {lam : ℝ} (hlam : 0 < lam) (b B : List ℝ)
    (hb : b = [] ∨ B.length ≤ b.length) (N : ℕ) (hN0 : 1 ≤ N) (hN : (N : ℤ) ≤ 2 ^ 31 - 1) :
    ∃ p : Ω → ℝ, Measurable p ∧
      (∀ᵐ ω ∂μ, poissonMc asserts uniform (.ok (rng ω)) (.fin lam) (b.map .fin) (B.map .fin) N = .ok (.fin (p ω))) ∧
      ∫ ω, p ω ∂μ = 1 - poissonInsideProb lam b B ∧
      variance p μ = poissonInsideProb lam b B * (1 - poissonInsideProb lam b B) / N ∧
      ∀ c : ℝ, 0 < c → μ.real {ω | c ≤ |p ω - (1 - poissonInsideProb lam b B)|} ≤
        poissonInsideProb lam b B * (1 - poissonInsideProb lam b B) / N / c ^ 2 := by
  set q := poissonInsideProb lam b B with hq
  obtain ⟨h1, h2, h3⟩ := run_frequency hU (pathCross_run lam b B) (pathCross_prob hU hlam b B) N hN0
  set p : Ω → ℝ := fun ω => (countUpTo (fun r => shift (startOf (pathLen lam b.length) (seqOf U ω) r) (seqOf U ω) ∈ pathCross lam b B) N : ℝ) / N
    with hp
  have h3' : variance p μ = q * (1 - q) / N := by
    rw [h3]
    congr 1
    ring
  refine ⟨p, h1, ?_, h2, h3', fun c hc => ?_⟩
  · filter_upwards [ae_draws hU] with ω hω
    have hN' : ((N : ℤ) : ℝ) ≠ 0 := by
      have : (1 : ℝ) ≤ N := by exact_mod_cast hN0
      push_cast
      linarith
    rw [C35_poisson_counts asserts uniform (rng ω) _ _ _ N (by simpa using hb) hN, XR.ofInt_eq, XR.ofInt_eq,
      XR.div_fin _ hN']
    congr 2
    have harr : ∀ k, (arrival (one /ᶠ XR.fin lam) fun j => draw uniform (rng ω) (k + j)) =
        fun i => XR.fin (arr lam (shift k (seqOf U ω)) i) := by
      intro k
      funext i
      exact arrival_lam hlam.ne' (fun j => ⟨hdraw ω _, (hω _).1⟩) i
    have hst : ∀ r, pathStart (one /ᶠ XR.fin lam) (draw uniform (rng ω)) (b.map XR.fin).length r =
        startOf (pathLen lam b.length) (seqOf U ω) r := by
      intro r
      induction r with
      | zero => rfl
      | succ r ih =>
        rw [pathStart, startOf, ih, harr, List.length_map]
        rfl
    have hev : (fun r => ¬ PoissonInside (arrival (one /ᶠ XR.fin lam) fun j =>
          draw uniform (rng ω) (pathStart (one /ᶠ XR.fin lam) (draw uniform (rng ω)) (b.map XR.fin).length r + j)) (b.map .fin) (B.map .fin)) =
        fun r => shift (startOf (pathLen lam b.length) (seqOf U ω) r) (seqOf U ω) ∈ pathCross lam b B := by
      funext r
      rw [hst, harr, poissonInside_iff]
    rw [hev]
    push_cast
    rfl
  · have := chebyshev (μ := μ) h1 (fun ω => frequency_range _ N) hc
    rw [h2, h3'] at this
    exact this
end

/-! ## The hypotheses can be met -/

/-- A generator that plays back a stream of numbers. -/
def streamRng (s : ℕ → ℝ) : XR × (ℕ → ℝ) := (.fin (s 0), fun j => s (j + 1))

theorem streamRng_draw (s : ℕ → ℝ) (j : ℕ) : draw streamRng s j = .fin (s j) := by
  unfold draw
  have : ∀ (k : ℕ) (s : ℕ → ℝ), stateAt streamRng s k = fun i => s (k + i) := by
    intro k
    induction k with
    | zero => intro s; funext i; simp [stateAt]
    | succ k ih =>
      intro s
      have h : stateAt streamRng s (k + 1) = stateAt streamRng (fun j => s (j + 1)) k := by
        unfold stateAt
        rw [Function.iterate_succ_apply]
        rfl
      rw [h, ih]
      funext i
      congr 1
      omega
  rw [this]
  simp [streamRng]

/-- The law of an infinite sequence of independent uniform numbers. -/
noncomputable def streamLaw : Measure (ℕ → ℝ) := Measure.infinitePi fun _ => (volume : Measure ℝ).restrict (Icc 0 1)

instance : IsProbabilityMeasure ((volume : Measure ℝ).restrict (Icc 0 1)) := ⟨by simp⟩

instance : IsProbabilityMeasure streamLaw := by unfold streamLaw; infer_instance

theorem streamLaw_iid : IidDraws (fun j (s : ℕ → ℝ) => s j) streamLaw where
  meas := fun j => measurable_pi_apply j
  indep := by
    unfold streamLaw
    exact iIndepFun_infinitePi (P := fun _ => (volume : Measure ℝ).restrict (Icc 0 1)) (X := fun _ x => x) fun _ => measurable_id
  law := fun j => Measure.infinitePi_map_eval _ j

/-- C47 applies to a generator fed by an infinite sequence of independent uniform numbers. -/
example := C47_unbiased streamRng id _ streamLaw_iid (fun ω j => streamRng_draw ω j) 2 (by norm_num) [1/10, 3/10] [1/2, 9/10]
  (by simp) (by simp) 1000 (by norm_num) (by norm_num)

example := C47_estimates_ecdf2 streamRng id _ streamLaw_iid (fun ω j => streamRng_draw ω j) 1000 (by norm_num) (by norm_num)
  relEnv exactFFTW_exact mergeSortBounds_contract true (by norm_num) exb_valid exB_valid (Or.inl rfl)

example := C50_unbiased true streamRng id _ streamLaw_iid (fun ω j => streamRng_draw ω j) (lam := 2) (by norm_num)
  [1/10, 3/10, 1/2] [1/2, 9/10] (by simp) 1000 (by norm_num) (by norm_num)

/-- The probability estimated in Poisson mode is not degenerate: with `b = [0]` and `B = []` it is the probability of
at most one arrival. -/
example (lam : ℝ) : poissonInsideProb lam [0] [] = Real.exp (-lam) + Real.exp (-lam) * lam := by
  have h : ∀ k, k ≤ 1 → insideProb k [0] [] = 1 := by
    intro k hk
    have hae : ∀ᵐ x ∂(iidUniform k), StaysInside [0] [] (orderStat x) := by
      have hpos : ∀ᵐ x ∂(iidUniform k), ∀ i, 0 ≤ x i := by
        rw [ae_all_iff]
        intro i
        have : ∀ᵐ y ∂((iidUniform k).map fun x => x i), (0 : ℝ) ≤ y := by
          have he : (iidUniform k).map (fun x => x i) = (volume : Measure ℝ).restrict (Icc 0 1) :=
            (measurePreserving_eval (fun _ : Fin k => (volume : Measure ℝ).restrict (Icc 0 1)) i).map_eq
          rw [he]
          filter_upwards [ae_restrict_mem measurableSet_Icc] with y hy using hy.1
        exact ae_of_ae_map (measurable_pi_apply i).aemeasurable this
      filter_upwards [hpos] with x hx
      refine ⟨fun i y hy => ?_, fun i y hy => by simp at hy⟩
      have : (i : ℕ) = 0 := by have := i.2; omega
      rw [this] at hy
      simp at hy
      subst hy
      exact hx _
    unfold insideProb
    rw [measureReal_def, measure_congr (Filter.eventuallyEq_univ.mpr hae)]
    simp
  unfold poissonInsideProb
  rw [show Finset.Icc ([] : List ℝ).length ([0] : List ℝ).length = {0, 1} from rfl, Finset.sum_pair (by norm_num), h 0 (by norm_num), h 1 le_rfl]
  norm_num

end CP.Props
