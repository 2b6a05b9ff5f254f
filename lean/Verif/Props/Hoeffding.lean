import Verif.Proofs.Hoeffding
import Verif.Props.McLaw
/-
Property C69: with independent uniform draws the probability of an error of `c` or more in a Monte-Carlo estimate
decreases exponentially in the number of simulations.
-/
open MeasureTheory Set ProbabilityTheory
namespace CP.Props
open CP.Spec CP.McSpec FOps

section
variable {Ω : Type*} [MeasurableSpace Ω] {μ : Measure Ω} [IsProbabilityMeasure μ] {S : Type}

/-- C69: `ecdf_crossing_probability_montecarlo` with ideal draws.  Except with probability `2 exp(-2 N c^2)` it returns
a number that is closer than `c` to the probability that the order statistics of `n` uniform numbers leave the
boundaries. -/
theorem C69_ecdf (uniform : S → XR × S) (rng : Ω → S) (U : ℕ → Ω → ℝ) (hU : IidDraws U μ)
    (hdraw : ∀ ω j, draw uniform (rng ω) j = .fin (U j ω)) (n : ℕ) (hn : 1 ≤ n) (b B : List ℝ)
    (hB : B.length ≤ n) (hb : b = [] ∨ n ≤ b.length) (N : ℕ) (hN0 : 1 ≤ N) (hN : (N : ℤ) ≤ 2 ^ 31 - 1) {c : ℝ} (hc : 0 ≤ c) :
    μ.real {ω | ¬ ∃ p : ℝ, ecdfMc uniform (rng ω) n (b.map .fin) (B.map .fin) N = .ok (.fin p) ∧
        |p - (1 - insideProb n b B)| < c} ≤ 2 * Real.exp (-2 * N * c ^ 2) := by
  refine le_trans ?_ (run_hoeffding hU (crossSet_run n b B) (crossSet_prob hU n b B) N hN0 hc)
  rw [measureReal_def, measureReal_def]
  refine ENNReal.toReal_mono (measure_ne_top _ _) (measure_mono_ae ?_)
  filter_upwards [ae_draws hU] with ω hω hbad
  by_contra hlt
  refine hbad ⟨_, ?_, not_le.mp hlt⟩
  have hN' : ((N : ℤ) : ℝ) ≠ 0 := by
    have : (1 : ℝ) ≤ N := by exact_mod_cast hN0
    push_cast
    linarith
  rw [C33_any_arithmetic uniform (rng ω) n hn _ _ N (by simpa using hB) (by simpa using hb) hN, XR.ofInt_eq, XR.ofInt_eq,
    XR.div_fin _ hN']
  congr 2
  have hev : (fun r => ¬ Inside (sample (fun j => draw uniform (rng ω) (r * (n + 1) + j)) n) (b.map .fin) (B.map .fin)) =
      fun r => shift (startOf (fun _ => n + 1) (seqOf U ω) r) (seqOf U ω) ∈ crossSet n b B := by
    funext r
    rw [startOf_const, sample_fin (v := fun j => U (r * (n + 1) + j) ω) (fun j => hdraw ω _) (fun j => hω _), inside_iff b B _ hB hb]
    rfl
  rw [hev]
  push_cast
  rfl

/-- C69: the same for the Poisson simulation, whose paths use a random number of draws. -/
theorem C69_poisson (asserts : Bool) (uniform : S → XR × S) (rng : Ω → S) (U : ℕ → Ω → ℝ) (hU : IidDraws U μ)
    (hdraw : ∀ ω j, draw uniform (rng ω) j = .fin (U j ω)) {lam : ℝ} (hlam : 0 < lam) (b B : List ℝ)
    (hb : b = [] ∨ B.length ≤ b.length) (N : ℕ) (hN0 : 1 ≤ N) (hN : (N : ℤ) ≤ 2 ^ 31 - 1) {c : ℝ} (hc : 0 ≤ c) :
    μ.real {ω | ¬ ∃ p : ℝ,
        poissonMc asserts uniform (.ok (rng ω)) (.fin lam) (b.map .fin) (B.map .fin) N = .ok (.fin p) ∧
        |p - (1 - poissonInsideProb lam b B)| < c} ≤ 2 * Real.exp (-2 * N * c ^ 2) := by
  refine le_trans ?_ (run_hoeffding hU (pathCross_run lam b B) (pathCross_prob hU hlam b B) N hN0 hc)
  rw [measureReal_def, measureReal_def]
  refine ENNReal.toReal_mono (measure_ne_top _ _) (measure_mono_ae ?_)
  filter_upwards [ae_draws hU] with ω hω hbad
  by_contra hlt
  refine hbad ⟨_, ?_, not_le.mp hlt⟩
  have hN' : ((N : ℤ) : ℝ) ≠ 0 := by
    have : (1 : ℝ) ≤ N := by exact_mod_cast hN0
    push_cast
    linarith
  rw [C35_poisson_counts asserts uniform (rng ω) _ _ _ N (by simpa using hb) hN, XR.ofInt_eq, XR.ofInt_eq,
    XR.div_fin _ hN']
  congr 2
  have harr : ∀ k, (arrival (one /ᶠ XR.fin lam) fun j => draw uniform (rng ω) (k + j)) =
      fun i => XR.fin (arr lam (shift k (seqOf U ω)) i) := by
    intro k
    funext i
    exact arrival_lam hlam.ne' (fun j => ⟨hdraw ω _, (hω _).1⟩) i
  have hst : ∀ r, pathStart (one /ᶠ XR.fin lam) (draw uniform (rng ω)) (b.map XR.fin).length r =
      startOf (pathLen lam b.length) (seqOf U ω) r := by
    intro r
    induction r with
    | zero => rfl
    | succ r ih =>
      rw [pathStart, startOf, ih, harr, List.length_map]
      rfl
  have hev : (fun r => ¬ PoissonInside (arrival (one /ᶠ XR.fin lam) fun j =>
        draw uniform (rng ω) (pathStart (one /ᶠ XR.fin lam) (draw uniform (rng ω)) (b.map XR.fin).length r + j)) (b.map .fin) (B.map .fin)) =
      fun r => shift (startOf (pathLen lam b.length) (seqOf U ω) r) (seqOf U ω) ∈ pathCross lam b B := by
    funext r
    rw [hst, harr, poissonInside_iff]
  rw [hev]
  push_cast
  rfl

/-- C69: the estimate of the non-crossing probability agrees with the exact algorithm `ecdf2` up to `c`, except with
probability `2 exp(-2 N c^2)`. -/
theorem C69_agrees_with_ecdf2 (uniform : S → XR × S) (rng : Ω → S) (U : ℕ → Ω → ℝ) (hU : IidDraws U μ)
    (hdraw : ∀ ω j, draw uniform (rng ω) j = .fin (U j ω)) (N : ℕ) (hN0 : 1 ≤ N) (hN : (N : ℤ) ≤ 2 ^ 31 - 1)
    (env : Env XR) (hf : ExactFFT env.fft) {sort : List (Bound XR) → List (Bound XR)} (hsort : SortContract sort)
    (useFft : Bool) {n : ℕ} (hn : 1 ≤ n) {b B : Fin n → ℝ} (hb : ValidBound b) (hB : ValidBound B)
    (ha : env.asserts = false ∨ ¬ StronglyCrossed b B) {c : ℝ} (hc : 0 ≤ c) :
    ∃ q : ℝ, ecdf2 env sort (toList b) (toList B) useFft = .ok (.fin q) ∧
      μ.real {ω | ¬ ∃ p : ℝ, ecdfMc uniform (rng ω) n (toList b) (toList B) N = .ok (.fin p) ∧ |(1 - p) - q| < c} ≤
        2 * Real.exp (-2 * N * c ^ 2) := by
  refine ⟨_, C01_ecdf2 env hf hsort hb hB useFft ha, ?_⟩
  have h := C69_ecdf uniform rng U hU hdraw n hn (List.ofFn b) (List.ofFn B) (by simp) (Or.inr (by simp)) N hN0 hN hc
  rw [map_ofFn_fin, map_ofFn_fin, insideProb_full] at h
  refine le_trans (le_of_eq ?_) h
  congr 1
  ext ω
  simp only [Set.mem_ofPred_eq]
  refine not_congr (exists_congr fun p => and_congr_right fun _ => ?_)
  rw [show (1 - p) - noncrossProb b B = -(p - (1 - noncrossProb b B)) by ring, abs_neg]

end

/-- C69 applies to a generator fed by an infinite sequence of independent uniform numbers. -/
example := C69_ecdf streamRng id _ streamLaw_iid (fun ω j => streamRng_draw ω j) 2 (by norm_num) [1/10, 3/10] [1/2, 9/10]
  (by simp) (by simp) 1000000 (by norm_num) (by norm_num) (c := 1/100) (by norm_num)

example := C69_poisson true streamRng id _ streamLaw_iid (fun ω j => streamRng_draw ω j) (lam := 2) (by norm_num)
  [1/10, 3/10, 1/2] [1/2, 9/10] (by simp) 1000000 (by norm_num) (by norm_num) (c := 1/100) (by norm_num)

example := C69_agrees_with_ecdf2 streamRng id _ streamLaw_iid (fun ω j => streamRng_draw ω j) 1000000 (by norm_num) (by norm_num)
  relEnv exactFFTW_exact mergeSortBounds_contract true (by norm_num) exb_valid exB_valid (Or.inl rfl) (c := 1/100) (by norm_num)

end CP.Props
