import Verif.Proofs.PoissonBand
import Verif.Props.Hoeffding
/-
Property C84: what `crossprob_mc poisson` estimates, in terms of a Poisson process and two boundary functions.
-/
open MeasureTheory Set ProbabilityTheory
namespace CP.Props
open CP.Spec CP.McSpec FOps

section
variable {Ω : Type*} [MeasurableSpace Ω] {μ : Measure Ω} [IsProbabilityMeasure μ] {lam : ℝ} (hlam : 0 < lam) {E : ℕ → Ω → ℝ}
  (hE : PoissonGaps E lam μ)

include hlam hE in
/-- C84: the process of the specification is a Poisson process: the number of its points up to time 1 has the Poisson
distribution with mean `lam`. -/
theorem C84_count (k : ℕ) : μ.real {ω | poissonPath (fun j => E j ω) 1 = k} = Real.exp (-lam) * lam ^ k / (k.factorial : ℝ) := by
  rw [← hasPoints_prob hlam hE k]
  refine measureReal_congr ?_
  filter_upwards [ae_hasPoints hlam hE, ae_gaps hlam hE] with ω ⟨K, hK⟩ hpos
  refine propext ?_
  show poissonPath (fun j => E j ω) 1 = k ↔ hasPoints (fun j => E j ω) k
  rw [path_one hpos hK]
  exact ⟨fun h => h ▸ hK, fun h => hasPoints_unique hK h⟩

include hlam hE in
/-- C84: for non-decreasing boundary functions `g`, `h` on [0,1] with `0 <= h(0)`, the probability that the Poisson process
stays between them is the probability that `crossprob_mc poisson` estimates (C50, C69, C73) for the file with the lines
`inf {t : h(t) >= i}`, `i = 1, ..., floor h(1)`, and `sup {t : g(t) <= i-1}`, `i = 1, ..., ceil g(1)`. -/
theorem C84_band {g h : ℝ → ℝ} (hg : MonotoneOn g (Icc 0 1)) (hh : MonotoneOn h (Icc 0 1)) (h0 : 0 ≤ h 0) :
    μ.real {ω | ∀ t ∈ Icc (0:ℝ) 1, g t ≤ poissonPath (fun j => E j ω) t ∧ (poissonPath (fun j => E j ω) t : ℝ) ≤ h t} =
      poissonInsideProb lam (upCrossings h) (downCrossings g) := poisson_band hlam hE hg hh h0

variable {Ω' : Type*} [MeasurableSpace Ω'] {ν : Measure Ω'} [IsProbabilityMeasure ν] {S : Type}

include hlam hE in
/-- C84: `poisson_process_crossing_probability_montecarlo` called with these lines: with ideal draws it returns almost
surely a number whose mean is the probability that the process leaves the band. -/
theorem C84_estimate (asserts : Bool) (uniform : S → XR × S) (rng : Ω' → S) (U : ℕ → Ω' → ℝ) (hU : IidDraws U ν)
    (hdraw : ∀ ω j, draw uniform (rng ω) j = .fin (U j ω)) {g h : ℝ → ℝ} (hg : MonotoneOn g (Icc 0 1)) (hh : MonotoneOn h (Icc 0 1))
    (h0 : 0 ≤ h 0) (N : ℕ) (hN0 : 1 ≤ N) (hN : (N : ℤ) ≤ 2 ^ 31 - 1) :
    ∃ p : Ω' → ℝ, Measurable p ∧
      (∀ᵐ ω ∂ν, poissonMc asserts uniform (.ok (rng ω)) (.fin lam) ((upCrossings h).map .fin) ((downCrossings g).map .fin) N = .ok (.fin (p ω))) ∧
      ∫ ω, p ω ∂ν = 1 -
        μ.real {ω | ∀ t ∈ Icc (0:ℝ) 1, g t ≤ poissonPath (fun j => E j ω) t ∧ (poissonPath (fun j => E j ω) t : ℝ) ≤ h t} := by
  rw [poisson_band hlam hE hg hh h0]
  by_cases hb : upCrossings h = [] ∨ (downCrossings g).length ≤ (upCrossings h).length
  · obtain ⟨p, h1, h2, h3, _⟩ := C50_unbiased asserts uniform rng U hU hdraw hlam (upCrossings h) (downCrossings g) hb N hN0 hN
    exact ⟨p, h1, h2, h3⟩
  · rw [not_or, not_le] at hb
    refine ⟨fun _ => 1, measurable_const, Filter.Eventually.of_forall fun ω => ?_, ?_⟩
    · unfold poissonMc
      rw [if_pos (by simpa [List.length_pos_iff] using hb), XR.one_eq]
    · have : poissonInsideProb lam (upCrossings h) (downCrossings g) = 0 := by
        unfold poissonInsideProb
        rw [Finset.Icc_eq_empty (by omega), Finset.sum_empty]
      rw [this]
      simp

include hlam hE in
/-- C84: except with probability `2 exp(-2 N c^2)` the estimate is closer than `c` to the probability that the process
leaves the band. -/
theorem C84_error (asserts : Bool) (uniform : S → XR × S) (rng : Ω' → S) (U : ℕ → Ω' → ℝ) (hU : IidDraws U ν)
    (hdraw : ∀ ω j, draw uniform (rng ω) j = .fin (U j ω)) {g h : ℝ → ℝ} (hg : MonotoneOn g (Icc 0 1)) (hh : MonotoneOn h (Icc 0 1))
    (h0 : 0 ≤ h 0) (N : ℕ) (hN0 : 1 ≤ N) (hN : (N : ℤ) ≤ 2 ^ 31 - 1) {c : ℝ} (hc : 0 < c) :
    ν.real {ω | ¬ ∃ p : ℝ,
      poissonMc asserts uniform (.ok (rng ω)) (.fin lam) ((upCrossings h).map .fin) ((downCrossings g).map .fin) N = .ok (.fin p) ∧
      |p - (1 - μ.real {ω | ∀ t ∈ Icc (0:ℝ) 1, g t ≤ poissonPath (fun j => E j ω) t ∧ (poissonPath (fun j => E j ω) t : ℝ) ≤ h t})| < c} ≤
      2 * Real.exp (-2 * N * c ^ 2) := by
  rw [poisson_band hlam hE hg hh h0]
  by_cases hb : upCrossings h = [] ∨ (downCrossings g).length ≤ (upCrossings h).length
  · exact C69_poisson asserts uniform rng U hU hdraw hlam (upCrossings h) (downCrossings g) hb N hN0 hN hc.le
  · rw [not_or, not_le] at hb
    have e : {ω : Ω' | ¬ ∃ p : ℝ,
      poissonMc asserts uniform (.ok (rng ω)) (.fin lam) ((upCrossings h).map .fin) ((downCrossings g).map .fin) N = .ok (.fin p) ∧
        |p - (1 - poissonInsideProb lam (upCrossings h) (downCrossings g))| < c} = ∅ := by
      rw [Set.eq_empty_iff_forall_notMem]
      intro ω hω
      refine hω ⟨1, ?_, ?_⟩
      · unfold poissonMc
        rw [if_pos (by simpa [List.length_pos_iff] using hb), XR.one_eq]
      · have : poissonInsideProb lam (upCrossings h) (downCrossings g) = 0 := by
          unfold poissonInsideProb
          rw [Finset.Icc_eq_empty (by omega), Finset.sum_empty]
        rw [this]
        simpa using hc
    rw [e, measureReal_empty]
    positivity

end

/-- C84: the two lines are boundaries that the program accepts: non-decreasing numbers between 0 and 1. -/
theorem C84_lines_valid (f : ℝ → ℝ) : (upCrossings f).Pairwise (· ≤ ·) ∧ (∀ x ∈ upCrossings f, x ∈ Icc (0:ℝ) 1) ∧
    (downCrossings f).Pairwise (· ≤ ·) ∧ ∀ x ∈ downCrossings f, x ∈ Icc (0:ℝ) 1 := by
  have hne : ∀ i : Fin ⌊f 1⌋₊, ((i : ℕ) + 1 : ℝ) ≤ f 1 := by
    intro i
    have h4 := (Nat.le_floor_iff' (by omega)).mp (show (i : ℕ) + 1 ≤ ⌊f 1⌋₊ from i.2)
    push_cast at h4
    exact h4
  have hb : ∀ i : ℕ, BddBelow {t | t ∈ Icc (0:ℝ) 1 ∧ ((i : ℕ) + 1 : ℝ) ≤ f t} := fun i => ⟨0, fun t ht => ht.1.1⟩
  have hB : ∀ i : ℕ, BddAbove ({t | t ∈ Icc (0:ℝ) 1 ∧ f t ≤ ((i : ℕ) : ℝ)} ∪ {0}) := by
    refine fun i => ⟨1, ?_⟩
    rintro t (ht | ht)
    · exact ht.1.2
    · rw [ht]; exact zero_le_one
  refine ⟨?_, ?_, ?_, ?_⟩
  · unfold upCrossings
    rw [List.pairwise_ofFn]
    intro i j hij
    refine csInf_le_csInf (hb i) ⟨1, ⟨zero_le_one, le_rfl⟩, hne j⟩ fun t ht => ⟨ht.1, le_trans ?_ ht.2⟩
    have : ((i : ℕ) : ℝ) ≤ (j : ℕ) := by exact_mod_cast hij.le
    linarith
  · unfold upCrossings
    intro x hx
    rw [List.mem_ofFn] at hx
    obtain ⟨i, rfl⟩ := hx
    exact ⟨le_csInf ⟨1, ⟨zero_le_one, le_rfl⟩, hne i⟩ fun t ht => ht.1.1, csInf_le (hb i) ⟨⟨zero_le_one, le_rfl⟩, hne i⟩⟩
  · unfold downCrossings
    rw [List.pairwise_ofFn]
    intro i j hij
    refine csSup_le_csSup (hB j) ⟨0, Or.inr rfl⟩ ?_
    have : ((i : ℕ) : ℝ) ≤ (j : ℕ) := by exact_mod_cast hij.le
    rintro t (ht | ht)
    · exact Or.inl ⟨ht.1, ht.2.trans this⟩
    · exact Or.inr ht
  · unfold downCrossings
    intro x hx
    rw [List.mem_ofFn] at hx
    obtain ⟨i, rfl⟩ := hx
    refine ⟨le_csSup (hB i) (Or.inr rfl), csSup_le ⟨0, Or.inr rfl⟩ ?_⟩
    rintro t (ht | ht)
    · exact ht.1.2
    · rw [ht]; exact zero_le_one

/-! ## The hypotheses are met -/

/-- The law of an infinite sequence of independent exponential waiting times. -/
noncomputable def gapLaw (lam : ℝ) : Measure (ℕ → ℝ) := Measure.infinitePi fun _ => expMeasure lam

theorem gapLaw_gaps {lam : ℝ} (hlam : 0 < lam) : PoissonGaps (fun j (s : ℕ → ℝ) => s j) lam (gapLaw lam) := by
  have : IsProbabilityMeasure (expMeasure lam) := isProbabilityMeasure_expMeasure hlam
  refine ⟨fun j => measurable_pi_apply j, ?_, fun j => Measure.infinitePi_map_eval _ j⟩
  unfold gapLaw
  exact iIndepFun_infinitePi (P := fun _ => expMeasure lam) (X := fun _ x => x) fun _ => measurable_id

theorem gapLaw_prob {lam : ℝ} (hlam : 0 < lam) : IsProbabilityMeasure (gapLaw lam) := by
  have : IsProbabilityMeasure (expMeasure lam) := isProbabilityMeasure_expMeasure hlam
  unfold gapLaw; infer_instance

/-- A band around the mean of a process of intensity 4. -/
example := haveI := gapLaw_prob (lam := 4) (by norm_num)
  C84_band (lam := 4) (by norm_num) (gapLaw_gaps (by norm_num)) (g := fun t => 4 * t - 3) (h := fun t => 4 * t + 3)
  (fun a _ b _ h => by dsimp only; linarith) (fun a _ b _ h => by dsimp only; linarith) (by norm_num)

example := haveI := gapLaw_prob (lam := 4) (by norm_num)
  C84_error (lam := 4) (by norm_num) (gapLaw_gaps (by norm_num)) true streamRng id _ streamLaw_iid (fun ω j => streamRng_draw ω j)
  (g := fun t => 4 * t - 3) (h := fun t => 4 * t + 3)
  (fun a _ b _ h => by dsimp only; linarith) (fun a _ b _ h => by dsimp only; linarith) (by norm_num) 1000 (by norm_num) (by norm_num)
  (c := 1 / 10) (by norm_num)

/-- The first line for that band: three zeros, then `1/4, ..., 1`. -/
example : upCrossings (fun t => 4 * t + 3) = [0, 0, 0, 1/4, 1/2, 3/4, 1] := by
  have key : ∀ c : ℝ, c ≤ 7 → sInf {t | t ∈ Icc (0:ℝ) 1 ∧ c ≤ 4 * t + 3} = max 0 ((c - 3) / 4) := by
    intro c hc
    refine (IsLeast.csInf_eq ⟨⟨⟨le_max_left _ _, max_le zero_le_one (by linarith)⟩, ?_⟩, ?_⟩)
    · have := le_max_right 0 ((c - 3) / 4); linarith
    · rintro t ⟨h1, h2⟩
      exact max_le h1.1 (by linarith)
  have hfl : ⌊(4 * 1 + 3 : ℝ)⌋₊ = 7 := by norm_num
  have hlen : (upCrossings fun t => 4 * t + 3).length = 7 := by unfold upCrossings; rw [List.length_ofFn]; exact hfl
  refine List.ext_getElem (by rw [hlen]; rfl) fun i h1 h2 => ?_
  have e : (upCrossings fun t => 4 * t + 3)[i] = sInf {t | t ∈ Icc (0:ℝ) 1 ∧ ((i : ℕ) + 1 : ℝ) ≤ 4 * t + 3} := by
    simp only [upCrossings, List.getElem_ofFn]
  rw [e, key _ (by
    have : i + 1 ≤ 7 := by rw [hlen] at h1; omega
    have : ((i + 1 : ℕ) : ℝ) ≤ 7 := by exact_mod_cast this
    push_cast at this; exact this)]
  rw [hlen] at h1
  interval_cases i <;> norm_num

end CP.Props
