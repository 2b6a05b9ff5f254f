import Verif.Proofs.KsSize
import Verif.Props.McLaw
/-
Property C81: goodness-of-fit testing with the results.  The functions of the library answer the questions the
README names: the probability that an empirical distribution function stays between two boundary functions,
p-values of Kolmogorov-Smirnov tests, and their power against a given alternative.
-/
open MeasureTheory Set ProbabilityTheory
namespace CP.Props
open CP.Spec CP.McSpec FOps

section
variable (env : Env XR) (hf : ExactFFT env.fft) {sort : List (Bound XR) → List (Bound XR)} (hsort : SortContract sort)
  (useFft : Bool) {n : ℕ}

/-! ## Observations with an arbitrary law -/

include hf hsort in
/-- C81: for `n` independent observations with any common law `ρ` on the line (atoms allowed), the probability that the
ordered observations stay between `β` and `Γ` is the result of `ecdf2` for the boundaries `ρ(Y < β_i)`, `ρ(Y ≤ Γ_i)`. -/
theorem C81_any_law (ρ : Measure ℝ) [IsProbabilityMeasure ρ] {β Γ : Fin n → ℝ} (hβ : Monotone β) (hΓ : Monotone Γ)
    (ha : env.asserts = false ∨ ∀ i j : Fin n, (j : ℕ) = i + 1 → β i ≤ Γ j) :
    ecdf2 env sort (toList fun i => ρ.real {y | y < β i}) (toList fun i => ρ.real {y | y ≤ Γ i}) useFft =
      .ok (.fin ((iid ρ n).real {y | ∀ i, β i ≤ orderStat y i ∧ orderStat y i ≤ Γ i})) := by
  rw [iid_both]
  refine C01_ecdf2 env hf hsort (validBound_lt ρ id hβ) (validBound_le ρ id hΓ) useFft (ha.imp id ?_)
  rintro h ⟨i, j, hij, hlt⟩
  refine absurd hlt (not_lt.mpr ?_)
  exact measureReal_mono fun y (hy : y < β i) => show y ≤ Γ j from (hy.trans_le (h i j hij)).le

include hf in
/-- C81: the same for the four one-sided functions. -/
theorem C81_any_law_one_sided (ρ : Measure ℝ) [IsProbabilityMeasure ρ] {β : Fin n → ℝ} (hβ : Monotone β) :
    ecdf1Mns2016b env (toList fun i => ρ.real {y | y < β i}) = .ok (.fin ((iid ρ n).real {y | ∀ i, β i ≤ orderStat y i})) ∧
    ecdf1Mns2016B env (toList fun i => ρ.real {y | y ≤ β i}) = .ok (.fin ((iid ρ n).real {y | ∀ i, orderStat y i ≤ β i})) ∧
    (1 ≤ n → env.asserts = false ∨ 2 ≤ n →
      ecdf1Newb env Nat.sqrt (toList fun i => ρ.real {y | y < β i}) = .ok (.fin ((iid ρ n).real {y | ∀ i, β i ≤ orderStat y i})) ∧
      ecdf1NewB env Nat.sqrt (toList fun i => ρ.real {y | y ≤ β i}) = .ok (.fin ((iid ρ n).real {y | ∀ i, orderStat y i ≤ β i}))) := by
  rw [iid_lower, iid_upper]
  refine ⟨C04_ecdf1_mns2016_b env (validBound_lt ρ id hβ), C05_ecdf1_mns2016_B env (validBound_le ρ id hβ), fun hn ha => ⟨?_, ?_⟩⟩
  · exact C03_ecdf1_new_b env hf hn (validBound_lt ρ id hβ) ha
  · exact C02_ecdf1_new_B env hf hn (validBound_le ρ id hβ) ha

/-! ## Boundary functions -/

include hf hsort in
/-- C81: for non-decreasing boundary functions `g` and `h` on `[0,1]`, the probability that the empirical distribution
function of `n` uniform observations stays between them is the result of `ecdf2` for the first times `h` reaches
`i/n` and the last times `g` is at most `(i-1)/n`. -/
theorem C81_band {g h : ℝ → ℝ} (hg : MonotoneOn g (Icc 0 1)) (hh : MonotoneOn h (Icc 0 1)) (h0 : 0 ≤ h 0) (h1 : g 1 ≤ 1) (hn : 1 ≤ n)
    (ha : env.asserts = false ∨ ∀ t ∈ Icc (0:ℝ) 1, g t ≤ h t) :
    ecdf2 env sort (toList (firstReach n h)) (toList (lastBelow n g)) useFft =
      .ok (.fin ((iidUniform n).real {x | ∀ t ∈ Icc (0:ℝ) 1, g t ≤ ecdf x t ∧ ecdf x t ≤ h t})) := by
  rw [band_law hg hh h0 h1 hn]
  refine C01_ecdf2 env hf hsort (reach_valid h) (leave_valid g) useFft (ha.imp id ?_)
  rintro hgh ⟨i, j, hij, hlt⟩
  exact absurd hlt (not_lt.mpr (reach_le_leave hgh hij))

include hf in
/-- C81: the same for one boundary function, `ecdf1_new_b` and `ecdf1_mns2016_b` (from above), `ecdf1_new_B` and
`ecdf1_mns2016_B` (from below). -/
theorem C81_band_one_sided {g h : ℝ → ℝ} (hg : MonotoneOn g (Icc 0 1)) (hh : MonotoneOn h (Icc 0 1)) (h0 : 0 ≤ h 0) (h1 : g 1 ≤ 1) (hn : 1 ≤ n)
    (ha : env.asserts = false ∨ 2 ≤ n) :
    ecdf1Newb env Nat.sqrt (toList (firstReach n h)) = .ok (.fin ((iidUniform n).real {x | ∀ t ∈ Icc (0:ℝ) 1, ecdf x t ≤ h t})) ∧
    ecdf1Mns2016b env (toList (firstReach n h)) = .ok (.fin ((iidUniform n).real {x | ∀ t ∈ Icc (0:ℝ) 1, ecdf x t ≤ h t})) ∧
    ecdf1NewB env Nat.sqrt (toList (lastBelow n g)) = .ok (.fin ((iidUniform n).real {x | ∀ t ∈ Icc (0:ℝ) 1, g t ≤ ecdf x t})) ∧
    ecdf1Mns2016B env (toList (lastBelow n g)) = .ok (.fin ((iidUniform n).real {x | ∀ t ∈ Icc (0:ℝ) 1, g t ≤ ecdf x t})) := by
  rw [below_law hh h0, above_law hg h1 hn]
  exact ⟨C03_ecdf1_new_b env hf hn (reach_valid h) ha, C04_ecdf1_mns2016_b env (reach_valid h),
    C02_ecdf1_new_B env hf hn (leave_valid g) ha, C05_ecdf1_mns2016_B env (leave_valid g)⟩

/-! ## Kolmogorov-Smirnov tests -/

theorem ks_not_crossed (n : ℕ) {d : ℝ} (hd : 0 ≤ d) : ¬ StronglyCrossed (ksLower n d) (ksUpper n d) := by
  rintro ⟨i, j, hij, hlt⟩
  refine absurd hlt (not_lt.mpr ?_)
  unfold ksLower ksUpper
  have e : (((j : ℕ) : ℝ)) = (i : ℕ) + 1 := by rw [hij]; push_cast; rfl
  have hn : (0:ℝ) < n := by exact_mod_cast i.pos
  have h1 : ((i : ℕ) + 1 : ℝ) / n ≤ 1 := by
    rw [div_le_one hn]; exact_mod_cast i.isLt
  have h2 : (0:ℝ) ≤ ((i : ℕ) + 1 : ℝ) / n := by positivity
  rw [e]
  refine max_le (le_min zero_le_one (by linarith)) (le_min (by linarith) (by linarith))

include hf hsort in
/-- C81: the null distribution of the two-sided Kolmogorov-Smirnov statistic.  For any law `μ` without atoms, any
`n ≥ 1` and `d ≥ 0`, `ecdf2` with the boundaries `max(0, i/n - d)` and `min(1, (i-1)/n + d)` returns `P(D_n ≤ d)`. -/
theorem C81_ks (μ : Measure ℝ) [IsProbabilityMeasure μ] (hat : ∀ y, μ {y} = 0) (hn : 1 ≤ n) {d : ℝ} (hd : 0 ≤ d) :
    ecdf2 env sort (toList (ksLower n d)) (toList (ksUpper n d)) useFft =
      .ok (.fin ((iid μ n).real {y | ksStat (cdf μ) y ≤ d})) := by
  rw [ksStat_null μ hat hn hd]
  exact C01_ecdf2 env hf hsort (ksLower_valid hd) (ksUpper_valid hd) useFft (Or.inr (ks_not_crossed n hd))

include hf in
/-- C81: the null distributions of the one-sided Kolmogorov-Smirnov statistics. -/
theorem C81_ks_one_sided (μ : Measure ℝ) [IsProbabilityMeasure μ] (hat : ∀ y, μ {y} = 0) (hn : 1 ≤ n) {d : ℝ} (hd : 0 ≤ d)
    (ha : env.asserts = false ∨ 2 ≤ n) :
    ecdf1Newb env Nat.sqrt (toList (ksLower n d)) = .ok (.fin ((iid μ n).real {y | ksPlus (cdf μ) y ≤ d})) ∧
    ecdf1Mns2016b env (toList (ksLower n d)) = .ok (.fin ((iid μ n).real {y | ksPlus (cdf μ) y ≤ d})) ∧
    ecdf1NewB env Nat.sqrt (toList (ksUpper n d)) = .ok (.fin ((iid μ n).real {y | ksMinus (cdf μ) y ≤ d})) ∧
    ecdf1Mns2016B env (toList (ksUpper n d)) = .ok (.fin ((iid μ n).real {y | ksMinus (cdf μ) y ≤ d})) := by
  rw [ksPlus_null μ hat hd, ksMinus_null μ hat hn hd]
  exact ⟨C03_ecdf1_new_b env hf hn (ksLower_valid hd) ha, C04_ecdf1_mns2016_b env (ksLower_valid hd),
    C02_ecdf1_new_B env hf hn (ksUpper_valid hd) ha, C05_ecdf1_mns2016_B env (ksUpper_valid hd)⟩

include hf hsort in
/-- C81: power.  If the observations have any law `ρ` instead of the law `μ` (without atoms) of the null hypothesis,
`ecdf2` with the boundaries `ρ(F(Y) < i/n - d)` and `ρ(F(Y) ≤ (i-1)/n + d)`, `F` the distribution function of `μ`,
returns the probability that the statistic does not exceed `d`. -/
theorem C81_power (μ : Measure ℝ) [IsProbabilityMeasure μ] (hat : ∀ y, μ {y} = 0) (ρ : Measure ℝ) [IsProbabilityMeasure ρ]
    (hn : 1 ≤ n) {d : ℝ} (hd : 0 ≤ d) :
    ecdf2 env sort (toList fun i : Fin n => ρ.real {y | cdf μ y < ((i : ℕ) + 1 : ℝ) / n - d})
      (toList fun i : Fin n => ρ.real {y | cdf μ y ≤ ((i : ℕ) : ℝ) / n + d}) useFft =
      .ok (.fin ((iid ρ n).real {y | ksStat (cdf μ) y ≤ d})) := by
  rw [ksStat_law ρ (monotone_cdf μ) (cdf_continuous μ hat) (cdf_nonneg μ) (cdf_le_one μ) hn hd]
  refine C01_ecdf2 env hf hsort (validBound_lt ρ _ (mono_succ_div n d)) (validBound_le ρ _ (mono_div n d)) useFft (Or.inr ?_)
  rintro ⟨i, j, hij, hlt⟩
  refine absurd hlt (not_lt.mpr (measureReal_mono fun y (hy : cdf μ y < _) => show cdf μ y ≤ _ from ?_))
  have e : (((j : ℕ) : ℝ)) = (i : ℕ) + 1 := by rw [hij]; push_cast; rfl
  rw [e]
  linarith

include hf hsort in
/-- C81: the test has exactly the stated size.  Under the null hypothesis the p-value computed from the observed
statistic, one minus the result of `ecdf2`, is at most `α` with probability exactly `α`. -/
theorem C81_size (μ : Measure ℝ) [IsProbabilityMeasure μ] (hat : ∀ y, μ {y} = 0) (hn : 1 ≤ n) {α : ℝ} (h0 : 0 ≤ α) (h1 : α ≤ 1) :
    (iid μ n).real {y | ∃ q, ecdf2 env sort (toList (ksLower n (ksStat (cdf μ) y))) (toList (ksUpper n (ksStat (cdf μ) y))) useFft =
      .ok (.fin q) ∧ 1 - q ≤ α} = α := by
  have h := pvalue_uniform_nonneg (iid μ n) (measurable_ksStat μ hat hn) (ksStat_nonneg _) continuous_ks
    (fun d hd => ksStat_null μ hat hn hd) (both_zero hn) h0 h1
  refine Eq.trans (congrArg _ ?_) h
  ext y
  have hy := ksStat_nonneg (cdf μ) y
  simp only [mem_ofPred_eq]
  rw [C01_ecdf2 env hf hsort (ksLower_valid hy) (ksUpper_valid hy) useFft (Or.inr (ks_not_crossed n hy))]
  constructor
  · rintro ⟨q, hq, hle⟩
    simp only [Except.ok.injEq, XR.fin_inj] at hq
    rw [hq]; exact hle
  · intro hle
    exact ⟨_, rfl, hle⟩

include hf in
/-- C81: the same for the one-sided tests, with the two `O(n²)` functions. -/
theorem C81_size_one_sided (μ : Measure ℝ) [IsProbabilityMeasure μ] (hat : ∀ y, μ {y} = 0) (hn : 1 ≤ n) {α : ℝ} (h0 : 0 ≤ α) (h1 : α ≤ 1)
    (ha : env.asserts = false ∨ 2 ≤ n) :
    (iid μ n).real {y | ∃ q, ecdf1Newb env Nat.sqrt (toList (ksLower n (ksPlus (cdf μ) y))) = .ok (.fin q) ∧ 1 - q ≤ α} = α ∧
    (iid μ n).real {y | ∃ q, ecdf1Mns2016b env (toList (ksLower n (ksPlus (cdf μ) y))) = .ok (.fin q) ∧ 1 - q ≤ α} = α ∧
    (iid μ n).real {y | ∃ q, ecdf1NewB env Nat.sqrt (toList (ksUpper n (ksMinus (cdf μ) y))) = .ok (.fin q) ∧ 1 - q ≤ α} = α ∧
    (iid μ n).real {y | ∃ q, ecdf1Mns2016B env (toList (ksUpper n (ksMinus (cdf μ) y))) = .ok (.fin q) ∧ 1 - q ≤ α} = α := by
  have hp := pvalue_uniform_nonneg (iid μ n) (measurable_ksPlus μ) (ksPlus_nonneg μ) continuous_ksPlus
    (fun d hd => ksPlus_null μ hat hd) (lower_zero hn) h0 h1
  have hm := pvalue_uniform_nonneg (iid μ n) (measurable_ksMinus μ hat hn) (ksMinus_nonneg μ) continuous_ksMinus
    (fun d hd => ksMinus_null μ hat hn hd) (upper_zero hn) h0 h1
  have key : ∀ (f : (Fin n → ℝ) → M XR) (r : (Fin n → ℝ) → ℝ), (∀ y, f y = .ok (.fin (r y))) →
      {y | ∃ q, f y = .ok (.fin q) ∧ 1 - q ≤ α} = {y | 1 - r y ≤ α} := by
    intro f r hfr
    ext y
    simp only [mem_ofPred_eq]
    rw [hfr]
    constructor
    · rintro ⟨q, hq, hle⟩
      simp only [Except.ok.injEq, XR.fin_inj] at hq
      rw [hq]; exact hle
    · intro hle
      exact ⟨_, rfl, hle⟩
  refine ⟨?_, ?_, ?_, ?_⟩
  · rw [key _ _ fun y => C03_ecdf1_new_b env hf hn (ksLower_valid (ksPlus_nonneg μ y)) ha]; exact hp
  · rw [key _ _ fun y => C04_ecdf1_mns2016_b env (ksLower_valid (ksPlus_nonneg μ y))]; exact hp
  · rw [key _ _ fun y => C02_ecdf1_new_B env hf hn (ksUpper_valid (ksMinus_nonneg μ y)) ha]; exact hm
  · rw [key _ _ fun y => C05_ecdf1_mns2016_B env (ksUpper_valid (ksMinus_nonneg μ y))]; exact hm

end

/-! ## The description of the boundary file in the help text of `crossprob_mc` -/

theorem noncross_swapped : noncrossProb (fun _ : Fin 1 => (1:ℝ)) (fun _ => 0) = 0 := by
  unfold noncrossProb
  have e : {x : Fin 1 → ℝ | ∀ i, (1:ℝ) ≤ orderStat x i ∧ orderStat x i ≤ 0} = ∅ := by
    ext x
    simp only [mem_ofPred_eq, mem_empty_iff_false, iff_false]
    intro h
    have := h 0
    linarith [this.1, this.2]
  rw [e, measureReal_empty]

theorem const_valid {c : ℝ} (h0 : 0 ≤ c) (h1 : c ≤ 1) : ValidBound (fun _ : Fin 1 => c) :=
  ⟨fun _ _ _ => le_rfl, fun _ => ⟨h0, h1⟩⟩

theorem help_event :
    (iidUniform 1).real {x | ∀ t ∈ Icc (0:ℝ) 1, 2 * t - 1 ≤ ecdf x t ∧ ecdf x t ≤ 2 * t + 1} = 1 / 2 := by
  have hg : MonotoneOn (fun t : ℝ => 2 * t - 1) (Icc 0 1) := fun a _ b _ h => by dsimp only; linarith
  have hh : MonotoneOn (fun t : ℝ => 2 * t + 1) (Icc 0 1) := fun a _ b _ h => by dsimp only; linarith
  have h := band_law (n := 1) hg hh (by norm_num) (by norm_num) le_rfl
  have e1 : firstReach 1 (fun t : ℝ => 2 * t + 1) = fun _ => 0 := by
    funext i
    refine IsLeast.csInf_eq ⟨Or.inl ⟨⟨le_rfl, zero_le_one⟩, ?_⟩, ?_⟩
    · fin_cases i; norm_num
    · rintro t (⟨ht, -⟩ | ht)
      · exact ht.1
      · rw [mem_singleton_iff] at ht; rw [ht]; exact zero_le_one
  have e2 : lastBelow 1 (fun t : ℝ => 2 * t - 1) = fun _ => 1 / 2 := by
    funext i
    refine IsGreatest.csSup_eq ⟨Or.inl ⟨⟨by norm_num, by norm_num⟩, ?_⟩, ?_⟩
    · fin_cases i; norm_num
    · rintro t (⟨-, ht⟩ | ht)
      · fin_cases i; norm_num at ht; linarith
      · rw [mem_singleton_iff] at ht; rw [ht]; norm_num
  rw [e1, e2, noncrossProb_one 0 (1/2) le_rfl (by norm_num) (by norm_num)] at h
  simpa using h

/-- C81: the help text of `crossprob_mc` says that it estimates the probability that `g < F_n < h`, that line 1 of the
file holds the numbers `inf{t : g(t) ≥ i}` and line 2 the numbers `sup{t : h(t) ≤ i}`.  The names of the two functions
are exchanged there: for `n = 1`, `g(t) = 2t - 1`, `h(t) = 2t + 1` these numbers are 1 and 0; with this file the
expected estimate of the crossing probability is 1, and `ecdf2` returns 0, although the empirical distribution function
stays between `g` and `h` with probability 1/2.  `ecdf2` returns 1/2 if line 1 is made from `h` and line 2 from `g`,
with `i - 1` in the place of `i` in line 2 (C81_band). -/
theorem C81_help_text_exchanged {Ω : Type*} [MeasurableSpace Ω] {μ : Measure Ω} [IsProbabilityMeasure μ] {S : Type}
    (uniform : S → XR × S) (rng : Ω → S) (U : ℕ → Ω → ℝ) (hU : IidDraws U μ)
    (hdraw : ∀ ω j, draw uniform (rng ω) j = .fin (U j ω)) (N : ℕ) (hN0 : 1 ≤ N) (hN : (N : ℤ) ≤ 2 ^ 31 - 1)
    (env : Env XR) (hf : ExactFFT env.fft) {sort : List (Bound XR) → List (Bound XR)} (hsort : SortContract sort)
    (useFft : Bool) (ha : env.asserts = false) :
    sInf {t : ℝ | t ∈ Icc 0 1 ∧ 1 ≤ 2 * t - 1} = 1 ∧ sSup {t : ℝ | t ∈ Icc 0 1 ∧ 2 * t + 1 ≤ 1} = 0 ∧
    (iidUniform 1).real {x | ∀ t ∈ Icc (0:ℝ) 1, 2 * t - 1 ≤ ecdf x t ∧ ecdf x t ≤ 2 * t + 1} = 1 / 2 ∧
    ecdf2 env sort [.fin 1] [.fin 0] useFft = .ok (.fin 0) ∧
    (∃ p : Ω → ℝ, Measurable p ∧ (∀ᵐ ω ∂μ, ecdfMc uniform (rng ω) 1 [.fin 1] [.fin 0] N = .ok (.fin (p ω))) ∧ ∫ ω, p ω ∂μ = 1) ∧
    ecdf2 env sort [.fin 0] [.fin (1/2)] useFft = .ok (.fin (1/2)) := by
  have l : ∀ c : ℝ, toList (fun _ : Fin 1 => c) = [XR.fin c] := fun c => by simp [toList]
  have h0 := const_valid (c := 0) le_rfl zero_le_one
  have h1 := const_valid (c := 1) zero_le_one le_rfl
  have h2 := const_valid (c := 1/2) (by norm_num) (by norm_num)
  have hz := C01_ecdf2 env hf hsort h1 h0 useFft (Or.inl ha)
  rw [noncross_swapped, l, l] at hz
  refine ⟨?_, ?_, help_event, hz, ?_, ?_⟩
  · refine IsLeast.csInf_eq ⟨⟨⟨zero_le_one, le_rfl⟩, by norm_num⟩, ?_⟩
    rintro t ⟨-, ht⟩
    linarith
  · refine IsGreatest.csSup_eq ⟨⟨⟨le_rfl, zero_le_one⟩, by norm_num⟩, ?_⟩
    rintro t ⟨-, ht⟩
    linarith
  · obtain ⟨p, q, hq, hm, hp, hi, -⟩ := C47_estimates_ecdf2 uniform rng U hU hdraw N hN0 hN env hf hsort useFft le_rfl h1 h0 (Or.inl ha)
    rw [l, l] at hq hp
    rw [hz] at hq
    simp only [Except.ok.injEq, XR.fin_inj] at hq
    exact ⟨p, hm, hp, by rw [hi, ← hq]; norm_num⟩
  · have h := C01_ecdf2 env hf hsort h0 h2 useFft (Or.inl ha)
    rw [noncrossProb_one 0 (1/2) le_rfl (by norm_num) (by norm_num), l, l] at h
    rw [h]; norm_num

example := C81_help_text_exchanged streamRng id _ streamLaw_iid (fun ω j => streamRng_draw ω j) 1000 (by norm_num) (by norm_num)
  relEnv exactFFTW_exact mergeSortBounds_contract true rfl

/-! ## The hypotheses are met -/

theorem unif_no_atoms (y : ℝ) : unif {y} = 0 := by
  unfold unif
  exact le_antisymm ((Measure.restrict_apply_le _ _).trans (by simp)) zero_le

/-- The Kolmogorov-Smirnov test with three uniform observations, in the assertion build. -/
example := C81_ks dbgEnv exactFFTW_exact mergeSortBounds_contract true unif unif_no_atoms (n := 3) (d := 1/4) (by norm_num) (by norm_num)
example := C81_ks_one_sided dbgEnv exactFFTW_exact unif unif_no_atoms (n := 3) (d := 1/4) (by norm_num) (by norm_num) (Or.inr (by norm_num))
example := C81_size dbgEnv exactFFTW_exact mergeSortBounds_contract false unif unif_no_atoms (n := 3) (α := 1/20) (by norm_num) (by norm_num) (by norm_num)
example := C81_size_one_sided dbgEnv exactFFTW_exact unif unif_no_atoms (n := 3) (α := 1/20) (by norm_num) (by norm_num) (by norm_num) (Or.inr (by norm_num))
/-- An alternative with atoms. -/
example := C81_power dbgEnv exactFFTW_exact mergeSortBounds_contract true unif unif_no_atoms (Measure.dirac (1/2)) (n := 3) (d := 1/4) (by norm_num) (by norm_num)
example := C81_any_law dbgEnv exactFFTW_exact mergeSortBounds_contract true (Measure.dirac (1/2)) (β := fun i : Fin 3 => (i : ℕ) / 4)
  (Γ := fun i : Fin 3 => (i : ℕ) / 4 + 1 / 2)
  (fun i j h => by have : ((i : ℕ) : ℝ) ≤ (j : ℕ) := by exact_mod_cast h
                   dsimp only; linarith)
  (fun i j h => by have : ((i : ℕ) : ℝ) ≤ (j : ℕ) := by exact_mod_cast h
                   dsimp only; linarith)
  (Or.inr fun i j h => by rw [h]; push_cast; linarith)
/-- A straight band around the uniform distribution function. -/
example := C81_band dbgEnv exactFFTW_exact mergeSortBounds_contract true (g := fun t => t - 1/4) (h := fun t => t + 1/4) (n := 3)
  (fun a _ b _ h => by dsimp only; linarith) (fun a _ b _ h => by dsimp only; linarith) (by norm_num) (by norm_num) (by norm_num)
  (Or.inr fun t _ => by linarith)
example := C81_band_one_sided dbgEnv exactFFTW_exact (g := fun t => t - 1/4) (h := fun t => t + 1/4) (n := 3)
  (fun a _ b _ h => by dsimp only; linarith) (fun a _ b _ h => by dsimp only; linarith) (by norm_num) (by norm_num) (by norm_num)
  (Or.inr (by norm_num))

end CP.Props
