import Verif.Proofs.Renewal
import Mathlib.Probability.Moments.SubGaussian
/-! Large deviations of the relative frequency of the runs in an event: all runs are independent, not only pairs of
them, so Hoeffding's inequality applies. -/
open MeasureTheory Set ProbabilityTheory
namespace CP.Spec
section
variable {Ω : Type*} [MeasurableSpace Ω] {μ : Measure Ω} [IsProbabilityMeasure μ]
variable {U : ℕ → Ω → ℝ} {L : Draws → ℕ} {E : Set Draws} {m : ℕ}

theorem Past.inter {r : ℕ} {D D' : Set Draws} (h : Past L r D) (h' : Past L r D') : Past L r (D ∩ D') := by
  intro k
  have e : D ∩ D' ∩ {u | startOf L u r = k} = (D ∩ {u | startOf L u r = k}) ∩ (D' ∩ {u | startOf L u r = k}) := by
    ext u; simp only [mem_inter_iff]; tauto
  rw [e]
  exact ⟨(h k).1.inter (h' k).1, (h k).2.inter (h' k).2⟩

theorem past_biInter (h : IsRun L E m) (t : Finset ℕ) {s : ℕ} (hs : ∀ r ∈ t, r < s) :
    Past L s (⋂ r ∈ t, {u | shift (startOf L u r) u ∈ E}) := by
  induction t using Finset.induction_on with
  | empty => simpa using past_univ h s
  | insert a t ha ih =>
    rw [Finset.set_biInter_insert]
    exact (past_later h (hs a (Finset.mem_insert_self a t))).inter (ih fun r hr => hs r (Finset.mem_insert_of_mem hr))

/-- The events "run `r` is in `E`" are independent. -/
theorem runs_iIndep (hU : IidDraws U μ) (h : IsRun L E m) :
    iIndepSet (fun r => {ω | shift (startOf L (seqOf U ω) r) (seqOf U ω) ∈ E}) μ := by
  have hseq := measurable_seqOf hU
  have hm : ∀ r, MeasurableSet {ω | shift (startOf L (seqOf U ω) r) (seqOf U ω) ∈ E} :=
    fun r => hseq (past_run h r).measurable
  rw [iIndepSet_iff_meas_biInter hm]
  intro t
  induction t using Finset.induction_on_max with
  | empty => simp
  | insert a t hmax ih =>
    have ha : a ∉ t := fun hh => lt_irrefl _ (hmax a hh)
    rw [Finset.prod_insert ha, ← ih, Finset.set_biInter_insert]
    have e : {ω | shift (startOf L (seqOf U ω) a) (seqOf U ω) ∈ E} ∩
        (⋂ x ∈ t, {ω | shift (startOf L (seqOf U ω) x) (seqOf U ω) ∈ E}) =
        {ω | seqOf U ω ∈ (⋂ r ∈ t, {u | shift (startOf L u r) u ∈ E}) ∧ shift (startOf L (seqOf U ω) a) (seqOf U ω) ∈ E} := by
      ext ω
      simp only [mem_inter_iff, mem_iInter, Set.mem_ofPred_eq]
      tauto
    have e2 : (⋂ x ∈ t, {ω | shift (startOf L (seqOf U ω) x) (seqOf U ω) ∈ E}) =
        {ω | seqOf U ω ∈ (⋂ r ∈ t, {u | shift (startOf L u r) u ∈ E})} := by
      ext ω
      simp only [mem_iInter, Set.mem_ofPred_eq]
    have h1 := run_indep hU h (past_univ h a)
    simp only [mem_univ, true_and, Set.ofPred_true, measure_univ, one_mul] at h1
    rw [e, run_indep hU h (past_biInter h t hmax), e2, h1, mul_comm]

/-- Hoeffding's inequality for the relative frequency of independent events. -/
theorem frequency_hoeffding {G : ℕ → Set Ω} (hG : ∀ r, MeasurableSet (G r)) (hind : iIndepSet G μ) {p : ℝ}
    (h1 : ∀ r, μ.real (G r) = p) (N : ℕ) (hN : 1 ≤ N) {c : ℝ} (hc : 0 ≤ c) :
    μ.real {ω | c ≤ |(McSpec.countUpTo (fun r => ω ∈ G r) N : ℝ) / N - p|} ≤ 2 * Real.exp (-2 * N * c ^ 2) := by
  classical
  set X : ℕ → Ω → ℝ := fun r ω => (G r).indicator (fun _ => (1 : ℝ)) ω - p with hX
  have hN0 : (0 : ℝ) < N := by exact_mod_cast hN
  have hcount : ∀ ω, (McSpec.countUpTo (fun r => ω ∈ G r) N : ℝ) / N - p = (∑ r ∈ Finset.range N, X r ω) / N := by
    intro ω
    have : (McSpec.countUpTo (fun r => ω ∈ G r) N : ℝ) = ∑ r ∈ Finset.range N, (G r).indicator (fun _ => (1 : ℝ)) ω := by
      unfold McSpec.countUpTo
      rw [Finset.card_filter]
      push_cast
      refine Finset.sum_congr rfl fun r _ => ?_
      by_cases h : ω ∈ G r
      · rw [if_pos h, indicator_of_mem h]
      · rw [if_neg h, indicator_of_notMem h]
    rw [this, hX]
    simp only [Finset.sum_sub_distrib, Finset.sum_const, Finset.card_range, nsmul_eq_mul]
    field_simp
  have hindf : iIndepFun (fun r => (G r).indicator (fun _ => (1 : ℝ))) μ := hind.iIndepFun_indicator
  have hXind : iIndepFun X μ := hindf.comp (fun _ x => x - p) fun _ => measurable_id.sub_const p
  have hsub : ∀ r, HasSubgaussianMGF (X r) (1 / 4) μ := by
    intro r
    have hm : Measurable ((G r).indicator (fun _ => (1 : ℝ))) := measurable_const.indicator (hG r)
    have hb : ∀ᵐ ω ∂μ, (G r).indicator (fun _ => (1 : ℝ)) ω ∈ Icc (0 : ℝ) 1 := Filter.Eventually.of_forall fun ω => by
      by_cases h : ω ∈ G r <;> simp [h]
    have := hasSubgaussianMGF_of_mem_Icc hm.aemeasurable hb
    have hint : μ[(G r).indicator (fun _ => (1 : ℝ))] = p := by
      rw [integral_indicator_const _ (hG r), h1 r]; simp
    rw [hint] at this
    convert this using 1
    ext
    simp
    norm_num
  have hneg : ∀ r, HasSubgaussianMGF (fun ω => -X r ω) (1 / 4) μ := fun r => (hsub r).neg
  have hnind : iIndepFun (fun r ω => -X r ω) μ := hXind.comp (fun _ x => -x) fun _ => measurable_neg
  have hcN : 0 ≤ c * N := by positivity
  have b1 := HasSubgaussianMGF.measure_sum_range_ge_le_of_iIndepFun hXind (n := N) (fun r _ => hsub r) hcN
  have b2 := HasSubgaussianMGF.measure_sum_range_ge_le_of_iIndepFun hnind (n := N) (fun r _ => hneg r) hcN
  have hexp : -(c * N) ^ 2 / (2 * N * ((1 / 4 : NNReal) : ℝ)) = -2 * N * c ^ 2 := by
    push_cast
    field_simp
    ring
  rw [hexp] at b1 b2
  have hsubset : {ω | c ≤ |(McSpec.countUpTo (fun r => ω ∈ G r) N : ℝ) / N - p|} ⊆
      {ω | c * N ≤ ∑ r ∈ Finset.range N, X r ω} ∪ {ω | c * N ≤ ∑ r ∈ Finset.range N, -X r ω} := by
    intro ω hω
    rw [Set.mem_ofPred_eq, hcount ω, abs_div, abs_of_pos hN0, le_div_iff₀ hN0] at hω
    rcases le_abs.mp hω with h | h
    · exact Or.inl h
    · refine Or.inr ?_
      rw [Set.mem_ofPred_eq, Finset.sum_neg_distrib]
      exact h
  calc _ ≤ μ.real ({ω | c * N ≤ ∑ r ∈ Finset.range N, X r ω} ∪ {ω | c * N ≤ ∑ r ∈ Finset.range N, -X r ω}) :=
        measureReal_mono hsubset
    _ ≤ _ := measureReal_union_le _ _
    _ ≤ _ := by linarith

/-- Hoeffding's inequality for the relative frequency of the runs in `E`. -/
theorem run_hoeffding (hU : IidDraws U μ) (h : IsRun L E m) {p : ℝ} (hp : μ.real {ω | seqOf U ω ∈ E} = p) (N : ℕ)
    (hN : 1 ≤ N) {c : ℝ} (hc : 0 ≤ c) :
    μ.real {ω | c ≤ |(McSpec.countUpTo (fun r => shift (startOf L (seqOf U ω) r) (seqOf U ω) ∈ E) N : ℝ) / N - p|} ≤
      2 * Real.exp (-2 * N * c ^ 2) := by
  have hseq := measurable_seqOf hU
  refine frequency_hoeffding (G := fun r => {ω | shift (startOf L (seqOf U ω) r) (seqOf U ω) ∈ E})
    (fun r => hseq (past_run h r).measurable) (runs_iIndep hU h) (fun r => ?_) N hN hc
  have := run_indep hU h (past_univ h r)
  simp only [mem_univ, true_and, Set.ofPred_true, measure_univ, one_mul] at this
  rw [Measure.real, this]
  exact hp

end
end CP.Spec
