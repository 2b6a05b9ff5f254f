import Verif.Proofs.CountLaw
import Verif.McSpec
import Verif.McLawSpec
import Mathlib.Probability.Independence.Basic
import Mathlib.Probability.Moments.Variance
/-! Consecutive runs of a simulation fed by independent draws are independent and identically distributed, even if the
number of draws used by a run is random. -/
open MeasureTheory Set ProbabilityTheory
namespace CP.Spec

/-- Infinite sequences of draws. -/
abbrev Draws := ℕ → ℝ

/-- Drop the first `k` draws. -/
def shift (k : ℕ) (u : Draws) : Draws := fun j => u (k + j)

/-- Membership in `D` is determined by the first `k` draws. -/
def DependsOn (k : ℕ) (D : Set Draws) : Prop := ∀ u u' : Draws, (∀ j, j < k → u j = u' j) → (u ∈ D ↔ u' ∈ D)

theorem DependsOn.mono {k l : ℕ} {D : Set Draws} (h : DependsOn k D) (hkl : k ≤ l) : DependsOn l D :=
  fun u u' hu => h u u' fun j hj => hu j (by omega)

theorem measurable_shift (k : ℕ) : Measurable (shift k) := measurable_pi_iff.mpr fun j => measurable_pi_apply (k + j)

theorem shift_shift (k l : ℕ) (u : Draws) : shift l (shift k u) = shift (k + l) u := by
  funext j; simp [shift, Nat.add_assoc]

theorem shift_zero (u : Draws) : shift 0 u = u := by funext j; simp [shift]

/-- Shifting a set that depends on `l` draws. -/
theorem DependsOn.shift {l : ℕ} {D : Set Draws} (h : DependsOn l D) (k : ℕ) : DependsOn (k + l) (shift k ⁻¹' D) :=
  fun u u' hu => h _ _ fun j hj => hu (k + j) (by omega)

/-- Extend a finite sequence of draws by zeros. -/
noncomputable def extend {k : ℕ} (w : Fin k → ℝ) : Draws := fun j => if h : j < k then w ⟨j, h⟩ else 0

theorem measurable_extend (k : ℕ) : Measurable (extend (k := k)) := by
  refine measurable_pi_iff.mpr fun j => ?_
  unfold extend
  by_cases h : j < k
  · simpa [h] using measurable_pi_apply _
  · simp [h]

section
variable {Ω : Type*} [MeasurableSpace Ω] {μ : Measure Ω} [IsProbabilityMeasure μ]

variable {U : ℕ → Ω → ℝ}

/-- The sequence of draws as a random sequence. -/
def seqOf (U : ℕ → Ω → ℝ) (ω : Ω) : Draws := fun j => U j ω

omit [IsProbabilityMeasure μ] in
theorem measurable_seqOf (hU : IidDraws U μ) : Measurable (seqOf U) := measurable_pi_iff.mpr hU.meas

/-- The law of `m` consecutive draws. -/
theorem block_law (hU : IidDraws U μ) (k m : ℕ) : μ.map (fun ω (j : Fin m) => U (k + j) ω) = iidUniform m := by
  have hinj : Function.Injective fun j : Fin m => k + (j : ℕ) := by
    intro i j h
    exact Fin.ext (by simpa using h)
  have h := (iIndepFun_iff_map_fun_eq_pi_map fun j : Fin m => (hU.meas (k + j)).aemeasurable).mp
    (hU.indep.precomp hinj)
  rw [h]
  unfold iidUniform
  congr 1
  funext j
  exact hU.law _

theorem block_measure (hU : IidDraws U μ) (k m : ℕ) {A : Set (Fin m → ℝ)} (hA : MeasurableSet A) :
    μ {ω | (fun j : Fin m => U (k + j) ω) ∈ A} = iidUniform m A := by
  rw [← block_law hU k m, Measure.map_apply (measurable_pi_iff.mpr fun j => hU.meas _) hA]
  rfl

/-- The first `k` draws are independent of the following ones. -/
theorem indep_shift (hU : IidDraws U μ) {k m : ℕ} {D E : Set Draws} (hDm : MeasurableSet D) (hD : DependsOn k D)
    (hEm : MeasurableSet E) (hE : DependsOn m E) :
    μ {ω | seqOf U ω ∈ D ∧ shift k (seqOf U ω) ∈ E} = μ {ω | seqOf U ω ∈ D} * μ {ω | seqOf U ω ∈ E} := by
  have hdis : Disjoint (Finset.range k) (Finset.Ico k (k + m)) := by
    rw [Finset.disjoint_left]
    intro j h1 h2
    simp only [Finset.mem_range, Finset.mem_Ico] at h1 h2
    omega
  have hi := hU.indep.indepFun_finset (Finset.range k) (Finset.Ico k (k + m)) hdis hU.meas
  have hφ : Measurable fun (w : Finset.range k → ℝ) (j : Fin k) => w ⟨j, Finset.mem_range.mpr j.2⟩ :=
    measurable_pi_iff.mpr fun j => measurable_pi_apply _
  have hψ : Measurable fun (w : Finset.Ico k (k + m) → ℝ) (j : Fin m) => w ⟨k + j, by
      have := j.2
      simp only [Finset.mem_Ico]; omega⟩ :=
    measurable_pi_iff.mpr fun j => measurable_pi_apply _
  have hi2 := hi.comp hφ hψ
  have hA : MeasurableSet (extend (k := k) ⁻¹' D) := measurable_extend k hDm
  have hB : MeasurableSet (extend (k := m) ⁻¹' E) := measurable_extend m hEm
  have h1 := hi2.measure_inter_preimage_eq_mul _ _ hA hB
  have e1 : ∀ u : Draws, u ∈ D ↔ extend (fun j : Fin k => u j) ∈ D := by
    intro u
    refine hD _ _ fun j hj => ?_
    simp [extend, hj]
  have e2 : ∀ u : Draws, u ∈ E ↔ extend (fun j : Fin m => u j) ∈ E := by
    intro u
    refine hE _ _ fun j hj => ?_
    simp [extend, hj]
  have s1 : {ω | seqOf U ω ∈ D ∧ shift k (seqOf U ω) ∈ E} =
      (((fun (w : Finset.range k → ℝ) (j : Fin k) => w ⟨j, Finset.mem_range.mpr j.2⟩) ∘ fun a (i : Finset.range k) => U i a) ⁻¹' (extend ⁻¹' D)) ∩
      (((fun (w : Finset.Ico k (k + m) → ℝ) (j : Fin m) => w ⟨k + j, by
        have := j.2
        simp only [Finset.mem_Ico]; omega⟩) ∘ fun a (i : Finset.Ico k (k + m)) => U i a) ⁻¹' (extend ⁻¹' E)) := by
    ext ω
    rw [Set.mem_ofPred_eq, e1, e2]
    rfl
  have s2 : {ω | seqOf U ω ∈ D} =
      ((fun (w : Finset.range k → ℝ) (j : Fin k) => w ⟨j, Finset.mem_range.mpr j.2⟩) ∘ fun a (i : Finset.range k) => U i a) ⁻¹' (extend ⁻¹' D) := by
    ext ω
    rw [Set.mem_ofPred_eq, e1]
    rfl
  have s3 : ((fun (w : Finset.Ico k (k + m) → ℝ) (j : Fin m) => w ⟨k + j, by
        have := j.2
        simp only [Finset.mem_Ico]; omega⟩) ∘ fun a (i : Finset.Ico k (k + m)) => U i a) ⁻¹' (extend ⁻¹' E) =
      {ω | (fun j : Fin m => U (k + j) ω) ∈ extend ⁻¹' E} := rfl
  have s4 : {ω | seqOf U ω ∈ E} = {ω | (fun j : Fin m => U (0 + j) ω) ∈ extend ⁻¹' E} := by
    ext ω
    rw [Set.mem_ofPred_eq, e2, Set.mem_ofPred_eq, mem_preimage]
    simp only [zero_add]
    rfl
  rw [s1, h1, ← s2, s3, block_measure hU k m hB, s4, block_measure hU 0 m hB]

/-- Where run `r` starts, if a run fed with `u` uses `L u` draws. -/
def startOf (L : Draws → ℕ) (u : Draws) : ℕ → ℕ
  | 0 => 0
  | r + 1 => startOf L u r + L (shift (startOf L u r) u)

/-- `D` is determined by the draws used before run `r`. -/
def Past (L : Draws → ℕ) (r : ℕ) (D : Set Draws) : Prop :=
  ∀ k, MeasurableSet (D ∩ {u | startOf L u r = k}) ∧ DependsOn k (D ∩ {u | startOf L u r = k})

/-- A run: it uses `L u <= m` draws, and these determine both `L u` and whether `u` is in `E`. -/
structure IsRun (L : Draws → ℕ) (E : Set Draws) (m : ℕ) : Prop where
  le : ∀ u, L u ≤ m
  measL : ∀ l, MeasurableSet {u | L u = l}
  depL : ∀ l, DependsOn l {u | L u = l}
  measE : MeasurableSet E
  depE : ∀ l, DependsOn l (E ∩ {u | L u = l})

variable {L : Draws → ℕ} {E : Set Draws} {m : ℕ}

theorem DependsOn.inter {k : ℕ} {A B : Set Draws} (hA : DependsOn k A) (hB : DependsOn k B) : DependsOn k (A ∩ B) :=
  fun u u' h => and_congr (hA u u' h) (hB u u' h)

theorem DependsOn.biUnion {k : ℕ} {A : ℕ → Set Draws} {s : Finset ℕ} (hA : ∀ i ∈ s, DependsOn k (A i)) :
    DependsOn k (⋃ i ∈ s, A i) := by
  intro u u' h
  simp only [mem_iUnion]
  exact exists_congr fun i => exists_congr fun hi => hA i hi u u' h

theorem IsRun.dep (h : IsRun L E m) : DependsOn m E := by
  have : E = ⋃ l ∈ Finset.range (m + 1), E ∩ {u | L u = l} := by
    ext u
    simp only [mem_iUnion, mem_inter_iff, Set.mem_ofPred_eq, Finset.mem_range]
    constructor
    · intro hu; exact ⟨L u, Nat.lt_succ_of_le (h.le u), hu, rfl⟩
    · rintro ⟨l, -, hu, -⟩; exact hu
  rw [this]
  refine DependsOn.biUnion fun l hl => (h.depE l).mono ?_
  rw [Finset.mem_range] at hl
  omega

theorem past_step (h : IsRun L E m) {r : ℕ} {D : Set Draws} (hD : Past L r D) : Past L (r + 1) D := by
  intro k
  have e : D ∩ {u | startOf L u (r + 1) = k} =
      ⋃ k' ∈ Finset.range (k + 1), (D ∩ {u | startOf L u r = k'}) ∩ shift k' ⁻¹' {u | L u = k - k'} := by
    ext u
    simp only [mem_iUnion, mem_inter_iff, Set.mem_ofPred_eq, Finset.mem_range, mem_preimage, startOf]
    constructor
    · rintro ⟨hu, hk⟩
      exact ⟨startOf L u r, by omega, ⟨hu, rfl⟩, by omega⟩
    · rintro ⟨k', hk', ⟨hu, rfl⟩, hL⟩
      exact ⟨hu, by omega⟩
  rw [e]
  refine ⟨Finset.measurableSet_biUnion _ fun k' _ => (hD k').1.inter (measurable_shift k' (h.measL _)),
    DependsOn.biUnion fun k' hk' => ((hD k').2.mono ?_).inter (((h.depL _).shift k').mono ?_)⟩
  · rw [Finset.mem_range] at hk'; omega
  · rw [Finset.mem_range] at hk'; omega

theorem past_univ (h : IsRun L E m) (r : ℕ) : Past L r univ := by
  induction r with
  | zero =>
    intro k
    have : (univ : Set Draws) ∩ {u | startOf L u 0 = k} = if k = 0 then univ else ∅ := by
      ext u
      by_cases hk : k = 0
      · subst hk; simp [startOf]
      · simp [startOf, hk, eq_comm]
    rw [this]
    by_cases hk : k = 0
    · rw [if_pos hk]; exact ⟨MeasurableSet.univ, fun u u' _ => by simp⟩
    · rw [if_neg hk]; exact ⟨MeasurableSet.empty, fun u u' _ => by simp⟩
  | succ r ih => exact past_step h ih

theorem past_run (h : IsRun L E m) (r : ℕ) : Past L (r + 1) {u | shift (startOf L u r) u ∈ E} := by
  intro k
  have e : {u | shift (startOf L u r) u ∈ E} ∩ {u | startOf L u (r + 1) = k} =
      ⋃ k' ∈ Finset.range (k + 1), (univ ∩ {u | startOf L u r = k'}) ∩ shift k' ⁻¹' (E ∩ {u | L u = k - k'}) := by
    ext u
    simp only [mem_iUnion, mem_inter_iff, Set.mem_ofPred_eq, Finset.mem_range, mem_preimage, startOf, mem_univ, true_and]
    constructor
    · rintro ⟨hu, hk⟩
      exact ⟨startOf L u r, by omega, rfl, hu, by omega⟩
    · rintro ⟨k', hk', rfl, hu, hL⟩
      exact ⟨hu, by omega⟩
  rw [e]
  refine ⟨Finset.measurableSet_biUnion _ fun k' _ =>
      (past_univ h r k').1.inter (measurable_shift k' (h.measE.inter (h.measL _))),
    DependsOn.biUnion fun k' hk' => ((past_univ h r k').2.mono ?_).inter (((h.depE _).shift k').mono ?_)⟩
  · rw [Finset.mem_range] at hk'; omega
  · rw [Finset.mem_range] at hk'; omega

theorem past_later (h : IsRun L E m) {r s : ℕ} (hrs : r < s) : Past L s {u | shift (startOf L u r) u ∈ E} := by
  induction s with
  | zero => omega
  | succ s ih =>
    rcases Nat.lt_succ_iff_lt_or_eq.mp hrs with hlt | rfl
    · exact past_step h (ih hlt)
    · exact past_run h r

theorem Past.measurable {r : ℕ} {D : Set Draws} (hD : Past L r D) : MeasurableSet D := by
  have : D = ⋃ k, D ∩ {u | startOf L u r = k} := by
    ext u; simp
  rw [this]
  exact MeasurableSet.iUnion fun k => (hD k).1

/-- Run `r` is independent of everything before, and distributed like the first run. -/
theorem run_indep (hU : IidDraws U μ) (h : IsRun L E m) {r : ℕ} {D : Set Draws} (hD : Past L r D) :
    μ {ω | seqOf U ω ∈ D ∧ shift (startOf L (seqOf U ω) r) (seqOf U ω) ∈ E} =
      μ {ω | seqOf U ω ∈ D} * μ {ω | seqOf U ω ∈ E} := by
  have hseq := measurable_seqOf hU
  have hk : ∀ k, μ {ω | seqOf U ω ∈ D ∩ {u | startOf L u r = k} ∧ shift k (seqOf U ω) ∈ E} =
      μ {ω | seqOf U ω ∈ D ∩ {u | startOf L u r = k}} * μ {ω | seqOf U ω ∈ E} :=
    fun k => indep_shift hU (hD k).1 (hD k).2 h.measE h.dep
  have e1 : {ω | seqOf U ω ∈ D ∧ shift (startOf L (seqOf U ω) r) (seqOf U ω) ∈ E} =
      ⋃ k, {ω | seqOf U ω ∈ D ∩ {u | startOf L u r = k} ∧ shift k (seqOf U ω) ∈ E} := by
    ext ω
    simp only [mem_iUnion, Set.mem_ofPred_eq, mem_inter_iff]
    constructor
    · rintro ⟨h1, h2⟩; exact ⟨_, ⟨h1, rfl⟩, h2⟩
    · rintro ⟨k, ⟨h1, rfl⟩, h2⟩; exact ⟨h1, h2⟩
  have e2 : {ω | seqOf U ω ∈ D} = ⋃ k, {ω | seqOf U ω ∈ D ∩ {u | startOf L u r = k}} := by
    ext ω
    simp
  have hm : ∀ k, MeasurableSet {ω | seqOf U ω ∈ D ∩ {u | startOf L u r = k}} := fun k => hseq (hD k).1
  rw [e1, measure_iUnion, e2, measure_iUnion, ← ENNReal.tsum_mul_right]
  · exact tsum_congr hk
  · intro i j hij
    rw [Function.onFun, Set.disjoint_left]
    rintro ω ⟨-, h1⟩ ⟨-, h2⟩
    exact hij (h1.symm.trans h2)
  · exact hm
  · intro i j hij
    rw [Function.onFun, Set.disjoint_left]
    rintro ω ⟨⟨-, h1⟩, -⟩ ⟨⟨-, h2⟩, -⟩
    exact hij (h1.symm.trans h2)
  · intro k
    exact (hm k).inter (hseq (measurable_shift k h.measE))

/-- Mean and variance of a relative frequency of pairwise independent events of equal probability. -/
theorem frequency_moments {G : ℕ → Set Ω} (hG : ∀ r, MeasurableSet (G r)) {p : ℝ} (h1 : ∀ r, μ.real (G r) = p)
    (h2 : ∀ r s, r < s → μ.real (G r ∩ G s) = p * p) (N : ℕ) (hN : 1 ≤ N) :
    Measurable (fun ω => (McSpec.countUpTo (fun r => ω ∈ G r) N : ℝ) / N) ∧
    ∫ ω, (McSpec.countUpTo (fun r => ω ∈ G r) N : ℝ) / N ∂μ = p ∧
    variance (fun ω => (McSpec.countUpTo (fun r => ω ∈ G r) N : ℝ) / N) μ = p * (1 - p) / N := by
  classical
  set X : Ω → ℝ := fun ω => ∑ r ∈ Finset.range N, (G r).indicator 1 ω with hX
  have hcount : ∀ ω, (McSpec.countUpTo (fun r => ω ∈ G r) N : ℝ) = X ω := by
    intro ω
    unfold McSpec.countUpTo
    rw [Finset.card_filter]
    push_cast
    refine Finset.sum_congr rfl fun r _ => ?_
    by_cases h : ω ∈ G r
    · rw [if_pos h, indicator_of_mem h]; rfl
    · rw [if_neg h, indicator_of_notMem h]
  have hXm : Measurable X := Finset.measurable_sum _ fun r _ => measurable_one.indicator (hG r)
  have hint : ∀ s : Set Ω, MeasurableSet s → Integrable (s.indicator (1 : Ω → ℝ)) μ := fun s hs =>
    (integrable_const (1 : ℝ)).indicator hs
  have hEX : ∫ ω, X ω ∂μ = N * p := by
    rw [integral_finsetSum _ fun r _ => hint _ (hG r)]
    simp_rw [integral_indicator_one (hG _), h1]
    simp
  have hsq : ∀ ω, (X ^ 2) ω = ∑ r ∈ Finset.range N, ∑ s ∈ Finset.range N, (G r ∩ G s).indicator 1 ω := by
    intro ω
    rw [Pi.pow_apply, pow_two, hX, Finset.sum_mul_sum]
    refine Finset.sum_congr rfl fun r _ => Finset.sum_congr rfl fun s _ => ?_
    by_cases hr : ω ∈ G r <;> by_cases hs : ω ∈ G s <;> simp [indicator, hr, hs]
  have hEX2 : ∫ ω, (X ^ 2) ω ∂μ = N * p + N * (N - 1) * p ^ 2 := by
    simp_rw [hsq]
    rw [integral_finsetSum _ fun r _ => integrable_finsetSum _ fun s _ => hint _ ((hG r).inter (hG s))]
    have : ∀ r ∈ Finset.range N, ∫ ω, ∑ s ∈ Finset.range N, (G r ∩ G s).indicator (1 : Ω → ℝ) ω ∂μ =
        p + (N - 1) * p ^ 2 := by
      intro r hr
      rw [integral_finsetSum _ fun s _ => hint _ ((hG r).inter (hG s))]
      simp_rw [integral_indicator_one ((hG r).inter (hG _))]
      rw [← Finset.add_sum_erase _ _ hr, inter_self, h1]
      congr 1
      rw [Finset.sum_congr rfl (g := fun _ => p ^ 2)]
      · rw [Finset.sum_const, Finset.card_erase_of_mem hr, Finset.card_range, nsmul_eq_mul, Nat.cast_sub hN]
        simp
      · intro s hs
        rw [Finset.mem_erase] at hs
        rcases lt_or_gt_of_ne hs.1 with h | h
        · rw [inter_comm, h2 s r h, pow_two]
        · rw [h2 r s h, pow_two]
    rw [Finset.sum_congr rfl this, Finset.sum_const, Finset.card_range, nsmul_eq_mul]
    ring
  have hN0 : (N : ℝ) ≠ 0 := by exact_mod_cast (by omega : N ≠ 0)
  have hb : ∀ ω, ‖X ω‖ ≤ N := by
    intro ω
    rw [Real.norm_eq_abs, abs_of_nonneg (Finset.sum_nonneg fun r _ => indicator_nonneg (fun _ _ => zero_le_one) ω)]
    calc X ω ≤ ∑ r ∈ Finset.range N, 1 := Finset.sum_le_sum fun r _ => indicator_le_self' (fun _ _ => zero_le_one) ω
      _ = N := by simp
  have hL2 : MemLp X 2 μ := MemLp.of_bound hXm.aestronglyMeasurable N (Filter.Eventually.of_forall hb)
  have hvar : variance X μ = N * p * (1 - p) := by
    rw [variance_eq_sub hL2, hEX2, hEX]
    ring
  simp_rw [hcount]
  refine ⟨hXm.div_const _, ?_, ?_⟩
  · rw [integral_div, hEX]; field_simp
  · have : (fun ω => X ω / N) = fun ω => X ω * (N : ℝ)⁻¹ := by funext ω; rw [div_eq_mul_inv]
    rw [this, variance_mul_const, hvar]
    field_simp

/-- Relative frequency of the runs in `E`. -/
theorem run_frequency (hU : IidDraws U μ) (h : IsRun L E m) {p : ℝ} (hp : μ.real {ω | seqOf U ω ∈ E} = p) (N : ℕ) (hN : 1 ≤ N) :
    Measurable (fun ω => (McSpec.countUpTo (fun r => shift (startOf L (seqOf U ω) r) (seqOf U ω) ∈ E) N : ℝ) / N) ∧
    ∫ ω, (McSpec.countUpTo (fun r => shift (startOf L (seqOf U ω) r) (seqOf U ω) ∈ E) N : ℝ) / N ∂μ = p ∧
    variance (fun ω => (McSpec.countUpTo (fun r => shift (startOf L (seqOf U ω) r) (seqOf U ω) ∈ E) N : ℝ) / N) μ =
      p * (1 - p) / N := by
  have hseq := measurable_seqOf hU
  have h1 : ∀ r, μ.real {ω | shift (startOf L (seqOf U ω) r) (seqOf U ω) ∈ E} = p := by
    intro r
    have := run_indep hU h (past_univ h r)
    simp only [mem_univ, true_and, Set.ofPred_true, measure_univ, one_mul] at this
    rw [Measure.real, this]
    exact hp
  refine frequency_moments (G := fun r => {ω | shift (startOf L (seqOf U ω) r) (seqOf U ω) ∈ E})
    (fun r => hseq (past_run h r).measurable) h1 ?_ N hN
  intro r s hrs
  have := run_indep hU h (past_later h hrs)
  have e : {ω | shift (startOf L (seqOf U ω) r) (seqOf U ω) ∈ E} ∩ {ω | shift (startOf L (seqOf U ω) s) (seqOf U ω) ∈ E} =
    {ω | seqOf U ω ∈ {u | shift (startOf L u r) u ∈ E} ∧ shift (startOf L (seqOf U ω) s) (seqOf U ω) ∈ E} := rfl
  rw [e, Measure.real, this, ENNReal.toReal_mul]
  congr 1
  exact h1 r

end
end CP.Spec
