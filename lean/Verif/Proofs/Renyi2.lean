import Verif.Proofs.Renyi
import Mathlib.Analysis.SpecialFunctions.ImproperIntegrals
/-! Normalised partial sums are distributed like uniform order statistics. -/
open MeasureTheory Set ENNReal
namespace CP.Spec

/-- Increasing sequences in `(0, t)`. -/
def Simp (n : ℕ) (t : ℝ) : Set (Fin n → ℝ) := {s | (∀ i, 0 < s i ∧ s i < t) ∧ StrictMono s}

theorem measurableSet_Simp (n : ℕ) (t : ℝ) : MeasurableSet (Simp n t) := by
  have : Simp n t = Arrivals n ∩ ⋂ i, {s : Fin n → ℝ | s i < t} := by
    ext s
    simp only [Simp, Arrivals, Set.mem_ofPred_eq, mem_inter_iff, mem_iInter]
    constructor
    · rintro ⟨h1, h2⟩; exact ⟨⟨fun i => (h1 i).1, h2⟩, fun i => (h1 i).2⟩
    · rintro ⟨⟨h1, h2⟩, h3⟩; exact ⟨fun i => ⟨h1 i, h3 i⟩, h2⟩
  rw [this]
  exact (measurableSet_Arrivals n).inter (MeasurableSet.iInter fun i => measurableSet_lt (measurable_pi_apply i) measurable_const)

theorem snoc_mem_Arrivals {n : ℕ} (s : Fin n → ℝ) (t : ℝ) :
    (Fin.snoc s t : Fin (n + 1) → ℝ) ∈ Arrivals (n + 1) ↔ 0 < t ∧ s ∈ Simp n t := by
  constructor
  · rintro ⟨h0, hm⟩
    have ht : 0 < t := by simpa using h0 (Fin.last n)
    refine ⟨ht, fun i => ⟨by simpa using h0 i.castSucc, ?_⟩, ?_⟩
    · have := hm (Fin.castSucc_lt_last i)
      simpa using this
    · intro i j hij
      have := hm (Fin.castSucc_lt_castSucc_iff.mpr hij)
      simpa using this
  · rintro ⟨ht, h1, h2⟩
    refine ⟨fun i => ?_, ?_⟩
    · refine Fin.lastCases ?_ (fun i => ?_) i
      · simpa using ht
      · simpa using (h1 i).1
    · intro i j
      refine Fin.lastCases ?_ (fun j => ?_) j
      · refine Fin.lastCases ?_ (fun i => ?_) i
        · intro h; exact absurd h (lt_irrefl _)
        · intro _; simpa using (h1 i).2
      · refine Fin.lastCases ?_ (fun i => ?_) i
        · intro h; exact absurd h (not_lt.mpr (Fin.le_last _))
        · intro h; simpa using h2 (Fin.castSucc_lt_castSucc_iff.mp h)

/-- Integrate over the last arrival last. -/
theorem lintegral_slice (n : ℕ) (k : (Fin (n + 1) → ℝ) → ℝ≥0∞) (hk : Measurable k) :
    ∫⁻ s in Arrivals (n + 1), k s = ∫⁻ t in Ioi (0 : ℝ), ∫⁻ s in Simp n t, k (Fin.snoc s t) := by
  have hmp := (volume_preserving_piFinSuccAbove (fun _ : Fin (n + 1) => ℝ) (Fin.last n)).symm
  have hK : Measurable ((Arrivals (n + 1)).indicator k) := hk.indicator (measurableSet_Arrivals _)
  rw [← lintegral_indicator (measurableSet_Arrivals _), ← hmp.lintegral_comp_emb (MeasurableEquiv.measurableEmbedding _),
    Measure.volume_eq_prod,
    lintegral_prod (f := fun a : ℝ × (Fin n → ℝ) => (Arrivals (n + 1)).indicator k
      ((MeasurableEquiv.piFinSuccAbove (fun _ : Fin (n + 1) => ℝ) (Fin.last n)).symm a))
      (hK.comp (MeasurableEquiv.measurable _)).aemeasurable,
    ← lintegral_indicator measurableSet_Ioi]
  congr 1
  funext t
  have he : ∀ s : Fin n → ℝ, (MeasurableEquiv.piFinSuccAbove (fun _ : Fin (n + 1) => ℝ) (Fin.last n)).symm (t, s)
      = Fin.snoc s t := by
    intro s
    exact Fin.insertNth_last' t s
  simp_rw [he]
  by_cases ht : t ∈ Ioi (0 : ℝ)
  · rw [indicator_of_mem ht, ← lintegral_indicator (measurableSet_Simp n t)]
    congr 1
    funext s
    by_cases hs : s ∈ Simp n t
    · rw [indicator_of_mem hs, indicator_of_mem ((snoc_mem_Arrivals s t).mpr ⟨ht, hs⟩)]
    · rw [indicator_of_notMem hs, indicator_of_notMem fun h => hs ((snoc_mem_Arrivals s t).mp h).2]
  · rw [indicator_of_notMem ht]
    have : ∀ s : Fin n → ℝ, (Arrivals (n + 1)).indicator k (Fin.snoc s t) = 0 := fun s =>
      indicator_of_notMem (fun h => ht ((snoc_mem_Arrivals s t).mp h).1) _
    simp_rw [this]
    simp

theorem smul_mem_Simp {n : ℕ} {t : ℝ} (ht : 0 < t) (u : Fin n → ℝ) : t • u ∈ Simp n t ↔ u ∈ Simp n 1 := by
  unfold Simp
  simp only [Set.mem_ofPred_eq, Pi.smul_apply, smul_eq_mul]
  refine and_congr (forall_congr' fun i => and_congr ?_ ?_) ?_
  · exact mul_pos_iff_of_pos_left ht
  · exact mul_lt_iff_lt_one_right ht
  · constructor
    · intro h i j hij; exact lt_of_mul_lt_mul_left (h hij) ht.le
    · intro h i j hij; exact mul_lt_mul_of_pos_left (h hij) ht

/-- Scaling. -/
theorem lintegral_Simp (n : ℕ) {t : ℝ} (ht : 0 < t) (g : (Fin n → ℝ) → ℝ≥0∞) (hg : Measurable g) :
    ∫⁻ s in Simp n t, g s = ENNReal.ofReal (t ^ n) * ∫⁻ u in Simp n 1, g (t • u) := by
  have hG : Measurable ((Simp n t).indicator g) := hg.indicator (measurableSet_Simp n t)
  have h1 := Measure.map_addHaar_smul (volume : Measure (Fin n → ℝ)) ht.ne'
  rw [Module.finrank_fin_fun] at h1
  have h2 : ∫⁻ u, (Simp n t).indicator g (t • u) = ENNReal.ofReal |(t ^ n)⁻¹| * ∫⁻ s, (Simp n t).indicator g s := by
    rw [← lintegral_map (f := (Simp n t).indicator g) hG (measurable_const_smul t), h1, lintegral_smul_measure, smul_eq_mul]
  have h3 : ∀ u, (Simp n t).indicator g (t • u) = (Simp n 1).indicator (fun u => g (t • u)) u := by
    intro u
    by_cases hu : u ∈ Simp n 1
    · rw [indicator_of_mem hu, indicator_of_mem ((smul_mem_Simp ht u).mpr hu)]
    · rw [indicator_of_notMem hu, indicator_of_notMem fun h => hu ((smul_mem_Simp ht u).mp h)]
  simp_rw [h3] at h2
  rw [← lintegral_indicator (measurableSet_Simp n t), ← lintegral_indicator (measurableSet_Simp n 1), h2, ← mul_assoc,
    ← ENNReal.ofReal_mul (by positivity), abs_of_pos (by positivity), mul_inv_cancel₀ (by positivity), ENNReal.ofReal_one,
    one_mul]

/-! ### Order statistics -/

theorem iid_restrict (n : ℕ) : iidUniform n = (volume : Measure (Fin n → ℝ)).restrict (univ.pi fun _ => Icc 0 1) := by
  unfold iidUniform
  rw [volume_pi, Measure.restrict_pi_pi]

theorem ae_injective (n : ℕ) : ∀ᵐ x ∂(iidUniform n), Function.Injective x := by
  have : ∀ i j : Fin n, i ≠ j → ∀ᵐ x ∂(volume : Measure (Fin n → ℝ)), x i ≠ x j := by
    intro i j hij
    let E : Submodule ℝ (Fin n → ℝ) := LinearMap.ker (LinearMap.proj (R := ℝ) (φ := fun _ : Fin n => ℝ) i - LinearMap.proj j)
    have hE : E ≠ ⊤ := by
      intro h
      have : (Pi.single i 1 : Fin n → ℝ) ∈ E := by rw [h]; trivial
      rw [LinearMap.mem_ker] at this
      simp [hij.symm] at this
    have h0 := Measure.addHaar_submodule (volume : Measure (Fin n → ℝ)) E hE
    refine ae_iff.mpr (le_antisymm (le_trans (measure_mono ?_) h0.le) (zero_le))
    intro x hx
    simp only [ne_eq, not_not, Set.mem_ofPred_eq] at hx
    show x ∈ E
    rw [LinearMap.mem_ker]
    simp [hx]
  rw [iid_restrict]
  refine ae_restrict_of_ae ?_
  have h2 : ∀ᵐ x ∂(volume : Measure (Fin n → ℝ)), ∀ i j, i ≠ j → x i ≠ x j :=
    ae_all_iff.mpr fun i => ae_all_iff.mpr fun j => by
      by_cases hij : i = j
      · exact Filter.Eventually.of_forall fun x h => absurd hij h
      · filter_upwards [this i j hij] with x hx _ using hx
  filter_upwards [h2] with x hx i j h
  by_contra hij
  exact hx i j hij h

theorem orderStat_of_strictMono {n : ℕ} {x : Fin n → ℝ} {σ : Equiv.Perm (Fin n)} (h : StrictMono (x ∘ σ)) :
    orderStat x = x ∘ σ := by
  unfold orderStat
  have := (Tuple.comp_sort_eq_comp_iff_monotone (f := x) (σ := σ)).mpr h.monotone
  exact this.symm

theorem volume_perm {n : ℕ} (σ : Equiv.Perm (Fin n)) (E : Set (Fin n → ℝ)) (hE : MeasurableSet E) :
    volume {x : Fin n → ℝ | x ∘ σ ∈ E} = volume E := by
  have h := volume_measurePreserving_piCongrLeft (fun _ : Fin n => ℝ) σ.symm
  have h2 := h.measure_preimage hE.nullMeasurableSet
  rw [← h2]
  congr 1
  ext x
  have : (MeasurableEquiv.piCongrLeft (fun _ : Fin n => ℝ) σ.symm) x = x ∘ σ := by
    funext i
    have := Equiv.piCongrLeft_apply_apply (P := fun _ : Fin n => ℝ) σ.symm x (σ i)
    rw [Equiv.symm_apply_apply] at this
    exact this
  rw [mem_preimage, this]
  rfl

theorem Simp_subset_cube (n : ℕ) : Simp n 1 ⊆ univ.pi fun _ => Icc (0 : ℝ) 1 :=
  fun x hx i _ => ⟨(hx.1 i).1.le, (hx.1 i).2.le⟩

/-- The order statistics of `n` uniform numbers have density `n!` on increasing sequences in `(0,1)`. -/
theorem orderStat_law (n : ℕ) (A : Set (Fin n → ℝ)) (hA : MeasurableSet A) :
    iidUniform n {x | orderStat x ∈ A} = n.factorial * volume (Simp n 1 ∩ A) := by
  have hE : MeasurableSet (Simp n 1 ∩ A) := (measurableSet_Simp n 1).inter hA
  have hae : iidUniform n {x | orderStat x ∈ A} = iidUniform n (⋃ σ : Equiv.Perm (Fin n), {x | x ∘ σ ∈ Simp n 1 ∩ A}) := by
    refine measure_congr ?_
    have h01 : ∀ᵐ x ∂(iidUniform n), ∀ i, x i ∈ Ioo (0 : ℝ) 1 := by
      filter_upwards [ae_mem (n := n), ae_ne (n := n) 0, ae_ne (n := n) 1] with x h1 h2 h3 i
      exact ⟨lt_of_le_of_ne (h1 i).1 (h2 i).symm, lt_of_le_of_ne (h1 i).2 (h3 i)⟩
    filter_upwards [ae_injective n, h01] with x hinj h01
    apply propext
    show orderStat x ∈ A ↔ x ∈ ⋃ σ : Equiv.Perm (Fin n), {x | x ∘ σ ∈ Simp n 1 ∩ A}
    rw [mem_iUnion]
    constructor
    · intro h
      refine ⟨Tuple.sort x, ?_, h⟩
      refine ⟨fun i => h01 _, ?_⟩
      exact (Tuple.monotone_sort x).strictMono_of_injective (hinj.comp (Tuple.sort x).injective)
    · rintro ⟨σ, h1, h2⟩
      rw [orderStat_of_strictMono h1.2]
      exact h2
  rw [hae, measure_iUnion]
  · have : ∀ σ : Equiv.Perm (Fin n), iidUniform n {x | x ∘ σ ∈ Simp n 1 ∩ A} = volume (Simp n 1 ∩ A) := by
      intro σ
      have hm : MeasurableSet {x : Fin n → ℝ | x ∘ σ ∈ Simp n 1 ∩ A} :=
        (measurable_pi_iff.mpr fun i => measurable_pi_apply (σ i) : Measurable fun x : Fin n → ℝ => x ∘ σ) hE
      rw [iid_restrict, Measure.restrict_apply hm, inter_eq_left.mpr, volume_perm σ _ hE]
      intro x hx i _
      have := Simp_subset_cube n hx.1 (σ.symm i) (mem_univ _)
      simpa using this
    simp_rw [this]
    rw [tsum_fintype]
    simp [Finset.card_univ, Fintype.card_perm]
  · intro σ τ hστ
    rw [Function.onFun, Set.disjoint_left]
    rintro x ⟨h1, -⟩ ⟨h2, -⟩
    apply hστ
    have hx : Function.Injective x := by
      intro i j h
      have := h1.2.injective (a₁ := σ.symm i) (a₂ := σ.symm j) (by simpa using h)
      exact σ.symm.injective this
    have e : x ∘ σ = x ∘ τ := by rw [← orderStat_of_strictMono h1.2, ← orderStat_of_strictMono h2.2]
    ext i
    exact congrArg Fin.val (hx (congrFun e i))
  · intro σ
    exact (measurable_pi_iff.mpr fun i => measurable_pi_apply (σ i) : Measurable fun x : Fin n → ℝ => x ∘ σ) hE

/-- The exponential random numbers made from uniform ones. -/
noncomputable def expOf {n : ℕ} (v : Fin n → ℝ) : Fin n → ℝ := fun i => -Real.log (v i)

theorem measurable_psum (n : ℕ) : Measurable (psum (n := n)) := (psum_preserving n).measurable

theorem measurable_psum_expOf (n : ℕ) : Measurable fun v : Fin n → ℝ => psum (expOf v) :=
  (measurable_psum n).comp (by unfold expOf; fun_prop)

theorem measure_psum (n : ℕ) (C : Set (Fin (n + 1) → ℝ)) (hC : MeasurableSet C) :
    iidUniform (n + 1) {v | psum (expOf v) ∈ C} =
      ∫⁻ t in Ioi (0 : ℝ), ∫⁻ s in Simp n t, ENNReal.ofReal (Real.exp (-t)) * C.indicator 1 (Fin.snoc s t : Fin (n + 1) → ℝ) := by
  have h1 : iidUniform (n + 1) {v | psum (expOf v) ∈ C} = ∫⁻ v, C.indicator 1 (psum fun i => -Real.log (v i)) ∂(iidUniform (n + 1)) := by
    exact (lintegral_indicator_one (measurable_psum_expOf (n + 1) hC)).symm
  have hm : Measurable (C.indicator (1 : (Fin (n + 1) → ℝ) → ℝ≥0∞)) := measurable_one.indicator hC
  rw [h1, lintegral_arrivals n _ hm, lintegral_slice]
  · simp only [Fin.snoc_last]
  · fun_prop

theorem measurable_snoc (n : ℕ) (t : ℝ) : Measurable fun s : Fin n → ℝ => (Fin.snoc s t : Fin (n + 1) → ℝ) := by
  refine measurable_pi_iff.mpr fun i => ?_
  refine Fin.lastCases ?_ (fun i => ?_) i
  · simp only [Fin.snoc_last]; exact measurable_const
  · simp only [Fin.snoc_castSucc]; exact measurable_pi_apply i

/-- Normalised partial sums: the common constant. -/
theorem renyi_const (n : ℕ) (A : Set (Fin n → ℝ)) (hA : MeasurableSet A) :
    iidUniform (n + 1) {v | (fun i : Fin n => psum (expOf v) i.castSucc / psum (expOf v) (Fin.last n)) ∈ A} =
      (∫⁻ t in Ioi (0 : ℝ), ENNReal.ofReal (t ^ n) * ENNReal.ofReal (Real.exp (-t))) * volume (Simp n 1 ∩ A) := by
  set q : (Fin (n + 1) → ℝ) → Fin n → ℝ := fun s i => s i.castSucc / s (Fin.last n) with hq
  have hqm : Measurable q := by rw [hq]; fun_prop
  have h1 := measure_psum n (q ⁻¹' A) (hqm hA)
  have h2 : {v : Fin (n + 1) → ℝ | psum (expOf v) ∈ q ⁻¹' A} =
      {v | (fun i : Fin n => psum (expOf v) i.castSucc / psum (expOf v) (Fin.last n)) ∈ A} := rfl
  rw [← h2, h1, ← lintegral_mul_const'' _ (by fun_prop)]
  refine setLIntegral_congr_fun measurableSet_Ioi fun t ht => ?_
  have ht : 0 < t := ht
  have hmm : Measurable fun s : Fin n → ℝ =>
      ENNReal.ofReal (Real.exp (-t)) * (q ⁻¹' A).indicator (1 : (Fin (n + 1) → ℝ) → ℝ≥0∞) (Fin.snoc s t) :=
    Measurable.const_mul ((measurable_one.indicator (hqm hA)).comp (measurable_snoc n t)) _
  rw [lintegral_Simp n ht _ hmm, mul_assoc]
  congr 1
  have h3 : ∀ u : Fin n → ℝ, (q ⁻¹' A).indicator (1 : (Fin (n + 1) → ℝ) → ℝ≥0∞) (Fin.snoc (t • u) t) = A.indicator 1 u := by
    intro u
    have : q (Fin.snoc (t • u) t) = u := by
      funext i
      simp only [hq, Fin.snoc_castSucc, Fin.snoc_last, Pi.smul_apply, smul_eq_mul]
      field_simp
    by_cases hu : u ∈ A
    · rw [indicator_of_mem hu, indicator_of_mem (by rw [mem_preimage, this]; exact hu)]; rfl
    · rw [indicator_of_notMem hu, indicator_of_notMem (by rw [mem_preimage, this]; exact hu)]
  simp_rw [h3]
  rw [lintegral_const_mul _ (measurable_one.indicator hA), lintegral_indicator_one hA,
    Measure.restrict_apply hA, inter_comm]

/-- Rényi's representation: the normalised partial sums of `n+1` independent exponential random numbers are distributed
like the order statistics of `n` independent uniform random numbers. -/
theorem renyi_law (n : ℕ) (A : Set (Fin n → ℝ)) (hA : MeasurableSet A) :
    iidUniform (n + 1) {v | (fun i : Fin n => psum (expOf v) i.castSucc / psum (expOf v) (Fin.last n)) ∈ A} =
      iidUniform n {x | orderStat x ∈ A} := by
  have h1 := renyi_const n univ MeasurableSet.univ
  have h2 := orderStat_law n univ MeasurableSet.univ
  simp only [mem_univ, Set.ofPred_true, measure_univ, inter_univ] at h1 h2
  rw [renyi_const n A hA, orderStat_law n A hA]
  congr 1
  have hV0 : volume (Simp n 1) ≠ 0 := by
    intro h; rw [h, mul_zero] at h2; exact one_ne_zero h2
  have hVt : volume (Simp n 1) ≠ ⊤ := by
    intro h
    rw [h, ENNReal.mul_top (by exact_mod_cast n.factorial_ne_zero)] at h2
    exact one_ne_top h2
  rw [h1] at h2
  exact (ENNReal.mul_left_inj hV0 hVt).mp h2

/-- The arrivals of a Poisson process of rate `lam`: the probability of exactly `n` arrivals up to time 1, at times in `A`, is
the Poisson probability of `n` times the probability that the order statistics of `n` uniform numbers lie in `A`. -/
theorem poisson_law (n : ℕ) {lam : ℝ} (hlam : 0 < lam) (A : Set (Fin n → ℝ)) (hA : MeasurableSet A) :
    iidUniform (n + 1) {v | (∀ i : Fin n, psum (expOf v) i.castSucc / lam ≤ 1) ∧ 1 < psum (expOf v) (Fin.last n) / lam ∧
        (fun i : Fin n => psum (expOf v) i.castSucc / lam) ∈ A} =
      ENNReal.ofReal (Real.exp (-lam) * lam ^ n / n.factorial) * iidUniform n {x | orderStat x ∈ A} := by
  set q : (Fin (n + 1) → ℝ) → Fin n → ℝ := fun s i => s i.castSucc / lam with hq
  have hqm : Measurable q := by rw [hq]; fun_prop
  set C : Set (Fin (n + 1) → ℝ) := {s | (∀ i, q s i ≤ 1) ∧ 1 < s (Fin.last n) / lam ∧ q s ∈ A} with hC
  have hCm : MeasurableSet C := by
    have : C = (⋂ i, {s | q s i ≤ 1}) ∩ ({s | 1 < s (Fin.last n) / lam} ∩ q ⁻¹' A) := by
      ext s
      simp only [hC, Set.mem_ofPred_eq, mem_inter_iff, mem_iInter, mem_preimage]
    rw [this]
    refine (MeasurableSet.iInter fun i => measurableSet_le (by fun_prop) measurable_const).inter
      ((measurableSet_lt measurable_const (by fun_prop)).inter (hqm hA))
  have h1 := measure_psum n C hCm
  have h2 : {v : Fin (n + 1) → ℝ | psum (expOf v) ∈ C} =
      {v | (∀ i : Fin n, psum (expOf v) i.castSucc / lam ≤ 1) ∧ 1 < psum (expOf v) (Fin.last n) / lam ∧
        (fun i : Fin n => psum (expOf v) i.castSucc / lam) ∈ A} := rfl
  rw [← h2, h1]
  set V := volume (Simp n 1 ∩ A) with hV
  have hne : ∀ᵐ s ∂(volume : Measure (Fin n → ℝ)), ∀ i, s i ≠ lam := by
    rw [ae_all_iff]
    intro i
    have : (volume : Measure (Fin n → ℝ)) {s | s i = lam} = 0 := by
      rw [volume_pi]; exact Measure.pi_hyperplane (fun _ : Fin n => (volume : Measure ℝ)) i lam
    exact ae_iff.mpr (by simpa using this)
  have h3 : ∀ t : ℝ, t ∈ Ioi (0 : ℝ) →
      ∫⁻ s in Simp n t, ENNReal.ofReal (Real.exp (-t)) * C.indicator 1 (Fin.snoc s t : Fin (n + 1) → ℝ) =
      (Ioi lam).indicator (fun t => ENNReal.ofReal (Real.exp (-t))) t * (ENNReal.ofReal (lam ^ n) * V) := by
    intro t _
    by_cases htl : t ∈ Ioi lam
    · rw [indicator_of_mem htl]
      have htl : lam < t := htl
      have h4 : ∫⁻ s in Simp n t, ENNReal.ofReal (Real.exp (-t)) * C.indicator 1 (Fin.snoc s t : Fin (n + 1) → ℝ) =
          ∫⁻ s in Simp n lam, ENNReal.ofReal (Real.exp (-t)) * A.indicator 1 (lam⁻¹ • s) := by
        rw [← lintegral_indicator (measurableSet_Simp n t), ← lintegral_indicator (measurableSet_Simp n lam)]
        refine lintegral_congr_ae ?_
        filter_upwards [hne] with s hs
        have hqs : q (Fin.snoc s t) = lam⁻¹ • s := by
          funext i
          simp only [hq, Fin.snoc_castSucc, Pi.smul_apply, smul_eq_mul]
          rw [div_eq_inv_mul]
        have hlast : 1 < (Fin.snoc s t : Fin (n + 1) → ℝ) (Fin.last n) / lam := by
          rw [Fin.snoc_last, one_lt_div hlam]; exact htl
        have hle : (∀ i, q (Fin.snoc s t) i ≤ 1) ↔ ∀ i, s i < lam := by
          refine forall_congr' fun i => ?_
          simp only [hq, Fin.snoc_castSucc]
          rw [div_le_one hlam]
          exact ⟨fun h => lt_of_le_of_ne h (hs i), le_of_lt⟩
        by_cases hsl : s ∈ Simp n lam
        · have hst : s ∈ Simp n t := ⟨fun i => ⟨(hsl.1 i).1, (hsl.1 i).2.trans htl⟩, hsl.2⟩
          rw [indicator_of_mem hsl, indicator_of_mem hst]
          congr 1
          by_cases hsA : lam⁻¹ • s ∈ A
          · have : (Fin.snoc s t : Fin (n + 1) → ℝ) ∈ C := ⟨hle.mpr fun i => (hsl.1 i).2, hlast, by rw [hqs]; exact hsA⟩
            rw [indicator_of_mem this, indicator_of_mem hsA]; rfl
          · have : (Fin.snoc s t : Fin (n + 1) → ℝ) ∉ C := fun h => hsA (by rw [← hqs]; exact h.2.2)
            rw [indicator_of_notMem this, indicator_of_notMem hsA]
        · rw [indicator_of_notMem hsl]
          by_cases hst : s ∈ Simp n t
          · rw [indicator_of_mem hst]
            have : (Fin.snoc s t : Fin (n + 1) → ℝ) ∉ C := fun h =>
              hsl ⟨fun i => ⟨(hst.1 i).1, hle.mp h.1 i⟩, hst.2⟩
            rw [indicator_of_notMem this, mul_zero]
          · rw [indicator_of_notMem hst]
      have hmm : Measurable fun s : Fin n → ℝ =>
          ENNReal.ofReal (Real.exp (-t)) * A.indicator (1 : (Fin n → ℝ) → ℝ≥0∞) (lam⁻¹ • s) :=
        Measurable.const_mul ((measurable_one.indicator hA).comp (measurable_const_smul _)) _
      rw [h4, lintegral_Simp n hlam _ hmm]
      have h5 : ∀ u : Fin n → ℝ, lam⁻¹ • lam • u = u := fun u => inv_smul_smul₀ hlam.ne' u
      simp_rw [h5]
      rw [lintegral_const_mul _ (measurable_one.indicator hA), lintegral_indicator_one hA,
        Measure.restrict_apply hA, inter_comm A, mul_left_comm]
    · rw [indicator_of_notMem htl, zero_mul]
      have : ∀ s : Fin n → ℝ, C.indicator (1 : (Fin (n + 1) → ℝ) → ℝ≥0∞) (Fin.snoc s t : Fin (n + 1) → ℝ) = 0 := by
        intro s
        refine indicator_of_notMem (fun h => htl ?_) _
        have := h.2.1
        rw [Fin.snoc_last, one_lt_div hlam] at this
        exact this
      simp_rw [this]
      simp
  rw [setLIntegral_congr_fun measurableSet_Ioi h3, orderStat_law n A hA, ← hV]
  have hmi : Measurable ((Ioi lam).indicator fun t => ENNReal.ofReal (Real.exp (-t))) :=
    Measurable.indicator (by fun_prop) measurableSet_Ioi
  rw [lintegral_mul_const _ hmi, lintegral_indicator measurableSet_Ioi, Measure.restrict_restrict measurableSet_Ioi,
    inter_eq_left.mpr (Ioi_subset_Ioi hlam.le)]
  have h6 : ∫⁻ t in Ioi lam, ENNReal.ofReal (Real.exp (-t)) = ENNReal.ofReal (Real.exp (-lam)) := by
    rw [← ofReal_integral_eq_lintegral_ofReal, integral_exp_neg_Ioi]
    · exact integrableOn_exp_neg_Ioi lam
    · exact Filter.Eventually.of_forall fun t => (Real.exp_pos _).le
  rw [h6, ← mul_assoc, ← mul_assoc]
  congr 1
  rw [← ENNReal.ofReal_mul (Real.exp_pos _).le, ← ENNReal.ofReal_natCast, ← ENNReal.ofReal_mul (by positivity)]
  congr 1
  have : (n.factorial : ℝ) ≠ 0 := by exact_mod_cast n.factorial_ne_zero
  field_simp

end CP.Spec
