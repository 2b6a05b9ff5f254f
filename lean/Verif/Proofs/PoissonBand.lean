import Verif.PoissonSpec
import Verif.Proofs.McLaw
import Verif.Proofs.Quantile
/-!
A Poisson process stays between two boundary functions if and only if its points stay inside the crossing points.
-/
open MeasureTheory Set ProbabilityTheory Filter Topology

namespace CP.Spec
open CP.McSpec CP.Props

/-! ### From waiting times to uniform draws -/

theorem exp_uniform {lam : ℝ} (hlam : 0 < lam) : (expMeasure lam).map (fun x => Real.exp (-(lam * x))) = (volume : Measure ℝ).restrict (Icc 0 1) := by
  have hp : IsProbabilityMeasure (expMeasure lam) := isProbabilityMeasure_expMeasure hlam
  have hm : Measurable fun x : ℝ => Real.exp (-(lam * x)) := by fun_prop
  have : IsProbabilityMeasure ((expMeasure lam).map fun x => Real.exp (-(lam * x))) := Measure.isProbabilityMeasure_map hm.aemeasurable
  refine Measure.ext_of_Ici _ _ fun t => ?_
  rw [Measure.map_apply hm measurableSet_Ici, Measure.restrict_apply measurableSet_Ici]
  rcases le_or_gt t 0 with h0 | h0
  · have e1 : (fun x : ℝ => Real.exp (-(lam * x))) ⁻¹' Ici t = univ := by
      ext x; simp only [mem_preimage, mem_Ici, mem_univ, iff_true]; exact h0.trans (Real.exp_pos _).le
    have e2 : Ici t ∩ Icc (0:ℝ) 1 = Icc 0 1 := by
      ext x; simp only [mem_inter_iff, mem_Ici, mem_Icc]; constructor
      · exact fun h => h.2
      · exact fun h => ⟨h0.trans h.1, h⟩
    rw [e1, e2, measure_univ, Real.volume_Icc]; simp
  · have e1 : (fun x : ℝ => Real.exp (-(lam * x))) ⁻¹' Ici t = Iic (-Real.log t / lam) := by
      ext x
      simp only [mem_preimage, mem_Ici, mem_Iic]
      rw [← Real.log_le_iff_le_exp h0, le_div_iff₀ hlam]
      constructor <;> intro h <;> linarith
    have e2 : Ici t ∩ Icc (0:ℝ) 1 = Icc t 1 := by
      ext x; simp only [mem_inter_iff, mem_Ici, mem_Icc]; constructor
      · exact fun h => ⟨h.1, h.2.2⟩
      · exact fun h => ⟨h.1, h0.le.trans h.1, h.2⟩
    rw [e1, e2, Real.volume_Icc, ← ofReal_cdf, cdf_expMeasure_eq hlam]
    split_ifs with hc
    · have : -(lam * (-Real.log t / lam)) = Real.log t := by field_simp
      rw [this, Real.exp_log h0]
    · have h1 : 0 < Real.log t := by
        by_contra h
        exact hc (div_nonneg (by linarith) hlam.le)
      have h2 : 1 < t := (Real.log_pos_iff h0.le).mp h1
      rw [ENNReal.ofReal_zero, ENNReal.ofReal_of_nonpos (by linarith)]

variable {Ω : Type*} [MeasurableSpace Ω] {μ : Measure Ω} [IsProbabilityMeasure μ]

/-- The uniform draws behind the waiting times. -/
noncomputable def drawsOf (lam : ℝ) (E : ℕ → Ω → ℝ) (j : ℕ) (ω : Ω) : ℝ := Real.exp (-(lam * E j ω))

omit [IsProbabilityMeasure μ] in
theorem drawsOf_iid {lam : ℝ} (hlam : 0 < lam) {E : ℕ → Ω → ℝ} (hE : PoissonGaps E lam μ) : IidDraws (drawsOf lam E) μ := by
  have hm : Measurable fun x : ℝ => Real.exp (-(lam * x)) := by fun_prop
  refine ⟨fun j => hm.comp (hE.meas j), hE.indep.comp (fun _ x => Real.exp (-(lam * x))) fun _ => hm, fun j => ?_⟩
  rw [← exp_uniform hlam, ← hE.law j, Measure.map_map hm (hE.meas j)]
  rfl

omit [MeasurableSpace Ω] in
theorem arr_drawsOf {lam : ℝ} (hlam : 0 < lam) (E : ℕ → Ω → ℝ) (ω : Ω) (k : ℕ) :
    arr lam (seqOf (drawsOf lam E) ω) k = pointAt (fun j => E j ω) k := by
  unfold arr expSum pointAt seqOf drawsOf
  rw [Finset.sum_div]
  refine Finset.sum_congr rfl fun j _ => ?_
  rw [Real.log_exp]
  field_simp

/-- Exactly `K` points up to time 1. -/
def hasPoints (e : ℕ → ℝ) (K : ℕ) : Prop := (∀ k, k < K → pointAt e (k + 1) ≤ 1) ∧ 1 < pointAt e (K + 1)

omit [MeasurableSpace Ω] in
theorem mem_pathSet_iff {lam : ℝ} (hlam : 0 < lam) (E : ℕ → Ω → ℝ) (ω : Ω) (b B : List ℝ) (K : ℕ) :
    seqOf (drawsOf lam E) ω ∈ pathSet lam b B K ↔ hasPoints (fun j => E j ω) K ∧
      StaysInside b B fun i : Fin K => pointAt (fun j => E j ω) (i + 1) := by
  unfold pathSet hasPoints
  simp only [Set.mem_ofPred_eq, arr_drawsOf hlam, and_assoc]

theorem insideProb_nil (K : ℕ) : insideProb K [] [] = 1 := by
  unfold insideProb
  have : {x : Fin K → ℝ | StaysInside [] [] (orderStat x)} = univ := by
    ext x; simp [StaysInside]
  rw [this, probReal_univ]

theorem hasPoints_prob {lam : ℝ} (hlam : 0 < lam) {E : ℕ → Ω → ℝ} (hE : PoissonGaps E lam μ) (K : ℕ) :
    μ.real {ω | hasPoints (fun j => E j ω) K} = Real.exp (-lam) * lam ^ K / (K.factorial : ℝ) := by
  have h := pathSet_prob (drawsOf_iid hlam hE) hlam [] [] K
  rw [insideProb_nil, mul_one] at h
  rw [← h]
  congr 1
  ext ω
  simp only [Set.mem_ofPred_eq, mem_pathSet_iff hlam]
  simp [StaysInside]

omit [IsProbabilityMeasure μ] in
theorem measurable_pointAt {lam : ℝ} {E : ℕ → Ω → ℝ} (hE : PoissonGaps E lam μ) (k : ℕ) : Measurable fun ω => pointAt (fun j => E j ω) k :=
  Finset.measurable_sum _ fun j _ => hE.meas j

omit [IsProbabilityMeasure μ] in
theorem measurableSet_hasPoints {lam : ℝ} {E : ℕ → Ω → ℝ} (hE : PoissonGaps E lam μ) (K : ℕ) :
    MeasurableSet {ω | hasPoints (fun j => E j ω) K} := by
  have : {ω | hasPoints (fun j => E j ω) K} =
      (⋂ k ∈ Finset.range K, {ω | pointAt (fun j => E j ω) (k + 1) ≤ 1}) ∩ {ω | 1 < pointAt (fun j => E j ω) (K + 1)} := by
    ext ω; simp [hasPoints]
  rw [this]
  exact (Finset.measurableSet_biInter _ fun k _ => measurableSet_le (measurable_pointAt hE _) measurable_const).inter
    (measurableSet_lt measurable_const (measurable_pointAt hE _))

theorem hasPoints_unique {e : ℕ → ℝ} {K L : ℕ} (h1 : hasPoints e K) (h2 : hasPoints e L) : K = L := by
  rcases lt_trichotomy K L with h | h | h
  · exact absurd (h2.1 K h) (not_le.mpr h1.2)
  · exact h
  · exact absurd (h1.1 L h) (not_le.mpr h2.2)

/-- Almost surely there are finitely many points up to time 1. -/
theorem ae_hasPoints {lam : ℝ} (hlam : 0 < lam) {E : ℕ → Ω → ℝ} (hE : PoissonGaps E lam μ) :
    ∀ᵐ ω ∂μ, ∃ K, hasPoints (fun j => E j ω) K := by
  have hU : MeasurableSet (⋃ K, {ω | hasPoints (fun j => E j ω) K}) := MeasurableSet.iUnion fun K => measurableSet_hasPoints hE K
  have h1 : μ (⋃ K, {ω | hasPoints (fun j => E j ω) K}) = 1 := by
    rw [measure_iUnion _ fun K => measurableSet_hasPoints hE K]
    · have e : ∀ K, μ {ω | hasPoints (fun j => E j ω) K} = ENNReal.ofReal (Real.exp (-lam) * lam ^ K / (K.factorial : ℝ)) := by
        intro K
        rw [← hasPoints_prob hlam hE K, ofReal_measureReal]
      simp only [e]
      rw [← ENNReal.ofReal_tsum_of_nonneg (fun K => by positivity)]
      · have h2 : ∑' K : ℕ, Real.exp (-lam) * lam ^ K / (K.factorial : ℝ) = 1 := by
          have h3 : ∀ K : ℕ, Real.exp (-lam) * lam ^ K / (K.factorial : ℝ) = Real.exp (-lam) * (lam ^ K / (K.factorial : ℝ)) :=
            fun K => by ring
          simp only [h3]
          rw [tsum_mul_left, ← congrFun (NormedSpace.exp_eq_tsum_div (𝔸 := ℝ)) lam, ← congrFun Real.exp_eq_exp_ℝ, ← Real.exp_add]
          simp
        rw [h2, ENNReal.ofReal_one]
      · have h3 : ∀ K : ℕ, Real.exp (-lam) * lam ^ K / (K.factorial : ℝ) = Real.exp (-lam) * (lam ^ K / (K.factorial : ℝ)) :=
            fun K => by ring
        simp only [h3]
        exact (Real.summable_pow_div_factorial lam).mul_left _
    · intro K L hKL
      rw [Function.onFun, Set.disjoint_left]
      exact fun ω h1 h2 => hKL (hasPoints_unique h1 h2)
  have h2 := (prob_compl_eq_zero_iff (μ := μ) hU).mpr h1
  rw [ae_iff]
  convert h2 using 2
  ext ω; simp

omit [IsProbabilityMeasure μ] in
/-- Almost surely no waiting time is negative. -/
theorem ae_gaps {lam : ℝ} (hlam : 0 < lam) {E : ℕ → Ω → ℝ} (hE : PoissonGaps E lam μ) : ∀ᵐ ω ∂μ, ∀ j, 0 ≤ E j ω := by
  refine eventually_countable_forall.mpr fun j => ?_
  have h1 : ∀ᵐ u ∂(μ.map (drawsOf lam E j)), u ∈ Icc (0:ℝ) 1 := by
    rw [(drawsOf_iid hlam hE).law j]
    exact ae_restrict_mem measurableSet_Icc
  have h2 := ae_of_ae_map ((drawsOf_iid hlam hE).meas j).aemeasurable h1
  filter_upwards [h2] with ω hω
  have := hω.2
  unfold drawsOf at this
  rw [Real.exp_le_one_iff] at this
  by_contra hc
  nlinarith

theorem pointAt_mono {e : ℕ → ℝ} (h : ∀ j, 0 ≤ e j) : Monotone (pointAt e) :=
  monotone_nat_of_le_succ fun k => by unfold pointAt; rw [Finset.sum_range_succ]; linarith [h k]

/-- Almost surely a given number is not one of the points up to time 1. -/
theorem ae_no_tie {lam : ℝ} (hlam : 0 < lam) {E : ℕ → Ω → ℝ} (hE : PoissonGaps E lam μ) (c : ℝ) (K : ℕ) (i : Fin K) :
    ∀ᵐ ω ∂μ, hasPoints (fun j => E j ω) K → pointAt (fun j => E j ω) (i + 1) ≠ c := by
  set b : List ℝ := List.replicate i 0 ++ [c] with hb
  set B : List ℝ := List.replicate i 1 ++ [c] with hB
  have e1 : b[(i : ℕ)]? = some c := by simp [hb]
  have e2 : B[(i : ℕ)]? = some c := by simp [hB]
  have h0 : insideProb K b B = 0 := by
    unfold insideProb
    rw [measureReal_def, ENNReal.toReal_eq_zero_iff]
    left
    refine measure_mono_null (t := {x : Fin K → ℝ | ¬ ∀ i, x i ≠ c}) ?_ (ae_iff.mp (ae_ne c))
    intro x hx hne
    exact hne _ (le_antisymm (hx.2 i c e2) (hx.1 i c e1))
  have h := pathSet_prob (drawsOf_iid hlam hE) hlam b B K
  rw [h0, mul_zero, measureReal_def, ENNReal.toReal_eq_zero_iff, or_iff_left (measure_ne_top _ _)] at h
  have hpos := ae_gaps hlam hE
  have h' := measure_eq_zero_iff_ae_notMem.mp h
  filter_upwards [hpos, h'] with ω hω hn hK hc
  refine hn ((mem_pathSet_iff hlam E ω b B K).mpr ⟨hK, fun j y hy => ?_, fun j y hy => ?_⟩)
  · rcases lt_trichotomy (j : ℕ) i with hj | hj | hj
    · rw [hb, List.getElem?_append_left (by simpa using hj), List.getElem?_replicate, if_pos hj] at hy
      injection hy with hy
      rw [← hy]
      exact Finset.sum_nonneg fun k _ => hω k
    · rw [hj, e1] at hy
      injection hy with hy
      rw [← hy, ← hc]
      beta_reduce
      rw [hj]
    · rw [hb, List.getElem?_eq_none (by simp; omega)] at hy
      cases hy
  · rcases lt_trichotomy (j : ℕ) i with hj | hj | hj
    · rw [hB, List.getElem?_append_left (by simpa using hj), List.getElem?_replicate, if_pos hj] at hy
      injection hy with hy
      rw [← hy]
      exact hK.1 j j.2
    · rw [hj, e2] at hy
      injection hy with hy
      rw [← hy, ← hc]
      beta_reduce
      rw [hj]
    · rw [hB, List.getElem?_eq_none (by simp; omega)] at hy
      cases hy

/-! ### Paths -/

/-- With `K` points up to time 1, the process at `t` counts an initial segment. -/
theorem path_iff {e : ℕ → ℝ} (h : ∀ j, 0 ≤ e j) {K : ℕ} (hK : hasPoints e K) {t : ℝ} (ht : t ≤ 1) (k : ℕ) :
    k < poissonPath e t ↔ pointAt e (k + 1) ≤ t := by
  have hm := pointAt_mono h
  have hlt : ∀ k, pointAt e (k + 1) ≤ t → k < K := by
    intro k hk
    by_contra hc
    have := hm (show K + 1 ≤ k + 1 by omega)
    linarith [hK.2]
  have hfin : ({k | pointAt e (k + 1) ≤ t} : Set ℕ).Finite := (Set.finite_lt_nat K).subset fun k hk => hlt k hk
  unfold poissonPath
  constructor
  · intro hk
    by_contra hc
    have hsub : ({k | pointAt e (k + 1) ≤ t} : Set ℕ) ⊆ Set.Iio k := by
      intro l hl
      by_contra hkl
      exact hc ((hm (show k + 1 ≤ l + 1 by simp only [mem_Iio, not_lt] at hkl; omega)).trans hl)
    have := Set.ncard_le_ncard hsub (Set.finite_Iio k)
    rw [Set.ncard_eq_toFinset_card' (Set.Iio k), Set.toFinset_Iio, Nat.card_Iio] at this
    omega
  · intro hk
    have hsub : Set.Iic k ⊆ ({k | pointAt e (k + 1) ≤ t} : Set ℕ) := by
      intro l hl
      exact (hm (show l + 1 ≤ k + 1 by simp only [mem_Iic] at hl; omega)).trans hk
    have := Set.ncard_le_ncard hsub hfin
    rw [Set.ncard_eq_toFinset_card' (Set.Iic k), Set.toFinset_Iic, Nat.card_Iic] at this
    omega

theorem path_one {e : ℕ → ℝ} (h : ∀ j, 0 ≤ e j) {K : ℕ} (hK : hasPoints e K) : poissonPath e 1 = K := by
  refine le_antisymm ?_ ?_
  · by_contra hc
    exact absurd ((path_iff h hK le_rfl K).mp (not_le.mp hc)) (not_le.mpr hK.2)
  · rcases Nat.eq_zero_or_pos K with h0 | h0
    · omega
    · have := (path_iff h hK le_rfl (K - 1)).mpr (hK.1 (K - 1) (by omega))
      omega

/-- The upper boundary. -/
theorem upper_path {e : ℕ → ℝ} (h : ∀ j, 0 ≤ e j) {K : ℕ} (hK : hasPoints e K) {f : ℝ → ℝ} (hf : MonotoneOn f (Icc 0 1)) (h0 : 0 ≤ f 0)
    (hne : ∀ (i : Fin K) (j : Fin ⌊f 1⌋₊), pointAt e (i + 1) ≠ sInf {t | t ∈ Icc (0:ℝ) 1 ∧ ((j : ℕ) + 1 : ℝ) ≤ f t}) :
    (∀ t ∈ Icc (0:ℝ) 1, (poissonPath e t : ℝ) ≤ f t) ↔ K ≤ (upCrossings f).length ∧
      ∀ (i : Fin K) (y : ℝ), (upCrossings f)[(i : ℕ)]? = some y → y ≤ pointAt e (i + 1) := by
  have hbdd : ∀ j : ℕ, BddBelow {t | t ∈ Icc (0:ℝ) 1 ∧ ((j : ℕ) + 1 : ℝ) ≤ f t} := fun j => ⟨0, fun t ht => ht.1.1⟩
  have hpos : ∀ k, 0 ≤ pointAt e k := fun k => Finset.sum_nonneg fun j _ => h j
  have hget : ∀ (i : ℕ) (y : ℝ), (upCrossings f)[i]? = some y ↔ i < ⌊f 1⌋₊ ∧ sInf {t | t ∈ Icc (0:ℝ) 1 ∧ (i + 1 : ℝ) ≤ f t} = y := by
    intro i y
    unfold upCrossings
    rw [List.getElem?_ofFn]
    split_ifs with hi
    · simp [hi]
    · simp [hi]
  have hlen : (upCrossings f).length = ⌊f 1⌋₊ := by unfold upCrossings; simp
  rw [hlen]
  constructor
  · intro hh
    constructor
    · have := hh 1 ⟨zero_le_one, le_rfl⟩
      rw [path_one h hK] at this
      exact Nat.le_floor this
    · intro i y hy
      obtain ⟨hi, rfl⟩ := (hget _ _).mp hy
      have hT : pointAt e (i + 1) ∈ Icc (0:ℝ) 1 := ⟨hpos _, hK.1 i i.2⟩
      refine csInf_le (hbdd i) ⟨hT, ?_⟩
      have h1 := hh _ hT
      have h2 := (path_iff h hK hT.2 i).mpr le_rfl
      have h3 : ((i : ℕ) + 1 : ℝ) ≤ poissonPath e (pointAt e (i + 1)) := by exact_mod_cast h2
      exact h3.trans h1
  · rintro ⟨hKl, hin⟩ t ht
    rcases Nat.eq_zero_or_pos (poissonPath e t) with hm | hm
    · rw [hm, Nat.cast_zero]
      exact h0.trans (hf ⟨le_rfl, zero_le_one⟩ ht ht.1)
    · obtain ⟨m, hm'⟩ : ∃ m, poissonPath e t = m + 1 := ⟨poissonPath e t - 1, by omega⟩
      have hTm := (path_iff h hK ht.2 m).mp (by omega)
      have hmK : m < K := by
        by_contra hc
        have := pointAt_mono h (show K + 1 ≤ m + 1 by omega)
        linarith [hK.2, ht.2]
      have hle := hin ⟨m, hmK⟩ _ ((hget _ _).mpr ⟨by show m < _; omega, rfl⟩)
      have hlt := lt_of_le_of_ne hle (hne ⟨m, hmK⟩ ⟨m, by omega⟩).symm
      have hnon : ({t | t ∈ Icc (0:ℝ) 1 ∧ ((m : ℕ) + 1 : ℝ) ≤ f t}).Nonempty := by
        refine ⟨1, ⟨zero_le_one, le_rfl⟩, ?_⟩
        have : m + 1 ≤ ⌊f 1⌋₊ := by omega
        have h4 := (Nat.le_floor_iff' (by omega)).mp this
        push_cast at h4
        exact h4
      obtain ⟨s, hs, hst⟩ := exists_lt_of_csInf_lt hnon hlt
      rw [hm']
      push_cast
      exact hs.2.trans (hf hs.1 ht (hst.le.trans hTm))

/-- The lower boundary. -/
theorem lower_path {e : ℕ → ℝ} (h : ∀ j, 0 ≤ e j) {K : ℕ} (hK : hasPoints e K) {f : ℝ → ℝ} (hf : MonotoneOn f (Icc 0 1)) :
    (∀ t ∈ Icc (0:ℝ) 1, f t ≤ (poissonPath e t : ℝ)) ↔ (downCrossings f).length ≤ K ∧
      ∀ (i : Fin K) (y : ℝ), (downCrossings f)[(i : ℕ)]? = some y → pointAt e (i + 1) ≤ y := by
  have hbdd : ∀ j : ℕ, BddAbove ({t | t ∈ Icc (0:ℝ) 1 ∧ f t ≤ ((j : ℕ) : ℝ)} ∪ {0}) := by
    refine fun j => ⟨1, ?_⟩
    rintro t (ht | ht)
    · exact ht.1.2
    · rw [ht]; exact zero_le_one
  have hget : ∀ (i : ℕ) (y : ℝ), (downCrossings f)[i]? = some y ↔
      i < ⌈f 1⌉₊ ∧ sSup ({t | t ∈ Icc (0:ℝ) 1 ∧ f t ≤ (i : ℝ)} ∪ {0}) = y := by
    intro i y
    unfold downCrossings
    rw [List.getElem?_ofFn]
    split_ifs with hi
    · simp [hi]
    · simp [hi]
  have hlen : (downCrossings f).length = ⌈f 1⌉₊ := by unfold downCrossings; simp
  rw [hlen]
  constructor
  · intro hh
    constructor
    · have := hh 1 ⟨zero_le_one, le_rfl⟩
      rw [path_one h hK] at this
      exact Nat.ceil_le.mpr this
    · intro i y hy
      obtain ⟨hi, rfl⟩ := (hget _ _).mp hy
      refine le_of_forall_lt fun t ht => ?_
      rcases lt_or_ge t 0 with hneg | hneg
      · exact hneg.trans_le (le_csSup (hbdd i) (Or.inr rfl))
      · obtain ⟨s, hs1, hs2⟩ := exists_between ht
        have hs : s ∈ Icc (0:ℝ) 1 := ⟨hneg.trans hs1.le, hs2.le.trans (hK.1 i i.2)⟩
        refine hs1.trans_le (le_csSup (hbdd i) (Or.inl ⟨hs, (hh s hs).trans ?_⟩))
        have : poissonPath e s ≤ i := by
          by_contra hc
          exact absurd ((path_iff h hK hs.2 i).mp (not_le.mp hc)) (not_le.mpr hs2)
        exact_mod_cast this
  · rintro ⟨hKl, hin⟩ t ht
    rcases le_or_gt ⌈f 1⌉₊ (poissonPath e t) with hm | hm
    · exact (hf ht ⟨zero_le_one, le_rfl⟩ ht.2).trans ((Nat.le_ceil _).trans (by exact_mod_cast hm))
    · set m := poissonPath e t with hmdef
      have hle := hin ⟨m, by omega⟩ _ ((hget _ _).mpr ⟨hm, rfl⟩)
      have hlt : t < pointAt e (m + 1) := by
        by_contra hc
        have := (path_iff h hK ht.2 m).mpr (not_lt.mp hc)
        omega
      have hnon : ({t | t ∈ Icc (0:ℝ) 1 ∧ f t ≤ ((m : ℕ) : ℝ)} ∪ {0}).Nonempty := ⟨0, Or.inr rfl⟩
      obtain ⟨s, hs, hst⟩ := exists_lt_of_lt_csSup hnon (hlt.trans_le hle)
      rcases hs with hs | hs
      · exact (hf ht hs.1 hst.le).trans hs.2
      · rw [mem_singleton_iff] at hs
        rw [hs] at hst
        exact absurd ht.1 (not_le.mpr hst)

/-- The probability that the process stays in the band. -/
theorem poisson_band {lam : ℝ} (hlam : 0 < lam) {E : ℕ → Ω → ℝ} (hE : PoissonGaps E lam μ) {g h : ℝ → ℝ}
    (hg : MonotoneOn g (Icc 0 1)) (hh : MonotoneOn h (Icc 0 1)) (h0 : 0 ≤ h 0) :
    μ.real {ω | ∀ t ∈ Icc (0:ℝ) 1, g t ≤ poissonPath (fun j => E j ω) t ∧ (poissonPath (fun j => E j ω) t : ℝ) ≤ h t} =
      poissonInsideProb lam (upCrossings h) (downCrossings g) := by
  have hp := pathCross_prob (drawsOf_iid hlam hE) hlam (upCrossings h) (downCrossings g)
  have hc := probReal_compl_eq_one_sub (μ := μ) (measurable_seqOf (drawsOf_iid hlam hE) (pathCross_run lam (upCrossings h) (downCrossings g)).measE)
  have e : seqOf (drawsOf lam E) ⁻¹' pathCross lam (upCrossings h) (downCrossings g) =
    {ω | seqOf (drawsOf lam E) ω ∈ pathCross lam (upCrossings h) (downCrossings g)} := rfl
  rw [e, hp, sub_sub_cancel] at hc
  rw [← hc]
  refine measureReal_congr ?_
  have hties : ∀ᵐ ω ∂μ, ∀ (K : ℕ) (j : Fin ⌊h 1⌋₊) (i : Fin K), hasPoints (fun j => E j ω) K →
      pointAt (fun j => E j ω) (i + 1) ≠ sInf {t | t ∈ Icc (0:ℝ) 1 ∧ ((j : ℕ) + 1 : ℝ) ≤ h t} :=
    eventually_countable_forall.mpr fun K => eventually_countable_forall.mpr fun j => eventually_countable_forall.mpr fun i =>
      ae_no_tie hlam hE _ K i
  filter_upwards [ae_hasPoints hlam hE, ae_gaps hlam hE, hties] with ω ⟨K, hK⟩ hpos htie
  refine propext ?_
  show (∀ t ∈ Icc (0:ℝ) 1, g t ≤ poissonPath (fun j => E j ω) t ∧ (poissonPath (fun j => E j ω) t : ℝ) ≤ h t) ↔
    ¬ (¬ ∃ K, (downCrossings g).length ≤ K ∧ K ≤ (upCrossings h).length ∧ seqOf (drawsOf lam E) ω ∈ pathSet lam (upCrossings h) (downCrossings g) K)
  rw [not_not]
  have hu := upper_path hpos hK hh h0 fun i j => htie K j i hK
  have hl := lower_path hpos hK hg
  constructor
  · intro hall
    have a1 := hu.mp fun t ht => (hall t ht).2
    have a2 := hl.mp fun t ht => (hall t ht).1
    exact ⟨K, a2.1, a1.1, (mem_pathSet_iff hlam E ω _ _ K).mpr ⟨hK, a1.2, a2.2⟩⟩
  · rintro ⟨L, b1, b2, b3⟩
    obtain ⟨c1, c2⟩ := (mem_pathSet_iff hlam E ω _ _ L).mp b3
    have hKL := hasPoints_unique hK c1
    subst hKL
    exact fun t ht => ⟨hl.mpr ⟨b1, c2.2⟩ t ht, hu.mpr ⟨b2, c2.1⟩ t ht⟩

end CP.Spec
