import Verif.Spec
import Mathlib.Data.Nat.Choose.Sum
import Mathlib.MeasureTheory.Measure.Real
/-
Probability core: the law of the counting process `N_t(x) = #{i | x i ≤ t}` of an i.i.d. uniform
sample under a sequence of constraints `W_k (N_{t_k})`, computed by the convolution recursion.
-/
open MeasureTheory Set Finset

namespace CP.Spec
variable {n : ℕ}

/-- Number of sample points `≤ t`. -/
noncomputable def count (t : ℝ) (x : Fin n → ℝ) : ℕ := (Finset.univ.filter fun i => x i ≤ t).card

/-- Uniform distribution on `[0,1]`. -/
noncomputable abbrev unif : Measure ℝ := (volume : Measure ℝ).restrict (Icc 0 1)

instance : IsProbabilityMeasure unif := ⟨by simp [unif]⟩
instance : IsProbabilityMeasure (iidUniform n) := by unfold iidUniform; infer_instance

theorem measurable_count (t : ℝ) : Measurable (count (n := n) t) := by
  unfold count
  have : (fun x : Fin n → ℝ => (Finset.univ.filter fun i => x i ≤ t).card)
      = fun x => ∑ i, if x i ≤ t then 1 else 0 := by
    funext x; exact Finset.card_filter _ _
  rw [this]
  refine Finset.measurable_sum _ fun i _ => ?_
  exact Measurable.ite (measurableSet_le (measurable_pi_apply i) measurable_const)
    measurable_const measurable_const

/-- `v` describes the law of the counting process restricted to the event `C`, at time `t`. -/
structure CountLaw (n : ℕ) (t : ℝ) (v : ℕ → ℝ) (C : Set (Fin n → ℝ)) : Prop where
  meas : MeasurableSet C
  law : ∀ (T : Finset (Fin n)) (I : Fin n → Set ℝ), (∀ i, MeasurableSet (I i)) →
    (∀ i, I i ⊆ Ioc t 1) →
    (iidUniform n).real {x | (∀ i ∈ T, x i ≤ t) ∧ (∀ i ∉ T, x i ∈ I i) ∧ x ∈ C}
      = (T.card.factorial : ℝ) * v T.card * ∏ i ∈ Tᶜ, unif.real (I i)

theorem iid_pi (s : Fin n → Set ℝ) : (iidUniform n).real (Set.pi univ s) = ∏ i, unif.real (s i) := by
  unfold iidUniform Measure.real
  rw [Measure.pi_pi, ENNReal.toReal_prod]

/-- At time 0: no points. -/
theorem CountLaw.zero : CountLaw n 0 (fun m => if m = 0 then 1 else 0) Set.univ := by
  refine ⟨MeasurableSet.univ, fun T I hI hIs => ?_⟩
  have e : {x : Fin n → ℝ | (∀ i ∈ T, x i ≤ 0) ∧ (∀ i ∉ T, x i ∈ I i) ∧ x ∈ Set.univ}
      = Set.pi Set.univ (fun i => if i ∈ T then Iic 0 else I i) := by
    ext x
    simp only [Set.mem_ofPred_eq, Set.mem_univ, and_true, Set.mem_pi, true_implies]
    constructor
    · rintro ⟨h1, h2⟩ i
      by_cases hi : i ∈ T <;> simp [hi, h1, h2]
    · intro h
      refine ⟨fun i hi => ?_, fun i hi => ?_⟩
      · have := h i; simpa [hi] using this
      · have := h i; simpa [hi] using this
  rw [e, iid_pi]
  by_cases hT : T = ∅
  · subst hT; simp
  · have : T.card ≠ 0 := by simpa using hT
    simp only [this, if_false, mul_zero, zero_mul]
    obtain ⟨i, hi⟩ := Finset.nonempty_iff_ne_empty.mpr hT
    apply Finset.prod_eq_zero (Finset.mem_univ i)
    simp only [hi, if_true]
    unfold unif Measure.real
    rw [Measure.restrict_apply measurableSet_Iic]
    have : (Iic (0:ℝ) ∩ Icc 0 1) = {0} := by
      ext y; simp only [Set.mem_inter_iff, Set.mem_Iic, Set.mem_Icc, Set.mem_singleton_iff]
      constructor
      · rintro ⟨h1, h2, _⟩; exact le_antisymm h1 h2
      · rintro rfl; simp
    rw [this]; simp

/-- The convolution step, from time `t` to `t + τ`, with constraint `W` on the number of points. -/
noncomputable def vstep (τ : ℝ) (W : ℕ → Prop) [DecidablePred W] (v : ℕ → ℝ) (m : ℕ) : ℝ :=
  if W m then ∑ l ∈ Finset.range (m + 1), v l * (τ ^ (m - l) / ((m - l).factorial : ℝ)) else 0

theorem unif_Ioc {s t : ℝ} (h0 : 0 ≤ s) (h : s ≤ t) (h1 : t ≤ 1) : unif.real (Ioc s t) = t - s := by
  unfold unif Measure.real
  rw [Measure.restrict_apply measurableSet_Ioc]
  have : Ioc s t ∩ Icc 0 1 = Ioc s t := by
    apply Set.inter_eq_left.mpr
    intro y hy
    exact ⟨h0.trans hy.1.le, hy.2.trans h1⟩
  rw [this, Real.volume_Ioc, ENNReal.toReal_ofReal (by linarith)]

theorem CountLaw.step {t t' : ℝ} {v : ℕ → ℝ} {C : Set (Fin n → ℝ)} (h : CountLaw n t v C)
    (h0 : 0 ≤ t) (htt : t ≤ t') (h1 : t' ≤ 1) (W : ℕ → Prop) [DecidablePred W] :
    CountLaw n t' (vstep (t' - t) W v) (C ∩ {x | W (count t' x)}) := by
  have hmW : MeasurableSet {x : Fin n → ℝ | W (count t' x)} :=
    measurable_count t' (MeasurableSet.of_discrete (s := {m | W m}))
  refine ⟨h.meas.inter hmW, fun T I hI hIs => ?_⟩
  -- on the event the count is `|T|`
  have hcount : ∀ x : Fin n → ℝ, (∀ i ∈ T, x i ≤ t') → (∀ i ∉ T, x i ∈ I i) → count t' x = T.card := by
    intro x hx1 hx2
    unfold count
    congr 1
    ext i
    simp only [Finset.mem_filter, Finset.mem_univ, true_and]
    constructor
    · intro hi
      by_contra hT
      exact absurd hi (not_le.mpr (hIs i (hx2 i hT)).1)
    · exact hx1 i
  by_cases hW : W T.card
  swap
  · have : {x : Fin n → ℝ | (∀ i ∈ T, x i ≤ t') ∧ (∀ i ∉ T, x i ∈ I i) ∧ x ∈ C ∩ {x | W (count t' x)}} = ∅ := by
      ext x
      simp only [Set.mem_ofPred_eq, Set.mem_inter_iff, Set.mem_empty_iff_false, iff_false]
      rintro ⟨hx1, hx2, _, hx4⟩
      rw [hcount x hx1 hx2] at hx4
      exact hW hx4
    rw [this]
    simp [vstep, hW]
  · -- decomposition over the set `S ⊆ T` of points already present at time `t`
    set I' : Fin n → Set ℝ := fun i => if i ∈ T then Ioc t t' else I i with hI'
    have hI'm : ∀ i, MeasurableSet (I' i) := by
      intro i; simp only [hI']; split
      · exact measurableSet_Ioc
      · exact hI i
    have hI's : ∀ i, I' i ⊆ Ioc t 1 := by
      intro i; simp only [hI']; split
      · exact Set.Ioc_subset_Ioc_right h1
      · exact (hIs i).trans (Set.Ioc_subset_Ioc_left htt)
    have hdecomp : {x : Fin n → ℝ | (∀ i ∈ T, x i ≤ t') ∧ (∀ i ∉ T, x i ∈ I i) ∧ x ∈ C ∩ {x | W (count t' x)}}
        = ⋃ S ∈ T.powerset, {x | (∀ i ∈ S, x i ≤ t) ∧ (∀ i ∉ S, x i ∈ I' i) ∧ x ∈ C} := by
      ext x
      simp only [Set.mem_ofPred_eq, Set.mem_inter_iff, Set.mem_iUnion, Finset.mem_powerset, exists_prop]
      constructor
      · rintro ⟨hx1, hx2, hx3, _⟩
        refine ⟨T.filter (fun i => x i ≤ t), Finset.filter_subset _ _, ?_, ?_, hx3⟩
        · intro i hi; exact (Finset.mem_filter.mp hi).2
        · intro i hi
          simp only [hI']
          split
          · rename_i hiT
            refine ⟨?_, hx1 i hiT⟩
            by_contra hle
            exact hi (Finset.mem_filter.mpr ⟨hiT, not_lt.mp hle⟩)
          · rename_i hiT; exact hx2 i hiT
      · rintro ⟨S, hS, hx1, hx2, hx3⟩
        have a1 : ∀ i ∈ T, x i ≤ t' := by
          intro i hi
          by_cases hiS : i ∈ S
          · exact (hx1 i hiS).trans htt
          · have := hx2 i hiS; simp only [hI', hi, if_true] at this; exact this.2
        have a2 : ∀ i ∉ T, x i ∈ I i := by
          intro i hi
          have := hx2 i (fun hS' => hi (hS hS')); simpa only [hI', hi, if_false] using this
        exact ⟨a1, a2, hx3, by rw [hcount x a1 a2]; exact hW⟩
    have hdisj : Set.PairwiseDisjoint (T.powerset : Set (Finset (Fin n)))
        (fun S => {x : Fin n → ℝ | (∀ i ∈ S, x i ≤ t) ∧ (∀ i ∉ S, x i ∈ I' i) ∧ x ∈ C}) := by
      intro S _ S' _ hne
      rw [Function.onFun, Set.disjoint_left]
      rintro x ⟨h1, h2, _⟩ ⟨h1', h2', _⟩
      apply hne
      ext i
      constructor
      · intro hi
        by_contra hi'
        exact absurd (h1 i hi) (not_le.mpr (hI's i (h2' i hi')).1)
      · intro hi
        by_contra hi'
        exact absurd (h1' i hi) (not_le.mpr (hI's i (h2 i hi')).1)
    have hmeas : ∀ S ∈ T.powerset, MeasurableSet
        {x : Fin n → ℝ | (∀ i ∈ S, x i ≤ t) ∧ (∀ i ∉ S, x i ∈ I' i) ∧ x ∈ C} := by
      intro S _
      have e : {x : Fin n → ℝ | (∀ i ∈ S, x i ≤ t) ∧ (∀ i ∉ S, x i ∈ I' i) ∧ x ∈ C}
          = (Set.pi Set.univ fun i => if i ∈ S then Iic t else I' i) ∩ C := by
        ext x
        simp only [Set.mem_ofPred_eq, Set.mem_pi, Set.mem_inter_iff, Set.mem_univ, true_implies]
        constructor
        · rintro ⟨h1, h2, h3⟩
          refine ⟨fun i => ?_, h3⟩
          by_cases hi : i ∈ S <;> simp [hi, h1, h2]
        · rintro ⟨h1, h3⟩
          refine ⟨fun i hi => ?_, fun i hi => ?_, h3⟩
          · have := h1 i; simpa [hi] using this
          · have := h1 i; simpa [hi] using this
      rw [e]
      refine (MeasurableSet.univ_pi fun i => ?_).inter h.meas
      split
      · exact measurableSet_Iic
      · exact hI'm i
    rw [hdecomp, measureReal_biUnion_finset hdisj hmeas]
    have hterm : ∀ S ∈ T.powerset,
        (iidUniform n).real {x | (∀ i ∈ S, x i ≤ t) ∧ (∀ i ∉ S, x i ∈ I' i) ∧ x ∈ C}
        = (fun l : ℕ => (l.factorial : ℝ) * v l * (t' - t) ^ (T.card - l)) S.card
          * ∏ i ∈ Tᶜ, unif.real (I i) := by
      intro S hS
      rw [Finset.mem_powerset] at hS
      rw [h.law S I' hI'm hI's]
      have hsplit : Sᶜ = (T \ S) ∪ Tᶜ := by
        ext i
        simp only [Finset.mem_compl, Finset.mem_union, Finset.mem_sdiff]
        constructor
        · intro hi; by_cases hT : i ∈ T
          · exact Or.inl ⟨hT, hi⟩
          · exact Or.inr hT
        · rintro (h | h)
          · exact h.2
          · exact fun hh => h (hS hh)
      have hd : Disjoint (T \ S) Tᶜ := by
        rw [Finset.disjoint_left]
        intro i hi; simp only [Finset.mem_compl, not_not]; exact (Finset.mem_sdiff.mp hi).1
      rw [hsplit, Finset.prod_union hd]
      have e1 : ∏ i ∈ T \ S, unif.real (I' i) = (t' - t) ^ (T.card - S.card) := by
        rw [Finset.prod_congr rfl (g := fun _ => t' - t), Finset.prod_const, Finset.card_sdiff_of_subset hS]
        intro i hi
        have := (Finset.mem_sdiff.mp hi).1
        simp only [hI', this, if_true]
        exact unif_Ioc h0 htt h1
      have e2 : ∏ i ∈ Tᶜ, unif.real (I' i) = ∏ i ∈ Tᶜ, unif.real (I i) := by
        refine Finset.prod_congr rfl fun i hi => ?_
        have := Finset.mem_compl.mp hi
        simp only [hI', this, if_false]
      rw [e1, e2]; ring
    rw [Finset.sum_congr rfl hterm, ← Finset.sum_mul,
      Finset.sum_powerset_apply_card (fun l : ℕ => (l.factorial : ℝ) * v l * (t' - t) ^ (T.card - l))]
    congr 1
    unfold vstep
    rw [if_pos hW, Finset.mul_sum]
    refine Finset.sum_congr rfl fun l hl => ?_
    have hl' : l ≤ T.card := by simpa [Nat.lt_succ_iff] using hl
    have hc := Nat.choose_mul_factorial_mul_factorial hl'
    have hc' : ((T.card.choose l : ℝ)) * (l.factorial : ℝ) * ((T.card - l).factorial : ℝ) = (T.card.factorial : ℝ) := by
      exact_mod_cast hc
    have hne : ((T.card - l).factorial : ℝ) ≠ 0 := by exact_mod_cast (Nat.factorial_pos _).ne'
    rw [nsmul_eq_mul, ← hc']
    field_simp

/-- A law at time 1 gives the probability of the event. -/
theorem CountLaw.prob {v : ℕ → ℝ} {C : Set (Fin n → ℝ)} (h : CountLaw n 1 v C) :
    (iidUniform n).real C = (n.factorial : ℝ) * v n := by
  have := h.law Finset.univ (fun _ => ∅) (fun _ => MeasurableSet.empty) (fun _ => Set.empty_subset _)
  simp only [Finset.mem_univ, true_implies, not_true_eq_false, false_implies, implies_true, true_and,
    Finset.card_univ, Fintype.card_fin, Finset.compl_univ, Finset.prod_empty, mul_one] at this
  rw [← this]
  apply measureReal_congr
  have hae : ∀ᵐ x ∂(iidUniform n), ∀ i, x i ∈ Icc (0:ℝ) 1 := by
    unfold iidUniform
    refine eventually_countable_forall.mpr fun i => ?_
    have : ∀ᵐ y ∂unif, y ∈ Icc (0:ℝ) 1 := ae_restrict_mem measurableSet_Icc
    exact (Measure.tendsto_eval_ae_ae (μ := fun _ : Fin n => unif) (i := i)).eventually this
  filter_upwards [hae] with x hx
  apply propext
  constructor
  · intro hC; exact ⟨fun i => (hx i).2, hC⟩
  · intro hC; exact hC.2

end CP.Spec
