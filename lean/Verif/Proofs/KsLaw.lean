import Verif.Proofs.KsEvent
/-!
Laws of the Kolmogorov-Smirnov statistics, and boundary functions, as order-statistics probabilities.
-/
open MeasureTheory Set ProbabilityTheory Filter Topology

namespace CP.Spec
variable {n : ℕ}

section ks
variable (ρ : Measure ℝ) [IsProbabilityMeasure ρ]

theorem iid_both (β Γ : Fin n → ℝ) :
    (iid ρ n).real {y | ∀ i, β i ≤ orderStat y i ∧ orderStat y i ≤ Γ i} =
      noncrossProb (fun i => ρ.real (Iio (β i))) (fun i => ρ.real (Iic (Γ i))) := by
  have h := iid_order (n := n) ρ β Γ (fun _ => True) (fun _ => True)
  simp only [true_implies] at h
  exact h

theorem iid_lower (β : Fin n → ℝ) :
    (iid ρ n).real {y | ∀ i, β i ≤ orderStat y i} = lowerProb (fun i => ρ.real (Iio (β i))) := by
  have h := iid_order (n := n) ρ β β (fun _ => True) (fun _ => False)
  simp only [true_implies, false_implies, and_true] at h
  exact h

theorem iid_upper (Γ : Fin n → ℝ) :
    (iid ρ n).real {y | ∀ i, orderStat y i ≤ Γ i} = upperProb (fun i => ρ.real (Iic (Γ i))) := by
  have h := iid_order (n := n) ρ Γ Γ (fun _ => False) (fun _ => True)
  simp only [true_implies, false_implies, true_and] at h
  exact h

variable {G : ℝ → ℝ} (hG : Monotone G) (hc : Continuous G) (h0 : ∀ t, 0 ≤ G t) (h1 : ∀ t, G t ≤ 1)
include hG

theorem ksStat_set (hc : Continuous G) (h0 : ∀ t, 0 ≤ G t) (h1 : ∀ t, G t ≤ 1) (hn : 1 ≤ n) {d : ℝ} (hd : 0 ≤ d) :
    {y : Fin n → ℝ | ksStat G y ≤ d} =
      {y | ∀ i : Fin n, (((i : ℕ) + 1 : ℝ) / n - d ≤ G (orderStat y i)) ∧ G (orderStat y i) ≤ (i : ℕ) / (n:ℝ) + d} := by
  ext y
  simp only [mem_ofPred_eq]
  rw [ksStat_le_iff h0 h1, plus_iff hG h0 hd, minus_iff hG hc h1 hd hn, ← forall_and]

theorem ksStat_law (hc : Continuous G) (h0 : ∀ t, 0 ≤ G t) (h1 : ∀ t, G t ≤ 1) (hn : 1 ≤ n) {d : ℝ} (hd : 0 ≤ d) :
    (iid ρ n).real {y | ksStat G y ≤ d} =
      noncrossProb (fun i : Fin n => ρ.real {y | G y < ((i : ℕ) + 1 : ℝ) / n - d}) (fun i => ρ.real {y | G y ≤ (i : ℕ) / (n:ℝ) + d}) := by
  rw [ksStat_set hG hc h0 h1 hn hd]
  have h := iid_order_map (n := n) ρ hG (fun i => ((i : ℕ) + 1 : ℝ) / n - d) (fun i => (i : ℕ) / (n:ℝ) + d) (fun _ => True) (fun _ => True)
  simp only [true_implies] at h
  exact h

theorem ksPlus_law (h0 : ∀ t, 0 ≤ G t) {d : ℝ} (hd : 0 ≤ d) :
    (iid ρ n).real {y | ksPlus G y ≤ d} = lowerProb (fun i : Fin n => ρ.real {y | G y < ((i : ℕ) + 1 : ℝ) / n - d}) := by
  have e : {y : Fin n → ℝ | ksPlus G y ≤ d} = {y | ∀ i : Fin n, (((i : ℕ) + 1 : ℝ) / n - d ≤ G (orderStat y i))} := by
    ext y
    simp only [mem_ofPred_eq]
    rw [ksPlus_le_iff h0, plus_iff hG h0 hd]
  rw [e]
  have h := iid_order_map (n := n) ρ hG (fun i => ((i : ℕ) + 1 : ℝ) / n - d) (fun i => (i : ℕ) / (n:ℝ) + d) (fun _ => True) (fun _ => False)
  simp only [true_implies, false_implies, and_true] at h
  exact h

theorem ksMinus_law (hc : Continuous G) (h1 : ∀ t, G t ≤ 1) (hn : 1 ≤ n) {d : ℝ} (hd : 0 ≤ d) :
    (iid ρ n).real {y | ksMinus G y ≤ d} = upperProb (fun i : Fin n => ρ.real {y | G y ≤ (i : ℕ) / (n:ℝ) + d}) := by
  have e : {y : Fin n → ℝ | ksMinus G y ≤ d} = {y | ∀ i : Fin n, G (orderStat y i) ≤ (i : ℕ) / (n:ℝ) + d} := by
    ext y
    simp only [mem_ofPred_eq]
    rw [ksMinus_le_iff h1, minus_iff hG hc h1 hd hn]
  rw [e]
  have h := iid_order_map (n := n) ρ hG (fun i => ((i : ℕ) + 1 : ℝ) / n - d) (fun i => (i : ℕ) / (n:ℝ) + d) (fun _ => False) (fun _ => True)
  simp only [true_implies, false_implies, true_and] at h
  exact h

end ks

/-! ### Validity of the boundaries -/

theorem validBound_lt (ρ : Measure ℝ) [IsProbabilityMeasure ρ] (G : ℝ → ℝ) {a : Fin n → ℝ} (ha : Monotone a) :
    ValidBound fun i => ρ.real {y | G y < a i} :=
  ⟨fun _ _ h => measureReal_mono fun _ hy => lt_of_lt_of_le hy (ha h), fun _ => ⟨measureReal_nonneg, measureReal_le_one⟩⟩

theorem validBound_le (ρ : Measure ℝ) [IsProbabilityMeasure ρ] (G : ℝ → ℝ) {a : Fin n → ℝ} (ha : Monotone a) :
    ValidBound fun i => ρ.real {y | G y ≤ a i} :=
  ⟨fun i j h => measureReal_mono fun y (hy : G y ≤ a i) => show G y ≤ a j from hy.trans (ha h), fun _ => ⟨measureReal_nonneg, measureReal_le_one⟩⟩

theorem mono_succ_div (n : ℕ) (d : ℝ) : Monotone fun i : Fin n => ((i : ℕ) + 1 : ℝ) / n - d := by
  intro i j h
  have : ((i : ℕ) : ℝ) ≤ (j : ℕ) := by exact_mod_cast h
  have := div_le_div_of_nonneg_right (by linarith : ((i : ℕ) + 1 : ℝ) ≤ (j : ℕ) + 1) (by positivity : (0:ℝ) ≤ n)
  dsimp only; linarith

theorem mono_div (n : ℕ) (d : ℝ) : Monotone fun i : Fin n => ((i : ℕ) : ℝ) / n + d := by
  intro i j h
  have : ((i : ℕ) : ℝ) ≤ (j : ℕ) := by exact_mod_cast h
  have := div_le_div_of_nonneg_right this (by positivity : (0:ℝ) ≤ n)
  dsimp only; linarith

/-! ### Boundary functions on `[0,1]` -/

theorem reach_bdd (h : ℝ → ℝ) (i : Fin n) : BddBelow ({t | t ∈ Icc (0:ℝ) 1 ∧ ((i : ℕ) + 1 : ℝ) / n ≤ h t} ∪ {1}) := by
  refine ⟨0, ?_⟩
  rintro t (⟨ht, -⟩ | ht)
  · exact ht.1
  · rw [mem_singleton_iff] at ht; rw [ht]; exact zero_le_one

theorem leave_bdd (g : ℝ → ℝ) (i : Fin n) : BddAbove ({t | t ∈ Icc (0:ℝ) 1 ∧ g t ≤ ((i : ℕ) : ℝ) / n} ∪ {0}) := by
  refine ⟨1, ?_⟩
  rintro t (⟨ht, -⟩ | ht)
  · exact ht.2
  · rw [mem_singleton_iff] at ht; rw [ht]; exact zero_le_one

theorem reach_valid (h : ℝ → ℝ) : ValidBound (firstReach n h) := by
  refine ⟨fun i j hij => ?_, fun i => ⟨?_, ?_⟩⟩
  · refine csInf_le_csInf (reach_bdd h i) ⟨1, Or.inr rfl⟩ ?_
    rintro t (⟨ht, hl⟩ | ht)
    · refine Or.inl ⟨ht, le_trans ?_ hl⟩
      have := mono_succ_div n 0 hij
      simpa using this
    · exact Or.inr ht
  · refine le_csInf ⟨1, Or.inr rfl⟩ ?_
    rintro t (⟨ht, -⟩ | ht)
    · exact ht.1
    · rw [mem_singleton_iff] at ht; rw [ht]; exact zero_le_one
  · exact csInf_le (reach_bdd h i) (Or.inr rfl)

theorem leave_valid (g : ℝ → ℝ) : ValidBound (lastBelow n g) := by
  refine ⟨fun i j hij => ?_, fun i => ⟨?_, ?_⟩⟩
  · refine csSup_le_csSup (leave_bdd g j) ⟨0, Or.inr rfl⟩ ?_
    rintro t (⟨ht, hl⟩ | ht)
    · refine Or.inl ⟨ht, le_trans hl ?_⟩
      have := mono_div n 0 hij
      simpa using this
    · exact Or.inr ht
  · exact le_csSup (leave_bdd g i) (Or.inr rfl)
  · refine csSup_le ⟨0, Or.inr rfl⟩ ?_
    rintro t (⟨ht, -⟩ | ht)
    · exact ht.2
    · rw [mem_singleton_iff] at ht; rw [ht]; exact zero_le_one

/-- The empirical distribution function stays below `h` on `[0,1]`. -/
theorem below_iff {h : ℝ → ℝ} (hh : MonotoneOn h (Icc 0 1)) (h0 : 0 ≤ h 0) {x : Fin n → ℝ} (hx : ∀ i, x i ∈ Icc (0:ℝ) 1)
    (hne : ∀ j i, x i ≠ firstReach n h j) :
    (∀ t ∈ Icc (0:ℝ) 1, ecdf x t ≤ h t) ↔ ∀ i, firstReach n h i ≤ orderStat x i := by
  have hxo : ∀ i, orderStat x i ∈ Icc (0:ℝ) 1 := fun i => hx _
  constructor
  · intro H i
    refine csInf_le (reach_bdd h i) (Or.inl ⟨hxo i, ?_⟩)
    refine le_trans ?_ (H _ (hxo i))
    rw [ecdf_eq_count]
    apply div_le_div_of_nonneg_right _ (by positivity)
    exact_mod_cast count_orderStat_ge x i
  · intro H t ht
    rw [ecdf_eq_count]
    rcases Nat.eq_zero_or_pos (count t x) with h1 | h1
    · rw [h1, Nat.cast_zero, zero_div]
      exact h0.trans (hh ⟨le_rfl, zero_le_one⟩ ht ht.1)
    · have hlt : count t x - 1 < n := by have := count_le t x; omega
      set k : Fin n := ⟨count t x - 1, hlt⟩ with hk
      have h3 : orderStat x k ≤ t := (orderStat_le_iff x t _).mpr (by rw [hk]; simp only; omega)
      have h4 : firstReach n h k < orderStat x k := lt_of_le_of_ne (H k) (fun e => hne k _ e.symm)
      unfold firstReach at h4
      obtain ⟨s, hs, hst⟩ := exists_lt_of_csInf_lt (singleton_nonempty (1:ℝ)).inr h4
      have h5 : (((k : ℕ) : ℝ) + 1) = count t x := by
        have : (k : ℕ) + 1 = count t x := by rw [hk]; simp only; omega
        exact_mod_cast this
      rcases hs with ⟨hs1, hs2⟩ | hs
      · rw [← h5]
        exact hs2.trans (hh hs1 ht (hst.le.trans h3))
      · rw [mem_singleton_iff] at hs
        rw [hs] at hst
        exact absurd (hxo k).2 (not_le.mpr hst)

/-- The empirical distribution function stays above `g` on `[0,1]`. -/
theorem above_iff {g : ℝ → ℝ} (hg : MonotoneOn g (Icc 0 1)) (h1 : g 1 ≤ 1) (hn : 1 ≤ n) {x : Fin n → ℝ} (hx : ∀ i, x i ∈ Icc (0:ℝ) 1) :
    (∀ t ∈ Icc (0:ℝ) 1, g t ≤ ecdf x t) ↔ ∀ i, orderStat x i ≤ lastBelow n g i := by
  have hn' : (0:ℝ) < n := by exact_mod_cast hn
  have hxo : ∀ i, orderStat x i ∈ Icc (0:ℝ) 1 := fun i => hx _
  constructor
  · intro H i
    refine le_of_forall_lt fun c hc => ?_
    rcases lt_or_ge c 0 with h2 | h2
    · exact lt_of_lt_of_le h2 ((leave_valid g).range i).1
    · set t := (c + orderStat x i) / 2 with ht
      have ht1 : c < t := by rw [ht]; linarith
      have ht2 : t < orderStat x i := by rw [ht]; linarith
      have ht3 : t ∈ Icc (0:ℝ) 1 := ⟨by linarith, by linarith [(hxo i).2]⟩
      refine lt_of_lt_of_le ht1 (le_csSup (leave_bdd g i) (Or.inl ⟨ht3, ?_⟩))
      refine (H t ht3).trans ?_
      rw [ecdf_eq_count]
      apply div_le_div_of_nonneg_right _ hn'.le
      exact_mod_cast count_lt_le x i ht2
  · intro H t ht
    rw [ecdf_eq_count]
    rcases Nat.lt_or_ge (count t x) n with h2 | h2
    · have h4 : t < orderStat x ⟨count t x, h2⟩ := by
        by_contra hc
        have := (orderStat_le_iff x t _).mp (not_lt.mp hc)
        simp at this
      have h5 := lt_of_lt_of_le h4 (H _)
      unfold lastBelow at h5
      obtain ⟨s, hs, hst⟩ := exists_lt_of_lt_csSup (singleton_nonempty (0:ℝ)).inr h5
      rcases hs with ⟨hs1, hs2⟩ | hs
      · exact (hg ht hs1 hst.le).trans hs2
      · rw [mem_singleton_iff] at hs
        rw [hs] at hst
        exact absurd ht.1 (not_le.mpr hst)
    · have h3 : count t x = n := le_antisymm (count_le t x) h2
      rw [h3, div_self hn'.ne']
      exact (hg ht ⟨zero_le_one, le_rfl⟩ ht.2).trans h1

theorem ae_ne_reach (h : ℝ → ℝ) : ∀ᵐ x ∂(iidUniform n), ∀ j, ∀ i, x i ≠ firstReach n h j :=
  eventually_countable_forall.mpr fun _ => ae_ne _

theorem band_law {g h : ℝ → ℝ} (hg : MonotoneOn g (Icc 0 1)) (hh : MonotoneOn h (Icc 0 1)) (h0 : 0 ≤ h 0) (h1 : g 1 ≤ 1) (hn : 1 ≤ n) :
    (iidUniform n).real {x | ∀ t ∈ Icc (0:ℝ) 1, g t ≤ ecdf x t ∧ ecdf x t ≤ h t} = noncrossProb (firstReach n h) (lastBelow n g) := by
  unfold noncrossProb
  apply measureReal_congr
  filter_upwards [ae_ne_reach h, ae_mem] with x hx h01
  apply propext
  show (∀ t ∈ Icc (0:ℝ) 1, _) ↔ ∀ i, _
  rw [forall_and, ← below_iff hh h0 h01 hx, ← above_iff hg h1 hn h01]
  exact ⟨fun H => ⟨fun t ht => (H t ht).2, fun t ht => (H t ht).1⟩, fun H t ht => ⟨H.2 t ht, H.1 t ht⟩⟩

theorem below_law {h : ℝ → ℝ} (hh : MonotoneOn h (Icc 0 1)) (h0 : 0 ≤ h 0) :
    (iidUniform n).real {x | ∀ t ∈ Icc (0:ℝ) 1, ecdf x t ≤ h t} = lowerProb (firstReach n h) := by
  unfold lowerProb
  apply measureReal_congr
  filter_upwards [ae_ne_reach h, ae_mem] with x hx h01
  exact propext (below_iff hh h0 h01 hx)

theorem above_law {g : ℝ → ℝ} (hg : MonotoneOn g (Icc 0 1)) (h1 : g 1 ≤ 1) (hn : 1 ≤ n) :
    (iidUniform n).real {x | ∀ t ∈ Icc (0:ℝ) 1, g t ≤ ecdf x t} = upperProb (lastBelow n g) := by
  unfold upperProb
  apply measureReal_congr
  filter_upwards [ae_mem] with x h01
  exact propext (above_iff hg h1 hn h01)

theorem reach_le_leave {g h : ℝ → ℝ} (hgh : ∀ t ∈ Icc (0:ℝ) 1, g t ≤ h t) {i j : Fin n} (hij : (j : ℕ) = i + 1) :
    firstReach n h i ≤ lastBelow n g j := by
  by_contra hc
  rw [not_le] at hc
  set t := (lastBelow n g j + firstReach n h i) / 2 with ht
  have a := (leave_valid g).range j
  have b := (reach_valid h).range i
  have h1 : lastBelow n g j < t := by rw [ht]; linarith
  have h2 : t < firstReach n h i := by rw [ht]; linarith
  have h3 : t ∈ Icc (0:ℝ) 1 := ⟨by linarith [a.1], by linarith [b.2]⟩
  have h4 : ¬ g t ≤ ((j : ℕ) : ℝ) / n := fun hle => absurd (le_csSup (leave_bdd g j) (Or.inl ⟨h3, hle⟩)) (not_le.mpr h1)
  have h5 : ¬ ((i : ℕ) + 1 : ℝ) / n ≤ h t := fun hle => absurd (csInf_le (reach_bdd h i) (Or.inl ⟨h3, hle⟩)) (not_le.mpr h2)
  rw [hij] at h4
  push_cast at h4
  rw [not_le] at h4 h5
  have := hgh t h3
  linarith

end CP.Spec
