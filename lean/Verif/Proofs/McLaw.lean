import Verif.Props.MonteCarlo
import Verif.Proofs.Renyi2
import Verif.Proofs.Renewal
/-! The law of the simulated samples and paths, for ideal draws. -/
open MeasureTheory Set ProbabilityTheory
namespace CP.Props
open CP.Spec CP.McSpec FOps

theorem measurable_StaysInside (b B : List ℝ) (n : ℕ) : MeasurableSet {x : Fin n → ℝ | StaysInside b B x} := by
  have : {x : Fin n → ℝ | StaysInside b B x} =
      (⋂ i : Fin n, {x | ∀ y : ℝ, b[(i : ℕ)]? = some y → y ≤ x i}) ∩ ⋂ i : Fin n, {x | ∀ y : ℝ, B[(i : ℕ)]? = some y → x i ≤ y} := by
    ext x
    simp only [StaysInside, Set.mem_ofPred_eq, mem_inter_iff, mem_iInter]
  rw [this]
  refine (MeasurableSet.iInter fun i => ?_).inter (MeasurableSet.iInter fun i => ?_)
  · cases h : b[(i : ℕ)]? with
    | none => simp
    | some z =>
      simp only [Option.some.injEq, forall_eq']
      exact measurableSet_le measurable_const (measurable_pi_apply i)
  · cases h : B[(i : ℕ)]? with
    | none => simp
    | some z =>
      simp only [Option.some.injEq, forall_eq']
      exact measurableSet_le (measurable_pi_apply i) measurable_const

theorem measurable_expSum (k : ℕ) : Measurable fun u : Draws => expSum u k := by
  unfold expSum
  refine Finset.measurable_sum _ fun j _ => ?_
  exact (Real.measurable_log.comp (measurable_pi_apply j)).neg

theorem expSum_congr {u u' : Draws} {k : ℕ} (h : ∀ j, j < k → u j = u' j) : expSum u k = expSum u' k :=
  Finset.sum_congr rfl fun j hj => by rw [h j (Finset.mem_range.mp hj)]

theorem psum_expOf (u : Draws) {m : ℕ} (i : Fin m) : psum (expOf fun j : Fin m => u j) i = expSum u (i + 1) := by
  unfold psum expOf expSum
  have h := Fin.sum_univ_eq_sum_range (fun j => if j ≤ (i : ℕ) then -Real.log (u j) else 0) m
  have e : ∑ j : Fin m, (if j ≤ i then -Real.log (u j) else 0) = ∑ j : Fin m, (fun j => if j ≤ (i : ℕ) then -Real.log (u j) else 0) (j : ℕ) := by
    refine Finset.sum_congr rfl fun j _ => ?_
    simp only [Fin.le_def]
  rw [e, h, ← Finset.sum_filter]
  refine Finset.sum_congr ?_ fun _ _ => rfl
  ext j
  have := i.2
  simp only [Finset.mem_filter, Finset.mem_range]
  omega

theorem inside_iff (b B : List ℝ) {n : ℕ} (x : Fin n → ℝ) (hB : B.length ≤ n) (hb : b = [] ∨ n ≤ b.length) :
    Inside (toList x) (b.map .fin) (B.map .fin) ↔ StaysInside b B x := by
  have hget : ∀ (i : ℕ) (y : XR), (toList x)[i]? = some y ↔ ∃ h : i < n, y = .fin (x ⟨i, h⟩) := by
    intro i y
    unfold toList
    rw [List.getElem?_ofFn]
    by_cases hi : i < n
    · simp [hi, eq_comm]
    · simp [hi]
  have hmap : ∀ (l : List ℝ) (i : ℕ) (x : XR), (l.map XR.fin)[i]? = some x ↔ ∃ y, l[i]? = some y ∧ x = .fin y := by
    intro l i x
    rw [List.getElem?_map]
    cases l[i]? <;> simp [eq_comm]
  unfold Inside StaysInside
  constructor
  · rintro ⟨-, -, h3, h4⟩
    refine ⟨fun i y hy => ?_, fun i y hy => ?_⟩
    · have := h4 i _ _ ((hget i _).mpr ⟨i.2, rfl⟩) ((hmap b i _).mpr ⟨y, hy, rfl⟩)
      simpa using this
    · have := h3 i _ _ ((hget i _).mpr ⟨i.2, rfl⟩) ((hmap B i _).mpr ⟨y, hy, rfl⟩)
      simpa using this
  · rintro ⟨h1, h2⟩
    refine ⟨by simpa using hB, fun h => ?_, ?_, ?_⟩
    · rcases hb with rfl | hb
      · simp at h
      · simpa using hb
    · intro i u v hu hv
      obtain ⟨hi, rfl⟩ := (hget i u).mp hu
      obtain ⟨y, hy, rfl⟩ := (hmap B i v).mp hv
      simpa using h2 ⟨i, hi⟩ y hy
    · intro i u v hu hv
      obtain ⟨hi, rfl⟩ := (hget i u).mp hu
      obtain ⟨y, hy, rfl⟩ := (hmap b i v).mp hv
      simpa using h1 ⟨i, hi⟩ y hy

/-! ## The ecdf simulation -/

/-- The draws of a run whose sample does not stay inside. -/
def crossSet (n : ℕ) (b B : List ℝ) : Set Draws := {u | ¬ StaysInside b B (realSample u n)}

theorem crossSet_run (n : ℕ) (b B : List ℝ) : IsRun (fun _ => n + 1) (crossSet n b B) (n + 1) := by
  have hdep : Spec.DependsOn (n + 1) (crossSet n b B) := by
    intro u u' h
    have : realSample u n = realSample u' n := by
      funext i
      unfold realSample
      rw [expSum_congr (fun j hj => h j (by have := i.2; omega)), expSum_congr (k := n + 1) (fun j hj => h j hj)]
    unfold crossSet
    rw [Set.mem_ofPred_eq, Set.mem_ofPred_eq, this]
  refine ⟨fun _ => le_rfl, fun l => MeasurableSet.const _, fun l u u' _ => by simp, ?_, ?_⟩
  · have hm : Measurable fun u : Draws => realSample u n :=
      measurable_pi_iff.mpr fun i => (measurable_expSum _).div (measurable_expSum _)
    exact hm (measurable_StaysInside b B n).compl
  · intro l u u' h
    by_cases hl : n + 1 = l
    · subst hl
      have := hdep u u' h
      simp only [mem_inter_iff, Set.mem_ofPred_eq, and_true]
      exact this
    · simp [hl]

theorem startOf_const (k : ℕ) (u : Draws) (r : ℕ) : startOf (fun _ => k) u r = r * k := by
  induction r with
  | zero => simp [startOf]
  | succ r ih => rw [startOf, ih]; ring

section
variable {Ω : Type*} [MeasurableSpace Ω] {μ : Measure Ω} [IsProbabilityMeasure μ] {U : ℕ → Ω → ℝ}

omit [IsProbabilityMeasure μ] in
theorem ae_draws (hU : IidDraws U μ) : ∀ᵐ ω ∂μ, ∀ j, 0 < U j ω ∧ U j ω < 1 := by
  rw [ae_all_iff]
  intro j
  have h : ∀ᵐ x ∂(μ.map (U j)), 0 < x ∧ x < 1 := by
    rw [hU.law j, ← restrict_Ioo_eq_restrict_Icc]
    filter_upwards [ae_restrict_mem measurableSet_Ioo] with x hx using hx
  exact ae_of_ae_map (hU.meas j).aemeasurable h

theorem crossSet_prob (hU : IidDraws U μ) (n : ℕ) (b B : List ℝ) :
    μ.real {ω | seqOf U ω ∈ crossSet n b B} = 1 - insideProb n b B := by
  have hA := measurable_StaysInside b B n
  have h1 := renyi_law n _ hA
  have hm : MeasurableSet {v : Fin (n + 1) → ℝ | (fun i : Fin n => psum (expOf v) i.castSucc / psum (expOf v) (Fin.last n)) ∈
      {x : Fin n → ℝ | StaysInside b B x}} := by
    have hq := measurable_psum_expOf (n + 1)
    have : Measurable fun v : Fin (n + 1) → ℝ => (fun i : Fin n => psum (expOf v) i.castSucc / psum (expOf v) (Fin.last n)) :=
      measurable_pi_iff.mpr fun i => ((measurable_pi_apply _).comp hq).div ((measurable_pi_apply _).comp hq)
    exact this hA
  have h2 := block_measure hU 0 (n + 1) hm
  have e : {ω | seqOf U ω ∈ crossSet n b B}ᶜ = {ω | (fun j : Fin (n + 1) => U (0 + j) ω) ∈
      {v : Fin (n + 1) → ℝ | (fun i : Fin n => psum (expOf v) i.castSucc / psum (expOf v) (Fin.last n)) ∈
      {x : Fin n → ℝ | StaysInside b B x}}} := by
    ext ω
    have : (fun i : Fin n => psum (expOf fun j : Fin (n + 1) => U (0 + j) ω) i.castSucc /
        psum (expOf fun j : Fin (n + 1) => U (0 + j) ω) (Fin.last n)) = realSample (seqOf U ω) n := by
      funext i
      have hp := fun i : Fin (n + 1) => psum_expOf (seqOf U ω) i
      simp only [zero_add]
      unfold realSample
      simpa [seqOf] using congrArg₂ (· / ·) (hp i.castSucc) (hp (Fin.last n))
    simp only [Set.mem_ofPred_eq, crossSet, this, mem_compl_iff, not_not]
  have hc := probReal_compl_eq_one_sub (μ := μ) (measurable_seqOf hU (crossSet_run n b B).measE)
  have e' : seqOf U ⁻¹' crossSet n b B = {ω | seqOf U ω ∈ crossSet n b B} := rfl
  rw [e', e, measureReal_def, h2, h1] at hc
  have : insideProb n b B = 1 - μ.real {ω | seqOf U ω ∈ crossSet n b B} := hc
  linarith

/-- Chebyshev's inequality. -/
theorem chebyshev {p : Ω → ℝ} (hm : Measurable p) (hb : ∀ ω, 0 ≤ p ω ∧ p ω ≤ 1) {c : ℝ} (hc : 0 < c) :
    μ.real {ω | c ≤ |p ω - ∫ ω, p ω ∂μ|} ≤ variance p μ / c ^ 2 := by
  have hL2 : MemLp p 2 μ := MemLp.of_bound hm.aestronglyMeasurable 1 (Filter.Eventually.of_forall fun ω => by
    rw [Real.norm_eq_abs, abs_of_nonneg (hb ω).1]; exact (hb ω).2)
  have h := meas_ge_le_variance_div_sq hL2 hc
  rw [measureReal_def]
  exact ENNReal.toReal_le_of_le_ofReal (div_nonneg (variance_nonneg _ _) (by positivity)) h

theorem frequency_range (q : ℕ → Prop) (N : ℕ) : 0 ≤ (countUpTo q N : ℝ) / N ∧ (countUpTo q N : ℝ) / N ≤ 1 := by
  refine ⟨by positivity, div_le_one_of_le₀ (by exact_mod_cast countUpTo_le q N) (by positivity)⟩

end

/-! ## The Poisson simulation -/

/-- Arrival times of the simulated process. -/
noncomputable def arr (lam : ℝ) (u : Draws) (k : ℕ) : ℝ := expSum u k / lam

/-- Exactly `K` arrivals up to time 1, and they stay inside. -/
def pathSet (lam : ℝ) (b B : List ℝ) (K : ℕ) : Set Draws :=
  {u | (∀ k, k < K → arr lam u (k + 1) ≤ 1) ∧ 1 < arr lam u (K + 1) ∧ StaysInside b B fun i : Fin K => arr lam u (i + 1)}

/-- Draws of a path that does not stay inside. -/
def pathCross (lam : ℝ) (b B : List ℝ) : Set Draws := {u | ¬ ∃ K, B.length ≤ K ∧ K ≤ b.length ∧ u ∈ pathSet lam b B K}

/-- Number of draws of a path. -/
noncomputable def pathLen (lam : ℝ) (m : ℕ) (u : Draws) : ℕ := pathDraws (fun k => XR.fin (arr lam u k)) m

theorem arr_congr (lam : ℝ) {u u' : Draws} {k : ℕ} (h : ∀ j, j < k → u j = u' j) : arr lam u k = arr lam u' k := by
  unfold arr; rw [expSum_congr h]

theorem measurable_arr (lam : ℝ) (k : ℕ) : Measurable fun u : Draws => arr lam u k := (measurable_expSum k).div_const _

theorem pathSet_dep (lam : ℝ) (b B : List ℝ) (K : ℕ) : Spec.DependsOn (K + 1) (pathSet lam b B K) := by
  intro u u' h
  have e : ∀ k, k ≤ K + 1 → arr lam u k = arr lam u' k := fun k hk => arr_congr lam fun j hj => h j (by omega)
  have e2 : (fun i : Fin K => arr lam u (i + 1)) = fun i : Fin K => arr lam u' (i + 1) := by
    funext i; exact e _ (by have := i.2; omega)
  unfold pathSet
  rw [Set.mem_ofPred_eq, Set.mem_ofPred_eq, e2, e _ le_rfl]
  refine and_congr_left fun _ => forall_congr' fun k => forall_congr' fun hk => ?_
  rw [e _ (by omega)]

theorem measurable_pathSet (lam : ℝ) (b B : List ℝ) (K : ℕ) : MeasurableSet (pathSet lam b B K) := by
  have : pathSet lam b B K = (⋂ k ∈ Finset.range K, {u | arr lam u (k + 1) ≤ 1}) ∩ ({u | 1 < arr lam u (K + 1)} ∩
      {u | StaysInside b B fun i : Fin K => arr lam u (i + 1)}) := by
    ext u
    simp [pathSet]
  rw [this]
  refine (Finset.measurableSet_biInter _ fun k _ => measurableSet_le (measurable_arr _ _) measurable_const).inter
    ((measurableSet_lt measurable_const (measurable_arr _ _)).inter ?_)
  have hm : Measurable fun u : Draws => fun i : Fin K => arr lam u (i + 1) := measurable_pi_iff.mpr fun i => measurable_arr _ _
  exact hm (measurable_StaysInside b B K)

theorem pathLen_eq (lam : ℝ) (m l : ℕ) (u : Draws) : pathLen lam m u = l ↔
    1 ≤ l ∧ l ≤ m + 1 ∧ (∀ k, k + 1 < l → arr lam u (k + 1) ≤ 1) ∧ (l ≤ m → 1 < arr lam u l) := by
  unfold pathLen pathDraws
  set p : ℕ → Bool := fun k => lt one (XR.fin (arr lam u (k + 1))) with hp
  have hpk : ∀ k, p k = true ↔ 1 < arr lam u (k + 1) := by intro k; simp [hp]
  have hle : (List.range m).findIdx p ≤ m := by
    have := List.findIdx_le_length (p := p) (xs := List.range m); simpa using this
  constructor
  · rintro rfl
    refine ⟨by omega, by omega, fun k hk => ?_, fun h => ?_⟩
    · have hk' : k < (List.range m).findIdx p := by omega
      have := List.not_of_lt_findIdx hk'
      rw [List.getElem_range] at this
      have h2 := hpk k
      rw [this] at h2
      simpa using h2
    · have hlt : (List.range m).findIdx p < (List.range m).length := by simp; omega
      have := List.findIdx_getElem (w := hlt)
      rw [List.getElem_range] at this
      exact (hpk _).mp this
  · rintro ⟨h1, h2, h3, h4⟩
    have : (List.range m).findIdx p = l - 1 := by
      by_cases hl : l ≤ m
      · rw [List.findIdx_eq (by simp; omega)]
        rw [List.getElem_range]
        refine ⟨(hpk _).mpr (by rw [show l - 1 + 1 = l by omega]; exact h4 hl), fun j hj => ?_⟩
        rw [List.getElem_range]
        have := h3 j (by omega)
        rw [← not_lt, ← hpk] at this
        simpa using this
      · have hall : ∀ x ∈ List.range m, p x = false := by
          intro x hx
          rw [List.mem_range] at hx
          have := h3 x (by omega)
          rw [← not_lt, ← hpk] at this
          simpa using this
        rw [List.findIdx_eq_length_of_false hall, List.length_range]
        omega
    omega

theorem pathSet_len {lam : ℝ} {b B : List ℝ} {K m : ℕ} (hK : K ≤ m) {u : Draws} (hu : u ∈ pathSet lam b B K) :
    pathLen lam m u = K + 1 :=
  (pathLen_eq lam m (K + 1) u).mpr ⟨by omega, by omega, fun k hk => hu.1 k (by omega), fun _ => hu.2.1⟩

theorem pathCross_run (lam : ℝ) (b B : List ℝ) :
    IsRun (pathLen lam b.length) (pathCross lam b B) (b.length + 1) := by
  have hdepL : ∀ l, Spec.DependsOn l {u | pathLen lam b.length u = l} := by
    intro l u u' h
    have e : ∀ k, k ≤ l → arr lam u k = arr lam u' k := fun k hk => arr_congr lam fun j hj => h j (by omega)
    rw [Set.mem_ofPred_eq, Set.mem_ofPred_eq, pathLen_eq, pathLen_eq, e l le_rfl]
    refine and_congr_right fun _ => and_congr_right fun _ => and_congr_left fun _ => forall_congr' fun k => forall_congr' fun hk => ?_
    rw [e _ (by omega)]
  refine ⟨fun u => ((pathLen_eq lam b.length _ u).mp rfl).2.1, fun l => ?_, hdepL, ?_, ?_⟩
  · by_cases h1 : 1 ≤ l ∧ l ≤ b.length + 1
    · have : {u | pathLen lam b.length u = l} = (⋂ k ∈ Finset.range (l - 1), {u | arr lam u (k + 1) ≤ 1}) ∩
          {u | l ≤ b.length → 1 < arr lam u l} := by
        ext u
        rw [Set.mem_ofPred_eq, pathLen_eq]
        simp only [mem_inter_iff, mem_iInter, Finset.mem_range, Set.mem_ofPred_eq]
        constructor
        · rintro ⟨-, -, h3, h4⟩; exact ⟨fun k hk => h3 k (by omega), h4⟩
        · rintro ⟨h3, h4⟩; exact ⟨h1.1, h1.2, fun k hk => h3 k (by omega), h4⟩
      rw [this]
      refine (Finset.measurableSet_biInter _ fun k _ => measurableSet_le (measurable_arr _ _) measurable_const).inter ?_
      by_cases hl : l ≤ b.length
      · simp only [hl, true_imp_iff]
        exact measurableSet_lt measurable_const (measurable_arr _ _)
      · simp [hl]
    · have : {u | pathLen lam b.length u = l} = ∅ := by
        ext u
        rw [Set.mem_ofPred_eq, pathLen_eq]
        simp only [mem_empty_iff_false, iff_false]
        rintro ⟨h, h', -⟩
        exact h1 ⟨h, h'⟩
      rw [this]; exact MeasurableSet.empty
  · have : pathCross lam b B = (⋃ K ∈ Finset.Icc B.length b.length, pathSet lam b B K)ᶜ := by
      ext u
      simp [pathCross, and_assoc]
    rw [this]
    exact (Finset.measurableSet_biUnion _ fun K _ => measurable_pathSet lam b B K).compl
  · have key : ∀ l (u u' : Draws), (∀ j, j < l → u j = u' j) → u ∈ pathCross lam b B ∩ {u | pathLen lam b.length u = l} →
        u' ∈ pathCross lam b B ∩ {u | pathLen lam b.length u = l} := by
      rintro l u u' h ⟨h1, h2⟩
      have h2' := (hdepL l u u' h).mp h2
      refine ⟨?_, h2'⟩
      rintro ⟨K, hK1, hK2, hu'⟩
      have hlen := pathSet_len hK2 hu'
      rw [Set.mem_ofPred_eq] at h2'
      have hl : l = K + 1 := by rw [← h2', hlen]
      subst hl
      exact h1 ⟨K, hK1, hK2, (pathSet_dep lam b B K u u' h).mpr hu'⟩
    intro l u u' h
    exact ⟨key l u u' h, key l u' u fun j hj => (h j hj).symm⟩

theorem poissonInside_iff (lam : ℝ) (b B : List ℝ) (u : Draws) :
    ¬ PoissonInside (fun k => XR.fin (arr lam u k)) (b.map .fin) (B.map .fin) ↔ u ∈ pathCross lam b B := by
  unfold pathCross
  rw [Set.mem_ofPred_eq]
  refine not_congr ?_
  unfold PoissonInside
  refine exists_congr fun K => ?_
  have hl : (List.range K).map (fun i => XR.fin (arr lam u (i + 1))) = toList fun i : Fin K => arr lam u (i + 1) := by
    unfold toList
    apply List.ext_getElem?
    intro i
    by_cases hi : i < K
    · rw [List.getElem?_map, List.getElem?_range hi, List.getElem?_ofFn, dif_pos hi]; rfl
    · rw [List.getElem?_eq_none (by simp; omega), List.getElem?_eq_none (by simp; omega)]
  rw [hl]
  simp only [List.length_map, XR.one_eq, XR.lt_fin, decide_eq_false_iff_not, not_lt, decide_eq_true_eq]
  constructor
  · rintro ⟨h1, h2, h3, h4⟩
    have hB : B.length ≤ K := by have := h4.1; simpa using this
    exact ⟨hB, h1, h2, h3, (inside_iff b B _ hB (Or.inr h1)).mp h4⟩
  · rintro ⟨hB, h1, h2, h3, h4⟩
    exact ⟨h1, h2, h3, (inside_iff b B _ hB (Or.inr h1)).mpr h4⟩

section
variable {Ω : Type*} [MeasurableSpace Ω] {μ : Measure Ω} [IsProbabilityMeasure μ] {U : ℕ → Ω → ℝ}

theorem pathSet_prob (hU : IidDraws U μ) {lam : ℝ} (hlam : 0 < lam) (b B : List ℝ) (K : ℕ) :
    μ.real {ω | seqOf U ω ∈ pathSet lam b B K} = Real.exp (-lam) * lam ^ K / (K.factorial : ℝ) * insideProb K b B := by
  have hA := measurable_StaysInside b B K
  have h1 := poisson_law K hlam _ hA
  set C : Set (Fin (K + 1) → ℝ) := {v | (∀ i : Fin K, psum (expOf v) i.castSucc / lam ≤ 1) ∧ 1 < psum (expOf v) (Fin.last K) / lam ∧
        (fun i : Fin K => psum (expOf v) i.castSucc / lam) ∈ {x : Fin K → ℝ | StaysInside b B x}} with hC
  have hq : ∀ i, Measurable fun v : Fin (K + 1) → ℝ => psum (expOf v) i / lam :=
    fun i => ((measurable_pi_apply i).comp (measurable_psum_expOf (K + 1))).div_const _
  have hCm : MeasurableSet C := by
    have : C = (⋂ i : Fin K, {v | psum (expOf v) i.castSucc / lam ≤ 1}) ∩ ({v | 1 < psum (expOf v) (Fin.last K) / lam} ∩
        (fun v => fun i : Fin K => psum (expOf v) i.castSucc / lam) ⁻¹' {x : Fin K → ℝ | StaysInside b B x}) := by
      ext v
      simp only [hC, Set.mem_ofPred_eq, mem_inter_iff, mem_iInter, mem_preimage]
    rw [this]
    refine (MeasurableSet.iInter fun i => measurableSet_le (hq _) measurable_const).inter
      ((measurableSet_lt measurable_const (hq _)).inter ?_)
    have hm : Measurable (fun (v : Fin (K + 1) → ℝ) => fun i : Fin K => psum (expOf v) i.castSucc / lam) :=
      measurable_pi_iff.mpr fun i => hq _
    exact hm hA
  have h2 := block_measure hU 0 (K + 1) hCm
  have e : {ω | seqOf U ω ∈ pathSet lam b B K} = {ω | (fun j : Fin (K + 1) => U (0 + j) ω) ∈ C} := by
    ext ω
    have hp : ∀ i : Fin (K + 1), psum (expOf fun j : Fin (K + 1) => U (0 + j) ω) i / lam = arr lam (seqOf U ω) (i + 1) := by
      intro i
      simp only [zero_add]
      unfold arr
      rw [← psum_expOf]
      rfl
    simp only [Set.mem_ofPred_eq, hC, hp, pathSet, Fin.val_castSucc, Fin.val_last]
    refine and_congr_left fun _ => ⟨fun h i => h i i.2, fun h k hk => h ⟨k, hk⟩⟩
  rw [measureReal_def, e, h2, h1, ENNReal.toReal_mul, ENNReal.toReal_ofReal (by positivity)]
  rfl

theorem pathCross_prob (hU : IidDraws U μ) {lam : ℝ} (hlam : 0 < lam) (b B : List ℝ) :
    μ.real {ω | seqOf U ω ∈ pathCross lam b B} = 1 - poissonInsideProb lam b B := by
  have hseq := measurable_seqOf hU
  have hc := probReal_compl_eq_one_sub (μ := μ) (hseq (pathCross_run lam b B).measE)
  have e : (seqOf U ⁻¹' pathCross lam b B)ᶜ = ⋃ K ∈ Finset.Icc B.length b.length, {ω | seqOf U ω ∈ pathSet lam b B K} := by
    ext ω
    simp [pathCross, and_assoc]
  rw [e, measureReal_biUnion_finset] at hc
  · have : poissonInsideProb lam b B = 1 - μ.real {ω | seqOf U ω ∈ pathCross lam b B} := by
      rw [poissonInsideProb, ← Finset.sum_congr rfl fun K _ => pathSet_prob hU hlam b B K]
      exact hc
    linarith
  · intro i hi j hj hij
    rw [Function.onFun, Set.disjoint_left]
    intro ω h1 h2
    have e1 := pathSet_len (m := max i j) (le_max_left _ _) h1
    have e2 := pathSet_len (m := max i j) (le_max_right _ _) h2
    omega
  · intro K _
    exact hseq (measurable_pathSet lam b B K)
end
end CP.Props
