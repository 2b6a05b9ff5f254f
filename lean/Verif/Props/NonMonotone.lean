import Verif.Props.Validate
import Verif.Props.Python
/-
Property C55: boundaries that are not in order, among them the example of the module documentation.
-/
open MeasureTheory Set
namespace CP.Props
open CP.Spec

/-- The largest of `b_0, ..., b_i`. -/
noncomputable def runningMax {n : ℕ} (b : Fin n → ℝ) (i : Fin n) : ℝ := (Finset.Iic i).sup' ⟨i, by simp⟩ b
/-- The smallest of `B_i, ..., B_{n-1}`. -/
noncomputable def futureMin {n : ℕ} (B : Fin n → ℝ) (i : Fin n) : ℝ := (Finset.Ici i).inf' ⟨i, by simp⟩ B

theorem runningMax_valid {n : ℕ} {b : Fin n → ℝ} (h : ∀ i, b i ∈ Icc (0 : ℝ) 1) : ValidBound (runningMax b) := by
  refine ⟨fun i j hij => ?_, fun i => ⟨?_, ?_⟩⟩
  · exact Finset.sup'_mono b (Finset.Iic_subset_Iic.mpr hij) _
  · exact (h i).1.trans (Finset.le_sup' b (by simp))
  · exact Finset.sup'_le _ _ fun j _ => (h j).2

theorem futureMin_valid {n : ℕ} {B : Fin n → ℝ} (h : ∀ i, B i ∈ Icc (0 : ℝ) 1) : ValidBound (futureMin B) := by
  refine ⟨fun i j hij => ?_, fun i => ⟨?_, ?_⟩⟩
  · exact Finset.inf'_mono B (Finset.Ici_subset_Ici.mpr hij) _
  · exact Finset.le_inf' _ _ fun j _ => (h j).1
  · exact (Finset.inf'_le B (by simp)).trans (h i).2

theorem lower_event {n : ℕ} (b : Fin n → ℝ) (x : Fin n → ℝ) :
    (∀ i, runningMax b i ≤ orderStat x i) ↔ ∀ i, b i ≤ orderStat x i := by
  constructor
  · exact fun h i => (Finset.le_sup' b (by simp)).trans (h i)
  · intro h i
    refine Finset.sup'_le _ _ fun j hj => (h j).trans (orderStat_monotone x (by simpa using hj))

theorem upper_event {n : ℕ} (B : Fin n → ℝ) (x : Fin n → ℝ) :
    (∀ i, orderStat x i ≤ futureMin B i) ↔ ∀ i, orderStat x i ≤ B i := by
  constructor
  · exact fun h i => (h i).trans (Finset.inf'_le B (by simp))
  · intro h i
    refine Finset.le_inf' _ _ fun j hj => (orderStat_monotone x (by simpa using hj)).trans (h j)

theorem noNan_toList {n : ℕ} (b : Fin n → ℝ) : NoNan (toList b) := by
  intro x hx
  unfold toList at hx
  rw [List.mem_ofFn] at hx
  obtain ⟨i, rfl⟩ := hx
  exact fun h => by cases h

theorem ordered_toList {n : ℕ} (b : Fin n → ℝ) : Ordered (toList b) ↔ Monotone b := by
  unfold Ordered toList
  rw [List.pairwise_ofFn]
  constructor
  · intro h i j hij
    rcases hij.eq_or_lt with rfl | hij
    · exact le_rfl
    · have := h hij
      simpa [FOps.lt, XR.lt] using this
  · intro h i j hij
    have := h hij.le
    simpa [FOps.lt, XR.lt] using this

/-- C55: the five functions reject boundaries that are not in order, although the probability is well defined. -/
theorem C55_rejected (env : Env XR) (hf : ExactFFT env.fft) {sort : List (Bound XR) → List (Bound XR)}
    (hsort : SortContract sort) {n : ℕ} (b B : Fin n → ℝ) (h : ¬ (Monotone b ∧ Monotone B)) (useFft : Bool) :
    (∃ msg, ecdf2 env sort (toList b) (toList B) useFft = .error (.runtimeError msg)) ∧
    (∃ msg, pyEcdf2 env sort [.numbers (toList b), .numbers (toList B), .bool useFft] = .runtimeError msg) ∧
    (¬ Monotone b → (∃ msg, ecdf1Newb env Nat.sqrt (toList b) = .error (.runtimeError msg)) ∧
      ∃ msg, ecdf1Mns2016b env (toList b) = .error (.runtimeError msg)) ∧
    (¬ Monotone B → (∃ msg, ecdf1NewB env Nat.sqrt (toList B) = .error (.runtimeError msg)) ∧
      ∃ msg, ecdf1Mns2016B env (toList B) = .error (.runtimeError msg)) := by
  have key : ∀ c : Fin n → ℝ, ¬ Monotone c → ¬ ValidList (toList c) := fun c hc hv => hc ((ordered_toList c).mp hv.1)
  obtain ⟨msg, hm⟩ := (C14_ecdf2 env hf hsort (toList b) (toList B) (noNan_toList b) (noNan_toList B) useFft).1.mpr
    (fun hv => h ⟨(ordered_toList b).mp hv.2.1.1, (ordered_toList B).mp hv.2.2.1⟩)
  refine ⟨⟨msg, hm⟩, ⟨msg, ?_⟩, fun hb => ⟨?_, ?_⟩, fun hB => ⟨?_, ?_⟩⟩
  · show pyTry (ecdf2 env sort (toList b) (toList B) useFft) = _
    rw [hm]; rfl
  · exact (C14_new_b env hf _ (noNan_toList b)).mpr (key b hb)
  · exact (C14_mns2016_b env _ (noNan_toList b)).mpr (key b hb)
  · exact (C14_new_B env hf _ (noNan_toList B)).mpr (key B hB)
  · exact (C14_mns2016_B env _ (noNan_toList B)).mpr (key B hB)

/-- C55: replacing `b` by its running maximum and `B` by its running minimum from the right gives valid boundaries for which
`ecdf2` returns the probability of the original event. -/
theorem C55_monotonised (env : Env XR) (hf : ExactFFT env.fft) {sort : List (Bound XR) → List (Bound XR)}
    (hsort : SortContract sort) {n : ℕ} (b B : Fin n → ℝ) (hb : ∀ i, b i ∈ Icc (0 : ℝ) 1) (hB : ∀ i, B i ∈ Icc (0 : ℝ) 1)
    (useFft : Bool) (ha : env.asserts = false ∨ ¬ StronglyCrossed (runningMax b) (futureMin B)) :
    ecdf2 env sort (toList (runningMax b)) (toList (futureMin B)) useFft = .ok (XR.fin (noncrossProb b B)) := by
  rw [C01_ecdf2 env hf hsort (runningMax_valid hb) (futureMin_valid hB) useFft ha]
  have e : noncrossProb (runningMax b) (futureMin B) = noncrossProb b B := by
    unfold noncrossProb
    congr 1
    ext x
    show (∀ i, runningMax b i ≤ orderStat x i ∧ orderStat x i ≤ futureMin B i) ↔ ∀ i, b i ≤ orderStat x i ∧ orderStat x i ≤ B i
    rw [forall_and, forall_and, lower_event, upper_event]
  rw [e]

/-- C55: the same for the one-sided functions. -/
theorem C55_monotonised_one_sided (env : Env XR) (hf : ExactFFT env.fft) {n : ℕ} (hn : 1 ≤ n)
    (ha : env.asserts = false ∨ 2 ≤ n) (c : Fin n → ℝ) (hc : ∀ i, c i ∈ Icc (0 : ℝ) 1) :
    ecdf1Newb env Nat.sqrt (toList (runningMax c)) = .ok (XR.fin (lowerProb c)) ∧
    ecdf1Mns2016b env (toList (runningMax c)) = .ok (XR.fin (lowerProb c)) ∧
    ecdf1NewB env Nat.sqrt (toList (futureMin c)) = .ok (XR.fin (upperProb c)) ∧
    ecdf1Mns2016B env (toList (futureMin c)) = .ok (XR.fin (upperProb c)) := by
  have e1 : lowerProb (runningMax c) = lowerProb c := by
    unfold lowerProb
    congr 1
    ext x
    exact lower_event c x
  have e2 : upperProb (futureMin c) = upperProb c := by
    unfold upperProb
    congr 1
    ext x
    exact upper_event c x
  rw [C03_ecdf1_new_b env hf hn (runningMax_valid hc) ha, C04_ecdf1_mns2016_b env (runningMax_valid hc),
    C02_ecdf1_new_B env hf hn (futureMin_valid hc) ha, C05_ecdf1_mns2016_B env (futureMin_valid hc), e1, e2]
  exact ⟨rfl, rfl, rfl, rfl⟩

/-- The boundaries of the documented example (src/crossprob.i:39-43). -/
noncomputable def docb : Fin 3 → ℝ := ![0, 15 / 100, 1 / 2]
/-- See `docb`. -/
noncomputable def docB : Fin 3 → ℝ := ![7 / 10, 9 / 10, 8 / 10]

/-- C55: the example in the documentation of the Python module,
`ecdf2([0, 0.15, 0.5], [0.7, 0.9, 0.8], True)`, raises RuntimeError, because `0.9 > 0.8`; the probability it is said to compute
is returned by `ecdf2([0, 0.15, 0.5], [0.7, 0.8, 0.8], True)`. -/
theorem C55_documented_example (env : Env XR) (hasr : env.asserts = false) (hf : ExactFFT env.fft)
    {sort : List (Bound XR) → List (Bound XR)} (hsort : SortContract sort) :
    (∃ msg, pyEcdf2 env sort [.numbers [.fin 0, .fin (15 / 100), .fin (1 / 2)], .numbers [.fin (7 / 10), .fin (9 / 10), .fin (8 / 10)],
      .bool true] = .runtimeError msg) ∧
    pyEcdf2 env sort [.numbers [.fin 0, .fin (15 / 100), .fin (1 / 2)], .numbers [.fin (7 / 10), .fin (8 / 10), .fin (8 / 10)],
      .bool true] = .float (.fin ((iidUniform 3).real {x | orderStat x 0 ≤ 7 / 10 ∧ 15 / 100 ≤ orderStat x 1 ∧
        orderStat x 1 ≤ 9 / 10 ∧ 1 / 2 ≤ orderStat x 2 ∧ orderStat x 2 ≤ 8 / 10})) := by
  have eb : ([.fin 0, .fin (15 / 100), .fin (1 / 2)] : List XR) = toList docb := by simp [toList, docb]
  have eB : ([.fin (7 / 10), .fin (9 / 10), .fin (8 / 10)] : List XR) = toList docB := by simp [toList, docB]
  have d2 : docB 2 = 8 / 10 := rfl
  have hbr : ∀ i, docb i ∈ Icc (0 : ℝ) 1 := by
    intro i; fin_cases i <;> norm_num [docb]
  have hBr : ∀ i, docB i ∈ Icc (0 : ℝ) 1 := by
    intro i; fin_cases i <;> norm_num [docB]
  have hbm : Monotone docb := by
    intro i j hij
    fin_cases i <;> fin_cases j <;> first | (norm_num [docb]; done) | (exfalso; revert hij; decide)
  have eB' : ([.fin (7 / 10), .fin (8 / 10), .fin (8 / 10)] : List XR) = toList (futureMin docB) := by
    have h0 : futureMin docB 0 = 7 / 10 := by
      unfold futureMin
      refine le_antisymm ((Finset.inf'_le docB (b := 0) (by simp)).trans (by norm_num [docB])) (Finset.le_inf' _ _ ?_)
      intro j _; fin_cases j <;> norm_num [docB]
    have h1 : futureMin docB 1 = 8 / 10 := by
      unfold futureMin
      refine le_antisymm ((Finset.inf'_le docB (b := 2) (by simp [Fin.le_def])).trans (le_of_eq d2)) (Finset.le_inf' _ _ ?_)
      intro j hj
      fin_cases j
      · simp at hj
      · norm_num [docB]
      · norm_num [docB]
    have h2 : futureMin docB 2 = 8 / 10 := by
      unfold futureMin
      refine le_antisymm ((Finset.inf'_le docB (b := 2) (by simp)).trans (le_of_eq d2)) (Finset.le_inf' _ _ ?_)
      intro j hj
      fin_cases j
      · simp at hj
      · simp [Fin.le_def] at hj
      · norm_num [docB]
    unfold toList
    simp [List.ofFn_succ, h0, h1]
    exact h2.symm
  constructor
  · rw [eb, eB]
    refine (C55_rejected env hf hsort docb docB (fun h => ?_) true).2.1
    have := h.2 (show (1 : Fin 3) ≤ 2 by decide)
    rw [d2, show docB 1 = 9 / 10 from rfl] at this
    norm_num at this
  · have e : runningMax docb = docb := by
      funext i
      unfold runningMax
      exact le_antisymm (Finset.sup'_le _ _ fun j hj => hbm (by simpa using hj)) (Finset.le_sup' docb (by simp))
    have h := C55_monotonised env hf hsort docb docB hbr hBr true (Or.inl hasr)
    rw [e] at h
    rw [eb, eB']
    show pyTry (ecdf2 env sort (toList docb) (toList (futureMin docB)) true) = _
    rw [h]
    show PyResult.float (XR.fin (noncrossProb docb docB)) = _
    congr 2
    unfold noncrossProb
    refine measureReal_congr ?_
    filter_upwards [ae_mem (n := 3)] with x hx
    have hx0 : 0 ≤ orderStat x 0 := (hx _).1
    refine propext ?_
    show (∀ i, docb i ≤ orderStat x i ∧ orderStat x i ≤ docB i) ↔ (orderStat x 0 ≤ 7 / 10 ∧ 15 / 100 ≤ orderStat x 1 ∧
        orderStat x 1 ≤ 9 / 10 ∧ 1 / 2 ≤ orderStat x 2 ∧ orderStat x 2 ≤ 8 / 10)
    rw [Fin.forall_fin_succ, Fin.forall_fin_succ, Fin.forall_fin_succ]
    simp only [IsEmpty.forall_iff, and_true]
    constructor
    · rintro ⟨⟨-, h1⟩, ⟨h2, h3⟩, h4, h5⟩
      exact ⟨h1, h2, h3, h4, h5⟩
    · rintro ⟨h1, h2, h3, h4, h5⟩
      exact ⟨⟨hx0, h1⟩, ⟨h2, h3⟩, h4, h5⟩

/-- The environment of the examples meets the hypotheses. -/
example : ∃ msg, pyEcdf2 relEnv mergeSortBounds [.numbers [.fin 0, .fin (15 / 100), .fin (1 / 2)],
    .numbers [.fin (7 / 10), .fin (9 / 10), .fin (8 / 10)], .bool true] = .runtimeError msg :=
  (C55_documented_example relEnv rfl exactFFTW_exact mergeSortBounds_contract).1

end CP.Props
