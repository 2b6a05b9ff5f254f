import Verif.Proofs.MnsExact
/-
Properties C01-C05, C07-C13, C23, C24: the values returned in exact arithmetic (`XR`), with FFTW
computing its documented transforms (`ExactFFT`) and `std::sort` sorting (`SortContract`).
-/
open MeasureTheory Set
namespace CP.Props
open CP.Spec

/-- A boundary used in the examples: `1/10 <= 3/10`. -/
noncomputable def exb : Fin 2 → ℝ := ![1/10, 3/10]
/-- A boundary used in the examples: `1/2 <= 9/10`. -/
noncomputable def exB : Fin 2 → ℝ := ![1/2, 9/10]
/-- A boundary strongly crossing `exB2`. -/
noncomputable def exb2 : Fin 2 → ℝ := ![4/5, 9/10]
/-- See `exb2`. -/
noncomputable def exB2 : Fin 2 → ℝ := ![1/10, 3/10]

theorem valid2 {x y : ℝ} (h0 : 0 ≤ x) (h : x ≤ y) (h1 : y ≤ 1) : ValidBound ![x, y] := by
  refine ⟨?_, ?_⟩
  · intro i j hij
    fin_cases i <;> fin_cases j <;> simp_all
  · intro i
    fin_cases i
    · exact ⟨h0, h.trans h1⟩
    · exact ⟨h0.trans h, h1⟩

theorem exb_valid : ValidBound exb := valid2 (by norm_num) (by norm_num) (by norm_num)
theorem exB_valid : ValidBound exB := valid2 (by norm_num) (by norm_num) (by norm_num)
theorem exb2_valid : ValidBound exb2 := valid2 (by norm_num) (by norm_num) (by norm_num)
theorem exB2_valid : ValidBound exB2 := valid2 (by norm_num) (by norm_num) (by norm_num)

/-- The release environment (Python extension, `-DNDEBUG`) with an exact FFT. -/
noncomputable def relEnv : Env XR :=
  { asserts := false, fft := exactFFTW, junk := fun _ _ => XR.nan, junkC := fun _ _ => (XR.nan, XR.nan) }
/-- The Makefile environment (assertions on) with an exact FFT. -/
noncomputable def dbgEnv : Env XR := { relEnv with asserts := true }

/-- `b` and `B` are strongly crossed: `B_{i+1} < b_i` for some `i`. -/
def StronglyCrossed {n : ℕ} (b B : Fin n → ℝ) : Prop := ∃ i j : Fin n, (j : ℕ) = i + 1 ∧ B j < b i

/-! ## C01 -/

/-- C01: `ecdf2` returns the two-sided non-crossing probability, with or without FFT. -/
theorem C01_ecdf2 (env : Env XR) (hf : ExactFFT env.fft) {sort : List (Bound XR) → List (Bound XR)}
    (hsort : SortContract sort) {n : ℕ} {b B : Fin n → ℝ} (hb : ValidBound b) (hB : ValidBound B) (useFft : Bool)
    (ha : env.asserts = false ∨ ¬ StronglyCrossed b B) :
    ecdf2 env sort (toList b) (toList B) useFft = .ok (XR.fin (noncrossProb b B)) :=
  ecdf2_sat env hf hb hB hsort useFft ha

example (f : Bool) : ecdf2 relEnv mergeSortBounds [XR.fin (1/10), XR.fin (3/10)] [XR.fin (1/2), XR.fin (9/10)] f
    = .ok (XR.fin (noncrossProb exb exB)) := by
  have := C01_ecdf2 relEnv exactFFTW_exact mergeSortBounds_contract exb_valid exB_valid f (Or.inl rfl)
  simpa [toList, exb, exB] using this

/-- The specification is not degenerate: with one sample, `Pr[1/4 <= X <= 3/4] = 1/2`. -/
theorem noncrossProb_one (x y : ℝ) (h0 : 0 ≤ x) (h : x ≤ y) (h1 : y ≤ 1) :
    noncrossProb (fun _ : Fin 1 => x) (fun _ => y) = y - x := by
  unfold noncrossProb
  have e : {z : Fin 1 → ℝ | ∀ i, x ≤ orderStat z i ∧ orderStat z i ≤ y} = Set.pi Set.univ (fun _ => Icc x y) := by
    ext z
    simp only [Set.mem_ofPred_eq, Set.mem_pi, Set.mem_univ, true_implies, mem_Icc]
    refine forall_congr' fun i => ?_
    have : orderStat z i = z i := by
      unfold orderStat
      simp only [Function.comp]
      congr 1
      exact Subsingleton.elim _ _
    rw [this]
  rw [e, iid_pi]
  simp only [Finset.univ_unique, Finset.prod_const, Finset.card_singleton, pow_one]
  unfold Measure.real
  rw [Measure.restrict_apply measurableSet_Icc, Set.inter_eq_left.mpr, Real.volume_Icc,
    ENNReal.toReal_ofReal (by linarith)]
  intro z hz
  exact ⟨h0.trans hz.1, hz.2.trans h1⟩

example (f : Bool) : ecdf2 relEnv mergeSortBounds [XR.fin (1/4)] [XR.fin (3/4)] f = .ok (XR.fin (1/2)) := by
  have := C01_ecdf2 relEnv exactFFTW_exact mergeSortBounds_contract (b := fun _ : Fin 1 => 1/4) (B := fun _ => 3/4)
    ⟨fun _ _ _ => le_rfl, fun _ => ⟨by norm_num, by norm_num⟩⟩ ⟨fun _ _ _ => le_rfl, fun _ => ⟨by norm_num, by norm_num⟩⟩
    f (Or.inl rfl)
  rw [noncrossProb_one _ _ (by norm_num) (by norm_num) (by norm_num)] at this
  norm_num [toList] at this ⊢
  exact this

/-! ## C02, C03 -/

theorem sqrt_succ_le {n : ℕ} (h : 2 ≤ n) : Nat.sqrt n + 1 ≤ n := by
  have := Nat.sqrt_lt_self (n := n) (by omega)
  omega

/-- C02: `ecdf1_new_B` returns the upper one-sided probability. -/
theorem C02_ecdf1_new_B (env : Env XR) (hf : ExactFFT env.fft) {n : ℕ} (hn : 1 ≤ n) {B : Fin n → ℝ} (hB : ValidBound B)
    (ha : env.asserts = false ∨ 2 ≤ n) :
    ecdf1NewB env Nat.sqrt (toList B) = .ok (XR.fin (upperProb B)) :=
  ecdf1NewB_sat env hf hn hB Nat.sqrt (ha.imp id sqrt_succ_le)

example : ecdf1NewB dbgEnv Nat.sqrt (toList exB) = .ok (XR.fin (upperProb exB)) :=
  C02_ecdf1_new_B dbgEnv exactFFTW_exact (by norm_num) exB_valid (Or.inr le_rfl)

/-- C03: `ecdf1_new_b` returns the lower one-sided probability. -/
theorem C03_ecdf1_new_b (env : Env XR) (hf : ExactFFT env.fft) {n : ℕ} (hn : 1 ≤ n) {b : Fin n → ℝ} (hb : ValidBound b)
    (ha : env.asserts = false ∨ 2 ≤ n) :
    ecdf1Newb env Nat.sqrt (toList b) = .ok (XR.fin (lowerProb b)) :=
  ecdf1Newb_sat env hf hn hb Nat.sqrt (ha.imp id sqrt_succ_le)

example : ecdf1Newb dbgEnv Nat.sqrt (toList exb) = .ok (XR.fin (lowerProb exb)) :=
  C03_ecdf1_new_b dbgEnv exactFFTW_exact (by norm_num) exb_valid (Or.inr le_rfl)

/-! ## C04, C05, C24 -/

/-- C04: `ecdf1_mns2016_b` returns the lower one-sided probability (either build, any `n`). -/
theorem C04_ecdf1_mns2016_b (env : Env XR) {n : ℕ} {b : Fin n → ℝ} (hb : ValidBound b) :
    ecdf1Mns2016b env (toList b) = .ok (XR.fin (lowerProb b)) := mns_sat env _ hb

/-- C05: `ecdf1_mns2016_B` returns the upper one-sided probability (either build, any `n`). -/
theorem C05_ecdf1_mns2016_B (env : Env XR) {n : ℕ} {B : Fin n → ℝ} (hB : ValidBound B) :
    ecdf1Mns2016B env (toList B) = .ok (XR.fin (upperProb B)) := mnsB_sat env hB

example : ecdf1Mns2016b dbgEnv (toList exb) = .ok (XR.fin (lowerProb exb)) := C04_ecdf1_mns2016_b _ exb_valid
example : ecdf1Mns2016B dbgEnv (toList exB) = .ok (XR.fin (upperProb exB)) := C05_ecdf1_mns2016_B _ exB_valid

/-- C24: the result of `ecdf1_mns2016_b` does not depend on the exponents read at the rescaling
steps, whatever they are (`readExponent i x` is arbitrary). -/
theorem C24_rescaling_irrelevant (env : Env XR) (read1 read2 : Int → XR → Int) {n : ℕ} {b : Fin n → ℝ}
    (hb : ValidBound b) :
    ecdf1Mns2016bWith env read1 (toList b) = ecdf1Mns2016bWith env read2 (toList b) := by
  rw [mns_sat env read1 hb, mns_sat env read2 hb]

example : ecdf1Mns2016bWith dbgEnv (fun i _ => -5 - i) (toList exb) = ecdf1Mns2016b dbgEnv (toList exb) :=
  C24_rescaling_irrelevant _ _ _ exb_valid

/-! ## C07 -/

/-- C07 (lower boundary): all algorithms agree. -/
theorem C07_agree_lower (env : Env XR) (hf : ExactFFT env.fft) {sort : List (Bound XR) → List (Bound XR)}
    (hsort : SortContract sort) {n : ℕ} (hn : 1 ≤ n) {b : Fin n → ℝ} (hb : ValidBound b)
    (ha : env.asserts = false ∨ 2 ≤ n) (useFft : Bool) :
    ecdf1Newb env Nat.sqrt (toList b) = ecdf1Mns2016b env (toList b) ∧
    ecdf2 env sort (toList b) (List.replicate n (XR.fin 1)) useFft = ecdf1Mns2016b env (toList b) := by
  rw [C03_ecdf1_new_b env hf hn hb ha, C04_ecdf1_mns2016_b env hb]
  refine ⟨rfl, ?_⟩
  have e : List.replicate n (XR.fin 1) = toList (fun _ : Fin n => (1 : ℝ)) := by
    simp [toList, List.ofFn_const]
  rw [e, C01_ecdf2 env hf hsort hb ⟨fun _ _ _ => le_rfl, fun _ => ⟨zero_le_one, le_rfl⟩⟩, noncrossProb_ones fun _ => le_rfl]
  right
  rintro ⟨i, j, _, h⟩
  exact absurd (hb.range i).2 (not_le.mpr h)

/-- C07 (upper boundary): all algorithms agree. -/
theorem C07_agree_upper (env : Env XR) (hf : ExactFFT env.fft) {sort : List (Bound XR) → List (Bound XR)}
    (hsort : SortContract sort) {n : ℕ} (hn : 1 ≤ n) {B : Fin n → ℝ} (hB : ValidBound B)
    (ha : env.asserts = false ∨ 2 ≤ n) (useFft : Bool) :
    ecdf1NewB env Nat.sqrt (toList B) = ecdf1Mns2016B env (toList B) ∧
    ecdf2 env sort (List.replicate n (XR.fin 0)) (toList B) useFft = ecdf1Mns2016B env (toList B) := by
  rw [C02_ecdf1_new_B env hf hn hB ha, C05_ecdf1_mns2016_B env hB]
  refine ⟨rfl, ?_⟩
  have e : List.replicate n (XR.fin 0) = toList (fun _ : Fin n => (0 : ℝ)) := by
    simp [toList, List.ofFn_const]
  rw [e, C01_ecdf2 env hf hsort ⟨fun _ _ _ => le_rfl, fun _ => ⟨le_rfl, zero_le_one⟩⟩ hB, noncrossProb_zeros fun _ => le_rfl]
  right
  rintro ⟨i, j, _, h⟩
  exact absurd (hB.range j).1 (not_le.mpr h)

example : ecdf1Newb dbgEnv Nat.sqrt (toList exb) = ecdf1Mns2016b dbgEnv (toList exb) :=
  (C07_agree_lower dbgEnv exactFFTW_exact mergeSortBounds_contract (by norm_num) exb_valid (Or.inr le_rfl) true).1
example : ecdf2 relEnv mergeSortBounds (List.replicate 2 (XR.fin 0)) (toList exB) true
    = ecdf2 relEnv mergeSortBounds (List.replicate 2 (XR.fin 0)) (toList exB) false := by
  rw [(C07_agree_upper relEnv exactFFTW_exact mergeSortBounds_contract (by norm_num) exB_valid (Or.inl rfl) true).2,
    (C07_agree_upper relEnv exactFFTW_exact mergeSortBounds_contract (by norm_num) exB_valid (Or.inl rfl) false).2]

/-! ## C08 -/

/-- `x` is a number in `[0,1]`. -/
def IsProb (x : XR) : Prop := ∃ r : ℝ, x = XR.fin r ∧ 0 ≤ r ∧ r ≤ 1

theorem real_prob {n : ℕ} (s : Set (Fin n → ℝ)) : IsProb (XR.fin ((iidUniform n).real s)) :=
  ⟨_, rfl, measureReal_nonneg, measureReal_le_one⟩

/-- C08: whatever is returned on valid boundaries is a number in `[0,1]`. -/
theorem C08_probability (env : Env XR) (hf : ExactFFT env.fft) {sort : List (Bound XR) → List (Bound XR)}
    (hsort : SortContract sort) {n : ℕ} {b B : Fin n → ℝ} (hb : ValidBound b) (hB : ValidBound B) (x : XR) :
    (∀ useFft, ecdf2 env sort (toList b) (toList B) useFft = .ok x → IsProb x) ∧
    (1 ≤ n → env.asserts = false ∨ 2 ≤ n → ecdf1Newb env Nat.sqrt (toList b) = .ok x → IsProb x) ∧
    (1 ≤ n → env.asserts = false ∨ 2 ≤ n → ecdf1NewB env Nat.sqrt (toList B) = .ok x → IsProb x) ∧
    (ecdf1Mns2016b env (toList b) = .ok x → IsProb x) ∧
    (ecdf1Mns2016B env (toList B) = .ok x → IsProb x) := by
  refine ⟨?_, ?_, ?_, ?_, ?_⟩
  · intro f h
    by_cases ha : env.asserts = false ∨ ¬ StronglyCrossed b B
    · rw [C01_ecdf2 env hf hsort hb hB f ha] at h
      cases h
      exact real_prob _
    · have h1 : env.asserts = true := by
        cases hh : env.asserts
        · exact absurd (Or.inl hh) ha
        · rfl
      have h2 : StronglyCrossed b B := by
        by_contra hc; exact ha (Or.inr hc)
      rw [ecdf2_abort env hf h1 hb hB hsort f h2] at h
      cases h
  · intro h1 h2 h
    rw [C03_ecdf1_new_b env hf h1 hb h2] at h
    cases h; exact real_prob _
  · intro h1 h2 h
    rw [C02_ecdf1_new_B env hf h1 hB h2] at h
    cases h; exact real_prob _
  · intro h
    rw [C04_ecdf1_mns2016_b env hb] at h
    cases h; exact real_prob _
  · intro h
    rw [C05_ecdf1_mns2016_B env hB] at h
    cases h; exact real_prob _

example : ∃ x, ecdf2 relEnv mergeSortBounds (toList exb) (toList exB) true = .ok x ∧ IsProb x :=
  ⟨_, C01_ecdf2 relEnv exactFFTW_exact mergeSortBounds_contract exb_valid exB_valid true (Or.inl rfl),
   (C08_probability relEnv exactFFTW_exact mergeSortBounds_contract exb_valid exB_valid _).1 true
    (C01_ecdf2 relEnv exactFFTW_exact mergeSortBounds_contract exb_valid exB_valid true (Or.inl rfl))⟩

/-! ## C09 -/

theorem noncrossProb_mono {n : ℕ} {b b' B B' : Fin n → ℝ} (h1 : ∀ i, b' i ≤ b i) (h2 : ∀ i, B i ≤ B' i) :
    noncrossProb b B ≤ noncrossProb b' B' := by
  unfold noncrossProb
  apply measureReal_mono
  · intro x hx i
    exact ⟨(h1 i).trans (hx i).1, (hx i).2.trans (h2 i)⟩
  · exact measure_ne_top _ _

theorem lowerProb_anti {n : ℕ} {b b' : Fin n → ℝ} (h1 : ∀ i, b' i ≤ b i) : lowerProb b ≤ lowerProb b' := by
  unfold lowerProb
  apply measureReal_mono
  · intro x hx i; exact (h1 i).trans (hx i)
  · exact measure_ne_top _ _

theorem upperProb_mono {n : ℕ} {B B' : Fin n → ℝ} (h1 : ∀ i, B i ≤ B' i) : upperProb B ≤ upperProb B' := by
  unfold upperProb
  apply measureReal_mono
  · intro x hx i; exact (hx i).trans (h1 i)
  · exact measure_ne_top _ _

/-- C09 (`ecdf2`): relaxing the boundaries never lowers the returned number (for any two settings of
`use_fft`, any two environments and sorts). -/
theorem C09_monotone_ecdf2 (env env' : Env XR) (hf : ExactFFT env.fft) (hf' : ExactFFT env'.fft)
    {sort sort' : List (Bound XR) → List (Bound XR)} (hsort : SortContract sort) (hsort' : SortContract sort')
    {n : ℕ} {b b' B B' : Fin n → ℝ} (hb : ValidBound b) (hb' : ValidBound b') (hB : ValidBound B) (hB' : ValidBound B')
    (h1 : ∀ i, b' i ≤ b i) (h2 : ∀ i, B i ≤ B' i) (useFft useFft' : Bool) (p p' : ℝ)
    (hp : ecdf2 env sort (toList b) (toList B) useFft = .ok (XR.fin p))
    (hp' : ecdf2 env' sort' (toList b') (toList B') useFft' = .ok (XR.fin p')) : p ≤ p' := by
  have key : ∀ (env : Env XR) (_ : ExactFFT env.fft) (sort) (_ : SortContract sort) (b B : Fin n → ℝ) (_ : ValidBound b)
      (_ : ValidBound B) (f : Bool) (p : ℝ), ecdf2 env sort (toList b) (toList B) f = .ok (XR.fin p) →
      p = noncrossProb b B := by
    intro env hf sort hsort b B hb hB f p h
    by_cases ha : env.asserts = false ∨ ¬ StronglyCrossed b B
    · rw [C01_ecdf2 env hf hsort hb hB f ha] at h
      simpa using (Except.ok.inj h).symm
    · have h1 : env.asserts = true := by
        cases hh : env.asserts
        · exact absurd (Or.inl hh) ha
        · rfl
      have h2 : StronglyCrossed b B := by
        by_contra hc; exact ha (Or.inr hc)
      rw [ecdf2_abort env hf h1 hb hB hsort f h2] at h
      cases h
  rw [key env hf sort hsort b B hb hB _ _ hp, key env' hf' sort' hsort' b' B' hb' hB' _ _ hp']
  exact noncrossProb_mono h1 h2

/-- C09 (one-sided): lowering `b` or raising `B` never lowers the returned number. -/
theorem C09_monotone_one_sided (env : Env XR) (hf : ExactFFT env.fft) {n : ℕ} {b b' B B' : Fin n → ℝ} (hb : ValidBound b)
    (hb' : ValidBound b') (hB : ValidBound B) (hB' : ValidBound B') (h1 : ∀ i, b' i ≤ b i) (h2 : ∀ i, B i ≤ B' i) :
    (∃ p p', ecdf1Mns2016b env (toList b) = .ok (XR.fin p) ∧ ecdf1Mns2016b env (toList b') = .ok (XR.fin p') ∧ p ≤ p') ∧
    (∃ p p', ecdf1Mns2016B env (toList B) = .ok (XR.fin p) ∧ ecdf1Mns2016B env (toList B') = .ok (XR.fin p') ∧ p ≤ p') ∧
    (1 ≤ n → env.asserts = false ∨ 2 ≤ n →
      (∃ p p', ecdf1Newb env Nat.sqrt (toList b) = .ok (XR.fin p) ∧ ecdf1Newb env Nat.sqrt (toList b') = .ok (XR.fin p') ∧ p ≤ p') ∧
      (∃ p p', ecdf1NewB env Nat.sqrt (toList B) = .ok (XR.fin p) ∧ ecdf1NewB env Nat.sqrt (toList B') = .ok (XR.fin p') ∧ p ≤ p')) :=
  ⟨⟨_, _, C04_ecdf1_mns2016_b env hb, C04_ecdf1_mns2016_b env hb', lowerProb_anti h1⟩,
   ⟨_, _, C05_ecdf1_mns2016_B env hB, C05_ecdf1_mns2016_B env hB', upperProb_mono h2⟩,
   fun hn ha => ⟨⟨_, _, C03_ecdf1_new_b env hf hn hb ha, C03_ecdf1_new_b env hf hn hb' ha, lowerProb_anti h1⟩,
     ⟨_, _, C02_ecdf1_new_B env hf hn hB ha, C02_ecdf1_new_B env hf hn hB' ha, upperProb_mono h2⟩⟩⟩

/-- The hypotheses of C09 are satisfiable with two different pairs of boundaries. -/
example : ∃ b b' B B' : Fin 2 → ℝ, ValidBound b ∧ ValidBound b' ∧ ValidBound B ∧ ValidBound B' ∧ b ≠ b' ∧ B ≠ B' ∧
    (∀ i, b' i ≤ b i) ∧ (∀ i, B i ≤ B' i) ∧
    ∀ p p', ecdf2 relEnv mergeSortBounds (toList b) (toList B) true = .ok (XR.fin p) →
      ecdf2 relEnv mergeSortBounds (toList b') (toList B') false = .ok (XR.fin p') → p ≤ p' := by
  have v0 : ValidBound ![(0:ℝ), 1/5] := valid2 (by norm_num) (by norm_num) (by norm_num)
  have v1 : ValidBound ![(3/5:ℝ), 1] := valid2 (by norm_num) (by norm_num) (by norm_num)
  have h1 : ∀ i, ![(0:ℝ), 1/5] i ≤ exb i := by intro i; fin_cases i <;> norm_num [exb]
  have h2 : ∀ i, exB i ≤ ![(3/5:ℝ), 1] i := by intro i; fin_cases i <;> norm_num [exB]
  refine ⟨exb, ![0, 1/5], exB, ![3/5, 1], exb_valid, v0, exB_valid, v1, ?_, ?_, h1, h2, ?_⟩
  · intro h; have := congrFun h 0; norm_num [exb] at this
  · intro h; have := congrFun h 0; norm_num [exB] at this
  · intro p p' hp hp'
    exact C09_monotone_ecdf2 relEnv relEnv exactFFTW_exact exactFFTW_exact mergeSortBounds_contract
      mergeSortBounds_contract exb_valid v0 exB_valid v1 h1 h2 true false p p' hp hp'

/-! ## C13 -/

/-- C13: with assertions on, `ecdf2` aborts if and only if the boundaries are strongly crossed;
otherwise it returns the probability. -/
theorem C13_abort_iff (env : Env XR) (hf : ExactFFT env.fft) (hasr : env.asserts = true)
    {sort : List (Bound XR) → List (Bound XR)} (hsort : SortContract sort) {n : ℕ} {b B : Fin n → ℝ}
    (hb : ValidBound b) (hB : ValidBound B) (useFft : Bool) :
    ((∃ msg, ecdf2 env sort (toList b) (toList B) useFft = .error (.assertFailed msg)) ↔ StronglyCrossed b B) ∧
    (¬ StronglyCrossed b B →
      ecdf2 env sort (toList b) (toList B) useFft = .ok (XR.fin (noncrossProb b B))) := by
  refine ⟨⟨?_, fun h => ⟨_, ecdf2_abort env hf hasr hb hB hsort useFft h⟩⟩,
    fun h => C01_ecdf2 env hf hsort hb hB useFft (Or.inr h)⟩
  rintro ⟨msg, h⟩
  by_contra hc
  rw [C01_ecdf2 env hf hsort hb hB useFft (Or.inr hc)] at h
  cases h

example : StronglyCrossed exb2 exB2 := ⟨0, 1, rfl, by norm_num [exb2, exB2]⟩
example : ¬ StronglyCrossed exb exB := by
  rintro ⟨i, j, hij, h⟩
  fin_cases i <;> fin_cases j <;> simp at hij
  norm_num [exb, exB] at h
/-- Both cases occur: on valid boundaries the Makefile build really aborts. -/
example : ∃ msg, ecdf2 dbgEnv mergeSortBounds (toList exb2) (toList exB2) false = .error (.assertFailed msg) :=
  ((C13_abort_iff dbgEnv exactFFTW_exact rfl mergeSortBounds_contract exb2_valid exB2_valid false).1).mpr
    ⟨0, 1, rfl, by norm_num [exb2, exB2]⟩

/-! ## C10 -/

theorem stronglyCrossed_reflect {n : ℕ} (b B : Fin n → ℝ) : StronglyCrossed (reflect B) (reflect b) ↔ StronglyCrossed b B := by
  have key : ∀ b B : Fin n → ℝ, StronglyCrossed b B → StronglyCrossed (reflect B) (reflect b) := by
    rintro b B ⟨i, j, hij, h⟩
    refine ⟨j.rev, i.rev, ?_, ?_⟩
    · simp only [Fin.val_rev]; omega
    · simp only [reflect, Fin.rev_rev]; linarith
  refine ⟨fun h => ?_, key b B⟩
  have := key _ _ h
  rwa [reflect_reflect, reflect_reflect] at this

/-- C10: reflecting both boundaries (`x ↦ 1 - x`, reversed and exchanged) does not change the
outcome of `ecdf2`: same number, or an abort in both cases. -/
theorem C10_reflection (env : Env XR) (hf : ExactFFT env.fft) {sort : List (Bound XR) → List (Bound XR)}
    (hsort : SortContract sort) {n : ℕ} {b B : Fin n → ℝ} (hb : ValidBound b) (hB : ValidBound B) (f f' : Bool) :
    ecdf2 env sort (toList b) (toList B) f
      = ecdf2 env sort (toList fun i => 1 - B i.rev) (toList fun i => 1 - b i.rev) f' := by
  show _ = ecdf2 env sort (toList (reflect B)) (toList (reflect b)) f'
  by_cases ha : env.asserts = false ∨ ¬ StronglyCrossed b B
  · rw [C01_ecdf2 env hf hsort hb hB f ha, C01_ecdf2 env hf hsort (reflect_valid hB) (reflect_valid hb) f'
      (by rw [stronglyCrossed_reflect]; exact ha), noncrossProb_reflect]
  · have h1 : env.asserts = true := by
      cases hh : env.asserts
      · exact absurd (Or.inl hh) ha
      · rfl
    have h2 : StronglyCrossed b B := by
      by_contra hc; exact ha (Or.inr hc)
    rw [ecdf2_abort env hf h1 hb hB hsort f h2, ecdf2_abort env hf h1 (reflect_valid hB) (reflect_valid hb) hsort f'
      ((stronglyCrossed_reflect b B).mpr h2)]

example : ecdf2 relEnv mergeSortBounds (toList exb) (toList exB) true
    = ecdf2 relEnv mergeSortBounds (toList fun i => 1 - exB i.rev) (toList fun i => 1 - exb i.rev) false :=
  C10_reflection relEnv exactFFTW_exact mergeSortBounds_contract exb_valid exB_valid true false

/-! ## C11 -/

theorem lowerProb_zeros (n : ℕ) : lowerProb (fun _ : Fin n => (0:ℝ)) = 1 := by
  have h1 : (iidUniform n).real Set.univ = 1 := by simp
  have h2 : lowerProb (fun _ : Fin n => (0:ℝ)) = (iidUniform n).real Set.univ := by
    unfold lowerProb
    apply measureReal_congr
    filter_upwards [ae_mem (n := n)] with x hx
    apply propext
    show (∀ i, _) ↔ True
    simp only [iff_true]
    intro i
    exact (hx _).1
  rw [h2, h1]

theorem upperProb_ones (n : ℕ) : upperProb (fun _ : Fin n => (1:ℝ)) = 1 := by
  have e : reflect (fun _ : Fin n => (1:ℝ)) = fun _ => 0 := by funext i; simp [reflect]
  rw [upperProb_reflect, e, lowerProb_zeros n]

/-- C11: the trivial boundaries give exactly 1, with every algorithm. -/
theorem C11_trivial (env : Env XR) (hf : ExactFFT env.fft) {sort : List (Bound XR) → List (Bound XR)}
    (hsort : SortContract sort) (n : ℕ) :
    (∀ useFft, ecdf2 env sort (List.replicate n (XR.fin 0)) (List.replicate n (XR.fin 1)) useFft = .ok (XR.fin 1)) ∧
    ecdf1Mns2016b env (List.replicate n (XR.fin 0)) = .ok (XR.fin 1) ∧
    ecdf1Mns2016B env (List.replicate n (XR.fin 1)) = .ok (XR.fin 1) ∧
    (1 ≤ n → env.asserts = false ∨ 2 ≤ n →
      ecdf1Newb env Nat.sqrt (List.replicate n (XR.fin 0)) = .ok (XR.fin 1) ∧
      ecdf1NewB env Nat.sqrt (List.replicate n (XR.fin 1)) = .ok (XR.fin 1)) := by
  have e0 : List.replicate n (XR.fin 0) = toList (fun _ : Fin n => (0 : ℝ)) := by simp [toList, List.ofFn_const]
  have e1 : List.replicate n (XR.fin 1) = toList (fun _ : Fin n => (1 : ℝ)) := by simp [toList, List.ofFn_const]
  have v0 : ValidBound (fun _ : Fin n => (0 : ℝ)) := ⟨fun _ _ _ => le_rfl, fun _ => ⟨le_rfl, zero_le_one⟩⟩
  have v1 : ValidBound (fun _ : Fin n => (1 : ℝ)) := ⟨fun _ _ _ => le_rfl, fun _ => ⟨zero_le_one, le_rfl⟩⟩
  rw [e0, e1]
  refine ⟨fun f => ?_, ?_, ?_, fun hn ha => ⟨?_, ?_⟩⟩
  · rw [C01_ecdf2 env hf hsort v0 v1 f, noncrossProb_ones fun _ => le_rfl, lowerProb_zeros]
    right
    rintro ⟨i, j, _, h⟩
    exact absurd h (by norm_num)
  · rw [C04_ecdf1_mns2016_b env v0, lowerProb_zeros]
  · rw [C05_ecdf1_mns2016_B env v1, upperProb_ones]
  · rw [C03_ecdf1_new_b env hf hn v0 ha, lowerProb_zeros]
  · rw [C02_ecdf1_new_B env hf hn v1 ha, upperProb_ones]

example : ecdf2 dbgEnv mergeSortBounds (List.replicate 1000 (XR.fin 0)) (List.replicate 1000 (XR.fin 1)) true = .ok (XR.fin 1) :=
  (C11_trivial dbgEnv exactFFTW_exact mergeSortBounds_contract 1000).1 true

/-! ## C12 -/

/-- C12: if `b_i > B_i` for some `i`, `ecdf2` returns exactly 0 (assertions compiled out, or
compiled in and not tripped). -/
theorem C12_infeasible (env : Env XR) (hf : ExactFFT env.fft) {sort : List (Bound XR) → List (Bound XR)}
    (hsort : SortContract sort) {n : ℕ} {b B : Fin n → ℝ} (hb : ValidBound b) (hB : ValidBound B) (useFft : Bool)
    (ha : env.asserts = false ∨ ¬ StronglyCrossed b B) (i : Fin n) (h : B i < b i) :
    ecdf2 env sort (toList b) (toList B) useFft = .ok (XR.fin 0) := by
  rw [C01_ecdf2 env hf hsort hb hB useFft ha]
  have : noncrossProb b B = 0 := by
    unfold noncrossProb
    have e : {x : Fin n → ℝ | ∀ i, b i ≤ orderStat x i ∧ orderStat x i ≤ B i} = ∅ := by
      ext x
      simp only [Set.mem_ofPred_eq, Set.mem_empty_iff_false, iff_false]
      intro hx
      exact absurd ((hx i).1.trans (hx i).2) (not_le.mpr h)
    rw [e]; simp
  rw [this]

example : ecdf2 relEnv mergeSortBounds (toList exb2) (toList exB2) true = .ok (XR.fin 0) :=
  C12_infeasible relEnv exactFFTW_exact mergeSortBounds_contract exb2_valid exB2_valid true (Or.inl rfl) 0
    (by norm_num [exb2, exB2])

/-! ## C23 -/

/-- C23: the block size of `ecdf1_new` does not matter: for all block sizes `k, k' >= 1`, entry `n`
of the non-crossing vector is the same number. -/
theorem C23_block_size (env : Env XR) (hf : ExactFFT env.fft) {n : ℕ} (hn : 1 ≤ n)
    {B : Fin n → ℝ} (hB : ValidBound B) (k k' : ℕ) (hk : 1 ≤ k) (hk' : 1 ≤ k') (ha : env.asserts = false ∨ k ≤ n ∧ k' ≤ n) :
    ∃ v v' x, poissonBNoncrossingProbabilityN2 env n (XR.fin n) (toList B) k = .ok v ∧
      poissonBNoncrossingProbabilityN2 env n (XR.fin n) (toList B) k' = .ok v' ∧
      v[n]? = some x ∧ v'[n]? = some x := by
  have key := fun (j : ℕ) (hj : 1 ≤ j) (haj : env.asserts = false ∨ j ≤ n) => (newN2_exact (E := NoFault) env hf hn hj (by simp) (extB_mono hB)
    (extB_range hB 0).1 (fun i => (extB_range hB i).2) (fun i hi => has_toList B i hi) (haj.imp id Or.inl)).exists_ok
  obtain ⟨v, hv, h1⟩ := key k hk (ha.imp id And.left)
  obtain ⟨v', hv', h1'⟩ := key k' hk' (ha.imp id And.right)
  exact ⟨v, v', _, hv, hv', by simpa using h1.2, by simpa using h1'.2⟩

/-- C23 for the entry point: any rule for choosing the block size gives the same result. -/
theorem C23_block_rule (env : Env XR) (hf : ExactFFT env.fft) {n : ℕ} (hn : 1 ≤ n)
    {B : Fin n → ℝ} (hB : ValidBound B) (rule rule' : ℕ → ℕ) (ha : env.asserts = false ∨ rule n + 1 ≤ n ∧ rule' n + 1 ≤ n) :
    ecdf1NewB env rule (toList B) = ecdf1NewB env rule' (toList B) ∧
    ecdf1Newb env rule (toList B) = ecdf1Newb env rule' (toList B) := by
  rw [ecdf1NewB_sat env hf hn hB rule (ha.imp id And.left), ecdf1NewB_sat env hf hn hB rule' (ha.imp id And.right),
    ecdf1Newb_sat env hf hn hB rule (ha.imp id And.left), ecdf1Newb_sat env hf hn hB rule' (ha.imp id And.right)]
  exact ⟨rfl, rfl⟩

example : ecdf1NewB relEnv (fun _ => 0) (toList exB) = ecdf1NewB relEnv Nat.sqrt (toList exB) :=
  (C23_block_rule relEnv exactFFTW_exact (by norm_num) exB_valid _ _ (Or.inl rfl)).1

end CP.Props
