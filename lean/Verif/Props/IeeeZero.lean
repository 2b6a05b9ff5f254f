import Verif.Props.SmallFft
import Verif.Props.FastProgram
import Verif.Props.Exact
/-
Property C12, continued: boundaries that leave no room give exactly 0, also in IEEE-754 double precision (no rounding residue), with the
compiler flags of the project, and in what the program prints.
-/
open MeasureTheory Set
namespace CP.Props
open CP.Spec FOps
noncomputable section

variable {A : FloatSystem}

/-- If the `i`-th order statistic is confined to a point or to nothing, the probability is zero. -/
theorem noncross_closed {n : ℕ} {b B : Fin n → ℝ} (i : Fin n) (h : B i ≤ b i) : noncrossProb b B = 0 := by
  have hP : 0 ≤ noncrossProb b B := measureReal_nonneg
  refine le_antisymm (le_of_forall_pos_le_add fun ε hε => ?_) hP
  have hn : (0 : ℝ) < n := by exact_mod_cast i.pos
  have h0 : noncrossProb b (Function.update B i (B i - ε / n)) = 0 := by
    unfold noncrossProb
    have e : {x : Fin n → ℝ | ∀ j, b j ≤ orderStat x j ∧ orderStat x j ≤ Function.update B i (B i - ε / n) j} = ∅ := by
      ext x
      simp only [Set.mem_ofPred_eq, Set.mem_empty_iff_false, iff_false]
      intro hx
      have h1 := (hx i).1.trans (hx i).2
      rw [Function.update_self] at h1
      have : 0 < ε / n := by positivity
      linarith
    rw [e]; simp
  have hl := noncross_lipschitz b B b (Function.update B i (B i - ε / n))
  rw [h0, sub_zero, abs_of_nonneg hP] at hl
  have hs : ∑ j, (|b j - b j| + |B j - Function.update B i (B i - ε / n) j|) = ε / n := by
    rw [Finset.sum_eq_single i]
    · rw [Function.update_self, sub_self, abs_zero, zero_add, sub_sub_cancel, abs_of_nonneg (by positivity)]
    · intro j _ hj
      rw [Function.update_of_ne hj, sub_self, sub_self, abs_zero, add_zero]
    · intro hi
      exact absurd (Finset.mem_univ i) hi
  rw [hs, mul_div_cancel₀ _ hn.ne'] at hl
  linarith

/-- C12, the degenerate case included: if `b_i ≥ B_i` for some `i`, `ecdf2` returns exactly 0 (exact arithmetic; assertions compiled out,
or compiled in and not tripped). -/
theorem C12_degenerate (env : Env XR) (hf : ExactFFT env.fft) {sort : List (Bound XR) → List (Bound XR)}
    (hsort : SortContract sort) {n : ℕ} {b B : Fin n → ℝ} (hb : ValidBound b) (hB : ValidBound B) (useFft : Bool)
    (ha : env.asserts = false ∨ ¬ StronglyCrossed b B) (i : Fin n) (h : B i ≤ b i) :
    ecdf2 env sort (toList b) (toList B) useFft = .ok (XR.fin 0) := by
  rw [C01_ecdf2 env hf hsort hb hB useFft ha, noncross_closed i h]

/-- C12 in IEEE-754 double precision: up to 1000 points, `ecdf2` without FFT, on boundaries (of doubles) with `b_i ≥ B_i` for some `i`,
returns a zero: not a small number, not NaN. -/
theorem C12_double (hf : A.f = binary64) {n : ℕ} (hn' : n ≤ 1000) (hL : LibmAccurate A u50 n)
    (env : Env (Num A)) {b B : Fin n → Num A} (hbf : ∀ i, (b i).finite) (hBf : ∀ i, (B i).finite)
    (hb : ValidBound fun i => (b i).val) (hB : ValidBound fun i => (B i).val)
    {sort : List (Bound (Num A)) → List (Bound (Num A))} (hperm : ∀ l, (sort l).Perm l)
    (hsorted : ∀ l, (∀ x ∈ l, x.location.finite) → (sort l).Pairwise fun x y => lt y.location x.location = false)
    (ha : env.asserts = false ∨ ¬ StronglyCrossed (fun i => (b i).val) (fun i => (B i).val)) (i : Fin n) (h : (B i).val ≤ (b i).val) :
    ∃ x : Num A, ecdf2 env sort (List.ofFn b) (List.ofFn B) false = .ok x ∧ x.finite ∧ x.val = 0 := by
  obtain ⟨x, hx, hxf, -, -, h0⟩ := C61_double_1000 hf i.pos hn' hL env hbf hBf hb hB hperm hsorted ha
  exact ⟨x, hx, hxf, h0 (noncross_closed i h)⟩

/-- C12 in double precision, with FFT (any FFT library: it is not used for up to 126 points). -/
theorem C12_double_fft (hf : A.f = binary64) {n : ℕ} (hn' : n ≤ 126) (hL : LibmAccurate A u50 n)
    (env : Env (Num A)) {b B : Fin n → Num A} (hbf : ∀ i, (b i).finite) (hBf : ∀ i, (B i).finite)
    (hb : ValidBound fun i => (b i).val) (hB : ValidBound fun i => (B i).val)
    {sort : List (Bound (Num A)) → List (Bound (Num A))} (hperm : ∀ l, (sort l).Perm l)
    (hsorted : ∀ l, (∀ x ∈ l, x.location.finite) → (sort l).Pairwise fun x y => lt y.location x.location = false)
    (ha : env.asserts = false ∨ ¬ StronglyCrossed (fun i => (b i).val) (fun i => (B i).val)) (i : Fin n) (h : (B i).val ≤ (b i).val) :
    ∃ x : Num A, ecdf2 env sort (List.ofFn b) (List.ofFn B) true = .ok x ∧ x.finite ∧ x.val = 0 := by
  rw [C62_ecdf2_same env hperm _ _ (by rw [List.length_ofFn]; exact hn')]
  exact C12_double hf (by omega) hL env hbf hBf hb hB hperm hsorted ha i h

/-- C12 in double precision and with the compiler flags of the project (`-Ofast`: reassociation, contraction, reciprocals): still a zero. -/
theorem C12_double_fast_math (hf : A.f = binary64) {c : FastCode (Num A)} (hc : FastIeee A u50 c) {e : ℕ} (hleg : FastCode.Legal c e)
    (he : e ≤ 1000) {n : ℕ} (hn' : n ≤ 1000) (hL : LibmAccurate A u50 n)
    (env : Env (Num A)) {b B : Fin n → Num A} (hbf : ∀ i, (b i).finite) (hBf : ∀ i, (B i).finite)
    (hb : ValidBound fun i => (b i).val) (hB : ValidBound fun i => (B i).val)
    {sort : List (Bound (Num A)) → List (Bound (Num A))} (hperm : ∀ l, (sort l).Perm l)
    (hsorted : ∀ l, (∀ x ∈ l, x.location.finite) → (sort l).Pairwise fun x y => lt y.location x.location = false)
    (ha : env.asserts = false ∨ ¬ StronglyCrossed (fun i => (b i).val) (fun i => (B i).val)) (i : Fin n) (h : (B i).val ≤ (b i).val) :
    ∃ x : Num A, ecdf2Fast c env sort (List.ofFn b) (List.ofFn B) false = .ok x ∧ x.finite ∧ x.val = 0 := by
  obtain ⟨x, hx, hxf, -, -, h0⟩ := C66_double_1000 hf hc hleg he i.pos hn' hL env hbf hBf hb hB hperm hsorted ha
  exact ⟨x, hx, hxf, h0 (noncross_closed i h)⟩

/-- A computed zero is printed as `0` or `-0`. -/
theorem run_prints_zero {w : World (Num A)} {fmt : Num A → Str} (hprint : PrintSpec fmt Num.real?) (ioWhat : Str) {args : List Str} {x : Num A}
    (hx : x.finite) (h0 : x.val = 0) (h : crossprobMain w args = .printed x) :
    crossprobRun w fmt ioWhat args = .exited 0 "0\n".toList ∨ crossprobRun w fmt ioWhat args = .exited 0 "-0\n".toList := by
  have key := C59_output w fmt ioWhat args
  rw [h] at key
  dsimp only at key
  obtain ⟨a, ha, rfl⟩ := hx
  have : a = 0 := h0
  subst this
  rcases hprint.zero (mkNum A 0 ha) rfl with e | e
  · left; rw [e] at key; exact key
  · right; rw [e] at key; exact key

/-- C12, the whole program in double precision: a file whose two lines are the decimal numbers of two valid boundaries (up to 1000 points
for `ecdf2-ks2001`, up to 126 for `ecdf2-mn2017`) with `b_i ≥ B_i` for some `i`: the program prints a zero and exits with 0. -/
theorem C12_program (w : World (Num A)) {fmt : Num A → Str} {inRange : ℝ → Prop} {n : ℕ} (hM : DoubleMachine w fmt inRange n)
    (ioWhat : Str) (fb fB : Fin n → Field) (hfb : ∀ i, (fb i).WF) (hfB : ∀ i, (fB i).WF)
    (hinb : ∀ i, inRange (fb i).num.value) (hinB : ∀ i, inRange (fB i).num.value)
    (hb : ValidBound (valuesOf fb)) (hB : ValidBound (valuesOf fB))
    (ha : w.env.asserts = false ∨ ¬ StronglyCrossed (valuesOf fb) (valuesOf fB))
    (name text : Str) (hfile : w.fs name = .contents text) (hlines : FirstTwoLines text (lineOf fb) (lineOf fB))
    (i : Fin n) (h : valuesOf fB i ≤ valuesOf fb i)
    {command : Str} (hc : command = "ecdf2-ks2001".toList ∧ n ≤ 1000 ∨ command = "ecdf2-mn2017".toList ∧ n ≤ 126) :
    crossprobRun w fmt ioWhat [command, name] = .exited 0 "0\n".toList ∨ crossprobRun w fmt ioWhat [command, name] = .exited 0 "-0\n".toList := by
  obtain ⟨b1, b2, b3, -⟩ := double_read (A := A) hM.format hb
  obtain ⟨B1, B2, B3, -⟩ := double_read (A := A) hM.format hB
  have hle : (roundNum A (valuesOf fB i)).val ≤ (roundNum A (valuesOf fb i)).val := by
    rw [b2, B2]; exact nearest_mono A.nearest h
  have ha' := ha.imp id (not_crossed (A := A) hM.format hb hB)
  have hr := read_file hM.strtod fb fB hfb hfB hinb hinB hfile hlines
  rcases hc with ⟨rfl, hn⟩ | ⟨rfl, hn⟩
  · obtain ⟨x, hx, hxf, h0⟩ := C12_double hM.format hn hM.libm w.env b1 B1 b3 B3 hM.sortPerm hM.sortSorted ha' i hle
    refine run_prints_zero hM.print ioWhat hxf h0 ((C26_printed w _ x).mpr ⟨_, _, _, _, rfl, hr, ?_⟩)
    exact Or.inr (Or.inr (Or.inl ⟨rfl, _, _, Or.inl ⟨by simp, rfl, rfl⟩, hx.symm⟩))
  · obtain ⟨x, hx, hxf, h0⟩ := C12_double_fft hM.format hn hM.libm w.env b1 B1 b3 B3 hM.sortPerm hM.sortSorted ha' i hle
    refine run_prints_zero hM.print ioWhat hxf h0 ((C26_printed w _ x).mpr ⟨_, _, _, _, rfl, hr, ?_⟩)
    exact Or.inr (Or.inr (Or.inr ⟨rfl, _, _, Or.inl ⟨by simp, rfl, rfl⟩, hx.symm⟩))

/-! ### The hypotheses can be met -/

theorem closed_file : (∀ i, (![tenth '1', tenth '3'] i).WF) ∧ (∀ i, (![tenth '2', tenth '3'] i).WF) ∧
    ValidBound (valuesOf ![tenth '1', tenth '3']) ∧ ValidBound (valuesOf ![tenth '2', tenth '3']) ∧
    valuesOf ![tenth '2', tenth '3'] 1 ≤ valuesOf ![tenth '1', tenth '3'] 1 ∧
    FirstTwoLines "0.1,0.3\n0.2,0.3\n".toList (lineOf ![tenth '1', tenth '3']) (lineOf ![tenth '2', tenth '3']) := by
  have e : valuesOf ![tenth '2', tenth '3'] = ![2 / 10, 3 / 10] := by
    funext i
    fin_cases i
    · exact (tenth_value (d := '2') (k := 2) (by decide)).trans (by norm_num)
    · exact (tenth_value (d := '3') (k := 3) (by decide)).trans (by norm_num)
  refine ⟨by intro i; fin_cases i <;> exact tenth_wf rfl, by intro i; fin_cases i <;> exact tenth_wf rfl, ex_low ▸ exb_valid, ?_, le_rfl, ?_⟩
  · rw [e]
    constructor
    · intro i j hij
      fin_cases i <;> fin_cases j <;> simp at hij ⊢ <;> norm_num
    · intro i
      fin_cases i <;> norm_num
  · have e1 : lineOf ![tenth '1', tenth '3'] = "0.1,0.3".toList := by decide
    have e2 : lineOf ![tenth '2', tenth '3'] = "0.2,0.3".toList := by decide
    rw [e1, e2]
    exact ⟨by decide, by decide, Or.inl ⟨[], rfl⟩⟩

/-- `0.1,0.3` / `0.2,0.3`: the second order statistic is confined to a point.  The program prints zero, with and without FFT. -/
example (command : Str) (hc : command = "ecdf2-ks2001".toList ∨ command = "ecdf2-mn2017".toList) :
    crossprobRun (doubleWorld "0.1,0.3\n0.2,0.3\n".toList) doublePrint [] [command, "bounds.txt".toList] = .exited 0 "0\n".toList ∨
    crossprobRun (doubleWorld "0.1,0.3\n0.2,0.3\n".toList) doublePrint [] [command, "bounds.txt".toList] = .exited 0 "-0\n".toList := by
  obtain ⟨h1, h2, h3, h4, h5, h6⟩ := closed_file
  exact C12_program (doubleWorld "0.1,0.3\n0.2,0.3\n".toList) (doubleWorld_ok _ (by norm_num)) [] _ _ h1 h2 (fun _ => trivial) (fun _ => trivial)
    h3 h4 (Or.inl rfl) "bounds.txt".toList "0.1,0.3\n0.2,0.3\n".toList (by unfold doubleWorld; dsimp only; rw [if_pos rfl]) h6 1 h5
    (hc.imp (fun h => ⟨h, by norm_num⟩) (fun h => ⟨h, by norm_num⟩))

/-- A thousand points, all required to be exactly one half: zero, in ordinary code and in vectorized code with fused multiply-add. -/
example (env : Env (Num doubles)) (ha : env.asserts = false) :
    (∃ x : Num doubles, ecdf2 env ieeeSort (List.ofFn fun _ : Fin 1000 => roundNum doubles (1 / 2))
        (List.ofFn fun _ : Fin 1000 => roundNum doubles (1 / 2)) false = .ok x ∧ x.finite ∧ x.val = 0) ∧
    ∃ x : Num doubles, ecdf2Fast (twoLanes (exactFma doubles)) env ieeeSort (List.ofFn fun _ : Fin 1000 => roundNum doubles (1 / 2))
        (List.ofFn fun _ : Fin 1000 => roundNum doubles (1 / 2)) false = .ok x ∧ x.finite ∧ x.val = 0 := by
  have hv : ValidBound (fun _ : Fin 1000 => (1 / 2 : ℝ)) := ⟨fun _ _ _ => le_rfl, fun _ => by norm_num⟩
  obtain ⟨b1, -, b3, -⟩ := double_read (A := doubles) rfl hv
  have hs := ieeeSort_contract (double_ok (A := doubles) rfl)
  exact ⟨C12_double rfl (by norm_num) (doubles_libm u50_ge (by norm_num)) env b1 b1 b3 b3 hs.perm hs.sorted (Or.inl ha) 0 le_rfl,
    C12_double_fast_math rfl twoLanes_ieee (twoLanes_legal _) (by norm_num) (by norm_num) (doubles_libm u50_ge (by norm_num)) env b1 b1 b3 b3
      hs.perm hs.sorted (Or.inl ha) 0 le_rfl⟩

example : ecdf2 relEnv mergeSortBounds (toList exb) (toList exb) true = .ok (XR.fin 0) :=
  C12_degenerate relEnv exactFFTW_exact mergeSortBounds_contract exb_valid exb_valid true (Or.inl rfl) 0 le_rfl

end
end CP.Props
