import Verif.Proofs.Oom
import Verif.Props.Exact
import Verif.Props.Cli
/-!
Property C78: running out of memory.  In `Model/Oom.lean` any allocation of the computation may be refused, in any combination:
`std::vector` then throws `std::bad_alloc`, and `_mm_malloc` returns `NULL`, which the code never checks.
-/
namespace CP.Props
open CP CP.Spec CP.OomP FOps
set_option linter.unusedVariables false
set_option linter.unusedSectionVars false
variable {F : Type} [FOps F]

/-! ## Specification -/

/-- Compared with the run that got all its memory (`m`), the run `m'` did the same, or ended with `std::bad_alloc`, or made an
invalid memory access (through a null pointer). -/
def SameOrDies {α : Type} (m m' : M α) : Prop :=
  m' = m ∨ m' = .error (.uncaught "std::bad_alloc") ∨ ∃ what, m' = .error (.ub what)

/-- Every `std::vector` gets its memory. -/
def VectorsFine (o : Oom) : Prop := ∀ i, o.vec i = false

theorem sameOrDies_of {α : Type} {m m' : M α} (h : CrashOr (fun x y => y = x) m m') : SameOrDies m m' := by
  rcases h with (⟨w, h⟩ | h) | ⟨a, b, h1, h2, rfl⟩ | ⟨e, h1, h2⟩
  · exact Or.inr (Or.inr ⟨w, h⟩)
  · exact Or.inr (Or.inl h)
  · exact Or.inl (h2.trans h1.symm)
  · exact Or.inl (h2.trans h1.symm)

/-! ## The five functions -/

/-- C78: whichever allocations fail, `ecdf2` does what it does with enough memory, or dies. -/
theorem C78_ecdf2 (o : Oom) (env : Env F) (sort : List (Bound F) → List (Bound F)) (b B : List F) (useFft : Bool) :
    SameOrDies (ecdf2 env sort b B useFft) (ecdf2O o env sort b B useFft) := sameOrDies_of (ecdf2_crash o env sort b B useFft)

/-- C78: the same for `ecdf1_new_B`. -/
theorem C78_new_B (o : Oom) (env : Env F) (isqrt : ℕ → ℕ) (B : List F) :
    SameOrDies (ecdf1NewB env isqrt B) (ecdf1NewBO o env isqrt B) := sameOrDies_of (newB_crash o env isqrt B)

/-- C78: the same for `ecdf1_new_b`. -/
theorem C78_new_b (o : Oom) (env : Env F) (isqrt : ℕ → ℕ) (b : List F) :
    SameOrDies (ecdf1Newb env isqrt b) (ecdf1NewbO o env isqrt b) := sameOrDies_of (newb_crash o env isqrt b)

/-- C78: the same for `ecdf1_mns2016_b`. -/
theorem C78_mns_b (o : Oom) (env : Env F) (b : List F) :
    SameOrDies (ecdf1Mns2016b env b) (ecdf1Mns2016bO o env b) := sameOrDies_of (mnsb_crash o env b)

/-- C78: the same for `ecdf1_mns2016_B`. -/
theorem C78_mns_B (o : Oom) (env : Env F) (B : List F) :
    SameOrDies (ecdf1Mns2016B env B) (ecdf1Mns2016BO o env B) := sameOrDies_of (mnsB_crash o env B)

/-- C78: with exact arithmetic, a number returned by `ecdf2` is the probability, however much memory was refused. -/
theorem C78_probability (o : Oom) (env : Env XR) (hf : ExactFFT env.fft) {sort : List (Bound XR) → List (Bound XR)}
    (hs : SortContract sort) {n : ℕ} {b B : Fin n → ℝ} (hb : ValidBound b) (hB : ValidBound B) (useFft : Bool)
    (ha : env.asserts = false ∨ ¬ StronglyCrossed b B) (x : XR)
    (h : ecdf2O o env sort (toList b) (toList B) useFft = .ok x) : x = XR.fin (noncrossProb b B) := by
  rcases C78_ecdf2 o env sort (toList b) (toList B) useFft with h' | h' | ⟨w, h'⟩
  · rw [h] at h'
    rw [C01_ecdf2 env hf hs hb hB useFft ha] at h'
    exact Except.ok.inj h'
  · rw [h] at h'; cases h'
  · rw [h] at h'; cases h'

/-! ## The program and the Python functions -/

/-- C78: the program ends as with enough memory, or is killed by SIGABRT, or makes an invalid memory access. -/
theorem C78_program (o : Oom) (w : World F) (args : List Str) :
    crossprobMainO o w args = crossprobMain w args ∨ crossprobMainO o w args = .aborted ∨
      crossprobMainO o w args = .undefined := by
  rcases args with _ | ⟨command, _ | ⟨filename, _ | ⟨c, l⟩⟩⟩
  · exact Or.inl rfl
  · exact Or.inl rfl
  · unfold crossprobMainO crossprobMain
    dsimp only
    rcases sameOrDies_of (handle_crash o w command filename) with h | h | ⟨what, h⟩
    · rw [h]; exact Or.inl rfl
    · rw [h]; exact Or.inr (Or.inl rfl)
    · rw [h]; exact Or.inr (Or.inr rfl)
  · exact Or.inl rfl

/-- C78: so a number it prints, or a message with exit code 1, 2 or 3, is the right one. -/
theorem C78_program_output (o : Oom) (w : World F) (args : List Str) (k : ℕ)
    (h : (crossprobMainO o w args).exitCode = some k) : crossprobMainO o w args = crossprobMain w args := by
  rcases C78_program o w args with h' | h' | h'
  · exact h'
  · rw [h'] at h; cases h
  · rw [h'] at h; cases h

/-- What a Python call may do when memory is refused. -/
def PySameOrFails (r r' : PyResult F) : Prop :=
  r' = r ∨ r' = .runtimeError "std::bad_alloc" ∨ r' = .typeError ∨ r' = .undefined

omit [FOps F] in
theorem pyTry_sod {m m' : M F} (h : SameOrDies m m') : PySameOrFails (pyTry m) (pyTry m') := by
  rcases h with h | h | ⟨w, h⟩
  · rw [h]; exact Or.inl rfl
  · rw [h]; exact Or.inr (Or.inl rfl)
  · rw [h]; exact Or.inr (Or.inr (Or.inr rfl))

omit [FOps F] in
theorem pyVectorO_cases (o : Oom) (i : ℕ) (a : PyArg F) :
    pyVectorO o i a = pyVector a ∨ pyVectorO o i a = .error .typeError := by
  unfold pyVectorO
  cases a
  · exact Or.inl rfl
  · by_cases h : o.vec i = true
    · right; simp [pyVector, bind, Except.bind, h]
    · left; simp [pyVector, bind, Except.bind, h]
  · exact Or.inl rfl
  · exact Or.inl rfl

/-- C78: `crossprob.ecdf2` in Python returns the right number, or raises, or makes an invalid memory access. -/
theorem C78_python_ecdf2 (o : Oom) (env : Env F) (sort : List (Bound F) → List (Bound F)) (args : List (PyArg F)) :
    PySameOrFails (pyEcdf2 env sort args) (pyEcdf2O o env sort args) := by
  rcases args with _ | ⟨a1, _ | ⟨a2, _ | ⟨a3, _ | ⟨a4, l⟩⟩⟩⟩
  · exact Or.inl rfl
  · exact Or.inl rfl
  · exact Or.inl rfl
  · unfold pyEcdf2 pyEcdf2O
    dsimp only
    rcases pyVectorO_cases o 24 a1 with h | h <;> rw [h]
    · cases pyVector a1 with
      | error r => exact Or.inl rfl
      | ok b =>
        rcases pyVectorO_cases o 25 a2 with h | h <;> rw [h]
        · cases pyVector a2 with
          | error r => exact Or.inl rfl
          | ok B =>
            cases pyBool a3 with
            | error r => exact Or.inl rfl
            | ok u => exact pyTry_sod (C78_ecdf2 o env sort b B u)
        · exact Or.inr (Or.inr (Or.inl rfl))
    · exact Or.inr (Or.inr (Or.inl rfl))
  · exact Or.inl rfl

theorem pyOne_sod (o : Oom) {f g : List F → M F} (h : ∀ v, SameOrDies (f v) (g v)) (args : List (PyArg F)) :
    PySameOrFails (pyOne f args) (pyOneO o g args) := by
  rcases args with _ | ⟨a, _ | ⟨a', l⟩⟩
  · exact Or.inl rfl
  · unfold pyOne pyOneO
    dsimp only
    rcases pyVectorO_cases o 24 a with h' | h' <;> rw [h']
    · cases pyVector a with
      | error r => exact Or.inl rfl
      | ok v => exact pyTry_sod (h v)
    · exact Or.inr (Or.inr (Or.inl rfl))
  · exact Or.inl rfl

/-- C78: the same for the four one-sided Python functions. -/
theorem C78_python_one (o : Oom) (env : Env F) (isqrt : ℕ → ℕ) (args : List (PyArg F)) :
    PySameOrFails (pyNewB env isqrt args) (pyOneO o (ecdf1NewBO o env isqrt) args) ∧
    PySameOrFails (pyNewb env isqrt args) (pyOneO o (ecdf1NewbO o env isqrt) args) ∧
    PySameOrFails (pyMns2016B env args) (pyOneO o (ecdf1Mns2016BO o env) args) ∧
    PySameOrFails (pyMns2016b env args) (pyOneO o (ecdf1Mns2016bO o env) args) :=
  ⟨pyOne_sod o (C78_new_B o env isqrt) args, pyOne_sod o (C78_new_b o env isqrt) args,
    pyOne_sod o (C78_mns_B o env) args, pyOne_sod o (C78_mns_b o env) args⟩

/-! ## Which end it is -/

theorem newO_null (o : Oom) (env : Env F) (m : Int) (hm : 0 ≤ m) (h : o.blk 1 = true ∨ o.blk 2 = true) :
    ∃ what, PmfGen.newO o env (m + 1) = .error (.ub what) := by
  have ha : assertC env.asserts (decide (0 < m + 1)) "max_k > 0" = .ok () := by
    unfold assertC
    have : decide (0 < m + 1) = true := decide_eq_true (by omega)
    rw [this]; simp
  have hnull : ∀ (n : Int) (f : Int → F), 0 < n →
      ∃ w, forRange 0 n ([] : List F) (fun i a => wr a i (f i)) = .error (.ub w) := by
    intro n f hn
    refine ⟨"write out of bounds", ?_⟩
    unfold forRange
    have h1 : (n - 0).toNat = (n - 0).toNat - 1 + 1 := by omega
    rw [h1]
    simp only [forAux]
    rw [wr_nil]
    rfl
  unfold PmfGen.newO
  rw [ha]
  by_cases h1 : o.blk 1 = true
  · obtain ⟨w, hw⟩ := hnull (m + 1 + 2) (fun i => lgamma (ofInt i)) (by omega)
    refine ⟨w, ?_⟩
    have e : allocDoublesO o env 1 (m + 1 + 2) = [] := by unfold allocDoublesO; rw [if_pos h1]
    rw [e]
    show (forRange 0 (m + 1 + 2) _ _ >>= _) = _
    rw [hw]
    rfl
  · have h2 : o.blk 2 = true := h.resolve_left h1
    obtain ⟨w, hw⟩ := hnull (m + 1 + 1) (fun _ => ofInt 0) (by omega)
    refine ⟨w, ?_⟩
    have e1 : allocDoublesO o env 1 (m + 1 + 2) = allocDoubles env 1 (m + 1 + 2) := by
      unfold allocDoublesO; rw [if_neg h1]
    have e2 : allocDoublesO o env 2 (m + 1 + 1) = [] := by unfold allocDoublesO; rw [if_pos h2]
    rw [e1, e2]
    show (forRange 0 (m + 1 + 2) _ _ >>= _) = _
    rw [fill_eq (f := fun i => lgamma (ofInt i)) _ _ (by simp [allocDoubles])]
    show (forRange 0 (m + 1 + 1) _ _ >>= _) = _
    rw [hw]
    rfl

theorem vector_fine {o : Oom} (h : VectorsFine o) (i : ℕ) : o.vector i = .ok () := by
  unfold Oom.vector; rw [h i]; rfl

theorem bufNewO_fine {o : Oom} (h : VectorsFine o) (i : ℕ) (n : Int) (v : F) :
    DoubleBuffer.newO o i n v = .ok (DoubleBuffer.new n v) := by
  unfold DoubleBuffer.newO; rw [vector_fine h, vector_fine h]; rfl

theorem src0_ok (n : Int) (hn : 0 ≤ n) : ∃ src, wr (DoubleBuffer.new (n + 1) (zero : F)).src 0 one = .ok src := by
  unfold wr
  rw [if_pos]
  · exact ⟨_, rfl⟩
  · have e : (DoubleBuffer.new (n + 1) (zero : F)).src = List.replicate (n + 1).toNat zero := rfl
    rw [e, List.length_replicate]
    constructor
    · exact le_rfl
    · show 0 < (n + 1).toNat
      omega

/-- C78: no error is reported when a table of `ecdf2` cannot be allocated: on every pair of lists that passes validation the
call makes an invalid memory access. -/
theorem C78_ecdf2_no_tables (o : Oom) (env : Env F) (sort : List (Bound F) → List (Bound F)) (b B : List F) (useFft : Bool)
    (hb : checkBoundaryVector "b" b.length b = .ok ()) (hB : checkBoundaryVector "B" b.length B = .ok ())
    (hv : VectorsFine o) (h : o.blk 1 = true ∨ o.blk 2 = true) :
    ∃ what, ecdf2O o env sort b B useFft = .error (.ub what) := by
  obtain ⟨src, hsrc⟩ := src0_ok (F := F) (b.length : Int) (by omega)
  obtain ⟨w, hw⟩ := newO_null o env (b.length : Int) (by omega) h
  refine ⟨w, ?_⟩
  unfold ecdf2O
  dsimp only
  rw [hb, hB]
  unfold poissonProcessNoncrossingProbabilityO Convolver.newO
  simp only [vector_fine hv, bufNewO_fine hv, bind, Except.bind]
  rw [hsrc]
  dsimp only
  rw [hw]

/-- C78: a vector of `ecdf2` that cannot be allocated: `std::bad_alloc`, on every pair of lists that passes validation. -/
theorem C78_ecdf2_no_vector (o : Oom) (env : Env F) (sort : List (Bound F) → List (Bound F)) (b B : List F) (useFft : Bool)
    (hb : checkBoundaryVector "b" b.length b = .ok ()) (hB : checkBoundaryVector "B" b.length B = .ok ())
    (h : o.vec 1 = true ∨ o.vec 2 = true ∨ o.vec 3 = true ∨ o.vec 10 = true ∨ o.vec 11 = true) :
    ecdf2O o env sort b B useFft = .error (.uncaught "std::bad_alloc") := by
  obtain ⟨src, hsrc⟩ := src0_ok (F := F) (b.length : Int) (by omega)
  unfold ecdf2O
  dsimp only
  rw [hb, hB]
  unfold poissonProcessNoncrossingProbabilityO Convolver.newO DoubleBuffer.newO Oom.vector
  by_cases h1 : o.vec 1 = true
  · simp only [h1, if_true, bind, Except.bind]; rfl
  by_cases h2 : o.vec 2 = true
  · simp only [h1, h2, if_true, bind, Except.bind]; rfl
  by_cases h3 : o.vec 3 = true
  · simp only [h1, h2, h3, if_true, bind, Except.bind]; rfl
  have h4 := (h.resolve_left h1).resolve_left h2 |>.resolve_left h3
  simp only [h1, h2, h3, bind, Except.bind]
  simp only [Bool.false_eq_true, if_false]
  rw [hsrc]
  dsimp only
  by_cases h5 : o.vec 10 = true
  · simp only [h5, if_true]; rfl
  · have h6 := h4.resolve_left h5
    simp only [h5, h6, if_true]; rfl

/-- C78: no error is reported when the polynomial of `ecdf1_mns2016_b` cannot be allocated. -/
theorem C78_mns_b_no_polynomial (o : Oom) (env : Env F) (b : List F) (hb : checkBoundaryVector "b" b.length b = .ok ())
    (h : o.blk 30 = true ∨ o.blk 31 = true) : ∃ what, ecdf1Mns2016bO o env b = .error (.ub what) := by
  have ha : assertC env.asserts (decide (0 ≤ (b.length : Int) + 1)) "max_degree >= 0" = .ok () := by
    unfold assertC
    have : decide (0 ≤ (b.length : Int) + 1) = true := decide_eq_true (by omega)
    rw [this]; simp
  have hnull : wrBlock ([] : List F) 0 (List.replicate ((b.length : Int) + 1 + 1).toNat zero) =
      .error (.ub "block write out of bounds") := by
    unfold wrBlock
    rw [if_neg]
    simp only [List.length_replicate, List.length_nil]
    omega
  have hgood : ∃ a, wrBlock (allocDoubles env 30 ((b.length : Int) + 1 + 1)) 0
      (List.replicate ((b.length : Int) + 1 + 1).toNat (zero : F)) = .ok a := by
    unfold wrBlock
    rw [if_pos (by simp [allocDoubles])]
    exact ⟨_, rfl⟩
  refine ⟨"block write out of bounds", ?_⟩
  unfold ecdf1Mns2016bO Poly.newO
  dsimp only
  rw [hb, ha]
  by_cases h1 : o.blk 30 = true
  · have e : allocDoublesO o env 30 ((b.length : Int) + 1 + 1) = [] := by unfold allocDoublesO; rw [if_pos h1]
    rw [e, hnull]
    rfl
  · have h2 : o.blk 31 = true := h.resolve_left h1
    have e : allocDoublesO o env 31 ((b.length : Int) + 1 + 1) = [] := by unfold allocDoublesO; rw [if_pos h2]
    have e0 : allocDoublesO o env 30 ((b.length : Int) + 1 + 1) = allocDoubles env 30 ((b.length : Int) + 1 + 1) := by
      unfold allocDoublesO; rw [if_neg h1]
    obtain ⟨a, hg⟩ := hgood
    rw [e, e0, hnull, hg]
    rfl

/-! ## The direct method does not need the transform buffers -/

/-- The same outcome, up to `R` on results. -/
def Sim {α β : Type} (R : α → β → Prop) (m : M α) (m' : M β) : Prop :=
  (∃ a b, m = .ok a ∧ m' = .ok b ∧ R a b) ∨ (∃ e, m = .error e ∧ m' = .error e)

theorem sim_bind {α β γ δ : Type} {R : α → β → Prop} {S : γ → δ → Prop} {m : M α} {m' : M β} {f : α → M γ} {g : β → M δ}
    (h : Sim R m m') (hf : ∀ a b, R a b → Sim S (f a) (g b)) : Sim S (m >>= f) (m' >>= g) := by
  rcases h with ⟨a, b, rfl, rfl, hr⟩ | ⟨e, rfl, rfl⟩
  · exact hf a b hr
  · exact Or.inr ⟨e, rfl, rfl⟩

theorem sim_ok_bind {α β γ : Type} {R : α → β → Prop} {m : M α} {x : γ} {k : γ → M β} (h : Sim R m (k x)) :
    Sim R m (Except.ok x >>= k) := h

theorem sim_refl {α : Type} (m : M α) : Sim (fun a b => b = a) m m := by
  cases m with
  | ok a => exact Or.inl ⟨a, a, rfl, rfl, rfl⟩
  | error e => exact Or.inr ⟨e, rfl, rfl⟩

theorem sim_foldlM {α σ : Type} {R : σ → σ → Prop} {f : σ → α → M σ}
    (h : ∀ x s t, R s t → Sim R (f s x) (f t x)) :
    ∀ (l : List α) (s t : σ), R s t → Sim R (l.foldlM f s) (l.foldlM f t)
  | [], s, t, hr => Or.inl ⟨s, t, rfl, rfl, hr⟩
  | x :: l, s, t, hr => by
    rw [List.foldlM_cons, List.foldlM_cons]
    exact sim_bind (h x s t hr) fun a b hab => sim_foldlM h l a b hab

/-- Everything but the convolver agrees. -/
def SameButConv (s s' : NCState F) : Prop := s' = { s with conv := s'.conv }

theorem ncStep_direct (env : Env F) (intensity : F) {s s' : NCState F} (h : SameButConv s s') (bd : Bound F) :
    Sim SameButConv (ncStep env intensity false s bd) (ncStep env intensity false s' bd) := by
  obtain ⟨bu, cv, g, x, y, p⟩ := s
  obtain ⟨bu', cv', g', x', y', p'⟩ := s'
  simp only [SameButConv, NCState.mk.injEq, true_and] at h
  obtain ⟨rfl, rfl, rfl, rfl, rfl⟩ := h
  unfold ncStep ncConvolve
  dsimp only
  split
  · refine sim_bind (sim_refl _) fun g1 _ e => ?_
    subst e
    refine sim_bind (sim_refl _) fun o1 _ e => ?_
    subst e
    refine sim_bind (sim_refl _) fun o2 _ e => ?_
    subst e
    rw [if_neg (by decide), if_neg (by decide)]
    refine sim_bind (R := fun p q => q.2 = p.2) (sim_bind (sim_refl _) fun d _ e => ?_) fun a b hab => ?_
    · subst e
      exact Or.inl ⟨_, _, rfl, rfl, rfl⟩
    obtain ⟨a1, a2⟩ := a
    obtain ⟨b1, b2⟩ := b
    dsimp only at hab
    subst hab
    dsimp only
    refine sim_bind (sim_refl _) fun u _ e => ?_
    subst e
    exact Or.inl ⟨_, _, rfl, rfl, rfl⟩
  split
  · refine sim_bind (sim_refl _) fun u _ e => ?_
    subst e
    exact Or.inl ⟨_, _, rfl, rfl, rfl⟩
  · exact Or.inr ⟨_, rfl, rfl⟩

/-- C78: `ecdf2` without FFT does not need the five transform buffers: if only these are refused, nothing changes. -/
theorem C78_direct (o : Oom) (env : Env F) (sort : List (Bound F) → List (Bound F)) (b B : List F)
    (hv : VectorsFine o) (h1 : o.blk 1 = false) (h2 : o.blk 2 = false) :
    ecdf2O o env sort b B false = ecdf2 env sort b B false := by
  have hnew : PmfGen.newO o env ((b.length : Int) + 1) = PmfGen.new env ((b.length : Int) + 1) := by
    have e1 : allocDoublesO o env 1 ((b.length : Int) + 1 + 2) = allocDoubles env 1 ((b.length : Int) + 1 + 2) := by
      unfold allocDoublesO; rw [if_neg (by rw [h1]; decide)]
    have e2 : allocDoublesO o env 2 ((b.length : Int) + 1 + 1) = allocDoubles env 2 ((b.length : Int) + 1 + 1) := by
      unfold allocDoublesO; rw [if_neg (by rw [h2]; decide)]
    unfold PmfGen.newO PmfGen.new
    rw [e1, e2, fill_eq (f := fun i => lgamma (ofInt i)) _ _ (by simp [allocDoubles]),
      fill_eq (f := fun _ => (ofInt 0 : F)) _ _ (by simp [allocDoubles])]
    rw [List.map_const', List.length_range]
    rfl
  have key : Sim (fun x y => y = x) (poissonProcessNoncrossingProbability env sort (b.length : Int) (ofInt (b.length : Int)) b B false)
      (poissonProcessNoncrossingProbabilityO o env sort (b.length : Int) (ofInt (b.length : Int)) b B false) := by
    unfold poissonProcessNoncrossingProbability poissonProcessNoncrossingProbabilityO
    obtain ⟨cv, hcv⟩ : ∃ cv, Convolver.newO o env ((b.length : Int) + 1) = .ok cv := by
      unfold Convolver.newO
      rw [vector_fine hv, vector_fine hv]
      exact ⟨_, rfl⟩
    rw [vector_fine hv, bufNewO_fine hv, hnew, hcv]
    refine sim_ok_bind ?_
    dsimp only
    refine sim_ok_bind ?_
    refine sim_bind (sim_refl _) fun src _ e => ?_
    subst e
    refine sim_ok_bind ?_
    refine sim_bind (sim_refl _) fun g _ e => ?_
    subst e
    refine sim_bind (sim_foldlM (R := SameButConv) (fun bd s s' h => ncStep_direct env _ h bd) _ _ _ rfl) fun s s' h => ?_
    rw [vector_fine hv]
    unfold SameButConv at h
    rw [h]
    exact Or.inl ⟨_, _, rfl, rfl, rfl⟩
  unfold ecdf2O ecdf2
  dsimp only
  rcases key with ⟨x, y, hx, hy, rfl⟩ | ⟨e, hx, hy⟩
  · rw [hx, hy]
  · rw [hx, hy]

/-! ## The second model is the first one when memory suffices -/

theorem none_fine : VectorsFine Oom.none := fun _ => rfl

theorem none_alloc (env : Env F) (id : ℕ) (n : Int) : allocDoublesO .none env id n = allocDoubles env id n := rfl

theorem newO_none (env : Env F) (m : Int) : PmfGen.newO .none env m = PmfGen.new env m := by
  unfold PmfGen.newO PmfGen.new
  rw [none_alloc, none_alloc, fill_eq (f := fun i => lgamma (ofInt i)) _ _ (by simp [allocDoubles]),
    fill_eq (f := fun _ => (ofInt 0 : F)) _ _ (by simp [allocDoubles])]
  rw [List.map_const', List.length_range]
  rfl

theorem convO_none (env : Env F) (m : Int) : Convolver.newO .none env m = .ok (Convolver.new env m) := rfl

theorem polyO_none (env : Env F) (m : Int) : Poly.newO .none env m = Poly.new env m := by
  have h : ∀ id, wrBlock (allocDoubles env id (m + 1)) 0 (List.replicate (m + 1).toNat (zero : F)) =
      .ok (List.replicate (m + 1).toNat zero) := by
    intro id
    unfold wrBlock
    rw [if_pos (by simp [allocDoubles])]
    simp [allocDoubles]
  unfold Poly.newO Poly.new
  rw [none_alloc, none_alloc, h, h]
  rfl

/-- C78: with enough memory the second model of `ecdf2` is the first one. -/
theorem C78_enough_ecdf2 (env : Env F) (sort : List (Bound F) → List (Bound F)) (b B : List F) (useFft : Bool) :
    ecdf2O .none env sort b B useFft = ecdf2 env sort b B useFft := by
  unfold ecdf2O ecdf2 poissonProcessNoncrossingProbabilityO poissonProcessNoncrossingProbability
  simp only [vector_fine none_fine, bufNewO_fine none_fine, newO_none, convO_none]
  rfl

/-- C78: the same for `ecdf1_new_B`. -/
theorem C78_enough_new_B (env : Env F) (isqrt : ℕ → ℕ) (B : List F) :
    ecdf1NewBO .none env isqrt B = ecdf1NewB env isqrt B := by
  unfold ecdf1NewBO ecdf1NewB poissonBNoncrossingProbabilityN2O poissonBNoncrossingProbabilityN2
  simp only [vector_fine none_fine, bufNewO_fine none_fine, newO_none, convO_none, none_alloc]
  have e1 : ∀ m : M (List F), (m >>= fun d => (Except.ok () : M Unit) >>= fun _ => .ok d) = m := by
    intro m; cases m <;> rfl
  simp only [e1]
  rfl

/-- C78: the same for `ecdf1_new_b`. -/
theorem C78_enough_new_b (env : Env F) (isqrt : ℕ → ℕ) (b : List F) :
    ecdf1NewbO .none env isqrt b = ecdf1Newb env isqrt b := by
  unfold ecdf1NewbO ecdf1Newb
  simp only [vector_fine none_fine, C78_enough_new_B]
  rfl

/-- C78: the same for `ecdf1_mns2016_b`. -/
theorem C78_enough_mns_b (env : Env F) (b : List F) : ecdf1Mns2016bO .none env b = ecdf1Mns2016b env b := by
  unfold ecdf1Mns2016bO ecdf1Mns2016b ecdf1Mns2016bWith
  simp only [polyO_none]

/-- C78: the same for `ecdf1_mns2016_B`. -/
theorem C78_enough_mns_B (env : Env F) (B : List F) : ecdf1Mns2016BO .none env B = ecdf1Mns2016B env B := by
  unfold ecdf1Mns2016BO ecdf1Mns2016B
  simp only [vector_fine none_fine, C78_enough_mns_b]
  rfl

/-- C78: the same for the program. -/
theorem C78_enough_program (w : World F) (args : List Str) : crossprobMainO .none w args = crossprobMain w args := by
  have h : ∀ c f, handleCommandLineArgumentsO .none w c f = handleCommandLineArguments w c f := by
    intro c f
    unfold handleCommandLineArgumentsO handleCommandLineArguments calculateEcdf1Mns2016O calculateEcdf1NewO calculateEcdf2O
      calculateEcdf1Mns2016 calculateEcdf1New calculateEcdf2Ks2001 calculateEcdf2Mn2017
    simp only [vector_fine none_fine, C78_enough_mns_b, C78_enough_mns_B, C78_enough_new_b, C78_enough_new_B, C78_enough_ecdf2]
    rfl
  unfold crossprobMainO crossprobMain
  simp only [h]
  rfl

/-! ## The hypotheses can be met -/

/-- A table refused on two points: the lists pass validation. -/
example : ∃ what, ecdf2O ⟨fun _ => false, fun i => i == 1⟩ relEnv mergeSortBounds [XR.fin (1/10), XR.fin (3/10)]
    [XR.fin (1/2), XR.fin (9/10)] true = .error (.ub what) := by
  refine C78_ecdf2_no_tables _ _ _ _ _ _ ?_ ?_ (fun _ => rfl) (Or.inl rfl)
  · unfold checkBoundaryVector
    rw [if_neg (by simp), if_neg (by simp [isMonotoneIncreasing, isMonotoneFrom, FOps.lt, XR.lt, FOps.negInf]; norm_num),
      if_neg (by simp [outOfRange, FOps.lt, XR.lt, FOps.zero, FOps.one, FOps.ofInt]; norm_num)]
  · unfold checkBoundaryVector
    rw [if_neg (by simp), if_neg (by simp [isMonotoneIncreasing, isMonotoneFrom, FOps.lt, XR.lt, FOps.negInf]; norm_num),
      if_neg (by simp [outOfRange, FOps.lt, XR.lt, FOps.zero, FOps.one, FOps.ofInt]; norm_num)]

/-- All five transform buffers refused: the direct method still returns the probability. -/
example : ecdf2O ⟨fun _ => false, fun i => decide (10 ≤ i)⟩ relEnv mergeSortBounds (toList exb) (toList exB) false
    = .ok (XR.fin (noncrossProb exb exB)) := by
  rw [C78_direct _ _ _ _ _ (fun _ => rfl) (by decide) (by decide)]
  exact C01_ecdf2 relEnv exactFFTW_exact mergeSortBounds_contract exb_valid exB_valid false (Or.inl rfl)

end CP.Props
