import Verif.Props.Safety
import Verif.Props.Exact
import Verif.Model.Python
/-
Property C49: the Python module.  The extension is built with NDEBUG (`env.asserts = false`).
-/
namespace CP.Props
open CP CP.Spec

section
variable {F : Type} [FOps F]

/-- The call returns a float or raises a Python exception: the interpreter survives. -/
def Survives (r : PyResult F) : Prop :=
  (∃ x, r = .float x) ∨ r = .typeError ∨ r = .valueError ∨ ∃ msg, r = .runtimeError msg

theorem survives_try {m : M F} (h : Clean m) : Survives (pyTry m) := by
  rcases h with ⟨x, rfl⟩ | ⟨msg, rfl⟩
  · exact Or.inl ⟨x, rfl⟩
  · exact Or.inr (Or.inr (Or.inr ⟨msg, rfl⟩))

theorem survives_one {f : List F → M F} (args : List (PyArg F)) (h : ∀ v, args = [.numbers v] → Clean (f v)) :
    Survives (pyOne f args) := by
  unfold pyOne
  match args with
  | [] => exact Or.inr (Or.inl rfl)
  | [a] =>
    cases a with
    | none => exact Or.inr (Or.inr (Or.inl rfl))
    | numbers v => exact survives_try (h v rfl)
    | bool _ => exact Or.inr (Or.inl rfl)
    | other => exact Or.inr (Or.inl rfl)
  | _ :: _ :: _ => exact Or.inr (Or.inl rfl)

/-- C49: no ordinary arguments can crash the interpreter through `ecdf2` (for objects of one's own classes see C89). -/
theorem C49_ecdf2_survives (env : Env F) (ha : env.asserts = false) {sort : List (Bound F) → List (Bound F)}
    (hperm : ∀ l, (sort l).Perm l) (args : List (PyArg F)) : Survives (pyEcdf2 env sort args) := by
  unfold pyEcdf2
  split
  · rename_i a1 a2 a3
    cases a1 with
    | numbers b =>
      cases a2 with
      | numbers B =>
        cases a3 with
        | bool f => exact survives_try (C16_ecdf2_release env ha hperm b B f)
        | none => exact Or.inr (Or.inl rfl)
        | numbers _ => exact Or.inr (Or.inl rfl)
        | other => exact Or.inr (Or.inl rfl)
      | none => exact Or.inr (Or.inr (Or.inl rfl))
      | bool _ => exact Or.inr (Or.inl rfl)
      | other => exact Or.inr (Or.inl rfl)
    | none => exact Or.inr (Or.inr (Or.inl rfl))
    | bool _ => exact Or.inr (Or.inl rfl)
    | other => exact Or.inr (Or.inl rfl)
  · exact Or.inr (Or.inl rfl)

/-- C49: ... nor through `ecdf1_mns2016_b` and `ecdf1_mns2016_B`. -/
theorem C49_mns2016_survives (env : Env F) (args : List (PyArg F)) :
    Survives (pyMns2016b env args) ∧ Survives (pyMns2016B env args) :=
  ⟨survives_one args fun v _ => C18_mns2016_b env _ v, survives_one args fun v _ => C18_mns2016_B env v⟩

/-- C49: `ecdf1_new_b` and `ecdf1_new_B` survive exactly when their argument is not the empty list. -/
theorem C49_new_survives_iff (env : Env F) (ha : env.asserts = false) (isqrt : ℕ → ℕ) (args : List (PyArg F)) :
    (Survives (pyNewb env isqrt args) ↔ args ≠ [.numbers []]) ∧
    (Survives (pyNewB env isqrt args) ↔ args ≠ [.numbers []]) := by
  have dead : ¬ Survives (PyResult.undefined : PyResult F) := by
    rintro (⟨x, h⟩ | h | h | ⟨m, h⟩) <;> cases h
  constructor
  · constructor
    · rintro h rfl
      refine dead ?_
      have : pyNewb env isqrt [.numbers []] = pyTry (ecdf1Newb env isqrt []) := rfl
      rw [this, C17_new_b_empty env isqrt, ha] at h
      exact h
    · intro h
      refine survives_one args fun v hv => C17_new_b_release env ha isqrt v ?_
      cases v with
      | nil => exact absurd hv h
      | cons _ _ => simp
  · constructor
    · rintro h rfl
      refine dead ?_
      have : pyNewB env isqrt [.numbers []] = pyTry (ecdf1NewB env isqrt []) := rfl
      rw [this, C17_new_B_empty env isqrt, ha] at h
      exact h
    · intro h
      refine survives_one args fun v hv => C17_new_B_release env ha isqrt v ?_
      cases v with
      | nil => exact absurd hv h
      | cons _ _ => simp

/-- C49: `use_fft` must be a Python `bool`: `1`, `0` or `None` raise TypeError, before anything is computed. -/
theorem C49_use_fft_type (env : Env F) (sort : List (Bound F) → List (Bound F)) (b B : List F) (a : PyArg F)
    (h : ∀ f, a ≠ .bool f) : pyEcdf2 env sort [.numbers b, .numbers B, a] = .typeError := by
  cases a with
  | bool f => exact absurd rfl (h f)
  | none => rfl
  | numbers _ => rfl
  | other => rfl

end

/-- C49: on valid boundaries the Python functions return the probabilities (exact arithmetic). -/
theorem C49_values (env : Env XR) (ha : env.asserts = false) (hf : ExactFFT env.fft)
    {sort : List (Bound XR) → List (Bound XR)} (hsort : SortContract sort) {n : ℕ} (hn : 1 ≤ n) {b B : Fin n → ℝ}
    (hb : ValidBound b) (hB : ValidBound B) (useFft : Bool) :
    pyEcdf2 env sort [.numbers (toList b), .numbers (toList B), .bool useFft] = .float (.fin (noncrossProb b B)) ∧
    pyNewb env Nat.sqrt [.numbers (toList b)] = .float (.fin (lowerProb b)) ∧
    pyNewB env Nat.sqrt [.numbers (toList B)] = .float (.fin (upperProb B)) ∧
    pyMns2016b env [.numbers (toList b)] = .float (.fin (lowerProb b)) ∧
    pyMns2016B env [.numbers (toList B)] = .float (.fin (upperProb B)) := by
  refine ⟨?_, ?_, ?_, ?_, ?_⟩
  · show pyTry (ecdf2 env sort (toList b) (toList B) useFft) = _
    rw [C01_ecdf2 env hf hsort hb hB useFft (Or.inl ha)]
    rfl
  · show pyTry (ecdf1Newb env Nat.sqrt (toList b)) = _
    rw [C03_ecdf1_new_b env hf hn hb (Or.inl ha)]
    rfl
  · show pyTry (ecdf1NewB env Nat.sqrt (toList B)) = _
    rw [C02_ecdf1_new_B env hf hn hB (Or.inl ha)]
    rfl
  · show pyTry (ecdf1Mns2016b env (toList b)) = _
    rw [C04_ecdf1_mns2016_b env hb]
    rfl
  · show pyTry (ecdf1Mns2016B env (toList B)) = _
    rw [C05_ecdf1_mns2016_B env hB]
    rfl

example : pyNewB relEnv Nat.sqrt [.numbers (toList exB)] = .float (.fin (upperProb exB)) :=
  (C49_values relEnv rfl exactFFTW_exact mergeSortBounds_contract (by norm_num) exb_valid exB_valid true).2.2.1

end CP.Props
