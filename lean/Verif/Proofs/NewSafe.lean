import Verif.Proofs.NewStep
/-
Memory safety of `ecdf1_new` in any arithmetic.
-/
set_option linter.unusedVariables false
namespace CP
variable {F : Type} [FOps F] {E : Fault → Prop}
open FOps

/-- The faults that `ecdf1_new` may end with on a list of at least 2 numbers. -/
structure NewFaults (E : Fault → Prop) (asserts : Bool) : Prop where
  rt : ∀ msg, E (.runtimeError msg)
  a1 : asserts = true → E (.assertFailed "lambda >= 0")
  a2 : asserts = true → E (.assertFailed "lambda >= 0.0")

theorem NewFaults.lamOk {env : Env F} (h : NewFaults E env.asserts) (lambda : F) : LamOk E env lambda := by
  refine ⟨Or.inr h.rt, ?_⟩
  cases ha : env.asserts
  · exact Or.inl rfl
  · exact Or.inr (Or.inr (h.a1 ha))

theorem poissonPmf_safe (env : Env F) (hE : NewFaults E env.asserts) {lambda : F} {k : Int} (h0 : 0 ≤ k) :
    Sat E (fun _ => True) (poissonPmf env lambda k) := by
  by_cases h : env.asserts = false ∨ ge lambda (zero : F) = true
  · exact (poissonPmf_sat env h0 h).mono fun _ _ => trivial
  · have h1 : env.asserts = true := by
      cases hh : env.asserts
      · exact absurd (Or.inl hh) h
      · rfl
    have h2 : ge lambda (zero : F) = false := by
      cases hh : ge lambda (zero : F)
      · rfl
      · exact absurd (Or.inr hh) h
    unfold poissonPmf
    rw [assertC_true _ (by simpa using h0), M_ok_bind]
    unfold assertC
    rw [if_pos (by simp [h1, h2])]
    exact hE.a2 h1

theorem newN2_safe (env : Env F) (hE : NewFaults E env.asserts) {B : List F} (hN : 0 < B.length) {intensity : F}
    {jump : Nat} (hj : 0 < jump)
    (ha : env.asserts = false ∨ jump ≤ B.length ∨ E (.assertFailed "jump_size <= n")) :
    Sat E (fun probs => (B.length : Int) < probs.length)
      (poissonBNoncrossingProbabilityN2 env B.length intensity B jump) := by
  obtain ⟨Bv, hBv⟩ := exists_fun (a := B)
  refine (newN2_sat env hN (Bv := Bv) rfl hj ha (fun _ _ => True) trivial ?_ (hE.lamOk _)).mono ?_
  · intro k K f s hs _ hfs hkK hKN hjump
    refine (blockStep_sat env hs (fun i hi => hBv i (by omega)) hkK (by omega) (by omega)
      (fun m h1 h2 => hfs m h1 (by omega)) (hE.lamOk _) (fun _ _ _ => hE.lamOk _) (fun _ _ _ => hE.lamOk _)
      (fun _ _ _ => True) trivial (fun _ _ _ _ _ _ => trivial)).mono ?_
    rintro s' ⟨hinv, f', g, _, hg⟩
    exact ⟨hinv, g, trivial, fun m h1 h2 => hg m h1 (by omega)⟩
  · rintro probs ⟨f, _, hp⟩
    exact hp.lt

/-- `ecdf1_new_B` is safe whenever the block size is at most `n` or assertions are off. -/
theorem ecdf1NewB_safe (env : Env F) (hE : NewFaults E env.asserts) (isqrt : Nat → Nat) (B : List F)
    (hN : 0 < B.length) (ha : env.asserts = false ∨ isqrt B.length + 1 ≤ B.length) :
    Sat E (fun _ => True) (ecdf1NewB env isqrt B) := by
  unfold ecdf1NewB
  refine Sat.bind (checkBoundaryVector_sat hE.rt) fun _ _ => ?_
  have e : ((isqrt B.length : Nat) : Int) + 1 = ((isqrt B.length + 1 : Nat) : Int) := by omega
  dsimp only
  rw [e]
  refine Sat.bind (newN2_safe env hE hN (by omega) (by
    rcases ha with ha | ha
    · exact Or.inl ha
    · exact Or.inr (Or.inl ha))) fun probs hp => ?_
  refine Sat.bind (rd_sat (by omega) (by omega)) fun x _ => ?_
  refine Sat.bind (poissonPmf_safe env hE (by omega)) fun p _ => ?_
  trivial

end CP
