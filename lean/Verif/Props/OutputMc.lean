import Verif.Props.OutputText
/-
Property C59 for crossprob_mc, and examples.
-/
open MeasureTheory Set
namespace CP.Props
open CP.Spec FOps
variable {F : Type} [FOps F] [FBits F]

/-- When crossprob_mc shows its usage text before the error message: a wrong number of arguments, a negative number of
simulations, or (with a good number and a readable file) an unknown mode. -/
def McShowsUsage (w : McWorld F) (args : List Str) : Prop :=
  args.length ≠ 3 ∨ ∃ command file num N, args = [command, file, num] ∧ stringToLong w.libc num = .ok N ∧
    (N < 0 ∨ (∃ bB, readAndCheckBoundariesFile w.libc w.fs file = .ok bB) ∧ command ≠ "poisson".toList ∧ command ≠ "ecdf".toList)

theorem mcHandleIO_eq (w : McWorld F) (fmt : F → Str) (command file num : Str) :
    (∀ r, mcHandle w command file num = .ok r → mcHandleIO w fmt command file num = ⟨fmt r ++ ['\n'], .ok ()⟩) ∧
    (∀ e, mcHandle w command file num = .error e →
      (McShowsUsage w [command, file, num] → (∃ msg, e = .runtimeError msg) ∧
        mcHandleIO w fmt command file num = ⟨mcUsageText, .error e⟩) ∧
      (¬ McShowsUsage w [command, file, num] → mcHandleIO w fmt command file num = ⟨[], .error e⟩)) := by
  unfold mcHandle mcHandleIO
  rw [outM_lift_bind]
  have hS : McShowsUsage w [command, file, num] ↔ ∃ N, stringToLong w.libc num = .ok N ∧
      (N < 0 ∨ (∃ bB, readAndCheckBoundariesFile w.libc w.fs file = .ok bB) ∧ command ≠ "poisson".toList ∧ command ≠ "ecdf".toList) := by
    constructor
    · rintro (h | ⟨c, f, nn, N, h, h1, h2⟩)
      · exact absurd rfl h
      · simp only [List.cons.injEq, and_true] at h
        obtain ⟨rfl, rfl, rfl⟩ := h
        exact ⟨N, h1, h2⟩
    · rintro ⟨N, h1, h2⟩
      exact Or.inr ⟨command, file, num, N, rfl, h1, h2⟩
  rw [hS]
  have plain : ∀ m : M F, (∀ r, (m >>= fun p => .ok (one -ᶠ p)) = .ok r →
        (OutM.lift m >>= fun p => OutM.put (fmt (one -ᶠ p) ++ ['\n'])) = ⟨fmt r ++ ['\n'], .ok ()⟩) ∧
      (∀ e, (m >>= fun p => .ok (one -ᶠ p)) = .error e →
        (OutM.lift m >>= fun p => OutM.put (fmt (one -ᶠ p) ++ ['\n'])) = ⟨[], .error e⟩) := by
    intro m
    rw [outM_lift_bind]
    cases m with
    | ok a => refine ⟨fun r h => ?_, fun e h => ?_⟩ <;> cases h; rfl
    | error a => refine ⟨fun r h => ?_, fun e h => ?_⟩ <;> cases h; rfl
  cases hN : stringToLong w.libc num with
  | error e =>
    refine ⟨fun r h => (by cases h), fun e' h => ?_⟩
    obtain rfl : e = e' := by cases h; rfl
    exact ⟨fun ⟨N, h1, _⟩ => (by cases h1), fun _ => rfl⟩
  | ok N =>
    rw [M_ok_bind]
    dsimp only
    by_cases hneg : N < 0
    · simp only [if_pos hneg]
      refine ⟨fun r h => (by cases h), fun e h => ?_⟩
      cases h
      refine ⟨fun _ => ⟨⟨_, rfl⟩, ?_⟩, fun h => absurd ⟨N, rfl, Or.inl hneg⟩ h⟩
      simp only [outM_put_bind, OutM.lift, List.append_nil]
    · simp only [if_neg hneg]
      rw [outM_lift_bind]
      cases hr : readAndCheckBoundariesFile w.libc w.fs file with
      | error e =>
        refine ⟨fun r h => (by cases h), fun e' h => ?_⟩
        obtain rfl : e = e' := by cases h; rfl
        refine ⟨?_, fun _ => rfl⟩
        rintro ⟨N', h1, h2⟩
        cases h1
        rcases h2 with h2 | ⟨⟨_, h2⟩, -⟩
        · exact absurd h2 hneg
        · cases h2
      | ok bB =>
        obtain ⟨b, B⟩ := bB
        rw [M_ok_bind]
        dsimp only
        have not_of : ∀ c, command = c → (c = "poisson".toList ∨ c = "ecdf".toList) → ¬ ∃ N', (.ok N : M ℤ) = .ok N' ∧
            (N' < 0 ∨ (∃ bB : List F × List F, (.ok (b, B) : M (List F × List F)) = .ok bB) ∧ command ≠ "poisson".toList ∧ command ≠ "ecdf".toList) := by
          rintro c rfl hc ⟨N', h1, h2⟩
          cases h1
          rcases h2 with h2 | ⟨-, h3, h4⟩
          · exact hneg h2
          · exact hc.elim h3 h4
        by_cases k1 : command = "poisson".toList
        · simp only [if_pos k1]
          exact ⟨(plain _).1, fun e he => ⟨fun h => absurd h (not_of _ k1 (Or.inl rfl)), fun _ => (plain _).2 e he⟩⟩
        · by_cases k2 : command = "ecdf".toList
          · simp only [if_neg k1, if_pos k2]
            exact ⟨(plain _).1, fun e he => ⟨fun h => absurd h (not_of _ k2 (Or.inr rfl)), fun _ => (plain _).2 e he⟩⟩
          · simp only [if_neg k1, if_neg k2]
            refine ⟨fun r h => (by cases h), fun e he => ?_⟩
            cases he
            refine ⟨fun _ => ⟨⟨_, rfl⟩, ?_⟩, fun h => absurd ⟨N, rfl, Or.inr ⟨⟨_, rfl⟩, k1, k2⟩⟩ h⟩
            simp only [outM_put_bind, OutM.lift, List.append_nil]

/-- C59: the output and exit status of crossprob_mc in each of the cases of C48. -/
theorem C59_mc_output (w : McWorld F) (fmt : F → Str) (ioWhat : Str) (args : List Str) :
    match mcMain w args with
    | .printed r => mcRun w fmt ioWhat args = .exited 0 (fmt r ++ ['\n'])
    | .ioError => mcRun w fmt ioWhat args = .exited 1 ("ifstream::failure exception caught:\n".toList ++ ioWhat ++ ['\n'])
    | .error msg =>
        (McShowsUsage w args → mcRun w fmt ioWhat args = .exited 2 (mcUsageText ++ "runtime_error exception caught:\n".toList ++ whatText msg ++ ['\n'])) ∧
        (¬ McShowsUsage w args → mcRun w fmt ioWhat args = .exited 2 ("runtime_error exception caught:\n".toList ++ whatText msg ++ ['\n']))
    | .aborted => mcRun w fmt ioWhat args = .aborted
    | .undefined => mcRun w fmt ioWhat args = .undefined
    | .hangs => mcRun w fmt ioWhat args = .hangs := by
  by_cases h3 : args.length = 3
  · obtain ⟨command, file, num, rfl⟩ : ∃ a b c, args = [a, b, c] := by
      match args, h3 with
      | [a, b, c], _ => exact ⟨a, b, c, rfl⟩
    obtain ⟨k1, k2⟩ := mcHandleIO_eq w fmt command file num
    unfold mcMain mcRun
    dsimp only
    cases hh : mcHandle w command file num with
    | ok r => rw [k1 r hh]
    | error e =>
      obtain ⟨u1, u2⟩ := k2 e hh
      by_cases hs : McShowsUsage w [command, file, num]
      · obtain ⟨⟨msg, rfl⟩, u⟩ := u1 hs
        rw [u]
        exact ⟨fun _ => rfl, fun h => absurd hs h⟩
      · have u := u2 hs
        rw [u]
        cases e <;> dsimp only
        · exact ⟨fun h => absurd h hs, fun _ => rfl⟩
        · rfl
  · rw [C48_usage w args h3]
    refine ⟨fun _ => ?_, fun h => absurd (Or.inl h3) h⟩
    unfold mcRun
    split
    · exact absurd rfl h3
    · simp only [outM_put_bind, OutM.lift, List.append_nil]

end CP.Props
