import Verif.Model.Output
import Verif.Proofs.Output
import Verif.Props.Cli
import Verif.Props.McMain
/-
Property C59: what the programs print.
-/
open MeasureTheory Set
namespace CP.Props
open CP.Spec FOps
variable {F : Type} [FOps F]

theorem outM_lift_bind {α β : Type} (m : M α) (f : α → OutM β) :
    (OutM.lift m >>= f) = match m with | .ok a => f a | .error e => ⟨[], .error e⟩ := by
  show OutM.bind _ _ = _
  unfold OutM.bind OutM.lift
  cases m <;> simp

theorem outM_put_bind {β : Type} (s : Str) (f : Unit → OutM β) :
    (OutM.put s >>= f) = ⟨s ++ (f ()).text, (f ()).result⟩ := rfl

/-- The command is none of the four algorithms. -/
def UnknownCommand (command : Str) : Prop :=
  command ∉ (["ecdf1-mns2016", "ecdf1-new", "ecdf2-ks2001", "ecdf2-mn2017"].map String.toList)

/-- The command is one of the two one-sided algorithms. -/
def OneSidedCommand (command : Str) : Prop := command ∈ (["ecdf1-mns2016", "ecdf1-new"].map String.toList)

/-- When the usage text precedes an error message: the file could be read, and the command is unknown or is a one-sided
algorithm given two boundaries or none. -/
def ShowsUsage (w : World F) (command filename : Str) : Prop :=
  ∃ b B, readAndCheckBoundariesFile w.libc w.fs filename = .ok (b, B) ∧
    (UnknownCommand command ∨ OneSidedCommand command ∧ (b = [] ↔ B = []))

theorem handleIO_eq (w : World F) (fmt : F → Str) (command filename : Str) :
    (∀ r, handleCommandLineArguments w command filename = .ok r →
      handleCommandLineArgumentsIO w fmt command filename = ⟨fmt r ++ ['\n'], .ok ()⟩) ∧
    (∀ e, handleCommandLineArguments w command filename = .error e →
      (ShowsUsage w command filename → (∃ msg, e = .runtimeError msg) ∧ handleCommandLineArgumentsIO w fmt command filename = ⟨usageText, .error e⟩) ∧
      (¬ ShowsUsage w command filename → handleCommandLineArgumentsIO w fmt command filename = ⟨[], .error e⟩)) := by
  unfold handleCommandLineArguments handleCommandLineArgumentsIO
  rw [outM_lift_bind]
  cases hr : readAndCheckBoundariesFile w.libc w.fs filename with
  | error e =>
    refine ⟨fun r h => (by cases h), fun e' h => ?_⟩
    obtain rfl : e = e' := by cases h; rfl
    refine ⟨fun ⟨b, B, h1, _⟩ => ?_, fun _ => rfl⟩
    rw [hr] at h1; cases h1
  | ok bb =>
    obtain ⟨b, B⟩ := bb
    rw [M_ok_bind]
    dsimp only
    have hS : ShowsUsage w command filename ↔ (UnknownCommand command ∨ OneSidedCommand command ∧ (b = [] ↔ B = [])) := by
      constructor
      · rintro ⟨b', B', h1, h2⟩
        rw [hr] at h1
        cases h1
        exact h2
      · intro h; exact ⟨b, B, hr, h⟩
    rw [hS]
    have plain : ∀ m : M F, (∀ r, m = .ok r → (OutM.lift m >>= fun result => OutM.put (fmt result ++ ['\n'])) = ⟨fmt r ++ ['\n'], .ok ()⟩) ∧
        (∀ e, m = .error e → (OutM.lift m >>= fun result => OutM.put (fmt result ++ ['\n'])) = ⟨[], .error e⟩) := by
      intro m
      rw [outM_lift_bind]
      constructor
      · rintro r rfl; rfl
      · rintro e rfl; rfl
    have side : ∀ (m1 m2 : M F) (msg : String), command ∈ ["ecdf1-mns2016".toList, "ecdf1-new".toList] →
        (∀ r, (if b.length > 0 ∧ B.length = 0 then m1 else if b.length = 0 ∧ B.length > 0 then m2 else .error (.runtimeError msg)) = .ok r →
          ((if b.length > 0 ∧ B.length = 0 then OutM.lift m1 else if b.length = 0 ∧ B.length > 0 then OutM.lift m2 else do
            OutM.put usageText
            OutM.lift (.error (.runtimeError msg))) >>= fun result => OutM.put (fmt result ++ ['\n'])) = ⟨fmt r ++ ['\n'], .ok ()⟩) ∧
        (∀ e, (if b.length > 0 ∧ B.length = 0 then m1 else if b.length = 0 ∧ B.length > 0 then m2 else .error (.runtimeError msg)) = .error e →
          ((UnknownCommand command ∨ OneSidedCommand command ∧ (b = [] ↔ B = [])) → (∃ msg, e = .runtimeError msg) ∧
          ((if b.length > 0 ∧ B.length = 0 then OutM.lift m1 else if b.length = 0 ∧ B.length > 0 then OutM.lift m2 else do
            OutM.put usageText
            OutM.lift (.error (.runtimeError msg))) >>= fun result => OutM.put (fmt result ++ ['\n'])) = ⟨usageText, .error e⟩) ∧
          (¬ (UnknownCommand command ∨ OneSidedCommand command ∧ (b = [] ↔ B = [])) →
          ((if b.length > 0 ∧ B.length = 0 then OutM.lift m1 else if b.length = 0 ∧ B.length > 0 then OutM.lift m2 else do
            OutM.put usageText
            OutM.lift (.error (.runtimeError msg))) >>= fun result => OutM.put (fmt result ++ ['\n'])) = ⟨[], .error e⟩)) := by
      intro m1 m2 msg hc
      have hnu : ¬ UnknownCommand command := by
        intro h
        apply h
        simp only [List.mem_cons, List.not_mem_nil, or_false, List.map_cons, List.map_nil] at hc ⊢
        exact hc.elim Or.inl fun h => Or.inr (Or.inl h)
      have hone : OneSidedCommand command := hc
      by_cases c1 : b.length > 0 ∧ B.length = 0
      · simp only [if_pos c1]
        have hne : ¬ (b = [] ↔ B = []) := by
          intro h
          have hB := List.length_eq_zero_iff.mp c1.2
          have := h.mpr hB
          rw [this] at c1
          simp at c1
        refine ⟨(plain m1).1, fun e he => ⟨fun h => ?_, fun _ => (plain m1).2 e he⟩⟩
        rcases h with h | h
        · exact absurd h hnu
        · exact absurd h.2 hne
      · simp only [if_neg c1]
        by_cases c2 : b.length = 0 ∧ B.length > 0
        · simp only [if_pos c2]
          have hne : ¬ (b = [] ↔ B = []) := by
            intro h
            have := h.mp (List.length_eq_zero_iff.mp c2.1)
            rw [this] at c2
            simp at c2
          refine ⟨(plain m2).1, fun e he => ⟨fun h => ?_, fun _ => (plain m2).2 e he⟩⟩
          rcases h with h | h
          · exact absurd h hnu
          · exact absurd h.2 hne
        · simp only [if_neg c2]
          have hiff : b = [] ↔ B = [] := by
            rw [← List.length_eq_zero_iff, ← List.length_eq_zero_iff]
            omega
          refine ⟨fun r h => (by cases h), fun e he => ⟨fun _ => ?_, fun h => absurd (Or.inr ⟨hone, hiff⟩) h⟩⟩
          cases he
          refine ⟨⟨_, rfl⟩, ?_⟩
          show OutM.bind (OutM.bind _ _) _ = _
          simp [OutM.bind, OutM.put, OutM.lift]
    have two : ∀ (m : M F), command ∈ ["ecdf2-ks2001".toList, "ecdf2-mn2017".toList] →
        (∀ r, m = .ok r → (OutM.lift m >>= fun result => OutM.put (fmt result ++ ['\n'])) = ⟨fmt r ++ ['\n'], .ok ()⟩) ∧
        (∀ e, m = .error e → ((UnknownCommand command ∨ OneSidedCommand command ∧ (b = [] ↔ B = [])) → (∃ msg, e = .runtimeError msg) ∧
            (OutM.lift m >>= fun result => OutM.put (fmt result ++ ['\n'])) = ⟨usageText, .error e⟩) ∧
          (¬ (UnknownCommand command ∨ OneSidedCommand command ∧ (b = [] ↔ B = [])) →
            (OutM.lift m >>= fun result => OutM.put (fmt result ++ ['\n'])) = ⟨[], .error e⟩)) := by
      intro m hc
      have hnu : ¬ UnknownCommand command := by
        intro h
        apply h
        simp only [List.mem_cons, List.not_mem_nil, or_false, List.map_cons, List.map_nil] at hc ⊢
        exact Or.inr (Or.inr hc)
      have hone : ¬ OneSidedCommand command := by
        unfold OneSidedCommand
        simp only [List.mem_cons, List.not_mem_nil, or_false, List.map_cons, List.map_nil] at hc ⊢
        have n1 : ("ecdf1-mns2016".toList ≠ "ecdf2-ks2001".toList) := by decide
        have n2 : ("ecdf1-mns2016".toList ≠ "ecdf2-mn2017".toList) := by decide
        have n3 : ("ecdf1-new".toList ≠ "ecdf2-ks2001".toList) := by decide
        have n4 : ("ecdf1-new".toList ≠ "ecdf2-mn2017".toList) := by decide
        rintro (h | h) <;> rcases hc with h' | h' <;> rw [h] at h'
        · exact n1 h'
        · exact n2 h'
        · exact n3 h'
        · exact n4 h'
      refine ⟨(plain m).1, fun e he => ⟨fun h => ?_, fun _ => (plain m).2 e he⟩⟩
      rcases h with h | h
      · exact absurd h hnu
      · exact absurd h.1 hone
    by_cases k1 : command = "ecdf1-mns2016".toList
    · simp only [if_pos k1]
      unfold calculateEcdf1Mns2016 calculateEcdf1Mns2016IO
      exact side _ _ _ (by rw [k1]; simp)
    · by_cases k2 : command = "ecdf1-new".toList
      · simp only [if_neg k1, if_pos k2]
        unfold calculateEcdf1New calculateEcdf1NewIO
        exact side _ _ _ (by rw [k2]; simp)
      · by_cases k3 : command = "ecdf2-ks2001".toList
        · simp only [if_neg k1, if_neg k2, if_pos k3]
          exact two _ (by rw [k3]; simp)
        · by_cases k4 : command = "ecdf2-mn2017".toList
          · simp only [if_neg k1, if_neg k2, if_neg k3, if_pos k4]
            exact two _ (by rw [k4]; simp)
          · simp only [if_neg k1, if_neg k2, if_neg k3, if_neg k4]
            have hu : UnknownCommand command := by
              unfold UnknownCommand
              simp only [List.mem_cons, List.not_mem_nil, or_false, List.map_cons, List.map_nil, not_or]
              exact ⟨k1, k2, k3, k4⟩
            refine ⟨fun r h => (by cases h), fun e he => ⟨fun _ => ?_, fun h => absurd (Or.inl hu) h⟩⟩
            cases he
            refine ⟨⟨_, rfl⟩, ?_⟩
            simp only [outM_put_bind, outM_lift_bind, List.append_nil]

/-- C59: the output and exit status of crossprob in each of the cases of C26.  Everything goes to standard output.  A success
prints exactly one line, the number.  An error message is preceded by the usage text if and only if the file was readable and
the command is unknown or a one-sided algorithm was given two boundaries or none. -/
theorem C59_output (w : World F) (fmt : F → Str) (ioWhat : Str) (args : List Str) :
    match crossprobMain w args with
    | .printed r => crossprobRun w fmt ioWhat args = .exited 0 (fmt r ++ ['\n'])
    | .usage => crossprobRun w fmt ioWhat args = .exited 1 (usageText ++ "Error: Expecting 2 command line arguments!\n".toList)
    | .ioError => crossprobRun w fmt ioWhat args = .exited 2 ("ifstream::failure exception caught:\n".toList ++ ioWhat ++ ['\n'])
    | .error msg => ∃ command filename, args = [command, filename] ∧
        (ShowsUsage w command filename → crossprobRun w fmt ioWhat args = .exited 3 (usageText ++ "Error:\n".toList ++ whatText msg ++ ['\n'])) ∧
        (¬ ShowsUsage w command filename → crossprobRun w fmt ioWhat args = .exited 3 ("Error:\n".toList ++ whatText msg ++ ['\n']))
    | .aborted => crossprobRun w fmt ioWhat args = .aborted
    | .undefined => crossprobRun w fmt ioWhat args = .undefined
    | .hangs => crossprobRun w fmt ioWhat args = .hangs := by
  by_cases h2 : args.length = 2
  · obtain ⟨command, filename, rfl⟩ : ∃ a b, args = [a, b] := by
      match args, h2 with
      | [a, b], _ => exact ⟨a, b, rfl⟩
    obtain ⟨k1, k2⟩ := handleIO_eq w fmt command filename
    unfold crossprobMain crossprobRun
    dsimp only
    cases hh : handleCommandLineArguments w command filename with
    | ok r => rw [k1 r hh]
    | error e =>
      obtain ⟨u1, u2⟩ := k2 e hh
      by_cases hs : ShowsUsage w command filename
      · obtain ⟨⟨msg, rfl⟩, u⟩ := u1 hs
        rw [u]
        exact ⟨command, filename, rfl, fun _ => rfl, fun h => absurd hs h⟩
      · have u := u2 hs
        rw [u]
        cases e <;> dsimp only
        · exact ⟨command, filename, rfl, fun h => absurd h hs, fun _ => rfl⟩
        · rfl
  · rw [(C26_usage w args).mpr h2]
    dsimp only
    unfold crossprobRun
    split
    · simp at h2
    · rfl

end CP.Props
