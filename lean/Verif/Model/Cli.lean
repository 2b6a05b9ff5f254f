import Verif.Model.ReadFile
import Verif.Model.Ecdf2
import Verif.Model.Mns2016
/-
Model of src/crossprob.cc (the command line program).  The usage text and the formatting of the
result by `operator<<` are not modelled: a successful run is represented by the number it prints.
-/
namespace CP
variable {F : Type} [FOps F]
open FOps

/-- Everything the program depends on besides its arguments. -/
structure World (F : Type) where
  env : Env F
  sort : List (Bound F) → List (Bound F)
  isqrt : Nat → Nat
  libc : Libc F
  fs : Str → FileState

/-- `calculate_ecdf1_mns2016`.  src/crossprob.cc:81-91 -/
def calculateEcdf1Mns2016 (w : World F) (b B : List F) : M F :=
  if b.length > 0 ∧ B.length = 0 then ecdf1Mns2016b w.env b
  else if b.length = 0 ∧ B.length > 0 then ecdf1Mns2016B w.env B
  else .error (.runtimeError "Expecting EITHER a lower or an upper boundary function when using the 'ecdf1-mns2016' command for computing a one-sided boundary crossing.\n")

/-- `calculate_ecdf1_new`.  src/crossprob.cc:93-103 -/
def calculateEcdf1New (w : World F) (b B : List F) : M F :=
  if b.length > 0 ∧ B.length = 0 then ecdf1Newb w.env w.isqrt b
  else if b.length = 0 ∧ B.length > 0 then ecdf1NewB w.env w.isqrt B
  else .error (.runtimeError "Expecting EITHER a lower or an upper boundary function when using the 'ecdf1-m2020' command for computing a one-sided boundary crossing.\n")

/-- Error text of the `ecdf2-*` commands.  src/crossprob.cc:122, 141 -/
def ecdf2LengthsMsg : String :=
  "Expecting either two boundary lists of length n or one list of length n and one of length zero"

/-- `calculate_ecdf2_ks2001`.  src/crossprob.cc:105-123 -/
def calculateEcdf2Ks2001 (w : World F) (b B : List F) : M F :=
  let n := max b.length B.length
  if b.length = n ∧ B.length = n then ecdf2 w.env w.sort b B false
  else if b.length = 0 ∧ B.length = n then ecdf2 w.env w.sort (List.replicate n zero) B false
  else if b.length = n ∧ B.length = 0 then ecdf2 w.env w.sort b (List.replicate n one) false
  else .error (.runtimeError ecdf2LengthsMsg)

/-- `calculate_ecdf2_mn2017`.  src/crossprob.cc:125-142 -/
def calculateEcdf2Mn2017 (w : World F) (b B : List F) : M F :=
  let n := max b.length B.length
  if b.length = n ∧ B.length = n then ecdf2 w.env w.sort b B true
  else if b.length = 0 ∧ B.length = n then ecdf2 w.env w.sort (List.replicate n zero) B true
  else if b.length = n ∧ B.length = 0 then ecdf2 w.env w.sort b (List.replicate n one) true
  else .error (.runtimeError ecdf2LengthsMsg)

/-- Error text for an unknown command.  src/crossprob.cc:168 -/
def unknownCommandMsg : String :=
  "Second command line argument must be one of: 'ecdf1-mns2016', 'ecdf1-new', 'ecdf2-ks2001', 'ecdf2-mn2017'."

/-- `handle_command_line_arguments`: the printed number.  src/crossprob.cc:144-174 -/
def handleCommandLineArguments (w : World F) (command filename : Str) : M F := do
  let (b, B) ← readAndCheckBoundariesFile w.libc w.fs filename
  if command = "ecdf1-mns2016".toList then calculateEcdf1Mns2016 w b B
  else if command = "ecdf1-new".toList then calculateEcdf1New w b B
  else if command = "ecdf2-ks2001".toList then calculateEcdf2Ks2001 w b B
  else if command = "ecdf2-mn2017".toList then calculateEcdf2Mn2017 w b B
  else .error (.runtimeError unknownCommandMsg)

/-- How the process ends. -/
inductive ProcessEnd (F : Type) where
  /-- exit code 0, having printed the number -/
  | printed (result : F)
  /-- exit code 1: usage and "Expecting 2 command line arguments!" -/
  | usage
  /-- exit code 2: "ifstream::failure exception caught" -/
  | ioError
  /-- exit code 3: "Error:" and the message -/
  | error (msg : String)
  /-- killed by SIGABRT (failed assertion or uncaught exception) -/
  | aborted
  /-- undefined behaviour: anything can happen -/
  | undefined
  /-- never ends -/
  | hangs

/-- Exit status, where there is one. -/
def ProcessEnd.exitCode : ProcessEnd F → Option Nat
  | .printed _ => some 0
  | .usage => some 1
  | .ioError => some 2
  | .error _ => some 3
  | _ => none

/-- `main`; `args` are the arguments after the program name (`argc - 1` of them).
src/crossprob.cc:176-195 -/
def crossprobMain (w : World F) (args : List Str) : ProcessEnd F :=
  match args with
  | [command, filename] =>
    match handleCommandLineArguments w command filename with
    | .ok result => .printed result
    | .error .ioFailure => .ioError
    | .error (.runtimeError msg) => .error msg
    | .error (.assertFailed _) => .aborted
    | .error (.uncaught _) => .aborted
    | .error (.ub _) => .undefined
    | .error .diverge => .hangs
  | _ => .usage

end CP
