import Verif.Model.FastNew
import Verif.Model.FastMns
/-
The command-line program with all three algorithms as compiled with `-ffast-math`: `ecdf2` (`Model/FastMath.lean`), `ecdf1_new`
(`Model/FastNew.lean`) and `ecdf1_mns2016` (`Model/FastMns.lean`, with two number types).  Everything else is as in `Model/Output.lean`:
the rest of the program compares and copies doubles.
-/
namespace CP
open FOps
variable {F G : Type} [FOps F] [FOps G]

/-- The compiled program: `ecdf2` of `calculate_ecdf2_ks2001`, `ecdf2` of `calculate_ecdf2_mn2017`, `ecdf1_new`, `ecdf1_mns2016`, `long double`. -/
structure FastProgram (F G : Type) where
  ks2001 : FastCode F
  mn2017 : FastCode F
  new : FastCodeNew F
  mns : MnsCode G
  long : LongDouble F G

/-- `calculate_ecdf2_ks2001` (`useFft = false`), `calculate_ecdf2_mn2017` (`useFft = true`).  src/crossprob.cc:105-142 -/
def calculateEcdf2Fast (c : FastCode F) (w : World F) (useFft : Bool) (b B : List F) : M F :=
  let n := max b.length B.length
  if b.length = n ∧ B.length = n then ecdf2Fast c w.env w.sort b B useFft
  else if b.length = 0 ∧ B.length = n then ecdf2Fast c w.env w.sort (List.replicate n zero) B useFft
  else if b.length = n ∧ B.length = 0 then ecdf2Fast c w.env w.sort b (List.replicate n one) useFft
  else .error (.runtimeError ecdf2LengthsMsg)

/-- `calculate_ecdf1_new`.  src/crossprob.cc:93-103 -/
def calculateEcdf1NewIOFast (c : FastCodeNew F) (w : World F) (b B : List F) : OutM F :=
  if b.length > 0 ∧ B.length = 0 then .lift (ecdf1NewbFast c w.env w.isqrt b)
  else if b.length = 0 ∧ B.length > 0 then .lift (ecdf1NewBFast c w.env w.isqrt B)
  else do
    OutM.put usageText
    .lift (.error (.runtimeError "Expecting EITHER a lower or an upper boundary function when using the 'ecdf1-m2020' command for computing a one-sided boundary crossing.\n"))

/-- `handle_command_line_arguments`.  src/crossprob.cc:144-174 -/
def handleCommandLineArgumentsIOFast (p : FastProgram F G) (w : World F) (fmt : F → Str) (command filename : Str) : OutM Unit := do
  let (b, B) ← OutM.lift (readAndCheckBoundariesFile w.libc w.fs filename)
  let result ←
    if command = "ecdf1-mns2016".toList then calculateEcdf1Mns2016IOXFast p.mns p.long w b B
    else if command = "ecdf1-new".toList then calculateEcdf1NewIOFast p.new w b B
    else if command = "ecdf2-ks2001".toList then .lift (calculateEcdf2Fast p.ks2001 w false b B)
    else if command = "ecdf2-mn2017".toList then .lift (calculateEcdf2Fast p.mn2017 w true b B)
    else do
      OutM.put usageText
      .lift (.error (.runtimeError unknownCommandMsg))
  OutM.put (fmt result ++ ['\n'])

/-- `main`.  src/crossprob.cc:176-195 -/
def crossprobRunFast (p : FastProgram F G) (w : World F) (fmt : F → Str) (ioWhat : Str) (args : List Str) : RunEnd :=
  match args with
  | [command, filename] =>
    let r := handleCommandLineArgumentsIOFast p w fmt command filename
    match r.result with
    | .ok _ => .exited 0 r.text
    | .error .ioFailure => .exited 2 (r.text ++ "ifstream::failure exception caught:\n".toList ++ ioWhat ++ ['\n'])
    | .error (.runtimeError msg) => .exited 3 (r.text ++ "Error:\n".toList ++ whatText msg ++ ['\n'])
    | .error (.assertFailed _) => .aborted
    | .error (.uncaught _) => .aborted
    | .error (.ub _) => .undefined
    | .error .diverge => .hangs
  | _ => .exited 1 (usageText ++ "Error: Expecting 2 command line arguments!\n".toList)

end CP
