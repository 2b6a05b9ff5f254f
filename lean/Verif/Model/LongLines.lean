import Verif.Model.Cli
import Verif.Model.MonteCarlo
/-
Lines and lists that are too long for an `int`: the functions of src/string_utils.cc, src/common.cc, src/read_boundaries_file.cc and
src/crossprob.cc with their casts `(int)s.size()`, `(int)v.size()` and `int n = ...` in 32-bit arithmetic (two's complement,
Makefile:13 has `-fwrapv`; conversion to `int` is modulo 2^32 in gcc and clang).  The rest of the model has exact sizes there.
-/
namespace CP
variable {F : Type} [FOps F]
open FOps

/-- `split`, with `(int)s.size()` as the end of the loop; `i`, `current_substring_start` stay below it, and `s.size() - start`
is a `size_t`.  src/string_utils.cc:60-75 -/
def split32 (s : Str) (delimiter : Char) : M (List Str) := do
  let (substrings, start) ← forRange 0 (wrap32 s.length) (([] : List Str), (0 : Int)) fun i st => do
    let c ← rd s i
    if c = delimiter then do
      let piece ← substr s st.2 (i - st.2)
      .ok (st.1 ++ [piece], i + 1)
    else .ok st
  let last ← substr s start (s.length - start)
  .ok (substrings ++ [last])

/-- `read_comma_delimited_doubles`.  src/string_utils.cc:77-89 -/
def readCommaDelimitedDoubles32 (libc : Libc F) (line : Str) : M (List F) := do
  let substrings ← split32 line ','
  (dropTrailingEmpty substrings).mapM (stringToDouble libc)

/-- `vector_to_string`, with `(int)v.size()` and `int(v.size())-1`.  src/string_utils.cc:91-102 -/
def vectorToString32 (fmt : F → Str) (v : List F) : M Str := do
  let ss ← forRange 0 (wrap32 v.length) ([] : Str) fun i ss => do
    let x ← rd v i
    let ss := ss ++ fmt x
    if i ≠ wrap32 (wrap32 v.length - 1) then .ok (ss ++ [',', ' ']) else .ok ss
  .ok (ss ++ ['\n'])

/-- `is_monotone_increasing`, which looks at the elements with an index below `(int)v.size()`.  src/common.cc:9-19 -/
def isMonotoneIncreasing32 (v : List F) : Bool := isMonotoneIncreasing (v.take (wrap32 v.length).toNat)

/-- `check_boundary_vector`, with `(int)v.size() != n`.  src/common.cc:21-40 -/
def checkBoundaryVector32 (name : String) (n : Int) (v : List F) : M Unit :=
  if wrap32 v.length ≠ n then .error (.runtimeError (lengthMsg name n v.length))
  else if !isMonotoneIncreasing32 v then .error (.runtimeError (monotoneMsg name n))
  else if outOfRange v then .error (.runtimeError (rangeMsg name n))
  else .ok ()

/-- `read_next_line`.  src/read_boundaries_file.cc:14-22 -/
def readNextLine32 (libc : Libc F) (f : IStream) : M (List F × IStream) := do
  let (line, f) ← getline f
  let steps ← readCommaDelimitedDoubles32 libc line
  .ok (steps, f)

/-- `read_and_check_boundaries_file`.  src/read_boundaries_file.cc:24-36 -/
def readAndCheckBoundariesFile32 (libc : Libc F) (fs : Str → FileState) (filename : Str) : M (List F × List F) :=
  match fs filename with
  | .unreadable => .error (.runtimeError (unableToReadMsg filename))
  | .badRead => .error .ioFailure
  | .contents text => do
    let (b, f) ← readNextLine32 libc { rest := text, eof := false }
    let (B, _) ← readNextLine32 libc f
    .ok (b, B)

/-- An `int` compared with or passed as a `size_t` (64 bits).  src/crossprob.cc:108, 112, 113, 117, 118, 128-138 -/
def toSizeT (n : Int) : Nat := (n % 2 ^ 64).toNat

/-- `calculate_ecdf2_ks2001` and `calculate_ecdf2_mn2017`, with `int n = max(b.size(), B.size())`.
src/crossprob.cc:105-123, 125-142 -/
def calculateEcdf2With32 (w : World F) (useFft : Bool) (b B : List F) : M F :=
  let n := wrap32 (max b.length B.length : Nat)
  if b.length = toSizeT n ∧ B.length = toSizeT n then ecdf2 w.env w.sort b B useFft
  else if b.length = 0 ∧ B.length = toSizeT n then ecdf2 w.env w.sort (List.replicate (toSizeT n) zero) B useFft
  else if b.length = toSizeT n ∧ B.length = 0 then ecdf2 w.env w.sort b (List.replicate (toSizeT n) one) useFft
  else .error (.runtimeError ecdf2LengthsMsg)

/-- `handle_command_line_arguments`.  src/crossprob.cc:144-174 -/
def handleCommandLineArguments32 (w : World F) (command filename : Str) : M F := do
  let (b, B) ← readAndCheckBoundariesFile32 w.libc w.fs filename
  if command = "ecdf1-mns2016".toList then calculateEcdf1Mns2016 w b B
  else if command = "ecdf1-new".toList then calculateEcdf1New w b B
  else if command = "ecdf2-ks2001".toList then calculateEcdf2With32 w false b B
  else if command = "ecdf2-mn2017".toList then calculateEcdf2With32 w true b B
  else .error (.runtimeError unknownCommandMsg)

/-- `main`.  src/crossprob.cc:176-195 -/
def crossprobMain32 (w : World F) (args : List Str) : ProcessEnd F :=
  match args with
  | [command, filename] =>
    match handleCommandLineArguments32 w command filename with
    | .ok result => .printed result
    | .error .ioFailure => .ioError
    | .error (.runtimeError msg) => .error msg
    | .error (.assertFailed _) => .aborted
    | .error (.uncaught _) => .aborted
    | .error (.ub _) => .undefined
    | .error .diverge => .hangs
  | _ => .usage

end CP
