import Verif.Model.Strings
/-
Model of src/read_boundaries_file.cc.
-/
namespace CP
variable {F : Type} [FOps F]

/-- What opening a path for reading finds. -/
inductive FileState where
  /-- `is_open()` is false afterwards: missing file, no permission -/
  | unreadable
  /-- opens, but the first read fails (a directory, an I/O error) -/
  | badRead
  /-- opens and has these contents -/
  | contents (text : Str)

/-- State of an open input stream whose exception mask is `failbit | badbit`: the unread text and
whether `eofbit` is set. -/
structure IStream where
  rest : Str
  eof : Bool

/-- `std::getline(f, line)` with the exception mask set: extracts up to and including the next newline
(which is dropped).  Setting `failbit` (end of file before any character, or the stream already at
end of file) throws.  Called in src/read_boundaries_file.cc:18 -/
def getline (f : IStream) : M (Str × IStream) :=
  if f.eof then .error .ioFailure
  else if f.rest = [] then .error .ioFailure
  else
    let line := f.rest.takeWhile fun c => c ≠ '\n'
    match f.rest.dropWhile fun c => c ≠ '\n' with
    | [] => .ok (line, { rest := [], eof := true })
    | _ :: rest => .ok (line, { rest := rest, eof := false })

/-- `read_next_line`.  src/read_boundaries_file.cc:14-22 -/
def readNextLine (libc : Libc F) (f : IStream) : M (List F × IStream) := do
  let (line, f) ← getline f
  let steps ← readCommaDelimitedDoubles libc line
  .ok (steps, f)

/-- Error text.  src/read_boundaries_file.cc:28 -/
def unableToReadMsg (filename : Str) : String :=
  String.ofList ("Unable to read input file '".toList ++ filename ++ ['\''])

/-- `read_and_check_boundaries_file`; `fs` is the file system.  src/read_boundaries_file.cc:24-36 -/
def readAndCheckBoundariesFile (libc : Libc F) (fs : Str → FileState) (filename : Str) : M (List F × List F) :=
  match fs filename with
  | .unreadable => .error (.runtimeError (unableToReadMsg filename))
  | .badRead => .error .ioFailure
  | .contents text => do
    let (b, f) ← readNextLine libc { rest := text, eof := false }
    let (B, _) ← readNextLine libc f
    .ok (b, B)

end CP
