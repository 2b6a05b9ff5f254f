import Verif.Model.Output
/-
Model of standard output as a device that may fail: `std::cout` (libstdc++, synchronised with stdio), the buffer of `stdout`
(glibc) and `write(2)`.  `Model/Output.lean` says what the programs write with `<<`; here: what arrives.
Simplifications: `write` accepts at least one byte or fails; signals are in `arrivedBy` (the process may be stopped at any time);
bytes are characters.
-/
namespace CP

/-- Operations of the programs on `cout`: `<<` of a string or number, and `<< endl`.
src/crossprob.cc:14-78, 171, 180-192, src/crossprob_mc.cc (all output) -/
inductive CoutOp where
  | put (s : Str)
  | endl

/-- The characters of an operation. -/
def CoutOp.text : CoutOp → Str
  | .put s => s
  | .endl => ['\n']

/-- What the programs mean to write. -/
def opsText (ops : List CoutOp) : Str := ops.flatMap CoutOp.text

/-- The device: the answer of each `write` in turn, `none` for an error, `some j` if `j + 1` bytes (or all, if there are fewer)
are accepted. -/
abbrev Device := Nat → Option Nat

/-- The loop of glibc's `_IO_new_file_write`: what is accepted, whether everything is, and the number of the next call. -/
def sysWrite (dev : Device) (k : Nat) (data : Str) : Str × Bool × Nat :=
  match data with
  | [] => ([], true, k)
  | c :: rest =>
    match dev k with
    | none => ([], false, k + 1)
    | some j =>
      let (w, ok, k') := sysWrite dev (k + 1) (rest.drop j)
      (c :: rest.take j ++ w, ok, k')
  termination_by data.length
  decreasing_by simp; omega

/-- `cout` and `stdout`. -/
structure Stdout where
  /-- what has arrived -/
  arrived : Str
  /-- the buffer of `stdout` -/
  buf : Str
  /-- `badbit` of `cout` -/
  bad : Bool
  /-- `write` calls so far -/
  calls : Nat

/-- Before `main`. -/
def Stdout.init : Stdout := ⟨[], [], false, 0⟩

/-- How `stdout` is buffered (fully, by lines, not at all): how many bytes are passed on when a string arrives while the buffer has
some contents. -/
abbrev Buffering := Str → Str → Nat

/-- Passing on the first `n` bytes of `data`; after an error the buffer is empty (glibc's `new_do_write` resets it). -/
def Stdout.pass (dev : Device) (s : Stdout) (data : Str) (n : Nat) : Stdout :=
  let (w, ok, k) := sysWrite dev s.calls (data.take n)
  if ok then { s with arrived := s.arrived ++ w, buf := data.drop n, calls := k }
  else { arrived := s.arrived ++ w, buf := [], bad := true, calls := k }

/-- One operation; nothing happens once `badbit` is set (the sentry of `operator<<` fails). -/
def Stdout.op (pol : Buffering) (dev : Device) (s : Stdout) (o : CoutOp) : Stdout :=
  if s.bad then s else
    match o with
    | .put t => s.pass dev (s.buf ++ t) (pol s.buf t)
    | .endl =>
      let s1 := s.pass dev (s.buf ++ ['\n']) (pol s.buf ['\n'])
      if s1.bad then s1 else s1.pass dev s1.buf s1.buf.length

/-- All operations. -/
def Stdout.ops (pol : Buffering) (dev : Device) (l : List CoutOp) (s : Stdout) : Stdout := l.foldl (Stdout.op pol dev) s

/-- What has arrived after the operations and the flush by `exit`, whose errors are ignored. -/
def arrivedAtExit (pol : Buffering) (dev : Device) (l : List CoutOp) : Str :=
  let s := Stdout.ops pol dev l Stdout.init
  (s.pass dev s.buf s.buf.length).arrived

/-- What has arrived if the process is killed after some of the operations (by SIGPIPE, say). -/
def arrivedBy (pol : Buffering) (dev : Device) (l : List CoutOp) (k : Nat) : Str :=
  (Stdout.ops pol dev (l.take k) Stdout.init).arrived

end CP
