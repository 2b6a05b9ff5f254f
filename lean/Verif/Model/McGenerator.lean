import Verif.Model.Output
/-
crossprob_mc with the random number generator as a parameter.
-/
namespace CP
open FOps
variable {F : Type} [FOps F] [FBits F]

/-- A random number generator: states, seeding and drawing a number.  In the program: `TinyMT64` (src/tinymt64.cc,
src/tinymt64.h:94-148), constructed in uninitialised memory. -/
structure Generator (F : Type) where
  State : Type
  seed : BitVec 64 → State
  uniform : State → F × State

/-- The generator of the program. -/
noncomputable def tinymtGenerator (junk : TinyMT) : Generator F := ⟨TinyMT, junk.init, TinyMT.generateDouble01⟩

/-- `handle_command_line_arguments` as in `mcHandleIO`, with generator `g`.  src/crossprob_mc.cc:192-227 -/
noncomputable def mcHandleIOWith (g : Generator F) (w : McWorld F) (fmt : F → Str) (command filename numSims : Str) : OutM Unit := do
  let numSimulations ← OutM.lift (stringToLong w.libc numSims)
  if numSimulations < 0 then do
    OutM.put mcUsageText
    .lift (.error (.runtimeError "num-simulations must be non-negative!"))
  else do
    let (b, B) ← OutM.lift (readAndCheckBoundariesFile w.libc w.fs filename)
    let n : Int := (max b.length B.length : Nat)
    if command = "poisson".toList then do
      let p ← OutM.lift (poissonMc w.asserts g.uniform
        ((poissonSeed w.time (ofInt n : F)).map g.seed) (ofInt n) b B numSimulations)
      OutM.put (fmt (one -ᶠ p) ++ ['\n'])
    else if command = "ecdf".toList then do
      let p ← OutM.lift (ecdfMc g.uniform (g.seed (BitVec.ofInt 64 (w.time + n * 2 ^ 20))) n b B numSimulations)
      OutM.put (fmt (one -ᶠ p) ++ ['\n'])
    else do
      OutM.put mcUsageText
      .lift (.error (.runtimeError "Second command line argument must be 'ecdf' or 'poisson'"))

/-- `main` as in `mcRun`, with generator `g`.  src/crossprob_mc.cc:192-197, 229-243 -/
noncomputable def mcRunWith (g : Generator F) (w : McWorld F) (fmt : F → Str) (ioWhat : Str) (args : List Str) : RunEnd :=
  let r : OutM Unit := match args with
    | [command, filename, numSims] => mcHandleIOWith g w fmt command filename numSims
    | _ => do
      OutM.put mcUsageText
      .lift (.error (.runtimeError "Expecting 3 command line arguments!"))
  match r.result with
  | .ok _ => .exited 0 r.text
  | .error .ioFailure => .exited 1 (r.text ++ "ifstream::failure exception caught:\n".toList ++ ioWhat ++ ['\n'])
  | .error (.runtimeError msg) => .exited 2 (r.text ++ "runtime_error exception caught:\n".toList ++ whatText msg ++ ['\n'])
  | .error (.assertFailed _) => .aborted
  | .error (.uncaught _) => .aborted
  | .error (.ub _) => .undefined
  | .error .diverge => .hangs

/-- With the generator of the program it is the program. -/
theorem mcRunWith_tinymt (w : McWorld F) (fmt : F → Str) (ioWhat : Str) (args : List Str) :
    mcRunWith (tinymtGenerator w.junk) w fmt ioWhat args = mcRun w fmt ioWhat args := rfl

end CP
