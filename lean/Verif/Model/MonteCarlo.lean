import Verif.Model.TinyMT
import Verif.Model.While
import Verif.Model.ReadFile
import Verif.Model.Common
/-
Model of src/crossprob_mc.cc.  The simulation functions take the uniform generator as a parameter
`uniform : S → F × S`; the program instantiates it with TinyMT (`TinyMT.generateDouble01`).
Sizes are unbounded integers, except where the code uses a 32-bit counter.
-/
namespace CP
variable {F : Type} [FOps F] {S : Type}
open FOps

/-- `for (i = lo; ...) { if (test(i)) return true; } return false` over `k` iterations. -/
def anyFrom (test : Int → M Bool) : Nat → Int → M Bool
  | 0, _ => .ok false
  | k + 1, i => do
    let t ← test i
    if t then .ok true else anyFrom test k (i + 1)

/-- `does_integer_step_function_cross_lower_boundary`.  src/crossprob_mc.cc:47-59 -/
def crossLower (steps : List F) (numSteps : Int) (B : List F) : M Bool :=
  if numSteps < B.length then .ok true
  else anyFrom (fun i => do
    let s ← rd steps i
    let x ← rd B i
    .ok (lt x s)) B.length 0

/-- `does_integer_step_function_cross_upper_boundary`.  src/crossprob_mc.cc:61-73 -/
def crossUpper (steps : List F) (numSteps : Int) (b : List F) : M Bool :=
  if numSteps > b.length then .ok true
  else anyFrom (fun i => do
    let s ← rd steps i
    let x ← rd b i
    .ok (lt s x)) numSteps.toNat 0

/-- `does_integer_step_function_cross`.  src/crossprob_mc.cc:75-86 -/
def stepFunctionCross (steps : List F) (numSteps : Int) (b B : List F) : M Bool :=
  if b.length = 0 then crossLower steps numSteps B
  else if numSteps < B.length ∨ numSteps > b.length then .ok true
  else do
    let c ← crossLower steps numSteps B
    if c then .ok true else crossUpper steps numSteps b

/-- `generate_exponential(beta)`: `-beta * log(generate_uniform01())`.  src/crossprob_mc.cc:26-29, 37-40 -/
def genExp (uniform : S → F × S) (beta : F) (s : S) : F × S :=
  (neg beta *ᶠ log (uniform s).1, (uniform s).2)

/-- `does_random_ecdf_cross`: result, generator and buffer afterwards.  (The C++ function returns the
`bool` converted to `double`.)  src/crossprob_mc.cc:88-100 -/
def randomEcdfCross (uniform : S → F × S) (b B : List F) (s : S) (buf : List F) : M (Bool × S × List F) := do
  let (lastX, s, buf) ← forRange 0 buf.length (zero, s, buf) fun i (st : F × S × List F) => do
    let e := genExp uniform one st.2.1
    let lastX := st.1 +ᶠ e.1
    let buf ← wr st.2.2 i lastX
    .ok (lastX, e.2, buf)
  let e := genExp uniform one s
  let normalizing := lastX +ᶠ e.1
  let buf ← forRange 0 buf.length buf fun i buf => do
    let x ← rd buf i
    wr buf i (x /ᶠ normalizing)
  let _ ← addrOf buf 0
  let c ← stepFunctionCross buf buf.length b B
  .ok (c, e.2, buf)

/-- 32-bit `int` wrap-around (the Makefile compiles with `-fwrapv`). -/
def wrap32 (x : Int) : Int := Int.bmod x (2 ^ 32)

/-- `INT_MAX` -/
def INT_MAX : Int := 2 ^ 31 - 1

/-- State of the simulation loops. -/
structure McState (F S : Type) where
  reps : Int
  count : Int
  rng : S
  buf : List F

/-- `for (int reps = 0; reps < num_simulations; ++reps)`: one iteration of the `ecdf` loop.  The
`int += double` converts the sum back to `int`, which is undefined if it does not fit (the sum itself
is exact).  src/crossprob_mc.cc:115-117 -/
def ecdfMcBody (uniform : S → F × S) (b B : List F) (st : McState F S) : M (McState F S) := do
  let (c, s, buf) ← randomEcdfCross uniform b B st.rng st.buf
  let count := st.count + (if c then 1 else 0)
  if count ≤ INT_MAX then
    .ok { reps := wrap32 (st.reps + 1), count := count, rng := s, buf := buf }
  else .error (.ub "double to int conversion out of range")

/-- `ecdf_crossing_probability_montecarlo` after the generator has been created in state `rng`.
src/crossprob_mc.cc:102-120 -/
noncomputable def ecdfMc (uniform : S → F × S) (rng : S) (n : Int) (b B : List F) (numSimulations : Int) : M F :=
  if (B.length : Int) > n then .ok one
  else if 0 < b.length ∧ (b.length : Int) < n then .ok one
  else do
    let st ← whileM (fun st : McState F S => decide (st.reps < numSimulations)) (ecdfMcBody uniform b B)
      { reps := 0, count := 0, rng := rng, buf := List.replicate n.toNat zero }
    .ok (ofInt st.count /ᶠ ofInt numSimulations)

/-- State of the `while (true)` loop of `does_random_poisson_process_cross`; `done` holds the returned
value once `return` has been executed. -/
structure PoissonState (F S : Type) where
  numSteps : Int
  lastX : F
  rng : S
  buf : List F
  done : Option Bool

/-- One iteration.  src/crossprob_mc.cc:130-138 -/
def poissonBody (uniform : S → F × S) (beta : F) (b B : List F) (st : PoissonState F S) : M (PoissonState F S) := do
  let e := genExp uniform beta st.rng
  let lastX := st.lastX +ᶠ e.1
  if lt one lastX then do
    let _ ← addrOf st.buf 0
    let c ← stepFunctionCross st.buf st.numSteps b B
    .ok { st with lastX := lastX, rng := e.2, done := some c }
  else if st.numSteps ≥ b.length then
    .ok { st with lastX := lastX, rng := e.2, done := some true }
  else do
    let buf ← wr st.buf st.numSteps lastX
    .ok { numSteps := st.numSteps + 1, lastX := lastX, rng := e.2, buf := buf, done := none }

/-- `does_random_poisson_process_cross`.  src/crossprob_mc.cc:122-140 -/
noncomputable def randomPoissonCross (asserts : Bool) (uniform : S → F × S) (beta : F) (b B : List F) (s : S) (buf : List F) :
    M (Bool × S × List F) := do
  let _ ← assertC asserts (decide (buf.length ≥ b.length)) "tmp_buffer.size() >= max_steps"
  let st ← whileM (fun st : PoissonState F S => st.done.isNone) (poissonBody uniform beta b B)
    { numSteps := 0, lastX := zero, rng := s, buf := buf, done := none }
  .ok (st.done.getD true, st.rng, st.buf)

/-- One iteration of the `poisson` simulation loop (`int += bool`, wrapping).  src/crossprob_mc.cc:152-154 -/
noncomputable def poissonMcBody (asserts : Bool) (uniform : S → F × S) (beta : F) (b B : List F) (st : McState F S) :
    M (McState F S) := do
  let (c, s, buf) ← randomPoissonCross asserts uniform beta b B st.rng st.buf
  .ok { reps := wrap32 (st.reps + 1), count := wrap32 (st.count + if c then 1 else 0), rng := s, buf := buf }

/-- `poisson_process_crossing_probability_montecarlo` with the generator in state `rng`; the seed
computation is in `poissonSeed`.  src/crossprob_mc.cc:142-157 -/
noncomputable def poissonMc (asserts : Bool) (uniform : S → F × S) (seedToRng : M S) (intensity : F) (b B : List F)
    (numSimulations : Int) : M F :=
  if 0 < b.length ∧ b.length < B.length then .ok one
  else do
    let rng ← seedToRng
    let beta := one /ᶠ intensity
    let st ← whileM (fun st : McState F S => decide (st.reps < numSimulations)) (poissonMcBody asserts uniform beta b B)
      { reps := 0, count := 0, rng := rng, buf := List.replicate (b.length + 1) zero }
    .ok (ofInt st.count /ᶠ ofInt numSimulations)

variable [FBits F]

/-- `time(NULL) + (int)(intensity*1000000.0)`: converting a floating point number that does not fit into an
`int` is undefined behaviour.  src/crossprob_mc.cc:148 -/
def poissonSeed (time : Int) (intensity : F) : M (BitVec 64) :=
  match FBits.trunc (intensity *ᶠ ofInt 1000000) with
  | some k => if -(2 ^ 31) ≤ k ∧ k ≤ INT_MAX then .ok (BitVec.ofInt 64 (time + k))
    else .error (.ub "double to int conversion out of range")
  | none => .error (.ub "double to int conversion out of range")

/-- What the program depends on besides its arguments: `junk` is the uninitialised memory in which the
generator is constructed, `time` the result of `time(NULL)`. -/
structure McWorld (F : Type) where
  asserts : Bool
  libc : Libc F
  fs : Str → FileState
  time : Int
  junk : TinyMT

/-- `handle_command_line_arguments` for `argc = 4`: the printed number.  src/crossprob_mc.cc:192-227 -/
noncomputable def mcHandle (w : McWorld F) (command filename numSims : Str) : M F := do
  let numSimulations ← stringToLong w.libc numSims
  if numSimulations < 0 then .error (.runtimeError "num-simulations must be non-negative!")
  else do
    let (b, B) ← readAndCheckBoundariesFile w.libc w.fs filename
    let n : Int := (max b.length B.length : Nat)
    if command = "poisson".toList then do
      let p ← poissonMc w.asserts TinyMT.generateDouble01
        ((poissonSeed w.time (ofInt n : F)).map w.junk.init) (ofInt n) b B numSimulations
      .ok (one -ᶠ p)
    else if command = "ecdf".toList then do
      let p ← ecdfMc TinyMT.generateDouble01 (w.junk.init (BitVec.ofInt 64 (w.time + n * 2 ^ 20))) n b B numSimulations
      .ok (one -ᶠ p)
    else .error (.runtimeError "Second command line argument must be 'ecdf' or 'poisson'")

/-- How crossprob_mc ends. -/
inductive McEnd (F : Type) where
  /-- exit code 0, having printed the number -/
  | printed (result : F)
  /-- exit code 1: "ifstream::failure exception caught" -/
  | ioError
  /-- exit code 2: "runtime_error exception caught" and the message -/
  | error (msg : String)
  /-- killed by SIGABRT -/
  | aborted
  /-- undefined behaviour -/
  | undefined
  /-- never ends -/
  | hangs

/-- `main` of crossprob_mc; `args` are the arguments after the program name.  src/crossprob_mc.cc:229-243 -/
noncomputable def mcMain (w : McWorld F) (args : List Str) : McEnd F :=
  match args with
  | [command, filename, numSims] =>
    match mcHandle w command filename numSims with
    | .ok r => .printed r
    | .error .ioFailure => .ioError
    | .error (.runtimeError msg) => .error msg
    | .error (.assertFailed _) => .aborted
    | .error (.uncaught _) => .aborted
    | .error (.ub _) => .undefined
    | .error .diverge => .hangs
  | _ => .error "Expecting 3 command line arguments!"

end CP
