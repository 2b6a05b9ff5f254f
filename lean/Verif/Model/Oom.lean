import Verif.Model.Cli
import Verif.Model.Python
/-
Running out of memory.  The functions of src/ecdf2.cc, src/ecdf1_new.cc, src/ecdf1_mns2016.cc, src/crossprob.cc and the Python
wrappers once more, in a world in which any request for memory may be refused.  `operator new` (behind `std::vector`) then throws
`std::bad_alloc`; `_mm_malloc` returns `NULL`, which the code never checks.  A `NULL` block is a block without elements: the
model's array accesses already make every access outside a block undefined behaviour.  Only the functions that allocate are
repeated (suffix `O`); everything else is the model used everywhere.  Not covered: memory used by FFTW itself (FFTW ends the
process when it cannot get it), by the runtime, and by the few dozen bytes of an error message.
-/
namespace CP
variable {F : Type} [FOps F]
open FOps

/-- Which requests are refused.  `vec`: the allocations of `std::vector` and `std::string`, numbered by place in the code;
`blk`: the `_mm_malloc` calls (numbered as in `Env.junk` where the model already numbers them). -/
structure Oom where
  vec : Nat → Bool
  blk : Nat → Bool

/-- Memory never runs out. -/
def Oom.none : Oom := ⟨fun _ => false, fun _ => false⟩

/-- What is thrown by an allocation of `std::vector`. -/
def badAlloc : Fault := .uncaught "std::bad_alloc"

/-- The allocation of a `std::vector` at place `i`. -/
def Oom.vector (o : Oom) (i : Nat) : M Unit := if o.vec i then .error badAlloc else .ok ()

/-- `allocate_aligned_doubles`, possibly `NULL`.  src/aligned_mem.hh:10-13 -/
def allocDoublesO (o : Oom) (env : Env F) (id : Nat) (n : Int) : List F :=
  if o.blk id then [] else allocDoubles env id n

/-- `allocate_aligned_complexes`, possibly `NULL`.  src/aligned_mem.hh:15-18 -/
def allocComplexesO (o : Oom) (env : Env F) (id : Nat) (n : Int) : List (F × F) :=
  if o.blk id then [] else allocComplexes env id n

/-- Constructor of `DoubleBuffer`: two vectors.  src/common.hh:25-29 -/
def DoubleBuffer.newO (o : Oom) (i : Nat) (n : Int) (value : F) : M (DoubleBuffer F) := do
  o.vector i
  o.vector (i + 1)
  .ok (DoubleBuffer.new n value)

/-- Constructor of `PoissonPMFGenerator`: two blocks, each filled element by element.  src/poisson_pmf.cc:10-23 -/
def PmfGen.newO (o : Oom) (env : Env F) (maxK : Int) : M (PmfGen F) := do
  assertC env.asserts (decide (0 < maxK)) "max_k > 0"
  let lut ← forRange 0 (maxK + 2) (allocDoublesO o env 1 (maxK + 2)) fun i a => wr a i (lgamma (ofInt i))
  let arr ← forRange 0 (maxK + 1) (allocDoublesO o env 2 (maxK + 1)) fun i a => wr a i (ofInt 0)
  .ok { maxK := maxK, logGammaLUT := lut, pmfArray := arr }

/-- Constructor of `FFTWConvolver`: two vectors of plans, then five blocks.  src/fftwconvolver.cc:28-42 -/
def Convolver.newO (o : Oom) (env : Env F) (maximumInputSize : Int) : M (Convolver F) := do
  let maximumPaddedInputSize := roundUp (2 * maximumInputSize) ROUNDING
  o.vector 10
  o.vector 11
  .ok { maximumInputSize := maximumInputSize + ROUNDING - 1
        r2cPlans := List.replicate (maximumPaddedInputSize.tdiv ROUNDING).toNat none
        c2rPlans := List.replicate (maximumPaddedInputSize.tdiv ROUNDING).toNat none
        r2cIn := allocDoublesO o env 10 maximumPaddedInputSize
        r2cOut := allocComplexesO o env 11 maximumPaddedInputSize
        c2rIn := allocComplexesO o env 12 maximumPaddedInputSize
        c2rOut := allocDoublesO o env 13 maximumPaddedInputSize
        tmpComplex := allocComplexesO o env 14 maximumPaddedInputSize }

/-- `poisson_process_noncrossing_probability`: the vector of joined bounds, the buffers, the convolver, the table generator,
the copy that is returned.  src/ecdf2.cc:79-116, 34-60 -/
def poissonProcessNoncrossingProbabilityO (o : Oom) (env : Env F) (sort : List (Bound F) → List (Bound F))
    (n : Int) (intensity : F) (b B : List F) (useFft : Bool) : M (List F) := do
  o.vector 1
  let bounds := joinAllBounds sort b B
  let buffers ← DoubleBuffer.newO o 2 (n + 1) zero
  let src ← wr buffers.src 0 one
  let conv ← Convolver.newO o env (n + 1)
  let pmfgen ← PmfGen.newO o env (n + 1)
  let s0 : NCState F :=
    { buffers := buffers.setSrc src, conv := conv, pmfgen := pmfgen, bStep := 0, BStep := 0, prev := zero }
  let s ← bounds.foldlM (ncStep env intensity useFft) s0
  o.vector 6
  .ok s.buffers.src

/-- `ecdf2`.  src/ecdf2.cc:118-127 -/
def ecdf2O (o : Oom) (env : Env F) (sort : List (Bound F) → List (Bound F)) (b B : List F) (useFft : Bool) : M F := do
  let n : Int := b.length
  checkBoundaryVector "b" n b
  checkBoundaryVector "B" n B
  let probs ← poissonProcessNoncrossingProbabilityO o env sort n (ofInt n) b B useFft
  let x ← rd probs n
  let p ← poissonPmf env (ofInt n) n
  .ok (x /ᶠ p)

/-- `poisson_B_noncrossing_probability_n2`.  src/ecdf1_new.cc:24-112 -/
def poissonBNoncrossingProbabilityN2O (o : Oom) (env : Env F) (n : Int) (intensity : F) (B : List F)
    (jumpSize : Int) : M (List F) := do
  assertC env.asserts (decide (jumpSize ≤ n)) "jump_size <= n"
  let buffers ← DoubleBuffer.newO o 2 (n + 1) zero
  let minibuffers ← DoubleBuffer.newO o 4 jumpSize zero
  let src ← wr buffers.src 0 one
  let conv ← Convolver.newO o env (n + 1)
  let pmfgen ← PmfGen.newO o env (n + 1)
  let nSteps : Int := B.length
  let s0 : BlockState F :=
    { buffers := buffers.setSrc src, minibuffers := minibuffers, conv := conv,
      pmfgen := pmfgen, tmp := allocDoublesO o env 20 (n + 1), IprevLocation := zero, Iprev := -1 }
  let s ← blockLoop env n intensity B jumpSize nSteps (B.length + 1)
    (min (-1 + jumpSize) (nSteps - 1)) s0
  let pmfgen ← s.pmfgen.computeArray env (n - nSteps + 1) (intensity *ᶠ (one -ᶠ s.IprevLocation))
  let oS ← addrOf s.buffers.src nSteps
  let oD ← addrOf s.buffers.dest nSteps
  let (_, dest) ← s.conv.convolve env (n - nSteps + 1) pmfgen.pmfArray 0 s.buffers.src oS
    s.buffers.dest oD
  let dest ← wrBlock dest 0 (List.replicate nSteps.toNat zero)
  o.vector 6
  .ok dest

/-- `ecdf1_new_B`.  src/ecdf1_new.cc:114-128 -/
def ecdf1NewBO (o : Oom) (env : Env F) (isqrt : Nat → Nat) (B : List F) : M F := do
  let n : Int := B.length
  checkBoundaryVector "B" n B
  let k : Int := (isqrt B.length : Int) + 1
  let probs ← poissonBNoncrossingProbabilityN2O o env n (ofInt n) B k
  let x ← rd probs n
  let p ← poissonPmf env (ofInt n) n
  .ok (x /ᶠ p)

/-- `ecdf1_new_b`.  src/ecdf1_new.cc:131-143 -/
def ecdf1NewbO (o : Oom) (env : Env F) (isqrt : Nat → Nat) (b : List F) : M F := do
  let n : Int := b.length
  checkBoundaryVector "b" n b
  o.vector 20
  let steps ← symmetricSteps b
  ecdf1NewBO o env isqrt steps

/-- Constructor of the polynomial: two blocks, then two `memset`s.  src/ecdf1_mns2016.cc:93-101 -/
def Poly.newO (o : Oom) (env : Env F) (maxDegree : Int) : M (Poly F) := do
  assertC env.asserts (decide (0 ≤ maxDegree)) "max_degree >= 0"
  let mult ← wrBlock (allocDoublesO o env 30 (maxDegree + 1)) 0 (List.replicate (maxDegree + 1).toNat zero)
  let add ← wrBlock (allocDoublesO o env 31 (maxDegree + 1)) 0 (List.replicate (maxDegree + 1).toNat zero)
  .ok { degree := 0, mult := mult, add := add }

/-- `ecdf1_mns2016_b`.  src/ecdf1_mns2016.cc:197-242 -/
def ecdf1Mns2016bO (o : Oom) (env : Env F) (b : List F) : M F := do
  let n : Int := b.length
  checkBoundaryVector "b" n b
  let p ← Poly.newO o env (n + 1)
  let p ← p.setMult env 0 one
  let (p, delta) ← forRange 0 n (p, (0 : Int)) (mnsStep env (fun _ x => frexpExp x) b)
  let integralResult ← p.evaluate (ofInt 1)
  let logIntegralResult := log integralResult
  .ok (exp (lgamma (ofInt (n + 1)) +ᶠ logIntegralResult -ᶠ ofInt delta *ᶠ log (ofInt 2)))

/-- `ecdf1_mns2016_B`.  src/ecdf1_mns2016.cc:244-255 -/
def ecdf1Mns2016BO (o : Oom) (env : Env F) (B : List F) : M F := do
  let n : Int := B.length
  checkBoundaryVector "B" n B
  o.vector 20
  let steps ← symmetricSteps B
  ecdf1Mns2016bO o env steps

/-- `calculate_ecdf1_mns2016`.  src/crossprob.cc:81-91 -/
def calculateEcdf1Mns2016O (o : Oom) (w : World F) (b B : List F) : M F :=
  if b.length > 0 ∧ B.length = 0 then ecdf1Mns2016bO o w.env b
  else if b.length = 0 ∧ B.length > 0 then ecdf1Mns2016BO o w.env B
  else .error (.runtimeError "Expecting EITHER a lower or an upper boundary function when using the 'ecdf1-mns2016' command for computing a one-sided boundary crossing.\n")

/-- `calculate_ecdf1_new`.  src/crossprob.cc:93-103 -/
def calculateEcdf1NewO (o : Oom) (w : World F) (b B : List F) : M F :=
  if b.length > 0 ∧ B.length = 0 then ecdf1NewbO o w.env w.isqrt b
  else if b.length = 0 ∧ B.length > 0 then ecdf1NewBO o w.env w.isqrt B
  else .error (.runtimeError "Expecting EITHER a lower or an upper boundary function when using the 'ecdf1-m2020' command for computing a one-sided boundary crossing.\n")

/-- `calculate_ecdf2_ks2001`, `calculate_ecdf2_mn2017`: the vector of zeros or ones is one more allocation.
src/crossprob.cc:105-142 -/
def calculateEcdf2O (o : Oom) (w : World F) (useFft : Bool) (b B : List F) : M F :=
  let n := max b.length B.length
  if b.length = n ∧ B.length = n then ecdf2O o w.env w.sort b B useFft
  else if b.length = 0 ∧ B.length = n then do
    o.vector 21
    ecdf2O o w.env w.sort (List.replicate n zero) B useFft
  else if b.length = n ∧ B.length = 0 then do
    o.vector 21
    ecdf2O o w.env w.sort b (List.replicate n one) useFft
  else .error (.runtimeError ecdf2LengthsMsg)

/-- `handle_command_line_arguments`; place 22 stands for all the strings and vectors of reading the file, place 23 for the
strings made of the command line.  src/crossprob.cc:144-174, src/read_boundaries_file.cc:14-42 -/
def handleCommandLineArgumentsO (o : Oom) (w : World F) (command filename : Str) : M F := do
  o.vector 23
  o.vector 22
  let (b, B) ← readAndCheckBoundariesFile w.libc w.fs filename
  if command = "ecdf1-mns2016".toList then calculateEcdf1Mns2016O o w b B
  else if command = "ecdf1-new".toList then calculateEcdf1NewO o w b B
  else if command = "ecdf2-ks2001".toList then calculateEcdf2O o w false b B
  else if command = "ecdf2-mn2017".toList then calculateEcdf2O o w true b B
  else .error (.runtimeError unknownCommandMsg)

/-- `main`: `std::bad_alloc` is not a `runtime_error`, so nothing catches it.  src/crossprob.cc:176-195 -/
def crossprobMainO (o : Oom) (w : World F) (args : List Str) : ProcessEnd F :=
  match args with
  | [command, filename] =>
    match handleCommandLineArgumentsO o w command filename with
    | .ok result => .printed result
    | .error .ioFailure => .ioError
    | .error (.runtimeError msg) => .error msg
    | .error (.assertFailed _) => .aborted
    | .error (.uncaught _) => .aborted
    | .error (.ub _) => .undefined
    | .error .diverge => .hangs
  | _ => .usage

/-- Conversion of a list argument; `std::bad_alloc` while copying is caught by the conversion and becomes a TypeError.  (A
`VectorDouble` object is not copied, so that for it the model allows one failure more than can happen.)
python_extension/crossprob.cc:4439-4473 -/
def pyVectorO (o : Oom) (i : Nat) (a : PyArg F) : Except (PyResult F) (List F) := do
  let v ← pyVector a
  if o.vec i then .error .typeError else .ok v

/-- `crossprob.ecdf2(b, B, use_fft)`.  python_extension/crossprob.cc:7361-7420 -/
def pyEcdf2O (o : Oom) (env : Env F) (sort : List (Bound F) → List (Bound F)) (args : List (PyArg F)) : PyResult F :=
  match args with
  | [a1, a2, a3] => pyDone do
    let b ← pyVectorO o 24 a1
    let B ← pyVectorO o 25 a2
    let useFft ← pyBool a3
    .ok (pyTry (ecdf2O o env sort b B useFft))
  | _ => .typeError

/-- A wrapper with one list argument.  python_extension/crossprob.cc:7423-7580 -/
def pyOneO (o : Oom) (f : List F → M F) (args : List (PyArg F)) : PyResult F :=
  match args with
  | [a] => pyDone do
    let v ← pyVectorO o 24 a
    .ok (pyTry (f v))
  | _ => .typeError

end CP
