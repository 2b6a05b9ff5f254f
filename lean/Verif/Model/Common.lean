import Verif.Model.Basic
/-
Model of src/common.cc, src/common.hh, src/poisson_pmf.cc, src/poisson_pmf.hh.
-/
namespace CP
variable {F : Type} [FOps F]
open FOps

/-- The parts of the build and run-time environment that the C++ source does not determine. -/
structure Env (F : Type) where
  /-- assertions compiled in?  Makefile:13 has no `-DNDEBUG` (true); Python's distutils flags
  contain `-DNDEBUG` (false) -/
  asserts : Bool
  /-- the FFTW library -/
  fft : FFTW F
  /-- contents of uninitialised `double` memory: allocation id, index -/
  junk : Nat → Nat → F
  /-- contents of uninitialised `complex<double>` memory -/
  junkC : Nat → Nat → F × F

/-- `_mm_malloc` of `n` doubles: contents unspecified.  src/aligned_mem.hh:10-13 -/
def allocDoubles (env : Env F) (id : Nat) (n : Int) : List F :=
  (List.range n.toNat).map (env.junk id)

/-- `_mm_malloc` of `n` complex numbers: contents unspecified.  src/aligned_mem.hh:15-18 -/
def allocComplexes (env : Env F) (id : Nat) (n : Int) : List (F × F) :=
  (List.range n.toNat).map (env.junkC id)

/-- Loop of `is_monotone_increasing` with current `prev`.  src/common.cc:12-18 -/
def isMonotoneFrom (prev : F) : List F → Bool
  | [] => true
  | x :: xs => if lt x prev then false else isMonotoneFrom x xs

/-- `is_monotone_increasing`.  src/common.cc:9-19 -/
def isMonotoneIncreasing (v : List F) : Bool := isMonotoneFrom negInf v

/-- Message of the length error.  src/common.cc:25 -/
def lengthMsg (name : String) (n : Int) (len : Nat) : String :=
  s!"Expecting {n} input bounds {name}_1,...,{name}_{n} but got input of length {len}."
/-- Message of the monotonicity error.  src/common.cc:31 -/
def monotoneMsg (name : String) (n : Int) : String :=
  s!"{name}_1,...,{name}_{n} must be monotone non-decreasing."
/-- Message of the range error.  src/common.cc:37 -/
def rangeMsg (name : String) (n : Int) : String :=
  s!"{name}_1,...,{name}_{n} must be in the interval [0,1]."

/-- The range condition `(v.size() > 0) && ((v.front() < 0.0) || (v.back() > 1.0))`.
src/common.cc:35 -/
def outOfRange (v : List F) : Bool :=
  match v with
  | [] => false
  | x :: xs => lt x zero || lt one ((x :: xs).getLast (by simp))

/-- `check_boundary_vector`.  src/common.cc:21-40 -/
def checkBoundaryVector (name : String) (n : Int) (v : List F) : M Unit :=
  if (v.length : Int) ≠ n then .error (.runtimeError (lengthMsg name n v.length))
  else if !isMonotoneIncreasing v then .error (.runtimeError (monotoneMsg name n))
  else if outOfRange v then .error (.runtimeError (rangeMsg name n))
  else .ok ()

/-- `convolve_same_size`; a pointer argument is an array with an offset; returns the new
contents of the destination array.  src/common.cc:42-51 (and, identically,
`convolve_same_size_naive`, src/fftwconvolver.cc:44-54) -/
def convolveSameSize (size : Int) (src0 : List F) (o0 : Int) (src1 : List F) (o1 : Int)
    (dest : List F) (od : Int) : M (List F) :=
  forRange 0 size dest fun j dest => do
    let acc ← forRange 0 (j + 1) (zero : F) fun k acc => do
      let x ← rd src0 (o0 + k)
      let y ← rd src1 (o1 + (j - k))
      .ok (acc +ᶠ x *ᶠ y)
    wr dest (od + j) acc

/-- `DoubleBuffer<double>`.  src/common.hh:11-29 -/
structure DoubleBuffer (F : Type) where
  buf0 : List F
  buf1 : List F
  buf0IsSrc : Bool

namespace DoubleBuffer
/-- Constructor.  src/common.hh:25-29 -/
def new (n : Int) (value : F) : DoubleBuffer F :=
  { buf0 := List.replicate n.toNat value, buf1 := List.replicate n.toNat value, buf0IsSrc := true }
/-- `get_src()` (reading).  src/common.hh:15 -/
def src (b : DoubleBuffer F) : List F := if b.buf0IsSrc then b.buf0 else b.buf1
/-- `get_dest()` (reading).  src/common.hh:16 -/
def dest (b : DoubleBuffer F) : List F := if b.buf0IsSrc then b.buf1 else b.buf0
/-- mutation through the reference returned by `get_src()`.  src/common.hh:15 -/
def setSrc (b : DoubleBuffer F) (a : List F) : DoubleBuffer F :=
  if b.buf0IsSrc then { b with buf0 := a } else { b with buf1 := a }
/-- mutation through the reference returned by `get_dest()`.  src/common.hh:16 -/
def setDest (b : DoubleBuffer F) (a : List F) : DoubleBuffer F :=
  if b.buf0IsSrc then { b with buf1 := a } else { b with buf0 := a }
/-- `flip()`.  src/common.hh:17 -/
def flip (b : DoubleBuffer F) : DoubleBuffer F := { b with buf0IsSrc := !b.buf0IsSrc }
end DoubleBuffer

/-- `poisson_pmf(lambda, k)`.  src/poisson_pmf.hh:9-18 -/
def poissonPmf (env : Env F) (lambda : F) (k : Int) : M F := do
  assertC env.asserts (decide (0 ≤ k)) "k >= 0"
  assertC env.asserts (ge lambda zero) "lambda >= 0.0"
  if eq lambda zero then
    .ok (if k = 0 then one else zero)
  else
    .ok (exp (neg lambda +ᶠ ofInt k *ᶠ log lambda -ᶠ lgamma (ofInt (k + 1))))

/-- `PoissonPMFGenerator`.  src/poisson_pmf.hh:21-46 -/
structure PmfGen (F : Type) where
  maxK : Int
  logGammaLUT : List F
  pmfArray : List F

namespace PmfGen

/-- Constructor.  src/poisson_pmf.cc:10-23.  (The two fill loops write every element, so the
uninitialised contents never matter; the filled arrays are built directly.) -/
def new (env : Env F) (maxK : Int) : M (PmfGen F) := do
  assertC env.asserts (decide (0 < maxK)) "max_k > 0"
  .ok { maxK := maxK
        logGammaLUT := (List.range (maxK + 2).toNat).map fun i : Nat => lgamma (ofInt (i : Int))
        pmfArray := List.replicate (maxK + 1).toNat (ofInt 0) }

/-- `evaluate_pmf`.  src/poisson_pmf.hh:25-35 -/
def evaluatePmf (env : Env F) (g : PmfGen F) (lambda : F) (k : Int) : M F := do
  assertC env.asserts (ge lambda zero) "lambda >= 0"
  assertC env.asserts (decide (0 ≤ k)) "k >= 0"
  if eq lambda zero then
    .ok (if k = 0 then one else zero)
  else do
    let lg ← rd g.logGammaLUT (k + 1)
    .ok (exp (neg lambda +ᶠ ofInt k *ᶠ log lambda -ᶠ lg))

/-- `compute_array`.  src/poisson_pmf.cc:32-52 -/
def computeArray (env : Env F) (g : PmfGen F) (k : Int) (lambda : F) : M (PmfGen F) := do
  assertC env.asserts (decide (0 ≤ k)) "k >= 0"
  assertC env.asserts (decide (k ≤ g.maxK)) "k <= max_k"
  if lt lambda zero then
    .error (.runtimeError "Expecting lambda>0 in PoissonPMFGenerator::compute_array()")
  else if eq lambda zero then do
    let arr ← wr g.pmfArray 0 (ofInt 1)
    let arr ← forRange 1 (k + 1) arr fun i arr => wr arr i (ofInt 0)
    .ok { g with pmfArray := arr }
  else do
    let logLambda := log lambda
    let arr ← forRange 0 (k + 1) g.pmfArray fun i arr => do
      let lg ← rd g.logGammaLUT (i + 1)
      wr arr i (exp (neg lambda +ᶠ ofInt i *ᶠ logLambda -ᶠ lg))
    .ok { g with pmfArray := arr }

end PmfGen
end CP
