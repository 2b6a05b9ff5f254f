import Verif.Model.Ecdf2
import Verif.Model.Mns2016
/-
The functions of src/ecdf2.cc, src/ecdf1_new.cc and src/ecdf1_mns2016.cc once more, with a counter of elementary
steps.  Each definition is the definition of the same name (without the final `C`) in `Verif.Model`, line by line;
the theorems of C42 say that both return the same thing.  What is counted: one step per array element read or written,
per floating-point operation, comparison or mathematical library call.  Straight-line code without loops is charged
a fixed number of steps that covers all its operations; `std::sort` and FFTW are charged by a `Prices` parameter.
-/
namespace CP
variable {F : Type} [FOps F]
open FOps

/-- Programs with a step counter. -/
abbrev CM := StateT Nat M

/-- Run `m`, which takes `k` steps. -/
def charge {α : Type} (k : Nat) (m : M α) : CM α := fun s =>
  match m with
  | .ok a => .ok (a, s + k)
  | .error e => .error e

/-- `forAux` with counting. -/
def forAuxC {σ : Type} (body : Int → σ → CM σ) : Nat → Int → σ → CM σ
  | 0, _, s => pure s
  | k + 1, i, s => do
    let s' ← body i s
    forAuxC body k (i + 1) s'

/-- `forRange` with counting. -/
def forRangeC {σ : Type} (lo hi : Int) (s : σ) (body : Int → σ → CM σ) : CM σ :=
  forAuxC body (hi - lo).toNat lo s

/-- Steps taken by library calls: executing a transform of size `N`, creating a plan of size `N`, sorting `m`
elements. -/
structure Prices where
  fft : Nat → Nat
  plan : Nat → Nat
  sort : Nat → Nat

/-- Reading one array element. -/
def rdC {α : Type} (a : List α) (i : Int) : CM α := charge 1 (rd a i)
/-- Writing one array element. -/
def wrC {α : Type} (a : List α) (i : Int) (v : α) : CM (List α) := charge 1 (wr a i v)
/-- Reading `cnt` array elements. -/
def rdBlockC {α : Type} (a : List α) (off cnt : Int) : CM (List α) := charge cnt.toNat (rdBlock a off cnt)
/-- Writing `xs` to an array. -/
def wrBlockC {α : Type} (a : List α) (off : Int) (xs : List α) : CM (List α) := charge xs.length (wrBlock a off xs)

/-- Validation looks at every element once and compares it, and compares the first and last.  src/common.cc:9-40 -/
def checkBoundaryVectorC (name : String) (n : Int) (v : List F) : CM Unit :=
  charge (2 * v.length + 5) (checkBoundaryVector name n v)

/-- src/common.cc:42-51, src/fftwconvolver.cc:44-54 -/
def convolveSameSizeC (size : Int) (src0 : List F) (o0 : Int) (src1 : List F) (o1 : Int)
    (dest : List F) (od : Int) : CM (List F) :=
  forRangeC 0 size dest fun j dest => do
    let acc ← forRangeC 0 (j + 1) (zero : F) fun k acc => do
      let x ← rdC src0 (o0 + k)
      let y ← rdC src1 (o1 + (j - k))
      charge 2 (.ok (acc +ᶠ x *ᶠ y))
    wrC dest (od + j) acc

/-- src/common.hh:25-29: fills two arrays of `n` elements. -/
def DoubleBuffer.newC (n : Int) (value : F) : CM (DoubleBuffer F) :=
  charge (2 * n.toNat) (.ok (DoubleBuffer.new n value))

/-- Straight-line code.  src/poisson_pmf.hh:9-18 -/
def poissonPmfC (env : Env F) (lambda : F) (k : Int) : CM F := charge 8 (poissonPmf env lambda k)

namespace PmfGen

/-- Two loops of `maxK + 2` and `maxK + 1` iterations, with at most two steps each.  src/poisson_pmf.cc:10-23 -/
def newC (env : Env F) (maxK : Int) : CM (PmfGen F) := charge (4 * (maxK + 2).toNat) (PmfGen.new env maxK)

/-- Straight-line code.  src/poisson_pmf.hh:25-35 -/
def evaluatePmfC (env : Env F) (g : PmfGen F) (lambda : F) (k : Int) : CM F := charge 8 (g.evaluatePmf env lambda k)

/-- src/poisson_pmf.cc:32-52 -/
def computeArrayC (env : Env F) (g : PmfGen F) (k : Int) (lambda : F) : CM (PmfGen F) := do
  charge 1 (assertC env.asserts (decide (0 ≤ k)) "k >= 0")
  charge 1 (assertC env.asserts (decide (k ≤ g.maxK)) "k <= max_k")
  if lt lambda zero then
    charge 1 (.error (.runtimeError "Expecting lambda>0 in PoissonPMFGenerator::compute_array()"))
  else if eq lambda zero then do
    let arr ← wrC g.pmfArray 0 (ofInt 1)
    let arr ← forRangeC 1 (k + 1) arr fun i arr => wrC arr i (ofInt 0)
    charge 2 (.ok { g with pmfArray := arr })
  else do
    let logLambda := log lambda
    let arr ← forRangeC 0 (k + 1) g.pmfArray fun i arr => do
      let lg ← rdC g.logGammaLUT (i + 1)
      charge 6 (wr arr i (exp (neg lambda +ᶠ ofInt i *ᶠ logLambda -ᶠ lg)))
    charge 3 (.ok { g with pmfArray := arr })

end PmfGen

namespace Convolver

/-- Straight-line code; a plan is created at most once.  src/fftwconvolver.cc:68-96 -/
def memoizedPlanC (pr : Prices) (env : Env F) (plans : List (Option Int)) (roundedSize : Int) :
    CM (Int × List (Option Int)) := charge (4 + pr.plan roundedSize.toNat) (memoizedPlan env plans roundedSize)

/-- src/fftwconvolver.cc:98-103 -/
def copyZeroPaddedC (src : List F) (o : Int) (dest : List F) (srcSize destSize : Int) :
    CM (List F) := do
  let xs ← rdBlockC src o srcSize
  let dest ← wrBlockC dest 0 xs
  wrBlockC dest srcSize (List.replicate (destSize - srcSize).toNat zero)

/-- Two multiplications for the scaling, six operations for the complex product.  src/fftwconvolver.cc:56-66 -/
def elementwiseComplexProductC (size : Int) (src0 src1 dest : List (F × F)) (c : F) :
    CM (List (F × F)) :=
  forRangeC 0 size dest fun i dest => do
    let x ← rdC src0 i
    let y ← rdC src1 i
    charge 9 (wr dest i (cmul (cscale c x) y))

/-- Library call. -/
def execR2CC (pr : Prices) (env : Env F) (N : Int) (inp : List F) (out : List (F × F)) :
    CM (List F × List (F × F)) := charge (pr.fft N.toNat) (execR2C env N inp out)

/-- Library call. -/
def execC2RC (pr : Prices) (env : Env F) (N : Int) (inp : List (F × F)) (out : List F) :
    CM (List (F × F) × List F) := charge (pr.fft N.toNat) (execC2R env N inp out)

/-- src/fftwconvolver.cc:105-144 -/
def convolveC (pr : Prices) (env : Env F) (cv : Convolver F) (size : Int) (inputA : List F) (oa : Int)
    (inputB : List F) (ob : Int) (output : List F) (oo : Int) :
    CM (Convolver F × List F) := do
  if size > cv.maximumInputSize then
    charge 1 (.error (.runtimeError (sizeMsg size cv.maximumInputSize)))
  else if size ≤ 0 then charge 2 (.ok (cv, output))
  else if size < MINIMUM_SIZE_FOR_FFTW_CONVOLUTION then do
    let output ← convolveSameSizeC size inputA oa inputB ob output oo
    charge 3 (.ok (cv, output))
  else do
    let paddedSize := roundUp (2 * size) ROUNDING
    let r2cIn ← copyZeroPaddedC inputA oa cv.r2cIn size paddedSize
    let (plan, r2cPlans) ← memoizedPlanC pr env cv.r2cPlans paddedSize
    let (r2cIn, tmpComplex) ← execR2CC pr env plan r2cIn cv.tmpComplex
    let r2cIn ← copyZeroPaddedC inputB ob r2cIn size paddedSize
    let (plan, r2cPlans) ← memoizedPlanC pr env r2cPlans paddedSize
    let (r2cIn, r2cOut) ← execR2CC pr env plan r2cIn cv.r2cOut
    let c2rIn ← elementwiseComplexProductC (paddedSize.tdiv 2 + 1) tmpComplex r2cOut cv.c2rIn
      (one /ᶠ ofInt paddedSize)
    let (plan, c2rPlans) ← memoizedPlanC pr env cv.c2rPlans paddedSize
    let (c2rIn, c2rOut) ← execC2RC pr env plan c2rIn cv.c2rOut
    let res ← rdBlockC c2rOut 0 size
    let output ← wrBlockC output oo res
    charge 10 (.ok ({ cv with r2cPlans := r2cPlans, c2rPlans := c2rPlans, r2cIn := r2cIn, r2cOut := r2cOut,
                              c2rIn := c2rIn, c2rOut := c2rOut, tmpComplex := tmpComplex }, output))

end Convolver

/-! ## src/ecdf2.cc -/

/-- Copying and sorting the bounds.  src/ecdf2.cc:34-60 -/
def joinAllBoundsC (pr : Prices) (sort : List (Bound F) → List (Bound F)) (b B : List F) : CM (List (Bound F)) :=
  charge (2 * (b.length + B.length) + 1 + pr.sort (b.length + B.length)) (.ok (joinAllBounds sort b B))

/-- Straight-line code.  src/ecdf2.cc:62-76 -/
def updateDestBufferAndStepCountsC (tag : BoundType) (buf : List F) (bc Bc : Int) :
    CM (List F × Int × Int) := charge 3 (updateDestBufferAndStepCounts tag buf bc Bc)

/-- src/ecdf2.cc:100-104 -/
def ncConvolveC (pr : Prices) (env : Env F) (useFft : Bool) (conv : Convolver F) (curSize : Int) (pmf : List F)
    (src : List F) (oS : Int) (dest : List F) (oD : Int) : CM (Convolver F × List F) :=
  if useFft then conv.convolveC pr env curSize pmf 0 src oS dest oD
  else do
    let d ← convolveSameSizeC curSize pmf 0 src oS dest oD
    charge 1 (.ok (conv, d))

/-- src/ecdf2.cc:94-114 -/
def ncStepC (pr : Prices) (env : Env F) (intensity : F) (useFft : Bool) (s : NCState F) (bd : Bound F) :
    CM (NCState F) := do
  let curSize := s.bStep - s.BStep + 1
  let lambda := intensity *ᶠ (bd.location -ᶠ s.prev)
  if lt zero lambda then do
    let pmfgen ← s.pmfgen.computeArrayC env curSize lambda
    let oS ← charge 1 (addrOf s.buffers.src s.BStep)
    let oD ← charge 1 (addrOf s.buffers.dest s.BStep)
    let (conv, dest) ← ncConvolveC pr env useFft s.conv curSize pmfgen.pmfArray s.buffers.src oS
      s.buffers.dest oD
    let (dest, bc, Bc) ← updateDestBufferAndStepCountsC bd.tag dest s.bStep s.BStep
    charge 8 (.ok { buffers := (s.buffers.setDest dest).flip, conv := conv, pmfgen := pmfgen,
                    bStep := bc, BStep := Bc, prev := bd.location })
  else if eq lambda zero then do
    let (src, bc, Bc) ← updateDestBufferAndStepCountsC bd.tag s.buffers.src s.bStep s.BStep
    charge 8 (.ok { s with buffers := s.buffers.setSrc src, bStep := bc, BStep := Bc, prev := bd.location })
  else
    charge 8 (.error (.runtimeError negLambdaMsg))

/-- src/ecdf2.cc:79-116 -/
def poissonProcessNoncrossingProbabilityC (pr : Prices) (env : Env F) (sort : List (Bound F) → List (Bound F))
    (n : Int) (intensity : F) (b B : List F) (useFft : Bool) : CM (List F) := do
  let bounds ← joinAllBoundsC pr sort b B
  let buffers : DoubleBuffer F ← DoubleBuffer.newC (n + 1) zero
  let src ← wrC buffers.src 0 one
  let pmfgen ← PmfGen.newC env (n + 1)
  let s0 : NCState F :=
    { buffers := buffers.setSrc src, conv := Convolver.new env (n + 1), pmfgen := pmfgen,
      bStep := 0, BStep := 0, prev := zero }
  let s ← bounds.foldlM (ncStepC pr env intensity useFft) s0
  charge 1 (.ok s.buffers.src)

/-- src/ecdf2.cc:118-127 -/
def ecdf2C (pr : Prices) (env : Env F) (sort : List (Bound F) → List (Bound F)) (b B : List F) (useFft : Bool) :
    CM F := do
  let n : Int := b.length
  checkBoundaryVectorC "b" n b
  checkBoundaryVectorC "B" n B
  let probs ← poissonProcessNoncrossingProbabilityC pr env sort n (ofInt n) b B useFft
  let x ← rdC probs n
  let p ← poissonPmfC env (ofInt n) n
  charge 1 (.ok (x /ᶠ p))

/-! ## src/ecdf1_new.cc -/

/-- src/ecdf1_new.cc:66-82 -/
def miniStepC (pr : Prices) (env : Env F) (n : Int) (intensity : F) (B : List F) (Iprev I : Int) (i : Int)
    (s : MiniState F) : CM (MiniState F) := do
  let Bi ← rdC B i
  let pmfgen ← s.pmfgen.computeArrayC env (I - i + 1) (intensity *ᶠ (Bi -ᶠ s.iPrevLocation))
  let oS ← charge 1 (addrOf s.minibuffers.src (i - Iprev - 1))
  let oD ← charge 1 (addrOf s.minibuffers.dest (i - Iprev - 1))
  let (conv, md) ← s.conv.convolveC pr env (I - i + 1) pmfgen.pmfArray 0 s.minibuffers.src oS
    s.minibuffers.dest oD
  let probExitNow ← rdC md (i - Iprev - 1)
  let BI ← rdC B I
  let lambda := intensity *ᶠ (BI -ᶠ Bi)
  let dest ← forRangeC (I + 1) (n + 1) s.dest fun j dest => do
    let dj ← rdC dest j
    let p ← pmfgen.evaluatePmfC env lambda (j - i)
    charge 3 (wr dest j (dj -ᶠ probExitNow *ᶠ p))
  let md ← wrC md (i - Iprev - 1) zero
  let ms ← wrC s.minibuffers.src (i - Iprev - 1) zero
  charge 6 (.ok { dest := dest, minibuffers := ((s.minibuffers.setDest md).setSrc ms).flip, conv := conv,
                  pmfgen := pmfgen, iPrevLocation := Bi })

/-- src/ecdf1_new.cc:46-88 -/
def blockStepC (pr : Prices) (env : Env F) (n : Int) (intensity : F) (B : List F) (I : Int)
    (s : BlockState F) : CM (BlockState F) := do
  let BI ← rdC B I
  let pmfgen ← s.pmfgen.computeArrayC env (n - s.Iprev) (intensity *ᶠ (BI -ᶠ s.IprevLocation))
  let oS ← charge 1 (addrOf s.buffers.src (s.Iprev + 1))
  let (conv, tmp) ← s.conv.convolveC pr env (n - s.Iprev) pmfgen.pmfArray 0 s.buffers.src oS s.tmp 0
  let _ ← charge 1 (addrOf s.buffers.dest 0)
  let _ ← charge 1 (addrOf s.buffers.dest (I + 1))
  let dest ← wrBlockC s.buffers.dest 0 (List.replicate (I + 1).toNat zero)
  let xs ← rdBlockC tmp (I - s.Iprev) ((n - s.Iprev) - (I - s.Iprev))
  let dest ← wrBlockC dest (I + 1) xs
  let _ ← charge 1 (addrOf s.buffers.src (I + 1))
  let _ ← charge 1 (addrOf s.minibuffers.src 0)
  let ys ← rdBlockC s.buffers.src (s.Iprev + 1) ((I + 1) - (s.Iprev + 1))
  let ms ← wrBlockC s.minibuffers.src 0 ys
  let m0 : MiniState F :=
    { dest := dest, minibuffers := s.minibuffers.setSrc ms, conv := conv, pmfgen := pmfgen,
      iPrevLocation := s.IprevLocation }
  let m ← forRangeC (s.Iprev + 1) I m0 (miniStepC pr env n intensity B s.Iprev I)
  charge 6 (.ok { buffers := (s.buffers.setDest m.dest).flip, minibuffers := m.minibuffers, conv := m.conv,
                  pmfgen := m.pmfgen, tmp := tmp, IprevLocation := BI, Iprev := I })

/-- src/ecdf1_new.cc:42-96 -/
def blockLoopC (pr : Prices) (env : Env F) (n : Int) (intensity : F) (B : List F) (jumpSize nSteps : Int) :
    Nat → Int → BlockState F → CM (BlockState F)
  | 0, _, _ => charge 0 (.error .diverge)
  | fuel + 1, I, s => do
    let s ← blockStepC pr env n intensity B I s
    if I = nSteps - 1 then charge 1 (.ok s)
    else blockLoopC pr env n intensity B jumpSize nSteps fuel (min (I + jumpSize) (nSteps - 1)) s

/-- src/ecdf1_new.cc:24-112 -/
def poissonBNoncrossingProbabilityN2C (pr : Prices) (env : Env F) (n : Int) (intensity : F) (B : List F)
    (jumpSize : Int) : CM (List F) := do
  charge 1 (assertC env.asserts (decide (jumpSize ≤ n)) "jump_size <= n")
  let buffers : DoubleBuffer F ← DoubleBuffer.newC (n + 1) zero
  let minibuffers : DoubleBuffer F ← DoubleBuffer.newC jumpSize zero
  let src ← wrC buffers.src 0 one
  let pmfgen ← PmfGen.newC env (n + 1)
  let nSteps : Int := B.length
  let s0 : BlockState F :=
    { buffers := buffers.setSrc src, minibuffers := minibuffers, conv := Convolver.new env (n + 1),
      pmfgen := pmfgen, tmp := allocDoubles env 20 (n + 1), IprevLocation := zero, Iprev := -1 }
  let s ← blockLoopC pr env n intensity B jumpSize nSteps (B.length + 1)
    (min (-1 + jumpSize) (nSteps - 1)) s0
  let pmfgen ← s.pmfgen.computeArrayC env (n - nSteps + 1) (intensity *ᶠ (one -ᶠ s.IprevLocation))
  let oS ← charge 1 (addrOf s.buffers.src nSteps)
  let oD ← charge 1 (addrOf s.buffers.dest nSteps)
  let (_, dest) ← s.conv.convolveC pr env (n - nSteps + 1) pmfgen.pmfArray 0 s.buffers.src oS
    s.buffers.dest oD
  wrBlockC dest 0 (List.replicate nSteps.toNat zero)

/-- src/ecdf1_new.cc:114-128 -/
def ecdf1NewBC (pr : Prices) (env : Env F) (isqrt : Nat → Nat) (B : List F) : CM F := do
  let n : Int := B.length
  checkBoundaryVectorC "B" n B
  let k : Int := (isqrt B.length : Int) + 1
  let probs ← poissonBNoncrossingProbabilityN2C pr env n (ofInt n) B k
  let x ← rdC probs n
  let p ← poissonPmfC env (ofInt n) n
  charge 3 (.ok (x /ᶠ p))

/-- src/ecdf1_new.cc:137-140, src/ecdf1_mns2016.cc:249-252 -/
def symmetricStepsC (v : List F) : CM (List F) :=
  let n : Int := v.length
  forRangeC 0 n (List.replicate v.length (zero : F)) fun i steps => do
    let x ← rdC v (n - 1 - i)
    charge 3 (wr steps i (one -ᶠ x))

/-- src/ecdf1_new.cc:131-143 -/
def ecdf1NewbC (pr : Prices) (env : Env F) (isqrt : Nat → Nat) (b : List F) : CM F := do
  let n : Int := b.length
  checkBoundaryVectorC "b" n b
  let steps ← symmetricStepsC b
  ecdf1NewBC pr env isqrt steps

/-! ## src/ecdf1_mns2016.cc -/

namespace Poly

/-- src/ecdf1_mns2016.cc:93-101: two `memset`s of `maxDegree + 1` elements -/
def newC (env : Env F) (maxDegree : Int) : CM (Poly F) := charge (2 * (maxDegree + 1).toNat) (Poly.new env maxDegree)

/-- src/ecdf1_mns2016.cc:132-139 -/
def evaluateC (p : Poly F) (x : F) : CM F :=
  forRangeC 0 (p.degree + 1) (zero : F) fun i result => do
    let m ← rdC p.mult i
    let a ← rdC p.add i
    charge 4 (.ok (result +ᶠ m *ᶠ powi (x +ᶠ a) i))

/-- src/ecdf1_mns2016.cc:141-151 -/
def integrateC (p : Poly F) : CM (Poly F) := do
  let (mult, add) ← forRangeC 0 (p.degree + 1) (p.mult, p.add) fun j (s : List F × List F) => do
    let i := p.degree + 1 - j
    let m ← rdC s.1 (i - 1)
    let mult ← charge 2 (wr s.1 i (m /ᶠ ofInt i))
    let a ← rdC s.2 (i - 1)
    let add ← wrC s.2 i a
    charge 0 (.ok (mult, add))
  let add ← wrC add 1 zero
  let add ← wrC add 0 zero
  let mult ← wrC mult 0 zero
  charge 1 (.ok { degree := p.degree + 1, mult := mult, add := add })

/-- src/ecdf1_mns2016.cc:153-158 -/
def ldexpAllC (p : Poly F) (e : Int) : CM (Poly F) := do
  let mult ← forRangeC 0 (p.degree + 1) p.mult fun i mult => do
    let m ← rdC mult i
    charge 2 (wr mult i (ldexp m e))
  charge 1 (.ok { p with mult := mult })

/-- src/ecdf1_mns2016.cc:177-188 -/
def maxMultC (env : Env F) (p : Poly F) : CM F := do
  charge 1 (assertC env.asserts (decide (1 ≤ p.degree)) "p.degree >= 1")
  let m ← charge 3 (p.getMult env 0)
  forRangeC 0 (p.degree + 1) m fun i m => do
    let x ← charge 3 (p.getMult env i)
    charge 1 (.ok (if lt m x then x else m))

end Poly

/-- src/ecdf1_mns2016.cc:190-195, 210-227 -/
def mnsStepC (env : Env F) (readExponent : Int → F → Int) (b : List F) (i : Int)
    (s : Poly F × Int) : CM (Poly F × Int) := do
  let p ← s.1.integrateC
  let bi ← rdC b i
  let p ← charge 4 (p.setAdd env 1 (neg bi))
  let v ← p.evaluateC bi
  let p ← charge 4 (p.setMult env 0 (neg v))
  if i.tmod NUM_ITERATIONS_BETWEEN_EXP_FIXES = 0 then do
    let maxCoef ← p.maxMultC env
    let highest := readExponent i maxCoef
    if highest < 0 then do
      let p ← p.ldexpAllC (0 - highest)
      charge 6 (.ok (p, s.2 + (0 - highest)))
    else charge 6 (.ok (p, s.2))
  else charge 1 (.ok (p, s.2))

/-- src/ecdf1_mns2016.cc:197-242 -/
def ecdf1Mns2016bWithC (env : Env F) (readExponent : Int → F → Int) (b : List F) : CM F := do
  let n : Int := b.length
  checkBoundaryVectorC "b" n b
  let p ← Poly.newC env (n + 1)
  let p ← charge 3 (p.setMult env 0 one)
  let (p, delta) ← forRangeC 0 n (p, (0 : Int)) (mnsStepC env readExponent b)
  let integralResult ← p.evaluateC (ofInt 1)
  let logIntegralResult := log integralResult
  charge 8 (.ok (exp (lgamma (ofInt (n + 1)) +ᶠ logIntegralResult -ᶠ ofInt delta *ᶠ log (ofInt 2))))

/-- src/ecdf1_mns2016.cc:197-242 -/
def ecdf1Mns2016bC (env : Env F) (b : List F) : CM F :=
  ecdf1Mns2016bWithC env (fun _ x => frexpExp x) b

/-- src/ecdf1_mns2016.cc:244-255 -/
def ecdf1Mns2016BC (env : Env F) (B : List F) : CM F := do
  let n : Int := B.length
  checkBoundaryVectorC "B" n B
  let steps ← symmetricStepsC B
  ecdf1Mns2016bC env steps

end CP
