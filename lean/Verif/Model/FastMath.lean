import Verif.Model.Ecdf2
/-
Model of `ecdf2` as compiled with `-O3 -ffast-math -march=native` (Makefile:13, setup.py:16).  These flags let the compiler
evaluate a sum of products in any order (several accumulators, vector lanes), fuse a multiplication with an addition, rearrange
the exponent of the Poisson probabilities and the product of the spectra, call another implementation of `exp` (vector library), and replace a division.  The
compiled code is a parameter (`FastCode`): for every place in the execution it says which evaluation order was chosen.  Control
flow, memory accesses and comparisons are those of the source.
-/
namespace CP
open FOps

/-- An order of evaluation of `sum_k x_k*y_k`. -/
inductive SumTree where
  /-- the constant 0 (initial value of an accumulator) -/
  | zero
  /-- the rounded product `x_k*y_k` -/
  | prod (k : Nat)
  /-- a fused multiply-add: `x_k*y_k + t`, rounded once -/
  | fma (k : Nat) (t : SumTree)
  /-- the rounded sum of two partial sums -/
  | add (t u : SumTree)
deriving Repr

/-- The indices of the products in a sum. -/
def SumTree.terms : SumTree → List Nat
  | .zero => []
  | .prod k => [k]
  | .fma k t => k :: t.terms
  | .add t u => t.terms ++ u.terms

/-- The largest number of roundings a term goes through. -/
def SumTree.height : SumTree → Nat
  | .zero => 0
  | .prod _ => 1
  | .fma _ t => t.height + 1
  | .add t u => max t.height u.height + 1

/-- An order of evaluation of the exponent `-lambda + k*log(lambda) - lgamma(k+1)`. -/
inductive ExpTree where
  | lambda
  | lgamma
  /-- the rounded product `k*log(lambda)` -/
  | klog
  | neg (t : ExpTree)
  | add (t u : ExpTree)
  | sub (t u : ExpTree)
  /-- `k*log(lambda) + t`, rounded once -/
  | fma (t : ExpTree)
  /-- `t - k*log(lambda)`, rounded once -/
  | fnma (t : ExpTree)
deriving Repr

/-- How the final quotient `x / exp(y)` is computed. -/
inductive QuotForm where
  | div
  /-- `x * (1 / exp(y))` -/
  | recip
  /-- `x * exp(-y)` -/
  | expNeg
deriving Repr, DecidableEq

/-- How the product `c*x*y` of three numbers is evaluated. -/
inductive ProdOrder where
  /-- `(c*x)*y` -/
  | scaleFst
  /-- `c*(x*y)` -/
  | scaleProd
  /-- `(c*y)*x` -/
  | scaleSnd
deriving Repr, DecidableEq

/-- Which of the two products in `p1*q1 + p2*q2` (or with a minus sign) is fused with the addition. -/
inductive Fusion where
  | none
  | fst
  | snd
deriving Repr, DecidableEq

/-- How the real or imaginary part of `c*a*b` (`c` real, `a`, `b` complex) is evaluated: as a sum of two products of three numbers, or
with the factor `c` taken out, `c*(x1*y1 + x2*y2)`. -/
inductive PartForm where
  | terms (o1 o2 : ProdOrder) (f : Fusion)
  | factored (f : Fusion)
deriving Repr, DecidableEq

variable {F : Type} [FOps F]

/-- Value of a sum of products evaluated in the given order, with the machine's fused multiply-add. -/
def SumTree.eval (fma : F → F → F → F) (x y : Nat → F) : SumTree → F
  | .zero => FOps.zero
  | .prod k => x k *ᶠ y k
  | .fma k t => fma (x k) (y k) (t.eval fma x y)
  | .add t u => t.eval fma x y +ᶠ u.eval fma x y

/-- Value of the exponent evaluated in the given order; `k`, `l`, `g` are `(double)k`, `log(lambda)`, `lgamma(k+1)`. -/
def ExpTree.eval (fma : F → F → F → F) (lam k l g : F) : ExpTree → F
  | .lambda => lam
  | .lgamma => g
  | .klog => k *ᶠ l
  | .neg t => FOps.neg (t.eval fma lam k l g)
  | .add t u => t.eval fma lam k l g +ᶠ u.eval fma lam k l g
  | .sub t u => t.eval fma lam k l g -ᶠ u.eval fma lam k l g
  | .fma t => fma k l (t.eval fma lam k l g)
  | .fnma t => fma (FOps.neg k) l (t.eval fma lam k l g)

/-- The operands of the last multiplication in `c*x*y`. -/
def ProdOrder.operands (c x y : F) : ProdOrder → F × F
  | .scaleFst => (c *ᶠ x, y)
  | .scaleProd => (c, x *ᶠ y)
  | .scaleSnd => (c *ᶠ y, x)

/-- `p1*q1 + p2*q2`, or `p1*q1 - p2*q2` if `minus`. -/
def Fusion.eval (fma : F → F → F → F) (minus : Bool) (p q : F × F) : Fusion → F
  | .none => if minus then p.1 *ᶠ p.2 -ᶠ q.1 *ᶠ q.2 else p.1 *ᶠ p.2 +ᶠ q.1 *ᶠ q.2
  | .fst => fma p.1 p.2 (if minus then FOps.neg (q.1 *ᶠ q.2) else q.1 *ᶠ q.2)
  | .snd => fma (if minus then FOps.neg q.1 else q.1) q.2 (p.1 *ᶠ p.2)

/-- `c*(x1*y1 + x2*y2)`, or with a minus sign, evaluated in the given form. -/
def PartForm.eval (fma : F → F → F → F) (minus : Bool) (c x1 y1 x2 y2 : F) : PartForm → F
  | .terms o1 o2 f => f.eval fma minus (o1.operands c x1 y1) (o2.operands c x2 y2)
  | .factored f => c *ᶠ f.eval fma minus (x1, y1) (x2, y2)

/-- What the compiler chose.  A `site` is an iteration of the loop over the boundary points (they may differ, e.g. in the
alignment of the arrays); the last site is the final division. -/
structure FastCode (F : Type) where
  /-- the fused multiply-add instruction -/
  fma : F → F → F → F
  /-- evaluation order of the inner loop for output `j`.  src/common.cc:45-48, src/fftwconvolver.cc:47-51 -/
  sum : (site j : Nat) → SumTree
  /-- evaluation order of the exponent for index `k`.  src/poisson_pmf.cc:48, src/poisson_pmf.hh:17 -/
  exponent : (site k : Nat) → ExpTree
  /-- the implementation of `exp` called for index `k` (scalar or vector library) -/
  exp : (site k : Nat) → F → F
  /-- the real and the imaginary part of element `i` of the product of the spectra.  src/fftwconvolver.cc:63-65 -/
  product : (site i : Nat) → PartForm × PartForm
  /-- the final division.  src/ecdf2.cc:126 -/
  quot : QuotForm

/-- `convolve_same_size` (and `convolve_same_size_naive`) as compiled.  src/common.cc:42-51, src/fftwconvolver.cc:44-54 -/
def convolveSameSizeFast (c : FastCode F) (site : Nat) (size : Int) (src0 : List F) (o0 : Int) (src1 : List F) (o1 : Int)
    (dest : List F) (od : Int) : M (List F) :=
  forRange 0 size dest fun j dest => do
    let xs ← rdBlock src0 o0 (j + 1)
    let ys ← rdBlock src1 o1 (j + 1)
    wr dest (od + j) ((c.sum site j.toNat).eval c.fma (fun k => xs.getD k zero) (fun k => ys.getD (j.toNat - k) zero))

/-- `compute_array` as compiled.  src/poisson_pmf.cc:32-52 -/
def computeArrayFast (c : FastCode F) (site : Nat) (env : Env F) (g : PmfGen F) (k : Int) (lambda : F) : M (PmfGen F) := do
  assertC env.asserts (decide (0 ≤ k)) "k >= 0"
  assertC env.asserts (decide (k ≤ g.maxK)) "k <= max_k"
  if lt lambda zero then
    .error (.runtimeError "Expecting lambda>0 in PoissonPMFGenerator::compute_array()")
  else if eq lambda zero then do
    let arr ← wr g.pmfArray 0 (ofInt 1)
    let arr ← forRange 1 (k + 1) arr fun i arr => wr arr i (ofInt 0)
    .ok { g with pmfArray := arr }
  else do
    let logLambda := log lambda
    let arr ← forRange 0 (k + 1) g.pmfArray fun i arr => do
      let lg ← rd g.logGammaLUT (i + 1)
      wr arr i (c.exp site i.toNat ((c.exponent site i.toNat).eval c.fma lambda (ofInt i) logLambda lg))
    .ok { g with pmfArray := arr }

/-- Element `i` of `multiplicative_constant*src0[i]*src1[i]` as compiled.  src/fftwconvolver.cc:64 -/
def complexProductFast (c : FastCode F) (site i : Nat) (k : F) (a b : F × F) : F × F :=
  ((c.product site i).1.eval c.fma true k a.1 b.1 a.2 b.2, (c.product site i).2.eval c.fma false k a.1 b.2 a.2 b.1)

/-- `elementwise_complex_product` as compiled.  src/fftwconvolver.cc:56-66 -/
def elementwiseComplexProductFast (c : FastCode F) (site : Nat) (size : Int) (src0 src1 dest : List (F × F)) (k : F) :
    M (List (F × F)) :=
  forRange 0 size dest fun i dest => do
    let x ← rd src0 i
    let y ← rd src1 i
    wr dest i (complexProductFast c site i.toNat k x y)

/-- `FFTWConvolver::convolve_same_size` as compiled.  The transforms are those of the FFT library, which is compiled separately.
src/fftwconvolver.cc:105-144 -/
def convolveFast (c : FastCode F) (site : Nat) (env : Env F) (cv : Convolver F) (size : Int) (inputA : List F) (oa : Int)
    (inputB : List F) (ob : Int) (output : List F) (oo : Int) : M (Convolver F × List F) := do
  if size > cv.maximumInputSize then
    .error (.runtimeError (Convolver.sizeMsg size cv.maximumInputSize))
  else if size ≤ 0 then .ok (cv, output)
  else if size < MINIMUM_SIZE_FOR_FFTW_CONVOLUTION then do
    let output ← convolveSameSizeFast c site size inputA oa inputB ob output oo
    .ok (cv, output)
  else do
    let paddedSize := roundUp (2 * size) ROUNDING
    let r2cIn ← Convolver.copyZeroPadded inputA oa cv.r2cIn size paddedSize
    let (plan, r2cPlans) ← Convolver.memoizedPlan env cv.r2cPlans paddedSize
    let (r2cIn, tmpComplex) ← Convolver.execR2C env plan r2cIn cv.tmpComplex
    let r2cIn ← Convolver.copyZeroPadded inputB ob r2cIn size paddedSize
    let (plan, r2cPlans) ← Convolver.memoizedPlan env r2cPlans paddedSize
    let (r2cIn, r2cOut) ← Convolver.execR2C env plan r2cIn cv.r2cOut
    let c2rIn ← elementwiseComplexProductFast c site (paddedSize.tdiv 2 + 1) tmpComplex r2cOut cv.c2rIn
      (one /ᶠ ofInt paddedSize)
    let (plan, c2rPlans) ← Convolver.memoizedPlan env cv.c2rPlans paddedSize
    let (c2rIn, c2rOut) ← Convolver.execC2R env plan c2rIn cv.c2rOut
    let res ← rdBlock c2rOut 0 size
    let output ← wrBlock output oo res
    .ok ({ cv with r2cPlans := r2cPlans, c2rPlans := c2rPlans, r2cIn := r2cIn, r2cOut := r2cOut,
                   c2rIn := c2rIn, c2rOut := c2rOut, tmpComplex := tmpComplex }, output)

/-- The choice of convolution routine inside the loop.  src/ecdf2.cc:100-104 -/
def ncConvolveFast (c : FastCode F) (site : Nat) (env : Env F) (useFft : Bool) (conv : Convolver F) (curSize : Int)
    (pmf : List F) (src : List F) (oS : Int) (dest : List F) (oD : Int) : M (Convolver F × List F) :=
  if useFft then convolveFast c site env conv curSize pmf 0 src oS dest oD
  else do
    let d ← convolveSameSizeFast c site curSize pmf 0 src oS dest oD
    .ok (conv, d)

/-- One iteration of the loop over the joined bounds, as compiled.  src/ecdf2.cc:94-114 -/
def ncStepFast (c : FastCode F) (env : Env F) (intensity : F) (useFft : Bool) (s : NCState F) (bi : Bound F × Nat) :
    M (NCState F) := do
  let bd := bi.1
  let curSize := s.bStep - s.BStep + 1
  let lambda := intensity *ᶠ (bd.location -ᶠ s.prev)
  if lt zero lambda then do
    let pmfgen ← computeArrayFast c bi.2 env s.pmfgen curSize lambda
    let oS ← addrOf s.buffers.src s.BStep
    let oD ← addrOf s.buffers.dest s.BStep
    let (conv, dest) ← ncConvolveFast c bi.2 env useFft s.conv curSize pmfgen.pmfArray s.buffers.src oS
      s.buffers.dest oD
    let (dest, bc, Bc) ← updateDestBufferAndStepCounts bd.tag dest s.bStep s.BStep
    .ok { buffers := (s.buffers.setDest dest).flip, conv := conv, pmfgen := pmfgen,
          bStep := bc, BStep := Bc, prev := bd.location }
  else if eq lambda zero then do
    let (src, bc, Bc) ← updateDestBufferAndStepCounts bd.tag s.buffers.src s.bStep s.BStep
    .ok { s with buffers := s.buffers.setSrc src, bStep := bc, BStep := Bc, prev := bd.location }
  else
    .error (.runtimeError negLambdaMsg)

/-- `poisson_process_noncrossing_probability` as compiled; iterations are numbered from 0.  src/ecdf2.cc:79-116 -/
def noncrossingFast (c : FastCode F) (env : Env F) (sort : List (Bound F) → List (Bound F))
    (n : Int) (intensity : F) (b B : List F) (useFft : Bool) : M (List F) := do
  let bounds := joinAllBounds sort b B
  let buffers : DoubleBuffer F := DoubleBuffer.new (n + 1) zero
  let src ← wr buffers.src 0 one
  let pmfgen ← PmfGen.new env (n + 1)
  let s0 : NCState F :=
    { buffers := buffers.setSrc src, conv := Convolver.new env (n + 1), pmfgen := pmfgen,
      bStep := 0, BStep := 0, prev := zero }
  let s ← bounds.zipIdx.foldlM (ncStepFast c env intensity useFft) s0
  .ok s.buffers.src

/-- The final quotient `x / poisson_pmf(lambda, k)`, with `poisson_pmf` inlined.  src/ecdf2.cc:126, src/poisson_pmf.hh:9-18 -/
def quotFast (c : FastCode F) (site : Nat) (env : Env F) (x : F) (lambda : F) (k : Int) : M F := do
  assertC env.asserts (decide (0 ≤ k)) "k >= 0"
  assertC env.asserts (ge lambda zero) "lambda >= 0.0"
  if eq lambda zero then
    .ok (x /ᶠ (if k = 0 then one else zero))
  else
    let y := (c.exponent site k.toNat).eval c.fma lambda (ofInt k) (log lambda) (lgamma (ofInt (k + 1)))
    match c.quot with
    | .div => .ok (x /ᶠ c.exp site k.toNat y)
    | .recip => .ok (x *ᶠ (one /ᶠ c.exp site k.toNat y))
    | .expNeg => .ok (x *ᶠ c.exp site k.toNat (neg y))

/-- `ecdf2` as compiled.  src/ecdf2.cc:118-127 -/
def ecdf2Fast (c : FastCode F) (env : Env F) (sort : List (Bound F) → List (Bound F)) (b B : List F) (useFft : Bool) :
    M F := do
  let n : Int := b.length
  checkBoundaryVector "b" n b
  checkBoundaryVector "B" n B
  let probs ← noncrossingFast c env sort n (ofInt n) b B useFft
  let x ← rd probs n
  quotFast c (b.length + B.length + 1) env x (ofInt n) n

end CP
