import Verif.Model.Common
/-
Model of src/fftwconvolver.cc and src/fftwconvolver.hh.
-/
namespace CP
variable {F : Type} [FOps F]
open FOps

/-- `ROUNDING`.  src/fftwconvolver.cc:18 -/
def ROUNDING : Int := 2048
/-- `MINIMUM_SIZE_FOR_FFTW_CONVOLUTION`.  src/fftwconvolver.cc:19 -/
def MINIMUM_SIZE_FOR_FFTW_CONVOLUTION : Int := 128

/-- `round_up` (C++ `int` division truncates).  src/fftwconvolver.cc:22-26 (the assertion
`rounding >= 0` always holds: the only argument is 2048).  Unbounded integers; 32-bit overflow is
treated separately (property C40). -/
def roundUp (n rounding : Int) : Int := (n + rounding - 1).tdiv rounding * rounding

/-- `FFTWConvolver` object.  A plan is represented by the size it was created for; `none` is
`NULL`.  src/fftwconvolver.hh:13-31 -/
structure Convolver (F : Type) where
  maximumInputSize : Int
  r2cPlans : List (Option Int)
  c2rPlans : List (Option Int)
  r2cIn : List F
  r2cOut : List (F × F)
  c2rIn : List (F × F)
  c2rOut : List F
  tmpComplex : List (F × F)

namespace Convolver

/-- Constructor.  The member `maximum_input_size` gets the argument plus `ROUNDING-1`; all the
other uses of the name refer to the constructor *parameter*.  src/fftwconvolver.cc:28-42 -/
def new (env : Env F) (maximumInputSize : Int) : Convolver F :=
  let maximumPaddedInputSize := roundUp (2 * maximumInputSize) ROUNDING
  { maximumInputSize := maximumInputSize + ROUNDING - 1
    r2cPlans := List.replicate (maximumPaddedInputSize.tdiv ROUNDING).toNat none
    c2rPlans := List.replicate (maximumPaddedInputSize.tdiv ROUNDING).toNat none
    r2cIn := allocDoubles env 10 maximumPaddedInputSize
    r2cOut := allocComplexes env 11 maximumPaddedInputSize
    c2rIn := allocComplexes env 12 maximumPaddedInputSize
    c2rOut := allocDoubles env 13 maximumPaddedInputSize
    tmpComplex := allocComplexes env 14 maximumPaddedInputSize }

/-- The memoisation shared by `memoized_r2c_plan` and `memoized_c2r_plan`: returns the plan (its
size) and the updated plan vector.  src/fftwconvolver.cc:68-81, 83-96 -/
def memoizedPlan (env : Env F) (plans : List (Option Int)) (roundedSize : Int) :
    M (Int × List (Option Int)) := do
  assertC env.asserts (decide (0 < roundedSize)) "rounded_size > 0"
  assertC env.asserts (decide (roundedSize.tmod ROUNDING = 0)) "(rounded_size % ROUNDING) == 0"
  let index := roundedSize.tdiv ROUNDING - 1
  assertC env.asserts (decide (0 ≤ index ∧ index < (plans.length : Int))) "index < plans.size()"
  let p ← rd plans index
  match p with
  | none => do
    let plans' ← wr plans index (some roundedSize)
    .ok (roundedSize, plans')
  | some sz => .ok (sz, plans)

/-- `copy_zero_padded`: `memcpy` of `srcSize` elements then `memset` to zero up to `destSize`.
src/fftwconvolver.cc:98-103 -/
def copyZeroPadded (src : List F) (o : Int) (dest : List F) (srcSize destSize : Int) :
    M (List F) := do
  let xs ← rdBlock src o srcSize
  let dest ← wrBlock dest 0 xs
  wrBlock dest srcSize (List.replicate (destSize - srcSize).toNat zero)

/-- `complex<double> *` multiplication `c*a*b` as `(c*a)*b` with real `c`. -/
def cscale (c : F) (a : F × F) : F × F := (c *ᶠ a.1, c *ᶠ a.2)
/-- Complex product.  Simplified: the recovery of infinities when both parts come out NaN (C99 Annex G, `__muldc3`) is not modelled; it
is compiled out under `-ffast-math` (Makefile) and never concerns finite data.  src/fftwconvolver.cc:63 -/
def cmul (a b : F × F) : F × F := (a.1 *ᶠ b.1 -ᶠ a.2 *ᶠ b.2, a.1 *ᶠ b.2 +ᶠ a.2 *ᶠ b.1)

/-- `elementwise_complex_product`.  src/fftwconvolver.cc:56-66 -/
def elementwiseComplexProduct (size : Int) (src0 src1 dest : List (F × F)) (c : F) :
    M (List (F × F)) :=
  forRange 0 size dest fun i dest => do
    let x ← rd src0 i
    let y ← rd src1 i
    wr dest i (cmul (cscale c x) y)

/-- Execute an r2c plan of size `N` reading `inp`, writing `N/2+1` entries of `out`.  Returns
(clobbered input, new output).  FFTW contract: touches exactly these elements. -/
def execR2C (env : Env F) (N : Int) (inp : List F) (out : List (F × F)) :
    M (List F × List (F × F)) := do
  let xs ← rdBlock inp 0 N
  let out ← wrBlock out 0 ((List.range (N.toNat / 2 + 1)).map (env.fft.r2c N.toNat xs))
  let inp ← wrBlock inp 0 ((List.range N.toNat).map (env.fft.r2cClobber N.toNat xs))
  .ok (inp, out)

/-- Execute a c2r plan of size `N` reading `N/2+1` entries of `inp`, writing `N` entries of
`out`.  Returns (clobbered input, new output). -/
def execC2R (env : Env F) (N : Int) (inp : List (F × F)) (out : List F) :
    M (List (F × F) × List F) := do
  let xs ← rdBlock inp 0 ((N.toNat / 2 + 1 : Nat) : Int)
  let out ← wrBlock out 0 ((List.range N.toNat).map (env.fft.c2r N.toNat xs))
  let inp ← wrBlock inp 0 ((List.range (N.toNat / 2 + 1)).map (env.fft.c2rClobber N.toNat xs))
  .ok (inp, out)

/-- Error text of the size guard.  src/fftwconvolver.cc:113 -/
def sizeMsg (size maxSize : Int) : String :=
  s!"FFTWConvolver::convolve_same_size received input of size {size}. This is bigger than maximum_input_size=={maxSize}"

/-- `FFTWConvolver::convolve_same_size`: returns the new state of the convolver and of the
output array.  src/fftwconvolver.cc:105-144 -/
def convolve (env : Env F) (cv : Convolver F) (size : Int) (inputA : List F) (oa : Int)
    (inputB : List F) (ob : Int) (output : List F) (oo : Int) :
    M (Convolver F × List F) := do
  if size > cv.maximumInputSize then
    .error (.runtimeError (sizeMsg size cv.maximumInputSize))
  else if size ≤ 0 then .ok (cv, output)
  else if size < MINIMUM_SIZE_FOR_FFTW_CONVOLUTION then do
    let output ← convolveSameSize size inputA oa inputB ob output oo
    .ok (cv, output)
  else do
    let paddedSize := roundUp (2 * size) ROUNDING
    -- tmp_complex <- FFT(zeropad(input_a))
    let r2cIn ← copyZeroPadded inputA oa cv.r2cIn size paddedSize
    let (plan, r2cPlans) ← memoizedPlan env cv.r2cPlans paddedSize
    let (r2cIn, tmpComplex) ← execR2C env plan r2cIn cv.tmpComplex
    -- r2c_out <- FFT(zeropad(input_b))
    let r2cIn ← copyZeroPadded inputB ob r2cIn size paddedSize
    let (plan, r2cPlans) ← memoizedPlan env r2cPlans paddedSize
    let (r2cIn, r2cOut) ← execR2C env plan r2cIn cv.r2cOut
    -- pointwise product, inverse transform
    let c2rIn ← elementwiseComplexProduct (paddedSize.tdiv 2 + 1) tmpComplex r2cOut cv.c2rIn
      (one /ᶠ ofInt paddedSize)
    let (plan, c2rPlans) ← memoizedPlan env cv.c2rPlans paddedSize
    let (c2rIn, c2rOut) ← execC2R env plan c2rIn cv.c2rOut
    let res ← rdBlock c2rOut 0 size
    let output ← wrBlock output oo res
    .ok ({ cv with r2cPlans := r2cPlans, c2rPlans := c2rPlans, r2cIn := r2cIn, r2cOut := r2cOut,
                   c2rIn := c2rIn, c2rOut := c2rOut, tmpComplex := tmpComplex }, output)

end Convolver
end CP
