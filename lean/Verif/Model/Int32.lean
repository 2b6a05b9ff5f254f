import Verif.Model.Fftw
import Verif.Model.MonteCarlo
/-
The size computations of src/fftwconvolver.cc in 32-bit `int` arithmetic (two's complement wrap-around:
Makefile:13 compiles with `-fwrapv`).  The rest of the model uses unbounded integers.
-/
namespace CP

/-- `round_up`, every intermediate result a 32-bit `int`.  src/fftwconvolver.cc:22-26 -/
def roundUp32 (n rounding : Int) : Int :=
  wrap32 ((wrap32 (wrap32 (n + rounding) - 1)).tdiv rounding * rounding)

/-- `round_up(2*size, ROUNDING)`.  src/fftwconvolver.cc:30, 31, 33, 125 -/
def paddedSize32 (size : Int) : Int := roundUp32 (wrap32 (2 * size)) ROUNDING

/-- The member `maximum_input_size`.  src/fftwconvolver.cc:29 -/
def guardSize32 (size : Int) : Int := wrap32 (wrap32 (size + ROUNDING) - 1)

/-- The number of plans.  src/fftwconvolver.cc:30-31 -/
def numPlans32 (size : Int) : Int := (paddedSize32 size).tdiv ROUNDING

/-- The index of a plan.  src/fftwconvolver.cc:73, 88 -/
def planIndex32 (roundedSize : Int) : Int := wrap32 (roundedSize.tdiv ROUNDING - 1)

end CP
