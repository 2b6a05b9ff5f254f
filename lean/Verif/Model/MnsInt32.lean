import Verif.Model.Mns2016
import Verif.Model.MonteCarlo
/-
`ecdf1_mns2016_b` with its `int` variables `n`, `n+1`, `highest_exponent` and `total_exponent_delta` in 32-bit arithmetic (two's
complement, Makefile:13 has `-fwrapv`).  `Model/Mns2016.lean` has unbounded integers.
-/
namespace CP
variable {F : Type} [FOps F]
open FOps

/-- One iteration of the main loop.  src/ecdf1_mns2016.cc:190-195, 210-227 -/
def mnsStep32 (env : Env F) (readExponent : Int → F → Int) (b : List F) (i : Int)
    (s : Poly F × Int) : M (Poly F × Int) := do
  let p ← s.1.integrate
  let bi ← rd b i
  let p ← p.setAdd env 1 (neg bi)
  let v ← p.evaluate bi
  let p ← p.setMult env 0 (neg v)
  if i.tmod NUM_ITERATIONS_BETWEEN_EXP_FIXES = 0 then do
    let maxCoef ← p.maxMult env
    let highest := wrap32 (readExponent i maxCoef)
    if highest < 0 then do
      let p ← p.ldexpAll (wrap32 (0 - highest))
      .ok (p, wrap32 (s.2 + wrap32 (0 - highest)))
    else .ok (p, s.2)
  else .ok (p, s.2)

/-- `ecdf1_mns2016_b`.  src/ecdf1_mns2016.cc:197-242 -/
def ecdf1Mns2016bWith32 (env : Env F) (readExponent : Int → F → Int) (b : List F) : M F := do
  let n : Int := wrap32 b.length
  checkBoundaryVector "b" n b
  let p ← Poly.new env (wrap32 (n + 1))
  let p ← p.setMult env 0 one
  let (p, delta) ← forRange 0 n (p, (0 : Int)) (mnsStep32 env readExponent b)
  let integralResult ← p.evaluate (ofInt 1)
  let logIntegralResult := log integralResult
  .ok (exp (lgamma (ofInt (wrap32 (n + 1))) +ᶠ logIntegralResult -ᶠ ofInt delta *ᶠ log (ofInt 2)))

end CP
