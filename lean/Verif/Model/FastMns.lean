import Verif.Model.FastMath
import Verif.Model.LongDouble
/-
Model of `ecdf1_mns2016` as compiled with `-O3 -ffast-math -march=native` (Makefile:13, setup.py:16), with `double` (`F`) outside and
`long double` (`G`) inside, in the style of `Model/FastMath.lean`: the compiled code is a parameter.  Control flow, memory accesses,
comparisons, `frexp` and `ldexp` are those of the source.
-/
namespace CP
open FOps
variable {F G : Type} [FOps F] [FOps G]

/-- What the compiler chose for `ecdf1_mns2016`.  Site `i` is iteration `i` of the main loop, site `n` is what follows the loop. -/
structure MnsCode (G : Type) where
  /-- the fused multiply-add instruction -/
  fma : G → G → G → G
  /-- evaluation order of the sum of `degree+1` products in `evaluate`.  src/ecdf1_mns2016.cc:135-137 -/
  sum : (site degree : Nat) → SumTree
  /-- the code for `pow(y, i)`: a library call, or multiplications.  src/ecdf1_mns2016.cc:136 -/
  powi : (site i : Nat) → G → G
  /-- is the division by `i` compiled to a multiplication by the reciprocal.  src/ecdf1_mns2016.cc:144 -/
  recip : (site i : Nat) → Bool
  /-- evaluation order of the exponent, with `log(integral_result)` in the place of `lambda`, `lgamma(n+1)` in the place of `lgamma(k+1)`,
  and `delta*log(2)` in the place of `k*log(lambda)`.  src/ecdf1_mns2016.cc:241 -/
  exponent : ExpTree
  /-- the implementation of `exp`.  src/ecdf1_mns2016.cc:241 -/
  exp : G → G

/-- `m / (FLOAT)i`, as a division or a multiplication by the reciprocal.  src/ecdf1_mns2016.cc:144 -/
def MnsCode.divide (c : MnsCode G) (site i : Nat) (m : G) : G :=
  if c.recip site i then m *ᶠ (one /ᶠ ofInt (i : Int)) else m /ᶠ ofInt (i : Int)

/-- `evaluate` as compiled.  src/ecdf1_mns2016.cc:132-139 -/
def Poly.evaluateFast (c : MnsCode G) (site : Nat) (p : Poly G) (x : G) : M G := do
  let ms ← rdBlock p.mult 0 (p.degree + 1)
  let as ← rdBlock p.add 0 (p.degree + 1)
  .ok ((c.sum site p.degree.toNat).eval c.fma (fun i => ms.getD i zero) (fun i => c.powi site i (x +ᶠ as.getD i zero)))

/-- `integrate` as compiled.  src/ecdf1_mns2016.cc:141-151 -/
def Poly.integrateFast (c : MnsCode G) (site : Nat) (p : Poly G) : M (Poly G) := do
  let (mult, add) ← forRange 0 (p.degree + 1) (p.mult, p.add) fun j (s : List G × List G) => do
    let i := p.degree + 1 - j
    let m ← rd s.1 (i - 1)
    let mult ← wr s.1 i (c.divide site i.toNat m)
    let a ← rd s.2 (i - 1)
    let add ← wr s.2 i a
    .ok (mult, add)
  let add ← wr add 1 zero
  let add ← wr add 0 zero
  let mult ← wr mult 0 zero
  .ok { degree := p.degree + 1, mult := mult, add := add }

/-- One iteration of the main loop, as compiled.  src/ecdf1_mns2016.cc:210-227 -/
def mnsStepXFast (c : MnsCode G) (L : LongDouble F G) (asserts : Bool) (b : List F) (i : Int) (s : Poly G × Int) : M (Poly G × Int) := do
  let p ← s.1.integrateFast c i.toNat
  let bi ← rd b i
  let p ← p.setAdd (envG asserts) 1 (L.widen (neg bi))
  let v ← p.evaluateFast c i.toNat (L.widen bi)
  let p ← p.setMult (envG asserts) 0 (neg v)
  if i.tmod NUM_ITERATIONS_BETWEEN_EXP_FIXES = 0 then do
    let maxCoef ← p.maxMult (envG asserts)
    let highest := frexpExp maxCoef
    if highest < 0 then do
      let p ← p.ldexpAll (0 - highest)
      .ok (p, s.2 + (0 - highest))
    else .ok (p, s.2)
  else .ok (p, s.2)

/-- `ecdf1_mns2016_b` as compiled.  src/ecdf1_mns2016.cc:197-242 -/
def ecdf1Mns2016bXFast (c : MnsCode G) (L : LongDouble F G) (env : Env F) (b : List F) : M F := do
  let n : Int := b.length
  checkBoundaryVector "b" n b
  let p ← Poly.new (envG env.asserts) (n + 1)
  let p ← p.setMult (envG env.asserts) 0 (one : G)
  let (p, delta) ← forRange 0 n (p, (0 : Int)) (mnsStepXFast c L env.asserts b)
  let integralResult ← p.evaluateFast c b.length (ofInt 1)
  let logIntegralResult := log integralResult
  .ok (L.narrow (c.exp (c.exponent.eval c.fma logIntegralResult (ofInt delta) (log (ofInt 2)) (lgamma (ofInt (n + 1))))))

/-- `ecdf1_mns2016_B` as compiled.  src/ecdf1_mns2016.cc:244-255 -/
def ecdf1Mns2016BXFast (c : MnsCode G) (L : LongDouble F G) (env : Env F) (B : List F) : M F := do
  let n : Int := B.length
  checkBoundaryVector "B" n B
  let steps ← symmetricSteps B
  ecdf1Mns2016bXFast c L env steps

/-- `calculate_ecdf1_mns2016`.  src/crossprob.cc:81-91 -/
def calculateEcdf1Mns2016IOXFast (c : MnsCode G) (L : LongDouble F G) (w : World F) (b B : List F) : OutM F :=
  if b.length > 0 ∧ B.length = 0 then .lift (ecdf1Mns2016bXFast c L w.env b)
  else if b.length = 0 ∧ B.length > 0 then .lift (ecdf1Mns2016BXFast c L w.env B)
  else do
    OutM.put usageText
    .lift (.error (.runtimeError "Expecting EITHER a lower or an upper boundary function when using the 'ecdf1-mns2016' command for computing a one-sided boundary crossing.\n"))

end CP
