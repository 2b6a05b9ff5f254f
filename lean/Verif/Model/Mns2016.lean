import Verif.Model.Ecdf1New
/-
Model of src/ecdf1_mns2016.cc (with FLOAT_PRECISION_BITS 80: FLOAT is `long double`; the model uses
one number type `F` for `double` and `long double`).
-/
namespace CP
variable {F : Type} [FOps F]
open FOps

/-- `PolynomialTranslatedMonomials`: sum of `mult[i] * (x + add[i])^i`.
src/ecdf1_mns2016.cc:76-91 -/
structure Poly (F : Type) where
  degree : Int
  mult : List F
  add : List F

namespace Poly

/-- Constructor (both arrays `memset` to 0).  src/ecdf1_mns2016.cc:93-101 -/
def new (env : Env F) (maxDegree : Int) : M (Poly F) := do
  assertC env.asserts (decide (0 ≤ maxDegree)) "max_degree >= 0"
  .ok { degree := 0
        mult := List.replicate (maxDegree + 1).toNat zero
        add := List.replicate (maxDegree + 1).toNat zero }

/-- `get_multiplicative_coefficient`.  src/ecdf1_mns2016.cc:109-114 -/
def getMult (env : Env F) (p : Poly F) (degree : Int) : M F := do
  assertC env.asserts (decide (0 ≤ degree)) "degree >= 0"
  assertC env.asserts (decide (degree ≤ p.degree)) "degree <= this->degree"
  rd p.mult degree

/-- `set_multiplicative_coefficient`.  src/ecdf1_mns2016.cc:116-122 -/
def setMult (env : Env F) (p : Poly F) (degree : Int) (c : F) : M (Poly F) := do
  assertC env.asserts (decide (0 ≤ degree)) "degree >= 0"
  assertC env.asserts (decide (degree ≤ p.degree)) "degree <= this->degree"
  let m ← wr p.mult degree c
  .ok { p with mult := m }

/-- `set_additive_coefficient`.  src/ecdf1_mns2016.cc:124-130 -/
def setAdd (env : Env F) (p : Poly F) (degree : Int) (c : F) : M (Poly F) := do
  assertC env.asserts (decide (0 ≤ degree)) "degree >= 0"
  assertC env.asserts (decide (degree ≤ p.degree)) "degree <= this->degree"
  let a ← wr p.add degree c
  .ok { p with add := a }

/-- `evaluate`.  src/ecdf1_mns2016.cc:132-139 -/
def evaluate (p : Poly F) (x : F) : M F :=
  forRange 0 (p.degree + 1) (zero : F) fun i result => do
    let m ← rd p.mult i
    let a ← rd p.add i
    .ok (result +ᶠ m *ᶠ powi (x +ᶠ a) i)

/-- `integrate`.  The C++ loop counts `i` down from `degree+1` to 1; here the loop variable `j`
counts up and `i = degree + 1 - j`.  src/ecdf1_mns2016.cc:141-151 -/
def integrate (p : Poly F) : M (Poly F) := do
  let (mult, add) ← forRange 0 (p.degree + 1) (p.mult, p.add) fun j (s : List F × List F) => do
    let i := p.degree + 1 - j
    let m ← rd s.1 (i - 1)
    let mult ← wr s.1 i (m /ᶠ ofInt i)
    let a ← rd s.2 (i - 1)
    let add ← wr s.2 i a
    .ok (mult, add)
  let add ← wr add 1 zero
  let add ← wr add 0 zero
  let mult ← wr mult 0 zero
  .ok { degree := p.degree + 1, mult := mult, add := add }

/-- `ldexp_all_multiplicative_coefficients`.  src/ecdf1_mns2016.cc:153-158 -/
def ldexpAll (p : Poly F) (e : Int) : M (Poly F) := do
  let mult ← forRange 0 (p.degree + 1) p.mult fun i mult => do
    let m ← rd mult i
    wr mult i (ldexp m e)
  .ok { p with mult := mult }

/-- `maximum_multiplicative_coefficient`.  src/ecdf1_mns2016.cc:177-188 -/
def maxMult (env : Env F) (p : Poly F) : M F := do
  assertC env.asserts (decide (1 ≤ p.degree)) "p.degree >= 1"
  let m ← p.getMult env 0
  forRange 0 (p.degree + 1) m fun i m => do
    let x ← p.getMult env i
    .ok (if lt m x then x else m)

end Poly

/-- `NUM_ITERATIONS_BETWEEN_EXP_FIXES`.  src/ecdf1_mns2016.cc:202 -/
def NUM_ITERATIONS_BETWEEN_EXP_FIXES : Int := 16

/-- One iteration of the main loop.  `readExponent i x` is the value returned by
`extract_exponent(x)` in iteration `i`: normally `frexpExp x`, but the function stores the exponent
in a `static int`, so a concurrent caller may overwrite it between the `frexp` and the `return`;
hence a parameter.  src/ecdf1_mns2016.cc:190-195, 210-227 -/
def mnsStep (env : Env F) (readExponent : Int → F → Int) (b : List F) (i : Int)
    (s : Poly F × Int) : M (Poly F × Int) := do
  let p ← s.1.integrate
  let bi ← rd b i
  let p ← p.setAdd env 1 (neg bi)
  let v ← p.evaluate bi
  let p ← p.setMult env 0 (neg v)
  if i.tmod NUM_ITERATIONS_BETWEEN_EXP_FIXES = 0 then do
    let maxCoef ← p.maxMult env
    let highest := readExponent i maxCoef
    if highest < 0 then do
      let p ← p.ldexpAll (0 - highest)
      .ok (p, s.2 + (0 - highest))
    else .ok (p, s.2)
  else .ok (p, s.2)

/-- `ecdf1_mns2016_b` with the exponent reads given by `readExponent`.
src/ecdf1_mns2016.cc:197-242 -/
def ecdf1Mns2016bWith (env : Env F) (readExponent : Int → F → Int) (b : List F) : M F := do
  let n : Int := b.length
  checkBoundaryVector "b" n b
  let p ← Poly.new env (n + 1)
  let p ← p.setMult env 0 one
  let (p, delta) ← forRange 0 n (p, (0 : Int)) (mnsStep env readExponent b)
  let integralResult ← p.evaluate (ofInt 1)
  let logIntegralResult := log integralResult
  .ok (exp (lgamma (ofInt (n + 1)) +ᶠ logIntegralResult -ᶠ ofInt delta *ᶠ log (ofInt 2)))

/-- `ecdf1_mns2016_b`.  src/ecdf1_mns2016.cc:197-242 -/
def ecdf1Mns2016b (env : Env F) (b : List F) : M F :=
  ecdf1Mns2016bWith env (fun _ x => frexpExp x) b

/-- `ecdf1_mns2016_B`.  src/ecdf1_mns2016.cc:244-255 -/
def ecdf1Mns2016B (env : Env F) (B : List F) : M F := do
  let n : Int := B.length
  checkBoundaryVector "B" n B
  let steps ← symmetricSteps B
  ecdf1Mns2016b env steps

end CP
