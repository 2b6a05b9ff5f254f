import Verif.Model.Output
/-
Model of src/ecdf1_mns2016.cc with two number types, as compiled (`FLOAT_PRECISION_BITS 80`): `F` is `double`, `G` is
`long double` (`FLOAT`).  All operations of the polynomial class are in `G`; the boundary, its validation, the reflection `1 - B`,
the negation `-b[i]` and the returned value are in `F`.
-/
namespace CP
variable {F G : Type} [FOps F] [FOps G]
open FOps

/-- The implicit conversions between `double` and `long double`. -/
structure LongDouble (F G : Type) where
  /-- `double` to `long double` -/
  widen : F → G
  /-- `long double` to `double` -/
  narrow : G → F

/-- The parameters of the `long double` code: only `asserts` matters, there is no FFT and no uninitialised memory in it. -/
def envG (asserts : Bool) : Env G where
  asserts := asserts
  fft := ⟨fun _ _ _ => (zero, zero), fun _ _ _ => zero, fun _ _ _ => zero, fun _ _ _ => (zero, zero)⟩
  junk := fun _ _ => zero
  junkC := fun _ _ => (zero, zero)

/-- One iteration of the main loop.  src/ecdf1_mns2016.cc:210-227 -/
def mnsStepX (L : LongDouble F G) (asserts : Bool) (b : List F) (i : Int) (s : Poly G × Int) : M (Poly G × Int) := do
  let p ← s.1.integrate
  let bi ← rd b i
  let p ← p.setAdd (envG asserts) 1 (L.widen (neg bi))
  let v ← p.evaluate (L.widen bi)
  let p ← p.setMult (envG asserts) 0 (neg v)
  if i.tmod NUM_ITERATIONS_BETWEEN_EXP_FIXES = 0 then do
    let maxCoef ← p.maxMult (envG asserts)
    let highest := frexpExp maxCoef
    if highest < 0 then do
      let p ← p.ldexpAll (0 - highest)
      .ok (p, s.2 + (0 - highest))
    else .ok (p, s.2)
  else .ok (p, s.2)

/-- `ecdf1_mns2016_b`.  src/ecdf1_mns2016.cc:197-242 -/
def ecdf1Mns2016bX (L : LongDouble F G) (env : Env F) (b : List F) : M F := do
  let n : Int := b.length
  checkBoundaryVector "b" n b
  let p ← Poly.new (envG env.asserts) (n + 1)
  let p ← p.setMult (envG env.asserts) 0 (one : G)
  let (p, delta) ← forRange 0 n (p, (0 : Int)) (mnsStepX L env.asserts b)
  let integralResult ← p.evaluate (ofInt 1)
  let logIntegralResult := log integralResult
  .ok (L.narrow (exp (lgamma (ofInt (n + 1)) +ᶠ logIntegralResult -ᶠ ofInt delta *ᶠ log (ofInt 2))))

/-- `ecdf1_mns2016_B`.  src/ecdf1_mns2016.cc:244-255 -/
def ecdf1Mns2016BX (L : LongDouble F G) (env : Env F) (B : List F) : M F := do
  let n : Int := B.length
  checkBoundaryVector "B" n B
  let steps ← symmetricSteps B
  ecdf1Mns2016bX L env steps

/-- `calculate_ecdf1_mns2016`.  src/crossprob.cc:81-91 -/
def calculateEcdf1Mns2016IOX (L : LongDouble F G) (w : World F) (b B : List F) : OutM F :=
  if b.length > 0 ∧ B.length = 0 then .lift (ecdf1Mns2016bX L w.env b)
  else if b.length = 0 ∧ B.length > 0 then .lift (ecdf1Mns2016BX L w.env B)
  else do
    OutM.put usageText
    .lift (.error (.runtimeError "Expecting EITHER a lower or an upper boundary function when using the 'ecdf1-mns2016' command for computing a one-sided boundary crossing.\n"))

/-- `handle_command_line_arguments`.  src/crossprob.cc:144-174 -/
def handleCommandLineArgumentsIOX (L : LongDouble F G) (w : World F) (fmt : F → Str) (command filename : Str) : OutM Unit := do
  let (b, B) ← OutM.lift (readAndCheckBoundariesFile w.libc w.fs filename)
  let result ←
    if command = "ecdf1-mns2016".toList then calculateEcdf1Mns2016IOX L w b B
    else if command = "ecdf1-new".toList then calculateEcdf1NewIO w b B
    else if command = "ecdf2-ks2001".toList then .lift (calculateEcdf2Ks2001 w b B)
    else if command = "ecdf2-mn2017".toList then .lift (calculateEcdf2Mn2017 w b B)
    else do
      OutM.put usageText
      .lift (.error (.runtimeError unknownCommandMsg))
  OutM.put (fmt result ++ ['\n'])

/-- `main`.  src/crossprob.cc:176-195 -/
def crossprobRunX (L : LongDouble F G) (w : World F) (fmt : F → Str) (ioWhat : Str) (args : List Str) : RunEnd :=
  match args with
  | [command, filename] =>
    let r := handleCommandLineArgumentsIOX L w fmt command filename
    match r.result with
    | .ok _ => .exited 0 r.text
    | .error .ioFailure => .exited 2 (r.text ++ "ifstream::failure exception caught:\n".toList ++ ioWhat ++ ['\n'])
    | .error (.runtimeError msg) => .exited 3 (r.text ++ "Error:\n".toList ++ whatText msg ++ ['\n'])
    | .error (.assertFailed _) => .aborted
    | .error (.uncaught _) => .aborted
    | .error (.ub _) => .undefined
    | .error .diverge => .hangs
  | _ => .exited 1 (usageText ++ "Error: Expecting 2 command line arguments!\n".toList)

end CP
