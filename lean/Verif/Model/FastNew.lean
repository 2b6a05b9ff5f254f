import Verif.Model.FastMath
import Verif.Model.Ecdf1New
/-
Model of `ecdf1_new` as compiled with `-O3 -ffast-math -march=native` (Makefile:13, setup.py:16), in the style of
`Model/FastMath.lean`: the compiled code is a parameter.  Control flow, memory accesses and comparisons are those of the source.
-/
namespace CP
open FOps
variable {F : Type} [FOps F]

/-- What the compiler chose for `ecdf1_new`.  Sites: the convolution of the block that ends at step `I` is site `3*I`, the one of
inner step `i` is `3*i+1`, the probabilities in the subtraction loop of inner step `i` are `3*i+2`, the last convolution is `3*n` and
the final quotient `3*n+1`. -/
structure FastCodeNew (F : Type) extends FastCode F where
  /-- is `dest[j] - prob_exit_now*p` of inner step `i` fused.  src/ecdf1_new.cc:76 -/
  fused : (i j : Nat) → Bool

/-- `dj - x*p`, fused or not.  src/ecdf1_new.cc:76 -/
def subMul (c : FastCodeNew F) (i j : Nat) (dj x p : F) : F :=
  if c.fused i j then c.fma (neg x) p dj else dj -ᶠ x *ᶠ p

/-- `evaluate_pmf` as compiled.  src/poisson_pmf.hh:25-35 -/
def evaluatePmfFast (c : FastCode F) (site : Nat) (env : Env F) (g : PmfGen F) (lambda : F) (k : Int) : M F := do
  assertC env.asserts (ge lambda zero) "lambda >= 0"
  assertC env.asserts (decide (0 ≤ k)) "k >= 0"
  if eq lambda zero then
    .ok (if k = 0 then one else zero)
  else do
    let lg ← rd g.logGammaLUT (k + 1)
    .ok (c.exp site k.toNat ((c.exponent site k.toNat).eval c.fma lambda (ofInt k) (log lambda) lg))

/-- One iteration of the inner loop, as compiled.  src/ecdf1_new.cc:66-82 -/
def miniStepFast (c : FastCodeNew F) (env : Env F) (n : Int) (intensity : F) (B : List F) (Iprev I : Int) (i : Int)
    (s : MiniState F) : M (MiniState F) := do
  let Bi ← rd B i
  let site := 3 * i.toNat
  let pmfgen ← computeArrayFast c.toFastCode (site + 1) env s.pmfgen (I - i + 1) (intensity *ᶠ (Bi -ᶠ s.iPrevLocation))
  let oS ← addrOf s.minibuffers.src (i - Iprev - 1)
  let oD ← addrOf s.minibuffers.dest (i - Iprev - 1)
  let (conv, md) ← ncConvolveFast c.toFastCode (site + 1) env true s.conv (I - i + 1) pmfgen.pmfArray s.minibuffers.src oS
    s.minibuffers.dest oD
  let probExitNow ← rd md (i - Iprev - 1)
  let BI ← rd B I
  let lambda := intensity *ᶠ (BI -ᶠ Bi)
  let dest ← forRange (I + 1) (n + 1) s.dest fun j dest => do
    let dj ← rd dest j
    let p ← evaluatePmfFast c.toFastCode (site + 2) env pmfgen lambda (j - i)
    wr dest j (subMul c i.toNat j.toNat dj probExitNow p)
  let md ← wr md (i - Iprev - 1) zero
  let ms ← wr s.minibuffers.src (i - Iprev - 1) zero
  .ok { dest := dest, minibuffers := ((s.minibuffers.setDest md).setSrc ms).flip, conv := conv,
        pmfgen := pmfgen, iPrevLocation := Bi }

/-- Body of the `while (true)` loop up to the `break` test, as compiled.  src/ecdf1_new.cc:46-88 -/
def blockStepFast (c : FastCodeNew F) (env : Env F) (n : Int) (intensity : F) (B : List F) (I : Int)
    (s : BlockState F) : M (BlockState F) := do
  let BI ← rd B I
  let site := 3 * I.toNat
  let pmfgen ← computeArrayFast c.toFastCode site env s.pmfgen (n - s.Iprev) (intensity *ᶠ (BI -ᶠ s.IprevLocation))
  let oS ← addrOf s.buffers.src (s.Iprev + 1)
  let (conv, tmp) ← ncConvolveFast c.toFastCode site env true s.conv (n - s.Iprev) pmfgen.pmfArray s.buffers.src oS s.tmp 0
  let _ ← addrOf s.buffers.dest 0
  let _ ← addrOf s.buffers.dest (I + 1)
  let dest ← wrBlock s.buffers.dest 0 (List.replicate (I + 1).toNat zero)
  let xs ← rdBlock tmp (I - s.Iprev) ((n - s.Iprev) - (I - s.Iprev))
  let dest ← wrBlock dest (I + 1) xs
  let _ ← addrOf s.buffers.src (I + 1)
  let _ ← addrOf s.minibuffers.src 0
  let ys ← rdBlock s.buffers.src (s.Iprev + 1) ((I + 1) - (s.Iprev + 1))
  let ms ← wrBlock s.minibuffers.src 0 ys
  let m0 : MiniState F :=
    { dest := dest, minibuffers := s.minibuffers.setSrc ms, conv := conv, pmfgen := pmfgen,
      iPrevLocation := s.IprevLocation }
  let m ← forRange (s.Iprev + 1) I m0 (miniStepFast c env n intensity B s.Iprev I)
  .ok { buffers := (s.buffers.setDest m.dest).flip, minibuffers := m.minibuffers, conv := m.conv,
        pmfgen := m.pmfgen, tmp := tmp, IprevLocation := BI, Iprev := I }

/-- The `while (true)` loop, with fuel as in `blockLoop`.  src/ecdf1_new.cc:42-96 -/
def blockLoopFast (c : FastCodeNew F) (env : Env F) (n : Int) (intensity : F) (B : List F) (jumpSize nSteps : Int) :
    Nat → Int → BlockState F → M (BlockState F)
  | 0, _, _ => .error .diverge
  | fuel + 1, I, s => do
    let s ← blockStepFast c env n intensity B I s
    if I = nSteps - 1 then .ok s
    else blockLoopFast c env n intensity B jumpSize nSteps fuel (min (I + jumpSize) (nSteps - 1)) s

/-- `poisson_B_noncrossing_probability_n2` as compiled.  src/ecdf1_new.cc:24-112 -/
def poissonBNoncrossingProbabilityN2Fast (c : FastCodeNew F) (env : Env F) (n : Int) (intensity : F) (B : List F)
    (jumpSize : Int) : M (List F) := do
  assertC env.asserts (decide (jumpSize ≤ n)) "jump_size <= n"
  let buffers : DoubleBuffer F := DoubleBuffer.new (n + 1) zero
  let minibuffers : DoubleBuffer F := DoubleBuffer.new jumpSize zero
  let src ← wr buffers.src 0 one
  let pmfgen ← PmfGen.new env (n + 1)
  let nSteps : Int := B.length
  let s0 : BlockState F :=
    { buffers := buffers.setSrc src, minibuffers := minibuffers, conv := Convolver.new env (n + 1),
      pmfgen := pmfgen, tmp := allocDoubles env 20 (n + 1), IprevLocation := zero, Iprev := -1 }
  let s ← blockLoopFast c env n intensity B jumpSize nSteps (B.length + 1)
    (min (-1 + jumpSize) (nSteps - 1)) s0
  let pmfgen ← computeArrayFast c.toFastCode (3 * B.length) env s.pmfgen (n - nSteps + 1) (intensity *ᶠ (one -ᶠ s.IprevLocation))
  let oS ← addrOf s.buffers.src nSteps
  let oD ← addrOf s.buffers.dest nSteps
  let (_, dest) ← ncConvolveFast c.toFastCode (3 * B.length) env true s.conv (n - nSteps + 1) pmfgen.pmfArray s.buffers.src oS
    s.buffers.dest oD
  wrBlock dest 0 (List.replicate nSteps.toNat zero)

/-- `ecdf1_new_B` as compiled.  src/ecdf1_new.cc:114-128 -/
def ecdf1NewBFast (c : FastCodeNew F) (env : Env F) (isqrt : Nat → Nat) (B : List F) : M F := do
  let n : Int := B.length
  checkBoundaryVector "B" n B
  let k : Int := (isqrt B.length : Int) + 1
  let probs ← poissonBNoncrossingProbabilityN2Fast c env n (ofInt n) B k
  let x ← rd probs n
  quotFast c.toFastCode (3 * B.length + 1) env x (ofInt n) n

/-- `ecdf1_new_b` as compiled.  src/ecdf1_new.cc:131-143 -/
def ecdf1NewbFast (c : FastCodeNew F) (env : Env F) (isqrt : Nat → Nat) (b : List F) : M F := do
  let n : Int := b.length
  checkBoundaryVector "b" n b
  let steps ← symmetricSteps b
  ecdf1NewBFast c env isqrt steps

end CP
