import Verif.Model.Fftw
/-
Model of src/ecdf1_new.cc.
-/
namespace CP
variable {F : Type} [FOps F]
open FOps

/-- State of the inner loop over `i` (first-exit subtraction).  src/ecdf1_new.cc:64-83 -/
structure MiniState (F : Type) where
  dest : List F
  minibuffers : DoubleBuffer F
  conv : Convolver F
  pmfgen : PmfGen F
  iPrevLocation : F

/-- One iteration of the inner loop.  src/ecdf1_new.cc:66-82 -/
def miniStep (env : Env F) (n : Int) (intensity : F) (B : List F) (Iprev I : Int) (i : Int)
    (s : MiniState F) : M (MiniState F) := do
  let Bi ← rd B i
  let pmfgen ← s.pmfgen.computeArray env (I - i + 1) (intensity *ᶠ (Bi -ᶠ s.iPrevLocation))
  let oS ← addrOf s.minibuffers.src (i - Iprev - 1)
  let oD ← addrOf s.minibuffers.dest (i - Iprev - 1)
  let (conv, md) ← s.conv.convolve env (I - i + 1) pmfgen.pmfArray 0 s.minibuffers.src oS
    s.minibuffers.dest oD
  let probExitNow ← rd md (i - Iprev - 1)
  let BI ← rd B I
  let lambda := intensity *ᶠ (BI -ᶠ Bi)
  let dest ← forRange (I + 1) (n + 1) s.dest fun j dest => do
    let dj ← rd dest j
    let p ← pmfgen.evaluatePmf env lambda (j - i)
    wr dest j (dj -ᶠ probExitNow *ᶠ p)
  let md ← wr md (i - Iprev - 1) zero
  let ms ← wr s.minibuffers.src (i - Iprev - 1) zero
  .ok { dest := dest, minibuffers := ((s.minibuffers.setDest md).setSrc ms).flip, conv := conv,
        pmfgen := pmfgen, iPrevLocation := Bi }

/-- State of the `while (true)` loop.  src/ecdf1_new.cc:42-96 -/
structure BlockState (F : Type) where
  buffers : DoubleBuffer F
  minibuffers : DoubleBuffer F
  conv : Convolver F
  pmfgen : PmfGen F
  tmp : List F
  IprevLocation : F
  Iprev : Int

/-- Body of the `while (true)` loop up to the `break` test.  src/ecdf1_new.cc:46-88 -/
def blockStep (env : Env F) (n : Int) (intensity : F) (B : List F) (I : Int)
    (s : BlockState F) : M (BlockState F) := do
  let BI ← rd B I
  let pmfgen ← s.pmfgen.computeArray env (n - s.Iprev) (intensity *ᶠ (BI -ᶠ s.IprevLocation))
  let oS ← addrOf s.buffers.src (s.Iprev + 1)
  let (conv, tmp) ← s.conv.convolve env (n - s.Iprev) pmfgen.pmfArray 0 s.buffers.src oS s.tmp 0
  -- fill(&dest[0], &dest[I+1], 0.0)
  let _ ← addrOf s.buffers.dest 0
  let _ ← addrOf s.buffers.dest (I + 1)
  let dest ← wrBlock s.buffers.dest 0 (List.replicate (I + 1).toNat zero)
  -- copy(&tmp[I-I_prev], &tmp[n-I_prev], &dest[I+1])
  let xs ← rdBlock tmp (I - s.Iprev) ((n - s.Iprev) - (I - s.Iprev))
  let dest ← wrBlock dest (I + 1) xs
  -- copy(&src[I_prev+1], &src[I+1], &mini_src[0])
  let _ ← addrOf s.buffers.src (I + 1)
  let _ ← addrOf s.minibuffers.src 0
  let ys ← rdBlock s.buffers.src (s.Iprev + 1) ((I + 1) - (s.Iprev + 1))
  let ms ← wrBlock s.minibuffers.src 0 ys
  let m0 : MiniState F :=
    { dest := dest, minibuffers := s.minibuffers.setSrc ms, conv := conv, pmfgen := pmfgen,
      iPrevLocation := s.IprevLocation }
  let m ← forRange (s.Iprev + 1) I m0 (miniStep env n intensity B s.Iprev I)
  .ok { buffers := (s.buffers.setDest m.dest).flip, minibuffers := m.minibuffers, conv := m.conv,
        pmfgen := m.pmfgen, tmp := tmp, IprevLocation := BI, Iprev := I }

/-- The `while (true)` loop, with fuel.  Each iteration advances `I` by at least one when
`jump_size >= 1`, so fuel `n_steps` suffices (that it does is part of the theorems); running out
of fuel is reported as `diverge`.  src/ecdf1_new.cc:42-96 -/
def blockLoop (env : Env F) (n : Int) (intensity : F) (B : List F) (jumpSize nSteps : Int) :
    Nat → Int → BlockState F → M (BlockState F)
  | 0, _, _ => .error .diverge
  | fuel + 1, I, s => do
    let s ← blockStep env n intensity B I s
    if I = nSteps - 1 then .ok s
    else blockLoop env n intensity B jumpSize nSteps fuel (min (I + jumpSize) (nSteps - 1)) s

/-- `poisson_B_noncrossing_probability_n2`.  src/ecdf1_new.cc:24-112 -/
def poissonBNoncrossingProbabilityN2 (env : Env F) (n : Int) (intensity : F) (B : List F)
    (jumpSize : Int) : M (List F) := do
  assertC env.asserts (decide (jumpSize ≤ n)) "jump_size <= n"
  let buffers : DoubleBuffer F := DoubleBuffer.new (n + 1) zero
  let minibuffers : DoubleBuffer F := DoubleBuffer.new jumpSize zero
  let src ← wr buffers.src 0 one
  let pmfgen ← PmfGen.new env (n + 1)
  let nSteps : Int := B.length
  let s0 : BlockState F :=
    { buffers := buffers.setSrc src, minibuffers := minibuffers, conv := Convolver.new env (n + 1),
      pmfgen := pmfgen, tmp := allocDoubles env 20 (n + 1), IprevLocation := zero, Iprev := -1 }
  let s ← blockLoop env n intensity B jumpSize nSteps (B.length + 1)
    (min (-1 + jumpSize) (nSteps - 1)) s0
  -- final step
  let pmfgen ← s.pmfgen.computeArray env (n - nSteps + 1) (intensity *ᶠ (one -ᶠ s.IprevLocation))
  let oS ← addrOf s.buffers.src nSteps
  let oD ← addrOf s.buffers.dest nSteps
  let (_, dest) ← s.conv.convolve env (n - nSteps + 1) pmfgen.pmfArray 0 s.buffers.src oS
    s.buffers.dest oD
  wrBlock dest 0 (List.replicate nSteps.toNat zero)

/-- `ecdf1_new_B`.  `int k = sqrt(n) + 1` is modelled with the integer square root (exact for
every `int`).  src/ecdf1_new.cc:114-128 -/
def ecdf1NewB (env : Env F) (isqrt : Nat → Nat) (B : List F) : M F := do
  let n : Int := B.length
  checkBoundaryVector "B" n B
  let k : Int := (isqrt B.length : Int) + 1
  let probs ← poissonBNoncrossingProbabilityN2 env n (ofInt n) B k
  let x ← rd probs n
  let p ← poissonPmf env (ofInt n) n
  .ok (x /ᶠ p)

/-- `symmetric_steps`: loop `steps[i] = 1.0 - v[n-1-i]`.
src/ecdf1_new.cc:137-140, src/ecdf1_mns2016.cc:249-252 -/
def symmetricSteps (v : List F) : M (List F) :=
  let n : Int := v.length
  forRange 0 n (List.replicate v.length (zero : F)) fun i steps => do
    let x ← rd v (n - 1 - i)
    wr steps i (one -ᶠ x)

/-- `ecdf1_new_b`.  src/ecdf1_new.cc:131-143 -/
def ecdf1Newb (env : Env F) (isqrt : Nat → Nat) (b : List F) : M F := do
  let n : Int := b.length
  checkBoundaryVector "b" n b
  let steps ← symmetricSteps b
  ecdf1NewB env isqrt steps

end CP
