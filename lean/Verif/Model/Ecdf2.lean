import Verif.Model.Fftw
/-
Model of src/ecdf2.cc.
-/
namespace CP
variable {F : Type} [FOps F]
open FOps

/-- `enum BoundType`.  src/ecdf2.cc:21 -/
inductive BoundType where
  | bSTEP
  | BSTEP
  | END
deriving DecidableEq, Repr

/-- `struct Bound`.  src/ecdf2.cc:23-26 -/
structure Bound (F : Type) where
  location : F
  tag : BoundType

/-- The elements handed to `std::sort`.  src/ecdf2.cc:41-51 -/
def unsortedBounds (b B : List F) : List (Bound F) :=
  b.map (fun x => ⟨x, .bSTEP⟩) ++ B.map (fun x => ⟨x, .BSTEP⟩)

/-- `join_all_bounds`, with the result of `std::sort` (which is only specified up to the order of
equal elements) given by `sort`.  src/ecdf2.cc:34-60 -/
def joinAllBounds (sort : List (Bound F) → List (Bound F)) (b B : List F) : List (Bound F) :=
  sort (unsortedBounds b B) ++ [⟨one, .END⟩]

/-- `update_dest_buffer_and_step_counts`: returns (buffer, b_step_count, B_step_count).  The branch
that throws "Expecting END tag" is unreachable for a C++ enum holding one of its three values and has
no counterpart.  src/ecdf2.cc:62-76 -/
def updateDestBufferAndStepCounts (tag : BoundType) (buf : List F) (bc Bc : Int) :
    M (List F × Int × Int) :=
  match tag with
  | .bSTEP => do
    let bc := bc + 1
    let buf ← wr buf bc zero
    .ok (buf, bc, Bc)
  | .BSTEP => do
    let buf ← wr buf Bc zero
    .ok (buf, bc, Bc + 1)
  | .END => .ok (buf, bc, Bc)

/-- Loop state of `poisson_process_noncrossing_probability`. -/
structure NCState (F : Type) where
  buffers : DoubleBuffer F
  conv : Convolver F
  pmfgen : PmfGen F
  bStep : Int
  BStep : Int
  prev : F

/-- The runtime error of the `lambda < 0` (or NaN) branch.  src/ecdf2.cc:111 -/
def negLambdaMsg : String :=
  "lambda<0 in poisson_process_noncrossing_probability(). This should never happen."

/-- The choice of convolution routine inside the loop; source and destination start at offsets `oS`,
`oD`.  src/ecdf2.cc:100-104 -/
def ncConvolve (env : Env F) (useFft : Bool) (conv : Convolver F) (curSize : Int) (pmf : List F)
    (src : List F) (oS : Int) (dest : List F) (oD : Int) : M (Convolver F × List F) :=
  if useFft then conv.convolve env curSize pmf 0 src oS dest oD
  else do
    let d ← convolveSameSize curSize pmf 0 src oS dest oD
    .ok (conv, d)

/-- One iteration of the loop over the joined bounds.  src/ecdf2.cc:94-114 -/
def ncStep (env : Env F) (intensity : F) (useFft : Bool) (s : NCState F) (bd : Bound F) :
    M (NCState F) := do
  let curSize := s.bStep - s.BStep + 1
  let lambda := intensity *ᶠ (bd.location -ᶠ s.prev)
  if lt zero lambda then do
    let pmfgen ← s.pmfgen.computeArray env curSize lambda
    let oS ← addrOf s.buffers.src s.BStep
    let oD ← addrOf s.buffers.dest s.BStep
    let (conv, dest) ← ncConvolve env useFft s.conv curSize pmfgen.pmfArray s.buffers.src oS
      s.buffers.dest oD
    let (dest, bc, Bc) ← updateDestBufferAndStepCounts bd.tag dest s.bStep s.BStep
    .ok { buffers := (s.buffers.setDest dest).flip, conv := conv, pmfgen := pmfgen,
          bStep := bc, BStep := Bc, prev := bd.location }
  else if eq lambda zero then do
    let (src, bc, Bc) ← updateDestBufferAndStepCounts bd.tag s.buffers.src s.bStep s.BStep
    .ok { s with buffers := s.buffers.setSrc src, bStep := bc, BStep := Bc, prev := bd.location }
  else
    .error (.runtimeError negLambdaMsg)

/-- `poisson_process_noncrossing_probability`.  src/ecdf2.cc:79-116 -/
def poissonProcessNoncrossingProbability (env : Env F) (sort : List (Bound F) → List (Bound F))
    (n : Int) (intensity : F) (b B : List F) (useFft : Bool) : M (List F) := do
  let bounds := joinAllBounds sort b B
  let buffers : DoubleBuffer F := DoubleBuffer.new (n + 1) zero
  let src ← wr buffers.src 0 one
  let pmfgen ← PmfGen.new env (n + 1)
  let s0 : NCState F :=
    { buffers := buffers.setSrc src, conv := Convolver.new env (n + 1), pmfgen := pmfgen,
      bStep := 0, BStep := 0, prev := zero }
  let s ← bounds.foldlM (ncStep env intensity useFft) s0
  .ok s.buffers.src

/-- `ecdf2`.  src/ecdf2.cc:118-127 -/
def ecdf2 (env : Env F) (sort : List (Bound F) → List (Bound F)) (b B : List F) (useFft : Bool) :
    M F := do
  let n : Int := b.length
  checkBoundaryVector "b" n b
  checkBoundaryVector "B" n B
  let probs ← poissonProcessNoncrossingProbability env sort n (ofInt n) b B useFft
  let x ← rd probs n
  let p ← poissonPmf env (ofInt n) n
  .ok (x /ᶠ p)

end CP
