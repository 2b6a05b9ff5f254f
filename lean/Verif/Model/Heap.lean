import Verif.Model.Ecdf2
import Verif.Model.Ecdf1New
import Verif.Model.Mns2016
/-
Ownership of memory blocks and FFTW plans.  The functions of src/ecdf2.cc, src/ecdf1_new.cc and src/ecdf1_mns2016.cc once
more, together with the objects that own memory obtained from `_mm_malloc` or plans obtained from FFTW: each definition is the
definition of the same name (without the final `H`) in `Verif.Model`, line by line, with constructors and destructors made
explicit.  Exceptions unwind the stack (destructors of the objects in scope run); a failed assertion, undefined behaviour and
non-termination do not.  Memory owned by `std::vector` is not tracked.
-/
namespace CP
variable {F : Type} [FOps F]
open FOps

/-- What outlives a C++ function call: handles of live blocks and plans, the next unused handle, and the plan vectors of
the one `FFTWConvolver` object a call creates (handle and size of each plan; `none` is `NULL`). -/
structure HWorld where
  next : Nat
  live : List Nat
  r2c : List (Option (Nat × Int))
  c2r : List (Option (Nat × Int))

/-- Computations that change the world and may fault; the world survives a fault. -/
def HM (α : Type) : Type := HWorld → M α × HWorld

instance : Monad HM where
  pure a := fun w => (.ok a, w)
  bind x f := fun w =>
    match x w with
    | (.ok a, w') => f a w'
    | (.error e, w') => (.error e, w')

namespace HM

/-- A computation that allocates and frees nothing. -/
def lift {α : Type} (m : M α) : HM α := fun w => (m, w)

/-- `_mm_malloc`, `fftw_plan_*`: a new handle.  src/aligned_mem.hh:10-18 -/
def alloc : HM Nat := fun w => (.ok w.next, { w with next := w.next + 1, live := w.next :: w.live })

/-- `_mm_free`, `fftw_destroy_plan`: freeing what is not live is undefined behaviour.  src/aligned_mem.hh:21-24 -/
def free (h : Nat) : HM Unit := fun w =>
  if h ∈ w.live then (.ok (), { w with live := w.live.erase h }) else (.error (.ub "double free"), w)

/-- Read the plan vectors. -/
def getR2C : HM (List (Option (Nat × Int))) := fun w => (.ok w.r2c, w)
/-- Read the plan vectors. -/
def getC2R : HM (List (Option (Nat × Int))) := fun w => (.ok w.c2r, w)
/-- Change the plan vectors. -/
def setR2C (l : List (Option (Nat × Int))) : HM Unit := fun w => (.ok (), { w with r2c := l })
/-- Change the plan vectors. -/
def setC2R (l : List (Option (Nat × Int))) : HM Unit := fun w => (.ok (), { w with c2r := l })

/-- Whether the stack is unwound, i.e. destructors run. -/
def unwinds {α : Type} : M α → Bool
  | .ok _ => true
  | .error (.runtimeError _) => true
  | .error .ioFailure => true
  | .error _ => false

/-- A scope holding one object: its destructor runs when the scope is left normally or by an exception. -/
def withDtor {α : Type} (dtor : HM Unit) (body : HM α) : HM α := fun w =>
  match body w with
  | (r, w1) =>
    if unwinds r then
      match dtor w1 with
      | (.ok _, w2) => (r, w2)
      | (.error e, w2) => (.error e, w2)
    else (r, w1)

/-- `for (int i = lo; i < hi; ++i)`. -/
def forAux {σ : Type} (body : Int → σ → HM σ) : Nat → Int → σ → HM σ
  | 0, _, s => pure s
  | k + 1, i, s => do
    let s' ← body i s
    forAux body k (i + 1) s'

/-- `for (int i = lo; i < hi; ++i)`. -/
def forRange {σ : Type} (lo hi : Int) (s : σ) (body : Int → σ → HM σ) : HM σ :=
  forAux body (hi - lo).toNat lo s

end HM
open HM

/-! ## Objects that own memory -/

/-- Constructor of `PoissonPMFGenerator`: two blocks.  src/poisson_pmf.cc:10-23 -/
def PmfGen.newH (env : Env F) (maxK : Int) : HM (PmfGen F × Nat × Nat) := do
  let g ← lift (PmfGen.new env maxK)
  let lut ← alloc
  let arr ← alloc
  pure (g, lut, arr)

/-- Destructor.  src/poisson_pmf.cc:25-29 -/
def PmfGen.deleteH (lut arr : Nat) : HM Unit := do
  free arr
  free lut

/-- Handles of the five buffers of an `FFTWConvolver`. -/
structure ConvHandles where
  r2cIn : Nat
  r2cOut : Nat
  c2rIn : Nat
  c2rOut : Nat
  tmpComplex : Nat

namespace Convolver

/-- Constructor.  src/fftwconvolver.cc:28-42 -/
def newH (env : Env F) (maximumInputSize : Int) : HM (Convolver F × ConvHandles) := do
  let slots := ((roundUp (2 * maximumInputSize) ROUNDING).tdiv ROUNDING).toNat
  setR2C (List.replicate slots none)
  setC2R (List.replicate slots none)
  let r2cIn ← alloc
  let r2cOut ← alloc
  let c2rIn ← alloc
  let c2rOut ← alloc
  let tmpComplex ← alloc
  pure (Convolver.new env maximumInputSize, ⟨r2cIn, r2cOut, c2rIn, c2rOut, tmpComplex⟩)

/-- Destroy the plans that exist.  src/fftwconvolver.cc:148-152, 154-158 -/
def destroyPlansH : List (Option (Nat × Int)) → HM Unit
  | [] => pure ()
  | none :: l => destroyPlansH l
  | some (h, _) :: l => do
    free h
    destroyPlansH l

/-- Destructor.  The plan vectors cease to exist.  src/fftwconvolver.cc:146-167 -/
def deleteH (hs : ConvHandles) : HM Unit := do
  let r2c ← getR2C
  destroyPlansH r2c
  let c2r ← getC2R
  destroyPlansH c2r
  free hs.r2cIn
  free hs.r2cOut
  free hs.c2rIn
  free hs.c2rOut
  free hs.tmpComplex
  setR2C []
  setC2R []

/-- `memoized_r2c_plan`.  src/fftwconvolver.cc:68-81 -/
def memoizedR2CH (env : Env F) (roundedSize : Int) : HM Int := do
  lift (assertC env.asserts (decide (0 < roundedSize)) "rounded_size > 0")
  lift (assertC env.asserts (decide (roundedSize.tmod ROUNDING = 0)) "(rounded_size % ROUNDING) == 0")
  let plans ← getR2C
  let index := roundedSize.tdiv ROUNDING - 1
  lift (assertC env.asserts (decide (0 ≤ index ∧ index < (plans.length : Int))) "index < plans.size()")
  let p ← lift (rd plans index)
  match p with
  | none => do
    let h ← alloc
    let plans' ← lift (wr plans index (some (h, roundedSize)))
    setR2C plans'
    pure roundedSize
  | some (_, sz) => pure sz

/-- `memoized_c2r_plan`.  src/fftwconvolver.cc:83-96 -/
def memoizedC2RH (env : Env F) (roundedSize : Int) : HM Int := do
  lift (assertC env.asserts (decide (0 < roundedSize)) "rounded_size > 0")
  lift (assertC env.asserts (decide (roundedSize.tmod ROUNDING = 0)) "(rounded_size % ROUNDING) == 0")
  let plans ← getC2R
  let index := roundedSize.tdiv ROUNDING - 1
  lift (assertC env.asserts (decide (0 ≤ index ∧ index < (plans.length : Int))) "index < plans.size()")
  let p ← lift (rd plans index)
  match p with
  | none => do
    let h ← alloc
    let plans' ← lift (wr plans index (some (h, roundedSize)))
    setC2R plans'
    pure roundedSize
  | some (_, sz) => pure sz

/-- The sizes of the plans in a plan vector. -/
def planSizes (l : List (Option (Nat × Int))) : List (Option Int) := l.map (Option.map Prod.snd)

/-- `FFTWConvolver::convolve_same_size`.  src/fftwconvolver.cc:105-144 -/
def convolveH (env : Env F) (cv : Convolver F) (size : Int) (inputA : List F) (oa : Int)
    (inputB : List F) (ob : Int) (output : List F) (oo : Int) :
    HM (Convolver F × List F) := do
  if size > cv.maximumInputSize then
    lift (.error (.runtimeError (sizeMsg size cv.maximumInputSize)))
  else if size ≤ 0 then pure (cv, output)
  else if size < MINIMUM_SIZE_FOR_FFTW_CONVOLUTION then do
    let output ← lift (convolveSameSize size inputA oa inputB ob output oo)
    pure (cv, output)
  else do
    let paddedSize := roundUp (2 * size) ROUNDING
    let r2cIn ← lift (copyZeroPadded inputA oa cv.r2cIn size paddedSize)
    let plan ← memoizedR2CH env paddedSize
    let (r2cIn, tmpComplex) ← lift (execR2C env plan r2cIn cv.tmpComplex)
    let r2cIn ← lift (copyZeroPadded inputB ob r2cIn size paddedSize)
    let plan ← memoizedR2CH env paddedSize
    let (r2cIn, r2cOut) ← lift (execR2C env plan r2cIn cv.r2cOut)
    let c2rIn ← lift (elementwiseComplexProduct (paddedSize.tdiv 2 + 1) tmpComplex r2cOut cv.c2rIn
      (one /ᶠ ofInt paddedSize))
    let plan ← memoizedC2RH env paddedSize
    let (c2rIn, c2rOut) ← lift (execC2R env plan c2rIn cv.c2rOut)
    let res ← lift (rdBlock c2rOut 0 size)
    let output ← lift (wrBlock output oo res)
    let r2c ← getR2C
    let c2r ← getC2R
    pure ({ cv with r2cPlans := planSizes r2c, c2rPlans := planSizes c2r, r2cIn := r2cIn, r2cOut := r2cOut,
                    c2rIn := c2rIn, c2rOut := c2rOut, tmpComplex := tmpComplex }, output)

end Convolver

/-! ## src/ecdf2.cc -/

/-- src/ecdf2.cc:100-104 -/
def ncConvolveH (env : Env F) (useFft : Bool) (conv : Convolver F) (curSize : Int) (pmf : List F)
    (src : List F) (oS : Int) (dest : List F) (oD : Int) : HM (Convolver F × List F) :=
  if useFft then conv.convolveH env curSize pmf 0 src oS dest oD
  else do
    let d ← lift (convolveSameSize curSize pmf 0 src oS dest oD)
    pure (conv, d)

/-- src/ecdf2.cc:94-114 -/
def ncStepH (env : Env F) (intensity : F) (useFft : Bool) (s : NCState F) (bd : Bound F) :
    HM (NCState F) := do
  let curSize := s.bStep - s.BStep + 1
  let lambda := intensity *ᶠ (bd.location -ᶠ s.prev)
  if lt zero lambda then do
    let pmfgen ← lift (s.pmfgen.computeArray env curSize lambda)
    let oS ← lift (addrOf s.buffers.src s.BStep)
    let oD ← lift (addrOf s.buffers.dest s.BStep)
    let (conv, dest) ← ncConvolveH env useFft s.conv curSize pmfgen.pmfArray s.buffers.src oS
      s.buffers.dest oD
    let (dest, bc, Bc) ← lift (updateDestBufferAndStepCounts bd.tag dest s.bStep s.BStep)
    pure { buffers := (s.buffers.setDest dest).flip, conv := conv, pmfgen := pmfgen,
           bStep := bc, BStep := Bc, prev := bd.location }
  else if eq lambda zero then do
    let (src, bc, Bc) ← lift (updateDestBufferAndStepCounts bd.tag s.buffers.src s.bStep s.BStep)
    pure { s with buffers := s.buffers.setSrc src, bStep := bc, BStep := Bc, prev := bd.location }
  else
    lift (.error (.runtimeError negLambdaMsg))

/-- src/ecdf2.cc:79-116 -/
def poissonProcessNoncrossingProbabilityH (env : Env F) (sort : List (Bound F) → List (Bound F))
    (n : Int) (intensity : F) (b B : List F) (useFft : Bool) : HM (List F) := do
  let bounds := joinAllBounds sort b B
  let buffers : DoubleBuffer F := DoubleBuffer.new (n + 1) zero
  let src ← lift (wr buffers.src 0 one)
  let (conv, hs) ← Convolver.newH env (n + 1)
  withDtor (Convolver.deleteH hs) do
    let (pmfgen, lut, arr) ← PmfGen.newH env (n + 1)
    withDtor (PmfGen.deleteH lut arr) do
      let s0 : NCState F :=
        { buffers := buffers.setSrc src, conv := conv, pmfgen := pmfgen, bStep := 0, BStep := 0, prev := zero }
      let s ← bounds.foldlM (ncStepH env intensity useFft) s0
      pure s.buffers.src

/-- src/ecdf2.cc:118-127 -/
def ecdf2H (env : Env F) (sort : List (Bound F) → List (Bound F)) (b B : List F) (useFft : Bool) :
    HM F := do
  let n : Int := b.length
  lift (checkBoundaryVector "b" n b)
  lift (checkBoundaryVector "B" n B)
  let probs ← poissonProcessNoncrossingProbabilityH env sort n (ofInt n) b B useFft
  let x ← lift (rd probs n)
  let p ← lift (poissonPmf env (ofInt n) n)
  pure (x /ᶠ p)

/-! ## src/ecdf1_new.cc -/

/-- src/ecdf1_new.cc:66-82 -/
def miniStepH (env : Env F) (n : Int) (intensity : F) (B : List F) (Iprev I : Int) (i : Int)
    (s : MiniState F) : HM (MiniState F) := do
  let Bi ← lift (rd B i)
  let pmfgen ← lift (s.pmfgen.computeArray env (I - i + 1) (intensity *ᶠ (Bi -ᶠ s.iPrevLocation)))
  let oS ← lift (addrOf s.minibuffers.src (i - Iprev - 1))
  let oD ← lift (addrOf s.minibuffers.dest (i - Iprev - 1))
  let (conv, md) ← s.conv.convolveH env (I - i + 1) pmfgen.pmfArray 0 s.minibuffers.src oS
    s.minibuffers.dest oD
  let probExitNow ← lift (rd md (i - Iprev - 1))
  let BI ← lift (rd B I)
  let lambda := intensity *ᶠ (BI -ᶠ Bi)
  let dest ← lift (CP.forRange (I + 1) (n + 1) s.dest fun j dest => do
    let dj ← rd dest j
    let p ← pmfgen.evaluatePmf env lambda (j - i)
    wr dest j (dj -ᶠ probExitNow *ᶠ p))
  let md ← lift (wr md (i - Iprev - 1) zero)
  let ms ← lift (wr s.minibuffers.src (i - Iprev - 1) zero)
  pure { dest := dest, minibuffers := ((s.minibuffers.setDest md).setSrc ms).flip, conv := conv,
         pmfgen := pmfgen, iPrevLocation := Bi }

/-- src/ecdf1_new.cc:46-88 -/
def blockStepH (env : Env F) (n : Int) (intensity : F) (B : List F) (I : Int)
    (s : BlockState F) : HM (BlockState F) := do
  let BI ← lift (rd B I)
  let pmfgen ← lift (s.pmfgen.computeArray env (n - s.Iprev) (intensity *ᶠ (BI -ᶠ s.IprevLocation)))
  let oS ← lift (addrOf s.buffers.src (s.Iprev + 1))
  let (conv, tmp) ← s.conv.convolveH env (n - s.Iprev) pmfgen.pmfArray 0 s.buffers.src oS s.tmp 0
  let _ ← lift (addrOf s.buffers.dest 0)
  let _ ← lift (addrOf s.buffers.dest (I + 1))
  let dest ← lift (wrBlock s.buffers.dest 0 (List.replicate (I + 1).toNat zero))
  let xs ← lift (rdBlock tmp (I - s.Iprev) ((n - s.Iprev) - (I - s.Iprev)))
  let dest ← lift (wrBlock dest (I + 1) xs)
  let _ ← lift (addrOf s.buffers.src (I + 1))
  let _ ← lift (addrOf s.minibuffers.src 0)
  let ys ← lift (rdBlock s.buffers.src (s.Iprev + 1) ((I + 1) - (s.Iprev + 1)))
  let ms ← lift (wrBlock s.minibuffers.src 0 ys)
  let m0 : MiniState F :=
    { dest := dest, minibuffers := s.minibuffers.setSrc ms, conv := conv, pmfgen := pmfgen,
      iPrevLocation := s.IprevLocation }
  let m ← HM.forRange (s.Iprev + 1) I m0 (miniStepH env n intensity B s.Iprev I)
  pure { buffers := (s.buffers.setDest m.dest).flip, minibuffers := m.minibuffers, conv := m.conv,
         pmfgen := m.pmfgen, tmp := tmp, IprevLocation := BI, Iprev := I }

/-- src/ecdf1_new.cc:42-96 -/
def blockLoopH (env : Env F) (n : Int) (intensity : F) (B : List F) (jumpSize nSteps : Int) :
    Nat → Int → BlockState F → HM (BlockState F)
  | 0, _, _ => lift (.error .diverge)
  | fuel + 1, I, s => do
    let s ← blockStepH env n intensity B I s
    if I = nSteps - 1 then pure s
    else blockLoopH env n intensity B jumpSize nSteps fuel (min (I + jumpSize) (nSteps - 1)) s

/-- The block `tmp` is a raw pointer: an exception does not free it.  src/ecdf1_new.cc:24-112 -/
def poissonBNoncrossingProbabilityN2H (env : Env F) (n : Int) (intensity : F) (B : List F)
    (jumpSize : Int) : HM (List F) := do
  lift (assertC env.asserts (decide (jumpSize ≤ n)) "jump_size <= n")
  let buffers : DoubleBuffer F := DoubleBuffer.new (n + 1) zero
  let minibuffers : DoubleBuffer F := DoubleBuffer.new jumpSize zero
  let src ← lift (wr buffers.src 0 one)
  let (conv, hs) ← Convolver.newH env (n + 1)
  withDtor (Convolver.deleteH hs) do
    let (pmfgen, lut, arr) ← PmfGen.newH env (n + 1)
    withDtor (PmfGen.deleteH lut arr) do
      let tmp ← alloc
      let nSteps : Int := B.length
      let s0 : BlockState F :=
        { buffers := buffers.setSrc src, minibuffers := minibuffers, conv := conv,
          pmfgen := pmfgen, tmp := allocDoubles env 20 (n + 1), IprevLocation := zero, Iprev := -1 }
      let s ← blockLoopH env n intensity B jumpSize nSteps (B.length + 1)
        (min (-1 + jumpSize) (nSteps - 1)) s0
      let pmfgen ← lift (s.pmfgen.computeArray env (n - nSteps + 1) (intensity *ᶠ (one -ᶠ s.IprevLocation)))
      let oS ← lift (addrOf s.buffers.src nSteps)
      let oD ← lift (addrOf s.buffers.dest nSteps)
      let (_, dest) ← s.conv.convolveH env (n - nSteps + 1) pmfgen.pmfArray 0 s.buffers.src oS
        s.buffers.dest oD
      let dest ← lift (wrBlock dest 0 (List.replicate nSteps.toNat zero))
      free tmp
      pure dest

/-- src/ecdf1_new.cc:114-128 -/
def ecdf1NewBH (env : Env F) (isqrt : Nat → Nat) (B : List F) : HM F := do
  let n : Int := B.length
  lift (checkBoundaryVector "B" n B)
  let k : Int := (isqrt B.length : Int) + 1
  let probs ← poissonBNoncrossingProbabilityN2H env n (ofInt n) B k
  let x ← lift (rd probs n)
  let p ← lift (poissonPmf env (ofInt n) n)
  pure (x /ᶠ p)

/-- src/ecdf1_new.cc:131-143 -/
def ecdf1NewbH (env : Env F) (isqrt : Nat → Nat) (b : List F) : HM F := do
  let n : Int := b.length
  lift (checkBoundaryVector "b" n b)
  let steps ← lift (symmetricSteps b)
  ecdf1NewBH env isqrt steps

/-! ## src/ecdf1_mns2016.cc -/

/-- Constructor of `PolynomialTranslatedMonomials`: two blocks.  src/ecdf1_mns2016.cc:93-101 -/
def Poly.newH (env : Env F) (maxDegree : Int) : HM (Poly F × Nat × Nat) := do
  let p ← lift (Poly.new env maxDegree)
  let mult ← alloc
  let add ← alloc
  pure (p, mult, add)

/-- Destructor.  src/ecdf1_mns2016.cc:103-107 -/
def Poly.deleteH (mult add : Nat) : HM Unit := do
  free mult
  free add

/-- src/ecdf1_mns2016.cc:197-242 -/
def ecdf1Mns2016bH (env : Env F) (b : List F) : HM F := do
  let n : Int := b.length
  lift (checkBoundaryVector "b" n b)
  let (p, hm, ha) ← Poly.newH env (n + 1)
  withDtor (Poly.deleteH hm ha) do
    let p ← lift (p.setMult env 0 one)
    let (p, delta) ← lift (CP.forRange 0 n (p, (0 : Int)) (mnsStep env (fun _ x => frexpExp x) b))
    let integralResult ← lift (p.evaluate (ofInt 1))
    let logIntegralResult := log integralResult
    pure (exp (lgamma (ofInt (n + 1)) +ᶠ logIntegralResult -ᶠ ofInt delta *ᶠ log (ofInt 2)))

/-- src/ecdf1_mns2016.cc:244-255 -/
def ecdf1Mns2016BH (env : Env F) (B : List F) : HM F := do
  let n : Int := B.length
  lift (checkBoundaryVector "B" n B)
  let steps ← lift (symmetricSteps B)
  ecdf1Mns2016bH env steps

end CP
